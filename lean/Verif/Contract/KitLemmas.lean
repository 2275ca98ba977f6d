import Verif.Contract.Small
import Verif.Contract.SwapLemmas
/-
  Facts about `send`, `mint` and histories.
-/
namespace Verif.Contract

open Res

variable {S C : Type}

theorem upd_self (f : Nat → Nat) (k v : Nat) : upd f k v k = v := by simp [upd]

theorem upd_ne (f : Nat → Nat) {k v x : Nat} (h : x ≠ k) : upd f k v x = f x := by simp [upd, h]

theorem paid_append (a b : List Pay) (c : Nat) : paid (a ++ b) c = paid a c + paid b c := by
  simp [paid, List.filter_append]

theorem paid_nil (c : Nat) : paid [] c = 0 := rfl

theorem paid_one (p : Pay) (c : Nat) : paid [p] c = if p.cur = c then p.amount else 0 := by
  unfold paid; by_cases h : p.cur = c <;> simp [h]

theorem minted_append (a b : List Mint) : minted (a ++ b) = minted a + minted b := by
  simp [minted]

/-- The payments a successful `send` makes. -/
def sends (e : Env) (to amount cur : Nat) : List Pay :=
  if amount = 0 then [] else [⟨to, cur, amount, e.user, e.height⟩]

theorem mem_sends {e : Env} {to amount cur : Nat} {p : Pay} (h : p ∈ sends e to amount cur) :
    p = ⟨to, cur, amount, e.user, e.height⟩ ∧ 0 < amount := by
  unfold sends at h
  split at h
  · cases h
  · exact ⟨List.mem_singleton.1 h, by omega⟩

theorem paid_sends (e : Env) (to amount cur c : Nat) :
    paid (sends e to amount cur) c = if cur = c then amount else 0 := by
  unfold sends
  split
  · rw [paid_nil]; split <;> omega
  · rw [paid_one]

/-- Between `w` and `w'` the payments `l` left the contract and nothing else happened. -/
structure Sent (w w' : W S) (l : List Pay) : Prop where
  st : w'.st = w.st
  pays : w'.pays = w.pays ++ l
  mints : w'.mints = w.mints
  got : w'.got = w.got
  bal : ∀ c, w'.bal c + paid l c = w.bal c

theorem send_sent {e : Env} {to amount cur : Nat} {w w' : W S} (h : send e to amount cur w = .ok w') :
    Sent w w' (sends e to amount cur) ∧ amount < 2 ^ 128 ∧ amount ≤ w.bal cur := by
  unfold send at h
  split at h
  · rename_i h0
    cases h
    refine ⟨⟨rfl, ?_, rfl, rfl, fun c => ?_⟩, by omega, by omega⟩
    · simp [sends, h0]
    · rw [paid_sends]; split <;> omega
  · rename_i h0
    split at h
    · cases h
    · split at h
      · cases h
      · rename_i h1 h2
        cases h
        refine ⟨⟨rfl, ?_, rfl, rfl, fun c => ?_⟩, by omega, by omega⟩
        · simp [sends, h0]
        · rw [paid_sends]
          show upd w.bal cur (w.bal cur - amount) c + _ = _
          by_cases hc : c = cur
          · subst hc; rw [upd_self, if_pos rfl]; omega
          · rw [upd_ne _ hc, if_neg (fun h => hc h.symm)]; rfl

theorem send_succeeds {e : Env} {to amount cur : Nat} {w : W S} (h1 : amount < 2 ^ 128)
    (h2 : amount ≤ w.bal cur) : ∃ w', send e to amount cur w = .ok w' := by
  unfold send
  split
  · exact ⟨_, rfl⟩
  · rw [if_neg (by omega), if_neg (by omega)]; exact ⟨_, rfl⟩

theorem sendOpt_sent {e : Env} {to : Option Nat} {amount cur : Nat} {w w' : W S}
    (h : sendOpt e to amount cur w = .ok w') :
    ∃ l, Sent w w' l ∧ (∀ p ∈ l, to = some p.to ∧ p.cur = cur ∧ p.amount = amount ∧ p.user = e.user ∧
      p.height = e.height) ∧ paid l cur = amount ∧ (∀ c, c ≠ cur → paid l c = 0) := by
  unfold sendOpt at h
  split at h
  · rename_i a
    refine ⟨_, (send_sent h).1, fun p hp => ?_, ?_, fun c hc => ?_⟩
    · have := (mem_sends hp).1; subst this; exact ⟨rfl, rfl, rfl, rfl, rfl⟩
    · rw [paid_sends, if_pos rfl]
    · rw [paid_sends, if_neg (fun h => hc h.symm)]
  · split at h
    · rename_i h0
      cases h
      exact ⟨[], ⟨rfl, by simp, rfl, rfl, fun c => by simp [paid_nil]⟩, (by simp), by simp [paid_nil, h0],
        fun c _ => rfl⟩
    · cases h

/-- A successful `mint`. -/
theorem mint_ok {e : Env} {to : Option Nat} {amount : Nat} {w w' : W S}
    (h : mint e to amount w = .ok w') :
    w'.st = w.st ∧ w'.bal = w.bal ∧ w'.pays = w.pays ∧ w'.got = w.got ∧ amount < 2 ^ 80 ∧
    ∃ l, w'.mints = w.mints ++ l ∧ minted l = amount ∧
      ∀ m ∈ l, to = some m.to ∧ m.amount = amount ∧ m.user = e.user ∧ m.height = e.height := by
  unfold mint at h
  split at h
  · rename_i h0
    cases h
    exact ⟨rfl, rfl, rfl, rfl, by omega, [], by simp, by simp [minted, h0], by simp⟩
  · split at h
    · cases h
    · split at h
      · cases h
      · cases h
        exact ⟨rfl, rfl, rfl, rfl, by omega, [_], rfl, by simp [minted], by simp⟩

theorem arriveDep_st (e : Env) (w : W S) : (arriveDep e w).st = w.st := by
  unfold arriveDep; split <;> rfl

theorem arriveDep_pays (e : Env) (w : W S) : (arriveDep e w).pays = w.pays := by
  unfold arriveDep; split <;> rfl

theorem arriveDep_mints (e : Env) (w : W S) : (arriveDep e w).mints = w.mints := by
  unfold arriveDep; split <;> rfl

/-- What holds at the start, survives arriving coins and successful calls, holds always. -/
theorem runEv_inv {exec : Env → C → W S → Res (W S)} {I : W S → Prop}
    (hr : ∀ w c a, I w → I (arrive c a w))
    (hc : ∀ e c w w', I w → exec e c w = .ok w' → I w') :
    ∀ (l : List (Ev C)) (w : W S), I w → I (runEv exec w l) := by
  intro l
  induction l with
  | nil => exact fun w h => h
  | cons ev l ih =>
    intro w h
    refine ih _ ?_
    cases ev with
    | recv c a => exact hr w c a h
    | call e c =>
      have hd : I (arriveDep e w) := by
        unfold arriveDep; split
        · exact h
        · exact hr _ _ _ h
      show I (match exec e c (arriveDep e w) with | .ok w' => w' | _ => w)
      split
      · rename_i w' hw; exact hc e c _ w' hd hw
      · exact h

/-- The same with the events of the history at hand: `P` holds of every event. -/
theorem runEv_inv_of {exec : Env → C → W S → Res (W S)} {I : W S → Prop} {P : Env → C → Prop}
    (hr : ∀ w c a, I w → I (arrive c a w))
    (hc : ∀ e c w w', P e c → I w → exec e c (arriveDep e w) = .ok w' → I w') :
    ∀ (l : List (Ev C)) (w : W S), (∀ e c, Ev.call e c ∈ l → P e c) → I w → I (runEv exec w l) := by
  intro l
  induction l with
  | nil => exact fun w _ h => h
  | cons ev l ih =>
    intro w hl h
    refine ih _ (fun e c hm => hl e c (List.mem_cons_of_mem _ hm)) ?_
    cases ev with
    | recv c a => exact hr w c a h
    | call e c =>
      show I (match exec e c (arriveDep e w) with | .ok w' => w' | _ => w)
      split
      · rename_i w' hw; exact hc e c _ w' (hl e c List.mem_cons_self) h hw
      · exact h

theorem runEv_append (exec : Env → C → W S → Res (W S)) (w : W S) (a b : List (Ev C)) :
    runEv exec w (a ++ b) = runEv exec (runEv exec w a) b := List.foldl_append

/-- Every coin received is still held or was paid out. -/
def Kept (w : W S) : Prop := ∀ c, w.got c = w.bal c + paid w.pays c

theorem Kept.fresh (s : S) : Kept (Verif.Contract.fresh s) := fun _ => rfl

theorem Kept.arrive {w : W S} (h : Kept w) (c a : Nat) : Kept (Verif.Contract.arrive c a w) := by
  intro x
  show upd w.got c (w.got c + a) x = upd w.bal c (w.bal c + a) x + paid w.pays x
  by_cases hx : x = c
  · subst hx; rw [upd_self, upd_self, h x]; omega
  · rw [upd_ne _ hx, upd_ne _ hx]; exact h x

theorem Kept.arriveDep {w : W S} (h : Kept w) (e : Env) : Kept (Verif.Contract.arriveDep e w) := by
  unfold Verif.Contract.arriveDep; split
  · exact h
  · exact h.arrive _ _

theorem Kept.sent {w w' : W S} {l : List Pay} (h : Kept w) (hs : Sent w w' l) : Kept w' := by
  intro c
  rw [hs.got, hs.pays, paid_append, h c, ← hs.bal c]; omega

/-- `Kept` does not look at the storage. -/
theorem Kept.congr {w w' : W S} (h : Kept w) (h1 : w'.bal = w.bal) (h2 : w'.pays = w.pays)
    (h3 : w'.got = w.got) : Kept w' := by
  intro c; rw [h1, h2, h3]; exact h c

theorem Sent.refl (w : W S) : Sent w w [] := ⟨rfl, by simp, rfl, rfl, fun c => by simp [paid_nil]⟩

theorem Sent.trans {w1 w2 w3 : W S} {a b : List Pay} (h1 : Sent w1 w2 a) (h2 : Sent w2 w3 b) :
    Sent w1 w3 (a ++ b) :=
  ⟨by rw [h2.st, h1.st], by rw [h2.pays, h1.pays, List.append_assoc], by rw [h2.mints, h1.mints],
    by rw [h2.got, h1.got], fun c => by rw [paid_append, ← h1.bal c, ← h2.bal c]; omega⟩

theorem Sent.mem {w w' : W S} {l : List Pay} (hs : Sent w w' l) {p : Pay} (h : p ∈ w'.pays) :
    p ∈ w.pays ∨ p ∈ l := by
  rw [hs.pays] at h; exact List.mem_append.1 h

theorem uint_ok {a : Arg} {n : Nat} (h : a.uint = .ok n) : a = .num n := by
  cases a with
  | num m => cases h; rfl
  | null => cases h
  | other => cases h

theorem depositIn_ok {e : Env} {c n : Nat} (h : depositIn e c = .ok n) : e.dep = some (c, n) := by
  unfold depositIn at h
  split at h
  · cases h
  · rename_i x a hd
    split at h
    · rename_i hx; cases h; rw [hd, hx]
    · cases h

end Verif.Contract
