/-
  C193: what the wallet asks of an exchange is what the user asked for.
-/
import Verif.Wallet.Exchange
import Verif.Index.PropsLiquid

namespace Verif.Wallet.Exchange

open Verif.Contract Verif.Index

/-! ### lemmas -/

/-- All that was sent in between went to one address. -/
def OutsTo (me : Nat) (old new : List Out) : Prop := ∃ l, new = old ++ l ∧ ∀ o ∈ l, o.to = me

theorem OutsTo.refl (me : Nat) (o : List Out) : OutsTo me o o := ⟨[], (List.append_nil _).symm, (fun _ k => nomatch k)⟩

theorem OutsTo.trans {me : Nat} {a b c : List Out} (h : OutsTo me a b) (k : OutsTo me b c) : OutsTo me a c := by
  obtain ⟨l, e, hl⟩ := h
  obtain ⟨m, e', hm⟩ := k
  refine ⟨l ++ m, by rw [e', e, List.append_assoc], fun o ho => ?_⟩
  rcases List.mem_append.1 ho with j | j
  · exact hl o j
  · exact hm o j

theorem send_outs {x y : Ctx} {dst amount : Nat} {i : Bool} (h : sendC x dst i amount = .ok y) : OutsTo dst x.outs y.outs := by
  unfold sendC at h
  rw [Res.chk_bind] at h
  obtain ⟨-, h⟩ := h
  obtain ⟨l, -, h⟩ := Res.bind_eq_ok.1 h
  have e := (Res.ok.inj h).symm
  subst e
  exact ⟨_, rfl, fun o ho => by rw [List.mem_singleton.1 ho]⟩

theorem payoutSide_outs {me amount : Nat} {i : Bool} {x y : Ctx} (h : payoutSide me i amount x = .ok y) : OutsTo me x.outs y.outs := by
  unfold payoutSide at h
  obtain ⟨z, h1, h⟩ := Res.bind_eq_ok.1 h
  have e := (Res.ok.inj h).symm
  subst e
  dsimp only
  by_cases hp : amount > 0
  · rw [if_pos hp] at h1
    obtain ⟨c, -, h1⟩ := Res.bind_eq_ok.1 h1
    have k := send_outs h1
    exact k
  · rw [if_neg hp] at h1
    have e := (Res.ok.inj h1).symm
    subst e
    exact .refl _ _

theorem payoutC_outs {me : Nat} {x y : Ctx} (h : payoutC me x = .ok y) : OutsTo me x.outs y.outs := by
  unfold payoutC at h
  obtain ⟨a, -, h⟩ := Res.bind_eq_ok.1 h
  obtain ⟨b, -, h⟩ := Res.bind_eq_ok.1 h
  obtain ⟨z, h1, h⟩ := Res.bind_eq_ok.1 h
  exact (payoutSide_outs h1).trans (payoutSide_outs h)

theorem takeOut_outs {me amount : Nat} {i d : Bool} {x y : Ctx} (h : takeOut me i amount d x = .ok y) : OutsTo me x.outs y.outs := by
  unfold takeOut at h
  by_cases hp : amount > 0
  · rw [if_pos hp] at h
    obtain ⟨z, h1, h⟩ := Res.bind_eq_ok.1 h
    obtain ⟨b, -, h⟩ := Res.bind_eq_ok.1 h
    have e := (Res.ok.inj h).symm
    subst e
    dsimp only
    cases d with
    | true => exact send_outs h1
    | false =>
      have e := (Res.ok.inj h1).symm
      subst e
      exact .refl _ _
  · rw [if_neg hp] at h
    have e := (Res.ok.inj h).symm
    subst e
    exact .refl _ _

theorem remC_outs {me amount : Nat} {i d : Bool} {x y : Ctx} {r : Nat × Nat} (h : remLiquidC me i amount d x = .ok (r, y)) :
    OutsTo me x.outs y.outs := by
  unfold remLiquidC at h
  obtain ⟨⟨ret, tr⟩, -, h⟩ := Res.bind_eq_ok.1 h
  dsimp only at h
  obtain ⟨z, h1, h⟩ := Res.bind_eq_ok.1 h
  obtain ⟨w, h2, h⟩ := Res.bind_eq_ok.1 h
  obtain ⟨ub, -, h⟩ := Res.bind_eq_ok.1 h
  obtain ⟨t, -, h⟩ := Res.bind_eq_ok.1 h
  have e := congrArg Prod.snd (Res.ok.inj h)
  dsimp only at e
  subst e
  have k := (takeOut_outs h1).trans (takeOut_outs h2)
  exact k

theorem payout_facts {s s' : Swap} {me : Nat} (h : payout s me = .ok s') :
    (∀ a j, held s' a j = held s a j) ∧ OutsTo me s.outs s'.outs := by
  unfold payout at h
  obtain ⟨x, h1, h⟩ := Res.bind_eq_ok.1 h
  obtain ⟨y, h2, h⟩ := Res.bind_eq_ok.1 h
  have e := (Res.ok.inj h).symm
  subst e
  refine ⟨fun a j => ?_, ?_⟩
  · rw [held_store]
    by_cases ha : a = me
    · rw [if_pos ha, (payoutC_same h2).1, load_held h1, ha]
    · rw [if_neg ha]
  · have k := payoutC_outs h2
    rw [(loadCtx_some h1).2.2.2.2] at k
    exact k

theorem rem_facts {s s' : Swap} {me height i amount : Nat} {dry b : Bool} (hb : side i = .ok b)
    (h : remLiquid s me height i amount dry = .ok s') :
    amount ≤ held s me b ∧ (∀ a j, held s' a j = held s a j - if a = me ∧ j = b then amount else 0) ∧ OutsTo me s.outs s'.outs := by
  unfold remLiquid at h
  rw [hb] at h
  obtain ⟨b', hb', h⟩ := Res.bind_eq_ok.1 h
  have eb := Res.ok.inj hb'
  subst eb
  obtain ⟨x, h1, h⟩ := Res.bind_eq_ok.1 h
  obtain ⟨⟨r, y⟩, h2, h⟩ := Res.bind_eq_ok.1 h
  have e := (Res.ok.inj h).symm
  subst e
  obtain ⟨k1, k2⟩ := rem_ctx h2
  refine ⟨by rw [← load_held h1]; exact k1, fun a j => ?_, ?_⟩
  · rw [held_store]
    by_cases ha : a = me
    · subst ha
      rw [if_pos rfl, k2, load_held h1]
      by_cases hj : j = b
      · rw [if_pos hj, if_pos ⟨rfl, hj⟩]
      · rw [if_neg hj, if_neg (fun z => hj z.2), Nat.sub_zero]
    · rw [if_neg ha, if_neg (fun z => ha z.1), Nat.sub_zero]
  · unfold remLiquidCtx at h2
    rw [Res.chk_bind, Res.chk_bind, Res.chk_bind] at h2
    have k := remC_outs h2.2.2.2
    rw [(loadCtx_some h1).2.2.2.2] at k
    exact k

theorem tradeLoop_outs {i : Bool} {chunk : Nat} : ∀ (n : Nat) (s s' : Swap) (left total left' total' : Nat),
    tradeLoop i chunk n s left total = .ok (s', left', total') → s'.outs = s.outs
  | 0, s, s', left, total, left', total', h => by
    unfold tradeLoop at h
    have e := Res.ok.inj h
    injection e with e1 e2
    rw [e1]
  | n + 1, s, s', left, total, left', total', h => by
    unfold tradeLoop at h
    split at h
    · dsimp only at h
      obtain ⟨bq, hb, h⟩ := Res.bind_eq_ok.1 h
      cases bq with
      | none => exact tradeLoop_outs n s s' left total left' total' h
      | some q =>
        dsimp only at h
        obtain ⟨t, h1, h⟩ := Res.bind_eq_ok.1 h
        obtain ⟨z, h2, h⟩ := Res.bind_eq_ok.1 h
        obtain ⟨l, h3, h⟩ := Res.bind_eq_ok.1 h
        obtain ⟨-, p, hp, -, hq⟩ := bestQuote_main hb
        rw [tradeLoop_outs n z s' _ _ left' total' h, (applyQuote_ok hp h2).2.2.2.1]
    · have e := Res.ok.inj h
      injection e with e1 e2
      rw [e1]

theorem trade_facts {s s' : Swap} {i dst n amount : Nat} {m : Option Nat} {tok : Bool}
    (h : swapExec s (.trade i dst m n tok amount) = .ok s') :
    ∃ total, s'.outs = s.outs ++ [⟨dst, !tok, total⟩] ∧ 0 < total ∧ (∀ k, m = some k → k ≤ total) := by
  dsimp only [swapExec] at h
  unfold trade at h
  obtain ⟨b, -, h⟩ := Res.bind_eq_ok.1 h
  rw [Res.chk_bind, Res.chk_bind] at h
  obtain ⟨-, hb, h⟩ := h
  subst hb
  obtain ⟨n1, -, h⟩ := Res.bind_eq_ok.1 h
  obtain ⟨n2, -, h⟩ := Res.bind_eq_ok.1 h
  obtain ⟨chunk, -, h⟩ := Res.bind_eq_ok.1 h
  obtain ⟨⟨z, left, total⟩, h1, h⟩ := Res.bind_eq_ok.1 h
  dsimp only at h
  rw [Res.chk_bind, Res.chk_bind, Res.chk_bind, Res.chk_bind] at h
  obtain ⟨-, hm, hp, -, h⟩ := h
  obtain ⟨cc, h2, h⟩ := Res.bind_eq_ok.1 h
  have e := (Res.ok.inj h).symm
  subst e
  have k := tradeLoop_outs _ _ _ _ _ _ _ h1
  have ho : z.outs = s.outs := k
  refine ⟨total, by dsimp only; rw [ho], hp, fun k hk => ?_⟩
  subst hk
  have := of_decide_eq_true hm
  omega

theorem exec_cons {tokens : Nat × Nat} {height : Nat} {op : Op} {l : List Op} {s s' : Swap} (h : exec tokens height (op :: l) s = some s') :
    ∃ c z, readCall tokens height op = some c ∧ swapExec s c = .ok z ∧ exec tokens height l z = some s' := by
  unfold exec at h
  cases hc : readCall tokens height op with
  | none => rw [hc] at h; exact absurd h (by simp)
  | some c =>
    rw [hc] at h
    dsimp only at h
    cases hz : swapExec s c with
    | ok z => rw [hz] at h; exact ⟨c, z, rfl, hz, h⟩
    | throw => rw [hz] at h; exact absurd h (by simp)
    | ub => rw [hz] at h; exact absurd h (by simp)

theorem exec_append {tokens : Nat × Nat} {height : Nat} : ∀ (l l' : List Op) (s s' : Swap),
    exec tokens height (l ++ l') s = some s' → ∃ z, exec tokens height l s = some z ∧ exec tokens height l' z = some s'
  | [], l', s, s', h => ⟨s, rfl, h⟩
  | op :: l, l', s, s', h => by
    obtain ⟨c, z, h1, h2, h3⟩ := exec_cons (l := l ++ l') h
    obtain ⟨w, h4, h5⟩ := exec_append l l' z s' h3
    refine ⟨w, ?_, h5⟩
    unfold exec
    rw [h1]
    dsimp only
    rw [h2]
    exact h4

theorem read_trade {tokens : Nat × Nat} {height address i dst n c amount : Nat} {m : Arg} {user : Option Nat} :
    readCall tokens height ⟨address, "trade", [.num i, .addr dst, m, .num n], user, some (c, amount)⟩ =
      match sideOf tokens c, readOpt m with
      | some tok, some m => some (.trade i dst m n tok amount)
      | _, _ => none := by unfold readCall; rfl

theorem read_add {tokens : Nat × Nat} {height address i pool me c amount : Nat} :
    readCall tokens height ⟨address, "add_liquid", [.num i, .num pool], some me, some (c, amount)⟩ =
      match sideOf tokens c with
      | some tok => some (.addLiquid me height i pool tok amount)
      | none => none := by unfold readCall; rfl

theorem read_payout {tokens : Nat × Nat} {height address me : Nat} :
    readCall tokens height ⟨address, "payout", [], some me, none⟩ = some (.payout me) := by unfold readCall; rfl

theorem read_rem {tokens : Nat × Nat} {height address i amount me : Nat} {dry : Bool} :
    readCall tokens height ⟨address, "rem_liquid", [.num i, .num amount, .bool dry], some me, none⟩ =
      some (.remLiquid me height i amount dry) := by unfold readCall; rfl

theorem add_one {tokens : Nat × Nat} {height me address pool token i amount : Nat} {b : Bool} {s s' : Swap}
    (ht : sideOf tokens token = some b) (hb : side i = .ok b)
    (h : exec tokens height (addOp me address pool token i amount) s = some s') :
    ∀ a j, held s' a j = held s a j + if a = me ∧ j = b then amount else 0 := by
  intro a j
  unfold addOp at h
  by_cases h0 : amount ≠ 0
  · rw [if_pos h0] at h
    obtain ⟨c, z, h1, h2, h3⟩ := exec_cons h
    have e := Option.some.inj h3
    subst e
    have h1 := read_add.symm.trans h1
    rw [ht] at h1
    have e := Option.some.inj h1
    subst e
    dsimp only [swapExec] at h2
    unfold addLiquid at h2
    rw [hb] at h2
    obtain ⟨b', hb', h2⟩ := Res.bind_eq_ok.1 h2
    have eb := Res.ok.inj hb'
    subst eb
    rw [Res.chk_bind] at h2
    rw [add_held h2.2]
    rfl
  · rw [if_neg h0] at h
    have e := Option.some.inj h
    subst e
    have : amount = 0 := by omega
    rw [this, ite_self]
    rfl

theorem rem_one {tokens : Nat × Nat} {height me address i amount : Nat} {b : Bool} {s s' : Swap} (hb : side i = .ok b)
    (h : exec tokens height (remOp me address i amount) s = some s') :
    amount ≤ held s me b ∧ (∀ a j, held s' a j = held s a j - if a = me ∧ j = b then amount else 0) ∧ OutsTo me s.outs s'.outs := by
  unfold remOp at h
  by_cases h0 : amount ≠ 0
  · rw [if_pos h0] at h
    obtain ⟨c, z, h1, h2, h3⟩ := exec_cons h
    have e := Option.some.inj h3
    subst e
    have e := Option.some.inj (read_rem.symm.trans h1)
    subst e
    exact rem_facts hb h2
  · rw [if_neg h0] at h
    have e := Option.some.inj h
    subst e
    have : amount = 0 := by omega
    rw [this]
    exact ⟨Nat.zero_le _, fun a j => by rw [ite_self, Nat.sub_zero], .refl _ _⟩

theorem side_fst (tokens : Nat × Nat) : sideOf tokens tokens.1 = some false := if_pos rfl
theorem side_snd {tokens : Nat × Nat} (h : tokens.1 ≠ tokens.2) : sideOf tokens tokens.2 = some true :=
  (if_neg (fun k => h k.symm)).trans (if_pos rfl)

/-- What was sent of one coin. -/
def sent (l : List Out) (j : Bool) : Nat := (l.map fun o => if o.tok = j then o.amount else 0).sum

/-- Nothing is lost between two contexts: what leaves the pool, or is claimed as a fee, is sent. -/
def Led (x y : Ctx) : Prop := y.idx = x.idx ∧
  ∀ j, y.pool.bal.get j + x.pool.claimed.get j + sent y.outs j = x.pool.bal.get j + y.pool.claimed.get j + sent x.outs j

theorem Led.trans {x y z : Ctx} (h : Led x y) (k : Led y z) : Led x z :=
  ⟨k.1.trans h.1, fun j => by have := h.2 j; have := k.2 j; omega⟩

theorem Led.rfl' {x y : Ctx} (h1 : y.idx = x.idx) (h2 : y.pool.bal = x.pool.bal) (h3 : y.pool.claimed = x.pool.claimed)
    (h4 : y.outs = x.outs) : Led x y := ⟨h1, fun j => by rw [h2, h3, h4]⟩

theorem sent_snoc (l : List Out) (dst amount : Nat) (i j : Bool) :
    sent (l ++ [⟨dst, i, amount⟩]) j = sent l j + if i = j then amount else 0 := by
  unfold sent
  rw [List.map_append, List.sum_append]
  simp

theorem get_set (p : P2) (i j : Bool) (v : Nat) : (p.set i v).get j = if i = j then v else p.get j := by
  cases i <;> cases j <;> rfl

theorem takeOut_led {me amount : Nat} {i : Bool} {x y : Ctx} (h : takeOut me i amount true x = .ok y) : Led x y := by
  unfold takeOut at h
  by_cases hp : amount > 0
  · rw [if_pos hp] at h
    obtain ⟨z, h1, h⟩ := Res.bind_eq_ok.1 h
    rw [if_pos rfl] at h1
    obtain ⟨b, hb, h⟩ := Res.bind_eq_ok.1 h
    have e := (Res.ok.inj h).symm
    subst e
    obtain ⟨-, e⟩ := sendC_ok h1
    subst e
    obtain ⟨e, hle⟩ := csub_ok hb
    subst e
    refine ⟨rfl, fun j => ?_⟩
    dsimp only at hle ⊢
    rw [sent_snoc, get_set]
    by_cases hj : i = j
    · subst hj
      rw [if_pos rfl, if_pos rfl]; omega
    · rw [if_neg hj, if_neg hj]; omega
  · rw [if_neg hp] at h
    have e := (Res.ok.inj h).symm
    subst e
    exact .rfl' rfl rfl rfl rfl

theorem payoutSide_led {me amount : Nat} {i : Bool} {x y : Ctx} (h : payoutSide me i amount x = .ok y) : Led x y := by
  unfold payoutSide at h
  obtain ⟨z, h1, h⟩ := Res.bind_eq_ok.1 h
  have e := (Res.ok.inj h).symm
  subst e
  refine Led.trans (y := z) ?_ (.rfl' rfl rfl rfl rfl)
  by_cases hp : amount > 0
  · rw [if_pos hp] at h1
    obtain ⟨c, hc, h1⟩ := Res.bind_eq_ok.1 h1
    obtain ⟨-, e⟩ := sendC_ok h1
    subst e
    obtain ⟨e, -⟩ := cadd_ok hc
    subst e
    refine ⟨rfl, fun j => ?_⟩
    dsimp only
    rw [sent_snoc, get_set]
    by_cases hj : i = j
    · subst hj
      rw [if_pos rfl, if_pos rfl]; omega
    · rw [if_neg hj, if_neg hj]; omega
  · rw [if_neg hp] at h1
    have e := (Res.ok.inj h1).symm
    subst e
    exact .rfl' rfl rfl rfl rfl

/-- What the pools have of one coin, and what was claimed of it as fees. -/
def pooled (s : Swap) (j : Bool) : Nat := (s.pools.map fun p => p.bal.get j).sum
def claims (s : Swap) (j : Bool) : Nat := (s.pools.map fun p => p.claimed.get j).sum

def Kept (s s' : Swap) : Prop :=
  ∀ j, pooled s' j + claims s j + sent s'.outs j = pooled s j + claims s' j + sent s.outs j

theorem Kept.trans {x y z : Swap} (h : Kept x y) (k : Kept y z) : Kept x z :=
  fun j => by have := h j; have := k j; omega

theorem led_kept {s : Swap} {me : Nat} {x y : Ctx} (h : loadCtx s me = .ok x) (k : Led x y) : Kept s (storeCtx s me y) := by
  intro j
  obtain ⟨-, l2, l3, -, l5⟩ := loadCtx_some h
  have k2 := k.2 j
  have hi : s.pools[y.idx]? = some x.pool := by rw [k.1, l3]; exact l2
  have e1 := sum_set (fun p : Pool => p.bal.get j) s.pools y.idx x.pool y.pool hi
  have e2 := sum_set (fun p : Pool => p.claimed.get j) s.pools y.idx x.pool y.pool hi
  rw [l5] at k2
  unfold pooled claims storeCtx
  dsimp only at e1 e2 ⊢
  omega

theorem payout_kept {s s' : Swap} {me : Nat} (h : payout s me = .ok s') : Kept s s' := by
  unfold payout at h
  obtain ⟨x, h1, h⟩ := Res.bind_eq_ok.1 h
  obtain ⟨y, h2, h⟩ := Res.bind_eq_ok.1 h
  have e := (Res.ok.inj h).symm
  subst e
  refine led_kept h1 ?_
  unfold payoutC at h2
  obtain ⟨a, -, h⟩ := Res.bind_eq_ok.1 h2
  obtain ⟨b, -, h⟩ := Res.bind_eq_ok.1 h
  obtain ⟨z, h1, h⟩ := Res.bind_eq_ok.1 h
  exact (payoutSide_led h1).trans (payoutSide_led h)

theorem rem_kept {s s' : Swap} {me height i amount : Nat} (h : remLiquid s me height i amount false = .ok s') : Kept s s' := by
  unfold remLiquid at h
  obtain ⟨b, -, h⟩ := Res.bind_eq_ok.1 h
  obtain ⟨x, h1, h⟩ := Res.bind_eq_ok.1 h
  obtain ⟨⟨r, y⟩, h2, h⟩ := Res.bind_eq_ok.1 h
  have e := (Res.ok.inj h).symm
  subst e
  refine led_kept h1 ?_
  unfold remLiquidCtx at h2
  rw [Res.chk_bind, Res.chk_bind, Res.chk_bind] at h2
  replace h := h2.2.2.2
  clear h2
  unfold remLiquidC at h
  obtain ⟨⟨ret, tr⟩, -, h⟩ := Res.bind_eq_ok.1 h
  dsimp only at h
  obtain ⟨z, h1, h⟩ := Res.bind_eq_ok.1 h
  obtain ⟨w, h2, h⟩ := Res.bind_eq_ok.1 h
  obtain ⟨ub, -, h⟩ := Res.bind_eq_ok.1 h
  obtain ⟨t, -, h⟩ := Res.bind_eq_ok.1 h
  have e := congrArg Prod.snd (Res.ok.inj h)
  dsimp only at e
  subst e
  exact ((takeOut_led h1).trans (takeOut_led h2)).trans (.rfl' rfl rfl rfl rfl)

theorem rem_op_kept {tokens : Nat × Nat} {height me address i amount : Nat} {s s' : Swap}
    (h : exec tokens height (remOp me address i amount) s = some s') : Kept s s' := by
  unfold remOp at h
  by_cases h0 : amount ≠ 0
  · rw [if_pos h0] at h
    obtain ⟨c, z, h1, h2, h3⟩ := exec_cons h
    have e := Option.some.inj h3
    subst e
    have e := Option.some.inj (read_rem.symm.trans h1)
    subst e
    exact rem_kept h2
  · rw [if_neg h0] at h
    have e := Option.some.inj h
    subst e
    intro j
    rfl

/-- The amount of one side. -/
def part (amount : Nat × Nat) (j : Bool) : Nat := if j then amount.2 else amount.1

/-! ### the theorems -/

/-- **C193.** `swap_trade` takes the amount given, in the currency given, and nothing else, from the wallet. When the trade goes through,
    the wallet's address gets coins of the other kind, at least the least amount given, and nobody else gets anything. -/
theorem C193_trade {tokens : Nat × Nat} {me address amount currency n height : Nat} {m user : Option Nat}
    {ops : List Op} (h : swapTrade tokens me address amount currency m n user = some ops) :
    (∀ c, paid ops c = if c = currency then amount else 0) ∧ (∀ op ∈ ops, op.address = address ∧ op.user = user) ∧
    ∀ s s', exec tokens height ops s = some s' →
      ∃ total side, s'.outs = s.outs ++ [⟨me, !side, total⟩] ∧ sideOf tokens currency = some side ∧ 0 < total ∧
        (∀ k, m = some k → k ≤ total) := by
  unfold swapTrade at h
  cases ht : tokenIndex tokens currency with
  | none => rw [ht] at h; exact absurd h (by simp)
  | some i =>
    rw [ht] at h
    have e := Option.some.inj h
    subst e
    refine ⟨fun c => ?_, fun op hop => by rw [List.mem_singleton.1 hop]; exact ⟨rfl, rfl⟩, fun s s' hx => ?_⟩
    · unfold paid
      simp only [List.map_cons, List.map_nil, List.sum_cons, List.sum_nil, Nat.add_zero]
      by_cases hc : c = currency
      · rw [if_pos hc, if_pos hc.symm]
      · rw [if_neg hc, if_neg (fun k => hc k.symm)]
    · obtain ⟨c, z, h1, h2, h3⟩ := exec_cons hx
      have e := Option.some.inj h3
      subst e
      have h1 := read_trade.symm.trans h1
      have hm : readOpt (optArg m) = some m := by cases m <;> rfl
      rw [hm] at h1
      cases hs : sideOf tokens currency with
      | none => rw [hs] at h1; exact absurd h1 (by simp)
      | some b =>
        rw [hs] at h1
        have e := Option.some.inj h1
        subst e
        obtain ⟨total, k1, k2, k3⟩ := trade_facts h2
        exact ⟨total, b, k1, rfl, k2, k3⟩

/-- **C193.** `swap_trade` refuses just the currencies that the exchange does not have, and names the right one to it. -/
theorem C193_currency {tokens : Nat × Nat} (hne : tokens.1 ≠ tokens.2) (currency : Nat) :
    (tokenIndex tokens currency = none ↔ currency ≠ tokens.1 ∧ currency ≠ tokens.2) ∧
    tokenIndex tokens tokens.1 = some 0 ∧ tokenIndex tokens tokens.2 = some 1 := by
  unfold tokenIndex matchToken
  refine ⟨?_, by rw [if_neg hne, if_pos rfl], by rw [if_pos rfl]⟩
  by_cases h2 : currency = tokens.2
  · simp [h2]
  · by_cases h1 : currency = tokens.1
    · rw [if_neg h2, if_pos h1]; simp [h1]
    · rw [if_neg h2, if_neg h1]; simp [h1, h2]

/-- **C193.** `swap_add_liquid` takes the two amounts given, each in its currency, and when it goes through, the liquidity of the wallet's
    address is more by just these, and that of others is as before. -/
theorem C193_add {tokens : Nat × Nat} (hne : tokens.1 ≠ tokens.2) (me address pool height : Nat) (amount : Nat × Nat) :
    (∀ c, paid (swapAddLiquid tokens me address amount pool) c =
      if c = tokens.1 then amount.1 else if c = tokens.2 then amount.2 else 0) ∧
    (∀ op ∈ swapAddLiquid tokens me address amount pool, op.address = address ∧ op.user = some me) ∧
    ∀ s s', exec tokens height (swapAddLiquid tokens me address amount pool) s = some s' →
      ∀ a j, held s' a j = held s a j + if a = me then part amount j else 0 := by
  refine ⟨fun c => ?_, fun op hop => ?_, fun s s' hx a j => ?_⟩
  · have one : ∀ t i n, paid (addOp me address pool t i n) c = if c = t then n else 0 := by
      intro t i n
      unfold addOp
      by_cases h0 : n ≠ 0
      · rw [if_pos h0]
        unfold paid
        simp only [List.map_cons, List.map_nil, List.sum_cons, List.sum_nil, Nat.add_zero]
        by_cases hc : c = t
        · rw [if_pos hc, if_pos hc.symm]
        · rw [if_neg hc, if_neg (fun k => hc k.symm)]
      · rw [if_neg h0]
        have : n = 0 := by omega
        rw [this, ite_self]
        rfl
    have app : ∀ l l', paid (l ++ l') c = paid l c + paid l' c := by
      intro l l'
      unfold paid
      rw [List.map_append, List.sum_append]
    unfold swapAddLiquid
    rw [app, one, one]
    by_cases h1 : c = tokens.1
    · rw [if_pos h1, if_pos h1, if_neg (fun k => hne (h1.symm.trans k))]
      rfl
    · rw [if_neg h1, if_neg h1, Nat.zero_add]
  · have one : ∀ t i n, op ∈ addOp me address pool t i n → op.address = address ∧ op.user = some me := by
      intro t i n k
      unfold addOp at k
      by_cases h0 : n ≠ 0
      · rw [if_pos h0] at k; rw [List.mem_singleton.1 k]; exact ⟨rfl, rfl⟩
      · rw [if_neg h0] at k; nomatch k
    rcases List.mem_append.1 hop with k | k <;> exact one _ _ _ k
  · obtain ⟨z, h1, h2⟩ := exec_append _ _ _ _ hx
    rw [add_one (side_snd hne) rfl h2, add_one (side_fst tokens) rfl h1]
    unfold part
    by_cases ha : a = me
    · cases j <;> simp [ha]
    · simp [ha]

/-- **C193.** `swap_rem_liquid` takes nothing from the wallet. When it goes through, the liquidity of the wallet's address was enough, and is
    less by just the amounts given; that of others is as before; and all that the exchange pays, fees included, goes to that address. -/
theorem C193_rem (tokens : Nat × Nat) (me address height : Nat) (amount : Nat × Nat) :
    (∀ c, paid (swapRemLiquid me address amount) c = 0) ∧
    (∀ op ∈ swapRemLiquid me address amount, op.address = address ∧ op.user = some me) ∧
    ∀ s s', exec tokens height (swapRemLiquid me address amount) s = some s' →
      (∀ j, part amount j ≤ held s me j) ∧ (∀ a j, held s' a j = held s a j - if a = me then part amount j else 0) ∧
      ∃ l, s'.outs = s.outs ++ l ∧ ∀ o ∈ l, o.to = me := by
  refine ⟨fun c => ?_, fun op hop => ?_, fun s s' hx => ?_⟩
  · unfold swapRemLiquid paid remOp
    by_cases h1 : amount.1 ≠ 0 <;> by_cases h2 : amount.2 ≠ 0 <;> simp [h1, h2]
  · have one : ∀ i n, op ∈ remOp me address i n → op.address = address ∧ op.user = some me := by
      intro i n k
      unfold remOp at k
      by_cases h0 : n ≠ 0
      · rw [if_pos h0] at k; rw [List.mem_singleton.1 k]; exact ⟨rfl, rfl⟩
      · rw [if_neg h0] at k; nomatch k
    rcases List.mem_cons.1 hop with k | k
    · rw [k]; exact ⟨rfl, rfl⟩
    · rcases List.mem_append.1 k with k | k <;> exact one _ _ k
  · obtain ⟨c, y, g1, g2, hx⟩ := exec_cons hx
    have e := Option.some.inj (read_payout.symm.trans g1)
    subst e
    obtain ⟨p1, p2⟩ := payout_facts g2
    obtain ⟨z, h1, h2⟩ := exec_append _ _ _ _ hx
    obtain ⟨a1, a2, a3⟩ := rem_one (b := false) rfl h1
    obtain ⟨b1, b2, b3⟩ := rem_one (b := true) rfl h2
    have b1' : amount.2 ≤ held s me true := by
      rw [a2, p1] at b1
      simpa using b1
    refine ⟨fun j => ?_, fun a j => ?_, (p2.trans a3).trans b3⟩
    · cases j
      · rw [p1] at a1; exact a1
      · exact b1'
    · rw [b2, a2, p1]
      unfold part
      by_cases ha : a = me
      · cases j <;> simp [ha]
      · simp [ha]

/-- **C193.** Nothing is lost by `swap_rem_liquid`: the fees due are paid first, and all that is taken from the pools, and all that is
    claimed as fees, is sent (to the wallet's address, `C193_rem`). -/
theorem C193_sent (tokens : Nat × Nat) (me address height : Nat) (amount : Nat × Nat) (s s' : Swap)
    (hx : exec tokens height (swapRemLiquid me address amount) s = some s') :
    (∃ z l, payout s me = .ok z ∧ s'.outs = z.outs ++ l) ∧
    ∀ j, pooled s' j + claims s j + sent s'.outs j = pooled s j + claims s' j + sent s.outs j := by
  obtain ⟨c, y, g1, g2, hx⟩ := exec_cons hx
  have e := Option.some.inj (read_payout.symm.trans g1)
  subst e
  obtain ⟨z, h1, h2⟩ := exec_append _ _ _ _ hx
  obtain ⟨l, hl, -⟩ := (rem_one (b := false) rfl h1).2.2.trans (rem_one (b := true) rfl h2).2.2
  exact ⟨⟨y, l, g2, hl⟩, ((payout_kept g2).trans (rem_op_kept h1)).trans (rem_op_kept h2)⟩

/-! ### examples -/

def exS : Option Swap := exec (0, 9) 10 (swapAddLiquid (0, 9) 7 55 (100000, 200000) 1) swapInit

example : (exS.map fun s => (held s 7 false, held s 7 true)) = some (100000, 200000) := by decide +kernel
/-- A trade of 1000 of the first coin; with too high a demand it fails. -/
example : (exS.bind fun s => (swapTrade (0, 9) 8 55 1000 0 (some 1900) 1 none).bind fun ops => (exec (0, 9) 11 ops s).map Swap.outs)
      = some [⟨8, true, 1976⟩] ∧
    (exS.bind fun s => (swapTrade (0, 9) 8 55 1000 0 (some 1990) 1 none).bind fun ops => exec (0, 9) 11 ops s) = none ∧
    swapTrade (0, 9) 8 55 1000 5 none 1 none = none := by decide +kernel
/-- Half is taken out again when it is no longer locked. -/
example : (exS.bind fun s => (exec (0, 9) 9000 (swapRemLiquid 7 55 (50000, 0)) s).map fun s => (held s 7 false, held s 7 true, s.outs))
      = some (50000, 200000, [⟨7, false, 50000⟩]) ∧
    (exS.bind fun s => exec (0, 9) 100 (swapRemLiquid 7 55 (50000, 0)) s) = none := by decide +kernel

end Verif.Wallet.Exchange
