import Verif.Wallet.FundLemmas2
/-
  Taking the largest balances first needs the fewest inputs.
-/
namespace Verif.Wallet
open Verif

def valOf (es : List (Addr × Nat)) (a : Addr) : Nat := (AMap.find es a).getD 0

theorem take_shift (es : List (Addr × Nat)) (x : Nat) (h : ∀ e ∈ es, e.2 ≤ x) (n : Nat) :
    ((es.take (n + 1)).map (·.2)).sum ≤ x + ((es.take n).map (·.2)).sum := by
  rw [List.take_add_one, List.map_append, List.sum_append]
  cases hg : es[n]? with
  | none => simp
  | some e =>
    have := h e (List.mem_of_getElem? hg)
    simp
    omega

theorem sum_erase {S : List Addr} {a : Addr} (ha : a ∈ S) (f : Addr → Nat) :
    (S.map f).sum = f a + ((S.erase a).map f).sum := by
  have := perm_sum ((List.perm_cons_erase ha).map f)
  rw [this]; simp

theorem top_sum (es : List (Addr × Nat)) : ∀ S : List Addr, S.Nodup → AMap.Ok es →
    es.Pairwise (fun a b => a.2 ≥ b.2) →
    (S.map (valOf es)).sum ≤ ((es.take S.length).map (·.2)).sum := by
  induction es with
  | nil =>
    intro S _ _ _
    have : S.map (valOf []) = S.map fun _ => 0 := by
      apply List.map_congr_left; intro a _; rfl
    rw [this]
    clear this
    induction S with
    | nil => simp
    | cons x S ih => simp_all
  | cons e es ih =>
    intro S hS hok hsort
    rw [List.pairwise_cons] at hsort
    have hnone : AMap.find es e.1 = none := AMap.find_none_iff.2 (AMap.ok_head hok)
    have hother : ∀ a, a ≠ e.1 → valOf (e :: es) a = valOf es a := by
      intro a ha
      simp [valOf, AMap.find, Ne.symm ha]
    by_cases hm : e.1 ∈ S
    · rw [sum_erase hm]
      have h1 : valOf (e :: es) e.1 = e.2 := by simp [valOf, AMap.find]
      have h2 : (S.erase e.1).map (valOf (e :: es)) = (S.erase e.1).map (valOf es) := by
        apply List.map_congr_left
        intro a ha
        exact hother a (fun h => by rw [h] at ha; exact (List.Nodup.mem_erase_iff hS).1 ha |>.1 rfl)
      rw [h1, h2]
      have := ih (S.erase e.1) (hS.erase _) (AMap.ok_tail hok) hsort.2
      rw [List.length_erase_of_mem hm] at this
      have hpos : 0 < S.length := List.length_pos_of_mem hm
      obtain ⟨n, hn⟩ : ∃ n, S.length = n + 1 := ⟨S.length - 1, by omega⟩
      rw [hn] at this ⊢
      simp only [Nat.add_sub_cancel] at this
      rw [List.take_succ_cons, List.map_cons, List.sum_cons]
      omega
    · have h2 : S.map (valOf (e :: es)) = S.map (valOf es) := by
        apply List.map_congr_left
        intro a ha
        exact hother a (fun h => hm (h ▸ ha))
      rw [h2]
      have := ih S hS (AMap.ok_tail hok) hsort.2
      cases hl : S.length with
      | zero =>
        rw [hl] at this
        simpa using this
      | succ n =>
        rw [hl] at this
        rw [List.take_succ_cons, List.map_cons, List.sum_cons]
        exact Nat.le_trans this (take_shift es e.2 (fun x hx => hsort.1 x hx) n)

theorem perm_find {es fs : List (Addr × Nat)} (hp : es.Perm fs) (ho : AMap.Ok es) (a : Addr) :
    AMap.find es a = AMap.find fs a := by
  have ho' : AMap.Ok fs := by unfold AMap.Ok at *; exact (hp.map _).nodup_iff.1 ho
  cases h : AMap.find es a with
  | none =>
    symm
    rw [AMap.find_none_iff] at h ⊢
    intro e he
    exact h e (hp.mem_iff.2 he)
  | some v =>
    symm
    exact AMap.mem_find ho' (hp.mem_iff.1 (AMap.find_mem h))

theorem valOf_addrList {w : W} (hb : w.BalOk) (c a : Addr) : valOf (addrList c [] w.balance) a = w.bal (a, c) := by
  have hs0 : SpOk w [] := fun k => by simp [got, AMap.find]
  obtain ⟨o1, o2, _⟩ := addrList_props hb hs0 c
  unfold valOf W.bal
  cases hf : AMap.find (addrList c [] w.balance) a with
  | some v =>
    obtain ⟨⟨b, h1, h2⟩, _⟩ := o2 _ (AMap.find_mem hf)
    dsimp only at h1 h2
    simp only [got, AMap.find, Option.getD_none, Nat.zero_add] at h2
    rw [h1, ← h2]
  | none =>
    cases hw : w.balance.find (a, c) with
    | none => rfl
    | some b =>
      by_cases h0 : b = 0
      · rw [h0]; rfl
      · exfalso
        have hmem := AMap.find_mem hw
        have : (a, b) ∈ addrList c [] w.balance := by
          unfold addrList
          refine List.mem_filterMap.2 ⟨_, hmem, ?_⟩
          simp [avail, AMap.find, h0]
        exact AMap.find_none_iff.1 hf _ this rfl

/-- `gather_inputs` on an empty transaction uses the fewest inputs. -/
theorem gather_few {E : Env} (hsrt : SortOk E.srt) {w : W} (hb : w.BalOk) {amount : Nat} {c : Addr} (memo : Option Nat)
    (ha : amount < 2 ^ 128) {ins : List TxIn} {sp : AMap Key Nat} (h : gather E w [] [] amount c memo = .ok (ins, sp)) :
    (∀ i ∈ ins, i.contract = c ∧ Fresh memo i ∧ i.amount ≤ w.bal (i.address, c)) ∧
    (ins.map (·.address)).Nodup ∧
    ∀ S : List Addr, S.Nodup → amount ≤ (S.map fun a => w.bal (a, c)).sum → ins.length ≤ S.length := by
  have hs0 : SpOk w [] := fun k => by simp [got, AMap.find]
  obtain ⟨a1, a2, a3⟩ := addrList_props hb hs0 c
  obtain ⟨hperm, hsorted⟩ := hsrt (addrList c [] w.balance)
  have hok : AMap.Ok (E.srt (addrList c [] w.balance)) := by unfold AMap.Ok at *; exact (hperm.map _).nodup_iff.2 a1
  have hmem : ∀ e ∈ E.srt (addrList c [] w.balance),
      (∃ b, w.balance.find (e.1, c) = some b ∧ got [] (e.1, c) + e.2 ≤ b) ∧ 0 < e.2 := by
    intro e he
    obtain ⟨⟨b, q1, q2⟩, q3⟩ := a2 e (hperm.mem_iff.1 he)
    exact ⟨⟨b, q1, by omega⟩, q3⟩
  obtain ⟨t1, t2, _, _, t7⟩ := takeNew_spec hb c memo (E.srt (addrList c [] w.balance)) amount [] ha hs0 hok hmem
  unfold gather reuse at h
  dsimp only at h
  split at h
  · cases h
  simp only [List.nil_append, Res.ok.injEq, Prod.mk.injEq] at h
  obtain ⟨rfl, -⟩ := h
  refine ⟨?_, ?_, ?_⟩
  · intro i hi
    obtain ⟨q1, q2, q3, q4, q5, b, q6, q7⟩ := t1 i hi
    refine ⟨q1, ⟨q2, q3, q4, q5⟩, ?_⟩
    obtain ⟨⟨b', w1, w2⟩, -⟩ := hmem _ q6
    unfold W.bal
    dsimp only at w1 w2
    rw [w1]
    simp only [got, AMap.find, Option.getD_none, Nat.zero_add] at w2
    simp only [Option.getD_some]
    omega
  · exact hok.sublist t2
  · intro S hS hsum
    rcases Nat.lt_or_ge S.length (takeNew c memo (E.srt (addrList c [] w.balance)) amount []).1.length with hlt | hge
    · exfalso
      have h1 := t7 _ hlt
      have h2 := top_sum (E.srt (addrList c [] w.balance)) S hS hok hsorted
      have h3 : S.map (valOf (E.srt (addrList c [] w.balance))) = S.map fun a => w.bal (a, c) := by
        apply List.map_congr_left
        intro a _
        rw [← valOf_addrList hb]
        unfold valOf
        rw [perm_find hperm hok]
      rw [h3] at h2
      omega
    · exact hge

end Verif.Wallet
