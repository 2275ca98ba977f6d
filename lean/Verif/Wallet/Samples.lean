import Verif.Wallet.CompleteLemmas2
/-
  A concrete wallet for the examples: insertion sort, one key per passphrase and index, injective hashes
  are not needed.
-/
namespace Verif.Wallet
open Verif

def insSort (e : Addr × Nat) : List (Addr × Nat) → List (Addr × Nat)
  | [] => [e]
  | x :: l => if e.2 ≥ x.2 then e :: x :: l else x :: insSort e l

def isort : List (Addr × Nat) → List (Addr × Nat)
  | [] => []
  | e :: l => insSort e (isort l)

theorem insSort_perm (e : Addr × Nat) (l : List (Addr × Nat)) : (insSort e l).Perm (e :: l) := by
  induction l with
  | nil => exact .refl _
  | cons x l ih =>
    unfold insSort
    split
    · exact .refl _
    · exact ((ih.cons x).trans (.swap e x l))

theorem insSort_sorted (e : Addr × Nat) (l : List (Addr × Nat)) (h : l.Pairwise fun a b => a.2 ≥ b.2) :
    (insSort e l).Pairwise fun a b => a.2 ≥ b.2 := by
  induction l with
  | nil => simp [insSort]
  | cons x l ih =>
    rw [List.pairwise_cons] at h
    unfold insSort
    split
    · rename_i hx
      rw [List.pairwise_cons]
      refine ⟨?_, List.pairwise_cons.2 h⟩
      intro y hy
      rcases List.mem_cons.1 hy with rfl | hy
      · exact hx
      · have := h.1 y hy; omega
    · rename_i hx
      rw [List.pairwise_cons]
      refine ⟨?_, ih h.2⟩
      intro y hy
      rcases List.mem_cons.1 ((insSort_perm e l).mem_iff.1 hy) with rfl | hy
      · omega
      · exact h.1 y hy

theorem isort_ok : SortOk isort := by
  intro l
  induction l with
  | nil => exact ⟨.refl _, .nil⟩
  | cons e l ih => exact ⟨(insSort_perm e _).trans (ih.1.cons e), insSort_sorted e _ ih.2⟩

/-- Environment of the examples: every transaction costs 1000 plus 500 per signature. -/
def exE : Env where
  srt := isort
  version := fun _ => 1
  network := 7
  rand := 12345
  cost := fun is os ops sols _ => .ok (1000 + 500 * is.length + 500 * os.length + 500 * ops.length + 500 * sols.length)
  hash := fun tx => tx.nonce + 1
  fullHash := fun tx => tx.solutions.length + 77
  skey := fun p i => 1000 * p + i
  pub := fun s => s + 100
  addrOf := fun k => k + 5
  finger := fun p => p % 10
  sign := fun s m => s * m

/-- The wallet of passphrase 1 with two addresses 1105 and 1106, locked. -/
def exLocked : W :=
  { withPass := true, finger := 1, num := 2, addresses := [1105, 1106], index := [(1105, 0), (1106, 1)], height := 10
    balance := [((1105, 0), 5000000), ((1106, 0), 7000000), ((1106, 9), 40), ((1105, 9), 60)] }

/-- The same wallet, unlocked. -/
def exOpen : W := { exLocked with keypairs := [(1000, 1100), (1001, 1101)], kmap := [(1105, 0), (1106, 1)] }

/-- Send 70 of token 9 to address 3. -/
def exTx : Tx := { version := 0, outputs := [⟨3, 9, 70, none⟩] }

theorem exLocked_k : KInv exE exLocked := .inl ⟨rfl, rfl⟩

theorem exOpen_k : KInv exE exOpen := by
  refine .inr ⟨1, by decide, by decide, by decide, ?_, ?_⟩
  · intro a i h
    unfold exOpen at h ⊢
    simp only [AMap.find] at h
    split at h
    · simp only [Option.some.injEq] at h; subst h; subst_vars; rfl
    · split at h
      · simp only [Option.some.injEq] at h; subst h; subst_vars; rfl
      · cases h
  · decide

theorem exBal : exLocked.BalOk := ⟨by unfold AMap.Ok; decide, by decide⟩
theorem exOpenBal : exOpen.BalOk := ⟨by unfold AMap.Ok; decide, by decide⟩

theorem exFits : Fits exTx [] := by
  intro c
  simp only [exTx, inSum, outSum, depSum, extraSum, List.map_cons, List.map_nil, List.sum_cons, List.sum_nil]
  split <;> decide

end Verif.Wallet
