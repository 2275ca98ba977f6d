import Verif.Wallet.Model
/-
  Lemmas about the association lists that stand for the maps of the wallet.
-/
namespace Verif.Wallet
open Verif

namespace AMap
variable {α β : Type} [DecidableEq α]

/-- The keys of a map. -/
def Ok (m : AMap α β) : Prop := (m.map (·.1)).Nodup

theorem find_none_iff {m : AMap α β} {k : α} : m.find k = none ↔ ∀ e ∈ m, e.1 ≠ k := by
  induction m with
  | nil => simp [find]
  | cons e m ih =>
    unfold find
    by_cases h : e.1 = k <;> simp [h, ih]

theorem find_mem {m : AMap α β} {k : α} {v : β} (h : m.find k = some v) : (k, v) ∈ m := by
  induction m with
  | nil => simp [find] at h
  | cons e m ih =>
    unfold find at h
    by_cases hk : e.1 = k
    · simp only [hk, if_true, Option.some.injEq] at h
      subst h; subst hk; exact List.mem_cons_self
    · rw [if_neg hk] at h
      exact List.mem_cons_of_mem _ (ih h)

theorem mem_find {m : AMap α β} (ho : Ok m) {k : α} {v : β} (h : (k, v) ∈ m) : m.find k = some v := by
  induction m with
  | nil => cases h
  | cons e m ih =>
    unfold Ok at ho
    rw [List.map_cons, List.nodup_cons] at ho
    unfold find
    rcases List.mem_cons.1 h with rfl | h
    · simp
    · rw [if_neg, ih ho.2 h]
      rintro rfl
      exact ho.1 (List.mem_map.2 ⟨_, h, rfl⟩)

theorem find_ins (lt : α → α → Bool) {m : AMap α β} {k : α} (v : β) (h : m.find k = none) (k' : α) :
    (ins lt m k v).find k' = if k' = k then some v else m.find k' := by
  induction m with
  | nil => simp [ins, find, eq_comm]
  | cons e m ih =>
    have he : e.1 ≠ k := find_none_iff.1 h e List.mem_cons_self
    have hm : find m k = none := find_none_iff.2 fun x hx => find_none_iff.1 h x (List.mem_cons_of_mem _ hx)
    unfold ins
    split
    · by_cases hk : k' = k
      · simp [find, hk]
      · simp [find, hk, Ne.symm hk]
    · have := ih hm
      by_cases hk : e.1 = k'
      · subst hk; simp [find, he]
      · simp only [find, hk, if_false, this]

theorem find_map_upd (m : AMap α β) (k : α) (v : β) (k' : α) :
    find (m.map fun e => if e.1 = k then (k, v) else e) k'
      = if k' = k then (if (m.find k).isSome then some v else none) else m.find k' := by
  induction m with
  | nil => simp [find]
  | cons e m ih =>
    rw [List.map_cons]
    by_cases he : e.1 = k
    · by_cases hk : k' = k
      · simp [find, he, hk]
      · have : find m k' = _ := rfl
        simp only [find, he, if_true, if_neg (Ne.symm hk), if_neg hk, ih]
    · by_cases hk : e.1 = k'
      · subst hk; simp [find, he]
      · simp only [find, if_neg he, if_neg hk, ih]

theorem find_put (lt : α → α → Bool) (m : AMap α β) (k : α) (v : β) (k' : α) :
    (put lt m k v).find k' = if k' = k then some v else m.find k' := by
  unfold put
  split
  · exact find_ins lt v (by assumption) k'
  · rename_i h
    rw [find_map_upd]; simp [h]

omit [DecidableEq α] in
theorem keys_ins (lt : α → α → Bool) (m : AMap α β) (k : α) (v : β) :
    ((ins lt m k v).map (·.1)).Perm (k :: m.map (·.1)) := by
  induction m with
  | nil => simp [ins]
  | cons e m ih =>
    unfold ins
    split
    · simp
    · rw [List.map_cons, List.map_cons]
      exact (List.Perm.cons _ ih).trans (List.Perm.swap _ _ _)

theorem ok_put (lt : α → α → Bool) {m : AMap α β} (h : Ok m) (k : α) (v : β) : Ok (put lt m k v) := by
  unfold put Ok
  split
  · rename_i hk
    rw [(keys_ins lt m k v).nodup_iff, List.nodup_cons]
    refine ⟨fun hm => ?_, h⟩
    obtain ⟨e, he, rfl⟩ := List.mem_map.1 hm
    exact find_none_iff.1 hk e he rfl
  · have : (m.map fun e => if e.1 = k then (k, v) else e).map (·.1) = m.map (·.1) := by
      rw [List.map_map]
      apply List.map_congr_left
      intro e _
      by_cases he : e.1 = k <;> simp [he]
    rw [this]; exact h

omit [DecidableEq α] in
theorem ok_nil : Ok ([] : AMap α β) := by simp [Ok]

theorem find_erase (m : AMap α β) (k k' : α) :
    (erase m k).find k' = if k' = k then none else m.find k' := by
  unfold erase
  induction m with
  | nil => simp [find]
  | cons e m ih =>
    by_cases he : e.1 = k
    · rw [List.filter_cons, if_neg (by simpa using he), ih]
      by_cases hk : k' = k
      · simp [hk]
      · simp only [if_neg hk]; rw [find, if_neg]; rw [he]; exact Ne.symm hk
    · rw [List.filter_cons, if_pos (by simpa using he)]
      by_cases hk : e.1 = k'
      · subst hk; simp [find, he]
      · simp only [find, if_neg hk, ih]

theorem ok_erase {m : AMap α β} (h : Ok m) (k : α) : Ok (erase m k) :=
  List.Nodup.sublist (List.Sublist.map _ List.filter_sublist) h

omit [DecidableEq α] in
theorem ok_tail {e : α × β} {m : AMap α β} (h : Ok (e :: m)) : Ok m := by
  unfold Ok at *; rw [List.map_cons, List.nodup_cons] at h; exact h.2

omit [DecidableEq α] in
theorem ok_head {e : α × β} {m : AMap α β} (h : Ok (e :: m)) : ∀ x ∈ m, x.1 ≠ e.1 := by
  unfold Ok at h; rw [List.map_cons, List.nodup_cons] at h
  intro x hx he
  exact h.1 (List.mem_map.2 ⟨x, hx, he⟩)

end AMap

theorem sub128_eq {a b : Nat} (h : b ≤ a) (ha : a < 2 ^ 128) : sub128 a b = a - b := by
  unfold sub128
  rw [Nat.mod_eq_of_lt (show b < 2 ^ 128 by omega)]
  omega

theorem u128_eq {a : Nat} (h : a < 2 ^ 128) : u128 a = a := Nat.mod_eq_of_lt h

theorem clampedSub_eq (a b : Nat) : Chain.clampedSub a b = a - b := by
  unfold Chain.clampedSub; split <;> omega

end Verif.Wallet
