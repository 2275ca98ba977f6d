import Verif.VM.Storage
import Verif.VM.PropsVar
/-
  Lemmas about the maps and tables of contract storage.
-/
namespace Verif.VM
open Verif.Codec (Bytes le)

section
variable {K V : Type} [DecidableEq K]

theorem mfind_minsert (lt : K → K → Bool) (k : K) (v : V) (m : List (K × V)) (h : mfind m k = none) (j : K) :
    mfind (minsert lt k v m) j = if j = k then some v else mfind m j := by
  induction m with
  | nil => simp only [minsert, mfind, eq_comm]
  | cons p l ih =>
    simp only [mfind] at h
    split at h
    · cases h
    · next hp =>
      simp only [minsert]
      split
      · simp only [mfind, eq_comm]
      · simp only [mfind, ih h]
        by_cases h1 : p.1 = j
        · rw [if_pos h1, if_pos h1, if_neg (by rintro rfl; exact hp h1)]
        · rw [if_neg h1, if_neg h1]

theorem mfind_map (k : K) (v : V) (m : List (K × V)) (j : K) :
    mfind (m.map fun p => if p.1 = k then (k, v) else p) j = if j = k then (mfind m k).map (fun _ => v) else mfind m j := by
  induction m with
  | nil => simp [mfind]
  | cons p l ih =>
    simp only [List.map_cons, mfind, ih]
    by_cases h1 : p.1 = k
    · rw [if_pos h1]
      by_cases h2 : j = k
      · subst h2; simp [h1]
      · simp only [h1, if_neg (Ne.symm h2), if_neg h2]
    · rw [if_neg h1]
      by_cases h2 : j = k
      · subst h2; simp [h1]
      · simp only [if_neg h2]

theorem mfind_mput (lt : K → K → Bool) (m : List (K × V)) (k : K) (v : V) (j : K) :
    mfind (mput lt m k v) j = if j = k then some v else mfind m j := by
  unfold mput
  cases h : mfind m k with
  | none => exact mfind_minsert lt k v m h j
  | some w =>
    dsimp only
    rw [mfind_map, h]; rfl

theorem mfind_none {m : List (K × V)} {k : K} : mfind m k = none ↔ k ∉ m.map (·.1) := by
  induction m with
  | nil => simp [mfind]
  | cons p l ih =>
    simp only [mfind, List.map_cons, List.mem_cons, not_or]
    by_cases h : p.1 = k
    · simp [h]
    · rw [if_neg h, ih]
      exact ⟨fun x => ⟨Ne.symm h, x⟩, fun x => x.2⟩

theorem mfind_mem {m : List (K × V)} {k : K} {v : V} (h : mfind m k = some v) : (k, v) ∈ m := by
  induction m with
  | nil => cases h
  | cons p l ih =>
    simp only [mfind] at h
    split at h
    · next hp => cases h; rw [← hp]; exact List.mem_cons_self
    · exact List.mem_cons_of_mem _ (ih h)

theorem mem_mfind {m : List (K × V)} (hn : (m.map (·.1)).Nodup) {k : K} {v : V} (h : (k, v) ∈ m) : mfind m k = some v := by
  induction m with
  | nil => cases h
  | cons p l ih =>
    rw [List.map_cons, List.nodup_cons] at hn
    simp only [mfind]
    rcases List.mem_cons.1 h with rfl | h1
    · rw [if_pos rfl]
    · rw [if_neg, ih hn.2 h1]
      intro e
      exact hn.1 (List.mem_map.2 ⟨_, h1, e.symm⟩)

theorem minsert_perm (lt : K → K → Bool) (k : K) (v : V) (m : List (K × V)) : (minsert lt k v m).Perm ((k, v) :: m) := by
  induction m with
  | nil => exact List.Perm.refl _
  | cons p l ih =>
    simp only [minsert]
    split
    · exact List.Perm.refl _
    · exact (List.Perm.cons p ih).trans (List.Perm.swap _ _ _)

theorem mput_nodup (lt : K → K → Bool) {m : List (K × V)} (k : K) (v : V) (hn : (m.map (·.1)).Nodup) :
    ((mput lt m k v).map (·.1)).Nodup := by
  unfold mput
  cases h : mfind m k with
  | none =>
    refine ((minsert_perm lt k v m).map _).nodup_iff.2 ?_
    rw [List.map_cons, List.nodup_cons]
    exact ⟨mfind_none.1 h, hn⟩
  | some w =>
    dsimp only
    rw [List.map_map]
    have : ((fun x : K × V => x.1) ∘ fun p : K × V => if p.1 = k then (k, v) else p) = fun p => p.1 := by
      funext p
      by_cases hp : p.1 = k
      · simp [Function.comp_apply, hp]
      · simp only [Function.comp_apply, if_neg hp]
    rw [this]; exact hn

end

/-! ### Keys -/

theorem keyEq_iff {a b : Bytes × Val} : keyEq a b = true ↔ a.1 = b.1 ∧ Same a.2 b.2 := by
  unfold keyEq
  rw [decide_eq_true_eq, C15_equal_iff_same]

theorem Same.symm {a b : Val} (h : Same a b) : Same b a := by cases h <;> constructor
theorem Same.trans {a b c : Val} (h : Same a b) (g : Same b c) : Same a c := by cases h <;> cases g <;> constructor

theorem keyEq_congr {p k j : Bytes × Val} (h : keyEq p k = true) : keyEq p j = keyEq k j := by
  obtain ⟨h1, h2⟩ := keyEq_iff.1 h
  rw [Bool.eq_iff_iff, keyEq_iff, keyEq_iff]
  exact ⟨fun x => ⟨h1.symm.trans x.1, h2.symm.trans x.2⟩, fun x => ⟨h1.trans x.1, h2.trans x.2⟩⟩

theorem kfind_congr {m : List ((Bytes × Val) × Nat)} {k j : Bytes × Val} (h : keyEq k j = true) : kfind m k = kfind m j := by
  induction m with
  | nil => rfl
  | cons p l ih =>
    have : keyEq p.1 k = keyEq p.1 j := by
      obtain ⟨h1, h2⟩ := keyEq_iff.1 h
      rw [Bool.eq_iff_iff, keyEq_iff, keyEq_iff]
      exact ⟨fun x => ⟨x.1.trans h1, x.2.trans h2⟩, fun x => ⟨x.1.trans h1.symm, x.2.trans h2.symm⟩⟩
    simp only [kfind, this, ih]

theorem kfind_kput (m : List ((Bytes × Val) × Nat)) (k : Bytes × Val) (d : Nat) (j : Bytes × Val) :
    kfind (kput m k d) j = if keyEq k j then some d else kfind m j := by
  have hmap : ∀ m : List ((Bytes × Val) × Nat), kfind (m.map fun p => if keyEq p.1 k then (p.1, d) else p) j
      = if keyEq k j then (kfind m k).map (fun _ => d) else kfind m j := by
    intro m
    induction m with
    | nil => simp [kfind]
    | cons p l ih =>
      simp only [List.map_cons, kfind, ih]
      by_cases h1 : keyEq p.1 k = true
      · rw [if_pos h1]
        have hc := keyEq_congr (j := j) h1
        by_cases h2 : keyEq k j = true
        · simp [h1, h2, hc]
        · simp [h2, hc]
      · rw [if_neg h1]
        by_cases h2 : keyEq k j = true
        · have h3 : ¬ keyEq p.1 j = true := by
            intro h4
            obtain ⟨a1, a2⟩ := keyEq_iff.1 h4
            obtain ⟨b1, b2⟩ := keyEq_iff.1 h2
            exact h1 (keyEq_iff.2 ⟨a1.trans b1.symm, a2.trans b2.symm⟩)
          simp [h1, h2, h3]
        · simp only [h2]
          rfl
  unfold kput
  cases h : kfind m k with
  | none => simp only [kfind]
  | some w =>
    dsimp only
    rw [hmap, h]; rfl

/-- Values that may be keys: an array is compared by address only, but stored with its size. -/
def noArr : Val → Bool
  | .arr _ _ => false
  | _ => true

theorem same_noArr {a b : Val} (h : noArr a = true) : Same a b ↔ a = b := by
  constructor
  · intro x; cases x <;> first | rfl | cases h
  · rintro rfl
    cases a <;> first | constructor | cases h

theorem keyEq_noArr {c d : Bytes} {x y : Val} (h : noArr x = true) : keyEq (c, x) (d, y) = true ↔ c = d ∧ x = y := by
  rw [keyEq_iff]
  simp only [same_noArr h]

/-! ### Database keys -/

theorem le_inj {k m n : Nat} (hm : m < 256 ^ k) (hn : n < 256 ^ k) (h : le k m = le k n) : m = n := by
  rw [← leNat_le k m hm, ← leNat_le k n hn, h]

theorem be8_len (n : Nat) : (be8 n).length = 8 := by unfold be8; rw [List.length_reverse, le_length]

theorem be8_inj {m n : Nat} (hm : m < 2 ^ 64) (hn : n < 2 ^ 64) (h : be8 m = be8 n) : m = n :=
  le_inj (k := 8) (by simpa using hm) (by simpa using hn) (List.reverse_inj.1 h)

/-- Contract addresses that can be told apart by the 20 bytes the database keeps. -/
structure Apart (S : Bytes → Prop) : Prop where
  len : ∀ c, S c → c.length = 32
  sep : ∀ c d, S c → S d → c.take 20 = d.take 20 → c = d

theorem take_len {S : Bytes → Prop} (hS : Apart S) {c : Bytes} (h : S c) : (c.take 20).length = 20 := by
  rw [List.length_take, hS.len c h]; rfl

theorem dbKey_inj {S : Bytes → Prop} (hS : Apart S) {c d : Bytes} {a b : Nat} (hc : S c) (hd : S d) (ha : a < 2 ^ 64)
    (hb : b < 2 ^ 64) : dbKey c a = dbKey d b ↔ c = d ∧ a = b := by
  constructor
  · intro h
    have := List.append_inj h (by rw [take_len hS hc, take_len hS hd])
    exact ⟨hS.sep c d hc hd this.1, be8_inj ha hb this.2⟩
  · rintro ⟨rfl, rfl⟩; rfl

theorem dbEntKey_inj {S : Bytes → Prop} (hS : Apart S) {c d : Bytes} {a b k j : Nat} (hc : S c) (hd : S d) (ha : a < 2 ^ 64)
    (hb : b < 2 ^ 64) (hk : k < 2 ^ 64) (hj : j < 2 ^ 64) : dbEntKey c a k = dbEntKey d b j ↔ c = d ∧ a = b ∧ k = j := by
  constructor
  · intro h
    have h1 := List.append_inj h (by rw [take_len hS hc, take_len hS hd])
    have h2 := List.append_inj h1.2 (by rw [be8_len, be8_len])
    exact ⟨hS.sep c d hc hd h1.1, be8_inj ha hb h2.1, be8_inj hk hj h2.2⟩
  · rintro ⟨rfl, rfl, rfl⟩; rfl

theorem dbIndexKey_inj {S : Bytes → Prop} (hS : Apart S) {c d : Bytes} {x y : Val} (hc : S c) (hd : S d) (hx : x.Wf) (hy : y.Wf) :
    dbIndexKey c x = dbIndexKey d y ↔ c = d ∧ x = y := by
  constructor
  · intro h
    have h1 := List.append_inj h (by rw [hS.len c hc, hS.len d hd])
    have h2 := C14_prefix_free ⟨0, 0, x⟩ ⟨0, 0, y⟩ ⟨Nat.two_pow_pos 32, Nat.two_pow_pos 8, hx⟩ ⟨Nat.two_pow_pos 32, Nat.two_pow_pos 8, hy⟩ false false [] []
      (by rw [h1.2])
    have := h2.1
    simp only [kept, Var.mk.injEq] at this
    exact ⟨h1.1, this.2.2⟩
  · rintro ⟨rfl, rfl⟩; rfl

/-- What the database keeps of a variable. -/
def noCount (v : Var) : Var := { v with rc := 0 }

theorem dbDecode_ser (v : Var) (hv : v.Wf) : dbDecode (some (serialize v false true)) = .ok (some (noCount v)) := by
  unfold dbDecode
  have h := C14_round_trip v hv false true []
  rw [List.append_nil] at h
  dsimp only
  rw [h]; rfl

theorem dbDecode_noCount {o : Option Bytes} {v : Var} (h : dbDecode o = .ok (some v)) : noCount v = v := by
  cases o with
  | none => cases h
  | some b =>
    unfold dbDecode at h
    obtain ⟨⟨w, n⟩, h1, h2⟩ := Res.bind_eq_ok.1 h
    cases h2
    unfold deserialize at h1
    rw [if_neg (by decide)] at h1
    obtain ⟨⟨f, s2⟩, h3, h4⟩ := Res.bind_eq_ok.1 h1
    obtain ⟨⟨x, s3⟩, h5, h6⟩ := Res.bind_eq_ok.1 h4
    obtain ⟨⟨y, s4⟩, h7, h8⟩ := Res.bind_eq_ok.1 h6
    cases h3
    cases h8
    rfl

end Verif.VM
