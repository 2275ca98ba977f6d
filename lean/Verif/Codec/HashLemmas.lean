import Verif.Codec.HashSpec
/-
  The encoders are prefix free: what follows an encoded value never changes which value it is.
-/
namespace Verif.Codec

/-- No encoding of a value is a proper prefix of another one, and encodings are unique. -/
def PF {α : Type} (ok : α → Prop) (e : α → Bytes) : Prop :=
  ∀ a b s t, ok a → ok b → e a ++ s = e b ++ t → a = b ∧ s = t

theorem le_pf : ∀ (k a b : Nat) (s t : Bytes), a < 256 ^ k → b < 256 ^ k →
    le k a ++ s = le k b ++ t → a = b ∧ s = t
  | 0, a, b, s, t, ha, hb, h => ⟨by simp at ha hb; omega, h⟩
  | k + 1, a, b, s, t, ha, hb, h => by
    simp only [le, List.cons_append, List.cons.injEq] at h
    have hp : 256 ^ (k + 1) = 256 ^ k * 256 := Nat.pow_succ ..
    have := le_pf k (a / 256) (b / 256) s t (by omega) (by omega) h.2
    exact ⟨by omega, this.2⟩

theorem pf_U : PF U64 encU := fun a b s t ha hb h =>
  le_pf 8 a b s t (by unfold U64 at ha; omega) (by unfold U64 at hb; omega) h

theorem pf_I : PF I64 encI := by
  intro a b s t ha hb h
  unfold I64 at ha hb
  obtain ⟨e, h⟩ := le_pf 8 _ _ s t (by omega) (by omega) h
  exact ⟨by omega, h⟩

theorem pf_Bool : PF (fun _ => True) encBool := by
  intro a b s t _ _ h
  cases a <;> cases b <;> simp_all [encBool]

theorem pf_U128 : PF U128 encU128 := by
  intro a b s t ha hb h
  unfold U128 at ha hb
  simp only [encU128, List.append_assoc] at h
  obtain ⟨e, h⟩ := pf_U _ _ _ _ (by unfold U64; omega) (by unfold U64; omega) h
  obtain ⟨e', h⟩ := pf_U _ _ _ _ (by unfold U64; omega) (by unfold U64; omega) h
  exact ⟨by omega, h⟩

theorem append_inj_len {α : Type} : ∀ {a b s t : List α}, a.length = b.length →
    a ++ s = b ++ t → a = b ∧ s = t := fun hl h => List.append_inj h hl

theorem pf_sized (tag : Bytes) : PF Sz (fun s => tag ++ encU s.length ++ s) := by
  intro a b s t ha hb h
  simp only [List.append_assoc] at h
  replace h := List.append_cancel_left h
  obtain ⟨e, h⟩ := pf_U _ _ _ _ (by exact ha) (by exact hb) h
  exact append_inj_len e h

theorem pf_Str : PF Sz encStr := pf_sized _
theorem pf_Bytes : PF Sz encBytes := pf_sized _

theorem pf_Opt {α : Type} {ok : α → Prop} {e : α → Bytes} (he : PF ok e) :
    PF (OptOk ok) (encOpt e) := by
  intro a b s t ha hb h
  cases a with
  | none =>
    cases b with
    | none => exact ⟨rfl, List.append_cancel_left h⟩
    | some b =>
      simp only [encOpt, List.append_assoc] at h
      replace h := List.append_cancel_left h
      simp [encBool] at h
  | some a =>
    cases b with
    | none =>
      simp only [encOpt, List.append_assoc] at h
      replace h := List.append_cancel_left h
      simp [encBool] at h
    | some b =>
      simp only [encOpt, List.append_assoc] at h
      replace h := List.append_cancel_left (List.append_cancel_left h)
      obtain ⟨rfl, k1⟩ := he _ _ _ _ ha hb h
      exact ⟨rfl, k1⟩

theorem encAll_pf {α : Type} {ok : α → Prop} {e : α → Bytes} (he : PF ok e) :
    ∀ (l l' : List α) (s t : Bytes), (∀ x ∈ l, ok x) → (∀ x ∈ l', ok x) → l.length = l'.length →
      encAll e l ++ s = encAll e l' ++ t → l = l' ∧ s = t
  | [], [], _, _, _, _, _, h => ⟨rfl, h⟩
  | [], _ :: _, _, _, _, _, hl, _ => by simp at hl
  | _ :: _, [], _, _, _, _, hl, _ => by simp at hl
  | a :: l, b :: l', s, t, ha, hb, hl, h => by
    simp only [encAll, List.append_assoc] at h
    obtain ⟨rfl, k1⟩ := he _ _ _ _ (ha a (by simp)) (hb b (by simp)) h
    obtain ⟨rfl, k2⟩ := encAll_pf he l l' s t (fun x hx => ha x (by simp [hx]))
      (fun x hx => hb x (by simp [hx])) (by simpa using hl) k1
    exact ⟨rfl, k2⟩

theorem pf_Vec {α : Type} {ok : α → Prop} {e : α → Bytes} (he : PF ok e) :
    PF (VecOk ok) (encVec e) := by
  intro a b s t ha hb h
  simp only [encVec, List.append_assoc] at h
  replace h := List.append_cancel_left h
  obtain ⟨el, h⟩ := pf_U _ _ _ _ (by exact ha.1) (by exact hb.1) h
  exact encAll_pf he _ _ _ _ ha.2 hb.2 el h

theorem pf_Pair {α β : Type} {ok : α → Prop} {ok' : β → Prop} {e : α → Bytes} {f : β → Bytes}
    (he : PF ok e) (hf : PF ok' f) : PF (PairOk ok ok') (encPair e f) := by
  rintro ⟨a, a'⟩ ⟨b, b'⟩ s t ⟨h1, h2⟩ ⟨h3, h4⟩ h
  simp only [encPair, List.append_assoc] at h
  replace h := List.append_cancel_left h
  obtain ⟨rfl, k1⟩ := he _ _ _ _ h1 h3 h
  obtain ⟨rfl, k2⟩ := hf _ _ _ _ h2 h4 k1
  exact ⟨rfl, k2⟩

theorem pf_Map {α β : Type} {ok : α → Prop} {ok' : β → Prop} {e : α → Bytes} {f : β → Bytes}
    (he : PF ok e) (hf : PF ok' f) : PF (VecOk (PairOk ok ok')) (encMap e f) :=
  pf_Vec (pf_Pair he hf)

/-! ### Variants -/

/-- The encoding of a variant without the "variant<>" preface. -/
def varBody (j : Variant → Bool) (v : Nat) : Variant → Bytes
  | .null => b!"NULL"
  | .bool b => tagged v b!"<bool>" ++ encBool b
  | .ulong n => tagged v b!"<u64>" ++ encU n
  | .long z => tagged v b!"<i64>" ++ encI z
  | .str s => encStr s
  | .arr l => b!"vector<>" ++ encU l.length ++ encVars j v l
  | .obj l => b!"object<>" ++ (b!"vector<>" ++ encU l.length ++ encFields j v l)
  | .blob d => encBytes d

theorem encVar_body (j : Variant → Bool) (v : Nat) (x : Variant) :
    encVar j v x = encVarPre v (j x) ++ varBody j v x := by
  cases x <;> simp only [encVar, varBody]

theorem varBody_no_preface (j : Variant → Bool) {v : Nat} (hv : 1 ≤ v) (x : Variant)
    (s t : Bytes) : varBody j v x ++ s ≠ b!"variant<>" ++ t := by
  intro h
  cases x <;> simp [varBody, tagged, hv, encStr, encBytes] at h

theorem encVar_strip (j : Variant → Bool) {v : Nat} (hv : 1 ≤ v) (a b : Variant) (s t : Bytes)
    (h : encVar j v a ++ s = encVar j v b ++ t) :
    varBody j v a ++ s = varBody j v b ++ t := by
  rw [encVar_body, encVar_body] at h
  unfold encVarPre at h
  by_cases ha : v ≥ 1 ∧ j a = false <;> by_cases hb : v ≥ 1 ∧ j b = false
  · rw [if_pos ha, if_pos hb, List.append_assoc, List.append_assoc] at h
    exact List.append_cancel_left h
  · rw [if_pos ha, if_neg hb, List.append_assoc] at h
    exact absurd h.symm (varBody_no_preface j hv b t _)
  · rw [if_neg ha, if_pos hb, List.append_assoc _ (varBody j v b)] at h
    exact absurd h (varBody_no_preface j hv a s _)
  · rw [if_neg ha, if_neg hb] at h
    exact h

mutual
theorem encVar_pf (j : Variant → Bool) {v : Nat} (hv : 1 ≤ v) (a b : Variant) (s t : Bytes)
    (ha : VarOk a) (hb : VarOk b) (h : encVar j v a ++ s = encVar j v b ++ t) : a = b ∧ s = t := by
  replace h := encVar_strip j hv a b s t h
  match a with
  | .null =>
    match b with
    | .null => exact ⟨rfl, List.append_cancel_left h⟩
    | .bool _ | .ulong _ | .long _ | .str _ | .arr _ | .obj _ | .blob _ =>
      simp [varBody, tagged, hv, encStr, encBytes] at h
  | .bool x =>
    match b with
    | .bool y =>
      simp only [varBody, List.append_assoc] at h
      obtain ⟨rfl, k1⟩ := pf_Bool _ _ _ _ trivial trivial (List.append_cancel_left h)
      exact ⟨rfl, k1⟩
    | .null | .ulong _ | .long _ | .str _ | .arr _ | .obj _ | .blob _ =>
      simp [varBody, tagged, hv, encStr, encBytes] at h
  | .ulong x =>
    match b with
    | .ulong y =>
      simp only [varBody, List.append_assoc] at h
      obtain ⟨rfl, k1⟩ := pf_U _ _ _ _ (by simpa only [VarOk] using ha)
        (by simpa only [VarOk] using hb) (List.append_cancel_left h)
      exact ⟨rfl, k1⟩
    | .null | .bool _ | .long _ | .str _ | .arr _ | .obj _ | .blob _ =>
      simp [varBody, tagged, hv, encStr, encBytes] at h
  | .long x =>
    match b with
    | .long y =>
      simp only [varBody, List.append_assoc] at h
      obtain ⟨rfl, k1⟩ := pf_I _ _ _ _ (by simpa only [VarOk] using ha)
        (by simpa only [VarOk] using hb) (List.append_cancel_left h)
      exact ⟨rfl, k1⟩
    | .null | .bool _ | .ulong _ | .str _ | .arr _ | .obj _ | .blob _ =>
      simp [varBody, tagged, hv, encStr, encBytes] at h
  | .str x =>
    match b with
    | .str y =>
      simp only [varBody] at h
      obtain ⟨rfl, k1⟩ := pf_Str _ _ _ _ (by simpa only [VarOk] using ha)
        (by simpa only [VarOk] using hb) h
      exact ⟨rfl, k1⟩
    | .null | .bool _ | .ulong _ | .long _ | .arr _ | .obj _ | .blob _ =>
      simp [varBody, tagged, hv, encStr, encBytes] at h
  | .blob x =>
    match b with
    | .blob y =>
      simp only [varBody] at h
      obtain ⟨rfl, k1⟩ := pf_Bytes _ _ _ _ (by simpa only [VarOk] using ha)
        (by simpa only [VarOk] using hb) h
      exact ⟨rfl, k1⟩
    | .null | .bool _ | .ulong _ | .long _ | .str _ | .arr _ | .obj _ =>
      simp [varBody, tagged, hv, encStr, encBytes] at h
  | .arr l =>
    match b with
    | .arr l' =>
      simp only [varBody, List.append_assoc] at h
      simp only [VarOk] at ha hb
      obtain ⟨el, h⟩ := pf_U _ _ _ _ (by exact ha.1) (by exact hb.1) (List.append_cancel_left h)
      obtain ⟨rfl, k1⟩ := encVars_pf j hv l l' s t ha.2 hb.2 el h
      exact ⟨rfl, k1⟩
    | .null | .bool _ | .ulong _ | .long _ | .str _ | .obj _ | .blob _ =>
      simp [varBody, tagged, hv, encStr, encBytes] at h
  | .obj l =>
    match b with
    | .obj l' =>
      simp only [varBody, List.append_assoc] at h
      simp only [VarOk] at ha hb
      obtain ⟨el, h⟩ := pf_U _ _ _ _ (by exact ha.1) (by exact hb.1)
        (List.append_cancel_left (List.append_cancel_left h))
      obtain ⟨rfl, k1⟩ := encFields_pf j hv l l' s t ha.2 hb.2 el h
      exact ⟨rfl, k1⟩
    | .null | .bool _ | .ulong _ | .long _ | .str _ | .arr _ | .blob _ =>
      simp [varBody, tagged, hv, encStr, encBytes] at h

theorem encVars_pf (j : Variant → Bool) {v : Nat} (hv : 1 ≤ v) (l l' : List Variant) (s t : Bytes)
    (ha : VarsOk l) (hb : VarsOk l') (hl : l.length = l'.length)
    (h : encVars j v l ++ s = encVars j v l' ++ t) : l = l' ∧ s = t := by
  match l, l' with
  | [], [] => exact ⟨rfl, h⟩
  | [], _ :: _ => simp at hl
  | _ :: _, [] => simp at hl
  | a :: l, b :: l' =>
    simp only [encVars, List.append_assoc] at h
    simp only [VarsOk] at ha hb
    obtain ⟨rfl, k1⟩ := encVar_pf j hv a b _ _ ha.1 hb.1 h
    obtain ⟨rfl, k2⟩ := encVars_pf j hv l l' s t ha.2 hb.2 (by simpa using hl) k1
    exact ⟨rfl, k2⟩

theorem encFields_pf (j : Variant → Bool) {v : Nat} (hv : 1 ≤ v) (l l' : List (Bytes × Variant))
    (s t : Bytes) (ha : FieldsOk l) (hb : FieldsOk l') (hl : l.length = l'.length)
    (h : encFields j v l ++ s = encFields j v l' ++ t) : l = l' ∧ s = t := by
  match l, l' with
  | [], [] => exact ⟨rfl, h⟩
  | [], _ :: _ => simp at hl
  | _ :: _, [] => simp at hl
  | (k, a) :: l, (k', b) :: l' =>
    simp only [encFields, List.append_assoc] at h
    simp only [FieldsOk] at ha hb
    obtain ⟨rfl, k1⟩ := pf_Str _ _ _ _ ha.1.1 hb.1.1 (List.append_cancel_left h)
    obtain ⟨rfl, k2⟩ := encVar_pf j hv a b _ _ ha.1.2 hb.1.2 k1
    obtain ⟨rfl, k3⟩ := encFields_pf j hv l l' s t ha.2 hb.2 (by simpa using hl) k2
    exact ⟨rfl, k3⟩
end

theorem pf_Var (j : Variant → Bool) {v : Nat} (hv : 1 ≤ v) : PF VarOk (encVar j v) :=
  fun a b s t ha hb h => encVar_pf j hv a b s t ha hb h

end Verif.Codec
