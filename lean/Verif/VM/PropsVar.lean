import Verif.VM.VarLemmas
/-
  C14 and C15: serialization of contract values and their order.
-/
namespace Verif.VM
open Verif.Codec (Bytes)

/-! ## Specification -/

/-- Two values a contract cannot tell apart: same type and same content. An array or a map is
    identified by its address, as in the virtual machine. -/
inductive Same : Val → Val → Prop
  | nil : Same .nil .nil
  | fls : Same .fls .fls
  | tru : Same .tru .tru
  | ref (a) : Same (.ref a) (.ref a)
  | uint (v) : Same (.uint v) (.uint v)
  | str (b) : Same (.str b) (.str b)
  | bin (b) : Same (.bin b) (.bin b)
  | arr (a n m) : Same (.arr a n) (.arr a m)
  | map (a) : Same (.map a) (.map a)

/-- What a serialized variable keeps under the two options. -/
def kept (v : Var) (rc vf : Bool) : Var :=
  { rc := if rc then v.rc else 0, flags := if vf then v.flags else 0, val := v.val }

/-! ## C14 -/

/-- Serializing and reading back gives the same variable and consumes exactly the bytes written,
    whatever follows them. -/
theorem C14_round_trip (v : Var) (hv : v.Wf) (rc vf : Bool) (t : Bytes) :
    deserialize (serialize v rc vf ++ t) rc vf = .ok (kept v rc vf, (serialize v rc vf).length) := by
  rw [deserialize_eq, desVar_ser v hv rc vf t]
  simp only [Res.bind_ok, List.length_append]
  rw [Nat.add_sub_cancel]; rfl

/-- No strict prefix of a serialized variable is accepted. -/
theorem C14_truncation (v : Var) (hv : v.Wf) (rc vf : Bool) (n : Nat)
    (hn : n < (serialize v rc vf).length) :
    deserialize ((serialize v rc vf).take n) rc vf = .throw := by
  rw [deserialize_eq]
  generalize hx : desVar rc vf ((serialize v rc vf).take n) = x
  have full := desVar_ser v hv rc vf []
  rw [List.append_nil] at full
  cases x with
  | throw => rfl
  | ok p =>
    exfalso
    obtain ⟨w, r⟩ := p
    obtain ⟨q, hq, hloc⟩ := local_desVar rc vf _ _ _ hx
    have := hloc (r ++ (serialize v rc vf).drop n)
    rw [← List.append_assoc, ← hq, List.take_append_drop] at this
    rw [full] at this
    have h2 := congrArg (fun x => match x with | Res.ok (p : Var × Bytes) => p.2.length | _ => 0) this
    simp at h2
    omega
  | ub =>
    exfalso
    have noub : ∀ n s, rd n s ≠ .ub := by intro n s; unfold rd; split <;> simp
    have noubB : ∀ s, rdBytes s ≠ .ub := by
      intro s h; unfold rdBytes at h
      cases h1 : rd 4 s with
      | ok p => rw [h1] at h; simp only [Res.bind_ok, Res.chk] at h; repeat' (split at h <;> simp_all)
      | throw => rw [h1] at h; simp at h
      | ub => exact noub _ _ h1
    have noubV : ∀ s, desVal s ≠ .ub := by
      intro s h; unfold desVal at h
      cases h1 : rd 1 s with
      | throw => rw [h1] at h; simp at h
      | ub => exact noub _ _ h1
      | ok p =>
        obtain ⟨t, s1⟩ := p
        rw [h1] at h; simp only [Res.bind_ok] at h
        have aux : ∀ (k : Nat) (f : Nat × Bytes → Res (Val × Bytes)), (∀ q, f q ≠ .ub) →
            (rd k s1 >>= f) ≠ .ub := by
          intro k f hf hh
          cases h2 : rd k s1 with
          | ok q => rw [h2] at hh; exact hf q hh
          | throw => rw [h2] at hh; cases hh
          | ub => exact noub _ _ h2
        have auxB : ∀ (f : Bytes × Bytes → Res (Val × Bytes)), (∀ q, f q ≠ .ub) →
            (rdBytes s1 >>= f) ≠ .ub := by
          intro f hf hh
          cases h2 : rdBytes s1 with
          | ok q => rw [h2] at hh; exact hf q hh
          | throw => rw [h2] at hh; cases hh
          | ub => exact noubB _ h2
        split at h
        all_goals first
          | exact aux _ _ (fun _ => by simp) h
          | exact auxB _ (fun _ => by simp) h
          | (simp only [Res.chk] at h
             split at h
             · simp only [Res.bind_ok] at h
               refine aux _ _ (fun q hh => ?_) h
               cases h3 : rd 4 q.2 with
               | ok q2 => simp only [h3, Res.bind_ok] at hh; cases hh
               | throw => simp only [h3] at hh; cases hh
               | ub => exact noub _ _ h3
             · cases h)
          | cases h
    unfold desVar at hx
    have o : ∀ (b : Bool) n s, (if b then rd n s else Res.ok (0, s)) ≠ .ub := by
      intro b n s; cases b
      · simp
      · simpa using noub n s
    generalize h0 : (serialize v rc vf).take n = s at hx
    cases h1 : (if rc = true then rd 4 s else Res.ok (0, s)) with
    | throw => rw [h1] at hx; cases hx
    | ub => exact o _ _ _ h1
    | ok p =>
      rw [h1] at hx; simp only [Res.bind_ok] at hx
      cases h2 : (if vf = true then rd 1 p.2 else Res.ok (0, p.2)) with
      | throw => rw [h2] at hx; cases hx
      | ub => exact o _ _ _ h2
      | ok q =>
        rw [h2] at hx; simp only [Res.bind_ok] at hx
        cases h3 : desVal q.2 with
        | throw => rw [h3] at hx; cases hx
        | ub => exact noubV _ h3
        | ok z => rw [h3] at hx; cases hx

/-- Different variables never have the same serialized form, nor one a prefix of the other. -/
theorem C14_prefix_free (v w : Var) (hv : v.Wf) (hw : w.Wf) (rc vf : Bool) (s t : Bytes)
    (h : serialize v rc vf ++ s = serialize w rc vf ++ t) : kept v rc vf = kept w rc vf ∧ s = t := by
  have h1 := desVar_ser v hv rc vf s
  rw [h, desVar_ser w hw rc vf t] at h1
  simp only [Res.ok.injEq, Prod.mk.injEq] at h1
  exact ⟨h1.1.symm, h1.2.symm⟩

/-- Whatever bytes are read, the result is a variable in the range of its C++ types, at least one
    and not more than all bytes are consumed, and the bytes after them play no role. -/
theorem C14_any_input (s : Bytes) (hs : ∀ x ∈ s, x < 256) (rc vf : Bool) (v : Var) (n : Nat)
    (h : deserialize s rc vf = .ok (v, n)) :
    v.Wf ∧ 1 ≤ n ∧ n ≤ s.length ∧ ∀ t, deserialize (s.take n ++ t) rc vf = .ok (v, n) := by
  rw [deserialize_eq] at h
  obtain ⟨⟨w, r⟩, h1, h⟩ := Res.bind_eq_ok.1 h
  cases h
  obtain ⟨p, rfl, hp⟩ := local_desVar rc vf _ _ _ h1
  have hpl : (p ++ r).length - r.length = p.length := by simp
  refine ⟨(desVar_wf hs h1).1, ?_, by simp, fun t => ?_⟩
  · rw [hpl]
    cases p with
    | cons => simp
    | nil =>
      exfalso
      have h0 := hp []
      simp only [List.nil_append] at h0
      revert h0
      cases rc <;> cases vf <;> simp [desVar, rd, desVal]
  · dsimp only
    rw [hpl, deserialize_eq]
    have : (p ++ r).take p.length = p := by simp
    rw [this, hp t]; simp

/-- Constants of a contract are read back as written. -/
theorem C14_constants (l : List Val) (hl : ∀ v ∈ l, v.Wf) :
    readConstants (l.flatMap (fun v => serialize ⟨0, 0, v⟩ false false)).length
      (l.flatMap (fun v => serialize ⟨0, 0, v⟩ false false)) = .ok l := by
  suffices H : ∀ (l : List Val) (k : Nat), (∀ v ∈ l, v.Wf) →
      (l.flatMap (fun v => serialize ⟨0, 0, v⟩ false false)).length ≤ k →
      readConstants k (l.flatMap (fun v => serialize ⟨0, 0, v⟩ false false)) = .ok l from
    H l _ hl (Nat.le_refl _)
  intro l
  induction l with
  | nil => intro k _ _; cases k <;> rfl
  | cons v l ih =>
    intro k hw hk
    simp only [List.flatMap_cons] at hk ⊢
    have hwv : (⟨0, 0, v⟩ : Var).Wf := ⟨Nat.two_pow_pos 32, Nat.zero_lt_succ _, hw v (List.mem_cons_self ..)⟩
    have h1 := C14_round_trip ⟨0, 0, v⟩ hwv false false
      (l.flatMap (fun v => serialize ⟨0, 0, v⟩ false false))
    generalize hs : serialize ⟨0, 0, v⟩ false false = s at *
    have hs1 : 1 ≤ s.length := by rw [← hs]; cases v <;> simp [serialize, serVal] <;> (repeat' split) <;> simp
    cases s with
    | nil => simp at hs1
    | cons b s =>
      cases k with
      | zero => simp at hk
      | succ k =>
        simp only [List.cons_append, readConstants]
        rw [List.cons_append] at h1
        rw [h1]
        simp only [Res.bind_ok, kept]
        have : (b :: (s ++ l.flatMap (fun v => serialize ⟨0, 0, v⟩ false false))).drop (b :: s).length
            = l.flatMap (fun v => serialize ⟨0, 0, v⟩ false false) := by simp
        rw [this, ih k (fun w hw' => hw w (List.mem_cons_of_mem _ hw'))
          (by rw [List.length_append, List.length_cons] at hk; omega)]
        rfl

/-! ## C15 -/

theorem C15_equal_iff_same (a b : Val) : compare a b = .eq ↔ Same a b := by
  constructor
  · intro h
    cases a <;> cases b <;> simp [compare, Val.code] at h <;>
      first
      | constructor
      | (rw [cmpN_eq] at h; subst h; constructor)
      | (split at h
         · rename_i hl; rw [memcmp_eq hl] at h; subst h; constructor
         · split at h <;> cases h)
  · intro h
    cases h <;> simp [compare, Val.code, cmpN_eq, (memcmp_eq rfl).2]

/-- Comparing in the other direction gives the opposite answer. -/
theorem C15_antisymmetric (a b : Val) : compare b a = (compare a b).swap := by
  have hN : ∀ x y : Nat, cmpN y x = (cmpN x y).swap := by
    intro x y; unfold cmpN
    by_cases h1 : x = y
    · subst h1; simp
    · rw [if_neg h1, if_neg (fun e => h1 e.symm)]
      by_cases h2 : x < y
      · rw [if_pos h2, if_neg (by omega)]; rfl
      · rw [if_neg h2, if_pos (by omega)]; rfl
  have hB : ∀ x y : Bytes, (if y.length = x.length then memcmp y x else
      if y.length < x.length then Ordering.lt else .gt) =
      (if x.length = y.length then memcmp x y else
      if x.length < y.length then Ordering.lt else .gt).swap := by
    intro x y
    by_cases h1 : x.length = y.length
    · rw [if_pos h1, if_pos h1.symm, memcmp_swap]
    · rw [if_neg h1, if_neg (fun e => h1 e.symm)]
      by_cases h2 : x.length < y.length
      · rw [if_pos h2, if_neg (by omega)]; rfl
      · rw [if_neg h2, if_pos (by omega)]; rfl
  cases a <;> cases b <;>
    first
    | exact hN _ _
    | exact hB _ _
    | (simp [compare, Val.code])

theorem C15_transitive (a b c : Val) (h1 : compare a b = .lt) (h2 : compare b c = .lt) :
    compare a c = .lt := by
  have code : ∀ x y : Val, compare x y = .lt → x.code < y.code ∨ x.code = y.code := by
    intro x y h
    unfold compare at h
    split at h
    · split at h
      · left; assumption
      · cases h
    · right; rename_i hh; simpa using hh
  have hlt : ∀ x y : Val, x.code < y.code → compare x y = .lt := by
    intro x y h; unfold compare; rw [if_pos (by omega), if_pos h]
  rcases code a b h1 with c1 | c1
  · rcases code b c h2 with c2 | c2 <;> exact hlt _ _ (by omega)
  rcases code b c h2 with c2 | c2
  · exact hlt _ _ (by omega)
  have hB : ∀ {x y z : Bytes},
      (if x.length = y.length then memcmp x y else
        if x.length < y.length then Ordering.lt else .gt) = .lt →
      (if y.length = z.length then memcmp y z else
        if y.length < z.length then Ordering.lt else .gt) = .lt →
      (if x.length = z.length then memcmp x z else
        if x.length < z.length then Ordering.lt else .gt) = .lt := by
    intro x y z k1 k2
    by_cases e1 : x.length = y.length
    · rw [if_pos e1] at k1
      by_cases e2 : y.length = z.length
      · rw [if_pos e2] at k2; rw [if_pos (by omega)]; exact memcmp_trans e1 e2 k1 k2
      · rw [if_neg e2] at k2
        have : y.length < z.length := by
          by_cases hh : y.length < z.length; exact hh; rw [if_neg hh] at k2; cases k2
        rw [if_neg (by omega), if_pos (by omega)]
    · rw [if_neg e1] at k1
      have l1 : x.length < y.length := by
        by_cases hh : x.length < y.length; exact hh; rw [if_neg hh] at k1; cases k1
      have l2 : y.length ≤ z.length := by
        by_cases e2 : y.length = z.length
        · omega
        · rw [if_neg e2] at k2
          by_cases hh : y.length < z.length; omega; rw [if_neg hh] at k2; cases k2
      rw [if_neg (by omega), if_pos (by omega)]
  cases a <;> cases b <;> first | (simp [Val.code] at c1; done) | skip
  all_goals cases c <;> first | (simp [Val.code] at c2; done) | skip
  all_goals simp only [compare, Val.code, ne_eq, not_true_eq_false, if_false] at h1 h2 ⊢
  all_goals first
    | (rw [cmpN_lt] at *; omega)
    | exact hB h1 h2
    | cases h1

/-- Exactly one of smaller, same, larger. -/
theorem C15_total (a b : Val) :
    (compare a b = .lt ∧ compare b a = .gt ∧ ¬ Same a b) ∨
    (compare a b = .eq ∧ compare b a = .eq ∧ Same a b) ∨
    (compare a b = .gt ∧ compare b a = .lt ∧ ¬ Same a b) := by
  have h1 := C15_antisymmetric a b
  have h2 := C15_equal_iff_same a b
  cases h : compare a b <;> rw [h] at h1 h2 <;> simp [h1] at * <;> exact h2

/-- Equal keys are interchangeable in every comparison. -/
theorem C15_congruent (a b c : Val) (h : Same a b) : compare a c = compare b c := by
  cases h <;> first | rfl | (cases c <;> rfl)

/-- The order of the key index, which is on pointers: a missing value comes first. -/
theorem C15_pointers (a b c : Option Val) :
    (comparePtr a b = .eq → comparePtr b a = .eq) ∧
    (comparePtr a b = .lt ↔ comparePtr b a = .gt) ∧
    (comparePtr a b = .lt → comparePtr b c = .lt → comparePtr a c = .lt) := by
  refine ⟨?_, ?_, ?_⟩
  · cases a <;> cases b <;> simp [comparePtr]
    intro h; rw [C15_antisymmetric, h]; rfl
  · cases a <;> cases b <;> simp [comparePtr]
    rename_i x y
    rw [C15_antisymmetric x y]
    cases compare x y <;> simp
  · cases a <;> cases b <;> cases c <;> simp [comparePtr]
    exact C15_transitive _ _ _

/-! ## Non-vacuity -/

def exVar : Var := { rc := 3, flags := 7, val := .str b!"hello" }

example : exVar.Wf := ⟨by decide, by decide, by simp only [exVar, Val.Wf]; decide⟩
example : serialize exVar true true = [3, 0, 0, 0, 7, 5, 5, 0, 0, 0, 104, 101, 108, 108, 111] := by decide
example : deserialize (serialize exVar false true) false true = .ok ({ exVar with rc := 0 }, 11) := by
  decide
example : serialize ⟨0, 0, .uint (2 ^ 70)⟩ false false = 12 :: [0, 0, 0, 0, 0, 0, 0, 0, 64, 0, 0, 0, 0, 0, 0, 0] := by
  decide
example : compare (.str b!"b") (.str b!"ab") = .lt ∧ compare (.str b!"ab") (.str b!"b") = .gt ∧
    compare (.uint 5) (.str b!"") = .lt ∧ compare (.arr 3 1) (.arr 3 9) = .eq := by decide

end Verif.VM
