import Verif.Compile.SimProg
/-
  A new engine with a program and its arguments.
-/
namespace Verif.Comp
open Verif Verif.VM
open Verif.Codec (Bytes)

/-- Only plain values in memory. -/
structure Fresh (s : Eng) : Prop where
  plain : ∀ a c, aget s.mem a = some c → Plain c
  sorted : Sorted s.mem

theorem assign_fresh (e : Env) {s : Eng} {a : Nat} {v : Val} (h : Fresh s) (ha : a < MEM_STATIC)
    (hi : ¬ (s.haveInit = true ∧ a < MEM_EXTERN)) (hv : Scalar v) :
    ∃ g c, assign e a v s = .ok () { s with gas := g, mem := aset ltN s.mem a c } ∧ Plain c ∧ c.val = v := by
  have hw : withAddr a v = v := by cases v <;> first | rfl | exact hv.elim
  have h2 : ¬ (a ≥ MEM_STATIC ∧ a < s.heapBase) := fun h2 => by omega
  have hf : fetch e a s = .ok () s := by
    simp only [fetch, bind_def, gets, id]
    rw [show need (¬ (s.haveInit ∧ a < MEM_EXTERN)) s = .ok () s by rw [need, if_pos hi]; rfl]
    dsimp only
    cases aget s.mem a with
    | some c => rfl
    | none => dsimp only; rw [if_neg h2]; rfl
  have hn : ∀ u : Eng, need (¬ numBytes v > MAX_VALUE_BYTES) u = .ok () u := fun u => by
    rw [need, if_pos hv.size]; rfl
  have hr : addrefVal v = pure () := addrefVal_plain hv.plain
  have hx : ∀ r, assignCell (.mem a) v s = r → assign e a v s = r := by
    intro r hr
    rw [assign, bind_def, hf]
    dsimp only
    rw [hw, hr]
  cases hc : aget s.mem a with
  | none =>
    have h1 : assignCell (.mem a) v s = .ok () { s with
        gas := s.gas + (WRITE_COST + numBytes v * WRITE_32_BYTE_COST / 32)
        mem := aset ltN s.mem a { val := v, dirty := true } } := by
      simp only [assignCell, replaceCell, getCell, bind_def, gets, hc, pure_def, hn, addGas, VM.modify, setCell, hr]
    exact ⟨_, _, hx _ h1, ⟨rfl, rfl, hv⟩, rfl⟩
  | some c =>
    have hp := h.plain a c hc
    have h1 : assignCell (.mem a) v s = .ok () { s with
        gas := s.gas + (WRITE_COST + numBytes v * WRITE_32_BYTE_COST / 32)
        mem := aset ltN s.mem a { c with val := v, ver := c.ver + 1, dirty := true, deleted := false } } := by
      simp only [assignCell, replaceCell, getCell, bind_def, gets, hc, pure_def, need, hp.const,
        clear_scalar hp.val, hv.size, addGas, VM.modify, setCell, hr, Bool.false_eq_true, not_false_eq_true, if_true]
    exact ⟨_, _, hx _ h1, ⟨hp.const, rfl, hv⟩, rfl⟩

/-- Memory got new values, nothing else but gas changed. -/
structure Loaded (s t : Eng) (l : List (Val × Nat)) : Prop where
  code : t.code = s.code
  limit : t.limit = s.limit
  frames : t.frames = s.frames
  haveInit : t.haveInit = s.haveInit
  fresh : Fresh t
  has : ∀ p ∈ l, Has t p.2 p.1
  other : ∀ a, (∀ p ∈ l, p.2 ≠ a) → aget t.mem a = aget s.mem a

theorem assign_all (e : Env) : ∀ (l : List (Val × Nat)) {s : Eng}, Fresh s → (∀ p ∈ l, p.2 < MEM_STATIC ∧ Scalar p.1) →
    (∀ p ∈ l, ¬ (s.haveInit = true ∧ p.2 < MEM_EXTERN)) → (l.map (·.2)).Nodup →
    ∃ t, forM' l (fun p => assign e p.2 p.1) s = .ok () t ∧ Loaded s t l
  | [], s, hf, _, _, _ => ⟨s, rfl, rfl, rfl, rfl, rfl, hf, fun _ h => (nomatch h), fun _ _ => rfl⟩
  | p :: l, s, hf, h1, h2, h3 => by
    obtain ⟨g, c, e1, pc, vc⟩ := assign_fresh e hf (h1 p (List.mem_cons_self ..)).1 (h2 p (List.mem_cons_self ..))
      (h1 p (List.mem_cons_self ..)).2
    have hf1 : Fresh { s with gas := g, mem := aset ltN s.mem p.2 c } := by
      refine ⟨fun a d hd => ?_, sorted_aset hf.sorted _ _⟩
      dsimp only at hd
      rw [aget_aset] at hd
      split at hd
      · cases hd; exact pc
      · exact hf.plain a d hd
    rw [List.map_cons, List.nodup_cons] at h3
    obtain ⟨t, e2, q⟩ := assign_all e l hf1 (fun r hr => h1 r (List.mem_cons_of_mem _ hr))
      (fun r hr => h2 r (List.mem_cons_of_mem _ hr)) h3.2
    refine ⟨t, ?_, q.code, q.limit, q.frames, q.haveInit, q.fresh, ?_, ?_⟩
    · rw [forM', bind_def, e1]; exact e2
    · intro r hr
      rcases List.mem_cons.1 hr with rfl | hr
      · refine ⟨c, ?_, pc.deleted, vc⟩
        rw [q.other r.2 (fun x hx hxr => h3.1 (List.mem_map.2 ⟨x, hx, hxr⟩))]
        exact aget_aset_self _ _ _ _
      · exact q.has r hr
    · intro a ha
      rw [q.other a (fun x hx => ha x (List.mem_cons_of_mem _ hx))]
      show aget (aset ltN s.mem p.2 c) a = _
      rw [aget_aset, if_neg (ha p (List.mem_cons_self ..))]

/-- Arguments are on the stack, from the second place on: vm_interface.cpp:366-375. -/
def argOps (vs : List Val) : List HostOp := (vs.zipIdx (MEM_STACK + 1)).map fun p => .assign p.2 p.1

theorem forM_host (e : Env) : ∀ (l : List (Val × Nat)) (s : Eng),
    forM' (l.map fun p => HostOp.assign p.2 p.1) (hostOp e) s = forM' l (fun p => assign e p.2 p.1) s
  | [], _ => rfl
  | p :: l, s => by
    rw [List.map_cons, forM', forM', bind_def, bind_def]
    have h : hostOp e (HostOp.assign p.2 p.1) s = assign e p.2 p.1 s := rfl
    rw [h]
    cases assign e p.2 p.1 s with
    | ok _ t => exact forM_host e l t
    | throw t => rfl
    | ub => rfl

theorem forM_congr {α : Type} {f g : α → EM Unit} : ∀ (l : List α), (∀ x ∈ l, f x = g x) → forM' l f = forM' l g
  | [], _ => rfl
  | a :: l, h => by rw [forM', forM', h a (List.mem_cons_self ..), forM_congr l (fun x hx => h x (List.mem_cons_of_mem _ hx))]

theorem zipIdx_nodup {α : Type} (l : List α) (n : Nat) : ((l.zipIdx n).map (·.2)).Nodup := by
  have : (l.zipIdx n).map (·.2) = List.range' n l.length := by simp [List.zipIdx_map_snd]
  rw [this]; exact List.nodup_range'

theorem initKeys_only (s : Eng) : ∃ k, initKeys s = { s with keys := k } := by
  unfold initKeys
  generalize s.mem.filter _ = l
  have : ∀ (l : List (Nat × Cell)) (t : Eng), ∃ k, l.foldl (fun t p => if (findKey t p.2.val).isSome then t
      else { t with keys := { cell := p.1, ver := p.2.ver, live := true, addr := p.1 } :: t.keys }) t = { t with keys := k } := by
    intro l
    induction l with
    | nil => intro t; exact ⟨t.keys, rfl⟩
    | cons p l ih =>
      intro t
      rw [List.foldl_cons]
      split
      · exact ih t
      · obtain ⟨k, hk⟩ := ih { t with keys := { cell := p.1, ver := p.2.ver, live := true, addr := p.1 } :: t.keys }
        exact ⟨k, hk⟩
  exact this l s

theorem aget_freeze {m : AMap Nat} {a : Nat} {c : Cell} (h : aget m a = some c) :
    aget (freeze m) a = some (if a < MEM_STACK then { c with const := true, dirty := false } else c) := by
  induction m with
  | nil => cases h
  | cons p m ih =>
    obtain ⟨k, d⟩ := p
    simp only [aget] at h
    unfold freeze
    rw [List.map_cons]
    by_cases hk : k = a
    · rw [if_pos hk] at h
      cases h
      subst hk
      by_cases hs : k < MEM_STACK
      · simp only [if_pos hs, aget, if_pos]
      · simp only [if_neg hs, aget, if_pos]
    · rw [if_neg hk] at h
      have := ih h
      by_cases hs : k < MEM_STACK
      · simp only [if_pos hs, aget, if_neg hk]; exact this
      · simp only [if_neg hs, aget, if_neg hk]; exact this

theorem aget_freeze_none {m : AMap Nat} {a : Nat} (h : aget m a = none) : aget (freeze m) a = none := by
  induction m with
  | nil => rfl
  | cons p m ih =>
    obtain ⟨k, d⟩ := p
    simp only [aget] at h
    unfold freeze
    rw [List.map_cons]
    by_cases hk : k = a
    · rw [if_pos hk] at h; cases h
    · rw [if_neg hk] at h
      have := ih h
      by_cases hs : k < MEM_STACK
      · simp only [if_pos hs, aget, if_neg hk]; exact this
      · simp only [if_neg hs, aget, if_neg hk]; exact this

theorem sorted_freeze {m : AMap Nat} (h : Sorted m) : Sorted (freeze m) := by
  unfold freeze
  refine List.pairwise_map.2 (h.imp fun {p q} hpq => ?_)
  have h1 : ∀ p : Nat × Cell, (if p.1 < MEM_STACK then (p.1, { p.2 with const := true, dirty := false }) else p).1 = p.1 := by
    intro p; split <;> rfl
  rw [h1, h1]; exact hpq

/-- The engine is ready to run the function at `a`, or the gas was not enough to get there. -/
theorem boot_ready (e : Env) {B : Binary} (hf : B.Fits) (limit a : Nat) {vs : List Val}
    (hvs : ∀ v ∈ vs, Scalar v) (hlen : vs.length < 2 ^ 20) :
    (∃ t, boot e [] B.consts (argOps vs) a (newEng B.code limit) = .throw t ∧ Exhausted t) ∨
    (∃ t, boot e [] B.consts (argOps vs) a (newEng B.code limit) = .ok () t ∧ At t a 0 [] ∧ Good B t ∧
      ∀ i v, vs[i]? = some v → Has t (MEM_STACK + 0 + 1 + i) v) := by
  have hms : MEM_STATIC = MEM_STACK + STACK_SIZE := rfl
  have hss : STACK_SIZE = 1024 * 2 ^ 20 := by decide
  have hme : MEM_STACK = MEM_EXTERN + MEM_EXTERN := by decide
  have hmep : 0 < MEM_EXTERN := by decide
  have hf0 : Fresh (newEng B.code limit) := ⟨fun a c h => (by cases h), List.Pairwise.nil⟩
  have hzi : ∀ (l : List Val) (n : Nat) (p : Val × Nat), p ∈ l.zipIdx n → n ≤ p.2 ∧ p.2 < n + l.length ∧ p.1 ∈ l := by
    intro l n p hp
    have := List.mem_zipIdx (x := p.1) (i := p.2) hp
    exact ⟨this.1, this.2.1, by rw [this.2.2]; exact List.getElem_mem _⟩
  -- constants
  obtain ⟨t1, e1, q1⟩ := assign_all e (B.consts.zipIdx 0) hf0 (fun p hp => by
      have := hzi _ _ _ hp
      have := hf.consts
      exact ⟨by omega, hf.scalar _ (hzi _ _ _ hp).2.2⟩)
    (fun p hp h => by cases h.1) (zipIdx_nodup _ _)
  have hload : loadConsts e B.consts (newEng B.code limit) = .ok () t1 := by
    have h1 : forM' B.consts.zipIdx (fun p => if p.2 < MEM_EXTERN then assign e p.2 p.1 else pure ()) =
        forM' B.consts.zipIdx (fun p => assign e p.2 p.1) := forM_congr _ (fun p hp => by
      have := hzi _ _ _ hp
      have := hf.consts
      rw [if_pos (by omega)])
    have h2 : ¬ B.consts.length ≥ MEM_EXTERN := Nat.not_le.2 hf.consts
    rw [loadConsts, h1, bind_def, e1]
    exact need_not h2 t1
  obtain ⟨ks, hks⟩ := initKeys_only t1
  have hinit : VM.init t1 = .ok () { t1 with keys := ks, haveInit := true } := by
    have h1 : t1.haveInit = false := q1.haveInit
    simp only [VM.init, bind_def, gets, id]
    rw [need_not (by rw [h1]; decide)]
    simp only [VM.modify, hks]
  -- arguments
  have hsplit : argOps vs = (vs.zipIdx (MEM_STACK + 1)).map (fun p => HostOp.assign p.2 p.1) := rfl
  have hf1 : Fresh { t1 with keys := ks, haveInit := true } := ⟨q1.fresh.plain, q1.fresh.sorted⟩
  obtain ⟨t2, e2, q2⟩ := assign_all e (vs.zipIdx (MEM_STACK + 1)) hf1 (fun p hp => by
      have := hzi _ _ _ hp; exact ⟨by omega, hvs _ this.2.2⟩)
    (fun p hp h => by have := hzi _ _ _ hp; have := h.2; omega) (zipIdx_nodup _ _)
  have hboot : ∀ r, (checkGas >>= fun _ => forM' (argOps vs) (hostOp e) >>= fun _ => begin a)
      { t1 with keys := ks, haveInit := true } = r →
      boot e [] B.consts (argOps vs) a (newEng B.code limit) = r := by
    intro r hr
    rw [boot, forM', bind_def]
    show (loadConsts e B.consts >>= fun _ => VM.init >>= fun _ => checkGas >>= fun _ =>
      forM' (argOps vs) (hostOp e) >>= fun _ => begin a) (newEng B.code limit) = r
    rw [bind_def, hload]
    dsimp only
    rw [bind_def, hinit]
    exact hr
  by_cases hg : t1.gas > t1.limit
  · refine .inl ⟨{ t1 with keys := ks, haveInit := true }, hboot _ ?_, .inl hg⟩
    rw [bind_def, checkGas, bind_def]
    simp only [gets, id]
    rw [need_nnot hg]
  · refine .inr ⟨{ t2 with mem := freeze t2.mem, frames := [{ ip := a, sp := 0 }] }, hboot _ ?_, ?_, ?_, ?_⟩
    · rw [bind_def, checkGas, bind_def]
      simp only [gets, id]
      rw [need_not hg]
      dsimp only
      rw [bind_def, hsplit, forM_host, e2]
      dsimp only
      have h1 : t2.haveInit = true := q2.haveInit
      have h2 : t2.frames = [] := by rw [q2.frames]; exact q1.frames
      simp only [begin, bind_def, gets, id]
      rw [need_pos h1]
      dsimp only
      rw [need_pos h2]
      rfl
    · exact ⟨rfl, Nat.zero_le _, by show (0 : Nat) < MAX_CALL_RECURSION; decide⟩
    · refine ⟨?_, ?_, ?_, sorted_freeze q2.fresh.sorted⟩
      · show t2.code = _
        rw [q2.code]; exact q1.code
      · intro i v hi
        have hm : (v, i) ∈ B.consts.zipIdx 0 := List.mem_zipIdx_iff_getElem?.2 hi
        have hlt := (hzi _ _ _ hm).2.1
        have hbc := hf.consts
        obtain ⟨c, c1, c2, c3⟩ := q1.has _ hm
        have h1 : aget t2.mem i = some c := by
          rw [q2.other i (fun p hp => by have := hzi _ _ _ hp; omega)]
          exact c1
        exact ⟨_, aget_freeze h1, by split <;> exact c2, by split <;> exact c3⟩
      · intro x c h1 h2 h3
        dsimp only at h3
        cases h4 : aget t2.mem x with
        | none => rw [aget_freeze_none h4] at h3; cases h3
        | some d =>
          rw [aget_freeze h4, if_neg (by omega)] at h3
          cases h3
          exact q2.fresh.plain x _ h4
    · intro i v hi
      have hm : (v, MEM_STACK + 1 + i) ∈ vs.zipIdx (MEM_STACK + 1) := List.mk_add_mem_zipIdx_iff_getElem?.2 hi
      obtain ⟨c, c1, c2, c3⟩ := q2.has _ hm
      refine ⟨c, ?_, c2, c3⟩
      show aget (freeze t2.mem) _ = _
      rw [Nat.add_zero, aget_freeze c1, if_neg (by show ¬ MEM_STACK + 1 + i < MEM_STACK; omega)]

end Verif.Comp
