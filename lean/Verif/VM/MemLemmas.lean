import Verif.VM.EngSteps
/-
  What reads return and what writes leave in memory.
-/
namespace Verif.VM
open Verif.Codec (Bytes)

/-! ### Association lists -/

section
variable {κ : Type} [DecidableEq κ]

theorem aget_aset (lt : κ → κ → Bool) (m : AMap κ) (x y : κ) (v : Cell) :
    aget (aset lt m x v) y = if x = y then some v else aget m y := by
  induction m with
  | nil => simp only [aset, aget]
  | cons p m ih =>
    obtain ⟨k, w⟩ := p
    unfold aset
    by_cases h : k = x
    · subst h
      rw [if_pos rfl]
      simp only [aget]
      by_cases hk : k = y
      · rw [if_pos hk, if_pos hk]
      · rw [if_neg hk, if_neg hk, if_neg hk]
    · rw [if_neg h]
      by_cases hl : lt x k
      · rw [if_pos hl]
        simp only [aget]
      · rw [if_neg hl]
        simp only [aget]
        rw [ih]
        by_cases hk : k = y
        · subst hk
          rw [if_pos rfl, if_neg (fun e => h e.symm), if_pos rfl]
        · rw [if_neg hk, if_neg hk]

theorem aget_aset_self (lt : κ → κ → Bool) (m : AMap κ) (x : κ) (v : Cell) : aget (aset lt m x v) x = some v := by
  rw [aget_aset, if_pos rfl]

theorem aget_adel (m : AMap κ) (x y : κ) : aget (adel m x) y = if x = y then none else aget m y := by
  induction m with
  | nil => simp [adel, aget]
  | cons p m ih =>
    obtain ⟨k, w⟩ := p
    unfold adel at ih ⊢
    by_cases h : k = x
    · subst h
      rw [List.filter_cons_of_neg (by simp), ih]
      by_cases hk : k = y
      · rw [if_pos hk, if_pos hk]
      · rw [if_neg hk, if_neg hk]; simp only [aget]; rw [if_neg hk]
    · rw [List.filter_cons_of_pos (by simpa using h)]
      simp only [aget]
      rw [ih]
      by_cases hk : k = y
      · subst hk
        rw [if_pos rfl, if_neg (fun e => h e.symm), if_pos rfl]
      · rw [if_neg hk, if_neg hk]

end

/-! ### Reading -/

/-- The value at a memory address, if there is one: what a program can see there. -/
def peek (s : Eng) (a : Nat) : Option Val :=
  match aget s.mem a with
  | some c => if c.deleted then none else some c.val
  | none => none

theorem getMem_ok {a : Nat} {s t : Eng} {c : Option Cell} (h : getCell (.mem a) s = .ok c t) :
    aget s.mem a = c ∧ s = t := by
  unfold getCell at h; exact gets_ok h

theorem getEnt_ok {a k : Nat} {s t : Eng} {c : Option Cell} (h : getCell (.ent a k) s = .ok c t) :
    aget s.ents (a, k) = c ∧ s = t := by
  unfold getCell at h; exact gets_ok h

theorem setMem_ok {a : Nat} {s t : Eng} {c : Cell} {x : Unit} (h : setCell (.mem a) c s = .ok x t) :
    { s with mem := aset ltN s.mem a c } = t := by
  unfold setCell at h; exact modify_ok h

theorem unlessDeleted_some {c d : Cell} (h : unlessDeleted c = some d) : d = c ∧ c.deleted = false := by
  unfold unlessDeleted at h
  split at h
  · cases h
  · next hd => cases h; exact ⟨rfl, by simpa using hd⟩

theorem readEx_some {e : Env} {o : Option Cell} {d : Cell} (h : readEx e o = some d) : d.deleted = false := by
  unfold readEx at h
  split at h
  · cases h
  · next c =>
    split at h
    · cases h
    · next hd => cases h; simpa using hd

/-- What was read is in memory afterwards. -/
theorem read_some {e : Env} {a : Nat} {s t : Eng} {c : Cell} (h : read e a s = .ok (some c) t) :
    aget t.mem a = some c ∧ c.deleted = false := by
  unfold read at h
  obtain ⟨o, u, h1, h2⟩ := bind_ok_iff.1 h
  obtain ⟨ho, rfl⟩ := getMem_ok h1
  cases o with
  | some d =>
    obtain ⟨h3, rfl⟩ := pure_ok h2
    obtain ⟨rfl, hd⟩ := unlessDeleted_some h3
    exact ⟨ho, hd⟩
  | none =>
    simp only at h2
    split at h2
    · obtain ⟨o2, u, h3, h4⟩ := bind_ok_iff.1 h2
      cases o2 with
      | none => obtain ⟨h5, _⟩ := pure_ok h4; cases h5
      | some d =>
        obtain ⟨_, v, h5, h6⟩ := bind_ok_iff.1 h4
        obtain ⟨h7, rfl⟩ := pure_ok h6
        cases h7
        cases setMem_ok h5
        refine ⟨aget_aset_self _ _ _ _, ?_⟩
        unfold storRead at h3
        obtain ⟨x, w, h8, h9⟩ := bind_ok_iff.1 h3
        obtain ⟨_, w', _, h10⟩ := bind_ok_iff.1 h9
        obtain ⟨h11, _⟩ := pure_ok h10
        exact readEx_some h11
    · obtain ⟨h5, _⟩ := pure_ok h2; cases h5

theorem readFail_ok {e : Env} {a : Nat} {s t : Eng} {c : Cell} (h : readFail e a s = .ok c t) :
    aget t.mem a = some c ∧ c.deleted = false := by
  unfold readFail at h
  obtain ⟨o, u, h1, h2⟩ := bind_ok_iff.1 h
  cases o with
  | none => cases h2
  | some d => obtain ⟨rfl, rfl⟩ := pure_ok h2; exact read_some h1

/-- Reading what is in memory changes nothing. -/
theorem readFail_mem {e : Env} {a : Nat} {s : Eng} {c : Cell} (h : aget s.mem a = some c) (hd : c.deleted = false) :
    readFail e a s = .ok c s := by
  simp only [readFail, read, getCell, bind_def, gets, h, unlessDeleted, hd, pure_def]
  rfl

theorem peek_some {s : Eng} {a : Nat} {v : Val} (h : peek s a = some v) :
    ∃ c, aget s.mem a = some c ∧ c.deleted = false ∧ c.val = v := by
  unfold peek at h
  split at h
  · next c hc =>
    split at h
    · cases h
    · next hd => cases h; exact ⟨c, hc, by simpa using hd, rfl⟩
  · cases h

theorem peek_of {s : Eng} {a : Nat} {c : Cell} (h : aget s.mem a = some c) (hd : c.deleted = false) :
    peek s a = some c.val := by
  unfold peek; rw [h]; simp [hd]

theorem readFail_peek {e : Env} {a : Nat} {s : Eng} {v : Val} (h : peek s a = some v) :
    ∃ c, readFail e a s = .ok c s ∧ c.val = v := by
  obtain ⟨c, h1, h2, h3⟩ := peek_some h
  exact ⟨c, readFail_mem h1 h2, h3⟩

theorem readUint_ok {e : Env} {a n : Nat} {s t : Eng} (h : readUint e a s = .ok n t) : peek t a = some (.uint n) := by
  unfold readUint at h
  obtain ⟨c, u, h1, h2⟩ := bind_ok_iff.1 h
  obtain ⟨h3, h4⟩ := readFail_ok h1
  have h5 := peek_of h3 h4
  cases hv : c.val <;> rw [hv] at h2 h5 <;> first | (obtain ⟨rfl, rfl⟩ := pure_ok h2; exact h5) | cases h2

theorem readBin_ok {e : Env} {a : Nat} {b : Bytes} {s t : Eng} (h : readBin e a s = .ok b t) :
    peek t a = some (.bin b) := by
  unfold readBin at h
  obtain ⟨c, u, h1, h2⟩ := bind_ok_iff.1 h
  obtain ⟨h3, h4⟩ := readFail_ok h1
  have h5 := peek_of h3 h4
  cases hv : c.val <;> rw [hv] at h2 h5 <;> first | (obtain ⟨rfl, rfl⟩ := pure_ok h2; exact h5) | cases h2

theorem readUint_peek {e : Env} {a n : Nat} {s : Eng} (h : peek s a = some (.uint n)) : readUint e a s = .ok n s := by
  obtain ⟨c, h1, h2⟩ := readFail_peek (e := e) h
  unfold readUint
  rw [bind_def, h1]
  simp only [h2]
  rfl

theorem readBin_peek {e : Env} {a : Nat} {b : Bytes} {s : Eng} (h : peek s a = some (.bin b)) :
    readBin e a s = .ok b s := by
  obtain ⟨c, h1, h2⟩ := readFail_peek (e := e) h
  unfold readBin
  rw [bind_def, h1]
  simp only [h2]
  rfl

theorem toAddr_ok {b c : Bytes} {s t : Eng} (h : toAddr b s = .ok c t) : b.length = 32 ∧ b = c ∧ s = t := by
  unfold toAddr at h
  obtain ⟨_, u, h1, h2⟩ := bind_ok_iff.1 h
  obtain ⟨h3, rfl⟩ := need_ok h1
  obtain ⟨rfl, rfl⟩ := pure_ok h2
  exact ⟨h3, rfl, rfl⟩

/-! ### Writing -/

/-- Values without references to other memory. -/
def plain : Val → Bool
  | .ref _ | .arr _ _ | .map _ => false
  | _ => true

theorem addrefVal_plain {v : Val} (h : plain v) : addrefVal v = pure () := by
  cases v <;> first | rfl | cases h

theorem replaceCell_ok {l : Loc} {v : Val} {s t : Eng} {c : Cell} (h : replaceCell l v s = .ok c t) : c.val = v := by
  unfold replaceCell at h
  obtain ⟨o, u, _, h2⟩ := bind_ok_iff.1 h
  cases o with
  | none => obtain ⟨rfl, _⟩ := pure_ok h2; rfl
  | some d =>
    obtain ⟨_, _, _, h3⟩ := bind_ok_iff.1 h2
    obtain ⟨_, _, _, h4⟩ := bind_ok_iff.1 h3
    obtain ⟨rfl, _⟩ := pure_ok h4; rfl

theorem assignCell_peek {a : Nat} {v : Val} {s t : Eng} (hv : plain v) (h : assignCell (.mem a) v s = .ok () t) :
    peek t a = some v := by
  unfold assignCell at h
  obtain ⟨c, u, h1, h2⟩ := bind_ok_iff.1 h
  obtain ⟨_, u, _, h3⟩ := bind_ok_iff.1 h2
  obtain ⟨_, u, _, h4⟩ := bind_ok_iff.1 h3
  obtain ⟨_, w, h5, h6⟩ := bind_ok_iff.1 h4
  rw [addrefVal_plain hv] at h6
  obtain ⟨_, rfl⟩ := pure_ok h6
  cases setMem_ok h5
  have := replaceCell_ok h1
  subst this
  exact peek_of (c := { c with dirty := true, deleted := false }) (aget_aset_self _ _ _ _) rfl

theorem writeInPlace_peek {a : Nat} {c : Cell} {v : Val} {s t : Eng} {b : Bool} (hv : plain v)
    (hc : aget s.mem a = some c) (hd : c.deleted = false) (h : writeInPlace (.mem a) c v s = .ok b t) (hb : b = true) :
    peek t a = some v := by
  have key : ∀ (p : Prop) [Decidable p] (w : Val) (x : Unit) (u : Eng), (p → w = c.val) →
      (if p then (pure () : EM Unit) else setCell (.mem a) { c with dirty := true, val := w }) s = .ok x u →
      peek u a = some w := by
    intro p _ w x u hp hu
    split at hu
    · next h' =>
      obtain ⟨_, rfl⟩ := pure_ok hu
      rw [hp h']; exact peek_of hc hd
    · cases setMem_ok hu
      exact peek_of (c := { c with dirty := true, val := w }) (aget_aset_self _ _ _ _) hd
  unfold writeInPlace at h
  subst hb
  cases v with
  | uint n =>
    cases hw : c.val with
    | uint o =>
      rw [hw] at h
      simp only at h
      obtain ⟨x, u, h1, h2⟩ := bind_ok_iff.1 h
      obtain ⟨_, rfl⟩ := pure_ok h2
      exact key (n = o) (.uint n) x u (fun e => by rw [hw, e]) h1
    | _ =>
      rw [hw] at h
      simp only [simple] at h
      first
        | (obtain ⟨h2, _⟩ := pure_ok h; cases h2)
        | (split at h
           · next hs => exact absurd hs.1 (by decide)
           · obtain ⟨h2, _⟩ := pure_ok h; cases h2)
  | ref n => cases hv
  | arr n m => cases hv
  | map n => cases hv
  | _ =>
    simp only at h
    split at h
    · obtain ⟨x, u, h1, h2⟩ := bind_ok_iff.1 h
      obtain ⟨_, rfl⟩ := pure_ok h2
      exact key _ _ x u id h1
    · obtain ⟨h2, _⟩ := pure_ok h; cases h2

theorem writePre_tmp_peek {a : Nat} {v : Val} {s t : Eng} (hv : plain v)
    (h : writePre (.mem a) (.tmp v) s = .ok true t) : peek t a = some v := by
  unfold writePre at h
  obtain ⟨c, u, h1, h2⟩ := bind_ok_iff.1 h
  obtain ⟨rfl, rfl⟩ := pure_ok h1
  rw [if_neg (fun h => nomatch h : ¬ (Src.tmp v).isAt (.mem a) = true)] at h2
  obtain ⟨_, u, h3, h4⟩ := bind_ok_iff.1 h2
  obtain ⟨_, rfl⟩ := need_ok h3
  obtain ⟨o, u, h5, h6⟩ := bind_ok_iff.1 h4
  obtain ⟨ho, rfl⟩ := getMem_ok h5
  cases o with
  | none => obtain ⟨h7, _⟩ := pure_ok h6; cases h7
  | some d =>
    obtain ⟨_, u, h7, h8⟩ := bind_ok_iff.1 h6
    obtain ⟨_, rfl⟩ := need_ok h7
    obtain ⟨_, u, h9, h10⟩ := bind_ok_iff.1 h8
    cases setMem_ok h9
    refine writeInPlace_peek hv (aget_aset_self _ _ _ _) ?_ h10 rfl
    unfold revive
    split
    · rfl
    · next hd => simpa using hd

/-- After writing a plain value to an address, that value is there. -/
theorem writeVal_peek {e : Env} {a : Nat} {v : Val} {s t : Eng} (hv : plain v) (h : writeVal e a v s = .ok () t) :
    peek t a = some v := by
  unfold writeVal write at h
  obtain ⟨_, u, _, h2⟩ := bind_ok_iff.1 h
  unfold writeMemCell at h2
  obtain ⟨b, w, h3, h4⟩ := bind_ok_iff.1 h2
  cases b with
  | true =>
    obtain ⟨_, rfl⟩ := pure_ok h4
    exact writePre_tmp_peek hv h3
  | false =>
    obtain ⟨c, w, h5, h6⟩ := bind_ok_iff.1 h4
    obtain ⟨rfl, rfl⟩ := pure_ok h5
    cases v with
    | ref n => cases hv
    | arr n m => cases hv
    | map n => cases hv
    | _ => exact assignCell_peek rfl h6

theorem assign_peek {e : Env} {a : Nat} {v : Val} {s t : Eng} (hv : plain v) (h : assign e a v s = .ok () t) :
    peek t a = some v := by
  unfold assign at h
  obtain ⟨_, u, _, h2⟩ := bind_ok_iff.1 h
  have : withAddr a v = v := by cases v <;> first | rfl | cases hv
  rw [this] at h2
  exact assignCell_peek hv h2

end Verif.VM
