import Verif.VM.PropsArith
/-
  What happens to memory cells marked constant.
-/
namespace Verif.VM
open Verif.Codec (Bytes)

section
variable {R : Eng → Eng → Prop} {α : Type}

instance presOk_forM [p : Pre R] (l : List α) {f : α → EM Unit} [hf : ∀ a, PresOk R (f a)] : PresOk R (forM' l f) := by
  induction l with
  | nil => exact presOk_of_pres (h := pres_pure ())
  | cons x l ih => exact presOk_bind (hm := hf x) (hf := fun _ => ih)

instance presOk_ite {c : Prop} [Decidable c] {m n : EM α} [hm : PresOk R m] [hn : PresOk R n] :
    PresOk R (if c then m else n) := by
  split
  · exact hm
  · exact hn

theorem presOk_mono {S : Eng → Eng → Prop} (h : ∀ {s t}, R s t → S s t) {m : EM α} (hm : PresOk R m) : PresOk S m :=
  ⟨fun k => h (hm.ok k)⟩

theorem presOk_modify {f : Eng → Eng} (h : ∀ s, R s (f s)) : PresOk R (modify f) := ⟨fun k => by cases k; exact h _⟩

end

/-! ### Locations -/

def look (s : Eng) : Loc → Option Cell
  | .mem a => aget s.mem a
  | .ent a k => aget s.ents (a, k)

def put (s : Eng) : Loc → Cell → Eng
  | .mem a, c => { s with mem := aset ltN s.mem a c }
  | .ent a k, c => { s with ents := aset ltP s.ents (a, k) c }

theorem getCell_ok {l : Loc} {s t : Eng} {c : Option Cell} (h : getCell l s = .ok c t) : look s l = c ∧ s = t := by
  cases l with
  | mem a => exact getMem_ok h
  | ent a k => exact getEnt_ok h

theorem setCell_ok {l : Loc} {c : Cell} {s t : Eng} {x : Unit} (h : setCell l c s = .ok x t) : put s l c = t := by
  cases l <;> (unfold setCell at h; exact modify_ok h)

theorem look_put (s : Eng) (l m : Loc) (c : Cell) : look (put s l c) m = if l = m then some c else look s m := by
  cases l with
  | mem a =>
    cases m with
    | mem b => simp only [look, put, aget_aset, Loc.mem.injEq]
    | ent b k => simp only [look, put, reduceCtorEq, if_false]
  | ent a j =>
    cases m with
    | mem b => simp only [look, put, reduceCtorEq, if_false]
    | ent b k => simp only [look, put, aget_aset, Loc.ent.injEq, Prod.mk.injEq]

/-! ### Clearing -/

/-- Cells stay, with the same flag CONST; constant ones keep their value. -/
def Held (s t : Eng) : Prop :=
  ∀ l c, look s l = some c → ∃ d, look t l = some d ∧ d.const = c.const ∧
    (c.const = true → d.val = c.val ∧ d.deleted = c.deleted)

instance heldPre : Pre Held where
  refl _ := fun _ c h => ⟨c, h, rfl, fun _ => ⟨rfl, rfl⟩⟩
  trans h k := by
    intro l c hc
    obtain ⟨d, h1, h2, h3⟩ := h l c hc
    obtain ⟨x, k1, k2, k3⟩ := k l d h1
    refine ⟨x, k1, k2.trans h2, fun hk => ?_⟩
    obtain ⟨a, b⟩ := h3 hk
    obtain ⟨a', b'⟩ := k3 (h2.trans hk)
    exact ⟨a'.trans a, b'.trans b⟩

theorem held_of {s t : Eng} (h1 : t.mem = s.mem) (h2 : t.ents = s.ents) : Held s t := by
  intro l c hc
  refine ⟨c, ?_, rfl, fun _ => ⟨rfl, rfl⟩⟩
  cases l with
  | mem a => show aget t.mem a = _; rw [h1]; exact hc
  | ent a k => show aget t.ents (a, k) = _; rw [h2]; exact hc

/-- Writing over a cell that is not constant, or with the same value. -/
theorem held_put {s : Eng} {l : Loc} {c d : Cell} (h : look s l = some c) (hc : d.const = c.const)
    (hv : c.const = true → d.val = c.val ∧ d.deleted = c.deleted) : Held s (put s l d) := by
  intro m x hx
  rw [look_put]
  by_cases hm : l = m
  · subst hm
    rw [h] at hx
    cases hx
    rw [if_pos rfl]
    exact ⟨d, rfl, hc, hv⟩
  · rw [if_neg hm]
    exact ⟨x, hx, rfl, fun _ => ⟨rfl, rfl⟩⟩

instance h_addGas (n : Nat) : PresOk Held (addGas n) := presOk_modify fun _ => held_of rfl rfl
instance h_checkGas : PresOk Held checkGas := ⟨fun h => by obtain ⟨rfl, _⟩ := checkGas_ok h; exact heldPre.refl _⟩
instance h_getCell (l : Loc) : PresOk Held (getCell l) := ⟨fun h => by obtain ⟨_, rfl⟩ := getCell_ok h; exact heldPre.refl _⟩
instance h_readHere (a : Nat) : PresOk Held (readHere a) := by
  unfold readHere; presok

theorem readHere_ok {a : Nat} {s t : Eng} {o : Option Cell} (h : readHere a s = .ok o t) :
    s = t ∧ ∀ c, o = some c → look s (.mem a) = some c ∧ c.deleted = false := by
  unfold readHere at h
  obtain ⟨x, u, h1, h2⟩ := bind_ok_iff.1 h
  obtain ⟨hx, rfl⟩ := getCell_ok h1
  cases x with
  | none => obtain ⟨rfl, rfl⟩ := pure_ok h2; exact ⟨rfl, fun c h => nomatch h⟩
  | some d =>
    obtain ⟨h3, rfl⟩ := pure_ok h2
    refine ⟨rfl, fun c hc => ?_⟩
    rw [hc] at h3
    obtain ⟨rfl, hd⟩ := unlessDeleted_some h3
    exact ⟨hx, hd⟩

instance h_addref (a : Nat) : PresOk Held (addref a) := by
  constructor
  intro s t x h
  unfold addref at h
  obtain ⟨o, u, h1, h2⟩ := bind_ok_iff.1 h
  obtain ⟨rfl, ho⟩ := readHere_ok h1
  cases o with
  | none => obtain ⟨_, rfl⟩ := pure_ok h2; exact heldPre.refl _
  | some c =>
    obtain ⟨hl, _⟩ := ho c rfl
    simp only at h2
    split at h2
    · obtain ⟨_, rfl⟩ := pure_ok h2; exact heldPre.refl _
    · rw [← setCell_ok h2]; exact held_put hl rfl (fun _ => ⟨rfl, rfl⟩)

theorem h_unrefWith {er : Loc → EM Unit} (her : ∀ l, PresOk Held (er l)) (a : Nat) : PresOk Held (unrefWith er a) := by
  constructor
  intro s t x h
  unfold unrefWith at h
  obtain ⟨o, u, h1, h2⟩ := bind_ok_iff.1 h
  obtain ⟨rfl, ho⟩ := readHere_ok h1
  cases o with
  | none => obtain ⟨_, rfl⟩ := pure_ok h2; exact heldPre.refl _
  | some c =>
    obtain ⟨hl, _⟩ := ho c rfl
    simp only at h2
    split at h2
    · obtain ⟨_, rfl⟩ := pure_ok h2; exact heldPre.refl _
    · obtain ⟨_, u, h3, h4⟩ := bind_ok_iff.1 h2
      obtain ⟨_, rfl⟩ := need_ok h3
      obtain ⟨_, u, h5, h6⟩ := bind_ok_iff.1 h4
      have h7 : Held s u := by
        rw [← setCell_ok h5]; exact held_put hl rfl (fun _ => ⟨rfl, rfl⟩)
      refine heldPre.trans h7 ?_
      split at h6
      · exact (her _).ok h6
      · obtain ⟨_, rfl⟩ := pure_ok h6; exact heldPre.refl _

theorem h_clearWith {er : Loc → EM Unit} (her : ∀ l, PresOk Held (er l)) (c : Cell) : PresOk Held (clearWith er c) := by
  have i1 : ∀ a, PresOk Held (unrefWith er a) := h_unrefWith her
  have i2 : ∀ a, PresOk Held (eraseEntriesWith er a) := by
    intro a; unfold eraseEntriesWith; presok
  unfold clearWith; presok

theorem h_eraseCell (d : Nat) : ∀ l, PresOk Held (eraseCell d l) := by
  induction d with
  | zero =>
    intro l
    unfold eraseCell
    presok
  | succ d ih =>
    intro l
    constructor
    intro s t x h
    unfold eraseCell at h
    obtain ⟨o, u, h1, h2⟩ := bind_ok_iff.1 h
    obtain ⟨ho, rfl⟩ := getCell_ok h1
    cases o with
    | none => obtain ⟨_, rfl⟩ := pure_ok h2; exact heldPre.refl _
    | some c =>
      obtain ⟨_, u, h3, h4⟩ := bind_ok_iff.1 h2
      obtain ⟨hc, rfl⟩ := need_ok h3
      simp only at h4
      split at h4
      · obtain ⟨_, rfl⟩ := pure_ok h4; exact heldPre.refl _
      · obtain ⟨_, u, h5, h6⟩ := bind_ok_iff.1 h4
        obtain ⟨_, rfl⟩ := need_ok h5
        obtain ⟨_, u1, h7, h8⟩ := bind_ok_iff.1 h6
        obtain ⟨_, u2, h9, h10⟩ := bind_ok_iff.1 h8
        obtain ⟨_, u3, h11, h12⟩ := bind_ok_iff.1 h10
        obtain ⟨o', u, h13, h14⟩ := bind_ok_iff.1 h12
        obtain ⟨ho', rfl⟩ := getCell_ok h13
        have k : Held s u3 := heldPre.trans ((h_addGas _).ok h7) (heldPre.trans (h_checkGas.ok h9) ((h_clearWith ih c).ok h11))
        obtain ⟨d', hd1, hd2, _⟩ := k l c ho
        rw [ho'] at hd1
        subst hd1
        have hn : d'.const = false := by rw [hd2]; simpa using hc
        refine heldPre.trans k ?_
        rw [← setCell_ok h14]
        refine held_put ho' ?_ (fun hx => by rw [hn] at hx; cases hx)
        unfold tombstone
        split
        · rfl
        · rw [hn]

instance h_eraseLoc (l : Loc) : PresOk Held (eraseLoc l) := h_eraseCell _ l
instance h_unref (a : Nat) : PresOk Held (unref a) := h_unrefWith (fun _ => inferInstance) a
instance h_clear (c : Cell) : PresOk Held (clear c) := h_clearWith (fun _ => inferInstance) c

/-! ### Everything else -/

/-- Addresses outside the stack, where memory lives as long as the engine, other than the heap
    pointer. -/
def guarded (a : Nat) : Prop := a < MEM_STACK ∨ (MEM_STATIC ≤ a ∧ a ≠ NEXT_ALLOC)

/-- Constant cells outside the stack stay, constant, with a value in `V`. -/
def Kept (V : Val → Val → Prop) (s t : Eng) : Prop :=
  ∀ a c, guarded a → aget s.mem a = some c → c.const = true →
    ∃ d, aget t.mem a = some d ∧ d.const = true ∧ V c.val d.val ∧ d.deleted = c.deleted

/-- A preorder on values. -/
class PreV (V : Val → Val → Prop) : Prop where
  refl : ∀ v, V v v
  trans : ∀ {u v w}, V u v → V v w → V u w

variable {V : Val → Val → Prop} [pv : PreV V]

instance keptPre : Pre (Kept V) where
  refl _ := fun _ c _ h k => ⟨c, h, k, pv.refl _, rfl⟩
  trans h k := by
    intro a c g hc hk
    obtain ⟨d, h1, h2, h3, h4⟩ := h a c g hc hk
    obtain ⟨x, k1, k2, k3, k4⟩ := k a d g h1 h2
    exact ⟨x, k1, k2, pv.trans h3 k3, k4.trans h4⟩

theorem kept_of_held {s t : Eng} (h : Held s t) : Kept V s t := by
  intro a c _ hc hk
  obtain ⟨d, h1, h2, h3⟩ := h (.mem a) c hc
  exact ⟨d, h1, h2.trans hk, by rw [(h3 hk).1]; exact pv.refl _, (h3 hk).2⟩

theorem kept_of {s t : Eng} (h : t.mem = s.mem) : Kept V s t := by
  intro a c _ hc hk
  exact ⟨c, by rw [h]; exact hc, hk, pv.refl _, rfl⟩

instance (priority := low) kept_presOk {α : Type} {m : EM α} [h : PresOk Held m] : PresOk (Kept V) m :=
  presOk_mono kept_of_held h

/-- Writing where there is no constant. -/
theorem kept_put {s : Eng} {l : Loc} {d : Cell}
    (h : ∀ c, look s l = some c → c.const = true → d.const = true ∧ V c.val d.val ∧ d.deleted = c.deleted) :
    Kept V s (put s l d) := by
  intro a c g hc hk
  have := look_put s l (.mem a) d
  by_cases hl : l = .mem a
  · subst hl
    rw [if_pos rfl] at this
    obtain ⟨h1, h2, h3⟩ := h c hc hk
    exact ⟨d, this, h1, h2, h3⟩
  · rw [if_neg hl] at this
    exact ⟨c, this.trans hc, hk, pv.refl _, rfl⟩

theorem kept_put_none {s : Eng} {l : Loc} {d : Cell} (h : look s l = none) : Kept V s (put s l d) :=
  kept_put fun c hc => by rw [h] at hc; cases hc

theorem kept_put_var {s : Eng} {l : Loc} {c d : Cell} (h : look s l = some c) (hc : c.const = false) :
    Kept V s (put s l d) :=
  kept_put fun x hx hk => by rw [h] at hx; cases hx; rw [hc] at hk; cases hk

theorem kept_put_ent {s : Eng} {a k : Nat} {d : Cell} : Kept V s (put s (.ent a k) d) := by
  intro b c g hc hk
  exact ⟨c, hc, hk, pv.refl _, rfl⟩

theorem kept_put_alloc {s : Eng} {d : Cell} : Kept V s (put s (.mem NEXT_ALLOC) d) := by
  intro b c g hc hk
  have := look_put s (.mem NEXT_ALLOC) (.mem b) d
  have hn : NEXT_ALLOC ≠ b := by
    rintro rfl
    rcases g with g | ⟨_, g⟩
    · exact absurd g (by decide)
    · exact g rfl
  rw [if_neg (by intro h; injection h; contradiction)] at this
  exact ⟨c, this.trans hc, hk, pv.refl _, rfl⟩

instance k_setEnt (a k : Nat) (c : Cell) : PresOk (Kept V) (setCell (.ent a k) c) :=
  ⟨fun h => by rw [← setCell_ok h]; exact kept_put_ent⟩
instance k_setAlloc (c : Cell) : PresOk (Kept V) (setCell (.mem NEXT_ALLOC) c) :=
  ⟨fun h => by rw [← setCell_ok h]; exact kept_put_alloc⟩
instance k_chargeRead (n : Nat) : PresOk Held (chargeRead n) := by unfold chargeRead; presok
instance k_storRead (e : Env) (a : Nat) : PresOk Held (storRead e a) := by unfold storRead; presok
instance k_storReadEnt (e : Env) (a k : Nat) : PresOk Held (storReadEnt e a k) := by unfold storReadEnt; presok
instance k_storLookup (e : Env) (v : Val) : PresOk Held (storLookup e v) := by unfold storLookup; presok

theorem storRead_mem {e : Env} {a : Nat} {s t : Eng} {o : Option Cell} (h : storRead e a s = .ok o t) :
    t.mem = s.mem ∧ t.ents = s.ents ∧ t.heapBase = s.heapBase ∧ t.haveInit = s.haveInit := by
  unfold storRead at h
  obtain ⟨x, u, h1, h2⟩ := bind_ok_iff.1 h
  obtain ⟨rfl, rfl⟩ := getsId_ok h1
  obtain ⟨_, v, h3, h4⟩ := bind_ok_iff.1 h2
  obtain ⟨_, rfl⟩ := pure_ok h4
  unfold chargeRead at h3
  obtain ⟨_, w, h5, h6⟩ := bind_ok_iff.1 h3
  obtain ⟨rfl, _⟩ := checkGas_ok h6
  rw [← modify_ok h5]
  exact ⟨rfl, rfl, rfl, rfl⟩

instance k_read (e : Env) (a : Nat) : PresOk (Kept V) (read e a) := by
  constructor
  intro s t o h
  unfold read at h
  obtain ⟨x, u, h1, h2⟩ := bind_ok_iff.1 h
  obtain ⟨hx, rfl⟩ := getMem_ok h1
  cases x with
  | some d => obtain ⟨_, rfl⟩ := pure_ok h2; exact keptPre.refl _
  | none =>
    simp only at h2
    split at h2
    · obtain ⟨o2, v, h3, h4⟩ := bind_ok_iff.1 h2
      obtain ⟨hm, _⟩ := storRead_mem h3
      refine keptPre.trans (kept_of hm) ?_
      cases o2 with
      | none => obtain ⟨_, rfl⟩ := pure_ok h4; exact keptPre.refl _
      | some d =>
        obtain ⟨_, w, h5, h6⟩ := bind_ok_iff.1 h4
        obtain ⟨_, rfl⟩ := pure_ok h6
        rw [← setCell_ok h5]
        exact kept_put_none (by show aget v.mem a = none; rw [hm]; exact hx)
    · obtain ⟨_, rfl⟩ := pure_ok h2; exact keptPre.refl _

instance k_readFail (e : Env) (a : Nat) : PresOk (Kept V) (readFail e a) := by unfold readFail; presok
instance k_readEntry (e : Env) (a k : Nat) : PresOk (Kept V) (readEntry e a k) := by unfold readEntry; presok
instance k_readEntryFail (e : Env) (a k : Nat) : PresOk (Kept V) (readEntryFail e a k) := by unfold readEntryFail; presok
instance k_readUint (e : Env) (a : Nat) : PresOk (Kept V) (readUint e a) := by unfold readUint; presok
instance k_readBin (e : Env) (a : Nat) : PresOk (Kept V) (readBin e a) := by unfold readBin; presok
instance k_readStr (e : Env) (a : Nat) : PresOk (Kept V) (readStr e a) := by unfold readStr; presok
instance k_toAddr (b : Bytes) : PresOk (Kept V) (toAddr b) := by unfold toAddr; presok

theorem fetch_ok {e : Env} {a : Nat} {s t : Eng} (h : fetch e a s = .ok () t) :
    Kept V s t ∧ ¬ (s.haveInit ∧ a < MEM_EXTERN) := by
  unfold fetch at h
  obtain ⟨x, u, h1, h2⟩ := bind_ok_iff.1 h
  obtain ⟨rfl, rfl⟩ := getsId_ok h1
  obtain ⟨_, u, h3, h4⟩ := bind_ok_iff.1 h2
  obtain ⟨hn, rfl⟩ := need_ok h3
  refine ⟨?_, hn⟩
  cases hc : aget s.mem a with
  | some c => rw [hc] at h4; obtain ⟨_, rfl⟩ := pure_ok h4; exact keptPre.refl _
  | none =>
    rw [hc] at h4
    simp only at h4
    split at h4
    · obtain ⟨o2, v, h5, h6⟩ := bind_ok_iff.1 h4
      obtain ⟨hm, _⟩ := storRead_mem h5
      refine keptPre.trans (kept_of hm) ?_
      cases o2 with
      | none => obtain ⟨_, rfl⟩ := pure_ok h6; exact keptPre.refl _
      | some d =>
        rw [← setCell_ok h6]
        exact kept_put_none (by show aget v.mem a = none; rw [hm]; exact hc)
    · obtain ⟨_, rfl⟩ := pure_ok h4; exact keptPre.refl _

instance k_fetch (e : Env) (a : Nat) : PresOk (Kept V) (fetch e a) := ⟨fun h => (fetch_ok h).1⟩

instance h_replaceCell (l : Loc) (v : Val) : PresOk Held (replaceCell l v) := by unfold replaceCell; presok

/-- Before and after `replaceCell` the place is empty or not constant. -/
theorem replaceCell_var {l : Loc} {v : Val} {s t : Eng} {c : Cell} (h : replaceCell l v s = .ok c t) :
    (∀ x, look s l = some x → x.const = false) ∧ (∀ x, look t l = some x → x.const = false) ∧ c.const = false := by
  unfold replaceCell at h
  obtain ⟨o, u, h1, h2⟩ := bind_ok_iff.1 h
  obtain ⟨ho, rfl⟩ := getCell_ok h1
  cases o with
  | none =>
    obtain ⟨rfl, rfl⟩ := pure_ok h2
    exact ⟨fun x hx => (by rw [ho] at hx; cases hx), fun x hx => (by rw [ho] at hx; cases hx), rfl⟩
  | some d =>
    obtain ⟨_, u, h3, h4⟩ := bind_ok_iff.1 h2
    obtain ⟨hc, rfl⟩ := need_ok h3
    obtain ⟨_, u, h5, h6⟩ := bind_ok_iff.1 h4
    obtain ⟨rfl, rfl⟩ := pure_ok h6
    have hd : d.const = false := by simpa using hc
    refine ⟨fun x hx => by rw [ho] at hx; cases hx; exact hd, fun x hx => ?_, hd⟩
    obtain ⟨y, hy, hyc, _⟩ := (h_clear d).ok h5 l d ho
    rw [hx] at hy
    cases hy
    rw [hyc]; exact hd

instance h_addrefVal (v : Val) : PresOk Held (addrefVal v) := by
  cases v <;> unfold addrefVal <;> exact inferInstance

theorem assignCell_ok {l : Loc} {v : Val} {s t : Eng} (h : assignCell l v s = .ok () t) :
    Kept V s t ∧ (∀ x, look s l = some x → x.const = false) ∧ (∀ x, look t l = some x → x.const = false) := by
  unfold assignCell at h
  obtain ⟨c, u, h1, h2⟩ := bind_ok_iff.1 h
  obtain ⟨hs, ht, hcc⟩ := replaceCell_var h1
  obtain ⟨_, u', h3, h4⟩ := bind_ok_iff.1 h2
  obtain ⟨_, rfl⟩ := need_ok h3
  obtain ⟨_, u2, h5, h6⟩ := bind_ok_iff.1 h4
  obtain ⟨_, u3, h7, h8⟩ := bind_ok_iff.1 h6
  have e2 := modify_ok h5
  have e3 := setCell_ok h7
  have hl : ∀ x, look u2 l = some x → x.const = false := by
    intro x hx
    refine ht x ?_
    rw [← hx, ← e2]
    cases l <;> rfl
  have hk : Kept V u2 u3 := by
    rw [← e3]
    exact kept_put fun x hx hk => by rw [hl x hx] at hk; cases hk
  refine ⟨keptPre.trans (kept_of_held ((h_replaceCell l v).ok h1)) (keptPre.trans (kept_of (by rw [← e2])) (keptPre.trans hk
    (kept_of_held ((h_addrefVal v).ok h8)))), hs, ?_⟩
  intro x hx
  have h3 : look u3 l = some { c with dirty := true, deleted := false } := by
    rw [← e3, look_put, if_pos rfl]
  obtain ⟨y, hy, hyc, _⟩ := (h_addrefVal v).ok h8 l _ h3
  rw [hx] at hy
  cases hy
  rw [hyc]; exact hcc

instance k_assignCell (l : Loc) (v : Val) : PresOk (Kept V) (assignCell l v) := ⟨fun h => (assignCell_ok h).1⟩
instance k_assign (e : Env) (a : Nat) (v : Val) : PresOk (Kept V) (assign e a v) := by unfold assign; presok
instance k_srcCell (src : Src) : PresOk (Kept V) (srcCell src) := by
  cases src <;> unfold srcCell <;> presok

theorem writeRef_ok {l : Loc} {c : Cell} {o n : Nat} {s t : Eng} (hc : look s l = some c) (hk : c.const = false)
    (h : writeRef l c o n s = .ok () t) : Kept V s t := by
  unfold writeRef at h
  split at h
  · obtain ⟨_, rfl⟩ := pure_ok h; exact keptPre.refl _
  · obtain ⟨_, u, h1, h2⟩ := bind_ok_iff.1 h
    have h3 := (h_unref o).ok h1
    obtain ⟨x, u', h4, h5⟩ := bind_ok_iff.1 h2
    obtain ⟨hx, rfl⟩ := getCell_ok h4
    obtain ⟨d, hd, hdc, _⟩ := h3 l c hc
    rw [hd] at hx
    subst hx
    obtain ⟨_, u', h6, h7⟩ := bind_ok_iff.1 h5
    have : u = u' := by
      unfold safe at h6
      split at h6
      · exact (pure_ok h6).2
      · cases h6
    subst this
    obtain ⟨_, w, h8, h9⟩ := bind_ok_iff.1 h7
    refine keptPre.trans (kept_of_held h3) (keptPre.trans ?_ (kept_of_held ((h_addref n).ok h9)))
    rw [← setCell_ok h8]
    exact kept_put_var hd (hdc.trans hk)

theorem writeInPlace_ok {l : Loc} {c : Cell} {v : Val} {s t : Eng} {b : Bool} (hc : look s l = some c) (hk : c.const = false)
    (h : writeInPlace l c v s = .ok b t) : Kept V s t := by
  have key : ∀ (p : Prop) [Decidable p] (d : Cell) (x : Bool) (u : Eng),
      (do (if p then (pure () : EM Unit) else setCell l d); pure true : EM Bool) s = .ok x u → Kept V s u := by
    intro p _ d x u hu
    obtain ⟨_, w, h1, h2⟩ := bind_ok_iff.1 hu
    obtain ⟨_, rfl⟩ := pure_ok h2
    split at h1
    · obtain ⟨_, rfl⟩ := pure_ok h1; exact keptPre.refl _
    · rw [← setCell_ok h1]; exact kept_put_var hc hk
  have rest : (if simple v ∧ simple c.val then do
      (if v = c.val then pure () else setCell l { c with dirty := true, val := v })
      pure true
    else pure false : EM Bool) s = .ok b t → Kept V s t := by
    intro h
    split at h
    · exact key _ _ _ _ h
    · obtain ⟨_, rfl⟩ := pure_ok h; exact keptPre.refl _
  unfold writeInPlace at h
  cases v with
  | ref n =>
    cases hw : c.val with
    | ref o =>
      rw [hw] at h
      obtain ⟨_, w, h1, h2⟩ := bind_ok_iff.1 h
      obtain ⟨_, rfl⟩ := pure_ok h2
      exact writeRef_ok hc hk h1
    | _ => rw [hw] at h rest; exact rest h
  | uint n =>
    cases hw : c.val with
    | uint o =>
      rw [hw] at h
      exact key _ _ _ _ h
    | _ => rw [hw] at h rest; exact rest h
  | _ => exact rest h

instance k_writePre (l : Loc) (src : Src) : PresOk (Kept V) (writePre l src) := by
  constructor
  intro s t b h
  unfold writePre at h
  obtain ⟨sc, u, h1, h2⟩ := bind_ok_iff.1 h
  refine keptPre.trans ((k_srcCell src).ok h1) ?_
  split at h2
  · obtain ⟨_, rfl⟩ := pure_ok h2; exact keptPre.refl _
  · obtain ⟨_, u', h3, h4⟩ := bind_ok_iff.1 h2
    obtain ⟨_, rfl⟩ := need_ok h3
    obtain ⟨o, u', h5, h6⟩ := bind_ok_iff.1 h4
    obtain ⟨ho, rfl⟩ := getCell_ok h5
    cases o with
    | none => obtain ⟨_, rfl⟩ := pure_ok h6; exact keptPre.refl _
    | some c =>
      obtain ⟨_, u', h7, h8⟩ := bind_ok_iff.1 h6
      obtain ⟨hc, rfl⟩ := need_ok h7
      have hc' : c.const = false := by simpa using hc
      obtain ⟨_, w, h9, h10⟩ := bind_ok_iff.1 h8
      have e1 := setCell_ok h9
      have k1 : Kept V u w := by rw [← e1]; exact kept_put_var ho hc'
      have hr : (revive c).const = false := by unfold revive; split <;> exact hc'
      refine keptPre.trans k1 (writeInPlace_ok (c := revive c) ?_ hr h10)
      rw [← e1, look_put, if_pos rfl]

instance k_writeEntCell (l : Loc) (src : Src) : PresOk (Kept V) (writeEntCell l src) := by unfold writeEntCell; presok
instance k_writeEntry (e : Env) (a k : Nat) (src : Src) : PresOk (Kept V) (writeEntry e a k src) := by
  unfold writeEntry; presok
instance k_copyArray (e : Env) (a x n : Nat) (src : Src) : PresOk (Kept V) (copyArray e a x n src) := by
  unfold copyArray; presok
instance k_copyEntry (e : Env) (a x k : Nat) : PresOk (Kept V) (copyEntry e a x k) := by unfold copyEntry; presok
instance k_copyMap (e : Env) (a x : Nat) (src : Src) : PresOk (Kept V) (copyMap e a x src) := by unfold copyMap; presok
instance k_writeMemCell (e : Env) (a : Nat) (src : Src) : PresOk (Kept V) (writeMemCell e a src) := by
  unfold writeMemCell; presok
instance k_write (e : Env) (a : Nat) (src : Src) : PresOk (Kept V) (write e a src) := by unfold write; presok
instance k_writeVal (e : Env) (a : Nat) (v : Val) : PresOk (Kept V) (writeVal e a v) := by unfold writeVal; presok
instance k_writeFrom (e : Env) (a b : Nat) : PresOk (Kept V) (writeFrom e a b) := by unfold writeFrom; presok

instance k_heapBase (n : Nat) : PresOk (Kept V) (modify fun s => { s with heapBase := n }) :=
  presOk_modify fun _ => kept_of rfl
instance k_allocInit (e : Env) : PresOk (Kept V) (allocInit e) := by unfold allocInit; presok
instance k_alloc (e : Env) : PresOk (Kept V) (alloc e) := by
  have : ∀ n, PresOk (Kept V) (modify fun s => if s.firstAlloc then { s with firstAlloc := false, heapBase := n } else s) := by
    intro n
    refine presOk_modify fun s => ?_
    split
    · exact kept_of rfl
    · exact keptPre.refl _
  unfold alloc; presok

theorem keySet_mem (cell ver : Nat) (v : Val) (addr : Nat) (s : Eng) : (keySet cell ver v addr s).mem = s.mem := by
  unfold keySet; split <;> rfl

instance k_keySet (cell ver : Nat) (v : Val) (addr : Nat) : PresOk (Kept V) (modify (keySet cell ver v addr)) :=
  presOk_modify fun s => kept_of (keySet_mem _ _ _ _ s)

instance k_newKey (e : Env) (src : Src) : PresOk (Kept V) (newKey e src) := by
  constructor
  intro s t k h
  unfold newKey at h
  obtain ⟨k, u, h1, h2⟩ := bind_ok_iff.1 h
  obtain ⟨_, v, h3, h4⟩ := bind_ok_iff.1 h2
  refine keptPre.trans ((k_alloc e).ok h1) (keptPre.trans ((k_write e k src).ok h3) ?_)
  obtain ⟨o, w, h5, h6⟩ := bind_ok_iff.1 h4
  obtain ⟨ho, rfl⟩ := getCell_ok h5
  cases o with
  | none => cases h6
  | some c =>
    obtain ⟨_, w, h7, h8⟩ := bind_ok_iff.1 h6
    obtain ⟨_, x, h9, h10⟩ := bind_ok_iff.1 h8
    obtain ⟨_, rfl⟩ := pure_ok h10
    refine keptPre.trans ?_ ((k_keySet _ _ _ _).ok h9)
    rw [← setCell_ok h7]
    refine kept_put fun d hd _ => ?_
    rw [ho] at hd
    cases hd
    unfold asKey
    split <;> exact ⟨rfl, pv.refl _, rfl⟩

instance k_safe (c : Prop) [Decidable c] : PresOk (Kept V) (safe c) := inferInstance
instance k_lookup (e : Env) (src : Src) (ro : Bool) : PresOk (Kept V) (lookup e src ro) := by unfold lookup; presok
instance k_lookupAt (e : Env) (a : Nat) (ro : Bool) : PresOk (Kept V) (lookupAt e a ro) := by unfold lookupAt; presok

instance k_eraseAddr (e : Env) (a : Nat) : PresOk (Kept V) (eraseAddr e a) := by
  constructor
  intro s t x h
  unfold eraseAddr at h
  obtain ⟨o, u, h1, h2⟩ := bind_ok_iff.1 h
  obtain ⟨ho, rfl⟩ := getMem_ok h1
  cases o with
  | some c => exact kept_of_held ((h_eraseLoc _).ok h2)
  | none =>
    simp only at h2
    split at h2
    · obtain ⟨o2, v, h3, h4⟩ := bind_ok_iff.1 h2
      obtain ⟨hm, _⟩ := storRead_mem h3
      refine keptPre.trans (kept_of hm) ?_
      cases o2 with
      | none => obtain ⟨_, rfl⟩ := pure_ok h4; exact keptPre.refl _
      | some d =>
        obtain ⟨_, w, h5, h6⟩ := bind_ok_iff.1 h4
        refine keptPre.trans ?_ (kept_of_held ((h_eraseLoc _).ok h6))
        rw [← setCell_ok h5]
        exact kept_put_none (by show aget v.mem a = none; rw [hm]; exact ho)
    · obtain ⟨_, rfl⟩ := pure_ok h2; exact keptPre.refl _

instance k_eraseEntry (e : Env) (a k : Nat) : PresOk (Kept V) (eraseEntry e a k) := by unfold eraseEntry; presok
instance k_eraseKey (e : Env) (a k : Nat) : PresOk (Kept V) (eraseKey e a k) := by unfold eraseKey; presok

/-- Nothing is written into a constant container. -/
theorem writeEntry_var {e : Env} {a k : Nat} {src : Src} {s t : Eng} {c : Cell} (hc : aget s.mem a = some c)
    (hd : c.deleted = false) (h : writeEntry e a k src s = .ok () t) : c.const = false := by
  unfold writeEntry at h
  obtain ⟨x, u, h1, h2⟩ := bind_ok_iff.1 h
  obtain ⟨rfl, rfl⟩ := getsId_ok h1
  obtain ⟨_, u, h3, h4⟩ := bind_ok_iff.1 h2
  obtain ⟨_, rfl⟩ := need_ok h3
  rw [bind_def, readFail_mem hc hd] at h4
  simp only at h4
  obtain ⟨_, u, h5, _⟩ := bind_ok_iff.1 h4
  obtain ⟨h6, _⟩ := need_ok h5
  simpa using h6

theorem pushBack_ok {e : Env} {a : Nat} {src : Src} {s t : Eng} (h : pushBack e a src s = .ok () t) :
    Kept V s t := by
  unfold pushBack at h
  obtain ⟨c, u, h1, h2⟩ := bind_ok_iff.1 h
  refine keptPre.trans ((k_readFail e a).ok h1) ?_
  obtain ⟨hc, hd⟩ := readFail_ok h1
  cases hv : c.val with
  | arr x n =>
    rw [hv] at h2
    simp only at h2
    obtain ⟨_, u', h3, h4⟩ := bind_ok_iff.1 h2
    obtain ⟨_, rfl⟩ := need_ok h3
    obtain ⟨_, v, h5, h6⟩ := bind_ok_iff.1 h4
    obtain ⟨_, w, h7, h8⟩ := bind_ok_iff.1 h6
    have e1 := setCell_ok h5
    have hcv : aget v.mem a = some { c with val := .arr x (n + 1) } := by
      rw [← e1]; exact aget_aset_self _ _ _ _
    have hn : c.const = false := writeEntry_var (c := { c with val := .arr x (n + 1) }) hcv hd h7
    have k1 : Kept V u v := by rw [← e1]; exact kept_put_var (l := .mem a) hc hn
    refine keptPre.trans k1 (keptPre.trans ((k_writeEntry e a n src).ok h7) ?_)
    obtain ⟨o, w', h9, h10⟩ := bind_ok_iff.1 h8
    obtain ⟨ho, rfl⟩ := getCell_ok h9
    cases o with
    | none => cases h10
    | some d =>
      obtain ⟨_, w', h11, h12⟩ := bind_ok_iff.1 h10
      have : w = w' := by
        unfold safe at h11
        split at h11
        · exact (pure_ok h11).2
        · cases h11
      subst this
      rw [← setCell_ok h12]
      exact kept_put fun y hy hk => by rw [ho] at hy; cases hy; exact ⟨hk, pv.refl _, rfl⟩
  | _ => rw [hv] at h2; cases h2

instance k_pushBack (e : Env) (a : Nat) (src : Src) : PresOk (Kept V) (pushBack e a src) := ⟨pushBack_ok⟩
instance k_pushBackFrom (e : Env) (a b : Nat) : PresOk (Kept V) (pushBackFrom e a b) := by unfold pushBackFrom; presok

theorem dropCell_kept {a : Nat} (ha : ¬ guarded a) (s : Eng) : Kept V s (dropCell a s) := by
  intro b c g hc hk
  refine ⟨c, ?_, hk, pv.refl _, rfl⟩
  show aget (adel s.mem a) b = _
  rw [aget_adel, if_neg (by rintro rfl; exact ha g)]
  exact hc

theorem clearCells_kept {ks : List Nat} (h : ∀ a ∈ ks, ¬ guarded a) : PresOk (Kept V) (clearCells ks) := by
  unfold clearCells
  induction ks with
  | nil => exact presOk_of_pres (h := pres_pure ())
  | cons a ks ih =>
    have i1 := ih fun b hb => h b (List.mem_cons_of_mem _ hb)
    have i2 : PresOk (Kept V) (modify (dropCell a)) := presOk_modify (dropCell_kept (h a (List.mem_cons_self ..)))
    refine presOk_bind (hm := ?_) (hf := fun _ => i1)
    presok

instance k_clearStack (off : Nat) : PresOk (Kept V) (clearStack off) := by
  constructor
  intro s t x h
  unfold clearStack at h
  obtain ⟨y, u, h1, h2⟩ := bind_ok_iff.1 h
  obtain ⟨rfl, rfl⟩ := getsId_ok h1
  split at h2
  · refine (clearCells_kept ?_).ok h2
    intro a ha g
    obtain ⟨p, hp, rfl⟩ := List.mem_map.1 ha
    have := (List.mem_filter.1 hp).2
    simp only [decide_eq_true_eq] at this
    rcases g with g | ⟨g, _⟩ <;> omega
  · split at h2
    · obtain ⟨_, _, _, h4⟩ := bind_ok_iff.1 h2
      cases h4
    · obtain ⟨_, rfl⟩ := pure_ok h2; exact keptPre.refl _

end Verif.VM
