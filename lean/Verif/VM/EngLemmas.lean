import Verif.VM.Exec
/-
  Reasoning about the machine monad: relations between the state before and after an operation.
-/
namespace Verif.VM
open Verif.Codec (Bytes)

/-- Whatever `m` does, short of undefined behaviour, is in `R`. -/
class Pres (R : Eng → Eng → Prop) {α : Type} (m : EM α) : Prop where
  ok : ∀ {s t : Eng} {a : α}, m s = .ok a t → R s t
  thrown : ∀ {s t : Eng}, m s = .throw t → R s t

/-- A reflexive and transitive relation. -/
class Pre (R : Eng → Eng → Prop) : Prop where
  refl : ∀ s, R s s
  trans : ∀ {s t u}, R s t → R t u → R s u

section
variable {R : Eng → Eng → Prop} {α β : Type}

theorem bind_def (m : EM α) (f : α → EM β) (s : Eng) :
    (m >>= f) s = match m s with
      | .ok a t => f a t
      | .throw t => .throw t
      | .ub => .ub := rfl

theorem pure_def (a : α) (s : Eng) : (pure a : EM α) s = .ok a s := rfl

instance pres_pure [p : Pre R] (a : α) : Pres R (pure a : EM α) :=
  ⟨fun h => by cases h; exact p.refl _, fun h => by cases h⟩
instance pres_raise [p : Pre R] : Pres R (raise : EM α) :=
  ⟨by intro s t a h; exact (nomatch h), by intro s t h; cases h; exact p.refl _⟩
instance pres_undef : Pres R (undef : EM α) := 
  ⟨by intro s t a h; exact (nomatch h), by intro s t h; exact nomatch h⟩
instance pres_gets [p : Pre R] (f : Eng → α) : Pres R (gets f) :=
  ⟨fun h => by cases h; exact p.refl _, fun h => by cases h⟩
instance pres_need [p : Pre R] (c : Prop) [Decidable c] : Pres R (need c) := by
  by_cases h : c
  · rw [need, if_pos h]; exact pres_pure ()
  · rw [need, if_neg h]; exact pres_raise
instance pres_safe [p : Pre R] (c : Prop) [Decidable c] : Pres R (safe c) := by
  by_cases h : c
  · rw [safe, if_pos h]; exact pres_pure ()
  · rw [safe, if_neg h]; exact pres_undef
theorem pres_modify {f : Eng → Eng} (h : ∀ s, R s (f s)) : Pres R (modify f) :=
  ⟨fun k => by cases k; exact h _, fun k => by cases k⟩

instance pres_bind [p : Pre R] {m : EM α} {f : α → EM β} [hm : Pres R m] [hf : ∀ a, Pres R (f a)] :
    Pres R (m >>= f) := by
  constructor
  · intro s u b h
    rw [bind_def] at h
    cases hs : m s with
    | ok a t => rw [hs] at h; exact p.trans (hm.ok hs) ((hf a).ok h)
    | throw t => rw [hs] at h; cases h
    | ub => rw [hs] at h; cases h
  · intro s u h
    rw [bind_def] at h
    cases hs : m s with
    | ok a t => rw [hs] at h; exact p.trans (hm.ok hs) ((hf a).thrown h)
    | throw t => rw [hs] at h; cases h; exact hm.thrown hs
    | ub => rw [hs] at h; cases h

instance pres_forM [p : Pre R] (l : List α) {f : α → EM Unit} [hf : ∀ a, Pres R (f a)] :
    Pres R (forM' l f) := by
  induction l with
  | nil => exact pres_pure ()
  | cons x l ih => exact pres_bind (hm := hf x) (hf := fun _ => ih)

instance pres_ite {c : Prop} [Decidable c] {m n : EM α} [hm : Pres R m] [hn : Pres R n] :
    Pres R (if c then m else n) := by
  split
  · exact hm
  · exact hn

theorem pres_mono {S : Eng → Eng → Prop} (h : ∀ {s t}, R s t → S s t) {m : EM α} (hm : Pres R m) :
    Pres S m := ⟨fun k => h (hm.ok k), fun k => h (hm.thrown k)⟩

end

/-- Split a successful sequence. -/
theorem bind_ok_iff {α β : Type} {m : EM α} {f : α → EM β} {s u : Eng} {b : β} :
    (m >>= f) s = .ok b u ↔ ∃ a t, m s = .ok a t ∧ f a t = .ok b u := by
  rw [bind_def]
  constructor
  · intro h
    cases hm : m s with
    | ok a t => rw [hm] at h; exact ⟨a, t, rfl, h⟩
    | throw t => rw [hm] at h; cases h
    | ub => rw [hm] at h; cases h
  · rintro ⟨a, t, h1, h2⟩
    rw [h1]; exact h2

theorem gets_ok {α : Type} {f : Eng → α} {s t : Eng} {a : α} (h : gets f s = .ok a t) : f s = a ∧ s = t := by
  unfold gets at h; injection h with h1 h2; exact ⟨h1, h2⟩

theorem getsId_ok {s t a : Eng} (h : gets id s = .ok a t) : s = a ∧ s = t := gets_ok h

theorem need_ok {c : Prop} [Decidable c] {s t : Eng} {a : Unit} (h : need c s = .ok a t) : c ∧ s = t := by
  unfold need at h
  split at h
  · next hc => rw [pure_def] at h; injection h with _ h2; exact ⟨hc, h2⟩
  · cases h

theorem modify_ok {f : Eng → Eng} {s t : Eng} {a : Unit} (h : modify f s = .ok a t) : f s = t := by
  unfold modify at h; injection h with _ h2

theorem pure_ok {α : Type} {a b : α} {s t : Eng} (h : (pure a : EM α) s = .ok b t) : a = b ∧ s = t := by
  rw [pure_def] at h; injection h with h1 h2; exact ⟨h1, h2⟩

theorem checkGas_ok {s t : Eng} {a : Unit} (h : checkGas s = .ok a t) : s = t ∧ s.gas ≤ s.limit := by
  unfold checkGas at h
  obtain ⟨x, u, h1, h2⟩ := bind_ok_iff.1 h
  obtain ⟨rfl, rfl⟩ := gets_ok h1
  obtain ⟨h3, rfl⟩ := need_ok h2
  exact ⟨rfl, Nat.le_of_not_lt h3⟩

/-! ### What memory operations leave alone -/

/-- Gas only goes up; limit, code, frames, outputs, mints, balances and the init flag stay. -/
structure Quiet (s t : Eng) : Prop where
  gas : s.gas ≤ t.gas
  limit : t.limit = s.limit
  code : t.code = s.code
  frames : t.frames = s.frames
  outputs : t.outputs = s.outputs
  mints : t.mints = s.mints
  bal : t.bal = s.bal
  haveInit : t.haveInit = s.haveInit

instance quietPre : Pre Quiet where
  refl _ := ⟨Nat.le_refl _, rfl, rfl, rfl, rfl, rfl, rfl, rfl⟩
  trans h k := ⟨Nat.le_trans h.gas k.gas, k.limit.trans h.limit, k.code.trans h.code, k.frames.trans h.frames,
    k.outputs.trans h.outputs, k.mints.trans h.mints, k.bal.trans h.bal, k.haveInit.trans h.haveInit⟩

/-- Syntax-directed proof of `Pres R m`: instances for the parts, case splits at each `match`. -/
macro "pres" : tactic => `(tactic| repeat first
  | exact inferInstance
  | (intro _)
  | (refine pres_bind (hm := ?_) (hf := ?_))
  | (refine pres_forM _ (hf := ?_))
  | split)

instance q_addGas (n : Nat) : Pres Quiet (addGas n) :=
  pres_modify fun _ => ⟨Nat.le_add_right _ _, rfl, rfl, rfl, rfl, rfl, rfl, rfl⟩
instance q_checkGas : Pres Quiet checkGas := by unfold checkGas; pres
instance q_getCell (l : Loc) : Pres Quiet (getCell l) := by
  cases l <;> exact pres_gets _
instance q_setCell (l : Loc) (c : Cell) : Pres Quiet (setCell l c) := by
  cases l <;> exact pres_modify fun _ => ⟨Nat.le_refl _, rfl, rfl, rfl, rfl, rfl, rfl, rfl⟩
instance q_chargeRead (n : Nat) : Pres Quiet (chargeRead n) := by unfold chargeRead; pres
instance q_storRead (e : Env) (a : Nat) : Pres Quiet (storRead e a) := by unfold storRead; pres
instance q_storReadEnt (e : Env) (a k : Nat) : Pres Quiet (storReadEnt e a k) := by unfold storReadEnt; pres
instance q_storLookup (e : Env) (v : Val) : Pres Quiet (storLookup e v) := by unfold storLookup; pres
instance q_storBalance (e : Env) (c : Bytes) : Pres Quiet (storBalance e c) := by unfold storBalance; pres
instance q_readHere (a : Nat) : Pres Quiet (readHere a) := by unfold readHere; pres
instance q_read (e : Env) (a : Nat) : Pres Quiet (read e a) := by unfold read; pres
instance q_readFail (e : Env) (a : Nat) : Pres Quiet (readFail e a) := by unfold readFail; pres
instance q_readEntry (e : Env) (a k : Nat) : Pres Quiet (readEntry e a k) := by unfold readEntry; pres
instance q_readEntryFail (e : Env) (a k : Nat) : Pres Quiet (readEntryFail e a k) := by unfold readEntryFail; pres
instance q_readUint (e : Env) (a : Nat) : Pres Quiet (readUint e a) := by unfold readUint; pres
instance q_readBin (e : Env) (a : Nat) : Pres Quiet (readBin e a) := by unfold readBin; pres
instance q_readStr (e : Env) (a : Nat) : Pres Quiet (readStr e a) := by unfold readStr; pres
instance q_toAddr (b : Bytes) : Pres Quiet (toAddr b) := by unfold toAddr; pres
instance q_addref (a : Nat) : Pres Quiet (addref a) := by unfold addref; pres

instance q_unrefWith {er : Loc → EM Unit} [∀ l, Pres Quiet (er l)] (a : Nat) : Pres Quiet (unrefWith er a) := by
  unfold unrefWith; pres
instance q_eraseEntriesWith {er : Loc → EM Unit} [∀ l, Pres Quiet (er l)] (a : Nat) :
    Pres Quiet (eraseEntriesWith er a) := by unfold eraseEntriesWith; pres
instance q_clearWith {er : Loc → EM Unit} [∀ l, Pres Quiet (er l)] (c : Cell) : Pres Quiet (clearWith er c) := by
  unfold clearWith; pres
instance q_eraseCell (d : Nat) : ∀ l, Pres Quiet (eraseCell d l) := by
  induction d with
  | zero => intro l; unfold eraseCell; pres
  | succ d ih => intro l; unfold eraseCell; pres
instance q_eraseLoc (l : Loc) : Pres Quiet (eraseLoc l) := q_eraseCell _ l
instance q_unref (a : Nat) : Pres Quiet (unref a) := q_unrefWith a
instance q_clear (c : Cell) : Pres Quiet (clear c) := q_clearWith c
instance q_heapBase (n : Nat) : Pres Quiet (modify fun s => { s with heapBase := n }) :=
  pres_modify fun _ => ⟨Nat.le_refl _, rfl, rfl, rfl, rfl, rfl, rfl, rfl⟩
instance q_firstAlloc (n : Nat) :
    Pres Quiet (modify fun s => if s.firstAlloc then { s with firstAlloc := false, heapBase := n } else s) := by
  refine pres_modify fun s => ?_
  split
  · exact ⟨Nat.le_refl _, rfl, rfl, rfl, rfl, rfl, rfl, rfl⟩
  · exact Pre.refl s
instance q_keySet (a n : Nat) (v : Val) (x : Nat) : Pres Quiet (modify (keySet a n v x)) := by
  refine pres_modify fun s => ?_
  unfold keySet
  split <;> exact ⟨Nat.le_refl _, rfl, rfl, rfl, rfl, rfl, rfl, rfl⟩
instance q_dropCell (a : Nat) : Pres Quiet (modify (dropCell a)) :=
  pres_modify fun _ => ⟨Nat.le_refl _, rfl, rfl, rfl, rfl, rfl, rfl, rfl⟩

instance q_eraseAddr (e : Env) (a : Nat) : Pres Quiet (eraseAddr e a) := by unfold eraseAddr; pres
instance q_replaceCell (l : Loc) (v : Val) : Pres Quiet (replaceCell l v) := by unfold replaceCell; pres
instance q_addrefVal (v : Val) : Pres Quiet (addrefVal v) := by unfold addrefVal; pres
instance q_assignCell (l : Loc) (v : Val) : Pres Quiet (assignCell l v) := by unfold assignCell; pres
instance q_fetch (e : Env) (a : Nat) : Pres Quiet (fetch e a) := by unfold fetch; pres
instance q_assign (e : Env) (a : Nat) (v : Val) : Pres Quiet (assign e a v) := by unfold assign; pres
instance q_srcCell (x : Src) : Pres Quiet (srcCell x) := by unfold srcCell; pres
instance q_writeRef (l : Loc) (c : Cell) (o n : Nat) : Pres Quiet (writeRef l c o n) := by unfold writeRef; pres
instance q_writeInPlace (l : Loc) (c : Cell) (v : Val) : Pres Quiet (writeInPlace l c v) := by unfold writeInPlace; pres
instance q_writePre (l : Loc) (x : Src) : Pres Quiet (writePre l x) := by unfold writePre; pres
instance q_writeEntCell (l : Loc) (x : Src) : Pres Quiet (writeEntCell l x) := by unfold writeEntCell; pres
instance q_writeEntry (e : Env) (a k : Nat) (x : Src) : Pres Quiet (writeEntry e a k x) := by unfold writeEntry; pres
instance q_copyArray (e : Env) (a x n : Nat) (r : Src) : Pres Quiet (copyArray e a x n r) := by unfold copyArray; pres
instance q_copyEntry (e : Env) (a x k : Nat) : Pres Quiet (copyEntry e a x k) := by unfold copyEntry; pres
instance q_copyMap (e : Env) (a x : Nat) (r : Src) : Pres Quiet (copyMap e a x r) := by unfold copyMap; pres
instance q_writeMemCell (e : Env) (a : Nat) (r : Src) : Pres Quiet (writeMemCell e a r) := by unfold writeMemCell; pres
instance q_write (e : Env) (a : Nat) (r : Src) : Pres Quiet (write e a r) := by unfold write; pres
instance q_writeVal (e : Env) (a : Nat) (v : Val) : Pres Quiet (writeVal e a v) := by unfold writeVal; pres
instance q_writeFrom (e : Env) (a b : Nat) : Pres Quiet (writeFrom e a b) := by unfold writeFrom; pres
instance q_allocInit (e : Env) : Pres Quiet (allocInit e) := by unfold allocInit; pres
instance q_alloc (e : Env) : Pres Quiet (alloc e) := by unfold alloc; pres
instance q_newKey (e : Env) (r : Src) : Pres Quiet (newKey e r) := by unfold newKey; pres
instance q_lookup (e : Env) (r : Src) (ro : Bool) : Pres Quiet (lookup e r ro) := by unfold lookup; pres
instance q_lookupAt (e : Env) (a : Nat) (ro : Bool) : Pres Quiet (lookupAt e a ro) := by unfold lookupAt; pres
instance q_eraseEntry (e : Env) (a k : Nat) : Pres Quiet (eraseEntry e a k) := by unfold eraseEntry; pres
instance q_eraseKey (e : Env) (a k : Nat) : Pres Quiet (eraseKey e a k) := by unfold eraseKey; pres
instance q_pushBack (e : Env) (a : Nat) (r : Src) : Pres Quiet (pushBack e a r) := by unfold pushBack; pres
instance q_pushBackFrom (e : Env) (a b : Nat) : Pres Quiet (pushBackFrom e a b) := by unfold pushBackFrom; pres
instance q_shrink (c d : Cell) : Pres Quiet (shrink c d) := by unfold shrink; pres
instance q_popBack (e : Env) (a b : Nat) : Pres Quiet (popBack e a b) := by unfold popBack; pres
instance q_clearCells (l : List Nat) : Pres Quiet (clearCells l) := by unfold clearCells; pres
instance q_clearStack (n : Nat) : Pres Quiet (clearStack n) := by unfold clearStack; pres

/-! ### Instructions -/

instance pres_args2 {R : Eng → Eng → Prop} [Pre R] {α : Type} (e : Env) {x y : EM α} [Pres R x] [Pres R y] :
    Pres R (args2 e x y) := by unfold args2; pres
instance pres_args3 {R : Eng → Eng → Prop} [Pre R] {α : Type} (e : Env) {x y z : EM α} [Pres R x] [Pres R y]
    [Pres R z] : Pres R (args3 e x y z) := by unfold args3; pres
instance pres_args4 {R : Eng → Eng → Prop} [Pre R] {α : Type} (e : Env) {x y z w : EM α} [Pres R x] [Pres R y]
    [Pres R z] [Pres R w] : Pres R (args4 e x y z w) := by unfold args4; pres

instance q_getFrame : Pres Quiet (getFrame) := by unfold getFrame; pres
instance q_deref (e : Env) (a : Nat) : Pres Quiet (deref e a) := by unfold deref; pres
instance q_stackAddr (a : Nat) : Pres Quiet (stackAddr a) := by unfold stackAddr; pres
instance q_derefAddr (e : Env) (a : Nat) (b : Bool) : Pres Quiet (derefAddr e a b) := by unfold derefAddr; pres
instance q_derefValue (e : Env) (a : Nat) (b : Bool) : Pres Quiet (derefValue e a b) := by unfold derefValue; pres
instance q_addrA (e : Env) (i : Instr) : Pres Quiet (addrA e i) := by unfold addrA; pres
instance q_addrB (e : Env) (i : Instr) : Pres Quiet (addrB e i) := by unfold addrB; pres
instance q_addrC (e : Env) (i : Instr) : Pres Quiet (addrC e i) := by unfold addrC; pres
instance q_addrD (e : Env) (i : Instr) : Pres Quiet (addrD e i) := by unfold addrD; pres
instance q_valA (e : Env) (i : Instr) : Pres Quiet (valA e i) := by unfold valA; pres
instance q_valB (e : Env) (i : Instr) : Pres Quiet (valB e i) := by unfold valB; pres
instance q_valC (e : Env) (i : Instr) : Pres Quiet (valC e i) := by unfold valC; pres
instance q_valD (e : Env) (i : Instr) : Pres Quiet (valD e i) := by unfold valD; pres
instance q_opCopy (e : Env) (a b : Nat) : Pres Quiet (opCopy e a b) := by unfold opCopy; pres
instance q_opClone (e : Env) (a b : Nat) : Pres Quiet (opClone e a b) := by unfold opClone; pres
instance q_getKey (e : Env) (a b c : Nat) : Pres Quiet (getKey e a b c) := by unfold getKey; pres
instance q_opGet (e : Env) (a b c : Nat) (h : Bool) : Pres Quiet (opGet e a b c h) := by unfold opGet; pres
instance q_opSet (e : Env) (a b c : Nat) : Pres Quiet (opSet e a b c) := by unfold opSet; pres
instance q_opErase (e : Env) (a b : Nat) : Pres Quiet (opErase e a b) := by unfold opErase; pres
instance q_concatLoop (e : Env) (a x n : Nat) (r : Src) : Pres Quiet (concatLoop e a x n r) := by unfold concatLoop; pres
instance q_needSize (n : Nat) : Pres Quiet (needSize n) := by unfold needSize; pres
instance q_opConcat (e : Env) (a b c : Nat) : Pres Quiet (opConcat e a b c) := by unfold opConcat; pres
instance q_opMemcpy (e : Env) (a b c d : Nat) : Pres Quiet (opMemcpy e a b c d) := by unfold opMemcpy; pres
instance q_opSha256 (e : Env) (a b : Nat) : Pres Quiet (opSha256 e a b) := by unfold opSha256; pres
instance q_opVerify (e : Env) (a b c d : Nat) : Pres Quiet (opVerify e a b c d) := by unfold opVerify; pres
instance q_convUintStr (e : Env) (a n k : Nat) : Pres Quiet (convUintStr e a n k) := by unfold convUintStr; pres
instance q_convUint (e : Env) (a b v n x y : Nat) : Pres Quiet (convUint e a b v n x y) := by unfold convUint; pres
instance q_convStrUint (e : Env) (a : Nat) (b : Bytes) (k : Nat) : Pres Quiet (convStrUint e a b k) := by unfold convStrUint; pres
instance q_convStrBin (e : Env) (a : Nat) (b : Bytes) (k : Nat) : Pres Quiet (convStrBin e a b k) := by unfold convStrBin; pres
instance q_convStr (e : Env) (a b v : Nat) (x : Bytes) (n m : Nat) : Pres Quiet (convStr e a b v x n m) := by unfold convStr; pres
instance q_convBin (e : Env) (a b v : Nat) (x : Bytes) (n m k : Nat) : Pres Quiet (convBin e a b v x n m k) := by unfold convBin; pres
instance q_opConv (e : Env) (a b c d : Nat) : Pres Quiet (opConv e a b c d) := by unfold opConv; pres
instance q_parseMemo (e : Env) (a : Nat) : Pres Quiet (parseMemo e a) := by unfold parseMemo; pres
instance q_readAddr (e : Env) (a : Nat) : Pres Quiet (readAddr e a) := by unfold readAddr; pres
instance q_hostOp (e : Env) (h : HostOp) : Pres Quiet (hostOp e h) := by unfold hostOp; pres
instance q_opCread (e : Env) (a b c : Nat) : Pres Quiet (opCread e a b c) := by unfold opCread; pres
instance q_opUints (e : Env) (i : Instr) : Pres Quiet (opUints e i) := by unfold opUints; pres
instance q_opAdd (e : Env) (i : Instr) : Pres Quiet (opAdd e i) := by unfold opAdd; pres
instance q_opSub (e : Env) (i : Instr) : Pres Quiet (opSub e i) := by unfold opSub; pres
instance q_opMul (e : Env) (i : Instr) : Pres Quiet (opMul e i) := by unfold opMul; pres
instance q_opNot (e : Env) (i : Instr) : Pres Quiet (opNot e i) := by unfold opNot; pres
instance q_opCmp (e : Env) (i : Instr) : Pres Quiet (opCmp e i) := by unfold opCmp; pres
instance q_opType (e : Env) (i : Instr) : Pres Quiet (opType e i) := by unfold opType; pres
instance q_opSize (e : Env) (i : Instr) : Pres Quiet (opSize e i) := by unfold opSize; pres
instance q_opFail (e : Env) (i : Instr) : Pres Quiet (opFail e i) := by unfold opFail; pres
instance q_opDiv (e : Env) (i : Instr) (b : Bool) : Pres Quiet (opDiv e i b) := by unfold opDiv; pres
instance q_opMinMax (e : Env) (i : Instr) (b : Bool) : Pres Quiet (opMinMax e i b) := by unfold opMinMax; pres
instance q_opShift (e : Env) (i : Instr) (b : Bool) : Pres Quiet (opShift e i b) := by unfold opShift; pres
instance q_opLogic (e : Env) (i : Instr) (f : Nat → Nat → Nat) (g : Bool → Bool → Bool) : Pres Quiet (opLogic e i f g) := by unfold opLogic; pres
instance q_storWrite (e : Env) (a : Nat) (c : Cell) : Pres Quiet (storWrite e a c) := by unfold storWrite; pres
instance q_storWriteEnt (e : Env) (a k : Nat) (c : Cell) : Pres Quiet (storWriteEnt e a k c) := by unfold storWriteEnt; pres
instance q_commitMem (e : Env) (l : AMap Nat) : Pres Quiet (commitMem e l) := by
  induction l with
  | nil => exact pres_pure _
  | cons x l ih => obtain ⟨a, c⟩ := x; unfold commitMem; pres
instance q_commitEnts (e : Env) (l : AMap (Nat × Nat)) : Pres Quiet (commitEnts e l) := by
  induction l with
  | nil => exact pres_pure _
  | cons x l ih => obtain ⟨a, c⟩ := x; unfold commitEnts; pres
instance q_commit (e : Env) : Pres Quiet (commit e) := by unfold commit; pres

end Verif.VM
