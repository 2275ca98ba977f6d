import Verif.VM.PropsConst
/-
  C52: memory safety of the contract machine. C53: independence of the order in which arguments are
  evaluated.
-/
namespace Verif.VM
open Verif.Codec (Bytes)

/-- Defined in every state. -/
class Defd {α : Type} (m : EM α) : Prop where
  out : ∀ s, m s ≠ .ub

section
variable {α β : Type}

instance defd_pure (a : α) : Defd (pure a : EM α) := ⟨fun _ h => nomatch h⟩
instance defd_raise : Defd (raise : EM α) := ⟨fun _ h => nomatch h⟩
instance defd_gets (f : Eng → α) : Defd (gets f) := ⟨fun _ h => nomatch h⟩
instance defd_modify (f : Eng → Eng) : Defd (modify f) := ⟨fun _ h => nomatch h⟩
instance defd_need (c : Prop) [Decidable c] : Defd (need c) := by
  constructor; intro s; unfold need; split <;> exact fun h => nomatch h
instance defd_bind {m : EM α} {f : α → EM β} [hm : Defd m] [hf : ∀ a, Defd (f a)] : Defd (m >>= f) := by
  constructor
  intro s h
  rw [bind_def] at h
  cases hs : m s with
  | ok a t => rw [hs] at h; exact (hf a).out t h
  | throw t => rw [hs] at h; cases h
  | ub => exact hm.out s hs
instance defd_forM (l : List α) {f : α → EM Unit} [hf : ∀ a, Defd (f a)] : Defd (forM' l f) := by
  induction l with
  | nil => exact defd_pure ()
  | cons x l ih => exact defd_bind (hm := hf x) (hf := fun _ => ih)
instance defd_ite {c : Prop} [Decidable c] {m n : EM α} [hm : Defd m] [hn : Defd n] : Defd (if c then m else n) := by
  split
  · exact hm
  · exact hn

/-- What follows is only reached with what came before. -/
theorem defd_bind_ok {m : EM α} {f : α → EM β} {s : Eng} (hm : Defd m) (hf : ∀ a t, m s = .ok a t → f a t ≠ .ub) :
    (m >>= f) s ≠ .ub := by
  intro h
  rw [bind_def] at h
  cases hs : m s with
  | ok a t => rw [hs] at h; exact hf a t hs h
  | throw t => rw [hs] at h; cases h
  | ub => exact hm.out s hs

end

macro "defd" : tactic => `(tactic| repeat first
  | exact inferInstance
  | (intro _)
  | (refine defd_bind (hm := ?_) (hf := ?_))
  | split)

instance d_addGas (n : Nat) : Defd (addGas n) := by unfold addGas; defd
instance d_checkGas : Defd checkGas := by unfold checkGas; defd
instance d_getCell (l : Loc) : Defd (getCell l) := by cases l <;> unfold getCell <;> defd
instance d_setCell (l : Loc) (c : Cell) : Defd (setCell l c) := by cases l <;> unfold setCell <;> defd
instance d_chargeRead (n : Nat) : Defd (chargeRead n) := by unfold chargeRead; defd
instance d_storRead (e : Env) (a : Nat) : Defd (storRead e a) := by unfold storRead; defd
instance d_storReadEnt (e : Env) (a k : Nat) : Defd (storReadEnt e a k) := by unfold storReadEnt; defd
instance d_storBalance (e : Env) (c : Bytes) : Defd (storBalance e c) := by unfold storBalance; defd
instance d_readHere (a : Nat) : Defd (readHere a) := by unfold readHere; defd
instance d_read (e : Env) (a : Nat) : Defd (read e a) := by unfold read; defd
instance d_readFail (e : Env) (a : Nat) : Defd (readFail e a) := by unfold readFail; defd
instance d_readUint (e : Env) (a : Nat) : Defd (readUint e a) := by unfold readUint; defd
instance d_readBin (e : Env) (a : Nat) : Defd (readBin e a) := by unfold readBin; defd
instance d_toAddr (b : Bytes) : Defd (toAddr b) := by unfold toAddr; defd
instance d_addref (a : Nat) : Defd (addref a) := by unfold addref; defd

theorem d_clearWith {er : Loc → EM Unit} (her : ∀ l, Defd (er l)) (c : Cell) : Defd (clearWith er c) := by
  have i1 : ∀ a, Defd (unrefWith er a) := by intro a; unfold unrefWith; defd
  have i2 : ∀ a, Defd (eraseEntriesWith er a) := by intro a; unfold eraseEntriesWith; defd
  unfold clearWith; defd

/-- Erasing is defined: whatever it visits on the way, the cell it started from is still there. -/
theorem d_eraseCell (d : Nat) : ∀ l, Defd (eraseCell d l) := by
  induction d with
  | zero => intro l; unfold eraseCell; defd
  | succ d ih =>
    intro l
    constructor
    intro s
    unfold eraseCell
    refine defd_bind_ok inferInstance fun o u h1 => ?_
    obtain ⟨ho, rfl⟩ := getCell_ok h1
    cases o with
    | none => exact fun h => nomatch h
    | some c =>
      refine defd_bind_ok inferInstance fun _ u h2 => ?_
      obtain ⟨_, rfl⟩ := need_ok h2
      split
      · exact fun h => nomatch h
      · refine defd_bind_ok inferInstance fun _ u h3 => ?_
        obtain ⟨_, rfl⟩ := need_ok h3
        refine defd_bind_ok inferInstance fun _ u1 h4 => ?_
        refine defd_bind_ok inferInstance fun _ u2 h5 => ?_
        refine defd_bind_ok (d_clearWith ih c) fun _ u3 h6 => ?_
        refine defd_bind_ok inferInstance fun o' u h7 => ?_
        obtain ⟨ho', rfl⟩ := getCell_ok h7
        have k : Held s u3 := heldPre.trans ((h_addGas _).ok h4) (heldPre.trans (h_checkGas.ok h5)
          ((h_clearWith (h_eraseCell d) c).ok h6))
        obtain ⟨d', hd, _⟩ := k l c ho
        rw [ho'] at hd
        subst hd
        exact (d_setCell l _).out _

instance d_eraseLoc (l : Loc) : Defd (eraseLoc l) := d_eraseCell _ l
instance d_clear (c : Cell) : Defd (clear c) := d_clearWith (fun _ => inferInstance) c
instance d_eraseAddr (e : Env) (a : Nat) : Defd (eraseAddr e a) := by unfold eraseAddr; defd
instance d_replaceCell (l : Loc) (v : Val) : Defd (replaceCell l v) := by unfold replaceCell; defd
instance d_addrefVal (v : Val) : Defd (addrefVal v) := by cases v <;> unfold addrefVal <;> defd
instance d_assignCell (l : Loc) (v : Val) : Defd (assignCell l v) := by unfold assignCell; defd
instance d_fetch (e : Env) (a : Nat) : Defd (fetch e a) := by unfold fetch; defd
instance d_assign (e : Env) (a : Nat) (v : Val) : Defd (assign e a v) := by unfold assign; defd

theorem d_writeInPlace (l : Loc) (c : Cell) (v : Val) (hv : plain v) : Defd (writeInPlace l c v) := by
  unfold writeInPlace
  cases v with
  | ref n => cases hv
  | _ => cases c.val <;> dsimp only <;> defd

/-- Writing a plain value that is not part of memory. -/
theorem d_writeVal (e : Env) (a : Nat) (v : Val) (hv : plain v) : Defd (writeVal e a v) := by
  have i1 : ∀ c, Defd (writeInPlace (.mem a) c v) := fun c => d_writeInPlace _ c v hv
  have i2 : Defd (writePre (.mem a) (.tmp v)) := by
    constructor
    intro s
    unfold writePre
    refine defd_bind_ok (by unfold srcCell; exact inferInstance) fun sc u h1 => ?_
    obtain ⟨rfl, rfl⟩ := pure_ok h1
    exact Defd.out (m := _) (self := by defd) _
  unfold writeVal write writeMemCell
  refine defd_bind (hm := inferInstance) (hf := fun _ => ?_)
  refine defd_bind (hm := i2) (hf := fun _ => ?_)
  have i3 : Defd (srcCell (.tmp v)) := by unfold srcCell; defd
  refine defd_ite (hm := inferInstance) (hn := ?_)
  constructor
  intro s
  refine defd_bind_ok i3 fun sc u h1 => ?_
  obtain ⟨rfl, rfl⟩ := pure_ok h1
  cases v with
  | ref n => cases hv
  | arr n m => cases hv
  | map n => cases hv
  | _ => exact (d_assignCell _ _).out _

instance d_uint (e : Env) (a n : Nat) : Defd (writeVal e a (.uint n)) := d_writeVal e a _ rfl
instance d_bin (e : Env) (a : Nat) (b : Bytes) : Defd (writeVal e a (.bin b)) := d_writeVal e a _ rfl
instance d_bool (e : Env) (a : Nat) (b : Bool) : Defd (writeVal e a (boolVal b)) :=
  d_writeVal e a _ (by cases b <;> rfl)

instance d_getFrame : Defd getFrame := by unfold getFrame; defd
instance d_jump (ip : Nat) : Defd (jump ip) := by unfold jump; defd
instance d_advance : Defd advance := by unfold advance; defd
instance d_deref (e : Env) (a : Nat) : Defd (deref e a) := by unfold deref; defd
instance d_stackAddr (x : Nat) : Defd (stackAddr x) := by unfold stackAddr; defd
instance d_derefAddr (e : Env) (x : Nat) (b : Bool) : Defd (derefAddr e x b) := by unfold derefAddr; defd
instance d_derefValue (e : Env) (x : Nat) (b : Bool) : Defd (derefValue e x b) := by unfold derefValue; defd
instance d_addrA (e : Env) (i : Instr) : Defd (addrA e i) := by unfold addrA; defd
instance d_addrB (e : Env) (i : Instr) : Defd (addrB e i) := by unfold addrB; defd
instance d_addrC (e : Env) (i : Instr) : Defd (addrC e i) := by unfold addrC; defd
instance d_addrD (e : Env) (i : Instr) : Defd (addrD e i) := by unfold addrD; defd
instance d_valA (e : Env) (i : Instr) : Defd (valA e i) := by unfold valA; defd
instance d_valB (e : Env) (i : Instr) : Defd (valB e i) := by unfold valB; defd
instance d_valC (e : Env) (i : Instr) : Defd (valC e i) := by unfold valC; defd
instance d_valD (e : Env) (i : Instr) : Defd (valD e i) := by unfold valD; defd
instance d_args2 {α : Type} (e : Env) (x y : EM α) [Defd x] [Defd y] : Defd (args2 e x y) := by unfold args2; defd
instance d_args3 {α : Type} (e : Env) (x y z : EM α) [Defd x] [Defd y] [Defd z] : Defd (args3 e x y z) := by
  unfold args3; defd
instance d_args4 {α : Type} (e : Env) (x y z w : EM α) [Defd x] [Defd y] [Defd z] [Defd w] : Defd (args4 e x y z w) := by
  unfold args4; defd
instance d_needSize (n : Nat) : Defd (needSize n) := by unfold needSize; defd
instance d_opMemcpy (e : Env) (a b c d : Nat) : Defd (opMemcpy e a b c d) := by unfold opMemcpy; defd
instance d_opSha256 (e : Env) (a b : Nat) : Defd (opSha256 e a b) := by unfold opSha256; defd
instance d_opVerify (e : Env) (a b c d : Nat) : Defd (opVerify e a b c d) := by unfold opVerify; defd
instance d_parseMemo (e : Env) (a : Nat) : Defd (parseMemo e a) := by unfold parseMemo; defd
instance d_getBalance (e : Env) (a : Nat) : Defd (getBalance e a) := by unfold getBalance; defd
instance d_opSend (e : Env) (a b c d : Nat) : Defd (opSend e a b c d) := by unfold opSend; defd
instance d_opMint (e : Env) (a b c : Nat) : Defd (opMint e a b c) := by unfold opMint; defd
instance d_opBalance (e : Env) (a b : Nat) : Defd (opBalance e a b) := by unfold opBalance; defd
instance d_opCall (a b : Nat) : Defd (opCall a b) := by unfold opCall; defd
instance d_opUints (e : Env) (i : Instr) : Defd (opUints e i) := by unfold opUints; defd
instance d_opAdd (e : Env) (i : Instr) : Defd (opAdd e i) := by unfold opAdd; defd
instance d_opSub (e : Env) (i : Instr) : Defd (opSub e i) := by unfold opSub; defd
instance d_opMul (e : Env) (i : Instr) : Defd (opMul e i) := by unfold opMul; defd
instance d_opDiv (e : Env) (i : Instr) (b : Bool) : Defd (opDiv e i b) := by unfold opDiv; defd
instance d_opNot (e : Env) (i : Instr) : Defd (opNot e i) := by unfold opNot; defd
instance d_opLogic (e : Env) (i : Instr) (f : Nat → Nat → Nat) (g : Bool → Bool → Bool) : Defd (opLogic e i f g) := by
  unfold opLogic; defd
instance d_opMinMax (e : Env) (i : Instr) (b : Bool) : Defd (opMinMax e i b) := by unfold opMinMax; defd
instance d_opShift (e : Env) (i : Instr) (b : Bool) : Defd (opShift e i b) := by unfold opShift; defd
instance d_opCmp (e : Env) (i : Instr) : Defd (opCmp e i) := by unfold opCmp; defd
instance d_opType (e : Env) (i : Instr) : Defd (opType e i) := by unfold opType; defd
instance d_opSize (e : Env) (i : Instr) : Defd (opSize e i) := by unfold opSize; defd
instance d_opJumpIf (e : Env) (i : Instr) (b : Bool) : Defd (opJumpIf e i b) := by unfold opJumpIf; defd
instance d_opFail (e : Env) (i : Instr) : Defd (opFail e i) := by unfold opFail; defd

/-! ### Conversions copy plain values out of memory -/

/-- `write` from a memory cell that holds a plain value. -/
theorem write_obj_defined {e : Env} {dst src : Nat} {c : Cell} {s : Eng} (hc : aget s.mem src = some c) (hv : plain c.val) :
    write e dst (.obj (.mem src) c.ver) s ≠ .ub := by
  unfold write
  refine defd_bind_ok inferInstance fun _ u h1 => ?_
  -- the source is still there
  have hu : aget u.mem src = some c := by
    unfold fetch at h1
    obtain ⟨x, u', h2, h3⟩ := bind_ok_iff.1 h1
    obtain ⟨rfl, rfl⟩ := getsId_ok h2
    obtain ⟨_, u', h4, h5⟩ := bind_ok_iff.1 h3
    obtain ⟨_, rfl⟩ := need_ok h4
    cases hd : aget s.mem dst with
    | some d => rw [hd] at h5; obtain ⟨_, rfl⟩ := pure_ok h5; exact hc
    | none =>
      rw [hd] at h5
      simp only at h5
      split at h5
      · obtain ⟨o2, v, h6, h7⟩ := bind_ok_iff.1 h5
        obtain ⟨hm, _⟩ := storRead_mem h6
        cases o2 with
        | none => obtain ⟨_, rfl⟩ := pure_ok h7; rw [hm]; exact hc
        | some x =>
          cases setMem_ok h7
          show aget (aset ltN v.mem dst x) src = _
          rw [aget_aset, if_neg (by rintro rfl; rw [hc] at hd; cases hd), hm]
          exact hc
      · obtain ⟨_, rfl⟩ := pure_ok h5; exact hc
  have hsrc : ∀ w : Eng, aget w.mem src = some c → srcCell (.obj (.mem src) c.ver) w = .ok c w := by
    intro w hw
    unfold srcCell
    simp only [bind_def, getCell, gets, hw, safe, if_true, pure_def]
  unfold writeMemCell
  have hpre : ∀ b w, writePre (.mem dst) (.obj (.mem src) c.ver) u = .ok b w → b = false → aget w.mem src = some c := by
    intro b w h hb
    unfold writePre at h
    rw [bind_def, hsrc u hu] at h
    simp only at h
    split at h
    · obtain ⟨rfl, _⟩ := pure_ok h; cases hb
    · next hne =>
      have hne' : dst ≠ src := by
        rintro rfl
        exact hne (by simp [Src.isAt])
      obtain ⟨_, w', h3, h4⟩ := bind_ok_iff.1 h
      obtain ⟨_, rfl⟩ := need_ok h3
      obtain ⟨o, w', h5, h6⟩ := bind_ok_iff.1 h4
      obtain ⟨_, rfl⟩ := getMem_ok h5
      cases o with
      | none => obtain ⟨_, rfl⟩ := pure_ok h6; exact hu
      | some d =>
        obtain ⟨_, w', h7, h8⟩ := bind_ok_iff.1 h6
        obtain ⟨_, rfl⟩ := need_ok h7
        obtain ⟨_, w1, h9, h10⟩ := bind_ok_iff.1 h8
        have h11 : aget w1.mem src = some c := by
          cases setMem_ok h9
          show aget (aset ltN u.mem dst (revive d)) src = _
          rw [aget_aset, if_neg hne']; exact hu
        -- not in place: nothing was changed
        have : w1 = w := by
          unfold writeInPlace at h10
          subst hb
          cases hcv : c.val with
          | ref n => rw [hcv] at hv; cases hv
          | uint n =>
            rw [hcv] at h10
            cases hd : (revive d).val with
            | uint o =>
              rw [hd] at h10
              obtain ⟨_, _, _, h12⟩ := bind_ok_iff.1 h10
              cases (pure_ok h12).1
            | _ =>
              rw [hd] at h10
              dsimp only at h10
              split at h10
              · obtain ⟨_, _, _, h12⟩ := bind_ok_iff.1 h10
                cases (pure_ok h12).1
              · exact (pure_ok h10).2
          | _ =>
            rw [hcv] at h10
            dsimp only at h10
            split at h10
            · obtain ⟨_, _, _, h12⟩ := bind_ok_iff.1 h10
              cases (pure_ok h12).1
            · exact (pure_ok h10).2
        rw [← this]; exact h11
  have hpd : writePre (.mem dst) (.obj (.mem src) c.ver) u ≠ .ub := by
    unfold writePre
    rw [bind_def, hsrc u hu]
    have i1 : ∀ d, Defd (writeInPlace (.mem dst) d c.val) := fun d => d_writeInPlace _ d _ hv
    have i2 : Defd (do
        need (¬ c.deleted)
        match ← getCell (.mem dst) with
        | none => pure false
        | some d => do
          need (¬ d.const)
          setCell (.mem dst) (revive d)
          writeInPlace (.mem dst) (revive d) c.val) := by defd
    dsimp only
    split
    · exact fun h => nomatch h
    · exact i2.out u
  intro h
  rw [bind_def] at h
  cases hp : writePre (.mem dst) (.obj (.mem src) c.ver) u with
  | ub => exact hpd hp
  | throw t => rw [hp] at h; cases h
  | ok b w =>
    rw [hp] at h
    cases b with
    | true => cases h
    | false =>
      simp only at h
      rw [if_neg (by decide), bind_def, hsrc w (hpre false w hp rfl)] at h
      simp only at h
      cases hcv : c.val with
      | ref n => rw [hcv] at hv; cases hv
      | arr n m => rw [hcv] at hv; cases hv
      | map n => rw [hcv] at hv; cases hv
      | _ => rw [hcv] at h; exact (d_assignCell _ _).out _ h

instance d_convUintStr (e : Env) (a b c : Nat) : Defd (convUintStr e a b c) := by unfold convUintStr; defd
instance d_convStrUint (e : Env) (a : Nat) (b : Bytes) (c : Nat) : Defd (convStrUint e a b c) := by
  unfold convStrUint; defd
instance d_convStrBin (e : Env) (a : Nat) (b : Bytes) (c : Nat) : Defd (convStrBin e a b c) := by
  unfold convStrBin; defd

instance d_opConv (e : Env) (a b c d : Nat) : Defd (opConv e a b c d) := by
  constructor
  intro s
  unfold opConv
  refine defd_bind_ok inferInstance fun x u h1 => ?_
  obtain ⟨hx, _⟩ := readFail_ok h1
  split
  · exact (d_bool e a _).out u
  · cases hv : x.val with
    | uint n =>
      dsimp only
      unfold convUint
      split
      · exact write_obj_defined hx (by rw [hv]; rfl)
      · exact Defd.out (m := _) (self := by defd) _
    | str n =>
      dsimp only
      unfold convStr
      split
      · exact (d_convStrUint _ _ _ _).out u
      · split
        · exact write_obj_defined hx (by rw [hv]; rfl)
        · exact Defd.out (m := _) (self := by defd) _
    | bin n =>
      dsimp only
      unfold convBin
      split
      · exact Defd.out (m := _) (self := by defd) _
      · split
        · exact Defd.out (m := _) (self := by defd) _
        · split
          · exact write_obj_defined hx (by rw [hv]; rfl)
          · split
            · refine defd_bind_ok inferInstance fun _ w h2 => ?_
              obtain ⟨_, rfl⟩ := need_ok h2
              exact write_obj_defined hx (by rw [hv]; rfl)
            · exact (defd_raise).out u
    | _ => dsimp only; exact Defd.out (m := _) (self := by defd) _

/-! ### C52 -/

/-- Instructions that move references, arrays or maps, search keys, call other contracts or remove
    a stack frame: COPY, CLONE, RET, GET, SET, ERASE, PUSH_BACK, POP_BACK, CONCAT, RCALL, CREAD. -/
def heavy : List Nat := [0x02, 0x03, 0x08, 0x82, 0x83, 0x84, 0x85, 0x86, 0xA1, 0xC5, 0xC6]

/-- C52 (partial: all instructions but those of `heavy`): an instruction is defined in every state
    whatsoever - it does what the model says or throws, but never touches freed memory. -/
theorem C52_defined_partial (e : Env) (i : Instr) (h : i.code ∉ heavy) (s : Eng) : exec e i s ≠ .ub := by
  have hx : Defd (execOp e i) := by
    unfold execOp
    split
    all_goals first
      | (next hc => exact absurd (by rw [hc]; decide) h)
      | defd
  have : Defd (execRest e i) := by
    unfold execRest
    split
    all_goals first
      | (next hc => exact absurd (by rw [hc]; decide) h)
      | defd
  rw [exec_eq]
  exact (defd_bind (hm := inferInstance) (hf := fun _ => this)).out s

/-! #### The full claim is false -/

/-- An array of one number behind a reference in the stack, `[0] = CONCAT([1], [1])` of an array. -/
def readyRef : Option Eng :=
  (outEng (boot env0 [] [.nil, .uint 5, .arr 0 0] [] 0 (newEng [] 1000000))).bind fun s =>
  (outEng (exec env0 ⟨0xA1, 0, MEM_STACK, 2, 2, 0⟩ s)).bind fun s => outEng (exec env0 ⟨0x85, 1, MEM_STACK, 1, 0, 0⟩ s)

def isRef (v : Option Val) : Bool :=
  match v with
  | some (.ref _) => true
  | _ => false

/-- COPY [0], *[0]: overwriting the only reference to an array frees the array while its elements
    are being copied. -/
theorem C52_copy_use_after_free :
    (readyRef.map fun s => isRef (peek s MEM_STACK) && isUb (exec env0 ⟨0x02, 2, MEM_STACK, MEM_STACK, 0, 0⟩ s)) = some true := by
  decide +kernel

/-- POP_BACK [0], *[0]: the same for the last element. -/
theorem C52_pop_back_use_after_free :
    (readyRef.map fun s => isUb (exec env0 ⟨0x86, 2, MEM_STACK, MEM_STACK, 0, 0⟩ s)) = some true := by
  decide +kernel

/-- Two nested calls with offsets below the stack size but a sum above it, and a cell in static
    memory: RET removes memory past the end of the map. -/
def deepCode : List Instr :=
  [⟨0x20, 32, MEM_STATIC, 1, 1, 0⟩, ⟨0x07, 0, 2, STACK_SIZE - 1, 0, 0⟩, ⟨0x07, 0, 3, STACK_SIZE - 1, 0, 0⟩, ⟨0x08, 0, 0, 0, 0, 0⟩]

theorem C52_ret_past_end :
    ((outEng (boot env0 [] [.nil, .uint 5] [] 0 (newEng deepCode 1000000))).map fun s =>
      isOk (run env0 3 s) && isUb (run env0 4 s)) = some true := by
  decide +kernel

/-- A state in which an instruction of the partial theorem does something. -/
example : ((ready addRet 100000).map fun s => isOk (exec env0 ⟨0x20, 32, MEM_STACK, 1, 2, 0⟩ s)) = some true := by
  decide +kernel

/-! ### C53 -/

/-- Operands without references are the same whatever is evaluated first: their evaluation reads
    the frame only. -/
def Calm {α : Type} (x : EM α) : Prop := ∀ s, (∃ a, x s = .ok a s) ∨ x s = .throw s

theorem args2_swap {α : Type} {e f : Env} {x y : EM α} (hx : Calm x) (hy : Calm y) : args2 e x y = args2 f x y := by
  have key : ∀ g : Env, args2 g x y = fun s => match x s, y s with
      | .ok a _, .ok b _ => .ok (a, b) s
      | _, _ => .throw s := by
    intro g
    funext s
    unfold args2
    rcases hx s with ⟨a, ha⟩ | ha <;> rcases hy s with ⟨b, hb⟩ | hb <;> split <;>
      simp only [bind_def, ha, hb, pure_def]
  rw [key e, key f]

theorem args3_swap {α : Type} {e f : Env} {x y z : EM α} (hx : Calm x) (hy : Calm y) (hz : Calm z) :
    args3 e x y z = args3 f x y z := by
  have key : ∀ g : Env, args3 g x y z = fun s => match x s, y s, z s with
      | .ok a _, .ok b _, .ok c _ => .ok (a, b, c) s
      | _, _, _ => .throw s := by
    intro g
    funext s
    unfold args3
    rcases hx s with ⟨a, ha⟩ | ha <;> rcases hy s with ⟨b, hb⟩ | hb <;> rcases hz s with ⟨c, hc⟩ | hc <;> split <;>
      simp only [bind_def, ha, hb, hc, pure_def]
  rw [key e, key f]

theorem args4_swap {α : Type} {e f : Env} {x y z w : EM α} (hx : Calm x) (hy : Calm y) (hz : Calm z) (hw : Calm w) :
    args4 e x y z w = args4 f x y z w := by
  have key : ∀ g : Env, args4 g x y z w = fun s => match x s, y s, z s, w s with
      | .ok a _, .ok b _, .ok c _, .ok d _ => .ok (a, b, c, d) s
      | _, _, _, _ => .throw s := by
    intro g
    funext s
    unfold args4
    rcases hx s with ⟨a, ha⟩ | ha <;> rcases hy s with ⟨b, hb⟩ | hb <;> rcases hz s with ⟨c, hc⟩ | hc <;>
      rcases hw s with ⟨d, hd⟩ | hd <;> split <;> simp only [bind_def, ha, hb, hc, hd, pure_def]
  rw [key e, key f]

theorem stackAddr_calm (x : Nat) : Calm (stackAddr x) := by
  intro s
  unfold stackAddr
  split
  · rw [bind_def]
    cases hf : s.frames with
    | nil => right; simp only [getFrame, bind_def, gets, id, hf]; rfl
    | cons f l =>
      have hg : getFrame s = .ok f s := by simp only [getFrame, bind_def, gets, id, hf]; rfl
      rw [hg]
      by_cases hlt : ¬ x + f.sp ≥ MEM_STATIC
      · have hn : need (¬ x + f.sp ≥ MEM_STATIC) s = .ok () s := by unfold need; rw [if_pos hlt]; rfl
        simp only [bind_def, hn]
        exact .inl ⟨_, rfl⟩
      · have hn : need (¬ x + f.sp ≥ MEM_STATIC) s = .throw s := by unfold need; rw [if_neg hlt]; rfl
        simp only [bind_def, hn]
        exact .inr trivial
  · exact .inl ⟨_, rfl⟩

theorem derefAddr_calm (e : Env) (x : Nat) : Calm (derefAddr e x false) := by
  intro s
  unfold derefAddr
  rw [bind_def]
  rcases stackAddr_calm x s with ⟨a, h⟩ | h <;> rw [h]
  · exact .inl ⟨a, rfl⟩
  · exact .inr rfl

theorem derefValue_calm (e : Env) (x : Nat) : Calm (derefValue e x false) := fun _ => .inl ⟨x, rfl⟩

/-- The same surroundings with another order of evaluation. -/
def Env.order (e : Env) (b : Bool) : Env := { e with ltr := b }

/-- C53 (partial: instructions without reference operands, and without VERIFY, RCALL and CREAD which
    read memory in their arguments): the outcome - state, gas, exception - does not depend on the
    order in which a compiler evaluates arguments. -/
theorem C53_order_partial (e : Env) (b : Bool) (i : Instr) (hA : i.refA = false) (hB : i.refB = false) (hC : i.refC = false)
    (hD : i.refD = false) (hc : i.code ≠ 0xA4 ∧ i.code ≠ 0xC5 ∧ i.code ≠ 0xC6) : exec (e.order b) i = exec e i := by
  have a1 : ∀ g, Calm (addrA g i) := fun g => by unfold addrA; rw [hA]; exact derefAddr_calm g _
  have a2 : ∀ g, Calm (addrB g i) := fun g => by unfold addrB; rw [hB]; exact derefAddr_calm g _
  have a3 : ∀ g, Calm (addrC g i) := fun g => by unfold addrC; rw [hC]; exact derefAddr_calm g _
  have a4 : ∀ g, Calm (addrD g i) := fun g => by unfold addrD; rw [hD]; exact derefAddr_calm g _
  have v1 : ∀ g, Calm (valA g i) := fun g => by unfold valA; rw [hA]; exact derefValue_calm g _
  have v2 : ∀ g, Calm (valB g i) := fun g => by unfold valB; rw [hB]; exact derefValue_calm g _
  have v3 : ∀ g, Calm (valC g i) := fun g => by unfold valC; rw [hC]; exact derefValue_calm g _
  have v4 : ∀ g, Calm (valD g i) := fun g => by unfold valD; rw [hD]; exact derefValue_calm g _
  have hx : execOp (e.order b) i = execOp e i := by
    unfold execOp
    split
    all_goals first
      | rfl
      | (rw [args2_swap (f := e) (a1 _) (a2 _)]; rfl)
      | (rw [args2_swap (f := e) (v1 _) (a2 _)]; rfl)
      | (rw [args3_swap (f := e) (a1 _) (a2 _) (a3 _)]; rfl)
      | (rw [args4_swap (f := e) (a1 _) (a2 _) (a3 _) (a4 _)]; rfl)
      | (rw [args4_swap (f := e) (a1 _) (a2 _) (v3 _) (v4 _)]; rfl)
      | (next h => exact absurd h hc.1)
      | (next h => exact absurd h hc.2.1)
      | (next h => exact absurd h hc.2.2)
  have : execRest (e.order b) i = execRest e i := by
    unfold execRest
    split
    all_goals first
      | rfl
      | (rw [args2_swap (f := e) (v1 _) (v2 _)]; rfl)
      | (rw [hx])
  rw [exec_eq, exec_eq, this]

def gasOf (o : Option Eng) : Option Nat := o.map (·.gas)

/-- The full claim is false: CONCAT [0] = *[1], *[static]. Read from the left, the missing stack cell
    aborts; read from the right, storage is asked (and paid for) first. The gas of the failed
    execution, which the sender pays for, differs. -/
theorem C53_failed_gas_differs :
    ((ready addRet 100000).map fun s =>
      gasOf (outEng (exec (env0.order true) ⟨0xA1, 6, MEM_STACK, MEM_STACK + 1, MEM_STATIC, 0⟩ s))
        == gasOf (outEng (exec (env0.order false) ⟨0xA1, 6, MEM_STACK, MEM_STACK + 1, MEM_STATIC, 0⟩ s))) = some false := by
  decide +kernel

/-- The hypotheses of the partial theorem are met by an instruction that does something. -/
example : let i : Instr := ⟨0x20, 32, MEM_STACK, 1, 2, 0⟩
    i.refA = false ∧ i.refB = false ∧ i.refC = false ∧ i.refD = false ∧ (i.code ≠ 0xA4 ∧ i.code ≠ 0xC5 ∧ i.code ≠ 0xC6) ∧
      ((ready addRet 100000).map fun s => isOk (exec (env0.order false) i s)) = some true := by
  decide +kernel

end Verif.VM
