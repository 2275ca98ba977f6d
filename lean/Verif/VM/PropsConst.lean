import Verif.VM.ConstLemmas
/-
  C18: constants and call context cannot be modified by a running contract.
-/
namespace Verif.VM
open Verif.Codec (Bytes)

section
variable {V : Val → Val → Prop} [pv : PreV V]

instance k_mints (f : Eng → List TxOut) : PresOk (Kept V) (modify fun s => { s with mints := f s }) :=
  presOk_modify fun _ => kept_of rfl
instance k_outputs (f : Eng → List TxOut) : PresOk (Kept V) (modify fun s => { s with outputs := f s }) :=
  presOk_modify fun _ => kept_of rfl
instance k_bal (f : Eng → List (Bytes × Nat)) : PresOk (Kept V) (modify fun s => { s with bal := f s }) :=
  presOk_modify fun _ => kept_of rfl
instance k_frames (f : Eng → List Frame) : PresOk (Kept V) (modify fun s => { s with frames := f s }) :=
  presOk_modify fun _ => kept_of rfl
instance k_setTop (f : Frame) : PresOk (Kept V) (modify (setTop f)) := by
  refine presOk_modify fun s => ?_
  unfold setTop
  split <;> exact kept_of rfl
instance k_getFrame : PresOk (Kept V) getFrame := ⟨fun h => by obtain ⟨rfl, _⟩ := getFrame_ok h; exact keptPre.refl _⟩
instance k_jump (ip : Nat) : PresOk (Kept V) (jump ip) := by unfold jump; presok
instance k_advance : PresOk (Kept V) advance := by unfold advance; presok
instance k_deref (e : Env) (a : Nat) : PresOk (Kept V) (deref e a) := by unfold deref; presok
instance k_stackAddr (x : Nat) : PresOk (Kept V) (stackAddr x) := by unfold stackAddr; presok
instance k_derefAddr (e : Env) (x : Nat) (b : Bool) : PresOk (Kept V) (derefAddr e x b) := by unfold derefAddr; presok
instance k_derefValue (e : Env) (x : Nat) (b : Bool) : PresOk (Kept V) (derefValue e x b) := by unfold derefValue; presok
instance k_addrA (e : Env) (i : Instr) : PresOk (Kept V) (addrA e i) := by unfold addrA; presok
instance k_addrB (e : Env) (i : Instr) : PresOk (Kept V) (addrB e i) := by unfold addrB; presok
instance k_addrC (e : Env) (i : Instr) : PresOk (Kept V) (addrC e i) := by unfold addrC; presok
instance k_addrD (e : Env) (i : Instr) : PresOk (Kept V) (addrD e i) := by unfold addrD; presok
instance k_valA (e : Env) (i : Instr) : PresOk (Kept V) (valA e i) := by unfold valA; presok
instance k_valB (e : Env) (i : Instr) : PresOk (Kept V) (valB e i) := by unfold valB; presok
instance k_valC (e : Env) (i : Instr) : PresOk (Kept V) (valC e i) := by unfold valC; presok
instance k_valD (e : Env) (i : Instr) : PresOk (Kept V) (valD e i) := by unfold valD; presok
instance k_args2 {α : Type} (e : Env) (x y : EM α) [PresOk (Kept V) x] [PresOk (Kept V) y] :
    PresOk (Kept V) (args2 e x y) := by unfold args2; presok
instance k_args3 {α : Type} (e : Env) (x y z : EM α) [PresOk (Kept V) x] [PresOk (Kept V) y] [PresOk (Kept V) z] :
    PresOk (Kept V) (args3 e x y z) := by unfold args3; presok
instance k_args4 {α : Type} (e : Env) (x y z w : EM α) [PresOk (Kept V) x] [PresOk (Kept V) y] [PresOk (Kept V) z]
    [PresOk (Kept V) w] : PresOk (Kept V) (args4 e x y z w) := by unfold args4; presok
instance k_opCopy (e : Env) (a b : Nat) : PresOk (Kept V) (opCopy e a b) := by unfold opCopy; presok
instance k_opClone (e : Env) (a b : Nat) : PresOk (Kept V) (opClone e a b) := by unfold opClone; presok
instance k_getKey (e : Env) (a b c : Nat) : PresOk (Kept V) (getKey e a b c) := by unfold getKey; presok
instance k_opGet (e : Env) (a b c : Nat) (h : Bool) : PresOk (Kept V) (opGet e a b c h) := by unfold opGet; presok
instance k_opSet (e : Env) (a b c : Nat) : PresOk (Kept V) (opSet e a b c) := by unfold opSet; presok
instance k_opErase (e : Env) (a b : Nat) : PresOk (Kept V) (opErase e a b) := by unfold opErase; presok
instance k_concatLoop (e : Env) (a x n : Nat) (src : Src) : PresOk (Kept V) (concatLoop e a x n src) := by
  unfold concatLoop; presok
instance k_needSize (n : Nat) : PresOk (Kept V) (needSize n) := by unfold needSize; presok
instance k_opConcat (e : Env) (a b c : Nat) : PresOk (Kept V) (opConcat e a b c) := by unfold opConcat; presok
instance k_opMemcpy (e : Env) (a b c d : Nat) : PresOk (Kept V) (opMemcpy e a b c d) := by unfold opMemcpy; presok
instance k_opSha256 (e : Env) (a b : Nat) : PresOk (Kept V) (opSha256 e a b) := by unfold opSha256; presok
instance k_opVerify (e : Env) (a b c d : Nat) : PresOk (Kept V) (opVerify e a b c d) := by unfold opVerify; presok
instance k_convUintStr (e : Env) (a b c : Nat) : PresOk (Kept V) (convUintStr e a b c) := by unfold convUintStr; presok
instance k_convUint (e : Env) (a b c d f g : Nat) : PresOk (Kept V) (convUint e a b c d f g) := by unfold convUint; presok
instance k_convStrUint (e : Env) (a : Nat) (b : Bytes) (c : Nat) : PresOk (Kept V) (convStrUint e a b c) := by
  unfold convStrUint; presok
instance k_convStrBin (e : Env) (a : Nat) (b : Bytes) (c : Nat) : PresOk (Kept V) (convStrBin e a b c) := by
  unfold convStrBin; presok
instance k_convStr (e : Env) (a b c : Nat) (d : Bytes) (f g : Nat) : PresOk (Kept V) (convStr e a b c d f g) := by
  unfold convStr; presok
instance k_convBin (e : Env) (a b c : Nat) (d : Bytes) (f g h : Nat) : PresOk (Kept V) (convBin e a b c d f g h) := by
  unfold convBin; presok
instance k_opConv (e : Env) (a b c d : Nat) : PresOk (Kept V) (opConv e a b c d) := by
  unfold opConv; dsimp only; presok
instance k_parseMemo (e : Env) (a : Nat) : PresOk (Kept V) (parseMemo e a) := by unfold parseMemo; presok
instance k_storBalance (e : Env) (c : Bytes) : PresOk (Kept V) (storBalance e c) := by unfold storBalance; presok
instance k_getBalance (e : Env) (a : Nat) : PresOk (Kept V) (getBalance e a) := by unfold getBalance; presok
instance k_opSend (e : Env) (a b c d : Nat) : PresOk (Kept V) (opSend e a b c d) := by unfold opSend; presok
instance k_opMint (e : Env) (a b c : Nat) : PresOk (Kept V) (opMint e a b c) := by unfold opMint; presok
instance k_opBalance (e : Env) (a b : Nat) : PresOk (Kept V) (opBalance e a b) := by unfold opBalance; presok
instance k_opCall (a b : Nat) : PresOk (Kept V) (opCall a b) := by unfold opCall; presok
instance k_opRet : PresOk (Kept V) opRet := by unfold opRet; presok
instance k_hostOp (e : Env) (o : HostOp) : PresOk (Kept V) (hostOp e o) := by cases o <;> unfold hostOp <;> presok
instance k_opRcall (e : Env) (a b c d : Nat) : PresOk (Kept V) (opRcall e a b c d) := by unfold opRcall; presok
instance k_readAddr (e : Env) (a : Nat) : PresOk (Kept V) (readAddr e a) := by unfold readAddr; presok
instance k_opCread (e : Env) (a b c : Nat) : PresOk (Kept V) (opCread e a b c) := by unfold opCread; presok
instance k_opUints (e : Env) (i : Instr) : PresOk (Kept V) (opUints e i) := by unfold opUints; presok
instance k_opAdd (e : Env) (i : Instr) : PresOk (Kept V) (opAdd e i) := by unfold opAdd; presok
instance k_opSub (e : Env) (i : Instr) : PresOk (Kept V) (opSub e i) := by unfold opSub; presok
instance k_opMul (e : Env) (i : Instr) : PresOk (Kept V) (opMul e i) := by unfold opMul; presok
instance k_opDiv (e : Env) (i : Instr) (b : Bool) : PresOk (Kept V) (opDiv e i b) := by unfold opDiv; presok
instance k_opNot (e : Env) (i : Instr) : PresOk (Kept V) (opNot e i) := by unfold opNot; presok
instance k_opLogic (e : Env) (i : Instr) (f : Nat → Nat → Nat) (g : Bool → Bool → Bool) : PresOk (Kept V) (opLogic e i f g) := by
  unfold opLogic; presok
instance k_opMinMax (e : Env) (i : Instr) (b : Bool) : PresOk (Kept V) (opMinMax e i b) := by unfold opMinMax; presok
instance k_opShift (e : Env) (i : Instr) (b : Bool) : PresOk (Kept V) (opShift e i b) := by unfold opShift; presok
instance k_opCmp (e : Env) (i : Instr) : PresOk (Kept V) (opCmp e i) := by unfold opCmp; presok
instance k_opType (e : Env) (i : Instr) : PresOk (Kept V) (opType e i) := by unfold opType; presok
instance k_opSize (e : Env) (i : Instr) : PresOk (Kept V) (opSize e i) := by unfold opSize; presok
instance k_opJumpIf (e : Env) (i : Instr) (b : Bool) : PresOk (Kept V) (opJumpIf e i b) := by unfold opJumpIf; presok
instance k_opFail (e : Env) (i : Instr) : PresOk (Kept V) (opFail e i) := by unfold opFail; presok

theorem k_exec (e : Env) (i : Instr) (hp : i.code = 0x86 → ∀ a b, PresOk (Kept V) (popBack e a b)) :
    PresOk (Kept V) (exec e i) := by
  have : PresOk (Kept V) (execOp e i) := by
    unfold execOp
    split
    all_goals first
      | (next hc =>
          have := hp hc
          refine presOk_bind (hm := ?_) (hf := ?_) <;> presok)
      | presok
  unfold exec; presok

end

/-! ### Specification -/

instance : PreV (fun v w : Val => w = v) := ⟨fun _ => rfl, fun h k => k.trans h⟩

/-- Unchanged, or an array that lost elements at its end. -/
def Shrunk (v w : Val) : Prop := w = v ∨ ∃ x n m, v = .arr x n ∧ w = .arr x m ∧ m ≤ n

instance : PreV Shrunk where
  refl _ := .inl rfl
  trans h k := by
    rcases h with rfl | ⟨x, n, m, rfl, rfl, hm⟩
    · exact k
    · rcases k with rfl | ⟨y, n', m', h1, rfl, hm'⟩
      · exact .inr ⟨x, n, m, rfl, rfl, hm⟩
      · cases h1
        exact .inr ⟨x, n, m', rfl, rfl, by omega⟩

theorem popBack_shrinks (e : Env) (a b : Nat) : PresOk (Kept Shrunk) (popBack e a b) := by
  constructor
  intro s t x h
  unfold popBack at h
  obtain ⟨_, u, h1, h2⟩ := bind_ok_iff.1 h
  obtain ⟨_, rfl⟩ := need_ok h1
  obtain ⟨c, u, h3, h4⟩ := bind_ok_iff.1 h2
  refine keptPre.trans ((k_readFail e b).ok h3) ?_
  cases hv : c.val with
  | arr y n =>
    rw [hv] at h4
    simp only at h4
    obtain ⟨_, u', h5, h6⟩ := bind_ok_iff.1 h4
    obtain ⟨_, rfl⟩ := need_ok h5
    obtain ⟨z, v, h7, h8⟩ := bind_ok_iff.1 h6
    obtain ⟨_, w, h9, h10⟩ := bind_ok_iff.1 h8
    obtain ⟨_, w1, h11, h12⟩ := bind_ok_iff.1 h10
    refine keptPre.trans ((k_readEntryFail e b _).ok h7) (keptPre.trans ((k_write e a _).ok h9)
      (keptPre.trans ((k_eraseEntry e b _).ok h11) ?_))
    obtain ⟨o, w2, h13, h14⟩ := bind_ok_iff.1 h12
    obtain ⟨ho, rfl⟩ := getCell_ok h13
    cases o with
    | none => cases h14
    | some d =>
      obtain ⟨d', w2, h15, h16⟩ := bind_ok_iff.1 h14
      unfold shrink at h15
      cases hd : d.val with
      | arr y' m =>
        rw [hd] at h15
        simp only at h15
        obtain ⟨_, w3, h17, h18⟩ := bind_ok_iff.1 h15
        have : w1 = w3 := by
          unfold safe at h17
          split at h17
          · exact (pure_ok h17).2
          · cases h17
        subst this
        obtain ⟨rfl, rfl⟩ := pure_ok h18
        rw [← setCell_ok h16]
        refine kept_put fun q hq hk => ?_
        rw [ho] at hq
        cases hq
        exact ⟨hk, .inr ⟨y', m, m - 1, hd, rfl, Nat.sub_le _ _⟩, rfl⟩
      | _ => rw [hd] at h15; cases h15
  | _ => rw [hv] at h4; cases h4

/-! ### C18 -/

/-- C18, one instruction (partial: POP_BACK, 0x86, is left out, see `C18_pop_back_shrinks`): a
    constant cell outside the stack has the same value before and after every successful
    instruction, and stays constant. -/
theorem C18_instruction_partial (e : Env) (i : Instr) (s t : Eng) (hi : i.code ≠ 0x86) (h : exec e i s = .ok () t)
    (a : Nat) (c : Cell) (ha : guarded a) (hc : aget s.mem a = some c) (hk : c.const = true) :
    ∃ d, aget t.mem a = some d ∧ d.const = true ∧ d.val = c.val ∧ d.deleted = c.deleted :=
  (k_exec (V := fun v w => w = v) e i (fun h => absurd h hi)).ok h a c ha hc hk

theorem steps_kept {e : Env} {n : Nat} {s t : Eng} (h : Steps e n s t) : Kept Shrunk s t := by
  induction h with
  | zero s => exact keptPre.refl _
  | succ _ hs _ ih =>
    obtain ⟨f, l, i, _, _, h1, _⟩ := step_ok hs
    exact keptPre.trans ((k_exec e i (fun _ => popBack_shrinks e)).ok h1) ih

theorem aget_freeze (m : AMap Nat) (a : Nat) (h : a < MEM_STACK) :
    aget (freeze m) a = (aget m a).map fun c => { c with const := true, dirty := false } := by
  induction m with
  | nil => rfl
  | cons p m ih =>
    obtain ⟨k, v⟩ := p
    unfold freeze at ih ⊢
    rw [List.map_cons]
    by_cases hk : k = a
    · subst hk
      simp only [h, if_true, aget, Option.map]
    · simp only [aget, if_neg hk]
      rw [← ih]
      by_cases h' : k < MEM_STACK
      · simp only [h', if_true, aget, if_neg hk]
      · simp only [h', if_false, aget, if_neg hk]

/-- When the contract starts to run, everything below the stack is constant: the constants of the
    code and what the node put in place (user, height, deposit). -/
theorem boot_frozen {e : Env} {pre post : List HostOp} {consts : List Val} {ip : Nat} {u s : Eng}
    (h : boot e pre consts post ip u = .ok () s) (a : Nat) (c : Cell) (ha : a < MEM_STACK) (hc : aget s.mem a = some c) :
    c.const = true := by
  unfold boot at h
  obtain ⟨_, u1, _, h1⟩ := bind_ok_iff.1 h
  obtain ⟨_, u2, _, h2⟩ := bind_ok_iff.1 h1
  obtain ⟨_, u3, _, h3⟩ := bind_ok_iff.1 h2
  obtain ⟨_, u4, _, h4⟩ := bind_ok_iff.1 h3
  obtain ⟨_, u5, _, h5⟩ := bind_ok_iff.1 h4
  unfold begin at h5
  obtain ⟨_, u6, _, h6⟩ := bind_ok_iff.1 h5
  obtain ⟨_, u7, _, h7⟩ := bind_ok_iff.1 h6
  obtain ⟨_, u8, _, h8⟩ := bind_ok_iff.1 h7
  cases modify_ok h8
  replace hc : aget (freeze u8.mem) a = some c := hc
  rw [aget_freeze _ _ ha] at hc
  cases hx : aget u8.mem a with
  | none => rw [hx] at hc; cases hc
  | some d => rw [hx] at hc; cases hc; rfl

/-- C18, whole executions (partial: an array may have lost elements at its end): whatever the
    program does, the code constants, user, height and deposit show at every moment what they
    showed when it started. -/
theorem C18_context_partial (e : Env) (pre post : List HostOp) (consts : List Val) (code : List Instr)
    (ip limit n : Nat) (s t : Eng) (hb : boot e pre consts post ip (newEng code limit) = .ok () s)
    (h : Steps e n s t) (a : Nat) (ha : a < MEM_STACK) (v : Val) (hv : peek s a = some v) :
    ∃ w, peek t a = some w ∧ (w = v ∨ ∃ x n m, v = .arr x n ∧ w = .arr x m ∧ m ≤ n) := by
  obtain ⟨c, h1, h2, h3⟩ := peek_some hv
  obtain ⟨d, k1, _, k2, k3⟩ := steps_kept h a c (.inl ha) h1 (boot_frozen hb a c ha h1)
  refine ⟨d.val, peek_of k1 (k3.trans h2), ?_⟩
  rw [← h3]
  exact k2

/-- C18, attempts: writing to a constant cell, replacing it, erasing it and writing to an entry of
    a constant container never succeed. -/
theorem C18_attempts_abort (e : Env) (s t : Eng) (a : Nat) (c : Cell) (hc : aget s.mem a = some c) (hk : c.const = true)
    (hd : c.deleted = false) :
    (∀ v, assign e a v s ≠ .ok () t) ∧ (∀ v, writeVal e a v s ≠ .ok () t) ∧
    (∀ b d, aget s.mem b = some d → b ≠ a → write e a (.obj (.mem b) d.ver) s ≠ .ok () t) ∧
    eraseAddr e a s ≠ .ok () t ∧ (∀ k src, writeEntry e a k src s ≠ .ok () t) := by
  have hf : ∀ u, fetch e a s = .ok () u → u = s := by
    intro u h
    unfold fetch at h
    obtain ⟨x, u', h1, h2⟩ := bind_ok_iff.1 h
    obtain ⟨rfl, rfl⟩ := getsId_ok h1
    obtain ⟨_, u', h3, h4⟩ := bind_ok_iff.1 h2
    obtain ⟨_, rfl⟩ := need_ok h3
    rw [hc] at h4
    exact (pure_ok h4).2.symm
  have hw : ∀ src, src.isAt (.mem a) = false → ∀ b u v, srcCell src s = .ok b v → s = v → writePre (.mem a) src s ≠ .ok u t ∧
      ∀ x, writePre (.mem a) src s ≠ .ok u x := by
    intro src hsrc b u v hb hv
    have : ∀ x, writePre (.mem a) src s ≠ .ok u x := by
      intro x h
      unfold writePre at h
      rw [bind_def, hb] at h
      subst hv
      simp only at h
      rw [hsrc, if_neg (by decide)] at h
      obtain ⟨_, u', h3, h4⟩ := bind_ok_iff.1 h
      obtain ⟨_, rfl⟩ := need_ok h3
      obtain ⟨o, u', h5, h6⟩ := bind_ok_iff.1 h4
      obtain ⟨ho, rfl⟩ := getMem_ok h5
      rw [hc] at ho
      subst ho
      obtain ⟨_, u', h7, _⟩ := bind_ok_iff.1 h6
      exact (need_ok h7).1 hk
    exact ⟨this t, this⟩
  refine ⟨fun v h => ?_, fun v h => ?_, fun b d hb hne h => ?_, fun h => ?_, fun k src h => ?_⟩
  · unfold assign at h
    obtain ⟨_, u, h1, h2⟩ := bind_ok_iff.1 h
    cases hf u h1
    have := (assignCell_ok (V := Shrunk) h2).2.1 c hc
    rw [hk] at this; cases this
  · unfold writeVal write at h
    obtain ⟨_, u, h1, h2⟩ := bind_ok_iff.1 h
    cases hf u h1
    unfold writeMemCell at h2
    obtain ⟨b, w, h3, _⟩ := bind_ok_iff.1 h2
    exact (hw _ rfl _ b s (by unfold srcCell; rfl) rfl).2 w h3
  · unfold write at h
    obtain ⟨_, u, h1, h2⟩ := bind_ok_iff.1 h
    cases hf u h1
    unfold writeMemCell at h2
    obtain ⟨x, w, h3, _⟩ := bind_ok_iff.1 h2
    refine (hw (.obj (.mem b) d.ver) ?_ d x s ?_ rfl).2 w h3
    · unfold Src.isAt
      simpa using hne
    · unfold srcCell
      simp only [bind_def, getCell, gets, hb, safe, if_true, pure_def]
  · unfold eraseAddr at h
    obtain ⟨o, u, h1, h2⟩ := bind_ok_iff.1 h
    obtain ⟨ho, rfl⟩ := getMem_ok h1
    rw [hc] at ho
    subst ho
    simp only at h2
    unfold eraseLoc MAX_ERASE_RECURSION eraseCell at h2
    obtain ⟨o, u, h3, h4⟩ := bind_ok_iff.1 h2
    obtain ⟨ho, rfl⟩ := getMem_ok h3
    rw [hc] at ho
    subst ho
    obtain ⟨_, u, h5, _⟩ := bind_ok_iff.1 h4
    exact (need_ok h5).1 hk
  · have := writeEntry_var hc hd h
    rw [hk] at this; cases this

/-! ### The full claim is false: POP_BACK -/

/-- What the node does for a deposit of 250 of some currency (`vm::set_deposit`, vm_interface.cpp:28-34; the
    address is MEM_EXTERN + EXTERN_DEPOSIT, Engine.h:62-68). -/
def depositOps : List HostOp :=
  [.assign (MEM_EXTERN + 4) (.arr 0 0), .push (MEM_EXTERN + 4) (.bin (List.replicate 32 9)), .push (MEM_EXTERN + 4) (.uint 250)]

def readyDeposit : Option Eng := outEng (boot env0 [] [.nil, .uint 5] depositOps 0 (newEng [] 1000000))

def isArr (v : Option Val) (n : Nat) : Bool :=
  match v with
  | some (.arr _ m) => m == n
  | _ => false

/-- POP_BACK takes the amount off the deposit array although the array is constant. -/
theorem C18_pop_back_shrinks :
    (readyDeposit.bind fun s => (outEng (exec env0 ⟨0x86, 0, MEM_STACK, MEM_EXTERN + 4, 0, 0⟩ s)).map fun t =>
      isArr (peek s (MEM_EXTERN + 4)) 2 && ((aget s.mem (MEM_EXTERN + 4)).map (·.const) == some true) &&
      isOk (exec env0 ⟨0x86, 0, MEM_STACK, MEM_EXTERN + 4, 0, 0⟩ s) && isArr (peek t (MEM_EXTERN + 4)) 1) = some true := by
  decide +kernel

/-- The hypotheses of `C18_context_partial` are met by a program that works next to its constants. -/
example : ((ready addRet 100000).bind fun s => (outEng (run env0 10 s)).map fun t =>
    isOk (run env0 10 s) && isUint (peek s 1) 5 && isUint (peek t 1) 5 && isUint (peek t 2) 7) = some true := by
  decide +kernel

/-- Writing to a constant: ADD into address 1 aborts. -/
example : ((ready addRet 100000).map fun s => isOk (exec env0 ⟨0x20, 32, 1, 1, 2, 0⟩ s)) = some false := by decide +kernel

end Verif.VM
