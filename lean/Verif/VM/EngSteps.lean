import Verif.VM.EngLemmas
/-
  Relations kept by whole instructions and runs.
-/
namespace Verif.VM
open Verif.Codec (Bytes)

/-- Gas only goes up; limit and code stay. -/
structure Mono (s t : Eng) : Prop where
  gas : s.gas ≤ t.gas
  limit : t.limit = s.limit
  code : t.code = s.code

instance monoPre : Pre Mono where
  refl _ := ⟨Nat.le_refl _, rfl, rfl⟩
  trans h k := ⟨Nat.le_trans h.gas k.gas, k.limit.trans h.limit, k.code.trans h.code⟩

instance (priority := low) mono_of_quiet {α : Type} {m : EM α} [h : Pres Quiet m] : Pres Mono m :=
  pres_mono (fun h => ⟨h.gas, h.limit, h.code⟩) h

theorem setTop_mono (f : Frame) (s : Eng) : Mono s (setTop f s) := by
  unfold setTop
  split <;> exact ⟨Nat.le_refl _, rfl, rfl⟩
instance m_setTop (f : Frame) : Pres Mono (modify (setTop f)) := pres_modify (setTop_mono f)
instance m_jump (ip : Nat) : Pres Mono (jump ip) := by unfold jump; pres
instance m_advance : Pres Mono advance := by unfold advance; pres
instance m_bal (f : Eng → List (Bytes × Nat)) : Pres Mono (modify fun s => { s with bal := f s }) :=
  pres_modify fun _ => ⟨Nat.le_refl _, rfl, rfl⟩
instance m_outputs (f : Eng → List TxOut) : Pres Mono (modify fun s => { s with outputs := f s }) :=
  pres_modify fun _ => ⟨Nat.le_refl _, rfl, rfl⟩
instance m_mints (f : Eng → List TxOut) : Pres Mono (modify fun s => { s with mints := f s }) :=
  pres_modify fun _ => ⟨Nat.le_refl _, rfl, rfl⟩
instance m_frames (f : Eng → List Frame) : Pres Mono (modify fun s => { s with frames := f s }) :=
  pres_modify fun _ => ⟨Nat.le_refl _, rfl, rfl⟩
instance m_getBalance (e : Env) (a : Nat) : Pres Mono (getBalance e a) := by unfold getBalance; pres
instance m_opSend (e : Env) (a b c d : Nat) : Pres Mono (opSend e a b c d) := by unfold opSend; pres
instance m_opMint (e : Env) (a b c : Nat) : Pres Mono (opMint e a b c) := by unfold opMint; pres
instance m_opBalance (e : Env) (a b : Nat) : Pres Mono (opBalance e a b) := by unfold opBalance; pres
instance m_opCall (a b : Nat) : Pres Mono (opCall a b) := by unfold opCall; pres
instance m_opRet : Pres Mono opRet := by unfold opRet; pres
instance m_opRcall (e : Env) (a b c d : Nat) : Pres Mono (opRcall e a b c d) := by unfold opRcall; pres
instance m_opJumpIf (e : Env) (i : Instr) (b : Bool) : Pres Mono (opJumpIf e i b) := by unfold opJumpIf; pres
instance m_execOp (e : Env) (i : Instr) : Pres Mono (execOp e i) := by unfold execOp; pres

end Verif.VM
