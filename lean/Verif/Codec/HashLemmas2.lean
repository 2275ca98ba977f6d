import Verif.Codec.HashLemmas
/-
  Prefix freeness of the structured encoders.
-/
namespace Verif.Codec

/-- Remove one encoded value from both sides of `h` and identify the values. -/
macro "peel " h:ident " with " x:term : tactic =>
  `(tactic| (
    obtain ⟨e, h'⟩ := ($x) _ _ _ _ (by first | assumption | trivial) (by first | assumption | trivial) $h
    clear $h
    have $h := h'
    clear h'
    subst e))

/-- Remove a common constant prefix. -/
macro "cut " h:ident : tactic => `(tactic| replace $h := List.append_cancel_left $h)

theorem pf_TxIO : PF TxIO.Ok encTxIO := by
  rintro ⟨a1, a2, a3, a4⟩ ⟨b1, b2, b3, b4⟩ s t ⟨h1, h2, h3, h4⟩ ⟨g1, g2, g3, g4⟩ h
  simp only [encTxIO, List.append_assoc] at h
  dsimp only at *
  peel h with pf_Bytes
  peel h with pf_Bytes
  peel h with pf_U128
  peel h with pf_Opt pf_Str
  exact ⟨rfl, h⟩

theorem pf_TxOut : PF TxIO.Ok encTxOut := by
  intro a b s t ha hb h
  simp only [encTxOut, List.append_assoc] at h
  cut h
  exact pf_TxIO _ _ _ _ ha hb h

theorem pf_TxIn : PF TxIn.Ok (encTxIn true) := by
  rintro ⟨a1, a2, a3⟩ ⟨b1, b2, b3⟩ s t ⟨h1, h2, h3⟩ ⟨g1, g2, g3⟩ h
  simp only [encTxIn, List.append_assoc, if_true] at h
  dsimp only at *
  cut h
  peel h with pf_TxIO
  peel h with pf_U
  peel h with pf_U
  exact ⟨rfl, h⟩

theorem encTxIn_bare (x : TxIn) : encTxIn false x = encTxIn false x.bare := rfl

theorem encTxIn_false_pf (a b : TxIn) (s t : Bytes) (ha : a.Ok) (hb : b.Ok)
    (h : encTxIn false a ++ s = encTxIn false b ++ t) : a.bare = b.bare ∧ s = t := by
  obtain ⟨a1, a2, a3⟩ := a
  obtain ⟨b1, b2, b3⟩ := b
  obtain ⟨h1, -, -⟩ := ha
  obtain ⟨g1, -, -⟩ := hb
  simp [encTxIn] at h
  dsimp only at *
  peel h with pf_TxIO
  exact ⟨rfl, h⟩

theorem encAll_bare : ∀ (l l' : List TxIn) (s t : Bytes), (∀ x ∈ l, x.Ok) → (∀ x ∈ l', x.Ok) →
    l.length = l'.length → encAll (encTxIn false) l ++ s = encAll (encTxIn false) l' ++ t →
    l.map TxIn.bare = l'.map TxIn.bare ∧ s = t
  | [], [], _, _, _, _, _, h => ⟨rfl, h⟩
  | [], _ :: _, _, _, _, _, hl, _ => by simp at hl
  | _ :: _, [], _, _, _, _, hl, _ => by simp at hl
  | a :: l, b :: l', s, t, ha, hb, hl, h => by
    simp only [encAll, List.append_assoc] at h
    obtain ⟨e, h⟩ := encTxIn_false_pf _ _ _ _ (ha a (by simp)) (hb b (by simp)) h
    obtain ⟨e', h⟩ := encAll_bare l l' s t (fun x hx => ha x (by simp [hx]))
      (fun x hx => hb x (by simp [hx])) (by simpa using hl) h
    exact ⟨by simp only [List.map_cons, e, e'], h⟩

theorem encVec_bare (l l' : List TxIn) (s t : Bytes) (ha : VecOk TxIn.Ok l) (hb : VecOk TxIn.Ok l')
    (h : encVec (encTxIn false) l ++ s = encVec (encTxIn false) l' ++ t) :
    l.map TxIn.bare = l'.map TxIn.bare ∧ s = t := by
  simp only [encVec, List.append_assoc] at h
  cut h
  obtain ⟨el, h⟩ := pf_U _ _ _ _ (by exact ha.1) (by exact hb.1) h
  exact encAll_bare _ _ _ _ ha.2 hb.2 el h

theorem encAll_bare_eq : ∀ l : List TxIn,
    encAll (encTxIn false) l = encAll (encTxIn false) (l.map TxIn.bare)
  | [] => rfl
  | a :: l => by simp only [List.map_cons, encAll, ← encTxIn_bare, ← encAll_bare_eq l]

theorem encVec_bare_eq (l : List TxIn) :
    encVec (encTxIn false) l = encVec (encTxIn false) (l.map TxIn.bare) := by
  simp only [encVec, List.length_map, ← encAll_bare_eq]

theorem encOp_bare (E : Env) (v : Nat) (op : Op) :
    encOp E false v op = encOp E false v op.bare := by cases op <;> rfl

theorem encOp_pf (E : Env) (hE : E.Good) (full : Bool) {v : Nat} (hv : 1 ≤ v) (a b : Op)
    (s t : Bytes) (ha : a.Ok) (hb : b.Ok) (h : encOp E full v a ++ s = encOp E full v b ++ t) :
    (if full then a = b else a.bare = b.bare) ∧ s = t := by
  have hr := hE.th.range
  simp only [List.mem_cons, forall_eq_or_imp] at hr
  obtain ⟨-, r1, r2, -⟩ := hr
  cases a with
  | execute a1 a2 a3 a4 a5 a6 =>
    obtain ⟨h1, h2, h3, h4, h5, h6⟩ := ha
    cases b with
    | execute b1 b2 b3 b4 b5 b6 =>
      obtain ⟨g1, g2, g3, g4, g5, g6⟩ := hb
      simp only [encOp, List.append_assoc] at h
      cut h; cut h
      peel h with pf_U
      cut h
      peel h with pf_Bytes
      cut h
      peel h with pf_Str
      cut h
      peel h with pf_Vec (pf_Var E.isJson hv)
      cut h
      peel h with pf_Opt pf_Bytes
      cases full with
      | false => exact ⟨rfl, h⟩
      | true =>
        simp only [if_true, List.append_assoc] at h
        cut h
        peel h with pf_U
        exact ⟨rfl, h⟩
    | deposit b1 b2 b3 b4 b5 b6 b7 b8 =>
      simp only [encOp, List.append_assoc] at h
      exact absurd (pf_U _ _ _ _ r1 r2 h).1 hE.th.ops
  | deposit a1 a2 a3 a4 a5 a6 a7 a8 =>
    obtain ⟨h1, h2, h3, h4, h5, h6, h7, h8⟩ := ha
    cases b with
    | execute b1 b2 b3 b4 b5 b6 =>
      simp only [encOp, List.append_assoc] at h
      exact absurd (pf_U _ _ _ _ r2 r1 h).1.symm hE.th.ops
    | deposit b1 b2 b3 b4 b5 b6 b7 b8 =>
      obtain ⟨g1, g2, g3, g4, g5, g6, g7, g8⟩ := hb
      simp only [encOp, List.append_assoc] at h
      cut h; cut h
      peel h with pf_U
      cut h
      peel h with pf_Bytes
      cut h
      peel h with pf_Str
      cut h
      peel h with pf_Vec (pf_Var E.isJson hv)
      cut h
      peel h with pf_Opt pf_Bytes
      cut h
      peel h with pf_Bytes
      cut h
      peel h with pf_U128
      cases full with
      | false => exact ⟨rfl, h⟩
      | true =>
        simp only [if_true, List.append_assoc] at h
        cut h
        peel h with pf_U
        exact ⟨rfl, h⟩

theorem pf_Method (E : Env) : PF Method.Ok (encMethod E) := by
  rintro ⟨a1, a2, a3, a4, a5, a6, a7, a8⟩ ⟨b1, b2, b3, b4, b5, b6, b7, b8⟩ s t
    ⟨h1, h2, h3, h4⟩ ⟨g1, g2, g3, g4⟩ h
  simp only [encMethod, List.append_assoc] at h
  dsimp only at *
  cut h; cut h
  peel h with pf_Str
  cut h
  peel h with pf_Str
  cut h
  peel h with pf_Bool
  cut h
  peel h with pf_Bool
  cut h
  peel h with pf_Bool
  cut h
  peel h with pf_Bool
  cut h
  peel h with pf_U
  cut h
  peel h with pf_Vec pf_Str
  exact ⟨rfl, h⟩

theorem pf_Flags : PF CompileFlags.Ok encFlags := by
  rintro ⟨a1, a2, a3⟩ ⟨b1, b2, b3⟩ s t ⟨h1, h2⟩ ⟨g1, g2⟩ h
  simp only [encFlags, List.append_assoc] at h
  dsimp only at *
  cut h; cut h
  peel h with pf_I
  cut h
  peel h with pf_I
  cut h
  peel h with pf_Bool
  exact ⟨rfl, h⟩

attribute [local irreducible] fld encU encStr encBytes encVar encI encVec encMap encFlags

/-- The type hash an encoded contract starts with. -/
def contractHash (E : Env) : Contract → Nat
  | .pubKey .. => E.th.cPubKey
  | .multiSig .. => E.th.cMultiSig
  | .tokenBase .. => E.th.tokenBase
  | .executable .. => E.th.executable
  | .binary .. => E.th.binary
  | .data .. => E.th.data
  | .webData .. => E.th.webData

theorem encContract_head (E : Env) (v : Nat) (c : Contract) :
    ∃ rest, encContract E v c = encU (contractHash E c) ++ rest := by
  cases c <;> simp only [encContract, contractHash]
  case pubKey => delta encPubKey; simp only [List.append_assoc]; exact ⟨_, rfl⟩
  case multiSig => delta encMultiSig; simp only [List.append_assoc]; exact ⟨_, rfl⟩
  case tokenBase => delta encTokenBase; simp only [List.append_assoc]; exact ⟨_, rfl⟩
  case executable => delta encExecutable; simp only [List.append_assoc]; exact ⟨_, rfl⟩
  case binary => delta encBinary; simp only [List.append_assoc]; exact ⟨_, rfl⟩
  case data => delta encData; simp only [List.append_assoc]; exact ⟨_, rfl⟩
  case webData => delta encWebData; simp only [List.append_assoc]; exact ⟨_, rfl⟩

theorem contractHash_range (E : Env) (hE : E.Good) (c : Contract) : U64 (contractHash E c) := by
  have hr := hE.th.range
  simp only [List.mem_cons, forall_eq_or_imp] at hr
  obtain ⟨-, -, -, r1, r2, r3, r4, r5, r6, r7, -⟩ := hr
  cases c <;> assumption

theorem encContract_same_kind (E : Env) (hE : E.Good) (v : Nat) (a b : Contract) (s t : Bytes)
    (h : encContract E v a ++ s = encContract E v b ++ t) : contractHash E a = contractHash E b := by
  obtain ⟨x, hx⟩ := encContract_head E v a
  obtain ⟨y, hy⟩ := encContract_head E v b
  rw [hx, hy, List.append_assoc, List.append_assoc] at h
  exact (pf_U _ _ _ _ (contractHash_range E hE a) (contractHash_range E hE b) h).1

theorem pf_Contract (E : Env) (hE : E.Good) {v : Nat} (hv : 1 ≤ v) :
    PF Contract.Ok (encContract E v) := by
  intro a b s t ha hb h
  have hk := encContract_same_kind E hE v a b s t h
  have hd := hE.th.contracts
  simp only [List.nodup_cons, List.mem_cons, not_or, List.not_mem_nil] at hd
  obtain ⟨⟨d12, d13, d14, d15, d16, d17, -⟩, ⟨d23, d24, d25, d26, d27, -⟩,
    ⟨d34, d35, d36, d37, -⟩, ⟨d45, d46, d47, -⟩, ⟨d56, d57, -⟩, ⟨d67, -⟩, -⟩ := hd
  cases a <;> cases b <;> simp only [contractHash] at hk <;>
    first
    | with_reducible exact absurd hk (by assumption)
    | with_reducible exact absurd hk.symm (by assumption)
    | skip
  case pubKey.pubKey =>
    obtain ⟨h1, h2⟩ := ha
    obtain ⟨g1, g2⟩ := hb
    simp only [encContract] at h
    delta encPubKey at h
    simp only [List.append_assoc] at h
    cut h; cut h
    peel h with pf_U
    cut h
    peel h with pf_Bytes
    exact ⟨rfl, h⟩
  case multiSig.multiSig =>
    obtain ⟨h1, h2, h3⟩ := ha
    obtain ⟨g1, g2, g3⟩ := hb
    simp only [encContract] at h
    delta encMultiSig at h
    simp only [List.append_assoc] at h
    cut h; cut h
    peel h with pf_U
    cut h
    peel h with pf_U
    cut h
    peel h with pf_Vec pf_Bytes
    exact ⟨rfl, h⟩
  case tokenBase.tokenBase =>
    obtain ⟨h1, h2, h3, h4, h5⟩ := ha
    obtain ⟨g1, g2, g3, g4, g5⟩ := hb
    simp only [encContract] at h
    delta encTokenBase at h
    simp only [List.append_assoc] at h
    cut h; cut h
    peel h with pf_U
    cut h
    peel h with pf_Str
    cut h
    peel h with pf_Str
    cut h
    peel h with pf_I
    cut h
    peel h with pf_Var E.isJson hv
    exact ⟨rfl, h⟩
  case executable.executable =>
    obtain ⟨h1, h2, h3, h4, h5, h6, h7, h8, h9⟩ := ha
    obtain ⟨g1, g2, g3, g4, g5, g6, g7, g8, g9⟩ := hb
    simp only [encContract] at h
    delta encExecutable at h
    simp only [List.append_assoc] at h
    cut h; cut h
    peel h with pf_U
    cut h
    peel h with pf_Str
    cut h
    peel h with pf_Str
    cut h
    peel h with pf_I
    cut h
    peel h with pf_Var E.isJson hv
    cut h
    peel h with pf_Bytes
    cut h
    peel h with pf_Str
    cut h
    peel h with pf_Vec (pf_Var E.isJson hv)
    cut h
    peel h with pf_Map pf_Str pf_Bytes
    exact ⟨rfl, h⟩
  case binary.binary =>
    obtain ⟨h1, h2, h3, h4, h5, h6, h7, h8, h9, h10⟩ := ha
    obtain ⟨g1, g2, g3, g4, g5, g6, g7, g8, g9, g10⟩ := hb
    simp only [encContract] at h
    delta encBinary at h
    simp only [List.append_assoc] at h
    cut h; cut h
    peel h with pf_U
    cut h
    peel h with pf_Str
    cut h
    peel h with pf_Map pf_Str pf_U
    cut h
    peel h with pf_Map pf_Str (pf_Method E)
    cut h
    peel h with pf_Bytes
    cut h
    peel h with pf_Bytes
    cut h
    peel h with pf_Map pf_U pf_U
    cut h
    peel h with pf_Str
    cut h
    peel h with pf_Str
    cut h
    peel h with pf_Flags
    exact ⟨rfl, h⟩
  case data.data =>
    obtain ⟨h1, h2⟩ := ha
    obtain ⟨g1, g2⟩ := hb
    simp only [encContract] at h
    delta encData at h
    simp only [List.append_assoc] at h
    cut h; cut h
    peel h with pf_U
    cut h
    peel h with pf_Var E.isJson hv
    exact ⟨rfl, h⟩
  case webData.webData =>
    obtain ⟨h1, h2, h3⟩ := ha
    obtain ⟨g1, g2, g3⟩ := hb
    simp only [encContract] at h
    delta encWebData at h
    simp only [List.append_assoc] at h
    cut h; cut h
    peel h with pf_U
    cut h
    peel h with pf_Str
    cut h
    peel h with pf_Bytes
    exact ⟨rfl, h⟩

theorem pf_Error (E : Env) : PF ExecError.Ok (encError E) := by
  rintro ⟨a1, a2, a3, a4, a5⟩ ⟨b1, b2, b3, b4, b5⟩ s t ⟨h1, h2, h3, h4, h5⟩ ⟨g1, g2, g3, g4, g5⟩ h
  simp only [encError, List.append_assoc] at h
  dsimp only at *
  cut h; cut h
  peel h with pf_U
  cut h
  peel h with pf_U
  cut h
  peel h with pf_U
  cut h
  peel h with pf_Opt pf_U
  cut h
  peel h with pf_Str
  exact ⟨rfl, h⟩

theorem Sz_hash {E : Env} (hE : E.Good) (b : Bytes) : Sz (E.H b) := by
  unfold Sz; rw [hE.hlen]; decide

theorem Sz_zero : Sz zeroHash := by unfold Sz zeroHash; rw [List.length_replicate]; decide

theorem Sz_hashOr {E : Env} (hE : E.Good) {α : Type} (e : α → Bytes) (o : Option α) :
    Sz (hashOr E e o) := by
  cases o with
  | none => exact Sz_zero
  | some a => exact Sz_hash hE _

/-- Equal hashes of optional objects: the hashed strings are equal, unless the hash collides. -/
theorem hashOr_inj {E : Env} {α : Type} (e e' : α → Bytes) {xs ys : List Bytes}
    (hd : Distinguishes E.H xs ys) (a b : Option α) (ha : ∀ x ∈ a, e x ∈ xs)
    (hb : ∀ y ∈ b, e' y ∈ ys) (h : hashOr E e a = hashOr E e' b) :
    (a = none ∧ b = none) ∨ ∃ x y, a = some x ∧ b = some y ∧ e x = e' y := by
  cases a with
  | none =>
    cases b with
    | none => exact Or.inl ⟨rfl, rfl⟩
    | some y => exact absurd h.symm (hd.right _ (hb y rfl))
  | some x =>
    cases b with
    | none => exact absurd h (hd.left _ (ha x rfl))
    | some y => exact Or.inr ⟨x, y, rfl, rfl, hd.inj _ (ha x rfl) _ (hb y rfl) h⟩

theorem encAll_hash {E : Env} (hE : E.Good) {α : Type} (e e' : α → Bytes) {xs ys : List Bytes}
    (hd : Distinguishes E.H xs ys) : ∀ (l l' : List α) (s t : Bytes), (∀ x ∈ l, e x ∈ xs) →
    (∀ y ∈ l', e' y ∈ ys) → l.length = l'.length →
    encAll (fun x => encBytes (E.H (e x))) l ++ s = encAll (fun x => encBytes (E.H (e' x))) l' ++ t →
    l.map e = l'.map e' ∧ s = t
  | [], [], _, _, _, _, _, h => ⟨rfl, h⟩
  | [], _ :: _, _, _, _, _, hl, _ => by simp at hl
  | _ :: _, [], _, _, _, _, hl, _ => by simp at hl
  | a :: l, b :: l', s, t, ha, hb, hl, h => by
    simp only [encAll, List.append_assoc] at h
    obtain ⟨e1, h⟩ := pf_Bytes _ _ _ _ (Sz_hash hE _) (Sz_hash hE _) h
    have e2 := hd.inj _ (ha a (by simp)) _ (hb b (by simp)) e1
    obtain ⟨e3, h⟩ := encAll_hash hE e e' hd l l' s t (fun x hx => ha x (by simp [hx]))
      (fun x hx => hb x (by simp [hx])) (by simpa using hl) h
    exact ⟨by simp only [List.map_cons, e2, e3], h⟩

theorem Distinguishes.mono {H : Bytes → Bytes} {xs ys xs' ys' : List Bytes}
    (h : Distinguishes H xs ys) (hx : ∀ x ∈ xs', x ∈ xs) (hy : ∀ y ∈ ys', y ∈ ys) :
    Distinguishes H xs' ys' :=
  ⟨fun x h1 y h2 => h.inj x (hx x h1) y (hy y h2), fun x h1 => h.left x (hx x h1),
    fun y h1 => h.right y (hy y h1)⟩

mutual
theorem encSol_pf (E : Env) (hE : E.Good) (a b : Solution) (s t : Bytes) (ha : SolOk a)
    (hb : SolOk b) (hd : Distinguishes E.H (solInputs E a) (solInputs E b))
    (h : encSol E a ++ s = encSol E b ++ t) : a = b ∧ s = t := by
  have hr := hE.th.range
  simp only [List.mem_cons, forall_eq_or_imp] at hr
  obtain ⟨-, -, -, -, -, -, -, -, -, -, -, r1, r2, -⟩ := hr
  match a, b with
  | .pubKey a1 a2 a3, .pubKey b1 b2 b3 =>
    simp only [SolOk] at ha hb
    obtain ⟨h1, h2, h3⟩ := ha
    obtain ⟨g1, g2, g3⟩ := hb
    clear hd
    simp only [encSol, List.append_assoc] at h
    cut h; cut h
    peel h with pf_U
    cut h
    peel h with pf_Bytes
    cut h
    peel h with pf_Bytes
    exact ⟨rfl, h⟩
  | .pubKey .., .multiSig .. =>
    simp only [encSol, List.append_assoc] at h
    exact absurd (pf_U _ _ _ _ r1 r2 h).1 hE.th.solutions
  | .multiSig .., .pubKey .. =>
    simp only [encSol, List.append_assoc] at h
    exact absurd (pf_U _ _ _ _ r2 r1 h).1.symm hE.th.solutions
  | .multiSig a1 a2 a3, .multiSig b1 b2 b3 =>
    simp only [SolOk] at ha hb
    obtain ⟨h1, h2, h3, h4⟩ := ha
    obtain ⟨g1, g2, g3, g4⟩ := hb
    simp only [encSol, List.append_assoc] at h
    cut h; cut h
    obtain ⟨e1, h⟩ := pf_U _ _ _ _ h1 g1 h
    cut h
    rw [u32_of_lt h2, u32_of_lt g2] at h
    obtain ⟨el, h⟩ := pf_U _ _ _ _ (by unfold U64; omega) (by unfold U64; omega) h
    obtain ⟨e2, h⟩ := encSolEntries_pf E hE a2 b2 _ _ h3 g3 el
      (hd.mono (fun x hx => by simp only [solInputs]; exact List.mem_cons_of_mem _ hx)
        (fun x hx => by simp only [solInputs]; exact List.mem_cons_of_mem _ hx)) h
    cut h
    obtain ⟨e3, h⟩ := pf_U _ _ _ _ h4 g4 h
    exact ⟨by rw [e1, e2, e3], h⟩

theorem encSolEntries_pf (E : Env) (hE : E.Good) (l l' : List (Bytes × Solution)) (s t : Bytes)
    (ha : SolEntriesOk l) (hb : SolEntriesOk l') (hl : l.length = l'.length)
    (hd : Distinguishes E.H (solEntryInputs E l) (solEntryInputs E l'))
    (h : encSolEntries E l ++ s = encSolEntries E l' ++ t) : l = l' ∧ s = t := by
  match l, l' with
  | [], [] => exact ⟨rfl, h⟩
  | [], _ :: _ => simp at hl
  | _ :: _, [] => simp at hl
  | (k, a) :: l, (k', b) :: l' =>
    simp only [encSolEntries, List.append_assoc] at h
    simp only [SolEntriesOk] at ha hb
    cut h
    obtain ⟨e1, h⟩ := pf_Bytes _ _ _ _ ha.1.1 hb.1.1 h
    obtain ⟨e2, h⟩ := pf_Bytes _ _ _ _ (Sz_hash hE _) (Sz_hash hE _) h
    have hda : Distinguishes E.H (solInputs E a) (solInputs E b) :=
      hd.mono (fun x hx => by simp only [solEntryInputs]; exact List.mem_append_left _ hx)
        (fun x hx => by simp only [solEntryInputs]; exact List.mem_append_left _ hx)
    have e3 : encSol E a = encSol E b := by
      refine hda.inj _ ?_ _ ?_ e2
      · cases a <;> simp [solInputs]
      · cases b <;> simp [solInputs]
    obtain ⟨e4, -⟩ := encSol_pf E hE a b [] [] ha.1.2 hb.1.2 hda (by rw [e3])
    obtain ⟨e5, h⟩ := encSolEntries_pf E hE l l' s t ha.2 hb.2 (by simpa using hl)
      (hd.mono (fun x hx => by simp only [solEntryInputs]; exact List.mem_append_right _ hx)
        (fun x hx => by simp only [solEntryInputs]; exact List.mem_append_right _ hx)) h
    exact ⟨by rw [e1, e4, e5], h⟩
end

theorem encSol_mem (E : Env) (s : Solution) : encSol E s ∈ solInputs E s := by
  cases s <;> simp [solInputs]

theorem encResult_inj (E : Env) (hE : E.Good) (a b : ExecResult) (ha : a.Ok) (hb : b.Ok)
    (hd : Distinguishes E.H (a.error.toList.map (encError E)) (b.error.toList.map (encError E)))
    (h : encResult E a = encResult E b) : a.bareInputs = b.bareInputs := by
  obtain ⟨a1, a2, a3, a4, a5, a6⟩ := a
  obtain ⟨b1, b2, b3, b4, b5, b6⟩ := b
  obtain ⟨h1, h2, h3, h4, h5⟩ := ha
  obtain ⟨g1, g2, g3, g4, g5⟩ := hb
  simp only [encResult, List.append_assoc] at h
  dsimp only at *
  cut h; cut h
  peel h with pf_Bool
  cut h
  peel h with pf_U
  cut h
  peel h with pf_U
  cut h
  obtain ⟨e1, h⟩ := encVec_bare _ _ _ _ h3 g3 h
  cut h
  obtain ⟨e2, h⟩ := pf_Vec pf_TxOut _ _ _ _ h4 g4 h
  cut h
  have h' : encBytes (hashOr E (encError E) a6) ++ [] = encBytes (hashOr E (encError E) b6) ++ [] := by
    rw [h]
  obtain ⟨e3, -⟩ := pf_Bytes _ _ _ _ (Sz_hashOr hE _ _) (Sz_hashOr hE _ _) h'
  have e4 : a6 = b6 := by
    rcases hashOr_inj _ _ hd a6 b6 (fun x hx => by cases hx; simp) (fun x hx => by cases hx; simp) e3
      with ⟨h1, h2⟩ | ⟨x, y, h1, h2, h3⟩
    · rw [h1, h2]
    · subst h1 h2
      have := (pf_Error E x y [] [] h5 g5 (by rw [h3])).1
      rw [this]
  simp only [ExecResult.bareInputs, e1, e2, e4]

end Verif.Codec
