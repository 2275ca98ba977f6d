import Verif.Codec.HashLemmas2
/-
  C33, C34: the canonical hash encoding.
-/
namespace Verif.Codec

/-! ### C33 -/

/-- C33 (values). At hash revision 1 or later two different values never give the same bytes, and
    no value's bytes can be continued into another value's bytes. -/
theorem C33_value_injective (isJson : Variant → Bool) (v : Nat) (hv : 1 ≤ v) (a b : Variant)
    (s t : Bytes) (ha : VarOk a) (hb : VarOk b)
    (h : encVar isJson v a ++ s = encVar isJson v b ++ t) : a = b ∧ s = t :=
  encVar_pf isJson hv a b s t ha hb h

/-- C33 (argument lists of calls). -/
theorem C33_args_injective (isJson : Variant → Bool) (v : Nat) (hv : 1 ≤ v) (a b : List Variant)
    (ha : VecOk VarOk a) (hb : VecOk VarOk b)
    (h : encVec (encVar isJson v) a = encVec (encVar isJson v) b) : a = b :=
  (pf_Vec (pf_Var isJson hv) a b [] [] ha hb (by rw [h])).1

/-- C33 (contracts): two different contracts never give the same bytes, whatever their kinds. -/
theorem C33_contract_injective (E : Env) (hE : E.Good) (v : Nat) (hv : 1 ≤ v) (a b : Contract)
    (ha : a.Ok) (hb : b.Ok) (h : encContract E v a = encContract E v b) : a = b :=
  (pf_Contract E hE hv a b [] [] ha hb (by rw [h])).1

/-- C33 (operations): with the solution index (`full`), or without it. -/
theorem C33_operation_injective (E : Env) (hE : E.Good) (v : Nat) (hv : 1 ≤ v) (full : Bool)
    (a b : Op) (ha : a.Ok) (hb : b.Ok) (h : encOp E full v a = encOp E full v b) :
    if full then a = b else a.bare = b.bare :=
  (encOp_pf E hE full hv a b [] [] ha hb (by rw [h])).1

/-- At hash revision 0 the claim is false: the argument lists `(1, false)` and `(true, 0)` have the
    same bytes, for every `is_json`. -/
theorem C33_revision0_collision (isJson : Variant → Bool) :
    encVec (encVar isJson 0) [.ulong 1, .bool false] =
      encVec (encVar isJson 0) [.bool true, .ulong 0]
    ∧ ([.ulong 1, .bool false] : List Variant) ≠ [.bool true, .ulong 0] := by
  constructor
  · simp [encVec, encAll, encVar, encVarPre, tagged, encBool, encU, le]
  · simp

/-- Hence two different revision 0 transactions with one id: a call `f(1, false)` and a call
    `f(true, 0)`. -/
theorem C33_revision0_same_id (E : Env) (t : Tx) (h0 : t.version = 0) (address method : Bytes)
    (user : Option Bytes) :
    calcHash E false { t with execute := [.execute 0 address 65535 method
        [.ulong 1, .bool false] user] } =
      calcHash E false { t with execute := [.execute 0 address 65535 method
        [.bool true, .ulong 0] user] } := by
  unfold calcHash
  have hop : encOp E false 0 (.execute 0 address 65535 method [.ulong 1, .bool false] user)
      = encOp E false 0 (.execute 0 address 65535 method [.bool true, .ulong 0] user) := by
    simp only [encOp, (C33_revision0_collision E.isJson).1]
  delta hashSerialize
  dsimp only
  rw [h0]
  simp only [encAll, hop, List.length_cons, List.length_nil]

/-! ### C34 -/

theorem encAll_map {α β : Type} (e : β → Bytes) (f : α → β) :
    ∀ l : List α, encAll e (l.map f) = encAll (fun x => e (f x)) l
  | [] => rfl
  | a :: l => by simp only [List.map_cons, encAll, encAll_map e f l]

/-- The bytes hashed for the id do not depend on witnesses. -/
theorem hashSerialize_bare (E : Env) (t : Tx) :
    hashSerialize E false t = hashSerialize E false t.bare := by
  have hops : encAll (fun op => encBytes (E.H (encOp E false t.version op))) t.execute
      = encAll (fun op => encBytes (E.H (encOp E false t.version op))) (t.execute.map Op.bare) := by
    rw [encAll_map]
    congr 1
    funext op
    rw [← encOp_bare]
  delta hashSerialize Tx.bare
  dsimp only
  rw [List.length_map, ← hops, ← encVec_bare_eq]
  rfl

/-- C34, first half. Two transactions that differ only in solutions, references to solutions, input
    flags, static cost or execution result have the same id. -/
theorem C34_id_ignores_witnesses (E : Env) (a b : Tx) (h : a.bare = b.bare) :
    calcHash E false a = calcHash E false b := by
  unfold calcHash
  rw [hashSerialize_bare E a, hashSerialize_bare E b, h]

theorem inputs_pf (full : Bool) (l l' : List TxIn) (s t : Bytes) (ha : VecOk TxIn.Ok l)
    (hb : VecOk TxIn.Ok l') (h : encVec (encTxIn full) l ++ s = encVec (encTxIn full) l' ++ t) :
    (if full then l = l' else l.map TxIn.bare = l'.map TxIn.bare) ∧ s = t := by
  cases full with
  | true => exact pf_Vec pf_TxIn _ _ _ _ ha hb h
  | false => exact encVec_bare _ _ _ _ ha hb h

theorem ops_inj (E : Env) (hE : E.Good) (full : Bool) (v : Nat) (hv : 1 ≤ v) :
    ∀ l l' : List Op, (∀ x ∈ l, x.Ok) → (∀ x ∈ l', x.Ok) →
      l.map (encOp E full v) = l'.map (encOp E full v) →
      if full then l = l' else l.map Op.bare = l'.map Op.bare
  | [], [], _, _, _ => by simp
  | [], _ :: _, _, _, h => by simp at h
  | _ :: _, [], _, _, h => by simp at h
  | x :: l, y :: l', ha, hb, h => by
    simp only [List.map_cons, List.cons.injEq] at h
    have hx := C33_operation_injective E hE v hv full x y (ha x (by simp)) (hb y (by simp)) h.1
    have hl := ops_inj E hE full v hv l l' (fun z hz => ha z (by simp [hz]))
      (fun z hz => hb z (by simp [hz])) h.2
    cases full with
    | true => simp only [if_true] at hx hl ⊢; rw [hx, hl]
    | false =>
      simp only [Bool.false_eq_true, if_false] at hx hl ⊢
      rw [List.map_cons, List.map_cons, hx, hl]

/-- The fields of two transactions with the same hashed bytes. -/
theorem hashSerialize_fields (E : Env) (hE : E.Good) (full : Bool) (a b : Tx) (ha : a.Ok) (hb : b.Ok)
    (xs ys : List Bytes) (hd : Distinguishes E.H xs ys)
    (hxo : ∀ x ∈ a.execute, encOp E full a.version x ∈ xs)
    (hyo : ∀ x ∈ b.execute, encOp E full b.version x ∈ ys)
    (hxc : ∀ x ∈ a.deploy, encContract E a.version x ∈ xs)
    (hyc : ∀ x ∈ b.deploy, encContract E b.version x ∈ ys)
    (hv : 1 ≤ a.version) (h : hashSerialize E full a = hashSerialize E full b) :
    a.version = b.version ∧ a.expires = b.expires ∧ a.feeRatio = b.feeRatio ∧ a.maxFee = b.maxFee
    ∧ a.note = b.note ∧ a.nonce = b.nonce ∧ a.network = b.network ∧ a.sender = b.sender
    ∧ (if full then a.inputs = b.inputs else a.inputs.map TxIn.bare = b.inputs.map TxIn.bare)
    ∧ a.outputs = b.outputs
    ∧ (if full then a.execute = b.execute else a.execute.map Op.bare = b.execute.map Op.bare)
    ∧ a.deploy = b.deploy
    ∧ (full = true → a.staticCost = b.staticCost ∧ a.solutions.length = b.solutions.length
        ∧ encAll (fun s => encBytes (E.H (encSol E s))) a.solutions
            ++ (fld b!"exec_result" ++ encBytes (hashOr E (encResult E) a.execResult)) =
          encAll (fun s => encBytes (E.H (encSol E s))) b.solutions
            ++ (fld b!"exec_result" ++ encBytes (hashOr E (encResult E) b.execResult))) := by
  obtain ⟨a1, a2, a3, a4, a5, a6, a7, a8, a9, a10, a11, a12, a13, a14, a15⟩ := a
  obtain ⟨b1, b2, b3, b4, b5, b6, b7, b8, b9, b10, b11, b12, b13, b14, b15⟩ := b
  obtain ⟨h1, h2, h3, h4, h5, h6, h7, h8, h9, h10, h11, ⟨h12, h12'⟩, ⟨h13, h13'⟩, h14, h15⟩ := ha
  obtain ⟨g1, g2, g3, g4, g5, g6, g7, g8, g9, g10, g11, ⟨g12, g12'⟩, ⟨g13, g13'⟩, g14, g15⟩ := hb
  delta hashSerialize at h
  dsimp only at *
  simp only [List.append_assoc] at h
  cut h; cut h
  obtain ⟨e1, h⟩ := pf_U _ _ _ _ h1 g1 h
  cut h
  obtain ⟨e2, h⟩ := pf_U _ _ _ _ h2 g2 h
  cut h
  obtain ⟨e3, h⟩ := pf_U _ _ _ _ h3 g3 h
  cut h
  obtain ⟨e4, h⟩ := pf_U _ _ _ _ h5 g5 h
  cut h
  obtain ⟨e5, h⟩ := pf_U _ _ _ _ h6 g6 h
  cut h
  obtain ⟨e6, h⟩ := pf_U _ _ _ _ h7 g7 h
  cut h
  obtain ⟨e7, h⟩ := pf_Str _ _ _ _ h8 g8 h
  cut h
  obtain ⟨e8, h⟩ := pf_Opt pf_Bytes _ _ _ _ h9 g9 h
  cut h
  obtain ⟨e9, h⟩ := inputs_pf full _ _ _ _ h10 g10 h
  cut h
  obtain ⟨e10, h⟩ := pf_Vec pf_TxOut _ _ _ _ h11 g11 h
  cut h
  rw [u32_of_lt h12, u32_of_lt g12] at h
  obtain ⟨el, h⟩ := pf_U _ _ _ _ (by unfold U64; omega) (by unfold U64; omega) h
  obtain ⟨e11, h⟩ := encAll_hash hE _ _ hd _ _ _ _ hxo hyo el h
  have eop : if full then a12 = b12 else a12.map Op.bare = b12.map Op.bare := by
    subst e1
    exact ops_inj E hE full a1 hv a12 b12 h12' g12' e11
  cut h
  obtain ⟨e12, h⟩ := pf_Bytes _ _ _ _ (Sz_hashOr hE _ _) (Sz_hashOr hE _ _) h
  have edep : a14 = b14 := by
    subst e1
    rcases hashOr_inj _ _ hd a14 b14 hxc hyc e12 with ⟨k1, k2⟩ | ⟨x, y, k1, k2, k3⟩
    · rw [k1, k2]
    · subst k1 k2
      rw [C33_contract_injective E hE a1 hv x y h14 g14 k3]
  refine ⟨e1, e2, e3, e4, e5, e6, e7, e8, e9, e10, eop, edep, ?_⟩
  intro hf
  subst hf
  simp only [if_true] at h
  cut h
  obtain ⟨e13, h⟩ := pf_U _ _ _ _ h4 g4 h
  cut h
  rw [u32_of_lt h13, u32_of_lt g13] at h
  obtain ⟨e14, h⟩ := pf_U _ _ _ _ (by unfold U64; omega) (by unfold U64; omega) h
  exact ⟨e13, e14, h⟩

/-- C34, second half. Two revision 1 transactions with the same id agree in everything but
    witnesses, unless the hash function collides (or hits the zero hash) on the strings hashed for
    these two transactions. -/
theorem C34_id_binds (E : Env) (hE : E.Good) (a b : Tx) (ha : a.Ok) (hb : b.Ok)
    (hv : 1 ≤ a.version) (hd : Distinguishes E.H (idInputs E a) (idInputs E b))
    (h : calcHash E false a = calcHash E false b) : a.bare = b.bare := by
  have hs := hd.inj (hashSerialize E false a) (List.mem_cons_self ..)
    (hashSerialize E false b) (List.mem_cons_self ..) h
  have := hashSerialize_fields E hE false a b ha hb _ _ hd
    (fun x hx => List.mem_cons_of_mem _ (List.mem_append_left _ (List.mem_map_of_mem hx)))
    (fun x hx => List.mem_cons_of_mem _ (List.mem_append_left _ (List.mem_map_of_mem hx)))
    (fun x hx => List.mem_cons_of_mem _ (List.mem_append_right _
      (List.mem_map_of_mem (Option.mem_toList.2 hx))))
    (fun x hx => List.mem_cons_of_mem _ (List.mem_append_right _
      (List.mem_map_of_mem (Option.mem_toList.2 hx)))) hv hs
  obtain ⟨e1, e2, e3, e4, e5, e6, e7, e8, e9, e10, e11, e12, -⟩ := this
  simp only [Bool.false_eq_true, if_false] at e9 e11
  obtain ⟨a1, a2, a3, a4, a5, a6, a7, a8, a9, a10, a11, a12, a13, a14, a15⟩ := a
  obtain ⟨b1, b2, b3, b4, b5, b6, b7, b8, b9, b10, b11, b12, b13, b14, b15⟩ := b
  simp only at e1 e2 e3 e4 e5 e6 e7 e8 e9 e10 e11 e12
  simp only [Tx.bare, e1, e2, e3, e4, e5, e6, e7, e8, e9, e10, e11, e12]

theorem map_encSol_inj (E : Env) (hE : E.Good) : ∀ (l l' : List Solution),
    (∀ x ∈ l, SolOk x) → (∀ x ∈ l', SolOk x) →
    Distinguishes E.H (l.flatMap (solInputs E)) (l'.flatMap (solInputs E)) →
    l.map (encSol E) = l'.map (encSol E) → l = l'
  | [], [], _, _, _, _ => rfl
  | [], _ :: _, _, _, _, h => by simp at h
  | _ :: _, [], _, _, _, h => by simp at h
  | a :: l, b :: l', ha, hb, hd, h => by
    simp only [List.map_cons, List.cons.injEq] at h
    have h1 := (encSol_pf E hE a b [] [] (ha a (by simp)) (hb b (by simp))
      (hd.mono (fun x hx => List.mem_flatMap.2 ⟨a, by simp, hx⟩)
        (fun x hx => List.mem_flatMap.2 ⟨b, by simp, hx⟩)) (by rw [h.1])).1
    have h2 := map_encSol_inj E hE l l' (fun x hx => ha x (by simp [hx]))
      (fun x hx => hb x (by simp [hx]))
      (hd.mono (fun x hx => by
          obtain ⟨s, hs, hx⟩ := List.mem_flatMap.1 hx
          exact List.mem_flatMap.2 ⟨s, by simp [hs], hx⟩)
        (fun x hx => by
          obtain ⟨s, hs, hx⟩ := List.mem_flatMap.1 hx
          exact List.mem_flatMap.2 ⟨s, by simp [hs], hx⟩)) h.2
    rw [h1, h2]

/-- C34, content hash. Two revision 1 transactions with the same content hash are equal, up to
    solution references and flags of the inputs recorded in the execution result, unless the hash
    function collides on the strings hashed for these two transactions. -/
theorem C34_content_binds (E : Env) (hE : E.Good) (a b : Tx) (ha : a.Ok) (hb : b.Ok)
    (hv : 1 ≤ a.version) (hd : Distinguishes E.H (contentInputs E a) (contentInputs E b))
    (h : calcHash E true a = calcHash E true b) :
    { a with execResult := a.execResult.map ExecResult.bareInputs } =
      { b with execResult := b.execResult.map ExecResult.bareInputs } := by
  have hs := hd.inj (hashSerialize E true a) (List.mem_cons_self ..)
    (hashSerialize E true b) (List.mem_cons_self ..) h
  have := hashSerialize_fields E hE true a b ha hb _ _ hd
    (fun x hx => by simp only [contentInputs, List.mem_cons, List.mem_append]
                    exact Or.inr (Or.inl (Or.inl (Or.inl (Or.inl (List.mem_map_of_mem hx))))))
    (fun x hx => by simp only [contentInputs, List.mem_cons, List.mem_append]
                    exact Or.inr (Or.inl (Or.inl (Or.inl (Or.inl (List.mem_map_of_mem hx))))))
    (fun x hx => by simp only [contentInputs, List.mem_cons, List.mem_append]
                    exact Or.inr (Or.inl (Or.inl (Or.inl (Or.inr
                      (List.mem_map_of_mem (Option.mem_toList.2 hx)))))))
    (fun x hx => by simp only [contentInputs, List.mem_cons, List.mem_append]
                    exact Or.inr (Or.inl (Or.inl (Or.inl (Or.inr
                      (List.mem_map_of_mem (Option.mem_toList.2 hx))))))) hv hs
  obtain ⟨e1, e2, e3, e4, e5, e6, e7, e8, e9, e10, e11, e12, e13⟩ := this
  obtain ⟨e13, e14, e15⟩ := e13 rfl
  simp only [if_true] at e9 e11
  have memSol : ∀ t : Tx, ∀ x ∈ t.solutions.flatMap (solInputs E), x ∈ contentInputs E t := by
    intro t x hx
    simp only [contentInputs, List.mem_cons, List.mem_append]
    exact Or.inr (Or.inl (Or.inl (Or.inr hx)))
  obtain ⟨e16, e17⟩ := encAll_hash hE (encSol E) (encSol E) hd a.solutions b.solutions _ _
    (fun x hx => memSol a _ (List.mem_flatMap.2 ⟨x, hx, encSol_mem E x⟩))
    (fun x hx => memSol b _ (List.mem_flatMap.2 ⟨x, hx, encSol_mem E x⟩)) e14 e15
  have esol := map_encSol_inj E hE _ _ ha.2.2.2.2.2.2.2.2.2.2.2.2.1.2
    hb.2.2.2.2.2.2.2.2.2.2.2.2.1.2 (hd.mono (memSol a) (memSol b)) e16
  have e18 := List.append_cancel_left e17
  have e19 : encBytes (hashOr E (encResult E) a.execResult) ++ []
      = encBytes (hashOr E (encResult E) b.execResult) ++ [] := by rw [e18]
  have e20 := (pf_Bytes _ _ _ _ (Sz_hashOr hE _ _) (Sz_hashOr hE _ _) e19).1
  have memRes : ∀ t : Tx, ∀ x ∈ t.execResult, encResult E x ∈ contentInputs E t := by
    intro t x hx
    simp only [contentInputs, List.mem_cons, List.mem_append]
    exact Or.inr (Or.inl (Or.inr (List.mem_map_of_mem (Option.mem_toList.2 hx))))
  have memErr : ∀ t : Tx, ∀ x, t.execResult = some x →
      ∀ y ∈ x.error.toList.map (encError E), y ∈ contentInputs E t := by
    intro t x hx y hy
    simp only [contentInputs, List.mem_cons, List.mem_append]
    refine Or.inr (Or.inr ?_)
    rw [hx]
    exact hy
  have eres : a.execResult.map ExecResult.bareInputs = b.execResult.map ExecResult.bareInputs := by
    rcases hashOr_inj _ _ hd a.execResult b.execResult (memRes a) (memRes b) e20
      with ⟨k1, k2⟩ | ⟨x, y, k1, k2, k3⟩
    · rw [k1, k2]
    · have hx : x.Ok := by
        have := ha.2.2.2.2.2.2.2.2.2.2.2.2.2.2; rw [k1] at this; exact this
      have hy : y.Ok := by
        have := hb.2.2.2.2.2.2.2.2.2.2.2.2.2.2; rw [k2] at this; exact this
      rw [k1, k2, Option.map_some, Option.map_some,
        encResult_inj E hE x y hx hy (hd.mono (memErr a x k1) (memErr b y k2)) k3]
  obtain ⟨a1, a2, a3, a4, a5, a6, a7, a8, a9, a10, a11, a12, a13, a14, a15⟩ := a
  obtain ⟨b1, b2, b3, b4, b5, b6, b7, b8, b9, b10, b11, b12, b13, b14, b15⟩ := b
  simp only at e1 e2 e3 e4 e5 e6 e7 e8 e9 e10 e11 e12 e13 esol eres
  simp only [e1, e2, e3, e4, e5, e6, e7, e8, e9, e10, e11, e12, e13, esol, eres]

/-- The exception is real: the flags of an input recorded in the execution result are not covered
    by the content hash. -/
theorem C34_result_flags_not_covered (E : Env) (t : Tx) (r : ExecResult) (x : TxIn) (f : Nat) :
    calcHash E true { t with execResult := some { r with inputs := [x] } } =
      calcHash E true { t with execResult := some { r with inputs := [{ x with flags := f }] } } := by
  rfl

/-! ### The hypotheses can be met -/

section Example

/-- A toy hash of 32 bytes: a polynomial modulo a power of two. -/
def toyHash (b : Bytes) : Bytes := le 32 (b.foldl (fun h x => (h * 257 + x + 1) % 2 ^ 256) 7)

theorem le_length : ∀ k n, (le k n).length = k
  | 0, _ => rfl
  | k + 1, n => by simp only [le, List.length_cons, le_length k]

def toyEnv : Env where
  th := ⟨1, 2, 3, 4, 5, 6, 7, 8, 9, 10, 11, 12, 13, 14, 15⟩
  isJson := fun _ => true
  H := toyHash

theorem toyEnv_good : toyEnv.Good where
  th :=
    { range := by unfold U64; decide
      ops := by decide
      contracts := by decide
      solutions := by decide }
  hlen := fun b => le_length 32 _

def exTx (memo : Option Bytes) (sols : List Solution) : Tx where
  version := 1
  expires := 100
  feeRatio := 1024
  staticCost := 5
  maxFee := 50
  note := 3
  nonce := 9
  network := [109]
  sender := some [1, 2, 3]
  inputs := [⟨⟨[1], [2], 10, none⟩, 0, 0⟩]
  outputs := [⟨[3], [2], 10, memo⟩]
  execute := [.execute 0 [4] 0 [5] [.ulong 7, .arr [.str [1], .null]] none]
  solutions := sols
  deploy := some (.pubKey 0 [8])
  execResult := none

/-- Two transactions with different memos: all hypotheses of `C34_id_binds` but the equality of the
    hashes hold, so the ids differ. -/
example : calcHash toyEnv false (exTx none []) ≠ calcHash toyEnv false (exTx (some [1]) []) := by
  decide +kernel

example : (exTx (some [1]) [.multiSig 0 [([1], .pubKey 0 [2] [3])] 1]).Ok := by
  simp [exTx, Tx.Ok, U64, U128, Sz, OptOk, VecOk, TxIn.Ok, TxIO.Ok, Op.Ok, VarOk, VarsOk, SolOk,
    SolEntriesOk, Contract.Ok]

instance (H : Bytes → Bytes) (xs ys : List Bytes) : Decidable (Distinguishes H xs ys) :=
  decidable_of_iff ((∀ x ∈ xs, ∀ y ∈ ys, H x = H y → x = y) ∧ (∀ x ∈ xs, H x ≠ zeroHash)
      ∧ (∀ y ∈ ys, H y ≠ zeroHash))
    ⟨fun h => ⟨h.1, h.2.1, h.2.2⟩, fun h => ⟨h.inj, h.left, h.right⟩⟩

example : Distinguishes toyEnv.H
    (contentInputs toyEnv (exTx none [.multiSig 0 [([1], .pubKey 0 [2] [3])] 1]))
    (contentInputs toyEnv (exTx (some [1]) [.pubKey 0 [2] [3]])) := by
  decide +kernel

/-- Same id, different witnesses. -/
example : calcHash toyEnv false (exTx none [.pubKey 0 [2] [3]])
      = calcHash toyEnv false (exTx none [])
    ∧ calcHash toyEnv true (exTx none [.pubKey 0 [2] [3]])
      ≠ calcHash toyEnv true (exTx none []) := by
  decide +kernel

end Example

end Verif.Codec
