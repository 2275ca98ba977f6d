import Verif.Contract.Sig
/-
  C32: who can satisfy a single-key or multi-signature contract.
-/
namespace Verif.Contract

variable {A PK Sg Id : Type} [DecidableEq A]

/-! ### Specification -/

/-- The key `pk` with signature `sg` appears in the solution, directly or one level down. -/
def Contains (s : Sol A PK Sg) (pk : PK) (sg : Sg) : Prop :=
  match s with
  | .pubKey p g => p = pk ∧ g = sg
  | .multiSig sols _ => ∃ a, (a, some (Sol.pubKey pk sg)) ∈ sols
  | .other => False

/-- The holder of the key behind address `a` signed this transaction, and the signature is in the
    solution. -/
def Signed (E : SigEnv A PK Sg Id) (txid : Id) (s : Sol A PK Sg) (a : A) : Prop :=
  ∃ pk sg, Contains s pk sg ∧ E.addrOf pk = a ∧ E.verify pk sg txid = true

/-- The keys of a `std::map` are distinct. -/
def KeysDistinct : Sol A PK Sg → Prop
  | .multiSig sols _ => (sols.map Prod.fst).Nodup
  | _ => True

/-! ### Helper lemmas -/

theorem multiLoop_sound (E : SigEnv A PK Sg Id) (owners : List A) (txid : Id) (v : Nat) :
    ∀ (sols : List (A × Option (Sol A PK Sg))) (c n : Nat), (sols.map Prod.fst).Nodup →
      multiLoop E owners txid v sols c = .ok n →
      ∃ L : List A, L.Nodup ∧ n = c + L.length ∧ (∀ a ∈ L, a ∈ sols.map Prod.fst) ∧
        ∀ a ∈ L, a ∈ owners ∧ ∃ pk sg, (a, some (Sol.pubKey pk sg)) ∈ sols ∧ E.addrOf pk = a
          ∧ E.verify pk sg txid = true
  | [], c, n, _, h => by
    refine ⟨[], List.nodup_nil, ?_, by simp, by simp⟩
    simpa [multiLoop] using h.symm
  | (o, s) :: rest, c, n, hnd, h => by
    rw [List.map_cons, List.nodup_cons] at hnd
    have lift : ∀ c', multiLoop E owners txid v rest c' = .ok n → c' = c → 
        ∃ L : List A, L.Nodup ∧ n = c + L.length ∧ (∀ a ∈ L, a ∈ ((o, s) :: rest).map Prod.fst) ∧
        ∀ a ∈ L, a ∈ owners ∧ ∃ pk sg, (a, some (Sol.pubKey pk sg)) ∈ (o, s) :: rest
          ∧ E.addrOf pk = a ∧ E.verify pk sg txid = true := by
      intro c' h' e
      subst e
      obtain ⟨L, h1, h2, h3, h4⟩ := multiLoop_sound E owners txid v rest c' n hnd.2 h'
      refine ⟨L, h1, h2, fun a ha => List.mem_cons_of_mem _ (h3 a ha), fun a ha => ?_⟩
      obtain ⟨k1, pk, sg, k2, k3⟩ := h4 a ha
      exact ⟨k1, pk, sg, List.mem_cons_of_mem _ k2, k3⟩
    unfold multiLoop at h
    split at h
    · cases h
    · split at h
      · rename_i hown
        split at h
        · rename_i pk sg
          split at h
          · cases h
          · rename_i haddr
            split at h
            · cases h
            · rename_i hver
              obtain ⟨L, h1, h2, h3, h4⟩ := multiLoop_sound E owners txid v rest (c + 1) n hnd.2 h
              refine ⟨o :: L, ?_, ?_, ?_, ?_⟩
              · rw [List.nodup_cons]
                exact ⟨fun hm => hnd.1 (h3 o hm), h1⟩
              · rw [List.length_cons]; omega
              · intro a ha
                rcases List.mem_cons.1 ha with rfl | ha
                · exact List.mem_cons_self
                · exact List.mem_cons_of_mem _ (h3 a ha)
              · intro a ha
                rcases List.mem_cons.1 ha with rfl | ha
                · refine ⟨hown, pk, sg, List.mem_cons_self, ?_, ?_⟩
                  · exact Classical.byContradiction fun hn => haddr hn
                  · exact (Bool.not_eq_false _).mp hver
                · obtain ⟨k1, pk', sg', k2, k3⟩ := h4 a ha
                  exact ⟨k1, pk', sg', List.mem_cons_of_mem _ k2, k3⟩
        · split at h
          · cases h
          · exact lift c h rfl
      · exact lift c h rfl

theorem multiLoop_complete (E : SigEnv A PK Sg Id) (owners : List A) (txid : Id) (v : Nat) :
    ∀ (sols : List (A × Option (Sol A PK Sg))) (c : Nat),
      (∀ x ∈ sols, x.1 ∈ owners ∧ ∃ pk sg, x.2 = some (.pubKey pk sg) ∧ E.addrOf pk = x.1
        ∧ E.verify pk sg txid = true) →
      multiLoop E owners txid v sols c = .ok (c + sols.length)
  | [], c, _ => rfl
  | (o, s) :: rest, c, h => by
    obtain ⟨h1, pk, sg, h2, h3, h4⟩ := h (o, s) List.mem_cons_self
    dsimp only at h1 h2 h3
    subst h2
    unfold multiLoop
    rw [if_neg (fun hc => hc.2 h1), if_pos h1]
    dsimp only
    rw [if_neg (fun hc => hc h3), if_neg (by rw [h4]; exact Bool.noConfusion),
      multiLoop_complete E owners txid v rest (c + 1)
        (fun x hx => h x (List.mem_cons_of_mem _ hx)), List.length_cons]
    congr 1; omega

theorem multiLoop_strict (E : SigEnv A PK Sg Id) (owners : List A) (txid : Id) (v : Nat)
    (hv : 1 ≤ v) :
    ∀ (sols : List (A × Option (Sol A PK Sg))) (c n : Nat),
      multiLoop E owners txid v sols c = .ok n →
      n = c + sols.length ∧
      ∀ x ∈ sols, x.1 ∈ owners ∧ ∃ pk sg, x.2 = some (.pubKey pk sg) ∧ E.addrOf pk = x.1
        ∧ E.verify pk sg txid = true
  | [], c, n, h => by
    refine ⟨?_, by simp⟩
    simpa [multiLoop] using h.symm
  | (o, s) :: rest, c, n, h => by
    unfold multiLoop at h
    split at h
    · cases h
    · rename_i hstrict
      split at h
      · rename_i hown
        split at h
        · rename_i pk sg
          split at h
          · cases h
          · rename_i haddr
            split at h
            · cases h
            · rename_i hver
              obtain ⟨k1, k2⟩ := multiLoop_strict E owners txid v hv rest (c + 1) n h
              refine ⟨by rw [List.length_cons]; omega, fun x hx => ?_⟩
              rcases List.mem_cons.1 hx with rfl | hx
              · exact ⟨hown, pk, sg, rfl, Classical.byContradiction fun hn => haddr hn,
                  (Bool.not_eq_false _).mp hver⟩
              · exact k2 x hx
        · cases h
      · rename_i hown
        exact absurd ⟨hv, hown⟩ hstrict

/-! ### C32 -/

/-- C32, single key: the contract is satisfied exactly by a valid signature of its own key. -/
theorem C32_single_key (E : SigEnv A PK Sg Id) (address : A) (s : Sol A PK Sg) (txid : Id) :
    pubKeyValidate E address (some s) txid = .ok () ↔
      ∃ pk sg, s = .pubKey pk sg ∧ E.addrOf pk = address ∧ E.verify pk sg txid = true := by
  constructor
  · intro h
    unfold pubKeyValidate at h
    split at h
    · rename_i pk sg heq
      rw [Res.chk_bind] at h
      refine ⟨pk, sg, Option.some.inj heq, h.1, ?_⟩
      have h2 := h.2
      unfold Res.chk at h2
      split at h2
      · assumption
      · cases h2
    · cases h
  · rintro ⟨pk, sg, rfl, h1, h2⟩
    simp [pubKeyValidate, Res.chk, h1, h2]

/-- C32. If the multi-signature contract accepts, then at least `num_required` different owners
    signed this very transaction. Holds for every transaction version. -/
theorem C32_enough_owners (E : SigEnv A PK Sg Id) (numRequired : Nat) (owners : List A)
    (s : Sol A PK Sg) (txid : Id) (v : Nat) (hmap : KeysDistinct s)
    (h : multiSigValidate E numRequired owners (some s) txid v = .ok ()) :
    ∃ L : List A, L.Nodup ∧ numRequired ≤ L.length ∧ ∀ a ∈ L, a ∈ owners ∧ Signed E txid s a := by
  unfold multiSigValidate at h
  split at h
  · rename_i pk sg heq
    have hs := Option.some.inj heq
    subst hs
    split at h
    · cases h
    · rename_i hreq
      split at h
      · rename_i hmem
        split at h
        · cases h
        · rename_i hver
          refine ⟨[E.addrOf pk], by simp, by simp; omega, ?_⟩
          intro a ha
          rw [List.mem_singleton] at ha
          subst ha
          exact ⟨hmem, pk, sg, ⟨rfl, rfl⟩, rfl, (Bool.not_eq_false _).mp hver⟩
      · cases h
  · rename_i sols req heq
    have hs := Option.some.inj heq
    subst hs
    split at h
    · cases h
    · split at h
      · rename_i n hn
        split at h
        · cases h
        · rename_i hlt
          obtain ⟨L, h1, h2, -, h4⟩ := multiLoop_sound E owners txid v sols 0 n hmap hn
          refine ⟨L, h1, by omega, fun a ha => ?_⟩
          obtain ⟨k1, pk, sg, k2, k3⟩ := h4 a ha
          exact ⟨k1, pk, sg, ⟨a, k2⟩, k3⟩
      · cases h
      · cases h
  · cases h

/-- A valid contract can therefore not be spent without any signature. -/
theorem C32_never_free (E : SigEnv A PK Sg Id) (numRequired : Nat) (owners : List A)
    (s : Sol A PK Sg) (txid : Id) (v : Nat) (hmap : KeysDistinct s)
    (hval : multiSigIsValid numRequired owners = true)
    (h : multiSigValidate E numRequired owners (some s) txid v = .ok ()) :
    ∃ a ∈ owners, Signed E txid s a := by
  obtain ⟨L, -, h2, h3⟩ := C32_enough_owners E numRequired owners s txid v hmap h
  simp only [multiSigIsValid, Bool.and_eq_true, decide_eq_true_eq] at hval
  cases L with
  | nil => simp at h2; omega
  | cons a L => exact ⟨a, h3 a List.mem_cons_self⟩

/-- C32, the other direction: a map of valid owner signatures that is large enough is accepted, by
    every transaction version. -/
theorem C32_signatures_suffice (E : SigEnv A PK Sg Id) (numRequired : Nat) (owners : List A)
    (sols : List (A × Option (Sol A PK Sg))) (txid : Id) (v : Nat)
    (hlen : numRequired ≤ sols.length)
    (hall : ∀ x ∈ sols, x.1 ∈ owners ∧ ∃ pk sg, x.2 = some (.pubKey pk sg) ∧ E.addrOf pk = x.1
      ∧ E.verify pk sg txid = true) :
    multiSigValidate E numRequired owners (some (.multiSig sols numRequired)) txid v = .ok () := by
  unfold multiSigValidate
  dsimp only
  rw [if_neg (fun h => h.2 rfl), multiLoop_complete E owners txid v sols 0 hall]
  dsimp only
  rw [if_neg (by omega)]

/-- C32, current transaction version: accepted exactly when every entry is a valid signature of an
    owner, there are enough of them, and the stated threshold is the contract's. In particular
    nobody can add junk entries to a signed solution. -/
theorem C32_exact (E : SigEnv A PK Sg Id) (numRequired : Nat) (owners : List A)
    (sols : List (A × Option (Sol A PK Sg))) (req : Nat) (txid : Id) (v : Nat) (hv : 1 ≤ v) :
    multiSigValidate E numRequired owners (some (.multiSig sols req)) txid v = .ok () ↔
      req = numRequired ∧ numRequired ≤ sols.length ∧
      ∀ x ∈ sols, x.1 ∈ owners ∧ ∃ pk sg, x.2 = some (.pubKey pk sg) ∧ E.addrOf pk = x.1
        ∧ E.verify pk sg txid = true := by
  constructor
  · intro h
    unfold multiSigValidate at h
    dsimp only at h
    split at h
    · cases h
    · rename_i hreq
      split at h
      · rename_i n hn
        obtain ⟨k1, k2⟩ := multiLoop_strict E owners txid v hv sols 0 n hn
        split at h
        · cases h
        · exact ⟨Classical.byContradiction fun hc => hreq ⟨hv, hc⟩, by omega, k2⟩
      · cases h
      · cases h
  · rintro ⟨rfl, h1, h2⟩
    exact C32_signatures_suffice E req owners sols txid v h1 h2

/-- In the old version a relayer can add entries of strangers: the solution is malleable. -/
theorem C32_version0_malleable (E : SigEnv A PK Sg Id) (numRequired : Nat) (owners : List A)
    (sols : List (A × Option (Sol A PK Sg))) (req : Nat) (txid : Id) (stranger : A)
    (hs : stranger ∉ owners) (x : Option (Sol A PK Sg)) :
    multiSigValidate E numRequired owners (some (.multiSig ((stranger, x) :: sols) req)) txid 0 =
      multiSigValidate E numRequired owners (some (.multiSig sols req)) txid 0 := by
  unfold multiSigValidate
  dsimp only
  rw [if_neg (by simp), if_neg (by simp)]
  conv => lhs; unfold multiLoop
  rw [if_neg (by simp), if_neg hs]

/-- Two of three: accepted with two good signatures, refused with one or with a repeated owner. -/
def exSigEnv : SigEnv Nat Nat Nat Nat := ⟨id, fun pk sg id => sg == pk + id⟩

example : multiSigValidate exSigEnv 2 [1, 2, 3]
      (some (.multiSig [(1, some (.pubKey 1 101)), (3, some (.pubKey 3 103))] 2)) 100 1 = .ok ()
    ∧ KeysDistinct (.multiSig [(1, some (.pubKey 1 101)), (3, some (.pubKey 3 103))] 2
        : Sol Nat Nat Nat)
    ∧ multiSigIsValid 2 [1, 2, 3] = true := by
  refine ⟨by decide, by simp [KeysDistinct], by decide⟩
example : multiSigValidate exSigEnv 2 [1, 2, 3]
    (some (.multiSig [(1, some (.pubKey 1 101))] 2)) 100 1 = .throw := by decide
example : multiSigValidate exSigEnv 2 [1, 2, 3]
    (some (.multiSig [(1, some (.pubKey 1 101)), (3, some (.pubKey 3 104))] 2)) 100 1 = .throw := by
  decide

end Verif.Contract
