/-
  C137: what the signature of a partial says.  C138: which partials a node approves.
-/
import Verif.Farm.Partial
import Verif.Farm.PropsDeliver

namespace Verif.Farm

open Verif.Pos Verif.Codec

/-! ### taking the text apart -/

/-- A decimal digit. -/
def isDig (c : Nat) : Bool := decide (48 ≤ c ∧ c ≤ 57)

theorem decB_digits : ∀ (f n : Nat), ∀ c ∈ decB f n, isDig c = true
  | 0, n, c, h => by
    unfold decB at h
    rw [List.mem_singleton] at h
    subst h
    exact decide_eq_true (by omega)
  | f + 1, n, c, h => by
    unfold decB at h
    by_cases k : n < 10
    · rw [if_pos k, List.mem_singleton] at h
      subst h
      exact decide_eq_true (by omega)
    · rw [if_neg k] at h
      rcases List.mem_append.1 h with h | h
      · exact decB_digits f _ c h
      · rw [List.mem_singleton] at h
        subst h
        exact decide_eq_true (by omega)

def value (l : List Nat) : Nat := l.foldl (fun n c => 10 * n + (c - 48)) 0

theorem decB_value : ∀ (f n : Nat), n < 10 ^ (f + 1) → value (decB f n) = n
  | 0, n, h => by
    unfold decB value
    simp only [List.foldl_cons, List.foldl_nil]
    omega
  | f + 1, n, h => by
    unfold decB
    by_cases k : n < 10
    · rw [if_pos k]
      unfold value
      simp only [List.foldl_cons, List.foldl_nil]
      omega
    · rw [if_neg k]
      have ih := decB_value f (n / 10) (by rw [Nat.pow_succ] at h; omega)
      unfold value at ih ⊢
      rw [List.foldl_append, ih]
      simp only [List.foldl_cons, List.foldl_nil]
      omega

theorem dec_inj {m n : Nat} (hm : m < 2 ^ 64) (hn : n < 2 ^ 64) (h : dec m = dec n) : m = n := by
  have a := decB_value 19 m (Nat.lt_trans hm (by decide))
  have b := decB_value 19 n (Nat.lt_trans hn (by decide))
  unfold dec at h
  rw [h] at a
  omega

theorem peel_all {P : Nat → Bool} {a a' d d' : List Nat} (h : a ++ d = a' ++ d') (hd : ∀ c ∈ d, P c = true)
    (hd' : ∀ c ∈ d', P c = true) {e e' : Nat} (ha : a.getLast? = some e) (he : P e = false)
    (ha' : a'.getLast? = some e') (he' : P e' = false) : a = a' ∧ d = d' := by
  have key : ∀ {a a' d d' : List Nat} {e : Nat} (k : List Nat), a' = a ++ k → d = k ++ d' → (∀ c ∈ d, P c = true) →
      a'.getLast? = some e → P e = false → k = [] := by
    intro a a' d d' e k h1 h2 h3 h4 h5
    cases hk : k.getLast? with
    | none => exact List.getLast?_eq_none_iff.1 hk
    | some z =>
      rw [h1, List.getLast?_append, hk] at h4
      cases h4
      have := h3 e (by rw [h2]; exact List.mem_append_left _ (List.mem_of_getLast? hk))
      rw [h5] at this
      cases this
  rcases List.append_eq_append_iff.1 h with ⟨k, k1, k2⟩ | ⟨k, k1, k2⟩
  · have := key k k1 k2 hd ha' he'
    subst this
    rw [List.append_nil] at k1
    exact ⟨k1.symm, k2⟩
  · have := key k k1 k2 hd' ha he
    subst this
    rw [List.append_nil] at k1
    exact ⟨k1, k2.symm⟩

theorem front_all {P : Nat → Bool} {a a' d d' : List Nat} (h : d ++ a = d' ++ a') (hd : ∀ c ∈ d, P c = true)
    (hd' : ∀ c ∈ d', P c = true) {e e' : Nat} (ha : a.head? = some e) (he : P e = false)
    (ha' : a'.head? = some e') (he' : P e' = false) : d = d' ∧ a = a' := by
  have h2 := congrArg List.reverse h
  rw [List.reverse_append, List.reverse_append] at h2
  have := peel_all h2 (fun c hc => hd c (List.mem_reverse.1 hc)) (fun c hc => hd' c (List.mem_reverse.1 hc))
    (by rw [List.getLast?_reverse]; exact ha) he (by rw [List.getLast?_reverse]; exact ha') he'
  exact ⟨List.reverse_inj.1 this.2, List.reverse_inj.1 this.1⟩

theorem peel_dec {a a' : List Nat} {m n : Nat} (h : a ++ dec m = a' ++ dec n) (hm : m < 2 ^ 64) (hn : n < 2 ^ 64)
    {e : Nat} (ha : a.getLast? = some e) (ha' : a'.getLast? = some e) (he : isDig e = false) : a = a' ∧ m = n := by
  have := peel_all h (decB_digits _ _) (decB_digits _ _) ha he ha' he
  exact ⟨this.1, dec_inj hm hn this.2⟩

theorem front_dec {a a' : List Nat} {m n : Nat} (h : dec m ++ a = dec n ++ a') (hm : m < 2 ^ 64) (hn : n < 2 ^ 64)
    {e : Nat} (ha : a.head? = some e) (ha' : a'.head? = some e) (he : isDig e = false) : m = n ∧ a = a' := by
  have := front_all h (decB_digits _ _) (decB_digits _ _) ha he ha' he
  exact ⟨dec_inj hm hn this.1, this.2⟩

/-- A digit or a comma. -/
def isXs (c : Nat) : Bool := isDig c || c == 44

theorem xsText_all : ∀ (l : List Nat), ∀ c ∈ xsText l, isXs c = true
  | [], c, h => absurd h List.not_mem_nil
  | x :: l, c, h => by
    unfold xsText at h
    rcases List.mem_append.1 h with h | h
    · rcases List.mem_append.1 h with h | h
      · unfold isXs; rw [decB_digits _ _ c h]; rfl
      · rw [List.mem_singleton] at h; subst h; rfl
    · exact xsText_all l c h

theorem dec_ne_nil (n : Nat) : dec n ≠ [] := by
  unfold dec decB
  by_cases k : n < 10
  · rw [if_pos k]; exact List.cons_ne_nil _ _
  · rw [if_neg k]; exact List.append_ne_nil_of_right_ne_nil _ (List.cons_ne_nil _ _)

theorem xsText_inj : ∀ {l l' : List Nat}, (∀ x ∈ l, x < 2 ^ 64) → (∀ x ∈ l', x < 2 ^ 64) → xsText l = xsText l' → l = l'
  | [], [], _, _, _ => rfl
  | [], x :: l', _, _, h => by
    unfold xsText at h
    rw [List.append_assoc] at h
    have := congrArg List.length h
    rw [List.length_append, List.length_append, List.length_nil] at this
    have : (b!",").length = 0 := by omega
    cases this
  | x :: l, [], _, _, h => by
    unfold xsText at h
    rw [List.append_assoc] at h
    have := congrArg List.length h
    rw [List.length_append, List.length_append, List.length_nil] at this
    have : (b!",").length = 0 := by omega
    cases this
  | x :: l, x' :: l', h1, h2, h => by
    unfold xsText at h
    rw [List.append_assoc, List.append_assoc] at h
    obtain ⟨a, b⟩ := front_dec h (h1 x List.mem_cons_self) (h2 x' List.mem_cons_self) (e := 44) rfl rfl rfl
    have b := List.append_cancel_left b
    rw [a, xsText_inj (fun y hy => h1 y (List.mem_cons_of_mem _ hy)) (fun y hy => h2 y (List.mem_cons_of_mem _ hy)) b]

/-! ### C137 -/

/-- What strings of addresses, hashes and keys look like (62 characters, 64 and 66 hex digits), and the sizes of the
    numbers. -/
structure TPart.Shape (t : TPart) : Prop where
  vdfHeight : t.vdfHeight < 2 ^ 64
  contract : t.contract.length = 62
  account : t.account.length = 62
  lookupTime : t.lookupTime < 2 ^ 64
  score : t.proof.score < 2 ^ 64
  plotId : t.proof.plotId.length = 64
  challenge : t.proof.challenge.length = 64
  difficulty : t.proof.difficulty < 2 ^ 64
  farmerKey : t.proof.farmerKey.length = 66
  ksize : t.proof.ksize < 2 ^ 64
  seed : t.proof.seed.length = 64
  xs : ∀ x ∈ t.proof.xs, x < 2 ^ 64
  nft : ∃ c, t.proof.contract = some c ∧ c.length = 62

theorem last_append (a : List Nat) {b : List Nat} {e : Nat} (h : b.getLast? = some e) : (a ++ b).getLast? = some e := by
  rw [List.getLast?_append, h]
  rfl

/-- The name of a harvester and the address of a pool, as they stand in the text. -/
def TPart.names (t : TPart) : List Nat := t.poolUrl ++ b!"harvester:" ++ t.harvester

/-- **C137.** For proofs of plot NFTs, the text that is signed determines everything in the partial but where the address
    of the pool ends and the name of the harvester begins. -/
theorem C137_signed_partial {t t' : TPart} (h : t.Shape) (h' : t'.Shape) (e : partText t = partText t') :
    t.vdfHeight = t'.vdfHeight ∧ t.contract = t'.contract ∧ t.account = t'.account ∧ t.names = t'.names ∧
    t.lookupTime = t'.lookupTime ∧ t.proof = t'.proof := by
  obtain ⟨c, hc, hcl⟩ := h.nft
  obtain ⟨c', hc', hcl'⟩ := h'.nft
  unfold partText nftText proofText typeName at e
  rw [hc, hc'] at e
  dsimp only at e
  simp only [← List.append_assoc] at e
  obtain ⟨e, e1⟩ := List.append_inj' e (by rw [hcl, hcl'])
  have e := List.append_cancel_right e
  obtain ⟨e, e2⟩ := peel_all (P := isXs) e (xsText_all _) (xsText_all _) (last_append _ (e := 58) rfl) rfl
    (last_append _ (e := 58) rfl) rfl
  have e2 := xsText_inj h.xs h'.xs e2
  have e := List.append_cancel_right e
  obtain ⟨e, e3⟩ := List.append_inj' e (by rw [h.seed, h'.seed])
  have e := List.append_cancel_right e
  obtain ⟨e, e4⟩ := peel_dec e h.ksize h'.ksize (last_append _ (e := 58) rfl) (last_append _ (e := 58) rfl) rfl
  have e := List.append_cancel_right e
  obtain ⟨e, e5⟩ := List.append_inj' e (by rw [h.farmerKey, h'.farmerKey])
  have e := List.append_cancel_right e
  obtain ⟨e, e6⟩ := peel_dec e h.difficulty h'.difficulty (last_append _ (e := 58) rfl) (last_append _ (e := 58) rfl) rfl
  have e := List.append_cancel_right e
  obtain ⟨e, e7⟩ := List.append_inj' e (by rw [h.challenge, h'.challenge])
  have e := List.append_cancel_right e
  obtain ⟨e, e8⟩ := List.append_inj' e (by rw [h.plotId, h'.plotId])
  have e := List.append_cancel_right e
  obtain ⟨e, e9⟩ := peel_dec e h.score h'.score (last_append _ (e := 58) rfl) (last_append _ (e := 58) rfl) rfl
  have e := List.append_cancel_right e
  have e := List.append_cancel_right e
  have e := List.append_cancel_right e
  have e := List.append_cancel_right e
  obtain ⟨e, e10⟩ := peel_dec e h.lookupTime h'.lookupTime (last_append _ (e := 58) rfl) (last_append _ (e := 58) rfl) rfl
  have e := List.append_cancel_right e
  simp only [List.append_assoc] at e
  have e := List.append_cancel_left e
  have e := List.append_cancel_left e
  have e := List.append_cancel_left e
  obtain ⟨e11, e⟩ := front_dec e h.vdfHeight h'.vdfHeight (e := 99) rfl rfl rfl
  have e := List.append_cancel_left e
  obtain ⟨e12, e⟩ := List.append_inj e (by rw [h.contract, h'.contract])
  have e := List.append_cancel_left e
  obtain ⟨e13, e⟩ := List.append_inj e (by rw [h.account, h'.account])
  have e := List.append_cancel_left e
  refine ⟨e11, e12, e13, ?_, e10, ?_⟩
  · unfold TPart.names
    rw [List.append_assoc, List.append_assoc]
    exact e
  · cases hp : t.proof with
    | mk a1 a2 a3 a4 a5 a6 a7 a8 a9 =>
    cases hp' : t'.proof with
    | mk b1 b2 b3 b4 b5 b6 b7 b8 b9 =>
    rw [hp] at hc e2 e3 e4 e5 e6 e7 e8 e9
    rw [hp'] at hc' e2 e3 e4 e5 e6 e7 e8 e9
    dsimp only at *
    subst e1 e2 e3 e4 e5 e6 e7 e8 e9
    rw [hc, hc']

theorem overlap : ∀ n, 0 < n → n < 10 → (b!"harvester:").take n ≠ (b!"harvester:").drop (10 - n) := by
  intro n h1 h2
  match n, h1, h2 with
  | 1, _, _ | 2, _, _ | 3, _, _ | 4, _, _ | 5, _, _ | 6, _, _ | 7, _, _ | 8, _, _ | 9, _, _ => decide

theorem names_inj {u u' h h' : List Nat} (e : u ++ b!"harvester:" ++ h = u' ++ b!"harvester:" ++ h')
    (hu : ¬ b!"harvester:" <:+: u) (hu' : ¬ b!"harvester:" <:+: u') : u = u' ∧ h = h' := by
  have key : ∀ {u u' h h' : List Nat} (k : List Nat), u' = u ++ k → b!"harvester:" ++ h = k ++ (b!"harvester:" ++ h') →
      ¬ b!"harvester:" <:+: u' → k = [] := by
    intro u u' h h' k h1 h2 h3
    by_cases hk : k = []
    · exact hk
    exfalso
    have hlen : (b!"harvester:").length = 10 := rfl
    have hpos : 0 < k.length := List.length_pos_iff.2 hk
    by_cases hl : 10 ≤ k.length
    · have hp : b!"harvester:" <+: k := by
        refine List.prefix_of_prefix_length_le (l₃ := b!"harvester:" ++ h) (List.prefix_append _ _) ?_ hl
        rw [h2]
        exact List.prefix_append _ _
      refine h3 ?_
      rw [h1]
      exact hp.isInfix.trans (List.suffix_append _ _).isInfix
    · have hp : k <+: b!"harvester:" := by
        refine List.prefix_of_prefix_length_le (l₃ := b!"harvester:" ++ h) ?_ (List.prefix_append _ _) ?_
        · rw [h2]; exact List.prefix_append _ _
        · rw [hlen]; omega
      obtain ⟨k', hk'⟩ := hp
      have hkl : k'.length = 10 - k.length := by
        have := congrArg List.length hk'
        rw [List.length_append, hlen] at this
        omega
      have h4 : k' ++ h = b!"harvester:" ++ h' := by
        rw [← hk'] at h2 ⊢
        rw [List.append_assoc k k' h] at h2
        exact List.append_cancel_left h2
      have hd : (b!"harvester:").drop k.length = k' := by rw [← hk', List.drop_left]
      have ht : (b!"harvester:").take (10 - k.length) = k' := by
        have := congrArg (List.take (10 - k.length)) h4
        rw [List.take_append_of_le_length (by omega), List.take_append_of_le_length (by rw [hlen]; omega),
          List.take_of_length_le (by omega)] at this
        exact this.symm
      have := overlap (10 - k.length) (by omega) (by omega)
      rw [ht, show 10 - (10 - k.length) = k.length by omega, hd] at this
      exact this rfl
  rw [List.append_assoc, List.append_assoc] at e
  rcases List.append_eq_append_iff.1 e with ⟨k, k1, k2⟩ | ⟨k, k1, k2⟩
  · have := key k k1 k2 hu'
    subst this
    rw [List.append_nil] at k1
    exact ⟨k1.symm, List.append_cancel_left k2⟩
  · have := key k k1 k2 hu
    subst this
    rw [List.append_nil] at k1
    exact ⟨k1, (List.append_cancel_left k2).symm⟩

/-- **C137.** If the addresses of the pools do not contain `harvester:` then the text determines the whole partial. -/
theorem C137_whole_partial {t t' : TPart} (h : t.Shape) (h' : t'.Shape) (hu : ¬ b!"harvester:" <:+: t.poolUrl)
    (hu' : ¬ b!"harvester:" <:+: t'.poolUrl) (e : partText t = partText t') : t = t' := by
  obtain ⟨a1, a2, a3, a4, a5, a6⟩ := C137_signed_partial h h' e
  obtain ⟨b1, b2⟩ := names_inj a4 hu hu'
  cases t
  cases t'
  dsimp only at *
  subst a1 a2 a3 a5 a6 b1 b2
  rfl

/-- **C137.** That the text always determines the partial is false: what stands behind `harvester:` in the address of a
    pool may as well belong to the name of the harvester, so a signature for the one is one for the other. -/
theorem C137_ambiguous (t : TPart) (x y z : List Nat) :
    partText { t with poolUrl := x, harvester := y ++ b!"harvester:" ++ z } =
    partText { t with poolUrl := x ++ b!"harvester:" ++ y, harvester := z } := by
  unfold partText
  simp only [List.append_assoc]

/-- **C137.** For a proof without contract the text does not contain the values of the proof, its seed or its size. -/
theorem C137_og (t : TPart) (hc : t.proof.contract = none) (k : Nat) (seed xs : List Nat) :
    partText { t with proof := { t.proof with ksize := k, seed := seed, xs := xs } } = partText t := by
  unfold partText nftText proofText typeName
  dsimp only
  rw [hc]

/-! ### C138 -/

variable {η σ κ : Type} [DecidableEq η]

/-- **C138.** A node approves a partial exactly if it has a proof, its hash is that of its text and is signed with the key
    of the plot, its height was reached, the proof answers the challenge of that height and is good enough for the
    difficulty it names, and, if a pool asks, the proof is for the contract named in the partial, which points to the
    pool. -/
theorem C138_approved {hs : Hashes η} {p : Params} {sort : List (List Nat) → List Entry → List Entry}
    {cr : Crypto η σ κ} {order : List Nat} {v : PoolView η} {t : Part η σ} {target : Option η} :
    verifyPartial sort hs p cr order v t target = .ok .none ↔
    v.synced = true ∧ ∃ pr s ch d, t.proof = some pr ∧ t.sig = some s ∧ t.hash = t.text ∧
      cr.verify pr.farmerKey t.text s = true ∧ t.vdfHeight ≤ v.vdfHeight ∧ v.find t.vdfHeight = some (ch, d) ∧
      verifyProof sort hs p pr order ch pr.difficulty t.vdfHeight = .ok () ∧
      (∀ a, target = some a → pr.contract = some t.contract ∧ v.target t.contract a = true) := by
  have ht : ∀ pr, checkTarget v t pr target = .none ↔
      ∀ a, target = some a → pr.contract = some t.contract ∧ v.target t.contract a = true := by
    intro pr
    unfold checkTarget
    cases target with
    | none => exact ⟨fun _ a h => (nomatch h), fun _ => rfl⟩
    | some a =>
      dsimp only
      cases hc : pr.contract with
      | none => exact ⟨fun h => (nomatch h), fun h => (nomatch (h a rfl).1)⟩
      | some c =>
        dsimp only
        by_cases h1 : t.contract = c
        · rw [if_neg (fun z => z h1)]
          subst h1
          cases h2 : v.target t.contract a with
          | false =>
            rw [if_pos rfl]
            refine ⟨fun h => (nomatch h), fun h => ?_⟩
            have := (h a rfl).2
            rw [h2] at this
            cases this
          | true =>
            rw [if_neg (by decide)]
            exact ⟨fun _ a' h => by cases h; exact ⟨rfl, h2⟩, fun _ => rfl⟩
        · rw [if_pos h1]
          refine ⟨fun h => (nomatch h), fun h => ?_⟩
          have := (h a rfl).1
          exact absurd (Option.some.inj this).symm h1
  have hv : ∀ pr (ch : η) d, verifyProof sort hs p pr order ch d t.vdfHeight = .ok () → pr.challenge = ch := by
    intro pr ch d h
    unfold verifyProof at h
    obtain ⟨_, h⟩ := Res.chk_bind.1 h
    obtain ⟨_, h⟩ := Res.chk_bind.1 h
    exact (Res.chk_bind.1 h).1
  unfold verifyPartial
  cases hsy : v.synced with
  | false => rw [if_pos rfl]; exact ⟨fun h => (nomatch h), fun h => (nomatch h.1)⟩
  | true =>
    rw [if_neg (by decide)]
    cases hp : t.proof with
    | none => exact ⟨fun h => (nomatch h), fun ⟨_, _, _, _, _, h, _⟩ => (nomatch h)⟩
    | some pr =>
      dsimp only
      by_cases hh : t.hash = t.text
      · rw [if_neg (fun z => z hh)]
        cases hsig : t.sig with
        | none => exact ⟨fun h => (nomatch h), fun ⟨_, _, _, _, _, _, h, _⟩ => (nomatch h)⟩
        | some s =>
          dsimp only
          rw [hh]
          cases hver : cr.verify pr.farmerKey t.text s with
          | false =>
            rw [if_pos rfl]
            refine ⟨fun h => (nomatch h), fun ⟨_, pr', s', _, _, h1, h2, _, h3, _⟩ => ?_⟩
            cases h1; cases h2
            rw [hver] at h3
            cases h3
          | true =>
            rw [if_neg (by decide)]
            by_cases hvh : v.vdfHeight < t.vdfHeight
            · rw [if_pos hvh]
              exact ⟨fun h => (nomatch h), fun ⟨_, _, _, _, _, _, _, _, _, h, _⟩ => absurd h (Nat.not_le.2 hvh)⟩
            · rw [if_neg hvh]
              unfold checkProof
              cases hf : v.find t.vdfHeight with
              | none => exact ⟨fun h => (nomatch h), fun ⟨_, _, _, _, _, _, _, _, _, _, h, _⟩ => (nomatch h)⟩
              | some x =>
                obtain ⟨ch, d⟩ := x
                dsimp only
                by_cases hch : pr.challenge = ch
                · rw [if_neg (fun z => z hch)]
                  cases hvp : verifyProof sort hs p pr order ch pr.difficulty t.vdfHeight with
                  | ok u =>
                    dsimp only
                    constructor
                    · intro h
                      exact ⟨rfl, pr, s, ch, d, rfl, rfl, rfl, hver, Nat.not_lt.1 hvh, rfl, hvp,
                        (ht pr).1 (Res.ok.inj h)⟩
                    · rintro ⟨_, pr', s', _, _, h1, _, _, _, _, _, _, h⟩
                      cases h1
                      rw [(ht pr).2 h]
                  | throw =>
                    refine ⟨fun h => (nomatch h), fun ⟨_, pr', _, ch', _, h1, _, _, _, _, h2, h3, _⟩ => ?_⟩
                    cases h1; cases h2
                    rw [hvp] at h3
                    cases h3
                  | ub =>
                    refine ⟨fun h => (nomatch h), fun ⟨_, pr', _, ch', _, h1, _, _, _, _, h2, h3, _⟩ => ?_⟩
                    cases h1; cases h2
                    rw [hvp] at h3
                    cases h3
                · rw [if_pos hch]
                  refine ⟨fun h => (nomatch h), fun ⟨_, pr', _, ch', _, h1, _, _, _, _, h2, h3, _⟩ => ?_⟩
                  cases h1; cases h2
                  exact absurd (hv _ _ _ h3) hch
      · rw [if_pos hh]
        exact ⟨fun h => (nomatch h), fun ⟨_, _, _, _, _, _, _, h, _⟩ => absurd h hh⟩

/-- The partial that a farmer sends for a proof, Farmer.cpp:270-279; `text` is the hash of the text. -/
def signPart (cr : Crypto η σ κ) (k : κ) (c : Challenge η) (contract account text : η) (pr : Proof η) : Part η σ :=
  { vdfHeight := c.vdfHeight, contract := contract, account := account, hash := text, text := text
    proof := some pr, sig := some (cr.sign k text) }

/-- **C138.** Every partial that comes from a harvester (C133) and is signed by its farmer is approved by every node in
    sync that reached the height and knows the challenge, for the pool that the contract of the plot points to. -/
theorem C138_honest {hs : Hashes η} {p : Params} {sort sort' : List (List Nat) → List Entry → List Entry} {pl : Plot η}
    {y : Nat → Nat} (hm : pl.Made hs sort p y) (h1 : IsSort (pl.fns hs).lt sort) (h2 : IsSort (pl.fns hs).lt sort')
    {c : Challenge η} {pool : Option Nat} {out : List (Answer η)} (h : pl.lookup hs sort p c pool = .ok out)
    {pr : Proof η} (hpr : .part pr ∈ out) {order : List Nat} (ho : IsOrder 0 pr.xs order) {cr : Crypto η σ κ}
    {keys : η → Option κ} (hw : cr.Works keys) {k : κ} (hk : keys pr.farmerKey = some k) {contract account text : η}
    (hc : pr.contract = some contract) {v : PoolView η} (hsy : v.synced = true) (hvh : c.vdfHeight ≤ v.vdfHeight)
    {d : Nat} (hf : v.find c.vdfHeight = some (c.challenge, d)) {target : η} (ht : v.target contract target = true) :
    verifyPartial sort' hs p cr order v (signPart cr k c contract account text pr) (some target) = .ok .none := by
  obtain ⟨d', _, ha⟩ := (C133_accepted hm h1 h2 h).2 pr hpr
  have hv := ha order ho
  have hd : pr.difficulty = d' := by
    have hv := hv
    unfold verifyProof at hv
    obtain ⟨_, hv⟩ := Res.chk_bind.1 hv
    obtain ⟨_, hv⟩ := Res.chk_bind.1 hv
    obtain ⟨_, hv⟩ := Res.chk_bind.1 hv
    exact (Res.chk_bind.1 hv).1
  rw [C138_approved]
  refine ⟨hsy, pr, _, c.challenge, d, rfl, rfl, rfl, hw _ _ hk _, hvh, hf, ?_, ?_⟩
  · rw [hd]; exact hv
  · intro a e
    cases e
    exact ⟨hc, ht⟩

/-! ### concrete cases -/

def exPart : TPart :=
  { vdfHeight := 1234567, contract := List.replicate 62 97, account := List.replicate 62 98
    poolUrl := b!"http://pool:8080", harvester := b!"rig1", lookupTime := 250
    proof := { score := 17, plotId := List.replicate 64 48, challenge := List.replicate 64 49, difficulty := 1000
               farmerKey := List.replicate 66 50, ksize := 32, seed := List.replicate 64 51, xs := [5, 77, 4000000000]
               contract := some (List.replicate 62 97) } }

/-- The case of C137 is not empty. -/
example : exPart.Shape ∧ ¬ b!"harvester:" <:+: exPart.poolUrl :=
  ⟨⟨by decide, rfl, rfl, by decide, by decide, rfl, rfl, by decide, rfl, by decide, rfl, by decide, _, rfl, rfl⟩,
    by decide⟩

example : dec 0 = b!"0" ∧ dec 1234567 = b!"1234567" ∧ xsText [5, 77] = b!"5,77," := by decide

/-- The case of C138 is not empty. -/
example : (match toyPlot.lookup toyHashes isort toyParams ⟨200, 0, 1000⟩ (some 10) with
    | .ok (.part pr :: _) =>
      decide (verifyPartial isort toyHashes toyParams toyCrypto exXs
        ⟨true, 201, fun h => if h = 200 then some (0, 1000) else none, fun c a => c == 3 && a == 9⟩
        (signPart toyCrypto 6 ⟨200, 0, 1000⟩ 3 8 12345 pr) (some 9) = .ok .none)
    | _ => false) = true := by
  decide +kernel

end Verif.Farm
