import Verif.Time.PropsChallenge
import Verif.Time.PropsPoints
/-
  C111: what the proofs of a verified block are. C112: who is paid for the VDFs.
-/
namespace Verif.Time
variable {H A P : Type} [DecidableEq H]

/-- The hashes rise strictly. -/
def Rising (fn : Fns H) (sp : Space H P) (l : List P) : Prop :=
  l.Pairwise fun x y => fn.key (sp.hashOf x) < fn.key (sp.hashOf y)

theorem orderLoop_sound {fn : Fns H} {sp : Space H P} {ph : H}
    (hk : ∀ x y : H, fn.key x = fn.key y → x = y) : ∀ {l : List P} {prev : Nat} {set : List H},
    (∀ h ∈ set, fn.key h ≤ prev) → (set ≠ [] → ∃ h ∈ set, fn.key h = prev) →
    orderLoop fn sp ph l prev set = .ok () →
    Rising fn sp l ∧ (∀ x ∈ l, prev ≤ fn.key (sp.hashOf x) ∧ (set ≠ [] → prev < fn.key (sp.hashOf x))) ∧
      (set = [] → ∀ x, l.head? = some x → sp.hashOf x = ph)
  | [], prev, set, _, _, _ => ⟨List.Pairwise.nil, by simp, by simp⟩
  | x :: l, prev, set, h1, h2, e => by
    rw [orderLoop] at e
    obtain ⟨c1, e⟩ := Res.chk_bind.1 e
    obtain ⟨c2, e⟩ := Res.chk_bind.1 e
    obtain ⟨c3, e⟩ := Res.chk_bind.1 e
    have hx : set ≠ [] → prev < fn.key (sp.hashOf x) := by
      intro hs
      obtain ⟨h, hm, hp⟩ := h2 hs
      refine Nat.lt_of_le_of_ne (Nat.le_of_not_lt c1) fun hc => c3 ?_
      have : h = sp.hashOf x := hk _ _ (by rw [hp, hc])
      rw [← this]; exact hm
    have hle : prev ≤ fn.key (sp.hashOf x) := Nat.le_of_not_lt c1
    obtain ⟨i1, i2, _⟩ := orderLoop_sound hk (l := l) (prev := fn.key (sp.hashOf x))
      (set := sp.hashOf x :: set) (by
        intro h hm
        rcases List.mem_cons.1 hm with e | hm
        · rw [e]; exact Nat.le_refl _
        · exact Nat.le_trans (h1 h hm) hle) (fun _ => ⟨_, by simp, rfl⟩) e
    refine ⟨List.pairwise_cons.2 ⟨fun y hy => (i2 y hy).2 (by simp), i1⟩, ?_, ?_⟩
    · intro y hy
      rcases List.mem_cons.1 hy with e | hy
      · subst e; exact ⟨hle, hx⟩
      · have := (i2 y hy).2 (by simp)
        exact ⟨by omega, fun hs => by have := hx hs; omega⟩
    · intro hs y hy
      simp only [List.head?_cons, Option.some.injEq] at hy
      subst hy
      refine Decidable.byContradiction fun hc => c2 ⟨hs, fun e => hc e.symm⟩

theorem orderLoop_complete {fn : Fns H} {sp : Space H P} {ph : H} : ∀ {l : List P} {prev : Nat} {set : List H},
    (∀ h ∈ set, fn.key h ≤ prev) → Rising fn sp l →
    (∀ x ∈ l, prev ≤ fn.key (sp.hashOf x) ∧ (set ≠ [] → prev < fn.key (sp.hashOf x))) →
    (set = [] → ∀ x, l.head? = some x → sp.hashOf x = ph) → orderLoop fn sp ph l prev set = .ok ()
  | [], _, _, _, _, _, _ => rfl
  | x :: l, prev, set, h1, hr, hx, hh => by
    have hp := List.pairwise_cons.1 hr
    have hxx := hx x (by simp)
    rw [orderLoop]
    refine Res.chk_bind.2 ⟨Nat.not_lt.2 hxx.1, Res.chk_bind.2 ⟨fun ⟨a, b⟩ => b (hh a x rfl).symm,
      Res.chk_bind.2 ⟨fun hm => ?_, ?_⟩⟩⟩
    · have := h1 _ hm
      have hne : set ≠ [] := by intro e; subst e; simp at hm
      have := hxx.2 hne
      omega
    · refine orderLoop_complete ?_ hp.2 ?_ ?_
      · intro h hm
        rcases List.mem_cons.1 hm with e | hm
        · rw [e]; exact Nat.le_refl _
        · exact Nat.le_trans (h1 h hm) hxx.1
      · intro y hy
        have := hp.1 y hy
        exact ⟨Nat.le_of_lt this, fun _ => this⟩
      · intro e; cases e

/-- C111: a block that passes `verify_proof` on a chain. Its proofs are there and not too many, no two of
    them have the same hash, they come in rising order of hashes and `proof_hash` is the hash of the
    first, the least; every one of them answers the challenge, at the difficulty, that the chain has
    `challenge_delay` below the block's VDF height; its iterations are those asked of the time lords; and
    its own challenge continues the chain's, with the proof mixed in exactly at a space fork. -/
theorem C111_block {fn : Fns H} {sp : Space H P} {p : Params} {get : Store H A P}
    (hk : ∀ x y : H, fn.key x = fn.key y → x = y) (hd : p.base.timeDiffDivider ≠ 0)
    {b prev : Hdr H A P} {rest : List (Hdr H A P)} (hb : get b.prev = some prev)
    (hl : Line get (prev :: rest)) (h0 : b.height ≠ 0) (h1 : 1 ≤ b.vdfCount)
    (hw : prev.vdfHeight + b.vdfCount < 2 ^ 32) (hv : verifyProof fn sp p get b = .ok ()) :
    Line get (b :: prev :: rest) ∧
    (b.proof ≠ [] ∧ b.proof.length ≤ p.base.maxProofCount ∧ Rising fn sp b.proof ∧
      ∀ x, b.proof.head? = some x → sp.hashOf x = b.proofHash) ∧
    (∃ c, chalAt fn (b :: prev :: rest) ((b.vdfHeight : Int) - p.challengeDelay) = some c ∧
      ∀ x ∈ b.proof, sp.verify x c.1 c.2 b.vdfHeight = true) ∧
    b.vdfIters = itersFrom p (prev :: rest) prev.vdfHeight prev.vdfIters b.vdfCount ∧
    b.challenge = (if b.num.isSpaceFork then
        fn.infuse (iter fn.next b.vdfCount prev.challenge)
          (if b.height ≥ p.base.hardfork2Height then b.proofChain else b.proofHash)
      else iter fn.next b.vdfCount prev.challenge) ∧
    (b.num.isSpaceFork = false → b.spaceDiff = prev.spaceDiff) ∧
    (b.height ≥ p.base.hardfork2Height → b.proofChain =
      if prev.height ≥ p.base.hardfork2Height then fn.chain prev.proofChain b.proofHash else b.proofHash) := by
  unfold verifyProof at hv
  rw [hb] at hv
  simp only at hv
  obtain ⟨_, o1, hv⟩ := Res.bind_eq_ok.1 hv
  obtain ⟨o2, hv⟩ := Res.chk_bind.1 hv
  obtain ⟨it, o3, hv⟩ := Res.bind_eq_ok.1 hv
  obtain ⟨_, o4, hv⟩ := Res.bind_eq_ok.1 hv
  obtain ⟨o5, hv⟩ := Res.chk_bind.1 hv
  have hit := C108_expected hd hl b.vdfCount 0 prev.vdfIters rfl
  rw [o3, Nat.zero_add] at hit
  injection hit with hit
  unfold Chain.verifyProof at o4
  obtain ⟨v1, o4⟩ := Res.chk_bind.1 o4
  obtain ⟨v2, o4⟩ := Res.chk_bind.1 o4
  obtain ⟨v3, o4⟩ := Res.chk_bind.1 o4
  obtain ⟨v4, o4⟩ := Res.chk_bind.1 o4
  obtain ⟨v5, o4⟩ := Res.chk_bind.1 o4
  obtain ⟨v6, o4⟩ := Res.chk_bind.1 o4
  obtain ⟨_, _, o4⟩ := Res.bind_eq_ok.1 o4
  obtain ⟨v7, o4⟩ := Res.chk_bind.1 o4
  have hh : b.vdfHeight = prev.vdfHeight + b.vdfCount := by
    have : b.vdfHeight = u32 (prev.vdfHeight + b.vdfCount) := v2
    rw [this]; exact Nat.mod_eq_of_lt hw
  have hline : Line get (b :: prev :: rest) := ⟨hb, h0, h1, hh, hl⟩
  have hfork : b.num.isSpaceFork = (nextChallenge fn p prev b).2 := v7
  refine ⟨hline, ⟨?_, v4, ?_, ?_⟩, ?_, ?_, ?_, ?_, ?_⟩
  · intro e
    exact v3 (by simp [Hdr.full, e])
  · exact (orderLoop_sound hk (by simp) (by simp) o1).1
  · exact (orderLoop_sound hk (by simp) (by simp) o1).2.2 rfl
  · have hc := findChallenge_eq fn p hline (offset := 0) (Nat.zero_le _)
    cases hf : findChallenge fn p get b 0 with
    | none => rw [hf] at hv; cases hv
    | some c =>
      rw [hf] at hv hc
      simp only at hv
      refine ⟨c, ?_, ?_⟩
      · rw [hc]; congr 1
      · have : b.proof.all (fun x => sp.verify x c.1 c.2 b.vdfHeight) = true := by
          by_cases hcc : b.proof.all (fun x => sp.verify x c.1 c.2 b.vdfHeight) = true
          · exact hcc
          · rw [Res.chk, if_neg hcc] at hv; cases hv
        exact fun x hx => List.all_eq_true.1 this x hx
  · rw [← hit]; exact v5
  · rw [o5, hfork]
    rfl
  · intro hnf
    have hnf' : Chain.nextIsFork p.base _ (prev.full sp) (b.full sp) = false := v7.symm.trans hnf
    rw [hnf'] at o4
    simp only [Bool.false_eq_true, if_false] at o4
    exact (Res.chk_bind.1 o4).1
  · intro hg
    exact Decidable.byContradiction fun hc => o2 ⟨hc, hg⟩

/-! ### The proofs a node keeps -/

omit [DecidableEq H] in
theorem insertProof_mem {fn : Fns H} {sp : Space H P} {x y : P} : ∀ {l : ProofList P},
    y ∈ insertProof fn sp x l ↔ y = x ∨ y ∈ l
  | [] => by simp [insertProof]
  | z :: l => by
    rw [insertProof]
    by_cases hc : fn.key (sp.hashOf x) < fn.key (sp.hashOf z)
    · rw [if_pos hc]; simp
    · rw [if_neg hc, List.mem_cons, insertProof_mem, List.mem_cons]
      constructor
      · intro h; rcases h with h | h | h
        · exact .inr (.inl h)
        · exact .inl h
        · exact .inr (.inr h)
      · intro h; rcases h with h | h | h
        · exact .inr (.inl h)
        · exact .inl h
        · exact .inr (.inr h)

theorem insertProof_rising {fn : Fns H} {sp : Space H P} (hk : ∀ x y : H, fn.key x = fn.key y → x = y)
    {x : P} : ∀ {l : ProofList P}, Rising fn sp l → (∀ y ∈ l, sp.hashOf x ≠ sp.hashOf y) →
    Rising fn sp (insertProof fn sp x l)
  | [], _, _ => List.pairwise_singleton _ _
  | z :: l, hr, hn => by
    have hp := List.pairwise_cons.1 hr
    rw [insertProof]
    by_cases hc : fn.key (sp.hashOf x) < fn.key (sp.hashOf z)
    · rw [if_pos hc]
      refine List.pairwise_cons.2 ⟨fun y hy => ?_, hr⟩
      rcases List.mem_cons.1 hy with e | hy
      · subst e; exact hc
      · exact Nat.lt_trans hc (hp.1 y hy)
    · rw [if_neg hc]
      have hne : fn.key (sp.hashOf x) ≠ fn.key (sp.hashOf z) := fun e => hn z (by simp) (hk _ _ e)
      refine List.pairwise_cons.2 ⟨fun y hy => ?_, insertProof_rising hk hp.2 (fun y hy => hn y (by simp [hy]))⟩
      rcases insertProof_mem.1 hy with e | hy
      · subst e
        exact Nat.lt_of_le_of_ne (Nat.le_of_not_lt hc) (Ne.symm hne)
      · exact hp.1 y hy

/-- C111: whatever proofs arrive for a challenge, in whatever order and however often, the list a node
    keeps is in strictly rising order of hashes, has one proof of each hash that arrived and no other, and
    so its first is the best proof seen. -/
theorem C111_kept {fn : Fns H} {sp : Space H P} (hk : ∀ x y : H, fn.key x = fn.key y → x = y)
    (xs : List P) :
    Rising fn sp (xs.foldl (addProof fn sp) []) ∧
    (∀ y ∈ xs.foldl (addProof fn sp) [], y ∈ xs) ∧
    (∀ x ∈ xs, ∃ y ∈ xs.foldl (addProof fn sp) [], sp.hashOf y = sp.hashOf x) := by
  have gen : ∀ (xs : List P) (l : ProofList P), Rising fn sp l →
      Rising fn sp (xs.foldl (addProof fn sp) l) ∧
      (∀ y ∈ xs.foldl (addProof fn sp) l, y ∈ l ∨ y ∈ xs) ∧
      (∀ x, x ∈ xs ∨ x ∈ l → ∃ y ∈ xs.foldl (addProof fn sp) l, sp.hashOf y = sp.hashOf x) := by
    intro xs
    induction xs with
    | nil => intro l hl; exact ⟨hl, fun y hy => .inl hy, fun x hx => ⟨x, by simpa using hx, rfl⟩⟩
    | cons x xs ih =>
      intro l hl
      rw [List.foldl_cons]
      have hstep : Rising fn sp (addProof fn sp l x) ∧ (∀ y ∈ addProof fn sp l x, y = x ∨ y ∈ l) ∧
          (∀ z, z = x ∨ z ∈ l → ∃ y ∈ addProof fn sp l x, sp.hashOf y = sp.hashOf z) := by
        unfold addProof
        by_cases hc : l.any fun y => decide (sp.hashOf x = sp.hashOf y)
        · rw [if_pos hc]
          refine ⟨hl, fun y hy => .inr hy, ?_⟩
          intro z hz
          rcases hz with e | hz
          · subst e
            obtain ⟨y, hy, he⟩ := List.any_eq_true.1 hc
            exact ⟨y, hy, (of_decide_eq_true he).symm⟩
          · exact ⟨z, hz, rfl⟩
        · rw [if_neg hc]
          refine ⟨insertProof_rising hk hl ?_, fun y hy => insertProof_mem.1 hy, ?_⟩
          · intro y hy he
            exact hc (List.any_eq_true.2 ⟨y, hy, decide_eq_true he⟩)
          · intro z hz
            exact ⟨z, insertProof_mem.2 hz, rfl⟩
      obtain ⟨i1, i2, i3⟩ := ih _ hstep.1
      refine ⟨i1, ?_, ?_⟩
      · intro y hy
        rcases i2 y hy with h | h
        · rcases hstep.2.1 y h with h | h
          · exact .inr (by simp [h])
          · exact .inl h
        · exact .inr (by simp [h])
      · intro z hz
        by_cases hm : z ∈ xs
        · exact i3 z (.inl hm)
        · obtain ⟨y, hy, he⟩ := hstep.2.2 z (by
            rcases hz with h | h
            · rcases List.mem_cons.1 h with h | h
              · exact .inl h
              · exact absurd h hm
            · exact .inr h)
          obtain ⟨w, hw, he'⟩ := i3 y (.inr hy)
          exact ⟨w, hw, by rw [he', he]⟩
  obtain ⟨g1, g2, g3⟩ := gen xs [] List.Pairwise.nil
  exact ⟨g1, fun y hy => (g2 y hy).resolve_left (by simp), fun x hx => g3 x (.inl hx)⟩

/-- C111: and a block made from that list, cut to the number of proofs allowed, with the hash of the first,
    passes the checks on the order of proofs. -/
theorem C111_made {fn : Fns H} {sp : Space H P} (hk : ∀ x y : H, fn.key x = fn.key y → x = y)
    (xs : List P) (n : Nat) {x : P} (hx : (xs.foldl (addProof fn sp) []).head? = some x) :
    orderLoop fn sp (sp.hashOf x) ((xs.foldl (addProof fn sp) []).take n) 0 [] = .ok () := by
  refine orderLoop_complete (by simp) ((C111_kept hk xs).1.sublist (List.take_sublist _ _))
    (fun y hy => ⟨Nat.zero_le _, by simp⟩) ?_
  intro _ y hy
  cases n with
  | zero => simp at hy
  | succ n =>
    have : ((xs.foldl (addProof fn sp) []).take (n + 1)).head? = (xs.foldl (addProof fn sp) []).head? := by
      cases xs.foldl (addProof fn sp) [] <;> rfl
    rw [this, hx] at hy
    cases hy
    rfl

/-- Proofs in the example are their own hashes, and are good if the challenge divides them. -/
def exSpace : Space Nat Nat where
  hashOf x := x
  difficultyOf _ := 50
  verify x c d _ := x % c == 0 && d == 50

/-- A block on the example chain at VDF height 3 with two proofs for challenge 15. -/
def exBlock : Hdr Nat Nat Nat where
  hash := 1005
  prev := 1001
  challenge := 63
  vdfOutput := 600
  vdfRewardAddr := [1]
  proof := [45, 60]
  proofHash := 45
  proofChain := 0
  num := { ex1.num with
    height := 2, vdfHeight := 3, vdfCount := 1, vdfIters := 30, weight := 2000,
    totalWeight := 2000, spaceForkLen := 1, spaceForkProofs := 2 }

def exGetB : Store Nat Nat Nat := fun h => if h = 1005 then some exBlock else exGet h

/-- The block passes; with the proofs in the other order, a proof twice, the wrong `proof_hash`, a proof for
    another challenge, or other iterations it does not. Proofs that arrive as 60, 45, 60 are kept as 45, 60. -/
theorem ex111 :
    verifyProof exFns exSpace exParams exGetB exBlock = .ok () ∧
    verifyProof exFns exSpace exParams exGetB { exBlock with proof := [60, 45], proofHash := 60 } = .throw ∧
    verifyProof exFns exSpace exParams exGetB { exBlock with proof := [45, 45] } = .throw ∧
    verifyProof exFns exSpace exParams exGetB { exBlock with proofHash := 60 } = .throw ∧
    verifyProof exFns exSpace exParams exGetB { exBlock with proof := [45, 62] } = .throw ∧
    verifyProof exFns exSpace exParams exGetB
      { exBlock with num := { exBlock.num with vdfIters := 31 } } = .throw ∧
    [60, 45, 60].foldl (addProof exFns exSpace) [] = [45, 60] := by decide +kernel

/-! ### C112 -/

variable [DecidableEq A]

theorem winnerLoop_spec {keyOf : A → Nat} {named : List A} : ∀ {l : List A} {best : Option A × Nat × Nat},
    (∀ a ∈ l, 0 < named.count a) →
    (best = (none, 0, 0) ∨ ∃ a, best = (some a, named.count a, keyOf a) ∧ 0 < named.count a) →
    ((winnerLoop keyOf named l best).1 = none → l = [] ∧ best.1 = none) ∧
    ∀ w, (winnerLoop keyOf named l best).1 = some w → (w ∈ l ∨ best.1 = some w) ∧
      ∀ a, a ∈ l ∨ best.1 = some a → named.count a < named.count w ∨
        (named.count a = named.count w ∧ keyOf w ≤ keyOf a)
  | [], best, _, hb => by
    refine ⟨fun h => ⟨rfl, h⟩, fun w hw => ⟨.inr hw, fun a ha => ?_⟩⟩
    rcases ha with ha | ha
    · simp at ha
    · rw [show (winnerLoop keyOf named [] best) = best from rfl] at hw
      rw [ha] at hw
      cases hw
      exact .inr ⟨rfl, Nat.le_refl _⟩
  | x :: l, best, hc, hb => by
    have hx := hc x (by simp)
    rw [winnerLoop]
    by_cases hn : named.count x > best.2.1 ∨ (named.count x = best.2.1 ∧ keyOf x < best.2.2)
    · rw [if_pos hn]
      obtain ⟨i1, i2⟩ := winnerLoop_spec (keyOf := keyOf) (named := named) (l := l)
        (best := (some x, named.count x, keyOf x)) (fun a ha => hc a (by simp [ha])) (.inr ⟨x, rfl, hx⟩)
      refine ⟨fun h => ?_, fun w hw => ?_⟩
      · have := (i1 h).2; cases this
      · obtain ⟨j1, j2⟩ := i2 w hw
        refine ⟨?_, fun a ha => ?_⟩
        · rcases j1 with h | h
          · exact .inl (by simp [h])
          · cases h; exact .inl (by simp)
        · rcases ha with ha | ha
          · rcases List.mem_cons.1 ha with e | ha
            · subst e; exact j2 a (.inr rfl)
            · exact j2 a (.inl ha)
          · -- the former best is not better than `x`
            have hx2 := j2 x (.inr rfl)
            rcases hb with e | ⟨a', e, _⟩
            · rw [e] at ha; cases ha
            · rw [e] at ha hn
              injection ha with ha
              subst ha
              simp only at hn
              omega
    · rw [if_neg hn]
      obtain ⟨i1, i2⟩ := winnerLoop_spec (keyOf := keyOf) (named := named) (l := l) (best := best)
        (fun a ha => hc a (by simp [ha])) hb
      have hsome : ∃ a', best = (some a', named.count a', keyOf a') ∧ 0 < named.count a' := by
        rcases hb with e | h
        · rw [e] at hn; exact absurd (.inl hx) hn
        · exact h
      obtain ⟨a', e, _⟩ := hsome
      refine ⟨fun h => ?_, fun w hw => ?_⟩
      · have := (i1 h).2; rw [e] at this; cases this
      · obtain ⟨j1, j2⟩ := i2 w hw
        refine ⟨?_, fun a ha => ?_⟩
        · rcases j1 with h | h
          · exact .inl (by simp [h])
          · exact .inr h
        · have key : named.count x < named.count w ∨ (named.count x = named.count w ∧ keyOf w ≤ keyOf x) := by
            have := j2 a' (.inr (by rw [e]))
            rw [e] at hn
            simp only at hn
            omega
          rcases ha with ha | ha
          · rcases List.mem_cons.1 ha with e' | ha
            · subst e'; exact key
            · exact j2 a (.inl ha)
          · exact j2 a (.inr ha)

omit [DecidableEq H] in
/-- C112: the VDF reward goes to an address that the last `interval` blocks before the block name most
    often, and among those with equally many to one with the least hash; to nobody exactly if they name
    none. `order` is the order of a map: each address once. -/
theorem C112_winner {get : Store H A P} {interval : Nat} {keyOf : H → A → Nat} {order : List A → List A}
    (ho : ∀ l a, a ∈ order l ↔ a ∈ l) {b : Hdr H A P} :
    (vdfWinner get interval keyOf order b = none ↔ (namedBy get interval b).1 = []) ∧
    ∀ w, vdfWinner get interval keyOf order b = some w → w ∈ (namedBy get interval b).1 ∧
      ∀ a ∈ (namedBy get interval b).1,
        (namedBy get interval b).1.count a < (namedBy get interval b).1.count w ∨
        ((namedBy get interval b).1.count a = (namedBy get interval b).1.count w ∧
          keyOf (namedBy get interval b).2.proofHash w ≤ keyOf (namedBy get interval b).2.proofHash a) := by
  have hpos : ∀ a ∈ order (namedBy get interval b).1, 0 < (namedBy get interval b).1.count a := by
    intro a ha
    exact List.count_pos_iff.2 ((ho _ a).1 ha)
  obtain ⟨h1, h2⟩ := winnerLoop_spec (keyOf := keyOf (namedBy get interval b).2.proofHash)
    (named := (namedBy get interval b).1) (best := (none, 0, 0)) hpos (.inl rfl)
  refine ⟨⟨fun h => ?_, fun h => ?_⟩, fun w hw => ?_⟩
  · have := (h1 h).1
    refine List.eq_nil_iff_forall_not_mem.2 fun a ha => ?_
    have := (ho _ a).2 ha
    simp_all
  · unfold vdfWinner
    have e : order (namedBy get interval b).1 = [] := by
      refine List.eq_nil_iff_forall_not_mem.2 fun a ha => ?_
      have := (ho _ a).1 ha
      rw [h] at this
      simp at this
    dsimp only
    rw [e]
    rfl
  · obtain ⟨k1, k2⟩ := h2 w hw
    refine ⟨?_, fun a ha => k2 a (.inl ((ho _ a).2 ha))⟩
    rcases k1 with k | k
    · exact (ho _ w).1 k
    · cases k

omit [DecidableEq H] [DecidableEq A] in
/-- The addresses counted are those of the `n` blocks before the block, as the chain has them. -/
theorem C112_counted {get : Store H A P} : ∀ (n : Nat) {b : Hdr H A P} {rest : List (Hdr H A P)},
    Line get (b :: rest) → (namedBy get n b).1 = ((rest.take n).map (·.vdfRewardAddr)).flatten
  | 0, b, rest, _ => by simp [namedBy]
  | n + 1, b, [], h => by
    have h' : get b.prev = none ∧ b.height = 0 ∧ b.vdfHeight = 0 := h
    simp [namedBy, h'.1]
  | n + 1, b, q :: rest, h => by
    have ⟨h0, _, _, _, h3⟩ := h.step
    have := C112_counted n h3
    simp [namedBy, h0, this]

omit [DecidableEq A] in
/-- C112 fails where it matters: nothing that a node checks about the proofs of time and space of a block
    depends on the addresses that the block names for its VDFs. Whoever makes a block may name any. The
    only check left is their number (src/BlockHeader.cpp:29). -/
theorem C112_any_address (fn : Fns H) (sp : Space H P) (p : Params) (get : Store H A P)
    (tree : List (Point H A)) (b : Hdr H A P) (addr : List A) :
    findVdfPoints p get tree { b with vdfRewardAddr := addr } = findVdfPoints p get tree b ∧
    verifyProof fn sp p get { b with vdfRewardAddr := addr } = verifyProof fn sp p get b := by
  refine ⟨rfl, ?_⟩
  unfold verifyProof
  have h1 : findChallenge fn p get { b with vdfRewardAddr := addr } 0 = findChallenge fn p get b 0 := by
    unfold findChallenge
    by_cases hc : 0 > p.challengeDelay
    · omega
    · rw [if_neg hc, if_neg hc]
      dsimp only
      generalize p.challengeDelay - 0 = t
      cases t with
      | zero => rfl
      | succ t =>
        simp only [gather]
        cases hp : get b.prev with
        | none =>
          simp only
          by_cases h0 : b.height ≠ 0
          · rw [if_pos h0, if_pos h0]
          · rw [if_neg h0, if_neg h0]
            rfl
        | some q =>
          simp only
          cases gather get t q with
          | none => rfl
          | some l =>
            simp only [Option.map_some]
            rw [build_back, build_back]
            cases l <;> rfl
  rw [h1]
  rfl

/-- The example: the time lord of the only VDF is 1, and the block says so; it passes just as well saying
    666, and is then counted for 666. -/
theorem ex112 :
    findVdfPoints exParams exGet [exA] exBlock = .ok [exA] ∧ exA.rewardAddr = 1 ∧
    findVdfPoints exParams exGet [exA] { exBlock with vdfRewardAddr := [666] } = .ok [exA] ∧
    verifyProof exFns exSpace exParams exGetB { exBlock with vdfRewardAddr := [666] } = .ok () ∧
    vdfWinner (fun h => if h = 1005 then some { exBlock with vdfRewardAddr := [666] } else exGet h)
      2 (fun x y => x + y) id (exHdr 1006 1005 0 0 3 4 1 40 12) = some 666 := by decide +kernel

end Verif.Time
