import Verif.Time.ChalLemmas
import Verif.Time.Examples
/-
  C107: which challenge belongs to which VDF height. C108: which block is infused where, and how many
  iterations a step takes.
-/
namespace Verif.Time
variable {H A P : Type}

/-! ### C107 -/

/-- C107: for every chain, the challenge and difficulty found from any of its blocks with an offset are
    those of the VDF height `challenge_delay` below the block's height plus the offset. -/
theorem C107_challenge {get : Store H A P} (fn : Fns H) (p : Params) {b : Hdr H A P}
    {rest : List (Hdr H A P)} (h : Line get (b :: rest)) {offset : Nat}
    (ho : offset ≤ p.challengeDelay + p.base.maxVdfCount) :
    findChallenge fn p get b offset =
      chalAt fn (b :: rest) ((b.vdfHeight : Int) + offset - p.challengeDelay) :=
  findChallenge_eq fn p h ho

/-- C107: further ahead there is no challenge. -/
theorem C107_limit {get : Store H A P} (fn : Fns H) (p : Params) (b : Hdr H A P) {offset : Nat}
    (ho : p.challengeDelay + p.base.maxVdfCount < offset) : findChallenge fn p get b offset = none := by
  unfold findChallenge
  rw [if_pos (by omega)]
  dsimp only
  rw [if_pos (by omega)]

theorem chalAt_some (fn : Fns H) : ∀ (line : List (Hdr H A P)) (h : Int), line ≠ [] →
    ∃ c, chalAt fn line h = some c
  | [], _, hn => absurd rfl hn
  | [g], h, _ => by
    rw [chalAt]
    by_cases hc : (g.vdfHeight : Int) ≤ h
    · rw [if_pos hc]; exact ⟨_, rfl⟩
    · rw [if_neg hc]; exact ⟨_, rfl⟩
  | b :: q :: rest, h, _ => by
    rw [chalAt]
    · by_cases hc : (b.vdfHeight : Int) ≤ h
      · rw [if_pos hc]; exact ⟨_, rfl⟩
      · rw [if_neg hc]; exact chalAt_some fn (q :: rest) h (by simp)
    · intro hh; cases hh

/-- C107: a proof of space that arrives for VDF height `v` is checked against the challenge of `v` less
    `challenge_delay` on the chain of the node's peak, whether or not there is a block at `v` yet. -/
theorem C107_height {get : Store H A P} (fn : Fns H) (p : Params) {peak : Hdr H A P}
    {rest : List (Hdr H A P)} (h : Line get (peak :: rest)) {v : Nat}
    (hc : ∀ x ∈ peak :: rest, x.vdfCount ≤ p.base.maxVdfCount)
    (h1 : v ≤ peak.vdfHeight + p.base.maxVdfCount) (h2 : peak.vdfHeight ≤ v + p.maxHistory) :
    ∃ c, findChallengeAt fn p get peak v = .ok (some c) ∧
      chalAt fn (peak :: rest) ((v : Int) - p.challengeDelay) = some c := by
  obtain ⟨c, hcc⟩ := chalAt_some fn (peak :: rest) ((v : Int) - p.challengeDelay) (by simp)
  refine ⟨c, ?_, hcc⟩
  unfold findChallengeAt
  rw [if_neg (by omega), walk_line _ h (by omega)]
  simp only [Res.bind_ok]
  -- the block found is the newest at or below `v`
  have key : ∀ {b : Hdr H A P} {l : List (Hdr H A P)}, Line get (b :: l) →
      (∀ x ∈ b :: l, x.vdfCount ≤ p.base.maxVdfCount) → (v ≤ b.vdfHeight + p.base.maxVdfCount) →
      ∃ x xs, (b :: l).dropWhile (fun b => decide (b.vdfHeight > v)) = x :: xs ∧ Line get (x :: xs) ∧
        x.vdfHeight ≤ v ∧ v - x.vdfHeight ≤ p.base.maxVdfCount ∧
        chalAt fn (b :: l) ((v : Int) - p.challengeDelay) =
          chalAt fn (x :: xs) ((v : Int) - p.challengeDelay) := by
    intro b l
    induction l generalizing b with
    | nil =>
      intro hl hm hv
      have h' : get b.prev = none ∧ b.height = 0 ∧ b.vdfHeight = 0 := hl
      rw [List.dropWhile_cons_of_neg (by simp [h'.2.2])]
      exact ⟨b, [], rfl, hl, by omega, by omega, rfl⟩
    | cons q l ih =>
      intro hl hm hv
      by_cases hgt : b.vdfHeight > v
      · rw [List.dropWhile_cons_of_pos (by simpa using hgt)]
        have ⟨_, _, s1, s2, s3⟩ := hl.step
        have hcnt := hm b (by simp)
        obtain ⟨x, xs, e, a1, a2, a3, a4⟩ := ih s3 (fun y hy => hm y (by simp at hy ⊢; exact .inr hy))
          (by omega)
        refine ⟨x, xs, e, a1, a2, a3, ?_⟩
        rw [← a4, chalAt]
        · rw [if_neg (by omega)]
        · intro hh; cases hh
      · rw [List.dropWhile_cons_of_neg (by simpa using hgt)]
        exact ⟨b, q :: l, rfl, hl, by omega, by omega, rfl⟩
  obtain ⟨x, xs, e, a1, a2, a3, a4⟩ := key h hc h1
  rw [e]
  simp only [List.head?_cons]
  rw [findChallenge_eq fn p a1 (by omega)]
  have e2 : (x.vdfHeight : Int) + (v - x.vdfHeight : Nat) - p.challengeDelay = (v : Int) - p.challengeDelay := by
    omega
  rw [e2, ← a4, hcc]

/-- C107: the challenge that a node gave to farmers for a VDF height, from a peak `i` heights below, is the
    one that a block at that height is verified against, unless a block in between came so early that its
    own challenge is already in force (at or below the height less `challenge_delay`). -/
theorem C107_agrees {get : Store H A P} (fn : Fns H) (p : Params) {b peak : Hdr H A P}
    {ext rest : List (Hdr H A P)} (h : Line get (b :: (ext ++ peak :: rest))) {i : Nat}
    (hi : b.vdfHeight = peak.vdfHeight + i) (hm : i ≤ p.challengeDelay + p.base.maxVdfCount)
    (hd : ∀ x ∈ b :: ext, (b.vdfHeight : Int) - p.challengeDelay < x.vdfHeight) :
    findChallenge fn p get b 0 = findChallenge fn p get peak i := by
  have hp : Line get (peak :: rest) := Line.tail (ext := b :: ext) h
  rw [findChallenge_eq fn p h (Nat.zero_le _), findChallenge_eq fn p hp hm]
  have e : (b.vdfHeight : Int) + (0 : Nat) - p.challengeDelay = (peak.vdfHeight : Int) + i - p.challengeDelay := by
    omega
  rw [e]
  have := chalAt_ext fn (b := peak) (rest := rest) (h := (peak.vdfHeight : Int) + i - p.challengeDelay)
    (ext := b :: ext) (by intro x hx; have := hd x hx; omega)
  exact this

/-- C107: in particular for every block directly on the peak that the challenge was asked from. -/
theorem C107_direct {get : Store H A P} (fn : Fns H) (p : Params) {b peak : Hdr H A P}
    {rest : List (Hdr H A P)} (h : Line get (b :: peak :: rest)) (h1 : 1 ≤ p.challengeDelay)
    (hm : b.vdfCount ≤ p.base.maxVdfCount) :
    findChallenge fn p get b 0 = findChallenge fn p get peak b.vdfCount := by
  have ⟨_, _, _, e, _⟩ := h.step
  refine C107_agrees (ext := []) fn p h e (by omega) ?_
  intro x hx
  simp only [List.mem_singleton] at hx
  subst hx
  omega

/-- C107: and up to `challenge_delay` heights ahead it is final: for every later chain through the peak. -/
theorem C107_final {get : Store H A P} (fn : Fns H) (p : Params) {b peak : Hdr H A P}
    {ext rest : List (Hdr H A P)} (h : Line get (b :: (ext ++ peak :: rest))) {i : Nat}
    (hi : b.vdfHeight = peak.vdfHeight + i) (hm : i ≤ p.challengeDelay) :
    findChallenge fn p get b 0 = findChallenge fn p get peak i := by
  refine C107_agrees fn p h hi (by omega) ?_
  have above : ∀ {l : List (Hdr H A P)}, Line get (l ++ peak :: rest) → ∀ x ∈ l, peak.vdfHeight < x.vdfHeight := by
    intro l
    induction l with
    | nil => intro _ x hx; simp at hx
    | cons y l ih =>
      intro hl x hx
      have hlt := Line.lt hl peak (by simp)
      rcases List.mem_cons.1 hx with e | hx
      · subst e; exact hlt
      · refine ih ?_ x hx
        cases l with
        | nil => simp at hx
        | cons z l => exact (Line.step (rest := l ++ peak :: rest) hl).2.2.2.2
  intro x hx
  have := above (l := b :: ext) h x hx
  omega

/-- C107: a block that is no space fork (its challenge is the hashed challenge of its predecessor and its
    difficulty the same) changes nothing for anyone, at any height. -/
theorem C107_continues (fn : Fns H) {get : Store H A P} {b prev : Hdr H A P} {rest : List (Hdr H A P)}
    (h : Line get (b :: prev :: rest)) (hc : b.challenge = iter fn.next b.vdfCount prev.challenge)
    (hs : b.spaceDiff = prev.spaceDiff) (v : Int) :
    chalAt fn (b :: prev :: rest) v = chalAt fn (prev :: rest) v := by
  have ⟨_, _, _, e, _⟩ := h.step
  have iter_add : ∀ (m n : Nat) (x : H), iter fn.next m (iter fn.next n x) = iter fn.next (m + n) x := by
    intro m n x
    induction m with
    | zero => simp [iter]
    | succ m ih =>
      have : m + 1 + n = (m + n) + 1 := by omega
      rw [this]
      show fn.next _ = fn.next _
      rw [ih]
  rw [chalAt]
  · by_cases hv : (b.vdfHeight : Int) ≤ v
    · rw [if_pos hv, hc, iter_add, hs]
      have e2 : (v - b.vdfHeight).toNat + b.vdfCount = (v - prev.vdfHeight).toNat := by omega
      rw [e2]
      cases rest with
      | nil => rw [chalAt, if_pos (by omega)]
      | cons y ys =>
        rw [chalAt]
        · rw [if_pos (by omega)]
        · intro hh; cases hh
    · rw [if_neg hv]
  · intro hh; cases hh

theorem mapM_some {α β : Type} {f : α → Option β} {g : α → β} : ∀ {l : List α}, (∀ x ∈ l, f x = some (g x)) →
    l.mapM f = some (l.map g)
  | [], _ => rfl
  | x :: l, h => by
    simp only [List.mapM_cons, h x (by simp), mapM_some (l := l) (fun y hy => h y (by simp [hy]))]
    rfl

/-- C107: the challenges that a node publishes for its peak: one for each of the next heights, `k + 1`
    above the peak, and each is the challenge of that height less `challenge_delay`. -/
theorem C107_published {get : Store H A P} (fn : Fns H) (p : Params) {peak : Hdr H A P}
    {rest : List (Hdr H A P)} (h : Line get (peak :: rest)) (points : Nat) :
    ∃ l, challenges fn p get peak points = some l ∧
      l.length = min (points + p.challengeDelay - 1) p.base.maxVdfCount ∧
      ∀ k (c : Challenge H), l[k]? = some c → c.vdfHeight = peak.vdfHeight + (k + 1) ∧
        chalAt fn (peak :: rest) ((c.vdfHeight : Int) - p.challengeDelay) = some (c.challenge, c.difficulty) := by
  have hex : ∀ k, k < min (points + p.challengeDelay - 1) p.base.maxVdfCount →
      ∃ c, findChallenge fn p get peak (k + 1) = some c := by
    intro k hk
    obtain ⟨c, hc⟩ := chalAt_some fn (peak :: rest)
      ((peak.vdfHeight : Int) + (k + 1 : Nat) - p.challengeDelay) (by simp)
    exact ⟨c, by rw [findChallenge_eq fn p h (by omega), hc]⟩
  let g : Nat → Challenge H := fun k =>
    match findChallenge fn p get peak (k + 1) with
    | some c => { vdfHeight := peak.vdfHeight + (k + 1), challenge := c.1, difficulty := c.2 }
    | none => { vdfHeight := 0, challenge := peak.challenge, difficulty := 0 }
  refine ⟨(List.range (min (points + p.challengeDelay - 1) p.base.maxVdfCount)).map g, ?_, by simp, ?_⟩
  · unfold challenges
    refine mapM_some ?_
    intro k hk
    obtain ⟨c, hc⟩ := hex k (List.mem_range.1 hk)
    simp only [g, hc, Option.map_some]
  · intro k c hk
    rw [List.getElem?_map] at hk
    by_cases hlt : k < min (points + p.challengeDelay - 1) p.base.maxVdfCount
    · rw [List.getElem?_range hlt] at hk
      simp only [Option.map_some, Option.some.injEq] at hk
      obtain ⟨c', hc'⟩ := hex k hlt
      have hg : g k = { vdfHeight := peak.vdfHeight + (k + 1), challenge := c'.1, difficulty := c'.2 } := by
        simp only [g, hc']
      rw [hg] at hk
      subst hk
      refine ⟨rfl, ?_⟩
      have := findChallenge_eq fn p h (offset := k + 1) (by omega)
      rw [hc'] at this
      rw [show (((peak.vdfHeight + (k + 1) : Nat) : Int) - p.challengeDelay) =
        (peak.vdfHeight : Int) + (k + 1 : Nat) - p.challengeDelay by omega, ← this]
    · rw [List.getElem?_eq_none (by simpa using hlt)] at hk
      cases hk

/-- The example chain: from the block at VDF height 2, with a delay of 2, offsets 0 to 4 give the challenge
    of the genesis block, that of the height in between, the block's own, and two to come; before the
    genesis block another hash is used. -/
theorem ex107 :
    findChallenge exFns exParams exGet ex1 0 = some (7, 50) ∧
    findChallenge exFns exParams exGet ex1 1 = some (15, 50) ∧
    findChallenge exFns exParams exGet ex1 2 = some (31, 51) ∧
    findChallenge exFns exParams exGet ex1 3 = some (63, 51) ∧
    findChallenge exFns exParams exGet exG 0 = some (2 * (2 * 7 + 100000) + 100000, 50) ∧
    findChallenge exFns exParams exGet ex2 0 = some (15, 50) ∧
    (challenges exFns exParams exGet ex1 1).map (·.map (·.challenge)) = some [15, 31] := by decide

/-! ### C108 -/

/-- C108: for every chain, the block infused `offset` heights after a block, and the iterations of that
    step, are those that belong to the VDF height: the newest block at least `infuse_delay` below it. -/
theorem C108_infusion {get : Store H A P} {p : Params} (hd : p.base.timeDiffDivider ≠ 0) {b : Hdr H A P}
    {rest : List (Hdr H A P)} (h : Line get (b :: rest)) (offset : Nat) :
    ∃ x, findInfusion p get b offset = .ok (some x) ∧
      stepFrom p (b :: rest) (b.vdfHeight + offset) = some x :=
  findInfusion_eq hd h offset

/-- C108: blocks less than `infuse_delay` below a height do not change the step from that height. -/
theorem C108_stable {p : Params} {line ext : List (Hdr H A P)} {v : Nat}
    (hx : ∀ x ∈ ext, v - p.infuseDelay < x.vdfHeight) :
    stepFrom p (ext ++ line) v = stepFrom p line v :=
  infusedAt_ext hx

/-- The iterations at VDF height `v + j`, starting with `n` at height `v` (64 bit). -/
def itersFrom (p : Params) (line : List (Hdr H A P)) (v n : Nat) : Nat → Nat
  | 0 => n
  | j + 1 => u64 (itersFrom p line v n j + ((stepFrom p line (v + j)).map (·.2)).getD 0)

theorem itersFrom_shift (p : Params) (line : List (Hdr H A P)) (v n c : Nat) : ∀ j,
    itersFrom p line v n (c + j) = itersFrom p line (v + c) (itersFrom p line v n c) j
  | 0 => rfl
  | j + 1 => by
    have e : c + (j + 1) = (c + j) + 1 := by omega
    rw [e]
    show u64 (_ + _) = u64 (_ + _)
    rw [itersFrom_shift p line v n c j, Nat.add_assoc]

theorem requestLoop_get {get : Store H A P} {p : Params} [DecidableEq H] (hd : p.base.timeDiffDivider ≠ 0)
    {peak : Hdr H A P} {rest : List (Hdr H A P)} (h : Line get (peak :: rest)) (points : Nat) (out : H) :
    ∀ (n i iters : Nat), iters = itersFrom p (peak :: rest) peak.vdfHeight peak.vdfIters i →
      ∃ l, requestLoop p get peak points out n i iters = .ok l ∧ l.length = n ∧
        ∀ k (r : Request H), l[k]? = some r → r.vdfHeight = peak.vdfHeight + (i + k) + 1 ∧
          r.start = itersFrom p (peak :: rest) peak.vdfHeight peak.vdfIters (i + k) ∧
          r.stop = itersFrom p (peak :: rest) peak.vdfHeight peak.vdfIters (i + k + 1) ∧
          (∃ n, stepFrom p (peak :: rest) (peak.vdfHeight + (i + k)) = some (r.infuse, n)) ∧
          r.input = if i + k = points then some out else none
  | 0, i, iters, _ => ⟨[], rfl, rfl, by simp⟩
  | n + 1, i, iters, he => by
    obtain ⟨x, h1, h2⟩ := getInfusion_eq hd h i
    have hnext : u64 (iters + x.2) = itersFrom p (peak :: rest) peak.vdfHeight peak.vdfIters (i + 1) := by
      rw [itersFrom, h2, ← he]; rfl
    obtain ⟨l, e, hl, hk⟩ := requestLoop_get hd h points out n (i + 1) (u64 (iters + x.2)) hnext
    rw [requestLoop, h1]
    simp only [Res.bind_ok, e]
    refine ⟨_, rfl, by simp [hl], ?_⟩
    intro k r hr
    cases k with
    | zero =>
      simp only [List.getElem?_cons_zero, Option.some.injEq] at hr
      subst hr
      exact ⟨by simp, he, hnext, ⟨x.2, h2⟩, by simp⟩
    | succ k =>
      simp only [List.getElem?_cons_succ] at hr
      have e1 : i + (k + 1) = i + 1 + k := by omega
      rw [e1]
      exact hk k r hr

/-- C108: what a node asks of time lords for its peak: one interval per VDF height, from the height after
    the peak on without gaps; each starts where the one before ends, infuses the block that belongs to the
    height and takes its iterations; the one after the last verified point also carries the output to
    start from. -/
theorem C108_requests {get : Store H A P} {p : Params} [DecidableEq H] (hd : p.base.timeDiffDivider ≠ 0)
    {peak : Hdr H A P} {rest : List (Hdr H A P)} (h : Line get (peak :: rest)) (points : List (Point H A)) :
    ∃ l, requests p get peak points = .ok l ∧
      l.length = min (points.length + p.infuseDelay) p.base.maxVdfCount + 1 ∧
      ∀ k (r : Request H), l[k]? = some r → r.vdfHeight = peak.vdfHeight + k + 1 ∧
        r.start = itersFrom p (peak :: rest) peak.vdfHeight peak.vdfIters k ∧
        r.stop = itersFrom p (peak :: rest) peak.vdfHeight peak.vdfIters (k + 1) ∧
        (∃ n, stepFrom p (peak :: rest) (peak.vdfHeight + k) = some (r.infuse, n)) ∧
        r.input = if k = points.length then
          some ((points.getLast?.map (·.output)).getD peak.vdfOutput) else none := by
  obtain ⟨l, e, hl, hk⟩ := requestLoop_get hd h points.length
    (match points.getLast? with
      | none => peak.vdfOutput
      | some q => q.output)
    (min (points.length + p.infuseDelay) p.base.maxVdfCount + 1) 0 peak.vdfIters rfl
  refine ⟨l, e, hl, ?_⟩
  intro k r hr
  have ⟨a1, a2, a3, a4, a5⟩ := hk k r hr
  simp only [Nat.zero_add] at a1 a2 a3 a4 a5
  refine ⟨a1, a2, a3, a4, ?_⟩
  rw [a5]
  cases points.getLast? <;> rfl

/-- C108: the iterations that block verification demands are those at the end of the requested interval
    for the block's VDF height. -/
theorem C108_expected {get : Store H A P} {p : Params} (hd : p.base.timeDiffDivider ≠ 0)
    {prev : Hdr H A P} {rest : List (Hdr H A P)} (h : Line get (prev :: rest)) :
    ∀ (n i t : Nat), t = itersFrom p (prev :: rest) prev.vdfHeight prev.vdfIters i →
      expectedIters p get prev n i t =
        .ok (itersFrom p (prev :: rest) prev.vdfHeight prev.vdfIters (i + n))
  | 0, i, t, he => by rw [expectedIters, he]; rfl
  | n + 1, i, t, he => by
    obtain ⟨x, h1, h2⟩ := getInfusion_eq hd h i
    rw [expectedIters, h1]
    simp only [Res.bind_ok]
    rw [C108_expected hd h n (i + 1)]
    · have e : i + 1 + n = i + (n + 1) := by omega
      rw [e]
    · rw [itersFrom, h2, ← he]; rfl

/-- C108: a new block on the peak does not disturb the time lords for the next `infuse_delay` heights:
    the intervals asked for from the new block are the same as those asked for from the old peak. -/
theorem C108_seamless {get : Store H A P} {p : Params} [DecidableEq H] (hd : p.base.timeDiffDivider ≠ 0)
    {b peak : Hdr H A P} {rest : List (Hdr H A P)} (h : Line get (b :: peak :: rest))
    (hi : b.vdfIters = itersFrom p (peak :: rest) peak.vdfHeight peak.vdfIters b.vdfCount)
    {pts pts' : List (Point H A)} {l l' : List (Request H)} (e : requests p get peak pts = .ok l)
    (e' : requests p get b pts' = .ok l') {j : Nat} (hj : j < p.infuseDelay) {r r' : Request H}
    (hr : l[b.vdfCount + j]? = some r) (hr' : l'[j]? = some r') :
    r'.vdfHeight = r.vdfHeight ∧ r'.start = r.start ∧ r'.stop = r.stop ∧ r'.infuse = r.infuse := by
  have ⟨_, _, hc, hv, hl⟩ := h.step
  obtain ⟨m, e1, _, hm⟩ := C108_requests hd hl pts
  obtain ⟨m', e1', _, hm'⟩ := C108_requests hd h pts'
  rw [e] at e1; cases e1
  rw [e'] at e1'; cases e1'
  have ⟨a1, a2, a3, ⟨na, a4⟩, _⟩ := hm _ r hr
  have ⟨b1, b2, b3, ⟨nb, b4⟩, _⟩ := hm' _ r' hr'
  have hstep : ∀ k, k < p.infuseDelay →
      stepFrom p (b :: peak :: rest) (b.vdfHeight + k) = stepFrom p (peak :: rest) (b.vdfHeight + k) := by
    intro k hk
    refine infusedAt_ext (ext := [b]) (line := peak :: rest) ?_
    intro x hx
    simp only [List.mem_singleton] at hx
    subst hx
    omega
  have hit : ∀ k, k ≤ p.infuseDelay →
      itersFrom p (b :: peak :: rest) b.vdfHeight b.vdfIters k =
        itersFrom p (peak :: rest) peak.vdfHeight peak.vdfIters (b.vdfCount + k) := by
    intro k
    induction k with
    | zero => intro _; exact hi
    | succ k ih =>
      intro hk
      have := ih (by omega)
      rw [itersFrom, this, hstep k (by omega)]
      have e2 : b.vdfCount + (k + 1) = (b.vdfCount + k) + 1 := by omega
      rw [e2, itersFrom]
      have e3 : peak.vdfHeight + (b.vdfCount + k) = b.vdfHeight + k := by omega
      rw [e3]
  refine ⟨by omega, ?_, ?_, ?_⟩
  · rw [b2, a2, hit j (by omega)]
  · rw [b3, a3, hit (j + 1) (by omega)]; rfl
  · rw [hstep j hj] at b4
    have e3 : peak.vdfHeight + (b.vdfCount + j) = b.vdfHeight + j := by omega
    rw [e3, b4] at a4
    injection a4 with a4
    injection a4

/-- The example chain: the steps after the block at VDF height 2 infuse the genesis block, then the block
    itself; time difficulty is taken one block earlier. The requests from the next block at height 3
    continue those. -/
theorem ex108 :
    findInfusion exParams exGet ex1 0 = .ok (some (1000, 10)) ∧
    findInfusion exParams exGet ex1 1 = .ok (some (1001, 10)) ∧
    findInfusion exParams exGet ex2 0 = .ok (some (1001, 10)) ∧
    findInfusion exParams exGet ex2 1 = .ok (some (1002, 12)) ∧
    requests exParams exGet ex1 [] = .ok
      [⟨3, 20, 30, 1000, some 502⟩, ⟨4, 30, 40, 1001, none⟩] ∧
    requests exParams exGet ex2 [] = .ok
      [⟨4, 30, 40, 1001, some 503⟩, ⟨5, 40, 52, 1002, none⟩] := by decide

end Verif.Time
