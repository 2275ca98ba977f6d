import Verif.Codec.Vdf
/-
  Lemmas about one chunk of the proof-of-time check and about the parallel loop.
-/
namespace Verif.Codec

variable {α : Type}

theorem iter_add (H : α → α) : ∀ (m n : Nat) (x : α), iter H (m + n) x = iter H n (iter H m x)
  | 0, n, x => by rw [Nat.zero_add]; rfl
  | m + 1, n, x => by
    rw [show m + 1 + n = (m + n) + 1 by omega]
    exact iter_add H m n (H x)

/-- The value segment `i` has to be computed from. -/
def startOf (p : Vdf α) (i : Nat) : α :=
  if i = 0 then p.first else (p.segments[i - 1]?).getD p.first

theorem startPoint_ok (p : Vdf α) {i : Nat} (h : i ≤ p.segments.length) :
    startPoint p i = .ok (startOf p i) := by
  unfold startPoint startOf
  by_cases h0 : i = 0
  · simp [h0]
  · have hi : i - 1 < p.segments.length := by omega
    rw [if_pos (by omega), if_neg h0, List.getElem?_eq_getElem hi]
    rfl

/-- Sizes for which the 32-bit counters do not wrap. -/
structure VdfFits (e : VdfEnv α) (p : Vdf α) : Prop where
  pos : 0 < e.batch
  even : e.batch % 2 = 0
  small : p.segments.length + e.batch < 2 ^ 31

theorem numLanes_eq {e : VdfEnv α} {p : Vdf α} (f : VdfFits e p) (c : Nat) :
    numLanes e p c = min e.batch (p.segments.length - c * e.batch) := by
  unfold numLanes
  rw [u32_of_lt]
  have := f.small
  omega

theorem numChunks_eq {e : VdfEnv α} {p : Vdf α} (f : VdfFits e p) :
    numChunks e p = (p.segments.length + e.batch - 1) / e.batch := by
  unfold numChunks
  rw [u32_of_lt]
  have := f.small
  have := Nat.div_le_self (p.segments.length + e.batch - 1) e.batch
  omega

theorem chunk_lt {e : VdfEnv α} {p : Vdf α} (f : VdfFits e p) {c : Nat} (h : c < numChunks e p) :
    c * e.batch < p.segments.length := by
  rw [numChunks_eq f] at h
  have h1 : (c + 1) * e.batch ≤ p.segments.length + e.batch - 1 :=
    (Nat.le_div_iff_mul_le f.pos).1 h
  have := f.pos
  rw [Nat.add_mul] at h1
  omega

theorem chunk_of {e : VdfEnv α} {p : Vdf α} (f : VdfFits e p) {i : Nat}
    (h : i < p.segments.length) :
    i / e.batch < numChunks e p ∧ i % e.batch < numLanes e p (i / e.batch) := by
  have hm := Nat.div_add_mod i e.batch
  have hl := Nat.mod_lt i f.pos
  rw [Nat.mul_comm] at hm
  constructor
  · rw [numChunks_eq f]
    apply (Nat.le_div_iff_mul_le f.pos).2
    rw [Nat.succ_mul]
    generalize i / e.batch * e.batch = q at *
    omega
  · rw [numLanes_eq f]
    generalize i / e.batch * e.batch = q at *
    omega

theorem lane_index {e : VdfEnv α} {p : Vdf α} (f : VdfFits e p) {c j : Nat}
    (hj : j < numLanes e p c) :
    c * e.batch + j < p.segments.length ∧ u32 (c * e.batch + j) = c * e.batch + j := by
  rw [numLanes_eq f] at hj
  have := f.small
  have h : c * e.batch + j < p.segments.length := by omega
  exact ⟨h, u32_of_lt (by omega)⟩

theorem fillLanes_ok {e : VdfEnv α} {p : Vdf α} (f : VdfFits e p) (c : Nat) :
    ∀ (fuel j : Nat) (pts : List α), numLanes e p c ≤ j + fuel → numLanes e p c ≤ pts.length →
      ∃ r, fillLanes e p c fuel j pts = .ok r ∧ r.length = pts.length
        ∧ ∀ k, r[k]? = if j ≤ k ∧ k < numLanes e p c then some (startOf p (c * e.batch + k))
            else pts[k]?
  | 0, j, pts, h, _ => ⟨pts, rfl, rfl, fun k => by rw [if_neg (by omega)]⟩
  | fuel + 1, j, pts, h, hl => by
    unfold fillLanes
    by_cases hj : j < numLanes e p c
    · obtain ⟨h1, h2⟩ := lane_index f hj
      rw [if_pos hj, h2, startPoint_ok p (Nat.le_of_lt h1)]
      obtain ⟨r, hr, hlen, hk⟩ := fillLanes_ok f c fuel (j + 1)
        (pts.set j (startOf p (c * e.batch + j))) (by omega) (by rw [List.length_set]; exact hl)
      refine ⟨r, hr, by rw [hlen, List.length_set], fun k => ?_⟩
      rw [hk]
      by_cases e1 : k = j
      · subst e1
        rw [if_neg (by omega), if_pos ⟨Nat.le_refl _, hj⟩, List.getElem?_set_self (by omega)]
      · rw [List.getElem?_set_ne (Ne.symm e1)]
        by_cases h3 : j + 1 ≤ k ∧ k < numLanes e p c
        · rw [if_pos h3, if_pos ⟨by omega, h3.2⟩]
        · rw [if_neg h3, if_neg (by omega)]
    · rw [if_neg hj]
      exact ⟨pts, rfl, rfl, fun k => by rw [if_neg (by omega)]⟩

theorem pairLoop_ok (e : VdfEnv α) (n lanes : Nat) :
    ∀ (fuel j : Nat) (pts : List α), lanes ≤ j + fuel → lanes ≤ pts.length →
      pts.length % 2 = 0 → j % 2 = 0 →
      ∃ r, pairLoop e n lanes fuel j pts = .ok r ∧ r.length = pts.length
        ∧ (∀ k, j ≤ k → k < lanes → r[k]? = (pts[k]?).map (iter e.H n))
        ∧ (∀ k, k < j → r[k]? = pts[k]?)
  | 0, j, pts, h, _, _, _ => ⟨pts, rfl, rfl, fun k h1 h2 => by omega, fun _ _ => rfl⟩
  | fuel + 1, j, pts, h, hl, he, hje => by
    unfold pairLoop
    by_cases hj : j < lanes
    · have h1 : j < pts.length := by omega
      have h2 : j + 1 < pts.length := by omega
      rw [if_pos hj, List.getElem?_eq_getElem h1, List.getElem?_eq_getElem h2]
      obtain ⟨r, hr, hlen, hk, hk'⟩ := pairLoop_ok e n lanes fuel (j + 2)
        ((pts.set j (iter e.H n pts[j])).set (j + 1) (iter e.H n pts[j + 1])) (by omega)
        (by simp only [List.length_set]; exact hl) (by simp only [List.length_set]; exact he)
        (by omega)
      refine ⟨r, hr, by rw [hlen]; simp only [List.length_set], fun k h3 h4 => ?_, fun k h3 => ?_⟩
      · by_cases e1 : k = j
        · subst e1
          rw [hk' k (by omega), List.getElem?_set_ne (by omega), List.getElem?_set_self h1,
            List.getElem?_eq_getElem h1, Option.map_some]
        · by_cases e2 : k = j + 1
          · subst e2
            rw [hk' _ (by omega), List.getElem?_set_self (by rw [List.length_set]; exact h2),
              List.getElem?_eq_getElem h2, Option.map_some]
          · rw [hk k (by omega) h4, List.getElem?_set_ne (by omega),
              List.getElem?_set_ne (by omega)]
      · rw [hk' k (by omega), List.getElem?_set_ne (by omega), List.getElem?_set_ne (by omega)]
    · rw [if_neg hj]
      exact ⟨pts, rfl, rfl, fun k h1 h2 => by omega, fun _ _ => rfl⟩

theorem lockStep_get (e : VdfEnv α) (lanes : Nat) (s : List α × List α) (h : lanes ≤ s.1.length) :
    lanes ≤ (lockStep e lanes s).1.length
    ∧ ∀ k, k < lanes → (lockStep e lanes s).1[k]? = (s.1[k]?).map e.H := by
  unfold lockStep
  dsimp only
  have hlen : lanes ≤ ((s.1.take lanes ++ s.2.drop lanes).map e.H).length := by
    rw [List.length_map, List.length_append, List.length_take]; omega
  constructor
  · rw [List.length_append, List.length_take]; omega
  · intro k hk
    rw [List.getElem?_append_left (by rw [List.length_take]; omega), List.getElem?_take_of_lt hk,
      List.getElem?_map, List.getElem?_append_left (by rw [List.length_take]; omega),
      List.getElem?_take_of_lt hk]

theorem lockLoop_get (e : VdfEnv α) (lanes : Nat) :
    ∀ (n : Nat) (s : List α × List α), lanes ≤ s.1.length →
      ∀ k, k < lanes → (lockLoop e lanes n s).1[k]? = (s.1[k]?).map (iter e.H n)
  | 0, s, _, k, _ => by
    show s.1[k]? = _
    cases s.1[k]? <;> rfl
  | n + 1, s, h, k, hk => by
    obtain ⟨h1, h2⟩ := lockStep_get e lanes s h
    show (lockLoop e lanes n (lockStep e lanes s)).1[k]? = _
    rw [lockLoop_get e lanes n _ h1 k hk, h2 k hk]
    cases s.1[k]? <;> rfl

theorem compareLanes_ok [DecidableEq α] {e : VdfEnv α} {p : Vdf α} (f : VdfFits e p) (c : Nat)
    (pts : List α) (hl : numLanes e p c ≤ pts.length) :
    ∀ (fuel j : Nat), numLanes e p c ≤ j + fuel →
      (compareLanes e p c pts fuel j = .ok none
        ∧ ∀ k, j ≤ k → k < numLanes e p c → pts[k]? = p.segments[c * e.batch + k]?)
      ∨ (∃ k, j ≤ k ∧ k < numLanes e p c ∧ pts[k]? ≠ p.segments[c * e.batch + k]?
        ∧ compareLanes e p c pts fuel j = .ok (some (c * e.batch + k + 1)))
  | 0, j, h => Or.inl ⟨rfl, fun k h1 h2 => by omega⟩
  | fuel + 1, j, h => by
    unfold compareLanes
    by_cases hj : j < numLanes e p c
    · obtain ⟨h1, h2⟩ := lane_index f hj
      have h3 : j < pts.length := by omega
      have hs := f.small
      rw [if_pos hj, h2]
      dsimp only
      rw [List.getElem?_eq_getElem h3, List.getElem?_eq_getElem h1]
      dsimp only
      by_cases hne : pts[j] = p.segments[c * e.batch + j]
      · rw [if_neg (by simpa using hne)]
        rcases compareLanes_ok f c pts hl fuel (j + 1) (by omega) with ⟨h4, h5⟩ | ⟨k, h4, h5, h6, h7⟩
        · refine Or.inl ⟨h4, fun k h6 h7 => ?_⟩
          by_cases e1 : k = j
          · subst e1
            rw [List.getElem?_eq_getElem h3, List.getElem?_eq_getElem h1, hne]
          · exact h5 k (by omega) h7
        · exact Or.inr ⟨k, by omega, h5, h6, h7⟩
      · rw [if_pos hne, u32_of_lt (by omega)]
        refine Or.inr ⟨j, Nat.le_refl _, hj, ?_, rfl⟩
        rw [List.getElem?_eq_getElem h3, List.getElem?_eq_getElem h1]
        exact fun h => hne (Option.some.inj h)
    · rw [if_neg hj]
      exact Or.inl ⟨rfl, fun k h1 h2 => by omega⟩

/-- Segment `i` is what its predecessor leads to. -/
def segOk (e : VdfEnv α) (p : Vdf α) (i : Nat) : Prop :=
  p.segments[i]? = some (iter e.H (u32 p.segmentSize) (startOf p i))

theorem chunkResult_ok [DecidableEq α] {e : VdfEnv α} {p : Vdf α} (f : VdfFits e p) (c : Nat) :
    (chunkResult e p c = .ok none ∧ ∀ k, k < numLanes e p c → segOk e p (c * e.batch + k))
    ∨ (∃ k, k < numLanes e p c ∧ ¬ segOk e p (c * e.batch + k)
        ∧ chunkResult e p c = .ok (some (c * e.batch + k + 1))) := by
  have hlanes : numLanes e p c ≤ e.batch := by unfold numLanes; omega
  obtain ⟨r, hr, hlen, hk⟩ := fillLanes_ok f c e.batch 0 (List.replicate e.batch e.zero)
    (by omega) (by rw [List.length_replicate]; exact hlanes)
  rw [List.length_replicate] at hlen
  have key : ∃ r', (if e.twoLane then pairLoop e (u32 p.segmentSize) (numLanes e p c) e.batch 0 r
      else .ok (lockLoop e (numLanes e p c) (u32 p.segmentSize) (r, e.junk)).1) = .ok r'
      ∧ ∀ k, k < numLanes e p c → r'[k]? =
          some (iter e.H (u32 p.segmentSize) (startOf p (c * e.batch + k))) := by
    by_cases ht : e.twoLane = true
    · rw [if_pos ht]
      obtain ⟨r', h1, h2, h3, -⟩ := pairLoop_ok e (u32 p.segmentSize) (numLanes e p c) e.batch 0 r
        (by omega) (by omega) (by rw [hlen]; exact f.even) rfl
      refine ⟨r', h1, fun k h4 => ?_⟩
      rw [h3 k (Nat.zero_le _) h4, hk, if_pos ⟨Nat.zero_le _, h4⟩, Option.map_some]
    · rw [if_neg ht]
      refine ⟨_, rfl, fun k h4 => ?_⟩
      rw [lockLoop_get e _ _ _ (by show _ ≤ r.length; omega) k h4]
      show Option.map _ r[k]? = _
      rw [hk, if_pos ⟨Nat.zero_le _, h4⟩, Option.map_some]
  obtain ⟨r', h1, h2⟩ := key
  have hl' : numLanes e p c ≤ r'.length := by
    by_cases h0 : numLanes e p c = 0
    · omega
    · have := h2 (numLanes e p c - 1) (by omega)
      have := List.getElem?_eq_some_iff.1 this
      obtain ⟨h3, -⟩ := this
      omega
  have hres : chunkResult e p c = compareLanes e p c r' e.batch 0 := by
    unfold chunkResult
    dsimp only
    rw [hr, Res.bind_ok]
    split at h1 <;> rename_i ht <;> rw [h1, Res.bind_ok]
    · rw [if_pos ht]
    · rw [if_neg ht]
  rw [hres]
  rcases compareLanes_ok f c r' hl' e.batch 0 (by omega) with ⟨h3, h4⟩ | ⟨k, -, h4, h5, h6⟩
  · refine Or.inl ⟨h3, fun k h5 => ?_⟩
    unfold segOk
    rw [← h4 k (Nat.zero_le _) h5, h2 k h5]
  · refine Or.inr ⟨k, h4, ?_, h6⟩
    unfold segOk
    rw [← h2 k h4]
    exact fun h => h5 h.symm

/-- What holds of the shared flag and the finished chunks at every moment. -/
structure VInv (e : VdfEnv α) (p : Vdf α) (s : VState) : Prop where
  flag : s.invalid ≠ 0 → s.invalid - 1 < p.segments.length ∧ ¬ segOk e p (s.invalid - 1)
  fin : ∀ c, c < numChunks e p → s.phase c = .done → s.invalid = 0 →
    ∀ k, k < numLanes e p c → segOk e p (c * e.batch + k)

theorem setPhase_self (f : Nat → Phase) (c : Nat) (x : Phase) : setPhase f c x c = x := by
  simp [setPhase]

theorem setPhase_ne (f : Nat → Phase) {c d : Nat} (x : Phase) (h : d ≠ c) :
    setPhase f c x d = f d := by
  simp [setPhase, h]

theorem VInv.step [DecidableEq α] {e : VdfEnv α} {p : Vdf α} (f : VdfFits e p) {s t : VState}
    (hi : VInv e p s) (hs : VStep e p s t) : VInv e p t := by
  cases hs with
  | skip c hc hr hn =>
    exact ⟨hi.flag, fun d hd hdone h0 => absurd h0 hn⟩
  | start c hc hr h0 =>
    refine ⟨hi.flag, fun d hd hdone h0' => ?_⟩
    by_cases e1 : d = c
    · subst e1; dsimp only at hdone; rw [setPhase_self] at hdone; cases hdone
    · dsimp only at hdone; rw [setPhase_ne _ _ e1] at hdone; exact hi.fin d hd hdone h0'
  | good c hc hr hg =>
    refine ⟨hi.flag, fun d hd hdone h0' => ?_⟩
    by_cases e1 : d = c
    · subst e1
      rcases chunkResult_ok f d with ⟨-, h2⟩ | ⟨k, -, -, h3⟩
      · exact h2
      · rw [h3] at hg; cases hg
    · dsimp only at hdone; rw [setPhase_ne _ _ e1] at hdone; exact hi.fin d hd hdone h0'
  | bad c k hc hr hg =>
    rcases chunkResult_ok f c with ⟨h1, -⟩ | ⟨j, hj, hbad, h3⟩
    · rw [h1] at hg; cases hg
    · rw [h3] at hg
      have hk : c * e.batch + j + 1 = k := Option.some.inj (Res.ok.inj hg)
      subst hk
      by_cases h0 : s.invalid = 0
      · refine ⟨fun _ => ?_, fun d hd hdone h0' => ?_⟩
        · dsimp only
          rw [if_pos h0]
          exact ⟨by simpa using (lane_index f hj).1, by simpa using hbad⟩
        · dsimp only at h0'
          rw [if_pos h0] at h0'
          omega
      · refine ⟨fun _ => ?_, fun d hd hdone h0' => ?_⟩
        · dsimp only
          rw [if_neg h0]
          exact hi.flag h0
        · dsimp only at h0'
          rw [if_neg h0] at h0'
          exact absurd h0' h0

theorem VInv.run [DecidableEq α] {e : VdfEnv α} {p : Vdf α} (f : VdfFits e p) {s t : VState}
    (hi : VInv e p s) (hr : VRun e p s t) : VInv e p t := by
  induction hr with
  | refl => exact hi
  | step _ h ih => exact ih.step f h

theorem VInv.init (e : VdfEnv α) (p : Vdf α) : VInv e p vInit :=
  ⟨fun h => absurd rfl h, fun c _ h => by cases h⟩

/-- From every state the loop can be finished. -/
theorem vRun_finish [DecidableEq α] {e : VdfEnv α} {p : Vdf α} (f : VdfFits e p) (n : Nat) :
    ∀ s : VState, n ≤ numChunks e p →
      ∃ t, VRun e p s t ∧ (∀ c, c < n → t.phase c = .done)
        ∧ ∀ c, n ≤ c → t.phase c = s.phase c := by
  induction n with
  | zero => exact fun s _ => ⟨s, .refl s, fun c h => by omega, fun _ _ => rfl⟩
  | succ n ih =>
    intro s hn
    obtain ⟨t, h1, h2, h3⟩ := ih s (by omega)
    -- finish chunk n from state t
    have fin1 : ∀ u, u.phase n = .busy → (∀ c, c < n → u.phase c = .done) →
        (∀ c, n + 1 ≤ c → u.phase c = s.phase c) → VRun e p s u →
        ∃ t, VRun e p s t ∧ (∀ c, c < n + 1 → t.phase c = .done)
          ∧ ∀ c, n + 1 ≤ c → t.phase c = s.phase c := by
      intro u hb hlt hge hu
      have fin2 : ∀ inv : Nat, VRun e p s ⟨inv, setPhase u.phase n .done⟩ →
          ∃ t, VRun e p s t ∧ (∀ c, c < n + 1 → t.phase c = .done)
            ∧ ∀ c, n + 1 ≤ c → t.phase c = s.phase c := by
        intro inv hrun
        refine ⟨_, hrun, fun c hc => ?_, fun c hc => ?_⟩
        · by_cases e1 : c = n
          · subst e1; exact setPhase_self ..
          · dsimp only; rw [setPhase_ne _ _ e1]; exact hlt c (by omega)
        · dsimp only; rw [setPhase_ne _ _ (by omega)]; exact hge c hc
      rcases chunkResult_ok f n with ⟨h4, -⟩ | ⟨k, -, -, h4⟩
      · exact fin2 _ (.step hu (.good u n (by omega) hb h4))
      · exact fin2 _ (.step hu (.bad u n _ (by omega) hb h4))
    cases hp : t.phase n with
    | done =>
      refine ⟨t, h1, fun c hc => ?_, fun c hc => h3 c (by omega)⟩
      by_cases e1 : c = n
      · subst e1; exact hp
      · exact h2 c (by omega)
    | busy => exact fin1 t hp h2 (fun c hc => h3 c (by omega)) h1
    | ready =>
      by_cases h0 : t.invalid = 0
      · refine fin1 ⟨t.invalid, setPhase t.phase n .busy⟩ (setPhase_self ..) (fun c hc => ?_)
          (fun c hc => ?_) (.step h1 (.start t n (by omega) hp h0))
        · dsimp only; rw [setPhase_ne _ _ (by omega)]; exact h2 c hc
        · dsimp only; rw [setPhase_ne _ _ (by omega)]; exact h3 c (by omega)
      · refine ⟨⟨t.invalid, setPhase t.phase n .done⟩, .step h1 (.skip t n (by omega) hp h0),
          fun c hc => ?_, fun c hc => ?_⟩
        · by_cases e1 : c = n
          · subst e1; exact setPhase_self ..
          · dsimp only; rw [setPhase_ne _ _ e1]; exact h2 c (by omega)
        · dsimp only; rw [setPhase_ne _ _ (by omega)]; exact h3 c (by omega)

end Verif.Codec
