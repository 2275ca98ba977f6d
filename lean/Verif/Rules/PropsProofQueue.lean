/-
  C175: proofs that are received are judged in time, whatever the threads do.
-/
import Verif.Rules.ProofQueue
import Verif.Rules.PropsProofs

namespace Verif.Rules

/-! ### the specification -/

/-- What becomes of a response. -/
inductive Fate
  | waiting
  | lost
  | judged (valid : Bool)
  deriving DecidableEq

/-- A response that came at `t`, by what happens after: the first time its height is near enough it is judged, unless it
    is too old by then. -/
def fate (p : PConf) (r : Resp) (t : Int) : List PEv → Fate
  | [] => .waiting
  | .pass now vdf ok _ :: evs =>
    if now > t + 10 * p.interval then .lost
    else if r.height < vdf + p.delay then .judged (ok r)
    else fate p r t evs
  | .recv _ _ :: evs => fate p r t evs
  | .commit _ :: evs => fate p r t evs

/-- The hash of a proof is known for the challenge. -/
def Has (k : Known) (c h : Nat) : Prop := ∃ x ∈ k.proofs c, x.hash = h

/-! ### proofs -/

theorem has_addResp (k : Known) (r : Resp) (c h : Nat) :
    Has (addResp k r) c h ↔ Has k c h ∨ (r.challenge = c ∧ r.d.hash = h) := by
  show (∃ x ∈ (if c = r.challenge then addTo r.d (k.proofs c) else k.proofs c), x.hash = h) ↔ _
  by_cases e : c = r.challenge
  · rw [if_pos e, hash_addTo]
    exact ⟨fun z => z.elim (fun z => .inr ⟨e.symm, z⟩) .inl, fun z => z.elim .inr fun z => .inl z.2⟩
  · rw [if_neg e]
    exact ⟨.inl, fun z => z.elim id fun z => absurd z.1.symm e⟩

theorem has_adds (c h : Nat) : ∀ (l : List Resp) (k : Known),
    Has (l.foldl addResp k) c h ↔ Has k c h ∨ ∃ r ∈ l, r.challenge = c ∧ r.d.hash = h
  | [], _ => ⟨.inl, fun z => z.elim id fun ⟨_, z, _⟩ => absurd z List.not_mem_nil⟩
  | r :: l, k => by
    rw [List.foldl_cons, has_adds c h l, has_addResp, or_assoc]
    refine or_congr_right ⟨?_, ?_⟩
    · rintro (z | ⟨x, hx, z⟩)
      · exact ⟨r, List.mem_cons_self, z⟩
      · exact ⟨x, List.mem_cons_of_mem _ hx, z⟩
    · rintro ⟨x, hx, z⟩
      rcases List.mem_cons.1 hx with hx | hx
      · subst hx; exact .inl z
      · exact .inr ⟨x, hx, z⟩

theorem inv_adds : ∀ (l : List Resp) {k : Known}, k.Inv → (l.foldl addResp k).Inv
  | [], _, h => h
  | r :: l, _, h => inv_adds l (inv_step h (.add r.challenge r.height r.d))

theorem asc_ext : ∀ {l m : List PData}, Asc l → Asc m → (∀ h, (∃ x ∈ l, x.hash = h) ↔ ∃ x ∈ m, x.hash = h) →
    l.map (·.hash) = m.map (·.hash)
  | [], [], _, _, _ => rfl
  | [], y :: m, _, _, e => by
    obtain ⟨x, hx, _⟩ := (e y.hash).2 ⟨y, List.mem_cons_self, rfl⟩
    exact absurd hx List.not_mem_nil
  | x :: l, [], _, _, e => by
    obtain ⟨y, hy, _⟩ := (e x.hash).1 ⟨x, List.mem_cons_self, rfl⟩
    exact absurd hy List.not_mem_nil
  | x :: l, y :: m, hl, hm, e => by
    have hl' := List.pairwise_cons.1 hl
    have hm' := List.pairwise_cons.1 hm
    have hxy : x.hash = y.hash := by
      have a : y.hash ≤ x.hash := by
        obtain ⟨z, hz, ez⟩ := (e x.hash).1 ⟨x, List.mem_cons_self, rfl⟩
        rcases List.mem_cons.1 hz with hz | hz
        · subst hz; omega
        · have := hm'.1 z hz; omega
      have b : x.hash ≤ y.hash := by
        obtain ⟨z, hz, ez⟩ := (e y.hash).2 ⟨y, List.mem_cons_self, rfl⟩
        rcases List.mem_cons.1 hz with hz | hz
        · subst hz; omega
        · have := hl'.1 z hz; omega
      omega
    rw [List.map_cons, List.map_cons, hxy]
    refine congrArg (y.hash :: ·) (asc_ext hl'.2 hm'.2 fun h => ⟨?_, ?_⟩)
    · rintro ⟨z, hz, ez⟩
      obtain ⟨w, hw, ew⟩ := (e h).1 ⟨z, List.mem_cons_of_mem _ hz, ez⟩
      rcases List.mem_cons.1 hw with hw | hw
      · subst hw; have := hl'.1 z hz; omega
      · exact ⟨w, hw, ew⟩
    · rintro ⟨z, hz, ez⟩
      obtain ⟨w, hw, ew⟩ := (e h).2 ⟨z, List.mem_cons_of_mem _ hz, ez⟩
      rcases List.mem_cons.1 hw with hw | hw
      · subst hw; have := hm'.1 z hz; omega
      · exact ⟨w, hw, ew⟩

/-- **C175.** Whatever the order in which threads finish, after a pass the same proofs are known for every challenge, in
    the same order; so the best one is the same. -/
theorem C175_schedule {k : Known} (hk : k.Inv) {l m : List Resp} (h : l.Perm m) (c : Nat) :
    ((l.foldl addResp k).proofs c).map (·.hash) = ((m.foldl addResp k).proofs c).map (·.hash) ∧
    (findBest c (l.foldl addResp k)).map (·.hash) = (findBest c (m.foldl addResp k)).map (·.hash) := by
  have e : ((l.foldl addResp k).proofs c).map (·.hash) = ((m.foldl addResp k).proofs c).map (·.hash) := by
    refine asc_ext ((inv_adds l hk).asc c) ((inv_adds m hk).asc c) fun g => ?_
    show Has _ c g ↔ Has _ c g
    rw [has_adds, has_adds]
    exact or_congr_right ⟨fun ⟨r, hr, z⟩ => ⟨r, h.mem_iff.1 hr, z⟩, fun ⟨r, hr, z⟩ => ⟨r, h.mem_iff.2 hr, z⟩⟩
  refine ⟨e, ?_⟩
  unfold findBest
  rw [← List.head?_map, ← List.head?_map, e]

/-- **C175.** What is remembered of the farmer does depend on it, if two send the same proof. -/
theorem C175_farmer : ∃ l m : List Resp, l.Perm m ∧
    (findBest 1 (l.foldl addResp .init)).map (·.mac) ≠ (findBest 1 (m.foldl addResp .init)).map (·.mac) :=
  ⟨[⟨1, 5, 7, 100⟩, ⟨1, 5, 7, 200⟩], [⟨1, 5, 7, 200⟩, ⟨1, 5, 7, 100⟩], .swap _ _ _, by decide⟩

theorem late_iff (p : PConf) (now t : Int) : p.late now t = true ↔ now > t + 10 * p.interval := by
  unfold PConf.late
  rw [decide_eq_true_eq]; omega

theorem early_iff (p : PConf) (vdf : Nat) (r : Resp) : p.early vdf r = true ↔ ¬ r.height < vdf + p.delay := by
  unfold PConf.early
  rw [decide_eq_true_eq]; omega

/-- What is in the queue, and what came during some events, with its fate. -/
def Comes (p : PConf) (s : PQ) (evs : List PEv) (r : Resp) (f : Fate) : Prop :=
  (∃ t, (r, t) ∈ s.queue ∧ fate p r t evs = f) ∨ ∃ a t b, evs = a ++ .recv r t :: b ∧ fate p r t b = f

theorem comes_recv {p : PConf} {s : PQ} {evs : List PEv} {r : Resp} {f : Fate} (x : Resp) (now : Int) :
    Comes p s (.recv x now :: evs) r f ↔ Comes p (pstep p s (.recv x now)) evs r f := by
  constructor
  · rintro (⟨t, h1, h2⟩ | ⟨a, t, b, h1, h2⟩)
    · exact .inl ⟨t, List.mem_append_left _ h1, h2⟩
    · cases a with
      | nil => cases h1; exact .inl ⟨now, List.mem_append_right _ List.mem_cons_self, h2⟩
      | cons y a => cases h1; exact .inr ⟨a, t, b, rfl, h2⟩
  · rintro (⟨t, h1, h2⟩ | ⟨a, t, b, h1, h2⟩)
    · rcases List.mem_append.1 h1 with h1 | h1
      · exact .inl ⟨t, h1, h2⟩
      · cases List.mem_singleton.1 h1; exact .inr ⟨[], now, evs, rfl, h2⟩
    · exact .inr ⟨.recv x now :: a, t, b, by rw [h1]; rfl, h2⟩

theorem comes_commit {p : PConf} {s : PQ} {evs : List PEv} {r : Resp} {f : Fate} (v : Nat) :
    Comes p s (.commit v :: evs) r f ↔ Comes p (pstep p s (.commit v)) evs r f := by
  constructor
  · rintro (h | ⟨a, t, b, h1, h2⟩)
    · exact .inl h
    · cases a with
      | nil => cases h1
      | cons y a => cases h1; exact .inr ⟨a, t, b, rfl, h2⟩
  · rintro (h | ⟨a, t, b, h1, h2⟩)
    · exact .inl h
    · exact .inr ⟨.commit v :: a, t, b, by rw [h1]; rfl, h2⟩

theorem comes_pass {p : PConf} {s : PQ} {evs : List PEv} {r : Resp} {f : Fate} (now : Int) (vdf : Nat) (ok : Resp → Bool)
    (order : List Resp) : Comes p s (.pass now vdf ok order :: evs) r f ↔
      Comes p (pstep p s (.pass now vdf ok order)) evs r f ∨
      (∃ t, (r, t) ∈ s.queue ∧ p.late now t = true ∧ f = .lost) ∨
      (∃ t, (r, t) ∈ s.queue ∧ p.late now t = false ∧ p.early vdf r = false ∧ f = .judged (ok r)) := by
  have hf : ∀ t, fate p r t (.pass now vdf ok order :: evs) = if p.late now t = true then .lost
      else if p.early vdf r = false then .judged (ok r) else fate p r t evs := by
    intro t
    show (if now > t + 10 * p.interval then Fate.lost else if r.height < vdf + p.delay then _ else _) = _
    by_cases h1 : now > t + 10 * p.interval
    · rw [if_pos h1, if_pos ((late_iff _ _ _).2 h1)]
    · rw [if_neg h1, if_neg fun k => h1 ((late_iff _ _ _).1 k)]
      by_cases h2 : r.height < vdf + p.delay
      · rw [if_pos h2, if_pos (Bool.eq_false_iff.2 fun k => (early_iff _ _ _).1 k h2)]
      · rw [if_neg h2, if_neg (by rw [(early_iff _ _ _).2 h2]; decide)]
  constructor
  · rintro (⟨t, h1, h2⟩ | ⟨a, t, b, h1, h2⟩)
    · rw [hf] at h2
      by_cases k1 : p.late now t = true
      · rw [if_pos k1] at h2; exact .inr (.inl ⟨t, h1, k1, h2.symm⟩)
      · rw [if_neg k1] at h2
        have k1 := Bool.eq_false_iff.2 k1
        by_cases k2 : p.early vdf r = false
        · rw [if_pos k2] at h2; exact .inr (.inr ⟨t, h1, k1, k2, h2.symm⟩)
        · rw [if_neg k2] at h2
          refine .inl (.inl ⟨t, List.mem_filter.2 ⟨h1, ?_⟩, h2⟩)
          show (!p.late now t && p.early vdf r) = true
          rw [k1, (Bool.not_eq_false _).mp k2]; rfl
    · cases a with
      | nil => cases h1
      | cons y a => cases h1; exact .inl (.inr ⟨a, t, b, rfl, h2⟩)
  · rintro ((⟨t, h1, h2⟩ | ⟨a, t, b, h1, h2⟩) | ⟨t, h1, k1, e⟩ | ⟨t, h1, k1, k2, e⟩)
    · obtain ⟨h1, k⟩ := List.mem_filter.1 h1
      have k : (!p.late now t && p.early vdf r) = true := k
      rw [Bool.and_eq_true, Bool.not_eq_true'] at k
      refine .inl ⟨t, h1, ?_⟩
      rw [hf, if_neg (by rw [k.1]; decide), if_neg (by rw [k.2]; decide)]; exact h2
    · exact .inr ⟨.pass now vdf ok order :: a, t, b, by rw [h1]; rfl, h2⟩
    · exact .inl ⟨t, h1, by rw [hf, if_pos k1, e]⟩
    · exact .inl ⟨t, h1, by rw [hf, if_neg (by rw [k1]; decide), if_pos k2, e]⟩

/-- **C175.** A proof is known exactly if it was known before, or a response with it was received, its height came near
    enough before it was too old, and it was found valid then; in all orders of events and threads.  Without commits in
    between, which drop proofs (C142). -/
theorem C175_known {p : PConf} {s s' : PQ} {evs : List PEv} (h : PRuns p s evs s') (hc : ∀ v, .commit v ∉ evs)
    (c g : Nat) : Has s'.known c g ↔ Has s.known c g ∨
      ∃ r, Comes p s evs r (.judged true) ∧ r.challenge = c ∧ r.d.hash = g := by
  induction h with
  | nil s =>
    refine ⟨.inl, fun k => k.elim id fun ⟨r, k, _⟩ => ?_⟩
    rcases k with ⟨_, _, k⟩ | ⟨a, t, b, k, _⟩
    · cases k
    · cases a <;> cases k
  | @cons s s' e evs ok h ih =>
    rw [ih fun v hv => hc v (List.mem_cons_of_mem _ hv)]
    cases e with
    | recv x now =>
      show Has s.known c g ∨ _ ↔ _
      exact or_congr_right (exists_congr fun r => and_congr_left' (comes_recv x now).symm)
    | commit v => exact absurd List.mem_cons_self (hc v)
    | pass now vdf okk order =>
      show Has (order.foldl addResp s.known) c g ∨ _ ↔ _
      have ok : order.Perm ((due p now vdf s.queue).filter okk) := ok
      rw [has_adds, or_assoc]
      refine or_congr_right ⟨?_, ?_⟩
      · rintro (⟨r, hr, z⟩ | ⟨r, hr, z⟩)
        · obtain ⟨h1, h2⟩ := List.mem_filter.1 (ok.mem_iff.1 hr)
          obtain ⟨⟨r', t⟩, h3, e⟩ := List.mem_map.1 h1
          have e : r' = r := e
          subst e
          obtain ⟨h4, h5⟩ := List.mem_filter.1 h3
          have h5 : (!p.late now t && !p.early vdf r') = true := h5
          rw [Bool.and_eq_true, Bool.not_eq_true', Bool.not_eq_true'] at h5
          exact ⟨r', (comes_pass now vdf okk order).2 (.inr (.inr ⟨t, h4, h5.1, h5.2, by rw [h2]⟩)), z⟩
        · exact ⟨r, (comes_pass now vdf okk order).2 (.inl hr), z⟩
      · rintro ⟨r, hr, z⟩
        rcases (comes_pass now vdf okk order).1 hr with k | ⟨_, _, _, k⟩ | ⟨t, h1, k1, k2, k3⟩
        · exact .inr ⟨r, k, z⟩
        · cases k
        · refine .inl ⟨r, ok.mem_iff.2 (List.mem_filter.2 ⟨List.mem_map.2 ⟨(r, t), List.mem_filter.2 ⟨h1, ?_⟩, rfl⟩, ?_⟩), z⟩
          · show (!p.late now t && !p.early vdf r) = true
            rw [k1, k2]; rfl
          · exact (Fate.judged.inj k3).symm

/-- **C175.** What is still in the queue is what has not met its fate. -/
theorem C175_waiting {p : PConf} {s s' : PQ} {evs : List PEv} (h : PRuns p s evs s') (r : Resp) :
    (∃ t, (r, t) ∈ s'.queue) ↔ Comes p s evs r .waiting := by
  induction h with
  | nil s =>
    constructor
    · rintro ⟨t, k⟩; exact .inl ⟨t, k, rfl⟩
    · rintro (⟨t, k, _⟩ | ⟨a, t, b, k, _⟩)
      · exact ⟨t, k⟩
      · cases a <;> cases k
  | @cons s s' e evs ok h ih =>
    rw [ih]
    cases e with
    | recv x now => exact (comes_recv x now).symm
    | commit v => exact (comes_commit v).symm
    | pass now vdf okk order =>
      rw [comes_pass]
      refine ⟨.inl, fun k => k.elim id fun k => ?_⟩
      rcases k with ⟨_, _, _, k⟩ | ⟨_, _, _, _, k⟩ <;> cases k

/-- **C175.** After a pass nothing in the queue is too old, so it holds no more than came within ten block intervals. -/
theorem C175_fresh (p : PConf) (s : PQ) (now : Int) (vdf : Nat) (ok : Resp → Bool) (order : List Resp) :
    ∀ e ∈ (pstep p s (.pass now vdf ok order)).queue, e ∈ s.queue ∧ now - e.2 ≤ 10 * p.interval := by
  intro e he
  obtain ⟨h1, h2⟩ := List.mem_filter.1 he
  have h2 : (!p.late now e.2 && p.early vdf e.1) = true := h2
  rw [Bool.and_eq_true, Bool.not_eq_true'] at h2
  refine ⟨h1, ?_⟩
  have : ¬ now > e.2 + 10 * p.interval := fun k => by rw [(late_iff _ _ _).2 k] at h2; exact nomatch h2.1
  omega

/-- A response for height 30 comes at 0; it waits at VDF height 20, with a delay of 6, and is judged at 25. -/
example : fate ⟨10000, 6⟩ ⟨1, 30, 7, 100⟩ 0 [.pass 1000 20 (fun _ => true) [], .pass 90000 25 (fun _ => true) []] =
    .judged true := by decide

/-- **C175.** A response is judged once: if it is found invalid then, it does not help that it would be valid later, nor
    that the same one is valid for other nodes. -/
theorem C175_once : ∃ (r : Resp) (evs : List PEv), evs = [.recv r 0, .pass 10 25 (fun _ => false) [],
      .pass 20 25 (fun _ => true) []] ∧ (∃ s', PRuns ⟨10000, 6⟩ ⟨[], .init⟩ evs s' ∧ s'.queue = [] ∧ ¬ Has s'.known 1 7) := by
  refine ⟨⟨1, 30, 7, 100⟩, _, rfl, ⟨[], .init⟩, .cons trivial (.cons ?_ (.cons ?_ (.nil _))), rfl, ?_⟩
  · exact .refl _
  · exact .refl _
  · rintro ⟨x, hx, _⟩; exact absurd hx List.not_mem_nil

end Verif.Rules
