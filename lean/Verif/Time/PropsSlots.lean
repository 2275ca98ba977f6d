import Verif.Time.PropsPoints
/-
  C110: the places for the verification of proofs of time.
-/
namespace Verif.Time
variable {H A P : Type} [DecidableEq H] [DecidableEq A]

/-- A place is taken only by a verification that is running. -/
def Owned (s : Books H A) : Prop := ∀ h ∈ s.pending, ∃ e ∈ s.running, e.1.hash = h

/-- The event is a verified proof that would make the chain of points longer than `max_vdf_count`. -/
def Discards (c : Cfg H A P) (s : Books H A) : Event H A P → Prop
  | .good q t peak => (q, t) ∈ s.running ∧ ∃ chain, findNext c.params c.get c.pick s.index peak = .ok chain ∧
      advances peak.vdfOutput chain q ∧ chain.length ≥ c.params.base.maxVdfCount
  | _ => False

/-- No event of the sequence is such a proof. -/
def NoDiscards (c : Cfg H A P) : Books H A → List (Event H A P) → Prop
  | _, [] => True
  | s, e :: rest => ¬ Discards c s e ∧ ∀ s', step c s e = .ok s' → NoDiscards c s' rest

theorem tryLoop_owned {limit : Nat} {okStatic : Vdf H A → Bool} : ∀ {l : List (Vdf H A × Int)} {s : Books H A},
    Owned s → Owned (tryLoop limit okStatic l s)
  | [], s, h => h
  | (q, t) :: l, s, h => by
    rw [tryLoop]
    refine tryLoop_owned ?_
    by_cases h1 : q.hash ∈ s.pending
    · rw [if_pos h1]; exact h
    · rw [if_neg h1]
      by_cases h2 : s.pending.length ≥ limit
      · rw [if_pos h2]; exact h
      · rw [if_neg h2]
        by_cases h3 : okStatic q
        · rw [if_pos h3]
          intro x hx
          rcases List.mem_cons.1 hx with e | hx
          · exact ⟨(q, t), by simp, e.symm⟩
          · obtain ⟨e, he, hh⟩ := h x hx
            exact ⟨e, List.mem_cons_of_mem _ he, hh⟩
        · rw [if_neg h3]; exact h

theorem erase_owned {s : Books H A} (h : Owned s) (q : Vdf H A) (t : Int) :
    ∀ x ∈ s.pending.filter (fun x => decide (x ≠ q.hash)), ∃ e ∈ s.running.erase (q, t), e.1.hash = x := by
  intro x hx
  simp only [List.mem_filter, decide_eq_true_eq] at hx
  obtain ⟨e, he, hh⟩ := h x hx.1
  refine ⟨e, ?_, hh⟩
  have hne : e ≠ (q, t) := by
    intro e'
    rw [e'] at hh
    exact hx.2 hh.symm
  exact (List.mem_erase_of_ne hne).2 he

theorem step_owned {c : Cfg H A P} {s s' : Books H A} {e : Event H A P} (h : Owned s)
    (hd : ¬ Discards c s e) (hs : step c s e = .ok s') : Owned s' := by
  cases e with
  | recv q t => cases hs; exact h
  | update ready order okStatic =>
    cases hs
    unfold verifyVdfs
    by_cases h1 : s.queue = [] ∨ s.pending.length ≥ c.limit
    · rw [if_pos h1]; exact h
    · rw [if_neg h1]; exact tryLoop_owned h
  | good q t peak =>
    simp only [step] at hs
    by_cases h1 : (q, t) ∈ s.running
    · rw [if_pos h1] at hs
      obtain ⟨chain, h2, h3⟩ := Res.bind_eq_ok.1 hs
      cases h3
      unfold success
      rw [if_neg (fun h4 => hd ⟨h1, chain, h2, h4⟩)]
      exact erase_owned h q t
    · rw [if_neg h1] at hs; cases hs; exact h
  | bad q t =>
    simp only [step] at hs
    by_cases h1 : (q, t) ∈ s.running
    · rw [if_pos h1] at hs; cases hs; exact erase_owned h q t
    · rw [if_neg h1] at hs; cases hs; exact h
  | point x =>
    simp only [step] at hs
    by_cases h1 : (findVdfPoint s.tree x.input x.output).isSome
    · rw [if_pos h1] at hs; cases hs; exact h
    · rw [if_neg h1] at hs; cases hs; exact h
  | commit iters => cases hs; exact h

/-- C110, the part that holds: as long as no verified proof is thrown away because the chain of points is
    at its maximum, every taken place belongs to a verification in progress, whatever happens in whatever
    order. What is missing: the same without that condition, which is false (`C110_leak`). -/
theorem C110_owned_partial {c : Cfg H A P} : ∀ {es : List (Event H A P)} {s s' : Books H A}, Owned s →
    NoDiscards c s es → run c s es = .ok s' → Owned s'
  | [], s, s', h, _, hr => by cases hr; exact h
  | e :: es, s, s', h, hn, hr => by
    rw [run] at hr
    obtain ⟨s1, h1, h2⟩ := Res.bind_eq_ok.1 hr
    exact C110_owned_partial (step_owned h hn.1 h1) (hn.2 s1 h1) h2

/-- C110: so when nothing is being verified, the next proof can be. -/
theorem C110_free {c : Cfg H A P} {s : Books H A} (h : Owned s) (hr : s.running = []) (hl : 0 < c.limit) :
    s.pending.length < c.limit := by
  cases hp : s.pending with
  | nil => simpa using hl
  | cons x xs =>
    obtain ⟨e, he, _⟩ := h x (by simp [hp])
    rw [hr] at he
    simp at he

/-- C110: once all places are taken while nothing is being verified, no proof of time is verified ever
    again, whatever arrives and whatever blocks are committed: the only points added are those that come
    ready-made from a trusted node. -/
theorem C110_stuck {c : Cfg H A P} : ∀ {es : List (Event H A P)} {s s' : Books H A}, s.running = [] →
    c.limit ≤ s.pending.length → run c s es = .ok s' →
    s'.running = [] ∧ s'.pending = s.pending ∧ ∀ x ∈ s'.index, x ∈ s.index ∨ .point x ∈ es
  | [], s, s', h1, h2, hr => by cases hr; exact ⟨h1, rfl, fun x hx => .inl hx⟩
  | e :: es, s, s', h1, h2, hr => by
    rw [run] at hr
    obtain ⟨s1, h3, h4⟩ := Res.bind_eq_ok.1 hr
    have key : s1.running = [] ∧ s1.pending = s.pending ∧ ∀ x ∈ s1.index, x ∈ s.index ∨ .point x = e := by
      cases e with
      | recv q t => cases h3; exact ⟨h1, rfl, fun x hx => .inl hx⟩
      | update ready order okStatic =>
        cases h3
        unfold verifyVdfs
        rw [if_pos (.inr h2)]
        exact ⟨h1, rfl, fun x hx => .inl hx⟩
      | good q t peak =>
        simp only [step, h1] at h3
        rw [if_neg (by simp)] at h3
        cases h3; exact ⟨h1, rfl, fun x hx => .inl hx⟩
      | bad q t =>
        simp only [step, h1] at h3
        rw [if_neg (by simp)] at h3
        cases h3; exact ⟨h1, rfl, fun x hx => .inl hx⟩
      | point x =>
        simp only [step] at h3
        by_cases h5 : (findVdfPoint s.tree x.input x.output).isSome
        · rw [if_pos h5] at h3; cases h3; exact ⟨h1, rfl, fun x hx => .inl hx⟩
        · rw [if_neg h5] at h3
          cases h3
          refine ⟨h1, rfl, fun y hy => ?_⟩
          rcases List.mem_append.1 hy with hy | hy
          · exact .inl hy
          · rw [List.mem_singleton.1 hy]; exact .inr rfl
      | commit iters =>
        cases h3
        exact ⟨h1, rfl, fun x hx => .inl (List.mem_filter.1 hx).1⟩
    obtain ⟨k1, k2, k3⟩ := key
    obtain ⟨i1, i2, i3⟩ := C110_stuck k1 (by rw [k2]; exact h2) h4
    refine ⟨i1, by rw [i2, k2], fun x hx => ?_⟩
    rcases i3 x hx with hx | hx
    · rcases k3 x hx with hx | hx
      · exact .inl hx
      · exact .inr (by rw [hx]; simp)
    · exact .inr (by simp [hx])

/-- The example node: one place, as without a GPU. -/
def exCfg : Cfg Nat Nat Nat where
  params := exParams
  get := exGet
  pick := firstOf
  limit := 1

def exBooks : Books Nat Nat := ⟨[], [], [], [], []⟩

/-- Proofs for the steps after the block at VDF height 2: three make the longest chain allowed. -/
def exV (n : Nat) (start input output prev : Nat) : Vdf Nat Nat := ⟨n, start, 10, input, output, prev, 1⟩

def exUpdate : Event Nat Nat Nat := .update (fun _ => .try) id (fun _ => true)

def exFeed (q : Vdf Nat Nat) (t : Int) : List (Event Nat Nat Nat) := [.recv q t, exUpdate, .good q t ex1]

def exThree : List (Event Nat Nat Nat) :=
  exFeed (exV 1 20 502 600 1000) 1 ++ exFeed (exV 2 30 600 700 1001) 2 ++ exFeed (exV 3 40 700 800 1001) 3

def exPoints : List (Point Nat Nat) := [(exV 1 20 502 600 1000).point 1, (exV 2 30 600 700 1001).point 2,
  (exV 3 40 700 800 1001).point 3]

/-- C110 fails: a node with one place verifies three proofs, which is as far as its points may be ahead of
    the last block, and then a fourth, which is thrown away without giving back its place. From then on
    `C110_stuck` applies. -/
theorem C110_leak :
    run exCfg exBooks exThree = .ok ⟨[], [], [], exPoints, exPoints⟩ ∧
    run exCfg exBooks (exThree ++ exFeed (exV 4 50 800 900 1001) 4) =
      .ok ⟨[], [4], [], exPoints, exPoints⟩ := by decide

/-- The node of the example from then on: it never verifies anything again. -/
theorem ex110_stuck {es : List (Event Nat Nat Nat)} {s : Books Nat Nat}
    (h : run exCfg ⟨[], [4], [], exPoints, exPoints⟩ es = .ok s) :
    s.running = [] ∧ s.pending = [4] ∧ ∀ x ∈ s.index, x ∈ exPoints ∨ .point x ∈ es :=
  C110_stuck rfl (by decide) h

/-- The sequence before that meets the condition of `C110_owned_partial`. -/
theorem ex110 : Owned exBooks ∧ NoDiscards exCfg exBooks (exFeed (exV 1 20 502 600 1000) 1) := by
  refine ⟨by unfold Owned; decide, fun h => h, fun s1 h1 => ?_⟩
  cases h1
  refine ⟨fun h => h, fun s2 h2 => ?_⟩
  cases h2
  refine ⟨?_, fun s3 h3 => trivial⟩
  intro ⟨_, chain, h4, _, h6⟩
  have : findNext exParams exGet firstOf ([] : List (Point Nat Nat)) ex1 = .ok [] := by decide
  have h4 : findNext exParams exGet firstOf ([] : List (Point Nat Nat)) ex1 = .ok chain := h4
  rw [this] at h4
  cases h4
  exact absurd h6 (by decide)

theorem tryLoop_running {limit : Nat} {okStatic : Vdf H A → Bool} : ∀ {l : List (Vdf H A × Int)}
    {s : Books H A}, (∀ e ∈ (tryLoop limit okStatic l s).running, e ∈ s.running ∨ e ∈ l) ∧
      (∀ e ∈ (tryLoop limit okStatic l s).queue, e ∈ s.queue ∨ e ∈ l)
  | [], s => ⟨fun e h => .inl h, fun e h => .inl h⟩
  | (q, t) :: l, s => by
    rw [tryLoop]
    obtain ⟨i1, i2⟩ := tryLoop_running (limit := limit) (okStatic := okStatic) (l := l)
      (s := if q.hash ∈ s.pending then s
       else if s.pending.length ≥ limit then { s with queue := s.queue ++ [(q, t)] }
       else if okStatic q then { s with pending := q.hash :: s.pending, running := (q, t) :: s.running }
       else s)
    have key : (∀ e ∈ (if q.hash ∈ s.pending then s
       else if s.pending.length ≥ limit then { s with queue := s.queue ++ [(q, t)] }
       else if okStatic q then { s with pending := q.hash :: s.pending, running := (q, t) :: s.running }
       else s).running, e ∈ s.running ∨ e = (q, t)) ∧ (∀ e ∈ (if q.hash ∈ s.pending then s
       else if s.pending.length ≥ limit then { s with queue := s.queue ++ [(q, t)] }
       else if okStatic q then { s with pending := q.hash :: s.pending, running := (q, t) :: s.running }
       else s).queue, e ∈ s.queue ∨ e = (q, t)) := by
      by_cases h1 : q.hash ∈ s.pending
      · rw [if_pos h1]; exact ⟨fun e h => .inl h, fun e h => .inl h⟩
      · rw [if_neg h1]
        by_cases h2 : s.pending.length ≥ limit
        · rw [if_pos h2]
          refine ⟨fun e h => .inl h, fun e h => ?_⟩
          rcases List.mem_append.1 h with h | h
          · exact .inl h
          · exact .inr (List.mem_singleton.1 h)
        · rw [if_neg h2]
          by_cases h3 : okStatic q
          · rw [if_pos h3]
            refine ⟨fun e h => ?_, fun e h => .inl h⟩
            rcases List.mem_cons.1 h with h | h
            · exact .inr h
            · exact .inl h
          · rw [if_neg h3]; exact ⟨fun e h => .inl h, fun e h => .inl h⟩
    constructor
    · intro e he
      rcases i1 e he with h | h
      · rcases key.1 e h with h | h
        · exact .inl h
        · exact .inr (by simp [h])
      · exact .inr (by simp [h])
    · intro e he
      rcases i2 e he with h | h
      · rcases key.2 e h with h | h
        · exact .inl h
        · exact .inr (by simp [h])
      · exact .inr (by simp [h])

/-- C109: once a point with a given input and output is recorded, no other proof with the same input and
    output is ever verified, whatever it says about its position. -/
theorem C109_first_only {limit : Nat} {ready : Vdf H A → Ready}
    {order : List (Vdf H A × Int) → List (Vdf H A × Int)} (ho : ∀ l, ∀ e ∈ order l, e ∈ l)
    {okStatic : Vdf H A → Bool} {s : Books H A} {e : Vdf H A × Int}
    (hf : (findVdfPoint s.tree e.1.input e.1.output).isSome)
    (hr : e ∈ (verifyVdfs limit ready order okStatic s).running) : e ∈ s.running := by
  unfold verifyVdfs at hr
  by_cases h1 : s.queue = [] ∨ s.pending.length ≥ limit
  · rw [if_pos h1] at hr; exact hr
  · rw [if_neg h1] at hr
    rcases tryLoop_running.1 e hr with h | h
    · exact h
    · have h2 := of_decide_eq_true (List.mem_filter.1 (ho _ e h)).2
      have hd : decideOne ready s.tree e.1 = .drop := by
        unfold decideOne
        cases ready e.1 <;> simp [hf]
      rw [hd] at h2
      cases h2

/-- C109 fails in another way without the assumption on positions: someone repeats the proof of an honest
    time lord with another `start` (the hash and the signature are theirs, the work is not). If it is
    verified first, the honest proof is thrown away as already verified, and the node finds no point to
    make a block from, although it has verified the step. -/
theorem C109_displaced :
    (run exCfg exBooks (exFeed (exV 1 20 502 600 1000) 1) >>= fun s =>
      findNext exParams exGet firstOf s.index ex1) = .ok [(exV 1 20 502 600 1000).point 1] ∧
    (run exCfg exBooks (exFeed (exV 9 21 502 600 1000) 1 ++ exFeed (exV 1 20 502 600 1000) 2)) =
      .ok ⟨[], [], [], [(exV 9 21 502 600 1000).point 1], [(exV 9 21 502 600 1000).point 1]⟩ ∧
    findNext exParams exGet firstOf [(exV 9 21 502 600 1000).point 1] ex1 = .ok [] := by decide

end Verif.Time
