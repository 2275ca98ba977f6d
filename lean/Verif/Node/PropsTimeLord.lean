import Verif.Node.TimeLordLemmas
/-
  C96: what a time lord publishes is accepted by the check of C35.
-/
namespace Verif.Node.TimeLord

open Verif.Codec

variable {α : Type}

/-! ### Specification -/

/-- The proof as a node checks it (Node_verify.cpp:298-299: the first segment starts from the input
    with the value and the reward address hashed in). -/
def asVdf (e : Env α) (p : Proof α) : Vdf α :=
  { first := e.mix p.input p.prev, segments := p.segments, segmentSize := p.segmentSize }

/-- A run with the requests of one chain `c`: between two infusions of `c` each, started at the
    first. No proofs are made between the moment a request sends the computation back and the moment
    the computing thread obeys, the infusion of an open request is not discarded, and the
    computation is not stopped while requests are open. -/
inductive FairRun [DecidableEq α] (e : Env α) (c : Chain α) : State α → Prop
  | init : FairRun e c (State.init e)
  | step {s t : State α} {o : Op α} : FairRun e c s → Fair e c s o → TimeLord.step e s o = some t →
      FairRun e c t

/-! ### Theorems -/

theorem FairRun.inv [DecidableEq α] {e : Env α} (hS : 0 < e.seg) (hk : 0 < e.keep) {c : Chain α}
    {s : State α} (h : FairRun e c s) : Inv e c s := by
  induction h with
  | init => exact Inv.init e c
  | @step s t o _ hf hs ih =>
    cases o with
    | request r =>
      have := Option.some.inj hs
      rw [← this]; exact ih.handle hf
    | update =>
      have := Option.some.inj hs
      rw [← this]; exact ih.update hS hk hf.1 hf.2
    | stop =>
      have := Option.some.inj hs
      rw [← this]; exact ih.stop hf
    | lock =>
      obtain ⟨t', h1, h2⟩ := ih.lockStep hS
      have h3 : TimeLord.lockStep e s = some t := hs
      rw [h1] at h3
      rw [← Option.some.inj h3]; exact h2
    | compute =>
      have := Option.some.inj hs
      rw [← this]; exact ih.computeStep
    | timer =>
      have := Option.some.inj hs
      rw [← this]; exact ih.timer

/-- Following step by step is iterating from the start. -/
theorem Follows.iter {H : α → α} {n : Nat} {f : α → α} (hf : f = Codec.iter H n) {x : α}
    {l : List α} (h : Follows f x l) (i : Nat) (hi : i < l.length) :
    l[i]? = some (Codec.iter H ((i + 1) * n) x) := by
  induction l generalizing x i with
  | nil => simp at hi
  | cons y l ih =>
    cases i with
    | zero =>
      rw [List.getElem?_cons_zero, h.1, hf, Nat.zero_add, Nat.one_mul]
    | succ i =>
      rw [List.getElem?_cons_succ, ih h.2 i (by simpa using hi), h.1, hf, ← iter_add,
        show n + (i + 1) * n = (i + 1 + 1) * n by rw [Nat.add_mul (i + 1) 1, Nat.one_mul]; omega]

/-- C96, partial: with the requests of one chain, every proof of time ever published has the number
    of iterations its segments stand for, and every checkpoint in it is what iterating the hash
    from the input with the infusion reproduces. Missing: the races and stale requests below. -/
theorem C96_sequential_partial [DecidableEq α] (e : Env α) (H : α → α)
    (hH : e.comp = Codec.iter H e.seg) (hS : 0 < e.seg) (hk : 0 < e.keep) (c : Chain α)
    (s : State α) (h : FairRun e c s) (p : Proof α) (hp : p ∈ s.published) :
    p.segments ≠ [] ∧ p.segments.length * p.segmentSize = p.numIters
      ∧ SequentialOk H (asVdf e p) := by
  have hr := (h.inv hS hk).right p hp
  refine ⟨hr.some, by rw [hr.size]; exact hr.count, fun i hi => ?_⟩
  show p.segments[i]? = some (Codec.iter H ((i + 1) * p.segmentSize) (e.mix p.input p.prev))
  rw [hr.size]
  exact hr.follow.iter hH i hi

/-- C96, partial: so the check of a node (C35) accepts it, whatever way it is run. -/
theorem C96_accepted_partial [DecidableEq α] (e : Env α) (n : VdfEnv α)
    (hH : e.comp = Codec.iter n.H e.seg) (hS : 0 < e.seg) (hS' : e.seg < 2 ^ 32) (hk : 0 < e.keep)
    (c : Chain α) (s : State α) (h : FairRun e c s) (p : Proof α) (hp : p ∈ s.published)
    (f : VdfFits n (asVdf e p)) (v : VState) (hv : VRun n (asVdf e p) vInit v)
    (hf : vFinal n (asVdf e p) v) : vOutcome (asVdf e p) v = .ok () := by
  obtain ⟨h1, -, h3⟩ := C96_sequential_partial e n.H hH hS hk c s h p hp
  have hsz : (asVdf e p).segmentSize < 2 ^ 32 := by
    show p.segmentSize < 2 ^ 32
    rw [((h.inv hS hk).right p hp).size]; exact hS'
  exact (C35_any_schedule n (asVdf e p) f hsz v hv hf).2 ⟨h1, h3⟩

/-- While running there is always a place to go on from. -/
theorem step_ready [DecidableEq α] {e : Env α} {s : State α} (h : s.doRun = true → s.peak ≠ none)
    (o : Op α) : ∃ t, step e s o = some t ∧ (t.doRun = true → t.peak ≠ none) := by
  cases o with
  | request r =>
    refine ⟨_, rfl, ?_⟩
    show (takeInput (takeInfusion e (clearBetween s r) r) r).doRun = true →
      (takeInput (takeInfusion e (clearBetween s r) r) r).peak ≠ none
    have h1 : (takeInfusion e (clearBetween s r) r).doRun = true →
        (takeInfusion e (clearBetween s r) r).peak ≠ none := by
      unfold takeInfusion
      by_cases hf : infusionFork (clearBetween s r) r = true
      · rw [if_pos hf]; simp
      · rw [if_neg hf]; exact h
    unfold takeInput
    cases r.input with
    | none => exact h1
    | some x =>
      dsimp only
      by_cases hd : (takeInfusion e (clearBetween s r) r).doRun = true
      · rw [if_pos hd]
        by_cases hr : restarts (takeInfusion e (clearBetween s r) r) r.start x = true
        · rw [if_pos hr]; simp
        · rw [if_neg hr]; exact h1
      · rw [if_neg hd]; simp
  | update => exact ⟨_, rfl, h⟩
  | stop => exact ⟨_, rfl, fun hd => (by cases hd)⟩
  | lock =>
    show ∃ t, lockStep e s = some t ∧ _
    unfold lockStep
    by_cases hd : (s.doRun && !s.computing) = true
    · rw [if_pos hd]
      have hd1 : s.doRun = true := (by simp at hd; exact hd.1)
      cases hn : nextPoint s with
      | none =>
        unfold nextPoint at hn
        by_cases hr : s.isReset = true
        · rw [if_pos hr] at hn; exact absurd hn (h hd1)
        · rw [if_neg hr] at hn; cases hn
      | some p => exact ⟨_, rfl, fun _ => (by simp)⟩
    · rw [if_neg hd]; exact ⟨s, rfl, h⟩
  | compute =>
    refine ⟨_, rfl, ?_⟩
    unfold computeStep
    by_cases hc : s.computing = true
    · rw [if_pos hc]; exact h
    · rw [if_neg hc]; exact h
  | timer => exact ⟨_, rfl, h⟩

/-- C96: no sequence of requests, stops and steps of the two threads makes the computing thread read
    a null pointer. -/
theorem C96_defined [DecidableEq α] (e : Env α) (os : List (Op α)) :
    (run e (State.init e) os).isSome := by
  have h : ∀ (os : List (Op α)) (s : State α), (s.doRun = true → s.peak ≠ none) →
      (run e s os).isSome := by
    intro os
    induction os with
    | nil => intro s _; rfl
    | cons o os ih =>
      intro s hs
      obtain ⟨t, h1, h2⟩ := step_ready (e := e) hs o
      unfold run
      rw [h1]
      exact ih t h2
  exact h os _ (fun h => (by cases h))

/-- C96: a request is answered once both its ends are reached, unless one that ends earlier waits. -/
theorem C96_answered (e : Env α) (s : State α) (r : Request α) (pre post : List (Request α))
    (hq : current s.history s.pending = pre ++ r :: post)
    (hpre : ∀ q ∈ pre, reached s.history q = true) (hr : reached s.history r = true)
    (b : Entry α) (hb : entryAt s.history r.start = some b) :
    ∃ p ∈ (update e s).published, p.start = r.start ∧ p.numIters = r.stop - r.start
      ∧ p.prev = r.infuse ∧ p.input = b.out := by
  have hs : r ∈ served s := by
    unfold served
    rw [hq]
    clear hq
    induction pre with
    | nil => rw [List.nil_append, List.takeWhile_cons_of_pos hr]; exact List.mem_cons_self
    | cons a pre ih =>
      rw [List.cons_append, List.takeWhile_cons_of_pos (hpre a List.mem_cons_self)]
      exact List.mem_cons_of_mem _ (ih fun q hq => hpre q (List.mem_cons_of_mem _ hq))
  have hp : proofFor e s.history r = some ⟨r.start, r.stop - r.start, e.seg, b.out, r.infuse,
      between s.history r.start r.stop⟩ := by
    unfold proofFor
    rw [hb]
  exact ⟨_, List.mem_append.2 (.inr (List.mem_filterMap.2 ⟨r, hs, hp⟩)), rfl, rfl, rfl, rfl⟩

/-- C96: a request not answered yet stays open: an `update` forgets only what it reached or what ends
    before the history. -/
theorem C96_waits (e : Env α) (s : State α) (r : Request α) (hr : r ∈ s.pending)
    (hn : reached s.history r = false) (hb : ∀ x, s.history.head? = some x → x.iters ≤ r.stop) :
    r ∈ (update e s).pending := by
  have hc : r ∈ current s.history s.pending := by
    cases hh : s.history with
    | nil => exact hr
    | cons x l =>
      have := hb x (by rw [hh]; rfl)
      exact List.mem_filter.2 ⟨hr, by simpa using this⟩
  show r ∈ (current s.history s.pending).dropWhile (reached s.history)
  generalize current s.history s.pending = l at hc
  induction l with
  | nil => cases hc
  | cons a l ih =>
    by_cases ha : reached s.history a = true
    · rw [List.dropWhile_cons_of_pos ha]
      cases hc with
      | head => rw [hn] at ha; cases ha
      | tail _ hc => exact ih hc
    · rw [List.dropWhile_cons_of_neg ha]; exact hc

/-- C96: a request that is not older than what was published last is open after it arrived, and so is
    what was open before and ends outside of its interval. -/
theorem C96_taken [DecidableEq α] (e : Env α) (s : State α) (r : Request α)
    (h : s.peakIters < r.stop) (ho : r.start < r.stop) :
    r ∈ (handle e s r).pending
      ∧ ∀ q ∈ s.pending, q.stop ≤ r.start ∨ r.stop < q.stop → q ∈ (handle e s r).pending := by
  have h1 : ∀ t : State α, (takeInfusion e t r).pending = t.pending
      ∧ (takeInfusion e t r).peakIters = t.peakIters := by
    intro t
    unfold takeInfusion
    by_cases hf : infusionFork t r = true
    · rw [if_pos hf]; exact ⟨rfl, rfl⟩
    · rw [if_neg hf]; exact ⟨rfl, rfl⟩
  have h2 : ∀ t : State α, (takeInput t r).pending = t.pending
      ∧ (takeInput t r).peakIters = t.peakIters := by
    intro t
    unfold takeInput
    cases r.input with
    | none => exact ⟨rfl, rfl⟩
    | some x =>
      dsimp only
      by_cases hd : t.doRun = true
      · rw [if_pos hd]
        by_cases hf : restarts t r.start x = true
        · rw [if_pos hf]; exact ⟨rfl, rfl⟩
        · rw [if_neg hf]; exact ⟨rfl, rfl⟩
      · rw [if_neg hd]; exact ⟨rfl, rfl⟩
  have h3 := h2 (takeInfusion e (clearBetween s r) r)
  have h4 := h1 (clearBetween s r)
  have hfl : floorIters (takeInput (takeInfusion e (clearBetween s r) r) r) < r.stop := by
    unfold floorIters
    by_cases hb : (takeInput (takeInfusion e (clearBetween s r) r) r).isReset = true
    · rw [if_pos hb]; omega
    · rw [if_neg hb, h3.2, h4.2]; exact h
  have hp : (handle e s r).pending = putPending (dropPending s.pending r.start r.stop) r := by
    unfold handle enqueue
    dsimp only
    rw [if_pos hfl, h3.1, h4.1]
    rfl
  rw [hp]
  refine ⟨?_, fun q hq hq' => ?_⟩
  · exact List.mem_append.2 (.inr List.mem_cons_self)
  · have hd : q ∈ dropPending s.pending r.start r.stop := by
      refine List.mem_filter.2 ⟨hq, ?_⟩
      simp only [Bool.not_eq_true', Bool.and_eq_false_iff, decide_eq_false_iff_not]
      omega
    rcases hq' with ho | ho
    · by_cases hl : q.stop < r.stop
      · exact List.mem_append.2 (.inl (List.mem_filter.2 ⟨hd, by simpa using hl⟩))
      · by_cases hg : r.stop < q.stop
        · exact List.mem_append.2 (.inr (List.mem_cons_of_mem _
            (List.mem_filter.2 ⟨hd, by simpa using hg⟩)))
        · omega
    · exact List.mem_append.2 (.inr (List.mem_cons_of_mem _
        (List.mem_filter.2 ⟨hd, by simpa using ho⟩)))

/-! ### Concrete runs -/

namespace Demo

/-- Hashes are numbers: one iteration adds one, an infusion of `v` adds `100 * v`. -/
def env : Env Nat :=
  { seg := 2, comp := Codec.iter (fun x => x + 1) 2, mix := fun x v => x + 100 * v, zero := 0,
    keep := 100 }

/-- Infusions at 0, 4 and 8. -/
def chain : Chain Nat := fun k =>
  if k = 0 then some 1 else if k = 4 then some 2 else if k = 8 then some 3 else none

def first : Request Nat := { start := 0, stop := 4, infuse := 1, input := some 10 }
def second : Request Nat := { start := 4, stop := 8, infuse := 2, input := none }

/-- `n` segments. -/
def segs : Nat → List (Op Nat)
  | 0 => [.lock]
  | n + 1 => .lock :: .compute :: segs n

def after (os : List (Op Nat)) : State Nat := (run env (State.init env) os).getD (State.init env)

theorem run_fair {s t : State Nat} {os : List (Op Nat)} (h : FairRun env chain s)
    (hf : ∀ i u o, os[i]? = some o → run env s (os.take i) = some u → Fair env chain u o)
    (hr : run env s os = some t) : FairRun env chain t := by
  induction os generalizing s with
  | nil => rw [← Option.some.inj hr]; exact h
  | cons o os ih =>
    unfold run at hr
    cases ho : step env s o with
    | none => rw [ho] at hr; cases hr
    | some u =>
      rw [ho] at hr
      refine ih (.step h (hf 0 s o rfl rfl) ho) (fun i w o' h1 h2 => ?_) hr
      refine hf (i + 1) w o' h1 ?_
      rw [List.take_succ_cons]
      unfold run
      rw [ho]
      exact h2

theorem first_of : OfChain chain first where
  ord := by decide
  value := by decide
  inner k h1 h2 := by
    have h1 : 0 < k := h1
    have h2 : k < 4 := h2
    unfold chain
    rw [if_neg (by omega), if_neg (by omega), if_neg (by omega)]

theorem second_of : OfChain chain second where
  ord := by decide
  value := by decide
  inner k h1 h2 := by
    have h1 : 4 < k := h1
    have h2 : k < 8 := h2
    unfold chain
    rw [if_neg (by omega), if_neg (by omega), if_neg (by omega)]

/-- Steps that are fair in every state. -/
def Plain : Op Nat → Bool
  | .request r => decide (r = first) || decide (r = second)
  | .lock => true
  | .compute => true
  | .timer => true
  | _ => false

theorem plain_fair {o : Op Nat} (h : Plain o = true) (s : State Nat) : Fair env chain s o := by
  cases o with
  | request r =>
    have h : r = first ∨ r = second := by simpa [Plain] using h
    rcases h with h | h <;> rw [h]
    · exact first_of
    · exact second_of
  | lock => trivial
  | compute => trivial
  | timer => trivial
  | update => cases h
  | stop => cases h

def sched : List (Op Nat) := [.request first, .request second] ++ segs 4

/-- The hypotheses of C96 are met by a run that publishes two proofs. -/
theorem demo_fair : FairRun env chain (update env (after sched)) := by
  have h1 : FairRun env chain (after sched) := by
    refine run_fair (os := sched) .init (fun i u o h1 _ => ?_) (by decide +kernel)
    refine plain_fair ?_ u
    have h2 : ∀ o ∈ sched, Plain o = true := by decide
    exact h2 o (List.mem_of_getElem? h1)
  exact .step h1 (o := .update) ⟨by decide +kernel, by decide +kernel⟩ rfl

example : (update env (after sched)).published =
    [{ start := 0, numIters := 4, segmentSize := 2, input := 10, prev := 1, segments := [112, 114] },
     { start := 4, numIters := 4, segmentSize := 2, input := 114, prev := 2,
       segments := [316, 318] }] := by decide +kernel

/-- The checkpoints are what iterating reproduces. -/
def ok (p : Proof Nat) : Bool :=
  decide (∀ i ∈ List.range p.segments.length,
    p.segments[i]? = some (p.input + 100 * p.prev + (i + 1) * 2))

example : (update env (after sched)).published.all ok = true := by decide +kernel

end Demo

/-! ### What goes wrong otherwise -/

open Demo in
/-- C96 fails in a race: the second request of the same chain comes late. It sends the computation
    back, but an `update` queued before that is executed first: a proof is published whose
    checkpoints do not contain the infusion it names. -/
theorem C96_race :
    ∃ p ∈ (update env (after ([.request first] ++ segs 4 ++ [.request second]))).published,
      p.prev = 2 ∧ ¬ SequentialOk (fun x => x + 1) (asVdf env p) := by
  refine ⟨{ start := 4, numIters := 4, segmentSize := 2, input := 114, prev := 2,
            segments := [116, 118] }, by decide +kernel, rfl, fun h => ?_⟩
  have := h 0 (by decide)
  revert this
  decide

open Demo in
/-- C96 fails after a change of chains: the request for an interval of the old chain outlives the
    infusion it depends on and is answered without it. No reset is pending when it is. -/
theorem C96_stale :
    let third : Request Nat := { start := 8, stop := 12, infuse := 3, input := none }
    let other : Request Nat := { start := 4, stop := 10, infuse := 7, input := none }
    let s := after ([.request first, .request second, .request third, .request other] ++ segs 6)
    s.isReset = false ∧ ∃ p ∈ (update env s).published,
      p.prev = 3 ∧ ¬ SequentialOk (fun x => x + 1) (asVdf env p) := by
  refine ⟨(by decide +kernel),
          { start := 8, numIters := 4, segmentSize := 2, input := 818, prev := 3,
            segments := [820, 822] }, by decide +kernel, rfl, fun h => ?_⟩
  have := h 0 (by decide)
  revert this
  decide

open Demo in
/-- C96 fails after a stop: requests survive it, infusions do not. -/
theorem C96_stop :
    let s := after ([.request first, .request second, .stop, .request first] ++ segs 4)
    s.isReset = false ∧ ∃ p ∈ (update env s).published,
      p.prev = 2 ∧ ¬ SequentialOk (fun x => x + 1) (asVdf env p) := by
  refine ⟨(by decide +kernel),
          { start := 4, numIters := 4, segmentSize := 2, input := 114, prev := 2,
            segments := [116, 118] }, by decide +kernel, rfl, fun h => ?_⟩
  have := h 0 (by decide)
  revert this
  decide

open Demo in
/-- A request for a point before the history, with an input and an infusion not known yet, restarts
    the computation at that point from the zero hash and ignores the input. -/
theorem C96_zero :
    let late : Request Nat := { start := 4, stop := 8, infuse := 2, input := some 50 }
    let s := after ([.request { start := 8, stop := 12, infuse := 3, input := some 90 }] ++ segs 1
      ++ [.request late])
    s.peak = some (4, 0) ∧ s.isReset = true
      ∧ (after ([.request { start := 8, stop := 12, infuse := 3, input := some 90 }] ++ segs 1
        ++ [.request late, .compute, .lock])).history = [⟨4, 0, some 2⟩] := by
  decide +kernel

end Verif.Node.TimeLord
