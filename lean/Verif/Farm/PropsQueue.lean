/-
  C136: what becomes of the challenges that a harvester gets.
-/
import Verif.Farm.Queue

namespace Verif.Farm

variable {η : Type} [DecidableEq η]

/-! ### counting -/

def isQueued (ch : η) : Ev η → Bool
  | .queued e => decide (e.req.challenge = ch)
  | _ => false

def isReplaced (ch : η) : Ev η → Bool
  | .replaced e => decide (e.req.challenge = ch)
  | _ => false

def isMissed (ch : η) : Ev η → Bool
  | .missed e _ => decide (e.req.challenge = ch)
  | _ => false

def isLooked (ch : η) : Ev η → Bool
  | .looked e _ => decide (e.req.challenge = ch)
  | _ => false

omit [DecidableEq η] in
def isCleared : Ev η → Bool
  | .cleared => true
  | _ => false

def isFor (ch : η) (e : Ent η) : Bool := decide (e.req.challenge = ch)

/-- How often `ch` was queued, and what became of it. -/
structure Acc (ch : η) (s : Hv η) : Prop where
  sum : s.log.countP (isQueued ch) = s.log.countP (isLooked ch) + s.log.countP (isMissed ch) +
    s.log.countP (isReplaced ch) + s.queue.countP (isFor ch)
  once : s.log.countP (isQueued ch) ≤ s.log.countP isCleared + (if ch ∈ s.checked then 1 else 0)

/-- Ascending heights; what the record says is in time; the timer is set. -/
structure Inv (limit : Int) (s : Hv η) : Prop where
  asc : s.queue.Pairwise fun a b => a.req.vdfHeight < b.req.vdfHeight
  armed : s.queue ≠ [] → s.armed = true
  looked : ∀ e now, .looked e now ∈ s.log → now - e.recv ≤ limit
  missed : ∀ e now, .missed e now ∈ s.log → limit < now - e.recv

/-! ### the map -/

omit [DecidableEq η] in
theorem put_mem {e : Ent η} : ∀ {l : List (Ent η)} {x : Ent η}, x ∈ put e l → x = e ∨ x ∈ l
  | [], x, h => .inl (List.mem_singleton.1 h)
  | y :: l, x, h => by
    unfold put at h
    by_cases h1 : e.req.vdfHeight < y.req.vdfHeight
    · rw [if_pos h1] at h; exact List.mem_cons.1 h
    · rw [if_neg h1] at h
      by_cases h2 : y.req.vdfHeight = e.req.vdfHeight
      · rw [if_pos h2] at h
        exact (List.mem_cons.1 h).imp id (List.mem_cons_of_mem _)
      · rw [if_neg h2] at h
        rcases List.mem_cons.1 h with h | h
        · exact .inr (h ▸ List.mem_cons_self)
        · exact (put_mem h).imp id (List.mem_cons_of_mem _)

omit [DecidableEq η] in
theorem put_asc {e : Ent η} : ∀ {l : List (Ent η)}, (l.Pairwise fun a b => a.req.vdfHeight < b.req.vdfHeight) →
    (put e l).Pairwise fun a b => a.req.vdfHeight < b.req.vdfHeight
  | [], _ => List.pairwise_singleton _ _
  | y :: l, h => by
    rw [List.pairwise_cons] at h
    unfold put
    by_cases h1 : e.req.vdfHeight < y.req.vdfHeight
    · rw [if_pos h1, List.pairwise_cons]
      refine ⟨?_, List.pairwise_cons.2 h⟩
      intro x hx
      rcases List.mem_cons.1 hx with rfl | hx
      · exact h1
      · exact Nat.lt_trans h1 (h.1 x hx)
    · rw [if_neg h1]
      by_cases h2 : y.req.vdfHeight = e.req.vdfHeight
      · rw [if_pos h2, List.pairwise_cons]
        exact ⟨fun x hx => by rw [← h2]; exact h.1 x hx, h.2⟩
      · rw [if_neg h2, List.pairwise_cons]
        refine ⟨?_, put_asc h.2⟩
        intro x hx
        rcases put_mem hx with rfl | hx
        · omega
        · exact h.1 x hx

theorem put_none {e : Ent η} (ch : η) : ∀ {l : List (Ent η)}, find e.req.vdfHeight l = none →
    (put e l).countP (isFor ch) = l.countP (isFor ch) + (if isFor ch e then 1 else 0)
  | [], _ => by unfold put; rw [List.countP_cons]
  | y :: l, h => by
    unfold find at h
    by_cases h2 : y.req.vdfHeight = e.req.vdfHeight
    · rw [if_pos h2] at h; cases h
    · rw [if_neg h2] at h
      unfold put
      by_cases h1 : e.req.vdfHeight < y.req.vdfHeight
      · rw [if_pos h1, List.countP_cons]
      · rw [if_neg h1, if_neg h2, List.countP_cons, List.countP_cons, put_none ch h]
        omega

theorem put_some {e x : Ent η} (ch : η) : ∀ {l : List (Ent η)},
    (l.Pairwise fun a b => a.req.vdfHeight < b.req.vdfHeight) → find e.req.vdfHeight l = some x →
    (put e l).countP (isFor ch) + (if isFor ch x then 1 else 0) = l.countP (isFor ch) + (if isFor ch e then 1 else 0)
  | [], _, h => by cases h
  | y :: l, hp, h => by
    unfold find at h
    rw [List.pairwise_cons] at hp
    unfold put
    by_cases h2 : y.req.vdfHeight = e.req.vdfHeight
    · rw [if_pos h2] at h
      cases h
      rw [if_neg (by omega), if_pos h2, List.countP_cons, List.countP_cons]
      omega
    · rw [if_neg h2] at h
      by_cases h1 : e.req.vdfHeight < y.req.vdfHeight
      · exfalso
        have : ∀ {l : List (Ent η)}, find e.req.vdfHeight l = some x → x ∈ l ∧ x.req.vdfHeight = e.req.vdfHeight := by
          intro l
          induction l with
          | nil => intro h; cases h
          | cons z l ih =>
            intro h
            unfold find at h
            by_cases h3 : z.req.vdfHeight = e.req.vdfHeight
            · rw [if_pos h3] at h; cases h; exact ⟨List.mem_cons_self, h3⟩
            · rw [if_neg h3] at h
              exact ⟨List.mem_cons_of_mem _ (ih h).1, (ih h).2⟩
        obtain ⟨a, b⟩ := this h
        have := hp.1 x a
        omega
      · rw [if_neg h1, if_neg h2, List.countP_cons, List.countP_cons]
        have := put_some ch hp.2 h
        omega

/-! ### steps -/

theorem handle_inv {limit : Int} {s : Hv η} (hi : Inv limit s) (ha : ∀ ch, Acc ch s) (c : Challenge η) (recv : Int) :
    Inv limit (handle c recv s) ∧ ∀ ch, Acc ch (handle c recv s) := by
  unfold handle
  by_cases h1 : s.ready = false
  · rw [if_pos h1]; exact ⟨hi, ha⟩
  rw [if_neg h1]
  by_cases h2 : c.challenge ∈ s.checked
  · rw [if_pos h2]; exact ⟨hi, ha⟩
  rw [if_neg h2]
  have hnew : ∀ ch, (if ch ∈ c.challenge :: s.checked then 1 else 0)
      = (if ch ∈ s.checked then 1 else 0) + (if c.challenge = ch then 1 else 0) := by
    intro ch
    by_cases e : c.challenge = ch
    · subst e; rw [if_pos List.mem_cons_self, if_neg h2, if_pos rfl]
    · rw [if_neg e, Nat.add_zero]
      by_cases k : ch ∈ s.checked
      · rw [if_pos k, if_pos (List.mem_cons_of_mem _ k)]
      · rw [if_neg k, if_neg]
        intro z
        rcases List.mem_cons.1 z with z | z
        · exact e z.symm
        · exact k z
  dsimp only
  cases hf : find c.vdfHeight s.queue with
  | none =>
    refine ⟨⟨put_asc hi.asc, fun _ => rfl, ?_, ?_⟩, fun ch => ⟨?_, ?_⟩⟩
    · intro e now h
      rcases List.mem_cons.1 h with h | h
      · cases h
      · exact hi.looked e now h
    · intro e now h
      rcases List.mem_cons.1 h with h | h
      · cases h
      · exact hi.missed e now h
    · have := (ha ch).sum
      have hp := put_none (e := ⟨c, recv⟩) ch hf
      dsimp only
      rw [hp, List.countP_cons, List.countP_cons, List.countP_cons, List.countP_cons]
      simp only [isQueued, isLooked, isMissed, isReplaced, isFor, decide_eq_true_eq] at *
      simp only [Bool.false_eq_true, if_false]
      omega
    · have := (ha ch).once
      dsimp only
      rw [hnew, List.countP_cons, List.countP_cons]
      simp only [isQueued, isCleared, decide_eq_true_eq]
      simp only [Bool.false_eq_true, if_false]
      omega
  | some x =>
    dsimp only
    by_cases h3 : x.req.challenge = c.challenge
    · rw [if_pos h3]
      refine ⟨⟨hi.asc, hi.armed, hi.looked, hi.missed⟩, fun ch => ⟨(ha ch).sum, ?_⟩⟩
      have := (ha ch).once
      dsimp only
      rw [hnew]
      omega
    · rw [if_neg h3]
      refine ⟨⟨put_asc hi.asc, fun _ => rfl, ?_, ?_⟩, fun ch => ⟨?_, ?_⟩⟩
      · intro e now h
        rcases List.mem_cons.1 h with h | h
        · cases h
        rcases List.mem_cons.1 h with h | h
        · cases h
        · exact hi.looked e now h
      · intro e now h
        rcases List.mem_cons.1 h with h | h
        · cases h
        rcases List.mem_cons.1 h with h | h
        · cases h
        · exact hi.missed e now h
      · have := (ha ch).sum
        have hp := put_some (e := ⟨c, recv⟩) ch hi.asc hf
        dsimp only
        repeat rw [List.countP_cons]
        simp only [isQueued, isLooked, isMissed, isReplaced, isFor, decide_eq_true_eq] at *
        simp only [Bool.false_eq_true, if_false]
        omega
      · have := (ha ch).once
        dsimp only
        rw [hnew]
        repeat rw [List.countP_cons]
        simp only [isQueued, isCleared, decide_eq_true_eq]
        simp only [Bool.false_eq_true, if_false]
        omega

theorem filter_split (ch : η) (f : Ent η → Bool) (l : List (Ent η)) :
    l.countP (isFor ch) = (l.filter f).countP (isFor ch) + (l.filter fun e => !f e).countP (isFor ch) := by
  induction l with
  | nil => rfl
  | cons x l ih =>
    rw [List.countP_cons, ih]
    cases h : f x with
    | true => rw [List.filter_cons_of_pos h, List.filter_cons_of_neg (by rw [h]; decide), List.countP_cons]; omega
    | false => rw [List.filter_cons_of_neg (by rw [h]; decide), List.filter_cons_of_pos (by rw [h]; rfl),
        List.countP_cons]; omega

theorem missed_count (ch : η) (now : Int) (l : List (Ent η)) :
    ((l.map fun e => Ev.missed e now).reverse.countP (isMissed ch)) = l.countP (isFor ch) := by
  rw [List.countP_reverse, List.countP_map]
  rfl

theorem missed_other (f : Ev η → Bool) (now : Int) (hf : ∀ e, f (.missed e now) = false) (l : List (Ent η)) :
    ((l.map fun e => Ev.missed e now).reverse.countP f) = 0 := by
  rw [List.countP_reverse, List.countP_map, List.countP_eq_zero]
  intro x _
  simp only [Function.comp_apply]
  rw [hf]
  decide

omit [DecidableEq η] in
theorem purge_asc {limit now : Int} {s : Hv η} (h : s.queue.Pairwise fun a b => a.req.vdfHeight < b.req.vdfHeight) :
    (purge limit now s).queue.Pairwise fun a b => a.req.vdfHeight < b.req.vdfHeight :=
  List.Pairwise.sublist List.filter_sublist h

theorem purge_acc {limit now : Int} {s : Hv η} (ha : ∀ ch, Acc ch s) (ch : η) : Acc ch (purge limit now s) := by
  have h1 := (ha ch).sum
  have h2 := (ha ch).once
  unfold purge
  refine ⟨?_, ?_⟩
  · dsimp only
    rw [List.countP_append, List.countP_append, List.countP_append, List.countP_append, missed_count,
      missed_other _ _ (fun _ => rfl), missed_other _ _ (fun _ => rfl), missed_other _ _ (fun _ => rfl)]
    have := filter_split ch (late limit now) s.queue
    omega
  · dsimp only
    rw [List.countP_append, List.countP_append, missed_other _ _ (fun _ => rfl), missed_other _ _ (fun _ => rfl)]
    omega

theorem look_acc {now : Int} {s : Hv η} (ha : ∀ ch, Acc ch s) (ch : η) : Acc ch (look now s) := by
  have h1 := (ha ch).sum
  have h2 := (ha ch).once
  unfold look
  cases h : s.queue.getLast? with
  | none => exact ha ch
  | some e =>
    have hq : s.queue = s.queue.dropLast ++ [e] := by
      obtain ⟨l, hl⟩ := List.getLast?_eq_some_iff.1 h
      rw [hl, List.dropLast_concat]
    rw [hq, List.countP_append, List.countP_cons, List.countP_nil] at h1
    refine ⟨?_, ?_⟩
    · dsimp only
      repeat rw [List.countP_cons]
      simp only [isQueued, isLooked, isMissed, isReplaced, isFor, decide_eq_true_eq] at *
      simp only [Bool.false_eq_true, if_false]
      omega
    · dsimp only
      repeat rw [List.countP_cons]
      simp only [isQueued, isCleared]
      simp only [Bool.false_eq_true, if_false]
      omega

theorem fire_inv {limit : Int} {s : Hv η} (hi : Inv limit s) (ha : ∀ ch, Acc ch s) (now : Int) :
    Inv limit (fire limit now s) ∧ ∀ ch, Acc ch (fire limit now s) := by
  unfold fire
  cases hs : s.armed with
  | false => rw [if_neg (by decide)]; exact ⟨hi, ha⟩
  | true =>
    rw [if_pos rfl]
    have ha' : ∀ ch, Acc ch { s with armed := false } := fun ch => ⟨(ha ch).sum, (ha ch).once⟩
    refine ⟨?_, look_acc (purge_acc ha')⟩
    have hasc : (purge limit now { s with armed := false }).queue.Pairwise fun a b => a.req.vdfHeight < b.req.vdfHeight :=
      purge_asc hi.asc
    have hl : ∀ e t, Ev.looked e t ∈ (purge limit now { s with armed := false }).log → t - e.recv ≤ limit := by
      intro e t h
      rcases List.mem_append.1 h with h | h
      · obtain ⟨x, _, hx⟩ := List.mem_map.1 (List.mem_reverse.1 h)
        cases hx
      · exact hi.looked e t h
    have hm : ∀ e t, Ev.missed e t ∈ (purge limit now { s with armed := false }).log → limit < t - e.recv := by
      intro e t h
      rcases List.mem_append.1 h with h | h
      · obtain ⟨x, x1, hx⟩ := List.mem_map.1 (List.mem_reverse.1 h)
        cases hx
        exact of_decide_eq_true (List.mem_filter.1 x1).2
      · exact hi.missed e t h
    have hq : ∀ e ∈ (purge limit now { s with armed := false }).queue, now - e.recv ≤ limit := by
      intro e he
      have := (List.mem_filter.1 he).2
      unfold late at this
      rw [Bool.not_eq_true', decide_eq_false_iff_not] at this
      omega
    generalize purge limit now { s with armed := false } = s1 at hasc hl hm hq
    unfold look
    cases h : s1.queue.getLast? with
    | none =>
      refine ⟨hasc, fun z => absurd (List.getLast?_eq_none_iff.1 h) z, hl, hm⟩
    | some e =>
      refine ⟨List.Pairwise.sublist (List.dropLast_sublist _) hasc, fun _ => rfl, ?_, ?_⟩
      · intro x t hx
        rcases List.mem_cons.1 hx with hx | hx
        · cases hx; exact hq e (List.mem_of_getLast? h)
        · exact hl x t hx
      · intro x t hx
        rcases List.mem_cons.1 hx with hx | hx
        · cases hx
        · exact hm x t hx

theorem reload_inv {limit : Int} {s : Hv η} (hi : Inv limit s) (ha : ∀ ch, Acc ch s) (found : Bool) :
    Inv limit (reload found s) ∧ ∀ ch, Acc ch (reload found s) := by
  unfold reload
  cases found with
  | false => rw [if_neg (by decide)]; exact ⟨hi, ha⟩
  | true =>
    rw [if_pos rfl]
    refine ⟨⟨hi.asc, hi.armed, ?_, ?_⟩, fun ch => ⟨?_, ?_⟩⟩
    · intro e now h
      rcases List.mem_cons.1 h with h | h
      · cases h
      · exact hi.looked e now h
    · intro e now h
      rcases List.mem_cons.1 h with h | h
      · cases h
      · exact hi.missed e now h
    · have := (ha ch).sum
      dsimp only
      repeat rw [List.countP_cons]
      simp only [isQueued, isLooked, isMissed, isReplaced]
      simp only [Bool.false_eq_true, if_false]
      omega
    · have := (ha ch).once
      dsimp only
      repeat rw [List.countP_cons]
      simp only [isQueued, isCleared]
      simp only [Bool.false_eq_true, if_false, if_true]
      have hle : (if ch ∈ s.checked then 1 else 0) ≤ 1 := by
        by_cases k : ch ∈ s.checked
        · rw [if_pos k]; decide
        · rw [if_neg k]; decide
      omega

theorem step_inv {limit : Int} {s : Hv η} (hi : Inv limit s) (ha : ∀ ch, Acc ch s) (o : Op η) :
    Inv limit (step limit s o) ∧ ∀ ch, Acc ch (step limit s o) := by
  cases o with
  | handle c recv => exact handle_inv hi ha c recv
  | fire now => exact fire_inv hi ha now
  | reload found => exact reload_inv hi ha found
  | ready => exact ⟨⟨hi.asc, hi.armed, hi.looked, hi.missed⟩, fun ch => ⟨(ha ch).sum, (ha ch).once⟩⟩

theorem run_inv (limit : Int) (ops : List (Op η)) : Inv limit (run limit ops) ∧ ∀ ch, Acc ch (run limit ops) := by
  have : ∀ (ops : List (Op η)) (s : Hv η), Inv limit s → (∀ ch, Acc ch s) →
      Inv limit (ops.foldl (step limit) s) ∧ ∀ ch, Acc ch (ops.foldl (step limit) s) := by
    intro ops
    induction ops with
    | nil => exact fun s a b => ⟨a, b⟩
    | cons o ops ih => exact fun s a b => ih _ (step_inv a b o).1 (step_inv a b o).2
  refine this ops _ ⟨.nil, fun h => absurd rfl h, fun _ _ h => (nomatch h), fun _ _ h => (nomatch h)⟩ fun ch => ⟨rfl, ?_⟩
  exact Nat.zero_le _

/-! ### C136 -/

/-- **C136.** Whatever happens: a challenge is looked up at most once, and once more for every time that new plots were
    found. -/
theorem C136_once (limit : Int) (ops : List (Op η)) (ch : η) :
    (run limit ops).log.countP (isLooked ch) ≤ 1 + (run limit ops).log.countP isCleared := by
  have h1 := ((run_inv limit ops).2 ch).sum
  have h2 := ((run_inv limit ops).2 ch).once
  have hle : (if ch ∈ (run limit ops).checked then 1 else 0) ≤ 1 := by
    by_cases k : ch ∈ (run limit ops).checked
    · rw [if_pos k]; decide
    · rw [if_neg k]; decide
  omega

/-- **C136.** Nothing is lost without a trace: a challenge that was queued was looked up, was too old, was replaced by
    another one for the same height, or is still queued. -/
theorem C136_accounted (limit : Int) (ops : List (Op η)) (ch : η) :
    (run limit ops).log.countP (isQueued ch) = (run limit ops).log.countP (isLooked ch) +
      (run limit ops).log.countP (isMissed ch) + (run limit ops).log.countP (isReplaced ch) +
      (run limit ops).queue.countP (isFor ch) :=
  ((run_inv limit ops).2 ch).sum

/-- **C136.** What is looked up is in time, and what is given up for its age is not. -/
theorem C136_timely (limit : Int) (ops : List (Op η)) (e : Ent η) (now : Int) :
    (.looked e now ∈ (run limit ops).log → now - e.recv ≤ limit) ∧
    (.missed e now ∈ (run limit ops).log → limit < now - e.recv) :=
  ⟨(run_inv limit ops).1.looked e now, (run_inv limit ops).1.missed e now⟩

/-- **C136.** A queue that is not empty is looked at: the timer is set. -/
theorem C136_armed (limit : Int) (ops : List (Op η)) (h : (run limit ops).queue ≠ []) : (run limit ops).armed = true :=
  (run_inv limit ops).1.armed h

/-- **C136.** When the timer fires and something queued is not too old, exactly the one with the greatest height among
    those is looked up. -/
theorem C136_newest (limit : Int) (ops : List (Op η)) (now : Int) {x : Ent η} (hx : x ∈ (run limit ops).queue)
    (ht : now - x.recv ≤ limit) :
    ∃ e rest, (run limit (ops ++ [.fire now])).log = .looked e now :: rest ∧ e ∈ (run limit ops).queue ∧
      now - e.recv ≤ limit ∧
      (∀ z ∈ (run limit ops).queue, now - z.recv ≤ limit → z.req.vdfHeight ≤ e.req.vdfHeight) ∧
      (∀ z, z ∈ (run limit (ops ++ [.fire now])).queue ↔
        z ∈ (run limit ops).queue ∧ now - z.recv ≤ limit ∧ z.req.vdfHeight ≠ e.req.vdfHeight) := by
  have hi := (run_inv limit ops).1
  have hr : run limit (ops ++ [.fire now]) = fire limit now (run limit ops) := by
    unfold run; rw [List.foldl_append]; rfl
  rw [hr]
  generalize run limit ops = s at *
  have harm := hi.armed (List.ne_nil_of_mem hx)
  unfold fire
  rw [if_pos harm]
  have hq : ∀ z, z ∈ (purge limit now { s with armed := false }).queue ↔ z ∈ s.queue ∧ now - z.recv ≤ limit := by
    intro z
    unfold purge
    dsimp only
    rw [List.mem_filter]
    unfold late
    rw [Bool.not_eq_true', decide_eq_false_iff_not]
    exact ⟨fun h => ⟨h.1, by omega⟩, fun h => ⟨h.1, by omega⟩⟩
  have hasc : (purge limit now { s with armed := false }).queue.Pairwise fun a b => a.req.vdfHeight < b.req.vdfHeight :=
    purge_asc hi.asc
  generalize purge limit now { s with armed := false } = s1 at hq hasc
  unfold look
  cases h : s1.queue.getLast? with
  | none =>
    have := (hq x).2 ⟨hx, ht⟩
    rw [List.getLast?_eq_none_iff.1 h] at this
    cases this
  | some e =>
    obtain ⟨l, hl⟩ := List.getLast?_eq_some_iff.1 h
    have he := (hq e).1 (List.mem_of_getLast? h)
    rw [hl, List.pairwise_append] at hasc
    have hlt : ∀ z ∈ l, z.req.vdfHeight < e.req.vdfHeight := fun z hz => hasc.2.2 z hz e List.mem_cons_self
    refine ⟨e, _, rfl, he.1, he.2, ?_, ?_⟩
    · intro z z1 z2
      have := (hq z).2 ⟨z1, z2⟩
      rw [hl] at this
      rcases List.mem_append.1 this with k | k
      · exact Nat.le_of_lt (hlt z k)
      · rw [List.mem_singleton.1 k]; exact Nat.le_refl _
    · intro z
      dsimp only
      rw [hl, List.dropLast_concat]
      constructor
      · intro k
        have := (hq z).1 (by rw [hl]; exact List.mem_append_left _ k)
        exact ⟨this.1, this.2, Nat.ne_of_lt (hlt z k)⟩
      · rintro ⟨z1, z2, z3⟩
        have := (hq z).2 ⟨z1, z2⟩
        rw [hl] at this
        rcases List.mem_append.1 this with k | k
        · exact k
        · rw [List.mem_singleton.1 k] at z3
          exact absurd rfl z3

omit [DecidableEq η] in
theorem fire_short {limit now : Int} {s : Hv η} (h : s.queue ≠ [] → s.armed = true) :
    (fire limit now s).queue.length ≤ s.queue.length - 1 := by
  by_cases hs : s.armed = true
  · unfold fire
    rw [if_pos hs]
    have hle : (purge limit now { s with armed := false }).queue.length ≤ s.queue.length := List.length_filter_le _ _
    generalize purge limit now { s with armed := false } = s1 at hle
    unfold look
    cases e : s1.queue.getLast? with
    | none => dsimp only; rw [List.getLast?_eq_none_iff.1 e]; exact Nat.zero_le _
    | some x => dsimp only; rw [List.length_dropLast]; omega
  · have : s.queue = [] := by
      by_cases k : s.queue = []
      · exact k
      · exact absurd (h k) hs
    unfold fire
    rw [if_neg hs, this]
    exact Nat.zero_le _

/-- **C136.** The queue is worked off: if no more challenges come, it is empty after the timer has fired as often as there
    are entries, whenever it does. -/
theorem C136_drained (limit : Int) (ops : List (Op η)) (times : List Int)
    (h : (run limit ops).queue.length ≤ times.length) : (run limit (ops ++ times.map .fire)).queue = [] := by
  induction times generalizing ops with
  | nil => rw [List.map_nil, List.append_nil]; exact List.length_eq_zero_iff.1 (Nat.le_zero.1 h)
  | cons t ts ih =>
    have hr : run limit (ops ++ [.fire t]) = fire limit t (run limit ops) := by
      unfold run; rw [List.foldl_append]; rfl
    have := ih (ops ++ [.fire t]) (by
      rw [hr]
      have := fire_short (limit := limit) (now := t) (run_inv limit ops).1.armed
      rw [List.length_cons] at h
      omega)
    rw [List.append_assoc] at this
    exact this

/-- **C136.** The claim that every challenge that came in time is looked up is false: of two challenges for the same
    height that come within the 10 ms the first is dropped, and it is not looked up either when it is sent again. -/
theorem C136_replaced : ∃ (ops : List (Op Nat)),
    ops = [.ready, .handle ⟨5, 1, 1000⟩ 100, .handle ⟨5, 2, 1000⟩ 105, .fire 115, .handle ⟨5, 1, 1000⟩ 120, .fire 130] ∧
    (run 90000 ops).queue = [] ∧ (run 90000 ops).log.countP (isLooked 1) = 0 ∧
    (run 90000 ops).log.countP (isMissed 1) = 0 ∧ (run 90000 ops).log.countP (isLooked 2) = 1 :=
  ⟨_, rfl, by decide, by decide, by decide, by decide⟩

/-- Challenges for the same height are the same, as long as the chain does not change. -/
def Agree (ops : List (Op η)) : Prop :=
  ∀ c r c' r', .handle c r ∈ ops → .handle c' r' ∈ ops → c.vdfHeight = c'.vdfHeight → c.challenge = c'.challenge

omit [DecidableEq η] in
theorem find_mem {h : Nat} {x : Ent η} : ∀ {l : List (Ent η)}, find h l = some x → x ∈ l ∧ x.req.vdfHeight = h
  | [], e => by cases e
  | z :: l, e => by
    unfold find at e
    by_cases h3 : z.req.vdfHeight = h
    · rw [if_pos h3] at e; cases e; exact ⟨List.mem_cons_self, h3⟩
    · rw [if_neg h3] at e
      exact ⟨List.mem_cons_of_mem _ (find_mem e).1, (find_mem e).2⟩

omit [DecidableEq η] in
theorem fire_queue {limit now : Int} {s : Hv η} {e : Ent η} (h : e ∈ (fire limit now s).queue) : e ∈ s.queue := by
  unfold fire at h
  by_cases hs : s.armed = true
  · rw [if_pos hs] at h
    unfold look at h
    cases k : (purge limit now { s with armed := false }).queue.getLast? with
    | none => rw [k] at h; exact (List.mem_filter.1 h).1
    | some x => rw [k] at h; exact (List.mem_filter.1 ((List.dropLast_sublist _).subset h)).1
  · rw [if_neg hs] at h; exact h

theorem fire_replaced {limit now : Int} {s : Hv η} (ch : η) :
    (fire limit now s).log.countP (isReplaced ch) = s.log.countP (isReplaced ch) ∧
    (fire limit now s).log.countP (isQueued ch) = s.log.countP (isQueued ch) := by
  unfold fire
  by_cases hs : s.armed = true
  · rw [if_pos hs]
    have hp : (purge limit now { s with armed := false }).log.countP (isReplaced ch) = s.log.countP (isReplaced ch) ∧
        (purge limit now { s with armed := false }).log.countP (isQueued ch) = s.log.countP (isQueued ch) := by
      unfold purge
      dsimp only
      rw [List.countP_append, List.countP_append, missed_other _ _ (fun _ => rfl), missed_other _ _ (fun _ => rfl),
        Nat.zero_add, Nat.zero_add]
      exact ⟨rfl, rfl⟩
    unfold look
    cases k : (purge limit now { s with armed := false }).queue.getLast? with
    | none => exact hp
    | some x =>
      dsimp only
      rw [List.countP_cons, List.countP_cons, hp.1, hp.2]
      exact ⟨rfl, rfl⟩
  · rw [if_neg hs]; exact ⟨rfl, rfl⟩

/-- What is queued came, and nothing was replaced. -/
theorem agree_inv (limit : Int) : ∀ (ops all : List (Op η)) (s : Hv η), Agree all → (∀ o ∈ ops, o ∈ all) →
    (∀ e ∈ s.queue, .handle e.req e.recv ∈ all) → (∀ ch, s.log.countP (isReplaced ch) = 0) →
    ∀ ch, (ops.foldl (step limit) s).log.countP (isReplaced ch) = 0
  | [], _, _, _, _, _, h => h
  | o :: ops, all, s, ha, hs, hq, hr => by
    refine agree_inv limit ops all _ ha (fun x hx => hs x (List.mem_cons_of_mem _ hx)) ?_ ?_
    · cases o with
      | handle c recv =>
        have hc : Op.handle c recv ∈ all := hs _ List.mem_cons_self
        show ∀ e ∈ (handle c recv s).queue, _
        unfold handle
        by_cases h1 : s.ready = false
        · rw [if_pos h1]; exact hq
        rw [if_neg h1]
        by_cases h2 : c.challenge ∈ s.checked
        · rw [if_pos h2]; exact hq
        rw [if_neg h2]
        have hput : ∀ e ∈ put ⟨c, recv⟩ s.queue, Op.handle e.req e.recv ∈ all := by
          intro e he
          rcases put_mem he with rfl | he
          · exact hc
          · exact hq e he
        dsimp only
        cases hf : find c.vdfHeight s.queue with
        | none => exact hput
        | some x =>
          dsimp only
          by_cases h3 : x.req.challenge = c.challenge
          · rw [if_pos h3]; exact hq
          · rw [if_neg h3]; exact hput
      | fire now => exact fun e he => hq e (fire_queue he)
      | reload found =>
        show ∀ e ∈ (reload found s).queue, _
        unfold reload
        cases found with
        | false => exact hq
        | true => exact hq
      | ready => exact hq
    · cases o with
      | handle c recv =>
        have hc : Op.handle c recv ∈ all := hs _ List.mem_cons_self
        intro ch
        show (handle c recv s).log.countP (isReplaced ch) = 0
        unfold handle
        by_cases h1 : s.ready = false
        · rw [if_pos h1]; exact hr ch
        rw [if_neg h1]
        by_cases h2 : c.challenge ∈ s.checked
        · rw [if_pos h2]; exact hr ch
        rw [if_neg h2]
        dsimp only
        cases hf : find c.vdfHeight s.queue with
        | none =>
          dsimp only
          rw [List.countP_cons, hr ch]
          rfl
        | some x =>
          dsimp only
          obtain ⟨x1, x2⟩ := find_mem hf
          rw [if_pos (ha _ _ _ _ (hq x x1) hc x2)]
          exact hr ch
      | fire now =>
        intro ch
        show (fire limit now s).log.countP (isReplaced ch) = 0
        rw [(fire_replaced ch).1]
        exact hr ch
      | reload found =>
        intro ch
        show (reload found s).log.countP (isReplaced ch) = 0
        unfold reload
        cases found with
        | false => exact hr ch
        | true =>
          rw [if_pos rfl, List.countP_cons, hr ch]
          rfl
      | ready => exact hr

/-- What was queued once stays in the record. -/
theorem queued_mono {limit : Int} {s : Hv η} (ch : η) (o : Op η) :
    s.log.countP (isQueued ch) ≤ (step limit s o).log.countP (isQueued ch) := by
  cases o with
  | handle c recv =>
    show _ ≤ (handle c recv s).log.countP _
    unfold handle
    by_cases h1 : s.ready = false
    · rw [if_pos h1]; exact Nat.le_refl _
    rw [if_neg h1]
    by_cases h2 : c.challenge ∈ s.checked
    · rw [if_pos h2]; exact Nat.le_refl _
    rw [if_neg h2]
    dsimp only
    cases hf : find c.vdfHeight s.queue with
    | none => dsimp only; rw [List.countP_cons]; exact Nat.le_add_right _ _
    | some x =>
      dsimp only
      by_cases h3 : x.req.challenge = c.challenge
      · rw [if_pos h3]; exact Nat.le_refl _
      · rw [if_neg h3, List.countP_cons, List.countP_cons]; omega
  | fire now => exact Nat.le_of_eq (fire_replaced ch).2.symm
  | reload found =>
    show _ ≤ (reload found s).log.countP _
    unfold reload
    cases found with
    | false => exact Nat.le_refl _
    | true => rw [if_pos rfl, List.countP_cons]; exact Nat.le_add_right _ _
  | ready => exact Nat.le_refl _

/-- A challenge that was checked was queued, in every state of a run. -/
theorem checked_queued (limit : Int) (ops : List (Op η)) (ch : η) (h : ch ∈ (run limit ops).checked) :
    1 ≤ (run limit ops).log.countP (isQueued ch) := by
  have : ∀ (ops : List (Op η)) (s : Hv η), Inv limit s → (∀ ch, Acc ch s) →
      (∀ ch ∈ s.checked, 1 ≤ s.log.countP (isQueued ch)) →
      ∀ ch ∈ (ops.foldl (step limit) s).checked, 1 ≤ (ops.foldl (step limit) s).log.countP (isQueued ch) := by
    intro ops
    induction ops with
    | nil => exact fun _ _ _ h => h
    | cons o ops ih =>
      intro s a b k
      refine ih _ (step_inv a b o).1 (step_inv a b o).2 ?_
      intro ch hch
      have hm := queued_mono (limit := limit) (s := s) ch o
      have old : ch ∈ s.checked → 1 ≤ (step limit s o).log.countP (isQueued ch) :=
        fun z => Nat.le_trans (k ch z) hm
      cases o with
      | handle c recv =>
        change ch ∈ (handle c recv s).checked at hch
        show 1 ≤ (handle c recv s).log.countP _
        change ch ∈ s.checked → 1 ≤ (handle c recv s).log.countP _ at old
        unfold handle at hch old ⊢
        by_cases h1 : s.ready = false
        · rw [if_pos h1] at hch old ⊢; exact old hch
        rw [if_neg h1] at hch old ⊢
        by_cases h2 : c.challenge ∈ s.checked
        · rw [if_pos h2] at hch old ⊢; exact old hch
        rw [if_neg h2] at hch old ⊢
        dsimp only at hch old ⊢
        cases hf : find c.vdfHeight s.queue with
        | none =>
          rw [hf] at hch old
          rcases List.mem_cons.1 hch with rfl | hch
          · dsimp only
            rw [List.countP_cons]
            simp only [isQueued, decide_true, if_true]
            omega
          · exact old hch
        | some x =>
          rw [hf] at hch old
          dsimp only at hch old ⊢
          by_cases h3 : x.req.challenge = c.challenge
          · rw [if_pos h3] at hch old ⊢
            rcases List.mem_cons.1 hch with rfl | hch
            · have hs := (b c.challenge).sum
              have : 0 < s.queue.countP (isFor c.challenge) :=
                List.countP_pos_iff.2 ⟨x, (find_mem hf).1, decide_eq_true h3⟩
              dsimp only
              omega
            · exact old hch
          · rw [if_neg h3] at hch old ⊢
            rcases List.mem_cons.1 hch with rfl | hch
            · dsimp only
              rw [List.countP_cons]
              simp only [isQueued, decide_true, if_true]
              omega
            · exact old hch
      | fire now =>
        refine old ?_
        change ch ∈ (fire limit now s).checked at hch
        unfold fire at hch
        by_cases hs : s.armed = true
        · rw [if_pos hs] at hch
          unfold look at hch
          cases e : (purge limit now { s with armed := false }).queue.getLast? with
          | none => rw [e] at hch; exact hch
          | some x => rw [e] at hch; exact hch
        · rw [if_neg hs] at hch; exact hch
      | reload found =>
        cases found with
        | false => exact old hch
        | true => cases hch
      | ready => exact old hch
  refine this ops _ ⟨.nil, fun h => absurd rfl h, fun _ _ h => absurd h List.not_mem_nil, fun _ _ h => absurd h List.not_mem_nil⟩
    (fun ch => ⟨rfl, Nat.zero_le _⟩) (fun _ h => absurd h List.not_mem_nil) ch h

/-- **C136.** A challenge that comes when the harvester is ready is looked up, or is given up for its age, or is still
    queued, as long as no other challenge comes for the same height. -/
theorem C136_all_partial (limit : Int) (ops rest : List (Op η)) (c : Challenge η) (recv : Int)
    (hready : (run limit ops).ready = true) (ha : Agree (ops ++ .handle c recv :: rest)) :
    let s := run limit (ops ++ .handle c recv :: rest)
    1 ≤ s.log.countP (isLooked c.challenge) + s.log.countP (isMissed c.challenge) + s.queue.countP (isFor c.challenge) := by
  intro s
  have h1 := C136_accounted limit (ops ++ .handle c recv :: rest) c.challenge
  have h2 : s.log.countP (isReplaced c.challenge) = 0 :=
    agree_inv limit _ _ _ ha (fun _ h => h) (fun _ h => absurd h List.not_mem_nil) (fun _ => rfl) c.challenge
  have hmid : c.challenge ∈ (run limit (ops ++ [.handle c recv])).checked := by
    have hr : run limit (ops ++ [.handle c recv]) = handle c recv (run limit ops) := by
      unfold run; rw [List.foldl_append]; rfl
    rw [hr]
    generalize run limit ops = t at hready
    unfold handle
    rw [if_neg (by rw [hready]; decide)]
    by_cases k : c.challenge ∈ t.checked
    · rw [if_pos k]; exact k
    rw [if_neg k]
    dsimp only
    cases hf : find c.vdfHeight t.queue with
    | none => exact List.mem_cons_self
    | some x =>
      dsimp only
      by_cases h3 : x.req.challenge = c.challenge
      · rw [if_pos h3]; exact List.mem_cons_self
      · rw [if_neg h3]; exact List.mem_cons_self
  have h3 := checked_queued limit _ _ hmid
  have h4 : ∀ (rest : List (Op η)) (t : Hv η), t.log.countP (isQueued c.challenge) ≤
      (rest.foldl (step limit) t).log.countP (isQueued c.challenge) := by
    intro rest
    induction rest with
    | nil => exact fun _ => Nat.le_refl _
    | cons o rest ih => exact fun t => Nat.le_trans (queued_mono _ o) (ih _)
  have h5 := h4 rest (run limit (ops ++ [.handle c recv]))
  have h6 : rest.foldl (step limit) (run limit (ops ++ [.handle c recv])) = s := by
    show _ = run limit (ops ++ .handle c recv :: rest)
    unfold run
    rw [← List.foldl_append, List.append_assoc]
    rfl
  rw [h6] at h5
  change s.log.countP (isQueued c.challenge) = s.log.countP (isLooked c.challenge) + s.log.countP (isMissed c.challenge) +
    s.log.countP (isReplaced c.challenge) + s.queue.countP (isFor c.challenge) at h1
  omega

/-- The cases are not empty: three challenges, the newest first, one of them too late. -/
example : ((run 1000 [.ready, .handle ⟨5, 1, 9⟩ 100, .handle ⟨7, 2, 9⟩ 300, .handle ⟨6, 3, 9⟩ 310, .fire 350, .fire 1200,
      .fire 1200] : Hv Nat).log.map fun e => match e with
        | .queued e => (0, e.req.vdfHeight)
        | .replaced e => (1, e.req.vdfHeight)
        | .missed e _ => (2, e.req.vdfHeight)
        | .looked e _ => (3, e.req.vdfHeight)
        | .cleared => (4, 0)) = [(3, 6), (2, 5), (3, 7), (0, 6), (0, 7), (0, 5)] := by decide

end Verif.Farm
