import Verif.Control.Lemmas
/-
  C159–C161: the vote on the reward (src/Node_control.cpp).
-/
namespace Verif.Control

variable (mid : Nat → Nat → Nat) (over under : Nat → Nat → Bool)

theorem isExpired_iff (now : Nat) (f : Option File) : isExpired now f = true ↔ Old now f := by
  cases f with
  | none => simp [isExpired, Old]
  | some f => simp [isExpired, Old]

/-- C159.  There is a median of any prices, and it lies where most of them lie. -/
theorem C159_median (A : Arith mid over under) (l : List Nat) (h : l ≠ []) :
    ∃ x, median mid l = .ok x ∧ ∀ lo hi, Most lo hi l → lo ≤ x ∧ x ≤ hi := by
  obtain ⟨x, e⟩ := median_ok mid l h
  exact ⟨x, e, fun lo hi m => median_majority mid A.mean l lo hi x m e⟩

theorem most_ne (lo hi : Nat) (l : List Nat) (h : Most lo hi l) : l ≠ [] := by
  rintro rfl; simp [Most] at h

/-- The vote after an update that has prices of both kinds. -/
theorem update_vote (now : Nat) (swap : Option Nat) (s : St) (g m : Nat)
    (hg : fresh now s.files goldKeys ≠ []) (hm : swap.toList ++ fresh now s.files mmxKeys ≠ [])
    (eg : median mid (fresh now s.files goldKeys) = .ok g) (em : median mid (swap.toList ++ fresh now s.files mmxKeys) = .ok m) :
    (update mid over under now swap s).vote = decideVote over under g m := by
  unfold update
  simp only [scan_prices, hg, if_false, eg, (scan_frame now goldKeys s false).1]
  unfold finish
  simp only [hm, if_false, em]

/-- C159.  If most of the gold prices at hand lie between `g1` and `g2` and most of the MMX prices between `m1` and `m2`, then
    no other price can change the vote: it is −1 if it would be so for the lowest gold and the highest MMX price, +1 if it would
    be so for the highest gold and the lowest MMX price, and 0 if neither extreme calls for a vote. -/
theorem C159_vote (A : Arith mid over under) (now : Nat) (swap : Option Nat) (s : St) (g1 g2 m1 m2 : Nat)
    (hg : Most g1 g2 (fresh now s.files goldKeys)) (hm : Most m1 m2 (swap.toList ++ fresh now s.files mmxKeys)) :
    (over g1 m2 = true → (update mid over under now swap s).vote = -1)
    ∧ (under g2 m1 = true → (update mid over under now swap s).vote = 1)
    ∧ (over g2 m1 = false → under g1 m2 = false → (update mid over under now swap s).vote = 0) := by
  obtain ⟨g, eg, bg⟩ := C159_median mid over under A _ (most_ne _ _ _ hg)
  obtain ⟨m, em, bm⟩ := C159_median mid over under A _ (most_ne _ _ _ hm)
  obtain ⟨a, b⟩ := bg _ _ hg
  obtain ⟨c, d⟩ := bm _ _ hm
  rw [update_vote mid over under now swap s g m (most_ne _ _ _ hg) (most_ne _ _ _ hm) eg em]
  unfold decideVote
  refine ⟨fun h => ?_, fun h => ?_, fun h h' => ?_⟩
  · rw [if_pos (A.more _ _ _ _ a d h)]
  · have u := A.less _ _ _ _ b c h
    rw [if_neg (fun o => A.both _ _ o u), if_pos u]
  · have o : ¬ over g m = true := fun o => by rw [A.more _ _ _ _ b c o] at h; exact absurd h (by decide)
    have u : ¬ under g m = true := fun u => by rw [A.less _ _ _ _ a d u] at h'; exact absurd h' (by decide)
    rw [if_neg o, if_neg u]

theorem update_cases (now : Nat) (swap : Option Nat) (s : St) :
    (update mid over under now swap s).vote = s.vote
    ∨ (update mid over under now swap s).vote = 0
    ∨ ∃ g m, (update mid over under now swap s).vote = decideVote over under g m := by
  unfold update
  simp only []
  by_cases h : (scan now goldKeys s false).prices = []
  · rw [if_pos h]
    by_cases a : (scan now goldKeys s false).again = true
    · rw [if_pos a]; exact Or.inl (scan_frame now goldKeys s false).2.1
    · rw [if_neg a]; exact Or.inr (Or.inl rfl)
  · rw [if_neg h]
    match e : median mid (scan now goldKeys s false).prices with
    | .throw => exact Or.inl (scan_frame now goldKeys s false).2.1
    | .ub => exact Or.inl (scan_frame now goldKeys s false).2.1
    | .ok g =>
      have f : (scan now mmxKeys (scan now goldKeys s false).st (scan now goldKeys s false).again).st.vote = s.vote :=
        (scan_frame now mmxKeys _ _).2.1.trans (scan_frame now goldKeys s false).2.1
      simp only []
      unfold finish
      by_cases h2 : swap.toList ++ (scan now mmxKeys (scan now goldKeys s false).st (scan now goldKeys s false).again).prices = []
      · rw [if_pos h2]
        by_cases a : (scan now mmxKeys (scan now goldKeys s false).st (scan now goldKeys s false).again).again = true
        · rw [if_pos a]; exact Or.inl f
        · rw [if_neg a]; exact Or.inr (Or.inl rfl)
      · rw [if_neg h2]
        match median mid (swap.toList ++ (scan now mmxKeys (scan now goldKeys s false).st (scan now goldKeys s false).again).prices) with
        | .ok m => exact Or.inr (Or.inr ⟨g, m, rfl⟩)
        | .throw => exact Or.inl f
        | .ub => exact Or.inl f

/-- C159.  Whatever happens, the vote is one that a block may carry (src/Node_validate.cpp:170-172). -/
theorem C159_range (files : Key → Option File) (es : List Ev) :
    (run mid over under (init files) es).vote = -1 ∨ (run mid over under (init files) es).vote = 0
      ∨ (run mid over under (init files) es).vote = 1 := by
  suffices ∀ s : St, (s.vote = -1 ∨ s.vote = 0 ∨ s.vote = 1) →
      let t := run mid over under s es
      t.vote = -1 ∨ t.vote = 0 ∨ t.vote = 1 from this _ (Or.inr (Or.inl rfl))
  induction es with
  | nil => exact fun s h => h
  | cons e es ih =>
    intro s h
    apply ih
    cases e with
    | update now swap =>
      show (update mid over under now swap s).vote = -1 ∨ (update mid over under now swap s).vote = 0
        ∨ (update mid over under now swap s).vote = 1
      rcases update_cases mid over under now swap s with c | c | ⟨g, m, c⟩
      · rw [c]; exact h
      · rw [c]; exact Or.inr (Or.inl rfl)
      · rw [c]; unfold decideVote; split
        · exact Or.inl rfl
        · split
          · exact Or.inr (Or.inr rfl)
          · exact Or.inr (Or.inl rfl)
    | written k f => show (step mid over under s _).vote = -1 ∨ _ ∨ _; unfold step; simp only []; split <;> exact h
    | done k ok => show (step mid over under s _).vote = -1 ∨ _ ∨ _; unfold step; simp only []; split <;> exact h
    | hourly => exact h

/-! ### Downloads -/

/-- The state of the downloads that every run keeps. -/
structure Busy (s : St) : Prop where
  same : s.running = s.pending
  nodup : s.running.Nodup

theorem finish_frame (g : Nat) (l : List Nat) (again : Bool) (s : St) :
    let t := finish mid over under g l again s
    t.running = s.running ∧ t.pending = s.pending ∧ t.failed = s.failed ∧ t.files = s.files := by
  unfold finish
  by_cases h : l = []
  · simp only [h, if_true]; split <;> exact ⟨rfl, rfl, rfl, rfl⟩
  · simp only [h, if_false]
    match median mid l with
    | .ok m => exact ⟨rfl, rfl, rfl, rfl⟩
    | .throw => exact ⟨rfl, rfl, rfl, rfl⟩
    | .ub => exact ⟨rfl, rfl, rfl, rfl⟩

/-- An update starts downloads of files that are old, once each, and none that failed or runs. -/
theorem update_asked (now : Nat) (swap : Option Nat) (s : St) :
    let t := update mid over under now swap s
    (∀ k ∈ t.running, k ∈ s.running ∨ (Old now (s.files k) ∧ k ∉ s.failed ∧ (Busy s → k ∉ s.running)))
    ∧ (Busy s → Busy t) ∧ t.failed = s.failed ∧ t.files = s.files := by
  have a := scan_asked now goldKeys s false
  have fa := scan_frame now goldKeys s false
  have one : ∀ t : St, t.running = (scan now goldKeys s false).st.running → t.pending = (scan now goldKeys s false).st.pending →
      (∀ k ∈ t.running, k ∈ s.running ∨ (Old now (s.files k) ∧ k ∉ s.failed ∧ (Busy s → k ∉ s.running))) ∧ (Busy s → Busy t) := by
    intro t e1 e2
    refine ⟨fun k h => ?_, fun b => ⟨by rw [e1, e2]; exact a.same b.same, by rw [e1]; exact a.nodup b.same b.nodup⟩⟩
    rw [e1] at h
    rcases a.new k h with c | ⟨_, c, d, f⟩
    · exact Or.inl c
    · exact Or.inr ⟨(isExpired_iff _ _).1 c, d, fun b => by rw [b.same]; exact f⟩
  unfold update
  simp only []
  by_cases h : (scan now goldKeys s false).prices = []
  · rw [if_pos h]
    split
    · exact ⟨(one _ rfl rfl).1, (one _ rfl rfl).2, fa.2.2, fa.1⟩
    · have o := one { (scan now goldKeys s false).st with vote := 0 } rfl rfl
      exact ⟨o.1, o.2, fa.2.2, fa.1⟩
  · rw [if_neg h]
    match median mid (scan now goldKeys s false).prices with
    | .throw => exact ⟨(one _ rfl rfl).1, (one _ rfl rfl).2, fa.2.2, fa.1⟩
    | .ub => exact ⟨(one _ rfl rfl).1, (one _ rfl rfl).2, fa.2.2, fa.1⟩
    | .ok g =>
      simp only []
      have b := scan_asked now mmxKeys (scan now goldKeys s false).st (scan now goldKeys s false).again
      have fb := scan_frame now mmxKeys (scan now goldKeys s false).st (scan now goldKeys s false).again
      obtain ⟨x, y, z, w⟩ := finish_frame mid over under g
        (swap.toList ++ (scan now mmxKeys (scan now goldKeys s false).st (scan now goldKeys s false).again).prices)
        (scan now mmxKeys (scan now goldKeys s false).st (scan now goldKeys s false).again).again
        (scan now mmxKeys (scan now goldKeys s false).st (scan now goldKeys s false).again).st
      refine ⟨fun k h => ?_, fun c => ?_, z.trans (fb.2.2.trans fa.2.2), w.trans (fb.1.trans fa.1)⟩
      · rw [x] at h
        rcases b.new k h with c | ⟨_, c, d, f⟩
        · exact (one _ rfl rfl).1 k c
        · rw [fa.1] at c
          rw [fa.2.2] at d
          refine Or.inr ⟨(isExpired_iff _ _).1 c, d, fun q m => f ?_⟩
          rw [← a.same q.same]
          exact a.old k m
      · have q := (one _ rfl rfl).2 c
        exact ⟨by rw [x, y]; exact b.same q.same, by rw [x]; exact b.nodup q.same q.nodup⟩

theorem step_busy (s : St) (e : Ev) (h : Busy s) : Busy (step mid over under s e) := by
  cases e with
  | update now swap => exact (update_asked mid over under now swap s).2.1 h
  | written k f => unfold step; simp only []; split <;> exact ⟨h.same, h.nodup⟩
  | done k ok =>
    unfold step
    simp only []
    split
    · refine ⟨?_, h.nodup.erase k⟩
      show s.running.erase k = s.pending.filter (· ≠ k)
      rw [← h.same, h.nodup.erase_eq_filter]
      congr 1
      funext x
      simp [bne, BEq.beq]
    · exact h
  | hourly => exact ⟨h.same, h.nodup⟩

theorem run_busy (s : St) (es : List Ev) (h : Busy s) : Busy (run mid over under s es) := by
  induction es generalizing s with
  | nil => exact h
  | cons e es ih => exact ih _ (step_busy mid over under s e h)

/-- C160.  At every moment at most one download per host runs, and a step starts a download only of a host that has none running,
    whose last download has not failed since the last full hour, and whose file is missing or older than a day. -/
theorem C160_requests (files : Key → Option File) (es : List Ev) (e : Ev) (k : Key) :
    let s := run mid over under (init files) es
    let t := step mid over under s e
    t.running.Nodup ∧
    (k ∈ t.running → k ∉ s.running →
      ∃ now swap, e = .update now swap ∧ Old now (s.files k) ∧ k ∉ s.failed) := by
  have b : Busy (run mid over under (init files) es) := run_busy mid over under _ es ⟨rfl, List.nodup_nil⟩
  refine ⟨(step_busy mid over under _ e b).nodup, fun h h' => ?_⟩
  cases e with
  | update now swap =>
    rcases (update_asked mid over under now swap _).1 k h with c | c
    · exact absurd c h'
    · exact ⟨now, swap, rfl, c.1, c.2.1⟩
  | written j f => unfold step at h; simp only [] at h; split at h <;> exact absurd h h'
  | done j ok =>
    unfold step at h
    simp only [] at h
    split at h
    · exact absurd (List.mem_of_mem_erase h) h'
    · exact absurd h h'
  | hourly => exact absurd h h'

/-- C160.  A host whose download failed is left alone until the next full hour. -/
theorem C160_failed (files : Key → Option File) (es later : List Ev) (k : Key)
    (hk : k ∈ (run mid over under (init files) es).running) (hl : Ev.hourly ∉ later) :
    k ∉ (run mid over under (step mid over under (run mid over under (init files) es) (.done k false)) later).running := by
  have b : Busy (run mid over under (init files) es) := run_busy mid over under _ es ⟨rfl, List.nodup_nil⟩
  have start : k ∈ (step mid over under (run mid over under (init files) es) (.done k false)).failed
      ∧ k ∉ (step mid over under (run mid over under (init files) es) (.done k false)).running := by
    unfold step
    simp only [hk, if_true]
    exact ⟨by simp, fun h => ((List.Nodup.mem_erase_iff b.nodup).1 h).1 rfl⟩
  generalize step mid over under (run mid over under (init files) es) (.done k false) = s at start
  induction later generalizing s with
  | nil => exact start.2
  | cons e later ih =>
    apply ih (fun h => hl (List.mem_cons_of_mem _ h))
    cases e with
    | update now swap =>
      have u := update_asked mid over under now swap s
      refine ⟨by show k ∈ (update mid over under now swap s).failed; rw [u.2.2.1]; exact start.1, fun h => ?_⟩
      rcases u.1 k h with c | c
      · exact start.2 c
      · exact c.2.1 start.1
    | written j f => unfold step; simp only []; split <;> exact start
    | done j ok =>
      unfold step
      simp only []
      split
      next m =>
        have ne : k ≠ j := fun c => start.2 (c ▸ m)
        refine ⟨?_, fun h => start.2 (List.mem_of_mem_erase h)⟩
        cases ok with
        | true => exact List.mem_filter.2 ⟨start.1, by simp [ne]⟩
        | false => exact List.mem_cons_of_mem _ start.1
      · exact start
    | hourly => exact absurd (List.mem_cons_self) hl

/-! ### How old a vote may be -/

/-- C161.  Full claim: after an update the vote is the one of prices that are at most a day old, and there is no vote without
    such prices.  Proved: this holds if none of the files is older than a day.  Missing: an old or absent file whose download
    does not succeed, see `C161_stale`. -/
theorem C161_fresh_partial (now : Nat) (swap : Option Nat) (s : St) (h : ∀ k, ¬ Old now (s.files k)) :
    let t := update mid over under now swap s
    (fresh now s.files goldKeys = [] → t.vote = 0)
    ∧ (swap.toList ++ fresh now s.files mmxKeys = [] → t.vote = 0)
    ∧ (∀ g m, median mid (fresh now s.files goldKeys) = .ok g → median mid (swap.toList ++ fresh now s.files mmxKeys) = .ok m →
        t.vote = decideVote over under g m) := by
  have e : ∀ l : List Key, l.any (fun k => isExpired now (s.files k)) = false := fun l => by
    rw [List.any_eq_false]
    intro k _ c
    exact h k ((isExpired_iff _ _).1 c)
  have g0 : fresh now s.files goldKeys = [] → (update mid over under now swap s).vote = 0 := by
    intro g
    unfold update
    simp only [scan_prices, g, if_true, scan_again, e, Bool.or_self, Bool.false_eq_true, if_false]
  have ne : ∀ (l : List Nat) x, median mid l = .ok x → l ≠ [] := by
    rintro l x c rfl
    exact nomatch c
  refine ⟨g0, fun m => ?_, fun g m eg em => update_vote mid over under now swap s g m (ne _ _ eg) (ne _ _ em) eg em⟩
  by_cases c : fresh now s.files goldKeys = []
  · exact g0 c
  · obtain ⟨g, eg⟩ := median_ok mid _ c
    unfold update
    simp only [scan_prices, c, if_false, eg, (scan_frame now goldKeys s false).1]
    unfold finish
    simp only [m, if_true, scan_again, e, (scan_frame now goldKeys s false).1, Bool.or_self, Bool.false_eq_true, if_false]

/-- C161 is false: once the files of the gold prices are old and no download replaces one, the vote stays as it was, for
    however long: nothing but a success ends it. -/
theorem C161_stale (s : St) (es : List Ev)
    (hw : ∀ k f, Ev.written k f ∉ es)
    (ho : ∀ now swap, Ev.update now swap ∈ es → ∀ k ∈ goldKeys, Old now (s.files k)) :
    (run mid over under s es).vote = s.vote := by
  induction es generalizing s with
  | nil => rfl
  | cons e es ih =>
    have hw' : ∀ k f, Ev.written k f ∉ es := fun k f h => hw k f (List.mem_cons_of_mem _ h)
    have key : (step mid over under s e).vote = s.vote ∧ (step mid over under s e).files = s.files := by
      cases e with
      | update now swap =>
        have o := ho now swap List.mem_cons_self
        have p : fresh now s.files goldKeys = [] := by
          unfold fresh
          rw [List.flatMap_eq_nil_iff]
          intro k hk
          have := o k hk
          match s.files k, this with
          | none, _ => rfl
          | some f, c => exact if_pos c
        have a : (goldKeys.any fun k => isExpired now (s.files k)) = true :=
          List.any_eq_true.2 ⟨0, by decide, (isExpired_iff _ _).2 (o 0 (by decide))⟩
        refine ⟨?_, (update_asked mid over under now swap s).2.2.2⟩
        show (update mid over under now swap s).vote = s.vote
        unfold update
        simp only [scan_prices, p, if_true, scan_again, a, Bool.or_true]
        exact (scan_frame now goldKeys s false).2.1
      | written k f => exact absurd List.mem_cons_self (hw k f)
      | done k ok => unfold step; simp only []; split <;> exact ⟨rfl, rfl⟩
      | hourly => exact ⟨rfl, rfl⟩
    refine (ih _ hw' fun now swap h k hk => ?_).trans key.1
    rw [key.2]
    exact ho now swap (List.mem_cons_of_mem _ h) k hk

/-! ### Cases -/

namespace Case

/-- The mean rounded down; the target is 2000, the bounds 1 % off. -/
def mid' (a b : Nat) : Nat := (a + b) / 2
def over' (g m : Nat) : Bool := decide (100 * g > 202000 * m)
def under' (g m : Nat) : Bool := decide (101 * g < 200000 * m)

theorem arith : Arith mid' over' under' := by
  refine ⟨fun a b h => ?_, fun g m g' m' h h' o => ?_, fun g m g' m' h h' o => ?_, fun g m o u => ?_⟩ <;>
    simp only [mid', over', under', decide_eq_true_eq] at * <;> omega

/-- Three hosts say 4000, one of them is wrong by far; MMX is at 1 (one host is wrong as well). -/
def files0 : Key → Option File := fun k => [some ⟨100, some 4000⟩, some ⟨100, some 4100⟩, some ⟨100, some 1⟩,
  some ⟨100, some 1⟩, some ⟨100, some 1⟩, some ⟨100, none⟩].getD k none

example : Most 4000 4100 (fresh 200 files0 goldKeys) ∧ Most 1 1 ([1000000] ++ fresh 200 files0 mmxKeys)
    ∧ over' 4000 1 = true := by decide

example : (update mid' over' under' 200 (some 1000000) (init files0)).vote = -1 :=
  (C159_vote mid' over' under' arith 200 (some 1000000) (init files0) 4000 4100 1 1 (by decide) (by decide)).1 (by decide)

/-- Nothing is known: two updates ask for the three gold prices once; one download succeeds, one fails and is not repeated. -/
def evs : List Ev := [.update 200 none, .update 205 none, .done 0 false, .written 1 ⟨210, some 4000⟩, .done 1 true, .update 215 none]

example : (run mid' over' under' (init fun _ => none) [.update 200 none, .update 205 none]).running = [2, 1, 0]
    ∧ (run mid' over' under' (init fun _ => none) evs).running = [5, 4, 3, 2]
    ∧ (run mid' over' under' (init fun _ => none) evs).failed = [0] := by decide

/-- A vote of −1 at time 200; a year later the hosts are gone, and the node still votes −1 in every block it makes. -/
example : (run mid' over' under' (init files0)
    ([.update 200 (some 1)] ++ [.update 31536000 none, .done 0 false, .done 1 false, .done 2 false, .hourly, .update 31539600 none])).vote = -1
    := by decide

end Case

end Verif.Control
