/-
  C173: what a farmer reports about its harvesters and partials.  C174: the difficulty for a pool and the plot NFTs.
-/
import Verif.Farm.Pool

namespace Verif.Farm.Pool

/-! ### the specification -/

/-- The error an answer counts as; `none` if the partial was accepted. -/
def errorOf : Answer → Option Nat
  | .valid _ => none
  | .refused 0 => some 16
  | .refused (n + 1) => some (n + 1)
  | .other => some 16
  | .failed => some 16

/-- The points of an accepted partial: those the pool says, or its difficulty. -/
def pointsOf (p : Part) : Answer → Nat
  | .valid n => if n > 0 then n.toNat else p.diff
  | _ => 0

/-- The answered partials of one contract. -/
def ofContract (c : Nat) (l : List (Part × Answer)) : List (Part × Answer) := l.filter fun x => x.1.contract = c

/-- The last thing heard of harvester `h` is `v`, received at `t`; and at no update since was that too long ago. -/
def Heard (timeout : Nat) (evs : List Ev) (h : Nat) (v : Info) (t : Int) : Prop :=
  ∃ a b, evs = a ++ .info v t :: b ∧ v.hid = some h ∧ (∀ w u, Ev.info w u ∈ b → w.hid ≠ some h) ∧
    ∀ now, Ev.update now ∈ b → (now - t).tdiv 1000000 ≤ timeout

/-! ### partials -/

/-- The part of the statistics that is about partials. -/
def nums (st : Stats) : Nat × Nat × Nat × (Nat → Nat) := (st.validPoints, st.failedPoints, st.total, st.errors)

/-- What querying and hearing of pools leaves as it is. -/
structure Same (s t : F) : Prop where
  nums : ∀ c, nums (t.stats c) = nums (s.stats c)
  parts : t.parts = s.parts
  sent : t.sent = s.sent
  done : t.done = s.done

theorem Same.refl (s : F) : Same s s := ⟨fun _ => rfl, rfl, rfl, rfl⟩

theorem Same.trans {s t u : F} (h : Same s t) (k : Same t u) : Same s u :=
  ⟨fun c => (k.nums c).trans (h.nums c), k.parts.trans h.parts, k.sent.trans h.sent, k.done.trans h.done⟩

theorem query_same (c url : Nat) (s : F) : Same s (query c url s) := by
  unfold query
  by_cases h : url = 0
  · rw [if_pos h]; exact .refl s
  · rw [if_neg h]; exact ⟨fun _ => rfl, rfl, rfl, rfl⟩

theorem setPool_same (s : F) (e : Nat × Nat) : Same s (setPool s e) := by
  unfold setPool
  by_cases h1 : e.2 = 0
  · rw [if_pos h1]; exact .refl s
  · rw [if_neg h1]
    by_cases h2 : (s.stats e.1).url = e.2
    · rw [if_pos h2]; exact .refl s
    · rw [if_neg h2]
      refine Same.trans ?_ (query_same _ _ _)
      refine ⟨fun c => ?_, rfl, rfl, rfl⟩
      show nums (setStats _ _ _ c) = _
      unfold setStats
      by_cases k : c = e.1
      · rw [if_pos k, k]; rfl
      · rw [if_neg k]

theorem setPools_same : ∀ (l : List (Nat × Nat)) (s : F), Same s (l.foldl setPool s)
  | [], s => .refl s
  | e :: l, s => (setPool_same s e).trans (setPools_same l _)

theorem queries_same (g : Nat → Nat) : ∀ (l : List Nat) (s : F), Same s (l.foldl (fun t c => query c (g c) t) s)
  | [], s => .refl s
  | c :: l, s => (query_same c (g c) s).trans (queries_same g l _)

theorem noteInfo_same (v : Info) (t : Int) (s : F) : Same s (noteInfo v t s) := by
  unfold noteInfo
  cases v.hid with
  | none => exact .refl s
  | some h => exact ⟨fun _ => rfl, rfl, rfl, rfl⟩

theorem gotDiff_same (c url : Nat) (d : Option Nat) (s : F) : Same s (gotDiff c url d s) := by
  unfold gotDiff
  cases d with
  | none => exact .refl s
  | some d =>
    by_cases h : d > 0
    · simp only [h, if_true]
      refine ⟨fun x => ?_, rfl, rfl, rfl⟩
      show nums (setStats _ _ _ x) = _
      unfold setStats
      by_cases k : x = c
      · rw [if_pos k, k]; rfl
      · rw [if_neg k]
    · simp only [h, if_false]; exact .refl s

/-- The books agree with the records. -/
structure Books (s : F) : Prop where
  valid : ∀ c, (s.stats c).validPoints = ((ofContract c s.done).map fun x => pointsOf x.1 x.2).sum % 2 ^ 64
  failed : ∀ c, (s.stats c).failedPoints =
    (((ofContract c s.done).filter fun x => (errorOf x.2).isSome).map fun x => x.1.diff).sum % 2 ^ 64
  total : ∀ c, (s.stats c).total = (ofContract c s.done).countP (fun x => errorOf x.2 == none) % 2 ^ 32
  errors : ∀ c k, (s.stats c).errors k = (ofContract c s.done).countP (fun x => errorOf x.2 == some k) % 2 ^ 32
  sent : s.sent.Perm (s.parts ++ s.done.map (·.1))

theorem Books.same {s t : F} (h : Books s) (k : Same s t) : Books t := by
  have hn := k.nums
  unfold Pool.nums at hn
  refine ⟨fun c => ?_, fun c => ?_, fun c => ?_, fun c i => ?_, ?_⟩
  · rw [k.done, ← h.valid c]; exact congrArg (·.1) (hn c)
  · rw [k.done, ← h.failed c]; exact congrArg (·.2.1) (hn c)
  · rw [k.done, ← h.total c]; exact congrArg (·.2.2.1) (hn c)
  · rw [k.done, ← h.errors c i]; exact congrFun (congrArg (·.2.2.2) (hn c)) i
  · rw [k.done, k.sent, k.parts]; exact h.sent

theorem ofContract_snoc (c : Nat) (l : List (Part × Answer)) (x : Part × Answer) :
    ofContract c (l ++ [x]) = if x.1.contract = c then ofContract c l ++ [x] else ofContract c l := by
  unfold ofContract
  rw [List.filter_append]
  by_cases h : x.1.contract = c
  · rw [if_pos h, List.filter_cons_of_pos (by exact decide_eq_true h), List.filter_nil]
  · rw [if_neg h, List.filter_cons_of_neg (by simpa using h), List.filter_nil, List.append_nil]

theorem perm_eraseIdx {α : Type} : ∀ {l : List α} {i : Nat} {x : α}, l[i]? = some x → l.Perm (x :: l.eraseIdx i)
  | [], _, _, h => nomatch h
  | a :: l, 0, x, h => by cases h; exact .refl _
  | a :: l, i + 1, x, h => by
    rw [List.eraseIdx_cons_succ]
    exact ((perm_eraseIdx (l := l) (i := i) h).cons a).trans (.swap _ _ _)

theorem books_answer {s : F} (h : Books s) {i : Nat} {p : Part} (hp : s.parts[i]? = some p) (a : Answer) :
    Books { s with parts := s.parts.eraseIdx i
                   done := s.done ++ [(p, a)]
                   stats := setStats s.stats p.contract (count (s.stats p.contract) p a) } := by
  have hst : ∀ c, setStats s.stats p.contract (count (s.stats p.contract) p a) c =
      if p.contract = c then count (s.stats c) p a else s.stats c := by
    intro c
    unfold setStats
    by_cases k : c = p.contract
    · rw [if_pos k, if_pos k.symm, k]
    · rw [if_neg k, if_neg fun e => k e.symm]
  refine ⟨fun c => ?_, fun c => ?_, fun c => ?_, fun c k => ?_, ?_⟩
  · show (setStats s.stats p.contract (count (s.stats p.contract) p a) c).validPoints = _
    rw [hst, ofContract_snoc]
    have hc := h.valid c
    by_cases k : p.contract = c
    · rw [if_pos k, if_pos k, List.map_append, List.sum_append]
      cases a with
      | valid n =>
        show ((s.stats c).validPoints + _) % 2 ^ 64 = _
        rw [hc, Nat.mod_add_mod]; simp [pointsOf]
      | refused n => show (s.stats c).validPoints = _; rw [hc]; simp [pointsOf]
      | other => show (s.stats c).validPoints = _; rw [hc]; simp [pointsOf]
      | failed => show (s.stats c).validPoints = _; rw [hc]; simp [pointsOf]
    · rw [if_neg k, if_neg k]; exact hc
  · show (setStats s.stats p.contract (count (s.stats p.contract) p a) c).failedPoints = _
    rw [hst, ofContract_snoc]
    have hc := h.failed c
    by_cases k : p.contract = c
    · rw [if_pos k, if_pos k, List.filter_append, List.map_append, List.sum_append]
      have err : ∀ {a : Answer}, (errorOf a).isSome = true → (count (s.stats c) p a).failedPoints =
          ((s.stats c).failedPoints + p.diff) % 2 ^ 64 → (count (s.stats c) p a).failedPoints =
          ((((ofContract c s.done).filter fun x => (errorOf x.2).isSome).map fun x => x.1.diff).sum +
            (([(p, a)].filter fun x => (errorOf x.2).isSome).map fun x => x.1.diff).sum) % 2 ^ 64 := by
        intro a ha e
        rw [e, hc, Nat.mod_add_mod, List.filter_cons_of_pos (by exact ha)]; simp
      cases a with
      | valid n =>
        show (s.stats c).failedPoints = _
        rw [hc]; simp [errorOf]
      | refused n => exact err (by cases n <;> rfl) rfl
      | other => exact err rfl rfl
      | failed => exact err rfl rfl
    · rw [if_neg k, if_neg k]; exact hc
  · show (setStats s.stats p.contract (count (s.stats p.contract) p a) c).total = _
    rw [hst, ofContract_snoc]
    have hc := h.total c
    by_cases k : p.contract = c
    · rw [if_pos k, if_pos k, List.countP_append]
      cases a with
      | valid n =>
        show ((s.stats c).total + 1) % 2 ^ 32 = _
        rw [hc, Nat.mod_add_mod]; simp [errorOf]
      | refused n => show (s.stats c).total = _; rw [hc]; cases n <;> simp [errorOf]
      | other => show (s.stats c).total = _; rw [hc]; simp [errorOf]
      | failed => show (s.stats c).total = _; rw [hc]; simp [errorOf]
    · rw [if_neg k, if_neg k]; exact hc
  · show (setStats s.stats p.contract (count (s.stats p.contract) p a) c).errors k = _
    rw [hst, ofContract_snoc]
    have hc := h.errors c k
    by_cases kc : p.contract = c
    · rw [if_pos kc, if_pos kc, List.countP_append]
      have err : ∀ {a : Answer} {code : Nat}, errorOf a = some code → (count (s.stats c) p a).errors k =
          (if k = code then ((s.stats c).errors k + 1) % 2 ^ 32 else (s.stats c).errors k) →
          (count (s.stats c) p a).errors k = ((ofContract c s.done).countP (fun x => errorOf x.2 == some k) +
            [(p, a)].countP (fun x => errorOf x.2 == some k)) % 2 ^ 32 := by
        intro a code ha e
        rw [e, hc, List.countP_cons, List.countP_nil, ha]
        by_cases kk : k = code
        · rw [if_pos kk, Nat.mod_add_mod, kk]; simp
        · rw [if_neg kk, if_neg]
          · rfl
          · simpa using fun e => kk e.symm
      cases a with
      | valid n =>
        show (s.stats c).errors k = _
        rw [hc]; simp [errorOf]
      | refused n =>
        cases n with
        | zero => exact err rfl rfl
        | succ n => exact err rfl rfl
      | other => exact err rfl rfl
      | failed => exact err rfl rfl
    · rw [if_neg kc, if_neg kc]; exact hc
  · show s.sent.Perm (s.parts.eraseIdx i ++ (s.done ++ [(p, a)]).map (·.1))
    refine h.sent.trans ?_
    rw [List.map_append, ← List.append_assoc]
    refine ((perm_eraseIdx hp).append_right _).trans ?_
    rw [List.cons_append]
    exact (List.perm_append_singleton p _).symm

theorem books_step (timeout : Nat) {s : F} (h : Books s) (e : Ev) : Books (step timeout s e) := by
  cases e with
  | info v recv => exact h.same ((noteInfo_same v recv s).trans (setPools_same _ _))
  | update now => exact h.same ⟨fun _ => rfl, rfl, rfl, rfl⟩
  | difficulty => exact h.same (queries_same (fun c => (s.stats c).url) _ _)
  | diffAnswer i d =>
    cases hq : s.queries[i]? with
    | none => simp only [step, hq]; exact h
    | some q =>
      simp only [step, hq]
      have k : Same s { s with queries := s.queries.eraseIdx i } := ⟨fun _ => rfl, rfl, rfl, rfl⟩
      exact h.same (k.trans (gotDiff_same q.1 q.2 d _))
  | part p known =>
    cases known with
    | false => exact h
    | true =>
      refine ⟨h.valid, h.failed, h.total, h.errors, ?_⟩
      show (s.sent ++ [p]).Perm ((s.parts ++ [p]) ++ s.done.map (·.1))
      refine (h.sent.append_right [p]).trans ?_
      rw [List.append_assoc, List.append_assoc]
      exact List.Perm.append_left _ List.perm_append_comm
  | partAnswer i a =>
    cases hp : s.parts[i]? with
    | none => simp only [step, hp]; exact h
    | some p => simp only [step, hp]; exact books_answer h hp a

theorem books_run (timeout : Nat) : ∀ (evs : List Ev) {s : F}, Books s → Books (run timeout evs s)
  | [], _, h => h
  | e :: evs, _, h => books_run timeout evs (books_step timeout h e)

theorem books_init : Books F.init :=
  ⟨fun _ => rfl, fun _ => rfl, fun _ => rfl, fun _ _ => rfl, .refl _⟩

/-- **C173.** Every partial that was sent is waiting for its answer or counted, and counted once: as accepted with its
    points, or as failed with its difficulty and one error; for its own contract, in whatever order the answers come and
    whatever else happens. -/
theorem C173_counted (timeout : Nat) (evs : List Ev) (c : Nat) :
    let s := run timeout evs .init
    let l := ofContract c s.done
    s.sent.Perm (s.parts ++ s.done.map (·.1)) ∧
    (s.stats c).total = l.countP (fun x => errorOf x.2 == none) % 2 ^ 32 ∧
    (∀ k, (s.stats c).errors k = l.countP (fun x => errorOf x.2 == some k) % 2 ^ 32) ∧
    (s.stats c).validPoints = (l.map fun x => pointsOf x.1 x.2).sum % 2 ^ 64 ∧
    (s.stats c).failedPoints = ((l.filter fun x => (errorOf x.2).isSome).map fun x => x.1.diff).sum % 2 ^ 64 := by
  have h := books_run timeout evs books_init
  exact ⟨h.sent, h.total c, h.errors c, h.valid c, h.failed c⟩

/-- Three partials are sent; two are answered, in the other order; one is still waiting. -/
example : let s := run 60 [.part ⟨5, 10⟩ true, .part ⟨5, 20⟩ true, .part ⟨6, 30⟩ true, .partAnswer 1 (.refused 3),
      .partAnswer 0 (.valid 0)] .init
    (s.stats 5).validPoints = 10 ∧ (s.stats 5).failedPoints = 20 ∧ (s.stats 5).total = 1 ∧ (s.stats 5).errors 3 = 1 ∧
      s.parts = [⟨6, 30⟩] := by decide

/-- **C173.** What is waiting and what is answered are the partials that were sent: those for whose key the farmer has the
    secret, in order. -/
theorem C173_sent (timeout : Nat) (evs : List Ev) : (run timeout evs .init).sent =
    evs.filterMap fun | .part p true => some p | _ => none := by
  have h : ∀ (evs : List Ev) (s : F), (run timeout evs s).sent =
      s.sent ++ evs.filterMap fun | .part p true => some p | _ => none := by
    intro evs
    induction evs with
    | nil => intro s; exact (List.append_nil _).symm
    | cons e evs ih =>
      intro s
      show (run timeout evs (step timeout s e)).sent = _
      rw [ih]
      cases e with
      | info v recv => rw [(Same.sent ((noteInfo_same v recv s).trans (setPools_same v.pools _)) : (step timeout s _).sent = _)]; rfl
      | update now => rfl
      | difficulty => rw [(Same.sent (queries_same (fun c => (s.stats c).url) _ _) : (step timeout s .difficulty).sent = _)]; rfl
      | diffAnswer i d =>
        cases hq : s.queries[i]? with
        | none => simp only [step, hq]; rfl
        | some q =>
          simp only [step, hq]
          rw [(gotDiff_same q.1 q.2 d { s with queries := s.queries.eraseIdx i }).sent]; rfl
      | part p known =>
        cases known with
        | false => rfl
        | true => show (s.sent ++ [p]) ++ _ = s.sent ++ p :: _; simp
      | partAnswer i a =>
        cases hp : s.parts[i]? with
        | none => simp only [step, hp]; rfl
        | some p => simp only [step, hp]; rfl
  rw [h]; rfl

/-! ### harvesters -/

theorem query_infos (c url : Nat) (s : F) : (query c url s).infos = s.infos := by
  unfold query
  by_cases h : url = 0
  · rw [if_pos h]
  · rw [if_neg h]

theorem setPools_infos : ∀ (l : List (Nat × Nat)) (s : F), (l.foldl setPool s).infos = s.infos
  | [], _ => rfl
  | e :: l, s => by
    rw [List.foldl_cons, setPools_infos l]
    unfold setPool
    by_cases h1 : e.2 = 0
    · rw [if_pos h1]
    · rw [if_neg h1]
      by_cases h2 : (s.stats e.1).url = e.2
      · rw [if_pos h2]
      · rw [if_neg h2, query_infos]

theorem queries_infos (g : Nat → Nat) : ∀ (l : List Nat) (s : F), (l.foldl (fun t c => query c (g c) t) s).infos = s.infos
  | [], _ => rfl
  | c :: l, s => by rw [List.foldl_cons, queries_infos g l, query_infos]

theorem gotDiff_infos (c url : Nat) (d : Option Nat) (s : F) : (gotDiff c url d s).infos = s.infos := by
  unfold gotDiff
  cases d with
  | none => rfl
  | some d =>
    by_cases h : d > 0
    · simp only [h, if_true]
    · simp only [h, if_false]

theorem heard_nil {timeout : Nat} {h : Nat} {v : Info} {t : Int} : ¬ Heard timeout [] h v t := by
  rintro ⟨a, b, k, _⟩
  cases a <;> cases k

theorem ev_snoc {evs : List Ev} {e x : Ev} {a b : List Ev} (h : evs ++ [e] = a ++ x :: b) :
    (b = [] ∧ a = evs ∧ x = e) ∨ ∃ b', b = b' ++ [e] ∧ evs = a ++ x :: b' := by
  rcases List.eq_nil_or_concat b with k | ⟨b', y, k⟩
  · subst k
    obtain ⟨h1, h2⟩ := List.append_inj' h rfl
    cases h2
    exact .inl ⟨rfl, h1.symm, rfl⟩
  · subst k
    have h' : evs ++ [e] = (a ++ x :: b') ++ [y] := by rw [h, List.append_assoc]; simp
    obtain ⟨h1, h2⟩ := List.append_inj' h' rfl
    cases h2
    exact .inr ⟨b', by simp, h1⟩

/-- An event that is neither news of the harvester nor an update too late keeps what was heard. -/
theorem heard_snoc {timeout : Nat} {evs : List Ev} {e : Ev} {h : Nat} {v : Info} {t : Int} :
    Heard timeout (evs ++ [e]) h v t ↔ (e = .info v t ∧ v.hid = some h) ∨
      (Heard timeout evs h v t ∧ (∀ w u, e = .info w u → w.hid ≠ some h) ∧
        ∀ now, e = .update now → (now - t).tdiv 1000000 ≤ timeout) := by
  constructor
  · rintro ⟨a, b, k1, k2, k3, k4⟩
    rcases ev_snoc k1 with ⟨_, _, k⟩ | ⟨b', g1, g2⟩
    · exact .inl ⟨k.symm, k2⟩
    · subst g1
      refine .inr ⟨⟨a, b', g2, k2, fun w u hw => k3 w u (List.mem_append_left _ hw),
        fun now hn => k4 now (List.mem_append_left _ hn)⟩, fun w u hw => k3 w u ?_, fun now hn => k4 now ?_⟩
      · rw [hw]; simp
      · rw [hn]; simp
  · rintro (⟨k1, k2⟩ | ⟨⟨a, b, k1, k2, k3, k4⟩, g1, g2⟩)
    · exact ⟨evs, [], by rw [k1], k2, fun _ _ h => absurd h List.not_mem_nil, fun _ h => absurd h List.not_mem_nil⟩
    · refine ⟨a, b ++ [e], by rw [k1]; simp, k2, fun w u hw => ?_, fun now hn => ?_⟩
      · rcases List.mem_append.1 hw with hw | hw
        · exact k3 w u hw
        · exact g1 w u (List.mem_singleton.1 hw).symm
      · rcases List.mem_append.1 hn with hn | hn
        · exact k4 now hn
        · exact g2 now (List.mem_singleton.1 hn).symm

theorem run_snoc (timeout : Nat) (evs : List Ev) (e : Ev) (s : F) :
    run timeout (evs ++ [e]) s = step timeout (run timeout evs s) e := by
  unfold run; rw [List.foldl_append]; rfl

theorem nodup_put {l : List (Nat × Info × Int)} (n : (l.map (·.1)).Nodup) (h : Nat) (v : Info) (t : Int) :
    ((putInfo l h v t).map (·.1)).Nodup := by
  unfold putInfo
  rw [List.map_cons, List.nodup_cons]
  refine ⟨fun k => ?_, n.sublist (List.filter_sublist.map _)⟩
  obtain ⟨x, hx, e⟩ := List.mem_map.1 k
  exact of_decide_eq_true (List.mem_filter.1 hx).2 e

theorem step_infos (timeout : Nat) (s : F) (e : Ev) (h1 : ∀ v t, e ≠ .info v t) (h2 : ∀ now, e ≠ .update now) :
    (step timeout s e).infos = s.infos := by
  cases e with
  | info v t => exact absurd rfl (h1 v t)
  | update now => exact absurd rfl (h2 now)
  | difficulty => exact queries_infos (fun c => (s.stats c).url) _ _
  | diffAnswer i d =>
    cases hq : s.queries[i]? with
    | none => simp only [step, hq]
    | some q => simp only [step, hq]; exact gotDiff_infos _ _ _ _
  | part p known => cases known <;> rfl
  | partAnswer i a =>
    cases hp : s.parts[i]? with
    | none => simp only [step, hp]
    | some p => simp only [step, hp]

theorem infos_rev (timeout : Nat) : ∀ rev : List Ev, ((run timeout rev.reverse .init).infos.map (·.1)).Nodup ∧
    ∀ h v t, (h, v, t) ∈ (run timeout rev.reverse .init).infos ↔ Heard timeout rev.reverse h v t
  | [] => ⟨List.nodup_nil, fun h v t => ⟨fun k => absurd k List.not_mem_nil, fun k => absurd k heard_nil⟩⟩
  | e :: rev => by
    obtain ⟨ih1, ih2⟩ := infos_rev timeout rev
    rw [List.reverse_cons, run_snoc]
    generalize run timeout rev.reverse .init = s at ih1 ih2 ⊢
    have other : (∀ v t, e ≠ .info v t) → (∀ now, e ≠ .update now) → ((step timeout s e).infos.map (·.1)).Nodup ∧
        ∀ h v t, (h, v, t) ∈ (step timeout s e).infos ↔ Heard timeout (rev.reverse ++ [e]) h v t := by
      intro h1 h2
      rw [step_infos timeout s e h1 h2]
      refine ⟨ih1, fun h v t => ?_⟩
      rw [heard_snoc, ih2]
      exact ⟨fun k => .inr ⟨k, fun w u hw => absurd hw (h1 w u), fun now hn => absurd hn (h2 now)⟩,
        fun k => k.elim (fun k => absurd k.1 (h1 v t)) (·.1)⟩
    cases e with
    | info w u =>
      have e1 : (step timeout s (.info w u)).infos = (noteInfo w u s).infos := setPools_infos _ _
      rw [e1]
      unfold noteInfo
      cases hw : w.hid with
      | none =>
        refine ⟨ih1, fun h v t => ?_⟩
        show (h, v, t) ∈ s.infos ↔ _
        rw [heard_snoc, ih2]
        constructor
        · intro k
          refine .inr ⟨k, fun w' u' e => ?_, fun now e => nomatch e⟩
          cases e; rw [hw]; exact fun h => nomatch h
        · rintro (⟨k1, k2⟩ | k)
          · cases k1; rw [hw] at k2; cases k2
          · exact k.1
      | some g =>
        refine ⟨nodup_put ih1 g w u, fun h v t => ?_⟩
        show (h, v, t) ∈ putInfo s.infos g w u ↔ _
        unfold putInfo
        rw [heard_snoc, List.mem_cons, List.mem_filter, ih2]
        constructor
        · rintro (k | ⟨k1, k2⟩)
          · cases k; exact .inl ⟨rfl, hw⟩
          · refine .inr ⟨k1, fun w' u' e => ?_, fun now e => nomatch e⟩
            cases e
            rw [hw]
            exact fun e => (of_decide_eq_true k2) (Option.some.inj e).symm
        · rintro (⟨k1, k2⟩ | ⟨k1, k2, _⟩)
          · cases k1; rw [hw] at k2; cases k2; exact .inl rfl
          · refine .inr ⟨k1, decide_eq_true fun e => k2 w u rfl ?_⟩
            rw [hw]; exact congrArg some e.symm
    | update now =>
      refine ⟨ih1.sublist (List.filter_sublist.map _), fun h v t => ?_⟩
      show (h, v, t) ∈ s.infos.filter _ ↔ _
      rw [heard_snoc, List.mem_filter, ih2, decide_eq_true_eq]
      constructor
      · rintro ⟨k1, k2⟩
        exact .inr ⟨k1, fun w u e => (nomatch e), fun n e => by cases e; exact Int.not_lt.1 k2⟩
      · rintro (⟨k1, _⟩ | ⟨k1, _, k2⟩)
        · cases k1
        · exact ⟨k1, Int.not_lt.2 (k2 now rfl)⟩
    | difficulty => exact other (fun _ _ e => nomatch e) (fun _ e => nomatch e)
    | diffAnswer i d => exact other (fun _ _ e => nomatch e) (fun _ e => nomatch e)
    | part p k => exact other (fun _ _ e => nomatch e) (fun _ e => nomatch e)
    | partAnswer i a => exact other (fun _ _ e => nomatch e) (fun _ e => nomatch e)

theorem fold_mod {α : Type} (m : Nat) (g : α → Nat) : ∀ (l : List α) (n : Nat), n < m →
    l.foldl (fun n x => (n + g x) % m) n = (n + (l.map g).sum) % m
  | [], n, h => by show n = (n + 0) % m; rw [Nat.add_zero, Nat.mod_eq_of_lt h]
  | x :: l, n, h => by
    rw [List.foldl_cons, fold_mod m g l _ (Nat.mod_lt _ (Nat.lt_of_le_of_lt (Nat.zero_le n) h)), Nat.mod_add_mod,
      List.map_cons, List.sum_cons, Nat.add_assoc]

/-- **C173.** The space and the plots a farmer reports are the sums over the harvesters it has heard of, each once and
    with the last that was heard, as long as that was not too long ago at an update. -/
theorem C173_sum (timeout : Nat) (evs : List Ev) : ∃ hs : List Nat, hs.Nodup ∧
    (∀ h, h ∈ hs ↔ ∃ v t, Heard timeout evs h v t) ∧
    ∀ last : Nat → Info, (∀ h v t, Heard timeout evs h v t → last h = v) →
      totalBytes (run timeout evs .init) = (hs.map fun h => (last h).bytes).sum % 2 ^ 64 ∧
      ∀ k, plotCount (run timeout evs .init) k = (hs.map fun h => (last h).count k).sum % 2 ^ 32 := by
  have h := infos_rev timeout evs.reverse
  rw [List.reverse_reverse] at h
  obtain ⟨h1, h2⟩ := h
  refine ⟨(run timeout evs .init).infos.map (·.1), h1, fun h => ?_, fun last hl => ⟨?_, fun k => ?_⟩⟩
  · constructor
    · intro k
      obtain ⟨⟨h', v, t⟩, hx, e⟩ := List.mem_map.1 k
      have e' : h' = h := e
      subst e'
      exact ⟨v, t, (h2 _ _ _).1 hx⟩
    · rintro ⟨v, t, k⟩
      exact List.mem_map.2 ⟨_, (h2 _ _ _).2 k, rfl⟩
  · unfold totalBytes
    rw [fold_mod (2 ^ 64) (fun x : Nat × Info × Int => x.2.1.bytes) _ 0 (by decide), Nat.zero_add, List.map_map]
    congr 2
    refine List.map_congr_left fun x hx => ?_
    show x.2.1.bytes = (last x.1).bytes
    rw [hl x.1 x.2.1 x.2.2 ((h2 _ _ _).1 hx)]
  · unfold plotCount
    rw [fold_mod (2 ^ 32) (fun x : Nat × Info × Int => x.2.1.count k) _ 0 (by decide), Nat.zero_add, List.map_map]
    congr 2
    refine List.map_congr_left fun x hx => ?_
    show x.2.1.count k = (last x.1).count k
    rw [hl x.1 x.2.1 x.2.2 ((h2 _ _ _).1 hx)]

/-- A harvester is heard twice, another one is lost. -/
example : totalBytes (run 60 [.info ⟨some 1, 100, fun _ => 0, []⟩ 0, .info ⟨some 2, 7, fun _ => 0, []⟩ 50000000,
    .info ⟨some 1, 300, fun _ => 0, []⟩ 60000000, .update 120000000] .init) = 300 := by decide +kernel

/-! ### difficulty -/

/-- The pools that harvesters name for a contract in an event are only this one. -/
def Ev.Only (c url : Nat) : Ev → Prop
  | .info v _ => ∀ u, (c, u) ∈ v.pools → u = 0 ∨ u = url
  | _ => True

/-- All requests for contract `c` that wait are to pool `url`, and that is where the contract is. -/
structure At (c url : Nat) (s : F) : Prop where
  here : (s.stats c).url = url
  queries : ∀ q ∈ s.queries, q.1 = c → q.2 = url

theorem query_at {c url : Nat} {s : F} (h : At c url s) (x y : Nat) (hx : x = c → y = url) : At c url (query x y s) := by
  unfold query
  by_cases k : y = 0
  · rw [if_pos k]; exact h
  · rw [if_neg k]
    refine ⟨h.here, fun q hq e => ?_⟩
    rcases List.mem_append.1 hq with hq | hq
    · exact h.queries q hq e
    · rw [List.mem_singleton.1 hq] at e ⊢; exact hx e

theorem query_stats (x y : Nat) (s : F) : (query x y s).stats = s.stats ∧ (query x y s).source = s.source := by
  unfold query
  by_cases k : y = 0
  · rw [if_pos k]; exact ⟨rfl, rfl⟩
  · rw [if_neg k]; exact ⟨rfl, rfl⟩

theorem setPool_diff (s : F) (e : Nat × Nat) (c : Nat) :
    ((setPool s e).stats c).diff = (s.stats c).diff ∧ (setPool s e).source c = s.source c := by
  unfold setPool
  by_cases h1 : e.2 = 0
  · rw [if_pos h1]; exact ⟨rfl, rfl⟩
  · rw [if_neg h1]
    by_cases h2 : (s.stats e.1).url = e.2
    · rw [if_pos h2]; exact ⟨rfl, rfl⟩
    · rw [if_neg h2, (query_stats _ _ _).1, (query_stats _ _ _).2]
      refine ⟨?_, rfl⟩
      show (setStats _ _ _ c).diff = _
      unfold setStats
      by_cases k : c = e.1
      · rw [if_pos k, k]
      · rw [if_neg k]

theorem setPool_at {c url : Nat} {s : F} (h : At c url s) (e : Nat × Nat) (he : e.1 = c → e.2 = 0 ∨ e.2 = url) :
    At c url (setPool s e) := by
  unfold setPool
  by_cases h1 : e.2 = 0
  · rw [if_pos h1]; exact h
  · rw [if_neg h1]
    by_cases h2 : (s.stats e.1).url = e.2
    · rw [if_pos h2]; exact h
    · rw [if_neg h2]
      have h3 : At c url { s with stats := setStats s.stats e.1 { s.stats e.1 with url := e.2 }
                                  known := if e.1 ∈ s.known then s.known else s.known ++ [e.1] } := by
        refine ⟨?_, h.queries⟩
        show (setStats _ _ _ c).url = _
        unfold setStats
        by_cases k : c = e.1
        · rw [if_pos k]; exact (he k.symm).elim (fun k => absurd k h1) id
        · rw [if_neg k]; exact h.here
      exact query_at h3 _ _ fun k => (he k).elim (fun k => absurd k h1) id

theorem setPools_at {c url : Nat} : ∀ (l : List (Nat × Nat)) {s : F}, At c url s →
    (∀ u, (c, u) ∈ l → u = 0 ∨ u = url) → At c url (l.foldl setPool s) ∧
      ((l.foldl setPool s).stats c).diff = (s.stats c).diff ∧ (l.foldl setPool s).source c = s.source c
  | [], _, h, _ => ⟨h, rfl, rfl⟩
  | e :: l, s, h, hl => by
    obtain ⟨k1, k2, k3⟩ := setPools_at l (setPool_at h e fun k => hl e.2 (by rw [← k]; exact List.mem_cons_self))
      fun u hu => hl u (List.mem_cons_of_mem _ hu)
    exact ⟨k1, k2.trans (setPool_diff s e c).1, k3.trans (setPool_diff s e c).2⟩

theorem queries_at {c url : Nat} (g : Nat → Nat) (hg : g c = url) : ∀ (l : List Nat) {s : F}, At c url s →
    At c url (l.foldl (fun t c => query c (g c) t) s) ∧ (l.foldl (fun t c => query c (g c) t) s).stats = s.stats ∧
      (l.foldl (fun t c => query c (g c) t) s).source = s.source
  | [], _, h => ⟨h, rfl, rfl⟩
  | x :: l, s, h => by
    obtain ⟨k1, k2, k3⟩ := queries_at g hg l (query_at h x (g x) fun e => by rw [e]; exact hg)
    exact ⟨k1, k2.trans (query_stats _ _ _).1, k3.trans (query_stats _ _ _).2⟩

/-- The difficulty that is answered for contract `c` by an event, and the pool it is from. -/
def answered (c : Nat) (s : F) : Ev → Option (Nat × Nat)
  | .diffAnswer i (some d) =>
    match s.queries[i]? with
    | some q => if q.1 = c ∧ d > 0 then some (d, q.2) else none
    | none => none
  | _ => none

theorem at_step {c url : Nat} (timeout : Nat) {s : F} (h : At c url s) (e : Ev) (he : e.Only c url) :
    At c url (step timeout s e) ∧
    match answered c s e with
    | none => ((step timeout s e).stats c).diff = (s.stats c).diff ∧ (step timeout s e).source c = s.source c
    | some (d, u) => u = url ∧ ((step timeout s e).stats c).diff = d ∧ (step timeout s e).source c = some u := by
  cases e with
  | info v t =>
    have h0 : At c url (noteInfo v t s) ∧ (noteInfo v t s).stats = s.stats ∧ (noteInfo v t s).source = s.source := by
      unfold noteInfo
      cases v.hid with
      | none => exact ⟨h, rfl, rfl⟩
      | some g => exact ⟨⟨h.here, h.queries⟩, rfl, rfl⟩
    obtain ⟨k1, k2, k3⟩ := setPools_at v.pools h0.1 he
    rw [h0.2.1] at k2
    rw [h0.2.2] at k3
    exact ⟨k1, k2, k3⟩
  | update now => exact ⟨⟨h.here, h.queries⟩, rfl, rfl⟩
  | difficulty =>
    obtain ⟨k1, k2, k3⟩ := queries_at (fun c => (s.stats c).url) h.here s.known h
    exact ⟨k1, congrArg (fun f => (f c).diff) k2, congrFun k3 c⟩
  | diffAnswer i d =>
    cases hq : s.queries[i]? with
    | none =>
      simp only [step, hq]
      refine ⟨h, ?_⟩
      cases d with
      | none => exact ⟨trivial, trivial⟩
      | some d => simp only [answered, hq]; exact ⟨trivial, trivial⟩
    | some q =>
      have hmem : q ∈ s.queries := List.mem_of_getElem? hq
      have h1 : ∀ x ∈ s.queries.eraseIdx i, x.1 = c → x.2 = url :=
        fun x hx => h.queries x (List.mem_of_mem_eraseIdx hx)
      simp only [step, hq]
      cases d with
      | none => exact ⟨⟨h.here, h1⟩, rfl, rfl⟩
      | some d =>
        simp only [answered, hq, gotDiff]
        by_cases hd : d > 0
        · simp only [hd, if_true, and_true]
          refine ⟨⟨?_, h1⟩, ?_⟩
          · show (setStats _ _ _ c).url = _
            unfold setStats
            by_cases k : c = q.1
            · rw [if_pos k]; show (s.stats q.1).url = _; rw [← k]; exact h.here
            · rw [if_neg k]; exact h.here
          · by_cases k : q.1 = c
            · simp only [k, if_true]
              refine ⟨h.queries q hmem k, ?_, trivial⟩
              show (setStats _ _ _ c).diff = _
              unfold setStats
              rw [if_pos rfl]
            · simp only [k, if_false]
              refine ⟨?_, ?_⟩
              · show (setStats _ _ _ c).diff = _
                unfold setStats
                rw [if_neg fun e => k e.symm]
              · show (if c = q.1 then _ else _) = _
                rw [if_neg fun e => k e.symm]
        · simp only [hd, if_false, and_false]
          exact ⟨⟨h.here, h1⟩, trivial, trivial⟩
  | part p known =>
    cases known with
    | false => exact ⟨h, rfl, rfl⟩
    | true => exact ⟨⟨h.here, h.queries⟩, rfl, rfl⟩
  | partAnswer i a =>
    cases hp : s.parts[i]? with
    | none => simp only [step, hp]; exact ⟨h, trivial, trivial⟩
    | some p =>
      simp only [step, hp]
      have hf : ∀ st : Stats, (count st p a).url = st.url ∧ (count st p a).diff = st.diff := by
        intro st; cases a <;> exact ⟨rfl, rfl⟩
      refine ⟨⟨?_, h.queries⟩, ?_, trivial⟩
      · show (setStats _ _ _ c).url = _
        unfold setStats
        by_cases k : c = p.contract
        · rw [if_pos k, (hf _).1, ← k]; exact h.here
        · rw [if_neg k]; exact h.here
      · show (setStats _ _ _ c).diff = _
        unfold setStats
        by_cases k : c = p.contract
        · rw [if_pos k, (hf _).2, ← k]
        · rw [if_neg k]

/-- The last difficulty answered for `c` during some events. -/
def lastAnswer (timeout c : Nat) : List Ev → F → Option (Nat × Nat)
  | [], _ => none
  | e :: evs, s => (lastAnswer timeout c evs (step timeout s e)).orElse fun _ => answered c s e

/-- **C174.** Once all requests that wait are to the pool a contract is at, and as long as harvesters name no other pool
    for it, the difficulty used for it is the last one that pool answered, if it answered since. -/
theorem C174_settled_partial {c url : Nat} (timeout : Nat) : ∀ (evs : List Ev) {s : F}, At c url s →
    (∀ e ∈ evs, e.Only c url) → At c url (run timeout evs s) ∧
      match lastAnswer timeout c evs s with
      | none => partialDiff (run timeout evs s) c = partialDiff s c
      | some (d, u) => u = url ∧ 0 < d ∧ partialDiff (run timeout evs s) c = d
  | [], _, h, _ => ⟨h, rfl⟩
  | e :: evs, s, h, he => by
    obtain ⟨k1, k2⟩ := at_step timeout h e (he e List.mem_cons_self)
    obtain ⟨g1, g2⟩ := C174_settled_partial timeout evs k1 fun x hx => he x (List.mem_cons_of_mem _ hx)
    refine ⟨g1, ?_⟩
    show match (lastAnswer timeout c evs (step timeout s e)).orElse fun _ => answered c s e with
      | none => _
      | some (d, u) => _
    cases hl : lastAnswer timeout c evs (step timeout s e) with
    | some x => rw [hl] at g2; exact g2
    | none =>
      rw [hl] at g2
      cases ha : answered c s e with
      | none =>
        rw [ha] at k2
        show partialDiff (run timeout evs (step timeout s e)) c = _
        rw [g2]; unfold partialDiff; rw [k2.1]
      | some x =>
        rw [ha] at k2
        have hpos : 0 < x.1 := by
          cases e with
          | diffAnswer i d =>
            cases d with
            | none => cases ha
            | some d =>
              cases hq : s.queries[i]? with
              | none => simp only [answered, hq] at ha; cases ha
              | some q =>
                simp only [answered, hq] at ha
                by_cases k : q.1 = c ∧ d > 0
                · rw [if_pos k] at ha; cases ha; exact k.2
                · rw [if_neg k] at ha; cases ha
          | info v t => cases ha
          | update now => cases ha
          | difficulty => cases ha
          | part p k => cases ha
          | partAnswer i a => cases ha
        refine ⟨k2.1, hpos, ?_⟩
        show partialDiff (run timeout evs (step timeout s e)) c = _
        rw [g2]; unfold partialDiff; rw [k2.2.1, if_pos hpos]

/-- A contract moves to pool 8, whose difficulty is then used. -/
example : At 5 8 (run 60 [.info ⟨some 1, 0, fun _ => 0, [(5, 8)]⟩ 0] .init) ∧
    partialDiff (run 60 [.diffAnswer 0 (some 77)] (run 60 [.info ⟨some 1, 0, fun _ => 0, [(5, 8)]⟩ 0] .init)) 5 = 77 :=
  ⟨⟨by decide, by decide⟩, by decide⟩

/-- **C174.** After a contract has moved to another pool, the difficulty of the old one is used until the new one answers. -/
theorem C174_old : ∃ evs : List Ev, let s := run 60 evs .init
    (s.stats 5).url = 9 ∧ partialDiff s 5 = 77 ∧ s.source 5 = some 8 :=
  ⟨[.info ⟨some 1, 0, fun _ => 0, [(5, 8)]⟩ 0, .diffAnswer 0 (some 77), .info ⟨some 1, 0, fun _ => 0, [(5, 9)]⟩ 0],
    by decide⟩

/-- **C174.** And also after the new one has answered, if the old one answers late. -/
theorem C174_late : ∃ evs : List Ev, let s := run 60 evs .init
    (s.stats 5).url = 9 ∧ s.queries = [] ∧ partialDiff s 5 = 77 ∧ s.source 5 = some 8 ∧
      lastAnswer 60 5 (evs.take 3) .init = some (1000, 9) :=
  ⟨[.info ⟨some 1, 0, fun _ => 0, [(5, 8)]⟩ 0, .info ⟨some 1, 0, fun _ => 0, [(5, 9)]⟩ 0, .diffAnswer 1 (some 1000),
    .diffAnswer 0 (some 77)], by decide⟩

/-- Harvester 1 and harvester 2 name different pools in turn, `n` times. -/
def flips : Nat → List Ev
  | 0 => []
  | n + 1 => .info ⟨some 1, 0, fun _ => 0, [(5, 8)]⟩ 0 :: .info ⟨some 2, 0, fun _ => 0, [(5, 9)]⟩ 0 :: flips n

theorem setPool_flip (s : F) (c u : Nat) (h0 : u ≠ 0) (h : (s.stats c).url ≠ u) :
    (setPool s (c, u)).queries.length = s.queries.length + 1 ∧ ((setPool s (c, u)).stats c).url = u := by
  unfold setPool
  rw [if_neg h0, if_neg h]
  unfold query
  rw [if_neg h0]
  refine ⟨by rw [List.length_append]; rfl, ?_⟩
  show (setStats _ c _ c).url = u
  unfold setStats
  rw [if_pos rfl]

/-- **C174.** While two harvesters disagree about the pool of a contract, each of their messages makes another request, with
    no bound on how many wait. -/
theorem C174_flips (n : Nat) : (run 60 (flips n) .init).queries.length = 2 * n := by
  have h : ∀ (n : Nat) (s : F), (s.stats 5).url ≠ 8 → (run 60 (flips n) s).queries.length = s.queries.length + 2 * n := by
    intro n
    induction n with
    | zero => intro s _; rfl
    | succ n ih =>
      intro s hs
      obtain ⟨a1, a2⟩ := setPool_flip (noteInfo ⟨some 1, 0, fun _ => 0, [(5, 8)]⟩ 0 s) 5 8 (by decide) hs
      generalize hs1 : setPool (noteInfo ⟨some 1, 0, fun _ => 0, [(5, 8)]⟩ 0 s) (5, 8) = s1 at a1 a2
      obtain ⟨b1, b2⟩ := setPool_flip (noteInfo ⟨some 2, 0, fun _ => 0, [(5, 9)]⟩ 0 s1) 5 9 (by decide)
        (by show (s1.stats 5).url ≠ 9; rw [a2]; decide)
      have e1 : run 60 (flips (n + 1)) s =
          run 60 (flips n) (setPool (noteInfo ⟨some 2, 0, fun _ => 0, [(5, 9)]⟩ 0 s1) (5, 9)) := by rw [← hs1]; rfl
      rw [e1, ih _ (by rw [b2]; decide), b1]
      have c1 : (noteInfo ⟨some 2, 0, fun _ => 0, [(5, 9)]⟩ 0 s1).queries.length = s1.queries.length := rfl
      have c2 : (noteInfo ⟨some 1, 0, fun _ => 0, [(5, 8)]⟩ 0 s).queries.length = s.queries.length := rfl
      omega
  exact (h n .init (by decide)).trans (Nat.zero_add _)

/-! ### plot NFTs -/

theorem nfts_step {s : N} (h1 : ∀ x ∈ s.nfts, x.1 ∈ s.contracts) (h2 : ∀ c ∈ s.queries, c ∈ s.contracts) (e : NEv)
    (he : ∀ cs, e = .reload cs → ∀ c ∈ s.queries, c ∈ cs) :
    (∀ x ∈ (nstep s e).nfts, x.1 ∈ (nstep s e).contracts) ∧ ∀ c ∈ (nstep s e).queries, c ∈ (nstep s e).contracts := by
  have upd : ∀ t : N, (∀ c ∈ t.queries, c ∈ t.contracts) →
      (∀ x ∈ (updateNfts t).nfts, x.1 ∈ (updateNfts t).contracts) ∧ ∀ c ∈ (updateNfts t).queries, c ∈ (updateNfts t).contracts := by
    intro t ht
    refine ⟨fun x hx => ?_, fun c hc => ?_⟩
    · exact of_decide_eq_true (List.mem_filter.1 hx).2
    · rcases List.mem_append.1 hc with hc | hc
      · exact ht c hc
      · exact hc
  cases e with
  | reload cs => exact upd { s with contracts := cs } (he cs rfl)
  | update => exact upd s h2
  | answer i info =>
    cases hq : s.queries[i]? with
    | none => simp only [nstep, hq]; exact ⟨h1, h2⟩
    | some c =>
      have hc := h2 c (List.mem_of_getElem? hq)
      simp only [nstep, hq]
      cases info with
      | none => exact ⟨h1, fun c hc => h2 c (List.mem_of_mem_eraseIdx hc)⟩
      | some v =>
        refine ⟨fun x hx => ?_, fun c hc => h2 c (List.mem_of_mem_eraseIdx hc)⟩
        rcases List.mem_cons.1 hx with hx | hx
        · subst hx; exact hc
        · exact h1 x (List.mem_filter.1 hx).1
  | failed i => exact ⟨h1, fun c hc => h2 c (List.mem_of_mem_eraseIdx hc)⟩

theorem nfts_run : ∀ (evs : List NEv) {s : N}, (∀ x ∈ s.nfts, x.1 ∈ s.contracts) → (∀ c ∈ s.queries, c ∈ s.contracts) →
    (∀ a cs b, evs = a ++ .reload cs :: b → ∀ c ∈ (a.foldl nstep s).queries, c ∈ cs) →
    ∀ x ∈ (evs.foldl nstep s).nfts, x.1 ∈ (evs.foldl nstep s).contracts
  | [], _, h1, _, _ => h1
  | e :: evs, s, h1, h2, h3 => by
    obtain ⟨k1, k2⟩ := nfts_step h1 h2 e fun cs he => h3 [] cs evs (by rw [he]; rfl)
    exact nfts_run evs k1 k2 fun a cs b hb => h3 (e :: a) cs b (by rw [hb]; rfl)

/-- **C174.** What a harvester knows of plot NFTs is always about contracts of its plots, if no reload finds that a contract
    is gone while the node is being asked about it. -/
theorem C174_nfts_partial (evs : List NEv)
    (h : ∀ a cs b, evs = a ++ .reload cs :: b → ∀ c ∈ (a.foldl nstep ⟨[], [], []⟩).queries, c ∈ cs) :
    ∀ x ∈ (evs.foldl nstep ⟨[], [], []⟩).nfts, x.1 ∈ (evs.foldl nstep ⟨[], [], []⟩).contracts :=
  nfts_run evs (fun _ h => absurd h List.not_mem_nil) (fun _ h => absurd h List.not_mem_nil) h

/-- One contract is asked about and then goes. -/
example : ([.reload [5, 6], .answer 1 (some 2), .answer 0 (some 1), .reload [6]] : List NEv).foldl nstep ⟨[], [], []⟩ =
    ⟨[6], [(6, 2)], [6]⟩ := rfl

/-- **C174.** Not so if an answer comes after the plots of the contract are gone: it is known again, and stays so until the
    next update. -/
theorem C174_nfts : ∃ evs : List NEv, (evs.foldl nstep ⟨[], [], []⟩).contracts = [] ∧
    (evs.foldl nstep ⟨[], [], []⟩).nfts = [(5, 1)] :=
  ⟨[.reload [5], .reload [], .answer 0 (some 1)], by decide⟩

/-- **C174.** What is known of a plot NFT stays when the node no longer knows it. -/
theorem C174_gone : ∃ evs : List NEv, evs.getLast? = some (.answer 0 none) ∧
    (evs.foldl nstep ⟨[], [], []⟩).contracts = [5] ∧ (evs.foldl nstep ⟨[], [], []⟩).queries = [] ∧
    (evs.foldl nstep ⟨[], [], []⟩).nfts = [(5, 1)] :=
  ⟨[.reload [5], .answer 0 (some 1), .update, .answer 0 none], rfl, by decide, by decide, by decide⟩

end Verif.Farm.Pool
