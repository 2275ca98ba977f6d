/-
  Helper lemmas on catching up: the end of a pass is noticed, and calls are under way.
-/
import Verif.Catchup.Run

namespace Verif.Catchup

/-- A height without blocks in this pass is known as the peak. -/
def Found (s : St) : Prop := ∀ p, .got p 0 ∈ pass s.log → s.peak ≠ none

/-- While a sync is under way. -/
def Finds (s : St) : Prop := s.synced = false → Found s

theorem found_loop {w : World} : ∀ (n : Nat) {s : St}, Found s → Found (loop w n s)
  | 0, _, h => h
  | n + 1, s, h => by
    unfold loop
    by_cases k : (s.pending.length < w.slots && below s) = true
    · rw [if_pos k]
      refine found_loop n ?_
      intro p q
      have q : .got p 0 ∈ Ev.asked s.pos w.root :: pass s.log := q
      rcases List.mem_cons.1 q with e | e
      · exact (nomatch e)
      · exact h p e
    · rw [if_neg k]; exact h

theorem more_finds {cfg : Cfg} {w : World} {s : St} (h : s.synced = false → s.pos ≠ 0 → Found s) :
    Finds (more cfg w s) := by
  unfold more
  by_cases k : s.synced = true
  · rw [if_pos k]; exact fun z => by rw [k] at z; exact (nomatch z)
  · rw [if_neg k]
    have k : s.synced = false := by cases e : s.synced <;> simp_all
    have hb : Found (begin_ w s) := by
      unfold begin_
      by_cases z : s.pos = 0
      · rw [if_pos z]; exact fun p q => (nomatch q)
      · rw [if_neg z]; exact h k z
    dsimp only
    by_cases q : held cfg w (begin_ w s) = true
    · rw [if_pos q]; exact fun _ => hb
    · rw [if_neg q]; exact fun _ => found_loop _ hb

theorem commit_found {v : View} {s : St} (h : Found s) : Found (commit v s) := by
  intro p q
  refine h p ?_
  have q : .got p 0 ∈ pass (((v.line.takeWhile (commits v s)).map (record s.synced)).reverse ++ s.log) := q
  rw [← List.map_reverse] at q
  generalize (v.line.takeWhile (commits v s)).reverse = g at q
  induction g with
  | nil => exact q
  | cons x g ih =>
    refine ih ?_
    rw [List.map_cons, List.cons_append] at q
    unfold record at q
    cases hs : s.synced <;> rw [hs] at q
    · have q : .got p 0 ∈ Ev.commit x :: pass (g.map (record false) ++ s.log) := q
      rcases List.mem_cons.1 q with e | e
      · exact (nomatch e)
      · exact e
    · have q : .got p 0 ∈ Ev.late x :: pass (g.map (record true) ++ s.log) := q
      rcases List.mem_cons.1 q with e | e
      · exact (nomatch e)
      · exact e

theorem finish_finds {cfg : Cfg} {w : World} {v : View} {s : St} (h : Finds s) : Finds (finish cfg w v s) := by
  unfold finish
  cases hp : s.peak with
  | none => exact h
  | some p =>
    dsimp only
    by_cases k1 : (!s.synced && s.pending.isEmpty) = true
    · rw [if_pos k1]
      by_cases k2 : s.retry < cfg.retries
      · rw [if_pos k2]
        by_cases k3 : s.finish + cfg.pause < w.now
        · rw [if_pos k3]; exact fun _ p q => (nomatch q)
        · rw [if_neg k3]; exact h
      · rw [if_neg k2]; exact fun z => (nomatch z)
    · rw [if_neg k1]; exact h

theorem update_finds {cfg : Cfg} {w : World} {v : Option View} {s : St} (h : Finds s) :
    Finds (update cfg w v s) := by
  unfold update
  cases v with
  | none => exact h
  | some v => exact more_finds fun z _ => finish_finds (fun y => commit_found (h y)) z

/-- All answers of the pass but the newest are known. -/
def Almost (h n : Nat) (s : St) : Prop := ∀ p, .got p 0 ∈ pass s.log → s.peak ≠ none ∨ n = 0

theorem back_almost {w : World} {h n : Nat} : ∀ (bs : List Block) {s : St}, Almost h n s →
    Almost h n (bs.foldl (back w) s)
  | [], _, k => k
  | x :: bs, s, k => by
    rw [List.foldl_cons]
    unfold back
    by_cases z : (!x.linked && decide (1 < s.start)) = true
    · rw [if_pos z]
      refine back_almost bs (s := ask w.root (s.start - 1) { s with start := s.start - 1 }) ?_
      intro p q
      have q : .got p 0 ∈ Ev.asked (s.start - 1) w.root :: pass s.log := q
      rcases List.mem_cons.1 q with e | e
      · exact (nomatch e)
      · exact k p e
    · rw [if_neg z]; exact back_almost bs k

theorem lower_found {h : Nat} {bs : List Block} {s : St} (k : Almost h bs.length s) : Found (lower h bs s) := by
  unfold lower
  cases bs with
  | cons x l =>
    have k : Found s := fun p q => (k p q).elim id fun z => (nomatch z)
    cases s.peak <;> exact k
  | nil =>
    cases hp : s.peak with
    | none => exact fun p _ z => (nomatch z)
    | some q =>
      dsimp only
      by_cases z : h < q
      · rw [if_pos z]; exact fun p _ z => (nomatch z)
      · rw [if_neg z]; exact fun p _ y => by rw [hp] at y; exact (nomatch y)

theorem lower_same {h : Nat} {bs : List Block} {s : St} : (lower h bs s).synced = s.synced ∧
    (lower h bs s).pos = s.pos := by
  unfold lower
  cases bs with
  | cons x l => cases s.peak <;> exact ⟨rfl, rfl⟩
  | nil =>
    cases s.peak with
    | none => exact ⟨rfl, rfl⟩
    | some q =>
      dsimp only
      by_cases z : h < q
      · rw [if_pos z]; exact ⟨rfl, rfl⟩
      · rw [if_neg z]; exact ⟨rfl, rfl⟩

theorem next_finds {cfg : Cfg} {w : World} {v : Option View} {h : Nat} {bs : List Block} {s : St}
    (k : s.synced = false → Almost h bs.length s) : Finds (next cfg w v h bs s) := by
  unfold next
  by_cases z : s.synced = true
  · rw [if_pos z]; exact fun y => by rw [z] at y; exact (nomatch y)
  · rw [if_neg z]
    have i1 : Finds (lower h bs s) := by
      intro y
      rw [lower_same.1] at y
      exact lower_found (k y)
    dsimp only
    by_cases q : ((h % cfg.jobs == 0 || (lower h bs s).pending.isEmpty) && (lower h bs s).retry == 0) = true
    · rw [if_pos q]; exact update_finds i1
    · rw [if_neg q]; exact more_finds fun z _ => i1 z

theorem result_finds {cfg : Cfg} {w : World} {v : Option View} {h : Nat} {bs : List Block} {s : St} (i : Finds s) :
    Finds (result cfg w v h bs s) := by
  unfold result
  by_cases k : h ∈ s.open_
  · rw [if_pos k]
    dsimp only
    generalize timely cfg w bs = bs
    show Finds (next cfg w v h bs (walk w h bs (note h bs.length s)))
    have a : s.synced = false → Almost h bs.length (note h bs.length s) := by
      intro z1 p q
      have q : .got p 0 ∈ Ev.got h bs.length :: pass s.log := q
      rcases List.mem_cons.1 q with e | e
      · injection e with _ e
        exact .inr e.symm
      · exact .inl (i z1 p e)
    refine next_finds ?_
    unfold walk
    by_cases z : h = (note h bs.length s).start
    · rw [if_pos z]
      intro y
      have same : ∀ (l : List Block) (s : St), (l.foldl (back w) s).synced = s.synced := by
        intro l
        induction l with
        | nil => exact fun s => rfl
        | cons x l ih =>
          intro s
          rw [List.foldl_cons, ih (back w s x)]
          unfold back
          by_cases z : (!x.linked && decide (1 < s.start)) = true
          · rw [if_pos z]; rfl
          · rw [if_neg z]
      rw [same bs _] at y
      exact back_almost bs (a y)
    · rw [if_neg z]; exact a
  · rw [if_neg k]; exact i

theorem step_finds {cfg : Cfg} {s : St} (i : Finds s) (op : Op) : Finds (step cfg s op) := by
  cases op with
  | start w d f =>
    show Finds (startSync cfg w d f s)
    unfold startSync
    by_cases k : ((!s.synced || !d) && !f) = true
    · rw [if_pos k]; exact i
    · rw [if_neg k]; exact more_finds fun _ z => absurd rfl z
  | result w v x bs => exact result_finds i
  | fail x =>
    show Finds (fail x s)
    unfold fail
    by_cases k : x ∈ s.open_
    · rw [if_pos k]
      intro z1 p q
      have q : .got p 0 ∈ Ev.failed x :: pass s.log := q
      rcases List.mem_cons.1 q with e | e
      · exact (nomatch e)
      · exact i z1 p e
    · rw [if_neg k]; exact i
  | update w v => exact update_finds i

theorem run_finds (cfg : Cfg) (b : Bool) (ops : List Op) : Finds (run cfg b ops) := by
  have : ∀ (ops : List Op) (s : St), Finds s → Finds (ops.foldl (step cfg) s) := by
    intro ops
    induction ops with
    | nil => exact fun _ i => i
    | cons op ops ih => exact fun s i => ih _ (step_finds i op)
  exact this ops _ (fun _ _ z => (nomatch z))

/-! ### What `sync_more` leaves -/

theorem more_goes {cfg : Cfg} {w : World} {s : St} (hs : s.synced = false) (hw : 0 < w.slots) :
    (more cfg w s).pending ≠ [] ∨ w.root + cfg.ahead < (more cfg w s).pos ∨
      ∃ p, (more cfg w s).peak = some p := by
  unfold more
  rw [if_neg (by rw [hs]; decide)]
  dsimp only
  by_cases q : held cfg w (begin_ w s) = true
  · rw [if_pos q]
    exact .inr (.inl (of_decide_eq_true q))
  · rw [if_neg q]
    have := loop_ends (w := w) _ (left_le w (begin_ w s))
    generalize loop w _ _ = t at this
    by_cases z : t.pending.length < w.slots
    · right; right
      cases hp : t.peak with
      | none => exact absurd (by simp [z, below, hp]) this
      | some p => exact ⟨p, rfl⟩
    · left
      intro e
      rw [e] at z
      exact z hw

/-- A height that was asked for, or answered. -/
def Seen (h : Nat) (l : List Ev) : Prop := Asked h l ∨ Got h l

/-- The position is the one at which a sync began, or below a height that was seen. -/
def Placed (s : St) : Prop :=
  s.pos = 0 ∨ (∃ f, .began f ∈ s.log ∧ s.pos ≤ f) ∨ ∃ h, Seen h s.log ∧ s.pos ≤ h + 1

theorem Placed.mono {s s' : St} (h : Placed s) (e : s'.pos ≤ s.pos) (k : ∀ x ∈ s.log, x ∈ s'.log) : Placed s' := by
  rcases h with z | ⟨f, h1, h2⟩ | ⟨x, h1, h2⟩
  · exact .inl (by omega)
  · exact .inr (.inl ⟨f, k _ h1, by omega⟩)
  · refine .inr (.inr ⟨x, ?_, by omega⟩)
    rcases h1 with ⟨r, q⟩ | ⟨n, q⟩
    · exact .inl ⟨r, k _ q⟩
    · exact .inr ⟨n, k _ q⟩

theorem placed_loop {w : World} : ∀ (n : Nat) {s : St}, Placed s → Placed (loop w n s)
  | 0, _, h => h
  | n + 1, s, h => by
    unfold loop
    by_cases k : (s.pending.length < w.slots && below s) = true
    · rw [if_pos k]
      exact placed_loop n (w := w) (s := { ask w.root s.pos s with pos := s.pos + 1 })
        (.inr (.inr ⟨s.pos, .inl ⟨w.root, List.mem_cons_self⟩, Nat.le_refl _⟩))
    · rw [if_neg k]; exact h

theorem more_placed {cfg : Cfg} {w : World} {s : St} (h : Placed s) : Placed (more cfg w s) := by
  unfold more
  by_cases k : s.synced = true
  · rw [if_pos k]; exact h
  · rw [if_neg k]
    have hb : Placed (begin_ w s) := by
      unfold begin_
      by_cases z : s.pos = 0
      · rw [if_pos z]; exact .inr (.inl ⟨_, List.mem_cons_self, Nat.le_refl _⟩)
      · rw [if_neg z]; exact h
    dsimp only
    by_cases q : held cfg w (begin_ w s) = true
    · rw [if_pos q]; exact hb
    · rw [if_neg q]; exact placed_loop _ hb

/-- The peak was answered. -/
def Peaked (s : St) : Prop := ∀ p, s.peak = some p → Got p s.log

theorem update_placed {cfg : Cfg} {w : World} {v : Option View} {s : St} (h : Placed s) (k : Peaked s) :
    Placed (update cfg w v s) := by
  unfold update
  cases v with
  | none => exact h
  | some v =>
    have h1 : Placed (commit v s) := h.mono (Nat.le_refl _) fun x q => List.mem_append_right _ q
    have k1 : Peaked (commit v s) := fun p q => (k p q).imp fun n z => List.mem_append_right _ z
    refine more_placed ?_
    generalize commit v s = s at h1 k1
    unfold finish
    cases hp : s.peak with
    | none => exact h1
    | some p =>
      dsimp only
      by_cases z1 : (!s.synced && s.pending.isEmpty) = true
      · rw [if_pos z1]
        by_cases z2 : s.retry < cfg.retries
        · rw [if_pos z2]
          by_cases z3 : s.finish + cfg.pause < w.now
          · rw [if_pos z3]
            obtain ⟨n, q⟩ := k1 p hp
            exact .inr (.inr ⟨p, .inr ⟨n, List.mem_cons_of_mem _ q⟩, by show p - 1 ≤ p + 1; omega⟩)
          · rw [if_neg z3]; exact h1
        · rw [if_neg z2]; exact h1.mono (Nat.le_refl _) fun x q => List.mem_cons_of_mem _ q
      · rw [if_neg z1]; exact h1

theorem walk_keeps {w : World} {h : Nat} {bs : List Block} {s : St} :
    (walk w h bs s).pos = s.pos ∧ (walk w h bs s).peak = s.peak ∧ ∀ x ∈ s.log, x ∈ (walk w h bs s).log := by
  unfold walk
  by_cases z : h = s.start
  · rw [if_pos z]
    clear z
    induction bs generalizing s with
    | nil => exact ⟨rfl, rfl, fun _ q => q⟩
    | cons b bs ih =>
      rw [List.foldl_cons]
      obtain ⟨h1, h2, h3⟩ := ih (s := back w s b)
      have : (back w s b).pos = s.pos ∧ (back w s b).peak = s.peak ∧ ∀ x ∈ s.log, x ∈ (back w s b).log := by
        unfold back
        by_cases z : (!b.linked && decide (1 < s.start)) = true
        · rw [if_pos z]; exact ⟨rfl, rfl, fun _ q => List.mem_cons_of_mem _ q⟩
        · rw [if_neg z]; exact ⟨rfl, rfl, fun _ q => q⟩
      exact ⟨h1.trans this.1, h2.trans this.2.1, fun x q => h3 x (this.2.2 x q)⟩
  · rw [if_neg z]; exact ⟨rfl, rfl, fun _ q => q⟩

theorem lower_keeps {h : Nat} {bs : List Block} {s : St} :
    (lower h bs s).log = s.log ∧ ∀ p, (lower h bs s).peak = some p → s.peak = some p ∨ p = h := by
  unfold lower
  cases bs with
  | cons x l => cases hp : s.peak <;> exact ⟨rfl, fun p q => .inl (hp ▸ q)⟩
  | nil =>
    cases hp : s.peak with
    | none => exact ⟨rfl, fun p q => .inr (Option.some.inj q).symm⟩
    | some q =>
      dsimp only
      by_cases z : h < q
      · rw [if_pos z]; exact ⟨rfl, fun p q => .inr (Option.some.inj q).symm⟩
      · rw [if_neg z]; exact ⟨rfl, fun p q => .inl (hp ▸ q)⟩

theorem step_placed {cfg : Cfg} {s : St} (i : Placed s) (k : Peaked s) (op : Op) : Placed (step cfg s op) := by
  cases op with
  | start w d f =>
    show Placed (startSync cfg w d f s)
    unfold startSync
    by_cases z : ((!s.synced || !d) && !f) = true
    · rw [if_pos z]; exact i
    · rw [if_neg z]; exact more_placed (.inl rfl)
  | result w v h bs =>
    show Placed (result cfg w v h bs s)
    unfold result
    by_cases z : h ∈ s.open_
    · rw [if_pos z]
      dsimp only
      generalize timely cfg w bs = bs
      show Placed (next cfg w v h bs (walk w h bs (note h bs.length s)))
      obtain ⟨w1, w2, w3⟩ := walk_keeps (w := w) (h := h) (bs := bs) (s := note h bs.length s)
      generalize walk w h bs (note h bs.length s) = t at w1 w2 w3
      have w1 : t.pos = s.pos := w1
      have w2 : t.peak = s.peak := w2
      have i1 : Placed t := i.mono (Nat.le_of_eq w1) fun x q => w3 x (List.mem_cons_of_mem _ q)
      have k1 : Peaked (lower h bs t) := by
        intro p q
        rw [lower_keeps.1]
        rcases lower_keeps.2 p q with e | e
        · rw [w2] at e
          exact (k p e).imp fun n y => w3 _ (List.mem_cons_of_mem _ y)
        · rw [e]; exact ⟨_, w3 _ List.mem_cons_self⟩
      have i2 : Placed (lower h bs t) :=
        i1.mono (Nat.le_of_eq lower_same.2) fun x q => by rw [lower_keeps.1]; exact q
      unfold next
      by_cases y : t.synced = true
      · rw [if_pos y]; exact i1
      · rw [if_neg y]
        dsimp only
        by_cases q : ((h % cfg.jobs == 0 || (lower h bs t).pending.isEmpty) && (lower h bs t).retry == 0) = true
        · rw [if_pos q]; exact update_placed i2 k1
        · rw [if_neg q]; exact more_placed i2
    · rw [if_neg z]; exact i
  | fail x =>
    show Placed (fail x s)
    unfold fail
    by_cases z : x ∈ s.open_
    · rw [if_pos z]
      exact i.mono (Nat.min_le_left _ _) fun _ q => List.mem_cons_of_mem _ q
    · rw [if_neg z]; exact i
  | update w v => exact update_placed i k

theorem pass_sub {x : Ev} : ∀ {l : List Ev}, x ∈ pass l → x ∈ l
  | e :: l, h => by
    cases e with
    | began | reached => exact (nomatch h)
    | _ =>
      rcases List.mem_cons.1 h with e | e
      · exact e ▸ List.mem_cons_self
      · exact List.mem_cons_of_mem _ (pass_sub e)

theorem GI.peaked {cfg : Cfg} {M : Nat} {b : Bool} {s : St} (h : GI cfg M b s) : Peaked s :=
  fun p q => ⟨0, pass_sub (h.peak p q).1⟩

theorem run_placed (cfg : Cfg) (b : Bool) (ops : List Op) : Placed (run cfg b ops) := by
  obtain ⟨M, hM⟩ := run_bound ops
  have : ∀ (ops : List Op) (s : St), (∀ op ∈ ops, op.slots ≤ M) → RI cfg M b s → Placed s →
      Placed (ops.foldl (step cfg) s) := by
    intro ops
    induction ops with
    | nil => exact fun _ _ _ i => i
    | cons op ops ih =>
      exact fun s h r i => ih _ (fun o k => h o (List.mem_cons_of_mem _ k)) (step_inv r op (h op List.mem_cons_self))
        (step_placed i r.gi.peaked op)
  exact this ops _ hM (init_inv cfg M b) (.inl rfl)

theorem loop_adds (w : World) : ∀ (n : Nat) (s : St), ∃ l, (loop w n s).log = l ++ s.log
  | 0, _ => ⟨[], rfl⟩
  | n + 1, s => by
    unfold loop
    by_cases k : (s.pending.length < w.slots && below s) = true
    · rw [if_pos k]
      obtain ⟨l, h⟩ := loop_adds w n { ask w.root s.pos s with pos := s.pos + 1 }
      refine ⟨l ++ [.asked s.pos w.root], ?_⟩
      rw [h]
      simp [ask]
    · rw [if_neg k]; exact ⟨[], rfl⟩

theorem more_adds (cfg : Cfg) (w : World) (s : St) : ∃ l, (more cfg w s).log = l ++ s.log := by
  unfold more
  by_cases k : s.synced = true
  · rw [if_pos k]; exact ⟨[], rfl⟩
  · rw [if_neg k]
    have hb : ∃ l, (begin_ w s).log = l ++ s.log := by
      unfold begin_
      by_cases z : s.pos = 0
      · rw [if_pos z]; exact ⟨[_], rfl⟩
      · rw [if_neg z]; exact ⟨[], rfl⟩
    dsimp only
    by_cases q : held cfg w (begin_ w s) = true
    · rw [if_pos q]; exact hb
    · rw [if_neg q]
      obtain ⟨l1, h1⟩ := hb
      obtain ⟨l2, h2⟩ := loop_adds w (w.slots + (begin_ w s).pending.length) (begin_ w s)
      exact ⟨l2 ++ l1, by rw [h2, h1, List.append_assoc]⟩

/-! ### Which events follow which -/

/-- Answers follow calls, and commits are told apart by whether the node is in sync. -/
def Right (b : Bool) : Ev → List Ev → Prop
  | .got h _, l => 0 < calls h l
  | .failed h, l => 0 < calls h l
  | .commit _, l => inSync b l = false
  | .late _, l => inSync b l = true
  | _, _ => True

/-- The log so far, and the flag. -/
def Ok (b : Bool) (s : St) : Prop := Each (Right b) s.log ∧ s.synced = inSync b s.log

theorem ok_loop {b : Bool} {w : World} : ∀ (n : Nat) {s : St}, Ok b s → Ok b (loop w n s)
  | 0, _, h => h
  | n + 1, s, h => by
    unfold loop
    by_cases k : (s.pending.length < w.slots && below s) = true
    · rw [if_pos k]
      exact ok_loop n (s := { ask w.root s.pos s with pos := s.pos + 1 }) ⟨⟨trivial, h.1⟩, h.2⟩
    · rw [if_neg k]; exact h

theorem more_ok {b : Bool} {cfg : Cfg} {w : World} {s : St} (h : Ok b s) : Ok b (more cfg w s) := by
  unfold more
  by_cases k : s.synced = true
  · rw [if_pos k]; exact h
  · rw [if_neg k]
    have hb : Ok b (begin_ w s) := by
      unfold begin_
      by_cases z : s.pos = 0
      · rw [if_pos z]; exact ⟨⟨trivial, h.1⟩, h.2⟩
      · rw [if_neg z]; exact h
    dsimp only
    by_cases q : held cfg w (begin_ w s) = true
    · rw [if_pos q]; exact hb
    · rw [if_neg q]; exact ok_loop _ hb

theorem commit_ok {b : Bool} {v : View} {s : St} (h : Ok b s) : Ok b (commit v s) := by
  unfold commit Ok
  dsimp only
  rw [← List.map_reverse]
  generalize (v.line.takeWhile (commits v s)).reverse = g
  induction g with
  | nil => exact h
  | cons x g ih =>
    rw [List.map_cons, List.cons_append]
    unfold record at ih ⊢
    cases hs : s.synced <;> rw [hs] at ih
    · exact ⟨⟨ih.2.symm, ih.1⟩, ih.2⟩
    · exact ⟨⟨ih.2.symm, ih.1⟩, ih.2⟩

theorem update_ok {b : Bool} {cfg : Cfg} {w : World} {v : Option View} {s : St} (h : Ok b s) :
    Ok b (update cfg w v s) := by
  unfold update
  cases v with
  | none => exact h
  | some v =>
    refine more_ok ?_
    have h := commit_ok (v := v) h
    generalize commit v s = s at h
    unfold finish
    cases hp : s.peak with
    | none => exact h
    | some p =>
      dsimp only
      by_cases z1 : (!s.synced && s.pending.isEmpty) = true
      · rw [if_pos z1]
        by_cases z2 : s.retry < cfg.retries
        · rw [if_pos z2]
          by_cases z3 : s.finish + cfg.pause < w.now
          · rw [if_pos z3]; exact ⟨⟨trivial, h.1⟩, h.2⟩
          · rw [if_neg z3]; exact h
        · rw [if_neg z2]; exact ⟨⟨trivial, h.1⟩, rfl⟩
      · rw [if_neg z1]; exact h

theorem back_ok {b : Bool} {w : World} : ∀ (bs : List Block) {s : St}, Ok b s → Ok b (bs.foldl (back w) s)
  | [], _, h => h
  | x :: bs, s, h => by
    rw [List.foldl_cons]
    refine back_ok bs ?_
    unfold back
    by_cases z : (!x.linked && decide (1 < s.start)) = true
    · rw [if_pos z]; exact ⟨⟨trivial, h.1⟩, h.2⟩
    · rw [if_neg z]; exact h

theorem step_ok {b : Bool} {cfg : Cfg} {M : Nat} {s : St} (i : RI cfg M b s) (h : Ok b s) (op : Op) :
    Ok b (step cfg s op) := by
  cases op with
  | start w d f =>
    show Ok b (startSync cfg w d f s)
    unfold startSync
    by_cases z : ((!s.synced || !d) && !f) = true
    · rw [if_pos z]; exact h
    · rw [if_neg z]; exact more_ok ⟨⟨trivial, h.1⟩, rfl⟩
  | result w v x bs =>
    show Ok b (result cfg w v x bs s)
    unfold result
    by_cases z : x ∈ s.open_
    · rw [if_pos z]
      dsimp only
      generalize timely cfg w bs = bs
      have h1 : Ok b (note x bs.length s) :=
        ⟨⟨by show 0 < calls x s.log; rw [i.gi.open_ x]; exact List.count_pos_iff.2 z, h.1⟩, h.2⟩
      show Ok b (next cfg w v x bs (walk w x bs (note x bs.length s)))
      have h2 : Ok b (walk w x bs (note x bs.length s)) := by
        unfold walk
        by_cases q : x = (note x bs.length s).start
        · rw [if_pos q]; exact back_ok bs h1
        · rw [if_neg q]; exact h1
      generalize walk w x bs (note x bs.length s) = t at h2
      have h3 : Ok b (lower x bs t) := by
        unfold Ok
        rw [lower_keeps.1, lower_same.1]
        exact h2
      unfold next
      by_cases y : t.synced = true
      · rw [if_pos y]; exact h2
      · rw [if_neg y]
        dsimp only
        by_cases q : ((x % cfg.jobs == 0 || (lower x bs t).pending.isEmpty) && (lower x bs t).retry == 0) = true
        · rw [if_pos q]; exact update_ok h3
        · rw [if_neg q]; exact more_ok h3
    · rw [if_neg z]; exact h
  | fail x =>
    show Ok b (fail x s)
    unfold fail
    by_cases z : x ∈ s.open_
    · rw [if_pos z]
      exact ⟨⟨by show 0 < calls x s.log; rw [i.gi.open_ x]; exact List.count_pos_iff.2 z, h.1⟩, h.2⟩
    · rw [if_neg z]; exact h
  | update w v => exact update_ok h

theorem run_right (cfg : Cfg) (b : Bool) (ops : List Op) : Each (Right b) (run cfg b ops).log := by
  obtain ⟨M, hM⟩ := run_bound ops
  have : ∀ (ops : List Op) (s : St), (∀ op ∈ ops, op.slots ≤ M) → RI cfg M b s → Ok b s →
      Ok b (ops.foldl (step cfg) s) := by
    intro ops
    induction ops with
    | nil => exact fun _ _ _ i => i
    | cons op ops ih =>
      exact fun s h r i => ih _ (fun o k => h o (List.mem_cons_of_mem _ k)) (step_inv r op (h op List.mem_cons_self))
        (step_ok r i op)
  exact (this ops _ hM (init_inv cfg M b) ⟨trivial, rfl⟩).1

/-! ### Deciding the hypotheses on examples -/

theorem calls_none {h : Nat} : ∀ {l : List Ev}, (∀ r, .asked h r ∉ l) → calls h l = 0
  | [], _ => rfl
  | e :: l, k => by
    have ih := calls_none (h := h) (l := l) fun r q => k r (List.mem_cons_of_mem _ q)
    cases e with
    | asked g r =>
      have : g ≠ h := fun e => k r (e ▸ List.mem_cons_self)
      unfold calls
      rw [if_neg this, ih]
    | got g n => unfold calls; omega
    | failed g => unfold calls; omega
    | _ => exact ih

def stillB (l : List Ev) : Bool :=
  l.all fun e => match e with
    | .asked g _ => calls g l == 0
    | _ => true

theorem still_of {l : List Ev} (h : stillB l = true) : Still l := by
  intro g
  by_cases k : ∃ r, .asked g r ∈ l
  · obtain ⟨r, k⟩ := k
    exact eq_of_beq (List.all_eq_true.1 h _ k)
  · exact calls_none fun r q => k ⟨r, q⟩

def cleanB : List Ev → Bool
  | [] => false
  | .began _ :: l => stillB l
  | .failed _ :: _ => false
  | .reached _ _ :: l => stillB l && cleanB l
  | _ :: l => cleanB l

theorem clean_of : ∀ {l : List Ev}, cleanB l = true → Clean l
  | e :: l, h => by
    cases e with
    | began f => exact still_of h
    | failed f => exact (nomatch h)
    | reached p t =>
      have h := Bool.and_eq_true_iff.1 h
      exact ⟨still_of h.1, clean_of h.2⟩
    | start => exact clean_of (l := l) h
    | asked => exact clean_of (l := l) h
    | got => exact clean_of (l := l) h
    | done => exact clean_of (l := l) h
    | commit => exact clean_of (l := l) h
    | late => exact clean_of (l := l) h

end Verif.Catchup
