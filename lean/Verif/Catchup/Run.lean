/-
  Helper lemmas on catching up: every callback.
-/
import Verif.Catchup.Inv

namespace Verif.Catchup

/-! ### `update` -/

theorem plain_log (synced : Bool) : ∀ (g : List Nat) (l : List Ev),
    (∀ h, calls h ((g.map (record synced)) ++ l) = calls h l) ∧
    origin ((g.map (record synced)) ++ l) = origin l ∧
    (Clean ((g.map (record synced)) ++ l) ↔ Clean l) ∧
    passes ((g.map (record synced)) ++ l) = passes l ∧
    lastPass ((g.map (record synced)) ++ l) = lastPass l ∧
    (∀ b, inSync b ((g.map (record synced)) ++ l) = inSync b l) ∧
    (∀ e, e ∈ pass l → e ∈ pass ((g.map (record synced)) ++ l)) ∧
    (∀ h, Asked h (since ((g.map (record synced)) ++ l)) ↔ Asked h (since l)) ∧
    (∀ h, Got h (since l) → Got h (since ((g.map (record synced)) ++ l)))
  | [], l => ⟨fun _ => rfl, rfl, Iff.rfl, rfl, rfl, fun _ => rfl, fun _ h => h, fun _ => Iff.rfl, fun _ h => h⟩
  | x :: g, l => by
    obtain ⟨h1, h2, h3, h4, h5, h6, h7, h8, h9⟩ := plain_log synced g l
    rw [List.map_cons, List.cons_append]
    generalize g.map (record synced) ++ l = m at *
    cases synced
    · refine ⟨h1, h2, h3, h4, h5, h6, fun e k => List.mem_cons_of_mem _ (h7 e k), ?_, fun h k => (h9 h k).cons _⟩
      intro h
      exact (asked_other (l := since m) (fun _ _ => Ev.noConfusion)).trans (h8 h)
    · refine ⟨h1, h2, h3, h4, h5, h6, fun e k => List.mem_cons_of_mem _ (h7 e k), ?_, fun h k => (h9 h k).cons _⟩
      intro h
      exact (asked_other (l := since m) (fun _ _ => Ev.noConfusion)).trans (h8 h)

theorem takeWhile_mem {α : Type} {p : α → Bool} : ∀ {l : List α}, ∀ x ∈ l.takeWhile p, p x = true
  | [], _, h => (nomatch h)
  | a :: l, x, h => by
    rw [List.takeWhile_cons] at h
    by_cases k : p a = true
    · rw [if_pos k] at h
      rcases List.mem_cons.1 h with e | e
      · exact e ▸ k
      · exact takeWhile_mem x e
    · rw [if_neg k] at h; exact (nomatch h)

theorem commit_inv {cfg : Cfg} {M : Nat} {b : Bool} {s : St} (h : RI cfg M b s) (v : View) :
    RI cfg M b (commit v s) := by
  have hl : (commit v s).log = (v.line.takeWhile (commits v s)).reverse.map (record s.synced) ++ s.log := by
    show (List.map _ _).reverse ++ _ = _
    rw [List.map_reverse]
  have hm : ∀ x ∈ (v.line.takeWhile (commits v s)).reverse, commits v s x = true := fun x k =>
    takeWhile_mem x (List.mem_reverse.1 k)
  have he : Each (Known cfg M) (commit v s).log := by
    rw [hl]
    generalize (v.line.takeWhile (commits v s)).reverse = g at hm
    clear hl
    induction g with
    | nil => exact h.gi.each
    | cons x g ih =>
      refine ⟨?_, ih fun y k => hm y (List.mem_cons_of_mem _ k)⟩
      have hx := hm x List.mem_cons_self
      have hp := plain_log s.synced g s.log
      by_cases k : s.synced = true
      · unfold record; rw [if_pos k]; trivial
      · have e : record s.synced x = .commit x := by unfold record; rw [if_neg k]
        rw [e]
        intro f h1 h2 h3
        have h1 : origin (g.map (record s.synced) ++ s.log) = some f := h1
        rw [hp.2.1] at h1
        have h2 := hp.2.2.1.1 h2
        have hc := h.during f h1 h2
        simp only [commits, Bool.and_eq_true, Bool.or_eq_true, decide_eq_true_eq] at hx
        rcases hx.2 with z | z
        · exact absurd z k
        · rcases hc.got x h3 z with q | q
          · have h5 := hx.1.2
            simp only [Bool.not_eq_true', List.contains_eq_mem, decide_eq_false_iff_not] at h5
            exact absurd q h5
          · exact hp.2.2.2.2.2.2.2.2 x q
  have hp := plain_log s.synced (v.line.takeWhile (commits v s)).reverse s.log
  rw [← hl] at hp
  obtain ⟨h1, h2, h3, h4, h5, h6, h7, h8, h9⟩ := hp
  refine ⟨⟨he, fun x => (h1 x).trans (h.gi.open_ x), h.gi.sub, h.gi.pos, h.gi.zero,
    fun p k => ⟨h7 _ (h.gi.peak p k).1, (h.gi.peak p k).2⟩, h.gi.retry.trans h4.symm,
    h.gi.finish.trans h5.symm, h.gi.sync.trans (h6 b).symm⟩, ?_, ?_⟩
  · intro f k1 k2
    rw [h2] at k1
    exact (h.during f k1 (h3.1 k2)).log h8 h9
  · exact h.pos

/-- After the end of a pass `sync_pos` may be 0. -/
theorem finish_inv {cfg : Cfg} {M : Nat} {b : Bool} {w : World} {s : St} (h : RI cfg M b s) (v : View) :
    GI cfg M b (finish cfg w v s) ∧ ((finish cfg w v s).pos ≠ 0 → During (finish cfg w v s)) ∧
    ((finish cfg w v s).synced = true → RI cfg M b (finish cfg w v s)) := by
  have triv : GI cfg M b s ∧ (s.pos ≠ 0 → During s) ∧ (s.synced = true → RI cfg M b s) :=
    ⟨h.gi, fun _ => h.during, fun _ => h⟩
  unfold finish
  cases hp : s.peak with
  | none => exact triv
  | some p =>
    dsimp only
    by_cases k1 : (!s.synced && s.pending.isEmpty) = true
    · rw [if_pos k1]
      have k1' := Bool.and_eq_true_iff.1 k1
      have hpe : s.pending = [] := List.isEmpty_iff.1 k1'.2
      by_cases k2 : s.retry < cfg.retries
      · rw [if_pos k2]
        by_cases k3 : s.finish + cfg.pause < w.now
        · rw [if_pos k3]
          have hk := h.gi.peak p hp
          refine ⟨⟨⟨⟨h.gi.finish ▸ k3, hk.1⟩, h.gi.each⟩, h.gi.open_, h.gi.sub, h.gi.pos, fun _ => rfl,
            fun _ z => (nomatch z), ?_, rfl, h.gi.sync⟩, ?_, ?_⟩
          · show s.retry + 1 = 1 + passes s.log
            rw [h.gi.retry, Nat.add_comm]
          · intro _ f hf hc
            have hf : origin s.log = some f := hf
            obtain ⟨hs, hc⟩ : Still s.log ∧ Clean s.log := hc
            have c := h.during f hf hc
            have ho : s.open_ = [] := by
              cases e : s.open_ with
              | nil => rfl
              | cons x l =>
                have := h.gi.open_ x
                rw [hs x, e, List.count_cons_self] at this
                omega
            obtain ⟨hp1, hp2⟩ := c.peak p hp
            have a : ∀ g, Asked g (since (.reached p w.now :: s.log)) ↔ Asked g (since s.log) := fun g =>
              asked_other (fun _ _ => Ev.noConfusion)
            have bb : ∀ g, Got g (since s.log) → Got g (since (.reached p w.now :: s.log)) := fun g k => k.cons _
            refine ⟨?_, ?_, fun _ z => (nomatch z), c.start, ?_, ?_, ?_, ?_, ?_, ?_⟩
            · intro g z
              have z : g ∈ s.open_ := z
              rw [ho] at z; exact (nomatch z)
            · intro g z
              have z : g ∈ s.open_ := z
              rw [ho] at z; exact (nomatch z)
            · intro g z1 z2
              have z2 : g < p - 1 := z2
              exact (c.got g z1 (by omega)).imp id (bb g)
            · intro g z1 z2
              have z2 : g < p - 1 := z2
              exact (a g).2 (c.all g z1 (by omega))
            · intro g z1 z2; exact (a g).2 (c.back g z1 z2)
            · intro g z1 z2
              have z1 : p - 1 < g := z1
              exact (a g).2 (c.down p hp2 g (by omega) z2)
            · intro g z x z1 z2; exact (a x).2 (c.up g ((a g).1 z) x z1 z2)
            · intro g z x z1 z2; exact (a x).2 (c.down g ((a g).1 z) x z1 z2)
          · intro z
            have z : s.synced = true := z
            rw [z] at k1'; exact (nomatch k1'.1)
        · rw [if_neg k3]; exact triv
      · rw [if_neg k2]
        have hk := h.gi.peak p hp
        have hd : During { s with synced := true, log := .done v.peak :: s.log } := by
          intro f hf hc
          have c := (h.during f hf hc).log (l := .done v.peak :: s.log)
            (fun g => asked_other (fun _ _ => Ev.noConfusion)) (fun g k => k.cons _)
          exact ⟨c.lt, c.asked, c.peak, c.start, c.got, c.all, c.back, c.low, c.up, c.down⟩
        have hg : GI cfg M b { s with synced := true, log := .done v.peak :: s.log } := by
          refine ⟨⟨⟨?_, p, hk.1, ?_⟩, h.gi.each⟩, h.gi.open_, h.gi.sub, h.gi.pos, h.gi.zero,
            fun q z => ⟨List.mem_cons_of_mem _ (h.gi.peak q z).1, (h.gi.peak q z).2⟩, h.gi.retry,
            h.gi.finish, rfl⟩
          · rw [← h.gi.retry]; exact Nat.le_of_not_lt k2
          · intro f hf hc x z1 z2
            have c := h.during f hf hc
            rcases c.got x z1 (Nat.lt_of_le_of_lt z2 (c.peak p hp).1) with q | q
            · rw [hpe] at q; exact (nomatch q)
            · exact q
        rw [← hp]
        exact ⟨hg, fun _ => hd, fun _ => ⟨hg, hd, h.pos⟩⟩
    · rw [if_neg k1]; exact triv

theorem update_inv {cfg : Cfg} {M : Nat} {b : Bool} {w : World} (hw : w.slots ≤ M) {s : St}
    (h : RI cfg M b s) (v : Option View) : RI cfg M b (update cfg w v s) := by
  unfold update
  cases v with
  | none => exact h
  | some v =>
    obtain ⟨h1, h2, h3⟩ := finish_inv (w := w) (commit_inv h v) v
    exact more_inv hw h1 h2 h3

/-! ### Answers -/

theorem pass_got {l : List Ev} (h n : Nat) : pass (.got h n :: l) = .got h n :: pass l := rfl

theorem count_close (h g : Nat) (l : List Nat) : (l.erase h).count g = l.count g - if h = g then 1 else 0 := by
  rw [List.count_erase]
  by_cases e : h = g
  · simp [e]
  · simp [e]

theorem mem_close {h g : Nat} {l : List Nat} (k : g ∈ l.erase h) : g ∈ l := List.mem_of_mem_erase k

theorem close_sub {h g : Nat} {s : St} (hs : ∀ h ∈ s.pending, h ∈ s.open_) (k : g ∈ del h s.pending) :
    g ∈ s.open_.erase h := by
  obtain ⟨k1, k2⟩ := mem_del.1 k
  exact (List.mem_erase_of_ne k2).2 (hs g k1)

/-- The answer is recorded. -/
def note (h n : Nat) (s : St) : St := { close h s with log := .got h n :: s.log }

theorem note_inv {cfg : Cfg} {M : Nat} {b : Bool} {s : St} (i : RI cfg M b s) (h n : Nat) :
    RI cfg M b (note h n s) ∧
    ∀ f, origin (note h n s).log = some f → Clean (note h n s).log → h ∈ s.open_ →
      h < (note h n s).pos ∧ Asked h (since (note h n s).log) := by
  have a : ∀ g, Asked g (since (.got h n :: s.log)) ↔ Asked g (since s.log) := fun g =>
    asked_other (fun _ _ => Ev.noConfusion)
  refine ⟨⟨⟨⟨trivial, i.gi.each⟩, ?_, fun g k => close_sub i.gi.sub k, fun g k => i.gi.pos g (mem_close k), i.gi.zero,
    fun p k => ⟨List.mem_cons_of_mem _ (i.gi.peak p k).1, (i.gi.peak p k).2⟩, i.gi.retry, i.gi.finish, i.gi.sync⟩,
    ?_, i.pos.imp id fun e => by show s.open_.erase h = []; rw [e]; rfl⟩, ?_⟩
  · intro g
    show calls g s.log - (if h = g then 1 else 0) = (s.open_.erase h).count g
    rw [count_close, i.gi.open_ g]
  · intro f hf hc
    have c := i.during f hf hc
    refine ⟨fun g k => c.lt g (mem_close k), fun g k => (a g).2 (c.asked g (mem_close k)),
      fun p k => ⟨(c.peak p k).1, (a p).2 (c.peak p k).2⟩, c.start, ?_, fun g k1 k2 => (a g).2 (c.all g k1 k2),
      fun g k1 k2 => (a g).2 (c.back g k1 k2), fun g k1 k2 => (a g).2 (c.low g k1 k2),
      fun g k x k1 k2 => (a x).2 (c.up g ((a g).1 k) x k1 k2),
      fun g k x k1 k2 => (a x).2 (c.down g ((a g).1 k) x k1 k2)⟩
    intro g k1 k2
    show g ∈ del h s.pending ∨ _
    by_cases e : g = h
    · exact .inr ⟨n, e ▸ List.mem_cons_self⟩
    · exact (c.got g k1 k2).imp (fun q => mem_del.2 ⟨q, e⟩) (fun q => q.cons _)
  · intro f hf hc k
    have c := i.during f hf hc
    exact ⟨c.lt h k, (a h).2 (c.asked h k)⟩

/-- What an answer brought stays known while it is dealt with. -/
structure Fresh (h n : Nat) (s : St) : Prop where
  got : .got h n ∈ pass s.log
  pos : 0 < h
  clean : ∀ f, origin s.log = some f → Clean s.log → h < s.pos ∧ Asked h (since s.log)

theorem back_inv {cfg : Cfg} {M : Nat} {b : Bool} {w : World} {h n : Nat} : ∀ (bs : List Block) {s : St},
    RI cfg M b s → Fresh h n s → 0 < s.pos →
    (∀ f, origin s.log = some f → Clean s.log → s.start ≤ s.pos) →
    RI cfg M b (bs.foldl (back w) s) ∧ Fresh h n (bs.foldl (back w) s) ∧ 0 < (bs.foldl (back w) s).pos ∧
      (bs.foldl (back w) s).synced = s.synced
  | [], _, i, k, p, _ => ⟨i, k, p, rfl⟩
  | x :: bs, s, i, k, p, q => by
    rw [List.foldl_cons]
    unfold back
    by_cases z : (!x.linked && decide (1 < s.start)) = true
    · rw [if_pos z]
      have z1 : 1 < s.start := of_decide_eq_true (Bool.and_eq_true_iff.1 z).2
      have kn : Known cfg M (.asked (s.start - 1) w.root) s.log := by
        refine ⟨by omega, ?_⟩
        intro f hf hc hle
        have := (i.during f hf hc).start
        omega
      refine back_inv bs (s := ask w.root (s.start - 1) { s with start := s.start - 1 }) ⟨?_, ?_, .inl p⟩ ?_ p ?_
      · exact GI.ask (GI.start i.gi (s.start - 1)) kn
      · intro f hf hc
        exact (i.during f hf hc).ask_back w.root (q f hf hc) (by omega)
      · exact ⟨List.mem_cons_of_mem _ k.got, k.pos, fun f hf hc =>
          ⟨(k.clean f hf hc).1, (k.clean f hf hc).2.cons _⟩⟩
      · intro f hf hc
        have := q f hf hc
        show s.start - 1 ≤ s.pos
        omega
    · rw [if_neg z]; exact back_inv bs i k p q

theorem lower_inv {cfg : Cfg} {M : Nat} {b : Bool} {h : Nat} {bs : List Block} {s : St} (i : RI cfg M b s)
    (k : Fresh h bs.length s) (hp : s.pos ≠ 0) :
    RI cfg M b (lower h bs s) := by
  have set : bs = [] → RI cfg M b { s with peak := some h } := by
    intro e
    subst e
    refine ⟨⟨i.gi.each, i.gi.open_, i.gi.sub, i.gi.pos, fun z => absurd z hp, ?_, i.gi.retry, i.gi.finish,
      i.gi.sync⟩, ?_, i.pos⟩
    · intro p z
      have z : some h = some p := z
      cases z
      exact ⟨k.got, k.pos⟩
    · intro f hf hc
      have c := i.during f hf hc
      refine ⟨c.lt, c.asked, ?_, c.start, c.got, c.all, c.back, c.low, c.up, c.down⟩
      intro p z
      have z : some h = some p := z
      cases z
      exact k.clean f hf hc
  unfold lower
  cases bs with
  | cons x l => cases s.peak <;> exact i
  | nil =>
    cases s.peak with
    | none => exact set rfl
    | some p =>
      dsimp only
      by_cases z : h < p
      · rw [if_pos z]; exact set rfl
      · rw [if_neg z]; exact i

theorem next_inv {cfg : Cfg} {M : Nat} {b : Bool} {w : World} (hw : w.slots ≤ M) {v : Option View} {h : Nat}
    {bs : List Block} {s : St} (i : RI cfg M b s) (k : Fresh h bs.length s) (hp : 0 < s.pos) :
    RI cfg M b (next cfg w v h bs s) := by
  unfold next
  by_cases z : s.synced = true
  · rw [if_pos z]; exact i
  · rw [if_neg z]
    have i1 := lower_inv i k (Nat.ne_of_gt hp)
    dsimp only
    by_cases q : ((h % cfg.jobs == 0 || (lower h bs s).pending.isEmpty) && (lower h bs s).retry == 0) = true
    · rw [if_pos q]; exact update_inv hw i1 v
    · rw [if_neg q]; exact more_inv hw i1.gi (fun _ => i1.during) (fun _ => i1)

theorem result_inv {cfg : Cfg} {M : Nat} {b : Bool} {w : World} (hw : w.slots ≤ M) {v : Option View} {h : Nat}
    {bs : List Block} {s : St} (i : RI cfg M b s) : RI cfg M b (result cfg w v h bs s) := by
  unfold result
  by_cases k : h ∈ s.open_
  · rw [if_pos k]
    dsimp only
    generalize timely cfg w bs = bs
    have hp : 0 < s.pos := by
      rcases i.pos with z | z
      · exact z
      · rw [z] at k; exact (nomatch k)
    obtain ⟨i1, c1⟩ := note_inv i h bs.length
    have f1 : Fresh h bs.length (note h bs.length s) :=
      ⟨List.mem_cons_self, i.gi.pos h k, fun f hf hc => c1 f hf hc k⟩
    show RI cfg M b (next cfg w v h bs (walk w h bs (note h bs.length s)))
    unfold walk
    by_cases z : h = (note h bs.length s).start
    · rw [if_pos z]
      obtain ⟨i2, f2, p2, _⟩ := back_inv (w := w) bs i1 f1 hp (by
        intro f hf hc
        have := (f1.clean f hf hc).1
        omega)
      exact next_inv hw i2 f2 p2
    · rw [if_neg z]; exact next_inv hw i1 f1 hp
  · rw [if_neg k]; exact i

theorem fail_inv {cfg : Cfg} {M : Nat} {b : Bool} {h : Nat} {s : St} (i : RI cfg M b s) :
    RI cfg M b (fail h s) := by
  unfold fail
  by_cases k : h ∈ s.open_
  · rw [if_pos k]
    have hh := i.gi.pos h k
    have hp : 0 < s.pos := by
      rcases i.pos with z | z
      · exact z
      · rw [z] at k; exact (nomatch k)
    have hm : 0 < min s.pos h := by omega
    refine ⟨⟨⟨trivial, i.gi.each⟩, ?_, fun g k => close_sub i.gi.sub k, fun g k => i.gi.pos g (mem_close k), ?_,
      fun p k => ⟨List.mem_cons_of_mem _ (i.gi.peak p k).1, (i.gi.peak p k).2⟩, i.gi.retry, i.gi.finish, i.gi.sync⟩,
      fun f hf hc => hc.elim, .inl hm⟩
    · intro g
      show calls g s.log - (if h = g then 1 else 0) = (s.open_.erase h).count g
      rw [count_close, i.gi.open_ g]
    · intro z
      have z : min s.pos h = 0 := z
      omega
  · rw [if_neg k]; exact i

theorem start_inv {cfg : Cfg} {M : Nat} {b : Bool} {w : World} (hw : w.slots ≤ M) {d f : Bool} {s : St}
    (i : RI cfg M b s) : RI cfg M b (startSync cfg w d f s) := by
  unfold startSync
  by_cases k : ((!s.synced || !d) && !f) = true
  · rw [if_pos k]; exact i
  · rw [if_neg k]
    exact more_inv hw ⟨⟨trivial, i.gi.each⟩, i.gi.open_, i.gi.sub, i.gi.pos, fun _ => rfl, fun _ z => (nomatch z), rfl,
      i.gi.finish, rfl⟩ (fun z => absurd rfl z) (fun z => (nomatch z))

/-- The slots of a callback. -/
def Op.slots : Op → Nat
  | .start w _ _ => w.slots
  | .result w _ _ _ => w.slots
  | .fail _ => 0
  | .update w _ => w.slots

theorem step_inv {cfg : Cfg} {M : Nat} {b : Bool} {s : St} (i : RI cfg M b s) (op : Op) (h : op.slots ≤ M) :
    RI cfg M b (step cfg s op) := by
  cases op with
  | start w d f => exact start_inv h i
  | result w v x bs => exact result_inv h i
  | fail x => exact fail_inv i
  | update w v => exact update_inv h i v

theorem init_inv (cfg : Cfg) (M : Nat) (b : Bool) : RI cfg M b { synced := b } :=
  ⟨⟨trivial, fun _ => rfl, fun _ k => (nomatch k), fun _ k => (nomatch k), fun _ => rfl, fun _ k => (nomatch k), rfl,
    rfl, rfl⟩, fun _ k => (nomatch k), .inr rfl⟩

theorem run_inv (cfg : Cfg) (M : Nat) (b : Bool) (ops : List Op) (h : ∀ op ∈ ops, op.slots ≤ M) :
    RI cfg M b (run cfg b ops) := by
  have : ∀ (ops : List Op) (s : St), (∀ op ∈ ops, op.slots ≤ M) → RI cfg M b s →
      RI cfg M b (ops.foldl (step cfg) s) := by
    intro ops
    induction ops with
    | nil => exact fun _ _ i => i
    | cons op ops ih =>
      exact fun s h i => ih _ (fun o k => h o (List.mem_cons_of_mem _ k)) (step_inv i op (h op List.mem_cons_self))
  exact this ops _ h (init_inv cfg M b)

/-- There always is a bound. -/
theorem run_bound (ops : List Op) : ∃ M, ∀ op ∈ ops, op.slots ≤ M := by
  induction ops with
  | nil => exact ⟨0, fun _ k => (nomatch k)⟩
  | cons op ops ih =>
    obtain ⟨M, h⟩ := ih
    refine ⟨max op.slots M, fun o k => ?_⟩
    rcases List.mem_cons.1 k with e | e
    · subst e; exact Nat.le_max_left _ _
    · exact Nat.le_trans (h o e) (Nat.le_max_right _ _)

/-! ### The loop ends by its condition -/

/-- What is left to do. -/
def left (w : World) (s : St) : Nat := (w.slots - s.pending.length) + (s.pending.filter (fun h => decide (s.pos ≤ h))).length

theorem filter_lt {p : Nat} : ∀ {l : List Nat}, p ∈ l →
    (l.filter (fun h => decide (p + 1 ≤ h))).length < (l.filter (fun h => decide (p ≤ h))).length
  | a :: l, k => by
    have mono : ∀ l : List Nat, (l.filter (fun h => decide (p + 1 ≤ h))).length ≤
        (l.filter (fun h => decide (p ≤ h))).length := by
      intro l
      induction l with
      | nil => exact Nat.le_refl _
      | cons x l ih =>
        by_cases h1 : p + 1 ≤ x
        · rw [List.filter_cons_of_pos (by simpa using h1), List.filter_cons_of_pos (by simp; omega)]
          simp only [List.length_cons]; omega
        · rw [List.filter_cons_of_neg (by simpa using h1)]
          by_cases h2 : p ≤ x
          · rw [List.filter_cons_of_pos (by simpa using h2), List.length_cons]; omega
          · rw [List.filter_cons_of_neg (by simpa using h2)]; exact ih
    rcases List.mem_cons.1 k with e | e
    · subst e
      rw [List.filter_cons_of_neg (by simp), List.filter_cons_of_pos (by simp), List.length_cons]
      have := mono l
      omega
    · have ih := filter_lt e
      by_cases h1 : p + 1 ≤ a
      · rw [List.filter_cons_of_pos (by simpa using h1), List.filter_cons_of_pos (by simp; omega)]
        simp only [List.length_cons]; omega
      · rw [List.filter_cons_of_neg (by simpa using h1)]
        by_cases h2 : p ≤ a
        · rw [List.filter_cons_of_pos (by simpa using h2), List.length_cons]; omega
        · rw [List.filter_cons_of_neg (by simpa using h2)]; exact ih

theorem filter_same {p : Nat} : ∀ {l : List Nat}, p ∉ l →
    (l.filter (fun h => decide (p + 1 ≤ h))).length = (l.filter (fun h => decide (p ≤ h))).length
  | [], _ => rfl
  | a :: l, k => by
    have h1 : a ≠ p := fun e => k (e ▸ List.mem_cons_self)
    have ih := filter_same (p := p) (l := l) fun z => k (List.mem_cons_of_mem _ z)
    by_cases h2 : p ≤ a
    · rw [List.filter_cons_of_pos (by simp; omega), List.filter_cons_of_pos (by simpa using h2)]
      simp only [List.length_cons]; omega
    · rw [List.filter_cons_of_neg (by simp; omega), List.filter_cons_of_neg (by simpa using h2)]; exact ih

theorem loop_ends {w : World} : ∀ (n : Nat) {s : St}, left w s ≤ n →
    ¬ ((loop w n s).pending.length < w.slots && below (loop w n s)) = true
  | 0, s, h => by
    intro k
    have k1 : s.pending.length < w.slots := of_decide_eq_true (Bool.and_eq_true_iff.1 k).1
    unfold left at h
    omega
  | n + 1, s, h => by
    unfold loop
    by_cases k : (s.pending.length < w.slots && below s) = true
    · rw [if_pos k]
      have k1 : s.pending.length < w.slots := of_decide_eq_true (Bool.and_eq_true_iff.1 k).1
      refine loop_ends n ?_
      have h : (w.slots - s.pending.length) + (s.pending.filter (fun h => decide (s.pos ≤ h))).length ≤ n + 1 := h
      show (w.slots - (ins s.pos s.pending).length) +
        ((ins s.pos s.pending).filter (fun h => decide (s.pos + 1 ≤ h))).length ≤ n
      unfold ins
      by_cases q : s.pos ∈ s.pending
      · rw [if_pos q]
        have := filter_lt q
        omega
      · rw [if_neg q, List.filter_cons_of_neg (by simp), List.length_cons, filter_same q]
        omega
    · rw [if_neg k]; exact k

theorem left_le (w : World) (s : St) : left w s ≤ w.slots + s.pending.length := by
  unfold left
  have := List.length_filter_le (fun h => decide (s.pos ≤ h)) s.pending
  omega

end Verif.Catchup
