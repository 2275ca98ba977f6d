/-
  Helper lemmas on catching up.
-/
import Verif.Catchup.Spec

namespace Verif.Catchup

/-- Every event satisfies a property with the log before it. -/
def Each (P : Ev → List Ev → Prop) : List Ev → Prop
  | [] => True
  | e :: l => P e l ∧ Each P l

theorem Each.split {P : Ev → List Ev → Prop} {e : Ev} {l2 : List Ev} : ∀ {l1 : List Ev},
    Each P (l1 ++ e :: l2) → P e l2
  | [], h => h.1
  | _ :: _, h => Each.split h.2

theorem mem_ins {h g : Nat} {l : List Nat} : g ∈ ins h l ↔ g = h ∨ g ∈ l := by
  unfold ins
  by_cases k : h ∈ l
  · rw [if_pos k]
    exact ⟨.inr, fun q => q.elim (fun e => e ▸ k) id⟩
  · rw [if_neg k]; exact List.mem_cons

theorem mem_del {h g : Nat} {l : List Nat} : g ∈ del h l ↔ g ∈ l ∧ g ≠ h := by
  unfold del
  rw [List.mem_filter]
  simp

/-- What is known of an event, from the log before it; `M` bounds the slots. -/
def Known (cfg : Cfg) (M : Nat) : Ev → List Ev → Prop
  | .asked h r, l => 0 < h ∧
    ∀ f, origin l = some f → Clean l → f ≤ h → h < r + cfg.ahead + M
  | .reached p t, l => lastPass l + cfg.pause < t ∧ .got p 0 ∈ pass l
  | .done _, l => cfg.retries ≤ passes l ∧ ∃ p, .got p 0 ∈ pass l ∧
    ∀ f, origin l = some f → Clean l → ∀ h, f ≤ h → h ≤ p → Got h (since l)
  | .commit h, l => ∀ f, origin l = some f → Clean l → f ≤ h → Got h (since l)
  | _, _ => True

/-- In every reachable state. -/
structure GI (cfg : Cfg) (M : Nat) (b : Bool) (s : St) : Prop where
  each : Each (Known cfg M) s.log
  open_ : ∀ h, calls h s.log = s.open_.count h
  sub : ∀ h ∈ s.pending, h ∈ s.open_
  pos : ∀ h ∈ s.open_, 0 < h
  zero : s.pos = 0 → s.peak = none
  peak : ∀ p, s.peak = some p → .got p 0 ∈ pass s.log ∧ 0 < p
  retry : s.retry = passes s.log
  finish : s.finish = lastPass s.log
  sync : s.synced = inSync b s.log

/-- In every state of a clean sync from height `f`. -/
structure CI (f : Nat) (s : St) : Prop where
  lt : ∀ h ∈ s.open_, h < s.pos
  asked : ∀ h ∈ s.open_, Asked h (since s.log)
  peak : ∀ p, s.peak = some p → p < s.pos ∧ Asked p (since s.log)
  start : s.start ≤ f
  got : ∀ h, f ≤ h → h < s.pos → h ∈ s.pending ∨ Got h (since s.log)
  all : ∀ h, f ≤ h → h < s.pos → Asked h (since s.log)
  back : ∀ h, s.start ≤ h → h < f → Asked h (since s.log)
  low : ∀ h, s.pos < h → h < f → Asked h (since s.log)
  up : ∀ g, Asked g (since s.log) → ∀ h, f ≤ h → h ≤ g → Asked h (since s.log)
  down : ∀ g, Asked g (since s.log) → ∀ h, g ≤ h → h < f → Asked h (since s.log)

/-- What holds when a clean sync is under way. -/
def During (s : St) : Prop := ∀ f, origin s.log = some f → Clean s.log → CI f s

theorem Asked.cons {h : Nat} {l : List Ev} (e : Ev) (k : Asked h l) : Asked h (e :: l) :=
  k.imp fun _ q => List.mem_cons_of_mem _ q

theorem Got.cons {h : Nat} {l : List Ev} (e : Ev) (k : Got h l) : Got h (e :: l) :=
  k.imp fun _ q => List.mem_cons_of_mem _ q

theorem asked_cons {g h r : Nat} {l : List Ev} : Asked g (.asked h r :: l) ↔ g = h ∨ Asked g l := by
  constructor
  · rintro ⟨r', k⟩
    rcases List.mem_cons.1 k with e | e
    · cases e; exact .inl rfl
    · exact .inr ⟨r', e⟩
  · rintro (rfl | k)
    · exact ⟨r, List.mem_cons_self⟩
    · exact k.cons _

/-- Events that say nothing about requests and passes. -/
def Plain : Ev → Prop
  | .commit _ => True
  | .late _ => True
  | .done _ => True
  | _ => False

theorem asked_other {h : Nat} {e : Ev} {l : List Ev} (k : ∀ g r, e ≠ .asked g r) : Asked h (e :: l) ↔ Asked h l := by
  constructor
  · rintro ⟨r, q⟩
    rcases List.mem_cons.1 q with q | q
    · exact absurd q.symm (k _ _)
    · exact ⟨r, q⟩
  · exact Asked.cons e

theorem CI.log {f : Nat} {s : St} (h : CI f s) {l : List Ev} (a : ∀ g, Asked g (since l) ↔ Asked g (since s.log))
    (b : ∀ g, Got g (since s.log) → Got g (since l)) : CI f { s with log := l } where
  lt := h.lt
  asked := fun g k => (a g).2 (h.asked g k)
  peak := fun p k => ⟨(h.peak p k).1, (a p).2 (h.peak p k).2⟩
  start := h.start
  got := fun g k1 k2 => (h.got g k1 k2).imp id (b g)
  all := fun g k1 k2 => (a g).2 (h.all g k1 k2)
  back := fun g k1 k2 => (a g).2 (h.back g k1 k2)
  low := fun g k1 k2 => (a g).2 (h.low g k1 k2)
  up := fun g k x k1 k2 => (a x).2 (h.up g ((a g).1 k) x k1 k2)
  down := fun g k x k1 k2 => (a x).2 (h.down g ((a g).1 k) x k1 k2)

/-! ### Asking -/

/-- The next height is asked for. -/
theorem CI.ask_pos {f : Nat} {s : St} (h : CI f s) (r : Nat) :
    CI f { ask r s.pos s with pos := s.pos + 1 } := by
  have ac : ∀ g, Asked g (since s.log) → Asked g (since (.asked s.pos r :: s.log)) := fun g k => k.cons _
  have me : Asked s.pos (since (.asked s.pos r :: s.log)) := ⟨r, List.mem_cons_self⟩
  refine ⟨?_, ?_, ?_, h.start, ?_, ?_, ?_, ?_, ?_, ?_⟩
  · intro g k
    have k : g ∈ s.pos :: s.open_ := k
    show g < s.pos + 1
    rcases List.mem_cons.1 k with e | e
    · omega
    · have := h.lt g e; omega
  · intro g k
    have k : g ∈ s.pos :: s.open_ := k
    rcases List.mem_cons.1 k with e | e
    · rw [e]; exact me
    · exact ac g (h.asked g e)
  · intro p k
    have := h.peak p k
    exact ⟨Nat.lt_succ_of_lt this.1, ac p this.2⟩
  · intro g k1 k2
    have k2 : g < s.pos + 1 := k2
    show g ∈ ins s.pos s.pending ∨ _
    by_cases e : g = s.pos
    · exact .inl (mem_ins.2 (.inl e))
    · rcases h.got g k1 (by omega) with q | q
      · exact .inl (mem_ins.2 (.inr q))
      · exact .inr (q.cons _)
  · intro g k1 k2
    have k2 : g < s.pos + 1 := k2
    by_cases e : g = s.pos
    · rw [e]; exact me
    · exact ac g (h.all g k1 (by omega))
  · intro g k1 k2; exact ac g (h.back g k1 k2)
  · intro g k1 k2
    have k1 : s.pos + 1 < g := k1
    exact ac g (h.low g (by omega) k2)
  · intro g k x k1 k2
    have k : Asked g (.asked s.pos r :: since s.log) := k
    rcases asked_cons.1 k with e | e
    · by_cases q : x = s.pos
      · rw [q]; exact me
      · exact ac x (h.all x k1 (by omega))
    · exact ac x (h.up g e x k1 k2)
  · intro g k x k1 k2
    have k : Asked g (.asked s.pos r :: since s.log) := k
    rcases asked_cons.1 k with e | e
    · by_cases q : x = s.pos
      · rw [q]; exact me
      · exact ac x (h.low x (by omega) k2)
    · exact ac x (h.down g e x k1 k2)

/-- The height before the start is asked for. -/
theorem CI.ask_back {f : Nat} {s : St} (h : CI f s) (r : Nat) (hs : s.start ≤ s.pos) (h1 : 0 < s.start) :
    CI f (ask r (s.start - 1) { s with start := s.start - 1 }) := by
  have ac : ∀ g, Asked g (since s.log) → Asked g (since (.asked (s.start - 1) r :: s.log)) :=
    fun g k => k.cons _
  have me : Asked (s.start - 1) (since (.asked (s.start - 1) r :: s.log)) := ⟨r, List.mem_cons_self⟩
  have hf := h.start
  refine ⟨?_, ?_, ?_, ?_, ?_, ?_, ?_, ?_, ?_, ?_⟩
  · intro g k
    have k : g ∈ (s.start - 1) :: s.open_ := k
    show g < s.pos
    rcases List.mem_cons.1 k with e | e
    · omega
    · exact h.lt g e
  · intro g k
    have k : g ∈ (s.start - 1) :: s.open_ := k
    rcases List.mem_cons.1 k with e | e
    · rw [e]; exact me
    · exact ac g (h.asked g e)
  · intro p k
    have := h.peak p k
    exact ⟨this.1, ac p this.2⟩
  · show s.start - 1 ≤ f
    omega
  · intro g k1 k2
    show g ∈ ins (s.start - 1) s.pending ∨ _
    rcases h.got g k1 k2 with q | q
    · exact .inl (mem_ins.2 (.inr q))
    · exact .inr (q.cons _)
  · intro g k1 k2; exact ac g (h.all g k1 k2)
  · intro g k1 k2
    have k1 : s.start - 1 ≤ g := k1
    by_cases e : g = s.start - 1
    · rw [e]; exact me
    · exact ac g (h.back g (by omega) k2)
  · intro g k1 k2; exact ac g (h.low g k1 k2)
  · intro g k x k1 k2
    have k : Asked g (.asked (s.start - 1) r :: since s.log) := k
    rcases asked_cons.1 k with e | e
    · omega
    · exact ac x (h.up g e x k1 k2)
  · intro g k x k1 k2
    have k : Asked g (.asked (s.start - 1) r :: since s.log) := k
    rcases asked_cons.1 k with e | e
    · by_cases q : x = s.start - 1
      · rw [q]; exact me
      · exact ac x (h.back x (by omega) k2)
    · exact ac x (h.down g e x k1 k2)

theorem GI.ask {cfg : Cfg} {M : Nat} {b : Bool} {s : St} (h : GI cfg M b s) {r x : Nat}
    (k : Known cfg M (.asked x r) s.log) : GI cfg M b (ask r x s) where
  each := ⟨k, h.each⟩
  open_ := by
    intro g
    show (if x = g then 1 else 0) + calls g s.log = (x :: s.open_).count g
    rw [List.count_cons, h.open_ g]
    by_cases e : x = g
    · simp [e]; omega
    · simp [e]
  sub := by
    intro g q
    have q : g ∈ ins x s.pending := q
    show g ∈ x :: s.open_
    rcases mem_ins.1 q with e | e
    · exact e ▸ List.mem_cons_self
    · exact List.mem_cons_of_mem _ (h.sub g e)
  pos := by
    intro g q
    have q : g ∈ x :: s.open_ := q
    rcases List.mem_cons.1 q with e | e
    · exact e ▸ k.1
    · exact h.pos g e
  zero := h.zero
  peak := fun p q => ⟨List.mem_cons_of_mem _ (h.peak p q).1, (h.peak p q).2⟩
  retry := h.retry
  finish := h.finish
  sync := h.sync

theorem GI.pos_succ {cfg : Cfg} {M : Nat} {b : Bool} {s : St} (h : GI cfg M b s) (n : Nat) (k : 0 < n) :
    GI cfg M b { s with pos := n } :=
  ⟨h.each, h.open_, h.sub, h.pos, fun e => absurd (show n = 0 from e) (by omega), h.peak, h.retry, h.finish, h.sync⟩

theorem GI.start {cfg : Cfg} {M : Nat} {b : Bool} {s : St} (h : GI cfg M b s) (n : Nat) :
    GI cfg M b { s with start := n } :=
  ⟨h.each, h.open_, h.sub, h.pos, h.zero, h.peak, h.retry, h.finish, h.sync⟩

/-! ### `sync_more` -/

theorem loop_inv {cfg : Cfg} {M : Nat} {b : Bool} {w : World} : ∀ (n : Nat) {s : St}, GI cfg M b s → During s →
    0 < s.pos →
    (∀ f, origin s.log = some f → Clean s.log → s.pos + (w.slots - s.pending.length) ≤ w.root + cfg.ahead + M) →
    GI cfg M b (loop w n s) ∧ During (loop w n s) ∧ 0 < (loop w n s).pos
  | 0, s, h, d, p, _ => ⟨h, d, p⟩
  | n + 1, s, h, d, p, q => by
    unfold loop
    by_cases k : (s.pending.length < w.slots && below s) = true
    · rw [if_pos k]
      have k' : s.pending.length < w.slots := of_decide_eq_true (Bool.and_eq_true_iff.1 k).1
      refine loop_inv n ?_ ?_ (Nat.succ_pos _) ?_
      · refine GI.pos_succ (s := ask w.root s.pos s) (h.ask ⟨p, ?_⟩) _ (Nat.succ_pos _)
        intro f h1 h2 _
        have := q f h1 h2
        omega
      · intro f h1 h2
        exact (d f h1 h2).ask_pos w.root
      · intro f h1 h2
        have h3 := q f h1 h2
        have h4 : s.pos ∉ s.pending := fun z => absurd ((d f h1 h2).lt _ (h.sub _ z)) (Nat.lt_irrefl _)
        show s.pos + 1 + (w.slots - (ins s.pos s.pending).length) ≤ _
        unfold ins
        rw [if_neg h4, List.length_cons]
        omega
    · rw [if_neg k]; exact ⟨h, d, p⟩

/-- A fresh start. -/
theorem begin_inv {cfg : Cfg} {M : Nat} {b : Bool} {w : World} {s : St} (h : GI cfg M b s)
    (d : s.pos ≠ 0 → During s) : GI cfg M b (begin_ w s) ∧ During (begin_ w s) ∧ 0 < (begin_ w s).pos := by
  unfold begin_
  by_cases k : s.pos = 0
  · rw [if_pos k]
    refine ⟨⟨⟨trivial, h.each⟩, h.open_, h.sub, h.pos, fun e => absurd e (Nat.succ_ne_zero _), ?_, h.retry,
      h.finish, h.sync⟩, ?_, Nat.succ_pos _⟩
    · intro p hp
      have hp : s.peak = some p := hp
      rw [h.zero k] at hp; exact (nomatch hp)
    · intro f hf hc
      have hf : w.root + 1 = f := Option.some.inj hf
      have hc : Still s.log := hc
      have ho : s.open_ = [] := by
        cases e : s.open_ with
        | nil => rfl
        | cons x l =>
          have := h.open_ x
          rw [hc x, e, List.count_cons_self] at this
          omega
      have na : ∀ g, ¬ Asked g [] := fun g ⟨_, z⟩ => (nomatch z)
      subst hf
      refine ⟨?_, ?_, ?_, Nat.le_refl _, ?_, ?_, ?_, ?_, ?_, ?_⟩
      · intro g z
        have z : g ∈ s.open_ := z
        rw [ho] at z; exact (nomatch z)
      · intro g z
        have z : g ∈ s.open_ := z
        rw [ho] at z; exact (nomatch z)
      · intro p hp
        have hp : s.peak = some p := hp
        rw [h.zero k] at hp; exact (nomatch hp)
      · intro g k1 k2
        have k2 : g < w.root + 1 := k2
        omega
      · intro g k1 k2
        have k2 : g < w.root + 1 := k2
        omega
      · intro g k1 k2
        have k1 : w.root + 1 ≤ g := k1
        omega
      · intro g k1 k2
        have k1 : w.root + 1 < g := k1
        omega
      · intro g z; exact absurd z (na g)
      · intro g z; exact absurd z (na g)
  · rw [if_neg k]
    exact ⟨h, d k, Nat.pos_of_ne_zero k⟩

/-- What is known between callbacks. -/
structure RI (cfg : Cfg) (M : Nat) (b : Bool) (s : St) : Prop where
  gi : GI cfg M b s
  during : During s
  pos : 0 < s.pos ∨ s.open_ = []

theorem more_inv {cfg : Cfg} {M : Nat} {b : Bool} {w : World} (hw : w.slots ≤ M) {s : St} (h : GI cfg M b s)
    (d : s.pos ≠ 0 → During s) (hz : s.synced = true → RI cfg M b s) : RI cfg M b (more cfg w s) := by
  unfold more
  by_cases k : s.synced = true
  · rw [if_pos k]; exact hz k
  · rw [if_neg k]
    obtain ⟨h1, h2, h3⟩ := begin_inv (w := w) h d
    dsimp only
    by_cases q : held cfg w (begin_ w s) = true
    · rw [if_pos q]; exact ⟨h1, h2, .inl h3⟩
    · rw [if_neg q]
      obtain ⟨h4, h5, h6⟩ := loop_inv (w := w) (w.slots + (begin_ w s).pending.length) h1 h2 h3 (by
        intro f _ _
        simp only [held, decide_eq_true_eq] at q
        omega)
      exact ⟨h4, h5, .inl h6⟩

end Verif.Catchup
