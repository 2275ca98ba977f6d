import Verif.Node.TimeLord
import Verif.Codec.PropsVdf
/-
  The invariant of a time lord serving requests of one chain, for C96.
-/
namespace Verif.Node.TimeLord

variable {α : Type}

/-- The checkpoints follow from each other. -/
def Linked (e : Env α) : List (Entry α) → Prop
  | [] => True
  | [_] => True
  | a :: b :: l => b.iters = a.iters + e.seg ∧ b.out = e.comp (infused e a.out a.used)
      ∧ Linked e (b :: l)

theorem Linked.tail {e : Env α} {a : Entry α} {l : List (Entry α)} (h : Linked e (a :: l)) :
    Linked e l := by
  cases l with
  | nil => trivial
  | cons b l => exact h.2.2

theorem Linked.drop {e : Env α} {l : List (Entry α)} (h : Linked e l) (n : Nat) :
    Linked e (l.drop n) := by
  induction n generalizing l with
  | zero => exact h
  | succ n ih =>
    cases l with
    | nil => trivial
    | cons a l => exact ih h.tail

/-- Everything after an entry lies beyond it. -/
theorem Linked.later {e : Env α} (hS : 0 < e.seg) {a : Entry α} {l : List (Entry α)}
    (h : Linked e (a :: l)) : ∀ x ∈ l, a.iters < x.iters := by
  induction l generalizing a with
  | nil => intro x hx; cases hx
  | cons b l ih =>
    intro x hx
    have h1 := h.1
    cases hx with
    | head => omega
    | tail _ hx => have := ih h.2.2 x hx; omega

/-- Adding the next checkpoint. -/
theorem Linked.snoc {e : Env α} {l : List (Entry α)} {a x : Entry α} (h : Linked e (l ++ [a]))
    (h1 : x.iters = a.iters + e.seg) (h2 : x.out = e.comp (infused e a.out a.used)) :
    Linked e (l ++ [a] ++ [x]) := by
  induction l with
  | nil => exact ⟨h1, h2, trivial⟩
  | cons b l ih =>
    cases l with
    | nil => exact ⟨h.1, h.2.1, ih h.2.2⟩
    | cons c l => exact ⟨h.1, h.2.1, ih h.2.2⟩

/-- The last one lies beyond all others. -/
theorem Linked.last_le {e : Env α} (hS : 0 < e.seg) {l : List (Entry α)} {a : Entry α}
    (h : Linked e (l ++ [a])) : ∀ x ∈ l ++ [a], x.iters ≤ a.iters := by
  induction l with
  | nil => intro x hx; rw [List.mem_singleton.1 hx]; exact Nat.le_refl _
  | cons b l ih =>
    intro x hx
    rw [List.cons_append] at hx h
    cases hx with
    | head => exact Nat.le_of_lt (h.later hS a (by simp))
    | tail _ hx => exact ih h.tail x hx

/-- Each segment is computed from the one before. -/
def Follows (f : α → α) (x : α) : List α → Prop
  | [] => True
  | y :: l => y = f x ∧ Follows f y l

/-- The checkpoints after `a` up to `stop` follow from `a`. -/
theorem segs_follow {e : Env α} (hS : 0 < e.seg) (stop : Nat) {a : Entry α} {l : List (Entry α)}
    (h : Linked e (a :: l))
    (hu : ∀ x ∈ l, x.iters < stop → x.used = none) :
    Follows e.comp (infused e a.out a.used)
      ((l.filter (fun x => decide (x.iters ≤ stop))).map (·.out)) := by
  induction l generalizing a with
  | nil => trivial
  | cons b l ih =>
    have h3 := ih h.2.2 (fun x hx => hu x (List.mem_cons_of_mem _ hx))
    by_cases hb : b.iters ≤ stop
    · rw [List.filter_cons_of_pos (by simpa using hb), List.map_cons]
      refine ⟨h.2.1, ?_⟩
      by_cases hlt : b.iters < stop
      · rw [hu b List.mem_cons_self hlt] at h3
        exact h3
      · have h4 : l.filter (fun x => decide (x.iters ≤ stop)) = [] := by
          refine List.filter_eq_nil_iff.2 fun x hx => ?_
          have := h.2.2.later hS x hx
          simp; omega
        rw [h4]; trivial
    · have h4 : (b :: l).filter (fun x => decide (x.iters ≤ stop)) = [] := by
        refine List.filter_eq_nil_iff.2 fun x hx => ?_
        cases hx with
        | head => simp; omega
        | tail _ hx =>
          have := h.2.2.later hS x hx
          simp; omega
      rw [h4]; trivial

/-- How many there are. -/
theorem segs_count {e : Env α} (hS : 0 < e.seg) (stop : Nat) {a : Entry α} {l : List (Entry α)}
    (h : Linked e (a :: l)) (hx : ∃ x ∈ l, x.iters = stop) :
    (l.filter (fun x => decide (x.iters ≤ stop))).length * e.seg = stop - a.iters := by
  induction l generalizing a with
  | nil => obtain ⟨x, hx, -⟩ := hx; cases hx
  | cons b l ih =>
    have h1 := h.1
    obtain ⟨x, hx, he⟩ := hx
    cases hx with
    | head =>
      have h4 : l.filter (fun x => decide (x.iters ≤ stop)) = [] := by
        refine List.filter_eq_nil_iff.2 fun x hx => ?_
        have := h.2.2.later hS x hx
        simp; omega
      rw [List.filter_cons_of_pos (by simp; omega), h4, List.length_singleton]
      omega
    | tail _ hx =>
      have h5 := h.2.2.later hS x hx
      have h6 := ih h.2.2 ⟨x, hx, he⟩
      rw [List.filter_cons_of_pos (by simp; omega), List.length_cons, Nat.add_mul, h6]
      omega

theorem entryAt_mem {l : List (Entry α)} {k : Nat} {x : Entry α} (h : entryAt l k = some x) :
    x ∈ l ∧ x.iters = k :=
  ⟨List.mem_of_find?_eq_some h, by simpa using List.find?_some h⟩

/-- Splitting the history at an entry. -/
theorem between_split {e : Env α} (hS : 0 < e.seg) {l : List (Entry α)} (h : Linked e l)
    {x : Entry α} (hx : x ∈ l) (stop : Nat) :
    ∃ r, Linked e (x :: r) ∧ (∀ y ∈ r, y ∈ l)
      ∧ (∀ y ∈ l, x.iters < y.iters → y ∈ r)
      ∧ between l x.iters stop = (r.filter (fun y => decide (y.iters ≤ stop))).map (·.out) := by
  induction l with
  | nil => cases hx
  | cons a l ih =>
    have hl := h.later hS
    cases hx with
    | head =>
      refine ⟨l, h, fun y hy => List.mem_cons_of_mem _ hy, fun y hy hlt => ?_, ?_⟩
      · cases hy with
        | head => omega
        | tail _ hy => exact hy
      · unfold between
        rw [List.filter_cons_of_neg (by simp)]
        congr 1
        refine List.filter_congr fun y hy => ?_
        have := hl y hy
        simp [this]
    | tail _ hx =>
      obtain ⟨r, h1, h2, h3, h4⟩ := ih h.tail hx
      have hax := hl x hx
      refine ⟨r, h1, fun y hy => List.mem_cons_of_mem _ (h2 y hy), fun y hy hlt => ?_, ?_⟩
      · cases hy with
        | head => omega
        | tail _ hy => exact h3 y hy hlt
      · rw [← h4]
        unfold between
        rw [List.filter_cons_of_neg (by simp; omega)]

/-! ### Infusions -/

theorem infuseAt_mem {l : List (Nat × α)} {k : Nat} {v : α} (h : infuseAt l k = some v) :
    (k, v) ∈ l := by
  unfold infuseAt at h
  obtain ⟨p, hp, rfl⟩ := Option.map_eq_some_iff.1 h
  have h1 := List.find?_some hp
  have h2 : p.1 = k := by simpa using h1
  subst h2
  exact List.mem_of_find?_eq_some hp

theorem infuseAt_none {l : List (Nat × α)} {k : Nat} (h : infuseAt l k = none) (v : α) :
    (k, v) ∉ l := by
  intro hm
  unfold infuseAt at h
  have h1 := List.find?_eq_none.1 (Option.map_eq_none_iff.1 h) _ hm
  simp at h1

theorem mem_putInfuse {l : List (Nat × α)} {k : Nat} {v : α} {p : Nat × α} :
    p ∈ putInfuse l k v ↔ p = (k, v) ∨ (p ∈ l ∧ p.1 ≠ k) := by
  unfold putInfuse
  simp only [List.mem_append, List.mem_filter, List.mem_cons, decide_eq_true_eq]
  constructor
  · rintro (⟨h1, h2⟩ | h | ⟨h1, h2⟩)
    · exact .inr ⟨h1, by omega⟩
    · exact .inl h
    · exact .inr ⟨h1, by omega⟩
  · rintro (h | ⟨h1, h2⟩)
    · exact .inr (.inl h)
    · by_cases h3 : p.1 < k
      · exact .inl ⟨h1, h3⟩
      · exact .inr (.inr ⟨h1, by omega⟩)

theorem mem_dropInfuse {l : List (Nat × α)} {a b : Nat} {p : Nat × α} :
    p ∈ dropInfuse l a b ↔ p ∈ l ∧ ¬ (a < p.1 ∧ p.1 < b) := by
  unfold dropInfuse
  rw [List.mem_filter]
  simp only [Bool.not_eq_true', Bool.and_eq_false_iff, decide_eq_false_iff_not]
  constructor
  · rintro ⟨h1, h2⟩; exact ⟨h1, by omega⟩
  · rintro ⟨h1, h2⟩; exact ⟨h1, by omega⟩

theorem mem_dropPending {l : List (Request α)} {a b : Nat} {q : Request α} :
    q ∈ dropPending l a b → q ∈ l := fun h => (List.mem_filter.1 h).1

theorem mem_putPending {l : List (Request α)} {r q : Request α} (h : q ∈ putPending l r) :
    q = r ∨ q ∈ l := by
  unfold putPending at h
  rcases List.mem_append.1 h with h | h
  · exact .inr (List.mem_filter.1 h).1
  · rcases List.mem_cons.1 h with h | h
    · exact .inl h
    · exact .inr (List.mem_filter.1 h).1

/-! ### Requests of one chain -/

/-- The chain as the requests see it: what is infused where. -/
abbrev Chain (α : Type) := Nat → Option α

/-- A request of that chain: it asks for the stretch from one infusion to the next, or part of it. -/
structure OfChain (c : Chain α) (r : Request α) : Prop where
  ord : r.start < r.stop
  value : c r.start = some r.infuse
  inner : ∀ k, r.start < k → k < r.stop → c k = none

/-- What the theorem asks of a step: requests of one chain, no stop while requests are open, and
    `update` neither between a reset and its execution by the other thread, nor dropping the
    infusion of an open request. -/
def Fair (e : Env α) (c : Chain α) (s : State α) : Op α → Prop
  | .request r => OfChain c r
  | .update => s.isReset = false ∧
      ∀ q ∈ (update e s).pending, (infuseAt (update e s).infuse q.start).isSome
  | .stop => s.pending = []
  | _ => True

/-- The history while no reset is pending. -/
structure Live (e : Env α) (c : Chain α) (s : State α) : Prop where
  linked : Linked e s.history
  sound : ∀ x ∈ s.history, ∀ v, x.used = some v → c x.iters = some v
  known : ∀ x ∈ s.history, ∀ v, (x.iters, v) ∈ s.infuse → x.used = some v
  idle : s.peak = none → s.history = []
  last : ∀ p, s.peak = some p → ∀ x ∈ s.history, x.iters ≤ p.1
  next : s.doRun = true → s.computing = false → ∃ a, s.history.getLast? = some a
    ∧ s.peak = some (a.iters, a.out)
    ∧ s.point = (a.iters + e.seg, e.comp (infused e a.out a.used))
  busy : s.doRun = true → s.computing = true → ∃ a, s.history.getLast? = some a
    ∧ s.peak = some (a.iters, a.out)
    ∧ s.point = (a.iters, infused e a.out a.used)

/-- A published proof is right. -/
structure Right (e : Env α) (p : Proof α) : Prop where
  size : p.segmentSize = e.seg
  some : p.segments ≠ []
  count : p.segments.length * e.seg = p.numIters
  follow : Follows e.comp (e.mix p.input p.prev) p.segments

/-- The invariant. -/
structure Inv (e : Env α) (c : Chain α) (s : State α) : Prop where
  live : s.isReset = false → Live e c s
  ready : s.doRun = true → s.peak ≠ none
  off : s.doRun = false → s.peak = none
  inf : ∀ p ∈ s.infuse, c p.1 = some p.2
  open_ : ∀ q ∈ s.pending, OfChain c q ∧ (q.start, q.infuse) ∈ s.infuse
  right : ∀ p ∈ s.published, Right e p

theorem Inv.init (e : Env α) (c : Chain α) : Inv e c (State.init e) where
  live _ :=
    { linked := trivial
      sound := fun x hx => (by cases hx)
      known := fun x hx => (by cases hx)
      idle := fun _ => rfl
      last := fun _ _ x hx => (by cases hx)
      next := fun h => (by cases h)
      busy := fun h => (by cases h) }
  ready h := by cases h
  off _ := rfl
  inf p hp := by cases hp
  open_ q hq := by cases hq
  right p hp := by cases hp

section handle
variable [DecidableEq α]

omit [DecidableEq α] in
theorem Inv.clearBetween {e : Env α} {c : Chain α} {s : State α} (h : Inv e c s) {r : Request α}
    (hr : OfChain c r) : Inv e c (clearBetween s r) := by
  have hi : ∀ p, p ∈ (TimeLord.clearBetween s r).infuse ↔ p ∈ s.infuse := by
    intro p
    show p ∈ dropInfuse _ _ _ ↔ _
    rw [mem_dropInfuse]
    refine ⟨fun h => h.1, fun hp => ⟨hp, fun hb => ?_⟩⟩
    have := hr.inner p.1 hb.1 hb.2
    rw [h.inf p hp] at this
    cases this
  exact
  { live := fun h0 =>
      have l := h.live h0
      { linked := l.linked, sound := l.sound
        known := fun x hx v hv => l.known x hx v ((hi _).1 hv)
        idle := l.idle, last := l.last, next := l.next, busy := l.busy }
    ready := h.ready, off := h.off
    inf := fun p hp => h.inf p ((hi p).1 hp)
    open_ := fun q hq =>
      have h1 := h.open_ q (mem_dropPending hq)
      ⟨h1.1, (hi _).2 h1.2⟩
    right := h.right }

omit [DecidableEq α] in
/-- The new value is that of the chain, so nothing known is lost. -/
theorem mem_put_chain {c : Chain α} {l : List (Nat × α)} (hl : ∀ p ∈ l, c p.1 = some p.2)
    {r : Request α} (hr : OfChain c r) (p : Nat × α) :
    p ∈ putInfuse l r.start r.infuse ↔ p = (r.start, r.infuse) ∨ p ∈ l := by
  rw [mem_putInfuse]
  constructor
  · rintro (h | h)
    · exact .inl h
    · exact .inr h.1
  · rintro (h | h)
    · exact .inl h
    · by_cases h1 : p.1 = r.start
      · left
        have h2 := hl p h
        rw [h1, hr.value] at h2
        exact Prod.ext h1 (Option.some.inj h2).symm
      · exact .inr ⟨h, h1⟩

theorem Inv.takeInfusion {e : Env α} {c : Chain α} {s : State α} (h : Inv e c s) {r : Request α}
    (hr : OfChain c r) : Inv e c (takeInfusion e s r)
      ∧ (r.start, r.infuse) ∈ (takeInfusion e s r).infuse := by
  have hp := mem_put_chain h.inf hr
  have hinf : ∀ p ∈ putInfuse s.infuse r.start r.infuse, c p.1 = some p.2 := by
    intro p hm
    rcases (hp p).1 hm with h1 | h1
    · rw [h1]; exact hr.value
    · exact h.inf p h1
  have hopen : ∀ q ∈ s.pending, OfChain c q
      ∧ (q.start, q.infuse) ∈ putInfuse s.infuse r.start r.infuse := fun q hq =>
    ⟨(h.open_ q hq).1, (hp _).2 (.inr (h.open_ q hq).2)⟩
  unfold TimeLord.takeInfusion
  by_cases hf : infusionFork s r = true
  · rw [if_pos hf]
    refine ⟨?_, (hp _).2 (.inl rfl)⟩
    have hpk : s.peak ≠ none := by
      intro hn
      unfold infusionFork passed at hf
      rw [hn] at hf
      cases hq : infuseAt s.infuse r.start <;> rw [hq] at hf <;> simp at hf
    exact
    { live := fun h0 => (by cases h0)
      ready := fun _ => (by simp)
      off := fun h0 => absurd (h.off h0) hpk
      inf := hinf, open_ := hopen, right := h.right }
  · rw [if_neg hf]
    refine ⟨?_, (hp _).2 (.inl rfl)⟩
    exact
    { live := fun h0 =>
        have l := h.live h0
        { linked := l.linked, sound := l.sound
          known := fun x hx v hv => by
            rcases (hp _).1 hv with h1 | h1
            · have h1 : x.iters = r.start ∧ v = r.infuse := by
                simpa using h1
              cases hpk : s.peak with
              | none => rw [l.idle hpk] at hx; cases hx
              | some p =>
                have h2 := l.last p hpk x hx
                have h3 : passed s r.start = true := by
                  unfold passed; rw [hpk]; simp; omega
                unfold infusionFork at hf
                rw [h3] at hf
                cases hq : infuseAt s.infuse r.start with
                | none => rw [hq] at hf; simp at hf
                | some w =>
                  rw [hq] at hf
                  have h4 : r.infuse = w := by simpa using hf
                  have h5 := infuseAt_mem hq
                  rw [← h1.1, ← h4, ← h1.2] at h5
                  exact l.known x hx v h5
            · exact l.known x hx v h1
          idle := l.idle, last := l.last, next := l.next, busy := l.busy }
      ready := h.ready, off := h.off, inf := hinf, open_ := hopen, right := h.right }

theorem Inv.takeInput {e : Env α} {c : Chain α} {s : State α} (h : Inv e c s) (r : Request α) :
    Inv e c (takeInput s r) ∧ (takeInput s r).infuse = s.infuse := by
  unfold TimeLord.takeInput
  cases r.input with
  | none => exact ⟨h, rfl⟩
  | some x =>
    dsimp only
    by_cases hd : s.doRun = true
    · rw [if_pos hd]
      by_cases hrs : restarts s r.start x = true
      · rw [if_pos hrs]
        exact ⟨
          { live := fun h0 => (by cases h0)
            ready := fun _ => (by simp)
            off := fun h0 => (by rw [show s.doRun = false from h0] at hd; cases hd)
            inf := h.inf, open_ := h.open_, right := h.right }, rfl⟩
      · rw [if_neg hrs]; exact ⟨h, rfl⟩
    · rw [if_neg hd]
      exact ⟨
        { live := fun h0 => (by cases h0)
          ready := fun _ => (by simp)
          off := fun h0 => (by cases h0)
          inf := h.inf, open_ := h.open_, right := h.right }, rfl⟩

omit [DecidableEq α] in
theorem Inv.enqueue {e : Env α} {c : Chain α} {s : State α} (h : Inv e c s) {r : Request α}
    (hr : OfChain c r) (hm : (r.start, r.infuse) ∈ s.infuse) : Inv e c (enqueue s r) where
  live h0 :=
    have l := h.live h0
    { linked := l.linked, sound := l.sound, known := l.known, idle := l.idle, last := l.last
      next := l.next, busy := l.busy }
  ready := h.ready
  off := h.off
  inf := h.inf
  open_ q hq := by
    unfold TimeLord.enqueue at hq
    dsimp only at hq
    by_cases hlt : floorIters s < r.stop
    · rw [if_pos hlt] at hq
      rcases mem_putPending hq with h1 | h1
      · rw [h1]; exact ⟨hr, hm⟩
      · exact h.open_ q h1
    · rw [if_neg hlt] at hq
      exact h.open_ q hq
  right := h.right

theorem Inv.handle {e : Env α} {c : Chain α} {s : State α} (h : Inv e c s) {r : Request α}
    (hr : OfChain c r) : Inv e c (handle e s r) := by
  have h1 := (h.clearBetween hr).takeInfusion hr
  have h2 := h1.1.takeInput r
  exact h2.1.enqueue hr (by rw [h2.2]; exact h1.2)

end handle

theorem mem_takeWhile {β : Type} {p : β → Bool} {l : List β} {x : β} (h : x ∈ l.takeWhile p) :
    x ∈ l ∧ p x = true := by
  induction l with
  | nil => cases h
  | cons a l ih =>
    by_cases hp : p a = true
    · rw [List.takeWhile_cons_of_pos hp] at h
      cases h with
      | head => exact ⟨List.mem_cons_self, hp⟩
      | tail _ h => exact ⟨List.mem_cons_of_mem _ (ih h).1, (ih h).2⟩
    · rw [List.takeWhile_cons_of_neg hp] at h; cases h

theorem mem_current {l : List (Entry α)} {q : List (Request α)} {r : Request α}
    (h : r ∈ current l q) : r ∈ q := by
  cases l with
  | nil => exact h
  | cons x l => exact (List.mem_filter.1 h).1

/-- A proof made from a live history is right. -/
theorem proofFor_right {e : Env α} (hS : 0 < e.seg) {c : Chain α} {s : State α} (l : Live e c s)
    {r : Request α} (hr : OfChain c r) (hm : (r.start, r.infuse) ∈ s.infuse)
    (hre : reached s.history r = true) {p : Proof α} (hp : proofFor e s.history r = some p) :
    Right e p := by
  unfold proofFor at hp
  cases hb : entryAt s.history r.start with
  | none => rw [hb] at hp; cases hp
  | some b =>
    rw [hb] at hp
    have hp := Option.some.inj hp
    obtain ⟨hbm, hbi⟩ := entryAt_mem hb
    obtain ⟨w, hw⟩ := Option.isSome_iff_exists.1 hre
    obtain ⟨hwm, hwi⟩ := entryAt_mem hw
    obtain ⟨rest, h1, h2, h3, h4⟩ := between_split hS l.linked hbm r.stop
    have hused : b.used = some r.infuse := l.known b hbm r.infuse (by rw [hbi]; exact hm)
    have hord := hr.ord
    have hwr : w ∈ rest := h3 w hwm (by omega)
    have hn : ∀ x ∈ rest, x.iters < r.stop → x.used = none := by
      intro x hx hlt
      have hgt := h1.later hS x hx
      cases hu : x.used with
      | none => rfl
      | some v =>
        have h5 := l.sound x (h2 x hx) v hu
        rw [hr.inner x.iters (by omega) hlt] at h5
        cases h5
    have hf := segs_follow hS r.stop h1 hn
    have hc := segs_count hS r.stop h1 ⟨w, hwr, hwi⟩
    rw [hused] at hf
    rw [hbi] at h4 hc
    subst hp
    refine ⟨rfl, ?_, ?_, ?_⟩
    · show between s.history r.start r.stop ≠ []
      rw [h4]
      intro h5
      have h6 : w ∈ rest.filter (fun y => decide (y.iters ≤ r.stop)) :=
        List.mem_filter.2 ⟨hwr, by simp; omega⟩
      rw [List.map_eq_nil_iff.1 h5] at h6
      cases h6
    · show (between s.history r.start r.stop).length * e.seg = r.stop - r.start
      rw [h4, List.length_map]
      exact hc
    · show Follows e.comp (e.mix b.out r.infuse) (between s.history r.start r.stop)
      rw [h4]
      exact hf

theorem getLast?_drop {β : Type} {l : List β} {n : Nat} (h : n < l.length) :
    (l.drop n).getLast? = l.getLast? := by
  rw [List.getLast?_drop, if_neg (by omega)]

theorem Inv.update {e : Env α} (hS : 0 < e.seg) (hk : 0 < e.keep) {c : Chain α} {s : State α}
    (h : Inv e c s) (h0 : s.isReset = false)
    (ho : ∀ q ∈ (update e s).pending, (infuseAt (update e s).infuse q.start).isSome) :
    Inv e c (update e s) := by
  have l := h.live h0
  have hsub : ∀ p ∈ (TimeLord.update e s).infuse, p ∈ s.infuse := by
    intro p hp
    simp only [TimeLord.update] at hp
    exact List.mem_of_mem_drop hp
  have hh : ∀ x ∈ (TimeLord.update e s).history, x ∈ s.history := by
    intro p hp
    simp only [TimeLord.update] at hp
    exact List.mem_of_mem_drop hp
  have hlast : ∀ a, s.history.getLast? = some a →
      (TimeLord.update e s).history.getLast? = some a := by
    intro a ha
    have hne : 0 < s.history.length := by
      cases hq : s.history with
      | nil => rw [hq] at ha; cases ha
      | cons _ _ => simp
    show (s.history.drop _).getLast? = _
    rw [getLast?_drop (by omega), ha]
  exact
  { live := fun _ =>
      { linked := l.linked.drop _
        sound := fun x hx => l.sound x (hh x hx)
        known := fun x hx v hv => l.known x (hh x hx) v (hsub _ hv)
        idle := fun hn => by
          show s.history.drop _ = []
          rw [l.idle hn]; simp
        last := fun p hp x hx => l.last p hp x (hh x hx)
        next := fun h1 h2 => by
          obtain ⟨a, ha, hb, hc⟩ := l.next h1 h2
          exact ⟨a, hlast a ha, hb, hc⟩
        busy := fun h1 h2 => by
          obtain ⟨a, ha, hb, hc⟩ := l.busy h1 h2
          exact ⟨a, hlast a ha, hb, hc⟩ }
    ready := h.ready, off := h.off
    inf := fun p hp => h.inf p (hsub p hp)
    open_ := fun q hq => by
      have hq' : q ∈ s.pending :=
        mem_current ((List.dropWhile_suffix _).subset hq)
      refine ⟨(h.open_ q hq').1, ?_⟩
      obtain ⟨v, hv⟩ := Option.isSome_iff_exists.1 (ho q hq)
      have h1 := infuseAt_mem hv
      have h2 := h.inf _ (hsub _ h1)
      have h3 := (h.open_ q hq').1.value
      dsimp only at h2
      rw [h3] at h2
      rw [Option.some.inj h2]
      exact h1
    right := fun p hp => by
      rcases List.mem_append.1 hp with h1 | h1
      · exact h.right p h1
      · obtain ⟨r, hr, hpr⟩ := List.mem_filterMap.1 h1
        obtain ⟨hr1, hr2⟩ := mem_takeWhile hr
        have h2 := h.open_ r (mem_current hr1)
        exact proofFor_right hS l h2.1 h2.2 hr2 hpr }

theorem Inv.stop {e : Env α} {c : Chain α} {s : State α} (h : Inv e c s) (h0 : s.pending = []) :
    Inv e c (stop s) where
  live _ :=
    { linked := trivial
      sound := fun x hx => (by cases hx)
      known := fun x hx => (by cases hx)
      idle := fun _ => rfl
      last := fun _ _ x hx => (by cases hx)
      next := fun h => (by cases h)
      busy := fun h => (by cases h) }
  ready h := by cases h
  off _ := rfl
  inf p hp := by cases hp
  open_ q hq := by
    have : q ∈ s.pending := hq
    rw [h0] at this; cases this
  right := h.right

theorem putEntry_snoc {l : List (Entry α)} {x : Entry α} (h : ∀ y ∈ l, y.iters < x.iters) :
    putEntry l x = l ++ [x] := by
  unfold putEntry
  rw [List.filter_eq_self.2 (fun y hy => by simpa using h y hy),
    List.filter_eq_nil_iff.2 (fun y hy => by have := h y hy; simp; omega)]

theorem Inv.lockStep {e : Env α} (hS : 0 < e.seg) {c : Chain α} {s : State α} (h : Inv e c s) :
    ∃ t, lockStep e s = some t ∧ Inv e c t := by
  unfold TimeLord.lockStep
  by_cases hd : (s.doRun && !s.computing) = true
  · rw [if_pos hd]
    have hd1 : s.doRun = true := (by simp at hd; exact hd.1)
    have hd2 : s.computing = false := (by simp at hd; exact hd.2)
    have hval : ∀ (k : Nat) (v : α), infuseAt s.infuse k = some v → c k = some v := fun k v hv =>
      h.inf _ (infuseAt_mem hv)
    have hkn : ∀ (k : Nat) (v : α), (k, v) ∈ s.infuse → infuseAt s.infuse k = some v := by
      intro k v hv
      cases hq : infuseAt s.infuse k with
      | none => exact absurd hv (infuseAt_none hq v)
      | some w =>
        have h1 := hval k w hq
        have h2 := h.inf _ hv
        dsimp only at h2
        rw [h1] at h2
        exact h2
    cases hr : s.isReset with
    | true =>
      cases hp : s.peak with
      | none => exact absurd hp (h.ready hd1)
      | some p =>
        simp only [nextPoint, hr, hp, if_pos]
        refine ⟨_, rfl, ?_⟩
        exact
        { live := fun _ =>
            { linked := trivial
              sound := fun x hx v hv => by
                have hx := List.mem_singleton.1 hx
                subst hx
                exact hval _ _ hv
              known := fun x hx v hv => by
                have hx := List.mem_singleton.1 hx
                subst hx
                exact hkn _ _ hv
              idle := fun hn => (by cases hn)
              last := fun q hq x hx => by
                have hx := List.mem_singleton.1 hx
                subst hx
                have hq : p = q := Option.some.inj hq
                rw [← hq]; exact Nat.le_refl _
              next := fun _ hc => (by cases hc)
              busy := fun _ _ => ⟨_, rfl, rfl, rfl⟩ }
          ready := fun _ => (by simp)
          off := fun h0 => (by rw [show s.doRun = false from h0] at hd1; cases hd1)
          inf := h.inf, open_ := h.open_, right := h.right }
    | false =>
      have l := h.live hr
      obtain ⟨a, ha, hpk, hpt⟩ := l.next hd1 hd2
      obtain ⟨pre, hpre⟩ := List.getLast?_eq_some_iff.1 ha
      have hlk := l.linked
      rw [hpre] at hlk
      have hle := hlk.last_le hS
      have hput : putEntry s.history ⟨s.point.1, s.point.2, infuseAt s.infuse s.point.1⟩
          = pre ++ [a] ++ [⟨s.point.1, s.point.2, infuseAt s.infuse s.point.1⟩] := by
        rw [← hpre]
        refine putEntry_snoc fun y hy => ?_
        rw [hpre] at hy
        have := hle y hy
        rw [hpt]
        show y.iters < a.iters + e.seg
        omega
      have hnx : nextPoint s = some s.point := by unfold nextPoint; rw [hr]; rfl
      rw [hnx]
      refine ⟨_, rfl, ?_⟩
      have hif : (if false = true then ([] : List (Entry α)) else s.history) = s.history :=
        if_neg (by simp)
      rw [hif, hput]
      have hall : ∀ x, x ∈ pre ++ [a] ++ [(⟨s.point.1, s.point.2, infuseAt s.infuse s.point.1⟩ :
          Entry α)] → x ∈ s.history ∨ x = ⟨s.point.1, s.point.2, infuseAt s.infuse s.point.1⟩ := by
        intro x hx
        rcases List.mem_append.1 hx with h1 | h1
        · left; rw [hpre]; exact h1
        · right; exact List.mem_singleton.1 h1
      exact
      { live := fun _ =>
          { linked := hlk.snoc (by rw [hpt]) (by rw [hpt])
            sound := fun x hx v hv => by
              rcases hall x hx with h1 | h1
              · exact l.sound x h1 v hv
              · subst h1; exact hval _ _ hv
            known := fun x hx v hv => by
              rcases hall x hx with h1 | h1
              · exact l.known x h1 v hv
              · subst h1; exact hkn _ _ hv
            idle := fun hn => (by cases hn)
            last := fun q hq x hx => by
              have hq : s.point = q := Option.some.inj hq
              rw [← hq]
              rcases hall x hx with h1 | h1
              · have := l.last _ hpk x h1
                rw [hpt]
                show x.iters ≤ a.iters + e.seg
                dsimp only at this
                omega
              · subst h1; exact Nat.le_refl _
            next := fun _ hc => (by cases hc)
            busy := fun _ _ => ⟨_, List.getLast?_concat, rfl, rfl⟩ }
        ready := fun _ => (by simp)
        off := fun h0 => (by rw [show s.doRun = false from h0] at hd1; cases hd1)
        inf := h.inf, open_ := h.open_, right := h.right }
  · rw [if_neg hd]; exact ⟨s, rfl, h⟩

theorem Inv.computeStep {e : Env α} {c : Chain α} {s : State α} (h : Inv e c s) :
    Inv e c (computeStep e s) := by
  unfold TimeLord.computeStep
  by_cases hc : s.computing = true
  · rw [if_pos hc]
    exact
    { live := fun h0 =>
        have l := h.live h0
        { linked := l.linked, sound := l.sound, known := l.known, idle := l.idle, last := l.last
          next := fun h1 _ => by
            obtain ⟨a, ha, hb, hp⟩ := l.busy h1 hc
            exact ⟨a, ha, hb, by show (s.point.1 + e.seg, e.comp s.point.2) = _; rw [hp]⟩
          busy := fun _ h2 => (by cases h2) }
      ready := h.ready, off := h.off, inf := h.inf, open_ := h.open_, right := h.right }
  · rw [if_neg hc]; exact h

theorem Inv.timer {e : Env α} {c : Chain α} {s : State α} (h : Inv e c s) :
    Inv e c { s with peakIters := 0 } where
  live h0 :=
    have l := h.live h0
    { linked := l.linked, sound := l.sound, known := l.known, idle := l.idle, last := l.last
      next := l.next, busy := l.busy }
  ready := h.ready
  off := h.off
  inf := h.inf
  open_ := h.open_
  right := h.right

end Verif.Node.TimeLord
