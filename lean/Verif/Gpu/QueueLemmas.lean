import Verif.Gpu.Queue

namespace Verif.Gpu

/-! ### Where a request is -/

/-- The requests a device works on. -/
def Dev.reqs (d : Dev) : List Req :=
  match d.st with
  | .busy l => l
  | _ => []

/-- All requests that are under way. -/
def under (s : State) : List Req := s.wait ++ (s.devs.flatMap Dev.reqs ++ s.cpu)

/-- All results, fetched or not. -/
def settled (s : State) : List Result := s.results ++ s.returned

/-- How often an id is somewhere. -/
def places (s : State) (i : Nat) : Nat :=
  ((under s).map (·.id)).count i + ((settled s).map (·.id)).count i

theorem places_eq (s : State) (i : Nat) : places s i =
    (s.wait.map (·.id)).count i + ((s.devs.flatMap Dev.reqs).map (·.id)).count i + (s.cpu.map (·.id)).count i
      + (s.results.map (·.id)).count i + (s.returned.map (·.id)).count i := by
  simp only [places, under, settled, List.map_append, List.count_append]
  omega

structure Inv (s : State) : Prop where
  once : ∀ i, places s i = (s.accepted.map (·.id)).count i
  fresh : ∀ r ∈ s.accepted, r.id < s.nextId
  nodup : (s.accepted.map (·.id)).Nodup
  req : ∀ r ∈ under s, r ∈ s.accepted
  res : ∀ x ∈ settled s, ∃ r ∈ s.accepted, r.id = x.id ∧ (x.out = some r.body ∨ x.out = none)
  valid : ∀ r ∈ s.accepted, r.body.valid
  order : s.order.Nodup
  queued : ∀ t, t ∈ s.order ↔ ∃ r ∈ s.wait, r.ty = t

theorem inv_start (l : List Nat) : Inv (start l) := by
  have hd : (start l).devs.flatMap Dev.reqs = [] := by
    simp only [start]
    induction l with
    | nil => rfl
    | cons b l ih => simp only [List.map_cons, List.flatMap_cons]; rw [ih]; rfl
  have hu : under (start l) = [] := by unfold under; rw [hd]; rfl
  refine ⟨fun i => ?_, fun _ h => absurd h List.not_mem_nil, List.nodup_nil, fun r h => ?_, fun _ h => absurd h List.not_mem_nil,
    fun _ h => absurd h List.not_mem_nil, List.nodup_nil, fun t => ⟨fun h => absurd h List.not_mem_nil, fun h => ?_⟩⟩
  · rw [places_eq, hd]; rfl
  · rw [hu] at h; exact absurd h List.not_mem_nil
  · obtain ⟨r, hr, _⟩ := h; exact absurd hr List.not_mem_nil

/-! ### Lists -/

theorem takeFit_count (t : Ty) (b i : Nat) (l : List Req) : ∀ sum,
    ((takeFit t b sum l).1.map (·.id)).count i + ((takeFit t b sum l).2.map (·.id)).count i = (l.map (·.id)).count i := by
  induction l with
  | nil => intro sum; rfl
  | cons r l ih =>
    intro sum
    unfold takeFit
    by_cases h : r.ty = t ∧ (sum = 0 ∨ sum + reqSize t ≤ b)
    · rw [if_pos h]
      have := ih (sum + reqSize t)
      simp only [List.map_cons, List.count_cons]
      omega
    · rw [if_neg h]
      have := ih sum
      simp only [List.map_cons, List.count_cons]
      omega

theorem takeFit_mem (t : Ty) (b : Nat) (l : List Req) (r : Req) : ∀ sum,
    (r ∈ (takeFit t b sum l).1 ∨ r ∈ (takeFit t b sum l).2) ↔ r ∈ l := by
  induction l with
  | nil => intro sum; simp [takeFit]
  | cons q l ih =>
    intro sum
    unfold takeFit
    by_cases h : q.ty = t ∧ (sum = 0 ∨ sum + reqSize t ≤ b)
    · rw [if_pos h]
      simp only [List.mem_cons]
      rw [or_assoc, ih (sum + reqSize t)]
    · rw [if_neg h]
      simp only [List.mem_cons]
      rw [or_left_comm, ih sum]

theorem takeFit_ty (t : Ty) (b : Nat) (l : List Req) (r : Req) : ∀ sum, r ∈ (takeFit t b sum l).1 → r.ty = t := by
  induction l with
  | nil => intro sum h; exact absurd h List.not_mem_nil
  | cons q l ih =>
    intro sum
    unfold takeFit
    by_cases h : q.ty = t ∧ (sum = 0 ∨ sum + reqSize t ≤ b)
    · rw [if_pos h]
      intro hr
      rcases List.mem_cons.1 hr with e | e
      · rw [e]; exact h.1
      · exact ih _ e
    · rw [if_neg h]; exact ih sum

theorem set_flat_count (f : Dev → List Req) (i : Nat) : ∀ (l : List Dev) (d : Nat) (x y : Dev), l[d]? = some x →
    (((l.set d y).flatMap f).map (·.id)).count i + ((f x).map (·.id)).count i
      = ((l.flatMap f).map (·.id)).count i + ((f y).map (·.id)).count i := by
  intro l
  induction l with
  | nil => intro d x y h; simp at h
  | cons a l ih =>
    intro d x y h
    cases d with
    | zero =>
      simp at h
      subst h
      simp only [List.set_cons_zero, List.flatMap_cons, List.map_append, List.count_append]
      omega
    | succ d =>
      simp at h
      have := ih d x y h
      simp only [List.set_cons_succ, List.flatMap_cons, List.map_append, List.count_append]
      omega

theorem set_flat_mem (f : Dev → List Req) (r : Req) (l : List Dev) (d : Nat) (y : Dev)
    (h : r ∈ (l.set d y).flatMap f) : r ∈ l.flatMap f ∨ r ∈ f y := by
  obtain ⟨x, hx, hr⟩ := List.mem_flatMap.1 h
  rcases List.mem_or_eq_of_mem_set hx with e | e
  · exact .inl (List.mem_flatMap.2 ⟨x, e, hr⟩)
  · rw [e] at hr; exact .inr hr

theorem filter_id_count (m : List Result) (j i : Nat) :
    ((m.filter fun x => x.id ≠ j).map (·.id)).count i = if i = j then 0 else (m.map (·.id)).count i := by
  induction m with
  | nil => by_cases h : i = j <;> simp [h]
  | cons x m ih =>
    by_cases hx : x.id = j
    · have e : (x :: m).filter (fun x => x.id ≠ j) = m.filter fun x => x.id ≠ j := by
        rw [List.filter_cons_of_neg]; simp [hx]
      rw [e, ih]
      by_cases h : i = j
      · rw [if_pos h, if_pos h]
      · rw [if_neg h, if_neg h, List.map_cons, List.count_cons]
        have : ¬ x.id = i := fun y => h (y.symm.trans hx)
        simp [this]
    · have e : (x :: m).filter (fun x => x.id ≠ j) = x :: m.filter fun x => x.id ≠ j := by
        rw [List.filter_cons_of_pos]; simp [hx]
      rw [e, List.map_cons, List.count_cons, ih]
      by_cases h : i = j
      · rw [if_pos h, if_pos h]
        have : ¬ x.id = i := fun y => hx (y.trans h)
        simp [this]
      · rw [if_neg h, if_neg h, List.map_cons, List.count_cons]

/-- A result for an id that has none. -/
theorem put_count {m : List Result} {r : Result} (h : (m.map (·.id)).count r.id = 0) (i : Nat) :
    ((putResult m r).map (·.id)).count i = (m.map (·.id)).count i + if i = r.id then 1 else 0 := by
  unfold putResult
  rw [List.map_cons, List.count_cons, filter_id_count]
  by_cases hi : i = r.id
  · subst hi; simp [h]
  · have : ¬ r.id = i := fun y => hi y.symm
    simp [hi, this]

theorem put_mem {m : List Result} {r x : Result} (h : x ∈ putResult m r) : x = r ∨ x ∈ m := by
  rcases List.mem_cons.1 h with e | e
  · exact .inl e
  · exact .inr ((List.mem_filter.1 e).1)

theorem find_job_mem {m : List Result} {jobs : List Nat} {x : Result} (h : findJob m jobs = some x) :
    x ∈ m ∧ x.id ∈ jobs := by
  obtain ⟨j, hj, hx⟩ := List.exists_of_findSome?_eq_some h
  have h1 := List.mem_of_find?_eq_some hx
  have h2 := List.find?_some hx
  simp at h2
  exact ⟨h1, by rw [h2]; exact hj⟩

theorem count_one_of_mem {m : List Result} {x : Result} (h : x ∈ m) : 1 ≤ (m.map (·.id)).count x.id := by
  rw [Nat.succ_le_iff, List.count_pos_iff]
  exact List.mem_map.2 ⟨x, h, rfl⟩

theorem eraseIdx_count : ∀ (l : List Req) (k : Nat) (r : Req), l[k]? = some r → ∀ i,
    ((l.eraseIdx k).map (·.id)).count i + (if i = r.id then 1 else 0) = (l.map (·.id)).count i := by
  intro l
  induction l with
  | nil => intro k r h; simp at h
  | cons a l ih =>
    intro k r h i
    cases k with
    | zero =>
      simp at h
      subst h
      simp only [List.eraseIdx_cons_zero, List.map_cons, List.count_cons]
      by_cases hi : i = a.id
      · subst hi; simp
      · have : ¬ a.id = i := fun y => hi y.symm
        simp [hi, this]
    | succ k =>
      simp at h
      have := ih k r h i
      simp only [List.eraseIdx_cons_succ, List.map_cons, List.count_cons]
      omega

/-! ### The events keep the invariant -/

theorem count_le {s : State} (g : Inv s) (i : Nat) : places s i ≤ 1 := by
  rw [g.once i]
  exact List.nodup_iff_count.1 g.nodup i

/-- The same requests and results, the same order: the rest does not matter. -/
theorem Inv.congr {s s' : State} (g : Inv s) (h1 : s'.wait = s.wait) (h2 : s'.devs.flatMap Dev.reqs = s.devs.flatMap Dev.reqs)
    (h3 : s'.cpu = s.cpu) (h4 : s'.results = s.results) (h5 : s'.returned = s.returned) (h6 : s'.accepted = s.accepted)
    (h7 : s'.nextId = s.nextId) (h8 : s'.order = s.order) : Inv s' := by
  have hu : under s' = under s := by unfold under; rw [h1, h2, h3]
  have hs : settled s' = settled s := by unfold settled; rw [h4, h5]
  refine ⟨fun i => ?_, ?_, ?_, ?_, ?_, ?_, ?_, ?_⟩
  · unfold places; rw [hu, hs, h6]; exact g.once i
  · rw [h6, h7]; exact g.fresh
  · rw [h6]; exact g.nodup
  · rw [hu, h6]; exact g.req
  · rw [hs, h6]; exact g.res
  · rw [h6]; exact g.valid
  · rw [h8]; exact g.order
  · rw [h8, h1]; exact g.queued

/-- A device changes its state and holds no request before or after. -/
theorem set_none {l : List Dev} {d : Nat} {x y : Dev} (h : l[d]? = some x) (hx : x.reqs = []) (hy : y.reqs = []) :
    (l.set d y).flatMap Dev.reqs = l.flatMap Dev.reqs := by
  induction l generalizing d with
  | nil => simp at h
  | cons a l ih =>
    cases d with
    | zero => simp at h; subst h; simp [hx, hy]
    | succ d => simp at h; simp [ih h]

theorem inv_submit {s : State} (g : Inv s) (b : Body) : Inv (submit s b) := by
  unfold submit
  by_cases h : b.valid ∧ s.doRun = true ∧ 0 < s.haveCuda
  · rw [if_pos h]
    refine ⟨fun i => ?_, ?_, ?_, ?_, ?_, ?_, ?_, ?_⟩
    · have := g.once i
      rw [places_eq] at this ⊢
      simp only [List.map_append, List.count_append, List.map_cons, List.count_cons, List.map_nil, List.count_nil]
      omega
    · intro r hr
      rcases List.mem_cons.1 hr with e | e
      · rw [e]; exact Nat.lt_succ_self _
      · exact Nat.lt_succ_of_lt (g.fresh r e)
    · refine List.nodup_cons.2 ⟨fun hm => ?_, g.nodup⟩
      obtain ⟨r, hr, e⟩ := List.mem_map.1 hm
      exact absurd e (Nat.ne_of_lt (g.fresh r hr))
    · intro r hr
      have : r ∈ under s ∨ r = { id := s.nextId, body := b } := by
        simp only [under, List.mem_append, List.mem_singleton] at hr ⊢
        rcases hr with (h | h) | h
        · exact .inl (.inl h)
        · exact .inr h
        · exact .inl (.inr h)
      rcases this with h | h
      · exact List.mem_cons_of_mem _ (g.req r h)
      · rw [h]; exact List.mem_cons_self
    · intro x hx
      obtain ⟨r, hr, h⟩ := g.res x hx
      exact ⟨r, List.mem_cons_of_mem _ hr, h⟩
    · intro r hr
      rcases List.mem_cons.1 hr with e | e
      · rw [e]; exact h.1
      · exact g.valid r e
    · show (if _ then _ else _ : List Ty).Nodup
      by_cases ht : Req.ty { id := s.nextId, body := b } ∈ s.order
      · rw [if_pos ht]; exact g.order
      · rw [if_neg ht]
        refine List.nodup_append.2 ⟨g.order, by simp, fun a ha c hc => ?_⟩
        rw [List.mem_singleton.1 hc]
        exact fun e => ht (e ▸ ha)
    · intro t
      show t ∈ (if _ then _ else _ : List Ty) ↔ ∃ r ∈ s.wait ++ [_], r.ty = t
      have hq := g.queued t
      by_cases ht : Req.ty { id := s.nextId, body := b } ∈ s.order
      · rw [if_pos ht, hq]
        constructor
        · rintro ⟨r, hr, e⟩; exact ⟨r, List.mem_append_left _ hr, e⟩
        · rintro ⟨r, hr, e⟩
          rcases List.mem_append.1 hr with h | h
          · exact ⟨r, h, e⟩
          · rw [List.mem_singleton.1 h] at e
            rw [e] at ht
            exact hq.1 ht
      · rw [if_neg ht, List.mem_append, hq, List.mem_singleton]
        constructor
        · rintro (⟨r, hr, e⟩ | e)
          · exact ⟨r, List.mem_append_left _ hr, e⟩
          · exact ⟨_, List.mem_append_right _ (List.mem_singleton.2 rfl), e.symm⟩
        · rintro ⟨r, hr, e⟩
          rcases List.mem_append.1 hr with h | h
          · exact .inl ⟨r, h, e⟩
          · rw [List.mem_singleton.1 h] at e; exact .inr e.symm
  · rw [if_neg h]; exact g

theorem inv_pick {s : State} (g : Inv s) {d : Nat} {dev : Dev} (hd : s.devs[d]? = some dev) (hn : dev.reqs = [])
    {t : Ty} {rest : List Ty} (ho : s.order = t :: rest) : Inv (pickStep s d dev t rest) := by
  have hnd : t ∉ rest ∧ rest.Nodup := by have := g.order; rw [ho] at this; exact List.nodup_cons.1 this
  refine ⟨fun i => ?_, g.fresh, g.nodup, ?_, g.res, g.valid, ?_, ?_⟩
  · have h0 := g.once i
    rw [places_eq] at h0 ⊢
    have h1 := takeFit_count t dev.buffer i s.wait 0
    have h2 := set_flat_count Dev.reqs i s.devs d dev { dev with st := .busy (takeFit t dev.buffer 0 s.wait).1 } hd
    rw [hn] at h2
    have h3 : Dev.reqs { dev with st := .busy (takeFit t dev.buffer 0 s.wait).1 } = (takeFit t dev.buffer 0 s.wait).1 := rfl
    rw [h3] at h2
    simp only [pickStep]
    simp only [List.map_nil, List.count_nil] at h2
    omega
  · intro r hr
    simp only [under, pickStep, List.mem_append] at hr
    have : r ∈ under s := by
      simp only [under, List.mem_append]
      rcases hr with h | h | h
      · exact .inl ((takeFit_mem t dev.buffer s.wait r 0).1 (.inr h))
      · rcases set_flat_mem _ _ _ _ _ h with h | h
        · exact .inr (.inl h)
        · exact .inl ((takeFit_mem t dev.buffer s.wait r 0).1 (.inl h))
      · exact .inr (.inr h)
    exact g.req r this
  · show (if _ then _ else _ : List Ty).Nodup
    by_cases h : ∃ r ∈ (takeFit t dev.buffer 0 s.wait).2, r.ty = t
    · rw [if_pos h]
      refine List.nodup_append.2 ⟨hnd.2, by simp, fun a ha c hc => ?_⟩
      rw [List.mem_singleton.1 hc]
      exact fun e => hnd.1 (e ▸ ha)
    · rw [if_neg h]; exact hnd.2
  · intro u
    show u ∈ (if _ then _ else _ : List Ty) ↔ ∃ r ∈ (takeFit t dev.buffer 0 s.wait).2, r.ty = u
    have hq := g.queued u
    rw [ho, List.mem_cons] at hq
    by_cases hu : u = t
    · subst hu
      by_cases h : ∃ r ∈ (takeFit u dev.buffer 0 s.wait).2, r.ty = u
      · rw [if_pos h]; exact ⟨fun _ => h, fun _ => List.mem_append_right _ (List.mem_singleton.2 rfl)⟩
      · rw [if_neg h]; exact ⟨fun x => absurd x hnd.1, fun x => absurd x h⟩
    · have hr : (∃ r ∈ (takeFit t dev.buffer 0 s.wait).2, r.ty = u) ↔ ∃ r ∈ s.wait, r.ty = u := by
        constructor
        · rintro ⟨r, hr, e⟩; exact ⟨r, (takeFit_mem t dev.buffer s.wait r 0).1 (.inr hr), e⟩
        · rintro ⟨r, hr, e⟩
          rcases (takeFit_mem t dev.buffer s.wait r 0).2 hr with h | h
          · exact absurd (e.symm.trans (takeFit_ty _ _ _ _ _ h)) hu
          · exact ⟨r, h, e⟩
      rw [hr, ← hq]
      by_cases h : ∃ r ∈ (takeFit t dev.buffer 0 s.wait).2, r.ty = t
      · rw [if_pos h, List.mem_append, List.mem_singleton]
        exact ⟨fun x => x.elim .inr .inl, fun x => x.elim .inr .inl⟩
      · rw [if_neg h]; exact ⟨.inr, fun x => x.elim (fun y => absurd y hu) id⟩

theorem inv_done {s : State} (g : Inv s) {d b : Nat} {l : List Req} (hd : s.devs[d]? = some ⟨b, .busy l⟩) :
    Inv { s with devs := s.devs.set d ⟨b, .idle⟩, cpu := s.cpu ++ l } := by
  refine ⟨fun i => ?_, g.fresh, g.nodup, ?_, g.res, g.valid, g.order, g.queued⟩
  · have h0 := g.once i
    rw [places_eq] at h0 ⊢
    have h2 := set_flat_count Dev.reqs i s.devs d ⟨b, .busy l⟩ ⟨b, .idle⟩ hd
    have h3 : Dev.reqs ⟨b, .busy l⟩ = l := rfl
    have h4 : Dev.reqs ⟨b, .idle⟩ = [] := rfl
    rw [h3, h4] at h2
    simp only [List.map_append, List.count_append]
    simp only [List.map_nil, List.count_nil] at h2
    omega
  · intro r hr
    refine g.req r ?_
    simp only [under, List.mem_append] at hr ⊢
    rcases hr with h | h | h | h
    · exact .inl h
    · rcases set_flat_mem _ _ _ _ _ h with h | h
      · exact .inr (.inl h)
      · exact absurd h List.not_mem_nil
    · exact .inr (.inr h)
    · exact .inr (.inl (List.mem_flatMap.2 ⟨_, List.mem_of_getElem? hd, h⟩))

theorem fold_put (l : List Req) : ∀ m : List Result,
    (∀ i, (l.map (·.id)).count i + (m.map (·.id)).count i ≤ 1) →
    (∀ i, ((l.foldl (fun m r => putResult m { id := r.id, out := none }) m).map (·.id)).count i
      = (l.map (·.id)).count i + (m.map (·.id)).count i) ∧
    (∀ x ∈ l.foldl (fun m r => putResult m { id := r.id, out := none }) m, x ∈ m ∨ (x.out = none ∧ ∃ r ∈ l, r.id = x.id)) := by
  induction l with
  | nil => intro m _; exact ⟨fun i => by simp, fun x h => .inl h⟩
  | cons r l ih =>
    intro m h
    have hc : (m.map (·.id)).count r.id = 0 := by
      have := h r.id
      simp only [List.map_cons, List.count_cons, beq_self_eq_true, if_true] at this
      omega
    have hp := put_count (m := m) (r := ⟨r.id, none⟩) hc
    obtain ⟨h1, h2⟩ := ih (putResult m ⟨r.id, none⟩) (fun i => by
      have := h i
      rw [hp i]
      simp only [List.map_cons, List.count_cons] at this
      by_cases hi : i = r.id
      · subst hi; simp at this ⊢; omega
      · have : ¬ r.id = i := fun y => hi y.symm
        simp [hi, this] at *; omega)
    constructor
    · intro i
      show ((l.foldl _ (putResult m ⟨r.id, none⟩)).map (·.id)).count i = _
      rw [h1 i, hp i, List.map_cons, List.count_cons]
      by_cases hi : i = r.id
      · subst hi; simp; omega
      · have : ¬ r.id = i := fun y => hi y.symm
        simp [hi, this]
    · intro x hx
      rcases h2 x hx with h | ⟨h, q, hq, e⟩
      · rcases put_mem h with h | h
        · exact .inr ⟨by rw [h], r, List.mem_cons_self, by rw [h]⟩
        · exact .inl h
      · exact .inr ⟨h, q, List.mem_cons_of_mem _ hq, e⟩

theorem inv_error {s : State} (g : Inv s) {d b : Nat} {l : List Req} (hd : s.devs[d]? = some ⟨b, .busy l⟩) :
    Inv (errorStep s d ⟨b, .busy l⟩ l) := by
  have h3 : Dev.reqs ⟨b, .busy l⟩ = l := rfl
  have h4 : Dev.reqs ⟨b, .ending⟩ = [] := rfl
  have hcnt : ∀ i, (l.map (·.id)).count i + (s.results.map (·.id)).count i ≤ 1 := by
    intro i
    have h0 := count_le g i
    rw [places_eq] at h0
    have h2 := set_flat_count Dev.reqs i s.devs d ⟨b, .busy l⟩ ⟨b, .ending⟩ hd
    rw [h3, h4] at h2
    simp only [List.map_nil, List.count_nil] at h2
    omega
  obtain ⟨hf1, hf2⟩ := fold_put l s.results hcnt
  refine ⟨fun i => ?_, g.fresh, g.nodup, ?_, ?_, g.valid, g.order, g.queued⟩
  · have h0 := g.once i
    rw [places_eq] at h0 ⊢
    have h2 := set_flat_count Dev.reqs i s.devs d ⟨b, .busy l⟩ ⟨b, .ending⟩ hd
    rw [h3, h4] at h2
    simp only [List.map_nil, List.count_nil] at h2
    have := hf1 i
    simp only [errorStep]
    omega
  · intro r hr
    refine g.req r ?_
    simp only [under, errorStep, List.mem_append] at hr ⊢
    rcases hr with h | h | h
    · exact .inl h
    · rcases set_flat_mem _ _ _ _ _ h with h | h
      · exact .inr (.inl h)
      · exact absurd h List.not_mem_nil
    · exact .inr (.inr h)
  · intro x hx
    simp only [settled, errorStep, List.mem_append] at hx
    rcases hx with h | h
    · rcases hf2 x h with h | ⟨h, r, hr, e⟩
      · exact g.res x (List.mem_append_left _ h)
      · refine ⟨r, g.req r ?_, e, .inr h⟩
        simp only [under, List.mem_append]
        exact .inr (.inl (List.mem_flatMap.2 ⟨_, List.mem_of_getElem? hd, hr⟩))
    · exact g.res x (List.mem_append_right _ h)

theorem inv_finish {s : State} (g : Inv s) {i : Nat} {r : Req} (ok : Body → Bool) (hr : s.cpu[i]? = some r) :
    Inv (finishStep s i r ok) := by
  have hmem : r ∈ s.cpu := List.mem_of_getElem? hr
  have hc1 : 1 ≤ (s.cpu.map (·.id)).count r.id := by
    rw [Nat.succ_le_iff, List.count_pos_iff]; exact List.mem_map.2 ⟨r, hmem, rfl⟩
  have hc : (s.results.map (·.id)).count r.id = 0 := by
    have := count_le g r.id
    rw [places_eq] at this
    omega
  have hu : r ∈ under s := by simp only [under, List.mem_append]; exact .inr (.inr hmem)
  refine ⟨fun j => ?_, g.fresh, g.nodup, ?_, ?_, g.valid, g.order, g.queued⟩
  · have h0 := g.once j
    rw [places_eq] at h0 ⊢
    have h1 := eraseIdx_count s.cpu i r hr j
    have h2 := put_count (m := s.results) (r := { id := r.id, out := if ok r.body then some r.body else none }) hc j
    simp only [finishStep]
    simp only at h2
    omega
  · intro q hq
    refine g.req q ?_
    simp only [under, finishStep, List.mem_append] at hq ⊢
    rcases hq with h | h | h
    · exact .inl h
    · exact .inr (.inl h)
    · exact .inr (.inr (List.mem_of_mem_eraseIdx h))
  · intro x hx
    simp only [settled, finishStep, List.mem_append] at hx
    rcases hx with h | h
    · rcases put_mem h with h | h
      · refine ⟨r, g.req r hu, by rw [h], ?_⟩
        rw [h]
        show (if ok r.body then some r.body else none) = _ ∨ (if ok r.body then some r.body else none) = none
        by_cases e : ok r.body = true
        · rw [if_pos e]; exact .inl rfl
        · rw [if_neg e]; exact .inr rfl
      · exact g.res x (List.mem_append_left _ h)
    · exact g.res x (List.mem_append_right _ h)

theorem inv_check {s : State} (g : Inv s) (t : Nat) (jobs : List Nat) : Inv (checkStep s t jobs) := by
  unfold checkStep
  cases hf : findJob s.results jobs with
  | none =>
    by_cases h : s.doRun = true
    · simp only [h, if_true]; exact g.congr rfl rfl rfl rfl rfl rfl rfl rfl
    · simp only [h]; exact g.congr rfl rfl rfl rfl rfl rfl rfl rfl
  | some x =>
    obtain ⟨hx, _⟩ := find_job_mem hf
    refine ⟨fun i => ?_, g.fresh, g.nodup, g.req, ?_, g.valid, g.order, g.queued⟩
    · have h0 := g.once i
      have h1 := count_le g i
      rw [places_eq] at h0 h1 ⊢
      have h2 := filter_id_count s.results x.id i
      simp only [List.map_cons, List.count_cons]
      rw [h2]
      by_cases hi : i = x.id
      · subst hi
        have := count_one_of_mem hx
        simp
        omega
      · have : ¬ x.id = i := fun y => hi y.symm
        simp [hi, this]
        omega
    · intro y hy
      refine g.res y ?_
      simp only [settled, List.mem_append, List.mem_cons] at hy ⊢
      rcases hy with h | h | h
      · exact .inl ((List.mem_filter.1 h).1)
      · rw [h]; exact .inl hx
      · exact .inr h

theorem inv_step {ok : Body → Bool} {s : State} (g : Inv s) (ev : Event) : Inv (step ok s ev) := by
  cases ev with
  | initEnd =>
    simp only [step]
    by_cases h : s.initDone = true
    · rw [if_pos h]; exact g
    · rw [if_neg h]; exact g.congr rfl rfl rfl rfl rfl rfl rfl rfl
  | submit b =>
    simp only [step]
    by_cases h : s.initDone = true
    · rw [if_pos h]; exact inv_submit g b
    · rw [if_neg h]; exact g
  | poll t jobs =>
    simp only [step]
    cases s.polls t with
    | out => exact g.congr rfl rfl rfl rfl rfl rfl rfl rfl
    | ready _ => exact g
    | waiting _ => exact g
  | check t =>
    simp only [step]
    by_cases h : s.initDone = true
    · rw [if_pos h]
      cases s.polls t with
      | out => exact g
      | ready jobs => exact inv_check g t jobs
      | waiting _ => exact g
    · rw [if_neg h]; exact g
  | spurious t =>
    simp only [step]
    cases s.polls t with
    | out => exact g
    | ready _ => exact g
    | waiting _ => exact g.congr rfl rfl rfl rfl rfl rfl rfl rfl
  | signal =>
    simp only [step]
    by_cases h : 0 < s.owed
    · rw [if_pos h]; exact g.congr rfl rfl rfl rfl rfl rfl rfl rfl
    · rw [if_neg h]; exact g
  | shutdown =>
    simp only [step]
    by_cases h : s.initDone = true
    · rw [if_pos h]; exact g.congr rfl rfl rfl rfl rfl rfl rfl rfl
    · rw [if_neg h]; exact g
  | booted d =>
    simp only [step]
    cases hd : s.devs[d]? with
    | none => exact g
    | some dev =>
      obtain ⟨b, st⟩ := dev
      cases st with
      | booting => exact g.congr rfl (set_none hd rfl rfl) rfl rfl rfl rfl rfl rfl
      | _ => exact g
  | allocFail d =>
    simp only [step]
    cases hd : s.devs[d]? with
    | none => exact g
    | some dev =>
      obtain ⟨b, st⟩ := dev
      cases st with
      | booting => exact g.congr rfl (set_none hd rfl rfl) rfl rfl rfl rfl rfl rfl
      | _ => exact g
  | pick d =>
    simp only [step]
    by_cases h : s.initDone = true ∧ s.doRun = true
    · rw [if_pos h]
      cases hd : s.devs[d]? with
      | none => exact g
      | some dev =>
        obtain ⟨b, st⟩ := dev
        cases st with
        | idle =>
          cases ho : s.order with
          | nil => exact g
          | cons t rest => exact inv_pick g hd rfl ho
        | _ => exact g
    · rw [if_neg h]; exact g
  | stop d =>
    simp only [step]
    by_cases h : s.doRun = true
    · rw [if_pos h]; exact g
    · rw [if_neg h]
      cases hd : s.devs[d]? with
      | none => exact g
      | some dev =>
        obtain ⟨b, st⟩ := dev
        cases st with
        | idle => exact g.congr rfl (set_none hd rfl rfl) rfl rfl rfl rfl rfl rfl
        | _ => exact g
  | done d =>
    simp only [step]
    cases hd : s.devs[d]? with
    | none => exact g
    | some dev =>
      obtain ⟨b, st⟩ := dev
      cases st with
      | busy l => exact inv_done g hd
      | _ => exact g
  | error d =>
    simp only [step]
    cases hd : s.devs[d]? with
    | none => exact g
    | some dev =>
      obtain ⟨b, st⟩ := dev
      cases st with
      | busy l => exact inv_error g hd
      | _ => exact g
  | decrement d =>
    simp only [step]
    cases hd : s.devs[d]? with
    | none => exact g
    | some dev =>
      obtain ⟨b, st⟩ := dev
      cases st with
      | ending => exact g.congr rfl (set_none hd rfl rfl) rfl rfl rfl rfl rfl rfl
      | _ => exact g
  | finish i =>
    simp only [step]
    cases hr : s.cpu[i]? with
    | none => exact g
    | some r => exact inv_finish g ok hr

theorem inv_run {ok : Body → Bool} (evs : List Event) : ∀ {s : State}, Inv s → Inv (run ok s evs) := by
  induction evs with
  | nil => exact fun g => g
  | cons ev evs ih => exact fun g => ih (inv_step g ev)

end Verif.Gpu
