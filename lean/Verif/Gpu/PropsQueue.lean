import Verif.Gpu.QueueLemmas

/-!
# C167: a request to the GPU is answered once, with its own result
-/

namespace Verif.Gpu

/-- The states a process with these devices can get to. -/
def Reach (ok : Body → Bool) (s : State) : Prop := ∃ buffers evs, s = run ok (start buffers) evs

theorem Reach.inv {ok : Body → Bool} {s : State} (h : Reach ok s) : Inv s := by
  obtain ⟨b, evs, rfl⟩ := h
  exact inv_run evs (inv_start b)

/-! ### Once, and the own result -/

/-- No request is lost or answered twice: each that was accepted is in exactly one place, in the queue, on a
    device, with the CPU, among the results, or returned by a poll. -/
theorem C167_once (ok : Body → Bool) (s : State) (h : Reach ok s) :
    (∀ r ∈ s.accepted, places s r.id = 1) ∧ (s.returned.map (·.id)).Nodup ∧ (s.accepted.map (·.id)).Nodup := by
  have g := h.inv
  refine ⟨fun r hr => ?_, List.nodup_iff_count.2 fun i => ?_, g.nodup⟩
  · have h1 := count_le g r.id
    have h2 := g.once r.id
    have : 1 ≤ (s.accepted.map (·.id)).count r.id := by
      rw [Nat.succ_le_iff, List.count_pos_iff]; exact List.mem_map.2 ⟨r, hr, rfl⟩
    omega
  · have := count_le g i
    rw [places_eq] at this
    omega

/-- What a poll returns is for one of the jobs it asked for. -/
theorem C167_asked (ok : Body → Bool) (s : State) (t : Nat) (x : Result)
    (h : (step ok s (.check t)).returned = x :: s.returned) : ∃ jobs, s.polls t = .ready jobs ∧ x.id ∈ jobs := by
  have hne : s.returned ≠ x :: s.returned := fun e => by
    have := congrArg List.length e
    rw [List.length_cons] at this
    omega
  simp only [step] at h
  by_cases hi : s.initDone = true
  · rw [if_pos hi] at h
    cases hp : s.polls t with
    | out => rw [hp] at h; exact absurd h hne
    | waiting _ => rw [hp] at h; exact absurd h hne
    | ready jobs =>
      rw [hp] at h
      refine ⟨jobs, rfl, ?_⟩
      simp only [checkStep] at h
      cases hf : findJob s.results jobs with
      | none =>
        rw [hf] at h
        by_cases hd : s.doRun = true
        · simp only [hd, if_true] at h; exact absurd h hne
        · simp only [hd] at h; exact absurd h hne
      | some y =>
        rw [hf] at h
        have : y = x := List.head_eq_of_cons_eq h
        rw [← this]
        exact (find_job_mem hf).2
  · rw [if_neg hi] at h; exact absurd h hne

/-- What is returned was computed from the values of the request with this id, or reports a failure. -/
theorem C167_own (ok : Body → Bool) (s : State) (h : Reach ok s) (x : Result) (hx : x ∈ s.returned) :
    ∃ r ∈ s.accepted, r.id = x.id ∧ r.body.valid ∧ (x.out = some r.body ∨ x.out = none) := by
  obtain ⟨r, hr, e, ho⟩ := h.inv.res x (List.mem_append_right _ hx)
  exact ⟨r, hr, e, h.inv.valid r hr, ho⟩

/-- Results are what `compute_full` gives for the request. -/
def Sharp (ok : Body → Bool) (s : State) : Prop :=
  ∀ x ∈ settled s, ∃ r ∈ s.accepted, r.id = x.id ∧ x.out = if ok r.body then some r.body else none

theorem Sharp.congr {ok : Body → Bool} {s s' : State} (g : Sharp ok s) (h4 : s'.results = s.results)
    (h5 : s'.returned = s.returned) (h6 : s'.accepted = s.accepted) : Sharp ok s' := by
  unfold Sharp settled
  rw [h4, h5, h6]
  exact g

def Event.isError : Event → Bool
  | .error _ => true
  | _ => false

theorem sharp_step {ok : Body → Bool} {s : State} (g : Inv s) (h : Sharp ok s) (ev : Event) (he : ev.isError = false) :
    Sharp ok (step ok s ev) := by
  cases ev with
  | error d => exact nomatch he
  | submit b =>
    simp only [step]
    by_cases hi : s.initDone = true
    · rw [if_pos hi]
      unfold submit
      by_cases hv : b.valid ∧ s.doRun = true ∧ 0 < s.haveCuda
      · rw [if_pos hv]
        intro x hx
        obtain ⟨r, hr, e⟩ := h x hx
        exact ⟨r, List.mem_cons_of_mem _ hr, e⟩
      · rw [if_neg hv]; exact h
    · rw [if_neg hi]; exact h
  | check t =>
    simp only [step]
    by_cases hi : s.initDone = true
    · rw [if_pos hi]
      cases s.polls t with
      | out => exact h
      | waiting _ => exact h
      | ready jobs =>
        simp only [checkStep]
        cases hf : findJob s.results jobs with
        | none =>
          by_cases hd : s.doRun = true
          · simp only [hd, if_true]; exact h.congr rfl rfl rfl
          · simp only [hd]; exact h.congr rfl rfl rfl
        | some y =>
          intro x hx
          refine h x ?_
          simp only [settled, List.mem_append, List.mem_cons] at hx ⊢
          rcases hx with e | e | e
          · exact .inl (List.mem_filter.1 e).1
          · rw [e]; exact .inl (find_job_mem hf).1
          · exact .inr e
    · rw [if_neg hi]; exact h
  | finish i =>
    simp only [step]
    cases hr : s.cpu[i]? with
    | none => exact h
    | some r =>
      intro x hx
      simp only [settled, finishStep, List.mem_append] at hx
      rcases hx with e | e
      · rcases put_mem e with e | e
        · refine ⟨r, g.req r ?_, by rw [e], by rw [e]⟩
          simp only [under, List.mem_append]
          exact .inr (.inr (List.mem_of_getElem? hr))
        · exact h x (List.mem_append_left _ e)
      · exact h x (List.mem_append_right _ e)
  | initEnd =>
    simp only [step]
    by_cases hi : s.initDone = true
    · rw [if_pos hi]; exact h
    · rw [if_neg hi]; exact h.congr rfl rfl rfl
  | poll t jobs =>
    simp only [step]
    cases s.polls t with
    | out => exact h.congr rfl rfl rfl
    | _ => exact h
  | spurious t =>
    simp only [step]
    cases s.polls t with
    | waiting _ => exact h.congr rfl rfl rfl
    | _ => exact h
  | signal =>
    simp only [step]
    by_cases hi : 0 < s.owed
    · rw [if_pos hi]; exact h.congr rfl rfl rfl
    · rw [if_neg hi]; exact h
  | shutdown =>
    simp only [step]
    by_cases hi : s.initDone = true
    · rw [if_pos hi]; exact h.congr rfl rfl rfl
    · rw [if_neg hi]; exact h
  | booted d =>
    simp only [step]
    cases s.devs[d]? with
    | none => exact h
    | some dev =>
      obtain ⟨b, st⟩ := dev
      cases st with
      | booting => exact h.congr rfl rfl rfl
      | _ => exact h
  | allocFail d =>
    simp only [step]
    cases s.devs[d]? with
    | none => exact h
    | some dev =>
      obtain ⟨b, st⟩ := dev
      cases st with
      | booting => exact h.congr rfl rfl rfl
      | _ => exact h
  | pick d =>
    simp only [step]
    by_cases hi : s.initDone = true ∧ s.doRun = true
    · rw [if_pos hi]
      cases s.devs[d]? with
      | none => exact h
      | some dev =>
        obtain ⟨b, st⟩ := dev
        cases st with
        | idle =>
          cases s.order with
          | nil => exact h
          | cons t rest => exact h.congr rfl rfl rfl
        | _ => exact h
    · rw [if_neg hi]; exact h
  | stop d =>
    simp only [step]
    by_cases hi : s.doRun = true
    · rw [if_pos hi]; exact h
    · rw [if_neg hi]
      cases s.devs[d]? with
      | none => exact h
      | some dev =>
        obtain ⟨b, st⟩ := dev
        cases st with
        | idle => exact h.congr rfl rfl rfl
        | _ => exact h
  | done d =>
    simp only [step]
    cases s.devs[d]? with
    | none => exact h
    | some dev =>
      obtain ⟨b, st⟩ := dev
      cases st with
      | busy l => exact h.congr rfl rfl rfl
      | _ => exact h
  | decrement d =>
    simp only [step]
    cases s.devs[d]? with
    | none => exact h
    | some dev =>
      obtain ⟨b, st⟩ := dev
      cases st with
      | ending => exact h.congr rfl rfl rfl
      | _ => exact h

theorem sharp_run {ok : Body → Bool} (evs : List Event) : ∀ {s : State}, Inv s → Sharp ok s →
    (∀ e ∈ evs, e.isError = false) → Sharp ok (run ok s evs) := by
  induction evs with
  | nil => exact fun _ h _ => h
  | cons ev evs ih =>
    exact fun g h he => ih (inv_step g ev) (sharp_step g h ev (he ev List.mem_cons_self))
      (fun e hm => he e (List.mem_cons_of_mem _ hm))

/-- If no device has failed, a failure is returned only for requests that have no result. -/
theorem C167_result (ok : Body → Bool) (buffers : List Nat) (evs : List Event) (he : ∀ e ∈ evs, e.isError = false)
    (x : Result) (hx : x ∈ (run ok (start buffers) evs).returned) :
    ∃ r ∈ (run ok (start buffers) evs).accepted, r.id = x.id ∧ x.out = if ok r.body then some r.body else none :=
  sharp_run evs (inv_start buffers) (fun _ h => absurd h List.not_mem_nil) he x (List.mem_append_right _ hx)

/-! ### Every request has its turn -/

/-- The requests of the same type ahead of this one. -/
def ahead (r : Req) : List Req → Nat
  | [] => 0
  | q :: l => if q = r then 0 else (if q.ty = r.ty then 1 else 0) + ahead r l

/-- A bound for the number of turns until this request is taken; 525 is the number of types. -/
def rank (r : Req) (s : State) : Nat := s.order.idxOf r.ty + 525 * ahead r s.wait

/-- The event is a turn: a device takes requests. -/
def turn (s : State) : Event → Bool
  | .pick d => s.initDone && s.doRun && (match s.devs[d]?, s.order with
    | some ⟨_, .idle⟩, _ :: _ => true
    | _, _ => false)
  | _ => false

/-- The number of turns in a history. -/
def turns (ok : Body → Bool) : State → List Event → Nat
  | _, [] => 0
  | s, ev :: evs => (if turn s ev then 1 else 0) + turns ok (step ok s ev) evs

theorem ahead_append (r : Req) (l m : List Req) (h : r ∈ l) : ahead r (l ++ m) = ahead r l := by
  induction l with
  | nil => exact absurd h List.not_mem_nil
  | cons q l ih =>
    simp only [List.cons_append, ahead]
    by_cases e : q = r
    · rw [if_pos e, if_pos e]
    · rw [if_neg e, if_neg e]
      rcases List.mem_cons.1 h with x | x
      · exact absurd x.symm e
      · rw [ih x]

/-- Requests of another type do not count. -/
theorem ahead_other (t : Ty) (b : Nat) (r : Req) (ht : r.ty ≠ t) (l : List Req) : ∀ sum,
    ahead r (takeFit t b sum l).2 = ahead r l := by
  induction l with
  | nil => intro sum; rfl
  | cons q l ih =>
    intro sum
    unfold takeFit
    by_cases h : q.ty = t ∧ (sum = 0 ∨ sum + reqSize t ≤ b)
    · rw [if_pos h]
      have hq : q ≠ r := fun e => ht (e ▸ h.1)
      have hq' : ¬ q.ty = r.ty := fun e => ht (e.symm.trans h.1)
      simp only [ahead]
      rw [if_neg hq, if_neg hq', Nat.zero_add]
      exact ih _
    · rw [if_neg h]
      simp only [ahead]
      rw [ih sum]

theorem ahead_le (t : Ty) (b : Nat) (r : Req) (l : List Req) : ∀ sum, r ∈ (takeFit t b sum l).2 →
    ahead r (takeFit t b sum l).2 ≤ ahead r l ∨ r ∈ (takeFit t b sum l).1 := by
  induction l with
  | nil => intro sum h; exact absurd h List.not_mem_nil
  | cons q l ih =>
    intro sum
    unfold takeFit
    by_cases h : q.ty = t ∧ (sum = 0 ∨ sum + reqSize t ≤ b)
    · rw [if_pos h]
      intro hr
      by_cases e : q = r
      · exact .inr (by rw [← e]; exact List.mem_cons_self)
      · rcases ih _ hr with x | x
        · left; simp only [ahead]; rw [if_neg e]; omega
        · exact .inr (List.mem_cons_of_mem _ x)
    · rw [if_neg h]
      intro hr
      by_cases e : q = r
      · left; simp only [ahead]; rw [if_pos e]; omega
      · rcases List.mem_cons.1 hr with x | x
        · exact absurd x.symm e
        · rcases ih _ x with y | y
          · left; simp only [ahead]; rw [if_neg e, if_neg e]; omega
          · exact .inr y

/-- One of the same type that was ahead is taken, as the first always fits. -/
theorem ahead_lt (b : Nat) (r : Req) (l : List Req) (hr : r ∈ (takeFit r.ty b 0 l).2)
    (hn : r ∉ (takeFit r.ty b 0 l).1) : ahead r (takeFit r.ty b 0 l).2 < ahead r l := by
  induction l with
  | nil => exact absurd hr List.not_mem_nil
  | cons q l ih =>
    unfold takeFit at hr hn ⊢
    by_cases h : q.ty = r.ty
    · rw [if_pos ⟨h, .inl rfl⟩] at hr hn ⊢
      have e : q ≠ r := fun x => hn (by rw [← x]; exact List.mem_cons_self)
      rcases ahead_le _ _ _ _ _ hr with x | x
      · simp only [ahead]; rw [if_neg e, if_pos h]; omega
      · exact absurd (List.mem_cons_of_mem _ x) hn
    · have h' : ¬ (q.ty = r.ty ∧ (0 = 0 ∨ 0 + reqSize r.ty ≤ b)) := fun x => h x.1
      rw [if_neg h'] at hr hn ⊢
      have e : q ≠ r := fun x => h (by rw [x])
      rcases List.mem_cons.1 hr with x | x
      · exact absurd x.symm e
      · have := ih x hn
        simp only [ahead]
        rw [if_neg e, if_neg h, if_neg e]
        omega

/-- All types there are. -/
def allTypes : List Ty :=
  (List.range 25).flatMap fun k => (List.range 21).map fun x => ((8 + k : Nat), (x : Nat))

theorem mem_allTypes {b : Body} (h : b.valid) : (b.ksize, b.xbits) ∈ allTypes := by
  obtain ⟨h1, h2, _⟩ := h
  refine List.mem_flatMap.2 ⟨(b.ksize - 8).toNat, List.mem_range.2 (by omega), List.mem_map.2 ⟨b.xbits.toNat,
    List.mem_range.2 (by omega), ?_⟩⟩
  refine Prod.ext ?_ ?_
  · show (((8 + (b.ksize - 8).toNat : Nat)) : Int) = b.ksize; omega
  · show ((b.xbits.toNat : Nat) : Int) = b.xbits; omega

theorem order_length {s : State} (g : Inv s) : s.order.length ≤ 525 := by
  have h : ∀ t ∈ s.order, t ∈ allTypes := by
    intro t ht
    obtain ⟨r, hr, e⟩ := (g.queued t).1 ht
    rw [← e]
    exact mem_allTypes (g.valid r (g.req r (List.mem_append_left _ hr)))
  have := g.order.length_le_of_subset h
  have e : allTypes.length = 525 := by decide +kernel
  omega

theorem rank_step {ok : Body → Bool} {s : State} (g : Inv s) (r : Req) (hr : r ∈ s.wait) (ev : Event)
    (hr' : r ∈ (step ok s ev).wait) : rank r (step ok s ev) + (if turn s ev then 1 else 0) ≤ rank r s := by
  have hto : r.ty ∈ s.order := (g.queued r.ty).2 ⟨r, hr, rfl⟩
  cases ev with
  | submit b =>
    simp only [turn, step]
    by_cases hi : s.initDone = true
    · rw [if_pos hi]
      unfold submit
      by_cases hv : b.valid ∧ s.doRun = true ∧ 0 < s.haveCuda
      · rw [if_pos hv]
        simp only [rank]
        rw [ahead_append _ _ _ hr]
        by_cases ht : Req.ty { id := s.nextId, body := b } ∈ s.order
        · rw [if_pos ht]; simp
        · rw [if_neg ht, List.idxOf_append, if_pos hto]; simp
      · rw [if_neg hv]; simp
    · rw [if_neg hi]; simp
  | pick d =>
    by_cases ht : turn s (.pick d) = true
    · rw [if_pos ht]
      simp only [turn, Bool.and_eq_true] at ht
      obtain ⟨⟨hi, hd⟩, hm⟩ := ht
      simp only [step] at hr' ⊢
      rw [if_pos ⟨hi, hd⟩] at hr' ⊢
      cases hdev : s.devs[d]? with
      | none => rw [hdev] at hm; exact nomatch hm
      | some dev =>
        obtain ⟨b, st⟩ := dev
        rw [hdev] at hm hr'
        cases st with
        | idle =>
          cases ho : s.order with
          | nil => rw [ho] at hm; exact nomatch hm
          | cons t rest =>
            rw [ho] at hr'
            simp only [pickStep] at hr'
            simp only [rank, pickStep]
            rw [ho] at hto
            have hnd : t ∉ rest := by have := g.order; rw [ho] at this; exact (List.nodup_cons.1 this).1
            have hlen := order_length g
            rw [ho, List.length_cons] at hlen
            rw [ho]
            by_cases e : r.ty = t
            · subst e
              have hn : r ∉ (takeFit r.ty b 0 s.wait).1 := by
                intro hx
                have h1 := takeFit_count r.ty b r.id s.wait 0
                have h2 := count_le g r.id
                rw [places_eq] at h2
                have h3 : 1 ≤ (List.map (·.id) (takeFit r.ty b 0 s.wait).1).count r.id := by
                  rw [Nat.succ_le_iff, List.count_pos_iff]; exact List.mem_map.2 ⟨r, hx, rfl⟩
                have h4 : 1 ≤ (List.map (·.id) (takeFit r.ty b 0 s.wait).2).count r.id := by
                  rw [Nat.succ_le_iff, List.count_pos_iff]; exact List.mem_map.2 ⟨r, hr', rfl⟩
                omega
              have hlt := ahead_lt b r s.wait hr' hn
              rw [if_pos ⟨r, hr', rfl⟩, List.idxOf_append, if_neg hnd, List.idxOf_cons_self, List.idxOf_cons_self]
              omega
            · have hto' : r.ty ∈ rest := by
                rcases List.mem_cons.1 hto with x | x
                · exact absurd x e
                · exact x
              have hne : (t == r.ty) = false := by
                rw [beq_eq_false_iff_ne]; exact fun x => e x.symm
              rw [ahead_other t b r e, List.idxOf_cons, hne]
              simp only [cond_false]
              by_cases hc : ∃ r ∈ (takeFit t b 0 s.wait).2, r.ty = t
              · rw [if_pos hc, List.idxOf_append, if_pos hto']; omega
              · rw [if_neg hc]; omega
        | _ => exact nomatch hm
    · rw [if_neg ht]
      simp only [turn, Bool.and_eq_true] at ht
      simp only [step]
      by_cases hi : s.initDone = true ∧ s.doRun = true
      · rw [if_pos hi]
        cases hdev : s.devs[d]? with
        | none => exact Nat.le_refl _
        | some dev =>
          obtain ⟨b, st⟩ := dev
          rw [hdev] at ht
          cases st with
          | idle =>
            cases ho : s.order with
            | nil => exact Nat.le_refl _
            | cons t rest => rw [ho] at ht; exact absurd ⟨hi, rfl⟩ ht
          | _ => exact Nat.le_refl _
      · rw [if_neg hi]; exact Nat.le_refl _
  | initEnd =>
    simp only [turn, step]
    by_cases hi : s.initDone = true
    · rw [if_pos hi]; exact Nat.le_refl _
    · rw [if_neg hi]; exact Nat.le_refl _
  | poll t jobs => simp only [turn, step]; cases s.polls t <;> exact Nat.le_refl _
  | check t =>
    simp only [turn, step]
    by_cases hi : s.initDone = true
    · rw [if_pos hi]
      cases s.polls t with
      | ready jobs =>
        simp only [checkStep]
        cases findJob s.results jobs with
        | none =>
          by_cases hd : s.doRun = true
          · simp only [hd, if_true]; exact Nat.le_refl _
          · simp only [hd]; exact Nat.le_refl _
        | some x => exact Nat.le_refl _
      | _ => exact Nat.le_refl _
    · rw [if_neg hi]; exact Nat.le_refl _
  | spurious t => simp only [turn, step]; cases s.polls t <;> exact Nat.le_refl _
  | signal =>
    simp only [turn, step]
    by_cases hi : 0 < s.owed
    · rw [if_pos hi]; exact Nat.le_refl _
    · rw [if_neg hi]; exact Nat.le_refl _
  | shutdown =>
    simp only [turn, step]
    by_cases hi : s.initDone = true
    · rw [if_pos hi]; exact Nat.le_refl _
    · rw [if_neg hi]; exact Nat.le_refl _
  | booted d =>
    simp only [turn, step]
    cases s.devs[d]? with
    | none => exact Nat.le_refl _
    | some dev => obtain ⟨b, st⟩ := dev; cases st <;> exact Nat.le_refl _
  | allocFail d =>
    simp only [turn, step]
    cases s.devs[d]? with
    | none => exact Nat.le_refl _
    | some dev => obtain ⟨b, st⟩ := dev; cases st <;> exact Nat.le_refl _
  | stop d =>
    simp only [turn, step]
    by_cases hi : s.doRun = true
    · rw [if_pos hi]; exact Nat.le_refl _
    · rw [if_neg hi]
      cases s.devs[d]? with
      | none => exact Nat.le_refl _
      | some dev => obtain ⟨b, st⟩ := dev; cases st <;> exact Nat.le_refl _
  | done d =>
    simp only [turn, step]
    cases s.devs[d]? with
    | none => exact Nat.le_refl _
    | some dev => obtain ⟨b, st⟩ := dev; cases st <;> exact Nat.le_refl _
  | error d =>
    simp only [turn, step]
    cases s.devs[d]? with
    | none => exact Nat.le_refl _
    | some dev => obtain ⟨b, st⟩ := dev; cases st <;> exact Nat.le_refl _
  | decrement d =>
    simp only [turn, step]
    cases s.devs[d]? with
    | none => exact Nat.le_refl _
    | some dev => obtain ⟨b, st⟩ := dev; cases st <;> exact Nat.le_refl _
  | finish i => simp only [turn, step]; cases s.cpu[i]? <;> exact Nat.le_refl _

/-- A request that has left the queue does not come back. -/
theorem wait_back {ok : Body → Bool} {s : State} (g : Inv s) (r : Req) (ha : r ∈ s.accepted) (ev : Event)
    (h : r ∈ (step ok s ev).wait) : r ∈ s.wait := by
  cases ev with
  | submit b =>
    simp only [step] at h
    by_cases hi : s.initDone = true
    · rw [if_pos hi] at h
      unfold submit at h
      by_cases hv : b.valid ∧ s.doRun = true ∧ 0 < s.haveCuda
      · rw [if_pos hv] at h
        rcases List.mem_append.1 h with x | x
        · exact x
        · have := g.fresh r ha
          rw [List.mem_singleton.1 x] at this
          exact absurd this (Nat.lt_irrefl _)
      · rw [if_neg hv] at h; exact h
    · rw [if_neg hi] at h; exact h
  | pick d =>
    simp only [step] at h
    by_cases hi : s.initDone = true ∧ s.doRun = true
    · rw [if_pos hi] at h
      cases hdev : s.devs[d]? with
      | none => rw [hdev] at h; exact h
      | some dev =>
        obtain ⟨b, st⟩ := dev
        rw [hdev] at h
        cases st with
        | idle =>
          cases ho : s.order with
          | nil => rw [ho] at h; exact h
          | cons t rest => rw [ho] at h; exact (takeFit_mem t b s.wait r 0).1 (.inr h)
        | _ => exact h
    · rw [if_neg hi] at h; exact h
  | initEnd =>
    simp only [step] at h
    by_cases hi : s.initDone = true
    · rw [if_pos hi] at h; exact h
    · rw [if_neg hi] at h; exact h
  | poll t jobs => simp only [step] at h; cases hp : s.polls t <;> rw [hp] at h <;> exact h
  | check t =>
    simp only [step] at h
    by_cases hi : s.initDone = true
    · rw [if_pos hi] at h
      cases hp : s.polls t with
      | ready jobs =>
        rw [hp] at h
        simp only [checkStep] at h
        cases hf : findJob s.results jobs with
        | none =>
          rw [hf] at h
          by_cases hd : s.doRun = true
          · simp only [hd, if_true] at h; exact h
          · simp only [hd] at h; exact h
        | some x => rw [hf] at h; exact h
      | _ => rw [hp] at h; exact h
    · rw [if_neg hi] at h; exact h
  | spurious t => simp only [step] at h; cases hp : s.polls t <;> rw [hp] at h <;> exact h
  | signal =>
    simp only [step] at h
    by_cases hi : 0 < s.owed
    · rw [if_pos hi] at h; exact h
    · rw [if_neg hi] at h; exact h
  | shutdown =>
    simp only [step] at h
    by_cases hi : s.initDone = true
    · rw [if_pos hi] at h; exact h
    · rw [if_neg hi] at h; exact h
  | stop d =>
    simp only [step] at h
    by_cases hi : s.doRun = true
    · rw [if_pos hi] at h; exact h
    · rw [if_neg hi] at h
      cases hd : s.devs[d]? with
      | none => rw [hd] at h; exact h
      | some dev => rw [hd] at h; obtain ⟨b, st⟩ := dev; cases st <;> exact h
  | booted d | allocFail d | done d | error d | decrement d =>
    simp only [step] at h
    cases hd : s.devs[d]? with
    | none => rw [hd] at h; exact h
    | some dev => rw [hd] at h; obtain ⟨b, st⟩ := dev; cases st <;> exact h
  | finish i => simp only [step] at h; cases hp : s.cpu[i]? <;> rw [hp] at h <;> exact h

theorem accepted_step {ok : Body → Bool} {s : State} (r : Req) (ha : r ∈ s.accepted) (ev : Event) :
    r ∈ (step ok s ev).accepted := by
  cases ev with
  | submit b =>
    simp only [step]
    by_cases hi : s.initDone = true
    · rw [if_pos hi]
      unfold submit
      by_cases hv : b.valid ∧ s.doRun = true ∧ 0 < s.haveCuda
      · rw [if_pos hv]; exact List.mem_cons_of_mem _ ha
      · rw [if_neg hv]; exact ha
    · rw [if_neg hi]; exact ha
  | pick d =>
    simp only [step]
    by_cases hi : s.initDone = true ∧ s.doRun = true
    · rw [if_pos hi]
      cases s.devs[d]? with
      | none => exact ha
      | some dev =>
        obtain ⟨b, st⟩ := dev
        cases st with
        | idle => cases s.order <;> exact ha
        | _ => exact ha
    · rw [if_neg hi]; exact ha
  | initEnd =>
    simp only [step]
    by_cases hi : s.initDone = true
    · rw [if_pos hi]; exact ha
    · rw [if_neg hi]; exact ha
  | poll t jobs => simp only [step]; cases s.polls t <;> exact ha
  | check t =>
    simp only [step]
    by_cases hi : s.initDone = true
    · rw [if_pos hi]
      cases s.polls t with
      | ready jobs =>
        simp only [checkStep]
        cases findJob s.results jobs with
        | none =>
          by_cases hd : s.doRun = true
          · simp only [hd, if_true]; exact ha
          · simp only [hd]; exact ha
        | some x => exact ha
      | _ => exact ha
    · rw [if_neg hi]; exact ha
  | spurious t => simp only [step]; cases s.polls t <;> exact ha
  | signal =>
    simp only [step]
    by_cases hi : 0 < s.owed
    · rw [if_pos hi]; exact ha
    · rw [if_neg hi]; exact ha
  | shutdown =>
    simp only [step]
    by_cases hi : s.initDone = true
    · rw [if_pos hi]; exact ha
    · rw [if_neg hi]; exact ha
  | stop d =>
    simp only [step]
    by_cases hi : s.doRun = true
    · rw [if_pos hi]; exact ha
    · rw [if_neg hi]
      cases s.devs[d]? with
      | none => exact ha
      | some dev => obtain ⟨b, st⟩ := dev; cases st <;> exact ha
  | booted d | allocFail d | done d | error d | decrement d =>
    simp only [step]
    cases s.devs[d]? with
    | none => exact ha
    | some dev => obtain ⟨b, st⟩ := dev; cases st <;> exact ha
  | finish i => simp only [step]; cases s.cpu[i]? <;> exact ha

theorem wait_back_run {ok : Body → Bool} (r : Req) (evs : List Event) : ∀ {s : State}, Inv s → r ∈ s.accepted →
    r ∈ (run ok s evs).wait → r ∈ s.wait := by
  induction evs with
  | nil => exact fun _ _ h => h
  | cons ev evs ih =>
    exact fun g ha h => wait_back g r ha ev (ih (inv_step g ev) (accepted_step r ha ev) h)

theorem rank_run {ok : Body → Bool} (r : Req) (evs : List Event) : ∀ {s : State}, Inv s → r ∈ s.wait →
    r ∈ (run ok s evs).wait → rank r (run ok s evs) + turns ok s evs ≤ rank r s := by
  induction evs with
  | nil => exact fun _ _ _ => Nat.le_refl _
  | cons ev evs ih =>
    intro s g hr h
    have ha : r ∈ s.accepted := g.req r (List.mem_append_left _ hr)
    have hr1 : r ∈ (step ok s ev).wait := wait_back_run r evs (inv_step g ev) (accepted_step r ha ev) h
    have h1 := rank_step g r hr ev hr1
    have h2 := ih (inv_step g ev) hr1 h
    show rank r (run ok (step ok s ev) evs) + _ ≤ _
    simp only [turns]
    omega

/-- A request waits for at most 525 turns of the devices, and 525 more for each request of its own kind
    that came before it, however many others come meanwhile. -/
theorem C167_turn (ok : Body → Bool) (s : State) (hs : Reach ok s) (r : Req) (hr : r ∈ s.wait) (evs : List Event)
    (ht : 525 * (ahead r s.wait + 1) ≤ turns ok s evs) : r ∉ (run ok s evs).wait := by
  intro h
  have h1 := rank_run r evs hs.inv hr h
  have h2 : s.order.idxOf r.ty < s.order.length := List.idxOf_lt_length_of_mem ((hs.inv.queued r.ty).2 ⟨r, hr, rfl⟩)
  have h3 := order_length hs.inv
  unfold rank at h1
  omega

/-! ### Nobody sleeps over a result -/

/-- If a thread waits although there is a result for it, a call of `notify_all` is still to come. -/
def Wake (s : State) : Prop :=
  ∀ t jobs, s.polls t = .waiting jobs → (∃ x ∈ s.results, x.id ∈ jobs) → 0 < s.owed

theorem wakeAll_not (p : Nat → PollSt) (t : Nat) (jobs : List Nat) : wakeAll p t ≠ .waiting jobs := by
  unfold wakeAll
  cases p t <;> exact fun h => nomatch h

theorem Wake.congr {s s' : State} (w : Wake s) (h1 : s'.polls = s.polls) (h2 : s'.results = s.results)
    (h3 : s'.owed = s.owed) : Wake s' := by
  unfold Wake
  rw [h1, h2, h3]
  exact w

theorem wake_set {s s' : State} (w : Wake s) (t : Nat) (p : PollSt) (hp : ∀ jobs, p = .waiting jobs → ¬ ∃ x ∈ s.results, x.id ∈ jobs)
    (h1 : s'.polls = fun u => if u = t then p else s.polls u) (h2 : ∀ x ∈ s'.results, x ∈ s.results)
    (h3 : s'.owed = s.owed) : Wake s' := by
  intro u jobs hu hx
  obtain ⟨x, hx, hj⟩ := hx
  rw [h1] at hu
  rw [h3]
  by_cases e : u = t
  · simp only [if_pos e] at hu
    exact absurd ⟨x, h2 x hx, hj⟩ (hp jobs hu)
  · simp only [if_neg e] at hu
    exact w u jobs hu ⟨x, h2 x hx, hj⟩

theorem find_job_none {m : List Result} {jobs : List Nat} (h : findJob m jobs = none) : ¬ ∃ x ∈ m, x.id ∈ jobs := by
  rintro ⟨x, hx, hj⟩
  have := List.findSome?_eq_none_iff.1 h x.id hj
  rw [List.find?_eq_none] at this
  exact this x hx (by simp)

theorem wake_step {ok : Body → Bool} {s : State} (w : Wake s) (ev : Event) : Wake (step ok s ev) := by
  cases ev with
  | submit b =>
    simp only [step]
    by_cases hi : s.initDone = true
    · rw [if_pos hi]
      unfold submit
      by_cases hv : b.valid ∧ s.doRun = true ∧ 0 < s.haveCuda
      · rw [if_pos hv]; exact w.congr rfl rfl rfl
      · rw [if_neg hv]; exact w
    · rw [if_neg hi]; exact w
  | pick d =>
    simp only [step]
    by_cases hi : s.initDone = true ∧ s.doRun = true
    · rw [if_pos hi]
      cases s.devs[d]? with
      | none => exact w
      | some dev =>
        obtain ⟨b, st⟩ := dev
        cases st with
        | idle =>
          cases s.order with
          | nil => exact w
          | cons t rest => exact w.congr rfl rfl rfl
        | _ => exact w
    · rw [if_neg hi]; exact w
  | initEnd =>
    simp only [step]
    by_cases hi : s.initDone = true
    · rw [if_pos hi]; exact w
    · rw [if_neg hi]; exact w.congr rfl rfl rfl
  | poll t jobs =>
    simp only [step]
    cases s.polls t with
    | out => exact wake_set w t (.ready jobs) (fun _ h => nomatch h) rfl (fun _ h => h) rfl
    | _ => exact w
  | check t =>
    simp only [step]
    by_cases hi : s.initDone = true
    · rw [if_pos hi]
      cases s.polls t with
      | ready jobs =>
        simp only [checkStep]
        cases hf : findJob s.results jobs with
        | none =>
          by_cases hd : s.doRun = true
          · simp only [hd, if_true]
            exact wake_set w t (.waiting jobs) (fun j h => by cases h; exact find_job_none hf) rfl (fun _ h => h) rfl
          · simp only [hd]
            exact wake_set w t .out (fun _ h => nomatch h) rfl (fun _ h => h) rfl
        | some x => exact wake_set w t .out (fun _ h => nomatch h) rfl (fun _ h => (List.mem_filter.1 h).1) rfl
      | _ => exact w
    · rw [if_neg hi]; exact w
  | spurious t =>
    simp only [step]
    cases s.polls t with
    | waiting jobs => exact wake_set w t (.ready jobs) (fun _ h => nomatch h) rfl (fun _ h => h) rfl
    | _ => exact w
  | signal =>
    simp only [step]
    by_cases hi : 0 < s.owed
    · rw [if_pos hi]; exact fun t jobs h => absurd h (wakeAll_not _ _ _)
    · rw [if_neg hi]; exact w
  | shutdown =>
    simp only [step]
    by_cases hi : s.initDone = true
    · rw [if_pos hi]; exact w.congr rfl rfl rfl
    · rw [if_neg hi]; exact w
  | stop d =>
    simp only [step]
    by_cases hi : s.doRun = true
    · rw [if_pos hi]; exact w
    · rw [if_neg hi]
      cases s.devs[d]? with
      | none => exact w
      | some dev =>
        obtain ⟨b, st⟩ := dev
        cases st with
        | idle => exact w.congr rfl rfl rfl
        | _ => exact w
  | booted d =>
    simp only [step]
    cases s.devs[d]? with
    | none => exact w
    | some dev =>
      obtain ⟨b, st⟩ := dev
      cases st with
      | booting => exact w.congr rfl rfl rfl
      | _ => exact w
  | allocFail d =>
    simp only [step]
    cases s.devs[d]? with
    | none => exact w
    | some dev =>
      obtain ⟨b, st⟩ := dev
      cases st with
      | booting => exact w.congr rfl rfl rfl
      | _ => exact w
  | done d =>
    simp only [step]
    cases s.devs[d]? with
    | none => exact w
    | some dev =>
      obtain ⟨b, st⟩ := dev
      cases st with
      | busy _ => exact w.congr rfl rfl rfl
      | _ => exact w
  | decrement d =>
    simp only [step]
    cases s.devs[d]? with
    | none => exact w
    | some dev =>
      obtain ⟨b, st⟩ := dev
      cases st with
      | ending => exact w.congr rfl rfl rfl
      | _ => exact w
  | error d =>
    simp only [step]
    cases s.devs[d]? with
    | none => exact w
    | some dev =>
      obtain ⟨b, st⟩ := dev
      cases st with
      | busy _ => exact fun t jobs h => absurd h (wakeAll_not _ _ _)
      | _ => exact w
  | finish i =>
    simp only [step]
    cases s.cpu[i]? with
    | none => exact w
    | some r => exact fun _ _ _ _ => Nat.succ_pos _

theorem wake_run {ok : Body → Bool} (evs : List Event) : ∀ {s : State}, Wake s → Wake (run ok s evs) := by
  induction evs with
  | nil => exact fun w => w
  | cons ev evs ih => exact fun w => ih (wake_step w ev)

theorem find_job_some {m : List Result} {jobs : List Nat} (h : ∃ x ∈ m, x.id ∈ jobs) : ∃ y, findJob m jobs = some y := by
  cases hf : findJob m jobs with
  | none => exact absurd h (find_job_none hf)
  | some y => exact ⟨y, rfl⟩

/-- A thread that waits although there is a result for it is woken by a signal that is still to come, and
    then returns with a result. -/
theorem C167_wake (ok : Body → Bool) (s : State) (hs : Reach ok s) (t : Nat) (jobs : List Nat)
    (hp : s.polls t = .waiting jobs) (hx : ∃ x ∈ s.results, x.id ∈ jobs) (hi : s.initDone = true) :
    0 < s.owed ∧ ∃ y, y.id ∈ jobs ∧ (run ok s [.signal, .check t]).returned = y :: s.returned ∧
      (run ok s [.signal, .check t]).polls t = .out := by
  have ho : 0 < s.owed := by
    obtain ⟨b, evs, rfl⟩ := hs
    exact wake_run evs (fun _ _ h => nomatch h) t jobs hp hx
  obtain ⟨y, hy⟩ := find_job_some hx
  refine ⟨ho, y, (find_job_mem hy).2, ?_⟩
  have hw : wakeAll s.polls t = .ready jobs := by unfold wakeAll; rw [hp]
  simp only [run, List.foldl, step]
  simp only [ho, if_true, hi, hw, checkStep, hy]
  exact ⟨trivial, trivial⟩

/-! ### Requests that are never answered -/

/-- No device works any more. -/
def NoDevice (s : State) : Prop := ∀ dev ∈ s.devs, dev.st = .ending ∨ dev.st = .dead

theorem nodev_get {s : State} (h : NoDevice s) {d : Nat} {b : Nat} {st : DevSt} (hd : s.devs[d]? = some ⟨b, st⟩) :
    st = .ending ∨ st = .dead := h _ (List.mem_of_getElem? hd)

theorem dead_step {ok : Body → Bool} {s : State} (h : NoDevice s) (r : Req) (hr : r ∈ s.wait) (ev : Event) :
    NoDevice (step ok s ev) ∧ r ∈ (step ok s ev).wait := by
  cases ev with
  | submit b =>
    simp only [step]
    by_cases hi : s.initDone = true
    · rw [if_pos hi]
      unfold submit
      by_cases hv : b.valid ∧ s.doRun = true ∧ 0 < s.haveCuda
      · rw [if_pos hv]; exact ⟨h, List.mem_append_left _ hr⟩
      · rw [if_neg hv]; exact ⟨h, hr⟩
    · rw [if_neg hi]; exact ⟨h, hr⟩
  | pick d =>
    simp only [step]
    by_cases hi : s.initDone = true ∧ s.doRun = true
    · rw [if_pos hi]
      cases hd : s.devs[d]? with
      | none => exact ⟨h, hr⟩
      | some dev =>
        obtain ⟨b, st⟩ := dev
        rcases nodev_get h hd with e | e <;> subst e <;> exact ⟨h, hr⟩
    · rw [if_neg hi]; exact ⟨h, hr⟩
  | initEnd =>
    simp only [step]
    by_cases hi : s.initDone = true
    · rw [if_pos hi]; exact ⟨h, hr⟩
    · rw [if_neg hi]; exact ⟨h, hr⟩
  | poll t jobs => simp only [step]; cases s.polls t <;> exact ⟨h, hr⟩
  | check t =>
    simp only [step]
    by_cases hi : s.initDone = true
    · rw [if_pos hi]
      cases s.polls t with
      | ready jobs =>
        simp only [checkStep]
        cases findJob s.results jobs with
        | none =>
          by_cases hd : s.doRun = true
          · simp only [hd, if_true]; exact ⟨h, hr⟩
          · simp only [hd]; exact ⟨h, hr⟩
        | some x => exact ⟨h, hr⟩
      | _ => exact ⟨h, hr⟩
    · rw [if_neg hi]; exact ⟨h, hr⟩
  | spurious t => simp only [step]; cases s.polls t <;> exact ⟨h, hr⟩
  | signal =>
    simp only [step]
    by_cases hi : 0 < s.owed
    · rw [if_pos hi]; exact ⟨h, hr⟩
    · rw [if_neg hi]; exact ⟨h, hr⟩
  | shutdown =>
    simp only [step]
    by_cases hi : s.initDone = true
    · rw [if_pos hi]; exact ⟨h, hr⟩
    · rw [if_neg hi]; exact ⟨h, hr⟩
  | stop d =>
    simp only [step]
    by_cases hi : s.doRun = true
    · rw [if_pos hi]; exact ⟨h, hr⟩
    · rw [if_neg hi]
      cases hd : s.devs[d]? with
      | none => exact ⟨h, hr⟩
      | some dev =>
        obtain ⟨b, st⟩ := dev
        rcases nodev_get h hd with e | e <;> subst e <;> exact ⟨h, hr⟩
  | booted d | allocFail d | done d | error d =>
    simp only [step]
    cases hd : s.devs[d]? with
    | none => exact ⟨h, hr⟩
    | some dev =>
      obtain ⟨b, st⟩ := dev
      rcases nodev_get h hd with e | e <;> subst e <;> exact ⟨h, hr⟩
  | decrement d =>
    simp only [step]
    cases hd : s.devs[d]? with
    | none => exact ⟨h, hr⟩
    | some dev =>
      obtain ⟨b, st⟩ := dev
      rcases nodev_get h hd with e | e <;> subst e
      · refine ⟨fun dev hm => ?_, hr⟩
        rcases List.mem_or_eq_of_mem_set hm with x | x
        · exact h dev x
        · rw [x]; exact .inr rfl
      · exact ⟨h, hr⟩
  | finish i => simp only [step]; cases s.cpu[i]? <;> exact ⟨h, hr⟩

theorem dead_run {ok : Body → Bool} (r : Req) (evs : List Event) : ∀ {s : State}, NoDevice s → r ∈ s.wait →
    r ∈ (run ok s evs).wait := by
  induction evs with
  | nil => exact fun _ h => h
  | cons ev evs ih => exact fun h hr => ih (dead_step h r hr ev).1 (dead_step h r hr ev).2

/-- If no device works any more, a request that waits is never answered, whatever happens. -/
theorem C167_dead (ok : Body → Bool) (s : State) (hs : Reach ok s) (h : NoDevice s) (r : Req) (hr : r ∈ s.wait)
    (evs : List Event) (x : Result) (hx : x ∈ settled (run ok s evs)) : x.id ≠ r.id := by
  intro e
  have hw := dead_run r (ok := ok) evs h hr
  have g := inv_run (ok := ok) evs hs.inv
  have h1 := count_le g r.id
  have h2 : 1 ≤ ((under (run ok s evs)).map (·.id)).count r.id := by
    rw [Nat.succ_le_iff, List.count_pos_iff]
    exact List.mem_map.2 ⟨r, List.mem_append_left _ hw, rfl⟩
  have h3 : 1 ≤ ((settled (run ok s evs)).map (·.id)).count r.id := by
    rw [← e]; exact count_one_of_mem hx
  unfold places at h1
  omega

/-- A thread in `wait` stays there if nobody is left to call `notify_all`. -/
structure Asleep (s : State) (t : Nat) (jobs : List Nat) : Prop where
  poll : s.polls t = .waiting jobs
  off : s.doRun = false
  owed : s.owed = 0
  cpu : s.cpu = []
  devs : ∀ dev ∈ s.devs, dev.reqs = [] ∧ ∀ l, dev.st ≠ .busy l

def Event.isSpurious : Event → Bool
  | .spurious _ => true
  | _ => false

theorem asleep_set {s : State} {t : Nat} {jobs : List Nat} (a : Asleep s t jobs) {d : Nat} {y : Dev}
    (hy : y.reqs = [] ∧ ∀ l, y.st ≠ .busy l) : ∀ dev ∈ s.devs.set d y, dev.reqs = [] ∧ ∀ l, dev.st ≠ .busy l := by
  intro dev hm
  rcases List.mem_or_eq_of_mem_set hm with x | x
  · exact a.devs dev x
  · rw [x]; exact hy

theorem asleep_step {ok : Body → Bool} {s : State} {t : Nat} {jobs : List Nat} (a : Asleep s t jobs) (ev : Event)
    (he : ev.isSpurious = false) : Asleep (step ok s ev) t jobs := by
  have hne : ∀ u, s.polls u ≠ .waiting jobs → t ≠ u := fun u h e => h (e ▸ a.poll)
  cases ev with
  | spurious t => exact nomatch he
  | submit b =>
    simp only [step]
    by_cases hi : s.initDone = true
    · rw [if_pos hi]
      unfold submit
      have hv : ¬ (b.valid ∧ s.doRun = true ∧ 0 < s.haveCuda) := fun x => by have := x.2.1; rw [a.off] at this; exact nomatch this
      rw [if_neg hv]; exact a
    · rw [if_neg hi]; exact a
  | pick d =>
    simp only [step]
    have hi : ¬ (s.initDone = true ∧ s.doRun = true) := fun x => by have := x.2; rw [a.off] at this; exact nomatch this
    rw [if_neg hi]; exact a
  | initEnd =>
    simp only [step]
    by_cases hi : s.initDone = true
    · rw [if_pos hi]; exact a
    · rw [if_neg hi]; exact ⟨a.poll, a.off, a.owed, a.cpu, a.devs⟩
  | poll u jobs' =>
    simp only [step]
    cases hp : s.polls u with
    | out =>
      have := hne u (by rw [hp]; exact fun h => nomatch h)
      exact ⟨(if_neg this).trans a.poll, a.off, a.owed, a.cpu, a.devs⟩
    | _ => exact a
  | check u =>
    simp only [step]
    by_cases hi : s.initDone = true
    · rw [if_pos hi]
      cases hp : s.polls u with
      | ready j =>
        have := hne u (by rw [hp]; exact fun h => nomatch h)
        simp only [checkStep]
        cases findJob s.results j with
        | none =>
          simp only [a.off]
          exact ⟨(if_neg this).trans a.poll, rfl, a.owed, a.cpu, a.devs⟩
        | some x => exact ⟨(if_neg this).trans a.poll, a.off, a.owed, a.cpu, a.devs⟩
      | _ => exact a
    · rw [if_neg hi]; exact a
  | signal =>
    simp only [step]
    rw [a.owed]
    exact a
  | shutdown =>
    simp only [step]
    by_cases hi : s.initDone = true
    · rw [if_pos hi]; exact ⟨a.poll, rfl, a.owed, a.cpu, a.devs⟩
    · rw [if_neg hi]; exact a
  | stop d =>
    simp only [step]
    rw [if_neg (by rw [a.off]; exact Bool.false_ne_true)]
    cases hd : s.devs[d]? with
    | none => exact a
    | some dev =>
      obtain ⟨b, st⟩ := dev
      cases st with
      | idle => exact ⟨a.poll, a.off, a.owed, a.cpu, asleep_set a ⟨rfl, fun _ h => nomatch h⟩⟩
      | _ => exact a
  | booted d | allocFail d =>
    simp only [step]
    cases hd : s.devs[d]? with
    | none => exact a
    | some dev =>
      obtain ⟨b, st⟩ := dev
      cases st with
      | booting => exact ⟨a.poll, a.off, a.owed, a.cpu, asleep_set a ⟨rfl, fun _ h => nomatch h⟩⟩
      | _ => exact a
  | decrement d =>
    simp only [step]
    cases hd : s.devs[d]? with
    | none => exact a
    | some dev =>
      obtain ⟨b, st⟩ := dev
      cases st with
      | ending => exact ⟨a.poll, a.off, a.owed, a.cpu, asleep_set a ⟨rfl, fun _ h => nomatch h⟩⟩
      | _ => exact a
  | done d | error d =>
    simp only [step]
    cases hd : s.devs[d]? with
    | none => exact a
    | some dev =>
      obtain ⟨b, st⟩ := dev
      cases st with
      | busy l => exact absurd rfl ((a.devs _ (List.mem_of_getElem? hd)).2 l)
      | _ => exact a
  | finish i =>
    simp only [step]
    rw [a.cpu]
    exact a

/-- After a shutdown, a thread that waits for a request that was still in the queue waits for ever: only the
    other signal is given. -/
theorem C167_asleep (ok : Body → Bool) (t : Nat) (jobs : List Nat) (evs : List Event) : ∀ s : State, Asleep s t jobs →
    (∀ e ∈ evs, e.isSpurious = false) → (run ok s evs).polls t = .waiting jobs := by
  induction evs with
  | nil => exact fun s a _ => a.poll
  | cons ev evs ih =>
    exact fun s a he => ih (step ok s ev) (asleep_step a ev (he ev List.mem_cons_self))
      (fun e hm => he e (List.mem_cons_of_mem _ hm))

/-! ### Cases -/

def body1 : Body := { ksize := 29, xbits := 3, plot := 7, xs := List.replicate 256 5 }

def body2 : Body := { ksize := 30, xbits := 3, plot := 8, xs := List.replicate 256 6 }

def allOk : Body → Bool := fun _ => true

/-- Two requests, two threads: each gets its own result, the second one is waiting when it comes. -/
def goodRun : List Event :=
  [.booted 0, .initEnd, .submit body1, .submit body2, .poll 0 [1], .poll 1 [2], .check 1, .check 0, .pick 0, .done 0,
    .pick 0, .finish 0, .signal, .check 0, .check 1, .done 0, .finish 0, .signal, .check 1]

example : (run allOk (start [4096]) goodRun).returned = [⟨2, some body2⟩, ⟨1, some body1⟩] := by decide +kernel

/-- The second request is behind the first: two turns. -/
example : turns allOk (run allOk (start [4096]) (goodRun.take 4)) (goodRun.drop 4) = 2 ∧
    rank ⟨2, body2⟩ (run allOk (start [4096]) (goodRun.take 4)) = 1 := by decide +kernel

/-- A thread that waits although there is a result for it. -/
example : (run allOk (start [4096]) (goodRun.take 12)).polls 0 = .waiting [1] ∧
    (run allOk (start [4096]) (goodRun.take 12)).results.map (·.id) = [1] := by decide +kernel

/-- The only device fails while another request waits. -/
def failRun : List Event :=
  [.booted 0, .initEnd, .submit body1, .pick 0, .submit body2, .error 0, .decrement 0]

instance (s : State) : Decidable (NoDevice s) :=
  inferInstanceAs (Decidable (∀ dev ∈ s.devs, dev.st = .ending ∨ dev.st = .dead))

/-- So a request that was accepted is never answered: a device fails and the requests still in the queue are
    not. -/
theorem C167_left_behind : ∃ s r, Reach allOk s ∧ r ∈ s.wait ∧
    ∀ (evs : List Event) (x : Result), x ∈ settled (run allOk s evs) → x.id ≠ r.id := by
  have hr : Reach allOk (run allOk (start [4096]) failRun) := ⟨_, _, rfl⟩
  have hw : (⟨2, body2⟩ : Req) ∈ (run allOk (start [4096]) failRun).wait := by decide +kernel
  exact ⟨_, ⟨2, body2⟩, hr, hw, fun evs x hx => C167_dead allOk _ hr (by decide +kernel) _ hw evs x hx⟩

/-- The only device fails to get memory before the number of devices is set. -/
def raceRun : List Event := [.allocFail 0, .decrement 0, .initEnd]

/-- The count of devices is then 1 for ever although there is none, and requests are accepted that are never
    answered. -/
theorem C167_lost_count : Reach allOk (run allOk (start [4096]) raceRun) ∧ NoDevice (run allOk (start [4096]) raceRun) ∧
    (run allOk (start [4096]) raceRun).haveCuda = 1 ∧
    (⟨1, body1⟩ : Req) ∈ (step allOk (run allOk (start [4096]) raceRun) (.submit body1)).wait ∧
    ∀ (evs : List Event) (x : Result),
      x ∈ settled (run allOk (step allOk (run allOk (start [4096]) raceRun) (.submit body1)) evs) → x.id ≠ 1 := by
  have hw : (⟨1, body1⟩ : Req) ∈ (step allOk (run allOk (start [4096]) raceRun) (.submit body1)).wait := by decide +kernel
  refine ⟨⟨_, _, rfl⟩, by decide +kernel, by decide +kernel, hw, fun evs x hx => ?_⟩
  refine C167_dead allOk (step allOk (run allOk (start [4096]) raceRun) (.submit body1))
    ⟨[4096], raceRun ++ [.submit body1], ?_⟩ (by decide +kernel) ⟨1, body1⟩ hw evs x hx
  simp only [run, List.foldl_append, List.foldl]

/-- Without the race the count is right: 0. -/
example : (run allOk (start [4096]) [.allocFail 0, .initEnd, .decrement 0]).haveCuda = 0 := by decide +kernel

/-- A shutdown while a thread waits for a request that is still in the queue. -/
def stopRun : List Event := [.booted 0, .initEnd, .submit body1, .poll 0 [1], .check 0, .shutdown, .stop 0, .decrement 0]

/-- The thread never returns. -/
theorem C167_shutdown (evs : List Event) (he : ∀ e ∈ evs, e.isSpurious = false) :
    (run allOk (run allOk (start [4096]) stopRun) evs).polls 0 = .waiting [1] := by
  refine C167_asleep allOk 0 [1] evs _ ⟨by decide +kernel, by decide +kernel, by decide +kernel, by decide +kernel, ?_⟩ he
  intro dev hm
  have : dev = ⟨4096, .dead⟩ := by
    have h : (run allOk (start [4096]) stopRun).devs = [⟨4096, .dead⟩] := by decide +kernel
    rw [h] at hm
    exact List.mem_singleton.1 hm
  rw [this]
  exact ⟨rfl, fun _ h => nomatch h⟩

end Verif.Gpu
