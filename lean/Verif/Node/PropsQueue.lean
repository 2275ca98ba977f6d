import Verif.Node.Queue
/-
  C189: a transaction handed to the node is pending until it was judged itself.
-/
namespace Verif.Node.Queue

/-! ### what each function does -/

theorem mem_pick : ∀ (l : List Tx) (seen : List Nat) {t : Tx}, t ∈ pick seen l → t ∈ l
  | [], _, _, h => h
  | x :: l, seen, t, h => by
    unfold pick at h
    by_cases k : x.id ∈ seen
    · rw [if_pos k] at h; exact List.mem_cons_of_mem _ (mem_pick l seen h)
    · rw [if_neg k] at h
      rcases List.mem_cons.1 h with h | h
      · rw [h]; exact List.mem_cons_self ..
      · exact List.mem_cons_of_mem _ (mem_pick l _ h)

/-- Each id is picked if there is a transaction with it. -/
theorem pick_all : ∀ (l : List Tx) (seen : List Nat) {t : Tx}, t ∈ l → t.id ∉ seen → ∃ u ∈ pick seen l, u.id = t.id
  | [], _, _, h, _ => absurd h List.not_mem_nil
  | x :: l, seen, t, h, hs => by
    unfold pick
    rcases List.mem_cons.1 h with h | h
    · rw [h] at hs; rw [if_neg hs, h]; exact ⟨x, List.mem_cons_self .., rfl⟩
    · by_cases k : x.id ∈ seen
      · rw [if_pos k]; exact pick_all l seen h hs
      · rw [if_neg k]
        by_cases e : t.id = x.id
        · exact ⟨x, List.mem_cons_self .., e.symm⟩
        · obtain ⟨u, hu, e⟩ := pick_all l (x.id :: seen) h (fun z => (List.mem_cons.1 z).elim e hs)
          exact ⟨u, List.mem_cons_of_mem _ hu, e⟩

/-- Not two of them have the same id. -/
theorem pick_once : ∀ (l : List Tx) (seen : List Nat), (pick seen l).Pairwise (fun a b => a.id ≠ b.id) ∧ ∀ t ∈ pick seen l, t.id ∉ seen
  | [], _ => ⟨.nil, fun _ h => absurd h List.not_mem_nil⟩
  | x :: l, seen => by
    unfold pick
    by_cases k : x.id ∈ seen
    · rw [if_pos k]; exact pick_once l seen
    · rw [if_neg k]
      obtain ⟨h1, h2⟩ := pick_once l (x.id :: seen)
      refine ⟨.cons (fun t ht e => h2 t ht (e ▸ List.mem_cons_self ..)) h1, fun t ht => ?_⟩
      rcases List.mem_cons.1 ht with ht | ht
      · rw [ht]; exact k
      · exact fun z => h2 t ht (List.mem_cons_of_mem _ z)

/-- What one round keeps. -/
theorem settle_queue (v : Tx → Verdict) (s : St) (u : Tx) :
    (settle v s u).queue = if v u = .skipped then s.queue else s.queue.filter (fun x => decide (x.content ≠ u.content)) := by
  unfold settle
  cases v u <;> rfl

theorem settle_pool (v : Tx → Verdict) (s : St) (u : Tx) :
    (settle v s u).pool = if v u = .taken then u.id :: s.pool else s.pool := by
  unfold settle
  cases v u <;> rfl

theorem mem_settled (v : Tx → Verdict) : ∀ (l : List Tx) (s : St) (t : Tx),
    (t ∈ (l.foldl (settle v) s).queue ↔ t ∈ s.queue ∧ ∀ u ∈ l, v u ≠ .skipped → u.content ≠ t.content)
  | [], s, t => ⟨fun h => ⟨h, fun _ z => absurd z List.not_mem_nil⟩, fun h => h.1⟩
  | u :: l, s, t => by
    rw [List.foldl_cons, mem_settled v l, settle_queue]
    by_cases k : v u = .skipped
    · rw [if_pos k]
      exact ⟨fun h => ⟨h.1, fun x hx hv => (List.mem_cons.1 hx).elim (fun e => absurd k (e ▸ hv)) (fun hx => h.2 x hx hv)⟩,
        fun h => ⟨h.1, fun x hx => h.2 x (List.mem_cons_of_mem _ hx)⟩⟩
    · rw [if_neg k, List.mem_filter, decide_eq_true_iff]
      exact ⟨fun h => ⟨h.1.1, fun x hx hv => (List.mem_cons.1 hx).elim (fun e z => h.1.2 (by rw [← z, e])) (fun hx => h.2 x hx hv)⟩,
        fun h => ⟨⟨h.1, fun z => h.2 u (List.mem_cons_self ..) k z.symm⟩, fun x hx => h.2 x (List.mem_cons_of_mem _ hx)⟩⟩

theorem mem_pooled (v : Tx → Verdict) : ∀ (l : List Tx) (s : St) (i : Nat),
    (i ∈ (l.foldl (settle v) s).pool ↔ i ∈ s.pool ∨ ∃ u ∈ l, v u = .taken ∧ u.id = i)
  | [], s, i => ⟨Or.inl, fun h => h.elim (fun h => h) (fun ⟨_, z, _⟩ => absurd z List.not_mem_nil)⟩
  | u :: l, s, i => by
    rw [List.foldl_cons, mem_pooled v l, settle_pool]
    by_cases k : v u = .taken
    · rw [if_pos k, List.mem_cons]
      constructor
      · rintro ((h | h) | ⟨x, hx, h⟩)
        · exact Or.inr ⟨u, List.mem_cons_self .., k, h.symm⟩
        · exact Or.inl h
        · exact Or.inr ⟨x, List.mem_cons_of_mem _ hx, h⟩
      · rintro (h | ⟨x, hx, h⟩)
        · exact Or.inl (Or.inr h)
        · rcases List.mem_cons.1 hx with e | hx
          · rw [e] at h; exact Or.inl (Or.inl h.2.symm)
          · exact Or.inr ⟨x, hx, h⟩
    · rw [if_neg k]
      constructor
      · rintro (h | ⟨x, hx, h⟩)
        · exact Or.inl h
        · exact Or.inr ⟨x, List.mem_cons_of_mem _ hx, h⟩
      · rintro (h | ⟨x, hx, h⟩)
        · exact Or.inl h
        · rcases List.mem_cons.1 hx with e | hx
          · rw [e] at h; exact absurd h.1 k
          · exact Or.inr ⟨x, hx, h⟩

/-- The same content is the same transaction: of these transactions. -/
def Honest (l : List Tx) : Prop := ∀ a ∈ l, ∀ b ∈ l, a.content = b.content → a = b

/-- C189, one validation of the queue: a transaction leaves the queue exactly if it was picked and judged itself, what is said of another with
    the same id does not count; the pool gets exactly those that were taken; and of each id one transaction is picked. -/
theorem C189_validate (s : St) (order : List Tx) (v : Tx → Verdict) (ho : order.Perm s.queue) (hh : Honest s.queue) (t : Tx) (ht : t ∈ s.queue) :
    (t ∈ (validateNew order v s).queue ↔ t ∉ pick [] order ∨ v t = .skipped) ∧
    (∀ i, i ∈ (validateNew order v s).pool ↔ i ∈ s.pool ∨ ∃ u ∈ pick [] order, v u = .taken ∧ u.id = i) ∧
    (pick [] order).Pairwise (fun a b => a.id ≠ b.id) ∧ ∃ u ∈ pick [] order, u.id = t.id := by
  refine ⟨?_, mem_pooled v _ s, (pick_once order []).1, pick_all order [] (ho.mem_iff.2 ht) List.not_mem_nil⟩
  unfold validateNew
  rw [mem_settled]
  constructor
  · intro ⟨_, h⟩
    by_cases k : t ∈ pick [] order
    · exact Or.inr (Classical.byContradiction (fun z => h t k z rfl))
    · exact Or.inl k
  · intro h
    refine ⟨ht, fun u hu hv e => ?_⟩
    have : u = t := hh u (ho.mem_iff.1 (mem_pick _ _ hu)) t ht e
    rw [this] at hu hv
    exact h.elim (fun z => z hu) hv

/-! ### over histories -/

theorem mem_enqueue {max : Nat} {s : St} {t x : Tx} (h : x ∈ (enqueue max s t).queue) : x ∈ s.queue ∨ x = t := by
  unfold enqueue at h
  by_cases k : s.queue.length < max
  · rw [if_pos k] at h
    rcases List.mem_append.1 h with h | h
    · exact Or.inl (List.mem_filter.1 h).1
    · exact Or.inr (List.mem_singleton.1 h)
  · rw [if_neg k] at h; exact Or.inl h

theorem add_queue (max : Nat) (synced api pre valid : Bool) (s : St) (t : Tx) :
    (add max synced api pre valid s t).1.queue = (enqueue max s t).queue ∨ (add max synced api pre valid s t).1.queue = s.queue := by
  have e : (passOn api (enqueue max s t) t).queue = (enqueue max s t).queue := by unfold passOn; cases api <;> rfl
  unfold add
  cases pre
  · exact Or.inl e
  · cases synced
    · exact Or.inr rfl
    · cases valid
      · exact Or.inr rfl
      · exact Or.inl e

theorem handle_queue (max : Nat) (synced : Bool) (s : St) (t : Tx) :
    (handle max synced s t).queue = (enqueue max s t).queue ∨ (handle max synced s t).queue = s.queue := by
  unfold handle
  cases synced
  · exact Or.inr rfl
  · exact add_queue ..

theorem settled_length (v : Tx → Verdict) : ∀ (l : List Tx) (s : St), (l.foldl (settle v) s).queue.length ≤ s.queue.length
  | [], _ => Nat.le_refl _
  | u :: l, s => by
    refine Nat.le_trans (settled_length v l _) ?_
    rw [settle_queue]
    by_cases k : v u = .skipped
    · rw [if_pos k]
      exact Nat.le_refl _
    · rw [if_neg k]
      exact List.length_filter_le ..

theorem enqueue_length {max : Nat} {s : St} (t : Tx) (h : s.queue.length ≤ max) : (enqueue max s t).queue.length ≤ max := by
  unfold enqueue
  by_cases k : s.queue.length < max
  · rw [if_pos k]
    dsimp only
    have := List.length_filter_le (fun x : Tx => decide (x.content ≠ t.content)) s.queue
    rw [List.length_append]
    change _ + 1 ≤ max
    omega
  · rw [if_neg k]; exact h

/-- C189. At all times the queue is no longer than it may be. -/
theorem C189_bounded (max : Nat) (l : List Ev) : (run max {} l).queue.length ≤ max := by
  have one : ∀ (s : St) (e : Ev), s.queue.length ≤ max → (step max s e).queue.length ≤ max := by
    intro s e h
    cases e with
    | add synced api pre valid t =>
      change (add max synced api pre valid s t).1.queue.length ≤ max
      rcases add_queue max synced api pre valid s t with k | k
      · rw [k]; exact enqueue_length t h
      · rw [k]; exact h
    | handle synced t =>
      change (handle max synced s t).queue.length ≤ max
      rcases handle_queue max synced s t with k | k
      · rw [k]; exact enqueue_length t h
      · rw [k]; exact h
    | validate order v => exact Nat.le_trans (settled_length v _ s) h
    | apply ids => exact Nat.le_trans (List.length_filter_le ..) h
    | drop id => exact h
    | revert back ids => exact h
  have all : ∀ (l : List Ev) (s : St), s.queue.length ≤ max → (run max s l).queue.length ≤ max := by
    intro l
    induction l with
    | nil => exact fun _ h => h
    | cons e l ih => exact fun s h => ih _ (one s e h)
  exact all l _ (Nat.zero_le _)

/-- An event after which this transaction may be gone from the queue: it was picked and judged itself, or a block has one with its id. -/
def Ends (t : Tx) : Ev → Prop
  | .validate order v => t ∈ pick [] order ∧ v t ≠ .skipped
  | .apply ids => t.id ∈ ids
  | _ => False

/-- The transactions that an event brings. -/
def brings : Ev → List Tx
  | .add _ _ _ _ t => [t]
  | .handle _ t => [t]
  | _ => []

/-- The events that can happen: validation walks the queue. -/
def possible (max : Nat) : St → List Ev → Prop
  | _, [] => True
  | s, .validate order v :: l => order.Perm s.queue ∧ possible max (step max s (.validate order v)) l
  | s, e :: l => possible max (step max s e) l

theorem step_keeps {max : Nat} {s : St} {e : Ev} {t : Tx} (ht : t ∈ s.queue) (he : ¬Ends t e)
    (hb : ∀ x ∈ brings e, x.content = t.content → x = t) (hq : ∀ x ∈ s.queue, x.content = t.content → x = t)
    (hp : ∀ order v, e = .validate order v → order.Perm s.queue) : t ∈ (step max s e).queue := by
  have enq : ∀ x, (x.content = t.content → x = t) → t ∈ (enqueue max s x).queue := by
    intro x hx
    unfold enqueue
    by_cases k : s.queue.length < max
    · rw [if_pos k]
      dsimp only
      by_cases c : t.content = x.content
      · rw [hx c.symm]; exact List.mem_append_right _ (List.mem_singleton.2 rfl)
      · exact List.mem_append_left _ (List.mem_filter.2 ⟨ht, decide_eq_true c⟩)
    · rw [if_neg k]; exact ht
  cases e with
  | add synced api pre valid x =>
    change t ∈ (add max synced api pre valid s x).1.queue
    rcases add_queue max synced api pre valid s x with k | k
    · rw [k]; exact enq x (hb x (List.mem_singleton.2 rfl))
    · rw [k]; exact ht
  | handle synced x =>
    change t ∈ (handle max synced s x).queue
    rcases handle_queue max synced s x with k | k
    · rw [k]; exact enq x (hb x (List.mem_singleton.2 rfl))
    · rw [k]; exact ht
  | validate order v =>
    change t ∈ (validateNew order v s).queue
    unfold validateNew
    rw [mem_settled]
    refine ⟨ht, fun u hu hv c => he ?_⟩
    have := hq u ((hp order v rfl).mem_iff.1 (mem_pick _ _ hu)) c
    rw [this] at hu hv
    exact ⟨hu, hv⟩
  | apply ids => exact List.mem_filter.2 ⟨ht, decide_eq_true he⟩
  | drop id => exact ht
  | revert back ids => exact ht

theorem step_queue {max : Nat} {s : St} {e : Ev} {x : Tx} (h : x ∈ (step max s e).queue) : x ∈ s.queue ∨ x ∈ brings e := by
  cases e with
  | add synced api pre valid t =>
    change x ∈ (add max synced api pre valid s t).1.queue at h
    rcases add_queue max synced api pre valid s t with k | k
    · rw [k] at h; exact (mem_enqueue h).imp_right (fun e => List.mem_singleton.2 e)
    · rw [k] at h; exact Or.inl h
  | handle synced t =>
    change x ∈ (handle max synced s t).queue at h
    rcases handle_queue max synced s t with k | k
    · rw [k] at h; exact (mem_enqueue h).imp_right (fun e => List.mem_singleton.2 e)
    · rw [k] at h; exact Or.inl h
  | validate order v => exact Or.inl ((mem_settled v _ s x).1 h).1
  | apply ids => exact Or.inl (List.mem_filter.1 h).1
  | drop id => exact Or.inl h
  | revert back ids => exact Or.inl h

/-- C189. A transaction in the queue is found there whatever else happens, whoever sends copies of it with other signatures or anything else, until it
    was judged itself or is in a block. -/
theorem C189_kept (max : Nat) (t : Tx) : ∀ (l : List Ev) (s : St), possible max s l → t ∈ s.queue → (∀ x ∈ s.queue, x.content = t.content → x = t) →
    (∀ e ∈ l, ¬Ends t e ∧ ∀ x ∈ brings e, x.content = t.content → x = t) →
    t ∈ (run max s l).queue ∧ found (run max s l) t.id = true
  | [], s, _, ht, _, _ => by
    refine ⟨ht, ?_⟩
    have : s.queue.any (fun x => decide (x.id = t.id)) = true := List.any_eq_true.2 ⟨t, ht, decide_eq_true rfl⟩
    unfold found
    change (_ || s.queue.any (fun x => decide (x.id = t.id)) || _) = true
    rw [this, Bool.or_true, Bool.true_or]
  | e :: l, s, hp, ht, hq, hl => by
    have he := hl e (List.mem_cons_self ..)
    have hp' : (∀ order v, e = .validate order v → order.Perm s.queue) ∧ possible max (step max s e) l := by
      cases e with
      | validate order v => exact ⟨fun o w k => by cases k; exact hp.1, hp.2⟩
      | add synced api pre valid x => exact ⟨(fun _ _ k => nomatch k), hp⟩
      | handle synced x => exact ⟨(fun _ _ k => nomatch k), hp⟩
      | apply ids => exact ⟨(fun _ _ k => nomatch k), hp⟩
      | drop id => exact ⟨(fun _ _ k => nomatch k), hp⟩
      | revert back ids => exact ⟨(fun _ _ k => nomatch k), hp⟩
    exact C189_kept max t l (step max s e) hp'.2 (step_keeps ht he.1 he.2 hq hp'.1)
      (fun x hx c => (step_queue hx).elim (fun h => hq x h c) (fun h => he.2 x h c)) (fun e h => hl e (List.mem_cons_of_mem _ h))

/-! ### the queue gets empty -/

theorem filter_shorter {l : List Tx} {u : Tx} (h : u ∈ l) : (l.filter (fun x => decide (x.content ≠ u.content))).length < l.length :=
  List.length_filter_lt_length_iff_exists.2 ⟨u, h, by simp⟩

theorem round_shorter (s : St) (order : List Tx) (v : Tx → Verdict) (ho : order.Perm s.queue) (hv : ∀ t ∈ s.queue, v t ≠ .skipped) :
    s.queue = [] ∨ (validateNew order v s).queue.length < s.queue.length := by
  cases hq : s.queue with
  | nil => exact Or.inl rfl
  | cons t q =>
    refine Or.inr ?_
    have ht : t ∈ order := ho.mem_iff.2 (by rw [hq]; exact List.mem_cons_self ..)
    unfold validateNew
    cases hp : pick [] order with
    | nil =>
      obtain ⟨u, hu, _⟩ := pick_all order [] ht List.not_mem_nil
      rw [hp] at hu
      exact absurd hu List.not_mem_nil
    | cons u l =>
      have hu : u ∈ s.queue := ho.mem_iff.1 (mem_pick order [] (by rw [hp]; exact List.mem_cons_self ..))
      rw [List.foldl_cons]
      refine Nat.lt_of_le_of_lt (settled_length v l _) ?_
      rw [settle_queue, if_neg (hv u hu), ← hq]
      exact filter_shorter hu

/-- Rounds of validation, in any order each, in which nothing is skipped. -/
inductive Rounds : Nat → St → St → Prop
  | none (s : St) : Rounds 0 s s
  | more {n : Nat} {s t : St} (order : List Tx) (v : Tx → Verdict) (ho : order.Perm s.queue) (hv : ∀ t ∈ s.queue, v t ≠ .skipped)
      (h : Rounds n (validateNew order v s) t) : Rounds (n + 1) s t

/-- C189. If nothing is skipped and nothing is added, each transaction is judged after as many rounds as there are transactions, also if all of them have
    the same id. -/
theorem C189_drains {n : Nat} {s t : St} (h : Rounds n s t) : t.queue.length ≤ s.queue.length - n := by
  induction h with
  | none s => exact Nat.le_refl _
  | more order v ho hv _ ih =>
    rename_i n s t _
    rcases round_shorter s order v ho hv with k | k
    · have := settled_length v (pick [] order) s
      change (validateNew order v s).queue.length ≤ _ at this
      rw [k] at this ⊢
      have : (validateNew order v s).queue.length = 0 := Nat.le_zero.1 this
      rw [this] at ih
      simpa using ih
    · omega

/-! ### handing over -/

/-- C189. If a transaction is to be validated first and is not valid, or the node is not in sync, nothing happens, and the caller is told. Otherwise it
    is passed on to peers, and is pending if there is room. -/
theorem C189_add (max : Nat) (synced api pre valid : Bool) (s : St) (t : Tx) :
    ((add max synced api pre valid s t).2 ≠ .ok ↔ pre = true ∧ (synced = false ∨ valid = false)) ∧
    ((add max synced api pre valid s t).2 ≠ .ok → (add max synced api pre valid s t).1 = s) ∧
    ((add max synced api pre valid s t).2 = .ok →
      (s.queue.length < max → t ∈ (add max synced api pre valid s t).1.queue) ∧
      (add max synced api pre valid s t).1.sent = s.sent ++ (if api then [t] else [])) := by
  have q : s.queue.length < max → t ∈ (passOn api (enqueue max s t) t).queue := by
    intro h
    have : t ∈ (enqueue max s t).queue := by
      unfold enqueue
      rw [if_pos h]
      exact List.mem_append_right _ (List.mem_singleton.2 rfl)
    unfold passOn
    cases api <;> exact this
  have p : (passOn api (enqueue max s t) t).sent = s.sent ++ (if api then [t] else []) := by
    have : (enqueue max s t).sent = s.sent := by
      unfold enqueue
      by_cases h : s.queue.length < max
      · rw [if_pos h]
      · rw [if_neg h]
    unfold passOn
    cases api
    · rw [if_neg (fun k => nomatch k), this, if_neg (fun k => nomatch k), List.append_nil]
    · rw [if_pos rfl, if_pos rfl, this]
  unfold add
  cases pre
  · exact ⟨⟨fun h => absurd rfl h, fun h => nomatch h.1⟩, fun h => absurd rfl h, fun _ => ⟨q, p⟩⟩
  · cases synced
    · exact ⟨⟨fun _ => ⟨rfl, Or.inl rfl⟩, fun _ k => nomatch k⟩, fun _ => rfl, fun k => nomatch k⟩
    · cases valid
      · exact ⟨⟨fun _ => ⟨rfl, Or.inr rfl⟩, fun _ k => nomatch k⟩, fun _ => rfl, fun k => nomatch k⟩
      · exact ⟨⟨fun h => absurd rfl h, fun h => h.2.elim (fun k => nomatch k) (fun k => nomatch k)⟩, fun h => absurd rfl h, fun _ => ⟨q, p⟩⟩

/-- C189, false: that a transaction is pending if the node took it without an error. If the queue is full it is not, the caller is not told, and the node
    does not know of it afterwards. -/
theorem C189_silent (max : Nat) (s : St) (hs : max ≤ s.queue.length) (t : Tx) (hf : found s t.id = false) (api : Bool) :
    (add max true api true true s t).2 = .ok ∧ found (add max true api true true s t).1 t.id = false := by
  have e : enqueue max s t = s := by
    unfold enqueue
    exact if_neg (by omega)
  refine ⟨rfl, ?_⟩
  change found (passOn api (enqueue max s t) t) t.id = false
  rw [e]
  unfold passOn
  cases api <;> exact hf

/-! ### examples -/

/-- Two copies of transaction 1, the first with a wrong signature, and one that is skipped; the second copy is taken in the next round. -/
def exVerdict (t : Tx) : Verdict := if t.content = 10 then .invalid else if t.content = 20 then .skipped else .taken

def exEvents : List Ev :=
  [.handle true ⟨1, 10⟩, .add true true true true ⟨1, 11⟩, .add true true true false ⟨3, 30⟩, .handle false ⟨4, 40⟩, .handle true ⟨2, 20⟩,
   .validate [⟨1, 10⟩, ⟨2, 20⟩, ⟨1, 11⟩] exVerdict]

example : (run 3 {} exEvents).queue = [⟨1, 11⟩, ⟨2, 20⟩] ∧ (run 3 {} exEvents).sent = [⟨1, 11⟩] := by decide +kernel

example : possible 3 {} exEvents :=
  ⟨show List.Perm (α := Tx) [⟨1, 10⟩, ⟨2, 20⟩, ⟨1, 11⟩] [⟨1, 10⟩, ⟨1, 11⟩, ⟨2, 20⟩] from .cons _ (.swap ..), trivial⟩

example : ¬Ends ⟨1, 11⟩ (.validate [⟨1, 10⟩, ⟨2, 20⟩, ⟨1, 11⟩] exVerdict) := by
  unfold Ends
  decide

example : (run 3 {} (exEvents ++ [.validate [⟨2, 20⟩, ⟨1, 11⟩] exVerdict])).pool = [1] ∧
    (run 3 {} (exEvents ++ [.validate [⟨2, 20⟩, ⟨1, 11⟩] exVerdict, .apply [1, 2]])).queue = [] := by decide +kernel

/-- The hypotheses of `C189_validate`. -/
example : Honest (run 3 {} (exEvents.take 5)).queue := by
  have e : (run 3 {} (exEvents.take 5)).queue = [⟨1, 10⟩, ⟨1, 11⟩, ⟨2, 20⟩] := by decide +kernel
  rw [e]
  unfold Honest
  decide

/-- A full queue. -/
example : 1 ≤ (run 1 {} [.handle true ⟨1, 10⟩]).queue.length ∧ found (run 1 {} [.handle true ⟨1, 10⟩]) 2 = false := by decide +kernel

end Verif.Node.Queue
