import Verif.Node.ContractCache
/-
  C188: whoever asks for a contract gets what the chain has.
-/
namespace Verif.Node.Cache

/-- Not a call of `revert_sync`. -/
def Locked : Ev → Prop
  | .revertSync _ => False
  | _ => True

/-- What a thread has read is what the chain has. -/
def True' (chain : Nat → Option Contract) (t : Thread) : Prop :=
  match t.pc with
  | .loaded c => c = chain t.addr
  | .done c => c = chain t.addr
  | _ => True

structure Good (s : St) : Prop where
  cache : s.dirty = false → ∀ x ∈ s.cache, s.chain x.1 = some x.2
  dirty : s.dirty = true → s.writer = true
  writer : s.writer = true → anyApi s = false
  threads : s.dirty = false → ∀ t ∈ s.threads, True' s.chain t

theorem none_left {s : St} (h1 : anyApi s = false) (h2 : anyOwn s = false) : s.threads = [] := by
  cases e : s.threads with
  | nil => rfl
  | cons t l =>
    unfold anyApi at h1
    unfold anyOwn at h2
    rw [e, List.any_cons] at h1 h2
    cases k : t.api
    · rw [k] at h2; simp at h2
    · rw [k] at h1; simp at h1

theorem mem_lookup {l : List (Nat × Contract)} {a : Nat} {c : Contract} (h : lookup l a = some c) : (a, c) ∈ l := by
  unfold lookup at h
  cases e : l.find? (fun x => decide (x.1 = a)) with
  | none => rw [e] at h; cases h
  | some x =>
    rw [e] at h
    have h2 : x.2 = c := Option.some.inj h
    have h1 : x.1 = a := by simpa using List.find?_some e
    have := List.mem_of_find?_eq_some e
    rw [← h1, ← h2]
    exact this

theorem mem_keep {l : List (Nat × Contract)} {a : Nat} {c : Option Contract} {x : Nat × Contract} (h : x ∈ keep l a c) :
    x ∈ l ∨ (x.1 = a ∧ c = some x.2) := by
  cases c with
  | none => exact Or.inl h
  | some c =>
    change x ∈ (if c.binary then put l a c else l) at h
    by_cases b : c.binary = true
    · rw [if_pos b] at h
      rcases List.mem_cons.1 h with h | h
      · rw [h]; exact Or.inr ⟨rfl, rfl⟩
      · have h := (List.mem_filter.1 h).1
        unfold room at h
        by_cases k : (l.length + 1) / 2 ^ 16 ≠ 0
        · rw [if_pos k] at h; exact absurd h List.not_mem_nil
        · rw [if_neg k] at h; exact Or.inl h
    · rw [if_neg b] at h; exact Or.inl h

theorem advance_good {s : St} {t : Thread} (hc : ∀ x ∈ s.cache, s.chain x.1 = some x.2) (ht : True' s.chain t) :
    (∀ x ∈ (advance s t.addr t.pc).1, s.chain x.1 = some x.2) ∧ True' s.chain { t with pc := (advance s t.addr t.pc).2 } := by
  unfold True' at ht
  cases hp : t.pc with
  | start =>
    unfold advance
    cases hl : lookup s.cache t.addr with
    | none => exact ⟨hc, trivial⟩
    | some c => exact ⟨hc, (hc _ (mem_lookup hl)).symm⟩
  | missed => exact ⟨hc, rfl⟩
  | loaded c =>
    rw [hp] at ht
    refine ⟨fun x hx => ?_, ht⟩
    rcases mem_keep hx with k | ⟨k1, k2⟩
    · exact hc x k
    · rw [k1, ← k2]; exact ht.symm
  | done c =>
    rw [hp] at ht
    exact ⟨hc, ht⟩

theorem any_set {l : List Thread} {k : Nat} {t u : Thread} (h : l[k]? = some t) (e : u.api = t.api) (f : Bool → Bool) :
    (l.set k u).any (fun t => f t.api) = l.any (fun t => f t.api) := by
  induction l generalizing k with
  | nil => rfl
  | cons x l ih =>
    cases k with
    | zero =>
      have hx : x = t := by simpa using h
      rw [List.set_cons_zero, List.any_cons, List.any_cons, e, hx]
    | succ k =>
      rw [List.set_cons_succ, List.any_cons, List.any_cons, ih (by simpa using h)]

theorem any_erase {l : List Thread} {k : Nat} (p : Thread → Bool) (h : l.any p = false) : (l.eraseIdx k).any p = false := by
  rw [List.any_eq_false] at h ⊢
  exact fun x hx => h x (List.mem_of_mem_eraseIdx hx)

theorem Good.step {s : St} (h : Good s) {e : Ev} (he : Locked e) : Good (Cache.step s e) := by
  cases e with
  | enter api a =>
    unfold Cache.step; dsimp only
    by_cases k : (api && s.writer) = true
    · rw [if_pos k]; exact h
    · rw [if_neg k]
      refine ⟨h.cache, h.dirty, fun hw => ?_, fun hd t ht => ?_⟩
      · have ha : api = false := by
          cases api
          · rfl
          · exact absurd (by rw [show s.writer = true from hw]; rfl) k
        have := h.writer hw
        unfold anyApi at this ⊢
        dsimp only
        rw [List.any_append, this, ha]
        rfl
      · rcases List.mem_append.1 ht with ht | ht
        · exact h.threads hd t ht
        · rw [List.mem_singleton.1 ht]; trivial
  | advance k =>
    unfold Cache.step; dsimp only; unfold onAdvance
    cases hk : s.threads[k]? with
    | none => exact h
    | some t =>
      refine ⟨fun hd => ?_, h.dirty, fun hw => ?_, fun hd u hu => ?_⟩
      · exact (advance_good (h.cache hd) (h.threads hd t (List.mem_of_getElem? hk))).1
      · have := h.writer hw
        unfold anyApi at this ⊢
        rw [← this]
        exact any_set (u := { t with pc := (advance s t.addr t.pc).2 }) hk rfl id
      · rcases List.mem_or_eq_of_mem_set hu with hu | hu
        · exact h.threads hd u hu
        · rw [hu]; exact (advance_good (h.cache hd) (h.threads hd t (List.mem_of_getElem? hk))).2
  | again k a =>
    unfold Cache.step; dsimp only; unfold onAgain
    cases hk : s.threads[k]? with
    | none => exact h
    | some t =>
      refine ⟨h.cache, h.dirty, fun hw => ?_, fun hd u hu => ?_⟩
      · have := h.writer hw
        unfold anyApi at this ⊢
        rw [← this]
        exact any_set (u := { t with addr := a, pc := .start }) hk rfl id
      · rcases List.mem_or_eq_of_mem_set hu with hu | hu
        · exact h.threads hd u hu
        · rw [hu]; trivial
  | leave k => exact ⟨h.cache, h.dirty, fun hw => any_erase _ (h.writer hw), fun hd u hu => h.threads hd u (List.mem_of_mem_eraseIdx hu)⟩
  | lock =>
    unfold Cache.step; dsimp only
    by_cases k : (s.writer || anyApi s || anyOwn s) = true
    · rw [if_pos k]; exact h
    · rw [if_neg k]
      have ka : anyApi s = false := by
        cases g : anyApi s
        · rfl
        · exact absurd (by rw [g]; simp) k
      exact ⟨h.cache, fun _ => rfl, fun _ => ka, h.threads⟩
  | unlock =>
    unfold Cache.step; dsimp only
    by_cases k : (s.dirty || anyOwn s) = true
    · rw [if_pos k]; exact h
    · rw [if_neg k]
      have kd : s.dirty = false := by
        cases g : s.dirty
        · rfl
        · exact absurd (by rw [g]; rfl) k
      exact ⟨h.cache, fun hd => absurd (kd.symm.trans hd) (fun k => nomatch k), (fun k => nomatch k), h.threads⟩
  | change m =>
    unfold Cache.step; dsimp only
    by_cases k : (!s.writer || anyOwn s) = true
    · rw [if_pos k]; exact h
    · rw [if_neg k]
      have kw : s.writer = true := by
        cases g : s.writer
        · exact absurd (by rw [g]; rfl) k
        · rfl
      exact ⟨(fun k => nomatch k), fun _ => kw, h.writer, (fun k => nomatch k)⟩
  | clear =>
    unfold Cache.step; dsimp only
    by_cases k : anyOwn s = true
    · rw [if_pos k]; exact h
    · rw [if_neg k]
      refine ⟨fun _ x hx => absurd hx List.not_mem_nil, (fun k => nomatch k), h.writer, fun _ t ht => ?_⟩
      cases hd : s.dirty
      · exact h.threads hd t ht
      · have := none_left (h.writer (h.dirty hd)) (by simpa using k)
        have ht : t ∈ s.threads := ht
        rw [this] at ht
        exact absurd ht List.not_mem_nil
  | revertSync m => exact he.elim

theorem Good.run : ∀ (l : List Ev) {s : St}, Good s → (∀ e ∈ l, Locked e) → Good (Cache.run s l)
  | [], _, h, _ => h
  | e :: l, _, h, hl => Good.run l (h.step (hl e (List.mem_cons_self ..))) (fun e he => hl e (List.mem_cons_of_mem _ he))

theorem start_good (m : Nat → Option Contract) : Good { chain := m } :=
  ⟨fun _ _ hx => absurd hx List.not_mem_nil, (fun k => nomatch k), (fun k => nomatch k), fun _ _ hx => absurd hx List.not_mem_nil⟩

/-- C188, without `revert_sync`: however calls of the API, validation and updates mix, and whatever the cache has seen, a thread that asked for a
    contract is given what the chain has, and this does not change until the thread is done with all that it asks for. (While the own thread is
    between changing the tables and clearing the cache, this is said of the calls of the API alone: there are none.) -/
theorem C188_fresh_partial (m : Nat → Option Contract) (l : List Ev) (hl : ∀ e ∈ l, Locked e) (t : Thread) (c : Option Contract)
    (ht : t ∈ (run { chain := m } l).threads) (hc : t.pc = .done c) (ha : t.api = true ∨ (run { chain := m } l).dirty = false) :
    c = (run { chain := m } l).chain t.addr := by
  have h := Good.run l (start_good m) hl
  have hd : (run { chain := m } l).dirty = false := by
    rcases ha with ha | ha
    · cases hd : (run { chain := m } l).dirty
      · rfl
      · have := h.writer (h.dirty hd)
        unfold anyApi at this
        rw [List.any_eq_false] at this
        exact absurd ha (this t ht)
    · exact ha
  have k := h.threads hd t ht
  unfold True' at k
  rw [hc] at k
  exact k

/-- C188, without `revert_sync`: what the chain has does not change while a call of the API is under way. So all that a call shows belongs together. -/
theorem C188_still_partial (m : Nat → Option Contract) (l : List Ev) (hl : ∀ e ∈ l, Locked e) (e : Ev) (he : Locked e)
    (ha : ∃ t ∈ (run { chain := m } l).threads, t.api = true) :
    (step (run { chain := m } l) e).chain = (run { chain := m } l).chain := by
  have h := Good.run l (start_good m) hl
  have hw : (run { chain := m } l).writer = false := by
    cases hw : (run { chain := m } l).writer
    · rfl
    · obtain ⟨t, ht, hta⟩ := ha
      have := h.writer hw
      unfold anyApi at this
      rw [List.any_eq_false] at this
      exact absurd hta (this t ht)
  generalize run { chain := m } l = s at hw
  cases e with
  | enter api a => unfold step; dsimp only; by_cases k : (api && s.writer) = true <;> simp only [k, if_true] <;> rfl
  | advance k => unfold step; dsimp only; unfold onAdvance; cases s.threads[k]? <;> rfl
  | again k a => unfold step; dsimp only; unfold onAgain; cases s.threads[k]? <;> rfl
  | leave k => rfl
  | lock => unfold step; dsimp only; by_cases k : (s.writer || anyApi s || anyOwn s) = true <;> simp only [k, if_true] <;> rfl
  | unlock => unfold step; dsimp only; by_cases k : (s.dirty || anyOwn s) = true <;> simp only [k, if_true] <;> rfl
  | change m => unfold step; dsimp only; rw [hw]; rfl
  | clear => unfold step; dsimp only; by_cases k : anyOwn s = true <;> simp only [k, if_true] <;> rfl
  | revertSync m => exact he.elim

/-- C188. Whatever happens, with `revert_sync` or without, the cache never has more than 65535 contracts. -/
theorem C188_small (m : Nat → Option Contract) (l : List Ev) : (run { chain := m } l).cache.length ≤ 65535 := by
  have put_small : ∀ (l : List (Nat × Contract)) a c, l.length ≤ 65535 → (put l a c).length ≤ 65535 := by
    intro l a c h
    unfold put
    rw [List.length_cons]
    have h1 := List.length_filter_le (fun x : Nat × Contract => decide (x.1 ≠ a)) (room l)
    have h2 : (room l).length ≤ 65534 := by
      unfold room
      by_cases k : (l.length + 1) / 2 ^ 16 ≠ 0
      · rw [if_pos k]; exact Nat.zero_le _
      · rw [if_neg k]; omega
    omega
  have adv : ∀ (s : St) a p, s.cache.length ≤ 65535 → (advance s a p).1.length ≤ 65535 := by
    intro s a p h
    cases p with
    | start => unfold advance; cases lookup s.cache a <;> exact h
    | missed => exact h
    | loaded c =>
      cases c with
      | none => exact h
      | some c =>
        change (if c.binary then put s.cache a c else s.cache).length ≤ _
        by_cases b : c.binary = true
        · rw [if_pos b]; exact put_small _ _ _ h
        · rw [if_neg b]; exact h
    | done c => exact h
  have one : ∀ (s : St) (e : Ev), s.cache.length ≤ 65535 → (step s e).cache.length ≤ 65535 := by
    intro s e h
    cases e with
    | enter api a => unfold step; dsimp only; by_cases k : (api && s.writer) = true <;> simp only [k, if_true] <;> exact h
    | advance k =>
      unfold step; dsimp only; unfold onAdvance
      cases s.threads[k]? with
      | none => exact h
      | some t => exact adv s _ _ h
    | again k a => unfold step; dsimp only; unfold onAgain; cases s.threads[k]? <;> exact h
    | leave k => exact h
    | lock => unfold step; dsimp only; by_cases k : (s.writer || anyApi s || anyOwn s) = true <;> simp only [k, if_true] <;> exact h
    | unlock => unfold step; dsimp only; by_cases k : (s.dirty || anyOwn s) = true <;> simp only [k, if_true] <;> exact h
    | change m => unfold step; dsimp only; by_cases k : (!s.writer || anyOwn s) = true <;> simp only [k, if_true] <;> exact h
    | clear =>
      unfold step; dsimp only
      by_cases k : anyOwn s = true
      · rw [if_pos k]; exact h
      · rw [if_neg k]; exact Nat.zero_le _
    | revertSync m => unfold step; dsimp only; by_cases k : (s.writer || anyOwn s) = true <;> simp only [k, if_true] <;> exact h
  have all : ∀ (l : List Ev) (s : St), s.cache.length ≤ 65535 → (run s l).cache.length ≤ 65535 := by
    intro l
    induction l with
    | nil => exact fun _ h => h
    | cons e l ih => exact fun s h => ih _ (one s e h)
  exact all l _ (Nat.zero_le _)

/-! ### with `revert_sync` -/

/-- A binary at address 1, and a chain that has it; after the revert it does not. -/
def exBin : Contract := ⟨true, 5⟩
def exChain (a : Nat) : Option Contract := if a = 1 then some exBin else none
def exNone (_ : Nat) : Option Contract := none

/-- A call of the API has read the binary when the node is made to go back to before it was deployed. `revert_sync` clears the cache, twice; then
    the call stores the binary in the cache and ends. After this validation asks for the binary, in a thread of its own. -/
def exRace : List Ev :=
  [.enter true 1, .advance 0, .advance 0, .revertSync exNone, .clear, .clear, .advance 0, .leave 0, .lock, .enter false 1, .advance 0]

/-- C188, false with `revert_sync`: nothing is under way any longer, the chain does not have the contract, and validation is given it. -/
theorem C188_stale : (run { chain := exChain } exRace).threads = [⟨false, 1, .done (some exBin)⟩] ∧ (run { chain := exChain } exRace).chain 1 = none ∧
    (run { chain := exChain } exRace).dirty = false := by decide +kernel

/-- And a call of the API sees two chains. -/
theorem C188_moves : ∃ e, (∃ t ∈ (run { chain := exChain } [.enter true 1]).threads, t.api = true) ∧
    (step (run { chain := exChain } [.enter true 1]) e).chain 1 ≠ (run { chain := exChain } [.enter true 1]).chain 1 :=
  ⟨.revertSync exNone, ⟨⟨true, 1, .start⟩, by decide +kernel⟩, by decide +kernel⟩

/-- C188. However it came about: the next block that is applied ends this. -/
theorem C188_ends (s : St) (h : s.threads = []) (hw : s.writer = false) (m : Nat → Option Contract) :
    Good (run s [.lock, .change m, .clear, .unlock]) ∧ (run s [.lock, .change m, .clear, .unlock]).chain = m := by
  obtain ⟨chain, cache, threads, writer, dirty⟩ := s
  dsimp only at h hw
  subst h hw
  exact ⟨⟨fun _ _ hx => absurd hx List.not_mem_nil, (fun k => nomatch k), (fun k => nomatch k), fun _ _ hx => absurd hx List.not_mem_nil⟩, rfl⟩

/-! ### an example without `revert_sync` -/

/-- Two calls of the API read the binary, one of them from the cache; the node then removes it, and a third call is told so. -/
def exCalm : List Ev :=
  [.enter true 1, .advance 0, .advance 0, .advance 0, .enter true 1, .advance 1, .lock, .leave 1, .leave 0, .lock, .enter true 2, .change exNone, .unlock,
   .clear, .unlock, .enter true 1, .advance 0, .advance 0, .advance 0]

example : ∀ e ∈ exCalm, Locked e := by
  unfold exCalm
  simp [Locked]

example : (run { chain := exChain } (exCalm.take 6)).threads = [⟨true, 1, .done (some exBin)⟩, ⟨true, 1, .done (some exBin)⟩] ∧
    (run { chain := exChain } (exCalm.take 6)).cache = [(1, exBin)] ∧
    (run { chain := exChain } exCalm).threads = [⟨true, 1, .done none⟩] ∧ (run { chain := exChain } exCalm).cache = [] := by decide +kernel

end Verif.Node.Cache
