import Verif.Time.PointLemmas
/- The search for the next VDF points finds the longest chain. -/
namespace Verif.Time
variable {H A P : Type} [DecidableEq H]

/-- The iterations at the start of the `j`-th step after a block. -/
def total (p : Params) (line : List (Hdr H A P)) (b : Hdr H A P) : Nat → Nat
  | 0 => b.vdfIters
  | j + 1 => total p line b j + ((stepFrom p line (b.vdfHeight + j)).map (·.2)).getD 0

/-- `q` is the last of `j + 1` points that lead on from the block. -/
def Reaches (p : Params) (line : List (Hdr H A P)) (b : Hdr H A P) (index : List (Point H A)) (j : Nat)
    (q : Point H A) : Prop :=
  ∃ c, c.length = j ∧ Leads p line b.vdfHeight b.vdfOutput (c ++ [q]) q.output ∧ ∀ x ∈ c ++ [q], x ∈ index

/-- `q` fits the `j`-th step, and its input is known. -/
structure Fits (p : Params) (line : List (Hdr H A P)) (b : Hdr H A P) (index : List (Point H A))
    (m : ForkMap H A) (j : Nat) (q : Point H A) : Prop where
  mem : q ∈ index
  step : stepFrom p line (b.vdfHeight + j) = some (q.prev, q.numIters)
  start : q.start = total p line b j
  known : (m.find q.input).isSome

/-- What holds before round `i`. -/
structure Inv (p : Params) (line : List (Hdr H A P)) (b : Hdr H A P) (index : List (Point H A)) (i : Nat)
    (m : ForkMap H A) (peaks : List (Point H A)) : Prop where
  rises : ∀ j < i, total p line b j < total p line b (j + 1)
  small : total p line b i < 2 ^ 64
  root : (m.find b.vdfOutput).isSome
  entry : ∀ k v, m.find k = some v → (v = none ∧ k = b.vdfOutput) ∨
    ∃ q j, v = some q ∧ q.output = k ∧ j < i ∧ Fits p line b index m j q
  live : i ≠ 0 → peaks ≠ []
  peaks : ∀ q, q ∈ peaks ↔ ∃ j, j + 1 = i ∧ Reaches p line b index j q
  reached : ∀ j < i, ∀ q, Reaches p line b index j q → (m.find q.output).isSome

omit [DecidableEq H] in
theorem total_mono {p : Params} {line : List (Hdr H A P)} {b : Hdr H A P} {i : Nat}
    (hr : ∀ j < i, total p line b j < total p line b (j + 1)) :
    ∀ {a c : Nat}, a < c → c ≤ i → total p line b a < total p line b c := by
  intro a c hac
  induction c with
  | zero => omega
  | succ c ih =>
    intro hc
    have h1 := hr c (by omega)
    by_cases e : a = c
    · subst e; exact h1
    · have := ih (by omega) (by omega); omega

omit [DecidableEq H] in
theorem total_inj {p : Params} {line : List (Hdr H A P)} {b : Hdr H A P} {i : Nat}
    (hr : ∀ j < i, total p line b j < total p line b (j + 1)) {a c : Nat} (ha : a ≤ i) (hc : c ≤ i)
    (e : total p line b a = total p line b c) : a = c := by
  rcases Nat.lt_trichotomy a c with h | h | h
  · have := total_mono hr h hc; omega
  · exact h
  · have := total_mono hr h ha; omega

omit [DecidableEq H] in
theorem total_succ {p : Params} {line : List (Hdr H A P)} {b : Hdr H A P} {j : Nat} {x : H × Nat}
    (h : stepFrom p line (b.vdfHeight + j) = some x) :
    total p line b (j + 1) = total p line b j + x.2 := by
  simp [total, h]

section
variable {p : Params} {line : List (Hdr H A P)} {b : Hdr H A P} {index : List (Point H A)} {pos : H → Nat}

theorem Fits.out {m : ForkMap H A} {j : Nat} {q : Point H A} (hh : Honest index pos)
    (f : Fits p line b index m j q) : pos q.output = total p line b (j + 1) := by
  have := (hh q f.mem).2.1
  rw [this, f.start, total_succ f.step]

/-- From a point that fits, the map leads back to the block. -/
theorem Inv.path {i : Nat} {m : ForkMap H A} {peaks : List (Point H A)} (hh : Honest index pos)
    (hp : pos b.vdfOutput = b.vdfIters) (inv : Inv p line b index i m peaks) :
    ∀ {j : Nat} {q : Point H A}, j ≤ i → Fits p line b index m j q →
      ∃ l, walkMap m (j + 1) (some q) = .ok (q :: l) ∧ l.length = j ∧
        Leads p line b.vdfHeight b.vdfOutput (l.reverse ++ [q]) q.output ∧ ∀ x ∈ q :: l, x ∈ index := by
  intro j
  induction j with
  | zero =>
    intro q hj f
    obtain ⟨v, hv⟩ := Option.isSome_iff_exists.1 f.known
    have hq := hh q f.mem
    rcases inv.entry _ _ hv with ⟨e1, e2⟩ | ⟨q', j', e1, e2, e3, f'⟩
    · refine ⟨[], ?_, rfl, ⟨e2, f.step, rfl⟩, by simpa using f.mem⟩
      rw [walkMap, hv, e1]; rfl
    · have h1 := f'.out hh
      rw [e2, ← hq.1, f.start] at h1
      have := total_inj inv.rises (by omega) (by omega) h1
      omega
  | succ j ih =>
    intro q hj f
    obtain ⟨v, hv⟩ := Option.isSome_iff_exists.1 f.known
    have hq := hh q f.mem
    rcases inv.entry _ _ hv with ⟨e1, e2⟩ | ⟨q', j', e1, e2, e3, f'⟩
    · have h1 : total p line b 0 = total p line b (j + 1) := by
        rw [← f.start, hq.1, e2, hp]; rfl
      have := total_inj inv.rises (by omega) (by omega) h1
      omega
    · have h1 := f'.out hh
      rw [e2, ← hq.1, f.start] at h1
      have := total_inj inv.rises (by omega) (by omega) h1
      have ej : j' = j := by omega
      subst ej
      obtain ⟨l, w1, w2, w3, w4⟩ := ih (by omega) f'
      refine ⟨q' :: l, ?_, by simp [w2], ?_, ?_⟩
      · rw [walkMap, hv, e1]
        show (walkMap m (j' + 1) (some q') >>= fun r => Res.ok (q :: r)) = _
        rw [w1]; rfl
      · rw [List.reverse_cons]
        refine Leads.append w3 ⟨e2.symm, ?_, rfl⟩
        have : (l.reverse ++ [q']).length = j' + 1 := by simp [w2]
        rw [this]; exact f.step
      · intro x hx
        rcases List.mem_cons.1 hx with e | hx
        · rw [e]; exact f.mem
        · exact w4 x hx

/-- The last point of a chain starts at the iterations of its step. -/
theorem leads_start (hh : Honest index pos) :
    ∀ {c : List (Point H A)} {v n : Nat} {x : H}, v = b.vdfHeight + n → pos x = total p line b n →
      (∀ z ∈ c, z ∈ index) → ∀ {y : H}, Leads p line v x c y → pos y = total p line b (n + c.length)
  | [], v, n, x, hv, hx, hm, y, hl => by
    have e : x = y := hl
    subst e
    simpa using hx
  | q :: c, v, n, x, hv, hx, hm, y, hl => by
    obtain ⟨h1, h2, h3⟩ := hl
    have hq := hh q (hm q (by simp))
    have ho : pos q.output = total p line b (n + 1) := by
      rw [hq.2.1, hq.1, h1, hx, total_succ (by rw [← hv]; exact h2)]
    have := leads_start (n := n + 1) hh (by omega) ho (fun z hz => hm z (by simp [hz])) h3
    rw [this]
    congr 1
    simp; omega

/-- The last point of a chain fits its step. -/
theorem Inv.fits {i : Nat} {m : ForkMap H A} {peaks : List (Point H A)} (hh : Honest index pos)
    (hp : pos b.vdfOutput = b.vdfIters) (inv : Inv p line b index i m peaks) {j : Nat} {q : Point H A}
    (hj : j ≤ i) (hr : Reaches p line b index j q) : Fits p line b index m j q := by
  obtain ⟨c, c1, c2, c3⟩ := hr
  obtain ⟨y, l1, l2⟩ := Leads.split c2
  rw [c1] at l2
  obtain ⟨k1, k2, _⟩ := l2
  have hq := hh q (c3 q (by simp))
  have hpos : pos y = total p line b (0 + c.length) :=
    leads_start hh (n := 0) rfl hp (fun z hz => c3 z (by simp [hz])) l1
  rw [Nat.zero_add, c1, ← k1, ← hq.1] at hpos
  refine ⟨c3 q (by simp), k2, hpos, ?_⟩
  rw [k1]
  rcases List.eq_nil_or_concat c with e | ⟨c', z, e⟩
  · subst e
    have e : b.vdfOutput = y := l1
    rw [← e]; exact inv.root
  · rw [List.concat_eq_append] at e
    subst e
    have hz : z.output = y := by
      obtain ⟨w, _, w2⟩ := Leads.split l1
      exact w2.2.2
    rw [← hz]
    refine inv.reached c'.length (by simp at c1; omega) z ⟨c', rfl, ?_, fun w hw => c3 w ?_⟩
    · rw [hz]; exact l1
    · exact List.mem_append_left _ hw

/-- One round keeps the invariant. -/
theorem Inv.next {i : Nat} {m : ForkMap H A} {peaks : List (Point H A)} (hh : Honest index pos)
    (hp : pos b.vdfOutput = b.vdfIters) (inv : Inv p line b index i m peaks) {x : H × Nat}
    (hx : stepFrom p line (b.vdfHeight + i) = some x) :
    ∃ new : List (Point H A),
      layer x.1 x.2 (atIters index (u64 (total p line b i + x.2))) m [] =
        (new.map (fun q => (q.output, some q)) ++ m, new) ∧
      (∀ q, q ∈ new ↔ Reaches p line b index i q) ∧
      (new ≠ [] → u64 (total p line b i + x.2) = total p line b (i + 1) ∧
        Inv p line b index (i + 1) (new.map (fun q => (q.output, some q)) ++ m) new) := by
  have hcand : ∀ q, q ∈ atIters index (u64 (total p line b i + x.2)) →
      q.start + q.numIters = u64 (total p line b i + x.2) ∧ q ∈ index := by
    intro q hq
    simp only [atIters, List.mem_filter, decide_eq_true_eq] at hq
    have h4 := (hh q hq.1).2.2.2
    have : u64 (q.start + q.numIters) = q.start + q.numIters := Nat.mod_eq_of_lt h4
    exact ⟨by rw [← hq.2, this], hq.1⟩
  obtain ⟨new, e, hn⟩ := layer_spec (inf := x.1) (iters := x.2) (m := m) (peaks := [])
    (l := atIters index (u64 (total p line b i + x.2))) (by
      intro q hq z hz hc
      have h1 := hcand q hq
      have h2 := hcand z hz
      have g1 := hh q h1.2
      have g2 := hh z h2.2
      have : pos q.input = pos z.output := by rw [hc]
      omega)
  have hfit : ∀ q ∈ new, Fits p line b index m i q := by
    intro q hq
    have ⟨a1, a2, a3, a4⟩ := (hn q).1 hq
    have h1 := hcand q a1
    refine ⟨h1.2, by rw [hx, a3, a4], ?_, a2⟩
    have h2 := h1.1
    rw [a4] at h2
    have h3 := inv.small
    have h4 := (hh q h1.2).2.2.2
    rw [a4] at h4
    simp only [u64] at h2
    have : (total p line b i + x.2) % 2 ^ 64 = total p line b i + x.2 ∨
        (total p line b i + x.2) % 2 ^ 64 = total p line b i + x.2 - 2 ^ 64 := by omega
    omega
  have hmem : ∀ q, q ∈ new ↔ Reaches p line b index i q := by
    intro q
    constructor
    · intro hq
      obtain ⟨l, _, w2, w3, w4⟩ := inv.path hh hp (Nat.le_refl i) (hfit q hq)
      refine ⟨l.reverse, by simp [w2], w3, fun z hz => w4 z ?_⟩
      simpa [or_comm] using hz
    · intro ⟨c, c1, c2, c3⟩
      have f := inv.fits hh hp (Nat.le_refl i) ⟨c, c1, c2, c3⟩
      have k2 := f.step
      rw [hx] at k2
      injection k2 with k2
      refine (hn q).2 ⟨?_, f.known, by rw [k2], by rw [k2]⟩
      simp only [atIters, List.mem_filter, decide_eq_true_eq]
      exact ⟨f.mem, by rw [f.start, k2]⟩
  refine ⟨new, by rw [e]; simp, hmem, fun hne => ?_⟩
  obtain ⟨q0, hq0⟩ := List.exists_mem_of_ne_nil new hne
  have f0 := hfit q0 hq0
  have g0 := hh q0 f0.mem
  have ht : total p line b (i + 1) = q0.start + q0.numIters := by
    rw [total_succ hx, ← f0.start]
    have := f0.step
    rw [hx] at this
    injection this with this
    rw [this]
  have hsum : total p line b (i + 1) = total p line b i + x.2 := total_succ hx
  refine ⟨?_, ?_⟩
  · rw [← hsum]; exact Nat.mod_eq_of_lt (by omega)
  have hfind : ∀ k, ForkMap.find (new.map (fun q => (q.output, some q)) ++ m) k = m.find k ∨
      ∃ q ∈ new, q.output = k ∧
        ForkMap.find (new.map (fun q => (q.output, some q)) ++ m) k = some (some q) := by
    intro k
    clear hne hmem hfit hn e hq0
    induction new with
    | nil => exact .inl rfl
    | cons z new ih =>
      simp only [List.map_cons, List.cons_append, ForkMap.find, List.lookup_cons]
      by_cases hk : k = z.output
      · right
        refine ⟨z, by simp, hk.symm, ?_⟩
        rw [beq_iff_eq.2 hk]
      · rw [beq_eq_false_iff_ne.2 hk]
        rcases ih with ih | ⟨q, h1, h2, h3⟩
        · exact .inl ih
        · exact .inr ⟨q, by simp [h1], h2, h3⟩
  have hgrow : ∀ k, (m.find k).isSome →
      (ForkMap.find (new.map (fun q => (q.output, some q)) ++ m) k).isSome := by
    intro k hk
    rcases hfind k with h | ⟨q, _, _, h⟩
    · rw [h]; exact hk
    · rw [h]; rfl
  have hnew : ∀ q ∈ new, (ForkMap.find (new.map (fun q => (q.output, some q)) ++ m) q.output).isSome := by
    intro q hq
    clear hne hmem hfit hn e hq0 hfind hgrow
    induction new with
    | nil => simp at hq
    | cons z new ih =>
      simp only [List.map_cons, List.cons_append, ForkMap.find, List.lookup_cons]
      by_cases hk : q.output = z.output
      · rw [beq_iff_eq.2 hk]; rfl
      · rw [beq_eq_false_iff_ne.2 hk]
        rcases List.mem_cons.1 hq with e | hq
        · subst e; exact absurd rfl hk
        · exact ih hq
  exact {
    rises := by
      intro j hj
      by_cases e : j = i
      · subst e; have := f0.start; omega
      · exact inv.rises j (by omega)
    small := by omega
    root := hgrow _ inv.root
    entry := by
      intro k v hv
      rcases hfind k with h | ⟨q, hq, hk, h⟩
      · rw [h] at hv
        rcases inv.entry k v hv with h | ⟨q, j, e1, e2, e3, f⟩
        · exact .inl h
        · exact .inr ⟨q, j, e1, e2, by omega, f.mem, f.step, f.start, hgrow _ f.known⟩
      · rw [h] at hv
        injection hv with hv
        have f := hfit q hq
        exact .inr ⟨q, i, hv.symm, hk, by omega, f.mem, f.step, f.start, hgrow _ f.known⟩
    peaks := by
      intro q
      rw [hmem q]
      exact ⟨fun h => ⟨i, rfl, h⟩, fun ⟨j, hj, h⟩ => by
        have : j = i := by omega
        subst this; exact h⟩
    live := fun _ => hne
    reached := by
      intro j hj q hq
      by_cases e : j = i
      · subst e; exact hnew q ((hmem q).2 hq)
      · exact hgrow _ (inv.reached j (by omega) q hq) }

end

/-- The loop ends with the last points of the longest chains. -/
theorem nextLoop_spec {get : Store H A P} {p : Params} (hd : p.base.timeDiffDivider ≠ 0) {b : Hdr H A P}
    {rest : List (Hdr H A P)} (hl : Line get (b :: rest)) {index : List (Point H A)} {pos : H → Nat}
    (hh : Honest index pos) (hp : pos b.vdfOutput = b.vdfIters) :
    ∀ (n : Nat) {i : Nat} {m : ForkMap H A} {peaks : List (Point H A)},
      Inv p (b :: rest) b index i m peaks →
      ∃ i' m' peaks', nextLoop p get index b n i (total p (b :: rest) b i) m peaks = .ok (m', peaks') ∧
        Inv p (b :: rest) b index i' m' peaks' ∧ i ≤ i' ∧ i' ≤ i + n ∧
        (i' = i + n ∨ ∀ q, ¬ Reaches p (b :: rest) b index i' q)
  | 0, i, m, peaks, inv => ⟨i, m, peaks, rfl, inv, by omega, by omega, .inl rfl⟩
  | n + 1, i, m, peaks, inv => by
    obtain ⟨x, h1, h2⟩ := getInfusion_eq hd hl i
    obtain ⟨new, e, hm, hn⟩ := inv.next hh hp h2
    rw [nextLoop, h1]
    simp only [Res.bind_ok]
    rw [e]
    simp only
    by_cases hc : new = []
    · rw [if_pos hc]
      subst hc
      refine ⟨i, m, peaks, by simp, inv, by omega, by omega, .inr fun q hq => ?_⟩
      have := (hm q).2 hq
      simp at this
    · rw [if_neg hc]
      obtain ⟨t1, inv'⟩ := hn hc
      rw [t1]
      obtain ⟨i', m', peaks', k1, k2, k3, k4, k5⟩ := nextLoop_spec hd hl hh hp n inv'
      refine ⟨i', m', peaks', k1, k2, by omega, by omega, ?_⟩
      rcases k5 with k5 | k5
      · left; omega
      · exact .inr k5

theorem inv_init {p : Params} {line : List (Hdr H A P)} {b : Hdr H A P} {index : List (Point H A)}
    (hs : b.vdfIters < 2 ^ 64) : Inv p line b index 0 [(b.vdfOutput, none)] [] := by
  exact {
    rises := by intro j hj; omega
    small := hs
    root := by simp [ForkMap.find]
    entry := by
      intro k v hv
      simp only [ForkMap.find, List.lookup_cons] at hv
      by_cases e : k = b.vdfOutput
      · subst e; simp at hv; exact .inl ⟨hv.symm, rfl⟩
      · rw [beq_eq_false_iff_ne.2 e] at hv; simp at hv
    peaks := by intro q; simp
    live := fun h => absurd rfl h
    reached := by intro j hj; omega }

theorem walkMap_mono {m : ForkMap H A} : ∀ {n k : Nat} {o : Option (Point H A)} {l : List (Point H A)},
    walkMap m n o = .ok l → n ≤ k → walkMap m k o = .ok l
  | n, k, none, l, h, _ => by
    cases n <;> cases k <;> simpa [walkMap] using h
  | 0, k, some q, l, h, _ => by cases h
  | n + 1, 0, some q, l, h, hk => by omega
  | n + 1, k + 1, some q, l, h, hk => by
    rw [walkMap] at h ⊢
    obtain ⟨r, h1, h2⟩ := Res.bind_eq_ok.1 h
    rw [walkMap_mono h1 (by omega)]
    exact h2

theorem nodup_le {α : Type} : ∀ {l m : List α}, l.Nodup → (∀ x ∈ l, x ∈ m) → l.length ≤ m.length
  | [], m, _, _ => by simp
  | a :: l, m, hn, hs => by
    obtain ⟨s, t, e⟩ := List.append_of_mem (hs a (by simp))
    subst e
    have hn' := List.nodup_cons.1 hn
    have := nodup_le (l := l) (m := s ++ t) hn'.2 (by
      intro x hx
      have := hs x (by simp [hx])
      have hne : x ≠ a := by intro e; subst e; exact hn'.1 hx
      simp only [List.mem_append, List.mem_cons] at this ⊢
      rcases this with h | h | h
      · exact .inl h
      · exact absurd h hne
      · exact .inr h)
    simp only [List.length_append, List.length_cons] at this ⊢
    omega

omit [DecidableEq H] in
/-- The starts rise along a chain of honest points, so no point occurs twice. -/
theorem leads_starts {p : Params} {line : List (Hdr H A P)} {index : List (Point H A)} {pos : H → Nat}
    (hh : Honest index pos) : ∀ {c : List (Point H A)} {v : Nat} {x y : H}, Leads p line v x c y →
      (∀ z ∈ c, z ∈ index) → (∀ z ∈ c, pos x ≤ z.start) ∧ c.Nodup
  | [], v, x, y, _, _ => ⟨by simp, List.nodup_nil⟩
  | q :: c, v, x, y, h, hm => by
    obtain ⟨h1, _, h3⟩ := h
    have hq := hh q (hm q (by simp))
    obtain ⟨i1, i2⟩ := leads_starts hh h3 (fun z hz => hm z (by simp [hz]))
    constructor
    · intro z hz
      rcases List.mem_cons.1 hz with e | hz
      · subst e; rw [hq.1, h1]; exact Nat.le_refl _
      · have := i1 z hz; rw [← h1]; omega
    · refine List.nodup_cons.2 ⟨fun hq' => ?_, i2⟩
      have := i1 q hq'
      omega

end Verif.Time
