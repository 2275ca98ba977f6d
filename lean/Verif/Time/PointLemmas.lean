import Verif.Time.ChalLemmas
/- Lemmas about the search for VDF points. -/
namespace Verif.Time
variable {H A P : Type} [DecidableEq H]

theorem Leads.append {p : Params} {line : List (Hdr H A P)} {y z : H} {b : List (Point H A)} :
    ∀ {a : List (Point H A)} {v : Nat} {x : H}, Leads p line v x a y →
      Leads p line (v + a.length) y b z → Leads p line v x (a ++ b) z
  | [], v, x, h1, h2 => by
    have e : x = y := h1
    subst e
    simpa using h2
  | q :: a, v, x, h1, h2 => by
    refine ⟨h1.1, h1.2.1, Leads.append h1.2.2 ?_⟩
    have e : v + 1 + a.length = v + (q :: a).length := by simp; omega
    rw [e]; exact h2

theorem Leads.split {p : Params} {line : List (Hdr H A P)} {z : H} {b : List (Point H A)} :
    ∀ {a : List (Point H A)} {v : Nat} {x : H}, Leads p line v x (a ++ b) z →
      ∃ y, Leads p line v x a y ∧ Leads p line (v + a.length) y b z
  | [], v, x, h => ⟨x, rfl, by simpa using h⟩
  | q :: a, v, x, h => by
    obtain ⟨y, h1, h2⟩ := Leads.split (a := a) h.2.2
    refine ⟨y, ⟨h.1, h.2.1, h1⟩, ?_⟩
    have e : v + (q :: a).length = v + 1 + a.length := by simp; omega
    rw [e]; exact h2

/-- What the search for the points of a block finds leads from the predecessor to the block. -/
theorem pointsBack_sound {get : Store H A P} {p : Params} (hd : p.base.timeDiffDivider ≠ 0)
    {tree : List (Point H A)} {prev : Hdr H A P} {rest : List (Hdr H A P)} (h : Line get (prev :: rest)) :
    ∀ {n : Nat} {out : H} {l : List (Point H A)}, pointsBack p get tree prev n out = .ok (some l) →
      l.length = n ∧ Leads p (prev :: rest) prev.vdfHeight prev.vdfOutput l out ∧ ∀ q ∈ l, q ∈ tree
  | 0, out, l, e => by
    rw [pointsBack] at e
    by_cases hc : out = prev.vdfOutput
    · rw [if_pos hc] at e
      cases e
      exact ⟨rfl, hc.symm, by simp⟩
    · rw [if_neg hc] at e; cases e
  | n + 1, out, l, e => by
    rw [pointsBack] at e
    obtain ⟨x, h1, h2⟩ := findInfusion_eq hd h n
    rw [h1] at e
    obtain ⟨inf, iters⟩ := x
    simp only [Res.bind_ok] at e
    cases hf : tree.find? fun q => decide (q.output = out ∧ q.prev = inf ∧ q.numIters = iters) with
    | none => rw [hf] at e; cases e
    | some q =>
      rw [hf] at e
      simp only at e
      obtain ⟨r, hr, hr2⟩ := Res.bind_eq_ok.1 e
      cases r with
      | none => cases hr2
      | some r =>
        cases hr2
        have ⟨i1, i2, i3⟩ := pointsBack_sound hd h hr
        have hq := List.find?_some hf
        simp only [decide_eq_true_eq] at hq
        refine ⟨by simp [i1], Leads.append i2 ⟨rfl, ?_, hq.1⟩, ?_⟩
        · rw [i1, h2, hq.2.1, hq.2.2]
        · intro z hz
          rcases List.mem_append.1 hz with hz | hz
          · exact i3 z hz
          · rw [List.mem_singleton.1 hz]; exact List.mem_of_find?_eq_some hf

theorem pointsBack_total {get : Store H A P} {p : Params} (hd : p.base.timeDiffDivider ≠ 0)
    {tree : List (Point H A)} {prev : Hdr H A P} {rest : List (Hdr H A P)} (h : Line get (prev :: rest)) :
    ∀ (n : Nat) (out : H), ∃ r, pointsBack p get tree prev n out = .ok r
  | 0, out => ⟨_, rfl⟩
  | n + 1, out => by
    rw [pointsBack]
    obtain ⟨⟨inf, iters⟩, h1, h2⟩ := findInfusion_eq hd h n
    rw [h1]
    simp only [Res.bind_ok]
    cases hf : tree.find? fun q => decide (q.output = out ∧ q.prev = inf ∧ q.numIters = iters) with
    | none => exact ⟨_, rfl⟩
    | some q =>
      obtain ⟨r, hr⟩ := pointsBack_total (tree := tree) hd h n q.input
      exact ⟨r.map (· ++ [q]), by simp only [hr, Res.bind_ok]⟩

/-- If points in the tree lead to the block, the search finds some, provided that equal outputs come from
    equal inputs. -/
theorem pointsBack_complete {get : Store H A P} {p : Params} (hd : p.base.timeDiffDivider ≠ 0)
    {tree : List (Point H A)} {prev : Hdr H A P} {rest : List (Hdr H A P)} (h : Line get (prev :: rest))
    (hu : ∀ x ∈ tree, ∀ y ∈ tree, x.output = y.output → x.input = y.input) :
    ∀ (n : Nat) {out : H} {l : List (Point H A)}, l.length = n → (∀ q ∈ l, q ∈ tree) →
      Leads p (prev :: rest) prev.vdfHeight prev.vdfOutput l out →
      ∃ r, pointsBack p get tree prev n out = .ok (some r)
  | 0, out, l, hn, hm, hl => by
    have : l = [] := List.length_eq_zero_iff.1 hn
    subst this
    have e : prev.vdfOutput = out := hl
    exact ⟨[], by rw [pointsBack, if_pos e.symm]⟩
  | n + 1, out, l, hn, hm, hl => by
    have hne : l ≠ [] := by intro e; subst e; simp at hn
    obtain ⟨a, q, rfl⟩ : ∃ a q, l = a ++ [q] :=
      ⟨l.dropLast, l.getLast hne, (List.dropLast_concat_getLast hne).symm⟩
    have han : a.length = n := by simpa using hn
    obtain ⟨y, l1, l2⟩ := Leads.split hl
    rw [han] at l2
    obtain ⟨e1, e2, e3⟩ := l2
    have e3 : q.output = out := e3
    obtain ⟨⟨inf, iters⟩, h1, h2⟩ := findInfusion_eq hd h n
    rw [h2] at e2
    injection e2 with e2
    injection e2 with i1 i2
    rw [pointsBack, h1]
    simp only [Res.bind_ok]
    cases hf : tree.find? fun q => decide (q.output = out ∧ q.prev = inf ∧ q.numIters = iters) with
    | none =>
      have := List.find?_eq_none.1 hf q (hm q (by simp))
      simp [e3, i1, i2] at this
    | some z =>
      have hz := List.find?_some hf
      simp only [decide_eq_true_eq] at hz
      have hin : z.input = y := by
        rw [← e1]
        exact hu z (List.mem_of_find?_eq_some hf) q (hm q (by simp)) (by rw [hz.1, e3])
      obtain ⟨r, hr⟩ := pointsBack_complete hd h hu n han (fun w hw => hm w (by simp [hw])) l1
      exact ⟨r ++ [z], by simp only [hin, hr, Res.bind_ok, Option.map_some]⟩

/-! ### The next points -/

/-- What a pass over the candidates of one height leaves behind. -/
theorem layer_spec {inf : H} {iters : Nat} : ∀ {l : List (Point H A)} {m : ForkMap H A}
    {peaks : List (Point H A)}, (∀ q ∈ l, ∀ x ∈ l, q.input ≠ x.output) →
    ∃ new : List (Point H A), layer inf iters l m peaks =
        (new.map (fun q => (q.output, some q)) ++ m, new ++ peaks) ∧
      ∀ q, q ∈ new ↔ q ∈ l ∧ (m.find q.input).isSome ∧ q.prev = inf ∧ q.numIters = iters
  | [], m, peaks, _ => ⟨[], rfl, by simp⟩
  | q :: l, m, peaks, hx => by
    have hx' : ∀ a ∈ l, ∀ b ∈ l, a.input ≠ b.output :=
      fun a ha b hb => hx a (by simp [ha]) b (by simp [hb])
    rw [layer]
    by_cases hc : (m.find q.input).isSome ∧ q.prev = inf ∧ q.numIters = iters
    · rw [if_pos hc]
      obtain ⟨new, e, hn⟩ := layer_spec (inf := inf) (iters := iters)
        (m := (q.output, some q) :: m) (peaks := q :: peaks) hx'
      refine ⟨new ++ [q], by rw [e]; simp, fun z => ?_⟩
      have hfind : ∀ z ∈ l, ForkMap.find ((q.output, some q) :: m) z.input = m.find z.input := by
        intro z hz
        have := hx z (by simp [hz]) q (by simp)
        simp only [ForkMap.find, List.lookup_cons]
        rw [beq_eq_false_iff_ne.2 this]
      constructor
      · intro hz
        rcases List.mem_append.1 hz with hz | hz
        · have ⟨a, b, c⟩ := (hn z).1 hz
          rw [hfind z a] at b
          exact ⟨by simp [a], b, c⟩
        · rw [List.mem_singleton.1 hz]; exact ⟨by simp, hc⟩
      · intro ⟨hz, hc'⟩
        rcases List.mem_cons.1 hz with e | hz
        · subst e; simp
        · refine List.mem_append_left _ ((hn z).2 ⟨hz, ?_⟩)
          rw [hfind z hz]; exact hc'
    · rw [if_neg hc]
      obtain ⟨new, e, hn⟩ := layer_spec (inf := inf) (iters := iters) (m := m) (peaks := peaks) hx'
      refine ⟨new, e, fun z => ?_⟩
      rw [hn z]
      constructor
      · intro ⟨a, b⟩; exact ⟨by simp [a], b⟩
      · intro ⟨a, b⟩
        rcases List.mem_cons.1 a with e | a
        · subst e; exact absurd b hc
        · exact ⟨a, b⟩

end Verif.Time
