import Verif.Time.Spec
/- Lemmas about challenges and infusions. -/
namespace Verif.Time
variable {H A P : Type}

theorem iter_succ' {α : Type} (f : α → α) (n : Nat) (x : α) : iter f (n + 1) x = iter f n (f x) := by
  induction n with
  | zero => rfl
  | succ n ih => show f (iter f (n + 1) x) = f (iter f n (f x)); rw [ih]

/-- The challenges of a chain of blocks, newest first. -/
def back (fn : Fns H) : List (Hdr H A P) → List (H × Nat)
  | [] => []
  | [b] => [(b.challenge, b.spaceDiff)]
  | b :: q :: rest => (b.challenge, b.spaceDiff) :: ((between fn (some q) b).reverse ++ back fn (q :: rest))

theorem build_append (fn : Fns H) : ∀ (l : List (Hdr H A P)) (prev : Option (Hdr H A P)) (q b : Hdr H A P),
    build fn prev (l ++ [q, b]) =
      build fn prev (l ++ [q]) ++ between fn (some q) b ++ [(b.challenge, b.spaceDiff)]
  | [], prev, q, b => by simp [build]
  | x :: l, prev, q, b => by
    have := build_append fn l (some x) q b
    simp only [List.cons_append, build, this]
    simp

theorem build_back (fn : Fns H) : ∀ (l : List (Hdr H A P)),
    (build fn none l.reverse).reverse = back fn l
  | [] => rfl
  | [b] => by simp [build, between, back]
  | b :: q :: rest => by
    have ih := build_back fn (q :: rest)
    have e : (b :: q :: rest).reverse = rest.reverse ++ [q, b] := by simp
    rw [e, build_append]
    have e2 : rest.reverse ++ [q] = (q :: rest).reverse := by simp
    rw [e2]
    simp only [List.reverse_append, List.reverse_cons, List.reverse_nil, List.nil_append, back,
      List.cons_append]
    rw [← ih]
    simp

theorem back_ne {fn : Fns H} {b : Hdr H A P} {l : List (Hdr H A P)} : back fn (b :: l) ≠ [] := by
  cases l <;> simp [back]

theorem Line.step {get : Store H A P} {b q : Hdr H A P} {rest : List (Hdr H A P)}
    (h : Line get (b :: q :: rest)) : get b.prev = some q ∧ b.height ≠ 0 ∧ 1 ≤ b.vdfCount ∧
      b.vdfHeight = q.vdfHeight + b.vdfCount ∧ Line get (q :: rest) := h

theorem Line.ne {get : Store H A P} {line : List (Hdr H A P)} (h : Line get line) : line ≠ [] := by
  intro e; subst e; exact h

/-- Blocks further up a chain have greater VDF heights. -/
theorem Line.lt {get : Store H A P} : ∀ {line : List (Hdr H A P)} {b : Hdr H A P},
    Line get (b :: line) → ∀ x ∈ line, x.vdfHeight < b.vdfHeight
  | [], _, _, x, hx => by simp at hx
  | q :: rest, b, h, x, hx => by
    have ⟨_, _, h1, h2, h3⟩ := h.step
    rcases List.mem_cons.1 hx with e | e
    · subst e; omega
    · have := Line.lt h3 x e; omega

theorem Line.tail {get : Store H A P} : ∀ {ext : List (Hdr H A P)} {b : Hdr H A P} {rest : List (Hdr H A P)},
    Line get (ext ++ b :: rest) → Line get (b :: rest)
  | [], _, _, h => h
  | [_], _, _, h => h.step.2.2.2.2
  | _ :: y :: ext, b, rest, h => Line.tail (ext := y :: ext) (Line.step (rest := ext ++ b :: rest) h).2.2.2.2

/-- `gather` on a chain: a prefix of it, cut after `n` predecessors. -/
theorem gather_line {get : Store H A P} : ∀ (n : Nat) {b : Hdr H A P} {rest : List (Hdr H A P)},
    Line get (b :: rest) → gather get n b = some ((b :: rest).take (n + 1))
  | 0, b, rest, h => by simp [gather]
  | n + 1, b, [], h => by
    have h' : get b.prev = none ∧ b.height = 0 ∧ b.vdfHeight = 0 := h
    simp [gather, h'.1, h'.2.1]
  | n + 1, b, q :: rest, h => by
    have ⟨h0, _, _, _, h3⟩ := h.step
    have := gather_line n h3
    simp [gather, h0, this]

theorem back_length_ge (fn : Fns H) : ∀ (l : List (Hdr H A P)), l.length ≤ (back fn l).length
  | [] => by simp
  | [b] => by simp [back]
  | b :: q :: rest => by
    have := back_length_ge fn (q :: rest)
    simp only [back, List.length_cons, List.length_append, List.length_reverse] at this ⊢
    omega

/-- The list of challenges of the first blocks of a chain, index by index. -/
theorem back_get {get : Store H A P} (fn : Fns H) : ∀ (k : Nat) {b : Hdr H A P} {rest : List (Hdr H A P)}
    (_ : Line get (b :: rest)) (t : Nat), t < (back fn ((b :: rest).take (k + 1))).length →
    (back fn ((b :: rest).take (k + 1)))[t]? = chalAt fn (b :: rest) ((b.vdfHeight : Int) - t)
  | 0, b, rest, h, t, ht => by
    have e : (b :: rest).take 1 = [b] := by simp
    rw [e] at ht ⊢
    simp only [back, List.length_cons, List.length_nil] at ht
    have : t = 0 := by omega
    subst this
    cases rest <;> simp [back, chalAt, iter]
  | k + 1, b, [], h, t, ht => by
    have e : [b].take (k + 1 + 1) = [b] := by simp
    rw [e] at ht ⊢
    simp only [back, List.length_cons, List.length_nil] at ht
    have : t = 0 := by omega
    subst this
    simp [back, chalAt, iter]
  | k + 1, b, q :: rest, h, t, ht => by
    have ⟨h0, _, h1, h2, h3⟩ := h.step
    have e : (b :: q :: rest).take (k + 1 + 1) = b :: q :: rest.take k := by simp
    have e2 : (q :: rest).take (k + 1) = q :: rest.take k := by simp
    rw [e] at ht ⊢
    simp only [back] at ht ⊢
    cases t with
    | zero => simp [chalAt, iter]
    | succ t =>
      have hb : chalAt fn (b :: q :: rest) ((b.vdfHeight : Int) - (t + 1 : Nat)) =
          chalAt fn (q :: rest) ((b.vdfHeight : Int) - (t + 1 : Nat)) := by
        rw [chalAt]
        · rw [if_neg (by omega)]
        · intro hh; cases hh
      rw [hb]
      simp only [List.getElem?_cons_succ]
      have lb : (between fn (some q) b).length = b.vdfCount - 1 := by simp [between]
      by_cases hc : t < b.vdfCount - 1
      · rw [List.getElem?_append_left (by simp only [List.length_reverse, lb]; exact hc)]
        rw [List.getElem?_reverse (by rw [lb]; exact hc), lb]
        have hq : (q.vdfHeight : Int) ≤ (b.vdfHeight : Int) - (t + 1 : Nat) := by omega
        have hv : ((b.vdfHeight : Int) - (t + 1 : Nat) - q.vdfHeight).toNat = b.vdfCount - 1 - 1 - t + 1 := by
          omega
        have hr : chalAt fn (q :: rest) ((b.vdfHeight : Int) - (t + 1 : Nat)) =
            some (iter fn.next (b.vdfCount - 1 - 1 - t + 1) q.challenge, q.spaceDiff) := by
          cases rest with
          | nil => rw [chalAt, if_pos hq, hv]
          | cons y ys =>
            rw [chalAt]
            · rw [if_pos hq, hv]
            · intro hh; cases hh
        rw [hr]
        simp only [between]
        rw [List.getElem?_map, List.getElem?_range (by omega)]
        rfl
      · rw [List.getElem?_append_right (by simp only [List.length_reverse, lb]; omega)]
        simp only [List.length_reverse, lb]
        have hl : t - (b.vdfCount - 1) < (back fn ((q :: rest).take (k + 1))).length := by
          rw [e2]
          simp only [List.length_cons, List.length_append, List.length_reverse, lb] at ht
          omega
        have := back_get fn k h3 (t - (b.vdfCount - 1)) hl
        rw [e2] at this
        rw [this]
        congr 1
        omega

theorem pad_length (fn : Fns H) : ∀ (n : Nat) (l : List (H × Nat)), l ≠ [] →
    (pad fn n l).length = l.length + n
  | 0, l, _ => by simp [pad]
  | n + 1, l, h => by
    have hg := List.getLast?_eq_some_getLast h
    simp only [pad, hg]
    rw [pad_length fn n _ (by simp)]
    simp; omega

theorem pad_old (fn : Fns H) : ∀ (n : Nat) (l : List (H × Nat)) (t : Nat), t < l.length →
    (pad fn n l)[t]? = l[t]?
  | 0, l, t, _ => by simp [pad]
  | n + 1, l, t, h => by
    have hn : l ≠ [] := by intro e; subst e; simp at h
    have hg := List.getLast?_eq_some_getLast hn
    simp only [pad, hg]
    rw [pad_old fn n _ t (by simp; omega), List.getElem?_append_left h]

theorem pad_new (fn : Fns H) : ∀ (n : Nat) (l : List (H × Nat)) (x : H × Nat) (j : Nat), l.getLast? = some x →
    j ≤ n → 1 ≤ j → (pad fn n l)[l.length - 1 + j]? = some (iter fn.before j x.1, x.2)
  | 0, l, x, j, _, h1, h2 => by omega
  | n + 1, l, x, j, hg, h1, h2 => by
    simp only [pad, hg]
    have hn : l ≠ [] := by intro e; subst e; simp at hg
    have hp : 0 < l.length := List.length_pos_iff.2 hn
    cases j with
    | zero => omega
    | succ j =>
      cases j with
      | zero =>
        rw [pad_old fn n _ _ (by simp; omega)]
        have : l.length - 1 + (0 + 1) = l.length := by omega
        rw [this]
        simp [iter]
      | succ j =>
        have := pad_new fn n (l ++ [(fn.before x.1, x.2)]) (fn.before x.1, x.2) (j + 1) (by simp) (by omega)
          (by omega)
        have e : l.length - 1 + (j + 1 + 1) = (l ++ [(fn.before x.1, x.2)]).length - 1 + (j + 1) := by
          simp; omega
        rw [e, this, ← iter_succ' fn.before (j + 1)]

/-- The challenges of a whole chain end with the genesis block's. -/
theorem back_last {get : Store H A P} (fn : Fns H) : ∀ {b : Hdr H A P} {rest : List (Hdr H A P)},
    Line get (b :: rest) → ∃ g, (b :: rest).getLast? = some g ∧ g.vdfHeight = 0 ∧
      (back fn (b :: rest)).getLast? = some (g.challenge, g.spaceDiff) ∧
      (back fn (b :: rest)).length = b.vdfHeight + 1 ∧
      (∀ h : Int, h < 0 → chalAt fn (b :: rest) h = some (iter fn.before (-h).toNat g.challenge, g.spaceDiff))
  | b, [], h => by
    have h' : get b.prev = none ∧ b.height = 0 ∧ b.vdfHeight = 0 := h
    refine ⟨b, rfl, h'.2.2, rfl, by simp [back, h'.2.2], fun k hk => ?_⟩
    rw [chalAt, if_neg (by rw [h'.2.2]; simpa using hk), h'.2.2]
    simp
  | b, q :: rest, h => by
    have ⟨h0, _, h1, h2, h3⟩ := h.step
    obtain ⟨g, g1, g2, g3, g4, g5⟩ := back_last fn h3
    refine ⟨g, by rw [List.getLast?_cons_cons]; exact g1, g2, ?_, ?_, fun k hk => ?_⟩
    · simp only [back]
      have : (between fn (some q) b).reverse ++ back fn (q :: rest) ≠ [] := by simp [back_ne]
      obtain ⟨y, ys, e⟩ := List.exists_cons_of_ne_nil this
      rw [e, List.getLast?_cons_cons, ← e, List.getLast?_append, g3]
      rfl
    · simp only [back, List.length_cons, List.length_append, List.length_reverse, g4, between, List.length_map,
        List.length_range]
      omega
    · rw [chalAt]
      · rw [if_neg (by omega)]; exact g5 k hk
      · intro hh; cases hh

/-- `find_challenge(block, offset)` on a chain. -/
theorem findChallenge_eq {get : Store H A P} (fn : Fns H) (p : Params) {b : Hdr H A P}
    {rest : List (Hdr H A P)} (h : Line get (b :: rest)) {offset : Nat}
    (ho : offset ≤ p.challengeDelay + p.base.maxVdfCount) :
    findChallenge fn p get b offset =
      chalAt fn (b :: rest) ((b.vdfHeight : Int) + offset - p.challengeDelay) := by
  unfold findChallenge
  by_cases hc : offset > p.challengeDelay
  · rw [if_pos hc]
    dsimp only
    rw [if_neg (by omega)]
    have e : ((b.vdfHeight : Int) + offset - p.challengeDelay - b.vdfHeight).toNat =
        offset - p.challengeDelay := by omega
    cases rest with
    | nil => rw [chalAt, if_pos (by omega), e]
    | cons y ys =>
      rw [chalAt]
      · rw [if_pos (by omega), e]
      · intro hh; cases hh
  · rw [if_neg hc]
    dsimp only
    rw [gather_line _ h]
    dsimp only
    rw [build_back]
    have hh : ((b.vdfHeight : Int) + offset - p.challengeDelay) =
        (b.vdfHeight : Int) - (p.challengeDelay - offset : Nat) := by omega
    rw [hh]
    generalize p.challengeDelay - offset = t
    by_cases hl : t < (back fn ((b :: rest).take (t + 1))).length
    · rw [pad_old _ _ _ _ hl]
      exact back_get fn t h t hl
    · have hlen := back_length_ge fn ((b :: rest).take (t + 1))
      have htake : (b :: rest).take (t + 1) = b :: rest := by
        apply List.take_of_length_le
        simp only [List.length_take] at hlen
        omega
      rw [htake] at hl hlen ⊢
      obtain ⟨g, g1, g2, g3, g4, g5⟩ := back_last fn h
      have := pad_new fn (t + 1 - (back fn (b :: rest)).length) (back fn (b :: rest)) _
        (t - b.vdfHeight) g3 (by omega) (by omega)
      have e : (back fn (b :: rest)).length - 1 + (t - b.vdfHeight) = t := by omega
      rw [e] at this
      rw [this, g5 _ (by omega)]
      congr 3
      omega

/-- Blocks above a height do not matter for the challenge at that height. -/
theorem chalAt_ext (fn : Fns H) {b : Hdr H A P} {rest : List (Hdr H A P)} {h : Int} :
    ∀ {ext : List (Hdr H A P)}, (∀ x ∈ ext, h < (x.vdfHeight : Int)) →
      chalAt fn (ext ++ b :: rest) h = chalAt fn (b :: rest) h
  | [], _ => rfl
  | x :: ext, hx => by
    have hxx := hx x (by simp)
    have ih := chalAt_ext fn (b := b) (rest := rest) (ext := ext) (fun y hy => hx y (by simp [hy]))
    rw [List.cons_append, chalAt]
    · rw [if_neg (by omega)]; exact ih
    · intro hh
      cases ext <;> cases hh

theorem walk_line {get : Store H A P} {target : Nat} : ∀ (fuel : Nat) {b : Hdr H A P}
    {rest : List (Hdr H A P)}, Line get (b :: rest) → b.vdfHeight < fuel →
    walk get target fuel (some b) =
      .ok (((b :: rest).dropWhile fun b => decide (b.vdfHeight > target)).head?)
  | 0, b, rest, h, hf => by omega
  | fuel + 1, b, rest, h, hf => by
    rw [walk]
    by_cases hc : b.vdfHeight > target
    · rw [if_pos hc, List.dropWhile_cons_of_pos (by simpa using hc)]
      cases rest with
      | nil =>
        have h' : get b.prev = none ∧ b.height = 0 ∧ b.vdfHeight = 0 := h
        rw [h'.1]
        cases fuel <;> rfl
      | cons q rest =>
        have ⟨h0, _, h1, h2, h3⟩ := h.step
        rw [h0]
        exact walk_line fuel h3 (by omega)
    · rw [if_neg hc, List.dropWhile_cons_of_neg (by simpa using hc)]
      rfl

/-- A part of a chain from some block on. -/
theorem Line.dropWhile {get : Store H A P} {f : Hdr H A P → Bool} : ∀ {line : List (Hdr H A P)},
    Line get line → line.dropWhile f ≠ [] → Line get (line.dropWhile f)
  | [], h, _ => h.elim
  | [g], h, hn => by
    by_cases hf : f g
    · rw [List.dropWhile_cons_of_pos hf] at hn; exact absurd rfl hn
    · rw [List.dropWhile_cons_of_neg hf]; exact h
  | b :: q :: rest, h, hn => by
    by_cases hf : f b
    · rw [List.dropWhile_cons_of_pos hf] at hn ⊢
      exact Line.dropWhile h.step.2.2.2.2 hn
    · rw [List.dropWhile_cons_of_neg hf]; exact h

theorem Line.ground {get : Store H A P} {h : Nat} : ∀ {line : List (Hdr H A P)}, Line get line →
    (line.dropWhile fun b => decide (b.vdfHeight > h)) ≠ []
  | [], hl => hl.elim
  | [g], hl => by
    have h' : get g.prev = none ∧ g.height = 0 ∧ g.vdfHeight = 0 := hl
    rw [List.dropWhile_cons_of_neg (by simp [h'.2.2])]
    simp
  | b :: q :: rest, hl => by
    by_cases hf : b.vdfHeight > h
    · rw [List.dropWhile_cons_of_pos (by simpa using hf)]
      exact Line.ground hl.step.2.2.2.2
    · rw [List.dropWhile_cons_of_neg (by simpa using hf)]
      simp

theorem findPrevClamped_line {get : Store H A P} : ∀ (n : Nat) {b : Hdr H A P} {rest : List (Hdr H A P)},
    Line get (b :: rest) → findPrevClamped get n b = ((b :: rest).take (n + 1)).getLast?
  | 0, b, rest, _ => by simp [findPrevClamped]
  | n + 1, b, [], h => by
    have h' : get b.prev = none ∧ b.height = 0 ∧ b.vdfHeight = 0 := h
    simp [findPrevClamped, h'.2.1]
  | n + 1, b, q :: rest, h => by
    have ⟨h0, hh, h1, h2, h3⟩ := h.step
    rw [findPrevClamped, if_neg hh, h0]
    dsimp only
    rw [findPrevClamped_line n h3]
    simp only [List.take_succ_cons, List.getLast?_cons_cons]

/-- `find_infusion(block, offset)` on a chain. -/
theorem findInfusion_eq {get : Store H A P} {p : Params} (hd : p.base.timeDiffDivider ≠ 0) {b : Hdr H A P}
    {rest : List (Hdr H A P)} (h : Line get (b :: rest)) (offset : Nat) :
    ∃ x, findInfusion p get b offset = .ok (some x) ∧
      stepFrom p (b :: rest) (b.vdfHeight + offset) = some x := by
  have hw : (if offset < p.infuseDelay then
      let delta := p.infuseDelay - offset
      let target := if b.vdfHeight > delta then b.vdfHeight - delta else 0
      walk get target (b.vdfHeight + 1) (some b)
    else .ok (some b)) = .ok (((b :: rest).dropWhile fun x =>
      decide (x.vdfHeight > b.vdfHeight + offset - p.infuseDelay)).head?) := by
    by_cases hc : offset < p.infuseDelay
    · rw [if_pos hc]
      dsimp only
      have ht : (if b.vdfHeight > p.infuseDelay - offset then b.vdfHeight - (p.infuseDelay - offset) else 0) =
          b.vdfHeight + offset - p.infuseDelay := by
        by_cases hg : b.vdfHeight > p.infuseDelay - offset
        · rw [if_pos hg]; omega
        · rw [if_neg hg]; omega
      rw [ht]
      exact walk_line _ h (by omega)
    · rw [if_neg hc, List.dropWhile_cons_of_neg (by simp; omega)]
      rfl
  have hne := Line.ground (h := b.vdfHeight + offset - p.infuseDelay) h
  have hl := Line.dropWhile h hne
  unfold findInfusion stepFrom infusedAt
  rw [hw]
  revert hne hl
  generalize ((b :: rest).dropWhile fun x =>
      decide (x.vdfHeight > b.vdfHeight + offset - p.infuseDelay)) = l
  intro hne hl
  cases l with
  | nil => exact absurd rfl hne
  | cons x xs =>
    simp only [List.head?_cons, Res.bind_ok]
    have e := findPrevClamped_line p.commitDelay hl
    have hn : ((x :: xs).take (p.commitDelay + 1)) ≠ [] := by simp
    have hg := List.getLast?_eq_some_getLast hn
    rw [hg] at e
    refine ⟨(x.hash, itersOf p (((x :: xs).take (p.commitDelay + 1)).getLast hn).timeDiff), ?_, ?_⟩
    · simp only [timeDiffOf, e, Res.bind_ok, blockIters, if_neg hd, itersOf]
    · rw [hg]; rfl

theorem getInfusion_eq {get : Store H A P} {p : Params} (hd : p.base.timeDiffDivider ≠ 0) {b : Hdr H A P}
    {rest : List (Hdr H A P)} (h : Line get (b :: rest)) (offset : Nat) :
    ∃ x, getInfusion p get b offset = .ok x ∧
      stepFrom p (b :: rest) (b.vdfHeight + offset) = some x := by
  obtain ⟨x, h1, h2⟩ := findInfusion_eq hd h offset
  exact ⟨x, by simp [getInfusion, h1], h2⟩

/-- Blocks above a height do not matter for what is infused at that height. -/
theorem infusedAt_ext {p : Params} {line : List (Hdr H A P)} {h : Nat} :
    ∀ {ext : List (Hdr H A P)}, (∀ x ∈ ext, h < x.vdfHeight) →
      infusedAt p (ext ++ line) h = infusedAt p line h
  | [], _ => rfl
  | x :: ext, hx => by
    have ih := infusedAt_ext (p := p) (line := line) (ext := ext) (fun y hy => hx y (by simp [hy]))
    unfold infusedAt at ih ⊢
    rw [List.cons_append, List.dropWhile_cons_of_pos (by simpa using hx x (by simp))]
    exact ih

end Verif.Time
