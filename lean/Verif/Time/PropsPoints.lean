import Verif.Time.NextLemmas
import Verif.Time.Examples
/-
  C109: the verified VDF points of a block, and the points a new block is made from.
-/
namespace Verif.Time
variable {H A P : Type} [DecidableEq H]

/-- C109: the search for the points of a block returns, on every chain. -/
theorem C109_total {get : Store H A P} {p : Params} (hd : p.base.timeDiffDivider ≠ 0)
    (tree : List (Point H A)) {b prev : Hdr H A P} {rest : List (Hdr H A P)} (hb : get b.prev = some prev)
    (h : Line get (prev :: rest)) : ∃ l, findVdfPoints p get tree b = .ok l := by
  obtain ⟨r, hr⟩ := pointsBack_total (tree := tree) hd h b.vdfCount b.vdfOutput
  exact ⟨r.getD [], by rw [findVdfPoints, hb]; simp only [hr, Res.bind_ok]⟩

/-- C109: the points that a synced node demands for a block: as many as the block claims VDF heights, all
    verified, leading from the output of the previous block to the output of this one, each with the
    infused block and the iterations that belong to its height. -/
theorem C109_found {get : Store H A P} {p : Params} (hd : p.base.timeDiffDivider ≠ 0)
    {tree : List (Point H A)} {b prev : Hdr H A P} {rest : List (Hdr H A P)} (hb : get b.prev = some prev)
    (h : Line get (prev :: rest)) {l : List (Point H A)} (e : findVdfPoints p get tree b = .ok l)
    (hl : l ≠ []) :
    l.length = b.vdfCount ∧ Leads p (prev :: rest) prev.vdfHeight prev.vdfOutput l b.vdfOutput ∧
      ∀ q ∈ l, q ∈ tree := by
  rw [findVdfPoints, hb] at e
  obtain ⟨r, h1, h2⟩ := Res.bind_eq_ok.1 e
  cases r with
  | none => cases h2; exact absurd rfl hl
  | some r => cases h2; exact pointsBack_sound hd h h1

/-- C109: and if such points are there, they are found, as long as no two different inputs lead to the
    same output. -/
theorem C109_finds {get : Store H A P} {p : Params} (hd : p.base.timeDiffDivider ≠ 0)
    {tree : List (Point H A)} {b prev : Hdr H A P} {rest : List (Hdr H A P)} (hb : get b.prev = some prev)
    (h : Line get (prev :: rest))
    (hu : ∀ x ∈ tree, ∀ y ∈ tree, x.output = y.output → x.input = y.input) {c : List (Point H A)}
    (hc : c ≠ []) (hn : c.length = b.vdfCount) (hm : ∀ q ∈ c, q ∈ tree)
    (hl : Leads p (prev :: rest) prev.vdfHeight prev.vdfOutput c b.vdfOutput) :
    ∃ l, findVdfPoints p get tree b = .ok l ∧ l ≠ [] := by
  obtain ⟨r, hr⟩ := pointsBack_complete hd h hu b.vdfCount hn hm hl
  refine ⟨r, by rw [findVdfPoints, hb]; simp only [hr, Res.bind_ok, Option.getD_some], ?_⟩
  have := (pointsBack_sound hd h hr).1
  intro e
  subst e
  rw [← hn] at this
  exact hc (List.length_eq_zero_iff.1 this.symm)

/-- What a node looks for when it wants to make a block: points after `b`, at most `max_vdf_count`, that
    lead on from its output. -/
def Chain (p : Params) (line : List (Hdr H A P)) (b : Hdr H A P) (index : List (Point H A))
    (c : List (Point H A)) : Prop :=
  c.length ≤ p.base.maxVdfCount ∧ (∀ q ∈ c, q ∈ index) ∧
    ∃ y, Leads p line b.vdfHeight b.vdfOutput c y

theorem reaches_of_leads {p : Params} {line : List (Hdr H A P)} {b : Hdr H A P} {index : List (Point H A)}
    {c : List (Point H A)} {y : H} (hl : Leads p line b.vdfHeight b.vdfOutput c y)
    (hm : ∀ q ∈ c, q ∈ index) : ∀ i < c.length, ∃ q, c[i]? = some q ∧ Reaches p line b index i q := by
  intro i hi
  have e : c.take (i + 1) = c.take i ++ [c[i]] := by
    rw [List.take_succ_eq_append_getElem hi]
  have hs : c.take (i + 1) ++ c.drop (i + 1) = c := List.take_append_drop _ _
  obtain ⟨z, h1, h2⟩ := Leads.split (a := c.take (i + 1)) (b := c.drop (i + 1)) (by rw [hs]; exact hl)
  refine ⟨c[i], List.getElem?_eq_getElem hi, c.take i, by simp; omega, ?_, ?_⟩
  · rw [e] at h1
    have hz : c[i].output = z := by
      obtain ⟨w, _, w2⟩ := Leads.split h1
      exact w2.2.2
    rw [hz]; exact h1
  · intro x hx
    rw [← e] at hx
    exact hm x (List.mem_of_mem_take hx)

/-- C109: if every verified point claims the position its input really has, then the points a block is made
    from are a chain of points as `find_vdf_points` demands it, no chain of verified points is longer,
    and among the longest chains it is one whose last point arrived first. -/
theorem C109_next {get : Store H A P} {p : Params} (hd : p.base.timeDiffDivider ≠ 0)
    {pick : List (Point H A) → Option (Point H A)} (hpick : PicksFirst pick) {index : List (Point H A)}
    {b : Hdr H A P} {rest : List (Hdr H A P)} (h : Line get (b :: rest)) {pos : H → Nat}
    (hh : Honest index pos) (hp : pos b.vdfOutput = b.vdfIters) (hs : b.vdfIters < 2 ^ 64) :
    ∃ l, findNext p get pick index b = .ok l ∧ Chain p (b :: rest) b index l ∧
      (∀ c, Chain p (b :: rest) b index c → c.length ≤ l.length) ∧
      (∀ c, Chain p (b :: rest) b index c → c.length = l.length → ∀ q z, c.getLast? = some q →
        l.getLast? = some z → z.recvTime ≤ q.recvTime) := by
  obtain ⟨i, m, peaks, e, inv, _, hi, hend⟩ := nextLoop_spec hd h hh hp p.base.maxVdfCount
    (inv_init (p := p) (line := b :: rest) (index := index) hs)
  have e : nextLoop p get index b p.base.maxVdfCount 0 b.vdfIters [(b.vdfOutput, none)] [] = .ok (m, peaks) := e
  rw [Nat.zero_add] at hi hend
  have longest : ∀ c, Chain p (b :: rest) b index c → c.length ≤ i := by
    intro c ⟨c1, c2, y, c3⟩
    rcases hend with hend | hend
    · omega
    · refine Nat.le_of_not_lt fun hlt => ?_
      obtain ⟨q, _, hr⟩ := reaches_of_leads c3 c2 i hlt
      exact hend q hr
  unfold findNext
  rw [e]
  simp only [Res.bind_ok]
  cases i with
  | zero =>
    have hnil : peaks = [] := by
      refine List.eq_nil_iff_forall_not_mem.2 fun q hq => ?_
      obtain ⟨j, hj, _⟩ := (inv.peaks q).1 hq
      omega
    rw [hnil, hpick.1]
    refine ⟨[], rfl, ⟨by simp, by simp, b.vdfOutput, rfl⟩, longest, ?_⟩
    intro c _ _ q z _ hz
    simp at hz
  | succ j =>
    obtain ⟨q, hq, hpk, hmin⟩ := hpick.2 peaks (inv.live (by omega))
    obtain ⟨j', hj, hr⟩ := (inv.peaks q).1 hq
    have ej : j' = j := by omega
    subst ej
    have f := inv.fits hh hp (by omega) hr
    obtain ⟨l, w1, w2, w3, w4⟩ := inv.path hh hp (by omega) f
    have hmem : ∀ x ∈ l.reverse ++ [q], x ∈ index := by
      intro x hx
      refine w4 x ?_
      simpa [or_comm] using hx
    have hnd := (leads_starts hh w3 hmem).2
    have hlen := nodup_le hnd hmem
    simp only [List.length_append, List.length_reverse, w2, List.length_cons, List.length_nil] at hlen
    rw [hpk, walkMap_mono w1 (by omega)]
    simp only [Res.bind_ok]
    refine ⟨_, rfl, ⟨by simp [w2]; omega, ?_, q.output, ?_⟩, ?_, ?_⟩
    · intro x hx
      exact hmem x (by simpa [or_comm] using hx)
    · rw [List.reverse_cons]; exact w3
    · intro c hc
      have := longest c hc
      simp [w2]; omega
    · intro c hc hcl x z hx hz
      simp only [List.reverse_cons, List.getLast?_append, List.getLast?_singleton, Option.some_or,
        Option.some.injEq] at hz
      subst hz
      refine hmin x ((inv.peaks x).2 ⟨j', rfl, ?_⟩)
      obtain ⟨c1, c2, y, c3⟩ := hc
      have hcl : c.length = j' + 1 := by simpa [w2] using hcl
      obtain ⟨x', hx', hr'⟩ := reaches_of_leads c3 c2 j' (by omega)
      rw [List.getLast?_eq_getElem?, hcl] at hx
      rw [show j' + 1 - 1 = j' by omega, hx'] at hx
      cases hx
      exact hr'

/-- C109: a block made from these points, with as many VDF heights and the output of the last point, is one
    for which every node that has verified the points finds them. -/
theorem C109_made {get : Store H A P} {p : Params} (hd : p.base.timeDiffDivider ≠ 0)
    {pick : List (Point H A) → Option (Point H A)} (hpick : PicksFirst pick) {index tree : List (Point H A)}
    {b made : Hdr H A P} {rest : List (Hdr H A P)} (h : Line get (b :: rest)) {pos : H → Nat}
    (hh : Honest index pos) (hp : pos b.vdfOutput = b.vdfIters) (hs : b.vdfIters < 2 ^ 64)
    {l : List (Point H A)} (e : findNext p get pick index b = .ok l) {z : Point H A}
    (hz : l.getLast? = some z) (h1 : get made.prev = some b) (h2 : made.vdfCount = l.length)
    (h3 : made.vdfOutput = z.output) (ht : ∀ q ∈ l, q ∈ tree)
    (hu : ∀ x ∈ tree, ∀ y ∈ tree, x.output = y.output → x.input = y.input) :
    ∃ l', findVdfPoints p get tree made = .ok l' ∧ l' ≠ [] := by
  obtain ⟨l0, e0, ⟨c1, c2, y, c3⟩, _⟩ := C109_next hd hpick h hh hp hs
  rw [e] at e0
  cases e0
  have hne : l ≠ [] := by intro e; subst e; simp at hz
  refine C109_finds hd h1 h hu hne h2.symm ht ?_
  rw [h3]
  obtain ⟨a, q, rfl⟩ : ∃ a q, l = a ++ [q] :=
    ⟨l.dropLast, l.getLast hne, (List.dropLast_concat_getLast hne).symm⟩
  simp only [List.getLast?_append, List.getLast?_singleton, Option.some_or, Option.some.injEq] at hz
  subst hz
  obtain ⟨w, w1, w2⟩ := Leads.split c3
  have : q.output = y := w2.2.2
  rw [this]
  exact c3

/-- The first point with the least time of arrival, one way of sorting. -/
def firstOf : List (Point H A) → Option (Point H A)
  | [] => none
  | q :: rest =>
    match firstOf rest with
    | none => some q
    | some x => if q.recvTime ≤ x.recvTime then some q else some x

omit [DecidableEq H] in
theorem firstOf_picks : PicksFirst (firstOf : List (Point H A) → Option (Point H A)) := by
  refine ⟨rfl, fun l => ?_⟩
  induction l with
  | nil => intro h; exact absurd rfl h
  | cons q rest ih =>
    intro _
    rw [firstOf]
    cases rest with
    | nil => exact ⟨q, by simp, rfl, by simp⟩
    | cons y ys =>
      obtain ⟨x, hx, e, hm⟩ := ih (by simp)
      rw [e]
      simp only
      by_cases hc : q.recvTime ≤ x.recvTime
      · rw [if_pos hc]
        refine ⟨q, by simp, rfl, fun z hz => ?_⟩
        rcases List.mem_cons.1 hz with e | hz
        · subst e; exact Int.le_refl _
        · exact Int.le_trans hc (hm z hz)
      · rw [if_neg hc]
        refine ⟨x, List.mem_cons_of_mem _ hx, rfl, fun z hz => ?_⟩
        rcases List.mem_cons.1 hz with e | hz
        · subst e; omega
        · exact hm z hz

/-! The example chain, with points after the block at VDF height 2 (20 iterations, output 502). -/

/-- Two steps after the block, by an honest time lord, and a rival for the first step that came earlier. -/
def exA : Point Nat Nat := ⟨20, 10, 502, 600, 1000, 1, 5⟩
def exB : Point Nat Nat := ⟨30, 10, 600, 700, 1001, 1, 8⟩
def exR : Point Nat Nat := ⟨20, 10, 502, 650, 1000, 2, 4⟩

def exPos : Nat → Nat := fun h =>
  if h = 502 then 20 else if h = 600 then 30 else if h = 650 then 30 else if h = 700 then 40 else 0

theorem ex109_honest : Honest [exR, exA, exB] exPos := by unfold Honest; decide

/-- A block over both steps. -/
def exMade : Hdr Nat Nat Nat := exHdr 1003 1001 0 700 2 4 2 40 12

/-- The longer chain wins over the earlier point, and a block made of it is recognised, also by a node that
    received the points in another order; a block with another output is not. -/
theorem ex109 :
    findNext exParams exGet firstOf [exR, exA, exB] ex1 = .ok [exA, exB] ∧
    findNext exParams exGet firstOf [exR, exA] ex1 = .ok [exR] ∧
    findVdfPoints exParams exGet [exB, exA, exR] exMade = .ok [exA, exB] ∧
    findVdfPoints exParams exGet [exA, exB, exR] { exMade with vdfOutput := 650 } = .ok [] ∧
    findVdfPoints exParams exGet [exA, exR] exMade = .ok [] := by decide

/-- A point that claims another position than its input has: it starts from the output of the block at 20
    iterations, but says 30; it infuses what belongs to the second step. Nothing in the verification of a
    proof of time looks at `start`, so its author needs nothing but the work for one step. -/
def exBad : Point Nat Nat := ⟨30, 10, 502, 666, 1001, 3, 6⟩

/-- The block that a node makes from that point. -/
def exBadMade : Hdr Nat Nat Nat := exHdr 1004 1001 0 666 2 3 1 30 12

/-- C109 fails without the assumption on positions. With that point and one honest point for the first step,
    the search returns the bad point alone: not a chain from the block, since the first step must infuse
    another block. A block made from it is refused by every node, this one included, although the honest
    point would have made a good block. And with the honest points for both steps it can return a chain
    shorter than the longest. -/
theorem C109_wrong_start :
    findNext exParams exGet firstOf [exA] ex1 = .ok [exA] ∧
    findNext exParams exGet firstOf [exA, exBad] ex1 = .ok [exBad] ∧
    findVdfPoints exParams exGet [exA, exBad] exBadMade = .ok [] ∧
    findNext exParams exGet firstOf [exA, exB, exBad] ex1 = .ok [exBad] := by decide

end Verif.Time
