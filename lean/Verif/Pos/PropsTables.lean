import Verif.Pos.ToySort
import Verif.Pos.VerifyLemmas
/-
  C102-C104: what an accepted proof of space is.

  `Tree`, `Over` and `NoCollision` are in Spec.lean. `good_hashFns` (ToySort.lean): the functions of
  the code are `Good`, whatever the hashes are.
-/
namespace Verif.Pos

variable {α β ρ : Type} [DecidableEq α] {fn : Fns α β}
variable {sort sort' : List α → List Entry → List Entry}

/-! ### C102: the recomputation finds exactly the trees -/

/-- **C102.** Every result of the recomputation is the root of a tree over the given values, with the
    leaves from left to right. -/
theorem C102_sound (hg : Good fn) (hs : IsSort fn.lt sort) {X : List Nat} {outs : List (Out α)}
    (h : computeFull fn sort X = .ok outs) :
    ∀ o ∈ outs, Tree fn 8 o.xs o.y o.mt ∧ ∀ x ∈ o.xs, x ∈ X := by
  rcases computeFull_spec hg hs X with ⟨h1, _⟩ | ⟨outs', h1, h2, _⟩
  · rw [h] at h1; cases h1
  · rw [h] at h1; cases h1
    exact h2

/-- **C102.** No tree over the given values is missed, and each root is listed once. -/
theorem C102_complete (hg : Good fn) (hs : IsSort fn.lt sort) {X xs : List Nat} {y : Nat} {m : α}
    (ht : Tree fn 8 xs y m) (hx : ∀ x ∈ xs, x ∈ X) :
    ∃ outs, computeFull fn sort X = .ok outs ∧ (outs.map (·.mt)).Nodup ∧
      ∃ o ∈ outs, o.mt = m ∧ o.y = y := by
  rcases computeFull_spec hg hs X with ⟨_, h2⟩ | ⟨outs, h1, _, h3, h4, _⟩
  · exact absurd ⟨ht, hx⟩ (h2 xs y m)
  · exact ⟨outs, h1, h4, h3 xs y m ⟨ht, hx⟩⟩

/-- **C102.** It fails exactly if there is no tree, and reads nothing that does not exist. -/
theorem C102_fails (hg : Good fn) (hs : IsSort fn.lt sort) (X : List Nat) :
    computeFull fn sort X ≠ .ub ∧
    (computeFull fn sort X = .throw ↔ ¬ ∃ xs y m, Tree fn 8 xs y m ∧ ∀ x ∈ xs, x ∈ X) := by
  rcases computeFull_spec hg hs X with ⟨h1, h2⟩ | ⟨outs, h1, h2, _, _, h5⟩
  · rw [h1]
    refine ⟨(by intro h; cases h), fun _ => ?_, fun _ => rfl⟩
    rintro ⟨xs, y, m, h⟩
    exact h2 xs y m h
  · rw [h1]
    refine ⟨(by intro h; cases h), (fun h => by cases h), ?_⟩
    intro hn
    cases outs with
    | nil => exact absurd rfl h5
    | cons o rest => exact absurd ⟨o.xs, o.y, o.mt, h2 o (by simp)⟩ hn

/-- **C102.** The roots do not depend on the order in which the threads or the GPU fill table 1, nor on
    how the sort orders equal entries. -/
theorem C102_order (hg : Good fn) (hs : IsSort fn.lt sort) (hs' : IsSort fn.lt sort') {X X' : List Nat}
    (hx : ∀ x, x ∈ X ↔ x ∈ X') {outs outs' : List (Out α)} (h : computeFull fn sort X = .ok outs)
    (h' : computeFull fn sort' X' = .ok outs') :
    (outs.map fun o => (o.y, o.mt)).Perm (outs'.map fun o => (o.y, o.mt)) := by
  have key : ∀ {s1 s2 : List α → List Entry → List Entry} (_ : IsSort fn.lt s1) (_ : IsSort fn.lt s2)
      {A B : List Nat} (_ : ∀ x, x ∈ A → x ∈ B) {p q : List (Out α)} (_ : computeFull fn s1 A = .ok p)
      (_ : computeFull fn s2 B = .ok q), ∀ z, z ∈ p.map (fun o => (o.y, o.mt)) →
        z ∈ q.map (fun o => (o.y, o.mt)) := by
    intro s1 s2 h1 h2 A B hab p q hp hq z hz
    obtain ⟨o, ho, rfl⟩ := List.mem_map.1 hz
    obtain ⟨ht, hxs⟩ := C102_sound hg h1 hp o ho
    obtain ⟨q', hq', _, o', ho', ha, hb⟩ := C102_complete hg h2 ht (fun x hx => hab x (hxs x hx))
    rw [hq] at hq'
    cases hq'
    exact List.mem_map.2 ⟨o', ho', by rw [ha, hb]⟩
  have nod : ∀ {s1 : List α → List Entry → List Entry} (_ : IsSort fn.lt s1) {A : List Nat}
      {p : List (Out α)} (_ : computeFull fn s1 A = .ok p), (p.map fun o => (o.y, o.mt)).Nodup := by
    intro s1 h1 A p hp
    rcases computeFull_spec hg h1 A with ⟨hc, _⟩ | ⟨q, hq, _, _, hn, _⟩
    · rw [hp] at hc; cases hc
    · rw [hp] at hq; cases hq
      have : (p.map (·.mt)) = (p.map fun o => (o.y, o.mt)).map (·.2) := by
        rw [List.map_map]; rfl
      rw [this] at hn
      exact List.Pairwise.of_map _ (fun a b hab h => hab (by rw [h])) hn
  rw [List.perm_ext_iff_of_nodup (nod hs h) (nod hs' h')]
  intro z
  exact ⟨key hs hs' (fun x => (hx x).1) h h' z, key hs' hs (fun x => (hx x).2) h' h z⟩

/-! ### C103: verification -/

variable {c : Chal β ρ} {xs order : List Nat}

/-- **C103.** An accepted proof is a tree with the given leaves, in this order; its `Y` is in the range
    of the challenge; after the hard fork it passes the filter and the result is the hash of the proof. -/
theorem C103_sound (hg : Good fn) (hs : IsSort fn.lt sort) {r : ρ}
    (h : verify fn sort c xs order = .ok r) :
    ∃ y m, Tree fn 8 xs y m ∧ c.y0 ≤ y ∧ y < c.y0 + 2 ^ c.plotFilter ∧
      (c.hardFork = true → c.postHash (fn.cut m) < 2 ^ (256 - c.postFilter) ∧ r = c.proofHash xs) ∧
      (c.hardFork = false → r = c.quality (fn.cut m)) := by
  obtain ⟨_, o, ho, hf⟩ := verify_ok h
  obtain ⟨h1, h2, h3, h4, h5⟩ := finish_ok hf
  have := (single hg hs ho).1.1
  rw [h3] at this
  exact ⟨o.y, o.mt, this, h1, h2, h4, h5⟩

/-- **C103.** No second proof is hidden in the values of an accepted one: all trees over them have
    the same root. -/
theorem C103_unique (hg : Good fn) (hs : IsSort fn.lt sort) {r : ρ} (hx : ∀ x ∈ xs, x < 2 ^ 32)
    (ho : IsOrder 0 xs order) (h : verify fn sort c xs order = .ok r) {xs1 xs2 : List Nat} {y1 y2 : Nat}
    {m1 m2 : α} (h1 : Over fn 8 xs xs1 y1 m1) (h2 : Over fn 8 xs xs2 y2 m2) : m1 = m2 ∧ y1 = y2 := by
  obtain ⟨_, o, hc, _⟩ := verify_ok h
  have hm := mem_order hx ho
  have hu := (single hg hs hc).2
  obtain ⟨a1, b1⟩ := hu xs1 y1 m1 (over_mono h1 fun x => (hm x).2)
  obtain ⟨a2, b2⟩ := hu xs2 y2 m2 (over_mono h2 fun x => (hm x).2)
  exact ⟨by rw [a1, a2], by rw [b1, b2]⟩

/-- **C103.** The same values in another order, or some of them, are no other proof: nobody can vary
    an accepted proof to get another hash. -/
theorem C103_rigid (hg : Good fn) (hs : IsSort fn.lt sort) (hs' : IsSort fn.lt sort') {r r' : ρ}
    (hx : ∀ x ∈ xs, x < 2 ^ 32) (ho : IsOrder 0 xs order) (h : verify fn sort c xs order = .ok r)
    {c' : Chal β ρ} {xs' order' : List Nat} (hsub : ∀ x ∈ xs', x ∈ xs)
    (h' : verify fn sort' c' xs' order' = .ok r') (hn : NoCollision fn xs) : xs' = xs := by
  obtain ⟨y, m, ht, _⟩ := C103_sound hg hs h
  obtain ⟨y', m', ht', _⟩ := C103_sound hg hs' h'
  have hm := (C103_unique hg hs hx ho h ⟨ht, fun x hx => hx⟩ ⟨ht', hsub⟩).1
  subst hm
  exact hn xs' xs y' y m ⟨ht', hsub⟩ ⟨ht, fun x hx => hx⟩

/-- **C103.** A tree in the range of the challenge that passes the filter is accepted, if no other tree
    can be made from its leaves. -/
theorem C103_complete (hg : Good fn) (hs : IsSort fn.lt sort) (hx : ∀ x ∈ xs, x < 2 ^ 32)
    (ho : IsOrder 0 xs order) {y : Nat} {m : α} (ht : Tree fn 8 xs y m)
    (hy : c.y0 ≤ y ∧ y < c.y0 + 2 ^ c.plotFilter)
    (hp : c.hardFork = true → c.postHash (fn.cut m) < 2 ^ (256 - c.postFilter))
    (hu : ∀ (xs' : List Nat) (y' : Nat) (m' : α), Over fn 8 xs xs' y' m' → m' = m ∧ xs' = xs) :
    verify fn sort c xs order = .ok (if c.hardFork then c.proofHash xs else c.quality (fn.cut m)) := by
  have hm := mem_order hx ho
  obtain ⟨o, h1, h2, h3, h4⟩ := single_of hg hs (X := order) (xs := xs) (y := y) (m := m)
    ⟨ht, fun x hx => (hm x).2 hx⟩ (fun xs' y' m' h => (hu xs' y' m' (over_mono h fun x => (hm x).1)).1)
  rw [verify_single (tree_length ht) h1]
  have hxs := (hu _ _ _ (over_mono h2 fun x => (hm x).1)).2
  subst h3 h4
  exact finish_of hy hxs hp

/-- **C103.** All nodes decide the same, with or without threads (with a GPU: C106), whatever their sort does with
    equal entries. -/
theorem C103_same (hg : Good fn) (hs : IsSort fn.lt sort) (hs' : IsSort fn.lt sort') {order' : List Nat}
    (hx : ∀ x ∈ xs, x < 2 ^ 32) (ho : IsOrder 0 xs order) (ho' : IsOrder 0 xs order')
    (hn : NoCollision fn xs) : verify fn sort c xs order = verify fn sort' c xs order' := by
  by_cases hl : ¬ xs.length = 256
  · unfold verify Res.chk
    rw [if_neg hl]
    rfl
  rw [Decidable.not_not] at hl
  have hm := mem_order hx ho
  have hm' := mem_order hx ho'
  have hmm : ∀ x, x ∈ order ↔ x ∈ order' := fun x => (hm x).trans (hm' x).symm
  rcases computeFull_spec hg hs order with ⟨h1, h2⟩ | ⟨outs, h1, h2, h3, h4, h5⟩
  · rcases computeFull_spec hg hs' order' with ⟨h1', _⟩ | ⟨outs', h1', h2', _, _, h5'⟩
    · unfold verify
      rw [h1, h1']
    · cases outs' with
      | nil => exact absurd rfl h5'
      | cons o rest =>
        exact absurd (over_mono (h2' o (by simp)) fun x => (hmm x).2) (h2 _ _ _)
  · rcases computeFull_spec hg hs' order' with ⟨h1', h2'⟩ | ⟨outs', h1', h2', h3', h4', h5'⟩
    · cases outs with
      | nil => exact absurd rfl h5
      | cons o rest =>
        exact absurd (over_mono (h2 o (by simp)) fun x => (hmm x).1) (h2' _ _ _)
    · have hlen := (C102_order hg hs hs' hmm h1 h1').length_eq
      rw [List.length_map, List.length_map] at hlen
      match outs, outs' with
      | [], _ => exact absurd rfl h5
      | _, [] => exact absurd rfl h5'
      | [o], [o'] =>
        rw [verify_single hl h1, verify_single hl h1']
        obtain ⟨a, ha⟩ := single hg hs h1
        obtain ⟨a', _⟩ := single hg hs' h1'
        obtain ⟨e1, e2⟩ := ha _ _ _ (over_mono a' fun x => (hmm x).2)
        refine finish_congr e2.symm e1.symm ?_
        rw [e1] at a'
        exact hn _ _ _ _ _ (over_mono a fun x => (hm x).1) (over_mono a' fun x => (hm' x).1)
      | [_], _ :: _ :: _ => simp at hlen
      | _ :: _ :: _, [_] => simp at hlen
      | _ :: _ :: _, _ :: _ :: _ =>
        unfold verify
        rw [h1, h1']
        rfl

/-- **C103.** Verification reads nothing that does not exist. -/
theorem C103_defined (hg : Good fn) (hs : IsSort fn.lt sort) : verify fn sort c xs order ≠ .ub := by
  by_cases hl : xs.length = 256
  · rcases computeFull_spec hg hs order with ⟨h1, _⟩ | ⟨outs, h1, _⟩
    · unfold verify Res.chk
      rw [if_pos hl, Res.bind_ok, h1]
      intro h; cases h
    · match outs with
      | [] =>
        unfold verify Res.chk
        rw [if_pos hl, Res.bind_ok, h1]
        intro h; cases h
      | [o] => rw [verify_single hl h1]; exact finish_ne_ub
      | _ :: _ :: _ =>
        unfold verify Res.chk
        rw [if_pos hl, Res.bind_ok, h1]
        intro h; cases h
  · unfold verify Res.chk
    rw [if_neg hl]
    intro h; cases h

/-! ### C104: what a plot gives is accepted -/

/-- **C104.** The proof recomputed from the values in a plot, of which low bits were dropped, is accepted
    by every node, for every challenge in whose range it is. -/
theorem C104_accepted (hg : Good fn) (hs : IsSort fn.lt sort) (hs' : IsSort fn.lt sort')
    {xbits : Nat} (hb : xbits ≤ 32) {stored order order' out : List Nat} {b : β}
    (ho : IsOrder xbits stored order) (h : fullProof fn sort order = .ok (out, b))
    (hn : NoCollision fn order) (ho' : IsOrder 0 out order') :
    ∃ y m, Tree fn 8 out y m ∧ fn.cut m = b ∧
      ∀ c : Chal β ρ, c.y0 ≤ y → y < c.y0 + 2 ^ c.plotFilter →
        (c.hardFork = true → c.postHash b < 2 ^ (256 - c.postFilter)) →
        verify fn sort' c out order' = .ok (if c.hardFork then c.proofHash out else c.quality b) := by
  unfold fullProof at h
  obtain ⟨outs, h1, h2⟩ := Res.bind_eq_ok.1 h
  match outs, h1, h2 with
  | [o], h1, h2 =>
    cases h2
    obtain ⟨hov, hu⟩ := single hg hs h1
    refine ⟨o.y, o.mt, hov.1, rfl, ?_⟩
    intro c hy1 hy2 hp
    refine C103_complete hg hs' ?_ ho' hov.1 ⟨hy1, hy2⟩ hp ?_
    · intro x hx
      obtain ⟨v, _, hv⟩ := (ho.2 x).1 (hov.2 x hx)
      exact expand_lt hb hv
    · intro xs' y' m' hov'
      have hov'' := over_mono hov' hov.2
      obtain ⟨e1, e2⟩ := hu xs' y' m' hov''
      subst e1
      exact ⟨rfl, hn _ _ _ _ _ hov'' hov⟩

/-! ### a concrete case -/

/-- The cases of C102 and C103 are not empty: a proof in a toy instance of the hashes is accepted. None
    of its values is below `2^ksize`: `verify` does not look at that. -/
theorem C103_case : verify exFn isort exChal exXs exXs.reverse = .ok 256 ∧
    ∀ x ∈ exXs, 2 ^ 12 ≤ x := by
  decide +kernel

/-- It meets the hypotheses: there is no collision, the sort is one, the order is possible. -/
example : NoCollision exFn exXs ∧ Good exFn ∧ IsSort exFn.lt isort ∧ IsOrder 0 exXs exXs.reverse ∧
    ∀ x ∈ exXs, x < 2 ^ 32 :=
  ⟨ex_noCollision, good_hashFns _ _ _, isSort_isort _ _ _,
    isOrder_zero_of (by decide +kernel) (by decide +kernel) (fun x => by simp), by decide +kernel⟩

/-- The case of C104 is not empty: the plot keeps every value without its lowest bit. -/
example : IsOrder 1 exStored exXs ∧ ∃ b, fullProof exFn isort exXs = .ok (exXs, b) := by
  refine ⟨⟨by decide +kernel, ?_⟩, ?_⟩
  · intro x
    constructor
    · exact (by decide +kernel : ∀ x ∈ exXs, ∃ v ∈ exStored, x ∈ expand 1 v) x
    · rintro ⟨v, hv, hx⟩
      exact (by decide +kernel : ∀ v ∈ exStored, ∀ x ∈ expand 1 v, x ∈ exXs) v hv x hx
  · exact ⟨(toyNode 8 0).take 12, by decide +kernel⟩

end Verif.Pos
