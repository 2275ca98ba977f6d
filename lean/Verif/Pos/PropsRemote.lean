import Verif.Pos.Remote
import Verif.Pos.PropsTables

/-!
# C166: a proof server gives what the node would have computed itself
-/
namespace Verif.Pos

variable {α β : Type} [DecidableEq α] {fn : Fns α β} {sort : List α → List Entry → List Entry}

theorem slice_append (A l B : List Nat) : slice (A ++ (l ++ B)) A.length l.length = .ok l := by
  induction l generalizing A with
  | nil => rfl
  | cons x l ih =>
    have h : (A ++ (x :: l ++ B))[A.length]? = some x := by simp
    have h2 := ih (A ++ [x])
    rw [List.length_append, List.length_singleton, List.append_assoc, List.singleton_append] at h2
    show slice (A ++ (x :: l ++ B)) A.length (l.length + 1) = _
    unfold slice
    rw [h]
    simp only [List.cons_append] at h2 ⊢
    rw [h2]
    rfl

theorem rows_ok (c : Nat) (A : List Nat) (i : Nat) (hA : A.length = i * c) (outs : List (Row β))
    (ho : ∀ o ∈ outs, o.xs.length = c) :
    rows (A ++ outs.flatMap fun o => o.xs) c i (outs.map fun o => (o.y, o.mt)) = .ok outs := by
  induction outs generalizing A i with
  | nil => rfl
  | cons o outs ih =>
    have hc := ho o List.mem_cons_self
    have h1 : slice (A ++ (o.xs ++ outs.flatMap fun o => o.xs)) (i * c) c = .ok o.xs := by
      have := slice_append A o.xs (outs.flatMap fun o => o.xs)
      rw [hA, hc] at this
      exact this
    have h2 := ih (A ++ o.xs) (i + 1) (by rw [List.length_append, hA, hc, Nat.succ_mul])
      (fun p hp => ho p (List.mem_cons_of_mem _ hp))
    rw [List.append_assoc] at h2
    simp only [List.map_cons, List.flatMap_cons, rows]
    rw [h1, h2]
    rfl

theorem flat_length (outs : List (Row β)) (c : Nat) (ho : ∀ o ∈ outs, o.xs.length = c) :
    (outs.flatMap fun o => o.xs).length = outs.length * c := by
  induction outs with
  | nil => simp
  | cons o outs ih =>
    rw [List.flatMap_cons, List.length_append, ih fun p hp => ho p (List.mem_cons_of_mem _ hp),
      ho o List.mem_cons_self, List.length_cons, Nat.succ_mul, Nat.add_comm]

def toRow (fn : Fns α β) (o : Out α) : Row β := { y := o.y, mt := fn.cut o.mt, xs := o.xs }

/-- The server hands out one row for each entry of the computation, with the values of this entry. -/
theorem serve_eq (hg : Good fn) (hs : IsSort fn.lt sort) (ksize xbits : Int) (order : List Nat) :
    serve fn sort ksize xbits order = (do
      Res.chk (¬ (ksize < 8 ∨ ksize > 32))
      Res.chk (¬ (xbits < 0 ∨ xbits > ksize))
      let outs ← computeFull fn sort order
      .ok (outs.map (toRow fn))) := by
  unfold serve localCompute Res.chk
  by_cases h1 : ¬ (ksize < 8 ∨ ksize > 32)
  · by_cases h2 : ¬ (xbits < 0 ∨ xbits > ksize)
    · rw [if_pos h1, if_pos h2]
      cases hc : computeFull fn sort order with
      | throw => rfl
      | ub => rfl
      | ok outs =>
        have hlen : ∀ r ∈ outs.map (toRow fn), r.xs.length = 256 := by
          intro r hr
          obtain ⟨o, ho, rfl⟩ := List.mem_map.1 hr
          exact tree_length (C102_sound hg hs hc o ho).1
        have hfl : (outs.flatMap fun o => o.xs) = (outs.map (toRow fn)).flatMap fun o => o.xs := by
          rw [List.flatMap_map]; rfl
        have hent : (outs.map fun o => (o.y, fn.cut o.mt)) = (outs.map (toRow fn)).map fun o => (o.y, o.mt) := by
          rw [List.map_map]; rfl
        show (if (outs.map fun o => (o.y, fn.cut o.mt)).length = 0 then Res.ok [] else _) = Res.ok _
        show (if (outs.map fun o => (o.y, fn.cut o.mt)).length = 0 then Res.ok [] else
          rows (outs.flatMap fun o => o.xs)
            ((outs.flatMap fun o => o.xs).length / (outs.map fun o => (o.y, fn.cut o.mt)).length) 0
            (outs.map fun o => (o.y, fn.cut o.mt))) = Res.ok (outs.map (toRow fn))
        by_cases h0 : (outs.map fun o => (o.y, fn.cut o.mt)).length = 0
        · rw [if_pos h0]
          rw [List.length_map] at h0
          rw [List.eq_nil_of_length_eq_zero h0]
          rfl
        · rw [if_neg h0]
          have hd : (outs.flatMap fun o => o.xs).length / (outs.map fun o => (o.y, fn.cut o.mt)).length = 256 := by
            rw [hfl, flat_length _ 256 hlen, List.length_map, List.length_map]
            rw [List.length_map] at h0
            exact Nat.mul_div_cancel_left 256 (Nat.pos_of_ne_zero h0)
          rw [hd, hfl, hent]
          exact rows_ok 256 [] 0 (by simp) _ hlen
    · rw [if_pos h1, if_neg h2]; rfl
  · rw [if_neg h1]; rfl

/-- **C166.** With a proof server, the recomputation returns the same entries and the same values in the
    same order as without, and it fails in the same cases; the server reads nothing that is not there. -/
theorem C166_remote (hg : Good fn) (hs : IsSort fn.lt sort) (ksize xbits : Int) (order : List Nat) :
    remoteCompute fn sort ksize xbits order = localCompute fn sort ksize xbits order ∧
    remoteCompute fn sort ksize xbits order ≠ .ub := by
  have h : remoteCompute fn sort ksize xbits order = localCompute fn sort ksize xbits order := by
    unfold remoteCompute
    rw [serve_eq hg hs]
    unfold localCompute Res.chk
    by_cases h1 : ¬ (ksize < 8 ∨ ksize > 32)
    · by_cases h2 : ¬ (xbits < 0 ∨ xbits > ksize)
      · rw [if_pos h1, if_pos h2]
        cases computeFull fn sort order with
        | throw => rfl
        | ub => rfl
        | ok outs =>
          show Res.ok _ = Res.ok _
          congr 1
          show Computed.mk ((outs.map (toRow fn)).map fun e => (e.y, e.mt)) ((outs.map (toRow fn)).flatMap fun e => e.xs) = _
          rw [List.map_map, List.flatMap_map]
          rfl
      · rw [if_pos h1, if_neg h2]; rfl
    · rw [if_neg h1]; rfl
  refine ⟨h, ?_⟩
  rw [h]
  unfold localCompute Res.chk
  by_cases h1 : ¬ (ksize < 8 ∨ ksize > 32)
  · by_cases h2 : ¬ (xbits < 0 ∨ xbits > ksize)
    · rw [if_pos h1, if_pos h2]
      have := (C102_fails hg hs order).1
      cases hc : computeFull fn sort order with
      | throw => exact fun x => nomatch x
      | ub => exact absurd hc this
      | ok outs => exact fun x => nomatch x
    · rw [if_pos h1, if_neg h2]; exact fun x => nomatch x
  · rw [if_neg h1]; exact fun x => nomatch x

/-- **C166.** Each row of the server is a proof: a complete tree over its own 256 values, with its own `Y`
    and output. -/
theorem C166_rows (hg : Good fn) (hs : IsSort fn.lt sort) {ksize xbits : Int} {order : List Nat}
    {res : List (Row β)} (h : serve fn sort ksize xbits order = .ok res) :
    ∀ r ∈ res, r.xs.length = 256 ∧ (∀ x ∈ r.xs, x ∈ order) ∧ ∃ m, Tree fn 8 r.xs r.y m ∧ fn.cut m = r.mt := by
  rw [serve_eq hg hs] at h
  obtain ⟨_, _, h⟩ := Res.bind_eq_ok.1 h
  obtain ⟨_, _, h⟩ := Res.bind_eq_ok.1 h
  obtain ⟨outs, hc, h⟩ := Res.bind_eq_ok.1 h
  cases h
  intro r hr
  obtain ⟨o, ho, rfl⟩ := List.mem_map.1 hr
  obtain ⟨ht, hx⟩ := C102_sound hg hs hc o ho
  exact ⟨tree_length ht, hx, o.mt, ht, rfl⟩

/-- **C166.** Every proof in the values is in the rows, and the request fails exactly if there is none or
    the sizes are not allowed. -/
theorem C166_complete (hg : Good fn) (hs : IsSort fn.lt sort) (ksize xbits : Int) (order : List Nat) :
    (serve fn sort ksize xbits order = .throw ↔
      (ksize < 8 ∨ 32 < ksize) ∨ (xbits < 0 ∨ ksize < xbits) ∨ ¬ ∃ xs y m, Tree fn 8 xs y m ∧ ∀ x ∈ xs, x ∈ order) ∧
    ∀ res, serve fn sort ksize xbits order = .ok res → ∀ xs y m, Tree fn 8 xs y m → (∀ x ∈ xs, x ∈ order) →
      ∃ r ∈ res, r.y = y ∧ r.mt = fn.cut m := by
  constructor
  · rw [serve_eq hg hs]
    unfold Res.chk
    by_cases h1 : ¬ (ksize < 8 ∨ ksize > 32)
    · by_cases h2 : ¬ (xbits < 0 ∨ xbits > ksize)
      · rw [if_pos h1, if_pos h2]
        have hf := (C102_fails hg hs order).2
        constructor
        · intro h
          refine .inr (.inr (hf.1 ?_))
          cases hc : computeFull fn sort order with
          | throw => rfl
          | ub => rw [hc] at h; cases h
          | ok outs => rw [hc] at h; cases h
        · rintro (h | h | h)
          · exact absurd h h1
          · exact absurd h h2
          · rw [hf.2 h]; rfl
      · rw [if_pos h1, if_neg h2]
        exact ⟨fun _ => .inr (.inl (Classical.not_not.1 h2)), fun _ => rfl⟩
    · rw [if_neg h1]
      exact ⟨fun _ => .inl (Classical.not_not.1 h1), fun _ => rfl⟩
  · intro res h xs y m ht hx
    rw [serve_eq hg hs] at h
    obtain ⟨_, _, h⟩ := Res.bind_eq_ok.1 h
    obtain ⟨_, _, h⟩ := Res.bind_eq_ok.1 h
    obtain ⟨outs, hc, h⟩ := Res.bind_eq_ok.1 h
    cases h
    obtain ⟨outs', hc', _, o, ho, e1, e2⟩ := C102_complete hg hs ht hx
    rw [hc] at hc'
    cases hc'
    exact ⟨toRow fn o, List.mem_map.2 ⟨o, ho, rfl⟩, e2, by rw [← e1]; rfl⟩

/-- A case: the proof of `C103_case` from a server, with one row of 256 values. -/
example : ∃ b, serve exFn isort 12 1 exXs = .ok [{ y := 0, mt := b, xs := exXs }] :=
  ⟨(toyNode 8 0).take 12, by decide +kernel⟩

/-- How two entries are cut apart. -/
example : rows [1, 2, 3, 4] 2 0 [(7, ()), (8, ())] = .ok [⟨7, (), [1, 2]⟩, ⟨8, (), [3, 4]⟩] := by decide

end Verif.Pos
