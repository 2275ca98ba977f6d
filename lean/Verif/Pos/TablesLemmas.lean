import Verif.Pos.Spec
/-
  Helper lemmas about the tables.
-/
namespace Verif.Pos

variable {α β : Type}

/-! ### matches -/

theorem mem_scan {e : Entry} {s : List Entry} (hs : s.Pairwise fun a b => a.1 ≤ b.1)
    (he : ∀ r ∈ s, e.1 ≤ r.1) (hlt : ∀ r ∈ s, r.1 < 2 ^ 32) (p : Nat × Nat) :
    p ∈ scan e s ↔ p.1 = e.2 ∧ ∃ r ∈ s, r.1 = e.1 + 1 ∧ r.2 = p.2 := by
  induction s with
  | nil => simp [scan]
  | cons r rest ih =>
    have hr := he r List.mem_cons_self
    have hl := hlt r List.mem_cons_self
    rw [List.pairwise_cons] at hs
    have ih := ih hs.2 (fun q hq => he q (List.mem_cons_of_mem _ hq)) (fun q hq => hlt q (List.mem_cons_of_mem _ hq))
    have hu : r.1 = u32 (e.1 + 1) ↔ r.1 = e.1 + 1 := by
      unfold u32; omega
    unfold scan
    by_cases h1 : r.1 = u32 (e.1 + 1)
    · rw [if_pos h1, List.mem_cons, ih]
      have h1' := hu.1 h1
      constructor
      · rintro (rfl | ⟨ha, q, hq, hb⟩)
        · exact ⟨rfl, r, List.mem_cons_self, h1', rfl⟩
        · exact ⟨ha, q, List.mem_cons_of_mem _ hq, hb⟩
      · rintro ⟨ha, q, hq, hb, hc⟩
        rcases List.mem_cons.1 hq with rfl | hq
        · left; exact Prod.ext ha hc.symm
        · right; exact ⟨ha, q, hq, hb, hc⟩
    · rw [if_neg h1]
      have h1' : ¬ r.1 = e.1 + 1 := fun h => h1 (hu.2 h)
      by_cases h2 : r.1 > e.1
      · rw [if_pos h2]
        constructor
        · intro h; cases h
        · rintro ⟨ha, q, hq, hb, hc⟩
          rcases List.mem_cons.1 hq with rfl | hq
          · exact absurd hb h1'
          · have := hs.1 q hq
            omega
      · rw [if_neg h2, ih]
        constructor
        · rintro ⟨ha, q, hq, hb⟩
          exact ⟨ha, q, List.mem_cons_of_mem _ hq, hb⟩
        · rintro ⟨ha, q, hq, hb, hc⟩
          rcases List.mem_cons.1 hq with rfl | hq
          · exact absurd hb h1'
          · exact ⟨ha, q, hq, hb, hc⟩

theorem mem_matchAll {s : List Entry} (hs : s.Pairwise fun a b => a.1 ≤ b.1)
    (hlt : ∀ r ∈ s, r.1 < 2 ^ 32) (p : Nat × Nat) :
    p ∈ matchAll s ↔ ∃ e ∈ s, ∃ r ∈ s, r.1 = e.1 + 1 ∧ e.2 = p.1 ∧ r.2 = p.2 := by
  induction s with
  | nil => simp [matchAll]
  | cons e rest ih =>
    rw [List.pairwise_cons] at hs
    have hlt' : ∀ r ∈ rest, r.1 < 2 ^ 32 := fun q hq => hlt q (List.mem_cons_of_mem _ hq)
    unfold matchAll
    rw [List.mem_append, ih hs.2 hlt', mem_scan hs.2 hs.1 hlt']
    constructor
    · rintro (⟨ha, q, hq, hb, hc⟩ | ⟨a, ha, q, hq, hb⟩)
      · exact ⟨e, List.mem_cons_self, q, List.mem_cons_of_mem _ hq, hb, ha.symm, hc⟩
      · exact ⟨a, List.mem_cons_of_mem _ ha, q, List.mem_cons_of_mem _ hq, hb⟩
    · rintro ⟨a, ha, q, hq, hb, hc, hd⟩
      rcases List.mem_cons.1 ha with rfl | ha'
      · rcases List.mem_cons.1 hq with rfl | hq
        · omega
        · left; exact ⟨hc.symm, q, hq, hb, hd⟩
      · rcases List.mem_cons.1 hq with rfl | hq
        · have := hs.1 a ha'
          omega
        · right; exact ⟨a, ha', q, hq, hb, hc, hd⟩

theorem sorted_y {lt : α → α → Bool} {M : List α} {l : List Entry}
    (h : l.Pairwise fun a b => before lt M b a = false) : l.Pairwise fun a b => a.1 ≤ b.1 := by
  refine h.imp ?_
  intro a b hab
  unfold before at hab
  by_cases he : b.1 = a.1
  · omega
  · rw [if_neg he] at hab
    have := of_decide_eq_false hab
    omega

/-! ### the meta data of the matches -/

theorem combine_ok {fn : Fns α β} {M : List α} {p : Nat × Nat} (h1 : p.1 < M.length)
    (h2 : p.2 < M.length) :
    combine fn M p = .ok (fn.f M[p.1] M[p.2]) := by
  unfold combine
  rw [List.getElem?_eq_getElem h1, List.getElem?_eq_getElem h2]

theorem combineAll_ok {fn : Fns α β} {M : List α} {ps : List (Nat × Nat)}
    (h : ∀ p ∈ ps, p.1 < M.length ∧ p.2 < M.length) :
    ∃ fm, combineAll fn M ps = .ok fm ∧ fm.length = ps.length ∧
      ∀ (i : Nat) (p : Nat × Nat), ps[i]? = some p →
        ∃ a b, M[p.1]? = some a ∧ M[p.2]? = some b ∧ fm[i]? = some (fn.f a b) := by
  induction ps with
  | nil => exact ⟨[], rfl, rfl, by simp⟩
  | cons p rest ih =>
    obtain ⟨fm, h1, h2, h3⟩ := ih (fun q hq => h q (List.mem_cons_of_mem _ hq))
    obtain ⟨ha, hb⟩ := h p List.mem_cons_self
    refine ⟨fn.f M[p.1] M[p.2] :: fm, ?_, ?_, ?_⟩
    · unfold combineAll
      rw [combine_ok ha hb, Res.bind_ok, h1, Res.bind_ok]
    · simp [h2]
    · intro i q hq
      cases i with
      | zero =>
        simp only [List.getElem?_cons_zero, Option.some.injEq] at hq
        subst hq
        exact ⟨_, _, List.getElem?_eq_getElem ha, List.getElem?_eq_getElem hb, rfl⟩
      | succ i =>
        simp only [List.getElem?_cons_succ] at hq ⊢
        exact h3 i q hq

/-! ### numbering -/

theorem mem_number {ys : List Nat} {k : Nat} {e : Entry} :
    e ∈ number k ys ↔ ∃ i, e.2 = k + i ∧ ys[i]? = some e.1 := by
  induction ys generalizing k with
  | nil => simp [number]
  | cons y ys ih =>
    unfold number
    rw [List.mem_cons, ih]
    constructor
    · rintro (rfl | ⟨i, h1, h2⟩)
      · exact ⟨0, rfl, rfl⟩
      · exact ⟨i + 1, by omega, by simpa using h2⟩
    · rintro ⟨i, h1, h2⟩
      cases i with
      | zero =>
        left
        simp only [List.getElem?_cons_zero, Option.some.injEq] at h2
        exact Prod.ext h2.symm (by simpa using h1)
      | succ i =>
        right
        exact ⟨i, by omega, by simpa using h2⟩

/-! ### going back -/

theorem back_append {lr : List (Nat × Nat)} {a b ra rb : List Nat} (ha : back lr a = .ok ra)
    (hb : back lr b = .ok rb) : back lr (a ++ b) = .ok (ra ++ rb) := by
  induction a generalizing ra with
  | nil =>
    unfold back at ha
    cases ha
    simpa using hb
  | cons i is ih =>
    rw [List.cons_append]
    unfold back at ha ⊢
    cases hp : lr[i]? with
    | none => rw [hp] at ha; cases ha
    | some p =>
      rw [hp] at ha
      obtain ⟨r, h1, h2⟩ := Res.bind_eq_ok.1 ha
      cases h2
      dsimp only
      rw [ih h1, Res.bind_ok]
      rfl

theorem trace_append {lrs : List (List (Nat × Nat))} {a b ra rb : List Nat}
    (ha : trace lrs a = .ok ra) (hb : trace lrs b = .ok rb) :
    trace lrs (a ++ b) = .ok (ra ++ rb) := by
  induction lrs generalizing a b with
  | nil =>
    unfold trace at *
    cases ha; cases hb; rfl
  | cons lr lrs ih =>
    unfold trace at ha hb ⊢
    obtain ⟨a', h1, h2⟩ := Res.bind_eq_ok.1 ha
    obtain ⟨b', h3, h4⟩ := Res.bind_eq_ok.1 hb
    rw [back_append h1 h3, Res.bind_ok]
    exact ih h2 h4

theorem pickX_append {X a b ra rb : List Nat} (ha : pickX X a = .ok ra) (hb : pickX X b = .ok rb) :
    pickX X (a ++ b) = .ok (ra ++ rb) := by
  induction a generalizing ra with
  | nil =>
    unfold pickX at ha
    cases ha
    simpa using hb
  | cons i is ih =>
    rw [List.cons_append]
    unfold pickX at ha ⊢
    cases hp : X[i]? with
    | none => rw [hp] at ha; cases ha
    | some p =>
      rw [hp] at ha
      obtain ⟨r, h1, h2⟩ := Res.bind_eq_ok.1 ha
      cases h2
      dsimp only
      rw [ih h1, Res.bind_ok]
      rfl

/-- The leaves found for the entry `i` are `xs`. -/
def Leaves (X : List Nat) (lrs : List (List (Nat × Nat))) (i : Nat) (xs : List Nat) : Prop :=
  ∃ is, trace lrs [i] = .ok is ∧ pickX X is = .ok xs

theorem leaves_node {X : List Nat} {lrs : List (List (Nat × Nat))} {lr : List (Nat × Nat)} {i : Nat}
    {p : Nat × Nat} {l r : List Nat} (hp : lr[i]? = some p) (hl : Leaves X lrs p.1 l)
    (hr : Leaves X lrs p.2 r) : Leaves X (lr :: lrs) i (l ++ r) := by
  obtain ⟨a, ha, ha'⟩ := hl
  obtain ⟨b, hb, hb'⟩ := hr
  refine ⟨a ++ b, ?_, pickX_append ha' hb'⟩
  have : back lr [i] = .ok [p.1, p.2] := by
    unfold back
    rw [hp]
    rfl
  show (back lr [i] >>= fun is => trace lrs is) = _
  rw [this, Res.bind_ok]
  exact trace_append ha hb

/-! ### one table after the other -/

/-- The tables hold exactly the trees of depth `d` over `X`. -/
structure Holds (fn : Fns α β) (X : List Nat) (d : Nat) (t : Tab α) : Prop where
  ys : ∃ ys, t.entries = number 0 ys ∧ ys.length = t.metas.length ∧ ∀ y ∈ ys, y < 2 ^ 32
  sound : ∀ e ∈ t.entries, ∃ m xs, t.metas[e.2]? = some m ∧ Leaves X t.lrs e.2 xs ∧ Over fn d X xs e.1 m
  complete : ∀ (xs : List Nat) (y : Nat) (m : α), Over fn d X xs y m →
    ∃ e ∈ t.entries, e.1 = y ∧ t.metas[e.2]? = some m ∧ Leaves X t.lrs e.2 xs

theorem Holds.range {fn : Fns α β} {X : List Nat} {d : Nat} {t : Tab α} (h : Holds fn X d t) :
    InRange t.metas t.entries := by
  intro e he
  obtain ⟨m, xs, h1, _⟩ := h.sound e he
  exact (List.getElem?_eq_some_iff.1 h1).1

theorem Holds.lt {fn : Fns α β} {X : List Nat} {d : Nat} {t : Tab α} (h : Holds fn X d t) :
    ∀ e ∈ t.entries, e.1 < 2 ^ 32 := by
  intro e he
  obtain ⟨ys, h1, _, h3⟩ := h.ys
  rw [h1, mem_number] at he
  obtain ⟨i, _, hi⟩ := he
  exact h3 _ (List.mem_of_getElem? hi)

theorem holds_init {fn : Fns α β} (hg : Good fn) (X : List Nat) :
    Holds fn X 0 { entries := number 0 (X.map fun x => (fn.f1 x).1)
                   metas := X.map fun x => (fn.f1 x).2
                   lrs := [] } where
  ys := ⟨_, rfl, by simp, by
    intro y hy
    obtain ⟨x, _, rfl⟩ := List.mem_map.1 hy
    exact hg.f1_lt x⟩
  sound := by
    intro e he
    obtain ⟨i, h1, h2⟩ := mem_number.1 he
    rw [List.getElem?_map, Option.map_eq_some_iff] at h2
    obtain ⟨x, hx, hy⟩ := h2
    have hi : e.2 = i := by omega
    refine ⟨(fn.f1 x).2, [x], ?_, ⟨[i], ?_, ?_⟩, ?_, ?_⟩
    · simp [hi, hx]
    · show trace [] [e.2] = _
      rw [hi]; rfl
    · unfold pickX; rw [hx]; rfl
    · rw [← hy]; exact Tree.leaf x
    · intro z hz
      rw [List.mem_singleton] at hz
      subst hz
      exact List.mem_of_getElem? hx
  complete := by
    rintro xs y m ⟨ht, hx⟩
    cases ht with
    | leaf x =>
      obtain ⟨i, hi⟩ := List.mem_iff_getElem?.1 (hx x (by simp))
      refine ⟨((fn.f1 x).1, i), ?_, rfl, ?_, ⟨[i], rfl, ?_⟩⟩
      · exact mem_number.2 ⟨i, by simp, by simp [hi]⟩
      · simp [hi]
      · unfold pickX; rw [hi]; rfl

theorem tree_length {fn : Fns α β} {d : Nat} {xs : List Nat} {y : Nat} {m : α}
    (h : Tree fn d xs y m) : xs.length = 2 ^ d := by
  induction h with
  | leaf x => rfl
  | node _ _ ihl ihr => rw [List.length_append, ihl, ihr, Nat.pow_succ]; omega

theorem tree_y {fn : Fns α β} {g : α → Nat} (h1 : ∀ x, (fn.f1 x).1 = g (fn.f1 x).2)
    (h2 : ∀ a b, (fn.f a b).1 = g (fn.f a b).2) {d : Nat} {xs : List Nat} {y : Nat} {m : α}
    (h : Tree fn d xs y m) : y = g m := by
  cases h with
  | leaf x => exact h1 x
  | node _ _ => exact h2 _ _

theorem over_append {fn : Fns α β} {d : Nat} {X l r : List Nat} {yl : Nat} {ml mr : α}
    (h1 : Over fn d X l yl ml) (h2 : Over fn d X r (yl + 1) mr) :
    Over fn (d + 1) X (l ++ r) (fn.f ml mr).1 (fn.f ml mr).2 := by
  refine ⟨.node h1.1 h2.1, ?_⟩
  intro x hx
  rcases List.mem_append.1 hx with hx | hx
  · exact h1.2 x hx
  · exact h2.2 x hx

/-- The matches that one table finds. -/
theorem holds_table {fn : Fns α β} (hg : Good fn) {sort : List α → List Entry → List Entry}
    (hs : IsSort fn.lt sort) {X : List Nat} {d : Nat} {t : Tab α} (h : Holds fn X d t) :
    (table fn sort t = .throw ∧ ∀ (xs : List Nat) (y : Nat) (m : α), ¬ Over fn (d + 1) X xs y m) ∨
    ∃ t', table fn sort t = .ok t' ∧ Holds fn X (d + 1) t' ∧ t'.entries ≠ [] := by
  have hr := h.range
  have hperm := hs.perm _ _ hr
  have hsort := sorted_y (hs.sorted _ _ hr)
  have hmem : ∀ p, p ∈ matchAll (sort t.metas t.entries) ↔
      ∃ e ∈ t.entries, ∃ r ∈ t.entries, r.1 = e.1 + 1 ∧ e.2 = p.1 ∧ r.2 = p.2 := by
    intro p
    rw [mem_matchAll hsort (fun r hr' => h.lt r (hperm.mem_iff.1 hr'))]
    constructor
    · rintro ⟨e, he, r, hr', hx⟩
      exact ⟨e, hperm.mem_iff.1 he, r, hperm.mem_iff.1 hr', hx⟩
    · rintro ⟨e, he, r, hr', hx⟩
      exact ⟨e, hperm.mem_iff.2 he, r, hperm.mem_iff.2 hr', hx⟩
  generalize hlr : matchAll (sort t.metas t.entries) = lr at hmem
  obtain ⟨fm, hf1, hf2, hf3⟩ := combineAll_ok (fn := fn) (M := t.metas) (ps := lr) (by
    intro p hp
    obtain ⟨e, he, r, hr', _, h2, h3⟩ := (hmem p).1 hp
    exact ⟨h2 ▸ hr e he, h3 ▸ hr r hr'⟩)
  have hd : (Res.defd (InRange t.metas t.entries) : Res Unit) = .ok () := by
    unfold Res.defd; rw [if_pos hr]
  -- every tree of depth `d + 1` is a match
  have hcomp : ∀ (xs : List Nat) (y : Nat) (m : α), Over fn (d + 1) X xs y m →
      ∃ i, fm[i]? = some (y, m) ∧ Leaves X (lr :: t.lrs) i xs := by
    rintro xs y m ⟨ht, hx⟩
    cases ht with
    | @node _ l r yl ml mr hl hr' =>
      obtain ⟨e, he, he1, he2, he3⟩ := h.complete l yl ml
        ⟨hl, fun z hz => hx z (List.mem_append_left _ hz)⟩
      obtain ⟨q, hq, hq1, hq2, hq3⟩ := h.complete r (yl + 1) mr
        ⟨hr', fun z hz => hx z (List.mem_append_right _ hz)⟩
      have hp : (e.2, q.2) ∈ lr := (hmem _).2 ⟨e, he, q, hq, by omega, rfl, rfl⟩
      obtain ⟨i, hi⟩ := List.mem_iff_getElem?.1 hp
      obtain ⟨a, b, ha, hb, hab⟩ := hf3 i _ hi
      dsimp only at ha hb
      rw [he2] at ha
      rw [hq2] at hb
      cases ha; cases hb
      exact ⟨i, hab, leaves_node hi he3 hq3⟩
  unfold table
  rw [hd, Res.bind_ok]
  dsimp only
  rw [hlr, hf1, Res.bind_ok]
  cases hfm : fm with
  | nil =>
    left
    refine ⟨rfl, ?_⟩
    intro xs y m ho
    obtain ⟨i, hi, _⟩ := hcomp xs y m ho
    rw [hfm] at hi
    simp at hi
  | cons z zs =>
    right
    rw [← hfm]
    refine ⟨_, by rw [hfm]; rfl, ?_, by simp [number]⟩
    constructor
    · refine ⟨_, rfl, by simp, ?_⟩
      intro y hy
      obtain ⟨⟨y', m⟩, hm, rfl⟩ := List.mem_map.1 hy
      rw [← hfm] at hm
      obtain ⟨i, hi⟩ := List.mem_iff_getElem?.1 hm
      have hil : i < lr.length := by
        rw [← hf2]; exact (List.getElem?_eq_some_iff.1 hi).1
      obtain ⟨a, b, _, _, hab⟩ := hf3 i _ (List.getElem?_eq_getElem hil)
      rw [hi] at hab
      have := congrArg Prod.fst (Option.some.inj hab)
      dsimp only at this ⊢
      rw [this]
      exact hg.f_lt a b
    · intro e he
      dsimp only at he ⊢
      rw [← hfm] at he ⊢
      obtain ⟨i, h1, h2⟩ := mem_number.1 he
      have hei : e.2 = i := by omega
      rw [List.getElem?_map, Option.map_eq_some_iff] at h2
      obtain ⟨⟨y', m⟩, hi, hy⟩ := h2
      dsimp only at hy
      subst hy
      have hil : i < lr.length := by
        rw [← hf2]; exact (List.getElem?_eq_some_iff.1 hi).1
      obtain ⟨a, b, ha, hb, hab⟩ := hf3 i _ (List.getElem?_eq_getElem hil)
      rw [hi] at hab
      have hpm := (hmem lr[i]).1 (List.getElem_mem hil)
      obtain ⟨l, hl, r, hr', hy', h3, h4⟩ := hpm
      obtain ⟨ml, xl, hl1, hl2, hl3⟩ := h.sound l hl
      obtain ⟨mr, xr, hr1, hr2, hr3⟩ := h.sound r hr'
      rw [h3] at hl1 hl2
      rw [h4] at hr1 hr2
      rw [hl1] at ha
      rw [hr1] at hb
      have ha' := Option.some.inj ha
      have hb' := Option.some.inj hb
      rw [← ha', ← hb'] at hab
      have hab' := Option.some.inj hab
      have e1 : e.1 = (fn.f ml mr).1 := congrArg Prod.fst hab'
      have e2 : m = (fn.f ml mr).2 := congrArg Prod.snd hab'
      refine ⟨m, xl ++ xr, ?_, ?_, ?_⟩
      · rw [hei, List.getElem?_map, hi]; rfl
      · rw [hei]
        exact leaves_node (List.getElem?_eq_getElem hil) hl2 hr2
      · rw [e1, e2]
        rw [hy'] at hr3
        exact over_append hl3 hr3
    · intro xs y m ho
      obtain ⟨i, hi, hlv⟩ := hcomp xs y m ho
      rw [hfm] at hi
      refine ⟨(y, i), ?_, rfl, ?_, hlv⟩
      · exact mem_number.2 ⟨i, by simp, by rw [List.getElem?_map, hi]; rfl⟩
      · dsimp only
        rw [List.getElem?_map, hi]; rfl

theorem no_over_succ {fn : Fns α β} {X : List Nat} {d : Nat}
    (h : ∀ (xs : List Nat) (y : Nat) (m : α), ¬ Over fn d X xs y m) (n : Nat) :
    ∀ (xs : List Nat) (y : Nat) (m : α), ¬ Over fn (d + n) X xs y m := by
  induction n with
  | zero => exact h
  | succ n ih =>
    rintro xs y m ⟨ht, hx⟩
    rw [← Nat.add_assoc] at ht
    cases ht with
    | node hl _ => exact ih _ _ _ ⟨hl, fun z hz => hx z (List.mem_append_left _ hz)⟩

theorem holds_tables {fn : Fns α β} (hg : Good fn) {sort : List α → List Entry → List Entry}
    (hs : IsSort fn.lt sort) {X : List Nat} (n : Nat) {d : Nat} {t : Tab α} (h : Holds fn X d t) :
    (tables fn sort n t = .throw ∧ ∀ (xs : List Nat) (y : Nat) (m : α), ¬ Over fn (d + n) X xs y m) ∨
    ∃ t', tables fn sort n t = .ok t' ∧ Holds fn X (d + n) t' ∧ (t.entries ≠ [] ∨ 0 < n → t'.entries ≠ []) := by
  induction n generalizing d t with
  | zero => exact .inr ⟨t, rfl, h, fun hc => hc.elim id (fun h => absurd h (Nat.lt_irrefl 0))⟩
  | succ n ih =>
    unfold tables
    rcases holds_table hg hs h with ⟨h1, h2⟩ | ⟨t', h1, h2, hne⟩
    · left
      refine ⟨by rw [h1]; rfl, ?_⟩
      have := no_over_succ h2 n
      rwa [Nat.add_right_comm, Nat.add_assoc] at this
    · rw [h1, Res.bind_ok]
      have := ih h2
      rw [Nat.add_right_comm, Nat.add_assoc] at this
      rcases this with this | ⟨t'', ha, hb, hc⟩
      · exact .inl this
      · exact .inr ⟨t'', ha, hb, fun _ => hc (.inl hne)⟩

/-! ### the results -/

theorem outputs_ok [DecidableEq α] {X : List Nat} {t : Tab α} {es : List Entry} (seen : List α)
    (h : ∀ e ∈ es, ∃ m xs, t.metas[e.2]? = some m ∧ Leaves X t.lrs e.2 xs) :
    ∃ outs, outputs X t seen es = .ok outs ∧
      (∀ o ∈ outs, o.mt ∉ seen ∧ ∃ e ∈ es, e.1 = o.y ∧ t.metas[e.2]? = some o.mt ∧
        Leaves X t.lrs e.2 o.xs) ∧
      (∀ e ∈ es, ∀ m, t.metas[e.2]? = some m → m ∈ seen ∨ ∃ o ∈ outs, o.mt = m) ∧
      (outs.map (·.mt)).Nodup := by
  induction es generalizing seen with
  | nil => exact ⟨[], rfl, by simp, by simp, by simp⟩
  | cons e rest ih =>
    obtain ⟨m, xs, hm, is, his, hxs⟩ := h e List.mem_cons_self
    have hrest : ∀ e ∈ rest, ∃ m xs, t.metas[e.2]? = some m ∧ Leaves X t.lrs e.2 xs :=
      fun q hq => h q (List.mem_cons_of_mem _ hq)
    unfold outputs
    rw [hm]
    dsimp only
    by_cases hin : m ∈ seen
    · rw [if_pos hin]
      obtain ⟨outs, h1, h2, h3, h4⟩ := ih seen hrest
      refine ⟨outs, h1, ?_, ?_, h4⟩
      · intro o ho
        obtain ⟨ha, q, hq, hb⟩ := h2 o ho
        exact ⟨ha, q, List.mem_cons_of_mem _ hq, hb⟩
      · intro q hq m' hm'
        rcases List.mem_cons.1 hq with rfl | hq
        · rw [hm] at hm'
          cases hm'
          exact .inl hin
        · exact h3 q hq m' hm'
    · rw [if_neg hin]
      obtain ⟨outs, h1, h2, h3, h4⟩ := ih (m :: seen) hrest
      rw [his, Res.bind_ok, hxs, Res.bind_ok, h1, Res.bind_ok]
      refine ⟨_, rfl, ?_, ?_, ?_⟩
      · intro o ho
        rcases List.mem_cons.1 ho with rfl | ho
        · exact ⟨hin, e, List.mem_cons_self, rfl, hm, is, his, hxs⟩
        · obtain ⟨ha, q, hq, hb⟩ := h2 o ho
          exact ⟨fun hc => ha (List.mem_cons_of_mem _ hc), q, List.mem_cons_of_mem _ hq, hb⟩
      · intro q hq m' hm'
        rcases List.mem_cons.1 hq with rfl | hq
        · rw [hm] at hm'
          cases hm'
          exact .inr ⟨_, List.mem_cons_self, rfl⟩
        · rcases h3 q hq m' hm' with hc | ⟨o, ho, hc⟩
          · rcases List.mem_cons.1 hc with rfl | hc
            · exact .inr ⟨_, List.mem_cons_self, rfl⟩
            · exact .inl hc
          · exact .inr ⟨o, List.mem_cons_of_mem _ ho, hc⟩
      · rw [List.map_cons, List.nodup_cons]
        refine ⟨?_, h4⟩
        intro hc
        obtain ⟨o, ho, hc⟩ := List.mem_map.1 hc
        have := (h2 o ho).1
        rw [hc] at this
        exact this List.mem_cons_self

/-- What `compute` returns. -/
theorem computeFull_spec [DecidableEq α] {fn : Fns α β} (hg : Good fn)
    {sort : List α → List Entry → List Entry} (hs : IsSort fn.lt sort) (X : List Nat) :
    (computeFull fn sort X = .throw ∧ ∀ (xs : List Nat) (y : Nat) (m : α), ¬ Over fn 8 X xs y m) ∨
    ∃ outs, computeFull fn sort X = .ok outs ∧
      (∀ o ∈ outs, Over fn 8 X o.xs o.y o.mt) ∧
      (∀ (xs : List Nat) (y : Nat) (m : α), Over fn 8 X xs y m → ∃ o ∈ outs, o.mt = m ∧ o.y = y) ∧
      (outs.map (·.mt)).Nodup ∧ outs ≠ [] := by
  unfold computeFull
  rcases holds_tables hg hs 8 (holds_init hg X) with ⟨h1, h2⟩ | ⟨t, h1, h2, hne⟩
  · left
    rw [h1]
    rw [Nat.zero_add] at h2
    exact ⟨rfl, h2⟩
  · right
    rw [Nat.zero_add] at h2
    have hr := h2.range
    have hperm := hs.perm _ _ hr
    have hd : (Res.defd (InRange t.metas t.entries) : Res Unit) = .ok () := by
      unfold Res.defd; rw [if_pos hr]
    rw [h1, Res.bind_ok, hd, Res.bind_ok]
    obtain ⟨outs, o1, o2, o3, o4⟩ := outputs_ok (X := X) (t := t) (es := sort t.metas t.entries) []
      (fun e he => by
        obtain ⟨m, xs, ha, hb, _⟩ := h2.sound e (hperm.mem_iff.1 he)
        exact ⟨m, xs, ha, hb⟩)
    have hsound : ∀ o ∈ outs, Over fn 8 X o.xs o.y o.mt := by
      intro o ho
      obtain ⟨_, e, he, e1, e2, is, e3, e4⟩ := o2 o ho
      obtain ⟨m, xs, ha, ⟨is', hb, hb'⟩, hc⟩ := h2.sound e (hperm.mem_iff.1 he)
      rw [e2] at ha
      rw [e3] at hb
      cases ha; cases hb
      rw [e4] at hb'
      cases hb'
      rw [← e1]
      exact hc
    have hcomp : ∀ (xs : List Nat) (y : Nat) (m : α), Over fn 8 X xs y m →
        ∃ o ∈ outs, o.mt = m ∧ o.y = y := ?_
    · refine ⟨outs, o1, hsound, hcomp, o4, ?_⟩
      cases he : t.entries with
      | nil => exact absurd he (hne (.inr (by decide)))
      | cons e es =>
        obtain ⟨m, xs, _, _, ho⟩ := h2.sound e (by rw [he]; exact List.mem_cons_self)
        obtain ⟨o, ho, _⟩ := hcomp xs e.1 m ho
        exact List.ne_nil_of_mem ho
    intro xs y m ho
    obtain ⟨e, he, e1, e2, _⟩ := h2.complete xs y m ho
    rcases o3 e (hperm.mem_iff.2 he) m e2 with hc | ⟨o, ho', hc⟩
    · cases hc
    · refine ⟨o, ho', hc, ?_⟩
      obtain ⟨g, g1, g2⟩ := hg.y_eq
      rw [tree_y g1 g2 (hsound o ho').1, tree_y g1 g2 ho.1, hc]

end Verif.Pos
