import Mathlib.Data.Nat.Basic
import Verif.DB.IterLemmas2
import Verif.DB.Props

/-!
# Properties C09, C10: iterators

`Table.seekBegin`, `next`, … are the model of `Table::Iterator` (`Verif/DB/Iter.lean`).  The
specification is `Spec.find` of `Verif/DB/Spec.lean`: what a read of the newest version returns.
-/

set_option linter.unusedSectionVars false

namespace Verif.DB

variable {K V : Type} [LinearOrder K]

/-- A key is stored when a read of its newest version finds a value. -/
def Stored (s : Spec K V) (k : K) : Prop := ∃ v, s.find k u32max = some v

theorem find_spec {t : Table K V} {s : Spec K V} (h : Refines t s) (k : K) (v : V) :
    s.find k u32max = some v ↔ ∃ e ∈ t.all, e.key = k ∧ e.val = v ∧
      ∀ x ∈ t.all, x.key = k → x.ver ≤ e.ver := by
  rw [← find_newest h.inv, refines_find h]
  constructor
  · intro hh; rw [hh]
  · intro hh; injection hh

/-- The scan loop in either direction, from a selected part of the keys. -/
theorem scan_lists {t : Table K V} {s : Spec K V} (h : Refines t s) (fwd : Bool) (key : Option K) :
    ∃ it, t.seekMode key (if fwd then 0 else -1) = some it ∧
      ∃ n L, t.collect fwd n it = some L ∧ L.Pairwise (fun a b => Ord fwd a.1 b.1) ∧
        ∀ k v, (k, v) ∈ L ↔ Sel fwd key k ∧ s.find k u32max = some v := by
  obtain ⟨it, h1, h2⟩ := seekMode_spec h.inv fwd key
  obtain ⟨L, h3, h4, h5⟩ := collect_spec h.inv fwd _ _ it h2 (Nat.le_refl _)
  refine ⟨it, h1, _, L, h3, h4, fun k v => ?_⟩
  rw [h5, find_spec h]

/-- **C09.** After any history, the loop `seek_begin(); while(is_valid()) { ...; next(); }` ends,
and lists every stored key exactly once, keys ascending, each with the value a read returns. -/
theorem C09_forward_scan (o : Options K V) (h : List (Op K V))
    (hd : (Spec.empty : Spec K V).Disciplined h) :
    ∃ it, (Table.empty.run o h).seekBegin = some it ∧
      ∃ n L, (Table.empty.run o h).collect true n it = some L ∧
        L.Pairwise (fun a b => a.1 < b.1) ∧
        ∀ k v, (k, v) ∈ L ↔ (Spec.empty.run h).find k u32max = some v := by
  obtain ⟨it, h1, n, L, h2, h3, h4⟩ := scan_lists (refines_run (o := o) refines_empty h hd) true none
  exact ⟨it, h1, n, L, h2, by simpa [Ord] using h3, fun k v => by rw [h4]; simp [Sel]⟩

/-- **C09**, from a key: `seek(key)` and then `next` list the stored keys from `key` upwards. -/
theorem C09_forward_from (o : Options K V) (h : List (Op K V))
    (hd : (Spec.empty : Spec K V).Disciplined h) (start : K) :
    ∃ it, (Table.empty.run o h).seek start = some it ∧
      ∃ n L, (Table.empty.run o h).collect true n it = some L ∧
        L.Pairwise (fun a b => a.1 < b.1) ∧
        ∀ k v, (k, v) ∈ L ↔ start ≤ k ∧ (Spec.empty.run h).find k u32max = some v := by
  obtain ⟨it, h1, n, L, h2, h3, h4⟩ :=
    scan_lists (refines_run (o := o) refines_empty h hd) true (some start)
  exact ⟨it, h1, n, L, h2, by simpa [Ord] using h3, fun k v => by rw [h4]; simp [Sel]⟩

/-- **C10.** `seek_last` and then `prev` list every stored key exactly once, keys descending. -/
theorem C10_backward_scan (o : Options K V) (h : List (Op K V))
    (hd : (Spec.empty : Spec K V).Disciplined h) :
    ∃ it, (Table.empty.run o h).seekLast = some it ∧
      ∃ n L, (Table.empty.run o h).collect false n it = some L ∧
        L.Pairwise (fun a b => b.1 < a.1) ∧
        ∀ k v, (k, v) ∈ L ↔ (Spec.empty.run h).find k u32max = some v := by
  obtain ⟨it, h1, n, L, h2, h3, h4⟩ :=
    scan_lists (refines_run (o := o) refines_empty h hd) false none
  exact ⟨it, h1, n, L, h2, by simpa [Ord] using h3, fun k v => by rw [h4]; simp [Sel]⟩

/-- **C10**, from a key: `seek_prev(key)` and then `prev` list the stored keys strictly below `key`,
descending. -/
theorem C10_backward_from (o : Options K V) (h : List (Op K V))
    (hd : (Spec.empty : Spec K V).Disciplined h) (start : K) :
    ∃ it, (Table.empty.run o h).seekPrev start = some it ∧
      ∃ n L, (Table.empty.run o h).collect false n it = some L ∧
        L.Pairwise (fun a b => b.1 < a.1) ∧
        ∀ k v, (k, v) ∈ L ↔ k < start ∧ (Spec.empty.run h).find k u32max = some v := by
  obtain ⟨it, h1, n, L, h2, h3, h4⟩ :=
    scan_lists (refines_run (o := o) refines_empty h hd) false (some start)
  exact ⟨it, h1, n, L, h2, by simpa [Ord] using h3, fun k v => by rw [h4]; simp [Sel]⟩

/-! ### any sequence of calls -/

/-- A cursor over a set of keys: a key, or nothing, and the direction of the last move. -/
structure Cursor (K : Type) where
  fwd : Bool
  pos : Option K

/-- `r` is the least stored key with `P`, or nothing when there is none. -/
def IsFirst (stored P : K → Prop) (r : Option K) : Prop :=
  match r with
  | none => ∀ k, stored k → ¬ P k
  | some k => stored k ∧ P k ∧ ∀ k', stored k' → P k' → k ≤ k'

/-- `r` is the greatest stored key with `P`, or nothing when there is none. -/
def IsLast (stored P : K → Prop) (r : Option K) : Prop :=
  match r with
  | none => ∀ k, stored k → ¬ P k
  | some k => stored k ∧ P k ∧ ∀ k', stored k' → P k' → k' ≤ k

/-- One call on the cursor.  `next` and `prev` need a position; `next` is only specified when the
cursor did not move backwards before (see `C10_turn_skips`). -/
def CursorStep (stored : K → Prop) (c : Cursor K) (op : IOp K) (c' : Cursor K) : Prop :=
  match op with
  | .seekBegin => c'.fwd = true ∧ IsFirst stored (fun _ => True) c'.pos
  | .seekLast => c'.fwd = false ∧ IsLast stored (fun _ => True) c'.pos
  | .seek k => c'.fwd = true ∧ IsFirst stored (fun x => k ≤ x) c'.pos
  | .seekPrev k => c'.fwd = false ∧ IsLast stored (fun x => x < k) c'.pos
  | .next => ∃ k, c.pos = some k ∧ c.fwd = true ∧ c'.fwd = true ∧
      IsFirst stored (fun x => k < x) c'.pos
  | .prev => ∃ k, c.pos = some k ∧ c'.fwd = false ∧ IsLast stored (fun x => x < k) c'.pos

/-- Several calls. -/
def CursorRun (stored : K → Prop) : Cursor K → List (IOp K) → Cursor K → Prop
  | c, [], c' => c = c'
  | c, op :: ops, c' => ∃ c1, CursorStep stored c op c1 ∧ CursorRun stored c1 ops c'

/-- Several calls on the real iterator. -/
def Table.iterRun (t : Table K V) : Iter K V → List (IOp K) → Option (Iter K V)
  | it, [] => some it
  | it, op :: ops =>
    match t.iterStep it op with
    | none => none
    | some it' => t.iterRun it' ops

/-- The iterator shows the position of the cursor, with the value a read returns. -/
def Shows (s : Spec K V) (it : Iter K V) (c : Cursor K) : Prop :=
  match c.pos with
  | none => it.current = none
  | some k => ∃ e, it.current = some e ∧ e.key = k ∧ s.find k u32max = some e.val

/-- Internal relation of the simulation. -/
def Tracks (t : Table K V) (s : Spec K V) (it : Iter K V) (c : Cursor K) : Prop :=
  Shows s it c ∧ (∀ k, c.pos = some k → ∃ P : K → Prop, Ahead t c.fwd P it ∧
    ∀ x, Stored s x → (P x ↔ x = k ∨ Ord c.fwd k x))

theorem stored_iff {t : Table K V} {s : Spec K V} (h : Refines t s) (k : K) :
    Stored s k ↔ ∃ e ∈ t.all, e.key = k := by
  constructor
  · rintro ⟨v, hv⟩
    obtain ⟨e, he, hk, _⟩ := (find_spec h k v).1 hv
    exact ⟨e, he, hk⟩
  · rintro ⟨e, he, hk⟩
    obtain ⟨r, hr, hl⟩ := find_latest h.inv k u32max
    cases r with
    | some v =>
      refine ⟨v, ?_⟩
      have := refines_find h k u32max
      rw [hr] at this
      injection this with this
      exact this.symm
    | none =>
      exfalso
      have := hl e he hk
      have hle : e.ver ≤ s.cur := h.le e (live_mem ((h.all e).1 he))
      have := h.inv.curLt
      have := h.cur
      omega

/-- An iterator with the selected keys ahead shows the first of them. -/
theorem ahead_shows {t : Table K V} {s : Spec K V} (h : Refines t s) {fwd : Bool} {P : K → Prop}
    {it : Iter K V} (ha : Ahead t fwd P it) {r : Option K}
    (hcl : ∀ x y, Stored s x → Stored s y → P x → Ord fwd x y → P y)
    (hr : if fwd then IsFirst (Stored s) P r else IsLast (Stored s) P r) :
    Tracks t s it ⟨fwd, r⟩ := by
  have hord : ∀ k, r = some k → Stored s k ∧ P k ∧ ∀ k', Stored s k' → P k' → k' = k ∨ Ord fwd k k' := by
    intro k hk
    subst hk
    cases fwd with
    | true =>
      simp only [if_true] at hr
      refine ⟨hr.1, hr.2.1, fun k' h1 h2 => ?_⟩
      rcases lt_or_eq_of_le (hr.2.2 k' h1 h2) with a | a
      · exact Or.inr a
      · exact Or.inl a.symm
    | false =>
      simp only [Bool.false_eq_true, if_false] at hr
      refine ⟨hr.1, hr.2.1, fun k' h1 h2 => ?_⟩
      rcases lt_or_eq_of_le (hr.2.2 k' h1 h2) with a | a
      · exact Or.inr a
      · exact Or.inl a
  rcases ha.current h.inv with ⟨h1, h2⟩ | ⟨e, h1, h2, h3, h4, h5⟩
  · cases r with
    | none => exact ⟨h1, by simp⟩
    | some k =>
      obtain ⟨a, b, _⟩ := hord k rfl
      obtain ⟨e, he, hk⟩ := (stored_iff h k).1 a
      exact absurd (hk ▸ b) (h2 e he)
  · have hst : Stored s e.key := (stored_iff h _).2 ⟨e, h2, rfl⟩
    cases r with
    | none =>
      exfalso
      cases fwd with
      | true => exact hr _ hst h3
      | false => exact hr _ hst h3
    | some k =>
      obtain ⟨a, b, c⟩ := hord k rfl
      obtain ⟨e', he', hk'⟩ := (stored_iff h k).1 a
      have hek : e.key = k := by
        rcases c e.key hst h3 with x | x
        · exact x
        · rcases h5 e' he' (hk' ▸ b) with y | y
          · rw [← y, hk']
          · rw [hk'] at y; exact absurd (x.trans y) (Ord.irrefl _ _)
      refine ⟨⟨e, h1, hek, (find_spec h k e.val).2 ⟨e, h2, hek, rfl, ?_⟩⟩, fun k2 hk2 => ?_⟩
      · intro x hx hxk; exact h4 x hx (hxk.trans hek.symm)
      · injection hk2 with hk2
        subst hk2
        refine ⟨P, ha, fun x hx => ⟨c x hx, ?_⟩⟩
        rintro (rfl | hx')
        · exact b
        · exact hcl k x a hx b hx'

theorem isFirst_congr {stored P Q : K → Prop} (h : ∀ x, stored x → (P x ↔ Q x)) {r : Option K}
    (hr : IsFirst stored P r) : IsFirst stored Q r := by
  cases r with
  | none => exact fun k hk hq => hr k hk ((h k hk).2 hq)
  | some k =>
    exact ⟨hr.1, (h k hr.1).1 hr.2.1, fun k' h1 h2 => hr.2.2 k' h1 ((h k' h1).2 h2)⟩

theorem isLast_congr {stored P Q : K → Prop} (h : ∀ x, stored x → (P x ↔ Q x)) {r : Option K}
    (hr : IsLast stored P r) : IsLast stored Q r := by
  cases r with
  | none => exact fun k hk hq => hr k hk ((h k hk).2 hq)
  | some k =>
    exact ⟨hr.1, (h k hr.1).1 hr.2.1, fun k' h1 h2 => hr.2.2 k' h1 ((h k' h1).2 h2)⟩

theorem seek_tracks {t : Table K V} {s : Spec K V} (h : Refines t s) (fwd : Bool) (key : Option K)
    {r : Option K}
    (hr : if fwd then IsFirst (Stored s) (Sel fwd key) r else IsLast (Stored s) (Sel fwd key) r) :
    ∃ it, t.seekMode key (if fwd then 0 else -1) = some it ∧ Tracks t s it ⟨fwd, r⟩ := by
  obtain ⟨it, h1, h2⟩ := seekMode_spec h.inv fwd key
  refine ⟨it, h1, ahead_shows h h2 ?_ hr⟩
  intro x y _ _ hx hxy
  cases key with
  | none => trivial
  | some k =>
    cases fwd with
    | true =>
      simp only [Sel, Ord, if_true] at *
      exact le_trans hx (le_of_lt hxy)
    | false =>
      simp only [Sel, Ord, Bool.false_eq_true, if_false] at *
      exact lt_trans hxy hx

/-- One step in the direction of travel. -/
theorem step_tracks {t : Table K V} {s : Spec K V} (h : Refines t s) {it : Iter K V} {fwd : Bool}
    {k : K} (hc : Tracks t s it ⟨fwd, some k⟩) {r : Option K}
    (hr : if fwd then IsFirst (Stored s) (fun x => k < x) r else IsLast (Stored s) (fun x => x < k) r) :
    ∃ it', (if fwd then t.next it else t.prev it) = some it' ∧ Tracks t s it' ⟨fwd, r⟩ := by
  obtain ⟨⟨e, he, hek, _⟩, hP⟩ := hc
  obtain ⟨P, ha, hiff⟩ := hP k rfl
  obtain ⟨it', h1, h2, _⟩ := ha.step h.inv he
  have hQ : ∀ x, Stored s x → ((P x ∧ x ≠ e.key) ↔ Ord fwd k x) := by
    intro x hx
    rw [hiff x hx, hek]
    constructor
    · rintro ⟨a | a, b⟩
      · exact absurd a b
      · exact a
    · intro a; exact ⟨Or.inr a, a.ne.symm⟩
  refine ⟨it', h1, ahead_shows h h2 ?_ ?_⟩
  · intro x y hx hy hxP hxy
    exact (hQ y hy).2 (((hQ x hx).1 hxP).trans hxy)
  · cases fwd with
    | true =>
      simp only [if_true] at hr ⊢
      exact isFirst_congr (fun x hx => by rw [hQ x hx]; simp [Ord]) hr
    | false =>
      simp only [Bool.false_eq_true, if_false] at hr ⊢
      exact isLast_congr (fun x hx => by rw [hQ x hx]; simp [Ord]) hr

theorem seekPrev_tracks {t : Table K V} {s : Spec K V} (h : Refines t s) (k : K) {r : Option K}
    (hr : IsLast (Stored s) (fun x => x < k) r) :
    ∃ it, t.seekPrev k = some it ∧ Tracks t s it ⟨false, r⟩ :=
  seek_tracks h false (some k) (by
    simp only [Bool.false_eq_true, if_false]
    exact isLast_congr (fun x _ => by simp [Sel]) hr)

/-- One call keeps iterator and cursor together. -/
theorem iter_simulates {t : Table K V} {s : Spec K V} (h : Refines t s) {it : Iter K V}
    {c c' : Cursor K} (hc : Tracks t s it c) (op : IOp K) (hs : CursorStep (Stored s) c op c') :
    ∃ it', t.iterStep it op = some it' ∧ Tracks t s it' c' := by
  obtain ⟨f', r'⟩ := c'
  cases op with
  | seekBegin =>
    obtain ⟨rfl, h2⟩ := hs
    exact seek_tracks h true none (by
      simp only [if_true]; exact isFirst_congr (fun x _ => by simp [Sel]) h2)
  | seekLast =>
    obtain ⟨rfl, h2⟩ := hs
    exact seek_tracks h false none (by
      simp only [Bool.false_eq_true, if_false]; exact isLast_congr (fun x _ => by simp [Sel]) h2)
  | seek k =>
    obtain ⟨rfl, h2⟩ := hs
    exact seek_tracks h true (some k) (by
      simp only [if_true]; exact isFirst_congr (fun x _ => by simp [Sel]) h2)
  | seekPrev k =>
    obtain ⟨rfl, h2⟩ := hs
    exact seekPrev_tracks h k h2
  | next =>
    obtain ⟨f, r⟩ := c
    obtain ⟨k, h1, h2, h3, h4⟩ := hs
    dsimp only at h1 h2 h3 h4
    subst h1 h2 h3
    exact step_tracks h (fwd := true) hc (by simpa using h4)
  | prev =>
    obtain ⟨f, r⟩ := c
    obtain ⟨k, h1, h3, h4⟩ := hs
    dsimp only at h1 h3 h4
    subst h1 h3
    cases f with
    | false => exact step_tracks h (fwd := false) hc (by simpa using h4)
    | true =>
      obtain ⟨⟨e, he, hek, _⟩, hP⟩ := hc
      obtain ⟨P, ha, _⟩ := hP k rfl
      obtain ⟨it', h5, h6⟩ := seekPrev_tracks h k h4
      refine ⟨it', ?_, h6⟩
      have hd := ha.dir
      simp only [if_true] at hd
      unfold Table.iterStep
      dsimp only
      unfold Table.prev
      rw [he]
      dsimp only
      rw [if_neg (by rw [hd]; decide), hek]
      exact h5

/-- **C10**, any sequence of calls: a fresh iterator on which `seek_begin`, `seek_last`, `seek`,
`seek_prev`, `next` and `prev` are called in any order stands where a cursor over the sorted stored
keys would stand, and shows the value a read of that key returns.  Turning from forward to backward
is covered; `next` directly after a backward move is not (`C10_turn_skips`). -/
theorem C10_cursor_partial (o : Options K V) (h : List (Op K V))
    (hd : (Spec.empty : Spec K V).Disciplined h) (ops : List (IOp K)) (c' : Cursor K)
    (hc : CursorRun (Stored (Spec.empty.run h)) ⟨true, none⟩ ops c') :
    ∃ it, (Table.empty.run o h).iterRun Iter.fresh ops = some it ∧
      Shows (Spec.empty.run h) it c' := by
  have href := refines_run (o := o) refines_empty h hd
  suffices H : ∀ (ops : List (IOp K)) (it : Iter K V) (c : Cursor K),
      Tracks (Table.empty.run o h) (Spec.empty.run h) it c →
      CursorRun (Stored (Spec.empty.run h)) c ops c' →
      ∃ it', (Table.empty.run o h).iterRun it ops = some it' ∧ Shows (Spec.empty.run h) it' c' by
    refine H ops Iter.fresh ⟨true, none⟩ ⟨?_, by simp⟩ hc
    simp [Shows, Iter.current, Iter.valid, Iter.fresh]
  intro ops
  induction ops with
  | nil =>
    intro it c ht hr
    have : c = c' := hr
    subst this
    exact ⟨it, rfl, ht.1⟩
  | cons op ops ih =>
    intro it c ht hr
    obtain ⟨c1, h1, h2⟩ := hr
    obtain ⟨it1, h3, h4⟩ := iter_simulates href ht op h1
    obtain ⟨it', h5, h6⟩ := ih it1 c1 h4 h2
    refine ⟨it', ?_, h6⟩
    unfold Table.iterRun
    rw [h3]
    exact h5

/-- The cursor specification is total: the only calls without a next cursor state are `next`/`prev`
without a position and `next` after a backward move. -/
theorem C10_cursor_total (o : Options K V) (h : List (Op K V))
    (hd : (Spec.empty : Spec K V).Disciplined h) (c : Cursor K) (op : IOp K)
    (h1 : op = .next → c.pos ≠ none ∧ c.fwd = true) (h2 : op = .prev → c.pos ≠ none) :
    ∃ c', CursorStep (Stored (Spec.empty.run h)) c op c' := by
  have href := refines_run (o := o) refines_empty h hd
  have first : ∀ P : K → Prop, ∃ r, IsFirst (Stored (Spec.empty.run h)) P r := by
    intro P
    obtain ⟨it, _, n, L, _, hp, hm⟩ := scan_lists href true none
    classical
    cases hf : L.find? (fun x => decide (P x.1)) with
    | none =>
      refine ⟨none, fun k ⟨v, hv⟩ hP => ?_⟩
      have := List.find?_eq_none.1 hf (k, v) ((hm k v).2 ⟨trivial, hv⟩)
      simp [hP] at this
    | some x =>
      obtain ⟨k, v⟩ := x
      obtain ⟨hPk, as, bs, hL, has⟩ := List.find?_eq_some_iff_append.1 hf
      refine ⟨some k, ⟨v, ((hm k v).1 (by rw [hL]; simp)).2⟩, by simpa using hPk, fun k' ⟨v', hv'⟩ hP' => ?_⟩
      have hin := (hm k' v').2 ⟨trivial, hv'⟩
      rw [hL, List.mem_append, List.mem_cons] at hin
      rcases hin with hin | hin | hin
      · have := has _ hin; simp [hP'] at this
      · injection hin with a _; rw [a]
      · rw [hL, List.pairwise_append, List.pairwise_cons] at hp
        exact le_of_lt (by simpa [Ord] using hp.2.1.1 _ hin)
  have last : ∀ P : K → Prop, ∃ r, IsLast (Stored (Spec.empty.run h)) P r := by
    intro P
    obtain ⟨it, _, n, L, _, hp, hm⟩ := scan_lists href false none
    classical
    cases hf : L.find? (fun x => decide (P x.1)) with
    | none =>
      refine ⟨none, fun k ⟨v, hv⟩ hP => ?_⟩
      have := List.find?_eq_none.1 hf (k, v) ((hm k v).2 ⟨trivial, hv⟩)
      simp [hP] at this
    | some x =>
      obtain ⟨k, v⟩ := x
      obtain ⟨hPk, as, bs, hL, has⟩ := List.find?_eq_some_iff_append.1 hf
      refine ⟨some k, ⟨v, ((hm k v).1 (by rw [hL]; simp)).2⟩, by simpa using hPk, fun k' ⟨v', hv'⟩ hP' => ?_⟩
      have hin := (hm k' v').2 ⟨trivial, hv'⟩
      rw [hL, List.mem_append, List.mem_cons] at hin
      rcases hin with hin | hin | hin
      · have := has _ hin; simp [hP'] at this
      · injection hin with a _; rw [a]
      · rw [hL, List.pairwise_append, List.pairwise_cons] at hp
        exact le_of_lt (by simpa [Ord] using hp.2.1.1 _ hin)
  cases op with
  | seekBegin => obtain ⟨r, hr⟩ := first (fun _ => True); exact ⟨⟨true, r⟩, rfl, hr⟩
  | seekLast => obtain ⟨r, hr⟩ := last (fun _ => True); exact ⟨⟨false, r⟩, rfl, hr⟩
  | seek k => obtain ⟨r, hr⟩ := first (fun x => k ≤ x); exact ⟨⟨true, r⟩, rfl, hr⟩
  | seekPrev k => obtain ⟨r, hr⟩ := last (fun x => x < k); exact ⟨⟨false, r⟩, rfl, hr⟩
  | next =>
    obtain ⟨a, b⟩ := h1 rfl
    cases hk : c.pos with
    | none => exact absurd hk a
    | some k => obtain ⟨r, hr⟩ := first (fun x => k < x); exact ⟨⟨true, r⟩, k, hk, b, rfl, hr⟩
  | prev =>
    cases hk : c.pos with
    | none => exact absurd hk (h2 rfl)
    | some k => obtain ⟨r, hr⟩ := last (fun x => x < k); exact ⟨⟨false, r⟩, k, hk, rfl, hr⟩

/-- `is_valid()` answers whether the iterator has a position that `key()` and `value()` show. -/
theorem C10_is_valid (it : Iter K V) : it.valid = true ↔ it.current ≠ none := by
  unfold Iter.current
  cases hm : it.map <;> simp [Iter.valid, hm]

/-- `next` and `prev` on an iterator without a position throw. -/
theorem C10_invalid_throws (t : Table K V) (it : Iter K V) (h : it.current = none) :
    t.next it = none ∧ t.prev it = none := by
  simp [Table.next, Table.prev, h]

/-- **C10**, `seek_for_prev(key)`: if some stored key is at or above `key`, the iterator stands on
the greatest stored key at or below `key`; otherwise it is invalid. -/
theorem C10_seek_for_prev (o : Options K V) (h : List (Op K V))
    (hd : (Spec.empty : Spec K V).Disciplined h) (key : K) :
    ∃ it, (Table.empty.run o h).seekForPrev key = some it ∧
      ((∃ k, Stored (Spec.empty.run h) k ∧ key ≤ k) →
        ∃ c : Cursor K, IsLast (Stored (Spec.empty.run h)) (fun x => x ≤ key) c.pos ∧
          Shows (Spec.empty.run h) it c) ∧
      ((∀ k, Stored (Spec.empty.run h) k → k < key) → it.current = none) := by
  have href := refines_run (o := o) refines_empty h hd
  obtain ⟨⟨f1, r1⟩, hf1, hr1⟩ := C10_cursor_total o h hd ⟨true, none⟩ (.seek key)
    (by simp) (by simp)
  dsimp only at hf1
  subst hf1
  obtain ⟨it1, hs1, ht1⟩ := seek_tracks href true (some key) (r := r1) (by
    simp only [if_true]; exact isFirst_congr (fun x _ => by simp [Sel]) hr1)
  unfold Table.seekForPrev
  have hs1' : (Table.empty.run o h).seek key = some it1 := hs1
  rw [hs1']
  dsimp only
  cases r1 with
  | none =>
    have hcur : it1.current = none := ht1.1
    rw [hcur]
    refine ⟨it1, rfl, ?_, fun _ => hcur⟩
    rintro ⟨k, hk, hle⟩
    exact absurd hle (hr1 k hk)
  | some k1 =>
    obtain ⟨hk1, hle1, hmin⟩ := hr1
    obtain ⟨e, he, hek, hev⟩ := ht1.1
    rw [he]
    dsimp only
    have hnot : (∀ k, Stored (Spec.empty.run h) k → k < key) → False :=
      fun hall => absurd (hall k1 hk1) (not_lt.2 hle1)
    by_cases hkk : k1 = key
    · rw [if_neg (by rw [hek, hkk]; simp)]
      refine ⟨it1, rfl, fun _ => ⟨⟨true, some key⟩, ?_, ?_⟩, fun hall => (hnot hall).elim⟩
      · exact ⟨hkk ▸ hk1, le_refl _, fun k' _ hk' => hk'⟩
      · exact ⟨e, he, hek.trans hkk, hkk ▸ hev⟩
    · rw [if_pos (by rw [hek]; exact hkk)]
      obtain ⟨⟨f2, r2⟩, k2, hk2, hf2, hr2⟩ := C10_cursor_total o h hd ⟨true, some k1⟩ .prev
        (by simp) (by simp)
      dsimp only at hk2 hf2 hr2
      have hk2 : k1 = k2 := by injection hk2
      subst hk2 hf2
      obtain ⟨it2, hs2, ht2⟩ := iter_simulates href ht1 .prev
        (c' := ⟨false, r2⟩) ⟨k1, rfl, rfl, hr2⟩
      refine ⟨it2, hs2, fun _ => ⟨⟨false, r2⟩, ?_, ht2.1⟩, fun hall => (hnot hall).elim⟩
      refine isLast_congr (fun x hx => ?_) hr2
      constructor
      · intro hlt
        rcases le_or_gt x key with a | a
        · exact a
        · exact absurd (hmin x hx (le_of_lt a)) (not_le.2 hlt)
      · intro hxk
        exact lt_of_le_of_lt hxk (lt_of_le_of_ne hle1 (Ne.symm hkk))

/-! ### concrete cases and counterexamples -/

/-- Options that never flush or merge on their own. -/
def iterOpts : Options Nat Nat :=
  { levelFactor := 4, maxBlockSize := 1000000, forceFlush := 1000, ksize := fun _ => 1, vsize := fun _ => 1 }

/-- Keys 10 and 30 in a block file, key 20 in memory, key 10 rewritten in memory. -/
def iterHist : List (Op Nat Nat) :=
  [.insert 10 1, .insert 30 3, .commit 1 false, .flush, .insert 20 2, .insert 10 7]

example : (Spec.empty : Spec Nat Nat).Disciplined iterHist := by
  refine ⟨by simp, by simp, by simp, ?_, by simp, by simp, trivial⟩
  intro _ w hw
  revert w
  decide

example : ((Table.empty.run iterOpts iterHist).blocks.length,
    (Table.empty.run iterOpts iterHist).idx.length) = (1, 2) := by decide +kernel

/-- The forward scan of that table. -/
example : ((Table.empty.run iterOpts iterHist).seekBegin.bind
    ((Table.empty.run iterOpts iterHist).collect true 4)) = some [(10, 7), (20, 2), (30, 3)] := by
  decide +kernel

example : ((Table.empty.run iterOpts iterHist).seekLast.bind
    ((Table.empty.run iterOpts iterHist).collect false 4)) = some [(30, 3), (20, 2), (10, 7)] := by
  decide +kernel

/-- What an iterator shows after some calls: outer `none` an exception, inner `none` invalid. -/
def iterShow (ops : List (IOp Nat)) : Option (Option (Nat × Nat)) :=
  ((Table.empty.run iterOpts iterHist).iterRun Iter.fresh ops).map
    fun it => it.current.map fun e => (e.key, e.val)

/-- Forward, then a turn to backward. -/
example : iterShow [.seek 15, .next, .prev, .prev] = some (some (10, 7)) := by decide +kernel

/-- **Counterexample to the full C10.**  From the last key 30 one `prev` leads to 20, but `next`
from there finds nothing: `seek_next` moves one past the lower bound in every block, also in blocks
that do not hold the key, and so jumps over 30. -/
theorem C10_turn_skips :
    iterShow [.seekLast] = some (some (30, 3)) ∧
    iterShow [.seekLast, .prev] = some (some (20, 2)) ∧
    iterShow [.seekLast, .prev, .next] = some none := by decide +kernel

/-- `seek_for_prev` above all keys is invalid although smaller keys are stored. -/
theorem C10_seek_for_prev_above :
    ((Table.empty.run iterOpts iterHist).seekForPrev 40).map (·.current) = some none ∧
    (Spec.empty.run iterHist).find 30 u32max = some 3 := by decide +kernel

end Verif.DB
