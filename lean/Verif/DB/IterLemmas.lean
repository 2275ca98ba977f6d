import Verif.DB.Iter
import Verif.DB.Lemmas4

/-!
# Lemmas on the iterator: every move keeps one pointer per source
-/

set_option linter.unusedSectionVars false

namespace Verif.DB

variable {K V : Type} [LinearOrder K]

/-- Order of travel. -/
def Ord (fwd : Bool) (a b : K) : Prop := if fwd then a < b else b < a

theorem Ord.irrefl (fwd : Bool) (a : K) : ¬ Ord fwd a a := by
  cases fwd <;> simp [Ord]

theorem Ord.trans {fwd : Bool} {a b c : K} (h : Ord fwd a b) (h' : Ord fwd b c) : Ord fwd a c := by
  cases fwd
  · simp only [Ord] at *; exact lt_trans h' h
  · simp only [Ord] at *; exact lt_trans h h'

theorem Ord.tri (fwd : Bool) (a b : K) : Ord fwd a b ∨ a = b ∨ Ord fwd b a := by
  cases fwd
  · simp only [Ord]; rcases lt_trichotomy a b with h | h | h
    · exact Or.inr (Or.inr h)
    · exact Or.inr (Or.inl h)
    · exact Or.inl h
  · simp only [Ord]; exact lt_trichotomy a b

theorem Ord.ne {fwd : Bool} {a b : K} (h : Ord fwd a b) : a ≠ b := by
  rintro rfl; exact Ord.irrefl fwd a h

theorem itBefore_iff (fwd : Bool) (a b : Entry K V) :
    itBefore fwd a b = true ↔ Ord fwd a.key b.key ∨ (a.key = b.key ∧ b.ver < a.ver) := by
  unfold itBefore
  split
  · rename_i h
    simp only [decide_eq_true_eq, h, true_and]
    constructor
    · exact Or.inr
    · rintro (h' | h')
      · exact absurd h' (Ord.irrefl _ _)
      · exact h'
  · rename_i h
    cases fwd <;> simp [Ord, h]

theorem itBefore_irrefl (fwd : Bool) (a : Entry K V) : ¬ itBefore fwd a a = true := by
  rw [itBefore_iff]
  rintro (h | ⟨_, h⟩)
  · exact Ord.irrefl _ _ h
  · exact Nat.lt_irrefl _ h

theorem itBefore_trans {fwd : Bool} {a b c : Entry K V} (h1 : itBefore fwd a b = true)
    (h2 : itBefore fwd b c = true) : itBefore fwd a c = true := by
  rw [itBefore_iff] at *
  rcases h1 with h1 | ⟨h1, h1'⟩ <;> rcases h2 with h2 | ⟨h2, h2'⟩
  · exact Or.inl (h1.trans h2)
  · exact Or.inl (h2 ▸ h1)
  · exact Or.inl (h1 ▸ h2)
  · exact Or.inr ⟨h1.trans h2, by omega⟩

theorem itBefore_total {fwd : Bool} {a b : Entry K V} (h : ¬ a.same b) :
    itBefore fwd a b = true ∨ itBefore fwd b a = true := by
  rw [itBefore_iff, itBefore_iff]
  rcases Ord.tri fwd a.key b.key with h' | h' | h'
  · exact Or.inl (Or.inl h')
  · rcases Nat.lt_trichotomy a.ver b.ver with h2 | h2 | h2
    · exact Or.inr (Or.inr ⟨h'.symm, h2⟩)
    · exact absurd ⟨h', h2⟩ h
    · exact Or.inl (Or.inr ⟨h', h2⟩)
  · exact Or.inr (Or.inl h')

/-- The entries a source offers: the newest entry of every key, keys ascending. -/
def Table.heads (t : Table K V) : Src K V → List (Entry K V)
  | .block b => (suffixes none b.entries).map (·.1)
  | .mem => t.idx

def Table.isSrc (t : Table K V) : Src K V → Prop
  | .block b => b ∈ t.blocks
  | .mem => True

/-- The entries behind position `pos`, in travel order. -/
def tailOf (fwd : Bool) (l : List (Entry K V)) (pos : Nat) : List (Entry K V) :=
  if fwd then l.drop (pos + 1) else (l.take pos).reverse

def Table.stream (t : Table K V) (fwd : Bool) (p : IPtr K V) : List (Entry K V) :=
  p.ent :: tailOf fwd (t.heads p.src) p.pos

structure Table.ptrOK (t : Table K V) (p : IPtr K V) : Prop where
  src : t.isSrc p.src
  pos : (t.heads p.src)[p.pos]? = some p.ent

theorem heads_ksorted {t : Table K V} (h : Inv t) {s : Src K V} (hs : t.isSrc s) :
    KSorted (t.heads s) := by
  cases s with
  | mem => exact h.mem.ksorted
  | block b =>
    have := (suffixes_sorted (prev := none) (h.blocks b hs).sorted (by simp)).1
    unfold KSorted Table.heads
    rw [List.pairwise_map]
    exact this

theorem heads_mem {t : Table K V} (h : Inv t) {s : Src K V} (hs : t.isSrc s) {e : Entry K V}
    (he : e ∈ t.heads s) : match s with | .block b => e ∈ b.entries | .mem => e ∈ t.mem := by
  cases s with
  | mem => exact h.mem.sub e he
  | block b =>
    obtain ⟨x, hx, rfl⟩ := List.mem_map.1 he
    exact ((suffixes_sorted (prev := none) (h.blocks b hs).sorted (by simp)).2.1 x hx).2.2 _
      List.mem_cons_self

theorem heads_all {t : Table K V} (h : Inv t) {s : Src K V} (hs : t.isSrc s) {e : Entry K V}
    (he : e ∈ t.heads s) : e ∈ t.all := by
  have := heads_mem h hs he
  unfold Table.all
  rw [List.mem_append]
  cases s with
  | mem => exact Or.inl this
  | block b => exact Or.inr (List.mem_flatMap.2 ⟨b, hs, this⟩)

/-- Entries of different sources never agree in key and version. -/
theorem heads_disj {t : Table K V} (h : Inv t) {s s' : Src K V} (hs : t.isSrc s) (hs' : t.isSrc s')
    (hne : s ≠ s') {e e' : Entry K V} (he : e ∈ t.heads s) (he' : e' ∈ t.heads s') :
    ¬ e.same e' := by
  have h1 := heads_mem h hs he
  have h2 := heads_mem h hs' he'
  rintro ⟨_, hv⟩
  cases s with
  | mem =>
    cases s' with
    | mem => exact hne rfl
    | block b =>
      have := h.above b hs' e h1
      have := (h.blocks b hs').leMax e' h2
      omega
  | block a =>
    cases s' with
    | mem =>
      have := h.above a hs e' h2
      have := (h.blocks a hs).leMax e h1
      omega
    | block b =>
      have hab : a ≠ b := fun hab => hne (by rw [hab])
      have ha := h.blocks a hs
      have hb := h.blocks b hs'
      have := ha.leMax e h1
      have := ha.minLe e h1
      have := hb.leMax e' h2
      have := hb.minLe e' h2
      rcases pairwise_cases h.ranges hs hs' hab with h | h <;> omega

/-- The newest entry of every stored key is offered by some source. -/
theorem all_heads {t : Table K V} (h : Inv t) {e : Entry K V} (he : e ∈ t.all) :
    ∃ s, t.isSrc s ∧ ∃ e' ∈ t.heads s, e'.key = e.key ∧ e.ver ≤ e'.ver := by
  unfold Table.all at he
  rw [List.mem_append] at he
  rcases he with he | he
  · obtain ⟨i, hi, hk⟩ := h.mem.cover e he
    exact ⟨.mem, trivial, i, hi, hk, h.mem.top i hi e he hk.symm⟩
  · obtain ⟨b, hb, heb⟩ := List.mem_flatMap.1 he
    obtain ⟨_, h2, h3⟩ := suffixes_sorted (prev := none) (h.blocks b hb).sorted (by simp)
    obtain ⟨s, hs, hk, hx⟩ := h3 e heb (by simp)
    refine ⟨.block b, hb, s.1, List.mem_map.2 ⟨s, hs, rfl⟩, hk, ?_⟩
    have hes := hx e heb rfl
    rcases List.mem_cons.1 hes with hes | hes
    · exact Nat.le_of_eq (by rw [hes])
    · have := (sorted_cons.1 (h2 s hs).2.1).1 e hes
      rw [before_iff] at this
      rcases this with this | this
      · rw [hk] at this; exact absurd this (lt_irrefl _)
      · omega

theorem block_at_heads {t : Table K V} (h : Inv t) {b : Block K V} (hb : b ∈ t.blocks) (i : Nat) :
    b.at i = (t.heads (.block b))[i]? := by
  rw [at_eq (h.blocks b hb)]
  simp [Table.heads]

theorem block_len_heads {t : Table K V} (h : Inv t) {b : Block K V} (hb : b ∈ t.blocks) :
    b.index.length = (t.heads (.block b)).length := by
  rw [index_length (h.blocks b hb)]
  simp [Table.heads]

/-- `advance` goes to the next entry of the stream, or reports its end. -/
theorem advance_spec {t : Table K V} (h : Inv t) (fwd : Bool) {p : IPtr K V} (hp : t.ptrOK p) :
    (t.advance fwd p = some none ∧ tailOf fwd (t.heads p.src) p.pos = []) ∨
    (∃ q, t.advance fwd p = some (some q) ∧ q.src = p.src ∧ t.ptrOK q ∧
      tailOf fwd (t.heads p.src) p.pos = t.stream fwd q) := by
  obtain ⟨ent, src, pos⟩ := p
  obtain ⟨h1, h2⟩ := hp
  dsimp only at h1 h2 ⊢
  have hlt : pos < (t.heads src).length := (List.getElem?_eq_some_iff.1 h2).1
  -- both directions, for an arbitrary source list
  have fwdCase : ∀ e, (t.heads src)[pos + 1]? = some e →
      tailOf true (t.heads src) pos = e :: tailOf true (t.heads src) (pos + 1) := by
    intro e he
    obtain ⟨hl, hg⟩ := List.getElem?_eq_some_iff.1 he
    simp only [tailOf, if_true]
    rw [List.drop_eq_getElem_cons hl, hg]
  have bwdCase : ∀ e, 0 < pos → (t.heads src)[pos - 1]? = some e →
      tailOf false (t.heads src) pos = e :: tailOf false (t.heads src) (pos - 1) := by
    intro e h0 he
    obtain ⟨hl, hg⟩ := List.getElem?_eq_some_iff.1 he
    simp only [tailOf]
    obtain ⟨j, rfl⟩ : ∃ j, pos = j + 1 := ⟨pos - 1, by omega⟩
    simp only [Nat.add_sub_cancel] at hg hl ⊢
    simp only [Bool.false_eq_true, if_false]
    rw [List.take_succ_eq_append_getElem hl, List.reverse_append, hg]
    rfl
  have fwdEnd : (t.heads src).length ≤ pos + 1 → tailOf true (t.heads src) pos = [] := by
    intro hle
    simp only [tailOf, if_true]
    exact List.drop_eq_nil_of_le hle
  have bwdEnd : pos = 0 → tailOf false (t.heads src) pos = [] := by
    rintro rfl
    simp [tailOf]
  cases src with
  | mem =>
    have hh : t.heads .mem = t.idx := rfl
    cases fwd with
    | true =>
      simp only [Table.advance, if_true]
      cases hn : t.idx[pos + 1]? with
      | none =>
        left
        exact ⟨rfl, fwdEnd (by rw [hh]; exact List.getElem?_eq_none_iff.1 hn)⟩
      | some e =>
        right
        exact ⟨_, rfl, rfl, ⟨trivial, hn⟩, fwdCase e hn⟩
    | false =>
      simp only [Table.advance, Bool.false_eq_true, if_false]
      split
      · rename_i h0
        have : t.idx[pos - 1]? = some (t.idx[pos - 1]'(by rw [hh] at hlt; omega)) :=
          List.getElem?_eq_getElem _
        rw [this]
        right
        exact ⟨_, rfl, rfl, ⟨trivial, this⟩, bwdCase _ h0 this⟩
      · left
        exact ⟨rfl, bwdEnd (by omega)⟩
  | block b =>
    have hb : b ∈ t.blocks := h1
    cases fwd with
    | true =>
      simp only [Table.advance, if_true, block_len_heads h hb]
      split
      · rename_i hl
        have : (t.heads (.block b))[pos + 1]? = some ((t.heads (.block b))[pos + 1]) :=
          List.getElem?_eq_getElem _
        rw [block_at_heads h hb, this]
        right
        exact ⟨_, rfl, rfl, ⟨h1, this⟩, fwdCase _ this⟩
      · left
        exact ⟨rfl, fwdEnd (by omega)⟩
    | false =>
      simp only [Table.advance, Bool.false_eq_true, if_false]
      split
      · rename_i h0
        have : (t.heads (.block b))[pos - 1]? = some ((t.heads (.block b))[pos - 1]'(by omega)) :=
          List.getElem?_eq_getElem _
        rw [block_at_heads h hb, this]
        right
        exact ⟨_, rfl, rfl, ⟨h1, this⟩, bwdCase _ h0 this⟩
      · left
        exact ⟨rfl, bwdEnd (by omega)⟩

theorem stream_sub {t : Table K V} (fwd : Bool) {p : IPtr K V} (hp : t.ptrOK p) :
    ∀ e ∈ t.stream fwd p, e ∈ t.heads p.src := by
  intro e he
  rcases List.mem_cons.1 he with rfl | he
  · exact List.mem_of_getElem? hp.pos
  · unfold tailOf at he
    split at he
    · exact List.mem_of_mem_drop he
    · exact List.mem_of_mem_take (List.mem_reverse.1 he)

/-- Keys strictly advance along a stream. -/
theorem stream_sorted {t : Table K V} (h : Inv t) (fwd : Bool) {p : IPtr K V} (hp : t.ptrOK p) :
    (t.stream fwd p).Pairwise (fun a b => Ord fwd a.key b.key) := by
  have hk := heads_ksorted h hp.src
  obtain ⟨hl, hg⟩ := List.getElem?_eq_some_iff.1 hp.pos
  cases fwd with
  | true =>
    have : t.stream true p = (t.heads p.src).drop p.pos := by
      unfold Table.stream tailOf
      rw [List.drop_eq_getElem_cons hl, hg]; simp
    rw [this]
    have := List.Pairwise.drop (i := p.pos) hk
    simpa [Ord] using this
  | false =>
    have : t.stream false p = ((t.heads p.src).take (p.pos + 1)).reverse := by
      unfold Table.stream tailOf
      rw [List.take_succ_eq_append_getElem hl, hg, List.reverse_append]; simp
    rw [this, List.pairwise_reverse]
    have := List.Pairwise.take (i := p.pos + 1) hk
    simpa [Ord] using this

/-- Invariant of `block_map`. -/
structure MapOK (t : Table K V) (fwd : Bool) (m : List (IPtr K V)) : Prop where
  ptr : ∀ p ∈ m, t.ptrOK p
  sorted : m.Pairwise (fun a b => itBefore fwd a.ent b.ent = true)
  srcs : m.Pairwise (fun a b => a.src ≠ b.src)

/-- Everything still ahead of the iterator. -/
def rem (t : Table K V) (fwd : Bool) (m : List (IPtr K V)) : List (Entry K V) :=
  m.flatMap (t.stream fwd)

theorem itInsert_perm (fwd : Bool) (p : IPtr K V) (m : List (IPtr K V))
    (h : ∀ q ∈ m, ¬ p.ent.same q.ent) : (itInsert fwd p m).Perm (p :: m) := by
  induction m with
  | nil => simp [itInsert]
  | cons x xs ih =>
    unfold itInsert
    split
    · exact List.Perm.refl _
    · split
      · exact ((ih fun q hq => h q (List.mem_cons_of_mem _ hq)).cons x).trans (List.Perm.swap _ _ _)
      · rename_i h1 h2
        rcases itBefore_total (fwd := fwd) (h x List.mem_cons_self) with h' | h'
        · exact absurd h' h1
        · exact absurd h' h2

theorem itInsert_sorted (fwd : Bool) (p : IPtr K V) (m : List (IPtr K V))
    (hs : m.Pairwise (fun a b => itBefore fwd a.ent b.ent = true))
    (h : ∀ q ∈ m, ¬ p.ent.same q.ent) :
    (itInsert fwd p m).Pairwise (fun a b => itBefore fwd a.ent b.ent = true) := by
  induction m with
  | nil => simp [itInsert]
  | cons x xs ih =>
    have hs0 := hs
    rw [List.pairwise_cons] at hs
    unfold itInsert
    split
    · rename_i h1
      rw [List.pairwise_cons]
      refine ⟨fun q hq => ?_, hs0⟩
      rcases List.mem_cons.1 hq with rfl | hq
      · exact h1
      · exact itBefore_trans h1 (hs.1 q hq)
    · split
      · rename_i h1 h2
        have hx : ∀ q ∈ xs, ¬ p.ent.same q.ent := fun q hq => h q (List.mem_cons_of_mem _ hq)
        rw [List.pairwise_cons]
        refine ⟨fun q hq => ?_, ih hs.2 hx⟩
        rcases List.mem_cons.1 ((itInsert_perm fwd p xs hx).mem_iff.1 hq) with rfl | hq
        · exact h2
        · exact hs.1 q hq
      · rename_i h1 h2
        rcases itBefore_total (fwd := fwd) (h x List.mem_cons_self) with h' | h'
        · exact absurd h' h1
        · exact absurd h' h2

theorem MapOK.insert {t : Table K V} (h : Inv t) {fwd : Bool} {m : List (IPtr K V)}
    (hm : MapOK t fwd m) {p : IPtr K V} (hp : t.ptrOK p) (hs : ∀ q ∈ m, p.src ≠ q.src) :
    MapOK t fwd (itInsert fwd p m) ∧ (itInsert fwd p m).Perm (p :: m) := by
  have hd : ∀ q ∈ m, ¬ p.ent.same q.ent := fun q hq =>
    heads_disj h hp.src (hm.ptr q hq).src (hs q hq) (List.mem_of_getElem? hp.pos)
      (List.mem_of_getElem? (hm.ptr q hq).pos)
  have hperm := itInsert_perm fwd p m hd
  refine ⟨⟨fun q hq => ?_, itInsert_sorted fwd p m hm.sorted hd, ?_⟩, hperm⟩
  · rcases List.mem_cons.1 (hperm.mem_iff.1 hq) with rfl | hq
    · exact hp
    · exact hm.ptr q hq
  · refine (hperm.pairwise_iff (fun {a b} (hab : a.src ≠ b.src) => hab.symm)).2 ?_
    rw [List.pairwise_cons]
    exact ⟨hs, hm.srcs⟩

theorem rem_perm {t : Table K V} {fwd : Bool} {m m' : List (IPtr K V)} (h : m.Perm m') :
    (rem t fwd m).Perm (rem t fwd m') := h.flatMap_right _

theorem itErase_head {fwd : Bool} {p : IPtr K V} {m : List (IPtr K V)}
    (h : ∀ q ∈ m, itBefore fwd p.ent q.ent = true) : itErase fwd p (p :: m) = m := by
  unfold itErase
  rw [List.filter_cons_of_neg (by simp [itBefore_irrefl])]
  rw [List.filter_eq_self]
  intro q hq
  simp [h q hq]

/-- The loop of `next`/`prev`: exactly the entries with the current key are consumed. -/
theorem stepLoop_spec {t : Table K V} (h : Inv t) (fwd : Bool) (prev : K) (n : Nat)
    (m : List (IPtr K V)) (hm : MapOK t fwd m)
    (hge : ∀ e ∈ rem t fwd m, e.key = prev ∨ Ord fwd prev e.key)
    (hn : (m.filter fun p => decide (p.ent.key = prev)).length ≤ n) :
    ∃ m', t.stepLoop fwd prev n m = some m' ∧ MapOK t fwd m' ∧
      (∀ e, e ∈ rem t fwd m' ↔ e ∈ rem t fwd m ∧ e.key ≠ prev) ∧
      (rem t fwd m').length + (m.filter fun p => decide (p.ent.key = prev)).length
        = (rem t fwd m).length := by
  induction n generalizing m with
  | zero =>
    cases m with
    | nil => exact ⟨[], by simp [Table.stepLoop], hm, by simp [rem], by simp [rem]⟩
    | cons p m =>
      have hne : ¬ p.ent.key = prev := by
        intro hk
        rw [List.filter_cons_of_pos (by simp [hk])] at hn
        simp at hn
      have hall : ∀ q ∈ m, ¬ q.ent.key = prev := by
        intro q hq hk
        have : q ∈ (p :: m).filter fun p => decide (p.ent.key = prev) := by
          rw [List.mem_filter]; exact ⟨List.mem_cons_of_mem _ hq, by simp [hk]⟩
        have := List.length_pos_of_mem this
        omega
      refine ⟨p :: m, by unfold Table.stepLoop; rw [if_neg hne], hm, fun e => ?_, by omega⟩
      constructor
      · intro he
        refine ⟨he, ?_⟩
        obtain ⟨q, hq, heq⟩ := List.mem_flatMap.1 he
        have hqne : ¬ q.ent.key = prev := by
          rcases List.mem_cons.1 hq with rfl | hq
          · exact hne
          · exact hall q hq
        have hqo : Ord fwd prev q.ent.key := by
          rcases hge q.ent (List.mem_flatMap.2 ⟨q, hq, List.mem_cons_self⟩) with h' | h'
          · exact absurd h' hqne
          · exact h'
        rcases List.mem_cons.1 heq with rfl | heq
        · exact hqne
        · have := (List.pairwise_cons.1 (stream_sorted h fwd (hm.ptr q hq))).1 e heq
          exact (hqo.trans this).ne.symm
      · exact fun he => he.1
  | succ n ih =>
    cases m with
    | nil => exact ⟨[], by simp [Table.stepLoop], hm, by simp [rem], by simp [rem]⟩
    | cons p m =>
      have hsorted := List.pairwise_cons.1 hm.sorted
      have hsrcs := List.pairwise_cons.1 hm.srcs
      have hp := hm.ptr p List.mem_cons_self
      have hm' : MapOK t fwd m :=
        ⟨fun q hq => hm.ptr q (List.mem_cons_of_mem _ hq), hsorted.2, hsrcs.2⟩
      by_cases hk : p.ent.key = prev
      · have hps := List.pairwise_cons.1 (stream_sorted h fwd hp)
        have hremc : rem t fwd (p :: m) = t.stream fwd p ++ rem t fwd m := by simp [rem]
        rw [List.filter_cons_of_pos (by simp [hk])] at hn ⊢
        simp only [List.length_cons] at hn ⊢
        have hne : ∀ e ∈ tailOf fwd (t.heads p.src) p.pos, e.key ≠ prev := by
          intro e he
          have := hps.1 e he
          rw [hk] at this
          exact this.ne.symm
        rcases advance_spec h fwd hp with ⟨ha, htl⟩ | ⟨q, ha, hqs, hq, htl⟩
        · obtain ⟨m', h1, h2, h3, h4⟩ := ih m hm'
            (fun e he => hge e (by rw [hremc]; exact List.mem_append_right _ he)) (by omega)
          refine ⟨m', ?_, h2, fun e => ?_, ?_⟩
          · unfold Table.stepLoop
            rw [if_pos hk, ha]
            dsimp only
            rw [itErase_head hsorted.1]
            exact h1
          · rw [h3, hremc, List.mem_append]
            constructor
            · rintro ⟨a, b⟩; exact ⟨Or.inr a, b⟩
            · rintro ⟨a | a, b⟩
              · unfold Table.stream at a
                rw [htl] at a
                simp only [List.mem_singleton] at a
                subst a
                exact absurd hk b
              · exact ⟨a, b⟩
          · rw [hremc, List.length_append]
            unfold Table.stream
            rw [htl]
            simp only [List.length_singleton]
            omega
        · have hqsrc : ∀ x ∈ m, q.src ≠ x.src := by rw [hqs]; exact hsrcs.1
          obtain ⟨hok, hperm⟩ := hm'.insert h hq hqsrc
          have hqk : Ord fwd p.ent.key q.ent.key := by
            apply hps.1
            rw [htl]; exact List.mem_cons_self
          have hrq : ∀ e, e ∈ rem t fwd (itInsert fwd q m) ↔
              e ∈ tailOf fwd (t.heads p.src) p.pos ∨ e ∈ rem t fwd m := by
            intro e
            rw [(rem_perm hperm).mem_iff, htl]
            simp [rem]
          have hqne : ¬ q.ent.key = prev := by rw [← hk]; exact hqk.ne.symm
          have hfil : ((itInsert fwd q m).filter fun p => decide (p.ent.key = prev)).length
              = (m.filter fun p => decide (p.ent.key = prev)).length := by
            rw [(hperm.filter _).length_eq, List.filter_cons_of_neg (by simp [hqne])]
          obtain ⟨m', h1, h2, h3, h4⟩ := ih (itInsert fwd q m) hok
            (fun e he => by
              rcases (hrq e).1 he with he | he
              · right; rw [← hk]; exact hps.1 e he
              · exact hge e (by rw [hremc]; exact List.mem_append_right _ he)) (by omega)
          refine ⟨m', ?_, h2, fun e => ?_, ?_⟩
          · unfold Table.stepLoop
            rw [if_pos hk, ha]
            dsimp only
            have hbq : itBefore fwd p.ent q.ent = true := (itBefore_iff _ _ _).2 (Or.inl hqk)
            have hnq : ¬ itBefore fwd q.ent p.ent = true := fun hh =>
              itBefore_irrefl _ _ (itBefore_trans hbq hh)
            have : itInsert fwd q (p :: m) = p :: itInsert fwd q m := by
              rw [itInsert, if_neg hnq, if_pos hbq]
            rw [this, itErase_head]
            · exact h1
            · intro x hx
              rcases List.mem_cons.1 (hperm.mem_iff.1 hx) with rfl | hx
              · exact hbq
              · exact hsorted.1 x hx
          · rw [h3, hrq, hremc, List.mem_append]
            constructor
            · rintro ⟨a | a, b⟩
              · exact ⟨Or.inl (List.mem_cons_of_mem _ a), b⟩
              · exact ⟨Or.inr a, b⟩
            · rintro ⟨a | a, b⟩
              · rcases List.mem_cons.1 a with rfl | a
                · exact absurd hk b
                · exact ⟨Or.inl a, b⟩
              · exact ⟨Or.inr a, b⟩
          · have e1 := (rem_perm (t := t) (fwd := fwd) hperm).length_eq
            have e2 : (rem t fwd (q :: m)).length
                = (tailOf fwd (t.heads p.src) p.pos).length + (rem t fwd m).length := by
              rw [htl]; simp [rem]
            rw [hremc, List.length_append]
            unfold Table.stream
            simp only [List.length_cons]
            omega
      · have hno : (p :: m).filter (fun p => decide (p.ent.key = prev)) = [] := by
          rw [List.filter_eq_nil_iff]
          intro q hq
          simp only [decide_eq_true_eq]
          rcases List.mem_cons.1 hq with rfl | hq
          · exact hk
          · have hp' : Ord fwd prev p.ent.key := by
              rcases hge p.ent (List.mem_flatMap.2 ⟨p, List.mem_cons_self, List.mem_cons_self⟩)
                with h' | h'
              · exact absurd h' hk
              · exact h'
            have := hsorted.1 q hq
            rw [itBefore_iff] at this
            rcases this with h' | h'
            · exact (hp'.trans h').ne.symm
            · rw [← h'.1]; exact hk
        refine ⟨p :: m, by unfold Table.stepLoop; rw [if_neg hk], hm, fun e => ?_, ?_⟩
        · constructor
          · intro he
            refine ⟨he, ?_⟩
            obtain ⟨q, hq, heq⟩ := List.mem_flatMap.1 he
            have hqne : ¬ q.ent.key = prev := by
              intro hh
              have : q ∈ (p :: m).filter (fun p => decide (p.ent.key = prev)) := by
                rw [List.mem_filter]; exact ⟨hq, by simp [hh]⟩
              rw [hno] at this
              cases this
            have hqo : Ord fwd prev q.ent.key := by
              rcases hge q.ent (List.mem_flatMap.2 ⟨q, hq, List.mem_cons_self⟩) with h' | h'
              · exact absurd h' hqne
              · exact h'
            rcases List.mem_cons.1 heq with rfl | heq
            · exact hqne
            · have := (List.pairwise_cons.1 (stream_sorted h fwd (hm.ptr q hq))).1 e heq
              exact (hqo.trans this).ne.symm
          · exact fun he => he.1
        · rw [hno]; simp

/-- The first element of the map holds the first key ahead, and of that key the newest version. -/
theorem head_first {t : Table K V} (h : Inv t) {fwd : Bool} {p : IPtr K V} {m : List (IPtr K V)}
    (hm : MapOK t fwd (p :: m)) :
    ∀ e ∈ rem t fwd (p :: m), (e.key = p.ent.key ∧ e.ver ≤ p.ent.ver) ∨ Ord fwd p.ent.key e.key := by
  intro e he
  obtain ⟨q, hq, heq⟩ := List.mem_flatMap.1 he
  have hpq : q.ent.key = p.ent.key ∧ q.ent.ver ≤ p.ent.ver ∨ Ord fwd p.ent.key q.ent.key := by
    rcases List.mem_cons.1 hq with rfl | hq
    · exact Or.inl ⟨rfl, Nat.le_refl _⟩
    · have := (List.pairwise_cons.1 hm.sorted).1 q hq
      rw [itBefore_iff] at this
      rcases this with h' | h'
      · exact Or.inr h'
      · exact Or.inl ⟨h'.1.symm, by omega⟩
  rcases List.mem_cons.1 heq with rfl | heq
  · exact hpq
  · have := (List.pairwise_cons.1 (stream_sorted h fwd (hm.ptr q hq))).1 e heq
    rcases hpq with h' | h'
    · right; rw [← h'.1]; exact this
    · right; exact h'.trans this

end Verif.DB
