import Verif.DB.IterLemmas

/-!
# Lemmas on the iterator: `seek`, and the meaning of a position
-/

set_option linter.unusedSectionVars false

namespace Verif.DB

variable {K V : Type} [LinearOrder K]

/-- The keys a seek selects: mode 0 from `k` upwards, mode −1 strictly below `k`. -/
def Sel (fwd : Bool) (key : Option K) (x : K) : Prop :=
  match key with
  | none => True
  | some k => if fwd then k ≤ x else x < k

/-- What `seek` should find in one source. -/
def SeekRes (t : Table K V) (fwd : Bool) (key : Option K) (s : Src K V) (r : Option (IPtr K V)) :
    Prop :=
  match r with
  | none => ∀ e ∈ t.heads s, ¬ Sel fwd key e.key
  | some p => p.src = s ∧ t.ptrOK p ∧
      ∀ e, e ∈ t.stream fwd p ↔ e ∈ t.heads s ∧ Sel fwd key e.key

theorem mem_drop_iff {l : List (Entry K V)} {key : Option K} {pos : Nat}
    (hlo : ∀ i e, i < pos → l[i]? = some e → ¬ Sel true key e.key)
    (hhi : ∀ i e, pos ≤ i → l[i]? = some e → Sel true key e.key) (e : Entry K V) :
    e ∈ l.drop pos ↔ e ∈ l ∧ Sel true key e.key := by
  constructor
  · intro he
    refine ⟨List.mem_of_mem_drop he, ?_⟩
    obtain ⟨i, hi⟩ := List.mem_iff_getElem?.1 he
    rw [List.getElem?_drop] at hi
    exact hhi _ e (by omega) hi
  · rintro ⟨he, hs⟩
    obtain ⟨i, hi⟩ := List.mem_iff_getElem?.1 he
    by_cases hlt : i < pos
    · exact absurd hs (hlo i e hlt hi)
    · apply List.mem_iff_getElem?.2
      refine ⟨i - pos, ?_⟩
      rw [List.getElem?_drop]
      rw [show pos + (i - pos) = i by omega]
      exact hi

theorem mem_take_iff {l : List (Entry K V)} {key : Option K} {pos : Nat}
    (hlo : ∀ i e, i < pos → l[i]? = some e → Sel false key e.key)
    (hhi : ∀ i e, pos ≤ i → l[i]? = some e → ¬ Sel false key e.key) (e : Entry K V) :
    e ∈ l.take pos ↔ e ∈ l ∧ Sel false key e.key := by
  constructor
  · intro he
    refine ⟨List.mem_of_mem_take he, ?_⟩
    obtain ⟨i, hi⟩ := List.mem_iff_getElem?.1 he
    rw [List.getElem?_take] at hi
    split at hi
    · rename_i hlt; exact hlo _ e hlt hi
    · cases hi
  · rintro ⟨he, hs⟩
    obtain ⟨i, hi⟩ := List.mem_iff_getElem?.1 he
    by_cases hlt : i < pos
    · apply List.mem_iff_getElem?.2
      refine ⟨i, ?_⟩
      rw [List.getElem?_take, if_pos hlt]
      exact hi
    · exact absurd hs (hhi i e (by omega) hi)

/-- Pointer at `pos`, forward: the stream is the rest of the source from `pos`. -/
theorem seekRes_fwd {t : Table K V} {s : Src K V} (hs : t.isSrc s) {key : Option K} {pos : Nat}
    (hlo : ∀ i e, i < pos → (t.heads s)[i]? = some e → ¬ Sel true key e.key)
    (hhi : ∀ i e, pos ≤ i → (t.heads s)[i]? = some e → Sel true key e.key) :
    SeekRes t true key s (match (t.heads s)[pos]? with
      | none => none
      | some e => some { ent := e, src := s, pos := pos }) := by
  cases he : (t.heads s)[pos]? with
  | none =>
    intro e hm hsel
    obtain ⟨i, hi⟩ := List.mem_iff_getElem?.1 hm
    have : (t.heads s).length ≤ pos := List.getElem?_eq_none_iff.1 he
    exact hlo i e (by have := (List.getElem?_eq_some_iff.1 hi).1; omega) hi hsel
  | some e =>
    refine ⟨rfl, ⟨hs, he⟩, fun x => ?_⟩
    rw [← mem_drop_iff hlo hhi]
    obtain ⟨hl, hg⟩ := List.getElem?_eq_some_iff.1 he
    rw [List.drop_eq_getElem_cons hl, hg]
    simp [Table.stream, tailOf]

/-- Pointer at `pos - 1`, backward: the stream is the source up to `pos`, reversed. -/
theorem seekRes_bwd {t : Table K V} {s : Src K V} (hs : t.isSrc s) {key : Option K} {pos : Nat}
    (hlo : ∀ i e, i < pos → (t.heads s)[i]? = some e → Sel false key e.key)
    (hhi : ∀ i e, pos ≤ i → (t.heads s)[i]? = some e → ¬ Sel false key e.key) :
    (pos = 0 → SeekRes t false key s none) ∧
    (∀ e, 0 < pos → (t.heads s)[pos - 1]? = some e →
      SeekRes t false key s (some { ent := e, src := s, pos := pos - 1 })) := by
  constructor
  · intro h0 e hm hsel
    have := (mem_take_iff hlo hhi e).2 ⟨hm, hsel⟩
    rw [h0] at this
    simp at this
  · intro e h0 he
    refine ⟨rfl, ⟨hs, he⟩, fun x => ?_⟩
    rw [← mem_take_iff hlo hhi]
    obtain ⟨hl, hg⟩ := List.getElem?_eq_some_iff.1 he
    obtain ⟨j, rfl⟩ : ∃ j, pos = j + 1 := ⟨pos - 1, by omega⟩
    simp only [Nat.add_sub_cancel] at hg hl
    rw [List.take_succ_eq_append_getElem hl, hg]
    simp [Table.stream, tailOf, or_comm]

/-- `seek` in one block, modes 0 and −1. -/
theorem seekBlock_spec {t : Table K V} (h : Inv t) {b : Block K V} (hb : b ∈ t.blocks)
    (key : Option K) (fwd : Bool) :
    ∃ r, seekBlock b key (if fwd then 0 else -1) = some r ∧ SeekRes t fwd key (.block b) r := by
  have hlen := block_len_heads h hb
  have hat := block_at_heads h hb
  cases key with
  | none =>
    cases fwd with
    | true =>
      have hr := seekRes_fwd (t := t) (s := .block b) hb (key := none) (pos := 0)
        (fun i e hi => by omega) (fun _ _ _ _ => trivial)
      unfold seekBlock
      simp only [if_true]
      by_cases h0 : 0 < b.index.length
      · rw [if_pos h0, hat 0, List.getElem?_eq_getElem (by omega)]
        rw [List.getElem?_eq_getElem (by omega)] at hr
        exact ⟨_, rfl, hr⟩
      · rw [if_neg h0]
        have : (t.heads (.block b))[0]? = none := List.getElem?_eq_none_iff.2 (by omega)
        rw [this] at hr
        exact ⟨_, rfl, hr⟩
    | false =>
      obtain ⟨r1, r2⟩ := seekRes_bwd (t := t) (s := .block b) hb (key := none)
        (pos := b.index.length) (fun _ _ _ _ => trivial)
        (fun i e hi he => by have := (List.getElem?_eq_some_iff.1 he).1; omega)
      unfold seekBlock
      simp only [Bool.false_eq_true, if_false]
      rw [if_neg (by decide), if_pos (by decide)]
      dsimp only
      rw [if_pos (by decide)]
      by_cases h0 : b.index.length = 0
      · rw [if_pos h0]; exact ⟨_, rfl, r1 h0⟩
      · have hg : (t.heads (.block b))[b.index.length - 1]? = some _ :=
          List.getElem?_eq_getElem (by omega)
        rw [if_neg h0, hat, hg]
        exact ⟨_, rfl, r2 _ (by omega) hg⟩
  | some k =>
    obtain ⟨lb, hl1, hl2, hl3, hl4, hl5, _⟩ := lowerBound_spec (h.blocks b hb) k
    have hh : ∀ (i : Nat) (e : Entry K V), (t.heads (.block b))[i]? = some e →
        ∃ s : Entry K V × List (Entry K V), (suffixes none b.entries)[i]? = some s ∧ s.1 = e := by
      intro i e he
      simp only [Table.heads, List.getElem?_map, Option.map_eq_some_iff] at he
      exact he
    have hlo : ∀ i e, i < lb.pos → (t.heads (.block b))[i]? = some e → e.key < k := by
      intro i e hi he
      obtain ⟨s, hs, rfl⟩ := hh i e he
      exact hl4 i s hi hs
    have hhi : ∀ i e, lb.pos ≤ i → (t.heads (.block b))[i]? = some e → k ≤ e.key := by
      intro i e hi he
      obtain ⟨s, hs, rfl⟩ := hh i e he
      exact hl5 i s hi hs
    have hent : lb.ent = (t.heads (.block b))[lb.pos]? := by
      rw [hl2]; simp [Table.heads]
    unfold seekBlock
    dsimp only
    rw [hl1]
    dsimp only
    cases fwd with
    | true =>
      have hr := seekRes_fwd (t := t) (s := .block b) hb (key := some k) (pos := lb.pos)
        (fun i e hi he => by simpa [Sel] using hlo i e hi he)
        (fun i e hi he => by simpa [Sel] using hhi i e hi he)
      simp only [if_true]
      rw [if_neg (by decide), if_neg (by decide), hent]
      revert hr
      cases (t.heads (.block b))[lb.pos]? with
      | none => intro hr; exact ⟨_, rfl, hr⟩
      | some e => intro hr; exact ⟨_, rfl, hr⟩
    | false =>
      obtain ⟨r1, r2⟩ := seekRes_bwd (t := t) (s := .block b) hb (key := some k) (pos := lb.pos)
        (fun i e hi he => by simpa [Sel] using hlo i e hi he)
        (fun i e hi he => by simpa [Sel] using hhi i e hi he)
      simp only [Bool.false_eq_true, if_false]
      rw [if_pos (by decide)]
      by_cases h0 : lb.pos = 0
      · rw [if_pos h0]; exact ⟨_, rfl, r1 h0⟩
      · have hle : lb.pos ≤ (t.heads (.block b)).length := by simpa [Table.heads] using hl3
        have hg : (t.heads (.block b))[lb.pos - 1]? = some _ :=
          List.getElem?_eq_getElem (by omega)
        rw [if_neg h0, hat, hg]
        exact ⟨_, rfl, r2 _ (by omega) hg⟩

theorem idxLower_spec {k : K} {idx : List (Entry K V)} (hk : KSorted idx) :
    idxLower k idx ≤ idx.length ∧
    (∀ i e, i < idxLower k idx → idx[i]? = some e → e.key < k) ∧
    (∀ i e, idxLower k idx ≤ i → idx[i]? = some e → k ≤ e.key) := by
  induction idx with
  | nil => simp [idxLower]
  | cons x xs ih =>
    rw [ksorted_cons] at hk
    obtain ⟨i1, i2, i3⟩ := ih hk.2
    unfold idxLower at *
    by_cases hx : x.key < k
    · rw [List.takeWhile_cons_of_pos (by simpa using hx)]
      simp only [List.length_cons]
      refine ⟨by omega, fun i e hi he => ?_, fun i e hi he => ?_⟩
      · cases i with
        | zero => simp at he; rw [← he]; exact hx
        | succ i => exact i2 i e (by omega) (by simpa using he)
      · cases i with
        | zero => omega
        | succ i => exact i3 i e (by omega) (by simpa using he)
    · rw [List.takeWhile_cons_of_neg (by simpa using hx)]
      refine ⟨by simp, fun i e hi => by simp at hi, fun i e _ he => ?_⟩
      have hkx : k ≤ x.key := not_lt.1 hx
      cases i with
      | zero => simp at he; rw [← he]; exact hkx
      | succ i =>
        have : e ∈ xs := List.mem_of_getElem? (by simpa using he)
        exact le_trans hkx (le_of_lt (hk.1 e this))

/-- `seek` in the memory index, modes 0 and −1. -/
theorem seekMem_spec {t : Table K V} (h : Inv t) (key : Option K) (fwd : Bool) :
    SeekRes t fwd key .mem (seekMem t.idx key (if fwd then 0 else -1)) := by
  have hh : t.heads .mem = t.idx := rfl
  obtain ⟨pos, hpos, hle, hlo, hhi⟩ : ∃ pos, memStart t.idx key (if fwd then 0 else -1) = pos ∧
      pos ≤ t.idx.length ∧
      (∀ i e, i < pos → t.idx[i]? = some e → (¬ Sel true key e.key ∨ fwd = false) ∧
        (Sel false key e.key ∨ fwd = true)) ∧
      (∀ i e, pos ≤ i → t.idx[i]? = some e → (Sel true key e.key ∨ fwd = false) ∧
        (¬ Sel false key e.key ∨ fwd = true)) := by
    cases key with
    | none =>
      cases fwd with
      | true =>
        exact ⟨0, by simp [memStart], by omega, fun i e hi => by omega,
          fun i e _ _ => ⟨Or.inl trivial, Or.inr rfl⟩⟩
      | false =>
        exact ⟨t.idx.length, by simp [memStart], Nat.le_refl _,
          fun i e _ _ => ⟨Or.inr rfl, Or.inl trivial⟩,
          fun i e hi he => by have := (List.getElem?_eq_some_iff.1 he).1; omega⟩
    | some k =>
      obtain ⟨a1, a2, a3⟩ := idxLower_spec (k := k) h.mem.ksorted
      exact ⟨_, rfl, a1,
        fun i e hi he => ⟨Or.inl (by simpa [Sel] using a2 i e hi he),
          Or.inl (by simpa [Sel] using a2 i e hi he)⟩,
        fun i e hi he => ⟨Or.inl (by simpa [Sel] using a3 i e hi he),
          Or.inl (by simpa [Sel] using a3 i e hi he)⟩⟩
  unfold seekMem
  rw [hpos]
  cases fwd with
  | true =>
    simp only [if_true]
    rw [if_neg (by decide), if_neg (by decide)]
    have hr := seekRes_fwd (t := t) (s := .mem) trivial (key := key) (pos := pos)
      (fun i e hi he => by simpa using (hlo i e hi he).1)
      (fun i e hi he => by simpa using (hhi i e hi he).1)
    rw [hh] at hr
    exact hr
  | false =>
    simp only [Bool.false_eq_true, if_false]
    rw [if_pos (by decide)]
    obtain ⟨r1, r2⟩ := seekRes_bwd (t := t) (s := .mem) trivial (key := key) (pos := pos)
      (fun i e hi he => by simpa using (hlo i e hi he).2)
      (fun i e hi he => by simpa using (hhi i e hi he).2)
    by_cases h0 : pos = 0
    · rw [if_neg (by simpa using h0), List.getElem?_eq_none (Nat.le_refl _)]
      exact r1 h0
    · rw [if_pos h0]
      have hg : t.idx[pos - 1]? = some _ := List.getElem?_eq_getElem (by omega)
      rw [hg]
      exact r2 _ (by omega) hg

/-- The state of an iterator relative to a set of keys: everything selected is ahead. -/
structure Ahead (t : Table K V) (fwd : Bool) (P : K → Prop) (it : Iter K V) : Prop where
  dir : it.dir = if fwd then 1 else -1
  ok : MapOK t fwd it.map
  rem : ∀ e, e ∈ rem t fwd it.map ↔ ∃ s, t.isSrc s ∧ e ∈ t.heads s ∧ P e.key

theorem seekBlocks_spec {t : Table K V} (h : Inv t) (fwd : Bool) (key : Option K)
    (bs : List (Block K V)) (hb : ∀ b ∈ bs, b ∈ t.blocks)
    (hr : bs.Pairwise (fun a b => a.maxV < b.minV)) (m : List (IPtr K V)) (hm : MapOK t fwd m)
    (hs : ∀ p ∈ m, ∀ b ∈ bs, p.src ≠ .block b) (hmm : ∀ p ∈ m, p.src ≠ .mem) :
    ∃ m', seekBlocks fwd key (if fwd then 0 else -1) bs m = some m' ∧ MapOK t fwd m' ∧
      (∀ p ∈ m', p.src ≠ .mem) ∧
      (∀ e, e ∈ rem t fwd m' ↔ e ∈ rem t fwd m ∨
        ∃ b ∈ bs, e ∈ t.heads (.block b) ∧ Sel fwd key e.key) := by
  induction bs generalizing m with
  | nil => exact ⟨m, rfl, hm, hmm, by simp⟩
  | cons b bs ih =>
    rw [List.pairwise_cons] at hr
    have hb' : ∀ b ∈ bs, b ∈ t.blocks := fun b hbb => hb b (List.mem_cons_of_mem _ hbb)
    have hbt := hb b List.mem_cons_self
    obtain ⟨r, h1, h2⟩ := seekBlock_spec h hbt key fwd
    unfold seekBlocks
    rw [h1]
    cases r with
    | none =>
      obtain ⟨m', e1, e2, e3, e4⟩ := ih hb' hr.2 m hm
        (fun p hp b' hb' => hs p hp b' (List.mem_cons_of_mem _ hb')) hmm
      refine ⟨m', e1, e2, e3, fun e => ?_⟩
      rw [e4]
      constructor
      · rintro (a | ⟨b', hb', a⟩)
        · exact Or.inl a
        · exact Or.inr ⟨b', List.mem_cons_of_mem _ hb', a⟩
      · rintro (a | ⟨b', hb', a, a'⟩)
        · exact Or.inl a
        · rcases List.mem_cons.1 hb' with rfl | hb'
          · exact absurd a' (h2 e a)
          · exact Or.inr ⟨b', hb', a, a'⟩
    | some p =>
      obtain ⟨p1, p2, p3⟩ := h2
      have hps : ∀ q ∈ m, p.src ≠ q.src := fun q hq hh =>
        hs q hq b List.mem_cons_self (by rw [← hh, p1])
      obtain ⟨ok, perm⟩ := hm.insert h p2 hps
      have hne : ∀ b' ∈ bs, b ≠ b' := by
        rintro b' hbb rfl
        have := hr.1 b hbb
        obtain ⟨e, he, hv⟩ := (h.blocks b hbt).minAtt
        have := (h.blocks b hbt).leMax e he
        omega
      obtain ⟨m', e1, e2, e3, e4⟩ := ih hb' hr.2 (itInsert fwd p m) ok
        (fun q hq b' hbb => by
          rcases List.mem_cons.1 (perm.mem_iff.1 hq) with rfl | hq
          · rw [p1]; intro hh; exact hne b' hbb (by injection hh)
          · exact hs q hq b' (List.mem_cons_of_mem _ hbb))
        (fun q hq => by
          rcases List.mem_cons.1 (perm.mem_iff.1 hq) with rfl | hq
          · rw [p1]; intro hh; cases hh
          · exact hmm q hq)
      refine ⟨m', e1, e2, e3, fun e => ?_⟩
      rw [e4, (rem_perm perm).mem_iff]
      have : e ∈ rem t fwd (p :: m) ↔ e ∈ t.stream fwd p ∨ e ∈ rem t fwd m := by simp [rem]
      rw [this, p3]
      constructor
      · rintro ((a | a) | ⟨b', hb', a⟩)
        · exact Or.inr ⟨b, List.mem_cons_self, a⟩
        · exact Or.inl a
        · exact Or.inr ⟨b', List.mem_cons_of_mem _ hb', a⟩
      · rintro (a | ⟨b', hb', a⟩)
        · exact Or.inl (Or.inr a)
        · rcases List.mem_cons.1 hb' with rfl | hb'
          · exact Or.inl (Or.inl a)
          · exact Or.inr ⟨b', hb', a⟩

/-- `seek` with mode 0 or −1 puts exactly the selected keys ahead of the iterator. -/
theorem seekMode_spec {t : Table K V} (h : Inv t) (fwd : Bool) (key : Option K) :
    ∃ it, t.seekMode key (if fwd then 0 else -1) = some it ∧ Ahead t fwd (Sel fwd key) it := by
  obtain ⟨m, h1, h2, h3, h4⟩ := seekBlocks_spec h fwd key t.blocks (fun _ hb => hb) h.ranges []
    ⟨by simp, List.Pairwise.nil, List.Pairwise.nil⟩ (by simp) (by simp)
  have hm := seekMem_spec h key fwd
  have hfw : decide ((0 : Int) ≤ (if fwd = true then 0 else -1)) = fwd := by
    cases fwd <;> decide
  have hdir : (if (0 : Int) ≤ (if fwd = true then 0 else -1) then (1 : Int) else -1)
      = if fwd = true then 1 else -1 := by
    cases fwd <;> decide
  have h4' : ∀ e, e ∈ rem t fwd m ↔ ∃ b ∈ t.blocks, e ∈ t.heads (.block b) ∧ Sel fwd key e.key := by
    intro e; rw [h4]; simp [rem]
  unfold Table.seekMode
  dsimp only
  rw [hfw, h1, hdir]
  dsimp only
  cases hr : seekMem t.idx key (if fwd then 0 else -1) with
  | none =>
    rw [hr] at hm
    refine ⟨_, rfl, rfl, h2, fun e => ?_⟩
    dsimp only
    rw [h4']
    constructor
    · rintro ⟨b, hb, a⟩; exact ⟨.block b, hb, a⟩
    · rintro ⟨s, hs, a, a'⟩
      cases s with
      | mem => exact absurd a' (hm e a)
      | block b => exact ⟨b, hs, a, a'⟩
  | some p =>
    rw [hr] at hm
    obtain ⟨p1, p2, p3⟩ := hm
    obtain ⟨ok, perm⟩ := h2.insert h p2 (fun q hq => by rw [p1]; exact (h3 q hq).symm)
    refine ⟨_, rfl, rfl, ok, fun e => ?_⟩
    dsimp only
    rw [(rem_perm perm).mem_iff]
    have : e ∈ rem t fwd (p :: m) ↔ e ∈ t.stream fwd p ∨ e ∈ rem t fwd m := by simp [rem]
    rw [this, p3, h4']
    constructor
    · rintro (a | ⟨b, hb, a⟩)
      · exact ⟨.mem, trivial, a⟩
      · exact ⟨.block b, hb, a⟩
    · rintro ⟨s, hs, a⟩
      cases s with
      | mem => exact Or.inl a
      | block b => exact Or.inr ⟨b, hs, a⟩

/-- What the iterator shows: nothing if no selected key is stored, otherwise the first selected key
in travel order with the newest entry of that key. -/
theorem Ahead.current {t : Table K V} (h : Inv t) {fwd : Bool} {P : K → Prop} {it : Iter K V}
    (ha : Ahead t fwd P it) :
    (it.current = none ∧ ∀ e ∈ t.all, ¬ P e.key) ∨
    (∃ e, it.current = some e ∧ e ∈ t.all ∧ P e.key ∧
      (∀ x ∈ t.all, x.key = e.key → x.ver ≤ e.ver) ∧
      ∀ x ∈ t.all, P x.key → x.key = e.key ∨ Ord fwd e.key x.key) := by
  obtain ⟨d, m⟩ := it
  obtain ⟨hd, hm, hrem⟩ := ha
  dsimp only at hd hm hrem
  have hd0 : d ≠ 0 := by rw [hd]; cases fwd <;> decide
  cases m with
  | nil =>
    left
    refine ⟨by simp [Iter.current, Iter.valid], fun e he hP => ?_⟩
    obtain ⟨s, hs, e', he', hk, _⟩ := all_heads h he
    have := (hrem e').2 ⟨s, hs, he', hk ▸ hP⟩
    simp [Verif.DB.rem] at this
  | cons p m =>
    right
    have hp := hm.ptr p List.mem_cons_self
    have hin : p.ent ∈ Verif.DB.rem t fwd (p :: m) :=
      List.mem_flatMap.2 ⟨p, List.mem_cons_self, List.mem_cons_self⟩
    obtain ⟨s, hs, hps, hP⟩ := (hrem p.ent).1 hin
    refine ⟨p.ent, by simp [Iter.current, Iter.valid, hd0], heads_all h hs hps, hP,
      fun x hx hk => ?_, fun x hx hPx => ?_⟩
    · obtain ⟨s', hs', x', hx', hk', hv⟩ := all_heads h hx
      have := (hrem x').2 ⟨s', hs', hx', by rw [hk', hk]; exact hP⟩
      rcases head_first h hm x' this with a | a
      · omega
      · rw [hk', hk] at a; exact absurd a (Ord.irrefl _ _)
    · obtain ⟨s', hs', x', hx', hk', hv⟩ := all_heads h hx
      have := (hrem x').2 ⟨s', hs', hx', by rw [hk']; exact hPx⟩
      rcases head_first h hm x' this with a | a
      · left; rw [← hk']; exact a.1
      · right; rw [← hk']; exact a

/-- One step in the direction of travel. -/
theorem Ahead.step {t : Table K V} (h : Inv t) {fwd : Bool} {P : K → Prop} {it : Iter K V}
    (ha : Ahead t fwd P it) {e : Entry K V} (he : it.current = some e) :
    ∃ it', (if fwd then t.next it else t.prev it) = some it' ∧
      Ahead t fwd (fun k => P k ∧ k ≠ e.key) it' ∧
      (Verif.DB.rem t fwd it'.map).length < (Verif.DB.rem t fwd it.map).length := by
  obtain ⟨d, m⟩ := it
  obtain ⟨hd, hm, hrem⟩ := ha
  dsimp only at hd hm hrem
  cases m with
  | nil => simp [Iter.current, Iter.valid] at he
  | cons p m =>
    have hd0 : d ≠ 0 := by rw [hd]; cases fwd <;> decide
    have hpe : p.ent = e := by simpa [Iter.current, Iter.valid, hd0] using he
    obtain ⟨m', h1, h2, h3, h4⟩ := stepLoop_spec h fwd e.key (p :: m).length (p :: m) hm
      (fun x hx => by
        rcases head_first h hm x hx with a | a
        · left; rw [← hpe]; exact a.1
        · right; rw [← hpe]; exact a)
      (List.length_filter_le _ _)
    refine ⟨⟨d, m'⟩, ?_, ⟨hd, h2, fun x => ?_⟩, ?_⟩
    · cases fwd with
      | true =>
        simp only [if_true]
        unfold Table.next
        rw [he]
        dsimp only
        rw [if_pos (by rw [hd]; decide), h1]
      | false =>
        simp only [Bool.false_eq_true, if_false]
        unfold Table.prev
        rw [he]
        dsimp only
        rw [if_pos (by rw [hd]; decide), h1]
    · dsimp only
      rw [h3, hrem]
      constructor
      · rintro ⟨⟨s, hs, a, b⟩, c⟩; exact ⟨s, hs, a, b, c⟩
      · rintro ⟨s, hs, a, b, c⟩; exact ⟨⟨s, hs, a, b⟩, c⟩
    · dsimp only
      rw [List.filter_cons_of_pos (by simp [hpe])] at h4
      simp only [List.length_cons] at h4
      omega

/-- The whole loop: it ends, and lists every selected key once, in travel order, with the value of
its newest entry. -/
theorem collect_spec {t : Table K V} (h : Inv t) (fwd : Bool) (n : Nat) (P : K → Prop)
    (it : Iter K V) (ha : Ahead t fwd P it) (hn : (rem t fwd it.map).length ≤ n) :
    ∃ L, t.collect fwd n it = some L ∧ L.Pairwise (fun a b => Ord fwd a.1 b.1) ∧
      ∀ k v, (k, v) ∈ L ↔ P k ∧ ∃ e ∈ t.all, e.key = k ∧ e.val = v ∧
        ∀ x ∈ t.all, x.key = k → x.ver ≤ e.ver := by
  induction n generalizing P it with
  | zero =>
    rcases ha.current h with ⟨h1, h2⟩ | ⟨e, h1, _, _, _, _⟩
    · refine ⟨[], by unfold Table.collect; rw [h1], List.Pairwise.nil, fun k v => ?_⟩
      simp only [List.not_mem_nil, false_iff]
      rintro ⟨hP, e, he, rfl, _⟩
      exact h2 e he hP
    · obtain ⟨it', _, _, hlt⟩ := ha.step h h1
      omega
  | succ n ih =>
    rcases ha.current h with ⟨h1, h2⟩ | ⟨e, h1, h2, h3, h4, h5⟩
    · refine ⟨[], by unfold Table.collect; rw [h1], List.Pairwise.nil, fun k v => ?_⟩
      simp only [List.not_mem_nil, false_iff]
      rintro ⟨hP, e, he, rfl, _⟩
      exact h2 e he hP
    · obtain ⟨it', hs, ha', hlt⟩ := ha.step h h1
      obtain ⟨L, hL, hp, hmem⟩ := ih _ it' ha' (by omega)
      refine ⟨(e.key, e.val) :: L, ?_, ?_, fun k v => ?_⟩
      · rw [Table.collect, h1]
        dsimp only
        rw [hs]
        simp [hL]
      · rw [List.pairwise_cons]
        refine ⟨fun x hx => ?_, hp⟩
        obtain ⟨⟨hP, hne⟩, x', hx', hk, _, _⟩ := (hmem x.1 x.2).1 hx
        rcases h5 x' hx' (by rw [hk]; exact hP) with a | a
        · rw [hk] at a; exact absurd a hne
        · rw [hk] at a; exact a
      · rw [List.mem_cons, hmem]
        constructor
        · rintro (a | ⟨⟨a, _⟩, b⟩)
          · injection a with a1 a2
            subst a1 a2
            exact ⟨h3, e, h2, rfl, rfl, h4⟩
          · exact ⟨a, b⟩
        · rintro ⟨a, e', he', rfl, rfl, b⟩
          by_cases hk : e'.key = e.key
          · left
            have hve : e'.ver = e.ver := Nat.le_antisymm (h4 e' he' hk) (b e h2 hk.symm)
            rw [h.unique he' h2 ⟨hk, hve⟩]
          · right
            exact ⟨⟨a, hk⟩, e', he', rfl, rfl, b⟩

/-- Reading the newest value of a key, in terms of the stored entries. -/
theorem find_newest {t : Table K V} (h : Inv t) (k : K) (v : V) :
    t.find k u32max = some (some v) ↔ ∃ e ∈ t.all, e.key = k ∧ e.val = v ∧
      ∀ x ∈ t.all, x.key = k → x.ver ≤ e.ver := by
  have hver : ∀ x ∈ t.all, x.ver ≤ u32max := by
    intro x hx
    have hc := h.curLt
    unfold Table.all at hx
    rw [List.mem_append] at hx
    rcases hx with hx | hx
    · have := h.memCur x hx; omega
    · obtain ⟨b, hb, hxb⟩ := List.mem_flatMap.1 hx
      have := h.blkCur b hb
      have := (h.blocks b hb).leMax x hxb
      omega
  obtain ⟨r, hr, hl⟩ := find_latest h k u32max
  rw [hr]
  constructor
  · intro hh
    have : r = some v := by injection hh
    subst this
    obtain ⟨e, a1, a2, _, a4, a5⟩ := hl
    exact ⟨e, a1, a2, a4, fun x hx hk => a5 x hx hk (hver x hx)⟩
  · rintro ⟨e, a1, a2, a3, a4⟩
    cases r with
    | none =>
      have := hl e a1 a2
      have := hver e a1
      omega
    | some w =>
      obtain ⟨e', b1, b2, _, b4, b5⟩ := hl
      have : e = e' := h.unique a1 b1 ⟨a2.trans b2.symm,
        Nat.le_antisymm (b5 e a1 a2 (hver e a1)) (a4 e' b1 b2)⟩
      subst this
      rw [← b4, a3]

end Verif.DB
