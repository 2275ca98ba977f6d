import Verif.DB.Lemmas3
import Verif.DB.Spec
import Mathlib.Data.List.Induction

/-! Helper lemmas: flush, commit, revert; refinement relation. -/

set_option linter.unusedSectionVars false

namespace Verif.DB

variable {K V : Type} [LinearOrder K]

/-! ### flush -/

theorem flush_inv {o : Options K V} {t : Table K V} (h : Inv t) (hc : ∀ e ∈ t.mem, e.ver < t.cur) :
    Inv (t.flush o).tab ∧ (t.flush o).tab.all.Perm t.all ∧ (t.flush o).tab.cur = t.cur ∧
      (t.flush o).tab.writeLock = t.writeLock := by
  unfold Table.flush
  split
  · exact ⟨h, List.Perm.refl _, rfl, rfl⟩
  · dsimp only
    split
    · refine ⟨⟨h.mem, h.blocks, h.ranges, h.above, h.memCur, h.blkCur, h.curLt⟩,
        List.Perm.refl _, rfl, rfl⟩
    · rename_i hne
      have hne : t.mem ≠ [] := by simpa using hne
      have hb := mkBlock_ok h.mem.sorted hne
        (fun e he => Nat.lt_of_le_of_lt (h.memCur e he) h.curLt) t.nextId 0
      obtain ⟨em, hem, hemv⟩ := hb.minAtt
      obtain ⟨ex, hex, hexv⟩ := hb.maxAtt
      have hinv : Inv { t with
          lastFlush := t.cur, nextId := t.nextId + 1, idx := [], mem := [],
          blocks := t.blocks ++ [mkBlock t.nextId 0 (minVersion t.mem) t.mem], size := 0 } := by
        refine ⟨memOK_nil, ?_, ?_, ?_, ?_, ?_, h.curLt⟩
        · intro b hb'
          rw [List.mem_append] at hb'
          rcases hb' with hb' | hb'
          · exact h.blocks b hb'
          · simp at hb'; rw [hb']; exact hb
        · refine List.pairwise_append.2 ⟨h.ranges, List.pairwise_singleton _ _, ?_⟩
          intro a ha b hb'
          simp at hb'
          rw [hb', ← hemv]
          exact h.above a ha em hem
        · intro b _ e he; cases he
        · intro e he; cases he
        · intro b hb'
          rw [List.mem_append] at hb'
          rcases hb' with hb' | hb'
          · exact h.blkCur b hb'
          · simp at hb'
            rw [hb', ← hexv]
            exact hc ex hex
      obtain ⟨c1, c2⟩ := checkRewrite_inv o
        (t.blocks ++ [mkBlock t.nextId 0 (minVersion t.mem) t.mem]).length _ hinv
      obtain ⟨_, _, f3, f4, _⟩ := checkRewrite_fields o
        (t.blocks ++ [mkBlock t.nextId 0 (minVersion t.mem) t.mem]).length
        { t with
          lastFlush := t.cur, nextId := t.nextId + 1, idx := [], mem := [],
          blocks := t.blocks ++ [mkBlock t.nextId 0 (minVersion t.mem) t.mem], size := 0 }
      refine ⟨c1, c2.trans ?_, f3, f4⟩
      simp only [Table.all, allB, List.flatMap_append, List.flatMap_cons, List.flatMap_nil,
        List.append_nil, mkBlock, List.nil_append]
      exact List.perm_append_comm

/-! ### commit -/

theorem commit_inv {o : Options K V} {t : Table K V} (h : Inv t) (v : Nat) (a : Bool)
    (hv : t.cur < v) (hm : v < u32max) :
    Inv (t.commit o v a).tab ∧ (t.commit o v a).tab.all.Perm t.all ∧
      (t.commit o v a).tab.cur = v ∧ (t.commit o v a).tab.writeLock = t.writeLock := by
  have h1 : Inv { t with cur := v } :=
    ⟨h.mem, h.blocks, h.ranges, h.above,
      fun e he => Nat.le_trans (h.memCur e he) (Nat.le_of_lt hv),
      fun b hb => Nat.lt_trans (h.blkCur b hb) hv, hm⟩
  unfold Table.commit
  rw [if_neg (by omega), if_neg (by omega)]
  dsimp only
  split
  · obtain ⟨f1, f2, f3, f4⟩ := flush_inv (o := o) h1
      (fun e he => Nat.lt_of_le_of_lt (h.memCur e he) hv)
    exact ⟨f1, f2, f3, f4⟩
  · exact ⟨h1, List.Perm.refl _, rfl, rfl⟩

theorem commit_refused {o : Options K V} {t : Table K V} (v : Nat) (a : Bool)
    (hv : ¬ (t.cur < v ∧ v < u32max)) :
    (t.commit o v a).tab = t ∧ (t.commit o v a).ops = [] ∧ (t.commit o v a).threw = true := by
  unfold Table.commit
  split
  · exact ⟨rfl, rfl, rfl⟩
  · rw [if_pos (by omega)]
    exact ⟨rfl, rfl, rfl⟩

/-! ### revert -/

theorem mem_filter_ver {l : List (Entry K V)} {v : Nat} {e : Entry K V} :
    e ∈ l.filter (fun e => decide (e.ver < v)) ↔ e ∈ l ∧ e.ver < v := by
  simp [List.mem_filter]

theorem revertBlocks_spec (v : Nat) (bs : List (Block K V)) (hok : ∀ b ∈ bs, BlockOK b)
    (hr : bs.Pairwise (fun a b => a.maxV < b.minV)) :
    let r := (Table.revertBlocks v bs).1
    (∀ b ∈ r, BlockOK b ∧ b.maxV < v ∧
      ∃ b0 ∈ bs, b0.id = b.id ∧ b0.level = b.level ∧ b0.minV = b.minV ∧ b.maxV ≤ b0.maxV) ∧
    r.Pairwise (fun a b => a.maxV < b.minV) ∧
    ∀ e, e ∈ allB r ↔ e ∈ allB bs ∧ e.ver < v := by
  induction bs with
  | nil => simp [Table.revertBlocks, allB]
  | cons b bs ih =>
    rw [List.pairwise_cons] at hr
    obtain ⟨i1, i2, i3⟩ := ih (fun b hb => hok b (List.mem_cons_of_mem _ hb)) hr.2
    have hb := hok b List.mem_cons_self
    have hsplit : ∀ e, e ∈ allB (b :: bs) ↔ e ∈ b.entries ∨ e ∈ allB bs := by
      intro e; simp [allB]
    unfold Table.revertBlocks
    dsimp only
    split
    · rename_i hle
      refine ⟨fun x hx => ?_, i2, fun e => ?_⟩
      · obtain ⟨a1, a2, b0, a3, a4⟩ := i1 x hx
        exact ⟨a1, a2, b0, List.mem_cons_of_mem _ a3, a4⟩
      · rw [i3, hsplit]
        constructor
        · rintro ⟨h1, h2⟩; exact ⟨Or.inr h1, h2⟩
        · rintro ⟨h1 | h1, h2⟩
          · have := hb.minLe e h1; omega
          · exact ⟨h1, h2⟩
    · rename_i hle
      split
      · rename_i hle2
        obtain ⟨em, hem, hemv⟩ := hb.minAtt
        have hne : b.entries.filter (fun e => decide (e.ver < v)) ≠ [] := by
          intro hnil
          have : em ∈ b.entries.filter (fun e => decide (e.ver < v)) :=
            mem_filter_ver.2 ⟨hem, by omega⟩
          rw [hnil] at this; cases this
        obtain ⟨x1, x2⟩ := maxVersion_spec hne
        obtain ⟨ex, hex, hexv⟩ := x2
        have hex' := mem_filter_ver.1 hex
        have hnb : BlockOK (mkBlock b.id b.level b.minV
            (b.entries.filter fun e => decide (e.ver < v))) := by
          refine ⟨List.Pairwise.filter _ hb.sorted, rfl, ?_, x1, ?_, ⟨ex, hex, hexv⟩⟩
          · intro e he; exact hb.minLe e (mem_filter_ver.1 he).1
          · exact ⟨em, mem_filter_ver.2 ⟨hem, by omega⟩, hemv⟩
        have hmx : (mkBlock b.id b.level b.minV
            (b.entries.filter fun e => decide (e.ver < v))).maxV ≤ b.maxV := by
          simp only [mkBlock]
          rw [← hexv]; exact hb.leMax ex hex'.1
        refine ⟨fun x hx => ?_, ?_, fun e => ?_⟩
        · rcases List.mem_cons.1 hx with rfl | hx
          · refine ⟨hnb, ?_, b, List.mem_cons_self, rfl, rfl, rfl, hmx⟩
            simp only [mkBlock]
            rw [← hexv]; exact hex'.2
          · obtain ⟨a1, a2, b0, a3, a4⟩ := i1 x hx
            exact ⟨a1, a2, b0, List.mem_cons_of_mem _ a3, a4⟩
        · refine List.pairwise_cons.2 ⟨fun x hx => ?_, i2⟩
          obtain ⟨_, _, b0, a3, _, _, a5, _⟩ := i1 x hx
          rw [← a5]
          exact Nat.lt_of_le_of_lt hmx (hr.1 b0 a3)
        · have : e ∈ allB (mkBlock b.id b.level b.minV
              (b.entries.filter fun e => decide (e.ver < v)) :: (Table.revertBlocks v bs).1)
              ↔ e ∈ b.entries.filter (fun e => decide (e.ver < v)) ∨
                e ∈ allB (Table.revertBlocks v bs).1 := by
            simp [allB, mkBlock]
          rw [this, i3, hsplit, mem_filter_ver]
          constructor
          · rintro (⟨h1, h2⟩ | ⟨h1, h2⟩)
            · exact ⟨Or.inl h1, h2⟩
            · exact ⟨Or.inr h1, h2⟩
          · rintro ⟨h1 | h1, h2⟩
            · exact Or.inl ⟨h1, h2⟩
            · exact Or.inr ⟨h1, h2⟩
      · rename_i hle2
        refine ⟨fun x hx => ?_, ?_, fun e => ?_⟩
        · rcases List.mem_cons.1 hx with rfl | hx
          · exact ⟨hb, by omega, x, List.mem_cons_self, rfl, rfl, rfl, Nat.le_refl _⟩
          · obtain ⟨a1, a2, b0, a3, a4⟩ := i1 x hx
            exact ⟨a1, a2, b0, List.mem_cons_of_mem _ a3, a4⟩
        · refine List.pairwise_cons.2 ⟨fun x hx => ?_, i2⟩
          obtain ⟨_, _, b0, a3, _, _, a5, _⟩ := i1 x hx
          rw [← a5]
          exact hr.1 b0 a3
        · have : e ∈ allB (b :: (Table.revertBlocks v bs).1)
              ↔ e ∈ b.entries ∨ e ∈ allB (Table.revertBlocks v bs).1 := by
            simp [allB]
          rw [this, i3, hsplit]
          constructor
          · rintro (h1 | ⟨h1, h2⟩)
            · have := hb.leMax e h1
              exact ⟨Or.inl h1, by omega⟩
            · exact ⟨Or.inr h1, h2⟩
          · rintro ⟨h1 | h1, h2⟩
            · exact Or.inl h1
            · exact Or.inr ⟨h1, h2⟩

/-- The head of `lower_bound((key, -1))` is the newest entry of the key. -/
theorem memLower_top {mem : List (Entry K V)} (hs : Sorted mem) (hlt : ∀ e ∈ mem, e.ver ≤ u32max)
    (key : K) :
    (∀ e, (memLower key u32max mem).head? = some e → e.key = key →
      e ∈ mem ∧ ∀ x ∈ mem, x.key = key → x.ver ≤ e.ver) ∧
    (∀ x ∈ mem, x.key = key →
      ∃ e, (memLower key u32max mem).head? = some e ∧ e.key = key) := by
  obtain ⟨h1, h2⟩ := memLower_head (key := key) (ver := u32max) hs
  have hlow : ∀ x ∈ mem, x.key = key → lowP key u32max x = false := by
    intro x hx hk
    have := hlt x hx
    simp [lowP, hk]; omega
  constructor
  · intro e he hk
    obtain ⟨a, b, c⟩ := h1 e he
    refine ⟨a, fun x hx hxk => ?_⟩
    rcases c x hx (hlow x hx hxk) with rfl | hb
    · exact Nat.le_refl _
    · rw [before_iff] at hb
      rcases hb with hb | ⟨_, hb⟩
      · rw [hk, hxk] at hb; exact absurd hb (lt_irrefl _)
      · omega
  · intro x hx hxk
    cases hh : (memLower key u32max mem).head? with
    | none =>
      have := h2 hh x hx
      rw [hlow x hx hxk] at this; cases this
    | some e =>
      refine ⟨e, rfl, ?_⟩
      obtain ⟨a, b, c⟩ := h1 e hh
      rcases c x hx (hlow x hx hxk) with rfl | hb
      · exact hxk
      · rw [before_iff] at hb
        rcases hb with hb | ⟨hb, _⟩
        · -- e.key < key contradicts lowP e = false
          rw [hxk] at hb
          simp [lowP, ne_of_lt hb, hb] at b
        · exact hb.trans hxk

theorem revertIdx_ok {mem idx : List (Entry K V)} (h : MemOK mem idx)
    (hlt : ∀ e ∈ mem, e.ver ≤ u32max) (v : Nat) :
    MemOK (mem.filter fun e => decide (e.ver < v))
      (Table.revertIdx v (mem.filter fun e => decide (e.ver < v)) idx) := by
  have hs' : Sorted (mem.filter fun e => decide (e.ver < v)) := List.Pairwise.filter _ h.sorted
  have htop := memLower_top hs' (fun e he => hlt e (mem_filter_ver.1 he).1)
  -- what an element of the new index is
  have hform : ∀ i i', (if v ≤ i.ver then
      match (memLower i.key u32max (mem.filter fun e => decide (e.ver < v))).head? with
      | some e => if e.key = i.key then some ({ key := i.key, ver := e.ver, val := e.val } : Entry K V)
          else none
      | none => none
    else some i) = some i' → i'.key = i.key ∧
      ((i' = i ∧ i.ver < v) ∨
       (i' ∈ mem.filter (fun e => decide (e.ver < v)) ∧
        ∀ x ∈ mem.filter (fun e => decide (e.ver < v)), x.key = i.key → x.ver ≤ i'.ver)) := by
    intro i i' hi
    split at hi
    · split at hi
      · rename_i e he
        split at hi
        · rename_i hk
          simp only [Option.some.injEq] at hi
          have hei : i' = e := by rw [← hi, ← hk]
          subst hei
          obtain ⟨a, b⟩ := (htop i.key).1 i' he hk
          exact ⟨hk, Or.inr ⟨a, b⟩⟩
        · cases hi
      · cases hi
    · simp only [Option.some.injEq] at hi
      subst hi
      exact ⟨rfl, Or.inl ⟨rfl, by omega⟩⟩
  refine ⟨hs', ?_, ?_, ?_, ?_⟩
  · unfold Table.revertIdx KSorted
    refine List.Pairwise.filterMap _ ?_ h.ksorted
    intro a a' haa' b hb b' hb'
    rw [(hform a b hb).1, (hform a' b' hb').1]
    exact haa'
  · intro i' hi'
    unfold Table.revertIdx at hi'
    obtain ⟨i, hi, hii⟩ := List.mem_filterMap.1 hi'
    rcases (hform i i' hii).2 with ⟨rfl, hv⟩ | ⟨hm, _⟩
    · exact mem_filter_ver.2 ⟨h.sub i' hi, hv⟩
    · exact hm
  · intro i' hi' e he hk
    unfold Table.revertIdx at hi'
    obtain ⟨i, hi, hii⟩ := List.mem_filterMap.1 hi'
    rcases (hform i i' hii).2 with ⟨rfl, hv⟩ | ⟨hm, ht⟩
    · exact h.top i' hi e (mem_filter_ver.1 he).1 hk
    · exact ht e he (hk.trans (hform i i' hii).1)
  · intro e he
    obtain ⟨i, hi, hk⟩ := h.cover e (mem_filter_ver.1 he).1
    by_cases hv : v ≤ i.ver
    · obtain ⟨x, hx, hxk⟩ := (htop i.key).2 e he hk.symm
      refine ⟨{ key := i.key, ver := x.ver, val := x.val }, ?_, hk⟩
      unfold Table.revertIdx
      refine List.mem_filterMap.2 ⟨i, hi, ?_⟩
      rw [if_pos hv, hx]
      dsimp only
      rw [if_pos hxk]
    · refine ⟨i, ?_, hk⟩
      unfold Table.revertIdx
      refine List.mem_filterMap.2 ⟨i, hi, ?_⟩
      rw [if_neg hv]

theorem revert_inv {o : Options K V} {t : Table K V} (h : Inv t) (v : Nat)
    (hl : t.writeLock = 0) (hv : v ≤ t.cur) :
    Inv (t.revert o v).tab ∧ (∀ e, e ∈ (t.revert o v).tab.all ↔ e ∈ t.all ∧ e.ver < v) ∧
      (t.revert o v).tab.cur = v ∧ (t.revert o v).tab.writeLock = t.writeLock := by
  obtain ⟨r1, r2, r3⟩ := revertBlocks_spec v t.blocks h.blocks h.ranges
  unfold Table.revert
  rw [if_neg (by omega), if_neg (by omega)]
  refine ⟨⟨?_, fun b hb => (r1 b hb).1, r2, ?_, ?_, fun b hb => (r1 b hb).2.1,
    Nat.lt_of_le_of_lt hv h.curLt⟩, ?_, rfl, rfl⟩
  · exact revertIdx_ok h.mem (fun e he => by
      have := h.memCur e he; have := h.curLt; omega) v
  · intro b hb e he
    obtain ⟨_, _, b0, a3, _, _, _, a6⟩ := r1 b hb
    exact Nat.lt_of_le_of_lt a6 (h.above b0 a3 e (mem_filter_ver.1 he).1)
  · intro e he
    exact Nat.le_of_lt (mem_filter_ver.1 he).2
  · intro e
    simp only [Table.all, List.mem_append, r3, mem_filter_ver]
    constructor
    · rintro (⟨h1, h2⟩ | ⟨h1, h2⟩)
      · exact ⟨Or.inl h1, h2⟩
      · exact ⟨Or.inr h1, h2⟩
    · rintro ⟨h1 | h1, h2⟩
      · exact Or.inl ⟨h1, h2⟩
      · exact Or.inr ⟨h1, h2⟩

theorem revert_refused {o : Options K V} {t : Table K V} (v : Nat)
    (h : ¬ (t.writeLock = 0 ∧ v ≤ t.cur)) :
    (t.revert o v).tab = t ∧ (t.revert o v).ops = [] ∧ (t.revert o v).threw = true := by
  unfold Table.revert
  split
  · exact ⟨rfl, rfl, rfl⟩
  · rw [if_pos (by omega)]
    exact ⟨rfl, rfl, rfl⟩

/-! ### live writes of the specification -/

/-- `e` is the last write of its `(key, version)`. -/
def Live (ws : List (Entry K V)) (e : Entry K V) : Prop :=
  ∃ a b, ws = a ++ e :: b ∧ ∀ x ∈ b, ¬ x.same e

theorem live_nil (e : Entry K V) : ¬ Live [] e := by
  rintro ⟨a, b, h, _⟩; simp at h

theorem live_mem {ws : List (Entry K V)} {e : Entry K V} (h : Live ws e) : e ∈ ws := by
  obtain ⟨a, b, h, _⟩ := h; rw [h]; simp

theorem live_append {ws : List (Entry K V)} {w e : Entry K V} :
    Live (ws ++ [w]) e ↔ e = w ∨ (Live ws e ∧ ¬ e.same w) := by
  constructor
  · rintro ⟨a, b, h, hb⟩
    rcases List.eq_nil_or_concat b with rfl | ⟨b', x, rfl⟩
    · rw [show a ++ [e] = a ++ [e] from rfl] at h
      have := List.append_inj' h rfl
      exact Or.inl (by simpa using this.2.symm)
    · have h' : ws ++ [w] = (a ++ e :: b') ++ [x] := by simpa using h
      have := List.append_inj' h' rfl
      have hx : w = x := by simpa using this.2
      subst hx
      refine Or.inr ⟨⟨a, b', this.1, fun y hy => hb y (by simp [hy])⟩, fun hs => ?_⟩
      exact hb w (by simp) (Entry.same_symm hs)
  · rintro (rfl | ⟨⟨a, b, h, hb⟩, hs⟩)
    · exact ⟨ws, [], rfl, by simp⟩
    · refine ⟨a, b ++ [w], by rw [h]; simp, fun x hx => ?_⟩
      rw [List.mem_append] at hx
      rcases hx with hx | hx
      · exact hb x hx
      · simp at hx; subst hx; exact fun h => hs (Entry.same_symm h)

theorem live_filter {ws : List (Entry K V)} {v : Nat} {e : Entry K V} :
    Live (ws.filter fun w => decide (w.ver < v)) e ↔ Live ws e ∧ e.ver < v := by
  induction ws using List.reverseRecOn with
  | nil => simp [live_nil]
  | append_singleton ws w ih =>
    rw [List.filter_append]
    by_cases hw : w.ver < v
    · rw [List.filter_cons_of_pos (by simpa using hw), List.filter_nil, live_append, live_append, ih]
      constructor
      · rintro (rfl | ⟨⟨h1, h2⟩, h3⟩)
        · exact ⟨Or.inl rfl, hw⟩
        · exact ⟨Or.inr ⟨h1, h3⟩, h2⟩
      · rintro ⟨rfl | ⟨h1, h3⟩, h2⟩
        · exact Or.inl rfl
        · exact Or.inr ⟨⟨h1, h2⟩, h3⟩
    · rw [List.filter_cons_of_neg (by simpa using hw), List.filter_nil, List.append_nil, ih,
        live_append]
      constructor
      · rintro ⟨h1, h2⟩
        exact ⟨Or.inr ⟨h1, fun hs => by have := hs.2; omega⟩, h2⟩
      · rintro ⟨rfl | ⟨h1, h3⟩, h2⟩
        · omega
        · exact ⟨h1, h2⟩

theorem live_unique {ws : List (Entry K V)} {a b : Entry K V} (ha : Live ws a) (hb : Live ws b)
    (hs : a.same b) : a = b := by
  induction ws using List.reverseRecOn with
  | nil => exact absurd ha (live_nil a)
  | append_singleton ws w ih =>
    rw [live_append] at ha hb
    rcases ha with rfl | ⟨ha, ha'⟩ <;> rcases hb with rfl | ⟨hb, hb'⟩
    · rfl
    · exact absurd (Entry.same_symm hs) hb'
    · exact absurd hs ha'
    · exact ih ha hb

/-- Versions of the writes never decrease along the list. -/
def Mono (ws : List (Entry K V)) : Prop := ws.Pairwise (fun a b => a.ver ≤ b.ver)

theorem specFind_latest (s : Spec K V) (hm : Mono s.writes) (key : K) (maxV : Nat) :
    Latest (Live s.writes) key maxV (s.find key maxV) := by
  unfold Spec.find
  generalize s.writes = ws at hm
  induction ws using List.reverseRecOn with
  | nil => intro e he; exact absurd he (live_nil e)
  | append_singleton ws w ih =>
    unfold Mono at hm
    rw [List.pairwise_append] at hm
    obtain ⟨hm1, _, hm2⟩ := hm
    have hle : ∀ x ∈ ws, x.ver ≤ w.ver := fun x hx => hm2 x hx w (by simp)
    have ih := ih hm1
    rw [List.filter_append]
    by_cases hw : w.key = key ∧ w.ver ≤ maxV
    · rw [List.filter_cons_of_pos (by simpa using hw), List.filter_nil, List.getLast?_append]
      simp only [List.getLast?_singleton, Option.some_or, Option.map_some]
      refine ⟨w, live_append.2 (Or.inl rfl), hw.1, hw.2, rfl, fun x hx _ _ => ?_⟩
      rcases live_append.1 hx with rfl | ⟨hx, _⟩
      · exact Nat.le_refl _
      · exact hle x (live_mem hx)
    · rw [List.filter_cons_of_neg (by simpa using hw), List.filter_nil, List.append_nil]
      revert ih
      cases (Option.map (fun x => x.val)
        (ws.filter fun w => decide (w.key = key ∧ w.ver ≤ maxV)).getLast?) with
      | none =>
        intro ih x hx hk
        rcases live_append.1 hx with rfl | ⟨hx, _⟩
        · by_contra hc
          exact hw ⟨hk, by omega⟩
        · exact ih x hx hk
      | some v =>
        rintro ⟨e, h1, h2, h3, h4, h5⟩
        refine ⟨e, live_append.2 (Or.inr ⟨h1, fun hs => ?_⟩), h2, h3, h4, fun x hx hk hv => ?_⟩
        · exact hw ⟨hs.1 ▸ h2, hs.2 ▸ h3⟩
        · rcases live_append.1 hx with rfl | ⟨hx, _⟩
          · exact absurd ⟨hk, hv⟩ hw
          · exact h5 x hx hk hv

/-! ### refinement -/

structure Refines (t : Table K V) (s : Spec K V) : Prop where
  inv : Inv t
  cur : t.cur = s.cur
  locks : t.writeLock = s.locks
  all : ∀ e, e ∈ t.all ↔ Live s.writes e
  mono : Mono s.writes
  le : ∀ w ∈ s.writes, w.ver ≤ s.cur

theorem refines_empty : Refines (Table.empty : Table K V) Spec.empty := by
  refine ⟨⟨memOK_nil, by simp [Table.empty], by simp [Table.empty], by simp [Table.empty],
    by simp [Table.empty], by simp [Table.empty], by simp [Table.empty, u32max]⟩, rfl, rfl, ?_,
    List.Pairwise.nil, by simp [Spec.empty]⟩
  intro e
  simp only [Table.all, Table.empty, allB, List.flatMap_nil, List.append_nil, List.not_mem_nil,
    false_iff]
  exact live_nil e

theorem refines_find {t : Table K V} {s : Spec K V} (h : Refines t s) (key : K) (maxV : Nat) :
    t.find key maxV = some (s.find key maxV) := by
  obtain ⟨r, h1, h2⟩ := find_latest h.inv key maxV
  have h3 := specFind_latest s h.mono key maxV
  have h2' := (Latest.congr h.all).1 h2
  rw [h1, Latest.unique (fun a b ha hb hs => live_unique ha hb hs) h2' h3]

/-- A live write exists for every entry of the memory block, with the same version. -/
theorem refines_mem_clean {t : Table K V} {s : Spec K V} (h : Refines t s) (hc : s.clean) :
    ∀ e ∈ t.mem, e.ver < t.cur := by
  intro e he
  rw [h.cur]
  exact hc e (live_mem ((h.all e).1 (by simp [Table.all, he])))

theorem refines_of_perm {t t' : Table K V} {s : Spec K V} (h : Refines t s) (hi : Inv t')
    (hp : t'.all.Perm t.all) (hc : t'.cur = t.cur) (hl : t'.writeLock = t.writeLock) :
    Refines t' s :=
  ⟨hi, hc.trans h.cur, hl.trans h.locks, fun e => (hp.mem_iff).trans (h.all e), h.mono, h.le⟩

theorem refines_apply {o : Options K V} {t : Table K V} {s : Spec K V} (h : Refines t s)
    (op : Op K V) (hd : op = .flush → s.clean) :
    Refines (t.apply o op).tab (s.apply op) ∧
      (op = .flush ∨ (∃ v a, op = .commit v a) ∨ ((t.apply o op).threw = true ↔ ¬ s.accepts op)) := by
  unfold Spec.apply
  cases op with
  | insert k v =>
    refine ⟨?_, Or.inr (Or.inr ?_)⟩
    · simp only [Table.apply, Table.insert]
      by_cases hl : s.locks = 0
      · rw [if_neg (by rw [h.locks]; omega), if_pos (show s.accepts (.insert k v) from hl)]
        have hab : ∀ b ∈ t.blocks, b.maxV < t.cur := h.inv.blkCur
        refine ⟨?_, h.cur, h.locks, ?_, ?_, ?_⟩
        · exact insertEntry_inv h.inv _ (fun x hx _ => h.inv.memCur x hx) (Nat.le_refl _) hab
        · intro e
          dsimp only
          rw [insertEntry_all h.inv _ hab, h.all]
          simp only [Spec.effect]
          rw [live_append, h.cur]
        · simp only [Spec.effect]
          refine List.pairwise_append.2 ⟨h.mono, List.pairwise_singleton _ _, ?_⟩
          intro a ha b hb
          simp at hb; subst hb
          exact h.le a ha
        · simp only [Spec.effect]
          intro w hw
          rw [List.mem_append] at hw
          rcases hw with hw | hw
          · exact h.le w hw
          · simp at hw; subst hw; exact Nat.le_refl _
      · rw [if_pos (by rw [h.locks]; omega), if_neg (show ¬ s.accepts (.insert k v) from hl)]
        exact h
    · simp only [Table.apply, Table.insert, Spec.accepts]
      rw [← h.locks]
      by_cases hl : t.writeLock = 0 <;> simp [hl]
  | commit v a =>
    refine ⟨?_, Or.inr (Or.inl ⟨v, a, rfl⟩)⟩
    simp only [Table.apply]
    by_cases hv : s.cur < v ∧ v < u32max
    · rw [if_pos (show s.accepts (.commit v a) from hv)]
      obtain ⟨c1, c2, c3, c4⟩ := commit_inv (o := o) h.inv v a (by rw [h.cur]; exact hv.1) hv.2
      refine ⟨c1, c3, c4.trans h.locks, fun e => c2.mem_iff.trans (h.all e), h.mono, ?_⟩
      intro w hw
      have := h.le w hw
      simp only [Spec.effect]
      omega
    · rw [if_neg (show ¬ s.accepts (.commit v a) from hv)]
      obtain ⟨c1, _⟩ := commit_refused (o := o) (t := t) v a (by rw [h.cur]; exact hv)
      rw [c1]; exact h
  | flush =>
    refine ⟨?_, Or.inl rfl⟩
    have hc := refines_mem_clean h (hd rfl)
    obtain ⟨f1, f2, f3, f4⟩ := flush_inv (o := o) h.inv hc
    have : Refines (t.flush o).tab s := refines_of_perm h f1 f2 f3 f4
    simp only [Table.apply, Spec.effect]
    split <;> exact this
  | revert v =>
    refine ⟨?_, Or.inr (Or.inr ?_)⟩
    · simp only [Table.apply]
      by_cases hv : s.locks = 0 ∧ v ≤ s.cur
      · rw [if_pos (show s.accepts (.revert v) from hv)]
        obtain ⟨r1, r2, r3, r4⟩ := revert_inv (o := o) h.inv v (by rw [h.locks]; exact hv.1)
          (by rw [h.cur]; exact hv.2)
        refine ⟨r1, r3, r4.trans h.locks, fun e => ?_, ?_, ?_⟩
        · rw [r2, h.all]
          simp only [Spec.effect]
          rw [live_filter]
        · exact List.Pairwise.filter _ h.mono
        · intro w hw
          simp only [Spec.effect] at hw ⊢
          have := (mem_filter_ver.1 hw).2
          omega
      · rw [if_neg (show ¬ s.accepts (.revert v) from hv)]
        obtain ⟨c1, _⟩ := revert_refused (o := o) (t := t) v (by rw [h.locks, h.cur]; exact hv)
        rw [c1]; exact h
    · simp only [Table.apply, Spec.accepts]
      rw [← h.locks, ← h.cur]
      by_cases hv : t.writeLock = 0 ∧ v ≤ t.cur
      · have : (t.revert o v).threw = false := by
          unfold Table.revert
          rw [if_neg (by omega), if_neg (by omega)]
        simp [this, hv]
      · simp [(revert_refused (o := o) (t := t) v hv).2.2, hv]
  | iterOpen =>
    refine ⟨?_, Or.inr (Or.inr (by simp [Table.apply, Spec.accepts]))⟩
    simp only [Table.apply]
    rw [if_pos (show s.accepts .iterOpen from trivial)]
    exact ⟨⟨h.inv.mem, h.inv.blocks, h.inv.ranges, h.inv.above, h.inv.memCur, h.inv.blkCur,
      h.inv.curLt⟩, h.cur, by simp [Spec.effect, h.locks], h.all, h.mono, h.le⟩
  | iterClose =>
    refine ⟨?_, Or.inr (Or.inr (by simp [Table.apply, Spec.accepts]))⟩
    simp only [Table.apply]
    rw [if_pos (show s.accepts .iterClose from trivial)]
    exact ⟨⟨h.inv.mem, h.inv.blocks, h.inv.ranges, h.inv.above, h.inv.memCur, h.inv.blkCur,
      h.inv.curLt⟩, h.cur, by simp [Spec.effect, h.locks], h.all, h.mono, h.le⟩

theorem refines_run {o : Options K V} {t : Table K V} {s : Spec K V} (h : Refines t s)
    (hist : List (Op K V)) (hd : s.Disciplined hist) : Refines (t.run o hist) (s.run hist) := by
  induction hist generalizing t s with
  | nil => exact h
  | cons op hist ih =>
    exact ih (refines_apply h op hd.1).1 hd.2

end Verif.DB
