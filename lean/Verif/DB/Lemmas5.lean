import Verif.DB.Lemmas4

/-!
# Lemmas about reopening a table: block loading and log replay
-/

set_option linter.unusedSectionVars false

namespace Verif.DB

variable {K V : Type} [LinearOrder K]

/-! ### block loading -/

/-- `curr_version` after loading the blocks. -/
def blkTop (bs : List (Block K V)) : Nat :=
  match bs.getLast? with
  | none => 0
  | some b => b.maxV + 1

theorem blkTop_le {bs : List (Block K V)} {n : Nat} (h : ∀ b ∈ bs, b.maxV < n) : blkTop bs ≤ n := by
  unfold blkTop
  split
  · omega
  · rename_i b hb
    exact h b (List.mem_of_getLast? hb)

theorem lt_blkTop {bs : List (Block K V)} (hok : ∀ b ∈ bs, BlockOK b)
    (hr : bs.Pairwise (fun a b => a.maxV < b.minV)) {b : Block K V} (hb : b ∈ bs) :
    b.maxV < blkTop bs := by
  rcases List.eq_nil_or_concat bs with rfl | ⟨l, x, rfl⟩
  · simp at hb
  · simp only [blkTop, List.concat_eq_append, List.getLast?_append, List.getLast?_singleton] at *
    rw [List.mem_append] at hb
    rcases hb with hb | hb
    · have h1 := (List.pairwise_append.1 hr).2.2 b hb x (by simp)
      obtain ⟨e, he, hm⟩ := (hok x (by simp)).minAtt
      have := (hok x (by simp)).leMax e he
      simp; omega
    · simp at hb; subst hb; simp

theorem loadLoop_pairwise (prev : Option (Block K V)) (cur : Nat) (bs : List (Block K V))
    (hp : ∀ p, prev = some p → ∀ b ∈ bs, p.maxV < b.minV)
    (hr : bs.Pairwise (fun a b => a.maxV < b.minV)) :
    loadLoop prev cur bs = (bs, [], if bs = [] then cur else blkTop bs) := by
  induction bs generalizing prev cur with
  | nil => rfl
  | cons b bs ih =>
    rw [List.pairwise_cons] at hr
    unfold loadLoop
    have hk : keepBlock prev b = true := by
      cases prev with
      | none => rfl
      | some p => simpa [keepBlock] using hp p rfl b (by simp)
    dsimp only
    rw [if_pos hk, ih (some b) _ (by intro p hp' c hc; cases hp'; exact hr.1 c hc) hr.2]
    dsimp only
    congr 2
    simp only [List.cons_ne_nil, if_false]
    split
    · rename_i h; subst h; rfl
    · rename_i h
      unfold blkTop
      rw [List.getLast?_cons_of_ne_nil h]

theorem Block.le_trans' (a b c : Block K V) (h1 : a.le b = true) (h2 : b.le c = true) :
    a.le c = true := by
  unfold Block.le at *
  split at h1 <;> split at h2 <;> split <;> simp at * <;> omega

theorem Block.le_total' (a b : Block K V) : (a.le b || b.le a) = true := by
  unfold Block.le
  split <;> split <;> simp at * <;> omega

theorem BlockOK.min_le_max {b : Block K V} (h : BlockOK b) : b.minV ≤ b.maxV := by
  obtain ⟨e, he, hm⟩ := h.minAtt
  have := h.leMax e he
  omega

theorem insertBlock_perm (b : Block K V) (l : List (Block K V)) : (insertBlock b l).Perm (b :: l) := by
  induction l with
  | nil => exact List.Perm.refl _
  | cons x xs ih =>
    unfold insertBlock
    split
    · exact List.Perm.refl _
    · exact (List.Perm.cons x ih).trans (List.Perm.swap b x xs)

theorem insertBlock_pairwise (b : Block K V) (l : List (Block K V))
    (h : l.Pairwise (fun a b => a.le b = true)) :
    (insertBlock b l).Pairwise (fun a b => a.le b = true) := by
  induction l with
  | nil => exact List.pairwise_singleton _ _
  | cons x xs ih =>
    unfold insertBlock
    rw [List.pairwise_cons] at h
    split
    · rename_i hb
      refine List.pairwise_cons.2 ⟨?_, List.pairwise_cons.2 h⟩
      intro y hy
      rcases List.mem_cons.1 hy with rfl | hy
      · exact hb
      · exact Block.le_trans' _ _ _ hb (h.1 y hy)
    · rename_i hb
      refine List.pairwise_cons.2 ⟨?_, ih h.2⟩
      intro y hy
      rcases List.mem_cons.1 ((insertBlock_perm b xs).mem_iff.1 hy) with rfl | hy
      · have := Block.le_total' x y
        rcases Bool.or_eq_true_iff.1 this with h1 | h1
        · exact h1
        · exact absurd h1 hb
      · exact h.1 y hy

theorem sortBlocks_perm (l : List (Block K V)) : (sortBlocks l).Perm l := by
  induction l with
  | nil => exact List.Perm.refl _
  | cons x xs ih => exact (insertBlock_perm x _).trans (List.Perm.cons x ih)

theorem sortBlocks_pairwise (l : List (Block K V)) :
    (sortBlocks l).Pairwise (fun a b => a.le b = true) := by
  induction l with
  | nil => exact List.Pairwise.nil
  | cons x xs ih => exact insertBlock_pairwise x _ ih

theorem sort_eq {files bs : List (Block K V)} (hperm : files.Perm bs)
    (hle : bs.Pairwise (fun a b => a.le b = true ∧ ¬ b.le a = true)) :
    sortBlocks files = bs := by
  have h1 := sortBlocks_pairwise files
  have h2 : bs.Pairwise (fun a b => a.le b = true) := hle.imp (fun h => h.1)
  refine List.Perm.eq_of_pairwise (le := fun a b => a.le b = true) ?_ h1 h2
    ((sortBlocks_perm _).trans hperm)
  intro a b ha hb hab hba
  have ha' : a ∈ bs := ((sortBlocks_perm _).trans hperm).mem_iff.1 ha
  by_cases hne : a = b
  · exact hne
  · rcases pairwise_cases hle ha' hb hne with h | h
    · exact absurd hba h.2
    · exact absurd hab h.2

theorem strict_of_ranges {bs : List (Block K V)} (hok : ∀ b ∈ bs, BlockOK b)
    (hr : bs.Pairwise (fun a b => a.maxV < b.minV)) :
    bs.Pairwise (fun a b => a.le b = true ∧ ¬ b.le a = true) := by
  refine List.Pairwise.imp_of_mem ?_ hr
  intro a b ha hb h
  have := (hok a ha).min_le_max
  unfold Block.le
  rw [if_neg (by omega), if_neg (by omega)]
  simp; omega

/-! ### log replay -/

/-- Result of replaying the log on top of loaded version `c`. -/
def replay (c : Nat) (l : List (Rec K V)) : Replay K V :=
  l.foldl (replayStep c) { cur := c, lastFlush := c, first := true, entries := [] }

/-- Version set by the last command record. -/
def lastCmd (l : List (Rec K V)) : Option Nat :=
  l.foldl (fun c r => match r with
    | .put _ => c
    | .commit v => some v
    | .revert v => some v
    | .reset v => some v) none

/-- Entries collected from the log when nothing is skipped. -/
def ent (l : List (Rec K V)) : List (Entry K V) := (replay 0 l).entries

theorem replay_snoc (c : Nat) (l : List (Rec K V)) (r : Rec K V) :
    replay c (l ++ [r]) = replayStep c (replay c l) r := by
  unfold replay; rw [List.foldl_append]; rfl

theorem lastCmd_snoc (l : List (Rec K V)) (r : Rec K V) :
    lastCmd (l ++ [r]) = match r with
    | .put _ => lastCmd l
    | .commit v => some v
    | .revert v => some v
    | .reset v => some v := by
  unfold lastCmd; rw [List.foldl_append]; rfl

theorem replay_cur (c : Nat) (l : List (Rec K V)) : (replay c l).cur = (lastCmd l).getD c := by
  induction l using List.reverseRecOn with
  | nil => rfl
  | append_singleton l r ih =>
    rw [replay_snoc, lastCmd_snoc]
    cases r with
    | put e => unfold replayStep; dsimp only; split <;> exact ih
    | commit v => unfold replayStep; dsimp only; split <;> rfl
    | revert v => rfl
    | reset v => unfold replayStep; dsimp only; split <;> rfl

theorem mmInsert_cons (e x : Entry K V) (xs : List (Entry K V)) :
    mmInsert e (x :: xs) = if e.ver < x.ver then e :: x :: xs else x :: mmInsert e xs := rfl

theorem mmInsert_filter_ge (c : Nat) (e : Entry K V) (l : List (Entry K V)) :
    (mmInsert e l).filter (fun x => decide (c ≤ x.ver)) =
      if c ≤ e.ver then mmInsert e (l.filter fun x => decide (c ≤ x.ver))
      else l.filter fun x => decide (c ≤ x.ver) := by
  induction l with
  | nil =>
    by_cases hc : c ≤ e.ver
    · rw [if_pos hc]; simp [mmInsert, hc]
    · rw [if_neg hc]; simp [mmInsert, hc]
  | cons x xs ih =>
    rw [mmInsert_cons]
    by_cases hlt : e.ver < x.ver
    · rw [if_pos hlt]
      by_cases hc : c ≤ e.ver
      · have hx : c ≤ x.ver := by omega
        rw [if_pos hc, List.filter_cons_of_pos (by simpa using hc),
          List.filter_cons_of_pos (by simpa using hx), mmInsert_cons, if_pos hlt]
      · rw [if_neg hc, List.filter_cons_of_neg (by simpa using hc)]
    · rw [if_neg hlt]
      by_cases hx : c ≤ x.ver
      · rw [List.filter_cons_of_pos (by simpa using hx), List.filter_cons_of_pos (by simpa using hx),
          ih]
        by_cases hc : c ≤ e.ver
        · rw [if_pos hc, if_pos hc, mmInsert_cons, if_neg hlt]
        · rw [if_neg hc, if_neg hc]
      · rw [List.filter_cons_of_neg (by simpa using hx), List.filter_cons_of_neg (by simpa using hx),
          ih]

theorem ent_snoc (l : List (Rec K V)) (r : Rec K V) :
    ent (l ++ [r]) = match r with
    | .put e => mmInsert e (ent l)
    | .commit _ => ent l
    | .revert v => (ent l).filter fun e => decide (e.ver < v)
    | .reset _ => ent l := by
  unfold ent
  rw [replay_snoc]
  cases r with
  | put e => simp [replayStep]
  | commit v => unfold replayStep; dsimp only; split <;> rfl
  | revert v => rfl
  | reset v => unfold replayStep; dsimp only; split <;> rfl

theorem replay_entries (c : Nat) (l : List (Rec K V)) :
    (replay c l).entries = (ent l).filter fun e => decide (c ≤ e.ver) := by
  induction l using List.reverseRecOn with
  | nil => rfl
  | append_singleton l r ih =>
    rw [replay_snoc, ent_snoc]
    cases r with
    | put e =>
      dsimp only
      rw [mmInsert_filter_ge]
      unfold replayStep
      dsimp only
      split
      · dsimp only; rw [ih]
      · exact ih
    | commit v => unfold replayStep; dsimp only; split <;> exact ih
    | revert v =>
      unfold replayStep
      dsimp only
      rw [ih, List.filter_filter, List.filter_filter]
      congr 1
      funext x
      exact Bool.and_comm _ _
    | reset v => unfold replayStep; dsimp only; split <;> exact ih

theorem mem_mmInsert {e x : Entry K V} {l : List (Entry K V)} :
    x ∈ mmInsert e l ↔ x = e ∨ x ∈ l := by
  induction l with
  | nil => simp [mmInsert]
  | cons y ys ih =>
    unfold mmInsert
    split
    · simp
    · simp only [List.mem_cons, ih]
      constructor
      · rintro (h | h | h)
        · exact Or.inr (Or.inl h)
        · exact Or.inl h
        · exact Or.inr (Or.inr h)
      · rintro (h | h | h)
        · exact Or.inr (Or.inl h)
        · exact Or.inl h
        · exact Or.inr (Or.inr h)

theorem mono_mmInsert {e : Entry K V} {l : List (Entry K V)} (h : Mono l) : Mono (mmInsert e l) := by
  induction l with
  | nil => exact List.pairwise_singleton _ _
  | cons y ys ih =>
    have h' := List.pairwise_cons.1 h
    unfold mmInsert
    split
    · rename_i hlt
      refine List.pairwise_cons.2 ⟨?_, h⟩
      intro a ha
      rcases List.mem_cons.1 ha with rfl | ha
      · omega
      · have := h'.1 a ha; omega
    · rename_i hlt
      refine List.pairwise_cons.2 ⟨?_, ih h'.2⟩
      intro a ha
      rcases mem_mmInsert.1 ha with rfl | ha
      · omega
      · exact h'.1 a ha

/-- The multimap keeps later inserts of the same version behind earlier ones. -/
theorem mmInsert_split {e : Entry K V} {l : List (Entry K V)} (h : Mono l) :
    ∃ a b, l = a ++ b ∧ mmInsert e l = a ++ e :: b ∧ (∀ x ∈ a, x.ver ≤ e.ver) ∧
      ∀ x ∈ b, e.ver < x.ver := by
  induction l with
  | nil => exact ⟨[], [], rfl, rfl, by simp, by simp⟩
  | cons y ys ih =>
    have h' := List.pairwise_cons.1 h
    unfold mmInsert
    split
    · rename_i hlt
      refine ⟨[], y :: ys, rfl, rfl, by simp, ?_⟩
      intro a ha
      rcases List.mem_cons.1 ha with rfl | ha
      · exact hlt
      · have := h'.1 a ha; omega
    · rename_i hlt
      obtain ⟨a, b, h1, h2, h3, h4⟩ := ih h'.2
      refine ⟨y :: a, b, by rw [h1]; rfl, by rw [h2]; rfl, ?_, h4⟩
      intro x hx
      rcases List.mem_cons.1 hx with rfl | hx
      · omega
      · exact h3 x hx

theorem live_mid {a b : List (Entry K V)} {w e : Entry K V} (hb : ∀ x ∈ b, ¬ x.same w) :
    Live (a ++ w :: b) e ↔ e = w ∨ (Live (a ++ b) e ∧ ¬ e.same w) := by
  induction b using List.reverseRecOn with
  | nil => simpa using live_append
  | append_singleton b x ih =>
    have ih' := ih (fun y hy => hb y (by simp [hy]))
    have hx := hb x (by simp)
    rw [show a ++ w :: (b ++ [x]) = (a ++ w :: b) ++ [x] by simp, live_append, ih',
      show a ++ (b ++ [x]) = (a ++ b) ++ [x] by simp, live_append]
    constructor
    · rintro (rfl | ⟨rfl | ⟨h1, h2⟩, h3⟩)
      · exact Or.inr ⟨Or.inl rfl, hx⟩
      · exact Or.inl rfl
      · exact Or.inr ⟨Or.inr ⟨h1, h3⟩, h2⟩
    · rintro (rfl | ⟨rfl | ⟨h1, h2⟩, h3⟩)
      · exact Or.inr ⟨Or.inl rfl, fun h => hx (Entry.same_symm h)⟩
      · exact Or.inl rfl
      · exact Or.inr ⟨Or.inr ⟨h1, h3⟩, h2⟩

theorem live_mmInsert {l : List (Entry K V)} {w e : Entry K V} (h : Mono l) :
    Live (mmInsert w l) e ↔ e = w ∨ (Live l e ∧ ¬ e.same w) := by
  obtain ⟨a, b, h1, h2, h3, h4⟩ := mmInsert_split (e := w) h
  rw [h2, live_mid, ← h1]
  intro x hx hs
  have := h4 x hx
  have := hs.2
  omega

theorem mono_ent (l : List (Rec K V)) : Mono (ent l) := by
  induction l using List.reverseRecOn with
  | nil => exact List.Pairwise.nil
  | append_singleton l r ih =>
    rw [ent_snoc]
    cases r with
    | put e => exact mono_mmInsert ih
    | commit v => exact ih
    | revert v => exact List.Pairwise.filter _ ih
    | reset v => exact ih

theorem live_filter_ge {ws : List (Entry K V)} {v : Nat} {e : Entry K V} :
    Live (ws.filter fun w => decide (v ≤ w.ver)) e ↔ Live ws e ∧ v ≤ e.ver := by
  induction ws using List.reverseRecOn with
  | nil => simp [live_nil]
  | append_singleton ws w ih =>
    rw [List.filter_append, live_append]
    by_cases hw : v ≤ w.ver
    · rw [List.filter_cons_of_pos (by simpa using hw), List.filter_nil, live_append, ih]
      constructor
      · rintro (rfl | ⟨⟨h1, h2⟩, h3⟩)
        · exact ⟨Or.inl rfl, hw⟩
        · exact ⟨Or.inr ⟨h1, h3⟩, h2⟩
      · rintro ⟨rfl | ⟨h1, h3⟩, h2⟩
        · exact Or.inl rfl
        · exact Or.inr ⟨⟨h1, h2⟩, h3⟩
    · rw [List.filter_cons_of_neg (by simpa using hw), List.filter_nil, List.append_nil, ih]
      constructor
      · rintro ⟨h1, h2⟩
        refine ⟨Or.inr ⟨h1, fun hs => ?_⟩, h2⟩
        rw [hs.2] at h2; exact hw h2
      · rintro ⟨rfl | ⟨h1, h3⟩, h2⟩
        · exact absurd h2 hw
        · exact ⟨h1, h2⟩

/-! ### inserting the replayed entries -/

theorem foldl_insertEntry (o : Options K V) (es : List (Entry K V)) (t : Table K V) (h : Inv t)
    (hm : Mono es) (hmem : ∀ x ∈ t.mem, ∀ e ∈ es, x.ver ≤ e.ver) (hcur : ∀ e ∈ es, e.ver ≤ t.cur)
    (hab : ∀ b ∈ t.blocks, ∀ e ∈ es, b.maxV < e.ver) :
    let r := es.foldl (fun t e => t.insertEntry o e) t
    Inv r ∧ r.blocks = t.blocks ∧ r.nextId = t.nextId ∧ r.writeLock = t.writeLock ∧ r.cur = t.cur ∧
    r.lastFlush = t.lastFlush ∧
    ∀ x, x ∈ r.all ↔ Live es x ∨ (x ∈ t.all ∧ ∀ w ∈ es, ¬ x.same w) := by
  induction es generalizing t with
  | nil => exact ⟨h, rfl, rfl, rfl, rfl, rfl, fun x => by simp [live_nil]⟩
  | cons e es ih =>
    have hm' := List.pairwise_cons.1 hm
    have hab0 : ∀ b ∈ t.blocks, b.maxV < e.ver := fun b hb => hab b hb e (by simp)
    have hinv := insertEntry_inv (o := o) h e (fun x hx _ => hmem x hx e (by simp))
      (hcur e (by simp)) hab0
    have hall := insertEntry_all (o := o) h e hab0
    have hmem' : ∀ x ∈ (t.insertEntry o e).mem, ∀ w ∈ es, x.ver ≤ w.ver := by
      intro x hx w hw
      rcases (mem_memInsert h.mem.sorted).1 hx with rfl | ⟨hx, _⟩
      · exact hm'.1 w hw
      · exact hmem x hx w (by simp [hw])
    obtain ⟨i1, i2, i3, i4, i5, i6, i7⟩ := ih _ hinv hm'.2 hmem'
      (fun w hw => hcur w (by simp [hw])) (fun b hb w hw => hab b hb w (by simp [hw]))
    refine ⟨i1, i2, i3, i4, i5, i6, fun x => ?_⟩
    simp only [List.foldl_cons] at i7 ⊢
    rw [i7 x, hall x]
    have hlive : Live (e :: es) x ↔ (x = e ∧ ∀ y ∈ es, ¬ y.same x) ∨ Live es x := by
      constructor
      · rintro ⟨a, b, hab, hb⟩
        cases a with
        | nil => simp at hab; exact Or.inl ⟨hab.1.symm, by rw [hab.2]; exact hb⟩
        | cons a0 a => simp at hab; exact Or.inr ⟨a, b, hab.2, hb⟩
      · rintro (⟨rfl, h⟩ | ⟨a, b, hab, hb⟩)
        · exact ⟨[], es, rfl, h⟩
        · exact ⟨e :: a, b, by rw [hab]; rfl, hb⟩
    rw [hlive]
    constructor
    · rintro (h1 | ⟨rfl | ⟨h1, h2⟩, h3⟩)
      · exact Or.inl (Or.inr h1)
      · exact Or.inl (Or.inl ⟨rfl, fun y hy hs => h3 y hy (Entry.same_symm hs)⟩)
      · refine Or.inr ⟨h1, ?_⟩
        intro w hw
        rcases List.mem_cons.1 hw with rfl | hw
        · exact h2
        · exact h3 w hw
    · rintro ((⟨rfl, h1⟩ | h1) | ⟨h1, h2⟩)
      · exact Or.inr ⟨Or.inl rfl, fun w hw hs => h1 w hw (Entry.same_symm hs)⟩
      · exact Or.inl h1
      · exact Or.inr ⟨Or.inr ⟨h1, h2 e (by simp)⟩, fun w hw => h2 w (by simp [hw])⟩

theorem foldl_insertEntry_cur (o : Options K V) (es : List (Entry K V)) (t : Table K V) (c : Nat) :
    es.foldl (fun t e => t.insertEntry o e) { t with cur := c } =
      { es.foldl (fun t e => t.insertEntry o e) t with cur := c } := by
  induction es generalizing t with
  | nil => rfl
  | cons e es ih =>
    simp only [List.foldl_cons]
    rw [← ih (t.insertEntry o e)]
    rfl

theorem revert_cur_irrel (o : Options K V) (t : Table K V) (c v : Nat) (hl : t.writeLock = 0)
    (h1 : v ≤ t.cur) (h2 : v ≤ c) :
    (t.revert o v) = (Table.revert o { t with cur := c } v) := by
  unfold Table.revert
  rw [if_neg (by omega), if_neg (by omega), if_neg (by simpa using hl), if_neg (by simpa using h2)]

end Verif.DB
