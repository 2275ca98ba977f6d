/-
  C147 to C149: the ranking of farmers, the blocks of a farmer, and their summary.
-/
import Verif.Index.Farmers

namespace Verif.Index.Farmers

/-! ### counting -/

/-- A list of different farmers with their numbers, in which none with a number above zero is missing. -/
structure Is (r : Ranking) (f : Nat → Nat) : Prop where
  once : (r.map (·.1)).Nodup
  right : ∀ e ∈ r, e.2 = f e.1
  all : ∀ k, f k ≠ 0 → k ∈ r.map (·.1)

theorem Is.perm {r r' : Ranking} {f : Nat → Nat} (h : Is r f) (p : r'.Perm r) : Is r' f :=
  { once := ((p.map _).nodup_iff).2 h.once
    right := fun e he => h.right e (p.mem_iff.1 he)
    all := fun k hk => (p.map _).mem_iff.2 (h.all k hk) }

theorem Is.congr {r : Ranking} {f g : Nat → Nat} (h : Is r f) (e : ∀ k, f k = g k) : Is r g :=
  (funext e : f = g) ▸ h

theorem bump_keys (k a : Nat) : ∀ r : Ranking, a ∈ (bump k r).map (·.1) ↔ a = k ∨ a ∈ r.map (·.1)
  | [] => by show a ∈ [k] ↔ _; simp
  | (b, n) :: r => by
    unfold bump
    by_cases h : b = k
    · rw [if_pos h]
      show a ∈ b :: r.map (·.1) ↔ a = k ∨ a ∈ b :: r.map (·.1)
      rw [List.mem_cons, h]
      exact ⟨.inr, fun z => z.elim .inl id⟩
    · rw [if_neg h]
      show a ∈ b :: (bump k r).map (·.1) ↔ a = k ∨ a ∈ b :: r.map (·.1)
      rw [List.mem_cons, List.mem_cons, bump_keys k a r]
      exact ⟨fun z => z.elim (fun y => .inr (.inl y)) fun y => y.elim .inl fun y => .inr (.inr y),
        fun z => z.elim (fun y => .inr (.inl y)) fun y => y.elim .inl fun y => .inr (.inr y)⟩

theorem bump_nodup (k : Nat) : ∀ r : Ranking, (r.map (·.1)).Nodup → ((bump k r).map (·.1)).Nodup
  | [], _ => List.nodup_cons.2 ⟨List.not_mem_nil, List.nodup_nil⟩
  | (b, n) :: r, h => by
    unfold bump
    obtain ⟨h1, h2⟩ := List.nodup_cons.1 h
    by_cases hb : b = k
    · rw [if_pos hb]; exact h
    · rw [if_neg hb]
      refine List.nodup_cons.2 ⟨fun z => ?_, bump_nodup k r h2⟩
      rcases (bump_keys k b r).1 z with z | z
      · exact hb z
      · exact h1 z

theorem bump_mem {k : Nat} {e : Nat × Nat} : ∀ {r : Ranking}, (r.map (·.1)).Nodup → e ∈ bump k r →
    (e.1 ≠ k ∧ e ∈ r) ∨ (e.1 = k ∧ (e.2 = 1 ∧ k ∉ r.map (·.1) ∨ ∃ n, (k, n) ∈ r ∧ e.2 = n + 1))
  | [], _, he => by
    rw [List.mem_singleton.1 he]
    exact .inr ⟨rfl, .inl ⟨rfl, List.not_mem_nil⟩⟩
  | (b, n) :: r, h, he => by
    unfold bump at he
    obtain ⟨h1, h2⟩ := List.nodup_cons.1 h
    by_cases hb : b = k
    · rw [if_pos hb] at he
      rcases List.mem_cons.1 he with he | he
      · rw [he]
        exact .inr ⟨hb, .inr ⟨n, by rw [hb]; exact List.mem_cons_self, rfl⟩⟩
      · refine .inl ⟨fun z => h1 ?_, List.mem_cons_of_mem _ he⟩
        show b ∈ _
        rw [hb, ← z]
        exact List.mem_map_of_mem he
    · rw [if_neg hb] at he
      rcases List.mem_cons.1 he with he | he
      · rw [he]
        exact .inl ⟨hb, List.mem_cons_self⟩
      · rcases bump_mem h2 he with ⟨p, q⟩ | ⟨p, ⟨q, q'⟩ | ⟨m, q, q'⟩⟩
        · exact .inl ⟨p, List.mem_cons_of_mem _ q⟩
        · refine .inr ⟨p, .inl ⟨q, fun z => ?_⟩⟩
          rcases List.mem_cons.1 z with z | z
          · exact hb z.symm
          · exact q' z
        · exact .inr ⟨p, .inr ⟨m, List.mem_cons_of_mem _ q, q'⟩⟩

theorem Is.bump {r : Ranking} {f : Nat → Nat} (h : Is r f) (k : Nat) : Is (bump k r) fun a => f a + if a = k then 1 else 0 where
  once := bump_nodup k r h.once
  right := by
    intro e he
    rcases bump_mem h.once he with ⟨p, q⟩ | ⟨p, ⟨q, q'⟩ | ⟨n, q, q'⟩⟩
    · rw [if_neg p]; exact h.right e q
    · rw [if_pos p, q, p]
      have : f k = 0 := Decidable.byContradiction fun z => q' (h.all k z)
      omega
    · rw [if_pos p, q', p, ← h.right (k, n) q]
  all := by
    intro a ha
    rw [bump_keys]
    by_cases e : a = k
    · exact .inl e
    · rw [if_neg e] at ha
      exact .inr (h.all a (by omega))

theorem lower_keys (k : Nat) : ∀ r : Ranking, (lower k r).map (·.1) = r.map (·.1)
  | [] => rfl
  | (b, n) :: r => by
    unfold lower
    by_cases h : b = k
    · rw [if_pos h]; rfl
    · rw [if_neg h]
      exact congrArg (b :: ·) (lower_keys k r)

theorem lower_mem {k : Nat} {e : Nat × Nat} : ∀ {r : Ranking}, (r.map (·.1)).Nodup → e ∈ lower k r →
    (e.1 ≠ k ∧ e ∈ r) ∨ (e.1 = k ∧ ∃ n, (k, n) ∈ r ∧ e.2 = n - 1)
  | [], _, he => absurd he List.not_mem_nil
  | (b, n) :: r, h, he => by
    unfold lower at he
    obtain ⟨h1, h2⟩ := List.nodup_cons.1 h
    by_cases hb : b = k
    · rw [if_pos hb] at he
      rcases List.mem_cons.1 he with he | he
      · rw [he]
        refine .inr ⟨hb, n, by rw [hb]; exact List.mem_cons_self, ?_⟩
        show (if n ≠ 0 then n - 1 else n) = n - 1
        by_cases hn : n ≠ 0
        · rw [if_pos hn]
        · rw [if_neg hn]; omega
      · refine .inl ⟨fun z => h1 ?_, List.mem_cons_of_mem _ he⟩
        show b ∈ _
        rw [hb, ← z]
        exact List.mem_map_of_mem he
    · rw [if_neg hb] at he
      rcases List.mem_cons.1 he with he | he
      · rw [he]
        exact .inl ⟨hb, List.mem_cons_self⟩
      · rcases lower_mem h2 he with ⟨p, q⟩ | ⟨p, m, q, q'⟩
        · exact .inl ⟨p, List.mem_cons_of_mem _ q⟩
        · exact .inr ⟨p, m, List.mem_cons_of_mem _ q, q'⟩

theorem Is.lower {r : Ranking} {f : Nat → Nat} (k : Nat) (h : Is r fun a => f a + if a = k then 1 else 0) : Is (lower k r) f where
  once := by rw [lower_keys]; exact h.once
  right := by
    intro e he
    rcases lower_mem h.once he with ⟨p, q⟩ | ⟨p, n, q, q'⟩
    · have := h.right e q
      rw [if_neg p] at this
      exact this
    · have := h.right (k, n) q
      dsimp only at this
      rw [if_pos rfl] at this
      rw [q', p]
      omega
  all := by
    intro a ha
    rw [lower_keys]
    exact h.all a (by omega)

/-- The blocks of a farmer when there is one more block. -/
theorem mined_cons (b : Blk) (l : List Blk) (k : Nat) :
    minedBy (b :: l) k = minedBy l k + if b.height ≠ 0 ∧ k = b.key then 1 else 0 := by
  unfold minedBy
  rw [List.filter_cons]
  by_cases h : b.height ≠ 0 ∧ k = b.key
  · rw [if_pos h, if_pos (decide_eq_true ⟨h.1, h.2.symm⟩)]
    rfl
  · rw [if_neg h, if_neg fun z => h ⟨(of_decide_eq_true z).1, (of_decide_eq_true z).2.symm⟩]
    rfl

theorem is_counted {sort : Ranking → Ranking} (hs : Sorts sort) {l : List Blk} {r : Ranking} (b : Blk) (h : Is r (minedBy l)) :
    Is (counted sort b r) (minedBy (b :: l)) := by
  unfold counted
  by_cases hb : b.height ≠ 0
  · rw [if_pos hb]
    refine ((h.bump b.key).congr fun k => ?_).perm (hs.perm _)
    rw [mined_cons]
    by_cases e : k = b.key
    · rw [if_pos e, if_pos ⟨hb, e⟩]
    · rw [if_neg e, if_neg fun z => e z.2]
  · rw [if_neg hb]
    refine h.congr fun k => ?_
    rw [mined_cons, if_neg fun z => hb z.1]
    rfl

theorem is_unwind {l : List Blk} : ∀ (top : List Blk) (r : Ranking), Is r (minedBy (top ++ l)) → Is (unwind top r) (minedBy l)
  | [], _, h => h
  | b :: top, r, h => by
    refine is_unwind top _ ?_
    show Is (if b.height ≠ 0 then lower b.key r else r) _
    have h : Is r fun k => minedBy (top ++ l) k + if b.height ≠ 0 ∧ k = b.key then 1 else 0 :=
      h.congr fun k => mined_cons b (top ++ l) k
    by_cases hb : b.height ≠ 0
    · rw [if_pos hb]
      refine Is.lower b.key (h.congr fun k => ?_)
      by_cases e : k = b.key
      · rw [if_pos e, if_pos ⟨hb, e⟩]
      · rw [if_neg e, if_neg fun z => e z.2]
    · rw [if_neg hb]
      refine h.congr fun k => ?_
      rw [if_neg fun z => hb z.1]
      rfl

theorem is_nil : Is [] (minedBy []) :=
  { once := List.nodup_nil, right := fun _ h => absurd h List.not_mem_nil, all := fun _ h => absurd rfl h }

theorem is_tally : ∀ l : List Blk, Is (tally l) (minedBy l)
  | [] => is_nil
  | b :: l => by
    have ih := is_tally l
    unfold tally farmed at ih ⊢
    rw [List.filter_cons]
    by_cases hb : b.height ≠ 0
    · rw [if_pos (decide_eq_true hb)]
      refine (ih.bump b.key).congr fun k => ?_
      rw [mined_cons]
      by_cases e : k = b.key
      · rw [if_pos e, if_pos ⟨hb, e⟩]
      · rw [if_neg e, if_neg fun z => e z.2]
    · rw [if_neg fun z => hb (of_decide_eq_true z)]
      refine ih.congr fun k => ?_
      rw [mined_cons, if_neg fun z => hb z.1]
      rfl

/-! ### all runs -/

/-- Heights go down by one to zero. -/
def Heights : List Blk → Prop
  | [] => True
  | b :: l => b.height = l.length ∧ Heights l

theorem heights_drop : ∀ (n : Nat) (l : List Blk), Heights l → Heights (l.drop n)
  | 0, _, h => h
  | _ + 1, [], h => h
  | n + 1, _ :: l, h => heights_drop n l h.2

theorem heights_lt : ∀ {l : List Blk}, Heights l → ∀ b ∈ l, b.height < l.length
  | [], _, _, h => absurd h List.not_mem_nil
  | a :: l, h, b, hb => by
    rcases List.mem_cons.1 hb with e | hb
    · rw [e, h.1]; exact Nat.lt_succ_self _
    · exact Nat.lt_succ_of_lt (heights_lt h.2 b hb)

theorem heights_desc : ∀ {l : List Blk}, Heights l → l.Pairwise fun a b => b.height < a.height
  | [], _ => List.Pairwise.nil
  | a :: l, h => List.Pairwise.cons (fun b hb => by rw [h.1]; exact heights_lt h.2 b hb) (heights_desc h.2)

structure Inv (s : State) : Prop where
  heights : Heights s.chain
  is : Is s.ranking (minedBy s.chain)
  sorted : s.ranking.Pairwise fun a b => b.2 ≤ a.2

theorem inv_revert {sort : Ranking → Ranking} (hs : Sorts sort) {s : State} {height : Nat} {top : List Blk}
    (hh : Heights s.chain)
    (h : isDeep s.root height = false →
      Is s.ranking (minedBy (top ++ s.chain.drop (s.chain.length - height)))) :
    Inv (revertTo sort height top s) where
  heights := heights_drop _ _ hh
  is := by
    unfold revertTo
    dsimp only
    refine Is.perm ?_ (hs.perm _)
    by_cases hd : isDeep s.root height = true
    · rw [if_pos (.inl hd)]; exact is_tally _
    · rw [if_neg hd]
      by_cases he : unwind top s.ranking = []
      · rw [if_pos (.inr he)]; exact is_tally _
      · rw [if_neg fun z => z.elim hd he]
        exact is_unwind top _ (h ((Bool.not_eq_true _).mp hd))
  sorted := hs.sorted _

/-- Not a block whose writing to the file failed. -/
def Op.fine : Op → Bool
  | .failed _ .write => false
  | _ => true

theorem inv_step {sort : Ranking → Ranking} (hs : Sorts sort) {s : State} (h : Inv s) {o : Op} (ho : o.fine = true) :
    Inv (step sort s o) := by
  have same : s.chain.drop (s.chain.length - s.chain.length) = s.chain := by rw [Nat.sub_self]; rfl
  cases o with
  | apply key reward addr =>
    refine ⟨⟨rfl, h.heights⟩, is_counted hs _ h.is, ?_⟩
    show (counted sort _ s.ranking).Pairwise _
    unfold counted
    by_cases hb : (nextBlk s key reward addr).height ≠ 0
    · rw [if_pos hb]; exact hs.sorted _
    · rw [if_neg hb]; exact h.sorted
  | failed key at_ =>
    cases at_ with
    | write => cases ho
    | early =>
      refine inv_revert hs h.heights fun _ => ?_
      show Is s.ranking (minedBy ([] ++ s.chain.drop (s.chain.length - s.chain.length)))
      rw [same]
      exact h.is
    | commit =>
      refine inv_revert hs (s := { s with ranking := counted sort (nextBlk s key 0 0) s.ranking }) h.heights fun _ => ?_
      show Is (counted sort (nextBlk s key 0 0) s.ranking)
        (minedBy ([nextBlk s key 0 0] ++ s.chain.drop (s.chain.length - s.chain.length)))
      rw [same]
      exact is_counted hs _ h.is
  | revert height =>
    refine inv_revert hs h.heights fun _ => ?_
    rw [List.take_append_drop]
    exact h.is
  | commit height => exact ⟨h.heights, h.is, h.sorted⟩
  | restart height => exact inv_revert hs h.heights fun z => (nomatch z)

theorem inv_run {sort : Ranking → Ranking} (hs : Sorts sort) (ops : List Op) (ho : ∀ o ∈ ops, o.fine = true) :
    Inv (run sort ops) := by
  have go : ∀ (ops : List Op) (s : State), (∀ o ∈ ops, o.fine = true) → Inv s → Inv (ops.foldl (step sort) s) := by
    intro ops
    induction ops with
    | nil => exact fun s _ h => h
    | cons o ops ih =>
      exact fun s ho h => ih _ (fun o h => ho o (List.mem_cons_of_mem _ h)) (inv_step hs h (ho o List.mem_cons_self))
  exact go ops _ ho ⟨trivial, is_nil, List.Pairwise.nil⟩

theorem chain_step (sort : Ranking → Ranking) (s : State) (o : Op) (h : Heights s.chain) : Heights (step sort s o).chain := by
  cases o with
  | apply => exact ⟨rfl, h⟩
  | failed key at_ => cases at_ <;> exact heights_drop _ _ h
  | revert => exact heights_drop _ _ h
  | commit => exact h
  | restart => exact heights_drop _ _ h

theorem chain_run (sort : Ranking → Ranking) (ops : List Op) : Heights (run sort ops).chain := by
  have go : ∀ (ops : List Op) (s : State), Heights s.chain → Heights (ops.foldl (step sort) s).chain := by
    intro ops
    induction ops with
    | nil => exact fun s h => h
    | cons o ops ih => exact fun s h => ih _ (chain_step sort s o h)
  exact go ops _ trivial

theorem Is.reported {r : Ranking} {f : Nat → Nat} (h : Is r f) (k : Nat) : reported r k = f k := by
  unfold Farmers.reported
  cases hf : r.find? fun e => e.1 = k with
  | some e =>
    dsimp only
    have hk : decide (e.1 = k) = true := List.find?_some (p := fun e : Nat × Nat => decide (e.1 = k)) hf
    rw [h.right e (List.mem_of_find?_eq_some hf), of_decide_eq_true hk]
  | none =>
    dsimp only
    refine Decidable.byContradiction fun z => ?_
    obtain ⟨e, he, hk⟩ := List.mem_map.1 (h.all k fun y => z y.symm)
    exact List.find?_eq_none.1 hf e he (decide_eq_true hk)

/-- **C147.** After any history of blocks, forks, failures and restarts, as long as no block could not be written to the
    file: the ranking has each farmer at most once, with the number of their blocks on the chain; it goes from the greatest
    number down; and no farmer with a block is missing. -/
theorem C147_ranking_partial {sort : Ranking → Ranking} (hs : Sorts sort) (ops : List Op) (ho : ∀ o ∈ ops, o.fine = true) :
    let s := run sort ops
    (∀ k, reported s.ranking k = minedBy s.chain k) ∧ (s.ranking.map (·.1)).Nodup ∧
      (∀ e ∈ s.ranking, e.2 = minedBy s.chain e.1) ∧ s.ranking.Pairwise (fun a b => b.2 ≤ a.2) :=
  have h := inv_run hs ops ho
  ⟨h.is.reported, h.is.once, h.is.right, h.sorted⟩

/-- **C147.** A query with a limit gives the best farmers: it has as many as were asked for, or else all that have blocks,
    and none that is left out has more blocks than one that is given. -/
theorem C147_top_partial {sort : Ranking → Ranking} (hs : Sorts sort) (ops : List Op) (ho : ∀ o ∈ ops, o.fine = true)
    (limit : Nat) :
    let s := run sort ops
    let out := getRanking s limit
    out.length ≤ limit ∧ (∀ e ∈ out, e.2 = minedBy s.chain e.1) ∧
      ∀ k, k ∉ out.map (·.1) → minedBy s.chain k = 0 ∨
        out.length = limit ∧ ∀ e ∈ out, minedBy s.chain k ≤ e.2 := by
  have h := inv_run hs ops ho
  have eo : getRanking (run sort ops) limit = (run sort ops).ranking.take limit := by
    unfold getRanking
    rw [if_neg (by omega)]
    rfl
  dsimp only
  rw [eo]
  refine ⟨List.length_take_le _ _, fun e he => h.is.right e (List.mem_of_mem_take he), fun k hk => ?_⟩
  by_cases h0 : minedBy (run sort ops).chain k = 0
  · exact .inl h0
  · obtain ⟨x, hx, hxk⟩ := List.mem_map.1 (h.is.all k h0)
    have hsplit := List.take_append_drop limit (run sort ops).ranking
    have hd : x ∈ (run sort ops).ranking.drop limit := by
      rw [← hsplit] at hx
      rcases List.mem_append.1 hx with hx | hx
      · exact absurd (hxk ▸ List.mem_map_of_mem hx) hk
      · exact hx
    refine .inr ⟨?_, fun e he => ?_⟩
    · rw [List.length_take]
      have := List.length_pos_of_mem hd
      rw [List.length_drop] at this
      omega
    · have hp := h.sorted
      rw [← hsplit] at hp
      have := (List.pairwise_append.1 hp).2.2 e he x hd
      rw [h.is.right x (List.mem_of_mem_drop hd), hxk] at this
      exact this

/-! ### the blocks of farmers -/

/-- Strictly sorted lists, one within the other, are so in order. -/
theorem sub_of_sorted : ∀ {F S : List Blk}, F.Pairwise (fun a b => b.height < a.height) →
    S.Pairwise (fun a b => b.height < a.height) → (∀ x ∈ S, x ∈ F) → S.Sublist F
  | [], [], _, _, _ => List.Sublist.slnil
  | [], y :: _, _, _, h => absurd (h y List.mem_cons_self) List.not_mem_nil
  | x :: F, [], _, _, _ => List.nil_sublist _
  | x :: F, y :: S, hF, hS, h => by
    obtain ⟨f1, f2⟩ := List.pairwise_cons.1 hF
    obtain ⟨s1, s2⟩ := List.pairwise_cons.1 hS
    by_cases e : y = x
    · subst e
      refine List.Sublist.cons_cons _ (sub_of_sorted f2 s2 fun z hz => ?_)
      rcases List.mem_cons.1 (h z (List.mem_cons_of_mem _ hz)) with e | hz'
      · have := s1 z hz
        rw [e] at this
        exact absurd this (Nat.lt_irrefl _)
      · exact hz'
    · have hy : y ∈ F := (List.mem_cons.1 (h y List.mem_cons_self)).resolve_left e
      refine List.Sublist.cons _ (sub_of_sorted f2 hS fun z hz => ?_)
      rcases List.mem_cons.1 (h z hz) with e' | hz'
      · rcases List.mem_cons.1 hz with e'' | hz
        · exact absurd (e''.symm.trans e') e
        · have a := s1 z hz
          have b := f1 y hy
          rw [e'] at a
          omega
      · exact hz'

theorem take_of_sub : ∀ {n : Nat} {F S : List Blk}, F.Nodup → S.Sublist F → (∀ x ∈ F.take n, x ∈ S) → S.take n = F.take n
  | 0, _, _, _, _, _ => by rw [List.take_zero, List.take_zero]
  | n + 1, [], S, _, hs, _ => by rw [List.sublist_nil.1 hs]
  | n + 1, x :: F, S, hn, hs, h => by
    obtain ⟨n1, n2⟩ := List.nodup_cons.1 hn
    have hx : x ∈ S := h x List.mem_cons_self
    rcases List.sublist_cons_iff.1 hs with hs | ⟨S', e, hs'⟩
    · exact absurd (hs.subset hx) n1
    · subst e
      rw [List.take_succ_cons, List.take_succ_cons]
      refine congrArg (x :: ·) (take_of_sub n2 hs' fun y hy => ?_)
      rcases List.mem_cons.1 (h y (List.mem_cons_of_mem _ hy)) with e | hy'
      · exact absurd (e ▸ List.mem_of_mem_take hy) n1
      · exact hy'

/-- What is among the first of a list is among the first of a part of it. -/
theorem take_filter {p : Blk → Bool} : ∀ {n : Nat} {F : List Blk} {x : Blk}, x ∈ F.take n → p x = true → x ∈ (F.filter p).take n
  | 0, _, _, h, _ => by rw [List.take_zero] at h; exact absurd h List.not_mem_nil
  | _ + 1, [], _, h, _ => absurd h List.not_mem_nil
  | n + 1, y :: F, x, h, hp => by
    rw [List.take_succ_cons] at h
    rw [List.filter_cons]
    rcases List.mem_cons.1 h with e | h
    · subst e
      rw [if_pos hp, List.take_succ_cons]
      exact List.mem_cons_self
    · have ih := take_filter h hp
      by_cases hy : p y = true
      · rw [if_pos hy, List.take_succ_cons]
        exact List.mem_cons_of_mem _ ih
      · rw [if_neg hy]
        exact List.take_subset_take_left _ (Nat.le_succ n) ih

theorem pair_nodup {l : List Blk} (h : l.Pairwise fun a b => b.height < a.height) : l.Nodup :=
  h.imp fun z e => by rw [e] at z; exact Nat.lt_irrefl _ z

theorem lastOf_mem {chain : List Blk} {since : Nat} {limit : Int} {key : Nat} {b : Blk} (h : b ∈ lastOf chain since limit key) :
    b ∈ chain ∧ b.height ≠ 0 ∧ b.key = key ∧ since ≤ b.height := by
  have h := List.mem_of_mem_take h
  obtain ⟨h1, h2⟩ := List.mem_filter.1 h
  obtain ⟨h3, h4⟩ := List.mem_filter.1 h1
  have h2 := of_decide_eq_true h2
  exact ⟨h3, of_decide_eq_true h4, h2.1, h2.2.1⟩

theorem flat_nodup {chain : List Blk} (hd : chain.Pairwise fun a b => b.height < a.height) (since : Nat) (limit : Int) :
    ∀ keys : List Nat, keys.Nodup → (keys.flatMap (lastOf chain since limit)).Nodup
  | [], _ => List.nodup_nil
  | k :: keys, h => by
    obtain ⟨h1, h2⟩ := List.nodup_cons.1 h
    rw [List.flatMap_cons]
    refine List.nodup_append.2 ⟨?_, flat_nodup hd since limit keys h2, ?_⟩
    · exact List.Nodup.sublist (List.take_sublist _ _)
        (((pair_nodup hd).sublist List.filter_sublist).sublist List.filter_sublist)
    · intro a ha b hb e
      subst e
      obtain ⟨k', hk', hb⟩ := List.mem_flatMap.1 hb
      exact h1 ((lastOf_mem ha).2.2.1.symm.trans (lastOf_mem hb).2.2.1 ▸ hk')

theorem find_height : ∀ {l : List Blk}, l.Pairwise (fun a b => b.height < a.height) → ∀ {b : Blk}, b ∈ l → blockAt l b.height = some b
  | [], _, _, h => absurd h List.not_mem_nil
  | a :: l, hd, b, hb => by
    obtain ⟨d1, d2⟩ := List.pairwise_cons.1 hd
    unfold blockAt
    rw [List.find?_cons]
    rcases List.mem_cons.1 hb with e | hb
    · rw [e, decide_eq_true rfl]
    · rw [decide_eq_false (by have := d1 b hb; omega)]
      exact find_height d2 hb

/-- **C148.** `get_farmed_blocks` gives the newest blocks of the farmers, newest first, as many as were asked for; and with
    a negative limit all of them, oldest first; if no key is given twice. -/
theorem C148_farmed_partial {sort : Ranking → Ranking} (ops : List Op) {sortB : List Blk → List Blk} (hb : SortsBlk sortB)
    (keys : List Nat) (hk : keys.Nodup) (since : Nat) (limit : Int) (hl : -2 ^ 31 ≤ limit ∧ limit < 2 ^ 31)
    (hlen : (run sort ops).chain.length < 2 ^ 32) :
    let chain := (run sort ops).chain
    getFarmed sortB chain keys since limit =
      ((if 0 ≤ limit then (ofFarmers chain keys since).take limit.toNat else (ofFarmers chain keys since).reverse).map some) := by
  have hh := chain_run sort ops
  revert hh hlen
  generalize (run sort ops).chain = chain
  intro hlen hh
  have hd := heights_desc hh
  have hF : (ofFarmers chain keys since).Pairwise fun a b => b.height < a.height := hd.sublist List.filter_sublist
  -- the rows of one farmer
  have rows : ∀ k ∈ keys, ((farmed chain).filter fun b => b.key = k ∧ since ≤ b.height ∧ b.height < 2 ^ 32 - 1) =
      (ofFarmers chain keys since).filter fun b => b.key = k := by
    intro k hk
    unfold farmed ofFarmers
    rw [List.filter_filter, List.filter_filter]
    refine List.filter_congr fun b hb => ?_
    have := heights_lt hh b hb
    rw [← Bool.decide_and, ← Bool.decide_and]
    refine decide_eq_decide.2 ⟨fun z => ⟨z.1.1, z.2, z.1.1 ▸ hk, z.1.2.1⟩, fun z => ⟨⟨z.1, z.2.2.2, by omega⟩, z.2.1⟩⟩
  have hn : ∀ n, (limit % 2 ^ 64).toNat = n → (0 ≤ limit → limit.toNat = n) ∧ (limit < 0 → chain.length ≤ n) := by
    intro n e
    refine ⟨fun h => ?_, fun h => ?_⟩ <;> omega
  obtain ⟨hn1, hn2⟩ := hn _ rfl
  have hS0 : (sortB (keys.flatMap (lastOf chain since limit))).Nodup := (hb.perm _).nodup_iff.2 (flat_nodup hd since limit keys hk)
  have hin : ∀ x ∈ sortB (keys.flatMap (lastOf chain since limit)), x ∈ ofFarmers chain keys since := by
    intro x hx
    obtain ⟨k, hk, hx⟩ := List.mem_flatMap.1 ((hb.perm _).mem_iff.1 hx)
    obtain ⟨a, b, c, d⟩ := lastOf_mem hx
    exact List.mem_filter.2 ⟨a, decide_eq_true ⟨b, c ▸ hk, d⟩⟩
  have hS : (sortB (keys.flatMap (lastOf chain since limit))).Pairwise fun a b => b.height < a.height := by
    have hs := hb.sorted (keys.flatMap (lastOf chain since limit))
    refine (hs.and hS0).imp_of_mem fun {a b} ha hb' z => ?_
    refine Nat.lt_of_le_of_ne z.1 fun e => z.2 ?_
    have h1 := find_height hd (List.mem_filter.1 (hin a ha)).1
    have h2 := find_height hd (List.mem_filter.1 (hin b hb')).1
    rw [e, h1] at h2
    exact Option.some.inj h2
  have hsub := sub_of_sorted hF hS hin
  have hall : ∀ x ∈ (ofFarmers chain keys since).take (limit % 2 ^ 64).toNat, x ∈ sortB (keys.flatMap (lastOf chain since limit)) := by
    intro x hx
    have hxF := (List.mem_filter.1 (List.mem_of_mem_take hx)).2
    have hxk := (of_decide_eq_true hxF).2.1
    refine (hb.perm _).mem_iff.2 (List.mem_flatMap.2 ⟨x.key, hxk, ?_⟩)
    unfold lastOf
    rw [rows _ hxk]
    exact take_filter hx (decide_eq_true rfl)
  have htake := take_of_sub (pair_nodup hF) hsub hall
  have out : ∀ l : List Blk, (∀ x ∈ l, x ∈ chain) → l.map (fun b => blockAt chain b.height) = l.map some :=
    fun l h => List.map_congr_left fun x hx => find_height hd (h x hx)
  unfold getFarmed
  dsimp only
  by_cases h0 : 0 ≤ limit
  · rw [if_pos h0, if_pos h0, hn1 h0, htake]
    exact out _ fun x hx => (List.mem_filter.1 (List.mem_of_mem_take hx)).1
  · rw [if_neg h0, if_neg h0]
    have e : sortB (keys.flatMap (lastOf chain since limit)) = ofFarmers chain keys since := by
      have a := hn2 (by omega)
      have b : (ofFarmers chain keys since).length ≤ chain.length := List.length_filter_le _ _
      have c := hsub.length_le
      rw [List.take_of_length_le (by omega), List.take_of_length_le (by omega)] at htake
      exact htake
    rw [e]
    exact out _ fun x hx => (List.mem_filter.1 (List.mem_reverse.1 hx)).1

/-! ### the summary -/

/-- The sum of the rewards of blocks. -/
def sumOf (l : List Blk) : Nat := (l.map (·.reward)).sum

theorem fold_add : ∀ (l : List Blk) (o : Summary), (∀ b ∈ l, b.reward < 2 ^ 32) → o.num + l.length < 2 ^ 32 →
    o.rewards + sumOf l < 2 ^ 64 → (∀ a, o.byAddr a ≤ o.rewards) →
    let t := l.foldl Summary.add o
    t.num = o.num + l.length ∧ t.rewards = o.rewards + sumOf l ∧
      (∀ a, t.byAddr a = o.byAddr a + sumOf (l.filter fun b => b.addr = a)) ∧
      (∀ b ∈ l, b.height ≤ t.last) ∧ o.last ≤ t.last ∧ (t.last = o.last ∨ ∃ b ∈ l, b.height = t.last)
  | [], o, _, _, _, _ => ⟨rfl, rfl, fun _ => rfl, fun _ h => absurd h List.not_mem_nil, Nat.le_refl _, .inl rfl⟩
  | b :: l, o, h1, h2, h3, h4 => by
    have hb := h1 b List.mem_cons_self
    have es : sumOf (b :: l) = b.reward + sumOf l := rfl
    have el : (b :: l).length = l.length + 1 := rfl
    rw [es] at h3
    rw [el] at h2
    have e1 : (o.add b).num = o.num + 1 := Nat.mod_eq_of_lt (by omega)
    have e2 : (o.add b).rewards = o.rewards + b.reward := by
      show (o.rewards + b.reward % 2 ^ 32) % 2 ^ 64 = _
      rw [Nat.mod_eq_of_lt hb, Nat.mod_eq_of_lt (by omega)]
    have e3 : ∀ a, (o.add b).byAddr a = o.byAddr a + if a = b.addr then b.reward else 0 := by
      intro a
      show (if a = b.addr then (o.byAddr a + b.reward % 2 ^ 32) % 2 ^ 64 else o.byAddr a) = _
      have := h4 a
      by_cases e : a = b.addr
      · rw [if_pos e, if_pos e, Nat.mod_eq_of_lt hb, Nat.mod_eq_of_lt (by omega)]
      · rw [if_neg e, if_neg e]; rfl
    have e4 : (o.add b).last = max b.height o.last := rfl
    obtain ⟨g1, g2, g3, g4, g5, g6⟩ := fold_add l (o.add b) (fun x hx => h1 x (List.mem_cons_of_mem _ hx))
      (by rw [e1]; omega) (by rw [e2]; omega) (fun a => by
        rw [e2, e3]
        have := h4 a
        by_cases e : a = b.addr
        · rw [if_pos e]; omega
        · rw [if_neg e]; omega)
    dsimp only at g1 g2 g3 g4 g5 g6 ⊢
    rw [List.foldl_cons, es, el]
    refine ⟨by rw [g1, e1]; omega, by rw [g2, e2]; omega, fun a => ?_, fun x hx => ?_, by omega, ?_⟩
    · rw [g3, e3, List.filter_cons]
      by_cases e : a = b.addr
      · rw [if_pos e, if_pos (decide_eq_true e.symm)]
        show _ = o.byAddr a + (b.reward + sumOf (l.filter fun b => b.addr = a))
        omega
      · rw [if_neg e, if_neg fun z => e (of_decide_eq_true z).symm]
        omega
    · rcases List.mem_cons.1 hx with hx | hx
      · rw [hx]; omega
      · exact g4 x hx
    · rcases g6 with g | ⟨x, hx, g⟩
      · by_cases hm : b.height ≤ o.last
        · exact .inl (by omega)
        · exact .inr ⟨b, List.mem_cons_self, by omega⟩
      · exact .inr ⟨x, List.mem_cons_of_mem _ hx, g⟩

theorem rows_perm {chain : List Blk} (hh : Heights chain) (hlen : chain.length < 2 ^ 32) {keys : List Nat} (hk : keys.Nodup)
    (since : Nat) :
    (keys.flatMap fun k => ((farmed chain).filter fun b => b.key = k ∧ since ≤ b.height ∧ b.height < 2 ^ 32 - 1).reverse).Perm
      (ofFarmers chain keys since) := by
  have hd := heights_desc hh
  have mem : ∀ k x, x ∈ ((farmed chain).filter fun b => b.key = k ∧ since ≤ b.height ∧ b.height < 2 ^ 32 - 1).reverse ↔
      x ∈ chain ∧ x.height ≠ 0 ∧ x.key = k ∧ since ≤ x.height := by
    intro k x
    rw [List.mem_reverse, List.mem_filter]
    unfold farmed
    rw [List.mem_filter]
    refine ⟨fun ⟨⟨a, b⟩, c⟩ => ?_, fun ⟨a, b, c, d⟩ => ⟨⟨a, decide_eq_true b⟩, decide_eq_true ⟨c, d, ?_⟩⟩⟩
    · have c := of_decide_eq_true c
      exact ⟨a, of_decide_eq_true b, c.1, c.2.1⟩
    · have := heights_lt hh x a
      omega
  have nd : ∀ ks : List Nat, ks.Nodup →
      (ks.flatMap fun k => ((farmed chain).filter fun b => b.key = k ∧ since ≤ b.height ∧ b.height < 2 ^ 32 - 1).reverse).Nodup := by
    intro ks
    induction ks with
    | nil => exact fun _ => List.nodup_nil
    | cons k ks ih =>
      intro h
      obtain ⟨h1, h2⟩ := List.nodup_cons.1 h
      rw [List.flatMap_cons]
      refine List.nodup_append.2 ⟨?_, ih h2, ?_⟩
      · exact (List.reverse_perm _).nodup_iff.2 (((pair_nodup hd).sublist List.filter_sublist).sublist List.filter_sublist)
      · intro a ha b hb e
        subst e
        obtain ⟨k', hk', hb⟩ := List.mem_flatMap.1 hb
        exact h1 (((mem _ _).1 ha).2.2.1.symm.trans ((mem _ _).1 hb).2.2.1 ▸ hk')
  refine (List.perm_ext_iff_of_nodup (nd keys hk) ((pair_nodup hd).sublist List.filter_sublist)).2 fun x => ?_
  rw [List.mem_flatMap, List.mem_filter]
  refine ⟨fun ⟨k, hk, hx⟩ => ?_, fun ⟨a, b⟩ => ?_⟩
  · obtain ⟨a, b, c, d⟩ := (mem k x).1 hx
    exact ⟨a, decide_eq_true ⟨b, c ▸ hk, d⟩⟩
  · have b := of_decide_eq_true b
    exact ⟨x.key, b.2.1, (mem _ _).2 ⟨a, b.1, rfl, b.2.2⟩⟩

theorem sumOf_perm {a b : List Blk} (h : a.Perm b) : sumOf a = sumOf b := (h.map _).sum_nat

/-- **C149.** The summary has the number of blocks of the farmers, the height of the newest, the sum of their rewards, and the
    sums by address, if no reward is 2^32 or more. -/
theorem C149_summary_partial {sort : Ranking → Ranking} (ops : List Op) (keys : List Nat) (hk : keys.Nodup) (since : Nat)
    (hlen : (run sort ops).chain.length < 2 ^ 32) (hr : ∀ b ∈ (run sort ops).chain, b.reward < 2 ^ 32) :
    let blocks := ofFarmers (run sort ops).chain keys since
    let t := getSummary (run sort ops).chain keys since
    t.num = blocks.length ∧ t.rewards = sumOf blocks ∧ (∀ a, t.byAddr a = sumOf (blocks.filter fun b => b.addr = a)) ∧
      (∀ b ∈ blocks, b.height ≤ t.last) ∧ (blocks ≠ [] → ∃ b ∈ blocks, b.height = t.last) := by
  have hh := chain_run sort ops
  revert hh hlen hr
  generalize (run sort ops).chain = chain
  intro hlen hr hh
  have p := rows_perm hh hlen hk since
  have hm : ∀ b ∈ ofFarmers chain keys since, b.reward < 2 ^ 32 := fun b hb => hr b (List.mem_filter.1 hb).1
  have hl : (ofFarmers chain keys since).length ≤ chain.length := List.length_filter_le _ _
  have sum_le : ∀ l : List Blk, (∀ b ∈ l, b.reward < 2 ^ 32) → sumOf l ≤ (2 ^ 32 - 1) * l.length := by
    intro l
    induction l with
    | nil => exact fun _ => Nat.le_refl _
    | cons b l ih =>
      intro h
      have := ih fun x hx => h x (List.mem_cons_of_mem _ hx)
      have hb := h b List.mem_cons_self
      show b.reward + sumOf l ≤ (2 ^ 32 - 1) * (l.length + 1)
      omega
  have hs := sum_le _ hm
  obtain ⟨g1, g2, g3, g4, -, g6⟩ := fold_add _ { num := 0, last := 0, rewards := 0, byAddr := fun _ => 0 }
    (fun b hb => hm b (p.mem_iff.1 hb)) (by rw [p.length_eq]; dsimp only; omega)
    (by rw [sumOf_perm p]; dsimp only; omega) (fun _ => Nat.le_refl _)
  dsimp only at g1 g2 g3 g4 g6 ⊢
  unfold getSummary
  refine ⟨by rw [g1, p.length_eq, Nat.zero_add], by rw [g2, sumOf_perm p, Nat.zero_add],
    fun a => by rw [g3, sumOf_perm (p.filter _), Nat.zero_add], fun b hb => g4 b (p.mem_iff.2 hb), fun hne => ?_⟩
  rcases g6 with g | ⟨x, hx, g⟩
  · obtain ⟨b, l, e⟩ := List.exists_cons_of_ne_nil hne
    have hb : b ∈ ofFarmers chain keys since := by rw [e]; exact List.mem_cons_self
    have h0 := (of_decide_eq_true (List.mem_filter.1 hb).2).1
    have := g4 b (p.mem_iff.2 hb)
    omega
  · exact ⟨x, p.mem_iff.1 hx, g⟩

/-! ### concrete cases, and where it is false -/

def ins (e : Nat × Nat) : Ranking → Ranking
  | [] => [e]
  | a :: r => if a.2 < e.2 then e :: a :: r else a :: ins e r

def exSort (r : Ranking) : Ranking := r.foldr ins []

theorem ins_perm (e : Nat × Nat) : ∀ r, (ins e r).Perm (e :: r)
  | [] => List.Perm.refl _
  | a :: r => by
    unfold ins
    by_cases h : a.2 < e.2
    · rw [if_pos h]
    · rw [if_neg h]
      exact ((ins_perm e r).cons a).trans (List.Perm.swap e a r)

theorem ins_sorted (e : Nat × Nat) : ∀ {r : Ranking}, r.Pairwise (fun a b => b.2 ≤ a.2) → (ins e r).Pairwise fun a b => b.2 ≤ a.2
  | [], _ => List.pairwise_singleton _ _
  | a :: r, h => by
    obtain ⟨h1, h2⟩ := List.pairwise_cons.1 h
    unfold ins
    by_cases hl : a.2 < e.2
    · rw [if_pos hl]
      refine List.pairwise_cons.2 ⟨fun x hx => ?_, h⟩
      rcases List.mem_cons.1 hx with hx | hx
      · rw [hx]; omega
      · have := h1 x hx; omega
    · rw [if_neg hl]
      refine List.pairwise_cons.2 ⟨fun x hx => ?_, ins_sorted e h2⟩
      rcases List.mem_cons.1 ((ins_perm e r).mem_iff.1 hx) with hx | hx
      · rw [hx]; omega
      · exact h1 x hx

theorem exSort_sorts : Sorts exSort where
  perm := by
    intro l
    induction l with
    | nil => exact List.Perm.refl _
    | cons e l ih => exact (ins_perm e _).trans (ih.cons e)
  sorted := by
    intro l
    induction l with
    | nil => exact List.Pairwise.nil
    | cons e l ih => exact ins_sorted e ih

/-- A chain with a fork, a failure, a deep revert and a restart. -/
def exOps : List Op :=
  [.apply 1 0 0, .apply 7 5 70, .apply 8 6 80, .apply 8 7 80, .commit 1, .apply 9 1 90, .failed 7 .commit, .failed 7 .early,
   .revert 4, .apply 7 4 71, .apply 8 2 80]

example : (run exSort exOps).ranking = [(8, 3), (7, 2), (9, 0)] ∧ (run exSort (exOps ++ [.restart 4])).ranking = [(8, 2), (7, 1)] ∧
    (∀ o ∈ exOps, o.fine = true) := by decide

example : (getRanking (run exSort exOps) 1) = [(8, 3)] := by decide

example : ∀ k, reported (run exSort exOps).ranking k = minedBy (run exSort exOps).chain k :=
  (C147_ranking_partial exSort_sorts exOps (by decide)).1

/-- **C147.** A farmer whose blocks were all reverted stays in the ranking with zero blocks, until the next deep revert or
    restart. -/
theorem C147_zero : ((9, 0) ∈ (run exSort exOps).ranking ∧ minedBy (run exSort exOps).chain 9 = 0) ∧
    (9, 0) ∉ (run exSort (exOps ++ [.restart 6])).ranking := by decide

/-- **C147.** False when a block cannot be written to the file: it stays counted, although it is not on the chain. -/
theorem C147_failed_write : ∃ ops : List Op, ops = [.apply 1 0 0, .commit 0, .failed 7 .write] ∧
    minedBy (run exSort ops).chain 7 = 0 ∧ reported (run exSort ops).ranking 7 = 1 := ⟨_, rfl, by decide, by decide⟩

def insB (e : Blk) : List Blk → List Blk
  | [] => [e]
  | a :: r => if a.height < e.height then e :: a :: r else a :: insB e r

def exSortB (r : List Blk) : List Blk := r.foldr insB []

theorem insB_perm (e : Blk) : ∀ r, (insB e r).Perm (e :: r)
  | [] => List.Perm.refl _
  | a :: r => by
    unfold insB
    by_cases h : a.height < e.height
    · rw [if_pos h]
    · rw [if_neg h]
      exact ((insB_perm e r).cons a).trans (List.Perm.swap e a r)

theorem insB_sorted (e : Blk) : ∀ {r : List Blk}, r.Pairwise (fun a b => b.height ≤ a.height) →
    (insB e r).Pairwise fun a b => b.height ≤ a.height
  | [], _ => List.pairwise_singleton _ _
  | a :: r, h => by
    obtain ⟨h1, h2⟩ := List.pairwise_cons.1 h
    unfold insB
    by_cases hl : a.height < e.height
    · rw [if_pos hl]
      refine List.pairwise_cons.2 ⟨fun x hx => ?_, h⟩
      rcases List.mem_cons.1 hx with hx | hx
      · rw [hx]; omega
      · have := h1 x hx; omega
    · rw [if_neg hl]
      refine List.pairwise_cons.2 ⟨fun x hx => ?_, insB_sorted e h2⟩
      rcases List.mem_cons.1 ((insB_perm e r).mem_iff.1 hx) with hx | hx
      · rw [hx]; omega
      · exact h1 x hx

theorem exSortB_sorts : SortsBlk exSortB where
  perm := by
    intro l
    induction l with
    | nil => exact List.Perm.refl _
    | cons e l ih => exact (insB_perm e _).trans (ih.cons e)
  sorted := by
    intro l
    induction l with
    | nil => exact List.Pairwise.nil
    | cons e l ih => exact insB_sorted e ih

example : getFarmed exSortB (run exSort exOps).chain [7, 8] 2 2 =
    ((ofFarmers (run exSort exOps).chain [7, 8] 2).take 2).map some :=
  C148_farmed_partial exOps exSortB_sorts [7, 8] (by decide) 2 2 (by decide) (by decide)

example : (getFarmed exSortB (run exSort exOps).chain [7, 8] 2 2).map (Option.map (·.height)) = [some 5, some 4] ∧
    (getFarmed exSortB (run exSort exOps).chain [7, 8] 2 (-1)).map (Option.map (·.height)) = [some 2, some 3, some 4, some 5] := by
  decide

example : (getSummary (run exSort exOps).chain [7, 8] 1).num = 5 ∧ (getSummary (run exSort exOps).chain [7, 8] 1).rewards = 24 ∧
    (getSummary (run exSort exOps).chain [7, 8] 1).byAddr 80 = 15 := by decide

example : (getSummary (run exSort exOps).chain [7, 8] 1).rewards = sumOf (ofFarmers (run exSort exOps).chain [7, 8] 1) :=
  (C149_summary_partial exOps [7, 8] (by decide) 1 (by decide) (by decide)).2.1

/-- **C148.** False for a key that is given twice: its blocks come twice. -/
theorem C148_twice : (getFarmed exSortB (run exSort exOps).chain [7, 7] 2 2).map (Option.map (·.height)) = [some 4, some 4] := by
  decide

/-- **C149.** False for a reward of 2^32 (4294.967296 MMX) or more: it is recorded modulo 2^32. -/
theorem C149_large_reward :
    (getSummary (run exSort [.apply 1 0 0, .apply 7 (2 ^ 32 + 5) 70]).chain [7] 0).rewards = 5 := by decide

end Verif.Index.Farmers
