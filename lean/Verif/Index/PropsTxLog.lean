/-
  C192: the lists of transactions agree with the chain.
-/
import Verif.Index.TxLog

namespace Verif.Index.TxLog

/-! ### lemmas -/

/-- The rows there should be, from a height on. -/
def rows : Nat → List (List Nat) → List (Nat × List Nat)
  | _, [] => []
  | n, b :: l => if b = [] then rows (n + 1) l else (n, b) :: rows (n + 1) l

theorem rows_ge : ∀ (l : List (List Nat)) (n : Nat), ∀ r ∈ rows n l, n ≤ r.1 ∧ r.1 < n + l.length
  | [], _, r, h => nomatch h
  | b :: l, n, r, h => by
    unfold rows at h
    rw [List.length_cons]
    by_cases hb : b = []
    · rw [if_pos hb] at h
      have := rows_ge l (n + 1) r h; omega
    · rw [if_neg hb] at h
      rcases List.mem_cons.1 h with k | k
      · rw [k]; exact ⟨Nat.le_refl n, by dsimp only; omega⟩
      · have := rows_ge l (n + 1) r k; omega

theorem rows_append : ∀ (l : List (List Nat)) (n : Nat) (b : List Nat),
    rows n (l ++ [b]) = rows n l ++ if b = [] then [] else [(n + l.length, b)]
  | [], n, b => by simp only [List.nil_append, rows, List.length_nil, Nat.add_zero]
  | c :: l, n, b => by
    rw [List.cons_append, rows, rows, rows_append l (n + 1) b, List.length_cons, show n + 1 + l.length = n + (l.length + 1) by omega]
    by_cases hc : c = []
    · rw [if_pos hc, if_pos hc]
    · rw [if_neg hc, if_neg hc, List.cons_append]

theorem rows_flat : ∀ (l : List (List Nat)) (n : Nat), (rows n l).flatMap Prod.snd = l.flatten
  | [], _ => rfl
  | b :: l, n => by
    rw [rows, List.flatten_cons]
    by_cases hb : b = []
    · rw [if_pos hb, rows_flat l, hb, List.nil_append]
    · rw [if_neg hb, List.flatMap_cons, rows_flat l]

theorem rows_rev : ∀ (l : List (List Nat)) (n : Nat), (rows n l).reverse.flatMap Prod.snd = l.reverse.flatten
  | [], _ => rfl
  | b :: l, n => by
    rw [rows, List.reverse_cons, List.flatten_append, List.flatten_singleton]
    by_cases hb : b = []
    · rw [if_pos hb, rows_rev l, hb, List.append_nil]
    · rw [if_neg hb, List.reverse_cons, List.flatMap_append, rows_rev l]
      simp

theorem rows_take : ∀ (l : List (List Nat)) (n h : Nat), (rows n l).filter (fun r => decide (r.1 < n + h)) = rows n (l.take h)
  | [], n, h => by simp [rows]
  | b :: l, n, 0 => by
    rw [List.take_zero, rows.eq_1]
    exact List.filter_eq_nil_iff.2 fun r hr => by
      have := rows_ge (b :: l) n r hr
      simp only [decide_eq_true_eq]; omega
  | b :: l, n, h + 1 => by
    have ih := rows_take l (n + 1) h
    rw [show n + 1 + h = n + (h + 1) by omega] at ih
    rw [List.take_succ_cons, rows, rows]
    by_cases hb : b = []
    · rw [if_pos hb, if_pos hb, ih]
    · rw [if_neg hb, if_neg hb, List.filter_cons_of_pos (by simp), ih]

theorem rows_drop : ∀ (l : List (List Nat)) (n h : Nat), (rows n l).filter (fun r => decide (n + h ≤ r.1)) = rows (n + h) (l.drop h)
  | [], n, h => by simp [rows]
  | b :: l, n, 0 => by
    rw [List.drop_zero, Nat.add_zero]
    exact List.filter_eq_self.2 fun r hr => by
      have := rows_ge (b :: l) n r hr
      simp only [decide_eq_true_eq]; omega
  | b :: l, n, h + 1 => by
    have ih := rows_drop l (n + 1) h
    rw [show n + 1 + h = n + (h + 1) by omega] at ih
    rw [List.drop_succ_cons, rows]
    by_cases hb : b = []
    · rw [if_pos hb, ih]
    · rw [if_neg hb, List.filter_cons_of_neg (by simp), ih]

theorem insLog_end {h : Nat} {ids : List Nat} : ∀ {l : List (Nat × List Nat)}, (∀ r ∈ l, r.1 < h) → insLog h ids l = l ++ [(h, ids)]
  | [], _ => rfl
  | r :: l, k => by
    rw [insLog, if_pos (k r (List.mem_cons_self ..)), insLog_end (fun x hx => k x (List.mem_cons_of_mem _ hx)), List.cons_append]

theorem mem_insIndex {x h y k : Nat} {i : List (Nat × Nat)} : (y, k) ∈ insIndex x h i ↔ (y = x ∧ k = h) ∨ (y ≠ x ∧ (y, k) ∈ i) := by
  unfold insIndex
  rw [List.mem_cons, List.mem_filter, Prod.mk.injEq, bne_iff_ne]
  constructor
  · rintro (h | ⟨h1, h2⟩)
    · exact .inl h
    · exact .inr ⟨h2, h1⟩
  · rintro (h | ⟨h1, h2⟩)
    · exact .inl h
    · exact .inr ⟨h2, h1⟩

theorem mem_insAll {h y k : Nat} : ∀ (l : List Nat) (i : List (Nat × Nat)),
    (y, k) ∈ insAll h l i ↔ (y ∈ l ∧ k = h) ∨ (y ∉ l ∧ (y, k) ∈ i)
  | [], i => by simp [insAll]
  | x :: l, i => by
    rw [insAll, mem_insAll l, mem_insIndex, List.mem_cons]
    by_cases h2 : y = x
    · subst h2
      by_cases h1 : y ∈ l <;> simp [h1]
    · by_cases h1 : y ∈ l <;> simp [h1, h2]

theorem fresh_iff {i : List (Nat × Nat)} : ∀ (l seen : List Nat), fresh i seen l = true →
    l.Nodup ∧ ∀ x ∈ l, x ∉ seen ∧ ∀ k, (x, k) ∉ i
  | [], _, _ => ⟨List.nodup_nil, (fun _ k => nomatch k)⟩
  | x :: l, seen, h => by
    unfold fresh at h
    by_cases h1 : x ∈ seen
    · rw [if_pos h1] at h; exact absurd h (by decide)
    · rw [if_neg h1] at h
      by_cases h2 : i.any (fun e => e.1 == x) = true
      · rw [if_pos h2] at h; exact absurd h (by decide)
      · rw [if_neg h2] at h
        obtain ⟨g1, g2⟩ := fresh_iff l _ h
        refine ⟨List.nodup_cons.2 ⟨fun k => (g2 x k).1 (List.mem_cons_self ..), g1⟩, fun y hy => ?_⟩
        rcases List.mem_cons.1 hy with k | k
        · subst k
          exact ⟨h1, fun k hk => h2 (List.any_eq_true.2 ⟨_, hk, beq_self_eq_true _⟩)⟩
        · exact ⟨fun j => (g2 y k).1 (List.mem_cons_of_mem _ j), (g2 y k).2⟩

structure Good (s : State) : Prop where
  log : s.log = rows 0 s.chain
  index : ∀ x h, (x, h) ∈ s.index ↔ ∃ ids, s.chain[h]? = some ids ∧ x ∈ ids
  nodup : s.chain.flatten.Nodup
  uniq : ∀ x h k, (x, h) ∈ s.index → (x, k) ∈ s.index → h = k

theorem good_init : Good init :=
  ⟨rfl, fun x h => by simp [init], List.nodup_nil, (fun _ _ _ k => nomatch k)⟩

theorem good_apply {s : State} {ids : List Nat} (g : Good s) (hf : fresh s.index [] ids = true) : Good (apply s ids) := by
  obtain ⟨f1, f2⟩ := fresh_iff _ _ hf
  have old : ∀ x ∈ s.chain.flatten, x ∉ ids := by
    intro x hx k
    obtain ⟨b, hb, hxb⟩ := List.mem_flatten.1 hx
    obtain ⟨n, hn⟩ := List.mem_iff_getElem?.1 hb
    exact (f2 x k).2 n ((g.index x n).2 ⟨b, hn, hxb⟩)
  refine ⟨?_, fun x h => ?_, ?_, fun x h k h1 h2 => ?_⟩
  · unfold apply
    dsimp only
    rw [rows_append, Nat.zero_add]
    by_cases he : ids = []
    · rw [if_pos he, if_pos he, List.append_nil, g.log]
    · rw [if_neg he, if_neg he, insLog_end (fun r hr => by
        rw [g.log] at hr
        have := rows_ge _ _ r hr; omega), g.log]
  · unfold apply
    dsimp only
    rw [mem_insAll, g.index, List.getElem?_append]
    by_cases hh : h < s.chain.length
    · rw [if_pos hh]
      constructor
      · rintro (⟨-, k⟩ | ⟨-, k⟩)
        · omega
        · exact k
      · rintro ⟨b, k1, k2⟩
        exact .inr ⟨old x (List.mem_flatten.2 ⟨b, List.mem_of_getElem? k1, k2⟩), b, k1, k2⟩
    · rw [if_neg hh]
      have none : s.chain[h]? = none := List.getElem?_eq_none (by omega)
      constructor
      · rintro (⟨k1, k2⟩ | ⟨-, b, k, -⟩)
        · exact ⟨ids, by rw [k2, Nat.sub_self]; rfl, k1⟩
        · rw [none] at k; exact absurd k (by simp)
      · rintro ⟨b, k1, k2⟩
        have hz : h - s.chain.length = 0 := by
          have := (List.getElem?_eq_some_iff.1 k1).1
          simp only [List.length_singleton] at this
          omega
        rw [hz] at k1
        have : ids = b := Option.some.inj k1
        exact .inl ⟨this ▸ k2, by omega⟩
  · unfold apply
    dsimp only
    rw [List.flatten_append, List.flatten_singleton]
    exact List.nodup_append.2 ⟨g.nodup, f1, fun a ha b hb e => old a ha (e ▸ hb)⟩
  · unfold apply at h1 h2
    dsimp only at h1 h2
    rw [mem_insAll] at h1 h2
    rcases h1 with ⟨a1, a2⟩ | ⟨a1, a2⟩
    · rcases h2 with ⟨b1, b2⟩ | ⟨b1, b2⟩
      · rw [a2, b2]
      · exact absurd a1 b1
    · rcases h2 with ⟨b1, b2⟩ | ⟨b1, b2⟩
      · exact absurd b1 a1
      · exact g.uniq x h k a2 b2

theorem good_revert {s : State} (g : Good s) (h : Nat) : Good (revert s h) := by
  refine ⟨?_, fun x k => ?_, ?_, fun x a b h1 h2 => g.uniq x a b (List.mem_filter.1 h1).1 (List.mem_filter.1 h2).1⟩
  · unfold revert
    dsimp only
    have := rows_take s.chain 0 h
    rw [Nat.zero_add] at this
    rw [g.log, this]
  · unfold revert
    dsimp only
    rw [List.mem_filter, g.index, List.getElem?_take, decide_eq_true_eq]
    dsimp only
    by_cases hk : k < h
    · rw [if_pos hk]; simp [hk]
    · rw [if_neg hk]; simp [hk]
  · have k := g.nodup
    rw [← List.take_append_drop h s.chain, List.flatten_append] at k
    exact (List.nodup_append.1 k).1

theorem good_run : ∀ (l : List Event) (s : State), Good s → Good (run s l)
  | [], _, g => g
  | .block ids :: l, s, g => by
    unfold run step
    dsimp only
    by_cases hf : fresh s.index [] ids = true
    · rw [if_pos hf]; exact good_run l _ (good_apply g hf)
    · rw [if_neg hf]; exact good_run l _ g
  | .revert h :: l, s, g => good_run l _ (good_revert g h)

theorem takeRow_eq (limit : Nat) : ∀ (l out : List Nat), out.length ≤ limit →
    (takeRow limit l out).1 = (out ++ l).take limit ∧ ((takeRow limit l out).2 = true ↔ (out ++ l).length < limit)
  | [], out, h => by
    rw [takeRow, List.append_nil, List.take_of_length_le h]
    exact ⟨rfl, decide_eq_true_iff⟩
  | x :: l, out, h => by
    rw [takeRow]
    by_cases hl : out.length < limit
    · rw [if_pos hl]
      have ih := takeRow_eq limit l (out ++ [x]) (by rw [List.length_append, List.length_singleton]; omega)
      rw [List.append_assoc, List.singleton_append] at ih
      exact ih
    · rw [if_neg hl]
      have e : limit = out.length := by omega
      refine ⟨?_, ?_⟩
      · dsimp only
        rw [e, List.take_left]
      · simp only [List.length_append, List.length_cons]
        constructor
        · intro k; exact absurd k (by decide)
        · intro k; omega

theorem scan_eq (limit : Nat) : ∀ (l : List (Nat × List Nat)) (out : List Nat), out.length ≤ limit →
    scan limit l out = (out ++ l.flatMap Prod.snd).take limit
  | [], out, h => by rw [scan, List.flatMap_nil, List.append_nil, List.take_of_length_le h]
  | r :: l, out, h => by
    obtain ⟨h1, h2⟩ := takeRow_eq limit r.2 out h
    rw [scan, List.flatMap_cons, ← List.append_assoc]
    generalize takeRow limit r.2 out = q at h1 h2 ⊢
    obtain ⟨o, b⟩ := q
    dsimp only at h1 h2
    cases b with
    | true =>
      have k := h2.1 rfl
      rw [List.take_of_length_le (Nat.le_of_lt k)] at h1
      dsimp only
      rw [scan_eq limit l o (by rw [h1]; omega), h1]
    | false =>
      have k : ¬ (out ++ r.2).length < limit := fun j => absurd (h2.2 j) (by decide)
      dsimp only
      rw [h1, List.take_append_of_le_length (l₁ := out ++ r.2) (by omega)]

theorem find_row : ∀ (l : List (List Nat)) (n h : Nat),
    ((rows n l).find? (fun r => r.1 == n + h)).map Prod.snd = match l[h]? with | some [] => none | o => o
  | [], n, h => by simp [rows]
  | b :: l, n, 0 => by
    rw [rows]
    by_cases hb : b = []
    · rw [if_pos hb, List.find?_eq_none.2 (fun r hr => by
        have := rows_ge _ _ r hr
        simp only [beq_iff_eq]; omega)]
      simp [hb]
    · rw [if_neg hb]
      cases b with
      | nil => exact absurd rfl hb
      | cons x b => simp
  | b :: l, n, h + 1 => by
    have ih := find_row l (n + 1) h
    rw [show n + 1 + h = n + (h + 1) by omega] at ih
    rw [rows, List.getElem?_cons_succ, ← ih]
    by_cases hb : b = []
    · rw [if_pos hb]
    · rw [if_neg hb, List.find?_cons_of_neg (by simp)]

/-! ### the theorems -/

/-- **C192.** `get_tx_ids` lists the transactions of the current chain, block by block from the newest on, those of a block in their order,
    and no more than `limit`; whatever was reverted before. -/
theorem C192_recent (l : List Event) (limit : Nat) : getIds (run init l) limit = (run init l).chain.reverse.flatten.take limit := by
  unfold getIds
  rw [scan_eq _ _ _ (Nat.zero_le _), (good_run l _ good_init).log, rows_rev, List.nil_append]

/-- **C192.** `get_tx_ids_at` gives the transactions of the block at that height, and none above the peak. -/
theorem C192_at (l : List Event) (h : Nat) :
    (∀ ids, (run init l).chain[h]? = some ids → getIdsAt (run init l) h = ids) ∧
    ((run init l).chain[h]? = none → getIdsAt (run init l) h = []) := by
  have k := find_row (run init l).chain 0 h
  rw [Nat.zero_add, ← (good_run l _ good_init).log] at k
  unfold getIdsAt
  generalize (run init l).log.find? (fun r => r.1 == h) = o at k
  generalize (run init l).chain[h]? = c at k ⊢
  cases o with
  | none =>
    refine ⟨fun ids hc => ?_, fun _ => rfl⟩
    subst hc
    cases ids with
    | nil => rfl
    | cons x ids => exact absurd k (by simp)
  | some r =>
    refine ⟨fun ids hc => ?_, fun hc => ?_⟩
    · subst hc
      cases ids with
      | nil => exact absurd k (by simp)
      | cons x ids => exact Option.some.inj k
    · subst hc
      exact absurd k (by simp)

/-- **C192.** `get_tx_ids_since` gives those of all blocks from that height on, in order. It is what the wallet is given when it looks for
    its transactions. -/
theorem C192_since (l : List Event) (h : Nat) :
    getIdsSince (run init l) h = ((run init l).chain.drop h).flatten ∧
    getIdsSince (run init l) h = Verif.Wallet.idsSince (run init l).chain h := by
  have e : getIdsSince (run init l) h = ((run init l).chain.drop h).flatten := by
    unfold getIdsSince
    have k := rows_drop (run init l).chain 0 h
    rw [Nat.zero_add] at k
    rw [(good_run l _ good_init).log, k, rows_flat]
  exact ⟨e, e⟩

/-- **C192.** `get_tx_height` gives the height of the block that has the transaction, and nothing if no block of the chain has it. -/
theorem C192_height (l : List Event) (x h : Nat) :
    getHeight (run init l) x = some h ↔ ∃ ids, (run init l).chain[h]? = some ids ∧ x ∈ ids := by
  have g := good_run l _ good_init
  rw [← g.index]
  unfold getHeight
  cases hf : (run init l).index.find? (fun e => e.1 == x) with
  | none =>
    have k := List.find?_eq_none.1 hf
    exact ⟨fun j => absurd j (by simp), fun j => absurd (beq_self_eq_true x) (k _ j)⟩
  | some e =>
    have h1 := List.mem_of_find?_eq_some hf
    have h2 : e.1 = x := by simpa using List.find?_some hf
    subst h2
    dsimp only
    exact ⟨fun j => by cases j; exact h1, fun j => by rw [g.uniq _ _ _ h1 j]⟩

/-- **C192.** No transaction is on a chain twice, so it has one height. A block that would add it again is not applied. -/
theorem C192_once (l : List Event) : (run init l).chain.flatten.Nodup ∧
    ∀ ids, (∃ x ∈ ids, x ∈ (run init l).chain.flatten) → step (run init l) (.block ids) = run init l := by
  have g := good_run l _ good_init
  refine ⟨g.nodup, fun ids ⟨x, h1, h2⟩ => ?_⟩
  unfold step
  dsimp only
  by_cases hf : fresh (run init l).index [] ids = true
  · obtain ⟨b, hb, hx⟩ := List.mem_flatten.1 h2
    obtain ⟨n, hn⟩ := List.mem_iff_getElem?.1 hb
    exact absurd ((g.index x n).2 ⟨b, hn, hx⟩) (((fresh_iff _ _ hf).2 x h1).2 n)
  · rw [if_neg hf]

/-- **C192.** Blocks with new transactions, none twice, are applied. -/
theorem C192_applied (l : List Event) (ids : List Nat) (h1 : ids.Nodup) (h2 : ∀ x ∈ ids, x ∉ (run init l).chain.flatten) :
    (step (run init l) (.block ids)).chain = (run init l).chain ++ [ids] := by
  have g := good_run l _ good_init
  have key : ∀ (l' seen : List Nat), l'.Nodup → (∀ x ∈ l', x ∉ seen ∧ ∀ k, (x, k) ∉ (run init l).index) →
      fresh (run init l).index seen l' = true := by
    intro l'
    induction l' with
    | nil => intros; rfl
    | cons x l' ih =>
      intro seen hn hx
      obtain ⟨a, b⟩ := List.nodup_cons.1 hn
      rw [fresh, if_neg (hx x (List.mem_cons_self ..)).1, if_neg]
      · exact ih _ b fun y hy => ⟨fun k => by
          rcases List.mem_cons.1 k with j | j
          · exact a (j ▸ hy)
          · exact (hx y (List.mem_cons_of_mem _ hy)).1 j, (hx y (List.mem_cons_of_mem _ hy)).2⟩
      · intro k
        obtain ⟨⟨y, n⟩, hy, e⟩ := List.any_eq_true.1 k
        have e : y = x := by simpa using e
        subst e
        exact (hx y (List.mem_cons_self ..)).2 n hy
  unfold step
  dsimp only
  rw [if_pos (key ids [] h1 fun x hx => ⟨List.not_mem_nil, fun k hk => by
    obtain ⟨b, hb, hxb⟩ := (g.index x k).1 hk
    exact h2 x hx (List.mem_flatten.2 ⟨b, List.mem_of_getElem? hb, hxb⟩)⟩)]
  rfl

/-! ### examples -/

/-- The second block with 3 is not applied; 5 is reverted, and comes again at another height. -/
def exEvents : List Event := [.block [], .block [1, 2], .block [3], .block [3, 4], .block [5], .revert 3, .block [], .block [5, 6]]

example : (run init exEvents).chain = [[], [1, 2], [3], [], [5, 6]] ∧ getIds (run init exEvents) 3 = [5, 6, 3] ∧
    getIds (run init exEvents) 0 = [] ∧ getIdsAt (run init exEvents) 1 = [1, 2] ∧ getIdsSince (run init exEvents) 2 = [3, 5, 6] ∧
    getHeight (run init exEvents) 5 = some 4 ∧ getHeight (run init exEvents) 4 = none := by decide +kernel

/-- **C192.** When the limit cuts a block, its last transactions are left out, not its first: with the limit 1 the newest is not shown. -/
theorem C192_cut : getIds (run init exEvents) 1 = [5] ∧ (run init exEvents).chain.flatten.getLast? = some 6 := by decide +kernel

end Verif.Index.TxLog
