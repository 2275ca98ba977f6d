/-
  C178: the storage of a contract as of some height.  `chain` and `after` are the specification.
-/
import Verif.Rules.PastState

namespace Verif.Rules.Past

abbrev Writes := List (Cell × Val)

/-- The blocks that count, oldest first: the one at height `h` is at position `h`. -/
def chainStep (ch : List Writes) : Op → List Writes
  | .apply ws => ch ++ [ws]
  | .fail _ => ch
  | .revert h => ch.take h

def chain (ch : List Writes) : List Op → List Writes
  | [] => ch
  | o :: os => chain (chainStep ch o) os

/-- What is in a cell after some blocks: what was written last. -/
def after (bs : List Writes) (k : Cell) : Option Val := (bs.flatten.reverse.find? fun w => decide (w.1 = k)).map (·.2)

/-- The blocks up to and with height `h`. -/
def upTo (ch : List Writes) (h : Nat) : List Writes := ch.take (h + 1)

/-! ### the tables hold the chain -/

def recsFrom : Nat → List Writes → List Rec
  | _, [] => []
  | n, b :: bs => (b.map fun w => ⟨w.1, n, w.2⟩) ++ recsFrom (n + 1) bs

theorem recsFrom_append : ∀ (n : Nat) (a b : List Writes), recsFrom n (a ++ b) = recsFrom n a ++ recsFrom (n + a.length) b
  | n, [], b => by simp [recsFrom]
  | n, x :: a, b => by
    simp only [List.cons_append, recsFrom, List.append_assoc, List.length_cons]
    rw [recsFrom_append (n + 1) a b, show n + 1 + a.length = n + (a.length + 1) by omega]

theorem recsFrom_ver : ∀ (n : Nat) (ch : List Writes) (r : Rec), r ∈ recsFrom n ch → n ≤ r.ver
  | _, [], _, h => absurd h List.not_mem_nil
  | n, b :: bs, r, h => by
    rcases List.mem_append.1 h with h | h
    · obtain ⟨w, _, e⟩ := List.mem_map.1 h
      rw [← e]; exact Nat.le_refl n
    · exact Nat.le_of_succ_le (recsFrom_ver (n + 1) bs r h)

theorem recsFrom_filter : ∀ (n m : Nat) (ch : List Writes),
    (recsFrom n ch).filter (fun r => decide (r.ver < m)) = recsFrom n (ch.take (m - n))
  | n, m, [] => by simp [recsFrom]
  | n, m, b :: bs => by
    by_cases h : n < m
    · rw [show m - n = (m - (n + 1)) + 1 by omega, List.take_succ_cons]
      simp only [recsFrom, List.filter_append]
      rw [recsFrom_filter (n + 1) m bs, List.filter_eq_self.2]
      intro r hr
      obtain ⟨w, _, e⟩ := List.mem_map.1 hr
      rw [← e]; exact decide_eq_true h
    · rw [show m - n = 0 by omega, List.take_zero]
      refine List.filter_eq_nil_iff.2 fun r hr => ?_
      have := recsFrom_ver n (b :: bs) r hr
      simp only [decide_eq_true_eq]; omega

theorem recsFrom_map : ∀ (n : Nat) (ch : List Writes), (recsFrom n ch).map (fun r => (r.cell, r.val)) = ch.flatten
  | _, [] => rfl
  | n, b :: bs => by
    simp only [recsFrom, List.map_append, List.map_map, List.flatten_cons]
    rw [recsFrom_map (n + 1) bs]
    congr 1
    exact List.map_id' b

/-- The tables are those of the blocks that count. -/
def Holds (s : St) (ch : List Writes) : Prop := s.recs = (recsFrom 0 ch).reverse ∧ s.curr = ch.length

theorem revertTo_holds {s : St} {ch : List Writes} (h : Holds s ch) (n : Nat) : Holds (revertTo s n) (ch.take n) := by
  unfold revertTo
  by_cases hn : n > s.curr
  · rw [if_pos hn, List.take_of_length_le (by rw [← h.2]; omega)]; exact h
  · rw [if_neg hn]
    refine ⟨?_, ?_⟩
    · show s.recs.filter _ = _
      rw [h.1, List.filter_reverse, recsFrom_filter]; rfl
    · show n = _
      have := h.2
      rw [List.length_take]; omega

theorem write_holds {s : St} {ch : List Writes} (h : Holds s ch) (ws : Writes) :
    (write s ws).recs = (recsFrom 0 (ch ++ [ws])).reverse := by
  show (ws.map fun w => (⟨w.1, s.curr, w.2⟩ : Rec)).reverse ++ s.recs = _
  rw [recsFrom_append, List.reverse_append, ← h.1, h.2]
  simp [recsFrom]

theorem step_holds {s : St} {ch : List Writes} (h : Holds s ch) (o : Op) : Holds (step s o) (chainStep ch o) := by
  cases o with
  | apply ws =>
    refine ⟨write_holds h ws, ?_⟩
    show s.curr + 1 = _
    rw [h.2]; simp [chainStep]
  | fail ws =>
    show Holds (revertTo (write s ws) s.curr) ch
    unfold revertTo
    rw [if_neg (show ¬ s.curr > (write s ws).curr from Nat.lt_irrefl _)]
    refine ⟨?_, h.2⟩
    show (write s ws).recs.filter _ = _
    rw [write_holds h ws, List.filter_reverse, recsFrom_filter, h.2]
    simp
  | revert n => exact revertTo_holds h n

theorem run_holds : ∀ (os : List Op) {s : St} {ch : List Writes}, Holds s ch → Holds (run s os) (chain ch os)
  | [], _, _, h => h
  | o :: os, _, _, h => run_holds os (step_holds h o)

theorem find_after {s : St} {ch : List Writes} (h : Holds s ch) (k : Cell) (m : Nat) : find s k m = after (upTo ch m) k := by
  unfold find after upTo
  have e1 : (fun r : Rec => decide (r.ver ≤ m) && decide (r.cell = k)) =
      fun r : Rec => decide (decide (r.ver < m + 1) = true ∧ decide (r.cell = k) = true) := by
    funext r
    rw [Bool.eq_iff_iff]
    simp only [Bool.and_eq_true, decide_eq_true_eq, Nat.lt_succ_iff]
  rw [e1, ← List.find?_filter, h.1, List.filter_reverse, recsFrom_filter, ← recsFrom_map 0 (ch.take (m + 1)), ← List.map_reverse,
    List.find?_map, Option.map_map, Nat.sub_zero]
  rfl

/-! ### the answers -/

/-- **C178.** The variable at an address, and the entry of a map or array, as of a height: what blocks up to that height have
    left there, whatever was applied and reverted before, and whatever came after. -/
theorem C178_var (os : List Op) (c a k h : Nat) :
    readVar (run init os) c a h = after (upTo (chain [] os) h) (.mem c a) ∧
      readEntry (run init os) c a k h = after (upTo (chain [] os) h) (.ent c a k) :=
  have hs : Holds (run init os) (chain [] os) := run_holds os ⟨rfl, rfl⟩
  ⟨find_after hs _ _, find_after hs _ _⟩

/-- **C178.** The same by the name of a field. -/
theorem C178_field (q : Code) (os : List Op) {c name a : Nat} (h : Nat) {fs : List (Nat × Nat)} (hf : q.fields c = some fs)
    (hn : (name, a) ∈ fs) (hu : ∀ b, (name, b) ∈ fs → b = a) :
    readField q (run init os) c name h = some (after (upTo (chain [] os) h) (.mem c a), a) := by
  have e : fieldAddr fs name = some a := by
    clear hf
    induction fs with
    | nil => exact absurd hn List.not_mem_nil
    | cons f fs ih =>
      unfold fieldAddr
      by_cases hx : f.1 = name
      · rw [if_pos hx, hu f.2 (by rw [← hx]; exact List.mem_cons_self)]
      · rw [if_neg hx]
        refine ih ?_ (fun b hb => hu b (List.mem_cons_of_mem _ hb))
        rcases List.mem_cons.1 hn with e | hm
        · exact absurd (by rw [← e]) hx
        · exact hm
  unfold readField
  simp only [hf, Option.bind_some, e, (C178_var os c a 0 h).1]

theorem mem_insK (k x : Nat) : ∀ l : List Nat, x ∈ insK k l ↔ x = k ∨ x ∈ l
  | [] => by simp [insK]
  | y :: l => by
    unfold insK
    by_cases h1 : k < y
    · rw [if_pos h1, List.mem_cons]
    · rw [if_neg h1]
      by_cases h2 : k = y
      · rw [if_pos h2, List.mem_cons, h2]
        exact ⟨fun h => .inr h, fun h => h.elim .inl id⟩
      · rw [if_neg h2, List.mem_cons, List.mem_cons, mem_insK k x l]
        exact ⟨fun h => h.elim (fun h => .inr (.inl h)) (fun h => h.elim .inl (fun h => .inr (.inr h))),
          fun h => h.elim (fun h => .inr (.inl h)) (fun h => h.elim .inl (fun h => .inr (.inr h)))⟩

theorem insK_sorted (k : Nat) : ∀ l : List Nat, l.Pairwise (· < ·) → (insK k l).Pairwise (· < ·)
  | [], _ => by simp [insK]
  | y :: l, h => by
    have hc := List.pairwise_cons.1 h
    unfold insK
    by_cases h1 : k < y
    · rw [if_pos h1]
      refine List.pairwise_cons.2 ⟨fun z hz => ?_, h⟩
      rcases List.mem_cons.1 hz with e | hz
      · rw [e]; exact h1
      · exact Nat.lt_trans h1 (hc.1 z hz)
    · rw [if_neg h1]
      by_cases h2 : k = y
      · rw [if_pos h2]; exact h
      · rw [if_neg h2]
        refine List.pairwise_cons.2 ⟨fun z hz => ?_, insK_sorted k l hc.2⟩
        rcases (mem_insK k z l).1 hz with e | hz
        · omega
        · exact hc.1 z hz

theorem entKeys_sorted (c a : Nat) : ∀ l : List Rec, (entKeys c a l).Pairwise (· < ·)
  | [] => List.Pairwise.nil
  | r :: l => by
    unfold entKeys
    cases r.cell with
    | mem _ _ => exact entKeys_sorted c a l
    | idx _ _ => exact entKeys_sorted c a l
    | ent c' a' k =>
      dsimp only
      by_cases h : c' = c ∧ a' = a
      · rw [if_pos h]; exact insK_sorted k _ (entKeys_sorted c a l)
      · rw [if_neg h]; exact entKeys_sorted c a l

theorem mem_entKeys (c a k : Nat) : ∀ l : List Rec, (∃ r ∈ l, r.cell = .ent c a k) → k ∈ entKeys c a l
  | [], h => by obtain ⟨_, h, _⟩ := h; exact absurd h List.not_mem_nil
  | r :: l, h => by
    obtain ⟨r', hm, e⟩ := h
    rcases List.mem_cons.1 hm with q | hm
    · subst q
      unfold entKeys
      simp only [e, and_self, if_true]
      exact (mem_insK k k _).2 (.inl rfl)
    · have ih := mem_entKeys c a k l ⟨r', hm, e⟩
      unfold entKeys
      cases r.cell with
      | mem _ _ => exact ih
      | idx _ _ => exact ih
      | ent c' a' k' =>
        dsimp only
        by_cases h : c' = c ∧ a' = a
        · rw [if_pos h]; exact (mem_insK k' k _).2 (.inr ih)
        · rw [if_neg h]; exact ih

theorem find_some_mem {s : St} {k : Cell} {m : Nat} {v : Val} (h : find s k m = some v) : ∃ r ∈ s.recs, r.cell = k := by
  unfold find at h
  obtain ⟨r, hr, _⟩ := Option.map_eq_some_iff.1 h
  have := List.find?_some hr
  simp only [Bool.and_eq_true, decide_eq_true_eq] at this
  exact ⟨r, List.mem_of_find?_eq_some hr, this.2⟩

theorem mem_findEntries {s : St} {c a h k : Nat} {v : Val} :
    (k, v) ∈ findEntries s c a h ↔ find s (.ent c a k) h = some v := by
  unfold findEntries
  rw [List.mem_filterMap]
  constructor
  · rintro ⟨k', _, e⟩
    obtain ⟨v', e1, e2⟩ := Option.map_eq_some_iff.1 e
    cases e2; exact e1
  · intro e
    exact ⟨k, mem_entKeys c a k _ (find_some_mem e), by rw [e]; rfl⟩

/-- **C178.** An array as of a height: its entries at that height, all of them, in their order, and no others. -/
theorem C178_array (os : List Op) (c a h : Nat) : ∃ l : List (Nat × Val),
    readArray (run init os) c a h = l.map (·.2) ∧ l.Pairwise (fun x y => x.1 < y.1) ∧
      ∀ k v, (k, v) ∈ l ↔ after (upTo (chain [] os) h) (.ent c a k) = some v := by
  refine ⟨findEntries (run init os) c a h, rfl, ?_, fun k v => ?_⟩
  · unfold findEntries
    refine List.Pairwise.filterMap _ ?_ (entKeys_sorted c a _)
    intro x y hxy p hp r hr
    obtain ⟨_, _, e1⟩ := Option.map_eq_some_iff.1 hp
    obtain ⟨_, _, e2⟩ := Option.map_eq_some_iff.1 hr
    rw [← e1, ← e2]; exact hxy
  · rw [mem_findEntries, ← (C178_var os c a k h).2]; rfl

/-! ### maps -/

/-- The key behind an address as of some blocks. -/
def keyAt (q : Code) (bs : List Writes) (c k : Nat) : Option Val :=
  if k < MEM_STATIC then (q.consts c)[k]? else after bs (.mem c k)

/-- Contracts do not change their keys: what an entry has as key stays (`read-only memory`, Engine.cpp:76-78 and 180-186), and
    so does the index. -/
structure Keyed (ch : List Writes) : Prop where
  keys : ∀ n c a k v, after (ch.take n) (.ent c a k) = some v → MEM_STATIC ≤ k →
    ∃ x, after (ch.take n) (.mem c k) = some x ∧ after ch (.mem c k) = some x
  index : ∀ n c v x, after (ch.take n) (.idx c v) = some x → after ch (.idx c v) = some x

theorem latest {s : St} {ch : List Writes} (h : Holds s ch) (hl : ch.length ≤ 2 ^ 32) (k : Cell) : find s k LATEST = after ch k := by
  rw [find_after h]
  unfold upTo LATEST
  rw [List.take_of_length_le (by omega)]

/-- **C178.** A map as of a height: exactly the entries at that height, each with its key. -/
theorem C178_map (q : Code) (os : List Op) (c a h : Nat) (hl : (chain [] os).length ≤ 2 ^ 32) (hk : Keyed (chain [] os))
    (hc : (q.fields c).isSome) (key v : Val) :
    (key, v) ∈ readMap q (run init os) c a h ↔ ∃ k, keyAt q (upTo (chain [] os) h) c k = some key ∧
      after (upTo (chain [] os) h) (.ent c a k) = some v := by
  have hs : Holds (run init os) (chain [] os) := run_holds os ⟨rfl, rfl⟩
  have hr : ∀ k, after (upTo (chain [] os) h) (.ent c a k) = some v →
      engineRead q (run init os) c k = keyAt q (upTo (chain [] os) h) c k := by
    intro k hv
    unfold engineRead keyAt
    by_cases hm : k < MEM_STATIC
    · rw [if_pos hm, if_pos hm]
    · rw [if_neg hm, if_neg hm, latest hs hl]
      obtain ⟨x, e1, e2⟩ := hk.keys _ c a k v hv (by omega)
      rw [e2]; exact e1.symm
  unfold readMap
  obtain ⟨fs, hf⟩ := Option.isSome_iff_exists.1 hc
  simp only [hf]
  rw [List.mem_filterMap]
  constructor
  · rintro ⟨⟨k, w⟩, hm, e⟩
    obtain ⟨x, e1, e2⟩ := Option.map_eq_some_iff.1 e
    cases e2
    have hv := mem_findEntries.1 hm
    rw [find_after hs] at hv
    exact ⟨k, by rw [← hr k hv]; exact e1, hv⟩
  · rintro ⟨k, e1, e2⟩
    refine ⟨(k, v), mem_findEntries.2 (by rw [find_after hs]; exact e2), ?_⟩
    dsimp only
    rw [hr k e2, e1]; rfl

/-- **C178.** An entry by the name of a field and a key that was stored at the height: the entry with that key as of the height.
    Missing: keys that are constants of the contract, see `C178_constant`. -/
theorem C178_entry_partial (q : Code) (os : List Op) {c name a : Nat} (v h : Nat) {fs : List (Nat × Nat)} {x e : Val}
    (hl : (chain [] os).length ≤ 2 ^ 32) (hk : Keyed (chain [] os)) (hf : q.fields c = some fs) (hn : (name, a) ∈ fs)
    (hu : ∀ b, (name, b) ∈ fs → b = a) (hx : after (upTo (chain [] os) h) (.mem c a) = some x)
    (he : after (upTo (chain [] os) h) (.idx c v) = some e) (h0 : e.data ≠ 0) :
    readEntryBy q (run init os) c name v h =
      some (after (upTo (chain [] os) h) (.ent c (x.ref.getD a) e.data), x.ref.getD a, e.data) := by
  have hs : Holds (run init os) (chain [] os) := run_holds os ⟨rfl, rfl⟩
  have hlk : lookup (run init os) c v = e.data := by
    unfold lookup
    rw [latest hs hl, hk.index _ c v e he]; rfl
  unfold readEntryBy
  simp only [C178_field q os h hf hn hu, hx, hlk]
  rw [if_neg h0, (C178_var os c _ _ h).2]

/-! ### all fields of a contract -/

/-- **C178.** All fields of a contract: their values at the tip of the chain, for heights from there on.  Missing: earlier
    heights, see `C178_ignored`. -/
theorem C178_storage_partial (q : Code) (os : List Op) {c : Nat} {h : Nat} {fs : List (Nat × Nat)} (hf : q.fields c = some fs)
    (hl : (chain [] os).length ≤ 2 ^ 32) (hh : (chain [] os).length ≤ h + 1) (name : Nat) (v : Val) :
    (name, v) ∈ readStorage q (run init os) c h ↔ ∃ a, (name, a) ∈ fs ∧ after (upTo (chain [] os) h) (.mem c a) = some v := by
  have hs : Holds (run init os) (chain [] os) := run_holds os ⟨rfl, rfl⟩
  unfold readStorage
  simp only [hf]
  rw [List.mem_filterMap, show upTo (chain [] os) h = chain [] os from List.take_of_length_le hh]
  unfold storageEntry
  constructor
  · rintro ⟨⟨n, a⟩, hm, e⟩
    obtain ⟨w, e1, e2⟩ := Option.map_eq_some_iff.1 e
    cases e2
    exact ⟨a, hm, by rw [← latest hs hl]; exact e1⟩
  · rintro ⟨a, hm, e⟩
    exact ⟨(name, a), hm, by dsimp only; rw [latest hs hl, e]; rfl⟩

/-! ### examples -/

/-- A contract 1 with field 7 at `MEM_STATIC`, and a constant 99 at address 1. -/
def exCode : Code := ⟨fun c => if c = 1 then some [(7, MEM_STATIC)] else none, fun _ => [⟨false, none, 0⟩, ⟨false, none, 99⟩]⟩

def num (n : Nat) : Val := ⟨false, none, n⟩

/-- The field is 10 at height 0 and 20 at height 1. -/
def exOps : List Op := [.apply [(.mem 1 MEM_STATIC, num 10)], .apply [(.mem 1 MEM_STATIC, num 30)], .revert 1,
  .fail [(.mem 1 MEM_STATIC, num 40)], .apply [(.mem 1 MEM_STATIC, num 20)]]

example : readVar (run init exOps) 1 MEM_STATIC 0 = some (num 10) ∧ readVar (run init exOps) 1 MEM_STATIC 1 = some (num 20) ∧
    readField exCode (run init exOps) 1 7 0 = some (some (num 10), MEM_STATIC) := by decide +kernel

/-- **C178, not in general.** Asked for all fields as of an earlier height, the node answers with those of now; asked for the
    one field it answers correctly. -/
theorem C178_ignored : ∃ (q : Code) (os : List Op) (c name h a : Nat) (v w : Val),
    readStorage q (run init os) c h = [(name, v)] ∧ readField q (run init os) c name h = some (some w, a) ∧
      after (upTo (chain [] os) h) (.mem c a) = some w ∧ v ≠ w :=
  ⟨exCode, exOps, 1, 7, 0, MEM_STATIC, num 20, num 10, by decide +kernel⟩

/-- A map at `2^32`, with an entry under the constant 99 and one under a stored key 55. -/
def mapOps : List Op := [.apply [(.mem 1 MEM_STATIC, ⟨false, some (2 ^ 32), 0⟩), (.ent 1 (2 ^ 32) 1, num 5)],
  .apply [(.mem 1 (2 ^ 32 + 1), ⟨true, none, 55⟩), (.idx 1 55, num (2 ^ 32 + 1)), (.ent 1 (2 ^ 32) (2 ^ 32 + 1), num 6)],
  .apply [(.ent 1 (2 ^ 32) 1, num 8), (.ent 1 (2 ^ 32) (2 ^ 32 + 1), num 9)]]

example : readMap exCode (run init mapOps) 1 (2 ^ 32) 0 = [(num 99, num 5)] ∧
    readMap exCode (run init mapOps) 1 (2 ^ 32) 1 = [(num 99, num 5), (⟨true, none, 55⟩, num 6)] ∧
    readArray (run init mapOps) 1 (2 ^ 32) 2 = [num 8, num 9] ∧
    readEntryBy exCode (run init mapOps) 1 7 55 1 = some (some (num 6), 2 ^ 32, 2 ^ 32 + 1) := by decide +kernel

/-- The hypothesis of `C178_map`, by computation. -/
def keyedB (ch : List Writes) : Bool :=
  (List.range (ch.length + 1)).all fun n => ch.flatten.all fun w => match w.1 with
    | .ent c a k => (after (ch.take n) (.ent c a k)).isNone || decide (k < MEM_STATIC) ||
        ((after (ch.take n) (.mem c k)).isSome && decide (after (ch.take n) (.mem c k) = after ch (.mem c k)))
    | .idx c v => (after (ch.take n) (.idx c v)).isNone || decide (after (ch.take n) (.idx c v) = after ch (.idx c v))
    | .mem _ _ => true

theorem keyed_of {ch : List Writes} (h : keyedB ch = true) : Keyed ch := by
  have base : ∀ n k v, after (ch.take n) k = some v → ∃ m ≤ ch.length, ch.take m = ch.take n ∧ ∃ w ∈ ch.flatten, w.1 = k := by
    intro n k v e
    refine ⟨min n ch.length, Nat.min_le_right .., ?_, ?_⟩
    · by_cases hn : n ≤ ch.length
      · rw [Nat.min_eq_left hn]
      · rw [Nat.min_eq_right (by omega), List.take_length, List.take_of_length_le (by omega)]
    · unfold after at e
      obtain ⟨w, hw, _⟩ := Option.map_eq_some_iff.1 e
      have h1 := List.mem_reverse.1 (List.mem_of_find?_eq_some hw)
      have h2 := List.find?_some hw
      obtain ⟨b, hb, hwb⟩ := List.mem_flatten.1 h1
      exact ⟨w, List.mem_flatten.2 ⟨b, List.mem_of_mem_take hb, hwb⟩, of_decide_eq_true h2⟩
  have use : ∀ n k v, after (ch.take n) k = some v → ∃ m, ch.take m = ch.take n ∧ (match k with
      | .ent c a k => (after (ch.take m) (.ent c a k)).isNone || decide (k < MEM_STATIC) ||
        ((after (ch.take m) (.mem c k)).isSome && decide (after (ch.take m) (.mem c k) = after ch (.mem c k)))
      | .idx c v => (after (ch.take m) (.idx c v)).isNone || decide (after (ch.take m) (.idx c v) = after ch (.idx c v))
      | .mem _ _ => true) = true := by
    intro n k v e
    obtain ⟨m, hm, he, w, hw, hk⟩ := base n k v e
    have := List.all_eq_true.1 (List.all_eq_true.1 h m (List.mem_range.2 (by omega))) w hw
    rw [hk] at this
    exact ⟨m, he, this⟩
  constructor
  · intro n c a k v e hk
    obtain ⟨m, he, hb⟩ := use n _ v e
    simp only [he, e] at hb
    simp only [Option.isNone_some, Bool.false_or, Bool.or_eq_true, decide_eq_true_eq, Bool.and_eq_true] at hb
    rcases hb with hb | ⟨h1, h2⟩
    · omega
    · obtain ⟨x, hx⟩ := Option.isSome_iff_exists.1 h1
      exact ⟨x, hx, by rw [← h2]; exact hx⟩
  · intro n c v x e
    obtain ⟨m, he, hb⟩ := use n _ x e
    simp only [he, e] at hb
    simp only [Option.isNone_some, Bool.false_or, decide_eq_true_eq] at hb
    exact hb.symm

/-- Storage begins at address `0x48000000`, right after the last address of the stack. -/
example : engineRead exCode (run init [.apply [(.mem 1 0x48000000, num 3)]]) 1 0x48000000 = some (num 3) ∧
    engineRead exCode (run init [.apply [(.mem 1 0x47ffffff, num 3)]]) 1 0x47ffffff = none := by decide +kernel

example : Keyed (chain [] mapOps) ∧ (chain [] mapOps).length ≤ 2 ^ 32 := ⟨keyed_of (by decide +kernel), by decide +kernel⟩

/-- **C178, not in general.** An entry under a key that is a constant of the contract is in the map, the contract finds it, and
    the node that is asked for it by key says there is none. -/
theorem C178_constant : ∃ (q : Code) (os : List Op) (c name v h a : Nat) (x : Val),
    readEntryBy q (run init os) c name v h = none ∧ (num v, x) ∈ readMap q (run init os) c a h ∧
      readEntry (run init os) c a (engineLookup q (run init os) c v) h = some x :=
  ⟨exCode, mapOps, 1, 7, 99, 2, 2 ^ 32, num 8, by decide +kernel⟩

end Verif.Rules.Past
