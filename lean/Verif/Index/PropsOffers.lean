/-
  C150 and C151: recent offers and trades.
-/
import Verif.Index.Offers

namespace Verif.Index.Offers

theorem keyLt_iff (a b : Nat × Nat) : keyLt a b = true ↔ a.1 < b.1 ∨ (a.1 = b.1 ∧ a.2 < b.2) := by
  unfold keyLt
  rw [Bool.or_eq_true, Bool.and_eq_true, beq_iff_eq, decide_eq_true_eq, decide_eq_true_eq]

theorem keyLt_irrefl (a : Nat × Nat) : ¬ keyLt a a = true := by
  rw [keyLt_iff]; omega

theorem keyLt_trans {a b c : Nat × Nat} (h : keyLt a b = true) (h' : keyLt b c = true) : keyLt a c = true := by
  rw [keyLt_iff] at *; omega

theorem keyLt_height {a b : Row} (h : keyLt a.key b.key = true) : a.height ≤ b.height := by
  rw [keyLt_iff] at h
  unfold Row.key at h
  omega

/-- The rows after the end of a page. -/
theorem after_page {pre suf : List Row} {end_ : Nat × Nat}
    (he : ∀ r ∈ pre, ¬ keyLt r.key end_ = true) (hs : ∀ r ∈ suf, keyLt r.key end_ = true) (n : Nat) :
    lastRange (pre ++ suf) 0 end_ n = suf.take n := by
  unfold lastRange
  rw [List.filter_append, List.filter_eq_nil_iff.2, List.nil_append, List.filter_eq_self.2]
  · intro r hr
    rw [hs r hr]
    rfl
  · intro r hr z
    exact he r hr (Bool.and_eq_true_iff.1 z).1

theorem pages_spec {want : Row → Bool} {limit batch : Nat} (hb : limit ≤ batch) : ∀ (fuel : Nat) (pre suf : List Row) (end_ : Nat × Nat),
    (pre ++ suf).Pairwise (fun a b => keyLt b.key a.key = true) →
    (∀ r ∈ pre, ¬ keyLt r.key end_ = true) → (∀ r ∈ suf, keyLt r.key end_ = true) → suf.length < fuel →
    ∃ a b, pre ++ suf = a ++ b ∧ pages (pre ++ suf) want limit batch fuel end_ (pre.filter want) = some (a.filter want) ∧
      (b = [] ∨ limit ≤ (a.filter want).length)
  | 0, _, _, _, _, _, _, h => absurd h (Nat.not_lt_zero _)
  | fuel + 1, pre, suf, end_, hp, he, hs, hf => by
    unfold pages
    by_cases hl : (pre.filter want).length < limit
    · rw [if_pos hl, after_page he hs]
      cases ht : suf.take batch with
      | nil =>
        have : suf = [] := by
          cases suf with
          | nil => rfl
          | cons x s =>
            cases batch with
            | zero => omega
            | succ n => rw [List.take_succ_cons] at ht; cases ht
        exact ⟨pre, [], by rw [this], rfl, .inl rfl⟩
      | cons e l =>
        dsimp only
        have hsplit : suf = (e :: l) ++ suf.drop batch := by rw [← ht, List.take_append_drop]
        have hd : (suf.drop batch).length < fuel := by
          have := congrArg List.length hsplit
          rw [List.length_append, List.length_cons] at this
          omega
        have eall : pre ++ suf = (pre ++ (e :: l)) ++ suf.drop batch := by
          rw [List.append_assoc, ← hsplit]
        have hp' := hp
        rw [eall] at hp'
        obtain ⟨hp1, hp2, hp3⟩ := List.pairwise_append.1 hp'
        have hlast : (e :: l).getLast (List.cons_ne_nil e l) ∈ e :: l := List.getLast_mem _
        have := pages_spec (want := want) hb fuel (pre ++ (e :: l)) (suf.drop batch)
          ((e :: l).getLast (List.cons_ne_nil e l)).key hp' ?_ ?_ hd
        · rw [← eall, List.filter_append] at this
          exact this
        · intro r hr z
          have hcut : e :: l = (e :: l).dropLast ++ [(e :: l).getLast (List.cons_ne_nil e l)] :=
            (List.dropLast_concat_getLast _).symm
          have hcut' : pre ++ (e :: l) = (pre ++ (e :: l).dropLast) ++ [(e :: l).getLast (List.cons_ne_nil e l)] := by
            rw [List.append_assoc, ← hcut]
          rw [hcut'] at hr hp1
          rcases List.mem_append.1 hr with hr | hr
          · have := (List.pairwise_append.1 hp1).2.2 r hr _ (List.mem_singleton.2 rfl)
            exact keyLt_irrefl _ (keyLt_trans this z)
          · rw [List.mem_singleton.1 hr] at z
            exact keyLt_irrefl _ z
        · intro r hr
          exact hp3 _ (List.mem_append_right _ hlast) r hr
    · rw [if_neg hl]
      exact ⟨pre, suf, rfl, rfl, .inr (by omega)⟩

theorem Index.inRange {rows : List Row} (h : Index rows) : ∀ r ∈ rows, keyLt r.key endOfAll = true := by
  intro r hr
  obtain ⟨h1, h2, h3⟩ := h.below r hr
  have h4 : ¬ (r.key.1 = 2 ^ 32 - 1 ∧ r.key.2 = 2 ^ 32 - 1) := fun e => h3 (Prod.ext e.1 e.2)
  have h5 : r.key.1 < 2 ^ 32 - 1 ∨ (r.key.1 = 2 ^ 32 - 1 ∧ r.key.2 < 2 ^ 32 - 1) := by omega
  simp only [keyLt, endOfAll, Bool.or_eq_true, Bool.and_eq_true, beq_iff_eq]
  exact h5.imp (fun h => decide_eq_true h) (fun h => ⟨h.1, decide_eq_true h.2⟩)

/-- The pages are a part of the rows from the newest on: all of them, or one with enough that are wanted. -/
theorem pages_all {rows : List Row} (h : Index rows) (want : Row → Bool) {limit batch : Nat} (hb : limit ≤ batch) {fuel : Nat}
    (hf : rows.length < fuel) :
    ∃ a b, rows = a ++ b ∧ pages rows want limit batch fuel endOfAll [] = some (a.filter want) ∧
      (b = [] ∨ limit ≤ (a.filter want).length) :=
  pages_spec (want := want) hb fuel [] rows endOfAll h.desc (fun _ hr => absurd hr List.not_mem_nil) h.inRange hf

theorem take_front {rows a b : List Row} {want : Row → Bool} {limit : Nat} (e : rows = a ++ b)
    (h : b = [] ∨ limit ≤ (a.filter want).length) : (rows.filter want).take limit = (a.filter want).take limit := by
  rw [e, List.filter_append]
  rcases h with h | h
  · rw [h, List.filter_nil, List.append_nil]
  · rw [List.take_append_of_le_length h]

theorem take_min (l : List Row) (n : Nat) : l.take (min l.length n) = l.take n := by
  by_cases h : n ≤ l.length
  · rw [Nat.min_eq_right h]
  · rw [Nat.min_eq_left (by omega), List.take_length, List.take_of_length_le (by omega)]

/-- What a limit means: as many, or all if it is negative. -/
def upTo (limit : Int) (l : List Row) : List Row := if 0 ≤ limit then l.take limit.toNat else l

theorem take_size {limit : Int} (hl : -2 ^ 31 ≤ limit ∧ limit < 2 ^ 31) {l : List Row} (h : l.length < 2 ^ 63) :
    l.take (sizeT limit) = upTo limit l := by
  unfold upTo sizeT
  by_cases h0 : 0 ≤ limit
  · rw [if_pos h0]
    congr 1
    omega
  · rw [if_neg h0, List.take_of_length_le]
    omega

/-- **C150.** `get_recent_offers` gives the newest offers that are wanted, newest first, as many as were asked for if there
    are; all of them for a negative limit.  It ends. -/
theorem C150_recent {rows : List Row} (h : Index rows) (want : Row → Bool) (limit : Int) (hl : -2 ^ 31 ≤ limit ∧ limit < 2 ^ 31)
    (hn : rows.length < 2 ^ 63) {fuel : Nat} (hf : rows.length < fuel) :
    recent rows want limit fuel = some (upTo limit (rows.filter want)) := by
  obtain ⟨a, b, e, hp, hb⟩ := pages_all h want (limit := sizeT limit) (Nat.le_max_left _ 100) hf
  unfold recent
  rw [hp]
  dsimp only
  rw [take_min, ← take_front e hb, take_size hl (Nat.lt_of_le_of_lt (List.length_filter_le _ _) hn)]

/-- **C150.** `get_recent_offers_for` gives offers that are wanted, each once, as many as were asked for if there are, sorted by
    height and address; none that is left out is of a greater height than one that is given.  It ends. -/
theorem C150_for {sort : List Row → List Row} (hs : Sorts sort) {rows : List Row} (h : Index rows) (want : Row → Bool)
    (limit : Int) (hl : -2 ^ 31 ≤ limit ∧ limit < 2 ^ 31) (hn : rows.length < 2 ^ 63) {fuel : Nat} (hf : rows.length < fuel) :
    ∃ out, recentFor sort rows want limit fuel = some out ∧
      out.length = (upTo limit (rows.filter want)).length ∧ out.Nodup ∧ (∀ r ∈ out, r ∈ rows ∧ want r = true) ∧
      (out.Pairwise fun a b => b.height < a.height ∨ (b.height = a.height ∧ b.addr ≤ a.addr)) ∧
      ∀ r ∈ rows, want r = true → r ∉ out → ∀ e ∈ out, r.height ≤ e.height := by
  obtain ⟨a, b, e, hp, hb⟩ := pages_all h want (limit := sizeT limit) (Nat.le_refl _) hf
  refine ⟨(sort (a.filter want)).take (sizeT limit), ?_, ?_, ?_, ?_, (hs.sorted _).sublist (List.take_sublist _ _), ?_⟩
  · unfold recentFor
    rw [hp]
    dsimp only
    rw [← (hs.perm (a.filter want)).length_eq, take_min]
  · rw [← take_size hl (Nat.lt_of_le_of_lt (List.length_filter_le _ _) hn), take_front e hb, List.length_take, List.length_take,
      (hs.perm _).length_eq]
  · have hd : a.Nodup := by
      have : rows.Nodup := h.desc.imp fun z y => by rw [y] at z; exact keyLt_irrefl _ z
      rw [e] at this
      exact (List.nodup_append.1 this).1
    exact ((hs.perm _).nodup_iff.2 (hd.sublist List.filter_sublist)).sublist (List.take_sublist _ _)
  · intro r hr
    obtain ⟨h1, h2⟩ := List.mem_filter.1 ((hs.perm _).mem_iff.1 (List.mem_of_mem_take hr))
    exact ⟨by rw [e]; exact List.mem_append_left _ h1, h2⟩
  · intro r hr hw ho x hx
    have hxa := (List.mem_filter.1 ((hs.perm _).mem_iff.1 (List.mem_of_mem_take hx))).1
    rw [e] at hr
    rcases List.mem_append.1 hr with hr | hr
    · have hmem : r ∈ sort (a.filter want) := (hs.perm _).mem_iff.2 (List.mem_filter.2 ⟨hr, hw⟩)
      have hsp := List.take_append_drop (sizeT limit) (sort (a.filter want))
      rw [← hsp] at hmem
      have hd := (List.mem_append.1 hmem).resolve_left ho
      have hsorted := hs.sorted (a.filter want)
      rw [← hsp] at hsorted
      have := (List.pairwise_append.1 hsorted).2.2 x hx r hd
      omega
    · have hp := h.desc
      rw [e] at hp
      exact keyLt_height ((List.pairwise_append.1 hp).2.2 x hxa r hr)

/-- **C151.** `get_trade_history` gives the newest trades from a height on, newest first. -/
theorem C151_trades {log : List Row} (h : Index log) (limit : Int) (hl : -2 ^ 31 ≤ limit ∧ limit < 2 ^ 31) (since : Nat)
    (hn : log.length < 2 ^ 63) : trades log limit since = upTo limit (log.filter fun r => since ≤ r.height) := by
  unfold trades lastRange
  rw [← take_size hl (Nat.lt_of_le_of_lt (List.length_filter_le _ _) hn)]
  congr 1
  refine List.filter_congr fun r hr => ?_
  rw [h.inRange r hr]
  rfl

theorem find_key : ∀ {log : List Row}, log.Pairwise (fun a b => keyLt b.key a.key = true) → ∀ {r : Row}, r ∈ log →
    (log.find? fun e => e.key = r.key) = some r
  | [], _, _, h => absurd h List.not_mem_nil
  | a :: l, hp, r, hr => by
    obtain ⟨h1, h2⟩ := List.pairwise_cons.1 hp
    rw [List.find?_cons]
    rcases List.mem_cons.1 hr with e | hr
    · rw [e, decide_eq_true rfl]
    · have : ¬ a.key = r.key := fun z => by
        have := h1 r hr
        rw [z] at this
        exact keyLt_irrefl _ this
      rw [decide_eq_false this]
      exact find_key h2 hr

/-- **C151.** `get_trade_history_for` gives the newest trades of the coins that are named, if the index holds those. -/
theorem C151_for {log index : List Row} (h : Index log) (pair : Row → Bool) (hi : index = log.filter pair) (limit : Int)
    (hl : -2 ^ 31 ≤ limit ∧ limit < 2 ^ 31) (since : Nat) (hn : log.length < 2 ^ 63) :
    tradesFor log index limit since = upTo limit (log.filter fun r => pair r && since ≤ r.height) := by
  have hidx : Index index := by
    subst hi
    exact ⟨h.desc.sublist List.filter_sublist, fun r hr => h.below r (List.mem_filter.1 hr).1⟩
  have hlen : index.length < 2 ^ 63 := by
    rw [hi]
    exact Nat.lt_of_le_of_lt (List.length_filter_le _ _) hn
  have := C151_trades hidx limit hl since hlen
  unfold trades at this
  unfold tradesFor
  rw [this]
  have e : (index.filter fun r => since ≤ r.height) = log.filter fun r => pair r && since ≤ r.height := by
    rw [hi, List.filter_filter]
    exact List.filter_congr fun r _ => Bool.and_comm _ _
  rw [e]
  have keep : ∀ l : List Row, (∀ r ∈ l, r ∈ log) → l.filterMap (fun r => log.find? fun e => e.key = r.key) = l := by
    intro l
    induction l with
    | nil => exact fun _ => rfl
    | cons x l ih =>
      intro hm
      rw [List.filterMap_cons, find_key h.desc (hm x List.mem_cons_self)]
      dsimp only
      rw [ih fun r hr => hm r (List.mem_cons_of_mem _ hr)]
  refine keep _ fun r hr => ?_
  unfold upTo at hr
  by_cases h0 : 0 ≤ limit
  · rw [if_pos h0] at hr
    exact (List.mem_filter.1 (List.mem_of_mem_take hr)).1
  · rw [if_neg h0] at hr
    exact (List.mem_filter.1 hr).1

/-! ### concrete cases -/

/-- Offers in three blocks; the one with an even address is open. -/
def exRows : List Row := [⟨9, 4, 12⟩, ⟨9, 1, 30⟩, ⟨7, 6, 5⟩, ⟨7, 2, 44⟩, ⟨7, 1, 46⟩, ⟨3, 0, 8⟩]
def exWant (r : Row) : Bool := r.addr % 2 == 0

theorem exRows_index : Index exRows := ⟨by decide, by decide⟩

example : recent exRows exWant 3 7 = some [⟨9, 4, 12⟩, ⟨9, 1, 30⟩, ⟨7, 2, 44⟩] := by decide
example : recent exRows exWant 3 7 = some (upTo 3 (exRows.filter exWant)) :=
  C150_recent exRows_index exWant 3 (by decide) (by decide) (by decide)
example : recent exRows exWant (-1) 7 = some (upTo (-1) (exRows.filter exWant)) :=
  C150_recent exRows_index exWant (-1) (by decide) (by decide) (by decide)

def rowLt (a b : Row) : Bool := a.height < b.height || (a.height == b.height && a.addr < b.addr)

def ins (e : Row) : List Row → List Row
  | [] => [e]
  | a :: r => if rowLt a e then e :: a :: r else a :: ins e r

def exSort (r : List Row) : List Row := r.foldr ins []

theorem rowLt_iff (a b : Row) : rowLt a b = true ↔ a.height < b.height ∨ (a.height = b.height ∧ a.addr < b.addr) := by
  unfold rowLt
  rw [Bool.or_eq_true, Bool.and_eq_true, beq_iff_eq, decide_eq_true_eq, decide_eq_true_eq]

theorem ins_perm (e : Row) : ∀ r, (ins e r).Perm (e :: r)
  | [] => List.Perm.refl _
  | a :: r => by
    unfold ins
    by_cases h : rowLt a e = true
    · rw [if_pos h]
    · rw [if_neg h]
      exact ((ins_perm e r).cons a).trans (List.Perm.swap e a r)

theorem ins_sorted (e : Row) : ∀ {r : List Row},
    r.Pairwise (fun a b => b.height < a.height ∨ (b.height = a.height ∧ b.addr ≤ a.addr)) →
    (ins e r).Pairwise fun a b => b.height < a.height ∨ (b.height = a.height ∧ b.addr ≤ a.addr)
  | [], _ => List.pairwise_singleton _ _
  | a :: r, h => by
    obtain ⟨h1, h2⟩ := List.pairwise_cons.1 h
    unfold ins
    by_cases hl : rowLt a e = true
    · rw [if_pos hl]
      rw [rowLt_iff] at hl
      refine List.pairwise_cons.2 ⟨fun x hx => ?_, h⟩
      rcases List.mem_cons.1 hx with hx | hx
      · rw [hx]; omega
      · have := h1 x hx; omega
    · rw [if_neg hl]
      rw [rowLt_iff] at hl
      refine List.pairwise_cons.2 ⟨fun x hx => ?_, ins_sorted e h2⟩
      rcases List.mem_cons.1 ((ins_perm e r).mem_iff.1 hx) with hx | hx
      · rw [hx]; omega
      · exact h1 x hx

theorem exSort_sorts : Sorts exSort where
  perm := by
    intro l
    induction l with
    | nil => exact List.Perm.refl _
    | cons e l ih => exact (ins_perm e _).trans (ih.cons e)
  sorted := by
    intro l
    induction l with
    | nil => exact List.Pairwise.nil
    | cons e l ih => exact ins_sorted e ih

example : ∃ out, recentFor exSort exRows exWant 3 7 = some out ∧ out.length = 3 :=
  let ⟨out, h, h', _⟩ := C150_for exSort_sorts exRows_index exWant 3 (by decide) (by decide) (by decide)
  ⟨out, h, h'⟩

/-- Within one block the answer depends on the limit: with 1 the later offer is given, with 2 the other one comes first, as
    its address is greater. -/
theorem C150_same_height : recentFor exSort [⟨7, 2, 44⟩, ⟨7, 1, 46⟩] exWant 1 3 = some [⟨7, 2, 44⟩] ∧
    recentFor exSort [⟨7, 2, 44⟩, ⟨7, 1, 46⟩] exWant 2 3 = some [⟨7, 1, 46⟩, ⟨7, 2, 44⟩] := by decide

example : trades exRows 2 7 = upTo 2 (exRows.filter fun r => 7 ≤ r.height) := C151_trades exRows_index 2 (by decide) 7 (by decide)
example : tradesFor exRows (exRows.filter exWant) 3 7 = [⟨9, 4, 12⟩, ⟨9, 1, 30⟩, ⟨7, 2, 44⟩] := by decide
example : tradesFor exRows (exRows.filter exWant) 3 7 = upTo 3 (exRows.filter fun r => exWant r && 7 ≤ r.height) :=
  C151_for exRows_index exWant rfl 3 (by decide) 7 (by decide)

end Verif.Index.Offers
