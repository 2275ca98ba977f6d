/-
  C182: the balances that a node reports add up.
-/
import Verif.Rules.Balances

namespace Verif.Rules.Balances

/-! ### lemmas -/

/-- The table is in the order of its keys. -/
def Sorted (T : Table) : Prop := T.Pairwise fun x y => keyLt x.1 y.1 = true

theorem keyLt_iff {x y : Key} : keyLt x y = true ↔ x.1 < y.1 ∨ x.1 = y.1 ∧ x.2 < y.2 := by
  unfold keyLt
  simp only [Bool.or_eq_true, Bool.and_eq_true, decide_eq_true_eq]

theorem keyLt_trans {x y z : Key} (h : keyLt x y = true) (h' : keyLt y z = true) : keyLt x z = true := by
  rw [keyLt_iff] at *
  omega

theorem keyLt_ne {x y : Key} (h : keyLt x y = true) : x ≠ y := by
  intro e
  subst e
  rw [keyLt_iff] at h
  omega

theorem dropWhile_sorted (lo : Key) : ∀ T : Table, Sorted T →
    (T.dropWhile fun e => keyLt e.1 lo) = T.filter fun e => !keyLt e.1 lo
  | [], _ => rfl
  | x :: T, h => by
    obtain ⟨h1, h2⟩ := List.pairwise_cons.1 h
    by_cases k : keyLt x.1 lo = true
    · rw [List.dropWhile_cons_of_pos (by exact k), List.filter_cons_of_neg (by simp [k]), dropWhile_sorted lo T h2]
    · rw [List.dropWhile_cons_of_neg (by exact k), List.filter_cons_of_pos (by simp [k])]
      congr 1
      refine (List.filter_eq_self.2 fun y hy => ?_).symm
      have := h1 y hy
      by_cases m : keyLt y.1 lo = true
      · exact absurd (keyLt_trans this m) k
      · simp [m]

theorem takeWhile_sorted (hi : Key) : ∀ T : Table, Sorted T →
    (T.takeWhile fun e => keyLt e.1 hi) = T.filter fun e => keyLt e.1 hi
  | [], _ => rfl
  | x :: T, h => by
    obtain ⟨h1, h2⟩ := List.pairwise_cons.1 h
    by_cases k : keyLt x.1 hi = true
    · rw [List.takeWhile_cons_of_pos (by exact k), List.filter_cons_of_pos (by exact k), takeWhile_sorted hi T h2]
    · rw [List.takeWhile_cons_of_neg (by exact k), List.filter_cons_of_neg (by exact k)]
      refine (List.filter_eq_nil_iff.2 fun y hy m => ?_).symm
      exact k (keyLt_trans (h1 y hy) m)

/-- All entries of an address. -/
def ofAddr (T : Table) (a : Nat) : Table := T.filter fun e => decide (e.1.1 = a) && decide (e.1.2 < ONES)

theorem findRange_eq {T : Table} (h : Sorted T) (a : Nat) (limit : Int) :
    findRange T (a, 0) (a, ONES) limit = cut limit (ofAddr T a) := by
  unfold findRange ofAddr
  rw [dropWhile_sorted _ T h, takeWhile_sorted _ _ (List.Pairwise.filter _ h), List.filter_filter]
  congr 2
  funext e
  rw [Bool.eq_iff_iff]
  simp only [Bool.and_eq_true, Bool.not_eq_true', ← Bool.not_eq_true, keyLt_iff, decide_eq_true_eq]
  omega

/-- What a list of currencies and amounts has of a currency. -/
def amt (l : List (Nat × Nat)) (c : Nat) : Nat := ((l.filter fun e => decide (e.1 = c)).map (·.2)).sum

theorem amt_cons (e : Nat × Nat) (l : List (Nat × Nat)) (c : Nat) : amt (e :: l) c = (if e.1 = c then e.2 else 0) + amt l c := by
  unfold amt
  by_cases h : e.1 = c
  · rw [List.filter_cons_of_pos (by simpa using h), if_pos h]
    simp
  · rw [List.filter_cons_of_neg (by simpa using h), if_neg h]
    simp

theorem amt_append (l l' : List (Nat × Nat)) (c : Nat) : amt (l ++ l') c = amt l c + amt l' c := by
  unfold amt
  rw [List.filter_append, List.map_append, List.sum_append]

theorem foldl_add (c : Nat) : ∀ (l : List (Nat × Nat)) (m : Totals), (∀ x ∈ m c, x < M) →
    l.foldl add m c = if l.any (fun e => decide (e.1 = c)) then some (((m c).getD 0 + amt l c) % M) else m c
  | [], m, _ => rfl
  | e :: l, m, h => by
    rw [List.foldl_cons, List.any_cons, amt_cons]
    by_cases k : e.1 = c
    · have ha : add m e c = some (((m c).getD 0 + e.2) % M) := if_pos k.symm
      rw [foldl_add c l _ (by
        intro x hx
        rw [ha] at hx
        cases hx
        exact Nat.mod_lt _ (by decide)), ha, if_pos k]
      have e1 : (decide (e.1 = c) || l.any fun e => decide (e.1 = c)) = true := by simp [k]
      rw [if_pos e1]
      by_cases p : l.any (fun e => decide (e.1 = c)) = true
      · rw [if_pos p, Option.getD_some, Nat.mod_add_mod, Nat.add_assoc]
      · rw [if_neg p]
        have z : amt l c = 0 := by
          unfold amt
          rw [List.filter_eq_nil_iff.2 fun x hx q => p (List.any_eq_true.2 ⟨x, hx, q⟩)]
          rfl
        rw [z, Nat.add_zero]
    · have ha : add m e c = m c := if_neg fun q => k q.symm
      rw [foldl_add c l _ (by rw [ha]; exact h), ha, if_neg k, Nat.zero_add, decide_eq_false k, Bool.false_or]

theorem totals_flat (T : Table) (wl : List Nat) (limit : Int) : ∀ (as : List Nat) (m : Totals),
    as.foldl (fun m a => (entries T wl limit a).foldl add m) m = (as.flatMap (entries T wl limit)).foldl add m
  | [], m => rfl
  | a :: as, m => by rw [List.foldl_cons, totals_flat T wl limit as, List.flatMap_cons, List.foldl_append]

theorem amt_flat (f : Nat → List (Nat × Nat)) (c : Nat) : ∀ as : List Nat, amt (as.flatMap f) c = (as.map fun a => amt (f a) c).sum
  | [] => rfl
  | a :: as => by rw [List.flatMap_cons, amt_append, amt_flat f c as, List.map_cons, List.sum_cons]

theorem getBalance_cons (e : Key × Nat) (T : Table) (a c : Nat) :
    getBalance (e :: T) a c = if e.1 = (a, c) then e.2 else getBalance T a c := by
  unfold getBalance
  by_cases h : e.1 = (a, c)
  · rw [List.find?_cons_of_pos (by simpa using h), if_pos h]
  · rw [List.find?_cons_of_neg (by simpa using h), if_neg h]

theorem getBalance_none {T : Table} {a c : Nat} (h : ∀ e ∈ T, e.1 ≠ (a, c)) : getBalance T a c = 0 := by
  unfold getBalance
  rw [List.find?_eq_none.2 fun e he => by simpa using h e he]

/-- What a list of entries of the table makes of an address. -/
def shown (L : Table) : List (Nat × Nat) := (L.filter fun e => decide (e.2 ≠ 0)).map fun e => (e.1.2, e.2)

theorem shown_mem {L : Table} {x : Nat × Nat} (h : x ∈ shown L) : ∃ e ∈ L, e.1.2 = x.1 ∧ e.2 = x.2 ∧ x.2 ≠ 0 := by
  obtain ⟨e, he, rfl⟩ := List.mem_map.1 h
  obtain ⟨h1, h2⟩ := List.mem_filter.1 he
  exact ⟨e, h1, rfl, rfl, by simpa using h2⟩

theorem shown_cons (e : Key × Nat) (L : Table) : shown (e :: L) = if e.2 ≠ 0 then (e.1.2, e.2) :: shown L else shown L := by
  unfold shown
  by_cases h : e.2 ≠ 0
  · rw [List.filter_cons_of_pos (by simpa using h), if_pos h, List.map_cons]
  · rw [List.filter_cons_of_neg (by simpa using h), if_neg h]

/-- Entries of one address, each currency once. -/
theorem amt_shown (a c : Nat) : ∀ L : Table, Sorted L → (∀ e ∈ L, e.1.1 = a) → amt (shown L) c = getBalance L a c
  | [], _, _ => rfl
  | e :: L, h, ha => by
    obtain ⟨h1, h2⟩ := List.pairwise_cons.1 h
    have ih := amt_shown a c L h2 fun x hx => ha x (List.mem_cons_of_mem _ hx)
    have ea := ha e (List.mem_cons_self ..)
    rw [getBalance_cons]
    by_cases k : e.1 = (a, c)
    · have z : getBalance L a c = 0 := getBalance_none fun x hx q => keyLt_ne (h1 x hx) (k.trans q.symm)
      rw [if_pos k, shown_cons]
      by_cases n : e.2 ≠ 0
      · rw [if_pos n, amt_cons, if_pos (by rw [k]), ih, z, Nat.add_zero]
      · rw [if_neg n, ih, z]
        omega
    · rw [if_neg k, shown_cons]
      by_cases n : e.2 ≠ 0
      · rw [if_pos n, amt_cons, if_neg (fun q : e.1.2 = c => k (by rw [← ea, ← q])), ih, Nat.zero_add]
      · rw [if_neg n, ih]

theorem getBalance_ofAddr {a c : Nat} (hc : c < ONES) : ∀ T : Table, getBalance (ofAddr T a) a c = getBalance T a c
  | [] => rfl
  | e :: T => by
    have ih := getBalance_ofAddr hc T (a := a)
    rw [getBalance_cons]
    unfold ofAddr at ih ⊢
    by_cases k : (decide (e.1.1 = a) && decide (e.1.2 < ONES)) = true
    · rw [List.filter_cons_of_pos (by exact k), getBalance_cons, ih]
    · rw [List.filter_cons_of_neg (by exact k), ih, if_neg]
      intro q
      rw [q] at k
      exact k (by simp [hc])

theorem ofAddr_sorted {T : Table} (h : Sorted T) (a : Nat) : Sorted (ofAddr T a) := List.Pairwise.filter _ h

theorem ofAddr_mem {T : Table} {a : Nat} {e : Key × Nat} (h : e ∈ ofAddr T a) : e ∈ T ∧ e.1.1 = a ∧ e.1.2 < ONES := by
  obtain ⟨h1, h2⟩ := List.mem_filter.1 h
  simp only [Bool.and_eq_true, decide_eq_true_eq] at h2
  exact ⟨h1, h2.1, h2.2⟩

theorem amt_whitelist (f : Nat → Nat) (c : Nat) : ∀ wl : List Nat, wl.Nodup →
    amt ((wl.filter fun c => decide (f c ≠ 0)).map fun c => (c, f c)) c = if c ∈ wl then f c else 0
  | [], _ => rfl
  | w :: wl, h => by
    obtain ⟨h1, h2⟩ := List.nodup_cons.1 h
    have ih := amt_whitelist f c wl h2
    by_cases e : w = c
    · subst e
      rw [if_neg h1] at ih
      rw [if_pos (List.mem_cons_self ..)]
      by_cases n : f w ≠ 0
      · rw [List.filter_cons_of_pos (by simpa using n), List.map_cons, amt_cons, if_pos rfl, ih, Nat.add_zero]
      · rw [List.filter_cons_of_neg (by simpa using n), ih]
        omega
    · have em : (c ∈ w :: wl) ↔ c ∈ wl := by
        rw [List.mem_cons]
        exact ⟨fun q => q.resolve_left fun z => e z.symm, Or.inr⟩
      simp only [em]
      by_cases n : f w ≠ 0
      · rw [List.filter_cons_of_pos (by simpa using n), List.map_cons, amt_cons, if_neg e, ih, Nat.zero_add]
      · rw [List.filter_cons_of_neg (by simpa using n), ih]

/-- What is asked for: any currency without a whitelist, those in it otherwise. -/
def Asked (wl : List Nat) (c : Nat) : Prop := wl = [] ∨ c ∈ wl

instance (wl : List Nat) (c : Nat) : Decidable (Asked wl c) := inferInstanceAs (Decidable (_ ∨ _))

/-- The limit does not bite: it is negative, or no address has more entries in the table, or there is a whitelist. -/
def Roomy (T : Table) (as wl : List Nat) (limit : Int) : Prop :=
  wl ≠ [] ∨ limit < 0 ∨ ∀ a ∈ as, ((T.filter fun e => decide (e.1.1 = a)).length : Int) ≤ limit

theorem cut_all {T : Table} {as : List Nat} {limit : Int} {a : Nat} (h : Roomy T as [] limit) (ha : a ∈ as) :
    cut limit (ofAddr T a) = ofAddr T a := by
  unfold cut
  by_cases k : limit < 0
  · rw [if_pos k]
  · rw [if_neg k, List.take_of_length_le]
    rcases h with h | h | h
    · exact absurd rfl h
    · exact absurd h k
    · have h1 := h a ha
      have h2 : (ofAddr T a).length ≤ (T.filter fun e => decide (e.1.1 = a)).length := by
        unfold ofAddr
        rw [← List.filter_filter]
        have := List.length_filter_le (fun e : Key × Nat => decide (e.1.1 = a)) (T.filter fun e => decide (e.1.2 < ONES))
        rw [List.filter_filter] at this ⊢
        have e : (T.filter fun e => decide (e.1.1 = a) && decide (e.1.2 < ONES)) =
            ((T.filter fun e => decide (e.1.1 = a)).filter fun e => decide (e.1.2 < ONES)) := by
          rw [List.filter_filter]
          congr 1
          funext e
          rw [Bool.and_comm]
        rw [e]
        exact List.length_filter_le _ _
      omega

theorem entries_amt {T : Table} {as wl : List Nat} {limit : Int} {a c : Nat} (hT : Sorted T) (hw : wl.Nodup) (hr : Roomy T as wl limit)
    (ha : a ∈ as) (hc : c < ONES) : amt (entries T wl limit a) c = if Asked wl c then getBalance T a c else 0 := by
  unfold entries
  cases wl with
  | nil =>
    rw [if_pos List.isEmpty_nil, findRange_eq hT, cut_all hr ha, if_pos (show Asked [] c from Or.inl rfl)]
    exact (amt_shown a c _ (ofAddr_sorted hT a) fun e he => (ofAddr_mem he).2.1).trans (getBalance_ofAddr hc T)
  | cons w wl =>
    rw [if_neg (by simp), amt_whitelist (getBalance T a) c _ hw]
    by_cases m : c ∈ w :: wl
    · rw [if_pos m, if_pos (show Asked (w :: wl) c from Or.inr m)]
    · rw [if_neg m, if_neg (fun q : Asked (w :: wl) c => m (q.resolve_left (by simp)))]

theorem amt_pos {l : List (Nat × Nat)} {c : Nat} (h : ∀ e ∈ l, e.2 ≠ 0) : l.any (fun e => decide (e.1 = c)) = true ↔ amt l c ≠ 0 := by
  induction l with
  | nil => simp [amt]
  | cons e l ih =>
    have i := ih fun x hx => h x (List.mem_cons_of_mem _ hx)
    have n := h e (List.mem_cons_self ..)
    rw [List.any_cons, amt_cons, Bool.or_eq_true, i, decide_eq_true_eq]
    by_cases k : e.1 = c
    · rw [if_pos k]
      omega
    · rw [if_neg k]
      omega

theorem entries_pos {T : Table} {wl : List Nat} {limit : Int} {a : Nat} : ∀ e ∈ entries T wl limit a, e.2 ≠ 0 := by
  intro e he
  unfold entries at he
  by_cases k : wl.isEmpty = true
  · rw [if_pos k] at he
    obtain ⟨-, -, -, -, h⟩ := shown_mem he
    exact h
  · rw [if_neg k] at he
    obtain ⟨c, hc, rfl⟩ := List.mem_map.1 he
    simpa using (List.mem_filter.1 hc).2

theorem mem_asSet {l : List Nat} {a : Nat} : a ∈ asSet l ↔ a ∈ l := by
  unfold asSet
  exact List.mem_eraseDups

/-! ### C182 -/

/-- The balances that the different ones among some addresses have of a currency. -/
def sumOf (T : Table) (as : List Nat) (c : Nat) : Nat := (as.eraseDups.map fun a => getBalance T a c).sum

/-- **C182.** The balance reported for a currency is the sum of the balances of the addresses, each counted once (modulo `2 ^ 128`); a
    currency is reported if and only if one of them has some of it, and it is on the whitelist, if there is one. -/
theorem C182_totals {T : Table} {as wl : List Nat} {limit : Int} {c : Nat} (hT : Sorted T) (hw : wl.Nodup)
    (hr : Roomy T as wl limit) (hc : c < ONES) :
    getTotalBalances T as wl limit c = if Asked wl c ∧ sumOf T as c ≠ 0 then some (sumOf T as c % 2 ^ 128) else none := by
  unfold getTotalBalances
  rw [totals_flat, foldl_add c _ _ (by intro x hx; cases hx)]
  have hp : ∀ e ∈ (asSet as).flatMap (entries T wl limit), e.2 ≠ 0 := fun e he => by
    obtain ⟨a, -, h⟩ := List.mem_flatMap.1 he
    exact entries_pos e h
  have hs : amt ((asSet as).flatMap (entries T wl limit)) c = if Asked wl c then sumOf T as c else 0 := by
    rw [amt_flat]
    have : (asSet as).map (fun a => amt (entries T wl limit a) c) =
        (asSet as).map fun a => if Asked wl c then getBalance T a c else 0 :=
      List.map_congr_left fun a ha => entries_amt hT hw hr (mem_asSet.1 ha) hc
    rw [this]
    unfold sumOf asSet
    by_cases q : Asked wl c
    · simp only [if_pos q]
    · simp only [if_neg q]
      induction as.eraseDups with
      | nil => rfl
      | cons x l ih => rw [List.map_cons, List.sum_cons, ih]
  by_cases q : Asked wl c
  · rw [if_pos q] at hs
    by_cases z : sumOf T as c ≠ 0
    · rw [if_pos ((amt_pos hp).2 (by rw [hs]; exact z)), if_pos ⟨q, z⟩, hs]
      simp only [Option.getD_none, Nat.zero_add]
      rfl
    · rw [if_neg (fun m => z (hs ▸ (amt_pos hp).1 m)), if_neg (fun m => z m.2)]
  · rw [if_neg q] at hs
    rw [if_neg (fun m => (amt_pos hp).1 m hs), if_neg (fun m => q m.1)]

/-- **C182.** The total of one currency. -/
theorem C182_total (T : Table) (as : List Nat) (c : Nat) : getTotalBalance T as c = sumOf T as c % 2 ^ 128 := by
  have key : ∀ (l : List Nat) (n : Nat), l.foldl (fun n a => (n + getBalance T a c) % M) n % M =
      (n + (l.map fun a => getBalance T a c).sum) % M ∧ (n < M → l.foldl (fun n a => (n + getBalance T a c) % M) n < M) := by
    intro l
    induction l with
    | nil => exact fun n => ⟨by rw [List.foldl_nil, List.map_nil, List.sum_nil, Nat.add_zero], fun h => h⟩
    | cons a l ih =>
      intro n
      obtain ⟨i1, i2⟩ := ih ((n + getBalance T a c) % M)
      rw [List.foldl_cons]
      refine ⟨?_, fun _ => i2 (Nat.mod_lt _ (by decide))⟩
      rw [i1, Nat.mod_add_mod, List.map_cons, List.sum_cons, Nat.add_assoc]
  obtain ⟨h1, h2⟩ := key (asSet as) 0
  unfold getTotalBalance
  rw [← Nat.mod_eq_of_lt (h2 (by decide)), h1, Nat.zero_add]
  rfl

/-- **C182.** A contract: all of it is locked or all of it can be spent. -/
theorem C182_contract {T : Table} {wl : List Nat} {limit : Int} {a c : Nat} {locked : Bool} {b : Balance} (hT : Sorted T) (hw : wl.Nodup)
    (hr : Roomy T [a] wl limit) (hc : c < ONES) (hb : ∀ e ∈ T, e.2 < 2 ^ 128)
    (h : getContractBalances T locked a wl limit c = some b) :
    b.total = getBalance T a c ∧ b.locked = (if locked then b.total else 0) ∧ b.spendable = (if locked then 0 else b.total) ∧ b.total ≠ 0 := by
  unfold getContractBalances at h
  rw [C182_totals hT hw hr hc] at h
  have s : sumOf T [a] c = getBalance T a c := by
    unfold sumOf
    rw [List.eraseDups_cons, List.filter_nil, List.eraseDups_nil]
    exact Nat.add_zero _
  have lt : getBalance T a c < 2 ^ 128 := by
    unfold getBalance
    cases k : T.find? fun e => decide (e.1 = (a, c)) with
    | none => exact Nat.two_pow_pos 128
    | some e => exact hb e (List.mem_of_find?_eq_some k)
  by_cases q : Asked wl c ∧ sumOf T [a] c ≠ 0
  · rw [if_pos q] at h
    cases h
    rw [s, Nat.mod_eq_of_lt lt]
    rw [s] at q
    exact ⟨rfl, rfl, rfl, q.2⟩
  · rw [if_neg q] at h
    cases h

/-- **C182.** With a limit, what is reported of one address is still its balance. -/
theorem C182_limited {T : Table} {limit : Int} {a c v : Nat} (hT : Sorted T) (hb : ∀ e ∈ T, e.2 < 2 ^ 128)
    (h : getBalances T a [] limit c = some v) : v = getBalance T a c := by
  unfold getBalances getTotalBalances at h
  rw [totals_flat, foldl_add c _ _ (by intro x hx; cases hx)] at h
  have e1 : (asSet [a]).flatMap (entries T [] limit) = shown (cut limit (ofAddr T a)) := by
    unfold asSet
    rw [List.eraseDups_cons]
    simp only [List.filter_nil, List.eraseDups_nil, List.flatMap_cons, List.flatMap_nil, List.append_nil]
    unfold entries
    rw [if_pos List.isEmpty_nil, findRange_eq hT]
    rfl
  rw [e1] at h
  have sub : (cut limit (ofAddr T a)).Sublist (ofAddr T a) := by
    unfold cut
    by_cases k : limit < 0
    · rw [if_pos k]
      exact List.Sublist.refl _
    · rw [if_neg k]
      exact List.take_sublist _ _
  have so : Sorted (cut limit (ofAddr T a)) := List.Pairwise.sublist sub (ofAddr_sorted hT a)
  by_cases q : (shown (cut limit (ofAddr T a))).any (fun e => decide (e.1 = c)) = true
  · rw [if_pos q, amt_shown a c _ so fun e he => (ofAddr_mem (sub.subset he)).2.1] at h
    obtain ⟨x, hx, hxc⟩ := List.any_eq_true.1 q
    obtain ⟨e, he, k1, -, -⟩ := shown_mem hx
    have hxc : x.1 = c := by simpa using hxc
    have ek : e.1 = (a, c) := by rw [← (ofAddr_mem (sub.subset he)).2.1, ← hxc, ← k1]
    have find : ∀ L : Table, Sorted L → e ∈ L → getBalance L a c = e.2 := by
      intro L
      induction L with
      | nil => exact fun _ m => absurd m List.not_mem_nil
      | cons y L ih =>
        intro hs m
        obtain ⟨h1, h2⟩ := List.pairwise_cons.1 hs
        rw [getBalance_cons]
        rcases List.mem_cons.1 m with rfl | m
        · rw [if_pos ek]
        · rw [if_neg (fun z => keyLt_ne (h1 e m) (z.trans ek.symm)), ih h2 m]
    rw [find _ so he] at h
    rw [find T hT (ofAddr_mem (sub.subset he)).1]
    simp only [Option.getD_none, Nat.zero_add, Option.some.injEq] at h
    rw [← h]
    exact Nat.mod_eq_of_lt (hb e (ofAddr_mem (sub.subset he)).1)
  · rw [if_neg q] at h
    cases h

/-! ### each address on its own -/

theorem foldl_addAll (a : Nat) (k : Key) : ∀ (l : List (Nat × Nat)) (m : Key → Option Nat), (∀ x ∈ m k, x < M) →
    l.foldl (fun m e => addAll m a e) m k =
      if k.1 = a ∧ l.any (fun e => decide (e.1 = k.2)) = true then some (((m k).getD 0 + amt l k.2) % M) else m k
  | [], m, _ => by simp
  | e :: l, m, h => by
    rw [List.foldl_cons, List.any_cons, amt_cons]
    by_cases ka : k = (a, e.1)
    · have ha : addAll m a e k = some (((m k).getD 0 + e.2) % M) := if_pos ka
      have k1 : k.1 = a := by rw [ka]
      have k2 : e.1 = k.2 := by rw [ka]
      rw [foldl_addAll a k l _ (by
        intro x hx
        rw [ha] at hx
        cases hx
        exact Nat.mod_lt _ (by decide)), ha, if_pos k2]
      have e1 : (decide (e.1 = k.2) || l.any fun e => decide (e.1 = k.2)) = true := by simp [k2]
      rw [if_pos (⟨k1, e1⟩ : k.1 = a ∧ _)]
      by_cases p : l.any (fun e => decide (e.1 = k.2)) = true
      · rw [if_pos ⟨k1, p⟩, Option.getD_some, Nat.mod_add_mod, Nat.add_assoc]
      · rw [if_neg (fun z => p z.2)]
        have z : amt l k.2 = 0 := by
          unfold amt
          rw [List.filter_eq_nil_iff.2 fun x hx q => p (List.any_eq_true.2 ⟨x, hx, q⟩)]
          rfl
        rw [z, Nat.add_zero]
    · have ha : addAll m a e k = m k := if_neg ka
      rw [foldl_addAll a k l _ (by rw [ha]; exact h), ha]
      by_cases k1 : k.1 = a
      · have k2 : e.1 ≠ k.2 := fun z => ka (by rw [← k1, z])
        rw [if_neg k2, Nat.zero_add, decide_eq_false k2, Bool.false_or]
      · rw [if_neg (fun z => k1 z.1), if_neg (fun z => k1 z.1)]

theorem nodup_eraseDups : ∀ (n : Nat) (l : List Nat), l.length ≤ n → l.eraseDups.Nodup
  | 0, l, h => by
    rw [List.length_eq_zero_iff.1 (Nat.le_zero.1 h), List.eraseDups_nil]
    exact List.nodup_nil
  | n + 1, [], _ => by
    rw [List.eraseDups_nil]
    exact List.nodup_nil
  | n + 1, a :: l, h => by
    rw [List.eraseDups_cons, List.nodup_cons]
    refine ⟨fun m => ?_, nodup_eraseDups n _ (Nat.le_trans (List.length_filter_le _ _) (Nat.le_of_succ_le_succ h))⟩
    have := (List.mem_filter.1 (List.mem_eraseDups.1 m)).2
    simp at this

theorem all_fold (T : Table) (wl : List Nat) (limit : Int) (k : Key) : ∀ (l : List Nat) (m : Key → Option Nat), l.Nodup → m k = none →
    l.foldl (fun m a => (entries T wl limit a).foldl (fun m e => addAll m a e) m) m k =
      if k.1 ∈ l ∧ (entries T wl limit k.1).any (fun e => decide (e.1 = k.2)) = true then some (amt (entries T wl limit k.1) k.2 % M)
      else none
  | [], m, _, h => by
    rw [List.foldl_nil, if_neg (fun z => absurd z.1 List.not_mem_nil)]
    exact h
  | a :: l, m, hn, h => by
    obtain ⟨h1, h2⟩ := List.nodup_cons.1 hn
    rw [List.foldl_cons]
    have st := foldl_addAll a k (entries T wl limit a) m (by rw [h]; intro x hx; cases hx)
    rw [h] at st
    by_cases q : k.1 = a ∧ (entries T wl limit a).any (fun e => decide (e.1 = k.2)) = true
    · rw [if_pos q, Option.getD_none, Nat.zero_add] at st
      obtain ⟨q1, q2⟩ := q
      rw [if_pos ⟨by rw [q1]; exact List.mem_cons_self .., by rw [q1]; exact q2⟩, q1]
      -- nothing after it touches this key
      have keep : ∀ (l : List Nat) (m : Key → Option Nat) (v : Nat), k.1 ∉ l → m k = some v → v < M →
          l.foldl (fun m a => (entries T wl limit a).foldl (fun m e => addAll m a e) m) m k = some v := by
        intro l
        induction l with
        | nil => exact fun _ _ _ h _ => h
        | cons b l ih =>
          intro m v hb hv hlt
          rw [List.foldl_cons]
          refine ih _ v (fun z => hb (List.mem_cons_of_mem _ z)) ?_ hlt
          rw [foldl_addAll b k _ m (by rw [hv]; intro x hx; cases hx; exact hlt),
            if_neg (fun z => hb (by rw [z.1]; exact List.mem_cons_self ..)), hv]
      exact keep l _ _ (by rw [q1]; exact h1) st (Nat.mod_lt _ (by decide))
    · rw [if_neg q] at st
      rw [all_fold T wl limit k l _ h2 st]
      have e : (k.1 ∈ l ∧ (entries T wl limit k.1).any (fun e => decide (e.1 = k.2)) = true) ↔
          (k.1 ∈ a :: l ∧ (entries T wl limit k.1).any (fun e => decide (e.1 = k.2)) = true) := by
        constructor
        · exact fun z => ⟨List.mem_cons_of_mem _ z.1, z.2⟩
        · rintro ⟨z1, z2⟩
          rcases List.mem_cons.1 z1 with z | z
          · exact absurd ⟨z, by rw [← z]; exact z2⟩ q
          · exact ⟨z, z2⟩
      simp only [e]

/-- **C182.** For each address and currency: its balance, if it has one and it was asked for. -/
theorem C182_all {T : Table} {as wl : List Nat} {limit : Int} {a c : Nat} (hT : Sorted T) (hw : wl.Nodup)
    (hr : Roomy T as wl limit) (hc : c < ONES) (hb : ∀ e ∈ T, e.2 < 2 ^ 128) :
    getAllBalances T as wl limit (a, c) = if a ∈ as ∧ Asked wl c ∧ getBalance T a c ≠ 0 then some (getBalance T a c) else none := by
  unfold getAllBalances
  rw [all_fold T wl limit (a, c) (asSet as) _ (nodup_eraseDups _ as (Nat.le_refl _)) rfl]
  have lt : getBalance T a c < M := by
    unfold getBalance
    cases k : T.find? fun e => decide (e.1 = (a, c)) with
    | none => decide
    | some e => exact hb e (List.mem_of_find?_eq_some k)
  by_cases ha : a ∈ as
  · have am := entries_amt hT hw hr ha hc
    by_cases q : Asked wl c ∧ getBalance T a c ≠ 0
    · rw [if_pos q.1] at am
      rw [if_pos ⟨mem_asSet.2 ha, (amt_pos entries_pos).2 (by dsimp only; rw [am]; exact q.2)⟩, if_pos ⟨ha, q⟩]
      dsimp only
      rw [am, Nat.mod_eq_of_lt lt]
    · rw [if_neg (fun z : a ∈ as ∧ _ => q z.2), if_neg]
      rintro ⟨-, z⟩
      have z := (amt_pos entries_pos).1 z
      dsimp only at z
      rw [am] at z
      by_cases p : Asked wl c
      · rw [if_pos p] at z
        exact q ⟨p, z⟩
      · rw [if_neg p] at z
        exact z rfl
  · rw [if_neg (fun z => ha (mem_asSet.1 z.1)), if_neg (fun z : a ∈ as ∧ _ => ha z.1)]

/-! ### a limit -/

/-- Address 1 has none of currency 3 left and 5 of currency 4, address 2 has 7 of currency 4. -/
def exTable : Table := [((1, 3), 0), ((1, 4), 5), ((2, 4), 7)]

/-- **C182.** That a limit of `n` shows `n` balances, if there are as many, is false: entries for coins that the address has no longer
    count too. -/
theorem C182_limit_hides : ∃ (T : Table) (a c : Nat), Sorted T ∧ getBalance T a c ≠ 0 ∧
    (T.filter fun e => decide (e.1.1 = a) && decide (e.2 ≠ 0)).length ≤ 1 ∧ getBalances T a [] 1 c = none :=
  ⟨exTable, 1, 4, by unfold Sorted exTable; decide, by decide +kernel, by decide +kernel, by decide +kernel⟩

example : Sorted exTable ∧ (∀ e ∈ exTable, e.2 < 2 ^ 128) ∧ Roomy exTable [1, 2, 1] [] (-1) ∧ Roomy exTable [1, 2, 1] [] 2 :=
  ⟨by unfold Sorted exTable; decide, by decide +kernel, Or.inr (Or.inl (by decide)), Or.inr (Or.inr (by decide +kernel))⟩

example : getTotalBalances exTable [1, 2, 1] [] (-1) 4 = some 12 ∧ getTotalBalances exTable [1, 2, 1] [] (-1) 3 = none ∧
    getTotalBalances exTable [1, 2] [3] (-1) 4 = none ∧ getAllBalances exTable [1, 2, 1] [4] 0 (1, 4) = some 5 ∧
    getContractBalances exTable true 1 [] 2 4 = some ⟨0, 5, 5, false⟩ ∧ getTotalBalance exTable [1, 2, 2] 4 = 12 := by decide +kernel

end Verif.Rules.Balances
