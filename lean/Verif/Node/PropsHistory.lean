import Verif.Node.HistoryLemmas
/-
  C94 and C95: the history of addresses.

  Specification: `matching` are the entries of the log for the addresses, in the range of heights, that pass
  the filter.  With a limit `n` the answer are the newest blocks that hold at least `n` of them (`Newest`).
-/
namespace Verif.Node.History
open Verif

variable {α : Type}

/-- What there is to find: `set` are the addresses, each once. -/
def matching (log : Nat → List (Row α)) (q : Filter α) (set : List Nat) : List (Out α) :=
  set.flatMap fun a => ((log a).filter fun r => q.since ≤ r.height ∧ r.height ≤ q.until_ ∧ q.keep r.val = true).map Row.out

/-- `out` are the newest entries of `M`, newest first: all if there are less than `n`, and otherwise those
from the greatest height on at or above which there are `n`. -/
structure Newest (n : Nat) (M out : List (Out α)) : Prop where
  order : out.Pairwise fun a b => b.height ≤ a.height
  all : M.length < n → out.Perm M
  some : n ≤ M.length → ∃ c, out.Perm (M.filter fun x => c ≤ x.height) ∧ n ≤ out.length ∧ (M.filter fun x => c < x.height).length < n

variable {log : Nat → List (Row α)} {q : Filter α}

theorem full_eq (hl : LogOk log) (a : Nat) :
    good q (rng (log a) (q.since * 2 ^ 32) (top q)) = (log a).filter fun r => q.since ≤ r.height ∧ r.height ≤ q.until_ ∧ q.keep r.val = true := by
  unfold good rng top
  rw [List.filter_filter]
  refine List.filter_congr fun r hr => ?_
  have := hl.idx a r hr
  rw [Bool.eq_iff_iff]
  simp only [Bool.and_eq_true, decide_eq_true_eq]
  unfold Row.key
  constructor
  · rintro ⟨h1, h2, h3⟩
    exact ⟨by omega, by omega, h1⟩
  · rintro ⟨h1, h2, h3⟩
    exact ⟨h3, by omega, by omega⟩

theorem matching_perm (hl : LogOk log) {addrs set : List Nat} (hn : set.Nodup) (hs : ∀ a, a ∈ set ↔ a ∈ addrs) :
    (matching log q set).Perm (((addrSet addrs).flatMap fun a => good q (rng (log a) (q.since * 2 ^ 32) (top q))).map Row.out) := by
  have hp : set.Perm (addrSet addrs) := (List.perm_ext_iff_of_nodup hn (addrSet_nodup _)).2 fun a => by rw [hs, addrSet_mem]
  unfold matching
  rw [List.map_flatMap]
  have : (fun a => ((log a).filter fun r => q.since ≤ r.height ∧ r.height ≤ q.until_ ∧ q.keep r.val = true).map Row.out) =
      fun a => (good q (rng (log a) (q.since * 2 ^ 32) (top q))).map Row.out := by
    funext a; rw [full_eq hl]
  rw [this]
  exact hp.flatMap_right _

/-- What is found of an address, and what is not, make up all. -/
theorem hit_split (hl : LogOk log) {a lo : Nat} (h1 : q.since * 2 ^ 32 ≤ lo) (h2 : lo ≤ top q) :
    good q (rng (log a) (q.since * 2 ^ 32) (top q)) = good q (rng (log a) lo (top q)) ++ good q (rng (log a) (q.since * 2 ^ 32) lo) := by
  rw [rng_split h1 h2 (hl.desc a), good_append]

theorem flatMap_congr' {β γ : Type} {f g : β → List γ} : ∀ {l : List β}, (∀ x ∈ l, f x = g x) → l.flatMap f = l.flatMap g
  | [], _ => rfl
  | x :: l, h => by
    rw [List.flatMap_cons, List.flatMap_cons, h x (List.mem_cons_self ..), flatMap_congr' fun y hy => h y (List.mem_cons_of_mem _ hy)]

theorem flatMap_append_perm {β γ : Type} {f g : β → List γ} : ∀ {l : List β}, (l.flatMap fun x => f x ++ g x).Perm (l.flatMap f ++ l.flatMap g)
  | [] => .refl _
  | x :: l => by
    rw [List.flatMap_cons, List.flatMap_cons, List.flatMap_cons]
    refine ((flatMap_append_perm (l := l)).append_left _).trans ?_
    rw [List.append_assoc, List.append_assoc]
    refine List.Perm.append_left _ ?_
    rw [← List.append_assoc, ← List.append_assoc]
    exact List.Perm.append_right _ List.perm_append_comm

/-- **C94, nothing wrong.**  Whatever the limits on result and search: the answer holds only entries that
match and pending ones, none more often than it should, newest first. -/
theorem C94_sound {more : Bool} (hl : LogOk log) (hsu : q.since ≤ q.until_) {addrs set : List Nat} (hn : set.Nodup) (hs : ∀ a, a ∈ set ↔ a ∈ addrs)
    {pend out : List (Out α)} (h : IsResult more log q addrs pend out) :
    out.Pairwise (fun a b => b.height ≤ a.height) ∧ ∃ rest, (out ++ rest).Perm (matching log q set ++ pend) := by
  have h := h.ex
  by_cases h0 : q.limit = 0
  · rw [if_pos h0] at h
    rw [h]
    exact ⟨.nil, _, .refl _⟩
  · rw [if_neg h0] at h
    obtain ⟨sorted, hp, hd, rfl⟩ := h
    obtain ⟨hit, f1, f2, _⟩ := found_spec more hl hsu addrs
    have hcut : (cut q.limit sorted).Pairwise (fun a b => b.height ≤ a.height) ∧ ∃ r1, (cut q.limit sorted ++ r1).Perm sorted := by
      unfold cut
      split
      · cases hx : sorted[q.limit.toNat - 1]? with
        | none => exact ⟨hd, [], by rw [List.append_nil]⟩
        | some x =>
          dsimp only
          have e := List.takeWhile_append_dropWhile (p := fun y : Out α => y.height == x.height) (l := sorted.drop (q.limit.toNat - 1))
          have e2 : sorted.take (q.limit.toNat - 1) ++ (sorted.drop (q.limit.toNat - 1)).takeWhile (fun y => y.height == x.height) ++
              (sorted.drop (q.limit.toNat - 1)).dropWhile (fun y => y.height == x.height) = sorted := by
            rw [List.append_assoc, e, List.take_append_drop]
          refine ⟨?_, _, .of_eq e2⟩
          rw [← e2, List.pairwise_append] at hd
          exact hd.1
      · exact ⟨hd, [], by rw [List.append_nil]⟩
    obtain ⟨hc, r1, hr1⟩ := hcut
    refine ⟨hc, ?_⟩
    have hM := matching_perm (q := q) hl hn hs
    have hex : ∃ g : Nat → List (Row α), ∀ a ∈ addrSet addrs, good q (rng (log a) (q.since * 2 ^ 32) (top q)) = hit a ++ g a := by
      refine ⟨fun a => (good q (rng (log a) (q.since * 2 ^ 32) (top q))).drop (hit a).length, fun a ha => ?_⟩
      obtain ⟨lo, l1, l2, l3⟩ := f2 a ha
      dsimp only
      rw [hit_split hl l1 l2, ← l3, List.drop_left]
    obtain ⟨g, hg⟩ := hex
    rw [flatMap_congr' hg] at hM
    have hM2 := hM.trans (flatMap_append_perm.map Row.out)
    rw [List.map_append] at hM2
    refine ⟨r1 ++ ((addrSet addrs).flatMap g).map Row.out, ?_⟩
    rw [← List.append_assoc]
    refine (hr1.append_right _).trans ((hp.append_right _).trans ?_)
    refine ((((f1.map Row.out).append_right _).append_right _)).trans ?_
    refine List.Perm.trans ?_ (hM2.symm.append_right _)
    rw [List.append_assoc, List.append_assoc]
    exact List.Perm.append_left _ List.perm_append_comm

/-- All of an address is found if its search did not stop at the limit. -/
theorem hit_full (hl : LogOk log) {more : Bool} {a lo : Nat} {hit : List (Row α)} (h : Ended more log q a hit lo) (hlt : hit.length < q.lim) :
    hit = good q (rng (log a) (q.since * 2 ^ 32) (top q)) := by
  rw [hit_split hl h.ge h.le, ← h.eq]
  rcases h.why with z | z
  · omega
  · rw [z]; exact (List.append_nil _).symm

theorem length_part {β : Type} {hit : Nat → List β} : ∀ {l : List Nat} {a : Nat}, a ∈ l → (hit a).length ≤ (l.flatMap hit).length
  | x :: l, a, h => by
    rw [List.flatMap_cons, List.length_append]
    rcases List.mem_cons.1 h with rfl | h
    · omega
    · have := length_part (hit := hit) h; omega

/-- **C94, without limit everything is found.**  Each entry that matches once, and the pending ones, newest first.
So it is for queries with a memo too. -/
theorem C94_all {more : Bool} (hl : LogOk log) (hsu : q.since ≤ q.until_) {addrs set : List Nat} (hn : set.Nodup) (hs : ∀ a, a ∈ set ↔ a ∈ addrs)
    {pend out : List (Out α)} (hm : q.maxSearch = none) (hlim : -(2 ^ 31) ≤ q.limit ∧ q.limit < 0) (hrows : ∀ a, (log a).length < 2 ^ 31)
    (h : IsResult more log q addrs pend out) : out.Pairwise (fun a b => b.height ≤ a.height) ∧ out.Perm (matching log q set ++ pend) := by
  refine ⟨(C94_sound hl hsu hn hs h).1, ?_⟩
  have h := h.ex
  rw [if_neg (by omega)] at h
  obtain ⟨sorted, hp, hd, rfl⟩ := h
  obtain ⟨hit, f1, f2, f3⟩ := found_spec more hl hsu addrs
  have hL : 2 ^ 31 ≤ q.lim := by unfold Filter.lim; omega
  have hall : ∀ a ∈ addrSet addrs, hit a = good q (rng (log a) (q.since * 2 ^ 32) (top q)) := by
    intro a ha
    obtain ⟨lo, he⟩ := f3 hm a ha
    refine hit_full hl he ?_
    have h1 : (hit a).length ≤ (log a).length := by
      rw [he.eq]
      exact Nat.le_trans (List.length_filter_le _ _) (List.length_filter_le _ _)
    have := hrows a
    omega
  unfold cut
  rw [if_neg (by omega)]
  refine hp.trans (List.Perm.append_right _ ?_)
  refine (f1.map Row.out).trans ?_
  rw [flatMap_congr' hall]
  exact (matching_perm hl hn hs).symm

/-- **C94.**  With a limit `get_history` gives the newest entries, complete down to the block in which the limit
is reached. -/
theorem C94_history (hl : LogOk log) (hsu : q.since ≤ q.until_) {addrs set : List Nat} (hn : set.Nodup) (hs : ∀ a, a ∈ set ↔ a ∈ addrs)
    {pend out : List (Out α)} (hm : q.maxSearch = none) (hlim : 0 < q.limit ∧ q.limit < 2 ^ 31)
    (h : IsResult true log q addrs pend out) : Newest q.limit.toNat (matching log q set ++ pend) out := by
  have hord := (C94_sound hl hsu hn hs h).1
  have h := h.ex
  rw [if_neg (by omega)] at h
  obtain ⟨sorted, hp, hd, rfl⟩ := h
  obtain ⟨hit, f1, f2, f3⟩ := found_spec true hl hsu addrs
  have hL : q.lim = q.limit.toNat := by unfold Filter.lim; omega
  have hM := matching_perm (q := q) hl hn hs
  have hp' : sorted.Perm (((addrSet addrs).flatMap hit).map Row.out ++ pend) := hp.trans ((f1.map Row.out).append_right _)
  by_cases hlt : sorted.length < q.limit.toNat
  · -- nothing stopped at the limit
    have hall : ∀ a ∈ addrSet addrs, hit a = good q (rng (log a) (q.since * 2 ^ 32) (top q)) := by
      intro a ha
      obtain ⟨lo, he⟩ := f3 hm a ha
      refine hit_full hl he ?_
      have h1 := length_part (hit := hit) ha
      have h2 := hp'.length_eq
      rw [List.length_append, List.length_map] at h2
      omega
    have hsM : sorted.Perm (matching log q set ++ pend) := by
      refine hp'.trans (List.Perm.append_right _ ?_)
      rw [flatMap_congr' hall]
      exact hM.symm
    have hc : cut q.limit sorted = sorted := by unfold cut; rw [if_neg (by omega)]
    rw [hc] at hord ⊢
    exact ⟨hord, fun _ => hsM, fun hle => by have := hsM.length_eq; omega⟩
  · obtain ⟨c, c1, c2, c3⟩ := cut_spec hd hlim.1 (Nat.le_of_not_lt hlt)
    -- at and above the cut nothing is missing
    have hsame : ∀ a ∈ addrSet addrs, ((hit a).map Row.out).filter (fun x => c ≤ x.height) = ((good q (rng (log a) (q.since * 2 ^ 32) (top q))).map Row.out).filter fun x => c ≤ x.height := by
      intro a ha
      obtain ⟨lo, he⟩ := f3 hm a ha
      by_cases hf : (hit a).length < q.lim
      · rw [← hit_full hl he hf]
      · obtain ⟨H, hH⟩ := he.block rfl
        have hge : ∀ r ∈ hit a, H ≤ r.height := by
          intro r hr
          rw [he.eq] at hr
          obtain ⟨g1, g2, _⟩ := mem_rng.1 (List.mem_filter.1 hr).1
          have := hl.idx a r g1
          unfold Row.key at g2
          omega
        have hcH : H ≤ c := by
          by_cases hcH : H ≤ c
          · exact hcH
          · exfalso
            have e1 : ((hit a).map Row.out).filter (fun x => c < x.height) = (hit a).map Row.out := List.filter_eq_self.2 fun x hx => by
              obtain ⟨r, hr, rfl⟩ := List.mem_map.1 hx
              have := hge r hr
              simp only [decide_eq_true_eq]
              show c < r.height
              omega
            have e2 : (((hit a).map Row.out).filter fun x => c < x.height).length ≤ (sorted.filter fun x => c < x.height).length := by
              rw [(hp'.filter _).length_eq, List.filter_append, List.length_append, List.map_flatMap, List.filter_flatMap]
              have := length_part (hit := fun a => ((hit a).map Row.out).filter fun x => decide (c < x.height)) ha
              omega
            rw [e1, List.length_map] at e2
            omega
        have hz : ((good q (rng (log a) (q.since * 2 ^ 32) lo)).map Row.out).filter (fun x => decide (c ≤ x.height)) = [] := by
          refine List.filter_eq_nil_iff.2 fun x hx => ?_
          obtain ⟨r, hr, rfl⟩ := List.mem_map.1 hx
          obtain ⟨g1, _, g2⟩ := mem_rng.1 (List.mem_filter.1 hr).1
          unfold Row.key at g2
          simp only [decide_eq_true_eq]
          show ¬ c ≤ r.height
          omega
        rw [hit_split hl he.ge he.le, ← he.eq, List.map_append, List.filter_append, hz, List.append_nil]
    have hfil : (sorted.filter fun x => c ≤ x.height).Perm ((matching log q set ++ pend).filter fun x => c ≤ x.height) := by
      refine (hp'.filter _).trans (List.Perm.trans ?_ ((hM.append_right pend).filter _).symm)
      rw [List.filter_append, List.filter_append, List.map_flatMap, List.map_flatMap, List.filter_flatMap, List.filter_flatMap, flatMap_congr' hsame]
    have hgt : ∀ l : List (Out α), (l.filter fun x => c ≤ x.height).filter (fun x => c < x.height) = l.filter fun x => c < x.height := by
      intro l
      rw [List.filter_filter]
      refine List.filter_congr fun x _ => ?_
      rw [Bool.eq_iff_iff]
      simp only [Bool.and_eq_true, decide_eq_true_eq]
      omega
    refine ⟨hord, fun hlt' => ?_, fun _ => ⟨c, c1 ▸ hfil, c2, ?_⟩⟩
    · exfalso
      have h1 := (c1 ▸ hfil : (cut q.limit sorted).Perm _).length_eq
      have h2 := List.length_filter_le (fun x : Out α => decide (c ≤ x.height)) (matching log q set ++ pend)
      omega
    · rw [← hgt, ← (hfil.filter _).length_eq, hgt]
      exact c3

/-! ### What is false -/

/-- 101 entries in one block. -/
def bigBlock : Nat → List (Row Nat) := fun a => if a = 1 then (List.range 101).reverse.map fun i => ⟨1, 5, i, i⟩ else []

def limited : Filter Nat := ⟨0, 2 ^ 32 - 1, 100, none, fun _ => true⟩

theorem bigBlock_ok : LogOk bigBlock := by
  refine ⟨fun a => ?_, fun a r hr => ?_, fun a r hr => ?_⟩ <;> unfold bigBlock at * <;> by_cases h : a = 1
  · rw [if_pos h]; unfold Desc; decide +kernel
  · rw [if_neg h]; exact .nil
  · subst h
    rw [if_pos rfl] at hr
    obtain ⟨i, _, rfl⟩ := List.mem_map.1 hr; rfl
  · rw [if_neg h] at hr; cases hr
  · subst h
    rw [if_pos rfl] at hr
    obtain ⟨i, hi, rfl⟩ := List.mem_map.1 hr
    rw [List.mem_reverse, List.mem_range] at hi
    show i < _
    omega
  · rw [if_neg h] at hr; cases hr

/-- **C94 is false with a memo.**  `get_history_memo` does not look for the remaining entries of the last block:
with a limit of 100 it gives 100 of the 101 entries of a block, and the last one can be reached by no query
that goes on below. -/
theorem C94_memo_incomplete : ∃ out, IsResult false bigBlock limited [1] [] out ∧ ¬ Newest limited.limit.toNat (matching bigBlock limited [1]) out := by
  refine ⟨cut 100 ((found false bigBlock limited [1]).map Row.out), ⟨?_⟩, ?_⟩
  · rw [if_neg (by decide)]
    exact ⟨_, .of_eq (List.append_nil _).symm, by decide +kernel, rfl⟩
  · intro h
    obtain ⟨c, h1, h2, h3⟩ := h.some (by decide +kernel)
    have hlen := h1.length_eq
    have e : (cut 100 ((found false bigBlock limited [1]).map Row.out)).length = 100 := by decide +kernel
    rw [e] at hlen
    by_cases hc : c ≤ 5
    · have : (matching bigBlock limited [1]).filter (fun x => c ≤ x.height) = matching bigBlock limited [1] := List.filter_eq_self.2 fun x hx => by
        have : ∀ x ∈ matching bigBlock limited [1], x.height = 5 := by decide +kernel
        simp only [decide_eq_true_eq]; rw [this x hx]; exact hc
      rw [this] at hlen
      exact absurd hlen (by decide +kernel)
    · have : (matching bigBlock limited [1]).filter (fun x => c ≤ x.height) = [] := List.filter_eq_nil_iff.2 fun x hx => by
        have : ∀ x ∈ matching bigBlock limited [1], x.height = 5 := by decide +kernel
        simp only [decide_eq_true_eq]; rw [this x hx]; exact hc
      rw [this] at hlen
      cases hlen

/-- The same query without memo gives all 101. -/
example : (cut 100 ((found true bigBlock limited [1]).map Row.out)).length = 101 := by decide +kernel

/-- The hypotheses of `C94_history` hold of it. -/
example : LogOk bigBlock ∧ limited.since ≤ limited.until_ ∧ limited.maxSearch = none ∧ 0 < limited.limit ∧ limited.limit < 2 ^ 31 :=
  ⟨bigBlock_ok, by decide, rfl, by decide, by decide⟩

/-- With a range that is empty because it begins after its end, the block at its end is given nevertheless. -/
theorem C94_empty_range : ∃ (log : Nat → List (Row Nat)) (q : Filter Nat), LogOk log ∧ q.since > q.until_ ∧ (∃ out, IsResult true log q [1] [] out ∧ out ≠ []) := by
  refine ⟨bigBlock, ⟨6, 5, -1, none, fun _ => true⟩, bigBlock_ok, by decide, (found true bigBlock ⟨6, 5, -1, none, fun _ => true⟩ [1]).map Row.out, ⟨?_⟩, ?_⟩
  · rw [if_neg (by decide)]
    refine ⟨_, .of_eq (List.append_nil _).symm, by decide +kernel, rfl⟩
  · decide +kernel

/-! ### C95: pending entries -/

/-- What is pending for a set of addresses: of each pending transaction the inputs and outputs with one of the
addresses. -/
def pendingSpec (pool : List (Pend α)) (set : List Nat) : List (Out α) :=
  pool.flatMap fun t => (t.ios.filter fun x => x.1 ∈ set).map fun x => { height := 2 ^ 32 - 1, addr := x.1, val := x.2, pending := true }

/-- What one transaction shows. -/
def shown (set : List Nat) (t : Pend α) : List (Out α) :=
  (t.ios.filter fun x => x.1 ∈ set).map fun x => { height := 2 ^ 32 - 1, addr := x.1, val := x.2, pending := true }

theorem shown_congr {set addrs : List Nat} (hs : ∀ a, a ∈ set ↔ a ∈ addrs) (t : Pend α) : shown (addrSet addrs) t = shown set t := by
  unfold shown
  congr 1
  refine List.filter_congr fun x _ => ?_
  rw [Bool.eq_iff_iff, decide_eq_true_eq, decide_eq_true_eq, addrSet_mem, hs]

/-- **C95, what is shown.**  The pending part shows exactly the inputs and outputs of pending transactions with one
of the addresses, though it may show them several times. -/
theorem C95_shown (pool : List (Pend α)) {addrs set : List Nat} (hs : ∀ a, a ∈ set ↔ a ∈ addrs) (x : Out α) :
    x ∈ pendingOf pool addrs ↔ x ∈ pendingSpec pool set := by
  unfold pendingOf pendingSpec
  rw [List.mem_flatMap, List.mem_flatMap]
  constructor
  · rintro ⟨a, _, hx⟩
    obtain ⟨t, ht, hx⟩ := List.mem_flatMap.1 hx
    refine ⟨t, (List.mem_filter.1 ht).1, ?_⟩
    have := shown_congr hs t
    unfold shown at this
    rw [← this]; exact hx
  · rintro ⟨t, ht, hx⟩
    obtain ⟨y, hy, rfl⟩ := List.mem_map.1 hx
    obtain ⟨hy1, hy2⟩ := List.mem_filter.1 hy
    have hy2 : y.1 ∈ set := by simpa using hy2
    refine ⟨y.1, addrSet_mem.2 ((hs _).1 hy2), List.mem_flatMap.2 ⟨t, List.mem_filter.2 ⟨ht, ?_⟩, ?_⟩⟩
    · exact decide_eq_true (List.mem_map.2 ⟨y, hy1, rfl⟩)
    · exact List.mem_map.2 ⟨y, List.mem_filter.2 ⟨hy1, decide_eq_true (addrSet_mem.2 ((hs _).1 hy2))⟩, rfl⟩

theorem one_of {β : Type} {F : List β} {P : Nat → Prop} [DecidablePred P] : ∀ {l : List Nat} {a : Nat}, l.Nodup → a ∈ l → P a → (∀ b ∈ l, P b → b = a) →
    (l.flatMap fun b => if P b then F else []) = F
  | x :: l, a, hn, ha, hp, hu => by
    rw [List.nodup_cons] at hn
    rw [List.flatMap_cons]
    have none_of : ∀ m : List Nat, (∀ b ∈ m, ¬ P b) → (m.flatMap fun b => if P b then F else []) = [] := by
      intro m hm
      rw [List.flatMap_eq_nil_iff]
      exact fun b hb => if_neg (hm b hb)
    rcases List.mem_cons.1 ha with rfl | ha
    · rw [if_pos hp, none_of l fun b hb hP => hn.1 (hu b (List.mem_cons_of_mem _ hb) hP ▸ hb), List.append_nil]
    · have : ¬ P x := fun hP => hn.1 (hu x (List.mem_cons_self ..) hP ▸ ha)
      rw [if_neg this]
      exact one_of hn.2 ha hp fun b hb => hu b (List.mem_cons_of_mem _ hb)

/-- **C95.**  If no pending transaction concerns two of the addresses, each is shown once; so it is for a
query with one address. -/
theorem C95_once_partial {addrs set : List Nat} (hs : ∀ a, a ∈ set ↔ a ∈ addrs) : ∀ {pool : List (Pend α)},
    (∀ t ∈ pool, ∀ x ∈ t.ios, ∀ y ∈ t.ios, x.1 ∈ set → y.1 ∈ set → x.1 = y.1) → (pendingOf pool addrs).Perm (pendingSpec pool set)
  | [], _ => by
    unfold pendingOf pendingSpec
    rw [show (fun (a : Nat) => (([] : List (Pend α)).filter fun t => a ∈ t.ios.map (·.1)).flatMap fun t =>
      (t.ios.filter fun x => x.1 ∈ addrSet addrs).map fun x => ({ height := 2 ^ 32 - 1, addr := x.1, val := x.2, pending := true } : Out α)) = fun _ => [] from rfl]
    rw [List.flatMap_eq_nil_iff.2 fun _ _ => rfl]
    exact .refl _
  | t :: pool, h => by
    have ih := C95_once_partial hs (pool := pool) fun t' ht' => h t' (List.mem_cons_of_mem _ ht')
    have ht := h t (List.mem_cons_self ..)
    have e : pendingOf (t :: pool) addrs = (addrSet addrs).flatMap fun a => (if a ∈ t.ios.map (·.1) then shown (addrSet addrs) t else []) ++
        (pool.filter fun t => a ∈ t.ios.map (·.1)).flatMap (shown (addrSet addrs)) := by
      unfold pendingOf
      refine flatMap_congr' fun a _ => ?_
      by_cases ha : a ∈ t.ios.map (·.1)
      · rw [List.filter_cons_of_pos (by simpa using ha), List.flatMap_cons, if_pos ha]; rfl
      · rw [List.filter_cons_of_neg (by simpa using ha), if_neg ha]; rfl
    rw [e]
    refine flatMap_append_perm.trans ?_
    have e2 : pendingSpec (t :: pool) set = shown set t ++ pendingSpec pool set := rfl
    rw [e2]
    refine List.Perm.append ?_ ih
    rw [← shown_congr hs]
    by_cases hne : ∃ x ∈ t.ios, x.1 ∈ set
    · obtain ⟨x, hx, hxs⟩ := hne
      rw [one_of (P := fun a => a ∈ t.ios.map (·.1)) (addrSet_nodup addrs) (addrSet_mem.2 ((hs _).1 hxs)) (List.mem_map.2 ⟨x, hx, rfl⟩)]
      intro b hb hP
      obtain ⟨y, hy, rfl⟩ := List.mem_map.1 hP
      exact ht y hy x hx ((hs _).2 (addrSet_mem.1 hb)) hxs
    · have : shown (addrSet addrs) t = [] := by
        rw [shown_congr hs]
        unfold shown
        rw [List.filter_eq_nil_iff.2 fun x hx => by simpa using fun z => hne ⟨x, hx, z⟩]
        rfl
      rw [this, List.flatMap_eq_nil_iff.2 fun a _ => by split <;> rfl]

/-- **C95 is false in general.**  A payment from one address of the wallet to another is shown twice with
each of its sides. -/
theorem C95_repeated : ∃ (pool : List (Pend Nat)), (pendingOf pool [1, 2]).length = 4 ∧ (pendingSpec pool [1, 2]).length = 2 :=
  ⟨[⟨7, [(1, 100), (2, 100)]⟩], by decide, by decide⟩

/-- Pending entries are shown whatever the filter says about type and currency. -/
theorem C95_unfiltered : ∃ (q : Filter Nat) (out : List (Out Nat)), (∀ v, q.keep v = false) ∧
    IsResult true (fun _ => []) q [1] (pendingOf [⟨7, [(1, 100)]⟩] [1]) out ∧ out ≠ [] := by
  refine ⟨⟨0, 2 ^ 32 - 1, -1, none, fun _ => false⟩, pendingOf [⟨7, [(1, 100)]⟩] [1], fun _ => rfl, ⟨?_⟩, by decide⟩
  rw [if_neg (by decide)]
  exact ⟨_, .refl _, by decide, rfl⟩

end Verif.Node.History
