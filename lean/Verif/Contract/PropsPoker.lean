import Verif.Contract.PokerInv
import Verif.Hash.Spec
/-
  C153 to C157: the poker contract.
-/
namespace Verif.Contract.Poker
open Res
open Verif.Codec (Bytes)
open Verif.Contract.Std (cmp)

/-! ## C153: hands -/

/-- Five cards of the deck. -/
def IsHand (l : List Card) : Prop := l.length = 5 ∧ ∀ c ∈ l, c.num < 13 ∧ c.suit < 4

/-- The rank of a hand: the number of the best kind that it is, and its values in descending order; only five cards of
    the deck have one. -/
theorem C153_rank (h : Hand) :
    (∀ l, h = .cards l → IsHand l → ∃ r, getRank h = .ok r ∧ IsKind l r.cat ∧ (∀ k, r.cat < k → ¬ IsKind l k) ∧
      r.vals.Perm (l.map (·.num)) ∧ r.vals.Pairwise (· ≥ ·)) ∧
    (∀ r, getRank h = .ok r → ∃ l, h = .cards l ∧ IsHand l) := by
  constructor
  · rintro l rfl ⟨h5, hc⟩
    obtain ⟨d, h1, h2, h3⟩ := getRank_cards h5 hc
    obtain ⟨h4, h6⟩ := category_spec h5 (fun c hm => (hc c hm).2) h3 h2
    exact ⟨_, h1, h4, h6, h2, h3⟩
  · intro r e
    obtain ⟨l, h1, h2, h3⟩ := getRank_ok e
    exact ⟨l, h1, h2, h3⟩

theorem isFlush_perm {l m : List Card} (h : l.Perm m) : isFlush l = isFlush m := by
  unfold isFlush
  congr 1
  funext s
  rw [(h.filter _).length_eq]

/-- The order in which the cards are named does not matter. -/
theorem C153_order (l m : List Card) (hl : IsHand l) (h : l.Perm m) : getRank (.cards l) = getRank (.cards m) := by
  have hm : IsHand m := ⟨by rw [← h.length_eq]; exact hl.1, fun c hc => hl.2 c (h.symm.subset hc)⟩
  obtain ⟨d, h1, h2, h3⟩ := getRank_cards hl.1 hl.2
  obtain ⟨d', h1', h2', h3'⟩ := getRank_cards hm.1 hm.2
  have e : d = d' := by
    refine List.Perm.eq_of_pairwise (le := fun a b => b ≤ a) ?_ h3 h3' ?_
    · intro a b _ _ h1 h2; omega
    · exact h2.trans ((h.map _).trans h2'.symm)
  subst e
  rw [h1, h1']
  unfold category
  rw [isFlush_perm h]

theorem cmp_num (a b : Nat) : cmp (.leaf (.uint a)) (.leaf (.uint b)) = .ok (compare a b) := by
  have e : cmp (.leaf (.uint a)) (.leaf (.uint b)) = .ok (VM.compare (.uint a) (.uint b)) := by
    simp only [cmp, Std.cmpPlain_leaf]
    rw [if_neg (by simp [VM.Val.code])]
  rw [e]
  simp only [VM.compare]
  rcases Nat.lt_trichotomy a b with c | c | c
  · rw [Nat.compare_eq_lt.2 c]; simp [c, VM.Val.code, VM.cmpN]; omega
  · subst c; rw [Nat.compare_eq_eq.2 rfl]; simp [VM.Val.code, VM.cmpN]
  · rw [Nat.compare_eq_gt.2 c]; simp [Nat.lt_asymm c, VM.Val.code, VM.cmpN]; omega

/-- Of two hands: the one of the better kind wins; of the same kind the one with the higher card in the first place, in
    descending order, where they differ; a draw if the values are the same.  Missing (`C153_not_poker`): among hands
    with the same pairs and the like the cards of the pairs would count first. -/
theorem C153_win_partial (l m : List Card) (hl : IsHand l) (hm : IsHand m) :
    ∃ L R o, getRank (.cards l) = .ok L ∧ getRank (.cards m) = .ok R ∧ checkWin (.cards l) (.cards m) = .ok o ∧
      (R.cat < L.cat → o = .gt) ∧ (L.cat < R.cat → o = .lt) ∧
      (L.cat = R.cat → (o = .eq ↔ L.vals = R.vals) ∧
        (∀ p a b s t, L.vals = p ++ a :: s → R.vals = p ++ b :: t → b < a → o = .gt) ∧
        (∀ p a b s t, L.vals = p ++ a :: s → R.vals = p ++ b :: t → a < b → o = .lt)) := by
  obtain ⟨L, hL, _, _, pL, _⟩ := (C153_rank (.cards l)).1 l rfl hl
  obtain ⟨R, hR, _, _, pR, _⟩ := (C153_rank (.cards m)).1 m rfl hm
  have len : L.vals.length = R.vals.length := by
    rw [pL.length_eq, pR.length_eq, List.length_map, List.length_map, hl.1, hm.1]
  have plain : ∀ v : List Nat, Std.AllPlain (nums v) := by
    intro v
    unfold nums
    show Std.AllPlainL _
    induction v with
    | nil => trivial
    | cons x v ih => exact ⟨trivial, ih⟩
  have less : ∀ (x y : List Nat) p a b s t, x = p ++ a :: s → y = p ++ b :: t → x.length = y.length → a < b →
      cmp (nums x) (nums y) = .ok .lt := by
    intro x y p a b s t hx hy hl hab
    refine (Std.C152_compare_numbers x y).2 p a b s t hx hy ?_ hab
    rw [hx, hy] at hl; simp at hl; exact hl
  have total : ∀ x y : List Nat, x.length = y.length → x = y ∨
      (∃ p a b s t, x = p ++ a :: s ∧ y = p ++ b :: t ∧ a < b) ∨ ∃ p a b s t, x = p ++ a :: s ∧ y = p ++ b :: t ∧ b < a := by
    intro x
    induction x with
    | nil => intro y hy; cases y with
      | nil => exact .inl rfl
      | cons _ _ => simp at hy
    | cons a x ih =>
      intro y hy
      cases y with
      | nil => simp at hy
      | cons b y =>
        rcases Nat.lt_trichotomy a b with c | c | c
        · exact .inr (.inl ⟨[], a, b, x, y, rfl, rfl, c⟩)
        · subst c
          rcases ih y (by simpa using hy) with h | ⟨p, c, d, s, t, h1, h2, h3⟩ | ⟨p, c, d, s, t, h1, h2, h3⟩
          · exact .inl (by rw [h])
          · exact .inr (.inl ⟨a :: p, c, d, s, t, by rw [h1]; rfl, by rw [h2]; rfl, h3⟩)
          · exact .inr (.inr ⟨a :: p, c, d, s, t, by rw [h1]; rfl, by rw [h2]; rfl, h3⟩)
        · exact .inr (.inr ⟨[], a, b, x, y, rfl, rfl, c⟩)
  have cw : checkWin (.cards l) (.cards m) =
      (if compare L.cat R.cat = .eq then cmp (nums L.vals) (nums R.vals) else .ok (compare L.cat R.cat)) := by
    unfold checkWin
    rw [hL, hR]
    show (cmp _ _ >>= _) = _
    rw [cmp_num]
    rfl
  rcases Nat.lt_trichotomy L.cat R.cat with c | c | c
  · rw [Nat.compare_eq_lt.2 c] at cw
    exact ⟨L, R, .lt, hL, hR, cw, fun h => by omega, fun _ => rfl, fun h => by omega⟩
  · rw [Nat.compare_eq_eq.2 c, if_pos rfl] at cw
    have hlt : ∀ p a b s t, L.vals = p ++ a :: s → R.vals = p ++ b :: t → a < b → cmp (nums L.vals) (nums R.vals) = .ok .lt :=
      fun p a b s t h1 h2 h => less _ _ p a b s t h1 h2 len h
    have hgt : ∀ p a b s t, L.vals = p ++ a :: s → R.vals = p ++ b :: t → b < a → cmp (nums L.vals) (nums R.vals) = .ok .gt :=
      fun p a b s t h1 h2 h => by
        have := less _ _ p b a t s h2 h1 len.symm h
        exact (Std.C152_compare_order _ _ (nums [])).1 _ this
    have heq : ∀ o, cmp (nums L.vals) (nums R.vals) = .ok o → (o = .eq ↔ L.vals = R.vals) := by
      intro o ho
      constructor
      · rintro rfl
        rcases total _ _ len with h | ⟨p, a, b, s, t, h1, h2, h3⟩ | ⟨p, a, b, s, t, h1, h2, h3⟩
        · exact h
        · rw [hlt p a b s t h1 h2 h3] at ho; cases ho
        · rw [hgt p a b s t h1 h2 h3] at ho; cases ho
      · intro h
        rw [h, (Std.C152_compare_equal _ _ (plain _)).2 rfl] at ho
        exact (Res.ok.inj ho).symm
    have hex : ∃ o, cmp (nums L.vals) (nums R.vals) = .ok o := by
      rcases total _ _ len with h | ⟨p, a, b, s, t, h1, h2, h3⟩ | ⟨p, a, b, s, t, h1, h2, h3⟩
      · exact ⟨.eq, by rw [h]; exact (Std.C152_compare_equal _ _ (plain _)).2 rfl⟩
      · exact ⟨_, hlt p a b s t h1 h2 h3⟩
      · exact ⟨_, hgt p a b s t h1 h2 h3⟩
    obtain ⟨o, ho⟩ := hex
    refine ⟨L, R, o, hL, hR, cw.trans ho, fun h => by omega, fun h => by omega, fun _ => ⟨heq o ho, ?_, ?_⟩⟩
    · intro p a b s t h1 h2 h3
      rw [hgt p a b s t h1 h2 h3] at ho; exact (Res.ok.inj ho).symm
    · intro p a b s t h1 h2 h3
      rw [hlt p a b s t h1 h2 h3] at ho; exact (Res.ok.inj ho).symm
  · rw [Nat.compare_eq_gt.2 c] at cw
    exact ⟨L, R, .gt, hL, hR, cw, fun _ => rfl, fun h => by omega, fun h => by omega⟩

/-- Two twos with an ace beat two kings. -/
theorem C153_not_poker :
    checkWin (.cards [⟨0, 0⟩, ⟨0, 1⟩, ⟨12, 2⟩, ⟨9, 3⟩, ⟨7, 0⟩]) (.cards [⟨11, 0⟩, ⟨11, 1⟩, ⟨10, 2⟩, ⟨9, 2⟩, ⟨7, 1⟩]) = .ok .gt := by
  decide

/-! ## C154: the pot -/

section
variable {sha : Bytes → Bytes} {c b l m iv : Nat} {w0 : W Poker}

/-- Until the game is over nothing is paid and the bets of all are there; afterwards what is still to be claimed is there. -/
theorem C154_pot (hi : init c b l m iv = .ok w0) (es : List (Ev Call)) :
    let w := runEv (exec sha) w0 es
    (w.st.state < 4 → w.pays = [] ∧ (w.st.players.map (·.bet)).sum ≤ w.bal w.st.currency) ∧
    (w.st.state = 4 → owed w.st ≤ w.bal w.st.currency) := by
  have i := run_inv (sha := sha) hi es
  exact ⟨fun h => ⟨(i.run h).2, (i.run h).1⟩, i.fin⟩

/-- Every payment is the share of a seat, in the currency of the game, to the owner of that seat who called; nobody is paid more
    often than they have seats. -/
theorem C154_paid (hi : init c b l m iv = .ok w0) (es : List (Ev Call)) :
    let w := runEv (exec sha) w0 es
    (∀ q ∈ w.pays, q.cur = w.st.currency ∧ q.user = some q.to ∧
      ∃ i p, w.st.players[i]? = some p ∧ p.addr = q.to ∧ p.claim = true ∧ q.amount = share w.st i p) ∧
    (∀ u, (w.pays.filter fun q => decide (q.to = u)).length ≤ (w.st.players.filter fun p => decide (p.addr = u)).length) := by
  have i := run_inv (sha := sha) hi es
  refine ⟨i.what, fun u => Nat.le_trans (i.once u) ?_⟩
  unfold claimed
  refine (List.Sublist.length_le ?_)
  have : (fun p : Player => decide (p.addr = u ∧ p.claim = true)) =
      fun p => decide (p.claim = true) && decide (p.addr = u) := by
    funext p; by_cases h1 : p.addr = u <;> by_cases h2 : p.claim = true <;> simp [h1, h2]
  rw [this, ← List.filter_filter]
  exact List.filter_sublist

theorem lastOf_mem {s : Poker} {u : Nat} {p : Player} : ∀ {l : List Nat} {i : Nat}, i ∈ l → s.players[i]? = some p → p.addr = u →
    ∃ j, lastOf s (some u) l = some j
  | [], _, h, _, _ => absurd h List.not_mem_nil
  | x :: l, i, h, hp, ha => by
    unfold lastOf
    cases hl : lastOf s (some u) l with
    | some j => exact ⟨j, rfl⟩
    | none =>
      rcases List.mem_cons.1 h with rfl | h
      · simp only
        rw [if_pos ⟨by rw [hp, ← ha]; rfl, rfl⟩]
        exact ⟨i, rfl⟩
      · obtain ⟨j, hj⟩ := lastOf_mem h hp ha
        rw [hj] at hl; cases hl

/-- Who claims the only seat they have. -/
theorem claimant_only {s : Poker} {h u i : Nat} {p : Player} (g : Good s) (h4 : s.state = 4) (hp : s.players[i]? = some p)
    (ha : p.addr = u) (only : ∀ j q, s.players[j]? = some q → q.addr = u → j = i) (hs : 0 < share s i p) :
    claimant s h (some u) = .ok (i, share s i p) := by
  have found : ∀ {l : List Nat}, i ∈ l → lastOf s (some u) l = some i := by
    intro l hl
    obtain ⟨j, hj⟩ := lastOf_mem hl hp ha
    obtain ⟨_, q, hq, hqa⟩ := lastOf_some hj
    rw [only j q hq (Option.some.inj hqa).symm] at hj
    exact hj
  unfold claimant
  unfold share at hs ⊢
  by_cases c : s.winners ≠ []
  · rw [if_pos c] at hs ⊢
    by_cases d : i ∈ s.winners
    · rw [found d, if_pos c, if_pos d]
    · rw [if_neg d] at hs; omega
  · rw [if_neg c] at hs ⊢
    rw [if_neg c]
    rw [numActive_ne (by omega) 0 h] at hs ⊢
    by_cases d : 0 < numActive s h
    · rw [if_pos d] at hs ⊢
      rw [if_pos d]
      by_cases a : isActive s 0 p = true
      · have hm : i ∈ activeIdx s h := by
          unfold activeIdx
          refine List.mem_filter.2 ⟨List.mem_range.2 ?_, ?_⟩
          · by_cases hh : i < s.players.length
            · exact hh
            · rw [List.getElem?_eq_none (by omega)] at hp; cases hp
          · rw [hp]
            simp
            rw [isActive_ne (by omega) h 0]; exact a
        rw [found hm, if_pos a]
      · rw [if_neg a] at hs; omega
    · rw [if_neg d]
      rw [if_neg d]
      have hix : s.index u = some i := by
        rcases g.own i p hp with h | ⟨_, j, hj, h⟩
        · rw [← ha]; exact h
        · rw [ha] at h
          obtain ⟨q, hq, hqa⟩ := g.idx u j h
          rw [only j q hq hqa] at h; exact h
      unfold getPlayer
      simp only [hix, hp]
      rfl

theorem doClaim_succeeds {e : Env} {w : W Poker} {s : Poker} {u i : Nat} {p : Player} {pot : Nat}
    (h1 : checkStart e.height w.st = .ok s)
    (hpot : pot = w.bal s.currency)
    (g : Good (checkFinish e.height pot s)) (h4 : (checkFinish e.height pot s).state = 4)
    (ho : owed (checkFinish e.height pot s) ≤ w.bal s.currency)
    (hu : e.user = some u) (hp : (checkFinish e.height pot s).players[i]? = some p) (ha : p.addr = u)
    (only : ∀ j q, (checkFinish e.height pot s).players[j]? = some q → q.addr = u → j = i)
    (hc : p.claim = false) (hs : 0 < share (checkFinish e.height pot s) i p)
    (hsmall : share (checkFinish e.height pot s) i p < 2 ^ 128) :
    ∃ w', doClaim e w = .ok w' ∧
      w'.pays = w.pays ++ [⟨u, s.currency, share (checkFinish e.height pot s) i p, e.user, e.height⟩] := by
  subst hpot
  have cur : (checkFinish e.height (w.bal s.currency) s).currency = s.currency := by
    rcases checkFinish_cases e.height (w.bal s.currency) s with h | h <;> rw [h]
  have hle : share (checkFinish e.height (w.bal s.currency) s) i p ≤ owed (checkFinish e.height (w.bal s.currency) s) := by
    have := sumFrom_set (fun i q => if q.claim then 0 else share (checkFinish e.height (w.bal s.currency) s) i q)
      (checkFinish e.height (w.bal s.currency) s).players 0 i p { p with claim := true } hp
    rw [if_neg (by rw [hc]; simp), if_pos rfl] at this
    unfold owed
    rw [Nat.zero_add] at this
    omega
  unfold doClaim
  rw [h1]
  show ∃ w', (chk ((checkFinish e.height (w.bal s.currency) s).state = 4) >>= _) = _ ∧ _
  rw [show chk ((checkFinish e.height (w.bal s.currency) s).state = 4) = .ok () from if_pos h4]
  show ∃ w', (claimant (checkFinish e.height (w.bal s.currency) s) e.height e.user >>= _) = _ ∧ _
  rw [hu, claimant_only g h4 hp ha only hs]
  simp only [Res.bind_ok, hp]
  rw [show chk (p.claim = false) = .ok () from if_pos hc]
  rw [show theUser e = .ok u from by unfold theUser; rw [hu]]
  simp only [Res.bind_ok]
  rw [cur]
  unfold send
  rw [if_neg (by omega), if_neg (by omega)]
  simp only
  rw [if_neg (by omega), hu]
  exact ⟨_, rfl, rfl⟩

/-- In a finished game who has one seat with a share gets it by calling `claim` (up to 2^128 - 1, the most a payment can be). -/
theorem C154_claim (hi : init c b l m iv = .ok w0) (es : List (Ev Call)) (e : Env) (u i : Nat) (p : Player) :
    let w := runEv (exec sha) w0 es
    w.st.state = 4 → e.user = some u → w.st.players[i]? = some p → p.addr = u →
    (∀ j q, w.st.players[j]? = some q → q.addr = u → j = i) → p.claim = false →
    0 < share w.st i p → share w.st i p < 2 ^ 128 →
    ∃ w', exec sha e .claim (arriveDep e w) = .ok w' ∧
      w'.pays = w.pays ++ [⟨u, w.st.currency, share w.st i p, some u, e.height⟩] := by
  intro w h4 hu hp ha only hc hs hsm
  have inv : Inv w := run_inv (sha := sha) hi es
  have hst := arriveDep_st e w
  obtain ⟨f, hf, hsh⟩ := finish_again (h := e.height) (pot := (arriveDep e w).bal w.st.currency) inv.good h4
  have g' : Good { w.st with finalPot := f } :=
    ⟨inv.good.le4, inv.good.few, inv.good.early, fun hl => absurd hl (by show ¬ w.st.state < 4; omega), inv.good.win, inv.good.hand,
      inv.good.idx, inv.good.own⟩
  have start : checkStart e.height (arriveDep e w).st = .ok w.st := by
    rw [hst]; unfold checkStart; rw [if_neg (by omega)]
  have hbal := arriveDep_le e w w.st.currency
  obtain ⟨w', h1, h2⟩ := doClaim_succeeds (w := arriveDep e w) (u := u) (i := i) (p := p) start rfl
    (by rw [hf]; exact g') (by rw [hf]; exact h4)
    (by rw [hf, owed_congr (s := w.st) (t := { w.st with finalPot := f }) rfl hsh]
        have := inv.fin h4; omega) hu (by rw [hf]; exact hp) ha (by rw [hf]; exact only) hc
    (by rw [hf, hsh]; exact hs) (by rw [hf, hsh]; exact hsm)
  refine ⟨w', h1, ?_⟩
  rw [h2, hf, hsh, hu, arriveDep_pays]

/-- The winner ends the game: after the time to show, or when all have shown, they get all that is there. -/
theorem C154_winner (hi : init c b l m iv = .ok w0) (es : List (Ev Call)) (e : Env) (u i : Nat) (p : Player) :
    let w := arriveDep e (runEv (exec sha) w0 es)
    w.st.state = 3 → (w.st.numReveals = numActive w.st e.height ∨ isTimeout w.st e.height = true) →
    e.user = some u → w.st.winners = [i] → w.st.players[i]? = some p → p.addr = u →
    (∀ j q, w.st.players[j]? = some q → q.addr = u → j = i) →
    0 < w.bal w.st.currency → w.bal w.st.currency < 2 ^ 128 →
    ∃ w', exec sha e .claim w = .ok w' ∧
      w'.pays = w.pays ++ [⟨u, w.st.currency, w.bal w.st.currency, some u, e.height⟩] := by
  intro w h3 hend hu hw hp ha only hpos hsm
  have inv0 : Inv (runEv (exec sha) w0 es) := run_inv (sha := sha) hi es
  have hst : w.st = (runEv (exec sha) w0 es).st := arriveDep_st e _
  have g : Good w.st := by rw [hst]; exact inv0.good
  have hr := inv0.run (by rw [← hst]; omega)
  have hbal : betSum w.st ≤ w.bal w.st.currency := by
    rw [hst]; exact Nat.le_trans hr.1 (arriveDep_le e _ _)
  have start : checkStart e.height w.st = .ok w.st := by
    unfold checkStart; rw [if_neg (by omega)]
  have pot0 := (g.pot (by omega)).1
  have hf : checkFinish e.height (w.bal w.st.currency) w.st = { w.st with finalPot := w.bal w.st.currency, state := 4 } := by
    unfold checkFinish
    rw [if_neg (by omega), if_pos ⟨.inl h3, hend⟩]
  have hs : share { w.st with finalPot := w.bal w.st.currency, state := 4 } i p = w.bal w.st.currency := by
    unfold share
    rw [if_pos (by show w.st.winners ≠ []; rw [hw]; simp), if_pos (by show i ∈ w.st.winners; rw [hw]; simp)]
    show w.bal w.st.currency / w.st.winners.length = _
    rw [hw]; simp
  obtain ⟨w', h1, h2⟩ := doClaim_succeeds (w := w) (u := u) (i := i) (p := p) start rfl
    (by rw [hf]; exact finish_good g (g.many (by omega))) (by rw [hf])
    (by rw [hf]; exact owed_finish g hbal) hu (by rw [hf]; exact hp) ha (by rw [hf]; exact only)
    ((g.pot (by omega)).2 p (List.mem_of_getElem? hp)) (by rw [hf, hs]; exact hpos) (by rw [hf, hs]; exact hsm)
  refine ⟨w', h1, ?_⟩
  rw [h2, hf, hs, hu]

/-! ## C155: the winning hand -/

/-- Once a hand was shown no other can be: every further `show` aborts. -/
theorem C155_no_second (hi : init c b l m iv = .ok w0) (es : List (Ev Call)) (e : Env) (hand : List Nat) (seed : Blob) (w' : W Poker) :
    let w := arriveDep e (runEv (exec sha) w0 es)
    w.st.winHand ≠ none → exec sha e (.show hand seed) w ≠ .ok w' := by
  intro w hw h
  have inv0 : Inv (runEv (exec sha) w0 es) := run_inv (sha := sha) hi es
  have hst : w.st = (runEv (exec sha) w0 es).st := arriveDep_st e _
  have g : Good w.st := by rw [hst]; exact inv0.good
  have h3 : 3 ≤ w.st.state := by
    by_cases hh : w.st.state < 3
    · exact absurd (g.early hh).1 hw
    · omega
  obtain ⟨t, ht, _⟩ := keep_ok h
  obtain ⟨s1, e1, ht⟩ := Res.bind_eq_ok.1 ht
  unfold checkAction at e1
  rw [if_neg (by omega)] at e1
  cases e1
  exact hw (doShow_fr g ht).2.1

/-- Whoever shows first stays the only winner, whatever others hold. -/
theorem C155_first (hi : init c b l m iv = .ok w0) (es es' : List (Ev Call)) :
    let w := runEv (exec sha) w0 es
    w.st.winners ≠ [] → ∃ i, w.st.winners = [i] ∧ (runEv (exec sha) w es').st.winners = [i] := by
  intro w hw
  have inv0 : Inv w := run_inv (sha := sha) hi es
  obtain ⟨i, hi1⟩ : ∃ i, w.st.winners = [i] := by
    rcases inv0.good.win with h | ⟨i, _, h, _⟩
    · exact absurd h hw
    · exact ⟨i, h⟩
  refine ⟨i, hi1, ?_⟩
  have key : Inv (runEv (exec sha) w es') ∧ (runEv (exec sha) w es').st.winners = [i] := by
    refine runEv_inv_of (I := fun w => Inv w ∧ w.st.winners = [i]) (P := fun _ _ => True) ?_ ?_ es' w (fun _ _ _ => trivial)
      ⟨inv0, hi1⟩
    · rintro w c a ⟨h1, h2⟩; exact ⟨arrive_inv h1, h2⟩
    · rintro e c x x' - ⟨h1, h2⟩ h
      refine ⟨exec_inv h1 h, ?_⟩
      have hst := arriveDep_st e x
      have g : Good (arriveDep e x).st := by rw [hst]; exact h1.good
      have hne : (arriveDep e x).st.winners ≠ [] := by rw [hst, h2]; simp
      have h3 : 3 ≤ (arriveDep e x).st.state := by
        by_cases hh : (arriveDep e x).st.state < 3
        · exact absurd (g.early hh).2 hne
        · omega
      have noturn : ∀ {t : Poker}, turn e (arriveDep e x).st ≠ .ok t := by
        intro t ht
        unfold turn at ht
        obtain ⟨u, hu, ht⟩ := Res.bind_eq_ok.1 ht
        obtain ⟨hh, ht⟩ := chk_bind.1 ht
        unfold checkReveal at hu
        rw [if_neg (by omega)] at hu
        cases hu; omega
      cases c with
      | join name commit priv =>
        obtain ⟨t, ht, _⟩ := keep_ok h
        obtain ⟨_, _, _, _, h0, _⟩ := doJoin_fr g ht
        omega
      | reveal seed next =>
        obtain ⟨t, ht, _⟩ := keep_ok h
        obtain ⟨s1, e1, ht⟩ := Res.bind_eq_ok.1 ht
        obtain ⟨s2, e2, ht⟩ := Res.bind_eq_ok.1 ht
        unfold checkStart at e1; rw [if_neg (by omega)] at e1; cases e1
        unfold checkAction at e2; rw [if_neg (by omega)] at e2; cases e2
        unfold doReveal at ht
        have := (chk_bind.1 ht).1
        omega
      | bet =>
        obtain ⟨t, ht, _⟩ := keep_ok h
        obtain ⟨s1, e1, ht⟩ := Res.bind_eq_ok.1 ht
        exact absurd e1 noturn
      | check _ =>
        obtain ⟨t, ht, _⟩ := keep_ok h
        obtain ⟨s1, e1, ht⟩ := Res.bind_eq_ok.1 ht
        exact absurd e1 noturn
      | fold =>
        obtain ⟨t, ht, _⟩ := keep_ok h
        obtain ⟨s1, e1, ht⟩ := Res.bind_eq_ok.1 ht
        exact absurd e1 noturn
      | «show» hand seed =>
        obtain ⟨t, ht, _⟩ := keep_ok h
        obtain ⟨s1, e1, ht⟩ := Res.bind_eq_ok.1 ht
        unfold checkAction at e1; rw [if_neg (by omega)] at e1; cases e1
        have := (doShow_fr g ht).2.1
        exact absurd (g.hand.1 this) hne
      | claim =>
        obtain ⟨s1, j, a, p, u, e1, h4, ha, hp, hcl, hu, hs⟩ := doClaim_ok h
        unfold checkStart at e1; rw [if_neg (by omega)] at e1; cases e1
        rw [(send_sent hs).1.st]
        show (checkFinish _ _ _).winners = _
        rcases checkFinish_cases e.height ((arriveDep e x).bal (arriveDep e x).st.currency) (arriveDep e x).st with hh | hh
        · rw [hh, hst]; exact h2
        · rw [hh, hst]; exact h2
      | leave =>
        have : doLeave e (arriveDep e x) = .ok x' := h
        rw [leave_fails g] at this; cases this
      | compute =>
        obtain ⟨t, ht, rfl⟩ := keep_ok h
        rcases compute_ok ht with ⟨rfl, _⟩ | ⟨_, gs, bd, rfl⟩
        · show (arriveDep e x).st.winners = _; rw [hst]; exact h2
        · show (arriveDep e x).st.winners = _; rw [hst]; exact h2
  exact key.2

/-- A card may be named more than once: naming one card four times makes four of a kind of any two cards of different rank. -/
theorem C155_repeated (all : List Card) (i j : Nat) (x y : Card) (hi : i < 7) (hj : j < 7) (hx : all[i]? = some x) (hy : all[j]? = some y)
    (cx : x.num < 13 ∧ x.suit < 4) (cy : y.num < 13 ∧ y.suit < 4) (hne : x.num ≠ y.num) :
    ∃ cs r, pick all [i, i, i, i, j] = .ok cs ∧ getRank (.cards cs) = .ok r ∧ 8 ≤ r.cat := by
  have hp : pick all [i, i, i, i, j] = .ok [x, x, x, x, y] := by
    simp only [pick, hx, hy]
    rw [show chk (i < 7) = .ok () from if_pos hi, show chk (j < 7) = .ok () from if_pos hj]
    rfl
  have hh : IsHand [x, x, x, x, y] := by
    refine ⟨rfl, ?_⟩
    intro c hc
    simp at hc
    rcases hc with rfl | rfl
    · exact cx
    · exact cy
  obtain ⟨r, h1, h2, h3, _⟩ := (C153_rank _).1 _ rfl hh
  refine ⟨_, r, hp, h1, ?_⟩
  by_cases h8 : 8 ≤ r.cat
  · exact h8
  · refine absurd ?_ (h3 8 (by omega))
    refine ⟨x.num, ?_⟩
    have : (y.num == x.num) = false := by simp; exact fun h => hne h.symm
    simp [nums', List.count_cons, this]

/-! ## C156: getting one's money back -/

/-- `leave` never works. -/
theorem C156_leave (hi : init c b l m iv = .ok w0) (es : List (Ev Call)) (e : Env) :
    exec sha e .leave (arriveDep e (runEv (exec sha) w0 es)) = .throw :=
  leave_fails (by rw [arriveDep_st]; exact (run_inv (sha := sha) hi es).good)

theorem seedCat_bin {k : Nat} {x : Bytes} : ∀ {l : List Player} {p : Player}, p ∈ l → p.seeds[k]? = some (.bin x) →
    seedCat k l = .throw
  | [], _, h, _ => absurd h List.not_mem_nil
  | q :: l, p, h, hp => by
    rcases List.mem_cons.1 h with rfl | h
    · unfold seedCat; rw [hp]
    · have ih := seedCat_bin h hp
      unfold seedCat
      cases q.seeds[k]? with
      | none => exact ih
      | some z =>
        cases z with
        | str y => show (seedCat k l >>= _) = _; rw [ih]; rfl
        | bin y => rfl

/-- A seed given as a binary: the cards cannot be dealt. -/
theorem compute_bin {s : Poker} {p : Player} {k : Nat} {x : Bytes} (hb : s.board = none) (hp : p ∈ s.players) (hk : k < 4)
    (hx : p.seeds[k]? = some (.bin x)) (t : Poker) : compute sha s ≠ .ok t := by
    intro hc
    unfold compute at hc
    rw [if_neg (by rw [hb]; simp)] at hc
    obtain ⟨_, hc⟩ := chk_bind.1 hc
    obtain ⟨_, h0, hc⟩ := Res.bind_eq_ok.1 hc
    obtain ⟨_, h1, hc⟩ := Res.bind_eq_ok.1 hc
    obtain ⟨_, h2, hc⟩ := Res.bind_eq_ok.1 hc
    obtain ⟨_, h3, hc⟩ := Res.bind_eq_ok.1 hc
    have hcase : k = 0 ∨ k = 1 ∨ k = 2 ∨ k = 3 := by omega
    rcases hcase with rfl | rfl | rfl | rfl
    · rw [seedCat_bin hp hx] at h0; cases h0
    · rw [seedCat_bin hp hx] at h1; cases h1
    · rw [seedCat_bin hp hx] at h2; cases h2
    · rw [seedCat_bin hp hx] at h3; cases h3

/-- A game in its last round of bets whose time is over, with a player in it and a seed that is a binary. -/
structure Stuck (s : Poker) : Prop where
  st : s.state = 2
  round : 4 ≤ s.round
  raise : s.isRaise = false
  board : s.board = none
  time : s.deadline ≠ 0
  active : 0 < numActive s 0
  seed : ∃ p ∈ s.players, ∃ k x, k < 4 ∧ p.seeds[k]? = some (.bin x)

theorem stuck_action {s : Poker} {h : Nat} (k : Stuck s) (ht : s.deadline ≤ h) (t : Poker) : checkAction sha h s ≠ .ok t := by
  intro hc
  have hto : isTimeout s h = true := by unfold isTimeout; simp; exact ⟨k.time, ht⟩
  unfold checkAction at hc
  rw [if_pos ⟨k.st, .inr hto⟩] at hc
  obtain ⟨v, hv, _⟩ := Res.bind_eq_ok.1 hc
  have : ∀ v, settled sha h s ≠ .ok v := by
    intro v
    unfold settled roundDone
    rw [k.raise]
    show (if (!(false && _)) = true then _ else _) ≠ _
    rw [if_pos (by simp)]
    unfold nextStage
    obtain ⟨f, hf, hf2⟩ := settle_players s h
    have hr : (settle s h).round = s.round := by rw [settle_rest s h]
    have hb : (settle s h).board = s.board := by rw [settle_rest s h]
    rw [if_neg (by rw [hr]; have := k.round; omega)]
    obtain ⟨p, hp, j, x, hj, hx⟩ := k.seed
    refine compute_bin (p := f p) (k := j) (x := x) (by show (settle s h).board = _; rw [hb]; exact k.board) ?_ hj
      (by rw [(hf2 p).2.2.2.1]; exact hx) v
    show f p ∈ (settle s h).players
    rw [hf]; exact List.mem_map_of_mem hp
  exact this v hv

/-- Nobody can do anything any more: all the money stays in the contract. -/
theorem C156_locked (w : W Poker) (k : Stuck w.st) (es : List (Ev Call))
    (hh : ∀ e c, Ev.call e c ∈ es → w.st.deadline ≤ e.height) :
    (runEv (exec sha) w es).st = w.st ∧ (runEv (exec sha) w es).pays = w.pays := by
  refine runEv_inv_of (I := fun x => x.st = w.st ∧ x.pays = w.pays) (P := fun e _ => w.st.deadline ≤ e.height) ?_ ?_ es w hh ⟨rfl, rfl⟩
  · rintro x c a ⟨h1, h2⟩; exact ⟨h1, h2⟩
  · rintro e c x x' ht ⟨h1, h2⟩ h
    exfalso
    have hst : (arriveDep e x).st = w.st := (arriveDep_st e x).trans h1
    have hto : isTimeout w.st e.height = true := by unfold isTimeout; simp; exact ⟨k.time, ht⟩
    have h2' := k.st
    have noturn : ∀ {t : Poker}, turn e (arriveDep e x).st ≠ .ok t := by
      intro t ht
      unfold turn at ht
      obtain ⟨u, hu, ht⟩ := Res.bind_eq_ok.1 ht
      obtain ⟨_, ht⟩ := chk_bind.1 ht
      obtain ⟨hn, ht⟩ := chk_bind.1 ht
      rw [hst] at hu
      unfold checkReveal at hu
      rw [if_neg (by omega)] at hu
      cases hu
      exact hn hto
    cases c with
    | join name commit priv =>
      obtain ⟨t, ht, _⟩ := keep_ok h
      unfold doJoin at ht
      have := (chk_bind.1 ht).1
      rw [hst] at this; omega
    | reveal seed next =>
      obtain ⟨t, ht', _⟩ := keep_ok h
      obtain ⟨s1, e1, ht'⟩ := Res.bind_eq_ok.1 ht'
      obtain ⟨s2, e2, ht'⟩ := Res.bind_eq_ok.1 ht'
      rw [hst] at e1
      unfold checkStart at e1; rw [if_neg (by omega)] at e1; cases e1
      exact stuck_action k ht _ e2
    | bet =>
      obtain ⟨t, ht', _⟩ := keep_ok h
      obtain ⟨s1, e1, ht'⟩ := Res.bind_eq_ok.1 ht'
      exact noturn e1
    | check _ =>
      obtain ⟨t, ht', _⟩ := keep_ok h
      obtain ⟨s1, e1, ht'⟩ := Res.bind_eq_ok.1 ht'
      exact noturn e1
    | fold =>
      obtain ⟨t, ht', _⟩ := keep_ok h
      obtain ⟨s1, e1, ht'⟩ := Res.bind_eq_ok.1 ht'
      exact noturn e1
    | «show» hand seed =>
      obtain ⟨t, ht', _⟩ := keep_ok h
      obtain ⟨s1, e1, ht'⟩ := Res.bind_eq_ok.1 ht'
      rw [hst] at e1; exact stuck_action k ht _ e1
    | claim =>
      obtain ⟨s1, j, a, p, u, e1, h4, _⟩ := doClaim_ok h
      rw [hst] at e1
      unfold checkStart at e1; rw [if_neg (by omega)] at e1; cases e1
      have hn : 0 < numActive w.st e.height := by rw [numActive_ne (by omega) e.height 0]; exact k.active
      unfold checkFinish at h4
      by_cases c1 : w.st.state = 0 ∨ w.st.finalPot ≠ 0
      · rw [if_pos c1] at h4; omega
      · rw [if_neg c1, if_neg (by omega)] at h4; omega
    | leave =>
      have h : doLeave e (arriveDep e x) = .ok x' := h
      unfold doLeave at h
      have := (chk_bind.1 h).1
      rw [hst] at this; omega
    | compute =>
      obtain ⟨t, ht', _⟩ := keep_ok h
      rw [hst] at ht'
      obtain ⟨p, hp, j, y, hj, hy⟩ := k.seed
      exact compute_bin k.board hp hj hy _ ht'

/-! ## C157: one seat each -/

/-- Nobody has two seats, except the one who came first: they can have the first seat and one other.  Missing: `C157_twice`. -/
theorem C157_seats_partial (hi : init c b l m iv = .ok w0) (es : List (Ev Call)) (i j : Nat) (p q : Player) :
    let w := runEv (exec sha) w0 es
    w.st.players[i]? = some p → w.st.players[j]? = some q → p.addr = q.addr → i < j →
    i = 0 ∧ ∀ k r, w.st.players[k]? = some r → r.addr = p.addr → k = 0 ∨ k = j := by
  intro w hp hq ha hij
  have g : Good w.st := (run_inv (sha := sha) hi es).good
  have hj : w.st.index q.addr = some j := by
    rcases g.own j q hq with h | ⟨h, _⟩
    · exact h
    · omega
  have hi0 : i = 0 := by
    rcases g.own i p hp with h | ⟨h, _⟩
    · rw [ha, hj] at h; have := Option.some.inj h; omega
    · exact h
  refine ⟨hi0, fun k r hr hra => ?_⟩
  rcases g.own k r hr with h | ⟨h, _⟩
  · rw [hra, ha, hj] at h; exact .inr (Option.some.inj h).symm
  · exact .inl h

end

/-! ## Cases -/

/-- SHA-256 as FIPS 180-4 has it. -/
def sha2 (b : Bytes) : Bytes := (Hash.sha256 (b.map (BitVec.ofNat 8))).map (·.toNat)
/-- For cases in which the hash plays no part. -/
def toy (b : Bytes) : Bytes := (List.range 32).map fun i => (i * i * 7 + b.sum + b.length) % 256

section
variable (sha : Bytes → Bytes)

def bytesOf (p r : Nat) : Bytes := List.replicate 32 (16 * p + r)
/-- The seed of player `p` for round `r`, as a binary or a string. -/
def seedOf (bin : Bool) (p r : Nat) : Blob := if bin then .bin (bytesOf p r) else .str (bytesOf p r)
def commitOf (p r : Nat) : Bytes := sha (bytesOf p r)

def joins (p h : Nat) : Ev Call := .call ⟨some p, h, some (7, 10)⟩ (.join (some 5) (commitOf sha p 0) (commitOf sha p 9))
def reveals (bin : Bool) (p r h : Nat) : Ev Call := .call ⟨some p, h, none⟩ (.reveal (seedOf bin p r) (commitOf sha p (r + 1)))
def checks (p h : Nat) : Ev Call := .call ⟨some p, h, none⟩ (.check false)
def folds (p h : Nat) : Ev Call := .call ⟨some p, h, none⟩ .fold
def bets (p a h : Nat) : Ev Call := .call ⟨some p, h, some (7, a)⟩ .bet
def shows (p : Nat) (hand : List Nat) (h : Nat) : Ev Call := .call ⟨some p, h, none⟩ (.show hand (seedOf true p 9))
def claims (p h : Nat) : Ev Call := .call ⟨some p, h, none⟩ .claim

def oneRound (bin : Bool) (r h : Nat) : List (Ev Call) := [reveals sha bin 1 r h, reveals sha false 2 r h, checks 1 h, checks 2 h]
/-- Two players, four rounds. -/
def game (bin : Bool) : List (Ev Call) :=
  [joins sha 1 100, joins sha 2 100] ++ oneRound sha bin 0 101 ++ oneRound sha false 1 102 ++ oneRound sha false 2 103 ++
    oneRound sha false 3 104

def gameFrom (m : Nat) (es : List (Ev Call)) : Res (W Poker) := do
  let w ← init 7 10 5 m 6
  .ok (runEv (exec sha) w es)

end

def viewOf {α : Type} (f : W Poker → α) (r : Res (W Poker)) : Option α :=
  match r with
  | .ok w => some (f w)
  | .throw | .ub => none

structure View where
  state : Nat
  round : Nat
  winners : List Nat
  board : Option (List Card)
  bal : Nat
  pays : List (Nat × Nat)
  deriving DecidableEq

def look : Res (W Poker) → Option View :=
  viewOf fun w => ⟨w.st.state, w.st.round, w.st.winners, w.st.board, w.bal 7, w.pays.map fun q => (q.to, q.amount)⟩

/-- A game, with SHA-256, in which the worse hand wins: the first player shows a pair of threes; the second has threes and
    twos, but the call aborts, and the first takes the pot. -/
theorem C155_worse_wins :
    checkWin (.cards [⟨1, 0⟩, ⟨0, 3⟩, ⟨1, 1⟩, ⟨9, 3⟩, ⟨4, 3⟩]) (.cards [⟨1, 0⟩, ⟨0, 3⟩, ⟨1, 1⟩, ⟨9, 3⟩, ⟨0, 1⟩]) = .ok .lt ∧
    look (gameFrom sha2 2 (game sha2 false ++
      [shows 1 [0, 1, 2, 3, 5] 105, shows 2 [0, 1, 2, 3, 4] 105, claims 2 111, claims 1 111]))
      = some ⟨4, 4, [0], some [⟨1, 0⟩, ⟨0, 3⟩, ⟨1, 1⟩, ⟨9, 3⟩, ⟨0, 1⟩], 0, [(1, 20)]⟩ := by decide +kernel

/-- Naming one card four times. -/
theorem C155_four :
    viewOf (·.st.winHand) (gameFrom toy 2 (game toy false ++ [shows 2 [0, 0, 0, 0, 1] 105])) = some (some ⟨8, [6, 2, 2, 2, 2]⟩) := by
  decide +kernel

/-- One player gives a seed as a binary: the last call of the last round aborts, and after the time is over the game is
    stuck (`C156_locked`) with all the bets in it. -/
theorem C156_stuck : ∃ w, gameFrom sha2 2 (game sha2 true) = .ok w ∧ Stuck w.st ∧ w.st.deadline = 110 ∧ w.bal 7 = 20 := by
  have h : viewOf (fun w => decide (w.st.state = 2 ∧ 4 ≤ w.st.round ∧ w.st.isRaise = false ∧ w.st.board = none ∧
      w.st.deadline = 110 ∧ 0 < numActive w.st 0 ∧ w.bal 7 = 20 ∧
      (w.st.players.any fun p => p.seeds[0]? = some (.bin (bytesOf 1 0))) = true)) (gameFrom sha2 2 (game sha2 true)) = some true := by
    decide +kernel
  cases hg : gameFrom sha2 2 (game sha2 true) with
  | throw => rw [hg] at h; cases h
  | ub => rw [hg] at h; cases h
  | ok w =>
    rw [hg] at h
    obtain ⟨h1, h2, h3, h4, h5, h6, h7, h'⟩ := of_decide_eq_true (Option.some.inj h)
    obtain ⟨p, hp, hs⟩ := List.any_eq_true.1 h'
    exact ⟨w, rfl, ⟨h1, by omega, h3, h4, by omega, by omega, p, hp, 0, _, by omega, of_decide_eq_true hs⟩, h5, h7⟩

/-- Who came first takes a second seat, nobody else can. -/
theorem C157_twice :
    viewOf (fun w => w.st.players.map fun p => p.addr)
      (gameFrom sha2 4 [joins sha2 1 100, joins sha2 2 100, joins sha2 1 100, joins sha2 2 100, joins sha2 1 100])
      = some [1, 2, 1] := by decide +kernel

/-- A game that ends with nobody showing: those still in it share the pot, also what others have sent to it. -/
example : (look (gameFrom toy 2 (game toy false ++ [.recv 7 5, claims 2 111, claims 1 111, claims 1 111]))).map
    (fun v => (v.state, v.bal, v.pays)) = some (4, 1, [(2, 12), (1, 12)]) := by decide +kernel

/-- Alone nobody can leave. -/
example : look (gameFrom toy 2 [joins toy 1 100, .call ⟨some 1, 100000, none⟩ .leave]) = some ⟨0, 0, [], none, 10, []⟩ := by decide +kernel

end Verif.Contract.Poker
