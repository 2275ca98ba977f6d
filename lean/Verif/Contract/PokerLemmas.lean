import Verif.Contract.PokerHand
import Verif.Contract.KitLemmas
/-  Invariants of the poker contract. -/
namespace Verif.Contract.Poker
open Res
open Verif.Codec (Bytes)

/-! ### Sums over seats -/

def sumFrom (f : Nat → Player → Nat) : Nat → List Player → Nat
  | _, [] => 0
  | k, p :: l => f k p + sumFrom f (k + 1) l

theorem sumFrom_set (f : Nat → Player → Nat) : ∀ (l : List Player) (k i : Nat) (p q : Player), l[i]? = some p →
    sumFrom f k (l.set i q) + f (k + i) p = sumFrom f k l + f (k + i) q
  | [], _, _, _, _, h => by simp at h
  | x :: l, k, 0, p, q, h => by
    simp at h; subst h
    simp only [List.set_cons_zero, sumFrom, Nat.add_zero]; omega
  | x :: l, k, i + 1, p, q, h => by
    simp at h
    have := sumFrom_set f l (k + 1) i p q h
    simp only [List.set_cons_succ, sumFrom]
    rw [show k + (i + 1) = k + 1 + i by omega]; omega

theorem sumFrom_congr {f g : Nat → Player → Nat} : ∀ (l : List Player) (k : Nat),
    (∀ i p, l[i]? = some p → f (k + i) p = g (k + i) p) → sumFrom f k l = sumFrom g k l
  | [], _, _ => rfl
  | x :: l, k, h => by
    have h0 := h 0 x rfl
    simp only [Nat.add_zero] at h0
    simp only [sumFrom, h0]
    have ih := sumFrom_congr (f := f) (g := g) l (k + 1) (fun i p hi => by
      have := h (i + 1) p (by rw [List.getElem?_cons_succ]; exact hi)
      rw [show k + (i + 1) = k + 1 + i from by omega] at this
      exact this)
    rw [ih]

theorem sumFrom_bet : ∀ (l : List Player) (k : Nat), sumFrom (fun _ p => p.bet) k l = (l.map (·.bet)).sum
  | [], _ => rfl
  | x :: l, k => by simp [sumFrom, sumFrom_bet l (k + 1)]

theorem sumFrom_filter (a : Player → Bool) (c : Nat) : ∀ (l : List Player) (k : Nat),
    sumFrom (fun _ p => if a p then c else 0) k l = (l.filter a).length * c
  | [], _ => by simp [sumFrom]
  | x :: l, k => by
    simp only [sumFrom, sumFrom_filter a c l (k + 1)]
    by_cases h : a x = true
    · rw [if_pos h, List.filter_cons_of_pos h, List.length_cons, Nat.add_mul]; omega
    · rw [if_neg h, List.filter_cons_of_neg h]; omega

theorem sumFrom_single (j c : Nat) : ∀ (l : List Player) (k : Nat),
    sumFrom (fun i _ => if i = j then c else 0) k l ≤ c ∧ (j < k → sumFrom (fun i _ => if i = j then c else 0) k l = 0)
  | [], _ => by simp [sumFrom]
  | x :: l, k => by
    obtain ⟨h1, h2⟩ := sumFrom_single j c l (k + 1)
    simp only [sumFrom]
    constructor
    · by_cases h : k = j
      · rw [if_pos h, h2 (by omega)]; omega
      · rw [if_neg h]; omega
    · intro h
      rw [if_neg (by omega), h2 (by omega)]

/-! ### What is due -/

/-- What the seat at position `i` gets in a finished game. -/
def share (s : Poker) (i : Nat) (p : Player) : Nat :=
  if s.winners ≠ [] then (if i ∈ s.winners then s.finalPot / s.winners.length else 0)
  else if 0 < numActive s 0 then (if isActive s 0 p then s.finalPot / numActive s 0 else 0)
  else p.bet

/-- What is still to be claimed. -/
def owed (s : Poker) : Nat := sumFrom (fun i p => if p.claim then 0 else share s i p) 0 s.players

/-- The bets of all players. -/
def betSum (s : Poker) : Nat := (s.players.map (·.bet)).sum

structure Good (s : Poker) : Prop where
  le4 : s.state ≤ 4
  few : s.players.length ≤ 1 → s.deadline = 0 ∧ s.state = 0
  early : s.state < 3 → s.winHand = none ∧ s.winners = []
  pot : s.state < 4 → s.finalPot = 0 ∧ ∀ p ∈ s.players, p.claim = false
  win : s.winners = [] ∨ ∃ i p, s.winners = [i] ∧ s.players[i]? = some p ∧ p.fold = false ∧ s.round ≤ p.seeds.length
  hand : s.winHand = none ↔ s.winners = []
  idx : ∀ u i, s.index u = some i → ∃ p, s.players[i]? = some p ∧ p.addr = u
  own : ∀ i p, s.players[i]? = some p → s.index p.addr = some i ∨ i = 0 ∧ ∃ j, 0 < j ∧ s.index p.addr = some j

/-- A step of a running game. -/
structure Fr (s t : Poker) : Prop where
  good : Good t
  st : t.state < 4
  bets : betSum t = betSum s
  cur : t.currency = s.currency
  len : s.players.length ≤ t.players.length

theorem Fr.refl {s : Poker} (g : Good s) (h : s.state < 4) : Fr s s := ⟨g, h, rfl, rfl, Nat.le_refl _⟩

theorem Fr.trans {s t u : Poker} (h1 : Fr s t) (h2 : Fr t u) : Fr s u :=
  ⟨h2.good, h2.st, h2.bets.trans h1.bets, h2.cur.trans h1.cur, Nat.le_trans h1.len h2.len⟩

theorem extend_ok {h f : Nat} {s t : Poker} (e : extend h f s = .ok t) : ∃ d, t = { s with deadline := d } := by
  unfold extend at e
  obtain ⟨m, _, e⟩ := Res.bind_eq_ok.1 e
  obtain ⟨d, _, e⟩ := Res.bind_eq_ok.1 e
  exact ⟨d, (Res.ok.inj e).symm⟩

theorem Good.many {s : Poker} (g : Good s) (h : s.state ≠ 0) : 1 < s.players.length := by
  by_cases hl : s.players.length ≤ 1
  · exact absurd (g.few hl).2 h
  · omega

theorem checkStart_fr {h : Nat} {s t : Poker} (g : Good s) (h4 : s.state < 4) (e : checkStart h s = .ok t) : Fr s t := by
  unfold checkStart at e
  by_cases c : s.state = 0 ∧ 1 < s.players.length ∧ (s.maxPlayers ≤ s.players.length ∨ isTimeout s h = true)
  · rw [if_pos c] at e
    obtain ⟨d, rfl⟩ := extend_ok e
    have w := g.early (by omega)
    exact ⟨⟨by simp, fun hl => absurd hl (by have := c.2.1; simp; omega), fun _ => w, fun _ => g.pot h4, .inl w.2, g.hand,
      g.idx, g.own⟩, by simp, rfl, rfl, Nat.le_refl _⟩
  · rw [if_neg c] at e; cases e; exact .refl g h4

theorem checkReveal_fr {h : Nat} {s t : Poker} (g : Good s) (h4 : s.state < 4) (e : checkReveal h s = .ok t) : Fr s t := by
  unfold checkReveal at e
  by_cases c : s.state = 1 ∧ (s.numReveals = numActive s h ∨ isTimeout s h = true)
  · rw [if_pos c] at e
    obtain ⟨d, rfl⟩ := extend_ok e
    have w := g.early (by omega)
    have := g.many (by omega)
    exact ⟨⟨by simp, fun hl => absurd hl (by simp; omega), fun _ => w, fun _ => g.pot h4, .inl w.2, g.hand,
      g.idx, g.own⟩, by simp, rfl, rfl, Nat.le_refl _⟩
  · rw [if_neg c] at e; cases e; exact .refl g h4

variable {sha : Bytes → Bytes}

theorem compute_ok {s t : Poker} (e : compute sha s = .ok t) :
    (t = s ∧ s.board.isSome) ∨ (s.state = 3 ∧ ∃ gs b, t = { s with globalSeed := gs, board := some b }) := by
  unfold compute at e
  by_cases c : s.board.isSome = true
  · rw [if_pos c] at e; exact .inl ⟨(Res.ok.inj e).symm, c⟩
  · rw [if_neg c] at e
    obtain ⟨h3, e⟩ := chk_bind.1 e
    obtain ⟨_, _, e⟩ := Res.bind_eq_ok.1 e
    obtain ⟨_, _, e⟩ := Res.bind_eq_ok.1 e
    obtain ⟨_, _, e⟩ := Res.bind_eq_ok.1 e
    obtain ⟨_, _, e⟩ := Res.bind_eq_ok.1 e
    obtain ⟨_, _, e⟩ := Res.bind_eq_ok.1 e
    obtain ⟨_, _, e⟩ := Res.bind_eq_ok.1 e
    obtain ⟨_, _, e⟩ := Res.bind_eq_ok.1 e
    obtain ⟨_, _, e⟩ := Res.bind_eq_ok.1 e
    obtain ⟨_, _, e⟩ := Res.bind_eq_ok.1 e
    exact .inr ⟨h3, _, _, (Res.ok.inj e).symm⟩

theorem compute_fr {s t : Poker} (g : Good s) (h4 : s.state < 4) (e : compute sha s = .ok t) : Fr s t := by
  rcases compute_ok e with ⟨rfl, _⟩ | ⟨_, gs, b, rfl⟩
  · exact .refl g h4
  · exact ⟨⟨g.le4, g.few, g.early, g.pot, g.win, g.hand, g.idx, g.own⟩, h4, rfl, rfl, Nat.le_refl _⟩

theorem settle_players (s : Poker) (h : Nat) :
    ∃ f : Player → Player, (settle s h).players = s.players.map f ∧
      ∀ p, (f p).bet = p.bet ∧ (f p).claim = p.claim ∧ (f p).addr = p.addr ∧ (f p).seeds = p.seeds ∧ (f p).step = p.step := by
  unfold settle
  by_cases c : s.isRaise = true
  · rw [if_pos c]; exact ⟨id, by simp, fun p => ⟨rfl, rfl, rfl, rfl, rfl⟩⟩
  · rw [if_neg c]
    refine ⟨_, rfl, fun p => ?_⟩
    by_cases hb : behind s h p = true
    · rw [if_pos hb]; exact ⟨rfl, rfl, rfl, rfl, rfl⟩
    · rw [if_neg hb]; exact ⟨rfl, rfl, rfl, rfl, rfl⟩

theorem settle_rest (s : Poker) (h : Nat) : settle s h = { s with players := (settle s h).players } := by
  unfold settle
  by_cases c : s.isRaise = true
  · rw [if_pos c]
  · rw [if_neg c]

/-- The same game but with other flags of players who keep bet, claim and address. -/
theorem good_map {s : Poker} (g : Good s) (h2 : s.state < 3) (f : Player → Player)
    (hf : ∀ p, (f p).bet = p.bet ∧ (f p).claim = p.claim ∧ (f p).addr = p.addr) :
    Good { s with players := s.players.map f } ∧ betSum { s with players := s.players.map f } = betSum s := by
  have w := g.early h2
  refine ⟨⟨g.le4, fun hl => g.few (by simpa using hl), fun _ => w, fun h4 => ⟨(g.pot h4).1, ?_⟩, .inl w.2, g.hand, ?_, ?_⟩, ?_⟩
  · intro p hp
    obtain ⟨q, hq, rfl⟩ := List.mem_map.1 hp
    rw [(hf q).2.1]; exact (g.pot h4).2 q hq
  · intro u i hi
    obtain ⟨p, hp, ha⟩ := g.idx u i hi
    refine ⟨f p, ?_, by rw [(hf p).2.2, ha]⟩
    show (s.players.map f)[i]? = _
    rw [List.getElem?_map, hp]; rfl
  · intro i q hq
    have hq : (s.players.map f)[i]? = some q := hq
    rw [List.getElem?_map] at hq
    cases hp : s.players[i]? with
    | none => rw [hp] at hq; cases hq
    | some p =>
      rw [hp] at hq; cases hq
      show s.index (f p).addr = _ ∨ _
      rw [(hf p).2.2]; exact g.own i p hp
  · show ((s.players.map f).map (·.bet)).sum = _
    rw [List.map_map]
    unfold betSum
    congr 1
    refine List.map_congr_left fun p _ => ?_
    exact (hf p).1

theorem nextStage_fr {s t : Poker} (g : Good s) (h2 : s.state = 2) (e : nextStage sha s = .ok t) : Fr s t := by
  have w := g.early (by omega)
  have m := g.many (by omega)
  unfold nextStage at e
  by_cases c : s.round < 4
  · rw [if_pos c] at e; cases e
    exact ⟨⟨by simp, fun hl => absurd hl (by simp; omega), fun _ => w, fun _ => g.pot (by omega), .inl w.2, g.hand, g.idx, g.own⟩,
      by simp, rfl, rfl, Nat.le_refl _⟩
  · rw [if_neg c] at e
    have hg : Fr s { s with betAmount := 0, state := 3 } :=
      ⟨⟨by simp, fun hl => absurd hl (by simp; omega), fun _ => w, fun _ => g.pot (by omega), .inl w.2, g.hand, g.idx, g.own⟩,
      by simp, rfl, rfl, Nat.le_refl _⟩
    exact hg.trans (compute_fr hg.good hg.st e)

theorem checkAction_fr {h : Nat} {s t : Poker} (g : Good s) (h4 : s.state < 4) (e : checkAction sha h s = .ok t) : Fr s t := by
  unfold checkAction at e
  by_cases c : s.state = 2 ∧ (s.numActions = numActive s h ∨ isTimeout s h = true)
  · rw [if_pos c] at e
    obtain ⟨f, hf1, hf2⟩ := settle_players s h
    have hs : Fr s (settle s h) := by
      obtain ⟨g1, b1⟩ := good_map g (by omega) f (fun p => ⟨(hf2 p).1, (hf2 p).2.1, (hf2 p).2.2.1⟩)
      rw [settle_rest s h, hf1]
      exact ⟨g1, h4, b1, rfl, by simp⟩
    have hst : (settle s h).state = 2 := by rw [settle_rest s h]; exact c.1
    obtain ⟨u, hu, e⟩ := Res.bind_eq_ok.1 e
    have hu' : Fr s u := by
      by_cases d : roundDone s h = true
      · unfold settled at hu; rw [if_pos d] at hu; exact hs.trans (nextStage_fr hs.good hst hu)
      · unfold settled at hu; rw [if_neg d] at hu; cases hu; exact hs
    obtain ⟨d, rfl⟩ := extend_ok e
    have m := g.many (by omega)
    have := hu'.len
    exact ⟨⟨hu'.good.le4, fun hl => absurd hl (by simp; omega), hu'.good.early, hu'.good.pot, hu'.good.win, hu'.good.hand,
      hu'.good.idx, hu'.good.own⟩, hu'.st, hu'.bets, hu'.cur, hu'.len⟩
  · rw [if_neg c] at e; cases e; exact .refl g h4

theorem getPlayer_ok {s : Poker} {h : Nat} {user : Option Nat} {a : Bool} {i : Nat} {p : Player}
    (e : getPlayer s h user a = .ok (i, p)) :
    ∃ u, user = some u ∧ s.index u = some i ∧ s.players[i]? = some p ∧ (a = true → isActive s h p = true) := by
  unfold getPlayer at e
  cases user with
  | none => cases e
  | some u =>
    simp only at e
    cases hi : s.index u with
    | none => rw [hi] at e; cases e
    | some j =>
      rw [hi] at e
      simp only at e
      cases hp : s.players[j]? with
      | none => rw [hp] at e; cases e
      | some q =>
        rw [hp] at e
        simp only at e
        by_cases c : a = true ∧ ¬ isActive s h q = true
        · rw [if_pos c] at e; cases e
        · rw [if_neg c] at e
          cases e
          refine ⟨u, rfl, hi, hp, fun ha => ?_⟩
          by_cases hx : isActive s h p = true
          · exact hx
          · exact absurd ⟨ha, hx⟩ c

theorem map_set_sum (l : List Player) (i : Nat) (p q : Player) (h : l[i]? = some p) :
    ((l.set i q).map (·.bet)).sum + p.bet = (l.map (·.bet)).sum + q.bet := by
  have := sumFrom_set (fun _ p => p.bet) l 0 i p q h
  rwa [sumFrom_bet, sumFrom_bet] at this

/-- Replacing a player by one with the same address who has claimed nothing. -/
theorem good_set {s : Poker} (g : Good s) (h4 : s.state < 4) {i : Nat} {p q : Player} (hp : s.players[i]? = some p)
    (ha : q.addr = p.addr) (hc : q.claim = p.claim) (hf : 3 ≤ s.state → q.fold = p.fold ∧ q.seeds = p.seeds) :
    Good (setPlayer s i q) ∧ betSum (setPlayer s i q) + p.bet = betSum s + q.bet := by
  have hil : i < s.players.length := by
    by_cases h : i < s.players.length
    · exact h
    · rw [List.getElem?_eq_none (by omega)] at hp; cases hp
  have get : ∀ j, (setPlayer s i q).players[j]? = if j = i then some q else s.players[j]? := by
    intro j
    show (s.players.set i q)[j]? = _
    by_cases hj : j = i
    · subst hj; rw [if_pos rfl, List.getElem?_set_self hil]
    · rw [if_neg hj, List.getElem?_set_ne (fun e => hj e.symm)]
  refine ⟨⟨g.le4, fun hl => g.few (by simpa [setPlayer] using hl), g.early, fun _ => ⟨(g.pot h4).1, ?_⟩, ?_, g.hand, ?_, ?_⟩,
    map_set_sum _ _ _ _ hp⟩
  · intro x hx
    rcases List.mem_or_eq_of_mem_set hx with hx | rfl
    · exact (g.pot h4).2 x hx
    · rw [hc]; exact (g.pot h4).2 p (List.mem_of_getElem? hp)
  · rcases g.win with w | ⟨j, r, h1, h2, h3, h5⟩
    · exact .inl w
    · have h3s : 3 ≤ s.state := by
        by_cases h : s.state < 3
        · rw [(g.early h).2] at h1; cases h1
        · omega
      by_cases hj : j = i
      · subst hj
        rw [hp] at h2; cases h2
        exact .inr ⟨j, q, h1, by rw [get, if_pos rfl], by rw [(hf h3s).1, h3], by rw [(hf h3s).2]; exact h5⟩
      · exact .inr ⟨j, r, h1, by rw [get, if_neg hj]; exact h2, h3, h5⟩
  · intro u j hj
    obtain ⟨x, hx, hxa⟩ := g.idx u j hj
    by_cases hji : j = i
    · subst hji
      rw [hp] at hx; cases hx
      exact ⟨q, by rw [get, if_pos rfl], by rw [ha, hxa]⟩
    · exact ⟨x, by rw [get, if_neg hji]; exact hx, hxa⟩
  · intro j x hx
    rw [get] at hx
    show s.index x.addr = _ ∨ _
    by_cases hji : j = i
    · subst hji
      rw [if_pos rfl] at hx; cases hx
      rw [ha]; exact g.own j p hp
    · rw [if_neg hji] at hx; exact g.own j x hx

/-- A change of counters only. -/
theorem Fr.counters {s t : Poker} (h : Fr s t) (nr na : Nat) : Fr s { t with numReveals := nr, numActions := na } :=
  ⟨⟨h.good.le4, h.good.few, h.good.early, h.good.pot, h.good.win, h.good.hand, h.good.idx, h.good.own⟩, h.st, h.bets, h.cur, h.len⟩

theorem turn_fr {e : Env} {s t : Poker} (g : Good s) (h4 : s.state < 4) (h : turn e s = .ok t) :
    Fr s t ∧ t.state = 2 ∧ isTimeout t e.height = false := by
  unfold turn at h
  obtain ⟨u, hu, h⟩ := Res.bind_eq_ok.1 h
  obtain ⟨h2, h⟩ := chk_bind.1 h
  obtain ⟨h3, h⟩ := chk_bind.1 h
  cases h
  exact ⟨checkReveal_fr g h4 hu, h2, by simpa using h3⟩

/-- What a step does to the bets: they grow by `a`. -/
structure FrBy (a : Nat) (s t : Poker) : Prop where
  good : Good t
  st : t.state < 4
  bets : betSum t = betSum s + a
  cur : t.currency = s.currency
  len : s.players.length ≤ t.players.length

theorem Fr.by_ {s t : Poker} (h : Fr s t) : FrBy 0 s t := ⟨h.good, h.st, h.bets, h.cur, h.len⟩
theorem Fr.transBy {a : Nat} {s t u : Poker} (h1 : Fr s t) (h2 : FrBy a t u) : FrBy a s u :=
  ⟨h2.good, h2.st, by rw [h2.bets, h1.bets], h2.cur.trans h1.cur, Nat.le_trans h1.len h2.len⟩

theorem acted_fr {e : Env} {s t : Poker} {i : Nat} {p q : Player} {a : Nat} (g : Good s) (h2 : s.state = 2)
    (hp : s.players[i]? = some p) (ha : q.addr = p.addr) (hc : q.claim = p.claim) (hb : q.bet = p.bet + a)
    (h : acted sha e s i q = .ok t) : FrBy a s t := by
  obtain ⟨g1, b1⟩ := good_set (q := { q with step := s.sequence }) g (by omega) hp ha hc (by omega)
  have f1 : Good { setPlayer s i { q with step := s.sequence } with numActions := s.numActions + 1 } :=
    ⟨g1.le4, g1.few, g1.early, g1.pot, g1.win, g1.hand, g1.idx, g1.own⟩
  have f2 := checkAction_fr (sha := sha) f1 (by show s.state < 4; omega) h
  refine ⟨f2.good, f2.st, ?_, f2.cur, ?_⟩
  · rw [f2.bets]
    show betSum (setPlayer s i { q with step := s.sequence }) = _
    simp only at b1
    omega
  · have := f2.len
    simpa [setPlayer] using this

theorem doAct_fr {e : Env} {out : Poker → Bool} {s t : Poker} (g : Good s) (h2 : s.state = 2)
    (h : doAct sha e out s = .ok t) : FrBy 0 s t := by
  unfold doAct at h
  obtain ⟨⟨i, p⟩, hp, h⟩ := Res.bind_eq_ok.1 h
  obtain ⟨_, h⟩ := chk_bind.1 h
  obtain ⟨u, _, _, hp, _⟩ := getPlayer_ok hp
  by_cases c : out s = true
  · rw [if_pos c] at h
    exact acted_fr (q := { p with fold := true }) g h2 hp rfl rfl rfl h
  · rw [if_neg c] at h
    exact acted_fr g h2 hp rfl rfl rfl h

theorem cadd_ok {a b n : Nat} (h : cadd a b = .ok n) : n = a + b := by
  unfold cadd at h
  by_cases c : a + b < 2 ^ 256
  · rw [if_pos c] at h; exact (Res.ok.inj h).symm
  · rw [if_neg c] at h; cases h

theorem doBet_fr {e : Env} {a : Nat} {s t : Poker} (g : Good s) (h2 : s.state = 2)
    (h : doBet sha e a s = .ok t) : FrBy a s t := by
  unfold doBet at h
  obtain ⟨⟨i, p⟩, hp, h⟩ := Res.bind_eq_ok.1 h
  obtain ⟨_, h⟩ := chk_bind.1 h
  obtain ⟨b, hb, h⟩ := Res.bind_eq_ok.1 h
  obtain ⟨_, h⟩ := chk_bind.1 h
  obtain ⟨u, _, _, hp, _⟩ := getPlayer_ok hp
  have hb := cadd_ok hb
  subst hb
  unfold raise at h
  by_cases c : s.betAmount < p.bet + a
  · rw [if_pos c] at h
    have g' : Good { s with isRaise := true, betAmount := p.bet + a } :=
      ⟨g.le4, g.few, g.early, g.pot, g.win, g.hand, g.idx, g.own⟩
    have := acted_fr (q := { p with bet := p.bet + a }) (a := a) g' h2 hp rfl rfl rfl h
    exact ⟨this.good, this.st, this.bets, this.cur, this.len⟩
  · rw [if_neg c] at h
    exact acted_fr (q := { p with bet := p.bet + a }) (a := a) g h2 hp rfl rfl rfl h

theorem doReveal_fr {e : Env} {seed : Blob} {next : Bytes} {s t : Poker} (g : Good s)
    (h : doReveal sha e seed next s = .ok t) : FrBy 0 s t := by
  unfold doReveal at h
  obtain ⟨h1, h⟩ := chk_bind.1 h
  obtain ⟨_, h⟩ := chk_bind.1 h
  obtain ⟨_, h⟩ := chk_bind.1 h
  obtain ⟨⟨i, p⟩, hp, h⟩ := Res.bind_eq_ok.1 h
  obtain ⟨_, h⟩ := chk_bind.1 h
  obtain ⟨_, h⟩ := chk_bind.1 h
  obtain ⟨_, h⟩ := chk_bind.1 h
  obtain ⟨u, _, _, hp, _⟩ := getPlayer_ok hp
  obtain ⟨g1, b1⟩ := good_set (q := { p with commit := if s.round < 4 then next else [], seeds := p.seeds ++ [seed] })
    g (by omega) hp rfl rfl (by omega)
  have f1 : Good { setPlayer s i { p with commit := if s.round < 4 then next else [], seeds := p.seeds ++ [seed] } with
      numReveals := s.numReveals + 1 } := ⟨g1.le4, g1.few, g1.early, g1.pot, g1.win, g1.hand, g1.idx, g1.own⟩
  have f2 := checkReveal_fr f1 (by show s.state < 4; omega) h
  refine ⟨f2.good, f2.st, ?_, f2.cur, ?_⟩
  · rw [f2.bets]; show betSum (setPlayer s i _) = _
    simp only at b1
    omega
  · have := f2.len; simpa [setPlayer] using this

/-- With a hand already shown, comparing fails. -/
theorem place_some {s : Poker} {i : Nat} {r w : Rank} (h : s.winHand = some w) : place s i r = .throw := by
  unfold place
  rw [h]
  rfl

theorem doShow_fr {e : Env} {hand : List Nat} {seed : Blob} {s t : Poker} (g : Good s)
    (h : doShow sha e hand seed s = .ok t) : FrBy 0 s t ∧ s.winHand = none ∧ s.state = 3 ∧ t.winHand ≠ none := by
  unfold doShow at h
  obtain ⟨h1, h⟩ := chk_bind.1 h
  obtain ⟨_, h⟩ := chk_bind.1 h
  obtain ⟨_, h⟩ := chk_bind.1 h
  obtain ⟨_, h⟩ := chk_bind.1 h
  obtain ⟨⟨i, p⟩, hp, h⟩ := Res.bind_eq_ok.1 h
  obtain ⟨_, h⟩ := chk_bind.1 h
  obtain ⟨_, h⟩ := chk_bind.1 h
  obtain ⟨b, _, h⟩ := Res.bind_eq_ok.1 h
  obtain ⟨c0, _, h⟩ := Res.bind_eq_ok.1 h
  obtain ⟨c1, _, h⟩ := Res.bind_eq_ok.1 h
  obtain ⟨bd, _, h⟩ := Res.bind_eq_ok.1 h
  obtain ⟨cs, _, h⟩ := Res.bind_eq_ok.1 h
  obtain ⟨r, _, h⟩ := Res.bind_eq_ok.1 h
  obtain ⟨s1, hs1, h⟩ := Res.bind_eq_ok.1 h
  cases h
  obtain ⟨u, _, _, hp, hact⟩ := getPlayer_ok hp
  have hact := hact rfl
  obtain ⟨g1, b1⟩ := good_set (q := { p with shown := some seed }) g (by omega) hp rfl rfl (fun _ => ⟨rfl, rfl⟩)
  have hw : s.winHand = none := by
    cases hw : s.winHand with
    | none => rfl
    | some w =>
      rw [place_some (s := setPlayer s i { p with shown := some seed }) hw] at hs1; cases hs1
  have hw' : (setPlayer s i { p with shown := some seed }).winHand = none := hw
  unfold place at hs1
  rw [hw'] at hs1
  simp only at hs1
  cases hs1
  have hil : i < s.players.length := by
    by_cases h : i < s.players.length
    · exact h
    · rw [List.getElem?_eq_none (by omega)] at hp; cases hp
  unfold isActive at hact
  by_cases hfold : p.fold = true
  · rw [if_pos hfold] at hact; cases hact
  rw [if_neg hfold, if_neg (by omega)] at hact
  have hr : s.round ≤ p.seeds.length := of_decide_eq_true hact
  refine ⟨⟨⟨g1.le4, g1.few, fun hl => absurd hl (by show ¬ s.state < 3; omega), g1.pot, .inr ⟨i, { p with shown := some seed }, rfl, ?_, ?_, hr⟩, ?_, g1.idx, g1.own⟩,
    by show s.state < 4; omega, ?_, rfl, ?_⟩, hw, h1, by simp⟩
  · show (s.players.set i _)[i]? = _
    rw [List.getElem?_set_self hil]
  · cases hh : p.fold with
    | false => rfl
    | true => exact absurd hh hfold
  · simp
  · show betSum (setPlayer s i _) = _
    simp only at b1
    omega
  · show _ ≤ (s.players.set i _).length
    rw [List.length_set]; exact Nat.le_refl _

theorem theUser_ok {e : Env} {u : Nat} (h : theUser e = .ok u) : e.user = some u := by
  unfold theUser at h
  cases hu : e.user with
  | none => rw [hu] at h; cases h
  | some v => rw [hu] at h; cases h; rfl

theorem doJoin_fr {e : Env} {name : Option Nat} {commit priv : Bytes} {s t : Poker} (g : Good s)
    (h : doJoin e name commit priv s = .ok t) :
    ∃ a u, depositIn e s.currency = .ok a ∧ FrBy a s t ∧ s.state = 0 ∧ e.user = some u ∧
      (s.index u = none ∨ s.index u = some 0) := by
  unfold doJoin at h
  obtain ⟨h0, h⟩ := chk_bind.1 h
  obtain ⟨_, h⟩ := chk_bind.1 h
  obtain ⟨_, h⟩ := chk_bind.1 h
  obtain ⟨u, hu, h⟩ := Res.bind_eq_ok.1 h
  obtain ⟨a, ha, h⟩ := Res.bind_eq_ok.1 h
  obtain ⟨hab, h⟩ := chk_bind.1 h
  obtain ⟨_, h⟩ := chk_bind.1 h
  obtain ⟨_, h⟩ := chk_bind.1 h
  cases name with
  | none => cases h
  | some n =>
    simp only at h
    obtain ⟨_, h⟩ := chk_bind.1 h
    obtain ⟨hj, h⟩ := chk_bind.1 h
    obtain ⟨s1, hs1, h⟩ := Res.bind_eq_ok.1 h
    refine ⟨a, u, ha, ?_, h0, theUser_ok hu, hj⟩
    have hd : ∃ d, s1 = { s with deadline := d } ∧ (s.players.length = 0 → d = 0) := by
      unfold joinTime at hs1
      by_cases c : s.players.length = 1
      · rw [if_pos c] at hs1
        obtain ⟨d, hd⟩ := extend_ok hs1
        exact ⟨d, hd, fun h => by omega⟩
      · rw [if_neg c] at hs1
        cases hs1
        exact ⟨s.deadline, rfl, fun h => (g.few (by omega)).1⟩
    obtain ⟨d, rfl, hd0⟩ := hd
    have w := g.early (by omega)
    have gt : Good { ({ s with deadline := d } : Poker) with
        index := fun x => if x = u then some s.players.length else s.index x
        players := s.players ++ [⟨u, 0, s.blindBet, [], commit, priv, none, false, false⟩] } := by
      refine ⟨by show s.state ≤ 4; omega, ?_, fun _ => w, fun _ => ⟨(g.pot (by omega)).1, ?_⟩, .inl w.2, g.hand, ?_, ?_⟩
      · intro hl
        have hl : s.players.length = 0 := by simpa using hl
        exact ⟨hd0 hl, h0⟩
      · intro p hp
        rcases List.mem_append.1 hp with hp | hp
        · exact (g.pot (by omega)).2 p hp
        · rw [List.mem_singleton.1 hp]
      · intro v j hj
        show ∃ p, (s.players ++ [_])[j]? = some p ∧ _
        have hj : (if v = u then some s.players.length else s.index v) = some j := hj
        by_cases hv : v = u
        · subst hv
          rw [if_pos rfl] at hj; cases hj
          refine ⟨_, List.getElem?_concat_length, rfl⟩
        · rw [if_neg hv] at hj
          obtain ⟨p, hp, hpa⟩ := g.idx v j hj
          have hjl : j < s.players.length := by
            by_cases h : j < s.players.length
            · exact h
            · rw [List.getElem?_eq_none (by omega)] at hp; cases hp
          exact ⟨p, by rw [List.getElem?_append_left hjl]; exact hp, hpa⟩
      · intro i q hq
        have hq : (s.players ++ [(⟨u, 0, s.blindBet, [], commit, priv, none, false, false⟩ : Player)])[i]? = some q := hq
        show (if q.addr = u then some s.players.length else s.index q.addr) = some i ∨
          i = 0 ∧ ∃ j, 0 < j ∧ (if q.addr = u then some s.players.length else s.index q.addr) = some j
        by_cases hil : i < s.players.length
        · rw [List.getElem?_append_left hil] at hq
          have := g.own i q hq
          by_cases hv : q.addr = u
          · rw [if_pos hv]
            rw [hv] at this
            rcases hj with hj | hj
            · rw [hj] at this; simp at this
            · rw [hj] at this
              have hi0 : i = 0 := by
                rcases this with h | h
                · exact (Option.some.inj h).symm
                · exact h.1
              exact .inr ⟨hi0, _, by omega, rfl⟩
          · rw [if_neg hv]; exact this
        · have hi : i = s.players.length := by
            by_cases h : i < s.players.length + 1
            · omega
            · rw [List.getElem?_eq_none (by simp; omega)] at hq; cases hq
          subst hi
          rw [List.getElem?_concat_length] at hq; cases hq
          rw [if_pos rfl]; exact .inl rfl
    have f := checkStart_fr gt (by show s.state < 4; omega) h
    refine ⟨f.good, f.st, ?_, f.cur, ?_⟩
    · rw [f.bets]
      show ((s.players ++ [(⟨u, 0, s.blindBet, [], commit, priv, none, false, false⟩ : Player)]).map (·.bet)).sum = _
      rw [List.map_append, List.sum_append]
      show betSum s + ([s.blindBet] : List Nat).sum = _
      rw [hab]; simp
    · have := f.len
      simp at this
      omega

end Verif.Contract.Poker
