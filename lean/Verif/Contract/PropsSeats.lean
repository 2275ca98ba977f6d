import Verif.Contract.PokerTurn
import Verif.Contract.PropsPoker
/-
  C157, continued: the limits a poker game is deployed with are kept.
-/
namespace Verif.Contract.Poker
open Res
open Verif.Codec (Bytes)

/-- At most `m` seats are taken, and nobody has bet more than `x`. -/
structure Seats (m L B x : Nat) (s : Poker) : Prop where
  max : s.maxPlayers = m
  len : s.players.length ≤ m
  lim : s.betLimit = L
  blind : s.blindBet = B
  bet : ∀ p ∈ s.players, p.bet ≤ x

variable {sha : Bytes → Bytes} {m L B x : Nat}

theorem Seats.same {s t : Poker} (a : Seats m L B x s) (h1 : t.maxPlayers = s.maxPlayers) (h2 : t.players = s.players)
    (h3 : t.betLimit = s.betLimit) (h4 : t.blindBet = s.blindBet) : Seats m L B x t :=
  ⟨by rw [h1]; exact a.max, by rw [h2]; exact a.len, by rw [h3]; exact a.lim, by rw [h4]; exact a.blind, by rw [h2]; exact a.bet⟩

theorem Seats.set {s : Poker} {i : Nat} {q : Player} (a : Seats m L B x s) (hq : q.bet ≤ x) : Seats m L B x (setPlayer s i q) := by
  refine ⟨a.max, ?_, a.lim, a.blind, fun p hp => ?_⟩
  · show (s.players.set i q).length ≤ m
    rw [List.length_set]; exact a.len
  · rcases List.mem_or_eq_of_mem_set hp with hp | rfl
    · exact a.bet p hp
    · exact hq

theorem seats_start {h : Nat} {s t : Poker} (a : Seats m L B x s) (e : checkStart h s = .ok t) : Seats m L B x t := by
  unfold checkStart at e
  by_cases c : s.state = 0 ∧ 1 < s.players.length ∧ (s.maxPlayers ≤ s.players.length ∨ isTimeout s h = true)
  · rw [if_pos c] at e
    obtain ⟨d, rfl⟩ := extend_ok e
    exact a.same rfl rfl rfl rfl
  · rw [if_neg c] at e; cases e; exact a

theorem seats_reveal {h : Nat} {s t : Poker} (a : Seats m L B x s) (e : checkReveal h s = .ok t) : Seats m L B x t := by
  unfold checkReveal at e
  by_cases c : s.state = 1 ∧ (s.numReveals = numActive s h ∨ isTimeout s h = true)
  · rw [if_pos c] at e
    obtain ⟨d, rfl⟩ := extend_ok e
    exact a.same rfl rfl rfl rfl
  · rw [if_neg c] at e; cases e; exact a

theorem seats_compute {s t : Poker} (a : Seats m L B x s) (e : compute sha s = .ok t) : Seats m L B x t := by
  rcases compute_ok e with ⟨rfl, _⟩ | ⟨_, gs, b, rfl⟩
  · exact a
  · exact a.same rfl rfl rfl rfl

theorem seats_next {s t : Poker} (a : Seats m L B x s) (e : nextStage sha s = .ok t) : Seats m L B x t := by
  unfold nextStage at e
  by_cases c : s.round < 4
  · rw [if_pos c] at e; cases e; exact a.same rfl rfl rfl rfl
  · rw [if_neg c] at e
    refine seats_compute ?_ e
    exact a.same rfl rfl rfl rfl

theorem seats_settle {h : Nat} {s : Poker} (a : Seats m L B x s) : Seats m L B x (settle s h) := by
  obtain ⟨f, h1, h2⟩ := settle_players s h
  rw [settle_rest]
  refine ⟨a.max, ?_, a.lim, a.blind, fun p hp => ?_⟩
  · show (settle s h).players.length ≤ m
    rw [h1, List.length_map]; exact a.len
  · have hp : p ∈ (settle s h).players := hp
    rw [h1] at hp
    obtain ⟨q, hq, rfl⟩ := List.mem_map.1 hp
    rw [(h2 q).1]; exact a.bet q hq

theorem seats_action {h : Nat} {s t : Poker} (a : Seats m L B x s) (e : checkAction sha h s = .ok t) : Seats m L B x t := by
  unfold checkAction at e
  by_cases c : s.state = 2 ∧ (s.numActions = numActive s h ∨ isTimeout s h = true)
  · rw [if_pos c] at e
    obtain ⟨u, hu, e⟩ := Res.bind_eq_ok.1 e
    obtain ⟨d, rfl⟩ := extend_ok e
    have hu' : Seats m L B x u := by
      unfold settled at hu
      by_cases d : roundDone s h = true
      · rw [if_pos d] at hu; exact seats_next (seats_settle a) hu
      · rw [if_neg d] at hu; cases hu; exact seats_settle a
    exact hu'.same rfl rfl rfl rfl
  · rw [if_neg c] at e; cases e; exact a

theorem seats_turn {e : Env} {s t : Poker} (a : Seats m L B x s) (h : turn e s = .ok t) : Seats m L B x t := by
  unfold turn at h
  obtain ⟨u, hu, h⟩ := Res.bind_eq_ok.1 h
  obtain ⟨_, h⟩ := chk_bind.1 h
  obtain ⟨_, h⟩ := chk_bind.1 h
  cases h
  exact seats_reveal a hu

theorem seats_act {e : Env} {out : Poker → Bool} {s t : Poker} (a : Seats m L B x s) (h : doAct sha e out s = .ok t) :
    Seats m L B x t := by
  unfold doAct at h
  obtain ⟨⟨i, p⟩, hp, h⟩ := Res.bind_eq_ok.1 h
  obtain ⟨_, h⟩ := chk_bind.1 h
  obtain ⟨u, _, _, hp, _⟩ := getPlayer_ok hp
  have hb := a.bet p (List.mem_of_getElem? hp)
  unfold acted at h
  refine seats_action ?_ h
  refine Seats.same (s := setPlayer s i { (if out s then { p with fold := true } else p) with step := s.sequence })
    (a.set ?_) rfl rfl rfl rfl
  by_cases c : out s = true
  · rw [if_pos c]; exact hb
  · rw [if_neg c]; exact hb

theorem seats_bet {e : Env} {amt : Nat} {s t : Poker} (hx : L ≤ x) (a : Seats m L B x s) (h : doBet sha e amt s = .ok t) :
    Seats m L B x t := by
  unfold doBet at h
  obtain ⟨⟨i, p⟩, hp, h⟩ := Res.bind_eq_ok.1 h
  obtain ⟨_, h⟩ := chk_bind.1 h
  obtain ⟨b, _, h⟩ := Res.bind_eq_ok.1 h
  obtain ⟨hb, h⟩ := chk_bind.1 h
  have a1 : Seats m L B x (raise b s) := by
    unfold raise
    by_cases c : s.betAmount < b
    · rw [if_pos c]; exact a.same rfl rfl rfl rfl
    · rw [if_neg c]; exact a
  unfold acted at h
  refine seats_action ?_ h
  refine Seats.same (s := setPlayer (raise b s) i { p with bet := b, step := (raise b s).sequence }) (a1.set ?_) rfl rfl rfl rfl
  show b ≤ x
  rw [a.lim] at hb; omega

theorem exec_seats {e : Env} {c : Call} {w w' : W Poker} (hx : L ≤ x) (hB : B ≤ x) (a : Seats m L B x w.st)
    (h : exec sha e c w = .ok w') : Seats m L B x w'.st := by
  cases c with
  | join name commit priv =>
    obtain ⟨t, ht, rfl⟩ := keep_ok h
    unfold doJoin at ht
    obtain ⟨h0, ht⟩ := chk_bind.1 ht
    obtain ⟨_, ht⟩ := chk_bind.1 ht
    obtain ⟨hlt, ht⟩ := chk_bind.1 ht
    obtain ⟨u, hu, ht⟩ := Res.bind_eq_ok.1 ht
    obtain ⟨am, ha, ht⟩ := Res.bind_eq_ok.1 ht
    obtain ⟨hab, ht⟩ := chk_bind.1 ht
    obtain ⟨_, ht⟩ := chk_bind.1 ht
    obtain ⟨_, ht⟩ := chk_bind.1 ht
    cases name with
    | none => cases ht
    | some n =>
      simp only at ht
      obtain ⟨_, ht⟩ := chk_bind.1 ht
      obtain ⟨hj, ht⟩ := chk_bind.1 ht
      obtain ⟨s1, hs1, ht⟩ := Res.bind_eq_ok.1 ht
      obtain ⟨d, rfl⟩ : ∃ d, s1 = { w.st with deadline := d } := by
        unfold joinTime at hs1
        by_cases c : w.st.players.length = 1
        · rw [if_pos c] at hs1; exact extend_ok hs1
        · rw [if_neg c] at hs1; cases hs1; exact ⟨w.st.deadline, rfl⟩
      refine seats_start ?_ ht
      rw [a.max] at hlt
      refine ⟨a.max, ?_, a.lim, a.blind, fun p hp => ?_⟩
      · show (w.st.players ++ [_]).length ≤ m
        simp; omega
      · rcases List.mem_append.1 hp with hp | hp
        · exact a.bet p hp
        · rw [List.mem_singleton.1 hp]; show w.st.blindBet ≤ x; rw [a.blind]; exact hB
  | reveal seed next =>
    obtain ⟨t, ht, rfl⟩ := keep_ok h
    obtain ⟨s1, e1, ht⟩ := Res.bind_eq_ok.1 ht
    obtain ⟨s2, e2, ht⟩ := Res.bind_eq_ok.1 ht
    have a2 := seats_action (seats_start a e1) e2
    unfold doReveal at ht
    obtain ⟨h1, ht⟩ := chk_bind.1 ht
    obtain ⟨_, ht⟩ := chk_bind.1 ht
    obtain ⟨_, ht⟩ := chk_bind.1 ht
    obtain ⟨⟨i, p⟩, hp, ht⟩ := Res.bind_eq_ok.1 ht
    obtain ⟨_, ht⟩ := chk_bind.1 ht
    obtain ⟨_, ht⟩ := chk_bind.1 ht
    obtain ⟨_, ht⟩ := chk_bind.1 ht
    obtain ⟨u, _, _, hp, _⟩ := getPlayer_ok hp
    refine seats_reveal ?_ ht
    exact (a2.set (i := i) (q := { p with commit := if s2.round < 4 then next else [], seeds := p.seeds ++ [seed] })
      (a2.bet p (List.mem_of_getElem? hp))).same rfl rfl rfl rfl
  | bet =>
    obtain ⟨t, ht, rfl⟩ := keep_ok h
    obtain ⟨s1, e1, ht⟩ := Res.bind_eq_ok.1 ht
    obtain ⟨am, ha, ht⟩ := Res.bind_eq_ok.1 ht
    exact seats_bet hx (seats_turn a e1) ht
  | check _ =>
    obtain ⟨t, ht, rfl⟩ := keep_ok h
    obtain ⟨s1, e1, ht⟩ := Res.bind_eq_ok.1 ht
    exact seats_act (seats_turn a e1) ht
  | fold =>
    obtain ⟨t, ht, rfl⟩ := keep_ok h
    obtain ⟨s1, e1, ht⟩ := Res.bind_eq_ok.1 ht
    exact seats_act (seats_turn a e1) ht
  | «show» hand seed =>
    obtain ⟨t, ht, rfl⟩ := keep_ok h
    obtain ⟨s1, e1, ht⟩ := Res.bind_eq_ok.1 ht
    have a1 := seats_action a e1
    unfold doShow at ht
    obtain ⟨h1, ht⟩ := chk_bind.1 ht
    obtain ⟨_, ht⟩ := chk_bind.1 ht
    obtain ⟨_, ht⟩ := chk_bind.1 ht
    obtain ⟨_, ht⟩ := chk_bind.1 ht
    obtain ⟨⟨i, p⟩, hp, ht⟩ := Res.bind_eq_ok.1 ht
    obtain ⟨_, ht⟩ := chk_bind.1 ht
    obtain ⟨_, ht⟩ := chk_bind.1 ht
    obtain ⟨b, _, ht⟩ := Res.bind_eq_ok.1 ht
    obtain ⟨c0, _, ht⟩ := Res.bind_eq_ok.1 ht
    obtain ⟨c1, _, ht⟩ := Res.bind_eq_ok.1 ht
    obtain ⟨bd, _, ht⟩ := Res.bind_eq_ok.1 ht
    obtain ⟨cs, _, ht⟩ := Res.bind_eq_ok.1 ht
    obtain ⟨r, _, ht⟩ := Res.bind_eq_ok.1 ht
    obtain ⟨s2, hs2, ht⟩ := Res.bind_eq_ok.1 ht
    cases ht
    obtain ⟨u, _, _, hp, _⟩ := getPlayer_ok hp
    have a3 := a1.set (i := i) (q := { p with shown := some seed }) (a1.bet p (List.mem_of_getElem? hp))
    unfold place at hs2
    cases hw : (setPlayer s1 i { p with shown := some seed }).winHand with
    | some y =>
      have := place_some (i := i) (r := r) hw
      unfold place at this
      rw [hs2] at this; cases this
    | none =>
      rw [hw] at hs2; simp only at hs2; cases hs2
      exact a3.same rfl rfl rfl rfl
  | claim =>
    obtain ⟨s1, j, am, p, u, e1, h4, ha, hp, hcl, hu, hs⟩ := doClaim_ok h
    rw [(send_sent hs).1.st]
    have a1 := seats_start a e1
    have a2 : Seats m L B x (checkFinish e.height (w.bal s1.currency) s1) := by
      rcases checkFinish_cases e.height (w.bal s1.currency) s1 with hf | hf
      · rw [hf]; exact a1
      · rw [hf]; exact a1.same rfl rfl rfl rfl
    exact a2.set (q := { p with claim := true }) (a2.bet p (List.mem_of_getElem? hp))
  | leave =>
    have h : doLeave e w = .ok w' := h
    unfold doLeave at h
    obtain ⟨_, h⟩ := chk_bind.1 h
    obtain ⟨_, h⟩ := chk_bind.1 h
    obtain ⟨_, h⟩ := chk_bind.1 h
    obtain ⟨⟨i, p⟩, hp, h⟩ := Res.bind_eq_ok.1 h
    obtain ⟨u, hu, h⟩ := Res.bind_eq_ok.1 h
    rw [(send_sent h).1.st]
    exact ⟨a.max, Nat.zero_le _, a.lim, a.blind, fun q hq => absurd hq List.not_mem_nil⟩
  | compute =>
    obtain ⟨t, ht, rfl⟩ := keep_ok h
    exact seats_compute a ht

/-- A game deployed for `m` players with blind `b` and a limit of `l` blinds never has more than `m` seats taken, and nobody
    ever has more in it than the limit (or the blind, if the limit is zero). -/
theorem C157_limits {c b l iv : Nat} {w0 : W Poker} (hi : init c b l m iv = .ok w0) (es : List (Ev Call)) :
    let w := runEv (exec sha) w0 es
    w.st.players.length ≤ m ∧ ∀ p ∈ w.st.players, p.bet ≤ max b (l * b) := by
  have key : Seats m (l * b) b (max b (l * b)) (runEv (exec sha) w0 es).st := by
    refine runEv_inv_of (I := fun w => Seats m (l * b) b (max b (l * b)) w.st) (P := fun _ _ => True) ?_ ?_ es w0 (fun _ _ _ => trivial) ?_
    · intro w c a h; exact h
    · intro e c y y' _ h1 h
      refine exec_seats (w := arriveDep e y) (Nat.le_max_right _ _) (Nat.le_max_left _ _) ?_ h
      rw [arriveDep_st]; exact h1
    · unfold init at hi
      obtain ⟨L, hL, hi⟩ := Res.bind_eq_ok.1 hi
      obtain ⟨_, hi⟩ := chk_bind.1 hi
      obtain ⟨_, hi⟩ := chk_bind.1 hi
      cases hi
      refine ⟨rfl, Nat.zero_le _, ?_, rfl, fun p hp => (nomatch hp)⟩
      unfold cmul at hL
      by_cases hc : l * b < 2 ^ 256
      · simp only [hc, if_true] at hL; cases hL; rfl
      · simp only [hc, if_false] at hL; cases hL
  exact ⟨key.len, key.bet⟩

/-- A full table: the third player is turned away; and a bet above the limit. -/
example : viewOf (fun w => (w.st.players.map fun p => (p.addr, p.bet)))
    (gameFrom toy 2 ([joins toy 1 100, joins toy 2 100, joins toy 3 100] ++ [reveals toy false 1 0 101, reveals toy false 2 0 101,
      bets 1 41 101, bets 1 40 101])) = some [(1, 50), (2, 10)] := by decide +kernel

end Verif.Contract.Poker
