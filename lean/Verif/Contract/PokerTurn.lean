import Verif.Contract.PokerInv
/-  Who has acted in a round of bets. -/
namespace Verif.Contract.Poker
open Res
open Verif.Codec (Bytes)

/-- The counter of actions counts the players who have acted since the counter was reset. -/
structure Acts (s : Poker) : Prop where
  count : s.numActions = (s.players.filter fun p => decide (p.step = s.sequence)).length
  le : ∀ p ∈ s.players, p.step ≤ s.sequence
  who : ∀ p ∈ s.players, p.step = s.sequence → (s.state = 2 ∨ s.state = 4) ∧ s.round ≤ p.seeds.length
  pos : 1 ≤ s.sequence

theorem count_eq {α : Type} {a b : α → Bool} : ∀ {l : List α}, (∀ x ∈ l, a x = true → b x = true) →
    (l.filter a).length = (l.filter b).length → ∀ x ∈ l, b x = true → a x = true
  | [], _, _, x, hx, _ => absurd hx List.not_mem_nil
  | y :: l, hab, he, x, hx, hb => by
    have hle : ∀ m : List α, (∀ x ∈ m, a x = true → b x = true) → (m.filter a).length ≤ (m.filter b).length := by
      intro m
      induction m with
      | nil => intro _; simp
      | cons z m ih =>
        intro hm
        have := ih (fun x hx => hm x (List.mem_cons_of_mem _ hx))
        by_cases hz : a z = true
        · rw [List.filter_cons_of_pos hz, List.filter_cons_of_pos (hm z List.mem_cons_self hz)]; simp; omega
        · rw [List.filter_cons_of_neg hz]
          by_cases hz' : b z = true
          · rw [List.filter_cons_of_pos hz']; simp; omega
          · rw [List.filter_cons_of_neg hz']; exact this
    have hl := hle l (fun x hx => hab x (List.mem_cons_of_mem _ hx))
    by_cases hy : a y = true
    · have hy' := hab y List.mem_cons_self hy
      rw [List.filter_cons_of_pos hy, List.filter_cons_of_pos hy'] at he
      rcases List.mem_cons.1 hx with rfl | hx
      · exact hy
      · exact count_eq (fun x hx => hab x (List.mem_cons_of_mem _ hx)) (by simpa using he) x hx hb
    · rw [List.filter_cons_of_neg hy] at he
      by_cases hy' : b y = true
      · rw [List.filter_cons_of_pos hy'] at he; simp at he; omega
      · rw [List.filter_cons_of_neg hy'] at he
        rcases List.mem_cons.1 hx with rfl | hx
        · exact absurd hb hy'
        · exact count_eq (fun x hx => hab x (List.mem_cons_of_mem _ hx)) he x hx hb

/-- When as many have acted as are active and none of those who acted is out, all active ones have acted. -/
theorem all_acted {s : Poker} {h : Nat} (a : Acts s) (h2 : s.state = 2) (hn : s.numActions = numActive s h)
    (hf : ∀ p ∈ s.players, p.step = s.sequence → p.fold = false) :
    ∀ p ∈ s.players, isActive s h p = true → p.step = s.sequence := by
  intro p hp hact
  have := count_eq (a := fun p => decide (p.step = s.sequence)) (b := isActive s h) (l := s.players) ?_ ?_ p hp hact
  · exact of_decide_eq_true this
  · intro q hq hs
    have hs := of_decide_eq_true hs
    unfold isActive
    rw [if_neg (by rw [hf q hq hs]; simp), if_neg (by omega)]
    exact decide_eq_true (a.who q hq hs).2
  · rw [← a.count]; exact hn

theorem filter_zero {s : Poker} {n : Nat} (h : ∀ p ∈ s.players, p.step < n) :
    (s.players.filter fun p => decide (p.step = n)).length = 0 := by
  rw [List.length_eq_zero_iff, List.filter_eq_nil_iff]
  intro p hp
  have := h p hp
  simp; omega

/-- Nobody has acted. -/
theorem Acts.fresh {s : Poker} (a : Acts s) (h : s.state ≠ 2) (h4 : s.state ≠ 4) : ∀ p ∈ s.players, p.step < s.sequence := by
  intro p hp
  have := a.le p hp
  by_cases hs : p.step = s.sequence
  · have := (a.who p hp hs).1; omega
  · omega

theorem acts_start {h : Nat} {s t : Poker} (a : Acts s) (e : checkStart h s = .ok t) : Acts t := by
  unfold checkStart at e
  by_cases c : s.state = 0 ∧ 1 < s.players.length ∧ (s.maxPlayers ≤ s.players.length ∨ isTimeout s h = true)
  · rw [if_pos c] at e
    obtain ⟨d, rfl⟩ := extend_ok e
    exact ⟨a.count, a.le, fun p hp hs => by have := (a.who p hp hs).1; omega, a.pos⟩
  · rw [if_neg c] at e; cases e; exact a

theorem acts_reveal {h : Nat} {s t : Poker} (a : Acts s) (e : checkReveal h s = .ok t) : Acts t := by
  unfold checkReveal at e
  by_cases c : s.state = 1 ∧ (s.numReveals = numActive s h ∨ isTimeout s h = true)
  · rw [if_pos c] at e
    obtain ⟨d, rfl⟩ := extend_ok e
    exact ⟨a.count, a.le, fun p hp hs => by have := (a.who p hp hs).1; omega, a.pos⟩
  · rw [if_neg c] at e; cases e; exact a

variable {sha : Bytes → Bytes}

theorem nextStage_players {s t : Poker} (e : nextStage sha s = .ok t) : t.players = s.players ∧ t.sequence = s.sequence := by
  unfold nextStage at e
  by_cases c : s.round < 4
  · rw [if_pos c] at e; cases e; exact ⟨rfl, rfl⟩
  · rw [if_neg c] at e
    rcases compute_ok e with ⟨rfl, _⟩ | ⟨_, gs, b, rfl⟩ <;> exact ⟨rfl, rfl⟩

/-- The end of a round of bets. -/
theorem checkAction_ok {h : Nat} {s t : Poker} (e : checkAction sha h s = .ok t) :
    t = s ∨ (s.state = 2 ∧ (s.numActions = numActive s h ∨ isTimeout s h = true) ∧ t.players = (settle s h).players ∧
      t.sequence = s.sequence + 1 ∧ t.numActions = 0) := by
  unfold checkAction at e
  by_cases c : s.state = 2 ∧ (s.numActions = numActive s h ∨ isTimeout s h = true)
  · rw [if_pos c] at e
    obtain ⟨u, hu, e⟩ := Res.bind_eq_ok.1 e
    obtain ⟨d, rfl⟩ := extend_ok e
    have hu' : u.players = (settle s h).players ∧ u.sequence = (settle s h).sequence := by
      unfold settled at hu
      by_cases d : roundDone s h = true
      · rw [if_pos d] at hu; exact nextStage_players hu
      · rw [if_neg d] at hu; cases hu; exact ⟨rfl, rfl⟩
    have hs : (settle s h).sequence = s.sequence := by rw [settle_rest]
    exact .inr ⟨c.1, c.2, hu'.1, by show u.sequence + 1 = _; rw [hu'.2, hs], rfl⟩
  · rw [if_neg c] at e; cases e; exact .inl rfl

theorem acts_action {h : Nat} {s t : Poker} (a : Acts s) (e : checkAction sha h s = .ok t) : Acts t := by
  rcases checkAction_ok e with rfl | ⟨h2, _, hp, hs, hn⟩
  · exact a
  · obtain ⟨f, hf1, hf2⟩ := settle_players s h
    have lt : ∀ p ∈ t.players, p.step < t.sequence := by
      intro p hp'
      rw [hp, hf1] at hp'
      obtain ⟨q, hq, rfl⟩ := List.mem_map.1 hp'
      rw [(hf2 q).2.2.2.2, hs]
      have := a.le q hq; omega
    refine ⟨by rw [hn, filter_zero lt], fun p hp => Nat.le_of_lt (lt p hp), fun p hp h => absurd h (by have := lt p hp; omega), by
      rw [hs]; omega⟩

/-- A player who acted in neither or both. -/
theorem acts_set {s : Poker} {i : Nat} {p q : Player} (a : Acts s) (hp : s.players[i]? = some p) (hs : q.step = p.step)
    (hq : p.seeds.length ≤ q.seeds.length) : Acts (setPlayer s i q) := by
  refine ⟨?_, ?_, ?_, a.pos⟩
  · have := filter_set (fun r => decide (r.step = s.sequence)) (q := q) hp
    rw [hs] at this
    rw [show (setPlayer s i q).numActions = s.numActions from rfl, a.count]
    show _ = ((s.players.set i q).filter fun r => decide (r.step = s.sequence)).length
    omega
  · intro r hr
    rcases List.mem_or_eq_of_mem_set hr with hr | rfl
    · exact a.le r hr
    · rw [hs]; exact a.le p (List.mem_of_getElem? hp)
  · intro r hr h
    rcases List.mem_or_eq_of_mem_set hr with hr | rfl
    · exact a.who r hr h
    · have h : r.step = s.sequence := h
      rw [hs] at h
      have := a.who p (List.mem_of_getElem? hp) h
      exact ⟨this.1, Nat.le_trans this.2 hq⟩

/-- A player acts. -/
theorem acts_act {s : Poker} {i : Nat} {p q : Player} (a : Acts s) (h2 : s.state = 2) (hp : s.players[i]? = some p)
    (hs : p.step < s.sequence) (hq : s.round ≤ q.seeds.length) :
    Acts { setPlayer s i { q with step := s.sequence } with numActions := s.numActions + 1 } := by
  refine ⟨?_, ?_, ?_, a.pos⟩
  · have := filter_set (fun r => decide (r.step = s.sequence)) (q := { q with step := s.sequence }) hp
    rw [if_neg (by simp; omega), if_pos (by simp)] at this
    show s.numActions + 1 = ((s.players.set i _).filter fun r => decide (r.step = s.sequence)).length
    rw [a.count]; omega
  · intro r hr
    rcases List.mem_or_eq_of_mem_set hr with hr | rfl
    · exact a.le r hr
    · exact Nat.le_refl _
  · intro r hr h
    rcases List.mem_or_eq_of_mem_set hr with hr | rfl
    · exact a.who r hr h
    · exact ⟨.inl h2, hq⟩

/-- The changes of storage that leave these fields. -/
theorem Acts.same {s t : Poker} (a : Acts s) (h1 : t.numActions = s.numActions) (h2 : t.players = s.players) (h3 : t.sequence = s.sequence)
    (h4 : t.state = s.state) (h5 : t.round = s.round) : Acts t :=
  ⟨by rw [h1, h2, h3]; exact a.count, by rw [h2, h3]; exact a.le, by rw [h2, h3, h4, h5]; exact a.who, by rw [h3]; exact a.pos⟩

/-- What the players of a call to act are before `check_action`. -/
theorem active_seeds {s : Poker} {h : Nat} {p : Player} (h2 : s.state = 2) (ha : isActive s h p = true) : s.round ≤ p.seeds.length := by
  unfold isActive at ha
  by_cases hf : p.fold = true
  · rw [if_pos hf] at ha; cases ha
  · rw [if_neg hf, if_neg (by omega)] at ha
    exact of_decide_eq_true ha

theorem active_fold {s : Poker} {h : Nat} {p : Player} (ha : isActive s h p = true) : p.fold = false := by
  unfold isActive at ha
  cases hf : p.fold with
  | false => rfl
  | true => rw [hf] at ha; simp at ha

/-- `bet`, `check`, `fold`: the state in which `check_action` runs. -/
structure Acted (e : Env) (s v t : Poker) (sha : Bytes → Bytes) : Prop where
  acts : Acts v
  st : v.state = 2
  seq : v.sequence = s.sequence
  time : isTimeout v e.height = false
  fin : checkAction sha e.height v = .ok t
  rest : ∃ i p q, e.user = some p.addr ∧ s.players[i]? = some p ∧ v.players = s.players.set i q ∧ q.addr = p.addr ∧
    q.step = s.sequence ∧ p.fold = false

theorem turn_acts {e : Env} {s t : Poker} (a : Acts s) (h : turn e s = .ok t) :
    Acts t ∧ t.state = 2 ∧ isTimeout t e.height = false ∧ t.players = s.players ∧ t.sequence = s.sequence ∧ t.index = s.index := by
  unfold turn at h
  obtain ⟨u, hu, h⟩ := Res.bind_eq_ok.1 h
  obtain ⟨h2, h⟩ := chk_bind.1 h
  obtain ⟨h3, h⟩ := chk_bind.1 h
  cases h
  refine ⟨acts_reveal a hu, h2, by simpa using h3, ?_⟩
  unfold checkReveal at hu
  by_cases c : s.state = 1 ∧ (s.numReveals = numActive s e.height ∨ isTimeout s e.height = true)
  · rw [if_pos c] at hu
    obtain ⟨d, rfl⟩ := extend_ok hu
    exact ⟨rfl, rfl, rfl⟩
  · rw [if_neg c] at hu; cases hu; exact ⟨rfl, rfl, rfl⟩

theorem doAct_acted {e : Env} {out : Poker → Bool} {s0 s t : Poker} (g : Good s0) (a0 : Acts s0) (ht : turn e s0 = .ok s)
    (h : doAct sha e out s = .ok t) :
    ∃ v, Acted e s0 v t sha ∧ (out s = false → ∀ (j : Nat) (q : Player), v.players[j]? = some q → q.fold = true →
      ∃ p : Player, s0.players[j]? = some p ∧ p.fold = true) := by
  obtain ⟨a, h2, hto, hpl, hsq, hix⟩ := turn_acts a0 ht
  unfold doAct at h
  obtain ⟨⟨i, p⟩, hp, h⟩ := Res.bind_eq_ok.1 h
  obtain ⟨hlt, h⟩ := chk_bind.1 h
  obtain ⟨u, hu, hi, hp, hact⟩ := getPlayer_ok hp
  have hact := hact rfl
  have hp0 : s0.players[i]? = some p := by rw [← hpl]; exact hp
  obtain ⟨p', hp', ha⟩ := g.idx u i (by rw [← hix]; exact hi)
  rw [hp0] at hp'; cases hp'
  have hr := active_seeds h2 hact
  have main : ∀ q : Player, q.addr = p.addr → q.seeds = p.seeds → (acted sha e s i q = .ok t) →
      Acted e s0 { setPlayer s i { q with step := s.sequence } with numActions := s.numActions + 1 } t sha := by
    intro q hqa hqs hc
    exact ⟨acts_act a h2 hp hlt (by rw [hqs]; exact hr), h2, hsq, hto, hc, i, p, { q with step := s.sequence },
      by rw [hu, ha], hp0, by show s.players.set i _ = _; rw [hpl], hqa, hsq, active_fold hact⟩
  by_cases c : out s = true
  · rw [if_pos c] at h
    exact ⟨_, main { p with fold := true } rfl rfl h, fun hf => by rw [c] at hf; cases hf⟩
  · rw [if_neg c] at h
    refine ⟨_, main p rfl rfl h, fun _ j q hq hf => ?_⟩
    have hq : (s.players.set i { p with step := s.sequence })[j]? = some q := hq
    by_cases hij : i = j
    · subst hij
      have hil : i < s.players.length := by
        by_cases hh : i < s.players.length
        · exact hh
        · rw [List.getElem?_eq_none (by omega)] at hp; cases hp
      rw [List.getElem?_set_self hil] at hq; cases hq
      exact ⟨p, hp0, hf⟩
    · rw [List.getElem?_set_ne hij] at hq
      exact ⟨q, by rw [← hpl]; exact hq, hf⟩

theorem doBet_acted {e : Env} {amt : Nat} {s0 s t : Poker} (g : Good s0) (a0 : Acts s0) (ht : turn e s0 = .ok s)
    (h : doBet sha e amt s = .ok t) :
    ∃ v, Acted e s0 v t sha ∧ ∀ (j : Nat) (q : Player), v.players[j]? = some q → q.fold = true → ∃ p : Player, s0.players[j]? = some p ∧ p.fold = true := by
  obtain ⟨a, h2, hto, hpl, hsq, hix⟩ := turn_acts a0 ht
  unfold doBet at h
  obtain ⟨⟨i, p⟩, hp, h⟩ := Res.bind_eq_ok.1 h
  obtain ⟨hlt, h⟩ := chk_bind.1 h
  obtain ⟨b, _, h⟩ := Res.bind_eq_ok.1 h
  obtain ⟨_, h⟩ := chk_bind.1 h
  obtain ⟨u, hu, hi, hp, hact⟩ := getPlayer_ok hp
  have hact := hact rfl
  have hp0 : s0.players[i]? = some p := by rw [← hpl]; exact hp
  obtain ⟨p', hp', ha⟩ := g.idx u i (by rw [← hix]; exact hi)
  rw [hp0] at hp'; cases hp'
  have hr := active_seeds h2 hact
  have hs1 : ∃ ir ba, raise b s = { s with isRaise := ir, betAmount := ba } := by
    unfold raise
    by_cases c : s.betAmount < b
    · rw [if_pos c]; exact ⟨_, _, rfl⟩
    · rw [if_neg c]; exact ⟨s.isRaise, s.betAmount, rfl⟩
  obtain ⟨ir, ba, hs1⟩ := hs1
  rw [hs1] at h
  have a1 : Acts { s with isRaise := ir, betAmount := ba } := a.same rfl rfl rfl rfl rfl
  refine ⟨_, ⟨acts_act (q := { p with bet := b }) a1 h2 hp hlt hr, h2, hsq, hto, h, i, p, { p with bet := b, step := s.sequence },
    by rw [hu, ha], hp0, by show s.players.set i _ = _; rw [hpl], rfl, hsq, active_fold hact⟩, fun j q hq hf => ?_⟩
  have hq : (s.players.set i { p with bet := b, step := s.sequence })[j]? = some q := hq
  by_cases hij : i = j
  · subst hij
    have hil : i < s.players.length := by
      by_cases hh : i < s.players.length
      · exact hh
      · rw [List.getElem?_eq_none (by omega)] at hp; cases hp
    rw [List.getElem?_set_self hil] at hq; cases hq
    exact ⟨p, hp0, hf⟩
  · rw [List.getElem?_set_ne hij] at hq
    exact ⟨q, by rw [← hpl]; exact hq, hf⟩

theorem exec_acts {e : Env} {c : Call} {w w' : W Poker} (g : Good w.st) (a : Acts w.st) (h : exec sha e c w = .ok w') : Acts w'.st := by
  cases c with
  | join name commit priv =>
    obtain ⟨t, ht, rfl⟩ := keep_ok h
    unfold doJoin at ht
    obtain ⟨h0, ht⟩ := chk_bind.1 ht
    obtain ⟨_, ht⟩ := chk_bind.1 ht
    obtain ⟨_, ht⟩ := chk_bind.1 ht
    obtain ⟨u, hu, ht⟩ := Res.bind_eq_ok.1 ht
    obtain ⟨am, ha, ht⟩ := Res.bind_eq_ok.1 ht
    obtain ⟨hab, ht⟩ := chk_bind.1 ht
    obtain ⟨_, ht⟩ := chk_bind.1 ht
    obtain ⟨_, ht⟩ := chk_bind.1 ht
    cases name with
    | none => cases ht
    | some n =>
      simp only at ht
      obtain ⟨_, ht⟩ := chk_bind.1 ht
      obtain ⟨hj, ht⟩ := chk_bind.1 ht
      obtain ⟨s1, hs1, ht⟩ := Res.bind_eq_ok.1 ht
      obtain ⟨d, rfl⟩ : ∃ d, s1 = { w.st with deadline := d } := by
        unfold joinTime at hs1
        by_cases c : w.st.players.length = 1
        · rw [if_pos c] at hs1; exact extend_ok hs1
        · rw [if_neg c] at hs1; cases hs1; exact ⟨w.st.deadline, rfl⟩
      refine acts_start ?_ ht
      have hf := a.fresh (by omega) (by omega)
      have lt : ∀ p ∈ w.st.players ++ [(⟨u, 0, w.st.blindBet, [], commit, priv, none, false, false⟩ : Player)], p.step < w.st.sequence := by
        intro p hp
        rcases List.mem_append.1 hp with hp | hp
        · exact hf p hp
        · rw [List.mem_singleton.1 hp]; have := a.pos; show 0 < _; omega
      have hn : w.st.numActions = 0 := by rw [a.count, filter_zero hf]
      refine ⟨?_, fun p hp => Nat.le_of_lt (lt p hp), fun p hp hs => absurd hs (by have := lt p hp; show ¬ p.step = w.st.sequence; omega), a.pos⟩
      show w.st.numActions = ((w.st.players ++ [(⟨u, 0, w.st.blindBet, [], commit, priv, none, false, false⟩ : Player)]).filter
        fun p => decide (p.step = w.st.sequence)).length
      rw [hn]
      symm
      rw [List.length_eq_zero_iff, List.filter_eq_nil_iff]
      intro p hp
      have := lt p hp
      simp; omega
  | reveal seed next =>
    obtain ⟨t, ht, rfl⟩ := keep_ok h
    obtain ⟨s1, e1, ht⟩ := Res.bind_eq_ok.1 ht
    obtain ⟨s2, e2, ht⟩ := Res.bind_eq_ok.1 ht
    have a2 := acts_action (acts_start a e1) e2
    unfold doReveal at ht
    obtain ⟨h1, ht⟩ := chk_bind.1 ht
    obtain ⟨_, ht⟩ := chk_bind.1 ht
    obtain ⟨_, ht⟩ := chk_bind.1 ht
    obtain ⟨⟨i, p⟩, hp, ht⟩ := Res.bind_eq_ok.1 ht
    obtain ⟨_, ht⟩ := chk_bind.1 ht
    obtain ⟨_, ht⟩ := chk_bind.1 ht
    obtain ⟨_, ht⟩ := chk_bind.1 ht
    obtain ⟨u, _, _, hp, _⟩ := getPlayer_ok hp
    refine acts_reveal ?_ ht
    exact (acts_set (q := { p with commit := if s2.round < 4 then next else [], seeds := p.seeds ++ [seed] }) a2 hp rfl
      (by simp)).same rfl rfl rfl rfl rfl
  | bet =>
    obtain ⟨t, ht, rfl⟩ := keep_ok h
    obtain ⟨s1, e1, ht⟩ := Res.bind_eq_ok.1 ht
    obtain ⟨am, ha, ht⟩ := Res.bind_eq_ok.1 ht
    obtain ⟨v, hv, _⟩ := doBet_acted g a e1 ht
    exact acts_action hv.acts hv.fin
  | check _ =>
    obtain ⟨t, ht, rfl⟩ := keep_ok h
    obtain ⟨s1, e1, ht⟩ := Res.bind_eq_ok.1 ht
    obtain ⟨v, hv, _⟩ := doAct_acted g a e1 ht
    exact acts_action hv.acts hv.fin
  | fold =>
    obtain ⟨t, ht, rfl⟩ := keep_ok h
    obtain ⟨s1, e1, ht⟩ := Res.bind_eq_ok.1 ht
    obtain ⟨v, hv, _⟩ := doAct_acted g a e1 ht
    exact acts_action hv.acts hv.fin
  | «show» hand seed =>
    obtain ⟨t, ht, rfl⟩ := keep_ok h
    obtain ⟨s1, e1, ht⟩ := Res.bind_eq_ok.1 ht
    have a1 := acts_action a e1
    unfold doShow at ht
    obtain ⟨h1, ht⟩ := chk_bind.1 ht
    obtain ⟨_, ht⟩ := chk_bind.1 ht
    obtain ⟨_, ht⟩ := chk_bind.1 ht
    obtain ⟨_, ht⟩ := chk_bind.1 ht
    obtain ⟨⟨i, p⟩, hp, ht⟩ := Res.bind_eq_ok.1 ht
    obtain ⟨_, ht⟩ := chk_bind.1 ht
    obtain ⟨_, ht⟩ := chk_bind.1 ht
    obtain ⟨b, _, ht⟩ := Res.bind_eq_ok.1 ht
    obtain ⟨c0, _, ht⟩ := Res.bind_eq_ok.1 ht
    obtain ⟨c1, _, ht⟩ := Res.bind_eq_ok.1 ht
    obtain ⟨bd, _, ht⟩ := Res.bind_eq_ok.1 ht
    obtain ⟨cs, _, ht⟩ := Res.bind_eq_ok.1 ht
    obtain ⟨r, _, ht⟩ := Res.bind_eq_ok.1 ht
    obtain ⟨s2, hs2, ht⟩ := Res.bind_eq_ok.1 ht
    cases ht
    obtain ⟨u, _, _, hp, _⟩ := getPlayer_ok hp
    have a3 := acts_set (q := { p with shown := some seed }) a1 hp rfl (Nat.le_refl _)
    unfold place at hs2
    cases hw : (setPlayer s1 i { p with shown := some seed }).winHand with
    | some x =>
      have := place_some (i := i) (r := r) hw
      unfold place at this
      rw [hs2] at this; cases this
    | none =>
      rw [hw] at hs2; simp only at hs2; cases hs2
      exact a3.same rfl rfl rfl rfl rfl
  | claim =>
    obtain ⟨s1, j, am, p, u, e1, h4, ha, hp, hcl, hu, hs⟩ := doClaim_ok h
    rw [(send_sent hs).1.st]
    have a1 := acts_start a e1
    have a2 : Acts (checkFinish e.height (w.bal s1.currency) s1) := by
      rcases checkFinish_cases e.height (w.bal s1.currency) s1 with hf | hf
      · rw [hf]; exact a1
      · rw [hf]; exact ⟨a1.count, a1.le, fun p hp hs => ⟨.inr rfl, (a1.who p hp hs).2⟩, a1.pos⟩
    exact acts_set (q := { p with claim := true }) a2 hp rfl (Nat.le_refl _)
  | leave =>
    have : doLeave e w = .ok w' := h
    rw [leave_fails g] at this; cases this
  | compute =>
    obtain ⟨t, ht, rfl⟩ := keep_ok h
    rcases compute_ok ht with ⟨rfl, _⟩ | ⟨_, gs, b, rfl⟩
    · exact a
    · exact a.same rfl rfl rfl rfl rfl

theorem run_acts {c b l m iv : Nat} {w : W Poker} (h : init c b l m iv = .ok w) (es : List (Ev Call)) :
    Acts (runEv (exec sha) w es).st := by
  have key : Inv (runEv (exec sha) w es) ∧ Acts (runEv (exec sha) w es).st := by
    refine runEv_inv_of (I := fun w => Inv w ∧ Acts w.st) (P := fun _ _ => True) ?_ ?_ es w (fun _ _ _ => trivial) ⟨init_inv h, ?_⟩
    · rintro w c a ⟨h1, h2⟩; exact ⟨arrive_inv h1, h2⟩
    · rintro e c x x' - ⟨h1, h2⟩ h
      refine ⟨exec_inv h1 h, exec_acts (w := arriveDep e x) ?_ ?_ h⟩
      · rw [arriveDep_st]; exact h1.good
      · rw [arriveDep_st]; exact h2
    · unfold init at h
      obtain ⟨_, _, h⟩ := Res.bind_eq_ok.1 h
      obtain ⟨_, h⟩ := chk_bind.1 h
      obtain ⟨_, h⟩ := chk_bind.1 h
      cases h
      exact ⟨rfl, fun p hp => (nomatch hp), fun p hp => (nomatch hp), Nat.le_refl _⟩
  exact key.2

end Verif.Contract.Poker
