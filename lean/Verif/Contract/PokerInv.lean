import Verif.Contract.PokerLemmas
/-  The money in the poker contract. -/
namespace Verif.Contract.Poker
open Res
open Verif.Codec (Bytes)

/-- The number of seats of `u` that have claimed. -/
def claimed (s : Poker) (u : Nat) : Nat := (s.players.filter fun p => decide (p.addr = u ∧ p.claim = true)).length

structure Inv (w : W Poker) : Prop where
  good : Good w.st
  run : w.st.state < 4 → betSum w.st ≤ w.bal w.st.currency ∧ w.pays = []
  fin : w.st.state = 4 → owed w.st ≤ w.bal w.st.currency
  once : ∀ u, (w.pays.filter fun q => decide (q.to = u)).length ≤ claimed w.st u
  what : ∀ q ∈ w.pays, q.cur = w.st.currency ∧ q.user = some q.to ∧
    ∃ i p, w.st.players[i]? = some p ∧ p.addr = q.to ∧ p.claim = true ∧ q.amount = share w.st i p

theorem isActive_ne {s : Poker} (h : s.state ≠ 1) (a b : Nat) (p : Player) : isActive s a p = isActive s b p := by
  have ha : ¬ (s.state = 1 ∧ isTimeout s a = true) := fun c => h c.1
  have hb : ¬ (s.state = 1 ∧ isTimeout s b = true) := fun c => h c.1
  unfold isActive
  rw [if_neg ha, if_neg hb]

theorem numActive_ne {s : Poker} (h : s.state ≠ 1) (a b : Nat) : numActive s a = numActive s b := by
  unfold numActive
  congr 2
  funext p
  exact isActive_ne h a b p

theorem filter_set (f : Player → Bool) {l : List Player} {i : Nat} {p q : Player} (h : l[i]? = some p) :
    ((l.set i q).filter f).length + (if f p then 1 else 0) = (l.filter f).length + (if f q then 1 else 0) := by
  have := sumFrom_set (fun _ p => if f p then 1 else 0) l 0 i p q h
  rwa [sumFrom_filter, sumFrom_filter, Nat.mul_one, Nat.mul_one] at this

/-- A claim leaves the shares as they are. -/
theorem share_claim {s : Poker} {i : Nat} {p : Player} (hp : s.players[i]? = some p) (j : Nat) (q : Player) :
    share (setPlayer s i { p with claim := true }) j q = share s j q := by
  have ha : ∀ r, isActive (setPlayer s i { p with claim := true }) 0 r = isActive s 0 r := fun r => rfl
  have hn : numActive (setPlayer s i { p with claim := true }) 0 = numActive s 0 := by
    unfold numActive
    have := filter_set (isActive s 0) (q := { p with claim := true }) hp
    have e : isActive s 0 { p with claim := true } = isActive s 0 p := rfl
    rw [e] at this
    show ((s.players.set i _).filter (isActive s 0)).length = _
    omega
  unfold share
  rw [hn, ha]
  rfl

theorem share_claimed {s : Poker} {p : Player} (j : Nat) :
    share s j { p with claim := true } = share s j p := rfl

/-- Entering the last state. -/
theorem owed_finish {s : Poker} {pot : Nat} (g : Good s) (hb : betSum s ≤ pot) :
    owed { s with finalPot := pot, state := 4 } ≤ pot := by
  have mono : ∀ (f : Nat → Player → Nat) (l : List Player) (k : Nat),
      sumFrom (fun i p => if p.claim then 0 else f i p) k l ≤ sumFrom f k l := by
    intro f l
    induction l with
    | nil => intro k; exact Nat.le_refl _
    | cons x l ih =>
      intro k
      have := ih (k + 1)
      simp only [sumFrom]
      by_cases c : x.claim = true
      · rw [if_pos c]; omega
      · rw [if_neg c]; omega
  refine Nat.le_trans (mono _ _ _) ?_
  show sumFrom _ 0 s.players ≤ pot
  rcases g.win with hw | ⟨j, p, hw, _⟩
  · by_cases ha : 0 < numActive { s with finalPot := pot, state := 4 } 0
    · rw [sumFrom_congr (g := fun _ p => if isActive { s with finalPot := pot, state := 4 } 0 p then
        pot / numActive { s with finalPot := pot, state := 4 } 0 else 0)]
      · rw [sumFrom_filter]
        exact Nat.mul_div_le _ _
      · intro i p _
        unfold share
        rw [if_neg (fun h => h hw), if_pos ha]
    · rw [sumFrom_congr (g := fun _ p => p.bet)]
      · rw [sumFrom_bet]; exact hb
      · intro i p _
        unfold share
        rw [if_neg (fun h => h hw), if_neg ha]
  · rw [sumFrom_congr (g := fun i _ => if i = j then pot else 0)]
    · exact (sumFrom_single j pot _ 0).1
    · intro i p _
      unfold share
      rw [if_pos (by show s.winners ≠ []; rw [hw]; simp)]
      show (if 0 + i ∈ s.winners then pot / s.winners.length else 0) = _
      rw [hw]
      by_cases c : i = j
      · subst c; simp
      · rw [if_neg (by simpa using c), if_neg (by simpa using c)]

/-- A finished game is not changed by `check_finish` in any way that matters. -/
theorem finish_again {s : Poker} {h pot : Nat} (g : Good s) (h4 : s.state = 4) :
    ∃ f, checkFinish h pot s = { s with finalPot := f } ∧ ∀ i p, share { s with finalPot := f } i p = share s i p := by
  unfold checkFinish
  by_cases c : s.state = 0 ∨ s.finalPot ≠ 0
  · rw [if_pos c]; exact ⟨s.finalPot, rfl, fun _ _ => rfl⟩
  · rw [if_neg c]
    by_cases d : (s.state = 3 ∨ numActive s h = 0) ∧ (s.numReveals = numActive s h ∨ isTimeout s h = true)
    · rw [if_pos d]
      refine ⟨pot, ?_, fun i p => ?_⟩
      · have : s = { s with state := 4 } := by cases s; simp at h4; subst h4; rfl
        exact this ▸ rfl
      · have hn : numActive s 0 = 0 := by
          rw [numActive_ne (by omega) 0 h]; omega
        have hw : s.winners = [] := by
          rcases g.win with hw | ⟨j, p, hw, hp, hf, hr⟩
          · exact hw
          · have : p ∈ s.players.filter (isActive s 0) := by
              refine List.mem_filter.2 ⟨List.mem_of_getElem? hp, ?_⟩
              unfold isActive
              rw [if_neg (by rw [hf]; simp), if_neg (by omega)]
              exact decide_eq_true hr
            have := List.length_pos_of_mem this
            unfold numActive at hn
            omega
        have e1 : ∀ t : Poker, t.winners = [] → numActive t 0 = 0 → share t i p = p.bet := by
          intro t h1 h2
          unfold share
          rw [if_neg (fun x => x h1), if_neg (by omega)]
        exact (e1 { s with finalPot := pot } hw hn).trans (e1 s hw hn).symm
    · rw [if_neg d]; exact ⟨s.finalPot, rfl, fun _ _ => rfl⟩

theorem lastOf_some {s : Poker} {user : Option Nat} : ∀ {l : List Nat} {i : Nat}, lastOf s user l = some i →
    i ∈ l ∧ ∃ p, s.players[i]? = some p ∧ user = some p.addr
  | [], i, h => by cases h
  | x :: l, i, h => by
    unfold lastOf at h
    cases hl : lastOf s user l with
    | some j =>
      rw [hl] at h; simp only at h; cases h
      obtain ⟨h1, h2⟩ := lastOf_some hl
      exact ⟨List.mem_cons_of_mem _ h1, h2⟩
    | none =>
      rw [hl] at h; simp only at h
      by_cases c : (s.players[x]?.map fun p => p.addr) = user ∧ user.isSome = true
      · rw [if_pos c] at h; cases h
        refine ⟨List.mem_cons_self, ?_⟩
        cases hp : s.players[x]? with
        | none => rw [hp] at c; simp at c; rw [← c.1] at c; simp at c
        | some p => rw [hp] at c; exact ⟨p, rfl, c.1.symm⟩
      · rw [if_neg c] at h; cases h

theorem claimant_ok {s : Poker} {h : Nat} {user : Option Nat} {i a : Nat} (g : Good s) (h4 : s.state = 4)
    (e : claimant s h user = .ok (i, a)) :
    ∃ p, s.players[i]? = some p ∧ user = some p.addr ∧ a = share s i p := by
  unfold claimant at e
  by_cases c : s.winners ≠ []
  · rw [if_pos c] at e
    cases hl : lastOf s user s.winners with
    | none => rw [hl] at e; cases e
    | some j =>
      rw [hl] at e; simp only at e; cases e
      obtain ⟨hm, p, hp, hu⟩ := lastOf_some hl
      exact ⟨p, hp, hu, by unfold share; rw [if_pos c, if_pos hm]⟩
  · rw [if_neg c] at e
    by_cases d : 0 < numActive s h
    · rw [if_pos d] at e
      cases hl : lastOf s user (activeIdx s h) with
      | none => rw [hl] at e; cases e
      | some j =>
        rw [hl] at e; simp only at e; cases e
        obtain ⟨hm, p, hp, hu⟩ := lastOf_some hl
        refine ⟨p, hp, hu, ?_⟩
        have ha : isActive s 0 p = true := by
          unfold activeIdx at hm
          have := (List.mem_filter.1 hm).2
          rw [hp] at this
          simp at this
          rw [isActive_ne (by omega) 0 h]; exact this
        unfold share
        rw [if_neg c, numActive_ne (by omega) 0 h, if_pos d, if_pos ha]
    · rw [if_neg d] at e
      obtain ⟨⟨j, p⟩, hg, e⟩ := Res.bind_eq_ok.1 e
      cases e
      obtain ⟨u, hu, hi, hp, _⟩ := getPlayer_ok hg
      obtain ⟨q, hq, hqa⟩ := g.idx u i hi
      rw [hp] at hq; cases hq
      refine ⟨p, hp, by rw [hu, hqa], ?_⟩
      unfold share
      rw [if_neg c, numActive_ne (by omega) 0 h, if_neg d]

theorem claimed_set {s : Poker} {i : Nat} {p : Player} (hp : s.players[i]? = some p) (hc : p.claim = false) (u : Nat) :
    claimed (setPlayer s i { p with claim := true }) u = claimed s u + if p.addr = u then 1 else 0 := by
  have := filter_set (fun p => decide (p.addr = u ∧ p.claim = true)) (q := { p with claim := true }) hp
  have h1 : ¬ (decide (p.addr = u ∧ p.claim = true) = true) := by simp [hc]
  rw [if_neg h1] at this
  unfold claimed
  show ((s.players.set i _).filter _).length = _
  by_cases c : p.addr = u
  · rw [if_pos c]; rw [if_pos (by simpa using c)] at this; omega
  · rw [if_neg c]; rw [if_neg (by simpa using c)] at this; omega

/-- One claim in a finished game. -/
theorem claim_inv {w : W Poker} {s : Poker} {i a u : Nat} {p : Player} {e : Env} {w' : W Poker} (g : Good s) (h4 : s.state = 4)
    (ho : owed s ≤ w.bal s.currency)
    (honce : ∀ u, (w.pays.filter fun q => decide (q.to = u)).length ≤ claimed s u)
    (hwhat : ∀ q ∈ w.pays, q.cur = s.currency ∧ q.user = some q.to ∧
      ∃ i p, s.players[i]? = some p ∧ p.addr = q.to ∧ p.claim = true ∧ q.amount = share s i p)
    (hp : s.players[i]? = some p) (hc : p.claim = false) (hu : e.user = some p.addr) (hu' : e.user = some u)
    (ha : a = share s i p)
    (h : send e u a s.currency { w with st := setPlayer s i { p with claim := true } } = .ok w') : Inv w' := by
  obtain ⟨sent, _, _⟩ := send_sent h
  have hst : w'.st = setPlayer s i { p with claim := true } := sent.st
  have hcur : w'.st.currency = s.currency := by rw [hst]; rfl
  have hup : u = p.addr := by rw [hu'] at hu; exact Option.some.inj hu
  have hil : i < s.players.length := by
    by_cases h : i < s.players.length
    · exact h
    · rw [List.getElem?_eq_none (by omega)] at hp; cases hp
  have get : ∀ j, (setPlayer s i { p with claim := true }).players[j]? =
      if j = i then some { p with claim := true } else s.players[j]? := by
    intro j
    show (s.players.set i _)[j]? = _
    by_cases hj : j = i
    · subst hj; rw [if_pos rfl, List.getElem?_set_self hil]
    · rw [if_neg hj, List.getElem?_set_ne (fun e => hj e.symm)]
  have hs4 : w'.st.state = 4 := by rw [hst]; exact h4
  have hg : Good w'.st := by
    rw [hst]
    refine ⟨g.le4, fun hl => g.few (by simpa [setPlayer] using hl), g.early, fun hl => ?_, ?_, g.hand, ?_, ?_⟩
    · exact absurd hl (by show ¬ s.state < 4; omega)
    · rcases g.win with w | ⟨j, r, h1, h2, h3, h5⟩
      · exact .inl w
      · by_cases hj : j = i
        · subst hj
          rw [hp] at h2; cases h2
          exact .inr ⟨j, { p with claim := true }, h1, by rw [get, if_pos rfl], h3, h5⟩
        · exact .inr ⟨j, r, h1, by rw [get, if_neg hj]; exact h2, h3, h5⟩
    · intro v j hj
      obtain ⟨x, hx, hxa⟩ := g.idx v j hj
      by_cases hji : j = i
      · subst hji
        rw [hp] at hx; cases hx
        exact ⟨{ p with claim := true }, by rw [get, if_pos rfl], hxa⟩
      · exact ⟨x, by rw [get, if_neg hji]; exact hx, hxa⟩
    · intro j x hx
      rw [get] at hx
      show s.index x.addr = _ ∨ _
      by_cases hji : j = i
      · subst hji
        rw [if_pos rfl] at hx; cases hx
        exact g.own j p hp
      · rw [if_neg hji] at hx; exact g.own j x hx
  have howed : owed w'.st + a = owed s := by
    rw [hst]
    unfold owed
    have := sumFrom_set (fun i p => if p.claim then 0 else share s i p) s.players 0 i p { p with claim := true } hp
    rw [if_neg (by rw [hc]; simp), if_pos rfl, Nat.zero_add, ← ha, Nat.add_zero] at this
    rw [← this]
    congr 1
    show sumFrom _ 0 (s.players.set i _) = _
    refine sumFrom_congr _ _ fun j q _ => ?_
    rw [share_claim hp]
  refine ⟨hg, fun hl => absurd hl (by omega), fun _ => ?_, fun v => ?_, fun q hq => ?_⟩
  · rw [hcur]
    have hb := sent.bal s.currency
    rw [paid_sends, if_pos rfl] at hb
    simp only at hb
    omega
  · rw [sent.pays, hst, claimed_set hp hc]
    show ((w.pays ++ sends e u a s.currency).filter _).length ≤ _
    rw [List.filter_append, List.length_append]
    have h1 := honce v
    have h2 : ((sends e u a s.currency).filter fun q => decide (q.to = v)).length ≤ if p.addr = v then 1 else 0 := by
      unfold sends
      by_cases c : a = 0
      · rw [if_pos c]; simp
      · rw [if_neg c]
        by_cases d : p.addr = v
        · rw [if_pos d, List.filter_cons_of_pos (by simp; rw [hup]; exact d)]; simp
        · rw [if_neg d, List.filter_cons_of_neg (by simp; rw [hup]; exact d)]; simp
    omega
  · rw [sent.pays] at hq
    rcases List.mem_append.1 hq with hq | hq
    · obtain ⟨h1, h2, j, r, hr, hra, hrc, hram⟩ := hwhat q hq
      have hji : j ≠ i := by
        intro hji; subst hji; rw [hp] at hr; cases hr; rw [hc] at hrc; cases hrc
      refine ⟨by rw [hcur]; exact h1, h2, j, r, by rw [hst, get, if_neg hji]; exact hr, hra, hrc, ?_⟩
      rw [hst, share_claim hp]; exact hram
    · obtain ⟨rfl, _⟩ := mem_sends hq
      refine ⟨hcur.symm, hu', i, { p with claim := true }, by rw [hst, get, if_pos rfl], hup.symm, rfl, ?_⟩
      rw [hst, share_claim hp]; exact ha

theorem owed_congr {s t : Poker} (hp : t.players = s.players) (h : ∀ i p, share t i p = share s i p) : owed t = owed s := by
  unfold owed
  rw [hp]
  exact sumFrom_congr _ _ fun i p _ => by rw [h]

theorem arriveDep_le {S : Type} (e : Env) (w : W S) (c : Nat) : w.bal c ≤ (arriveDep e w).bal c := by
  unfold arriveDep
  cases e.dep with
  | none => exact Nat.le_refl _
  | some x =>
    obtain ⟨d, a⟩ := x
    show _ ≤ upd w.bal d (w.bal d + a) c
    by_cases h : c = d
    · subst h; rw [upd_self]; omega
    · rw [upd_ne _ h]; exact Nat.le_refl _

theorem arriveDep_dep {S : Type} {e : Env} {w : W S} {c a : Nat} (h : e.dep = some (c, a)) :
    (arriveDep e w).bal c = w.bal c + a := by
  unfold arriveDep
  rw [h]
  show upd w.bal c (w.bal c + a) c = _
  rw [upd_self]

theorem keep_ok {w w' : W Poker} {r : Res Poker} (h : keep w r = .ok w') : ∃ t, r = .ok t ∧ w' = { w with st := t } := by
  unfold keep at h
  obtain ⟨t, ht, h⟩ := Res.bind_eq_ok.1 h
  exact ⟨t, ht, (Res.ok.inj h).symm⟩

/-- In a finished game only claiming does something. -/
theorem checkStart_four {s t : Poker} {h : Nat} (h4 : s.state = 4) (e : checkStart h s = .ok t) : t = s := by
  unfold checkStart at e; rw [if_neg (by omega)] at e; exact (Res.ok.inj e).symm
theorem checkReveal_four {s t : Poker} {h : Nat} (h4 : s.state = 4) (e : checkReveal h s = .ok t) : t = s := by
  unfold checkReveal at e; rw [if_neg (by omega)] at e; exact (Res.ok.inj e).symm

variable {sha : Bytes → Bytes}

theorem checkAction_four {s t : Poker} {h : Nat} (h4 : s.state = 4) (e : checkAction sha h s = .ok t) : t = s := by
  unfold checkAction at e; rw [if_neg (by omega)] at e; exact (Res.ok.inj e).symm

/-- What a call other than `claim` and `leave` does to the storage. -/
theorem storage_step {e : Env} {c : Call} {w w' : W Poker} (g : Good w.st) (hc : c ≠ .claim) (hl : c ≠ .leave)
    (h : exec sha e c w = .ok w') :
    (w.st.state = 4 ∧ w' = w) ∨
    (w.st.state < 4 ∧ ∃ t a, w' = { w with st := t } ∧ FrBy a w.st t ∧ (a = 0 ∨ e.dep = some (w.st.currency, a))) := by
  by_cases h4 : w.st.state = 4
  · refine .inl ⟨h4, ?_⟩
    have bad : ∀ {t : Poker}, turn e w.st = .ok t → False := by
      intro t ht
      unfold turn at ht
      obtain ⟨u, hu, ht⟩ := Res.bind_eq_ok.1 ht
      obtain ⟨h2, ht⟩ := chk_bind.1 ht
      rw [checkReveal_four h4 hu] at h2
      omega
    cases c with
    | join name commit priv =>
      obtain ⟨t, ht, _⟩ := keep_ok h
      obtain ⟨_, _, _, _, h0, _⟩ := doJoin_fr g ht
      omega
    | reveal seed next =>
      obtain ⟨t, ht, _⟩ := keep_ok h
      obtain ⟨s1, e1, ht⟩ := Res.bind_eq_ok.1 ht
      obtain ⟨s2, e2, ht⟩ := Res.bind_eq_ok.1 ht
      have e1 := checkStart_four h4 e1; subst e1
      have e2 := checkAction_four h4 e2; subst e2
      unfold doReveal at ht
      have := (chk_bind.1 ht).1
      omega
    | bet =>
      obtain ⟨t, ht, _⟩ := keep_ok h
      obtain ⟨s1, e1, ht⟩ := Res.bind_eq_ok.1 ht
      exact absurd e1 (fun x => bad x)
    | check _ =>
      obtain ⟨t, ht, _⟩ := keep_ok h
      obtain ⟨s1, e1, ht⟩ := Res.bind_eq_ok.1 ht
      exact absurd e1 (fun x => bad x)
    | fold =>
      obtain ⟨t, ht, _⟩ := keep_ok h
      obtain ⟨s1, e1, ht⟩ := Res.bind_eq_ok.1 ht
      exact absurd e1 (fun x => bad x)
    | «show» hand seed =>
      obtain ⟨t, ht, _⟩ := keep_ok h
      obtain ⟨s1, e1, ht⟩ := Res.bind_eq_ok.1 ht
      have e1 := checkAction_four h4 e1; subst e1
      have := (doShow_fr g ht).2.2.1
      omega
    | claim => exact absurd rfl hc
    | leave => exact absurd rfl hl
    | compute =>
      obtain ⟨t, ht, rfl⟩ := keep_ok h
      rcases compute_ok ht with ⟨rfl, _⟩ | ⟨h3, _⟩
      · rfl
      · omega
  · have hl4 : w.st.state < 4 := by have := g.le4; omega
    refine .inr ⟨hl4, ?_⟩
    cases c with
    | join name commit priv =>
      obtain ⟨t, ht, hw⟩ := keep_ok h
      obtain ⟨a, u, hd, hf, _⟩ := doJoin_fr g ht
      exact ⟨t, a, hw, hf, .inr (depositIn_ok hd)⟩
    | reveal seed next =>
      obtain ⟨t, ht, hw⟩ := keep_ok h
      obtain ⟨s1, e1, ht⟩ := Res.bind_eq_ok.1 ht
      obtain ⟨s2, e2, ht⟩ := Res.bind_eq_ok.1 ht
      have f1 := checkStart_fr g hl4 e1
      have f2 := f1.trans (checkAction_fr f1.good f1.st e2)
      exact ⟨t, 0, hw, f2.transBy (doReveal_fr f2.good ht), .inl rfl⟩
    | bet =>
      obtain ⟨t, ht, hw⟩ := keep_ok h
      obtain ⟨s1, e1, ht⟩ := Res.bind_eq_ok.1 ht
      obtain ⟨a, ha, ht⟩ := Res.bind_eq_ok.1 ht
      obtain ⟨f1, h2, _⟩ := turn_fr g hl4 e1
      have hd := depositIn_ok ha
      rw [f1.cur] at hd
      exact ⟨t, a, hw, f1.transBy (doBet_fr f1.good h2 ht), .inr hd⟩
    | check _ =>
      obtain ⟨t, ht, hw⟩ := keep_ok h
      obtain ⟨s1, e1, ht⟩ := Res.bind_eq_ok.1 ht
      obtain ⟨f1, h2, _⟩ := turn_fr g hl4 e1
      exact ⟨t, 0, hw, f1.transBy (doAct_fr f1.good h2 ht), .inl rfl⟩
    | fold =>
      obtain ⟨t, ht, hw⟩ := keep_ok h
      obtain ⟨s1, e1, ht⟩ := Res.bind_eq_ok.1 ht
      obtain ⟨f1, h2, _⟩ := turn_fr g hl4 e1
      exact ⟨t, 0, hw, f1.transBy (doAct_fr f1.good h2 ht), .inl rfl⟩
    | «show» hand seed =>
      obtain ⟨t, ht, hw⟩ := keep_ok h
      obtain ⟨s1, e1, ht⟩ := Res.bind_eq_ok.1 ht
      have f1 := checkAction_fr g hl4 e1
      exact ⟨t, 0, hw, f1.transBy (doShow_fr f1.good ht).1, .inl rfl⟩
    | claim => exact absurd rfl hc
    | leave => exact absurd rfl hl
    | compute =>
      obtain ⟨t, ht, hw⟩ := keep_ok h
      exact ⟨t, 0, hw, (compute_fr g hl4 ht).by_, .inl rfl⟩

theorem leave_fails {e : Env} {w : W Poker} (g : Good w.st) : doLeave e w = .throw := by
  unfold doLeave
  by_cases h0 : w.st.state = 0
  · rw [show chk (w.st.state = 0) = .ok () from if_pos h0]
    by_cases h1 : isTimeout w.st e.height = true
    · rw [show chk (isTimeout w.st e.height = true) = .ok () from if_pos h1]
      by_cases h2 : w.st.players.length = 1
      · have := (g.few (by omega)).1
        unfold isTimeout at h1
        rw [this] at h1; simp at h1
      · rw [show chk (w.st.players.length = 1) = .throw from if_neg h2]; rfl
    · rw [show chk (isTimeout w.st e.height = true) = .throw from if_neg h1]; rfl
  · rw [show chk (w.st.state = 0) = .throw from if_neg h0]; rfl

theorem checkFinish_cases (h pot : Nat) (s : Poker) :
    checkFinish h pot s = s ∨ checkFinish h pot s = { s with finalPot := pot, state := 4 } := by
  unfold checkFinish
  by_cases c : s.state = 0 ∨ s.finalPot ≠ 0
  · rw [if_pos c]; exact .inl rfl
  · rw [if_neg c]
    by_cases d : (s.state = 3 ∨ numActive s h = 0) ∧ (s.numReveals = numActive s h ∨ isTimeout s h = true)
    · rw [if_pos d]; exact .inr rfl
    · rw [if_neg d]; exact .inl rfl

theorem doClaim_ok {e : Env} {w w' : W Poker} (h : doClaim e w = .ok w') :
    ∃ s1 i a p u, checkStart e.height w.st = .ok s1 ∧
      (checkFinish e.height (w.bal s1.currency) s1).state = 4 ∧
      claimant (checkFinish e.height (w.bal s1.currency) s1) e.height e.user = .ok (i, a) ∧
      (checkFinish e.height (w.bal s1.currency) s1).players[i]? = some p ∧ p.claim = false ∧ e.user = some u ∧
      send e u a (checkFinish e.height (w.bal s1.currency) s1).currency
        { w with st := setPlayer (checkFinish e.height (w.bal s1.currency) s1) i { p with claim := true } } = .ok w' := by
  unfold doClaim at h
  obtain ⟨s1, e1, h⟩ := Res.bind_eq_ok.1 h
  obtain ⟨h4, h⟩ := chk_bind.1 h
  obtain ⟨⟨i, a⟩, ha, h⟩ := Res.bind_eq_ok.1 h
  simp only at h
  cases hp : (checkFinish e.height (w.bal s1.currency) s1).players[i]? with
  | none => rw [hp] at h; cases h
  | some p =>
    rw [hp] at h
    simp only at h
    obtain ⟨hc, h⟩ := chk_bind.1 h
    obtain ⟨u, hu, h⟩ := Res.bind_eq_ok.1 h
    exact ⟨s1, i, a, p, u, e1, h4, ha, hp, hc, theUser_ok hu, h⟩

theorem finish_good {s : Poker} {pot : Nat} (g : Good s) (h1 : 1 < s.players.length) :
    Good { s with finalPot := pot, state := 4 } :=
  ⟨Nat.le_refl _, fun hl => absurd hl (by show ¬ s.players.length ≤ 1; omega), fun hl => absurd hl (by simp),
    fun hl => absurd hl (by simp), g.win, g.hand, g.idx, g.own⟩

theorem exec_inv {e : Env} {c : Call} {w w' : W Poker} (i : Inv w) (h : exec sha e c (arriveDep e w) = .ok w') : Inv w' := by
  have hst := arriveDep_st e w
  have hpays := arriveDep_pays e w
  have hle := arriveDep_le e w w.st.currency
  have g : Good (arriveDep e w).st := by rw [hst]; exact i.good
  by_cases hc : c = .claim
  · subst hc
    obtain ⟨s1, j, a, p, u, e1, h4, ha, hp, hcl, hu, hs⟩ := doClaim_ok h
    have hcase : w.st.state = 4 ∨ w.st.state < 4 := by have := i.good.le4; omega
    rcases hcase with w4 | w4
    · have e1 := checkStart_four (by rw [hst]; exact w4) e1
      rw [hst] at e1
      subst e1
      obtain ⟨f, hf, hsh⟩ := finish_again (h := e.height) (pot := (arriveDep e w).bal w.st.currency) i.good w4
      rw [hf] at h4 ha hp hs
      have g' : Good { w.st with finalPot := f } :=
        ⟨i.good.le4, i.good.few, i.good.early, fun hl => absurd hl (by show ¬ w.st.state < 4; omega), i.good.win, i.good.hand,
          i.good.idx, i.good.own⟩
      obtain ⟨q, hq, hqu, hqa⟩ := claimant_ok g' w4 ha
      rw [hp] at hq; cases hq
      refine claim_inv (w := arriveDep e w) g' w4 ?_ (by rw [hpays]; exact i.once) ?_ hp hcl hqu hu hqa hs
      · rw [owed_congr (s := w.st) (t := { w.st with finalPot := f }) rfl hsh]
        have := i.fin w4
        show _ ≤ (arriveDep e w).bal w.st.currency
        omega
      · rw [hpays]
        intro q hq
        obtain ⟨h1, h2, k, r, h3, h5, h6, h7⟩ := i.what q hq
        exact ⟨h1, h2, k, r, h3, h5, h6, by rw [hsh]; exact h7⟩
    · have f1 := checkStart_fr g (by rw [hst]; exact w4) e1
      rw [hst] at f1
      have hrun := i.run w4
      have hcases := checkFinish_cases e.height ((arriveDep e w).bal s1.currency) s1
      rcases hcases with hf | hf
      · rw [hf] at h4; have := f1.st; omega
      · have hlen : 1 < s1.players.length := by
          by_cases hz : s1.state = 0
          · unfold checkFinish at hf
            rw [if_pos (.inl hz)] at hf
            have := congrArg (·.state) hf
            simp only at this
            omega
          · exact f1.good.many hz
        rw [hf] at h4 ha hp hs
        have g' := finish_good (pot := (arriveDep e w).bal s1.currency) f1.good hlen
        obtain ⟨q, hq, hqu, hqa⟩ := claimant_ok g' rfl ha
        rw [hp] at hq; cases hq
        refine claim_inv (w := arriveDep e w) g' rfl ?_ ?_ ?_ hp hcl hqu hu hqa hs
        · refine owed_finish f1.good ?_
          rw [f1.bets, f1.cur]; omega
        · rw [hpays, hrun.2]; intro u; simp
        · rw [hpays, hrun.2]; intro q hq; cases hq
  · by_cases hl : c = .leave
    · subst hl
      have : doLeave e (arriveDep e w) = .ok w' := h
      rw [leave_fails g] at this; cases this
    · rcases storage_step g hc hl h with ⟨h4, rfl⟩ | ⟨h4, t, a, rfl, hf, hd⟩
      · rw [hst] at h4
        refine ⟨g, fun x => absurd x (by rw [hst]; omega), fun _ => ?_, ?_, ?_⟩
        · rw [hst]; have := i.fin h4; omega
        · rw [hpays, hst]; exact i.once
        · rw [hpays, hst]; exact i.what
      · rw [hst] at h4 hf hd
        have hrun := i.run h4
        refine ⟨hf.good, fun _ => ⟨?_, ?_⟩, fun x => absurd x (by have := hf.st; show ¬ t.state = 4; omega), ?_, ?_⟩
        · show betSum t ≤ (arriveDep e w).bal t.currency
          rw [hf.bets, hf.cur]
          rcases hd with rfl | hd
          · omega
          · rw [arriveDep_dep hd]; omega
        · show (arriveDep e w).pays = []
          rw [hpays]; exact hrun.2
        · show ∀ u, ((arriveDep e w).pays.filter _).length ≤ _
          rw [hpays, hrun.2]; intro u; simp
        · show ∀ q ∈ (arriveDep e w).pays, _
          rw [hpays, hrun.2]; intro q hq; cases hq

theorem arrive_inv {w : W Poker} {c a : Nat} (i : Inv w) : Inv (arrive c a w) := by
  have hle : ∀ x, w.bal x ≤ (arrive c a w).bal x := by
    intro x
    show _ ≤ upd w.bal c (w.bal c + a) x
    by_cases h : x = c
    · subst h; rw [upd_self]; omega
    · rw [upd_ne _ h]; exact Nat.le_refl _
  exact ⟨i.good, fun h => ⟨Nat.le_trans (i.run h).1 (hle _), (i.run h).2⟩, fun h => Nat.le_trans (i.fin h) (hle _), i.once,
    i.what⟩

theorem init_inv {c b l m iv : Nat} {w : W Poker} (h : init c b l m iv = .ok w) : Inv w := by
  unfold init at h
  obtain ⟨_, _, h⟩ := Res.bind_eq_ok.1 h
  obtain ⟨_, h⟩ := chk_bind.1 h
  obtain ⟨_, h⟩ := chk_bind.1 h
  cases h
  refine ⟨⟨by simp [fresh], fun _ => ⟨rfl, rfl⟩, fun _ => ⟨rfl, rfl⟩, fun _ => ⟨rfl, fun p hp => (nomatch hp)⟩, .inl rfl,
    ⟨fun _ => rfl, fun _ => rfl⟩, fun u i hi => (nomatch hi), fun i p hp => (nomatch hp)⟩, fun _ => ⟨Nat.le_refl _, rfl⟩, fun h => (nomatch h), fun u => Nat.zero_le _,
    fun q hq => (nomatch hq)⟩

theorem run_inv {c b l m iv : Nat} {w : W Poker} (h : init c b l m iv = .ok w) (es : List (Ev Call)) :
    Inv (runEv (exec sha) w es) :=
  runEv_inv_of (P := fun _ _ => True) (fun _ _ _ => arrive_inv) (fun _ _ _ _ _ => exec_inv) es w (fun _ _ _ => trivial) (init_inv h)

end Verif.Contract.Poker
