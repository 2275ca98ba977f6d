import Verif.Contract.PropsCustody
/-
  C63 offers (src/contract/offer.js) and C64 offers of one token unit (src/contract/nft_offer.js).
-/
namespace Verif.Contract

open Res

/-- `p` may take the offer. -/
def MayTake (partner user : Option Nat) : Prop := ∀ q, partner = some q → user = some q

theorem checkPartner_ok {e : Env} {p : Option Nat} {f : Unit → Res α} {r : α}
    (h : (checkPartner e p >>= f) = .ok r) : MayTake p e.user ∧ f () = .ok r := by
  cases p with
  | none => exact ⟨fun q hq => (by cases hq), h⟩
  | some q =>
    obtain ⟨h1, h⟩ := chk_bind.1 h
    exact ⟨fun q' hq => (by cases hq; exact h1), h⟩

theorem checkPartner_pass {e : Env} {p : Option Nat} (h : MayTake p e.user) : checkPartner e p = .ok () := by
  cases p with
  | none => rfl
  | some q => exact if_pos (h q rfl)

theorem bidFor_ok {a inv b : Nat} (h : bidFor a inv = .ok b) : b = a * inv / 2 ^ 64 ∧ a * inv < 2 ^ 256 := by
  obtain ⟨n, h1, h⟩ := bind_eq_ok.1 h
  obtain ⟨rfl, h2⟩ := cmul_ok h1
  exact ⟨(Res.ok.inj h).symm, h2⟩

theorem askFor_ok {bid inv a : Nat} (h : askFor bid inv = .ok a) (hb : bid < 2 ^ 192) :
    0 < inv ∧ a = (bid * 2 ^ 64 + inv - 1) / inv := by
  obtain ⟨n, h1, h⟩ := bind_eq_ok.1 h
  obtain ⟨m, h2, h⟩ := bind_eq_ok.1 h
  obtain ⟨rfl, -⟩ := cadd_ok h1
  obtain ⟨rfl, -⟩ := csub_ok h2
  obtain ⟨rfl, h3⟩ := cdiv_ok h
  rw [u256_of_lt (by omega)]
  exact ⟨by omega, rfl⟩

/-- Division rounding up. -/
theorem ceil_bounds {x d : Nat} (hd : 0 < d) :
    x ≤ (x + d - 1) / d * d ∧ (x + d - 1) / d * d < x + d := by
  have h1 := Nat.div_add_mod (x + d - 1) d
  have h2 := Nat.mod_lt (x + d - 1) hd
  rw [Nat.mul_comm] at h1
  omega

/-- What one successful `trade` or `accept` does, as the owner and the taker see it. `amount` is the deposit,
    `kept` what the contract keeps of it, `bid` what the taker gets. -/
theorem take_call {e : Env} {dst price : Nat} {w w' : W Offer} (accept : Bool)
    (h : (if accept then offerAccept e dst price w else offerTrade e dst price w) = .ok w') :
    MayTake w.st.partner e.user ∧ price = w.st.inv ∧
    ∃ amount bid ret, e.dep = some (w.st.ask, amount) ∧ ret ≤ amount ∧ 0 < bid ∧
      Sent w w' (sends e dst bid w.st.bid ++ sends e dst ret w.st.ask) ∧
      bid * 2 ^ 64 ≤ (amount - ret) * w.st.inv ∧
      (accept = false → ret = 0 ∧ amount * w.st.inv < (bid + 1) * 2 ^ 64) ∧
      (accept = true → (amount - ret) * w.st.inv < bid * 2 ^ 64 + w.st.inv) := by
  cases accept with
  | false =>
    obtain ⟨h1, h⟩ := checkPartner_ok h
    obtain ⟨h2, h⟩ := chk_bind.1 h
    obtain ⟨amount, h3, h⟩ := bind_eq_ok.1 h
    obtain ⟨bid, h4, h⟩ := bind_eq_ok.1 h
    obtain ⟨h5, h⟩ := chk_bind.1 h
    obtain ⟨hb, -⟩ := bidFor_ok h4
    have hs := (send_sent h).1
    refine ⟨h1, h2, amount, bid, 0, depositIn_ok h3, Nat.zero_le _, h5, ?_, ?_, fun _ => ⟨rfl, ?_⟩, fun h => by cases h⟩
    · have : sends e dst 0 w.st.ask = [] := rfl
      rw [this, List.append_nil]; exact hs
    · rw [Nat.sub_zero, hb]; exact Nat.div_mul_le_self _ _
    · rw [hb]; omega
  | true =>
    obtain ⟨h1, h⟩ := checkPartner_ok h
    obtain ⟨h2, h⟩ := chk_bind.1 h
    obtain ⟨amount, h3, h⟩ := bind_eq_ok.1 h
    obtain ⟨b, h4, h⟩ := bind_eq_ok.1 h
    obtain ⟨h5, h⟩ := chk_bind.1 h
    obtain ⟨ask, h6, h⟩ := bind_eq_ok.1 h
    obtain ⟨ret, h7, h⟩ := bind_eq_ok.1 h
    obtain ⟨w1, h8, h⟩ := bind_eq_ok.1 h
    obtain ⟨hb, hlt⟩ := bidFor_ok h4
    have hbl : min b (w.bal w.st.bid) < 2 ^ 192 := by
      have : b < 2 ^ 192 := by rw [hb]; omega
      omega
    obtain ⟨hi, rfl⟩ := askFor_ok h6 hbl
    obtain ⟨rfl, hle⟩ := csub_ok h7
    have s1 := (send_sent h8).1
    have s2 := (send_sent h).1
    rw [s1.st] at s2
    have hc := ceil_bounds (x := min b (w.bal w.st.bid) * 2 ^ 64) hi
    have hk : amount - (amount - (min b (w.bal w.st.bid) * 2 ^ 64 + w.st.inv - 1) / w.st.inv) =
        (min b (w.bal w.st.bid) * 2 ^ 64 + w.st.inv - 1) / w.st.inv := Nat.sub_sub_self hle
    refine ⟨h1, h2, amount, min b (w.bal w.st.bid), _, depositIn_ok h3, Nat.sub_le _ _, h5, s1.trans s2, ?_,
      (fun h => by cases h), fun _ => ?_⟩
    · rw [hk]; exact hc.1
    · rw [hk]; exact hc.2

theorem nextPrice_ok {e : Env} {cur last new : Nat} {p : Nat × Nat} (h : nextPrice e cur last new = .ok p) :
    last + 1080 ≤ e.height ∧ 0 < new ∧ p.1 = new ∧
      (new ≠ cur → p.2 = e.height) ∧ (new = cur → p.2 = last) := by
  obtain ⟨d, h1, h⟩ := bind_eq_ok.1 h
  obtain ⟨hd, h4⟩ := csub_ok h1
  obtain ⟨h2, h⟩ := chk_bind.1 h
  obtain ⟨h3, h⟩ := chk_bind.1 h
  have := (Res.ok.inj h).symm
  subst this
  refine ⟨by omega, h3, ?_, fun hne => ?_, fun he => ?_⟩
  · split
    · rfl
    · rename_i hn; exact (Decidable.not_not.1 hn).symm
  · rw [if_pos hne]
  · rw [if_neg (fun h => h he)]

/-- One call of an offer. -/
theorem offer_call {e : Env} {c : OfferCall} {w w' : W Offer} (h : offerExec e c w = .ok w') :
    (w'.st.owner = w.st.owner ∧ w'.st.partner = w.st.partner ∧ w'.st.bid = w.st.bid ∧ w'.st.ask = w.st.ask) ∧
    (Kept w → Kept w') ∧
    ((e.user = some w.st.owner ∧ (∃ l, w'.pays = w.pays ++ l ∧ ∀ p ∈ l, p.to = w.st.owner ∧ p.user = e.user) ∧
        (w'.st.inv = w.st.inv ∧ w'.st.last = w.st.last ∨ w.st.last + 1080 ≤ e.height ∧ w'.st.last = e.height ∧
          0 < w'.st.inv)) ∨
      ∃ dst price, (c = .trade dst price ∧ offerTrade e dst price w = .ok w') ∨
        (c = .accept dst price ∧ offerAccept e dst price w = .ok w')) := by
  have own : ∀ (amount cur : Nat) (w1 : W Offer), isUser e w.st.owner → send e w.st.owner amount cur w = .ok w1 →
      (w1.st.owner = w.st.owner ∧ w1.st.partner = w.st.partner ∧ w1.st.bid = w.st.bid ∧ w1.st.ask = w.st.ask) ∧
      (Kept w → Kept w1) ∧
      (e.user = some w.st.owner ∧ (∃ l, w1.pays = w.pays ++ l ∧ ∀ p ∈ l, p.to = w.st.owner ∧ p.user = e.user) ∧
        (w1.st.inv = w.st.inv ∧ w1.st.last = w.st.last ∨ w.st.last + 1080 ≤ e.height ∧ w1.st.last = e.height ∧
          0 < w1.st.inv)) := by
    intro amount cur w1 h1 h
    have hs := (send_sent h).1
    refine ⟨by rw [hs.st]; exact ⟨rfl, rfl, rfl, rfl⟩, fun k => k.sent hs, h1, ⟨_, hs.pays, fun p hp => ?_⟩,
      .inl (by rw [hs.st]; exact ⟨rfl, rfl⟩)⟩
    have := (mem_sends hp).1; subst this; exact ⟨rfl, rfl⟩
  cases c with
  | deposit =>
    obtain ⟨h1, h⟩ := chk_bind.1 h
    cases h
    exact ⟨⟨rfl, rfl, rfl, rfl⟩, id, .inl ⟨h1, ⟨[], by simp, by simp⟩, .inl ⟨rfl, rfl⟩⟩⟩
  | cancel =>
    obtain ⟨h1, h⟩ := chk_bind.1 h
    obtain ⟨a, b, c⟩ := own _ _ _ h1 h
    exact ⟨a, b, .inl c⟩
  | withdraw =>
    obtain ⟨h1, h⟩ := chk_bind.1 h
    obtain ⟨a, b, c⟩ := own _ _ _ h1 h
    exact ⟨a, b, .inl c⟩
  | recover amount cur =>
    obtain ⟨h1, h⟩ := chk_bind.1 h
    obtain ⟨a, b, c⟩ := own _ _ _ h1 h
    exact ⟨a, b, .inl c⟩
  | setPrice new =>
    obtain ⟨h1, h⟩ := chk_bind.1 h
    obtain ⟨p, h2, h⟩ := bind_eq_ok.1 h
    obtain ⟨h3, h4, h5, h6, h7⟩ := nextPrice_ok h2
    cases h
    refine ⟨⟨rfl, rfl, rfl, rfl⟩, fun k => k.congr rfl rfl rfl, .inl ⟨h1, ⟨[], by simp, by simp⟩, ?_⟩⟩
    by_cases hn : new = w.st.inv
    · exact .inl ⟨h5.trans hn, h7 hn⟩
    · exact .inr ⟨h3, h6 hn, by show 0 < p.1; omega⟩
  | trade dst price =>
    obtain ⟨-, -, amount, bid, ret, -, -, -, hs, -⟩ := take_call false h
    exact ⟨by rw [hs.st]; exact ⟨rfl, rfl, rfl, rfl⟩, fun k => k.sent hs, .inr ⟨dst, price, .inl ⟨rfl, h⟩⟩⟩
  | accept dst price =>
    obtain ⟨-, -, amount, bid, ret, -, -, -, hs, -⟩ := take_call true h
    exact ⟨by rw [hs.st]; exact ⟨rfl, rfl, rfl, rfl⟩, fun k => k.sent hs, .inr ⟨dst, price, .inr ⟨rfl, h⟩⟩⟩

/-- C63: taking an offer gives the taker, for the deposit, coins of the offered currency at the price the taker
    named, which is the offer's price: the owner never gets less than that price; `trade` gives the taker less
    than one unit short of the exact amount; `accept` charges less than one unit above the exact amount and
    returns the rest of the deposit. All or nothing, and only the partner if one is set. -/
theorem C63_take (e : Env) (dst price : Nat) (accept : Bool) (w w' : W Offer)
    (h : offerExec e (if accept then .accept dst price else .trade dst price) (arriveDep e w) = .ok w') :
    (w.st.partner = none ∨ w.st.partner = e.user) ∧ price = w.st.inv ∧
    ∃ deposit got back, e.dep = some (w.st.ask, deposit) ∧ 0 < got ∧ back ≤ deposit ∧
      w'.pays = w.pays ++ sends e dst got w.st.bid ++ sends e dst back w.st.ask ∧
      got * 2 ^ 64 ≤ (deposit - back) * price ∧
      (accept = false → back = 0 ∧ deposit * price < (got + 1) * 2 ^ 64) ∧
      (accept = true → (deposit - back) * price < got * 2 ^ 64 + price) := by
  have h' : (if accept then offerAccept e dst price (arriveDep e w) else offerTrade e dst price (arriveDep e w)) = .ok w' := by
    cases accept <;> exact h
  obtain ⟨h1, h2, amount, bid, ret, h3, h4, h5, hs, h6, h7, h8⟩ := take_call accept h'
  rw [arriveDep_st] at h1 h2 h3 hs h6 h7 h8
  subst h2
  refine ⟨?_, rfl, amount, bid, ret, h3, h5, h4, ?_, h6, h7, h8⟩
  · cases hp : w.st.partner with
    | none => exact .inl rfl
    | some q => exact .inr (h1 q hp).symm
  · rw [hs.pays, arriveDep_pays, List.append_assoc]

theorem cover_step {A B C D E b K I : Nat} (h7 : A * K + C ≤ B * K + D * I) (h6 : b * K ≤ E * I) :
    (A + b) * K + C ≤ B * K + (D + E) * I := by
  rw [Nat.add_mul, Nat.add_mul]; omega

/-- C63: as long as the owner does nothing, whatever others do, what the takers got is covered at the offer's
    price by the growth of what the contract holds for the owner, and the price stays. -/
theorem C63_owner_covered (w : W Offer) (hne : w.st.bid ≠ w.st.ask) (history : List (Ev OfferCall))
    (hh : ∀ e c, Ev.call e c ∈ history → e.user = some w.st.owner →
      ∃ dst price, c = .trade dst price ∨ c = .accept dst price) :
    let w' := runEv offerExec w history
    w'.st = w.st ∧
    paid w'.pays w.st.bid * 2 ^ 64 + w.bal w.st.ask * w.st.inv ≤
      paid w.pays w.st.bid * 2 ^ 64 + w'.bal w.st.ask * w.st.inv := by
  refine runEv_inv_of (exec := offerExec)
    (P := fun e c => e.user = some w.st.owner → ∃ dst price, c = .trade dst price ∨ c = .accept dst price)
    (I := fun x => x.st = w.st ∧ paid x.pays w.st.bid * 2 ^ 64 + w.bal w.st.ask * w.st.inv ≤
      paid w.pays w.st.bid * 2 ^ 64 + x.bal w.st.ask * w.st.inv) ?_ ?_ history w hh ⟨rfl, Nat.le_refl _⟩
  · intro x c a h
    refine ⟨h.1, Nat.le_trans h.2 (Nat.add_le_add_left (Nat.mul_le_mul_right _ ?_) _)⟩
    show x.bal w.st.ask ≤ upd x.bal c (x.bal c + a) w.st.ask
    by_cases hc : w.st.ask = c
    · subst hc; rw [upd_self]; omega
    · rw [upd_ne _ hc]; exact Nat.le_refl _
  · intro e c x x' hP h hx
    have key : ∀ accept dst price, (if accept = true then offerAccept e dst price (arriveDep e x)
        else offerTrade e dst price (arriveDep e x)) = .ok x' → x'.st = w.st ∧
        paid x'.pays w.st.bid * 2 ^ 64 + w.bal w.st.ask * w.st.inv ≤
          paid w.pays w.st.bid * 2 ^ 64 + x'.bal w.st.ask * w.st.inv := by
      intro accept dst price hx
      obtain ⟨-, -, amount, bid, ret, h3, h4, h5, hs, h6, -⟩ := take_call accept hx
      rw [arriveDep_st, h.1] at h3 hs h6
      have hst := hs.st
      rw [arriveDep_st, h.1] at hst
      refine ⟨hst, ?_⟩
      have hb := hs.bal w.st.ask
      rw [paid_append, paid_sends, paid_sends, if_neg hne, if_pos rfl, Nat.zero_add] at hb
      have hd : (arriveDep e x).bal w.st.ask = x.bal w.st.ask + amount := by
        unfold arriveDep; rw [h3]; exact upd_self _ _ _
      rw [hd] at hb
      rw [hs.pays, arriveDep_pays, paid_append, paid_append, paid_sends, paid_sends, if_pos rfl,
        if_neg (fun h => hne h.symm)]
      have e1 : x'.bal w.st.ask = x.bal w.st.ask + (amount - ret) := by omega
      rw [e1]
      exact cover_step (b := bid + 0) h.2 h6
    rcases (offer_call hx).2.2 with ⟨hu, -⟩ | ⟨dst, price, ⟨rfl, ht⟩ | ⟨rfl, ht⟩⟩
    · rw [arriveDep_st, h.1] at hu
      obtain ⟨dst, price, hc | hc⟩ := hP hu
      · subst hc; exact key false dst price hx
      · subst hc; exact key true dst price hx
    · exact key false dst price ht
    · exact key true dst price ht

/-- C63: the price cannot change within 1080 blocks of the last change (or of the creation); a change is made by
    the owner and starts the next such period. -/
theorem C63_price_stable (w : W Offer) (history : List (Ev OfferCall))
    (h : ∀ e c, Ev.call e c ∈ history → e.height < w.st.last + 1080) :
    (runEv offerExec w history).st.inv = w.st.inv ∧ (runEv offerExec w history).st.last = w.st.last := by
  refine runEv_inv_of (exec := offerExec) (P := fun e _ => e.height < w.st.last + 1080)
    (I := fun x => x.st.inv = w.st.inv ∧ x.st.last = w.st.last) (fun _ _ _ h => h) ?_ history w h ⟨rfl, rfl⟩
  intro e c x x' hP h hx
  rcases (offer_call hx).2.2 with ⟨-, -, ⟨h1, h2⟩ | ⟨h1, -⟩⟩ | ⟨dst, price, ⟨rfl, ht⟩ | ⟨rfl, ht⟩⟩
  · rw [arriveDep_st] at h1 h2; exact ⟨h1.trans h.1, h2.trans h.2⟩
  · rw [arriveDep_st, h.2] at h1; omega
  · obtain ⟨-, -, _, _, _, -, -, -, hs, -⟩ := take_call false ht
    rw [hs.st, arriveDep_st]; exact h
  · obtain ⟨-, -, _, _, _, -, -, -, hs, -⟩ := take_call true ht
    rw [hs.st, arriveDep_st]; exact h

theorem C63_price_change (e : Env) (c : OfferCall) (w w' : W Offer) (h : offerExec e c w = .ok w')
    (hne : w'.st.inv ≠ w.st.inv) :
    e.user = some w.st.owner ∧ w.st.last + 1080 ≤ e.height ∧ w'.st.last = e.height ∧ 0 < w'.st.inv := by
  rcases (offer_call h).2.2 with ⟨h0, -, ⟨h1, h2⟩ | h1⟩ | ⟨dst, price, ⟨rfl, ht⟩ | ⟨rfl, ht⟩⟩
  · exact absurd h1 hne
  · exact ⟨h0, h1⟩
  · obtain ⟨-, -, _, _, _, -, -, -, hs, -⟩ := take_call false ht
    exact absurd (by rw [hs.st]) hne
  · obtain ⟨-, -, _, _, _, -, -, -, hs, -⟩ := take_call true ht
    exact absurd (by rw [hs.st]) hne

/-- C63: over all histories, coins leave an offer only to the owner at the owner's call, or to a taker who is the
    partner if one is set; the rest is still held. -/
theorem C63_who (s : Offer) (history : List (Ev OfferCall)) :
    let w := runEv offerExec (fresh s) history
    (∀ p ∈ w.pays, (p.to = s.owner ∧ p.user = some s.owner) ∨ s.partner = none ∨ s.partner = p.user) ∧
    ∀ c, w.got c = w.bal c + paid w.pays c := by
  have := runEv_inv (exec := offerExec)
    (I := fun w => (w.st.owner = s.owner ∧ w.st.partner = s.partner) ∧
      (∀ p ∈ w.pays, (p.to = s.owner ∧ p.user = some s.owner) ∨ s.partner = none ∨ s.partner = p.user) ∧ Kept w)
    (fun w c a h => ⟨h.1, h.2.1, h.2.2.arrive c a⟩)
    (fun e c w w' h hx => by
      obtain ⟨hst, hk, hc⟩ := offer_call hx
      refine ⟨⟨hst.1.trans h.1.1, hst.2.1.trans h.1.2⟩, fun p hp => ?_, hk h.2.2⟩
      have key : ∀ accept dst price, (if accept = true then offerAccept e dst price w
          else offerTrade e dst price w) = .ok w' →
          (p.to = s.owner ∧ p.user = some s.owner) ∨ s.partner = none ∨ s.partner = p.user := by
        intro accept dst price hx
        obtain ⟨hm, -, amount, bid, ret, -, -, -, hs, -⟩ := take_call accept hx
        rcases hs.mem hp with hp | hp
        · exact h.2.1 p hp
        · have hu : p.user = e.user := by
            rcases List.mem_append.1 hp with hp | hp <;> (have := (mem_sends hp).1; subst this; rfl)
          rw [hu]
          cases hq : s.partner with
          | none => exact .inr (.inl rfl)
          | some q => exact .inr (.inr (hm q (h.1.2.trans hq)).symm)
      rcases hc with ⟨hu, ⟨l, hl, hl'⟩, -⟩ | ⟨dst, price, ⟨rfl, ht⟩ | ⟨rfl, ht⟩⟩
      · rw [hl] at hp
        rcases List.mem_append.1 hp with hp | hp
        · exact h.2.1 p hp
        · have := hl' p hp
          rw [h.1.1] at this
          exact .inl ⟨this.1, by rw [this.2, hu, h.1.1]⟩
      · exact key false dst price ht
      · exact key true dst price ht)
    history (fresh s) ⟨⟨rfl, rfl⟩, by simp [fresh], Kept.fresh _⟩
  exact this.2

/-- C63: the owner can at any time take back everything offered and everything earned. -/
theorem C63_owner_exit (e : Env) (w : W Offer) (h1 : e.user = some w.st.owner) (hb : w.bal w.st.bid < 2 ^ 128)
    (ha : w.bal w.st.ask < 2 ^ 128) :
    (∃ w', offerExec e .cancel w = .ok w' ∧ w'.bal w.st.bid = 0 ∧
      w'.pays = w.pays ++ sends e w.st.owner (w.bal w.st.bid) w.st.bid) ∧
    (∃ w', offerExec e .withdraw w = .ok w' ∧ w'.bal w.st.ask = 0 ∧
      w'.pays = w.pays ++ sends e w.st.owner (w.bal w.st.ask) w.st.ask) := by
  have key : ∀ c : Nat, w.bal c < 2 ^ 128 → ∃ w', send e w.st.owner (w.bal c) c w = .ok w' ∧
      w'.bal c = 0 ∧ w'.pays = w.pays ++ sends e w.st.owner (w.bal c) c := by
    intro c hc
    obtain ⟨w', hw⟩ := send_succeeds (e := e) (to := w.st.owner) (w := w) (cur := c) hc (Nat.le_refl _)
    refine ⟨w', hw, ?_, (send_sent hw).1.pays⟩
    have := (send_sent hw).1.bal c
    rw [paid_sends, if_pos rfl] at this; omega
  obtain ⟨a, ha, ha'⟩ := key _ hb
  obtain ⟨b, hb, hb'⟩ := key _ ‹w.bal w.st.ask < 2 ^ 128›
  exact ⟨⟨a, chk_bind.2 ⟨h1, ha⟩, ha'⟩, ⟨b, chk_bind.2 ⟨h1, hb⟩, hb'⟩⟩

/-- C63: `accept` at the right price never fails for rounding: if the offer is not empty and the deposit buys at
    least one unit, it goes through (the subtraction marked "will fail on underflow" never underflows). -/
theorem C63_accept_works (e : Env) (dst amount : Nat) (w : W Offer) (hne : w.st.bid ≠ w.st.ask)
    (hp : w.st.partner = none ∨ w.st.partner = e.user) (hd : e.dep = some (w.st.ask, amount))
    (ha : amount < 2 ^ 128) (hi : w.st.inv < 2 ^ 128) (hb0 : 0 < w.bal w.st.bid) (hb : w.bal w.st.bid < 2 ^ 128)
    (hm : 2 ^ 64 ≤ amount * w.st.inv) :
    ∃ w', offerExec e (.accept dst w.st.inv) (arriveDep e w) = .ok w' := by
  have hmul := Nat.mul_lt_mul'' ha hi
  have hi0 : 0 < w.st.inv := Nat.pos_of_ne_zero (fun h => by rw [h] at hm; omega)
  have hpp : MayTake (arriveDep e w).st.partner e.user := by
    rw [arriveDep_st]
    intro q hq
    rcases hp with hp | hp
    · rw [hp] at hq; cases hq
    · rw [← hp, hq]
  have hbal : (arriveDep e w).bal w.st.bid = w.bal w.st.bid := by
    unfold arriveDep; rw [hd]; exact upd_ne _ hne
  have hbal2 : amount ≤ (arriveDep e w).bal w.st.ask := by
    have : (arriveDep e w).bal w.st.ask = w.bal w.st.ask + amount := by
      unfold arriveDep; rw [hd]; exact upd_self _ _ _
    omega
  show ∃ w', offerAccept e dst w.st.inv (arriveDep e w) = .ok w'
  unfold offerAccept
  rw [checkPartner_pass hpp, arriveDep_st]
  have hdep : depositIn e w.st.ask = .ok amount := by unfold depositIn; rw [hd]; exact if_pos rfl
  have hbid : bidFor amount w.st.inv = .ok (amount * w.st.inv / 2 ^ 64) := by
    unfold bidFor cmul; rw [if_pos hmul]; rfl
  generalize hB : min (amount * w.st.inv / 2 ^ 64) (w.bal w.st.bid) = B
  have hB0 : 0 < B := by omega
  have hB1 : B < 2 ^ 128 := by omega
  have hB2 : B ≤ amount * w.st.inv / 2 ^ 64 := by omega
  have hB3 : B * 2 ^ 64 ≤ amount * w.st.inv := by omega
  have hask : askFor B w.st.inv = .ok ((B * 2 ^ 64 + w.st.inv - 1) / w.st.inv) := by
    unfold askFor cadd csub cdiv
    rw [u256_of_lt (by omega), if_pos (by omega), bind_ok, if_pos (by omega), bind_ok, if_neg (by omega)]
  have hle : (B * 2 ^ 64 + w.st.inv - 1) / w.st.inv ≤ amount := by
    have : B * 2 ^ 64 + w.st.inv - 1 < (amount + 1) * w.st.inv := by rw [Nat.add_mul]; omega
    exact Nat.le_of_lt_succ ((Nat.div_lt_iff_lt_mul hi0).2 this)
  obtain ⟨w1, hw1⟩ := send_succeeds (e := e) (to := dst) (amount := B) (cur := w.st.bid) (w := arriveDep e w) hB1
    (by rw [hbal]; omega)
  have s1 := (send_sent hw1).1
  have hb1 := s1.bal w.st.ask
  rw [paid_sends, if_neg hne] at hb1
  obtain ⟨w2, hw2⟩ := send_succeeds (e := e) (to := dst) (cur := w.st.ask) (w := w1)
    (amount := amount - (B * 2 ^ 64 + w.st.inv - 1) / w.st.inv) (Nat.lt_of_le_of_lt (Nat.sub_le _ _) ha)
    (Nat.le_trans (Nat.sub_le _ _) (by omega))
  have hst : w1.st = w.st := by rw [s1.st, arriveDep_st]
  refine ⟨w2, ?_⟩
  refine bind_eq_ok.2 ⟨(), rfl, chk_bind.2 ⟨rfl, bind_eq_ok.2 ⟨_, hdep, bind_eq_ok.2 ⟨_, hbid, ?_⟩⟩⟩⟩
  rw [hbal, hB]
  refine chk_bind.2 ⟨hB0, bind_eq_ok.2 ⟨_, hask, bind_eq_ok.2 ⟨amount - (B * 2 ^ 64 + w.st.inv - 1) / w.st.inv, ?_, bind_eq_ok.2 ⟨_, hw1, ?_⟩⟩⟩⟩
  · unfold csub; rw [if_pos hle]
  · rw [hst]; exact hw2

/-- A life of an offer: half of it is traded, a stranger cannot cancel, the rest is accepted with change returned. -/
def offerStart : Offer := ⟨1, none, 7, 8, 2 ^ 63, 100⟩

def offerHistory : List (Ev OfferCall) :=
  [.recv 7 100, .call ⟨some 2, 200, some (8, 101)⟩ (.trade 2 (2 ^ 63)), .call ⟨some 2, 200, none⟩ .cancel,
   .call ⟨some 1, 1179, none⟩ (.setPrice 5), .call ⟨some 3, 1180, some (8, 301)⟩ (.accept 4 (2 ^ 63))]

example : (runEv offerExec (fresh offerStart) offerHistory).pays =
    [⟨2, 7, 50, some 2, 200⟩, ⟨4, 7, 50, some 3, 1180⟩, ⟨4, 8, 201, some 3, 1180⟩] ∧
    (runEv offerExec (fresh offerStart) offerHistory).bal 8 = 201 := by decide +kernel

example : (runEv offerExec (fresh offerStart) [.call ⟨some 1, 1180, none⟩ (.setPrice 5)]).st =
    ⟨1, none, 7, 8, 5, 1180⟩ := by decide +kernel

/-! ### C64: offer of a single token unit -/

theorem nftAccept_call {e : Env} {dst price : Nat} {w w' : W NftOffer} (h : nftAccept e dst price w = .ok w') :
    MayTake w.st.partner e.user ∧ price = w.st.price ∧ e.dep = some (w.st.ask, w.st.price) ∧
    Sent w w' (sends e w.st.owner w.st.price w.st.ask ++ sends e dst 1 w.st.nft) := by
  obtain ⟨h1, h⟩ := checkPartner_ok h
  obtain ⟨h2, h⟩ := chk_bind.1 h
  obtain ⟨h3, h⟩ := chk_bind.1 h
  obtain ⟨amount, h4, h⟩ := bind_eq_ok.1 h
  obtain ⟨h5, h⟩ := chk_bind.1 h
  obtain ⟨w1, h6, h⟩ := bind_eq_ok.1 h
  have s1 := (send_sent h6).1
  have s2 := (send_sent h).1
  rw [s1.st] at s2
  exact ⟨h1, h2, by rw [← h5]; exact depositIn_ok h4, s1.trans s2⟩

theorem nftOffer_call {e : Env} {c : NftOfferCall} {w w' : W NftOffer} (h : nftOfferExec e c w = .ok w') :
    (w'.st.owner = w.st.owner ∧ w'.st.partner = w.st.partner ∧ w'.st.nft = w.st.nft ∧ w'.st.ask = w.st.ask) ∧
    (Kept w → Kept w') ∧
    ((e.user = some w.st.owner ∧ (∃ l, w'.pays = w.pays ++ l ∧ ∀ p ∈ l, p.to = w.st.owner ∧ p.user = e.user) ∧
        (w'.st.price = w.st.price ∧ w'.st.last = w.st.last ∨ w.st.last + 1080 ≤ e.height ∧ w'.st.last = e.height ∧
          0 < w'.st.price)) ∨
      ∃ dst price, c = .accept dst price ∧ nftAccept e dst price w = .ok w') := by
  have own : ∀ (amount cur : Nat) (w1 : W NftOffer), isUser e w.st.owner → send e w.st.owner amount cur w = .ok w1 →
      (w1.st.owner = w.st.owner ∧ w1.st.partner = w.st.partner ∧ w1.st.nft = w.st.nft ∧ w1.st.ask = w.st.ask) ∧
      (Kept w → Kept w1) ∧
      (e.user = some w.st.owner ∧ (∃ l, w1.pays = w.pays ++ l ∧ ∀ p ∈ l, p.to = w.st.owner ∧ p.user = e.user) ∧
        (w1.st.price = w.st.price ∧ w1.st.last = w.st.last ∨ w.st.last + 1080 ≤ e.height ∧ w1.st.last = e.height ∧
          0 < w1.st.price)) := by
    intro amount cur w1 h1 h
    have hs := (send_sent h).1
    refine ⟨by rw [hs.st]; exact ⟨rfl, rfl, rfl, rfl⟩, fun k => k.sent hs, h1, ⟨_, hs.pays, fun p hp => ?_⟩,
      .inl (by rw [hs.st]; exact ⟨rfl, rfl⟩)⟩
    have := (mem_sends hp).1; subst this; exact ⟨rfl, rfl⟩
  cases c with
  | deposit =>
    obtain ⟨h1, h⟩ := chk_bind.1 h
    cases h
    exact ⟨⟨rfl, rfl, rfl, rfl⟩, id, .inl ⟨h1, ⟨[], by simp, by simp⟩, .inl ⟨rfl, rfl⟩⟩⟩
  | cancel =>
    obtain ⟨h1, h⟩ := chk_bind.1 h
    obtain ⟨a, b, c⟩ := own _ _ _ h1 h
    exact ⟨a, b, .inl c⟩
  | recover amount cur =>
    obtain ⟨h1, h⟩ := chk_bind.1 h
    obtain ⟨a, b, c⟩ := own _ _ _ h1 h
    exact ⟨a, b, .inl c⟩
  | setPrice new =>
    obtain ⟨h1, h⟩ := chk_bind.1 h
    obtain ⟨p, h2, h⟩ := bind_eq_ok.1 h
    obtain ⟨h3, h4, h5, h6, h7⟩ := nextPrice_ok h2
    cases h
    refine ⟨⟨rfl, rfl, rfl, rfl⟩, fun k => k.congr rfl rfl rfl, .inl ⟨h1, ⟨[], by simp, by simp⟩, ?_⟩⟩
    by_cases hn : new = w.st.price
    · exact .inl ⟨h5.trans hn, h7 hn⟩
    · exact .inr ⟨h3, h6 hn, by show 0 < p.1; omega⟩
  | accept dst price =>
    have hs := (nftAccept_call h).2.2.2
    exact ⟨by rw [hs.st]; exact ⟨rfl, rfl, rfl, rfl⟩, fun k => k.sent hs, .inr ⟨dst, price, rfl, h⟩⟩

/-- C64: a buyer pays exactly the named price, which is the offer's price; it goes straight to the owner, and the
    buyer gets one unit: both or neither. -/
theorem C64_buy (e : Env) (dst price : Nat) (w w' : W NftOffer)
    (h : nftOfferExec e (.accept dst price) (arriveDep e w) = .ok w') :
    (w.st.partner = none ∨ w.st.partner = e.user) ∧ price = w.st.price ∧ e.dep = some (w.st.ask, price) ∧
    w'.pays = w.pays ++ sends e w.st.owner price w.st.ask ++ [⟨dst, w.st.nft, 1, e.user, e.height⟩] := by
  obtain ⟨h1, h2, h3, hs⟩ := nftAccept_call h
  rw [arriveDep_st] at h1 h2 h3 hs
  subst h2
  refine ⟨?_, rfl, h3, ?_⟩
  · cases hp : w.st.partner with
    | none => exact .inl rfl
    | some q => exact .inr (h1 q hp).symm
  · rw [hs.pays, arriveDep_pays, List.append_assoc]; rfl

/-- C64: while the owner does nothing, every unit that leaves the offer has brought the owner exactly one price. -/
theorem C64_paid_for (w : W NftOffer) (hne : w.st.nft ≠ w.st.ask) (history : List (Ev NftOfferCall))
    (hh : ∀ e c, Ev.call e c ∈ history → e.user = some w.st.owner → ∃ dst price, c = .accept dst price) :
    let w' := runEv nftOfferExec w history
    w'.st = w.st ∧ ∃ n, paid w'.pays w.st.nft = paid w.pays w.st.nft + n ∧
      paidTo w'.pays w.st.owner w.st.ask = paidTo w.pays w.st.owner w.st.ask + n * w.st.price ∧
      paid w'.pays w.st.ask = paid w.pays w.st.ask + n * w.st.price := by
  refine runEv_inv_of (exec := nftOfferExec)
    (P := fun e c => e.user = some w.st.owner → ∃ dst price, c = .accept dst price)
    (I := fun x => x.st = w.st ∧ ∃ n, paid x.pays w.st.nft = paid w.pays w.st.nft + n ∧
      paidTo x.pays w.st.owner w.st.ask = paidTo w.pays w.st.owner w.st.ask + n * w.st.price ∧
      paid x.pays w.st.ask = paid w.pays w.st.ask + n * w.st.price)
    (fun _ _ _ h => h) ?_ history w hh ⟨rfl, 0, by omega, by omega, by omega⟩
  intro e c x x' hP h hx
  have key : ∀ dst price, nftAccept e dst price (arriveDep e x) = .ok x' → x'.st = w.st ∧
      ∃ n, paid x'.pays w.st.nft = paid w.pays w.st.nft + n ∧
      paidTo x'.pays w.st.owner w.st.ask = paidTo w.pays w.st.owner w.st.ask + n * w.st.price ∧
      paid x'.pays w.st.ask = paid w.pays w.st.ask + n * w.st.price := by
    intro dst price hx
    obtain ⟨-, -, -, hs⟩ := nftAccept_call hx
    rw [arriveDep_st, h.1] at hs
    have hst := hs.st
    rw [arriveDep_st, h.1] at hst
    obtain ⟨-, n, a1, a2, a3⟩ := h
    refine ⟨hst, n + 1, ?_, ?_, ?_⟩
    · rw [hs.pays, arriveDep_pays, paid_append, paid_append, paid_sends, paid_sends, if_neg (fun h => hne h.symm),
        if_pos rfl, a1]; omega
    · rw [hs.pays, arriveDep_pays, paidTo_append, paidTo_append, paidTo_sends, paidTo_sends, if_pos ⟨rfl, rfl⟩,
        if_neg (fun h => hne h.2), a2, Nat.add_mul]; omega
    · rw [hs.pays, arriveDep_pays, paid_append, paid_append, paid_sends, paid_sends, if_pos rfl, if_neg hne, a3,
        Nat.add_mul]; omega
  rcases (nftOffer_call hx).2.2 with ⟨hu, -⟩ | ⟨dst, price, rfl, ht⟩
  · rw [arriveDep_st, h.1] at hu
    obtain ⟨dst, price, hc⟩ := hP hu
    subst hc; exact key dst price hx
  · exact key dst price ht

/-- C64: the price holds for at least 1080 blocks after a change; only the owner changes it. -/
theorem C64_price_stable (w : W NftOffer) (history : List (Ev NftOfferCall))
    (h : ∀ e c, Ev.call e c ∈ history → e.height < w.st.last + 1080) :
    (runEv nftOfferExec w history).st.price = w.st.price ∧ (runEv nftOfferExec w history).st.last = w.st.last := by
  refine runEv_inv_of (exec := nftOfferExec) (P := fun e _ => e.height < w.st.last + 1080)
    (I := fun x => x.st.price = w.st.price ∧ x.st.last = w.st.last) (fun _ _ _ h => h) ?_ history w h ⟨rfl, rfl⟩
  intro e c x x' hP h hx
  rcases (nftOffer_call hx).2.2 with ⟨-, -, ⟨h1, h2⟩ | ⟨h1, -⟩⟩ | ⟨dst, price, rfl, ht⟩
  · rw [arriveDep_st] at h1 h2; exact ⟨h1.trans h.1, h2.trans h.2⟩
  · rw [arriveDep_st, h.2] at h1; omega
  · have hs := (nftAccept_call ht).2.2.2
    rw [hs.st, arriveDep_st]; exact h

theorem C64_price_change (e : Env) (c : NftOfferCall) (w w' : W NftOffer) (h : nftOfferExec e c w = .ok w')
    (hne : w'.st.price ≠ w.st.price) :
    e.user = some w.st.owner ∧ w.st.last + 1080 ≤ e.height ∧ w'.st.last = e.height ∧ 0 < w'.st.price := by
  rcases (nftOffer_call h).2.2 with ⟨h0, -, ⟨h1, h2⟩ | h1⟩ | ⟨dst, price, rfl, ht⟩
  · exact absurd h1 hne
  · exact ⟨h0, h1⟩
  · exact absurd (by rw [(nftAccept_call ht).2.2.2.st]) hne

/-- C64: coins and units leave only at the owner's call to the owner, or in a purchase by the partner if one is
    set; the rest is still held. -/
theorem C64_who (s : NftOffer) (history : List (Ev NftOfferCall)) :
    let w := runEv nftOfferExec (fresh s) history
    (∀ p ∈ w.pays, (p.to = s.owner ∧ p.user = some s.owner) ∨ s.partner = none ∨ s.partner = p.user) ∧
    ∀ c, w.got c = w.bal c + paid w.pays c := by
  have := runEv_inv (exec := nftOfferExec)
    (I := fun w => (w.st.owner = s.owner ∧ w.st.partner = s.partner) ∧
      (∀ p ∈ w.pays, (p.to = s.owner ∧ p.user = some s.owner) ∨ s.partner = none ∨ s.partner = p.user) ∧ Kept w)
    (fun w c a h => ⟨h.1, h.2.1, h.2.2.arrive c a⟩)
    (fun e c w w' h hx => by
      obtain ⟨hst, hk, hc⟩ := nftOffer_call hx
      refine ⟨⟨hst.1.trans h.1.1, hst.2.1.trans h.1.2⟩, fun p hp => ?_, hk h.2.2⟩
      rcases hc with ⟨hu, ⟨l, hl, hl'⟩, -⟩ | ⟨dst, price, rfl, ht⟩
      · rw [hl] at hp
        rcases List.mem_append.1 hp with hp | hp
        · exact h.2.1 p hp
        · have := hl' p hp
          rw [h.1.1] at this
          exact .inl ⟨this.1, by rw [this.2, hu, h.1.1]⟩
      · obtain ⟨hm, -, -, hs⟩ := nftAccept_call ht
        rcases hs.mem hp with hp | hp
        · exact h.2.1 p hp
        · have hu : p.user = e.user := by
            rcases List.mem_append.1 hp with hp | hp <;> (have := (mem_sends hp).1; subst this; rfl)
          rw [hu]
          cases hq : s.partner with
          | none => exact .inr (.inl rfl)
          | some q => exact .inr (.inr (hm q (h.1.2.trans hq)).symm))
    history (fresh s) ⟨⟨rfl, rfl⟩, by simp [fresh], Kept.fresh _⟩
  exact this.2

example : (runEv nftOfferExec (fresh ⟨1, some 2, 7, 8, 50, 100⟩) [.recv 7 1, .call ⟨some 3, 200, some (8, 50)⟩ (.accept 3 50),
    .call ⟨some 2, 200, some (8, 49)⟩ (.accept 3 50), .call ⟨some 2, 200, some (8, 50)⟩ (.accept 3 50),
    .call ⟨some 2, 200, some (8, 50)⟩ (.accept 3 50)]).pays =
    [⟨1, 8, 50, some 2, 200⟩, ⟨3, 7, 1, some 2, 200⟩] := by decide +kernel

end Verif.Contract
