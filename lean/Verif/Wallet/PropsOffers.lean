/-
  C194: what the wallet asks of an offer is what the user asked for, whatever happened since the offer was looked at.
-/
import Verif.Wallet.Offers
import Verif.Contract.PropsShown

namespace Verif.Wallet.Offers

open Verif.Contract

/-- Who made an offer, for whom, and what for what, never changes. -/
theorem since_fixed (w : W Offer) (since : List (Ev OfferCall)) :
    (runEv offerExec w since).st.owner = w.st.owner ∧ (runEv offerExec w since).st.partner = w.st.partner ∧
    (runEv offerExec w since).st.bid = w.st.bid ∧ (runEv offerExec w since).st.ask = w.st.ask := by
  refine runEv_inv (exec := offerExec)
    (I := fun x => x.st.owner = w.st.owner ∧ x.st.partner = w.st.partner ∧ x.st.bid = w.st.bid ∧ x.st.ask = w.st.ask)
    (fun _ _ _ h => h) ?_ since w ⟨rfl, rfl, rfl, rfl⟩
  intro e c x x' h hx
  obtain ⟨⟨h1, h2, h3, h4⟩, -⟩ := offer_call hx
  exact ⟨h1.trans h.1, h2.trans h.2.1, h3.trans h.2.2.1, h4.trans h.2.2.2⟩

theorem seen_ok {w : W Offer} {f : OfferData → Req} {r : Req} (h : (getOffer w >>= fun d => Res.ok (f d)) = .ok r) :
    ∃ d, getOffer w = .ok d ∧ r = f d := by
  obtain ⟨d, h1, h⟩ := Res.bind_eq_ok.1 h
  exact ⟨d, h1, (Res.ok.inj h).symm⟩

theorem seen_eq {w : W Offer} {d : OfferData} (h : getOffer w = .ok d) : d.owner = w.st.owner ∧ d.ask = w.st.ask ∧ d.inv = w.st.inv := by
  obtain ⟨-, -, e⟩ := getOffer_ok h
  rw [e]
  exact ⟨rfl, rfl, rfl⟩

/-- **C194.** `offer_trade` spends the amount given, in the coin that the offer asks for. If it goes through, whatever happened to the offer
    since, the price is still the one given, and the address chosen gets what the amount buys at that price, rounded down. -/
theorem C194_trade {seen : W Offer} {user : Option Nat} {height amount dst price : Nat} {r : Req}
    (h : offerTrade seen user height amount dst price = .ok r) (since : List (Ev OfferCall)) (w' : W Offer)
    (hx : run r (runEv offerExec seen since) = .ok w') :
    r.1.dep = some (seen.st.ask, amount) ∧ (runEv offerExec seen since).st.inv = price ∧
    ∃ got, 0 < got ∧ w'.pays = (runEv offerExec seen since).pays ++ [⟨dst, seen.st.bid, got, user, height⟩] ∧
      got * 2 ^ 64 ≤ amount * price ∧ amount * price < (got + 1) * 2 ^ 64 := by
  obtain ⟨d, hd, rfl⟩ := seen_ok h
  obtain ⟨-, f2, f3, f4⟩ := since_fixed seen since
  obtain ⟨-, hp, deposit', got, back, h1, h2, h3, h4, h5, h6, -⟩ := C63_take _ dst price false _ w' hx
  obtain ⟨b0, h7⟩ := h6 rfl
  subst b0
  have e := Prod.mk.inj (Option.some.inj h1)
  have e2 : amount = deposit' := e.2
  subst e2
  refine ⟨by rw [h1, f4], hp.symm, got, h2, ?_, h5, h7⟩
  rw [h4, f3]
  unfold sends
  rw [if_neg (by omega), if_pos rfl, List.append_nil]
  rfl

/-- **C194.** `accept_offer` spends no more than the amount shown when the user asked. If it goes through, whatever happened to the offer
    since, the price is still the one given; the address chosen gets coins at that price, and what they did not cost comes back to it. -/
theorem C194_accept {seen : W Offer} {user : Option Nat} {height dst price : Nat} {r : Req}
    (h : acceptOffer seen user height dst price = .ok r) (since : List (Ev OfferCall)) (w' : W Offer)
    (hx : run r (runEv offerExec seen since) = .ok w') :
    (runEv offerExec seen since).st.inv = price ∧
    ∃ d got back, getOffer seen = .ok d ∧ r.1.dep = some (seen.st.ask, d.askAmount) ∧ 0 < got ∧ back ≤ d.askAmount ∧
      w'.pays = (runEv offerExec seen since).pays ++ sends r.1 dst got seen.st.bid ++ sends r.1 dst back seen.st.ask ∧
      got * 2 ^ 64 ≤ (d.askAmount - back) * price ∧ (d.askAmount - back) * price < got * 2 ^ 64 + price := by
  obtain ⟨d, hd, rfl⟩ := seen_ok h
  obtain ⟨-, f2, f3, f4⟩ := since_fixed seen since
  obtain ⟨-, hp, deposit', got, back, h1, h2, h3, h4, h5, -, h6⟩ := C63_take _ dst price true _ w' hx
  have e := Prod.mk.inj (Option.some.inj h1)
  have e2 : d.askAmount = deposit' := e.2
  subst e2
  refine ⟨hp.symm, d, got, back, hd, by rw [h1, f4], h2, h3, ?_, h5, h6 rfl⟩
  rw [h4, f3, f4]

/-- **C194.** If nothing happened since, and the price given is the one shown, then `accept_offer` goes through, takes all that is on offer,
    and spends exactly the amount shown. -/
theorem C194_whole {seen : W Offer} {d : OfferData} (hd : getOffer seen = .ok d) (hne : seen.st.bid ≠ seen.st.ask) (hi : 0 < seen.st.inv)
    (hb0 : 0 < seen.bal seen.st.bid) (hb : seen.bal seen.st.bid < 2 ^ 128) {user : Option Nat}
    (hp : seen.st.partner = none ∨ seen.st.partner = user) (height dst : Nat) :
    ∃ r w', acceptOffer seen user height dst d.inv = .ok r ∧ run r seen = .ok w' ∧
      w'.pays = seen.pays ++ [⟨dst, seen.st.bid, seen.bal seen.st.bid, user, height⟩] ∧
      w'.bal seen.st.bid = 0 ∧ w'.bal seen.st.ask = seen.bal seen.st.ask + d.askAmount := by
  obtain ⟨-, ea, ei⟩ := seen_eq hd
  have hr : acceptOffer seen user height dst d.inv = .ok (deposit user height (.accept dst d.inv) d.askAmount d.ask) := by
    unfold acceptOffer
    rw [hd]
    rfl
  obtain ⟨w', h1, h2⟩ := (C183_amount hd hne hi hb0 hb ⟨user, height, some (d.ask, d.askAmount)⟩ dst d.askAmount hp (by rw [ea])).1 rfl
  refine ⟨_, w', hr, h1, ?_⟩
  obtain ⟨hl, hk, -⟩ := getOffer_ok hd
  obtain ⟨-, -, amount, got, back, g1, g2, g3, g4, g5, -, -⟩ := take_call true h1
  rw [arriveDep_st] at g1 g4 g5
  have e2 : d.askAmount = amount := (Prod.mk.inj (Option.some.inj g1)).2
  subst e2
  have b1 := g4.bal seen.st.bid
  have b2 := g4.bal seen.st.ask
  rw [paid_append, paid_sends, paid_sends] at b1 b2
  rw [if_pos rfl, if_neg (fun k => hne k.symm)] at b1
  rw [if_neg hne, if_pos rfl] at b2
  have a1 : (arriveDep ⟨user, height, some (d.ask, d.askAmount)⟩ seen).bal seen.st.bid = seen.bal seen.st.bid := by
    rw [ea]; exact upd_ne _ hne
  have a2 : (arriveDep ⟨user, height, some (d.ask, d.askAmount)⟩ seen).bal seen.st.ask = seen.bal seen.st.ask + d.askAmount := by
    rw [ea]; exact upd_self _ _ _
  rw [a1, h2] at b1
  rw [a2] at b2
  have hgot : got = seen.bal seen.st.bid := by omega
  have hback : back = 0 := by
    rcases Verif.Codec.C39_ask_rounds_up (seen.bal seen.st.bid) seen.st.inv hb hl hi with ⟨a, k1, k2, k3, k4⟩ | ⟨k1, -⟩
    · have ea2 : a = d.askAmount := Res.ok.inj (k1.symm.trans hk)
      subst ea2
      by_cases h0 : back = 0
      · exact h0
      · exfalso
        rw [hgot] at g5
        obtain ⟨b, m1, m2⟩ := k4 (d.askAmount - back) (by omega)
        rcases Verif.Codec.C39_bid_rounds_down (d.askAmount - back) seen.st.inv (by omega) hl with ⟨b', n1, -, n3, -⟩ | ⟨n1, -⟩
        · have eb := Res.ok.inj (n1.symm.trans m1)
          subst eb
          have : (b' + 1) * 2 ^ 64 ≤ seen.bal seen.st.bid * 2 ^ 64 := Nat.mul_le_mul_right _ m2
          omega
        · exact absurd (n1.symm.trans m1) (by simp)
    · exact absurd (k1.symm.trans hk) (by simp)
  refine ⟨?_, h2, by omega⟩
  rw [g4.pays, arriveDep_pays, hback, hgot]
  unfold sends
  rw [if_neg (by omega), if_pos rfl, List.append_nil]

/-- **C194.** `cancel_offer` and `offer_withdraw` spend nothing. Whatever happened to the offer since, they go through and give the owner
    all that the offer has of the coin offered, or of the coin asked for. -/
theorem C194_owner {seen : W Offer} {height : Nat} {r q : Req} (h1 : cancelOffer seen height = .ok r)
    (h2 : offerWithdraw seen height = .ok q) (since : List (Ev OfferCall)) :
    let w := runEv offerExec seen since
    r.1.dep = none ∧ q.1.dep = none ∧
    (w.bal seen.st.bid < 2 ^ 128 → w.bal seen.st.ask < 2 ^ 128 →
      (∃ w', run r w = .ok w' ∧ w'.bal seen.st.bid = 0 ∧ w'.pays = w.pays ++ sends r.1 seen.st.owner (w.bal seen.st.bid) seen.st.bid) ∧
      ∃ w', run q w = .ok w' ∧ w'.bal seen.st.ask = 0 ∧ w'.pays = w.pays ++ sends q.1 seen.st.owner (w.bal seen.st.ask) seen.st.ask) := by
  obtain ⟨d, hd, rfl⟩ := seen_ok h1
  obtain ⟨d', hd', rfl⟩ := seen_ok h2
  have e := Res.ok.inj (hd.symm.trans hd')
  subst e
  obtain ⟨f1, -, f3, f4⟩ := since_fixed seen since
  intro w
  refine ⟨rfl, rfl, fun hb ha => ?_⟩
  have k := C63_owner_exit ⟨some d.owner, height, none⟩ w (by rw [f1, (seen_eq hd).1]) (by rw [f3]; exact hb) (by rw [f4]; exact ha)
  rw [f1, f3, f4] at k
  exact k

/-! ### examples -/

def exSeen : W Offer := runEv offerExec (fresh offerStart) [.recv 7 100]

/-- Half of the offer goes to another before the wallet's call: half of the payment comes back. -/
def exSince : List (Ev OfferCall) := [.call ⟨some 2, 200, some (8, 100)⟩ (.trade 2 (2 ^ 63))]

def paysOf (r : Res Req) (w : W Offer) : Option (List Pay) :=
  match r with
  | .ok r => match run r w with
    | .ok w' => some (w'.pays.drop w.pays.length)
    | _ => none
  | _ => none

example : paysOf (acceptOffer exSeen none 201 5 (2 ^ 63)) exSeen = some [⟨5, 7, 100, none, 201⟩] ∧
    paysOf (acceptOffer exSeen none 201 5 (2 ^ 63)) (runEv offerExec exSeen exSince) = some [⟨5, 7, 50, none, 201⟩, ⟨5, 8, 100, none, 201⟩] ∧
    paysOf (acceptOffer exSeen none 201 5 (2 ^ 62)) exSeen = none ∧
    paysOf (offerTrade exSeen none 201 31 5 (2 ^ 63)) (runEv offerExec exSeen exSince) = some [⟨5, 7, 15, none, 201⟩] ∧
    paysOf (cancelOffer exSeen 201) (runEv offerExec exSeen exSince) = some [⟨1, 7, 50, some 1, 201⟩] ∧
    paysOf (offerWithdraw exSeen 201) (runEv offerExec exSeen exSince) = some [⟨1, 8, 100, some 1, 201⟩] := by decide +kernel

end Verif.Wallet.Offers
