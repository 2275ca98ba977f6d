/-
  C183: what a node tells about offers. C184: what it tells about plot NFTs.
-/
import Verif.Contract.Shown
import Verif.Contract.PropsOffer
import Verif.Contract.PropsPlots
import Verif.Codec.PropsFixed

namespace Verif.Contract

open Res
open Verif.Codec

/-! ### lemmas -/

theorem toU128_of_lt {n : Nat} (h : n < 2 ^ 128) : toU128 n = .ok n := by
  unfold toU128
  rw [if_neg (by omega)]

theorem toU128_ok {n m : Nat} (h : toU128 n = .ok m) : m = n ∧ n < 2 ^ 128 := by
  unfold toU128 at h
  by_cases k : n / 2 ^ 128 ≠ 0
  · rw [if_pos k] at h
    cases h
  · rw [if_neg k] at h
    cases h
    exact ⟨rfl, by omega⟩

theorem getOffer_ok {w : W Offer} {d : OfferData} (h : getOffer w = .ok d) :
    w.st.inv < 2 ^ 128 ∧ getAskAmount (w.bal w.st.bid) w.st.inv = .ok d.askAmount ∧
    d = ⟨w.st.owner, w.st.partner, w.st.bid, w.st.ask, w.bal w.st.bid, w.bal w.st.ask, d.askAmount, w.st.inv, w.st.last % 2 ^ 32⟩ := by
  obtain ⟨i, h1, h⟩ := bind_eq_ok.1 h
  obtain ⟨rfl, hl⟩ := toU128_ok h1
  obtain ⟨a, h2, h⟩ := bind_eq_ok.1 h
  cases h
  exact ⟨hl, h2, rfl⟩

/-! ### C183 -/

/-- **C183.** What is shown of an offer is what is in the contract. -/
theorem C183_offer {w : W Offer} {d : OfferData} (h : getOffer w = .ok d) (hl : w.st.last < 2 ^ 32) :
    d.owner = w.st.owner ∧ d.partner = w.st.partner ∧ d.bid = w.st.bid ∧ d.ask = w.st.ask ∧ d.inv = w.st.inv ∧
    d.lastUpdate = w.st.last ∧ d.bidBalance = w.bal w.st.bid ∧ d.askBalance = w.bal w.st.ask := by
  obtain ⟨-, -, e⟩ := getOffer_ok h
  rw [e]
  exact ⟨rfl, rfl, rfl, rfl, rfl, Nat.mod_eq_of_lt hl, rfl, rfl⟩

/-- What `accept` hands out. -/
theorem accept_got {e : Env} {dst price amount : Nat} {w w' : W Offer} (hne : w.st.bid ≠ w.st.ask) (hd : e.dep = some (w.st.ask, amount))
    (h : offerExec e (.accept dst price) (arriveDep e w) = .ok w') :
    w'.bal w.st.bid + min (amount * w.st.inv / 2 ^ 64) (w.bal w.st.bid) = w.bal w.st.bid := by
  have hbal : (arriveDep e w).bal w.st.bid = w.bal w.st.bid := by
    unfold arriveDep; rw [hd]; exact upd_ne _ hne
  change offerAccept e dst price (arriveDep e w) = .ok w' at h
  unfold offerAccept at h
  rw [arriveDep_st] at h
  obtain ⟨h1, h⟩ := checkPartner_ok h
  obtain ⟨h2, h⟩ := chk_bind.1 h
  obtain ⟨a, h3, h⟩ := bind_eq_ok.1 h
  obtain ⟨b, h4, h⟩ := bind_eq_ok.1 h
  obtain ⟨h5, h⟩ := chk_bind.1 h
  obtain ⟨ask, h6, h⟩ := bind_eq_ok.1 h
  obtain ⟨ret, h7, h⟩ := bind_eq_ok.1 h
  obtain ⟨w1, h8, h⟩ := bind_eq_ok.1 h
  have ha := depositIn_ok h3
  have ea : a = amount := by
    rw [hd] at ha
    exact (congrArg Prod.snd (Option.some.inj ha)).symm
  obtain ⟨hb, -⟩ := bidFor_ok h4
  rw [ea] at hb
  have est : w1.st.ask = w.st.ask := by rw [(send_sent h8).1.st, arriveDep_st]
  have s1 := (send_sent h8).1.bal w.st.bid
  have s2 := (send_sent h).1.bal w.st.bid
  rw [paid_sends, if_pos rfl, hbal, hb] at s1
  rw [est, paid_sends, if_neg (fun z : w.st.ask = w.st.bid => hne z.symm)] at s2
  omega

/-- **C183.** Paying the amount that is shown buys all that is on offer; no smaller payment does. -/
theorem C183_amount {w : W Offer} {d : OfferData} (h : getOffer w = .ok d) (hne : w.st.bid ≠ w.st.ask) (hi : 0 < w.st.inv)
    (hb0 : 0 < w.bal w.st.bid) (hb : w.bal w.st.bid < 2 ^ 128) (e : Env) (dst amount : Nat)
    (hp : w.st.partner = none ∨ w.st.partner = e.user) (hd : e.dep = some (w.st.ask, amount)) :
    (amount = d.askAmount → ∃ w', offerExec e (.accept dst d.inv) (arriveDep e w) = .ok w' ∧ w'.bal w.st.bid = 0) ∧
    (amount < d.askAmount → ∀ w', offerExec e (.accept dst d.inv) (arriveDep e w) = .ok w' → 0 < w'.bal w.st.bid) := by
  obtain ⟨hl, hk, e1⟩ := getOffer_ok h
  have einv : d.inv = w.st.inv := by rw [e1]
  have hk' := hk
  rw [getAsk_eq hb hl hi] at hk'
  have hq : (w.bal w.st.bid * 2 ^ 64 + w.st.inv - 1) / w.st.inv < 2 ^ 128 := by
    by_cases q : (w.bal w.st.bid * 2 ^ 64 + w.st.inv - 1) / w.st.inv < 2 ^ 128
    · exact q
    · rw [if_neg q] at hk'
      cases hk'
  rw [if_pos hq] at hk'
  have hA : d.askAmount = (w.bal w.st.bid * 2 ^ 64 + w.st.inv - 1) / w.st.inv := (Res.ok.inj hk').symm
  have hc := ceil_bounds (x := w.bal w.st.bid * 2 ^ 64) hi
  rw [← hA] at hc hq
  rw [einv]
  constructor
  · intro ea
    subst ea
    obtain ⟨w', hw⟩ := C63_accept_works e dst d.askAmount w hne hp hd hq hl hb0 hb (by omega)
    refine ⟨w', hw, ?_⟩
    have g := accept_got hne hd hw
    have : w.bal w.st.bid ≤ d.askAmount * w.st.inv / 2 ^ 64 := (Nat.le_div_iff_mul_le (by decide)).2 hc.1
    omega
  · intro lt w' hw
    have g := accept_got hne hd hw
    have h1 : (amount + 1) * w.st.inv ≤ d.askAmount * w.st.inv := Nat.mul_le_mul_right _ lt
    rw [Nat.add_mul, Nat.one_mul] at h1
    have h2 : amount * w.st.inv < w.bal w.st.bid * 2 ^ 64 := by omega
    have h3 : amount * w.st.inv / 2 ^ 64 < w.bal w.st.bid := (Nat.div_lt_iff_lt_mul (by decide)).2 h2
    omega

/-- Open to all: no partner, and not one that sells a coin for more of the same coin. -/
def Public (w : W Offer) : Prop := w.st.partner = none ∧ ¬ (w.st.bid = w.st.ask ∧ w.st.inv < 2 ^ 64)

instance (w : W Offer) : Decidable (Public w) := inferInstanceAs (Decidable (_ ∧ _))

/-- In the state asked for: any; or with something on offer; or, with `closed`, with something to withdraw. -/
def InState (state closed : Bool) (w : W Offer) : Prop :=
  state = true → 0 < w.bal w.st.bid ∨ (closed = true ∧ 0 < w.bal w.st.ask)

instance (state closed : Bool) (w : W Offer) : Decidable (InState state closed w) := inferInstanceAs (Decidable (_ → _))

theorem looksAt_iff (state closed : Bool) (w : W Offer) : looksAt state closed w = true ↔ InState state closed w := by
  unfold looksAt InState getOfferState
  by_cases h1 : w.bal w.st.bid = 0 <;> by_cases h2 : w.bal w.st.ask = 0 <;> cases state <;> cases closed <;>
    simp [h1, h2] <;> omega

theorem public_iff {w : W Offer} {d : OfferData} (h : getOffer w = .ok d) : (d.partner.isNone && !d.isScam) = true ↔ Public w := by
  obtain ⟨-, -, e⟩ := getOffer_ok h
  unfold Public
  rw [e]
  unfold OfferData.isScam
  simp only [Bool.and_eq_true, Option.isNone_iff_eq_none, Bool.not_eq_true', Bool.and_eq_false_iff, decide_eq_false_iff_not]
  constructor
  · rintro ⟨a, b⟩
    exact ⟨a, fun c => b.elim (fun z => z c.1) fun z => z c.2⟩
  · rintro ⟨a, b⟩
    refine ⟨a, ?_⟩
    by_cases q : w.st.bid = w.st.ask
    · exact .inr fun z => b ⟨q, z⟩
    · exact .inl q

/-- **C183** (partial). The list has exactly the public offers in the state asked for, in order, each shown as on its own. Missing: only if
    none of them has a price or amount that does not fit 128 bits, see `C183_blocked`. -/
theorem C183_list_partial (state closed : Bool) : ∀ (l : List (W Offer)) (f : W Offer → OfferData),
    (∀ w ∈ l, InState state closed w → getOffer w = .ok (f w)) →
    fetchOffers state closed l = .ok ((l.filter fun w => decide (InState state closed w ∧ Public w)).map f)
  | [], _, _ => rfl
  | w :: l, f, h => by
    have ih := C183_list_partial state closed l f fun x hx => h x (List.mem_cons_of_mem _ hx)
    unfold fetchOffers
    by_cases k : InState state closed w
    · have hw := h w (List.mem_cons_self ..) k
      rw [if_pos ((looksAt_iff ..).2 k), hw, ih]
      change Res.ok _ = _
      by_cases p : Public w
      · rw [if_pos ((public_iff hw).2 p), List.filter_cons_of_pos (by simpa using ⟨k, p⟩), List.map_cons]
      · rw [if_neg (fun z => p ((public_iff hw).1 z)), List.filter_cons_of_neg (fun z => p (of_decide_eq_true z).2)]
    · rw [if_neg (fun z => k ((looksAt_iff ..).1 z)), ih, List.filter_cons_of_neg (fun z => k (of_decide_eq_true z).1)]

/-- An offer that cannot be shown. -/
def Unshown (w : W Offer) : Prop := ∀ d, getOffer w ≠ .ok d

/-- **C183.** When an offer can be shown. -/
theorem C183_shown {w : W Offer} (hi : 0 < w.st.inv) (hb : w.bal w.st.bid < 2 ^ 128) :
    (∃ d, getOffer w = .ok d) ↔ w.st.inv < 2 ^ 128 ∧ w.bal w.st.bid * 2 ^ 64 ≤ (2 ^ 128 - 1) * w.st.inv := by
  constructor
  · rintro ⟨d, h⟩
    obtain ⟨hl, hk, -⟩ := getOffer_ok h
    refine ⟨hl, ?_⟩
    rw [getAsk_eq hb hl hi] at hk
    by_cases q : (w.bal w.st.bid * 2 ^ 64 + w.st.inv - 1) / w.st.inv < 2 ^ 128
    · have hc := ceil_bounds (x := w.bal w.st.bid * 2 ^ 64) hi
      exact Nat.le_trans hc.1 (Nat.mul_le_mul_right _ (by omega))
    · rw [if_neg q] at hk
      cases hk
  · rintro ⟨hl, hm⟩
    have q : (w.bal w.st.bid * 2 ^ 64 + w.st.inv - 1) / w.st.inv < 2 ^ 128 := by
      rw [Nat.div_lt_iff_lt_mul hi]
      have : 2 ^ 128 * w.st.inv = (2 ^ 128 - 1) * w.st.inv + w.st.inv := by
        rw [← Nat.succ_mul]
      omega
    refine ⟨⟨w.st.owner, w.st.partner, w.st.bid, w.st.ask, w.bal w.st.bid, w.bal w.st.ask,
      (w.bal w.st.bid * 2 ^ 64 + w.st.inv - 1) / w.st.inv, w.st.inv, w.st.last % 2 ^ 32⟩, ?_⟩
    unfold getOffer
    rw [toU128_of_lt hl, bind_ok, getAsk_eq hb hl hi, if_pos q, bind_ok]

/-- **C183.** One that cannot be shown, among those looked at, hides all. -/
theorem C183_blocked {w : W Offer} (state closed : Bool) (hw : Unshown w) (hs : InState state closed w) :
    ∀ l : List (W Offer), w ∈ l → ∀ r, fetchOffers state closed l ≠ .ok r
  | [], h, _ => absurd h List.not_mem_nil
  | x :: l, h, r => by
    intro hf
    unfold fetchOffers at hf
    by_cases k : looksAt state closed x = true
    · rw [if_pos k] at hf
      obtain ⟨d, h1, hf⟩ := bind_eq_ok.1 hf
      obtain ⟨r', h2, hf⟩ := bind_eq_ok.1 hf
      rcases List.mem_cons.1 h with rfl | h
      · exact hw d h1
      · exact C183_blocked state closed hw hs l h r' h2
    · rw [if_neg k] at hf
      rcases List.mem_cons.1 h with rfl | h
      · exact k ((looksAt_iff ..).2 hs)
      · exact C183_blocked state closed hw hs l h r hf

/-- **C183.** Anybody can make such an offer: deploy one that sells for a price that is too low, or that asks for an inverse price of more than
    128 bits, and send it coins. -/
theorem C183_hide_all (owner : Nat) (e : Env) (inv amount : Nat) (hi : 0 < inv) (h : 2 ^ 128 ≤ inv ∨ (2 ^ 128 - 1) * inv < amount * 2 ^ 64)
    (ha : 0 < amount) (hb : amount < 2 ^ 128) :
    ∃ w, offerInit e owner 1 0 inv none = .ok w ∧
      ∀ state closed l, runEv offerExec w [.recv 1 amount] ∈ l → ∀ r, fetchOffers state closed l ≠ .ok r := by
  refine ⟨fresh ⟨owner, none, 1, 0, inv, e.height⟩, ?_, fun state closed l hl => ?_⟩
  · unfold offerInit
    exact chk_bind.2 ⟨hi, chk_bind.2 ⟨Nat.one_ne_zero, rfl⟩⟩
  · have hx : (runEv offerExec (fresh ⟨owner, none, 1, 0, inv, e.height⟩) [.recv 1 amount]).bal 1 = amount := Nat.zero_add _
    have hy : (runEv offerExec (fresh ⟨owner, none, 1, 0, inv, e.height⟩) [.recv 1 amount]).st = ⟨owner, none, 1, 0, inv, e.height⟩ := rfl
    generalize runEv offerExec (fresh ⟨owner, none, 1, 0, inv, e.height⟩) [.recv 1 amount] = w at hl hx hy
    have hbid : w.bal w.st.bid = amount := by rw [hy]; exact hx
    have hinv : w.st.inv = inv := by rw [hy]
    refine C183_blocked state closed (fun d hd => ?_) (fun _ => .inl (by rw [hbid]; exact ha)) l hl
    obtain ⟨h1, h2⟩ := (C183_shown (w := w) (by rw [hinv]; exact hi) (by rw [hbid]; exact hb)).1 ⟨d, hd⟩
    rw [hbid, hinv] at h2
    rw [hinv] at h1
    omega

/-! ### trades -/

/-- **C183.** The history shows of a `trade` what was paid and received. -/
theorem C183_trade {e : Env} {dst price deposit : Nat} {w w' : W Offer} (hd : e.dep = some (w.st.ask, deposit)) (ha : deposit < 2 ^ 128)
    (hp : price < 2 ^ 128) (h : offerExec e (.trade dst price) (arriveDep e w) = .ok w') :
    ∃ got, tradeEntry deposit price = .ok (deposit, got) ∧ w'.pays = w.pays ++ sends e dst got w.st.bid := by
  change offerTrade e dst price (arriveDep e w) = .ok w' at h
  unfold offerTrade at h
  rw [arriveDep_st] at h
  obtain ⟨h1, h⟩ := checkPartner_ok h
  obtain ⟨h2, h⟩ := chk_bind.1 h
  obtain ⟨a, h3, h⟩ := bind_eq_ok.1 h
  obtain ⟨b, h4, h⟩ := bind_eq_ok.1 h
  obtain ⟨h5, h⟩ := chk_bind.1 h
  have hx := depositIn_ok h3
  have ea : a = deposit := by
    rw [hd] at hx
    exact (congrArg Prod.snd (Option.some.inj hx)).symm
  obtain ⟨hb, -⟩ := bidFor_ok h4
  rw [ea] at hb
  obtain ⟨s, hlt, -⟩ := send_sent h
  rw [← h2] at hb
  refine ⟨b, ?_, ?_⟩
  · unfold tradeEntry
    rw [getBid_eq ha hp, if_pos (by rw [← hb]; exact hlt), bind_ok, hb]
  · rw [s.pays, arriveDep_pays]

def exOffer (inv : Nat) : W Offer := runEv offerExec (fresh ⟨7, none, 1, 0, inv, 100⟩) [.recv 1 10]

theorem ok_of {r : Res (W Offer)} (p : W Offer → Prop) [DecidablePred p] (h : (match r with | .ok w => decide (p w) | _ => false) = true) :
    ∃ w, r = .ok w ∧ p w := by
  cases r with
  | ok w => exact ⟨w, rfl, of_decide_eq_true h⟩
  | throw => cases h
  | ub => cases h

/-- **C183.** Of an `accept` it shows the deposit, not what was kept of it, and what the deposit would have bought: here 50 for 100, when
    10 were bought for 20. And one that succeeds can have an entry that cannot be made. -/
theorem C183_accept_overstated :
    (∃ w', offerExec ⟨some 5, 200, some (0, 100)⟩ (.accept 6 (2 ^ 63)) (arriveDep ⟨some 5, 200, some (0, 100)⟩ (exOffer (2 ^ 63))) = .ok w' ∧
      w'.pays = [⟨6, 1, 10, some 5, 200⟩, ⟨6, 0, 80, some 5, 200⟩]) ∧ tradeEntry 100 (2 ^ 63) = .ok (100, 50) ∧
    (∃ w', offerExec ⟨some 5, 200, some (0, 2 ^ 97)⟩ (.accept 6 (2 ^ 96)) (arriveDep ⟨some 5, 200, some (0, 2 ^ 97)⟩ (exOffer (2 ^ 96))) = .ok w' ∧
      w'.bal 1 = 0) ∧ tradeEntry (2 ^ 97) (2 ^ 96) = .throw :=
  ⟨ok_of (fun w' => w'.pays = [⟨6, 1, 10, some 5, 200⟩, ⟨6, 0, 80, some 5, 200⟩]) (by decide +kernel), by decide +kernel,
    ok_of (fun w' => w'.bal 1 = 0) (by decide +kernel), by decide +kernel⟩

example : getOffer (exOffer (2 ^ 63)) = .ok ⟨7, none, 1, 0, 10, 0, 20, 2 ^ 63, 100⟩ ∧
    fetchOffers true false [fresh ⟨7, none, 1, 0, 1, 100⟩, exOffer (2 ^ 63)] = .ok [⟨7, none, 1, 0, 10, 0, 20, 2 ^ 63, 100⟩] ∧
    fetchOffers true false [exOffer (2 ^ 63), exOffer (2 ^ 128)] = .throw ∧ Public (exOffer 1) ∧ InState true false (exOffer 1) := by
  decide +kernel

/-- It takes 2 ^ 65 of the smallest units of a token of one's own. -/
example : (0 : Nat) < 1 ∧ (2 ^ 128 - 1) * 1 < 2 ^ 65 * 2 ^ 64 ∧ 2 ^ 65 < 2 ^ 128 := by decide

/-! ### C184 -/

/-- **C184.** A plot NFT is shown as locked if and only if its contract is at that height; while locked, its target is where rewards go; the height
    of unlocking is the contract's. -/
theorem C184_info (s : PlotNft) (height : Nat) (hu : ∀ u ∈ s.unlock, u < 2 ^ 32) :
    (getPlotNftInfo s height).isLocked = s.isLocked height ∧ (getPlotNftInfo s height).owner = s.owner ∧
    (getPlotNftInfo s height).unlockHeight = s.unlock ∧
    (∀ t farmer, s.target = some t → s.isLocked height = true →
      (getPlotNftInfo s height).target = s.rewardTarget height farmer ∧ (getPlotNftInfo s height).target = s.claimer height) ∧
    (s.isLocked height = false → (getPlotNftInfo s height).target = none) := by
  unfold getPlotNftInfo PlotNft.rewardTarget PlotNft.claimer PlotNft.isLocked plotTarget
  cases hs : s.unlock with
  | none =>
    refine ⟨rfl, rfl, rfl, fun t f ht _ => ?_, fun h => by cases h⟩
    rw [ht]
    exact ⟨rfl, rfl⟩
  | some u =>
    have e : u % 2 ^ 32 = u := Nat.mod_eq_of_lt (hu u hs)
    dsimp only
    rw [e]
    refine ⟨rfl, rfl, rfl, fun t f ht h => ?_, fun h => ?_⟩
    · rw [ht, if_pos h, if_pos h, if_pos h]
      exact ⟨rfl, rfl⟩
    · rw [if_neg (by rw [h]; decide)]

/-- A plot NFT that is locked has a target. -/
def Aimed (w : W PlotNft) : Prop := ((∃ t, w.st.target = some t) ∨ w.st.unlock = some 0) ∧ ∀ u ∈ w.st.unlock, u < 2 ^ 32

theorem Aimed.congr {w w' : W PlotNft} (h : Aimed w) (ht : w'.st.target = w.st.target) (hu : w'.st.unlock = w.st.unlock) : Aimed w' := by
  unfold Aimed
  rw [ht, hu]
  exact h

theorem aimed_call {e : Env} {c : PlotNftCall} {w w' : W PlotNft} (he : e.height + 256 < 2 ^ 32) (h : Aimed w)
    (hx : plotNftExec e c (arriveDep e w) = .ok w') : Aimed w' := by
  have h : Aimed (arriveDep e w) := h.congr (by rw [arriveDep_st]) (by rw [arriveDep_st])
  generalize arriveDep e w = x at h hx
  cases c with
  | lock t url =>
    obtain ⟨-, hx⟩ := chk_bind.1 hx
    obtain ⟨-, hx⟩ := chk_bind.1 hx
    cases hx
    exact ⟨.inl ⟨t, rfl⟩, fun u hu => by cases hu⟩
  | unlock =>
    obtain ⟨-, hx⟩ := chk_bind.1 hx
    cases hu : x.st.unlock with
    | some u =>
      rw [hu] at hx
      cases hx
      exact h
    | none =>
      rw [hu] at hx
      obtain ⟨u, h1, hx⟩ := bind_eq_ok.1 hx
      obtain ⟨rfl, -⟩ := cadd_ok h1
      cases hx
      refine ⟨.inl ?_, fun u hu => by cases hu; exact he⟩
      rcases h.1 with q | q
      · exact q
      · rw [hu] at q
        cases q
  | claimAll cur =>
    obtain ⟨-, l, hs, -⟩ := plotNft_claim hx
    exact h.congr (by rw [hs.st]) (by rw [hs.st])
  | transfer o =>
    obtain ⟨-, hx⟩ := chk_bind.1 hx
    cases hx
    exact h.congr rfl rfl
  | setServerUrl u =>
    obtain ⟨-, hx⟩ := chk_bind.1 hx
    cases hx
    exact h.congr rfl rfl

/-- **C184.** So it is for every plot NFT, after any calls: what is shown at a height is where the contract sends rewards then, and who can claim. -/
theorem C184_history (owner : Nat) (history : List (Ev PlotNftCall)) (hh : ∀ e c, Ev.call e c ∈ history → e.height + 256 < 2 ^ 32) (height : Nat) :
    let s := (runEv plotNftExec (plotNftInit owner) history).st
    let info := getPlotNftInfo s height
    info.isLocked = s.isLocked height ∧
    (info.isLocked = true → ∃ t, info.target = some t ∧ s.claimer height = some t ∧ ∀ farmer, s.rewardTarget height farmer = some t) ∧
    (info.isLocked = false → info.target = none ∧ s.claimer height = some info.owner ∧ s.rewardTarget height none = some info.owner) := by
  have key : Aimed (runEv plotNftExec (plotNftInit owner) history) :=
    runEv_inv_of (exec := plotNftExec) (P := fun e _ => e.height + 256 < 2 ^ 32) (fun w c a h => h)
      (fun e c w w' he h hx => aimed_call he h hx) history (plotNftInit owner) hh ⟨.inr rfl, fun u hu => by cases hu; decide⟩
  dsimp only
  generalize (runEv plotNftExec (plotNftInit owner) history) = w at key
  obtain ⟨i1, i2, -, i4, i5⟩ := C184_info w.st height key.2
  refine ⟨i1, fun h => ?_, fun h => ?_⟩
  · rw [i1] at h
    have ht : ∃ t, w.st.target = some t := by
      rcases key.1 with q | q
      · exact q
      · unfold PlotNft.isLocked at h
        rw [q] at h
        exact absurd (of_decide_eq_true h) (Nat.not_lt_zero _)
    obtain ⟨t, ht⟩ := ht
    have r : ∀ farmer, w.st.rewardTarget height farmer = some t := fun f => by
      unfold PlotNft.rewardTarget
      rw [if_pos h, ht]
    refine ⟨t, (i4 t none ht h).1.trans (r none), ?_, r⟩
    unfold PlotNft.claimer
    rw [if_pos h, ht]
  · rw [i1] at h
    refine ⟨i5 h, ?_, ?_⟩
    · unfold PlotNft.claimer
      rw [if_neg (by rw [h]; decide), i2]
    · unfold PlotNft.rewardTarget
      rw [if_neg (by rw [h]; decide), i2]

example : (∀ e c, Ev.call e c ∈ plotHistory → e.height + 256 < 2 ^ 32) ∧
    getPlotNftInfo (runEv plotNftExec (plotNftInit 1) plotHistory).st 1255 = ⟨1, true, some 1256, some 5⟩ ∧
    getPlotNftInfo (runEv plotNftExec (plotNftInit 1) plotHistory).st 1256 = ⟨1, false, some 1256, none⟩ ∧
    getPlotNftInfo (runEv plotNftExec (plotNftInit 1) (plotHistory.take 2)).st 950 = ⟨1, true, none, some 5⟩ := by
  refine ⟨fun e c h => ?_, by decide +kernel, by decide +kernel, by decide +kernel⟩
  unfold plotHistory at h
  simp only [List.mem_cons, List.not_mem_nil, or_false, Ev.call.injEq, reduceCtorEq, false_or] at h
  rcases h with h | h | h | h | h | h | h | h <;> rw [h.1] <;> decide

end Verif.Contract
