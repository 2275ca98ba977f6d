import Verif.Contract.PropsCustody
/-
  C67: who can create units of a token (token.js, nft.js, template.js).
  C68: tokens sold for a fixed price (fixed_price_token.js, fixed_price_liquid_token.js).
-/
namespace Verif.Contract

open Res

/-! ### C67: rights to mint -/

theorem token_call {e : Env} {c : TokenCall} {w w' : W Nat} (h : tokenExec e c w = .ok w') :
    e.user = some w.st ∧ (w'.st = w.st ∨ c = .transfer w'.st) ∧
    (∃ l, w'.mints = w.mints ++ l ∧ ∀ m ∈ l, m.user = e.user ∧ m.amount < 2 ^ 80 ∧ ∃ a, c = .mintTo m.to a ∧ m.amount = a) ∧
    (∃ l, w'.pays = w.pays ++ l ∧ ∀ p ∈ l, p.to = w.st ∧ p.user = e.user) ∧ (Kept w → Kept w') := by
  cases c with
  | mintTo address amount =>
    obtain ⟨h1, h⟩ := chk_bind.1 h
    obtain ⟨a, b, c, d, hlt, l, hl, -, hm⟩ := mint_ok h
    refine ⟨h1, .inl a, ⟨l, hl, fun m hm' => ?_⟩, ⟨[], by rw [c]; simp, by simp⟩, fun k => k.congr b c d⟩
    obtain ⟨x, y, z, -⟩ := hm m hm'
    cases x
    exact ⟨z, by omega, amount, rfl, y⟩
  | transfer owner =>
    obtain ⟨h1, h⟩ := chk_bind.1 h
    cases h
    exact ⟨h1, .inr rfl, ⟨[], by simp, by simp⟩, ⟨[], by simp, by simp⟩, fun k => k.congr rfl rfl rfl⟩
  | recover amount currency =>
    obtain ⟨h1, h⟩ := chk_bind.1 h
    have hs := (send_sent h).1
    refine ⟨h1, .inl hs.st, ⟨[], by rw [hs.mints]; simp, by simp⟩, ⟨_, hs.pays, fun p hp => ?_⟩, fun k => k.sent hs⟩
    have := (mem_sends hp).1; subst this; exact ⟨rfl, rfl⟩

/-- C67: a successful call of a token contract is made by its current owner; units are only created by the owner's
    `mint_to`, with the amount and recipient given there. -/
theorem C67_token_call (e : Env) (c : TokenCall) (w w' : W Nat) (h : tokenExec e c w = .ok w') :
    e.user = some w.st ∧ ∃ l, w'.mints = w.mints ++ l ∧
      ∀ m ∈ l, m.amount < 2 ^ 80 ∧ c = .mintTo m.to m.amount := by
  obtain ⟨h1, -, ⟨l, hl, hm⟩, -⟩ := token_call h
  refine ⟨h1, l, hl, fun m hm' => ?_⟩
  obtain ⟨-, a, b, c, d⟩ := hm m hm'
  exact ⟨a, by rw [d]; exact c⟩

/-- C67: as long as the owner does not hand over the token, only the owner mints, and only the owner gets coins held
    by the contract. -/
theorem C67_token (owner : Nat) (history : List (Ev TokenCall))
    (h : ∀ e o, Ev.call e (.transfer o) ∈ history → e.user ≠ some owner) :
    let w := runEv tokenExec (tokenInit owner) history
    w.st = owner ∧ (∀ m ∈ w.mints, m.user = some owner ∧ m.amount < 2 ^ 80) ∧
    (∀ p ∈ w.pays, p.to = owner ∧ p.user = some owner) ∧ ∀ c, w.got c = w.bal c + paid w.pays c := by
  refine runEv_inv_of (exec := tokenExec) (P := fun e c => ∀ o, c = .transfer o → e.user ≠ some owner)
    (I := fun w => w.st = owner ∧ (∀ m ∈ w.mints, m.user = some owner ∧ m.amount < 2 ^ 80) ∧
      (∀ p ∈ w.pays, p.to = owner ∧ p.user = some owner) ∧ Kept w)
    (fun _ c a h => ⟨h.1, h.2.1, h.2.2.1, h.2.2.2.arrive c a⟩) ?_ history _ (fun e c hm o hc => h e o (hc ▸ hm))
    ⟨rfl, by simp [tokenInit, fresh], by simp [tokenInit, fresh], Kept.fresh _⟩
  intro e c w w' hP h hx
  obtain ⟨h1, h2, ⟨l, hl, hm⟩, ⟨l', hl', hp⟩, hk⟩ := token_call hx
  rw [arriveDep_st, h.1] at h1 h2 hp
  rw [arriveDep_mints] at hl
  rw [arriveDep_pays] at hl'
  refine ⟨?_, fun m hm' => ?_, fun p hp' => ?_, hk (h.2.2.2.arriveDep e)⟩
  · rcases h2 with h2 | h2
    · exact h2
    · exact absurd h1 (hP _ h2)
  · rw [hl] at hm'
    rcases List.mem_append.1 hm' with hm' | hm'
    · exact h.2.1 m hm'
    · obtain ⟨a, b, -⟩ := hm m hm'; exact ⟨a.trans h1, b⟩
  · rw [hl'] at hp'
    rcases List.mem_append.1 hp' with hp' | hp'
    · exact h.2.2.1 p hp'
    · obtain ⟨a, b⟩ := hp p hp'; exact ⟨a, b.trans h1⟩

/-- C67: of an NFT at most one unit is ever created, by its creator. -/
theorem C67_nft_once (creator : Nat) (history : List (Ev NftCall)) :
    let w := runEv nftExec (nftInit creator) history
    minted w.mints ≤ 1 ∧ (∀ m ∈ w.mints, m.user = some creator ∧ m.amount = 1) ∧
    (w.st.mintHeight = none ↔ w.mints = []) := by
  have key := runEv_inv (exec := nftExec)
    (I := fun w => w.st.creator = creator ∧ ((w.st.mintHeight = none ∧ w.mints = []) ∨
      ∃ m h, w.st.mintHeight = some h ∧ w.mints = [m] ∧ m.user = some creator ∧ m.amount = 1))
    (fun _ _ _ h => h)
    (fun e c w w' h hx => by
      cases c with
      | mintTo address =>
        obtain ⟨h1, hx⟩ := chk_bind.1 hx
        obtain ⟨h2, hx⟩ := chk_bind.1 hx
        cases hx
        rcases h.2 with ⟨-, h3⟩ | ⟨m, hh, h3, -⟩
        · refine ⟨h.1, .inr ⟨_, _, rfl, by show w.mints ++ _ = _; rw [h3]; rfl, ?_, rfl⟩⟩
          have := h.1 ▸ h1; exact this
        · rw [h3] at h2; cases h2)
    history (nftInit creator) ⟨rfl, .inl ⟨rfl, rfl⟩⟩
  rcases key.2 with ⟨h1, h2⟩ | ⟨m, hh, h1, h2, h3, h4⟩
  · exact ⟨by rw [h2]; exact Nat.zero_le _, by rw [h2]; simp, by rw [h1, h2]; simp⟩
  · refine ⟨by rw [h2]; simp [minted, h4], by rw [h2]; simp [h3, h4], by rw [h1, h2]; simp⟩

theorem findNft_append {l : List (Nat × Nat)} {k : Nat} (h : findNft l k = none) (n a : Nat) :
    findNft (l ++ [(n, a)]) k = if n = k then some a else none := by
  induction l with
  | nil => rfl
  | cons x l ih =>
    obtain ⟨m, b⟩ := x
    have h' : (if m = k then some b else findNft l k) = none := h
    have hs : findNft ((m, b) :: l ++ [(n, a)]) k = if m = k then some b else findNft (l ++ [(n, a)]) k := rfl
    rw [hs]
    by_cases hm : m = k
    · rw [if_pos hm] at h'; cases h'
    · rw [if_neg hm] at h' ⊢; exact ih h'

theorem findNft_append_some {l : List (Nat × Nat)} {k b : Nat} (h : findNft l k = some b) (x : Nat × Nat) :
    findNft (l ++ [x]) k = some b := by
  induction l with
  | nil => cases h
  | cons y l ih =>
    obtain ⟨m, c⟩ := y
    have h' : (if m = k then some c else findNft l k) = some b := h
    have hs : findNft ((m, c) :: l ++ [x]) k = if m = k then some c else findNft (l ++ [x]) k := rfl
    rw [hs]
    by_cases hm : m = k
    · rw [if_pos hm] at h' ⊢; exact h'
    · rw [if_neg hm] at h' ⊢; exact ih h'

/-- C67: a template gives each serial number to one contract for ever, and only with the creator's signature on
    that serial number. -/
theorem C67_template (sha : Nat → Nat) (verify : Nat → Nat → Nat → Bool) (w : W Template)
    (history : List (Ev TemplateCall)) :
    let w' := runEv (templateExec sha verify) w history
    (∀ n a, findNft w.st.nfts n = some a → findNft w'.st.nfts n = some a) ∧
    (∀ n a, findNft w'.st.nfts n = some a → findNft w.st.nfts n = some a ∨
      0 < n ∧ ∃ (e : Env) (key sig : Nat), Ev.call e (TemplateCall.add (.num n) key sig) ∈ history ∧ e.user = some a ∧
        sha key = w.st.creator ∧ verify key n sig = true) := by
  have key := runEv_inv_of (exec := templateExec sha verify) (P := fun e c => Ev.call e c ∈ history)
    (I := fun x => x.st.creator = w.st.creator ∧
      (∀ n a, findNft w.st.nfts n = some a → findNft x.st.nfts n = some a) ∧
      (∀ n a, findNft x.st.nfts n = some a → findNft w.st.nfts n = some a ∨
        0 < n ∧ ∃ (e : Env) (key sig : Nat), Ev.call e (TemplateCall.add (.num n) key sig) ∈ history ∧ e.user = some a ∧
          sha key = w.st.creator ∧ verify key n sig = true))
    (fun _ _ _ h => h)
    (fun e c x x' hP h hx => by
      obtain ⟨hc, h1, h2⟩ := h
      cases c with
      | add serial key sig =>
        unfold templateExec at hx
        dsimp only at hx
        split at hx
        · cases hx
        · rename_i u hu
          obtain ⟨n, g1, hx⟩ := bind_eq_ok.1 hx
          obtain ⟨g2, hx⟩ := chk_bind.1 hx
          obtain ⟨g3, hx⟩ := chk_bind.1 hx
          obtain ⟨g4, hx⟩ := chk_bind.1 hx
          obtain ⟨g5, hx⟩ := chk_bind.1 hx
          cases hx
          have := uint_ok g1; subst this
          rw [arriveDep_st] at g3 g4
          show (arriveDep e x).st.creator = w.st.creator ∧
            (∀ n a, findNft w.st.nfts n = some a → findNft ((arriveDep e x).st.nfts ++ [_]) n = some a) ∧
            (∀ n a, findNft ((arriveDep e x).st.nfts ++ [_]) n = some a → _)
          rw [arriveDep_st]
          refine ⟨hc, fun m a hm => findNft_append_some (h1 m a hm) _, fun m a hm => ?_⟩
          cases hf : findNft x.st.nfts m with
          | some b =>
            rw [findNft_append_some hf] at hm
            exact h2 m a (hm ▸ hf)
          | none =>
            rw [findNft_append hf] at hm
            by_cases hmn : n = m
            · rw [if_pos hmn] at hm
              cases hm; subst hmn
              exact .inr ⟨g2, e, key, sig, hP, hu, g4.trans hc, g5⟩
            · rw [if_neg hmn] at hm; cases hm)
    history w (fun _ _ h => h) ⟨rfl, fun _ _ h => h, fun _ _ h => .inl h⟩
  exact key.2

example : (runEv tokenExec (tokenInit 1) [.call ⟨some 2, 1, none⟩ (.mintTo 2 5), .call ⟨some 1, 1, none⟩ (.mintTo 2 5),
    .call ⟨some 1, 1, none⟩ (.mintTo 2 (2 ^ 80))]).mints = [⟨2, 5, some 1, 1⟩] := by decide +kernel

example : (runEv nftExec (nftInit 1) [.call ⟨some 2, 1, none⟩ (.mintTo 2), .call ⟨some 1, 2, none⟩ (.mintTo 2),
    .call ⟨some 1, 3, none⟩ (.mintTo 3)]).mints = [⟨2, 1, some 1, 2⟩] := by decide +kernel

example : (runEv (templateExec (fun k => k + 1) (fun _ n s => n == s)) (templateInit 6)
    [.call ⟨some 2, 1, none⟩ (.add (.num 4) 5 4), .call ⟨some 3, 1, none⟩ (.add (.num 4) 5 4),
     .call ⟨some 3, 1, none⟩ (.add (.num 5) 4 5), .call ⟨some 3, 1, none⟩ (.add (.num 5) 5 5)]).st.nfts =
    [(4, 2), (5, 3)] := by decide +kernel

/-! ### C68: fixed price tokens -/

theorem fixedToken_call {e : Env} {c : FixedTokenCall} {w w' : W FixedToken} (h : fixedTokenExec e c w = .ok w') :
    (w'.st.price = w.st.price ∧ w'.st.currency = w.st.currency) ∧
    ((c = .buy ∧ w'.st = w.st ∧ w'.pays = w.pays ∧ w'.bal = w.bal ∧ w'.got = w.got ∧
      ∃ amount l, e.dep = some (w.st.currency, amount) ∧ w'.mints = w.mints ++ l ∧
        minted l = amount * w.st.price / 2 ^ 64 ∧ ∀ m ∈ l, e.user = some m.to) ∨
     (e.user = some w.st.owner ∧ w'.mints = w.mints ∧ (w'.st.owner = w.st.owner ∨ c = .transfer w'.st.owner) ∧
      w'.got = w.got ∧ (Kept w → Kept w') ∧
      ∃ l, w'.pays = w.pays ++ l ∧ ∀ p ∈ l, p.to = w.st.owner ∧ p.user = e.user)) := by
  cases c with
  | buy =>
    obtain ⟨amount, h1, h⟩ := bind_eq_ok.1 h
    obtain ⟨n, h2, h⟩ := bind_eq_ok.1 h
    obtain ⟨hn, -⟩ := cmul_ok h2
    subst hn
    obtain ⟨a, b, c, d, -, l, hl, hm, hu⟩ := mint_ok h
    exact ⟨by rw [a]; exact ⟨rfl, rfl⟩, .inl ⟨rfl, a, c, b, d, amount, l, depositIn_ok h1, hl, hm, fun m hm' => (hu m hm').1⟩⟩
  | withdraw amount =>
    obtain ⟨h1, h⟩ := chk_bind.1 h
    have hs := (send_sent h).1
    refine ⟨by rw [hs.st]; exact ⟨rfl, rfl⟩, .inr ⟨h1, hs.mints, .inl (by rw [hs.st]), hs.got, fun k => k.sent hs, _, hs.pays, fun p hp => ?_⟩⟩
    have := (mem_sends hp).1; subst this; exact ⟨rfl, rfl⟩
  | recover amount currency =>
    obtain ⟨h1, h⟩ := chk_bind.1 h
    have hs := (send_sent h).1
    refine ⟨by rw [hs.st]; exact ⟨rfl, rfl⟩, .inr ⟨h1, hs.mints, .inl (by rw [hs.st]), hs.got, fun k => k.sent hs, _, hs.pays, fun p hp => ?_⟩⟩
    have := (mem_sends hp).1; subst this; exact ⟨rfl, rfl⟩
  | transfer owner =>
    obtain ⟨h1, h⟩ := chk_bind.1 h
    cases h
    exact ⟨⟨rfl, rfl⟩, .inr ⟨h1, rfl, .inr rfl, rfl, fun k => k.congr rfl rfl rfl, [], by simp, by simp⟩⟩

/-- C68: a purchase mints to the buyer exactly the deposit times the price, rounded down. -/
theorem C68_buy (e : Env) (w w' : W FixedToken) (h : fixedTokenExec e .buy (arriveDep e w) = .ok w') :
    ∃ amount l, e.dep = some (w.st.currency, amount) ∧ w'.mints = w.mints ++ l ∧
      minted l = amount * w.st.price / 2 ^ 64 ∧ (∀ m ∈ l, e.user = some m.to) ∧
      w'.bal w.st.currency = w.bal w.st.currency + amount := by
  rcases (fixedToken_call h).2 with ⟨-, -, -, hb, -, amount, l, h1, h2, h3, h4⟩ | ⟨-, -, -, -, -, -⟩
  · rw [arriveDep_st] at h1 h3
    refine ⟨amount, l, h1, by rw [h2, arriveDep_mints], h3, h4, ?_⟩
    rw [hb]; unfold arriveDep; rw [h1]; exact upd_self _ _ _
  · obtain ⟨amount, h1, h⟩ := bind_eq_ok.1 h
    obtain ⟨n, h2, h⟩ := bind_eq_ok.1 h
    obtain ⟨hn, -⟩ := cmul_ok h2
    subst hn
    obtain ⟨a, b, c, d, -, l, hl, hm, hu⟩ := mint_ok h
    have h1 := depositIn_ok h1
    rw [arriveDep_st] at h1 hm
    refine ⟨amount, l, h1, by rw [hl, arriveDep_mints], hm, fun m hm' => (hu m hm').1, ?_⟩
    rw [b]; unfold arriveDep; rw [h1]; exact upd_self _ _ _

/-- C68: over all histories, the units of a fixed price token in existence are paid for at the price. -/
theorem C68_paid_for (owner price currency : Nat) (history : List (Ev FixedTokenCall)) :
    let w := runEv fixedTokenExec (fixedTokenInit owner price currency) history
    minted w.mints * 2 ^ 64 ≤ w.got currency * price ∧ ∀ c, w.got c = w.bal c + paid w.pays c := by
  have key := runEv_inv_of (exec := fixedTokenExec) (P := fun _ _ => True)
    (I := fun w => (w.st.price = price ∧ w.st.currency = currency) ∧
      minted w.mints * 2 ^ 64 ≤ w.got currency * price ∧ Kept w)
    (fun w c a h => ⟨h.1, Nat.le_trans h.2.1 (Nat.mul_le_mul_right _ (by
      show w.got currency ≤ upd w.got c (w.got c + a) currency
      by_cases hc : currency = c
      · subst hc; rw [upd_self]; omega
      · rw [upd_ne _ hc]; exact Nat.le_refl _)), h.2.2.arrive c a⟩)
    (fun e c w w' _ h hx => by
      obtain ⟨hst, hc⟩ := fixedToken_call hx
      rw [arriveDep_st] at hst
      have hst' : w'.st.price = price ∧ w'.st.currency = currency := ⟨hst.1.trans h.1.1, hst.2.trans h.1.2⟩
      have mono : w.got currency ≤ (arriveDep e w).got currency := by
        unfold arriveDep
        split
        · exact Nat.le_refl _
        · rename_i x a hd
          show _ ≤ upd w.got x (w.got x + a) currency
          by_cases hc : currency = x
          · subst hc; rw [upd_self]; omega
          · rw [upd_ne _ hc]; exact Nat.le_refl _
      rcases hc with ⟨-, -, hp, hb, hg, amount, l, h1, h2, h3, -⟩ | ⟨-, hm, -, hg, hk, -⟩
      · rw [arriveDep_st, h.1.2] at h1
        rw [arriveDep_st, h.1.1] at h3
        refine ⟨hst', ?_, (h.2.2.arriveDep e).congr hb hp hg⟩
        have hgot : w'.got currency = w.got currency + amount := by
          rw [hg]; unfold arriveDep; rw [h1]; exact upd_self _ _ _
        rw [hgot, h2, arriveDep_mints, minted_append, h3, Nat.add_mul, Nat.add_mul]
        exact Nat.add_le_add h.2.1 (Nat.div_mul_le_self _ _)
      · refine ⟨hst', ?_, hk (h.2.2.arriveDep e)⟩
        rw [hm, hg, arriveDep_mints]
        exact Nat.le_trans h.2.1 (Nat.mul_le_mul_right _ mono))
    history (fixedTokenInit owner price currency) (fun _ _ _ => trivial)
    ⟨⟨rfl, rfl⟩, by simp [fixedTokenInit, fresh, minted], Kept.fresh _⟩
  exact key.2

/-- C68: as long as the owner does not hand over the contract, only the owner takes out the earnings. -/
theorem C68_earnings (owner price currency : Nat) (history : List (Ev FixedTokenCall))
    (h : ∀ e o, Ev.call e (.transfer o) ∈ history → e.user ≠ some owner) :
    let w := runEv fixedTokenExec (fixedTokenInit owner price currency) history
    w.st.owner = owner ∧ ∀ p ∈ w.pays, p.to = owner ∧ p.user = some owner := by
  refine runEv_inv_of (exec := fixedTokenExec) (P := fun e c => ∀ o, c = .transfer o → e.user ≠ some owner)
    (I := fun w => w.st.owner = owner ∧ ∀ p ∈ w.pays, p.to = owner ∧ p.user = some owner)
    (fun _ _ _ h => h) ?_ history _ (fun e c hm o hc => h e o (hc ▸ hm)) ⟨rfl, by simp [fixedTokenInit, fresh]⟩
  intro e c w w' hP h hx
  rcases (fixedToken_call hx).2 with ⟨-, hst, hp, -⟩ | ⟨hu, -, ho, -, -, l, hl, hl'⟩
  · rw [hst, hp, arriveDep_st, arriveDep_pays]; exact h
  · rw [arriveDep_st, h.1] at hu ho hl'
    rw [arriveDep_pays] at hl
    refine ⟨?_, fun p hp => ?_⟩
    · rcases ho with ho | ho
      · exact ho
      · exact absurd hu (hP _ ho)
    · rw [hl] at hp
      rcases List.mem_append.1 hp with hp | hp
      · exact h.2 p hp
      · obtain ⟨a, b⟩ := hl' p hp; exact ⟨a, b.trans hu⟩

example : (runEv fixedTokenExec (fixedTokenInit 1 (2 ^ 63) 7) [.call ⟨some 2, 1, some (7, 101)⟩ .buy,
    .call ⟨some 2, 1, some (8, 101)⟩ .buy, .call ⟨some 2, 1, none⟩ (.withdraw none), .call ⟨some 1, 2, none⟩ (.withdraw none)]).mints =
    [⟨2, 50, some 2, 1⟩] := by decide +kernel

/-! ### C68: the liquid token -/

/-- Units returned and burnt. -/
def burnt (w : W Liquid) : Nat := paidTo w.pays 0 w.st.self

/-- What is owed, in units of `1 / (1000 * price)` of the currency: the owner's share, and for every unit of the
    token in existence its redemption value `2^64 / price * (1000 - ratio) / 1000`. -/
def Solvent (w : W Liquid) : Prop :=
  1000 * w.st.price * w.st.ownerBal + minted w.mints * (2 ^ 64 * (1000 - w.st.ratio)) ≤
    1000 * w.st.price * w.bal w.st.currency + burnt w * (2 ^ 64 * (1000 - w.st.ratio))

theorem liquidAsk_ok {t price ratio a : Nat} (h : liquidAsk t price ratio = .ok a) (ht : t < 2 ^ 128) :
    a = t * 2 ^ 64 / price * (1000 - ratio) / 1000 ∧ 0 < price ∧ ratio ≤ 1000 := by
  obtain ⟨x, h1, h⟩ := bind_eq_ok.1 h
  obtain ⟨r, h2, h⟩ := bind_eq_ok.1 h
  obtain ⟨n, h3, h⟩ := bind_eq_ok.1 h
  obtain ⟨hx, hp⟩ := cdiv_ok h1
  obtain ⟨hr, hr'⟩ := csub_ok h2
  obtain ⟨hn, -⟩ := cmul_ok h3
  obtain ⟨ha, -⟩ := cdiv_ok h
  rw [u256_of_lt (by omega)] at hx
  subst hx hr hn ha
  exact ⟨rfl, Nat.pos_of_ne_zero hp, hr'⟩

/-- Redemption never pays more than the exact value. -/
theorem ask_le {t price r K : Nat} : 1000 * price * (t * K / price * r / 1000) ≤ t * (K * r) := by
  have h1 : 1000 * (t * K / price * r / 1000) ≤ t * K / price * r := Nat.mul_div_le _ _
  have h2 : price * (t * K / price) ≤ t * K := Nat.mul_div_le _ _
  calc 1000 * price * (t * K / price * r / 1000) = price * (1000 * (t * K / price * r / 1000)) := by ac_rfl
    _ ≤ price * (t * K / price * r) := Nat.mul_le_mul_left _ h1
    _ = price * (t * K / price) * r := by ac_rfl
    _ ≤ t * K * r := Nat.mul_le_mul_right _ h2
    _ = t * (K * r) := by ac_rfl

/-- A purchase adds at least what it promises. -/
theorem buy_le {d price ratio K : Nat} (hr : ratio ≤ 1000) :
    1000 * price * (d * ratio / 1000) + d * price / K * (K * (1000 - ratio)) ≤ 1000 * price * d := by
  have h1 : 1000 * (d * ratio / 1000) ≤ d * ratio := Nat.mul_div_le _ _
  have h2 : d * price / K * K ≤ d * price := Nat.div_mul_le_self _ _
  calc 1000 * price * (d * ratio / 1000) + d * price / K * (K * (1000 - ratio))
      = price * (1000 * (d * ratio / 1000)) + d * price / K * K * (1000 - ratio) := by
        congr 1 <;> ac_rfl
    _ ≤ price * (d * ratio) + d * price * (1000 - ratio) :=
        Nat.add_le_add (Nat.mul_le_mul_left _ h1) (Nat.mul_le_mul_right _ h2)
    _ = price * d * (ratio + (1000 - ratio)) := by rw [Nat.mul_add]; congr 1 <;> ac_rfl
    _ = 1000 * price * d := by rw [Nat.add_sub_cancel' hr]; ac_rfl

/-- What a call of the liquid token leaves alone. -/
structure LiquidCfg (w w' : W Liquid) : Prop where
  self : w'.st.self = w.st.self
  price : w'.st.price = w.st.price
  ratio : w'.st.ratio = w.st.ratio
  currency : w'.st.currency = w.st.currency

theorem solvent_add {A B C D a b c d M K : Nat} (h : M * A + B * K ≤ M * C + D * K)
    (h2 : M * a + b * K ≤ M * c + d * K) : M * (A + a) + (B + b) * K ≤ M * (C + c) + (D + d) * K := by
  rw [Nat.mul_add, Nat.mul_add, Nat.add_mul, Nat.add_mul]; omega

/-- Arriving coins do not hurt. -/
theorem Solvent.arrive {w : W Liquid} (h : Solvent w) (c a : Nat) : Solvent (arrive c a w) := by
  unfold Solvent burnt at h ⊢
  refine Nat.le_trans h (Nat.add_le_add_right (Nat.mul_le_mul_left _ ?_) _)
  show w.bal w.st.currency ≤ upd w.bal c (w.bal c + a) w.st.currency
  by_cases hc : w.st.currency = c
  · subst hc; rw [upd_self]; omega
  · rw [upd_ne _ hc]; exact Nat.le_refl _

theorem liquid_call {e : Env} {c : LiquidCall} {w w' : W Liquid} (hr : w.st.ratio ≤ 1000)
    (hne : w.st.self ≠ w.st.currency) (hrec : ∀ a, c ≠ .recover a w.st.currency)
    (hdep : ∀ cur a, e.dep = some (cur, a) → a < 2 ^ 128)
    (hs : Solvent w) (h : liquidExec e c (arriveDep e w) = .ok w') : Solvent w' ∧ LiquidCfg w w' := by
  have hst := arriveDep_st e w
  have hpays := arriveDep_pays e w
  have hmints := arriveDep_mints e w
  cases c with
  | buy =>
    obtain ⟨amount, h1, h⟩ := bind_eq_ok.1 h
    obtain ⟨n, h2, h⟩ := bind_eq_ok.1 h
    obtain ⟨share, h3, h⟩ := bind_eq_ok.1 h
    obtain ⟨ob, h4, h⟩ := bind_eq_ok.1 h
    obtain ⟨m, h5, h⟩ := bind_eq_ok.1 h
    obtain ⟨e2, -⟩ := cmul_ok h2
    obtain ⟨e3, -⟩ := cdiv_ok h3
    obtain ⟨e4, -⟩ := cadd_ok h4
    obtain ⟨e5, -⟩ := cmul_ok h5
    have h1 := depositIn_ok h1
    obtain ⟨a, b, cc, d, -, l, hl, hm, -⟩ := mint_ok h
    rw [hst] at h1 e2 e4 e5
    subst e2 e3 e4 e5
    have a1 : w'.st.self = w.st.self := by rw [a]; show (arriveDep e w).st.self = _; rw [hst]
    have a2 : w'.st.price = w.st.price := by rw [a]; show (arriveDep e w).st.price = _; rw [hst]
    have a3 : w'.st.ratio = w.st.ratio := by rw [a]; show (arriveDep e w).st.ratio = _; rw [hst]
    have a4 : w'.st.currency = w.st.currency := by rw [a]; show (arriveDep e w).st.currency = _; rw [hst]
    have a5 : w'.st.ownerBal = w.st.ownerBal + amount * w.st.ratio / 1000 := by rw [a]
    have a6 : w'.bal w.st.currency = w.bal w.st.currency + amount := by
      rw [b]; show (arriveDep e w).bal _ = _; unfold arriveDep; rw [h1]; exact upd_self _ _ _
    have a7 : w'.pays = w.pays := cc.trans hpays
    have a8 : minted w'.mints = minted w.mints + amount * w.st.price / 2 ^ 64 := by
      rw [hl, minted_append, hm]; show minted (arriveDep e w).mints + _ = _; rw [hmints]
    refine ⟨?_, ⟨a1, a2, a3, a4⟩⟩
    unfold Solvent burnt at hs ⊢
    rw [a1, a2, a3, a4, a5, a6, a7, a8]
    have := solvent_add (d := 0) hs (b := amount * w.st.price / 2 ^ 64) (a := amount * w.st.ratio / 1000) (c := amount)
      (by rw [Nat.zero_mul]; exact buy_le hr)
    exact this
  | sell =>
    obtain ⟨amount, h1, h⟩ := bind_eq_ok.1 h
    obtain ⟨ask, h2, h⟩ := bind_eq_ok.1 h
    obtain ⟨w1, h3, h⟩ := bind_eq_ok.1 h
    have h1 := depositIn_ok h1
    rw [hst] at h1 h2
    obtain ⟨ha, -, -⟩ := liquidAsk_ok h2 (hdep _ _ h1)
    obtain ⟨l, s1, hl, hp1, hp2⟩ := sendOpt_sent h3
    have s2 := (send_sent h).1
    have hst1 : w1.st = w.st := by rw [s1.st, hst]
    rw [hst] at hl hp1 hp2
    rw [hst1] at s2
    have hst2 : w'.st = w.st := by rw [s2.st, hst1]
    have b0 : (arriveDep e w).bal w.st.currency = w.bal w.st.currency := by
      unfold arriveDep; rw [h1]; exact upd_ne _ (fun h => hne h.symm)
    have b1 := s1.bal w.st.currency
    have b2 := s2.bal w.st.currency
    rw [paid_sends, if_neg hne] at b2
    rw [hp1, b0] at b1
    have hburn : burnt w + amount ≤ burnt w' := by
      unfold burnt
      rw [hst2, s2.pays, s1.pays, hpays, paidTo_append, paidTo_append, paidTo_sends, if_pos ⟨rfl, rfl⟩]
      omega
    have hmi : w'.mints = w.mints := by rw [s2.mints, s1.mints, hmints]
    refine ⟨?_, ⟨by rw [hst2], by rw [hst2], by rw [hst2], by rw [hst2]⟩⟩
    unfold Solvent at hs ⊢
    rw [hst2, hmi]
    have hb : w'.bal w.st.currency + ask = w.bal w.st.currency := by omega
    rw [← hb] at hs
    have hask : 1000 * w.st.price * ask ≤ amount * (2 ^ 64 * (1000 - w.st.ratio)) := by rw [ha]; exact ask_le
    rw [Nat.mul_add] at hs
    have hmul : burnt w * (2 ^ 64 * (1000 - w.st.ratio)) + amount * (2 ^ 64 * (1000 - w.st.ratio)) ≤
        burnt w' * (2 ^ 64 * (1000 - w.st.ratio)) := by
      rw [← Nat.add_mul]; exact Nat.mul_le_mul_right _ hburn
    refine Nat.le_trans hs ?_
    generalize 1000 * w.st.price * ask = A at *
    generalize amount * (2 ^ 64 * (1000 - w.st.ratio)) = B at *
    generalize burnt w * (2 ^ 64 * (1000 - w.st.ratio)) = C at *
    generalize burnt w' * (2 ^ 64 * (1000 - w.st.ratio)) = D at *
    omega
  | withdraw amount =>
    obtain ⟨-, h⟩ := chk_bind.1 h
    obtain ⟨h2, h⟩ := chk_bind.1 h
    rw [hst] at h2 h
    have s := (send_sent h).1
    generalize amountOr amount w.st.ownerBal = a at *
    have hst2 : w'.st = { w.st with ownerBal := w.st.ownerBal - a } := by rw [s.st]
    have b := s.bal w.st.currency
    rw [paid_sends, if_pos rfl] at b
    have b0 : w.bal w.st.currency ≤ (arriveDep e w).bal w.st.currency := by
      unfold arriveDep
      split
      · exact Nat.le_refl _
      · rename_i x y hd
        show _ ≤ upd w.bal x (w.bal x + y) w.st.currency
        by_cases hc : w.st.currency = x
        · subst hc; rw [upd_self]; omega
        · rw [upd_ne _ hc]; exact Nat.le_refl _
    have b : w'.bal w.st.currency + a = (arriveDep e w).bal w.st.currency := b
    have hburn : burnt w ≤ burnt w' := by
      unfold burnt
      rw [hst2, s.pays]
      show paidTo w.pays 0 w.st.self ≤ paidTo ((arriveDep e w).pays ++ _) 0 w.st.self
      rw [hpays, paidTo_append]; omega
    have hmi : w'.mints = w.mints := by rw [s.mints]; exact hmints
    refine ⟨?_, ⟨by rw [hst2], by rw [hst2], by rw [hst2], by rw [hst2]⟩⟩
    unfold Solvent at hs ⊢
    rw [hmi, hst2]
    show 1000 * w.st.price * (w.st.ownerBal - a) + minted w.mints * (2 ^ 64 * (1000 - w.st.ratio)) ≤
      1000 * w.st.price * w'.bal w.st.currency + burnt w' * (2 ^ 64 * (1000 - w.st.ratio))
    have hmul : burnt w * (2 ^ 64 * (1000 - w.st.ratio)) ≤ burnt w' * (2 ^ 64 * (1000 - w.st.ratio)) :=
      Nat.mul_le_mul_right _ hburn
    have e1 : w.st.ownerBal = w.st.ownerBal - a + a := by omega
    have e2 : 1000 * w.st.price * w.bal w.st.currency ≤ 1000 * w.st.price * w'.bal w.st.currency + 1000 * w.st.price * a := by
      rw [← Nat.mul_add]; exact Nat.mul_le_mul_left _ (by omega)
    rw [e1, Nat.mul_add] at hs
    generalize burnt w * (2 ^ 64 * (1000 - w.st.ratio)) = C at *
    generalize burnt w' * (2 ^ 64 * (1000 - w.st.ratio)) = D at *
    generalize minted w.mints * (2 ^ 64 * (1000 - w.st.ratio)) = E at *
    omega
  | recover amount currency =>
    obtain ⟨-, h⟩ := chk_bind.1 h
    have s := (send_sent h).1
    have hc : currency ≠ w.st.currency := fun h => hrec amount (by rw [h])
    have hst2 : w'.st = w.st := by rw [s.st, hst]
    have b := s.bal w.st.currency
    rw [paid_sends, if_neg hc] at b
    have b0 : w.bal w.st.currency ≤ (arriveDep e w).bal w.st.currency := by
      unfold arriveDep
      split
      · exact Nat.le_refl _
      · rename_i x y hd
        show _ ≤ upd w.bal x (w.bal x + y) w.st.currency
        by_cases hc : w.st.currency = x
        · subst hc; rw [upd_self]; omega
        · rw [upd_ne _ hc]; exact Nat.le_refl _
    have hburn : burnt w ≤ burnt w' := by
      unfold burnt; rw [hst2, s.pays, hpays, paidTo_append]; omega
    have hmi : w'.mints = w.mints := by rw [s.mints]; exact hmints
    refine ⟨?_, ⟨by rw [hst2], by rw [hst2], by rw [hst2], by rw [hst2]⟩⟩
    unfold Solvent at hs ⊢
    rw [hmi, hst2]
    exact Nat.le_trans hs (Nat.add_le_add (Nat.mul_le_mul_left _ (by omega)) (Nat.mul_le_mul_right _ hburn))
  | transfer owner =>
    obtain ⟨-, h⟩ := chk_bind.1 h
    have hA : Solvent (arriveDep e w) := by
      unfold arriveDep; split
      · exact hs
      · exact hs.arrive _ _
    cases h
    refine ⟨hA, ⟨?_, ?_, ?_, ?_⟩⟩ <;> (show _ = _; simp only [hst])

/-- C68: as long as the owner does not `recover` the currency itself, whatever else happens, the liquid token holds
    the owner's share plus the redemption value of every unit not yet returned. Holds with the deposits of the
    calls below 2^128, as the node guarantees; missing from the full claim: the owner can take it all with
    `recover` (see `C68_recover_drains`). -/
theorem C68_backed_partial (self owner price ratio currency : Nat) (hr : ratio < 1000) (hne : self ≠ currency)
    (history : List (Ev LiquidCall))
    (h1 : ∀ e a, Ev.call e (.recover a currency) ∉ history)
    (h2 : ∀ e c cur a, Ev.call e c ∈ history → e.dep = some (cur, a) → a < 2 ^ 128) :
    let w := runEv liquidExec (fresh ⟨self, owner, price, ratio, currency, 0⟩) history
    1000 * price * w.st.ownerBal + minted w.mints * (2 ^ 64 * (1000 - ratio)) ≤
      1000 * price * w.bal currency + paidTo w.pays 0 self * (2 ^ 64 * (1000 - ratio)) := by
  have key := runEv_inv_of (exec := liquidExec)
    (P := fun e c => (∀ a, c ≠ .recover a currency) ∧ ∀ cur a, e.dep = some (cur, a) → a < 2 ^ 128)
    (I := fun w => Solvent w ∧ LiquidCfg (fresh ⟨self, owner, price, ratio, currency, 0⟩) w)
    (fun w c a h => ⟨h.1.arrive c a, ⟨h.2.self, h.2.price, h.2.ratio, h.2.currency⟩⟩)
    (fun e c w w' hP h hx => by
      have hc : w.st.currency = currency := h.2.currency
      have hs : w.st.self = self := h.2.self
      have hra : w.st.ratio = ratio := h.2.ratio
      obtain ⟨a, b⟩ := liquid_call (by omega) (by rw [hc, hs]; exact hne) (fun a => by rw [hc]; exact hP.1 a) hP.2 h.1 hx
      exact ⟨a, ⟨b.self.trans h.2.self, b.price.trans h.2.price, b.ratio.trans h.2.ratio, b.currency.trans h.2.currency⟩⟩)
    history (fresh ⟨self, owner, price, ratio, currency, 0⟩)
    (fun e c hm => ⟨fun a hc => h1 e a (hc ▸ hm), fun cur a hd => h2 e c cur a hm hd⟩)
    ⟨by simp [Solvent, fresh, minted, burnt, paidTo], ⟨rfl, rfl, rfl, rfl⟩⟩
  have hs := key.1
  unfold Solvent burnt at hs
  rw [key.2.self, key.2.price, key.2.ratio, key.2.currency] at hs
  exact hs

/-- C68: a holder of `t` units, not more than are in existence, can return them at any time and is paid the
    redemption value. -/
theorem C68_redeem (e : Env) (w : W Liquid) (t u : Nat) (hs : Solvent w) (hp : 0 < w.st.price)
    (hr : w.st.ratio ≤ 1000) (hne : w.st.self ≠ w.st.currency) (hu : e.user = some u)
    (hd : e.dep = some (w.st.self, t)) (ht : t + burnt w ≤ minted w.mints) (hb : w.bal w.st.currency < 2 ^ 128)
    (ht2 : t < 2 ^ 128) :
    ∃ w', liquidExec e .sell (arriveDep e w) = .ok w' ∧
      w'.bal w.st.currency + t * 2 ^ 64 / w.st.price * (1000 - w.st.ratio) / 1000 = w.bal w.st.currency ∧
      w'.pays = w.pays ++ sends e u (t * 2 ^ 64 / w.st.price * (1000 - w.st.ratio) / 1000) w.st.currency ++
        sends e 0 t w.st.self := by
  have hst := arriveDep_st e w
  have b0 : (arriveDep e w).bal w.st.currency = w.bal w.st.currency := by
    unfold arriveDep; rw [hd]; exact upd_ne _ (fun h => hne h.symm)
  have bs : (arriveDep e w).bal w.st.self = w.bal w.st.self + t := by
    unfold arriveDep; rw [hd]; exact upd_self _ _ _
  have hq : t * 2 ^ 64 / w.st.price ≤ t * 2 ^ 64 := Nat.div_le_self _ _
  have hqr : t * 2 ^ 64 / w.st.price * (1000 - w.st.ratio) < 2 ^ 256 := by
    have : t * 2 ^ 64 / w.st.price * (1000 - w.st.ratio) ≤ t * 2 ^ 64 * 1000 := Nat.mul_le_mul hq (by omega)
    omega
  have hask : liquidAsk t w.st.price w.st.ratio = .ok (t * 2 ^ 64 / w.st.price * (1000 - w.st.ratio) / 1000) := by
    unfold liquidAsk cdiv csub cmul
    rw [u256_of_lt (by omega), if_neg (by omega), bind_ok, if_pos hr, bind_ok, if_pos hqr, bind_ok]
    rfl
  generalize hA : t * 2 ^ 64 / w.st.price * (1000 - w.st.ratio) / 1000 = ask at *
  have hle : ask ≤ w.bal w.st.currency := by
    unfold Solvent at hs
    have h1 : 1000 * w.st.price * ask ≤ t * (2 ^ 64 * (1000 - w.st.ratio)) := by rw [← hA]; exact ask_le
    have h2 : (t + burnt w) * (2 ^ 64 * (1000 - w.st.ratio)) ≤ minted w.mints * (2 ^ 64 * (1000 - w.st.ratio)) :=
      Nat.mul_le_mul_right _ ht
    rw [Nat.add_mul] at h2
    have h3 : 1000 * w.st.price * ask ≤ 1000 * w.st.price * w.bal w.st.currency := by
      generalize t * (2 ^ 64 * (1000 - w.st.ratio)) = A at *
      generalize burnt w * (2 ^ 64 * (1000 - w.st.ratio)) = B at *
      generalize minted w.mints * (2 ^ 64 * (1000 - w.st.ratio)) = C at *
      generalize 1000 * w.st.price * w.bal w.st.currency = D at *
      generalize 1000 * w.st.price * ask = E at *
      omega
    exact Nat.le_of_mul_le_mul_left h3 (by omega)
  obtain ⟨w1, hw1⟩ := send_succeeds (e := e) (to := u) (amount := ask) (cur := w.st.currency) (w := arriveDep e w)
    (by omega) (by omega)
  have s1 := (send_sent hw1).1
  have b1 := s1.bal w.st.currency
  have b1' := s1.bal w.st.self
  rw [paid_sends, if_pos rfl] at b1
  rw [paid_sends, if_neg (fun h => hne h.symm)] at b1'
  obtain ⟨w2, hw2⟩ := send_succeeds (e := e) (to := zeroAddr) (amount := t) (cur := w.st.self) (w := w1) ht2 (by omega)
  have s2 := (send_sent hw2).1
  have b2 := s2.bal w.st.currency
  rw [paid_sends, if_neg hne] at b2
  have hst1 : w1.st = w.st := by rw [s1.st, hst]
  refine ⟨w2, ?_, by omega, by rw [s2.pays, s1.pays, arriveDep_pays]; rfl⟩
  show (depositIn e (arriveDep e w).st.self >>= _) = _
  rw [hst]
  refine bind_eq_ok.2 ⟨t, ?_, bind_eq_ok.2 ⟨ask, hask, bind_eq_ok.2 ⟨w1, ?_, ?_⟩⟩⟩
  · unfold depositIn; rw [hd]; exact if_pos rfl
  · rw [hu]; exact hw1
  · rw [hst1]; exact hw2

/-- C68 fails without the restriction: after a purchase the owner takes the whole backing with `recover`, and the
    buyer's units cannot be returned any more. -/
def liquidStart : W Liquid := fresh ⟨9, 1, 2 ^ 64, 100, 7, 0⟩

theorem C68_recover_drains :
    let w := runEv liquidExec liquidStart
      [.call ⟨some 2, 1, some (7, 1000)⟩ .buy, .call ⟨some 1, 2, none⟩ (.recover 1000 7)]
    minted w.mints = 1000 ∧ w.bal 7 = 0 ∧ ¬ Solvent w ∧
    (runEv liquidExec w [.call ⟨some 2, 3, some (9, 1000)⟩ .sell]).pays = w.pays := by
  refine ⟨by decide +kernel, by decide +kernel, ?_, by decide +kernel⟩
  unfold Solvent; decide +kernel

example : (runEv liquidExec liquidStart [.call ⟨some 2, 1, some (7, 1000)⟩ .buy,
    .call ⟨some 1, 2, none⟩ (.withdraw none), .call ⟨some 2, 3, some (9, 1000)⟩ .sell]).pays =
    [⟨1, 7, 100, some 1, 2⟩, ⟨2, 7, 900, some 2, 3⟩, ⟨0, 9, 1000, some 2, 3⟩] := by decide +kernel

end Verif.Contract
