import Verif.Wallet.FundLemmas2
import Verif.Wallet.SignLemmas2
/-
  `complete` as a whole.
-/
namespace Verif.Wallet
open Verif

/-- The unlocked wallet `u` that runs inside a call on `w`. -/
structure Runs (E : Env) (w u : W) (p : Nat) : Prop where
  num : u.num ≠ 0
  keys : u.keypairs = E.keys p u.num
  addrs : u.addresses = E.addrs p u.num
  km : KM u.kmap u.addresses
  same : u.num = w.num ∧ u.balance = w.balance ∧ u.height = w.height ∧ u.defaultExpire = w.defaultExpire ∧
    u.reserved = w.reserved ∧ u.pendingTx = w.pendingTx ∧ u.pendingMap = w.pendingMap ∧ u.withPass = w.withPass ∧
    u.finger = w.finger
  how : (w.isLocked = false ∧ u = w) ∨ (w.isLocked = true ∧ w.keypairs = [] ∧ w.kmap = [] ∧ w.unlock E p = some u)

/-- A guarded call either fails on the spot and changes nothing, or runs on the unlocked wallet. -/
theorem guarded_cases {E : Env} {w : W} (hk : KInv E w) (hn : w.num ≠ 0) (o : Opts) (f : W → W × Res Tx) :
    (w.isLocked = true ∧ (∀ p, o.passphrase = some p → w.unlock E p = none) ∧ w.guarded E o f = (w, .throw)) ∨
    ∃ u p, Runs E w u p ∧ (w.isLocked = true → o.passphrase = some p) ∧
      w.guarded E o f = (if w.isLocked then ((f u).1.lock, (f u).2) else f u) := by
  unfold W.guarded
  cases hl : w.isLocked with
  | false =>
    right
    obtain ⟨p, h1, h2, h3, h4⟩ := hk.unlocked hl
    exact ⟨w, p, ⟨h1, h2, h3, h4, ⟨rfl, rfl, rfl, rfl, rfl, rfl, rfl, rfl, rfl⟩, .inl ⟨hl, rfl⟩⟩, by simp, by simp⟩
  | true =>
    obtain ⟨hkp, hkm⟩ := hk.locked hl
    cases hp : o.passphrase with
    | none => left; exact ⟨rfl, by simp, by simp⟩
    | some p =>
      cases hu : w.unlock E p with
      | none => left; exact ⟨rfl, by intro q hq; cases hq; exact hu, by simp [hu]⟩
      | some u =>
        right
        obtain ⟨_, _, h⟩ := unlock_spec hkm hu
        rcases h with ⟨h, _⟩ | ⟨_, h1, h2, h3, _, h5, h6, h7, h8, h9, h10, h11, h12, h13⟩
        · exact absurd h hn
        · refine ⟨u, p, ⟨by rw [h5]; exact hn, by rw [h5]; exact h1, by rw [h5]; exact h2, h3,
            ⟨h5, h6, h7, h10, h11, h12, h13, h8, h9⟩, .inr ⟨hl, hkp, hkm, hu⟩⟩, fun _ => rfl, by simp [hu]⟩

theorem Runs.unlocked {E w u p} (h : Runs E w u p) : u.isLocked = false := unlocked_of_keys h.num h.keys h.addrs

theorem signOff_unlocked {E : Env} {u : W} (h : u.isLocked = false) (o : Opts) (tx : Tx) :
    u.signOff E o tx = (u, signBody E u o tx) := by
  unfold W.signOff W.guarded
  simp [h]

/-- Funding and signing on the unlocked wallet. -/
def inner (E : Env) (u : W) (o : Opts) (deposit : List (Addr × Nat)) (tx : Tx) : Res Tx :=
  fund E u o deposit (setup E u o tx) >>= fun t => signBody E u o t

theorem complete_cases {E : Env} {w : W} (hk : KInv E w) (hn : w.num ≠ 0) (o : Opts) (dep : List (Addr × Nat)) (tx : Tx) :
    (w.isLocked = true ∧ (∀ p, o.passphrase = some p → w.unlock E p = none) ∧ w.complete E o dep tx = (w, .throw)) ∨
    ∃ u p, Runs E w u p ∧ (w.isLocked = true → o.passphrase = some p) ∧
      w.complete E o dep tx = ((if w.isLocked then u.lock else w), inner E u o dep tx) := by
  rcases guarded_cases hk hn o (completeBody E o dep tx) with h | ⟨u, p, h1, h2, h3⟩
  · exact .inl h
  · right
    refine ⟨u, p, h1, h2, ?_⟩
    have he : completeBody E o dep tx u = (u, inner E u o dep tx) := by
      unfold inner completeBody
      cases fund E u o dep (setup E u o tx) with
      | ok t => simp [signOff_unlocked h1.unlocked]
      | throw => rfl
      | ub => rfl
    unfold W.complete
    rw [h3]
    rw [he]
    rcases h1.how with ⟨hl, hu⟩ | ⟨hl, _⟩
    · subst hu; simp [hl]
    · simp [hl]

theorem signOff_cases {E : Env} {w : W} (hk : KInv E w) (hn : w.num ≠ 0) (o : Opts) (tx : Tx) :
    (w.isLocked = true ∧ (∀ p, o.passphrase = some p → w.unlock E p = none) ∧ w.signOff E o tx = (w, .throw)) ∨
    ∃ u p, Runs E w u p ∧ (w.isLocked = true → o.passphrase = some p) ∧
      w.signOff E o tx = ((if w.isLocked then u.lock else w), signBody E u o tx) := by
  rcases guarded_cases hk hn o (fun u => (u, signBody E u o tx)) with h | ⟨u, p, h1, h2, h3⟩
  · exact .inl h
  · right
    refine ⟨u, p, h1, h2, ?_⟩
    unfold W.signOff
    rw [h3]
    rcases h1.how with ⟨hl, hu⟩ | ⟨hl, _⟩
    · subst hu; simp [hl]
    · simp [hl]

/-! ### funding -/

theorem pickSender_spec (sp : AMap Key Nat) (m : AMap Key Nat) : ∀ best : Addr × Nat,
    best.2 ≤ (pickSender sp m best).2 ∧
    (∀ e ∈ m, e.1.2 = 0 → avail sp e.1 e.2 ≤ (pickSender sp m best).2) ∧
    (pickSender sp m best = best ∨ ∃ e ∈ m, e.1 = ((pickSender sp m best).1, 0) ∧
      avail sp e.1 e.2 = (pickSender sp m best).2) := by
  induction m with
  | nil => intro best; exact ⟨Nat.le_refl _, by simp, .inl rfl⟩
  | cons e m ih =>
    intro best
    unfold pickSender
    split
    · rename_i h
      obtain ⟨i1, i2, i3⟩ := ih (e.1.1, avail sp e.1 e.2)
      dsimp only at i1
      refine ⟨by omega, ?_, ?_⟩
      · intro x hx hx0
        rcases List.mem_cons.1 hx with rfl | hx
        · exact i1
        · exact i2 x hx hx0
      · right
        rcases i3 with i3 | ⟨x, hx, q⟩
        · refine ⟨e, List.mem_cons_self, ?_, ?_⟩ <;> rw [i3]
          rw [← h.1]
        · exact ⟨x, List.mem_cons_of_mem _ hx, q⟩
    · rename_i h
      obtain ⟨i1, i2, i3⟩ := ih best
      refine ⟨i1, ?_, ?_⟩
      · intro x hx hx0
        rcases List.mem_cons.1 hx with rfl | hx
        · have : ¬ avail sp x.1 x.2 > best.2 := fun h' => h ⟨hx0, h'⟩
          omega
        · exact i2 x hx hx0
      · rcases i3 with i3 | ⟨x, hx, q⟩
        · exact .inl i3
        · exact .inr ⟨x, List.mem_cons_of_mem _ hx, q⟩

/-- The amounts `fund` draws from the wallet, by address and currency. -/
structure Funding (E : Env) (w : W) (o : Opts) (dep : List (Addr × Nat)) (tx t : Tx) (take : Key → Nat) : Prop where
  ext : Extends w o.memo tx.inputs t.inputs
  draw : ∀ k, drawn t.inputs k = drawn tx.inputs k + take k
  room : ∀ k, take k ≤ w.bal k
  sum : ∀ c, inSum t.inputs c = inSum tx.inputs c + need tx dep c
  fee : ∃ c fee mx, E.cost t.inputs tx.outputs tx.ops tx.solutions tx.deploy = .ok c ∧
    Chain.costToFee c tx.feeRatio = .ok fee ∧ Chain.costToFee (u64 (c + o.gasLimit)) tx.feeRatio = .ok mx ∧
    t.maxFee = u32 mx ∧
    (∀ s, tx.sender = some s → t.sender = some s) ∧
    (tx.sender = none → ∀ s, o.sender = some s → t.sender = some s) ∧
    (tx.sender = none → o.sender = none → ∃ s v, t.sender = some s ∧ fee ≤ v ∧
      (∀ a, w.bal (a, 0) - take (a, 0) ≤ v) ∧
      (v = w.bal (s, 0) - take (s, 0) ∨ v = 0))
  rest : t.id = tx.id ∧ t.version = tx.version ∧ t.expires = tx.expires ∧ t.feeRatio = tx.feeRatio ∧
    t.staticCost = tx.staticCost ∧ t.note = tx.note ∧ t.nonce = tx.nonce ∧ t.network = tx.network ∧
    t.outputs = tx.outputs ∧ t.ops = tx.ops ∧ t.solutions = tx.solutions ∧ t.deploy = tx.deploy ∧
    t.contentHash = tx.contentHash

theorem find_isSome_mem {α β : Type} [DecidableEq α] {m : AMap α β} {k : α} (h : (m.find k).isSome = true) :
    ∃ v, m.find k = some v := Option.isSome_iff_exists.1 h

theorem fits_missing {tx : Tx} {dep : List (Addr × Nat)} (hf : Fits tx dep) :
    ∀ e ∈ missing tx dep, e.2 = need tx dep e.1 ∧ inSum tx.inputs e.1 + e.2 < 2 ^ 128 := by
  obtain ⟨m1, m2⟩ := missing_spec hf
  intro e he
  have h1 : e.2 = need tx dep e.1 := by
    rw [← m2 e.1, AMap.mem_find m1 he]; rfl
  refine ⟨h1, ?_⟩
  rw [h1]
  have := hf e.1
  unfold need
  omega

theorem fund_ok {E : Env} (hsrt : SortOk E.srt) {w : W} (hb : w.BalOk) {o : Opts} {dep : List (Addr × Nat)} {tx t : Tx}
    (hf : Fits tx dep) (h : fund E w o dep tx = .ok t) : ∃ take, Funding E w o dep tx t take := by
  obtain ⟨m1, m2⟩ := missing_spec hf
  have hs0 : SpOk w [] := fun k => by simp [got, AMap.find]
  obtain ⟨f1, f2, f3⟩ := fundAll_spec hsrt hb o.memo (missing tx dep) tx.inputs [] m1 hs0
    (fun e he => (fits_missing hf e he).2)
  unfold fund at h
  obtain ⟨⟨ins', sp'⟩, hr, h⟩ := Res.bind_eq_ok.1 h
  obtain ⟨q1, q2, q3, q4⟩ := f3 _ _ hr
  dsimp only at h
  obtain ⟨c, hc, h⟩ := Res.bind_eq_ok.1 h
  obtain ⟨fee, hfee, h⟩ := Res.bind_eq_ok.1 h
  obtain ⟨mx, hmx, h⟩ := Res.bind_eq_ok.1 h
  have hd : ∀ k, drawn ins' k = drawn tx.inputs k + got sp' k := by
    intro k
    have := q3 k
    simp only [got, AMap.find, Option.getD_none, Nat.add_zero] at this
    exact this
  have hsum : ∀ c, inSum ins' c = inSum tx.inputs c + need tx dep c := by
    intro c; rw [q4, m2]
  cases hsd : tx.sender with
  | some s =>
    rw [hsd] at h
    simp only [Res.ok.injEq] at h
    subst h
    exact ⟨got sp', q1, hd, q2, hsum, ⟨c, fee, mx, hc, hfee, hmx, rfl, by simp [hsd], by simp [hsd], by simp [hsd]⟩,
      rfl, rfl, rfl, rfl, rfl, rfl, rfl, rfl, rfl, rfl, rfl, rfl, rfl⟩
  | none =>
    rw [hsd] at h
    dsimp only at h
    cases ho : o.sender with
    | some s =>
      rw [ho] at h
      simp only [Res.ok.injEq] at h
      subst h
      exact ⟨got sp', q1, hd, q2, hsum, ⟨c, fee, mx, hc, hfee, hmx, rfl, by simp [hsd],
        by intro _ s' hs'; rw [ho] at hs'; exact hs', by simp [ho]⟩,
        rfl, rfl, rfl, rfl, rfl, rfl, rfl, rfl, rfl, rfl, rfl, rfl, rfl⟩
    | none =>
      rw [ho] at h
      dsimp only at h
      split at h
      · rename_i hge
        simp only [Res.ok.injEq] at h
        subst h
        obtain ⟨p1, p2, p3⟩ := pickSender_spec sp' w.balance (0, 0)
        refine ⟨got sp', q1, hd, q2, hsum, ⟨c, fee, mx, hc, hfee, hmx, rfl, by simp [hsd], by simp [ho], ?_⟩,
          rfl, rfl, rfl, rfl, rfl, rfl, rfl, rfl, rfl, rfl, rfl, rfl, rfl⟩
        intro _ _
        refine ⟨_, (pickSender sp' w.balance (0, 0)).2, rfl, hge, ?_, ?_⟩
        · intro a
          unfold W.bal
          cases hfa : w.balance.find (a, 0) with
          | none => simp
          | some b =>
            have := p2 _ (AMap.find_mem hfa) rfl
            rw [avail_eq hb q2 hfa] at this
            exact this
        · rcases p3 with p3 | ⟨e, he, p4, p5⟩
          · right; rw [p3]
          · left
            have hfe := AMap.mem_find hb.keys he
            rw [avail_eq hb q2 hfe] at p5
            rw [p4] at hfe p5
            rw [← p5]
            show e.2 - _ = (w.balance.find _).getD 0 - _
            rw [hfe]; rfl
      · cases h

/-- When `fund` succeeds, for a given sender. -/
theorem fund_iff {E : Env} (hsrt : SortOk E.srt) {w : W} (hb : w.BalOk) {o : Opts} {dep : List (Addr × Nat)} {tx : Tx}
    (hf : Fits tx dep) (hsend : tx.sender.isSome = true ∨ o.sender.isSome = true)
    (hcost : ∀ ins, ∃ c fee mx, E.cost ins tx.outputs tx.ops tx.solutions tx.deploy = .ok c ∧
      Chain.costToFee c tx.feeRatio = .ok fee ∧ Chain.costToFee (u64 (c + o.gasLimit)) tx.feeRatio = .ok mx) :
    (∃ t, fund E w o dep tx = .ok t) ↔ ∀ c, need tx dep c ≤ w.total c := by
  obtain ⟨m1, m2⟩ := missing_spec hf
  have hs0 : SpOk w [] := fun k => by simp [got, AMap.find]
  obtain ⟨f1, f2, f3⟩ := fundAll_spec hsrt hb o.memo (missing tx dep) tx.inputs [] m1 hs0
    (fun e he => (fits_missing hf e he).2)
  have key : (∀ e ∈ missing tx dep, e.2 ≤ room w.balance [] e.1) ↔ ∀ c, need tx dep c ≤ w.total c := by
    constructor
    · intro h c
      rw [← m2 c]
      cases hfc : (missing tx dep).find c with
      | none => simp
      | some x => have := h _ (AMap.find_mem hfc); rw [room_nil] at this; exact this
    · intro h e he
      rw [room_nil, (fits_missing hf e he).1]
      exact h e.1
  rw [← key, ← f1]
  constructor
  · rintro ⟨t, h⟩
    unfold fund at h
    obtain ⟨r, hr, _⟩ := Res.bind_eq_ok.1 h
    exact ⟨r, hr⟩
  · rintro ⟨r, hr⟩
    unfold fund
    rw [hr]
    simp only [Res.bind_ok]
    obtain ⟨c, fee, mx, h1, h2, h3⟩ := hcost r.1
    unfold Env.costOf
    rw [h1]
    simp only [Res.bind_ok]
    rw [h2]
    simp only [Res.bind_ok]
    rw [h3]
    simp only [Res.bind_ok]
    cases hsd : tx.sender with
    | some s => exact ⟨_, rfl⟩
    | none =>
      cases ho : o.sender with
      | some s => exact ⟨_, rfl⟩
      | none => rw [hsd, ho] at hsend; simp at hsend

theorem fund_throw {E : Env} (hsrt : SortOk E.srt) {w : W} (hb : w.BalOk) {o : Opts} {dep : List (Addr × Nat)} {tx : Tx}
    (hf : Fits tx dep) (hn : ¬ ∀ c, need tx dep c ≤ w.total c) : fund E w o dep tx = .throw := by
  obtain ⟨m1, m2⟩ := missing_spec hf
  have hs0 : SpOk w [] := fun k => by simp [got, AMap.find]
  obtain ⟨f1, f2, f3⟩ := fundAll_spec hsrt hb o.memo (missing tx dep) tx.inputs [] m1 hs0
    (fun e he => (fits_missing hf e he).2)
  unfold fund
  cases hr : fundAll E w o.memo (missing tx dep) tx.inputs [] with
  | throw => rfl
  | ub => exact absurd hr f2
  | ok r =>
    exfalso
    apply hn
    intro c
    have := f1.1 ⟨r, hr⟩
    rw [← m2 c]
    cases hfc : (missing tx dep).find c with
    | none => simp
    | some x => have := this _ (AMap.find_mem hfc); rw [room_nil] at this; exact this

end Verif.Wallet
