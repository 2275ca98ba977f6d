import Verif.Contract.PropsCustody
/-
  C65 plot NFT (src/contract/plot_nft.js) and C66 smart wallet (src/contract/smart_wallet.js).
-/
namespace Verif.Contract

open Res

/-! ### C65: plot NFT -/

theorem plotNft_claim {e : Env} {cur : Option Nat} {w w' : W PlotNft} (h : plotNftExec e (.claimAll cur) w = .ok w') :
    e.user = w.st.claimer e.height ∧
    ∃ l, Sent w w' l ∧ (∀ p ∈ l, w.st.claimer e.height = some p.to ∧ p.user = some p.to ∧ p.height = e.height) ∧
      paid l (curOr cur) = w.bal (curOr cur) := by
  obtain ⟨h1, h⟩ := chk_bind.1 h
  obtain ⟨l, hs, hl, hp, -⟩ := sendOpt_sent h
  refine ⟨h1, l, hs, fun p hm => ?_, hp⟩
  obtain ⟨a, -, -, b, c⟩ := hl p hm
  exact ⟨h1 ▸ a, by rw [b, a], c⟩

/-- Locked until `H + 256` at least, for target `t`. -/
structure LockedTo (t : Option Nat) (H : Nat) (s : PlotNft) : Prop where
  target : s.target = t
  unlock : ∀ u, s.unlock = some u → H + 256 ≤ u

theorem LockedTo.locked {t : Option Nat} {H : Nat} {s : PlotNft} (h : LockedTo t H s) {height : Nat}
    (hh : height < H + 256) : s.isLocked height = true := by
  unfold PlotNft.isLocked
  split
  · rfl
  · rename_i u hu
    have := h.unlock u hu
    exact decide_eq_true (by omega)

/-- C65: a locked plot NFT stays locked to its target, whatever the owner and others do, until at least 256 blocks
    after the first call of `unlock`: rewards go to the target, whatever farmer asks, and all coins paid out in that
    time go to the target at the target's own call. -/
theorem C65_locked (w : W PlotNft) (hl : w.st.unlock = none) (history : List (Ev PlotNftCall)) (H : Nat)
    (h1 : ∀ e, Ev.call e .unlock ∈ history → H ≤ e.height)
    (h2 : ∀ e c, Ev.call e c ∈ history → e.height < H + 256) :
    let w' := runEv plotNftExec w history
    (∀ height farmer, height < H + 256 → w'.st.rewardTarget height farmer = w.st.target) ∧
    (∀ height, height < H + 256 → w'.st.isLocked height = true) ∧
    ∃ l, w'.pays = w.pays ++ l ∧ ∀ p ∈ l, w.st.target = some p.to ∧ p.user = some p.to := by
  have key := runEv_inv_of (exec := plotNftExec)
    (P := fun e c => (c = .unlock → H ≤ e.height) ∧ e.height < H + 256)
    (I := fun x => LockedTo w.st.target H x.st ∧
      ∃ l, x.pays = w.pays ++ l ∧ ∀ p ∈ l, w.st.target = some p.to ∧ p.user = some p.to)
    (fun _ _ _ h => h)
    (fun e c x x' hP h hx => by
      have hlk := h.1.locked hP.2
      obtain ⟨hI, l, hpl, hl2⟩ := h
      have hst := arriveDep_st e x
      have hpays := arriveDep_pays e x
      cases c with
      | lock target url =>
        obtain ⟨-, hx⟩ := chk_bind.1 hx
        obtain ⟨g, hx⟩ := chk_bind.1 hx
        rw [hst, hlk] at g; cases g
      | unlock =>
        obtain ⟨-, hx⟩ := chk_bind.1 hx
        split at hx
        · cases hx
          exact ⟨by rw [hst]; exact hI, l, by rw [hpays]; exact hpl, hl2⟩
        · obtain ⟨u, hu, hx⟩ := bind_eq_ok.1 hx
          obtain ⟨rfl, -⟩ := cadd_ok hu
          cases hx
          refine ⟨⟨by show (arriveDep e x).st.target = _; rw [hst]; exact hI.target, fun u hu => ?_⟩, l,
            by show (arriveDep e x).pays = _; rw [hpays]; exact hpl, hl2⟩
          have := hP.1 rfl
          cases hu; omega
      | claimAll cur =>
        obtain ⟨-, l', hs, hl', -⟩ := plotNft_claim hx
        refine ⟨by rw [hs.st, hst]; exact hI, l ++ l', by rw [hs.pays, hpays, hpl, List.append_assoc], fun p hp => ?_⟩
        rcases List.mem_append.1 hp with hp | hp
        · exact hl2 p hp
        · obtain ⟨a, b, -⟩ := hl' p hp
          rw [hst] at a
          unfold PlotNft.claimer at a
          rw [if_pos hlk, hI.target] at a
          exact ⟨a, b⟩
      | transfer owner =>
        obtain ⟨-, hx⟩ := chk_bind.1 hx
        cases hx
        exact ⟨⟨by show (arriveDep e x).st.target = _; rw [hst]; exact hI.target,
          fun u hu => hI.unlock u (by rw [← hst]; exact hu)⟩, l,
          by show (arriveDep e x).pays = _; rw [hpays]; exact hpl, hl2⟩
      | setServerUrl url =>
        obtain ⟨-, hx⟩ := chk_bind.1 hx
        cases hx
        exact ⟨⟨by show (arriveDep e x).st.target = _; rw [hst]; exact hI.target,
          fun u hu => hI.unlock u (by rw [← hst]; exact hu)⟩, l,
          by show (arriveDep e x).pays = _; rw [hpays]; exact hpl, hl2⟩)
    history w (fun e c hm => ⟨fun hc => h1 e (hc ▸ hm), h2 e c hm⟩)
    ⟨⟨rfl, fun u hu => by rw [hl] at hu; cases hu⟩, [], by simp, by simp⟩
  refine ⟨fun height farmer hh => ?_, fun height hh => key.1.locked hh, key.2⟩
  unfold PlotNft.rewardTarget
  rw [if_pos (key.1.locked hh), key.1.target]

/-- C65: the owner can always start the unlocking; from 256 blocks later on the NFT is unlocked, its coins and
    (without a farmer's wish) its rewards belong to the owner. -/
theorem C65_unlock (e : Env) (w : W PlotNft) (hu : e.user = some w.st.owner) (hl : w.st.unlock = none)
    (hh : e.height < 2 ^ 32) :
    ∃ w', plotNftExec e .unlock w = .ok w' ∧ w'.st.owner = w.st.owner ∧
      ∀ height, e.height + 256 ≤ height → w'.st.isLocked height = false ∧
        w'.st.claimer height = some w.st.owner ∧ w'.st.rewardTarget height none = some w.st.owner := by
  refine ⟨{ w with st := { w.st with unlock := some (e.height + 256) } }, ?_, rfl, fun height h => ?_⟩
  · refine chk_bind.2 ⟨hu, ?_⟩
    rw [hl]
    refine bind_eq_ok.2 ⟨e.height + 256, ?_, rfl⟩
    unfold cadd; rw [if_pos (by omega)]
  · have hn : PlotNft.isLocked { w.st with unlock := some (e.height + 256) } height = false := by
      show decide (height < e.height + 256) = false
      exact decide_eq_false (by omega)
    refine ⟨hn, ?_, ?_⟩
    · show (if _ then _ else _) = _; rw [hn]; rfl
    · show (if _ then _ else _) = _; rw [hn]; rfl

/-- C65: `unlock` does not restart a running countdown. -/
theorem C65_unlock_once (e : Env) (w w' : W PlotNft) (u : Nat) (hl : w.st.unlock = some u)
    (h : plotNftExec e .unlock w = .ok w') : w' = w := by
  obtain ⟨-, h⟩ := chk_bind.1 h
  rw [hl] at h
  cases h; rfl

/-- C65: as long as the owner neither locks nor transfers it, a new plot NFT pays only its owner; it is never
    locked. -/
theorem C65_unlocked (owner : Nat) (history : List (Ev PlotNftCall))
    (h : ∀ e c, Ev.call e c ∈ history → e.user = some owner →
      (∀ t u, c ≠ .lock t u) ∧ ∀ o, c ≠ .transfer o) :
    let w := runEv plotNftExec (plotNftInit owner) history
    w.st.owner = owner ∧ (∀ height, w.st.isLocked height = false) ∧
    (∀ p ∈ w.pays, p.to = owner ∧ p.user = some owner) ∧ ∀ c, w.got c = w.bal c + paid w.pays c := by
  have key := runEv_inv_of (exec := plotNftExec)
    (P := fun e c => e.user = some owner → (∀ t u, c ≠ .lock t u) ∧ ∀ o, c ≠ .transfer o)
    (I := fun x => (x.st.owner = owner ∧ x.st.unlock = some 0) ∧
      (∀ p ∈ x.pays, p.to = owner ∧ p.user = some owner) ∧ Kept x)
    (fun _ c a h => ⟨h.1, h.2.1, h.2.2.arrive c a⟩)
    (fun e c x x' hP h hx => by
      obtain ⟨⟨ho, hu⟩, hp, hk⟩ := h
      have hst := arriveDep_st e x
      have hpays := arriveDep_pays e x
      have hk' := hk.arriveDep e
      have hnl : ∀ height, x.st.isLocked height = false := by
        intro height; unfold PlotNft.isLocked; rw [hu]; exact decide_eq_false (Nat.not_lt_zero _)
      cases c with
      | lock target url =>
        obtain ⟨g, -⟩ := chk_bind.1 hx
        unfold isUser at g
        rw [hst, ho] at g
        exact absurd rfl ((hP g).1 target url)
      | unlock =>
        obtain ⟨-, hx⟩ := chk_bind.1 hx
        rw [hst, hu] at hx
        cases hx
        exact ⟨⟨by rw [hst]; exact ho, by rw [hst]; exact hu⟩, by rw [hpays]; exact hp, hk'⟩
      | claimAll cur =>
        obtain ⟨-, l', hs, hl', -⟩ := plotNft_claim hx
        refine ⟨by rw [hs.st, hst]; exact ⟨ho, hu⟩, fun p hm => ?_, hk'.sent hs⟩
        rcases hs.mem hm with hm | hm
        · rw [hpays] at hm; exact hp p hm
        · obtain ⟨a, b, -⟩ := hl' p hm
          rw [hst] at a
          unfold PlotNft.claimer at a
          rw [hnl, ho] at a
          cases a
          exact ⟨rfl, b⟩
      | transfer o =>
        obtain ⟨g, -⟩ := chk_bind.1 hx
        unfold isUser at g
        rw [hst, ho] at g
        exact absurd rfl ((hP g).2 o)
      | setServerUrl url =>
        obtain ⟨-, hx⟩ := chk_bind.1 hx
        cases hx
        exact ⟨⟨by show (arriveDep e x).st.owner = _; rw [hst]; exact ho,
          by show (arriveDep e x).st.unlock = _; rw [hst]; exact hu⟩,
          by show ∀ p ∈ (arriveDep e x).pays, _; rw [hpays]; exact hp, hk'.congr rfl rfl rfl⟩)
    history (plotNftInit owner) (fun e c hm => h e c hm) ⟨⟨rfl, rfl⟩, by simp [plotNftInit, fresh], Kept.fresh _⟩
  refine ⟨key.1.1, fun height => ?_, key.2.1, key.2.2⟩
  unfold PlotNft.isLocked; rw [key.1.2]; exact decide_eq_false (Nat.not_lt_zero _)

/-- Locked to 5, the owner starts unlocking at 1000: up to height 1255 only 5 can claim and the lock cannot be
    changed; at 1256 the owner can. -/
def plotHistory : List (Ev PlotNftCall) :=
  [.call ⟨some 1, 900, none⟩ (.lock 5 .null), .recv 0 70, .call ⟨some 1, 1000, none⟩ .unlock,
   .call ⟨some 1, 1255, none⟩ (.claimAll none), .call ⟨some 1, 1255, none⟩ (.lock 6 .null),
   .call ⟨some 1, 1255, none⟩ .unlock, .call ⟨some 5, 1255, none⟩ (.claimAll none), .recv 0 3,
   .call ⟨some 5, 1256, none⟩ (.claimAll none), .call ⟨some 1, 1256, none⟩ (.claimAll none)]

example : (runEv plotNftExec (plotNftInit 1) plotHistory).pays = [⟨5, 0, 70, some 5, 1255⟩, ⟨1, 0, 3, some 1, 1256⟩] ∧
    (runEv plotNftExec (plotNftInit 1) plotHistory).st.unlock = some 1256 := by decide +kernel

/-! ### C66: smart wallet -/

/-- How many payments of a plan can become due up to height `H`: at its next payment height and then once per
    interval. A cancelled plan, or one with a value that is not a number, pays never. -/
def Plan.due (p : Plan) (H : Nat) : Nat :=
  match p.active, p.next, p.interval with
  | true, .num next, .num interval => if next ≤ H then (H - next) / interval + 1 else 0
  | _, _, _ => 0

/-- The amount of one payment, if it is a number. -/
def Plan.amt (p : Plan) : Nat :=
  match p.amount with
  | .num n => n
  | _ => 0

/-- All that plans for currency `c` can pay up to height `H`. -/
def dueTotal (plans : List (Nat × Plan)) (H c : Nat) : Nat :=
  (plans.map fun x => if x.2.currency = c then x.2.due H * x.2.amt else 0).sum

theorem dueTotal_cons (x : Nat × Plan) (l : List (Nat × Plan)) (H c : Nat) :
    dueTotal (x :: l) H c = (if x.2.currency = c then x.2.due H * x.2.amt else 0) + dueTotal l H c := by
  simp [dueTotal]

theorem dueTotal_setPlan {l : List (Nat × Plan)} {name : Nat} {p q : Plan} (hf : findPlan l name = some p)
    (H c : Nat) (hq : q.currency = p.currency) :
    dueTotal (setPlan l name q) H c + (if p.currency = c then p.due H * p.amt else 0) =
      dueTotal l H c + (if p.currency = c then q.due H * q.amt else 0) := by
  induction l with
  | nil => cases hf
  | cons x l ih =>
    obtain ⟨n, r⟩ := x
    have hf' : (if n = name then some r else findPlan l name) = some p := hf
    have hs : setPlan ((n, r) :: l) name q = if n = name then (n, q) :: l else (n, r) :: setPlan l name q := rfl
    rw [hs]
    by_cases hn : n = name
    · rw [if_pos hn] at hf' ⊢
      cases hf'
      rw [dueTotal_cons, dueTotal_cons, hq]
      show (if p.currency = c then q.due H * q.amt else 0) + _ + _ = (if p.currency = c then p.due H * p.amt else 0) + _ + _
      omega
    · rw [if_neg hn] at hf' ⊢
      rw [dueTotal_cons, dueTotal_cons]
      have := ih hf'
      omega

/-- After a payment at height at most `H` one payment less is due. -/
theorem due_step {p : Plan} {next interval H : Nat} (ha : p.active = true) (hn : p.next = .num next)
    (hi : p.interval = .num interval) (h0 : 0 < interval) (hH : next ≤ H) :
    ({ p with next := .num (next + interval) } : Plan).due H + 1 = p.due H := by
  unfold Plan.due
  simp only [ha, hn, hi]
  rw [if_pos hH]
  by_cases h : next + interval ≤ H
  · rw [if_pos h]
    have : H - next = H - (next + interval) + interval := by omega
    rw [this, Nat.add_div_right _ h0]
  · rw [if_neg h, Nat.div_eq_of_lt (by omega)]

/-- All intervals are positive (or not numbers). -/
def Paced (plans : List (Nat × Plan)) : Prop := ∀ x ∈ plans, x.2.interval ≠ .num 0

theorem findPlan_mem {l : List (Nat × Plan)} {name : Nat} {p : Plan} (h : findPlan l name = some p) :
    (name, p) ∈ l := by
  induction l with
  | nil => cases h
  | cons x l ih =>
    obtain ⟨n, q⟩ := x
    have h' : (if n = name then some q else findPlan l name) = some p := h
    by_cases hn : n = name
    · rw [if_pos hn] at h'; cases h'; subst hn; exact List.mem_cons_self
    · rw [if_neg hn] at h'; exact List.mem_cons_of_mem _ (ih h')

theorem Paced.set {l : List (Nat × Plan)} (h : Paced l) (name : Nat) (q : Plan) (hq : q.interval ≠ .num 0) :
    Paced (setPlan l name q) := by
  induction l with
  | nil => intro x hx; have := List.mem_singleton.1 hx; subst this; exact hq
  | cons y l ih =>
    obtain ⟨n, r⟩ := y
    intro x hx
    have hs : setPlan ((n, r) :: l) name q = if n = name then (n, q) :: l else (n, r) :: setPlan l name q := rfl
    rw [hs] at hx
    split at hx
    · rcases List.mem_cons.1 hx with rfl | hx
      · exact hq
      · exact h x (List.mem_cons_of_mem _ hx)
    · rcases List.mem_cons.1 hx with rfl | hx
      · exact h _ List.mem_cons_self
      · exact ih (fun y hy => h y (List.mem_cons_of_mem _ hy)) x hx

/-- C66: a payment of a plan, whoever triggers it, pays exactly the plan's amount to the plan's target, not before
    its next payment height, and moves that by one interval. -/
theorem C66_payment (e : Env) (name : Nat) (w w' : W SmartWallet)
    (h : smartWalletExec e (.planPayment name) w = .ok w') :
    ∃ p next interval amount, findPlan w.st.plans name = some p ∧ p.active = true ∧ p.next = .num next ∧
      p.interval = .num interval ∧ p.amount = .num amount ∧ next ≤ e.height ∧
      w'.pays = w.pays ++ sends e p.target amount p.currency ∧
      w'.st = { w.st with plans := setPlan w.st.plans name { p with next := .num (next + interval) } } ∧
      (∀ c, w'.bal c + paid (sends e p.target amount p.currency) c = w.bal c) ∧ w'.got = w.got := by
  unfold smartWalletExec at h
  dsimp only at h
  split at h
  · cases h
  · rename_i p hp
    unfold payPlan at h
    obtain ⟨h1, h⟩ := chk_bind.1 h
    obtain ⟨next, h2, h⟩ := bind_eq_ok.1 h
    obtain ⟨h3, h⟩ := chk_bind.1 h
    obtain ⟨interval, h4, h⟩ := bind_eq_ok.1 h
    obtain ⟨n, h5, h⟩ := bind_eq_ok.1 h
    obtain ⟨amount, h6, h⟩ := bind_eq_ok.1 h
    obtain ⟨hn, -⟩ := cadd_ok h5
    subst hn
    have hs := (send_sent h).1
    exact ⟨p, next, interval, amount, hp, h1, uint_ok h2, uint_ok h4, uint_ok h6, h3, hs.pays, hs.st, hs.bal, hs.got⟩

/-- Only the owner's calls other than triggering payments matter: all others abort. -/
theorem smartWallet_call {e : Env} {c : SmartWalletCall} {w w' : W SmartWallet}
    (h : smartWalletExec e c w = .ok w') : e.user = some w.st.owner ∨ ∃ name, c = .planPayment name := by
  cases c with
  | transfer address amount currency => exact .inl (chk_bind.1 h).1
  | addPlan name amount currency target interval start => exact .inl (chk_bind.1 h).1
  | cancelPlan name => exact .inl (chk_bind.1 h).1
  | planPayment name => exact .inr ⟨name, rfl⟩

/-- C66: whatever others do, as long as the owner does not act, a smart wallet whose plans have positive intervals
    pays out of each currency at most what its active plans owe up to the height reached. -/
theorem C66_bounded_partial (w : W SmartWallet) (hp : Paced w.st.plans) (H : Nat)
    (history : List (Ev SmartWalletCall)) (hH : ∀ e c, Ev.call e c ∈ history → e.height ≤ H)
    (hh : ∀ e c, Ev.call e c ∈ history → e.user = some w.st.owner → ∃ name, c = .planPayment name) :
    let w' := runEv smartWalletExec w history
    w'.st.owner = w.st.owner ∧
    ∀ c, paid w'.pays c + dueTotal w'.st.plans H c = paid w.pays c + dueTotal w.st.plans H c := by
  have key := runEv_inv_of (exec := smartWalletExec)
    (P := fun e c => e.height ≤ H ∧ (e.user = some w.st.owner → ∃ name, c = .planPayment name))
    (I := fun x => x.st.owner = w.st.owner ∧ Paced x.st.plans ∧
      ∀ c, paid x.pays c + dueTotal x.st.plans H c = paid w.pays c + dueTotal w.st.plans H c)
    (fun _ _ _ h => h)
    (fun e c x x' hP h hx => by
      obtain ⟨ho, hpc, hd⟩ := h
      have hst := arriveDep_st e x
      have hc : ∃ name, c = .planPayment name := by
        rcases smartWallet_call hx with h | h
        · rw [hst, ho] at h; exact hP.2 h
        · exact h
      obtain ⟨name, rfl⟩ := hc
      obtain ⟨p, next, interval, amount, hf, ha, hn, hi, ham, hle, hpays, hst', -, -⟩ := C66_payment _ _ _ _ hx
      rw [hst] at hf hst'
      rw [arriveDep_pays] at hpays
      have hi0 : 0 < interval := by
        refine Nat.pos_of_ne_zero (fun h0 => ?_)
        exact hpc _ (findPlan_mem hf) (by rw [hi, h0])
      refine ⟨by rw [hst']; exact ho, by rw [hst']; exact hpc.set name _ (hpc _ (findPlan_mem hf)), fun c => ?_⟩
      rw [hst', hpays, paid_append, paid_sends]
      have e1 := dueTotal_setPlan (q := { p with next := .num (next + interval) }) hf H c rfl
      have e2 := due_step ha hn hi hi0 (Nat.le_trans hle hP.1)
      have e3 : p.amt = amount := by unfold Plan.amt; rw [ham]
      have e4 : ({ p with next := .num (next + interval) } : Plan).amt = p.amt := rfl
      have hdc := hd c
      rw [e4, ← e2, e3, Nat.add_mul, Nat.one_mul] at e1
      show paid x.pays c + (if p.currency = c then amount else 0) + dueTotal (setPlan x.st.plans name { p with next := .num (next + interval) }) H c = _
      by_cases hcur : p.currency = c
      · rw [if_pos hcur] at e1 ⊢
        rw [if_pos hcur] at e1
        omega
      · rw [if_neg hcur] at e1 ⊢
        rw [if_neg hcur] at e1
        omega)
    history w (fun e c hm => ⟨hH e c hm, hh e c hm⟩) ⟨rfl, hp, fun _ => rfl⟩
  exact ⟨key.1, key.2.2⟩

/-- C66: a due payment of an active plan goes through if the coins are there. -/
theorem C66_pays (e : Env) (name : Nat) (w : W SmartWallet) (p : Plan) (next interval amount : Nat)
    (hf : findPlan w.st.plans name = some p) (ha : p.active = true) (hn : p.next = .num next)
    (hi : p.interval = .num interval) (hm : p.amount = .num amount) (hle : next ≤ e.height)
    (hb : amount ≤ w.bal p.currency) (hb' : amount < 2 ^ 128) (hlt : next + interval < 2 ^ 256) :
    ∃ w', smartWalletExec e (.planPayment name) w = .ok w' := by
  unfold smartWalletExec
  dsimp only
  rw [hf]
  dsimp only
  unfold payPlan
  obtain ⟨w', hw⟩ := send_succeeds (e := e) (to := p.target) (amount := amount) (cur := p.currency)
    (w := { w with st := { w.st with plans := setPlan w.st.plans name { p with next := .num (next + interval) } } })
    hb' hb
  refine ⟨w', chk_bind.2 ⟨ha, bind_eq_ok.2 ⟨next, by rw [hn]; rfl, chk_bind.2 ⟨hle, bind_eq_ok.2 ⟨interval, by rw [hi]; rfl,
    bind_eq_ok.2 ⟨next + interval, ?_, bind_eq_ok.2 ⟨amount, by rw [hm]; rfl, hw⟩⟩⟩⟩⟩⟩⟩
  unfold cadd; rw [if_pos hlt]

/-- C66: everything that leaves is a transfer by the owner or a plan payment; the rest is still held. -/
theorem C66_accounted (owner : Nat) (history : List (Ev SmartWalletCall)) :
    let w := runEv smartWalletExec (smartWalletInit owner) history
    ∀ c, w.got c = w.bal c + paid w.pays c := by
  refine runEv_inv (I := Kept) (fun _ c a h => h.arrive c a) (fun e c w w' h hx => ?_) history _ (Kept.fresh _)
  cases c with
  | transfer address amount currency =>
    obtain ⟨-, hx⟩ := chk_bind.1 hx
    exact h.sent (send_sent hx).1
  | addPlan name amount currency target interval start =>
    obtain ⟨-, hx⟩ := chk_bind.1 hx
    obtain ⟨-, hx⟩ := chk_bind.1 hx
    cases hx; exact h.congr rfl rfl rfl
  | cancelPlan name =>
    obtain ⟨-, hx⟩ := chk_bind.1 hx
    split at hx
    · cases hx
    · cases hx; exact h.congr rfl rfl rfl
  | planPayment name =>
    obtain ⟨p, next, interval, amount, -, -, -, -, -, -, hpays, -, hbal, hgot⟩ := C66_payment _ _ _ _ hx
    intro c
    rw [hgot, hpays, paid_append, h c, ← hbal c]; omega

/-- A wallet with a plan of 10 coins per 100 blocks from height 50. -/
def walletPlan : W SmartWallet :=
  arrive 7 1000 (fresh ⟨1, [(3, ⟨.num 10, 7, 5, .num 100, .num 50, true⟩)]⟩)

def payAt (h : Nat) : Ev SmartWalletCall := .call ⟨some 9, h, none⟩ (.planPayment 3)

/-- At height 49 nothing can be taken, at 150 two payments, not three. -/
example : (runEv smartWalletExec walletPlan [payAt 49, payAt 150, payAt 150, payAt 150]).pays =
    [⟨5, 7, 10, some 9, 150⟩, ⟨5, 7, 10, some 9, 150⟩] ∧ dueTotal walletPlan.st.plans 150 7 = 20 := by
  decide +kernel

/-- C66 does not hold for an interval of zero, which `add_plan` accepts: then anybody can make the wallet pay the
    plan's target any number of times at one height. -/
theorem C66_zero_interval :
    let w := arrive 7 1000 (runEv smartWalletExec (smartWalletInit 1)
      [.call ⟨some 1, 40, none⟩ (.addPlan 3 (.num 250) 7 5 (.num 0) .null)])
    (runEv smartWalletExec w (List.replicate 4 (payAt 50))).bal 7 = 0 ∧
    paid (runEv smartWalletExec w (List.replicate 4 (payAt 50))).pays 7 = 1000 := by decide +kernel

end Verif.Contract
