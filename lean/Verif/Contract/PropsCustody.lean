import Verif.Contract.KitLemmas
/-
  C42 time lock, C61 escrow, transfer and relay, C62 virtual plot: who gets the coins a contract holds,
  and when. Statements range over all histories: any callers, heights, deposits, transfers to the contract.
-/
namespace Verif.Contract

open Res

/-- Total of one currency paid to one address. -/
def paidTo (l : List Pay) (to cur : Nat) : Nat :=
  ((l.filter fun p => p.to = to ∧ p.cur = cur).map (·.amount)).sum

theorem paidTo_append (a b : List Pay) (t c : Nat) : paidTo (a ++ b) t c = paidTo a t c + paidTo b t c := by
  simp [paidTo, List.filter_append]

theorem paidTo_sends (e : Env) (to amount cur t c : Nat) :
    paidTo (sends e to amount cur) t c = if to = t ∧ cur = c then amount else 0 := by
  unfold sends paidTo
  split
  · simp only [List.filter_nil, List.map_nil, List.sum_nil]; split <;> omega
  · by_cases h : to = t ∧ cur = c <;> simp [h]

/-! ### C42: time lock -/

/-- The later part of a time lock's history. -/
structure LockRel (o : Nat) (w w' : W TimeLock) : Prop where
  owner : w'.st.owner = w.st.owner
  later : w.st.unlock ≤ w'.st.unlock
  pays : ∃ l, w'.pays = w.pays ++ l ∧ ∀ p ∈ l, p.user = some o ∧ w.st.unlock ≤ p.height

theorem timeLock_call {e : Env} {c : TimeLockCall} {w w' : W TimeLock}
    (h : timeLockExec e c w = .ok w') : LockRel w.st.owner w w' ∧ (Kept w → Kept w') := by
  cases c with
  | deposit => cases h; exact ⟨⟨rfl, Nat.le_refl _, [], by simp, by simp⟩, id⟩
  | withdraw address amount currency =>
    obtain ⟨h1, h⟩ := chk_bind.1 h
    obtain ⟨h2, h⟩ := chk_bind.1 h
    obtain ⟨n, -, h⟩ := bind_eq_ok.1 h
    have hs := (send_sent h).1
    refine ⟨⟨by rw [hs.st], by rw [hs.st]; exact Nat.le_refl _, _, hs.pays, fun p hp => ?_⟩, fun k => k.sent hs⟩
    have := (mem_sends hp).1; subst this
    exact ⟨h1, Nat.le_of_not_lt h2⟩
  | setUnlockHeight height =>
    obtain ⟨h1, h⟩ := chk_bind.1 h
    obtain ⟨n, -, h⟩ := bind_eq_ok.1 h
    obtain ⟨h2, h⟩ := chk_bind.1 h
    cases h
    exact ⟨⟨rfl, h2, [], by simp, by simp⟩, fun k => k.congr rfl rfl rfl⟩

theorem timeLock_rel (o : Nat) (l : List (Ev TimeLockCall)) (w : W TimeLock) (hw : w.st.owner = o) :
    LockRel o w (runEv timeLockExec w l) := by
  refine runEv_inv (I := fun x => LockRel o w x) ?_ ?_ l w ⟨rfl, Nat.le_refl _, [], by simp, by simp⟩
  · intro x c a h; exact ⟨h.owner, h.later, h.pays⟩
  · intro e c x x' h hx
    have r := (timeLock_call hx).1
    obtain ⟨l1, e1, p1⟩ := h.pays
    obtain ⟨l2, e2, p2⟩ := r.pays
    refine ⟨by rw [r.owner, h.owner], Nat.le_trans h.later r.later, l1 ++ l2, by rw [e2, e1, List.append_assoc],
      fun p hp => ?_⟩
    rcases List.mem_append.1 hp with hp | hp
    · exact p1 p hp
    · have := p2 p hp
      rw [h.owner, hw] at this
      exact ⟨this.1, Nat.le_trans h.later this.2⟩

/-- C42: whatever happens to a time lock, every payment out of it was made by its owner at the unlock height
    or later. -/
theorem C42_locked (owner unlock : Nat) (history : List (Ev TimeLockCall)) :
    ∀ p ∈ (runEv timeLockExec (timeLockInit owner unlock) history).pays,
      p.user = some owner ∧ unlock ≤ p.height := by
  obtain ⟨l, h1, h2⟩ := (timeLock_rel owner history (timeLockInit owner unlock) rfl).pays
  intro p hp
  rw [h1] at hp
  exact h2 p (by simpa [timeLockInit, fresh] using hp)

/-- C42: the unlock height only moves later, and once moved binds all further payments. -/
theorem C42_extended (owner unlock : Nat) (before after : List (Ev TimeLockCall)) :
    let w := runEv timeLockExec (timeLockInit owner unlock) before
    let w' := runEv timeLockExec (timeLockInit owner unlock) (before ++ after)
    unlock ≤ w.st.unlock ∧ w.st.unlock ≤ w'.st.unlock ∧
    ∃ l, w'.pays = w.pays ++ l ∧ ∀ p ∈ l, p.user = some owner ∧ w.st.unlock ≤ p.height := by
  have r := timeLock_rel owner before (timeLockInit owner unlock) rfl
  have r2 := timeLock_rel owner after (runEv timeLockExec (timeLockInit owner unlock) before) r.owner
  rw [runEv_append]
  exact ⟨r.later, r2.later, r2.pays⟩

/-- C42: the owner can extend the lock to any later height. -/
theorem C42_extend_works (e : Env) (w : W TimeLock) (h : Nat) (h1 : e.user = some w.st.owner)
    (h2 : w.st.unlock ≤ h) :
    ∃ w', timeLockExec e (.setUnlockHeight (.num h)) w = .ok w' ∧ w'.st.unlock = h ∧ w'.st.owner = w.st.owner ∧
      w'.pays = w.pays ∧ w'.bal = w.bal := by
  refine ⟨_, chk_bind.2 ⟨h1, chk_bind.2 ⟨h2, rfl⟩⟩, rfl, rfl, rfl, rfl⟩

/-- C42: from the unlock height on the owner can take out any amount held. -/
theorem C42_release (e : Env) (w : W TimeLock) (dst amount cur : Nat) (h1 : e.user = some w.st.owner)
    (h2 : w.st.unlock ≤ e.height) (h3 : 0 < amount) (h4 : amount ≤ w.bal cur) (h5 : amount < 2 ^ 128) :
    ∃ w', timeLockExec e (.withdraw dst (.num amount) cur) w = .ok w' ∧
      w'.pays = w.pays ++ [⟨dst, cur, amount, e.user, e.height⟩] ∧ w'.bal cur = w.bal cur - amount := by
  obtain ⟨w', hw⟩ := send_succeeds (e := e) (to := dst) (w := w) h5 h4
  refine ⟨w', chk_bind.2 ⟨h1, chk_bind.2 ⟨Nat.not_lt.2 h2, hw⟩⟩, ?_, ?_⟩
  · rw [(send_sent hw).1.pays]; simp [sends]; omega
  · have := (send_sent hw).1.bal cur
    rw [paid_sends, if_pos rfl] at this; omega

/-- C42: coins received are held or were paid out by such payments; nothing disappears. -/
theorem C42_accounted (owner unlock : Nat) (history : List (Ev TimeLockCall)) :
    let w := runEv timeLockExec (timeLockInit owner unlock) history
    ∀ c, w.got c = w.bal c + paid w.pays c :=
  runEv_inv (I := Kept) (fun _ c a h => h.arrive c a) (fun _ _ _ _ h hx => (timeLock_call hx).2 h)
    history _ (Kept.fresh _)

/-- A history that uses everything: coins arrive, an early and a foreign withdrawal fail, the lock is extended,
    moving it back fails, and the owner withdraws after it. -/
def lockHistory : List (Ev TimeLockCall) :=
  [.recv 7 100, .call ⟨some 1, 49, none⟩ (.withdraw 9 (.num 5) 7), .call ⟨some 1, 50, none⟩ (.setUnlockHeight (.num 80)),
   .call ⟨some 1, 60, none⟩ (.setUnlockHeight (.num 70)), .call ⟨some 1, 60, none⟩ (.setUnlockHeight .other),
   .call ⟨some 1, 79, none⟩ (.withdraw 9 (.num 5) 7), .call ⟨some 2, 80, some (7, 3)⟩ .deposit,
   .call ⟨some 2, 80, none⟩ (.withdraw 9 (.num 5) 7), .call ⟨some 1, 80, none⟩ (.withdraw 9 (.num 5) 7)]

example : (runEv timeLockExec (timeLockInit 1 50) lockHistory).pays = [⟨9, 7, 5, some 1, 80⟩] ∧
    (runEv timeLockExec (timeLockInit 1 50) lockHistory).bal 7 = 98 ∧
    (runEv timeLockExec (timeLockInit 1 50) lockHistory).got 7 = 103 ∧
    (runEv timeLockExec (timeLockInit 1 50) lockHistory).st.unlock = 80 := by decide +kernel

/-! ### C61: escrow, transfer, relay -/

theorem escrow_call {e : Env} {c : EscrowCall} {w w' : W Escrow} (h : escrowExec e c w = .ok w') :
    ∃ l, Sent w w' l ∧ ∀ p ∈ l, p.user = some w.st.agent ∧ (p.to = w.st.target ∨ p.to = w.st.source) := by
  cases c with
  | deposit => cases h; exact ⟨[], Sent.refl w, by simp⟩
  | unlock cur =>
    obtain ⟨h1, h⟩ := chk_bind.1 h
    refine ⟨_, (send_sent h).1, fun p hp => ?_⟩
    have := (mem_sends hp).1; subst this; exact ⟨h1, .inl rfl⟩
  | cancel cur =>
    obtain ⟨h1, h⟩ := chk_bind.1 h
    refine ⟨_, (send_sent h).1, fun p hp => ?_⟩
    have := (mem_sends hp).1; subst this; exact ⟨h1, .inr rfl⟩

/-- C61: coins leave an escrow only by a call of the agent, and only to the target or back to the source;
    all others are still there. -/
theorem C61_escrow (source agent target : Nat) (history : List (Ev EscrowCall)) :
    let w := runEv escrowExec (escrowInit source agent target) history
    (∀ p ∈ w.pays, p.user = some agent ∧ (p.to = target ∨ p.to = source)) ∧
    ∀ c, w.got c = w.bal c + paid w.pays c := by
  have := runEv_inv (exec := escrowExec)
    (I := fun w => w.st = ⟨source, target, agent⟩ ∧
      (∀ p ∈ w.pays, p.user = some agent ∧ (p.to = target ∨ p.to = source)) ∧ Kept w)
    (fun w c a h => ⟨h.1, h.2.1, h.2.2.arrive c a⟩)
    (fun e c w w' h hx => by
      obtain ⟨l, hs, hl⟩ := escrow_call hx
      refine ⟨by rw [hs.st, h.1], fun p hp => ?_, h.2.2.sent hs⟩
      rcases hs.mem hp with hp | hp
      · exact h.2.1 p hp
      · have := hl p hp; rw [h.1] at this; exact this)
    history (escrowInit source agent target) ⟨rfl, by simp [escrowInit, fresh], Kept.fresh _⟩
  exact this.2

/-- C61: the agent can at any time pay everything held to the target, or back to the source. -/
theorem C61_escrow_pays (e : Env) (w : W Escrow) (cur : Option Nat) (h1 : e.user = some w.st.agent)
    (h2 : w.bal (cur.getD 0) < 2 ^ 128) :
    (∃ w', escrowExec e (.unlock cur) w = .ok w' ∧ w'.bal (cur.getD 0) = 0 ∧
      w'.pays = w.pays ++ sends e w.st.target (w.bal (cur.getD 0)) (cur.getD 0)) ∧
    (∃ w', escrowExec e (.cancel cur) w = .ok w' ∧ w'.bal (cur.getD 0) = 0 ∧
      w'.pays = w.pays ++ sends e w.st.source (w.bal (cur.getD 0)) (cur.getD 0)) := by
  have key : ∀ to : Nat, ∃ w', send e to (w.bal (curOr cur)) (curOr cur) w = .ok w' ∧
      w'.bal (cur.getD 0) = 0 ∧ w'.pays = w.pays ++ sends e to (w.bal (cur.getD 0)) (cur.getD 0) := by
    intro to
    obtain ⟨w', hw⟩ := send_succeeds (e := e) (to := to) (w := w) (cur := cur.getD 0) h2 (Nat.le_refl _)
    refine ⟨w', hw, ?_, (send_sent hw).1.pays⟩
    have := (send_sent hw).1.bal (cur.getD 0)
    rw [paid_sends, if_pos rfl] at this; omega
  obtain ⟨a, ha, ha'⟩ := key w.st.target
  obtain ⟨b, hb, hb'⟩ := key w.st.source
  exact ⟨⟨a, chk_bind.2 ⟨h1, ha⟩, ha'⟩, ⟨b, chk_bind.2 ⟨h1, hb⟩, hb'⟩⟩

theorem transfer_call {e : Env} {c : TransferCall} {w w' : W Transfer} (h : transferExec e c w = .ok w') :
    ∃ l, Sent w w' l ∧ ∀ p ∈ l, p.user = some p.to ∧ (p.to = w.st.target ∨ p.to = w.st.source) := by
  cases c with
  | receive cur =>
    obtain ⟨h1, h⟩ := chk_bind.1 h
    refine ⟨_, (send_sent h).1, fun p hp => ?_⟩
    have := (mem_sends hp).1; subst this; exact ⟨h1, .inl rfl⟩
  | cancel cur =>
    obtain ⟨h1, h⟩ := chk_bind.1 h
    refine ⟨_, (send_sent h).1, fun p hp => ?_⟩
    have := (mem_sends hp).1; subst this; exact ⟨h1, .inr rfl⟩

/-- C61: coins leave a transfer contract only to its source or its target, each at their own call. -/
theorem C61_transfer (source target : Nat) (history : List (Ev TransferCall)) :
    let w := runEv transferExec (transferInit source target) history
    (∀ p ∈ w.pays, p.user = some p.to ∧ (p.to = target ∨ p.to = source)) ∧
    ∀ c, w.got c = w.bal c + paid w.pays c := by
  have := runEv_inv (exec := transferExec)
    (I := fun w => w.st = ⟨source, target⟩ ∧
      (∀ p ∈ w.pays, p.user = some p.to ∧ (p.to = target ∨ p.to = source)) ∧ Kept w)
    (fun w c a h => ⟨h.1, h.2.1, h.2.2.arrive c a⟩)
    (fun e c w w' h hx => by
      obtain ⟨l, hs, hl⟩ := transfer_call hx
      refine ⟨by rw [hs.st, h.1], fun p hp => ?_, h.2.2.sent hs⟩
      rcases hs.mem hp with hp | hp
      · exact h.2.1 p hp
      · have := hl p hp; rw [h.1] at this; exact this)
    history (transferInit source target) ⟨rfl, by simp [transferInit, fresh], Kept.fresh _⟩
  exact this.2

/-- C61: either of the two can take everything held at any time. -/
theorem C61_transfer_pays (e : Env) (w : W Transfer) (cur : Nat) (h2 : w.bal cur < 2 ^ 128) :
    (e.user = some w.st.target → ∃ w', transferExec e (.receive cur) w = .ok w' ∧ w'.bal cur = 0 ∧
      w'.pays = w.pays ++ sends e w.st.target (w.bal cur) cur) ∧
    (e.user = some w.st.source → ∃ w', transferExec e (.cancel cur) w = .ok w' ∧ w'.bal cur = 0 ∧
      w'.pays = w.pays ++ sends e w.st.source (w.bal cur) cur) := by
  have key : ∀ to : Nat, ∃ w', send e to (w.bal cur) cur w = .ok w' ∧
      w'.bal cur = 0 ∧ w'.pays = w.pays ++ sends e to (w.bal cur) cur := by
    intro to
    obtain ⟨w', hw⟩ := send_succeeds (e := e) (to := to) (w := w) (cur := cur) h2 (Nat.le_refl _)
    refine ⟨w', hw, ?_, (send_sent hw).1.pays⟩
    have := (send_sent hw).1.bal cur
    rw [paid_sends, if_pos rfl] at this; omega
  refine ⟨fun h1 => ?_, fun h1 => ?_⟩
  · obtain ⟨a, ha, ha'⟩ := key w.st.target; exact ⟨a, chk_bind.2 ⟨h1, ha⟩, ha'⟩
  · obtain ⟨a, ha, ha'⟩ := key w.st.source; exact ⟨a, chk_bind.2 ⟨h1, ha⟩, ha'⟩

/-- One call of a relay: payments go to the calling owner; the owner changes only when the pending new owner
    calls; a pending owner is only named by the owner. -/
theorem relay_call {e : Env} {c : RelayCall} {w w' : W Relay} (h : relayExec e c w = .ok w') :
    (∃ l, w'.pays = w.pays ++ l ∧ ∀ p ∈ l, p.to = w.st.owner ∧ p.user = some w.st.owner) ∧
    (w'.st.owner = w.st.owner ∨ w.st.pending = some w'.st.owner ∧ e.user = some w'.st.owner ∧
      w'.st.pending = none) ∧
    (w'.st.pending = w.st.pending ∨ w'.st.pending = none ∨ ∃ n : Nat, c = .transfer n ∧ w'.st.pending = some n ∧
      e.user = some w.st.owner) ∧ (Kept w → Kept w') := by
  cases c with
  | claimAll cur =>
    obtain ⟨h1, h⟩ := chk_bind.1 h
    have hs := (send_sent h).1
    refine ⟨⟨_, hs.pays, fun p hp => ?_⟩, .inl (by rw [hs.st]), .inl (by rw [hs.st]), fun k => k.sent hs⟩
    have := (mem_sends hp).1; subst this; exact ⟨rfl, h1⟩
  | transfer n =>
    obtain ⟨h1, h⟩ := chk_bind.1 h
    cases h
    exact ⟨⟨[], by simp, by simp⟩, .inl rfl, .inr (.inr ⟨n, rfl, rfl, h1⟩), fun k => k.congr rfl rfl rfl⟩
  | complete =>
    unfold relayExec at h
    dsimp only at h
    split at h
    · cases h
    · rename_i t ht
      obtain ⟨h1, h⟩ := chk_bind.1 h
      cases h
      exact ⟨⟨[], by simp, by simp⟩, .inr ⟨ht, h1, rfl⟩, .inr (.inl rfl), fun k => k.congr rfl rfl rfl⟩

/-- C61: as long as its owner never names somebody else, a relay pays only its owner, at their own call. -/
theorem C61_relay (owner : Nat) (history : List (Ev RelayCall))
    (h : ∀ e n, Ev.call e (.transfer n) ∈ history → e.user ≠ some owner) :
    let w := runEv relayExec (relayInit owner) history
    w.st.owner = owner ∧ (∀ p ∈ w.pays, p.to = owner ∧ p.user = some owner) ∧
    ∀ c, w.got c = w.bal c + paid w.pays c := by
  have := runEv_inv_of (exec := relayExec) (P := fun e c => ∀ n : Nat, c = .transfer n → e.user ≠ some owner)
    (I := fun w => w.st = ⟨owner, none⟩ ∧ (∀ p ∈ w.pays, p.to = owner ∧ p.user = some owner) ∧ Kept w)
    (fun w c a h => ⟨h.1, h.2.1, h.2.2.arrive c a⟩)
    (fun e c w w' hP h hx => by
      obtain ⟨⟨l, hp, hl⟩, ho, hn, hk⟩ := relay_call hx
      rw [arriveDep_st, h.1] at ho hn hl
      rw [arriveDep_pays] at hp
      have hpend : w'.st.pending = none := by
        rcases hn with hn | hn | ⟨n, hc, -, hu⟩
        · exact hn
        · exact hn
        · exact absurd hu (hP n hc)
      have hown : w'.st.owner = owner := by
        rcases ho with ho | ⟨ho, -⟩
        · exact ho
        · cases ho
      refine ⟨by cases hw : w'.st; rw [hw] at hpend hown; cases hpend; cases hown; rfl, fun p hm => ?_, hk (h.2.2.arriveDep e)⟩
      rw [hp] at hm
      rcases List.mem_append.1 hm with hm | hm
      · exact h.2.1 p hm
      · exact hl p hm)
    history (relayInit owner) (fun e c hm n hc => h e n (hc ▸ hm)) ⟨rfl, by simp [relayInit, fresh], Kept.fresh _⟩
  exact ⟨by rw [this.1], this.2.1, this.2.2⟩

/-- C61: handing a relay over takes two calls: the owner names the new owner, who then confirms. -/
theorem C61_relay_handover (e : Env) (c : RelayCall) (w w' : W Relay) (h : relayExec e c w = .ok w')
    (hne : w'.st.owner ≠ w.st.owner) :
    w.st.pending = some w'.st.owner ∧ e.user = some w'.st.owner ∧ w'.st.pending = none := by
  rcases (relay_call h).2.1 with h1 | h1
  · exact absurd h1 hne
  · exact h1

theorem C61_relay_named (e : Env) (c : RelayCall) (w w' : W Relay) (n : Nat) (h : relayExec e c w = .ok w')
    (h1 : w.st.pending ≠ some n) (h2 : w'.st.pending = some n) :
    c = .transfer n ∧ e.user = some w.st.owner := by
  rcases (relay_call h).2.2.1 with h3 | h3 | ⟨m, h3, h4, h5⟩
  · exact absurd (h3 ▸ h2) h1
  · rw [h3] at h2; cases h2
  · rw [h4] at h2; cases h2; exact ⟨h3, h5⟩

example : (runEv escrowExec (escrowInit 1 2 3) [.recv 0 10, .recv 7 5, .call ⟨some 3, 1, none⟩ (.unlock none),
    .call ⟨some 2, 2, some (7, 1)⟩ (.unlock none), .call ⟨some 2, 2, none⟩ (.cancel (some 7))]).pays =
    [⟨3, 0, 10, some 2, 2⟩, ⟨1, 7, 6, some 2, 2⟩] := by decide +kernel

example : (runEv transferExec (transferInit 1 2) [.recv 7 5, .call ⟨some 3, 1, none⟩ (.receive 7),
    .call ⟨some 2, 2, none⟩ (.cancel 7), .call ⟨some 2, 2, none⟩ (.receive 7), .recv 7 4,
    .call ⟨some 1, 3, none⟩ (.cancel 7)]).pays = [⟨2, 7, 5, some 2, 2⟩, ⟨1, 7, 4, some 1, 3⟩] := by decide +kernel

example : (runEv relayExec (relayInit 1) [.recv 7 5, .call ⟨some 2, 1, none⟩ (.transfer 2),
    .call ⟨some 2, 1, none⟩ .complete, .call ⟨some 1, 2, none⟩ (.claimAll (some 7))]).pays =
    [⟨1, 7, 5, some 1, 2⟩] := by decide +kernel

example : (runEv relayExec (relayInit 1) [.call ⟨some 1, 1, none⟩ (.transfer 2), .call ⟨some 3, 1, none⟩ .complete,
    .call ⟨some 2, 1, none⟩ .complete]).st = ⟨2, none⟩ := by decide +kernel

/-! ### C62: virtual plot -/

theorem vplotReturn_native {amount r : Nat} (h : vplotReturn amount zeroAddr = .ok r) :
    r = amount * 90 / 100 := by
  unfold vplotReturn at h
  rw [if_pos rfl] at h
  obtain ⟨n, h1, h⟩ := bind_eq_ok.1 h
  have := (cmul_ok h1).1; subst this
  exact (cdiv_ok h).1

theorem virtualPlot_call {e : Env} {c : VirtualPlotCall} {w w' : W Nat} (h : virtualPlotExec e c w = .ok w') :
    ∃ l, Sent w w' l ∧ (∀ p ∈ l, p.user = some w.st ∧ (p.to = w.st ∨ p.to = 0)) ∧
      (w.st ≠ 0 → 100 * paidTo l w.st 0 ≤ 90 * paid l 0) := by
  cases c with
  | deposit => cases h; exact ⟨[], Sent.refl w, by simp, fun _ => Nat.le_refl _⟩
  | withdraw amount cur =>
    obtain ⟨h1, h⟩ := chk_bind.1 h
    obtain ⟨ret, h2, h⟩ := bind_eq_ok.1 h
    obtain ⟨w1, h3, h⟩ := bind_eq_ok.1 h
    obtain ⟨burn, h4, h⟩ := bind_eq_ok.1 h
    have s1 := (send_sent h3).1
    have s2 := (send_sent h).1
    refine ⟨_, s1.trans s2, fun p hp => ?_, fun hne => ?_⟩
    · rcases List.mem_append.1 hp with hp | hp
      · have := (mem_sends hp).1; subst this; exact ⟨h1, .inl rfl⟩
      · have := (mem_sends hp).1; subst this; exact ⟨h1, .inr rfl⟩
    · rw [paidTo_append, paid_append, paidTo_sends, paidTo_sends, paid_sends, paid_sends]
      by_cases hc : cur = 0
      · subst hc
        have hr := vplotReturn_native h2
        obtain ⟨hb, hb'⟩ := csub_ok h4
        rw [if_pos ⟨rfl, rfl⟩, if_neg (fun (h : zeroAddr = w.st ∧ _) => hne h.1.symm), if_pos rfl, if_pos rfl]
        omega
      · simp [hc]

/-- C62: over any history of withdrawals, however split up, the owner of a virtual plot gets back at most 90 % of
    the native coins that left it; the rest goes to the zero address. Only the owner can withdraw. -/
theorem C62_withdraw_factor (owner : Nat) (howner : owner ≠ 0) (history : List (Ev VirtualPlotCall)) :
    let w := runEv virtualPlotExec (virtualPlotInit owner) history
    100 * paidTo w.pays owner 0 ≤ 90 * paid w.pays 0 ∧
    (∀ p ∈ w.pays, p.user = some owner ∧ (p.to = owner ∨ p.to = 0)) ∧
    ∀ c, w.got c = w.bal c + paid w.pays c := by
  have := runEv_inv (exec := virtualPlotExec)
    (I := fun w => w.st = owner ∧ 100 * paidTo w.pays owner 0 ≤ 90 * paid w.pays 0 ∧
      (∀ p ∈ w.pays, p.user = some owner ∧ (p.to = owner ∨ p.to = 0)) ∧ Kept w)
    (fun w c a h => ⟨h.1, h.2.1, h.2.2.1, h.2.2.2.arrive c a⟩)
    (fun e c w w' h hx => by
      obtain ⟨l, hs, hl, hf⟩ := virtualPlot_call hx
      rw [h.1] at hl hf
      refine ⟨by rw [hs.st, h.1], ?_, fun p hp => ?_, h.2.2.2.sent hs⟩
      · rw [hs.pays, paidTo_append, paid_append]
        have := h.2.1; have := hf howner; omega
      · rcases hs.mem hp with hp | hp
        · exact h.2.2.1 p hp
        · exact hl p hp)
    history (virtualPlotInit owner) ⟨rfl, Nat.le_refl _, by simp [virtualPlotInit, fresh], Kept.fresh _⟩
  exact this.2

/-- C62: a withdrawal of native coins within the balance succeeds, takes exactly that amount out and gives the
    owner exactly nine tenths, rounded down. -/
theorem C62_withdraw_works (e : Env) (w : W Nat) (amount : Nat) (h1 : e.user = some w.st) (h2 : amount ≤ w.bal 0)
    (h3 : amount < 2 ^ 128) (hne : w.st ≠ 0) :
    ∃ w' l, virtualPlotExec e (.withdraw amount 0) w = .ok w' ∧ w'.pays = w.pays ++ l ∧
      w'.bal 0 = w.bal 0 - amount ∧ paidTo l w.st 0 = amount * 90 / 100 := by
  have hr : vplotReturn amount 0 = .ok (amount * 90 / 100) := by
    unfold vplotReturn cmul cdiv
    rw [if_pos (show 0 = zeroAddr from rfl), if_pos (by omega)]
    rfl
  obtain ⟨w1, hw1⟩ := send_succeeds (e := e) (to := w.st) (w := w) (cur := 0) (amount := amount * 90 / 100)
    (by omega) (by omega)
  have s1 := (send_sent hw1).1
  have b1 := s1.bal 0
  rw [paid_sends, if_pos rfl] at b1
  obtain ⟨w2, hw2⟩ := send_succeeds (e := e) (to := zeroAddr) (w := w1) (cur := 0) (amount := amount - amount * 90 / 100)
    (by omega) (by omega)
  have s2 := (send_sent hw2).1
  have b2 := s2.bal 0
  rw [paid_sends, if_pos rfl] at b2
  refine ⟨w2, sends e w.st (amount * 90 / 100) 0 ++ sends e zeroAddr (amount - amount * 90 / 100) 0, ?_, ?_, ?_, ?_⟩
  · refine chk_bind.2 ⟨h1, bind_eq_ok.2 ⟨_, hr, bind_eq_ok.2 ⟨_, hw1, bind_eq_ok.2 ⟨_, ?_, hw2⟩⟩⟩⟩
    unfold csub; rw [if_pos (by omega)]
  · rw [s2.pays, s1.pays, List.append_assoc]
  · omega
  · rw [paidTo_append, paidTo_sends, paidTo_sends, if_pos ⟨rfl, rfl⟩,
      if_neg (fun (h : zeroAddr = w.st ∧ _) => hne h.1.symm)]; rfl

example : (runEv virtualPlotExec (virtualPlotInit 1) [.recv 0 1000, .recv 7 5, .call ⟨some 2, 1, none⟩ (.withdraw 9 0),
    .call ⟨some 1, 1, none⟩ (.withdraw 19 0), .call ⟨some 1, 1, none⟩ (.withdraw 5 7)]).pays =
    [⟨1, 0, 17, some 1, 1⟩, ⟨0, 0, 2, some 1, 1⟩, ⟨1, 7, 5, some 1, 1⟩] := by decide +kernel

end Verif.Contract
