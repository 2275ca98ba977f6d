import Verif.Wallet.Refresh
import Verif.Wallet.PropsPending
/-
  C168: what a wallet can spend, against the chain.
-/
namespace Verif.Wallet
open Verif

def toPend (mine : Addr → Bool) (tx : Tx) : Pend := ⟨tx.id, tx.expires, takes mine (feeOf tx) tx⟩

/-- The pending transactions are those of the sent ones that are marked; one that is not marked is in the chain or
has expired, one that is marked is not in the part of the chain that the wallet does not look at any more. -/
structure Follows (mine : Addr → Bool) (u : World) (a : Acct) (P : Tx → Bool) : Prop where
  keeps : Keeps mine u.w a (fun _ => 0)
  live : a.live = (u.sent.filter P).map (toPend mine)
  ids : (u.sent.map (·.id)).Nodup
  gone : ∀ t ∈ u.sent, P t = false → t.id ∈ u.chain.flatten ∨ t.expires < u.w.height
  kept : ∀ t ∈ u.sent, P t = true → t.id ∉ (u.chain.take u.w.height).flatten
  hgt : u.w.height ≤ u.chain.length - 1
  read : ∀ h b, u.reading = some (h, b) → u.w.height ≤ h ∧ h ≤ u.chain.length - 1
  bal : ∀ h b, u.reading = some (h, some b) → AMap.Ok b ∧ ∀ e ∈ b, e.2 < 2 ^ 128
  some : u.chain ≠ []

theorem takes_none (mine : Addr → Bool) (tx : Tx) (h : tx.sender = none) (f g : Nat) : takes mine f tx = takes mine g tx := by
  funext k
  unfold takes
  rw [h]
  simp

theorem fee_some {tx : Tx} {a : Addr} {fee : Nat} (h : tx.sender = some a)
    (hf : Chain.costToFee tx.staticCost tx.feeRatio = .ok fee) : feeOf tx = fee := by
  unfold feeOf
  rw [h, hf]

theorem send_ok {mine : Addr → Bool} {tx : Tx} (h : NEv.Ok mine (.send tx)) : Ev.Ok mine (.submit tx) := by
  intro fee hf k
  cases hs : tx.sender with
  | none => rw [takes_none mine tx hs fee (feeOf tx)]; exact h k
  | some a =>
    rw [hs] at hf
    rcases hf with hf | hf
    · exact nomatch hf
    · rw [← fee_some hs hf]; exact h k

theorem height_fold (id : Nat) (l : List TxIn) : ∀ w : W,
    (l.foldl (fun (u : W) i => if u.owns i.address then u.spend id (i.address, i.contract) i.amount else u) w).height =
      w.height := by
  induction l with
  | nil => exact fun _ => rfl
  | cons i l ih =>
    intro w
    rw [List.foldl_cons, ih]
    by_cases h : w.owns i.address = true
    · rw [if_pos h]; rfl
    · rw [if_neg h]

theorem height_submit {w w' : W} {tx : Tx} (h : w.updateFrom tx = .ok w') : w'.height = w.height := by
  unfold W.updateFrom at h
  by_cases hp : (w.pendingTx.find tx.id).isSome = true
  · rw [if_pos hp] at h
    cases h
    rfl
  · rw [if_neg hp] at h
    cases hs : tx.sender with
    | none =>
      rw [hs] at h
      cases h
      exact height_fold _ _ _
    | some x =>
      rw [hs] at h
      cases hf : Chain.costToFee tx.staticCost tx.feeRatio with
      | ok fee =>
        rw [hf] at h
        cases h
        exact height_fold _ _ _
      | throw => rw [hf] at h; exact nomatch h
      | ub => rw [hf] at h; exact nomatch h

/-- A new transaction is put at the end of the account. -/
theorem acct_send {mine : Addr → Bool} {a : Acct} {tx : Tx} {w w' : W} (hw : w.updateFrom tx = .ok w')
    (hp : (w.pendingTx.find tx.id) = none) (hl : a.live.any (fun p => decide (p.id = tx.id)) = false) :
    (a.step mine (.submit tx)).live = a.live ++ [toPend mine tx] := by
  unfold Acct.step
  dsimp only
  rw [if_neg (by rw [hl]; exact Bool.false_ne_true)]
  unfold W.updateFrom at hw
  rw [if_neg (by rw [hp]; exact Bool.false_ne_true)] at hw
  cases hs : tx.sender with
  | none =>
    simp only
    rw [takes_none mine tx hs 0 (feeOf tx)]
    rfl
  | some x =>
    rw [hs] at hw
    cases hf : Chain.costToFee tx.staticCost tx.feeRatio with
    | ok fee => simp only; rw [toPend, fee_some hs hf]
    | throw => rw [hf] at hw; exact nomatch hw
    | ub => rw [hf] at hw; exact nomatch hw

theorem follows_send {mine : Addr → Bool} {u : World} {a : Acct} {P : Tx → Bool} (f : Follows mine u a P) {tx : Tx}
    (hok : NEv.Ok mine (.send tx)) : ∃ a' P', Follows mine (u.send tx) a' P' := by
  unfold World.send
  by_cases hc : u.reading = none ∧ tx.id ∉ u.chain.flatten ∧ tx.id ∉ u.sent.map (·.id)
  · rw [if_pos hc]
    cases hw : u.w.updateFrom tx with
    | throw => exact ⟨a, P, f⟩
    | ub => exact ⟨a, P, f⟩
    | ok w' =>
      have hl : a.live.any (fun p => decide (p.id = tx.id)) = false := by
        rw [List.any_eq_false]
        intro p hp
        rw [f.live] at hp
        obtain ⟨t, ht, rfl⟩ := List.mem_map.1 hp
        rw [decide_eq_true_eq]
        intro e
        exact hc.2.2 (List.mem_map.2 ⟨t, (List.mem_filter.1 ht).1, e⟩)
      have hp : u.w.pendingTx.find tx.id = none := by
        cases h : u.w.pendingTx.find tx.id with
        | none => rfl
        | some x =>
          obtain ⟨p, hp, e, _⟩ := (f.keeps.ptx tx.id x).1 h
          rw [List.any_eq_false] at hl
          exact absurd (by rw [decide_eq_true_eq]; exact e) (hl p hp)
      have hk := keeps_submit f.keeps (send_ok hok)
      have hw' : u.w.step (.submit tx) = w' := by simp only [W.step, hw]
      have hh : w'.height = u.w.height := height_submit hw
      rw [hw'] at hk
      refine ⟨a.step mine (.submit tx), fun t => decide (t.id = tx.id) || P t, ?_⟩
      have hne : ∀ t ∈ u.sent, t.id ≠ tx.id := fun t ht e => hc.2.2 (List.mem_map.2 ⟨t, ht, e⟩)
      refine ⟨hk, ?_, ?_, ?_, ?_, ?_, ?_, f.bal, f.some⟩
      · rw [acct_send hw hp hl, f.live, List.filter_append, List.map_append]
        congr 1
        · congr 1
          apply List.filter_congr
          intro t ht
          simp [hne t ht]
        · simp
      · simp only [List.map_append, List.map_cons, List.map_nil]
        rw [List.nodup_append]
        refine ⟨f.ids, List.nodup_cons.2 ⟨List.not_mem_nil, List.nodup_nil⟩, ?_⟩
        intro x hx y hy e
        rw [List.mem_singleton.1 hy] at e
        exact hc.2.2 (e ▸ hx)
      · intro t ht hp
        simp only [Bool.or_eq_false_iff, decide_eq_false_iff_not] at hp
        rcases List.mem_append.1 ht with x | x
        · rw [show ({ u with w := w', sent := u.sent ++ [tx] } : World).w.height = u.w.height from hh]
          exact f.gone t x hp.2
        · rw [List.mem_singleton.1 x] at hp; exact absurd rfl hp.1
      · intro t ht hp
        rw [show ({ u with w := w', sent := u.sent ++ [tx] } : World).w.height = u.w.height from hh]
        rcases List.mem_append.1 ht with x | x
        · refine f.kept t x ?_
          simpa [hne t x] using hp
        · rw [List.mem_singleton.1 x]
          intro hm
          obtain ⟨b, hb, hi⟩ := List.mem_flatten.1 hm
          exact hc.2.1 (List.mem_flatten.2 ⟨b, List.mem_of_mem_take hb, hi⟩)
      · exact (show w'.height ≤ _ by rw [hh]; exact f.hgt)
      · intro h b hr
        exact (show w'.height ≤ h ∧ _ by rw [hh]; exact f.read h b hr)
  · rw [if_neg hc]; exact ⟨a, P, f⟩

theorem history_iff {mine : Addr → Bool} {u : World} {a : Acct} {P : Tx → Bool} (f : Follows mine u a P) (delay : Nat)
    (t : Tx) (ht : t ∈ u.sent) (hp : P t = true) : t.id ∈ u.history delay ↔ t.id ∈ u.chain.flatten := by
  have hne : u.w.pendingTx.isEmpty = false := by
    cases h : u.w.pendingTx with
    | nil =>
      have := (f.keeps.ptx t.id t.expires).2 ⟨toPend mine t, by
        rw [f.live]; exact List.mem_map.2 ⟨t, List.mem_filter.2 ⟨ht, hp⟩, rfl⟩, rfl, rfl⟩
      rw [h] at this
      exact nomatch this
    | cons _ _ => rfl
  unfold World.history idsSince
  rw [hne]
  simp only [Bool.false_eq_true, if_false]
  constructor
  · intro h
    obtain ⟨b, hb, hi⟩ := List.mem_flatten.1 h
    exact List.mem_flatten.2 ⟨b, List.mem_of_mem_drop hb, hi⟩
  · intro h
    rw [← List.take_append_drop (u.w.height - min delay u.w.height) u.chain, List.flatten_append, List.mem_append] at h
    rcases h with h | h
    · obtain ⟨b, hb, hi⟩ := List.mem_flatten.1 h
      refine absurd (List.mem_flatten.2 ⟨b, ?_, hi⟩) (f.kept t ht hp)
      exact (List.take_sublist_take_left (Nat.sub_le _ _)).subset hb
    · exact h

/-- After a refresh the pending transactions are those that a block can still confirm. -/
theorem live_refresh {mine : Addr → Bool} {u : World} {a : Acct} {P : Tx → Bool} (f : Follows mine u a P) (delay : Nat)
    {h : Nat} {b : AMap Key Nat} (hh : u.w.height ≤ h) :
    (a.step mine (.refresh b (u.history delay) h)).live =
      (u.sent.filter fun t => decide (t.id ∉ u.chain.flatten ∧ h ≤ t.expires)).map (toPend mine) := by
  unfold Acct.step
  dsimp only
  rw [f.live, List.filter_map, List.filter_filter]
  congr 1
  apply List.filter_congr
  intro t ht
  by_cases hp : P t = true
  · rw [hp]
    simp only [Function.comp, toPend, Bool.and_true]
    have := history_iff f delay t ht hp
    by_cases hc : t.id ∈ u.chain.flatten
    · simp [hc, this.2 hc]
    · have hn : t.id ∉ u.history delay := fun x => hc (this.1 x)
      simp only [hc, hn, not_false_eq_true, true_and, List.contains_eq_mem, decide_false, Bool.not_false, Bool.and_true]
      by_cases hx : t.expires < h
      · simp [hx]
      · simp [hx, Nat.le_of_not_lt hx]
  · have hp : P t = false := by simpa using hp
    rw [hp, Bool.and_false]
    rcases f.gone t ht hp with x | x
    · simp [x]
    · have : ¬ h ≤ t.expires := by omega
      simp [this]

theorem follows_finish {mine : Addr → Bool} {u : World} {a : Acct} {P : Tx → Bool} (f : Follows mine u a P) (delay : Nat)
    {h : Nat} {b : AMap Key Nat} (hr : u.reading = some (h, some b)) :
    Follows mine { u with w := u.w.updateCache b (u.history delay) h, reading := none }
      (a.step mine (.refresh b (u.history delay) h)) (fun t => decide (t.id ∉ u.chain.flatten ∧ h ≤ t.expires)) := by
  obtain ⟨h1, h2⟩ := f.read h _ hr
  refine ⟨keeps_refresh f.keeps (f.bal h b hr), live_refresh f delay h1, f.ids, ?_, ?_, h2, (fun _ _ e => nomatch e),
    (fun _ _ e => nomatch e), f.some⟩
  · intro t _ hp
    rw [decide_eq_false_iff_not] at hp
    by_cases hc : t.id ∈ u.chain.flatten
    · exact .inl hc
    · refine .inr ?_
      show t.expires < h
      have : ¬ h ≤ t.expires := fun x => hp ⟨hc, x⟩
      omega
  · intro t _ hp hm
    rw [decide_eq_true_eq] at hp
    obtain ⟨x, hx, hi⟩ := List.mem_flatten.1 hm
    exact hp.1 (List.mem_flatten.2 ⟨x, List.mem_of_mem_take hx, hi⟩)

theorem follows_step {mine : Addr → Bool} {bal : Blocks → AMap Key Nat}
    (hb : ∀ c, AMap.Ok (bal c) ∧ ∀ e ∈ bal c, e.2 < 2 ^ 128) (delay : Nat) {u : World} {a : Acct} {P : Tx → Bool}
    (f : Follows mine u a P) (ev : NEv) (hok : ev.Ok mine) : ∃ a' P', Follows mine (u.step bal delay ev) a' P' := by
  cases ev with
  | revert n => exact absurd hok id
  | send tx => exact follows_send f hok
  | block ids =>
    have hlen : (u.chain ++ [ids]).length = u.chain.length + 1 := by simp
    refine ⟨a, P, f.keeps, f.live, f.ids, ?_, ?_, ?_, ?_, f.bal, by simp [World.step]⟩
    · intro t ht hp
      rcases f.gone t ht hp with x | x
      · exact .inl (by simp only [World.step, List.flatten_append, List.mem_append]; exact .inl x)
      · exact .inr x
    · intro t ht hp
      have := f.kept t ht hp
      simp only [World.step]
      rw [List.take_append_of_le_length (by have := f.hgt; omega)]
      exact this
    · have := f.hgt
      show u.w.height ≤ (u.chain ++ [ids]).length - 1
      omega
    · intro h b hr
      have := f.read h b hr
      show _ ∧ h ≤ (u.chain ++ [ids]).length - 1
      exact ⟨this.1, by omega⟩
  | readHeight =>
    simp only [World.step]
    by_cases hr : u.reading = none
    · rw [if_pos hr]
      refine ⟨a, P, f.keeps, f.live, f.ids, f.gone, f.kept, f.hgt, ?_, ?_, f.some⟩
      · intro h b e
        have : u.chain.length - 1 = h := by injection e with e; injection e
        exact ⟨this ▸ f.hgt, Nat.le_of_eq this.symm⟩
      · intro h b e
        injection e with e
        injection e with _ e
        exact nomatch e
    · rw [if_neg hr]; exact ⟨a, P, f⟩
  | readBalances =>
    simp only [World.step]
    cases hr : u.reading with
    | none => exact ⟨a, P, f⟩
    | some r =>
      obtain ⟨h, o⟩ := r
      cases o with
      | some _ => exact ⟨a, P, f⟩
      | none =>
        refine ⟨a, P, f.keeps, f.live, f.ids, f.gone, f.kept, f.hgt, ?_, ?_, f.some⟩
        · intro h' b e
          have : h = h' := by injection e with e; injection e
          exact this ▸ f.read h _ hr
        · intro h' b e
          have : bal u.chain = b := by injection e with e; injection e with _ e; injection e
          exact this ▸ hb u.chain
  | finish =>
    simp only [World.step]
    cases hr : u.reading with
    | none => exact ⟨a, P, f⟩
    | some r =>
      obtain ⟨h, o⟩ := r
      cases o with
      | none => exact ⟨a, P, f⟩
      | some b => exact ⟨_, _, follows_finish f delay hr⟩

theorem follows_run {mine : Addr → Bool} {bal : Blocks → AMap Key Nat}
    (hb : ∀ c, AMap.Ok (bal c) ∧ ∀ e ∈ bal c, e.2 < 2 ^ 128) (delay : Nat) (evs : List NEv) : ∀ {u : World} {a : Acct}
    {P : Tx → Bool}, Follows mine u a P → (∀ e ∈ evs, e.Ok mine) → ∃ a' P', Follows mine (u.run bal delay evs) a' P' := by
  induction evs with
  | nil => exact fun f _ => ⟨_, _, f⟩
  | cons ev evs ih =>
    intro u a P f hok
    obtain ⟨a', P', f'⟩ := follows_step hb delay f ev (hok ev List.mem_cons_self)
    exact ih f' fun e he => hok e (List.mem_cons_of_mem _ he)

/-- A wallet that was just opened, at a node with a chain. -/
structure World.Start (u : World) : Prop where
  empty : u.w.balance = [] ∧ u.w.reserved = [] ∧ u.w.pendingTx = [] ∧ u.w.pendingMap = []
  height : u.w.height = 0
  reading : u.reading = none
  sent : u.sent = []
  chain : u.chain ≠ []

theorem follows_start {u : World} (s : u.Start) : Follows u.w.owns u ⟨fun _ => 0, []⟩ (fun _ => true) := by
  obtain ⟨h1, h2, h3, h4⟩ := s.empty
  refine ⟨⟨fun k => by rw [h1]; rfl, ⟨by rw [h1]; exact AMap.ok_nil, by rw [h1]; simp⟩,
      ⟨by rw [h2]; exact AMap.ok_nil, fun k => by rw [h2]; rfl⟩, fun _ => rfl, by simp, by rw [h4]; exact AMap.ok_nil,
      by rw [h3]; exact AMap.ok_nil, ?_, by rw [h4]; simp, by simp⟩, by rw [s.sent]; rfl, by rw [s.sent]; exact List.nodup_nil,
    by rw [s.sent]; exact (fun _ h => nomatch h), by rw [s.sent]; exact (fun _ h => nomatch h), by rw [s.height]; exact Nat.zero_le _,
    by rw [s.reading]; exact (fun _ _ h => nomatch h), by rw [s.reading]; exact (fun _ _ h => nomatch h), s.chain⟩
  intro i x
  rw [h3]; simp [AMap.find]

theorem sum_toPend (mine : Addr → Bool) (l : List Tx) (k : Key) :
    ((l.map (toPend mine)).map fun p => p.own k).sum = (l.map fun t => takes mine (feeOf t) t k).sum := by
  rw [List.map_map]; rfl

/-- C168.  While the chain only grows, a refresh leaves the wallet with what the node reported, less what those of its
transactions take that are not in the chain by the end of the refresh and had not expired at its beginning. -/
theorem C168_refresh {u : World} (s : u.Start) {bal : Blocks → AMap Key Nat}
    (hb : ∀ c, AMap.Ok (bal c) ∧ ∀ e ∈ bal c, e.2 < 2 ^ 128) (delay : Nat) (evs : List NEv) (hok : ∀ e ∈ evs, e.Ok u.w.owns)
    (h : Nat) (b : AMap Key Nat) (hr : (u.run bal delay evs).reading = some (h, some b)) (k : Key) :
    ((u.run bal delay evs).step bal delay .finish).w.bal k =
      (b.find k).getD 0 - openTakes u.w.owns (u.run bal delay evs).sent (u.run bal delay evs).chain h k := by
  obtain ⟨a, P, f⟩ := follows_run hb delay evs (follows_start s) hok
  have g := follows_finish f delay hr
  have := g.keeps.bal k
  rw [Nat.zero_add] at this
  simp only [World.step, hr]
  unfold W.bal
  show at0 _ k = _
  rw [this]
  congr 1
  unfold Acct.pending
  rw [g.live, sum_toPend]
  rfl

theorem read_both (bal : Blocks → AMap Key Nat) (delay : Nat) (u : World) (hr : u.reading = none) :
    u.run bal delay [.readHeight, .readBalances] = { u with reading := some (u.chain.length - 1, some (bal u.chain)) } := by
  show (u.step bal delay .readHeight).step bal delay .readBalances = _
  rw [show u.step bal delay .readHeight = { u with reading := some (u.chain.length - 1, none) } from if_pos hr]
  rfl

/-- C168, partial.  If no block comes during the refresh, the wallet can spend what the chain gives it less
what its own transactions that can still be confirmed take.  Missing: blocks during the refresh, and blocks that
are taken back; for both it is false. -/
theorem C168_spendable_partial {u : World} (s : u.Start) {bal : Blocks → AMap Key Nat}
    (hb : ∀ c, AMap.Ok (bal c) ∧ ∀ e ∈ bal c, e.2 < 2 ^ 128) (delay : Nat) (evs : List NEv) (hok : ∀ e ∈ evs, e.Ok u.w.owns)
    (hr : (u.run bal delay evs).reading = none) (k : Key) :
    ((u.run bal delay evs).run bal delay [.readHeight, .readBalances, .finish]).w.bal k =
      ((bal (u.run bal delay evs).chain).find k).getD 0 -
        openTakes u.w.owns (u.run bal delay evs).sent (u.run bal delay evs).chain
          ((u.run bal delay evs).chain.length - 1) k := by
  have e := read_both bal delay (u.run bal delay evs) hr
  have e2 : u.run bal delay (evs ++ [.readHeight, .readBalances]) =
      (u.run bal delay evs).run bal delay [.readHeight, .readBalances] := by
    unfold World.run
    rw [List.foldl_append]
  rw [e] at e2
  have := C168_refresh s hb delay (evs ++ [.readHeight, .readBalances])
    (fun x hx => (List.mem_append.1 hx).elim (hok x) (fun y => by
      rcases List.mem_cons.1 y with rfl | y
      · trivial
      · rw [List.mem_singleton.1 y]; trivial)) _ _ (by rw [e2]) k
  rw [e2] at this
  rw [show (u.run bal delay evs).run bal delay [.readHeight, .readBalances, .finish] =
    ((u.run bal delay evs).run bal delay [.readHeight, .readBalances]).step bal delay .finish from rfl, e]
  exact this

/-! ### A block during the refresh, and blocks that are taken back -/

/-- 60 of token 9, until transaction 4 takes them. -/
def tokens60 (c : Blocks) : AMap Key Nat := if 4 ∈ c.flatten then [] else [((1105, 9), 60)]

def exPay : Tx := { id := 4, expires := 20, inputs := [{ address := 1105, contract := 9, amount := 60 }] }

def exWorld : World := { chain := [[]], w := { exOpen.resetCache with height := 0 } }

example : exWorld.Start := ⟨⟨rfl, rfl, rfl, rfl⟩, rfl, rfl, rfl, fun h => nomatch h⟩

example : ∀ c, AMap.Ok (tokens60 c) ∧ ∀ e ∈ tokens60 c, e.2 < 2 ^ 128 := by
  intro c
  unfold tokens60
  by_cases h : 4 ∈ c.flatten
  · rw [if_pos h]; exact ⟨AMap.ok_nil, by simp⟩
  · rw [if_neg h]; exact ⟨by unfold AMap.Ok; decide, by decide⟩

/-- Refresh, send, refresh, confirmation, refresh. -/
example : (exWorld.run tokens60 24 [.readHeight, .readBalances, .finish]).w.bal (1105, 9) = 60 ∧
    (exWorld.run tokens60 24 [.readHeight, .readBalances, .finish, .send exPay]).w.bal (1105, 9) = 0 ∧
    (exWorld.run tokens60 24 [.readHeight, .readBalances, .finish, .send exPay, .block [3], .readHeight, .readBalances,
      .finish]).w.bal (1105, 9) = 0 ∧
    (exWorld.run tokens60 24 [.readHeight, .readBalances, .finish, .send exPay, .block [4], .readHeight, .readBalances,
      .finish]).w.pendingTx = [] := by decide +kernel

/-- If the block with a transaction comes between the balances and the list of confirmed transactions, the coins
it spent can be spent again in the eyes of the wallet. -/
theorem C168_race : ∃ evs : List NEv, let u := exWorld.run tokens60 24 evs
    u.reading = none ∧ exPay.id ∈ u.chain.flatten ∧ (tokens60 u.chain).find (1105, 9) = none ∧ u.w.bal (1105, 9) = 60 :=
  ⟨[.readHeight, .readBalances, .finish, .send exPay, .readHeight, .readBalances, .block [4], .finish], by decide +kernel⟩

/-- If the block with a transaction is taken back, the wallet has forgotten the transaction, which can still be
confirmed: it spends the same coins again. -/
theorem C168_reverted : ∃ evs : List NEv, let u := exWorld.run tokens60 24 evs
    u.reading = none ∧ exPay ∈ u.sent ∧ exPay.id ∉ u.chain.flatten ∧ u.chain.length - 1 ≤ exPay.expires ∧
      u.w.bal (1105, 9) = 60 :=
  ⟨[.readHeight, .readBalances, .finish, .send exPay, .block [4], .readHeight, .readBalances, .finish, .revert 1,
    .readHeight, .readBalances, .finish], by decide +kernel⟩

end Verif.Wallet
