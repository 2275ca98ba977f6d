/-
  Properties of relaying messages between peers: C119 to C123.
-/
import Verif.Router.Offer

namespace Verif.Router

/-! ### C119: a peer is not sent what it already has -/

/-- Whatever callbacks ran, in any order and with any input: when a message went out to a peer that
    was known to have it (it had sent the message or a receive note, or got it from us, on the same
    connection), then more than `max_sent_cache` different messages had been exchanged with that
    peer before. -/
theorem C119_not_again (cfg : Cfg) (ops : List Op) (l1 l2 : List Event) (c : Client) (h : Hash)
    (hlog : (run cfg ops).log = l1 ++ .sent c h :: l2) (hk : h ∈ contacts c l2) :
    Many cfg.maxSent (contacts c l2) :=
  good_split (hlog ▸ (inv_run cfg ops).good) hk

/-! ### C120: a message is put up for sending once and handed to the node once -/

/-- A message that is put up for sending a second time had been forgotten: more than
    `max_hash_cache` different messages had been met. -/
theorem C120_relayed_once (cfg : Cfg) (ops : List Op) (l1 l2 : List Event) (h : Hash)
    (hlog : (run cfg ops).log = l1 ++ .bcast h :: l2) (hk : .bcast h ∈ l2) :
    Many cfg.maxHash (met l2) := by
  have g : Good2 cfg.maxHash (.bcast h :: l2) := good2_drop (hlog ▸ (ginv_run cfg ops).good)
  exact g.1 hk

/-- The same for messages handed to the node. -/
theorem C120_published_once (cfg : Cfg) (ops : List Op) (l1 l2 : List Event) (m m' : Msg)
    (hlog : (run cfg ops).log = l1 ++ .publish m :: l2) (hk : .publish m' ∈ l2)
    (hh : m'.hash = m.hash) : Many cfg.maxHash (met l2) := by
  have g : Good2 cfg.maxHash (.publish m :: l2) := good2_drop (hlog ▸ (ginv_run cfg ops).good)
  exact g.1 ⟨m', hk, hh⟩

/-! ### C121: what is passed on unverified is covered by credit -/

/-- At every VDF height a farmer has no more blocks passed on before they are verified than the node
    verified proofs of that farmer at that height. -/
theorem C121_blocks (cfg : Cfg) (ops : List Op) (v : Nat) (k : Key) :
    earlyBlocks v k (run cfg ops).log ≤ goodProofs v k (run cfg ops).log :=
  Nat.le_trans (Nat.le_add_right _ _) ((cinv_run cfg ops).farmers v k)

/-- A timelord has no more VDFs passed on before they are verified than the node verified VDFs of
    that timelord. -/
theorem C121_vdfs (cfg : Cfg) (ops : List Op) (k : Key) :
    earlyVdfs k (run cfg ops).log ≤ goodVdfs k (run cfg ops).log :=
  Nat.le_trans (Nat.le_add_right _ _) ((cinv_run cfg ops).timelords k)

/-! ### C122: every interested peer is offered what the node verified -/

/-- Who a verified message is for: everyone, except that proofs and transactions are not for light
    nodes, and a transaction of our own only goes to synced peers. -/
def Interested (own : Bool) (m : Msg) (p : Peer) : Prop :=
  match m.kind with
  | .proof => p.light = false
  | .tx => p.light = false ∧ (own = true → p.isSynced = true)
  | _ => True

/-- The messages the Router takes from its node: a proof response must have a proof, and a VDF of our
    own timelord must not be late. -/
def Taken (own : Bool) (m : Msg) (s : St) : Prop :=
  (m.kind = .proof → m.valid = true) ∧
  (m.kind = .vdf → own = true → s.verifiedVdf < m.vdfHeight)

/-- What `handle` does with a message of the node that was not put up before. -/
theorem handle_offers {cfg : Cfg} (hr : cfg.doRelay = true) {s : St} (w : World) (own : Bool) (m : Msg)
    (ht : Taken own m s) (hd : didRelay m.hash s = false) :
    ∃ (t : St) (a b d : Bool), t.peers = s.peers ∧
      (∀ p, Interested own m p → wants a d p = true) ∧
      (handle cfg w own m s).peers = (broadcast cfg w m a b d t).peers ∧
      (∀ e ∈ (broadcast cfg w m a b d t).log, e ∈ (handle cfg w own m s).log) ∧
      (m.kind = .vdf → (m.vdfHeight, m) ∈ (handle cfg w own m s).history) := by
  have ha : (accept m.hash s).1 = true := (accept_true _ _).2 hd
  unfold handle Interested
  cases hk : m.kind with
  | block =>
    refine ⟨(accept m.hash s).2, true, !knows m.hash s, false, accept_peers .., ?_, ?_, ?_, ?_⟩
    · intro p _; simp [wants]
    · show (handleBlock cfg w m s).peers = _
      unfold handleBlock; dsimp only; rw [if_pos ha]
    · intro e he
      show e ∈ (handleBlock cfg w m s).log
      unfold handleBlock; dsimp only; rw [if_pos ha]; exact he
    · exact fun h => nomatch h
  | vdf =>
    have hp : (noteOurs own m s).peers = s.peers ∧ (noteOurs own m s).info = s.info ∧
        (noteOurs own m s).verifiedVdf = s.verifiedVdf := by
      unfold noteOurs
      by_cases h : own = true
      · rw [if_pos h]; exact ⟨rfl, rfl, rfl⟩
      · rw [if_neg h]; exact ⟨rfl, rfl, rfl⟩
    have hd' : didRelay m.hash (noteOurs own m s) = false := by
      unfold didRelay at hd ⊢; rw [hp.2.1]; exact hd
    have ha : (accept m.hash (noteOurs own m s)).1 = true := (accept_true _ _).2 hd'
    have hl : ¬ (own && decide (m.vdfHeight ≤ (noteOurs own m s).verifiedVdf)) = true := by
      rw [hp.2.2, Bool.and_eq_true, decide_eq_true_eq]
      intro h
      have := ht.2 hk h.1
      omega
    refine ⟨(accept m.hash (noteOurs own m s)).2, true,
      (accept m.hash (noteOurs own m s)).2.ours.contains m.key, false,
      (accept_peers ..).trans hp.1, ?_, ?_, ?_, ?_⟩
    · intro p _; simp [wants]
    · show (handleVdf cfg w own m s).peers = _
      unfold handleVdf; dsimp only; rw [if_neg hl, if_pos ha]; rfl
    · intro e he
      show e ∈ (handleVdf cfg w own m s).log
      unfold handleVdf; dsimp only; rw [if_neg hl, if_pos ha]
      exact List.mem_cons_of_mem _ he
    · intro _
      show _ ∈ (handleVdf cfg w own m s).history
      unfold handleVdf; dsimp only; rw [if_neg hl, if_pos ha]
      exact List.mem_append_right _ (List.mem_singleton.2 rfl)
  | proof =>
    have hv : ¬ (!m.valid) = true := by rw [ht.1 hk]; decide
    refine ⟨(accept m.hash s).2, false, own, false, accept_peers .., ?_, ?_, ?_, ?_⟩
    · intro p hp; simp [wants, hp]
    · show (handleProof cfg w own m s).peers = _
      unfold handleProof; dsimp only; rw [if_neg hv, if_pos ha]; rfl
    · intro e he
      show e ∈ (handleProof cfg w own m s).log
      unfold handleProof; dsimp only; rw [if_neg hv, if_pos ha]
      exact List.mem_cons_of_mem _ he
    · exact fun h => nomatch h
  | tx =>
    by_cases ho : own = true
    · refine ⟨(accept m.hash s).2, false, true, true, accept_peers .., ?_, ?_, ?_, ?_⟩
      · intro p hp; simp [wants, hp.1, hp.2 ho]
      · show (handleTx cfg w own m s).peers = _
        unfold handleTx; dsimp only; rw [if_pos ha, if_pos ho]
      · intro e he
        show e ∈ (handleTx cfg w own m s).log
        unfold handleTx; dsimp only; rw [if_pos ha, if_pos ho]; exact he
      · exact fun h => nomatch h
    · refine ⟨(accept m.hash s).2, false, false, false, accept_peers .., ?_, ?_, ?_, ?_⟩
      · intro p hp; simp [wants, hp.1]
      · show (handleTx cfg w own m s).peers = _
        unfold handleTx; dsimp only; rw [if_pos ha, if_neg ho, relay_eq hr]
      · intro e he
        show e ∈ (handleTx cfg w own m s).log
        unfold handleTx; dsimp only; rw [if_pos ha, if_neg ho, relay_eq hr]; exact he
      · exact fun h => nomatch h
  | point =>
    refine ⟨(accept m.hash s).2, true, true, false, accept_peers .., ?_, ?_, ?_, ?_⟩
    · intro p _; simp [wants]
    · show (handlePlain cfg w true m s).peers = _
      unfold handlePlain; dsimp only; rw [if_pos ha]
    · intro e he
      show e ∈ (handlePlain cfg w true m s).log
      unfold handlePlain; dsimp only; rw [if_pos ha]; exact he
    · exact fun h => nomatch h
  | vote =>
    refine ⟨(accept m.hash s).2, true, false, false, accept_peers .., ?_, ?_, ?_, ?_⟩
    · intro p _; simp [wants]
    · show (handlePlain cfg w false m s).peers = _
      unfold handlePlain; dsimp only; rw [if_pos ha]
    · intro e he
      show e ∈ (handlePlain cfg w false m s).log
      unfold handlePlain; dsimp only; rw [if_pos ha]; exact he
    · exact fun h => nomatch h

theorem not_did {cfg : Cfg} (hr : cfg.doRelay = true) (ops : List Op) (h : Hash)
    (hb : .bcast h ∉ (run cfg ops).log) : didRelay h (run cfg ops) = false := by
  cases e : didRelay h (run cfg ops) with
  | false => rfl
  | true =>
    rcases (oinv_run hr ops).did h e with k | k
    · exact k.elim
    · exact absurd k hb

/-- Missing for the full property: the item may find its time taken in the queue of a peer, and is
    then dropped (`C122_time_taken`).

    With relaying on, a message of the node that was not put up for sending before is put up, and
    every interested peer has, within `relay_target_ms` of now, an item for it in its send queue, or
    an item that was there already with the very same time. -/
theorem C122_offered_partial (cfg : Cfg) (hr : cfg.doRelay = true) (ops : List Op) (w : World)
    (own : Bool) (m : Msg) (hsh : ∀ l : List Client, (w.shuffle l).Perm l)
    (ht : Taken own m (run cfg ops)) (hb : .bcast m.hash ∉ (run cfg ops).log) :
    .bcast m.hash ∈ (step cfg (run cfg ops) (.verified w own m)).log ∧
    ∀ p ∈ (run cfg ops).peers, Interested own m p →
      ∃ p' ∈ (step cfg (run cfg ops) (.verified w own m)).peers, p'.client = p.client ∧
        ∃ t i, w.now ≤ t ∧ t ≤ w.now + cfg.relayTargetMs * 1000 ∧ (t, i) ∈ p'.out ∧
          (i.hash = m.hash ∨ (t, i) ∈ p.out) := by
  obtain ⟨t, a, b, d, h1, h2, h3, h4, _⟩ := handle_offers hr w own m ht (not_did hr ops m.hash hb)
  refine ⟨h4 _ (bcast_broadcast ..), ?_⟩
  intro p hp hi
  show ∃ p' ∈ (handle cfg w own m (run cfg ops)).peers, _
  rw [h3]
  exact broadcast_has cfg w m a b d t hsh (by rw [h1]; exact (inv_run cfg ops).nodup) p
    (by rw [h1]; exact hp) (h2 p hi)

/-- An item whose time has come goes out with the next `send` to a peer whose connection is up, if
    the transport takes it: the peer is then known to have the message. -/
theorem C122_sent (cfg : Cfg) (hr : cfg.doRelay = true) (ops : List Op) (w : World) (p : Peer)
    (hp : p ∈ (run cfg ops).peers) (hv : p.isValid = true) (t : Nat) (i : Item)
    (hi : (t, i) ∈ p.out) (ht : t < w.now) (hk : w.takes p.client i = true) :
    i.hash ∈ contacts p.client (step cfg (run cfg ops) (.send w)).log := by
  have hu := (oinv_run hr ops).sorted p hp
  have hs := sendPeer_does w p hu hv (t, i) hi ht hk
  have hm := sendPeers_mem w _ p hp
  have inv := inv_send (inv_run cfg ops) w
  have f := inv.fine _ (show (sendPeer w p).1 ∈ (send w (run cfg ops)).peers from hm)
  have := f.sub _ ((f.same _).1 hs)
  rw [sendPeer_client] at this
  exact this

/-! ### C123: a new peer gets the VDFs for the next block -/

/-- Missing for the full property: VDFs that were passed on before they were verified
    (`C123_withheld`).

    A VDF of the node that was not put up for sending before is sent to every peer that connects
    before the node hands over a block. -/
theorem C123_new_peer_partial (cfg : Cfg) (hr : cfg.doRelay = true) (ops ops' : List Op) (w : World)
    (own : Bool) (m : Msg) (hk : m.kind = .vdf) (ht : Taken own m (run cfg ops))
    (hb : .bcast m.hash ∉ (run cfg ops).log) (hn : ∀ op ∈ ops', noBlock op) (c : Client)
    (master : Bool) :
    .hello c m.hash ∈ (run cfg (ops ++ .verified w own m :: ops' ++ [.connect c master])).log := by
  obtain ⟨_, _, _, _, _, _, _, _, h5⟩ := handle_offers hr w own m ht (not_did hr ops m.hash hb)
  have h6 := history_run (cfg := cfg) ops' hn _ _ (h5 hk)
  have e : run cfg (ops ++ .verified w own m :: ops' ++ [.connect c master]) =
      connect c master (ops'.foldl (step cfg) (handle cfg w own m (run cfg ops))) := by
    unfold run
    rw [List.foldl_append, List.foldl_append]
    rfl
  rw [e]
  refine List.mem_append_left _ ?_
  unfold greet
  rw [List.mem_reverse]
  exact List.mem_map.2 ⟨_, h6, rfl⟩

/-! ### Concrete cases -/

/-- Small caches, so that a short history shows everything. -/
def exCfg : Cfg :=
  { maxSent := 2, maxHash := 3, relayTargetMs := 5000, doRelay := true, commitDelay := 18 }

/-- No delay in the random order, and every message is taken. -/
def at_ (now : Nat) : World := { now := now, shuffle := id, takes := fun _ _ => true }

def vote (h : Hash) : Msg := { kind := .vote, hash := h }

/-- Two peers: one sends a vote, the node verifies it, and it goes to the other one only. -/
theorem ex_vote : (run exCfg [.connect 1 false, .connect 2 false, .msg (at_ 0) 1 (vote 7),
      .verified (at_ 10) false (vote 7), .send (at_ 9000000)]).log =
    [.sent 2 7, .bcast 7, .handled 7, .publish (vote 7), .recv 1 7, .told 2 7, .told 1 7,
      .conn 2, .conn 1] := by decide

/-- `C119_not_again` is not empty: after more than `max_sent_cache` other messages the same one goes
    out again to the same peer. -/
theorem ex_again :
    let log := (run exCfg [.connect 1 false,
      .verified (at_ 0) false (vote 1), .verified (at_ 1) false (vote 2),
      .verified (at_ 2) false (vote 3), .verified (at_ 3) false (vote 4), .send (at_ 10),
      .update, .verified (at_ 11) false (vote 1), .send (at_ 20)]).log
    log.head? = some (.sent 1 1) ∧ 1 ∈ contacts 1 log.tail := by decide

/-- A block relayed before it is verified, paid for by a verified proof; the second one is not. -/
theorem ex_early :
    earlyBlocks 9 5 (run exCfg [.connect 1 false,
      .verified (at_ 0) false { kind := .proof, hash := 1, vdfHeight := 9, key := 5 },
      .msg (at_ 1) 1 { kind := .block, hash := 2, height := 9, vdfHeight := 9, key := 5 },
      .msg (at_ 2) 1 { kind := .block, hash := 3, height := 9, vdfHeight := 9, key := 5 }]).log = 1 := by
  decide

/-- The premises of `C122_offered_partial` and `C122_sent` meet: `ex_vote` is such a history. -/
example : Taken false (vote 7) (run exCfg [.connect 1 false, .connect 2 false]) ∧
    Interested false (vote 7) { client := 2 } ∧
    (∀ l : List Client, ((at_ 10).shuffle l).Perm l) :=
  ⟨⟨fun h => (nomatch h), fun h => (nomatch h)⟩, trivial, fun l => List.Perm.refl l⟩

/-! ### What is false -/

/-- The full C122 is false: two messages that become due for a peer in the same microsecond share a
    key of its send queue, and the second is dropped.  It is marked as relayed, so handing it over
    again does not help: the peer never gets it. -/
theorem C122_time_taken :
    let s := run exCfg [.connect 1 false, .verified (at_ 5) false (vote 1),
      .verified (at_ 5) false (vote 2), .send (at_ 100), .verified (at_ 200) false (vote 2),
      .send (at_ 9000000)]
    .sent 1 1 ∈ s.log ∧ .bcast 2 ∈ s.log ∧ .sent 1 2 ∉ s.log ∧ s.peers.map (·.out) = [[]] := by
  decide

/-- The messages need not come in the same microsecond: with two peers the second place of one
    message may be the first place of a later one. -/
theorem C122_time_taken_later :
    let s := run exCfg [.connect 1 false, .connect 2 false, .verified (at_ 0) false (vote 1),
      .verified { at_ 1666666 with shuffle := List.reverse } false (vote 2), .send (at_ 9000000)]
    .sent 2 1 ∈ s.log ∧ .sent 1 1 ∈ s.log ∧ .sent 2 2 ∈ s.log ∧ .sent 1 2 ∉ s.log := by
  decide

def vdf (h : Hash) (v : Nat) : Msg := { kind := .vdf, hash := h, vdfHeight := v, key := 5 }

/-- The full C123 is false: a VDF that was passed on before it was verified, on the credit of its
    timelord, is not kept when it is verified, and a peer that connects then does not get it. -/
theorem C123_withheld :
    let s := run exCfg [.connect 1 false, .verified (at_ 0) false (vdf 1 10),
      .msg (at_ 1) 1 (vdf 2 11), .verified (at_ 2) false (vdf 2 11), .connect 3 false,
      .send (at_ 9000000)]
    .early (vdf 2 11) ∈ s.log ∧ .earned (vdf 2 11) ∈ s.log ∧
    .hello 3 1 ∈ s.log ∧ .hello 3 2 ∉ s.log ∧ .sent 3 2 ∉ s.log := by
  decide

end Verif.Router
