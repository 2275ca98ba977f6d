/-
  Helper lemmas: what is put up for sending, when it goes out, and what new peers get.
-/
import Verif.Router.Credit

namespace Verif.Router

/-- The times of a send queue go up. -/
def Up (l : List (Nat × Item)) : Prop := l.Pairwise fun x y => x.1 < y.1

def Sorted (s : St) : Prop := ∀ p ∈ s.peers, Up p.out

/-- Marked as relayed only if put up for sending, but for one message. -/
def Did (h : Hash → Prop) (s : St) : Prop := ∀ x, didRelay x s = true → h x ∨ .bcast x ∈ s.log

/-- The memory of messages and VDFs is the same, queues stay sorted, the log grows. -/
structure Frame (s s' : St) : Prop where
  info : s'.info = s.info
  history : s'.history = s.history
  log : ∀ e ∈ s.log, e ∈ s'.log
  sorted : Sorted s → Sorted s'

theorem Frame.refl (s : St) : Frame s s := ⟨rfl, rfl, fun _ h => h, id⟩

theorem Frame.trans {a b c : St} (h : Frame a b) (h' : Frame b c) : Frame a c :=
  ⟨h'.info.trans h.info, h'.history.trans h.history, fun e k => h'.log e (h.log e k),
    fun k => h'.sorted (h.sorted k)⟩

theorem Frame.of_eq {s s' : St} (h1 : s'.info = s.info) (h2 : s'.history = s.history)
    (h3 : s'.log = s.log) (h4 : s'.peers = s.peers) : Frame s s' :=
  ⟨h1, h2, fun e k => h3 ▸ k, fun k => by unfold Sorted; rw [h4]; exact k⟩

theorem Frame.emit (s : St) (e : Event) : Frame s (Router.emit e s) :=
  ⟨rfl, rfl, fun _ h => List.mem_cons_of_mem _ h, id⟩

theorem Frame.did {h : Hash → Prop} {s s' : St} (f : Frame s s') (d : Did h s) : Did h s' := by
  intro x hx
  have : didRelay x s = true := by
    unfold didRelay at hx ⊢; rw [f.info] at hx; exact hx
  exact (d x this).imp id (f.log _)

theorem frame_modify (c : Client) (f : Peer → Peer) (hf : ∀ p, Up p.out → Up (f p).out) (s : St) :
    Frame s (modify c f s) := by
  refine ⟨rfl, rfl, fun _ h => h, fun k p hp => ?_⟩
  obtain ⟨q, hq, rfl⟩ := List.mem_map.1 hp
  show Up (Peer.out (if q.client = c then f q else q))
  by_cases e : q.client = c
  · rw [if_pos e]; exact hf q (k q hq)
  · rw [if_neg e]; exact k q hq

theorem learn_out (h : Hash) (p : Peer) : (p.learn h).out = p.out := by
  unfold Peer.learn
  by_cases e : h ∈ p.sent
  · rw [if_pos e]
  · rw [if_neg e]

theorem frame_learn (c : Client) (h : Hash) (s : St) : Frame s (modify c (Peer.learn h) s) :=
  frame_modify c _ (fun p k => by rw [learn_out]; exact k) s

/-! ### The send queue -/

theorem mem_emplace_old {t : Nat} {i : Item} {l : List (Nat × Item)} {x : Nat × Item} (h : x ∈ l) :
    x ∈ emplace t i l := by
  induction l with
  | nil => exact nomatch h
  | cons y r ih =>
    obtain ⟨t', j⟩ := y
    unfold emplace
    by_cases h1 : t < t'
    · rw [if_pos h1]; exact List.mem_cons_of_mem _ h
    · rw [if_neg h1]
      by_cases h2 : t = t'
      · rw [if_pos h2]; exact h
      · rw [if_neg h2]
        rcases List.mem_cons.1 h with e | e
        · rw [e]; exact List.mem_cons_self
        · exact List.mem_cons_of_mem _ (ih e)

theorem mem_emplace {t : Nat} {i : Item} {l : List (Nat × Item)} {x : Nat × Item}
    (h : x ∈ emplace t i l) : x = (t, i) ∨ x ∈ l := by
  induction l with
  | nil => exact Or.inl (List.mem_singleton.1 h)
  | cons y r ih =>
    obtain ⟨t', j⟩ := y
    unfold emplace at h
    by_cases h1 : t < t'
    · rw [if_pos h1] at h
      exact List.mem_cons.1 h
    · rw [if_neg h1] at h
      by_cases h2 : t = t'
      · rw [if_pos h2] at h; exact Or.inr h
      · rw [if_neg h2] at h
        rcases List.mem_cons.1 h with e | e
        · exact Or.inr (e ▸ List.mem_cons_self)
        · exact (ih e).imp id (List.mem_cons_of_mem _)

/-- The item is in the queue, or another one with the same time was there. -/
theorem emplace_has (t : Nat) (i : Item) (l : List (Nat × Item)) :
    ∃ j, (t, j) ∈ emplace t i l ∧ (j = i ∨ (t, j) ∈ l) := by
  induction l with
  | nil => exact ⟨i, List.mem_singleton.2 rfl, Or.inl rfl⟩
  | cons y r ih =>
    obtain ⟨t', j⟩ := y
    unfold emplace
    by_cases h1 : t < t'
    · rw [if_pos h1]; exact ⟨i, List.mem_cons_self, Or.inl rfl⟩
    · rw [if_neg h1]
      by_cases h2 : t = t'
      · rw [if_pos h2, h2]; exact ⟨j, List.mem_cons_self, Or.inr List.mem_cons_self⟩
      · rw [if_neg h2]
        obtain ⟨j', e1, e2⟩ := ih
        exact ⟨j', List.mem_cons_of_mem _ e1, e2.imp id (List.mem_cons_of_mem _)⟩

theorem up_emplace (t : Nat) (i : Item) (l : List (Nat × Item)) (h : Up l) : Up (emplace t i l) := by
  induction l with
  | nil => exact List.pairwise_singleton ..
  | cons y r ih =>
    obtain ⟨t', j⟩ := y
    have hc := List.pairwise_cons.1 h
    unfold emplace
    by_cases h1 : t < t'
    · rw [if_pos h1]
      refine List.pairwise_cons.2 ⟨?_, h⟩
      intro x hx
      rcases List.mem_cons.1 hx with e | e
      · rw [e]; exact h1
      · exact Nat.lt_trans h1 (hc.1 x e)
    · rw [if_neg h1]
      by_cases h2 : t = t'
      · rw [if_pos h2]; exact h
      · rw [if_neg h2]
        refine List.pairwise_cons.2 ⟨?_, ih hc.2⟩
        intro x hx
        rcases mem_emplace hx with e | e
        · rw [e]; show t' < t; omega
        · exact hc.1 x e

theorem frame_schedule (now iv : Nat) (i : Item) (cs : List Client) :
    ∀ (k : Nat) (s : St), Frame s (schedule now iv i k cs s) := by
  induction cs with
  | nil => intro k s; exact Frame.refl s
  | cons c cs ih =>
    intro k s
    refine Frame.trans (frame_modify c
      (fun p => { p with out := emplace (now + iv * k) i p.out }) ?_ s) (ih (k + 1) _)
    exact fun p h => up_emplace _ _ _ h

theorem frame_broadcast (cfg : Cfg) (w : World) (m : Msg) (a b d : Bool) (s : St) :
    Frame s (broadcast cfg w m a b d s) :=
  (Frame.emit s (.bcast m.hash)).trans (frame_schedule ..)

theorem bcast_broadcast (cfg : Cfg) (w : World) (m : Msg) (a b d : Bool) (s : St) :
    .bcast m.hash ∈ (broadcast cfg w m a b d s).log :=
  (frame_schedule _ _ _ _ 0 (emit (.bcast m.hash) s)).log _ List.mem_cons_self

theorem did_broadcast {cfg : Cfg} {w : World} {m : Msg} {a b d : Bool} {s : St}
    (h : Did (· = m.hash) s) : Did (fun _ => False) (broadcast cfg w m a b d s) := by
  intro x hx
  rcases (frame_broadcast cfg w m a b d s).did h x hx with e | e
  · rw [e]; exact Or.inr (bcast_broadcast ..)
  · exact Or.inr e

theorem relay_eq {cfg : Cfg} (h : cfg.doRelay = true) (w : World) (m : Msg) (a : Bool) (s : St) :
    relay cfg w m a s = broadcast cfg w m a false false s := by
  unfold relay; rw [if_pos h]

/-! ### Messages met -/

theorem see_frame (h : Hash) (s : St) : (∀ x, didRelay x (see h s) = didRelay x s) ∧
    (see h s).history = s.history ∧ (∀ e ∈ s.log, e ∈ (see h s).log) ∧
    (see h s).peers = s.peers := by
  refine ⟨fun x => didRelay_see h x s, ?_⟩
  unfold see
  by_cases e : knows h s = true
  · rw [if_pos e]; exact ⟨rfl, fun _ h => h, rfl⟩
  · rw [if_neg e]; exact ⟨rfl, fun _ h => List.mem_append_right _ h, rfl⟩

theorem did_see {P : Hash → Prop} {h : Hash} {s : St} (d : Did P s) : Did P (see h s) := by
  intro x hx
  rw [(see_frame h s).1] at hx
  exact (d x hx).imp id ((see_frame h s).2.2.1 _)

theorem relayMsgHash_peers (h : Hash) (s : St) : (relayMsgHash h s).2.peers = s.peers := by
  unfold relayMsgHash
  dsimp only
  by_cases e : didRelay h (see h s) = true
  · rw [if_pos e]; exact (see_frame h s).2.2.2
  · rw [if_neg e]; exact (see_frame h s).2.2.2

theorem relayMsgHash_history (h : Hash) (s : St) : (relayMsgHash h s).2.history = s.history := by
  unfold relayMsgHash
  dsimp only
  by_cases e : didRelay h (see h s) = true
  · rw [if_pos e]; exact (see_frame h s).2.1
  · rw [if_neg e]; exact (see_frame h s).2.1

theorem relayMsgHash_true (h : Hash) (s : St) :
    (relayMsgHash h s).1 = true ↔ didRelay h s = false := by
  unfold relayMsgHash
  dsimp only
  rw [didRelay_see]
  by_cases e : didRelay h s = true
  · rw [if_pos e, e]; simp
  · rw [if_neg e]; simpa using e

theorem didRelay_setRelay_inv (h x : Hash) (s : St) (hx : didRelay x (setRelay h s) = true) :
    x = h ∨ didRelay x s = true := by
  unfold didRelay setRelay at hx
  rw [List.any_eq_true] at hx
  obtain ⟨y, hy, e⟩ := hx
  obtain ⟨z, hz, rfl⟩ := List.mem_map.1 hy
  by_cases k : z.1 = h
  · rw [if_pos k, Bool.and_eq_true] at e
    exact Or.inl (Eq.symm (by simpa using e.1))
  · rw [if_neg k] at e
    refine Or.inr ?_
    unfold didRelay
    rw [List.any_eq_true]
    exact ⟨z, hz, e⟩

/-- After `relay_msg_hash` only the message itself may be marked without being put up. -/
theorem did_relayMsgHash {h : Hash} {s : St} (d : Did (fun _ => False) s) :
    Did (fun x => x = h ∧ (relayMsgHash h s).1 = true) (relayMsgHash h s).2 := by
  have d' := did_see (h := h) d
  unfold relayMsgHash
  dsimp only
  by_cases e : didRelay h (see h s) = true
  · rw [if_pos e]
    intro x hx
    rcases d' x hx with k | k
    · exact k.elim
    · exact Or.inr k
  · rw [if_neg e]
    intro x hx
    rcases didRelay_setRelay_inv h x _ hx with k | k
    · exact Or.inl ⟨k, rfl⟩
    · rcases d' x k with k | k
      · exact k.elim
      · exact Or.inr k

theorem did_accept {h : Hash} {s : St} (d : Did (fun _ => False) s) :
    Did (fun x => x = h ∧ (accept h s).1 = true) (accept h s).2 :=
  did_relayMsgHash ((Frame.emit s _).did d)

theorem accept_true (h : Hash) (s : St) : (accept h s).1 = true ↔ didRelay h s = false := by
  show (relayMsgHash h _).1 = true ↔ _
  rw [relayMsgHash_true]; rfl

theorem accept_peers (h : Hash) (s : St) : (accept h s).2.peers = s.peers := by
  show (relayMsgHash h _).2.peers = _
  rw [relayMsgHash_peers]; rfl

theorem accept_history (h : Hash) (s : St) : (accept h s).2.history = s.history := by
  show (relayMsgHash h _).2.history = _
  rw [relayMsgHash_history]; rfl

theorem did_weaken {P Q : Hash → Prop} {s : St} (d : Did P s) (h : ∀ x, P x → Q x) : Did Q s :=
  fun x hx => (d x hx).imp (h x) id

theorem did_false {h : Hash} {b : Bool} {s : St} (d : Did (fun x => x = h ∧ b = true) s)
    (hb : ¬ b = true) : Did (fun _ => False) s :=
  did_weaken d fun _ k => hb k.2

theorem did_true {h : Hash} {b : Bool} {s : St} (d : Did (fun x => x = h ∧ b = true) s) :
    Did (· = h) s := did_weaken d fun _ k => k.1

/-- The invariant of all callbacks when relaying is on. -/
structure OInv (s : St) : Prop where
  did : Did (fun _ => False) s
  sorted : Sorted s

theorem Frame.inv {s s' : St} (f : Frame s s') (i : OInv s) : OInv s' := ⟨f.did i.did, f.sorted i.sorted⟩

theorem sorted_of_peers {s s' : St} (h : s'.peers = s.peers) (k : Sorted s) : Sorted s' := by
  unfold Sorted; rw [h]; exact k

theorem oinv_handle {cfg : Cfg} (hr : cfg.doRelay = true) {s : St} (w : World) (own : Bool) (m : Msg)
    (i : OInv s) : OInv (handle cfg w own m s) := by
  have hs : ∀ t : St, Sorted t → Sorted (accept m.hash t).2 := fun t k =>
    sorted_of_peers (accept_peers m.hash t) k
  have key : ∀ (t : St) (a b d : Bool), OInv t → OInv (if (accept m.hash t).1 = true then
      broadcast cfg w m a b d (accept m.hash t).2 else (accept m.hash t).2) := by
    intro t a b d it
    have hd := did_accept (h := m.hash) it.did
    by_cases h : (accept m.hash t).1 = true
    · rw [if_pos h]
      exact ⟨did_broadcast (did_true hd), (frame_broadcast ..).sorted (hs t it.sorted)⟩
    · rw [if_neg h]; exact ⟨did_false hd h, hs t it.sorted⟩
  unfold handle
  cases m.kind with
  | block =>
    show OInv (handleBlock cfg w m s)
    have k := key s true (!knows m.hash s) false i
    unfold handleBlock
    dsimp only
    exact ⟨k.did, k.sorted⟩
  | vdf =>
    show OInv (handleVdf cfg w own m s)
    have h0 : Frame s (noteOurs own m s) := by
      unfold noteOurs
      by_cases h : own = true
      · rw [if_pos h]; exact Frame.of_eq rfl rfl rfl rfl
      · rw [if_neg h]; exact Frame.refl s
    unfold handleVdf
    dsimp only
    by_cases h : (own && decide (m.vdfHeight ≤ (noteOurs own m s).verifiedVdf)) = true
    · rw [if_pos h]; exact h0.inv i
    rw [if_neg h]
    have fin : ∀ t : St, Frame t
        { emit (.earned m) (setCredit m.key 1 t) with
          verifiedVdf := max (emit (.earned m) (setCredit m.key 1 t)).verifiedVdf m.vdfHeight } := by
      intro t
      have h1 : Frame t (setCredit m.key 1 t) := Frame.of_eq rfl rfl rfl rfl
      exact (h1.trans (Frame.emit _ (.earned m))).trans (Frame.of_eq rfl rfl rfl rfl)
    refine (fin _).inv ?_
    have k := key (noteOurs own m s) true
      ((accept m.hash (noteOurs own m s)).2.ours.contains m.key) false (h0.inv i)
    by_cases h : (accept m.hash (noteOurs own m s)).1 = true
    · rw [if_pos h] at k ⊢
      exact ⟨k.did, k.sorted⟩
    · rw [if_neg h] at k ⊢; exact k
  | proof =>
    show OInv (handleProof cfg w own m s)
    unfold handleProof
    dsimp only
    by_cases h : (!m.valid) = true
    · rw [if_pos h]; exact i
    rw [if_neg h]
    have k := key s false own false i
    by_cases h : (accept m.hash s).1 = true
    · rw [if_pos h] at k ⊢
      exact (Frame.emit _ _).inv ⟨k.did, k.sorted⟩
    · rw [if_neg h] at k ⊢; exact k
  | tx =>
    show OInv (handleTx cfg w own m s)
    unfold handleTx
    dsimp only
    by_cases h' : own = true
    · rw [if_pos h']; exact key s false true true i
    · rw [if_neg h', relay_eq hr]; exact key s false false false i
  | point => exact key s true true false i
  | vote => exact key s true false false i

theorem oinv_receive {s : St} (i : OInv s) (h : Hash) (c : Client) : OInv (receiveMsgHash h c s).2 := by
  have h1 : OInv (see h s) := ⟨did_see i.did, sorted_of_peers (see_frame h s).2.2.2 i.sorted⟩
  exact ((frame_learn c h _).trans (Frame.emit _ (.recv c h))).inv h1

theorem frame_disconnect (c : Client) (s : St) : Frame s (disconnect c s) :=
  (frame_modify c (fun p => { p with isValid := false }) (fun _ h => h) s).trans (Frame.emit _ _)

theorem oinv_msg {cfg : Cfg} (hr : cfg.doRelay = true) {s : St} (i : OInv s) (w : World) (c : Client)
    (m : Msg) : OInv (onMsg cfg w c m s) := by
  have hrec := oinv_receive i m.hash c
  have hdis : ∀ t, OInv t → OInv (disconnect c t) := fun t ht => (frame_disconnect c t).inv ht
  have hpub : ∀ t, OInv t → OInv (emit (.publish m) t) := fun t ht => (Frame.emit t _).inv ht
  have hplain : OInv (onPlain c m s) := by
    unfold onPlain
    dsimp only
    by_cases h : (!m.valid) = true
    · rw [if_pos h]; exact hdis s i
    · rw [if_neg h]
      by_cases h : (receiveMsgHash m.hash c s).1 = true
      · rw [if_pos h]; exact hpub _ hrec
      · rw [if_neg h]; exact hrec
  unfold onMsg
  cases m.kind with
  | vdf =>
    show OInv (onVdf cfg w c m s)
    unfold onVdf
    dsimp only
    by_cases h : u32 (m.vdfHeight + cfg.commitDelay) < s.verifiedVdf
    · rw [if_pos h]; exact i
    · rw [if_neg h]
      by_cases h : (!m.valid) = true
      · rw [if_pos h]; exact hdis s i
      · rw [if_neg h]
        by_cases h : (!(receiveMsgHash m.hash c s).1) = true
        · rw [if_pos h]; exact hrec
        · rw [if_neg h]
          by_cases h : (!m.checked) = true
          · rw [if_pos h]; exact hdis _ hrec
          · rw [if_neg h]
            apply hpub
            generalize (receiveMsgHash m.hash c s).2 = r at hrec ⊢
            by_cases h : (m.short && decide (0 < credit m.key r)) = true
            · rw [if_pos h]
              have hd := did_relayMsgHash (h := m.hash) hrec.did
              have hs := sorted_of_peers (relayMsgHash_peers m.hash r) hrec.sorted
              by_cases h' : (relayMsgHash m.hash r).1 = true
              · rw [if_pos h', relay_eq hr]
                have hd := did_true hd
                generalize (relayMsgHash m.hash r).2 = q at hd hs ⊢
                have h1 : Frame q (setCredit m.key (credit m.key q - 1) q) :=
                  Frame.of_eq rfl rfl rfl rfl
                have h2 := h1.trans (Frame.emit _ (.early m))
                exact ⟨did_broadcast (h2.did hd), (frame_broadcast ..).sorted (h2.sorted hs)⟩
              · rw [if_neg h']; exact ⟨did_false hd h', hs⟩
            · rw [if_neg h]; exact hrec
  | block =>
    show OInv (onBlock cfg w c m s)
    unfold onBlock
    dsimp only
    by_cases h : u32 (m.height + cfg.commitDelay) < s.verifiedPeak
    · rw [if_pos h]; exact i
    · rw [if_neg h]
      by_cases h : (!m.valid) = true
      · rw [if_pos h]; exact hdis s i
      · rw [if_neg h]
        by_cases h : (!(receiveMsgHash m.hash c s).1) = true
        · rw [if_pos h]; exact hrec
        · rw [if_neg h]
          by_cases h : (!m.checked) = true
          · rw [if_pos h]; exact hdis _ hrec
          · rw [if_neg h]
            apply hpub
            generalize (receiveMsgHash m.hash c s).2 = r at hrec ⊢
            by_cases h : (m.vdfHeight, m.key) ∈ r.farmers
            · rw [if_pos h]
              have h0 : Frame r { r with farmers := r.farmers.filter (· != (m.vdfHeight, m.key)) } :=
                Frame.of_eq rfl rfl rfl rfl
              have hrec := h0.inv hrec
              generalize { r with farmers := r.farmers.filter (· != (m.vdfHeight, m.key)) } = r
                at hrec ⊢
              have hd := did_relayMsgHash (h := m.hash) hrec.did
              have hs := sorted_of_peers (relayMsgHash_peers m.hash r) hrec.sorted
              by_cases h' : (relayMsgHash m.hash r).1 = true
              · rw [if_pos h', relay_eq hr]
                have hd := did_true hd
                have h2 := Frame.emit (relayMsgHash m.hash r).2 (.early m)
                exact ⟨did_broadcast (h2.did hd), (frame_broadcast ..).sorted (h2.sorted hs)⟩
              · rw [if_neg h']; exact ⟨did_false hd h', hs⟩
            · rw [if_neg h]; exact hrec
  | point =>
    show OInv (onPoint c m s)
    unfold onPoint
    dsimp only
    by_cases h : (s.peers.any (fun p => p.client == c && p.master) && m.valid) = true
    · rw [if_pos h]
      by_cases h : (receiveMsgHash m.hash c s).1 = true
      · rw [if_pos h]; exact hpub _ hrec
      · rw [if_neg h]; exact hrec
    · rw [if_neg h]; exact i
  | vote => exact hplain
  | proof => exact hplain
  | tx => exact hplain

/-! ### Sending -/

theorem sendItems_out (w : World) (items : List (Nat × Item)) :
    ∀ (p : Peer) (ev : List Event), (sendItems w items (p, ev)).1.out = p.out := by
  induction items with
  | nil => intro p ev; rfl
  | cons x t ih =>
    obtain ⟨k, i⟩ := x
    intro p ev
    unfold sendItems
    by_cases h1 : i.hash ∈ p.sent
    · rw [if_pos h1]; exact ih p ev
    · rw [if_neg h1]
      by_cases h2 : (p.isValid && w.takes p.client i) = true
      · rw [if_pos h2, ih, learn_out]
      · rw [if_neg h2]; exact ih p ev

theorem frame_send (w : World) (s : St) : Frame s (send w s) := by
  refine ⟨rfl, rfl, fun _ h => List.mem_append_right _ h, ?_⟩
  intro k
  show ∀ p ∈ (sendPeers w s.peers).1, Up p.out
  have : ∀ ps : List Peer, (∀ p ∈ ps, Up p.out) → ∀ p ∈ (sendPeers w ps).1, Up p.out := by
    intro ps
    induction ps with
    | nil => intro _ p hp; exact nomatch hp
    | cons q qs ih =>
      intro hq p hp
      rcases List.mem_cons.1 (show p ∈ (sendPeer w q).1 :: (sendPeers w qs).1 from hp) with e | e
      · rw [e]
        unfold sendPeer
        dsimp only
        rw [sendItems_out]
        exact (hq q List.mem_cons_self).sublist (List.dropWhile_sublist _)
      · exact ih (fun x hx => hq x (List.mem_cons_of_mem _ hx)) p e
  exact this s.peers k

theorem isValid_learn (h : Hash) (p : Peer) : (p.learn h).isValid = p.isValid := by
  unfold Peer.learn
  by_cases e : h ∈ p.sent
  · rw [if_pos e]
  · rw [if_neg e]

theorem sendItems_sub (w : World) (items : List (Nat × Item)) :
    ∀ (p : Peer) (ev : List Event), ∀ x ∈ p.sent, x ∈ (sendItems w items (p, ev)).1.sent := by
  induction items with
  | nil => intro p ev x hx; exact hx
  | cons y t ih =>
    obtain ⟨k, i⟩ := y
    intro p ev x hx
    unfold sendItems
    by_cases h1 : i.hash ∈ p.sent
    · rw [if_pos h1]; exact ih p ev x hx
    · rw [if_neg h1]
      by_cases h2 : (p.isValid && w.takes p.client i) = true
      · rw [if_pos h2]; exact ih _ _ x (sub_learn _ p hx)
      · rw [if_neg h2]; exact ih p ev x hx

/-- What is due and taken by the transport is known to be at the peer afterwards. -/
theorem sendItems_does (w : World) (items : List (Nat × Item)) :
    ∀ (p : Peer) (ev : List Event), p.isValid = true → ∀ x ∈ items, w.takes p.client x.2 = true →
      x.2.hash ∈ (sendItems w items (p, ev)).1.sent := by
  induction items with
  | nil => intro p ev _ x hx; exact nomatch hx
  | cons y t ih =>
    obtain ⟨k, i⟩ := y
    intro p ev hv x hx ht
    unfold sendItems
    rcases List.mem_cons.1 hx with e | e
    · subst e
      by_cases h1 : i.hash ∈ p.sent
      · rw [if_pos h1]; exact sendItems_sub w t p ev _ h1
      · rw [if_neg h1, if_pos (by rw [hv]; exact ht)]
        exact sendItems_sub w t _ _ _ (mem_learn _ p)
    · by_cases h1 : i.hash ∈ p.sent
      · rw [if_pos h1]; exact ih p ev hv x e ht
      · rw [if_neg h1]
        by_cases h2 : (p.isValid && w.takes p.client i) = true
        · rw [if_pos h2]
          exact ih _ _ (by rw [isValid_learn]; exact hv) x e (by rw [learn_client]; exact ht)
        · rw [if_neg h2]; exact ih p ev hv x e ht

theorem mem_takeWhile_up (now : Nat) (l : List (Nat × Item)) (h : Up l) (x : Nat × Item) (hx : x ∈ l)
    (ht : x.1 < now) : x ∈ l.takeWhile fun y => y.1 < now := by
  induction l with
  | nil => exact nomatch hx
  | cons y r ih =>
    have hc := List.pairwise_cons.1 h
    rcases List.mem_cons.1 hx with e | e
    · subst e
      rw [List.takeWhile_cons_of_pos (by simpa using ht)]
      exact List.mem_cons_self
    · have : y.1 < now := Nat.lt_trans (hc.1 x e) ht
      rw [List.takeWhile_cons_of_pos (by simpa using this)]
      exact List.mem_cons_of_mem _ (ih hc.2 e)

theorem sendPeer_does (w : World) (p : Peer) (hu : Up p.out) (hv : p.isValid = true)
    (x : Nat × Item) (hx : x ∈ p.out) (ht : x.1 < w.now) (hk : w.takes p.client x.2 = true) :
    x.2.hash ∈ (sendPeer w p).1.sent :=
  sendItems_does w _ { p with out := p.out.dropWhile fun y => y.1 < w.now } [] hv x
    (mem_takeWhile_up w.now p.out hu x hx ht) hk

theorem sendPeers_mem (w : World) (ps : List Peer) (p : Peer) (hp : p ∈ ps) :
    (sendPeer w p).1 ∈ (sendPeers w ps).1 := by
  induction ps with
  | nil => exact nomatch hp
  | cons q qs ih =>
    rcases List.mem_cons.1 hp with e | e
    · rw [e]; exact List.mem_cons_self
    · exact List.mem_cons_of_mem _ (ih e)

theorem sendItems_client (w : World) (items : List (Nat × Item)) :
    ∀ (p : Peer) (ev : List Event), (sendItems w items (p, ev)).1.client = p.client := by
  induction items with
  | nil => intro p ev; rfl
  | cons x t ih =>
    obtain ⟨k, i⟩ := x
    intro p ev
    unfold sendItems
    by_cases h1 : i.hash ∈ p.sent
    · rw [if_pos h1]; exact ih p ev
    · rw [if_neg h1]
      by_cases h2 : (p.isValid && w.takes p.client i) = true
      · rw [if_pos h2, ih, learn_client]
      · rw [if_neg h2]; exact ih p ev

theorem sendPeer_client (w : World) (p : Peer) : (sendPeer w p).1.client = p.client := by
  unfold sendPeer
  exact sendItems_client ..

theorem frame_connect (c : Client) (b : Bool) (s : St) : Frame s (connect c b s) := by
  refine ⟨rfl, rfl, fun _ h => List.mem_append_right _ (List.mem_cons_of_mem _ h), ?_⟩
  intro k p hp
  rcases List.mem_cons.1 (show p ∈ { client := c, master := b } :: s.peers.filter (·.client != c)
    from hp) with e | e
  · subst e; exact List.Pairwise.nil
  · exact k p (List.mem_filter.1 e).1

theorem forget_sub (max : Nat) (q : List Hash) : ∀ (info : List (Hash × Bool)),
    ∀ x ∈ (forget max q info).2, x ∈ info := by
  induction q with
  | nil => intro info x hx; exact hx
  | cons h t ih =>
    intro info x hx
    unfold forget at hx
    by_cases hl : max < (h :: t).length
    · rw [if_pos hl] at hx; exact (List.mem_filter.1 (ih _ x hx)).1
    · rw [if_neg hl] at hx; exact hx

theorem oinv_step {cfg : Cfg} (hr : cfg.doRelay = true) {s : St} (i : OInv s) (op : Op) :
    OInv (step cfg s op) := by
  cases op with
  | msg w c m => exact oinv_msg hr i w c m
  | note c h => exact ((frame_learn c h s).trans (Frame.emit _ _)).inv i
  | verified w own m => exact oinv_handle hr w own m i
  | send w => exact (frame_send w s).inv i
  | update =>
    refine ⟨?_, ?_⟩
    · intro x hx
      refine i.did x ?_
      unfold didRelay at hx ⊢
      rw [List.any_eq_true] at hx ⊢
      obtain ⟨y, hy, e⟩ := hx
      exact ⟨y, forget_sub _ _ _ y hy, e⟩
    · intro p hp
      obtain ⟨q, hq, rfl⟩ := List.mem_map.1 hp
      exact i.sorted q hq
  | connect c b => exact (frame_connect c b s).inv i
  | drop c => exact (frame_disconnect c s).inv i
  | gone c => exact ⟨i.did, fun p hp => i.sorted p (List.mem_filter.1 hp).1⟩
  | state c a b =>
    exact (frame_modify c (fun p => { p with isSynced := a, light := b }) (fun _ h => h) s).inv i

theorem oinv_run {cfg : Cfg} (hr : cfg.doRelay = true) (ops : List Op) : OInv (run cfg ops) := by
  unfold run
  have : ∀ (ops : List Op) (s : St), OInv s → OInv (ops.foldl (step cfg) s) := by
    intro ops
    induction ops with
    | nil => intro s h; exact h
    | cons o t ih => intro s h; exact ih _ (oinv_step hr h o)
  exact this ops init ⟨fun x hx => (by cases hx), fun _ h => (nomatch h)⟩

/-! ### Who gets an item queued -/

theorem schedule_keeps (now iv : Nat) (i : Item) (cs : List Client) :
    ∀ (k : Nat) (s : St) (p : Peer), p ∈ s.peers →
      ∃ p' ∈ (schedule now iv i k cs s).peers, p'.client = p.client ∧ ∀ x ∈ p.out, x ∈ p'.out := by
  induction cs with
  | nil => intro k s p hp; exact ⟨p, hp, rfl, fun _ h => h⟩
  | cons c cs ih =>
    intro k s p hp
    have hm : (if p.client = c then { p with out := emplace (now + iv * k) i p.out } else p) ∈
        (modify c (fun p => { p with out := emplace (now + iv * k) i p.out }) s).peers :=
      List.mem_map.2 ⟨p, hp, rfl⟩
    obtain ⟨p', h1, h2, h3⟩ := ih (k + 1) _ _ hm
    refine ⟨p', h1, ?_, ?_⟩
    · rw [h2]
      by_cases e : p.client = c
      · rw [if_pos e]
      · rw [if_neg e]
    · intro x hx
      apply h3
      by_cases e : p.client = c
      · rw [if_pos e]; exact mem_emplace_old hx
      · rw [if_neg e]; exact hx

theorem schedule_has (now iv : Nat) (i : Item) (cs : List Client) :
    ∀ (k : Nat) (s : St) (p : Peer), p ∈ s.peers → p.client ∈ cs → cs.Nodup →
      ∃ p' ∈ (schedule now iv i k cs s).peers, p'.client = p.client ∧
        ∃ n j, k ≤ n ∧ n < k + cs.length ∧ (now + iv * n, j) ∈ p'.out ∧
          (j = i ∨ (now + iv * n, j) ∈ p.out) := by
  induction cs with
  | nil => intro k s p _ hc; exact nomatch hc
  | cons c cs ih =>
    intro k s p hp hc nd
    have nd' := List.nodup_cons.1 nd
    have hm : (if p.client = c then { p with out := emplace (now + iv * k) i p.out } else p) ∈
        (modify c (fun p => { p with out := emplace (now + iv * k) i p.out }) s).peers :=
      List.mem_map.2 ⟨p, hp, rfl⟩
    by_cases e : p.client = c
    · rw [if_pos e] at hm
      obtain ⟨p', h1, h2, h3⟩ := schedule_keeps now iv i cs (k + 1) _ _ hm
      obtain ⟨j, e1, e2⟩ := emplace_has (now + iv * k) i p.out
      exact ⟨p', h1, h2, k, j, Nat.le_refl k, by simp, h3 _ e1, e2⟩
    · rw [if_neg e] at hm
      have hc' : p.client ∈ cs := by
        rcases List.mem_cons.1 hc with x | x
        · exact absurd x e
        · exact x
      obtain ⟨p', h1, h2, n, j, h3, h4, h5, h6⟩ := ih (k + 1) _ p hm hc' nd'.2
      refine ⟨p', h1, h2, n, j, by omega, ?_, h5, h6⟩
      rw [List.length_cons]; omega

theorem interval_bound (T n N : Nat) (h : n < N) : T / (1 + N) * n ≤ T := by
  have h1 : T / (1 + N) * n ≤ T / (1 + N) * (1 + N) := Nat.mul_le_mul_left _ (by omega)
  exact Nat.le_trans h1 (Nat.div_mul_le_self T (1 + N))

theorem broadcast_has (cfg : Cfg) (w : World) (m : Msg) (a b d : Bool) (s : St)
    (hsh : ∀ l : List Client, (w.shuffle l).Perm l) (nd : (s.peers.map (·.client)).Nodup)
    (p : Peer) (hp : p ∈ s.peers) (hw : wants a d p = true) :
    ∃ p' ∈ (broadcast cfg w m a b d s).peers, p'.client = p.client ∧
      ∃ t i, w.now ≤ t ∧ t ≤ w.now + cfg.relayTargetMs * 1000 ∧ (t, i) ∈ p'.out ∧
        (i.hash = m.hash ∨ (t, i) ∈ p.out) := by
  have perm := hsh ((s.peers.filter (wants a d)).map (·.client))
  have hc : p.client ∈ w.shuffle ((s.peers.filter (wants a d)).map (·.client)) :=
    perm.mem_iff.2 (List.mem_map_of_mem (List.mem_filter.2 ⟨hp, hw⟩))
  have hnd : (w.shuffle ((s.peers.filter (wants a d)).map (·.client))).Nodup :=
    perm.nodup_iff.2 (nodup_filter _ _ nd)
  obtain ⟨p', h1, h2, n, j, _, h4, h5, h6⟩ :=
    schedule_has w.now (cfg.relayTargetMs * 1000 /
      (1 + (w.shuffle ((s.peers.filter (wants a d)).map (·.client))).length))
      { reliable := b, hash := m.hash, msg := m } _ 0 (emit (.bcast m.hash) s) p hp hc hnd
  refine ⟨p', h1, h2, _, j, Nat.le_add_right _ _, ?_, h5, ?_⟩
  · exact Nat.add_le_add_left (interval_bound _ _ _ (by omega)) _
  · exact h6.imp (fun e => by rw [e]) id

/-! ### The VDFs for new peers -/

theorem history_handle {cfg : Cfg} {s : St} (w : World) (own : Bool) (m : Msg) (hk : m.kind ≠ .block) :
    ∀ x ∈ s.history, x ∈ (handle cfg w own m s).history := by
  have hb : ∀ (t : St) (a b d : Bool), (if (accept m.hash t).1 = true then
      broadcast cfg w m a b d (accept m.hash t).2 else (accept m.hash t).2).history = t.history := by
    intro t a b d
    by_cases h : (accept m.hash t).1 = true
    · rw [if_pos h, (frame_broadcast ..).history, accept_history]
    · rw [if_neg h, accept_history]
  intro x hx
  unfold handle
  cases hkk : m.kind with
  | block => exact absurd hkk hk
  | vdf =>
    show x ∈ (handleVdf cfg w own m s).history
    have h0 : (noteOurs own m s).history = s.history := by
      unfold noteOurs
      by_cases h : own = true
      · rw [if_pos h]
      · rw [if_neg h]
    unfold handleVdf
    dsimp only
    by_cases h : (own && decide (m.vdfHeight ≤ (noteOurs own m s).verifiedVdf)) = true
    · rw [if_pos h, h0]; exact hx
    rw [if_neg h]
    show x ∈ St.history (if _ then _ else _)
    by_cases h : (accept m.hash (noteOurs own m s)).1 = true
    · rw [if_pos h]
      show x ∈ St.history (broadcast ..) ++ _
      rw [(frame_broadcast ..).history, accept_history, h0]
      exact List.mem_append_left _ hx
    · rw [if_neg h, accept_history, h0]; exact hx
  | proof =>
    show x ∈ (handleProof cfg w own m s).history
    unfold handleProof
    dsimp only
    by_cases h : (!m.valid) = true
    · rw [if_pos h]; exact hx
    rw [if_neg h]
    by_cases h : (accept m.hash s).1 = true
    · rw [if_pos h]
      show x ∈ St.history (broadcast ..)
      rw [(frame_broadcast ..).history, accept_history]; exact hx
    · rw [if_neg h, accept_history]; exact hx
  | tx =>
    show x ∈ (handleTx cfg w own m s).history
    unfold handleTx
    dsimp only
    by_cases h' : own = true
    · rw [if_pos h', hb]; exact hx
    · rw [if_neg h']
      unfold relay
      by_cases h'' : cfg.doRelay = true
      · rw [if_pos h'', hb]; exact hx
      · rw [if_neg h'']
        have : (if (accept m.hash s).1 = true then (accept m.hash s).2 else (accept m.hash s).2) =
          (accept m.hash s).2 := ite_self _
        rw [this, accept_history]; exact hx
  | point =>
    show x ∈ St.history (handlePlain cfg w true m s)
    unfold handlePlain
    dsimp only
    rw [hb]; exact hx
  | vote =>
    show x ∈ St.history (handlePlain cfg w false m s)
    unfold handlePlain
    dsimp only
    rw [hb]; exact hx

theorem relay_history (cfg : Cfg) (w : World) (m : Msg) (a : Bool) (s : St) :
    (relay cfg w m a s).history = s.history := by
  unfold relay
  by_cases h : cfg.doRelay = true
  · rw [if_pos h]; exact (frame_broadcast ..).history
  · rw [if_neg h]

theorem receive_history (h : Hash) (c : Client) (s : St) :
    (receiveMsgHash h c s).2.history = s.history := by
  show (see h s).history = _
  exact (see_frame h s).2.1

theorem history_msg {cfg : Cfg} {s : St} (w : World) (c : Client) (m : Msg) :
    (onMsg cfg w c m s).history = s.history := by
  have hrec := receive_history m.hash c s
  have hplain : (onPlain c m s).history = s.history := by
    unfold onPlain
    dsimp only
    by_cases h : (!m.valid) = true
    · rw [if_pos h]; rfl
    · rw [if_neg h]
      by_cases h : (receiveMsgHash m.hash c s).1 = true
      · rw [if_pos h]; exact hrec
      · rw [if_neg h]; exact hrec
  unfold onMsg
  cases m.kind with
  | vdf =>
    show (onVdf cfg w c m s).history = _
    unfold onVdf
    dsimp only
    by_cases h : u32 (m.vdfHeight + cfg.commitDelay) < s.verifiedVdf
    · rw [if_pos h]
    · rw [if_neg h]
      by_cases h : (!m.valid) = true
      · rw [if_pos h]; rfl
      · rw [if_neg h]
        by_cases h : (!(receiveMsgHash m.hash c s).1) = true
        · rw [if_pos h]; exact hrec
        · rw [if_neg h]
          by_cases h : (!m.checked) = true
          · rw [if_pos h]; exact hrec
          · rw [if_neg h]
            show St.history (if _ then _ else _) = _
            by_cases h : (m.short && decide (0 < credit m.key (receiveMsgHash m.hash c s).2)) = true
            · rw [if_pos h]
              by_cases h : (relayMsgHash m.hash (receiveMsgHash m.hash c s).2).1 = true
              · rw [if_pos h, relay_history]
                show (relayMsgHash m.hash _).2.history = _
                rw [relayMsgHash_history]; exact hrec
              · rw [if_neg h, relayMsgHash_history]; exact hrec
            · rw [if_neg h]; exact hrec
  | block =>
    show (onBlock cfg w c m s).history = _
    unfold onBlock
    dsimp only
    by_cases h : u32 (m.height + cfg.commitDelay) < s.verifiedPeak
    · rw [if_pos h]
    · rw [if_neg h]
      by_cases h : (!m.valid) = true
      · rw [if_pos h]; rfl
      · rw [if_neg h]
        by_cases h : (!(receiveMsgHash m.hash c s).1) = true
        · rw [if_pos h]; exact hrec
        · rw [if_neg h]
          by_cases h : (!m.checked) = true
          · rw [if_pos h]; exact hrec
          · rw [if_neg h]
            show St.history (if _ then _ else _) = _
            by_cases h : (m.vdfHeight, m.key) ∈ (receiveMsgHash m.hash c s).2.farmers
            · rw [if_pos h]
              generalize hq : { (receiveMsgHash m.hash c s).2 with
                farmers := (receiveMsgHash m.hash c s).2.farmers.filter
                  (· != (m.vdfHeight, m.key)) } = q
              have hq' : q.history = s.history := by rw [← hq]; exact hrec
              by_cases h : (relayMsgHash m.hash q).1 = true
              · rw [if_pos h, relay_history]
                show (relayMsgHash m.hash _).2.history = _
                rw [relayMsgHash_history]; exact hq'
              · rw [if_neg h, relayMsgHash_history]; exact hq'
            · rw [if_neg h]; exact hrec
  | point =>
    show (onPoint c m s).history = _
    unfold onPoint
    dsimp only
    by_cases h : (s.peers.any (fun p => p.client == c && p.master) && m.valid) = true
    · rw [if_pos h]
      by_cases h : (receiveMsgHash m.hash c s).1 = true
      · rw [if_pos h]; exact hrec
      · rw [if_neg h]; exact hrec
    · rw [if_neg h]
  | vote => exact hplain
  | proof => exact hplain
  | tx => exact hplain

/-- The node did not hand over a block. -/
def noBlock : Op → Prop
  | .verified _ _ m => m.kind ≠ .block
  | _ => True

theorem history_step {cfg : Cfg} {s : St} (op : Op) (h : noBlock op) :
    ∀ x ∈ s.history, x ∈ (step cfg s op).history := by
  intro x hx
  cases op with
  | msg w c m =>
    show x ∈ (onMsg cfg w c m s).history
    rw [history_msg]; exact hx
  | verified w own m => exact history_handle w own m h x hx
  | _ => exact hx

theorem history_run {cfg : Cfg} (ops : List Op) (h : ∀ op ∈ ops, noBlock op) (s : St) :
    ∀ x ∈ s.history, x ∈ (ops.foldl (step cfg) s).history := by
  induction ops generalizing s with
  | nil => intro x hx; exact hx
  | cons o t ih =>
    intro x hx
    exact ih (fun y hy => h y (List.mem_cons_of_mem _ hy)) _ x
      (history_step o (h o List.mem_cons_self) x hx)

end Verif.Router
