/-
  Helper lemmas: what a Router remembers of each peer agrees with its log.
-/
import Verif.Router.Spec

namespace Verif.Router

/-- What `sent_hashes` decides on. -/
def Peer.core (p : Peer) : Client × List Hash × List Hash := (p.client, p.sent, p.queue)

theorem Many.mono {n : Nat} {l l' : List Hash} (h : Many n l) (hs : ∀ x ∈ l, x ∈ l') : Many n l' := by
  obtain ⟨d, h1, h2, h3⟩ := h
  exact ⟨d, h1, h2, fun x hx => hs x (h3 x hx)⟩

structure Fine (n : Nat) (log : List Event) (p : Peer) : Prop where
  same : ∀ h, h ∈ p.sent ↔ h ∈ p.queue
  nodup : p.queue.Nodup
  sub : ∀ h ∈ p.queue, h ∈ contacts p.client log
  all : ∀ h ∈ contacts p.client log, h ∈ p.sent ∨ Many n (contacts p.client log)

/-- Every `sent` of a log was to a peer not known to have the message. -/
def Good (n : Nat) : List Event → Prop
  | [] => True
  | .sent c h :: l => (h ∈ contacts c l → Many n (contacts c l)) ∧ Good n l
  | _ :: l => Good n l

structure Inv (n : Nat) (s : St) : Prop where
  nodup : (s.peers.map (·.client)).Nodup
  fine : ∀ p ∈ s.peers, Fine n s.log p
  good : Good n s.log

/-- Nothing changed that matters for what peers have. -/
structure Quiet (n : Nat) (s s' : St) : Prop where
  peers : s'.peers.map Peer.core = s.peers.map Peer.core
  log : ∀ c, contacts c s'.log = contacts c s.log
  good : Good n s.log → Good n s'.log

theorem Quiet.refl (n : Nat) (s : St) : Quiet n s s := ⟨rfl, fun _ => rfl, id⟩

theorem Quiet.trans {n : Nat} {a b c : St} (h : Quiet n a b) (h' : Quiet n b c) : Quiet n a c :=
  ⟨h'.peers.trans h.peers, fun x => (h'.log x).trans (h.log x), fun g => h'.good (h.good g)⟩

/-- The same peers and log. -/
theorem Quiet.of_eq {n : Nat} {s s' : St} (h : s'.peers = s.peers) (h' : s'.log = s.log) :
    Quiet n s s' := ⟨by rw [h], fun c => by rw [h'], fun g => by rw [h']; exact g⟩

theorem Fine.congr {n : Nat} {l l' : List Event} {p q : Peer} (h : Fine n l p)
    (hc : q.core = p.core) (hl : ∀ c, contacts c l' = contacts c l) : Fine n l' q := by
  have e1 : q.client = p.client := congrArg Prod.fst hc
  have e2 : q.sent = p.sent := congrArg (fun x => x.2.1) hc
  have e3 : q.queue = p.queue := congrArg (fun x => x.2.2) hc
  refine ⟨?_, ?_, ?_, ?_⟩
  · rw [e2, e3]; exact h.same
  · rw [e3]; exact h.nodup
  · rw [e1, e3, hl]; exact h.sub
  · rw [e1, e2, hl]; exact h.all

theorem clients_core (l : List Peer) : l.map (·.client) = (l.map Peer.core).map Prod.fst := by
  rw [List.map_map]; rfl

theorem Quiet.inv {n : Nat} {s s' : St} (q : Quiet n s s') (h : Inv n s) : Inv n s' := by
  refine ⟨?_, ?_, q.good h.good⟩
  · rw [clients_core, q.peers, ← clients_core]; exact h.nodup
  · intro p hp
    have : p.core ∈ s.peers.map Peer.core := by rw [← q.peers]; exact List.mem_map_of_mem hp
    obtain ⟨r, hr, hc⟩ := List.mem_map.1 this
    exact (h.fine r hr).congr hc.symm q.log

theorem quiet_emit (n : Nat) (s : St) (e : Event) (h1 : ∀ c l, contacts c (e :: l) = contacts c l)
    (h2 : ∀ l, Good n l → Good n (e :: l)) : Quiet n s (emit e s) :=
  ⟨rfl, fun c => h1 c s.log, h2 s.log⟩

theorem map_modify (c : Client) (f : Peer → Peer) (hf : ∀ p, (f p).core = p.core) (l : List Peer) :
    (l.map fun p => if p.client = c then f p else p).map Peer.core = l.map Peer.core := by
  rw [List.map_map]
  apply List.map_congr_left
  intro p _
  show Peer.core (if p.client = c then f p else p) = p.core
  by_cases h : p.client = c
  · rw [if_pos h]; exact hf p
  · rw [if_neg h]

theorem quiet_modify (n : Nat) (s : St) (c : Client) (f : Peer → Peer)
    (hf : ∀ p, (f p).core = p.core) : Quiet n s (modify c f s) :=
  ⟨map_modify c f hf s.peers, fun _ => rfl, id⟩

theorem quiet_notes (n : Nat) (h : Hash) (ps : List Peer) (l : List Event) :
    (∀ c, contacts c (notes h ps ++ l) = contacts c l) ∧ (Good n l → Good n (notes h ps ++ l)) := by
  unfold notes
  induction ps.filter (·.isValid) with
  | nil => exact ⟨fun _ => rfl, id⟩
  | cons p t ih => exact ⟨fun c => ih.1 c, fun g => ih.2 g⟩

theorem quiet_recvNotify (n : Nat) (h : Hash) (s : St) : Quiet n s (recvNotify h s) :=
  ⟨rfl, (quiet_notes n h s.peers s.log).1, (quiet_notes n h s.peers s.log).2⟩

theorem quiet_note (n : Nat) (h : Hash) (s : St) : Quiet n s (note h s) :=
  (quiet_recvNotify n h s).trans (Quiet.of_eq rfl rfl)

theorem quiet_see (n : Nat) (h : Hash) (s : St) : Quiet n s (see h s) := by
  unfold see
  by_cases e : knows h s = true
  · rw [if_pos e]; exact Quiet.refl n s
  · rw [if_neg e]; exact quiet_note n h s

theorem quiet_relayMsgHash (n : Nat) (h : Hash) (s : St) : Quiet n s (relayMsgHash h s).2 := by
  unfold relayMsgHash
  dsimp only
  by_cases e : didRelay h (see h s) = true
  · rw [if_pos e]; exact quiet_see n h s
  · rw [if_neg e]; exact (quiet_see n h s).trans (Quiet.of_eq rfl rfl)

theorem quiet_schedule (n now iv : Nat) (i : Item) (cs : List Client) :
    ∀ (k : Nat) (s : St), Quiet n s (schedule now iv i k cs s) := by
  induction cs with
  | nil => intro k s; exact Quiet.refl n s
  | cons c cs ih =>
    intro k s
    exact Quiet.trans (quiet_modify n s c
      (fun p => { p with out := emplace (now + iv * k) i p.out }) (fun _ => rfl)) (ih (k + 1) _)

theorem quiet_broadcast (n : Nat) (cfg : Cfg) (w : World) (m : Msg) (a b d : Bool) (s : St) :
    Quiet n s (broadcast cfg w m a b d s) :=
  (quiet_emit n s (.bcast m.hash) (fun _ _ => rfl) (fun _ g => g)).trans (quiet_schedule ..)

theorem quiet_relay (n : Nat) (cfg : Cfg) (w : World) (m : Msg) (a : Bool) (s : St) :
    Quiet n s (relay cfg w m a s) := by
  unfold relay
  by_cases h : cfg.doRelay = true
  · rw [if_pos h]; exact quiet_broadcast ..
  · rw [if_neg h]; exact Quiet.refl n s

theorem quiet_disconnect (n : Nat) (c : Client) (s : St) : Quiet n s (disconnect c s) :=
  (quiet_modify n s c (fun p => { p with isValid := false }) (fun _ => rfl)).trans
    (quiet_emit n _ (.banned c) (fun _ _ => rfl) (fun _ g => g))

/-! ### A peer comes to have a message -/

theorem learn_client (h : Hash) (p : Peer) : (p.learn h).client = p.client := by
  unfold Peer.learn
  by_cases e : h ∈ p.sent
  · rw [if_pos e]
  · rw [if_neg e]

theorem mem_learn (h : Hash) (p : Peer) : h ∈ (p.learn h).sent := by
  unfold Peer.learn
  by_cases e : h ∈ p.sent
  · rw [if_pos e]; exact e
  · rw [if_neg e]; exact List.mem_cons_self

theorem sub_learn (h : Hash) (p : Peer) {x : Hash} (hx : x ∈ p.sent) : x ∈ (p.learn h).sent := by
  unfold Peer.learn
  by_cases e : h ∈ p.sent
  · rw [if_pos e]; exact hx
  · rw [if_neg e]; exact List.mem_cons_of_mem _ hx

theorem Fine.learn {n : Nat} {l l' : List Event} {p : Peer} {h : Hash} (f : Fine n l p)
    (hl : contacts p.client l' = h :: contacts p.client l) : Fine n l' (p.learn h) := by
  have hall : ∀ x ∈ contacts p.client l', x ∈ (p.learn h).sent ∨ Many n (contacts p.client l') := by
    intro x hx
    rw [hl] at hx ⊢
    rcases List.mem_cons.1 hx with e | hx
    · exact Or.inl (e ▸ mem_learn h p)
    · rcases f.all x hx with h1 | h1
      · exact Or.inl (sub_learn h p h1)
      · exact Or.inr (h1.mono fun y hy => List.mem_cons_of_mem _ hy)
  refine ⟨?_, ?_, ?_, ?_⟩
  · unfold Peer.learn
    by_cases e : h ∈ p.sent
    · rw [if_pos e]; exact f.same
    · rw [if_neg e]
      intro x
      simp only [List.mem_cons, List.mem_append, List.not_mem_nil, or_false]
      rw [f.same x]
      exact Or.comm
  · unfold Peer.learn
    by_cases e : h ∈ p.sent
    · rw [if_pos e]; exact f.nodup
    · rw [if_neg e]
      refine List.nodup_append.2 ⟨f.nodup, List.pairwise_singleton .., ?_⟩
      intro a ha b hb hab
      rw [List.mem_singleton] at hb
      exact e ((f.same h).2 (hb ▸ hab ▸ ha))
  · rw [learn_client, hl]
    unfold Peer.learn
    by_cases e : h ∈ p.sent
    · rw [if_pos e]; exact fun x hx => List.mem_cons_of_mem _ (f.sub x hx)
    · rw [if_neg e]
      intro x hx
      rcases List.mem_append.1 hx with hx | hx
      · exact List.mem_cons_of_mem _ (f.sub x hx)
      · rw [List.mem_singleton.1 hx]; exact List.mem_cons_self
  · rw [learn_client]; exact hall

theorem Fine.other {n : Nat} {l l' : List Event} {p : Peer} (f : Fine n l p)
    (hl : contacts p.client l' = contacts p.client l) : Fine n l' p :=
  ⟨f.same, f.nodup, by rw [hl]; exact f.sub, by rw [hl]; exact f.all⟩

/-- A message or a receive note from a peer. -/
theorem inv_heard {n : Nat} {s : St} (i : Inv n s) (c : Client) (h : Hash) (e : Event)
    (he : ∀ c' l, contacts c' (e :: l) = if c = c' then h :: contacts c' l else contacts c' l)
    (hg : ∀ l, Good n l → Good n (e :: l)) :
    Inv n (emit e (modify c (Peer.learn h) s)) := by
  refine ⟨?_, ?_, hg _ i.good⟩
  · have : ∀ l : List Peer, (l.map fun p => if p.client = c then p.learn h else p).map (·.client)
        = l.map (·.client) := by
      intro l
      rw [List.map_map]
      apply List.map_congr_left
      intro p _
      show Peer.client (if p.client = c then p.learn h else p) = p.client
      by_cases e : p.client = c
      · rw [if_pos e]; exact learn_client h p
      · rw [if_neg e]
    show ((s.peers.map fun p => if p.client = c then p.learn h else p).map (·.client)).Nodup
    rw [this]; exact i.nodup
  · intro p hp
    obtain ⟨q, hq, rfl⟩ := List.mem_map.1 hp
    show Fine n (e :: s.log) (if q.client = c then q.learn h else q)
    by_cases ec : q.client = c
    · rw [if_pos ec]
      exact (i.fine q hq).learn (by rw [he, if_pos ec.symm])
    · rw [if_neg ec]
      exact (i.fine q hq).other (by rw [he, if_neg (Ne.symm ec)])

theorem inv_receive {n : Nat} {s : St} (i : Inv n s) (h : Hash) (c : Client) :
    Inv n (receiveMsgHash h c s).2 :=
  inv_heard ((quiet_see n h s).inv i) c h (.recv c h) (fun _ _ => rfl) (fun _ g => g)

theorem inv_note {n : Nat} {s : St} (i : Inv n s) (h : Hash) (c : Client) :
    Inv n (onNote c h s) :=
  inv_heard i c h (.noted c h) (fun _ _ => rfl) (fun _ g => g)

/-! ### The messages that are due -/

theorem sendItems_inv (w : World) {n : Nat} {l : List Event} (items : List (Nat × Item)) :
    ∀ (p : Peer) (ev : List Event), Fine n (ev ++ l) p → Good n (ev ++ l) →
      (∀ c, c ≠ p.client → contacts c (ev ++ l) = contacts c l) →
      Fine n ((sendItems w items (p, ev)).2 ++ l) (sendItems w items (p, ev)).1 ∧
      Good n ((sendItems w items (p, ev)).2 ++ l) ∧
      (sendItems w items (p, ev)).1.client = p.client ∧
      (∀ c, c ≠ p.client → contacts c ((sendItems w items (p, ev)).2 ++ l) = contacts c l) := by
  induction items with
  | nil => intro p ev f g o; exact ⟨f, g, rfl, o⟩
  | cons x t ih =>
    obtain ⟨k, i⟩ := x
    intro p ev f g o
    unfold sendItems
    by_cases h1 : i.hash ∈ p.sent
    · rw [if_pos h1]; exact ih p ev f g o
    · rw [if_neg h1]
      by_cases h2 : (p.isValid && w.takes p.client i) = true
      · rw [if_pos h2]
        have hc : contacts p.client ((Event.sent p.client i.hash :: ev) ++ l) =
            i.hash :: contacts p.client (ev ++ l) := by
          exact if_pos rfl
        have f' : Fine n ((Event.sent p.client i.hash :: ev) ++ l) (p.learn i.hash) := f.learn hc
        have g' : Good n ((Event.sent p.client i.hash :: ev) ++ l) := by
          refine ⟨fun hm => ?_, g⟩
          rcases f.all _ hm with h | h
          · exact absurd h h1
          · exact h
        have := ih (p.learn i.hash) (.sent p.client i.hash :: ev) f' g' (by
          intro c hne
          rw [learn_client] at hne
          show (if p.client = c then _ else _) = _
          rw [if_neg (Ne.symm hne)]
          exact o c hne)
        rw [learn_client] at this
        exact this
      · rw [if_neg h2]; exact ih p ev f g o

theorem sendPeers_inv (w : World) {n : Nat} (ps : List Peer) :
    ∀ (l : List Event), (ps.map (·.client)).Nodup → (∀ p ∈ ps, Fine n l p) → Good n l →
      (∀ p ∈ (sendPeers w ps).1, Fine n ((sendPeers w ps).2 ++ l) p) ∧
      Good n ((sendPeers w ps).2 ++ l) ∧
      (sendPeers w ps).1.map (·.client) = ps.map (·.client) ∧
      (∀ c, c ∉ ps.map (·.client) → contacts c ((sendPeers w ps).2 ++ l) = contacts c l) := by
  induction ps with
  | nil => intro l _ f g; exact ⟨f, g, rfl, fun _ _ => rfl⟩
  | cons p ps ih =>
    intro l nd f g
    have fp := f p List.mem_cons_self
    have r := sendItems_inv w (p.out.takeWhile fun x => x.1 < w.now)
      { p with out := p.out.dropWhile fun x => x.1 < w.now } [] (n := n) (l := l)
      (fp.congr rfl (fun _ => rfl)) g (fun _ _ => rfl)
    have e : sendItems w (p.out.takeWhile fun x => x.1 < w.now)
      ({ p with out := p.out.dropWhile fun x => x.1 < w.now }, []) = sendPeer w p := rfl
    rw [e] at r
    obtain ⟨r1, r2, r3, r4⟩ := r
    dsimp only at r3 r4
    have nd' := List.nodup_cons.1 nd
    have fs : ∀ q ∈ ps, Fine n ((sendPeer w p).2 ++ l) q := by
      intro q hq
      refine (f q (List.mem_cons_of_mem _ hq)).other (r4 _ ?_)
      intro hc
      exact nd'.1 (List.mem_map.2 ⟨q, hq, hc⟩)
    obtain ⟨i1, i2, i3, i4⟩ := ih ((sendPeer w p).2 ++ l) nd'.2 fs r2
    have hlog : (sendPeers w (p :: ps)).2 ++ l = (sendPeers w ps).2 ++ ((sendPeer w p).2 ++ l) := by
      show ((sendPeers w ps).2 ++ (sendPeer w p).2) ++ l = _
      rw [List.append_assoc]
    rw [hlog]
    refine ⟨?_, i2, ?_, ?_⟩
    · intro q hq
      rcases List.mem_cons.1 (show q ∈ (sendPeer w p).1 :: (sendPeers w ps).1 from hq) with e | hq
      · rw [e]
        refine r1.other (i4 _ ?_)
        rw [r3]; exact nd'.1
      · exact i1 q hq
    · show (sendPeer w p).1.client :: (sendPeers w ps).1.map (·.client) = p.client :: _
      rw [r3, i3]
    · intro c hc
      rw [List.map_cons, List.mem_cons, not_or] at hc
      rw [i4 c hc.2, r4 c hc.1]

theorem inv_send {n : Nat} {s : St} (i : Inv n s) (w : World) : Inv n (send w s) := by
  obtain ⟨h1, h2, h3, _⟩ := sendPeers_inv w s.peers s.log i.nodup i.fine i.good
  exact ⟨by show ((sendPeers w s.peers).1.map (·.client)).Nodup; rw [h3]; exact i.nodup, h1, h2⟩

/-! ### Old hashes go -/

theorem evict_fine {n : Nat} {l : List Event} (p : Peer) :
    ∀ (q sent : List Hash), Fine n l { p with queue := q, sent := sent } →
      Fine n l { p with queue := (evict n q sent).1, sent := (evict n q sent).2 } := by
  intro q
  induction q with
  | nil => intro sent f; exact f
  | cons h t ih =>
    intro sent f
    unfold evict
    by_cases hl : n < (h :: t).length
    · rw [if_pos hl]
      apply ih
      have many : Many n (contacts p.client l) := ⟨h :: t, f.nodup, hl, f.sub⟩
      have nd := List.nodup_cons.1 f.nodup
      refine ⟨?_, nd.2, fun x hx => f.sub x (List.mem_cons_of_mem _ hx), fun x _ => Or.inr many⟩
      intro x
      have := f.same x
      dsimp only at this ⊢
      rw [List.mem_filter, this, List.mem_cons]
      constructor
      · rintro ⟨h1 | h1, h2⟩
        · exact absurd h1 (by simpa using h2)
        · exact h1
      · intro hx
        refine ⟨Or.inr hx, ?_⟩
        have : x ≠ h := fun e => nd.1 (e ▸ hx)
        simpa using this
    · rw [if_neg hl]; exact f

theorem inv_update {s : St} {cfg : Cfg} (i : Inv cfg.maxSent s) : Inv cfg.maxSent (update cfg s) := by
  refine ⟨?_, ?_, i.good⟩
  · show ((s.peers.map (Peer.evict cfg.maxSent)).map (·.client)).Nodup
    rw [List.map_map]; exact i.nodup
  · intro p hp
    obtain ⟨q, hq, rfl⟩ := List.mem_map.1 hp
    exact evict_fine q q.queue q.sent (i.fine q hq)

/-! ### Connections -/

theorem quiet_greet (n : Nat) (c : Client) (l : List (Nat × Msg)) (log : List Event) :
    (∀ x, contacts x (greet c l ++ log) = contacts x log) ∧ (Good n log → Good n (greet c l ++ log)) := by
  unfold greet
  rw [← List.map_reverse]
  induction l.reverse with
  | nil => exact ⟨fun _ => rfl, id⟩
  | cons p t ih => exact ⟨fun c => ih.1 c, fun g => ih.2 g⟩

theorem nodup_filter (l : List Peer) (f : Peer → Bool) (h : (l.map (·.client)).Nodup) :
    ((l.filter f).map (·.client)).Nodup :=
  h.sublist ((List.filter_sublist).map _)

theorem inv_connect {n : Nat} {s : St} (i : Inv n s) (c : Client) (b : Bool) :
    Inv n (connect c b s) := by
  have hcl : ∀ x, contacts x (greet c s.history ++ .conn c :: s.log) =
      if c = x then [] else contacts x s.log := fun x =>
    (quiet_greet n c s.history (.conn c :: s.log)).1 x
  refine ⟨?_, ?_, (quiet_greet n c s.history (.conn c :: s.log)).2 i.good⟩
  · show (c :: (s.peers.filter (·.client != c)).map (·.client)).Nodup
    refine List.nodup_cons.2 ⟨?_, nodup_filter _ _ i.nodup⟩
    intro hm
    obtain ⟨p, hp, e⟩ := List.mem_map.1 hm
    have := (List.mem_filter.1 hp).2
    rw [e] at this
    simp at this
  · intro p hp
    rcases List.mem_cons.1 (show p ∈ { client := c, master := b } :: s.peers.filter (·.client != c)
      from hp) with e | hp
    · subst e
      refine ⟨fun _ => Iff.rfl, List.nodup_nil, fun h hh => (nomatch hh), ?_⟩
      intro h hh
      show h ∈ [] ∨ _
      have : contacts c (connect c b s).log = [] := by
        show contacts c (greet c s.history ++ .conn c :: s.log) = []
        rw [hcl, if_pos rfl]
      rw [show (Peer.client { client := c, master := b }) = c from rfl, this] at hh
      nomatch hh
    · have hm := List.mem_filter.1 hp
      refine (i.fine p hm.1).other ?_
      show contacts p.client (greet c s.history ++ .conn c :: s.log) = _
      rw [hcl, if_neg]
      intro e
      have := hm.2
      rw [e] at this
      simp at this

theorem inv_gone {n : Nat} {s : St} (i : Inv n s) (c : Client) : Inv n (gone c s) :=
  ⟨nodup_filter _ _ i.nodup, fun p hp => i.fine p (List.mem_filter.1 hp).1, i.good⟩

/-! ### The callbacks -/

theorem quiet_accept (n : Nat) (h : Hash) (s : St) : Quiet n s (accept h s).2 :=
  (quiet_emit n s (.handled h) (fun _ _ => rfl) (fun _ g => g)).trans (quiet_relayMsgHash n h _)

theorem quiet_handle (n : Nat) (cfg : Cfg) (w : World) (own : Bool) (m : Msg) (s : St) :
    Quiet n s (handle cfg w own m s) := by
  unfold handle
  have hr := quiet_accept n m.hash s
  have hplain : ∀ b, Quiet n s (handlePlain cfg w b m s) := by
    intro b
    unfold handlePlain
    dsimp only
    by_cases h : (accept m.hash s).1 = true
    · rw [if_pos h]; exact hr.trans (quiet_broadcast ..)
    · rw [if_neg h]; exact hr
  cases m.kind with
  | block =>
    show Quiet n s (handleBlock cfg w m s)
    unfold handleBlock
    dsimp only
    by_cases h : (accept m.hash s).1 = true
    · simp only [h, if_true]; exact (hr.trans (quiet_broadcast ..)).trans (Quiet.of_eq rfl rfl)
    · simp only [h]; exact hr.trans (Quiet.of_eq rfl rfl)
  | vdf =>
    show Quiet n s (handleVdf cfg w own m s)
    have h0 : Quiet n s (noteOurs own m s) := by
      unfold noteOurs
      by_cases h : own = true
      · rw [if_pos h]; exact Quiet.of_eq rfl rfl
      · rw [if_neg h]; exact Quiet.refl n s
    unfold handleVdf
    dsimp only
    by_cases h : (own && decide (m.vdfHeight ≤ (noteOurs own m s).verifiedVdf)) = true
    · rw [if_pos h]; exact h0
    · rw [if_neg h]
      refine h0.trans ?_
      have hr := quiet_accept n m.hash (noteOurs own m s)
      have fin : ∀ t : St, Quiet n t
          { emit (.earned m) (setCredit m.key 1 t) with
            verifiedVdf := max (emit (.earned m) (setCredit m.key 1 t)).verifiedVdf m.vdfHeight } := by
        intro t
        have h1 : Quiet n t (setCredit m.key 1 t) := Quiet.of_eq rfl rfl
        exact (h1.trans (quiet_emit n _ (.earned m) (fun _ _ => rfl) (fun _ g => g))).trans
          (Quiet.of_eq rfl rfl)
      refine Quiet.trans ?_ (fin _)
      by_cases h : (accept m.hash (noteOurs own m s)).1 = true
      · rw [if_pos h]; exact (hr.trans (quiet_broadcast ..)).trans (Quiet.of_eq rfl rfl)
      · rw [if_neg h]; exact hr
  | proof =>
    show Quiet n s (handleProof cfg w own m s)
    unfold handleProof
    dsimp only
    by_cases h : (!m.valid) = true
    · rw [if_pos h]; exact Quiet.refl n s
    · rw [if_neg h]
      by_cases h : (accept m.hash s).1 = true
      · rw [if_pos h]
        refine Quiet.trans ?_ (quiet_emit n _ (.earned m) (fun _ _ => rfl) (fun _ g => g))
        exact (hr.trans (quiet_broadcast ..)).trans (Quiet.of_eq rfl rfl)
      · rw [if_neg h]; exact hr
  | tx =>
    show Quiet n s (handleTx cfg w own m s)
    unfold handleTx
    dsimp only
    by_cases h : (accept m.hash s).1 = true
    · rw [if_pos h]
      by_cases h : own = true
      · rw [if_pos h]; exact hr.trans (quiet_broadcast ..)
      · rw [if_neg h]; exact hr.trans (quiet_relay ..)
    · rw [if_neg h]; exact hr
  | point => exact hplain true
  | vote => exact hplain false

theorem inv_msg {n : Nat} {s : St} (i : Inv n s) (cfg : Cfg) (w : World) (c : Client) (m : Msg) :
    Inv n (onMsg cfg w c m s) := by
  have hrec := inv_receive i m.hash c
  have hpub : ∀ t, Inv n t → Inv n (emit (.publish m) t) := fun t ht =>
    (quiet_emit n t (.publish m) (fun _ _ => rfl) (fun _ g => g)).inv ht
  have hdis : ∀ t, Inv n t → Inv n (disconnect c t) := fun t ht => (quiet_disconnect n c t).inv ht
  have hplain : Inv n (onPlain c m s) := by
    unfold onPlain
    dsimp only
    by_cases h : (!m.valid) = true
    · rw [if_pos h]; exact hdis s i
    · rw [if_neg h]
      by_cases h : (receiveMsgHash m.hash c s).1 = true
      · rw [if_pos h]; exact hpub _ hrec
      · rw [if_neg h]; exact hrec
  have hrel : ∀ t : St, Quiet n t (if (relayMsgHash m.hash t).1 = true then
      relay cfg w m true (emit (.early m) (relayMsgHash m.hash t).2) else (relayMsgHash m.hash t).2) := by
    intro t
    have hr := quiet_relayMsgHash n m.hash t
    by_cases h : (relayMsgHash m.hash t).1 = true
    · rw [if_pos h]
      exact (hr.trans (quiet_emit n _ (.early m) (fun _ _ => rfl) (fun _ g => g))).trans
        (quiet_relay ..)
    · rw [if_neg h]; exact hr
  unfold onMsg
  cases m.kind with
  | vdf =>
    show Inv n (onVdf cfg w c m s)
    unfold onVdf
    dsimp only
    by_cases h : u32 (m.vdfHeight + cfg.commitDelay) < s.verifiedVdf
    · rw [if_pos h]; exact i
    · rw [if_neg h]
      by_cases h : (!m.valid) = true
      · rw [if_pos h]; exact hdis s i
      · rw [if_neg h]
        by_cases h : (!(receiveMsgHash m.hash c s).1) = true
        · rw [if_pos h]; exact hrec
        · rw [if_neg h]
          by_cases h : (!m.checked) = true
          · rw [if_pos h]; exact hdis _ hrec
          · rw [if_neg h]
            apply hpub
            by_cases h : (m.short && decide (0 < credit m.key (receiveMsgHash m.hash c s).2)) = true
            · rw [if_pos h]
              refine Quiet.inv ?_ hrec
              have hr := quiet_relayMsgHash n m.hash (receiveMsgHash m.hash c s).2
              by_cases h : (relayMsgHash m.hash (receiveMsgHash m.hash c s).2).1 = true
              · rw [if_pos h]
                have h1 := hr.trans (Quiet.of_eq (n := n)
                  (s' := setCredit m.key (credit m.key
                    (relayMsgHash m.hash (receiveMsgHash m.hash c s).2).2 - 1)
                    (relayMsgHash m.hash (receiveMsgHash m.hash c s).2).2) rfl rfl)
                exact (h1.trans (quiet_emit n _ (.early m) (fun _ _ => rfl) (fun _ g => g))).trans
                  (quiet_relay ..)
              · rw [if_neg h]; exact hr
            · rw [if_neg h]; exact hrec
  | block =>
    show Inv n (onBlock cfg w c m s)
    unfold onBlock
    dsimp only
    by_cases h : u32 (m.height + cfg.commitDelay) < s.verifiedPeak
    · rw [if_pos h]; exact i
    · rw [if_neg h]
      by_cases h : (!m.valid) = true
      · rw [if_pos h]; exact hdis s i
      · rw [if_neg h]
        by_cases h : (!(receiveMsgHash m.hash c s).1) = true
        · rw [if_pos h]; exact hrec
        · rw [if_neg h]
          by_cases h : (!m.checked) = true
          · rw [if_pos h]; exact hdis _ hrec
          · rw [if_neg h]
            apply hpub
            by_cases h : (m.vdfHeight, m.key) ∈ (receiveMsgHash m.hash c s).2.farmers
            · rw [if_pos h]
              refine Quiet.inv ?_ hrec
              have h1 : Quiet n (receiveMsgHash m.hash c s).2
                { (receiveMsgHash m.hash c s).2 with
                  farmers := (receiveMsgHash m.hash c s).2.farmers.filter (· != (m.vdfHeight, m.key)) } :=
                Quiet.of_eq rfl rfl
              exact h1.trans (hrel _)
            · rw [if_neg h]; exact hrec
  | point =>
    show Inv n (onPoint c m s)
    unfold onPoint
    dsimp only
    by_cases h : (s.peers.any (fun p => p.client == c && p.master) && m.valid) = true
    · rw [if_pos h]
      by_cases h : (receiveMsgHash m.hash c s).1 = true
      · rw [if_pos h]; exact hpub _ hrec
      · rw [if_neg h]; exact hrec
    · rw [if_neg h]; exact i
  | vote => exact hplain
  | proof => exact hplain
  | tx => exact hplain

theorem inv_step {cfg : Cfg} {s : St} (i : Inv cfg.maxSent s) (op : Op) :
    Inv cfg.maxSent (step cfg s op) := by
  cases op with
  | msg w c m => exact inv_msg i cfg w c m
  | note c h => exact inv_note i h c
  | verified w own m =>
    exact (quiet_handle cfg.maxSent cfg w own m s).inv i
  | send w => exact inv_send i w
  | update => exact inv_update i
  | connect c b => exact inv_connect i c b
  | drop c => exact (quiet_disconnect _ c s).inv i
  | gone c => exact inv_gone i c
  | state c a b =>
    exact (quiet_modify _ s c (fun p => { p with isSynced := a, light := b }) (fun _ => rfl)).inv i

theorem inv_init (n : Nat) : Inv n init :=
  ⟨List.nodup_nil, fun _ h => (nomatch h), trivial⟩

theorem inv_run (cfg : Cfg) (ops : List Op) : Inv cfg.maxSent (run cfg ops) := by
  unfold run
  have : ∀ (ops : List Op) (s : St), Inv cfg.maxSent s →
      Inv cfg.maxSent (ops.foldl (step cfg) s) := by
    intro ops
    induction ops with
    | nil => intro s h; exact h
    | cons o t ih => intro s h; exact ih _ (inv_step h o)
  exact this ops init (inv_init _)

theorem good_split {n : Nat} {l1 l2 : List Event} {c : Client} {h : Hash} :
    Good n (l1 ++ .sent c h :: l2) → h ∈ contacts c l2 → Many n (contacts c l2) := by
  induction l1 with
  | nil => intro g; exact g.1
  | cons e t ih =>
    intro g
    apply ih
    cases e <;> first | exact g | exact g.2

end Verif.Router
