/-
  Helper lemmas: what a Router remembers of the messages it met agrees with its log.
-/
import Verif.Router.Peers

namespace Verif.Router

/-- Every `bcast` and `publish` of a log is the first for its message, unless many were met. -/
def Good2 (n : Nat) : List Event → Prop
  | [] => True
  | .bcast h :: l => (.bcast h ∈ l → Many n (met l)) ∧ Good2 n l
  | .publish m :: l => ((∃ m', .publish m' ∈ l ∧ m'.hash = m.hash) → Many n (met l)) ∧ Good2 n l
  | _ :: l => Good2 n l

structure GInv (n : Nat) (s : St) : Prop where
  nodup : s.seen.Nodup
  same : ∀ h, knows h s = true ↔ h ∈ s.seen
  sub : ∀ h ∈ s.seen, h ∈ met s.log
  all : ∀ h ∈ met s.log, knows h s = true ∨ Many n (met s.log)
  did : ∀ h, .bcast h ∈ s.log → didRelay h s = true ∨ Many n (met s.log)
  pub : ∀ m, .publish m ∈ s.log → m.hash ∈ met s.log
  good : Good2 n s.log

/-- Events that say nothing about messages met. -/
def dull : Event → Bool
  | .conn _ | .noted .. | .sent .. | .told .. | .hello .. | .early _ | .earned _ | .banned _ => true
  | _ => false

theorem met_dull {e : Event} (h : dull e = true) (l : List Event) : met (e :: l) = met l := by
  cases e <;> first | rfl | exact absurd h (by simp [dull])

theorem good_dull {n : Nat} {e : Event} (h : dull e = true) {l : List Event} (g : Good2 n l) :
    Good2 n (e :: l) := by
  cases e <;> first | exact g | exact absurd h (by simp [dull])

theorem met_dulls {ev : List Event} (h : ∀ e ∈ ev, dull e = true) (l : List Event) :
    met (ev ++ l) = met l := by
  induction ev with
  | nil => rfl
  | cons e t ih =>
    rw [List.cons_append, met_dull (h e List.mem_cons_self)]
    exact ih fun x hx => h x (List.mem_cons_of_mem _ hx)

theorem good_dulls {n : Nat} {ev : List Event} (h : ∀ e ∈ ev, dull e = true) {l : List Event}
    (g : Good2 n l) : Good2 n (ev ++ l) := by
  induction ev with
  | nil => exact g
  | cons e t ih =>
    exact good_dull (h e List.mem_cons_self) (ih fun x hx => h x (List.mem_cons_of_mem _ hx))

theorem mem_dulls {ev : List Event} (h : ∀ e ∈ ev, dull e = true) {l : List Event} {x : Event}
    (hx : dull x = false) (hm : x ∈ ev ++ l) : x ∈ l := by
  rcases List.mem_append.1 hm with h1 | h1
  · rw [h x h1] at hx; cases hx
  · exact h1

/-- The memory is the same and only dull events were added. -/
structure Calm (s s' : St) : Prop where
  info : s'.info = s.info
  seen : s'.seen = s.seen
  log : ∃ ev, s'.log = ev ++ s.log ∧ ∀ e ∈ ev, dull e = true

theorem Calm.refl (s : St) : Calm s s := ⟨rfl, rfl, [], rfl, fun _ h => (nomatch h)⟩

theorem Calm.of_eq {s s' : St} (h1 : s'.info = s.info) (h2 : s'.seen = s.seen)
    (h3 : s'.log = s.log) : Calm s s' := ⟨h1, h2, [], h3, fun _ h => (nomatch h)⟩

theorem Calm.trans {a b c : St} (h : Calm a b) (h' : Calm b c) : Calm a c := by
  obtain ⟨e1, h1, d1⟩ := h.log
  obtain ⟨e2, h2, d2⟩ := h'.log
  refine ⟨h'.info.trans h.info, h'.seen.trans h.seen, e2 ++ e1, by rw [h2, h1, List.append_assoc], ?_⟩
  intro e he
  rcases List.mem_append.1 he with x | x
  · exact d2 e x
  · exact d1 e x

theorem Calm.emit (s : St) {e : Event} (h : dull e = true) : Calm s (Router.emit e s) :=
  ⟨rfl, rfl, [e], rfl, fun x hx => by rw [List.mem_singleton.1 hx]; exact h⟩

theorem Calm.met {s s' : St} (h : Calm s s') : Router.met s'.log = Router.met s.log := by
  obtain ⟨ev, h1, h2⟩ := h.log
  rw [h1, met_dulls h2]

theorem Calm.mem {s s' : St} (h : Calm s s') {e : Event} (he : dull e = false) (hm : e ∈ s'.log) :
    e ∈ s.log := by
  obtain ⟨ev, h1, h2⟩ := h.log
  rw [h1] at hm
  exact mem_dulls h2 he hm

theorem Calm.knows {s s' : St} (h : Calm s s') (x : Hash) : Router.knows x s' = Router.knows x s := by
  unfold Router.knows; rw [h.info]

theorem Calm.didRelay {s s' : St} (h : Calm s s') (x : Hash) :
    Router.didRelay x s' = Router.didRelay x s := by
  unfold Router.didRelay; rw [h.info]

theorem Calm.inv {n : Nat} {s s' : St} (c : Calm s s') (i : GInv n s) : GInv n s' := by
  refine ⟨?_, ?_, ?_, ?_, ?_, ?_, ?_⟩
  · rw [c.seen]; exact i.nodup
  · intro h; rw [c.knows, c.seen]; exact i.same h
  · rw [c.seen, c.met]; exact i.sub
  · intro h hh; rw [c.met] at hh ⊢; rw [c.knows]; exact i.all h hh
  · intro h hh; rw [c.met, c.didRelay]; exact i.did h (c.mem rfl hh)
  · intro m hm; rw [c.met]; exact i.pub m (c.mem rfl hm)
  · obtain ⟨ev, h1, h2⟩ := c.log
    rw [h1]; exact good_dulls h2 i.good

theorem calm_modify (c : Client) (f : Peer → Peer) (s : St) : Calm s (modify c f s) :=
  Calm.of_eq rfl rfl rfl

theorem calm_disconnect (c : Client) (s : St) : Calm s (disconnect c s) :=
  (calm_modify c _ s).trans (Calm.emit _ rfl)

theorem calm_schedule (now iv : Nat) (i : Item) (cs : List Client) :
    ∀ (k : Nat) (s : St), Calm s (schedule now iv i k cs s) := by
  induction cs with
  | nil => intro k s; exact Calm.refl s
  | cons c cs ih => intro k s; exact Calm.trans (calm_modify c _ s) (ih (k + 1) _)

theorem calm_notes (h : Hash) (ps : List Peer) : ∀ e ∈ notes h ps, dull e = true := by
  intro e he
  obtain ⟨p, _, rfl⟩ := List.mem_map.1 he
  rfl

theorem calm_recvNotify (h : Hash) (s : St) : Calm s (recvNotify h s) :=
  ⟨rfl, rfl, notes h s.peers, rfl, calm_notes h s.peers⟩

theorem sendItems_dull (w : World) (items : List (Nat × Item)) :
    ∀ (p : Peer) (ev : List Event), (∀ e ∈ ev, dull e = true) →
      ∀ e ∈ (sendItems w items (p, ev)).2, dull e = true := by
  induction items with
  | nil => intro p ev h; exact h
  | cons x t ih =>
    obtain ⟨k, i⟩ := x
    intro p ev h
    unfold sendItems
    by_cases h1 : i.hash ∈ p.sent
    · rw [if_pos h1]; exact ih p ev h
    · rw [if_neg h1]
      by_cases h2 : (p.isValid && w.takes p.client i) = true
      · rw [if_pos h2]
        apply ih
        intro e he
        rcases List.mem_cons.1 he with e1 | e1
        · rw [e1]; rfl
        · exact h e e1
      · rw [if_neg h2]; exact ih p ev h

theorem sendPeers_dull (w : World) (ps : List Peer) : ∀ e ∈ (sendPeers w ps).2, dull e = true := by
  induction ps with
  | nil => intro e he; exact nomatch he
  | cons p ps ih =>
    intro e he
    rcases List.mem_append.1 (show e ∈ (sendPeers w ps).2 ++ (sendPeer w p).2 from he) with h | h
    · exact ih e h
    · exact sendItems_dull w _ _ [] (fun _ h => (nomatch h)) e h

theorem calm_send (w : World) (s : St) : Calm s (send w s) :=
  ⟨rfl, rfl, _, rfl, sendPeers_dull w s.peers⟩

theorem calm_connect (c : Client) (b : Bool) (s : St) : Calm s (connect c b s) := by
  refine ⟨rfl, rfl, greet c s.history ++ [.conn c], by simp [connect], ?_⟩
  intro e he
  rcases List.mem_append.1 he with h | h
  · unfold greet at h
    rw [List.mem_reverse] at h
    obtain ⟨x, _, rfl⟩ := List.mem_map.1 h
    rfl
  · rw [List.mem_singleton.1 h]; rfl

/-! ### Meeting a message -/

theorem knows_note (h x : Hash) (s : St) :
    knows x (note h s) = true ↔ x = h ∨ knows x s = true := by
  unfold knows note recvNotify
  simp only [List.any_cons, Bool.or_eq_true, beq_iff_eq]
  constructor
  · rintro (e | e)
    · exact Or.inl e.symm
    · exact Or.inr e
  · rintro (e | e)
    · exact Or.inl e.symm
    · exact Or.inr e

theorem knows_see (h x : Hash) (s : St) :
    knows x (see h s) = true ↔ x = h ∨ knows x s = true := by
  unfold see
  by_cases e : knows h s = true
  · rw [if_pos e]
    exact ⟨Or.inr, fun k => k.elim (fun k => k ▸ e) id⟩
  · rw [if_neg e]; exact knows_note h x s

theorem didRelay_see (h x : Hash) (s : St) : didRelay x (see h s) = didRelay x s := by
  unfold see
  by_cases e : knows h s = true
  · rw [if_pos e]
  · rw [if_neg e]
    unfold note recvNotify didRelay
    simp

theorem see_log (h : Hash) (s : St) : ∃ ev, (see h s).log = ev ++ s.log ∧ ∀ e ∈ ev, dull e = true := by
  unfold see
  by_cases e : knows h s = true
  · rw [if_pos e]; exact ⟨[], rfl, fun _ h => (nomatch h)⟩
  · rw [if_neg e]; exact ⟨notes h s.peers, rfl, calm_notes h s.peers⟩

theorem mem_see (h x : Hash) (s : St) : x ∈ (see h s).seen → x = h ∨ x ∈ s.seen := by
  unfold see
  by_cases e : knows h s = true
  · rw [if_pos e]; exact Or.inr
  · rw [if_neg e]
    intro hx
    rcases List.mem_append.1 (show x ∈ s.seen ++ [h] from hx) with k | k
    · exact Or.inr k
    · exact Or.inl (List.mem_singleton.1 k)

/-- `see` followed by an event (or preceded by one) that says the message was met. -/
theorem ginv_met {n : Nat} {s s' : St} {h : Hash} (i : GInv n s)
    (hinfo : s'.info = (see h s).info) (hseen : s'.seen = (see h s).seen)
    (hmet : ∀ x, x ∈ met s'.log ↔ x = h ∨ x ∈ met s.log)
    (hmem : ∀ e : Event, ((∃ x, e = .bcast x) ∨ (∃ m, e = .publish m)) → e ∈ s'.log → e ∈ s.log)
    (hgood : Good2 n s'.log) : GInv n s' := by
  have mono : Many n (met s.log) → Many n (met s'.log) := fun k =>
    k.mono fun x hx => (hmet x).2 (Or.inr hx)
  have hk : ∀ x, knows x s' = knows x (see h s) := fun x => by unfold knows; rw [hinfo]
  have hd : ∀ x, didRelay x s' = didRelay x (see h s) := fun x => by unfold didRelay; rw [hinfo]
  refine ⟨?_, ?_, ?_, ?_, ?_, ?_, hgood⟩
  · rw [hseen]
    unfold see
    by_cases e : knows h s = true
    · rw [if_pos e]; exact i.nodup
    · rw [if_neg e]
      show (s.seen ++ [h]).Nodup
      refine List.nodup_append.2 ⟨i.nodup, List.pairwise_singleton .., ?_⟩
      intro a ha b hb hab
      rw [List.mem_singleton] at hb
      exact e ((i.same h).2 (hb ▸ hab ▸ ha))
  · intro x
    rw [hk, knows_see, hseen]
    constructor
    · rintro (e | e)
      · subst e
        unfold see
        by_cases e : knows x s = true
        · rw [if_pos e]; exact (i.same x).1 e
        · rw [if_neg e]
          exact List.mem_append_right s.seen (List.mem_singleton.2 rfl)
      · unfold see
        by_cases e' : knows h s = true
        · rw [if_pos e']; exact (i.same x).1 e
        · rw [if_neg e']
          exact List.mem_append_left [h] ((i.same x).1 e)
    · intro hx
      exact (mem_see h x s hx).imp id (i.same x).2
  · intro x hx
    rw [hseen] at hx
    rw [hmet]
    exact (mem_see h x s hx).imp id (i.sub x)
  · intro x hx
    rw [hk, knows_see]
    rcases (hmet x).1 hx with e | e
    · exact Or.inl (Or.inl e)
    · exact (i.all x e).imp Or.inr mono
  · intro x hx
    rw [hd, didRelay_see]
    exact (i.did x (hmem _ (Or.inl ⟨x, rfl⟩) hx)).imp id mono
  · intro m hm
    exact (hmet _).2 (Or.inr (i.pub m (hmem _ (Or.inr ⟨m, rfl⟩) hm)))

theorem dull_of_pick {e : Event} (h : (∃ x, e = .bcast x) ∨ (∃ m, e = .publish m)) : dull e = false := by
  rcases h with ⟨x, rfl⟩ | ⟨m, rfl⟩ <;> rfl

theorem ginv_receive {n : Nat} {s : St} (i : GInv n s) (h : Hash) (c : Client) :
    GInv n (receiveMsgHash h c s).2 := by
  obtain ⟨ev, h1, h2⟩ := see_log h s
  have hl : (receiveMsgHash h c s).2.log = .recv c h :: (ev ++ s.log) := by
    show Event.recv c h :: (see h s).log = _
    rw [h1]
  refine ginv_met i rfl rfl ?_ ?_ ?_
  · intro x
    rw [hl]
    show x ∈ h :: met (ev ++ s.log) ↔ _
    rw [met_dulls h2, List.mem_cons]
  · intro e he hm
    rw [hl] at hm
    rcases List.mem_cons.1 hm with k | k
    · rcases he with ⟨x, rfl⟩ | ⟨m, rfl⟩ <;> cases k
    · exact mem_dulls h2 (dull_of_pick he) k
  · rw [hl]
    exact (good_dulls h2 i.good : Good2 n (ev ++ s.log))

theorem met_receive (h : Hash) (c : Client) (s : St) : h ∈ met (receiveMsgHash h c s).2.log := by
  show h ∈ h :: _
  exact List.mem_cons_self

/-- The node hands over a message: its event comes first. -/
structure Half (n : Nat) (h : Hash) (s : St) : Prop where
  nodup : s.seen.Nodup
  same : ∀ h, knows h s = true ↔ h ∈ s.seen
  sub : ∀ h ∈ s.seen, h ∈ met s.log
  all : ∀ x ∈ met s.log, x = h ∨ knows x s = true ∨ Many n (met s.log)
  did : ∀ h, .bcast h ∈ s.log → didRelay h s = true ∨ Many n (met s.log)
  pub : ∀ m, .publish m ∈ s.log → m.hash ∈ met s.log
  good : Good2 n s.log
  mem : h ∈ met s.log

theorem half_handled {n : Nat} {s : St} (i : GInv n s) (h : Hash) :
    Half n h (emit (.handled h) s) := by
  have mono : Many n (met s.log) → Many n (h :: met s.log) := fun k =>
    k.mono fun x hx => List.mem_cons_of_mem _ hx
  refine ⟨i.nodup, i.same, ?_, ?_, ?_, ?_, i.good, List.mem_cons_self⟩
  · intro x hx; exact List.mem_cons_of_mem _ (i.sub x hx)
  · intro x hx
    rcases List.mem_cons.1 (show x ∈ h :: met s.log from hx) with e | e
    · exact Or.inl e
    · exact Or.inr ((i.all x e).imp id mono)
  · intro x hx
    rcases List.mem_cons.1 (show Event.bcast x ∈ .handled h :: s.log from hx) with e | e
    · cases e
    · exact (i.did x e).imp id mono
  · intro m hm
    rcases List.mem_cons.1 (show Event.publish m ∈ .handled h :: s.log from hm) with e | e
    · cases e
    · exact List.mem_cons_of_mem _ (i.pub m e)

theorem Half.congr {n : Nat} {h : Hash} {s s' : St} (c : Calm s s') (i : Half n h s) : Half n h s' := by
  refine ⟨?_, ?_, ?_, ?_, ?_, ?_, ?_, by rw [c.met]; exact i.mem⟩
  · rw [c.seen]; exact i.nodup
  · intro h; rw [c.knows, c.seen]; exact i.same h
  · rw [c.seen, c.met]; exact i.sub
  · intro h hh; rw [c.met] at hh ⊢; rw [c.knows]; exact i.all h hh
  · intro h hh; rw [c.met, c.didRelay]; exact i.did h (c.mem rfl hh)
  · intro m hm; rw [c.met]; exact i.pub m (c.mem rfl hm)
  · obtain ⟨ev, h1, h2⟩ := c.log
    rw [h1]; exact good_dulls h2 i.good

theorem Half.of {n : Nat} {h : Hash} {s : St} (i : GInv n s) (hm : h ∈ met s.log) : Half n h s :=
  ⟨i.nodup, i.same, i.sub, fun x hx => Or.inr (i.all x hx), i.did, i.pub, i.good, hm⟩

theorem Half.see {n : Nat} {h : Hash} {s : St} (i : Half n h s) : GInv n (see h s) := by
  obtain ⟨ev, h1, h2⟩ := see_log h s
  have hmet : met (Router.see h s).log = met s.log := by rw [h1, met_dulls h2]
  have hmem : ∀ e : Event, dull e = false → e ∈ (Router.see h s).log → e ∈ s.log := by
    intro e he hm; rw [h1] at hm; exact mem_dulls h2 he hm
  refine ⟨?_, ?_, ?_, ?_, ?_, ?_, by rw [h1]; exact good_dulls h2 i.good⟩
  · unfold Router.see
    by_cases e : knows h s = true
    · rw [if_pos e]; exact i.nodup
    · rw [if_neg e]
      show (s.seen ++ [h]).Nodup
      refine List.nodup_append.2 ⟨i.nodup, List.pairwise_singleton .., ?_⟩
      intro a ha b hb hab
      rw [List.mem_singleton] at hb
      exact e ((i.same h).2 (hb ▸ hab ▸ ha))
  · intro x
    rw [knows_see]
    constructor
    · rintro (e | e)
      · subst e
        unfold Router.see
        by_cases e : knows x s = true
        · rw [if_pos e]; exact (i.same x).1 e
        · rw [if_neg e]
          exact List.mem_append_right s.seen (List.mem_singleton.2 rfl)
      · unfold Router.see
        by_cases e' : knows h s = true
        · rw [if_pos e']; exact (i.same x).1 e
        · rw [if_neg e']
          exact List.mem_append_left [h] ((i.same x).1 e)
    · intro hx
      exact (mem_see h x s hx).imp id (i.same x).2
  · intro x hx
    rw [hmet]
    rcases mem_see h x s hx with e | e
    · rw [e]; exact i.mem
    · exact i.sub x e
  · intro x hx
    rw [hmet] at hx ⊢
    rw [knows_see]
    rcases i.all x hx with e | e | e
    · exact Or.inl (Or.inl e)
    · exact Or.inl (Or.inr e)
    · exact Or.inr e
  · intro x hx
    rw [didRelay_see, hmet]
    exact i.did x (hmem _ rfl hx)
  · intro m hm
    rw [hmet]; exact i.pub m (hmem _ rfl hm)

theorem knows_setRelay (h x : Hash) (s : St) : knows x (setRelay h s) = knows x s := by
  unfold knows setRelay
  dsimp only
  rw [List.any_map]
  congr 1
  funext y
  show ((if y.1 = h then (h, true) else y).1 == x) = (y.1 == x)
  by_cases e : y.1 = h
  · rw [if_pos e, e]
  · rw [if_neg e]

theorem didRelay_setRelay (h : Hash) (s : St) (x : Hash) (hx : didRelay x s = true) :
    didRelay x (setRelay h s) = true := by
  unfold didRelay at hx ⊢
  rw [List.any_eq_true] at hx ⊢
  obtain ⟨y, hy, e⟩ := hx
  refine ⟨if y.1 = h then (h, true) else y, List.mem_map.2 ⟨y, hy, rfl⟩, ?_⟩
  by_cases k : y.1 = h
  · rw [if_pos k]
    rw [Bool.and_eq_true] at e
    rw [k] at e
    simpa using e.1
  · rw [if_neg k]; exact e

theorem didRelay_set (h : Hash) (s : St) (hk : knows h s = true) :
    didRelay h (setRelay h s) = true := by
  unfold knows at hk
  unfold didRelay
  rw [List.any_eq_true] at hk ⊢
  obtain ⟨y, hy, e⟩ := hk
  refine ⟨(h, true), List.mem_map.2 ⟨y, hy, ?_⟩, by simp⟩
  show (if y.1 = h then (h, true) else y) = (h, true)
  rw [if_pos (by simpa using e)]

theorem ginv_setRelay {n : Nat} {s : St} (i : GInv n s) (h : Hash) : GInv n (setRelay h s) := by
  refine ⟨i.nodup, ?_, i.sub, ?_, ?_, i.pub, i.good⟩
  · intro x; rw [knows_setRelay]; exact i.same x
  · intro x hx; rw [knows_setRelay]; exact i.all x hx
  · intro x hx; exact (i.did x hx).imp (didRelay_setRelay h s x) id

/-- What `relay_msg_hash` answers when the message was met. -/
theorem ginv_relayMsgHash {n : Nat} {h : Hash} {s : St} (i : Half n h s) :
    GInv n (relayMsgHash h s).2 ∧
    ((relayMsgHash h s).1 = true → didRelay h (relayMsgHash h s).2 = true ∧
      (.bcast h ∈ (relayMsgHash h s).2.log → Many n (met (relayMsgHash h s).2.log))) := by
  have g := i.see
  unfold relayMsgHash
  dsimp only
  by_cases e : didRelay h (see h s) = true
  · rw [if_pos e]; exact ⟨g, fun k => (by cases k)⟩
  · rw [if_neg e]
    refine ⟨ginv_setRelay g h, fun _ => ⟨?_, ?_⟩⟩
    · exact didRelay_set h _ ((knows_see h h s).2 (Or.inl rfl))
    · intro k
      rcases g.did h k with k | k
      · exact absurd k e
      · exact k

theorem ginv_bcast {n : Nat} {h : Hash} {s : St} (i : GInv n s) (hd : didRelay h s = true)
    (hf : .bcast h ∈ s.log → Many n (met s.log)) : GInv n (emit (.bcast h) s) := by
  refine ⟨i.nodup, i.same, i.sub, i.all, ?_, ?_, hf, i.good⟩
  · intro x hx
    rcases List.mem_cons.1 (show Event.bcast x ∈ .bcast h :: s.log from hx) with e | e
    · cases e; exact Or.inl hd
    · exact i.did x e
  · intro m hm
    rcases List.mem_cons.1 (show Event.publish m ∈ .bcast h :: s.log from hm) with e | e
    · cases e
    · exact i.pub m e

theorem ginv_broadcast {n : Nat} {s : St} (i : GInv n s) (cfg : Cfg) (w : World) (m : Msg)
    (a b c : Bool) (hd : didRelay m.hash s = true)
    (hf : .bcast m.hash ∈ s.log → Many n (met s.log)) : GInv n (broadcast cfg w m a b c s) :=
  (calm_schedule ..).inv (ginv_bcast i hd hf)

theorem ginv_relay {n : Nat} {s : St} (i : GInv n s) (cfg : Cfg) (w : World) (m : Msg)
    (a : Bool) (hd : didRelay m.hash s = true)
    (hf : .bcast m.hash ∈ s.log → Many n (met s.log)) : GInv n (relay cfg w m a s) := by
  unfold relay
  by_cases h : cfg.doRelay = true
  · rw [if_pos h]; exact ginv_broadcast i cfg w m _ _ _ hd hf
  · rw [if_neg h]; exact i

/-! ### Publishing -/

/-- No message with this hash was published, unless many were met. -/
def Fresh (n : Nat) (h : Hash) (s : St) : Prop :=
  (∃ m, .publish m ∈ s.log ∧ m.hash = h) → Many n (met s.log)

/-- Nothing was published in between. -/
structure NoPub (s s' : St) : Prop where
  pub : ∀ m, .publish m ∈ s'.log → .publish m ∈ s.log
  met : ∀ h ∈ met s.log, h ∈ Router.met s'.log

theorem NoPub.refl (s : St) : NoPub s s := ⟨fun _ h => h, fun _ h => h⟩

theorem NoPub.trans {a b c : St} (h : NoPub a b) (h' : NoPub b c) : NoPub a c :=
  ⟨fun m k => h.pub m (h'.pub m k), fun x k => h'.met x (h.met x k)⟩

theorem Calm.noPub {s s' : St} (c : Calm s s') : NoPub s s' :=
  ⟨fun _ k => c.mem rfl k, fun x k => by rw [c.met]; exact k⟩

theorem NoPub.fresh {n : Nat} {h : Hash} {s s' : St} (c : NoPub s s') (f : Fresh n h s) :
    Fresh n h s' := by
  rintro ⟨m, h1, h2⟩
  exact (f ⟨m, c.pub m h1, h2⟩).mono c.met

theorem noPub_see (h : Hash) (s : St) : NoPub s (see h s) := by
  obtain ⟨ev, h1, h2⟩ := see_log h s
  refine ⟨fun m k => ?_, fun x k => ?_⟩
  · rw [h1] at k; exact mem_dulls h2 rfl k
  · rw [h1, met_dulls h2]; exact k

theorem noPub_receive (h : Hash) (c : Client) (s : St) : NoPub s (receiveMsgHash h c s).2 := by
  refine (noPub_see h s).trans ⟨fun m k => ?_, fun x k => List.mem_cons_of_mem _ k⟩
  rcases List.mem_cons.1 (show Event.publish m ∈ .recv c h :: (see h s).log from k) with e | e
  · cases e
  · exact e

theorem noPub_relayMsgHash (h : Hash) (s : St) : NoPub s (relayMsgHash h s).2 := by
  unfold relayMsgHash
  dsimp only
  by_cases e : didRelay h (see h s) = true
  · rw [if_pos e]; exact noPub_see h s
  · rw [if_neg e]; exact (noPub_see h s).trans ⟨fun _ k => k, fun _ k => k⟩

theorem noPub_broadcast (cfg : Cfg) (w : World) (m : Msg) (a b c : Bool) (s : St) :
    NoPub s (broadcast cfg w m a b c s) := by
  have h1 : NoPub s (emit (.bcast m.hash) s) := by
    refine ⟨fun m' k => ?_, fun _ k => k⟩
    rcases List.mem_cons.1 (show Event.publish m' ∈ .bcast m.hash :: s.log from k) with e | e
    · cases e
    · exact e
  exact h1.trans (calm_schedule ..).noPub

theorem noPub_relay (cfg : Cfg) (w : World) (m : Msg) (a : Bool) (s : St) :
    NoPub s (relay cfg w m a s) := by
  unfold relay
  by_cases h : cfg.doRelay = true
  · rw [if_pos h]; exact noPub_broadcast ..
  · rw [if_neg h]; exact NoPub.refl s

theorem fresh_new {n : Nat} {s : St} (i : GInv n s) {h : Hash} (hk : knows h s = false) :
    Fresh n h s := by
  rintro ⟨m, h1, h2⟩
  rcases i.all h (h2 ▸ i.pub m h1) with e | e
  · rw [hk] at e; cases e
  · exact e

theorem ginv_publish {n : Nat} {s : St} (i : GInv n s) (m : Msg) (hm : m.hash ∈ met s.log)
    (hf : Fresh n m.hash s) : GInv n (emit (.publish m) s) := by
  refine ⟨i.nodup, i.same, i.sub, i.all, ?_, ?_, hf, i.good⟩
  · intro x hx
    rcases List.mem_cons.1 (show Event.bcast x ∈ .publish m :: s.log from hx) with e | e
    · cases e
    · exact i.did x e
  · intro m' hm'
    rcases List.mem_cons.1 (show Event.publish m' ∈ .publish m :: s.log from hm') with e | e
    · cases e; exact hm
    · exact i.pub m' e

/-! ### Old hashes go -/

theorem forget_ginv {n : Nat} {log : List Event} :
    ∀ (q : List Hash) (info : List (Hash × Bool)) (s : St), s.seen = q → s.info = info → s.log = log →
      GInv n s → ∀ s' : St, s'.seen = (forget n q info).1 → s'.info = (forget n q info).2 →
      s'.log = log → GInv n s' := by
  intro q
  induction q with
  | nil =>
    intro info s h1 h2 h3 i s' h4 h5 h6
    exact Calm.inv (Calm.of_eq (h5.trans h2.symm) (h4.trans h1.symm) (h6.trans h3.symm)) i
  | cons h t ih =>
    intro info s h1 h2 h3 i s' h4 h5 h6
    unfold forget at h4 h5
    by_cases hl : n < (h :: t).length
    · rw [if_pos hl] at h4 h5
      have nd : (h :: t).Nodup := h1 ▸ i.nodup
      have many : Many n (met s.log) := ⟨h :: t, nd, hl, fun x hx => i.sub x (h1 ▸ hx)⟩
      have nd' := List.nodup_cons.1 nd
      refine ih (info.filter (·.1 != h)) { s with seen := t, info := info.filter (·.1 != h) }
        rfl rfl h3 ⟨nd'.2, ?_, ?_, fun x _ => Or.inr many, fun x _ => Or.inr many, i.pub, i.good⟩
        s' h4 h5 h6
      · intro x
        have hs := i.same x
        rw [h1, List.mem_cons] at hs
        unfold knows at hs ⊢
        rw [h2] at hs
        dsimp only
        rw [List.any_eq_true] at hs ⊢
        constructor
        · rintro ⟨y, hy, e⟩
          have hy' := List.mem_filter.1 hy
          have e' : y.1 = x := by simpa using e
          rcases hs.1 ⟨y, hy'.1, e⟩ with k | k
          · exact absurd (e'.trans k) (by simpa using hy'.2)
          · exact k
        · intro hx
          obtain ⟨y, hy, e⟩ := hs.2 (Or.inr hx)
          have e' : y.1 = x := by simpa using e
          refine ⟨y, List.mem_filter.2 ⟨hy, ?_⟩, e⟩
          have : y.1 ≠ h := fun k => nd'.1 (k ▸ e'.symm ▸ hx)
          simpa using this
      · intro x hx
        exact i.sub x (h1 ▸ List.mem_cons_of_mem _ hx)
    · rw [if_neg hl] at h4 h5
      exact Calm.inv (Calm.of_eq (h5.trans h2.symm) (h4.trans h1.symm) (h6.trans h3.symm)) i

theorem ginv_update {s : St} {cfg : Cfg} (i : GInv cfg.maxHash s) :
    GInv cfg.maxHash (update cfg s) :=
  forget_ginv s.seen s.info s rfl rfl rfl i (update cfg s) rfl rfl rfl

/-! ### The callbacks -/

theorem ginv_accept {n : Nat} {s : St} (i : GInv n s) (h : Hash) :
    GInv n (accept h s).2 ∧
    ((accept h s).1 = true → didRelay h (accept h s).2 = true ∧
      (.bcast h ∈ (accept h s).2.log → Many n (met (accept h s).2.log))) :=
  ginv_relayMsgHash (half_handled i h)

theorem ginv_handle {n : Nat} {s : St} (cfg : Cfg) (w : World) (own : Bool) (m : Msg)
    (i : GInv n s) : GInv n (handle cfg w own m s) := by
  unfold handle
  obtain ⟨g, gr⟩ := ginv_accept i m.hash
  have hplain : ∀ b, GInv n (handlePlain cfg w b m s) := by
    intro b
    unfold handlePlain
    dsimp only
    by_cases h : (accept m.hash s).1 = true
    · rw [if_pos h]; exact ginv_broadcast g cfg w m _ _ _ (gr h).1 (gr h).2
    · rw [if_neg h]; exact g
  cases m.kind with
  | block =>
    show GInv n (handleBlock cfg w m s)
    unfold handleBlock
    dsimp only
    by_cases h : (accept m.hash s).1 = true
    · rw [if_pos h]
      refine Calm.inv ?_ (ginv_broadcast g cfg w m true (!knows m.hash s) false (gr h).1 (gr h).2)
      exact Calm.of_eq rfl rfl rfl
    · rw [if_neg h]
      refine Calm.inv ?_ g
      exact Calm.of_eq rfl rfl rfl
  | vdf =>
    show GInv n (handleVdf cfg w own m s)
    have h0 : Calm s (noteOurs own m s) := by
      unfold noteOurs
      by_cases h : own = true
      · rw [if_pos h]; exact Calm.of_eq rfl rfl rfl
      · rw [if_neg h]; exact Calm.refl s
    unfold handleVdf
    dsimp only
    by_cases h : (own && decide (m.vdfHeight ≤ (noteOurs own m s).verifiedVdf)) = true
    · rw [if_pos h]; exact h0.inv i
    rw [if_neg h]
    obtain ⟨g, gr⟩ := ginv_accept (h0.inv i) m.hash
    have fin : ∀ t : St, Calm t
        { emit (.earned m) (setCredit m.key 1 t) with
          verifiedVdf := max (emit (.earned m) (setCredit m.key 1 t)).verifiedVdf m.vdfHeight } := by
      intro t
      have h1 : Calm t (setCredit m.key 1 t) := Calm.of_eq rfl rfl rfl
      exact (h1.trans (Calm.emit _ rfl)).trans (Calm.of_eq rfl rfl rfl)
    refine (fin _).inv ?_
    by_cases h : (accept m.hash (noteOurs own m s)).1 = true
    · rw [if_pos h]
      refine Calm.inv ?_ (ginv_broadcast g cfg w m true
        ((accept m.hash (noteOurs own m s)).2.ours.contains m.key) false (gr h).1 (gr h).2)
      exact Calm.of_eq rfl rfl rfl
    · rw [if_neg h]; exact g
  | proof =>
    show GInv n (handleProof cfg w own m s)
    unfold handleProof
    dsimp only
    by_cases h : (!m.valid) = true
    · rw [if_pos h]; exact i
    rw [if_neg h]
    by_cases h : (accept m.hash s).1 = true
    · rw [if_pos h]
      refine (Calm.emit _ rfl).inv ?_
      refine Calm.inv ?_ (ginv_broadcast g cfg w m false own false (gr h).1 (gr h).2)
      exact Calm.of_eq rfl rfl rfl
    · rw [if_neg h]; exact g
  | tx =>
    show GInv n (handleTx cfg w own m s)
    unfold handleTx
    dsimp only
    by_cases h : (accept m.hash s).1 = true
    · rw [if_pos h]
      by_cases h' : own = true
      · rw [if_pos h']; exact ginv_broadcast g cfg w m _ _ _ (gr h).1 (gr h).2
      · rw [if_neg h']; exact ginv_relay g cfg w m _ (gr h).1 (gr h).2
    · rw [if_neg h]; exact g
  | point => exact hplain true
  | vote => exact hplain false

theorem ginv_msg {n : Nat} {s : St} (i : GInv n s) (cfg : Cfg) (w : World) (c : Client) (m : Msg) :
    GInv n (onMsg cfg w c m s) := by
  have hrec := ginv_receive i m.hash c
  have hmet := met_receive m.hash c s
  have hnew : (receiveMsgHash m.hash c s).1 = true → Fresh n m.hash (receiveMsgHash m.hash c s).2 := by
    intro h
    refine (noPub_receive m.hash c s).fresh (fresh_new i ?_)
    have : (!knows m.hash s) = true := h
    simpa using this
  have hdis : ∀ t, GInv n t → GInv n (disconnect c t) := fun t ht => (calm_disconnect c t).inv ht
  have hplain : GInv n (onPlain c m s) := by
    unfold onPlain
    dsimp only
    by_cases h : (!m.valid) = true
    · rw [if_pos h]; exact hdis s i
    · rw [if_neg h]
      by_cases h : (receiveMsgHash m.hash c s).1 = true
      · rw [if_pos h]; exact ginv_publish hrec m hmet (hnew h)
      · rw [if_neg h]; exact hrec
  unfold onMsg
  cases m.kind with
  | vdf =>
    show GInv n (onVdf cfg w c m s)
    unfold onVdf
    dsimp only
    by_cases h : u32 (m.vdfHeight + cfg.commitDelay) < s.verifiedVdf
    · rw [if_pos h]; exact i
    · rw [if_neg h]
      by_cases h : (!m.valid) = true
      · rw [if_pos h]; exact hdis s i
      · rw [if_neg h]
        by_cases h : (!(receiveMsgHash m.hash c s).1) = true
        · rw [if_pos h]; exact hrec
        · rw [if_neg h]
          have hn : (receiveMsgHash m.hash c s).1 = true := by simpa using h
          by_cases h : (!m.checked) = true
          · rw [if_pos h]; exact hdis _ hrec
          · rw [if_neg h]
            have hf := hnew hn
            generalize (receiveMsgHash m.hash c s).2 = r at hrec hmet hf ⊢
            by_cases h : (m.short && decide (0 < credit m.key r)) = true
            · rw [if_pos h]
              obtain ⟨g, gr⟩ := ginv_relayMsgHash (Half.of hrec hmet)
              have np := noPub_relayMsgHash m.hash r
              by_cases h : (relayMsgHash m.hash r).1 = true
              · rw [if_pos h]
                obtain ⟨d, b⟩ := gr h
                generalize (relayMsgHash m.hash r).2 = q at g np d b ⊢
                have h1 : Calm q (setCredit m.key (credit m.key q - 1) q) := Calm.of_eq rfl rfl rfl
                have h2 := h1.trans (Calm.emit _ (e := .early m) rfl)
                have g' := ginv_relay (h2.inv g) cfg w m true (by rw [h2.didRelay]; exact d)
                  (fun k => by rw [h2.met]; exact b (h2.mem rfl k))
                have np' := (np.trans h2.noPub).trans (noPub_relay cfg w m true _)
                exact ginv_publish g' m (np'.met _ hmet) (np'.fresh hf)
              · rw [if_neg h]; exact ginv_publish g m (np.met _ hmet) (np.fresh hf)
            · rw [if_neg h]; exact ginv_publish hrec m hmet hf
  | block =>
    show GInv n (onBlock cfg w c m s)
    unfold onBlock
    dsimp only
    by_cases h : u32 (m.height + cfg.commitDelay) < s.verifiedPeak
    · rw [if_pos h]; exact i
    · rw [if_neg h]
      by_cases h : (!m.valid) = true
      · rw [if_pos h]; exact hdis s i
      · rw [if_neg h]
        by_cases h : (!(receiveMsgHash m.hash c s).1) = true
        · rw [if_pos h]; exact hrec
        · rw [if_neg h]
          have hn : (receiveMsgHash m.hash c s).1 = true := by simpa using h
          by_cases h : (!m.checked) = true
          · rw [if_pos h]; exact hdis _ hrec
          · rw [if_neg h]
            have hf := hnew hn
            generalize (receiveMsgHash m.hash c s).2 = r at hrec hmet hf ⊢
            by_cases h : (m.vdfHeight, m.key) ∈ r.farmers
            · rw [if_pos h]
              have h0 : Calm r { r with farmers := r.farmers.filter (· != (m.vdfHeight, m.key)) } :=
                Calm.of_eq rfl rfl rfl
              have hrec := h0.inv hrec
              have hmet := h0.noPub.met _ hmet
              have hf := h0.noPub.fresh hf
              generalize { r with farmers := r.farmers.filter (· != (m.vdfHeight, m.key)) } = r
                at hrec hmet hf ⊢
              obtain ⟨g, gr⟩ := ginv_relayMsgHash (Half.of hrec hmet)
              have np := noPub_relayMsgHash m.hash r
              by_cases h : (relayMsgHash m.hash r).1 = true
              · rw [if_pos h]
                obtain ⟨d, b⟩ := gr h
                generalize (relayMsgHash m.hash r).2 = q at g np d b ⊢
                have h2 := (Calm.emit q (e := .early m) rfl)
                have g' := ginv_relay (h2.inv g) cfg w m true (by rw [h2.didRelay]; exact d)
                  (fun k => by rw [h2.met]; exact b (h2.mem rfl k))
                have np' := (np.trans h2.noPub).trans (noPub_relay cfg w m true _)
                exact ginv_publish g' m (np'.met _ hmet) (np'.fresh hf)
              · rw [if_neg h]; exact ginv_publish g m (np.met _ hmet) (np.fresh hf)
            · rw [if_neg h]; exact ginv_publish hrec m hmet hf
  | point =>
    show GInv n (onPoint c m s)
    unfold onPoint
    dsimp only
    by_cases h : (s.peers.any (fun p => p.client == c && p.master) && m.valid) = true
    · rw [if_pos h]
      by_cases h : (receiveMsgHash m.hash c s).1 = true
      · rw [if_pos h]; exact ginv_publish hrec m hmet (hnew h)
      · rw [if_neg h]; exact hrec
    · rw [if_neg h]; exact i
  | vote => exact hplain
  | proof => exact hplain
  | tx => exact hplain

theorem ginv_step {cfg : Cfg} {s : St} (i : GInv cfg.maxHash s) (op : Op) :
    GInv cfg.maxHash (step cfg s op) := by
  cases op with
  | msg w c m => exact ginv_msg i cfg w c m
  | note c h => exact ((calm_modify c (Peer.learn h) s).trans (Calm.emit _ rfl)).inv i
  | verified w own m => exact ginv_handle cfg w own m i
  | send w => exact (calm_send w s).inv i
  | update => exact ginv_update i
  | connect c b => exact (calm_connect c b s).inv i
  | drop c => exact (calm_disconnect c s).inv i
  | gone c =>
    refine Calm.inv ?_ i
    exact Calm.of_eq rfl rfl rfl
  | state c a b => exact (calm_modify c _ s).inv i

theorem ginv_init (n : Nat) : GInv n init :=
  ⟨List.nodup_nil, fun h => by unfold knows init; simp, fun _ h => (nomatch h),
    fun _ h => (nomatch h), fun _ h => (nomatch h), fun _ h => (nomatch h), trivial⟩

theorem ginv_run (cfg : Cfg) (ops : List Op) : GInv cfg.maxHash (run cfg ops) := by
  unfold run
  have : ∀ (ops : List Op) (s : St), GInv cfg.maxHash s →
      GInv cfg.maxHash (ops.foldl (step cfg) s) := by
    intro ops
    induction ops with
    | nil => intro s h; exact h
    | cons o t ih => intro s h; exact ih _ (ginv_step h o)
  exact this ops init (ginv_init _)

theorem good2_tail {n : Nat} {e : Event} {l : List Event} (g : Good2 n (e :: l)) : Good2 n l := by
  cases e <;> first | exact g | exact g.2

theorem good2_drop {n : Nat} {l1 l2 : List Event} (g : Good2 n (l1 ++ l2)) : Good2 n l2 := by
  induction l1 with
  | nil => exact g
  | cons e t ih => exact ih (good2_tail g)

end Verif.Router
