/-
  Helper lemmas: credits to relay messages that are not verified agree with the log.
-/
import Verif.Router.Seen

namespace Verif.Router

structure CInv (s : St) : Prop where
  farmers : ∀ v k, earlyBlocks v k s.log + (if (v, k) ∈ s.farmers then 1 else 0) ≤ goodProofs v k s.log
  timelords : ∀ k, earlyVdfs k s.log + credit k s ≤ goodVdfs k s.log

/-- Events that say nothing about credit. -/
def plain : Event → Bool
  | .early _ | .earned _ => false
  | _ => true

theorem counts_plain {ev : List Event} (h : ∀ e ∈ ev, plain e = true) (l : List Event) :
    (∀ v k, earlyBlocks v k (ev ++ l) = earlyBlocks v k l ∧ goodProofs v k (ev ++ l) = goodProofs v k l) ∧
    (∀ k, earlyVdfs k (ev ++ l) = earlyVdfs k l ∧ goodVdfs k (ev ++ l) = goodVdfs k l) := by
  induction ev with
  | nil => exact ⟨fun _ _ => ⟨rfl, rfl⟩, fun _ => ⟨rfl, rfl⟩⟩
  | cons e t ih =>
    have h1 := h e List.mem_cons_self
    have ih := ih fun x hx => h x (List.mem_cons_of_mem _ hx)
    cases e <;> first | exact ih | exact absurd h1 (by simp [plain])

/-- No credit is added and no event about credit. -/
structure Mild (s s' : St) : Prop where
  farmers : ∀ x ∈ s'.farmers, x ∈ s.farmers
  timelords : s'.timelords = s.timelords
  log : ∃ ev, s'.log = ev ++ s.log ∧ ∀ e ∈ ev, plain e = true

theorem Mild.refl (s : St) : Mild s s := ⟨fun _ h => h, rfl, [], rfl, fun _ h => (nomatch h)⟩

theorem Mild.of_eq {s s' : St} (h1 : s'.farmers = s.farmers) (h2 : s'.timelords = s.timelords)
    (h3 : s'.log = s.log) : Mild s s' :=
  ⟨fun _ h => h1 ▸ h, h2, [], h3, fun _ h => (nomatch h)⟩

theorem Mild.trans {a b c : St} (h : Mild a b) (h' : Mild b c) : Mild a c := by
  obtain ⟨e1, h1, d1⟩ := h.log
  obtain ⟨e2, h2, d2⟩ := h'.log
  refine ⟨fun x k => h.farmers x (h'.farmers x k), h'.timelords.trans h.timelords, e2 ++ e1,
    by rw [h2, h1, List.append_assoc], ?_⟩
  intro e he
  rcases List.mem_append.1 he with x | x
  · exact d2 e x
  · exact d1 e x

theorem Mild.emit (s : St) {e : Event} (h : plain e = true) : Mild s (Router.emit e s) :=
  ⟨fun _ h => h, rfl, [e], rfl, fun x hx => by rw [List.mem_singleton.1 hx]; exact h⟩

theorem Mild.inv {s s' : St} (m : Mild s s') (i : CInv s) : CInv s' := by
  obtain ⟨ev, h1, h2⟩ := m.log
  have hc := counts_plain h2 s.log
  refine ⟨fun v k => ?_, fun k => ?_⟩
  · rw [h1, (hc.1 v k).1, (hc.1 v k).2]
    refine Nat.le_trans (Nat.add_le_add_left ?_ _) (i.farmers v k)
    by_cases h : (v, k) ∈ s'.farmers
    · rw [if_pos h, if_pos (m.farmers _ h)]; exact Nat.le_refl 1
    · rw [if_neg h]; exact Nat.zero_le _
  · have : credit k s' = credit k s := by unfold credit; rw [m.timelords]
    rw [h1, (hc.2 k).1, (hc.2 k).2, this]
    exact i.timelords k

theorem mild_modify (c : Client) (f : Peer → Peer) (s : St) : Mild s (modify c f s) :=
  Mild.of_eq rfl rfl rfl

theorem mild_disconnect (c : Client) (s : St) : Mild s (disconnect c s) :=
  (mild_modify c _ s).trans (Mild.emit _ rfl)

theorem mild_schedule (now iv : Nat) (i : Item) (cs : List Client) :
    ∀ (k : Nat) (s : St), Mild s (schedule now iv i k cs s) := by
  induction cs with
  | nil => intro k s; exact Mild.refl s
  | cons c cs ih => intro k s; exact Mild.trans (mild_modify c _ s) (ih (k + 1) _)

theorem mild_note (h : Hash) (s : St) : Mild s (note h s) := by
  refine ⟨fun _ h => h, rfl, notes h s.peers, rfl, ?_⟩
  intro e he
  obtain ⟨p, _, rfl⟩ := List.mem_map.1 he
  rfl

theorem mild_see (h : Hash) (s : St) : Mild s (see h s) := by
  unfold see
  by_cases e : knows h s = true
  · rw [if_pos e]; exact Mild.refl s
  · rw [if_neg e]; exact mild_note h s

theorem mild_receive (h : Hash) (c : Client) (s : St) : Mild s (receiveMsgHash h c s).2 :=
  ((mild_see h s).trans (mild_modify c (Peer.learn h) _)).trans (Mild.emit _ rfl)

theorem mild_relayMsgHash (h : Hash) (s : St) : Mild s (relayMsgHash h s).2 := by
  unfold relayMsgHash
  dsimp only
  by_cases e : didRelay h (see h s) = true
  · rw [if_pos e]; exact mild_see h s
  · rw [if_neg e]
    refine (mild_see h s).trans ?_
    exact Mild.of_eq rfl rfl rfl

theorem mild_accept (h : Hash) (s : St) : Mild s (accept h s).2 :=
  (Mild.emit s (e := .handled h) rfl).trans (mild_relayMsgHash h _)

theorem mild_broadcast (cfg : Cfg) (w : World) (m : Msg) (a b d : Bool) (s : St) :
    Mild s (broadcast cfg w m a b d s) :=
  (Mild.emit s (e := .bcast m.hash) rfl).trans (mild_schedule ..)

theorem mild_relay (cfg : Cfg) (w : World) (m : Msg) (a : Bool) (s : St) :
    Mild s (relay cfg w m a s) := by
  unfold relay
  by_cases h : cfg.doRelay = true
  · rw [if_pos h]; exact mild_broadcast ..
  · rw [if_neg h]; exact Mild.refl s

theorem dull_plain {ev : List Event} (h : ∀ e ∈ ev, ∃ c x, e = Event.sent c x) :
    ∀ e ∈ ev, plain e = true := by
  intro e he
  obtain ⟨c, x, rfl⟩ := h e he
  rfl

theorem sendItems_sent (w : World) (items : List (Nat × Item)) :
    ∀ (p : Peer) (ev : List Event), (∀ e ∈ ev, ∃ c x, e = Event.sent c x) →
      ∀ e ∈ (sendItems w items (p, ev)).2, ∃ c x, e = Event.sent c x := by
  induction items with
  | nil => intro p ev h; exact h
  | cons x t ih =>
    obtain ⟨k, i⟩ := x
    intro p ev h
    unfold sendItems
    by_cases h1 : i.hash ∈ p.sent
    · rw [if_pos h1]; exact ih p ev h
    · rw [if_neg h1]
      by_cases h2 : (p.isValid && w.takes p.client i) = true
      · rw [if_pos h2]
        apply ih
        intro e he
        rcases List.mem_cons.1 he with e1 | e1
        · exact ⟨_, _, e1⟩
        · exact h e e1
      · rw [if_neg h2]; exact ih p ev h

theorem sendPeers_sent (w : World) (ps : List Peer) :
    ∀ e ∈ (sendPeers w ps).2, ∃ c x, e = Event.sent c x := by
  induction ps with
  | nil => intro e he; exact nomatch he
  | cons p ps ih =>
    intro e he
    rcases List.mem_append.1 (show e ∈ (sendPeers w ps).2 ++ (sendPeer w p).2 from he) with h | h
    · exact ih e h
    · exact sendItems_sent w _ _ [] (fun _ h => (nomatch h)) e h

theorem mild_send (w : World) (s : St) : Mild s (send w s) :=
  ⟨fun _ h => h, rfl, _, rfl, dull_plain (sendPeers_sent w s.peers)⟩

theorem mild_connect (c : Client) (b : Bool) (s : St) : Mild s (connect c b s) := by
  refine ⟨fun _ h => h, rfl, greet c s.history ++ [.conn c], by simp [connect], ?_⟩
  intro e he
  rcases List.mem_append.1 he with h | h
  · unfold greet at h
    rw [List.mem_reverse] at h
    obtain ⟨x, _, rfl⟩ := List.mem_map.1 h
    rfl
  · rw [List.mem_singleton.1 h]; rfl

theorem lookup_filter_ne (k k' : Key) (h : k' ≠ k) (l : List (Key × Nat)) :
    (l.filter (·.1 != k)).lookup k' = l.lookup k' := by
  induction l with
  | nil => rfl
  | cons x t ih =>
    obtain ⟨a, b⟩ := x
    by_cases e : a = k
    · rw [List.filter_cons_of_neg (by simp [e]), ih]
      have : (k' == a) = false := by rw [e]; simpa using h
      rw [List.lookup_cons, this]
    · rw [List.filter_cons_of_pos (by simpa using e), List.lookup_cons, List.lookup_cons, ih]

theorem credit_setCredit (k k' : Key) (n : Nat) (s : St) :
    credit k' (setCredit k n s) = if k' = k then n else credit k' s := by
  unfold credit setCredit
  dsimp only
  rw [List.lookup_cons]
  by_cases h : k' = k
  · rw [if_pos h, h]; simp
  · rw [if_neg h, show (k' == k) = false by simpa using h]
    dsimp only
    rw [lookup_filter_ne k k' h]

/-- A verified VDF gives its timelord one credit. -/
theorem cinv_earnVdf {s : St} (i : CInv s) (m : Msg) (hk : m.kind = .vdf) :
    CInv (emit (.earned m) (setCredit m.key 1 s)) := by
  refine ⟨fun v k => ?_, fun k => ?_⟩
  · show earlyBlocks v k s.log + _ ≤ _ + goodProofs v k s.log
    have := i.farmers v k
    exact Nat.le_trans this (Nat.le_add_left _ _)
  · show earlyVdfs k s.log + credit k (setCredit m.key 1 s) ≤
      (if m.kind = .vdf ∧ m.key = k then 1 else 0) + goodVdfs k s.log
    rw [credit_setCredit]
    have := i.timelords k
    by_cases h : k = m.key
    · rw [if_pos h, if_pos ⟨hk, h.symm⟩]; omega
    · rw [if_neg h]; omega

/-- A verified proof gives its farmer one credit. -/
theorem cinv_earnProof {s : St} (i : CInv s) (m : Msg) (hk : m.kind = .proof) :
    CInv (emit (.earned m) { s with farmers := (m.vdfHeight, m.key) :: s.farmers }) := by
  refine ⟨fun v k => ?_, fun k => ?_⟩
  · show earlyBlocks v k s.log + (if (v, k) ∈ (m.vdfHeight, m.key) :: s.farmers then 1 else 0) ≤
      (if m.kind = .proof ∧ m.vdfHeight = v ∧ m.key = k then 1 else 0) + goodProofs v k s.log
    have := i.farmers v k
    by_cases h : v = m.vdfHeight ∧ k = m.key
    · rw [if_pos (show m.kind = .proof ∧ m.vdfHeight = v ∧ m.key = k from ⟨hk, h.1.symm, h.2.symm⟩),
        if_pos (by rw [h.1, h.2]; exact List.mem_cons_self)]
      omega
    · by_cases h' : (v, k) ∈ s.farmers
      · rw [if_pos h'] at this
        rw [if_pos (List.mem_cons_of_mem _ h')]; omega
      · rw [if_neg h'] at this
        rw [if_neg (by
          intro hm
          rcases List.mem_cons.1 hm with e | e
          · cases e; exact h ⟨rfl, rfl⟩
          · exact h' e)]
        omega
  · show earlyVdfs k s.log + credit k s ≤ _ + goodVdfs k s.log
    have := i.timelords k
    exact Nat.le_trans this (Nat.le_add_left _ _)

/-- A VDF relayed before it is verified costs one credit. -/
theorem cinv_spendVdf {s : St} (i : CInv s) (m : Msg) (hk : m.kind = .vdf) (hc : 0 < credit m.key s) :
    CInv (emit (.early m) (setCredit m.key (credit m.key s - 1) s)) := by
  refine ⟨fun v k => ?_, fun k => ?_⟩
  · show (if m.kind = .block ∧ m.vdfHeight = v ∧ m.key = k then 1 else 0) + earlyBlocks v k s.log +
      (if (v, k) ∈ s.farmers then 1 else 0) ≤ goodProofs v k s.log
    rw [if_neg (by rw [hk]; exact fun h => (nomatch h.1))]
    have := i.farmers v k
    omega
  · show (if m.kind = .vdf ∧ m.key = k then 1 else 0) + earlyVdfs k s.log +
      credit k (setCredit m.key (credit m.key s - 1) s) ≤ goodVdfs k s.log
    rw [credit_setCredit]
    have := i.timelords k
    by_cases h : k = m.key
    · rw [if_pos h, if_pos ⟨hk, h.symm⟩]; rw [h] at this ⊢; omega
    · rw [if_neg h, if_neg (fun x => h x.2.symm)]; omega

/-- A block relayed before it is verified costs the credit of its farmer at its VDF height. -/
theorem cinv_spendBlock {s : St} (i : CInv s) (m : Msg) (hk : m.kind = .block)
    (hc : goodProofs m.vdfHeight m.key s.log ≥ earlyBlocks m.vdfHeight m.key s.log + 1)
    (hf : (m.vdfHeight, m.key) ∉ s.farmers) : CInv (emit (.early m) s) := by
  refine ⟨fun v k => ?_, fun k => ?_⟩
  · show (if m.kind = .block ∧ m.vdfHeight = v ∧ m.key = k then 1 else 0) + earlyBlocks v k s.log +
      (if (v, k) ∈ s.farmers then 1 else 0) ≤ goodProofs v k s.log
    have := i.farmers v k
    by_cases h : m.vdfHeight = v ∧ m.key = k
    · rw [if_pos ⟨hk, h⟩]
      obtain ⟨rfl, rfl⟩ := h
      rw [if_neg hf]; omega
    · rw [if_neg (fun x => h x.2)]; omega
  · show (if m.kind = .vdf ∧ m.key = k then 1 else 0) + earlyVdfs k s.log + credit k s ≤
      goodVdfs k s.log
    rw [if_neg (by rw [hk]; exact fun h => (nomatch h.1))]
    have := i.timelords k
    omega

theorem cinv_handle {s : St} (cfg : Cfg) (w : World) (own : Bool) (m : Msg) (i : CInv s) :
    CInv (handle cfg w own m s) := by
  unfold handle
  have g := mild_accept m.hash s
  have hplain : ∀ b, CInv (handlePlain cfg w b m s) := by
    intro b
    unfold handlePlain
    dsimp only
    by_cases h : (accept m.hash s).1 = true
    · rw [if_pos h]; exact (g.trans (mild_broadcast ..)).inv i
    · rw [if_neg h]; exact g.inv i
  cases hk : m.kind with
  | block =>
    show CInv (handleBlock cfg w m s)
    have fin : ∀ t : St, Mild t { t with
        history := t.history.filter (fun x => t.verifiedVdf < x.1)
        farmers := t.farmers.filter (fun x => t.verifiedVdf < x.1)
        verifiedVdf := m.vdfHeight
        verifiedPeak := m.height } := fun t =>
      ⟨fun x hx => (List.mem_filter.1 hx).1, rfl, [], rfl, fun _ h => (nomatch h)⟩
    unfold handleBlock
    dsimp only
    refine (fin _).inv ?_
    by_cases h : (accept m.hash s).1 = true
    · rw [if_pos h]; exact (g.trans (mild_broadcast ..)).inv i
    · rw [if_neg h]; exact g.inv i
  | vdf =>
    show CInv (handleVdf cfg w own m s)
    have h0 : Mild s (noteOurs own m s) := by
      unfold noteOurs
      by_cases h : own = true
      · rw [if_pos h]; exact Mild.of_eq rfl rfl rfl
      · rw [if_neg h]; exact Mild.refl s
    unfold handleVdf
    dsimp only
    by_cases h : (own && decide (m.vdfHeight ≤ (noteOurs own m s).verifiedVdf)) = true
    · rw [if_pos h]; exact h0.inv i
    rw [if_neg h]
    have g := h0.trans (mild_accept m.hash (noteOurs own m s))
    have fin : ∀ t : St, CInv t → CInv
        { emit (.earned m) (setCredit m.key 1 t) with
          verifiedVdf := max (emit (.earned m) (setCredit m.key 1 t)).verifiedVdf m.vdfHeight } := by
      intro t ht
      refine Mild.inv ?_ (cinv_earnVdf ht m hk)
      exact Mild.of_eq rfl rfl rfl
    apply fin
    by_cases h : (accept m.hash (noteOurs own m s)).1 = true
    · rw [if_pos h]
      refine Mild.inv ?_ ((g.trans (mild_broadcast cfg w m true
        ((accept m.hash (noteOurs own m s)).2.ours.contains m.key) false _)).inv i)
      exact Mild.of_eq rfl rfl rfl
    · rw [if_neg h]; exact g.inv i
  | proof =>
    show CInv (handleProof cfg w own m s)
    unfold handleProof
    dsimp only
    by_cases h : (!m.valid) = true
    · rw [if_pos h]; exact i
    rw [if_neg h]
    by_cases h : (accept m.hash s).1 = true
    · rw [if_pos h]
      exact cinv_earnProof ((g.trans (mild_broadcast cfg w m false own false _)).inv i) m hk
    · rw [if_neg h]; exact g.inv i
  | tx =>
    show CInv (handleTx cfg w own m s)
    unfold handleTx
    dsimp only
    by_cases h : (accept m.hash s).1 = true
    · rw [if_pos h]
      by_cases h' : own = true
      · rw [if_pos h']; exact (g.trans (mild_broadcast ..)).inv i
      · rw [if_neg h']; exact (g.trans (mild_relay ..)).inv i
    · rw [if_neg h]; exact g.inv i
  | point => exact hplain true
  | vote => exact hplain false

theorem credit_of_timelords {s s' : St} (h : s'.timelords = s.timelords) (k : Key) :
    credit k s' = credit k s := by unfold credit; rw [h]

theorem cinv_msg {s : St} (i : CInv s) (cfg : Cfg) (w : World) (c : Client) (m : Msg) :
    CInv (onMsg cfg w c m s) := by
  have hrec := (mild_receive m.hash c s).inv i
  have hdis : ∀ t, CInv t → CInv (disconnect c t) := fun t ht => (mild_disconnect c t).inv ht
  have hpub : ∀ t, CInv t → CInv (emit (.publish m) t) := fun t ht => (Mild.emit t rfl).inv ht
  have hplain : CInv (onPlain c m s) := by
    unfold onPlain
    dsimp only
    by_cases h : (!m.valid) = true
    · rw [if_pos h]; exact hdis s i
    · rw [if_neg h]
      by_cases h : (receiveMsgHash m.hash c s).1 = true
      · rw [if_pos h]; exact hpub _ hrec
      · rw [if_neg h]; exact hrec
  unfold onMsg
  cases hk : m.kind with
  | vdf =>
    show CInv (onVdf cfg w c m s)
    unfold onVdf
    dsimp only
    by_cases h : u32 (m.vdfHeight + cfg.commitDelay) < s.verifiedVdf
    · rw [if_pos h]; exact i
    · rw [if_neg h]
      by_cases h : (!m.valid) = true
      · rw [if_pos h]; exact hdis s i
      · rw [if_neg h]
        by_cases h : (!(receiveMsgHash m.hash c s).1) = true
        · rw [if_pos h]; exact hrec
        · rw [if_neg h]
          by_cases h : (!m.checked) = true
          · rw [if_pos h]; exact hdis _ hrec
          · rw [if_neg h]
            apply hpub
            generalize (receiveMsgHash m.hash c s).2 = r at hrec ⊢
            by_cases h : (m.short && decide (0 < credit m.key r)) = true
            · rw [if_pos h]
              have g := mild_relayMsgHash m.hash r
              by_cases h' : (relayMsgHash m.hash r).1 = true
              · rw [if_pos h']
                refine (mild_relay cfg w m true _).inv ?_
                refine cinv_spendVdf (g.inv hrec) m hk ?_
                rw [credit_of_timelords g.timelords]
                rw [Bool.and_eq_true, decide_eq_true_eq] at h
                exact h.2
              · rw [if_neg h']; exact g.inv hrec
            · rw [if_neg h]; exact hrec
  | block =>
    show CInv (onBlock cfg w c m s)
    unfold onBlock
    dsimp only
    by_cases h : u32 (m.height + cfg.commitDelay) < s.verifiedPeak
    · rw [if_pos h]; exact i
    · rw [if_neg h]
      by_cases h : (!m.valid) = true
      · rw [if_pos h]; exact hdis s i
      · rw [if_neg h]
        by_cases h : (!(receiveMsgHash m.hash c s).1) = true
        · rw [if_pos h]; exact hrec
        · rw [if_neg h]
          by_cases h : (!m.checked) = true
          · rw [if_pos h]; exact hdis _ hrec
          · rw [if_neg h]
            apply hpub
            generalize (receiveMsgHash m.hash c s).2 = r at hrec ⊢
            by_cases h : (m.vdfHeight, m.key) ∈ r.farmers
            · rw [if_pos h]
              have h0 : Mild r { r with farmers := r.farmers.filter (· != (m.vdfHeight, m.key)) } :=
                ⟨fun x hx => (List.mem_filter.1 hx).1, rfl, [], rfl, fun _ h => (nomatch h)⟩
              have hno : (m.vdfHeight, m.key) ∉ r.farmers.filter (· != (m.vdfHeight, m.key)) := by
                intro hm
                have := (List.mem_filter.1 hm).2
                simp at this
              have hc := hrec.farmers m.vdfHeight m.key
              rw [if_pos h] at hc
              have hrec := h0.inv hrec
              generalize hr1 : { r with farmers := r.farmers.filter (· != (m.vdfHeight, m.key)) } = r1
                at hrec ⊢
              have hl1 : r1.log = r.log := by rw [← hr1]
              have hf1 : (m.vdfHeight, m.key) ∉ r1.farmers := by rw [← hr1]; exact hno
              have g := mild_relayMsgHash m.hash r1
              by_cases h' : (relayMsgHash m.hash r1).1 = true
              · rw [if_pos h']
                refine (mild_relay cfg w m true _).inv ?_
                obtain ⟨ev, e1, e2⟩ := g.log
                have hcp := (counts_plain e2 r1.log).1 m.vdfHeight m.key
                refine cinv_spendBlock (g.inv hrec) m hk ?_ (fun x => hf1 (g.farmers _ x))
                rw [e1, hcp.1, hcp.2, hl1]
                exact hc
              · rw [if_neg h']; exact g.inv hrec
            · rw [if_neg h]; exact hrec
  | point =>
    show CInv (onPoint c m s)
    unfold onPoint
    dsimp only
    by_cases h : (s.peers.any (fun p => p.client == c && p.master) && m.valid) = true
    · rw [if_pos h]
      by_cases h : (receiveMsgHash m.hash c s).1 = true
      · rw [if_pos h]; exact hpub _ hrec
      · rw [if_neg h]; exact hrec
    · rw [if_neg h]; exact i
  | vote => exact hplain
  | proof => exact hplain
  | tx => exact hplain

theorem cinv_step {cfg : Cfg} {s : St} (i : CInv s) (op : Op) : CInv (step cfg s op) := by
  cases op with
  | msg w c m => exact cinv_msg i cfg w c m
  | note c h => exact ((mild_modify c (Peer.learn h) s).trans (Mild.emit _ rfl)).inv i
  | verified w own m => exact cinv_handle cfg w own m i
  | send w => exact (mild_send w s).inv i
  | update =>
    refine Mild.inv ?_ i
    exact Mild.of_eq rfl rfl rfl
  | connect c b => exact (mild_connect c b s).inv i
  | drop c => exact (mild_disconnect c s).inv i
  | gone c =>
    refine Mild.inv ?_ i
    exact Mild.of_eq rfl rfl rfl
  | state c a b => exact (mild_modify c _ s).inv i

theorem cinv_run (cfg : Cfg) (ops : List Op) : CInv (run cfg ops) := by
  unfold run
  have : ∀ (ops : List Op) (s : St), CInv s → CInv (ops.foldl (step cfg) s) := by
    intro ops
    induction ops with
    | nil => intro s h; exact h
    | cons o t ih => intro s h; exact ih _ (cinv_step h o)
  refine this ops init ⟨fun v k => ?_, fun k => ?_⟩
  · show 0 + (if (v, k) ∈ [] then 1 else 0) ≤ 0
    rw [if_neg (fun h => nomatch h)]; exact Nat.le_refl 0
  · exact Nat.le_refl 0

end Verif.Router
