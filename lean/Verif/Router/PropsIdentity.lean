import Verif.Router.Identity

/-!
# C169: the id of a peer
-/

namespace Verif.Router.Identity

/-- What is true of each connection of each node. -/
structure PeerOk (honest : Nat → Bool) (s : Net) (p : Peer) : Prop where
  client : p.client < s.nextClient
  infoFar : ∀ m, p.far = .node m → p.info = none ∨ p.info = some m
  idFar : ∀ m, p.far = .node m → p.nodeId = none ∨ p.nodeId = some m
  signed : ∀ id, p.nodeId = some id → honest id = true → (id, p.challenge) ∈ s.signed
  far : ∀ id, p.nodeId = some id → honest id = true → p.far = .node id ∨ (id, p.challenge) ∈ s.known

structure Inv (honest : Nat → Bool) (s : Net) : Prop where
  peer : ∀ n, ∀ p ∈ s.peers n, PeerOk honest s p
  nodup : ∀ n, ((s.peers n).map (·.client)).Nodup
  unique : ∀ n, ∀ p ∈ s.peers n, ∀ q ∈ s.peers n, p.valid = true → q.valid = true → ∀ id, p.nodeId = some id →
    q.nodeId = some id → p.client = q.client
  known : ∀ x ∈ s.known, x ∈ s.signed

theorem PeerOk.mono {honest : Nat → Bool} {s s' : Net} {p : Peer} (h : PeerOk honest s p) (h1 : s.nextClient ≤ s'.nextClient)
    (h2 : ∀ x ∈ s.signed, x ∈ s'.signed) (h3 : ∀ x ∈ s.known, x ∈ s'.known) : PeerOk honest s' p :=
  ⟨Nat.lt_of_lt_of_le h.client h1, h.infoFar, h.idFar, fun id e o => h2 _ (h.signed id e o),
    fun i e o => (h.far i e o).imp (fun x => x) (h3 _)⟩

theorem update_same (f : Nat → List Peer) (n : Nat) (l : List Peer) : update f n l n = l := if_pos rfl

theorem update_other (f : Nat → List Peer) {n m : Nat} (l : List Peer) (h : m ≠ n) : update f n l m = f m := if_neg h

theorem inv_start (honest : Nat → Bool) : Inv honest start :=
  ⟨fun _ _ h => absurd h List.not_mem_nil, fun _ => List.nodup_nil, fun _ _ h => absurd h List.not_mem_nil,
    fun _ h => absurd h List.not_mem_nil⟩

/-- A change of the connections of one node, one by one. -/
theorem inv_map {honest : Nat → Bool} {s s' : Net} (g : Inv honest s) (n : Nat) (f : Peer → Peer)
    (hp : s'.peers = update s.peers n ((s.peers n).map f)) (h1 : s'.nextClient = s.nextClient)
    (h2 : ∀ x ∈ s.signed, x ∈ s'.signed) (h3 : s'.known = s.known) (hc : ∀ p, (f p).client = p.client)
    (hok : ∀ p ∈ s.peers n, PeerOk honest s' (f p))
    (hu : ∀ p ∈ s.peers n, ∀ q ∈ s.peers n, (f p).valid = true → (f q).valid = true → ∀ id, (f p).nodeId = some id →
      (f q).nodeId = some id → p.client = q.client) : Inv honest s' := by
  refine ⟨fun m p h => ?_, fun m => ?_, fun m p h q h' => ?_, fun x hx => h2 x (g.known x (h3 ▸ hx))⟩
  · rw [hp] at h
    by_cases e : m = n
    · rw [e, update_same] at h
      obtain ⟨q, hq, rfl⟩ := List.mem_map.1 h
      exact hok q hq
    · rw [update_other _ _ e] at h
      exact (g.peer m p h).mono (Nat.le_of_eq h1.symm) h2 (fun x hx => h3 ▸ hx)
  · rw [hp]
    by_cases e : m = n
    · rw [e, update_same, List.map_map]
      have : (s.peers n).map ((fun p : Peer => p.client) ∘ f) = (s.peers n).map (·.client) :=
        List.map_congr_left fun p _ => hc p
      rw [this]
      exact g.nodup n
    · rw [update_other _ _ e]; exact g.nodup m
  · rw [hp] at h h'
    by_cases e : m = n
    · rw [e, update_same] at h h'
      obtain ⟨a, ha, rfl⟩ := List.mem_map.1 h
      obtain ⟨b, hb, rfl⟩ := List.mem_map.1 h'
      intro v1 v2 id i1 i2
      rw [hc, hc]
      exact hu a ha b hb v1 v2 id i1 i2
    · rw [update_other _ _ e] at h h'
      exact g.unique m p h q h'

theorem inv_connect {honest : Nat → Bool} {s : Net} (g : Inv honest s) (n : Nat) (far : End) : Inv honest (onConnect s n far) := by
  have hnew : ∀ p ∈ s.peers n, p.client ≠ s.nextClient := fun p hp => Nat.ne_of_lt (g.peer n p hp).client
  refine ⟨fun m p h => ?_, fun m => ?_, fun m p h q h' v1 v2 id i1 i2 => ?_, g.known⟩
  · by_cases e : m = n
    · simp only [onConnect, e, update_same, List.mem_append, List.mem_singleton] at h
      rcases h with h | h
      · exact (g.peer n p h).mono (Nat.le_succ _) (fun _ h => h) (fun _ h => h)
      · rw [h]
        exact ⟨Nat.lt_succ_self _, fun _ _ => .inl rfl, fun _ _ => .inl rfl, (fun _ h => nomatch h), (fun _ h => nomatch h)⟩
    · simp only [onConnect, update_other _ _ e] at h
      exact (g.peer m p h).mono (Nat.le_succ _) (fun _ h => h) (fun _ h => h)
  · by_cases e : m = n
    · simp only [onConnect, e, update_same, List.map_append, List.map_cons, List.map_nil]
      rw [List.nodup_append]
      refine ⟨g.nodup n, List.nodup_cons.2 ⟨List.not_mem_nil, List.nodup_nil⟩, ?_⟩
      intro x hx y hy exy
      obtain ⟨p, hp, rfl⟩ := List.mem_map.1 hx
      rw [List.mem_singleton.1 hy] at exy
      exact hnew p hp exy
    · simp only [onConnect, update_other _ _ e]
      exact g.nodup m
  · by_cases e : m = n
    · simp only [onConnect, e, update_same, List.mem_append, List.mem_singleton] at h h'
      rcases h with h | h
      · rcases h' with h' | h'
        · exact g.unique n p h q h' v1 v2 id i1 i2
        · rw [h'] at i2; exact nomatch i2
      · rw [h] at i1; exact nomatch i1
    · simp only [onConnect, update_other _ _ e] at h h'
      exact g.unique m p h q h' v1 v2 id i1 i2

theorem peerOf_some {s : Net} {n c : Nat} {p : Peer} (h : peerOf s n c = some p) : p ∈ s.peers n ∧ p.client = c :=
  ⟨List.mem_of_find?_eq_some h, by simpa using List.find?_some h⟩

/-- There is one connection with this number. -/
theorem same_client {honest : Nat → Bool} {s : Net} (g : Inv honest s) {n : Nat} {p q : Peer} (hp : p ∈ s.peers n)
    (hq : q ∈ s.peers n) (h : p.client = q.client) : p = q := by
  have hn := g.nodup n
  generalize s.peers n = l at hp hq hn
  induction l with
  | nil => exact absurd hp List.not_mem_nil
  | cons x l ih =>
    rw [List.map_cons, List.nodup_cons] at hn
    rcases List.mem_cons.1 hp with rfl | hp
    · rcases List.mem_cons.1 hq with rfl | hq
      · rfl
      · exact absurd (List.mem_map.2 ⟨q, hq, h.symm⟩) hn.1
    · rcases List.mem_cons.1 hq with e | hq
      · exact absurd (List.mem_map.2 ⟨p, hp, by rw [h, e]⟩) hn.1
      · exact ih hp hq hn.2

theorem close_ok {honest : Nat → Bool} {s s' : Net} (g : Inv honest s) (n c : Nat)
    (hp : s'.peers = update s.peers n (close (s.peers n) c)) (h1 : s'.nextClient = s.nextClient)
    (h2 : ∀ x ∈ s.signed, x ∈ s'.signed) (h3 : s'.known = s.known) : Inv honest s' := by
  have hf : ∀ p : Peer, (if p.client = c then { p with valid := false } else p : Peer).client = p.client ∧
      (if p.client = c then { p with valid := false } else p : Peer).nodeId = p.nodeId ∧
      ((if p.client = c then { p with valid := false } else p : Peer).valid = true → p.valid = true) := by
    intro p
    by_cases e : p.client = c
    · rw [if_pos e]; exact ⟨rfl, rfl, fun h => nomatch h⟩
    · rw [if_neg e]; exact ⟨rfl, rfl, id⟩
  refine inv_map g n _ hp h1 h2 h3 (fun p => (hf p).1) (fun p hm => ?_) (fun p hm q hm' v1 v2 id i1 i2 => ?_)
  · have := (g.peer n p hm).mono (s' := s') (Nat.le_of_eq h1.symm) h2 (fun x hx => h3 ▸ hx)
    by_cases e : p.client = c
    · rw [if_pos e]; exact ⟨this.client, this.infoFar, this.idFar, this.signed, this.far⟩
    · rw [if_neg e]; exact this
  · rw [(hf p).2.1] at i1
    rw [(hf q).2.1] at i2
    exact g.unique n p hm q hm' ((hf p).2.2 v1) ((hf q).2.2 v2) id i1 i2

theorem sign_ok {honest : Nat → Bool} {s : Net} (g : Inv honest s) {n c key : Nat} {sig : Nat × Nat} {p : Peer}
    (hp : peerOf s n c = some p) (hs : signOk honest s p key sig = true) :
    Inv honest { s with
      peers := update s.peers n (onSign (s.peers n) c key sig)
      signed := if honest sig.1 then sig :: s.signed else s.signed } := by
  have hmono : ∀ x ∈ s.signed, x ∈ (if honest sig.1 = true then sig :: s.signed else s.signed) := by
    intro x hx
    by_cases h : honest sig.1 = true
    · rw [if_pos h]; exact List.mem_cons_of_mem _ hx
    · rw [if_neg h]; exact hx
  obtain ⟨hm, hcl⟩ := peerOf_some hp
  unfold onSign
  rw [show (s.peers n).find? (fun p => decide (p.client = c)) = some p from hp]
  simp only
  by_cases hv : p.info = some key ∧ sig = (key, p.challenge)
  · rw [if_pos hv]
    refine inv_map g n (replaceOne c key) rfl rfl hmono rfl (fun _ => rfl) (fun q hq => ?_) (fun q hq r hr v1 v2 id i1 i2 => ?_)
    · have h := (g.peer n q hq).mono (s' := { s with
        peers := update s.peers n ((s.peers n).map (replaceOne c key))
        signed := if honest sig.1 then sig :: s.signed else s.signed }) (Nat.le_refl _) hmono (fun _ h => h)
      by_cases e : q.client = c
      · have : q = p := same_client g hq hm (by rw [e, hcl])
        subst this
        refine ⟨h.client, h.infoFar, fun m hf => ?_, fun id i o => ?_, fun id i o => ?_⟩
        · simp only [replaceOne, if_pos e]
          rcases h.infoFar m hf with x | x
          · rw [hv.1] at x; exact nomatch x
          · rw [hv.1] at x; exact .inr x
        · simp only [replaceOne, if_pos e] at i ⊢
          cases i
          have : honest sig.1 = true := by rw [hv.2]; exact o
          rw [if_pos this, hv.2]
          exact List.mem_cons_self
        · simp only [replaceOne, if_pos e] at i ⊢
          cases i
          unfold signOk at hs
          cases hfar : q.far with
          | node m =>
            rw [hfar] at hs
            have := (of_decide_eq_true hs).1
            exact .inl (by rw [this])
          | outside =>
            rw [hfar] at hs
            have ho : honest sig.1 = true := by rw [hv.2]; exact o
            simp only [ho, Bool.not_true, Bool.false_or, decide_eq_true_eq] at hs
            rw [hv.2] at hs
            exact .inr hs
      · refine ⟨h.client, h.infoFar, fun m hf => ?_, fun id i o => ?_, fun id i o => ?_⟩
        · simp only [replaceOne, if_neg e]; exact h.idFar m hf
        · simp only [replaceOne, if_neg e] at i; exact h.signed id i o
        · simp only [replaceOne, if_neg e] at i; exact h.far id i o
    · simp only [replaceOne, Bool.and_eq_true, decide_eq_true_eq] at v1 v2 i1 i2
      by_cases e : q.client = c
      · by_cases e' : r.client = c
        · rw [e, e']
        · rw [if_pos e] at i1
          rw [if_neg e', ← i1] at i2
          exact absurd i2 v2.2
      · by_cases e' : r.client = c
        · rw [if_pos e'] at i2
          rw [if_neg e, ← i2] at i1
          exact absurd i1 v1.2
        · rw [if_neg e] at i1
          rw [if_neg e'] at i2
          exact g.unique n q hq r hr v1.1 v2.1 id i1 i2
  · rw [if_neg hv]
    exact close_ok g n c rfl rfl hmono rfl

theorem inv_step {honest : Nat → Bool} {s : Net} (g : Inv honest s) (ev : Event) : Inv honest (step honest s ev) := by
  cases ev with
  | connect n far =>
    simp only [step]
    by_cases h : honest n = true
    · rw [if_pos h]; exact inv_connect g n far
    · rw [if_neg h]; exact g
  | drop n c => exact close_ok g n c rfl rfl (fun _ h => h) rfl
  | info n c id =>
    simp only [step]
    cases hp : peerOf s n c with
    | none => exact g
    | some p =>
      simp only
      by_cases h : (p.valid && infoOk p.far id) = true
      · rw [if_pos h]
        obtain ⟨hm, hcl⟩ := peerOf_some hp
        have hf : ∀ q : Peer, (if q.client = c then { q with info := some id } else q : Peer).client = q.client ∧
            (if q.client = c then { q with info := some id } else q : Peer).nodeId = q.nodeId ∧
            (if q.client = c then { q with info := some id } else q : Peer).valid = q.valid := by
          intro q
          by_cases e : q.client = c
          · rw [if_pos e]; exact ⟨rfl, rfl, rfl⟩
          · rw [if_neg e]; exact ⟨rfl, rfl, rfl⟩
        refine inv_map g n _ rfl rfl (fun _ h => h) rfl (fun q => (hf q).1) (fun q hq => ?_) (fun q hq r hr v1 v2 i e1 e2 => ?_)
        · have := g.peer n q hq
          by_cases e : q.client = c
          · rw [if_pos e]
            have hqp : q = p := same_client g hq hm (by rw [e, hcl])
            refine ⟨this.client, fun m hfar => ?_, this.idFar, this.signed, this.far⟩
            rw [Bool.and_eq_true] at h
            have h2 := h.2
            rw [← hqp] at h2
            simp only at hfar
            rw [hfar] at h2
            exact .inr (congrArg some (of_decide_eq_true h2))
          · rw [if_neg e]
            exact ⟨this.client, this.infoFar, this.idFar, this.signed, this.far⟩
        · rw [(hf q).2.1] at e1
          rw [(hf r).2.1] at e2
          rw [(hf q).2.2] at v1
          rw [(hf r).2.2] at v2
          exact g.unique n q hq r hr v1 v2 i e1 e2
      · rw [if_neg h]; exact g
  | sign n c key sig =>
    simp only [step]
    cases hp : peerOf s n c with
    | none => exact g
    | some p =>
      simp only
      by_cases h : (p.valid && signOk honest s p key sig) = true
      · rw [if_pos h]
        exact sign_ok g hp (by rw [Bool.and_eq_true] at h; exact h.2)
      · rw [if_neg h]; exact g
  | ask m c msg =>
    simp only [step]
    cases hp : peerOf s m c with
    | none => exact g
    | some p =>
      simp only
      by_cases h : (p.valid && decide (p.far = .outside)) = true
      · rw [if_pos h]
        refine ⟨fun n p hp => (g.peer n p hp).mono (Nat.le_refl _) (fun x hx => List.mem_cons_of_mem _ hx)
          (fun x hx => List.mem_cons_of_mem _ hx), g.nodup, g.unique, fun x hx => ?_⟩
        rcases List.mem_cons.1 hx with e | e
        · rw [e]; exact List.mem_cons_self
        · exact List.mem_cons_of_mem _ (g.known x e)
      · rw [if_neg h]; exact g

theorem inv_run {honest : Nat → Bool} (evs : List Event) : ∀ {s : Net}, Inv honest s → Inv honest (run honest s evs) := by
  induction evs with
  | nil => exact fun g => g
  | cons ev evs ih => exact fun g => ih (inv_step g ev)

/-- If a connection is counted as one to a node that runs this code, this node has signed the challenge of this very
    connection. -/
theorem C169_signed (honest : Nat → Bool) (evs : List Event) (n : Nat) (p : Peer) (hp : p ∈ (run honest start evs).peers n)
    (id : Nat) (hid : p.nodeId = some id) (ho : honest id = true) : (id, p.challenge) ∈ (run honest start evs).signed :=
  ((inv_run evs (inv_start honest)).peer n p hp).signed id hid ho

/-- A connection to a node is never counted as one to somebody else. -/
theorem C169_node (honest : Nat → Bool) (evs : List Event) (n : Nat) (p : Peer) (hp : p ∈ (run honest start evs).peers n)
    (m : Nat) (hf : p.far = .node m) (id : Nat) (hid : p.nodeId = some id) : id = m := by
  rcases ((inv_run evs (inv_start honest)).peer n p hp).idFar m hf with h | h
  · rw [h] at hid; exact nomatch hid
  · rw [h] at hid; cases hid; rfl

/-- Two open connections never count as ones to the same node. -/
theorem C169_unique (honest : Nat → Bool) (evs : List Event) (n : Nat) (p q : Peer) (hp : p ∈ (run honest start evs).peers n)
    (hq : q ∈ (run honest start evs).peers n) (v1 : p.valid = true) (v2 : q.valid = true) (id : Nat)
    (i1 : p.nodeId = some id) (i2 : q.nodeId = some id) : p = q :=
  have g := inv_run evs (inv_start honest)
  same_client g hp hq (g.unique n p hp q hq v1 v2 id i1 i2)

/-- C169, partial.  Full claim: a connection that counts as one to a node has this node at its other end.  Proved: unless the
    outsider has had this challenge signed by the node. -/
theorem C169_end_partial (honest : Nat → Bool) (evs : List Event) (n : Nat) (p : Peer) (hp : p ∈ (run honest start evs).peers n)
    (id : Nat) (hid : p.nodeId = some id) (ho : honest id = true) (hk : (id, p.challenge) ∉ (run honest start evs).known) :
    p.far = .node id :=
  (((inv_run evs (inv_start honest)).peer n p hp).far id hid ho).elim (fun h => h) (fun h => absurd h hk)

theorem replace_valid {l : List Peer} {c key : Nat} {p : Peer} (hp : p ∈ l) (h : ∀ q ∈ l.map (replaceOne c key), q.client = p.client →
    q.valid = false) (hv : p.valid = true) : p.nodeId = some key := by
  have := h (replaceOne c key p) (List.mem_map.2 ⟨p, hp, rfl⟩) rfl
  simp only [replaceOne, hv, Bool.true_and] at this
  exact Decidable.byContradiction fun hn => by
    rw [decide_eq_true hn] at this
    exact nomatch this

/-- C169, partial.  Full claim: nobody but a node itself can make others close their connections to it.  Proved: an answer on
    another connection closes one to node `m` only if that one is to `m` as well, or the outsider has had
    its challenge signed by `m`. -/
theorem C169_kept_partial (honest : Nat → Bool) (evs : List Event) (n : Nat) (p : Peer)
    (hp : p ∈ (run honest start evs).peers n) (hv : p.valid = true) (m : Nat) (ho : honest m = true) (hf : p.far = .node m)
    (c key : Nat) (sig : Nat × Nat) (hc : c ≠ p.client)
    (hx : ∀ q ∈ (step honest (run honest start evs) (.sign n c key sig)).peers n, q.client = p.client → q.valid = false) :
    ∃ q ∈ (run honest start evs).peers n, q.client = c ∧
      (q.far = .node m ∨ (m, q.challenge) ∈ (run honest start evs).known) := by
  have g := inv_run (honest := honest) evs (inv_start honest)
  generalize run honest start evs = s at hp hx g
  have keep : ∀ s' : Net, s'.peers = s.peers → (∀ q ∈ s'.peers n, q.client = p.client → q.valid = false) → False := by
    intro s' e h
    have := h p (e ▸ hp) rfl
    rw [hv] at this
    exact nomatch this
  simp only [step] at hx
  cases hq : peerOf s n c with
  | none => rw [hq] at hx; exact absurd hx (fun h => keep s rfl h)
  | some q =>
    rw [hq] at hx
    simp only at hx
    by_cases hs : (q.valid && signOk honest s q key sig) = true
    · rw [if_pos hs] at hx
      obtain ⟨hm, hcl⟩ := peerOf_some hq
      simp only [update_same] at hx
      unfold onSign at hx
      rw [show (s.peers n).find? (fun p => decide (p.client = c)) = some q from hq] at hx
      simp only at hx
      by_cases hi : q.info = some key ∧ sig = (key, q.challenge)
      · rw [if_pos hi] at hx
        have hid := replace_valid hp hx hv
        have hkey : key = m := by
          rcases (g.peer n p hp).idFar m hf with h | h
          · rw [h] at hid; exact nomatch hid
          · rw [h] at hid; cases hid; rfl
        subst hkey
        refine ⟨q, hm, hcl, ?_⟩
        rw [Bool.and_eq_true] at hs
        have hs := hs.2
        unfold signOk at hs
        cases hfar : q.far with
        | node k =>
          rw [hfar] at hs
          exact .inl (by rw [(of_decide_eq_true hs).1])
        | outside =>
          rw [hfar, hi.2] at hs
          simp only [ho, Bool.not_true, Bool.false_or, decide_eq_true_eq] at hs
          exact .inr hs
      · rw [if_neg hi] at hx
        have := hx (if p.client = c then { p with valid := false } else p) (List.mem_map.2 ⟨p, hp, rfl⟩)
          (by rw [if_neg (fun e => hc e.symm)])
        rw [if_neg (fun e => hc e.symm), hv] at this
        exact nomatch this
    · rw [if_neg hs] at hx; exact absurd hx (fun h => keep s rfl h)

/-! ### Cases -/

/-- Nodes 0 and 1. -/
def twoNodes : Nat → Bool := fun n => decide (n < 2)

/-- Node 0 connects to node 1 and verifies it. -/
def goodRun : List Event := [.connect 0 (.node 1), .info 0 0 1, .sign 0 0 1 (1, 0)]

example : (run twoNodes start goodRun).peers 0 = [⟨0, .node 1, 0, some 1, some 1, true⟩] := by decide +kernel

/-- A second connection to the same node replaces the first. -/
example : ((run twoNodes start (goodRun ++ [.connect 0 (.node 1), .info 0 1 1, .sign 0 1 1 (1, 1)])).peers 0).map
    (fun p => (p.client, p.nodeId, p.valid)) = [(0, some 1, false), (1, some 1, true)] := by decide +kernel

/-- The outsider who has not seen a signature over his challenge is turned away. -/
example : ((run twoNodes start (goodRun ++ [.connect 0 .outside, .info 0 1 1, .sign 0 1 7 (7, 1)])).peers 0).map
    (fun p => (p.client, p.nodeId, p.valid)) = [(0, some 1, true), (1, none, false)] := by decide +kernel

/-- The outsider connects to both nodes, tells node 0 the id of node 1, has node 1 sign the challenge he got from node 0,
    and passes the signature on. -/
def relayRun : List Event :=
  goodRun ++ [.connect 0 .outside, .connect 1 .outside, .info 0 1 1, .ask 1 2 1, .sign 0 1 1 (1, 1)]

/-- Then node 0 takes him for node 1 and closes its connection to node 1. -/
theorem C169_relay : ((run twoNodes start relayRun).peers 0).map (fun p => (p.far, p.nodeId, p.valid)) =
    [(.node 1, some 1, false), (.outside, some 1, true)] := by decide +kernel

end Verif.Router.Identity
