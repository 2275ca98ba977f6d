import Verif.Router.ConnectionsLemmas

/-!
# What the router's lists of connections can be relied on for

The statements quantify over every history of events: dials, connections that come up, fail or end, in any order, names that
resolve to other addresses over time, and any messages of peers.
-/

namespace Verif.Router.Connections

/-- A history of a router since its start. -/
def Reached (conf : Conf) (ok : Nat → Bool) (limit : Nat) (s : State) : Prop :=
  ∃ banned known evs, s = run conf ok limit (start banned known) evs

/-- Nothing in the router's lists is about the client. -/
def Forgotten (s : State) (c : Nat) : Prop :=
  (∀ p ∈ s.peers, p.client ≠ c) ∧ (∀ e ∈ s.byAddr, e.2 ≠ c) ∧ (∀ t ∈ s.tasks, t.2 ≠ c) ∧ c ∉ s.synced

theorem Reached.inv {conf : Conf} {ok : Nat → Bool} {limit : Nat} {s : State} (r : Reached conf ok limit s) : Inv conf s := by
  obtain ⟨b, k, evs, e⟩ := r
  rw [e]; exact inv_run evs (inv_start conf b k)

/-- The list by address and the list by client have the same connections, each once; and whoever is in the list of synced peers is
    a peer. -/
theorem C170_lists {conf : Conf} {ok : Nat → Bool} {limit : Nat} {s : State} (r : Reached conf ok limit s) :
    (∀ a c, (a, c) ∈ s.byAddr ↔ ∃ p ∈ s.peers, p.addr = a ∧ p.client = c) ∧
    s.byAddr.length = s.peers.length ∧ (s.peers.map (·.client)).Nodup ∧ ∀ c ∈ s.synced, ∃ p ∈ s.peers, p.client = c := by
  have i := r.inv
  refine ⟨fun a c => ?_, by rw [i.addrs, List.length_map], i.one, i.syn⟩
  rw [i.addrs, List.mem_map]
  exact ⟨fun ⟨p, hp, e⟩ => ⟨p, hp, congrArg Prod.fst e, congrArg Prod.snd e⟩,
    fun ⟨p, hp, e1, e2⟩ => ⟨p, hp, by rw [e1, e2]⟩⟩

/-- There is no open connection with a banned address. -/
theorem C170_banned {conf : Conf} {ok : Nat → Bool} {limit : Nat} {s : State} (r : Reached conf ok limit s) :
    ∀ p ∈ s.peers, p.valid = true → p.addr ∉ s.banned := r.inv.ban

/-- When no ended connection waits to be cleared away, all peers are open connections and every attempt on the list is under way:
    nothing is left over that would keep an address from being tried again. -/
theorem C170_settled {conf : Conf} {ok : Nat → Bool} {limit : Nat} {s : State} (r : Reached conf ok limit s) (e : s.closing = []) :
    (∀ p ∈ s.peers, p.valid = true) ∧ ∀ h c, (h, c) ∈ s.tasks → (c, h) ∈ s.dialing := by
  have i := r.inv
  refine ⟨fun p hp => ?_, fun h c hm => ?_⟩
  · cases hv : p.valid with
    | true => rfl
    | false => have := i.ended p hp hv; rw [e] at this; exact absurd this List.not_mem_nil
  · rcases i.task h c hm with g | g
    · exact g
    · rw [e] at g; exact absurd g List.not_mem_nil

theorem length_split {α : Type} (f : α → Bool) : ∀ l : List α, l.length = (l.filter f).length + (l.filter fun x => !f x).length
  | [] => rfl
  | a :: l => by
    have ih := length_split f l
    cases h : f a <;> simp [h, ih] <;> omega

theorem nodup_le : ∀ {l m : List Nat}, l.Nodup → (∀ x ∈ l, x ∈ m) → l.length ≤ m.length
  | [], _, _, _ => Nat.zero_le _
  | a :: l, m, n, h => by
    have ha := h a (List.mem_cons_self ..)
    have := nodup_le (l := l) (m := m.erase a) (List.nodup_cons.1 n).2 fun x hx => by
      have : x ≠ a := fun e => (List.nodup_cons.1 n).1 (e ▸ hx)
      exact (List.mem_erase_of_ne this).2 (h x (List.mem_cons_of_mem _ hx))
    rw [List.length_erase_of_mem ha] at this
    have := List.length_pos_of_mem ha
    simp only [List.length_cons]
    omega

/-- The number of connections being made is bounded by the settings. -/
theorem C170_tasks {conf : Conf} {ok : Nat → Bool} {limit : Nat} {s : State} (r : Reached conf ok limit s) :
    s.tasks.length ≤ 2 * conf.numOut + conf.fixed.length := by
  have i := r.inv
  have h1 := length_split (fun t : Nat × Nat => decide (t.1 ∉ conf.fixed)) s.tasks
  have h2 := i.room
  have h3 : ((s.tasks.filter fun t => !decide (t.1 ∉ conf.fixed)).map (·.1)).length ≤ conf.fixed.length := by
    refine nodup_le ((List.filter_sublist.map _).nodup i.keys) fun x hx => ?_
    obtain ⟨t, ht, e⟩ := List.mem_map.1 hx
    have := (List.mem_filter.1 ht).2
    rw [← e]
    simpa using this
  rw [List.length_map] at h3
  omega

/-! ### After the end of a connection -/

/-- The client was there once, and its connection has ended and been cleared away. -/
def Over (s : State) (c : Nat) : Prop :=
  c < s.nextClient ∧ (∀ p ∈ s.peers, p.client ≠ c) ∧ (∀ d ∈ s.dialing, d.1 ≠ c) ∧ ∀ d ∈ s.closing, d.1 ≠ c

theorem over_connectTo {s : State} {c h : Nat} (o : Over s c) : Over (connectTo s h) c := by
  unfold connectTo
  by_cases e : (s.task h).isSome
  · rw [if_pos e]; exact o
  · rw [if_neg e]
    refine ⟨Nat.lt_succ_of_lt o.1, o.2.1, fun d hd => ?_, o.2.2.2⟩
    rcases List.mem_append.1 hd with hd | hd
    · exact o.2.2.1 d hd
    · rw [List.mem_singleton.1 hd]; exact Nat.ne_of_gt o.1

theorem over_fixed {conf : Conf} {c : Nat} : ∀ (l : List (Nat × Nat)) {s : State}, Over s c → Over (l.foldl (dialFixed conf) s) c
  | [], _, o => o
  | ha :: l, s, o => by
    refine over_fixed l ?_
    unfold dialFixed
    by_cases g : ha.1 ∈ conf.fixed ∧ ¬ ha.2 ∈ s.byAddr.map (·.1)
    · rw [if_pos g]; exact over_connectTo o
    · rw [if_neg g]; exact o

theorem over_new {conf : Conf} {c : Nat} : ∀ (l : List Nat) {s : State}, Over s c → Over (dialNew conf l s) c
  | [], _, o => o
  | a :: l, s, o => by
    unfold dialNew
    by_cases g : 2 * conf.numOut ≤ s.tasks.length
    · rw [if_pos g]; exact o
    · rw [if_neg g]
      exact over_new l (s := { connectTo s a with retry := _ }) (over_connectTo (h := a) o)

theorem over_close {s : State} {c : Nat} (o : Over s c) (sel : Conn → Bool) : Over (closePeers s sel) c := by
  refine ⟨o.1, fun q hq => ?_, o.2.2.1, fun d hd => ?_⟩
  · obtain ⟨p, hp, e, _⟩ := mem_close hq
    rw [e]; exact o.2.1 p hp
  · rcases List.mem_append.1 hd with hd | hd
    · exact o.2.2.2 d hd
    · obtain ⟨p, hp, e⟩ := List.mem_map.1 hd
      rw [← e]; exact o.2.1 p (List.mem_filter.1 hp).1

theorem over_onConnect {s : State} {c d h a : Nat} (o : Over s c) (n : d ≠ c) : Over (onConnect s d h a) c := by
  have peers : ∀ b, ∀ p ∈ s.peers ++ [({ client := d, host := h, addr := a, outbound := b } : Conn)], p.client ≠ c := by
    intro b p hp
    rcases List.mem_append.1 hp with hp | hp
    · exact o.2.1 p hp
    · rw [List.mem_singleton.1 hp]; exact n
  unfold onConnect
  by_cases hb : a ∈ s.banned
  · rw [if_pos hb]
    refine ⟨o.1, o.2.1, o.2.2.1, fun x hx => ?_⟩
    rcases List.mem_append.1 hx with hx | hx
    · exact o.2.2.2 x hx
    · rw [List.mem_singleton.1 hx]; exact n
  · rw [if_neg hb]
    by_cases ht : s.task h = some d
    · rw [if_pos ht]; exact ⟨o.1, peers true, o.2.2.1, o.2.2.2⟩
    · rw [if_neg ht]; exact ⟨o.1, peers false, o.2.2.1, o.2.2.2⟩

theorem over_task {s : State} {c a : Nat} (o : Over s c) : Over (runTask s a) c := by
  unfold runTask
  cases hc : s.closing with
  | nil => exact o
  | cons d rest =>
    have ho : Over { s with closing := rest } c :=
      ⟨o.1, o.2.1, o.2.2.1, fun x hx => o.2.2.2 x (by rw [hc]; exact List.mem_cons_of_mem _ hx)⟩
    show Over (onClosed { s with closing := rest } d.1 d.2 a) c
    unfold onClosed
    by_cases ht : State.task { s with closing := rest } d.2 = some d.1
    · rw [if_pos ht]
      exact ⟨o.1, fun p hp => o.2.1 p (List.mem_filter.1 hp).1, o.2.2.1, ho.2.2.2⟩
    · rw [if_neg ht]
      exact ⟨o.1, fun p hp => o.2.1 p (List.mem_filter.1 hp).1, o.2.2.1, ho.2.2.2⟩

theorem over_step {conf : Conf} {ok : Nat → Bool} {limit : Nat} {s : State} {c : Nat} (o : Over s c) (e : Event) :
    Over (step conf ok limit s e) c := by
  cases e with
  | connect f t => exact over_new _ (over_fixed f o)
  | up d h a =>
    unfold step
    by_cases g : (d, h) ∈ s.dialing
    · simp only [g, if_true]
      exact over_onConnect (s := endDial s d h) ⟨o.1, o.2.1, fun x hx => o.2.2.1 x (List.mem_filter.1 hx).1, o.2.2.2⟩ (o.2.2.1 _ g)
    · simp only [g, if_false]; exact o
  | failed d h =>
    unfold step
    by_cases g : (d, h) ∈ s.dialing
    · simp only [g, if_true]
      refine ⟨o.1, o.2.1, fun x hx => o.2.2.1 x (List.mem_filter.1 hx).1, fun x hx => ?_⟩
      rcases List.mem_append.1 hx with hx | hx
      · exact o.2.2.2 x hx
      · rw [List.mem_singleton.1 hx]; exact o.2.2.1 _ g
    · simp only [g, if_false]; exact o
  | accept h a =>
    exact over_onConnect (s := { s with nextClient := s.nextClient + 1 }) ⟨Nat.lt_succ_of_lt o.1, o.2⟩ (Nat.ne_of_gt o.1)
  | lost d => exact over_close o _
  | task a => exact over_task o
  | kick a => exact over_close (s := { s with banned := _ }) o _
  | peers l => exact o
  | synced d yes =>
    show Over (onSynced s d yes) c
    unfold onSynced
    cases s.peer d with
    | none => exact o
    | some p => cases yes <;> cases h : p.full <;> simp only [h, if_true] <;> exact o
  | info d b =>
    refine ⟨o.1, fun q hq => ?_, o.2.2⟩
    obtain ⟨p, hp, e, _⟩ := mem_info hq
    rw [e]; exact o.2.1 p hp
  | ownId d =>
    show Over (onOwnId s d) c
    unfold onOwnId
    cases s.peer d with
    | none => exact o
    | some p => exact over_close (s := { s with self := _ }) o _
  | slow d => exact o

theorem over_run {conf : Conf} {ok : Nat → Bool} {limit : Nat} {c : Nat} : ∀ (evs : List Event) {s : State}, Over s c →
    Over (run conf ok limit s evs) c
  | [], _, o => o
  | e :: evs, _, o => over_run evs (over_step o e)

/-- Once the end of a connection has been cleared away, no list mentions it, now or later, whatever messages still arrive from it. -/
theorem C170_forgotten {conf : Conf} {ok : Nat → Bool} {limit : Nat} {s : State} (r : Reached conf ok limit s) {c : Nat}
    (o : Over s c) (evs : List Event) : Forgotten (run conf ok limit s evs) c := by
  have i := inv_run (ok := ok) (limit := limit) evs r.inv
  have o := over_run (conf := conf) (ok := ok) (limit := limit) evs o
  refine ⟨o.2.1, fun e he => ?_, fun t ht => ?_, fun hs => ?_⟩
  · rw [i.addrs] at he
    obtain ⟨p, hp, x⟩ := List.mem_map.1 he
    rw [← x]; exact o.2.1 p hp
  · rcases i.task t.1 t.2 ht with g | g
    · exact o.2.2.1 _ g
    · exact o.2.2.2 _ g
  · obtain ⟨p, hp, e⟩ := i.syn c hs
    exact o.2.1 p hp e

/-- The task that clears away a connection does so. -/
theorem C170_cleared {conf : Conf} {ok : Nat → Bool} {limit : Nat} {s : State} (r : Reached conf ok limit s) {c h : Nat}
    {rest : List (Nat × Nat)} (e : s.closing = (c, h) :: rest) (a : Nat) :
    Over (run conf ok limit s [.task a]) c ∧ Forgotten (run conf ok limit s [.task a]) c := by
  have i := r.inv
  have hm : (c, h) ∈ s.closing := by rw [e]; exact List.mem_cons_self ..
  have hn : ∀ d ∈ rest, d.1 ≠ c := by
    intro d hd x
    have := i.closeOne
    rw [e, List.map_cons] at this
    exact (List.nodup_cons.1 this).1 (List.mem_map.2 ⟨d, hd, x⟩)
  have o : Over (runTask s a) c := by
    unfold runTask
    rw [e]
    show Over (onClosed { s with closing := rest } c h a) c
    have hd : ∀ d ∈ s.dialing, d.1 ≠ c := fun d hd x => i.dialClosing d hd _ hm x.symm
    unfold onClosed
    by_cases ht : State.task { s with closing := rest } h = some c
    · rw [if_pos ht]
      exact ⟨i.closeFresh _ hm, fun p hp => of_decide_eq_true (List.mem_filter.1 hp).2, hd, hn⟩
    · rw [if_neg ht]
      exact ⟨i.closeFresh _ hm, fun p hp => of_decide_eq_true (List.mem_filter.1 hp).2, hd, hn⟩
  refine ⟨o, ?_⟩
  obtain ⟨b, k, evs, e'⟩ := r
  exact C170_forgotten (s := runTask s a) ⟨b, k, evs ++ [.task a], by
    unfold run; rw [List.foldl_append]; rw [show s = evs.foldl (step conf ok limit) (start b k) from e']; rfl⟩ o []

/-! ### Banning -/

theorem connectTo_banned (s : State) (h : Nat) : (connectTo s h).banned = s.banned ∧ (connectTo s h).self = s.self := by
  unfold connectTo
  by_cases e : (s.task h).isSome
  · rw [if_pos e]; exact ⟨rfl, rfl⟩
  · rw [if_neg e]; exact ⟨rfl, rfl⟩

theorem fixed_banned {conf : Conf} : ∀ (l : List (Nat × Nat)) (s : State),
    (l.foldl (dialFixed conf) s).banned = s.banned ∧ (l.foldl (dialFixed conf) s).self = s.self
  | [], _ => ⟨rfl, rfl⟩
  | ha :: l, s => by
    have h := fixed_banned (conf := conf) l (dialFixed conf s ha)
    have : (dialFixed conf s ha).banned = s.banned ∧ (dialFixed conf s ha).self = s.self := by
      unfold dialFixed
      by_cases g : ha.1 ∈ conf.fixed ∧ ¬ ha.2 ∈ s.byAddr.map (·.1)
      · rw [if_pos g]; exact connectTo_banned s _
      · rw [if_neg g]; exact ⟨rfl, rfl⟩
    exact ⟨h.1.trans this.1, h.2.trans this.2⟩

theorem new_banned {conf : Conf} : ∀ (l : List Nat) (s : State), (dialNew conf l s).banned = s.banned ∧ (dialNew conf l s).self = s.self
  | [], _ => ⟨rfl, rfl⟩
  | a :: l, s => by
    unfold dialNew
    by_cases g : 2 * conf.numOut ≤ s.tasks.length
    · rw [if_pos g]; exact ⟨rfl, rfl⟩
    · rw [if_neg g]
      have h := new_banned (conf := conf) l { connectTo s a with retry := setErase (connectTo s a).retry a }
      have k := connectTo_banned s a
      exact ⟨h.1.trans k.1, h.2.trans k.2⟩

theorem onConnect_banned (s : State) (c h a : Nat) : (onConnect s c h a).banned = s.banned := by
  unfold onConnect
  by_cases hb : a ∈ s.banned
  · rw [if_pos hb]
  · rw [if_neg hb]
    by_cases ht : s.task h = some c
    · rw [if_pos ht]
    · rw [if_neg ht]

/-- Only `kick` changes the list of banned addresses. -/
theorem banned_step {conf : Conf} {ok : Nat → Bool} {limit : Nat} {s : State} (e : Event) :
    (step conf ok limit s e).banned = s.banned ∨
      ∃ a n, (step conf ok limit s e).banned = banLoop limit a n s.banned ∧ n ≤ s.byAddr.length := by
  cases e with
  | connect f t => exact .inl ((new_banned _ _).1.trans (fixed_banned f s).1)
  | up c h a =>
    unfold step
    by_cases g : (c, h) ∈ s.dialing
    · simp only [g, if_true]; exact .inl (onConnect_banned _ _ _ _)
    · simp only [g, if_false]; exact .inl trivial
  | failed c h =>
    unfold step
    by_cases g : (c, h) ∈ s.dialing
    · simp only [g, if_true]; exact .inl rfl
    · simp only [g, if_false]; exact .inl trivial
  | accept h a => exact .inl (onConnect_banned _ _ _ _)
  | lost c => exact .inl rfl
  | task a =>
    show (runTask s a).banned = _ ∨ _
    unfold runTask
    cases s.closing with
    | nil => exact .inl rfl
    | cons d rest =>
      refine .inl ?_
      show (onClosed { s with closing := rest } d.1 d.2 a).banned = _
      unfold onClosed
      by_cases ht : State.task { s with closing := rest } d.2 = some d.1
      · rw [if_pos ht]
      · rw [if_neg ht]
  | kick a => exact .inr ⟨a, _, rfl, List.length_filter_le _ _⟩
  | peers l => exact .inl rfl
  | synced c yes =>
    refine .inl ?_
    show (onSynced s c yes).banned = _
    unfold onSynced
    cases s.peer c with
    | none => rfl
    | some p => cases yes <;> cases h : p.full <;> simp [h]
  | info c b => exact .inl rfl
  | ownId c =>
    refine .inl ?_
    show (onOwnId s c).banned = _
    unfold onOwnId
    cases s.peer c with
    | none => rfl
    | some p => rfl
  | slow c => exact .inl rfl

/-- Kicking an address ends every connection with it, and bans it if there was one. -/
theorem C170_kick {conf : Conf} {ok : Nat → Bool} {limit : Nat} {s : State} (r : Reached conf ok limit s) {p : Conn}
    (hp : p ∈ s.peers) : p.addr ∈ (run conf ok limit s [.kick p.addr]).banned ∧
      ∀ q ∈ (run conf ok limit s [.kick p.addr]).peers, q.addr = p.addr → q.valid = false := by
  have i := r.inv
  have hb : p.addr ∈ (kick limit s p.addr).banned := by
    show p.addr ∈ banLoop _ _ _ _
    have : 0 < (s.byAddr.filter fun e => decide (e.1 = p.addr)).length := by
      refine List.length_pos_of_mem (a := (p.addr, p.client)) (List.mem_filter.2 ⟨?_, decide_eq_true rfl⟩)
      rw [i.addrs]; exact List.mem_map.2 ⟨p, hp, rfl⟩
    obtain ⟨n, hn⟩ := Nat.exists_eq_succ_of_ne_zero (Nat.ne_of_gt this)
    rw [hn]; exact banLoop_self
  refine ⟨hb, fun q hq e => ?_⟩
  cases hv : q.valid with
  | false => rfl
  | true =>
    have := (inv_kick i limit p.addr).ban q hq hv
    rw [e] at this
    exact absurd hb this

/-- From then on there is no open connection with the address, as long as the list of banned addresses has room for one entry for
    each connection. -/
theorem C170_stays {conf : Conf} {ok : Nat → Bool} {limit : Nat} {s : State} (r : Reached conf ok limit s) {a : Nat} (ha : a ∈ s.banned)
    (evs : List Event)
    (room : ∀ pre, pre <+: evs → (run conf ok limit s pre).banned.length + (run conf ok limit s pre).peers.length ≤ limit) :
    a ∈ (run conf ok limit s evs).banned ∧ ∀ p ∈ (run conf ok limit s evs).peers, p.valid = true → p.addr ≠ a := by
  have key : a ∈ (run conf ok limit s evs).banned := by
    have i := r.inv
    clear r
    induction evs generalizing s with
    | nil => exact ha
    | cons e evs ih =>
      refine ih (s := step conf ok limit s e) ?_ (fun pre hpre => room (e :: pre) (List.cons_prefix_cons.2 ⟨rfl, hpre⟩)) (inv_step i e)
      rcases banned_step (conf := conf) (ok := ok) (limit := limit) (s := s) e with g | ⟨b, n, g, hn⟩
      · rw [g]; exact ha
      · rw [g]
        have h0 := room [] List.nil_prefix
        rw [i.addrs, List.length_map] at hn
        have h0 : s.banned.length + s.peers.length ≤ limit := h0
        exact banLoop_keeps ha (by omega)
  have i := inv_run (ok := ok) (limit := limit) evs r.inv
  exact ⟨key, fun p hp hv e => i.ban p hp hv (e ▸ key)⟩

/-! ### Dialling -/

theorem connectTo_dialing {s : State} {h : Nat} {d : Nat × Nat} (hd : d ∈ (connectTo s h).dialing) :
    d ∈ s.dialing ∨ d.2 = h := by
  unfold connectTo at hd
  by_cases e : (s.task h).isSome
  · rw [if_pos e] at hd; exact .inl hd
  · rw [if_neg e] at hd
    rcases List.mem_append.1 hd with hd | hd
    · exact .inl hd
    · rw [List.mem_singleton.1 hd]; exact .inr rfl

theorem connectTo_byAddr (s : State) (h : Nat) : (connectTo s h).byAddr = s.byAddr := by
  unfold connectTo
  by_cases e : (s.task h).isSome
  · rw [if_pos e]
  · rw [if_neg e]

theorem fixed_dialing {conf : Conf} {d : Nat × Nat} : ∀ (l : List (Nat × Nat)) {s : State},
    d ∈ (l.foldl (dialFixed conf) s).dialing → d ∈ s.dialing ∨ d.2 ∈ conf.fixed
  | [], _, h => .inl h
  | ha :: l, s, h => by
    rcases fixed_dialing l h with g | g
    · unfold dialFixed at g
      by_cases k : ha.1 ∈ conf.fixed ∧ ¬ ha.2 ∈ s.byAddr.map (·.1)
      · rw [if_pos k] at g
        rcases connectTo_dialing g with g | g
        · exact .inl g
        · exact .inr (g ▸ k.1)
      · rw [if_neg k] at g; exact .inl g
    · exact .inr g

theorem fixed_byAddr {conf : Conf} : ∀ (l : List (Nat × Nat)) (s : State), (l.foldl (dialFixed conf) s).byAddr = s.byAddr
  | [], _ => rfl
  | ha :: l, s => by
    refine (fixed_byAddr (conf := conf) l (dialFixed conf s ha)).trans ?_
    unfold dialFixed
    by_cases k : ha.1 ∈ conf.fixed ∧ ¬ ha.2 ∈ s.byAddr.map (·.1)
    · rw [if_pos k]; exact connectTo_byAddr s _
    · rw [if_neg k]

theorem new_dialing {conf : Conf} {d : Nat × Nat} : ∀ (l : List Nat) {s : State}, d ∈ (dialNew conf l s).dialing →
    d ∈ s.dialing ∨ d.2 ∈ l
  | [], _, h => .inl h
  | a :: l, s, h => by
    unfold dialNew at h
    by_cases g : 2 * conf.numOut ≤ s.tasks.length
    · rw [if_pos g] at h; exact .inl h
    · rw [if_neg g] at h
      rcases new_dialing l h with k | k
      · rcases connectTo_dialing (s := s) (h := a) k with k | k
        · exact .inl k
        · exact .inr (k ▸ List.mem_cons_self ..)
      · exact .inr (List.mem_cons_of_mem _ k)

/-- A new attempt goes to a fixed peer, or to an address with which there is no connection, which is not banned and has not been taken for
    our own. -/
theorem C170_dial {conf : Conf} {ok : Nat → Bool} {limit : Nat} {s : State} {fixed try_ : List (Nat × Nat)} {d : Nat × Nat}
    (hd : d ∈ (run conf ok limit s [.connect fixed try_]).dialing) (hn : d ∉ s.dialing) :
    d.2 ∈ conf.fixed ∨ ((∀ c, (d.2, c) ∉ s.byAddr) ∧ d.2 ∉ s.banned ∧ d.2 ∉ s.self) := by
  have hd : d ∈ (connect conf s fixed try_).dialing := hd
  rcases new_dialing _ hd with g | g
  · rcases fixed_dialing fixed g with g | g
    · exact absurd g hn
    · exact .inl g
  · refine .inr ?_
    obtain ⟨ha, hm, e⟩ := List.mem_map.1 (mem_uniq.1 g)
    have el := (List.mem_filter.1 hm).2
    unfold eligible at el
    rw [fixed_byAddr, (fixed_banned fixed s).1, (fixed_banned fixed s).2] at el
    simp only [Bool.and_eq_true, decide_eq_true_eq] at el
    obtain ⟨⟨⟨⟨⟨e1, _⟩, e3⟩, _⟩, e5⟩, _⟩ := el
    rw [← e]
    exact ⟨fun c hc => e1 (List.mem_map.2 ⟨_, hc, rfl⟩), e3, e5⟩

/-! ### Addresses handed out -/

/-- A random order has the same elements. -/
def Shuffles (f : List (List Char) → List (List Char)) : Prop := ∀ l, (f l).Perm l

/-- What is handed out to peers is at most as many addresses as asked for, each once, each one known or connected,
    and none from the ranges `127.`, `10.` and `192.168.`. -/
theorem C170_share {f : List (List Char) → List (List Char)} (hf : Shuffles f) (known connected : List (List Char)) (n : Nat) :
    (getPeers f known connected n).length ≤ n ∧ (getPeers f known connected n).Nodup ∧
      ∀ a ∈ getPeers f known connected n, (a ∈ known ∨ a ∈ connected) ∧ a ≠ [] ∧
        ¬ "127.".toList <+: a ∧ ¬ "10.".toList <+: a ∧ ¬ "192.168.".toList <+: a := by
  have nd := nodup_uniq ((known ++ connected).filter isPublicAddress)
  have key : ∀ a ∈ getPeers f known connected n, a ∈ (known ++ connected).filter isPublicAddress := by
    intro a ha
    unfold getPeers getSubset at ha
    by_cases g : n < (uniq ((known ++ connected).filter isPublicAddress)).length
    · rw [if_pos g] at ha
      exact mem_uniq.1 ((hf _).mem_iff.1 (List.mem_of_mem_take ha))
    · rw [if_neg g] at ha; exact mem_uniq.1 ha
  refine ⟨?_, ?_, fun a ha => ?_⟩
  · unfold getPeers getSubset
    by_cases g : n < (uniq ((known ++ connected).filter isPublicAddress)).length
    · rw [if_pos g]; exact List.length_take_le _ _
    · rw [if_neg g]; omega
  · unfold getPeers getSubset
    by_cases g : n < (uniq ((known ++ connected).filter isPublicAddress)).length
    · rw [if_pos g]; exact (List.take_sublist _ _).nodup ((hf _).nodup_iff.2 nd)
    · rw [if_neg g]; exact nd
  · have h := List.mem_filter.1 (key a ha)
    refine ⟨List.mem_append.1 h.1, ?_⟩
    have pub := h.2
    unfold isPublicAddress isValidAddress at pub
    simp only [Bool.and_eq_true, Bool.not_eq_true', Bool.or_eq_false_iff, decide_eq_false_iff_not] at pub
    obtain ⟨⟨⟨p1, p2⟩, _⟩, p4, p5⟩ := pub
    refine ⟨(fun e => by rw [e] at p1; exact Bool.noConfusion p1), fun g => p2 ?_, fun g => p4 ?_, fun g => p5 ?_⟩
    · exact (List.prefix_iff_eq_take.1 g).symm
    · exact (List.prefix_iff_eq_take.1 g).symm
    · exact (List.prefix_iff_eq_take.1 g).symm

/-! ### What does not hold -/

theorem run_append {conf : Conf} {ok : Nat → Bool} {limit : Nat} (s : State) (l m : List Event) :
    run conf ok limit s (l ++ m) = run conf ok limit (run conf ok limit s l) m := List.foldl_append

/-- Answers that nobody asked for. -/
def flood (n : Nat) : List Event := (List.range n).map fun i => .peers [i]

theorem flood_retry {conf : Conf} {limit : Nat} (b k : List Nat) (n : Nat) :
    (run conf (fun _ => true) limit (start b k) (flood n)).retry = List.range n := by
  induction n with
  | zero => rfl
  | succ n ih =>
    have : flood (n + 1) = flood n ++ [.peers [n]] := by unfold flood; rw [List.range_succ, List.map_append]; rfl
    rw [this, run_append, List.range_succ]
    show (onPeers (fun _ => true) (run conf (fun _ => true) limit (start b k) (flood n)) [n]).retry = _
    unfold onPeers
    rw [show ([n].take 10).filter (fun _ => true) = [n] from rfl]
    show setInsert (run conf (fun _ => true) limit (start b k) (flood n)).retry n = _
    rw [ih]
    unfold setInsert
    rw [if_neg (by simp)]

/-- The list of addresses to try has no bound: answers to `get_peers` are taken whether or not they were asked for, and
    their addresses stay until they are dialled. -/
theorem C170_unbounded (conf : Conf) (limit : Nat) (b k : List Nat) (n : Nat) :
    ∃ evs, (∀ e ∈ evs, ∃ a, e = .peers [a]) ∧ (run conf (fun _ => true) limit (start b k) evs).retry.length = n :=
  ⟨flood n, fun e he => by obtain ⟨a, _, h⟩ := List.mem_map.1 he; exact ⟨a, h.symm⟩, by rw [flood_retry, List.length_range]⟩

/-- One fixed peer, named 100. -/
def conf1 : Conf := { numOut := 8, fixed := [100] }

/-- An address that is also the address of a fixed peer is dialled twice. -/
theorem C170_twice : ((run conf1 (fun _ => true) 1000000 (start [] [7]) [.connect [(100, 7)] [(7, 7)], .up 0 100 7, .up 1 7 7]).peers).map
    (fun p => (p.addr, p.outbound, p.valid)) = [(7, true, true), (7, true, true)] := by decide +kernel

/-- A peer that is not a full node stays among the synced peers if its answer about its height comes before the one about
    its type. -/
theorem C170_light : (let s := run conf1 (fun _ => true) 1000000 (start [] []) [.accept 5 5, .synced 0 true, .info 0 false]
    (s.synced, s.peers.map (·.full))) = ([0], [false]) := by decide +kernel

/-- A peer that answers with our own id has its address taken for ours: it is not dialled any more, also when another node is there. -/
theorem C170_own : (run conf1 (fun _ => true) 1000000 (start [] [7]) [.accept 50 7, .ownId 0, .task 7, .connect [] [(7, 7)]]).dialing = []
    ∧ (run conf1 (fun _ => true) 1000000 (start [] [7]) [.accept 50 7, .lost 0, .task 7, .connect [] [(7, 7)]]).dialing = [(1, 7)] := by
  decide +kernel

/-- Private addresses `172.16.` to `172.31.` are handed out. -/
theorem C170_private : getPeers id ["172.16.0.1".toList, "10.0.0.1".toList] ["8.8.8.8".toList] 5 =
    ["172.16.0.1".toList, "8.8.8.8".toList] := by decide +kernel

/-! ### Cases -/

/-- Two peers, one dialled and one that came in; a third attempt fails. -/
def someRun : List Event :=
  [.connect [(100, 1)] [(2, 2), (3, 3)], .up 0 100 1, .up 1 2 2, .failed 2 3, .accept 9 2, .synced 0 true, .synced 3 true, .info 0 true]

example : (run conf1 (fun _ => true) 1000000 (start [] [2, 3]) someRun).peers.map (fun p => (p.client, p.addr, p.outbound)) =
    [(0, 1, true), (1, 2, true), (3, 2, false)] := by decide +kernel

/-- The attempt that failed is on the list until its task runs. -/
example : (run conf1 (fun _ => true) 1000000 (start [] [2, 3]) someRun).tasks = [(3, 2)] := by decide +kernel
example : (run conf1 (fun _ => true) 1000000 (start [] [2, 3]) (someRun ++ [.task 3])).tasks = [] := by decide +kernel
example : (run conf1 (fun _ => true) 1000000 (start [] [2, 3]) (someRun ++ [.task 3])).closing = [] := by decide +kernel

/-- Kicking address 2 ends both connections with it, and it gets no new one. -/
def kicked : List Event := someRun ++ [.task 3, .kick 2, .accept 9 2, .connect [] [(2, 2), (4, 4)], .up 5 4 4, .task 2, .task 2, .task 2]

example : (let s := run conf1 (fun _ => true) 1000000 (start [] [2, 3]) kicked
    (s.peers.map (fun p => (p.client, p.addr, p.valid)), s.banned, s.closing, s.synced)) =
    ([(0, 1, true), (5, 4, true)], [2], [], [0]) := by decide +kernel

/-- With room for two entries the first banned address is forgotten. -/
example : (run conf1 (fun _ => true) 2 (start [] [2, 3]) [.accept 1 1, .accept 2 2, .accept 3 3, .kick 1, .kick 2, .kick 3]).banned =
    [2, 3] := by decide +kernel

end Verif.Router.Connections
