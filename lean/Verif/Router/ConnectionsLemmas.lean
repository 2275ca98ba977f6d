import Verif.Router.Connections

/-! # Lemmas on the router's lists of connections -/

namespace Verif.Router.Connections

theorem mem_setInsert {l : List Nat} {a x : Nat} : x ∈ setInsert l a ↔ x ∈ l ∨ x = a := by
  unfold setInsert
  by_cases h : a ∈ l
  · rw [if_pos h]
    exact ⟨.inl, fun g => g.elim id (fun e => e ▸ h)⟩
  · rw [if_neg h]; simp

theorem mem_setErase {l : List Nat} {a x : Nat} : x ∈ setErase l a ↔ x ∈ l ∧ x ≠ a := by
  unfold setErase
  rw [List.mem_filter, decide_eq_true_eq]

theorem mem_sorted {a x : Nat} : ∀ {l : List Nat}, x ∈ setInsertSorted a l ↔ x = a ∨ x ∈ l
  | [] => by simp [setInsertSorted]
  | b :: l => by
    unfold setInsertSorted
    by_cases h : a < b
    · rw [if_pos h]; simp
    · rw [if_neg h]
      by_cases e : a = b
      · rw [if_pos e]; subst e; simp
      · rw [if_neg e, List.mem_cons, mem_sorted (l := l), List.mem_cons]
        constructor
        · rintro (h | h | h)
          · exact .inr (.inl h)
          · exact .inl h
          · exact .inr (.inr h)
        · rintro (h | h | h)
          · exact .inr (.inl h)
          · exact .inl h
          · exact .inr (.inr h)

theorem mem_uniq {α : Type} [DecidableEq α] {x : α} : ∀ {l : List α}, x ∈ uniq l ↔ x ∈ l
  | [] => Iff.rfl
  | a :: l => by
    unfold uniq
    by_cases h : a ∈ l
    · rw [if_pos h, mem_uniq (l := l), List.mem_cons]
      exact ⟨.inr, fun g => g.elim (fun e => e ▸ h) id⟩
    · rw [if_neg h, List.mem_cons, List.mem_cons, mem_uniq (l := l)]

theorem nodup_uniq {α : Type} [DecidableEq α] : ∀ (l : List α), (uniq l).Nodup
  | [] => List.nodup_nil
  | a :: l => by
    unfold uniq
    by_cases h : a ∈ l
    · rw [if_pos h]; exact nodup_uniq l
    · rw [if_neg h]; exact List.nodup_cons.2 ⟨fun g => h (mem_uniq.1 g), nodup_uniq l⟩

theorem mem_banLoop {limit a x : Nat} : ∀ {n : Nat} {b : List Nat}, x ∈ banLoop limit a n b → x = a ∨ x ∈ b
  | 0, _, h => .inr h
  | n + 1, b, h => by
    rcases mem_banLoop (n := n) h with h | h
    · exact .inl h
    · rcases mem_sorted.1 h with h | h
      · exact .inl h
      · by_cases g : limit ≤ b.length
        · rw [if_pos g] at h; exact .inr (List.mem_of_mem_tail h)
        · rw [if_neg g] at h; exact .inr h

/-- One round puts the address in the list; further rounds keep it there. -/
theorem banLoop_self {limit a : Nat} : ∀ {n : Nat} {b : List Nat}, a ∈ banLoop limit a (n + 1) b
  | 0, _ => mem_sorted.2 (.inl rfl)
  | n + 1, b => by
    unfold banLoop
    exact banLoop_self (n := n)

/-- With room in the list nothing is thrown out. -/
theorem banLoop_keeps {limit a x : Nat} : ∀ {n : Nat} {b : List Nat}, x ∈ b → b.length + n ≤ limit → x ∈ banLoop limit a n b
  | 0, _, h, _ => h
  | n + 1, b, h, g => by
    unfold banLoop
    rw [if_neg (by omega)]
    refine banLoop_keeps (n := n) (mem_sorted.2 (.inr h)) ?_
    have : (setInsertSorted a b).length ≤ b.length + 1 := by
      clear h g
      induction b with
      | nil => exact Nat.le_refl _
      | cons c l ih =>
        unfold setInsertSorted
        by_cases h1 : a < c
        · rw [if_pos h1]; simp
        · rw [if_neg h1]
          by_cases h2 : a = c
          · rw [if_pos h2]; simp
          · rw [if_neg h2]; simpa using ih
    omega

theorem task_some {s : State} {h c : Nat} (e : s.task h = some c) : (h, c) ∈ s.tasks := by
  unfold State.task at e
  cases hf : s.tasks.find? (fun t => decide (t.1 = h)) with
  | none => rw [hf] at e; exact nomatch e
  | some t =>
    rw [hf] at e
    have h1 := List.mem_of_find?_eq_some hf
    have h2 : t.1 = h := by simpa using List.find?_some hf
    have h3 : t.2 = c := Option.some.inj e
    rw [← h2, ← h3]; exact h1

theorem task_none {s : State} {h : Nat} (e : s.task h = none) : ∀ c, (h, c) ∉ s.tasks := by
  intro c hm
  unfold State.task at e
  rw [Option.map_eq_none_iff, List.find?_eq_none] at e
  exact e _ hm (decide_eq_true rfl)

theorem unique_key {l : List (Nat × Nat)} (n : (l.map (·.1)).Nodup) {h c d : Nat} (x : (h, c) ∈ l) (y : (h, d) ∈ l) : c = d := by
  induction l with
  | nil => exact absurd x List.not_mem_nil
  | cons t l ih =>
    rw [List.map_cons, List.nodup_cons] at n
    rcases List.mem_cons.1 x with x | x
    · rcases List.mem_cons.1 y with y | y
      · rw [← x] at y; exact (Prod.mk.inj y).2.symm
      · exact absurd (List.mem_map.2 ⟨(h, d), y, by rw [← x]⟩) n.1
    · rcases List.mem_cons.1 y with y | y
      · exact absurd (List.mem_map.2 ⟨(h, c), x, by rw [← y]⟩) n.1
      · exact ih n.2 x y

theorem task_eq {s : State} (n : (s.tasks.map (·.1)).Nodup) {h c : Nat} (x : (h, c) ∈ s.tasks) : s.task h = some c := by
  cases e : s.task h with
  | none => exact absurd x (task_none e c)
  | some d => rw [unique_key n (task_some e) x]

theorem peer_some {s : State} {c : Nat} {p : Conn} (e : s.peer c = some p) : p ∈ s.peers ∧ p.client = c :=
  ⟨List.mem_of_find?_eq_some e, by unfold State.peer at e; simpa using List.find?_some e⟩

theorem peer_none {s : State} {c : Nat} (e : s.peer c = none) : ∀ p ∈ s.peers, p.client ≠ c := by
  intro p hp h
  unfold State.peer at e
  rw [List.find?_eq_none] at e
  exact e p hp (decide_eq_true h)

/-- What holds at all times. -/
structure Inv (conf : Conf) (s : State) : Prop where
  addrs : s.byAddr = s.peers.map fun p => (p.addr, p.client)
  fresh : ∀ p ∈ s.peers, p.client < s.nextClient
  one : (s.peers.map (·.client)).Nodup
  ban : ∀ p ∈ s.peers, p.valid = true → p.addr ∉ s.banned
  ended : ∀ p ∈ s.peers, p.valid = false → (p.client, p.host) ∈ s.closing
  syn : ∀ c ∈ s.synced, ∃ p ∈ s.peers, p.client = c
  task : ∀ h c, (h, c) ∈ s.tasks → (c, h) ∈ s.dialing ∨ (c, h) ∈ s.closing
  keys : (s.tasks.map (·.1)).Nodup
  room : (s.tasks.filter fun t => decide (t.1 ∉ conf.fixed)).length ≤ 2 * conf.numOut
  dialFresh : ∀ d ∈ s.dialing, d.1 < s.nextClient
  dialPeer : ∀ d ∈ s.dialing, ∀ p ∈ s.peers, p.client ≠ d.1
  dialOne : ∀ d ∈ s.dialing, ∀ e ∈ s.dialing, d.1 = e.1 → d = e
  dialClosing : ∀ d ∈ s.dialing, ∀ e ∈ s.closing, e.1 ≠ d.1
  closeFresh : ∀ d ∈ s.closing, d.1 < s.nextClient
  closePeer : ∀ d ∈ s.closing, ∀ p ∈ s.peers, p.client = d.1 → p.valid = false
  closeOne : (s.closing.map (·.1)).Nodup

theorem inv_start (conf : Conf) (b k : List Nat) : Inv conf (start b k) := by
  constructor <;> simp [start]

theorem inv_connectTo {conf : Conf} {s : State} (i : Inv conf s) {h : Nat}
    (g : h ∈ conf.fixed ∨ s.tasks.length < 2 * conf.numOut) : Inv conf (connectTo s h) := by
  unfold connectTo
  by_cases e : (s.task h).isSome
  · rw [if_pos e]; exact i
  · rw [if_neg e]
    have hn : s.task h = none := by
      cases hh : s.task h with
      | none => rfl
      | some c => rw [hh] at e; exact absurd rfl e
    constructor
    · exact i.addrs
    · exact fun p hp => Nat.lt_succ_of_lt (i.fresh p hp)
    · exact i.one
    · exact i.ban
    · exact i.ended
    · exact i.syn
    · intro h' c hm
      rcases List.mem_append.1 hm with hm | hm
      · rcases i.task h' c hm with g | g
        · exact .inl (List.mem_append_left _ g)
        · exact .inr g
      · have := List.mem_singleton.1 hm
        cases this
        exact .inl (List.mem_append_right _ (List.mem_singleton.2 rfl))
    · show ((s.tasks ++ [(h, s.nextClient)]).map (·.1)).Nodup
      rw [List.map_append, List.nodup_append]
      refine ⟨i.keys, by simp, ?_⟩
      intro a ha b hb
      rw [List.map_singleton, List.mem_singleton] at hb
      obtain ⟨t, ht, hta⟩ := List.mem_map.1 ha
      intro hab
      have : (h, t.2) ∈ s.tasks := by
        have e1 : t.1 = h := by rw [hta, hab, hb]
        rw [← e1]; exact ht
      exact task_none hn t.2 this
    · show ((s.tasks ++ [(h, s.nextClient)]).filter fun t => decide (t.1 ∉ conf.fixed)).length ≤ _
      rw [List.filter_append, List.length_append]
      have h1 := List.length_filter_le (fun t : Nat × Nat => decide (t.1 ∉ conf.fixed)) s.tasks
      have h2 := i.room
      rcases g with g | g
      · have : [(h, s.nextClient)].filter (fun t : Nat × Nat => decide (t.1 ∉ conf.fixed)) = [] := by simp [g]
        rw [this]; exact h2
      · have := List.length_filter_le (fun t : Nat × Nat => decide (t.1 ∉ conf.fixed)) [(h, s.nextClient)]
        rw [List.length_singleton] at this
        omega
    · intro d hd
      rcases List.mem_append.1 hd with hd | hd
      · exact Nat.lt_succ_of_lt (i.dialFresh d hd)
      · rw [List.mem_singleton.1 hd]; exact Nat.lt_succ_self _
    · intro d hd p hp
      rcases List.mem_append.1 hd with hd | hd
      · exact i.dialPeer d hd p hp
      · rw [List.mem_singleton.1 hd]; exact Nat.ne_of_lt (i.fresh p hp)
    · intro d hd d' hd' hh
      rcases List.mem_append.1 hd with hd | hd
      · rcases List.mem_append.1 hd' with hd' | hd'
        · exact i.dialOne d hd d' hd' hh
        · have h1 := i.dialFresh d hd
          rw [List.mem_singleton.1 hd'] at hh
          exact absurd hh (Nat.ne_of_lt h1)
      · rcases List.mem_append.1 hd' with hd' | hd'
        · have h1 := i.dialFresh d' hd'
          rw [List.mem_singleton.1 hd] at hh
          exact absurd hh.symm (Nat.ne_of_lt h1)
        · rw [List.mem_singleton.1 hd, List.mem_singleton.1 hd']
    · intro d hd d' hd'
      rcases List.mem_append.1 hd with hd | hd
      · exact i.dialClosing d hd d' hd'
      · rw [List.mem_singleton.1 hd]; exact Nat.ne_of_lt (i.closeFresh d' hd')
    · exact fun d hd => Nat.lt_succ_of_lt (i.closeFresh d hd)
    · exact i.closePeer
    · exact i.closeOne

theorem inv_retry {conf : Conf} {s : State} (i : Inv conf s) (r : List Nat) : Inv conf { s with retry := r } := by
  cases i; constructor <;> assumption

theorem inv_self {conf : Conf} {s : State} (i : Inv conf s) (r : List Nat) : Inv conf { s with self := r } := by
  cases i; constructor <;> assumption

theorem inv_fixed {conf : Conf} : ∀ (l : List (Nat × Nat)) {s : State}, Inv conf s → Inv conf (l.foldl (dialFixed conf) s)
  | [], _, i => i
  | ha :: l, s, i => by
    refine inv_fixed l ?_
    unfold dialFixed
    by_cases g : ha.1 ∈ conf.fixed ∧ ¬ ha.2 ∈ s.byAddr.map (·.1)
    · rw [if_pos g]; exact inv_connectTo i (.inl g.1)
    · rw [if_neg g]; exact i

theorem inv_new {conf : Conf} : ∀ (l : List Nat) {s : State}, Inv conf s → Inv conf (dialNew conf l s)
  | [], _, i => i
  | a :: l, s, i => by
    unfold dialNew
    by_cases g : 2 * conf.numOut ≤ s.tasks.length
    · rw [if_pos g]; exact i
    · rw [if_neg g]
      exact inv_new l (inv_retry (inv_connectTo i (.inr (by omega))) _)

theorem inv_connect {conf : Conf} {s : State} (i : Inv conf s) (f t : List (Nat × Nat)) : Inv conf (connect conf s f t) :=
  inv_new _ (inv_fixed f i)

theorem mem_close {s : State} {sel : Conn → Bool} {q : Conn} (h : q ∈ (closePeers s sel).peers) :
    ∃ p ∈ s.peers, q.client = p.client ∧ q.addr = p.addr ∧ q.host = p.host ∧
      (q.valid = true → p.valid = true ∧ sel p = false) ∧ (q.valid = false → p.valid = false ∨ sel p = true) := by
  obtain ⟨p, hp, e⟩ := List.mem_map.1 h
  refine ⟨p, hp, ?_⟩
  by_cases g : sel p = true
  · rw [if_pos g] at e
    subst e
    exact ⟨rfl, rfl, rfl, (fun h => nomatch h), (fun _ => .inr g)⟩
  · rw [if_neg g] at e
    subst e
    exact ⟨rfl, rfl, rfl, fun h => ⟨h, Bool.eq_false_iff.2 g⟩, fun h => .inl h⟩

theorem unique_client {l : List Conn} (n : (l.map (·.client)).Nodup) {p q : Conn} (hp : p ∈ l) (hq : q ∈ l)
    (e : p.client = q.client) : p = q := by
  induction l with
  | nil => exact absurd hp List.not_mem_nil
  | cons t l ih =>
    rw [List.map_cons, List.nodup_cons] at n
    rcases List.mem_cons.1 hp with hp | hp
    · rcases List.mem_cons.1 hq with hq | hq
      · rw [hp, hq]
      · exact absurd (List.mem_map.2 ⟨q, hq, by rw [← e, hp]⟩) n.1
    · rcases List.mem_cons.1 hq with hq | hq
      · exact absurd (List.mem_map.2 ⟨p, hp, by rw [e, hq]⟩) n.1
      · exact ih n.2 hp hq

/-- Ending connections keeps the invariant; so does banning addresses whose connections are all ended. -/
theorem inv_close {conf : Conf} {s : State} (i : Inv conf s) (sel : Conn → Bool) (b : List Nat)
    (hb : ∀ p ∈ s.peers, p.valid = true → sel p = false → p.addr ∉ b) :
    Inv conf (closePeers { s with banned := b } sel) := by
  have old : ∀ {q : Conn}, q ∈ (closePeers { s with banned := b } sel).peers → _ := fun h => mem_close h
  have mapc : ((closePeers { s with banned := b } sel).peers).map (·.client) = s.peers.map (·.client) := by
    show (s.peers.map _).map _ = _
    rw [List.map_map]
    refine List.map_congr_left fun p _ => ?_
    show (if sel p then { p with valid := false } else p).client = p.client
    by_cases g : sel p = true
    · rw [if_pos g]
    · rw [if_neg g]
  constructor
  · show s.byAddr = (s.peers.map _).map _
    rw [i.addrs, List.map_map]
    refine List.map_congr_left fun p _ => ?_
    show (p.addr, p.client) = ((if sel p then { p with valid := false } else p).addr, (if sel p then { p with valid := false } else p).client)
    by_cases g : sel p = true
    · rw [if_pos g]
    · rw [if_neg g]
  · intro q hq
    obtain ⟨p, hp, e, _⟩ := old hq
    rw [e]; exact i.fresh p hp
  · rw [mapc]; exact i.one
  · intro q hq hv
    obtain ⟨p, hp, _, e, _, h, _⟩ := old hq
    rw [e]; exact hb p hp (h hv).1 (h hv).2
  · intro q hq hv
    obtain ⟨p, hp, e1, _, e2, _, h⟩ := old hq
    show (q.client, q.host) ∈ s.closing ++ _
    rw [e1, e2]
    by_cases g : p.valid = true
    · rcases h hv with h | h
      · rw [g] at h; exact nomatch h
      · exact List.mem_append_right _ (List.mem_map.2 ⟨p, List.mem_filter.2 ⟨hp, by rw [h, g]; rfl⟩, rfl⟩)
    · exact List.mem_append_left _ (i.ended p hp (Bool.eq_false_iff.2 g))
  · intro c hc
    obtain ⟨p, hp, e⟩ := i.syn c hc
    have : c ∈ (closePeers { s with banned := b } sel).peers.map (·.client) := by
      rw [mapc]; exact List.mem_map.2 ⟨p, hp, e⟩
    obtain ⟨q, hq, e'⟩ := List.mem_map.1 this
    exact ⟨q, hq, e'⟩
  · intro h c hm
    rcases i.task h c hm with g | g
    · exact .inl g
    · exact .inr (List.mem_append_left _ g)
  · exact i.keys
  · exact i.room
  · exact i.dialFresh
  · intro d hd q hq
    obtain ⟨p, hp, e, _⟩ := old hq
    rw [e]; exact i.dialPeer d hd p hp
  · exact i.dialOne
  · intro d hd e he
    rcases List.mem_append.1 he with he | he
    · exact i.dialClosing d hd e he
    · obtain ⟨p, hp, e'⟩ := List.mem_map.1 he
      rw [← e']
      exact i.dialPeer d hd p (List.mem_filter.1 hp).1
  · intro d hd
    rcases List.mem_append.1 hd with hd | hd
    · exact i.closeFresh d hd
    · obtain ⟨p, hp, e'⟩ := List.mem_map.1 hd
      rw [← e']
      exact i.fresh p (List.mem_filter.1 hp).1
  · intro d hd q hq hh
    cases hv : q.valid with
    | false => rfl
    | true =>
      obtain ⟨p, hp, e1, _, _, h, _⟩ := old hq
      rcases List.mem_append.1 hd with hd | hd
      · have := i.closePeer d hd p hp (by rw [← e1]; exact hh)
        rw [(h hv).1] at this; exact nomatch this
      · obtain ⟨p', hp', e'⟩ := List.mem_map.1 hd
        have hf := List.mem_filter.1 hp'
        have : p' = p := unique_client i.one hf.1 hp (by rw [← e1, hh, ← e'])
        subst this
        have := (Bool.and_eq_true_iff.1 hf.2).1
        rw [(h hv).2] at this; exact nomatch this
  · show ((s.closing ++ (s.peers.filter fun p => sel p && p.valid).map fun p => (p.client, p.host)).map (·.1)).Nodup
    rw [List.map_append, List.map_map, List.nodup_append]
    refine ⟨i.closeOne, (List.filter_sublist.map _).nodup i.one, fun x hx y hy e => ?_⟩
    obtain ⟨d, hd, ex⟩ := List.mem_map.1 hx
    obtain ⟨p, hp, ey⟩ := List.mem_map.1 hy
    have hp := List.mem_filter.1 hp
    have h1 := i.closePeer d hd p hp.1 (by rw [show p.client = y from ey, ← e, ex])
    have h2 := (Bool.and_eq_true_iff.1 hp.2).2
    rw [h1] at h2; exact nomatch h2

theorem inv_onConnect {conf : Conf} {s : State} {c h a : Nat} (i : Inv conf s) (hc : c < s.nextClient)
    (hp : ∀ p ∈ s.peers, p.client ≠ c) (hd : ∀ d ∈ s.dialing, d.1 ≠ c) (hq : ∀ d ∈ s.closing, d.1 ≠ c)
    (t : List (Nat × Nat)) (n : ((t).map (·.1)).Nodup)
    (tc : ∀ h' c', (h', c') ∈ t → (h', c') ∈ s.tasks ∨ (h', c') = (h, c))
    (tr : (t.filter fun t => decide (t.1 ∉ conf.fixed)).length ≤ 2 * conf.numOut) :
    Inv conf (onConnect { s with tasks := t } c h a) := by
  have h0 : ∀ k x o, Inv conf { s with known := k, tasks := x, peers := s.peers ++ [{ client := c, host := h, addr := a, outbound := o }], byAddr := s.byAddr ++ [(a, c)] } ∨ a ∈ s.banned ∨ ¬ (∀ y ∈ x, y ∈ s.tasks) ∨ ¬ (x.map (·.1)).Nodup ∨
        ¬ (x.filter fun t => decide (t.1 ∉ conf.fixed)).length ≤ 2 * conf.numOut := by
    intro k x o
    by_cases hb : a ∈ s.banned
    · exact .inr (.inl hb)
    by_cases hx : ∀ y ∈ x, y ∈ s.tasks
    case neg => exact .inr (.inr (.inl hx))
    by_cases hn : (x.map (·.1)).Nodup
    case neg => exact .inr (.inr (.inr (.inl hn)))
    by_cases hr : (x.filter fun t => decide (t.1 ∉ conf.fixed)).length ≤ 2 * conf.numOut
    case neg => exact .inr (.inr (.inr (.inr hr)))
    refine .inl ?_
    constructor
    · show s.byAddr ++ [(a, c)] = (s.peers ++ _).map _
      rw [i.addrs, List.map_append]; rfl
    · intro p hm
      rcases List.mem_append.1 hm with hm | hm
      · exact i.fresh p hm
      · rw [List.mem_singleton.1 hm]; exact hc
    · show ((s.peers ++ _).map _).Nodup
      rw [List.map_append, List.nodup_append]
      refine ⟨i.one, by simp, ?_⟩
      intro y hy z hz
      rw [List.map_singleton, List.mem_singleton] at hz
      obtain ⟨p, hm, e⟩ := List.mem_map.1 hy
      rw [hz, ← e]; exact hp p hm
    · intro p hm hv
      rcases List.mem_append.1 hm with hm | hm
      · exact i.ban p hm hv
      · rw [List.mem_singleton.1 hm]; exact hb
    · intro p hm hv
      rcases List.mem_append.1 hm with hm | hm
      · exact i.ended p hm hv
      · rw [List.mem_singleton.1 hm] at hv; exact nomatch hv
    · intro x hx
      obtain ⟨p, hm, e⟩ := i.syn x hx
      exact ⟨p, List.mem_append_left _ hm, e⟩
    · exact fun h' c' hm => i.task h' c' (hx _ hm)
    · exact hn
    · exact hr
    · exact i.dialFresh
    · intro d hdm p hm
      rcases List.mem_append.1 hm with hm | hm
      · exact i.dialPeer d hdm p hm
      · rw [List.mem_singleton.1 hm]; exact fun e => hd d hdm e.symm
    · exact i.dialOne
    · exact i.dialClosing
    · exact i.closeFresh
    · intro d hdm p hm e
      rcases List.mem_append.1 hm with hm | hm
      · exact i.closePeer d hdm p hm e
      · rw [List.mem_singleton.1 hm] at e
        exact absurd e.symm (hq d hdm)
    · exact i.closeOne
  unfold onConnect
  by_cases hb : a ∈ s.banned
  · rw [if_pos hb]
    constructor
    · exact i.addrs
    · exact i.fresh
    · exact i.one
    · exact i.ban
    · exact fun p hm hv => List.mem_append_left _ (i.ended p hm hv)
    · exact i.syn
    · intro h' c' hm
      rcases tc h' c' hm with hm | hm
      · rcases i.task h' c' hm with g | g
        · exact .inl g
        · exact .inr (List.mem_append_left _ g)
      · cases hm
        exact .inr (List.mem_append_right _ (List.mem_singleton.2 rfl))
    · exact n
    · exact tr
    · exact i.dialFresh
    · exact i.dialPeer
    · exact i.dialOne
    · intro d hdm e he
      rcases List.mem_append.1 he with he | he
      · exact i.dialClosing d hdm e he
      · rw [List.mem_singleton.1 he]; exact fun e => hd d hdm e.symm
    · intro d hdm
      rcases List.mem_append.1 hdm with hdm | hdm
      · exact i.closeFresh d hdm
      · rw [List.mem_singleton.1 hdm]; exact hc
    · intro d hdm p hm e
      rcases List.mem_append.1 hdm with hdm | hdm
      · exact i.closePeer d hdm p hm e
      · rw [List.mem_singleton.1 hdm] at e; exact absurd e (hp p hm)
    · show ((s.closing ++ [(c, h)]).map (·.1)).Nodup
      rw [List.map_append, List.nodup_append]
      refine ⟨i.closeOne, by simp, fun x hx y hy e => ?_⟩
      rw [List.map_singleton, List.mem_singleton] at hy
      obtain ⟨d, hm, ex⟩ := List.mem_map.1 hx
      exact hq d hm (by rw [ex, e, hy])
  · rw [if_neg hb]
    have sub : ∀ (f : Nat × Nat → Bool), ((t.filter f).map (·.1)).Nodup := fun f => (List.filter_sublist.map _).nodup n
    by_cases ht : State.task { s with tasks := t } h = some c
    · rw [if_pos ht]
      rcases h0 (setInsert s.known a) (t.filter fun t => decide (t.1 ≠ h)) true with g | g | g | g | g
      · exact g
      · exact absurd g hb
      · refine absurd (fun y hy => ?_) g
        have hy := List.mem_filter.1 hy
        rcases tc y.1 y.2 hy.1 with k | k
        · exact k
        · have : y.1 = h := congrArg Prod.fst k
          exact absurd this (of_decide_eq_true hy.2)
      · exact absurd (sub _) g
      · refine absurd ?_ g
        rw [List.filter_filter]
        refine Nat.le_trans ?_ tr
        refine List.Sublist.length_le ?_
        rw [show (fun (a : Nat × Nat) => (decide (a.1 ∉ conf.fixed) && decide (a.1 ≠ h))) =
          fun a => (decide (a.1 ≠ h) && decide (a.1 ∉ conf.fixed)) from funext fun a => Bool.and_comm _ _]
        rw [← List.filter_filter]
        exact List.filter_sublist
    · rw [if_neg ht]
      have hs : ∀ y ∈ t, y ∈ s.tasks := by
        intro y hy
        rcases tc y.1 y.2 hy with k | k
        · exact k
        · refine absurd (task_eq (s := { s with tasks := t }) n ?_) ht
          show (h, c) ∈ t
          rw [← show y = (h, c) from k]; exact hy
      rcases h0 s.known t false with g | g | g | g | g
      · exact g
      · exact absurd g hb
      · exact absurd hs g
      · exact absurd n g
      · exact absurd tr g

theorem room_filter {conf : Conf} {t : List (Nat × Nat)} (f : Nat × Nat → Bool)
    (r : (t.filter fun t => decide (t.1 ∉ conf.fixed)).length ≤ 2 * conf.numOut) :
    ((t.filter f).filter fun t => decide (t.1 ∉ conf.fixed)).length ≤ 2 * conf.numOut :=
  Nat.le_trans (List.Sublist.length_le (List.filter_sublist.filter _)) r

theorem inv_endDial {conf : Conf} {s : State} (i : Inv conf s) (c h : Nat) :
    Inv conf { endDial s c h with tasks := s.tasks.filter fun t => decide (t ≠ (h, c)) } := by
  constructor
  · exact i.addrs
  · exact i.fresh
  · exact i.one
  · exact i.ban
  · exact i.ended
  · exact i.syn
  · intro h' c' hm
    have hm := List.mem_filter.1 hm
    rcases i.task h' c' hm.1 with g | g
    · refine .inl (List.mem_filter.2 ⟨g, decide_eq_true fun e => ?_⟩)
      cases e
      exact absurd rfl (of_decide_eq_true hm.2)
    · exact .inr g
  · exact (List.filter_sublist.map _).nodup i.keys
  · exact room_filter _ i.room
  · exact fun d hd => i.dialFresh d (List.mem_filter.1 hd).1
  · exact fun d hd => i.dialPeer d (List.mem_filter.1 hd).1
  · exact fun d hd e he => i.dialOne d (List.mem_filter.1 hd).1 e (List.mem_filter.1 he).1
  · exact fun d hd => i.dialClosing d (List.mem_filter.1 hd).1
  · exact i.closeFresh
  · exact i.closePeer
  · exact i.closeOne

theorem endDial_ne {conf : Conf} {s : State} (i : Inv conf s) {c h : Nat} (hd : (c, h) ∈ s.dialing) :
    ∀ d ∈ (endDial s c h).dialing, d.1 ≠ c := by
  intro d hm e
  have hm := List.mem_filter.1 hm
  exact of_decide_eq_true hm.2 (i.dialOne d hm.1 (c, h) hd e)

theorem task_or {s : State} {h c : Nat} (h' c' : Nat) (hm : (h', c') ∈ s.tasks) :
    (h', c') ∈ (s.tasks.filter fun t => decide (t ≠ (h, c))) ∨ (h', c') = (h, c) := by
  by_cases e : (h', c') = (h, c)
  · exact .inr e
  · exact .inl (List.mem_filter.2 ⟨hm, decide_eq_true e⟩)

theorem inv_up {conf : Conf} {s : State} (i : Inv conf s) {c h a : Nat} (hd : (c, h) ∈ s.dialing) :
    Inv conf (onConnect (endDial s c h) c h a) :=
  inv_onConnect (s := { endDial s c h with tasks := s.tasks.filter fun t => decide (t ≠ (h, c)) }) (inv_endDial i c h)
    (i.dialFresh _ hd) (i.dialPeer _ hd) (endDial_ne i hd) (fun d hm => i.dialClosing _ hd d hm)
    s.tasks i.keys task_or i.room

theorem inv_accept {conf : Conf} {s : State} (i : Inv conf s) {h a : Nat} :
    Inv conf (onConnect { s with nextClient := s.nextClient + 1 } s.nextClient h a) := by
  have j : Inv conf { s with nextClient := s.nextClient + 1 } := by
    obtain ⟨a1, a2, a3, a4, a5, a6, a7, a8, a9, a10, a11, a12, a13, a14, a15, a16⟩ := i
    exact ⟨a1, fun p hp => Nat.lt_succ_of_lt (a2 p hp), a3, a4, a5, a6, a7, a8, a9, fun d hd => Nat.lt_succ_of_lt (a10 d hd),
      a11, a12, a13, fun d hd => Nat.lt_succ_of_lt (a14 d hd), a15, a16⟩
  exact inv_onConnect (s := { s with nextClient := s.nextClient + 1 }) j (Nat.lt_succ_self _)
    (fun p hp => Nat.ne_of_lt (i.fresh p hp)) (fun d hd => Nat.ne_of_lt (i.dialFresh d hd))
    (fun d hd => Nat.ne_of_lt (i.closeFresh d hd)) s.tasks i.keys (fun _ _ hm => .inl hm) i.room

theorem inv_failed {conf : Conf} {s : State} (i : Inv conf s) {c h : Nat} (hd : (c, h) ∈ s.dialing) :
    Inv conf { endDial s c h with closing := s.closing ++ [(c, h)] } := by
  constructor
  · exact i.addrs
  · exact i.fresh
  · exact i.one
  · exact i.ban
  · exact fun p hp hv => List.mem_append_left _ (i.ended p hp hv)
  · exact i.syn
  · intro h' c' hm
    rcases i.task h' c' hm with g | g
    · by_cases e : (c', h') = (c, h)
      · exact .inr (List.mem_append_right _ (List.mem_singleton.2 e))
      · exact .inl (List.mem_filter.2 ⟨g, decide_eq_true e⟩)
    · exact .inr (List.mem_append_left _ g)
  · exact i.keys
  · exact i.room
  · exact fun d hd => i.dialFresh d (List.mem_filter.1 hd).1
  · exact fun d hd => i.dialPeer d (List.mem_filter.1 hd).1
  · exact fun d hd e he => i.dialOne d (List.mem_filter.1 hd).1 e (List.mem_filter.1 he).1
  · intro d hm e he
    rcases List.mem_append.1 he with he | he
    · exact i.dialClosing d (List.mem_filter.1 hm).1 e he
    · rw [List.mem_singleton.1 he]
      exact fun x => endDial_ne i hd d hm x.symm
  · intro d hm
    rcases List.mem_append.1 hm with hm | hm
    · exact i.closeFresh d hm
    · rw [List.mem_singleton.1 hm]; exact i.dialFresh _ hd
  · intro d hm p hp e
    rcases List.mem_append.1 hm with hm | hm
    · exact i.closePeer d hm p hp e
    · rw [List.mem_singleton.1 hm] at e
      exact absurd e (i.dialPeer _ hd p hp)
  · show ((s.closing ++ [(c, h)]).map (·.1)).Nodup
    rw [List.map_append, List.nodup_append]
    refine ⟨i.closeOne, by simp, fun x hx y hy e => ?_⟩
    rw [List.map_singleton, List.mem_singleton] at hy
    obtain ⟨d, hm, ex⟩ := List.mem_map.1 hx
    exact i.dialClosing _ hd d hm (by rw [ex, e, hy])

theorem eraseAddr_eq {conf : Conf} {s : State} (i : Inv conf s) (c : Nat) (cl : List (Nat × Nat)) :
    eraseAddr { s with closing := cl } c = (s.peers.filter fun p => decide (p.client ≠ c)).map fun p => (p.addr, p.client) := by
  unfold eraseAddr
  cases e : State.peer { s with closing := cl } c with
  | none =>
    have hn := peer_none e
    show s.byAddr = _
    rw [List.filter_eq_self.2 (fun p hp => decide_eq_true (hn p hp))]
    exact i.addrs
  | some p =>
    obtain ⟨hp, hc⟩ := peer_some e
    show s.byAddr.filter _ = _
    rw [i.addrs, List.filter_map]
    congr 1
    refine List.filter_congr fun q hq => ?_
    show decide ((q.addr, q.client) ≠ (p.addr, c)) = decide (q.client ≠ c)
    refine decide_eq_decide.2 ⟨fun h g => h ?_, fun h g => h (congrArg Prod.snd g)⟩
    have := unique_client i.one hq hp (by rw [g, hc])
    rw [this, hc]

theorem inv_task {conf : Conf} {s : State} (i : Inv conf s) (a : Nat) : Inv conf (runTask s a) := by
  unfold runTask
  cases hc : s.closing with
  | nil => exact i
  | cons d rest =>
    obtain ⟨c, h⟩ := d
    show Inv conf (onClosed { s with closing := rest } c h a)
    have inRest : ∀ {x : Nat × Nat}, x ∈ s.closing → x ≠ (c, h) → x ∈ rest := by
      intro x hx hn
      rw [hc] at hx
      exact (List.mem_cons.1 hx).resolve_left hn
    have fromRest : ∀ {x : Nat × Nat}, x ∈ rest → x ∈ s.closing := fun hx => by rw [hc]; exact List.mem_cons_of_mem _ hx
    have base : ∀ k x r, (∀ h' c', (h', c') ∈ x → (h', c') ∈ s.tasks ∧ (h', c') ≠ (h, c)) → (x.map (·.1)).Nodup →
        (x.filter fun t => decide (t.1 ∉ conf.fixed)).length ≤ 2 * conf.numOut →
        Inv conf { s with
          closing := rest
          byAddr := eraseAddr { s with closing := rest } c
          known := k
          tasks := x
          peers := s.peers.filter fun p => decide (p.client ≠ c)
          synced := setErase s.synced c
          retry := r } := by
      intro k x r hx hn hr
      constructor
      · exact eraseAddr_eq i c rest
      · exact fun p hp => i.fresh p (List.mem_filter.1 hp).1
      · exact (List.filter_sublist.map _).nodup i.one
      · exact fun p hp => i.ban p (List.mem_filter.1 hp).1
      · intro p hp hv
        have hp := List.mem_filter.1 hp
        refine inRest (i.ended p hp.1 hv) fun e => ?_
        exact of_decide_eq_true hp.2 (congrArg Prod.fst e)
      · intro y hy
        have hy := mem_setErase.1 hy
        obtain ⟨p, hp, e⟩ := i.syn y hy.1
        exact ⟨p, List.mem_filter.2 ⟨hp, decide_eq_true (by rw [e]; exact hy.2)⟩, e⟩
      · intro h' c' hm
        obtain ⟨h1, h2⟩ := hx h' c' hm
        rcases i.task h' c' h1 with g | g
        · exact .inl g
        · refine .inr (inRest g fun e => h2 ?_)
          cases e; rfl
      · exact hn
      · exact hr
      · exact i.dialFresh
      · exact fun d hd p hp => i.dialPeer d hd p (List.mem_filter.1 hp).1
      · exact i.dialOne
      · exact fun d hd e he => i.dialClosing d hd e (fromRest he)
      · exact fun d hd => i.closeFresh d (fromRest hd)
      · exact fun d hd p hp => i.closePeer d (fromRest hd) p (List.mem_filter.1 hp).1
      · have := i.closeOne
        rw [hc, List.map_cons] at this
        exact (List.nodup_cons.1 this).2
    unfold onClosed
    by_cases ht : State.task { s with closing := rest } h = some c
    · rw [if_pos ht]
      refine base _ _ _ (fun h' c' hm => ?_) ((List.filter_sublist.map _).nodup i.keys) (room_filter _ i.room)
      have hm := List.mem_filter.1 hm
      exact ⟨hm.1, fun e => of_decide_eq_true hm.2 (congrArg Prod.fst e)⟩
    · rw [if_neg ht]
      refine base s.known s.tasks _ (fun h' c' hm => ⟨hm, fun e => ht ?_⟩) i.keys i.room
      cases e
      exact task_eq (s := { s with closing := rest }) i.keys hm

theorem inv_synced {conf : Conf} {s : State} (i : Inv conf s) (l : List Nat) (h : ∀ c ∈ l, ∃ p ∈ s.peers, p.client = c) :
    Inv conf { s with synced := l } := by
  obtain ⟨a1, a2, a3, a4, a5, a6, a7, a8, a9, a10, a11, a12, a13, a14, a15, a16⟩ := i
  exact ⟨a1, a2, a3, a4, a5, h, a7, a8, a9, a10, a11, a12, a13, a14, a15, a16⟩

theorem mem_info {s : State} {c : Nat} {b : Bool} {q : Conn} (h : q ∈ (onInfo s c b).peers) :
    ∃ p ∈ s.peers, q.client = p.client ∧ q.addr = p.addr ∧ q.host = p.host ∧ q.valid = p.valid := by
  obtain ⟨p, hp, e⟩ := List.mem_map.1 h
  refine ⟨p, hp, ?_⟩
  by_cases g : p.client = c
  · rw [if_pos g] at e; subst e; exact ⟨rfl, rfl, rfl, rfl⟩
  · rw [if_neg g] at e; subst e; exact ⟨rfl, rfl, rfl, rfl⟩

theorem info_map {α : Type} {s : State} {c : Nat} {b : Bool} (f : Conn → α) (hf : ∀ p : Conn, f { p with full := b } = f p) :
    (onInfo s c b).peers.map f = s.peers.map f := by
  show (s.peers.map _).map _ = _
  rw [List.map_map]
  refine List.map_congr_left fun p _ => ?_
  show f (if p.client = c then { p with full := b } else p) = f p
  by_cases g : p.client = c
  · rw [if_pos g]; exact hf p
  · rw [if_neg g]

theorem inv_info {conf : Conf} {s : State} (i : Inv conf s) (c : Nat) (b : Bool) : Inv conf (onInfo s c b) := by
  constructor
  · show s.byAddr = _
    rw [info_map _ (fun _ => rfl)]; exact i.addrs
  · intro q hq
    obtain ⟨p, hp, e, _⟩ := mem_info hq
    rw [e]; exact i.fresh p hp
  · rw [info_map _ (fun _ => rfl)]; exact i.one
  · intro q hq hv
    obtain ⟨p, hp, _, e, _, h⟩ := mem_info hq
    rw [e]; exact i.ban p hp (h ▸ hv)
  · intro q hq hv
    obtain ⟨p, hp, e1, _, e2, h⟩ := mem_info hq
    rw [e1, e2]; exact i.ended p hp (h ▸ hv)
  · intro x hx
    obtain ⟨p, hp, e⟩ := i.syn x hx
    have : x ∈ (onInfo s c b).peers.map (·.client) := by
      rw [info_map _ (fun _ => rfl)]; exact List.mem_map.2 ⟨p, hp, e⟩
    obtain ⟨q, hq, e'⟩ := List.mem_map.1 this
    exact ⟨q, hq, e'⟩
  · exact i.task
  · exact i.keys
  · exact i.room
  · exact i.dialFresh
  · intro d hd q hq
    obtain ⟨p, hp, e, _⟩ := mem_info hq
    rw [e]; exact i.dialPeer d hd p hp
  · exact i.dialOne
  · exact i.dialClosing
  · exact i.closeFresh
  · intro d hd q hq e
    obtain ⟨p, hp, e1, _, _, h⟩ := mem_info hq
    rw [h]; exact i.closePeer d hd p hp (by rw [← e1]; exact e)
  · exact i.closeOne

theorem inv_kick {conf : Conf} {s : State} (i : Inv conf s) (limit a : Nat) : Inv conf (kick limit s a) := by
  refine inv_close i _ _ fun p hp hv hs hb => ?_
  have hn := of_decide_eq_false hs
  rcases mem_banLoop hb with g | g
  · refine hn ?_
    rw [i.addrs]
    exact List.mem_map.2 ⟨p, hp, by rw [g]⟩
  · exact i.ban p hp hv g

theorem inv_step {conf : Conf} {ok : Nat → Bool} {limit : Nat} {s : State} (i : Inv conf s) (e : Event) :
    Inv conf (step conf ok limit s e) := by
  cases e with
  | connect f t => exact inv_connect i f t
  | up c h a =>
    unfold step
    by_cases g : (c, h) ∈ s.dialing
    · simp only [g, if_true]; exact inv_up i g
    · simp only [g, if_false]; exact i
  | failed c h =>
    unfold step
    by_cases g : (c, h) ∈ s.dialing
    · simp only [g, if_true]; exact inv_failed i g
    · simp only [g, if_false]; exact i
  | accept h a => exact inv_accept i
  | lost c => exact inv_close i _ s.banned fun p hp hv _ => i.ban p hp hv
  | task a => exact inv_task i a
  | kick a => exact inv_kick i limit a
  | peers l => exact inv_retry i _
  | synced c yes =>
    show Inv conf (onSynced s c yes)
    unfold onSynced
    cases e : s.peer c with
    | none => exact i
    | some p =>
      cases yes with
      | true =>
        cases hf : p.full with
        | true =>
          simp only [hf, if_true]
          refine inv_synced i _ fun x hx => ?_
          rcases mem_setInsert.1 hx with hx | hx
          · exact i.syn x hx
          · exact ⟨p, (peer_some e).1, by rw [hx]; exact (peer_some e).2⟩
        | false => simp only [hf, if_true]; exact i
      | false =>
        exact inv_synced i _ fun x hx => i.syn x (mem_setErase.1 hx).1
  | info c b => exact inv_info i c b
  | ownId c =>
    show Inv conf (onOwnId s c)
    unfold onOwnId
    cases e : s.peer c with
    | none => exact i
    | some p => exact inv_close (inv_self i (setInsert s.self p.addr)) _ s.banned fun p hp hv _ => i.ban p hp hv
  | slow c => exact inv_synced i _ fun x hx => i.syn x (mem_setErase.1 hx).1

theorem inv_run {conf : Conf} {ok : Nat → Bool} {limit : Nat} : ∀ (evs : List Event) {s : State}, Inv conf s →
    Inv conf (run conf ok limit s evs)
  | [], _, i => i
  | e :: evs, _, i => inv_run evs (inv_step i e)

end Verif.Router.Connections
