import Verif.Router.Requests
/-
  C187: requests of peers are answered once, reach nothing but a few queries of the node, and not even these while the peer is blocked.
-/
namespace Verif.Router.Requests

theorem set_same (f : Nat → Option Peer) (c : Nat) (p : Option Peer) : set f c p c = p := if_pos rfl

theorem set_other (f : Nat → Option Peer) {c d : Nat} (p : Option Peer) (h : d ≠ c) : set f c p d = f d := if_neg h

/-- Whether the connection is there and not on its way out. -/
def isOpen (s : St) (c : Nat) : Prop := ∃ p, s.peers c = some p ∧ p.valid = true

/-- How often a request with this id, and with a method, came over this connection. -/
def requests (c id : Nat) : List Ev → Nat
  | [] => 0
  | .request d j (some _) :: l => (if d = c ∧ j = id then 1 else 0) + requests c id l
  | _ :: l => requests c id l

/-- The events that can happen: over a connection requests come only after it began. -/
def possible : Nat → List Ev → Prop
  | _, [] => True
  | n, .connect :: l => possible (n + 1) l
  | n, .request c _ _ :: l => c < n ∧ possible n l
  | n, _ :: l => possible n l

def isSent (c id : Nat) (x : Sent) : Bool := decide (x.client = c ∧ x.id = id)
def isCall (c id : Nat) (x : Call) : Bool := decide (x.client = c ∧ x.id = id)

/-- How many returns with this id were handed over for the connection, and how many calls for it the node has not answered. -/
def answered (s : St) (c id : Nat) : Nat := s.sent.countP (isSent c id)
def waiting (s : St) (c id : Nat) : Nat := s.calls.countP (isCall c id)

/-! ### what a message does -/

theorem sendTo_open {s : St} {c : Nat} (h : isOpen s c) (id : Nat) (r : Result) :
    ∃ p, s.peers c = some p ∧ sendTo s c id r =
      { s with peers := set s.peers c (some { p with queue := p.queue ++ [(id, r)] }), sent := s.sent ++ [⟨c, id, r⟩] } := by
  obtain ⟨p, hp, hv⟩ := h
  refine ⟨p, hp, ?_⟩
  unfold sendTo
  rw [hp]
  dsimp only
  rw [if_neg (by rw [hv]; exact fun k => nomatch k)]

theorem sendTo_shut {s : St} {c : Nat} (h : ¬isOpen s c) (id : Nat) (r : Result) : sendTo s c id r = s := by
  unfold sendTo
  cases hp : s.peers c with
  | none => rfl
  | some p =>
    dsimp only
    by_cases hv : p.valid = false
    · rw [if_pos hv]
    · exact absurd ⟨p, hp, by simpa using hv⟩ h

/-- The parts that messages leave alone, and who is open. -/
theorem sendTo_rest (s : St) (c id : Nat) (r : Result) :
    (sendTo s c id r).calls = s.calls ∧ (sendTo s c id r).asked = s.asked ∧ (sendTo s c id r).next = s.next ∧
    (∀ d, isOpen (sendTo s c id r) d ↔ isOpen s d) ∧ (∀ d, (sendTo s c id r).peers d = none ↔ s.peers d = none) := by
  by_cases h : isOpen s c
  · obtain ⟨p, hp, e⟩ := sendTo_open h id r
    rw [e]
    refine ⟨rfl, rfl, rfl, fun d => ?_, fun d => ?_⟩
    · unfold isOpen
      dsimp only
      by_cases k : d = c
      · rw [k, set_same, hp]
        exact ⟨fun ⟨q, hq, hv⟩ => ⟨p, rfl, by rw [← Option.some.inj hq] at hv; exact hv⟩,
          fun ⟨q, hq, hv⟩ => ⟨_, rfl, by rw [Option.some.inj hq]; exact hv⟩⟩
      · rw [set_other _ _ k]
    · dsimp only
      by_cases k : d = c
      · rw [k, set_same, hp]
        exact ⟨(fun k => nomatch k), (fun k => nomatch k)⟩
      · rw [set_other _ _ k]
  · rw [sendTo_shut h]
    exact ⟨rfl, rfl, rfl, fun _ => Iff.rfl, fun _ => Iff.rfl⟩

theorem sendTo_answered (s : St) (d j : Nat) (r : Result) (c id : Nat) :
    (isOpen s d → answered (sendTo s d j r) c id = answered s c id + if d = c ∧ j = id then 1 else 0) ∧
    (¬isOpen s d → answered (sendTo s d j r) c id = answered s c id) := by
  refine ⟨fun h => ?_, fun h => by rw [sendTo_shut h]⟩
  obtain ⟨p, -, e⟩ := sendTo_open h j r
  rw [e]
  unfold answered
  dsimp only
  rw [List.countP_append, List.countP_cons, List.countP_nil, Nat.zero_add]
  unfold isSent
  dsimp only
  by_cases k : d = c ∧ j = id
  · rw [if_pos k, if_pos (decide_eq_true k)]
  · rw [if_neg k, if_neg (by rw [decide_eq_false k]; exact fun k => nomatch k)]

theorem count_erase {α : Type} (p : α → Bool) : ∀ (l : List α) (k : Nat) (x : α), l[k]? = some x →
    (l.eraseIdx k).countP p + (if p x then 1 else 0) = l.countP p
  | [], k, x, h => by simp at h
  | y :: l, 0, x, h => by
    have e : y = x := by simpa using h
    rw [List.eraseIdx_cons_zero, List.countP_cons, e]
  | y :: l, k + 1, x, h => by
    have e := count_erase p l k x (by simpa using h)
    rw [List.eraseIdx_cons_succ, List.countP_cons, List.countP_cons]
    omega

/-! ### each request is answered once -/

/-- The invariant for one connection and one id, after so many requests. -/
structure Inv (s : St) (c id n : Nat) : Prop where
  most : answered s c id + waiting s c id ≤ n
  exact : isOpen s c → answered s c id + waiting s c id = n
  fresh : s.next ≤ c → n = 0 ∧ s.peers c = none

theorem Inv.same {s s' : St} {c id n : Nat} (h : Inv s c id n) (h1 : s'.sent = s.sent) (h2 : s'.calls = s.calls) (h3 : s'.next = s.next)
    (h4 : isOpen s' c → isOpen s c) (h5 : s.peers c = none → s'.peers c = none) : Inv s' c id n := by
  have e : answered s' c id + waiting s' c id = answered s c id + waiting s c id := by
    unfold answered waiting
    rw [h1, h2]
  exact ⟨e ▸ h.most, fun k => e ▸ h.exact (h4 k), fun k => ⟨(h.fresh (h3 ▸ k)).1, h5 (h.fresh (h3 ▸ k)).2⟩⟩

/-- Changing the flags, or the queue, of a peer. -/
theorem Inv.flags {s s' : St} {c id n d : Nat} {p q : Peer} (h : Inv s c id n) (hp : s.peers d = some p) (hq : q.valid = true → p.valid = true)
    (h1 : s'.sent = s.sent) (h2 : s'.calls = s.calls) (h3 : s'.next = s.next) (h4 : s'.peers = set s.peers d (some q)) : Inv s' c id n := by
  refine h.same h1 h2 h3 (fun ⟨r, hr, hv⟩ => ?_) (fun k => ?_)
  · rw [h4] at hr
    by_cases e : c = d
    · rw [e, set_same] at hr
      rw [e]
      exact ⟨p, hp, hq (by rw [Option.some.inj hr]; exact hv)⟩
    · rw [set_other _ _ e] at hr
      exact ⟨r, hr, hv⟩
  · rw [h4]
    by_cases e : c = d
    · rw [e, hp] at k; cases k
    · rw [set_other _ _ e]; exact k

theorem Inv.send {s : St} {c id n : Nat} (h : Inv s c id n) (d j : Nat) (r : Result) (hd : d < s.next) :
    Inv (sendTo s d j r) c id (n + if d = c ∧ j = id then 1 else 0) := by
  obtain ⟨k1, -, k3, k4, k5⟩ := sendTo_rest s d j r
  have k6 := sendTo_answered s d j r c id
  have e : waiting (sendTo s d j r) c id = waiting s c id := by unfold waiting; rw [k1]
  refine ⟨?_, fun ho => ?_, fun hf => ?_⟩
  · have := h.most
    by_cases o : isOpen s d
    · rw [k6.1 o, e]; omega
    · rw [k6.2 o, e]; omega
  · have := h.exact ((k4 c).1 ho)
    by_cases o : isOpen s d
    · rw [k6.1 o, e]; omega
    · have ne : ¬(d = c ∧ j = id) := fun k => o (k.1 ▸ (k4 c).1 ho)
      rw [k6.2 o, e, if_neg ne]; omega
  · rw [k3] at hf
    have ne : ¬(d = c ∧ j = id) := fun k => by omega
    rw [if_neg ne]
    exact ⟨(h.fresh hf).1, (k5 c).2 (h.fresh hf).2⟩

theorem Inv.ask {s : St} {c id n : Nat} (h : Inv s c id n) (d j : Nat) (m : String) (hd : d < s.next) :
    Inv (Requests.ask s d j m) c id (n + if d = c ∧ j = id then 1 else 0) := by
  have e : waiting (Requests.ask s d j m) c id = waiting s c id + if d = c ∧ j = id then 1 else 0 := by
    unfold waiting Requests.ask
    dsimp only
    rw [List.countP_append, List.countP_cons, List.countP_nil, Nat.zero_add]
    unfold isCall
    dsimp only
    by_cases k : d = c ∧ j = id
    · rw [if_pos k, if_pos (decide_eq_true k)]
    · rw [if_neg k, if_neg (by rw [decide_eq_false k]; exact fun k => nomatch k)]
  have e2 : answered (Requests.ask s d j m) c id = answered s c id := rfl
  refine ⟨?_, fun ho => ?_, fun hf => ?_⟩
  · have := h.most; rw [e, e2]; omega
  · have := h.exact ho; rw [e, e2]; omega
  · have hf : s.next ≤ c := hf
    have ne : ¬(d = c ∧ j = id) := fun k => by omega
    rw [if_neg ne]
    exact h.fresh hf

theorem Inv.pausedFlag {s : St} {c id n : Nat} (h : Inv s c id n) (d : Nat) : Inv (setPaused s d) c id n := by
  unfold setPaused
  cases hp : s.peers d with
  | none => exact h
  | some p => exact h.flags (q := { p with paused := true }) hp (fun v => v) rfl rfl rfl rfl

theorem Inv.request {s : St} {c id n : Nat} (h : Inv s c id n) (d j : Nat) (m : String) (hd : d < s.next) :
    Inv (onRequest s d j (some m)) c id (n + if d = c ∧ j = id then 1 else 0) := by
  unfold onRequest
  dsimp only
  by_cases b : isBlocked s d = true
  · rw [if_pos b]; exact (h.send d j _ hd).pausedFlag d
  · rw [if_neg b]
    unfold dispatch
    by_cases k : m ∈ ownMethods
    · rw [if_pos k]; exact h.send d j _ hd
    · rw [if_neg k]
      by_cases k : m ∈ nodeMethods
      · rw [if_pos k]; exact h.ask d j m hd
      · rw [if_neg k]; exact h.send d j _ hd

/-- Calls are for connections that have begun. -/
def Begun (s : St) : Prop := ∀ x ∈ s.calls, x.client < s.next

theorem Inv.answer {s : St} {c id n : Nat} (h : Inv s c id n) (hb : Begun s) (k : Nat) (ok : Bool) : Inv (onAnswer s k ok) c id n := by
  unfold onAnswer
  cases hx : s.calls[k]? with
  | none => exact h
  | some x =>
    dsimp only
    have hlt := hb x (List.mem_of_getElem? hx)
    have hc := count_erase (isCall c id) s.calls k x hx
    generalize (if ok then Result.value x.method else Result.error) = r
    have es : Inv { s with calls := s.calls.eraseIdx k } c id (n - if x.client = c ∧ x.id = id then 1 else 0) ∧
        (isOpen s c → (if x.client = c ∧ x.id = id then 1 else 0) ≤ n) ∧ (if x.client = c ∧ x.id = id then 1 else 0) ≤ n := by
      have ei : (if isCall c id x = true then 1 else 0) = if x.client = c ∧ x.id = id then 1 else 0 := by
        unfold isCall
        by_cases g : x.client = c ∧ x.id = id
        · rw [if_pos g, if_pos (decide_eq_true g)]
        · rw [if_neg g, if_neg (by rw [decide_eq_false g]; exact fun k => nomatch k)]
      rw [ei] at hc
      have hm := h.most
      change answered s c id + s.calls.countP (isCall c id) ≤ n at hm
      refine ⟨⟨?_, fun ho => ?_, fun hf => ?_⟩, fun _ => by omega, by omega⟩
      · change answered s c id + (s.calls.eraseIdx k).countP (isCall c id) ≤ _
        omega
      · have he := h.exact ho
        change answered s c id + s.calls.countP (isCall c id) = n at he
        change answered s c id + (s.calls.eraseIdx k).countP (isCall c id) = _
        omega
      · have := h.fresh hf
        exact ⟨by omega, this.2⟩
    have r1 := es.1.send x.client x.id r hlt
    rw [Nat.sub_add_cancel es.2.2] at r1
    exact r1

theorem begun_step {s : St} (h : Begun s) (e : Ev) : Begun (step s e) := by
  have keep : ∀ s' : St, s'.calls = s.calls → s'.next = s.next → Begun s' := fun s' h1 h2 x hx => by rw [h2]; exact h x (h1 ▸ hx)
  cases e with
  | connect => exact fun x hx => Nat.lt_succ_of_lt (h x hx)
  | close c =>
    unfold step; dsimp only
    cases s.peers c with
    | none => exact h
    | some p => exact keep _ rfl rfl
  | gone c => exact keep _ rfl rfl
  | pause c =>
    unfold step; dsimp only; unfold onPause
    cases s.peers c with
    | none => exact h
    | some p => exact keep _ rfl rfl
  | resume c =>
    unfold step; dsimp only; unfold onResume
    cases s.peers c with
    | none => exact h
    | some p => exact keep _ rfl rfl
  | written c n =>
    unfold step; dsimp only; unfold onWritten
    cases s.peers c with
    | none => exact h
    | some p => exact keep _ rfl rfl
  | request c id m =>
    unfold step; dsimp only
    by_cases k : c < s.next
    · rw [if_pos k]
      unfold onRequest
      cases m with
      | none => exact h
      | some m =>
        dsimp only
        have send : ∀ r, Begun (sendTo s c id r) := fun r => keep _ (sendTo_rest s c id r).1 (sendTo_rest s c id r).2.2.1
        by_cases b : isBlocked s c = true
        · rw [if_pos b]
          unfold setPaused
          cases (sendTo s c id .overflow).peers c with
          | none => exact send _
          | some p => exact fun x hx => send .overflow x hx
        · rw [if_neg b]
          unfold dispatch
          by_cases g : m ∈ ownMethods
          · rw [if_pos g]; exact send _
          · rw [if_neg g]
            by_cases g : m ∈ nodeMethods
            · rw [if_pos g]
              intro x hx
              rcases List.mem_append.1 hx with hx | hx
              · exact h x hx
              · rw [List.mem_singleton.1 hx]; exact k
            · rw [if_neg g]; exact send _
    · rw [if_neg k]; exact h
  | answer k ok =>
    unfold step; dsimp only; unfold onAnswer
    cases hx : s.calls[k]? with
    | none => exact h
    | some x =>
      dsimp only
      intro y hy
      rw [(sendTo_rest _ _ _ _).1] at hy
      rw [(sendTo_rest _ _ _ _).2.2.1]
      exact h y (List.mem_of_mem_eraseIdx hy)

/-- How many requests one event adds. -/
def adds (c id : Nat) : Ev → Nat
  | .request d j (some _) => if d = c ∧ j = id then 1 else 0
  | _ => 0

theorem Inv.step {s : St} {c id n : Nat} (h : Inv s c id n) (hb : Begun s) (e : Ev) (he : ∀ d j m, e = .request d j m → d < s.next) :
    Inv (Requests.step s e) c id (n + adds c id e) := by
  cases e with
  | connect =>
    change Inv { s with peers := set s.peers s.next (some {}), next := s.next + 1 } c id n
    by_cases k : c = s.next
    · have hf := h.fresh (Nat.le_of_eq k.symm)
      have hm := h.most
      rw [hf.1] at hm
      refine ⟨by rw [hf.1]; exact hm, fun _ => by rw [hf.1]; exact Nat.le_zero.1 hm, fun hn => ?_⟩
      have hn : s.next + 1 ≤ c := hn
      omega
    · refine ⟨h.most, fun ⟨p, hp, hv⟩ => h.exact ?_, fun hn => ?_⟩
      · dsimp only at hp
        rw [set_other _ _ k] at hp
        exact ⟨p, hp, hv⟩
      · have hn : s.next + 1 ≤ c := hn
        have hf := h.fresh (by omega)
        refine ⟨hf.1, ?_⟩
        dsimp only
        rw [set_other _ _ k]
        exact hf.2
  | close d =>
    unfold Requests.step; dsimp only
    cases hp : s.peers d with
    | none => exact h
    | some p => exact h.flags (q := { p with valid := false }) hp (fun k => nomatch k) rfl rfl rfl rfl
  | gone d =>
    refine h.same rfl rfl rfl (fun ⟨p, hp, hv⟩ => ?_) (fun k => ?_)
    · change set s.peers d none c = some p at hp
      by_cases g : c = d
      · rw [g, set_same] at hp; cases hp
      · rw [set_other _ _ g] at hp; exact ⟨p, hp, hv⟩
    · change set s.peers d none c = none
      by_cases g : c = d
      · rw [g, set_same]
      · rw [set_other _ _ g]; exact k
  | pause d =>
    unfold Requests.step; dsimp only; unfold onPause
    cases hp : s.peers d with
    | none => exact h
    | some p => exact h.flags (q := { p with blocked := true }) hp (fun v => v) rfl rfl rfl rfl
  | resume d =>
    unfold Requests.step; dsimp only; unfold onResume
    cases hp : s.peers d with
    | none => exact h
    | some p => exact h.flags (q := { p with paused := false, blocked := false }) hp (fun v => v) rfl rfl rfl rfl
  | written d k =>
    unfold Requests.step; dsimp only; unfold onWritten
    cases hp : s.peers d with
    | none => exact h
    | some p => exact h.flags (q := { p with queue := p.queue.drop k }) hp (fun v => v) rfl rfl rfl rfl
  | request d j m =>
    have hd := he d j m rfl
    unfold Requests.step; dsimp only
    rw [if_pos hd]
    cases m with
    | none => exact h
    | some m => exact h.request d j m hd
  | answer k ok => exact h.answer hb k ok

theorem step_next (s : St) (e : Ev) : (step s e).next = match e with | .connect => s.next + 1 | _ => s.next := by
  cases e with
  | connect => rfl
  | close c => unfold step; dsimp only; cases s.peers c <;> rfl
  | gone c => rfl
  | pause c => unfold step; dsimp only; unfold onPause; cases s.peers c <;> rfl
  | resume c => unfold step; dsimp only; unfold onResume; cases s.peers c <;> rfl
  | written c n => unfold step; dsimp only; unfold onWritten; cases s.peers c <;> rfl
  | request c id m =>
    unfold step; dsimp only
    by_cases k : c < s.next
    · rw [if_pos k]
      unfold onRequest
      cases m with
      | none => rfl
      | some m =>
        dsimp only
        by_cases b : isBlocked s c = true
        · rw [if_pos b]
          have e := (sendTo_rest s c id .overflow).2.2.1
          unfold setPaused
          cases (sendTo s c id .overflow).peers c <;> exact e
        · rw [if_neg b]
          unfold dispatch
          by_cases g : m ∈ ownMethods
          · rw [if_pos g]; exact (sendTo_rest ..).2.2.1
          · rw [if_neg g]
            by_cases g : m ∈ nodeMethods
            · rw [if_pos g]; rfl
            · rw [if_neg g]; exact (sendTo_rest ..).2.2.1
    · rw [if_neg k]
  | answer k ok =>
    unfold step; dsimp only; unfold onAnswer
    cases s.calls[k]? with
    | none => rfl
    | some x => exact (sendTo_rest ..).2.2.1

theorem run_inv (c id : Nat) : ∀ (l : List Ev) (s : St) (n : Nat), Inv s c id n → Begun s → possible s.next l →
    Inv (run s l) c id (n + requests c id l)
  | [], _, _, h, _, _ => h
  | e :: l, s, n, h, hb, hp => by
    have he : ∀ d j m, e = .request d j m → d < s.next := fun d j m k => by rw [k] at hp; exact hp.1
    have hl : possible (step s e).next l := by
      rw [step_next]
      cases e with
      | request c id m => exact hp.2
      | connect => exact hp
      | close c => exact hp
      | gone c => exact hp
      | pause c => exact hp
      | resume c => exact hp
      | written c n => exact hp
      | answer k ok => exact hp
    have k := run_inv c id l (step s e) _ (h.step hb e he) (begun_step hb e) hl
    have ea : adds c id e + requests c id l = requests c id (e :: l) := by
      cases e with
      | request d j m => cases m with
        | none => exact Nat.zero_add _
        | some m => rfl
      | connect => exact Nat.zero_add _
      | close c => exact Nat.zero_add _
      | gone c => exact Nat.zero_add _
      | pause c => exact Nat.zero_add _
      | resume c => exact Nat.zero_add _
      | written c n => exact Nat.zero_add _
      | answer k ok => exact Nat.zero_add _
    rw [Nat.add_assoc, ea] at k
    exact k

/-- C187. However requests, answers of the node, and ends of connections mix: no more is ever returned for a connection and an id than was requested;
    and if the connection is still open, each request was answered once, or the node is still at it. -/
theorem C187_once (l : List Ev) (hp : possible 0 l) (c id : Nat) :
    answered (run start l) c id + waiting (run start l) c id ≤ requests c id l ∧
    (isOpen (run start l) c → answered (run start l) c id + waiting (run start l) c id = requests c id l) := by
  have h0 : Inv start c id 0 := ⟨Nat.le_refl _, fun _ => rfl, fun _ => ⟨rfl, rfl⟩⟩
  have k := run_inv c id l start 0 h0 (fun x hx => absurd hx List.not_mem_nil) hp
  rw [Nat.zero_add] at k
  exact ⟨k.most, k.exact⟩

/-! ### what peers can reach -/

/-- The queries of the node that peers may make: heights, blocks, headers, hashes and transaction ids. None of them changes anything. -/
def queries : List String :=
  ["mmx.Node.get_block", "mmx.Node.get_block_at", "mmx.Node.get_block_hash", "mmx.Node.get_block_hash_ex", "mmx.Node.get_header",
   "mmx.Node.get_header_at", "mmx.Node.get_height", "mmx.Node.get_synced_height", "mmx.Node.get_tx_ids_at"]

theorem mem_queries {m : String} (h : m ∈ nodeMethods) : m ∈ queries :=
  (show ∀ m ∈ nodeMethods, m ∈ queries by decide +kernel) m h

/-- An answer fits a request for this method. -/
def Fits (m : String) : Result → Prop
  | .value k => k = m ∧ m ∈ ownMethods ++ nodeMethods
  | .error => m ∈ nodeMethods
  | .overflow => True
  | .noSuchMethod => m ∉ ownMethods ++ nodeMethods

/-- What is asked, worked on and sent belongs to requests. -/
structure Due (s : St) (l : List Ev) : Prop where
  asked : ∀ x ∈ s.asked, x.method ∈ nodeMethods ∧ .request x.client x.id (some x.method) ∈ l
  calls : ∀ x ∈ s.calls, x.method ∈ nodeMethods ∧ .request x.client x.id (some x.method) ∈ l
  sent : ∀ x ∈ s.sent, ∃ m, .request x.client x.id (some m) ∈ l ∧ Fits m x.result

theorem Due.same {s s' : St} {l : List Ev} (h : Due s l) (h1 : s'.sent = s.sent) (h2 : s'.calls = s.calls) (h3 : s'.asked = s.asked) : Due s' l :=
  ⟨h3 ▸ h.asked, h2 ▸ h.calls, h1 ▸ h.sent⟩

theorem Due.send {s : St} {l : List Ev} (h : Due s l) {c id : Nat} {r : Result} {m : String} (hm : .request c id (some m) ∈ l) (hf : Fits m r) :
    Due (sendTo s c id r) l := by
  obtain ⟨k1, k2, -⟩ := sendTo_rest s c id r
  refine ⟨k2 ▸ h.asked, k1 ▸ h.calls, fun x hx => ?_⟩
  by_cases o : isOpen s c
  · obtain ⟨p, -, e⟩ := sendTo_open o id r
    rw [e] at hx
    rcases List.mem_append.1 hx with hx | hx
    · exact h.sent x hx
    · rw [List.mem_singleton.1 hx]; exact ⟨m, hm, hf⟩
  · rw [sendTo_shut o] at hx; exact h.sent x hx

theorem Due.more {s : St} {l : List Ev} (h : Due s l) (e : Ev) : Due s (l ++ [e]) :=
  ⟨fun x hx => ⟨(h.asked x hx).1, List.mem_append_left _ (h.asked x hx).2⟩, fun x hx => ⟨(h.calls x hx).1, List.mem_append_left _ (h.calls x hx).2⟩,
    fun x hx => by obtain ⟨m, k, g⟩ := h.sent x hx; exact ⟨m, List.mem_append_left _ k, g⟩⟩

theorem Due.step {s : St} {l : List Ev} (h0 : Due s l) (e : Ev) : Due (Requests.step s e) (l ++ [e]) := by
  have h := h0.more e
  cases e with
  | connect => exact h.same rfl rfl rfl
  | close c => unfold Requests.step; dsimp only; cases s.peers c with
    | none => exact h
    | some p => exact h.same rfl rfl rfl
  | gone c => exact h.same rfl rfl rfl
  | pause c => unfold Requests.step; dsimp only; unfold onPause; cases s.peers c with
    | none => exact h
    | some p => exact h.same rfl rfl rfl
  | resume c => unfold Requests.step; dsimp only; unfold onResume; cases s.peers c with
    | none => exact h
    | some p => exact h.same rfl rfl rfl
  | written c n => unfold Requests.step; dsimp only; unfold onWritten; cases s.peers c with
    | none => exact h
    | some p => exact h.same rfl rfl rfl
  | request c id m =>
    unfold Requests.step; dsimp only
    by_cases k : c < s.next
    · rw [if_pos k]
      unfold onRequest
      cases m with
      | none => exact h
      | some m =>
        dsimp only
        have hm : Ev.request c id (some m) ∈ l ++ [.request c id (some m)] := List.mem_append_right _ (List.mem_singleton.2 rfl)
        by_cases b : isBlocked s c = true
        · rw [if_pos b]
          have r := h.send (r := .overflow) hm trivial
          unfold setPaused
          cases (sendTo s c id .overflow).peers c with
          | none => exact r
          | some p => exact r.same rfl rfl rfl
        · rw [if_neg b]
          unfold dispatch
          by_cases g : m ∈ ownMethods
          · rw [if_pos g]; exact h.send hm ⟨rfl, List.mem_append_left _ g⟩
          · rw [if_neg g]
            by_cases g' : m ∈ nodeMethods
            · rw [if_pos g']
              refine ⟨fun x hx => ?_, fun x hx => ?_, h.sent⟩
              · rcases List.mem_append.1 hx with hx | hx
                · exact h.asked x hx
                · rw [List.mem_singleton.1 hx]; exact ⟨g', hm⟩
              · rcases List.mem_append.1 hx with hx | hx
                · exact h.calls x hx
                · rw [List.mem_singleton.1 hx]; exact ⟨g', hm⟩
            · rw [if_neg g']
              exact h.send hm (fun k => (List.mem_append.1 k).elim g g')
    · rw [if_neg k]; exact h
  | answer k ok =>
    unfold Requests.step; dsimp only; unfold onAnswer
    cases hx : s.calls[k]? with
    | none => exact h
    | some x =>
      dsimp only
      have hc := h.calls x (List.mem_of_getElem? hx)
      have h' : Due { s with calls := s.calls.eraseIdx k } (l ++ [.answer k ok]) :=
        ⟨h.asked, fun y hy => h.calls y (List.mem_of_mem_eraseIdx hy), h.sent⟩
      refine h'.send hc.2 ?_
      cases ok
      · exact hc.1
      · exact ⟨rfl, List.mem_append_right _ hc.1⟩

theorem run_due : ∀ (l : List Ev) (s : St) (m : List Ev), Due s m → Due (run s l) (m ++ l)
  | [], _, m, h => by rw [List.append_nil]; exact h
  | e :: l, s, m, h => by
    have k := run_due l (step s e) (m ++ [e]) (h.step e)
    rw [List.append_assoc] at k
    exact k

/-- C187. Whatever peers send, the node is asked only for a few of its queries, and only if a peer requested this; and what is returned to a peer
    fits a request it made with this id: a value or an error for a method that is offered, or that there is no such method if it is not. -/
theorem C187_reach (l : List Ev) :
    (∀ x ∈ (run start l).asked, x.method ∈ queries ∧ .request x.client x.id (some x.method) ∈ l) ∧
    ∀ x ∈ (run start l).sent, ∃ m, .request x.client x.id (some m) ∈ l ∧ Fits m x.result := by
  have h0 : Due start [] := ⟨fun x hx => absurd hx List.not_mem_nil, fun x hx => absurd hx List.not_mem_nil, fun x hx => absurd hx List.not_mem_nil⟩
  have k := run_due l start [] h0
  rw [List.nil_append] at k
  exact ⟨fun x hx => ⟨mem_queries (k.asked x hx).1, (k.asked x hx).2⟩, k.sent⟩

/-! ### peers that do not read -/

/-- C187. A request of a peer that is blocked does not reach the node; it is answered with an overflow, and the peer is marked as paused. -/
theorem C187_blocked {s : St} {c id : Nat} {p : Peer} {m : String} (hc : c < s.next) (hp : s.peers c = some p) (hv : p.valid = true)
    (hb : p.blocked = true) : let s' := step s (.request c id (some m))
    s'.calls = s.calls ∧ s'.asked = s.asked ∧ s'.sent = s.sent ++ [⟨c, id, .overflow⟩] ∧
    s'.peers c = some { p with queue := p.queue ++ [(id, .overflow)], paused := true } ∧ s'.next = s.next := by
  have hs : isBlocked s c = true := by unfold isBlocked; rw [hp]; exact hb
  have e : step s (.request c id (some m)) = setPaused (sendTo s c id .overflow) c := by
    unfold step; dsimp only; unfold onRequest
    rw [if_pos hc]
    dsimp only
    rw [if_pos hs]
  obtain ⟨q, hq, eq⟩ := sendTo_open ⟨p, hp, hv⟩ id .overflow
  rw [hp] at hq
  have eqp := (Option.some.inj hq).symm
  subst eqp
  rw [e, eq]
  unfold setPaused
  dsimp only
  rw [set_same]
  exact ⟨rfl, rfl, rfl, set_same _ _ _, rfl⟩

/-- Marked as paused only while blocked. -/
def Marked (s : St) : Prop := ∀ c p, s.peers c = some p → p.paused = true → p.blocked = true

theorem Marked.set {s s' : St} (h : Marked s) {c : Nat} {q : Peer} (hq : q.paused = true → q.blocked = true) (hs : s'.peers = Requests.set s.peers c (some q)) :
    Marked s' := by
  intro d p hp
  rw [hs] at hp
  by_cases k : d = c
  · rw [k, set_same] at hp; rw [← Option.some.inj hp]; exact hq
  · rw [set_other _ _ k] at hp; exact h d p hp

theorem Marked.send {s : St} (h : Marked s) (c id : Nat) (r : Result) : Marked (sendTo s c id r) := by
  by_cases o : isOpen s c
  · obtain ⟨p, hp, e⟩ := sendTo_open o id r
    rw [e]
    exact h.set (q := { p with queue := p.queue ++ [(id, r)] }) (h c p hp) rfl
  · rw [sendTo_shut o]; exact h

theorem Marked.step {s : St} (h : Marked s) (e : Ev) : Marked (Requests.step s e) := by
  cases e with
  | connect => exact h.set (q := {}) (fun k => nomatch k) rfl
  | close c =>
    unfold Requests.step; dsimp only
    cases hp : s.peers c with
    | none => exact h
    | some p => exact h.set (q := { p with valid := false }) (h c p hp) rfl
  | gone c =>
    intro d p hp
    change Requests.set s.peers c none d = some p at hp
    by_cases k : d = c
    · rw [k, set_same] at hp; cases hp
    · rw [set_other _ _ k] at hp; exact h d p hp
  | pause c =>
    unfold Requests.step; dsimp only; unfold onPause
    cases hp : s.peers c with
    | none => exact h
    | some p => exact h.set (q := { p with blocked := true }) (fun _ => rfl) rfl
  | resume c =>
    unfold Requests.step; dsimp only; unfold onResume
    cases hp : s.peers c with
    | none => exact h
    | some p => exact h.set (q := { p with paused := false, blocked := false }) (fun k => nomatch k) rfl
  | written c n =>
    unfold Requests.step; dsimp only; unfold onWritten
    cases hp : s.peers c with
    | none => exact h
    | some p => exact h.set (q := { p with queue := p.queue.drop n }) (h c p hp) rfl
  | request c id m =>
    unfold Requests.step; dsimp only
    by_cases k : c < s.next
    · rw [if_pos k]
      unfold onRequest
      cases m with
      | none => exact h
      | some m =>
        dsimp only
        by_cases b : isBlocked s c = true
        · rw [if_pos b]
          have hs := h.send c id .overflow
          unfold setPaused
          cases hp : (sendTo s c id .overflow).peers c with
          | none => exact hs
          | some p =>
            refine hs.set (q := { p with paused := true }) (fun _ => ?_) rfl
            unfold isBlocked at b
            cases hq : s.peers c with
            | none => rw [hq] at b; cases b
            | some q =>
              rw [hq] at b
              by_cases o : isOpen s c
              · obtain ⟨r, hr, e⟩ := sendTo_open o id .overflow
                rw [hq] at hr
                rw [e] at hp
                dsimp only at hp
                rw [set_same] at hp
                rw [← Option.some.inj hp, ← Option.some.inj hr]
                exact b
              · rw [sendTo_shut o, hq] at hp
                rw [← Option.some.inj hp]; exact b
        · rw [if_neg b]
          unfold dispatch
          by_cases g : m ∈ ownMethods
          · rw [if_pos g]; exact h.send _ _ _
          · rw [if_neg g]
            by_cases g : m ∈ nodeMethods
            · rw [if_pos g]; exact h
            · rw [if_neg g]; exact h.send _ _ _
    · rw [if_neg k]; exact h
  | answer k ok =>
    unfold Requests.step; dsimp only; unfold onAnswer
    cases s.calls[k]? with
    | none => exact h
    | some x => exact (show Marked { s with calls := s.calls.eraseIdx k } from h).send _ _ _

/-- C187. At all times a peer is marked as paused only while it is blocked, and when it is not blocked any longer it is told to go on, once. So no
    peer stays paused. -/
theorem C187_resumes (l : List Ev) :
    (∀ c p, (run start l).peers c = some p → p.paused = true → p.blocked = true) ∧
    ∀ c p, (run start l).peers c = some p → let s' := step (run start l) (.resume c)
      s'.peers c = some { p with paused := false, blocked := false } ∧
      s'.resumed = (run start l).resumed ++ (if p.paused then [c] else []) := by
  have h : ∀ (l : List Ev) (s : St), Marked s → Marked (run s l) := by
    intro l
    induction l with
    | nil => exact fun _ h => h
    | cons e l ih => exact fun s h => ih _ (h.step e)
  refine ⟨h l start (fun c p k => nomatch k), fun c p hp => ?_⟩
  dsimp only
  unfold step; dsimp only; unfold onResume
  rw [hp]
  refine ⟨set_same _ _ _, ?_⟩
  dsimp only
  cases p.paused
  · exact (List.append_nil _).symm
  · rfl

/-- C187, false: that little waits for a peer that does not read. While it is blocked each request still adds an answer to what waits for it, and
    nothing stops it from sending more: the mark does not. -/
theorem C187_unbounded (m : String) : ∀ (n : Nat) (s : St) (c : Nat) (p : Peer), c < s.next → s.peers c = some p → p.valid = true → p.blocked = true →
    ∃ q, (run s (List.replicate n (.request c 0 (some m)))).peers c = some q ∧ q.blocked = true ∧ q.queue.length = p.queue.length + n
  | 0, s, c, p, _, hp, _, hb => ⟨p, hp, hb, rfl⟩
  | n + 1, s, c, p, hc, hp, hv, hb => by
    obtain ⟨-, -, -, k4, k5⟩ := C187_blocked (id := 0) (m := m) hc hp hv hb
    obtain ⟨q, h1, h2, h3⟩ := C187_unbounded m n _ c _ (by rw [k5]; exact hc) k4 hv hb
    refine ⟨q, h1, h2, ?_⟩
    rw [h3]
    dsimp only
    rw [List.length_append]
    change p.queue.length + 1 + n = _
    omega

/-! ### an example -/

/-- Two connections; one asks the node, something unknown, and while blocked; the other closes while the node is at its request. -/
def exEvents : List Ev :=
  [.connect, .connect, .request 0 7 (some "mmx.Node.get_block"), .request 1 7 (some "mmx.Node.get_height"), .request 0 8 (some "mmx.Wallet.send"),
   .pause 0, .request 0 9 (some "mmx.Node.get_block"), .close 1, .answer 1 true, .answer 0 false, .request 0 5 none, .resume 0]

example : possible 0 exEvents := by
  refine ⟨by decide, by decide, by decide, by decide, by decide, trivial⟩

example : (run start exEvents).sent = [⟨0, 8, .noSuchMethod⟩, ⟨0, 9, .overflow⟩, ⟨0, 7, .error⟩] ∧ (run start exEvents).resumed = [0] ∧
    (run start exEvents).asked.length = 2 ∧ (run start exEvents).calls = [] := by decide +kernel

example : requests 0 7 exEvents = 1 ∧ answered (run start exEvents) 0 7 = 1 ∧ requests 1 7 exEvents = 1 ∧ answered (run start exEvents) 1 7 = 0 := by
  decide +kernel

/-- The hypotheses of `C187_unbounded`. -/
example : (run start [.connect, .pause 0]).peers 0 = some { blocked := true } ∧ 0 < (run start [.connect, .pause 0]).next := by decide +kernel

end Verif.Router.Requests
