/-
  Helper lemmas on the requests for blocks: fetches, and what holds in every reachable state.
-/
import Verif.Router.SyncInv

namespace Verif.Router.Sync

/-! ### How the log grows -/

/-- Neither `synced_peers` nor the requests of the node change. -/
structure Grow (x y : List Ev) : Prop where
  suffix : x <:+ y
  live : ∀ c, live c y = live c x
  opened : ∀ rid q t, Ev.opened rid q t ∈ y → Ev.opened rid q t ∈ x

theorem Grow.refl (x : List Ev) : Grow x x := ⟨List.suffix_refl _, fun _ => rfl, fun _ _ _ h => h⟩

theorem Grow.trans {x y z : List Ev} (h : Grow x y) (k : Grow y z) : Grow x z :=
  ⟨h.suffix.trans k.suffix, fun c => (k.live c).trans (h.live c),
    fun r q t m => h.opened r q t (k.opened r q t m)⟩

theorem Grow.cons {x : List Ev} {e : Ev} (h1 : ∀ c, Sync.live c (e :: x) = Sync.live c x)
    (h2 : ∀ rid q t, Ev.opened rid q t ≠ e) : Grow x (e :: x) :=
  ⟨suffix_cons _ _, h1, fun r q t m => (List.mem_cons.1 m).resolve_left (h2 r q t)⟩

theorem Grow.asked (x : List Ev) (rid id : Nat) (c : Client) (a : Ask) : Grow x (.asked rid id c a :: x) :=
  .cons (fun _ => rfl) (fun _ _ _ h => (nomatch h))

theorem Grow.reply (x : List Ev) (now id : Nat) (c : Client) (r : Result) : Grow x (.reply now c id r :: x) :=
  .cons (fun _ => rfl) (fun _ _ _ h => (nomatch h))

theorem Grow.blocks (x : List Ev) (rid : Nat) (b : List Block) : Grow x (.blocks rid b :: x) :=
  .cons (fun _ => rfl) (fun _ _ _ h => (nomatch h))

theorem Grow.block (x : List Ev) (rid : Nat) (b : Option Block) : Grow x (.block rid b :: x) :=
  .cons (fun _ => rfl) (fun _ _ _ h => (nomatch h))

theorem Grow.refused (x : List Ev) (rid : Nat) : Grow x (.refused rid :: x) :=
  .cons (fun _ => rfl) (fun _ _ _ h => (nomatch h))

theorem Asks.grow {rid : Nat} {x y : Acc} (h : Asks rid x y) : Grow x.log y.log := by
  induction h with
  | refl => exact .refl _
  | ask y a c _ ih => exact ih.trans (.asked ..)

/-- No returns are added. -/
def Mute (x y : List Ev) : Prop := ∃ g, y = g ++ x ∧ ∀ e ∈ g, ∀ now src i r, e ≠ .reply now src i r

theorem Mute.refl (x : List Ev) : Mute x x := ⟨[], rfl, fun _ k => (nomatch k)⟩

theorem Mute.trans {x y z : List Ev} (h : Mute x y) (k : Mute y z) : Mute x z := by
  obtain ⟨g, rfl, hg⟩ := h
  obtain ⟨g', rfl, hg'⟩ := k
  refine ⟨g' ++ g, (List.append_assoc ..).symm, ?_⟩
  intro e he
  rcases List.mem_append.1 he with q | q
  · exact hg' e q
  · exact hg e q

theorem Mute.cons {x : List Ev} {e : Ev} (h : ∀ now src i r, e ≠ .reply now src i r) : Mute x (e :: x) :=
  ⟨[e], rfl, fun _ k => by cases List.mem_singleton.1 k; exact h⟩

theorem Asks.mute {rid : Nat} {x y : Acc} (h : Asks rid x y) : Mute x.log y.log := by
  induction h with
  | refl => exact .refl _
  | ask y a c _ ih => exact ih.trans (.cons fun _ _ _ _ k => (nomatch k))

theorem Asks.next {rid : Nat} {x y : Acc} (h : Asks rid x y) : x.next ≤ y.next := by
  induction h with
  | refl => exact Nat.le_refl _
  | ask y a c _ ih => exact Nat.le_succ_of_le ih

/-! ### What is behind an answer -/

/-- A request that may be made for a request of the node. -/
def Compat : Query → Ask → Prop
  | .block h _, .block h' => h' = h
  | .blockAt n, .blockAt m => m = n
  | .blocksAt n, .hash m => m = n
  | .blocksAt _, .block _ => True
  | _, _ => False

/-- What a block, or none, for a request of the node is backed by. -/
def Backing (rid : Nat) (l : List Ev) : Query → Option Block → Prop
  | .block h _, some b => ∃ src c, Answer src rid c (.block h) (.block (some b)) l
  | .block _ false, none =>
    ∀ c, live c l = true → ∃ r, Answered rid c r l ∧ ∀ b, r ≠ .block (some b)
  | .block h true, none => ∃ src c, Answer src rid c (.block h) (.block none) l
  | .blockAt n, b => ∃ src c, Answer src rid c (.blockAt n) (.blockAt b) l
  | .blocksAt _, _ => False

/-- What is known of each event, from the log before it. -/
def Known (cfg : Cfg) : Ev → List Ev → Prop
  | .blocks rid bs, l => Backed cfg rid bs l
  | .block rid b, l => ∃ q t, .opened rid q t ∈ l ∧ Backing rid l q b
  | .opened rid _ _, l => ∀ q t, .opened rid q t ∉ l
  | _, _ => True

/-- What is behind a fetch. -/
structure FI (rid : Nat) (log : List Ev) (f : Fetch) : Prop where
  opened : .opened rid f.query f.start ∈ log
  kind : ∀ n, f.query ≠ .blocksAt n
  reqs : ∀ id c, (id, c) ∈ f.reqs → ∃ a, Ev.asked rid id c a ∈ log ∧ Compat f.query a
  failed : ∀ c ∈ f.failed, ∃ r, Answered rid c r log ∧ Fetch.judge f.query r = .fail
  last : f.last = 0 ∨ ∃ src id r c a, .reply f.last src id r ∈ log ∧ .asked rid id c a ∈ log

theorem FI.mono {rid : Nat} {l l' : List Ev} {f : Fetch} (h : FI rid l f) (s : l <:+ l') : FI rid l' f where
  opened := s.subset h.opened
  kind := h.kind
  reqs := fun id c k => (h.reqs id c k).imp fun _ q => ⟨s.subset q.1, q.2⟩
  failed := fun c k => (h.failed c k).imp fun _ q => ⟨q.1.mono s, q.2⟩
  last := h.last.imp id fun ⟨src, id, r, c, a, h1, h2⟩ => ⟨src, id, r, c, a, s.subset h1, s.subset h2⟩

theorem FI.asked {rid : Nat} {x : Acc} {f : Fetch} (h : FI rid x.log f) {a : Ask} (k : Compat f.query a)
    (c : Client) (p : List Client) :
    FI rid (ask rid a c x).log { f with reqs := (x.next, c) :: f.reqs, pending := p } := by
  have h1 := h.mono (suffix_cons (.asked rid x.next c a) x.log)
  refine ⟨h1.opened, h1.kind, ?_, h1.failed, h1.last⟩
  intro i y q
  rcases List.mem_cons.1 q with e | e
  · cases e; exact ⟨a, List.mem_cons_self, k⟩
  · exact h1.reqs i y e

theorem askOne_inv {rid : Nat} {h : Hash} : ∀ (l : List Client) {r : Fetch × Acc},
    FI rid r.2.log r.1 → Compat r.1.query (.block h) →
    FI rid (l.foldl (Fetch.askOne rid h) r).2.log (l.foldl (Fetch.askOne rid h) r).1 ∧
      Asks rid r.2 (l.foldl (Fetch.askOne rid h) r).2
  | [], _, hf, _ => ⟨hf, .refl _⟩
  | c :: l, r, hf, k => by
    have h1 := hf.asked k c (ins c r.1.pending)
    have h2 := askOne_inv l (r := Fetch.askOne rid h r c) h1 k
    exact ⟨h2.1, Asks.trans (.ask _ _ _ _ (.refl _)) h2.2⟩

/-- What a step of a fetch does. -/
structure FWent (cfg : Cfg) (rid : Nat) (x : Acc) (r : Option Fetch × Acc) : Prop where
  on : ∀ f, r.1 = some f → FI rid r.2.log f ∧ Asks rid x r.2
  done : r.1 = none → ∃ e, r.2.log = e :: x.log ∧ r.2.next = x.next ∧ Known cfg e x.log ∧
    (e = .refused rid ∨ ∃ b, e = .block rid b)

theorem judge_fail {q : Query} {r : Result} (h : Fetch.judge q r = .fail) : ∀ b, r ≠ .block (some b) := by
  intro b e
  subst e
  unfold Fetch.judge at h
  cases q <;> simp at h

theorem fgo {cfg : Cfg} {w : World} {synced : List Client} {rid : Nat} {f : Fetch} {x : Acc}
    (h : FI rid x.log f) (hl : ∀ c, live c x.log = true → c ∈ synced) :
    FWent cfg rid x (f.go cfg w synced rid x) := by
  have h1 : FI rid x.log { f with pending := f.pending.filter (fun c => synced.contains c) } :=
    ⟨h.opened, h.kind, h.reqs, h.failed, h.last⟩
  unfold Fetch.go
  generalize e : ({ f with pending := f.pending.filter (fun c => synced.contains c) } : Fetch) = f1 at h1
  dsimp only
  by_cases k : f1.query.toPeer = true
  · rw [if_pos k]
    by_cases k2 : f1.reqs.isEmpty = true
    · rw [if_pos k2]
      cases w.peerOf rid with
      | none => exact ⟨fun _ q => (nomatch q), fun _ => ⟨_, rfl, rfl, trivial, .inl rfl⟩⟩
      | some c =>
        refine ⟨?_, fun q => (nomatch q)⟩
        intro f' e'
        cases e'
        show FI rid (f1.askPeer rid c x).2.log (f1.askPeer rid c x).1 ∧ Asks rid x (f1.askPeer rid c x).2
        unfold Fetch.askPeer
        cases hq : f1.query with
        | blocksAt n => exact ⟨h1, .refl _⟩
        | block hh p =>
          have := h1.asked (a := .block hh) (by rw [hq]; rfl) c f1.pending
          rw [hq] at this
          exact ⟨this, .ask _ _ _ _ (.refl _)⟩
        | blockAt n =>
          have := h1.asked (a := .blockAt n) (by rw [hq]; rfl) c f1.pending
          rw [hq] at this
          exact ⟨this, .ask _ _ _ _ (.refl _)⟩
    · rw [if_neg k2]
      exact ⟨fun f' q => by cases q; exact ⟨h1, .refl _⟩, fun q => (nomatch q)⟩
  · rw [if_neg k]
    cases hq : f1.query with
    | blocksAt n => exact absurd hq (h1.kind n)
    | blockAt n => rw [hq] at k; exact absurd rfl k
    | block hh p =>
      have hp : p = false := by
        rw [hq] at k
        cases p with
        | false => rfl
        | true => exact absurd rfl k
      subst hp
      dsimp only
      by_cases k3 : (f1.fresh synced).isEmpty && f1.pending.isEmpty
      · rw [if_pos k3]
        refine ⟨fun _ q => (nomatch q), fun _ => ⟨_, rfl, rfl, ?_, .inr ⟨_, rfl⟩⟩⟩
        refine ⟨_, _, h1.opened, ?_⟩
        rw [hq]
        intro c hc
        have k3 : (f1.fresh synced).isEmpty = true ∧ f1.pending.isEmpty = true := by simpa using k3
        have hf : c ∈ f1.failed := by
          by_cases k4 : c ∈ f1.failed
          · exact k4
          · exfalso
            have : c ∈ f1.fresh synced := by
              unfold Fetch.fresh
              rw [List.mem_filter]
              refine ⟨hl c hc, ?_⟩
              have hp : f1.pending = [] := List.isEmpty_iff.1 k3.2
              simp [k4, hp]
            rw [List.isEmpty_iff.1 k3.1] at this
            cases this
        obtain ⟨r, q1, q2⟩ := h1.failed c hf
        exact ⟨r, q1, judge_fail q2⟩
      · rw [if_neg k3]
        by_cases k4 : f1.pending.length < cfg.minPeers
        · rw [if_pos k4]
          refine ⟨?_, fun q => (nomatch q)⟩
          intro f' e'
          cases e'
          exact askOne_inv _ (r := (f1, x)) h1 (show Compat f1.query (.block hh) by rw [hq]; rfl)
        · rw [if_neg k4]
          exact ⟨fun f' q => by cases q; exact ⟨h1, .refl _⟩, fun q => (nomatch q)⟩

/-- A reply to a fetch that came in just now. -/
def Came (now rid : Nat) (q : Query) (id : Nat) (c : Client) (r : Result) (log : List Ev) : Prop :=
  ∃ src a, Compat q a ∧ .asked rid id c a ∈ log ∧ Answer src rid c a r log ∧ .reply now src id r ∈ log

theorem Answer.mono {src : Client} {rid : Nat} {c : Client} {a : Ask} {r : Result} {l l' : List Ev}
    (h : Answer src rid c a r l) (s : l <:+ l') : Answer src rid c a r l' := by
  obtain ⟨l1, l2, now, id, rfl, h2⟩ := h
  obtain ⟨t, rfl⟩ := s
  exact ⟨t ++ l1, l2, now, id, by rw [List.append_assoc], h2⟩

theorem Came.mono {now rid : Nat} {q : Query} {id : Nat} {c : Client} {r : Result} {l l' : List Ev}
    (h : Came now rid q id c r l) (s : l <:+ l') : Came now rid q id c r l' := by
  obtain ⟨src, a, h1, h2, h3, h4⟩ := h
  exact ⟨src, a, h1, s.subset h2, h3.mono s, s.subset h4⟩

theorem fprocess {cfg : Cfg} {w : World} {synced : List Client} {ret : Option (Nat × Result)}
    {rid : Nat} {f : Fetch} {x : Acc} (h : FI rid x.log f) (hl : ∀ c, live c x.log = true → c ∈ synced)
    (hr : ∀ id r c, ret = some (id, r) → (id, c) ∈ f.reqs → Came w.now rid f.query id c r x.log) :
    FWent cfg rid x (f.process cfg w synced ret rid x) := by
  unfold Fetch.process
  cases ret with
  | none => exact fgo h hl
  | some p =>
    obtain ⟨id, r⟩ := p
    dsimp only
    cases e : f.reqs.lookup id with
    | none => exact ⟨fun j' q => by cases q; exact ⟨h, .refl _⟩, fun q => (nomatch q)⟩
    | some c =>
      obtain ⟨src, a, hc, ha, h1, h2⟩ := hr id r c rfl (lookup_mem e)
      have settled : ∀ bad, (bad = true → Fetch.judge f.query r = .fail) →
          FI rid x.log (f.settle w.now id c bad) := by
        intro bad hb
        refine ⟨h.opened, h.kind, fun i y q => h.reqs i y (mem_rm.1 q).1, ?_, .inr ⟨src, id, r, c, a, h2, ha⟩⟩
        intro y hy
        unfold Fetch.settle at hy
        dsimp only at hy
        cases bad with
        | false => rw [if_neg (by decide)] at hy; exact h.failed y hy
        | true =>
          rw [if_pos rfl] at hy
          rcases mem_ins.1 hy with rfl | q
          · exact ⟨r, ⟨src, a, h1⟩, hb rfl⟩
          · exact h.failed y q
      dsimp only
      cases ej : Fetch.judge f.query r with
      | refuse => exact ⟨fun _ q => (nomatch q), fun _ => ⟨_, rfl, rfl, trivial, .inl rfl⟩⟩
      | fail => exact fgo (settled true fun _ => ej) hl
      | ignore => exact fgo (settled false fun q => (nomatch q)) hl
      | give b =>
        refine ⟨fun _ q => (nomatch q), fun _ => ⟨_, rfl, rfl, ⟨_, _, h.opened, ?_⟩, .inr ⟨_, rfl⟩⟩⟩
        unfold Fetch.judge at ej
        cases hq : f.query with
        | blocksAt n => exact absurd hq (h.kind n)
        | blockAt n =>
          rw [hq] at ej hc
          cases r with
          | blockAt b' =>
            cases ej
            cases a with
            | blockAt m => cases hc; exact ⟨src, c, h1⟩
            | hash _ => exact hc.elim
            | block _ => exact hc.elim
          | hash _ => simp [Query.toPeer] at ej
          | block _ => simp at ej
          | exception => simp [Query.toPeer] at ej
          | other => simp [Query.toPeer] at ej
        | block hh p =>
          rw [hq] at ej hc
          cases r with
          | block b' =>
            dsimp only at ej
            cases a with
            | blockAt m => exact hc.elim
            | hash _ => exact hc.elim
            | block h' =>
              have hc : h' = hh := hc
              subst hc
              cases b' with
              | some b' => simp at ej; subst ej; exact ⟨src, c, h1⟩
              | none =>
                cases p with
                | false => simp at ej
                | true => simp at ej; subst ej; exact ⟨src, c, h1⟩
          | hash _ => cases p <;> simp [Query.toPeer] at ej
          | blockAt _ => simp at ej
          | exception => cases p <;> simp [Query.toPeer] at ej
          | other => cases p <;> simp [Query.toPeer] at ej

/-! ### The loops -/

/-- How often a request of the node is in a list of jobs. -/
def opens {α : Type} (i : Nat) : List (Nat × α) → Nat
  | [] => 0
  | e :: l => (if e.1 = i then 1 else 0) + opens i l

theorem opens_cons {α : Type} (i : Nat) (e : Nat × α) (l : List (Nat × α)) :
    opens i (e :: l) = (if e.1 = i then 1 else 0) + opens i l := rfl

theorem Asks.answers {rid : Nat} {x y : Acc} (h : Asks rid x y) (i : Nat) :
    answers i y.log = answers i x.log := by
  induction h with
  | refl => rfl
  | ask y a c _ ih => exact ih

theorem known_asked {cfg : Cfg} {rid : Nat} : ∀ id c a l, Known cfg (.asked rid id c a) l :=
  fun _ _ _ _ => trivial

theorem processJobs_inv {cfg : Cfg} {w : World} {synced : List Client} {ret : Option (Nat × Result)} :
    ∀ {js : List (Nat × Job)} {x : Acc}, (∀ e ∈ js, JI e.1 x.log e.2) →
      (∀ e ∈ js, ∀ id r c, ret = some (id, r) → (id, c) ∈ e.2.reqs → Answered e.1 c r x.log) →
      Each (Known cfg) x.log →
      (∀ e ∈ (processJobs cfg w synced ret js x).1, JI e.1 (processJobs cfg w synced ret js x).2.log e.2) ∧
      Each (Known cfg) (processJobs cfg w synced ret js x).2.log ∧
      Grow x.log (processJobs cfg w synced ret js x).2.log ∧
      (∀ i, opens i (processJobs cfg w synced ret js x).1 +
        answers i (processJobs cfg w synced ret js x).2.log = opens i js + answers i x.log) ∧
      Mute x.log (processJobs cfg w synced ret js x).2.log ∧
      x.next ≤ (processJobs cfg w synced ret js x).2.next
  | [], x, _, _, h3 => ⟨fun _ k => (nomatch k), h3, .refl _, fun _ => rfl, .refl _, Nat.le_refl _⟩
  | (rid, j) :: l, x, h1, h2, h3 => by
    have hw := process_went (cfg := cfg) (w := w) (synced := synced) (ret := ret)
      (h1 (rid, j) List.mem_cons_self) (h2 (rid, j) List.mem_cons_self)
    unfold processJobs
    dsimp only
    generalize j.process cfg w synced ret rid x = r at hw
    cases hr : r.1 with
    | some j' =>
      have hon := hw.on j' hr
      have hg := hon.2.grow
      have ih := processJobs_inv (cfg := cfg) (w := w) (synced := synced) (ret := ret) (js := l) (x := r.2)
        (fun e he => (h1 e (List.mem_cons_of_mem _ he)).mono hg.suffix)
        (fun e he id q c k1 k2 => (h2 e (List.mem_cons_of_mem _ he) id q c k1 k2).mono hg.suffix)
        (hon.2.each known_asked h3)
      refine ⟨?_, ih.2.1, hg.trans ih.2.2.1, ?_, hon.2.mute.trans ih.2.2.2.2.1,
        Nat.le_trans hon.2.next ih.2.2.2.2.2⟩
      · intro e he
        rcases List.mem_cons.1 he with rfl | he
        · exact hon.1.mono ih.2.2.1.suffix
        · exact ih.1 e he
      · intro i
        have h5 := ih.2.2.2.1 i
        have h6 := hon.2.answers i
        dsimp only
        rw [opens_cons, opens_cons]
        dsimp only
        omega
    | none =>
      obtain ⟨bs, k1, kn, k3⟩ := hw.done hr
      have hmu : Mute x.log r.2.log := by rw [k1]; exact .cons fun _ _ _ _ k => (nomatch k)
      have hg : Grow x.log r.2.log := by rw [k1]; exact .blocks ..
      have ih := processJobs_inv (cfg := cfg) (w := w) (synced := synced) (ret := ret) (js := l) (x := r.2)
        (fun e he => (h1 e (List.mem_cons_of_mem _ he)).mono hg.suffix)
        (fun e he id q c k1 k2 => (h2 e (List.mem_cons_of_mem _ he) id q c k1 k2).mono hg.suffix)
        (by rw [k1]; exact ⟨k3, h3⟩)
      refine ⟨ih.1, ih.2.1, hg.trans ih.2.2.1, ?_, hmu.trans ih.2.2.2.2.1,
        Nat.le_trans (Nat.le_of_eq kn.symm) ih.2.2.2.2.2⟩
      intro i
      have h5 := ih.2.2.2.1 i
      have h6 : answers i r.2.log = (if rid = i then 1 else 0) + answers i x.log := by rw [k1]; rfl
      rw [opens_cons]
      dsimp only
      omega

theorem processFetches_inv {cfg : Cfg} {w : World} {synced : List Client} {ret : Option (Nat × Result)} :
    ∀ {fs : List (Nat × Fetch)} {x : Acc}, (∀ e ∈ fs, FI e.1 x.log e.2) →
      (∀ c, live c x.log = true → c ∈ synced) →
      (∀ e ∈ fs, ∀ id r c, ret = some (id, r) → (id, c) ∈ e.2.reqs →
        Came w.now e.1 e.2.query id c r x.log) →
      Each (Known cfg) x.log →
      (∀ e ∈ (processFetches cfg w synced ret fs x).1,
        FI e.1 (processFetches cfg w synced ret fs x).2.log e.2) ∧
      Each (Known cfg) (processFetches cfg w synced ret fs x).2.log ∧
      Grow x.log (processFetches cfg w synced ret fs x).2.log ∧
      (∀ i, opens i (processFetches cfg w synced ret fs x).1 +
        answers i (processFetches cfg w synced ret fs x).2.log = opens i fs + answers i x.log) ∧
      Mute x.log (processFetches cfg w synced ret fs x).2.log ∧
      x.next ≤ (processFetches cfg w synced ret fs x).2.next
  | [], x, _, _, _, h3 => ⟨fun _ k => (nomatch k), h3, .refl _, fun _ => rfl, .refl _, Nat.le_refl _⟩
  | (rid, f) :: l, x, h1, hl, h2, h3 => by
    have hw := fprocess (cfg := cfg) (w := w) (synced := synced) (ret := ret)
      (h1 (rid, f) List.mem_cons_self) hl
      (h2 (rid, f) List.mem_cons_self)
    have low : ∀ {y : List Ev}, Grow x.log y → (∀ e ∈ l, FI e.1 y e.2) ∧
        (∀ c, live c y = true → c ∈ synced) :=
      fun hg => ⟨fun e he => (h1 e (List.mem_cons_of_mem _ he)).mono hg.suffix,
        fun c hc => hl c (by rw [← hg.live c]; exact hc)⟩
    unfold processFetches
    dsimp only
    generalize f.process cfg w synced ret rid x = r at hw
    have key : ∀ (hg : Grow x.log r.2.log), Each (Known cfg) r.2.log → _ := fun hg h4 =>
      processFetches_inv (cfg := cfg) (w := w) (synced := synced) (ret := ret) (fs := l) (x := r.2)
        (low hg).1 (low hg).2
        (fun e he id q c k1 k2 => (h2 e (List.mem_cons_of_mem _ he) id q c k1 k2).mono hg.suffix) h4
    cases hr : r.1 with
    | some f' =>
      have hon := hw.on f' hr
      have hg := hon.2.grow
      have ih := key hg (hon.2.each known_asked h3)
      refine ⟨?_, ih.2.1, hg.trans ih.2.2.1, ?_, hon.2.mute.trans ih.2.2.2.2.1,
        Nat.le_trans hon.2.next ih.2.2.2.2.2⟩
      · intro e he
        rcases List.mem_cons.1 he with rfl | he
        · exact hon.1.mono ih.2.2.1.suffix
        · exact ih.1 e he
      · intro i
        have h5 := ih.2.2.2.1 i
        have h6 := hon.2.answers i
        dsimp only
        rw [opens_cons, opens_cons]
        dsimp only
        omega
    | none =>
      obtain ⟨ev, k1, kn, k3, k4⟩ := hw.done hr
      have hmu : Mute x.log r.2.log := by
        rw [k1]
        refine .cons ?_
        rcases k4 with rfl | ⟨b, rfl⟩
        · exact fun _ _ _ _ k => (nomatch k)
        · exact fun _ _ _ _ k => (nomatch k)
      have hg : Grow x.log r.2.log := by
        rw [k1]
        rcases k4 with rfl | ⟨b, rfl⟩
        · exact .refused ..
        · exact .block ..
      have ih := key hg (by rw [k1]; exact ⟨k3, h3⟩)
      refine ⟨ih.1, ih.2.1, hg.trans ih.2.2.1, ?_, hmu.trans ih.2.2.2.2.1,
        Nat.le_trans (Nat.le_of_eq kn.symm) ih.2.2.2.2.2⟩
      intro i
      have h5 := ih.2.2.2.1 i
      have h6 : answers i r.2.log = (if rid = i then 1 else 0) + answers i x.log := by
        rw [k1]
        rcases k4 with rfl | ⟨b, rfl⟩
        · rfl
        · rfl
      rw [opens_cons]
      dsimp only
      omega

/-! ### Reachable states -/

structure SI (cfg : Cfg) (s : St) : Prop where
  each : Each (Known cfg) s.log
  jobs : ∀ e ∈ s.jobs, JI e.1 s.log e.2
  fetches : ∀ e ∈ s.fetches, FI e.1 s.log e.2
  live : ∀ c, live c s.log = true ↔ c ∈ s.synced
  opened : ∀ rid q t, .opened rid q t ∈ s.log → rid < s.rid
  count : ∀ i, opens i s.jobs + opens i s.fetches + answers i s.log = if i < s.rid then 1 else 0
  kinds : ∀ e ∈ s.jobs, ∃ n t, .opened e.1 (.blocksAt n) t ∈ s.log

/-- The jobs left are among the jobs before. -/
theorem processJobs_rid {cfg : Cfg} {w : World} {synced : List Client} {ret : Option (Nat × Result)} :
    ∀ {js : List (Nat × Job)} {x : Acc}, ∀ e ∈ (processJobs cfg w synced ret js x).1, ∃ e' ∈ js, e'.1 = e.1
  | [], _, _, h => (nomatch h)
  | (rid, j) :: l, x, e, h => by
    unfold processJobs at h
    dsimp only at h
    cases hr : (j.process cfg w synced ret rid x).1 with
    | none =>
      rw [hr] at h
      obtain ⟨e', h1, h2⟩ := processJobs_rid e h
      exact ⟨e', List.mem_cons_of_mem _ h1, h2⟩
    | some j' =>
      rw [hr] at h
      rcases List.mem_cons.1 h with rfl | h
      · exact ⟨_, List.mem_cons_self, rfl⟩
      · obtain ⟨e', h1, h2⟩ := processJobs_rid e h
        exact ⟨e', List.mem_cons_of_mem _ h1, h2⟩

theorem si_process {cfg : Cfg} {s : St} (h : SI cfg s) (w : World) (ret : Option (Nat × Result))
    (h1 : ∀ e ∈ s.jobs, ∀ id r c, ret = some (id, r) → (id, c) ∈ e.2.reqs → Answered e.1 c r s.log)
    (h2 : ∀ e ∈ s.fetches, ∀ id r c, ret = some (id, r) → (id, c) ∈ e.2.reqs →
      Came w.now e.1 e.2.query id c r s.log) : SI cfg (process cfg w ret s) := by
  have a := processJobs_inv (cfg := cfg) (w := w) (synced := s.synced) (ret := ret) (js := s.jobs)
    (x := ⟨s.next, s.log⟩) h.jobs h1 h.each
  have hrid := @processJobs_rid cfg w s.synced ret s.jobs ⟨s.next, s.log⟩
  unfold process
  dsimp only
  generalize processJobs cfg w s.synced ret s.jobs ⟨s.next, s.log⟩ = r at a hrid
  have hg : Grow s.log r.2.log := a.2.2.1
  have b := processFetches_inv (cfg := cfg) (w := w) (synced := s.synced) (ret := ret) (fs := s.fetches)
    (x := r.2) (fun e he => (h.fetches e he).mono hg.suffix)
    (fun c hc => (h.live c).1 (by rw [← hg.live c]; exact hc))
    (fun e he id q c k1 k2 => (h2 e he id q c k1 k2).mono hg.suffix) a.2.1
  generalize processFetches cfg w s.synced ret s.fetches r.2 = q at b
  have hg2 := hg.trans b.2.2.1
  refine ⟨b.2.1, fun e he => (a.1 e he).mono b.2.2.1.suffix, b.1, ?_, ?_, ?_, ?_⟩
  · intro c
    show Sync.live c q.2.log = true ↔ _
    rw [hg2.live c]; exact h.live c
  · intro rid q t hm
    exact h.opened rid q t (hg2.opened rid q t hm)
  · intro i
    have h3 := a.2.2.2.1 i
    have h4 := b.2.2.2.1 i
    have h5 := h.count i
    show opens i r.1 + opens i q.1 + answers i q.2.log = if i < s.rid then 1 else 0
    have h3 : opens i r.1 + answers i r.2.log = opens i s.jobs + answers i s.log := h3
    omega
  · intro e he
    obtain ⟨e', h3, h4⟩ := hrid e he
    obtain ⟨n, t, h5⟩ := h.kinds e' h3
    exact ⟨n, t, h4 ▸ hg2.suffix.subset h5⟩

theorem si_reply {cfg : Cfg} {s : St} (h : SI cfg s) (w : World) (src : Client) (id : Nat) (r : Result) :
    SI cfg (reply cfg w src id r s) := by
  unfold reply
  have hg := Grow.reply s.log w.now id src r
  have h0 : SI cfg { s with log := .reply w.now src id r :: s.log } := by
    refine ⟨⟨trivial, h.each⟩, fun e he => (h.jobs e he).mono hg.suffix,
      fun e he => (h.fetches e he).mono hg.suffix, ?_, ?_, h.count,
      fun e he => (h.kinds e he).imp fun _ k => k.imp fun _ k => hg.suffix.subset k⟩
    · intro c; exact h.live c
    · intro rid q t hm; exact h.opened rid q t (hg.opened rid q t hm)
  refine si_process h0 w _ ?_ ?_
  · intro e he id' r' c k1 k2
    cases k1
    obtain ⟨a, ha⟩ := (h.jobs e he).reqs id c k2
    exact ⟨src, a, [], s.log, w.now, id, rfl, ha⟩
  · intro e he id' r' c k1 k2
    cases k1
    obtain ⟨a, ha, hc⟩ := (h.fetches e he).reqs id c k2
    exact ⟨src, a, hc, List.mem_cons_of_mem _ ha, ⟨[], s.log, w.now, id, rfl, ha⟩, List.mem_cons_self⟩

theorem live_lost (c : Client) : ∀ (g : List Client) (l : List Ev),
    live c (g.map Ev.lost ++ l) = true ↔ (c ∉ g ∧ live c l = true)
  | [], l => by simp
  | d :: g, l => by
    have ih := live_lost c g l
    show (d != c && live c (g.map Ev.lost ++ l)) = true ↔ _
    rw [Bool.and_eq_true, ih, List.mem_cons]
    constructor
    · rintro ⟨h1, h2, h3⟩
      refine ⟨?_, h3⟩
      rintro (rfl | k)
      · simp at h1
      · exact h2 k
    · rintro ⟨h1, h3⟩
      refine ⟨?_, fun k => h1 (.inr k), h3⟩
      simp only [bne_iff_ne, ne_eq]
      rintro rfl
      exact h1 (.inl rfl)

theorem each_append {cfg : Cfg} {l : List Ev} (h : Each (Known cfg) l) :
    ∀ (g : List Ev), (∀ e ∈ g, ∀ l, Known cfg e l) → Each (Known cfg) (g ++ l)
  | [], _ => h
  | e :: g, hg => ⟨hg e List.mem_cons_self _,
      each_append h g (fun e he => hg e (List.mem_cons_of_mem _ he))⟩

theorem answers_lost (i : Nat) : ∀ (g : List Client) (l : List Ev),
    answers i (g.map Ev.lost ++ l) = answers i l
  | [], _ => rfl
  | _ :: g, l => answers_lost i g l

theorem opens_map {α : Type} {i : Nat} (f : Nat × α → Nat × α) (hf : ∀ e, (f e).1 = e.1) :
    ∀ (l : List (Nat × α)), opens i (l.map f) = opens i l
  | [] => rfl
  | e :: l => by rw [List.map_cons, opens_cons, opens_cons, hf, opens_map f hf l]

theorem answers_refused (i : Nat) : ∀ (g : List (Nat × Fetch)) (l : List Ev),
    answers i (g.map (fun e => Ev.refused e.1) ++ l) = opens i g + answers i l
  | [], l => (Nat.zero_add _).symm
  | e :: g, l => by
    show (if e.1 = i then 1 else 0) + answers i (g.map (fun e => Ev.refused e.1) ++ l) = _
    rw [answers_refused i g l, opens_cons]; omega

theorem opens_filter {α : Type} (i : Nat) (p : Nat × α → Bool) : ∀ (l : List (Nat × α)),
    opens i (l.filter fun e => !p e) + opens i (l.filter p) = opens i l
  | [] => rfl
  | e :: l => by
    have ih := opens_filter i p l
    cases hp : p e with
    | true =>
      rw [List.filter_cons_of_neg (by simp [hp]), List.filter_cons_of_pos hp, opens_cons, opens_cons]
      omega
    | false =>
      rw [List.filter_cons_of_pos (by simp [hp]), List.filter_cons_of_neg (by simp [hp]), opens_cons,
        opens_cons]
      omega

theorem si_expireJobs {cfg : Cfg} {s : St} (h : SI cfg s) (now : Nat) : SI cfg (expireJobs cfg now s) := by
  unfold expireJobs
  by_cases k : cfg.minPeers ≤ s.synced.length
  · rw [if_pos k]
    dsimp only
    generalize (s.jobs.filter (·.2.late cfg now)).flatMap (·.2.pending) = g
    have sf : s.log <:+ g.map Ev.lost ++ s.log := ⟨_, rfl⟩
    refine ⟨?_, ?_, fun e he => (h.fetches e he).mono sf, ?_, ?_, ?_, ?_⟩
    · refine each_append h.each _ ?_
      intro e he l
      obtain ⟨c, _, rfl⟩ := List.mem_map.1 he
      trivial
    · intro e he
      obtain ⟨e', he', rfl⟩ := List.mem_map.1 he
      by_cases q : e'.2.late cfg now = true
      · rw [if_pos q]; exact JI.new ..
      · rw [if_neg q]; exact (h.jobs e' he').mono sf
    · intro c
      show Sync.live c (g.map Ev.lost ++ s.log) = true ↔ c ∈ s.synced.filter _
      rw [live_lost, h.live c, List.mem_filter]
      simp [and_comm]
    · intro rid q t hm
      refine h.opened rid q t ?_
      rcases List.mem_append.1 hm with k | k
      · obtain ⟨c, _, q⟩ := List.mem_map.1 k; cases q
      · exact k
    · intro i
      have h1 := h.count i
      show opens i (s.jobs.map _) + opens i s.fetches + answers i (g.map Ev.lost ++ s.log) = _
      rw [answers_lost, opens_map _ (fun e => by by_cases q : e.2.late cfg now = true
                                                 · rw [if_pos q]
                                                 · rw [if_neg q])]
      exact h1
    · intro e he
      obtain ⟨e', he', rfl⟩ := List.mem_map.1 he
      obtain ⟨n, t, k⟩ := h.kinds e' he'
      refine ⟨n, t, sf.subset ?_⟩
      by_cases q : e'.2.late cfg now = true
      · rw [if_pos q]; exact k
      · rw [if_neg q]; exact k
  · rw [if_neg k]; exact h

theorem live_refused (c : Client) : ∀ (g : List (Nat × Fetch)) (l : List Ev),
    live c (g.map (fun e => Ev.refused e.1) ++ l) = live c l
  | [], _ => rfl
  | _ :: g, l => live_refused c g l

theorem si_expireFetches {cfg : Cfg} {s : St} (h : SI cfg s) (now : Nat) :
    SI cfg (expireFetches cfg now s) := by
  unfold expireFetches
  have hcount := fun i => opens_filter i (·.2.late cfg now) s.fetches
  generalize s.fetches.filter (·.2.late cfg now) = g at hcount
  have sf : s.log <:+ g.map (fun e => Ev.refused e.1) ++ s.log := ⟨_, rfl⟩
  refine ⟨?_, fun e he => (h.jobs e he).mono sf, ?_, ?_, ?_, ?_,
    fun e he => (h.kinds e he).imp fun _ k => k.imp fun _ k => sf.subset k⟩
  · refine each_append h.each _ ?_
    intro e he l
    obtain ⟨c, _, rfl⟩ := List.mem_map.1 he
    trivial
  · intro e he
    exact (h.fetches e (List.mem_filter.1 he).1).mono sf
  · intro c
    show Sync.live c (g.map (fun e => Ev.refused e.1) ++ s.log) = true ↔ _
    rw [live_refused]; exact h.live c
  · intro rid q t hm
    refine h.opened rid q t ?_
    rcases List.mem_append.1 hm with k | k
    · obtain ⟨c, _, q⟩ := List.mem_map.1 k; cases q
    · exact k
  · intro i
    have h1 := h.count i
    have h2 := hcount i
    show opens i s.jobs + opens i (s.fetches.filter _) +
      answers i (g.map (fun e => Ev.refused e.1) ++ s.log) = _
    rw [answers_refused]
    dsimp only
    omega

theorem si_idle {cfg : Cfg} {s : St} (h : SI cfg s) (w : World) : SI cfg (process cfg w none s) :=
  si_process h w none (fun _ _ _ _ _ k => (nomatch k)) (fun _ _ _ _ _ k => (nomatch k))

/-- `start` without the call of `process`. -/
def enterQuery (w : World) (q : Query) (s : St) : St :=
  match q with
  | .blocksAt h =>
    { s with rid := s.rid + 1, log := .opened s.rid q w.now :: s.log,
             jobs := (s.rid, { height := h, start := w.now }) :: s.jobs }
  | _ =>
    { s with rid := s.rid + 1, log := .opened s.rid q w.now :: s.log,
             fetches := (s.rid, { query := q, start := w.now }) :: s.fetches }

theorem start_eq (cfg : Cfg) (w : World) (q : Query) (s : St) :
    start cfg w q s = process cfg w none (enterQuery w q s) := by
  unfold start enterQuery
  cases q with
  | blocksAt n => rfl
  | block hh p => rfl
  | blockAt n => rfl

theorem si_opened {cfg : Cfg} {s : St} (h : SI cfg s) (w : World) (q : Query) :
    SI cfg (enterQuery w q s) := by
  unfold enterQuery
  have sf := suffix_cons (.opened s.rid q w.now) s.log
  have e1 : Each (Known cfg) (.opened s.rid q w.now :: s.log) :=
    ⟨fun q' t' hm => Nat.lt_irrefl _ (h.opened _ _ _ hm), h.each⟩
  have e2 : ∀ rid q' t, Ev.opened rid q' t ∈ Ev.opened s.rid q w.now :: s.log → rid < s.rid + 1 := by
    intro rid q' t hm
    rcases List.mem_cons.1 hm with k | k
    · cases k; exact Nat.lt_succ_self _
    · exact Nat.lt_succ_of_lt (h.opened rid q' t k)
  have jf : ∀ e ∈ s.jobs, JI e.1 (.opened s.rid q w.now :: s.log) e.2 := fun e he => (h.jobs e he).mono sf
  have ff : ∀ e ∈ s.fetches, FI e.1 (.opened s.rid q w.now :: s.log) e.2 :=
    fun e he => (h.fetches e he).mono sf
  have fnew : (∀ n, q ≠ .blocksAt n) →
      FI s.rid (.opened s.rid q w.now :: s.log) { query := q, start := w.now } := fun hq =>
    ⟨List.mem_cons_self, hq, fun _ _ k => (nomatch k), fun _ k => (nomatch k), .inl rfl⟩
  have hc : ∀ i, (if s.rid = i then 1 else 0) + (if i < s.rid then 1 else 0) =
      if i < s.rid + 1 then 1 else 0 := by
    intro i
    by_cases a : s.rid = i
    · rw [if_pos a, if_neg (by omega), if_pos (by omega)]
    · by_cases b : i < s.rid
      · rw [if_neg a, if_pos b, if_pos (by omega)]
      · rw [if_neg a, if_neg b, if_neg (by omega)]
  cases q with
  | blocksAt n =>
    refine ⟨e1, ?_, ff, h.live, e2, fun i => by
      have := h.count i
      have := hc i
      show opens i (_ :: s.jobs) + opens i s.fetches + answers i s.log = _
      rw [opens_cons]; dsimp only; omega, fun e he => by
      rcases List.mem_cons.1 he with rfl | he
      · exact ⟨n, w.now, List.mem_cons_self⟩
      · exact (h.kinds e he).imp fun _ k => k.imp fun _ k => sf.subset k⟩
    intro e he
    rcases List.mem_cons.1 he with rfl | he
    · exact JI.new ..
    · exact jf e he
  | block hh p =>
    refine ⟨e1, jf, ?_, h.live, e2, fun i => by
      have := h.count i
      have := hc i
      show opens i s.jobs + opens i (_ :: s.fetches) + answers i s.log = _
      rw [opens_cons]; dsimp only; omega,
      fun e he => (h.kinds e he).imp fun _ k => k.imp fun _ k => sf.subset k⟩
    intro e he
    rcases List.mem_cons.1 he with rfl | he
    · exact fnew (fun _ k => (nomatch k))
    · exact ff e he
  | blockAt n =>
    refine ⟨e1, jf, ?_, h.live, e2, fun i => by
      have := h.count i
      have := hc i
      show opens i s.jobs + opens i (_ :: s.fetches) + answers i s.log = _
      rw [opens_cons]; dsimp only; omega,
      fun e he => (h.kinds e he).imp fun _ k => k.imp fun _ k => sf.subset k⟩
    intro e he
    rcases List.mem_cons.1 he with rfl | he
    · exact fnew (fun _ k => (nomatch k))
    · exact ff e he

theorem si_start {cfg : Cfg} {s : St} (h : SI cfg s) (w : World) (q : Query) : SI cfg (start cfg w q s) := by
  rw [start_eq]; exact si_idle (si_opened h w q) w

theorem si_step {cfg : Cfg} {s : St} (h : SI cfg s) (op : Op) : SI cfg (step cfg s op) := by
  cases op with
  | start w q => exact si_start h w q
  | reply w src id r => exact si_reply h w src id r
  | update w => exact si_idle (si_expireFetches (si_expireJobs h w.now) w.now) w
  | synced c =>
    have sf := suffix_cons (.sync c) s.log
    refine ⟨⟨trivial, h.each⟩, fun e he => (h.jobs e he).mono sf, fun e he => (h.fetches e he).mono sf, ?_, ?_, h.count,
      fun e he => (h.kinds e he).imp fun _ k => k.imp fun _ k => sf.subset k⟩
    · intro d
      show (c == d || live d s.log) = true ↔ d ∈ ins c s.synced
      rw [Bool.or_eq_true, h.live d, mem_ins, beq_iff_eq]
      exact ⟨fun k => k.imp Eq.symm id, fun k => k.imp Eq.symm id⟩
    · intro rid q t hm
      exact h.opened rid q t ((List.mem_cons.1 hm).resolve_left fun k => (nomatch k))
  | unsynced c =>
    have sf := suffix_cons (.lost c) s.log
    refine ⟨⟨trivial, h.each⟩, fun e he => (h.jobs e he).mono sf, fun e he => (h.fetches e he).mono sf, ?_, ?_, h.count,
      fun e he => (h.kinds e he).imp fun _ k => k.imp fun _ k => sf.subset k⟩
    · intro d
      show (c != d && live d s.log) = true ↔ d ∈ del c s.synced
      rw [Bool.and_eq_true, h.live d, mem_del, bne_iff_ne]
      exact ⟨fun k => ⟨k.2, k.1.symm⟩, fun k => ⟨k.2.symm, k.1⟩⟩
    · intro rid q t hm
      exact h.opened rid q t ((List.mem_cons.1 hm).resolve_left fun k => (nomatch k))

theorem si_init (cfg : Cfg) : SI cfg {} :=
  ⟨trivial, fun _ k => (nomatch k), fun _ k => (nomatch k), fun _ => ⟨fun k => (nomatch k), fun k => (nomatch k)⟩,
    fun _ _ _ k => (nomatch k), fun _ => rfl, fun _ k => (nomatch k)⟩

theorem si_run (cfg : Cfg) (ops : List Op) : SI cfg (run cfg ops) := by
  unfold run
  suffices ∀ s, SI cfg s → SI cfg (ops.foldl (step cfg) s) from this _ (si_init cfg)
  induction ops with
  | nil => exact fun _ h => h
  | cons op ops ih => exact fun s h => ih _ (si_step h op)

end Verif.Router.Sync
