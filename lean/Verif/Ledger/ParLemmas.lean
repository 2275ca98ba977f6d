import Verif.Ledger.LockLemmas
/-
  Invariant of the parallel validation of a block.
-/
namespace Verif.Ledger
open Verif Verif.Chain

/-! ### Writes -/

/-- Equal at one contract. -/
def At (c : Addr) (g h : Sto) : Prop := (∀ l, g.var c l = h.var c l) ∧ ∀ q, g.bal c q = h.bal c q

theorem At.refl (c : Addr) (g : Sto) : At c g g := ⟨fun _ => rfl, fun _ => rfl⟩
theorem At.symm {c : Addr} {g h : Sto} (k : At c g h) : At c h g := ⟨fun l => (k.1 l).symm, fun q => (k.2 q).symm⟩
theorem At.trans {c : Addr} {g h k : Sto} (a : At c g h) (b : At c h k) : At c g k := ⟨fun l => (a.1 l).trans (b.1 l), fun q => (a.2 q).trans (b.2 q)⟩

theorem put_other {c : Addr} {a : Wr} (h : a.at' ≠ c) (g : Sto) : At c (g.put a) g := by
  cases a with
  | var d l v => exact ⟨fun k => if_neg fun e => h e.1.symm, fun _ => rfl⟩
  | bal d l v => exact ⟨fun _ => rfl, fun k => if_neg fun e => h e.1.symm⟩

theorem put_at {c : Addr} {g h : Sto} (a : Wr) (k : At c g h) : At c (g.put a) (h.put a) := by
  cases a with
  | var d l v =>
    refine ⟨fun j => ?_, k.2⟩
    show (if _ then _ else _) = (if _ then _ else _)
    rw [k.1]
  | bal d l v =>
    refine ⟨k.1, fun j => ?_⟩
    show (if _ then _ else _) = (if _ then _ else _)
    rw [k.2]

theorem puts_at {c : Addr} : ∀ (ws : List Wr) {g h : Sto}, At c g h → At c (g.puts ws) (h.puts ws)
  | [], _, _, k => k
  | a :: ws, _, _, k => puts_at ws (put_at a k)

theorem puts_other {c : Addr} : ∀ (ws : List Wr) (g : Sto), (∀ a ∈ ws, a.at' ≠ c) → At c (g.puts ws) g
  | [], g, _ => .refl c g
  | a :: ws, g, h => (puts_other ws _ fun b hb => h b (List.mem_cons_of_mem _ hb)).trans (put_other (h a (List.mem_cons_self ..)) g)

/-! ### In order -/

section
variable (w : World) (g0 : Sto) (txs : List Tx)

/-- The storage after the first `n` transactions. -/
def stoAt (n : Nat) : Sto := (seqRun w g0 (txs.take n)).1

def verdictAt (n : Nat) (tx : Tx) : Verdict := (validate w tx).run (stoAt w g0 txs n)

theorem seqRun_append : ∀ (a b : List Tx) (g : Sto), seqRun w g (a ++ b) =
    ((seqRun w (seqRun w g a).1 b).1, (seqRun w g a).2 ++ (seqRun w (seqRun w g a).1 b).2)
  | [], _, _ => rfl
  | tx :: a, b, g => by
    simp only [List.cons_append, seqRun]
    rw [seqRun_append a b]

theorem stoAt_succ {n : Nat} {tx : Tx} (h : txs[n]? = some tx) : stoAt w g0 txs (n + 1) = (stoAt w g0 txs n).puts (verdictAt w g0 txs n tx).writes := by
  unfold stoAt verdictAt
  rw [List.take_add_one, h, seqRun_append]
  rfl

theorem stoAt_none {n : Nat} (h : txs[n]? = none) : stoAt w g0 txs (n + 1) = stoAt w g0 txs n := by
  unfold stoAt
  rw [List.take_add_one, h]
  simp

theorem verdicts_seq : ∀ (txs : List Tx) (g : Sto) (n : Nat) (tx : Tx), txs[n]? = some tx →
    (seqRun w g txs).2[n]? = some (verdictAt w g txs n tx)
  | [], _, _, _, h => by simp at h
  | t :: txs, g, 0, tx, h => by
    simp at h; subst h; rfl
  | t :: txs, g, n + 1, tx, h => by
    have := verdicts_seq txs (g.puts ((validate w t).run g).writes) n tx (by simpa using h)
    simpa [seqRun, verdictAt, stoAt] using this

theorem seqRun_length : ∀ (txs : List Tx) (g : Sto), (seqRun w g txs).2.length = txs.length
  | [], _ => rfl
  | t :: txs, g => by simp [seqRun, seqRun_length txs]

end

/-! ### Statuses -/

/-- The transaction has begun to read or write. -/
def Status.started : Status → Bool
  | .queued => false
  | .waiting => false
  | _ => true

def Started (s : Par) (i : Nat) : Prop := ∃ t : Status, s.status[i]? = some t ∧ t.started = true
def Done (s : Par) (i : Nat) : Prop := ∃ v : Verdict, s.status[i]? = some (.done v)

theorem Done.started {s : Par} {i : Nat} (h : Done s i) : Started s i := by
  obtain ⟨v, h⟩ := h; exact ⟨_, h, rfl⟩

/-! ### The invariant -/

variable {w : World} {x : Ctx} {txs : List Tx} {k : Nat} {g0 : Sto}

/-- What holds of the transaction at position `i`. -/
def Good (w : World) (x : Ctx) (txs : List Tx) (g0 : Sto) (g : Sto) (i : Nat) (tx : Tx) : Status → Prop
  | .queued => True
  | .waiting => True
  | .run p => p.WP (fun c => Lk x txs i c) (fun v => ∀ a ∈ v.writes, Lk x txs i a.at') ∧
      p.run (stoAt w g0 txs i) = verdictAt w g0 txs i tx ∧ ∀ c, Lk x txs i c → At c g (stoAt w g0 txs i)
  | .commit ws v => v = verdictAt w g0 txs i tx ∧ (∀ a ∈ ws, Lk x txs i a.at') ∧ ∀ c, Lk x txs i c → At c (g.puts ws) (stoAt w g0 txs (i + 1))
  | .done v => v = verdictAt w g0 txs i tx

structure PInv (w : World) (x : Ctx) (txs : List Tx) (g0 : Sto) (s : Par) : Prop where
  len : s.status.length = txs.length
  waits : ∀ i tx, txs[i]? = some tx → Started s i → ∀ q ∈ x.wait tx.id, ended txs s.status q
  good : ∀ (i : Nat) (tx : Tx) (t : Status), txs[i]? = some tx → s.status[i]? = some t → Good w x txs g0 s.sto i tx t
  stable : ∀ c n, (∀ i, i < n → Lk x txs i c → Done s i) → (∀ i, n ≤ i → Lk x txs i c → ¬ Started s i) → At c s.sto (stoAt w g0 txs n)
  queue : ∀ i j, i < j → s.status[i]? = some .queued → j < txs.length → s.status[j]? = some .queued

theorem Lk.lt {i : Nat} {c : Addr} (h : Lk x txs i c) : i < txs.length := by
  obtain ⟨tx, h, _⟩ := h
  exact (List.getElem?_eq_some_iff.1 h).1

theorem ended_done (hr : Ready x txs) {s : Par} {p : Nat} {t : Tx} (ht : txs[p]? = some t) (h : ended txs s.status t.id) : Done s p := by
  obtain ⟨i, tx, v, h1, h2, h3⟩ := h
  have : i = p := map_inj hr.nodup h1 ht h2
  subst this
  exact ⟨v, h3⟩

/-- Once the waits of `j` are over, all that lock a contract of `j` before it have ended. -/
theorem before_done (hr : Ready x txs) {s : Par} (hw : ∀ i tx, txs[i]? = some tx → Started s i → ∀ q ∈ x.wait tx.id, ended txs s.status q) :
    ∀ j tx, txs[j]? = some tx → (∀ q ∈ x.wait tx.id, ended txs s.status q) → ∀ i c, i < j → Lk x txs i c → Lk x txs j c → Done s i := by
  intro j
  induction j using Nat.strongRecOn with
  | _ j ih =>
    intro tx htx hq i c hij hi hj
    obtain ⟨tx', h1, h2⟩ := hj
    rw [htx] at h1; cases h1
    obtain ⟨p, t, k1, k2, k3, k4, k5⟩ := hr.order i j c tx hij hi htx h2
    have hd := ended_done hr k4 (hq _ k5)
    rcases Nat.eq_or_lt_of_le k1 with rfl | hlt
    · exact hd
    · exact ih p k2 t k4 (hw p t k4 hd.started) i c hlt hi k3

/-- Transactions that share a contract run one after the other, in the order of the block. -/
theorem PInv.exclusive (hr : Ready x txs) {s : Par} (h : PInv w x txs g0 s) {i j : Nat} {c : Addr} (hij : i < j) (hi : Lk x txs i c) (hj : Lk x txs j c)
    (hs : Started s j) : Done s i := by
  obtain ⟨tx, h1, _⟩ := id hj
  exact before_done hr h.waits j tx h1 (h.waits j tx h1 hs) i c hij hi hj

theorem Proc.WP.weaken {α : Type} {P P' : Addr → Prop} {Q : α → Prop} {p : Proc α} (h : p.WP P Q) (hp : ∀ c, P c → P' c) : p.WP P' Q := by
  induction p with
  | ret a => exact h
  | rdVar c l k ih => exact ⟨hp _ h.1, fun o => ih o (h.2 o)⟩
  | rdBal c l k ih => exact ⟨hp _ h.1, fun o => ih o (h.2 o)⟩

/-- A transaction of the block stays within its locks. -/
theorem Ready.wp (hr : Ready x txs) (w : World) {i : Nat} {tx : Tx} (h : txs[i]? = some tx) :
    (validate (w.withCtx x) tx).WP (fun c => Lk x txs i c) (fun v => ∀ a ∈ v.writes, Lk x txs i a.at') := by
  have hl : ∀ c, (w.withCtx x).mayRun tx.id c → Lk x txs i c := fun c hc => ⟨tx, h, by simpa [World.withCtx] using hc.1⟩
  exact ((validate_loc (hr.locked w (List.mem_of_getElem? h))).weaken hl).mono fun v hv a ha => hl _ (hv.writes a ha)

theorem Ready.frame (hr : Ready x txs) (w : World) {c : Addr} {m : Nat} (h : ¬ Lk x txs m c) :
    At c (stoAt (w.withCtx x) g0 txs (m + 1)) (stoAt (w.withCtx x) g0 txs m) := by
  cases htx : txs[m]? with
  | none => rw [stoAt_none _ g0 txs htx]; exact .refl c _
  | some tx =>
    rw [stoAt_succ _ g0 txs htx]
    refine puts_other _ _ fun a ha e => h ?_
    rw [← e]
    exact (hr.wp w htx).result _ a ha

theorem Ready.frames (hr : Ready x txs) (w : World) {c : Addr} {m n : Nat} (hmn : m ≤ n) (h : ∀ i, m ≤ i → i < n → ¬ Lk x txs i c) :
    At c (stoAt (w.withCtx x) g0 txs n) (stoAt (w.withCtx x) g0 txs m) := by
  induction n with
  | zero => have : m = 0 := by omega
            subst this; exact .refl c _
  | succ n ih =>
    rcases Nat.eq_or_lt_of_le hmn with rfl | hlt
    · exact .refl c _
    · exact (hr.frame w (h n (by omega) (by omega))).trans (ih (by omega) fun i h1 h2 => h i h1 (by omega))

theorem PInv.init (hr : Ready x txs) (w : World) (g0 : Sto) : PInv (w.withCtx x) x txs g0 (Par.init g0 txs) := by
  have hq : ∀ (i : Nat) (t : Status), (Par.init g0 txs).status[i]? = some t → t = .queued := by
    intro i t h
    simp [Par.init] at h
    exact h.2.symm
  have hns : ∀ i, ¬ Started (Par.init g0 txs) i := by
    rintro i ⟨t, h1, h2⟩
    rw [hq i t h1] at h2; cases h2
  have hnd : ∀ i, ¬ Done (Par.init g0 txs) i := fun i h => hns i h.started
  refine ⟨by simp [Par.init], fun i tx _ h => absurd h (hns i), fun i tx t _ h => by rw [hq i t h]; trivial, ?_, ?_⟩
  · intro c n h1 h2
    exact (hr.frames w (Nat.zero_le n) fun i _ hi hl => hnd i (h1 i hi hl)).symm
  · intro i j _ _ hj
    simp [Par.init, hj]

/-! ### Steps -/

section
variable {st : List Status} {i : Nat} {a b : Status}

theorem set_get (h : st[i]? = some a) : (st.set i b)[i]? = some b := by
  have := (List.getElem?_eq_some_iff.1 h).1
  simp [this]

theorem set_ne {j : Nat} (h : j ≠ i) : (st.set i b)[j]? = st[j]? := by
  simp [List.getElem?_set, h.symm]
end

theorem ended_set {st : List Status} {i : Nat} {a b : Status} (hi : st[i]? = some a) (ha : a.isDone = false) {q : Addr} (h : ended txs st q) : ended txs (st.set i b) q := by
  obtain ⟨j, tx, v, h1, h2, h3⟩ := h
  refine ⟨j, tx, v, h1, h2, ?_⟩
  rw [set_ne]
  · exact h3
  · rintro rfl; rw [hi] at h3; cases h3; cases ha

/-- The parts of the invariant that do not look at the storage, for any step of `i` to a status that is
    not `queued`. -/
theorem PInv.move {s : Par} (h : PInv w x txs g0 s) {i : Nat} {tx : Tx} {a b : Status} {g : Sto} (htx : txs[i]? = some tx) (hi : s.status[i]? = some a) (ha : a.isDone = false)
    (hb : b ≠ .queued) (hw : b.started = true → a.started = false → ∀ q ∈ x.wait tx.id, ended txs s.status q)
    (hq : a = .queued → ∀ j, j < i → s.status[j]? ≠ some .queued)
    (good : ∀ (j : Nat) (tx : Tx) (t : Status), j ≠ i → txs[j]? = some tx → s.status[j]? = some t → Good w x txs g0 g j tx t)
    (goodi : Good w x txs g0 g i tx b)
    (stable : ∀ c n, (∀ j, j < n → Lk x txs j c → Done { status := s.status.set i b, sto := g } j) →
      (∀ j, n ≤ j → Lk x txs j c → ¬ Started { status := s.status.set i b, sto := g } j) → At c g (stoAt w g0 txs n)) :
    PInv w x txs g0 { status := s.status.set i b, sto := g } := by
  refine ⟨by simp [h.len], ?_, ?_, stable, ?_⟩
  · rintro j tx' hj ⟨t, h1, h2⟩ q hq
    by_cases hji : j = i
    · subst hji
      rw [htx] at hj; cases hj
      dsimp only at h1
      rw [set_get hi] at h1; cases h1
      refine ended_set hi ha ?_
      cases hs : a.started with
      | true => exact h.waits j tx htx ⟨a, hi, hs⟩ q hq
      | false => exact hw h2 hs q hq
    · dsimp only at h1
      rw [set_ne hji] at h1
      exact ended_set hi ha (h.waits j tx' hj ⟨t, h1, h2⟩ q hq)
  · intro j tx' t hj ht
    by_cases hji : j = i
    · subst hji
      rw [htx] at hj; cases hj
      dsimp only at ht
      rw [set_get hi] at ht; cases ht
      exact goodi
    · dsimp only at ht
      rw [set_ne hji] at ht
      exact good j tx' t hji hj ht
  · intro j l hjl hj hl
    dsimp only at hj ⊢
    have hji : j ≠ i := by
      rintro rfl
      rw [set_get hi] at hj
      exact hb (Option.some.inj hj)
    rw [set_ne hji] at hj
    have hl' := h.queue j l hjl hj hl
    have hli : l ≠ i := by
      rintro rfl
      rw [hi] at hl'
      exact hq (Option.some.inj hl') j hjl hj
    rw [set_ne hli]
    exact hl'

theorem done_set {s : Par} {i : Nat} {a b : Status} {g : Sto} (hi : s.status[i]? = some a) (hb : b.isDone = false) {j : Nat}
    (h : Done { status := s.status.set i b, sto := g } j) : Done s j := by
  obtain ⟨v, h⟩ := h
  dsimp only at h
  by_cases hji : j = i
  · subst hji
    rw [set_get hi] at h; cases h; cases hb
  · rw [set_ne hji] at h; exact ⟨v, h⟩

theorem started_set {s : Par} {i : Nat} {a b : Status} {g : Sto} (hi : s.status[i]? = some a) (hab : a.started = true → b.started = true) {j : Nat}
    (h : Started s j) : Started { status := s.status.set i b, sto := g } j := by
  obtain ⟨t, h1, h2⟩ := h
  by_cases hji : j = i
  · subst hji
    rw [hi] at h1; cases h1
    exact ⟨b, set_get hi, hab h2⟩
  · exact ⟨t, by dsimp only; rw [set_ne hji]; exact h1, h2⟩

/-- A step that leaves the storage and does not end a transaction. -/
theorem PInv.quiet {s : Par} (h : PInv w x txs g0 s) {i : Nat} {tx : Tx} {a b : Status} (htx : txs[i]? = some tx) (hi : s.status[i]? = some a) (ha : a.isDone = false)
    (hb : b ≠ .queued) (hd : b.isDone = false) (hab : a.started = true → b.started = true)
    (hw : b.started = true → a.started = false → ∀ q ∈ x.wait tx.id, ended txs s.status q)
    (hq : a = .queued → ∀ j, j < i → s.status[j]? ≠ some .queued)
    (goodi : Good w x txs g0 s.sto i tx b) : PInv w x txs g0 { status := s.status.set i b, sto := s.sto } :=
  h.move htx hi ha hb hw hq (fun j tx t _ h1 h2 => h.good j tx t h1 h2) goodi
    fun c n h1 h2 => h.stable c n (fun j hj hl => done_set hi hd (h1 j hj hl)) fun j hj hl hs => h2 j hj hl (started_set hi hab hs)

theorem PInv.get {s : Par} (h : PInv w x txs g0 s) {i : Nat} {a : Status} (hi : s.status[i]? = some a) : ∃ tx, txs[i]? = some tx := by
  have := (List.getElem?_eq_some_iff.1 hi).1
  rw [h.len] at this
  exact ⟨_, List.getElem?_eq_getElem this⟩

theorem PInv.step (hr : Ready x txs) (w : World) {s t : Par} (h : PInv (w.withCtx x) x txs g0 s) (hst : Par.Step (w.withCtx x) x txs k s t) :
    PInv (w.withCtx x) x txs g0 t := by
  cases hst with
  | @take i hi hq _ =>
    obtain ⟨tx, htx⟩ := h.get hi
    exact h.quiet htx hi rfl (nomatch ·) rfl (nomatch ·) (nomatch ·) (fun _ => hq) trivial
  | @start i tx hi htx hw =>
    refine h.quiet htx hi rfl (nomatch ·) rfl (fun _ => rfl) (fun _ _ => hw) (nomatch ·) ⟨hr.wp w htx, rfl, fun c hc => ?_⟩
    refine h.stable c i (fun j hj hl => before_done hr h.waits i tx htx hw j c hj hl hc) fun j hj hl hs => ?_
    rcases Nat.eq_or_lt_of_le hj with rfl | hlt
    · obtain ⟨t, h1, h2⟩ := hs
      rw [hi] at h1; cases h1; cases h2
    · obtain ⟨v, hv⟩ := h.exclusive hr hlt hc hl hs
      rw [hi] at hv; cases hv
  | @rdVar i c l f hi =>
    obtain ⟨tx, htx⟩ := h.get hi
    obtain ⟨k1, k2, k3⟩ := h.good i tx _ htx hi
    refine h.quiet htx hi rfl (nomatch ·) rfl (fun _ => rfl) (fun _ h => nomatch h) (nomatch ·) ⟨k1.2 _, ?_, k3⟩
    rw [(k3 c k1.1).1 l]; exact k2
  | @rdBal i c q f hi =>
    obtain ⟨tx, htx⟩ := h.get hi
    obtain ⟨k1, k2, k3⟩ := h.good i tx _ htx hi
    refine h.quiet htx hi rfl (nomatch ·) rfl (fun _ => rfl) (fun _ h => nomatch h) (nomatch ·) ⟨k1.2 _, ?_, k3⟩
    rw [(k3 c k1.1).2 q]; exact k2
  | @ret i v hi =>
    obtain ⟨tx, htx⟩ := h.get hi
    obtain ⟨k1, k2, k3⟩ := h.good i tx _ htx hi
    have k2 : v = verdictAt (w.withCtx x) g0 txs i tx := k2
    refine h.quiet htx hi rfl (nomatch ·) rfl (fun _ => rfl) (fun _ h => nomatch h) (nomatch ·) ⟨k2, k1, fun c hc => ?_⟩
    rw [stoAt_succ _ g0 txs htx, ← k2]
    exact puts_at _ (k3 c hc)
  | @put i a ws v hi =>
    obtain ⟨tx, htx⟩ := h.get hi
    obtain ⟨k1, k2, k3⟩ := h.good i tx _ htx hi
    have ha := k2 a (List.mem_cons_self ..)
    have hsi : Started s i := ⟨_, hi, rfl⟩
    have hndi : ¬ Done s i := by rintro ⟨v, hv⟩; rw [hi] at hv; cases hv
    have hno : ∀ j, j ≠ i → Started s j → ¬ Done s j → ∀ c, Lk x txs j c → a.at' ≠ c := by
      rintro j hji hsj hdj c hl rfl
      rcases Nat.lt_or_gt_of_ne hji with hlt | hlt
      · exact hdj (h.exclusive hr hlt hl ha hsi)
      · exact hndi (h.exclusive hr hlt ha hl hsj)
    refine h.move htx hi rfl (nomatch ·) (fun _ h => nomatch h) (nomatch ·) ?_ ⟨k1, fun b hb => k2 b (List.mem_cons_of_mem _ hb), k3⟩ ?_
    · intro j tx' t hji hj ht
      have hg := h.good j tx' t hj ht
      cases t with
      | queued => trivial
      | waiting => trivial
      | done v => exact hg
      | run p =>
        refine ⟨hg.1, hg.2.1, fun c hc => (put_other ?_ _).trans (hg.2.2 c hc)⟩
        exact hno j hji ⟨_, ht, rfl⟩ (by rintro ⟨v, hv⟩; rw [ht] at hv; cases hv) c hc
      | commit ws' v' =>
        refine ⟨hg.1, hg.2.1, fun c hc => (puts_at _ (put_other ?_ _)).trans (hg.2.2 c hc)⟩
        exact hno j hji ⟨_, ht, rfl⟩ (by rintro ⟨v, hv⟩; rw [ht] at hv; cases hv) c hc
    · intro c n h1 h2
      have hne : a.at' ≠ c := by
        rintro rfl
        rcases Nat.lt_or_ge i n with hlt | hge
        · exact hndi (done_set hi rfl (h1 i hlt ha))
        · exact h2 i hge ha (started_set hi (fun _ => rfl) hsi)
      exact (put_other hne _).trans (h.stable c n (fun j hj hl => done_set hi rfl (h1 j hj hl)) fun j hj hl hs => h2 j hj hl (started_set hi (fun _ => rfl) hs))
  | @signal i v hi =>
    obtain ⟨tx, htx⟩ := h.get hi
    obtain ⟨k1, k2, k3⟩ := h.good i tx _ htx hi
    have hsi : Started s i := ⟨_, hi, rfl⟩
    have hndi : ¬ Done s i := by rintro ⟨v, hv⟩; rw [hi] at hv; cases hv
    refine h.move htx hi rfl (nomatch ·) (fun _ h => nomatch h) (nomatch ·) (fun j tx t _ h1 h2 => h.good j tx t h1 h2) k1 ?_
    intro c n h1 h2
    have hd : ∀ j, j ≠ i → Done { status := s.status.set i (.done v), sto := s.sto } j → Done s j := by
      rintro j hji ⟨v, hv⟩
      dsimp only at hv
      rw [set_ne hji] at hv
      exact ⟨v, hv⟩
    by_cases hl : Lk x txs i c
    · have hin : i < n := by
        rcases Nat.lt_or_ge i n with hlt | hge
        · exact hlt
        · exact absurd (started_set hi (fun _ => rfl) hsi) (h2 i hge hl)
      refine (k3 c hl).trans (hr.frames w (g0 := g0) (m := i + 1) (n := n) hin ?_).symm
      intro j hj1 hj2 hlj
      have hdj := hd j (by omega) (h1 j hj2 hlj)
      exact hndi (h.exclusive hr (by omega) hl hlj hdj.started)
    · refine h.stable c n (fun j hj hlj => hd j ?_ (h1 j hj hlj)) fun j hj hlj hs => h2 j hj hlj (started_set hi (fun _ => rfl) hs)
      rintro rfl; exact hl hlj

theorem PInv.steps (hr : Ready x txs) (w : World) {t : Par} (hst : Par.Steps (w.withCtx x) x txs k (Par.init g0 txs) t) :
    PInv (w.withCtx x) x txs g0 t := by
  induction hst with
  | refl => exact .init hr w g0
  | step _ h ih => exact ih.step hr w h

/-! ### Progress -/

theorem PInv.progress (hr : Ready x txs) {s : Par} (h : PInv (w.withCtx x) x txs g0 s) (hk : 0 < k) (hnd : ∃ i, i < txs.length ∧ ¬ Done s i) :
    ∃ t, Par.Step (w.withCtx x) x txs k s t := by
  classical
  -- the first transaction that has not ended
  obtain ⟨i, hi, hd, hmin⟩ : ∃ i, i < txs.length ∧ ¬ Done s i ∧ ∀ j, j < i → Done s j := by
    obtain ⟨i, hi, hd⟩ := hnd
    induction i using Nat.strongRecOn with
    | _ i ih =>
      by_cases hj : ∃ j, j < i ∧ ¬ Done s j
      · obtain ⟨j, hj, hdj⟩ := hj
        exact ih j hj (by omega) hdj
      · exact ⟨i, hi, hd, fun j hj' => Classical.byContradiction fun hn => hj ⟨j, hj', hn⟩⟩
  have his : i < s.status.length := by rw [h.len]; exact hi
  have hst : s.status[i]? = some s.status[i] := List.getElem?_eq_getElem his
  generalize s.status[i] = a at hst
  obtain ⟨tx, htx⟩ := h.get hst
  cases a with
  | queued =>
    refine ⟨_, .take hst (fun j hj hq => ?_) ?_⟩
    · obtain ⟨v, hv⟩ := hmin j hj
      rw [hv] at hq; cases hq
    · have : s.status.countP Status.busy = 0 := by
        rw [List.countP_eq_zero]
        intro b hb
        obtain ⟨j, hj⟩ := List.getElem?_of_mem hb
        rcases Nat.lt_trichotomy j i with hlt | rfl | hlt
        · obtain ⟨v, hv⟩ := hmin j hlt
          rw [hv] at hj; cases hj; exact (nomatch ·)
        · rw [hst] at hj; cases hj; exact (nomatch ·)
        · have hjl := (List.getElem?_eq_some_iff.1 hj).1
          rw [h.len] at hjl
          rw [h.queue i j hlt hst hjl] at hj
          cases hj; exact (nomatch ·)
      omega
  | waiting =>
    refine ⟨_, .start hst htx fun q hq => ?_⟩
    obtain ⟨p, t, hp, ht, rfl⟩ := hr.back i tx q htx hq
    obtain ⟨v, hv⟩ := hmin p hp
    exact ⟨p, t, v, ht, rfl, hv⟩
  | run p =>
    cases p with
    | ret v => exact ⟨_, .ret hst⟩
    | rdVar c l f => exact ⟨_, .rdVar hst⟩
    | rdBal c q f => exact ⟨_, .rdBal hst⟩
  | commit ws v =>
    cases ws with
    | nil => exact ⟨_, .signal hst⟩
    | cons a ws => exact ⟨_, .put hst⟩
  | done v => exact absurd ⟨v, hst⟩ hd

/-! ### Termination -/

/-- The statuses that can follow. -/
inductive Next (w : World) (txs : List Tx) : Status → Status → Prop
  | take : Next w txs .waiting .queued
  | start {tx : Tx} : Next w txs (.run (validate w tx)) .waiting
  | rdVar {c : Addr} {l : Nat} {f : Option Nat → Proc Verdict} (o : Option Nat) : Next w txs (.run (f o)) (.run (.rdVar c l f))
  | rdBal {c q : Addr} {f : Option Nat → Proc Verdict} (o : Option Nat) : Next w txs (.run (f o)) (.run (.rdBal c q f))
  | ret {v : Verdict} : Next w txs (.commit v.writes v) (.run (.ret v))
  | put {a : Wr} {ws : List Wr} {v : Verdict} : Next w txs (.commit ws v) (.commit (a :: ws) v)
  | signal {v : Verdict} : Next w txs (.done v) (.commit [] v)

theorem Next.acc (w : World) (txs : List Tx) (s : Status) : Acc (Next w txs) s := by
  have hd : ∀ v, Acc (Next w txs) (.done v) := fun v => ⟨_, fun t h => nomatch h⟩
  have hc : ∀ ws v, Acc (Next w txs) (.commit ws v) := by
    intro ws v
    induction ws with
    | nil => exact ⟨_, fun t h => by cases h; exact hd v⟩
    | cons a ws ih => exact ⟨_, fun t h => by cases h; exact ih⟩
  have hrun : ∀ p, Acc (Next w txs) (.run p) := by
    intro p
    induction p with
    | ret v => exact ⟨_, fun t h => by cases h; exact hc _ v⟩
    | rdVar c l f ih => exact ⟨_, fun t h => by cases h with | rdVar o => exact ih o⟩
    | rdBal c l f ih => exact ⟨_, fun t h => by cases h with | rdBal o => exact ih o⟩
  have hw : Acc (Next w txs) .waiting := ⟨_, fun t h => by cases h; exact hrun _⟩
  cases s with
  | queued => exact ⟨_, fun t h => by cases h; exact hw⟩
  | waiting => exact hw
  | run p => exact hrun p
  | commit ws v => exact hc ws v
  | done v => exact hd v

inductive NextL {α : Type} (R : α → α → Prop) : List α → List α → Prop
  | head {a b : α} {l : List α} : R b a → NextL R (b :: l) (a :: l)
  | tail {a : α} {l m : List α} : NextL R m l → NextL R (a :: m) (a :: l)

theorem NextL.acc {α : Type} {R : α → α → Prop} (h : ∀ a, Acc R a) : ∀ l : List α, Acc (NextL R) l
  | [] => ⟨_, fun _ h => nomatch h⟩
  | a :: l => by
    have hl := NextL.acc h l
    have ha := h a
    induction ha generalizing l with
    | intro a _ iha =>
      induction hl with
      | intro l hl' ihl =>
        refine ⟨_, fun t ht => ?_⟩
        cases ht with
        | head hr => exact iha _ hr l ⟨_, hl'⟩
        | tail hm => exact ihl _ hm

theorem NextL.set {α : Type} {R : α → α → Prop} : ∀ {l : List α} {i : Nat} {a b : α}, l[i]? = some a → R b a → NextL R (l.set i b) l
  | c :: l, 0, a, b, h, hr => by
    simp at h; subst h; exact .head hr
  | c :: l, i + 1, a, b, h, hr => .tail (NextL.set (by simpa using h) hr)

theorem Par.Step.next {s t : Par} (h : Par.Step w x txs k s t) : NextL (Next w txs) t.status s.status := by
  cases h with
  | take hi _ _ => exact NextL.set hi .take
  | start hi _ _ => exact NextL.set hi .start
  | rdVar hi => exact NextL.set hi (.rdVar _)
  | rdBal hi => exact NextL.set hi (.rdBal _)
  | ret hi => exact NextL.set hi .ret
  | put hi => exact NextL.set hi .put
  | signal hi => exact NextL.set hi .signal

/-- No execution goes on for ever. -/
theorem Par.acc (w : World) (x : Ctx) (txs : List Tx) (k : Nat) (s : Par) : Acc (fun t s => Par.Step w x txs k s t) s := by
  have h := NextL.acc (Next.acc w txs) s.status
  generalize hl : s.status = l at h
  induction h generalizing s with
  | intro l _ ih =>
    refine ⟨_, fun t ht => ih t.status ?_ t rfl⟩
    rw [← hl]; exact ht.next

end Verif.Ledger
