import Verif.Ledger.AssembleLemmas
import Verif.Ledger.TaskLemmas
/-
  C87, C88, C89: assembling a block.
-/
namespace Verif.Ledger
open Verif Verif.Chain

/-- A transaction as the fee bands of block validation see it. -/
def Tx.band (tx : Tx) : BandTx := ⟨tx.feeRatio, tx.staticCost⟩

/-- The cost in the result of a transaction. -/
def Tx.spent (tx : Tx) : Nat := match tx.result with | none => 0 | some r => r.cost

/-- What other nodes check of the transactions of a block, Node_validate.cpp:160-165 and 251-345: size
    and cost of the block, the order by fee, the fee bands, senders, results, duplicates and
    funds, and every transaction with the result it has. -/
structure Passes (depends : Addr → Option (List Addr)) (w : World) (g : Sto) (lim : Limits) (txs : List Tx) : Prop where
  size : (txs.map (·.staticCost)).sum ≤ lim.maxSize
  cost : (txs.map (·.spent)).sum ≤ lim.maxCost
  order : txs.Pairwise fun a b => b.feeRatio ≤ a.feeRatio
  bands : checkBands lim.maxSize lim.ratios (txs.map (·.band)) = .ok ()
  block : ∃ x, BlockOk depends w g txs x

/-- The pool in the order of Node_update.cpp:769-772, without duplicates, with fields in range. -/
structure PoolOk (p : Params) (pool : List Entry) : Prop where
  order : pool.Pairwise fun a b => b.tx.feeRatio ≤ a.tx.feeRatio
  nodup : (pool.map fun e => e.tx.id).Nodup
  typed : ∀ e ∈ pool, (e.tx.fresh p).Typed

/-- Fee ratios as the chain has them: ascending, and no transaction larger than one band. -/
structure LimitsOk (p : Params) (lim : Limits) : Prop where
  asc : lim.ratios.Pairwise (· ≤ ·)
  fit : (lim.ratios.length + 1) * lim.maxSize < 2 ^ 64
  small : ∀ r ∈ lim.ratios, r * 1024 < 2 ^ 32
  first : ∀ r, lim.ratios[0]? = some r → r ≤ 1
  band : lim.ratios ≠ [] → p.maxTxCost ≤ lim.maxSize / lim.ratios.length

variable {depends : Addr → Option (List Addr)} {w : World} {g : Sto} {lim : Limits} {late : Tx → Bool} {pool : List Entry} {txs : List Tx}

theorem sum_sublist {l m : List Nat} (h : l.Sublist m) : l.sum ≤ m.sum := by
  induction h with
  | slnil => exact Nat.le_refl _
  | cons a _ ih => rw [List.sum_cons]; omega
  | cons_cons a _ ih => rw [List.sum_cons, List.sum_cons]; omega

/-- What `assemble` returns. -/
theorem assemble_ok (h : assemble depends w g lim late pool = .ok txs) : ∃ x ran, runnable depends w lim late pool = .ok (x, ran) ∧
    txs = (bandPick w.params lim (choose w.params lim w.bal 0 0 (accepted ran (seqRun (w.withCtx x) g ran).2))).map fun e => e.1.produced w.params e.2 := by
  unfold assemble at h
  split at h
  · next x ran e => cases h; exact ⟨x, ran, e, rfl⟩
  · cases h
  · cases h

theorem fresh_ids (p : Params) (pool : List Entry) : (pool.map fun e => e.tx.fresh p).map (·.id) = pool.map fun e => e.tx.id := by
  rw [List.map_map]
  exact List.map_congr_left fun e _ => fresh_id p e.tx

/-- C88: an assembled block holds to the limits of size and cost. -/
theorem C88_limits (h : assemble depends w g lim late pool = .ok txs) : (txs.map (·.staticCost)).sum ≤ lim.maxSize ∧ (txs.map (·.spent)).sum ≤ lim.maxCost := by
  obtain ⟨x, ran, _, rfl⟩ := assemble_ok h
  generalize accepted ran (seqRun (w.withCtx x) g ran).2 = l
  obtain ⟨h1, h2⟩ := choose_limits (p := w.params) (lim := lim) l w.bal 0 0 (Nat.zero_le _) (Nat.zero_le _)
  have hs := bandPick_sub (p := w.params) (lim := lim) (choose w.params lim w.bal 0 0 l)
  constructor
  · rw [List.map_map]
    exact Nat.le_trans (sum_sublist (hs.map _)) (by simpa [sizeOf', Function.comp_def] using h1)
  · rw [List.map_map]
    exact Nat.le_trans (sum_sublist (hs.map _)) (by simpa [costOf, Function.comp_def, Tx.spent, Tx.produced] using h2)

/-- C88: its transactions are of the pool, in descending order of their fees, none twice. -/
theorem C88_order (h : assemble depends w g lim late pool = .ok txs) (hp : PoolOk w.params pool) :
    txs.Pairwise (fun a b => b.feeRatio ≤ a.feeRatio) ∧ (txs.map (·.id)).Nodup ∧ ∀ tx ∈ txs, ∃ e ∈ pool, ∃ r, tx = (e.tx.fresh w.params).produced w.params r := by
  obtain ⟨x, ran, h1, rfl⟩ := assemble_ok h
  have hs := ((bandPick_sub (p := w.params) (lim := lim) _).trans (choose_sub (p := w.params) (lim := lim) (accepted ran (seqRun (w.withCtx x) g ran).2) w.bal 0 0)).map (·.1)
  have hs := hs.trans ((accepted_sub _ _).trans (runnable_sub h1))
  generalize bandPick w.params lim _ = l at hs
  refine ⟨?_, ?_, ?_⟩
  · have hpw : (pool.map fun e => e.tx.fresh w.params).Pairwise fun a b => b.feeRatio ≤ a.feeRatio := by
      rw [List.pairwise_map]
      exact hp.order.imp fun {a b} hab => by rw [fresh_ratio, fresh_ratio]; exact hab
    have := hpw.sublist hs
    rw [List.pairwise_map] at this ⊢
    exact this.imp fun {a b} hab => hab
  · have := (hs.map (·.id)).nodup (by rw [fresh_ids]; exact hp.nodup)
    rw [List.map_map] at this ⊢
    exact this
  · intro tx htx
    obtain ⟨e, he, rfl⟩ := List.mem_map.1 htx
    obtain ⟨p, hp', he'⟩ := List.mem_map.1 (hs.subset (List.mem_map.2 ⟨e, he, rfl⟩))
    exact ⟨p, hp', e.2, by rw [← he']⟩

/-- What every transaction in the block went through. -/
theorem assemble_mem {x : Ctx} {ran : List Tx} {e : Tx × ExecRes} (hr : runnable depends w lim late pool = .ok (x, ran)) (hp : PoolOk w.params pool)
    (he : e ∈ accepted ran (seqRun (w.withCtx x) g ran).2) : e.1 ∈ ran ∧ e.1.result = none ∧ e.1.Typed ∧ ∃ g' wr, (validate (w.withCtx x) e.1).run g' = .accept e.2 wr := by
  obtain ⟨h1, h2⟩ := accepted_mem he
  obtain ⟨q, hq, e2⟩ := List.mem_map.1 ((runnable_sub hr).subset h1)
  exact ⟨h1, by rw [← e2]; exact fresh_result _ _, by rw [← e2]; exact hp.typed q hq, h2⟩

/-- C88: it passes the check of the fee bands. -/
theorem C88_bands (h : assemble depends w g lim late pool = .ok txs) (hp : PoolOk w.params pool) (hl : LimitsOk w.params lim) (hw : CheapReads w) :
    checkBands lim.maxSize lim.ratios (txs.map (·.band)) = .ok () := by
  obtain ⟨x, ran, h1, rfl⟩ := assemble_ok h
  rw [List.map_map]
  have e : ∀ l : List (Tx × ExecRes), l.map ((fun t : Tx => t.band) ∘ fun e => e.1.produced w.params e.2) = l.map (bandOf w.params) := fun l => rfl
  rw [e, bandPick_map]
  have key : ∀ t ∈ (choose w.params lim w.bal 0 0 (accepted ran (seqRun (w.withCtx x) g ran).2)).map (bandOf w.params), 1024 ≤ t.feeRatio ∧ t.size ≤ w.params.maxTxCost := by
    intro t ht
    obtain ⟨q, hq, rfl⟩ := List.mem_map.1 ht
    obtain ⟨_, k2, k3, g', wr, k4⟩ := assemble_mem h1 hp ((choose_sub _ _ _ _).subset hq)
    obtain ⟨_, _, _, _, _, _, _, _, _, _, _, _, hP, _⟩ := validate_accept k4
    exact ⟨hP.ratio, produced_size k4 k2 (w := w.withCtx x) hw k3⟩
  by_cases hne : lim.ratios = []
  · rw [hne]; rfl
  · refine C49_fee_bands hl.asc hl.small hl.fit (fun t ht => Nat.le_trans (key t ht).2 (hl.band hne)) fun t ht r hr => ?_
    have := hl.first r hr
    have := (key t ht).1
    omega

/-- C88: the accounts have the funds for all its fees and inputs; it passes the first loop of block
    validation. -/
theorem C88_funds (h : assemble depends w g lim late pool = .ok txs) (hp : PoolOk w.params pool) : ∃ x, checkFunds depends w.bal Ctx.empty [] txs = .ok x := by
  have hnd := (C88_order h hp).2.1
  obtain ⟨x, ran, h1, rfl⟩ := assemble_ok h
  have hs1 := bandPick_sub (p := w.params) (lim := lim) (choose w.params lim w.bal 0 0 (accepted ran (seqRun (w.withCtx x) g ran).2))
  have hs := hs1.trans (choose_sub (p := w.params) (lim := lim) _ w.bal 0 0)
  obtain ⟨all, k1, rfl⟩ := runnable_ok h1
  obtain ⟨more, m1, m2⟩ := prepAll_sound k1 (((((selectCost_sub lim.maxCost 0 pool).map fun e => e.tx.fresh w.params).map (·.id)).nodup (by rw [fresh_ids]; exact hp.nodup)))
    (Sound.empty _) (fun _ h => nomatch h)
  refine checkFunds_intro (Funded.sublist hs1 (.refl _) (choose_funded _ _ _ _)) (by rw [List.map_map] at hnd; exact hnd) (fun _ _ h => nomatch h) fun e he => ?_
  have hm : e.1 ∈ all := List.filter_sublist.subset (accepted_mem (hs.subset he)).1
  obtain ⟨set, s1, _⟩ := m2.locks (tx := e.1) (by rw [List.nil_append, m1]; exact hm)
  exact ⟨set, s1⟩

/-- C88: nothing is left out for no reason: when the pool fits into the block, no transaction is late or
    names an unknown contract and accounts can pay for all that are accepted, all these are in. -/
theorem C88_complete {x : Ctx} {ran : List Tx} (h : assemble depends w g lim late pool = .ok txs) (hr : runnable depends w lim late pool = .ok (x, ran))
    (hcost : (pool.map (·.cost)).sum ≤ lim.maxCost) (hset : ∀ e ∈ pool, ∃ s, mutateSet depends (e.tx.fresh w.params) = .ok s) (hlate : ∀ t, late t = false) (hno : lim.ratios = [])
    (hs : sizeOf' w.params (accepted ran (seqRun (w.withCtx x) g ran).2) ≤ lim.maxSize) (hc : costOf (accepted ran (seqRun (w.withCtx x) g ran).2) ≤ lim.maxCost)
    (hf : Funded w.bal (accepted ran (seqRun (w.withCtx x) g ran).2)) :
    ran = pool.map (fun e => e.tx.fresh w.params) ∧ txs = (accepted ran (seqRun (w.withCtx x) g ran).2).map fun e => e.1.produced w.params e.2 := by
  obtain ⟨x', ran', h1, rfl⟩ := assemble_ok h
  rw [hr] at h1; cases h1
  constructor
  · obtain ⟨all, k1, rfl⟩ := runnable_ok hr
    rw [selectCost_all _ _ _ (by rw [Nat.zero_add]; exact hcost)] at k1
    have key : ∀ (l : List Tx) (y z : Ctx) (m : List Tx), (∀ t ∈ l, ∃ s, mutateSet depends t = .ok s) → prepAll depends y l = .ok (z, m) → m = l := by
      intro l
      induction l with
      | nil => intro y z m _ h; cases h; rfl
      | cons t l ih =>
        intro y z m hm h
        obtain ⟨s, hs⟩ := hm t (List.mem_cons_self ..)
        obtain ⟨y', hy⟩ := prepare_of_set (x := y) hs
        unfold prepAll at h
        rw [hy] at h
        dsimp only at h
        split at h
        · next z' r e =>
          cases h
          rw [ih _ _ _ (fun t ht => hm t (List.mem_cons_of_mem _ ht)) e]
        · cases h
        · cases h
    rw [key _ _ _ _ (fun t ht => by obtain ⟨e, he, rfl⟩ := List.mem_map.1 ht; exact hset e he) k1]
    exact List.filter_eq_self.2 fun t _ => by rw [hlate]; rfl
  · rw [choose_all _ _ _ _ (by rw [Nat.zero_add]; exact hs) (by rw [Nat.zero_add]; exact hc) hf]
    unfold bandPick
    rw [hno]; rfl

/-- C87 (as far as it holds): a block that a node assembles passes validation by others: when every transaction in it
    can pay for its cost (the condition of C55), and none that was left out before wrote to a contract that one in the
    block shares with it. Missing: left out transactions that did, for which it is false
    (`C87_left_out`), and those of `C55_overrun` and `C55_rounding`. -/
theorem C87_partial {x : Ctx} {ran : List Tx} (h : assemble depends w g lim late pool = .ok txs) (hr : runnable depends w lim late pool = .ok (x, ran))
    (hp : PoolOk w.params pool) (hl : LimitsOk w.params lim) (hw : CheapReads w) (hpaid : ∀ t ∈ txs, ∀ r, t.result = some r → PaidFor t r)
    (hout : LeftOut (w.withCtx x) (txs.map (·.id)) g ran) : Passes depends w g lim txs := by
  obtain ⟨h1, h2⟩ := C88_limits h
  obtain ⟨y, hy⟩ := C88_funds h hp
  refine ⟨h1, h2, (C88_order h hp).1, C88_bands h hp hl hw, y, hy, ?_⟩
  obtain ⟨x', ran', h3, rfl⟩ := assemble_ok h
  rw [hr] at h3; cases h3
  have hs := (bandPick_sub (p := w.params) (lim := lim) _).trans (choose_sub (p := w.params) (lim := lim) (accepted ran (seqRun (w.withCtx x) g ran).2) w.bal 0 0)
  generalize bandPick w.params lim (choose w.params lim w.bal 0 0 (accepted ran (seqRun (w.withCtx x) g ran).2)) = inc at hs hy hpaid hout
  obtain ⟨all, k1, rfl⟩ := runnable_ok hr
  have hnd := (((selectCost_sub lim.maxCost 0 pool).map fun e => e.tx.fresh w.params).map (·.id)).nodup (by rw [fresh_ids]; exact hp.nodup)
  have hready := prep_ready k1 hnd
  obtain ⟨more, m1, m2⟩ := prepAll_sound k1 hnd (Sound.empty _) (fun _ h => nomatch h)
  obtain ⟨more', n1, n2⟩ := checkFunds_sound _ w.bal Ctx.empty [] [] (Sound.empty _) (fun _ h => nomatch h) hy
  refine rerun_all (w := w.withCtx x) (w2 := w.withCtx y) hw _ inc g g hs ((List.filter_sublist.map _).nodup hready.nodup) ?_ ?_ ?_ fun _ _ c _ => At.refl c g
  · intro t ht
    have hm := (List.mem_filter.1 ht).1
    refine ⟨hready.locked w hm, ?_⟩
    obtain ⟨q, hq, e2⟩ := List.mem_map.1 ((runnable_sub hr).subset ht)
    exact ⟨by rw [← e2]; exact fresh_result _ _, by rw [← e2]; exact hp.typed q hq⟩
  · intro e he
    refine ⟨hpaid _ (List.mem_map.2 ⟨e, he, rfl⟩) e.2 rfl, ?_⟩
    have hm : e.1 ∈ all := (List.mem_filter.1 (accepted_mem (hs.subset he)).1).1
    obtain ⟨s1, a1, a2⟩ := m2.locks (tx := e.1) (by rw [List.nil_append, m1]; exact hm)
    obtain ⟨s2, b1, b2⟩ := n2.locks (tx := e.1.produced w.params e.2) (by rw [List.nil_append, n1]; exact List.mem_map.2 ⟨e, he, rfl⟩)
    rw [mutateSet_produced, a1] at b1
    cases b1
    refine validate_lock (w := w) (tx := e.1.produced w.params e.2) (L := fun id c => id ∈ y.mutate c) (L' := fun id c => id ∈ x.mutate c) fun c => ?_
    exact decide_eq_decide.2 ((b2 c).trans (a2 c).symm)
  · rw [List.map_map] at hout
    exact hout

/-- C87: with no transaction left out that was accepted, the condition on those left out is void. -/
theorem C87_all_in {ids : List Addr} : ∀ (ran : List Tx) (g : Sto), (∀ e ∈ accepted ran (seqRun w g ran).2, e.1.id ∈ ids) → LeftOut w ids g ran
  | [], _, _ => trivial
  | t :: l, g, h => by
    unfold seqRun at h
    dsimp only at h
    cases hv : (validate w t).run g with
    | reject =>
      rw [hv] at h
      refine ⟨fun _ => .inl (by rw [hv]; rfl), ?_⟩
      rw [hv]
      exact C87_all_in l _ h
    | accept r wr =>
      rw [hv] at h
      refine ⟨fun hn => absurd (h (t, r) (List.mem_cons_self ..)) hn, ?_⟩
      rw [hv]
      exact C87_all_in l _ fun e he => h e (List.mem_cons_of_mem _ he)

/-- C87: validating in parallel, with those skipped left out, gives what running one after the other
    does, whatever the schedule, when none that ran waits for a skipped one. -/
theorem C87_parallel {x : Ctx} {l all : List Tx} {s : Par} {k : Nat} (hp : prepAll depends Ctx.empty l = .ok (x, all)) (hn : (l.map (·.id)).Nodup)
    (hk : ∀ t ∈ all, late t = false → ∀ u ∈ all, u.id ∈ x.wait t.id → late u = false)
    (hs : Par.Steps (w.withCtx x) x (all.filter fun t => !late t) k (Par.init g (all.filter fun t => !late t)) s) (hd : ∀ a ∈ s.status, ∃ v, a = .done v) :
    s.status = (seqRun (w.withCtx x) g (all.filter fun t => !late t)).2.map Status.done ∧ s.sto = (seqRun (w.withCtx x) g (all.filter fun t => !late t)).1 :=
  same_result ((prep_ready hp hn).filter _ fun t ht h1 u hu hw => by simp at h1 ⊢; exact hk t ht h1 u hu hw) hs hd

/-! ### A case, and one that fails -/

def asmW : World := { blkW with bal := fun a q => if q = 0 ∧ (a = 1 ∨ a = 2) then some 5000 else none }
def asmLim : Limits := ⟨1000000, 1000000, [1, 2]⟩

/-- Account 1 pays 4000. -/
def asmA : Tx :=
  { exTx with
    id := 100, feeRatio := 4096, maxFee := 900, base := 100, staticCost := 100, ops := []
    inputs := [{ addr := 1, cur := 0, amount := 4000, sol := true, auth := true }], outputs := [{ addr := 3, cur := 0, amount := 4000 }] }

/-- Account 1 pays 4000 once more, and writes to contract 7. -/
def asmA' : Tx :=
  { asmA with
    id := 101, feeRatio := 3072
    ops := [⟨7, true, none, none, .gas 50 (.check (.done [(1, 5)] [] [] 0))⟩] }

/-- Account 2 executes contract 7, which goes by what it has in its storage. -/
def asmB : Tx :=
  { asmA with
    id := 102, feeRatio := 2048, sender := some 2, inputs := [], outputs := []
    ops := [⟨7, true, none, none, .gas 50 (.check (.rdVar 1 fun v => if v = some 5 then .done [(1, 6)] [] [] 0 else .fail 3))⟩] }

def asmDep : Addr → Option (List Addr) := fun _ => some []
def asmPool : List Entry := [⟨asmA, 100⟩, ⟨asmA', 200⟩, ⟨asmB, 200⟩]
def asmBlk : List Tx := [asmA.produced asmW.params ⟨false, 100, 400, [], [], none⟩, asmB.produced asmW.params ⟨false, 190, 380, [], [], none⟩]

def asmG : Sto := ⟨fun _ _ => none, asmW.bal⟩
def asmCtx : Ctx := (Ctx.empty.lock 101 7).lock 102 7

theorem asm_runnable : runnable asmDep asmW asmLim (fun _ => false) asmPool = .ok (asmCtx, [asmA, asmA', asmB]) := by rfl
theorem asm_verdicts : (seqRun (asmW.withCtx asmCtx) asmG [asmA, asmA', asmB]).2 = [.accept ⟨false, 100, 400, [], [], none⟩ (some ⟨[], []⟩),
    .accept ⟨false, 190, 570, [], [], none⟩ (some ⟨[((7, 1), 5)], []⟩), .accept ⟨false, 190, 380, [], [], none⟩ (some ⟨[((7, 1), 6)], []⟩)] := by decide +kernel
theorem asm_run : assemble asmDep asmW asmG asmLim (fun _ => false) asmPool = .ok asmBlk := by
  unfold assemble
  rw [asm_runnable]
  dsimp only
  rw [asm_verdicts]
  rfl

theorem asm_limits : LimitsOk asmW.params asmLim := ⟨by decide, by decide, by decide, by intro r hr; cases hr; decide, by decide⟩
theorem asm_cheap : CheapReads asmW := by intro a; show 10 + 30 < 2 ^ 62; decide
theorem asm_pool : PoolOk asmW.params asmPool where
  order := by unfold asmPool; simp [asmA, asmA', asmB]
  nodup := by unfold asmPool; simp [asmA, asmA', asmB]
  typed := by
    intro e he
    rcases List.mem_cons.1 he with rfl | he
    · exact ⟨by decide, by decide⟩
    rcases List.mem_cons.1 he with rfl | he
    · exact ⟨by decide, by decide⟩
    obtain rfl := List.mem_singleton.1 he
    exact ⟨by decide, by decide⟩

/-- C87 fails: account 1 cannot pay for both of its transactions, so the second is left out. The third
    was validated on what the second wrote, and is in the block with that result. No node accepts the
    block, nor does the one that made it. -/
theorem C87_left_out : assemble asmDep asmW asmG asmLim (fun _ => false) asmPool = .ok asmBlk ∧ PoolOk asmW.params asmPool ∧ LimitsOk asmW.params asmLim ∧ CheapReads asmW ∧
    (∀ t ∈ asmBlk, ∀ r, t.result = some r → PaidFor t r) ∧ ¬ Passes asmDep asmW asmG asmLim asmBlk := by
  refine ⟨asm_run, asm_pool, asm_limits, asm_cheap, ?_, ?_⟩
  · intro t ht r hr
    rcases List.mem_cons.1 ht with rfl | ht
    · cases hr; exact ⟨fun _ => by decide, by decide⟩
    · obtain rfl := List.mem_singleton.1 ht
      cases hr; exact ⟨fun _ => by decide, by decide⟩
  · rintro ⟨_, _, _, _, x, hx⟩
    have e : checkFunds asmDep asmW.bal Ctx.empty [] asmBlk = .ok (Ctx.empty.lock 102 7) := by rfl
    have := hx.funds
    rw [e] at this
    cases this
    refine hx.valid .reject ?_ rfl
    have : (seqRun (asmW.withCtx (Ctx.empty.lock 102 7)) asmG asmBlk).2 = [.accept ⟨false, 100, 400, [], [], none⟩ (some ⟨[], []⟩), .reject] := by decide +kernel
    rw [this]
    exact List.mem_cons_of_mem _ (List.mem_cons_self ..)

/-- With the second of account 1 smaller, all three are in the block and the hypotheses of C87 are met. -/
def asmPool2 : List Entry := [⟨asmA, 100⟩, ⟨{ asmA' with inputs := [], outputs := [] }, 200⟩, ⟨asmB, 200⟩]
def asmRan2 : List Tx := [asmA, { asmA' with inputs := [], outputs := [] }, asmB]
def asmBlk2 : List Tx := [asmA.produced asmW.params ⟨false, 100, 400, [], [], none⟩, ({ asmA' with inputs := [], outputs := [] } : Tx).produced asmW.params ⟨false, 190, 570, [], [], none⟩,
  asmB.produced asmW.params ⟨false, 190, 380, [], [], none⟩]

theorem asm_runnable2 : runnable asmDep asmW asmLim (fun _ => false) asmPool2 = .ok (asmCtx, asmRan2) := by rfl
theorem asm_verdicts2 : (seqRun (asmW.withCtx asmCtx) asmG asmRan2).2 = [.accept ⟨false, 100, 400, [], [], none⟩ (some ⟨[], []⟩),
    .accept ⟨false, 190, 570, [], [], none⟩ (some ⟨[((7, 1), 5)], []⟩), .accept ⟨false, 190, 380, [], [], none⟩ (some ⟨[((7, 1), 6)], []⟩)] := by decide +kernel
theorem asm_run2 : assemble asmDep asmW asmG asmLim (fun _ => false) asmPool2 = .ok asmBlk2 := by
  unfold assemble
  rw [asm_runnable2]
  dsimp only
  rw [asm_verdicts2]
  rfl

example : Passes asmDep asmW asmG asmLim asmBlk2 := by
  refine C87_partial asm_run2 asm_runnable2 ⟨by unfold asmPool2; simp [asmA, asmA', asmB], by unfold asmPool2; simp [asmA, asmA', asmB], ?_⟩ asm_limits asm_cheap ?_ (C87_all_in _ _ ?_)
  · intro e he
    rcases List.mem_cons.1 he with rfl | he
    · exact ⟨by decide, by decide⟩
    rcases List.mem_cons.1 he with rfl | he
    · exact ⟨by decide, by decide⟩
    obtain rfl := List.mem_singleton.1 he
    exact ⟨by decide, by decide⟩
  · intro t ht r hr
    rcases List.mem_cons.1 ht with rfl | ht
    · cases hr; exact ⟨fun _ => by decide, by decide⟩
    rcases List.mem_cons.1 ht with rfl | ht
    · cases hr; exact ⟨fun _ => by decide, by decide⟩
    · obtain rfl := List.mem_singleton.1 ht
      cases hr; exact ⟨fun _ => by decide, by decide⟩
  · rw [asm_verdicts2]
    decide

/-- The hypotheses of the other parts of C88 are met. -/
example : ∃ x, checkFunds asmDep asmW.bal Ctx.empty [] asmBlk = .ok x := C88_funds asm_run asm_pool
example : checkBands 1000000 [1, 2] (asmBlk.map (·.band)) = .ok () := C88_bands asm_run asm_pool asm_limits asm_cheap
example : asmRan2 = asmPool2.map (fun e => e.tx.fresh asmW.params) := by
  have h : runnable asmDep asmW { asmLim with ratios := [] } (fun _ => false) asmPool2 = .ok (asmCtx, asmRan2) := by rfl
  have h2 : assemble asmDep asmW asmG { asmLim with ratios := [] } (fun _ => false) asmPool2 = .ok asmBlk2 := by
    unfold assemble
    rw [h]
    dsimp only
    rw [asm_verdicts2]
    rfl
  refine (C88_complete h2 h (by decide) (fun e he => ?_) (fun _ => rfl) rfl (by rw [asm_verdicts2]; decide) (by rw [asm_verdicts2]; decide) ?_).1
  · rcases List.mem_cons.1 he with rfl | he
    · exact ⟨_, rfl⟩
    rcases List.mem_cons.1 he with rfl | he
    · exact ⟨_, rfl⟩
    obtain rfl := List.mem_singleton.1 he
    exact ⟨_, rfl⟩
  · rw [asm_verdicts2]
    exact ⟨_, rfl, _, rfl, _, rfl, trivial⟩
example : prepAll asmDep Ctx.empty asmRan2 = .ok (asmCtx, asmRan2) ∧ (asmRan2.map (·.id)).Nodup := ⟨rfl, by decide⟩

/-! ### The deadline -/

section Deadline
variable {wait : Nat → List Nat} {k n : Nat} {t : List Task}

/-- C89: as long as no task is skipped, the pool of threads always goes on until all are over. -/
theorem C89_in_time (h : Task.Steps wait k (List.replicate n .queued) t) (hw : ∀ i, ∀ p ∈ wait i, p < i) (hk : 0 < k) (hs : .skipped ∉ t) :
    (∀ a ∈ t, a.over = true) ∨ ∃ u, Task.Step wait k t u :=
  Task.progress h hw hk fun _ _ _ _ e => hs (List.mem_of_getElem? e)

/-- C89: with one thread it does so whenever tasks are skipped. -/
theorem C89_one_thread (h : Task.Steps wait 1 (List.replicate n .queued) t) (hw : ∀ i, ∀ p ∈ wait i, p < i) :
    (∀ a ∈ t, a.over = true) ∨ ∃ u, Task.Step wait 1 t u :=
  Task.progress h hw (by decide) fun i hi p hp e => by
    have := (Task.one h).2 i hi p (hw i p hp)
    rw [this] at e
    cases e

/-- C89: so it does when no two transactions share a contract. -/
theorem C89_disjoint (h : Task.Steps wait k (List.replicate n .queued) t) (hw : ∀ i, wait i = []) (hk : 0 < k) :
    (∀ a ∈ t, a.over = true) ∨ ∃ u, Task.Step wait k t u :=
  Task.progress h (fun i p hp => by rw [hw i] at hp; cases hp) hk fun i _ p hp => by rw [hw i] at hp; cases hp

/-- The pool is stuck: a task waits, and nothing can go on. -/
def Task.Stuck (wait : Nat → List Nat) (k : Nat) (t : List Task) : Prop := .waiting ∈ t ∧ ∀ u, ¬ Task.Step wait k t u

/-- C89 fails with two threads: the second task looks at the clock in time and waits for the first, which
    looks at it after the deadline, and returns without a signal. The node is stuck for ever. -/
theorem C89_stuck : ∃ t, Task.Steps (fun i => if i = 1 then [0] else []) 2 (List.replicate 2 .queued) t ∧ Task.Stuck (fun i => if i = 1 then [0] else []) 2 t := by
  refine ⟨[.skipped, .waiting], ?_, by decide, ?_⟩
  · have h0 : Task.Steps (fun i => if i = 1 then [0] else []) 2 (List.replicate 2 .queued) [.queued, .queued] := .refl _
    have h1 := h0.step (.take (i := 0) rfl (by omega) (by decide))
    have h2 := h1.step (.take (i := 1) rfl (by intro j hj; obtain rfl : j = 0 := by omega
                                               decide) (by decide))
    have h3 := h2.step (.early (i := 1) rfl (by decide))
    exact h3.step (.late (i := 0) rfl)
  · intro u h
    have key : ∀ (i : Nat) (a : Task), [Task.skipped, Task.waiting][i]? = some a → (i = 0 ∧ a = .skipped) ∨ (i = 1 ∧ a = .waiting) := by
      intro i a ha
      match i, ha with
      | 0, ha => cases ha; exact .inl ⟨rfl, rfl⟩
      | 1, ha => cases ha; exact .inr ⟨rfl, rfl⟩
    cases h with
    | take h1 _ _ => rcases key _ _ h1 with ⟨_, e⟩ | ⟨_, e⟩ <;> cases e
    | early h1 _ => rcases key _ _ h1 with ⟨_, e⟩ | ⟨_, e⟩ <;> cases e
    | late h1 => rcases key _ _ h1 with ⟨_, e⟩ | ⟨_, e⟩ <;> cases e
    | finish h1 h2 =>
      rcases key _ _ h1 with ⟨_, e⟩ | ⟨rfl, _⟩
      · cases e
      · have := h2 0 (by decide); cases this

/-- Two transactions that execute the same contract wait for each other like this. -/
example : asmCtx.wait 102 = [101] ∧ asmCtx.wait 101 = [] := by decide

/-- With the deadline passed from the start, all are skipped. -/
example : ∃ t, Task.Steps (fun i => if i = 1 then [0] else []) 2 (List.replicate 2 .queued) t ∧ t = [.skipped, .skipped] := by
  have h0 : Task.Steps (fun i => if i = 1 then [0] else []) 2 (List.replicate 2 .queued) [.queued, .queued] := .refl _
  have h1 := h0.step (.take (i := 0) rfl (by omega) (by decide))
  have h2 := h1.step (.late (i := 0) rfl)
  have h3 := h2.step (.take (i := 1) rfl (by intro j hj; obtain rfl : j = 0 := by omega
                                             decide) (by decide))
  exact ⟨_, h3.step (.late (i := 1) rfl), rfl⟩

end Deadline

end Verif.Ledger
