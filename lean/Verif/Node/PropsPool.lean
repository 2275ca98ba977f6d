import Verif.Node.PoolLemmas
/-
  C90 to C93: the pool of pending transactions.

  Specification: what is pending is the list of entries, and what the sender `a` has promised in fees is the
  sum of the fees of its entries.  A transaction is known while it is pending or in a block of the chain.
-/
namespace Verif.Node
open Verif

variable {body : Nat → PTx}

/-- Fees that account `a` has promised with pending transactions other than `i`. -/
def Pool.promised (p : Pool) (a i : Nat) : Nat :=
  ((p.txs.filter fun e => e.tx.sender = some a ∧ e.tx.id ≠ i).map (·.fee)).sum

/-- Fees that account `a` has promised. -/
def Pool.promisedAll (p : Pool) (a : Nat) : Nat := ((p.txs.filter fun e => e.tx.sender = some a).map (·.fee)).sum

/-- The space that the pending transactions take. -/
def Pool.space (p : Pool) : Nat := (p.txs.map (·.staticCost)).sum

def Pool.pending (p : Pool) (i : Nat) : Prop := ∃ e ∈ p.txs, e.tx.id = i

theorem promised_eq (p : Pool) (a i : Nat) : p.promised a i = feesOf a (p.txs.filter fun o => o.tx.id ≠ i) := by
  unfold Pool.promised feesOf
  rw [List.filter_filter]
  congr 3
  funext e
  rw [Bool.eq_iff_iff]
  simp

/-! ### C90: admission -/

/-- **C90.**  At any time a validated transaction is taken into the pool exactly if its sender can pay the
fees of all its other pending transactions and this one; otherwise nothing changes at all. -/
theorem C90_admission {s : PState} (h : PReach body s) {bal : Nat → Nat} {e : PEntry} (ho : (POp.add bal e).Ok body s) :
    ((s.pool.update bal false e).2 = true ↔ ∃ a, e.tx.sender = some a ∧ s.pool.promised a e.tx.id + e.fee ≤ bal a) ∧
    ((s.pool.update bal false e).2 = false → (s.pool.update bal false e).1 = s.pool) := by
  obtain ⟨h1, h2, h3, h4⟩ := ho
  unfold Pool.update
  cases hs : e.tx.sender with
  | none => exact ⟨⟨fun z => (nomatch z), fun ⟨_, z, _⟩ => (nomatch z)⟩, fun _ => rfl⟩
  | some a =>
    dsimp only
    have hn := newTotal_eq h.inv.pool h1 h2 h4 hs
    rw [← promised_eq] at hn
    rw [hn]
    by_cases hb : s.pool.promised a e.tx.id + e.fee > bal a
    · rw [if_pos ⟨rfl, hb⟩]
      refine ⟨⟨fun z => (nomatch z), fun ⟨b, z, hl⟩ => ?_⟩, fun _ => rfl⟩
      cases z; omega
    · rw [if_neg (fun z => hb z.2)]
      exact ⟨⟨fun _ => ⟨a, rfl, by omega⟩, fun _ => rfl⟩, fun z => (nomatch z)⟩

/-- **C90, what an accepted transaction changes.**  It is pending with its fee, everything else that was
pending is as before and nothing else is pending; an earlier entry of the same transaction is replaced. -/
theorem C90_accepted {s : PState} {bal : Nat → Nat} {force : Bool} {e : PEntry}
    (ha : (s.pool.update bal force e).2 = true) (x : PEntry) :
    x ∈ (s.pool.update bal force e).1.txs ↔ x = e ∨ (x ∈ s.pool.txs ∧ x.tx.id ≠ e.tx.id) := by
  rcases update_cases bal force e s.pool with z | ⟨a, _, z⟩
  · rw [z] at ha; cases ha
  · rw [z]
    unfold Pool.put
    dsimp only
    cases hf : s.pool.find e.tx.id with
    | none =>
      dsimp only
      rw [List.mem_cons]
      exact ⟨fun y => y.imp_right fun y => ⟨y, find_none hf x y⟩, fun y => y.imp_right (·.1)⟩
    | some o =>
      dsimp only
      obtain ⟨o1, o2⟩ := find_some hf
      rw [List.mem_map]
      constructor
      · rintro ⟨y, hy, rfl⟩
        by_cases hi : y.tx.id = e.tx.id
        · rw [if_pos hi]; exact .inl rfl
        · rw [if_neg hi]; exact .inr ⟨hy, hi⟩
      · rintro (rfl | ⟨hx, hi⟩)
        · exact ⟨o, o1, if_pos o2⟩
        · exact ⟨x, hx, if_neg hi⟩

/-- **C90, the recorded fees.**  What the node keeps as the fees of a sender is the sum of the fees of its
pending transactions, after any history. -/
theorem C90_recorded {s : PState} (h : PReach body s) (a : Nat) : (s.pool.fees a).getD 0 = s.pool.promisedAll a := h.inv.pool.fees a

/-- Each transaction is pending once. -/
theorem C90_once {s : PState} (h : PReach body s) : (s.pool.txs.map (·.tx.id)).Nodup := h.inv.pool.nodup

/-! ### C91: the index of the pending history -/

/-- **C91.**  The index behind the pending part of the history of an address, or of an address with a memo,
holds a transaction exactly if it is pending and has this key, after any history. -/
theorem C91_index {s : PState} (h : PReach body s) (k i : Nat) :
    s.pool.index k i = true ↔ s.pool.pending i ∧ k ∈ (body i).keys := by
  rw [h.inv.pool.index]
  constructor
  · rintro ⟨e, he, rfl, hk⟩
    exact ⟨⟨e, he, rfl⟩, h.inv.pool.body e he ▸ hk⟩
  · rintro ⟨⟨e, he, rfl⟩, hk⟩
    exact ⟨e, he, rfl, h.inv.pool.body e he ▸ hk⟩

/-! ### C92: purging -/

/-- **C92.**  Purging in any order by fee ratio leaves a pool where every sender can pay what it has
promised and which is not too large.  It only removes; what it removes either has a sender who could not
pay all it had promised, or the pool was too large and everything kept pays at least the same ratio. -/
theorem C92_purge {s : PState} (h : PReach body s) {bal : Nat → Nat} {max : Nat} {order : List PEntry} (ho : Sorted s.pool order)
    (hc : ∀ e ∈ s.pool.txs, e.staticCost < 2 ^ 32) :
    (∀ a, (s.pool.purge bal max order).promisedAll a ≤ bal a) ∧ (s.pool.purge bal max order).space ≤ max ∧
    (∀ e ∈ (s.pool.purge bal max order).txs, e ∈ s.pool.txs) ∧
    ∀ e ∈ s.pool.txs, e ∉ (s.pool.purge bal max order).txs →
      (∃ a, e.tx.sender = some a ∧ s.pool.promisedAll a > bal a % 2 ^ 64) ∨
      (s.pool.space > max ∧ ∀ k ∈ (s.pool.purge bal max order).txs, e.tx.feeRatio ≤ k.tx.feeRatio) := by
  have hi := h.inv.pool
  have hfee : ∀ a, feesOf a order = feesOf a s.pool.txs := fun a => feesOf_perm ho.perm
  have hst : staticOf order = staticOf s.pool.txs := staticOf_perm ho.perm
  have hsmall : staticOf s.pool.txs < 2 ^ 64 := by
    have : ∀ l : List PEntry, (∀ e ∈ l, e.staticCost < 2 ^ 32) → staticOf l ≤ l.length * (2 ^ 32 - 1) := by
      intro l
      induction l with
      | nil => intro _; simp [staticOf]
      | cons x l ih =>
        intro hl
        rw [staticOf_cons, List.length_cons]
        have := hl x (List.mem_cons_self ..)
        have := ih fun y hy => hl y (List.mem_cons_of_mem _ hy)
        omega
    have := this _ hc
    have := hi.len
    omega
  obtain ⟨kept, dropped, r1, r2, r3, r4, _, r6⟩ := purge_fold (bal := bal) (max := max) order { pool := s.pool } (fun _ => 0) 0
    (fun a => by
      show 0 + feesOf a order < 2 ^ 64
      rw [hfee, Nat.zero_add]; exact feesOf_lt a hi.small hi.len)
    (by show 0 + staticOf order < 2 ^ 64; rw [hst, Nat.zero_add]; exact hsmall)
    (fun _ => ⟨Nat.zero_le _, Nat.zero_le _⟩) (Nat.zero_le _) (Nat.zero_le _)
  have hp : (s.pool.purge bal max order).txs.Perm kept := by
    have e : (s.pool.purge bal max order).txs = s.pool.txs.filter fun o => o.tx.id ∉ dropped.map (·.tx.id) := by
      unfold Pool.purge
      rw [r2, eraseAll_txs]
    rw [e]
    exact left_perm hi.nodup (r1.trans ho.perm)
  refine ⟨fun a => ?_, ?_, ?_, ?_⟩
  · show feesOf a _ ≤ _
    rw [feesOf_perm hp]
    have := r3 a
    have : u64 (bal a) ≤ bal a := Nat.mod_le _ _
    omega
  · show staticOf _ ≤ _
    rw [staticOf_perm hp]
    omega
  · exact fun e he => (r1.trans ho.perm).subset (List.mem_append_left _ (hp.subset he))
  · intro e he hn
    have hd : e ∈ dropped := by
      rcases List.mem_append.1 ((r1.trans ho.perm).symm.subset he) with z | z
      · exact absurd (hp.symm.subset z) hn
      · exact z
    rcases r6 e hd with ⟨a, y1, y2⟩ | ⟨y1, y2⟩
    · refine .inl ⟨a, y1, ?_⟩
      have y2 : 0 + feesOf a order > u64 (bal a) := y2
      rw [hfee] at y2
      show feesOf a s.pool.txs > u64 (bal a)
      omega
    · refine .inr ⟨?_, fun k hk => y2 ho.desc k (hp.subset hk)⟩
      have y1 : 0 + staticOf order > max := y1
      rw [hst] at y1
      show staticOf s.pool.txs > max
      omega

/-- **C92, nothing is purged without need.** -/
theorem C92_idle {s : PState} (h : PReach body s) {bal : Nat → Nat} {max : Nat} {order : List PEntry} (ho : Sorted s.pool order)
    (hc : ∀ e ∈ s.pool.txs, e.staticCost < 2 ^ 32) (hb : ∀ a, bal a < 2 ^ 64) (hf : ∀ a, s.pool.promisedAll a ≤ bal a) (hm : s.pool.space ≤ max) :
    ∀ i, (s.pool.purge bal max order).pending i ↔ s.pool.pending i := by
  obtain ⟨_, _, h3, h4⟩ := C92_purge h (bal := bal) (max := max) ho hc
  intro i
  constructor
  · rintro ⟨e, he, hi⟩; exact ⟨e, h3 e he, hi⟩
  · rintro ⟨e, he, hi⟩
    refine ⟨e, ?_, hi⟩
    by_cases hn : e ∈ (s.pool.purge bal max order).txs
    · exact hn
    · rcases h4 e he hn with ⟨a, _, z⟩ | ⟨z, _⟩
      · have := hf a; rw [Nat.mod_eq_of_lt (hb a)] at z; omega
      · omega

/-! ### C93: no transaction is lost or doubled when the chain switches -/

/-- Known to the node. -/
def PState.known (s : PState) (i : Nat) : Prop := i ∈ s.executed ∨ s.pool.pending i

/-- What a switch of the chain is made of while the node is in sync, and new transactions coming in. -/
def POp.harmless : POp → Prop
  | .add _ _ | .apply _ | .revert true => True
  | _ => False

/-- **C93.**  A transaction is never both pending and in the chain, and never twice in the chain. -/
theorem C93_apart {s : PState} (h : PReach body s) : s.executed.Nodup ∧ ∀ i ∈ s.executed, ¬ s.pool.pending i :=
  ⟨h.inv.once, fun i hi ⟨e, he, z⟩ => h.inv.apart e he (z ▸ hi)⟩

/-- Histories of such operations. -/
inductive PKeeps (body : Nat → PTx) : PState → PState → Prop
  | refl {s : PState} : PKeeps body s s
  | step {s t : PState} {o : POp} : PKeeps body s t → o.Ok body t → o.harmless → PKeeps body s (o.run t)

theorem PKeeps.reach {s t : PState} (h : PReach body s) (hk : PKeeps body s t) : PReach body t := by
  induction hk with
  | refl => exact h
  | step _ ho _ ih => exact ih.step ho

theorem pending_iff (p : Pool) (i : Nat) : p.pending i ↔ i ∈ p.txs.map (·.tx.id) := by
  rw [List.mem_map]; exact Iff.rfl

theorem known_step {t : PState} (h : PReach body t) {i : Nat} (hi : t.known i) : ∀ {o : POp}, o.harmless → (o.run t).known i
  | .add bal e, _ => by
    rcases hi with hi | hi
    · exact .inl hi
    · refine .inr ?_
      show (t.pool.update bal false e).1.pending i
      rcases update_cases bal false e t.pool with z | ⟨a, _, z⟩
      · rw [z]; exact hi
      · rw [z]
        rw [pending_iff] at hi ⊢
        exact put_mem_ids.2 (.inr hi)
  | .apply blk, _ => by
    show i ∈ ({ pool := _, chain := blk :: t.chain } : PState).executed ∨ (blk.foldl (fun p e => p.erase e.tx.id) t.pool).pending i
    rw [executed_cons, List.mem_append]
    rcases hi with hi | ⟨e, he, rfl⟩
    · exact .inl (.inr hi)
    · by_cases hm : e.tx.id ∈ blk.map (·.tx.id)
      · exact .inl (.inl hm)
      · refine .inr ⟨e, ?_, rfl⟩
        rw [eraseAll_txs]
        exact List.mem_filter.2 ⟨he, by simpa using hm⟩
  | .revert true, _ => by
    show (t.revert true).known i
    unfold PState.revert
    cases hc : t.chain with
    | nil => exact hi
    | cons blk rest =>
      dsimp only
      have hb := h.inv.blocks blk (by rw [hc]; exact List.mem_cons_self ..)
      have hon : t.executed = blk.map (·.tx.id) ++ ({ pool := t.pool, chain := rest } : PState).executed := by
        rw [← executed_cons, ← hc]
      unfold PState.known
      rw [if_pos rfl]
      rw [pending_iff, readd_ids blk fun e he => (hb e he).2.2]
      rcases hi with hi | hi
      · rw [hon, List.mem_append] at hi
        rcases hi with hi | hi
        · exact .inr (.inr hi)
        · exact .inl hi
      · exact .inr (.inl ((pending_iff ..).1 hi))

/-- **C93.**  Whatever is pending or in the chain stays pending or in the chain while blocks are reverted and
others applied, in any number and order, by a node that is in sync. -/
theorem C93_switch_partial {s t : PState} (h : PReach body s) (hk : PKeeps body s t) {i : Nat} (hi : s.known i) : t.known i := by
  induction hk with
  | refl => exact hi
  | step hk _ hh ih => exact known_step (PKeeps.reach h hk) ih hh

/-- **C93, one block.**  Applying a block takes exactly its transactions out of the pool, reverting it puts
exactly them back. -/
theorem C93_block {s : PState} (h : PReach body s) {blk : List PEntry} (ho : (POp.apply blk).Ok body s) (i : Nat) :
    ((s.apply blk).pool.pending i ↔ s.pool.pending i ∧ i ∉ blk.map (·.tx.id)) ∧
    (((s.apply blk).revert true).pool.pending i ↔ s.pool.pending i ∨ i ∈ blk.map (·.tx.id)) ∧
    ((s.apply blk).revert true).chain = s.chain := by
  have e1 : (s.apply blk).pool.pending i ↔ s.pool.pending i ∧ i ∉ blk.map (·.tx.id) := by
    show (∃ e ∈ (blk.foldl (fun p e => p.erase e.tx.id) s.pool).txs, _) ↔ _
    rw [eraseAll_txs]
    constructor
    · rintro ⟨e, he, rfl⟩
      obtain ⟨h1, h2⟩ := List.mem_filter.1 he
      exact ⟨⟨e, h1, rfl⟩, by simpa using h2⟩
    · rintro ⟨⟨e, he, rfl⟩, hn⟩
      exact ⟨e, List.mem_filter.2 ⟨he, by simpa using hn⟩, rfl⟩
  refine ⟨e1, ?_, rfl⟩
  show (blk.foldl (fun p e => (p.update (fun _ => 0) true e).1) (s.apply blk).pool).pending i ↔ _
  rw [pending_iff, readd_ids blk fun e he => (ho.1 e he).2.2.1, ← pending_iff, e1]
  by_cases hm : i ∈ blk.map (·.tx.id)
  · simp [hm]
  · simp [hm]

/-- A node that is not in sync, or reverts below its root, forgets the transactions of the blocks: they
are then in no block and not pending. -/
theorem C93_lost : ∃ (body : Nat → PTx) (s : PState) (i : Nat), PReach body s ∧ s.known i ∧ (POp.revert false).Ok body s ∧ ¬ (s.revert false).known i := by
  refine ⟨fun i => ⟨i, some 7, [7], 1024⟩, PState.apply {} [⟨⟨1, some 7, [7], 1024⟩, 5, 3⟩], 1, ?_, ?_, ?_, ?_⟩
  · exact PReach.step (o := .apply [⟨⟨1, some 7, [7], 1024⟩, 5, 3⟩]) .init ⟨by decide, by decide⟩
  · exact .inl (by decide)
  · intro blk rest hc
    obtain ⟨rfl, _⟩ := List.cons.inj hc
    decide
  · rintro (z | ⟨e, he, _⟩)
    · exact absurd z (by decide)
    · cases he

/-! ### A concrete history -/

namespace PoolDemo

def tx (i : Nat) : PTx := ⟨i, some (i % 2), [i, i % 2], 1024 * i⟩
def ent (i fee : Nat) : PEntry := ⟨tx i, fee, 100⟩
def bal : Nat → Nat := fun a => if a = 1 then 10 else 100

/-- Three transactions of account 1 with a balance of 10, one of account 0. -/
def ops : List POp := [.add bal (ent 1 4), .add bal (ent 3 5), .add bal (ent 5 2), .add bal (ent 2 50), .apply [ent 3 5], .add bal (ent 5 2), .revert true]

def run (s : PState) : List POp → PState
  | [] => s
  | o :: os => run (o.run s) os

theorem reach : PReach tx (run {} ops) := by
  unfold ops
  refine PReach.step (o := .revert true) (PReach.step (o := .add bal (ent 5 2)) (PReach.step (o := .apply [ent 3 5]) (PReach.step (o := .add bal (ent 2 50))
    (PReach.step (o := .add bal (ent 5 2)) (PReach.step (o := .add bal (ent 3 5)) (PReach.step (o := .add bal (ent 1 4)) .init ?_) ?_) ?_) ?_) ?_) ?_) ?_
  all_goals try exact ⟨rfl, by decide, by decide, by decide⟩
  · exact ⟨by decide, by decide⟩
  · intro blk rest hc
    obtain ⟨rfl, _⟩ := List.cons.inj hc
    decide

/-- The third transaction of account 1 was refused at first (11 > 10), taken when the second was in a
block, and then the reverted block brought the second one back: account 1 has promised too much. -/
example : (run {} ops).pool.txs.map (·.tx.id) = [3, 5, 2, 1] ∧ (run {} ops).pool.promisedAll 1 = 11 := by decide +kernel

/-- Purging drops the cheapest of account 1. -/
example : Sorted (run {} ops).pool [ent 5 2, ent 3 5, ent 2 50, ent 1 4] ∧
    ((run {} ops).pool.purge bal 1000 [ent 5 2, ent 3 5, ent 2 50, ent 1 4]).txs.map (·.tx.id) = [3, 5, 2] ∧
    ((run {} ops).pool.purge bal 250 [ent 5 2, ent 3 5, ent 2 50, ent 1 4]).txs.map (·.tx.id) = [3, 5] := by
  refine ⟨⟨?_, by decide +kernel⟩, by decide +kernel, by decide +kernel⟩
  have : (run {} ops).pool.txs = [ent 3 5, ent 5 2, ent 2 50, ent 1 4] := by decide +kernel
  rw [this]
  exact .swap ..

example : (run {} ops).pool.index 1 3 = true ∧ (run {} ops).pool.index 1 2 = false := by decide +kernel

end PoolDemo
end Verif.Node
