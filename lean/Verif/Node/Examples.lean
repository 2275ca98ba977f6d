import Verif.Node.PropsChain
/-
  What goes wrong outside the hypotheses of C79, C81 and C83, and cases that meet the hypotheses of C78 to C85.

  The rules used here: tables are the list of hashes of the blocks applied; a block with body 13 does not validate,
  one with body 14 validates but cannot be applied, one with body 66 has a bad proof; blocks are committed two
  below the peak.
-/
namespace Verif.Node.Toy

def gen : Block := { hash := 1, prev := 0, height := 0, weight := 0 }

def R : Rules (List Nat) Unit where
  init := []
  genesis := gen
  static := fun _ => true
  proof := fun b => b.body != 66
  check := fun _ _ b => if b.body = 13 then none else some ()
  exec := fun s b _ => if b.body = 14 then none else some (b.hash :: s)
  validators := fun _ => [7, 8]
  delay := 2
  weakDelay := 4
  minWeight := 0
  avgProofs := 1

/-- Everything known, nothing to wait for. -/
def env : Env where
  synced := true
  wait := false
  vdf := fun _ => true
  far := fun _ => true
  best := fun _ => true
  ready := fun _ => true
  votes := []

/-- A block of height `h` with VDF height `h`. -/
def blk (hash prev h weight : Nat) (body : Nat := 0) : Block :=
  { hash := hash, prev := prev, height := h, weight := weight, vdf := h, body := body }

/-- The chain most examples start from: four blocks, of which the first two get committed. -/
def main : List Op :=
  [.add (blk 2 1 1 10), .update env, .add (blk 3 2 2 20), .update env, .add (blk 4 3 3 30), .update env,
    .add (blk 5 4 4 40), .update env]

/-- What is looked at after a history. -/
structure View where
  chain : List Nat
  tables : List Nat
  root : Nat
  forks : List (Nat × Bool)
  astray : Bool
deriving DecidableEq, Repr

def view (st : St (List Nat) Unit) : View where
  chain := st.chain.map (·.hash)
  tables := st.tables R
  root := st.root.hash
  forks := st.forks.map fun f => (f.block.hash, f.invalid)
  astray := st.astray

def seen (os : List Op) : Option View := ((start R).bind fun s => run R s os).map view

theorem main_view : seen main =
    some { chain := [5, 4, 3, 2, 1], tables := [5, 4, 3, 2, 1], root := 3, forks := [(4, false), (5, false)],
           astray := false } := by decide

/-! ### Findings -/

/-- A fork off the committed chain: 22 and 23 are alternatives to the committed 2 and 3, and 23 is not valid. -/
def deep : List Op :=
  [.add (blk 22 1 1 11), .add (blk 23 22 2 100 13), .add (blk 24 23 3 200), .update env]

/-- A switch to a fork off the committed chain that fails after at least one of its blocks was applied does not
restore the old chain: the node is left with the alternate block 22 in place of the blocks 2 to 5 it had, and
marks the blocks of its old chain as invalid.  (The handler walks from the old peak back to the block now at the
top, which is not an ancestor of the old peak, so it collects everything down to genesis, and validating genesis
throws.) -/
theorem C79_deep_switch_fails : seen (main ++ deep) =
    some { chain := [22, 1], tables := [22, 1], root := 3, forks := [(4, true), (24, true), (5, true)],
           astray := true } := by decide

/-- Nor do later blocks of the old chain help; a restart makes the node choose between 2 and 22 again. -/
theorem C79_deep_switch_stuck :
    (seen (main ++ deep ++ [.add (blk 6 5 5 300), .update env])).map (·.chain) = some [22, 1] ∧
    (seen (main ++ deep ++ [.add (blk 6 5 5 300), .update env, .restart 9 (fun _ => false), .update env])).map
      (·.chain) = some [2, 1] := by decide

/-- A block that validates but cannot be applied: the exception leaves the chain cut off at the fork point (here
the root 3), not at the old peak 5. -/
theorem C79_apply_fails : seen (main ++ [.add (blk 34 3 3 31 14), .add (blk 35 34 4 41), .add (blk 36 35 5 51),
      .add (blk 37 36 6 61)]) =
      some { chain := [5, 4, 3, 2, 1], tables := [5, 4, 3, 2, 1], root := 3,
             forks := [(4, false), (34, false), (5, false), (35, false), (36, false), (37, false)], astray := false } ∧
    (((start R).bind fun s => run R s (main ++ [.add (blk 34 3 3 31 14), .add (blk 35 34 4 41)])).bind fun st =>
      (findFork st.forks 35).map fun f => (view (forkTo R 3 st f).1).chain) = some [3, 2, 1] := by decide

/-- A block just above the root in height whose predecessor is the peak: its height is wrong, which is only
checked when it is validated, after the peak has been made the root.  The node ends with its whole chain
committed, without the delay. -/
theorem C83_forged_height : (seen (main ++ [.add (blk 9 5 3 50), .update env])).map (fun v => (v.chain, v.root)) =
    some ([5, 4, 3, 2, 1], 5) := by decide

/-- Blocks 23 and 33 at the height of the root 3, and a line of two blocks on each. -/
def lines : List Op :=
  [.add (blk 23 2 2 15), .add (blk 33 2 2 10), .add (blk 54 23 3 25), .add (blk 64 33 3 25), .add (blk 55 54 4 30),
    .add (blk 65 64 4 30)]

/-- Peaks of the three lines, from the root 3 (weight 20), from 23 (weight 15) and from 33 (weight 10). -/
def peakA : Block := blk 6 5 5 50
def peakB : Block := blk 56 55 5 45
def peakC : Block := blk 66 65 5 60

/-- The peaks arrive in this order, then two votes for B and one for C are counted. -/
def three (order : List Block) : List Op :=
  main ++ lines ++ order.map .add ++ [.update { env with votes := [⟨56, 7⟩, ⟨56, 8⟩, ⟨66, 7⟩] }]

/-- Between forks that start from blocks of different weight the comparison goes round in a circle: C replaces A,
B replaces C, and A replaces B.  So which of them a node follows depends on the order in which they arrived. -/
theorem C81_cycle :
    (seen (three [peakA, peakB, peakC])).map (·.chain) = some [66, 65, 64, 33, 2, 1] ∧
    (seen (three [peakB, peakC, peakA])).map (·.chain) = some [6, 5, 4, 3, 2, 1] ∧
    (seen (three [peakC, peakA, peakB])).map (·.chain) = some [56, 55, 54, 23, 2, 1] := by decide

/-- The VDFs of 24 and 25 have not been verified yet. -/
def slow : Env := { env with vdf := fun b => b.hash != 24 && b.hash != 25 }

/-- The main chain up to the block 4, of which 1 and 2 are committed. -/
def three4 : List Op := main.take 6

/-- Blocks 24 (a sibling of 4) and 25 on top of it, and later two more on that line. -/
def pair : List Op := [.add (blk 24 3 3 31), .add (blk 25 24 4 42)]
def more : List Op := [.add (blk 26 25 5 52), .add (blk 27 26 6 62), .update env]

/-- Two nodes get the same blocks and verify the same VDFs.  One gets 24 and 25 before 4 is committed, when their VDFs are
not verified yet: the commit drops 24, unverified and so not stored, while 25, now just above the root, still counts as
connected; its verification fails for want of a predecessor and it is marked invalid for good, also when 24 and 25 arrive
again and everything is verified.  That node never follows the heavier line that the other node follows. -/
theorem C81_lost_sibling :
    (seen (three4 ++ pair ++ [.update slow, .add (blk 5 4 4 40), .update slow, .add (blk 6 5 5 50), .update slow,
      .update env] ++ pair ++ [.update env] ++ more)).map (fun v => (v.chain, v.forks)) =
      some ([6, 5, 4, 3, 2, 1], [(25, true), (5, false), (6, false), (26, true), (27, true)]) ∧
    (seen (three4 ++ [.add (blk 5 4 4 40), .update slow, .add (blk 6 5 5 50), .update slow,
      .update env] ++ pair ++ [.update env] ++ more)).map (·.chain) = some [27, 26, 25, 24, 3, 2, 1] := by decide

/-! ### Cases that meet the hypotheses -/

/-- As `R`, but everything that validates can be applied. -/
def R1 : Rules (List Nat) Unit := { R with exec := fun s b _ => some (b.hash :: s) }

/-- The blocks of these examples: the chain of `main` with one more block, a fork of it that ends in a block that
does not validate, and a valid fork. -/
def known : List Block :=
  [gen, blk 2 1 1 10, blk 3 2 2 20, blk 4 3 3 30, blk 5 4 4 40, blk 6 5 5 50,
    blk 44 3 3 30, blk 45 44 4 40, blk 46 45 5 55 13, blk 36 5 5 50]

def U1 (b : Block) : Prop := b ∈ known

instance : DecidablePred U1 := fun b => inferInstanceAs (Decidable (b ∈ known))

theorem world1 : World R1 U1 where
  inj := by
    intro a b ha hb
    have : ∀ a ∈ known, ∀ b ∈ known, a.hash = b.hash → a = b := by decide
    exact this a ha b hb
  gen := by decide
  zero := rfl
  first := by
    have : ∀ b ∈ known, b.hash ≠ R1.genesis.prev := by decide
    exact this

theorem honest1 : Honest U1 := by
  intro a b ha hb
  have : ∀ a ∈ known, ∀ b ∈ known, a.prev = b.hash → a.height = b.height + 1 := by decide
  exact this a ha b hb

theorem total1 : Total R1 := by
  intro s p b c _
  exact ⟨b.hash :: s, rfl⟩

/-- The state after a history. -/
def after (os : List Op) : Option (St (List Nat) Unit) := (start R1).bind fun s => run R1 s os

/-- Only blocks of `known`, and no restarts. -/
def plain : Op → Bool
  | .add b => decide (U1 b)
  | .restart _ _ => false
  | _ => true

theorem reached1 {os : List Op} {st : St (List Nat) Unit} (hp : os.all plain = true) (h : after os = some st) :
    Reached R1 U1 os st ∧ ∀ o ∈ os, o.Safe := by
  rw [List.all_eq_true] at hp
  refine ⟨⟨fun o ho => ?_, ?_⟩, fun o ho => ?_⟩
  · have := hp o ho
    cases o with
    | add b => exact of_decide_eq_true (p := U1 b) this
    | _ => trivial
  · unfold after at h
    match hs : start R1 with
    | none => rw [hs] at h; cases h
    | some s0 => rw [hs] at h; exact ⟨s0, rfl, h⟩
  · have := hp o ho
    cases o with
    | restart k l => cases this
    | _ => trivial

/-- A history with a fork whose tip 46 does not validate, before the node looks at it. -/
def bad : List Op := main ++ [.add (blk 44 3 3 30), .add (blk 45 44 4 40), .add (blk 46 45 5 55 13)]

def stBad : St (List Nat) Unit := (after bad).get (by decide)

theorem reached_bad : Reached R1 U1 bad stBad ∧ ∀ o ∈ bad, o.Safe :=
  reached1 (by decide) (Option.some_get _).symm

/-- A fork of a state, by the hash of its block. -/
def forkAt (st : St (List Nat) Unit) (h : Nat) (hs : (findFork st.forks h).isSome) : Fork Unit :=
  (findFork st.forks h).get hs

theorem forkAt_mem {st : St (List Nat) Unit} {h : Nat} {hs : (findFork st.forks h).isSome} :
    forkAt st h hs ∈ st.forks := List.mem_of_find?_eq_some (Option.some_get hs).symm

def f44 : Fork Unit := forkAt stBad 44 (by decide)
def f45 : Fork Unit := forkAt stBad 45 (by decide)
def f46 : Fork Unit := forkAt stBad 46 (by decide)

theorem line45 : Ancestry stBad f45 [f45, f44] :=
  .step (by decide) (Option.some_get (by decide)).symm (.base (by decide))

theorem line46 : Ancestry stBad f46 [f46, f45, f44] :=
  .step (by decide) (Option.some_get (by decide)).symm line45

/-- C79: the switch to 46 fails, and nothing has changed. -/
theorem C79_example : ∃ st', forkTo R1 3 stBad f46 = (st', .err) ∧ st'.chain = stBad.chain ∧
    stBad.chain.map (·.hash) = [5, 4, 3, 2, 1] ∧ Marked st'.forks 46 := by
  have he : (forkTo R1 3 stBad f46).2 = .err := by decide
  match hr : forkTo R1 3 stBad f46 with
  | (st', o) =>
    rw [hr] at he
    cases he
    have := C79_failed_switch_partial world1 honest1 total1 reached_bad.1 reached_bad.2 (by decide) forkAt_mem line46
      ⟨f44, rfl, by decide⟩ hr
    refine ⟨st', rfl, this.1, by decide, ?_⟩
    have h2 : ((findFork (forkTo R1 3 stBad f46).1.forks 46).map (·.invalid)) = some true := by decide
    rw [hr] at h2
    match hf : findFork st'.forks 46 with
    | none => rw [hf] at h2; cases h2
    | some g => rw [hf] at h2; injection h2 with h2; exact ⟨g, hf, h2⟩

/-- C80: the switch to 45 succeeds. -/
theorem C80_example : ∃ st' o, forkTo R1 3 stBad f45 = (st', .ok o) ∧ st'.chain.head? = some f45.block ∧
    st'.committed = stBad.committed ∧ stBad.committed.map (·.hash) = [3, 2, 1] := by
  have he : (forkTo R1 3 stBad f45).2 = .ok (some (blk 3 2 2 20)) := by decide
  match hr : forkTo R1 3 stBad f45 with
  | (st', o) =>
    rw [hr] at he
    cases he
    have := C80_switch world1 honest1 total1 reached_bad.1 reached_bad.2 (by decide) forkAt_mem line45
      ⟨f44, rfl, by decide⟩ hr
    exact ⟨st', _, rfl, this.1, this.2.2.1, by decide⟩

instance (st : St (List Nat) Unit) : Decidable (NoDeep st) := by unfold NoDeep; infer_instance

/-- C82, C83: `update` on a state with an invalid fork that is preferred at first (46 at height 5 against 5 at
height 4) ends on a valid one; with the next block the chain moves on and one more block is committed. -/
theorem C82_example : NoDeep stBad ∧
    (update R1 env stBad).1.chain.map (·.hash) = [5, 4, 3, 2, 1] ∧
    (findBest (prepare R1 env stBad) false).2.map (·.block.hash) = some 46 ∧
    (((after (bad ++ [.update env, .add (blk 6 5 5 50), .update env])).map view).map fun v => (v.chain, v.root)) =
      some ([6, 5, 4, 3, 2, 1], 4) := by decide

/-- C81: the candidates all start from the root. -/
theorem C81_example : ∀ g l r, Candidate (prepare R1 env stBad) false g l r → r.weight = 20 := by
  intro g l r hc
  obtain ⟨x, hx, hb⟩ := hc.start
  have hx2 : x ∈ (prepare R1 env stBad).forks ∧ x.block.height = (prepare R1 env stBad).root.height + 1 := by
    have hm := hc.mem
    have hl := hc.line
    clear hc
    induction hl with
    | base h => simp at hx; subst hx; exact ⟨hm, h⟩
    | step hn hf hl ih =>
      have hne := hl.ne
      obtain ⟨y, ys, rfl⟩ := List.exists_cons_of_ne_nil hne
      rw [List.getLast?_cons_cons] at hx
      exact ih hx (List.mem_of_find?_eq_some hf)
  have hall : ∀ x ∈ (prepare R1 env stBad).forks, x.block.height = (prepare R1 env stBad).root.height + 1 →
      (getBlock (prepare R1 env stBad) x.block.prev).map (·.weight) = some 20 := by decide
  have := hall x hx2.1 hx2.2
  rw [hb] at this
  simpa using this

/-- C84: a restart at version 4 of a node whose chain has five versions. -/
theorem C84_example : ∃ st', step R1 stBad (.restart 4 fun _ => false) = some st' ∧
    st'.chain.map (·.hash) = [4, 3, 2, 1] ∧ st'.root.hash = 2 := by
  obtain ⟨st', h, _⟩ := C84_restart world1 honest1 reached_bad.1 reached_bad.2 (keep := 4) (by decide)
  have hv : (step R1 stBad (.restart 4 fun _ => false)).map (fun s => (s.chain.map (·.hash), s.root.hash)) =
      some ([4, 3, 2, 1], 2) := by decide
  rw [h] at hv
  simp at hv
  exact ⟨st', h, hv.1, hv.2⟩

/-- C85: two validators vote for block 45, one of them twice, and someone else votes: two votes are counted, and the
node switches to it although 5 was there first. -/
theorem C85_example :
    ((after (main ++ [.add (blk 44 3 3 30), .add (blk 45 44 4 40),
      .update { env with votes := [⟨45, 7⟩, ⟨45, 7⟩, ⟨45, 9⟩, ⟨45, 8⟩] }])).map fun st =>
        (st.chain.map (·.hash), st.forks.map fun f => (f.block.hash, f.votes))) =
      some ([45, 44, 3, 2, 1], [(4, 0), (44, 0), (5, 0), (45, 2)]) := by decide

/-- As `R1`, where 6 has no valid proof. -/
def R3 : Rules (List Nat) Unit := { R1 with proof := fun b => b.hash != 6 }

theorem world3 : World R3 U1 := ⟨world1.inj, world1.gen, world1.zero, world1.first⟩

/-- A node that makes a block: it moves to 4, back to 5, and gets two blocks on top of 5. -/
def made : List Op := main ++ [.forkTo 4, .forkTo 5, .add (blk 6 5 5 50), .add (blk 36 5 5 50), .update env]

/-- C86: 6 has the smaller hash and would be preferred, but is not taken. -/
theorem C86_example : (∀ o ∈ made, o.In U1 ∧ o.Safe) ∧
    (((start R3).bind fun s => run R3 s made).map fun s => s.chain.map (·.hash)) = some [36, 5, 4, 3, 2, 1] ∧
    (((start R3).bind fun s => run R3 s main).map fun s => s.chain.map (·.hash)) = some [5, 4, 3, 2, 1] := by
  refine ⟨?_, by decide, by decide⟩
  intro o ho
  have hp : made.all plain = true := by decide
  have := List.all_eq_true.1 hp o ho
  cases o with
  | add b => exact ⟨of_decide_eq_true (p := U1 b) this, trivial⟩
  | restart k l => cases this
  | _ => exact ⟨trivial, trivial⟩

end Verif.Node.Toy
