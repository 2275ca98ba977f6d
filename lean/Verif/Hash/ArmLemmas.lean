import Verif.Hash.Sha256ArmFuns
import Verif.Hash.NiLemmas
/-
  The straight-line code of src/sha256_arm.cpp and src/sha256_arm_rec.cpp does the sixty-four rounds of
  SHA-256.
-/
namespace Verif.Hash.Arm
open Reg
open Ni (V4 times full pre Sched Rounds words words_sched words_rounds compress_eq kvec_eq
  take_succ_flatten block256 klen)

/-- `STATE0` and `STATE1` for working variables. -/
def packA (s : Regs 32) : V4 := ⟨s.a, s.b, s.c, s.d⟩
def packE (s : Regs 32) : V4 := ⟨s.e, s.f, s.g, s.h⟩

/-! ### The instructions -/

theorem su0_full (W : Nat → BitVec 32) (q : Nat) :
    sha256su0 (full W q) (full W (q + 1)) = pre W q := by
  rw [← Ni.msg1_full]
  unfold sha256su0 Ni.msg1
  rw [BitVec.add_comm (sha256Alg.s0 _), BitVec.add_comm (sha256Alg.s0 _),
    BitVec.add_comm (sha256Alg.s0 _), BitVec.add_comm (sha256Alg.s0 _)]

theorem su1_order (s t n : BitVec 32) : s + t + n = t + n + s := by ac_rfl

theorem su1_full (W : Nat → BitVec 32) (hW : Sched W) (q : Nat) (hq : q + 4 ≤ 15) :
    sha256su1 (pre W q) (full W (q + 2)) (full W (q + 3)) = full W (q + 4) := by
  rw [← Ni.msg2_full W hW q hq, Ni.alignr4]
  unfold sha256su1 Ni.msg2 V4.add
  dsimp only
  rw [su1_order (sha256Alg.s1 (full W (q + 3)).x2), su1_order (sha256Alg.s1 (full W (q + 3)).x3),
    su1_order _ (pre W q).x2, su1_order _ (pre W q).x3]

theorem round_t (h s c w k : BitVec 32) : h + s + c + (w + k) = h + s + c + k + w := by ac_rfl
theorem round_a (t s m : BitVec 32) : t + s + m = t + (s + m) := by ac_rfl

theorem hashOne_eq (s : Regs 32) (k w : BitVec 32) : hashOne (packA s, packE s) (w + k)
    = (packA (specRound sha256Alg s (k, w)), packE (specRound sha256Alg s (k, w))) := by
  unfold hashOne specRound packA packE
  dsimp only
  rw [round_t, round_a, BitVec.add_comm _ s.d]

/-- A group of four rounds. -/
theorem rounds4 (W : Nat → BitVec 32) (R : Nat → Regs 32) (hR : Rounds W R) (q : Nat) (hq : q < 16) :
    sha256h (packA (R (4 * q))) (packE (R (4 * q))) ((full W q).add (Ni.kvec sha256Alg.K (4 * q)))
        = packA (R (4 * (q + 1)))
    ∧ sha256h2 (packE (R (4 * q))) (packA (R (4 * q)))
        ((full W q).add (Ni.kvec sha256Alg.K (4 * q))) = packE (R (4 * (q + 1))) := by
  have h0 := hR (4 * q) (by omega)
  have h1 := hR (4 * q + 1) (by omega)
  have h2 := hR (4 * q + 2) (by omega)
  have h3 := hR (4 * q + 3) (by omega)
  have h : hashFour (packA (R (4 * q))) (packE (R (4 * q)))
      ((full W q).add (Ni.kvec sha256Alg.K (4 * q)))
      = (packA (R (4 * q + 4)), packE (R (4 * q + 4))) := by
    rw [kvec_eq]
    unfold full V4.add hashFour
    dsimp only
    rw [hashOne_eq, ← h0, hashOne_eq, ← h1, hashOne_eq, ← h2, hashOne_eq, ← h3]
  unfold sha256h sha256h2
  rw [h, show 4 * (q + 1) = 4 * q + 4 by omega]
  exact ⟨rfl, rfl⟩

/-! ### The groups -/

/-- Register of group `q`. -/
def tr (q : Nat) : Reg := match q % 4 with | 0 => T0 | 1 => T1 | 2 => T2 | _ => T3

/-- Where the recursive version has the first sixteen words. -/
def src (q : Nat) : Reg := match q with | 0 => H0 | 1 => H1 | 2 => P0 | _ => P1

/-- The variables before group `g`. -/
structure Inv (W : Nat → BitVec 32) (R : Nat → Regs 32) (g : Nat) (f : File) : Prop where
  s0 : f S0 = packA (R (4 * g))
  s1 : f S1 = packE (R (4 * g))
  cur : 4 ≤ g → g ≤ 15 → f (tr g) = full W g
  next : 3 ≤ g → g ≤ 14 → f (tr (g + 1)) = full W (g + 1)
  next2 : 2 ≤ g → g ≤ 13 → f (tr (g + 2)) = full W (g + 2)
  prev : 1 ≤ g → g ≤ 12 → f (tr (g + 3)) = pre W (g - 1)

/-- The first sixteen words are in their registers. -/
def LowArm (W : Nat → BitVec 32) (g : Nat) (f : File) : Prop :=
  ∀ q, g ≤ q → q < 4 → f (tr q) = full W q

def LowRec (W : Nat → BitVec 32) (f : File) : Prop := ∀ q, q < 4 → f (src q) = full W q

/-- Symbolic execution of a group: unfold the statements and look up the registers. -/
macro "exec_arm" : tactic => `(tactic| simp only [armGroups, recGroups, List.getD_cons_succ,
  List.getD_cons_zero, run, List.foldl_cons, List.foldl_nil, Op.exec, File.set, tr, src,
  Nat.reduceMod, Nat.reduceAdd, reduceCtorEq, if_true, if_false])

theorem step_arm (W : Nat → BitVec 32) (R : Nat → Regs 32) (hW : Sched W) (hR : Rounds W R)
    (g : Nat) (hg : g < 16) (f : File) (h : Inv W R g f) (hl : LowArm W g f) :
    Inv W R (g + 1) (run sha256Alg.K f (armGroups.getD g []))
      ∧ LowArm W (g + 1) (run sha256Alg.K f (armGroups.getD g [])) := by
  obtain ⟨a1, a2⟩ := rounds4 W R hR g hg
  obtain ⟨h0, h1, h2, h3, h4, h5⟩ := h
  have l0 := fun h => hl 0 h (by omega)
  have l1 := fun h => hl 1 h (by omega)
  have l2 := fun h => hl 2 h (by omega)
  have l3 := fun h => hl 3 h (by omega)
  have b1 := su0_full W g
  have b2 := su1_full W hW (g - 1)
  clear hl hR hW
  interval_cases g
  all_goals
    simp only [tr, Nat.reduceMod, Nat.reduceMul, Nat.reduceAdd, Nat.reduceSub, Nat.reduceLeDiff,
      true_imp_iff, false_imp_iff] at *
  all_goals refine ⟨⟨?_, ?_, fun h h' => ?_, fun h h' => ?_, fun h h' => ?_, fun h h' => ?_⟩,
    fun q h h' => ?_⟩
  all_goals first
    | omega
    | (exec_arm; simp only [*]; done)
    | (have hq : q = 1 ∨ q = 2 ∨ q = 3 := by omega
       rcases hq with rfl | rfl | rfl <;> first | omega | (exec_arm; simp only [*]))

theorem step_rec (W : Nat → BitVec 32) (R : Nat → Regs 32) (hW : Sched W) (hR : Rounds W R)
    (hp : pre W 2 = full W 2)
    (g : Nat) (hg : g < 16) (f : File) (h : Inv W R g f) (hl : LowRec W f) :
    Inv W R (g + 1) (run sha256Alg.K f (recGroups.getD g []))
      ∧ LowRec W (run sha256Alg.K f (recGroups.getD g [])) := by
  obtain ⟨a1, a2⟩ := rounds4 W R hR g hg
  obtain ⟨h0, h1, h2, h3, h4, h5⟩ := h
  have l0 := hl 0 (by omega)
  have l1 := hl 1 (by omega)
  have l2 := hl 2 (by omega)
  have l3 := hl 3 (by omega)
  have b1 := su0_full W g
  have b2 := su1_full W hW (g - 1)
  have b3 := su1_full W hW 2 (by omega)
  rw [hp] at b3
  clear hl hR hW
  interval_cases g
  all_goals
    simp only [tr, src, Nat.reduceMod, Nat.reduceMul, Nat.reduceAdd, Nat.reduceSub, Nat.reduceLeDiff,
      true_imp_iff, false_imp_iff] at *
  all_goals refine ⟨⟨?_, ?_, fun h h' => ?_, fun h h' => ?_, fun h h' => ?_, fun h h' => ?_⟩,
    fun q h => ?_⟩
  all_goals first
    | omega
    | (exec_arm; simp only [*]; done)
    | (have hq : q = 0 ∨ q = 1 ∨ q = 2 ∨ q = 3 := by omega
       rcases hq with rfl | rfl | rfl | rfl <;> (exec_arm; simp only [*]))

theorem run_append (K : List (BitVec 32)) (f : File) (a b : List Op) :
    run K f (a ++ b) = run K (run K f a) b := List.foldl_append

theorem run_arm (W : Nat → BitVec 32) (R : Nat → Regs 32) (hW : Sched W) (hR : Rounds W R)
    (f : File) (h : Inv W R 0 f) (hl : LowArm W 0 f) (n : Nat) (hn : n ≤ 16) :
    Inv W R n (run sha256Alg.K f (armGroups.take n).flatten)
      ∧ LowArm W n (run sha256Alg.K f (armGroups.take n).flatten) := by
  induction n with
  | zero => exact ⟨h, hl⟩
  | succ n ih =>
    obtain ⟨i1, i2⟩ := ih (by omega)
    have := step_arm W R hW hR n (by omega) _ i1 i2
    rwa [← run_append, ← take_succ_flatten _ _ (by show n < 16; omega)] at this

theorem run_rec (W : Nat → BitVec 32) (R : Nat → Regs 32) (hW : Sched W) (hR : Rounds W R)
    (hp : pre W 2 = full W 2) (f : File) (h : Inv W R 0 f) (hl : LowRec W f) (n : Nat)
    (hn : n ≤ 16) :
    Inv W R n (run sha256Alg.K f (recGroups.take n).flatten)
      ∧ LowRec W (run sha256Alg.K f (recGroups.take n).flatten) := by
  induction n with
  | zero => exact ⟨h, hl⟩
  | succ n ih =>
    obtain ⟨i1, i2⟩ := ih (by omega)
    have := step_rec W R hW hR hp n (by omega) _ i1 i2
    rwa [← run_append, ← take_succ_flatten _ _ (by show n < 16; omega)] at this

theorem karm : Karm = sha256Alg.K := by decide
theorem krec : Krec = sha256Alg.K := by decide
theorem krec2 : Krec2 = sha256Alg.K := by decide

/-! ### Bytes -/

theorem rev32_eq (v : V4) : rev32 v = Ni.shuf8 v Ni.mask := by
  unfold rev32
  rw [Ni.shuf8_mask, Ni.load_four _ _ _ _ (by rw [List.length_reverse, toLE_length])
    (by rw [List.length_reverse, toLE_length]) (by rw [List.length_reverse, toLE_length])
    (by rw [List.length_reverse, toLE_length]), Ni.ofLE_rev, Ni.ofLE_rev, Ni.ofLE_rev, Ni.ofLE_rev]

theorem loadHash_eq (h : List Byte) : loadHash h = Ni.loadHash h := by
  unfold loadHash Ni.loadHash
  rw [rev32_eq, rev32_eq]

theorem storeHash_eq (h : V4 × V4) : storeHash h = Ni.storeHash h := by
  unfold storeHash Ni.storeHash
  rw [rev32_eq, rev32_eq]

/-! ### `compress_digest` -/

theorem packA_add (s t : Regs 32) : (packA t).add (packA s) = packA (s.add t) := by
  unfold packA V4.add Regs.add
  dsimp only
  rw [BitVec.add_comm t.a, BitVec.add_comm t.b, BitVec.add_comm t.c, BitVec.add_comm t.d]

theorem packE_add (s t : Regs 32) : (packE t).add (packE s) = packE (s.add t) := by
  unfold packE V4.add Regs.add
  dsimp only
  rw [BitVec.add_comm t.e, BitVec.add_comm t.f, BitVec.add_comm t.g, BitVec.add_comm t.h]

theorem block_eq (junk : File) (s : Regs 32) (b : List Byte) (hb : 64 ≤ b.length) :
    block junk (packA s, packE s) b
      = (packA (compress sha256Alg s (b.take 64)), packE (compress sha256Alg s (b.take 64))) := by
  have hq : ∀ q, q < 4 → rev32 (V4.load (b.drop (16 * q))) = full (words (b.take 64)) q := by
    intro q hq
    rw [rev32_eq, Ni.load_full b hb q hq]
    unfold full
    rw [Ni.words_take, Ni.words_take, Ni.words_take, Ni.words_take]
  have q0 := hq 0 (by omega)
  have q1 := hq 1 (by omega)
  have q2 := hq 2 (by omega)
  have q3 := hq 3 (by omega)
  rw [Nat.mul_zero, List.drop_zero] at q0
  have hi : Inv (words (b.take 64)) (specRounds sha256Alg s (b.take 64)) 0
      (loadBlock junk (packA s, packE s) b) :=
    ⟨rfl, rfl, fun h => by omega, fun h => by omega, fun h => by omega, fun h => by omega⟩
  have hlow : LowArm (words (b.take 64)) 0 (loadBlock junk (packA s, packE s) b) := by
    intro q _ h
    have hq : q = 0 ∨ q = 1 ∨ q = 2 ∨ q = 3 := by omega
    rcases hq with rfl | rfl | rfl | rfl
    · exact q0
    · exact q1
    · exact q2
    · exact q3
  have h16 := (run_arm _ _ (words_sched _) (words_rounds _ s) _ hi hlow 16 (Nat.le_refl _)).1
  rw [List.take_of_length_le (l := armGroups) (by decide)] at h16
  unfold block
  dsimp only
  rw [karm, h16.s0, h16.s1, compress_eq, show 4 * 16 = 64 from rfl, packA_add, packE_add]

theorem blocks_eq (junk : File) (n : Nat) (s : Regs 32) (b : List Byte) (hb : 64 * n ≤ b.length) :
    blocks junk n (packA s, packE s) b
      = (packA (overBlocks sha256Alg n s b), packE (overBlocks sha256Alg n s b)) := by
  induction n generalizing s b with
  | zero => rfl
  | succ n ih =>
    unfold blocks overBlocks
    rw [block_eq junk s b (by omega), block256]
    exact ih _ _ (by rw [List.length_drop]; omega)

theorem loadState_eq (s : Regs 32) : loadState s = (packA s, packE s) := rfl

theorem compressDigest_eq (junk : File) (s : Regs 32) (b : List Byte) (n : Nat)
    (hb : 64 * n ≤ b.length) : compressDigest junk s b n = overBlocks sha256Alg n s b := by
  unfold compressDigest
  rw [loadState_eq, blocks_eq junk n s b hb]
  rfl

/-! ### `sha256_arm` -/

theorem init_eq : initState = sha256Alg.init := rfl
theorem last_same : lastBlocks = Ni.lastBlocks := rfl
theorem final_same : finalBlocks = Ni.finalBlocks := rfl

theorem sha256Arm_eq (junk : File) (m : List Byte) : sha256Arm junk m = sha256 m := by
  obtain ⟨p1, p2, p3⟩ := Ni.pad_count m.length
  have hs : (if m.length / 64 ≠ 0 then compressDigest junk initState m (m.length / 64)
      else initState) = overBlocks sha256Alg (m.length / 64) sha256Alg.init m := by
    by_cases h : m.length / 64 = 0
    · rw [if_neg (by omega), h]
      exact init_eq
    · rw [if_pos h, compressDigest_eq _ _ _ _ (by omega), init_eq]
  unfold sha256Arm
  dsimp only
  rw [Ni.digest_eq, hs, last_same, final_same, compressDigest_eq _ _ _ _ (by
    rw [Ni.last_eq, List.length_append, List.length_append, List.length_cons, List.length_append,
      List.length_replicate, List.length_replicate, toBE_length, List.length_drop]; omega),
    Ni.last_eq, overBlocks_append_left _ _ _ _ _ (by
      rw [block256, List.length_append, List.length_cons, List.length_append, List.length_replicate,
        toBE_length, List.length_drop]; omega), Ni.sha256_blocks]

/-! ### The recursive version -/

theorem hpad0_eq : hpad0 = Ni.hpad0 := by decide
theorem hpad1_eq : hpad1 = Ni.hpad1 := by decide
theorem abcd_init : abcdInit = packA sha256Alg.init := rfl
theorem efgh_init : efghInit = packE sha256Alg.init := rfl

/-- The words after the end bit are zero, so the first schedule instruction changes nothing: what the
    code copies instead of computing (sha256_arm_rec.cpp:100). -/
theorem pre_pad (m : List Byte) (h : m.length = 32) :
    pre (words (Ni.block32 m)) 2 = full (words (Ni.block32 m)) 2 := by
  have e2 : hpad0 = full (words (Ni.block32 m)) 2 := Ni.block32_low m h 2 (by omega) _
    (fun h => by omega) (fun h => by omega) (fun _ => hpad0_eq) (fun h => by omega)
  have e3 : hpad1 = full (words (Ni.block32 m)) 3 := Ni.block32_low m h 3 (by omega) _
    (fun h => by omega) (fun h => by omega) (fun h => by omega) (fun _ => hpad1_eq)
  rw [← su0_full, ← e2, ← e3]
  decide

theorem start_inv (junk : File) (m : List Byte) (h : m.length = 32) :
    Inv (words (Ni.block32 m)) (specRounds sha256Alg sha256Alg.init (Ni.block32 m)) 0
      (startIter junk (loadHash m))
    ∧ LowRec (words (Ni.block32 m)) (startIter junk (loadHash m)) := by
  refine ⟨⟨abcd_init, efgh_init, fun h => by omega, fun h => by omega, fun h => by omega,
    fun h => by omega⟩, ?_⟩
  intro q hq
  rw [loadHash_eq]
  refine Ni.block32_low m h q hq _ ?_ ?_ ?_ ?_ <;> (intro hq; subst hq)
  · rfl
  · rfl
  · exact hpad0_eq
  · exact hpad1_eq

/-- The state that one iteration leaves. -/
theorem rec_state (junk : File) (m : List Byte) (h : m.length = 32) :
    endIter (run sha256Alg.K (startIter junk (loadHash m)) recGroups.flatten)
      = loadHash (sha256 m) := by
  obtain ⟨i1, i2⟩ := start_inv junk m h
  have h16 := (run_rec _ _ (words_sched _) (words_rounds _ sha256Alg.init) (pre_pad m h) _ i1 i2 16
    (Nat.le_refl _)).1
  rw [List.take_of_length_le (l := recGroups) (by decide)] at h16
  unfold endIter
  rw [h16.s0, h16.s1, Ni.sha256_32 m h, loadHash_eq, Ni.loadHash_digest, compress_eq, abcd_init,
    efgh_init, show 4 * 16 = 64 from rfl, packA_add, packE_add]
  rfl

theorem iter_eq (junk : File) (m : List Byte) (h : m.length = 32) :
    iter junk (loadHash m) = loadHash (sha256 m) := by
  unfold iter
  rw [krec]
  exact rec_state junk m h

theorem times_iter (junk : File) (n : Nat) (m : List Byte) (h : m.length = 32) :
    times (iter junk) n (loadHash m) = loadHash (times sha256 n m) := by
  induction n generalizing m with
  | zero => rfl
  | succ n ih =>
    unfold times
    rw [iter_eq junk m h]
    exact ih _ (Ni.sha256_length m)

/-- After at least one iteration. -/
theorem store_times (n : Nat) (m : List Byte) (h : m.length = 32) (hn : n ≠ 0) :
    storeHash (loadHash (times sha256 n m)) = times sha256 n m := by
  rw [storeHash_eq, loadHash_eq, Ni.store_times n m h hn]

/-! ### Two at once -/

theorem run2_lane (K : List (BitVec 32)) (l : List (Bool × Op)) (f : Bool → File) (p : Bool) :
    run2 K f l p = run K (f p) ((l.filter (fun o => o.1 == p)).map (·.2)) := by
  induction l generalizing f with
  | nil => rfl
  | cons o l ih =>
    show run2 K (exec2 K f o) l p = _
    rw [ih]
    by_cases h : p = o.1
    · subst h
      rw [List.filter_cons_of_pos (by simp), List.map_cons]
      show run K _ _ = run K (Op.exec K (f o.1) o.2) _
      congr 1
      exact if_pos rfl
    · rw [List.filter_cons_of_neg (by simp; exact fun h' => h h'.symm)]
      congr 1
      exact if_neg h

theorem lanes (p : Bool) : (rec2Groups.flatten.filter (fun o => o.1 == p)).map (·.2)
    = recGroups.flatten := by
  cases p <;> decide

theorem iter2_eq (junk : Bool → File) (m : Bool → List Byte) (h : ∀ p, (m p).length = 32) :
    iter2 junk (fun p => loadHash (m p)) = fun p => loadHash (sha256 (m p)) := by
  funext p
  unfold iter2
  dsimp only
  rw [run2_lane, lanes, krec2]
  exact rec_state (junk p) (m p) (h p)

theorem times_iter2 (junk : Bool → File) (n : Nat) (m : Bool → List Byte)
    (h : ∀ p, (m p).length = 32) :
    times (iter2 junk) n (fun p => loadHash (m p)) = fun p => loadHash (times sha256 n (m p)) := by
  induction n generalizing m with
  | zero => rfl
  | succ n ih =>
    unfold times
    rw [iter2_eq junk m h]
    exact ih _ (fun p => Ni.sha256_length (m p))

end Verif.Hash.Arm
