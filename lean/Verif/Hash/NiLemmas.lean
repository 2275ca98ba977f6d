import Verif.Hash.Sha256NiFuns
import Verif.Hash.Sha512Lemmas
/-
  The straight-line code of src/sha256_ni.cpp and src/sha256_ni_rec.cpp does the sixty-four rounds of
  SHA-256.
-/
namespace Verif.Hash.Ni
open Reg

/-! ### Four rounds at a time -/

/-- `STATE0` and `STATE1` for working variables. -/
def pack0 (s : Regs 32) : V4 := ⟨s.f, s.e, s.b, s.a⟩
def pack1 (s : Regs 32) : V4 := ⟨s.h, s.g, s.d, s.c⟩

/-- Words `4q` to `4q + 3` of the schedule. -/
def full (W : Nat → BitVec 32) (q : Nat) : V4 :=
  ⟨W (4 * q), W (4 * q + 1), W (4 * q + 2), W (4 * q + 3)⟩

/-- What the first of the two schedule instructions makes for the words of group `q + 4`. -/
def pre (W : Nat → BitVec 32) (q : Nat) : V4 :=
  ⟨W (4 * q) + sha256Alg.s0 (W (4 * q + 1)), W (4 * q + 1) + sha256Alg.s0 (W (4 * q + 2)),
   W (4 * q + 2) + sha256Alg.s0 (W (4 * q + 3)), W (4 * q + 3) + sha256Alg.s0 (W (4 * q + 4))⟩

/-- `W` satisfies the recurrence of the standard. -/
def Sched (W : Nat → BitVec 32) : Prop := ∀ t, t + 16 < 64 →
  W (t + 16) = sha256Alg.s1 (W (t + 14)) + W (t + 9) + sha256Alg.s0 (W (t + 1)) + W t

/-- `R n` are the working variables after `n` rounds. -/
def Rounds (W : Nat → BitVec 32) (R : Nat → Regs 32) : Prop := ∀ n, n < 64 →
  R (n + 1) = specRound sha256Alg (R n) (sha256Alg.K.getD n 0, W n)

theorem msg1_full (W : Nat → BitVec 32) (q : Nat) : msg1 (full W q) (full W (q + 1)) = pre W q := by
  unfold msg1 full pre
  rw [show 4 * (q + 1) = 4 * q + 4 by omega]

theorem alignr4 (a b : V4) : alignr a b 4 = ⟨b.x1, b.x2, b.x3, a.x0⟩ := rfl
theorem alignr8 (a b : V4) : alignr a b 8 = ⟨b.x2, b.x3, a.x0, a.x1⟩ := rfl
theorem shuf_0E (a : V4) : shuf32 a 0x0E = ⟨a.x2, a.x3, a.x0, a.x0⟩ := rfl
theorem shuf_1B (a : V4) : shuf32 a 0x1B = ⟨a.x3, a.x2, a.x1, a.x0⟩ := rfl
theorem shuf_B1 (a : V4) : shuf32 a 0xB1 = ⟨a.x1, a.x0, a.x3, a.x2⟩ := rfl
theorem blend_F0 (a b : V4) : blend16 a b 0xF0 = ⟨a.x0, a.x1, b.x2, b.x3⟩ := rfl

theorem sum_order (a b c d : BitVec 32) : a + b + c + d = d + c + b + a := by
  ac_rfl

theorem sched_word (x y z u : BitVec 32) : z + y + x + u = u + x + y + z := by ac_rfl

theorem msg2_full (W : Nat → BitVec 32) (hW : Sched W) (q : Nat) (hq : q + 4 ≤ 15) :
    msg2 ((pre W q).add (alignr (full W (q + 3)) (full W (q + 2)) 4)) (full W (q + 3))
      = full W (q + 4) := by
  rw [alignr4]
  unfold msg2 full pre V4.add
  rw [show 4 * (q + 3) = 4 * q + 12 by omega, show 4 * (q + 2) = 4 * q + 8 by omega,
    show 4 * (q + 4) = 4 * q + 16 by omega]
  dsimp only
  have e0 := hW (4 * q) (by omega)
  have e1 := hW (4 * q + 1) (by omega)
  have e2 := hW (4 * q + 2) (by omega)
  have e3 := hW (4 * q + 3) (by omega)
  simp only [Nat.add_assoc, Nat.reduceAdd] at e0 e1 e2 e3 ⊢
  have key : ∀ x y z u : BitVec 32, x + y + z + u = u + z + y + x := sum_order
  have f0 : W (4 * q) + sha256Alg.s0 (W (4 * q + 1)) + W (4 * q + 9) + sha256Alg.s1 (W (4 * q + 14))
      = W (4 * q + 16) := by rw [e0]; exact sum_order _ _ _ _
  have f1 : W (4 * q + 1) + sha256Alg.s0 (W (4 * q + 2)) + W (4 * q + 10)
      + sha256Alg.s1 (W (4 * q + 15)) = W (4 * q + 17) := by rw [e1]; exact sum_order _ _ _ _
  have f2 : W (4 * q + 2) + sha256Alg.s0 (W (4 * q + 3)) + W (4 * q + 11)
      + sha256Alg.s1 (W (4 * q + 16)) = W (4 * q + 18) := by rw [e2]; exact sum_order _ _ _ _
  have f3 : W (4 * q + 3) + sha256Alg.s0 (W (4 * q + 4)) + W (4 * q + 12)
      + sha256Alg.s1 (W (4 * q + 17)) = W (4 * q + 19) := by rw [e3]; exact sum_order _ _ _ _
  rw [f0, f1, f2, f3]

theorem round_order (h s c k w : BitVec 32) : c + s + (w + k) + h = h + s + c + k + w := by ac_rfl
theorem round_order2 (t m s : BitVec 32) : t + m + s = t + (s + m) := by ac_rfl
theorem round_order3 (t d : BitVec 32) : t + d = d + t := by ac_rfl

theorem rndsOne_eq (s : Regs 32) (k w : BitVec 32) :
    rndsOne s (w + k) = specRound sha256Alg s (k, w) := by
  unfold rndsOne specRound
  dsimp only
  rw [round_order, round_order2, round_order3 _ s.d]

theorem rnds2_pack (s : Regs 32) (k : V4) :
    rnds2 (pack1 s) (pack0 s) k = pack0 (rndsOne (rndsOne s k.x0) k.x1) := rfl

theorem pack1_two (s : Regs 32) (x y : BitVec 32) :
    pack1 (rndsOne (rndsOne s x) y) = pack0 s := rfl

theorem kvec_eq (K : List (BitVec 32)) (k : Nat) :
    kvec K k = ⟨K.getD k 0, K.getD (k + 1) 0, K.getD (k + 2) 0, K.getD (k + 3) 0⟩ := by
  unfold kvec V4.ofWords
  simp only [List.getD_eq_getElem?_getD, List.getElem?_drop, Nat.add_zero]

/-- The two double rounds of a group. -/
theorem rounds4 (W : Nat → BitVec 32) (R : Nat → Regs 32) (hR : Rounds W R) (q : Nat) (hq : q < 16) :
    rnds2 (pack1 (R (4 * q))) (pack0 (R (4 * q))) ((full W q).add (kvec sha256Alg.K (4 * q)))
        = pack1 (R (4 * (q + 1)))
    ∧ rnds2 (pack0 (R (4 * q))) (pack1 (R (4 * (q + 1))))
        (shuf32 ((full W q).add (kvec sha256Alg.K (4 * q))) 0x0E) = pack0 (R (4 * (q + 1))) := by
  have h0 := hR (4 * q) (by omega)
  have h1 := hR (4 * q + 1) (by omega)
  have h2 := hR (4 * q + 2) (by omega)
  have h3 := hR (4 * q + 3) (by omega)
  rw [show 4 * (q + 1) = 4 * q + 4 by omega, shuf_0E, kvec_eq]
  unfold full V4.add
  dsimp only
  simp only [Nat.add_assoc, Nat.reduceAdd] at h0 h1 h2 h3 ⊢
  have ha : pack1 (R (4 * q + 4)) = pack0 (R (4 * q + 2)) := by
    rw [h3, h2, ← rndsOne_eq, ← rndsOne_eq]
    exact pack1_two _ _ _
  have hb : rnds2 (pack1 (R (4 * q))) (pack0 (R (4 * q)))
      ⟨W (4 * q) + sha256Alg.K.getD (4 * q) 0, W (4 * q + 1) + sha256Alg.K.getD (4 * q + 1) 0,
       W (4 * q + 2) + sha256Alg.K.getD (4 * q + 2) 0, W (4 * q + 3) + sha256Alg.K.getD (4 * q + 3) 0⟩
      = pack0 (R (4 * q + 2)) := by
    rw [rnds2_pack, h1, h0, ← rndsOne_eq, ← rndsOne_eq]
  refine ⟨by rw [hb, ha], ?_⟩
  have hc : pack0 (R (4 * q)) = pack1 (R (4 * q + 2)) := by
    rw [h1, h0, ← rndsOne_eq, ← rndsOne_eq]
    exact (pack1_two _ _ _).symm
  rw [hc, ha, rnds2_pack, h3, h2, ← rndsOne_eq, ← rndsOne_eq]

/-- Register of group `q`. -/
def tr (q : Nat) : Reg := match q % 4 with | 0 => T0 | 1 => T1 | 2 => T2 | _ => T3

/-- Where the recursive version has the first sixteen words. -/
def src (q : Nat) : Reg := match q with | 0 => H0 | 1 => H1 | 2 => P0 | _ => P1

/-- The variables before group `g`. -/
structure Inv (W : Nat → BitVec 32) (R : Nat → Regs 32) (g : Nat) (f : File) : Prop where
  s0 : f S0 = pack0 (R (4 * g))
  s1 : f S1 = pack1 (R (4 * g))
  cur : 4 ≤ g → g ≤ 15 → f (tr g) = full W g
  prev : 1 ≤ g → g ≤ 15 → f (tr (g + 3)) = full W (g - 1)
  next : 3 ≤ g → g ≤ 14 → f (tr (g + 1)) = pre W (g - 3)
  next2 : 2 ≤ g → g ≤ 13 → f (tr (g + 2)) = pre W (g - 2)

/-- The first sixteen words are in their registers. -/
def LowNi (W : Nat → BitVec 32) (g : Nat) (f : File) : Prop :=
  ∀ q, g ≤ q → q < 4 → f (tr q) = full W q

def LowRec (W : Nat → BitVec 32) (f : File) : Prop := ∀ q, q < 4 → f (src q) = full W q

/-- Symbolic execution of a group: unfold the statements and look up the registers. -/
macro "exec_group" : tactic => `(tactic| simp only [niGroups, recGroups, List.getD_cons_succ,
  List.getD_cons_zero, run, List.foldl_cons, List.foldl_nil, Op.exec, File.set, tr, src,
  Nat.reduceMod, Nat.reduceAdd, reduceCtorEq, if_true, if_false])

theorem step_ni (W : Nat → BitVec 32) (R : Nat → Regs 32) (hW : Sched W) (hR : Rounds W R)
    (g : Nat) (hg : g < 16) (f : File) (h : Inv W R g f) (hl : LowNi W g f) :
    Inv W R (g + 1) (run sha256Alg.K f (niGroups.getD g []))
      ∧ LowNi W (g + 1) (run sha256Alg.K f (niGroups.getD g [])) := by
  obtain ⟨a1, a2⟩ := rounds4 W R hR g hg
  obtain ⟨h0, h1, h2, h3, h4, h5⟩ := h
  have l0 := fun h => hl 0 h (by omega)
  have l1 := fun h => hl 1 h (by omega)
  have l2 := fun h => hl 2 h (by omega)
  have l3 := fun h => hl 3 h (by omega)
  have b1 := msg1_full W (g - 1)
  have b2 := msg2_full W hW (g - 3)
  clear hl hR hW
  interval_cases g
  all_goals
    simp only [tr, Nat.reduceMod, Nat.reduceMul, Nat.reduceAdd, Nat.reduceSub, Nat.reduceLeDiff,
      true_imp_iff, false_imp_iff] at *
  all_goals refine ⟨⟨?_, ?_, fun h h' => ?_, fun h h' => ?_, fun h h' => ?_, fun h h' => ?_⟩,
    fun q h h' => ?_⟩
  all_goals first
    | omega
    | (exec_group; simp only [*]; done)
    | (have hq : q = 1 ∨ q = 2 ∨ q = 3 := by omega
       rcases hq with rfl | rfl | rfl <;> first | omega | (exec_group; simp only [*]))

theorem step_rec (W : Nat → BitVec 32) (R : Nat → Regs 32) (hW : Sched W) (hR : Rounds W R)
    (g : Nat) (hg : g < 16) (f : File) (h : Inv W R g f) (hl : LowRec W f) :
    Inv W R (g + 1) (run sha256Alg.K f (recGroups.getD g []))
      ∧ LowRec W (run sha256Alg.K f (recGroups.getD g [])) := by
  obtain ⟨a1, a2⟩ := rounds4 W R hR g hg
  obtain ⟨h0, h1, h2, h3, h4, h5⟩ := h
  have l0 := hl 0 (by omega)
  have l1 := hl 1 (by omega)
  have l2 := hl 2 (by omega)
  have l3 := hl 3 (by omega)
  have b1 := msg1_full W (g - 1)
  have b2 := msg2_full W hW (g - 3)
  clear hl hR hW
  interval_cases g
  all_goals
    simp only [tr, src, Nat.reduceMod, Nat.reduceMul, Nat.reduceAdd, Nat.reduceSub, Nat.reduceLeDiff,
      true_imp_iff, false_imp_iff] at *
  all_goals refine ⟨⟨?_, ?_, fun h h' => ?_, fun h h' => ?_, fun h h' => ?_, fun h h' => ?_⟩,
    fun q h => ?_⟩
  all_goals first
    | omega
    | (exec_group; simp only [*]; done)
    | (have hq : q = 0 ∨ q = 1 ∨ q = 2 ∨ q = 3 := by omega
       rcases hq with rfl | rfl | rfl | rfl <;> (exec_group; simp only [*]))

theorem run_append (K : List (BitVec 32)) (f : File) (a b : List Op) :
    run K f (a ++ b) = run K (run K f a) b := List.foldl_append

theorem take_succ_flatten {β : Type} (l : List (List β)) (n : Nat) (h : n < l.length) :
    (l.take (n + 1)).flatten = (l.take n).flatten ++ l.getD n [] := by
  rw [List.take_add_one, List.getElem?_eq_getElem h, Option.toList_some, List.flatten_append,
    List.flatten_singleton, List.getD_eq_getElem?_getD, List.getElem?_eq_getElem h, Option.getD_some]

theorem run_ni (W : Nat → BitVec 32) (R : Nat → Regs 32) (hW : Sched W) (hR : Rounds W R)
    (f : File) (h : Inv W R 0 f) (hl : LowNi W 0 f) (n : Nat) (hn : n ≤ 16) :
    Inv W R n (run sha256Alg.K f (niGroups.take n).flatten)
      ∧ LowNi W n (run sha256Alg.K f (niGroups.take n).flatten) := by
  induction n with
  | zero => exact ⟨h, hl⟩
  | succ n ih =>
    obtain ⟨i1, i2⟩ := ih (by omega)
    have := step_ni W R hW hR n (by omega) _ i1 i2
    rwa [← run_append, ← take_succ_flatten _ _ (by show n < 16; omega)] at this

theorem run_rec (W : Nat → BitVec 32) (R : Nat → Regs 32) (hW : Sched W) (hR : Rounds W R)
    (f : File) (h : Inv W R 0 f) (hl : LowRec W f) (n : Nat) (hn : n ≤ 16) :
    Inv W R n (run sha256Alg.K f (recGroups.take n).flatten)
      ∧ LowRec W (run sha256Alg.K f (recGroups.take n).flatten) := by
  induction n with
  | zero => exact ⟨h, hl⟩
  | succ n ih =>
    obtain ⟨i1, i2⟩ := ih (by omega)
    have := step_rec W R hW hR n (by omega) _ i1 i2
    rwa [← run_append, ← take_succ_flatten _ _ (by show n < 16; omega)] at this

/-! ### Against the standard -/

theorem klen : sha256Alg.K.length = 64 := rfl
theorem block256 : sha256Alg.block = 64 := rfl
theorem kni : Kni = sha256Alg.K := by decide
theorem krec : Krec = sha256Alg.K := by decide
theorem krec2 : Krec2 = sha256Alg.K := by decide

/-- The schedule of a block. -/
def words (b : List Byte) (t : Nat) : BitVec 32 :=
  (schedule sha256Alg (blockWords sha256Alg b) 48).getD t 0

theorem words_sched (b : List Byte) : Sched (words b) := by
  intro t ht
  have := schedule_step sha256Alg (blockWords sha256Alg b) (blockWords_length _ _) (m := 48)
    (t := t + 16) (by omega) (by omega)
  rwa [show t + 16 - 2 = t + 14 by omega, show t + 16 - 7 = t + 9 by omega,
    show t + 16 - 15 = t + 1 by omega, show t + 16 - 16 = t by omega] at this

theorem words_rounds (b : List Byte) (s : Regs 32) :
    Rounds (words b) (specRounds sha256Alg s b) := by
  intro n _
  have := specRounds_succ sha256Alg s b n
  rwa [klen] at this

theorem words_low (b : List Byte) (t : Nat) (ht : t < 16) :
    words b t = ofBE 32 ((b.drop (4 * t)).take 4) := by
  unfold words
  rw [schedule_low _ _ (blockWords_length _ _) ht]
  unfold blockWords
  rw [List.getD_eq_getElem?_getD, List.getElem?_map, List.getElem?_range ht, Option.map_some,
    Option.getD_some]
  rfl

theorem compress_eq (s : Regs 32) (b : List Byte) :
    compress sha256Alg s b = s.add (specRounds sha256Alg s b 64) := by
  rw [compress_rounds _ (by rw [klen]; decide), klen]

/-! ### Bytes -/

theorem mask_bytes : mask.bytes
    = [3#8, 2#8, 1#8, 0#8, 7#8, 6#8, 5#8, 4#8, 11#8, 10#8, 9#8, 8#8, 15#8, 14#8, 13#8, 12#8] := by
  decide

theorem toLE4 (x : BitVec 32) : toLE 4 x = [(x >>> 0).setWidth 8, (x >>> 8).setWidth 8,
    (x >>> 16).setWidth 8, (x >>> 24).setWidth 8] := rfl

theorem ofLE_rev (x : BitVec 32) : ofLE 32 (toLE 4 x).reverse = bswap32 x := by
  rw [← ofBE_eq_ofLE, ← bswap32_le _ (toLE_length _ _), ofLE_toLE 4 rfl]

theorem load_four (a b c d : List Byte) (ha : a.length = 4) (hb : b.length = 4) (hc : c.length = 4)
    (hd : d.length = 4) : V4.load (a ++ b ++ c ++ d) = ⟨ofLE 32 a, ofLE 32 b, ofLE 32 c, ofLE 32 d⟩ := by
  match a, ha, b, hb, c, hc, d, hd with
  | [_, _, _, _], _, [_, _, _, _], _, [_, _, _, _], _, [_, _, _, _], _ => rfl

theorem shuf8_mask (v : V4) :
    shuf8 v mask = ⟨bswap32 v.x0, bswap32 v.x1, bswap32 v.x2, bswap32 v.x3⟩ := by
  have h : (mask.bytes.map fun m => if m.msb then 0 else v.bytes.getD (m.toNat % 16) 0)
      = (toLE 4 v.x0).reverse ++ (toLE 4 v.x1).reverse ++ (toLE 4 v.x2).reverse
        ++ (toLE 4 v.x3).reverse := by
    rw [mask_bytes]
    unfold V4.bytes
    rw [toLE4, toLE4, toLE4, toLE4]
    rfl
  unfold shuf8
  rw [h, load_four _ _ _ _ (by rw [List.length_reverse, toLE_length])
    (by rw [List.length_reverse, toLE_length]) (by rw [List.length_reverse, toLE_length])
    (by rw [List.length_reverse, toLE_length]), ofLE_rev, ofLE_rev, ofLE_rev, ofLE_rev]

/-- Sixteen bytes, loaded and shuffled: four words in big endian. -/
theorem load_be (l : List Byte) (h : 16 ≤ l.length) : shuf8 (V4.load l) mask
    = ⟨ofBE 32 (l.take 4), ofBE 32 ((l.drop 4).take 4), ofBE 32 ((l.drop 8).take 4),
       ofBE 32 ((l.drop 12).take 4)⟩ := by
  rw [shuf8_mask]
  unfold V4.load
  dsimp only
  rw [bswap32_le _ (by rw [List.length_take]; omega),
    bswap32_le _ (by rw [List.length_take, List.length_drop]; omega),
    bswap32_le _ (by rw [List.length_take, List.length_drop]; omega),
    bswap32_le _ (by rw [List.length_take, List.length_drop]; omega)]

theorem store_be (v : V4) : (shuf8 v mask).bytes
    = toBE 4 v.x0 ++ toBE 4 v.x1 ++ toBE 4 v.x2 ++ toBE 4 v.x3 := by
  rw [shuf8_mask]
  unfold V4.bytes
  dsimp only
  rw [toLE_bswap32, toLE_bswap32, toLE_bswap32, toLE_bswap32]

/-- A quarter of a block in a register. -/
theorem load_full (b : List Byte) (hb : 64 ≤ b.length) (q : Nat) (hq : q < 4) :
    shuf8 (V4.load (b.drop (16 * q))) mask = full (words b) q := by
  rw [load_be _ (by rw [List.length_drop]; omega)]
  unfold full
  rw [words_low _ _ (by omega), words_low _ _ (by omega), words_low _ _ (by omega),
    words_low _ _ (by omega), List.drop_drop, List.drop_drop, List.drop_drop]
  rw [show 4 * (4 * q) = 16 * q by omega, show 4 * (4 * q + 1) = 16 * q + 4 by omega,
    show 4 * (4 * q + 2) = 16 * q + 8 by omega, show 4 * (4 * q + 3) = 16 * q + 12 by omega]

/-! ### `compress_digest` -/

theorem pack0_add (s t : Regs 32) : (pack0 t).add (pack0 s) = pack0 (s.add t) := by
  unfold pack0 V4.add Regs.add
  dsimp only
  rw [BitVec.add_comm t.f, BitVec.add_comm t.e, BitVec.add_comm t.b, BitVec.add_comm t.a]

theorem pack1_add (s t : Regs 32) : (pack1 t).add (pack1 s) = pack1 (s.add t) := by
  unfold pack1 V4.add Regs.add
  dsimp only
  rw [BitVec.add_comm t.h, BitVec.add_comm t.g, BitVec.add_comm t.d, BitVec.add_comm t.c]

theorem words_take (b : List Byte) (t : Nat) : words (b.take 64) t = words b t := by
  have h : blockWords sha256Alg (b.take 64) = blockWords sha256Alg b := by
    unfold blockWords
    refine List.map_congr_left fun i hi => ?_
    have hi : i < 16 := List.mem_range.1 hi
    rw [show sha256Alg.bytes = 4 from rfl, List.drop_take, List.take_take,
      show min 4 (64 - 4 * i) = 4 by omega]
  unfold words
  rw [h]

theorem block_eq (junk : File) (s : Regs 32) (b : List Byte) (hb : 64 ≤ b.length) :
    block junk (pack0 s, pack1 s) b
      = (pack0 (compress sha256Alg s (b.take 64)), pack1 (compress sha256Alg s (b.take 64))) := by
  have hl : 64 ≤ (b.take 64).length := by rw [List.length_take]; omega
  have hq : ∀ q, q < 4 → shuf8 (V4.load (b.drop (16 * q))) mask = full (words (b.take 64)) q := by
    intro q hq
    rw [load_full b hb q hq]
    unfold full
    rw [words_take, words_take, words_take, words_take]
  have q0 := hq 0 (by omega)
  have q1 := hq 1 (by omega)
  have q2 := hq 2 (by omega)
  have q3 := hq 3 (by omega)
  rw [Nat.mul_zero, List.drop_zero] at q0
  have hi : Inv (words (b.take 64)) (specRounds sha256Alg s (b.take 64)) 0
      (loadBlock junk (pack0 s, pack1 s) b) :=
    ⟨rfl, rfl, fun h => by omega, fun h => by omega, fun h => by omega, fun h => by omega⟩
  have hlow : LowNi (words (b.take 64)) 0 (loadBlock junk (pack0 s, pack1 s) b) := by
    intro q _ h
    have hq : q = 0 ∨ q = 1 ∨ q = 2 ∨ q = 3 := by omega
    rcases hq with rfl | rfl | rfl | rfl
    · exact q0
    · exact q1
    · exact q2
    · exact q3
  have h16 := (run_ni _ _ (words_sched _) (words_rounds _ s) _ hi hlow 16 (Nat.le_refl _)).1
  rw [List.take_of_length_le (l := niGroups) (by decide)] at h16
  unfold block
  dsimp only
  rw [kni, h16.s0, h16.s1, compress_eq, show 4 * 16 = 64 from rfl, pack0_add, pack1_add]

theorem blocks_eq (junk : File) (n : Nat) (s : Regs 32) (b : List Byte) (hb : 64 * n ≤ b.length) :
    blocks junk n (pack0 s, pack1 s) b
      = (pack0 (overBlocks sha256Alg n s b), pack1 (overBlocks sha256Alg n s b)) := by
  induction n generalizing s b with
  | zero => rfl
  | succ n ih =>
    unfold blocks overBlocks
    rw [block_eq junk s b (by omega), block256]
    exact ih _ _ (by rw [List.length_drop]; omega)

theorem loadState_eq (s : Regs 32) : loadState s = (pack0 s, pack1 s) := rfl

theorem reorder_eq (s : Regs 32) :
    reorder (pack0 s, pack1 s) = (⟨s.a, s.b, s.c, s.d⟩, ⟨s.e, s.f, s.g, s.h⟩) := rfl

theorem compressDigest_eq (junk : File) (s : Regs 32) (b : List Byte) (n : Nat)
    (hb : 64 * n ≤ b.length) : compressDigest junk s b n = overBlocks sha256Alg n s b := by
  unfold compressDigest
  rw [loadState_eq, blocks_eq junk n s b hb, reorder_eq]
  rfl

/-! ### `sha256_ni` -/

theorem init_eq : initState = sha256Alg.init := rfl

theorem padded256 (m : List Byte) : padded sha256Alg m
    = m ++ 0x80#8 :: (List.replicate (padZeros 64 8 m.length) 0#8
      ++ toBE 8 (BitVec.ofNat 64 (8 * m.length))) := rfl

theorem pad_count (n : Nat) : padZeros 64 8 n = finalBlocks n * 64 - 9 - n % 64
    ∧ n % 64 + 9 ≤ finalBlocks n * 64 ∧ finalBlocks n * 64 ≤ 128 := by
  unfold padZeros finalBlocks
  omega

theorem fillBuf_at {β : List Byte} (a d b x : List Byte) (hb : β = a ++ b) (n : Nat)
    (ha : a.length = n) (hx : b.drop d.length = x) : fillBuf β n d = a ++ d ++ x := by
  unfold fillBuf
  subst hb
  subst ha
  rw [List.take_left, List.drop_append, List.drop_of_length_le (l := a) (by omega), List.nil_append,
    show a.length + d.length - a.length = d.length by omega, hx]

theorem last_eq (m : List Byte) : lastBlocks m
    = (m.drop (m.length / 64 * 64) ++ 0x80#8 :: (List.replicate (padZeros 64 8 m.length) 0#8
        ++ toBE 8 (BitVec.ofNat 64 (8 * m.length))))
      ++ List.replicate (128 - finalBlocks m.length * 64) 0#8 := by
  obtain ⟨p1, p2, p3⟩ := pad_count m.length
  have hr : (m.drop (m.length / 64 * 64)).length = m.length % 64 := by
    rw [List.length_drop]; omega
  have hbits : toLE 8 (bswap64 (BitVec.ofNat 64 m.length * 8))
      = toBE 8 (BitVec.ofNat 64 (8 * m.length)) := by
    rw [toLE_bswap64, Nat.mul_comm 8, BitVec.ofNat_mul]
    rfl
  unfold lastBlocks
  dsimp only
  rw [hbits]
  generalize m.drop (m.length / 64 * 64) = t at *
  generalize hR : m.length % 64 = r at *
  generalize hF : finalBlocks m.length = F at *
  rw [p1]
  rw [fillBuf_at (β := List.replicate 128 0#8) [] t (List.replicate 128 0#8) (List.replicate (128 - r) 0#8) rfl 0 rfl
    (by rw [List.drop_replicate, hr])]
  rw [fillBuf_at t (List.replicate (128 - r) 0#8) (List.replicate (128 - r) 0#8) [] (by simp) r hr
    (by simp)]
  rw [fillBuf_at t [0x80#8] (List.replicate (128 - r) 0#8) (List.replicate (127 - r) 0#8) (by simp) r hr
    (by rw [List.drop_replicate, List.length_singleton]; congr 1; omega)]
  rw [fillBuf_at (t ++ 0x80#8 :: List.replicate (F * 64 - 9 - r) 0#8) _
    (List.replicate (136 - F * 64) 0#8) (List.replicate (128 - F * 64) 0#8)
    ?_ (F * 64 - 8) (by rw [List.length_append, List.length_cons, List.length_replicate]; omega)
    (by rw [List.drop_replicate, toBE_length]; congr 1; omega)]
  · simp only [List.append_assoc, List.cons_append]
  · rw [List.append_assoc, List.append_assoc, List.cons_append, List.nil_append,
      List.cons_append, List.replicate_append_replicate, show F * 64 - 9 - r + (136 - F * 64) = 127 - r by omega]

theorem padded_len (m : List Byte) :
    (padded sha256Alg m).length = 64 * (m.length / 64 + finalBlocks m.length) := by
  obtain ⟨p1, p2, p3⟩ := pad_count m.length
  rw [padded256, List.length_append, List.length_cons, List.length_append, List.length_replicate,
    toBE_length, p1]
  omega

theorem digest_eq (s : Regs 32) :
    toLE 4 (bswap32 s.a) ++ toLE 4 (bswap32 s.b) ++ toLE 4 (bswap32 s.c) ++ toLE 4 (bswap32 s.d)
      ++ toLE 4 (bswap32 s.e) ++ toLE 4 (bswap32 s.f) ++ toLE 4 (bswap32 s.g)
      ++ toLE 4 (bswap32 s.h) = s.digest 4 := by
  simp only [toLE_bswap32]
  rfl

/-- The hash as blocks of the message, then the last ones. -/
theorem sha256_blocks (m : List Byte) : sha256 m
    = (overBlocks sha256Alg (finalBlocks m.length)
        (overBlocks sha256Alg (m.length / 64) sha256Alg.init m)
        (m.drop (m.length / 64 * 64) ++ 0x80#8 :: (List.replicate (padZeros 64 8 m.length) 0#8
        ++ toBE 8 (BitVec.ofNat 64 (8 * m.length))))).digest 4 := by
  unfold sha256 hash
  rw [padded_len, block256, Nat.mul_div_cancel_left _ (by omega : 0 < 64), overBlocks_add, block256,
    padded256, overBlocks_append_left _ _ _ _ _ (by rw [block256]; omega),
    List.drop_append_of_le_length (by omega), Nat.mul_comm 64]
  rfl

theorem sha256Ni_eq (junk : File) (m : List Byte) : sha256Ni junk m = sha256 m := by
  obtain ⟨p1, p2, p3⟩ := pad_count m.length
  have hs : (if m.length / 64 ≠ 0 then compressDigest junk initState m (m.length / 64)
      else initState) = overBlocks sha256Alg (m.length / 64) sha256Alg.init m := by
    by_cases h : m.length / 64 = 0
    · rw [if_neg (by omega), h]
      exact init_eq
    · rw [if_pos h, compressDigest_eq _ _ _ _ (by omega), init_eq]
  unfold sha256Ni
  dsimp only
  rw [digest_eq, hs, compressDigest_eq _ _ _ _ (by
    rw [last_eq, List.length_append, List.length_append, List.length_cons, List.length_append,
      List.length_replicate, List.length_replicate, toBE_length, List.length_drop]; omega),
    last_eq, overBlocks_append_left _ _ _ _ _ (by
      rw [block256, List.length_append, List.length_cons, List.length_append, List.length_replicate,
        toBE_length, List.length_drop]; omega), sha256_blocks]

/-! ### The recursive version -/

theorem be_of_toBE (x : BitVec 32) : ofBE 32 (toBE 4 x) = x := by
  rw [← toLE_bswap32, ← bswap32_le _ (toLE_length _ _), ofLE_toLE 4 rfl, bswap32_bswap32]

theorem load_be_four (a b c d : BitVec 32) (r : List Byte) :
    shuf8 (V4.load (toBE 4 a ++ toBE 4 b ++ toBE 4 c ++ toBE 4 d ++ r)) mask = ⟨a, b, c, d⟩ := by
  have h : V4.load (toBE 4 a ++ toBE 4 b ++ toBE 4 c ++ toBE 4 d ++ r)
      = ⟨ofLE 32 (toBE 4 a), ofLE 32 (toBE 4 b), ofLE 32 (toBE 4 c), ofLE 32 (toBE 4 d)⟩ := rfl
  rw [h, shuf8_mask]
  dsimp only
  rw [bswap32_le _ (toBE_length _ _), bswap32_le _ (toBE_length _ _), bswap32_le _ (toBE_length _ _),
    bswap32_le _ (toBE_length _ _), be_of_toBE, be_of_toBE, be_of_toBE, be_of_toBE]

theorem loadHash_digest (s : Regs 32) :
    loadHash (s.digest 4) = (⟨s.a, s.b, s.c, s.d⟩, ⟨s.e, s.f, s.g, s.h⟩) := by
  have h : s.digest 4 = toBE 4 s.a ++ toBE 4 s.b ++ toBE 4 s.c ++ toBE 4 s.d
      ++ (toBE 4 s.e ++ toBE 4 s.f ++ toBE 4 s.g ++ toBE 4 s.h ++ []) := by
    unfold Regs.digest
    simp only [List.append_assoc, List.append_nil]
  have h2 : (s.digest 4).drop 16 = toBE 4 s.e ++ toBE 4 s.f ++ toBE 4 s.g ++ toBE 4 s.h ++ [] := by
    rw [h, List.drop_left' (by simp only [List.length_append, toBE_length])]
  unfold loadHash
  rw [h2, h, load_be_four, load_be_four]

theorem storeHash_eq (s : Regs 32) :
    storeHash (⟨s.a, s.b, s.c, s.d⟩, ⟨s.e, s.f, s.g, s.h⟩) = s.digest 4 := by
  unfold storeHash
  rw [store_be, store_be]
  unfold Regs.digest
  simp only [List.append_assoc]

/-- The block of a message of 32 bytes. -/
def block32 (m : List Byte) : List Byte :=
  m ++ 0x80#8 :: (List.replicate 23 0#8 ++ toBE 8 (256#64))

theorem padded32 (m : List Byte) (h : m.length = 32) : padded sha256Alg m = block32 m := by
  rw [padded256, h]
  rfl

theorem sha256_32 (m : List Byte) (h : m.length = 32) :
    sha256 m = (compress sha256Alg sha256Alg.init (block32 m)).digest 4 := by
  unfold sha256 hash
  have hl : (block32 m).length = 64 := by
    unfold block32
    rw [List.length_append, List.length_cons, List.length_append, List.length_replicate, toBE_length, h]
  rw [padded32 m h, hl, block256, show 64 / 64 = 0 + 1 from rfl, overBlocks, overBlocks, block256,
    List.take_of_length_le (l := block32 m) (by omega)]
  rfl

theorem block32_low (m : List Byte) (h : m.length = 32) (q : Nat) (hq : q < 4) :
    ∀ x, (q = 0 → x = (loadHash m).1) → (q = 1 → x = (loadHash m).2) → (q = 2 → x = hpad0)
      → (q = 3 → x = hpad1) → x = full (words (block32 m)) q := by
  intro x x0 x1 x2 x3
  have hl : (block32 m).length = 64 := by
    unfold block32
    rw [List.length_append, List.length_cons, List.length_append, List.length_replicate, toBE_length, h]
  rw [← load_full (block32 m) (by omega) q hq]
  have hx : ∀ l r : List Byte, 16 ≤ l.length → V4.load (l ++ r) = V4.load l := by
    intro l r hlr
    unfold V4.load
    rw [List.take_append_of_le_length (by omega), List.drop_append_of_le_length (by omega),
      List.take_append_of_le_length (by rw [List.length_drop]; omega),
      List.drop_append_of_le_length (by omega),
      List.take_append_of_le_length (by rw [List.length_drop]; omega),
      List.drop_append_of_le_length (by omega),
      List.take_append_of_le_length (by rw [List.length_drop]; omega)]
  have hd : ∀ k, (block32 m).drop (32 + k)
      = (0x80#8 :: (List.replicate 23 0#8 ++ toBE 8 (256#64))).drop k := by
    intro k
    unfold block32
    rw [List.drop_append, List.drop_of_length_le (l := m) (by omega), List.nil_append,
      show 32 + k - m.length = k by omega]
  have hc : q = 0 ∨ q = 1 ∨ q = 2 ∨ q = 3 := by omega
  rcases hc with rfl | rfl | rfl | rfl
  · rw [x0 rfl, Nat.mul_zero, List.drop_zero]
    unfold block32 loadHash
    rw [hx _ _ (by omega)]
  · rw [x1 rfl]
    unfold block32 loadHash
    rw [List.drop_append_of_le_length (by omega), hx _ _ (by rw [List.length_drop]; omega)]
  · rw [x2 rfl, show 16 * 2 = 32 + 0 from rfl, hd 0]
    decide +kernel
  · rw [x3 rfl, show 16 * 3 = 32 + 16 from rfl, hd 16]
    decide +kernel

theorem abef_init : abefInit = pack0 sha256Alg.init := by decide
theorem cdgh_init : cdghInit = pack1 sha256Alg.init := by decide

theorem start_inv (junk : File) (m : List Byte) (h : m.length = 32) :
    Inv (words (block32 m)) (specRounds sha256Alg sha256Alg.init (block32 m)) 0
      (startIter junk (loadHash m))
    ∧ LowRec (words (block32 m)) (startIter junk (loadHash m)) := by
  refine ⟨⟨abef_init, cdgh_init, fun h => by omega, fun h => by omega, fun h => by omega,
    fun h => by omega⟩, ?_⟩
  intro q hq
  refine block32_low m h q hq _ ?_ ?_ ?_ ?_ <;> (intro hq; subst hq; rfl)

/-- The state that one iteration leaves. -/
theorem rec_state (junk : File) (m : List Byte) (h : m.length = 32) :
    endIter (run sha256Alg.K (startIter junk (loadHash m)) recGroups.flatten)
      = loadHash (sha256 m) := by
  obtain ⟨i1, i2⟩ := start_inv junk m h
  have h16 := (run_rec _ _ (words_sched _) (words_rounds _ sha256Alg.init) _ i1 i2 16
    (Nat.le_refl _)).1
  rw [List.take_of_length_le (l := recGroups) (by decide)] at h16
  unfold endIter
  rw [h16.s0, h16.s1, sha256_32 m h, loadHash_digest, ← reorder_eq, compress_eq, abef_init, cdgh_init,
    show 4 * 16 = 64 from rfl, pack0_add, pack1_add]

theorem sha256_length (m : List Byte) : (sha256 m).length = 32 := by
  unfold sha256 hash
  rw [digest_length]
  rfl

theorem iter_eq (junk : File) (m : List Byte) (h : m.length = 32) :
    iter junk (loadHash m) = loadHash (sha256 m) := by
  unfold iter
  rw [krec]
  exact rec_state junk m h

theorem times_length (n : Nat) (m : List Byte) (h : m.length = 32) :
    (times sha256 n m).length = 32 := by
  induction n generalizing m with
  | zero => exact h
  | succ n ih => exact ih _ (sha256_length m)

theorem times_iter (junk : File) (n : Nat) (m : List Byte) (h : m.length = 32) :
    times (iter junk) n (loadHash m) = loadHash (times sha256 n m) := by
  induction n generalizing m with
  | zero => rfl
  | succ n ih =>
    unfold times
    rw [iter_eq junk m h]
    exact ih _ (sha256_length m)

/-- After at least one iteration. -/
theorem store_times (n : Nat) (m : List Byte) (h : m.length = 32) (hn : n ≠ 0) :
    storeHash (loadHash (times sha256 n m)) = times sha256 n m := by
  obtain ⟨k, rfl⟩ : ∃ k, n = k + 1 := ⟨n - 1, by omega⟩
  have hs : ∀ k (m : List Byte), m.length = 32 → ∃ s : Regs 32, times sha256 (k + 1) m = s.digest 4 := by
    intro k
    induction k with
    | zero => exact fun m hm => ⟨_, sha256_32 m hm⟩
    | succ k ih => exact fun m hm => ih (sha256 m) (sha256_length m)
  obtain ⟨s, hs⟩ := hs k m h
  rw [hs, loadHash_digest, storeHash_eq]

/-! ### Two at once -/

theorem run2_lane (K : List (BitVec 32)) (l : List (Bool × Op)) (f : Bool → File) (p : Bool) :
    run2 K f l p = run K (f p) ((l.filter (fun o => o.1 == p)).map (·.2)) := by
  induction l generalizing f with
  | nil => rfl
  | cons o l ih =>
    show run2 K (exec2 K f o) l p = _
    rw [ih]
    by_cases h : p = o.1
    · subst h
      rw [List.filter_cons_of_pos (by simp), List.map_cons]
      show run K _ _ = run K (Op.exec K (f o.1) o.2) _
      congr 1
      exact if_pos rfl
    · rw [List.filter_cons_of_neg (by simp; exact fun h' => h h'.symm)]
      congr 1
      exact if_neg h

theorem lanes (p : Bool) : (rec2Groups.flatten.filter (fun o => o.1 == p)).map (·.2)
    = recGroups.flatten := by
  cases p <;> decide

theorem iter2_eq (junk : Bool → File) (m : Bool → List Byte) (h : ∀ p, (m p).length = 32) :
    iter2 junk (fun p => loadHash (m p)) = fun p => loadHash (sha256 (m p)) := by
  funext p
  unfold iter2
  dsimp only
  rw [run2_lane, lanes, krec2]
  exact rec_state (junk p) (m p) (h p)

theorem times_iter2 (junk : Bool → File) (n : Nat) (m : Bool → List Byte)
    (h : ∀ p, (m p).length = 32) :
    times (iter2 junk) n (fun p => loadHash (m p)) = fun p => loadHash (times sha256 n (m p)) := by
  induction n generalizing m with
  | zero => rfl
  | succ n ih =>
    unfold times
    rw [iter2_eq junk m h]
    exact ih _ (fun p => sha256_length (m p))

end Verif.Hash.Ni
