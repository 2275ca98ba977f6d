/-
  How a plot is searched for the entries in the range of a challenge (src/pos/Prover.cpp).
-/
import Verif.Base

namespace Verif.Farm

/-- The table of Y values in a plot file: `ksize`, `park_size_y` and `num_entries_y` of the header
    (interface/PlotHeader.vni), and what is read for a park: the first value (Prover.cpp:64-72) and the decoded
    differences (Prover.cpp:88-93); `none` if reading or decoding throws.  The codec of the differences
    is the subject of C36. -/
structure YTable where
  ksize : Nat
  size : Nat
  num : Nat
  head : Nat → Option Nat
  deltas : Nat → Option (List Nat)

/-- `num_parks_y`, Prover.cpp:47 with `cdiv` of include/mmx/pos/util.h:43-46.  A park size of 0 is a division
    by zero; as an `int32_t` it is assumed to be in range. -/
def YTable.parks (t : YTable) : Nat := (t.num + t.size - 1) / t.size

/-- `-initial_y_shift`, include/mmx/pos/Prover.h:32. -/
@[irreducible] def yShift : Nat := 24576

/-- The park to start with, Prover.cpp:49-52. -/
def YTable.guess (t : YTable) (yb : Nat) : Nat :=
  min (u64 ((yb - yShift) / 2 * t.num) / 2 ^ (t.ksize - 1) / t.size) (t.parks - 1)

/-- `Y_list`, Prover.cpp:95-101. -/
def yList (y : Nat) : List Nat → List Nat
  | [] => [y]
  | d :: ds => y :: yList (u32 (y + d)) ds

/-- The entries of a park in the range, and whether its end was passed, Prover.cpp:102-119; `i` is the
    index of the next entry. -/
def pick (yb ye num : Nat) : Nat → List Nat → List Nat × Bool
  | _, [] => ([], false)
  | i, y :: l =>
    if ye ≤ y then ([], true)
    else
      let r := pick yb ye num (i + 1) l
      (if yb ≤ y ∧ i < num then i :: r.1 else r.1, r.2)

/-- The park to go back to, Prover.cpp:83.  The difference is one of unsigned numbers; converted to
    `int32_t` it is negative if it is below zero. -/
def YTable.back (t : YTable) (yb y p : Nat) : Nat := p - u32 (y - yb + t.size - 1) / t.size - 1

/-- The loop over the parks, Prover.cpp:56-124; the first argument is how many parks may still be read. -/
def YTable.search (t : YTable) (yb ye : Nat) : Nat → Bool → Nat → Res (List Nat)
  | 0, _, p => if t.parks ≤ p then .ok [] else .throw
  | n + 1, hb, p =>
    if t.parks ≤ p then .ok []
    else
      match t.head p with
      | none => .throw
      | some y =>
        if ye ≤ y then
          if hb = true ∨ p = 0 then .ok []
          else t.search yb ye n hb (t.back yb y p)
        else
          match t.deltas p with
          | none => .throw
          | some ds =>
            let r := pick yb ye t.num (p * t.size) (yList y ds)
            if r.2 then .ok r.1
            else
              match t.search yb ye n true (p + 1) with
              | .ok l => .ok (r.1 ++ l)
              | .throw => .throw
              | .ub => .ub

/-- `final_entries` of `Prover::get_qualities`, Prover.cpp:36-125, for a challenge that gives `yb = Y_begin`. -/
def YTable.entries (t : YTable) (yb plotFilter : Nat) : Res (List Nat) :=
  t.search yb (yb + 2 ^ plotFilter) 101 false (t.guess yb)

/-! ### What the table holds -/

/-- The file holds the values `y 0, y 1, ...` in ascending order; after the last one a park may hold
    anything. -/
structure YTable.Holds (t : YTable) (y : Nat → Nat) : Prop where
  size : 0 < t.size
  head : ∀ p, p * t.size < t.num → t.head p = some (y (p * t.size))
  deltas : ∀ p, p * t.size < t.num → ∃ ds, t.deltas p = some ds ∧ ds.length = t.size - 1 ∧
    ∀ i, i < t.size → p * t.size + i < t.num → (yList (y (p * t.size)) ds)[i]? = some (y (p * t.size + i))
  sorted : ∀ i j, i ≤ j → j < t.num → y i ≤ y j

/-- The entries a challenge asks for. -/
def Wanted (t : YTable) (y : Nat → Nat) (yb plotFilter i : Nat) : Prop :=
  i < t.num ∧ yb ≤ y i ∧ y i < yb + 2 ^ plotFilter

end Verif.Farm
