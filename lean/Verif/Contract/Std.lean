import Verif.VM.Var
/-
  The standard library of contracts, src/vm/std/{equals,compare,sort,reverse}.js (`import {...} from "std"`,
  src/vm/Compiler.cpp:660-680; embedded as text in src/vm/std/embedded.h).
  Simplified: gas and the depth of calls are left out.  An array is its list of elements: that two variables can
  refer to the same array is not kept, so `L == R` of two arrays (equal addresses) counts as false here; where it
  is true the loop that follows finds the arrays equal as well.  Maps are left out.
-/
namespace Verif.Contract.Std

open Verif.VM (Val)
open Res

/-- A value: null, boolean, number, string, binary, or an array of values. -/
inductive V where
  | leaf (v : Val)
  | arr (l : List V)

/-- The values that are neither references, arrays nor maps. -/
def Plain : Val → Prop
  | .ref _ | .arr _ _ | .map _ => False
  | _ => True

/-- The operator `<`: aborts if the types differ (src/vm/Engine.cpp:1590-1618).
    Two arrays compare by address, which is not kept: no claim is made about that. -/
def opLt : V → V → Res Bool
  | .leaf a, .leaf b => if a.code ≠ b.code then .throw else .ok (VM.compare a b == .lt)
  | .arr _, .arr _ => .ub
  | _, _ => .throw

/-- The operator `>`, likewise. -/
def opGt : V → V → Res Bool
  | .leaf a, .leaf b => if a.code ≠ b.code then .throw else .ok (VM.compare a b == .gt)
  | .arr _, .arr _ => .ub
  | _, _ => .throw

/-- compare.js:4-12, for arguments that are not both arrays. -/
def cmpPlain (a b : V) : Res Ordering := do
  let x ← opLt a b
  if x then .ok .lt
  else do
    let y ← opGt a b
    if y then .ok .gt else .ok .eq

mutual
/-- `compare`, compare.js:3-28. -/
def cmp : V → V → Res Ordering
  | .arr l, .arr r =>
    if l.length ≠ r.length then .ok (if l.length < r.length then .lt else .gt) else cmpL l r
  | .leaf a, b => cmpPlain (.leaf a) b
  | .arr l, .leaf b => cmpPlain (.arr l) (.leaf b)
/-- The loop compare.js:21-27, from index `i` on. -/
def cmpL : List V → List V → Res Ordering
  | [], _ => .ok .eq
  | _ :: _, [] => .throw
  | a :: l, b :: r => do
    let o ← cmp a b
    if o ≠ .eq then .ok o else cmpL l r
end

mutual
/-- `equals`, equals.js:4-21. -/
def equals : V → V → Bool
  | .arr l, .arr r => if r.length ≠ l.length then false else equalsL l r
  | .leaf a, .leaf b => VM.compare a b == .eq
  | .leaf _, .arr _ => false
  | .arr _, .leaf _ => false
/-- The loop equals.js:15-20. -/
def equalsL : List V → List V → Bool
  | [], _ => true
  | _ :: _, [] => false
  | a :: l, b :: r => if !equals a b then false else equalsL l r
end

/-- The loop reverse.js:5-7, `i` iterations done. -/
def reverseFrom {α : Type} (l : List α) : Nat → Nat → List α → Res (List α)
  | 0, _, out => .ok out
  | n + 1, i, out =>
    match l[l.length - i - 1]? with
    | some x => reverseFrom l n (i + 1) (out ++ [x])
    | none => .throw

/-- `reverse`, reverse.js:2-9. -/
def reverse {α : Type} (l : List α) : Res (List α) := reverseFrom l l.length 0 []

/-- The inner loop sort.js:11-19 with `M` iterations left, on the array from index `j` on; `gt` is the operator `>`. -/
def pass {α : Type} (gt : α → α → Res Bool) : Nat → List α → Res (List α)
  | 0, l => .ok l
  | m + 1, a :: b :: l => do
    let g ← gt a b
    if g then do
      let t ← pass gt m (a :: l)
      .ok (b :: t)
    else do
      let t ← pass gt m (b :: l)
      .ok (a :: t)
  | _ + 1, _ => .throw

/-- The outer loop sort.js:9-20; the argument is `M` of the next pass. -/
def passes {α : Type} (gt : α → α → Res Bool) : Nat → List α → Res (List α)
  | 0, l => .ok l
  | m + 1, l => do
    let t ← pass gt (m + 1) l
    passes gt m t

/-- `sort`, sort.js:3-22. -/
def sort {α : Type} (gt : α → α → Res Bool) (l : List α) : Res (List α) :=
  if l.length ≤ 1 then .ok l else passes gt (l.length - 1) l

/-- `>` on numbers. -/
def gtNat (a b : Nat) : Res Bool := .ok (decide (b < a))

end Verif.Contract.Std
