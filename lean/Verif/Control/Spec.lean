import Verif.Control.Vote
/-
  What the properties of the vote speak about, apart from the model's own functions.
-/
namespace Verif.Control

/-- The prices in the files that are not too old. -/
def fresh (now : Nat) (files : Key → Option File) (keys : List Key) : List Nat :=
  keys.flatMap fun k =>
    match files k with
    | some f => if f.time + 86400 < now then [] else f.price.toList
    | none => []

/-- More than half of the values lie in an interval. -/
def Most (lo hi : Nat) (l : List Nat) : Prop := l.length < 2 * l.countP (fun x => decide (lo ≤ x ∧ x ≤ hi))

instance (lo hi : Nat) (l : List Nat) : Decidable (Most lo hi l) := inferInstanceAs (Decidable (_ < _))

/-- The file is missing or older than a day. -/
def Old (now : Nat) : Option File → Prop
  | none => True
  | some f => f.time + 86400 < now

instance (now : Nat) (f : Option File) : Decidable (Old now f) := by
  cases f <;> unfold Old <;> infer_instance

/-- What arithmetic of doubles has to give: a mean lies between the two values (which fails only when their sum overflows),
    and the quotient of the two prices compares with the two bounds in a monotone way. -/
structure Arith (mid : Nat → Nat → Nat) (over under : Nat → Nat → Bool) : Prop where
  mean : ∀ a b, a ≤ b → a ≤ mid a b ∧ mid a b ≤ b
  more : ∀ g m g' m', g ≤ g' → m' ≤ m → over g m = true → over g' m' = true
  less : ∀ g m g' m', g' ≤ g → m ≤ m' → under g m = true → under g' m' = true
  both : ∀ g m, over g m = true → under g m = true → False

end Verif.Control
