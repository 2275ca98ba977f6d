import Verif.Codec.Bits
/-
  Specification of the plot symbol code, independent of the encoder.
-/
namespace Verif.Codec

/-- The code of a symbol `3 q + r` (`r < 3`): `q` pairs of ones, then `r` as two bits, lowest bit
    first. -/
def symBits (sym : Nat) : List Bool :=
  List.replicate (2 * (sym / 3)) true ++ [decide (sym % 3 = 1), decide (sym % 3 = 2)]

/-- Width of a code. -/
def symWidth (sym : Nat) : Nat := 2 * (sym / 3) + 2

/-- The concatenated codes of a list of symbols. -/
def streamBits : List Nat → List Bool
  | [] => []
  | s :: rest => symBits s ++ streamBits rest

/-- The words hold exactly the given bits from position `pos` on. -/
def Holds (ws : List Nat) (pos : Nat) (l : List Bool) : Prop :=
  pos + l.length ≤ 64 * ws.length ∧ ∀ i, i < l.length → l[i]? = some (bitAt ws (pos + i))

end Verif.Codec
