/-
  What the properties of catching up say, in terms of the log only (the newest first).
-/
import Verif.Catchup.Model

namespace Verif.Catchup

/-- The calls for a height that did not return. -/
def calls (h : Nat) : List Ev → Nat
  | [] => 0
  | .asked g _ :: l => (if g = h then 1 else 0) + calls h l
  | .got g _ :: l => calls h l - (if g = h then 1 else 0)
  | .failed g :: l => calls h l - (if g = h then 1 else 0)
  | _ :: l => calls h l

/-- All calls returned. -/
def Still (l : List Ev) : Prop := ∀ h, calls h l = 0

/-- The height at which the latest sync began. -/
def origin : List Ev → Option Nat
  | [] => none
  | .began h :: _ => some h
  | _ :: l => origin l

/-- What happened since the latest sync began. -/
def since : List Ev → List Ev
  | [] => []
  | .began _ :: _ => []
  | e :: l => e :: since l

/-- What happened in the latest pass. -/
def pass : List Ev → List Ev
  | [] => []
  | .began _ :: _ => []
  | .reached _ _ :: _ => []
  | e :: l => e :: pass l

/-- The passes since `start_sync`. -/
def passes : List Ev → Nat
  | [] => 0
  | .start :: _ => 0
  | .reached _ _ :: l => 1 + passes l
  | _ :: l => passes l

/-- The time of the latest pass. -/
def lastPass : List Ev → Nat
  | [] => 0
  | .reached _ t :: _ => t
  | _ :: l => lastPass l

/-- Whether the node takes itself to be in sync. -/
def inSync (b : Bool) : List Ev → Bool
  | [] => b
  | .start :: _ => false
  | .done _ :: _ => true
  | _ :: l => inSync b l

/-- Since the latest sync began no call failed, and no call was open when a pass started. -/
def Clean : List Ev → Prop
  | [] => False
  | .began _ :: l => Still l
  | .failed _ :: _ => False
  | .reached _ _ :: l => Still l ∧ Clean l
  | _ :: l => Clean l

/-- Asked for, answered, in a part of the log. -/
def Asked (h : Nat) (l : List Ev) : Prop := ∃ r, .asked h r ∈ l
def Got (h : Nat) (l : List Ev) : Prop := ∃ n, .got h n ∈ l

end Verif.Catchup
