import Verif.Time.Spec
/- A small chain used as an example next to the theorems. Hashes, addresses and proofs are numbers. -/
namespace Verif.Time

/-- Short delays, so that a few blocks show everything: one iteration per unit of time difficulty. -/
def exParams : Params where
  base := { Chain.mainnet with maxVdfCount := 3, timeDiffDivider := 1, timeDiffConstant := 1 }
  commitDelay := 1
  infuseDelay := 1
  challengeDelay := 2
  maxHistory := 10

def exFns : Fns Nat where
  next x := 2 * x + 1
  before x := 2 * x + 100000
  infuse x y := 3 * x + y
  fork x _ := x % 5 == 0
  chain x y := x + y
  key x := x

def exHdr (hash prev chal out height vdfHeight vdfCount iters time : Nat) : Hdr Nat Nat Nat where
  hash := hash
  prev := prev
  challenge := chal
  vdfOutput := out
  vdfRewardAddr := []
  proof := []
  proofHash := 0
  proofChain := 0
  num := { Chain.genesis exParams.base with
    height := height, vdfHeight := vdfHeight, vdfCount := vdfCount, vdfIters := iters, timeDiff := time,
    spaceDiff := 50 + height }

/-- Genesis, a block two VDF heights later, and another one VDF height after that. -/
def exG : Hdr Nat Nat Nat := exHdr 1000 0 7 500 0 0 0 0 10
def ex1 : Hdr Nat Nat Nat := exHdr 1001 1000 31 502 1 2 2 20 12
def ex2 : Hdr Nat Nat Nat := exHdr 1002 1001 63 503 2 3 1 30 13

def exGet : Store Nat Nat Nat := fun h =>
  if h = 1000 then some exG else if h = 1001 then some ex1 else if h = 1002 then some ex2 else none

theorem ex_line : Line exGet [ex2, ex1, exG] := by
  refine ⟨rfl, by decide, by decide, rfl, rfl, by decide, by decide, rfl, rfl, rfl, rfl⟩

theorem ex_line1 : Line exGet [ex1, exG] := ex_line.2.2.2.2

end Verif.Time
