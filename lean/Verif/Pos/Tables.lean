import Verif.Base
/-
  Model of src/pos/verify_full.cpp (`compute_full`) and of `compute` and `verify` in src/pos/verify.cpp.

  `α` is the meta data of an entry (14 words), `β` the part of it that is the output (12 words).
  Indexes into vectors are numbers; reading outside of a vector is `ub`.
-/
namespace Verif.Pos

/-- An element of `entries`: `Y` and the index into `M_tmp`. -/
abbrev Entry := Nat × Nat

/-- What the tables depend on. `f1` gives `Y` and the meta data of table 1 for an `x`
    (`compute_f1`), `f` those of a match (verify_full.cpp:67-88), `lt` is the order of arrays of words,
    `cut` the output part of the meta data (line 124). `hashFns` below are the ones of the code. -/
structure Fns (α β : Type) where
  f1 : Nat → Nat × α
  f : α → α → Nat × α
  lt : α → α → Bool
  cut : α → β

variable {α β : Type}

/-- `kmask`, verify.cpp:50 and verify_full.cpp:26. -/
def kmask (ksize : Nat) : Nat := u32 (u64 (2 ^ ksize) - 1)

/-- `Y_i` and `meta` from the words of a hash, verify.cpp:75-81 and verify_full.cpp:82-88;
    `14 = N_META`. -/
def split (ksize : Nat) (hash : List Nat) : Nat × List Nat :=
  (((hash.take 14).foldl (· ^^^ ·) 0) &&& kmask ksize, (hash.take 14).map (· &&& kmask ksize))

/-- The functions of the code. `g1 x` are the words of the hash of table 1 (`mem_hash_hash`,
    verify.cpp:56-73), `h` gives the 16 words of the SHA-512 of a list of words (verify_full.cpp:72-81);
    `12 = N_META_OUT`. -/
def hashFns (g1 : Nat → List Nat) (h : List Nat → List Nat) (ksize : Nat) : Fns (List Nat) (List Nat) where
  f1 x := split ksize (g1 x)
  f a b := split ksize (h (a ++ b))
  lt a b := decide (a < b)
  cut m := m.take 12

/-- `sort_func`, verify_full.cpp:38-44, for indexes that exist. `L < R` there compares different
    `Y` only. -/
def before (lt : α → α → Bool) (M : List α) (l r : Entry) : Bool :=
  if l.1 = r.1 then
    match M[l.2]?, M[r.2]? with
    | some a, some b => lt a b
    | _, _ => false
  else l.1 < r.1

/-- All indexes exist: otherwise the comparison reads outside of `M_tmp`. -/
def InRange (M : List α) (l : List Entry) : Prop := ∀ e ∈ l, e.2 < M.length

instance (M : List α) (l : List Entry) : Decidable (InRange M l) :=
  inferInstanceAs (Decidable (∀ e ∈ l, e.2 < M.length))

/-- What `std::sort` may return: the same entries in an order that the comparison allows. Entries
    with equal `Y` and meta data come in any order. -/
structure IsSort (lt : α → α → Bool) (sort : List α → List Entry → List Entry) : Prop where
  perm : ∀ M l, InRange M l → (sort M l).Perm l
  sorted : ∀ M l, InRange M l → (sort M l).Pairwise fun a b => before lt M b a = false

/-- The inner loop for `x`, verify_full.cpp:59-103: the pairs of indexes `(PL, PR)`. -/
def scan (e : Entry) : List Entry → List (Nat × Nat)
  | [] => []
  | r :: rest =>
    if r.1 = u32 (e.1 + 1) then (e.2, r.2) :: scan e rest
    else if r.1 > e.1 then []
    else scan e rest

/-- The outer loop, verify_full.cpp:55-104. -/
def matchAll : List Entry → List (Nat × Nat)
  | [] => []
  | e :: rest => scan e rest ++ matchAll rest

/-- `Y` and meta data of a match, verify_full.cpp:65-88. -/
def combine (fn : Fns α β) (M : List α) (p : Nat × Nat) : Res (Nat × α) :=
  match M[p.1]?, M[p.2]? with
  | some a, some b => .ok (fn.f a b)
  | _, _ => .ub

/-- All of them, in order. -/
def combineAll (fn : Fns α β) (M : List α) : List (Nat × Nat) → Res (List (Nat × α))
  | [] => .ok []
  | p :: rest => do
    let x ← combine fn M p
    let xs ← combineAll fn M rest
    .ok (x :: xs)

/-- Entries numbered from `i`, as lines 34-36 and 90 do. -/
def number : Nat → List Nat → List Entry
  | _, [] => []
  | i, y :: ys => (y, i) :: number (i + 1) ys

/-- `entries`, `M_tmp` and the tables of `LR_tmp`, the last one first. -/
structure Tab (α : Type) where
  entries : List Entry
  metas : List α
  lrs : List (List (Nat × Nat))

/-- One table, verify_full.cpp:46-112. -/
def table (fn : Fns α β) (sort : List α → List Entry → List Entry) (t : Tab α) : Res (Tab α) := do
  Res.defd (InRange t.metas t.entries)
  let lr := matchAll (sort t.metas t.entries)
  let fm ← combineAll fn t.metas lr
  if fm.isEmpty then .throw
  else .ok { entries := number 0 (fm.map (·.1)), metas := fm.map (·.2), lrs := lr :: t.lrs }

/-- `n` tables. -/
def tables (fn : Fns α β) (sort : List α → List Entry → List Entry) : Nat → Tab α → Res (Tab α)
  | 0, t => .ok t
  | n + 1, t => do
    let t ← table fn sort t
    tables fn sort n t

/-- One step back, verify_full.cpp:132-139. -/
def back (lr : List (Nat × Nat)) : List Nat → Res (List Nat)
  | [] => .ok []
  | i :: is =>
    match lr[i]? with
    | some p => do
      let r ← back lr is
      .ok (p.1 :: p.2 :: r)
    | none => .ub

/-- All the way back, verify_full.cpp:127-140. -/
def trace : List (List (Nat × Nat)) → List Nat → Res (List Nat)
  | [], is => .ok is
  | lr :: lrs, is => do
    let is ← back lr is
    trace lrs is

/-- `X_in[i]` for all of them, verify_full.cpp:141-143. -/
def pickX (X : List Nat) : List Nat → Res (List Nat)
  | [] => .ok []
  | i :: is =>
    match X[i]? with
    | some x => do
      let r ← pickX X is
      .ok (x :: r)
    | none => .ub

/-- A result: `Y`, meta data and the values of `x`. -/
structure Out (α : Type) where
  y : Nat
  mt : α
  xs : List Nat

/-- The last loop, verify_full.cpp:119-145; `seen` is `M_set`. -/
def outputs [DecidableEq α] (X : List Nat) (t : Tab α) (seen : List α) : List Entry → Res (List (Out α))
  | [] => .ok []
  | e :: rest =>
    match t.metas[e.2]? with
    | none => .ub
    | some m =>
      if m ∈ seen then outputs X t seen rest
      else do
        let is ← trace t.lrs [e.2]
        let xs ← pickX X is
        let r ← outputs X t (m :: seen) rest
        .ok ({ y := e.1, mt := m, xs := xs } :: r)

/-- `compute_full`, verify_full.cpp:16-147, for `X_out` given and `Y_in`, `M_in` made from `X_in` with
    `compute_f1` (verify.cpp:41-89) in any order; `8 = N_TABLE - 1`. -/
def computeFull [DecidableEq α] (fn : Fns α β) (sort : List α → List Entry → List Entry)
    (X : List Nat) : Res (List (Out α)) := do
  let t ← tables fn sort 8
    { entries := number 0 (X.map fun x => (fn.f1 x).1), metas := X.map fun x => (fn.f1 x).2, lrs := [] }
  Res.defd (InRange t.metas t.entries)
  outputs X t [] (sort t.metas t.entries)

/-- The inputs of table 1 for one value, verify.cpp:54-56: `(X << xbits) | x_i`. -/
def expand (xbits x : Nat) : List Nat :=
  (List.range (2 ^ xbits)).map fun i => u32 (x * 2 ^ xbits) ||| i

/-- What `verify` gets besides the values of `x`: `Y_0` (verify.cpp:234), `plot_filter`,
    `post_filter`, `hard_fork` and the hashes of the challenge with the results. -/
structure Chal (β ρ : Type) where
  y0 : Nat
  plotFilter : Nat
  postFilter : Nat
  hardFork : Bool
  postHash : β → Nat
  proofHash : List Nat → ρ
  quality : β → ρ

/-- `check_post_filter`, verify.cpp:208-213; `postHash` is the hash of challenge and meta data as a
    256-bit number. -/
def postFilterOk {ρ : Type} (c : Chal β ρ) (b : β) : Bool := c.postHash b >>> (256 - c.postFilter) == 0

/-- `verify`, verify.cpp:215-253. `order` is the order in which table 1 was filled: for the values of
    `std::set(X_values)`, each once. -/
def verify {ρ : Type} [DecidableEq α] (fn : Fns α β) (sort : List α → List Entry → List Entry)
    (c : Chal β ρ) (xValues order : List Nat) : Res ρ := do
  Res.chk (xValues.length = 256)
  let outs ← computeFull fn sort order
  match outs with
  | [o] =>
    Res.chk (¬ (o.y < c.y0 ∨ c.y0 + 2 ^ c.plotFilter ≤ o.y))
    Res.chk (o.xs = xValues)
    if c.hardFork then do
      Res.chk (postFilterOk c (fn.cut o.mt) = true)
      .ok (c.proofHash o.xs)
    else .ok (c.quality (fn.cut o.mt))
  | _ => .throw

/-- The end of `Prover::get_full_proof`, src/pos/Prover.cpp:238-249: recompute from the values in the
    plot, of which `xbits` low bits are not stored. `order` is the order of table 1. -/
def fullProof [DecidableEq α] (fn : Fns α β) (sort : List α → List Entry → List Entry)
    (order : List Nat) : Res (List Nat × β) := do
  let outs ← computeFull fn sort order
  match outs with
  | [o] => .ok (o.xs, fn.cut o.mt)
  | _ => .throw

/-! ### the node -/

/-- The parameters of the chain that a proof depends on (interface/ChainParams.vni). -/
structure Params where
  minK : Nat
  maxK : Nat
  plotFilter : Nat
  postFilter : Nat
  spaceDiffConstant : Nat
  hardfork1 : Nat

/-- `check_proof_threshold`, include/mmx/utils.h:183-197; `quality` is a 256-bit number. -/
def thresholdOk (p : Params) (ksize quality spaceDiff : Nat) (hardFork : Bool) : Res Bool :=
  if spaceDiff = 0 then .ok false
  else do
    Res.defd (u128 (spaceDiff * p.spaceDiffConstant) ≠ 0)
    let threshold := u256 (2 ^ 255 / u128 (spaceDiff * p.spaceDiffConstant) * (2 * ksize + 1))
    let value := if hardFork then quality >>> p.postFilter else quality
    Res.defd (0 < ksize)
    .ok (value >>> (ksize - 1) < threshold)

/-- The hashes over the data of a proof: as numbers where the code compares them.
    `plotFilter`: utils.h:112, `y0`: first word of the plot challenge (utils.h:164-167, verify.cpp:234) before
    the mask, `postHash`: verify.cpp:211, `proofHash`: include/mmx/utils.h `calc_proof_hash`, `quality`:
    verify.cpp:202-206, `g1`, `h`: see `hashFns`. `η` is the type of challenges and plot ids. -/
structure Hashes (η : Type) where
  plotFilter : η → η → Nat
  plotChallenge : η → η → η
  word0 : η → Nat
  postHash : η → List Nat → Nat
  proofHash : η → List Nat → Nat
  quality : η → List Nat → Nat
  plotId : Nat → η → η → Option η → η
  g1 : η → Nat → List Nat
  h : List Nat → List Nat

/-- A proof of space: OG, or NFT if there is a contract (interface/ProofOfSpace*.vni). -/
structure Proof (η : Type) where
  score : Nat
  plotId : η
  challenge : η
  difficulty : Nat
  farmerKey : η
  ksize : Nat
  seed : η
  contract : Option η
  xs : List Nat

variable {η : Type}

/-- The challenge as `verify` sees it, Node_verify.cpp:192-197 and verify.cpp:232-236. -/
def Hashes.chal (hs : Hashes η) (p : Params) (pr : Proof η) (challenge : η) (vdfHeight : Nat) :
    Chal (List Nat) Nat :=
  let pc := hs.plotChallenge challenge pr.plotId
  { y0 := hs.word0 pc &&& kmask pr.ksize
    plotFilter := p.plotFilter
    postFilter := p.postFilter
    hardFork := p.hardfork1 ≤ vdfHeight
    postHash := hs.postHash pc
    proofHash := hs.proofHash pc
    quality := hs.quality pc }

/-- `Node::verify_proof_impl`, Node_verify.cpp:182-202. `compute` throws for `ksize` below 8 or above 32
    (verify.cpp:95-97). -/
def verifyImpl (sort : List (List Nat) → List Entry → List Entry) (hs : Hashes η) (p : Params)
    (pr : Proof η) (order : List Nat) (challenge : η) (spaceDiff vdfHeight : Nat) : Res Unit := do
  Res.chk (¬ pr.ksize < p.minK)
  Res.chk (¬ pr.ksize > p.maxK)
  Res.chk (¬ (pr.ksize < 8 ∨ 32 < pr.ksize))
  let quality ← verify (hashFns (hs.g1 pr.plotId) hs.h pr.ksize) sort
    (hs.chal p pr challenge vdfHeight) pr.xs order
  let good ← thresholdOk p pr.ksize quality spaceDiff (p.hardfork1 ≤ vdfHeight)
  Res.chk (good = true)

/-- `check_plot_filter`, include/mmx/utils.h:108-114. -/
def plotFilterOk (hs : Hashes η) (p : Params) (challenge plotId : η) : Bool :=
  hs.plotFilter plotId challenge >>> (256 - p.plotFilter) == 0

/-- `get_proof_score`, include/mmx/utils.h:199-203: the first byte of the hash. A hash is here the
    number whose lowest byte comes first. -/
def scoreOf (proofHash : Nat) : Nat := proofHash % 256

/-- `Node::verify_proof`, Node_verify.cpp:204-238, with `is_valid` and `validate` of the two kinds of
    proofs (src/ProofOfSpaceOG.cpp:15-18,47-54, src/ProofOfSpaceNFT.cpp:15-18,48-55). -/
def verifyProof [DecidableEq η] (sort : List (List Nat) → List Entry → List Entry) (hs : Hashes η)
    (p : Params) (pr : Proof η) (order : List Nat) (challenge : η) (spaceDiff vdfHeight : Nat) :
    Res Unit := do
  Res.chk (¬ spaceDiff = 0)
  Res.chk (0 < pr.ksize ∧ pr.xs.length ≤ 256)
  Res.chk (pr.challenge = challenge)
  Res.chk (pr.difficulty = spaceDiff)
  Res.chk (hs.plotId pr.ksize pr.seed pr.farmerKey pr.contract = pr.plotId)
  Res.chk (plotFilterOk hs p challenge pr.plotId = true)
  verifyImpl sort hs p pr order challenge spaceDiff vdfHeight
  Res.chk (scoreOf (hs.proofHash challenge pr.xs) = pr.score)

/-- The order of table 1 is possible: every `x` made from the given values once. -/
def IsOrder (xbits : Nat) (xValues order : List Nat) : Prop :=
  order.Nodup ∧ ∀ x, x ∈ order ↔ ∃ v ∈ xValues, x ∈ expand xbits v

end Verif.Pos
