/-
  C135: a proof that was found reaches the node.  Concrete cases of C133 to C135.
-/
import Verif.Farm.PropsHarvest

namespace Verif.Farm

open Verif.Pos

variable {η σ κ : Type} [DecidableEq η]

/-- What the farmer signs with its key is accepted for its key. -/
def Crypto.Works (cr : Crypto η σ κ) (keys : η → Option κ) : Prop :=
  ∀ pk k, keys pk = some k → ∀ h, cr.verify pk h (cr.sign k h) = true

/-- **C135.** A proof that a node accepts for a challenge goes from the harvester through the farmer to the node: the
    farmer signs it if it has the key, and the node accepts what the farmer sends, if it still knows the challenge and
    its root is not past it; for names of harvesters below 1024 characters. -/
theorem C135_delivered_partial {hs : Hashes η} {p : Params} {sort : List (List Nat) → List Entry → List Entry}
    {cr : Crypto η σ κ} {keys : η → Option κ} (hw : cr.Works keys) {c : Challenge η} {pr : Proof η} {order : List Nat}
    (ha : verifyProof sort hs p pr order c.challenge c.difficulty c.vdfHeight = .ok ()) {k : κ}
    (hk : keys pr.farmerKey = some k) {name : List Nat} (hn : name.length < 1024) {root : Option Nat}
    (hr : ∀ h, root = some h → h < c.vdfHeight) {find : Nat → Option (η × Nat)}
    (hf : find c.vdfHeight = some (c.challenge, c.difficulty)) :
    ∃ r, farm cr keys (respond cr name c.vdfHeight pr) = some r ∧
      nodeVerify sort hs p cr root find order r = .ok () ∧
      r.proof = pr ∧ r.vdfHeight = c.vdfHeight ∧ r.harvester = name := by
  have ha0 := ha
  unfold verifyProof at ha
  obtain ⟨_, ha⟩ := Res.chk_bind.1 ha
  obtain ⟨a2, ha⟩ := Res.chk_bind.1 ha
  obtain ⟨_, ha⟩ := Res.chk_bind.1 ha
  obtain ⟨_, ha⟩ := Res.chk_bind.1 ha
  obtain ⟨a5, ha⟩ := Res.chk_bind.1 ha
  have ht : name.take 1024 = name := List.take_of_length_le (by omega)
  have valid : ∀ s : σ, Response.isValid cr ⟨pr, c.vdfHeight, name, cr.hash c.vdfHeight pr, s,
      cr.content (cr.hash c.vdfHeight pr) s⟩ = true := by
    intro s
    unfold Response.isValid
    rw [decide_eq_true a2, decide_eq_true hn, decide_eq_true rfl, decide_eq_true rfl]
    rfl
  refine ⟨{ proof := pr, vdfHeight := c.vdfHeight, harvester := name, hash := cr.hash c.vdfHeight pr
            sig := cr.sign k (cr.hash c.vdfHeight pr)
            content := cr.content (cr.hash c.vdfHeight pr) (cr.sign k (cr.hash c.vdfHeight pr)) },
    ?_, ?_, rfl, rfl, rfl⟩
  · unfold farm respond
    dsimp only
    rw [ht, if_pos (valid cr.none), hk]
  · unfold nodeVerify
    dsimp only
    have c1 := valid (cr.sign k (cr.hash c.vdfHeight pr))
    rw [Res.chk_bind]
    refine ⟨c1, ?_⟩
    rw [Res.chk_bind]
    refine ⟨a5, ?_⟩
    rw [Res.chk_bind]
    refine ⟨hw _ _ hk _, ?_⟩
    rw [Res.chk_bind]
    refine ⟨hr, ?_⟩
    rw [hf]
    exact ha0

/-- **C135.** The claim is false for longer names: the harvester cuts its name to 1024 characters, and a response whose
    name has 1024 characters is invalid for the farmer.  Nothing that such a harvester finds is ever signed. -/
theorem C135_long_name {cr : Crypto η σ κ} {keys : η → Option κ} {name : List Nat} (hn : 1024 ≤ name.length)
    (vdfHeight : Nat) (pr : Proof η) : farm cr keys (respond cr name vdfHeight pr) = none := by
  unfold farm
  rw [if_neg]
  unfold Response.isValid respond
  dsimp only
  rw [List.length_take, Nat.min_eq_left hn, decide_eq_false (by decide : ¬ 1024 < 1024), Bool.and_false, Bool.false_and,
    Bool.false_and]
  decide

/-- **C135.** What the farmer passes on is what it got, for a key that it has, with a signature of its own over the hash
    of the height and the proof. -/
theorem C135_signed {cr : Crypto η σ κ} {keys : η → Option κ} {r r' : Response η σ} (h : farm cr keys r = some r') :
    ∃ k, keys r.proof.farmerKey = some k ∧ r'.sig = cr.sign k (cr.hash r'.vdfHeight r'.proof) ∧
      r'.proof = r.proof ∧ r'.vdfHeight = r.vdfHeight ∧ r'.harvester = r.harvester ∧ r'.isValid cr = true := by
  unfold farm at h
  by_cases hv : r.isValid cr = true
  · rw [if_pos hv] at h
    cases e : keys r.proof.farmerKey with
    | none => rw [e] at h; cases h
    | some k =>
      rw [e] at h
      have h := Option.some.inj h
      subst h
      have hv0 := hv
      unfold Response.isValid at hv
      rw [Bool.and_eq_true, Bool.and_eq_true, Bool.and_eq_true, decide_eq_true_eq, decide_eq_true_eq, decide_eq_true_eq,
        decide_eq_true_eq] at hv
      obtain ⟨⟨⟨v1, v2⟩, v3⟩, v4⟩ := hv
      refine ⟨k, rfl, congrArg _ v3, rfl, rfl, rfl, ?_⟩
      unfold Response.isValid
      dsimp only
      rw [decide_eq_true v1, decide_eq_true v2, decide_eq_true v3, decide_eq_true rfl]
      rfl
  · rw [if_neg hv] at h; cases h

/-- **C135.** What a node takes was signed with the key in the plot, over this proof and this height, and is a proof for
    the challenge of that height at the difficulty that the chain demands. -/
theorem C135_taken {hs : Hashes η} {p : Params} {sort : List (List Nat) → List Entry → List Entry} {cr : Crypto η σ κ}
    {root : Option Nat} {find : Nat → Option (η × Nat)} {order : List Nat} {r : Response η σ}
    (h : nodeVerify sort hs p cr root find order r = .ok ()) :
    cr.verify r.proof.farmerKey (cr.hash r.vdfHeight r.proof) r.sig = true ∧ (∀ h, root = some h → h < r.vdfHeight) ∧
    ∃ ch d, find r.vdfHeight = some (ch, d) ∧ verifyProof sort hs p r.proof order ch d r.vdfHeight = .ok () := by
  unfold nodeVerify at h
  obtain ⟨a1, h⟩ := Res.chk_bind.1 h
  obtain ⟨_, h⟩ := Res.chk_bind.1 h
  obtain ⟨a3, h⟩ := Res.chk_bind.1 h
  obtain ⟨a4, h⟩ := Res.chk_bind.1 h
  unfold Response.isValid at a1
  rw [Bool.and_eq_true, Bool.and_eq_true, Bool.and_eq_true, decide_eq_true_eq, decide_eq_true_eq, decide_eq_true_eq,
    decide_eq_true_eq] at a1
  rw [a1.1.2] at a3
  refine ⟨a3, a4, ?_⟩
  cases e : find r.vdfHeight with
  | none => rw [e] at h; cases h
  | some x => rw [e] at h; exact ⟨x.1, x.2, rfl, h⟩

/-! ### a concrete case -/

/-- Toy hashes for a plot of `ksize` 12. -/
def toyHashes : Hashes Nat :=
  { plotFilter := fun id c => id + c
    plotChallenge := fun c _ => c
    word0 := fun c => c * 2 ^ 12
    postHash := fun _ m => word m 1
    proofHash := fun c l => c + 7 * l.length
    quality := fun _ m => word m 2
    plotId := fun k s f _ => k + s + f
    g1 := fun _ => toyG1 8192
    h := toyH }

def toyParams : Params :=
  { minK := 12, maxK := 32, plotFilter := 4, postFilter := 10, spaceDiffConstant := 100000000000, hardfork1 := 100 }

/-- A plot with one entry, without meta data. -/
def toyPlot : Plot Nat :=
  { ksize := 12, hasMeta := false, seed := 7, plotId := 25, farmerKey := 6, contract := some 3
    table := { ksize := 12, size := 1, num := 1, head := fun _ => some 0, deltas := fun _ => some [] }
    metas := fun _ => .throw, inputs := fun _ => .ok exXs }

/-- The same with meta data. -/
def toyMeta : Plot Nat := { toyPlot with hasMeta := true, metas := fun _ => .ok ((toyNode 8 0).take 12) }

theorem toy_full (pl : Plot Nat) (hp : pl.ksize = 12) (hi : pl.inputs = fun _ => .ok exXs) (i : Nat) :
    pl.full toyHashes isort i = .ok (exXs, (toyNode 8 0).take 12) := by
  unfold Plot.full Plot.fns
  rw [hp, hi]
  have hfn : hashFns (toyHashes.g1 pl.plotId) toyHashes.h 12 = exFn := rfl
  rw [hfn, Res.bind_ok]
  decide +kernel

theorem toy_root : ∃ m, Tree exFn 8 exXs 0 m ∧ exFn.cut m = (toyNode 8 0).take 12 := by
  have ho : IsOrder 0 exXs exXs := isOrder_zero_of (by decide +kernel) (by decide +kernel) (fun x => Iff.rfl)
  have hf : fullProof exFn isort exXs = .ok (exXs, (toyNode 8 0).take 12) := by decide +kernel
  obtain ⟨y, m, t, h, _⟩ := C104_accepted (ρ := Nat) (good_hashFns _ _ _) (isSort_isort _ _ _) (isSort_isort _ _ _)
    (by decide : 0 ≤ 32) ho hf ex_noCollision ho
  obtain ⟨q, q1, q2, _, _⟩ := toy_tree (Nat.le_refl 8) t fun x hx => hx
  have : q = 0 := by omega
  subst this
  rw [q2] at t
  exact ⟨m, t, h⟩

theorem toy_made (pl : Plot Nat) (hp : pl.ksize = 12) (hi : pl.inputs = fun _ => .ok exXs)
    (hid : pl.plotId = 12 + pl.seed + pl.farmerKey) (ht : pl.table = toyPlot.table)
    (hm : ∀ i, pl.metas i = .throw ∨ pl.metas i = .ok ((toyNode 8 0).take 12)) :
    pl.Made toyHashes isort toyParams (fun _ => 0) where
  id := by rw [hid, hp]; rfl
  size := by rw [hp]; decide
  allowed := by rw [hp]; decide
  table := by
    rw [ht]
    exact {
      size := by decide
      head := fun _ _ => rfl
      deltas := fun q _ => ⟨[], rfl, rfl, fun i hi _ => by
        have hi : i < 1 := hi
        have : i = 0 := by omega
        subst this; rfl⟩
      sorted := fun _ _ _ _ => Nat.le_refl _ }
  inputs i _ := by
    have hfn : pl.fns toyHashes = exFn := by unfold Plot.fns; rw [hp]; rfl
    rw [hi, hfn]
    refine ⟨nofun, fun order e => ?_⟩
    cases e
    exact ⟨0, exXs, by decide, isOrder_zero_of (by decide +kernel) (by decide +kernel) (fun x => Iff.rfl),
      ex_noCollision⟩
  full i _ r hr := by
    have hfn : pl.fns toyHashes = exFn := by unfold Plot.fns; rw [hp]; rfl
    rw [toy_full pl hp hi] at hr
    cases hr
    rw [hfn]
    exact toy_root
  metas i _ := by
    rcases hm i with h | h
    · rw [h]; exact ⟨nofun, nofun⟩
    · rw [h]
      refine ⟨nofun, fun b r e1 e2 => ?_⟩
      rw [toy_full pl hp hi] at e2
      cases e1; cases e2; rfl

/-- The cases of C133 and C134 are not empty: both plots are as they should be, and give a proof and a partial, before
    and after the hard fork. -/
example : toyPlot.Made toyHashes isort toyParams (fun _ => 0) ∧ toyMeta.Made toyHashes isort toyParams (fun _ => 0) :=
  ⟨toy_made _ rfl rfl rfl rfl (fun _ => .inl rfl), toy_made _ rfl rfl rfl rfl (fun _ => .inr rfl)⟩

def found : Res (List (Answer Nat)) → List (Bool × Nat × Nat × Nat)
  | .ok l => l.map fun a => match a with
    | .part pr => (true, pr.difficulty, pr.score, pr.xs.length)
    | .solo pr => (false, pr.difficulty, pr.score, pr.xs.length)
  | _ => []

example : found (toyPlot.lookup toyHashes isort toyParams ⟨200, 0, 1000⟩ (some 10))
      = [(true, 10, 0, 256), (false, 1000, 0, 256)] ∧
    found (toyMeta.lookup toyHashes isort toyParams ⟨200, 0, 1000⟩ none) = [(false, 1000, 0, 256)] ∧
    found (toyMeta.lookup toyHashes isort toyParams ⟨50, 0, 1000⟩ (some 10))
      = [(true, 10, 0, 256), (false, 1000, 0, 256)] := by
  decide +kernel

/-- The case of C135 is not empty. -/
def toyCrypto : Crypto Nat Nat Nat :=
  { hash := fun h pr => h + pr.score, content := fun h s => h + s, none := 0, sign := fun k h => k + h
    verify := fun pk h s => s == pk + h }

example : toyCrypto.Works (fun pk => if pk = 6 then some 6 else none) := by
  intro pk k h m
  dsimp only at h
  by_cases e : pk = 6
  · rw [if_pos e] at h
    cases h
    subst e
    exact beq_self_eq_true _
  · rw [if_neg e] at h; cases h

end Verif.Farm
