import Verif.Pos.GpuLemmas
/-
  C106: table 1 computed on a GPU is the one computed on the CPU.

  `f1Of` is what the CPU computes for an input; C102-C105 are about it (and every other function).
-/
namespace Verif.Pos

open Verif.Hash (Byte toLE)

/-- The words of the hash of table 1 as numbers, for C102-C105: what the CPU computes, whatever its memory
    held before. -/
def g1Of (shr : W → W) (junk : Nat → BitVec 64) (buf buf' : List Byte) (mem : Nat → W) (id : List Byte)
    (x : Nat) : List Nat :=
  (tableHash (rotC shr) junk buf buf' mem id (BitVec.ofNat 32 x)).map BitVec.toNat

/-- What the GPU hands on for one input, as numbers. -/
def asNat (e : W × W × List W) : Nat × Nat × List Nat := (e.1.toNat, e.2.1.toNat, e.2.2.map BitVec.toNat)

section gpu

variable {buffer xbits ksize : Nat} {reqs : List (List Byte × List W)} {res : Nat → List (W × W × List W)}
variable {i : Nat} {id : List Byte} {xs : List W} {shr : W → W}

/-- Every entry, for any values: `Y` and the meta data are those of the CPU for the same input. -/
theorem C106_entry (h : GpuGives buffer xbits ksize reqs res) (hb : 256 ≤ buffer)
    (hreq : ∀ r ∈ reqs, r.1.length = 32 ∧ r.2.length = 256) (hi : reqs[i]? = some (id, xs))
    (hs : ShrOk shr) (junk : Nat → BitVec 64) (buf buf' : List Byte) (hl : buf.length = 128)
    (hl' : buf'.length = 128) (mem : Nat → W) (hs2 : List Nat → List Nat) :
    (res i).length = 256 * 2 ^ xbits ∧ ∀ e ∈ res i,
      ((asNat e).2 = (hashFns (g1Of shr junk buf buf' mem id) hs2 ksize).f1 (asNat e).1) := by
  obtain ⟨v, hv, hres⟩ := h.entries hb hreq hi hs junk buf buf' hl hl' mem
  rw [hres]
  refine ⟨by simp, ?_⟩
  intro e he
  obtain ⟨j, _, rfl⟩ := List.mem_map.1 he
  unfold asNat entryC
  rw [splitW_toNat]
  unfold hashFns g1Of
  dsimp only
  rw [BitVec.ofNat_toNat, BitVec.setWidth_eq]

/-- **C106.** For distinct values the GPU hands to `compute_full` what the CPU does, in an order in which
    the threads of the CPU might have written it: C102-C105 hold with a GPU as well. -/
theorem C106_gpu (h : GpuGives buffer xbits ksize reqs res) (hb : 256 ≤ buffer) (hx : xbits ≤ 20)
    (hreq : ∀ r ∈ reqs, r.1.length = 32 ∧ r.2.length = 256) (hi : reqs[i]? = some (id, xs))
    (hn : xs.Nodup) (hlt : ∀ x ∈ xs, x.toNat < 2 ^ (32 - xbits))
    (hs : ShrOk shr) (junk : Nat → BitVec 64) (buf buf' : List Byte) (hl : buf.length = 128)
    (hl' : buf'.length = 128) (mem : Nat → W) (hs2 : List Nat → List Nat) :
    ∃ order, IsOrder xbits (xs.map BitVec.toNat) order ∧
      (res i).map asNat = order.map fun x => (x, (hashFns (g1Of shr junk buf buf' mem id) hs2 ksize).f1 x) := by
  have hent := (C106_entry h hb hreq hi hs junk buf buf' hl hl' mem hs2).2
  obtain ⟨v, hv, hres⟩ := h.entries hb hreq hi hs junk buf buf' hl hl' mem
  have hvx : v = xs := (bump_spec [] xs hv).2.2.2.2 ⟨hn, by simp⟩
  subst hvx
  refine ⟨_, order_gpu hx (hreq _ (List.mem_of_getElem? hi)).2 hn hlt, ?_⟩
  have : (res i).map asNat = (res i).map fun e =>
      ((asNat e).1, (hashFns (g1Of shr junk buf buf' mem id) hs2 ksize).f1 (asNat e).1) :=
    List.map_congr_left fun e he => Prod.ext rfl (hent e he)
  rw [this, hres, List.map_map, List.map_map]
  rfl

/-- **C106.** A repeated value is replaced by the next one that is free: the GPU looks at all values of the
    CPU and, for each repetition, at one more. -/
theorem C106_repeated (h : GpuGives buffer 0 ksize reqs res) (hb : 256 ≤ buffer)
    (hreq : ∀ r ∈ reqs, r.1.length = 32 ∧ r.2.length = 256) (hi : reqs[i]? = some (id, xs))
    (hs : ShrOk shr) (junk : Nat → BitVec 64) (buf buf' : List Byte) (hl : buf.length = 128)
    (hl' : buf'.length = 128) (mem : Nat → W) (hs2 : List Nat → List Nat) :
    ∃ order : List Nat, order.Nodup ∧ order.length = 256 ∧ (∀ x ∈ xs, x.toNat ∈ order) ∧
      (res i).map asNat = order.map fun x => (x, (hashFns (g1Of shr junk buf buf' mem id) hs2 ksize).f1 x) := by
  have hent := (C106_entry h hb hreq hi hs junk buf buf' hl hl' mem hs2).2
  obtain ⟨v, hv, hres⟩ := h.entries hb hreq hi hs junk buf buf' hl hl' mem
  obtain ⟨b1, b2, _, b4, _⟩ := bump_spec [] xs hv
  have hvl : v.length = 256 := by rw [b1]; exact (hreq _ (List.mem_of_getElem? hi)).2
  have ho := order_gpu (xbits := 0) (by decide) hvl b2 (fun x _ => x.isLt)
  refine ⟨_, ho.1, by simp, ?_, ?_⟩
  · intro x hx
    have hm : x ∈ v := by
      rcases b4 x hx with h | h
      · exact h
      · cases h
    exact (ho.2 x.toNat).2 ⟨x.toNat, List.mem_map.2 ⟨x, hm, rfl⟩, (mem_expand_zero x.isLt).2 rfl⟩
  · have : (res i).map asNat = (res i).map fun e =>
        ((asNat e).1, (hashFns (g1Of shr junk buf buf' mem id) hs2 ksize).f1 (asNat e).1) :=
      List.map_congr_left fun e he => Prod.ext rfl (hent e he)
    rw [this, hres, List.map_map, List.map_map]
    rfl

/-- **C106.** A GPU always has a result: the kernels read nothing outside of their message buffers, and the
    search for free values and the choice of the number of passes end. -/
theorem C106_runs (buffer xbits ksize : Nat) (hb : 256 ≤ buffer) (reqs : List (List Byte × List W))
    (hreq : ∀ r ∈ reqs, r.2.length = 256) : ∃ res, GpuGives buffer xbits ksize reqs res := by
  obtain ⟨passes, hp⟩ := numIter_some (buffer := buffer) (req := 256 * 2 ^ xbits) (xbits + 10) 1 xbits (by omega)
    (by rw [Nat.one_mul, Nat.mul_div_cancel _ (Nat.two_pow_pos _)]; exact hb)
  let values := reqs.map fun r => (bump [] r.2).getD []
  let ids : Nat → W := fun a => (wordsLE 8 (reqs.getD (a / 8) ([], [])).1).getD (a % 8) 0
  have hpass := fun iter => pass_exists reqs.length (2 ^ xbits / passes) xbits (iter * (2 ^ xbits / passes))
    (BitVec.ofNat 32 (kmask ksize)) (xDev values) ids
  refine ⟨_, passes, values, fun iter => (hpass iter).choose, fun iter => (hpass iter).choose_spec.choose,
    fun iter => (hpass iter).choose_spec.choose_spec.choose, fun _ => 0, fun _ => 0, fun _ => [], hp,
    by simp [values], ?_, fun iter _ => (hpass iter).choose_spec.choose_spec.choose_spec, fun i _ => rfl⟩
  intro i r v hr hv
  rw [show values = reqs.map fun r => (bump [] r.2).getD [] from rfl, List.getElem?_map, hr] at hv
  obtain ⟨w, hw⟩ := bump_some [] r.2 (by rw [hreq r (List.mem_of_getElem? hr)]; decide)
  rw [Option.map_some, hw] at hv
  cases hv
  exact hw

/-- **C106.** The requests taken together fit into the buffers of the device, which has at least 256 entries
    if more than 512 threads can be resident. -/
theorem C106_fits (hb : 256 ≤ buffer) (waiting : Nat) {passes : Nat}
    (h : numIter buffer (256 * 2 ^ xbits) (xbits + 10) 1 = some passes) :
    let M := takeReqs buffer (256 * 2 ^ xbits) waiting 0 0
    256 * (2 ^ xbits / passes) * M ≤ buffer ∧ M ≤ buffer / 256 := by
  obtain ⟨p1, p2, p3⟩ := passes_spec hb h
  have ht := takeReqs_le (buffer := buffer) (req := 256 * 2 ^ xbits) waiting 0 (.inl (by decide))
  rw [Nat.zero_mul] at ht
  dsimp only at ht ⊢
  generalize takeReqs buffer (256 * 2 ^ xbits) waiting 0 0 = M at ht
  have hN : 2 ^ xbits / passes ≤ 2 ^ xbits := Nat.div_le_self _ _
  generalize 2 ^ xbits / passes = N at *
  have h1 : 256 * N * M ≤ buffer := by
    rcases ht with ht | ht
    · calc 256 * N * M ≤ 256 * N * 1 := Nat.mul_le_mul_left _ ht
        _ ≤ buffer := by rw [Nat.mul_one]; exact p2
    · calc 256 * N * M ≤ 256 * 2 ^ xbits * M := Nat.mul_le_mul_right _ (Nat.mul_le_mul_left _ hN)
        _ ≤ buffer := by rw [Nat.mul_comm]; exact ht
  refine ⟨h1, ?_⟩
  have : 256 * M ≤ 256 * N * M := Nat.mul_le_mul_right _ (by omega)
  omega

theorem bufferSize_ge {maxResident : Nat} (h : 512 < maxResident) (fuel b : Nat) {r : Nat}
    (hr : bufferSize maxResident fuel b = some r) (hb : ∃ q, b = 256 * 2 ^ q) : 256 ≤ r := by
  induction fuel generalizing b with
  | zero => cases hr
  | succ fuel ih =>
    unfold bufferSize at hr
    obtain ⟨q, rfl⟩ := hb
    by_cases hc : 256 * 2 ^ q < maxResident
    · rw [if_pos hc] at hr
      exact ih _ hr ⟨q + 1, by rw [Nat.pow_succ]; omega⟩
    · rw [if_neg hc] at hr
      cases hr
      have : 2 ≤ q := by
        rcases Nat.lt_or_ge q 2 with hq | hq
        · have : (2 : Nat) ^ q ≤ 2 ^ 1 := Nat.pow_le_pow_right (by decide) (by omega)
          omega
        · exact hq
      have : (2 : Nat) ^ 2 ≤ 2 ^ q := Nat.pow_le_pow_right (by decide) this
      omega

theorem C106_buffer {maxResident : Nat} (h : 512 < maxResident) (fuel : Nat) {r : Nat}
    (hr : bufferSize maxResident fuel 256 = some r) : 256 ≤ r :=
  bufferSize_ge h fuel 256 hr ⟨0, rfl⟩

end gpu

/-! ### repeated values -/

variable {α β ρ : Type} [DecidableEq α] {fn : Fns α β} {sort sort' : List α → List Entry → List Entry}
variable {c : Chal β ρ} {xs order order' : List Nat}

/-- **C106.** What a node with a GPU accepts, also with repeated values, every node without one accepts with
    the same result. `order'` is the order of the GPU: it has all values, and maybe more. -/
theorem C106_accepts (hg : Good fn) (hs : IsSort fn.lt sort) (hs' : IsSort fn.lt sort') {r : ρ}
    (hx : ∀ x ∈ xs, x < 2 ^ 32) (ho : IsOrder 0 xs order) (hsub : ∀ x ∈ xs, x ∈ order')
    (hn : NoCollision fn xs) (h : verify fn sort' c xs order' = .ok r) : verify fn sort c xs order = .ok r := by
  obtain ⟨hl, o, hc, hf⟩ := verify_ok h
  have hm := mem_order hx ho
  obtain ⟨hov, hu⟩ := single hg hs' hc
  have hxs := (finish_ok hf).2.2.1
  rw [hxs] at hov
  obtain ⟨o1, h1, h2, h3, h4⟩ := single_of hg hs (X := order) (xs := xs) (y := o.y) (m := o.mt)
    ⟨hov.1, fun x hx => (hm x).2 hx⟩
    (fun xs' y' m' h => (hu xs' y' m' (over_mono h fun x hx => hsub x ((hm x).1 hx))).1)
  rw [verify_single hl h1, ← hf]
  refine finish_congr h4 h3 ?_
  rw [hxs]
  rw [h3, h4] at h2
  exact hn _ _ _ _ _ (over_mono h2 fun x => (hm x).1) ⟨hov.1, fun x hx => hx⟩

/-- **C106.** The other way round it holds if the additional values are in no tree. -/
theorem C106_agrees (hg : Good fn) (hs : IsSort fn.lt sort) (hs' : IsSort fn.lt sort')
    (hx : ∀ x ∈ xs, x < 2 ^ 32) (ho : IsOrder 0 xs order) (hsub : ∀ x ∈ xs, x ∈ order') (hn : NoCollision fn xs)
    (hno : ∀ (ys : List Nat) (y : Nat) (m : α), Over fn 8 order' ys y m → ∀ x ∈ ys, x ∈ xs) {r : ρ} :
    verify fn sort c xs order = .ok r ↔ verify fn sort' c xs order' = .ok r := by
  refine ⟨?_, C106_accepts hg hs hs' hx ho hsub hn⟩
  intro h
  obtain ⟨hl, o, hc, hf⟩ := verify_ok h
  have hm := mem_order hx ho
  obtain ⟨hov, hu⟩ := single hg hs hc
  have hxs := (finish_ok hf).2.2.1
  rw [hxs] at hov
  have hback : ∀ (ys : List Nat) (y : Nat) (m : α), Over fn 8 order' ys y m → Over fn 8 xs ys y m :=
    fun ys y m h => ⟨h.1, hno ys y m h⟩
  obtain ⟨o1, h1, h2, h3, h4⟩ := single_of hg hs' (X := order') (xs := xs) (y := o.y) (m := o.mt)
    ⟨hov.1, fun x hx => hsub x hx⟩
    (fun xs' y' m' h => (hu xs' y' m' (over_mono (hback _ _ _ h) fun x hx => (hm x).2 hx)).1)
  rw [verify_single hl h1, ← hf]
  refine finish_congr h4 h3 ?_
  rw [hxs]
  rw [h3, h4] at h2
  exact hn _ _ _ _ _ (hback _ _ _ h2) ⟨hov.1, fun x hx => hx⟩

/-! ### concrete cases -/

/-- The case of C106_gpu is not empty. -/
example : ∃ res, GpuGives 1024 0 32 [(List.replicate 32 0, (List.range 256).map (BitVec.ofNat 32))] res ∧
    ((List.range 256).map (BitVec.ofNat 32)).Nodup := by
  obtain ⟨res, h⟩ := C106_runs 1024 0 32 (by decide)
    [(List.replicate 32 0, (List.range 256).map (BitVec.ofNat 32))] (by simp)
  exact ⟨res, h, by decide +kernel⟩

/-- What `v >> 32` gives on usual processors. -/
example : ShrOk (fun _ => 0) ∧ ShrOk (fun v => v) :=
  ⟨fun v => by simp, fun v => by simp⟩

/-- A toy instance of the hashes in which a value can be used twice: meta data with depth, position and a
    mark. The value 3 has the `Y` of a right child of 0; 2 is like 0, with the mark. -/
def dupNode (d p t y : Nat) : List Nat := [y ^^^ d ^^^ p ^^^ t, d, p, t] ++ List.replicate 12 0

def dupG1 (x : Nat) : List Nat :=
  if x = 2 then dupNode 0 0 1 0 else if x = 3 then dupNode 0 3 0 1 else dupNode 0 x 0 (x / 2 * 4 + x % 2)

def dupH (msg : List Nat) : List Nat :=
  let p := word msg 16 / 2
  dupNode (word msg 1 + 1) p (2 * word msg 3 + word msg 17) (p / 2 * 4 + p % 2)

/-- The value 0 twice. -/
def dupXs : List Nat := [0, 1, 0, 3] ++ (List.range 252).map (4 + ·)

def dupFn : Fns (List Nat) (List Nat) := hashFns dupG1 dupH 12

/-- **C106.** The two differ: a proof in which a value is repeated, accepted without a GPU, and rejected with
    one, since the value 2 it looks at in addition gives further proofs. -/
theorem C106_differs :
    verify dupFn isort exChal dupXs (dupXs.eraseDups) = .ok 256 ∧
    ∃ v, bump [] (dupXs.map (BitVec.ofNat 32)) = some v ∧
      verify dupFn isort exChal dupXs (v.map BitVec.toNat) = .throw := by
  refine ⟨by decide +kernel, (List.range 256).map (BitVec.ofNat 32), by decide +kernel, by decide +kernel⟩

/-- Without the GPU the order is a possible one. -/
example : IsOrder 0 dupXs dupXs.eraseDups ∧ IsSort dupFn.lt isort :=
  ⟨isOrder_zero_of (by decide +kernel) (by decide +kernel)
    (fun x => ⟨(by decide +kernel : ∀ x ∈ dupXs.eraseDups, x ∈ dupXs) x,
      (by decide +kernel : ∀ x ∈ dupXs, x ∈ dupXs.eraseDups) x⟩), isSort_isort _ _ _⟩

end Verif.Pos
