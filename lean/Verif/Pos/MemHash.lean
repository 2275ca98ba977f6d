import Verif.Hash.CudaLemmas
import Verif.Pos.Tables
/-
  Model of the hash of table 1: src/pos/mem_hash.cpp and `compute_f1` in src/pos/verify.cpp on the CPU,
  src/pos/cuda_recompute.cu on the GPU.

  A little-endian machine is assumed, as in Verif/Hash.
-/
namespace Verif.Pos

open Verif.Hash (Byte upd ofLE toLE wordBytes)

abbrev W := BitVec 32

/-! ### both -/

/-- `MEM_HASH_INIT`, mem_hash.cpp:19-22 and cuda_recompute.cu:43-47. -/
def memHashInit : List W := [
  0x428a2f98, 0x71374491, 0xb5c0fbcf, 0xe9b5dba5, 0x3956c25b, 0x59f111f1, 0x923f82a4, 0xab1c5ed5,
  0xd807aa98, 0x12835b01, 0x243185be, 0x550c7dc3, 0x72be5d74, 0x80deb1fe, 0x9bdc06a7, 0xc19bf174]

/-- `n` words from bytes in memory. -/
def wordsLE (n : Nat) (bytes : List Byte) : List W :=
  (List.range n).map fun i => ofLE 32 ((bytes.drop (4 * i)).take 4)

/-- The variables of `gen_mem_array` and of `cuda_gen_mem_array`. -/
structure Gen where
  s : Nat → W
  b : W
  c : W

/-- `MMXPOS_HASHROUND(state[k], b, c, state[16 + k])`, include/mmx/pos/util.h:29-37 and
    cuda_recompute.cu:32-40; `rot` is the rotation used. -/
def hashRound (rot : W → Nat → W) (g : Gen) (k : Nat) : Gen :=
  let a1 := g.s k + g.b
  let d1 := rot (g.s (16 + k) ^^^ a1) 16
  let c1 := g.c + d1
  let b1 := rot (g.b ^^^ c1) 12
  let a2 := a1 + b1
  let d2 := rot (d1 ^^^ a2) 8
  let c2 := c1 + d2
  let b2 := rot (b1 ^^^ c2) 7
  { s := upd (upd g.s k a2) (16 + k) d2, b := b2, c := c2 }

/-- The rounds between two rows of memory, mem_hash.cpp:43-47 and cuda_recompute.cu:90-95. -/
def rounds (rot : W → Nat → W) (g : Gen) : Gen :=
  (List.range 4).foldl (fun g _ => (List.range 16).foldl (hashRound rot) g) g

/-- The state at the start, mem_hash.cpp:29-39 and cuda_recompute.cu:77-86. -/
def genInit (key : List W) : Gen :=
  { s := fun i => if i < 16 then key.getD i 0 else memHashInit.getD (i - 16) 0, b := 0, c := 0 }

/-- `dir`, mem_hash.cpp:69 and cuda_recompute.cu:135. -/
def dirOf (sum : W) : W := sum + sum <<< 11 + sum <<< 22

/-! ### CPU -/

/-- `rotl_32`, include/mmx/pos/util.h:52-59. For `bits = 0` it shifts right by 32, which is undefined in
    C++: `shr` is what the compiler made of it. -/
def rotC (shr : W → W) (v : W) (bits : Nat) : W :=
  v <<< bits ||| (if bits = 0 then shr v else v >>> (32 - bits))

/-- Both usual results of `v >> 32`: `0`, or `v` where the processor takes the count modulo 32. -/
def ShrOk (shr : W → W) : Prop := ∀ v, v ||| shr v = v

/-- mem_hash.cpp:48-50. -/
def storeRow (mem : Nat → W) (base : Nat) (s : Nat → W) : Nat → W :=
  (List.range 32).foldl (fun m k => upd m (base + k) (s k)) mem

/-- `gen_mem_array`, mem_hash.cpp:24-52, for `mem_size = 1024`; `mem` is what the buffer held before. -/
def genMemArray (rot : W → Nat → W) (mem : Nat → W) (key : List W) : Nat → W :=
  ((List.range 32).foldl
    (fun (x : Gen × (Nat → W)) i => (rounds rot x.1, storeRow x.2 (32 * i) (rounds rot x.1).s))
    (genInit key, mem)).2

/-- `mem` and `state` of `calc_mem_hash`. -/
structure Calc where
  mem : Nat → W
  state : Nat → W

/-- `sum`, mem_hash.cpp:65-68. -/
def sumC (rot : W → Nat → W) (state : Nat → W) : W :=
  (List.range 32).foldl (fun acc i => acc + rot (state i) (i % 32)) 0

/-- The first inner loop, mem_hash.cpp:74-76. -/
def addC (rot : W → Nat → W) (mem : Nat → W) (off iter bits : Nat) (sum : W) (state : Nat → W) : Nat → W :=
  (List.range 32).foldl
    (fun st i => upd st i (st i + (rot (mem (off * 32 + (iter + i) % 32)) bits ^^^ sum))) state

/-- The second inner loop, mem_hash.cpp:77-79. -/
def xorC (off : Nat) (state : Nat → W) (mem : Nat → W) : Nat → W :=
  (List.range 32).foldl (fun m i => upd m (off * 32 + i) (m (off * 32 + i) ^^^ state i)) mem

/-- One turn of the loop, mem_hash.cpp:63-80. -/
def iterC (rot : W → Nat → W) (x : Calc) (iter : Nat) : Calc :=
  let sum := sumC rot x.state
  let bits := (dirOf sum >>> 22).toNat % 32
  let off := (dirOf sum >>> 27).toNat
  let state := addC rot x.mem off iter bits sum x.state
  { mem := xorC off state x.mem, state := state }

/-- `calc_mem_hash`, mem_hash.cpp:54-83, with `num_iter = MEM_HASH_ITER = 256`: the words of `hash`. -/
def calcMemHash (rot : W → Nat → W) (mem : Nat → W) : List W :=
  (List.range 32).map
    ((List.range 256).foldl (iterC rot) { mem := mem, state := fun i => mem (31 * 32 + i) }).state

/-- `hash_512_t(data)`, src/hash_512_t.cpp:16-21. -/
def hash512 (junk : Nat → BitVec 64) (buf data : List Byte) : List Byte :=
  ((Verif.Hash.Hasher.new buf).writes junk [data]).finalize junk

/-- `Y_i` and `meta` from the words of a hash, verify.cpp:75-81. -/
def splitW (km : W) (hash : List W) : W × List W :=
  (((hash.take 14).foldl (· ^^^ ·) 0) &&& km, (hash.take 14).map (· &&& km))

/-- The words of `mem_hash_hash`, verify.cpp:56-73, for `X_i`. `buf`, `buf'` and `mem` are what the
    memory of the two hash objects and of `mem_buf` held before. -/
def tableHash (rot : W → Nat → W) (junk : Nat → BitVec 64) (buf buf' : List Byte) (mem : Nat → W)
    (id : List Byte) (X : W) : List W :=
  let key := hash512 junk buf (toLE 4 X ++ id)
  let memHash := calcMemHash rot (genMemArray rot mem (wordsLE 16 key))
  wordsLE 16 (hash512 junk buf' (key ++ wordBytes 4 memHash))

/-- One entry of table 1, verify.cpp:54-88. -/
def entryC (rot : W → Nat → W) (junk : Nat → BitVec 64) (buf buf' : List Byte) (mem : Nat → W) (km : W)
    (id : List Byte) (X : W) : W × List W :=
  splitW km (tableHash rot junk buf buf' mem id X)

/-! ### GPU: one warp -/

/-- `cuda_rotl_32`, cuda_recompute.cu:27-30: `__funnelshift_l(w, w, c)` is the upper half of `w:w` shifted
    left by `c` modulo 32. -/
def rotG (v : W) (c : Nat) : W := (((v ++ v : BitVec 64) <<< (c % 32)) >>> 32).setWidth 32

/-- `__shfl_down_sync`: the value of the lane `off` further; the last lanes get their own. -/
def shflDown (v : Nat → W) (off : Nat) : Nat → W := fun l => if l + off < 32 then v (l + off) else v l

/-- The sum of the lanes, cuda_recompute.cu:128-132. -/
def sumG (state : Nat → W) : Nat → W :=
  [16, 8, 4, 2, 1].foldl (fun v off => fun l => v l + shflDown v off l) (fun l => rotG (state l) (l % 32))

/-- The registers `sum` and `dir` after the two `__shfl_sync`, cuda_recompute.cu:137-138. -/
def castG (v : Nat → W) : Nat → W := fun _ => v 0

/-- `dir` before that, cuda_recompute.cu:133-136. -/
def dirG (sum : Nat → W) : Nat → W := fun l => if l = 0 then dirOf (sum l) else 0

/-- One turn of the loop for the 32 lanes of a warp, cuda_recompute.cu:126-150. Between the two
    `__syncwarp` the lanes execute `atomicXor` in the order `order`. -/
def iterG (order : List Nat) (x : Calc) (iter : Nat) : Calc :=
  let sum := castG (sumG x.state)
  let dir := castG (dirG (sumG x.state))
  let bits := fun l => (dir l >>> 22).toNat % 32
  let off := fun l => (dir l >>> 27).toNat
  let state := fun l => x.state l + (rotG (x.mem (off l * 32 + (iter + l) % 32)) (bits l) ^^^ sum l)
  { mem := order.foldl (fun m l => upd m (off l * 32 + l) (m (off l * 32 + l) ^^^ state l)) x.mem
    state := state }

/-- `cuda_calc_mem_hash` for the warp of entry `y`, cuda_recompute.cu:105-153: the value of each lane.
    `mem` is the global memory, `orders` the order of the lanes in each turn. -/
def warp (orders : Nat → List Nat) (num : Nat) (mem : Nat → W) (y : Nat) : Nat → W :=
  ((List.range 256).foldl (fun x iter => iterG (orders iter) x iter)
    { mem := fun a => mem ((a / 32 * num + y) * 32 + a % 32)
      state := fun l => mem ((31 * num + y) * 32 + l) }).state

/-! ### GPU: the kernels -/

/-- A memory that the threads of a kernel may leave, when they write these words in any order. -/
def Wrote (ws : List (Nat × W)) (m m' : Nat → W) : Prop :=
  ∃ order : List (Nat × W), order.Perm ws ∧ m' = order.foldl (fun m w => upd m w.1 w.2) m

/-- The words of `msg` or `key` seen as 64 bit words. -/
def pack (ws : List W) : List (BitVec 64) :=
  (List.range (ws.length / 2)).map fun i => ofLE 64 (((wordBytes 4 ws).drop (8 * i)).take 8)

/-- A thread of `cuda_gen_mem_array`: `blockIdx.y = z` is the request, `blockIdx.x = y`,
    `threadIdx.x = x`. -/
structure Thread where
  z : Nat
  y : Nat
  x : Nat

/-- All threads of a grid of `M` times `N` blocks of 256. -/
def threads (M N : Nat) : List Thread :=
  (List.range M).flatMap fun z => (List.range N).flatMap fun y => (List.range 256).map fun x => ⟨z, y, x⟩

/-- `out`, cuda_recompute.cu:56. -/
def Thread.out (N : Nat) (t : Thread) : Nat := (t.z * N + t.y) * 256 + t.x

/-- `X_i`, cuda_recompute.cu:59. -/
def Thread.X (xin : Nat → W) (xbits y0 : Nat) (t : Thread) : W :=
  xin (t.z * 256 + t.x) <<< xbits ||| BitVec.ofNat 32 (y0 + t.y)

/-- `msg`, cuda_recompute.cu:62-68. -/
def keyMsg (X : W) (id : Nat → W) : List W := X :: (List.range 8).map id ++ List.replicate 23 0

/-- `key`, cuda_recompute.cu:69-71; `none` if the hash leaves its buffer. -/
def keyG (junk : Nat → BitVec 64) (X : W) (id : Nat → W) : Option (List W) :=
  (Verif.Hash.Cuda.sha512 junk (pack (keyMsg X id)) 36).map fun k => wordsLE 16 (wordBytes 8 k)

/-- Row `i` of the memory of a thread, cuda_recompute.cu:77-102. -/
def rowG (key : List W) (i : Nat) : Nat → W :=
  ((List.range (i + 1)).foldl (fun g _ => rounds rotG g) (genInit key)).s

/-- What `cuda_gen_mem_array` writes to `X_out`, cuda_recompute.cu:60. -/
def writesX (M N : Nat) (xin : Nat → W) (xbits y0 : Nat) : List (Nat × W) :=
  (threads M N).map fun t => (t.out N, t.X xin xbits y0)

/-- What it writes to `key_out`, cuda_recompute.cu:73-75. -/
def writesKey (M N : Nat) (key : Thread → List W) : List (Nat × W) :=
  (threads M N).flatMap fun t => (List.range 16).map fun i => (t.out N * 16 + i, (key t).getD i 0)

/-- What it writes to `mem_out`, cuda_recompute.cu:97-101. -/
def writesMem (M N : Nat) (key : Thread → List W) : List (Nat × W) :=
  (threads M N).flatMap fun t => (List.range 32).flatMap fun i => (List.range 32).map fun k =>
    ((i * (M * N * 256) + t.out N) * 32 + k, rowG (key t) i k)

/-- The entries of the warps of `cuda_calc_mem_hash`, cuda_recompute.cu:110 with the grid of
    cuda_recompute.cu:572-573: 64 times `gy` blocks of 4 warps. -/
def warps (gy : Nat) : List Nat :=
  (List.range 64).flatMap fun bz => (List.range gy).flatMap fun by_ => (List.range 4).map fun ty =>
    (bz * gy + by_) * 4 + ty

/-- What `cuda_calc_mem_hash` writes to `hash`, cuda_recompute.cu:152. -/
def writesHash (gy : Nat) (orders : Nat → Nat → List Nat) (mem : Nat → W) : List (Nat × W) :=
  (warps gy).flatMap fun y => (List.range 32).map fun x =>
    (y * 32 + x, warp (orders y) (64 * (gy * 4)) mem y x)

/-- The entries of the threads of `cuda_final_mem_hash`, cuda_recompute.cu:158 with `blocks` blocks of 256. -/
def finals (blocks : Nat) : List Nat :=
  (List.range blocks).flatMap fun b => (List.range 256).map fun x => b * 256 + x

/-- The hash of `cuda_final_mem_hash`, cuda_recompute.cu:160-178. -/
def hashG (junk : Nat → BitVec 64) (key memHash : Nat → W) (x : Nat) : Option (List W) :=
  (Verif.Hash.Cuda.sha512 junk
    (pack ((List.range 16).map (fun i => key (x * 16 + i)) ++
      (List.range 32).map (fun i => memHash (x * 32 + i)) ++ List.replicate 16 0)) 192).map
    fun h => wordsLE 16 (wordBytes 8 h)

/-- `hash` after the loops that cut it, cuda_recompute.cu:180-187. -/
def cutG (km : W) (hash : List W) : List W := (hash.take 14).map (· &&& km) ++ [0, 0]

/-- `Y_i`, cuda_recompute.cu:180-188. -/
def yG (km : W) (hash : List W) : W := ((hash.take 14).foldl (· ^^^ ·) 0) &&& km

/-- What `cuda_final_mem_hash` writes to `hash_out`, cuda_recompute.cu:190-192. -/
def writesM (blocks : Nat) (km : W) (hash : Nat → List W) : List (Nat × W) :=
  (finals blocks).flatMap fun x => (List.range 16).map fun i => (x * 16 + i, (cutG km (hash x)).getD i 0)

/-- What it writes to `Y_out`, cuda_recompute.cu:193. -/
def writesY (blocks : Nat) (km : W) (hash : Nat → List W) : List (Nat × W) :=
  (finals blocks).map fun x => (x, yG km (hash x))

/-- The three kernels of one pass, cuda_recompute.cu:557-588: `X_out`, `Y_dev` and `M_dev` that they may
    leave. `xin` is `X_dev`, `idin` is `ID_dev`. -/
def Pass (M N xbits y0 : Nat) (km : W) (xin idin X Y Mt : Nat → W) : Prop :=
  ∃ (junk : Thread → Nat → BitVec 64) (junk' : Nat → Nat → BitVec 64) (orders : Nat → Nat → List Nat)
    (key : Thread → List W) (hash : Nat → List W)
    (X0 key0 mem0 hash0 M0 Y0 keyDev memDev hashDev : Nat → W),
    (∀ y iter, (orders y iter).Perm (List.range 32)) ∧
    (∀ t ∈ threads M N, keyG (junk t) (t.X xin xbits y0) (fun i => idin (t.z * 8 + i)) = some (key t)) ∧
    Wrote (writesX M N xin xbits y0) X0 X ∧
    Wrote (writesKey M N key) key0 keyDev ∧
    Wrote (writesMem M N key) mem0 memDev ∧
    Wrote (writesHash (256 * N * M / 4 / 64) orders memDev) hash0 hashDev ∧
    (∀ x ∈ finals (N * M), hashG (junk' x) keyDev hashDev x = some (hash x)) ∧
    Wrote (writesM (N * M) km hash) M0 Mt ∧
    Wrote (writesY (N * M) km hash) Y0 Y

/-! ### the host -/

/-- `memcpy` of words from `src + soff` to `dst + off`. -/
def copyTo {γ : Type} (dst : Nat → γ) (off : Nat) (src : Nat → γ) (soff n : Nat) : Nat → γ :=
  fun j => if off ≤ j ∧ j < off + n then src (soff + (j - off)) else dst j

/-- `while(!x_set.insert(x).second) x++`, cuda_recompute.cu:545-547; `none` if the loop would go on. -/
def nextFree : Nat → List W → W → Option W
  | 0, _, _ => none
  | fuel + 1, seen, x => if x ∈ seen then nextFree fuel seen (x + 1) else some x

/-- The loop over `x_values`, cuda_recompute.cu:544-548. A set of `n` elements can turn away at most `n`
    values. -/
def bump : List W → List W → Option (List W)
  | _, [] => some []
  | seen, x :: rest =>
    match nextFree (seen.length + 1) seen x with
    | none => none
    | some y =>
      match bump (y :: seen) rest with
      | none => none
      | some l => some (y :: l)

/-- How many requests are taken for a buffer, cuda_recompute.cu:508-521. -/
def takeReqs (buffer reqSize : Nat) : Nat → Nat → Nat → Nat
  | 0, n, _ => n
  | waiting + 1, n, sum =>
    if sum = 0 ∨ sum + reqSize ≤ buffer then takeReqs buffer reqSize waiting (n + 1) (sum + reqSize) else n

/-- `buffer_size` of a device, cuda_recompute.cu:341-345: doubled until it reaches the number of resident
    threads, then a quarter. `none` if the loop would go on. -/
def bufferSize (maxResident : Nat) : Nat → Nat → Option Nat
  | 0, _ => none
  | fuel + 1, b => if b < maxResident then bufferSize maxResident fuel (2 * b) else some (b / 4)

/-- `num_iter`, cuda_recompute.cu:528-531; `none` if the loop would go on. -/
def numIter (buffer reqSize : Nat) : Nat → Nat → Option Nat
  | 0, _ => none
  | fuel + 1, n => if reqSize / n > buffer then numIter buffer reqSize fuel (2 * n) else some n

/-- The values of the requests in `X_dev`, cuda_recompute.cu:549 and 554. -/
def xDev (reqs : List (List W)) : Nat → W := fun a => (reqs.getD (a / 256) []).getD (a % 256) 0

/-- `M_tmp` of one entry in `M_buf`, cuda_recompute.cu:614-616. -/
def metaAt (Mt : Nat → W) (a : Nat) : List W := (List.range 14).map fun i => Mt (a * 16 + i)

/-- `X_tmp`, `Y_tmp` and `M_tmp` of request `i` after all passes, cuda_recompute.cu:609-617.
    `X iter`, `Y iter`, `Mt iter` are the results of the passes. -/
def collect {γ : Type} (N passes i : Nat) (init : Nat → γ) (src : Nat → Nat → γ) : Nat → γ :=
  (List.range passes).foldl (fun dst iter => copyTo dst (iter * (256 * N)) (src iter) (i * (256 * N)) (256 * N)) init

/-- What a GPU may give for the requests `reqs` (ids and values) taken together:
    `cuda_recompute_loop`, cuda_recompute.cu:528-618. For each request `X_tmp`, `Y_tmp`, `M_tmp`. -/
def GpuGives (buffer xbits ksize : Nat) (reqs : List (List Byte × List W))
    (res : Nat → List (W × W × List W)) : Prop :=
  ∃ (passes : Nat) (values : List (List W)) (X Y Mt : Nat → Nat → W) (X0 Y0 : Nat → W) (M0 : Nat → List W),
    numIter buffer (256 * 2 ^ xbits) (xbits + 10) 1 = some passes ∧
    values.length = reqs.length ∧
    (∀ (i : Nat) (r : List Byte × List W) (v : List W), reqs[i]? = some r → values[i]? = some v →
      bump [] r.2 = some v) ∧
    (∀ iter < passes, Pass reqs.length (2 ^ xbits / passes) xbits (iter * (2 ^ xbits / passes))
      (BitVec.ofNat 32 (kmask ksize)) (xDev values)
      (fun a => (wordsLE 8 (reqs.getD (a / 8) ([], [])).1).getD (a % 8) 0) (X iter) (Y iter) (Mt iter)) ∧
    ∀ i < reqs.length, res i = (List.range (256 * 2 ^ xbits)).map fun j =>
      (collect (2 ^ xbits / passes) passes i X0 X j, collect (2 ^ xbits / passes) passes i Y0 Y j,
        collect (2 ^ xbits / passes) passes i M0 (fun iter => metaAt (Mt iter)) j)

end Verif.Pos
