/-
  Which plots a harvester farms: `Harvester::find_plot_dirs` and `Harvester::reload`, src/Harvester.cpp:422-598, and the
  start of a lookup, src/Harvester.cpp:191-199.

  Paths are of any type `π`; keys, plot ids and contracts are numbers.
-/
import Verif.Base

namespace Verif.Farm.Plots

variable {π : Type} [DecidableEq π]

/-- One file of `vnx::Directory::files()`: its path, name and extension (vnx is not in the repository). -/
structure FileEnt (π : Type) where
  path : π
  name : List Char
  ext : List Char

/-- One directory of `vnx::Directory::directories()`. -/
structure DirEnt (π : Type) where
  path : π
  name : List Char

/-- What is on the disks: `none` if listing throws.  Making a `vnx::Directory` is taken not to throw in
    `find_plot_dirs`, where it is outside of the `try` (line 429); in `reload` it is the same as if listing throws. -/
structure Disk (π : Type) where
  files : π → Option (List (FileEnt π))
  dirs : π → Option (List (DirEnt π))

def dotPlot : List Char := ['.', 'p', 'l', 'o', 't']
def plotMmx : List Char := ['p', 'l', 'o', 't', '-', 'm', 'm', 'x', '-']

/-- `std::set::insert`. -/
def ins (x : π) (l : List π) : List π := if x ∈ l then l else x :: l

/-- Lines 438-443, for one sub directory. -/
def addSub (black : List (List Char)) (all : List π) (subs : List π) (d : DirEnt π) : List π :=
  if d.path ∈ all then subs
  else if d.name ∈ black then subs
  else ins d.path subs

/-- Lines 428-449, for one directory: `all_dirs` and `sub_dirs`. -/
def scan (disk : Disk π) (black : List (List Char)) (s : List π × List π) (path : π) : List π × List π :=
  match disk.files path with
  | none => s
  | some l =>
    let all := if l.any (fun f => f.ext == dotPlot) then ins path s.1 else s.1
    match disk.dirs path with
    | none => (all, s.2)
    | some ds => (all, ds.foldl (addSub black all) s.2)

/-- `Harvester::find_plot_dirs`, src/Harvester.cpp:422-453; the first argument is `max_recursion + 1 - depth`.  `order` is
    the order in which a `std::set` of paths is visited. -/
def findDirs (disk : Disk π) (black : List (List Char)) (order : List π → List π) : Nat → List π → List π → List π
  | 0, _, all => all
  | n + 1, dirs, all =>
    let r := (order dirs).foldl (scan disk black) (all, [])
    if r.2 = [] then r.1 else findDirs disk black order n r.2 r.1

/-- What is used of a `pos::Prover`. -/
structure Plot where
  id : Nat
  key : Nat
  ksize : Nat
  contract : Option Nat
  bytes : Nat
  deriving DecidableEq

/-- What a reload finds: the keys of the farmer, the directories and the disks, which plot a file has (`none` if
    `pos::Prover` throws), and the limits of `params`. -/
structure Env (π : Type) where
  keys : List Nat
  plotDirs : List π
  recursive : Bool
  maxRec : Nat
  black : List (List Char)
  disk : Disk π
  load : π → Option Plot
  minK : Nat
  maxK : Nat

/-- Lines 463-469. -/
def Env.dirList (e : Env π) (order : List π → List π) : List π :=
  if e.recursive then findDirs e.disk e.black order (e.maxRec + 1) e.plotDirs [] else e.plotDirs

/-- All files the tasks of lines 479-506 see, directory by directory. -/
def Env.seen (e : Env π) (order : List π → List π) : List (FileEnt π) :=
  (e.dirList order).flatMap fun d => (e.disk.files d).getD []

/-- `plot_map`: a file is in it once; the order is that of an `std::unordered_map`, that is any. -/
abbrev PMap (π : Type) := List (π × Plot)

/-- `plot_map.find`. -/
def get : PMap π → π → Option Plot
  | [], _ => none
  | x :: m, f => if x.1 = f then some x.2 else get m f

/-- `plot_map.insert`. -/
def insert (m : PMap π) (x : π × Plot) : PMap π := if (get m x.1).isSome then m else x :: m

/-- Line 493. -/
def isNew (m : PMap π) (f : FileEnt π) : Bool :=
  (get m f.path).isNone && f.ext == dotPlot && f.name.take 9 == plotMmx

/-- Lines 488-498 for one file: `missing` and `plot_files`.  Both parts take the lock. -/
def see (m : PMap π) (s : List π × List π) (f : FileEnt π) : List π × List π :=
  (s.1.filter (· ≠ f.path), if isNew m f then f.path :: s.2 else s.2)

/-- Lines 516-523: a file that can be loaded and has a permitted size. -/
def Env.open (e : Env π) (f : π) : Option (π × Plot) :=
  match e.load f with
  | none => none
  | some p => if p.ksize < e.minK ∨ p.ksize > e.maxK then none else some (f, p)

/-- Lines 547-552 for one plot. -/
def Env.add (e : Env π) (m : PMap π) (x : π × Plot) : PMap π := if x.2.key ∈ e.keys then insert m x else m

/-- `id_map.emplace`, line 567. -/
def emplace (ids : List (Nat × π)) (id : Nat) (f : π) : List (Nat × π) :=
  if id ∈ ids.map (·.1) then ids else (id, f) :: ids

/-- The state.  `asked` says if the last reload asked for all challenges to be checked again (lines 586-589). -/
structure H (π : Type) where
  plots : PMap π
  ids : List (Nat × π)
  bytes : Nat
  asked : Bool

def H.init : H π := { plots := [], ids := [], bytes := 0, asked := false }

/-- `Harvester::reload`, src/Harvester.cpp:455-598.  `files` are the files in the order in which the tasks of the first
    round see them, `found` the paths in the order in which the tasks of the second round finish, `walk` the plots in the
    order in which the `std::unordered_map` is visited.  Not modelled: the size in bytes is that of the file on disk
    (taken from the plot here, so that reading it cannot throw), the sums have 64 bits, and what is done about the
    contracts of plots. -/
def reload (e : Env π) (files : List (FileEnt π)) (found : List π) (walk : PMap π → PMap π) (s : H π) : H π :=
  let missing := (files.foldl (see s.plots) (s.plots.map (·.1), [])).1
  let plots := found.filterMap e.open
  let m1 := s.plots.filter fun x => x.1 ∉ missing
  let m2 := plots.foldl e.add m1
  { plots := m2
    ids := (walk m2).foldl (fun ids x => emplace ids x.2.id x.1) []
    bytes := ((walk m2).map fun x => x.2.bytes).sum
    asked := plots ≠ [] }

/-- `plot_files` of lines 477-506. -/
def plotFiles (files : List (FileEnt π)) (s : H π) : List π := (files.foldl (see s.plots) (s.plots.map (·.1), [])).2

/-- One reload, with what the threads and the containers did. -/
structure Round (π : Type) where
  env : Env π
  order : List π → List π
  files : List (FileEnt π)
  found : List π
  walk : PMap π → PMap π

/-- The rounds that can be: sets are visited completely, every file is seen, and every task of the second round runs. -/
def Round.Ok (r : Round π) (s : H π) : Prop :=
  (∀ l : List π, (r.order l).Perm l) ∧ (r.files.Perm (r.env.seen r.order)) ∧ (r.found.Perm (plotFiles r.files s)) ∧
    ∀ m : PMap π, (r.walk m).Perm m

/-- Reaching a state by reloads, first to last. -/
inductive Runs : List (Round π) → H π → Prop
  | init : Runs [] H.init
  | step {rs : List (Round π)} {s : H π} {r : Round π} : Runs rs s → r.Ok s →
      Runs (rs ++ [r]) (reload r.env r.files r.found r.walk s)

/-- The plots a lookup asks, src/Harvester.cpp:191-199: `none` for a plot that cannot be found. -/
def lookups (s : H π) : List (Nat × Option Plot) := s.ids.map fun x => (x.1, get s.plots x.2)

end Verif.Farm.Plots
