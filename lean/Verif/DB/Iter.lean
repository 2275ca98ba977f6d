import Verif.DB.Model

/-!
# Model of the table iterator (`src/DataBase.cpp:753-1002`, `include/mmx/DataBase.h`)

An iterator holds one pointer for each block file and one for the memory index, in a `std::map`
ordered by key (in the direction of travel) and then by version, newest first.  Exceptions and reads
outside of the data are the outcome `none`.
-/

namespace Verif.DB

variable {K V : Type} [LinearOrder K]

/-- What a pointer points into: `pointer_t::block` when set, otherwise `pointer_t::iter` into
`mem_index` (DataBase.h, `Iterator::pointer_t`). -/
inductive Src (K V : Type) where
  | block (b : Block K V)
  | mem

/-- One element of `block_map`: the map key `(key, version)` and the value are `ent`;
`pos` is `pointer_t::pos`, or the offset of `pointer_t::iter` from `mem_index.begin()`. -/
structure IPtr (K V : Type) where
  ent : Entry K V
  src : Src K V
  pos : Nat

/-- `Table::Iterator`: `direction` and `block_map` in map order. -/
structure Iter (K V : Type) where
  dir : Int
  map : List (IPtr K V)

/-- A new iterator (DataBase.cpp:753-764; `direction` starts at 0, DataBase.h). -/
def Iter.fresh : Iter K V := { dir := 0, map := [] }

/-- `Iterator::compare_t` (DataBase.cpp:772-783) for a non-zero direction. -/
def itBefore (fwd : Bool) (a b : Entry K V) : Bool :=
  if a.key = b.key then decide (b.ver < a.ver)
  else if fwd then decide (a.key < b.key) else decide (b.key < a.key)

/-- `block_map[(key, version)] = next`: insert at the sorted place, replace on an equal key. -/
def itInsert (fwd : Bool) (p : IPtr K V) : List (IPtr K V) → List (IPtr K V)
  | [] => [p]
  | q :: m =>
    if itBefore fwd p.ent q.ent then p :: q :: m
    else if itBefore fwd q.ent p.ent then q :: itInsert fwd p m
    else p :: m

/-- `block_map.erase(iter)`. -/
def itErase (fwd : Bool) (p : IPtr K V) (m : List (IPtr K V)) : List (IPtr K V) :=
  m.filter fun q => itBefore fwd p.ent q.ent || itBefore fwd q.ent p.ent

/-- The neighbour of a pointer in its source, in the direction of travel
(DataBase.cpp:827-844 backward, 865-883 forward).  Inner `none`: there is no neighbour. -/
def Table.advance (t : Table K V) (fwd : Bool) (p : IPtr K V) : Option (Option (IPtr K V)) :=
  match p.src with
  | .block b =>
    if fwd then
      if p.pos + 1 < b.index.length then
        match b.at (p.pos + 1) with
        | none => none
        | some e => some (some { ent := e, src := .block b, pos := p.pos + 1 })
      else some none
    else
      if 0 < p.pos then
        match b.at (p.pos - 1) with
        | none => none
        | some e => some (some { ent := e, src := .block b, pos := p.pos - 1 })
      else some none
  | .mem =>
    if fwd then
      match t.idx[p.pos + 1]? with
      | none => some none
      | some e => some (some { ent := e, src := .mem, pos := p.pos + 1 })
    else
      if 0 < p.pos then
        match t.idx[p.pos - 1]? with
        | none => none
        | some e => some (some { ent := e, src := .mem, pos := p.pos - 1 })
      else some none

/-- The loop "iterate until next key" of `next` and `prev` (DataBase.cpp:823-846, 861-884).  The
first argument bounds the number of rounds; `Iter.next`/`Iter.prev` pass the size of the map and
running out of it is a failure (`step_spec` shows it does not happen).  `iter` is always the first
element of the map: a neighbour sorts behind the element it comes from. -/
def Table.stepLoop (t : Table K V) (fwd : Bool) (prev : K) :
    Nat → List (IPtr K V) → Option (List (IPtr K V))
  | _, [] => some []
  | n, p :: m =>
    if p.ent.key = prev then
      match n with
      | 0 => none
      | n + 1 =>
        match t.advance fwd p with
        | none => none
        | some none => t.stepLoop fwd prev n (itErase fwd p (p :: m))
        | some (some q) => t.stepLoop fwd prev n (itErase fwd p (itInsert fwd q (p :: m)))
    else some (p :: m)

/-- The part of `seek` done for one block (DataBase.cpp:942-983); inner `none` is `continue`. -/
def seekBlock (b : Block K V) (key : Option K) (mode : Int) : Option (Option (IPtr K V)) :=
  let start : Option (Nat × Option (Entry K V)) :=
    match key with
    | some k =>
      match lowerBound b k with
      | none => none
      | some r => some (r.pos, r.ent)
    | none =>
      if mode = 0 then
        if 0 < b.index.length then
          match b.at 0 with
          | none => none
          | some e => some (0, some e)
        else some (0, none)
      else if mode < 0 then some (b.index.length, none)
      else some (0, none)
  match start with
  | none => none
  | some (pos, ent) =>
    if mode < 0 then
      if pos = 0 then some none
      else
        match b.at (pos - 1) with
        | none => none
        | some e => some (some { ent := e, src := .block b, pos := pos - 1 })
    else if 0 < mode then
      if b.index.length ≤ pos + 1 then some none
      else
        match b.at (pos + 1) with
        | none => none
        | some e => some (some { ent := e, src := .block b, pos := pos + 1 })
    else
      match ent with
      | none => some none
      | some e => some (some { ent := e, src := .block b, pos := pos })

/-- `Iterator::seek(blocks, key, mode)` (DataBase.cpp:937-984). -/
def seekBlocks (fwd : Bool) (key : Option K) (mode : Int) :
    List (Block K V) → List (IPtr K V) → Option (List (IPtr K V))
  | [], m => some m
  | b :: bs, m =>
    match seekBlock b key mode with
    | none => none
    | some none => seekBlocks fwd key mode bs m
    | some (some p) => seekBlocks fwd key mode bs (itInsert fwd p m)

/-- Position of `mem_index.lower_bound(key)`. -/
def idxLower (k : K) (idx : List (Entry K V)) : Nat :=
  (idx.takeWhile fun e => decide (e.key < k)).length

/-- First position of `iter` in `seek` (DataBase.cpp:911-916). -/
def memStart (idx : List (Entry K V)) (key : Option K) (mode : Int) : Nat :=
  match key with
  | some k => idxLower k idx
  | none => if mode < 0 then idx.length else 0

/-- The part of `seek` done for the memory index (DataBase.cpp:909-934); positions past the last
element are `mem_index.end()`. -/
def seekMem (idx : List (Entry K V)) (key : Option K) (mode : Int) : Option (IPtr K V) :=
  let pos := memStart idx key mode
  let pos : Nat :=
    if mode < 0 then (if pos ≠ 0 then pos - 1 else idx.length)
    else if 0 < mode then (if pos ≠ idx.length then pos + 1 else pos)
    else pos
  match idx[pos]? with
  | none => none
  | some e => some { ent := e, src := .mem, pos := pos }

/-- `Iterator::seek(key, mode)` (DataBase.cpp:905-935). -/
def Table.seekMode (t : Table K V) (key : Option K) (mode : Int) : Option (Iter K V) :=
  let fwd : Bool := decide (0 ≤ mode)
  match seekBlocks fwd key mode t.blocks [] with
  | none => none
  | some m =>
    some { dir := if 0 ≤ mode then 1 else -1,
           map := match seekMem t.idx key mode with
             | none => m
             | some p => itInsert fwd p m }

/-- `is_valid` (DataBase.cpp:785-788). -/
def Iter.valid (it : Iter K V) : Bool := !it.map.isEmpty && decide (it.dir ≠ 0)

/-- `current` (DataBase.cpp:790-797): what `key()`, `version()` and `value()` (799-812) show;
`none` is the exception of an invalid iterator. -/
def Iter.current (it : Iter K V) : Option (Entry K V) :=
  if it.valid then it.map.head?.map (·.ent) else none

/-- `seek_begin` (DataBase.cpp:890-893). -/
def Table.seekBegin (t : Table K V) : Option (Iter K V) := t.seekMode none 0
/-- `seek_last` (DataBase.cpp:895-898). -/
def Table.seekLast (t : Table K V) : Option (Iter K V) := t.seekMode none (-1)
/-- `seek` (DataBase.cpp:900-903). -/
def Table.seek (t : Table K V) (k : K) : Option (Iter K V) := t.seekMode (some k) 0
/-- `seek_next` (DataBase.cpp:986-989). -/
def Table.seekNext (t : Table K V) (k : K) : Option (Iter K V) := t.seekMode (some k) 1
/-- `seek_prev` (DataBase.cpp:991-994). -/
def Table.seekPrev (t : Table K V) (k : K) : Option (Iter K V) := t.seekMode (some k) (-1)

/-- `next` (DataBase.cpp:852-888). -/
def Table.next (t : Table K V) (it : Iter K V) : Option (Iter K V) :=
  match it.current with
  | none => none
  | some e =>
    if 0 < it.dir then
      match t.stepLoop true e.key it.map.length it.map with
      | none => none
      | some m => some { it with map := m }
    else t.seekNext e.key

/-- `prev` (DataBase.cpp:814-850). -/
def Table.prev (t : Table K V) (it : Iter K V) : Option (Iter K V) :=
  match it.current with
  | none => none
  | some e =>
    if it.dir < 0 then
      match t.stepLoop false e.key it.map.length it.map with
      | none => none
      | some m => some { it with map := m }
    else t.seekPrev e.key

/-- `seek_for_prev` (DataBase.cpp:996-1002). -/
def Table.seekForPrev (t : Table K V) (k : K) : Option (Iter K V) :=
  match t.seek k with
  | none => none
  | some it =>
    match it.current with
    | none => some it
    | some e => if e.key ≠ k then t.prev it else some it

/-- The calls on an iterator. -/
inductive IOp (K : Type) where
  | seekBegin
  | seekLast
  | seek (k : K)
  | seekPrev (k : K)
  | next
  | prev

/-- One call; `none` is an exception. -/
def Table.iterStep (t : Table K V) (it : Iter K V) : IOp K → Option (Iter K V)
  | .seekBegin => t.seekBegin
  | .seekLast => t.seekLast
  | .seek k => t.seek k
  | .seekPrev k => t.seekPrev k
  | .next => t.next it
  | .prev => t.prev it

/-- A caller's loop `for(; it.is_valid(); it.next())` (or `prev`) collecting keys and values, as in
table.h and multi_table.h.  The first argument bounds the rounds, running out of it is a failure. -/
def Table.collect (t : Table K V) (fwd : Bool) : Nat → Iter K V → Option (List (K × V))
  | n, it =>
    match it.current with
    | none => some []
    | some e =>
      match n with
      | 0 => none
      | n + 1 =>
        match (if fwd then t.next it else t.prev it) with
        | none => none
        | some it' => (t.collect fwd n it').map ((e.key, e.val) :: ·)

end Verif.DB
