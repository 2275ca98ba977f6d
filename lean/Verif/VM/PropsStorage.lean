import Verif.VM.StorageLemmas
/-
  C22: a stack of storage caches behaves like a stack of copies.
-/
namespace Verif.VM
open Verif.Codec (Bytes le)

/-! ## Specification -/

/-- What a storage answers: variables, entries, keys (0: none) and balances. -/
structure View where
  mem : Bytes → Nat → Option Var
  ent : Bytes → Nat → Nat → Option Var
  key : Bytes → Val → Nat
  bal : Bytes → Bytes → Option Nat

/-- The database does not keep reference counts. -/
def keptVar (base : Bool) (x : Var) : Var := if base then noCount x else x

def View.setMem (base : Bool) (w : View) (c : Bytes) (a : Nat) (x : Var) : View :=
  { w with mem := fun c' a' => if c' = c ∧ a' = a then some (keptVar base x) else w.mem c' a'
           key := fun c' y => if x.isKey ∧ c' = c ∧ y = x.val then a else w.key c' y }

def View.setEnt (base : Bool) (w : View) (c : Bytes) (a k : Nat) (x : Var) : View :=
  { w with ent := fun c' a' k' => if c' = c ∧ a' = a ∧ k' = k then some (keptVar base x) else w.ent c' a' k' }

def View.setBal (w : View) (c cur : Bytes) (n : Nat) : View :=
  { w with bal := fun c' d => if c' = c ∧ d = cur then some n else w.bal c' d }

/-- The database after a commit of `v`, when it answered like `w` before: everything `v` says, but
    for reference counts and balances, which are not its business. -/
def View.toDb (v w : View) : View :=
  { mem := fun c a => (v.mem c a).map noCount, ent := fun c a k => (v.ent c a k).map noCount, key := v.key, bal := w.bal }

/-- A stack of views, outermost first; the last one is the database. A new cache is a copy, writes
    change the outermost view only, a commit replaces the view below, a dropped cache is gone.
    Not defined: writes without a cache, and a second variable for a key that is taken. -/
def spec : List View → SOp → Option (SAns × List View)
  | v :: vs, .readMem c a => some (.var (v.mem c a), v :: vs)
  | v :: vs, .readEnt c a k => some (.var (v.ent c a k), v :: vs)
  | v :: vs, .lookup c y => some (.key (v.key c y), v :: vs)
  | v :: vs, .getBal c cur => some (.bal (v.bal c cur), v :: vs)
  | v :: vs, .push => some (.done, v :: v :: vs)
  | v :: w :: vs, .writeMem c a x =>
    if x.isKey ∧ v.key c x.val ≠ 0 ∧ v.key c x.val ≠ a then none
    else some (.done, v.setMem false c a x :: w :: vs)
  | v :: w :: vs, .writeEnt c a k x => some (.done, v.setEnt false c a k x :: w :: vs)
  | v :: w :: vs, .setBal c cur n => some (.done, v.setBal c cur n :: w :: vs)
  | v :: w :: vs, .commit => some (.done, v :: (if vs.isEmpty then v.toDb w else v) :: vs)
  | _ :: w :: vs, .drop => some (.done, w :: vs)
  | _, _ => none

def specRun : List View → List SOp → Option (List SAns × List View)
  | vs, [] => some ([], vs)
  | vs, o :: l =>
    match spec vs o with
    | none => none
    | some (a, vs') =>
      match specRun vs' l with
      | none => none
      | some (r, ws) => some (a :: r, ws)

/-- Operations as an engine makes them: 64 bit addresses, values in range; a key is not at address
    0 and not an array. -/
def OpOk (S : Bytes → Prop) : SOp → Prop
  | .readMem c a => S c ∧ a < 2 ^ 64
  | .readEnt c a k => S c ∧ a < 2 ^ 64 ∧ k < 2 ^ 64
  | .lookup c y => S c ∧ y.Wf ∧ noArr y = true
  | .writeMem c a x => S c ∧ a < 2 ^ 64 ∧ x.Wf ∧ (x.isKey = true → a ≠ 0 ∧ noArr x.val = true)
  | .writeEnt c a k x => S c ∧ a < 2 ^ 64 ∧ k < 2 ^ 64 ∧ x.Wf
  | _ => True

/-- The database answers like the view. -/
structure Shows (S : Bytes → Prop) (w : View) (d : Db) : Prop where
  mem : ∀ c a, S c → a < 2 ^ 64 → dbDecode (d.table (dbKey c a)) = .ok (w.mem c a)
  ent : ∀ c a k, S c → a < 2 ^ 64 → k < 2 ^ 64 → dbDecode (d.entries (dbEntKey c a k)) = .ok (w.ent c a k)
  key : ∀ c y, S c → y.Wf → noArr y = true → d.lookup c y = .ok (w.key c y)
  bal : ∀ c cur, d.balance c cur = w.bal c cur

/-! ## The relation -/

/-- The same answers. -/
structure Eqv (S : Bytes → Prop) (v w : View) : Prop where
  mem : ∀ c a, S c → a < 2 ^ 64 → v.mem c a = w.mem c a
  ent : ∀ c a k, S c → a < 2 ^ 64 → k < 2 ^ 64 → v.ent c a k = w.ent c a k
  key : ∀ c y, S c → y.Wf → noArr y = true → v.key c y = w.key c y
  bal : ∀ c cur, v.bal c cur = w.bal c cur

variable {S : Bytes → Prop}

theorem Eqv.refl (v : View) : Eqv S v v := ⟨fun _ _ _ _ => rfl, fun _ _ _ _ _ _ => rfl, fun _ _ _ _ _ => rfl, fun _ _ => rfl⟩
theorem Eqv.symm {v w : View} (h : Eqv S v w) : Eqv S w v :=
  ⟨fun c a x y => (h.mem c a x y).symm, fun c a k x y z => (h.ent c a k x y z).symm,
    fun c y p q r => (h.key c y p q r).symm, fun c d => (h.bal c d).symm⟩
theorem Eqv.trans {u v w : View} (h : Eqv S u v) (g : Eqv S v w) : Eqv S u w :=
  ⟨fun c a x y => (h.mem c a x y).trans (g.mem c a x y), fun c a k x y z => (h.ent c a k x y z).trans (g.ent c a k x y z),
    fun c y p q r => (h.key c y p q r).trans (g.key c y p q r), fun c d => (h.bal c d).trans (g.bal c d)⟩

theorem Shows.congr {v w : View} {d : Db} (h : Shows S v d) (e : Eqv S v w) : Shows S w d :=
  ⟨fun c a x y => by rw [h.mem c a x y, e.mem c a x y], fun c a k x y z => by rw [h.ent c a k x y z, e.ent c a k x y z],
    fun c y p q r => by rw [h.key c y p q r, e.key c y p q r], fun c cur => by rw [h.bal, e.bal]⟩

theorem Eqv.setMem {v w : View} (h : Eqv S v w) (b : Bool) (c : Bytes) (a : Nat) (x : Var) :
    Eqv S (v.setMem b c a x) (w.setMem b c a x) :=
  ⟨fun c' a' p q => by simp only [View.setMem, h.mem c' a' p q], fun c a k p q r => h.ent c a k p q r,
    fun c' y p q r => by simp only [View.setMem, h.key c' y p q r], h.bal⟩
theorem Eqv.setEnt {v w : View} (h : Eqv S v w) (b : Bool) (c : Bytes) (a k : Nat) (x : Var) :
    Eqv S (v.setEnt b c a k x) (w.setEnt b c a k x) :=
  ⟨h.mem, fun c' a' k' p q r => by simp only [View.setEnt, h.ent c' a' k' p q r], h.key, h.bal⟩
theorem Eqv.setBal {v w : View} (h : Eqv S v w) (c cur : Bytes) (n : Nat) : Eqv S (v.setBal c cur n) (w.setBal c cur n) :=
  ⟨h.mem, h.ent, h.key, fun c' d => by simp only [View.setBal, h.bal c' d]⟩

/-- What a cache answers in front of a backend that answers like `w`. -/
def over (r : Ram) (w : View) : View :=
  { mem := fun c a => match mfind r.mem (c, a) with | some x => some x | none => w.mem c a
    ent := fun c a k => match mfind r.ents (c, a, k) with | some x => some x | none => w.ent c a k
    key := fun c y => if r.lookup c y ≠ 0 then r.lookup c y else w.key c y
    bal := fun c d => match mfind r.bal (c, d) with | some x => some x | none => w.bal c d }

theorem over_congr {v w : View} (h : Eqv S v w) (r : Ram) : Eqv S (over r v) (over r w) :=
  ⟨fun c a p q => by simp only [over, h.mem c a p q], fun c a k p q s => by simp only [over, h.ent c a k p q s],
    fun c y p q s => by simp only [over, h.key c y p q s], fun c d => by simp only [over, h.bal c d]⟩

/-- One cache is in order. -/
structure Good (S : Bytes → Prop) (r : Ram) : Prop where
  nmem : (r.mem.map (·.1)).Nodup
  nent : (r.ents.map (·.1)).Nodup
  nbal : (r.bal.map (·.1)).Nodup
  memOk : ∀ c a x, mfind r.mem (c, a) = some x → OpOk S (.writeMem c a x)
  entOk : ∀ c a k x, mfind r.ents (c, a, k) = some x → OpOk S (.writeEnt c a k x)
  keys : ∀ c y d, noArr y = true → (kfind r.keys (c, y) = some d ↔ ∃ x, mfind r.mem (c, d) = some x ∧ x.isKey = true ∧ x.val = y)

/-- The backend knows the keys of the cache not at all or at the same address. -/
def Under (r : Ram) (w : View) : Prop :=
  ∀ c a x, mfind r.mem (c, a) = some x → x.isKey = true → w.key c x.val = 0 ∨ w.key c x.val = a

def Rel (S : Bytes → Prop) : List View → List Ram → Db → Prop
  | [w], [], d => Shows S w d
  | v :: w :: vs, r :: l, d => Eqv S v (over r w) ∧ Good S r ∧ Under r w ∧ Rel S (w :: vs) l d
  | _, _, _ => False

theorem rel_cons {v : View} {vs : List View} {r : Ram} {l : List Ram} {d : Db} (h : Rel S (v :: vs) (r :: l) d) :
    ∃ w ws, vs = w :: ws ∧ Eqv S v (over r w) ∧ Good S r ∧ Under r w ∧ Rel S (w :: ws) l d := by
  cases vs with
  | nil => exact h.elim
  | cons w ws => exact ⟨w, ws, rfl, h⟩

theorem rel_nil {v : View} {vs : List View} {d : Db} (h : Rel S (v :: vs) [] d) : vs = [] ∧ Shows S v d := by
  cases vs with
  | nil => exact ⟨rfl, h⟩
  | cons w ws => exact h.elim

theorem rel_cons' {v w : View} {vs : List View} {l : List Ram} {d : Db} (h : Rel S (v :: w :: vs) l d) :
    ∃ r l', l = r :: l' ∧ Eqv S v (over r w) ∧ Good S r ∧ Under r w ∧ Rel S (w :: vs) l' d := by
  cases l with
  | nil => exact h.elim
  | cons r l' => exact ⟨r, l', rfl, h⟩

theorem rel_congr {v w : View} {vs : List View} {l : List Ram} {d : Db} (h : Rel S (v :: vs) l d) (e : Eqv S v w) :
    Rel S (w :: vs) l d := by
  cases l with
  | nil => obtain ⟨rfl, h1⟩ := rel_nil h; exact h1.congr e
  | cons r l =>
    obtain ⟨u, ws, rfl, h1, h2⟩ := rel_cons h
    exact ⟨e.symm.trans h1, h2⟩

/-! ### Reads -/

theorem read_mem {l : List Ram} {d : Db} : ∀ {v : View} {vs : List View}, Rel S (v :: vs) l d →
    ∀ {c a}, S c → a < 2 ^ 64 → readMem d l c a = .ok (v.mem c a) := by
  induction l with
  | nil => intro v vs h c a hc ha; exact (rel_nil h).2.mem c a hc ha
  | cons r l ih =>
    intro v vs h c a hc ha
    obtain ⟨w, ws, rfl, h1, _, _, h4⟩ := rel_cons h
    rw [h1.mem c a hc ha]
    simp only [readMem, over]
    cases mfind r.mem (c, a) with
    | some x => rfl
    | none => exact ih h4 hc ha

theorem read_ent {l : List Ram} {d : Db} : ∀ {v : View} {vs : List View}, Rel S (v :: vs) l d →
    ∀ {c a k}, S c → a < 2 ^ 64 → k < 2 ^ 64 → readEnt d l c a k = .ok (v.ent c a k) := by
  induction l with
  | nil => intro v vs h c a k hc ha hk; exact (rel_nil h).2.ent c a k hc ha hk
  | cons r l ih =>
    intro v vs h c a k hc ha hk
    obtain ⟨w, ws, rfl, h1, _, _, h4⟩ := rel_cons h
    rw [h1.ent c a k hc ha hk]
    simp only [readEnt, over]
    cases mfind r.ents (c, a, k) with
    | some x => rfl
    | none => exact ih h4 hc ha hk

theorem lookup_key {l : List Ram} {d : Db} : ∀ {v : View} {vs : List View}, Rel S (v :: vs) l d →
    ∀ {c y}, S c → y.Wf → noArr y = true → lookupKey d l c y = .ok (v.key c y) := by
  induction l with
  | nil => intro v vs h c y hc hy hn; exact (rel_nil h).2.key c y hc hy hn
  | cons r l ih =>
    intro v vs h c y hc hy hn
    obtain ⟨w, ws, rfl, h1, _, _, h4⟩ := rel_cons h
    rw [h1.key c y hc hy hn]
    simp only [lookupKey, over]
    split
    · rfl
    · exact ih h4 hc hy hn

theorem good_setBal {r : Ram} (h : Good S r) (c cur : Bytes) (n : Nat) : Good S (r.setBal c cur n) :=
  ⟨h.nmem, h.nent, mput_nodup _ _ _ h.nbal, h.memOk, h.entOk, h.keys⟩

theorem over_setBal (r : Ram) (w : View) (c cur : Bytes) (n : Nat) :
    Eqv S (over (r.setBal c cur n) w) ((over r w).setBal c cur n) := by
  refine ⟨fun _ _ _ _ => rfl, fun _ _ _ _ _ _ => rfl, fun _ _ _ _ _ => rfl, fun c' d => ?_⟩
  simp only [over, Ram.setBal, View.setBal, mfind_mput, Prod.mk.injEq]
  by_cases h : c' = c ∧ d = cur
  · simp only [if_pos h]
  · simp only [if_neg h]

/-- Asking for a balance fills the caches but changes no answer. -/
theorem get_bal {l : List Ram} {d : Db} : ∀ {v : View} {vs : List View}, Rel S (v :: vs) l d →
    ∀ c cur, (getBal d l c cur).1 = v.bal c cur ∧ Rel S (v :: vs) (getBal d l c cur).2 d := by
  induction l with
  | nil => intro v vs h c cur; exact ⟨(rel_nil h).2.bal c cur, h⟩
  | cons r l ih =>
    intro v vs h c cur
    obtain ⟨w, ws, rfl, h1, h2, h3, h4⟩ := rel_cons h
    obtain ⟨i1, i2⟩ := ih h4 c cur
    rw [h1.bal]
    cases hf : mfind r.bal (c, cur) with
    | some n =>
      simp only [getBal, hf, over]
      exact ⟨trivial, h⟩
    | none =>
      simp only [getBal, hf, over]
      cases hg : getBal d l c cur with
      | mk o l' =>
        rw [hg] at i1 i2
        cases o with
        | none => exact ⟨i1, h1, h2, h3, i2⟩
        | some n =>
          refine ⟨i1, ?_, good_setBal h2 c cur n, h3, i2⟩
          refine h1.trans (Eqv.trans ?_ (over_setBal r w c cur n).symm)
          refine ⟨fun _ _ _ _ => rfl, fun _ _ _ _ _ _ => rfl, fun _ _ _ _ _ => rfl, fun c' d => ?_⟩
          simp only [View.setBal]
          split
          · next hh =>
            obtain ⟨rfl, rfl⟩ := hh
            simp only [over, hf]
            exact i1.symm
          · rfl

/-! ### Writes -/

theorem kfind_lookup {r : Ram} (h : Good S r) {c : Bytes} {y : Val} (hy : noArr y = true) :
    (r.lookup c y = 0 ∧ kfind r.keys (c, y) = none) ∨ (∃ d, d ≠ 0 ∧ r.lookup c y = d ∧ kfind r.keys (c, y) = some d) := by
  unfold Ram.lookup
  cases hk : kfind r.keys (c, y) with
  | none => exact .inl ⟨rfl, rfl⟩
  | some d =>
    obtain ⟨x, hx, hxk, _⟩ := (h.keys c y d hy).1 hk
    exact .inr ⟨d, ((h.memOk c d x hx).2.2.2 hxk).1, rfl, rfl⟩

/-- A write to a cache. -/
theorem ram_write {r r' : Ram} {w : View} {c : Bytes} {a : Nat} {x : Var} (hg : Good S r) (hu : Under r w)
    (ho : OpOk S (.writeMem c a x)) (hk : x.isKey = true → (over r w).key c x.val = 0 ∨ (over r w).key c x.val = a)
    (h : r.writeMem c a x = .ok r') :
    Good S r' ∧ Under r' w ∧ Eqv S (over r' w) ((over r w).setMem false c a x) := by
  unfold Ram.writeMem at h
  split at h
  · cases h
  next hno =>
  cases h
  have hold : ∀ y, mfind r.mem (c, a) = some y → ¬ y.isKey = true := by
    intro y hy h1; rw [hy] at hno; exact hno h1
  -- the value has no key in this cache
  have hfresh : x.isKey = true → kfind r.keys (c, x.val) = none := by
    intro hx
    obtain ⟨ha, hn⟩ := ho.2.2.2 hx
    rcases kfind_lookup hg (c := c) hn with ⟨_, h2⟩ | ⟨d, hd, h2, h3⟩
    · exact h2
    · exfalso
      obtain ⟨y, hy, hyk, _⟩ := (hg.keys c _ d hn).1 h3
      have h4 : (over r w).key c x.val = d := by simp only [over, h2, ne_eq, hd, not_false_eq_true, if_true]
      rcases hk hx with h5 | h5
      · exact hd (h4.symm.trans h5)
      · rw [h4] at h5; subst h5; exact hold y hy hyk
  have hmem : ∀ c' a', mfind (mput ltMem r.mem (c, a) x) (c', a') =
      if c' = c ∧ a' = a then some x else mfind r.mem (c', a') := by
    intro c' a'; rw [mfind_mput]; simp only [Prod.mk.injEq]
  have hkeys : ∀ c' y d, noArr y = true → (kfind (if x.isKey then kput r.keys (c, x.val) a else r.keys) (c', y) = some d ↔
      ∃ z, mfind (mput ltMem r.mem (c, a) x) (c', d) = some z ∧ z.isKey = true ∧ z.val = y) := by
    intro c' y d hy
    by_cases hx : x.isKey = true
    · obtain ⟨ha, hn⟩ := ho.2.2.2 hx
      rw [if_pos hx, kfind_kput]
      by_cases he : c = c' ∧ x.val = y
      · rw [if_pos ((keyEq_noArr hn).2 he)]
        obtain ⟨rfl, rfl⟩ := he
        constructor
        · intro h1; cases h1; exact ⟨x, by rw [hmem, if_pos ⟨rfl, rfl⟩], hx, rfl⟩
        · rintro ⟨z, hz, hzk, hzv⟩
          rw [hmem] at hz
          split at hz
          · next hh => rw [hh.2]
          · have := (hg.keys c x.val d hn).2 ⟨z, hz, hzk, hzv⟩
            rw [hfresh hx] at this; cases this
      · rw [if_neg (fun h1 => he ((keyEq_noArr hn).1 h1)), hg.keys c' y d hy]
        constructor
        · rintro ⟨z, hz, hzk, hzv⟩
          refine ⟨z, ?_, hzk, hzv⟩
          rw [hmem, if_neg]
          · exact hz
          · rintro ⟨rfl, rfl⟩; exact hold z hz hzk
        · rintro ⟨z, hz, hzk, hzv⟩
          rw [hmem] at hz
          split at hz
          · next hh => cases hz; exact absurd ⟨hh.1.symm, hzv⟩ he
          · exact ⟨z, hz, hzk, hzv⟩
    · rw [if_neg hx, hg.keys c' y d hy]
      constructor
      · rintro ⟨z, hz, hzk, hzv⟩
        refine ⟨z, ?_, hzk, hzv⟩
        rw [hmem, if_neg]
        · exact hz
        · rintro ⟨rfl, rfl⟩; exact hold z hz hzk
      · rintro ⟨z, hz, hzk, hzv⟩
        rw [hmem] at hz
        split at hz
        · cases hz; exact absurd hzk hx
        · exact ⟨z, hz, hzk, hzv⟩
  refine ⟨⟨mput_nodup _ _ _ hg.nmem, hg.nent, hg.nbal, ?_, hg.entOk, hkeys⟩, ?_, ?_⟩
  · intro c' a' z hz
    rw [hmem] at hz
    split at hz
    · next hh => obtain ⟨rfl, rfl⟩ := hh; cases hz; exact ho
    · exact hg.memOk c' a' z hz
  · intro c' a' z hz hzk
    change mfind (mput ltMem r.mem (c, a) x) (c', a') = some z at hz
    rw [hmem] at hz
    split at hz
    · next hh =>
      obtain ⟨rfl, rfl⟩ := hh; cases hz
      have := hk hzk
      simp only [over, Ram.lookup, hfresh hzk, Option.getD_none, ne_eq, not_true_eq_false, if_false] at this
      exact this
    · exact hu c' a' z hz hzk
  · refine ⟨fun c' a' _ _ => ?_, fun _ _ _ _ _ _ => rfl, fun c' y _ _ hy => ?_, fun _ _ => rfl⟩
    · simp only [over, View.setMem, hmem, keptVar]
      by_cases h : c' = c ∧ a' = a
      · simp only [if_pos h]; rfl
      · simp only [if_neg h]
    · have hlk : Ram.lookup { r with mem := mput ltMem r.mem (c, a) x, keys := if x.isKey then kput r.keys (c, x.val) a else r.keys } c' y
          = if x.isKey = true ∧ c' = c ∧ y = x.val then a else r.lookup c' y := by
        simp only [Ram.lookup]
        by_cases hx : x.isKey = true
        · obtain ⟨ha, hn⟩ := ho.2.2.2 hx
          rw [if_pos hx, kfind_kput]
          by_cases he : c = c' ∧ x.val = y
          · rw [if_pos ((keyEq_noArr hn).2 he), if_pos ⟨hx, he.1.symm, he.2.symm⟩]; rfl
          · rw [if_neg (fun h1 => he ((keyEq_noArr hn).1 h1)), if_neg (fun h1 => he ⟨h1.2.1.symm, h1.2.2.symm⟩)]
        · rw [if_neg hx, if_neg (fun h1 => hx h1.1)]
      simp only [over, View.setMem, hlk]
      by_cases h : x.isKey = true ∧ c' = c ∧ y = x.val
      · simp only [if_pos h, ne_eq, (ho.2.2.2 h.1).1, not_false_eq_true, if_true]
      · simp only [if_neg h]

theorem ram_writeEnt {r : Ram} (w : View) {c : Bytes} {a k : Nat} {x : Var} (hg : Good S r) (ho : OpOk S (.writeEnt c a k x)) :
    Good S (r.writeEnt c a k x) ∧ Eqv S (over (r.writeEnt c a k x) w) ((over r w).setEnt false c a k x) := by
  have hm : ∀ c' a' k', mfind (mput ltEnt r.ents (c, a, k) x) (c', a', k') =
      if c' = c ∧ a' = a ∧ k' = k then some x else mfind r.ents (c', a', k') := by
    intro c' a' k'; rw [mfind_mput]; simp only [Prod.mk.injEq]
  refine ⟨⟨hg.nmem, mput_nodup _ _ _ hg.nent, hg.nbal, hg.memOk, ?_, hg.keys⟩, fun _ _ _ _ => rfl, ?_, fun _ _ _ _ _ => rfl, fun _ _ => rfl⟩
  · intro c' a' k' z hz
    change mfind (mput ltEnt r.ents (c, a, k) x) (c', a', k') = some z at hz
    rw [hm] at hz
    split at hz
    · next hh => obtain ⟨rfl, rfl, rfl⟩ := hh; cases hz; exact ho
    · exact hg.entOk c' a' k' z hz
  · intro c' a' k' _ _ _
    simp only [over, View.setEnt, Ram.writeEnt, hm, keptVar]
    by_cases h : c' = c ∧ a' = a ∧ k' = k
    · simp only [if_pos h]; rfl
    · simp only [if_neg h]

/-- A write to the database. -/
theorem db_write (hS : Apart S) {w : View} {d : Db} {c : Bytes} {a : Nat} {x : Var} (hw : Shows S w d)
    (ho : OpOk S (.writeMem c a x)) : Shows S (w.setMem true c a x) (d.writeMem c a x) := by
  obtain ⟨hc, ha, hx, hkey⟩ := ho
  refine ⟨fun c' a' hc' ha' => ?_, hw.ent, fun c' y hc' hy hn => ?_, hw.bal⟩
  · simp only [Db.writeMem, tput, View.setMem, dbKey_inj hS hc' hc ha' ha]
    split
    · exact dbDecode_ser x hx
    · exact hw.mem c' a' hc' ha'
  · unfold Db.lookup
    simp only [Db.writeMem, View.setMem]
    by_cases hk : x.isKey = true
    · rw [if_pos hk]
      simp only [tput, dbIndexKey_inj hS hc' hc hy hx.val]
      by_cases he : c' = c ∧ y = x.val
      · rw [if_pos he, if_pos ⟨hk, he⟩]
        dsimp only
        rw [if_neg (by rw [le_length]; omega), List.take_of_length_le (by rw [le_length]; omega), leNat_le 8 a (by simpa using ha)]
      · rw [if_neg he, if_neg (fun h => he h.2)]
        exact hw.key c' y hc' hy hn
    · rw [if_neg hk, if_neg (fun h => hk h.1)]
      exact hw.key c' y hc' hy hn

theorem db_writeEnt (hS : Apart S) {w : View} {d : Db} {c : Bytes} {a k : Nat} {x : Var} (hw : Shows S w d)
    (ho : OpOk S (.writeEnt c a k x)) : Shows S (w.setEnt true c a k x) (d.writeEnt c a k x) := by
  obtain ⟨hc, ha, hk, hx⟩ := ho
  refine ⟨hw.mem, fun c' a' k' hc' ha' hk' => ?_, hw.key, hw.bal⟩
  simp only [Db.writeEnt, tput, View.setEnt, dbEntKey_inj hS hc' hc ha' ha hk' hk]
  split
  · exact dbDecode_ser x hx
  · exact hw.ent c' a' k' hc' ha' hk'

/-- A write to whatever is on top. -/
theorem write_rel (hS : Apart S) {w : View} {vs : List View} {s s' : Store} {c : Bytes} {a : Nat} {x : Var}
    (h : Rel S (w :: vs) s.layers s.db) (ho : OpOk S (.writeMem c a x))
    (hk : x.isKey = true → w.key c x.val = 0 ∨ w.key c x.val = a) (hw : writeMemTo s c a x = .ok s') :
    Rel S (w.setMem vs.isEmpty c a x :: vs) s'.layers s'.db := by
  obtain ⟨l, d⟩ := s
  cases l with
  | nil =>
    obtain ⟨rfl, h1⟩ := rel_nil h
    cases hw
    exact db_write hS h1 ho
  | cons r l =>
    obtain ⟨u, us, rfl, h1, h2, h3, h4⟩ := rel_cons h
    obtain ⟨r', hr, he⟩ := Res.bind_eq_ok.1 hw
    cases he
    have hk' : x.isKey = true → (over r u).key c x.val = 0 ∨ (over r u).key c x.val = a := by
      intro hx
      rw [← h1.key c _ ho.1 ho.2.2.1.val (ho.2.2.2 hx).2]
      exact hk hx
    obtain ⟨g1, g2, g3⟩ := ram_write h2 h3 ho hk' hr
    exact ⟨(h1.setMem false c a x).trans g3.symm, g1, g2, h4⟩

theorem writeEnt_rel (hS : Apart S) {w : View} {vs : List View} {s : Store} {c : Bytes} {a k : Nat} {x : Var}
    (h : Rel S (w :: vs) s.layers s.db) (ho : OpOk S (.writeEnt c a k x)) :
    Rel S (w.setEnt vs.isEmpty c a k x :: vs) (writeEntTo s c a k x).layers (writeEntTo s c a k x).db := by
  obtain ⟨l, d⟩ := s
  cases l with
  | nil =>
    obtain ⟨rfl, h1⟩ := rel_nil h
    exact db_writeEnt hS h1 ho
  | cons r l =>
    obtain ⟨u, us, rfl, h1, h2, h3, h4⟩ := rel_cons h
    obtain ⟨g1, g2⟩ := ram_writeEnt u h2 ho
    exact ⟨(h1.setEnt false c a k x).trans g2.symm, g1, h3, h4⟩

/-- The balance seen after a write: the database ignores it. -/
def View.setBalIn (base : Bool) (w : View) (c cur : Bytes) (n : Nat) : View := if base then w else w.setBal c cur n

theorem setBal_rel {w : View} {vs : List View} {s : Store} {c cur : Bytes} {n : Nat} (h : Rel S (w :: vs) s.layers s.db) :
    Rel S (w.setBalIn vs.isEmpty c cur n :: vs) (setBalTo s c cur n).layers (setBalTo s c cur n).db := by
  obtain ⟨l, d⟩ := s
  cases l with
  | nil =>
    obtain ⟨rfl, h1⟩ := rel_nil h
    exact h1
  | cons r l =>
    obtain ⟨u, us, rfl, h1, h2, h3, h4⟩ := rel_cons h
    exact ⟨(h1.setBal c cur n).trans (over_setBal r u c cur n).symm, good_setBal h2 c cur n, h3, h4⟩

/-! ### Commit -/

def foldMem (b : Bool) (w : View) (L : List ((Bytes × Nat) × Var)) : View := L.foldl (fun w p => w.setMem b p.1.1 p.1.2 p.2) w
def foldEnt (b : Bool) (w : View) (L : List ((Bytes × Nat × Nat) × Var)) : View :=
  L.foldl (fun w p => w.setEnt b p.1.1 p.1.2.1 p.1.2.2 p.2) w
def foldBal (b : Bool) (w : View) (L : List ((Bytes × Bytes) × Nat)) : View := L.foldl (fun w p => w.setBalIn b p.1.1 p.1.2 p.2) w

theorem commit_mem (hS : Apart S) {vs : List View} : ∀ (L : List ((Bytes × Nat) × Var)) {w : View} {s s' : Store},
    Rel S (w :: vs) s.layers s.db → (∀ p ∈ L, OpOk S (.writeMem p.1.1 p.1.2 p.2)) →
    (∀ p ∈ L, p.2.isKey = true → w.key p.1.1 p.2.val = 0 ∨ w.key p.1.1 p.2.val = p.1.2) →
    (∀ p ∈ L, ∀ q ∈ L, p.2.isKey = true → q.2.isKey = true → p.1.1 = q.1.1 → p.2.val = q.2.val → p.1.2 = q.1.2) →
    commitMemTo L s = .ok s' → Rel S (foldMem vs.isEmpty w L :: vs) s'.layers s'.db := by
  intro L
  induction L with
  | nil => intro w s s' h _ _ _ he; cases he; exact h
  | cons p l ih =>
    intro w s s' h ho hk hu he
    obtain ⟨s1, h1, h2⟩ := Res.bind_eq_ok.1 he
    have hr := write_rel hS h (ho p List.mem_cons_self) (hk p List.mem_cons_self) h1
    refine ih hr (fun q hq => ho q (List.mem_cons_of_mem _ hq)) ?_
      (fun q hq q' hq' => hu q (List.mem_cons_of_mem _ hq) q' (List.mem_cons_of_mem _ hq')) h2
    intro q hq hqk
    simp only [View.setMem]
    split
    · next hh => exact .inr (hu p List.mem_cons_self q (List.mem_cons_of_mem _ hq) hh.1 hqk hh.2.1.symm hh.2.2.symm)
    · exact hk q (List.mem_cons_of_mem _ hq) hqk

theorem commit_ent (hS : Apart S) {vs : List View} : ∀ (L : List ((Bytes × Nat × Nat) × Var)) {w : View} {s : Store},
    Rel S (w :: vs) s.layers s.db → (∀ p ∈ L, OpOk S (.writeEnt p.1.1 p.1.2.1 p.1.2.2 p.2)) →
    Rel S (foldEnt vs.isEmpty w L :: vs) (commitEntTo L s).layers (commitEntTo L s).db := by
  intro L
  induction L with
  | nil => intro w s h _; exact h
  | cons p l ih =>
    intro w s h ho
    exact ih (writeEnt_rel hS h (ho p List.mem_cons_self)) (fun q hq => ho q (List.mem_cons_of_mem _ hq))

theorem commit_bal {vs : List View} : ∀ (L : List ((Bytes × Bytes) × Nat)) {w : View} {s : Store},
    Rel S (w :: vs) s.layers s.db → Rel S (foldBal vs.isEmpty w L :: vs) (commitBalTo L s).layers (commitBalTo L s).db := by
  intro L
  induction L with
  | nil => intro w s h; exact h
  | cons p l ih => intro w s h; exact ih (setBal_rel h)

theorem foldMem_mem (b : Bool) : ∀ (L : List ((Bytes × Nat) × Var)) (w : View), (L.map (·.1)).Nodup → ∀ c a,
    (foldMem b w L).mem c a = match mfind L (c, a) with | some x => some (keptVar b x) | none => w.mem c a := by
  intro L
  induction L with
  | nil => intro w _ c a; rfl
  | cons p l ih =>
    intro w hn c a
    rw [List.map_cons, List.nodup_cons] at hn
    show (foldMem b (w.setMem b p.1.1 p.1.2 p.2) l).mem c a = _
    rw [ih _ hn.2]
    simp only [mfind]
    by_cases he : p.1 = (c, a)
    · rw [if_pos he, mfind_none.2 (he ▸ hn.1)]
      simp only [View.setMem]
      rw [he, if_pos ⟨rfl, rfl⟩]
    · rw [if_neg he]
      cases mfind l (c, a) with
      | some x => rfl
      | none =>
        simp only [View.setMem]
        rw [if_neg]
        rintro ⟨rfl, rfl⟩
        exact he rfl

theorem foldMem_other (b : Bool) : ∀ (L : List ((Bytes × Nat) × Var)) (w : View),
    (foldMem b w L).ent = w.ent ∧ (foldMem b w L).bal = w.bal := by
  intro L
  induction L with
  | nil => intro w; exact ⟨rfl, rfl⟩
  | cons p l ih => intro w; exact ih (w.setMem b p.1.1 p.1.2 p.2)

theorem foldMem_key (b : Bool) : ∀ (L : List ((Bytes × Nat) × Var)) (w : View),
    (∀ p ∈ L, ∀ q ∈ L, p.2.isKey = true → q.2.isKey = true → p.1.1 = q.1.1 → p.2.val = q.2.val → p.1.2 = q.1.2) → ∀ c y,
    (∀ p ∈ L, p.2.isKey = true → p.1.1 = c → p.2.val = y → (foldMem b w L).key c y = p.1.2) ∧
    ((∀ p ∈ L, p.2.isKey = true → p.1.1 = c → p.2.val = y → False) → (foldMem b w L).key c y = w.key c y) := by
  intro L
  induction L with
  | nil => intro w _ c y; exact ⟨fun p hp => (nomatch hp), fun _ => rfl⟩
  | cons p l ih =>
    intro w hu c y
    obtain ⟨i1, i2⟩ := ih (w.setMem b p.1.1 p.1.2 p.2)
      (fun q hq q' hq' => hu q (List.mem_cons_of_mem _ hq) q' (List.mem_cons_of_mem _ hq')) c y
    constructor
    · intro q hq hk hc hv
      by_cases hex : ∃ q' ∈ l, q'.2.isKey = true ∧ q'.1.1 = c ∧ q'.2.val = y
      · obtain ⟨q', hq', hk', hc', hv'⟩ := hex
        rw [show foldMem b w (p :: l) = foldMem b (w.setMem b p.1.1 p.1.2 p.2) l from rfl, i1 q' hq' hk' hc' hv']
        exact hu q' (List.mem_cons_of_mem _ hq') q hq hk' hk (hc'.trans hc.symm) (hv'.trans hv.symm)
      · rcases List.mem_cons.1 hq with rfl | hq1
        · rw [show foldMem b w (q :: l) = foldMem b (w.setMem b q.1.1 q.1.2 q.2) l from rfl,
            i2 (fun q' h1 h2 h3 h4 => hex ⟨q', h1, h2, h3, h4⟩)]
          simp only [View.setMem]
          rw [if_pos ⟨hk, hc.symm, hv.symm⟩]
        · exact absurd ⟨q, hq1, hk, hc, hv⟩ hex
    · intro hno
      rw [show foldMem b w (p :: l) = foldMem b (w.setMem b p.1.1 p.1.2 p.2) l from rfl,
        i2 (fun q hq => hno q (List.mem_cons_of_mem _ hq))]
      simp only [View.setMem]
      rw [if_neg]
      rintro ⟨h1, h2, h3⟩
      exact hno p List.mem_cons_self h1 h2.symm h3.symm

theorem foldEnt_ent (b : Bool) : ∀ (L : List ((Bytes × Nat × Nat) × Var)) (w : View), (L.map (·.1)).Nodup → ∀ c a k,
    (foldEnt b w L).ent c a k = match mfind L (c, a, k) with | some x => some (keptVar b x) | none => w.ent c a k := by
  intro L
  induction L with
  | nil => intro w _ c a k; rfl
  | cons p l ih =>
    intro w hn c a k
    rw [List.map_cons, List.nodup_cons] at hn
    show (foldEnt b (w.setEnt b p.1.1 p.1.2.1 p.1.2.2 p.2) l).ent c a k = _
    rw [ih _ hn.2]
    simp only [mfind]
    by_cases he : p.1 = (c, a, k)
    · rw [if_pos he, mfind_none.2 (he ▸ hn.1)]
      simp only [View.setEnt]
      rw [he, if_pos ⟨rfl, rfl, rfl⟩]
    · rw [if_neg he]
      cases mfind l (c, a, k) with
      | some x => rfl
      | none =>
        simp only [View.setEnt]
        rw [if_neg]
        rintro ⟨rfl, rfl, rfl⟩
        exact he rfl

theorem foldEnt_other (b : Bool) : ∀ (L : List ((Bytes × Nat × Nat) × Var)) (w : View),
    (foldEnt b w L).mem = w.mem ∧ (foldEnt b w L).key = w.key ∧ (foldEnt b w L).bal = w.bal := by
  intro L
  induction L with
  | nil => intro w; exact ⟨rfl, rfl, rfl⟩
  | cons p l ih => intro w; exact ih (w.setEnt b p.1.1 p.1.2.1 p.1.2.2 p.2)

theorem foldBal_bal : ∀ (L : List ((Bytes × Bytes) × Nat)) (w : View), (L.map (·.1)).Nodup → ∀ c cur,
    (foldBal false w L).bal c cur = match mfind L (c, cur) with | some x => some x | none => w.bal c cur := by
  intro L
  induction L with
  | nil => intro w _ c a; rfl
  | cons p l ih =>
    intro w hn c a
    rw [List.map_cons, List.nodup_cons] at hn
    show (foldBal false (w.setBal p.1.1 p.1.2 p.2) l).bal c a = _
    rw [ih _ hn.2]
    simp only [mfind]
    by_cases he : p.1 = (c, a)
    · rw [if_pos he, mfind_none.2 (he ▸ hn.1)]
      simp only [View.setBal]
      rw [he, if_pos ⟨rfl, rfl⟩]
    · rw [if_neg he]
      cases mfind l (c, a) with
      | some x => rfl
      | none =>
        simp only [View.setBal]
        rw [if_neg]
        rintro ⟨rfl, rfl⟩
        exact he rfl

theorem foldBal_base : ∀ (L : List ((Bytes × Bytes) × Nat)) (w : View), foldBal true w L = w := by
  intro L
  induction L with
  | nil => intro w; rfl
  | cons p l ih => intro w; exact ih w

theorem foldBal_other (b : Bool) : ∀ (L : List ((Bytes × Bytes) × Nat)) (w : View),
    (foldBal b w L).mem = w.mem ∧ (foldBal b w L).key = w.key ∧ (foldBal b w L).ent = w.ent := by
  intro L
  induction L with
  | nil => intro w; exact ⟨rfl, rfl, rfl⟩
  | cons p l ih =>
    intro w
    have := ih (w.setBalIn b p.1.1 p.1.2 p.2)
    cases b <;> exact this

/-- The database only answers with variables that have no count. -/
theorem base_noCount {w : View} {d : Db} (h : Shows S w d) {c : Bytes} {a : Nat} (hc : S c) (ha : a < 2 ^ 64) :
    (w.mem c a).map noCount = w.mem c a := by
  cases hm : w.mem c a with
  | none => rfl
  | some x =>
    have := h.mem c a hc ha
    rw [hm] at this
    rw [Option.map_some, dbDecode_noCount this]

theorem base_noCountEnt {w : View} {d : Db} (h : Shows S w d) {c : Bytes} {a k : Nat} (hc : S c) (ha : a < 2 ^ 64) (hk : k < 2 ^ 64) :
    (w.ent c a k).map noCount = w.ent c a k := by
  cases hm : w.ent c a k with
  | none => rfl
  | some x =>
    have := h.ent c a k hc ha hk
    rw [hm] at this
    rw [Option.map_some, dbDecode_noCount this]

theorem commit_rel (hS : Apart S) {v w : View} {vs : List View} {s s' : Store} (h : Rel S (v :: w :: vs) s.layers s.db)
    (hc : commitTop s = .ok s') :
    Rel S (v :: (if vs.isEmpty then v.toDb w else v) :: vs) s'.layers s'.db := by
  obtain ⟨L, d⟩ := s
  obtain ⟨r, l, hl, h1, h2, h3, h4⟩ := rel_cons' h
  dsimp only at hl
  subst hl
  obtain ⟨b, hb, he⟩ := Res.bind_eq_ok.1 hc
  have huniq : ∀ p ∈ r.mem, ∀ q ∈ r.mem, p.2.isKey = true → q.2.isKey = true → p.1.1 = q.1.1 → p.2.val = q.2.val → p.1.2 = q.1.2 := by
    intro p hp q hq hpk hqk hpc hpv
    have fp := mem_mfind h2.nmem hp
    have fq := mem_mfind h2.nmem hq
    have hn := ((h2.memOk p.1.1 p.1.2 p.2 fp).2.2.2 hpk).2
    have k1 := (h2.keys p.1.1 p.2.val p.1.2 hn).2 ⟨p.2, fp, hpk, rfl⟩
    have k2 := (h2.keys p.1.1 p.2.val q.1.2 hn).2 ⟨q.2, by rw [hpc]; exact fq, hqk, hpv.symm⟩
    rw [k1] at k2
    exact Option.some.inj k2
  have m1 := commit_mem hS r.mem (s := ⟨l, d⟩) h4 (fun p hp => h2.memOk _ _ _ (mem_mfind h2.nmem hp))
    (fun p hp hk => h3 _ _ _ (mem_mfind h2.nmem hp) hk) huniq hb
  have m2 := commit_ent hS r.ents m1 (fun p hp => h2.entOk _ _ _ _ (mem_mfind h2.nent hp))
  have m3 := commit_bal r.bal m2
  have hs' := Res.ok.inj he
  subst hs'
  -- keys of the cache
  have hkeyv : ∀ c y, S c → y.Wf → noArr y = true → (foldMem vs.isEmpty w r.mem).key c y = v.key c y := by
    intro c y hcS hyw hy
    rw [h1.key c y hcS hyw hy]
    obtain ⟨k1, k2⟩ := foldMem_key vs.isEmpty r.mem w huniq c y
    rcases kfind_lookup h2 (c := c) hy with ⟨h5, h6⟩ | ⟨e, he0, h5, h6⟩
    · simp only [over, h5, ne_eq, not_true_eq_false, if_false]
      apply k2
      intro p hp hpk hpc hpv
      have fp := mem_mfind h2.nmem hp
      have := (h2.keys c y p.1.2 hy).2 ⟨p.2, by rw [← hpc]; exact fp, hpk, hpv⟩
      rw [h6] at this; cases this
    · simp only [over, h5, ne_eq, he0, not_false_eq_true, if_true]
      obtain ⟨x, hx, hxk, hxv⟩ := (h2.keys c y e hy).1 h6
      exact k1 ((c, e), x) (mfind_mem hx) hxk rfl hxv
  have hw : Eqv S (foldBal vs.isEmpty (foldEnt vs.isEmpty (foldMem vs.isEmpty w r.mem) r.ents) r.bal)
      (if vs.isEmpty then v.toDb w else v) := by
    cases hvs : vs.isEmpty with
    | true =>
      have hbase : Shows S w d := by
        cases vs with
        | nil =>
          cases l with
          | nil => exact h4
          | cons => exact h4.elim
        | cons => cases hvs
      rw [hvs] at hkeyv
      rw [if_pos rfl, foldBal_base]
      refine ⟨fun c a hcS ha => ?_, fun c a k hcS ha hk => ?_, fun c y p q t => ?_, fun c cur => ?_⟩
      · rw [(foldEnt_other true r.ents _).1, foldMem_mem true r.mem w h2.nmem]
        simp only [View.toDb, h1.mem c a hcS ha, over]
        cases mfind r.mem (c, a) with
        | some x => rfl
        | none => exact (base_noCount hbase hcS ha).symm
      · rw [foldEnt_ent true r.ents _ h2.nent, (foldMem_other true r.mem w).1]
        simp only [View.toDb, h1.ent c a k hcS ha hk, over]
        cases mfind r.ents (c, a, k) with
        | some x => rfl
        | none => exact (base_noCountEnt hbase hcS ha hk).symm
      · rw [(foldEnt_other true r.ents _).2.1]
        exact hkeyv c y p q t
      · rw [(foldEnt_other true r.ents _).2.2, (foldMem_other true r.mem w).2]
        rfl
    | false =>
      rw [hvs] at hkeyv
      rw [if_neg (by decide)]
      refine ⟨fun c a hcS ha => ?_, fun c a k hcS ha hk => ?_, fun c y p q t => ?_, fun c cur => ?_⟩
      · rw [(foldBal_other false r.bal _).1, (foldEnt_other false r.ents _).1, foldMem_mem false r.mem w h2.nmem, h1.mem c a hcS ha]
        simp only [over, keptVar]
        cases mfind r.mem (c, a) <;> rfl
      · rw [(foldBal_other false r.bal _).2.2, foldEnt_ent false r.ents _ h2.nent, (foldMem_other false r.mem w).1, h1.ent c a k hcS ha hk]
        simp only [over, keptVar]
        cases mfind r.ents (c, a, k) <;> rfl
      · rw [(foldBal_other false r.bal _).2.1, (foldEnt_other false r.ents _).2.1]
        exact hkeyv c y p q t
      · rw [foldBal_bal r.bal _ h2.nbal, (foldEnt_other false r.ents _).2.2, (foldMem_other false r.mem w).2, h1.bal]
        rfl
  refine ⟨?_, h2, ?_, rel_congr m3 hw⟩
  · -- the cache answers as before
    refine h1.trans ?_
    cases hvs : vs.isEmpty with
    | true =>
      have hbase : Shows S w d := by
        cases vs with
        | nil =>
          cases l with
          | nil => exact h4
          | cons => exact h4.elim
        | cons => cases hvs
      rw [if_pos rfl]
      refine ⟨fun c a hcS ha => ?_, fun c a k hcS ha hk => ?_, fun c y p q t => ?_, fun c cur => ?_⟩
      · simp only [over, View.toDb, h1.mem c a hcS ha]
        cases mfind r.mem (c, a) with
        | some x => rfl
        | none => exact (base_noCount hbase hcS ha).symm
      · simp only [over, View.toDb, h1.ent c a k hcS ha hk]
        cases mfind r.ents (c, a, k) with
        | some x => rfl
        | none => exact (base_noCountEnt hbase hcS ha hk).symm
      · simp only [over, View.toDb, h1.key c y p q t]
        split <;> rfl
      · rfl
    | false =>
      rw [if_neg (by decide)]
      refine ⟨fun c a hcS ha => ?_, fun c a k hcS ha hk => ?_, fun c y p q t => ?_, fun c cur => ?_⟩
      · simp only [over, h1.mem c a hcS ha]
        cases mfind r.mem (c, a) <;> rfl
      · simp only [over, h1.ent c a k hcS ha hk]
        cases mfind r.ents (c, a, k) <;> rfl
      · simp only [over, h1.key c y p q t]
        split <;> rfl
      · simp only [over, h1.bal c cur]
        cases mfind r.bal (c, cur) <;> rfl
  · intro c a x hx hxk
    have ho := h2.memOk c a x hx
    have hn := (ho.2.2.2 hxk).2
    have : v.key c x.val = a := by
      rw [h1.key c _ ho.1 ho.2.2.1.val hn]
      have hk := (h2.keys c x.val a hn).2 ⟨x, hx, hxk, rfl⟩
      simp only [over, Ram.lookup, hk, Option.getD_some, ne_eq, (ho.2.2.2 hxk).1, not_false_eq_true, if_true]
    right
    split
    · exact this
    · exact this

/-! ## C22 -/

theorem good_empty : Good S Ram.empty := by
  refine ⟨List.nodup_nil, List.nodup_nil, List.nodup_nil, fun _ _ _ h => (nomatch h), fun _ _ _ _ h => (nomatch h), fun c y d _ => ?_⟩
  exact ⟨fun h => (nomatch h), fun ⟨_, h, _⟩ => (nomatch h)⟩

theorem step_rel (hS : Apart S) {vs vs' : List View} {s s' : Store} {o : SOp} {a b : SAns} (h : Rel S vs s.layers s.db)
    (ho : OpOk S o) (hs : sstep s o = .ok (a, s')) (hp : spec vs o = some (b, vs')) : a = b ∧ Rel S vs' s'.layers s'.db := by
  obtain ⟨l, d⟩ := s
  cases vs with
  | nil => cases l <;> exact h.elim
  | cons v vs =>
    cases o with
    | readMem c x =>
      cases hp
      simp only [sstep, read_mem h ho.1 ho.2, Res.bind_ok] at hs
      cases hs
      exact ⟨rfl, h⟩
    | readEnt c x k =>
      cases hp
      simp only [sstep, read_ent h ho.1 ho.2.1 ho.2.2, Res.bind_ok] at hs
      cases hs
      exact ⟨rfl, h⟩
    | lookup c y =>
      cases hp
      simp only [sstep, lookup_key h ho.1 ho.2.1 ho.2.2, Res.bind_ok] at hs
      cases hs
      exact ⟨rfl, h⟩
    | getBal c cur =>
      cases hp
      obtain ⟨h1, h2⟩ := get_bal h c cur
      cases hs
      exact ⟨by rw [h1], h2⟩
    | push =>
      cases hp
      cases hs
      refine ⟨rfl, ?_, good_empty, fun _ _ _ hx => (nomatch hx), h⟩
      exact ⟨fun _ _ _ _ => rfl, fun _ _ _ _ _ _ => rfl, fun _ _ _ _ _ => rfl, fun _ _ => rfl⟩
    | commit =>
      cases vs with
      | nil => cases hp
      | cons w vs =>
        cases hp
        obtain ⟨s1, h1, h2⟩ := Res.bind_eq_ok.1 hs
        cases h2
        exact ⟨rfl, commit_rel hS h h1⟩
    | drop =>
      cases vs with
      | nil => cases hp
      | cons w vs =>
        cases hp
        obtain ⟨r, l', hl, _, _, _, h4⟩ := rel_cons' h
        dsimp only at hl
        subst hl
        cases hs
        exact ⟨rfl, h4⟩
    | writeMem c x y =>
      cases vs with
      | nil => cases hp
      | cons w vs =>
        simp only [spec] at hp
        split at hp
        · cases hp
        next hk =>
        cases hp
        obtain ⟨r, l', hl, _⟩ := rel_cons' h
        dsimp only at hl
        subst hl
        obtain ⟨s1, h1, h2⟩ := Res.bind_eq_ok.1 hs
        cases h2
        refine ⟨rfl, write_rel (vs := w :: vs) hS h ho (fun hx => ?_) h1⟩
        by_cases h0 : v.key c y.val = 0
        · exact .inl h0
        · right
          by_cases h3 : v.key c y.val = x
          · exact h3
          · exact absurd ⟨hx, h0, h3⟩ hk
    | writeEnt c x k y =>
      cases vs with
      | nil => cases hp
      | cons w vs =>
        cases hp
        obtain ⟨r, l', hl, _⟩ := rel_cons' h
        dsimp only at hl
        subst hl
        cases hs
        exact ⟨rfl, writeEnt_rel (vs := w :: vs) hS h ho⟩
    | setBal c cur n =>
      cases vs with
      | nil => cases hp
      | cons w vs =>
        cases hp
        obtain ⟨r, l', hl, _⟩ := rel_cons' h
        dsimp only at hl
        subst hl
        cases hs
        exact ⟨rfl, setBal_rel (vs := w :: vs) h⟩

theorem run_rel (hS : Apart S) : ∀ (ops : List SOp) {vs vs' : List View} {s s' : Store} {a b : List SAns},
    Rel S vs s.layers s.db → (∀ o ∈ ops, OpOk S o) → srun s ops = .ok (a, s') → specRun vs ops = some (b, vs') →
    a = b ∧ Rel S vs' s'.layers s'.db := by
  intro ops
  induction ops with
  | nil => intro vs vs' s s' a b h _ hs hp; cases hs; cases hp; exact ⟨rfl, h⟩
  | cons o l ih =>
    intro vs vs' s s' a b h ho hs hp
    obtain ⟨⟨a1, s1⟩, h1, h2⟩ := Res.bind_eq_ok.1 hs
    obtain ⟨⟨a2, s2⟩, h3, h4⟩ := Res.bind_eq_ok.1 h2
    cases h4
    simp only [specRun] at hp
    cases hq : spec vs o with
    | none => rw [hq] at hp; cases hp
    | some p =>
      obtain ⟨b1, vs1⟩ := p
      rw [hq] at hp
      dsimp only at hp
      cases hr : specRun vs1 l with
      | none => rw [hr] at hp; cases hp
      | some q =>
        obtain ⟨b2, vs2⟩ := q
        rw [hr] at hp
        cases hp
        obtain ⟨e1, r1⟩ := step_rel hS h (ho o List.mem_cons_self) h1 hq
        obtain ⟨e2, r2⟩ := ih r1 (fun x hx => ho x (List.mem_cons_of_mem _ hx)) h3 hr
        exact ⟨by rw [e1, e2], r2⟩

/-- C22: over any history of reads, writes, balance changes, new caches, commits and discards, every
    answer is the one of a stack of copies. -/
theorem C22_refines_copies (S : Bytes → Prop) (hS : Apart S) (d : Db) (w : View) (hd : Shows S w d) (ops : List SOp)
    (hops : ∀ o ∈ ops, OpOk S o) (a b : List SAns) (s : Store) (vs : List View) (h : srun ⟨[], d⟩ ops = .ok (a, s))
    (hp : specRun [w] ops = some (b, vs)) : a = b :=
  (run_rel hS ops (vs := [w]) (s := ⟨[], d⟩) hd hops h hp).1

/-- After the history the database answers as the last copy of the stack does. -/
theorem C22_database_after (S : Bytes → Prop) (hS : Apart S) (d : Db) (w : View) (hd : Shows S w d) (ops : List SOp)
    (hops : ∀ o ∈ ops, OpOk S o) (a b : List SAns) (s : Store) (vs : List View) (h : srun ⟨[], d⟩ ops = .ok (a, s))
    (hp : specRun [w] ops = some (b, vs)) : ∃ u, vs.getLast? = some u ∧ Shows S u s.db := by
  have hr := (run_rel hS ops (vs := [w]) (s := ⟨[], d⟩) hd hops h hp).2
  obtain ⟨l, d'⟩ := s
  dsimp only at hr ⊢
  clear h hp
  induction l generalizing vs with
  | nil =>
    cases vs with
    | nil => exact hr.elim
    | cons v vs =>
      obtain ⟨rfl, h1⟩ := rel_nil hr
      exact ⟨v, rfl, h1⟩
  | cons r l ih =>
    cases vs with
    | nil => exact hr.elim
    | cons v vs =>
      obtain ⟨w', ws, rfl, _, _, _, h4⟩ := rel_cons hr
      obtain ⟨u, hu, hu2⟩ := ih (w' :: ws) h4
      exact ⟨u, by rw [List.getLast?_cons_cons]; exact hu, hu2⟩

/-- Reads of any kind. -/
def isRead : SOp → Bool
  | .readMem _ _ => true
  | .readEnt _ _ _ => true
  | .lookup _ _ => true
  | .getBal _ _ => true
  | _ => false

/-- Work inside one cache. -/
def isLocal : SOp → Bool
  | .writeMem _ _ _ => true
  | .writeEnt _ _ _ _ => true
  | .setBal _ _ _ => true
  | o => isRead o

def ansOf (x : Res (SAns × Store)) : Option SAns :=
  match x with
  | .ok p => some p.1
  | _ => none

theorem spec_local {v w : View} {vs vs' : List View} {o : SOp} {b : SAns} (ho : isLocal o = true)
    (h : spec (v :: w :: vs) o = some (b, vs')) : ∃ v', vs' = v' :: w :: vs := by
  cases o <;> first | cases ho | skip
  all_goals simp only [spec] at h
  all_goals first
    | (cases h; exact ⟨_, rfl⟩)
    | (split at h
       · cases h
       · cases h; exact ⟨_, rfl⟩)

theorem specRun_local {w : View} {vs : List View} : ∀ (ops : List SOp) {v : View} {vs' : List View} {b : List SAns},
    (∀ o ∈ ops, isLocal o = true) → specRun (v :: w :: vs) ops = some (b, vs') → ∃ v', vs' = v' :: w :: vs := by
  intro ops
  induction ops with
  | nil => intro v vs' b _ h; cases h; exact ⟨v, rfl⟩
  | cons o l ih =>
    intro v vs' b ho h
    simp only [specRun] at h
    cases hq : spec (v :: w :: vs) o with
    | none => rw [hq] at h; cases h
    | some p =>
      obtain ⟨b1, vs1⟩ := p
      rw [hq] at h
      obtain ⟨v1, rfl⟩ := spec_local (ho o List.mem_cons_self) hq
      dsimp only at h
      cases hr : specRun (v1 :: w :: vs) l with
      | none => rw [hr] at h; cases h
      | some q =>
        obtain ⟨b2, vs2⟩ := q
        rw [hr] at h
        cases h
        exact ih (fun x hx => ho x (List.mem_cons_of_mem _ hx)) hr

/-- The answer of a view to a read. -/
def View.answer (v : View) : SOp → SAns
  | .readMem c a => .var (v.mem c a)
  | .readEnt c a k => .var (v.ent c a k)
  | .lookup c y => .key (v.key c y)
  | .getBal c cur => .bal (v.bal c cur)
  | _ => .done

theorem answer_eq {v : View} {vs : List View} {s : Store} (h : Rel S (v :: vs) s.layers s.db) {q : SOp}
    (hq : isRead q = true) (ho : OpOk S q) : ansOf (sstep s q) = some (v.answer q) := by
  cases q <;> first | cases hq | skip
  · simp only [sstep, read_mem h ho.1 ho.2, Res.bind_ok, ansOf, View.answer]
  · simp only [sstep, read_ent h ho.1 ho.2.1 ho.2.2, Res.bind_ok, ansOf, View.answer]
  · simp only [sstep, lookup_key h ho.1 ho.2.1 ho.2.2, Res.bind_ok, ansOf, View.answer]
  · next c cur => simp only [sstep, (get_bal h c cur).1, ansOf, View.answer]

/-- C22: whatever was done in a cache that is thrown away, every read gives what it gave before the
    cache was made. -/
theorem C22_discarded_leaves_no_trace (S : Bytes → Prop) (hS : Apart S) (d : Db) (w : View) (hd : Shows S w d)
    (pre mid : List SOp) (hpre : ∀ o ∈ pre, OpOk S o) (hmid : ∀ o ∈ mid, OpOk S o ∧ isLocal o = true) (a a1 b b1 : List SAns)
    (s t u : Store) (vs ws : List View) (h : srun ⟨[], d⟩ pre = .ok (a, s)) (hp : specRun [w] pre = some (b, vs))
    (h1 : srun { s with layers := Ram.empty :: s.layers } mid = .ok (a1, t))
    (hp1 : ∀ v, vs.head? = some v → specRun (v :: vs) mid = some (b1, ws))
    (h2 : sstep t .drop = .ok (.done, u)) (q : SOp) (hq : isRead q = true) (hqo : OpOk S q) :
    ∃ x, ansOf (sstep s q) = some x ∧ ansOf (sstep u q) = some x := by
  have r0 := (run_rel hS pre (vs := [w]) (s := ⟨[], d⟩) hd hpre h hp).2
  cases vs with
  | nil => cases hl : s.layers <;> rw [hl] at r0 <;> exact r0.elim
  | cons v vs =>
    have r1 := (step_rel hS (o := .push) r0 trivial rfl rfl).2
    have hm := hp1 v rfl
    have r2 := (run_rel hS mid r1 (fun o ho => (hmid o ho).1) h1 hm).2
    obtain ⟨v', rfl⟩ := specRun_local mid (fun o ho => (hmid o ho).2) hm
    exact ⟨_, answer_eq r0 hq hqo, answer_eq (step_rel hS (o := .drop) r2 trivial h2 rfl).2 hq hqo⟩

/-- C22: after a commit the storage below another cache gives what the cache gave. -/
theorem C22_commit_keeps_answers (S : Bytes → Prop) (hS : Apart S) (d : Db) (w : View) (hd : Shows S w d) (ops : List SOp)
    (hops : ∀ o ∈ ops, OpOk S o) (a b : List SAns) (s t u : Store) (v x y : View) (vs : List View)
    (h : srun ⟨[], d⟩ ops = .ok (a, s)) (hp : specRun [w] ops = some (b, v :: x :: y :: vs))
    (h1 : sstep s .commit = .ok (.done, t)) (h2 : sstep t .drop = .ok (.done, u)) (q : SOp) (hq : isRead q = true) (hqo : OpOk S q) :
    ∃ z, ansOf (sstep s q) = some z ∧ ansOf (sstep t q) = some z ∧ ansOf (sstep u q) = some z := by
  have r0 := (run_rel hS ops (vs := [w]) (s := ⟨[], d⟩) hd hops h hp).2
  have r1 := (step_rel hS (o := .commit) r0 trivial h1 rfl).2
  have r2 := (step_rel hS (o := .drop) r1 trivial h2 rfl).2
  rw [if_neg (by simp)] at r2
  exact ⟨_, answer_eq r0 hq hqo, answer_eq r1 hq hqo, answer_eq r2 hq hqo⟩

/-! ### Exceptions -/

theorem commit_mem_throw : ∀ (L : List ((Bytes × Nat) × Var)) (r : Ram) (l : List Ram) (d : Db), (L.map (·.1)).Nodup →
    (∃ s', commitMemTo L ⟨r :: l, d⟩ = .ok s') ∨ ∃ p ∈ L, ∃ y, mfind r.mem p.1 = some y ∧ y.isKey = true := by
  intro L
  induction L with
  | nil => intro r l d _; exact .inl ⟨_, rfl⟩
  | cons p m ih =>
    intro r l d hn
    rw [List.map_cons, List.nodup_cons] at hn
    by_cases hk : (mfind r.mem p.1).any Var.isKey = true
    · right
      cases hf : mfind r.mem p.1 with
      | none => rw [hf] at hk; cases hk
      | some y => exact ⟨p, List.mem_cons_self, y, hf, by rw [hf] at hk; exact hk⟩
    · have hw : ∃ r', r.writeMem p.1.1 p.1.2 p.2 = .ok r' ∧ r'.mem = mput ltMem r.mem p.1 p.2 := by
        unfold Ram.writeMem
        rw [if_neg hk]
        exact ⟨_, rfl, rfl⟩
      obtain ⟨r', hr, hm⟩ := hw
      have hstep : commitMemTo (p :: m) ⟨r :: l, d⟩ = commitMemTo m ⟨r' :: l, d⟩ := by
        simp only [commitMemTo, writeMemTo, hr, Res.bind_ok]
      rw [hstep]
      rcases ih r' l d hn.2 with h | ⟨q, hq, y, hy, hyk⟩
      · exact .inl h
      · right
        refine ⟨q, List.mem_cons_of_mem _ hq, y, ?_, hyk⟩
        rw [hm, mfind_mput, if_neg] at hy
        · exact hy
        · intro he
          exact hn.1 (List.mem_map.2 ⟨q, hq, he⟩)

theorem commit_db_ok : ∀ (L : List ((Bytes × Nat) × Var)) (d : Db), ∃ s', commitMemTo L ⟨[], d⟩ = .ok s' := by
  intro L
  induction L with
  | nil => intro d; exact ⟨_, rfl⟩
  | cons p m ih => intro d; exact ih (d.writeMem p.1.1 p.1.2 p.2)

/-- C22: nothing ever goes wrong but an attempt to replace a variable that is a key. -/
theorem C22_throws_only_on_keys (S : Bytes → Prop) (hS : Apart S) (d : Db) (w : View) (hd : Shows S w d) (ops : List SOp)
    (hops : ∀ o ∈ ops, OpOk S o) (a b : List SAns) (s : Store) (vs : List View) (h : srun ⟨[], d⟩ ops = .ok (a, s))
    (hp : specRun [w] ops = some (b, vs)) (o : SOp) (ho : OpOk S o) (c0 : SAns) (vs' : List View) (hs : spec vs o = some (c0, vs')) :
    (∃ x, sstep s o = .ok x) ∨
    (∃ v ws c a x y, vs = v :: ws ∧ o = .writeMem c a x ∧ v.mem c a = some y ∧ y.isKey = true) ∨
    (∃ v u ws c a y, vs = v :: u :: ws ∧ o = .commit ∧ u.mem c a = some y ∧ y.isKey = true) := by
  have r0 := (run_rel hS ops (vs := [w]) (s := ⟨[], d⟩) hd hops h hp).2
  clear h hp
  obtain ⟨l, e⟩ := s
  dsimp only at r0
  cases vs with
  | nil => cases l <;> exact r0.elim
  | cons v vs =>
    cases o with
    | readMem c x => exact .inl ⟨_, by simp only [sstep, read_mem r0 ho.1 ho.2, Res.bind_ok]; rfl⟩
    | readEnt c x k => exact .inl ⟨_, by simp only [sstep, read_ent r0 ho.1 ho.2.1 ho.2.2, Res.bind_ok]; rfl⟩
    | lookup c y => exact .inl ⟨_, by simp only [sstep, lookup_key r0 ho.1 ho.2.1 ho.2.2, Res.bind_ok]; rfl⟩
    | getBal c cur => exact .inl ⟨_, rfl⟩
    | push => exact .inl ⟨_, rfl⟩
    | drop =>
      cases vs with
      | nil => cases hs
      | cons u us => obtain ⟨r, l', rfl, _⟩ := rel_cons' r0; exact .inl ⟨_, rfl⟩
    | writeEnt c x k y =>
      cases vs with
      | nil => cases hs
      | cons u us => obtain ⟨r, l', rfl, _⟩ := rel_cons' r0; exact .inl ⟨_, rfl⟩
    | setBal c cur n =>
      cases vs with
      | nil => cases hs
      | cons u us => obtain ⟨r, l', rfl, _⟩ := rel_cons' r0; exact .inl ⟨_, rfl⟩
    | writeMem c x y =>
      cases vs with
      | nil => cases hs
      | cons u us =>
        obtain ⟨r, l', rfl, h1, _⟩ := rel_cons' r0
        by_cases hk : (mfind r.mem (c, x)).any Var.isKey = true
        · right; left
          cases hf : mfind r.mem (c, x) with
          | none => rw [hf] at hk; cases hk
          | some z =>
            refine ⟨v, u :: us, c, x, y, z, rfl, rfl, ?_, by rw [hf] at hk; exact hk⟩
            rw [h1.mem c x ho.1 ho.2.1]
            simp only [over, hf]
        · left
          exact ⟨_, by simp only [sstep, writeMemTo, Ram.writeMem, if_neg hk, Res.bind_ok]; rfl⟩
    | commit =>
      cases vs with
      | nil => cases hs
      | cons u us =>
        obtain ⟨r, l', rfl, h1, h2, h3, h4⟩ := rel_cons' r0
        have fin : (∃ s', commitMemTo r.mem ⟨l', e⟩ = .ok s') → ∃ x, sstep ⟨r :: l', e⟩ .commit = .ok x := by
          rintro ⟨s', hs'⟩
          exact ⟨_, by simp only [sstep, commitTop, hs', Res.bind_ok]; rfl⟩
        cases l' with
        | nil => exact .inl (fin (commit_db_ok r.mem e))
        | cons r1 l1 =>
          rcases commit_mem_throw r.mem r1 l1 e h2.nmem with h5 | ⟨p, hpm, y, hy, hyk⟩
          · exact .inl (fin h5)
          · right; right
            obtain ⟨u1, us1, rfl, g1, _⟩ := rel_cons h4
            refine ⟨v, u, u1 :: us1, p.1.1, p.1.2, y, rfl, rfl, ?_, hyk⟩
            have ho' := h2.memOk _ _ _ (mem_mfind h2.nmem hpm)
            rw [g1.mem _ _ ho'.1 ho'.2.1]
            simp only [over, hy]

/-! ### Where the claim ends -/

def db0 : Db := ⟨fun _ => none, fun _ => none, fun _ => none, fun _ _ => some 100⟩
def view0 : View := ⟨fun _ _ => none, fun _ _ _ => none, fun _ _ => 0, fun _ _ => some 100⟩
def conA : Bytes := List.replicate 32 7
def conB : Bytes := List.replicate 20 7 ++ List.replicate 12 8
def conC : Bytes := List.replicate 32 9

def answers (s : Store) (ops : List SOp) : Option (List SAns) :=
  match srun s ops with
  | .ok p => some p.1
  | _ => none

/-- The database forgets reference counts: a variable committed to it is not the same. -/
theorem C22_counts_forgotten :
    answers ⟨[], db0⟩ [.push, .writeMem conA 5 ⟨1, 0, .uint 3⟩, .commit, .readMem conA 5, .drop, .readMem conA 5] =
      some [.done, .done, .done, .var (some ⟨1, 0, .uint 3⟩), .done, .var (some ⟨0, 0, .uint 3⟩)] := by
  decide +kernel

/-- Two contracts whose addresses begin with the same 20 bytes share their stored variables. -/
theorem C22_prefix_shared :
    answers ⟨[], db0⟩ [.push, .writeMem conA 5 ⟨0, 0, .uint 3⟩, .readMem conB 5, .commit, .drop, .readMem conB 5] =
      some [.done, .done, .var none, .done, .done, .var (some ⟨0, 0, .uint 3⟩)] := by
  decide +kernel

/-- Two variables for one key: the cache finds the one written last, after a commit it is the one
    with the higher address. -/
theorem C22_key_twice :
    answers ⟨[], db0⟩ [.push, .writeMem conA 5 ⟨0, 18, .uint 3⟩, .writeMem conA 4 ⟨0, 18, .uint 3⟩, .lookup conA (.uint 3),
      .commit, .drop, .lookup conA (.uint 3)] = some [.done, .done, .done, .key 4, .done, .done, .key 5] := by
  decide +kernel

/-! ### The hypotheses can be met -/

example : Apart (fun c => c = conA ∨ c = conC) := by
  refine ⟨?_, ?_⟩
  · rintro c (rfl | rfl) <;> rfl
  · rintro c d (rfl | rfl) (rfl | rfl) h <;> first | rfl | (exact absurd h (by decide +kernel))

example (S : Bytes → Prop) : Shows S view0 db0 :=
  ⟨fun _ _ _ _ => rfl, fun _ _ _ _ _ _ => rfl, fun _ _ _ _ _ => rfl, fun _ _ => rfl⟩

/-- A transaction in a block: written, read, committed, and a second one that is dropped. -/
def history : List SOp :=
  [.push, .push, .writeMem conA 5 ⟨0, 0, .uint 3⟩, .writeMem conA 6 ⟨0, 18, .uint 9⟩, .writeEnt conA 7 2 ⟨0, 0, .tru⟩,
    .setBal conA conC 40, .getBal conA conA, .commit, .drop, .push, .writeMem conA 5 ⟨0, 0, .uint 4⟩, .readMem conA 5, .drop,
    .readMem conA 5, .lookup conA (.uint 9), .getBal conA conC, .commit, .drop, .readMem conA 5, .readEnt conA 7 2,
    .lookup conA (.uint 9), .getBal conA conC, .readMem conC 5]

example : answers ⟨[], db0⟩ history = (specRun [view0] history).map (·.1) ∧ ((specRun [view0] history).map (·.1)).isSome = true := by
  decide +kernel

end Verif.VM
