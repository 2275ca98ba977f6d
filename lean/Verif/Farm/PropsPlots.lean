/-
  C172: which plots a harvester farms.
-/
import Verif.Farm.Plots

namespace Verif.Farm.Plots

variable {π : Type} [DecidableEq π]

/-! ### the specification -/

/-- `c` is a directory in `d`, both can be listed as far as needed, and its name is not excluded. -/
def Child (disk : Disk π) (black : List (List Char)) (d c : π) : Prop :=
  (∃ fl, disk.files d = some fl) ∧ ∃ l, disk.dirs d = some l ∧ ∃ e ∈ l, e.path = c ∧ e.name ∉ black

/-- Going down some number of times. -/
inductive Path (disk : Disk π) (black : List (List Char)) : Nat → π → π → Prop
  | here (d : π) : Path disk black 0 d d
  | down {n : Nat} {a b c : π} : Child disk black a b → Path disk black n b c → Path disk black (n + 1) a c

/-- A directory with a file that ends in `.plot`. -/
def HasPlot (disk : Disk π) (d : π) : Prop := ∃ fl, disk.files d = some fl ∧ ∃ f ∈ fl, f.ext = dotPlot

/-- The directories in which to look for plots. -/
def Env.Searched (e : Env π) (d : π) : Prop :=
  if e.recursive = true then HasPlot e.disk d ∧ ∃ k ≤ e.maxRec, ∃ s ∈ e.plotDirs, Path e.disk e.black k s d
  else d ∈ e.plotDirs

/-- A file that is there. -/
def Env.There (e : Env π) (x : FileEnt π) : Prop := ∃ d, e.Searched d ∧ ∃ fl, e.disk.files d = some fl ∧ x ∈ fl

def Env.Listed (e : Env π) (f : π) : Prop := ∃ x, e.There x ∧ x.path = f

/-- A plot file that is there and can be opened. -/
def Env.Offers (e : Env π) (f : π) (p : Plot) : Prop :=
  (∃ x, e.There x ∧ x.path = f ∧ x.ext = dotPlot ∧ plotMmx <+: x.name) ∧
    e.load f = some p ∧ e.minK ≤ p.ksize ∧ p.ksize ≤ e.maxK

/-- ... and is for a key of the farmer. -/
def Env.Valid (e : Env π) (f : π) (p : Plot) : Prop := e.Offers f p ∧ p.key ∈ e.keys

/-- At one of the reloads the file was a valid plot, and since then it was there each time. -/
def Since (es : List (Env π)) (f : π) (p : Plot) : Prop :=
  ∃ before e after, es = before ++ e :: after ∧ e.Valid f p ∧ ∀ a ∈ after, a.Listed f

/-- The plot to farm for a file: the one it was at the first of these reloads. -/
def ToFarm (es : List (Env π)) (f : π) (p : Plot) : Prop :=
  ∃ before e after, es = before ++ e :: after ∧ e.Valid f p ∧ (∀ a ∈ after, a.Listed f) ∧ ¬ ∃ q, Since before f q

/-! ### finding directories -/

theorem mem_ins {x y : π} {l : List π} : x ∈ ins y l ↔ x = y ∨ x ∈ l := by
  unfold ins
  by_cases h : y ∈ l
  · rw [if_pos h]
    exact ⟨.inr, fun k => k.elim (fun e => e ▸ h) id⟩
  · rw [if_neg h]; exact List.mem_cons

theorem mem_addSub {black : List (List Char)} {all subs : List π} {d : DirEnt π} {c : π} :
    c ∈ addSub black all subs d ↔ c ∈ subs ∨ (c = d.path ∧ d.path ∉ all ∧ d.name ∉ black) := by
  unfold addSub
  by_cases h1 : d.path ∈ all
  · rw [if_pos h1]
    exact ⟨.inl, fun k => k.elim id fun k => absurd h1 k.2.1⟩
  · rw [if_neg h1]
    by_cases h2 : d.name ∈ black
    · rw [if_pos h2]
      exact ⟨.inl, fun k => k.elim id fun k => absurd h2 k.2.2⟩
    · rw [if_neg h2, mem_ins]
      exact ⟨fun k => k.elim (fun k => .inr ⟨k, h1, h2⟩) .inl, fun k => k.elim .inr fun k => .inl k.1⟩

theorem mem_addSubs {black : List (List Char)} {all : List π} {c : π} : ∀ (ds : List (DirEnt π)) (subs : List π),
    c ∈ ds.foldl (addSub black all) subs ↔ c ∈ subs ∨ (c ∉ all ∧ ∃ e ∈ ds, e.path = c ∧ e.name ∉ black)
  | [], subs => ⟨.inl, fun k => k.elim id fun k => by obtain ⟨_, _, h, _⟩ := k; cases h⟩
  | d :: ds, subs => by
    rw [List.foldl_cons, mem_addSubs ds, mem_addSub]
    constructor
    · rintro ((h | ⟨h1, h2, h3⟩) | ⟨h, e, h1, h2⟩)
      · exact .inl h
      · exact .inr ⟨h1 ▸ h2, d, List.mem_cons_self, h1.symm, h3⟩
      · exact .inr ⟨h, e, List.mem_cons_of_mem _ h1, h2⟩
    · rintro (h | ⟨h, e, h1, h2, h3⟩)
      · exact .inl (.inl h)
      · rcases List.mem_cons.1 h1 with h1 | h1
        · subst h1; exact .inl (.inr ⟨h2.symm, by rw [h2]; exact h, h3⟩)
        · exact .inr ⟨h, e, h1, h2, h3⟩

theorem scan_all {disk : Disk π} {black : List (List Char)} {s : List π × List π} {path d : π} :
    d ∈ (scan disk black s path).1 ↔ d ∈ s.1 ∨ (d = path ∧ HasPlot disk path) := by
  unfold scan HasPlot
  cases hf : disk.files path with
  | none => exact ⟨.inl, fun k => k.elim id fun k => by obtain ⟨_, _, h, _⟩ := k; cases h⟩
  | some l =>
    have h : ∀ (b : List π × List π), b.1 = (if l.any (fun f => f.ext == dotPlot) then ins path s.1 else s.1) →
        (d ∈ b.1 ↔ d ∈ s.1 ∨ (d = path ∧ ∃ fl, some l = some fl ∧ ∃ f ∈ fl, f.ext = dotPlot)) := by
      intro b hb
      rw [hb]
      by_cases ha : l.any (fun f => f.ext == dotPlot) = true
      · rw [if_pos ha, mem_ins]
        obtain ⟨f, k1, k2⟩ := List.any_eq_true.1 ha
        exact ⟨fun k => k.elim (fun k => .inr ⟨k, l, rfl, f, k1, by simpa using k2⟩) .inl,
          fun k => k.elim .inr fun k => .inl k.1⟩
      · rw [if_neg ha]
        refine ⟨.inl, fun k => k.elim id fun k => ?_⟩
        obtain ⟨_, fl, k1, f, k2, k3⟩ := k
        cases k1
        exact absurd (List.any_eq_true.2 ⟨f, k2, by simpa using k3⟩) ha
    cases disk.dirs path with
    | none => exact h _ rfl
    | some ds => exact h _ rfl

theorem scan_subs {disk : Disk π} {black : List (List Char)} {s : List π × List π} {path c : π} :
    c ∈ (scan disk black s path).2 ↔ c ∈ s.2 ∨ (c ∉ (scan disk black s path).1 ∧ Child disk black path c) := by
  unfold scan Child
  cases hf : disk.files path with
  | none => exact ⟨.inl, fun k => k.elim id fun k => by obtain ⟨_, ⟨_, h⟩, _⟩ := k; cases h⟩
  | some l =>
    cases hd : disk.dirs path with
    | none => exact ⟨.inl, fun k => k.elim id fun k => by obtain ⟨_, _, _, h, _⟩ := k; cases h⟩
    | some ds =>
      show c ∈ ds.foldl _ _ ↔ _
      rw [mem_addSubs]
      refine or_congr Iff.rfl (and_congr Iff.rfl ?_)
      exact ⟨fun k => ⟨⟨l, rfl⟩, ds, rfl, k⟩, fun k => by obtain ⟨_, _, h, k⟩ := k; cases h; exact k⟩

theorem scans_all {disk : Disk π} {black : List (List Char)} {d : π} : ∀ (dirs : List π) (s : List π × List π),
    d ∈ (dirs.foldl (scan disk black) s).1 ↔ d ∈ s.1 ∨ (d ∈ dirs ∧ HasPlot disk d)
  | [], s => ⟨.inl, fun k => k.elim id fun k => absurd k.1 List.not_mem_nil⟩
  | x :: dirs, s => by
    rw [List.foldl_cons, scans_all dirs, scan_all, List.mem_cons]
    constructor
    · rintro ((h | ⟨h, k⟩) | ⟨h, k⟩)
      · exact .inl h
      · exact .inr ⟨.inl h, h ▸ k⟩
      · exact .inr ⟨.inr h, k⟩
    · rintro (h | ⟨h | h, k⟩)
      · exact .inl (.inl h)
      · exact .inl (.inr ⟨h, h ▸ k⟩)
      · exact .inr ⟨h, k⟩

/-- Sub directories are found from the directories; and all of them are, or have been visited before. -/
theorem scans_subs {disk : Disk π} {black : List (List Char)} : ∀ (dirs : List π) (s : List π × List π),
    (∀ c, c ∈ (dirs.foldl (scan disk black) s).2 → c ∈ s.2 ∨ ∃ d ∈ dirs, Child disk black d c) ∧
    (∀ c, c ∈ s.2 → c ∈ (dirs.foldl (scan disk black) s).2) ∧
    (∀ d ∈ dirs, ∀ c, Child disk black d c →
      c ∈ (dirs.foldl (scan disk black) s).2 ∨ c ∈ (dirs.foldl (scan disk black) s).1)
  | [], s => ⟨fun _ h => .inl h, fun _ h => h, fun _ h => absurd h List.not_mem_nil⟩
  | x :: dirs, s => by
    obtain ⟨h1, h2, h3⟩ := scans_subs (disk := disk) (black := black) dirs (scan disk black s x)
    rw [List.foldl_cons]
    refine ⟨fun c hc => ?_, fun c hc => h2 c (scan_subs.2 (.inl hc)), fun d hd c hc => ?_⟩
    · rcases h1 c hc with k | ⟨d, k1, k2⟩
      · rcases scan_subs.1 k with k | k
        · exact .inl k
        · exact .inr ⟨x, List.mem_cons_self, k.2⟩
      · exact .inr ⟨d, List.mem_cons_of_mem _ k1, k2⟩
    · rcases List.mem_cons.1 hd with hd | hd
      · subst hd
        by_cases k : c ∈ (scan disk black s d).1
        · exact .inr ((scans_all _ _).2 (.inl k))
        · exact .inl (h2 c (scan_subs.2 (.inr ⟨k, hc⟩)))
      · exact h3 d hd c hc

theorem findDirs_sound {disk : Disk π} {black : List (List Char)} {order : List π → List π}
    (ho : ∀ l : List π, (order l).Perm l) {d : π} : ∀ (n : Nat) (dirs all : List π),
    d ∈ findDirs disk black order n dirs all → d ∈ all ∨ (HasPlot disk d ∧ ∃ k < n, ∃ s ∈ dirs, Path disk black k s d)
  | 0, _, _, h => .inl h
  | n + 1, dirs, all, h => by
    unfold findDirs at h
    have one : d ∈ ((order dirs).foldl (scan disk black) (all, [])).1 →
        d ∈ all ∨ (HasPlot disk d ∧ ∃ k < n + 1, ∃ s ∈ dirs, Path disk black k s d) := by
      intro k
      rcases (scans_all _ _).1 k with k | ⟨k1, k2⟩
      · exact .inl k
      · exact .inr ⟨k2, 0, Nat.succ_pos n, d, (ho dirs).mem_iff.1 k1, .here d⟩
    by_cases he : ((order dirs).foldl (scan disk black) (all, [])).2 = []
    · simp only [he, if_true] at h; exact one h
    · simp only [he, if_false] at h
      rcases findDirs_sound ho n _ _ h with k | ⟨k1, j, hj, s, hs, hp⟩
      · exact one k
      · rcases (scans_subs (order dirs) (all, [])).1 s hs with k | ⟨x, hx, hc⟩
        · cases k
        · exact .inr ⟨k1, j + 1, Nat.succ_lt_succ hj, x, (ho dirs).mem_iff.1 hx, .down hc hp⟩

theorem findDirs_mono {disk : Disk π} {black : List (List Char)} {order : List π → List π} {d : π} :
    ∀ (n : Nat) (dirs all : List π), d ∈ all → d ∈ findDirs disk black order n dirs all
  | 0, _, _, h => h
  | n + 1, dirs, all, h => by
    unfold findDirs
    have h1 : d ∈ ((order dirs).foldl (scan disk black) (all, [])).1 := (scans_all _ _).2 (.inl h)
    by_cases he : ((order dirs).foldl (scan disk black) (all, [])).2 = []
    · simp only [he, if_true]; exact h1
    · simp only [he, if_false]; exact findDirs_mono n _ _ h1

/-- What was visited (`V`) has its sub directories among those to visit and those visited, and is in the result if it has
    plots. -/
structure Visited (disk : Disk π) (black : List (List Char)) (V dirs all : List π) : Prop where
  sub : ∀ a ∈ all, a ∈ V
  child : ∀ a ∈ V, ∀ c, Child disk black a c → c ∈ dirs ∨ c ∈ V
  plot : ∀ a ∈ V, HasPlot disk a → a ∈ all

theorem visited_next {disk : Disk π} {black : List (List Char)} {order : List π → List π}
    (ho : ∀ l : List π, (order l).Perm l) {V dirs all : List π} (h : Visited disk black V dirs all) :
    Visited disk black (V ++ dirs) ((order dirs).foldl (scan disk black) (all, [])).2
      ((order dirs).foldl (scan disk black) (all, [])).1 := by
  have sub : ∀ a ∈ ((order dirs).foldl (scan disk black) (all, [])).1, a ∈ V ++ dirs := by
    intro a ha
    rcases (scans_all _ _).1 ha with k | ⟨k, _⟩
    · exact List.mem_append_left _ (h.sub a k)
    · exact List.mem_append_right _ ((ho dirs).mem_iff.1 k)
  refine ⟨sub, fun a ha c hc => ?_, fun a ha hp => (scans_all _ _).2 ?_⟩
  · rcases List.mem_append.1 ha with k | k
    · rcases h.child a k c hc with k | k
      · exact .inr (List.mem_append_right _ k)
      · exact .inr (List.mem_append_left _ k)
    · rcases (scans_subs (order dirs) (all, [])).2.2 a ((ho dirs).mem_iff.2 k) c hc with k | k
      · exact .inl k
      · exact .inr (sub c k)
  · rcases List.mem_append.1 ha with k | k
    · exact .inl (h.plot a k hp)
    · exact .inr ⟨(ho dirs).mem_iff.2 k, hp⟩

omit [DecidableEq π] in
theorem visited_path {disk : Disk π} {black : List (List Char)} {V all : List π} (h : Visited disk black V [] all) {d : π} :
    ∀ {k : Nat} {s : π}, Path disk black k s d → s ∈ V → d ∈ V
  | 0, _, .here _, hs => hs
  | _ + 1, _, .down hc hp, hs => visited_path h hp ((h.child _ hs _ hc).elim (fun k => absurd k List.not_mem_nil) id)

theorem findDirs_complete {disk : Disk π} {black : List (List Char)} {order : List π → List π}
    (ho : ∀ l : List π, (order l).Perm l) {d : π} (hd : HasPlot disk d) : ∀ (n : Nat) (V dirs all : List π),
    Visited disk black V dirs all → ∀ (k : Nat) (s : π), k < n → Path disk black k s d → (s ∈ dirs ∨ s ∈ V) →
    d ∈ findDirs disk black order n dirs all
  | 0, _, _, _, _, _, _, hk, _, _ => absurd hk (Nat.not_lt_zero _)
  | n + 1, V, dirs, all, hv, k, s, hk, hp, hs => by
    have hv' := visited_next ho hv
    have hs' : s ∈ V ++ dirs := List.mem_append.2 hs.symm
    unfold findDirs
    by_cases he : ((order dirs).foldl (scan disk black) (all, [])).2 = []
    · simp only [he, if_true]
      rw [he] at hv'
      exact hv'.plot d (visited_path hv' hp hs') hd
    · simp only [he, if_false]
      cases hp with
      | here => exact findDirs_mono n _ _ (hv'.plot d hs' hd)
      | down hc hp =>
        exact findDirs_complete ho hd n _ _ _ hv' _ _ (Nat.lt_of_succ_lt_succ hk) hp (hv'.child _ hs' _ hc)

/-- **C172.** The search for directories finds exactly those with a `.plot` file that can be reached from one of the
    directories to search by going down no more often than permitted, never into a directory with an excluded name;
    whatever links there are between the directories. -/
theorem C172_search (disk : Disk π) (black : List (List Char)) {order : List π → List π}
    (ho : ∀ l : List π, (order l).Perm l) (max : Nat) (dirs : List π) (d : π) :
    d ∈ findDirs disk black order (max + 1) dirs [] ↔
      HasPlot disk d ∧ ∃ k ≤ max, ∃ s ∈ dirs, Path disk black k s d := by
  constructor
  · intro h
    rcases findDirs_sound ho _ _ _ h with k | ⟨h1, k, hk, h2⟩
    · cases k
    · exact ⟨h1, k, Nat.le_of_lt_succ hk, h2⟩
  · rintro ⟨h1, k, hk, s, hs, hp⟩
    exact findDirs_complete ho h1 _ [] _ _ ⟨fun _ h => h, fun _ h => absurd h List.not_mem_nil,
      fun _ h => absurd h List.not_mem_nil⟩ k s (Nat.lt_succ_of_le hk) hp (.inl hs)

/-! ### one reload -/

theorem searched_iff (e : Env π) {order : List π → List π} (ho : ∀ l : List π, (order l).Perm l) (d : π) :
    d ∈ e.dirList order ↔ e.Searched d := by
  unfold Env.dirList Env.Searched
  by_cases h : e.recursive = true
  · rw [if_pos h, if_pos h]; exact C172_search _ _ ho _ _ _
  · rw [if_neg h, if_neg h]

theorem seen_iff (e : Env π) {order : List π → List π} (ho : ∀ l : List π, (order l).Perm l) (x : FileEnt π) :
    x ∈ e.seen order ↔ e.There x := by
  unfold Env.seen Env.There
  rw [List.mem_flatMap]
  refine exists_congr fun d => and_congr (searched_iff e ho d) ?_
  cases e.disk.files d with
  | none => exact ⟨fun h => absurd h List.not_mem_nil, fun ⟨_, h, _⟩ => nomatch h⟩
  | some l => exact ⟨fun h => ⟨l, rfl, h⟩, fun ⟨_, h, k⟩ => by cases h; exact k⟩

theorem see_missing {m : PMap π} {f : π} : ∀ (l : List (FileEnt π)) (s : List π × List π),
    f ∈ (l.foldl (see m) s).1 ↔ f ∈ s.1 ∧ ∀ x ∈ l, x.path ≠ f
  | [], s => ⟨fun h => ⟨h, fun _ k => absurd k List.not_mem_nil⟩, fun h => h.1⟩
  | x :: l, s => by
    rw [List.foldl_cons, see_missing l]
    show f ∈ s.1.filter _ ∧ _ ↔ _
    rw [List.mem_filter, List.forall_mem_cons, and_assoc]
    refine and_congr Iff.rfl (and_congr ?_ Iff.rfl)
    exact ⟨fun h k => (of_decide_eq_true h) k.symm, fun h => decide_eq_true fun k => h k.symm⟩

theorem see_files {m : PMap π} {f : π} : ∀ (l : List (FileEnt π)) (s : List π × List π),
    f ∈ (l.foldl (see m) s).2 ↔ f ∈ s.2 ∨ ∃ x ∈ l, x.path = f ∧ isNew m x = true
  | [], s => ⟨.inl, fun k => k.elim id fun ⟨_, h, _⟩ => absurd h List.not_mem_nil⟩
  | x :: l, s => by
    rw [List.foldl_cons, see_files l]
    have : f ∈ (see m s x).2 ↔ f ∈ s.2 ∨ (x.path = f ∧ isNew m x = true) := by
      unfold see
      by_cases h : isNew m x = true
      · simp only [h, if_true, List.mem_cons]
        exact ⟨fun k => k.elim (fun k => .inr ⟨k.symm, trivial⟩) .inl, fun k => k.elim .inr fun k => .inl k.1.symm⟩
      · rw [if_neg h]
        exact ⟨.inl, fun k => k.elim id fun k => absurd k.2 h⟩
    rw [this]
    constructor
    · rintro ((h | h) | ⟨y, h, k⟩)
      · exact .inl h
      · exact .inr ⟨x, List.mem_cons_self, h⟩
      · exact .inr ⟨y, List.mem_cons_of_mem _ h, k⟩
    · rintro (h | ⟨y, h, k⟩)
      · exact .inl (.inl h)
      · rcases List.mem_cons.1 h with h | h
        · subst h; exact .inl (.inr k)
        · exact .inr ⟨y, h, k⟩

theorem get_mem : ∀ {m : PMap π} {f : π} {p : Plot}, get m f = some p → (f, p) ∈ m
  | [], _, _, h => nomatch h
  | x :: m, f, p, h => by
    unfold get at h
    by_cases k : x.1 = f
    · rw [if_pos k] at h; cases h; subst k; exact List.mem_cons_self
    · rw [if_neg k] at h; exact List.mem_cons_of_mem _ (get_mem h)

theorem get_none : ∀ {m : PMap π} {f : π}, get m f = none ↔ f ∉ m.map (·.1)
  | [], _ => ⟨fun _ => List.not_mem_nil, fun _ => rfl⟩
  | x :: m, f => by
    rw [List.map_cons, List.mem_cons]
    unfold get
    by_cases k : x.1 = f
    · rw [if_pos k]
      exact ⟨fun h => (nomatch h), fun h => absurd (.inl k.symm) h⟩
    · rw [if_neg k, get_none]
      exact ⟨fun h h' => h'.elim (fun e => k e.symm) h, fun h h' => h (.inr h')⟩

theorem mem_get : ∀ {m : PMap π}, (m.map (·.1)).Nodup → ∀ {f : π} {p : Plot}, (f, p) ∈ m → get m f = some p
  | [], _, _, _, h => absurd h List.not_mem_nil
  | x :: m, n, f, p, h => by
    rw [List.map_cons, List.nodup_cons] at n
    unfold get
    rcases List.mem_cons.1 h with h | h
    · subst h; rw [if_pos rfl]
    · rw [if_neg (fun e : x.1 = f => n.1 (e ▸ List.mem_map_of_mem (f := (·.1)) h)), mem_get n.2 h]

theorem get_filter (g : π → Bool) : ∀ (m : PMap π) (f : π),
    get (m.filter fun x => g x.1) f = if g f = true then get m f else none
  | [], f => by by_cases h : g f = true <;> simp [get, h]
  | x :: m, f => by
    by_cases hg : g x.1 = true
    · rw [List.filter_cons_of_pos (by exact hg)]
      unfold get
      by_cases k : x.1 = f
      · rw [if_pos k, if_pos k, ← k, if_pos hg]
      · rw [if_neg k, if_neg k]; exact get_filter g m f
    · rw [List.filter_cons_of_neg (by exact hg), get_filter g m f]
      by_cases k : g f = true
      · rw [if_pos k, if_pos k]
        conv => rhs; unfold get
        rw [if_neg fun e => hg (by rw [e]; exact k)]
      · rw [if_neg k, if_neg k]

theorem get_insert (m : PMap π) (x : π × Plot) (f : π) :
    get (insert m x) f = if (get m f).isSome then get m f else if x.1 = f then some x.2 else none := by
  unfold insert
  by_cases h : (get m x.1).isSome = true
  · rw [if_pos h]
    by_cases k : (get m f).isSome = true
    · rw [if_pos k]
    · rw [if_neg k, if_neg (fun e : x.1 = f => k (e ▸ h))]
      exact Option.not_isSome_iff_eq_none.1 k
  · rw [if_neg h]
    conv => lhs; unfold get
    by_cases e : x.1 = f
    · subst e; rw [if_pos rfl, if_neg h, if_pos rfl]
    · rw [if_neg e, if_neg e]
      by_cases k : (get m f).isSome = true
      · rw [if_pos k]
      · rw [if_neg k]; exact Option.not_isSome_iff_eq_none.1 k

theorem nodup_insert {m : PMap π} (n : (m.map (·.1)).Nodup) (x : π × Plot) : ((insert m x).map (·.1)).Nodup := by
  unfold insert
  by_cases h : (get m x.1).isSome = true
  · rw [if_pos h]; exact n
  · rw [if_neg h, List.map_cons, List.nodup_cons]
    exact ⟨get_none.1 (Option.not_isSome_iff_eq_none.1 h), n⟩

theorem add_keeps (e : Env π) (m : PMap π) (x : π × Plot) {f : π} {p : Plot} (h : get m f = some p) :
    get (e.add m x) f = some p := by
  unfold Env.add
  by_cases k : x.2.key ∈ e.keys
  · rw [if_pos k, get_insert, h]; rfl
  · rw [if_neg k]; exact h

theorem adds_keep (e : Env π) {f : π} {p : Plot} : ∀ (l : List (π × Plot)) (m : PMap π), get m f = some p →
    get (l.foldl e.add m) f = some p
  | [], _, h => h
  | x :: l, m, h => adds_keep e l _ (add_keeps e m x h)

theorem adds_none (e : Env π) {f : π} {q : Plot} : ∀ (l : List (π × Plot)) (m : PMap π), get m f = none →
    (∀ p, (f, p) ∈ l → p = q) → get (l.foldl e.add m) f = if q.key ∈ e.keys ∧ (f, q) ∈ l then some q else none
  | [], m, h, _ => by rw [if_neg fun k => absurd k.2 List.not_mem_nil]; exact h
  | x :: l, m, h, hq => by
    rw [List.foldl_cons]
    by_cases hx : x.1 = f ∧ x.2.key ∈ e.keys
    · have e1 : x.2 = q := hq x.2 (by rw [← hx.1]; exact List.mem_cons_self)
      have e2 : (f, q) = x := by rw [← hx.1, ← e1]
      rw [if_pos ⟨e1 ▸ hx.2, by rw [e2]; exact List.mem_cons_self⟩]
      refine adds_keep e l _ ?_
      unfold Env.add
      rw [if_pos hx.2, get_insert, h, if_neg (by decide), if_pos hx.1, e1]
    · have e1 : get (e.add m x) f = none := by
        unfold Env.add
        by_cases k : x.2.key ∈ e.keys
        · rw [if_pos k, get_insert, h, if_neg (by decide), if_neg fun c => hx ⟨c, k⟩]
        · rw [if_neg k]; exact h
      rw [adds_none e l _ e1 fun p hp => hq p (List.mem_cons_of_mem _ hp)]
      by_cases k : q.key ∈ e.keys ∧ (f, q) ∈ l
      · rw [if_pos k, if_pos ⟨k.1, List.mem_cons_of_mem _ k.2⟩]
      · rw [if_neg k, if_neg]
        rintro ⟨k1, k2⟩
        rcases List.mem_cons.1 k2 with k2 | k2
        · exact hx (by rw [← k2]; exact ⟨rfl, k1⟩)
        · exact k ⟨k1, k2⟩

theorem adds_nodup (e : Env π) : ∀ (l : List (π × Plot)) (m : PMap π), (m.map (·.1)).Nodup →
    ((l.foldl e.add m).map (·.1)).Nodup
  | [], _, h => h
  | x :: l, m, h => by
    refine adds_nodup e l _ ?_
    unfold Env.add
    by_cases k : x.2.key ∈ e.keys
    · rw [if_pos k]; exact nodup_insert h x
    · rw [if_neg k]; exact h

omit [DecidableEq π] in
theorem open_iff (e : Env π) (f : π) (x : π × Plot) :
    e.open f = some x ↔ x.1 = f ∧ e.load f = some x.2 ∧ e.minK ≤ x.2.ksize ∧ x.2.ksize ≤ e.maxK := by
  unfold Env.open
  cases e.load f with
  | none => exact ⟨fun h => (nomatch h), fun h => (nomatch h.2.1)⟩
  | some p =>
    show (if p.ksize < e.minK ∨ p.ksize > e.maxK then none else some (f, p)) = some x ↔ _
    by_cases h : p.ksize < e.minK ∨ p.ksize > e.maxK
    · rw [if_pos h]
      refine ⟨fun h => (nomatch h), fun k => ?_⟩
      obtain ⟨_, k1, k2, k3⟩ := k
      cases k1; omega
    · rw [if_neg h]
      constructor
      · intro k; cases k; exact ⟨rfl, rfl, by show _ ≤ p.ksize; omega, by show p.ksize ≤ _; omega⟩
      · rintro ⟨k1, k2, _⟩
        cases k2; subst k1; rfl

theorem isNew_iff (m : PMap π) (x : FileEnt π) :
    isNew m x = true ↔ get m x.path = none ∧ x.ext = dotPlot ∧ plotMmx <+: x.name := by
  unfold isNew
  rw [Bool.and_eq_true, Bool.and_eq_true, Option.isNone_iff_eq_none, beq_iff_eq, beq_iff_eq, and_assoc]
  refine and_congr Iff.rfl (and_congr Iff.rfl ?_)
  rw [List.prefix_iff_eq_take]
  exact eq_comm

/-- What is opened in a reload. -/
theorem opened_iff {r : Round π} {s : H π} (h : r.Ok s) (x : π × Plot) :
    x ∈ r.found.filterMap r.env.open ↔ r.env.Offers x.1 x.2 ∧ get s.plots x.1 = none := by
  obtain ⟨h1, h2, h3, _⟩ := h
  rw [List.mem_filterMap]
  constructor
  · rintro ⟨f, hf, ho⟩
    obtain ⟨k1, k2, k3⟩ := (open_iff _ _ _).1 ho
    subst k1
    rcases (see_files _ _).1 (h3.mem_iff.1 hf) with k | ⟨y, hy, y1, y2⟩
    · cases k
    · obtain ⟨z1, z2, z3⟩ := (isNew_iff _ _).1 y2
      exact ⟨⟨⟨y, (seen_iff _ h1 y).1 (h2.mem_iff.1 hy), y1, z2, z3⟩, k2, k3⟩, y1 ▸ z1⟩
  · rintro ⟨⟨⟨y, hy, y1, z2, z3⟩, k2, k3⟩, hn⟩
    refine ⟨x.1, h3.mem_iff.2 ((see_files _ _).2 (.inr ⟨y, h2.mem_iff.2 ((seen_iff _ h1 y).2 hy), y1, ?_⟩)),
      (open_iff _ _ _).2 ⟨rfl, k2, k3⟩⟩
    exact (isNew_iff _ _).2 ⟨y1 ▸ hn, z2, z3⟩

omit [DecidableEq π] in
theorem valid_listed {e : Env π} {f : π} {p : Plot} (h : e.Valid f p) : e.Listed f := by
  obtain ⟨⟨⟨x, h1, h2, _⟩, _⟩, _⟩ := h
  exact ⟨x, h1, h2⟩

/-- One reload: a plot that was farmed stays if its file is there, another one comes if its file is a valid plot. -/
theorem reload_get {r : Round π} {s : H π} (h : r.Ok s) (f : π) (p : Plot) :
    get (reload r.env r.files r.found r.walk s).plots f = some p ↔
      (get s.plots f = some p ∧ r.env.Listed f) ∨ (get s.plots f = none ∧ r.env.Valid f p) := by
  have hmis : ∀ f, f ∈ (r.files.foldl (see s.plots) (s.plots.map (·.1), [])).1 ↔
      f ∈ s.plots.map (·.1) ∧ ¬ r.env.Listed f := by
    intro f
    rw [see_missing]
    refine and_congr Iff.rfl ?_
    constructor
    · rintro k ⟨x, hx, e⟩
      exact k x (h.2.1.mem_iff.2 ((seen_iff _ h.1 x).2 hx)) e
    · intro k x hx e
      exact k ⟨x, (seen_iff _ h.1 x).1 (h.2.1.mem_iff.1 hx), e⟩
  have hm1 : get (s.plots.filter fun x => x.1 ∉ (r.files.foldl (see s.plots) (s.plots.map (·.1), [])).1) f =
      if f ∉ (r.files.foldl (see s.plots) (s.plots.map (·.1), [])).1 then get s.plots f else none := by
    rw [get_filter (fun f => decide (f ∉ (r.files.foldl (see s.plots) (s.plots.map (·.1), [])).1))]
    simp only [decide_eq_true_eq]
  show get ((r.found.filterMap r.env.open).foldl r.env.add
    (s.plots.filter fun x => x.1 ∉ (r.files.foldl (see s.plots) (s.plots.map (·.1), [])).1)) f = some p ↔ _
  cases hg : get s.plots f with
  | some q =>
    have hin : f ∈ s.plots.map (·.1) := List.mem_map_of_mem (f := (·.1)) (get_mem hg)
    by_cases hl : r.env.Listed f
    · rw [adds_keep r.env _ _ (p := q) (by rw [hm1, if_pos fun k => ((hmis f).1 k).2 hl, hg])]
      exact ⟨fun k => .inl ⟨k, hl⟩, fun k => k.elim (·.1) fun k => (nomatch k.1)⟩
    · have hn : get (s.plots.filter fun x => x.1 ∉ (r.files.foldl (see s.plots) (s.plots.map (·.1), [])).1) f = none := by
        rw [hm1, if_neg fun k => k ((hmis f).2 ⟨hin, hl⟩)]
      have hno : ∀ p, (f, p) ∈ r.found.filterMap r.env.open → p = q := by
        intro p hp
        have := ((opened_iff h _).1 hp).2
        rw [hg] at this; cases this
      rw [adds_none r.env _ _ hn hno, if_neg]
      · exact ⟨fun k => (nomatch k), fun k => k.elim (fun k => absurd k.2 hl) fun k => (nomatch k.1)⟩
      · rintro ⟨_, k⟩
        have := ((opened_iff h _).1 k).2
        rw [hg] at this; cases this
  | none =>
    have hn : get (s.plots.filter fun x => x.1 ∉ (r.files.foldl (see s.plots) (s.plots.map (·.1), [])).1) f = none := by
      rw [hm1, hg]; exact ite_self none
    have hv : ∀ q, (f, q) ∈ r.found.filterMap r.env.open ↔ r.env.Offers f q := by
      intro q
      rw [opened_iff h]
      exact ⟨fun k => k.1, fun k => ⟨k, hg⟩⟩
    cases hload : r.env.load f with
    | none =>
      have hnone : ∀ q, ¬ r.env.Offers f q := fun q k => by rw [k.2.1] at hload; cases hload
      rw [adds_none r.env (q := ⟨0, 0, 0, none, 0⟩) _ _ hn fun p hp => absurd ((hv p).1 hp) (hnone p), if_neg]
      · exact ⟨fun k => (nomatch k), fun k => k.elim (fun k => (nomatch k.1)) fun k => absurd k.2.1 (hnone p)⟩
      · exact fun k => hnone _ ((hv _).1 k.2)
    | some q =>
      have huniq : ∀ p, r.env.Offers f p → p = q := fun p k => by
        have := k.2.1; rw [hload] at this; cases this; rfl
      rw [adds_none r.env (q := q) _ _ hn fun p hp => huniq p ((hv p).1 hp)]
      by_cases k : q.key ∈ r.env.keys ∧ (f, q) ∈ r.found.filterMap r.env.open
      · rw [if_pos k]
        constructor
        · intro e; rw [← Option.some.inj e]; exact .inr ⟨rfl, (hv q).1 k.2, k.1⟩
        · rintro (e | ⟨_, e, _⟩)
          · exact nomatch e.1
          · rw [huniq p e]
      · rw [if_neg k]
        refine ⟨fun e => (nomatch e), fun e => e.elim (fun e => (nomatch e.1)) fun e => ?_⟩
        obtain ⟨_, e1, e2⟩ := e
        have := huniq p e1
        subst this
        exact absurd ⟨e2, (hv p).2 e1⟩ k

/-! ### all reloads -/

omit [DecidableEq π] in
theorem snoc_split {es : List (Env π)} {e : Env π} {b : List (Env π)} {x : Env π} {a : List (Env π)}
    (h : es ++ [e] = b ++ x :: a) : (a = [] ∧ b = es ∧ x = e) ∨ ∃ a', a = a' ++ [e] ∧ es = b ++ x :: a' := by
  rcases List.eq_nil_or_concat a with k | ⟨a', y, k⟩
  · subst k
    obtain ⟨h1, h2⟩ := List.append_inj' h rfl
    cases h2
    exact .inl ⟨rfl, h1.symm, rfl⟩
  · subst k
    have h' : es ++ [e] = (b ++ x :: a') ++ [y] := by rw [h, List.append_assoc]; simp
    obtain ⟨h1, h2⟩ := List.append_inj' h' rfl
    cases h2
    exact .inr ⟨a', by simp, h1⟩

omit [DecidableEq π] in
theorem since_snoc {es : List (Env π)} {e : Env π} {f : π} {p : Plot} :
    Since (es ++ [e]) f p ↔ (Since es f p ∧ e.Listed f) ∨ e.Valid f p := by
  constructor
  · rintro ⟨b, x, a, h, hv, hl⟩
    rcases snoc_split h with ⟨_, _, h3⟩ | ⟨a', h1, h2⟩
    · exact .inr (h3 ▸ hv)
    · subst h1
      exact .inl ⟨⟨b, x, a', h2, hv, fun y hy => hl y (List.mem_append_left _ hy)⟩, hl e (by simp)⟩
  · rintro (⟨⟨b, x, a, h, hv, hl⟩, he⟩ | hv)
    · refine ⟨b, x, a ++ [e], by rw [h]; simp, hv, fun y hy => ?_⟩
      rcases List.mem_append.1 hy with hy | hy
      · exact hl y hy
      · rw [List.mem_singleton.1 hy]; exact he
    · exact ⟨es, e, [], rfl, hv, fun _ h => absurd h List.not_mem_nil⟩

omit [DecidableEq π] in
theorem toFarm_snoc {es : List (Env π)} {e : Env π} {f : π} {p : Plot} :
    ToFarm (es ++ [e]) f p ↔ (ToFarm es f p ∧ e.Listed f) ∨ ((¬ ∃ q, Since es f q) ∧ e.Valid f p) := by
  constructor
  · rintro ⟨b, x, a, h, hv, hl, hn⟩
    rcases snoc_split h with ⟨_, h2, h3⟩ | ⟨a', h1, h2⟩
    · subst h2 h3; exact .inr ⟨hn, hv⟩
    · subst h1
      exact .inl ⟨⟨b, x, a', h2, hv, fun y hy => hl y (List.mem_append_left _ hy), hn⟩, hl e (by simp)⟩
  · rintro (⟨⟨b, x, a, h, hv, hl, hn⟩, he⟩ | ⟨hn, hv⟩)
    · refine ⟨b, x, a ++ [e], by rw [h]; simp, hv, fun y hy => ?_, hn⟩
      rcases List.mem_append.1 hy with hy | hy
      · exact hl y hy
      · rw [List.mem_singleton.1 hy]; exact he
    · exact ⟨es, e, [], rfl, hv, fun _ h => absurd h List.not_mem_nil, hn⟩

theorem run_get {rs : List (Round π)} {s : H π} (h : Runs rs s) (f : π) :
    (∀ p, get s.plots f = some p ↔ ToFarm (rs.map (·.env)) f p) ∧
    (get s.plots f = none ↔ ¬ ∃ q, Since (rs.map (·.env)) f q) := by
  induction h with
  | init =>
    have h1 : ∀ b (x : Env π) a, ([] : List (Env π)) ≠ b ++ x :: a := fun b x a => by cases b <;> exact fun h => nomatch h
    exact ⟨fun p => ⟨fun h => (nomatch h), fun ⟨b, x, a, h, _⟩ => absurd h (h1 b x a)⟩,
      fun _ ⟨q, b, x, a, h, _⟩ => absurd h (h1 b x a), fun _ => rfl⟩
  | @step rs s r h ok ih =>
    rw [List.map_append, List.map_singleton]
    have hsome : ∀ p, get (reload r.env r.files r.found r.walk s).plots f = some p ↔
        ToFarm (rs.map (·.env) ++ [r.env]) f p := by
      intro p
      rw [reload_get ok, toFarm_snoc, ih.1 p, ih.2]
    refine ⟨hsome, ?_⟩
    have hsn : (∃ q, Since (rs.map (·.env) ++ [r.env]) f q) ↔
        ∃ p, get (reload r.env r.files r.found r.walk s).plots f = some p := by
      constructor
      · rintro ⟨q, hq⟩
        cases hg : get s.plots f with
        | none =>
          rcases since_snoc.1 hq with k | k
          · exact absurd ⟨q, k.1⟩ (ih.2.1 hg)
          · exact ⟨q, (reload_get ok f q).2 (.inr ⟨hg, k⟩)⟩
        | some p =>
          rcases since_snoc.1 hq with k | k
          · exact ⟨p, (reload_get ok f p).2 (.inl ⟨hg, k.2⟩)⟩
          · exact ⟨p, (reload_get ok f p).2 (.inl ⟨hg, valid_listed k⟩)⟩
      · rintro ⟨p, hp⟩
        rcases (reload_get ok f p).1 hp with k | k
        · have : ¬ get s.plots f = none := by rw [k.1]; exact fun h => nomatch h
          rw [ih.2, Classical.not_not] at this
          obtain ⟨q, hq⟩ := this
          exact ⟨q, since_snoc.2 (.inl ⟨hq, k.2⟩)⟩
        · exact ⟨p, since_snoc.2 (.inr k.2)⟩
    rw [hsn]
    cases get (reload r.env r.files r.found r.walk s).plots f with
    | none => exact ⟨fun _ ⟨_, h⟩ => (nomatch h), fun _ => rfl⟩
    | some p => exact ⟨fun h => (nomatch h), fun h => absurd ⟨p, rfl⟩ h⟩

/-- **C172.** After any reloads, in whatever order the threads did their work, a plot is farmed exactly if its file was a
    valid plot of the farmer at one of the reloads and has been there at every reload since; and it is the plot that the
    file was at the first such reload. -/
theorem C172_which {rs : List (Round π)} {s : H π} (h : Runs rs s) (f : π) :
    (∀ p, get s.plots f = some p ↔ ToFarm (rs.map (·.env)) f p) ∧
    ((∃ p, get s.plots f = some p) ↔ ∃ q, Since (rs.map (·.env)) f q) := by
  obtain ⟨h1, h2⟩ := run_get h f
  refine ⟨h1, ?_⟩
  cases hg : get s.plots f with
  | none => exact ⟨fun ⟨_, k⟩ => (nomatch k), fun k => absurd k (h2.1 hg)⟩
  | some p =>
    refine ⟨fun _ => ?_, fun _ => ⟨p, rfl⟩⟩
    have : ¬ get s.plots f = none := by rw [hg]; exact fun h => nomatch h
    rw [h2, Classical.not_not] at this
    exact this

/-- **C172.** What is farmed is there: after a reload, no plot of a removed directory or file is farmed. -/
theorem C172_there {rs : List (Round π)} {s : H π} {r : Round π} (h : Runs rs s) (ok : r.Ok s) {f : π} {p : Plot}
    (hp : get (reload r.env r.files r.found r.walk s).plots f = some p) : r.env.Listed f := by
  have _ := h
  rcases (reload_get ok f p).1 hp with k | k
  · exact k.2
  · exact valid_listed k.2

theorem run_nodup {rs : List (Round π)} {s : H π} (h : Runs rs s) : (s.plots.map (·.1)).Nodup := by
  induction h with
  | init => exact List.nodup_nil
  | @step rs s r h ok ih =>
    refine adds_nodup _ _ _ ?_
    exact ih.sublist (List.filter_sublist.map _)

omit [DecidableEq π] in
theorem emplace_spec (m : PMap π) : ∀ (l : PMap π) (ids : List (Nat × π)), (∀ x ∈ l, x ∈ m) → (ids.map (·.1)).Nodup →
    (∀ y ∈ ids, ∃ p : Plot, (y.2, p) ∈ m ∧ p.id = y.1) →
    ((l.foldl (fun ids x => emplace ids x.2.id x.1) ids).map (·.1)).Nodup ∧
    (∀ y ∈ l.foldl (fun ids x => emplace ids x.2.id x.1) ids, ∃ p : Plot, (y.2, p) ∈ m ∧ p.id = y.1) ∧
    (∀ i, i ∈ (l.foldl (fun ids x => emplace ids x.2.id x.1) ids).map (·.1) ↔ i ∈ ids.map (·.1) ∨ i ∈ l.map (·.2.id))
  | [], ids, _, h1, h2 => ⟨h1, h2, fun i => ⟨.inl, fun k => k.elim id fun k => absurd k List.not_mem_nil⟩⟩
  | x :: l, ids, hm, h1, h2 => by
    rw [List.foldl_cons]
    have hm' : ∀ y ∈ l, y ∈ m := fun y hy => hm y (List.mem_cons_of_mem _ hy)
    unfold emplace
    by_cases k : x.2.id ∈ ids.map (·.1)
    · rw [if_pos k]
      obtain ⟨g1, g2, g3⟩ := emplace_spec m l ids hm' h1 h2
      refine ⟨g1, g2, fun i => (g3 i).trans ?_⟩
      rw [List.map_cons, List.mem_cons]
      exact ⟨fun h => h.elim .inl (fun h => .inr (.inr h)),
        fun h => h.elim .inl fun h => h.elim (fun h => .inl (h ▸ k)) .inr⟩
    · rw [if_neg k]
      obtain ⟨g1, g2, g3⟩ := emplace_spec m l ((x.2.id, x.1) :: ids) hm'
        (by rw [List.map_cons, List.nodup_cons]; exact ⟨k, h1⟩)
        (by
          intro y hy
          rcases List.mem_cons.1 hy with hy | hy
          · subst hy; exact ⟨x.2, hm x List.mem_cons_self, rfl⟩
          · exact h2 y hy)
      refine ⟨g1, g2, fun i => (g3 i).trans ?_⟩
      rw [List.map_cons, List.mem_cons, List.map_cons, List.mem_cons]
      exact ⟨fun h => h.elim (fun h => h.elim (fun h => .inr (.inl h)) .inl) fun h => .inr (.inr h),
        fun h => h.elim (fun h => .inl (.inr h)) fun h => h.elim (fun h => .inl (.inl h)) .inr⟩

theorem run_ids {rs : List (Round π)} {s : H π} (h : Runs rs s) : (s.ids.map (·.1)).Nodup ∧
    (∀ y ∈ s.ids, ∃ p : Plot, (y.2, p) ∈ s.plots ∧ p.id = y.1) ∧
    (∀ i, i ∈ s.ids.map (·.1) ↔ i ∈ s.plots.map (·.2.id)) := by
  cases h with
  | init => exact ⟨List.nodup_nil, fun _ h => absurd h List.not_mem_nil, fun _ => Iff.rfl⟩
  | @step rs s r h ok =>
    have hw := ok.2.2.2 (reload r.env r.files r.found r.walk s).plots
    obtain ⟨g1, g2, g3⟩ := emplace_spec (reload r.env r.files r.found r.walk s).plots
      (r.walk (reload r.env r.files r.found r.walk s).plots) [] (fun x hx => hw.mem_iff.1 hx) List.nodup_nil
      (fun _ h => absurd h List.not_mem_nil)
    refine ⟨g1, g2, fun i => (g3 i).trans ?_⟩
    rw [(hw.map (·.2.id)).mem_iff]
    exact ⟨fun k => k.elim (fun k => absurd k List.not_mem_nil) id, .inr⟩

/-- **C172.** A lookup asks every plot that is farmed exactly once, however many files it is in; it asks for no plot that
    cannot be found. -/
theorem C172_once {rs : List (Round π)} {s : H π} (h : Runs rs s) :
    ((lookups s).map (·.1)).Nodup ∧
    (∀ x ∈ lookups s, ∃ f p, get s.plots f = some p ∧ p.id = x.1 ∧ x.2 = some p) ∧
    ∀ f p, get s.plots f = some p → ∃ q, (p.id, q) ∈ lookups s := by
  obtain ⟨h1, h2, h3⟩ := run_ids h
  have hn := run_nodup h
  refine ⟨?_, ?_, ?_⟩
  · unfold lookups; rw [List.map_map]; exact h1
  · intro x hx
    obtain ⟨y, hy, e⟩ := List.mem_map.1 hx
    obtain ⟨p, k1, k2⟩ := h2 y hy
    subst e
    exact ⟨y.2, p, mem_get hn k1, k2, mem_get hn k1⟩
  · intro f p hp
    have : p.id ∈ s.ids.map (·.1) := (h3 _).2 (List.mem_map_of_mem (f := (·.2.id)) (get_mem hp))
    obtain ⟨y, hy, e⟩ := List.mem_map.1 this
    exact ⟨get s.plots y.2, List.mem_map.2 ⟨y, hy, by rw [e]⟩⟩

/-- **C172.** The same plots are farmed whatever the threads did: with the same keys and files at each reload, two
    harvesters farm the same. -/
theorem C172_schedule {rs rs' : List (Round π)} {s s' : H π} (h : Runs rs s) (h' : Runs rs' s')
    (he : rs.map (·.env) = rs'.map (·.env)) (f : π) : get s.plots f = get s'.plots f := by
  have h1 := (C172_which h f).1
  have h2 := (C172_which h' f).1
  rw [he] at h1
  cases hg : get s.plots f with
  | some p => exact ((h2 p).2 ((h1 p).1 hg)).symm
  | none =>
    cases hg' : get s'.plots f with
    | none => rfl
    | some p => rw [(h1 p).2 ((h2 p).1 hg')] at hg; cases hg

/-- **C172.** A second reload that finds everything as it was changes no plot; it still drops the harvester's readiness and
    has all challenges checked again, if and only if there is a plot file that can be opened but is not farmed, which
    is one with a key that the farmer does not have. -/
theorem C172_again {rs : List (Round π)} {s : H π} {r r' : Round π} (h : Runs rs s) (ok : r.Ok s) (he : r'.env = r.env)
    (ok' : r'.Ok (reload r.env r.files r.found r.walk s)) :
    let s1 := reload r.env r.files r.found r.walk s
    let s2 := reload r'.env r'.files r'.found r'.walk s1
    (∀ f, get s2.plots f = get s1.plots f) ∧
    (s2.asked = true ↔ ∃ f p, r.env.Offers f p ∧ get s1.plots f = none) ∧
    ∀ f p, r.env.Offers f p → get s1.plots f = none → p.key ∉ r.env.keys := by
  intro s1 s2
  have h1 : ∀ f p, r.env.Offers f p → get s1.plots f = none → p.key ∉ r.env.keys ∧ get s.plots f = none := by
    intro f p hp hn
    have hg : get s.plots f = none := by
      cases hg : get s.plots f with
      | none => rfl
      | some q =>
        obtain ⟨⟨x, k1, k2, _⟩, _⟩ := hp
        have : get s1.plots f = some q := (reload_get ok f q).2 (.inl ⟨hg, x, k1, k2⟩)
        rw [hn] at this; cases this
    refine ⟨fun hk => ?_, hg⟩
    have : get s1.plots f = some p := (reload_get ok f p).2 (.inr ⟨hg, hp, hk⟩)
    rw [hn] at this; cases this
  refine ⟨fun f => ?_, ?_, fun f p hp hn => (h1 f p hp hn).1⟩
  · cases hg : get s1.plots f with
    | some p =>
      refine (reload_get ok' f p).2 (.inl ⟨hg, ?_⟩)
      rw [he]; exact C172_there h ok hg
    | none =>
      cases hg' : get s2.plots f with
      | none => rfl
      | some p =>
        rcases (reload_get ok' f p).1 hg' with k | k
        · exact absurd (hg.symm.trans k.1) (fun h => nomatch h)
        · rw [he] at k
          exact absurd k.2.2 (h1 f p k.2.1 hg).1
  · show decide (r'.found.filterMap r'.env.open ≠ []) = true ↔ _
    rw [decide_eq_true_eq, ← he]
    constructor
    · intro k
      cases hl : r'.found.filterMap r'.env.open with
      | nil => exact absurd hl k
      | cons x l =>
        have : x ∈ r'.found.filterMap r'.env.open := by rw [hl]; exact List.mem_cons_self
        exact ⟨x.1, x.2, (opened_iff ok' x).1 this⟩
    · rintro ⟨f, p, k⟩ hl
      have : (f, p) ∈ r'.found.filterMap r'.env.open := (opened_iff ok' (f, p)).2 k
      rw [hl] at this
      exact absurd this List.not_mem_nil

/-- The space of the plots that a lookup asks. -/
def asked (s : H π) : Nat := ((lookups s).map fun x => (x.2.map (·.bytes)).getD 0).sum

omit [DecidableEq π] in
theorem emplace_distinct : ∀ (l : PMap π) (ids : List (Nat × π)),
    (ids.map (·.1) ++ l.map (·.2.id)).Nodup →
    (l.foldl (fun ids x => emplace ids x.2.id x.1) ids).Perm (ids ++ l.map fun x => (x.2.id, x.1))
  | [], ids, _ => by simp
  | x :: l, ids, h => by
    rw [List.foldl_cons]
    have hx : x.2.id ∉ ids.map (·.1) := by
      intro k
      exact (List.nodup_append.1 h).2.2 _ k x.2.id (by simp) rfl
    unfold emplace
    rw [if_neg hx]
    refine (emplace_distinct l ((x.2.id, x.1) :: ids) ?_).trans ?_
    · rw [List.map_cons] at h ⊢
      exact (List.perm_middle.nodup_iff).1 h
    · rw [List.map_cons]
      exact List.perm_middle.symm

/-- **C172.** The space a harvester reports is that of the plots it asks, if no plot is in two files. -/
theorem C172_space_partial {rs : List (Round π)} {s : H π} (h : Runs rs s)
    (hd : ∀ f f' p p', get s.plots f = some p → get s.plots f' = some p' → p.id = p'.id → f = f') :
    s.bytes = asked s := by
  have hn := run_nodup h
  cases h with
  | init => rfl
  | @step rs s r h ok =>
    have hw := ok.2.2.2 (reload r.env r.files r.found r.walk s).plots
    have hid : ∀ (m m' : PMap π), m.Sublist m' → (m'.map (·.1)).Nodup → (∀ f f' p p', get m' f = some p → get m' f' = some p' →
        p.id = p'.id → f = f') → (m.map (·.2.id)).Nodup := by
      intro m m' hs hn hd
      induction m with
      | nil => exact List.nodup_nil
      | cons x m ih =>
        rw [List.map_cons, List.nodup_cons]
        refine ⟨fun k => ?_, ih ((List.sublist_cons_self x m).trans hs)⟩
        obtain ⟨y, hy, e⟩ := List.mem_map.1 k
        have e1 := hd y.1 x.1 y.2 x.2 (mem_get hn (hs.subset (List.mem_cons_of_mem _ hy))) (mem_get hn (hs.subset List.mem_cons_self)) e
        have hn' := hn.sublist (hs.map (·.1))
        rw [List.map_cons, List.nodup_cons] at hn'
        exact hn'.1 (e1 ▸ List.mem_map_of_mem (f := (·.1)) hy)
    have hids := hid _ _ (List.Sublist.refl _) hn hd
    have hp := emplace_distinct (r.walk (reload r.env r.files r.found r.walk s).plots) []
      (by rw [List.map_nil, List.nil_append, (hw.map (·.2.id)).nodup_iff]; exact hids)
    show ((r.walk (reload r.env r.files r.found r.walk s).plots).map fun x => x.2.bytes).sum = _
    unfold asked lookups
    have hp2 : ((reload r.env r.files r.found r.walk s).ids).Perm
        ((reload r.env r.files r.found r.walk s).plots.map fun x => (x.2.id, x.1)) :=
      hp.trans (by rw [List.nil_append]; exact hw.map _)
    rw [(hw.map (fun x : π × Plot => x.2.bytes)).sum_nat, List.map_map, (hp2.map _).sum_nat, List.map_map]
    congr 1
    refine List.map_congr_left fun x hx => ?_
    show x.2.bytes = ((get _ x.1).map (·.bytes)).getD 0
    rw [mem_get hn (p := x.2) hx]; rfl

/-! ### examples, and what is not so -/

/-- A disk with directory 1, in it the plot files 11 and 12, and in directory 2 below it file 13. -/
def exDisk : Disk Nat where
  files := fun d => if d = 1 then some [⟨11, plotMmx, dotPlot⟩, ⟨12, plotMmx, dotPlot⟩]
    else if d = 2 then some [⟨13, plotMmx, dotPlot⟩] else none
  dirs := fun d => if d = 1 then some [⟨2, []⟩] else if d = 2 then some [⟨1, []⟩] else none

def exEnv (keys : List Nat) (load : Nat → Option Plot) : Env Nat where
  keys := keys
  plotDirs := [1]
  recursive := true
  maxRec := 4
  black := []
  disk := exDisk
  load := load
  minK := 29
  maxK := 32

def exRound (e : Env Nat) (s : H Nat) : Round Nat where
  env := e
  order := id
  files := e.seen id
  found := plotFiles (e.seen id) s
  walk := id

theorem exRound_ok (e : Env Nat) (s : H Nat) : (exRound e s).Ok s :=
  ⟨fun _ => .refl _, .refl _, .refl _, fun _ => .refl _⟩

/-- Reloading in turn. -/
def exRun : List (Env Nat) → H Nat → H Nat
  | [], s => s
  | e :: es, s => exRun es (reload e (e.seen id) (plotFiles (e.seen id) s) id s)

theorem exRun_runs : ∀ (es : List (Env Nat)) {rs : List (Round Nat)} {s : H Nat}, Runs rs s →
    ∃ rs', Runs rs' (exRun es s) ∧ rs'.map (·.env) = rs.map (·.env) ++ es
  | [], rs, _, h => ⟨rs, h, by simp⟩
  | e :: es, rs, s, h => by
    obtain ⟨rs', h1, h2⟩ := exRun_runs es (h.step (exRound_ok e s))
    exact ⟨rs', h1, by rw [h2, List.map_append, List.map_singleton, List.append_assoc]; rfl⟩

def exLoad (f : Nat) : Option Plot :=
  if f = 11 then some ⟨100, 7, 29, none, 50⟩ else if f = 12 then some ⟨101, 8, 30, none, 60⟩
  else if f = 13 then some ⟨100, 7, 29, none, 50⟩ else none

/-- Plots 11 and 13 are farmed, 12 is for another key. -/
example : get (exRun [exEnv [7] exLoad] .init).plots 11 = some ⟨100, 7, 29, none, 50⟩ ∧
    get (exRun [exEnv [7] exLoad] .init).plots 12 = none ∧
    get (exRun [exEnv [7] exLoad] .init).plots 13 = some ⟨100, 7, 29, none, 50⟩ := by decide +kernel

/-- **C172.** The space is too large if a plot is in two files: both are counted, one is asked. -/
theorem C172_space : ∃ (rs : List (Round Nat)) (s : H Nat), Runs rs s ∧ s.bytes = 100 ∧ asked s = 50 := by
  obtain ⟨rs, h, _⟩ := exRun_runs [exEnv [7] exLoad] .init
  exact ⟨rs, _, h, by decide +kernel, by decide +kernel⟩

/-- **C172.** A plot stays when the farmer no longer has its key. -/
theorem C172_old_key : ∃ (rs : List (Round Nat)) (s : H Nat), Runs rs s ∧
    rs.map (·.env) = [exEnv [7] exLoad, exEnv [] exLoad] ∧ get s.plots 11 = some ⟨100, 7, 29, none, 50⟩ := by
  obtain ⟨rs, h, h'⟩ := exRun_runs [exEnv [7] exLoad, exEnv [] exLoad] .init
  exact ⟨rs, _, h, h', by decide +kernel⟩

/-- **C172.** A plot stays when another one is put in its file: the old one is farmed. -/
theorem C172_replaced : ∃ (rs : List (Round Nat)) (s : H Nat) (load : Nat → Option Plot), Runs rs s ∧
    rs.map (·.env) = [exEnv [7] exLoad, exEnv [7] load] ∧ load 11 = some ⟨300, 7, 29, none, 50⟩ ∧
    get s.plots 11 = some ⟨100, 7, 29, none, 50⟩ := by
  obtain ⟨rs, h, h'⟩ := exRun_runs
    [exEnv [7] exLoad, exEnv [7] fun f => if f = 11 then some ⟨300, 7, 29, none, 50⟩ else exLoad f] .init
  exact ⟨rs, _, _, h, h', rfl, by decide +kernel⟩

/-- **C172.** With one plot file for a key that the farmer does not have, the harvester is never settled: every reload,
    however often nothing has changed, drops its readiness. -/
theorem C172_unsettled (n : Nat) : ∃ (rs : List (Round Nat)) (s : H Nat), Runs rs s ∧
    rs.map (·.env) = List.replicate (n + 1) (exEnv [7] exLoad) ∧ s.asked = true := by
  have off : (exEnv [7] exLoad).Offers 12 ⟨101, 8, 30, none, 60⟩ := by
    refine ⟨⟨⟨12, plotMmx, dotPlot⟩, ⟨1, ?_, _, rfl, by simp⟩, rfl, rfl, List.prefix_rfl⟩, rfl, by decide, by decide⟩
    show (if true = true then _ else _)
    rw [if_pos rfl]
    exact ⟨⟨_, rfl, ⟨11, plotMmx, dotPlot⟩, by simp, rfl⟩, 0, Nat.zero_le _, 1, List.mem_cons_self, .here _⟩
  have main : ∀ n : Nat, ∃ (rs : List (Round Nat)) (s : H Nat), Runs rs s ∧
      rs.map (·.env) = List.replicate n (exEnv [7] exLoad) ∧ get s.plots 12 = none := by
    intro n
    obtain ⟨rs, h, h'⟩ := exRun_runs (List.replicate n (exEnv [7] exLoad)) .init
    refine ⟨rs, _, h, h', ?_⟩
    cases hg : get (exRun (List.replicate n (exEnv [7] exLoad)) .init).plots 12 with
    | none => rfl
    | some p =>
      obtain ⟨b, e, a, k1, k2, _⟩ := ((C172_which h 12).1 p).1 hg
      rw [h', List.map_nil, List.nil_append] at k1
      have : e ∈ List.replicate n (exEnv [7] exLoad) := by rw [k1]; simp
      rw [List.eq_of_mem_replicate this] at k2
      obtain ⟨⟨_, k3, _⟩, k4⟩ := k2
      cases k3
      exact absurd k4 (by decide)
  obtain ⟨rs, s, h, h', hg⟩ := main n
  refine ⟨_, _, h.step (exRound_ok (exEnv [7] exLoad) s), ?_, ?_⟩
  · rw [List.map_append, h', List.replicate_succ']; rfl
  · show decide (_ ≠ []) = true
    rw [decide_eq_true_eq]
    intro hl
    have := (opened_iff (exRound_ok (exEnv [7] exLoad) s) (12, ⟨101, 8, 30, none, 60⟩)).2 ⟨off, hg⟩
    rw [hl] at this
    exact absurd this List.not_mem_nil

end Verif.Farm.Plots
