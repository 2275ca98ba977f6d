import Verif.Node.InvLemmas
/-
  Switching between forks that branch off above the root.
-/
namespace Verif.Node

variable {S C : Type} {R : Rules S C} {U : Block → Prop}

/-! ### Shape of a chain -/

theorem Hist.suffix {b : List (Entry S)} : ∀ {a : List (Entry S)}, Hist R (a ++ b) → Hist R b := by
  intro a
  induction a with
  | nil => intro h; exact h
  | cons e a ih => intro h; exact ih h.tail

theorem Hist.two {e e2 : Entry S} {es : List (Entry S)} (h : Hist R (e :: e2 :: es)) :
    e.block.prev = e2.block.hash ∧ e.block.height = e2.block.height + 1 ∧ R.static e.block = true ∧
    ∃ c, R.check e2.state e2.block e.block = some c ∧ R.exec e2.state e.block (some c) = some e.state := by
  cases h with
  | next h h1 h2 h3 h4 h5 => exact ⟨h1, h2, h3, _, h4, h5⟩

theorem Hist.le {e : Entry S} {es : List (Entry S)} (h : Hist R (e :: es)) {x : Entry S} (hx : x ∈ e :: es) :
    x.block.height ≤ e.block.height := by
  rcases List.mem_cons.1 hx with rfl | hx
  · omega
  · exact Nat.le_of_lt (h.lt e es rfl x hx)

theorem hist_prev : ∀ {d : List (Entry S)}, Hist R d → ∀ e ∈ d,
    e.block = R.genesis ∨ ∃ x ∈ d, e.block.prev = x.block.hash ∧ e.block.height = x.block.height + 1 := by
  intro d h
  induction h with
  | nil => intro e he; cases he
  | first _ => intro e he; simp at he; subst he; exact .inl rfl
  | @next b s' e0 es0 c h h1 h2 h3 h4 h5 ih =>
    intro e he
    rcases List.mem_cons.1 he with rfl | he
    · exact .inr ⟨e0, by simp, h1, h2⟩
    · rcases ih e he with h | ⟨x, hx, a, b⟩
      · exact .inl h
      · exact .inr ⟨x, List.mem_cons_of_mem _ hx, a, b⟩

theorem hist_prev_ne_tip (hw : World R U) {d : List (Entry S)} (h : Hist R d) (hu : ∀ e ∈ d, U e.block)
    {e : Entry S} (he : e ∈ d) : e.block.prev ≠ tip d := by
  match d, h, hu, he with
  | [], _, _, he => cases he
  | t :: ts, h, hu, he =>
    intro hp
    have hp : e.block.prev = t.block.hash := hp
    rcases hist_prev h e he with hg | ⟨x, hx, a, b⟩
    · rw [hg] at hp
      exact hw.first _ (hu t List.mem_cons_self) hp.symm
    · have : x.block = t.block := hw.inj _ _ (hu x hx) (hu t List.mem_cons_self) (by rw [← a, hp])
      have h1 := h.le he
      rw [this] at b
      omega

/-- The entry at a given height is the only one. -/
theorem hist_height_inj : ∀ {d : List (Entry S)}, Hist R d → ∀ e ∈ d, ∀ x ∈ d,
    e.block.height = x.block.height → e = x := by
  intro d
  induction d with
  | nil => intro _ e he; cases he
  | cons t ts ih =>
    intro h e he x hx heq
    rcases List.mem_cons.1 he with rfl | he'
    · rcases List.mem_cons.1 hx with rfl | hx'
      · rfl
      · have := h.lt _ _ rfl x hx'; omega
    · rcases List.mem_cons.1 hx with rfl | hx'
      · have := h.lt _ _ rfl e he'; omega
      · exact ih h.tail e he' x hx' heq

theorem revertDb_append {e : Entry S} {r : List (Entry S)} : ∀ {l : List (Entry S)}, Hist R (l ++ e :: r) →
    revertDb (e.block.height + 1) (l ++ e :: r) = e :: r := by
  intro l
  induction l with
  | nil =>
    intro h
    apply List.filter_eq_self.2
    intro x hx
    have := Hist.le h hx
    simpa using this
  | cons t ts ih =>
    intro h
    have hlt : e.block.height < t.block.height := h.lt t (ts ++ e :: r) rfl e (by simp)
    unfold revertDb
    rw [List.cons_append, List.filter_cons_of_neg (by simpa using hlt)]
    exact ih h.tail

/-! ### Linked lists of blocks -/

/-- Each block names the one before it, the first one `h`. -/
inductive LinkedFrom : Nat → List Block → Prop where
  | nil {h : Nat} : LinkedFrom h []
  | cons {h : Nat} {b : Block} {bs : List Block} : b.prev = h → LinkedFrom b.hash bs → LinkedFrom h (b :: bs)

theorem LinkedFrom.append : ∀ {a b : List Block} {h : Nat}, LinkedFrom h (a ++ b) →
    LinkedFrom h a ∧ LinkedFrom (match a.getLast? with | some x => x.hash | none => h) b := by
  intro a
  induction a with
  | nil => intro b h hl; exact ⟨.nil, hl⟩
  | cons x xs ih =>
    intro b h hl
    cases hl with
    | cons h1 h2 =>
      obtain ⟨i1, i2⟩ := ih h2
      refine ⟨.cons h1 i1, ?_⟩
      match xs, i2 with
      | [], i2 => exact i2
      | y :: ys, i2 =>
        rw [List.getLast?_cons_cons]
        exact i2

theorem LinkedFrom.of_append : ∀ {a b : List Block} {h : Nat}, LinkedFrom h a →
    LinkedFrom (match a.getLast? with | some x => x.hash | none => h) b → LinkedFrom h (a ++ b) := by
  intro a
  induction a with
  | nil => intro b h _ h2; exact h2
  | cons x xs ih =>
    intro b h h1 h2
    cases h1 with
    | cons g1 g2 =>
      refine .cons g1 (ih g2 ?_)
      match xs, h2 with
      | [], h2 => exact h2
      | y :: ys, h2 =>
        rw [List.getLast?_cons_cons] at h2
        exact h2

theorem hist_linked : ∀ {above : List (Entry S)} {re : Entry S} {below : List (Entry S)},
    Hist R (above ++ re :: below) → LinkedFrom re.block.hash (above.reverse.map (·.block)) := by
  intro above
  induction above with
  | nil => intro re below _; exact .nil
  | cons e above ih =>
    intro re below h
    rw [List.reverse_cons, List.map_append]
    refine LinkedFrom.of_append (ih h.tail) ?_
    refine .cons ?_ .nil
    match above, h with
    | [], h => exact h.two.1
    | e2 :: above', h =>
      have h1 := h.two.1
      simp only [List.reverse_cons, List.map_append, List.map_cons, List.map_nil, List.getLast?_append,
        List.getLast?_singleton, Option.some_or]
      exact h1

/-! ### The chain and the fork tree -/

/-- `db` is a chain through the root whose blocks above the root are in the fork tree. -/
structure Above (R : Rules S C) (U : Block → Prop) (st : St S C) (db above : List (Entry S)) (re : Entry S)
    (below : List (Entry S)) : Prop where
  eq : db = above ++ re :: below
  hist : Hist R db
  dbU : ∀ e ∈ db, U e.block
  root : re.block = st.root
  inTree : ∀ e ∈ above, (findFork st.forks e.block.hash).isSome

theorem length_le_of_nodup {α : Type} [DecidableEq α] : ∀ (l m : List α), l.Nodup → (∀ x ∈ l, x ∈ m) →
    l.length ≤ m.length := by
  intro l
  induction l with
  | nil => intro m _ _; simp
  | cons a l ih =>
    intro m hn hs
    obtain ⟨h1, h2⟩ := List.nodup_cons.1 hn
    have ha := hs a List.mem_cons_self
    have := ih (m.erase a) h2 (fun x hx => by
      have hxa : x ≠ a := fun h => h1 (h ▸ hx)
      exact (List.mem_erase_of_ne hxa).2 (hs x (List.mem_cons_of_mem _ hx)))
    rw [List.length_erase_of_mem ha] at this
    have hpos : 0 < m.length := List.length_pos_of_mem ha
    simp; omega

theorem hist_heights_nodup : ∀ {d : List (Entry S)}, Hist R d → (d.map (·.block.height)).Nodup := by
  intro d
  induction d with
  | nil => intro _; simp
  | cons e d ih =>
    intro h
    rw [List.map_cons, List.nodup_cons]
    refine ⟨?_, ih h.tail⟩
    intro hm
    obtain ⟨x, hx, heq⟩ := List.mem_map.1 hm
    have := h.lt e d rfl x hx
    omega

theorem hist_hashes_nodup (hw : World R U) : ∀ {d : List (Entry S)}, Hist R d → (∀ e ∈ d, U e.block) →
    (d.map (·.block.hash)).Nodup := by
  intro d
  induction d with
  | nil => intro _ _; simp
  | cons e d ih =>
    intro h hu
    rw [List.map_cons, List.nodup_cons]
    refine ⟨?_, ih h.tail (fun x hx => hu x (List.mem_cons_of_mem _ hx))⟩
    intro hm
    obtain ⟨x, hx, heq⟩ := List.mem_map.1 hm
    have := h.lt e d rfl x hx
    have hb : x.block = e.block := hw.inj _ _ (hu x (List.mem_cons_of_mem _ hx)) (hu e List.mem_cons_self) heq
    rw [hb] at this; omega

theorem above_length (hw : World R U) {st : St S C} {db above : List (Entry S)} {re : Entry S}
    {below : List (Entry S)} (h : Above R U st db above re below) : above.length ≤ st.forks.length := by
  have h1 := hist_hashes_nodup hw h.hist h.dbU
  rw [h.eq, List.map_append] at h1
  have h2 := (List.nodup_append.1 h1).1
  have := length_le_of_nodup _ (st.forks.map (·.block.hash)) h2 (by
    intro x hx
    obtain ⟨e, he, rfl⟩ := List.mem_map.1 hx
    obtain ⟨f, hf⟩ := Option.isSome_iff_exists.1 (h.inTree e he)
    exact List.mem_map.2 ⟨f, (findFork_mem hf).1, (findFork_mem hf).2⟩)
  simpa using this

theorem fork_block (hw : World R U) {st : St S C} (hi : Inv R U st) {b : Block} (hb : U b) {f : Fork C}
    (hf : findFork st.forks b.hash = some f) : f.block = b :=
  hw.inj _ _ (hi.forkU f (findFork_mem hf).1) hb (findFork_mem hf).2

theorem lineFrom_above (hw : World R U) {st : St S C} (hi : Inv R U st) {db above : List (Entry S)} {re : Entry S}
    {below : List (Entry S)} (h : Above R U st db above re below) (hr : (getBlock st st.root.hash).isSome) :
    ∀ (suf pre : List (Entry S)) (e : Entry S), above = pre ++ e :: suf → ∀ f,
      findFork st.forks e.block.hash = some f → ∀ n, suf.length + 1 ≤ n → ∀ acc,
      lineFrom st n f acc = some (suf.reverse.map (·.block) ++ e.block :: acc) := by
  intro suf
  induction suf with
  | nil =>
    intro pre e ha f hf n hn acc
    have hh := h.hist
    rw [h.eq, ha, List.append_assoc] at hh
    have ht := (Hist.suffix hh).two
    have hfb := fork_block hw hi (h.dbU e (by rw [h.eq, ha]; simp)) hf
    match n, hn with
    | n + 1, _ =>
      unfold lineFrom
      rw [if_pos]
      · rw [hfb]; rfl
      · rw [hfb]
        refine ⟨by rw [← h.root]; exact ht.2.1, ?_⟩
        unfold findPrev
        rw [ht.1, h.root]; exact hr
  | cons e2 suf ih =>
    intro pre e ha f hf n hn acc
    have hh := h.hist
    rw [h.eq, ha, List.append_assoc] at hh
    have hs := Hist.suffix hh
    have ht := hs.two
    have hfb := fork_block hw hi (h.dbU e (by rw [h.eq, ha]; simp)) hf
    have hlt : re.block.height < e2.block.height :=
      hs.tail.lt e2 (suf ++ re :: below) rfl re (by simp)
    obtain ⟨g, hg⟩ := Option.isSome_iff_exists.1 (h.inTree e2 (by rw [ha]; simp))
    match n, hn with
    | n + 1, hn =>
      unfold lineFrom
      rw [if_neg]
      · have : prevFork st.forks f = some g := by
          unfold prevFork
          rw [hfb, ht.1]; exact hg
        rw [this]
        dsimp only
        rw [ih (pre ++ [e]) e2 (by rw [ha]; simp) g hg n (by simp at hn; omega), hfb]
        simp
      · rw [hfb, ht.2.1, ← h.root]
        intro hc
        omega

theorem forkLine_above (hw : World R U) {st : St S C} (hi : Inv R U st) {db above : List (Entry S)} {re : Entry S}
    {below : List (Entry S)} (h : Above R U st db above re below) (hr : (getBlock st st.root.hash).isSome)
    {f : Fork C} (hne : above ≠ []) (hf : findFork st.forks (tip db) = some f) :
    forkLine st f = some (above.reverse.map (·.block)) := by
  match above, hne, h with
  | e :: suf, _, h =>
    have hlen := above_length hw h
    have ht : tip db = e.block.hash := by rw [h.eq]; rfl
    unfold forkLine
    rw [lineFrom_above hw hi h hr suf [] e rfl f (ht ▸ hf) _ (by simp at hlen ⊢; omega)]
    simp

theorem mainLine_above (hw : World R U) {st : St S C} (hi : Inv R U st) {above : List (Entry S)} {re : Entry S}
    {below : List (Entry S)} (h : Above R U st st.db above re below) (hr : (getBlock st st.root.hash).isSome) :
    mainLine st = some (above.reverse.map (·.block)) := by
  unfold mainLine
  by_cases ha : above = []
  · subst ha
    have : tip st.db = st.root.hash := by rw [h.eq, ← h.root]; rfl
    rw [if_pos this]; rfl
  · rw [if_neg]
    · match above, ha with
      | e :: suf, ha =>
        obtain ⟨f, hf⟩ := Option.isSome_iff_exists.1 (h.inTree e List.mem_cons_self)
        have ht : tip st.db = e.block.hash := by rw [h.eq]; rfl
        rw [ht, hf]
        exact forkLine_above hw hi h hr ha (ht ▸ hf)
    · match above, ha with
      | e :: suf, ha =>
        intro hc
        have ht : tip st.db = e.block.hash := by rw [h.eq]; rfl
        rw [ht, ← h.root] at hc
        have hb : e.block = re.block := hw.inj _ _ (h.dbU e (by rw [h.eq]; simp)) (h.dbU re (by rw [h.eq]; simp)) hc
        have hh := h.hist
        rw [h.eq] at hh
        have := hh.lt e (suf ++ re :: below) rfl re (by simp)
        rw [hb] at this; omega

/-! ### What a switch leaves alone -/

theorem findFork_set (f : Fork C) (h : Nat) : ∀ (fs : List (Fork C)),
    findFork (setFork fs f) h = if h = f.block.hash ∧ (findFork fs h).isSome then some f else findFork fs h := by
  intro fs
  induction fs with
  | nil => simp [findFork, setFork]
  | cons g fs ih =>
    unfold findFork setFork at ih ⊢
    rw [List.map_cons, List.find?_cons, List.find?_cons]
    by_cases hg : g.block.hash = f.block.hash
    · rw [if_pos hg]
      by_cases hh : f.block.hash = h
      · have h1 : (f.block.hash == h) = true := by simpa using hh
        have h2 : (g.block.hash == h) = true := by simpa [hg] using hh
        rw [h1, h2]
        dsimp only
        rw [if_pos ⟨hh.symm, rfl⟩]
      · have h1 : (f.block.hash == h) = false := by simpa using hh
        have h2 : (g.block.hash == h) = false := by simpa [hg] using hh
        rw [h1, h2]
        dsimp only
        rw [ih]
    · rw [if_neg hg]
      by_cases hh : g.block.hash = h
      · have h2 : (g.block.hash == h) = true := by simpa using hh
        rw [h2]
        dsimp only
        rw [if_neg]
        rintro ⟨e, _⟩
        exact hg (hh.trans e)
      · have h2 : (g.block.hash == h) = false := by simpa using hh
        rw [h2]
        dsimp only
        rw [ih]

theorem findFork_mark (k h : Nat) : ∀ (fs : List (Fork C)), findFork (markInvalid fs k) h =
    (findFork fs h).map fun g => if g.block.hash = k then { g with invalid := true } else g := by
  intro fs
  induction fs with
  | nil => rfl
  | cons g fs ih =>
    unfold findFork markInvalid at ih ⊢
    rw [List.map_cons, List.find?_cons, List.find?_cons]
    have : (if g.block.hash = k then { g with invalid := true } else g).block = g.block := by split <;> rfl
    rw [this]
    cases hh : (g.block.hash == h)
    · exact ih
    · rfl

theorem marked_mark {fs : List (Fork C)} {k h : Nat} (hm : Marked fs h) : Marked (markInvalid fs k) h := by
  obtain ⟨f, h1, h2⟩ := hm
  refine ⟨_, by rw [findFork_mark, h1]; rfl, ?_⟩
  dsimp only
  split
  · rfl
  · exact h2

theorem marked_mark_self {fs : List (Fork C)} {h : Nat} (hm : (findFork fs h).isSome) : Marked (markInvalid fs h) h := by
  obtain ⟨f, hf⟩ := Option.isSome_iff_exists.1 hm
  refine ⟨_, by rw [findFork_mark, hf]; rfl, ?_⟩
  dsimp only
  rw [if_pos (findFork_mem hf).2]

theorem marked_set {fs : List (Fork C)} {f g : Fork C} (hg : findFork fs f.block.hash = some g)
    (hi : g.invalid = true → f.invalid = true) {h : Nat} (hm : Marked fs h) : Marked (setFork fs f) h := by
  obtain ⟨x, h1, h2⟩ := hm
  by_cases hh : h = f.block.hash
  · refine ⟨f, by rw [findFork_set, if_pos ⟨hh, by rw [h1]; rfl⟩], ?_⟩
    rw [hh, hg] at h1
    injection h1 with h1
    exact hi (h1 ▸ h2)
  · exact ⟨x, by rw [findFork_set, if_neg (fun c => hh c.1), h1], h2⟩

/-- The root, the forks in the tree, their marks and the blocks on disk are still there. -/
structure Keeps (st' st : St S C) : Prop where
  root : st'.root = st.root
  astray : st'.astray = st.astray
  forks : st'.forks.map (·.block) = st.forks.map (·.block)
  marks : ∀ h, Marked st.forks h → Marked st'.forks h
  disk : ∀ b ∈ st.disk, b ∈ st'.disk

theorem Keeps.refl (st : St S C) : Keeps st st := ⟨rfl, rfl, rfl, fun _ h => h, fun _ h => h⟩

theorem Keeps.trans {a b c : St S C} (h1 : Keeps a b) (h2 : Keeps b c) : Keeps a c :=
  ⟨h1.root.trans h2.root, h1.astray.trans h2.astray, h1.forks.trans h2.forks,
    fun x hx => h1.marks x (h2.marks x hx), fun x hx => h1.disk x (h2.disk x hx)⟩

theorem findFork_isSome {fs : List (Fork C)} {h : Nat} :
    (findFork fs h).isSome ↔ ∃ b ∈ fs.map (·.block), b.hash = h := by
  unfold findFork
  rw [List.find?_isSome]
  constructor
  · rintro ⟨f, hf, hb⟩
    exact ⟨f.block, List.mem_map.2 ⟨f, hf, rfl⟩, by simpa using hb⟩
  · rintro ⟨b, hb, hh⟩
    obtain ⟨f, hf, rfl⟩ := List.mem_map.1 hb
    exact ⟨f, hf, by simpa using hh⟩

theorem Keeps.find {st' st : St S C} (h : Keeps st' st) {n : Nat} :
    (findFork st'.forks n).isSome ↔ (findFork st.forks n).isSome := by
  rw [findFork_isSome, findFork_isSome, h.forks]

theorem getBlock_isSome {st : St S C} {n : Nat} :
    (getBlock st n).isSome ↔ (findFork st.forks n).isSome ∨ ∃ b ∈ st.disk, b.hash = n := by
  unfold getBlock
  split
  · next f hf => simp [hf]
  · next hf =>
    rw [List.find?_isSome]
    simp [hf]

theorem Keeps.get {st' st : St S C} (h : Keeps st' st) {n : Nat} (hg : (getBlock st n).isSome) :
    (getBlock st' n).isSome := by
  rw [getBlock_isSome] at hg ⊢
  rcases hg with hg | ⟨b, hb, hh⟩
  · exact .inl (h.find.2 hg)
  · exact .inr ⟨b, h.disk b hb, hh⟩

theorem keeps_revert (st : St S C) (n : Nat) : Keeps (revert st n) st :=
  ⟨rfl, rfl, rfl, fun _ h => h, fun _ h => h⟩

theorem mem_writeBlock_of {disk : List Block} {b x : Block} (h : x ∈ disk) : x ∈ writeBlock disk b := by
  unfold writeBlock
  split
  · exact h
  · simp [h]

theorem mark_blocks (fs : List (Fork C)) (h : Nat) :
    (markInvalid fs h).map (·.block) = fs.map (·.block) := by
  unfold markInvalid
  rw [List.map_map]
  apply List.map_congr_left
  intro f _
  simp only [Function.comp]
  split <;> rfl

theorem keeps_mark (st : St S C) (h : Nat) : Keeps { st with forks := markInvalid st.forks h } st :=
  ⟨rfl, rfl, mark_blocks _ _, fun _ h => marked_mark h, fun _ h => h⟩

theorem set_blocks (hw : World R U) {fs : List (Fork C)} (hu : ∀ g ∈ fs, U g.block) {f : Fork C}
    (hf : ∃ g ∈ fs, f.block = g.block) : (setFork fs f).map (·.block) = fs.map (·.block) := by
  unfold setFork
  rw [List.map_map]
  apply List.map_congr_left
  intro g hg
  simp only [Function.comp]
  split
  · next he =>
    obtain ⟨k, hk, e⟩ := hf
    exact hw.inj _ _ (e ▸ hu k hk) (hu g hg) he.symm
  · rfl

theorem keeps_validated (hw : World R U) {st : St S C} (hi : Inv R U st) {h : Nat} {c : C} {f : Fork C}
    (hf : findFork st.forks h = some f) :
    Keeps { st with forks := setFork st.forks { f with ctx := some c, validated := true } } st :=
  ⟨rfl, rfl, set_blocks hw hi.forkU ⟨f, (findFork_mem hf).1, rfl⟩,
    fun _ h => marked_set (f := { f with ctx := some c, validated := true }) (g := f) (by
      show findFork st.forks f.block.hash = some f
      rw [(findFork_mem hf).2]; exact hf) (fun h => h) h, fun _ h => h⟩

/-! ### What is said of every fork -/

def All (P : Fork C → Prop) (fs : List (Fork C)) : Prop := ∀ f ∈ fs, P f

/-- A property of forks that depends on block, proof, votes and the invalid mark only, and that holds of a fork
marked invalid when no valid chain ends in its block. -/
structure Steady (R : Rules S C) (U : Block → Prop) (P : Fork C → Prop) : Prop where
  flags : ∀ f g : Fork C, P f → g.block = f.block → g.proved = f.proved → g.votes = f.votes →
    g.invalid = f.invalid → P g
  dead : ∀ f : Fork C, P f → Dead R U f.block → P { f with invalid := true }

/-- Nothing but contexts changed, and marks on blocks that no valid chain ends in. -/
def Tame (R : Rules S C) (U : Block → Prop) (fs' fs : List (Fork C)) : Prop :=
  ∀ P : Fork C → Prop, Steady R U P → All P fs → All P fs'

theorem Tame.refl (fs : List (Fork C)) : Tame R U fs fs := fun _ _ h => h

theorem Tame.trans {a b c : List (Fork C)} (h1 : Tame R U a b) (h2 : Tame R U b c) : Tame R U a c :=
  fun P hs h => h1 P hs (h2 P hs h)

theorem tame_set {fs : List (Fork C)} {f : Fork C} {h : Nat} {c : C} (hf : findFork fs h = some f) :
    Tame R U (setFork fs { f with ctx := some c, validated := true }) fs := by
  intro P hs ha g hg
  obtain ⟨k, hk, rfl⟩ := List.mem_map.1 hg
  split
  · exact hs.flags f _ (ha f (findFork_mem hf).1) rfl rfl rfl rfl
  · exact ha k hk

theorem tame_mark (hw : World R U) {fs : List (Fork C)} (hu : ∀ f ∈ fs, U f.block) {b : Block} (hb : U b)
    (hd : Dead R U b) : Tame R U (markInvalid fs b.hash) fs := by
  intro P hs ha g hg
  obtain ⟨k, hk, rfl⟩ := List.mem_map.1 hg
  split
  · next he =>
    refine hs.dead k (ha k hk) ?_
    rw [hw.inj _ _ (hu k hk) hb he]; exact hd
  · exact ha k hk

theorem replay_hist : ∀ {bs : List Block} {s : S}, Replay R bs s → ∃ db, Hist R db ∧ db.map (·.block) = bs ∧
    ledger R db = s ∧ db ≠ [] := by
  intro bs s h
  induction h with
  | @genesis s h => exact ⟨[⟨R.genesis, s⟩], .first h, rfl, rfl, by simp⟩
  | @block b p bs s s' c h h1 h2 h3 h4 h5 ih =>
    obtain ⟨db, i1, i2, i3, i4⟩ := ih
    match db, i4 with
    | e :: es, _ =>
      have he : e.block = p := by
        rw [List.map_cons] at i2; injection i2
      refine ⟨⟨b, s'⟩ :: e :: es, .next i1 (he ▸ h1) (he ▸ h2) h3 (by
          have : e.state = s := i3
          rw [this, he]; exact h4) (by
          have : e.state = s := i3
          rw [this]; exact h5), ?_, rfl, by simp⟩
      rw [List.map_cons, i2]

/-- A block refused on top of its predecessor's chain is on no valid chain. -/
theorem dead_of_validate (hw : World R U) {st : St S C} (hi : Inv R U st) {b : Block} (hp : b.prev = tip st.db)
    (hg : (getBlock st (tip st.db)).isSome) (hv : validate R st b = none) : Dead R U b := by
  intro bs s hu hr
  cases hr with
  | genesis h =>
    match hd : st.db, hi.ne with
    | e :: es, _ =>
      rw [hd] at hp
      exact hw.first e.block (hi.dbU e (by rw [hd]; simp)) hp.symm
  | @block _ p bs s0 s' c h h1 h2 h3 h4 h5 =>
    obtain ⟨db, i1, i2, i3, i4⟩ := replay_hist h
    match db, i4 with
    | e :: es, _ =>
      rw [List.map_cons] at i2
      injection i2 with i2 i2'
      have hdb : e :: es = st.db := by
        refine hist_unique hw i1 hi.hist ?_ hi.dbU (by simp) hi.ne ?_
        · intro x hx
          refine hu _ ?_
          rw [← i2, ← i2', ← List.map_cons]
          exact List.mem_map.2 ⟨x, hx, rfl⟩
        · show e.block.hash = _
          rw [i2, ← h1, hp]
      obtain ⟨q, hq⟩ := Option.isSome_iff_exists.1 hg
      obtain ⟨qu, qh⟩ := getBlock_mem hi hq
      have hpu : U p := hu p List.mem_cons_self
      have hqp : q = p := hw.inj _ _ qu hpu (by rw [qh, ← hp, h1])
      unfold validate at hv
      rw [if_neg (by rw [h3]; simp)] at hv
      unfold findPrev at hv
      rw [hp, hq] at hv
      dsimp only at hv
      rw [if_neg (by rw [qh]; simp), if_neg (by rw [hqp]; simp [h2]), ← hdb, i3, hqp, h4] at hv
      cases hv

theorem nearFork_forks (st : St S C) (line : List Block) : (nearFork st line).1.forks = st.forks := by
  unfold nearFork
  split
  · rfl
  · dsimp only
    split <;> rfl

/-! ### Applying -/

theorem apply_fits {st : St S C} {b : Block} {c : C} (hf : Fits R st.db b c)
    (he : ∀ e es, st.db = e :: es → ∃ s', R.exec e.state b (some c) = some s') :
    ∃ s', apply R st b (some c) =
      ({ st with db := ⟨b, s'⟩ :: st.db, disk := writeBlock st.disk b }, true) ∧
      R.exec (ledger R st.db) b (some c) = some s' := by
  obtain ⟨_, e, es, hd, a1, a2, a3, a4⟩ := hf
  obtain ⟨s', hs⟩ := he e es hd
  refine ⟨s', ?_, by rw [hd]; exact hs⟩
  unfold apply
  rw [if_neg (by rw [hd, a1]; simp [tip])]
  have hx : R.exec (ledger R st.db) b (some c) = some s' := by rw [hd]; exact hs
  rw [hx]
  dsimp only
  rw [if_neg (by rw [hd, a2]; simp [version])]

theorem keeps_apply {st : St S C} {b : Block} {s' : S} :
    Keeps { st with db := ⟨b, s'⟩ :: st.db, disk := writeBlock st.disk b } st :=
  ⟨rfl, rfl, rfl, fun _ h => h, fun _ h => mem_writeBlock_of h⟩

/-- The context under which a block of the line is applied. -/
theorem ctx_fits (hw : World R U) {st : St S C} (hi : Inv R U st) {b : Block} (hb : U b) {f : Fork C}
    (hf : findFork st.forks b.hash = some f) (hv : f.validated = true) (hp : b.prev = tip st.db) :
    ∃ c, f.ctx = some c ∧ Fits R st.db b c := by
  obtain ⟨db, c, du, fit, hc⟩ := hi.ctx f (findFork_mem hf).1 hv
  rw [fork_block hw hi hb hf] at fit
  exact ⟨c, hc, fits_unique hw fit du hi.hist hi.dbU hi.ne hp⟩

theorem applyLine_skip {restore : St S C → St S C} {st : St S C} : ∀ (pre rest : List Block),
    (∀ b ∈ pre, b.prev ≠ tip st.db) → applyLine R restore st (pre ++ rest) = applyLine R restore st rest := by
  intro pre
  induction pre with
  | nil => intro rest _; rfl
  | cons b pre ih =>
    intro rest h
    rw [List.cons_append]
    conv => lhs; unfold applyLine
    rw [if_pos (h b List.mem_cons_self)]
    exact ih rest (fun x hx => h x (List.mem_cons_of_mem _ hx))

theorem validate_of_fits {st : St S C} (hw : World R U) (hi : Inv R U st) {b : Block} {c : C}
    (hf : Fits R st.db b c) (hg : (getBlock st (tip st.db)).isSome) : validate R st b = some c := by
  obtain ⟨_, e, es, hd, a1, a2, a3, a4⟩ := hf
  have ht : tip st.db = e.block.hash := by rw [hd]; rfl
  obtain ⟨p, hp⟩ := Option.isSome_iff_exists.1 hg
  obtain ⟨pu, ph⟩ := getBlock_mem hi hp
  have hpe : p = e.block := hw.inj _ _ pu (hi.dbU e (hd ▸ List.mem_cons_self)) (by rw [ph, ht])
  unfold validate
  have h1 : findPrev st b = some p := by
    unfold findPrev
    rw [a1, ← ht]; exact hp
  rw [h1]
  simp only [a3, Bool.not_true, Bool.false_eq_true, if_false]
  rw [if_neg (by rw [ph]; simp), if_neg (by rw [hpe, a2]; simp), hpe, hd]
  exact a4

/-- Going along a chain that was applied before works. -/
theorem applyLine_back (hw : World R U) {restore : St S C → St S C} : ∀ (ys : List (Entry S)) (st : St S C),
    Inv R U st → Hist R (ys.reverse ++ st.db) → (∀ e ∈ ys, U e.block) →
    (∀ e ∈ ys, (findFork st.forks e.block.hash).isSome) → (getBlock st (tip st.db)).isSome →
    ∃ st', applyLine R restore st (ys.map (·.block)) = (st', true) ∧ st'.db = ys.reverse ++ st.db ∧
      Keeps st' st ∧ Inv R U st' ∧ Tame R U st'.forks st.forks := by
  intro ys
  induction ys with
  | nil => intro st hi _ _ _ _; exact ⟨st, rfl, rfl, Keeps.refl st, hi, Tame.refl _⟩
  | cons y ys ih =>
    intro st hi hh hu hin hg
    have hyU := hu y List.mem_cons_self
    rw [List.reverse_cons, List.append_assoc] at hh
    have hy : Hist R (y :: st.db) := Hist.suffix hh
    match hd : st.db, hi.ne with
    | e :: es, _ =>
      rw [hd] at hy
      obtain ⟨t1, t2, t3, c, t4, t5⟩ := hy.two
      have fit : Fits R st.db y.block c := ⟨hi.hist, e, es, hd, t1, t2, t3, t4⟩
      have hx : ∀ e' es', st.db = e' :: es' → ∃ s', R.exec e'.state y.block (some c) = some s' := by
        intro e' es' h'
        rw [hd] at h'; injection h' with h1 h2; subst h1
        exact ⟨_, t5⟩
      have hex : ∀ s', R.exec (ledger R st.db) y.block (some c) = some s' → (⟨y.block, s'⟩ : Entry S) = y := by
        intro s' hs'
        rw [hd] at hs'
        have : some y.state = some s' := t5.symm.trans hs'
        injection this with this
        rw [← this]
      obtain ⟨f, hf⟩ := Option.isSome_iff_exists.1 (hin y List.mem_cons_self)
      have htip : y.block.prev = tip st.db := by rw [hd]; exact t1
      -- one block, then the rest
      have key : ∀ st1 : St S C, Inv R U st1 → Keeps st1 st → st1.db = st.db → Tame R U st1.forks st.forks →
          ∃ st', (let r := apply R st1 y.block (some c)
            if r.2 then applyLine R restore r.1 (ys.map (·.block)) else (r.1, false)) = (st', true) ∧
            st'.db = ys.reverse ++ y :: st.db ∧ Keeps st' st ∧ Inv R U st' ∧ Tame R U st'.forks st.forks := by
        intro st1 hi1 k1 hdb ht1
        obtain ⟨s', ha, hs'⟩ := apply_fits (R := R) (st := st1) (b := y.block) (c := c) (hdb ▸ fit)
          (by rw [hdb]; exact hx)
        rw [hdb] at hs'
        have hy' := hex s' hs'
        have hi2 : Inv R U (apply R st1 y.block (some c)).1 := inv_apply hw hi1 hyU (fun _ => hdb ▸ fit)
        rw [ha] at hi2
        dsimp only at hi2
        rw [ha]
        dsimp only
        rw [if_pos rfl]
        have kk : Keeps { st1 with db := ⟨y.block, s'⟩ :: st1.db, disk := writeBlock st1.disk y.block } st :=
          keeps_apply.trans k1
        obtain ⟨st', h1, h2, h3, h4, h5⟩ := ih { st1 with
            db := ⟨y.block, s'⟩ :: st1.db, disk := writeBlock st1.disk y.block } hi2
          (by
            show Hist R (ys.reverse ++ (⟨y.block, s'⟩ :: st1.db))
            rw [hy', hdb]; simpa using hh)
          (fun x hx => hu x (List.mem_cons_of_mem _ hx))
          (fun x hx => kk.find.2 (hin x (List.mem_cons_of_mem _ hx)))
          (getBlock_isSome.2 (.inl (kk.find.2 (hin y List.mem_cons_self))))
        refine ⟨st', h1, ?_, h3.trans kk, h4, h5.trans ht1⟩
        rw [h2]
        show _ ++ (_ :: st1.db) = _
        rw [hy', hdb]
      rw [List.map_cons]
      unfold applyLine
      rw [if_neg (by rw [htip]; simp), hf]
      dsimp only
      have fin : ∀ st' : St S C, st'.db = ys.reverse ++ y :: st.db → st'.db = (y :: ys).reverse ++ e :: es := by
        intro st' h
        rw [h, hd]; simp
      split
      · next hv =>
        obtain ⟨c', hc', fit'⟩ := ctx_fits hw hi hyU hf hv htip
        have hcc : c' = c := by
          obtain ⟨_, e', es', hd', _, _, _, b4⟩ := fit'
          rw [hd] at hd'; injection hd' with h1 h2; subst h1
          rw [t4] at b4; injection b4 with b4; exact b4.symm
        rw [hc', hcc]
        obtain ⟨st', h1, h2, h3, h4⟩ := key st hi (Keeps.refl st) rfl (Tame.refl _)
        exact ⟨st', h1, fin st' h2, h3, h4⟩
      · have hv := validate_of_fits hw hi fit hg
        rw [hv]
        dsimp only
        obtain ⟨st', h1, h2, h3, h4⟩ := key _ (inv_validated hw hi hf hyU hv) (keeps_validated hw hi hf) rfl
          (tame_set hf)
        exact ⟨st', h1, fin st' h2, h3, h4⟩

/-- Going along any linked line: it is applied as a whole, or a block is invalid. -/
theorem applyLine_fwd (hw : World R U) (ht : Total R) {restore : St S C → St S C} :
    ∀ (bs : List Block) (st : St S C), Inv R U st → (∀ b ∈ bs, U b) →
    (∀ b ∈ bs, (findFork st.forks b.hash).isSome) → LinkedFrom (tip st.db) bs → (getBlock st (tip st.db)).isSome →
    (∃ st' es, applyLine R restore st bs = (st', true) ∧ es.map (·.block) = bs.reverse ∧
      st'.db = es ++ st.db ∧ Keeps st' st ∧ Inv R U st' ∧ Tame R U st'.forks st.forks) ∨
    (∃ s1 es, applyLine R restore st bs = (restore s1, false) ∧ (∀ e ∈ es, e.block ∈ bs) ∧
      s1.db = es ++ st.db ∧ Keeps s1 st ∧ Inv R U s1 ∧ Tame R U s1.forks st.forks ∧
      ∃ b ∈ bs, Marked s1.forks b.hash ∧ Dead R U b) := by
  intro bs
  induction bs with
  | nil => intro st hi _ _ _ _; exact .inl ⟨st, [], rfl, rfl, rfl, Keeps.refl st, hi, Tame.refl _⟩
  | cons b bs ih =>
    intro st hi hu hin hl hg
    have hbU := hu b List.mem_cons_self
    cases hl with
    | cons hp hl =>
      obtain ⟨f, hf⟩ := Option.isSome_iff_exists.1 (hin b List.mem_cons_self)
      have key : ∀ (st1 : St S C) (c : C), Inv R U st1 → Keeps st1 st → st1.db = st.db → Fits R st.db b c →
          Tame R U st1.forks st.forks →
          (∃ st' es, (let r := apply R st1 b (some c)
            if r.2 then applyLine R restore r.1 bs else (r.1, false)) = (st', true) ∧
            es.map (·.block) = (b :: bs).reverse ∧ st'.db = es ++ st.db ∧ Keeps st' st ∧ Inv R U st' ∧
            Tame R U st'.forks st.forks) ∨
          (∃ s1 es, (let r := apply R st1 b (some c)
            if r.2 then applyLine R restore r.1 bs else (r.1, false)) = (restore s1, false) ∧
            (∀ e ∈ es, e.block ∈ b :: bs) ∧ s1.db = es ++ st.db ∧ Keeps s1 st ∧ Inv R U s1 ∧
            Tame R U s1.forks st.forks ∧ ∃ x ∈ b :: bs, Marked s1.forks x.hash ∧ Dead R U x) := by
        intro st1 c hi1 k1 hdb fit ht1
        have hx : ∀ e' es', st1.db = e' :: es' → ∃ s', R.exec e'.state b (some c) = some s' := by
          intro e' es' h'
          obtain ⟨_, e, es, hd, _, _, _, a4⟩ := fit
          rw [hdb, hd] at h'; injection h' with h1 h2; subst h1
          exact ht _ _ _ _ a4
        obtain ⟨s', ha, hs'⟩ := apply_fits (R := R) (st := st1) (b := b) (c := c) (hdb ▸ fit) hx
        have hi2 : Inv R U (apply R st1 b (some c)).1 := inv_apply hw hi1 hbU (fun _ => hdb ▸ fit)
        rw [ha] at hi2
        dsimp only at hi2
        rw [ha]
        dsimp only
        rw [if_pos rfl]
        have kk : Keeps { st1 with db := ⟨b, s'⟩ :: st1.db, disk := writeBlock st1.disk b } st :=
          keeps_apply.trans k1
        rcases ih { st1 with db := ⟨b, s'⟩ :: st1.db, disk := writeBlock st1.disk b } hi2
            (fun x hx => hu x (List.mem_cons_of_mem _ hx))
            (fun x hx => kk.find.2 (hin x (List.mem_cons_of_mem _ hx))) hl
            (getBlock_isSome.2 (.inl (kk.find.2 (hin b List.mem_cons_self)))) with
          ⟨st', es, h1, h2, h3, h4, h5, h8⟩ | ⟨s1, es, h1, h2, h3, h4, h5, h8, x, h6, h7⟩
        · refine .inl ⟨st', es ++ [⟨b, s'⟩], h1, ?_, ?_, h4.trans kk, h5, h8.trans ht1⟩
          · simp [h2]
          · rw [h3]
            show _ ++ (_ :: st1.db) = _
            rw [hdb]; simp
        · refine .inr ⟨s1, es ++ [⟨b, s'⟩], h1, ?_, ?_, h4.trans kk, h5, h8.trans ht1, x, List.mem_cons_of_mem _ h6, h7⟩
          · intro e he
            rcases List.mem_append.1 he with he | he
            · exact List.mem_cons_of_mem _ (h2 e he)
            · simp at he; subst he; exact List.mem_cons_self
          · rw [h3]
            show _ ++ (_ :: st1.db) = _
            rw [hdb]; simp
      unfold applyLine
      rw [if_neg (by rw [hp]; simp), hf]
      dsimp only
      split
      · next hv =>
        obtain ⟨c, hc, fit⟩ := ctx_fits hw hi hbU hf hv hp
        rw [hc]
        exact key st c hi (Keeps.refl st) rfl fit (Tame.refl _)
      · split
        · next hv =>
          have hdead := dead_of_validate hw hi hp hg hv
          exact .inr ⟨_, [], rfl, by simp, rfl, keeps_mark st b.hash,
            inv_sub hi (sub_mark _ _), tame_mark hw hi.forkU hbU hdead, b, List.mem_cons_self,
            marked_mark_self (by rw [hf]; rfl), hdead⟩
        · next c hv =>
          exact key _ c (inv_validated hw hi hf hbU hv) (keeps_validated hw hi hf) rfl (validate_fits hw hi hv)
            (tame_set hf)

/-! ### Lines -/

theorem lineFrom_linked {st : St S C} : ∀ (n : Nat) (f : Fork C) (acc line : List Block),
    lineFrom st n f acc = some line → (findFork st.forks f.block.hash).isSome →
    LinkedFrom f.block.hash acc → ∃ b0 bs, line = b0 :: bs ++ acc ∧
      LinkedFrom b0.prev line ∧ (b0 :: bs).getLast (by simp) = f.block ∧
      (∀ b ∈ b0 :: bs, (findFork st.forks b.hash).isSome) ∧ b0.height = st.root.height + 1 ∧
      (getBlock st b0.prev).isSome := by
  intro n
  induction n with
  | zero => intro f acc line h; cases h
  | succ n ih =>
    intro f acc line h hf hl
    unfold lineFrom at h
    split at h
    · next hc =>
      injection h with h; subst h
      exact ⟨f.block, [], rfl, .cons rfl hl, rfl, by simpa using hf, hc.1, hc.2⟩
    · split at h
      · cases h
      · next g hg =>
        have hgm := findFork_mem hg
        have hgb : g.block.hash = f.block.prev := hgm.2
        obtain ⟨b0, bs, e1, e2, e3, e4, e5, e6⟩ := ih g (f.block :: acc) line h
          (by rw [hgb]; unfold prevFork at hg; simp [hg]) (.cons hgb.symm hl)
        refine ⟨b0, bs ++ [f.block], by rw [e1]; simp, e2, ?_, ?_, e5, e6⟩
        · rw [List.getLast_cons (by simp)]; simp
        intro b hb
        rw [List.mem_cons] at hb
        rcases hb with rfl | hb
        · exact e4 _ List.mem_cons_self
        · rcases List.mem_append.1 hb with hb | hb
          · exact e4 b (List.mem_cons_of_mem _ hb)
          · simp at hb; subst hb; exact hf

/-- What a fork line is. -/
theorem forkLine_spec {st : St S C} {f : Fork C} {line : List Block} (h : forkLine st f = some line)
    (hf : (findFork st.forks f.block.hash).isSome) : ∃ b0 bs, line = b0 :: bs ∧ LinkedFrom b0.prev line ∧
      line.getLast? = some f.block ∧ (∀ b ∈ line, (findFork st.forks b.hash).isSome) ∧
      b0.height = st.root.height + 1 ∧ (getBlock st b0.prev).isSome := by
  obtain ⟨b0, bs, e1, e2, e3, e4, e5, e6⟩ := lineFrom_linked _ f [] line h hf .nil
  rw [List.append_nil] at e1
  subst e1
  exact ⟨b0, bs, rfl, e2, by rw [List.getLast?_eq_some_getLast (by simp), e3], e4, e5, e6⟩

/-! ### The fork point -/

theorem forkPoint_spec (main : List Block) : ∀ (line : List Block) (at_ : Block), ∃ pre suf,
    line = pre ++ suf ∧ (∀ b ∈ pre, ∃ x ∈ main, x.hash = b.hash) ∧
    forkPoint main at_ line = (match pre.getLast? with | some x => x | none => at_) ∧
    ∀ b, suf.head? = some b → ¬ ∃ x ∈ main, x.hash = b.hash := by
  intro line
  induction line with
  | nil => intro at_; exact ⟨[], [], rfl, by simp, rfl, by simp⟩
  | cons b line ih =>
    intro at_
    unfold forkPoint
    split
    · next hb =>
      obtain ⟨pre, suf, e1, e2, e3, e4⟩ := ih b
      refine ⟨b :: pre, suf, by rw [e1]; rfl, ?_, ?_, e4⟩
      · intro x hx
        rcases List.mem_cons.1 hx with rfl | hx
        · simpa using hb
        · exact e2 x hx
      · rw [e3]
        match pre with
        | [] => rfl
        | y :: ys =>
          rw [List.getLast?_cons_cons, List.getLast?_eq_some_getLast (by simp)]
    · next hb =>
      refine ⟨[], b :: line, rfl, by simp, rfl, ?_⟩
      intro x hx
      simp at hx; subst hx
      simpa using hb

/-- Blocks of the main line that are linked from the root are its first ones. -/
theorem prefix_of_main (hw : World R U) {db : List (Entry S)} (hh : Hist R db) (hu : ∀ e ∈ db, U e.block) :
    ∀ (ms : List (Entry S)) (d : List (Entry S)) (pre : List Block), db = ms.reverse ++ d → d ≠ [] →
    LinkedFrom (tip d) pre → (∀ b ∈ pre, ∃ e ∈ db, e.block = b) →
    ∃ m1 m2, ms = m1 ++ m2 ∧ m1.map (·.block) = pre := by
  intro ms d pre
  induction pre generalizing ms d with
  | nil => intro _ _ _ _; exact ⟨[], ms, rfl, rfl⟩
  | cons b pre ih =>
    intro hdb hne hl hin
    cases hl with
    | cons hp hl =>
      obtain ⟨e, he, rfl⟩ := hin b List.mem_cons_self
      match ms with
      | [] =>
        have : db = d := by simpa using hdb
        subst this
        exact absurd hp (hist_prev_ne_tip hw hh hu he)
      | m :: ms' =>
        have hdb' : db = ms'.reverse ++ (m :: d) := by rw [hdb]; simp
        have hm : Hist R (m :: d) := by
          rw [hdb'] at hh; exact Hist.suffix hh
        match d, hne with
        | t :: ts, _ =>
          obtain ⟨t1, t2, _⟩ := hm.two
          have hmem : m ∈ db := by rw [hdb']; simp
          have htm : t ∈ db := by rw [hdb']; simp
          have hem : e = m := by
            apply hist_height_inj hh e he m hmem
            rcases hist_prev hh e he with hg | ⟨x, hx, a, b⟩
            · exfalso
              rw [hg] at hp
              exact hw.first _ (hu t htm) hp.symm
            · have : x.block = t.block := hw.inj _ _ (hu x hx) (hu t htm) (by rw [← a, hp]; rfl)
              rw [b, t2, this]
          subst hem
          obtain ⟨m1, m2, h1, h2⟩ := ih ms' (e :: t :: ts) hdb' (by simp) hl
            (fun x hx => hin x (List.mem_cons_of_mem _ hx))
          exact ⟨e :: m1, m2, by rw [h1]; rfl, by simp [h2]⟩

/-- State of the database after `nearFork`: the chain up to the fork point. -/
theorem nearFork_spec (hw : World R U) {st : St S C} (hi : Inv R U st) {above : List (Entry S)} {re : Entry S}
    {below : List (Entry S)} (h : Above R U st st.db above re below) (hr : (getBlock st st.root.hash).isSome)
    {line : List Block} (hl : LinkedFrom st.root.hash line) (hu : ∀ b ∈ line, U b) :
    ∃ (m1 m2 : List (Entry S)) (suf : List Block) (o : Option Block), above.reverse = m1 ++ m2 ∧
      line = m1.map (·.block) ++ suf ∧ (nearFork st line).2 = some o ∧
      (nearFork st line).1.db = m1.reverse ++ re :: below ∧ Keeps (nearFork st line).1 st ∧
      LinkedFrom (tip (m1.reverse ++ re :: below)) suf ∧
      (∀ b, suf.head? = some b → b ∉ st.db.map (·.block)) ∧
      (∀ b, o = some b → b.hash = tip (m1.reverse ++ re :: below)) := by
  obtain ⟨pre, suf, e1, e2, e3, e4⟩ := forkPoint_spec (above.reverse.map (·.block)) line st.root
  have hin : ∀ b ∈ pre, ∃ e ∈ st.db, e.block = b := by
    intro b hb
    obtain ⟨x, hx, hxb⟩ := e2 b hb
    obtain ⟨e, he, rfl⟩ := List.mem_map.1 hx
    have hed : e ∈ st.db := by
      rw [h.eq]; exact List.mem_append_left _ (List.mem_reverse.1 he)
    exact ⟨e, hed, hw.inj _ _ (h.dbU e hed) (hu b (by rw [e1]; exact List.mem_append_left _ hb)) hxb⟩
  rw [e1] at hl
  obtain ⟨hl1, hl2⟩ := hl.append
  have htr : tip (re :: below) = st.root.hash := by rw [← h.root]; rfl
  obtain ⟨m1, m2, g1, g2⟩ := prefix_of_main hw h.hist h.dbU above.reverse (re :: below) pre
    (by rw [List.reverse_reverse]; exact h.eq) (by simp) (htr.symm ▸ hl1) hin
  have hdb : st.db = m2.reverse ++ (m1.reverse ++ re :: below) := by
    rw [h.eq, ← List.reverse_reverse above, g1]; simp
  -- the fork point is the newest block of what is kept
  have hat : ∃ e r, m1.reverse ++ re :: below = e :: r ∧ forkPoint (above.reverse.map (·.block)) st.root line = e.block := by
    rw [e3, ← g2]
    rcases List.eq_nil_or_concat m1 with rfl | ⟨m1', x, rfl⟩
    · exact ⟨re, below, rfl, h.root.symm⟩
    · refine ⟨x, m1'.reverse ++ re :: below, by simp, by simp⟩
  obtain ⟨e, r, her, hfp⟩ := hat
  have hsuf : LinkedFrom (tip (m1.reverse ++ re :: below)) suf := by
    rw [← g2] at hl2
    rcases List.eq_nil_or_concat m1 with rfl | ⟨m1', x, rfl⟩
    · rw [show ([] : List (Entry S)).reverse ++ re :: below = re :: below from rfl, htr]; exact hl2
    · simp at hl2 ⊢; exact hl2
  have hrev : revertDb (e.block.height + 1) st.db = m1.reverse ++ re :: below := by
    have hh := h.hist
    rw [hdb, her] at hh ⊢
    exact revertDb_append hh
  have hnot : ∀ b, suf.head? = some b → b ∉ st.db.map (·.block) := by
    intro b hb hm
    have hb' := e4 b hb
    obtain ⟨x, hx, rfl⟩ := List.mem_map.1 hm
    rw [h.eq] at hx
    rcases List.mem_append.1 hx with hx | hx
    · exact hb' ⟨x.block, List.mem_map.2 ⟨x, List.mem_reverse.2 hx, rfl⟩, rfl⟩
    · -- a block of the line has a predecessor at or above the root
      match suf, hb, hsuf with
      | b' :: bs', hb, hsuf =>
        injection hb with hb
        subst hb
        cases hsuf with
        | cons hp _ =>
          have hxd : x ∈ m1.reverse ++ re :: below := List.mem_append_right _ hx
          have hd1 : Hist R (m1.reverse ++ re :: below) := by
            have hh := h.hist
            rw [hdb] at hh; exact Hist.suffix hh
          exact hist_prev_ne_tip hw hd1 (fun y hy => h.dbU y (by rw [hdb]; exact List.mem_append_right _ hy)) hxd hp
  unfold nearFork
  rw [mainLine_above hw hi h hr]
  dsimp only
  rw [hfp]
  by_cases hc : e.block.hash ≠ tip st.db
  · rw [if_pos hc]
    refine ⟨m1, m2, suf, some e.block, g1, by rw [g2, ← e1], rfl, hrev, keeps_revert _ _, hsuf, hnot, ?_⟩
    intro b hb; injection hb with hb; subst hb; rw [her]; rfl
  · rw [if_neg hc]
    have hc : e.block.hash = tip st.db := Decidable.of_not_not hc
    have : st.db = m1.reverse ++ re :: below := by
      have hh := h.hist
      rw [hdb] at hh
      refine hist_unique hw h.hist (Hist.suffix hh) h.dbU
        (fun y hy => h.dbU y (by rw [hdb]; exact List.mem_append_right _ hy)) hi.ne (by simp) ?_
      rw [← hc, her]; rfl
    exact ⟨m1, m2, suf, none, g1, by rw [g2, ← e1], rfl, this, Keeps.refl st, hsuf, hnot, by simp⟩

/-! ### Switching -/

/-- The chain goes through the root, the tree holds its blocks above the root and nothing at or below it. -/
structure Anchored (R : Rules S C) (U : Block → Prop) (st : St S C) (above : List (Entry S)) (re : Entry S)
    (below : List (Entry S)) : Prop where
  above : Above R U st st.db above re below
  stored : (getBlock st st.root.hash).isSome
  high : ∀ b ∈ st.forks.map (·.block), st.root.height < b.height

theorem Above.keeps {st' st : St S C} {db above : List (Entry S)} {re : Entry S} {below : List (Entry S)}
    (h : Above R U st db above re below) (k : Keeps st' st) : Above R U st' db above re below :=
  ⟨h.eq, h.hist, h.dbU, by rw [h.root, k.root], fun e he => k.find.2 (h.inTree e he)⟩

theorem Anchored.keeps {st' st : St S C} {above above' : List (Entry S)} {re : Entry S} {below : List (Entry S)}
    (h : Anchored R U st above re below) (k : Keeps st' st) (hi : Inv R U st') (hdb : st'.db = above' ++ re :: below)
    (hin : ∀ e ∈ above', (findFork st.forks e.block.hash).isSome) : Anchored R U st' above' re below :=
  ⟨⟨hdb, hi.hist, hi.dbU, by rw [h.above.root, k.root], fun e he => k.find.2 (hin e he)⟩,
    by rw [k.root]; exact k.get h.stored, by rw [k.forks, k.root]; exact h.high⟩

theorem tip_above {st : St S C} {above : List (Entry S)} {re : Entry S} {below : List (Entry S)}
    (h : Anchored R U st above re below) : (getBlock st (tip st.db)).isSome := by
  match above, h with
  | [], h =>
    have : tip st.db = st.root.hash := by rw [h.above.eq, ← h.above.root]; rfl
    rw [this]; exact h.stored
  | e :: suf, h =>
    have : tip st.db = e.block.hash := by rw [h.above.eq]; rfl
    rw [this]
    exact getBlock_isSome.2 (.inl (h.above.inTree e List.mem_cons_self))

/-- `fork_to` a chain that was applied before puts that chain back. -/
theorem goBack (hw : World R U) {s : St S C} (hi : Inv R U s) {above above0 : List (Entry S)} {re : Entry S}
    {below db0 : List (Entry S)} (h : Anchored R U s above re below) (h0 : Above R U s db0 above0 re below) (n : Nat) :
    ∃ s' o, forkToHash (forkTo R (n + 1)) s (tip db0) = (s', .ok o) ∧ s'.db = db0 ∧ Keeps s' s ∧ Inv R U s' ∧
      Tame R U s'.forks s.forks := by
  unfold forkToHash
  by_cases hc : tip db0 = tip s.db
  · rw [if_pos hc]
    refine ⟨s, none, rfl, ?_, Keeps.refl s, hi, Tame.refl _⟩
    exact (hist_unique hw h0.hist hi.hist h0.dbU hi.dbU (by rw [h0.eq]; simp) hi.ne hc).symm
  · rw [if_neg hc]
    match above0, h0 with
    | [], h0 =>
      have ht : tip db0 = s.root.hash := by rw [h0.eq, ← h0.root]; rfl
      have hn : findFork s.forks (tip db0) = none := by
        match hf : findFork s.forks (tip db0) with
        | none => rfl
        | some f =>
          obtain ⟨f1, f2⟩ := findFork_mem hf
          have : f.block = s.root := hw.inj _ _ (hi.forkU f f1) hi.rootU (by rw [f2, ht])
          have := h.high f.block (List.mem_map.2 ⟨f, f1, rfl⟩)
          simp_all
      rw [hn]
      dsimp only
      rw [if_pos ht]
      refine ⟨_, none, rfl, ?_, keeps_revert _ _, inv_revert hi (revertDb_ne hw hi.hist hi.ne _), Tame.refl _⟩
      show revertDb (s.root.height + 1) s.db = db0
      have hh := h.above.hist
      rw [h0.eq, ← h.above.root, h.above.eq]
      rw [h.above.eq] at hh
      exact revertDb_append hh
    | e :: suf, h0 =>
      have ht : tip db0 = e.block.hash := by rw [h0.eq]; rfl
      obtain ⟨f, hf⟩ := Option.isSome_iff_exists.1 (h0.inTree e List.mem_cons_self)
      rw [← ht] at hf
      rw [hf]
      dsimp only
      have hline := forkLine_above hw hi h0 h.stored (by simp) hf
      have hh0 := h0.hist
      rw [h0.eq] at hh0
      have hlink : LinkedFrom s.root.hash ((e :: suf).reverse.map (·.block)) := by
        rw [← h0.root]; exact hist_linked hh0
      have hinU : ∀ b ∈ (e :: suf).reverse.map (·.block), U b := by
        intro b hb
        obtain ⟨x, hx, rfl⟩ := List.mem_map.1 hb
        exact h0.dbU x (by rw [h0.eq]; exact List.mem_append_left _ (List.mem_reverse.1 hx))
      obtain ⟨m1, m2, sf, o, g1, g2, g3, g4, g5, g6, g7, g8⟩ := nearFork_spec hw hi h.above h.stored hlink hinU
      -- the same split in the old chain
      obtain ⟨y1, y2, k1, k2, k3⟩ := List.map_eq_append_iff.1 g2
      have hdb0 : db0 = y2.reverse ++ (y1.reverse ++ re :: below) := by
        rw [h0.eq, ← List.reverse_reverse (e :: suf), k1]; simp
      have hi1 : Inv R U (nearFork s ((e :: suf).reverse.map (·.block))).1 := by
        exact inv_nearFork hw hi _
      have hy1 : y1.reverse ++ re :: below = m1.reverse ++ re :: below := by
        have hh := h0.hist
        rw [hdb0] at hh
        refine hist_unique hw (Hist.suffix hh) (g4 ▸ hi1.hist)
          (fun x hx => h0.dbU x (by rw [hdb0]; exact List.mem_append_right _ hx)) (g4 ▸ hi1.dbU) (by simp) (by simp) ?_
        rcases List.eq_nil_or_concat y1 with rfl | ⟨y1', x, rfl⟩
        · have : m1 = [] := by simpa using k2.symm
          subst this; rfl
        · rcases List.eq_nil_or_concat m1 with rfl | ⟨m1', z, rfl⟩
          · simp at k2
          · simp only [List.concat_eq_append, List.map_append, List.map_cons, List.map_nil] at k2
            have := List.append_inj_right' k2 rfl
            simp at this
            simp [tip, this]
      have hmain : ∀ f0 rest, (e :: suf).reverse.map (·.block) = f0 :: rest → f0.prev = s.root.hash := by
        intro f0 rest he
        rw [he] at hlink
        cases hlink with
        | cons hp _ => exact hp
      unfold forkTo
      rw [hline]
      generalize hL : (e :: suf).reverse.map (·.block) = L at *
      match L with
      | [] => simp at hL
      | f0 :: rest =>
        dsimp only
        rw [if_neg (by rw [hmain f0 rest rfl]; simp), g3]
        dsimp only
        have hNf : (nearFork s (f0 :: rest)).1.forks = s.forks := nearFork_forks _ _
        generalize hN : nearFork s (f0 :: rest) = N at *
        have hskip : ∀ b ∈ m1.map (·.block), b.prev ≠ tip N.1.db := by
          intro b hb
          obtain ⟨x, hx, rfl⟩ := List.mem_map.1 hb
          refine hist_prev_ne_tip hw hi1.hist hi1.dbU ?_
          rw [g4]; exact List.mem_append_left _ (List.mem_reverse.2 hx)
        rw [g2, applyLine_skip _ _ hskip, ← k3]
        have hbackg : (getBlock N.1 (tip N.1.db)).isSome := by
          have := tip_above (h.keeps (above' := m1.reverse) g5 hi1 g4 (by
            intro x hx
            refine h.above.inTree x (List.mem_reverse.1 ?_)
            rw [g1]; exact List.mem_append_left _ (List.mem_reverse.1 hx)))
          exact this
        obtain ⟨st', a1, a2, a3, a4, a5⟩ := applyLine_back (R := R) hw
          (restore := fun s0 => (forkToHash (forkTo R n) s0 (tip s.db)).1) y2 N.1 hi1
          (by
            rw [g4, ← hy1, ← hdb0]; exact h0.hist)
          (fun x hx => h0.dbU x (by rw [hdb0]; exact List.mem_append_left _ (List.mem_reverse.2 hx)))
          (fun x hx => g5.find.2 (h0.inTree x (List.mem_reverse.1 (by rw [k1]; exact List.mem_append_right _ hx))))
          hbackg
        rw [a1]
        exact ⟨st', o, rfl, by rw [a2, g4, ← hy1, ← hdb0], a3.trans g5, a4, hNf ▸ a5⟩

/-- Switching to a fork that branches off at or above the root: the whole line is applied on top of what both
chains have in common, or nothing has changed. -/
theorem forkTo_near (hw : World R U) (ht : Total R) {st : St S C} (hi : Inv R U st) {above : List (Entry S)}
    {re : Entry S} {below : List (Entry S)} (h : Anchored R U st above re below) {f : Fork C}
    (hfin : (findFork st.forks f.block.hash).isSome) (hfU : U f.block) {f0 : Block} {rest : List Block} (hline : forkLine st f = some (f0 :: rest)) (hp : f0.prev = st.root.hash)
    (n : Nat) :
    (∃ st' o new keep, forkTo R (n + 2) st f = (st', .ok o) ∧ st'.db = new ++ (keep ++ re :: below) ∧
      (keep ++ re :: below) <:+ st.db ∧ tip st'.db = f.block.hash ∧ Keeps st' st ∧
      (keep.reverse ++ new.reverse).map (·.block) = f0 :: rest ∧
      (∀ e, new.getLast? = some e → e.block ∉ st.db.map (·.block)) ∧
      (∀ b, o = some b → b.hash = tip (keep ++ re :: below)) ∧ Inv R U st' ∧ Tame R U st'.forks st.forks) ∨
    (∃ st', forkTo R (n + 2) st f = (st', .err) ∧ st'.db = st.db ∧ Keeps st' st ∧ Inv R U st' ∧
      Tame R U st'.forks st.forks ∧ ∃ b ∈ f0 :: rest, Marked st'.forks b.hash ∧ Dead R U b) := by
  obtain ⟨b0, bs, l1, l2, l3, l4, l5, l6⟩ := forkLine_spec hline hfin
  have l1' : f0 = b0 := by injection l1
  have hlU : ∀ b ∈ f0 :: rest, U b := by
    intro b hb
    exact lineFrom_U hi _ f [] _ hfU (by simp) hline b hb
  rw [← l1', hp] at l2
  obtain ⟨m1, m2, sf, o, g1, g2, g3, g4, g5, g6, g7, g8⟩ := nearFork_spec hw hi h.above h.stored l2 hlU
  have hi1 : Inv R U (nearFork st (f0 :: rest)).1 := inv_nearFork hw hi _
  have hfork : forkTo R (n + 2) st f =
      (let r2 := applyLine R (fun s => (forkToHash (forkTo R (n + 1)) s (tip st.db)).1)
        (nearFork st (f0 :: rest)).1 (f0 :: rest)
       (r2.1, if r2.2 then .ok o else .err)) := by
    rw [forkTo, hline]
    dsimp only
    rw [if_neg (by rw [hp]; simp), g3]
  rw [hfork]
  have hNf : (nearFork st (f0 :: rest)).1.forks = st.forks := nearFork_forks _ _
  generalize hN : nearFork st (f0 :: rest) = N at *
  have hm1 : ∀ x ∈ m1, x ∈ above := by
    intro x hx
    exact List.mem_reverse.1 (by rw [g1]; exact List.mem_append_left _ hx)
  have hskip : ∀ b ∈ m1.map (·.block), b.prev ≠ tip N.1.db := by
    intro b hb
    obtain ⟨x, hx, rfl⟩ := List.mem_map.1 hb
    refine hist_prev_ne_tip hw hi1.hist hi1.dbU ?_
    rw [g4]; exact List.mem_append_left _ (List.mem_reverse.2 hx)
  have hsub : (m1.reverse ++ re :: below) <:+ st.db := by
    refine ⟨m2.reverse, ?_⟩
    rw [h.above.eq, ← List.reverse_reverse above, g1]; simp
  rw [g2, applyLine_skip _ _ hskip]
  dsimp only
  have hsfU : ∀ b ∈ sf, b ∈ f0 :: rest := fun b hb => by rw [g2]; exact List.mem_append_right _ hb
  rcases applyLine_fwd hw ht (restore := fun s => (forkToHash (forkTo R (n + 1)) s (tip st.db)).1) sf N.1 hi1
      (fun b hb => hlU b (hsfU b hb)) (fun b hb => g5.find.2 (l4 b (hsfU b hb))) (by rw [g4]; exact g6)
      (tip_above (h.keeps (above' := m1.reverse) g5 hi1 g4 (fun x hx => h.above.inTree x (hm1 x (List.mem_reverse.1 hx))))) with
    ⟨st', es, a1, a2, a3, a4, a5, a8⟩ | ⟨s1, es, a1, a2, a3, a4, a5, a8, x, a6, a7⟩
  · left
    have hes : es.reverse.map (·.block) = sf := by
      rw [List.map_reverse, a2, List.reverse_reverse]
    rw [a1]
    refine ⟨st', o, es, m1.reverse, rfl, by rw [a3, g4], hsub, ?_, a4.trans g5, ?_, ?_, g8, a5, hNf ▸ a8⟩
    · rw [a3, g4]
      have hlast : (m1.map (·.block) ++ sf).getLast? = some f.block := by rw [← g2]; exact l3
      match es, hes with
      | [], hes =>
        have : sf = [] := by simpa using hes.symm
        subst this
        rw [List.append_nil] at hlast
        rcases List.eq_nil_or_concat m1 with rfl | ⟨m1', z, rfl⟩
        · simp at hlast
        · simp at hlast
          simp [tip, hlast]
      | e :: es', hes =>
        rw [← hes] at hlast
        simp at hlast
        simp [tip, hlast]
    · rw [List.reverse_reverse, List.map_append, hes, ← g2]
    · intro e he
      apply g7
      rw [← hes]
      rw [List.getLast?_eq_head?_reverse] at he
      rw [List.head?_map, he]; rfl
  · right
    rw [a1]
    have hanch : Anchored R U s1 (es ++ m1.reverse) re below := by
      refine h.keeps (a4.trans g5) a5 (by rw [a3, g4]; simp) ?_
      intro e he
      rcases List.mem_append.1 he with he | he
      · exact l4 e.block (hsfU _ (a2 e he))
      · exact h.above.inTree e (hm1 e (List.mem_reverse.1 he))
    obtain ⟨s', o', b1, b2, b3, b4, b5⟩ := goBack hw a5 hanch (h.above.keeps (a4.trans g5)) n
    refine ⟨s', ?_, b2, b3.trans (a4.trans g5), b4, b5.trans (hNf ▸ a8), x, ?_, b3.marks _ a7.1, a7.2⟩
    · dsimp only
      rw [b1]
      rfl
    · exact List.mem_append_right _ a6

end Verif.Node
