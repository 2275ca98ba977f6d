/-
  Lemmas about the answers of a harvester.
-/
import Verif.Farm.Harvest
import Verif.Farm.ProverLemmas
import Verif.Pos.PropsTables
import Verif.Pos.PropsProof

namespace Verif.Farm

open Verif.Pos

/-- The leaves determine a tree. -/
theorem tree_fun {α β : Type} {fn : Fns α β} {d : Nat} {xs : List Nat} {y y' : Nat} {m m' : α}
    (h : Tree fn d xs y m) (h' : Tree fn d xs y' m') : y = y' ∧ m = m' := by
  induction h generalizing y' m' with
  | leaf x =>
    generalize hx : [x] = l at h'
    generalize hd : 0 = d at h'
    cases h' with
    | leaf x' => cases hx; exact ⟨rfl, rfl⟩
    | node _ _ => cases hd
  | node hl hr ihl ihr =>
    rename_i d l r yl ml mr
    generalize hx : l ++ r = k at h'
    generalize hd : d + 1 = e at h'
    cases h' with
    | leaf _ => cases hd
    | node hl' hr' =>
      cases hd
      have e := List.append_inj hx (by rw [tree_length hl, tree_length hl'])
      obtain ⟨e1, e2⟩ := e
      subst e1 e2
      obtain ⟨a, b⟩ := ihl hl'
      subst a b
      obtain ⟨_, b⟩ := ihr hr'
      subst b
      exact ⟨rfl, rfl⟩

variable {η : Type} {hs : Hashes η} {sort sort' : List (List Nat) → List Entry → List Entry} {p : Params} {pl : Plot η}

/-- The plot file is what it should be: its id belongs to its header; its table holds the values `y`; the inputs of
    table 1 for an entry are the stored values with all possible low bits, and if a proof comes out of them it is one
    for the value in the table; the stored meta data is that of the proof. -/
structure Plot.Made (hs : Hashes η) (sort : List (List Nat) → List Entry → List Entry) (p : Params) (pl : Plot η)
    (y : Nat → Nat) : Prop where
  id : pl.plotId = hs.plotId pl.ksize pl.seed pl.farmerKey pl.contract
  size : 8 ≤ pl.ksize ∧ pl.ksize ≤ 32
  allowed : p.minK ≤ pl.ksize ∧ pl.ksize ≤ p.maxK
  table : pl.table.Holds y
  inputs : ∀ i, i < pl.table.num → pl.inputs i ≠ .ub ∧ ∀ order, pl.inputs i = .ok order →
    ∃ xbits stored, xbits ≤ 32 ∧ IsOrder xbits stored order ∧ NoCollision (pl.fns hs) order
  full : ∀ i, i < pl.table.num → ∀ r, pl.full hs sort i = .ok r →
    ∃ m, Tree (pl.fns hs) 8 r.1 (y i) m ∧ (pl.fns hs).cut m = r.2
  metas : ∀ i, i < pl.table.num → pl.metas i ≠ .ub ∧ ∀ b r, pl.metas i = .ok b → pl.full hs sort i = .ok r → b = r.2

/-- The challenge as a node sees it. -/
def chalOf (hs : Hashes η) (p : Params) (pl : Plot η) (c : Challenge η) : Chal (List Nat) Nat :=
  hs.chal p (pl.proof c 0 0 []) c.challenge c.vdfHeight

theorem full_verifies {y : Nat → Nat} (hm : pl.Made hs sort p y) (h1 : IsSort (pl.fns hs).lt sort)
    (h2 : IsSort (pl.fns hs).lt sort') {i : Nat} (hi : i < pl.table.num) {r : List Nat × List Nat}
    (hr : pl.full hs sort i = .ok r) {order : List Nat} (ho : IsOrder 0 r.1 order) :
    r.1.length = 256 ∧ ∀ c : Chal (List Nat) Nat, c.y0 ≤ y i → y i < c.y0 + 2 ^ c.plotFilter →
      (c.hardFork = true → c.postHash r.2 < 2 ^ (256 - c.postFilter)) →
      verify (pl.fns hs) sort' c r.1 order = .ok (if c.hardFork then c.proofHash r.1 else c.quality r.2) := by
  obtain ⟨m, t1, t2⟩ := hm.full i hi r hr
  refine ⟨tree_length t1, ?_⟩
  intro c c1 c2 c3
  have hr0 := hr
  unfold Plot.full at hr
  obtain ⟨o, o1, o2⟩ := Res.bind_eq_ok.1 hr
  obtain ⟨xb, st, b1, b2, b3⟩ := (hm.inputs i hi).2 o o1
  obtain ⟨y', m', t1', t2', h⟩ := C104_accepted (ρ := Nat) (good_hashFns _ _ _) h1 h2 b1 b2 o2 b3 ho
  obtain ⟨e1, e2⟩ := tree_fun t1 t1'
  subst e1
  exact h c c1 c2 c3

theorem full_ne_ub {y : Nat → Nat} (hm : pl.Made hs sort p y) (h1 : IsSort (pl.fns hs).lt sort) {i : Nat}
    (hi : i < pl.table.num) : pl.full hs sort i ≠ .ub := by
  unfold Plot.full
  cases e : pl.inputs i with
  | ub => exact absurd e (hm.inputs i hi).1
  | throw => intro h; cases h
  | ok o =>
    rw [Res.bind_ok]
    unfold fullProof
    rcases computeFull_spec (good_hashFns _ _ _) h1 o with ⟨a, _⟩ | ⟨outs, a, _⟩
    · change computeFull (pl.fns hs) sort o = _ at a
      rw [a]; intro h; cases h
    · change computeFull (pl.fns hs) sort o = _ at a
      rw [a, Res.bind_ok]
      match outs with
      | [] => intro h; cases h
      | [_] => intro h; cases h
      | _ :: _ :: _ => intro h; cases h

/-! ### one quality -/

/-- What `judge` answers, by cases. -/
theorem judge_mem {c : Challenge η} {pool : Option Nat} {q : Quality} {out : List (Answer η)}
    (h : pl.judge hs sort p c pool q = .ok out) {a : Answer η} (ha : a ∈ out) :
    q.valid = true ∧
    (p.hardfork1 ≤ c.vdfHeight → hs.postHash (hs.plotChallenge c.challenge pl.plotId) q.mt >>> (256 - p.postFilter) = 0) ∧
    ∃ xs1 xs, pl.early hs sort (decide (p.hardfork1 ≤ c.vdfHeight)) q = .ok xs1 ∧ pl.late hs sort q xs1 = .ok xs ∧
      ∃ d, thresholdOk p pl.ksize (if decide (p.hardfork1 ≤ c.vdfHeight) = true
            then hs.proofHash (hs.plotChallenge c.challenge pl.plotId) xs1
            else hs.quality (hs.plotChallenge c.challenge pl.plotId) q.mt) d (decide (p.hardfork1 ≤ c.vdfHeight)) = .ok true ∧
        (d = c.difficulty ∧ a = .solo (pl.proof c d (scoreOf (hs.proofHash c.challenge xs)) xs) ∨
          pool = some d ∧ a = .part (pl.proof c d (scoreOf (hs.proofHash c.challenge xs)) xs)) := by
  unfold Plot.judge at h
  dsimp only at h
  by_cases hv : q.valid = false
  · rw [if_pos hv] at h; cases h; cases ha
  rw [if_neg hv] at h
  by_cases hp : decide (p.hardfork1 ≤ c.vdfHeight) = true ∧
      ¬ (hs.postHash (hs.plotChallenge c.challenge pl.plotId) q.mt >>> (256 - p.postFilter) == 0) = true
  · rw [if_pos hp] at h; cases h; cases ha
  rw [if_neg hp] at h
  obtain ⟨xs1, e1, h⟩ := Res.bind_eq_ok.1 h
  obtain ⟨solo, e2, h⟩ := Res.bind_eq_ok.1 h
  obtain ⟨part, e3, h⟩ := Res.bind_eq_ok.1 h
  refine ⟨by cases hq : q.valid; exact absurd hq hv; rfl, ?_, ?_⟩
  · intro hh
    by_cases k : (hs.postHash (hs.plotChallenge c.challenge pl.plotId) q.mt >>> (256 - p.postFilter) == 0) = true
    · exact beq_iff_eq.1 k
    · exact absurd ⟨decide_eq_true hh, k⟩ hp
  by_cases hsp : solo = true ∨ part = true
  · rw [if_pos hsp] at h
    obtain ⟨xs, e4, h⟩ := Res.bind_eq_ok.1 h
    have h := Res.ok.inj h
    subst h
    refine ⟨xs1, xs, e1, e4, ?_⟩
    rcases List.mem_append.1 ha with ha | ha
    · unfold Plot.partials at ha
      cases pool with
      | none => cases ha
      | some d =>
        dsimp only at ha
        cases part with
        | false => cases ha
        | true =>
          rw [if_pos rfl, List.mem_singleton] at ha
          exact ⟨d, e3, .inr ⟨rfl, ha⟩⟩
    · cases solo with
      | false => cases ha
      | true =>
        rw [if_pos rfl, List.mem_singleton] at ha
        exact ⟨c.difficulty, e2, .inl ⟨rfl, ha⟩⟩
  · rw [if_neg hsp] at h; cases h; cases ha

/-- A quality that was read belongs to its entry. -/
theorem quality_ok {i : Nat} {q : Quality} (h : pl.quality hs sort i = .ok q) (hv : q.valid = true) :
    q.index = i ∧ (pl.metas i = .ok q.mt ∧ q.proof = [] ∨ pl.full hs sort i = .ok (q.proof, q.mt)) := by
  unfold Plot.quality at h
  cases hm : pl.hasMeta with
  | true =>
    rw [hm, if_pos rfl] at h
    cases e : pl.metas i with
    | ok m => rw [e] at h; cases h; exact ⟨rfl, .inl ⟨rfl, rfl⟩⟩
    | throw => rw [e] at h; cases h
    | ub => rw [e] at h; cases h
  | false =>
    rw [hm, if_neg (by decide)] at h
    cases e : pl.full hs sort i with
    | ok r => rw [e] at h; cases h; exact ⟨rfl, .inr rfl⟩
    | throw => rw [e] at h; cases h; cases hv
    | ub => rw [e] at h; cases h

/-- The values used for the quality and in the proof are those of the full proof. -/
theorem values_ok {y : Nat → Nat} (hm : pl.Made hs sort p y) {i : Nat} (hi : i < pl.table.num) {q : Quality}
    (hq : pl.quality hs sort i = .ok q) (hv : q.valid = true) {hf : Bool} {xs1 xs : List Nat}
    (e1 : pl.early hs sort hf q = .ok xs1) (e2 : pl.late hs sort q xs1 = .ok xs) :
    pl.full hs sort i = .ok (xs, q.mt) ∧ (hf = true → xs1 = xs) := by
  obtain ⟨hx, hc⟩ := quality_ok hq hv
  have key : ∀ r, pl.full hs sort i = .ok r → r.1 ≠ [] ∧ r.2 = q.mt := by
    intro r hr
    obtain ⟨m, t1, _⟩ := hm.full i hi r hr
    have hl := tree_length t1
    refine ⟨fun z => (by rw [z] at hl; exact absurd hl (by decide)), ?_⟩
    rcases hc with hc | hc
    · exact ((hm.metas i hi).2 _ _ hc.1 hr).symm
    · rw [hc] at hr; cases hr; rfl
  have fin : ∀ r, pl.full hs sort i = .ok r → pl.full hs sort i = .ok (r.1, q.mt) := by
    intro r hr
    have := (key r hr).2
    rw [hr, ← this]
  unfold Plot.early at e1
  by_cases hp : q.proof ≠ []
  · rw [if_pos hp] at e1
    cases e1
    unfold Plot.late at e2
    rw [if_neg hp] at e2
    cases e2
    rcases hc with hc | hc
    · exact absurd hc.2 hp
    · exact ⟨hc, fun _ => rfl⟩
  · rw [if_neg hp] at e1
    cases hf with
    | true =>
      rw [if_pos rfl] at e1
      obtain ⟨r, r1, r2⟩ := Res.bind_eq_ok.1 e1
      cases r2
      rw [hx] at r1
      unfold Plot.late at e2
      rw [if_neg (key r r1).1] at e2
      cases e2
      exact ⟨fin r r1, fun _ => rfl⟩
    | false =>
      rw [if_neg (by decide)] at e1
      cases e1
      unfold Plot.late at e2
      rw [if_pos rfl] at e2
      obtain ⟨r, r1, r2⟩ := Res.bind_eq_ok.1 e2
      cases r2
      rw [hx] at r1
      exact ⟨fin r r1, nofun⟩

/-! ### all qualities -/

theorem qualityAll_mem : ∀ {l : List Nat} {qs : List Quality}, pl.qualityAll hs sort l = .ok qs →
    (∀ q ∈ qs, ∃ i ∈ l, pl.quality hs sort i = .ok q) ∧ (∀ i ∈ l, ∃ q ∈ qs, pl.quality hs sort i = .ok q)
  | [], qs, h => by cases h; exact ⟨fun _ hq => (nomatch hq), fun _ hq => (nomatch hq)⟩
  | i :: l, qs, h => by
    unfold Plot.qualityAll at h
    obtain ⟨q, h1, h⟩ := Res.bind_eq_ok.1 h
    obtain ⟨r, h2, h⟩ := Res.bind_eq_ok.1 h
    cases h
    obtain ⟨a, b⟩ := qualityAll_mem h2
    refine ⟨?_, ?_⟩
    · intro x hx
      rcases List.mem_cons.1 hx with rfl | hx
      · exact ⟨i, List.mem_cons_self, h1⟩
      · obtain ⟨j, j1, j2⟩ := a x hx
        exact ⟨j, List.mem_cons_of_mem _ j1, j2⟩
    · intro j hj
      rcases List.mem_cons.1 hj with rfl | hj
      · exact ⟨q, List.mem_cons_self, h1⟩
      · obtain ⟨x, x1, x2⟩ := b j hj
        exact ⟨x, List.mem_cons_of_mem _ x1, x2⟩

theorem judgeAll_mem {c : Challenge η} {pool : Option Nat} : ∀ {qs : List Quality} {out : List (Answer η)},
    pl.judgeAll hs sort p c pool qs = .ok out → ∀ a,
    a ∈ out ↔ ∃ q ∈ qs, ∃ o, pl.judge hs sort p c pool q = .ok o ∧ a ∈ o
  | [], out, h, a => by
    cases h
    exact ⟨fun h => (nomatch h), fun ⟨_, h, _⟩ => (nomatch h)⟩
  | q :: l, out, h, a => by
    unfold Plot.judgeAll at h
    obtain ⟨x, h1, h⟩ := Res.bind_eq_ok.1 h
    obtain ⟨r, h2, h⟩ := Res.bind_eq_ok.1 h
    cases h
    have ih := judgeAll_mem h2 a
    unfold caught at h1
    have hx : a ∈ x ↔ ∃ o, pl.judge hs sort p c pool q = .ok o ∧ a ∈ o := by
      cases e : pl.judge hs sort p c pool q with
      | ok o =>
        rw [e] at h1; cases h1
        exact ⟨fun k => ⟨_, rfl, k⟩, fun ⟨_, k1, k2⟩ => by cases k1; exact k2⟩
      | throw =>
        rw [e] at h1; cases h1
        exact ⟨fun k => (nomatch k), fun ⟨_, k1, _⟩ => (nomatch k1)⟩
      | ub => rw [e] at h1; cases h1
    rw [List.mem_append, hx, ih]
    constructor
    · rintro (h | ⟨q', h1, h2⟩)
      · exact ⟨q, List.mem_cons_self, h⟩
      · exact ⟨q', List.mem_cons_of_mem _ h1, h2⟩
    · rintro ⟨q', h1, h2⟩
      rcases List.mem_cons.1 h1 with rfl | h1
      · exact .inl h2
      · exact .inr ⟨q', h1, h2⟩

/-- An answer comes from an entry in the range of the challenge. -/
theorem lookup_mem {y : Nat → Nat} (hm : pl.Made hs sort p y) {c : Challenge η} {pool : Option Nat}
    {out : List (Answer η)} (h : pl.lookup hs sort p c pool = .ok out) {a : Answer η} (ha : a ∈ out) :
    plotFilterOk hs p c.challenge pl.plotId = true ∧ ∃ i q o,
      Wanted pl.table y (hs.word0 (hs.plotChallenge c.challenge pl.plotId) &&& kmask pl.ksize) p.plotFilter i ∧
      pl.quality hs sort i = .ok q ∧ pl.judge hs sort p c pool q = .ok o ∧ a ∈ o := by
  unfold Plot.lookup at h
  by_cases hf : plotFilterOk hs p c.challenge pl.plotId = true
  · rw [if_pos hf] at h
    refine ⟨hf, ?_⟩
    cases e : pl.qualities hs sort (hs.plotChallenge c.challenge pl.plotId) p.plotFilter with
    | ok qs =>
      rw [e] at h
      obtain ⟨q, q1, o, o1, o2⟩ := (judgeAll_mem h a).1 ha
      unfold Plot.qualities at e
      obtain ⟨l, l1, l2⟩ := Res.bind_eq_ok.1 e
      obtain ⟨i, i1, i2⟩ := (qualityAll_mem l2).1 q q1
      obtain ⟨_, _, w, _⟩ := search_spec hm.table _ _ _ l1
      exact ⟨i, q, o, ((w i).1 i1).2, i2, o1, o2⟩
    | throw => rw [e] at h; cases h; cases ha
    | ub => rw [e] at h; cases h
  · rw [if_neg hf] at h; cases h; cases ha

end Verif.Farm
