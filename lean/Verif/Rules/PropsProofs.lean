/-
  C142: the best proof known.  C143: merging signatures.
-/
import Verif.Rules.Proofs

namespace Verif.Rules

/-! ### C142 -/

theorem mem_place {d x : PData} : ∀ {l : List PData}, x ∈ place d l ↔ x = d ∨ x ∈ l
  | [] => by unfold place; rw [List.mem_singleton]; exact ⟨.inl, fun h => h.elim id fun h => absurd h List.not_mem_nil⟩
  | y :: l => by
    unfold place
    by_cases h : d.hash < y.hash
    · rw [if_pos h, List.mem_cons]
    · rw [if_neg h, List.mem_cons, mem_place, List.mem_cons]
      exact ⟨fun z => z.elim (fun z => .inr (.inl z)) fun z => z.elim .inl fun z => .inr (.inr z),
        fun z => z.elim (fun z => .inr (.inl z)) fun z => z.elim .inl fun z => .inr (.inr z)⟩

/-- Ascending hashes. -/
def Asc (l : List PData) : Prop := l.Pairwise fun x y => x.hash < y.hash

theorem asc_place {d : PData} : ∀ {l : List PData}, Asc l → (∀ x ∈ l, x.hash ≠ d.hash) → Asc (place d l)
  | [], _, _ => List.pairwise_singleton _ _
  | y :: l, h, hd => by
    unfold place
    have hp := List.pairwise_cons.1 h
    by_cases k : d.hash < y.hash
    · rw [if_pos k]
      refine List.pairwise_cons.2 ⟨fun x hx => ?_, h⟩
      rcases List.mem_cons.1 hx with rfl | hx
      · exact k
      · exact Nat.lt_trans k (hp.1 x hx)
    · rw [if_neg k]
      refine List.pairwise_cons.2 ⟨fun x hx => ?_, asc_place hp.2 fun x hx => hd x (List.mem_cons_of_mem _ hx)⟩
      rcases mem_place.1 hx with rfl | hx
      · have := hd y List.mem_cons_self
        omega
      · exact hp.1 x hx

theorem asc_addTo {d : PData} {l : List PData} (h : Asc l) : Asc (addTo d l) := by
  unfold addTo
  by_cases k : d.hash ∈ l.map (·.hash)
  · rw [if_pos k]; exact h
  · rw [if_neg k]
    exact asc_place h fun x hx e => k (e ▸ List.mem_map.2 ⟨x, hx, rfl⟩)

theorem hash_addTo {d : PData} {l : List PData} {h : Nat} :
    (∃ x ∈ addTo d l, x.hash = h) ↔ d.hash = h ∨ ∃ x ∈ l, x.hash = h := by
  unfold addTo
  by_cases k : d.hash ∈ l.map (·.hash)
  · rw [if_pos k]
    refine ⟨.inr, fun z => z.elim (fun z => ?_) id⟩
    obtain ⟨x, h1, h2⟩ := List.mem_map.1 k
    exact ⟨x, h1, by rw [h2]; exact z⟩
  · rw [if_neg k]
    constructor
    · rintro ⟨x, hx, rfl⟩
      rcases mem_place.1 hx with rfl | hx
      · exact .inl rfl
      · exact .inr ⟨x, hx, rfl⟩
    · rintro (z | ⟨x, hx, z⟩)
      · exact ⟨d, mem_place.2 (.inl rfl), z⟩
      · exact ⟨x, mem_place.2 (.inr hx), z⟩

/-- The lists are ascending; a challenge has proofs exactly if it is in the index, and it is there once. -/
structure Known.Inv (s : Known) : Prop where
  asc : ∀ c, Asc (s.proofs c)
  indexed : ∀ c, s.proofs c ≠ [] ↔ c ∈ s.index.map (·.2)
  once : (s.index.map (·.2)).Nodup

theorem addTo_ne {d : PData} {l : List PData} : addTo d l ≠ [] := by
  intro e
  obtain ⟨x, hx, _⟩ := (hash_addTo (d := d) (l := l) (h := d.hash)).2 (.inl rfl)
  rw [e] at hx
  exact absurd hx List.not_mem_nil

theorem kept_once {p : Nat × Nat → Bool} {l : List (Nat × Nat)} (h : (l.map (·.2)).Nodup) {c : Nat}
    (h1 : c ∈ (l.filter p).map (·.2)) : c ∉ (l.filter fun e => !p e).map (·.2) := by
  induction l with
  | nil => exact absurd h1 List.not_mem_nil
  | cons e l ih =>
    rw [List.map_cons] at h
    have h := List.nodup_cons.1 h
    have hsub : ∀ q : Nat × Nat → Bool, ∀ c, c ∈ (l.filter q).map (·.2) → c ∈ l.map (·.2) := fun q c hc =>
      (List.filter_sublist.map _).subset hc
    cases hp : p e with
    | true =>
      rw [List.filter_cons_of_pos hp, List.map_cons] at h1
      rw [List.filter_cons_of_neg (by rw [hp]; decide)]
      rcases List.mem_cons.1 h1 with h1 | h1
      · subst h1; exact fun z => h.1 (hsub _ _ z)
      · exact ih h.2 h1
    | false =>
      rw [List.filter_cons_of_neg (by rw [hp]; decide)] at h1
      rw [List.filter_cons_of_pos (by rw [hp]; rfl), List.map_cons]
      intro z
      rcases List.mem_cons.1 z with z | z
      · subst z; exact h.1 (hsub _ _ h1)
      · exact ih h.2 h1 z

theorem forget_index (h : Nat) (s : Known) :
    (forget h s).index = s.index.filter fun e => !(decide (e.1 ≤ h)) := by
  show (s.index.filter fun e => decide (¬ e.1 ≤ h)) = _
  exact List.filter_congr fun e _ => decide_not

theorem inv_step {s : Known} (hi : s.Inv) : ∀ o : KOp, (o.step s).Inv
  | .add c h d => by
    show (addProof c h d s).Inv
    constructor
    · intro c'
      show Asc (if c' = c then addTo d (s.proofs c') else s.proofs c')
      by_cases k : c' = c
      · rw [if_pos k]; exact asc_addTo (hi.asc c')
      · rw [if_neg k]; exact hi.asc c'
    · intro c'
      show (if c' = c then addTo d (s.proofs c') else s.proofs c') ≠ [] ↔
        c' ∈ (if s.proofs c = [] then (h, c) :: s.index else s.index).map (·.2)
      by_cases k : c' = c
      · subst k
        rw [if_pos rfl]
        refine ⟨fun _ => ?_, fun _ => addTo_ne⟩
        by_cases k : s.proofs c' = []
        · rw [if_pos k]; exact List.mem_cons_self
        · rw [if_neg k]; exact (hi.indexed c').1 k
      · rw [if_neg k, hi.indexed c']
        by_cases k' : s.proofs c = []
        · rw [if_pos k', List.map_cons, List.mem_cons]
          exact ⟨.inr, fun z => z.elim (fun z => absurd z k) id⟩
        · rw [if_neg k']
    · show ((if s.proofs c = [] then (h, c) :: s.index else s.index).map (·.2)).Nodup
      by_cases k' : s.proofs c = []
      · rw [if_pos k', List.map_cons]
        exact List.nodup_cons.2 ⟨fun z => (hi.indexed c).2 z k', hi.once⟩
      · rw [if_neg k']; exact hi.once
  | .commit h => by
    show (forget h s).Inv
    constructor
    · intro c
      show Asc (if c ∈ (s.index.filter (·.1 ≤ h)).map (·.2) then [] else s.proofs c)
      by_cases k : c ∈ (s.index.filter (·.1 ≤ h)).map (·.2)
      · rw [if_pos k]; exact List.Pairwise.nil
      · rw [if_neg k]; exact hi.asc c
    · intro c
      rw [forget_index]
      show (if c ∈ (s.index.filter (·.1 ≤ h)).map (·.2) then [] else s.proofs c) ≠ [] ↔ _
      by_cases k : c ∈ (s.index.filter (·.1 ≤ h)).map (·.2)
      · rw [if_pos k]
        exact ⟨fun z => absurd rfl z, fun z => absurd z (kept_once hi.once k)⟩
      · rw [if_neg k, hi.indexed c]
        constructor
        · intro z
          obtain ⟨e, h1, h2⟩ := List.mem_map.1 z
          refine List.mem_map.2 ⟨e, List.mem_filter.2 ⟨h1, ?_⟩, h2⟩
          by_cases he : e.1 ≤ h
          · exact absurd (List.mem_map.2 ⟨e, List.mem_filter.2 ⟨h1, decide_eq_true he⟩, h2⟩) k
          · rw [decide_eq_false he]; rfl
        · exact fun z => (List.filter_sublist.map _).subset z
    · rw [forget_index]
      exact hi.once.sublist (List.filter_sublist.map _)

theorem init_inv : Known.init.Inv :=
  ⟨fun _ => List.Pairwise.nil, fun _ => ⟨fun h => absurd rfl h, fun h => absurd h List.not_mem_nil⟩, List.nodup_nil⟩

theorem inv_run : ∀ (ops : List KOp) {s : Known}, s.Inv → (ops.foldl KOp.step s).Inv
  | [], _, h => h
  | o :: ops, _, h => inv_run ops (inv_step h o)

/-- **C142.** The proofs known for a challenge are in ascending order of their hashes, each once, whatever came in which
    order; and a challenge has proofs exactly if a later commit will find it in the index. -/
theorem C142_sorted (ops : List KOp) (c : Nat) :
    ((ops.foldl KOp.step Known.init).proofs c).Pairwise (fun x y => x.hash < y.hash) ∧
    ((ops.foldl KOp.step Known.init).proofs c ≠ [] ↔ c ∈ (ops.foldl KOp.step Known.init).index.map (·.2)) :=
  ⟨(inv_run ops init_inv).asc c, (inv_run ops init_inv).indexed c⟩

/-- A proof with this hash came for this challenge. -/
def Came (ops : List KOp) (c h : Nat) : Prop := ∃ v d, .add c v d ∈ ops ∧ d.hash = h

theorem came_run : ∀ (ops : List KOp) (s : Known), (∀ v, .commit v ∉ ops) → ∀ c h,
    (∃ x ∈ (ops.foldl KOp.step s).proofs c, x.hash = h) ↔ (∃ x ∈ s.proofs c, x.hash = h) ∨ Came ops c h
  | [], _, _, _, _ => ⟨.inl, fun z => z.elim id fun ⟨_, _, z, _⟩ => absurd z List.not_mem_nil⟩
  | .commit v :: _, _, hc, _, _ => absurd List.mem_cons_self (hc v)
  | .add c' v d :: ops, s, hc, c, h => by
    rw [List.foldl_cons, came_run ops _ (fun v hv => hc v (List.mem_cons_of_mem _ hv)) c h]
    have h1 : (∃ x ∈ (KOp.step s (.add c' v d)).proofs c, x.hash = h) ↔
        (∃ x ∈ s.proofs c, x.hash = h) ∨ (c = c' ∧ d.hash = h) := by
      show (∃ x ∈ (if c = c' then addTo d (s.proofs c) else s.proofs c), x.hash = h) ↔ _
      by_cases k : c = c'
      · rw [if_pos k, hash_addTo]
        exact ⟨fun z => z.elim (fun z => .inr ⟨k, z⟩) .inl, fun z => z.elim .inr fun z => .inl z.2⟩
      · rw [if_neg k]
        exact ⟨.inl, fun z => z.elim id fun z => absurd z.1 k⟩
    rw [h1, or_assoc]
    refine or_congr_right ⟨?_, ?_⟩
    · rintro (⟨rfl, k⟩ | ⟨v', d', k1, k2⟩)
      · exact ⟨v, d, List.mem_cons_self, k⟩
      · exact ⟨v', d', List.mem_cons_of_mem _ k1, k2⟩
    · rintro ⟨v', d', k1, k2⟩
      rcases List.mem_cons.1 k1 with k1 | k1
      · cases k1; exact .inl ⟨rfl, k2⟩
      · exact .inr ⟨v', d', k1, k2⟩

/-- **C142.** The best proof is the one with the smallest hash of all that came since the last commit and of those known
    before it, in any order and however often; there is one exactly if any came or was known. -/
theorem C142_best (before ops : List KOp) (hc : ∀ v, .commit v ∉ ops) (c : Nat) :
    let s := before.foldl KOp.step Known.init
    match findBest c (ops.foldl KOp.step s) with
    | some x => ((∃ y ∈ s.proofs c, y.hash = x.hash) ∨ Came ops c x.hash) ∧
        (∀ y ∈ s.proofs c, x.hash ≤ y.hash) ∧ ∀ h, Came ops c h → x.hash ≤ h
    | none => s.proofs c = [] ∧ ∀ h, ¬ Came ops c h := by
  intro s
  have hi := (inv_run ops (inv_run before init_inv)).asc c
  have hr := came_run ops s hc c
  unfold findBest
  cases hl : (ops.foldl KOp.step s).proofs c with
  | nil =>
    rw [hl] at hr
    refine ⟨?_, fun h hh => ?_⟩
    · cases hs : s.proofs c with
      | nil => rfl
      | cons y l =>
        obtain ⟨x, hx, _⟩ := (hr y.hash).2 (.inl ⟨y, hs ▸ List.mem_cons_self, rfl⟩)
        exact absurd hx List.not_mem_nil
    · obtain ⟨x, hx, _⟩ := (hr h).2 (.inr hh)
      exact absurd hx List.not_mem_nil
  | cons x l =>
    rw [hl] at hr
    have hi : Asc (x :: l) := hl ▸ hi
    have hmin : ∀ h, (∃ y ∈ x :: l, y.hash = h) → x.hash ≤ h := by
      rintro h ⟨y, hy, rfl⟩
      rcases List.mem_cons.1 hy with rfl | hy
      · exact Nat.le_refl _
      · exact Nat.le_of_lt ((List.pairwise_cons.1 hi).1 y hy)
    exact ⟨(hr x.hash).1 ⟨x, List.mem_cons_self, rfl⟩, fun y hy => hmin _ ((hr _).2 (.inl ⟨y, hy, rfl⟩)),
      fun h hh => hmin h ((hr h).2 (.inr hh))⟩

/-- **C142.** A commit drops the proofs of exactly those challenges whose first proof was for a VDF height not above that
    of the block, and with them their entries in the index; a challenge never has two entries. -/
theorem C142_forget (ops : List KOp) (v c : Nat) :
    let s := ops.foldl KOp.step Known.init
    (∀ h, (h, c) ∈ s.index → (forget v s).proofs c = if h ≤ v then [] else s.proofs c) ∧
    (c ∉ s.index.map (·.2) → (forget v s).proofs c = []) ∧ ∀ e ∈ (forget v s).index, v < e.1 := by
  intro s
  have hi := inv_run ops init_inv
  refine ⟨fun h hh => ?_, fun hn => ?_, fun e he => ?_⟩
  · show (if c ∈ (s.index.filter (·.1 ≤ v)).map (·.2) then [] else s.proofs c) = _
    by_cases k : h ≤ v
    · rw [if_pos k, if_pos (List.mem_map.2 ⟨(h, c), List.mem_filter.2 ⟨hh, decide_eq_true k⟩, rfl⟩)]
    · rw [if_neg k, if_neg]
      intro z
      refine kept_once hi.once z (List.mem_map.2 ⟨(h, c), List.mem_filter.2 ⟨hh, ?_⟩, rfl⟩)
      rw [decide_eq_false k]; rfl
  · show (if c ∈ (s.index.filter (·.1 ≤ v)).map (·.2) then [] else s.proofs c) = _
    rw [if_neg fun z => hn ((List.filter_sublist.map _).subset z)]
    by_cases k : s.proofs c = []
    · exact k
    · exact absurd ((hi.indexed c).1 k) hn
  · rw [forget_index] at he
    have := (List.mem_filter.1 he).2
    by_cases k : e.1 ≤ v
    · rw [decide_eq_true k] at this; cases this
    · exact Nat.not_le.1 k

/-- **C142.** A proof that is known already changes nothing: the farmer it first came from stays. -/
theorem C142_replay (s : Known) (c v : Nat) (d : PData) (h : ∃ x ∈ s.proofs c, x.hash = d.hash) :
    addProof c v d s = s := by
  obtain ⟨x, h1, h2⟩ := h
  unfold addProof
  have hne : s.proofs c ≠ [] := fun e => by rw [e] at h1; exact absurd h1 List.not_mem_nil
  rw [if_neg hne]
  have : (fun c' => if c' = c then addTo d (s.proofs c') else s.proofs c') = s.proofs := by
    funext c'
    by_cases k : c' = c
    · subst k
      rw [if_pos rfl]
      unfold addTo
      rw [if_pos (List.mem_map.2 ⟨x, h1, h2⟩)]
    · rw [if_neg k]
  rw [this]

example : findBest 7 ([.add 7 100 ⟨5, 1⟩, .add 7 100 ⟨3, 2⟩, .add 8 101 ⟨1, 1⟩, .add 7 100 ⟨3, 9⟩].foldl KOp.step Known.init)
    = some ⟨3, 2⟩ ∧
    findBest 7 ([.add 7 100 ⟨5, 1⟩, .add 8 101 ⟨1, 1⟩, .commit 100].foldl KOp.step Known.init) = none ∧
    findBest 8 ([.add 7 100 ⟨5, 1⟩, .add 8 101 ⟨1, 1⟩, .commit 100].foldl KOp.step Known.init) = some ⟨1, 1⟩ := ⟨rfl, rfl, rfl⟩

/-! ### C143 -/

variable {σ : Type}

/-- The solution of an input, if it has one. -/
def STx.sol (t : STx σ) (i : Nat) : Option σ :=
  match t.inputs[i]? with
  | none => none
  | some k => t.solutions[k]?

/-- Entries of the import map point to the solution of the other. -/
def ImOk (other sols : List σ) (im : List (Nat × Nat)) : Prop :=
  ∀ b k, found b im = some k → k < sols.length ∧ sols[k]? = other[b]?

/-- The solution with a number, if there is a number. -/
def solOf (other : List σ) : Option Nat → Option σ
  | none => none
  | some b => other[b]?

theorem prefix_get {l r : List σ} (h : l <+: r) {k : Nat} (hk : k < l.length) : r[k]? = l[k]? := by
  obtain ⟨t, rfl⟩ := h
  exact List.getElem?_append_left hk

theorem merge_spec (other : List σ) (n0 : Nat) : ∀ (as bs : List Nat) (im : List (Nat × Nat)) (sols : List σ),
    n0 ≤ sols.length → sols.length + as.length < 2 ^ 16 → (∀ a ∈ as, a < n0 ∨ a = 65535) → ImOk other sols im →
    sols <+: (mergeLoop other as bs im sols).2 ∧
    (mergeLoop other as bs im sols).2.length ≤ sols.length + as.length ∧
    (mergeLoop other as bs im sols).1.length = as.length ∧
    ∀ (i a : Nat), as[i]? = some a → ∃ k : Nat, (mergeLoop other as bs im sols).1[i]? = some k ∧
      (mergeLoop other as bs im sols).2[k]? =
        if a < n0 then sols[a]? else solOf other bs[i]?
  | [], bs, im, sols, _, _, _, _ => by
    unfold mergeLoop
    exact ⟨List.prefix_refl _, Nat.le_refl _, rfl, fun i a h => by rw [List.getElem?_nil] at h; cases h⟩
  | a :: as, [], im, sols, h0, hl, ha, _ => by
    unfold mergeLoop
    refine ⟨List.prefix_refl _, Nat.le_add_right _ _, rfl, fun i x h => ⟨x, h, ?_⟩⟩
    rw [List.getElem?_nil]
    rcases ha x (List.mem_of_getElem? h) with hx | hx
    · rw [if_pos hx]
    · subst hx
      by_cases k : 65535 < n0
      · rw [if_pos k]
      · rw [if_neg k]
        rw [List.length_cons] at hl
        exact List.getElem?_eq_none (l := sols) (by omega)
  | a :: as, b :: bs, im, sols, h0, hl, ha, him => by
    rw [List.length_cons] at hl
    have ha' : ∀ x ∈ as, x < n0 ∨ x = 65535 := fun x hx => ha x (List.mem_cons_of_mem _ hx)
    have same : ∀ (y : Nat), (∀ r : List σ, sols <+: r → r.length ≤ sols.length + as.length →
        r[y]? = if a < n0 then sols[a]? else other[b]?) →
        sols <+: (y :: (mergeLoop other as bs im sols).1, (mergeLoop other as bs im sols).2).2 ∧
        (y :: (mergeLoop other as bs im sols).1, (mergeLoop other as bs im sols).2).2.length ≤
          sols.length + (a :: as).length ∧
        (y :: (mergeLoop other as bs im sols).1, (mergeLoop other as bs im sols).2).1.length = (a :: as).length ∧
        ∀ (i x : Nat), (a :: as)[i]? = some x →
          ∃ k : Nat, (y :: (mergeLoop other as bs im sols).1, (mergeLoop other as bs im sols).2).1[i]? = some k ∧
          (y :: (mergeLoop other as bs im sols).1, (mergeLoop other as bs im sols).2).2[k]? =
            if x < n0 then sols[x]? else solOf other (b :: bs)[i]? := by
      intro y hy
      obtain ⟨r1, r2, r3, r4⟩ := merge_spec other n0 as bs im sols h0 (by omega) ha' him
      dsimp only
      refine ⟨r1, by rw [List.length_cons]; omega, by rw [List.length_cons, List.length_cons, r3], fun i x hx => ?_⟩
      cases i with
      | zero => cases hx; exact ⟨y, rfl, hy _ r1 r2⟩
      | succ i => exact r4 i x hx
    unfold mergeLoop
    cases hb : other[b]? with
    | none =>
      dsimp only
      refine same a fun r h1 h2 => ?_
      rw [hb]
      by_cases k : a < n0
      · rw [if_pos k]; exact prefix_get h1 (by omega)
      · rw [if_neg k]
        rcases ha a List.mem_cons_self with h | h
        · exact absurd h k
        · subst h; exact List.getElem?_eq_none (by omega)
    | some s =>
      dsimp only
      by_cases hu : sols.length ≤ a
      · rw [if_pos hu]
        have hn : ¬ a < n0 := by omega
        cases hf : found b im with
        | some k =>
          dsimp only
          refine same k fun r h1 _ => ?_
          obtain ⟨g1, g2⟩ := him b k hf
          rw [if_neg hn, prefix_get h1 g1, g2]
        | none =>
          dsimp only
          have hmod : sols.length % 2 ^ 16 = sols.length := Nat.mod_eq_of_lt (by omega)
          rw [hmod]
          have him' : ImOk other (sols ++ [s]) ((b, sols.length) :: im) := by
            intro b' k' hk
            unfold found at hk
            rw [List.length_append, List.length_singleton]
            by_cases e : b = b'
            · rw [if_pos e] at hk
              cases hk
              subst e
              exact ⟨by omega, by rw [List.getElem?_concat_length, hb]⟩
            · rw [if_neg e] at hk
              obtain ⟨g1, g2⟩ := him b' k' hk
              exact ⟨by omega, by rw [List.getElem?_append_left g1, g2]⟩
          obtain ⟨r1, r2, r3, r4⟩ := merge_spec other n0 as bs ((b, sols.length) :: im) (sols ++ [s])
            (by rw [List.length_append]; omega) (by rw [List.length_append, List.length_singleton]; omega) ha' him'
          rw [List.length_append, List.length_singleton] at r2
          refine ⟨(List.prefix_append _ _).trans r1, by rw [List.length_cons]; omega,
            by rw [List.length_cons, List.length_cons, r3], fun i x hx => ?_⟩
          cases i with
          | zero =>
            cases hx
            refine ⟨sols.length, rfl, ?_⟩
            rw [if_neg hn, prefix_get r1 (by rw [List.length_append, List.length_singleton]; omega),
              List.getElem?_concat_length]
            exact hb.symm
          | succ i =>
            obtain ⟨k, k1, k2⟩ := r4 i x hx
            refine ⟨k, k1, ?_⟩
            rw [k2]
            by_cases e : x < n0
            · rw [if_pos e, if_pos e]
              exact List.getElem?_append_left (by omega)
            · rw [if_neg e, if_neg e]
              rfl
      · rw [if_neg hu]
        refine same a fun r h1 _ => ?_
        have : a < n0 := by
          rcases ha a List.mem_cons_self with h | h
          · exact h
          · subst h; omega
        rw [if_pos this]
        exact prefix_get h1 (by omega)

/-- **C143.** After merging, every input has the solution it had, or, if it had none, the one it has in the other
    transaction, if it has one there; and all solutions are kept.  For inputs that have a solution or are marked to have none
    (65535), and fewer than 65536 solutions and inputs together. -/
theorem C143_merged_partial (us other : STx σ) (hl : us.solutions.length + us.inputs.length < 2 ^ 16)
    (ha : ∀ a ∈ us.inputs, a < us.solutions.length ∨ a = 65535) :
    (mergeSign us other).inputs.length = us.inputs.length ∧ us.solutions <+: (mergeSign us other).solutions ∧
    ∀ i, i < us.inputs.length → (mergeSign us other).sol i = (us.sol i).or (other.sol i) := by
  obtain ⟨r1, _, r3, r4⟩ := merge_spec other.solutions us.solutions.length us.inputs other.inputs [] us.solutions
    (Nat.le_refl _) hl ha (fun b k h => by unfold found at h; cases h)
  refine ⟨r3, r1, fun i hi => ?_⟩
  obtain ⟨k, k1, k2⟩ := r4 i us.inputs[i] (List.getElem?_eq_getElem hi)
  have e1 : (mergeSign us other).sol i = (mergeLoop other.solutions us.inputs other.inputs [] us.solutions).2[k]? := by
    unfold STx.sol mergeSign
    dsimp only
    rw [k1]
  have e2 : us.sol i = us.solutions[us.inputs[i]]? := by
    unfold STx.sol
    rw [List.getElem?_eq_getElem hi]
  rw [e1, k2, e2]
  by_cases h : us.inputs[i] < us.solutions.length
  · rw [if_pos h, List.getElem?_eq_getElem h]
    rfl
  · rw [if_neg h, List.getElem?_eq_none (Nat.not_lt.1 h)]
    rfl

/-- All inputs have solutions: `is_signed`, src/Transaction.cpp:285-294. -/
def STx.signed (t : STx σ) : Bool := t.inputs.all fun k => k < t.solutions.length

theorem signed_iff (t : STx σ) : t.signed = true ↔ ∀ i, i < t.inputs.length → t.sol i ≠ none := by
  unfold STx.signed
  rw [List.all_eq_true]
  constructor
  · intro h i hi
    unfold STx.sol
    rw [List.getElem?_eq_getElem hi]
    dsimp only
    have := of_decide_eq_true (h _ (List.getElem_mem hi))
    rw [List.getElem?_eq_getElem this]
    exact Option.some_ne_none _
  · intro h k hk
    obtain ⟨i, hi, rfl⟩ := List.mem_iff_getElem.1 hk
    have := h i hi
    unfold STx.sol at this
    rw [List.getElem?_eq_getElem hi] at this
    dsimp only at this
    refine decide_eq_true ?_
    by_cases k : t.inputs[i] < t.solutions.length
    · exact k
    · exact absurd (List.getElem?_eq_none (Nat.not_lt.1 k)) this

/-- **C143.** It is fully signed exactly if every input is signed in one of the two. -/
theorem C143_signed_partial (us other : STx σ) (hl : us.solutions.length + us.inputs.length < 2 ^ 16)
    (ha : ∀ a ∈ us.inputs, a < us.solutions.length ∨ a = 65535) :
    (mergeSign us other).signed = true ↔
      ∀ i, i < us.inputs.length → us.sol i ≠ none ∨ other.sol i ≠ none := by
  obtain ⟨h1, _, h3⟩ := C143_merged_partial us other hl ha
  rw [signed_iff, h1]
  refine forall_congr' fun i => forall_congr' fun hi => ?_
  rw [h3 i hi]
  cases us.sol i with
  | none => exact ⟨.inr, fun h => h.elim (fun h => absurd rfl h) id⟩
  | some x => exact ⟨fun _ => .inl (Option.some_ne_none _), fun _ => Option.some_ne_none _⟩

/-- **C143.** False for an input that names a solution that does not exist yet: once another one is imported, it takes that
    one for its own, and its own is not imported. -/
theorem C143_dangling : ∃ us other : STx Nat, us.sol 1 = none ∧ other.sol 1 = some 8 ∧
    (mergeSign us other).sol 1 = some 7 :=
  ⟨⟨[65535, 0], []⟩, ⟨[0, 1], [7, 8]⟩, rfl, rfl, by decide⟩

example : mergeSign (⟨[0, 65535, 65535, 65535], [5]⟩ : STx Nat) ⟨[0, 1, 1, 65535], [6, 7]⟩ =
    ⟨[0, 1, 1, 65535], [5, 7]⟩ := by rfl

end Verif.Rules
