import Verif.DB.Typed
import Verif.DB.PropsIter
import Verif.DB.PropsKeys

/-!
# Lemmas about typed tables
-/

namespace Verif.DB

variable {V W : Type}

/-- The first elements up to a limit. -/
def takeL {α : Type} (limit : Option Nat) (l : List α) : List α :=
  match limit with
  | none => l
  | some n => l.take n

/-- The query loop reads the scanned list up to the first key to stop at. -/
theorem queryLoop_eq {t : Table DbKey V} {fwd : Bool} {keep : DbKey → Option Bool}
    {out : DbKey → V → Option W} {limit : Option Nat} {n : Nat} {it : Iter DbKey V}
    {L : List (DbKey × V)} (hc : t.collect fwd n it = some L) (hk : ∀ kv ∈ L, keep kv.1 ≠ none)
    (acc : List W) :
    t.queryLoop fwd keep out limit n it acc =
      some (acc ++ takeL (limit.map (· - acc.length))
        ((L.takeWhile fun kv => keep kv.1 == some true).filterMap fun kv => out kv.1 kv.2)) := by
  induction n generalizing it L acc with
  | zero =>
    unfold Table.collect at hc
    unfold Table.queryLoop
    cases hcur : it.current with
    | none =>
      rw [hcur] at hc
      injection hc with hc
      subst hc
      cases limit <;> simp [takeL]
    | some e => rw [hcur] at hc; cases hc
  | succ n ih =>
    unfold Table.collect at hc
    unfold Table.queryLoop
    cases hcur : it.current with
    | none =>
      rw [hcur] at hc
      injection hc with hc
      subst hc
      cases limit <;> simp [takeL]
    | some e =>
      rw [hcur] at hc
      dsimp only at hc ⊢
      cases hs : (if fwd then t.next it else t.prev it) with
      | none => rw [hs] at hc; cases hc
      | some it' =>
        rw [hs] at hc
        dsimp only at hc
        cases hcc : t.collect fwd n it' with
        | none => rw [hcc] at hc; cases hc
        | some L' =>
          rw [hcc, Option.map_some] at hc
          injection hc with hc
          subst hc
          by_cases hl : underLimit limit acc.length = true
          · rw [if_pos hl]
            cases hke : keep e.key with
            | none => exact absurd hke (hk (e.key, e.val) (List.mem_cons_self))
            | some b =>
              cases b with
              | false =>
                simp only [List.takeWhile_cons, hke]
                cases limit <;> simp [takeL]
              | true =>
                dsimp only
                rw [ih hcc (fun kv hkv => hk kv (List.mem_cons_of_mem _ hkv))]
                simp only [List.takeWhile_cons, hke, beq_self_eq_true, if_true, List.filterMap_cons]
                cases ho : out e.key e.val with
                | none => simp
                | some x =>
                  cases limit with
                  | none => simp [takeL]
                  | some l =>
                    have hl' : acc.length < l := by simpa [underLimit] using hl
                    have e1 : l - acc.length = (l - (acc.length + 1)) + 1 := by omega
                    simp only [Option.toList, Option.map_some, takeL, List.length_append,
                      List.length_cons, List.length_nil, Nat.zero_add, List.append_assoc,
                      List.singleton_append]
                    rw [e1, List.take_succ_cons]
          · rw [if_neg hl]
            cases limit with
            | none => simp [underLimit] at hl
            | some l =>
              have : l - acc.length = 0 := by
                have : ¬ acc.length < l := by simpa [underLimit] using hl
                omega
              simp [takeL, this]

/-- Sorted lists with the same elements are equal. -/
theorem sorted_ext {α : Type} {r : α → α → Prop} (hirr : ∀ a, ¬ r a a)
    (hasym : ∀ a b, r a b → ¬ r b a) {X Y : List α} (hX : X.Pairwise r) (hY : Y.Pairwise r)
    (h : ∀ a, a ∈ X ↔ a ∈ Y) : X = Y := by
  induction X generalizing Y with
  | nil =>
    cases Y with
    | nil => rfl
    | cons y ys => exact absurd ((h y).2 List.mem_cons_self) (by simp)
  | cons x xs ih =>
    cases Y with
    | nil => exact absurd ((h x).1 List.mem_cons_self) (by simp)
    | cons y ys =>
      rw [List.pairwise_cons] at hX hY
      have hxy : x = y := by
        rcases List.mem_cons.1 ((h x).1 List.mem_cons_self) with e | e
        · exact e
        · rcases List.mem_cons.1 ((h y).2 List.mem_cons_self) with e' | e'
          · exact e'.symm
          · exact absurd (hY.1 x e) (hasym _ _ (hX.1 y e'))
      subst hxy
      rw [ih hX.2 hY.2]
      intro a
      constructor
      · intro ha
        rcases List.mem_cons.1 ((h a).1 (List.mem_cons_of_mem _ ha)) with e | e
        · rw [e] at ha; exact absurd (hX.1 x ha) (hirr x)
        · exact e
      · intro ha
        rcases List.mem_cons.1 ((h a).2 (List.mem_cons_of_mem _ ha)) with e | e
        · rw [e] at ha; exact absurd (hY.1 x ha) (hirr x)
        · exact e

theorem takeWhile_eq_filter {α : Type} {r : α → α → Prop} {p : α → Bool} {L : List α}
    (hL : L.Pairwise r) (hp : ∀ a ∈ L, ∀ b ∈ L, r a b → p b = true → p a = true) :
    L.takeWhile p = L.filter p := by
  induction L with
  | nil => rfl
  | cons x xs ih =>
    rw [List.pairwise_cons] at hL
    rw [List.takeWhile_cons, List.filter_cons]
    by_cases hx : p x = true
    · rw [if_pos hx, if_pos hx, ih hL.2 (fun a ha b hb => hp a (List.mem_cons_of_mem _ ha) b
        (List.mem_cons_of_mem _ hb))]
    · rw [if_neg hx, if_neg hx]
      symm
      rw [List.filter_eq_nil_iff]
      intro b hb hpb
      exact hx (hp x List.mem_cons_self b (List.mem_cons_of_mem _ hb) (hL.1 b hb) hpb)

theorem filterMap_congr' {α β : Type} {f g : α → Option β} {l : List α} (h : ∀ a ∈ l, f a = g a) :
    l.filterMap f = l.filterMap g := by
  induction l with
  | nil => rfl
  | cons x xs ih =>
    rw [List.filterMap_cons, List.filterMap_cons, h x List.mem_cons_self,
      ih fun a ha => h a (List.mem_cons_of_mem _ ha)]

/-! ### typed histories -/

/-- All writes use keys of the type. -/
def TypedKeys (T : KeyType) (s : Spec DbKey V) : Prop := ∀ w ∈ s.writes, ∃ a, w.key = T.key a

theorem find_mem {K : Type} [LinearOrder K] {s : Spec K V} {k : K} {m : Nat} {v : V}
    (h : s.find k m = some v) : ∃ w ∈ s.writes, w.key = k ∧ w.val = v := by
  unfold Spec.find at h
  rw [Option.map_eq_some_iff] at h
  obtain ⟨w, hw, rfl⟩ := h
  have := List.mem_of_getLast? hw
  rw [List.mem_filter] at this
  exact ⟨w, this.1, (of_decide_eq_true this.2).1, rfl⟩

theorem typed_read {T : KeyType} (hT : T.Faithful) {s : Spec DbKey V} (hs : TypedKeys T s) {k : DbKey}
    {v : V} (h : s.find k u32max = some v) : ∃ a, k = T.key a ∧ T.read k.bytes = some a := by
  obtain ⟨w, hw, hk, _⟩ := find_mem h
  obtain ⟨a, ha⟩ := hs w hw
  refine ⟨a, hk ▸ ha, ?_⟩
  rw [← hk, ha]
  exact hT.read_write a

theorem key_le {T : KeyType} (hT : T.Faithful) (a b : T.Val) :
    T.key a ≤ T.key b ↔ ¬ T.lt b a = true := by
  rw [← hT.order, not_lt]

theorem key_eq {T : KeyType} (hT : T.Faithful) {k : DbKey} {a : T.Val}
    (h : T.read k.bytes = some a) : k = T.key a := by
  cases k
  rw [KeyType.key, DbKey.mk.injEq]
  exact (hT.write_read _ _ h).symm

theorem readBoth_some {T : KeyType} {rd : V → Option W} {k : DbKey} {v : V} {x : T.Val × W} :
    readBoth T rd k v = some x ↔ T.read k.bytes = some x.1 ∧ rd v = some x.2 := by
  unfold readBoth
  cases T.read k.bytes with
  | none => simp
  | some a =>
    cases rd v with
    | none => simp
    | some w =>
      obtain ⟨x1, x2⟩ := x
      simp

/-- A query in either direction, stopping at the first key outside a set that is closed towards the
start of the scan. -/
theorem query_spec {T : KeyType} (hT : T.Faithful) {rd : V → Option W} {t : Table DbKey V}
    {s : Spec DbKey V} (h : Refines t s) (hs : TypedKeys T s) (fwd : Bool) (start : T.Val)
    (p : T.Val → Bool)
    (hp : ∀ a b, (if fwd then T.lt a b = true else T.lt b a = true) →
      Sel fwd (some (T.key start)) (T.key a) → p b = true → p a = true) :
    ∃ it, t.seekMode (some (T.key start)) (if fwd then 0 else -1) = some it ∧
    ∃ (n : Nat) (R : List (T.Val × W)),
      R.Pairwise (fun x y => if fwd then T.lt x.1 y.1 = true else T.lt y.1 x.1 = true) ∧
      (∀ a x, (a, x) ∈ R ↔ Sel fwd (some (T.key start)) (T.key a) ∧ p a = true ∧
        ∃ v, s.find (T.key a) u32max = some v ∧ rd v = some x) ∧
      (∀ limit, t.queryLoop fwd (fun k => (T.read k.bytes).map p) (readBoth T rd) limit n it [] =
        some (takeL limit R)) ∧
      (∀ limit, t.queryLoop fwd (fun k => (T.read k.bytes).map p) (fun _ v => rd v) limit n it [] =
        some ((takeL limit R).map Prod.snd)) ∧
      (∀ (X : Type) (f : T.Val × W → X) limit,
        t.queryLoop fwd (fun k => (T.read k.bytes).map p) (fun k v => (readBoth T rd k v).map f)
          limit n it [] = some ((takeL limit R).map f)) := by
  obtain ⟨it, h1, n, L, h2, h3, h4⟩ := scan_lists h fwd (some (T.key start))
  have hread : ∀ kv ∈ L, ∃ a, kv.1 = T.key a ∧ T.read kv.1.bytes = some a := by
    intro kv hkv
    exact typed_read hT hs ((h4 kv.1 kv.2).1 hkv).2
  have hk : ∀ kv ∈ L, (fun k : DbKey => (T.read k.bytes).map p) kv.1 ≠ none := by
    intro kv hkv
    obtain ⟨a, _, ha⟩ := hread kv hkv
    simp [ha]
  have htw : (L.takeWhile fun kv => (fun k : DbKey => (T.read k.bytes).map p) kv.1 == some true) =
      L.filter fun kv => (fun k : DbKey => (T.read k.bytes).map p) kv.1 == some true := by
    refine takeWhile_eq_filter h3 ?_
    intro x hx y hy hxy hpy
    obtain ⟨a, hka, ha⟩ := hread x hx
    obtain ⟨b, hkb, hb⟩ := hread y hy
    simp only [ha, hb, Option.map_some, beq_iff_eq, Option.some.injEq] at hpy ⊢
    refine hp a b ?_ ?_ hpy
    · rw [hka, hkb] at hxy
      cases fwd with
      | true => simpa [Ord, hT.order] using hxy
      | false => simpa [Ord, hT.order] using hxy
    · rw [← hka]; exact ((h4 x.1 x.2).1 hx).1
  refine ⟨it, h1, n, (L.filter fun kv => (fun k : DbKey => (T.read k.bytes).map p) kv.1 == some true).filterMap
    (fun kv => readBoth T rd kv.1 kv.2), ?_, ?_, ?_, ?_, ?_⟩
  · refine List.Pairwise.filterMap _ ?_ (h3.filter _)
    intro x y hxy a ha b hb
    rw [readBoth_some] at ha hb
    rw [key_eq hT ha.1, key_eq hT hb.1] at hxy
    cases fwd with
    | true => simpa [Ord, hT.order] using hxy
    | false => simpa [Ord, hT.order] using hxy
  · intro a x
    simp only [List.mem_filterMap, List.mem_filter, beq_iff_eq, readBoth_some]
    constructor
    · rintro ⟨⟨k, v⟩, ⟨hL, hpk⟩, hr, hv⟩
      dsimp only at hpk hr hv
      rw [hr] at hpk
      have hf := (h4 k v).1 hL
      rw [key_eq hT hr] at hf
      exact ⟨hf.1, by simpa using hpk, v, hf.2, hv⟩
    · rintro ⟨hsel, hpa, v, hf, hv⟩
      have hr : T.read (T.key a).bytes = some a := hT.read_write a
      exact ⟨(T.key a, v), ⟨(h4 _ _).2 ⟨hsel, hf⟩, by simp [hr, hpa]⟩, hr, hv⟩
  · intro limit
    rw [queryLoop_eq h2 hk, htw]
    cases limit <;> simp [takeL]
  · intro limit
    rw [queryLoop_eq h2 hk, htw]
    have e : (L.filter fun kv => (fun k : DbKey => (T.read k.bytes).map p) kv.1 == some true).filterMap
          (fun kv => rd kv.2) =
        ((L.filter fun kv => (fun k : DbKey => (T.read k.bytes).map p) kv.1 == some true).filterMap
          (fun kv => readBoth T rd kv.1 kv.2)).map Prod.snd := by
      rw [List.map_filterMap]
      refine filterMap_congr' ?_
      intro kv hkv
      obtain ⟨a, _, ha⟩ := hread kv (List.mem_filter.1 hkv).1
      unfold readBoth
      rw [ha]
      cases rd kv.2 <;> rfl
    cases limit with
    | none => simp [takeL, e]
    | some l => simp [takeL, e, List.map_take]
  · intro X f limit
    rw [queryLoop_eq h2 hk, htw]
    cases limit with
    | none => simp [takeL, List.map_filterMap]
    | some l => simp [takeL, List.map_filterMap, List.map_take]

theorem current_of_collect {K : Type} [LinearOrder K] {t : Table K V} {fwd : Bool} {n : Nat}
    {it : Iter K V} {L : List (K × V)} (h : t.collect fwd n it = some L) :
    it.current.map (fun e => (e.key, e.val)) = L.head? := by
  unfold Table.collect at h
  cases hcur : it.current with
  | none =>
    rw [hcur] at h
    injection h with h
    subst h
    rfl
  | some e =>
    rw [hcur] at h
    cases n with
    | zero => cases h
    | succ n =>
      dsimp only at h
      cases hs : (if fwd then t.next it else t.prev it) with
      | none => rw [hs] at h; cases h
      | some it' =>
        rw [hs] at h
        dsimp only at h
        cases hcc : t.collect fwd n it' with
        | none => rw [hcc] at h; cases h
        | some L' =>
          rw [hcc, Option.map_some] at h
          injection h with h
          subst h
          rfl

end Verif.DB
