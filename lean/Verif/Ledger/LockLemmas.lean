import Verif.Ledger.LocLemmas
/-
  What the context of a block holds after all transactions have been prepared.
-/
namespace Verif.Ledger
open Verif Verif.Chain

theorem mem_uniq {a : Addr} : ∀ {l : List Addr}, a ∈ uniq l ↔ a ∈ l
  | [] => Iff.rfl
  | b :: l => by
    unfold uniq
    split
    · next h =>
      rw [mem_uniq, List.mem_cons]
      constructor
      · exact .inr
      · rintro (rfl | h')
        · exact mem_uniq.1 h
        · exact h'
    · rw [List.mem_cons, List.mem_cons, mem_uniq]

theorem uniq_nodup : ∀ (l : List Addr), (uniq l).Nodup
  | [] => List.nodup_nil
  | b :: l => by
    unfold uniq
    split
    · exact uniq_nodup l
    · next h => exact List.nodup_cons.2 ⟨h, uniq_nodup l⟩

theorem map_inj {α β : Type} {f : α → β} : ∀ {l : List α}, (l.map f).Nodup → ∀ {i j : Nat} {a b : α}, l[i]? = some a → l[j]? = some b → f a = f b → i = j := by
  intro l h i j a b hi hj e
  have h1 : (l.map f)[i]? = some (f a) := by rw [List.getElem?_map, hi]; rfl
  have h2 : (l.map f)[j]? = some (f a) := by rw [List.getElem?_map, hj, e]; rfl
  exact (List.getElem?_inj (List.getElem?_eq_some_iff.1 h1).1 h).1 (h1.trans h2.symm)

theorem lockAll_mutate (id : Addr) : ∀ (l : List Addr) (x : Ctx), l.Nodup → ∀ c, (x.lockAll id l).mutate c = x.mutate c ++ if c ∈ l then [id] else []
  | [], x, _, c => by simp [Ctx.lockAll]
  | d :: l, x, h, c => by
    rw [Ctx.lockAll, lockAll_mutate id l _ (List.nodup_cons.1 h).2]
    have hd := (List.nodup_cons.1 h).1
    by_cases hc : c = d
    · subst hc
      simp [Ctx.lock, hd]
    · simp [Ctx.lock, hc]

theorem lockAll_wait_other {id j : Addr} (hj : j ≠ id) : ∀ (l : List Addr) (x : Ctx), (x.lockAll id l).wait j = x.wait j
  | [], x => rfl
  | d :: l, x => by
    rw [Ctx.lockAll, lockAll_wait_other hj l]
    simp [Ctx.lock, hj]

theorem lockAll_wait (id : Addr) : ∀ (l : List Addr) (x : Ctx), l.Nodup → ∀ p,
    p ∈ (x.lockAll id l).wait id ↔ p ∈ x.wait id ∨ ∃ c ∈ l, (x.mutate c).getLast? = some p
  | [], x, _, p => by simp [Ctx.lockAll]
  | d :: l, x, h, p => by
    rw [Ctx.lockAll, lockAll_wait id l _ (List.nodup_cons.1 h).2]
    have hd := (List.nodup_cons.1 h).1
    have hl : ∀ c ∈ l, (x.lock id d).mutate c = x.mutate c := by
      intro c hc
      have : c ≠ d := fun e => hd (e ▸ hc)
      simp [Ctx.lock, this]
    have hw : p ∈ (x.lock id d).wait id ↔ p ∈ x.wait id ∨ (x.mutate d).getLast? = some p := by
      cases e : (x.mutate d).getLast? with
      | none => simp [Ctx.lock, e]
      | some q =>
        simp only [Ctx.lock, e, if_true, List.mem_cons, Option.some.injEq]
        constructor
        · rintro (h | h)
          · exact .inr h.symm
          · exact .inl h
        · rintro (h | h)
          · exact .inr h
          · exact .inl h.symm
    rw [hw]
    constructor
    · rintro ((h | h) | ⟨c, hc, h⟩)
      · exact .inl h
      · exact .inr ⟨d, List.mem_cons_self .., h⟩
      · rw [hl c hc] at h; exact .inr ⟨c, List.mem_cons_of_mem _ hc, h⟩
    · rintro (k | ⟨c, hc, k⟩)
      · exact .inl (.inl k)
      · rcases List.mem_cons.1 hc with rfl | hc
        · exact .inl (.inr k)
        · exact .inr ⟨c, hc, by rw [hl c hc]; exact k⟩

/-- Ids of the transactions of `pre` that lock `c`. -/
def lockers (pre : List (Tx × List Addr)) (c : Addr) : List Addr := (pre.filter fun e => c ∈ e.2).map fun e => e.1.id

structure Sound (depends : Addr → Option (List Addr)) (x : Ctx) (pre : List (Tx × List Addr)) : Prop where
  mutate : ∀ c, x.mutate c = lockers pre c
  wait : ∀ j e, pre[j]? = some e → ∀ p, p ∈ x.wait e.1.id ↔ ∃ c ∈ e.2, (lockers (pre.take j) c).getLast? = some p
  fresh : ∀ id, (∀ e ∈ pre, e.1.id ≠ id) → x.wait id = []
  sets : ∀ e ∈ pre, ∃ set, mutateSet depends e.1 = .ok set ∧ ∀ c, c ∈ e.2 ↔ c ∈ set
  nodup : (pre.map fun e => e.1.id).Nodup

theorem Sound.empty (depends : Addr → Option (List Addr)) : Sound depends Ctx.empty [] :=
  ⟨fun _ => rfl, fun j e h => by simp at h, fun _ _ => rfl, fun _ h => (nomatch h), List.nodup_nil⟩

theorem lockers_append (a b : List (Tx × List Addr)) (c : Addr) : lockers (a ++ b) c = lockers a c ++ lockers b c := by
  simp [lockers]

theorem Sound.prepare {depends : Addr → Option (List Addr)} {x y : Ctx} {pre : List (Tx × List Addr)} {tx : Tx} (h : Sound depends x pre)
    (hn : ∀ e ∈ pre, e.1.id ≠ tx.id) (hp : x.prepare depends tx = .ok y) :
    ∃ set, Sound depends y (pre ++ [(tx, set)]) := by
  unfold Ctx.prepare at hp
  cases hm : mutateSet depends tx with
  | throw => rw [hm] at hp; cases hp
  | ub => rw [hm] at hp; cases hp
  | ok set =>
    rw [hm] at hp
    have hy : y = x.lockAll tx.id (uniq set) := (Res.ok.inj hp).symm
    subst hy
    have hnd : (uniq set).Nodup := uniq_nodup _
    refine ⟨(uniq set), ⟨fun c => ?_, fun j e he p => ?_, fun id hid => ?_, fun e he => ?_, ?_⟩⟩
    · rw [lockAll_mutate _ _ _ hnd, lockers_append, h.mutate]
      by_cases hc : c ∈ (uniq set) <;> simp [lockers, hc]
    · rcases Nat.lt_or_ge j pre.length with hj | hj
      · rw [List.getElem?_append_left hj] at he
        have hne : e.1.id ≠ tx.id := hn e (List.mem_of_getElem? he)
        rw [lockAll_wait_other hne, List.take_append_of_le_length (Nat.le_of_lt hj)]
        exact h.wait j e he p
      · rw [List.getElem?_append_right hj] at he
        have hj0 : j - pre.length = 0 := by
          rcases Nat.eq_zero_or_pos (j - pre.length) with h | h
          · exact h
          · rw [List.getElem?_eq_none (by simp; omega)] at he; cases he
        rw [hj0] at he
        cases he
        have hjl : j = pre.length := by omega
        subst hjl
        rw [lockAll_wait _ _ _ hnd, h.fresh _ hn, List.take_left']
        · simp [h.mutate]
        · rfl
    · have h1 := h.fresh id fun e he => hid e (List.mem_append_left _ he)
      have h2 : id ≠ tx.id := fun e => hid (tx, (uniq set)) (by simp) e.symm
      rw [lockAll_wait_other h2, h1]
    · rcases List.mem_append.1 he with he | he
      · exact h.sets e he
      · rw [List.mem_singleton.1 he]
        exact ⟨set, hm, fun c => mem_uniq⟩
    · rw [List.map_append, List.nodup_append]
      refine ⟨h.nodup, by simp, ?_⟩
      intro a ha b hb
      obtain ⟨e, he, rfl⟩ := List.mem_map.1 ha
      rw [List.mem_singleton.1 hb]
      exact hn e he

theorem checkFunds_sound {depends : Addr → Option (List Addr)} {y : Ctx} : ∀ (txs : List Tx) (b : Bals) (x : Ctx) (seen : List Addr) (pre : List (Tx × List Addr)),
    Sound depends x pre → (∀ e ∈ pre, e.1.id ∈ seen) → checkFunds depends b x seen txs = .ok y →
    ∃ more, more.map (·.1) = txs ∧ Sound depends y (pre ++ more)
  | [], b, x, seen, pre, h, hs, hc => ⟨[], rfl, by rw [List.append_nil, ← Res.ok.inj hc]; exact h⟩
  | tx :: txs, b, x, seen, pre, h, hs, hc => by
    unfold checkFunds at hc
    split at hc
    · split at hc
      · cases hc
      · next hid =>
        split at hc
        · cases hc
        · split at hc
          · cases hc
          · next b'' _ =>
            cases hp : x.prepare depends tx with
            | throw => rw [hp] at hc; cases hc
            | ub => rw [hp] at hc; cases hc
            | ok x' =>
              rw [hp] at hc
              obtain ⟨set, hx'⟩ := h.prepare (fun e he e1 => hid (e1 ▸ hs e he)) hp
              obtain ⟨more, h1, h2⟩ := checkFunds_sound txs b'' x' (tx.id :: seen) _ hx' (fun e he => by
                rcases List.mem_append.1 he with he | he
                · exact List.mem_cons_of_mem _ (hs e he)
                · rw [List.mem_singleton.1 he]; exact List.mem_cons_self ..) hc
              exact ⟨(tx, set) :: more, by rw [List.map_cons, h1], by simpa using h2⟩
    · cases hc

/-- Whether transaction `i` holds the lock of `c`. -/
def Lk (x : Ctx) (txs : List Tx) (i : Nat) (c : Addr) : Prop := ∃ tx, txs[i]? = some tx ∧ tx.id ∈ x.mutate c

/-- What the proofs about blocks need of a context. -/
structure Ready (x : Ctx) (txs : List Tx) : Prop where
  nodup : (txs.map (·.id)).Nodup
  ops : ∀ tx ∈ txs, ∀ o ∈ tx.ops, tx.id ∈ x.mutate (if o.addr = 0 then tx.id else o.addr)
  deploy : ∀ tx ∈ txs, tx.deploy.isSome = true → tx.id ∈ x.mutate tx.id
  order : ∀ i j c tx, i < j → Lk x txs i c → txs[j]? = some tx → tx.id ∈ x.mutate c →
    ∃ (p : Nat) (t : Tx), i ≤ p ∧ p < j ∧ Lk x txs p c ∧ txs[p]? = some t ∧ t.id ∈ x.wait tx.id
  back : ∀ j tx q, txs[j]? = some tx → q ∈ x.wait tx.id → ∃ (p : Nat) (t : Tx), p < j ∧ txs[p]? = some t ∧ t.id = q

theorem getLast?_filter_take {α : Type} {f : α → Bool} : ∀ {l : List α} {i j : Nat} {a : α}, i < j → l[i]? = some a → f a = true →
    ∃ p b, i ≤ p ∧ p < j ∧ l[p]? = some b ∧ f b = true ∧ ((l.take j).filter f).getLast? = some b := by
  intro l i j a hij hi hf
  induction j with
  | zero => omega
  | succ j ih =>
    cases hj : l[j]? with
    | none =>
      have hlen : l.length ≤ j := List.getElem?_eq_none_iff.1 hj
      have hil : i < l.length := (List.getElem?_eq_some_iff.1 hi).1
      have : l.take (j + 1) = l.take j := by rw [List.take_of_length_le hlen, List.take_of_length_le (by omega)]
      rw [this]
      obtain ⟨p, b, h1, h2, h3⟩ := ih (by omega)
      exact ⟨p, b, h1, by omega, h3⟩
    | some b =>
      have ht : l.take (j + 1) = l.take j ++ [b] := by
        rw [List.take_add_one, hj]; rfl
      by_cases hb : f b = true
      · refine ⟨j, b, by omega, by omega, hj, hb, ?_⟩
        rw [ht, List.filter_append]
        simp [hb]
      · have hne : i ≠ j := by rintro rfl; rw [hj] at hi; cases hi; exact hb hf
        obtain ⟨p, b', h1, h2, h3, h4, h5⟩ := ih (by omega)
        refine ⟨p, b', h1, by omega, h3, h4, ?_⟩
        rw [ht, List.filter_append]
        simp [hb, h5]

theorem Sound.ready {depends : Addr → Option (List Addr)} {x : Ctx} {pre : List (Tx × List Addr)} (h : Sound depends x pre) : Ready x (pre.map (·.1)) := by
  have hset : ∀ e ∈ pre, ∀ c, (e.1.deploy.isSome = true ∧ c = e.1.id ∨ ∃ o ∈ e.1.ops, c = if o.addr = 0 then e.1.id else o.addr) → e.1.id ∈ x.mutate c := by
    intro e he c hc
    obtain ⟨set, h1, h2⟩ := h.sets e he
    have hcs : c ∈ set := by
      unfold mutateSet at h1
      by_cases hn : e.1.nullOp
      · rw [if_pos hn] at h1; cases h1
      · rw [if_neg hn] at h1
        dsimp only at h1
        generalize (List.map _ _ : List (Option (List Addr))) = more at h1
        split at h1
        · rw [← Res.ok.inj h1]
          refine List.mem_append_left _ ?_
          rcases hc with ⟨hd, rfl⟩ | ⟨o, ho, rfl⟩
          · refine List.mem_append_left _ ?_
            rw [if_pos hd]; exact List.mem_singleton.2 rfl
          · exact List.mem_append_right _ (List.mem_map.2 ⟨o, ho, rfl⟩)
        · cases h1
    rw [h.mutate]
    exact List.mem_map.2 ⟨e, List.mem_filter.2 ⟨he, by simpa using (h2 c).2 hcs⟩, rfl⟩
  have hlk : ∀ (i : Nat) (e : Tx × List Addr) (c : Addr), pre[i]? = some e → e.1.id ∈ x.mutate c → c ∈ e.2 := by
    intro i e c hi hm
    rw [h.mutate] at hm
    obtain ⟨e', he', hid⟩ := List.mem_map.1 hm
    obtain ⟨h1, h2⟩ := List.mem_filter.1 he'
    obtain ⟨k, hk⟩ := List.getElem?_of_mem h1
    have : k = i := map_inj h.nodup hk hi hid
    subst this
    rw [hi] at hk; cases hk
    simpa using h2
  refine ⟨by rw [List.map_map]; exact h.nodup, ?_, ?_, ?_, ?_⟩
  · intro tx htx o ho
    obtain ⟨e, he, rfl⟩ := List.mem_map.1 htx
    exact hset e he _ (.inr ⟨o, ho, rfl⟩)
  · intro tx htx hd
    obtain ⟨e, he, rfl⟩ := List.mem_map.1 htx
    exact hset e he _ (.inl ⟨hd, rfl⟩)
  · rintro i j c tx hij ⟨t, hi, hti⟩ hj htj
    rw [List.getElem?_map] at hi hj
    obtain ⟨ei, hi', rfl⟩ := Option.map_eq_some_iff.1 hi
    obtain ⟨ej, hj', rfl⟩ := Option.map_eq_some_iff.1 hj
    have h1 := hlk i ei c hi' hti
    have h2 := hlk j ej c hj' htj
    obtain ⟨p, b, k1, k2, k3, k4, k5⟩ := getLast?_filter_take (f := fun e : Tx × List Addr => decide (c ∈ e.2)) hij hi' (by simpa using h1)
    refine ⟨p, b.1, k1, k2, ⟨b.1, by rw [List.getElem?_map, k3]; rfl, ?_⟩, by rw [List.getElem?_map, k3]; rfl, ?_⟩
    · rw [h.mutate]
      exact List.mem_map.2 ⟨b, List.mem_filter.2 ⟨List.mem_of_getElem? k3, k4⟩, rfl⟩
    · refine (h.wait j ej hj' _).2 ⟨c, h2, ?_⟩
      unfold lockers
      rw [List.getLast?_map, k5]; rfl
  · intro j tx q hj hq
    rw [List.getElem?_map] at hj
    obtain ⟨ej, hj', rfl⟩ := Option.map_eq_some_iff.1 hj
    obtain ⟨c, _, hc⟩ := (h.wait j ej hj' q).1 hq
    have hm : q ∈ lockers (pre.take j) c := List.mem_of_getLast? hc
    obtain ⟨e, he, rfl⟩ := List.mem_map.1 hm
    obtain ⟨p, hp⟩ := List.getElem?_of_mem (List.mem_filter.1 he).1
    rw [List.getElem?_take] at hp
    split at hp
    · next hpj => exact ⟨p, e.1, hpj, by rw [List.getElem?_map, hp]; rfl, rfl⟩
    · cases hp

/-- A block that passes the first loop of `validate` has a context in which locks are held in order. -/
theorem checkFunds_ready {depends : Addr → Option (List Addr)} {b : Bals} {x : Ctx} {txs : List Tx} (h : checkFunds depends b Ctx.empty [] txs = .ok x) : Ready x txs := by
  obtain ⟨more, h1, h2⟩ := checkFunds_sound txs b Ctx.empty [] [] (Sound.empty _) (fun _ h => nomatch h) h
  have := h2.ready
  rw [List.nil_append, h1] at this
  exact this

theorem Ready.locked {x : Ctx} {txs : List Tx} (h : Ready x txs) (w : World) {tx : Tx} (ht : tx ∈ txs) : Locked (w.withCtx x) tx :=
  ⟨fun o ho => by simpa [World.withCtx] using h.ops tx ht o ho, fun hd => by simpa [World.withCtx] using h.deploy tx ht hd⟩

end Verif.Ledger
