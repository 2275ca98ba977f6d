/-
  C139: the dependencies of a contract.
-/
import Verif.Rules.Depends

namespace Verif.Rules

theorem mem_union : ∀ {s l : List Nat} {b : Nat}, b ∈ union s l ↔ b ∈ s ∨ b ∈ l
  | s, [], b => by unfold union; exact ⟨.inl, fun h => h.elim id (fun h => absurd h List.not_mem_nil)⟩
  | s, a :: l, b => by
    unfold union
    rw [mem_union, List.mem_cons]
    by_cases h : a ∈ s
    · rw [if_pos h]
      constructor
      · rintro (h1 | h1)
        · exact .inl h1
        · exact .inr (.inr h1)
      · rintro (h1 | rfl | h1)
        · exact .inl h1
        · exact .inl h
        · exact .inr h1
    · rw [if_neg h, List.mem_append, List.mem_singleton, or_assoc]

theorem nodup_union : ∀ {s l : List Nat}, s.Nodup → (union s l).Nodup
  | s, [], h => h
  | s, a :: l, h => by
    unfold union
    refine nodup_union ?_
    by_cases k : a ∈ s
    · rw [if_pos k]; exact h
    · rw [if_neg k]
      refine List.nodup_append.2 ⟨h, List.nodup_cons.2 ⟨List.not_mem_nil, List.nodup_nil⟩, ?_⟩
      intro x hx y hy e
      rw [List.mem_singleton] at hy
      subst hy
      subst e
      exact k hx

theorem each_ok {f : Nat → Option Done} {R : Nat → Nat → Prop} : ∀ {l out : List Nat} {n : Nat} {t : List Nat},
    (∀ a ∈ l, ∀ n t, f a = some ⟨n, some t⟩ → ∀ b, b ∈ t ↔ R a b) → out.Nodup → each f l out = some ⟨n, some t⟩ →
    t.Nodup ∧ (∀ b, b ∈ t ↔ b ∈ out ∨ ∃ a ∈ l, R a b) ∧ ∀ a ∈ l, ∃ n u, f a = some ⟨n, some u⟩
  | [], out, n, t, _, ho, e => by
    unfold each at e
    cases e
    exact ⟨ho, fun b => ⟨.inl, fun h => h.elim id (fun ⟨_, h, _⟩ => absurd h List.not_mem_nil)⟩,
      fun _ h => absurd h List.not_mem_nil⟩
  | a :: l, out, n, t, hf, ho, e => by
    unfold each at e
    cases hfa : f a with
    | none => rw [hfa] at e; cases e
    | some r =>
      obtain ⟨m, u⟩ := r
      rw [hfa] at e
      cases u with
      | none => cases e
      | some u =>
        dsimp only at e
        cases hr : each f l (union out u) with
        | none => rw [hr] at e; cases e
        | some r =>
          obtain ⟨k, v⟩ := r
          rw [hr] at e
          dsimp only at e
          have e := Option.some.inj e
          have e2 : v = some t := (Done.mk.inj e).2
          subst e2
          obtain ⟨h1, h2, h3⟩ := each_ok (fun a' h => hf a' (List.mem_cons_of_mem _ h)) (nodup_union ho) hr
          refine ⟨h1, fun b => ?_, fun a' h => ?_⟩
          · rw [h2, mem_union, hf a List.mem_cons_self _ _ hfa b]
            constructor
            · rintro ((h | h) | ⟨x, h, k⟩)
              · exact .inl h
              · exact .inr ⟨a, List.mem_cons_self, h⟩
              · exact .inr ⟨x, List.mem_cons_of_mem _ h, k⟩
            · rintro (h | ⟨x, h, k⟩)
              · exact .inl (.inl h)
              · rcases List.mem_cons.1 h with rfl | h
                · exact .inl (.inr k)
                · exact .inr ⟨x, h, k⟩
          · rcases List.mem_cons.1 h with rfl | h
            · exact ⟨_, _, hfa⟩
            · exact h3 a' h

theorem each_throw {f : Nat → Option Done} : ∀ {l out : List Nat} {n : Nat}, each f l out = some ⟨n, none⟩ →
    ∃ a ∈ l, ∃ n, f a = some ⟨n, none⟩
  | [], out, n, e => by unfold each at e; cases e
  | a :: l, out, n, e => by
    unfold each at e
    cases hfa : f a with
    | none => rw [hfa] at e; cases e
    | some r =>
      obtain ⟨m, u⟩ := r
      cases u with
      | none => exact ⟨a, List.mem_cons_self, m, hfa⟩
      | some u =>
        rw [hfa] at e
        dsimp only at e
        cases hr : each f l (union out u) with
        | none => rw [hr] at e; cases e
        | some r =>
          obtain ⟨k, v⟩ := r
          rw [hr] at e
          have e2 : v = none := (Done.mk.inj (Option.some.inj e)).2
          subst e2
          obtain ⟨x, h, k⟩ := each_throw hr
          exact ⟨x, List.mem_cons_of_mem _ h, k⟩

theorem limits_some {L : Lim} {d : Nat} {out t : List Nat} (h : limits L d out = some t) :
    t = out ∧ (out = [] ∨ d ≤ L.depth) ∧ out.length ≤ L.width := by
  unfold limits at h
  by_cases h1 : out ≠ [] ∧ L.depth < d
  · rw [if_pos h1] at h; cases h
  · rw [if_neg h1] at h
    by_cases h2 : L.width < out.length
    · rw [if_pos h2] at h; cases h
    · rw [if_neg h2] at h
      refine ⟨(Option.some.inj h).symm, ?_, Nat.not_lt.1 h2⟩
      by_cases k : out = []
      · exact .inl k
      · exact .inr (Nat.not_lt.1 fun z => h1 ⟨k, z⟩)

theorem limits_none {L : Lim} {d : Nat} {out : List Nat} (h : limits L d out = none) :
    (out ≠ [] ∧ L.depth < d) ∨ L.width < out.length := by
  unfold limits at h
  by_cases h1 : out ≠ [] ∧ L.depth < d
  · exact .inl h1
  · rw [if_neg h1] at h
    by_cases h2 : L.width < out.length
    · exact .inr h2
    · rw [if_neg h2] at h; cases h

theorem Reach.head {g : Deps} {a c : Nat} (h : Reach g a c) : ∃ l, g a = some l ∧ ∃ b ∈ l, b = c ∨ Reach g b c := by
  cases h with
  | one h1 h2 => exact ⟨_, h1, _, h2, .inl rfl⟩
  | step h1 h2 h3 => exact ⟨_, h1, _, h2, .inr h3⟩

/-- **C139.** What `get_all_depends` gives are exactly the contracts that can be called, directly or through others,
    each once. -/
theorem C139_dependencies (g : Deps) (L : Lim) : ∀ {fuel a d n : Nat} {out : List Nat},
    allDeps g L fuel a d = some ⟨n, some out⟩ → out.Nodup ∧ ∀ b, b ∈ out ↔ Reach g a b
  | 0, _, _, _, _, h => by unfold allDeps at h; cases h
  | fuel + 1, a, d, n, out, h => by
    unfold allDeps at h
    cases hg : g a with
    | none =>
      rw [hg] at h
      have : some [] = some out := (Done.mk.inj (Option.some.inj h)).2
      cases this
      refine ⟨List.nodup_nil, fun b => ⟨fun h => absurd h List.not_mem_nil, fun h => ?_⟩⟩
      obtain ⟨l, h1, _⟩ := h.head
      rw [hg] at h1
      cases h1
    | some l =>
      rw [hg] at h
      dsimp only at h
      cases he : each (fun b => allDeps g L fuel b (d + 1)) l [] with
      | none => rw [he] at h; cases h
      | some r =>
        obtain ⟨m, t⟩ := r
        rw [he] at h
        have h := (Done.mk.inj (Option.some.inj h)).2
        cases t with
        | none => cases h
        | some t =>
          dsimp only at h
          obtain ⟨h1, _, _⟩ := limits_some h
          subst h1
          obtain ⟨k1, k2, _⟩ := each_ok (R := Reach g) (fun a' _ n' t' e => (C139_dependencies g L e).2)
            List.nodup_nil he
          refine ⟨nodup_union k1, fun b => ?_⟩
          rw [mem_union, k2]
          constructor
          · rintro ((h | ⟨x, h, k⟩) | h)
            · exact absurd h List.not_mem_nil
            · exact .step hg h k
            · exact .one hg h
          · intro h
            obtain ⟨l', h1, x, h2, h3⟩ := h.head
            rw [hg] at h1
            cases h1
            rcases h3 with rfl | h3
            · exact .inr h2
            · exact .inl (.inr ⟨x, h2, h3⟩)

/-- At most `w` contracts can be called. -/
def AtMost (g : Deps) (a w : Nat) : Prop := ∀ s : List Nat, s.Nodup → (∀ b ∈ s, Reach g a b) → s.length ≤ w

theorem subset_length {s t : List Nat} (hs : s.Nodup) (h : ∀ b ∈ s, b ∈ t) : s.length ≤ t.length := by
  induction s generalizing t with
  | nil => exact Nat.zero_le _
  | cons a s ih =>
    have ha := h a List.mem_cons_self
    have hn := List.nodup_cons.1 hs
    have := ih (t := t.erase a) hn.2 (fun b hb => by
      refine (List.mem_erase_of_ne ?_).2 (h b (List.mem_cons_of_mem _ hb))
      intro e
      subst e
      exact hn.1 hb)
    rw [List.length_erase_of_mem ha] at this
    have h0 : 0 < t.length := List.length_pos_of_mem ha
    rw [List.length_cons]
    omega

theorem limits_iff (g : Deps) (L : Lim) : ∀ {fuel a d n : Nat} {r : Option (List Nat)},
    allDeps g L fuel a d = some ⟨n, r⟩ →
    (r = none ↔ (∃ k, 0 < k ∧ Chain g k a ∧ L.depth + 1 < d + k) ∨ ¬ AtMost g a L.width)
  | 0, _, _, _, _, h => by unfold allDeps at h; cases h
  | fuel + 1, a, d, n, r, h => by
    have hd := fun out (e : r = some out) => C139_dependencies g L (out := out) (by rw [← e]; exact h)
    unfold allDeps at h
    cases hg : g a with
    | none =>
      rw [hg] at h
      have : some [] = r := (Done.mk.inj (Option.some.inj h)).2
      subst this
      refine ⟨fun h => (nomatch h), ?_⟩
      rintro (⟨k, hk, hc, _⟩ | hw)
      · cases hc with
        | nil => omega
        | cons h1 _ _ => rw [hg] at h1; cases h1
      · refine absurd (fun s _ hs => ?_) hw
        cases s with
        | nil => exact Nat.zero_le _
        | cons b s =>
          obtain ⟨l, h1, _⟩ := (hs b List.mem_cons_self).head
          rw [hg] at h1
          cases h1
    | some l =>
      rw [hg] at h
      dsimp only at h
      cases he : each (fun b => allDeps g L fuel b (d + 1)) l [] with
      | none => rw [he] at h; cases h
      | some q =>
        obtain ⟨m, t⟩ := q
        rw [he] at h
        have h := (Done.mk.inj (Option.some.inj h)).2
        cases t with
        | none =>
          have : none = r := h
          subst this
          refine ⟨fun _ => ?_, fun _ => rfl⟩
          obtain ⟨b, hb, m', e⟩ := each_throw he
          rcases (limits_iff g L e).1 rfl with ⟨k, k1, k2, k3⟩ | hw
          · exact .inl ⟨k + 1, by omega, .cons hg hb k2, by omega⟩
          · refine .inr fun hw' => hw fun s h1 h2 => hw' s h1 fun c hc => .step hg hb (h2 c hc)
        | some t =>
          dsimp only at h
          obtain ⟨k1, k2, k3⟩ := each_ok (R := Reach g) (fun a' _ n' t' e => (C139_dependencies g L e).2)
            List.nodup_nil he
          have hu : (union t l).Nodup ∧ ∀ b ∈ union t l, Reach g a b := by
            refine ⟨nodup_union k1, fun b hb => ?_⟩
            rcases mem_union.1 hb with hb | hb
            · rcases (k2 b).1 hb with hb | ⟨x, hx, hr⟩
              · exact absurd hb List.not_mem_nil
              · exact .step hg hx hr
            · exact .one hg hb
          cases r with
          | none =>
            refine ⟨fun _ => ?_, fun _ => rfl⟩
            rcases limits_none h with ⟨h1, h2⟩ | h1
            · left
              obtain ⟨x, hx⟩ := List.exists_mem_of_ne_nil _ h1
              obtain ⟨l', e1, y, hy, _⟩ := (hu.2 x hx).head
              exact ⟨1, by decide, .cons e1 hy (.nil _), by omega⟩
            · exact .inr fun hw => absurd (hw _ hu.1 hu.2) (Nat.not_le.2 h1)
          | some out =>
            obtain ⟨e1, e2, e3⟩ := limits_some h
            refine ⟨fun h => (nomatch h), ?_⟩
            rintro (⟨k, hk, hc, hlt⟩ | hw)
            · cases hc with
              | nil => omega
              | cons h1 h2 h3 =>
                rename_i k b l'
                rw [hg] at h1
                cases h1
                by_cases hk0 : k = 0
                · subst hk0
                  rcases e2 with e2 | e2
                  · have : b ∈ union t l := mem_union.2 (.inr h2)
                    rw [e2] at this
                    exact absurd this List.not_mem_nil
                  · omega
                · obtain ⟨n', u, e⟩ := k3 b h2
                  have := (limits_iff g L e).2 (.inl ⟨k, by omega, h3, by omega⟩)
                  cases this
            · refine absurd (fun s h1 h2 => ?_) hw
              refine Nat.le_trans (subset_length h1 (t := union t l) fun b hb => ?_) e3
              rw [← e1]
              exact ((hd out rfl).2 b).2 (h2 b hb)

/-- **C139.** For the contract of an operation it throws exactly if there is a chain of more than `max_rcall_depth` calls
    that begins with it, or more than `max_rcall_width` contracts can be called. -/
theorem C139_limits (g : Deps) (L : Lim) {fuel a n : Nat} {r : Option (List Nat)}
    (h : allDeps g L fuel a 1 = some ⟨n, r⟩) : r = none ↔ Chain g (L.depth + 1) a ∨ ¬ AtMost g a L.width := by
  rw [limits_iff g L h]
  have cut : ∀ {k m a}, Chain g k a → m ≤ k → Chain g m a := by
    intro k m a hc
    induction hc generalizing m with
    | nil a => intro h; have : m = 0 := by omega
               subst this; exact .nil _
    | cons h1 h2 _ ih =>
      intro h
      cases m with
      | zero => exact .nil _
      | succ m => exact .cons h1 h2 (ih (by omega))
  constructor
  · rintro (⟨k, _, hc, hk⟩ | h)
    · exact .inl (cut hc (by omega))
    · exact .inr h
  · rintro (h | h)
    · exact .inl ⟨_, Nat.succ_pos _, h, by omega⟩
    · exact .inr h

theorem each_some {f : Nat → Option Done} : ∀ {l : List Nat}, (∀ a ∈ l, f a ≠ none) → ∀ out, each f l out ≠ none
  | [], _, out => by unfold each; exact Option.some_ne_none _
  | a :: l, h, out => by
    unfold each
    cases hfa : f a with
    | none => exact absurd hfa (h a List.mem_cons_self)
    | some r =>
      obtain ⟨n, u⟩ := r
      cases u with
      | none => exact Option.some_ne_none _
      | some u =>
        dsimp only
        cases hr : each f l (union out u) with
        | none => exact absurd hr (each_some (fun b hb => h b (List.mem_cons_of_mem _ hb)) _)
        | some r => exact Option.some_ne_none _

/-- **C139.** It returns if there is no endless chain of calls; the recursion is not deeper than the longest chain. -/
theorem C139_ends (g : Deps) (L : Lim) : ∀ (N a d : Nat), ¬ Chain g (N + 1) a → allDeps g L (N + 1) a d ≠ none
  | N, a, d, h => by
    unfold allDeps
    cases hg : g a with
    | none => exact Option.some_ne_none _
    | some l =>
      dsimp only
      cases he : each (fun b => allDeps g L N b (d + 1)) l [] with
      | some r => exact Option.some_ne_none _
      | none =>
        refine absurd he (each_some (fun b hb => ?_) _)
        cases N with
        | zero => exact absurd (.cons hg hb (.nil _)) h
        | succ N => exact C139_ends g L N b (d + 1) fun hc => h (.cons hg hb hc)

/-! ### how long it takes -/

theorem each_calls {f : Nat → Option Done} {B : Nat} : ∀ {l out : List Nat} {r : Done},
    (∀ a ∈ l, ∀ r, f a = some r → r.calls ≤ B) → each f l out = some r → r.calls ≤ l.length * B
  | [], out, r, _, e => by unfold each at e; cases e; exact Nat.zero_le _
  | a :: l, out, r, hf, e => by
    unfold each at e
    cases hfa : f a with
    | none => rw [hfa] at e; cases e
    | some q =>
      obtain ⟨n, u⟩ := q
      rw [hfa] at e
      have hn : n ≤ B := hf a List.mem_cons_self _ hfa
      rw [List.length_cons, Nat.succ_mul]
      cases u with
      | none => cases e; exact Nat.le_trans hn (Nat.le_add_left _ _)
      | some u =>
        dsimp only at e
        cases hr : each f l (union out u) with
        | none => rw [hr] at e; cases e
        | some q =>
          rw [hr] at e
          cases e
          have := each_calls (fun b hb => hf b (List.mem_cons_of_mem _ hb)) hr
          show n + q.calls ≤ _
          omega

/-- Every call beyond the depth that has dependencies throws, so only one of them is followed to its end. -/
theorem beyond (g : Deps) (L : Lim) {W : Nat} (hW : ∀ a l, g a = some l → l.length ≤ W) : ∀ {N a d : Nat} {r : Done},
    L.depth < d → allDeps g L N a d = some r →
    (r.result = some [] ∧ r.calls = 1) ∨ (r.result = none ∧ r.calls ≤ N * (1 + W))
  | 0, _, _, _, _, h => by unfold allDeps at h; cases h
  | N + 1, a, d, r, hd, h => by
    unfold allDeps at h
    cases hg : g a with
    | none => rw [hg] at h; cases h; exact .inl ⟨rfl, rfl⟩
    | some l =>
      rw [hg] at h
      dsimp only at h
      have hl := hW a l hg
      have key : ∀ (l out : List Nat) (r : Done), each (fun b => allDeps g L N b (d + 1)) l out = some r →
          (r.result = some out ∧ r.calls = l.length) ∨
          (r.result = none ∧ r.calls ≤ l.length + N * (1 + W)) := by
        intro l
        induction l with
        | nil => intro out r e; unfold each at e; cases e; exact .inl ⟨rfl, rfl⟩
        | cons b l ih =>
          intro out r e
          unfold each at e
          cases hb : allDeps g L N b (d + 1) with
          | none => rw [hb] at e; cases e
          | some q =>
            obtain ⟨n, u⟩ := q
            rw [hb] at e
            rcases beyond g L hW (by omega : L.depth < d + 1) hb with ⟨h1, h2⟩ | ⟨h1, h2⟩
            · have h1 : u = some [] := h1
              have h2 : n = 1 := h2
              subst h1
              dsimp only at e
              have hu : union out [] = out := rfl
              rw [hu] at e
              cases hr : each (fun b => allDeps g L N b (d + 1)) l out with
              | none => rw [hr] at e; cases e
              | some q =>
                rw [hr] at e
                cases e
                rw [List.length_cons]
                rcases ih out q hr with ⟨h3, h4⟩ | ⟨h3, h4⟩
                · refine .inl ⟨h3, ?_⟩
                  show n + q.calls = _
                  omega
                · refine .inr ⟨h3, ?_⟩
                  show n + q.calls ≤ _
                  omega
            · have h1 : u = none := h1
              have h2 : n ≤ N * (1 + W) := h2
              subst h1
              cases e
              refine .inr ⟨rfl, ?_⟩
              show n ≤ _
              omega
      cases he : each (fun b => allDeps g L N b (d + 1)) l [] with
      | none => rw [he] at h; cases h
      | some q =>
        rw [he] at h
        cases h
        rw [Nat.succ_mul]
        unfold close
        rcases key l [] q he with ⟨h1, h2⟩ | ⟨h1, h2⟩
        · rw [h1]
          dsimp only
          cases l with
          | nil => exact .inl ⟨rfl, by rw [h2]; rfl⟩
          | cons b l =>
            right
            constructor
            · refine if_pos ⟨?_, hd⟩
              intro e
              have : b ∈ union [] (b :: l) := mem_union.2 (.inr List.mem_cons_self)
              rw [e] at this
              exact absurd this List.not_mem_nil
            · rw [h2]; omega
        · rw [h1]
          refine .inr ⟨rfl, ?_⟩
          show q.calls + 1 ≤ _
          omega

theorem calls_le (g : Deps) (L : Lim) {W : Nat} (hW : ∀ a l, g a = some l → l.length ≤ W) : ∀ (e N a d : Nat) {r : Done},
    L.depth + 1 ≤ d + e → allDeps g L N a d = some r → r.calls ≤ (1 + W) ^ e * (N * (1 + W))
  | 0, N, a, d, r, hd, h => by
    rw [Nat.pow_zero, Nat.one_mul]
    rcases beyond g L hW (by omega) h with ⟨_, h2⟩ | ⟨_, h2⟩
    · cases N with
      | zero => unfold allDeps at h; cases h
      | succ N => rw [h2, Nat.succ_mul]; omega
    · exact h2
  | e + 1, N, a, d, r, hd, h => by
    cases N with
    | zero => unfold allDeps at h; cases h
    | succ N =>
      have hpos : 1 ≤ (1 + W) ^ e * ((N + 1) * (1 + W)) :=
        Nat.mul_pos (Nat.pow_pos (by omega)) (Nat.mul_pos (by omega) (by omega))
      have hmono : (1 + W) ^ e * (N * (1 + W)) ≤ (1 + W) ^ e * ((N + 1) * (1 + W)) :=
        Nat.mul_le_mul_left _ (Nat.mul_le_mul_right _ (by omega))
      have hexp : (1 + W) ^ (e + 1) * ((N + 1) * (1 + W)) =
          (1 + W) ^ e * ((N + 1) * (1 + W)) + W * ((1 + W) ^ e * ((N + 1) * (1 + W))) := by
        rw [Nat.pow_succ, Nat.mul_comm ((1 + W) ^ e) (1 + W), Nat.mul_assoc (1 + W), Nat.add_mul, Nat.one_mul]
      unfold allDeps at h
      cases hg : g a with
      | none => rw [hg] at h; cases h; show 1 ≤ _; omega
      | some l =>
        rw [hg] at h
        dsimp only at h
        cases he : each (fun b => allDeps g L N b (d + 1)) l [] with
        | none => rw [he] at h; cases h
        | some q =>
          rw [he] at h
          cases h
          have h1 := each_calls (B := (1 + W) ^ e * ((N + 1) * (1 + W)))
            (fun b _ r' e' => Nat.le_trans (calls_le g L hW e N b (d + 1) (by omega) e') hmono) he
          have h2 := Nat.mul_le_mul_right ((1 + W) ^ e * ((N + 1) * (1 + W))) (hW a l hg)
          show q.calls + 1 ≤ _
          omega

/-- **C139.** If no contract has more than `W` dependencies and no chain is longer than `N`, then it makes at most
    `(1 + W) ^ (max_rcall_depth + 1) * (N + 1)` calls. -/
theorem C139_cost_partial (g : Deps) (L : Lim) {W N a : Nat} (hW : ∀ a l, g a = some l → l.length ≤ W)
    (hN : ¬ Chain g (N + 1) a) : ∃ r, allDeps g L (N + 1) a 1 = some r ∧ r.calls ≤ (1 + W) ^ (L.depth + 1) * (N + 1) := by
  cases h : allDeps g L (N + 1) a 1 with
  | none => exact absurd h (C139_ends g L N a 1 hN)
  | some r =>
    refine ⟨r, rfl, ?_⟩
    have := calls_le g L hW L.depth (N + 1) a 1 (by omega) h
    rw [Nat.pow_succ, Nat.mul_assoc, Nat.mul_comm (1 + W) (N + 1)]
    exact this

/-! ### chains of any length can be deployed -/

/-- Contract `i` calls contract `i + 1`, for `i < n`. -/
def upto (n : Nat) : Deps := fun b => if b < n then some [b + 1] else none

/-- Deploying `m` contracts, the one that calls the others first. -/
def chainFrom : Nat → Nat → List (Nat × List Nat)
  | _, 0 => []
  | i, m + 1 => (i, [i + 1]) :: chainFrom (i + 1) m

theorem upto_succ (i : Nat) : record (upto i) i [i + 1] = upto (i + 1) := by
  funext b
  unfold record upto
  have hu : union [] [i + 1] = [i + 1] := by
    unfold union
    rw [if_neg List.not_mem_nil]
    rfl
  rw [hu, if_neg (List.cons_ne_nil _ _)]
  by_cases h : b = i
  · subst h; rw [if_pos rfl, if_pos (Nat.lt_succ_self _)]
  · rw [if_neg h]
    by_cases k : b < i
    · rw [if_pos k, if_pos (by omega)]
    · rw [if_neg k, if_neg (by omega)]

theorem deploy_chain (L : Lim) (hw : 1 ≤ L.width) : ∀ (m i : Nat),
    deployAll L 1 (upto i) (chainFrom i m) = some (upto (i + m))
  | 0, i => rfl
  | m + 1, i => by
    unfold chainFrom deployAll
    have hu : union [] [i + 1] = [i + 1] := by
      unfold union
      rw [if_neg List.not_mem_nil]
      rfl
    have he : execDeps (upto i) L 1 [i + 1] = some ⟨2, some [i + 1]⟩ := by
      have ha : allDeps (upto i) L 1 (i + 1) 2 = some ⟨1, some []⟩ := by
        unfold allDeps upto
        rw [if_neg (by omega)]
      unfold execDeps
      rw [hu]
      dsimp only
      rw [if_neg (by show ¬ L.width < 1; omega)]
      unfold each
      rw [ha]
      have : each (fun b => allDeps (upto i) L 1 b 2) [] (union [i + 1] []) = some ⟨0, some [i + 1]⟩ := rfl
      dsimp only
      rw [this]
      dsimp only
      rw [if_neg (by show ¬ L.width < 1; omega)]
    rw [he]
    dsimp only
    rw [upto_succ, deploy_chain L hw m (i + 1), Nat.add_right_comm i 1 m, Nat.add_assoc]

theorem chain_calls (L : Lim) (n : Nat) : ∀ (m i d : Nat), i + m = n →
    allDeps (upto n) L m i d = none ∧ ∃ r, allDeps (upto n) L (m + 1) i d = some ⟨m + 1, r⟩
  | 0, i, d, h => by
    refine ⟨rfl, some [], ?_⟩
    unfold allDeps upto
    rw [if_neg (by omega)]
  | m + 1, i, d, h => by
    obtain ⟨h1, r, h2⟩ := chain_calls L n m (i + 1) (d + 1) (by omega)
    have hg : upto n i = some [i + 1] := by unfold upto; rw [if_pos (by omega)]
    constructor
    · unfold allDeps
      rw [hg]
      dsimp only
      unfold each
      rw [h1]
    · rw [allDeps.eq_def]
      dsimp only
      rw [hg]
      dsimp only
      unfold each
      rw [h2]
      cases r with
      | none => exact ⟨none, rfl⟩
      | some u =>
        unfold each
        exact ⟨_, rfl⟩

/-- **C139.** That the limits bound the work is false: contracts that call one another in a chain of any length can be
    deployed, the first one first, since none of them is known when the one before it is checked; an operation on the
    first one then makes the node recurse to the end of the chain before it finds that it is too long. -/
theorem C139_deep (L : Lim) (hw : 1 ≤ L.width) (n : Nat) (hn : L.depth < n) :
    ∃ ops g, ops.length = n ∧ deployAll L 1 (fun _ => none) ops = some g ∧
      allDeps g L n 0 1 = none ∧ allDeps g L (n + 1) 0 1 = some ⟨n + 1, none⟩ := by
  have hlen : ∀ m i, (chainFrom i m).length = m := by
    intro m
    induction m with
    | zero => intro i; rfl
    | succ m ih => intro i; show (chainFrom (i + 1) m).length + 1 = m + 1; rw [ih]
  have h0 : upto 0 = fun _ => none := by
    funext b
    unfold upto
    rw [if_neg (by omega)]
  have hd := deploy_chain L hw n 0
  rw [h0, Nat.zero_add] at hd
  obtain ⟨h1, r, h2⟩ := chain_calls L n n 0 1 (by omega)
  refine ⟨chainFrom 0 n, upto n, hlen n 0, hd, h1, ?_⟩
  have : r = none := by
    refine (C139_limits _ L h2).2 (.inl ?_)
    have key : ∀ m i, i + m ≤ n → Chain (upto n) m i := by
      intro m
      induction m with
      | zero => intro i _; exact .nil _
      | succ m ih =>
        intro i hi
        exact .cons (l := [i + 1]) (by unfold upto; rw [if_pos (by omega)]) List.mem_cons_self (ih (i + 1) (by omega))
    exact key _ _ (by omega)
  rw [h2, this]

/-! ### concrete cases -/

/-- Contract 1 calls 2 and 3, which both call 4. -/
def diamond : Deps := fun a => if a = 1 then some [2, 3] else if a = 2 ∨ a = 3 then some [4] else none

example : allDeps diamond ⟨3, 10⟩ 5 1 1 = some ⟨5, some [4, 2, 3]⟩ ∧ allDeps diamond ⟨1, 10⟩ 5 1 1 = some ⟨3, none⟩ ∧
    allDeps diamond ⟨3, 2⟩ 5 1 1 = some ⟨5, none⟩ := by decide

example : ¬ Chain diamond 3 1 := by
  have h4 : ∀ n, ¬ Chain diamond (n + 1) 4 := by
    intro n h
    cases h with
    | cons h1 _ _ => cases h1
  have h23 : ∀ b, b = 2 ∨ b = 3 → ¬ Chain diamond 2 b := by
    intro b hb h
    cases h with
    | cons h1 h2 h =>
      have hl : diamond b = some [4] := by rcases hb with rfl | rfl <;> rfl
      rw [hl] at h1
      cases h1
      cases List.mem_singleton.1 h2
      exact h4 0 h
  intro h
  cases h with
  | cons h1 h2 h =>
    cases h1
    refine h23 _ ?_ h
    rcases List.mem_cons.1 h2 with h | h
    · exact .inl h
    · exact .inr (List.mem_singleton.1 h)

end Verif.Rules
