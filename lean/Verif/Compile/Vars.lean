import Verif.Compile.Static
/-
  Variables of the source and cells on the stack.
-/
namespace Verif.Comp
open Verif Verif.VM
open Verif.Codec (Bytes)

/-- Two lists agree, place by place. -/
def All2 {α β : Type} (R : α → β → Prop) : List α → List β → Prop
  | [], [] => True
  | a :: l, b :: m => R a b ∧ All2 R l m
  | _, _ => False

theorem All2.mono {α β : Type} {R S : α → β → Prop} : ∀ {l : List α} {m : List β}, All2 R l m →
    (∀ a b, a ∈ l → R a b → S a b) → All2 S l m
  | [], [], _, _ => trivial
  | _ :: _, _ :: _, h, hs => ⟨hs _ _ (List.mem_cons_self ..) h.1,
      All2.mono h.2 (fun a b ha => hs a b (List.mem_cons_of_mem _ ha))⟩
  | [], _ :: _, h, _ => h.elim
  | _ :: _, [], h, _ => h.elim

theorem All2.length {α β : Type} {R : α → β → Prop} : ∀ {l : List α} {m : List β}, All2 R l m → l.length = m.length
  | [], [], _ => rfl
  | _ :: l, _ :: m, h => by simp [All2.length h.2]
  | [], _ :: _, h => h.elim
  | _ :: _, [], h => h.elim

/-! ### Addresses -/

/-- A constant, or a place on the stack below the first free one. -/
def AddrOk (n off a : Nat) : Prop := (a < n ∧ a < MEM_STACK) ∨ (MEM_STACK < a ∧ a < MEM_STACK + off)

theorem AddrOk.mono {n off n' off' a : Nat} (h : AddrOk n off a) (hn : n ≤ n') (ho : off ≤ off') : AddrOk n' off' a := by
  rcases h with h | h
  · exact .inl ⟨by omega, h.2⟩
  · exact .inr ⟨h.1, by omega⟩

theorem AddrOk.lt {n off a : Nat} (h : AddrOk n off a) (sp : Nat) : ab sp a < MEM_STACK + sp + off := by
  unfold ab
  rcases h with h | h
  · rw [if_neg (by omega)]; omega
  · rw [if_pos (by omega)]; omega

theorem ab_stack {sp x : Nat} (h : MEM_STACK ≤ x) : ab sp x = x + sp := by unfold ab; rw [if_pos h]
theorem ab_const {sp x : Nat} (h : x < MEM_STACK) : ab sp x = x := by unfold ab; rw [if_neg (by omega)]

theorem ab_inj {sp x y : Nat} (hx : MEM_STACK ≤ x) (h : x ≠ y) : ab sp x ≠ ab sp y := by
  rw [ab_stack hx]
  unfold ab
  split <;> omega

def offOf : List Frame → Nat
  | [] => 0
  | f :: _ => f.off

/-- A variable is a constant in the table, or has a place on the stack. -/
def VarOk (n off : Nat) (v : Var) : Prop :=
  (v.isConst = true ∧ v.address < n ∧ v.address < MEM_STACK) ∨ (MEM_STACK < v.address ∧ v.address < MEM_STACK + off)

theorem VarOk.mono {n off n' off' : Nat} {v : Var} (h : VarOk n off v) (hn : n ≤ n') (ho : off ≤ off') : VarOk n' off' v := by
  rcases h with h | h
  · exact .inl ⟨h.1, by omega, h.2.2⟩
  · exact .inr ⟨h.1, by omega⟩

theorem VarOk.addr {n off : Nat} {v : Var} (h : VarOk n off v) : AddrOk n off v.address := by
  rcases h with h | h
  · exact .inl h.2
  · exact .inr h

/-- No place on the stack is shared. -/
def Apart (v w : Var) : Prop := MEM_STACK ≤ v.address → v.address ≠ w.address

def allVars (l : List Frame) : List Var := (l.map (·.vars)).flatten

/-- The scopes of the compiler. -/
def FOk (n : Nat) : List Frame → Prop
  | [] => True
  | f :: l => 1 ≤ f.off ∧ offOf l ≤ f.off ∧ (∀ v ∈ f.vars, VarOk n f.off v) ∧ (f.vars ++ allVars l).Pairwise Apart ∧ FOk n l

theorem FOk.all {n : Nat} : ∀ {l : List Frame}, FOk n l → ∀ v ∈ allVars l, VarOk n (offOf l) v
  | [], _, v, hv => by simp [allVars] at hv
  | f :: l, h, v, hv => by
    obtain ⟨_, h2, h3, _, h5⟩ := h
    simp only [allVars, List.map_cons, List.flatten_cons, List.mem_append] at hv
    rcases hv with hv | hv
    · exact h3 v hv
    · exact (FOk.all h5 v hv).mono (Nat.le_refl _) h2

theorem FOk.apart {n : Nat} : ∀ {l : List Frame}, FOk n l → (allVars l).Pairwise Apart
  | [], _ => List.Pairwise.nil
  | _ :: _, h => h.2.2.2.1

theorem FOk.mono {n n' : Nat} (hn : n ≤ n') : ∀ {l : List Frame}, FOk n l → FOk n' l
  | [], _ => trivial
  | _ :: _, h => ⟨h.1, h.2.1, fun v hv => (h.2.2.1 v hv).mono hn (Nat.le_refl _), h.2.2.2.1, FOk.mono hn h.2.2.2.2⟩

theorem FOk.bump {n m : Nat} : ∀ {l : List Frame}, FOk n l → FOk n (bump m l)
  | [], _ => trivial
  | f :: l, h => ⟨by show 1 ≤ f.off + m; have := h.1; omega, by show offOf l ≤ f.off + m; have := h.2.1; omega,
      fun v hv => (h.2.2.1 v hv).mono (Nat.le_refl _) (Nat.le_add_right _ _), h.2.2.2.1, h.2.2.2.2⟩

theorem bump_vars (n : Nat) (l : List Frame) : (bump n l).map (·.vars) = l.map (·.vars) := by cases l <;> rfl
theorem offOf_bump (n : Nat) (l : List Frame) : offOf l ≤ offOf (bump n l) := by
  cases l with
  | nil => exact Nat.le_refl _
  | cons f l => exact Nat.le_add_right _ _

/-- What holds of the compiler while it works on a body. -/
structure Inv (s : CSt) : Prop where
  pos : 1 ≤ offOf s.frames
  ok : FOk s.consts.length s.frames

theorem Inv.ext {s t : CSt} (h : Inv s) (he : Ext s t) : Inv t := by
  obtain ⟨n, hn⟩ := he.frames
  refine ⟨?_, ?_⟩
  · rw [hn]; exact Nat.le_trans h.pos (offOf_bump n _)
  · rw [hn]; exact (h.ok.mono he.consts.length_le).bump

theorem Ext.off {s t : CSt} (he : Ext s t) : offOf s.frames ≤ offOf t.frames := by
  obtain ⟨n, hn⟩ := he.frames
  rw [hn]; exact offOf_bump n _

theorem Ext.vars {s t : CSt} (he : Ext s t) : t.frames.map (·.vars) = s.frames.map (·.vars) := by
  obtain ⟨n, hn⟩ := he.frames
  rw [hn]; exact bump_vars n _

/-! ### Values -/

/-- A reference to a value. -/
structure IsAt (n off : Nat) (s : Eng) (sp : Nat) (v : VRef) (x : Val) : Prop where
  func : v.func = none
  has : ∃ a, v.address = some a ∧ AddrOk n off a ∧ Has s (ab sp a) x
  scalar : Scalar x

theorem IsAt.mono {n off n' off' sp : Nat} {s t : Eng} {v : VRef} {x : Val} (h : IsAt n off s sp v x)
    (hb : Below s t (MEM_STACK + sp + off)) (hn : n ≤ n') (ho : off ≤ off') : IsAt n' off' t sp v x := by
  obtain ⟨a, h1, h2, h3⟩ := h.has
  exact ⟨h.func, ⟨a, h1, h2.mono hn ho, hb.has (h2.lt sp) h3⟩, h.scalar⟩

/-- A variable of the compiler and one of the source. -/
structure RelV (s : Eng) (sp : Nat) (w : Var) (p : Name × Bool × Val) : Prop where
  name : w.name = p.1
  const : w.isConst = p.2.1
  has : Has s (ab sp w.address) p.2.2
  scalar : Scalar p.2.2

abbrev Rel (s : Eng) (sp : Nat) (vs : List (List Var)) (env : Vars) : Prop := All2 (All2 (RelV s sp)) vs env

theorem rel_find {s : Eng} {sp : Nat} (x : Name) : ∀ {l : List Frame} {env : Vars}, Rel s sp (l.map (·.vars)) env →
    (findVar x l = none ∧ look x env = none) ∨
    ∃ w v, findVar x l = some w ∧ look x env = some (w.isConst, v) ∧ w ∈ allVars l ∧ Has s (ab sp w.address) v ∧ Scalar v
  | [], [], _ => .inl ⟨rfl, rfl⟩
  | [], _ :: _, h => h.elim
  | _ :: _, [], h => h.elim
  | f :: l, c :: env, h => by
    have hin : ∀ {vs : List Var} {c : List (Name × Bool × Val)}, All2 (RelV s sp) vs c →
        (vs.find? (fun w => w.name = x) = none ∧ lookIn x c = none) ∨
        ∃ w v, vs.find? (fun w => w.name = x) = some w ∧ lookIn x c = some (w.isConst, v) ∧ w ∈ vs ∧
          Has s (ab sp w.address) v ∧ Scalar v := by
      intro vs
      induction vs with
      | nil =>
        intro c hc
        cases c with
        | nil => exact .inl ⟨rfl, rfl⟩
        | cons _ _ => exact hc.elim
      | cons w vs ih =>
        intro c hc
        cases c with
        | nil => exact hc.elim
        | cons p c =>
          obtain ⟨y, q, v⟩ := p
          have hw := hc.1
          by_cases hx : w.name = x
          · right
            refine ⟨w, v, ?_, ?_, List.mem_cons_self .., hw.has, hw.scalar⟩
            · rw [List.find?_cons_of_pos (by simpa using hx)]
            · have : y = x := by rw [← hx]; exact hw.name.symm
              simp only [lookIn]
              rw [if_pos this, hw.const]
          · have hy : ¬ y = x := by rw [← show w.name = y from hw.name]; exact hx
            rcases ih hc.2 with ⟨h1, h2⟩ | ⟨w', v', h1, h2, h3, h4⟩
            · left
              exact ⟨by rw [List.find?_cons_of_neg (by simpa using hx)]; exact h1, by simp only [lookIn]; rw [if_neg hy]; exact h2⟩
            · right
              exact ⟨w', v', by rw [List.find?_cons_of_neg (by simpa using hx)]; exact h1,
                by simp only [lookIn]; rw [if_neg hy]; exact h2, List.mem_cons_of_mem _ h3, h4⟩
    rcases hin h.1 with ⟨h1, h2⟩ | ⟨w, v, h1, h2, h3, h4⟩
    · rcases rel_find x h.2 with ⟨h5, h6⟩ | ⟨w, v, h5, h6, h7, h8⟩
      · left
        exact ⟨by simp only [findVar, h1]; exact h5, by simp only [look, h2]; exact h6⟩
      · right
        refine ⟨w, v, by simp only [findVar, h1]; exact h5, by simp only [look, h2]; exact h6, ?_, h8⟩
        simp only [allVars, List.map_cons, List.flatten_cons, List.mem_append]
        exact .inr h7
    · right
      refine ⟨w, v, by simp only [findVar, h1], by simp only [look, h2], ?_, h4⟩
      simp only [allVars, List.map_cons, List.flatten_cons, List.mem_append]
      exact .inl h3

/-- Variables stay what they are as long as their places are not written. -/
theorem rel_below {s t : Eng} {sp n : Nat} {l : List Frame} {env : Vars} (h : Rel s sp (l.map (·.vars)) env)
    (hf : FOk n l) (hb : Below s t (MEM_STACK + sp + offOf l)) : Rel t sp (l.map (·.vars)) env := by
  refine h.mono fun vs c hvs hc => ?_
  refine hc.mono fun w p hw hp => ?_
  have : w ∈ allVars l := List.mem_flatten.2 ⟨vs, hvs, hw⟩
  exact ⟨hp.name, hp.const, hb.has ((hf.all w this).addr.lt sp) hp.has, hp.scalar⟩

/-- The place of the innermost variable of a name gets another value. -/
theorem rel_put {s t : Eng} {sp : Nat} {x : Name} {w : Var} {v : Val} (hs : MEM_STACK ≤ w.address)
    (hv : Has t (ab sp w.address) v) (hsc : Scalar v)
    (hother : ∀ a, a ≠ ab sp w.address → aget t.mem a = aget s.mem a) :
    ∀ {l : List Frame} {env : Vars}, Rel s sp (l.map (·.vars)) env → (allVars l).Pairwise Apart →
    findVar x l = some w → Rel t sp (l.map (·.vars)) (put x v env)
  | [], _, _, _, hf => by cases hf
  | _ :: _, [], h, _, _ => h.elim
  | f :: l, c :: env, h, hp, hf => by
    have hkeep : ∀ (u : Var) (p : Name × Bool × Val), u.address ≠ w.address → RelV s sp u p → RelV t sp u p := by
      intro u p hne hr
      obtain ⟨d, h1, h2⟩ := hr.has
      exact ⟨hr.name, hr.const, ⟨d, by rw [hother _ (Ne.symm (ab_inj hs (Ne.symm hne))), h1], h2⟩, hr.scalar⟩
    have hsym : ∀ u : Var, Apart u w → u.address ≠ w.address := by
      intro u hu
      by_cases h1 : MEM_STACK ≤ u.address
      · exact hu h1
      · omega
    simp only [allVars, List.map_cons, List.flatten_cons] at hp
    obtain ⟨hp1, hp2, hp3⟩ := List.pairwise_append.1 hp
    cases hfind : f.vars.find? (fun w => w.name = x) with
    | some w' =>
      have hw' : w' = w := by simp only [findVar, hfind] at hf; exact Option.some.inj hf
      subst hw'
      have hrest : Rel t sp (l.map (·.vars)) env := by
        refine h.2.mono fun vs d hvs hd => hd.mono fun u p hu hup => ?_
        refine hkeep u p ?_ hup
        have h1 : Apart w' u := hp3 w' (List.mem_of_find?_eq_some hfind) u (List.mem_flatten.2 ⟨vs, hvs, hu⟩)
        exact Ne.symm (h1 hs)
      have hin : ∀ {vs : List Var} {c : List (Name × Bool × Val)}, All2 (RelV s sp) vs c → vs.Pairwise Apart →
          vs.find? (fun w => w.name = x) = some w' → All2 (RelV t sp) vs (putIn x v c) ∧ (lookIn x c).isSome = true := by
        intro vs
        induction vs with
        | nil => intro c _ _ h; cases h
        | cons u vs ih =>
          intro c hc hpw hfi
          cases c with
          | nil => exact hc.elim
          | cons p c =>
            obtain ⟨y, q, z⟩ := p
            have hu := hc.1
            have hpw' := List.pairwise_cons.1 hpw
            by_cases hx : u.name = x
            · rw [List.find?_cons_of_pos (by simpa using hx)] at hfi
              have huw := Option.some.inj hfi
              subst huw
              have hy : y = x := by rw [← hx]; exact hu.name.symm
              simp only [putIn, lookIn]
              rw [if_pos hy, if_pos hy]
              refine ⟨⟨⟨hu.name, hu.const, hv, hsc⟩, hc.2.mono fun u' p hu' hp' => ?_⟩, rfl⟩
              exact hkeep u' p (Ne.symm (hpw'.1 u' hu' hs)) hp'
            · have hy : ¬ y = x := by rw [← show u.name = y from hu.name]; exact hx
              rw [List.find?_cons_of_neg (by simpa using hx)] at hfi
              obtain ⟨h1, h2⟩ := ih hc.2 hpw'.2 hfi
              simp only [putIn, lookIn]
              rw [if_neg hy, if_neg hy]
              exact ⟨⟨hkeep u _ (hsym u (hpw'.1 w' (List.mem_of_find?_eq_some hfi))) hu, h1⟩, h2⟩
      obtain ⟨h1, h2⟩ := hin h.1 hp1 hfind
      simp only [put]
      rw [if_pos h2]
      exact ⟨h1, hrest⟩
    | none =>
      have hf' : findVar x l = some w := by simp only [findVar, hfind] at hf; exact hf
      have hmem : w ∈ allVars l := by
        have hm : ∀ {l : List Frame}, findVar x l = some w → w ∈ allVars l := by
          intro l
          induction l with
          | nil => intro h; cases h
          | cons g l ih =>
            intro h
            simp only [allVars, List.map_cons, List.flatten_cons, List.mem_append]
            simp only [findVar] at h
            cases hg : g.vars.find? (fun w => w.name = x) with
            | some u => simp only [hg] at h; cases h; exact .inl (List.mem_of_find?_eq_some hg)
            | none => simp only [hg] at h; exact .inr (ih h)
        exact hm hf'
      have hnone : lookIn x c = none := by
        have hin : ∀ {vs : List Var} {c : List (Name × Bool × Val)}, All2 (RelV s sp) vs c →
            vs.find? (fun w => w.name = x) = none → lookIn x c = none := by
          intro vs
          induction vs with
          | nil =>
            intro c hc _
            cases c with
            | nil => rfl
            | cons _ _ => exact hc.elim
          | cons u vs ih =>
            intro c hc hfi
            cases c with
            | nil => exact hc.elim
            | cons p c =>
              obtain ⟨y, q, z⟩ := p
              have hu := hc.1
              by_cases hx : u.name = x
              · rw [List.find?_cons_of_pos (by simpa using hx)] at hfi; cases hfi
              · have hy : ¬ y = x := by rw [← show u.name = y from hu.name]; exact hx
                rw [List.find?_cons_of_neg (by simpa using hx)] at hfi
                simp only [lookIn]
                rw [if_neg hy]
                exact ih hc.2 hfi
        exact hin h.1 hfind
      simp only [put]
      rw [hnone, if_neg (by decide)]
      refine ⟨h.1.mono fun u p hu hup => hkeep u p (hsym u ?_) hup, rel_put hs hv hsc hother h.2 hp2 hf'⟩
      exact hp3 u hu w hmem

theorem findVar_mem {x : Name} {w : Var} : ∀ {l : List Frame}, findVar x l = some w → w ∈ allVars l
  | [], h => by cases h
  | g :: l, h => by
    simp only [allVars, List.map_cons, List.flatten_cons, List.mem_append]
    simp only [findVar] at h
    cases hg : g.vars.find? (fun w => w.name = x) with
    | some u => simp only [hg] at h; cases h; exact .inl (List.mem_of_find?_eq_some hg)
    | none => simp only [hg] at h; exact .inr (findVar_mem h)

/-! ### Code -/

/-- The code from `lo` on is in the binary. -/
def Emb (B : Binary) (lo : Nat) (code : List (Instr × Option Name)) : Prop :=
  ∀ i x, lo ≤ i → code[i]? = some x → ∃ y, link1 B.entries x = .ok y ∧ B.code[i]? = some y

theorem prefix_get {α : Type} {l m : List α} (h : l <+: m) {i : Nat} {x : α} (hx : l[i]? = some x) : m[i]? = some x := by
  obtain ⟨r, rfl⟩ := h
  have : i < l.length := by
    rcases Nat.lt_or_ge i l.length with h | h
    · exact h
    · rw [List.getElem?_eq_none h] at hx; cases hx
  rw [List.getElem?_append_left this, hx]

theorem Emb.pre {B : Binary} {lo lo' : Nat} {l m : List (Instr × Option Name)} (h : Emb B lo m) (hp : l <+: m) (hl : lo ≤ lo') :
    Emb B lo' l := fun i x hi hx => h i x (by omega) (prefix_get hp hx)

theorem Emb.last {B : Binary} {lo : Nat} {l : List (Instr × Option Name)} {i : Instr}
    (h : Emb B lo (l ++ [(i, none)])) (hl : lo ≤ l.length) : B.code[l.length]? = some i := by
  obtain ⟨y, h1, h2⟩ := h l.length (i, none) hl (by rw [List.getElem?_append_right (Nat.le_refl _), Nat.sub_self]; rfl)
  cases h1
  exact h2

theorem Emb.linked {B : Binary} {lo : Nat} {l : List (Instr × Option Name)} {i : Instr} {x : Name}
    (h : Emb B lo (l ++ [(i, some x)])) (hl : lo ≤ l.length) :
    ∃ a, entry x B.entries = some a ∧ B.code[l.length]? = some { i with a := a } := by
  obtain ⟨y, h1, h2⟩ := h l.length (i, some x) hl (by rw [List.getElem?_append_right (Nat.le_refl _), Nat.sub_self]; rfl)
  simp only [link1] at h1
  cases he : entry x B.entries with
  | none => rw [he] at h1; cases h1
  | some a => rw [he] at h1; cases h1; exact ⟨a, rfl, h2⟩

end Verif.Comp
