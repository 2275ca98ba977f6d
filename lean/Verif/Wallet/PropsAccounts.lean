/-
  C176: an account keeps its number.
-/
import Verif.Wallet.Accounts

namespace Verif.Wallet.Acc

/-! ### the specification: accounts in the order of their creation -/

structure Spec where
  num : Nat
  list : List Acc

/-- The number of an account is `base` and its place in the list; a removed one keeps its place. -/
def Spec.step (base : Nat) (s : Spec) : Ev → Spec
  | .create cfg _ _ => { s with list := s.list ++ [cfg] }
  | .importW cfg _ _ _ => { s with list := s.list ++ [if cfg.num = 0 then { cfg with num := s.num } else cfg] }
  | .remove i _ => { s with list := s.list.modify (i - base) fun a => { a with hidden := true } }
  | .setCount i n _ _ =>
    if i < base then { s with num := n } else { s with list := s.list.modify (i - base) fun a => { a with num := n } }
  | .restart => s

/-- The last account is not a removed one. -/
def Tail (l : List Acc) : Prop := ∀ a, l.getLast? = some a → a.hidden = false

/-- What is asked for: new accounts are not hidden, the number of addresses is set for an account that is there, and if
    the program starts again the last account is not a removed one. -/
def Ev.Safe (c : Conf) (s : Sys) : Ev → Prop
  | .create cfg _ _ => cfg.hidden = false
  | .importW cfg _ _ _ => cfg.hidden = false
  | .remove _ _ => True
  | .setCount i _ _ _ => if i < c.maxKey then Tail s.accounts else (view s i).isSome
  | .restart => Tail s.accounts

/-- Calls that succeed, in `evs`, and such as fail without any effect. -/
inductive Good (c : Conf) : Sys → List Ev → Sys → Prop
  | nil (s : Sys) : Good c s [] s
  | done {s s1 s2 : Sys} {e : Ev} {evs : List Ev} : e.Safe c s → step c s e = .ok s1 → Good c s1 evs s2 →
      Good c s (e :: evs) s2
  | refused {s s2 : Sys} {e : Ev} {evs : List Ev} : step c s e = .fail s → Good c s evs s2 → Good c s evs s2

/-! ### lists of wallets -/

theorem join_grow (l : List (Option (Acc × Nat))) (n j : Nat) : (grow l n)[j]?.join = l[j]?.join := by
  unfold grow
  by_cases h : j < l.length
  · rw [List.getElem?_append_left h]
  · rw [List.getElem?_append_right (by omega), List.getElem?_eq_none (l := l) (by omega), List.getElem?_replicate]
    by_cases k : j - l.length < n - l.length
    · rw [if_pos k]; rfl
    · rw [if_neg k]

theorem length_grow (l : List (Option (Acc × Nat))) (n : Nat) (h : l.length ≤ n) : (grow l n).length = n := by
  unfold grow; rw [List.length_append, List.length_replicate]; omega

theorem join_set (l : List (Option (Acc × Nat))) (i j : Nat) (v : Option (Acc × Nat)) (h : i < l.length) :
    (l.set i v)[j]?.join = if j = i then v else l[j]?.join := by
  by_cases e : j = i
  · subst e; rw [if_pos rfl, List.getElem?_set_self h]; rfl
  · rw [if_neg e, List.getElem?_set_ne (fun k => e k.symm)]

theorem view_none {s : Sys} {j : Nat} (h : s.wallets.length ≤ j) : view s j = none := by
  unfold view; rw [List.getElem?_eq_none h]; rfl

/-- Putting an account where there is room. -/
theorem add_ok {i : Nat} {cfg : Acc} {s : Sys} {x : Nat} (hv : view s i = none) (hf : s.files cfg.key = some x)
    (p : Bool) : ∃ w, (add i cfg p s = if p then .ok { s with wallets := w } else .fail { s with wallets := w }) ∧
      w.length = max s.wallets.length (i + 1) ∧ ∀ j, w[j]?.join = if j = i then some (cfg, x) else view s j := by
  by_cases h : i ≥ s.wallets.length
  · refine ⟨(grow s.wallets (i + 1)).set i (some (cfg, x)), ?_, ?_, fun j => ?_⟩
    · unfold add room; rw [if_pos h]; simp only [hf]
    · rw [List.length_set, length_grow _ _ (by omega)]; omega
    · rw [join_set _ _ _ _ (by rw [length_grow _ _ (by omega)]; omega), join_grow]; rfl
  · refine ⟨s.wallets.set i (some (cfg, x)), ?_, ?_, fun j => ?_⟩
    · have e : room s.wallets i = some s.wallets := by
        unfold room; rw [if_neg h]
        unfold view at hv
        rw [List.getElem?_eq_getElem (by omega)] at hv ⊢
        have hv : s.wallets[i] = none := hv
        rw [hv]
      unfold add; rw [e]; simp only [hf]
    · rw [List.length_set]; omega
    · rw [join_set _ _ _ _ (by omega)]; rfl

/-- Without room or file. -/
theorem add_frame (i : Nat) (cfg : Acc) (p : Bool) (s : Sys) : ∃ w, (add i cfg p s = .ok { s with wallets := w } ∨
    add i cfg p s = .fail { s with wallets := w }) ∧ (w.length = s.wallets.length ∨ w.length = i + 1) ∧
    (∀ j, j ≠ i → w[j]?.join = view s j) ∧ (∀ y, view s i = some y → w[i]?.join = some y) := by
  by_cases hv : view s i = none
  · cases hf : s.files cfg.key with
    | some x =>
      obtain ⟨w, h1, h2, h3⟩ := add_ok hv hf p
      refine ⟨w, ?_, by omega, fun j hj => by rw [h3, if_neg hj], fun y hy => by rw [hv] at hy; cases hy⟩
      cases p
      · exact .inr h1
      · exact .inl h1
    | none =>
      by_cases h : i ≥ s.wallets.length
      · refine ⟨grow s.wallets (i + 1), .inr ?_, .inr (length_grow _ _ (by omega)), fun j _ => join_grow _ _ _,
          fun y hy => by rw [hv] at hy; cases hy⟩
        unfold add room; rw [if_pos h]; simp only [hf]
      · refine ⟨s.wallets, .inr ?_, .inl rfl, fun j _ => rfl, fun y hy => hy⟩
        have e : room s.wallets i = some s.wallets := by
          unfold room; rw [if_neg h]
          unfold view at hv
          rw [List.getElem?_eq_getElem (by omega)] at hv ⊢
          have hv : s.wallets[i] = none := hv
          rw [hv]
        unfold add; rw [e]; simp only [hf]
  · refine ⟨s.wallets, .inr ?_, .inl rfl, fun j _ => rfl, fun y hy => hy⟩
    have h : i < s.wallets.length := Classical.byContradiction fun k => hv (view_none (by omega))
    have e : room s.wallets i = none := by
      unfold room; rw [if_neg (by omega)]
      unfold view at hv
      rw [List.getElem?_eq_getElem h] at hv ⊢
      cases k : s.wallets[i] with
      | none => rw [k] at hv; exact absurd rfl hv
      | some y => rfl
    unfold add; rw [e]

/-! ### starting -/

theorem bootKeys_ok (num m : Nat) : ∀ (l : List Nat) (i : Nat) (s : Sys), s.wallets.length ≤ i → i + l.length ≤ m →
    ∃ w, bootKeys num i l s = { s with wallets := w } ∧ w.length ≤ m
  | [], i, s, h1, h2 => ⟨s.wallets, rfl, by simp only [List.length_nil] at h2; omega⟩
  | k :: l, i, s, h1, h2 => by
    rw [List.length_cons] at h2
    obtain ⟨w, h, hl, _, _⟩ := add_frame i ⟨k, num, 0, false⟩ true s
    have e : (add i ⟨k, num, 0, false⟩ true s).st s = { s with wallets := w } := by
      rcases h with h | h <;> rw [h] <;> rfl
    unfold bootKeys
    rw [e]
    obtain ⟨w', h', hl'⟩ := bootKeys_ok num m l (i + 1) { s with wallets := w } (by show w.length ≤ _; omega) (by omega)
    exact ⟨w', h', hl'⟩

theorem bootAccs_ok (m : Nat) : ∀ (l : List Acc) (i : Nat) (s : Sys), s.wallets.length ≤ m + i →
    (∀ a ∈ l, ∃ x, s.files a.key = some x) →
    ∃ w, bootAccs m i l s = { s with wallets := w } ∧ w.length ≤ m + i + l.length ∧
      (Tail l → l ≠ [] → w.length = m + i + l.length) ∧ s.wallets.length ≤ w.length ∧
      (∀ j, j < m + i → w[j]?.join = view s j) ∧
      ∀ k a, l[k]? = some a → ∃ x, s.files a.key = some x ∧
        w[m + i + k]?.join = if a.hidden then none else some (a, x)
  | [], i, s, h1, _ => ⟨s.wallets, rfl, h1, fun _ k => absurd rfl k, by omega, fun _ _ => rfl, fun _ _ k => nomatch k⟩
  | a :: l, i, s, h1, h2 => by
    obtain ⟨x, hx⟩ := h2 a List.mem_cons_self
    have key : ∃ w1, (if a.hidden then s else (add (m + i) a true s).st s) = { s with wallets := w1 } ∧
        w1.length ≤ m + (i + 1) ∧ (a.hidden = false → w1.length = m + (i + 1)) ∧ s.wallets.length ≤ w1.length ∧
        (∀ j, j < m + i → w1[j]?.join = view s j) ∧
        w1[m + i]?.join = if a.hidden then none else some (a, x) := by
      by_cases hh : a.hidden = true
      · refine ⟨s.wallets, by rw [if_pos hh], by omega, (fun k => by rw [k] at hh; cases hh), by omega, fun _ _ => rfl, ?_⟩
        rw [if_pos hh]; exact view_none h1
      · obtain ⟨w, e1, e2, e3⟩ := add_ok (i := m + i) (cfg := a) (view_none h1) hx true
        refine ⟨w, ?_, by omega, fun _ => by omega, by omega, fun j hj => by rw [e3, if_neg (by omega)], ?_⟩
        · rw [if_neg hh, e1]; rfl
        · rw [e3, if_pos rfl, if_neg hh]
    obtain ⟨w1, e1, e2, e3, e4, e5, e6⟩ := key
    obtain ⟨w, f1, f2, f3, f4, f5, f6⟩ := bootAccs_ok m l (i + 1) { s with wallets := w1 } e2
      (fun b hb => h2 b (List.mem_cons_of_mem _ hb))
    have f4 : w1.length ≤ w.length := f4
    have f5 : ∀ j, j < m + (i + 1) → w[j]?.join = w1[j]?.join := f5
    refine ⟨w, ?_, ?_, ?_, by omega, fun j hj => by rw [f5 j (by omega), e5 j hj], ?_⟩
    · unfold bootAccs; rw [e1]; exact f1
    · rw [List.length_cons]; omega
    · intro ht _
      rw [List.length_cons]
      cases l with
      | nil =>
        have := e3 (ht a rfl)
        simp only [List.length_nil] at f2 ⊢; omega
      | cons b l =>
        have := f3 (fun y hy => ht y (by rw [List.getLast?_cons_cons]; exact hy)) (List.cons_ne_nil _ _)
        omega
    · intro k b hk
      cases k with
      | zero =>
        cases hk
        exact ⟨x, hx, by rw [Nat.add_zero, f5 _ (by omega), e6]⟩
      | succ k =>
        obtain ⟨y, hy, e⟩ := f6 k b (by rw [List.getElem?_cons_succ] at hk; exact hk)
        exact ⟨y, hy, by rw [← e]; exact congrArg (fun z => w[z]?.join) (by omega)⟩

/-! ### what is kept -/

structure Inv (c : Conf) (s : Sys) : Prop where
  stored : s.stored = s.accounts
  num : s.storedNum = s.num
  len : max c.maxKey s.wallets.length = c.maxKey + s.accounts.length
  has : ∀ i a, s.accounts[i]? = some a → ∃ x, s.files a.key = some x ∧
    view s (c.maxKey + i) = if a.hidden then none else some (a, x)

theorem inv_boot {c : Conf} (hc : c.keyFiles.length ≤ c.maxKey) {s : Sys} (ht : Tail s.stored)
    (hf : ∀ a ∈ s.stored, ∃ x, s.files a.key = some x) : Inv c (boot c s) ∧ (boot c s).accounts = s.stored ∧
      (boot c s).num = s.storedNum := by
  obtain ⟨w1, e1, l1⟩ := bootKeys_ok s.storedNum c.maxKey c.keyFiles 0
    { s with accounts := s.stored, num := s.storedNum, wallets := [] } (Nat.zero_le _) (by omega)
  obtain ⟨w, e2, l2, l3, _, _, l5⟩ := bootAccs_ok c.maxKey s.stored 0
    { s with accounts := s.stored, num := s.storedNum, wallets := w1 } l1 hf
  have e : boot c s = { s with accounts := s.stored, num := s.storedNum, wallets := w } := by
    unfold boot; rw [e1]; exact e2
  rw [e]
  refine ⟨⟨rfl, rfl, ?_, fun i a h => ?_⟩, rfl, rfl⟩
  · show max c.maxKey w.length = c.maxKey + s.stored.length
    by_cases h : s.stored = []
    · rw [h] at l2 ⊢; simp only [List.length_nil] at l2 ⊢; omega
    · have := l3 ht h; omega
  · obtain ⟨x, hx, hv⟩ := l5 i a h
    exact ⟨x, hx, hv⟩

theorem Inv.files {c : Conf} {s : Sys} (h : Inv c s) : ∀ a ∈ s.stored, ∃ x, s.files a.key = some x := by
  intro a ha
  rw [h.stored] at ha
  obtain ⟨i, hi, rfl⟩ := List.getElem_of_mem ha
  obtain ⟨x, hx, _⟩ := h.has i _ (List.getElem?_eq_getElem hi)
  exact ⟨x, hx⟩

theorem Inv.none {c : Conf} {s : Sys} (h : Inv c s) {i : Nat} (hi : s.accounts.length ≤ i) : view s (c.maxKey + i) = .none :=
  view_none (by have := h.len; omega)

theorem inv_create {c : Conf} {s s' : Sys} (h : Inv c s) {cfg : Acc} (hh : cfg.hidden = false) {p w : Bool}
    (e : create c cfg p w s = .ok s') : Inv c s' ∧ s'.accounts = s.accounts ++ [cfg] ∧ s'.num = s.num ∧ s'.files = s.files := by
  unfold create at e
  by_cases hn : cfg.num < 1 ∨ cfg.num > c.maxAddr
  · rw [if_pos hn] at e; cases e
  rw [if_neg hn] at e
  have hv : view s (max c.maxKey s.wallets.length) = .none := view_none (by omega)
  cases hf : s.files cfg.key with
  | none =>
    obtain ⟨w', k, _⟩ : ∃ w', add (max c.maxKey s.wallets.length) cfg p s = .fail { s with wallets := w' } ∧ True := by
      unfold add room; rw [if_pos (by omega)]; simp only [hf]; exact ⟨_, rfl, trivial⟩
    rw [k] at e; cases e
  | some x =>
    obtain ⟨w', k1, k2, k3⟩ := add_ok hv hf p
    cases p with
    | false => rw [k1] at e; cases e
    | true =>
      rw [k1] at e
      cases w with
      | false => cases e
      | true =>
        cases e
        refine ⟨⟨rfl, h.num, ?_, fun i a ha => ?_⟩, rfl, rfl, rfl⟩
        · show max c.maxKey w'.length = c.maxKey + (s.accounts ++ [cfg]).length
          have := h.len
          rw [List.length_append, List.length_singleton]; omega
        · show ∃ x, s.files a.key = some x ∧ w'[c.maxKey + i]?.join = _
          have ha : (s.accounts ++ [cfg])[i]? = some a := ha
          have hl := h.len
          by_cases hi : i < s.accounts.length
          · rw [List.getElem?_append_left hi] at ha
            obtain ⟨y, hy, hv⟩ := h.has i a ha
            exact ⟨y, hy, by rw [k3, if_neg (by omega)]; exact hv⟩
          · rw [List.getElem?_append_right (by omega)] at ha
            have hi' : i - s.accounts.length = 0 := by
              apply Classical.byContradiction
              intro k
              rw [List.getElem?_eq_none (by rw [List.length_singleton]; omega)] at ha; cases ha
            rw [hi'] at ha; cases ha
            exact ⟨x, hf, by rw [k3, if_pos (by omega), hh]; rfl⟩

theorem modify_eq {l : List Acc} {i : Nat} {a : Acc} (f : Acc → Acc) (h : l[i]? = some a) : l.modify i f = l.set i (f a) := by
  apply List.ext_getElem?
  intro j
  by_cases e : i = j
  · subst e
    have hi : i < l.length := (List.getElem?_eq_some_iff.1 h).1
    rw [List.getElem?_set_self hi, List.getElem?_modify, h]; simp
  · rw [List.getElem?_set_ne e, List.getElem?_modify]
    cases l[j]? with
    | none => rfl
    | some b => simp [e]

theorem inv_step {c : Conf} (hc : c.keyFiles.length ≤ c.maxKey) {s s' : Sys} (h : Inv c s) {e : Ev} (hs : e.Safe c s)
    (he : step c s e = .ok s') :
    Inv c s' ∧ (⟨s'.num, s'.accounts⟩ : Spec) = Spec.step c.maxKey ⟨s.num, s.accounts⟩ e := by
  cases e with
  | create cfg p w =>
    obtain ⟨k1, k2, k3, _⟩ := inv_create h hs he
    exact ⟨k1, by rw [k2, k3]; rfl⟩
  | importW cfg x p w =>
    have he : importW c cfg x p w s = .ok s' := he
    unfold importW at he
    by_cases hx : (s.files cfg.key).isSome ∧ s.files cfg.key ≠ some x
    · simp only [if_pos hx] at he; cases he
    simp only [if_neg hx] at he
    have h' : Inv c { s with files := put s.files cfg.key (some x) } := by
      refine ⟨h.stored, h.num, h.len, fun i a ha => ?_⟩
      obtain ⟨y, hy, hv⟩ := h.has i a ha
      refine ⟨y, ?_, hv⟩
      show put s.files cfg.key (some x) a.key = some y
      unfold put
      by_cases ek : a.key = cfg.key
      · rw [if_pos ek]; rw [ek] at hy
        apply Classical.byContradiction
        intro k; exact hx ⟨by rw [hy]; rfl, fun z => by rw [hy] at z; exact k z.symm⟩
      · rw [if_neg ek]; exact hy
    have hw : (withNum cfg s.num).hidden = false := by
      unfold withNum
      by_cases k : cfg.num = 0
      · rw [if_pos k]; exact hs
      · rw [if_neg k]; exact hs
    cases hcr : create c (withNum cfg s.num) p w { s with files := put s.files cfg.key (some x) } with
    | ok s2 =>
      rw [hcr] at he; cases he
      obtain ⟨k1, k2, k3, _⟩ := inv_create h' hw hcr
      exact ⟨k1, by rw [k2, k3]; rfl⟩
    | fail s2 => rw [hcr] at he; cases he
    | ub => rw [hcr] at he; cases he
  | remove i w =>
    have he : remove c i w s = .ok s' := he
    unfold remove at he
    by_cases h1 : i < c.maxKey
    · rw [if_pos h1] at he; cases he
    rw [if_neg h1] at he
    by_cases h2 : (view s i).isNone = true
    · rw [if_pos h2] at he; cases he
    rw [if_neg h2] at he
    cases ha : s.accounts[i - c.maxKey]? with
    | none => rw [ha] at he; cases he
    | some a =>
      rw [ha] at he
      cases w with
      | false => cases he
      | true =>
        cases he
        have hl := h.len
        have hi : i - c.maxKey < s.accounts.length := (List.getElem?_eq_some_iff.1 ha).1
        have hw : i < s.wallets.length := by omega
        refine ⟨⟨rfl, h.num, ?_, fun j b hb => ?_⟩, ?_⟩
        · show max c.maxKey (s.wallets.set i none).length = c.maxKey + (s.accounts.set _ _).length
          rw [List.length_set, List.length_set]; exact hl
        · show ∃ x, s.files b.key = some x ∧ (s.wallets.set i none)[c.maxKey + j]?.join = _
          rw [join_set _ _ _ _ hw]
          have hb : (s.accounts.set (i - c.maxKey) { a with hidden := true })[j]? = some b := hb
          by_cases ej : i - c.maxKey = j
          · subst ej
            rw [List.getElem?_set_self hi] at hb; cases hb
            obtain ⟨x, hx, _⟩ := h.has _ a ha
            exact ⟨x, hx, by rw [if_pos (by omega)]; rfl⟩
          · rw [List.getElem?_set_ne ej] at hb
            rw [if_neg (by omega)]
            exact h.has j b hb
        · show (⟨s.num, s.accounts.set _ _⟩ : Spec) = ⟨s.num, s.accounts.modify _ _⟩
          rw [modify_eq _ ha]
  | setCount i n p w =>
    have he : setCount c i n p w s = .ok s' := he
    unfold setCount at he
    by_cases h1 : n < 1 ∨ n > c.maxAddr
    · rw [if_pos h1] at he; cases he
    rw [if_neg h1] at he
    by_cases h2 : i ≥ c.maxKey
    · rw [if_pos h2] at he
      have hs : (if i < c.maxKey then Tail s.accounts else (view s i).isSome) := hs
      rw [if_neg (by omega)] at hs
      cases ha : s.accounts[i - c.maxKey]? with
      | none => rw [ha] at he; cases he
      | some a =>
        rw [ha] at he
        have hl := h.len
        have hi : i - c.maxKey < s.accounts.length := (List.getElem?_eq_some_iff.1 ha).1
        have hw : i < s.wallets.length := by omega
        simp only [if_neg (show ¬ i ≥ s.wallets.length by omega)] at he
        obtain ⟨x, hx, hvx⟩ := h.has _ a ha
        have hah : a.hidden = false := by
          cases ek : a.hidden with
          | false => rfl
          | true =>
            rw [ek, if_pos rfl, show c.maxKey + (i - c.maxKey) = i by omega] at hvx
            rw [hvx] at hs; cases hs
        obtain ⟨w', k1, k2, k3⟩ := add_ok (i := i) (cfg := { a with num := n }) (x := x) (s :=
            { s with accounts := s.accounts.set (i - c.maxKey) { a with num := n }, wallets := s.wallets.set i none })
            (by show (s.wallets.set i none)[i]?.join = _; rw [join_set _ _ _ _ hw, if_pos rfl]) hx p
        rw [k1] at he
        cases p with
        | false => cases he
        | true =>
          cases w with
          | false => cases he
          | true =>
            cases he
            have k2 : w'.length = max (s.wallets.set i none).length (i + 1) := k2
            rw [List.length_set] at k2
            have k3 : ∀ j, w'[j]?.join = if j = i then some ({ a with num := n }, x) else
                (s.wallets.set i none)[j]?.join := k3
            refine ⟨⟨rfl, h.num, ?_, fun j b hb => ?_⟩, ?_⟩
            · show max c.maxKey w'.length = c.maxKey + (s.accounts.set _ _).length
              rw [List.length_set]; omega
            · show ∃ x, s.files b.key = some x ∧ w'[c.maxKey + j]?.join = _
              rw [k3]
              have hb : (s.accounts.set (i - c.maxKey) { a with num := n })[j]? = some b := hb
              by_cases ej : i - c.maxKey = j
              · subst ej
                rw [List.getElem?_set_self hi] at hb; cases hb
                exact ⟨x, hx, by rw [if_pos (by omega)]; show _ = if a.hidden then _ else _; rw [hah]; rfl⟩
              · rw [List.getElem?_set_ne ej] at hb
                rw [if_neg (by omega), join_set _ _ _ _ hw, if_neg (by omega)]
                exact h.has j b hb
            · show (⟨s.num, s.accounts.set _ _⟩ : Spec) = if i < c.maxKey then _ else ⟨s.num, s.accounts.modify _ _⟩
              rw [modify_eq _ ha, if_neg (by omega)]
    · rw [if_neg h2] at he
      have hs : (if i < c.maxKey then Tail s.accounts else (view s i).isSome) := hs
      rw [if_pos (by omega)] at hs
      have ht : Tail s.accounts := hs
      cases w with
      | false => cases he
      | true =>
        cases he
        obtain ⟨k1, k2, k3⟩ := inv_boot hc (s := { s with storedNum := n }) (by show Tail s.stored; rw [h.stored]; exact ht)
          h.files
        refine ⟨k1, ?_⟩
        rw [k2, k3]
        show (⟨n, s.stored⟩ : Spec) = if i < c.maxKey then ⟨n, s.accounts⟩ else _
        rw [if_pos (by omega), h.stored]
  | restart =>
    cases he
    have hs : Tail s.accounts := hs
    obtain ⟨k1, k2, k3⟩ := inv_boot hc (s := s) (by rw [h.stored]; exact hs) h.files
    refine ⟨k1, ?_⟩
    rw [k2, k3, h.stored, h.num]; rfl

theorem inv_good {c : Conf} (hc : c.keyFiles.length ≤ c.maxKey) {s s' : Sys} {evs : List Ev} (g : Good c s evs s') :
    Inv c s → Inv c s' ∧ (⟨s'.num, s'.accounts⟩ : Spec) = evs.foldl (Spec.step c.maxKey) ⟨s.num, s.accounts⟩ := by
  induction g with
  | nil s => exact fun h => ⟨h, rfl⟩
  | done hs he _ ih =>
    intro h
    obtain ⟨k1, k2⟩ := inv_step hc h hs he
    obtain ⟨k3, k4⟩ := ih k1
    exact ⟨k3, by rw [k4, k2]; rfl⟩
  | refused _ _ ih => exact ih

/-- **C176.** From any start, through any calls and restarts: the account with a number is the one created as such, with
    the addresses last asked for it and the seed of its key file, until it is removed; then there is none.  For calls as
    in `Good` and `Ev.Safe`: what is missing are calls that fail half-way, and restarts while the last account is a
    removed one, for which the claim is false. -/
theorem C176_kept_partial {c : Conf} (hc : c.keyFiles.length ≤ c.maxKey) {s s' : Sys} {evs : List Ev}
    (ht : Tail s.stored) (hf : ∀ a ∈ s.stored, ∃ x, s.files a.key = some x) (g : Good c (boot c s) evs s') (i : Nat) :
    match (evs.foldl (Spec.step c.maxKey) ⟨s.storedNum, s.stored⟩).list[i]? with
    | none => view s' (c.maxKey + i) = none
    | some a => if a.hidden then view s' (c.maxKey + i) = none else
      ∃ x, s'.files a.key = some x ∧ view s' (c.maxKey + i) = some (a, x) := by
  obtain ⟨h, h1, h2⟩ := inv_boot hc ht hf
  obtain ⟨k1, k2⟩ := inv_good hc g h
  rw [h1, h2] at k2
  rw [← k2]
  show match s'.accounts[i]? with
    | none => _
    | some a => _
  cases ha : s'.accounts[i]? with
  | none => exact k1.none (by rw [List.getElem?_eq_none_iff] at ha; exact ha)
  | some a =>
    obtain ⟨x, hx, hv⟩ := k1.has i a ha
    show if a.hidden then _ else _
    by_cases hh : a.hidden = true
    · rw [if_pos hh] at hv ⊢; exact hv
    · rw [if_neg hh] at hv ⊢; exact ⟨x, hx, hv⟩

/-! ### without conditions -/

theorem bootKeys_files (num : Nat) : ∀ (l : List Nat) (i : Nat) (s : Sys), (bootKeys num i l s).files = s.files
  | [], _, _ => rfl
  | k :: l, i, s => by
    unfold bootKeys
    rw [bootKeys_files num l]
    obtain ⟨w, h, _⟩ := add_frame i ⟨k, num, 0, false⟩ true s
    rcases h with h | h <;> rw [h] <;> rfl

theorem bootAccs_files (m : Nat) : ∀ (l : List Acc) (i : Nat) (s : Sys), (bootAccs m i l s).files = s.files
  | [], _, _ => rfl
  | a :: l, i, s => by
    unfold bootAccs
    rw [bootAccs_files m l]
    by_cases hh : a.hidden = true
    · rw [if_pos hh]
    · rw [if_neg hh]
      obtain ⟨w, h, _⟩ := add_frame (m + i) a true s
      rcases h with h | h <;> rw [h] <;> rfl

theorem boot_files (c : Conf) (s : Sys) : (boot c s).files = s.files := by
  unfold boot; rw [bootAccs_files, bootKeys_files]

/-- A call ends in this state, successfully or not. -/
def Ends (o : Out) (s : Sys) : Prop := o = .ok s ∨ o = .fail s

theorem create_frame {c : Conf} {cfg : Acc} {p w : Bool} {s s' : Sys} (h : Ends (create c cfg p w s) s') :
    s'.files = s.files ∧ ∀ j y, view s j = some y → view s' j = some y := by
  unfold create at h
  by_cases hn : cfg.num < 1 ∨ cfg.num > c.maxAddr
  · rw [if_pos hn] at h
    rcases h with h | h <;> cases h
    exact ⟨rfl, fun _ _ h => h⟩
  rw [if_neg hn] at h
  obtain ⟨w', k, _, k3, k4⟩ := add_frame (max c.maxKey s.wallets.length) cfg p s
  have kv : ∀ j y, view s j = some y → w'[j]?.join = some y := by
    intro j y hj
    by_cases e : j = max c.maxKey s.wallets.length
    · subst e; exact k4 y hj
    · rw [k3 j e, hj]
  rcases k with k | k <;> rw [k] at h
  · cases w <;> rcases h with h | h <;> cases h <;> exact ⟨rfl, kv⟩
  · rcases h with h | h <;> cases h <;> exact ⟨rfl, kv⟩

/-- **C176.** No call, also none that fails, changes the seed in a key file or removes one that was there before. -/
theorem C176_keys {c : Conf} {s s' : Sys} {e : Ev} (h : Ends (step c s e) s') {k x : Nat} (hk : s.files k = some x) :
    s'.files k = some x := by
  cases e with
  | create cfg p w => rw [(create_frame h).1]; exact hk
  | importW cfg y p w =>
    have h : Ends (importW c cfg y p w s) s' := h
    unfold importW at h
    by_cases hx : (s.files cfg.key).isSome ∧ s.files cfg.key ≠ some y
    · simp only [if_pos hx] at h
      rcases h with h | h <;> cases h; exact hk
    simp only [if_neg hx] at h
    have hp : put s.files cfg.key (some y) k = some x := by
      unfold put
      by_cases ek : k = cfg.key
      · rw [if_pos ek]; rw [ek] at hk
        apply Classical.byContradiction
        intro z; exact hx ⟨by rw [hk]; rfl, fun z' => by rw [hk] at z'; exact z z'.symm⟩
      · rw [if_neg ek]; exact hk
    cases hcr : create c (withNum cfg s.num) p w { s with files := put s.files cfg.key (some y) } with
    | ok s2 =>
      have := (create_frame (.inl hcr)).1
      rw [hcr] at h
      rcases h with h | h <;> cases h
      rw [this]; exact hp
    | fail s2 =>
      have := (create_frame (.inr hcr)).1
      rw [hcr] at h
      rcases h with h | h <;> cases h
      by_cases ho : (s.files cfg.key).isNone = true
      · rw [if_pos ho]
        show put s2.files cfg.key none k = some x
        have ek : k ≠ cfg.key := fun z => by rw [← z, hk] at ho; cases ho
        unfold put
        rw [if_neg ek, this]; exact hp
      · rw [if_neg ho, this]; exact hp
    | ub => rw [hcr] at h; rcases h with h | h <;> cases h
  | remove i w =>
    have h : Ends (remove c i w s) s' := h
    unfold remove at h
    by_cases h1 : i < c.maxKey
    · rw [if_pos h1] at h; rcases h with h | h <;> cases h; exact hk
    rw [if_neg h1] at h
    by_cases h2 : (view s i).isNone = true
    · rw [if_pos h2] at h; rcases h with h | h <;> cases h; exact hk
    rw [if_neg h2] at h
    cases ha : s.accounts[i - c.maxKey]? with
    | none => rw [ha] at h; rcases h with h | h <;> cases h; exact hk
    | some a => rw [ha] at h; cases w <;> rcases h with h | h <;> cases h <;> exact hk
  | setCount i n p w =>
    have h : Ends (setCount c i n p w s) s' := h
    unfold setCount at h
    by_cases h1 : n < 1 ∨ n > c.maxAddr
    · rw [if_pos h1] at h; rcases h with h | h <;> cases h; exact hk
    rw [if_neg h1] at h
    by_cases h2 : i ≥ c.maxKey
    · rw [if_pos h2] at h
      cases ha : s.accounts[i - c.maxKey]? with
      | none => rw [ha] at h; rcases h with h | h <;> cases h; exact hk
      | some a =>
        rw [ha] at h
        by_cases h3 : i ≥ s.wallets.length
        · simp only [if_pos h3] at h; rcases h with h | h <;> cases h
        simp only [if_neg h3] at h
        obtain ⟨w', k', _⟩ := add_frame i { a with num := n } p
          { s with accounts := s.accounts.set (i - c.maxKey) { a with num := n }, wallets := s.wallets.set i none }
        rcases k' with k' | k' <;> rw [k'] at h
        · cases w <;> rcases h with h | h <;> cases h <;> exact hk
        · rcases h with h | h <;> cases h; exact hk
    · rw [if_neg h2] at h
      cases w <;> rcases h with h | h <;> cases h
      · exact hk
      · rw [boot_files]; exact hk
  | restart =>
    rcases h with h | h <;> cases h
    rw [boot_files]; exact hk

/-- **C176.** As long as the program runs, no account gets into the place of another: creating and importing accounts
    changes none of those that are there. -/
theorem C176_stable {c : Conf} {s s' : Sys} {e : Ev} (h : Ends (step c s e) s')
    (he : (∃ cfg p w, e = .create cfg p w) ∨ ∃ cfg x p w, e = .importW cfg x p w) {j : Nat} {y : Acc × Nat}
    (hj : view s j = some y) : view s' j = some y := by
  rcases he with ⟨cfg, p, w, rfl⟩ | ⟨cfg, x, p, w, rfl⟩
  · exact (create_frame h).2 j y hj
  · have h : Ends (importW c cfg x p w s) s' := h
    unfold importW at h
    by_cases hx : (s.files cfg.key).isSome ∧ s.files cfg.key ≠ some x
    · simp only [if_pos hx] at h
      rcases h with h | h <;> cases h; exact hj
    simp only [if_neg hx] at h
    cases hcr : create c (withNum cfg s.num) p w { s with files := put s.files cfg.key (some x) } with
    | ok s2 =>
      rw [hcr] at h
      rcases h with h | h <;> cases h
      exact (create_frame (.inl hcr)).2 j y hj
    | fail s2 =>
      have := (create_frame (.inr hcr)).2 j y hj
      rw [hcr] at h
      rcases h with h | h <;> cases h
      by_cases ho : (s.files cfg.key).isNone = true
      · rw [if_pos ho]; exact this
      · rw [if_neg ho]; exact this
    | ub => rw [hcr] at h; rcases h with h | h <;> cases h

/-! ### what goes wrong -/

def conf0 : Conf := ⟨100, 10000, []⟩

/-- Three key files. -/
def sys0 : Sys := ⟨fun k => if k = 1 then some 11 else if k = 2 then some 22 else if k = 3 then some 33 else none, [], [],
  100, [], 100⟩

/-- What is seen at the end. -/
def seen (o : Out) (i : Nat) : Option (Option (Acc × Nat)) :=
  match o with
  | .ok s => some (view s i)
  | _ => none

/-- An account of one address. -/
def acc (k : Nat) : Acc := ⟨k, 1, 0, false⟩

/-- Two accounts, the first removed, the number of addresses of the other changed, then a restart. -/
example : ∃ s', Good conf0 (boot conf0 sys0) [.create (acc 1) true true, .create (acc 2) true true, .remove 100 true,
    .setCount 101 5 true true, .restart] s' ∧ view s' 100 = none ∧ view s' 101 = some (⟨2, 5, 0, false⟩, 22) :=
  ⟨_, .done rfl rfl (.done rfl rfl (.done trivial rfl (.done rfl rfl (.done (by
    intro a h; cases h; rfl) rfl (.nil _))))), by decide, by decide⟩

/-- **C176.** After an attempt to create an account whose key file is missing, removing an account removes another one for
    good: here 1 is removed, and after a restart 1 is there and 2 is not. -/
theorem C176_other_removed :
    let before := run conf0 (boot conf0 sys0) [.create (acc 9) true true, .create (acc 1) true true,
      .create (acc 2) true true]
    let after := run conf0 (boot conf0 sys0) [.create (acc 9) true true, .create (acc 1) true true,
      .create (acc 2) true true, .remove 101 true, .restart]
    seen before 101 = some (some (acc 1, 11)) ∧ seen before 102 = some (some (acc 2, 22)) ∧
    seen after 100 = some (some (acc 1, 11)) ∧ seen after 101 = some none ∧ seen after 102 = some none := by
  decide

/-- **C176.** After a restart while the last account is a removed one, the next account gets the number of the removed
    one; asking for more addresses for it brings the removed account back in its place. -/
theorem C176_swapped :
    let before := run conf0 (boot conf0 sys0) [.create (acc 1) true true, .create (acc 2) true true, .remove 101 true,
      .restart, .create (acc 3) true true]
    let after := run conf0 (boot conf0 sys0) [.create (acc 1) true true, .create (acc 2) true true, .remove 101 true,
      .restart, .create (acc 3) true true, .setCount 101 5 true true]
    let again := run conf0 (boot conf0 sys0) [.create (acc 1) true true, .create (acc 2) true true, .remove 101 true,
      .restart, .create (acc 3) true true, .restart]
    seen before 101 = some (some (acc 3, 33)) ∧ seen after 101 = some (some (⟨2, 5, 0, true⟩, 22)) ∧
    seen again 101 = some none ∧ seen again 102 = some (some (acc 3, 33)) := by
  decide

/-- A call with undefined behaviour. -/
def isUb : Out → Bool
  | .ub => true
  | _ => false

/-- **C176.** Setting the number of addresses of an account removed before the last start writes outside the list. -/
theorem C176_outside : isUb (run conf0 (boot conf0 sys0) [.create (acc 1) true true, .remove 100 true, .restart,
    .setCount 100 5 true true]) = true := by decide

/-- **C176.** If the permissions of a new key file cannot be set the import fails and the file is deleted, but the account
    is shown and can be used until the next start: what was sent to it is lost then. -/
theorem C176_lost :
    let s := run conf0 (boot conf0 sys0) [.importW (acc 7) 77 false true]
    let t := run conf0 (boot conf0 sys0) [.importW (acc 7) 77 false true, .restart]
    seen s 100 = some (some (acc 7, 77)) ∧ ((s.st sys0).files 7 = none) ∧ seen t 100 = some none := by
  decide

end Verif.Wallet.Acc
