/-
  C195: an address is found with the wallet that has it.
-/
import Verif.Wallet.Find

namespace Verif.Wallet.Find

def look (m : List (Nat × Nat)) (a : Nat) : Option Nat := (m.find? fun e => e.1 == a).map (·.2)

theorem look_set (m : List (Nat × Nat)) (b i a : Nat) : look (mapSet m b i) a = if a = b then some i else look m a := by
  unfold look mapSet
  by_cases h : a = b
  · subst h
    simp
  · have h' : (b == a) = false := by simpa using fun k => h k.symm
    rw [if_neg h, List.find?_cons, h']
    dsimp only
    rw [List.find?_filter]
    congr 2
    funext e
    by_cases k : e.1 = a
    · simp [k, h]
    · simp [k]

theorem look_fill : ∀ (l : List Nat) (k : Nat) (m : List (Nat × Nat)) (a : Nat),
    (a ∈ l → ∃ i, look (fill l k m) a = some (k + i) ∧ l[i]? = some a) ∧ (a ∉ l → look (fill l k m) a = look m a)
  | [], _, _, _ => ⟨(fun h => nomatch h), fun _ => rfl⟩
  | b :: l, k, m, a => by
    obtain ⟨h1, h2⟩ := look_fill l (k + 1) (mapSet m b k) a
    unfold fill
    by_cases h : a ∈ l
    · obtain ⟨i, e1, e2⟩ := h1 h
      exact ⟨fun _ => ⟨i + 1, by rw [e1]; congr 1; omega, by simpa using e2⟩, fun k' => absurd (List.mem_cons_of_mem _ h) k'⟩
    · rw [h2 h, look_set]
      refine ⟨fun hm => ?_, fun hm => ?_⟩
      · rcases List.mem_cons.1 hm with e | e
        · exact ⟨0, by rw [if_pos e]; rfl, by rw [e]; rfl⟩
        · exact absurd e h
      · rw [if_neg (fun e => hm (by rw [e]; exact List.mem_cons_self ..))]

/-- An account as it should be: just its addresses are found, each by a number that it has. -/
def Good (x : Acct) : Prop :=
  (∀ a i, find x a = some i → x.addresses[i]? = some a) ∧ ∀ a ∈ x.addresses, (find x a).isSome

theorem good_fill {l : List Nat} {m : List (Nat × Nat)} (h : ∀ a, a ∉ l → look m a = none) : Good ⟨l, fill l 0 m⟩ := by
  refine ⟨fun a i hf => ?_, fun a ha => ?_⟩
  · obtain ⟨h1, h2⟩ := look_fill l 0 m a
    change look (fill l 0 m) a = some i at hf
    by_cases hl : a ∈ l
    · obtain ⟨j, e1, e2⟩ := h1 hl
      rw [e1, Nat.zero_add] at hf
      rw [← Option.some.inj hf]
      exact e2
    · rw [h2 hl, h a hl] at hf
      nomatch hf
  · obtain ⟨j, e1, -⟩ := (look_fill l 0 m a).1 ha
    change (look (fill l 0 m) a).isSome
    rw [e1]
    rfl

/-- What an account can become: it is made with a list of addresses, and unlocked now and then. -/
inductive Life (derive : Nat → Nat) (n : Nat) (cached : List Nat) : Acct → Prop
  | made : Life derive n cached (make cached)
  | unlocked {x y : Acct} : Life derive n cached x → unlock derive n x = some y → Life derive n cached y

/-- **C195** (partial). An account always finds just its own addresses, with their numbers. Missing: only if the list of addresses that it was
    made with is not longer than the number of addresses set, see `C195_stale`. -/
theorem C195_account_partial {derive : Nat → Nat} {n k : Nat} (hk : k ≤ n) {x : Acct} (h : Life derive n ((List.range k).map derive) x) :
    (∀ a i, find x a = some i → x.addresses[i]? = some a) ∧ ∀ a, (find x a).isSome ↔ a ∈ x.addresses := by
  have good : Good x ∧ ∀ a ∈ x.addresses, a ∈ (List.range n).map derive := by
    induction h with
    | made =>
      refine ⟨good_fill fun _ _ => rfl, fun a ha => ?_⟩
      obtain ⟨i, hi, e⟩ := List.mem_map.1 ha
      exact List.mem_map.2 ⟨i, List.mem_range.2 (Nat.lt_of_lt_of_le (List.mem_range.1 hi) hk), e⟩
    | unlocked _ hu ih =>
      rename_i x y _
      unfold unlock at hu
      by_cases h0 : n = 0
      · rw [if_pos h0] at hu
        rw [← Option.some.inj hu]
        exact ih
      · rw [if_neg h0] at hu
        by_cases hw : wrong derive x = true
        · rw [if_pos hw] at hu
          nomatch hu
        · rw [if_neg hw] at hu
          rw [← Option.some.inj hu]
          refine ⟨good_fill fun a ha => ?_, fun _ k => k⟩
          cases hf : look x.map a with
          | none => rfl
          | some i => exact absurd (ih.2 a (List.mem_of_getElem? (ih.1.1 a i hf))) ha
  refine ⟨good.1.1, fun a => ⟨fun hs => ?_, good.1.2 a⟩⟩
  obtain ⟨i, hi⟩ := Option.isSome_iff_exists.1 hs
  exact List.mem_of_getElem? (good.1.1 a i hi)

theorem findWallet_spec (a : Nat) : ∀ (ws : List (Option Acct)) (k : Nat), (∀ x, some x ∈ ws → ((find x a).isSome ↔ a ∈ x.addresses)) →
    (findWallet a ws k = none → a ∉ allAddresses ws) ∧
    (∀ j, findWallet a ws k = some j → ∃ i x, j = k + i ∧ ws[i]? = some (some x) ∧ a ∈ x.addresses ∧
      ∀ i' x', i' < i → ws[i']? = some (some x') → a ∉ x'.addresses)
  | [], _, _ => ⟨(fun _ k => nomatch k), (fun _ k => nomatch k)⟩
  | none :: l, k, h => by
    obtain ⟨h1, h2⟩ := findWallet_spec a l (k + 1) fun x hx => h x (List.mem_cons_of_mem _ hx)
    refine ⟨h1, fun j hj => ?_⟩
    obtain ⟨i, x, e, e1, e2, e3⟩ := h2 j hj
    refine ⟨i + 1, x, by omega, by simpa using e1, e2, fun i' x' hi hx => ?_⟩
    cases i' with
    | zero => simp at hx
    | succ m => exact e3 m x' (by omega) (by simpa using hx)
  | some y :: l, k, h => by
    obtain ⟨h1, h2⟩ := findWallet_spec a l (k + 1) fun x hx => h x (List.mem_cons_of_mem _ hx)
    have hy := h y (List.mem_cons_self ..)
    unfold findWallet allAddresses
    by_cases hf : (find y a).isSome = true
    · rw [if_pos hf]
      refine ⟨(fun k => nomatch k), fun j hj => ⟨0, y, (Option.some.inj hj).symm, rfl, hy.1 hf, fun i' _ hi => absurd hi (Nat.not_lt_zero _)⟩⟩
    · rw [if_neg hf]
      have hn : a ∉ y.addresses := fun k => hf (hy.2 k)
      refine ⟨fun hk hm => ?_, fun j hj => ?_⟩
      · rcases List.mem_append.1 hm with q | q
        · exact hn q
        · exact h1 hk q
      · obtain ⟨i, x, e, e1, e2, e3⟩ := h2 j hj
        refine ⟨i + 1, x, by omega, by simpa using e1, e2, fun i' x' hi hx => ?_⟩
        cases i' with
        | zero =>
          have : y = x' := by simpa using hx
          rw [← this]
          exact hn
        | succ m => exact e3 m x' (by omega) (by simpa using hx)

theorem mem_all {a : Nat} {x : Acct} (ha : a ∈ x.addresses) : ∀ {ws : List (Option Acct)}, some x ∈ ws → a ∈ allAddresses ws
  | none :: l, h => by
    rcases List.mem_cons.1 h with e | e
    · nomatch e
    · exact mem_all ha (ws := l) e
  | some y :: l, h => by
    rcases List.mem_cons.1 h with e | e
    · have := Option.some.inj e
      subst this
      exact List.mem_append_left _ ha
    · exact List.mem_append_right _ (mem_all ha e)

/-- **C195.** An account that has addresses is unlocked just by a passphrase that gives its first address, and that stays as it is. -/
theorem C195_first {derive : Nat → Nat} {n : Nat} (hn : 0 < n) {x : Acct} {a : Nat} (ha : x.addresses.head? = some a) :
    ((unlock derive n x).isSome ↔ derive 0 = a) ∧
    ∀ y, unlock derive n x = some y → y.addresses.length = n ∧ y.addresses.head? = some a := by
  have hw : wrong derive x = true ↔ derive 0 ≠ a := by
    unfold wrong
    cases hl : x.addresses with
    | nil => rw [hl] at ha; nomatch ha
    | cons b l =>
      rw [hl] at ha
      have : b = a := Option.some.inj ha
      subst this
      rw [bne_iff_ne]
      exact ⟨fun k e => k e.symm, fun k e => k e.symm⟩
  unfold unlock
  rw [if_neg (by omega)]
  by_cases h : derive 0 = a
  · rw [if_neg (fun k => hw.1 k h)]
    refine ⟨⟨fun _ => h, fun _ => rfl⟩, fun y hy => ?_⟩
    rw [← Option.some.inj hy]
    refine ⟨by simp, ?_⟩
    obtain ⟨m, rfl⟩ : ∃ m, n = m + 1 := ⟨n - 1, by omega⟩
    rw [List.range_succ_eq_map]
    simp [h]
  · rw [if_pos (hw.2 h)]
    exact ⟨⟨(fun k => nomatch k), fun k => absurd k h⟩, (fun _ k => nomatch k)⟩

/-- **C195** (partial). `find_wallet_by_addr` gives the first wallet that has the address, and fails just if the address is not among all that
    `get_all_addresses` lists. Missing: as in `C195_account_partial`. -/
theorem C195_wallet_partial (ws : List (Option Acct))
    (h : ∀ x, some x ∈ ws → ∃ derive n k, k ≤ n ∧ Life derive n ((List.range k).map derive) x) (a : Nat) :
    (findWallet a ws 0 = none ↔ a ∉ allAddresses ws) ∧
    ∀ j, findWallet a ws 0 = some j → ∃ x, ws[j]? = some (some x) ∧ a ∈ x.addresses ∧
      ∀ i x', i < j → ws[i]? = some (some x') → a ∉ x'.addresses := by
  obtain ⟨h1, h2⟩ := findWallet_spec a ws 0 fun x hx => by
    obtain ⟨d, n, k, hk, hl⟩ := h x hx
    exact (C195_account_partial hk hl).2 a
  refine ⟨⟨h1, fun hn => ?_⟩, fun j hj => ?_⟩
  · cases hf : findWallet a ws 0 with
    | none => rfl
    | some j =>
      obtain ⟨i, x, -, e1, e2, -⟩ := h2 j hf
      exact absurd (mem_all e2 (List.mem_of_getElem? e1)) hn
  obtain ⟨i, x, e, e1, e2, e3⟩ := h2 j hj
  rw [Nat.zero_add] at e
  subst e
  exact ⟨x, e1, e2, e3⟩

/-- **C195**, where it fails: an account was saved with three addresses and is now set to two. Once it is unlocked the third address is no
    longer among its addresses, but is still found, with a number that it does not have. -/
theorem C195_stale : ∃ x, unlock (· + 10) 2 (make [10, 11, 12]) = some x ∧ x.addresses = [10, 11] ∧ find x 12 = some 2 ∧
    findWallet 12 [some x] 0 = some 0 ∧ 12 ∉ allAddresses [some x] :=
  ⟨⟨[10, 11], fill [10, 11] 0 (fill [10, 11, 12] 0 [])⟩, by decide +kernel, rfl, by decide +kernel, by decide +kernel, by decide +kernel⟩

/-! ### examples -/

example : ∃ x, Life (· + 10) 3 ((List.range 2).map (· + 10)) x ∧ x.addresses = [10, 11, 12] ∧ find x 12 = some 2 ∧ find x 13 = none :=
  ⟨⟨[10, 11, 12], fill [10, 11, 12] 0 (fill [10, 11] 0 [])⟩, .unlocked .made (by decide +kernel), rfl, by decide +kernel, by decide +kernel⟩
/-- Another passphrase is refused, unless there are no addresses yet. -/
example : unlock (· + 20) 3 (make [10, 11]) = none ∧ (unlock (· + 20) 3 (make [])).isSome ∧
    findWallet 11 [none, some (make [10]), some (make [10, 11])] 0 = some 2 ∧ findWallet 9 [none, some (make [10])] 0 = none := by
  decide +kernel

end Verif.Wallet.Find
