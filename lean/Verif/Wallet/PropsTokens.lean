import Verif.Wallet.Tokens
/-
  C186: the list of tokens of a wallet is what the user made it, also after a restart.
-/
namespace Verif.Wallet.Tokens

theorem mem_put {a b : Nat} {l : List Nat} : b ∈ put a l ↔ b = a ∨ b ∈ l := by
  unfold put
  by_cases h : a ∈ l
  · rw [if_pos h]
    exact ⟨Or.inr, fun k => k.elim (fun e => e ▸ h) id⟩
  · rw [if_neg h]; exact List.mem_cons

theorem mem_del {a b : Nat} {l : List Nat} : b ∈ del a l ↔ b ∈ l ∧ b ≠ a := by
  unfold del
  rw [List.mem_filter, decide_eq_true_iff]

theorem mem_start {given file : List Nat} {b : Nat} : b ∈ (start given file).mem ↔ b = mmx ∨ b ∈ given ∨ b ∈ file := by
  unfold start
  rw [mem_put, List.mem_append]

/-- What the user did with a token last: added it, removed it, or neither. A call that fails counts as none. -/
def lastDone (b : Nat) : Option Bool → List (Ev × Bool) → Option Bool
  | r, [] => r
  | r, (.add a _ _, ok) :: l => lastDone b (if ok ∧ a = b then some true else r) l
  | r, (.rem a _ _, ok) :: l => lastDone b (if ok ∧ a = b then some false else r) l
  | r, (.restart, _) :: l => lastDone b r l

/-- The events, each with whether it succeeded. -/
def outcomes : St → List Ev → List (Ev × Bool)
  | _, [] => []
  | s, e :: l => (e, match exec s e with | .ok _ => true | _ => false) :: outcomes (step s e) l

/-- What holds of a token at all times: the file has it as the user left it; memory has it if it is the coin, or as the user left it, up to what
    the network has. -/
structure Right (s : St) (b : Nat) (init : Bool) (r : Option Bool) : Prop where
  file : b ∈ s.file ↔ (r.getD init) = true
  mem1 : (b = mmx ∨ r.getD init = true) → b ∈ s.mem
  mem2 : b ∈ s.mem → b = mmx ∨ b ∈ s.given ∨ r.getD init = true
  mem3 : r ≠ some false → b ∈ s.given → b ∈ s.mem

theorem Right.reload {s : St} {b : Nat} {i : Bool} {r : Option Bool} (h : Right s b i r) : Right (reload s) b i r := by
  refine ⟨h.file, fun k => ?_, fun k => ?_, fun _ k => ?_⟩
  · exact mem_start.2 (k.elim Or.inl fun k => Or.inr (Or.inr (h.file.2 k)))
  · rcases mem_start.1 k with k | k | k
    · exact Or.inl k
    · exact Or.inr (Or.inl k)
    · exact Or.inr (Or.inr (h.file.1 k))
  · exact mem_start.2 (Or.inr (Or.inl k))

theorem add_parts {s s' : St} {a : Nat} {w d : Bool} (h : addToken s a w d = .ok s') :
    s' = Tokens.reload { s with file := put a s.file } ∨ s' = { s with file := put a s.file, mem := put a s.mem } := by
  unfold addToken at h
  by_cases k : w = false
  · rw [if_pos k] at h; cases h
  · rw [if_neg k] at h
    dsimp only at h
    cases d with
    | true => exact Or.inl (Res.ok.inj h).symm
    | false => exact Or.inr (Res.ok.inj h).symm

theorem rem_parts {s s' : St} {a : Nat} {w d : Bool} (h : remToken s a w d = .ok s') :
    a ∈ s.file ∧ (s' = Tokens.reload { s with file := del a s.file } ∨ (a ≠ mmx ∧ s' = { s with file := del a s.file, mem := del a s.mem }) ∨
      (a = mmx ∧ s' = { s with file := del a s.file })) := by
  unfold remToken at h
  by_cases k : a ∈ s.file
  · rw [if_pos k] at h
    refine ⟨k, ?_⟩
    by_cases k : w = false
    · rw [if_pos k] at h; cases h
    · rw [if_neg k] at h
      dsimp only at h
      cases d with
      | true => exact Or.inl (Res.ok.inj h).symm
      | false =>
        rw [if_neg Bool.false_ne_true] at h
        by_cases g : a ≠ mmx
        · rw [if_pos g] at h; exact Or.inr (Or.inl ⟨g, (Res.ok.inj h).symm⟩)
        · rw [if_neg g] at h; exact Or.inr (Or.inr ⟨Classical.not_not.1 g, (Res.ok.inj h).symm⟩)
  · rw [if_neg k] at h; cases h

theorem Right.add {s s' : St} {a b : Nat} {w d i : Bool} {r : Option Bool} (hr : Right s b i r) (h : addToken s a w d = .ok s') :
    Right s' b i (if a = b then some true else r) := by
  have main : Right { s with file := put a s.file, mem := put a s.mem } b i (if a = b then some true else r) := by
    by_cases e : a = b
    · rw [if_pos e]
      exact ⟨⟨fun _ => rfl, fun _ => mem_put.2 (Or.inl e.symm)⟩, fun _ => mem_put.2 (Or.inl e.symm), fun _ => Or.inr (Or.inr rfl),
        fun _ _ => mem_put.2 (Or.inl e.symm)⟩
    · rw [if_neg e]
      have n : ¬b = a := fun k => e k.symm
      refine ⟨?_, fun k => mem_put.2 (Or.inr (hr.mem1 k)), fun k => hr.mem2 ((mem_put.1 k).resolve_left n), fun k g => mem_put.2 (Or.inr (hr.mem3 k g))⟩
      exact ⟨fun k => hr.file.1 ((mem_put.1 k).resolve_left n), fun k => mem_put.2 (Or.inr (hr.file.2 k))⟩
  rcases add_parts h with e | e
  · rw [e]; exact (main.reload : _)
  · rw [e]; exact main

theorem Right.rem {s s' : St} {a b : Nat} {w d i : Bool} {r : Option Bool} (hr : Right s b i r) (h : remToken s a w d = .ok s') :
    Right s' b i (if a = b then some false else r) := by
  have file : b ∈ del a s.file ↔ (if a = b then some false else r).getD i = true := by
    by_cases e : a = b
    · rw [if_pos e]
      exact ⟨fun k => absurd e.symm (mem_del.1 k).2, fun k => nomatch k⟩
    · rw [if_neg e, mem_del]
      exact ⟨fun k => hr.file.1 k.1, fun k => ⟨hr.file.2 k, fun k => e k.symm⟩⟩
  have main : a ≠ mmx → Right { s with file := del a s.file, mem := del a s.mem } b i (if a = b then some false else r) := by
    intro hm
    refine ⟨file, fun k => ?_, fun k => ?_, fun k g => ?_⟩
    · by_cases e : a = b
      · rw [if_pos e] at k
        exact k.elim (fun k => absurd (e.trans k) hm) (fun k => nomatch k)
      · rw [if_neg e] at k
        exact mem_del.2 ⟨hr.mem1 k, fun k => e k.symm⟩
    · have n : ¬a = b := fun e => (mem_del.1 k).2 e.symm
      rw [if_neg n]
      exact hr.mem2 (mem_del.1 k).1
    · by_cases e : a = b
      · rw [if_pos e] at k; exact absurd rfl k
      · rw [if_neg e] at k
        exact mem_del.2 ⟨hr.mem3 k g, fun k => e k.symm⟩
  have coin : a = mmx → Right { s with file := del a s.file } b i (if a = b then some false else r) := by
    intro hm
    by_cases e : a = b
    · rw [if_pos e] at file ⊢
      have hb : b = mmx := e.symm.trans hm
      exact ⟨file, fun _ => hr.mem1 (Or.inl hb), fun _ => Or.inl hb, fun _ _ => hr.mem1 (Or.inl hb)⟩
    · rw [if_neg e] at file ⊢
      exact ⟨file, hr.mem1, hr.mem2, hr.mem3⟩
  obtain ⟨-, e | ⟨g, e⟩ | ⟨g, e⟩⟩ := rem_parts h
  · rw [e]
    by_cases g : a ≠ mmx
    · exact ((main g).reload : _)
    · exact (coin (Classical.not_not.1 g)).reload
  · rw [e]; exact main g
  · rw [e]; exact coin g

theorem run_right (b : Nat) (i : Bool) : ∀ (l : List Ev) (s : St) (r : Option Bool), Right s b i r → Right (run s l) b i (lastDone b r (outcomes s l))
  | [], _, _, h => h
  | e :: l, s, r, h => by
    change Right (run (step s e) l) b i _
    unfold outcomes
    cases hx : exec s e with
    | ok s' =>
      have es : step s e = s' := by unfold step; rw [hx]
      rw [es]
      cases e with
      | add a w d =>
        have k := run_right b i l s' _ (h.add hx)
        unfold lastDone
        simpa only [true_and] using k
      | rem a w d =>
        have k := run_right b i l s' _ (h.rem hx)
        unfold lastDone
        simpa only [true_and] using k
      | restart =>
        have e' := (Res.ok.inj hx).symm
        exact run_right b i l s' r (e' ▸ h.reload)
    | throw =>
      have es : step s e = s := by unfold step; rw [hx]
      rw [es]
      have k := run_right b i l s r h
      cases e <;> (unfold lastDone; simpa using k)
    | ub =>
      have es : step s e = s := by unfold step; rw [hx]
      rw [es]
      have k := run_right b i l s r h
      cases e <;> (unfold lastDone; simpa using k)

theorem start_right (given file : List Nat) (b : Nat) : Right (start given file) b (decide (b ∈ file)) none := by
  refine ⟨?_, fun k => ?_, fun k => ?_, fun _ k => mem_start.2 (Or.inr (Or.inl k))⟩
  · exact (decide_eq_true_iff).symm
  · exact mem_start.2 (k.elim Or.inl fun k => Or.inr (Or.inr (of_decide_eq_true k)))
  · rcases mem_start.1 k with k | k | k
    · exact Or.inl k
    · exact Or.inr (Or.inl k)
    · exact Or.inr (Or.inr (decide_eq_true k))

theorem run_given (l : List Ev) : ∀ s : St, (run s l).given = s.given := by
  induction l with
  | nil => exact fun _ => rfl
  | cons e l ih =>
    intro s
    change (run (step s e) l).given = _
    rw [ih]
    unfold step
    cases hx : exec s e with
    | throw => rfl
    | ub => rfl
    | ok s' =>
      dsimp only
      cases e with
      | add a w d => rcases add_parts hx with k | k <;> rw [k] <;> rfl
      | rem a w d => obtain ⟨-, k | ⟨-, k⟩ | ⟨-, k⟩⟩ := rem_parts hx <;> rw [k] <;> rfl
      | restart => rw [(Res.ok.inj hx).symm]; rfl

/-! ### the list that is shown -/

theorem mem_collect (t : Nat → Bool) : ∀ (l out : List Nat) (b : Nat), b ∈ collect t l out ↔ b ∈ out ∨ (b ∈ l ∧ t b = true)
  | [], out, b => ⟨Or.inl, fun k => k.elim id fun k => absurd k.1 List.not_mem_nil⟩
  | a :: l, out, b => by
    unfold collect
    rw [mem_collect t l _ b, List.mem_cons]
    by_cases h : t a = true
    · rw [if_pos h, mem_put]
      constructor
      · rintro ((k | k) | k)
        · exact Or.inr ⟨Or.inl k, k ▸ h⟩
        · exact Or.inl k
        · exact Or.inr ⟨Or.inr k.1, k.2⟩
      · rintro (k | ⟨k | k, g⟩)
        · exact Or.inl (Or.inr k)
        · exact Or.inl (Or.inl k)
        · exact Or.inr ⟨k, g⟩
    · rw [if_neg h]
      constructor
      · rintro (k | k)
        · exact Or.inl k
        · exact Or.inr ⟨Or.inr k.1, k.2⟩
      · rintro (k | ⟨k | k, g⟩)
        · exact Or.inl k
        · rw [k] at g; exact absurd g h
        · exact Or.inr ⟨k, g⟩

/-- C186. The list shown is the coin, and of the addresses known those where the chain has a token. -/
theorem C186_list (isToken : Nat → Bool) (s : St) (b : Nat) : b ∈ tokenList isToken s ↔ b = mmx ∨ (b ∈ s.mem ∧ isToken b = true) := by
  unfold tokenList
  rw [mem_collect, List.mem_singleton]

/-- C186. After any calls, failures and restarts: a token that the user added last, or that was in the user's list or the network's and that the
    user did not remove, is known; and after a restart as well. -/
theorem C186_kept (given file : List Nat) (l : List Ev) (b : Nat)
    (h : lastDone b none (outcomes (start given file) l) = some true ∨
      (lastDone b none (outcomes (start given file) l) = none ∧ (b ∈ file ∨ b ∈ given)) ∨ b = mmx) :
    b ∈ (run (start given file) l).mem ∧ b ∈ (run (start given file) (l ++ [.restart])).mem := by
  have key : ∀ r, lastDone b none (outcomes (start given file) l) = r → ∀ s, Right s b (decide (b ∈ file)) r → s.given = given → b ∈ s.mem := by
    intro r hr s k hg
    rw [hr] at h
    rcases h with h | ⟨h, h1 | h1⟩ | h
    · exact k.mem1 (Or.inr (by rw [h]; rfl))
    · exact k.mem1 (Or.inr (by rw [h]; exact decide_eq_true h1))
    · exact k.mem3 (by rw [h]; exact fun k => nomatch k) (hg ▸ h1)
    · exact k.mem1 (Or.inl h)
  have hr := run_right b _ l _ _ (start_right given file b)
  have ea : run (start given file) (l ++ [.restart]) = reload (run (start given file) l) := by
    unfold run
    rw [List.foldl_append]
    rfl
  exact ⟨key _ rfl _ hr (run_given l _), by rw [ea]; exact key _ rfl _ hr.reload (run_given l _)⟩

/-- C186. A token that is not the coin and not in the network's list, and that the user removed last or never added, is not known, and stays so
    after a restart. -/
theorem C186_gone_partial (given file : List Nat) (l : List Ev) (b : Nat) (hc : b ≠ mmx) (hg : b ∉ given)
    (h : lastDone b none (outcomes (start given file) l) = some false ∨
      (lastDone b none (outcomes (start given file) l) = none ∧ b ∉ file)) :
    b ∉ (run (start given file) l).mem ∧ b ∉ (run (start given file) (l ++ [.restart])).mem := by
  have hr := run_right b _ l _ _ (start_right given file b)
  have hno : (lastDone b none (outcomes (start given file) l)).getD (decide (b ∈ file)) = false := by
    rcases h with h | ⟨h, k⟩
    · rw [h]; rfl
    · rw [h]; exact decide_eq_false k
  have hnf : b ∉ (run (start given file) l).file := fun k => by rw [hr.file, hno] at k; cases k
  have hgiven : b ∉ (run (start given file) l).given := fun k => hg (by rw [run_given] at k; exact k)
  have ea : run (start given file) (l ++ [.restart]) = reload (run (start given file) l) := by
    unfold run
    rw [List.foldl_append]
    rfl
  refine ⟨fun k => ?_, fun k => ?_⟩
  · rcases hr.mem2 k with k | k | k
    · exact hc k
    · exact hgiven k
    · rw [hno] at k; cases k
  · rw [ea] at k
    rcases mem_start.1 k with k | k | k
    · exact hc k
    · exact hgiven k
    · exact hnf k

/-- C186. A call fails, and then changes nothing, only if the settings cannot be written, or for a removal of what the user's list does not have. -/
theorem C186_fails (s : St) (a : Nat) (w d : Bool) :
    (addToken s a w d = .throw ↔ w = false) ∧ (remToken s a w d = .throw ↔ w = false ∨ a ∉ s.file) := by
  unfold addToken remToken
  cases w <;> cases d <;> by_cases h : a ∈ s.file <;> by_cases k : a ≠ mmx <;> simp [h, k]

/-- C186, false of tokens in the network's list: they cannot be removed, unless the user adds them first; and then they are back after a restart. -/
theorem C186_comes_back :
    let s := start [7] []
    remToken s 7 true false = .throw ∧
    7 ∉ (run s [.add 7 true false, .rem 7 true false]).mem ∧ 7 ∈ (run s [.add 7 true false, .rem 7 true false, .restart]).mem := by
  decide +kernel

/-! ### an example -/

/-- A token of the network, one added and kept, one added and removed; the program ends in the middle of a call. -/
def exEvents : List Ev := [.add 5 true true, .add 6 true false, .rem 8 true false, .rem 6 false false, .rem 6 true true, .restart]

example : lastDone 5 none (outcomes (start [7] [4]) exEvents) = some true ∧ lastDone 6 none (outcomes (start [7] [4]) exEvents) = some false ∧
    lastDone 7 none (outcomes (start [7] [4]) exEvents) = none ∧ lastDone 8 none (outcomes (start [7] [4]) exEvents) = none ∧
    (run (start [7] [4]) exEvents).mem = [0, 7, 5, 4] ∧ tokenList (fun a => decide (a = 5)) (run (start [7] [4]) exEvents) = [5, 0] := by
  decide +kernel

end Verif.Wallet.Tokens
