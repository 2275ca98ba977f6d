import Verif.VM.Code
/-
  C16: serialization of bytecode.
-/
namespace Verif.VM
open Verif.Codec (Bytes le)

/-! ## Specification -/

/-- Number of operands of each operation as listed in instr_t.h. -/
def operandCount : List (Nat × Nat) :=
  [(0x00, 0), (0x01, 1), (0x02, 2), (0x03, 2), (0x04, 1), (0x05, 2), (0x06, 2), (0x07, 2), (0x08, 0),
   (0x20, 3), (0x21, 3), (0x22, 3), (0x23, 3), (0x24, 3),
   (0x40, 2), (0x41, 3), (0x42, 3), (0x43, 3), (0x44, 3), (0x45, 3), (0x46, 3), (0x47, 3),
   (0x60, 3), (0x61, 3), (0x62, 3), (0x63, 3), (0x64, 3), (0x65, 3),
   (0x80, 2), (0x81, 2), (0x82, 3), (0x83, 3), (0x84, 2), (0x85, 2), (0x86, 2),
   (0xA0, 4), (0xA1, 3), (0xA2, 4), (0xA3, 2), (0xA4, 4),
   (0xC0, 2), (0xC1, 4), (0xC2, 3), (0xC3, 2), (0xC4, 2), (0xC5, 4), (0xC6, 3), (0xC7, 2)]

/-- An instruction without junk: the operands its operation does not have are zero. -/
def Plain (i : Instr) : Prop :=
  ∃ n, (i.code, n) ∈ operandCount ∧
    (n ≤ 3 → i.d = 0) ∧ (n ≤ 2 → i.c = 0) ∧ (n ≤ 1 → i.b = 0) ∧ (n ≤ 0 → i.a = 0)

/-! ## Helper lemmas -/

theorem nargs_table : ∀ p ∈ operandCount, nargs p.1 = p.2 := by decide

theorem nargs_le (k : Nat) : nargs k ≤ 4 := by
  unfold nargs; split <;> omega

theorem findIdx?_some_get {l : List Nat} {s i : Nat} (h : l.findIdx? (· == s) = some i) :
    l[i]? = some s := by
  rw [List.findIdx?_eq_some_iff_getElem] at h
  obtain ⟨h1, h2, _⟩ := h
  rw [List.getElem?_eq_getElem h1]
  simpa using h2

theorem symAt_ok {syms : List Nat} {i x : Nat} {s : Bytes} (h : syms[i]? = some x) :
    symAt syms i s = .ok (x, s) := by unfold symAt; rw [h]

theorem le_split (m k n : Nat) : le (m + k) n = le m n ++ le k (n / 256 ^ m) := by
  induction m generalizing n with
  | zero => simp [le]
  | succ m ih =>
    rw [show m + 1 + k = (m + k) + 1 by omega]
    simp only [le, List.cons_append]
    rw [ih, Nat.div_div_eq_div_mul, Nat.pow_succ, Nat.mul_comm (256 ^ m)]

theorem le_mod (k n : Nat) : le k n = le k (n % 256 ^ k) := by
  induction k generalizing n with
  | zero => rfl
  | succ k ih =>
    simp only [le]
    rw [ih (n / 256), ih (n % 256 ^ (k + 1) / 256)]
    have h1 : n % 256 ^ (k + 1) % 256 = n % 256 := by
      rw [Nat.pow_succ, Nat.mul_comm, Nat.mod_mul_right_mod]
    have h2 : n % 256 ^ (k + 1) / 256 = n / 256 % 256 ^ k := by
      rw [Nat.pow_succ, Nat.mul_comm, Nat.mod_mul_right_div_self]
    rw [h1, h2, Nat.mod_mod]

theorem rd_le_mod {k n : Nat} (t : Bytes) : rd k (le k n ++ t) = .ok (n % 256 ^ k, t) := by
  rw [le_mod, rd_le _ (Nat.mod_lt _ (Nat.pow_pos (by decide)))]

theorem decode_short (syms : List Nat) (i x : Nat) (t : Bytes) (h1 : i < 0xFF)
    (hg : syms[i]? = some x) : decodeSymbol syms (le 1 i ++ t) = .ok (x, t) := by
  unfold decodeSymbol
  rw [rd_le t (by omega)]
  simp only [Res.bind_ok]
  rw [if_pos h1, symAt_ok hg]

theorem decode_long (syms : List Nat) (y : Nat) (t : Bytes) (hy : y < 65536) :
    decodeSymbol syms (le 3 (y * 256 + 0xFF) ++ t) =
      if y < 0x7FFF then symAt syms (y + 0xFF) t
      else if y < 0xFFFF then .ok (y % 0x8000, t) else rd 4 t := by
  have e1 : (y * 256 + 0xFF) % 256 ^ 1 = 0xFF := by omega
  have e2 : (y * 256 + 0xFF) / 256 ^ 1 % 256 ^ 2 = y := by omega
  unfold decodeSymbol
  rw [le_split 1 2, List.append_assoc, rd_le_mod, e1]
  simp only [Res.bind_ok]
  rw [if_neg (Nat.lt_irrefl _), rd_le_mod, e2]
  simp only [Res.bind_ok]

theorem decode_raw (syms : List Nat) (x : Nat) (t : Bytes) (hx : x < 2 ^ 32) :
    decodeSymbol syms (le 7 (x * 2 ^ 24 + 0xFFFFFF) ++ t) = .ok (x, t) := by
  have e : le 7 (x * 2 ^ 24 + 0xFFFFFF) = le 3 (65535 * 256 + 255) ++ le 4 x := by
    rw [le_split 3 4, le_mod 3]
    have e1 : (x * 2 ^ 24 + 0xFFFFFF) % 256 ^ 3 = 65535 * 256 + 255 := by omega
    have e2 : (x * 2 ^ 24 + 0xFFFFFF) / 256 ^ 3 = x := by omega
    rw [e1, e2]
  rw [e, List.append_assoc, decode_long syms 65535 _ (by decide), if_neg (by decide),
    if_neg (by decide), rd_le _ (by omega)]

theorem decodeSymbol_encode (syms : List Nat) (hl : syms.length ≤ 0x7FFF + 0xFF) (x : Nat)
    (hx : x < 2 ^ 32) (t : Bytes) :
    decodeSymbol syms (encodeSymbol syms x ++ t) = .ok (x, t) := by
  unfold encodeSymbol
  split
  · rename_i i hi
    have hg := findIdx?_some_get hi
    have hil : i < syms.length := by
      by_cases h : i < syms.length; exact h
      rw [List.getElem?_eq_none (by omega)] at hg; cases hg
    split
    · rename_i h1
      exact decode_short syms i x t h1 hg
    · rename_i h1
      rw [decode_long syms _ t (by omega), if_pos (by omega)]
      rw [Nat.sub_add_cancel (by omega), symAt_ok hg]
  · split
    · rename_i h1
      rw [decode_long syms _ t (by omega), if_neg (by omega), if_pos (by omega)]
      have : (0x8000 + x) % 0x8000 = x := by omega
      rw [this]
    · exact decode_raw syms x t hx

theorem decodeSymbols_encode (syms : List Nat) (hl : syms.length ≤ 0x7FFF + 0xFF) (t : Bytes) :
    ∀ (l : List Nat), (∀ x ∈ l, x < 2 ^ 32) →
    decodeSymbols syms l.length (l.flatMap (encodeSymbol syms) ++ t) = .ok (l, t)
  | [], _ => rfl
  | x :: l, h => by
    simp only [List.flatMap_cons, List.length_cons, decodeSymbols, List.append_assoc]
    rw [decodeSymbol_encode syms hl x (h x (List.mem_cons_self ..))]
    simp only [Res.bind_ok]
    rw [decodeSymbols_encode syms hl t l (fun y hy => h y (List.mem_cons_of_mem _ hy))]
    rfl

theorem rdMany_map {α : Type} (f : Bytes → Res (α × Bytes)) (e : α → Bytes) (t : Bytes) :
    ∀ (l : List α), (∀ x ∈ l, ∀ t, f (e x ++ t) = .ok (x, t)) →
    rdMany f l.length (l.flatMap e ++ t) = .ok (l, t)
  | [], _ => rfl
  | x :: l, h => by
    simp only [List.flatMap_cons, List.length_cons, rdMany, List.append_assoc]
    rw [h x (List.mem_cons_self ..)]
    simp only [Res.bind_ok]
    rw [rdMany_map f e t l (fun y hy => h y (List.mem_cons_of_mem _ hy))]
    rfl

theorem operands_length (i : Instr) : (operands i).length = nargs i.code := by
  unfold operands; rw [List.length_take]; exact Nat.min_eq_left (nargs_le _)

theorem decodeOne_encode (syms : List Nat) (hl : syms.length ≤ 0x7FFF + 0xFF) (i : Instr)
    (hw : i.Wf) (hp : Plain i) (t : Bytes) :
    decodeOne syms (encodeOne syms i ++ t) = .ok (i, t) := by
  unfold decodeOne encodeOne
  have h1 := hw.code
  have h2 := hw.flags
  rw [List.append_assoc, decodeSymbol_encode syms hl _ (by unfold encodeInstr; omega)]
  simp only [Res.bind_ok]
  have hc : encodeInstr i % 256 = i.code := by unfold encodeInstr; omega
  have hf : encodeInstr i / 256 % 256 = i.flags := by unfold encodeInstr; omega
  rw [hc, hf, ← operands_length i, decodeSymbols_encode syms hl t]
  · simp only [Res.bind_ok]
    obtain ⟨n, hn, p1, p2, p3, p4⟩ := hp
    have hna : nargs i.code = n := nargs_table _ hn
    have hn4 : n ≤ 4 := hna ▸ nargs_le _
    obtain ⟨code, flags, a, b, c, d⟩ := i
    dsimp only at *
    unfold operands
    dsimp only
    rw [hna]
    have hcases : n = 0 ∨ n = 1 ∨ n = 2 ∨ n = 3 ∨ n = 4 := by omega
    rcases hcases with rfl | rfl | rfl | rfl | rfl
    · simp [p1, p2, p3, p4]
    · simp [p1, p2, p3]
    · simp [p1, p2]
    · simp [p1]
    · simp
  · intro x hx
    have := List.mem_of_mem_take hx
    simp only [List.mem_cons, List.not_mem_nil, or_false] at this
    rcases this with rfl | rfl | rfl | rfl
    · exact hw.a
    · exact hw.b
    · exact hw.c
    · exact hw.d

theorem symInsert_mem {x y : Nat × Nat} {l : List (Nat × Nat)} :
    y ∈ symInsert x l → y = x ∨ y ∈ l := by
  induction l with
  | nil => simp [symInsert]
  | cons z l ih =>
    unfold symInsert
    split
    · simp
    · intro h
      rcases List.mem_cons.1 h with rfl | h
      · right; exact List.mem_cons_self ..
      · rcases ih h with h | h
        · left; exact h
        · right; exact List.mem_cons_of_mem _ h

theorem foldr_symInsert_mem {y : Nat × Nat} {l : List (Nat × Nat)} :
    y ∈ l.foldr symInsert [] → y ∈ l := by
  induction l with
  | nil => simp
  | cons z l ih =>
    intro h
    rcases symInsert_mem h with rfl | h
    · exact List.mem_cons_self ..
    · exact List.mem_cons_of_mem _ (ih h)

theorem symList_sub (code : List Instr) : ∀ x ∈ symList code, x ∈ symUses code := by
  intro x hx
  unfold symList at hx
  have h1 := List.mem_of_mem_take hx
  obtain ⟨p, hp, rfl⟩ := List.mem_map.1 h1
  have h2 := foldr_symInsert_mem hp
  have h3 := List.mem_filter.1 h2 |>.1
  unfold symCount at h3
  obtain ⟨s, hs, rfl⟩ := List.mem_map.1 h3
  exact List.mem_eraseDups.1 hs

theorem symUses_lt (code : List Instr) (hw : ∀ i ∈ code, i.Wf) : ∀ x ∈ symUses code, x < 2 ^ 32 := by
  intro x hx
  obtain ⟨i, hi, hx⟩ := List.mem_flatMap.1 hx
  have w := hw i hi
  rcases List.mem_append.1 hx with h | h
  · have := List.mem_of_mem_take h
    simp only [List.mem_cons, List.not_mem_nil, or_false] at this
    rcases this with rfl | rfl | rfl | rfl
    · exact w.a
    · exact w.b
    · exact w.c
    · exact w.d
  · rw [List.mem_singleton] at h
    have h1 := w.code
    have h2 := w.flags
    unfold encodeInstr at h
    omega

theorem symList_length (code : List Instr) : (symList code).length ≤ 0x7FFF + 0xFF := by
  unfold symList; rw [List.length_take]; exact Nat.min_le_left _ _

theorem local_symAt (syms : List Nat) (i : Nat) : Local (symAt syms i) := by
  unfold symAt
  cases syms[i]? with
  | none => exact local_throw
  | some x => exact local_ok x

theorem local_ite {α : Type} {c : Prop} [Decidable c] {f g : Bytes → Res (α × Bytes)}
    (hf : Local f) (hg : Local g) : Local (fun s => if c then f s else g s) := by
  by_cases h : c
  · simpa only [if_pos h] using hf
  · simpa only [if_neg h] using hg

theorem local_decodeSymbol (syms : List Nat) : Local (decodeSymbol syms) := by
  refine local_bind (local_rd 1) fun f => ?_
  dsimp only
  refine local_ite (c := f < 0xFF) (local_symAt _ _) ?_
  refine local_bind (local_rd 2) fun x => ?_
  dsimp only
  exact local_ite (c := x < 0x7FFF) (local_symAt _ _)
    (local_ite (c := x < 0xFFFF) (local_ok _) (local_rd 4))

theorem local_decodeSymbols (syms : List Nat) : ∀ n, Local (decodeSymbols syms n)
  | 0 => local_ok _
  | n + 1 => by
    refine local_bind (local_decodeSymbol syms) fun x => ?_
    dsimp only
    refine local_bind (local_decodeSymbols syms n) fun l => ?_
    dsimp only
    exact local_ok _

theorem local_decodeOne (syms : List Nat) : Local (decodeOne syms) := by
  refine local_bind (local_decodeSymbol syms) fun w => ?_
  dsimp only
  refine local_bind (local_decodeSymbols syms _) fun l => ?_
  dsimp only
  exact local_ok _

theorem local_rdMany {α : Type} {f : Bytes → Res (α × Bytes)} (hf : Local f) : ∀ n, Local (rdMany f n)
  | 0 => local_ok _
  | n + 1 => by
    refine local_bind hf fun x => ?_
    dsimp only
    refine local_bind (local_rdMany hf n) fun l => ?_
    dsimp only
    exact local_ok _

theorem local_chk {α : Type} {c : Prop} [Decidable c] {f : Bytes → Res (α × Bytes)} (hf : Local f) :
    Local (fun s => Res.chk c >>= fun _ => f s) := by
  unfold Res.chk
  by_cases h : c
  · simpa only [if_pos h, Res.bind_ok] using hf
  · simpa only [if_neg h, Res.bind_throw] using local_throw

theorem local_deserializeCode : Local deserializeCode := by
  refine local_bind (local_rd 1) fun v => ?_
  dsimp only
  refine local_chk (c := v = 1) ?_
  refine local_bind (local_rd 4) fun n => ?_
  dsimp only
  refine local_chk (c := ¬ n > 0x7FFF + 0xFF) ?_
  refine local_bind (local_rdMany (local_rd 4) n) fun syms => ?_
  dsimp only
  refine local_bind (local_rd 4) fun m => ?_
  dsimp only
  exact local_rdMany (local_decodeOne syms) m

theorem rdMany_length {α : Type} (f : Bytes → Res (α × Bytes)) :
    ∀ n s l r, rdMany f n s = .ok (l, r) → l.length = n
  | 0, s, l, r, h => by cases h; rfl
  | n + 1, s, l, r, h => by
    simp only [rdMany] at h
    obtain ⟨⟨x, s1⟩, h1, h⟩ := Res.bind_eq_ok.1 h
    obtain ⟨⟨l1, s2⟩, h2, h⟩ := Res.bind_eq_ok.1 h
    cases h
    simp [rdMany_length f n _ _ _ h2]

theorem rdMany_all {α : Type} {f : Bytes → Res (α × Bytes)} {P : α → Prop}
    (hf : ∀ s a r, (∀ x ∈ s, x < 256) → f s = .ok (a, r) → P a ∧ ∀ x ∈ r, x < 256) :
    ∀ n s l r, (∀ x ∈ s, x < 256) → rdMany f n s = .ok (l, r) → (∀ a ∈ l, P a) ∧ ∀ x ∈ r, x < 256
  | 0, s, l, r, hs, h => by cases h; exact ⟨by simp, hs⟩
  | n + 1, s, l, r, hs, h => by
    simp only [rdMany] at h
    obtain ⟨⟨x, s1⟩, h1, h⟩ := Res.bind_eq_ok.1 h
    obtain ⟨⟨l1, s2⟩, h2, h⟩ := Res.bind_eq_ok.1 h
    cases h
    have w1 := hf _ _ _ hs h1
    have w2 := rdMany_all hf n _ _ _ w1.2 h2
    refine ⟨fun a ha => ?_, w2.2⟩
    rcases List.mem_cons.1 ha with rfl | ha
    · exact w1.1
    · exact w2.1 a ha

theorem symAt_mem {syms : List Nat} {i x : Nat} {s r : Bytes} (h : symAt syms i s = .ok (x, r)) :
    x ∈ syms ∧ r = s := by
  unfold symAt at h
  split at h
  · rename_i y hy
    cases h
    exact ⟨List.mem_of_getElem? hy, rfl⟩
  · cases h

theorem decodeSymbol_wf {syms : List Nat} (hsy : ∀ x ∈ syms, x < 2 ^ 32) (s : Bytes) (a : Nat)
    (r : Bytes) (hs : ∀ x ∈ s, x < 256) (h : decodeSymbol syms s = .ok (a, r)) :
    a < 2 ^ 32 ∧ ∀ x ∈ r, x < 256 := by
  unfold decodeSymbol at h
  obtain ⟨⟨f, s1⟩, h1, h⟩ := Res.bind_eq_ok.1 h
  have w1 := rd_wf hs h1
  dsimp only at h
  split at h
  · obtain ⟨h2, rfl⟩ := symAt_mem h; exact ⟨hsy _ h2, w1.2⟩
  · obtain ⟨⟨x, s2⟩, h2, h⟩ := Res.bind_eq_ok.1 h
    have w2 := rd_wf w1.2 h2
    dsimp only at h
    split at h
    · obtain ⟨h3, rfl⟩ := symAt_mem h; exact ⟨hsy _ h3, w2.2⟩
    · split at h
      · cases h; exact ⟨by omega, w2.2⟩
      · have := rd_wf w2.2 h; exact ⟨by omega, this.2⟩

theorem decodeSymbols_wf {syms : List Nat} (hsy : ∀ x ∈ syms, x < 2 ^ 32) :
    ∀ (n : Nat) (s : Bytes) (l : List Nat) (r : Bytes), (∀ x ∈ s, x < 256) →
      decodeSymbols syms n s = .ok (l, r) → (∀ x ∈ l, x < 2 ^ 32) ∧ l.length = n ∧ ∀ x ∈ r, x < 256
  | 0, s, l, r, hs, h => by cases h; exact ⟨by simp, rfl, hs⟩
  | n + 1, s, l, r, hs, h => by
    simp only [decodeSymbols] at h
    obtain ⟨⟨x, s1⟩, h1, h⟩ := Res.bind_eq_ok.1 h
    obtain ⟨⟨l1, s2⟩, h2, h⟩ := Res.bind_eq_ok.1 h
    cases h
    have w1 := decodeSymbol_wf hsy _ _ _ hs h1
    have w2 := decodeSymbols_wf hsy n _ _ _ w1.2 h2
    refine ⟨fun a ha => ?_, by simp [w2.2.1], w2.2.2⟩
    rcases List.mem_cons.1 ha with rfl | ha
    · exact w1.1
    · exact w2.1 a ha

theorem decodeOne_wf {syms : List Nat} (hsy : ∀ x ∈ syms, x < 2 ^ 32) (s : Bytes) (i : Instr)
    (r : Bytes) (hs : ∀ x ∈ s, x < 256) (h : decodeOne syms s = .ok (i, r)) :
    i.Wf ∧ ∀ x ∈ r, x < 256 := by
  unfold decodeOne at h
  obtain ⟨⟨w, s1⟩, h1, h⟩ := Res.bind_eq_ok.1 h
  obtain ⟨⟨l, s2⟩, h2, h⟩ := Res.bind_eq_ok.1 h
  cases h
  have w1 := decodeSymbol_wf hsy _ _ _ hs h1
  have w2 := decodeSymbols_wf hsy _ _ _ _ w1.2 h2
  have hg : ∀ k : Nat, (l[k]?).getD 0 < 2 ^ 32 := by
    intro k
    cases hk : l[k]? with
    | none => decide
    | some x => exact w2.1 x (List.mem_of_getElem? hk)
  exact ⟨⟨Nat.mod_lt _ (by decide), Nat.mod_lt _ (by decide), hg 0, hg 1, hg 2, hg 3⟩, w2.2.2⟩

/-! ## C16 -/

/-- Every program survives serialization, with anything following it in the buffer. -/
theorem C16_round_trip (code : List Instr) (hw : ∀ i ∈ code, i.Wf) (hp : ∀ i ∈ code, Plain i)
    (hlen : code.length < 2 ^ 32) (t : Bytes) :
    deserializeCode (serializeCode code ++ t) = .ok (code, t) := by
  unfold deserializeCode serializeCode
  have hl := symList_length code
  simp only [List.append_assoc]
  rw [rd_le _ (by decide)]
  simp only [Res.bind_ok]
  rw [Res.chk, if_pos trivial, Res.bind_ok, rd_le _ (by omega)]
  simp only [Res.bind_ok]
  rw [Res.chk, if_pos (by omega), Res.bind_ok,
    rdMany_map (rd 4) (le 4) _ (symList code)
      (fun x hx t => rd_le t (by have := symUses_lt code hw x (symList_sub code x hx); omega))]
  simp only [Res.bind_ok]
  rw [rd_le _ (by omega)]
  simp only [Res.bind_ok]
  exact rdMany_map _ _ _ code (fun i hi t => decodeOne_encode _ hl i (hw i hi) (hp i hi) t)

/-- A cut program is never accepted. -/
theorem C16_truncation (code : List Instr) (hw : ∀ i ∈ code, i.Wf) (hp : ∀ i ∈ code, Plain i)
    (hlen : code.length < 2 ^ 32) (n : Nat) (hn : n < (serializeCode code).length)
    (c : List Instr) (r : Bytes) :
    deserializeCode ((serializeCode code).take n) ≠ .ok (c, r) := by
  intro h
  obtain ⟨q, hq, hloc⟩ := local_deserializeCode _ _ _ h
  have h1 := hloc (r ++ (serializeCode code).drop n)
  rw [← List.append_assoc, ← hq, List.take_append_drop] at h1
  have h2 := C16_round_trip code hw hp hlen []
  rw [List.append_nil, h1] at h2
  have h3 := (Prod.mk.inj (Res.ok.inj h2)).2
  have h4 := congrArg List.length h3
  simp at h4
  omega

/-- Two different programs have different serialized forms. -/
theorem C16_injective (c1 c2 : List Instr) (hw1 : ∀ i ∈ c1, i.Wf) (hp1 : ∀ i ∈ c1, Plain i)
    (hl1 : c1.length < 2 ^ 32) (hw2 : ∀ i ∈ c2, i.Wf) (hp2 : ∀ i ∈ c2, Plain i)
    (hl2 : c2.length < 2 ^ 32) (h : serializeCode c1 = serializeCode c2) : c1 = c2 := by
  have h1 := C16_round_trip c1 hw1 hp1 hl1 []
  rw [h, C16_round_trip c2 hw2 hp2 hl2 []] at h1
  exact (Prod.mk.inj (Res.ok.inj h1)).1.symm

/-- Whatever bytes are deployed, reading them gives instructions with fields in range and
    depends only on the bytes consumed. -/
theorem C16_any_input (s : Bytes) (hs : ∀ x ∈ s, x < 256) (code : List Instr) (r : Bytes)
    (h : deserializeCode s = .ok (code, r)) :
    (∀ i ∈ code, i.Wf) ∧ ∃ p, s = p ++ r ∧ ∀ t, deserializeCode (p ++ t) = .ok (code, t) := by
  refine ⟨?_, local_deserializeCode _ _ _ h⟩
  unfold deserializeCode at h
  obtain ⟨⟨v, s1⟩, h1, h⟩ := Res.bind_eq_ok.1 h
  obtain ⟨_, h⟩ := Res.chk_bind.1 h
  obtain ⟨⟨n, s2⟩, h2, h⟩ := Res.bind_eq_ok.1 h
  obtain ⟨_, h⟩ := Res.chk_bind.1 h
  obtain ⟨⟨syms, s3⟩, h3, h⟩ := Res.bind_eq_ok.1 h
  obtain ⟨⟨m, s4⟩, h4, h⟩ := Res.bind_eq_ok.1 h
  have w1 := rd_wf hs h1
  have w2 := rd_wf w1.2 h2
  have w3 := rdMany_all (P := fun x => x < 2 ^ 32)
    (fun s a r hs h => by have := rd_wf hs h; exact ⟨by omega, this.2⟩) _ _ _ _ w2.2 h3
  have w4 := rd_wf w3.2 h4
  exact (rdMany_all (fun s a r hs h => decodeOne_wf w3.1 s a r hs h) _ _ _ _ w4.2 h).1

/-- Junk in operands an operation does not have is dropped, so the hypothesis `Plain` is needed. -/
theorem C16_junk_dropped :
    deserializeCode (serializeCode [{ code := 0x04, a := 7, b := 9 }]) =
      .ok ([{ code := 0x04, a := 7 }], []) := by decide +kernel

/-! ## Non-vacuity -/

def exCode : List Instr :=
  [{ code := 0x20, flags := 0x20, a := 0x8000001, b := 0x8000001, c := 5 },
   { code := 0x20, flags := 0x20, a := 0x8000001, b := 0x8000002, c := 0x7FFF }, { code := 0x08 }]

example : (∀ i ∈ exCode, i.Wf) ∧ (∀ i ∈ exCode, Plain i) := by
  refine ⟨fun i hi => ?_, fun i hi => ?_⟩
  · simp only [exCode, List.mem_cons, List.not_mem_nil, or_false] at hi
    rcases hi with rfl | rfl | rfl <;> constructor <;> decide
  · simp only [exCode, List.mem_cons, List.not_mem_nil, or_false] at hi
    rcases hi with rfl | rfl | rfl
    · exact ⟨3, by decide, by decide⟩
    · exact ⟨3, by decide, by decide⟩
    · exact ⟨0, by decide, by decide⟩
example : symList exCode = [0x8000001, 0x2020] := by decide +kernel
example : deserializeCode (serializeCode exCode) = .ok (exCode, []) := by decide +kernel
example : serializeCode exCode =
    [1, 2, 0, 0, 0, 1, 0, 0, 8, 0x20, 0x20, 0, 0, 3, 0, 0, 0,
     1, 0, 0, 255, 5, 128, 1, 0, 255, 255, 255, 2, 0, 0, 8, 255, 255, 255, 255, 127, 0, 0, 255, 8, 128] := by
  decide +kernel

end Verif.VM
