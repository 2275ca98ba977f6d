import Verif.Wallet.Text
/-
  Positional notation behind seed words and address strings.
-/
namespace Verif.Wallet
open Verif

/-- Value of digits, least significant first. -/
def leVal (b : Nat) : List Nat → Nat
  | [] => 0
  | d :: ds => d + b * leVal b ds

/-- Value of digits, most significant first. -/
def beVal (b : Nat) (ds : List Nat) : Nat := ds.foldl (fun a d => a * b + d) 0

/-- 32 bytes. -/
def Bytes32 (bs : List Nat) : Prop := bs.length = 32 ∧ ∀ x ∈ bs, x < 256

theorem leVal_lt {b : Nat} {ds : List Nat} (h : ∀ x ∈ ds, x < b) : leVal b ds < b ^ ds.length := by
  induction ds with
  | nil => simp [leVal]
  | cons d ds ih =>
    have h1 := ih fun x hx => h x (List.mem_cons_of_mem _ hx)
    have h2 := h d List.mem_cons_self
    have h3 : b * (leVal b ds + 1) ≤ b * b ^ ds.length := Nat.mul_le_mul_left b h1
    rw [Nat.mul_add] at h3
    simp only [leVal, List.length_cons, Nat.pow_succ]
    rw [Nat.mul_comm (b ^ ds.length) b]
    omega

theorem beVal_append (b : Nat) (xs ys : List Nat) : beVal b (xs ++ ys) = ys.foldl (fun a d => a * b + d) (beVal b xs) := by
  unfold beVal; rw [List.foldl_append]

theorem beVal_reverse (b : Nat) (ds : List Nat) : beVal b ds.reverse = leVal b ds := by
  induction ds with
  | nil => rfl
  | cons d ds ih =>
    rw [List.reverse_cons, beVal_append, ih]
    simp only [List.foldl_cons, List.foldl_nil, leVal]
    rw [Nat.mul_comm b]; omega

theorem leVal_inj {b : Nat} : ∀ {xs ys : List Nat}, (∀ x ∈ xs, x < b) → (∀ x ∈ ys, x < b) →
    xs.length = ys.length → leVal b xs = leVal b ys → xs = ys := by
  intro xs
  induction xs with
  | nil => intro ys _ _ h _; cases ys with
    | nil => rfl
    | cons => cases h
  | cons x xs ih =>
    intro ys hx hy hl hv
    cases ys with
    | nil => cases hl
    | cons y ys =>
      have h1 := hx x List.mem_cons_self
      have h2 := hy y List.mem_cons_self
      simp only [leVal] at hv
      have hm : x = y := by
        have := congrArg (· % b) hv
        simp only [Nat.add_mul_mod_self_left, Nat.mod_eq_of_lt h1, Nat.mod_eq_of_lt h2] at this
        exact this
      subst hm
      have hv : leVal b xs = leVal b ys := by
        have h3 : b * leVal b xs = b * leVal b ys := by omega
        exact Nat.eq_of_mul_eq_mul_left (by omega) h3
      rw [ih (fun z hz => hx z (List.mem_cons_of_mem _ hz)) (fun z hz => hy z (List.mem_cons_of_mem _ hz))
        (by simpa using hl) hv]

theorem shl_or {x k d : Nat} (hd : d < 2 ^ k) : x <<< k ||| d = x * 2 ^ k + d := by
  rw [← Nat.shiftLeft_add_eq_or_of_lt hd, Nat.shiftLeft_eq]

theorem u256_shl_or {x k d n : Nat} (hx : x < 2 ^ n) (hn : n + k ≤ 256) (hd : d < 2 ^ k) :
    u256 (x <<< k) ||| d = x * 2 ^ k + d ∧ x * 2 ^ k + d < 2 ^ (n + k) := by
  have h1 : (x + 1) * 2 ^ k ≤ 2 ^ n * 2 ^ k := Nat.mul_le_mul_right _ hx
  rw [← Nat.pow_add, Nat.add_mul] at h1
  have h2 : 2 ^ (n + k) ≤ 2 ^ 256 := Nat.pow_le_pow_right (by decide) hn
  refine ⟨?_, by omega⟩
  have : u256 (x <<< k) = x <<< k := by
    unfold u256
    rw [Nat.shiftLeft_eq]
    exact Nat.mod_eq_of_lt (by omega)
  rw [this, shl_or hd]

theorem toUint_eq {bs : List Nat} (hl : bs.length ≤ 32) (hb : ∀ x ∈ bs, x < 256) : toUint bs = leVal 256 bs := by
  unfold toUint
  rw [List.foldl_reverse]
  induction bs with
  | nil => rfl
  | cons b bs ih =>
    have hb' : ∀ x ∈ bs, x < 256 := fun x hx => hb x (List.mem_cons_of_mem _ hx)
    have hl' : bs.length + 1 ≤ 32 := by simpa using hl
    rw [List.foldr_cons, ih (by omega) hb']
    have h1 := leVal_lt hb'
    have h2 : leVal 256 bs < 2 ^ (8 * bs.length) := by
      rw [Nat.pow_mul]; exact h1
    have := (u256_shl_or (k := 8) (d := b) h2 (by omega) (hb b List.mem_cons_self)).1
    rw [this]
    simp only [leVal]
    omega

theorem fromLoop_length (n v : Nat) : (fromLoop n v).length = n := by
  induction n generalizing v with
  | zero => rfl
  | succ n ih => simp [fromLoop, ih]

theorem fromLoop_lt (n v : Nat) : ∀ x ∈ fromLoop n v, x < 256 := by
  induction n generalizing v with
  | zero => simp [fromLoop]
  | succ n ih =>
    intro x hx
    unfold fromLoop at hx
    rcases List.mem_cons.1 hx with rfl | hx
    · omega
    · exact ih _ x hx

theorem fromLoop_val (n v : Nat) : leVal 256 (fromLoop n v) = v % 256 ^ n := by
  induction n generalizing v with
  | zero => simp [fromLoop, leVal, Nat.mod_one]
  | succ n ih =>
    unfold fromLoop
    simp only [leVal]
    rw [ih, Nat.shiftRight_eq_div_pow, show v / 2 ^ 8 = v / 256 from rfl, Nat.pow_succ, Nat.mul_comm (256 ^ n) 256, Nat.mod_mul]

theorem fromUint_bytes (v : Nat) : Bytes32 (fromUint v false) :=
  ⟨fromLoop_length 32 v, fromLoop_lt 32 v⟩

theorem fromUint_val {v : Nat} (h : v < 2 ^ 256) : leVal 256 (fromUint v false) = v := by
  show leVal 256 (fromLoop 32 v) = v
  rw [fromLoop_val]
  exact Nat.mod_eq_of_lt (by have : 256 ^ 32 = 2 ^ 256 := by decide +kernel
                             omega)

theorem fromUint_true (v : Nat) : fromUint v true = (fromUint v false).reverse := rfl

theorem Bytes32.lt {bs} (h : Bytes32 bs) : leVal 256 bs < 2 ^ 256 := by
  have := leVal_lt h.2
  rw [h.1] at this
  have e : 256 ^ 32 = 2 ^ 256 := by decide +kernel
  omega

theorem fromUint_leVal {bs : List Nat} (h : Bytes32 bs) : fromUint (leVal 256 bs) false = bs := by
  have h1 := fromUint_bytes (leVal 256 bs)
  exact leVal_inj h1.2 h.2 (by rw [h1.1, h.1]) (fromUint_val h.lt)

theorem Bytes32.toUint {bs} (h : Bytes32 bs) : toUint bs = leVal 256 bs := toUint_eq (by rw [h.1]; decide) h.2

/-! ### the list of words -/

variable {α : Type}

/-- `ws` are the words at positions `idx`. -/
def At (wl : List α) (idx : List Nat) (ws : List α) : Prop := ws.map some = idx.map (wl[·]?)

theorem wordMap_spec [DecidableEq α] (l : List α) : ∀ (i : Nat) (m : α → Option Nat) (w : α) (k : Nat), l.Nodup →
    wordMap l i m w = some k → (∃ j, l[j]? = some w ∧ k = i + j) ∨ (w ∉ l ∧ m w = some k) := by
  induction l with
  | nil => intro i m w k _ h; exact .inr ⟨by simp, h⟩
  | cons x l ih =>
    intro i m w k hn h
    unfold wordMap at h
    rw [List.nodup_cons] at hn
    rcases ih (i + 1) _ w k hn.2 h with ⟨j, hj, hk⟩ | ⟨h1, h2⟩
    · exact .inl ⟨j + 1, by simpa using hj, by omega⟩
    · split at h2
      · rename_i hw
        simp only [Option.some.injEq] at h2
        exact .inl ⟨0, by simp [hw], by omega⟩
      · rename_i hw
        exact .inr ⟨by simp [hw, h1], h2⟩

theorem wordMap_mem [DecidableEq α] (l : List α) : ∀ (i : Nat) (m : α → Option Nat) (w : α),
    (w ∈ l ∨ (m w).isSome = true) → (wordMap l i m w).isSome = true := by
  induction l with
  | nil => intro i m w h; rcases h with h | h
           · cases h
           · exact h
  | cons x l ih =>
    intro i m w h
    unfold wordMap
    apply ih
    rcases h with h | h
    · rcases List.mem_cons.1 h with rfl | h
      · right; simp
      · exact .inl h
    · right; split
      · rfl
      · exact h

theorem wordMap_iff [DecidableEq α] {wl : List α} (hn : wl.Nodup) (w : α) (k : Nat) :
    wordMap wl 0 (fun _ => none) w = some k ↔ wl[k]? = some w := by
  constructor
  · intro h
    rcases wordMap_spec wl 0 _ w k hn h with ⟨j, hj, hk⟩ | ⟨_, h⟩
    · rw [hk]; simpa using hj
    · cases h
  · intro h
    have h1 := wordMap_mem wl 0 (fun _ => none) w (.inl (List.mem_of_getElem? h))
    obtain ⟨k', hk'⟩ := Option.isSome_iff_exists.1 h1
    rcases wordMap_spec wl 0 _ w k' hn hk' with ⟨j, hj, hk⟩ | ⟨_, h⟩
    · rw [hk']
      have hj' : k' = j := by omega
      subst hj'
      have hlt := (List.getElem?_eq_some_iff.1 h).1
      have hlt' := (List.getElem?_eq_some_iff.1 hj).1
      have := (List.nodup_iff_pairwise_ne.1 hn)
      rw [List.pairwise_iff_getElem] at this
      rcases Nat.lt_trichotomy k k' with hc | hc | hc
      · exact absurd (by rw [List.getElem?_eq_getElem hlt] at h; rw [List.getElem?_eq_getElem hlt'] at hj
                         simp only [Option.some.injEq] at h hj; rw [h, hj]) (this k k' hlt hlt' hc)
      · rw [hc]
      · exact absurd (by rw [List.getElem?_eq_getElem hlt] at h; rw [List.getElem?_eq_getElem hlt'] at hj
                         simp only [Option.some.injEq] at h hj; rw [h, hj]) (this k' k hlt' hlt hc)
    · cases h

/-- Base 2048 digits, least significant first. -/
def digits : Nat → Nat → List Nat
  | 0, _ => []
  | n + 1, v => v % 2048 :: digits n (v / 2048)

theorem digits_length (n v : Nat) : (digits n v).length = n := by
  induction n generalizing v with
  | zero => rfl
  | succ n ih => simp [digits, ih]

theorem digits_lt (n v : Nat) : ∀ x ∈ digits n v, x < 2048 := by
  induction n generalizing v with
  | zero => simp [digits]
  | succ n ih =>
    intro x hx
    unfold digits at hx
    rcases List.mem_cons.1 hx with rfl | hx
    · omega
    · exact ih _ x hx

theorem digits_val (n v : Nat) : leVal 2048 (digits n v) = v % 2048 ^ n := by
  induction n generalizing v with
  | zero => simp [digits, leVal, Nat.mod_one]
  | succ n ih =>
    unfold digits
    simp only [leVal]
    rw [ih, Nat.pow_succ, Nat.mul_comm (2048 ^ n) 2048, Nat.mod_mul]

theorem and_mask (x k : Nat) : x &&& (2 ^ k - 1) = x % 2 ^ k := Nat.and_two_pow_sub_one_eq_mod x k

theorem seedLoop_tail {wl : List α} (hwl : wl.length = 2048) (ck : Nat) :
    ∀ (n i bits : Nat) (words : List α), i ≠ 0 →
      ∃ ws, seedLoop wl ck n i bits words = .ok (words ++ ws) ∧ At wl (digits n bits) ws := by
  intro n
  induction n with
  | zero => intro i bits words _; exact ⟨[], by simp [seedLoop], rfl⟩
  | succ n ih =>
    intro i bits words hi
    unfold seedLoop
    rw [if_neg hi, if_neg hi]
    have e : (bits &&& 0x7FF) % 2 ^ 16 = bits % 2048 := by
      have := and_mask bits 11
      have h2 : bits &&& 0x7FF = bits % 2048 := this
      rw [h2]; omega
    have e2 : bits >>> 11 = bits / 2048 := Nat.shiftRight_eq_div_pow bits 11
    dsimp only
    rw [e, e2]
    have hlt : bits % 2048 < wl.length := by omega
    rw [List.getElem?_eq_getElem hlt]
    obtain ⟨ws, h1, h2⟩ := ih (i + 1) (bits / 2048) (words ++ [wl[bits % 2048]]) (by omega)
    refine ⟨wl[bits % 2048] :: ws, by dsimp only; rw [h1]; simp, ?_⟩
    unfold At at h2 ⊢
    simp only [digits, List.map_cons, h2, List.getElem?_eq_getElem hlt]

/-- Positions of the words of a seed with checksum `ck`, first word first. -/
def phrase (v ck : Nat) : List Nat := (digits 24 (v * 256 + ck)).reverse

theorem seedLoop_spec {wl : List α} (hwl : wl.length = 2048) {ck bits : Nat} (hck : ck < 256) :
    ∃ ws, seedLoop wl ck 24 0 bits [] = .ok ws ∧ At wl (digits 24 (bits * 256 + ck)) ws := by
  unfold seedLoop
  simp only [↓reduceIte]
  have e1 : bits &&& 7 = bits % 8 := and_mask bits 3
  have e2 : ck &&& 0xFF = ck := by
    have : ck &&& 0xFF = ck % 256 := and_mask ck 8
    rw [this]; omega
  have e3 : bits >>> 3 = bits / 8 := Nat.shiftRight_eq_div_pow bits 3
  have e4 : ((bits &&& 7) <<< 8) % 2 ^ 16 ||| (ck &&& 0xFF) = (bits * 256 + ck) % 2048 := by
    rw [e1, e2]
    have h : ((bits % 8) <<< 8) % 2 ^ 16 = (bits % 8) <<< 8 := by
      rw [Nat.shiftLeft_eq]; exact Nat.mod_eq_of_lt (by omega)
    rw [h, shl_or (by omega)]
    omega
  rw [e4, e3]
  have hlt : (bits * 256 + ck) % 2048 < wl.length := by omega
  rw [List.getElem?_eq_getElem hlt]
  obtain ⟨ws, h1, h2⟩ := seedLoop_tail hwl ck 23 (0 + 1) (bits / 8) ([] ++ [wl[(bits * 256 + ck) % 2048]]) (by omega)
  refine ⟨wl[(bits * 256 + ck) % 2048] :: ws, by dsimp only; rw [h1]; simp, ?_⟩
  have e5 : (bits * 256 + ck) / 2048 = bits / 8 := by omega
  unfold At at h2 ⊢
  rw [show digits 24 (bits * 256 + ck) = (bits * 256 + ck) % 2048 :: digits 23 ((bits * 256 + ck) / 2048) from rfl, e5]
  simp only [List.map_cons, h2, List.getElem?_eq_getElem hlt]

theorem phrase_length (v ck : Nat) : (phrase v ck).length = 24 := by simp [phrase, digits_length]

theorem phrase_val {v ck : Nat} (hv : v < 2 ^ 256) (hck : ck < 256) : beVal 2048 (phrase v ck) = v * 256 + ck := by
  unfold phrase
  rw [beVal_reverse, digits_val]
  apply Nat.mod_eq_of_lt
  have : 2048 ^ 24 = 2 ^ 256 * 256 := by decide +kernel
  omega

theorem phrase_lt (v ck : Nat) : ∀ x ∈ phrase v ck, x < 2048 := by
  intro x hx
  exact digits_lt _ _ x (List.mem_reverse.1 hx)

theorem At.reverse {wl : List α} {idx ws} (h : At wl idx ws) : At wl idx.reverse ws.reverse := by
  unfold At at h ⊢
  rw [List.map_reverse, List.map_reverse, h]

/-- What the loop of `words_to_seed` computes from the positions. -/
theorem wordsLoop_ok {m : α → Option Nat} : ∀ (ws : List α) (ds : List Nat) (i seed ck : Nat), i ≤ 23 →
    ws.length + i = 24 → seed < 2048 ^ i → (∀ x ∈ ds, x < 2048) → ws.map m = ds.map some →
    wordsLoop m ws i seed ck =
      .ok ((ds.foldl (fun a d => a * 2048 + d) seed) / 256, (ds.foldl (fun a d => a * 2048 + d) seed) % 256) := by
  intro ws
  induction ws with
  | nil => intro ds i seed ck hi hl; simp at hl; omega
  | cons w ws ih =>
    intro ds i seed ck hi hl hs hd hm
    cases ds with
    | nil => cases hm
    | cons x ds =>
      simp only [List.map_cons, List.cons.injEq] at hm
      have hx := hd x List.mem_cons_self
      have hl' : ws.length + 1 + i = 24 := by simpa using hl
      unfold wordsLoop
      rw [hm.1]
      dsimp only
      by_cases h23 : i < 23
      · rw [if_pos h23]
        have hs2 : seed < 2 ^ (11 * i) := by rw [Nat.pow_mul]; exact hs
        obtain ⟨e1, e2⟩ := u256_shl_or (k := 11) (d := x) hs2 (by omega) hx
        rw [e1, ih ds (i + 1) (seed * 2 ^ 11 + x) ck (by omega) (by omega) ?_
          (fun y hy => hd y (List.mem_cons_of_mem _ hy)) hm.2]
        · rfl
        · have : 2 ^ (11 * i + 11) = 2048 ^ (i + 1) := by
            rw [show 11 * i + 11 = 11 * (i + 1) by omega, Nat.pow_mul]
          omega
      · rw [if_neg h23]
        have hi23 : i = 23 := by omega
        have hws : ws = [] := List.length_eq_zero_iff.1 (by omega)
        subst hws
        have hds : ds = [] := by
          cases ds with
          | nil => rfl
          | cons => simp at hm
        subst hds
        subst hi23
        have hs2 : seed < 2 ^ 253 := by
          have : (2048 : Nat) ^ 23 = 2 ^ 253 := by decide +kernel
          omega
        have e0 : x >>> 8 = x / 256 := Nat.shiftRight_eq_div_pow x 8
        have e3 : x &&& 0xFF = x % 256 := and_mask x 8
        obtain ⟨e1, _⟩ := u256_shl_or (k := 3) (d := x / 256) hs2 (by omega) (by omega)
        rw [e0, e3, e1]
        simp only [wordsLoop, List.foldl_cons, List.foldl_nil, Res.ok.injEq, Prod.mk.injEq]
        omega

theorem wordsLoop_some {m : α → Option Nat} : ∀ (ws : List α) (i seed ck : Nat) r,
    wordsLoop m ws i seed ck = .ok r → ∃ ds : List Nat, ws.map m = ds.map some := by
  intro ws
  induction ws with
  | nil => intro i seed ck r _; exact ⟨[], rfl⟩
  | cons w ws ih =>
    intro i seed ck r h
    unfold wordsLoop at h
    cases hm : m w with
    | none => rw [hm] at h; cases h
    | some x =>
      rw [hm] at h
      dsimp only at h
      obtain ⟨ds, hds⟩ : ∃ ds : List Nat, ws.map m = ds.map some := by
        split at h
        · exact ih _ _ _ _ h
        · exact ih _ _ _ _ h
      exact ⟨x :: ds, by rw [List.map_cons, List.map_cons, hm, hds]⟩

/-- Being at positions, read backwards through the map. -/
theorem at_iff [DecidableEq α] {wl : List α} (hn : wl.Nodup) : ∀ (idx : List Nat) (ws : List α),
    ws.map (wordMap wl 0 fun _ => none) = idx.map some ↔ At wl idx ws := by
  intro idx
  induction idx with
  | nil =>
    intro ws
    unfold At
    cases ws <;> simp
  | cons k idx ih =>
    intro ws
    cases ws with
    | nil => unfold At; simp
    | cons w ws =>
      have h1 := ih ws
      unfold At at h1 ⊢
      simp only [List.map_cons, List.cons.injEq]
      rw [wordMap_iff hn, h1]
      constructor
      · rintro ⟨a, b⟩; exact ⟨a.symm, b⟩
      · rintro ⟨a, b⟩; exact ⟨a.symm, b⟩

theorem At.lt {wl : List α} (hwl : wl.length = 2048) : ∀ {idx ws}, At wl idx ws → ∀ x ∈ idx, x < 2048 := by
  intro idx
  induction idx with
  | nil => intro ws _ x hx; cases hx
  | cons k idx ih =>
    intro ws h x hx
    unfold At at h
    cases ws with
    | nil => cases h
    | cons w ws =>
      simp only [List.map_cons, List.cons.injEq] at h
      rcases List.mem_cons.1 hx with rfl | hx
      · have := (List.getElem?_eq_some_iff.1 h.1.symm).1
        omega
      · exact ih (ws := ws) h.2 x hx

theorem At.length {wl : List α} {idx ws} (h : At wl idx ws) : ws.length = idx.length := by
  have := congrArg List.length h
  simpa using this

/-- Words exist at valid positions. -/
theorem At.exists {wl : List α} (hwl : wl.length = 2048) : ∀ (idx : List Nat), (∀ x ∈ idx, x < 2048) →
    ∃ ws, At wl idx ws := by
  intro idx
  induction idx with
  | nil => intro _; exact ⟨[], rfl⟩
  | cons k idx ih =>
    intro h
    obtain ⟨ws, hws⟩ := ih fun x hx => h x (List.mem_cons_of_mem _ hx)
    have hk : k < wl.length := by rw [hwl]; exact h k List.mem_cons_self
    exact ⟨wl[k] :: ws, by unfold At at hws ⊢; simp only [List.map_cons, hws, List.getElem?_eq_getElem hk]⟩

/-- `words_to_seed` in terms of positions. -/
theorem wordsToSeed_iff [DecidableEq α] {H : List Nat → Nat} {wl : List α} (hwl : wl.length = 2048)
    (hn : wl.Nodup) (ws : List α) (seed : List Nat) :
    wordsToSeed H wl ws = .ok seed ↔
      Bytes32 seed ∧ ∃ idx ck, idx.length = 24 ∧ At wl idx ws ∧ ck < 256 ∧
        beVal 2048 idx = leVal 256 seed * 256 + ck ∧ (ck = H seed ∨ ck = H seed.reverse) := by
  unfold wordsToSeed
  constructor
  · intro h
    split at h
    · cases h
    · rename_i h24
      split at h
      · cases h
      · obtain ⟨r, hr, h⟩ := Res.bind_eq_ok.1 h
        obtain ⟨ds, hds⟩ := wordsLoop_some _ _ _ _ _ hr
        have hat := (at_iff hn ds ws).1 hds
        have hlt := hat.lt hwl
        have hl : ws.length = 24 := by omega
        rw [wordsLoop_ok ws ds 0 0 0 (by omega) (by omega) (by decide) hlt hds] at hr
        simp only [Res.ok.injEq] at hr
        have hb : ds.foldl (fun a d => a * 2048 + d) 0 < 2048 ^ 24 := by
          have h1 : beVal 2048 ds.reverse.reverse = leVal 2048 ds.reverse := beVal_reverse _ _
          rw [List.reverse_reverse] at h1
          have h2 := leVal_lt (b := 2048) (ds := ds.reverse) fun x hx => hlt x (List.mem_reverse.1 hx)
          rw [List.length_reverse, ← hat.length, hl] at h2
          unfold beVal at h1
          omega
        have hp : (2048 : Nat) ^ 24 = 2 ^ 256 * 256 := by decide +kernel
        have hv : r.1 < 2 ^ 256 := by rw [← hr]; dsimp only; omega
        split at h
        · cases h
        · rename_i hc
          simp only [Res.ok.injEq] at h
          subst h
          refine ⟨fromUint_bytes _, ds, r.2, by rw [← hat.length]; exact hl, hat, by rw [← hr]; dsimp only; omega, ?_, ?_⟩
          · rw [fromUint_val hv, ← hr]
            dsimp only
            unfold beVal
            omega
          · rw [← fromUint_true]
            rcases Decidable.em (r.2 = H (fromUint r.1 false)) with e | e
            · exact .inl e
            · right
              rcases Decidable.em (r.2 = H (fromUint r.1 true)) with e' | e'
              · exact e'
              · exact absurd ⟨e, e'⟩ hc
  · rintro ⟨hb, idx, ck, hi, hat, hck, hv, hc⟩
    have hl : ws.length = 24 := by rw [hat.length, hi]
    rw [if_neg (by omega), if_neg (by omega)]
    rw [wordsLoop_ok ws idx 0 0 0 (by omega) (by omega) (by decide) (hat.lt hwl) ((at_iff hn idx ws).2 hat)]
    unfold beVal at hv
    rw [hv]
    have e1 : (leVal 256 seed * 256 + ck) / 256 = leVal 256 seed := by omega
    have e2 : (leVal 256 seed * 256 + ck) % 256 = ck := by omega
    rw [e1, e2]
    dsimp only [Res.bind]
    rw [fromUint_true, fromUint_leVal hb, if_neg]
    rintro ⟨a, b⟩
    rcases hc with h | h
    · exact a h
    · exact b h

theorem seedToWords_spec {H : List Nat → Nat} {wl : List α} (hwl : wl.length = 2048) {seed : List Nat}
    (hb : Bytes32 seed) (hH : H seed.reverse < 256) :
    ∃ ws, seedToWords H wl seed = .ok ws ∧ At wl (phrase (leVal 256 seed) (H seed.reverse)) ws := by
  unfold seedToWords
  rw [if_neg (by omega)]
  dsimp only
  rw [hb.toUint, fromUint_true, fromUint_leVal hb]
  obtain ⟨ws, h1, h2⟩ := seedLoop_spec hwl (bits := leVal 256 seed) hH
  rw [h1]
  exact ⟨ws.reverse, rfl, h2.reverse⟩

/-! ### symbols of an address -/

theorem addrSyms_length (n v : Nat) : (addrSyms n v).length = n := by
  induction n generalizing v with
  | zero => rfl
  | succ n ih => simp [addrSyms, ih]

theorem addrSyms_lt (n v : Nat) : ∀ x ∈ addrSyms n v, x < 32 := by
  induction n generalizing v with
  | zero => simp [addrSyms]
  | succ n ih =>
    intro x hx
    unfold addrSyms at hx
    rcases List.mem_cons.1 hx with rfl | hx
    · have : v &&& 0x1F = v % 32 := and_mask v 5
      rw [this]; omega
    · exact ih _ x hx

theorem addrSyms_val (n v : Nat) : leVal 32 (addrSyms n v) = v % 32 ^ n := by
  induction n generalizing v with
  | zero => simp [addrSyms, leVal, Nat.mod_one]
  | succ n ih =>
    unfold addrSyms
    simp only [leVal]
    have h1 : v &&& 0x1F = v % 32 := and_mask v 5
    rw [ih, h1, Nat.shiftRight_eq_div_pow, show v / 2 ^ 5 = v / 32 from rfl, Nat.pow_succ, Nat.mul_comm (32 ^ n) 32, Nat.mod_mul]

theorem addrData_length (a : List Nat) : (addrData a).length = 52 := by simp [addrData, addrSyms_length]

theorem addrData_lt (a : List Nat) : ∀ x ∈ addrData a, x < 32 := by
  intro x hx
  unfold addrData at hx
  rcases List.mem_append.1 hx with hx | hx
  · exact addrSyms_lt _ _ x (List.mem_reverse.1 hx)
  · simp only [List.mem_singleton] at hx
    have : toUint a &&& 1 = toUint a % 2 := and_mask _ 1
    rw [hx, this, Nat.shiftLeft_eq]
    omega

/-- The loop over the symbols: five times the value of those read so far. -/
theorem symLoop_spec : ∀ (ds : List Nat) (k v : Nat), ds.length + k ≤ 50 → v < 32 ^ k →
    symLoop ds (v * 32) = (ds.map (· % 32)).foldl (fun a d => a * 32 + d) v * 32 ∧
      (ds.map (· % 32)).foldl (fun a d => a * 32 + d) v < 32 ^ (k + ds.length) := by
  intro ds
  induction ds with
  | nil => intro k v _ hv; exact ⟨rfl, hv⟩
  | cons d ds ih =>
    intro k v hk hv
    have hk' : ds.length + 1 + k ≤ 50 := by simpa using hk
    have hd : d &&& 0x1F = d % 32 := and_mask d 5
    have hor : v * 32 ||| (d % 32) = v * 32 + d % 32 := by
      have := shl_or (x := v) (k := 5) (d := d % 32) (by omega)
      rw [Nat.shiftLeft_eq] at this
      exact this
    have hv2 : v * 32 + d % 32 < 32 ^ (k + 1) := by
      have := Nat.mul_le_mul_right 32 hv
      rw [Nat.pow_succ]; omega
    have h256 : u256 ((v * 32 + d % 32) <<< 5) = (v * 32 + d % 32) * 32 := by
      unfold u256
      rw [Nat.shiftLeft_eq]
      apply Nat.mod_eq_of_lt
      have h1 : (32 : Nat) ^ (k + 1) ≤ 32 ^ 50 := Nat.pow_le_pow_right (by decide) (by omega)
      have h2 : (32 : Nat) ^ 50 * 32 < 2 ^ 256 := by decide +kernel
      omega
    unfold symLoop
    rw [hd, hor, h256]
    obtain ⟨e1, e2⟩ := ih (k + 1) (v * 32 + d % 32) (by omega) hv2
    rw [e1]
    refine ⟨rfl, ?_⟩
    rw [show k + (d :: ds).length = k + 1 + ds.length by simp; omega]
    exact e2

/-- Value of the symbols of an address: 51 of five bits and one bit. -/
def symVal (dp : List Nat) : Nat :=
  beVal 32 ((dp.take 51).map (· % 32)) * 2 + ((dp[51]?).getD 0 / 16) % 2

theorem dataAddr_spec {dp : List Nat} (h : dp.length = 52) :
    symVal dp < 2 ^ 256 ∧ dataAddr dp = .ok (fromUint (symVal dp) false) := by
  have h50 : 50 < dp.length := by omega
  have h51 : 51 < dp.length := by omega
  unfold dataAddr symVal
  rw [List.getElem?_eq_getElem h50, List.getElem?_eq_getElem h51]
  dsimp only [Option.getD_some]
  obtain ⟨e1, e2⟩ := symLoop_spec (dp.take 50) 0 0 (by simp; omega) (by decide)
  rw [Nat.zero_mul] at e1
  have hl : (dp.take 50).length = 50 := by simp; omega
  rw [hl] at e2
  have ht : dp.take 51 = dp.take 50 ++ [dp[50]] := by rw [List.take_succ_eq_append_getElem h50]
  rw [ht, List.map_append, beVal_append]
  simp only [List.map_cons, List.map_nil, List.foldl_cons, List.foldl_nil]
  rw [show beVal 32 ((dp.take 50).map (· % 32)) = ((dp.take 50).map (· % 32)).foldl (fun a d => a * 32 + d) 0 from rfl]
  generalize hA : ((dp.take 50).map (· % 32)).foldl (fun a d => a * 32 + d) 0 = A at *
  rw [e1]
  have hd : dp[50] &&& 0x1F = dp[50] % 32 := and_mask _ 5
  have hor : A * 32 ||| (dp[50] % 32) = A * 32 + dp[50] % 32 := by
    have := shl_or (x := A) (k := 5) (d := dp[50] % 32) (by omega)
    rw [Nat.shiftLeft_eq] at this
    exact this
  have hb : (dp[51] >>> 4) &&& 1 = dp[51] / 16 % 2 := by
    have : (dp[51] >>> 4) &&& 1 = (dp[51] >>> 4) % 2 := and_mask _ 1
    rw [this, Nat.shiftRight_eq_div_pow]
  have hp : (32 : Nat) ^ (0 + 50) * 32 = 2 ^ 255 := by decide +kernel
  have hA2 : A * 32 + dp[50] % 32 < 2 ^ 255 := by omega
  obtain ⟨f1, f2⟩ := u256_shl_or (k := 1) (d := dp[51] / 16 % 2) hA2 (by omega) (by omega)
  rw [hd, hor, hb, f1]
  exact ⟨f2, rfl⟩

theorem symVal_addrData {a : List Nat} (h : Bytes32 a) : symVal (addrData a) = leVal 256 a := by
  unfold symVal addrData
  rw [h.toUint]
  dsimp only
  have hl : ((addrSyms 51 (leVal 256 a >>> 1)).reverse).length = 51 := by simp [addrSyms_length]
  rw [List.take_append_of_le_length (by omega), List.take_of_length_le (by omega),
    List.getElem?_append_right (by omega), hl]
  have hm : ((addrSyms 51 (leVal 256 a >>> 1)).reverse).map (· % 32) = (addrSyms 51 (leVal 256 a >>> 1)).reverse := by
    rw [List.map_congr_left (g := id)]
    · exact List.map_id _
    · intro x hx
      exact Nat.mod_eq_of_lt (addrSyms_lt _ _ x (List.mem_reverse.1 hx))
  rw [hm, beVal_reverse, addrSyms_val]
  have e1 : leVal 256 a &&& 1 = leVal 256 a % 2 := and_mask _ 1
  have hlt := h.lt
  have e2 : (leVal 256 a >>> 1) % 32 ^ 51 = leVal 256 a / 2 := by
    rw [Nat.shiftRight_eq_div_pow]
    apply Nat.mod_eq_of_lt
    have : (32 : Nat) ^ 51 = 2 ^ 255 := by decide +kernel
    omega
  rw [e2, e1, Nat.shiftLeft_eq]
  simp
  omega

end Verif.Wallet
