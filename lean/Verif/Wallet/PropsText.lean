import Verif.Wallet.TextLemmas
/-
  C75: seed words.  C76: address strings.
-/
namespace Verif.Wallet
open Verif

/-- Increasing numbers, checked in one pass. -/
def increasing : List Nat → Bool
  | [] => true
  | [_] => true
  | a :: b :: l => decide (a < b) && increasing (b :: l)

theorem increasing_pairwise : ∀ {l : List Nat}, increasing l = true → l.Pairwise (· < ·)
  | [], _ => .nil
  | [a], _ => by simp
  | a :: b :: l, h => by
    simp only [increasing, Bool.and_eq_true, decide_eq_true_eq] at h
    have ih := increasing_pairwise h.2
    rw [List.pairwise_cons]
    refine ⟨?_, ih⟩
    intro x hx
    rcases List.mem_cons.1 hx with rfl | hx
    · exact h.1
    · exact Nat.lt_trans h.1 ((List.pairwise_cons.1 ih).1 x hx)

/-- C75.  The built-in list has 2048 different words. -/
theorem C75_wordlist : wordlistEn.length = 2048 ∧ wordlistEn.Nodup := by
  refine ⟨by decide +kernel, ?_⟩
  have : increasing wordlistEn = true := by decide +kernel
  exact (increasing_pairwise this).imp fun h => Nat.ne_of_lt h

variable {α : Type}

/-- C75.  The words of a seed: 24 words of the list whose positions, written with eleven bits each, are the
seed's number followed by the first byte of the hash of the seed's bytes in reverse order. -/
theorem C75_words {H : List Nat → Nat} {wl : List α} (hwl : wl.length = 2048) (hH : ∀ x, H x < 256)
    {seed : List Nat} (hb : Bytes32 seed) :
    ∃ ws idx, seedToWords H wl seed = .ok ws ∧ ws.length = 24 ∧ ws.map some = idx.map (wl[·]?) ∧
      (∀ x ∈ idx, x < 2048) ∧ beVal 2048 idx = leVal 256 seed * 256 + H seed.reverse := by
  obtain ⟨ws, h1, h2⟩ := seedToWords_spec hwl hb (hH seed.reverse)
  exact ⟨ws, _, h1, by rw [h2.length, phrase_length], h2, phrase_lt _ _, phrase_val hb.lt (hH _)⟩

/-- C75.  The words of a seed give back the seed. -/
theorem C75_round_trip [DecidableEq α] {H : List Nat → Nat} {wl : List α} (hwl : wl.length = 2048) (hn : wl.Nodup)
    (hH : ∀ x, H x < 256) {seed : List Nat} (hb : Bytes32 seed) :
    ∃ ws, seedToWords H wl seed = .ok ws ∧ wordsToSeed H wl ws = .ok seed := by
  obtain ⟨ws, h1, h2⟩ := seedToWords_spec hwl hb (hH seed.reverse)
  exact ⟨ws, h1, (wordsToSeed_iff hwl hn ws seed).2
    ⟨hb, _, _, phrase_length _ _, h2, hH _, phrase_val hb.lt (hH _), .inr rfl⟩⟩

/-- C75.  Which words are accepted, and for which seed: 24 words of the list whose positions are the seed's
number followed by a checksum byte that is the first byte of the hash of the seed's bytes, in either
order. -/
theorem C75_accepts [DecidableEq α] {H : List Nat → Nat} {wl : List α} (hwl : wl.length = 2048) (hn : wl.Nodup)
    (ws : List α) (seed : List Nat) :
    wordsToSeed H wl ws = .ok seed ↔
      Bytes32 seed ∧ ∃ (idx : List Nat) (ck : Nat), idx.length = 24 ∧ ws.map some = idx.map (wl[·]?) ∧ ck < 256 ∧
        beVal 2048 idx = leVal 256 seed * 256 + ck ∧ (ck = H seed ∨ ck = H seed.reverse) :=
  wordsToSeed_iff hwl hn ws seed

theorem at_of_val {wl : List α} (hwl : wl.length = 2048) {idx : List Nat} {ws : List α} {v ck : Nat}
    (hi : idx.length = 24) (h : At wl idx ws) (hv : v < 2 ^ 256) (hc : ck < 256)
    (he : beVal 2048 idx = v * 256 + ck) : idx = phrase v ck := by
  have h1 : leVal 2048 idx.reverse = leVal 2048 (phrase v ck).reverse := by
    rw [← beVal_reverse, ← beVal_reverse, List.reverse_reverse, List.reverse_reverse, he, phrase_val hv hc]
  have := leVal_inj (fun x hx => h.lt hwl x (List.mem_reverse.1 hx))
    (fun x hx => phrase_lt v ck x (List.mem_reverse.1 hx)) (by simp [hi, phrase_length]) h1
  have := congrArg List.reverse this
  simpa using this

theorem at_inj {wl : List α} {idx : List Nat} {ws ws' : List α} (h : At wl idx ws) (h' : At wl idx ws') : ws = ws' := by
  unfold At at h h'
  have h : ws.map some = ws'.map some := by rw [h, h']
  exact (List.map_inj_right fun _ _ h => Option.some.inj h).1 h

theorem phrase_init {v ck : Nat} (hc : ck < 256) : (phrase v ck).take 23 = (digits 23 (v / 8)).reverse := by
  have e : (v * 256 + ck) / 2048 = v / 8 := by omega
  unfold phrase
  rw [show digits 24 (v * 256 + ck) = (v * 256 + ck) % 2048 :: digits 23 ((v * 256 + ck) / 2048) from rfl, e,
    List.reverse_cons, List.take_append_of_le_length (by simp [digits_length]),
    List.take_of_length_le (by simp [digits_length])]

/-- C75.  At most two phrases stand for one seed, and they agree up to the last word. -/
theorem C75_at_most_two [DecidableEq α] {H : List Nat → Nat} {wl : List α} (hwl : wl.length = 2048) (hn : wl.Nodup)
    {seed : List Nat} {a b c : List α} (ha : wordsToSeed H wl a = .ok seed) (hb : wordsToSeed H wl b = .ok seed)
    (hc : wordsToSeed H wl c = .ok seed) : a.take 23 = b.take 23 ∧ (a = b ∨ b = c ∨ a = c) := by
  have key : ∀ ws, wordsToSeed H wl ws = .ok seed → ∃ ck, ck < 256 ∧ (ck = H seed ∨ ck = H seed.reverse) ∧
      At wl (phrase (leVal 256 seed) ck) ws := by
    intro ws h
    obtain ⟨hb, idx, ck, hi, hat, hck, hv, hc⟩ := (wordsToSeed_iff hwl hn ws seed).1 h
    have := at_of_val hwl hi hat hb.lt hck hv
    subst this
    exact ⟨ck, hck, hc, hat⟩
  obtain ⟨c1, l1, e1, f1⟩ := key a ha
  obtain ⟨c2, l2, e2, f2⟩ := key b hb
  obtain ⟨c3, l3, e3, f3⟩ := key c hc
  constructor
  · have g : ∀ {ck ws}, ck < 256 → At wl (phrase (leVal 256 seed) ck) ws →
        At wl (digits 23 (leVal 256 seed / 8)).reverse (ws.take 23) := by
      intro ck ws hck h
      unfold At at h ⊢
      rw [← phrase_init hck, List.map_take, h, List.map_take]
    exact at_inj (g l1 f1) (g l2 f2)
  · rcases e1 with rfl | rfl <;> rcases e2 with rfl | rfl
    · exact .inl (at_inj f1 f2)
    · rcases e3 with rfl | rfl
      · exact .inr (.inr (at_inj f1 f3))
      · exact .inr (.inl (at_inj f2 f3))
    · rcases e3 with rfl | rfl
      · exact .inr (.inl (at_inj f2 f3))
      · exact .inr (.inr (at_inj f1 f3))
    · exact .inl (at_inj f1 f2)

/-- C75.  The second phrase exists: whenever the hashes of the bytes in the two orders start with different
bytes, words that are not those of the seed are accepted for it too. -/
theorem C75_second_phrase [DecidableEq α] {H : List Nat → Nat} {wl : List α} (hwl : wl.length = 2048) (hn : wl.Nodup)
    (hH : ∀ x, H x < 256) {seed : List Nat} (hb : Bytes32 seed) (hne : H seed ≠ H seed.reverse) :
    ∃ ws, wordsToSeed H wl ws = .ok seed ∧ seedToWords H wl seed ≠ .ok ws := by
  obtain ⟨ws, hws⟩ := At.exists hwl (phrase (leVal 256 seed) (H seed)) (phrase_lt _ _)
  refine ⟨ws, (wordsToSeed_iff hwl hn ws seed).2
    ⟨hb, _, _, phrase_length _ _, hws, hH _, phrase_val hb.lt (hH _), .inl rfl⟩, ?_⟩
  intro h
  obtain ⟨ws', h1, h2⟩ := seedToWords_spec hwl hb (hH seed.reverse)
  rw [h] at h1
  simp only [Res.ok.injEq] at h1
  subst h1
  have h3 := (at_iff hn _ ws).2 hws
  rw [(at_iff hn _ ws).2 h2] at h3
  have h4 := (List.map_inj_right fun _ _ h => Option.some.inj h).1 h3
  have h5 := congrArg (beVal 2048) h4
  rw [phrase_val hb.lt (hH _), phrase_val hb.lt (hH _)] at h5
  omega

/-- C75.  Any other number of words, and any word outside the list, is refused. -/
theorem C75_refuses [DecidableEq α] {H : List Nat → Nat} {wl : List α} (hwl : wl.length = 2048) (hn : wl.Nodup)
    {ws : List α} (h : ws.length ≠ 24 ∨ ∃ w ∈ ws, w ∉ wl) : wordsToSeed H wl ws = .throw := by
  cases hr : wordsToSeed H wl ws with
  | throw => rfl
  | ok seed =>
    exfalso
    obtain ⟨_, idx, ck, hi, hat, _⟩ := (wordsToSeed_iff hwl hn ws seed).1 hr
    rcases h with h | ⟨w, h1, h2⟩
    · exact h (by rw [hat.length, hi])
    · have : some w ∈ ws.map some := List.mem_map.2 ⟨w, h1, rfl⟩
      rw [show ws.map some = idx.map (wl[·]?) from hat] at this
      obtain ⟨k, _, hk⟩ := List.mem_map.1 this
      exact h2 (List.mem_of_getElem? hk)
  | ub =>
    exfalso
    unfold wordsToSeed at hr
    split at hr
    · cases hr
    · split at hr
      · cases hr
      · have nub : ∀ (m : α → Option Nat) (ws : List α) (i s c : Nat), wordsLoop m ws i s c ≠ .ub := by
          intro m ws
          induction ws with
          | nil => intro i s c h; cases h
          | cons w ws ih =>
            intro i s c h
            unfold wordsLoop at h
            split at h
            · cases h
            · split at h
              · exact ih _ _ _ h
              · exact ih _ _ _ h
        cases hl : wordsLoop (wordMap wl 0 fun _ => none) ws 0 0 0 with
        | ok r =>
          rw [hl] at hr
          dsimp only [Res.bind] at hr
          split at hr <;> cases hr
        | throw => rw [hl] at hr; cases hr
        | ub => exact nub _ _ _ _ _ hl

/-- A concrete seed, and a hash whose first byte tells the two orders apart. -/
example : Bytes32 ((List.range 32).map (· + 3)) := ⟨by decide, by decide⟩

/-- The bytes 3 … 34: the first word is number 273, the last has the checksum 34 in its low byte. -/
example : ∃ ws, seedToWords (fun x => x.headD 0 % 256) wordlistEn ((List.range 32).map (· + 3)) = .ok ws ∧
    ws[0]? = wordlistEn[273]? ∧ ws[23]? = wordlistEn[3 * 256 + 34]? ∧
    wordsToSeed (fun x => x.headD 0 % 256) wordlistEn ws = .ok ((List.range 32).map (· + 3)) := by
  obtain ⟨ws, h1, h2⟩ := C75_round_trip C75_wordlist.1 C75_wordlist.2 (H := fun x => x.headD 0 % 256)
    (fun x => Nat.mod_lt _ (by decide)) (seed := (List.range 32).map (· + 3)) ⟨by decide, by decide⟩
  refine ⟨ws, h1, ?_, ?_, h2⟩
  · have : (seedToWords (fun x => x.headD 0 % 256) wordlistEn ((List.range 32).map (· + 3))).bind (fun w => .ok w[0]?)
        = .ok wordlistEn[273]? := by decide +kernel
    rw [h1] at this
    exact Res.ok.inj this
  · have : (seedToWords (fun x => x.headD 0 % 256) wordlistEn ((List.range 32).map (· + 3))).bind (fun w => .ok w[23]?)
        = .ok wordlistEn[3 * 256 + 34]? := by decide +kernel
    rw [h1] at this
    exact Res.ok.inj this

/-! ### addresses -/

/-- What is assumed of the bech32 library: encoding 52 symbols of five bits can be decoded again, and gives
something else than `MMX`. -/
structure BechOk (B : Bech) : Prop where
  decode : ∀ hrp dp, dp.length = 52 → (∀ x ∈ dp, x < 32) → B.decode (B.encode hrp dp) = (true, dp)
  other : ∀ hrp dp, B.encode hrp dp ≠ "MMX"

/-- C76.  An address written as text reads back as itself. -/
theorem C76_round_trip {B : Bech} (hB : BechOk B) {a : List Nat} (ha : Bytes32 a) :
    addrFromString B (addrToString B a) = .ok a ∧ addrRead B (addrToString B a) = a := by
  have h : addrFromString B (addrToString B a) = .ok a := by
    unfold addrFromString addrToString
    rw [if_neg (hB.other _ _), hB.decode _ _ (addrData_length a) (addrData_lt a)]
    dsimp only
    rw [if_neg (by decide), if_neg (by rw [addrData_length]; decide), (dataAddr_spec (addrData_length a)).2,
      symVal_addrData ha, fromUint_leVal ha]
  refine ⟨h, ?_⟩
  unfold addrRead
  rw [h]

/-- C76.  Different addresses have different texts. -/
theorem C76_injective {B : Bech} (hB : BechOk B) {a b : List Nat} (ha : Bytes32 a) (hb : Bytes32 b)
    (h : addrToString B a = addrToString B b) : a = b := by
  have h1 := (C76_round_trip hB ha).1
  rw [h, (C76_round_trip hB hb).1] at h1
  exact (Res.ok.inj h1).symm

/-- C76.  Which texts are read as which address: `MMX` as the zero address, and every Bech32m text of 52
symbols as the 256 bits made of five bits of each of the first 51 and the fifth bit of the last; any other
text is refused. -/
theorem C76_accepts (B : Bech) (s : String) (a : List Nat) :
    addrFromString B s = .ok a ↔
      (s = "MMX" ∧ a = List.replicate 32 0) ∨
      (s ≠ "MMX" ∧ (B.decode s).1 = true ∧ (B.decode s).2.length = 52 ∧ Bytes32 a ∧
        leVal 256 a = beVal 32 (((B.decode s).2.take 51).map (· % 32)) * 2 + (((B.decode s).2[51]?).getD 0 / 16) % 2) := by
  unfold addrFromString
  by_cases hs : s = "MMX"
  · rw [if_pos hs]
    constructor
    · intro h; exact .inl ⟨hs, (Res.ok.inj h).symm⟩
    · rintro (⟨_, h⟩ | ⟨h, _⟩)
      · rw [h]
      · exact absurd hs h
  · rw [if_neg hs]
    dsimp only
    cases h1 : (B.decode s).1 with
    | false => simp [hs]
    | true =>
      rw [if_neg (by decide)]
      by_cases h2 : (B.decode s).2.length = 52
      · rw [if_neg (by omega)]
        obtain ⟨e1, e2⟩ := dataAddr_spec h2
        rw [e2]
        constructor
        · intro h
          rw [← Res.ok.inj h]
          exact .inr ⟨hs, rfl, h2, fromUint_bytes _, fromUint_val e1⟩
        · rintro (⟨h, _⟩ | ⟨_, _, _, hb, hv⟩)
          · exact absurd h hs
          · rw [show symVal (B.decode s).2 = leVal 256 a from hv.symm, fromUint_leVal hb]
      · rw [if_pos h2]; simp [hs, h2]

/-- C76.  Reading never gives anything but 32 bytes. -/
theorem C76_bytes (B : Bech) (s : String) : Bytes32 (addrRead B s) := by
  have h0 : Bytes32 (List.replicate 32 0) := ⟨by simp, by intro x hx; rw [List.eq_of_mem_replicate hx]; decide⟩
  unfold addrRead
  split
  · rename_i a h
    rcases (C76_accepts B s a).1 h with ⟨_, h⟩ | ⟨_, _, _, h, _⟩
    · rw [h]; exact h0
    · exact h
  · exact h0

/-- C76 fails in the other direction: every address has texts other than its own, with another
human-readable part or with other low bits in the last symbol. -/
theorem C76_not_canonical {B : Bech} (hB : BechOk B) {a : List Nat} (ha : Bytes32 a) :
    ∃ dp, dp ≠ addrData a ∧ ∀ hrp, addrFromString B (B.encode hrp dp) = .ok a ∧
      addrFromString B (B.encode hrp (addrData a)) = .ok a := by
  have hall : ∀ hrp dp, dp.length = 52 → (∀ x ∈ dp, x < 32) → symVal dp = leVal 256 a →
      addrFromString B (B.encode hrp dp) = .ok a := by
    intro hrp dp h1 h2 h3
    unfold addrFromString
    rw [if_neg (hB.other _ _), hB.decode _ _ h1 h2]
    dsimp only
    rw [if_neg (by decide), if_neg (by rw [h1]; decide), (dataAddr_spec h1).2, h3, fromUint_leVal ha]
  refine ⟨(addrData a).set 51 ((toUint a &&& 1) <<< 4 + 1), ?_, fun hrp => ⟨hall hrp _ ?_ ?_ ?_, hall hrp _ (addrData_length a) (addrData_lt a) (symVal_addrData ha)⟩⟩
  · intro h
    have h := congrArg (·[51]?) h
    have hl : ((addrSyms 51 (toUint a >>> 1)).reverse).length = 51 := by simp [addrSyms_length]
    simp only [addrData, List.getElem?_set] at h
    rw [List.getElem?_append_right (by omega), hl] at h
    simp [addrSyms_length] at h
  · simp [addrData_length]
  · intro x hx
    rcases List.mem_or_eq_of_mem_set hx with hx | hx
    · exact addrData_lt a x hx
    · have : toUint a &&& 1 = toUint a % 2 := and_mask _ 1
      rw [hx, this, Nat.shiftLeft_eq]
      omega
  · rw [← symVal_addrData ha]
    have e1 : toUint a &&& 1 = toUint a % 2 := and_mask _ 1
    have hl : ((addrSyms 51 (toUint a >>> 1)).reverse).length = 51 := by simp [addrSyms_length]
    have ht : ((addrData a).set 51 ((toUint a &&& 1) <<< 4 + 1)).take 51 = (addrData a).take 51 := by
      rw [List.take_set_of_le (by omega)]
    have hg : (addrData a)[51]? = some ((toUint a &&& 1) <<< 4) := by
      unfold addrData
      dsimp only
      rw [List.getElem?_append_right (by omega), hl]
      rfl
    unfold symVal
    rw [ht, hg, List.getElem?_set]
    simp only [↓reduceIte, addrData_length]
    rw [if_pos (by decide)]
    simp only [Option.getD_some, e1, Nat.shiftLeft_eq]
    omega

/-- A text that is not an address is silently read as the zero address from a typed message. -/
theorem C76_silent_zero {B : Bech} {s : String} (h : addrFromString B s = .throw) :
    addrRead B s = List.replicate 32 0 := by
  unfold addrRead; rw [h]

/-- A codec that meets the assumptions: one character per symbol, the human-readable part dropped. -/
def exBech : Bech where
  encode _ dp := String.ofList ('x' :: dp.map fun d => Char.ofNat (48 + d))
  decode s := (true, s.toList.tail.map fun c => c.toNat - 48)

theorem exBech_ok : BechOk exBech := by
  constructor
  · intro hrp dp hl hd
    unfold exBech
    dsimp only
    rw [String.toList_ofList, List.tail_cons, List.map_map]
    congr 1
    rw [List.map_congr_left (g := id)]
    · exact List.map_id _
    · intro x hx
      have hx := hd x hx
      have : ∀ y < 32, (Char.ofNat (48 + y)).toNat - 48 = y := by decide
      exact this x hx
  · intro hrp dp h
    have h := congrArg String.toList h
    unfold exBech at h
    dsimp only at h
    rw [String.toList_ofList] at h
    have : "MMX".toList = ['M', 'M', 'X'] := by decide
    rw [this] at h
    simp at h

example : addrFromString exBech (addrToString exBech ((List.range 32).map (· + 3))) = .ok ((List.range 32).map (· + 3)) :=
  (C76_round_trip exBech_ok ⟨by decide, by decide⟩).1

end Verif.Wallet
