import Verif.DB.Bytes

/-!
# Properties C13 and C71: the log at byte level
-/

namespace Verif.DB

/-! ### numbers and sizes -/

theorem leEnc_length (w n : Nat) : (leEnc w n).length = w := by
  induction w generalizing n with
  | zero => rfl
  | succ w ih => simp [leEnc, ih]

theorem le32_length (n : Nat) : (le32 n).length = 4 := leEnc_length 4 n

theorem leDec_leEnc (w n : Nat) : leDec (leEnc w n) = n % 256 ^ w := by
  induction w generalizing n with
  | zero => simp [leEnc, leDec, Nat.mod_one]
  | succ w ih =>
    simp only [leEnc, leDec, ih, Fin.ofNat]
    rw [Nat.pow_succ, Nat.mul_comm (256 ^ w) 256, Nat.mod_mul]

theorem leDec_le32 {n : Nat} (h : n < 2 ^ 32) : leDec (le32 n) = n := by
  unfold le32
  rw [leDec_leEnc]
  exact Nat.mod_eq_of_lt (by simpa using h)

theorem readBytes_append {n : Nat} {a : List Byte} (h : a.length = n) (rest : List Byte) :
    readBytes n (a ++ rest) = some (a, rest) := by
  unfold readBytes
  rw [if_neg (by rw [List.length_append]; omega), List.take_left' h, List.drop_left' h]

theorem read32_append {n : Nat} (h : n < 2 ^ 32) (rest : List Byte) :
    read32 (le32 n ++ rest) = some (n, rest) := by
  unfold read32
  rw [readBytes_append (le32_length n)]
  simp only [leDec_le32 h]

theorem readSized_append {a : List Byte} (h : a.length < 2 ^ 32) (rest : List Byte) :
    readSized (le32 a.length ++ (a ++ rest)) = some (a, rest) := by
  unfold readSized
  rw [read32_append h]
  exact readBytes_append rfl rest

/-- The fields fit. -/
def Raw.OK (r : Raw) : Prop := r.ver < 2 ^ 32 ∧ r.key.length < 2 ^ 32 ∧ r.val.length < 2 ^ 32

theorem readEntry_append {r : Raw} (h : r.OK) (rest : List Byte) :
    readEntry (writeEntry r ++ rest) = some (r, rest) := by
  unfold readEntry writeEntry
  simp only [List.append_assoc]
  rw [read32_append h.1]
  dsimp only
  rw [readSized_append h.2.1]
  dsimp only
  rw [readSized_append h.2.2]

theorem checksum_lt (crc : Crc) (r : Raw) : checksum crc r < 2 ^ 32 := Nat.mod_lt _ (by decide)

/-- **C13, round trip.**  Reading what was written gives the record back and stops exactly at its
end, whatever follows. -/
theorem C13_roundtrip (crc : Crc) (r : Raw) (h : r.OK) (rest : List Byte) :
    readEntrySum crc (writeEntrySum crc r ++ rest) = .record r rest := by
  unfold readEntrySum writeEntrySum
  rw [List.append_assoc, readEntry_append h]
  dsimp only
  rw [read32_append (checksum_lt crc r)]
  simp

/-! ### prefixes -/

theorem readBytes_none {n : Nat} {bs : List Byte} (h : bs.length < n) : readBytes n bs = none := by
  unfold readBytes; rw [if_pos h]

theorem read32_none {bs : List Byte} (h : bs.length < 4) : read32 bs = none := by
  unfold read32; rw [readBytes_none h]

/-- A part of `a ++ b` is a part of `a`, or all of `a` and a part of `b`. -/
theorem take_append_cases {α : Type} (a b : List α) (n : Nat) :
    (n < a.length ∧ (a ++ b).take n = a.take n) ∨
    (a.length ≤ n ∧ (a ++ b).take n = a ++ b.take (n - a.length)) := by
  rcases Nat.lt_or_ge n a.length with h | h
  · exact Or.inl ⟨h, List.take_append_of_le_length (by omega)⟩
  · refine Or.inr ⟨h, ?_⟩
    rw [List.take_append, List.take_of_length_le h]

theorem read32_take (m : Nat) (b : List Byte) (n : Nat) (hm : m < 2 ^ 32) :
    (n < 4 ∧ read32 ((le32 m ++ b).take n) = none) ∨
    (4 ≤ n ∧ read32 ((le32 m ++ b).take n) = some (m, b.take (n - 4))) := by
  rcases take_append_cases (le32 m) b n with ⟨h, e⟩ | ⟨h, e⟩
  · rw [le32_length] at h
    left
    refine ⟨h, ?_⟩
    rw [e]
    exact read32_none (by rw [List.length_take]; omega)
  · rw [le32_length] at h e
    right
    refine ⟨h, ?_⟩
    rw [e, read32_append hm]

theorem readSized_take (a b : List Byte) (n : Nat) (ha : a.length < 2 ^ 32) :
    (n < 4 + a.length ∧ readSized ((le32 a.length ++ (a ++ b)).take n) = none) ∨
    (4 + a.length ≤ n ∧
      readSized ((le32 a.length ++ (a ++ b)).take n) = some (a, b.take (n - (4 + a.length)))) := by
  unfold readSized
  rcases read32_take a.length (a ++ b) n ha with ⟨h, e⟩ | ⟨h, e⟩
  · left; rw [e]; exact ⟨by omega, rfl⟩
  · rw [e]
    dsimp only
    rcases take_append_cases a b (n - 4) with ⟨h', e'⟩ | ⟨h', e'⟩
    · left
      refine ⟨by omega, ?_⟩
      rw [e']
      exact readBytes_none (by rw [List.length_take]; omega)
    · right
      refine ⟨by omega, ?_⟩
      rw [e', readBytes_append rfl]
      congr 3
      omega

theorem writeEntrySum_eq (crc : Crc) (r : Raw) :
    writeEntrySum crc r = le32 r.ver ++ (le32 r.key.length ++ (r.key ++
      (le32 r.val.length ++ (r.val ++ (le32 (checksum crc r) ++ []))))) := by
  simp [writeEntrySum, writeEntry]

/-- **C13, incomplete record.**  No strict prefix of a record is accepted, as that record or any other:
reading it always ends in the end-of-file exception. -/
theorem C13_prefix (crc : Crc) (r : Raw) (h : r.OK) (n : Nat)
    (hn : n < (writeEntrySum crc r).length) :
    readEntrySum crc ((writeEntrySum crc r).take n) = .underflow := by
  have hlen : (writeEntrySum crc r).length = 4 + (4 + r.key.length + (4 + r.val.length + 4)) := by
    rw [writeEntrySum_eq]; simp [le32_length]; omega
  rw [hlen] at hn
  rw [writeEntrySum_eq]
  unfold readEntrySum readEntry
  rcases read32_take r.ver _ n h.1 with ⟨_, e⟩ | ⟨h1, e⟩
  · rw [e]
  · rw [e]
    dsimp only
    rcases readSized_take r.key (le32 r.val.length ++ (r.val ++ (le32 (checksum crc r) ++ []))) (n - 4)
      h.2.1 with ⟨_, e⟩ | ⟨h2, e⟩
    · rw [e]
    · rw [e]
      dsimp only
      rcases readSized_take r.val (le32 (checksum crc r) ++ []) (n - 4 - (4 + r.key.length))
        h.2.2 with ⟨_, e⟩ | ⟨h3, e⟩
      · rw [e]
      · rw [e]
        dsimp only
        rcases read32_take (checksum crc r) [] (n - 4 - (4 + r.key.length) - (4 + r.val.length))
          (checksum_lt crc r) with ⟨_, e⟩ | ⟨h4, e⟩
        · rw [e]
        · omega

/-! ### the loop ends -/

theorem readBytes_length {n : Nat} {bs a b : List Byte} (h : readBytes n bs = some (a, b)) :
    b.length + n = bs.length := by
  unfold readBytes at h
  split at h
  · cases h
  · injection h with h
    injection h with h1 h2
    rw [← h2, List.length_drop]; omega

theorem read32_length {bs b : List Byte} {n : Nat} (h : read32 bs = some (n, b)) :
    b.length + 4 = bs.length := by
  unfold read32 at h
  cases hr : readBytes 4 bs with
  | none => rw [hr] at h; cases h
  | some x =>
    obtain ⟨a, b'⟩ := x
    rw [hr] at h
    injection h with h
    injection h with h1 h2
    subst h2
    exact readBytes_length hr

theorem readSized_length {bs a b : List Byte} (h : readSized bs = some (a, b)) :
    b.length < bs.length := by
  unfold readSized at h
  cases hr : read32 bs with
  | none => rw [hr] at h; cases h
  | some x =>
    obtain ⟨n, b'⟩ := x
    rw [hr] at h
    have h1 := read32_length hr
    have h2 := readBytes_length h
    omega

theorem readEntry_length {bs b : List Byte} {r : Raw} (h : readEntry bs = some (r, b)) :
    b.length < bs.length := by
  unfold readEntry at h
  cases h0 : read32 bs with
  | none => rw [h0] at h; cases h
  | some x =>
    obtain ⟨v, b1⟩ := x
    rw [h0] at h
    dsimp only at h
    cases h1 : readSized b1 with
    | none => rw [h1] at h; cases h
    | some x =>
      obtain ⟨k, b2⟩ := x
      rw [h1] at h
      dsimp only at h
      cases h2 : readSized b2 with
      | none => rw [h2] at h; cases h
      | some x =>
        obtain ⟨w, b3⟩ := x
        rw [h2] at h
        injection h with h
        injection h with _ h
        subst h
        have := read32_length h0
        have := readSized_length h1
        have := readSized_length h2
        omega

theorem readEntrySum_length {crc : Crc} {bs rest : List Byte}
    (h : readEntrySum crc bs = .bad rest ∨ ∃ r, readEntrySum crc bs = .record r rest) :
    rest.length < bs.length := by
  unfold readEntrySum at h
  cases h0 : readEntry bs with
  | none => rw [h0] at h; rcases h with h | ⟨_, h⟩ <;> cases h
  | some x =>
    obtain ⟨r, b1⟩ := x
    rw [h0] at h
    dsimp only at h
    cases h1 : read32 b1 with
    | none => rw [h1] at h; rcases h with h | ⟨_, h⟩ <;> cases h
    | some x =>
      obtain ⟨s, b2⟩ := x
      rw [h1] at h
      dsimp only at h
      have e1 := readEntry_length h0
      have e2 := read32_length h1
      split at h
      · rcases h with h | ⟨_, h⟩
        · cases h
        · injection h with _ h; subst h; omega
      · rcases h with h | ⟨_, h⟩
        · injection h with h; subst h; omega
        · cases h

theorem logLoop_ends (crc : Crc) (minVer total n : Nat) (bs : List Byte) (s : LogState) (off : Nat)
    (h : bs.length < n) : (logLoop crc minVer total n bs s off).isSome = true := by
  induction n generalizing bs s off with
  | zero => omega
  | succ n ih =>
    unfold logLoop
    cases hr : readEntrySum crc bs with
    | underflow => rfl
    | bad rest =>
      have := readEntrySum_length (Or.inl hr)
      exact ih rest s off (by omega)
    | record r rest =>
      have := readEntrySum_length (Or.inr ⟨r, hr⟩)
      dsimp only
      cases interpret r with
      | none => exact ih rest s off (by omega)
      | some x => exact ih rest _ _ (by omega)

/-- **C13.**  Reading any file whatever, of any content, ends. -/
theorem C13_loop_ends (crc : Crc) (minVer : Nat) (s : LogState) (file : List Byte) :
    (readLog crc minVer s file).isSome = true :=
  logLoop_ends crc minVer _ _ file s 0 (by omega)

/-- More rounds do not change the result. -/
theorem logLoop_more {crc : Crc} {minVer total n m : Nat} {bs : List Byte} {s : LogState} {off : Nat}
    {x : LogState × Nat} (h : logLoop crc minVer total n bs s off = some x) (hm : n ≤ m) :
    logLoop crc minVer total m bs s off = some x := by
  induction n generalizing m bs s off with
  | zero => unfold logLoop at h; cases h
  | succ n ih =>
    cases m with
    | zero => omega
    | succ m =>
      unfold logLoop at h ⊢
      cases hr : readEntrySum crc bs with
      | underflow => rw [hr] at h; exact h
      | bad rest => rw [hr] at h; exact ih h (by omega)
      | record r rest =>
        rw [hr] at h
        dsimp only at h ⊢
        cases hi : interpret r with
        | none => rw [hi] at h; exact ih h (by omega)
        | some y => rw [hi] at h; exact ih h (by omega)

/-! ### replay -/

theorem toRaw_ok {r : Rec DbKey (List Byte)} (h : RecOK r) : (toRaw r).OK := by
  cases r with
  | put e =>
    obtain ⟨h1, h2, h3⟩ := h
    unfold u32max at h1
    exact ⟨by show e.ver < 2 ^ 32; omega, h2, h3⟩
  | commit v =>
    exact ⟨by show u32max < 2 ^ 32; decide, by show (cmdCommit).length < 2 ^ 32; decide, by show (le32 v).length < 2 ^ 32; rw [le32_length]; decide⟩
  | reset v =>
    exact ⟨by show u32max < 2 ^ 32; decide, by show (cmdReset).length < 2 ^ 32; decide, by show (le32 v).length < 2 ^ 32; rw [le32_length]; decide⟩
  | revert v =>
    exact ⟨by show u32max < 2 ^ 32; decide, by show (cmdRevert).length < 2 ^ 32; decide, by show (le32 v).length < 2 ^ 32; rw [le32_length]; decide⟩

theorem interpret_toRaw {r : Rec DbKey (List Byte)} (h : RecOK r) :
    interpret (toRaw r) = some (some r) := by
  cases r with
  | put e =>
    obtain ⟨h1, _⟩ := h
    unfold interpret toRaw
    dsimp only
    rw [if_neg (by omega)]
  | commit v =>
    have hv : v < 2 ^ 32 := h
    simp [interpret, toRaw, le32_length, leDec_le32 hv]
  | reset v =>
    have hv : v < 2 ^ 32 := h
    have : ¬ cmdReset = cmdCommit := by decide
    simp [interpret, toRaw, le32_length, leDec_le32 hv, this]
  | revert v =>
    have hv : v < 2 ^ 32 := h
    have e1 : ¬ cmdRevert = cmdCommit := by decide
    have e2 : ¬ cmdRevert = cmdReset := by decide
    simp [interpret, toRaw, le32_length, leDec_le32 hv, e1, e2]

theorem logBytes_cons (crc : Crc) (r : Rec DbKey (List Byte)) (rs : List (Rec DbKey (List Byte))) :
    logBytes crc (r :: rs) = recBytes crc r ++ logBytes crc rs := by
  simp [logBytes]

theorem logBytes_append (crc : Crc) (a b : List (Rec DbKey (List Byte))) :
    logBytes crc (a ++ b) = logBytes crc a ++ logBytes crc b := by
  simp [logBytes]

/-- The loop works off complete records one by one. -/
theorem logLoop_records (crc : Crc) (minVer total : Nat) (rs : List (Rec DbKey (List Byte)))
    (hrs : ∀ r ∈ rs, RecOK r) (n : Nat) (tail : List Byte) (s : LogState) (off : Nat) :
    logLoop crc minVer total (n + rs.length) (logBytes crc rs ++ tail) s off =
      logLoop crc minVer total n tail (rs.foldl (replayStep minVer) s)
        (if rs = [] then off else total - tail.length) := by
  induction rs generalizing s off with
  | nil => simp [logBytes]
  | cons r rs ih =>
    have hr := hrs r List.mem_cons_self
    have e : n + (r :: rs).length = (n + rs.length) + 1 := by rw [List.length_cons]; omega
    rw [e, logBytes_cons, List.append_assoc]
    conv => lhs; unfold logLoop
    unfold recBytes
    rw [C13_roundtrip crc (toRaw r) (toRaw_ok hr)]
    dsimp only
    rw [interpret_toRaw hr]
    dsimp only
    rw [ih (fun x hx => hrs x (List.mem_cons_of_mem _ hx))]
    rw [if_neg (List.cons_ne_nil _ _)]
    simp only [List.foldl_cons, logStep]
    split
    · rename_i hnil
      subst hnil
      simp [logBytes]
    · rfl

/-- What reading a file gives when complete records are followed by bytes that end the loop. -/
theorem readLog_records (crc : Crc) (minVer : Nat) (s : LogState) (rs : List (Rec DbKey (List Byte)))
    (hrs : ∀ r ∈ rs, RecOK r) (tail : List Byte) (ht : readEntrySum crc tail = .underflow) :
    readLog crc minVer s (logBytes crc rs ++ tail) =
      some (rs.foldl (replayStep minVer) s, (logBytes crc rs).length) := by
  have h1 := logLoop_records crc minVer (logBytes crc rs ++ tail).length rs hrs 1 tail s 0
  have h2 : logLoop crc minVer (logBytes crc rs ++ tail).length 1 tail
      (rs.foldl (replayStep minVer) s)
      (if rs = [] then 0 else (logBytes crc rs ++ tail).length - tail.length) =
      some (rs.foldl (replayStep minVer) s, (logBytes crc rs).length) := by
    unfold logLoop
    rw [ht]
    dsimp only
    congr 2
    split
    · rename_i hnil; subst hnil; rfl
    · rw [List.length_append]; omega
  rw [h2] at h1
  obtain ⟨x, hx⟩ := Option.isSome_iff_exists.1 (C13_loop_ends crc minVer s (logBytes crc rs ++ tail))
  unfold readLog at hx ⊢
  rw [hx]
  rcases Nat.le_total ((logBytes crc rs ++ tail).length + 1) (1 + rs.length) with hle | hle
  · rw [← logLoop_more hx hle, h1]
  · rw [← hx, logLoop_more h1 hle]

/-- **C13, torn tail.**  A log of complete records followed by any strict prefix of a further record is
read as exactly the complete records, and writing continues right after them. -/
theorem C13_torn_tail (crc : Crc) (minVer : Nat) (s : LogState) (rs : List (Rec DbKey (List Byte)))
    (hrs : ∀ r ∈ rs, RecOK r) (r : Rec DbKey (List Byte)) (hr : RecOK r) (n : Nat)
    (hn : n < (recBytes crc r).length) :
    readLog crc minVer s (logBytes crc rs ++ (recBytes crc r).take n) =
      some (rs.foldl (replayStep minVer) s, (logBytes crc rs).length) :=
  readLog_records crc minVer s rs hrs _ (C13_prefix crc (toRaw r) (toRaw_ok hr) n hn)

theorem recBytes_pos (crc : Crc) (r : Rec DbKey (List Byte)) : 0 < (recBytes crc r).length := by
  unfold recBytes
  rw [writeEntrySum_eq]
  simp only [List.length_append, le32_length]
  omega

/-- A cut of the bytes of some records: complete records and a strict prefix of the next. -/
theorem cut_records (crc : Crc) (rs : List (Rec DbKey (List Byte))) (n : Nat) :
    ∃ j, (logBytes crc (rs.take j)).length ≤ n ∧
      ((j = rs.length ∧ (logBytes crc rs).take n = logBytes crc rs) ∨
       (∃ r m, rs[j]? = some r ∧ m < (recBytes crc r).length ∧
         (logBytes crc rs).take n = logBytes crc (rs.take j) ++ (recBytes crc r).take m)) := by
  induction rs generalizing n with
  | nil => exact ⟨0, by simp [logBytes], Or.inl ⟨rfl, by simp [logBytes]⟩⟩
  | cons r rs ih =>
    rw [logBytes_cons]
    rcases take_append_cases (recBytes crc r) (logBytes crc rs) n with ⟨h, e⟩ | ⟨h, e⟩
    · refine ⟨0, by simp [logBytes], Or.inr ⟨r, n, rfl, h, ?_⟩⟩
      rw [e]; simp [logBytes]
    · obtain ⟨j, h1, h2⟩ := ih (n - (recBytes crc r).length)
      refine ⟨j + 1, ?_, ?_⟩
      · rw [List.take_succ_cons, logBytes_cons, List.length_append]; omega
      · rcases h2 with ⟨h2, h3⟩ | ⟨r', m, h2, h3, h4⟩
        · left
          refine ⟨by rw [h2, List.length_cons], ?_⟩
          rw [e, h3]
        · right
          refine ⟨r', m, by simpa using h2, h3, ?_⟩
          rw [e, h4, List.take_succ_cons, logBytes_cons, List.append_assoc]

/-- **C13, every cut position.**  When the file is cut at any byte, reading it has the effect of
exactly the records that are complete. -/
theorem C13_cut (crc : Crc) (minVer : Nat) (s : LogState) (rs : List (Rec DbKey (List Byte)))
    (hrs : ∀ r ∈ rs, RecOK r) (n : Nat) :
    ∃ j, readLog crc minVer s ((logBytes crc rs).take n) =
        some ((rs.take j).foldl (replayStep minVer) s, (logBytes crc (rs.take j)).length) ∧
      (logBytes crc (rs.take j)).length ≤ n ∧
      (j < rs.length → n < (logBytes crc (rs.take (j + 1))).length) := by
  obtain ⟨j, h1, h2⟩ := cut_records crc rs n
  refine ⟨j, ?_, h1, ?_⟩
  · rcases h2 with ⟨h2, h3⟩ | ⟨r, m, h2, h3, h4⟩
    · rw [h3, h2, List.take_length]
      have := readLog_records crc minVer s rs hrs [] (by rfl)
      rwa [List.append_nil] at this
    · rw [h4]
      exact C13_torn_tail crc minVer s (rs.take j) (fun r hr => hrs r (List.mem_of_mem_take hr)) r
        (hrs r (List.mem_of_getElem? h2)) m h3
  · intro hj
    rcases h2 with ⟨h2, _⟩ | ⟨r, m, h2, h3, h4⟩
    · omega
    · have hlen := congrArg List.length h4
      rw [List.take_add_one, h2, logBytes_append, List.length_append]
      simp only [List.length_take, List.length_append] at hlen
      have e : logBytes crc (some r).toList = recBytes crc r := by simp [logBytes]
      rw [e]
      have hle : (logBytes crc (rs.take j)).length + (recBytes crc r).length ≤ (logBytes crc rs).length := by
        have hsplit : rs = rs.take j ++ r :: rs.drop (j + 1) := by
          obtain ⟨hj', hr'⟩ := List.getElem?_eq_some_iff.1 h2
          rw [← hr', List.getElem_cons_drop, List.take_append_drop]
        conv => rhs; rw [hsplit]
        rw [logBytes_append, logBytes_cons, List.length_append, List.length_append]
        omega
      omega

/-- **C13 and crashes.**  `log` reached the disk, `buf` was still buffered when the process died, and
the file ends anywhere at or behind the end of `log`: the table comes back with `log` and some first
records of `buf`, which is the form of crash that `Disk` and `ReachB` (Crash.lean) work with. -/
theorem C13_crash (crc : Crc) (minVer : Nat) (s : LogState) (log buf : List (Rec DbKey (List Byte)))
    (hrs : ∀ r ∈ log ++ buf, RecOK r) (n : Nat) (hn : (logBytes crc log).length ≤ n) :
    ∃ i off, readLog crc minVer s ((logBytes crc (log ++ buf)).take n) =
        some ((log ++ buf.take i).foldl (replayStep minVer) s, off) := by
  have e : (logBytes crc (log ++ buf)).take n =
      logBytes crc log ++ (logBytes crc buf).take (n - (logBytes crc log).length) := by
    rw [logBytes_append, List.take_append, List.take_of_length_le hn]
  obtain ⟨j, _, h2⟩ := cut_records crc buf (n - (logBytes crc log).length)
  have hok : ∀ r ∈ log ++ buf.take j, RecOK r := by
    intro r hr
    rcases List.mem_append.1 hr with h | h
    · exact hrs r (List.mem_append_left _ h)
    · exact hrs r (List.mem_append_right _ (List.mem_of_mem_take h))
  refine ⟨j, (logBytes crc (log ++ buf.take j)).length, ?_⟩
  rw [e]
  rcases h2 with ⟨h2, h3⟩ | ⟨r, m, h2, h3, h4⟩
  · subst h2
    rw [h3, List.take_length]
    have := readLog_records crc minVer s (log ++ buf) hrs [] rfl
    rw [List.append_nil] at this
    rw [← logBytes_append]
    exact this
  · rw [h4, ← List.append_assoc, ← logBytes_append]
    exact C13_torn_tail crc minVer s _ hok r
      (hrs r (List.mem_append_right _ (List.mem_of_getElem? h2))) m h3

/-! ### writing over the tail -/

/-- **C71, continuing after a torn tail** (partial): when what is left of the torn tail behind the
records written since the restart does not start with something that can be read as a record, the next
restart reads the old complete records and the new ones.  What is missing: other rests; the claim is
false for them, see `C71_stale_tail`. -/
theorem C71_overwrite_partial (crc : Crc) (minVer : Nat) (s : LogState)
    (rs new : List (Rec DbKey (List Byte))) (hrs : ∀ r ∈ rs, RecOK r) (hnew : ∀ r ∈ new, RecOK r)
    (tail : List Byte)
    (hrest : readEntrySum crc (tail.drop (logBytes crc new).length) = .underflow) :
    readLog crc minVer s
        (overwrite (logBytes crc rs ++ tail) (logBytes crc rs).length (logBytes crc new)) =
      some ((rs ++ new).foldl (replayStep minVer) s, (logBytes crc (rs ++ new)).length) := by
  have e : overwrite (logBytes crc rs ++ tail) (logBytes crc rs).length (logBytes crc new) =
      logBytes crc (rs ++ new) ++ tail.drop (logBytes crc new).length := by
    unfold overwrite
    rw [List.take_left' rfl, ← List.drop_drop, List.drop_left' rfl, logBytes_append, List.append_assoc]
  rw [e]
  refine readLog_records crc minVer s (rs ++ new) ?_ _ hrest
  intro r hr
  rcases List.mem_append.1 hr with h | h
  · exact hrs r h
  · exact hnew r h

theorem readEntrySum_short (crc : Crc) {bs : List Byte} (h : bs.length < 16) :
    readEntrySum crc bs = .underflow := by
  unfold readEntrySum
  cases h0 : readEntry bs with
  | none => rfl
  | some x =>
    obtain ⟨r, b1⟩ := x
    dsimp only
    cases h1 : read32 b1 with
    | none => rfl
    | some y =>
      obtain ⟨v, b2⟩ := y
      exfalso
      unfold readEntry at h0
      cases e0 : read32 bs with
      | none => rw [e0] at h0; cases h0
      | some x =>
        obtain ⟨v0, c1⟩ := x
        rw [e0] at h0
        dsimp only at h0
        cases e1 : readSized c1 with
        | none => rw [e1] at h0; cases h0
        | some x =>
          obtain ⟨k, c2⟩ := x
          rw [e1] at h0
          dsimp only at h0
          cases e2 : readSized c2 with
          | none => rw [e2] at h0; cases h0
          | some x =>
            obtain ⟨w, c3⟩ := x
            rw [e2] at h0
            injection h0 with h0
            injection h0 with _ h0
            subst h0
            have l0 := read32_length e0
            have l1 := read32_length h1
            unfold readSized at e1 e2
            cases f1 : read32 c1 with
            | none => rw [f1] at e1; cases e1
            | some x =>
              rw [f1] at e1
              cases f2 : read32 c2 with
              | none => rw [f2] at e2; cases e2
              | some y =>
                rw [f2] at e2
                have := read32_length f1
                have := read32_length f2
                have := readBytes_length e1
                have := readBytes_length e2
                omega

theorem revert_length (crc : Crc) (v : Nat) : (recBytes crc (.revert v)).length = 26 := by
  simp [recBytes, writeEntrySum_eq, toRaw, le32_length, cmdRevert]

/-- **C71, short tails.**  After a torn write of fewer than 42 bytes, opening the table, stopping it and
opening it again always gives the complete records: the marker written by the first opening covers
enough of the tail. -/
theorem C71_short_tail (crc : Crc) (minVer : Nat) (s : LogState)
    (rs : List (Rec DbKey (List Byte))) (hrs : ∀ r ∈ rs, RecOK r) (r : Rec DbKey (List Byte))
    (hr : RecOK r) (n : Nat) (hn : n < (recBytes crc r).length) (hs : n < 42)
    (hv : (rs.foldl (replayStep minVer) s).cur < 2 ^ 32) :
    ∃ file1, openLog crc minVer s (logBytes crc rs ++ (recBytes crc r).take n) =
        some (rs.foldl (replayStep minVer) s, file1) ∧
      ∃ off, readLog crc minVer s file1 =
        some ((rs ++ [Rec.revert (rs.foldl (replayStep minVer) s).cur]).foldl (replayStep minVer) s, off) := by
  refine ⟨overwrite (logBytes crc rs ++ (recBytes crc r).take n) (logBytes crc rs).length
    (recBytes crc (.revert (rs.foldl (replayStep minVer) s).cur)), ?_, ?_⟩
  · unfold openLog
    rw [C13_torn_tail crc minVer s rs hrs r hr n hn]
  · have e : recBytes crc (.revert (rs.foldl (replayStep minVer) s).cur) =
        logBytes crc [.revert (rs.foldl (replayStep minVer) s).cur] := by
      simp [logBytes]
    have hl := revert_length crc (rs.foldl (replayStep minVer) s).cur
    rw [e] at hl ⊢
    refine ⟨_, C71_overwrite_partial crc minVer s rs [.revert (rs.foldl (replayStep minVer) s).cur] hrs ?_
      ((recBytes crc r).take n) ?_⟩
    · intro x hx
      rw [List.mem_singleton] at hx
      subst hx
      exact hv
    · refine readEntrySum_short crc ?_
      rw [List.length_drop, List.length_take, hl]
      omega

/-- An empty replay state. -/
def freshLog : LogState := { cur := 0, lastFlush := 0, first := true, entries := [] }

section Stale

/-- A write that never happened, and a commit that never happened. -/
def ghostPut : Rec DbKey (List Byte) := .put { key := ⟨[9]⟩, ver := 1, val := [9] }
def ghostCommit : Rec DbKey (List Byte) := .commit 5

/-- A value that contains the bytes of two records, from the 26th byte of its own record on. -/
def trojan (crc : Crc) : List Byte :=
  List.replicate 13 0 ++ (logBytes crc [ghostPut, ghostCommit] ++ [0])

/-- The write of that value, at key `[7]`. -/
def trojanPut (crc : Crc) : Rec DbKey (List Byte) :=
  .put { key := ⟨[7]⟩, ver := 1, val := trojan crc }

theorem ghost_length (crc : Crc) : (logBytes crc [ghostPut, ghostCommit]).length = 18 + 26 := by
  simp [logBytes, recBytes, writeEntrySum_eq, ghostPut, ghostCommit, toRaw, le32_length, cmdCommit]

theorem trojan_length (crc : Crc) : (trojan crc).length = 58 := by
  unfold trojan
  rw [List.length_append, List.length_append, ghost_length]
  simp

/-- The first 26 bytes of the torn record. -/
def trojanHead : List Byte :=
  le32 1 ++ (le32 1 ++ ([7] ++ (le32 58 ++ List.replicate 13 0)))

theorem trojanPut_bytes (crc : Crc) : recBytes crc (trojanPut crc) =
    (trojanHead ++ logBytes crc [ghostPut, ghostCommit]) ++
      ([0] ++ le32 (checksum crc (toRaw (trojanPut crc)))) := by
  unfold recBytes
  rw [writeEntrySum_eq]
  have hl := trojan_length crc
  simp only [trojanPut, toRaw, List.length_singleton, hl, trojanHead]
  unfold trojan
  simp

/-- **C71 is false in general.**  For every checksum function: a log with one complete record
is followed by a torn write of a value chosen by whoever supplied it.  The first restart ignores the
torn record and appends its own record over the first bytes, without removing the rest.  The second
restart then reads a write and a commit out of the value's bytes: the table is at version 5 and holds
key `[9]`, although nobody ever committed version 5 or wrote that key. -/
theorem C71_stale_tail (crc : Crc) :
    ∃ (n : Nat) (file1 : List Byte),
      n < (recBytes crc (trojanPut crc)).length ∧ RecOK (trojanPut crc) ∧
      openLog crc 0 freshLog (logBytes crc [.commit 1] ++ (recBytes crc (trojanPut crc)).take n) =
        some ([Rec.commit 1].foldl (replayStep 0) freshLog, file1) ∧
      ∃ file2 s, openLog crc 0 freshLog file1 = some (s, file2) ∧ s.cur = 5 ∧
        s.entries = [{ key := ⟨[9]⟩, ver := 1, val := [9] }] := by
  have hH : trojanHead.length = 26 := by decide
  have hokT : RecOK (trojanPut crc) :=
    ⟨by show 1 < u32max; decide, by show [(7 : Byte)].length < 2 ^ 32; decide,
      by show (trojan crc).length < _; rw [trojan_length]; decide⟩
  have hg := ghost_length crc
  have hlen : (recBytes crc (trojanPut crc)).length = 75 := by
    rw [trojanPut_bytes, List.length_append, List.length_append, hg, hH, List.length_append, le32_length]
    rfl
  have htake : (recBytes crc (trojanPut crc)).take 70 =
      trojanHead ++ logBytes crc [ghostPut, ghostCommit] := by
    rw [trojanPut_bytes]
    exact List.take_left' (by rw [List.length_append, hg, hH])
  have hok1 : ∀ r ∈ [(Rec.commit 1 : Rec DbKey (List Byte))], RecOK r := by
    intro r hr
    rw [List.mem_singleton] at hr
    subst hr
    show (1 : Nat) < 2 ^ 32
    decide
  have h1 := C13_torn_tail crc 0 freshLog [.commit 1] hok1 (trojanPut crc) hokT 70 (by omega)
  have hrev := revert_length crc 1
  refine ⟨70, overwrite (logBytes crc [.commit 1] ++ (recBytes crc (trojanPut crc)).take 70)
    (logBytes crc [.commit 1]).length (recBytes crc (.revert 1)), by omega, hokT, ?_, ?_⟩
  · unfold openLog
    rw [h1]
    have hc : ([Rec.commit 1].foldl (replayStep 0) freshLog).cur = 1 := by decide
    simp only [hc]
  · have hfile : overwrite (logBytes crc [.commit 1] ++ (recBytes crc (trojanPut crc)).take 70)
        (logBytes crc [.commit 1]).length (recBytes crc (.revert 1)) =
        logBytes crc [.commit 1, .revert 1, ghostPut, ghostCommit] ++ [] := by
      unfold overwrite
      rw [htake, List.take_left' rfl, hrev, List.append_nil]
      rw [← List.drop_drop, List.drop_left' rfl, List.drop_left' hH]
      have e0 : logBytes crc [] = [] := rfl
      simp only [logBytes_cons, e0, List.append_nil]
    have h2 := readLog_records crc 0 freshLog [.commit 1, .revert 1, ghostPut, ghostCommit] (by
      intro r hr
      simp only [List.mem_cons, List.not_mem_nil, or_false] at hr
      rcases hr with rfl | rfl | rfl | rfl
      · show (1 : Nat) < 2 ^ 32; decide
      · show (1 : Nat) < 2 ^ 32; decide
      · exact ⟨by decide, by decide, by decide⟩
      · show (5 : Nat) < 2 ^ 32; decide) [] rfl
    rw [hfile]
    unfold openLog
    rw [h2]
    dsimp only
    have hc : ([Rec.commit 1, .revert 1, ghostPut, ghostCommit].foldl (replayStep 0) freshLog).cur = 5 := by
      decide
    have he : ([Rec.commit 1, .revert 1, ghostPut, ghostCommit].foldl (replayStep 0) freshLog).entries =
      [{ key := ⟨[9]⟩, ver := 1, val := [9] }] := by
      decide
    exact ⟨_, _, rfl, hc, he⟩

end Stale

/-! ### damaged records -/

/-- A record whose key and value bytes were changed in place, with the checksum of the original. -/
def damaged (crc : Crc) (orig dmg : Raw) : List Byte := writeEntry dmg ++ le32 (checksum crc orig)

/-- **C71, damage inside the log.**  When bytes of one record are changed so that its sizes still fit
the fields and the checksum notices, the record is skipped and all others count, also those after it.
(So a lost write is not noticed: see `C71_damage_drops_committed`.) -/
theorem C71_damaged_record (crc : Crc) (minVer : Nat) (s : LogState)
    (pre post : List (Rec DbKey (List Byte))) (hpre : ∀ r ∈ pre, RecOK r) (hpost : ∀ r ∈ post, RecOK r)
    (orig dmg : Raw) (hd : dmg.OK) (hsum : checksum crc orig ≠ checksum crc dmg) :
    ∃ off, readLog crc minVer s (logBytes crc pre ++ (damaged crc orig dmg ++ logBytes crc post)) =
      some ((pre ++ post).foldl (replayStep minVer) s, off) := by
  have hbad : readEntrySum crc (damaged crc orig dmg ++ logBytes crc post) =
      .bad (logBytes crc post) := by
    unfold readEntrySum damaged
    rw [List.append_assoc, readEntry_append hd]
    dsimp only
    rw [read32_append (checksum_lt crc orig)]
    simp [hsum]
  generalize hfile : logBytes crc pre ++ (damaged crc orig dmg ++ logBytes crc post) = file
  have h1 := logLoop_records crc minVer file.length pre hpre ((1 + post.length) + 1)
    (damaged crc orig dmg ++ logBytes crc post) s 0
  rw [hfile] at h1
  have h2 : ∀ st off, ∃ off', logLoop crc minVer file.length ((1 + post.length) + 1)
      (damaged crc orig dmg ++ logBytes crc post) st off =
      some (post.foldl (replayStep minVer) st, off') := by
    intro st off
    conv => rhs; intro off'; lhs; unfold logLoop
    rw [hbad]
    dsimp only
    have h3 := logLoop_records crc minVer file.length post hpost 1 [] st off
    rw [List.append_nil] at h3
    rw [h3]
    unfold logLoop
    have : readEntrySum crc [] = .underflow := rfl
    rw [this]
    exact ⟨_, rfl⟩
  obtain ⟨off, h3⟩ := h2 (pre.foldl (replayStep minVer) s)
    (if pre = [] then 0 else file.length - (damaged crc orig dmg ++ logBytes crc post).length)
  rw [h3] at h1
  refine ⟨off, ?_⟩
  rw [List.foldl_append]
  obtain ⟨x, hx⟩ := Option.isSome_iff_exists.1 (C13_loop_ends crc minVer s file)
  unfold readLog at hx ⊢
  rw [hx]
  rcases Nat.le_total (file.length + 1) ((1 + post.length) + 1 + pre.length) with hle | hle
  · rw [← logLoop_more hx hle, h1]
  · rw [← hx, logLoop_more h1 hle]

/-- A checksum for concrete examples: a plain sum. -/
def sumCrc : Crc := fun v k w => v + beDec k + beDec w

/-- **C71, damage.**  A write was committed as version 1; one byte of its value is damaged.  The
table opens at version 1 without the write, and without any error. -/
theorem C71_damage_drops_committed :
    (readLog sumCrc 0 freshLog
      (logBytes sumCrc [.put { key := ⟨[7]⟩, ver := 0, val := [1] }, .commit 1])).map
        (fun x => (x.1.cur, x.1.entries.length)) = some (1, 1) ∧
    (readLog sumCrc 0 freshLog
      (damaged sumCrc ⟨0, [7], [1]⟩ ⟨0, [7], [2]⟩ ++ logBytes sumCrc [.commit 1])).map
        (fun x => (x.1.cur, x.1.entries.length)) = some (1, 0) := by
  decide +kernel

/-- A concrete torn file. -/
example : (readLog sumCrc 0 freshLog
    ((logBytes sumCrc [.put { key := ⟨[7]⟩, ver := 0, val := [1] }, .commit 1, .commit 2]).take 60)).map
      (fun x => (x.1.cur, x.2)) = some (1, 44) := by decide +kernel

end Verif.DB
