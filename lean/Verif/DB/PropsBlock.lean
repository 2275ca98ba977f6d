import Verif.DB.BlockBytes
import Verif.DB.PropsBytes
import Verif.DB.Lemmas3

/-!
# C162: block files give back what was written
-/

namespace Verif.DB

/-! ### numbers -/

theorem leDec_le64 {n : Nat} (h : n < 2 ^ 64) : leDec (le64 n) = n := by
  unfold le64
  rw [leDec_leEnc]
  exact Nat.mod_eq_of_lt (by simpa using h)

theorem le64_length (n : Nat) : (le64 n).length = 8 := leEnc_length 8 n
theorem le16_length (n : Nat) : (le16 n).length = 2 := leEnc_length 2 n

theorem readNum4 {n : Nat} (h : n < 2 ^ 32) (rest : List Byte) : readNum 4 (le32 n ++ rest) = some (n, rest) := by
  unfold readNum
  rw [readBytes_append (le32_length n)]
  simp only [leDec_le32 h]

theorem readNum8 {n : Nat} (h : n < 2 ^ 64) (rest : List Byte) : readNum 8 (le64 n ++ rest) = some (n, rest) := by
  unfold readNum
  rw [readBytes_append (le64_length n)]
  simp only [leDec_le64 h]

theorem readNum2 (rest : List Byte) : readNum 2 (le16 0 ++ rest) = some (0, rest) := by
  unfold readNum
  rw [readBytes_append (le16_length 0)]
  rfl

theorem readIndex_flat (l : List Nat) (h : ∀ x ∈ l, x < 2 ^ 64) (rest : List Byte) :
    readIndex l.length (l.flatMap le64 ++ rest) = some l := by
  induction l with
  | nil => rfl
  | cons x l ih =>
    rw [List.flatMap_cons, List.append_assoc, List.length_cons]
    unfold readIndex
    rw [readNum8 (h x List.mem_cons_self)]
    dsimp only
    rw [ih (fun y hy => h y (List.mem_cons_of_mem _ hy))]

/-! ### positions in a file -/

theorem writeAt_end (file : List Byte) (new : List Byte) : writeAt file file.length new = file ++ new := by
  unfold writeAt
  simp

theorem writeAt_gap (new : List Byte) (n : Nat) : writeAt [] n new = List.replicate n 0 ++ new := by
  unfold writeAt
  simp

theorem writeAt_front (a b new : List Byte) (h : new.length = a.length) : writeAt (a ++ b) 0 new = new ++ b := by
  unfold writeAt
  simp [h]

/-- The entries behind one another. -/
def data (es : List E) : List Byte := es.flatMap entryBytes

theorem data_append (a b : List E) : data (a ++ b) = data a ++ data b := by simp [data]
theorem data_cons (e : E) (es : List E) : data (e :: es) = entryBytes e ++ data es := by simp [data]

/-- Where entry `i` begins. -/
def offset (es : List E) (i : Nat) : Nat := headerSize + (data (es.take i)).length

theorem writeLoop_eq (track : Bool) (prev : Option DbKey) (pre es : List E) (w : Writing)
    (hp : w.pos = headerSize + (data pre).length)
    (hf : pre ≠ [] → w.file = List.replicate headerSize 0 ++ data pre) (h0 : pre = [] → w.file = []) :
    let r := writeLoop track prev es w
    r.pos = headerSize + (data (pre ++ es)).length
    ∧ (pre ++ es ≠ [] → r.file = List.replicate headerSize 0 ++ data (pre ++ es)) ∧ (pre ++ es = [] → r.file = [])
    ∧ r.index = w.index ++ (buildIndex prev pre.length es).map (offset (pre ++ es))
    ∧ r.count = w.count + es.length
    ∧ r.minV = (if track then es.foldl (fun m e => min e.ver m) w.minV else w.minV)
    ∧ r.maxV = es.foldl (fun m e => max e.ver m) w.maxV := by
  induction es generalizing pre w prev with
  | nil => simp [writeLoop, buildIndex, hp]; exact ⟨hf, h0⟩
  | cons e es ih =>
    have file' : writeAt w.file w.pos (entryBytes e) = List.replicate headerSize 0 ++ data (pre ++ [e]) := by
      by_cases c : pre = []
      · subst c
        rw [h0 rfl, hp]
        simp [data, writeAt_gap]
      · rw [hf c, hp]
        have : headerSize + (data pre).length = (List.replicate headerSize (0 : Byte) ++ data pre).length := by simp
        rw [this, writeAt_end, data_append]
        simp [data]
    have k := ih (some e.key) (pre ++ [e]) (writeOne track prev w e)
      (by simp only [writeOne, hp, data_append]; simp [data]; omega)
      (fun _ => file') (by simp)
    simp only [List.append_assoc, List.singleton_append] at k
    obtain ⟨k1, k2, k3, k4, k5, k6, k7⟩ := k
    refine ⟨k1, k2, k3, ?_, ?_, ?_, ?_⟩
    · show (writeLoop track (some e.key) es (writeOne track prev w e)).index = _
      rw [k4]
      have o : offset (pre ++ e :: es) pre.length = w.pos := by
        unfold offset
        rw [List.take_left, hp]
      have bi : buildIndex prev pre.length (e :: es) = if prev = some e.key then buildIndex (some e.key) (pre.length + 1) es
          else pre.length :: buildIndex (some e.key) (pre.length + 1) es := rfl
      rw [bi, List.length_append, List.length_singleton]
      by_cases c : prev = some e.key
      · rw [if_pos c]
        show (if prev = some e.key then w.index else w.index ++ [w.pos]) ++ _ = _
        rw [if_pos c]
      · rw [if_neg c]
        show (if prev = some e.key then w.index else w.index ++ [w.pos]) ++ _ = _
        rw [if_neg c, List.map_cons, o, List.append_assoc, List.singleton_append]
    · show (writeLoop track (some e.key) es (writeOne track prev w e)).count = _
      rw [k5]; simp [writeOne]; omega
    · show (writeLoop track (some e.key) es (writeOne track prev w e)).minV = _
      rw [k6]; cases track <;> rfl
    · show (writeLoop track (some e.key) es (writeOne track prev w e)).maxV = _
      rw [k7]; rfl

theorem headBytes_length (a b c d e : Nat) : (headBytes a b c d e).length = headerSize := by
  simp [headBytes, le16_length, le32_length, le64_length, headerSize]

/-- The lowest version that the file states. -/
def lowest (track : Bool) (minV : Nat) (es : List E) : Nat := if track then es.foldl (fun m e => min e.ver m) minV else minV

/-- The offsets in the index. -/
def offsets (es : List E) : List Nat := (buildIndex none 0 es).map (offset es)

/-- How a block file looks. -/
theorem blockFile_eq (level : Nat) (track : Bool) (minV : Nat) (es : List E) :
    blockFile level track minV es =
      headBytes level (lowest track minV es) (maxVersion es) es.length (headerSize + (data es).length)
        ++ (data es ++ indexBytes (offsets es)) := by
  obtain ⟨k1, k2, k3, k4, k5, k6, k7⟩ := writeLoop_eq track none [] es ⟨[], headerSize, [], 0, minV, 0⟩
    (by simp [data]) (by simp) (by simp)
  simp only [List.nil_append, List.length_nil, Nat.zero_add] at k1 k2 k3 k4 k5 k6 k7
  unfold blockFile finishBlock
  rw [k1, k4, k5, k6, k7]
  have front : writeAt (writeLoop track none es ⟨[], headerSize, [], 0, minV, 0⟩).file 0
      (headBytes level (lowest track minV es) (maxVersion es) es.length (headerSize + (data es).length))
      = headBytes level (lowest track minV es) (maxVersion es) es.length (headerSize + (data es).length) ++ data es := by
    by_cases c : es = []
    · rw [k3 c]
      subst c
      simp [writeAt, data]
    · rw [k2 c]
      exact writeAt_front _ _ _ (by rw [headBytes_length, List.length_replicate])
  show writeAt (writeAt _ 0 (headBytes level (lowest track minV es) (maxVersion es) es.length (headerSize + (data es).length)))
    _ (indexBytes (offsets es)) = _
  rw [front]
  have : headerSize + (data es).length = (headBytes level (lowest track minV es) (maxVersion es) es.length
      (headerSize + (data es).length) ++ data es).length := by
    rw [List.length_append, headBytes_length]
  conv => lhs; arg 2; rw [this]
  rw [writeAt_end, List.append_assoc]

/-! ### reading -/

theorem entry_length (e : E) : 12 ≤ (entryBytes e).length := by
  simp [entryBytes, writeEntry, le32_length]; omega

theorem length_le_data (es : List E) : es.length ≤ (data es).length := by
  induction es with
  | nil => simp
  | cons e es ih =>
    rw [data_cons, List.length_append, List.length_cons]
    have := entry_length e
    omega

theorem maxVersion_lt (es : List E) (m : Nat) (hm : m < 2 ^ 32) (h : ∀ e ∈ es, e.ver < 2 ^ 32) :
    es.foldl (fun m e => max e.ver m) m < 2 ^ 32 := by
  induction es generalizing m with
  | nil => exact hm
  | cons e es ih =>
    apply ih
    · have := h e List.mem_cons_self
      show max e.ver m < _
      omega
    · exact fun x hx => h x (List.mem_cons_of_mem _ hx)

theorem lowest_lt (track : Bool) (es : List E) (m : Nat) (hm : m < 2 ^ 32) : lowest track m es < 2 ^ 32 := by
  unfold lowest
  cases track with
  | false => exact hm
  | true =>
    simp only [if_true]
    induction es generalizing m with
    | nil => exact hm
    | cons e es ih => apply ih; show min e.ver m < _; omega

theorem buildIndex_lt (prev : Option DbKey) (pos : Nat) (es : List E) : ∀ i ∈ buildIndex prev pos es, pos ≤ i ∧ i < pos + es.length := by
  induction es generalizing prev pos with
  | nil => intro i hi; exact absurd hi List.not_mem_nil
  | cons e es ih =>
    intro i hi
    have bi : buildIndex prev pos (e :: es) = if prev = some e.key then buildIndex (some e.key) (pos + 1) es
        else pos :: buildIndex (some e.key) (pos + 1) es := rfl
    rw [bi] at hi
    rw [List.length_cons]
    by_cases c : prev = some e.key
    · rw [if_pos c] at hi
      have := ih _ _ i hi; omega
    · rw [if_neg c] at hi
      rcases List.mem_cons.1 hi with d | d
      · omega
      · have := ih _ _ i d; omega

theorem buildIndex_length (prev : Option DbKey) (pos : Nat) (es : List E) : (buildIndex prev pos es).length ≤ es.length := by
  induction es generalizing prev pos with
  | nil => simp [buildIndex]
  | cons e es ih =>
    have bi : buildIndex prev pos (e :: es) = if prev = some e.key then buildIndex (some e.key) (pos + 1) es
        else pos :: buildIndex (some e.key) (pos + 1) es := rfl
    rw [bi, List.length_cons]
    have := ih (some e.key) (pos + 1)
    by_cases c : prev = some e.key
    · rw [if_pos c]; omega
    · rw [if_neg c, List.length_cons]; omega

theorem offset_le (es : List E) (i : Nat) : offset es i ≤ headerSize + (data es).length := by
  unfold offset
  have : data es = data (es.take i) ++ data (es.drop i) := by rw [← data_append, List.take_append_drop]
  rw [this, List.length_append]
  omega

theorem ok_of (level minV : Nat) (es : List E) (h : Fits level minV es) (e : E) (he : e ∈ es) :
    Raw.OK ⟨e.ver, e.key.bytes, e.val⟩ := by
  obtain ⟨a, b, c⟩ := h.ent e he
  exact ⟨by unfold u32max at a; show e.ver < _; omega, b, c⟩

/-- The fields of a block file. -/
def headOf (level : Nat) (track : Bool) (minV : Nat) (es : List E) : Head :=
  ⟨level, lowest track minV es, maxVersion es, es.length, headerSize + (data es).length, offsets es⟩

/-- C162.  A block file is read with the fields it was written with. -/
theorem readBlock_file (level : Nat) (track : Bool) (minV : Nat) (es : List E) (h : Fits level minV es) :
    readBlock (blockFile level track minV es) = some (headOf level track minV es) := by
  have hs : headerSize + (data es).length < 2 ^ 63 := h.size
  have hc : es.length < 2 ^ 64 := by have := length_le_data es; omega
  have drop : (blockFile level track minV es).drop (headerSize + (data es).length) = indexBytes (offsets es) := by
    rw [blockFile_eq, ← List.append_assoc]
    apply List.drop_left'
    rw [List.length_append, headBytes_length]
  have hi : (offsets es).length < 2 ^ 64 := by
    unfold offsets
    rw [List.length_map]
    have := buildIndex_length none 0 es
    omega
  have ho : ∀ x ∈ offsets es, x < 2 ^ 64 := by
    intro x hx
    obtain ⟨i, _, rfl⟩ := List.mem_map.1 hx
    have := offset_le es i
    omega
  have idx : readIndex (offsets es).length ((offsets es).flatMap le64) = some (offsets es) := by
    have := readIndex_flat (offsets es) ho []
    rwa [List.append_nil] at this
  have hmx : maxVersion es < 2 ^ 32 := maxVersion_lt es 0 (by decide) fun e he => (ok_of level minV es h e he).1
  have e1 : readNum 2 (blockFile level track minV es) = some (0, le32 level ++ (le32 (lowest track minV es)
      ++ (le32 (maxVersion es) ++ (le64 es.length ++ (le64 (headerSize + (data es).length)
        ++ (data es ++ indexBytes (offsets es))))))) := by
    rw [blockFile_eq]
    unfold headBytes
    simp only [List.append_assoc]
    exact readNum2 _
  unfold readBlock
  simp only [e1, Option.bind_eq_bind, Option.bind_some, Nat.lt_irrefl, if_false, readNum4 h.level,
    readNum4 (lowest_lt track es minV h.minV), readNum4 hmx, readNum8 hc,
    readNum8 (show headerSize + (data es).length < 2 ^ 64 by omega), drop]
  unfold indexBytes
  rw [readNum8 hi]
  simp only [Option.bind_some, idx]
  rfl

/-- The block of the model of the table that a file holds. -/
def blockOf (id level low : Nat) (es : List E) : Block DbKey (List Byte) := mkBlock id level low es

theorem file_drop (level : Nat) (track : Bool) (minV : Nat) (es : List E) (i : Nat) :
    (blockFile level track minV es).drop (offset es i) = data (es.drop i) ++ indexBytes (offsets es) := by
  rw [blockFile_eq]
  have d : data es = data (es.take i) ++ data (es.drop i) := by rw [← data_append, List.take_append_drop]
  conv => lhs; arg 2; arg 2; rw [d]
  rw [List.append_assoc, ← List.append_assoc (headBytes _ _ _ _ _)]
  apply List.drop_left'
  rw [List.length_append, headBytes_length]
  rfl

theorem keyAt_offset (level : Nat) (track : Bool) (minV : Nat) (es : List E) (h : Fits level minV es) (i : Nat) (e : E)
    (he : es[i]? = some e) : keyAt (blockFile level track minV es) (offset es i) = some (e.ver, e.key) := by
  have m : e ∈ es := List.mem_of_getElem? he
  have hd : es.drop i = e :: es.drop (i + 1) := by
    obtain ⟨hl, rfl⟩ := List.getElem?_eq_some_iff.1 he
    exact List.drop_eq_getElem_cons hl
  have ok := ok_of level minV es h e m
  unfold keyAt
  rw [file_drop, hd, data_cons]
  unfold entryBytes writeEntry
  simp only [List.append_assoc]
  rw [read32_append ok.1]
  dsimp only
  rw [readSized_append ok.2.1]

theorem valueAt_offset (level : Nat) (track : Bool) (minV : Nat) (es : List E) (h : Fits level minV es) (i : Nat) (e : E)
    (he : es[i]? = some e) : valueAt (blockFile level track minV es) (offset es i) e.key = some e.val := by
  have m : e ∈ es := List.mem_of_getElem? he
  have hd : es.drop i = e :: es.drop (i + 1) := by
    obtain ⟨hl, rfl⟩ := List.getElem?_eq_some_iff.1 he
    exact List.drop_eq_getElem_cons hl
  have ok := ok_of level minV es h e m
  unfold valueAt
  rw [Nat.add_assoc, ← List.drop_drop, file_drop, hd, data_cons]
  unfold entryBytes writeEntry
  have d : (((le32 e.ver ++ (le32 e.key.bytes.length ++ (e.key.bytes ++ (le32 e.val.length ++ e.val)))) ++ data (es.drop (i + 1)))
      ++ indexBytes (offsets es)).drop (8 + e.key.bytes.length)
      = le32 e.val.length ++ (e.val ++ (data (es.drop (i + 1)) ++ indexBytes (offsets es))) := by
    have : ((le32 e.ver ++ (le32 e.key.bytes.length ++ (e.key.bytes ++ (le32 e.val.length ++ e.val)))) ++ data (es.drop (i + 1)))
      ++ indexBytes (offsets es) = (le32 e.ver ++ (le32 e.key.bytes.length ++ e.key.bytes))
        ++ (le32 e.val.length ++ (e.val ++ (data (es.drop (i + 1)) ++ indexBytes (offsets es)))) := by simp only [List.append_assoc]
    rw [this]
    apply List.drop_left'
    simp only [List.length_append, le32_length]
    omega
  rw [d, readSized_append ok.2.2]
  rfl

theorem index_get (es : List E) (pos : Nat) : (offsets es)[pos]? = ((buildIndex none 0 es)[pos]?).map (offset es) := by
  unfold offsets
  rw [List.getElem?_map]

theorem atB_eq (id lv low level : Nat) (track : Bool) (minV : Nat) (es : List E) (h : Fits level minV es) (pos : Nat) :
    atB (blockFile level track minV es) (headOf level track minV es) pos
      = ((blockOf id lv low es).at pos).map fun e => (e.ver, e.key) := by
  unfold atB Block.at
  show (match (offsets es)[pos]? with
    | none => none
    | some off => keyAt (blockFile level track minV es) off)
    = Option.map _ (match (buildIndex none 0 es)[pos]? with
    | none => none
    | some p => es[p]?)
  rw [index_get]
  match c : (buildIndex none 0 es)[pos]? with
  | none => rfl
  | some p =>
    have lt := (buildIndex_lt none 0 es p (List.mem_of_getElem? c)).2
    rw [Nat.zero_add] at lt
    have g : es[p]? = some es[p] := List.getElem?_eq_getElem lt
    simp only [Option.map_some, g, keyAt_offset level track minV es h p es[p] g]

theorem bsearchB_eq (id lv low level : Nat) (track : Bool) (minV : Nat) (es : List E) (h : Fits level minV es) (key : DbKey)
    (n L R : Nat) :
    bsearchB (blockFile level track minV es) (headOf level track minV es) key n L R
      = bsearch (blockOf id lv low es) key n L R := by
  induction n generalizing L R with
  | zero => unfold bsearchB bsearch; rfl
  | succ n ih =>
    unfold bsearchB bsearch
    by_cases c : L < R
    · simp only [c, if_true, atB_eq id lv low level track minV es h]
      match (blockOf id lv low es).at ((L + R) / 2) with
      | none => rfl
      | some e =>
        simp only [Option.map_some, ih]
        by_cases d : key < e.key
        · rw [if_pos d, if_pos ((dbkey_lt _ _).1 d)]
        · rw [if_neg d, if_neg (fun q => d ((dbkey_lt _ _).2 q))]
    · simp only [c, if_false]

/-- The answer of the two searches. -/
def LB.toB (r : LB DbKey (List Byte)) : LowB := ⟨r.pos, r.isMatch, r.ent.map fun e => (e.ver, e.key)⟩

theorem lowerBoundB_eq (id lv low level : Nat) (track : Bool) (minV : Nat) (es : List E) (h : Fits level minV es) (key : DbKey) :
    lowerBoundB (blockFile level track minV es) (headOf level track minV es) key
      = (lowerBound (blockOf id lv low es) key).map LB.toB := by
  have len : (headOf level track minV es).index.length = (blockOf id lv low es).index.length := by
    show ((buildIndex none 0 es).map (offset es)).length = (buildIndex none 0 es).length
    exact List.length_map _
  unfold lowerBoundB lowerBound lowerAfter
  rw [bsearchB_eq id lv low level track minV es h, len]
  match bsearch (blockOf id lv low es) key (blockOf id lv low es).index.length 0
    (blockOf id lv low es).index.length with
  | none => rfl
  | some R =>
    simp only [atB_eq id lv low level track minV es h]
    by_cases c : 0 < R
    · simp only [c, if_true]
      match (blockOf id lv low es).at (R - 1) with
      | none => rfl
      | some e =>
        simp only [Option.map_some]
        by_cases d : key = e.key
        · simp only [d, if_true]; rfl
        · simp only [d, if_false]
          by_cases f : R < (blockOf id lv low es).index.length
          · simp only [f, if_true]
            match (blockOf id lv low es).at R with
            | none => rfl
            | some e => rfl
          · simp only [f, if_false]; rfl
    · simp only [c, if_false]
      by_cases f : R < (blockOf id lv low es).index.length
      · simp only [f, if_true]
        match (blockOf id lv low es).at R with
        | none => rfl
        | some e => rfl
      · simp only [f, if_false]; rfl

theorem scanB_eq (key : DbKey) (maxV : Nat) (n : Nat) (cur : E) (es : List E) (hn : es.length < n)
    (ok : ∀ e ∈ es, Raw.OK ⟨e.ver, e.key.bytes, e.val⟩) :
    scanB key maxV n cur.ver cur.val (data es) = some (scanOlder key maxV cur es) := by
  induction es generalizing n cur with
  | nil =>
    unfold scanB scanOlder
    by_cases c : maxV < cur.ver
    · simp only [c, if_true]
      cases n with
      | zero => simp at hn
      | succ n => rfl
    · simp only [c, if_false]
  | cons e es ih =>
    unfold scanB scanOlder
    by_cases c : maxV < cur.ver
    · simp only [c, if_true]
      cases n with
      | zero => simp at hn
      | succ n =>
        rw [data_cons]
        unfold entryBytes
        rw [readEntry_append (ok e List.mem_cons_self)]
        dsimp only
        by_cases d : e.key = key
        · have d' : e.key.bytes = key.bytes := by rw [d]
          rw [if_pos d', if_pos d]
          exact ih n e (by rw [List.length_cons] at hn; omega) fun x hx => ok x (List.mem_cons_of_mem _ hx)
        · have d' : ¬ e.key.bytes = key.bytes := fun q => d (by
            cases hk : e.key with
            | mk b => cases key with
              | mk b' => rw [hk] at q; simp only at q; rw [q])
          rw [if_neg d', if_neg d]
    · simp only [c, if_false]

theorem lowerBound_match {b : Block DbKey (List Byte)} {key : DbKey} {r : LB DbKey (List Byte)} (h : lowerBound b key = some r)
    (hm : r.isMatch = true) : ∃ e, b.at r.pos = some e ∧ r.ent = some e ∧ e.key = key := by
  unfold lowerBound at h
  revert h
  match bsearch b key b.index.length 0 b.index.length with
  | none => exact fun h => nomatch h
  | some R =>
    dsimp only
    intro h
    by_cases c : 0 < R
    · rw [if_pos c] at h
      match g : b.at (R - 1), h with
      | none, h => exact nomatch h
      | some e, h =>
        dsimp only at h
        by_cases d : key = e.key
        · rw [if_pos d] at h
          rw [← Option.some.inj h]
          exact ⟨e, g, rfl, d.symm⟩
        · rw [if_neg d] at h
          revert h
          by_cases f : R < b.index.length
          · rw [if_pos f]
            cases b.at R with
            | none => exact fun h => nomatch h
            | some e => intro h; rw [← Option.some.inj h] at hm; exact nomatch hm
          · rw [if_neg f]
            intro h
            rw [← Option.some.inj h] at hm
            exact nomatch hm
    · rw [if_neg c] at h
      revert h
      by_cases f : R < b.index.length
      · rw [if_pos f]
        cases b.at R with
        | none => exact fun h => nomatch h
        | some e => intro h; rw [← Option.some.inj h] at hm; exact nomatch hm
      · rw [if_neg f]
        intro h
        rw [← Option.some.inj h] at hm
        exact nomatch hm

/-- C162.  A lookup in a block file gives what it gives in the block of the model, for every key and version. -/
theorem findB_eq (id lv low level : Nat) (track : Bool) (minV : Nat) (es : List E) (h : Fits level minV es) (key : DbKey) (maxV : Nat) :
    findB (blockFile level track minV es) (headOf level track minV es) key maxV
      = findBlock (blockOf id lv low es) key maxV := by
  unfold findB findBlock
  rw [lowerBoundB_eq id lv low level track minV es h]
  match hr : lowerBound (blockOf id lv low es) key with
  | none => rfl
  | some ⟨pos, false, ent⟩ => rfl
  | some ⟨pos, true, ent⟩ =>
    obtain ⟨e, ea, ee, ek⟩ := lowerBound_match hr rfl
    dsimp only at ea ee
    subst ee
    subst ek
    simp only [Option.map_some, LB.toB, if_true]
    show (match (offsets es)[pos]? with | none => none | some o => _) = (match (buildIndex none 0 es)[pos]? with | none => none | some p => _)
    unfold Block.at at ea
    change (match (buildIndex none 0 es)[pos]? with | none => none | some p => es[p]?) = some e at ea
    rw [index_get]
    match c : (buildIndex none 0 es)[pos]?, ea with
    | none, _ => rfl
    | some p, ea =>
      dsimp only at ea
      have m : e ∈ es := List.mem_of_getElem? ea
      have ok := ok_of level minV es h e m
      have hd : es.drop p = e :: es.drop (p + 1) := by
        obtain ⟨hl, rfl⟩ := List.getElem?_eq_some_iff.1 ea
        exact List.drop_eq_getElem_cons hl
      have total : data es = data (es.take p) ++ (entryBytes e ++ data (es.drop (p + 1))) := by
        rw [← data_cons, ← hd, ← data_append, List.take_append_drop]
      have el : (entryBytes e).length = 8 + e.key.bytes.length + (4 + e.val.length) := by
        simp [entryBytes, writeEntry, le32_length]; omega
      have tl : (data es).length = (data (es.take p)).length + (8 + e.key.bytes.length + (4 + e.val.length)
          + (data (es.drop (p + 1))).length) := by
        rw [total, List.length_append, List.length_append, el]
      show (if headerSize + (data es).length < offset es p + 8 + e.key.bytes.length then none else _) = _
      have off : offset es p = headerSize + (data (es.take p)).length := rfl
      rw [if_neg (by omega)]
      have sec : ((blockFile level track minV es).drop (offset es p + 8 + e.key.bytes.length)).take
          (headerSize + (data es).length - (offset es p + 8 + e.key.bytes.length))
          = le32 e.val.length ++ (e.val ++ data (es.drop (p + 1))) := by
        rw [Nat.add_assoc, ← List.drop_drop, file_drop, hd, data_cons]
        have split : (entryBytes e ++ data (es.drop (p + 1))) ++ indexBytes (offsets es)
            = (le32 e.ver ++ (le32 e.key.bytes.length ++ e.key.bytes))
              ++ ((le32 e.val.length ++ (e.val ++ data (es.drop (p + 1)))) ++ indexBytes (offsets es)) := by
          simp only [entryBytes, writeEntry, List.append_assoc]
        rw [split, List.drop_left' (by simp only [List.length_append, le32_length]; omega)]
        apply List.take_left'
        simp only [List.length_append, le32_length]
        omega
      change (match readSized (((blockFile level track minV es).drop (offset es p + 8 + e.key.bytes.length)).take
          (headerSize + (data es).length - (offset es p + 8 + e.key.bytes.length))) with
        | none => none
        | some (val, rest) => scanB e.key maxV (rest.length + 1) e.ver val rest) = _
      rw [sec, readSized_append ok.2.2]
      dsimp only
      rw [scanB_eq e.key maxV _ e (es.drop (p + 1)) (by have := length_le_data (es.drop (p + 1)); omega)
        (fun x hx => ok_of level minV es h x (List.mem_of_mem_drop hx))]
      have hd' : (blockOf id lv low es).entries.drop p = e :: es.drop (p + 1) := hd
      rw [hd']

theorem readAll_eq (es : List E) (ok : ∀ e ∈ es, Raw.OK ⟨e.ver, e.key.bytes, e.val⟩) (rest : List Byte) :
    readAll es.length (data es ++ rest) = some es := by
  induction es with
  | nil => rfl
  | cons e es ih =>
    rw [List.length_cons, data_cons, List.append_assoc]
    unfold readAll entryBytes
    rw [readEntry_append (ok e List.mem_cons_self)]
    dsimp only
    rw [ih fun x hx => ok x (List.mem_cons_of_mem _ hx)]

/-! ### the property -/

/-- C162.  A block file is opened with the level and the number of entries it was written with, and with the range of the
    versions in it: those of `flush` and `rewrite` (first part) with both ends, those of `revert` with the lower end of before. -/
theorem C162_reopen (level : Nat) (track : Bool) (minV : Nat) (es : List E) (h : Fits level minV es) (ne : es ≠ []) :
    ∃ hd, readBlock (blockFile level track minV es) = some hd ∧ hd.level = level ∧ hd.count = es.length
      ∧ (∀ e ∈ es, e.ver ≤ hd.maxV) ∧ (∃ e ∈ es, e.ver = hd.maxV)
      ∧ (track = true → minV = u32max → (∀ e ∈ es, hd.minV ≤ e.ver) ∧ (∃ e ∈ es, e.ver = hd.minV))
      ∧ (track = false → hd.minV = minV) := by
  refine ⟨_, readBlock_file level track minV es h, rfl, rfl, (maxVersion_spec ne).1, (maxVersion_spec ne).2, ?_, ?_⟩
  · rintro rfl rfl
    exact minVersion_spec ne fun e he => (h.ent e he).1
  · rintro rfl; rfl

/-- C162.  A lookup in a block file that was written and opened again gives the newest value of the key up to the version
    asked for, and nothing if there is none. -/
theorem C162_find (level : Nat) (track : Bool) (minV : Nat) (es : List E) (h : Fits level minV es) (hs : Sorted es) :
    ∃ hd, readBlock (blockFile level track minV es) = some hd ∧
      ∀ key maxV, ∃ r, findB (blockFile level track minV es) hd key maxV = some r ∧ Latest (· ∈ es) key maxV r := by
  refine ⟨_, readBlock_file level track minV es h, fun key maxV => ?_⟩
  rw [findB_eq 0 level (minVersion es) level track minV es h]
  by_cases c : es = []
  · subst c
    exact ⟨none, rfl, fun e he => absurd he List.not_mem_nil⟩
  · exact findBlock_latest (mkBlock_ok hs c (fun e he => (h.ent e he).1) 0 level) key maxV

theorem buildIndex_has (prev : Option DbKey) (pos : Nat) (es : List E) (j : Nat) (e : E) (he : es[j]? = some e) :
    prev = some e.key ∨ ∃ i, pos + i ∈ buildIndex prev pos es ∧ i ≤ j ∧ ∃ x, es[i]? = some x ∧ x.key = e.key := by
  induction es generalizing prev pos j with
  | nil => simp at he
  | cons a es ih =>
    have bi : buildIndex prev pos (a :: es) = if prev = some a.key then buildIndex (some a.key) (pos + 1) es
        else pos :: buildIndex (some a.key) (pos + 1) es := rfl
    rw [bi]
    have head : a.key = e.key → prev = some e.key ∨ ∃ i, pos + i ∈ (if prev = some a.key then buildIndex (some a.key) (pos + 1) es
        else pos :: buildIndex (some a.key) (pos + 1) es) ∧ i ≤ j ∧ ∃ x, (a :: es)[i]? = some x ∧ x.key = e.key := by
      intro k
      by_cases c : prev = some a.key
      · exact Or.inl (k ▸ c)
      · rw [if_neg c]
        exact Or.inr ⟨0, List.mem_cons_self, Nat.zero_le _, a, rfl, k⟩
    cases j with
    | zero =>
      have : a = e := by simpa using he
      exact head (by rw [this])
    | succ j =>
      rcases ih (some a.key) (pos + 1) j (by simpa using he) with c | ⟨i, m, le, x, hx, hk⟩
      · exact head (Option.some.inj c)
      · have m' : pos + (i + 1) ∈ buildIndex (some a.key) (pos + 1) es := by
          rw [show pos + (i + 1) = pos + 1 + i by omega]; exact m
        refine Or.inr ⟨i + 1, ?_, by omega, x, by simpa using hx, hk⟩
        by_cases c : prev = some a.key
        · rw [if_pos c]; exact m'
        · rw [if_neg c]; exact List.mem_cons_of_mem _ m'

/-- C162.  Reading at the positions of the index, as an iterator does, gives the newest entry of every key. -/
theorem C162_index (level : Nat) (track : Bool) (minV : Nat) (es : List E) (h : Fits level minV es) (hs : Sorted es) (e : E)
    (he : e ∈ es) :
    ∃ hd, readBlock (blockFile level track minV es) = some hd
      ∧ ∃ (pos o : Nat) (x : E), hd.index[pos]? = some o ∧ x ∈ es ∧ x.key = e.key ∧ e.ver ≤ x.ver
        ∧ keyAt (blockFile level track minV es) o = some (x.ver, x.key)
        ∧ valueAt (blockFile level track minV es) o x.key = some x.val := by
  refine ⟨_, readBlock_file level track minV es h, ?_⟩
  obtain ⟨j, hj⟩ := List.getElem?_of_mem he
  rcases buildIndex_has none 0 es j e hj with c | ⟨i, m, le, x, hx, hk⟩
  · exact nomatch c
  · rw [Nat.zero_add] at m
    obtain ⟨pos, hpos⟩ := List.getElem?_of_mem m
    refine ⟨pos, offset es i, x, ?_, List.mem_of_getElem? hx, hk, ?_, keyAt_offset level track minV es h i x hx,
      valueAt_offset level track minV es h i x hx⟩
    · show (offsets es)[pos]? = _
      rw [index_get, hpos]
      rfl
    · obtain ⟨li, rfl⟩ := List.getElem?_eq_some_iff.1 hx
      obtain ⟨lj, rfl⟩ := List.getElem?_eq_some_iff.1 hj
      by_cases c : i = j
      · subst c; exact Nat.le_refl _
      · have b := List.pairwise_iff_getElem.1 hs i j li lj (by omega)
        unfold Entry.before at b
        rw [if_pos hk] at b
        have := of_decide_eq_true b
        omega

/-- C162.  Reading the entries in a row, as when a block is merged or cut back, gives exactly what was written; so does reading at
    a position of the index, as an iterator does. -/
theorem C162_entries (level : Nat) (track : Bool) (minV : Nat) (es : List E) (h : Fits level minV es) :
    ∃ hd, readBlock (blockFile level track minV es) = some hd
      ∧ readAll hd.count ((blockFile level track minV es).drop headerSize) = some es
      ∧ ∀ (pos o : Nat), hd.index[pos]? = some o → ∃ e ∈ es, keyAt (blockFile level track minV es) o = some (e.ver, e.key)
          ∧ valueAt (blockFile level track minV es) o e.key = some e.val := by
  refine ⟨_, readBlock_file level track minV es h, ?_, fun pos o ho => ?_⟩
  · have := file_drop level track minV es 0
    have z : offset es 0 = headerSize := rfl
    rw [z] at this
    rw [this]
    exact readAll_eq es (fun e he => ok_of level minV es h e he) _
  · change (offsets es)[pos]? = some o at ho
    rw [index_get] at ho
    match c : (buildIndex none 0 es)[pos]?, ho with
    | none, ho => exact nomatch ho
    | some p, ho =>
      have lt := (buildIndex_lt none 0 es p (List.mem_of_getElem? c)).2
      rw [Nat.zero_add] at lt
      have g : es[p]? = some es[p] := List.getElem?_eq_getElem lt
      rw [← Option.some.inj ho]
      exact ⟨es[p], List.getElem_mem lt, keyAt_offset level track minV es h p _ g, valueAt_offset level track minV es h p _ g⟩

/-- Two versions of one key and another key: the index has two positions. -/
def sampleFile : List E := [⟨⟨[1]⟩, 7, [10, 11]⟩, ⟨⟨[1]⟩, 3, []⟩, ⟨⟨[2, 0]⟩, 5, [12]⟩]

example : Sorted sampleFile := by unfold Sorted; decide

example : Fits 2 u32max sampleFile := ⟨by decide, by decide, by decide, by decide⟩

example : readBlock (blockFile 2 true u32max sampleFile) = some ⟨2, 3, 7, 3, 73, [30, 58]⟩
    ∧ findB (blockFile 2 true u32max sampleFile) ⟨2, 3, 7, 3, 73, [30, 58]⟩ ⟨[1]⟩ 6 = some (some [])
    ∧ findB (blockFile 2 true u32max sampleFile) ⟨2, 3, 7, 3, 73, [30, 58]⟩ ⟨[1]⟩ 2 = some none := by decide +kernel

/-! ### damaged files -/

theorem readNum_take {w m : Nat} {a rest : List Byte} (ha : a.length = w) :
    readNum w ((a ++ rest).take m) = if w ≤ m then some (leDec a, rest.take (m - w)) else none := by
  by_cases c : w ≤ m
  · rw [if_pos c, List.take_append, List.take_of_length_le (by omega), ha]
    unfold readNum
    rw [readBytes_append ha]
  · rw [if_neg c]
    unfold readNum
    rw [readBytes_none (by rw [List.length_take]; omega)]

theorem readIndex_take (l : List Nat) (m : Nat) (h : m < 8 * l.length) : readIndex l.length ((l.flatMap le64).take m) = none := by
  induction l generalizing m with
  | nil => simp at h
  | cons x l ih =>
    rw [List.flatMap_cons, List.length_cons]
    unfold readIndex
    rw [readNum_take (le64_length x)]
    by_cases c : 8 ≤ m
    · rw [if_pos c]
      dsimp only
      rw [ih (m - 8) (by rw [List.length_cons] at h; omega)]
    · rw [if_neg c]

theorem flat_length (l : List Nat) : (l.flatMap le64).length = 8 * l.length := by
  induction l with
  | nil => rfl
  | cons x l ih => rw [List.flatMap_cons, List.length_append, ih, le64_length, List.length_cons]; omega

/-- C163.  Full claim: a block file that is not as it was written is refused.  Proved: a file that was cut short, wherever, is refused
    when it is opened.  Missing: other damage, see `C163_zeros` and `C163_changed`. -/
theorem C163_cut_partial (level : Nat) (track : Bool) (minV : Nat) (es : List E) (h : Fits level minV es) (m : Nat)
    (hm : m < (blockFile level track minV es).length) : readBlock ((blockFile level track minV es).take m) = none := by
  have hs : headerSize + (data es).length < 2 ^ 63 := h.size
  have hi : (offsets es).length < 2 ^ 64 := by
    unfold offsets
    rw [List.length_map]
    have := buildIndex_length none 0 es
    have := length_le_data es
    omega
  have drop : ((blockFile level track minV es).take m).drop (headerSize + (data es).length)
      = (indexBytes (offsets es)).take (m - (headerSize + (data es).length)) := by
    rw [List.drop_take]
    congr 1
    rw [blockFile_eq, ← List.append_assoc]
    apply List.drop_left'
    rw [List.length_append, headBytes_length]
  have len : (blockFile level track minV es).length = headerSize + (data es).length + (8 + 8 * (offsets es).length) := by
    rw [blockFile_eq]
    simp only [List.length_append, headBytes_length, indexBytes, le64_length, flat_length]
    omega
  have e1 : blockFile level track minV es = le16 0 ++ (le32 level ++ (le32 (lowest track minV es)
      ++ (le32 (maxVersion es) ++ (le64 es.length ++ (le64 (headerSize + (data es).length)
        ++ (data es ++ indexBytes (offsets es))))))) := by
    rw [blockFile_eq]
    unfold headBytes
    simp only [List.append_assoc]
  have z : leDec (le16 0) = 0 := rfl
  have r1 : readNum 2 ((blockFile level track minV es).take m) = if 2 ≤ m then
      some (leDec (le16 0), (le32 level ++ (le32 (lowest track minV es) ++ (le32 (maxVersion es) ++ (le64 es.length
        ++ (le64 (headerSize + (data es).length) ++ (data es ++ indexBytes (offsets es))))))).take (m - 2)) else none := by
    conv => lhs; rw [e1]
    exact readNum_take (le16_length 0)
  unfold readBlock
  rw [r1]
  by_cases c1 : 2 ≤ m
  · simp only [c1, if_true, Option.bind_eq_bind, Option.bind_some, z, Nat.lt_irrefl, if_false, readNum_take (le32_length _)]
    by_cases c2 : 4 ≤ m - 2
    · simp only [c2, if_true, Option.bind_some, readNum_take (le32_length _)]
      by_cases c3 : 4 ≤ m - 2 - 4
      · simp only [c3, if_true, Option.bind_some, readNum_take (le32_length _)]
        by_cases c4 : 4 ≤ m - 2 - 4 - 4
        · simp only [c4, if_true, Option.bind_some, readNum_take (le64_length _)]
          by_cases c5 : 8 ≤ m - 2 - 4 - 4 - 4
          · simp only [c5, if_true, Option.bind_some, readNum_take (le64_length _)]
            by_cases c6 : 8 ≤ m - 2 - 4 - 4 - 4 - 8
            · simp only [c6, if_true, Option.bind_some, leDec_le64 (show headerSize + (data es).length < 2 ^ 64 by omega), drop]
              unfold indexBytes
              rw [readNum_take (le64_length _)]
              by_cases c7 : 8 ≤ m - (headerSize + (data es).length)
              · simp only [c7, if_true, Option.bind_some, leDec_le64 hi]
                rw [readIndex_take _ _ (by omega)]
                rfl
              · simp only [c7, if_false]; rfl
            · simp only [c6, if_false]; rfl
          · simp only [c5, if_false]; rfl
        · simp only [c4, if_false]; rfl
      · simp only [c3, if_false]; rfl
    · simp only [c2, if_false]; rfl
  · simp only [c1, if_false]; rfl

/-- C163 is false: a file of zeros of any size, which is what a power failure can leave of a file that was written and renamed but
    not yet on the disk, is opened as a block without entries, and every lookup in it says that there is nothing. -/
theorem C163_zeros (n : Nat) (hn : 30 ≤ n) : readBlock (List.replicate n 0) = some ⟨0, 0, 0, 0, 0, []⟩
    ∧ ∀ key maxV, findB (List.replicate n 0) ⟨0, 0, 0, 0, 0, []⟩ key maxV = some none := by
  have rd : ∀ w m : Nat, w ≤ m → readNum w (List.replicate m 0) = some (leDec (List.replicate w 0), List.replicate (m - w) 0) := by
    intro w m h
    have : List.replicate m (0 : Byte) = List.replicate w 0 ++ List.replicate (m - w) 0 := by
      rw [List.replicate_append_replicate]; congr 1; omega
    unfold readNum
    rw [this, readBytes_append (List.length_replicate ..)]
  have z : ∀ w : Nat, leDec (List.replicate w 0) = 0 := by
    intro w
    induction w with
    | zero => rfl
    | succ w ih => rw [List.replicate_succ]; simp [leDec, ih]
  refine ⟨?_, fun key maxV => rfl⟩
  unfold readBlock
  rw [rd 2 n (by omega)]
  simp only [Option.bind_eq_bind, Option.bind_some, z, Nat.lt_irrefl, if_false]
  rw [rd 4 (n - 2) (by omega)]
  simp only [Option.bind_some, z]
  rw [rd 4 (n - 2 - 4) (by omega)]
  simp only [Option.bind_some, z]
  rw [rd 4 (n - 2 - 4 - 4) (by omega)]
  simp only [Option.bind_some, z]
  rw [rd 8 (n - 2 - 4 - 4 - 4) (by omega)]
  simp only [Option.bind_some, z]
  rw [rd 8 (n - 2 - 4 - 4 - 4 - 8) (by omega)]
  simp only [Option.bind_some, z, List.drop_zero]
  rw [rd 8 n (by omega)]
  simp only [Option.bind_some, z]
  rfl

/-- C163 is false: a changed byte of a value is not noticed either (entries of block files have no checksum, those of the log do). -/
theorem C163_changed :
    readBlock ((blockFile 2 true u32max sampleFile).set 43 99) = some ⟨2, 3, 7, 3, 73, [30, 58]⟩
    ∧ findB ((blockFile 2 true u32max sampleFile).set 43 99) ⟨2, 3, 7, 3, 73, [30, 58]⟩ ⟨[1]⟩ 9 = some (some [99, 11])
    ∧ ∀ e ∈ sampleFile, e.val ≠ [99, 11] := by decide +kernel

/-- Which of the first two bytes are not zero does not matter: a file of another format is refused. -/
theorem C163_format (b0 b1 : Byte) (rest : List Byte) (h : b0 ≠ 0 ∨ b1 ≠ 0) : readBlock (b0 :: b1 :: rest) = none := by
  have h1 : readNum 2 (b0 :: b1 :: rest) = some (leDec [b0, b1], rest) := by
    unfold readNum
    rw [show b0 :: b1 :: rest = [b0, b1] ++ rest from rfl, readBytes_append (n := 2) (a := [b0, b1]) rfl]
  have h2 : 0 < leDec [b0, b1] := by
    have h0 : ∀ b : Byte, b ≠ 0 → 0 < b.val := fun b hb => by
      rcases Nat.eq_zero_or_pos b.val with e | e
      · exact absurd (Fin.ext e) hb
      · exact e
    have e : leDec [b0, b1] = b0.val + 256 * (b1.val + 256 * 0) := rfl
    rw [e]
    rcases h with h | h <;> have := h0 _ h <;> omega
  unfold readBlock
  rw [h1]
  show (if 0 < leDec [b0, b1] then none else _) = none
  rw [if_pos h2]

example : readBlock ((blockFile 2 true u32max sampleFile).set 0 1) = none := by decide +kernel

end Verif.DB
