/-
  C144: what was written to the file of blocks is read back.  C145: what is noticed of damage to it.
-/
import Verif.Blocks.File

namespace Verif.Blocks

variable {H T : Type}

/-! ### two lists entry by entry -/

def Both {α β : Type} (R : α → β → Prop) : List α → List β → Prop
  | [], [] => True
  | a :: l, b :: r => R a b ∧ Both R l r
  | _, _ => False

theorem both_imp {α β : Type} {R Q : α → β → Prop} (h : ∀ a b, R a b → Q a b) : ∀ {l : List α} {r : List β},
    Both R l r → Both Q l r
  | [], [], _ => trivial
  | _ :: _, _ :: _, ⟨x, y⟩ => ⟨h _ _ x, both_imp h y⟩

theorem both_drop {α β : Type} {R : α → β → Prop} : ∀ (n : Nat) {l : List α} {r : List β}, Both R l r →
    Both R (l.drop n) (r.drop n)
  | 0, _, _, h => h
  | _ + 1, [], [], _ => trivial
  | n + 1, _ :: _, _ :: _, ⟨_, y⟩ => both_drop n y

/-! ### reading what is there -/

/-- The bytes are in the file at the offset. -/
def Lies (file : List Nat) (offset : Nat) (bytes : List Nat) : Prop :=
  ∃ pre post, file = pre ++ (bytes ++ post) ∧ pre.length = offset

theorem lies_more {file bytes : List Nat} {o : Nat} (h : Lies file o bytes) (r : List Nat) : Lies (file ++ r) o bytes := by
  obtain ⟨a, b, rfl, h2⟩ := h
  exact ⟨a, b ++ r, by rw [List.append_assoc, List.append_assoc], h2⟩

theorem lies_drop {file bytes : List Nat} {o : Nat} (h : Lies file o bytes) : ∃ post, file.drop o = bytes ++ post := by
  obtain ⟨a, b, rfl, rfl⟩ := h
  exact ⟨b, by rw [List.drop_left]⟩

theorem read_txs {c : Codec H T} (hc : c.Ok) (r : List Nat) : ∀ (l : List T) (fuel pos : Nat), l.length < fuel →
    readTxs c fuel pos (txBytes c l ++ (c.enc .null ++ r)) = some ((offsets c pos l).zip l)
  | _, 0, _, h => absurd h (Nat.not_lt_zero _)
  | [], fuel + 1, pos, _ => by
    unfold readTxs txBytes
    rw [List.nil_append, hc.back]
    rfl
  | t :: l, fuel + 1, pos, h => by
    unfold readTxs
    have e : txBytes c (t :: l) ++ (c.enc .null ++ r) = c.enc (.tx t) ++ (txBytes c l ++ (c.enc .null ++ r)) := by
      show (c.enc (.tx t) ++ txBytes c l) ++ _ = _
      rw [List.append_assoc]
    rw [e, hc.back]
    dsimp only
    rw [List.length_append, Nat.add_sub_cancel, read_txs hc r l fuel _ (Nat.lt_of_succ_lt_succ h)]
    rfl

theorem tx_bytes_length {c : Codec H T} (hc : c.Ok) : ∀ l : List T, l.length ≤ (txBytes c l).length
  | [] => Nat.le_refl _
  | t :: l => by
    have h1 := tx_bytes_length hc l
    have h2 := List.length_pos_iff.2 (hc.pos (.tx t))
    show l.length + 1 ≤ (c.enc (.tx t) ++ txBytes c l).length
    rw [List.length_append]
    omega

/-- The offsets of the transactions of a block at an offset. -/
def txOffsets (c : Codec H T) (o : Nat) (b : Blk H T) : List Nat := offsets c (o + (c.enc (.header b.header)).length) b.txs

theorem read_block {c : Codec H T} (hc : c.Ok) {file : List Nat} {o : Nat} {b : Blk H T} (h : Lies file o (blkBytes c b)) :
    readBlock c file o = some (b.header, (txOffsets c o b).zip b.txs) := by
  have hl : b.txs.length < file.length + 1 := by
    obtain ⟨pre, post, rfl, _⟩ := h
    have := tx_bytes_length hc b.txs
    unfold blkBytes
    simp only [List.length_append]
    omega
  obtain ⟨post, hd⟩ := lies_drop h
  unfold readBlock
  rw [hd]
  unfold blkBytes
  rw [List.append_assoc, hc.back]
  dsimp only
  rw [List.append_assoc, List.length_append, Nat.add_sub_cancel, read_txs hc post b.txs _ _ hl]
  rfl

theorem read_header {c : Codec H T} (hc : c.Ok) {file : List Nat} {o : Nat} {b : Blk H T} (h : Lies file o (blkBytes c b)) :
    readHeader c file o = some b.header := by
  obtain ⟨post, hd⟩ := lies_drop h
  unfold readHeader
  rw [hd]
  unfold blkBytes
  rw [List.append_assoc, hc.back]

theorem offsets_length (c : Codec H T) : ∀ (l : List T) (pos : Nat), (offsets c pos l).length = l.length
  | [], _ => rfl
  | _ :: l, _ => congrArg (· + 1) (offsets_length c l _)

theorem zip_snd {α β : Type} : ∀ (l : List α) (r : List β), l.length = r.length → (l.zip r).map (·.2) = r
  | [], [], _ => rfl
  | _ :: l, b :: r, h => congrArg (b :: ·) (zip_snd l r (Nat.succ.inj h))

theorem zip_fst {α β : Type} : ∀ (l : List α) (r : List β), l.length = r.length → (l.zip r).map (·.1) = l
  | [], [], _ => rfl
  | a :: l, _ :: r, h => congrArg (a :: ·) (zip_fst l r (Nat.succ.inj h))

theorem tx_offsets_length (c : Codec H T) (o : Nat) (b : Blk H T) : (txOffsets c o b).length = b.txs.length :=
  offsets_length c _ _

theorem block_of (c : Codec H T) (o : Nat) (b : Blk H T) : blockOf (b.header, (txOffsets c o b).zip b.txs) = b := by
  unfold blockOf
  dsimp only
  rw [zip_snd _ _ (tx_offsets_length c o b)]

theorem lies_txs {c : Codec H T} (file pre : List Nat) : ∀ (l : List T) (done post : List Nat),
    file = pre ++ (done ++ (txBytes c l ++ post)) →
    Both (fun o t => Lies file o (c.enc (.tx t))) (offsets c (pre.length + done.length) l) l
  | [], _, _, _ => trivial
  | t :: l, done, post, h => by
    have h : file = pre ++ (done ++ ((c.enc (.tx t) ++ txBytes c l) ++ post)) := h
    refine ⟨⟨pre ++ done, txBytes c l ++ post, ?_, List.length_append⟩, ?_⟩
    · rw [h, List.append_assoc, List.append_assoc]
    · have := lies_txs (c := c) file pre l (done ++ c.enc (.tx t)) post (by
        rw [h]; simp only [List.append_assoc])
      rw [List.length_append, ← Nat.add_assoc] at this
      exact this

theorem lies_block {c : Codec H T} {file : List Nat} {o : Nat} {b : Blk H T} (h : Lies file o (blkBytes c b)) :
    Both (fun p t => Lies file p (c.enc (.tx t))) (txOffsets c o b) b.txs := by
  obtain ⟨pre, post, h1, rfl⟩ := h
  refine lies_txs file pre b.txs (c.enc (.header b.header)) (c.enc .null ++ post) ?_
  rw [h1]
  unfold blkBytes
  simp only [List.append_assoc]

/-! ### the invariant -/

/-- Entries of `tx_index` and what is expected. -/
def TxOk (c : Codec H T) (file : List Nat) (e : Nat × TxAt) (x : Nat × Nat × T) : Prop :=
  e.1 = x.1 ∧ e.2.height = x.2.1 ∧ Lies file e.2.offset (c.enc (.tx x.2.2))

def BlkOk (c : Codec H T) (m : Sem H T) (file : List Nat) (e : Nat × Nat) (b : Blk H T) : Prop :=
  e.1 = m.hash b.header ∧ Lies file e.2 (blkBytes c b)

structure Rel (c : Codec H T) (m : Sem H T) (s : Store) (p : Spec H T) : Prop where
  blocks : Both (BlkOk c m s.file) s.blocks p.blocks.reverse
  once : (p.blocks.map fun b => m.hash b.header).Nodup
  heights : s.heights = p.blocks.reverse.map fun b => (m.height b.header, m.hash b.header)
  txs : Both (TxOk c s.file) s.txs p.txs

theorem both_lookup {c : Codec H T} {m : Sem H T} {file : List Nat} {h : Nat} : ∀ {l : List (Nat × Nat)} {r : List (Blk H T)},
    Both (BlkOk c m file) l r →
    (∃ o b, lookup h l = some o ∧ b ∈ r ∧ m.hash b.header = h ∧ Lies file o (blkBytes c b)) ∨
    lookup h l = none ∧ ∀ b ∈ r, m.hash b.header ≠ h
  | [], [], _ => .inr ⟨rfl, fun _ z => absurd z List.not_mem_nil⟩
  | (a, o) :: l, b :: r, ⟨⟨x, y⟩, z⟩ => by
    unfold lookup
    by_cases k : a = h
    · rw [if_pos k]
      exact .inl ⟨o, b, rfl, List.mem_cons_self, x.symm.trans k, y⟩
    · rw [if_neg k]
      rcases both_lookup (h := h) z with ⟨o', b', h1, h2, h3⟩ | ⟨h1, h2⟩
      · exact .inl ⟨o', b', h1, List.mem_cons_of_mem _ h2, h3⟩
      · refine .inr ⟨h1, fun b' hb => ?_⟩
        rcases List.mem_cons.1 hb with rfl | hb
        · exact fun e => k (x.trans e)
        · exact h2 b' hb

theorem both_insert {c : Codec H T} {m : Sem H T} {file : List Nat} {height : Nat} : ∀ (l : List T) (os : List Nat)
    {txs : List (Nat × TxAt)} {q : List (Nat × Nat × T)}, Both (fun o t => Lies file o (c.enc (.tx t))) os l →
    Both (TxOk c file) txs q → Both (TxOk c file) (insertTxs m height l os txs) (Spec.add m height l q)
  | [], [], _, _, _, h => h
  | _ :: l, _ :: os, _, _, ⟨x, y⟩, h => both_insert l os y ⟨⟨rfl, rfl, x⟩, h⟩

theorem rel_more {c : Codec H T} {m : Sem H T} {s : Store} {p : Spec H T} (h : Rel c m s p) (r : List Nat) :
    Rel c m { s with file := s.file ++ r } p :=
  ⟨both_imp (fun _ _ z => ⟨z.1, lies_more z.2 r⟩) h.blocks, h.once, h.heights,
    both_imp (fun _ _ z => ⟨z.1, z.2.1, lies_more z.2.2 r⟩) h.txs⟩

theorem rel_drop {c : Codec H T} {m : Sem H T} {s : Store} {p : Spec H T} (h : Rel c m s p) (n : Nat) :
    Rel c m { s with txs := s.txs.drop n } { p with txs := p.txs.drop n } :=
  ⟨h.blocks, h.once, h.heights, both_drop n h.txs⟩

/-- What the check of a block that is stored finds. -/
theorem stored_iff {c : Codec H T} (hc : c.Ok) {m : Sem H T} {s : Store} {p : Spec H T} (h : Rel c m s p) {b : Blk H T}
    {bs : List (Blk H T)} (hg : Good m bs) (hb : b ∈ bs) (hp : ∀ x ∈ p.blocks, x ∈ bs) :
    (∃ o b', b' ∈ p.blocks ∧ m.hash b'.header = m.hash b.header ∧ Lies s.file o (blkBytes c b') ∧
      stored c m b s = some (txOffsets c o b')) ∨
    (stored c m b s = none ∧ ∀ b' ∈ p.blocks, m.hash b'.header ≠ m.hash b.header) := by
  unfold stored
  rcases both_lookup (h := m.hash b.header) h.blocks with ⟨o, b', h1, h2, h3, h4⟩ | ⟨h1, h2⟩
  · refine .inl ⟨o, b', List.mem_reverse.1 h2, h3, h4, ?_⟩
    have hb' := hp b' (List.mem_reverse.1 h2)
    obtain ⟨g1, _, g3⟩ := hg.commits b' hb' b hb h3
    have hs : stands m b (b'.header, (txOffsets c o b').zip b'.txs) = true := by
      unfold stands
      rw [block_of, hg.valid b' hb', hg.count b hb, List.length_zip]
      have e : (txOffsets c o b').length = b'.txs.length := offsets_length c _ _
      rw [e, Nat.min_self, g1]
      simp
    rw [h1]
    dsimp only
    rw [read_block hc h4]
    dsimp only
    rw [if_pos hs, zip_fst _ _ (tx_offsets_length c o b')]
  · refine .inr ⟨?_, fun b' hb' => h2 b' (List.mem_reverse.2 hb')⟩
    rw [h1]

theorem rel_write {c : Codec H T} (hc : c.Ok) {m : Sem H T} {s : Store} {p : Spec H T} (h : Rel c m s p) {b : Blk H T}
    {bs : List (Blk H T)} (hg : Good m bs) (hb : b ∈ bs) (hp : ∀ x ∈ p.blocks, x ∈ bs) (main : Bool) :
    Rel c m (writeBlock c m b main s) (Spec.step m p (.write b main)) := by
  unfold writeBlock Spec.step
  dsimp only
  rcases stored_iff hc h hg hb hp with ⟨o, b', h1, h2, h3, h4⟩ | ⟨h1, h2⟩
  · rw [h4]
    dsimp only
    rw [if_pos (List.mem_map.2 ⟨b', h1, h2⟩)]
    cases main with
    | false => exact h
    | true =>
      rw [if_pos rfl, if_pos rfl]
      refine ⟨h.blocks, h.once, h.heights, ?_⟩
      have := (hg.commits b' (hp b' h1) b hb h2).1
      exact both_insert _ _ (this ▸ lies_block h3) h.txs
  · rw [h1]
    dsimp only
    have hn : m.hash b.header ∉ p.blocks.map fun x => m.hash x.header := by
      intro z
      obtain ⟨b', z1, z2⟩ := List.mem_map.1 z
      exact h2 b' z1 z2
    rw [if_neg hn]
    have hl : Lies (s.file ++ blkBytes c b) s.file.length (blkBytes c b) := ⟨s.file, [], by rw [List.append_nil], rfl⟩
    have hm := rel_more h (blkBytes c b)
    unfold append
    dsimp only
    refine ⟨?_, ?_, ?_, ?_⟩
    · show Both _ ((m.hash b.header, s.file.length) :: s.blocks) (p.blocks ++ [b]).reverse
      rw [List.reverse_append]
      exact ⟨⟨rfl, hl⟩, hm.blocks⟩
    · show ((p.blocks ++ [b]).map fun b => m.hash b.header).Nodup
      rw [List.map_append]
      refine List.nodup_append.2 ⟨h.once, List.nodup_cons.2 ⟨List.not_mem_nil, List.nodup_nil⟩, ?_⟩
      intro x hx y hy e
      rw [List.map_singleton, List.mem_singleton] at hy
      exact hn (hy ▸ e ▸ hx)
    · show (if _ then _ else _) = (p.blocks ++ [b]).reverse.map _
      rw [List.reverse_append, if_neg]
      · rw [h.heights]; rfl
      · rw [h.heights]
        intro z
        obtain ⟨b', z1, z2⟩ := List.mem_map.1 z
        exact h2 b' (List.mem_reverse.1 z1) (congrArg (·.2) z2)
    · cases main with
      | false => exact hm.txs
      | true => exact both_insert _ _ (lies_block hl) hm.txs

theorem rel_step {c : Codec H T} (hc : c.Ok) {m : Sem H T} {s : Store} {p : Spec H T} (h : Rel c m s p)
    {bs : List (Blk H T)} (hg : Good m bs) (hp : ∀ x ∈ p.blocks, x ∈ bs) : ∀ o : Op H T, (∀ b ∈ o.blk, b ∈ bs) →
    Rel c m (step c m s o) (Spec.step m p o) ∧ ∀ x ∈ (Spec.step m p o).blocks, x ∈ bs
  | .write b main, hb => by
    refine ⟨rel_write hc h hg (hb b (List.mem_singleton.2 rfl)) hp main, fun x hx => ?_⟩
    have hx : x ∈ (if m.hash b.header ∈ p.blocks.map (fun x => m.hash x.header) then p.blocks else p.blocks ++ [b]) := hx
    by_cases k : m.hash b.header ∈ p.blocks.map (fun x => m.hash x.header)
    · rw [if_pos k] at hx; exact hp x hx
    · rw [if_neg k] at hx
      rcases List.mem_append.1 hx with hx | hx
      · exact hp x hx
      · exact hb x (by rw [List.mem_singleton.1 hx]; exact List.mem_singleton.2 rfl)
  | .revert n, _ => ⟨rel_drop h n, hp⟩
  | .crash b cut n, _ => ⟨rel_drop (rel_more h _) n, hp⟩
  | .clear, _ => ⟨⟨trivial, List.nodup_nil, rfl, trivial⟩, fun _ z => absurd z List.not_mem_nil⟩

theorem rel_run {c : Codec H T} (hc : c.Ok) {m : Sem H T} {bs : List (Blk H T)} (hg : Good m bs) :
    ∀ (ops : List (Op H T)) {s : Store} {p : Spec H T}, Rel c m s p → (∀ x ∈ p.blocks, x ∈ bs) →
    (∀ o ∈ ops, ∀ b ∈ o.blk, b ∈ bs) → Rel c m (ops.foldl (step c m) s) (ops.foldl (Spec.step m) p)
  | [], _, _, h, _, _ => h
  | o :: ops, _, _, h, hp, hb => by
    obtain ⟨h1, h2⟩ := rel_step hc h hg hp o (hb o List.mem_cons_self)
    exact rel_run hc hg ops h1 h2 fun o ho => hb o (List.mem_cons_of_mem _ ho)

theorem rel_ops {c : Codec H T} (hc : c.Ok) {m : Sem H T} {ops : List (Op H T)} (hg : Good m (ops.flatMap Op.blk)) :
    Rel c m (run c m ops) (Spec.run m ops) :=
  rel_run hc hg ops ⟨trivial, List.nodup_nil, rfl, trivial⟩ (fun _ z => absurd z List.not_mem_nil)
    fun o ho _ hb => List.mem_flatMap.2 ⟨o, ho, hb⟩

theorem find_once {m : Sem H T} {h : Nat} : ∀ {l : List (Blk H T)}, (l.map fun b => m.hash b.header).Nodup →
    ∀ {b : Blk H T}, b ∈ l → m.hash b.header = h → l.find? (fun b => m.hash b.header == h) = some b
  | [], _, _, hb, _ => absurd hb List.not_mem_nil
  | x :: l, hn, b, hb, e => by
    have hn : m.hash x.header ∉ l.map (fun b => m.hash b.header) ∧ (l.map fun b => m.hash b.header).Nodup :=
      List.nodup_cons.1 hn
    rcases List.mem_cons.1 hb with rfl | hb
    · rw [List.find?_cons_of_pos (by simp [e])]
    · rw [List.find?_cons_of_neg]
      · exact find_once hn.2 hb e
      · intro z
        exact hn.1 (List.mem_map.2 ⟨b, hb, e.trans (beq_iff_eq.1 z).symm⟩)

/-- **C144.** Whatever blocks were written, on the chain or beside it, again and again, with reverts and with crashes in
    the middle of a write: reading a block or header by its hash gives the block that was first written whole under it, and
    nothing if there was none. -/
theorem C144_block {c : Codec H T} (hc : c.Ok) {m : Sem H T} {ops : List (Op H T)} (hg : Good m (ops.flatMap Op.blk))
    (hash : Nat) : getBlock c (run c m ops) hash = (Spec.run m ops).find m hash ∧
    getHeader c (run c m ops) hash = ((Spec.run m ops).find m hash).map (·.header) := by
  have h := rel_ops hc hg
  unfold getBlock getHeader Spec.find
  rcases both_lookup (h := hash) h.blocks with ⟨o, b, h1, h2, h3, h4⟩ | ⟨h1, h2⟩
  · rw [h1, find_once h.once (List.mem_reverse.1 h2) h3]
    dsimp only
    rw [read_block hc h4, read_header hc h4]
    exact ⟨congrArg some (block_of c o b), rfl⟩
  · rw [h1, List.find?_eq_none.2 fun b hb => by
      intro z
      exact h2 b (List.mem_reverse.2 hb) (beq_iff_eq.1 z)]
    exact ⟨rfl, rfl⟩

theorem both_tx {c : Codec H T} {file : List Nat} {id : Nat} : ∀ {l : List (Nat × TxAt)} {r : List (Nat × Nat × T)},
    Both (TxOk c file) l r →
    (∃ e x, lookup id l = some e ∧ lookup id r = some x ∧ e.height = x.1 ∧ Lies file e.offset (c.enc (.tx x.2))) ∨
    lookup id l = none ∧ lookup id r = none
  | [], [], _ => .inr ⟨rfl, rfl⟩
  | (a, e) :: l, (a', x) :: r, ⟨⟨h1, h2, h3⟩, z⟩ => by
    have h1 : a = a' := h1
    subst h1
    unfold lookup
    by_cases k : a = id
    · rw [if_pos k, if_pos k]; exact .inl ⟨e, x, rfl, rfl, h2, h3⟩
    · rw [if_neg k, if_neg k]; exact both_tx z

/-- **C144.** In the same way a transaction is found by its id, at its height: the one entered last and not reverted. -/
theorem C144_tx {c : Codec H T} (hc : c.Ok) {m : Sem H T} {ops : List (Op H T)} (hg : Good m (ops.flatMap Op.blk))
    (id : Nat) : getTx c (run c m ops) id = (lookup id (Spec.run m ops).txs).map (·.2) ∧
    getTxHeight (run c m ops) id = (lookup id (Spec.run m ops).txs).map (·.1) := by
  have h := rel_ops hc hg
  unfold getTx getTxHeight
  rcases both_tx (id := id) h.txs with ⟨e, x, h1, h2, h3, h4⟩ | ⟨h1, h2⟩
  · rw [h1, h2]
    dsimp only
    obtain ⟨post, hd⟩ := lies_drop h4
    rw [hd, hc.back]
    exact ⟨rfl, congrArg some h3⟩
  · rw [h1, h2]
    exact ⟨rfl, rfl⟩

/-- **C144.** The hashes known at a height are those of the blocks written whole at this height, in the order in which they
    were first written, each once. -/
theorem C144_heights {c : Codec H T} (hc : c.Ok) {m : Sem H T} {ops : List (Op H T)} (hg : Good m (ops.flatMap Op.blk))
    (height : Nat) :
    hashesAt (run c m ops) height =
      ((Spec.run m ops).blocks.filter fun b => m.height b.header = height).map (fun b => m.hash b.header) ∧
    (hashesAt (run c m ops) height).Nodup := by
  have h := rel_ops hc hg
  have e : hashesAt (run c m ops) height =
      ((Spec.run m ops).blocks.filter fun b => m.height b.header = height).map (fun b => m.hash b.header) := by
    unfold hashesAt
    rw [h.heights, List.filter_map, List.map_map, ← List.map_reverse, List.filter_reverse, List.reverse_reverse]
    rfl
  refine ⟨e, ?_⟩
  rw [e]
  exact h.once.sublist (List.filter_sublist.map _)

/-! ### C145 -/

/-- **C145.** Whatever is in the file and in the indexes: after a block was written, a valid block with as many
    transactions is found under its hash, and it is the block itself unless such a one was there. -/
theorem C145_rewritten_partial {c : Codec H T} (hc : c.Ok) {m : Sem H T} (s : Store) (b : Blk H T) (main : Bool)
    (hv : m.valid b = true) (hn : m.count b.header = b.txs.length) :
    ∃ b', getBlock c (writeBlock c m b main s) (m.hash b.header) = some b' ∧ m.valid b' = true ∧
      b'.txs.length = b.txs.length ∧ (b' = b ∨ getBlock c s (m.hash b.header) = some b') := by
  unfold writeBlock
  cases hs : stored c m b s with
  | none =>
    dsimp only
    have hl : Lies (s.file ++ blkBytes c b) s.file.length (blkBytes c b) := ⟨s.file, [], by rw [List.append_nil], rfl⟩
    refine ⟨b, ?_, hv, rfl, .inl rfl⟩
    unfold getBlock append lookup
    dsimp only
    rw [if_pos rfl]
    dsimp only
    rw [read_block hc hl]
    exact congrArg some (block_of c _ b)
  | some os =>
    dsimp only
    unfold stored at hs
    cases hk : lookup (m.hash b.header) s.blocks with
    | none => rw [hk] at hs; cases hs
    | some o =>
      rw [hk] at hs
      dsimp only at hs
      cases hr : readBlock c s.file o with
      | none => rw [hr] at hs; cases hs
      | some r =>
        rw [hr] at hs
        dsimp only at hs
        by_cases k : stands m b r = true
        · unfold stands at k
          simp only [Bool.and_eq_true, beq_iff_eq] at k
          have hg : getBlock c s (m.hash b.header) = some (blockOf r) := by
            unfold getBlock
            rw [hk]
            dsimp only
            rw [hr]
            rfl
          refine ⟨blockOf r, ?_, k.1.1, ?_, .inr hg⟩
          · cases main with
            | false => exact hg
            | true => exact hg
          · show (r.2.map (·.2)).length = _
            rw [List.length_map, k.1.2, hn]
        · rw [if_neg k] at hs; cases hs

/-- **C145.** A block of the chain that cannot be read, or is not valid, or has another height, does not pass the check at
    the start of a node. -/
theorem C145_checked (c : Codec H T) (m : Sem H T) (s : Store) (height hash : Nat) :
    checks c m s height hash = true ↔
      ∃ b, getBlock c s hash = some b ∧ m.valid b = true ∧ m.height b.header = height := by
  unfold checks
  cases getBlock c s hash with
  | none => exact ⟨fun h => (nomatch h), fun ⟨_, h, _⟩ => (nomatch h)⟩
  | some b =>
    dsimp only
    rw [Bool.and_eq_true, beq_iff_eq]
    exact ⟨fun h => ⟨b, rfl, h⟩, fun ⟨b', e, h⟩ => by cases e; exact h⟩

/-! ### a concrete case -/

/-- A header is its hash and height, a transaction its id; values are written as a tag and numbers. -/
def exCodec : Codec (Nat × Nat × Nat) Nat where
  enc
    | .null => [0]
    | .tx t => [1, t]
    | .header (a, b, n) => [2, a, b, n]
  dec
    | 0 :: r => some (.null, r)
    | 1 :: t :: r => some (.tx t, r)
    | 2 :: a :: b :: n :: r => some (.header (a, b, n), r)
    | _ => none

theorem exCodec_ok : exCodec.Ok where
  pos := by rintro (⟨a, b, n⟩ | t | _) h <;> cases h
  back := by rintro (⟨a, b, n⟩ | t | _) r <;> rfl

def exSem : Sem (Nat × Nat × Nat) Nat where
  hash h := h.1
  height h := h.2.1
  count h := h.2.2
  id t := t
  valid b := b.header.2.2 == b.txs.length

def exA : Blk (Nat × Nat × Nat) Nat := ⟨(70, 5, 2), [11, 12]⟩
def exB : Blk (Nat × Nat × Nat) Nat := ⟨(71, 5, 1), [11]⟩
def exC : Blk (Nat × Nat × Nat) Nat := ⟨(72, 6, 1), [12]⟩

def exOps : List (Op (Nat × Nat × Nat) Nat) :=
  [.write exA false, .crash exB 5 0, .write exB true, .revert 1, .write exA true, .crash exC 9 0, .write exC false]

theorem exGood : Good exSem (exOps.flatMap Op.blk) where
  valid := by decide
  count := by decide
  commits := by decide

example : getBlock exCodec (run exCodec exSem exOps) 71 = some exB ∧ getTx exCodec (run exCodec exSem exOps) 12 = some 12 ∧
    getTxHeight (run exCodec exSem exOps) 11 = some 5 ∧ hashesAt (run exCodec exSem exOps) 5 = [70, 71] :=
  ⟨(C144_block exCodec_ok exGood 71).1.trans rfl, (C144_tx exCodec_ok exGood 12).1.trans rfl,
    (C144_tx exCodec_ok exGood 11).2.trans rfl, (C144_heights exCodec_ok exGood 5).1.trans rfl⟩

/-- **C145.** That it is the same block is not checked: if the end of the file was lost, but not the index, the next block
    is written in the place of the lost one, and found under the hash of that from then on.  Neither writing the lost block
    again nor the check at the start notice it, and its transactions are entered with the places of others. -/
theorem C145_other_block : ∃ (s : Store) (a b : Blk (Nat × Nat × Nat) Nat),
    s = { (writeBlock exCodec exSem a true Store.init) with file := [], txs := [] } ∧
    exSem.valid a = true ∧ exSem.valid b = true ∧ exSem.hash a.header ≠ exSem.hash b.header ∧
    let s' := writeBlock exCodec exSem a true (writeBlock exCodec exSem b false s)
    getBlock exCodec s' (exSem.hash a.header) = some b ∧ getTx exCodec s' 11 = some 21 ∧
    checks exCodec exSem s' 5 (exSem.hash a.header) = true :=
  ⟨_, ⟨(70, 5, 1), [11]⟩, ⟨(71, 5, 1), [21]⟩, rfl, rfl, rfl, by decide, rfl, rfl, rfl⟩

end Verif.Blocks
