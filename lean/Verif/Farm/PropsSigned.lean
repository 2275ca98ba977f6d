/-
  C181: a signature that a farmer has given for one thing says nothing about another.
-/
import Verif.Farm.Signed
import Verif.Farm.PropsPartial
import Verif.Codec.PropsBlockHash

namespace Verif.Farm

open Verif.Codec

/-- What is signed. -/
inductive Kind
  | block
  | header
  | response
  | pool
  | vote
  deriving DecidableEq

def Signed.kind : Signed → Kind
  | .block _ => .block
  | .header _ => .header
  | .response _ _ => .response
  | .pool _ => .pool
  | .vote _ _ => .vote

/-- The byte that all messages of a kind begin with. -/
def Kind.first : Kind → Nat
  | .block => 0x67
  | .header => 0xa6
  | .response => 0xe0
  | .pool => 109
  | .vote => 77

theorem first_inj {k l : Kind} (h : k.first = l.first) : k = l := by
  cases k <;> cases l <;> first | rfl | exact absurd h (by decide)

theorem head_append_le (n : Nat) (s : Bytes) {m : Nat} (h : n % 256 = m) : (encU n ++ s).head? = some m := by
  subst h
  rfl

theorem head_first (H : Bytes → Bytes) (hf2 ty : Nat) (h : Head) : ∃ s, encHead H hf2 ty h = encU ty ++ s := ⟨_, rfl⟩
theorem response_first (H : Bytes → Bytes) (n : Nat) (p : Space) : ∃ s, encResponse H n p = encU TH_RESPONSE ++ s := ⟨_, rfl⟩
theorem vote_first (a b : Bytes) : ∃ s, encVote a b = b!"MMX/validator/vote/" ++ s := ⟨_, rfl⟩
theorem part_first (t : TPart) : ∃ s, partText t = b!"mmx.Partial" ++ s := by
  unfold partText
  simp only [List.append_assoc]
  exact ⟨_, rfl⟩

theorem bytes_first (H : Bytes → Bytes) (hf2 : Nat) (x : Signed) : (x.bytes H hf2).head? = some x.kind.first := by
  cases x with
  | block h =>
    obtain ⟨s, e⟩ := head_first H hf2 TH_BLOCK h
    rw [Signed.bytes, e, Signed.kind]
    exact head_append_le TH_BLOCK s rfl
  | header h =>
    obtain ⟨s, e⟩ := head_first H hf2 TH_HEADER h
    rw [Signed.bytes, e, Signed.kind]
    exact head_append_le TH_HEADER s rfl
  | response n p =>
    obtain ⟨s, e⟩ := response_first H n p
    rw [Signed.bytes, e, Signed.kind]
    exact head_append_le TH_RESPONSE s rfl
  | pool t =>
    obtain ⟨s, e⟩ := part_first t
    rw [Signed.bytes, e, Signed.kind]
    rfl
  | vote a b =>
    obtain ⟨s, e⟩ := vote_first a b
    rw [Signed.bytes, e, Signed.kind]
    rfl

/-- **C181.** If the hash of one signed message is that of another then both are of the same kind: the signature for a partial, a vote or
    a proof is none for a block, and so on. The hash function must not collide on these two messages. -/
theorem C181_kind (H : Bytes → Bytes) (hf2 : Nat) (x y : Signed)
    (hd : H (x.bytes H hf2) = H (y.bytes H hf2) → x.bytes H hf2 = y.bytes H hf2) (h : H (x.bytes H hf2) = H (y.bytes H hf2)) :
    x.kind = y.kind := by
  have e := congrArg List.head? (hd h)
  rw [bytes_first, bytes_first] at e
  exact first_inj (Option.some.inj e)

/-- **C181.** What a vote says: the hash of one block, and whose vote it is. -/
theorem C181_vote (H : Bytes → Bytes) (hash key hash' key' : Bytes) (h32 : hash.length = 32) (h32' : hash'.length = 32)
    (hd : H (encVote hash key) = H (encVote hash' key') → encVote hash key = encVote hash' key')
    (h : H (encVote hash key) = H (encVote hash' key')) : hash = hash' ∧ key = key' :=
  List.append_inj (List.append_cancel_left (hd h)) (by rw [h32, h32'])

/-- **C181.** What the signature of a proof says: the height of the VDF, and the proof with all that is in it. -/
theorem C181_response (H : Bytes → Bytes) (hlen : ∀ x, (H x).length = 32) (n n' : Nat) (p p' : Space) (hn : n < 2 ^ 64)
    (hn' : n' < 2 ^ 64) (hp : p.Ok) (hp' : p'.Ok)
    (hd : ∀ x ∈ [encResponse H n p, encSpace p], ∀ y ∈ [encResponse H n' p', encSpace p'], H x = H y → x = y)
    (h : H (encResponse H n p) = H (encResponse H n' p')) : n = n' ∧ p = p' := by
  have e := hd _ (List.mem_cons_self ..) _ (List.mem_cons_self ..) h
  unfold encResponse at e
  have e := List.append_cancel_left (List.append_cancel_left e)
  obtain ⟨e1, e⟩ := pf_U _ _ _ _ hn hn' e
  have e := List.append_cancel_left e
  obtain ⟨e2, -⟩ := pf_32 (H (encSpace p)) (H (encSpace p')) [] [] (hlen _) (hlen _) (by rw [e])
  have e3 := hd _ (List.mem_cons_of_mem _ (List.mem_cons_self ..)) _ (List.mem_cons_of_mem _ (List.mem_cons_self ..)) e2
  exact ⟨e1, (pf_Space p p' [] [] hp hp' (by rw [e3])).1⟩

/-- **C181.** What the signature of a block says: all of its header from hardfork 2 on, and all but `proof_chain` before. -/
theorem C181_block (H : Bytes → Bytes) (hlen : ∀ x, (H x).length = 32) (hf2 : Nat) (a b : Head) (ha : a.Ok) (hb : b.Ok)
    (hd : ∀ x ∈ encHead H hf2 TH_BLOCK a :: a.proof.map encSpace, ∀ y ∈ encHead H hf2 TH_BLOCK b :: b.proof.map encSpace, H x = H y → x = y)
    (h : H ((Signed.block a).bytes H hf2) = H ((Signed.block b).bytes H hf2)) :
    { a with proofChain := [] } = { b with proofChain := [] } ∧ (a.height ≥ hf2 → a.proofChain = b.proofChain) :=
  head_inj hlen ha hb
    (fun _ hp _ hq => hd _ (List.mem_cons_of_mem _ (List.mem_map_of_mem hp)) _ (List.mem_cons_of_mem _ (List.mem_map_of_mem hq)))
    (hd _ (List.mem_cons_self ..) _ (List.mem_cons_self ..) h)

/-! ### examples -/

def exVote : Signed := .vote (List.replicate 32 1) (List.replicate 33 2)
def exResp : Signed := .response 7 exSpace
def exBlock : Signed := .block (exHead 20 1 (List.replicate 32 3))

example : toyHash (exVote.bytes toyHash 10) ≠ toyHash (exBlock.bytes toyHash 10) ∧
    toyHash (exResp.bytes toyHash 10) ≠ toyHash (exBlock.bytes toyHash 10) ∧
    toyHash (exResp.bytes toyHash 10) ≠ toyHash (exVote.bytes toyHash 10) := by decide +kernel

example : (encVote [1] [2]).length = 21 ∧ (encVote [1] [2]).take 4 = b!"MMX/" := by decide +kernel

/-- The sizes and the hypotheses about the hash function are met by these. -/
example : exSpace.Ok ∧ (∀ x ∈ [encResponse toyHash 7 exSpace, encSpace exSpace], ∀ y ∈ [encResponse toyHash 8 exSpace, encSpace exSpace],
    toyHash x = toyHash y → x = y) :=
  ⟨⟨⟨by unfold U64; decide, rfl, rfl, by unfold U64; decide, rfl, by unfold U64; decide, rfl, by unfold VecOk Sz U64; decide⟩, rfl⟩,
    by decide +kernel⟩

end Verif.Farm
