import Verif.Codec.BlockHash
import Verif.Codec.PropsHash
/-
  C180: the hash of a block settles what is in it.
-/
namespace Verif.Codec

/-! ### the sizes that the types of the code give -/

structure SpaceFields.Ok (f : SpaceFields) : Prop where
  score : U64 f.score
  plotId : f.plotId.length = 32
  challenge : f.challenge.length = 32
  difficulty : U64 f.difficulty
  farmerKey : f.farmerKey.length = 33
  ksize : U64 f.ksize
  seed : f.seed.length = 32
  xs : VecOk U64 f.xs

def Space.Ok : Space → Prop
  | .og f => f.Ok
  | .nft f c => f.Ok ∧ c.length = 32

def Len32 (b : Bytes) : Prop := b.length = 32

structure Head.Ok (h : Head) : Prop where
  version : U64 h.version
  supportFlags : U64 h.supportFlags
  prev : Len32 h.prev
  height : U64 h.height
  vdfHeight : U64 h.vdfHeight
  nonce : U64 h.nonce
  timeStamp : I64 h.timeStamp
  timeDiff : U64 h.timeDiff
  spaceDiff : U64 h.spaceDiff
  weight : U128 h.weight
  totalWeight : U128 h.totalWeight
  vdfCount : U64 h.vdfCount
  vdfIters : U64 h.vdfIters
  vdfOutput : Len32 h.vdfOutput
  vdfRewardAddr : VecOk Len32 h.vdfRewardAddr
  vdfRewardPayout : OptOk Len32 h.vdfRewardPayout
  proof : Sz h.proof ∧ ∀ p ∈ h.proof, p.Ok
  proofHash : Len32 h.proofHash
  proofChain : Len32 h.proofChain
  challenge : Len32 h.challenge
  spaceForkLen : U64 h.spaceForkLen
  spaceForkProofs : U64 h.spaceForkProofs
  rewardAmount : U64 h.rewardAmount
  rewardAddr : OptOk Len32 h.rewardAddr
  rewardContract : OptOk Len32 h.rewardContract
  rewardAccount : OptOk Len32 h.rewardAccount
  rewardVote : I64 h.rewardVote
  rewardVoteSum : I64 h.rewardVoteSum
  rewardVoteCount : U64 h.rewardVoteCount
  baseReward : U64 h.baseReward
  projectAddr : Len32 h.projectAddr
  staticCost : U64 h.staticCost
  totalCost : U64 h.totalCost
  txCount : U64 h.txCount
  txFees : U64 h.txFees
  txfeeBuffer : U64 h.txfeeBuffer
  txHash : Len32 h.txHash

/-! ### lemmas -/

theorem pf_mono {α : Type} {p q : α → Prop} {e : α → Bytes} (hpq : ∀ a, p a → q a) (h : PF q e) : PF p e :=
  fun a b s t ha hb => h a b s t (hpq a ha) (hpq b hb)

theorem pf_32 : PF Len32 encBytes := pf_mono (fun a (h : a.length = 32) => by unfold Sz; omega) pf_Bytes
theorem pf_33 : PF (fun a => a.length = 33) encBytes := pf_mono (fun a (h : a.length = 33) => by unfold Sz; omega) pf_Bytes

theorem spaceFields_pf : PF SpaceFields.Ok encSpaceFields := by
  rintro ⟨a1, a2, a3, a4, a5, a6, a7, a8⟩ ⟨b1, b2, b3, b4, b5, b6, b7, b8⟩ s t
    ⟨h1, h2, h3, h4, h5, h6, h7, h8⟩ ⟨g1, g2, g3, g4, g5, g6, g7, g8⟩ h
  dsimp only at *
  simp only [encSpaceFields, List.append_assoc] at h
  cut h; peel h with pf_U
  cut h; peel h with pf_32
  cut h; peel h with pf_32
  cut h; peel h with pf_U
  cut h; peel h with pf_33
  cut h; peel h with pf_U
  cut h; peel h with pf_32
  cut h; peel h with pf_Vec pf_U
  exact ⟨rfl, h⟩

theorem pf_Space : PF Space.Ok encSpace := by
  intro a b s t ha hb h
  cases a with
  | og f =>
    cases b with
    | og g =>
      simp only [encSpace, List.append_assoc] at h
      cut h
      obtain ⟨e, h⟩ := spaceFields_pf _ _ _ _ ha hb h
      exact ⟨by rw [e], h⟩
    | nft g d =>
      simp only [encSpace, List.append_assoc] at h
      obtain ⟨e, -⟩ := pf_U _ _ _ _ (by unfold U64 TH_OG; omega) (by unfold U64 TH_NFT; omega) h
      exact absurd e (by decide)
  | nft f c =>
    cases b with
    | og g =>
      simp only [encSpace, List.append_assoc] at h
      obtain ⟨e, -⟩ := pf_U _ _ _ _ (by unfold U64 TH_NFT; omega) (by unfold U64 TH_OG; omega) h
      exact absurd e (by decide)
    | nft g d =>
      simp only [encSpace, List.append_assoc] at h
      cut h
      obtain ⟨e, h⟩ := spaceFields_pf _ _ _ _ ha.1 hb.1 h
      cut h
      obtain ⟨e', h⟩ := pf_32 _ _ _ _ ha.2 hb.2 h
      exact ⟨by rw [e, e'], h⟩

theorem spaces_inj {H : Bytes → Bytes} : ∀ (l l' : List Space), (∀ p ∈ l, p.Ok) → (∀ p ∈ l', p.Ok) →
    (∀ p ∈ l, ∀ q ∈ l', H (encSpace p) = H (encSpace q) → encSpace p = encSpace q) →
    (l.map fun p => H (encSpace p)) = (l'.map fun p => H (encSpace p)) → l = l'
  | [], [], _, _, _, _ => rfl
  | [], _ :: _, _, _, _, h => by simp at h
  | _ :: _, [], _, _, _, h => by simp at h
  | a :: l, b :: l', ha, hb, hd, h => by
    simp only [List.map_cons, List.cons.injEq] at h
    have e := hd a (List.mem_cons_self ..) b (List.mem_cons_self ..) h.1
    rw [(pf_Space a b [] [] (ha a (List.mem_cons_self ..)) (hb b (List.mem_cons_self ..)) (by rw [e])).1,
      spaces_inj l l' (fun p hp => ha p (List.mem_cons_of_mem _ hp)) (fun p hp => hb p (List.mem_cons_of_mem _ hp))
        (fun p hp q hq => hd p (List.mem_cons_of_mem _ hp) q (List.mem_cons_of_mem _ hq)) h.2]

/-- The header but for the chain of proofs. -/
def Head.unchained (h : Head) : Head := { h with proofChain := [] }

theorem head1_fields {a b : Head} {s t : Bytes} (ha : a.Ok) (hb : b.Ok) (h : encHead1 a ++ s = encHead1 b ++ t) :
    a.version = b.version ∧ a.supportFlags = b.supportFlags ∧ a.prev = b.prev ∧ a.height = b.height ∧ a.vdfHeight = b.vdfHeight ∧
    a.nonce = b.nonce ∧ a.timeStamp = b.timeStamp ∧ a.timeDiff = b.timeDiff ∧ a.spaceDiff = b.spaceDiff ∧
    a.weight = b.weight ∧ a.totalWeight = b.totalWeight ∧ a.vdfCount = b.vdfCount ∧ a.vdfIters = b.vdfIters ∧
    a.vdfOutput = b.vdfOutput ∧ a.vdfRewardAddr = b.vdfRewardAddr ∧ a.vdfRewardPayout = b.vdfRewardPayout ∧
    s = t := by
  delta encHead1 at h
  simp only [List.append_assoc] at h
  cut h
  obtain ⟨e1, h⟩ := pf_U _ _ _ _ ha.version hb.version h
  cut h
  obtain ⟨e2, h⟩ := pf_U _ _ _ _ ha.supportFlags hb.supportFlags h
  cut h
  obtain ⟨e3, h⟩ := pf_32 _ _ _ _ ha.prev hb.prev h
  cut h
  obtain ⟨e4, h⟩ := pf_U _ _ _ _ ha.height hb.height h
  cut h
  obtain ⟨e5, h⟩ := pf_U _ _ _ _ ha.vdfHeight hb.vdfHeight h
  cut h
  obtain ⟨e6, h⟩ := pf_U _ _ _ _ ha.nonce hb.nonce h
  cut h
  obtain ⟨e7, h⟩ := pf_I _ _ _ _ ha.timeStamp hb.timeStamp h
  cut h
  obtain ⟨e8, h⟩ := pf_U _ _ _ _ ha.timeDiff hb.timeDiff h
  cut h
  obtain ⟨e9, h⟩ := pf_U _ _ _ _ ha.spaceDiff hb.spaceDiff h
  cut h
  obtain ⟨e10, h⟩ := pf_U128 _ _ _ _ ha.weight hb.weight h
  cut h
  obtain ⟨e11, h⟩ := pf_U128 _ _ _ _ ha.totalWeight hb.totalWeight h
  cut h
  obtain ⟨e12, h⟩ := pf_U _ _ _ _ ha.vdfCount hb.vdfCount h
  cut h
  obtain ⟨e13, h⟩ := pf_U _ _ _ _ ha.vdfIters hb.vdfIters h
  cut h
  obtain ⟨e14, h⟩ := pf_32 _ _ _ _ ha.vdfOutput hb.vdfOutput h
  cut h
  obtain ⟨e15, h⟩ := (pf_Vec pf_32) _ _ _ _ ha.vdfRewardAddr hb.vdfRewardAddr h
  cut h
  obtain ⟨e16, h⟩ := (pf_Opt pf_32) _ _ _ _ ha.vdfRewardPayout hb.vdfRewardPayout h
  exact ⟨e1, e2, e3, e4, e5, e6, e7, e8, e9, e10, e11, e12, e13, e14, e15, e16, h⟩

theorem head3_fields {a b : Head} {s t : Bytes} (ha : a.Ok) (hb : b.Ok) (h : encHead3 a ++ s = encHead3 b ++ t) :
    a.challenge = b.challenge ∧ a.isSpaceFork = b.isSpaceFork ∧ a.spaceForkLen = b.spaceForkLen ∧ a.spaceForkProofs = b.spaceForkProofs ∧
    a.rewardAmount = b.rewardAmount ∧ a.rewardAddr = b.rewardAddr ∧ a.rewardContract = b.rewardContract ∧
    a.rewardAccount = b.rewardAccount ∧ a.rewardVote = b.rewardVote ∧ a.rewardVoteSum = b.rewardVoteSum ∧
    a.rewardVoteCount = b.rewardVoteCount ∧ a.baseReward = b.baseReward ∧ a.projectAddr = b.projectAddr ∧
    a.staticCost = b.staticCost ∧ a.totalCost = b.totalCost ∧ a.txCount = b.txCount ∧ a.txFees = b.txFees ∧
    a.txfeeBuffer = b.txfeeBuffer ∧ a.txHash = b.txHash ∧ s = t := by
  delta encHead3 at h
  simp only [List.append_assoc] at h
  cut h
  obtain ⟨e1, h⟩ := pf_32 _ _ _ _ ha.challenge hb.challenge h
  cut h
  obtain ⟨e2, h⟩ := pf_Bool _ _ _ _ trivial trivial h
  cut h
  obtain ⟨e3, h⟩ := pf_U _ _ _ _ ha.spaceForkLen hb.spaceForkLen h
  cut h
  obtain ⟨e4, h⟩ := pf_U _ _ _ _ ha.spaceForkProofs hb.spaceForkProofs h
  cut h
  obtain ⟨e5, h⟩ := pf_U _ _ _ _ ha.rewardAmount hb.rewardAmount h
  cut h
  obtain ⟨e6, h⟩ := (pf_Opt pf_32) _ _ _ _ ha.rewardAddr hb.rewardAddr h
  cut h
  obtain ⟨e7, h⟩ := (pf_Opt pf_32) _ _ _ _ ha.rewardContract hb.rewardContract h
  cut h
  obtain ⟨e8, h⟩ := (pf_Opt pf_32) _ _ _ _ ha.rewardAccount hb.rewardAccount h
  cut h
  obtain ⟨e9, h⟩ := pf_I _ _ _ _ ha.rewardVote hb.rewardVote h
  cut h
  obtain ⟨e10, h⟩ := pf_I _ _ _ _ ha.rewardVoteSum hb.rewardVoteSum h
  cut h
  obtain ⟨e11, h⟩ := pf_U _ _ _ _ ha.rewardVoteCount hb.rewardVoteCount h
  cut h
  obtain ⟨e12, h⟩ := pf_U _ _ _ _ ha.baseReward hb.baseReward h
  cut h
  obtain ⟨e13, h⟩ := pf_32 _ _ _ _ ha.projectAddr hb.projectAddr h
  cut h
  obtain ⟨e14, h⟩ := pf_U _ _ _ _ ha.staticCost hb.staticCost h
  cut h
  obtain ⟨e15, h⟩ := pf_U _ _ _ _ ha.totalCost hb.totalCost h
  cut h
  obtain ⟨e16, h⟩ := pf_U _ _ _ _ ha.txCount hb.txCount h
  cut h
  obtain ⟨e17, h⟩ := pf_U _ _ _ _ ha.txFees hb.txFees h
  cut h
  obtain ⟨e18, h⟩ := pf_U _ _ _ _ ha.txfeeBuffer hb.txfeeBuffer h
  cut h
  obtain ⟨e19, h⟩ := pf_32 _ _ _ _ ha.txHash hb.txHash h
  exact ⟨e1, e2, e3, e4, e5, e6, e7, e8, e9, e10, e11, e12, e13, e14, e15, e16, e17, e18, e19, h⟩

theorem head_inj {H : Bytes → Bytes} {hf2 ty : Nat} {a b : Head} (hlen : ∀ x, (H x).length = 32) (ha : a.Ok) (hb : b.Ok)
    (hd : ∀ p ∈ a.proof, ∀ q ∈ b.proof, H (encSpace p) = H (encSpace q) → encSpace p = encSpace q)
    (h : encHead H hf2 ty a = encHead H hf2 ty b) :
    a.unchained = b.unchained ∧ (a.height ≥ hf2 → a.proofChain = b.proofChain) := by
  unfold encHead at h
  cut h
  obtain ⟨e1, e2, e3, e4, e5, e6, e7, e8, e9, e10, e11, e12, e13, e14, e15, e16, h⟩ := head1_fields ha hb h
  delta encHead2 at h
  simp only [List.append_assoc] at h
  cut h
  have vok : ∀ l : List Space, Sz l → VecOk Len32 (l.map fun p => H (encSpace p)) := fun l hl =>
    ⟨by unfold Sz at *; rwa [List.length_map], fun x hx => by
      obtain ⟨p, -, rfl⟩ := List.mem_map.1 hx
      exact hlen _⟩
  obtain ⟨g, h⟩ := pf_Vec pf_32 _ _ _ _ (vok _ ha.proof.1) (vok _ hb.proof.1) h
  have g := spaces_inj _ _ ha.proof.2 hb.proof.2 hd g
  cut h
  obtain ⟨g', h⟩ := pf_32 _ _ _ _ ha.proofHash hb.proofHash h
  have fin : encHead3 a = encHead3 b → a.unchained = b.unchained := by
    intro h
    obtain ⟨f1, f2, f3, f4, f5, f6, f7, f8, f9, f10, f11, f12, f13, f14, f15, f16, f17, f18, f19, -⟩ := head3_fields (s := []) (t := []) ha hb (by rw [h])
    delta Head.unchained
    rw [e1, e2, e3, e4, e5, e6, e7, e8, e9, e10, e11, e12, e13, e14, e15, e16, g, g', f1, f2, f3, f4, f5, f6, f7, f8, f9, f10, f11, f12, f13, f14, f15, f16, f17, f18, f19]
  by_cases hh : a.height ≥ hf2
  · rw [if_pos hh, if_pos (e4 ▸ hh)] at h
    simp only [List.append_assoc] at h
    cut h
    obtain ⟨e, h⟩ := pf_32 _ _ _ _ ha.proofChain hb.proofChain h
    exact ⟨fin h, fun _ => e⟩
  · rw [if_neg hh, if_neg (e4 ▸ hh), List.nil_append, List.nil_append] at h
    exact ⟨fin h, fun k => absurd k hh⟩

/-! ### the tree -/

/-- What one round hashes. -/
def levelIn : List Bytes → List Bytes
  | a :: b :: l => (a ++ b) :: levelIn l
  | [_] => []
  | [] => []

/-- What all rounds hash. -/
def roundsIn (H : Bytes → Bytes) : Nat → List Bytes → List Bytes
  | 0, _ => []
  | n + 1, l => if l.length > 1 then levelIn l ++ roundsIn H n (level H l) else []

theorem level_length (H : Bytes → Bytes) : ∀ l : List Bytes, (level H l).length = (l.length + 1) / 2
  | [] => rfl
  | [_] => by simp [level]
  | a :: b :: l => by
    simp only [level, List.length_cons, level_length H l]
    omega

theorem level_32 {H : Bytes → Bytes} (hlen : ∀ x, (H x).length = 32) : ∀ l : List Bytes, (∀ x ∈ l, Len32 x) →
    ∀ x ∈ level H l, Len32 x
  | [], _, x, hx => absurd hx List.not_mem_nil
  | [a], h, x, hx => h x hx
  | a :: b :: l, h, x, hx => by
    rcases List.mem_cons.1 hx with rfl | hx
    · exact hlen _
    · exact level_32 hlen l (fun y hy => h y (List.mem_cons_of_mem _ (List.mem_cons_of_mem _ hy))) x hx

theorem level_inj {H : Bytes → Bytes} : ∀ (l l' : List Bytes), l.length = l'.length → (∀ x ∈ l, Len32 x) → (∀ x ∈ l', Len32 x) →
    (∀ x ∈ levelIn l, ∀ y ∈ levelIn l', H x = H y → x = y) → level H l = level H l' → l = l'
  | [], [], _, _, _, _, _ => rfl
  | [], _ :: _, e, _, _, _, _ => by simp at e
  | _ :: _, [], e, _, _, _, _ => by simp at e
  | [a], [b], _, _, _, _, h => h
  | [_], _ :: _ :: _, e, _, _, _, _ => by simp at e
  | _ :: _ :: _, [_], e, _, _, _, _ => by simp at e
  | a :: b :: l, a' :: b' :: l', e, h1, h2, hd, h => by
    simp only [level, List.cons.injEq] at h
    have k := hd (a ++ b) (List.mem_cons_self ..) (a' ++ b') (List.mem_cons_self ..) h.1
    have l1 : a.length = 32 := h1 a (List.mem_cons_self ..)
    have l2 : a'.length = 32 := h2 a' (List.mem_cons_self ..)
    obtain ⟨e1, e2⟩ := List.append_inj k (by rw [l1, l2])
    simp only [List.length_cons] at e
    rw [e1, e2, level_inj l l' (by omega) (fun x hx => h1 x (List.mem_cons_of_mem _ (List.mem_cons_of_mem _ hx)))
      (fun x hx => h2 x (List.mem_cons_of_mem _ (List.mem_cons_of_mem _ hx)))
      (fun x hx y hy => hd x (List.mem_cons_of_mem _ hx) y (List.mem_cons_of_mem _ hy)) h.2]

theorem rounds_inj {H : Bytes → Bytes} (hlen : ∀ x, (H x).length = 32) : ∀ (n : Nat) (l l' : List Bytes), l.length = l'.length →
    (∀ x ∈ l, Len32 x) → (∀ x ∈ l', Len32 x) → (∀ x ∈ roundsIn H n l, ∀ y ∈ roundsIn H n l', H x = H y → x = y) →
    rounds H n l = rounds H n l' → l = l'
  | 0, _, _, _, _, _, _, h => h
  | n + 1, l, l', e, h1, h2, hd, h => by
    unfold rounds at h
    unfold roundsIn at hd
    by_cases k : l.length > 1
    · have k' : l'.length > 1 := by omega
      rw [if_pos k, if_pos k'] at h
      rw [if_pos k, if_pos k'] at hd
      exact level_inj l l' e h1 h2 (fun x hx y hy => hd x (List.mem_append_left _ hx) y (List.mem_append_left _ hy))
        (rounds_inj hlen n _ _ (by rw [level_length, level_length, e]) (level_32 hlen l h1) (level_32 hlen l' h2)
          (fun x hx y hy => hd x (List.mem_append_right _ hx) y (List.mem_append_right _ hy)) h)
    · rw [if_neg k, if_neg (by omega)] at h
      exact h

/-- The loop has ended after as many rounds as there are elements. -/
theorem rounds_done (H : Bytes → Bytes) : ∀ (n : Nat) (l : List Bytes), l.length ≤ n → (rounds H n l).length ≤ 1
  | 0, l, h => by unfold rounds; omega
  | n + 1, l, h => by
    unfold rounds
    by_cases k : l.length > 1
    · rw [if_pos k]
      exact rounds_done H n _ (by rw [level_length]; omega)
    · rw [if_neg k]
      omega

theorem rounds_length (H : Bytes → Bytes) : ∀ (n : Nat) (l l' : List Bytes), l.length = l'.length →
    (rounds H n l).length = (rounds H n l').length
  | 0, _, _, e => e
  | n + 1, l, l', e => by
    unfold rounds
    by_cases k : l.length > 1
    · rw [if_pos k, if_pos (by omega)]
      exact rounds_length H n _ _ (by rw [level_length, level_length, e])
    · rw [if_neg k, if_neg (by omega), e]

theorem tree_inj {H : Bytes → Bytes} (hlen : ∀ x, (H x).length = 32) {l l' : List Bytes} (e : l.length = l'.length)
    (h1 : ∀ x ∈ l, Len32 x) (h2 : ∀ x ∈ l', Len32 x)
    (hd : ∀ x ∈ roundsIn H l.length l, ∀ y ∈ roundsIn H l'.length l', H x = H y → x = y)
    (h : treeHash H l = treeHash H l') : l = l' := by
  have d := rounds_done H l.length l (Nat.le_refl _)
  have c := rounds_length H l.length l l' e
  unfold treeHash at h
  rw [← e] at h hd
  refine rounds_inj hlen l.length l l' e h1 h2 hd ?_
  match hr : rounds H l.length l, hr' : rounds H l.length l' with
  | [], [] => rfl
  | [], _ :: _ => rw [hr, hr'] at c; simp at c
  | _ :: _, [] => rw [hr, hr'] at c; simp at c
  | [x], [y] => rw [hr, hr'] at h; exact congrArg (fun z => [z]) h
  | [x], _ :: _ :: _ => rw [hr, hr'] at c; simp at c
  | _ :: _ :: _, _ => rw [hr] at d; simp at d

/-! ### C180 -/

/-- All that is hashed for a block. -/
def Blk.inputs (E : Env) (hf2 : Nat) (b : Blk) : List Bytes :=
  encHead E.H hf2 TH_BLOCK b.head :: encContent b.hash b.farmerSig ::
    (b.head.proof.map encSpace ++ (roundsIn E.H b.txs.length (b.txs.map (calcHash E true)) ++ b.txs.flatMap (contentInputs E)))

structure Blk.Ok (b : Blk) : Prop where
  head : b.head.Ok
  hash : Len32 b.hash
  sig : ∀ s ∈ b.farmerSig, s.length = 64
  txs : ∀ t ∈ b.txs, t.Ok

/-- A transaction as its content hash sees it (see C34): without the solution and flags of the inputs in the result. -/
def Tx.seen (t : Tx) : Tx := { t with execResult := t.execResult.map ExecResult.bareInputs }

theorem txs_inj (E : Env) (hE : E.Good) : ∀ (l l' : List Tx), (∀ t ∈ l, t.Ok) → (∀ t ∈ l', t.Ok) → (∀ t ∈ l, 1 ≤ t.version) →
    Distinguishes E.H (l.flatMap (contentInputs E)) (l'.flatMap (contentInputs E)) →
    l.map (calcHash E true) = l'.map (calcHash E true) → l.map Tx.seen = l'.map Tx.seen
  | [], [], _, _, _, _, _ => rfl
  | [], _ :: _, _, _, _, _, h => by simp at h
  | _ :: _, [], _, _, _, _, h => by simp at h
  | a :: l, b :: l', ha, hb, hv, hd, h => by
    simp only [List.map_cons, List.cons.injEq] at h ⊢
    simp only [List.flatMap_cons] at hd
    refine ⟨C34_content_binds E hE a b (ha a (List.mem_cons_self ..)) (hb b (List.mem_cons_self ..)) (hv a (List.mem_cons_self ..))
      ⟨fun x hx y hy => hd.inj x (List.mem_append_left _ hx) y (List.mem_append_left _ hy),
       fun x hx => hd.left x (List.mem_append_left _ hx), fun x hx => hd.right x (List.mem_append_left _ hx)⟩ h.1, ?_⟩
    exact txs_inj E hE l l' (fun x hx => ha x (List.mem_cons_of_mem _ hx)) (fun x hx => hb x (List.mem_cons_of_mem _ hx))
      (fun x hx => hv x (List.mem_cons_of_mem _ hx))
      ⟨fun x hx y hy => hd.inj x (List.mem_append_right _ hx) y (List.mem_append_right _ hy),
       fun x hx => hd.left x (List.mem_append_right _ hx), fun x hx => hd.right x (List.mem_append_right _ hx)⟩ h.2

theorem hashesValid_iff {E : Env} {hf2 : Nat} {b : Blk} : hashesValid E hf2 b = true ↔
    b.head.version = 0 ∧ b.head.vdfCount = b.head.vdfRewardAddr.length ∧ b.hash = E.H (encHead E.H hf2 TH_BLOCK b.head) ∧
    b.contentHash = E.H (encContent b.hash b.farmerSig) ∧ b.head.txCount = b.txs.length ∧ b.head.txHash = txHashOf E b.txs := by
  unfold hashesValid
  simp only [Bool.and_eq_true, decide_eq_true_eq, and_assoc]

/-- **C180.** Two valid blocks with the same hash have the same header, with the same proofs, and the same transactions in the same
    order; if the hash function does not collide on what is hashed for them. Only before hardfork 2 may they differ in `proof_chain`. -/
theorem C180_hash (E : Env) (hE : E.Good) (hf2 : Nat) (a b : Blk) (ha : a.Ok) (hb : b.Ok) (va : hashesValid E hf2 a = true)
    (vb : hashesValid E hf2 b = true) (hd : Distinguishes E.H (a.inputs E hf2) (b.inputs E hf2)) (h : a.hash = b.hash) :
    { a.head with proofChain := [] } = { b.head with proofChain := [] } ∧
    (a.head.height ≥ hf2 → a.head = b.head) ∧
    a.txs.map (calcHash E true) = b.txs.map (calcHash E true) ∧
    ((∀ t ∈ a.txs, 1 ≤ t.version) → a.txs.map Tx.seen = b.txs.map Tx.seen) := by
  obtain ⟨-, -, ea, -, ca, ta⟩ := hashesValid_iff.1 va
  obtain ⟨-, -, eb, -, cb, tb⟩ := hashesValid_iff.1 vb
  rw [ea, eb] at h
  have e := hd.inj _ (List.mem_cons_self ..) _ (List.mem_cons_self ..) h
  obtain ⟨e1, e2⟩ := head_inj hE.hlen ha.head hb.head
    (fun p hp q hq => hd.inj _ (List.mem_cons_of_mem _ (List.mem_cons_of_mem _ (List.mem_append_left _ (List.mem_map_of_mem hp))))
      _ (List.mem_cons_of_mem _ (List.mem_cons_of_mem _ (List.mem_append_left _ (List.mem_map_of_mem hq))))) e
  have ec : a.head.txCount = b.head.txCount := by
    have := congrArg Head.txCount e1
    exact this
  have et : a.head.txHash = b.head.txHash := by
    have := congrArg Head.txHash e1
    exact this
  have el : (a.txs.map (calcHash E true)).length = (b.txs.map (calcHash E true)).length := by
    rw [List.length_map, List.length_map, ← ca, ← cb, ec]
  have l32 : ∀ l : List Tx, ∀ x ∈ l.map (calcHash E true), Len32 x := fun l x hx => by
    obtain ⟨t, -, rfl⟩ := List.mem_map.1 hx
    exact hE.hlen _
  have eh : a.txs.map (calcHash E true) = b.txs.map (calcHash E true) := by
    refine tree_inj hE.hlen el (l32 _) (l32 _) (fun x hx y hy => ?_) (by unfold txHashOf at ta tb; rw [← ta, ← tb, et])
    rw [List.length_map] at hx hy
    exact hd.inj x (List.mem_cons_of_mem _ (List.mem_cons_of_mem _ (List.mem_append_right _ (List.mem_append_left _ hx))))
      y (List.mem_cons_of_mem _ (List.mem_cons_of_mem _ (List.mem_append_right _ (List.mem_append_left _ hy))))
  refine ⟨e1, fun hh => ?_, eh, fun hv => ?_⟩
  · have e3 := e2 hh
    have e4 : { a.head.unchained with proofChain := a.head.proofChain } = { b.head.unchained with proofChain := b.head.proofChain } := by
      rw [e1, e3]
    exact e4
  · have m : ∀ c : Blk, ∀ x ∈ c.txs.flatMap (contentInputs E), x ∈ c.inputs E hf2 := fun c x hx =>
      List.mem_cons_of_mem _ (List.mem_cons_of_mem _ (List.mem_append_right _ (List.mem_append_right _ hx)))
    exact txs_inj E hE _ _ ha.txs hb.txs hv ⟨fun x hx y hy => hd.inj x (m a x hx) y (m b y hy),
      fun x hx => hd.left x (m a x hx), fun x hx => hd.right x (m b x hx)⟩ eh

/-- **C180.** Two valid blocks with the same content hash have the same hash, so all of the above, and the same signature. -/
theorem C180_content (E : Env) (hf2 : Nat) (a b : Blk) (ha : a.Ok) (hb : b.Ok) (va : hashesValid E hf2 a = true)
    (vb : hashesValid E hf2 b = true) (hd : Distinguishes E.H (a.inputs E hf2) (b.inputs E hf2)) (h : a.contentHash = b.contentHash) :
    a.hash = b.hash ∧ a.farmerSig = b.farmerSig := by
  obtain ⟨-, -, -, ea, -, -⟩ := hashesValid_iff.1 va
  obtain ⟨-, -, -, eb, -, -⟩ := hashesValid_iff.1 vb
  rw [ea, eb] at h
  have e := hd.inj _ (List.mem_cons_of_mem _ (List.mem_cons_self ..)) _ (List.mem_cons_of_mem _ (List.mem_cons_self ..)) h
  have la : a.hash.length = 32 := ha.hash
  have lb : b.hash.length = 32 := hb.hash
  cases sa : a.farmerSig with
  | none =>
    cases sb : b.farmerSig with
    | none => rw [sa, sb] at e; exact ⟨e, rfl⟩
    | some y =>
      have ly := hb.sig y sb
      rw [sa, sb] at e
      have := congrArg List.length e
      simp only [encContent, List.length_append] at this
      omega
  | some x =>
    have lx := ha.sig x sa
    cases sb : b.farmerSig with
    | none =>
      rw [sa, sb] at e
      have := congrArg List.length e
      simp only [encContent, List.length_append] at this
      omega
    | some y =>
      rw [sa, sb] at e
      obtain ⟨e1, e2⟩ := List.append_inj e (by rw [la, lb])
      exact ⟨e1, by rw [e2]⟩

/-- **C180.** Before hardfork 2 a valid block stays valid, with the same hashes, whatever is put into `proof_chain`. -/
theorem C180_chain_free (E : Env) (hf2 : Nat) (b : Blk) (x : Bytes) (vb : hashesValid E hf2 b = true) (h : b.head.height < hf2) :
    hashesValid E hf2 { b with head := { b.head with proofChain := x } } = true := by
  rw [hashesValid_iff] at vb ⊢
  obtain ⟨h1, h2, h3, h4, h5, h6⟩ := vb
  refine ⟨h1, h2, ?_, h4, h5, h6⟩
  have : encHead E.H hf2 TH_BLOCK { b.head with proofChain := x } = encHead E.H hf2 TH_BLOCK b.head := by
    delta encHead encHead2
    dsimp only
    rw [if_neg (Nat.not_le.2 h)]
    rw [if_neg (Nat.not_le.2 h)]
    rfl
  rw [h3]
  exact congrArg E.H this.symm

/-- **C180.** The header that `get_header` makes of a block has another type and does not give the hash it carries: what is hashed for
    a header is never what is hashed for a block. -/
theorem C180_header (H : Bytes → Bytes) (hf2 : Nat) (a b : Head) : encHead H hf2 TH_HEADER a ≠ encHead H hf2 TH_BLOCK b := by
  intro h
  obtain ⟨e, -⟩ := pf_U _ _ _ _ (by unfold U64 TH_HEADER; omega) (by unfold U64 TH_BLOCK; omega) h
  exact absurd e (by decide)

/-! ### examples -/

def exSpace : Space := .nft ⟨3, List.replicate 32 1, List.replicate 32 2, 100, List.replicate 33 3, 29, List.replicate 32 4, [5, 6]⟩ (List.replicate 32 7)

def exHead (height nonce : Nat) (th : Bytes) : Head :=
  ⟨0, 0, List.replicate 32 9, height, 11, nonce, 1000, 12, 13, 14, 15, 1, 16, List.replicate 32 17, [List.replicate 32 18], none, [exSpace],
   List.replicate 32 19, List.replicate 32 20, List.replicate 32 21, true, 1, 2, 0, none, none, none, -1, 3, 4, 5, List.replicate 32 22, 0,
   0, 3, 0, 0, th⟩

def exBlk (hf2 height nonce : Nat) (memo : Option Bytes) : Blk :=
  let txs := [exTx none [], exTx memo [], exTx none [.pubKey 0 [2] [3]]]
  let head := exHead height nonce (txHashOf toyEnv txs)
  let hash := toyEnv.H (encHead toyEnv.H hf2 TH_BLOCK head)
  ⟨head, hash, some (List.replicate 64 8), toyEnv.H (hash ++ List.replicate 64 8), txs⟩

example : hashesValid toyEnv 10 (exBlk 10 20 0 none) = true ∧ hashesValid toyEnv 10 (exBlk 10 20 1 (some [1])) = true ∧
    (exBlk 10 20 0 none).hash ≠ (exBlk 10 20 1 (some [1])).hash ∧ (exBlk 10 20 0 none).head.txHash ≠ (exBlk 10 20 1 (some [1])).head.txHash ∧
    Distinguishes toyEnv.H ((exBlk 10 20 0 none).inputs toyEnv 10) ((exBlk 10 20 1 (some [1])).inputs toyEnv 10) := by
  decide +kernel

/-- The sizes are those of the types. -/
theorem exHead_ok (height nonce : Nat) (th : Bytes) (h1 : height < 2 ^ 64) (h2 : nonce < 2 ^ 64) (h3 : th.length = 32) :
    (exHead height nonce th).Ok where
  version := by unfold U64; dsimp only [exHead]; decide
  supportFlags := by unfold U64; dsimp only [exHead]; decide
  prev := rfl
  height := h1
  vdfHeight := by unfold U64; dsimp only [exHead]; decide
  nonce := h2
  timeStamp := by unfold I64; dsimp only [exHead]; decide
  timeDiff := by unfold U64; dsimp only [exHead]; decide
  spaceDiff := by unfold U64; dsimp only [exHead]; decide
  weight := by unfold U128; dsimp only [exHead]; decide
  totalWeight := by unfold U128; dsimp only [exHead]; decide
  vdfCount := by unfold U64; dsimp only [exHead]; decide
  vdfIters := by unfold U64; dsimp only [exHead]; decide
  vdfOutput := rfl
  vdfRewardAddr := by unfold VecOk Sz Len32; dsimp only [exHead]; decide
  vdfRewardPayout := trivial
  proof := ⟨by unfold Sz; dsimp only [exHead]; decide, fun p hp => by
    rw [List.mem_singleton.1 hp]
    exact ⟨⟨by unfold U64; decide, rfl, rfl, by unfold U64; decide, rfl, by unfold U64; decide, rfl, by unfold VecOk Sz U64; decide⟩, rfl⟩⟩
  proofHash := rfl
  proofChain := rfl
  challenge := rfl
  spaceForkLen := by unfold U64; dsimp only [exHead]; decide
  spaceForkProofs := by unfold U64; dsimp only [exHead]; decide
  rewardAmount := by unfold U64; dsimp only [exHead]; decide
  rewardAddr := trivial
  rewardContract := trivial
  rewardAccount := trivial
  rewardVote := by unfold I64; dsimp only [exHead]; decide
  rewardVoteSum := by unfold I64; dsimp only [exHead]; decide
  rewardVoteCount := by unfold U64; dsimp only [exHead]; decide
  baseReward := by unfold U64; dsimp only [exHead]; decide
  projectAddr := rfl
  staticCost := by unfold U64; dsimp only [exHead]; decide
  totalCost := by unfold U64; dsimp only [exHead]; decide
  txCount := by unfold U64; dsimp only [exHead]; decide
  txFees := by unfold U64; dsimp only [exHead]; decide
  txfeeBuffer := by unfold U64; dsimp only [exHead]; decide
  txHash := h3

example : (exBlk 10 20 0 none).Ok where
  head := exHead_ok _ _ _ (by decide) (by decide) (by decide +kernel)
  hash := toyEnv_good.hlen _
  sig := fun s hs => by
    cases hs
    rfl
  txs := fun t ht => by
    simp only [exBlk, List.mem_cons, List.not_mem_nil, or_false] at ht
    rcases ht with rfl | rfl | rfl <;>
      simp [exTx, Tx.Ok, U64, U128, Sz, OptOk, VecOk, TxIn.Ok, TxIO.Ok, Op.Ok, VarOk, VarsOk, SolOk, Contract.Ok]

/-- A tree over three elements: the third is taken up as it is. -/
example (H : Bytes → Bytes) (a b c : Bytes) : treeHash H [a, b, c] = H (H (a ++ b) ++ c) := rfl

/-- A tree over five elements, one, and none. -/
example (H : Bytes → Bytes) (a b c d e : Bytes) :
    treeHash H [a, b, c, d, e] = H (H (H (a ++ b) ++ H (c ++ d)) ++ e) ∧ treeHash H [a] = a ∧ treeHash H [] = zeroHash := ⟨rfl, rfl, rfl⟩

/-- The same hash does not mean the same number of transactions, were the number not in the header. -/
example (H : Bytes → Bytes) (a b : Bytes) : treeHash H [a, b] = treeHash H [H (a ++ b)] := rfl

end Verif.Codec
