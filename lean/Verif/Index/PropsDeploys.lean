/-
  C191: the lists of contracts by who deployed them and by owner.
-/
import Verif.Index.Deploys

namespace Verif.Index.Deploys

/-! ### what should be listed -/

/-- The type a contract is listed with: the binary of an executable, else the type of the contract. -/
def kindOf : Contr → Nat
  | .pubkey t _ => t
  | .exec _ b _ => b
  | .other t => t

/-- Who owns a contract when it is deployed: who a public key is for; the first argument of a plot NFT, an offer or a time lock; the third
    of an escrow. An argument that is left out is the zero address. -/
def firstOwner (P : Params) : Contr → Option Nat
  | .pubkey _ a => some a
  | .exec _ b args =>
    if b = P.plotNft ∨ b = P.offer ∨ b = P.timeLock then some (args.getD 0 0)
    else if b = P.escrow then some (args.getD 2 0)
    else none
  | .other _ => none

/-- What a transaction adds to the contracts deployed by `a`. -/
def byTx (a : Nat) (t : Tx) : List (Nat × Nat) :=
  match t.deploy with
  | some c => if t.failed = false ∧ t.sender = some a then [(t.id, kindOf c)] else []
  | none => []

/-- What it adds to those that `a` owned first. -/
def ownTx (P : Params) (a : Nat) (t : Tx) : List (Nat × Nat) :=
  match t.deploy with
  | some c => if t.failed = false ∧ firstOwner P c = some a then [(t.id, kindOf c)] else []
  | none => []

/-- Over a chain, oldest first. -/
def over (f : Tx → List (Nat × Nat)) (chain : List Block) : List (Nat × Nat) := chain.flatMap fun b => b.txs.flatMap f

/-- Those of one type, or all. -/
def ofType (type : Option Nat) (l : List (Nat × Nat)) : List Nat := (l.filter fun x => type.all (x.2 == ·)).map Prod.fst

/-- A block has less than 2^32 inputs, outputs, contracts and operations. -/
def Fits (b : Block) : Prop := b.ios + (b.txs.map fun t => 1 + t.ops.length).sum < 2 ^ 32

/-- Blocks are of that size, and there are less than 2^32 - 1 of them. -/
def FitsAll (l : List Event) : Prop := (∀ b, Event.block b ∈ l → Fits b) ∧ l.length < 2 ^ 32 - 1

/-- The owner that the plot NFT itself knows, contract/plot_nft.js:9-12 and 74-79. -/
def ownerAfter (P : Params) (x : Nat) (o : Option Nat) (t : Tx) : Option Nat :=
  if t.failed then o else
  let o1 := match t.deploy with
    | some c => if t.id = x then firstOwner P c else o
    | none => o
  t.ops.foldl (fun o op => match op with
    | .transfer nft user new => if nft = x ∧ o = some user then some new else o
    | .other => o) o1

def ownerNow (P : Params) (chain : List Block) (x : Nat) : Option Nat :=
  (chain.flatMap Block.txs).foldl (ownerAfter P x) none

/-! ### lemmas -/

def Row.val (r : Row) : Nat × Nat := (r.id, r.type)

/-- All rows are before this height and ticket. -/
def Below (H n : Nat) (T : Table) : Prop := ∀ a, ∀ r ∈ T a, r.height < H ∨ (r.height = H ∧ r.ticket < n)

theorem insRow_end {r : Row} : ∀ {l : List Row}, (∀ x ∈ l, x.height < r.height ∨ (x.height = r.height ∧ x.ticket < r.ticket)) →
    insRow r l = l ++ [r]
  | [], _ => rfl
  | x :: l, h => by
    have hx : x.lt r = true := by
      unfold Row.lt
      rcases h x (List.mem_cons_self ..) with k | ⟨k, k'⟩
      · simp [k]
      · simp [k, k']
    rw [insRow, if_pos hx, insRow_end (fun y hy => h y (List.mem_cons_of_mem _ hy))]
    rfl

/-- Rows of this height, with tickets in this range, came at the end. -/
def Grow (H n n' : Nat) (T T' : Table) (e : Nat → List (Nat × Nat)) : Prop :=
  n ≤ n' ∧ ∀ a, ∃ ext, T' a = T a ++ ext ∧ (∀ r ∈ ext, r.height = H ∧ n ≤ r.ticket ∧ r.ticket < n') ∧ ext.map Row.val = e a

theorem Grow.same {H n n' : Nat} {T : Table} (h : n ≤ n') : Grow H n n' T T (fun _ => []) :=
  ⟨h, fun a => ⟨[], by rw [List.append_nil], (fun _ k => nomatch k), rfl⟩⟩

theorem Grow.trans {H n n' n'' : Nat} {T T' T'' : Table} {e e' : Nat → List (Nat × Nat)} (h : Grow H n n' T T' e)
    (h' : Grow H n' n'' T' T'' e') : Grow H n n'' T T'' (fun a => e a ++ e' a) := by
  refine ⟨Nat.le_trans h.1 h'.1, fun a => ?_⟩
  obtain ⟨x, h1, h2, h3⟩ := h.2 a
  obtain ⟨y, g1, g2, g3⟩ := h'.2 a
  refine ⟨x ++ y, by rw [g1, h1, List.append_assoc], fun r hr => ?_, by rw [List.map_append, h3, g3]⟩
  have l1 := h.1
  have l2 := h'.1
  rcases List.mem_append.1 hr with k | k
  · have := h2 r k; omega
  · have := g2 r k; omega

theorem Grow.below {H n n' : Nat} {T T' : Table} {e : Nat → List (Nat × Nat)} (h : Grow H n n' T T' e) (hb : Below H n T) :
    Below H n' T' := by
  intro a r hr
  obtain ⟨x, h1, h2, -⟩ := h.2 a
  rw [h1] at hr
  have l1 := h.1
  rcases List.mem_append.1 hr with k | k
  · have := hb a r k; omega
  · have := h2 r k; omega

theorem Grow.ins {H n : Nat} {T : Table} (hb : Below H n T) (a id ty : Nat) :
    Grow H n (n + 1) T (T.insert a ⟨H, n, id, ty⟩) (fun x => if x = a then [(id, ty)] else []) := by
  refine ⟨Nat.le_succ n, fun x => ?_⟩
  by_cases hx : x = a
  · refine ⟨[⟨H, n, id, ty⟩], ?_, fun r hr => ?_, ?_⟩
    · unfold Table.insert
      rw [if_pos hx, insRow_end (hb x)]
    · rw [List.mem_singleton.1 hr]
      exact ⟨rfl, Nat.le_refl _, Nat.lt_succ_self _⟩
    · dsimp only
      rw [if_pos hx]
      rfl
  · refine ⟨[], ?_, (fun _ k => nomatch k), ?_⟩
    · unfold Table.insert
      rw [if_neg hx, List.append_nil]
    · dsimp only
      rw [if_neg hx]
      rfl

theorem Grow.congr {H n n' : Nat} {T T' : Table} {e e' : Nat → List (Nat × Nat)} (h : Grow H n n' T T' e) (he : ∀ a, e a = e' a) :
    Grow H n n' T T' e' := (funext he) ▸ h

theorem recType_eq (c : Contr) : recType c = kindOf c := by cases c <;> rfl

theorem argAt_eq (l : List Nat) (i : Nat) : argAt l i = l.getD i 0 := by
  unfold argAt
  rw [List.getD_eq_getElem?_getD]
  cases l[i]? <;> rfl

theorem sender_grow {H n id : Nat} {T : Table} (hb : Below H n T) (c : Contr) (s : Option Nat) :
    Grow H n (n + 1) T (recSender H n id c s T) (fun a => if s = some a then [(id, kindOf c)] else []) := by
  unfold recSender
  cases s with
  | none => exact (Grow.same (Nat.le_succ n)).congr fun a => by simp
  | some x =>
    refine (Grow.ins hb x id (recType c)).congr fun a => ?_
    rw [recType_eq]
    by_cases h : a = x
    · rw [if_pos h, if_pos (by rw [h])]
    · rw [if_neg h, if_neg (fun k => h (Option.some.inj k).symm)]

theorem owner_grow {H n id : Nat} {T : Table} (P : Params) (hb : Below H n T) (c : Contr) :
    Grow H n (n + 1) T (recOwner H n id c (recOwnerArg P H n id c T)) (fun a => if firstOwner P c = some a then [(id, kindOf c)] else []) := by
  have flip : ∀ (x a : Nat) (l : List (Nat × Nat)), (if a = x then l else []) = if some x = some a then l else [] := by
    intro x a l
    by_cases h : a = x
    · rw [if_pos h, if_pos (by rw [h])]
    · rw [if_neg h, if_neg (fun k => h (Option.some.inj k).symm)]
  cases c with
  | pubkey t x => exact (Grow.ins hb x id _).congr fun a => flip x a _
  | other t => exact (Grow.same (Nat.le_succ n)).congr fun a => by simp [firstOwner]
  | exec t b args =>
    by_cases h1 : b = P.plotNft ∨ b = P.offer ∨ b = P.timeLock
    · have fo : firstOwner P (.exec t b args) = some (args.getD 0 0) := if_pos h1
      have e : recOwner H n id (.exec t b args) (recOwnerArg P H n id (.exec t b args) T) = T.insert (args.getD 0 0) ⟨H, n, id, b⟩ := by
        unfold recOwner recOwnerArg ownerIndex
        rw [← argAt_eq]
        simp only [if_pos h1, recType]
      rw [e]
      exact (Grow.ins hb _ id _).congr fun a => by rw [flip, fo]; rfl
    · by_cases h2 : b = P.escrow
      · have fo : firstOwner P (.exec t b args) = some (args.getD 2 0) := (if_neg h1).trans (if_pos h2)
        have e : recOwner H n id (.exec t b args) (recOwnerArg P H n id (.exec t b args) T) = T.insert (args.getD 2 0) ⟨H, n, id, b⟩ := by
          unfold recOwner recOwnerArg ownerIndex
          rw [← argAt_eq]
          simp only [if_neg h1, if_pos h2, recType]
        rw [e]
        exact (Grow.ins hb _ id _).congr fun a => by rw [flip, fo]; rfl
      · have fo : firstOwner P (.exec t b args) = none := (if_neg h1).trans (if_neg h2)
        have e : recOwner H n id (.exec t b args) (recOwnerArg P H n id (.exec t b args) T) = T := by
          unfold recOwner recOwnerArg ownerIndex
          simp only [if_neg h1, if_neg h2]
        rw [e]
        exact (Grow.same (Nat.le_succ n)).congr fun a => by rw [fo]; simp

theorem count_ops : ∀ (l : List Op) (n : Nat), n + l.length < 2 ^ 32 → l.foldl (fun n _ => next n) n = n + l.length
  | [], _, _ => rfl
  | _ :: l, n, h => by
    rw [List.length_cons] at h ⊢
    have e : next n = n + 1 := by unfold next; omega
    rw [List.foldl_cons, e, count_ops l (n + 1) (by omega)]
    omega

theorem tx_grow {P : Params} {H : Nat} {a : Acc} {t : Tx} (hf : t.failed = false) (hn : a.counter + (1 + t.ops.length) < 2 ^ 32)
    (hd : Below H a.counter a.deploys) (ho : Below H a.counter a.owners) :
    Grow H a.counter (applyTx P H a t).counter a.deploys (applyTx P H a t).deploys (fun x => byTx x t) ∧
    Grow H a.counter (applyTx P H a t).counter a.owners (applyTx P H a t).owners (fun x => ownTx P x t) ∧
    (applyTx P H a t).counter ≤ a.counter + (1 + t.ops.length) := by
  unfold applyTx applyDeploy byTx ownTx
  dsimp only
  cases hdep : t.deploy with
  | none =>
    dsimp only
    rw [count_ops _ _ (by omega)]
    exact ⟨Grow.same (by omega), Grow.same (by omega), by omega⟩
  | some c =>
    dsimp only
    have e : next a.counter = a.counter + 1 := by unfold next; omega
    rw [e, count_ops _ _ (by omega)]
    refine ⟨?_, ?_, by omega⟩
    · exact ((sender_grow hd c t.sender).trans (Grow.same (n' := a.counter + 1 + t.ops.length) (by omega))).congr fun x => by
        simp only [hf, true_and, List.append_nil]
    · exact ((owner_grow P ho c).trans (Grow.same (n' := a.counter + 1 + t.ops.length) (by omega))).congr fun x => by
        simp only [hf, true_and, List.append_nil]

theorem txs_grow {P : Params} {H : Nat} : ∀ (l : List Tx) (a : Acc), a.counter + (l.map fun t => 1 + t.ops.length).sum < 2 ^ 32 →
    Below H a.counter a.deploys → Below H a.counter a.owners →
    Grow H a.counter (applyTxs P H a l).counter a.deploys (applyTxs P H a l).deploys (fun x => l.flatMap (byTx x)) ∧
    Grow H a.counter (applyTxs P H a l).counter a.owners (applyTxs P H a l).owners (fun x => l.flatMap (ownTx P x)) ∧
    (applyTxs P H a l).counter < 2 ^ 32
  | [], a, hn, _, _ => ⟨Grow.same (Nat.le_refl _), Grow.same (Nat.le_refl _), by simpa [applyTxs] using hn⟩
  | t :: l, a, hn, hd, ho => by
    rw [List.map_cons, List.sum_cons] at hn
    unfold applyTxs
    by_cases hf : t.failed = true
    · rw [if_pos hf]
      obtain ⟨g1, g2, g3⟩ := txs_grow (P := P) l a (by omega) hd ho
      refine ⟨g1.congr fun x => ?_, g2.congr fun x => ?_, g3⟩
      · rw [List.flatMap_cons]; unfold byTx; cases t.deploy <;> simp [hf]
      · rw [List.flatMap_cons]; unfold ownTx; cases t.deploy <;> simp [hf]
    · rw [if_neg hf]
      have hf : t.failed = false := by simpa using hf
      obtain ⟨h1, h2, h3⟩ := tx_grow (P := P) hf (by omega) hd ho
      obtain ⟨g1, g2, g3⟩ := txs_grow (P := P) l (applyTx P H a t) (by omega) (h1.below hd) (h2.below ho)
      exact ⟨(h1.trans g1).congr fun x => by rw [List.flatMap_cons], (h2.trans g2).congr fun x => by rw [List.flatMap_cons], g3⟩

/-- A table is right for a chain, up to each height. -/
def Right (f : Nat → Tx → List (Nat × Nat)) (chain : List Block) (T : Table) : Prop :=
  ∀ a, (∀ r ∈ T a, r.height < chain.length ∧ r.ticket < 2 ^ 32) ∧
    ∀ h, ((T a).filter fun r => decide (r.height < h)).map Row.val = over (f a) (chain.take h)

theorem Right.all {f : Nat → Tx → List (Nat × Nat)} {chain : List Block} {T : Table} (h : Right f chain T) (a : Nat) :
    (T a).map Row.val = over (f a) chain := by
  have k := (h a).2 chain.length
  rw [List.take_length, List.filter_eq_self.2 (fun r hr => by simpa using ((h a).1 r hr).1)] at k
  exact k

theorem Right.grow {f : Nat → Tx → List (Nat × Nat)} {chain : List Block} {T T' : Table} {b : Block} {n n' : Nat} (h : Right f chain T)
    (g : Grow chain.length n n' T T' (fun a => b.txs.flatMap (f a))) (hn : n' ≤ 2 ^ 32) : Right f (chain ++ [b]) T' := by
  intro a
  obtain ⟨x, g1, g2, g3⟩ := g.2 a
  rw [g1]
  refine ⟨fun r hr => ?_, fun k => ?_⟩
  · rw [List.length_append, List.length_singleton]
    rcases List.mem_append.1 hr with k | k
    · have := (h a).1 r k; omega
    · have := g2 r k; omega
  · rw [List.filter_append, List.map_append]
    by_cases hk : k ≤ chain.length
    · rw [(h a).2 k, List.take_append_of_le_length hk,
        List.filter_eq_nil_iff.2 (fun r hr => by have := g2 r hr; simp only [decide_eq_true_eq]; omega), List.map_nil, List.append_nil]
    · rw [List.filter_eq_self.2 (fun r hr => by have := (h a).1 r hr; simp only [decide_eq_true_eq]; omega),
        List.filter_eq_self.2 (fun r hr => by have := g2 r hr; simp only [decide_eq_true_eq]; omega),
        h.all a, g3, List.take_of_length_le (by rw [List.length_append, List.length_singleton]; omega)]
      unfold over
      rw [List.flatMap_append]
      simp

theorem Right.revert {f : Nat → Tx → List (Nat × Nat)} {chain : List Block} {T : Table} (h : Right f chain T) (k : Nat) :
    Right f (chain.take k) (revTable k T) := by
  intro a
  refine ⟨fun r hr => ?_, fun m => ?_⟩
  · obtain ⟨h1, h2⟩ := List.mem_filter.1 hr
    have := (h a).1 r h1
    have h2 := of_decide_eq_true h2
    rw [List.length_take]
    omega
  · unfold revTable
    rw [List.filter_filter, List.take_take, ← (h a).2 (min m k)]
    congr 1
    apply List.filter_congr
    intro r _
    by_cases h1 : r.height < m <;> by_cases h2 : r.height < k <;> simp [h1, h2] <;> omega

theorem Right.below {f : Nat → Tx → List (Nat × Nat)} {chain : List Block} {T : Table} (h : Right f chain T) (n : Nat) :
    Below chain.length n T := fun a r hr => Or.inl ((h a).1 r hr).1

structure Good (P : Params) (s : State) : Prop where
  deploys : Right byTx s.chain s.deploys
  owners : Right (ownTx P) s.chain s.owners

theorem good_init (P : Params) : Good P init :=
  ⟨fun _ => ⟨(fun _ k => nomatch k), fun h => by simp [init, over]⟩, fun _ => ⟨(fun _ k => nomatch k), fun h => by simp [init, over]⟩⟩

theorem good_block {P : Params} {s : State} {b : Block} (h : Good P s) (hb : Fits b) : Good P (applyBlock P s b) := by
  unfold Fits at hb
  have e : b.ios % 2 ^ 32 = b.ios := Nat.mod_eq_of_lt (by omega)
  obtain ⟨g1, g2, g3⟩ := txs_grow (P := P) (H := s.chain.length) b.txs ⟨s.deploys, s.owners, b.ios % 2 ^ 32⟩
    (by dsimp only; omega) (h.deploys.below _) (h.owners.below _)
  exact ⟨h.deploys.grow g1 (Nat.le_of_lt g3), h.owners.grow g2 (Nat.le_of_lt g3)⟩

theorem good_run {P : Params} : ∀ (l : List Event) (s : State), Good P s → (∀ b, Event.block b ∈ l → Fits b) → Good P (run P s l)
  | [], _, h, _ => h
  | .block b :: l, _, h, hf =>
    good_run l _ (good_block h (hf b (List.mem_cons_self ..))) (fun c hc => hf c (List.mem_cons_of_mem _ hc))
  | .revert k :: l, _, h, hf =>
    good_run l _ ⟨h.deploys.revert k, h.owners.revert k⟩ (fun c hc => hf c (List.mem_cons_of_mem _ hc))

theorem run_len {P : Params} : ∀ (l : List Event) (s : State), (run P s l).chain.length ≤ s.chain.length + l.length
  | [], _ => Nat.le_add_right ..
  | .block b :: l, s => by
    refine Nat.le_trans (run_len l _) ?_
    simp only [step, applyBlock, List.length_append, List.length_cons, List.length_nil]
    omega
  | .revert k :: l, s => by
    refine Nat.le_trans (run_len l _) ?_
    simp only [step, revert, List.length_take, List.length_cons]
    omega

theorem typeFits_eq (type : Option Nat) (t : Nat) : typeFits type t = type.all (t == ·) := by cases type <;> rfl

theorem listed_eq {f : Nat → Tx → List (Nat × Nat)} {chain : List Block} {T : Table} (h : Right f chain T) (hl : chain.length < 2 ^ 32)
    (type : Option Nat) : ∀ as : List Nat, listed T type as = as.flatMap fun a => ofType type (over (f a) chain)
  | [] => rfl
  | a :: as => by
    rw [listed, List.flatMap_cons, listed_eq h hl type as]
    congr 1
    have e : rangeOf (T a) = T a := List.filter_eq_self.2 (fun r hr => by
      have := (h a).1 r hr
      unfold Row.lt
      simp only [Bool.or_eq_true, decide_eq_true_eq]
      left; omega)
    unfold ofType
    rw [e, ← h.all a, List.filter_map, List.map_map]
    congr 1
    apply List.filter_congr
    intro r _
    exact typeFits_eq ..

theorem look_walletMap (get : Nat → Option Contr) (name : Option Nat) (x : Nat) (c : Contr) : ∀ (l : List Nat) (m : List (Nat × Contr)),
    (∀ y d, look m y = some d → get y = some d) →
    (look (walletMap get name l m) x = some c ↔ look m x = some c ∨ (x ∈ l ∧ get x = some c ∧ name.all (c.type == ·) = true))
  | [], m, _ => by simp [walletMap]
  | a :: l, m, hm => by
    unfold walletMap
    cases hg : get a with
    | none =>
      dsimp only
      rw [look_walletMap get name x c l m hm]
      constructor
      · rintro (h | ⟨h1, h2⟩)
        · exact .inl h
        · exact .inr ⟨List.mem_cons_of_mem _ h1, h2⟩
      · rintro (h | ⟨h1, h2⟩)
        · exact .inl h
        · rcases List.mem_cons.1 h1 with k | k
          · rw [k, hg] at h2; exact absurd h2.1 (by simp)
          · exact .inr ⟨k, h2⟩
    | some d =>
      dsimp only
      rw [typeFits_eq]
      by_cases hf : name.all (d.type == ·) = true
      · rw [if_pos hf]
        have cons : ∀ y, look ((a, d) :: m) y = if a = y then some d else look m y := by
          intro y
          unfold look
          rw [List.find?_cons]
          by_cases h : a = y
          · simp [h]
          · rw [if_neg h, show (a == y) = false from beq_false_of_ne h]
        rw [look_walletMap get name x c l _ (fun y e hy => by
          rw [cons] at hy
          by_cases h : a = y
          · rw [if_pos h] at hy; rw [← h, hg, hy]
          · rw [if_neg h] at hy; exact hm y e hy), cons]
        by_cases h : a = x
        · subst h
          rw [if_pos rfl]
          constructor
          · rintro (k | ⟨k1, k2⟩)
            · have := Option.some.inj k; subst this
              exact .inr ⟨List.mem_cons_self .., hg, hf⟩
            · exact .inr ⟨List.mem_cons_of_mem _ k1, k2⟩
          · rintro (k | ⟨-, k2, -⟩)
            · exact .inl (by rw [← hg, hm _ _ k])
            · exact .inl (by rw [← hg, k2])
        · rw [if_neg h]
          constructor
          · rintro (k | ⟨k1, k2⟩)
            · exact .inl k
            · exact .inr ⟨List.mem_cons_of_mem _ k1, k2⟩
          · rintro (k | ⟨k1, k2⟩)
            · exact .inl k
            · rcases List.mem_cons.1 k1 with j | j
              · exact absurd j.symm h
              · exact .inr ⟨j, k2⟩
      · rw [if_neg hf, look_walletMap get name x c l m hm]
        constructor
        · rintro (h | ⟨h1, h2⟩)
          · exact .inl h
          · exact .inr ⟨List.mem_cons_of_mem _ h1, h2⟩
        · rintro (h | ⟨h1, h2⟩)
          · exact .inl h
          · rcases List.mem_cons.1 h1 with k | k
            · rw [k, hg] at h2
              have := Option.some.inj h2.1; subst this
              exact absurd h2.2 hf
            · exact .inr ⟨k, h2⟩

/-! ### the theorems -/

/-- **C191.** `get_contracts_by` lists, address by address and oldest first, exactly the contracts that transactions of that sender
    deployed on the current chain without failing, of the type asked for if any, whatever was reverted before. -/
theorem C191_by (P : Params) (l : List Event) (hf : FitsAll l) (type : Option Nat) (as : List Nat) :
    listed (run P init l).deploys type as = as.flatMap fun a => ofType type (over (byTx a) (run P init l).chain) :=
  listed_eq (good_run l _ (good_init P) hf.1).deploys
    (by have := run_len (P := P) l init; have := hf.2; simp only [init, List.length_nil] at *; omega) type as

/-- **C191, in part.** `get_contracts_owned_by` lists exactly those whose owner the address was when they were deployed. Missing: who owns
    them now, which is another matter (`C191_moved`). -/
theorem C191_owned_partial (P : Params) (l : List Event) (hf : FitsAll l) (type : Option Nat) (as : List Nat) :
    listed (run P init l).owners type as = as.flatMap fun a => ofType type (over (ownTx P a) (run P init l).chain) :=
  listed_eq (good_run l _ (good_init P) hf.1).owners
    (by have := run_len (P := P) l init; have := hf.2; simp only [init, List.length_nil] at *; omega) type as

/-- **C191.** No row is ever replaced: a block only adds rows after those that are there. -/
theorem C191_once (P : Params) (l : List Event) (hf : FitsAll l) (b : Block) (hb : Fits b) (a : Nat) :
    (run P init l).deploys a <+: (applyBlock P (run P init l) b).deploys a ∧
    (run P init l).owners a <+: (applyBlock P (run P init l) b).owners a := by
  have h := good_run l _ (good_init P) hf.1
  unfold Fits at hb
  obtain ⟨g1, g2, -⟩ := txs_grow (P := P) (H := (run P init l).chain.length) b.txs ⟨(run P init l).deploys, (run P init l).owners, b.ios % 2 ^ 32⟩
    (by dsimp only; have := Nat.mod_le b.ios (2 ^ 32); omega) (h.deploys.below _) (h.owners.below _)
  obtain ⟨x, hx, -⟩ := g1.2 a
  obtain ⟨y, hy, -⟩ := g2.2 a
  exact ⟨⟨x, hx.symm⟩, ⟨y, hy.symm⟩⟩

/-- **C191.** What a wallet shows for a list of addresses from the node: the contracts that the node has for them, with the type asked for
    if any; each once, and nothing else. -/
theorem C191_wallet (get : Nat → Option Contr) (name : Option Nat) (l : List Nat) (x : Nat) (c : Contr) :
    look (walletMap get name l []) x = some c ↔ x ∈ l ∧ get x = some c ∧ name.all (c.type == ·) = true := by
  rw [look_walletMap get name x c l [] (fun y d h => by simp [look] at h)]
  simp [look]

/-! ### examples -/

def exP : Params := ⟨1, 2, 3, 4⟩
/-- 50 deploys a plot NFT (100) of its own; 51 deploys an escrow (101) owned by 50, and fails to deploy another (102). -/
def exBlock : Block := ⟨3, [⟨100, some 50, false, some (.exec 9 1 [50]), []⟩,
  ⟨101, some 51, false, some (.exec 9 4 [51, 52, 50]), [.other]⟩, ⟨102, some 51, true, some (.exec 9 4 [51, 52, 50]), []⟩]⟩
/-- 50 hands the plot NFT over to 60. -/
def exMove : Block := ⟨1, [⟨103, some 50, false, none, [.transfer 100 50 60]⟩]⟩
def exEvents : List Event := [.block exBlock, .block exBlock, .revert 1, .block exMove]

/-- **C191 is false** for owners: a plot NFT that was handed over is listed for its first owner only. -/
theorem C191_moved : FitsAll exEvents ∧ ownerNow exP (run exP init exEvents).chain 100 = some 60 ∧
    listed (run exP init exEvents).owners (some 1) [50] = [100] ∧ listed (run exP init exEvents).owners none [60] = [] := by
  refine ⟨⟨?_, by decide⟩, by decide +kernel⟩
  intro b hb
  unfold exEvents at hb
  simp only [List.mem_cons, List.not_mem_nil, Event.block.injEq, reduceCtorEq, or_false, false_or] at hb
  rcases hb with h | h | h <;> subst h <;> unfold Fits <;> decide

example : listed (run exP init exEvents).deploys none [50, 51] = [100, 101] ∧ listed (run exP init exEvents).owners none [50] = [100, 101] ∧
    listed (run exP init exEvents).deploys (some 4) [50, 51] = [101] ∧ listed (run exP init [.block exBlock, .block exBlock]).deploys none [51]
    = [101, 101] ∧ ownerNow exP [exBlock] 100 = some 50 := by decide +kernel

end Verif.Index.Deploys
