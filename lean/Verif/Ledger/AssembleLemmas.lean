import Verif.Ledger.Assemble
import Verif.Ledger.PropsRerun
import Verif.Chain.PropsBands
/-
  Helper lemmas about assembling a block.
-/
namespace Verif.Ledger
open Verif Verif.Chain

/-! ### Locks of others do not matter -/

/-- The same world with other locks. -/
def World.lockedBy (w : World) (L : Addr → Addr → Bool) : World := { w with locked := L }

section Lock
variable {w : World} {L L' : Addr → Addr → Bool} {id : Addr}

theorem exec_lock (h : ∀ c, L id c = L' id c) (p : Prog) : ∀ (c gas lim : Nat) (s : St),
    execProg (w.lockedBy L) id c p gas lim s = execProg (w.lockedBy L') id c p gas lim s := by
  induction p with
  | rdVar l k ih =>
    intro c gas lim s
    unfold execProg
    congr 1
    funext r
    rcases r with ⟨_ | _ | _, t⟩
    · exact ih _ _ _ _ _
    · rfl
    · rfl
  | rdBal q k ih =>
    intro c gas lim s
    unfold execProg
    congr 1
    funext r
    rcases r with ⟨_ | _ | _, t⟩
    · exact ih _ _ _ _ _
    · rfl
    · rfl
  | gas n k ih => intro c gas lim s; unfold execProg; exact ih _ _ _ _
  | check k ih => intro c gas lim s; unfold execProg; rw [ih]
  | read n k ih => intro c gas lim s; unfold execProg; rw [ih]
  | call c2 child k ih1 ih2 =>
    intro c gas lim s
    unfold execProg
    have e1 : (w.lockedBy L).locked id c2 = L id c2 := rfl
    have e2 : (w.lockedBy L').locked id c2 = L' id c2 := rfl
    have ihs : ∀ v, execProg (w.lockedBy L) id c (k v) = execProg (w.lockedBy L') id c (k v) := fun v => by funext a b d; exact ih2 v c a b d
    simp only [e1, e2, h, ih1, ihs]
    rfl
  | done ws outs mints v => intro c gas lim s; rfl
  | fail e => intro c gas lim s; rfl

theorem runEngine_lock (h : ∀ c, L id c = L' id c) (c : Addr) (p : Prog) (gas lim : Nat) (e : Err) :
    runEngine (w.lockedBy L) id c p gas lim e = runEngine (w.lockedBy L') id c p gas lim e := by
  funext s
  unfold runEngine
  rw [exec_lock h]
  show Proc.bind (if L id c then _ else _) _ = Proc.bind (if L' id c then _ else _) _
  rw [h]

theorem executeOp_lock {tx : Tx} (h : ∀ c, L tx.id c = L' tx.id c) (c : Addr) (x : Bool) (u : Option (Addr × Bool)) (d : Option (Addr × Nat)) (p : Prog) (e : Err) :
    executeOp (w.lockedBy L) tx c x u d p e = executeOp (w.lockedBy L') tx c x u d p e := by
  unfold executeOp
  simp only [runEngine_lock h]
  rfl

theorem runDeploy_lock {tx : Tx} (h : ∀ c, L tx.id c = L' tx.id c) : runDeploy (w.lockedBy L) tx = runDeploy (w.lockedBy L') tx := by
  unfold runDeploy
  simp only [executeOp_lock h]
  rfl

theorem runOps_lock {tx : Tx} (h : ∀ c, L tx.id c = L' tx.id c) (lim : Nat) (l : List Op) : ∀ i, runOps (w.lockedBy L) tx lim i l = runOps (w.lockedBy L') tx lim i l := by
  induction l with
  | nil => intro i; rfl
  | cons o l ih =>
    intro i
    unfold runOps
    simp only [executeOp_lock h, ih]
    rfl

theorem takeInputs_lock (lim : Nat) (l : List TxIn) : ∀ i, takeInputs (w.lockedBy L) lim i l = takeInputs (w.lockedBy L') lim i l := by
  induction l with
  | nil => intro i; rfl
  | cons x l ih =>
    intro i
    unfold takeInputs
    simp only [ih]
    rfl

theorem validate_lock {tx : Tx} (h : ∀ c, L tx.id c = L' tx.id c) : validate (w.lockedBy L) tx = validate (w.lockedBy L') tx := by
  have e : body (w.lockedBy L) tx = body (w.lockedBy L') tx := by
    funext lim
    unfold body core
    rw [takeInputs_lock lim tx.inputs (L := L) (L' := L'), runDeploy_lock h, runOps_lock h]
    rfl
  unfold validate
  rw [e]
  rfl

end Lock

/-! ### Funds -/

def BLe (b b' : Bals) : Prop := ∀ a q n, b a q = some n → ∃ n', b' a q = some n' ∧ n ≤ n'

theorem BLe.refl (b : Bals) : BLe b b := fun _ _ n h => ⟨n, h, Nat.le_refl _⟩
theorem BLe.trans {a b c : Bals} (h : BLe a b) (k : BLe b c) : BLe a c := fun x q n hn => by
  obtain ⟨m, h1, h2⟩ := h x q n hn
  obtain ⟨o, h3, h4⟩ := k x q m h1
  exact ⟨o, h3, by omega⟩

theorem take_le {b c : Bals} {a q : Addr} {n : Nat} (h : take b a q n = some c) : BLe c b := by
  unfold take at h
  cases hb : b a q with
  | none => rw [hb] at h; cases h
  | some m =>
    rw [hb] at h
    dsimp only at h
    split at h
    · cases h
    · cases h
      intro x y k hk
      dsimp only at hk
      split at hk
      · next e => cases hk; exact ⟨m, by rw [e.1, e.2]; exact hb, Nat.sub_le _ _⟩
      · exact ⟨k, hk, Nat.le_refl _⟩

theorem take_mono {b b' c : Bals} {a q : Addr} {n : Nat} (hl : BLe b b') (h : take b a q n = some c) : ∃ c', take b' a q n = some c' ∧ BLe c c' := by
  unfold take at h
  cases hb : b a q with
  | none => rw [hb] at h; cases h
  | some m =>
    rw [hb] at h
    dsimp only at h
    split at h
    · cases h
    · next hle =>
      cases h
      obtain ⟨m', h1, h2⟩ := hl a q m hb
      refine ⟨_, by unfold take; rw [h1]; dsimp only; rw [if_neg fun z => hle (Nat.lt_of_le_of_lt h2 z)], ?_⟩
      intro x y k hk
      dsimp only at hk ⊢
      split at hk
      · next e => cases hk; exact ⟨m' - n, by rw [if_pos e], Nat.sub_le_sub_right h2 n⟩
      · next e => rw [if_neg e]; exact hl x y k hk

theorem takeAll_le : ∀ {l : List TxIn} {b c : Bals}, takeAll b l = some c → BLe c b
  | [], b, c, h => by cases h; exact .refl _
  | x :: l, b, c, h => by
    unfold takeAll at h
    obtain ⟨d, h1, h2⟩ := Option.bind_eq_some_iff.1 h
    exact (takeAll_le h2).trans (take_le h1)

theorem takeAll_mono : ∀ {l : List TxIn} {b b' c : Bals}, BLe b b' → takeAll b l = some c → ∃ c', takeAll b' l = some c' ∧ BLe c c'
  | [], b, b', c, hl, h => by cases h; exact ⟨b', rfl, hl⟩
  | x :: l, b, b', c, hl, h => by
    unfold takeAll at h ⊢
    obtain ⟨d, h1, h2⟩ := Option.bind_eq_some_iff.1 h
    obtain ⟨d', h3, h4⟩ := take_mono hl h1
    obtain ⟨c', h5, h6⟩ := takeAll_mono h4 h2
    exact ⟨c', by rw [h3]; exact h5, h6⟩

theorem spendTx_le {b c : Bals} {tx : Tx} {r : ExecRes} (h : spendTx b tx r = some c) : BLe c b := by
  unfold spendTx at h
  cases hs : tx.sender with
  | none => rw [hs] at h; cases h
  | some a =>
    rw [hs] at h
    obtain ⟨d, h1, h2⟩ := Option.bind_eq_some_iff.1 h
    split at h2
    · cases h2; exact take_le h1
    · exact (takeAll_le h2).trans (take_le h1)

theorem spendTx_mono {b b' c : Bals} {tx : Tx} {r : ExecRes} (hl : BLe b b') (h : spendTx b tx r = some c) : ∃ c', spendTx b' tx r = some c' ∧ BLe c c' := by
  unfold spendTx at h ⊢
  cases hs : tx.sender with
  | none => rw [hs] at h; cases h
  | some a =>
    rw [hs] at h
    dsimp only
    obtain ⟨d, h1, h2⟩ := Option.bind_eq_some_iff.1 h
    obtain ⟨d', h3, h4⟩ := take_mono hl h1
    rw [h3]
    show ∃ c', (if r.didFail then some d' else takeAll d' tx.inputs) = some c' ∧ _
    by_cases hf : r.didFail = true
    · rw [if_pos hf] at h2 ⊢; cases h2; exact ⟨d', rfl, h4⟩
    · rw [if_neg hf] at h2 ⊢; exact takeAll_mono h4 h2

/-- The funds suffice for all of these, one after the other. -/
def Funded : Bals → List (Tx × ExecRes) → Prop
  | _, [] => True
  | b, e :: l => ∃ c, spendTx b e.1 e.2 = some c ∧ Funded c l

theorem Funded.sublist {l l' : List (Tx × ExecRes)} (hs : l'.Sublist l) : ∀ {b b' : Bals}, BLe b b' → Funded b l → Funded b' l' := by
  induction hs with
  | slnil => intro _ _ _ _; trivial
  | cons e _ ih =>
    intro b b' hl h
    obtain ⟨c, h1, h2⟩ := h
    exact ih ((spendTx_le h1).trans hl) h2
  | cons_cons e _ ih =>
    intro b b' hl h
    obtain ⟨c, h1, h2⟩ := h
    obtain ⟨c', h3, h4⟩ := spendTx_mono hl h1
    exact ⟨c', h3, ih h4 h2⟩

/-! ### The selection -/

section Choose
variable {p : Params} {lim : Limits}

theorem choose_sub : ∀ (l : List (Tx × ExecRes)) (b : Bals) (s c : Nat), (choose p lim b s c l).Sublist l
  | [], _, _, _ => .slnil
  | (tx, r) :: l, b, s, c => by
    unfold choose
    split
    · exact (choose_sub l _ _ _).cons _
    · split
      · exact (choose_sub l _ _ _).cons _
      · exact (choose_sub l _ _ _).cons_cons _

theorem choose_funded : ∀ (l : List (Tx × ExecRes)) (b : Bals) (s c : Nat), Funded b (choose p lim b s c l)
  | [], _, _, _ => trivial
  | (tx, r) :: l, b, s, c => by
    unfold choose
    split
    · exact choose_funded l _ _ _
    · split
      · exact choose_funded l _ _ _
      · next h => exact ⟨_, h, choose_funded l _ _ _⟩

def sizeOf' (p : Params) (l : List (Tx × ExecRes)) : Nat := (l.map fun e => (e.1.produced p e.2).staticCost).sum
def costOf (l : List (Tx × ExecRes)) : Nat := (l.map fun e => e.2.cost).sum

theorem choose_limits : ∀ (l : List (Tx × ExecRes)) (b : Bals) (s c : Nat), s ≤ lim.maxSize → c ≤ lim.maxCost →
    s + sizeOf' p (choose p lim b s c l) ≤ lim.maxSize ∧ c + costOf (choose p lim b s c l) ≤ lim.maxCost
  | [], _, _, _, hs, hc => ⟨hs, hc⟩
  | (tx, r) :: l, b, s, c, hs, hc => by
    unfold choose
    split
    · exact choose_limits l _ _ _ hs hc
    · next h =>
      split
      · exact choose_limits l _ _ _ hs hc
      · next b' _ =>
        have h1 : s + (tx.produced p r).staticCost ≤ lim.maxSize := Nat.not_lt.1 fun x => h (.inl x)
        have h2 : c + r.cost ≤ lim.maxCost := Nat.not_lt.1 fun x => h (.inr x)
        have := choose_limits l b' (s + (tx.produced p r).staticCost) (c + r.cost) h1 h2
        simp only [sizeOf', costOf, List.map_cons, List.sum_cons] at this ⊢
        omega

theorem choose_all : ∀ (l : List (Tx × ExecRes)) (b : Bals) (s c : Nat), s + sizeOf' p l ≤ lim.maxSize → c + costOf l ≤ lim.maxCost → Funded b l →
    choose p lim b s c l = l
  | [], _, _, _, _, _, _ => rfl
  | (tx, r) :: l, b, s, c, hs, hc, hf => by
    obtain ⟨b', h1, h2⟩ := hf
    simp only [sizeOf', costOf, List.map_cons, List.sum_cons] at hs hc
    unfold choose
    rw [if_neg (by omega), show spendTx b tx r = some b' from h1]
    dsimp only
    rw [choose_all l b' _ _ (by unfold sizeOf'; omega) (by unfold costOf; omega) h2]

theorem bandLoop_map (ratios : List Nat) : ∀ (l : List (Tx × ExecRes)) (avail : Nat → Nat) (i : Nat),
    (bandLoop p ratios l avail i).map (bandOf p) = selectLoop ratios (l.map (bandOf p)) avail i
  | [], _, _ => rfl
  | e :: l, avail, i => by
    unfold bandLoop
    rw [List.map_cons]
    unfold selectLoop
    dsimp only
    split
    · split
      · rw [List.map_cons, bandLoop_map]
      · exact bandLoop_map _ _ _ _
    · rw [List.map_cons, bandLoop_map]

theorem bandLoop_sub (ratios : List Nat) : ∀ (l : List (Tx × ExecRes)) (avail : Nat → Nat) (i : Nat), (bandLoop p ratios l avail i).Sublist l
  | [], _, _ => .slnil
  | e :: l, avail, i => by
    unfold bandLoop
    dsimp only
    split
    · split
      · exact (bandLoop_sub _ _ _ _).cons_cons _
      · exact (bandLoop_sub _ _ _ _).cons _
    · exact (bandLoop_sub _ _ _ _).cons_cons _

theorem bandPick_map (l : List (Tx × ExecRes)) : (bandPick p lim l).map (bandOf p) = selectBands lim.maxSize lim.ratios (l.map (bandOf p)) := by
  unfold bandPick selectBands
  split
  · rfl
  · exact bandLoop_map _ _ _ _

theorem bandPick_sub (l : List (Tx × ExecRes)) : (bandPick p lim l).Sublist l := by
  unfold bandPick
  split
  · exact List.Sublist.refl _
  · exact bandLoop_sub _ _ _ _

end Choose

theorem selectCost_sub (m : Nat) : ∀ (n : Nat) (l : List Entry), (selectCost m n l).Sublist l
  | _, [] => .slnil
  | n, e :: l => by
    unfold selectCost
    split
    · exact (selectCost_sub m _ l).cons_cons _
    · exact (selectCost_sub m _ l).cons _

theorem selectCost_all (m : Nat) : ∀ (n : Nat) (l : List Entry), n + (l.map (·.cost)).sum ≤ m → selectCost m n l = l
  | _, [], _ => rfl
  | n, e :: l, h => by
    simp only [List.map_cons, List.sum_cons] at h
    unfold selectCost
    rw [if_pos (by omega), selectCost_all m _ l (by omega)]

theorem accepted_sub : ∀ (l : List Tx) (vs : List Verdict), ((accepted l vs).map (·.1)).Sublist l
  | [], vs => by cases vs <;> exact .slnil
  | tx :: l, [] => List.nil_sublist _
  | tx :: l, .accept r wr :: vs => (accepted_sub l vs).cons_cons _
  | tx :: l, .reject :: vs => (accepted_sub l vs).cons _

theorem accepted_mem {w : World} : ∀ {l : List Tx} {g : Sto} {tx : Tx} {r : ExecRes}, (tx, r) ∈ accepted l (seqRun w g l).2 →
    tx ∈ l ∧ ∃ g' wr, (validate w tx).run g' = .accept r wr
  | [], g, tx, r, h => by cases h
  | t :: l, g, tx, r, h => by
    unfold seqRun at h
    dsimp only at h
    cases hv : (validate w t).run g with
    | reject =>
      rw [hv] at h
      obtain ⟨h1, h2⟩ := accepted_mem h
      exact ⟨List.mem_cons_of_mem _ h1, h2⟩
    | accept r' wr =>
      rw [hv] at h
      rcases List.mem_cons.1 h with e | h
      · cases e; exact ⟨List.mem_cons_self .., g, wr, hv⟩
      · obtain ⟨h1, h2⟩ := accepted_mem h
        exact ⟨List.mem_cons_of_mem _ h1, h2⟩

/-! ### Preparing -/

variable {depends : Addr → Option (List Addr)}

theorem prepAll_sub : ∀ {l : List Tx} {x y : Ctx} {r : List Tx}, prepAll depends x l = .ok (y, r) → r.Sublist l
  | [], x, y, r, h => by cases h; exact .slnil
  | tx :: l, x, y, r, h => by
    unfold prepAll at h
    split at h
    · split at h
      · next e => cases h; exact (prepAll_sub e).cons_cons _
      · cases h
      · cases h
    · exact (prepAll_sub h).cons _
    · cases h

theorem prepAll_sound : ∀ {l : List Tx} {x y : Ctx} {r : List Tx} {pre : List (Tx × List Addr)}, prepAll depends x l = .ok (y, r) →
    (l.map (·.id)).Nodup → Sound depends x pre → (∀ e ∈ pre, ∀ t ∈ l, e.1.id ≠ t.id) → ∃ more, more.map (·.1) = r ∧ Sound depends y (pre ++ more)
  | [], x, y, r, pre, h, _, hs, _ => by cases h; exact ⟨[], rfl, by rw [List.append_nil]; exact hs⟩
  | tx :: l, x, y, r, pre, h, hn, hs, hd => by
    rw [List.map_cons, List.nodup_cons] at hn
    unfold prepAll at h
    split at h
    · next x' hp =>
      split at h
      · next z r' e =>
        cases h
        obtain ⟨set, h1⟩ := hs.prepare (fun e he => hd e he tx (List.mem_cons_self ..)) hp
        obtain ⟨more, h2, h3⟩ := prepAll_sound e hn.2 h1 (by
          intro e he t ht
          rcases List.mem_append.1 he with he | he
          · exact hd e he t (List.mem_cons_of_mem _ ht)
          · rw [List.mem_singleton.1 he]
            exact fun x => hn.1 (x ▸ List.mem_map.2 ⟨t, ht, rfl⟩))
        exact ⟨(tx, set) :: more, by rw [List.map_cons, h2], by simpa using h3⟩
      · cases h
      · cases h
    · exact prepAll_sound h hn.2 hs fun e he t ht => hd e he t (List.mem_cons_of_mem _ ht)
    · cases h

/-- What a prepared transaction locks. -/
theorem Sound.locks {x : Ctx} {pre : List (Tx × List Addr)} (h : Sound depends x pre) {tx : Tx} (ht : tx ∈ pre.map (·.1)) :
    ∃ set, mutateSet depends tx = .ok set ∧ ∀ c, tx.id ∈ x.mutate c ↔ c ∈ set := by
  obtain ⟨e, he, rfl⟩ := List.mem_map.1 ht
  obtain ⟨set, h1, h2⟩ := h.sets e he
  refine ⟨set, h1, fun c => ?_⟩
  rw [h.mutate, ← h2]
  constructor
  · intro hm
    obtain ⟨e', he', hid⟩ := List.mem_map.1 hm
    obtain ⟨k1, k2⟩ := List.mem_filter.1 he'
    obtain ⟨i, hi⟩ := List.getElem?_of_mem k1
    obtain ⟨j, hj⟩ := List.getElem?_of_mem he
    have := map_inj h.nodup hi hj hid
    subst this
    rw [hi] at hj; cases hj
    simpa using k2
  · intro hc
    exact List.mem_map.2 ⟨e, List.mem_filter.2 ⟨he, by simpa using hc⟩, rfl⟩

theorem prepare_of_set {x : Ctx} {tx : Tx} {set : List Addr} (h : mutateSet depends tx = .ok set) : ∃ y, x.prepare depends tx = .ok y := by
  unfold Ctx.prepare
  rw [h]
  exact ⟨_, rfl⟩

theorem mutateSet_produced (p : Params) (tx : Tx) (r : ExecRes) : mutateSet depends (tx.produced p r) = mutateSet depends tx := rfl

/-- The first loop of the validation of a block made of these passes. -/
theorem checkFunds_intro {p : Params} : ∀ {l : List (Tx × ExecRes)} {b : Bals} {x : Ctx} {seen : List Addr}, Funded b l → (l.map fun e => e.1.id).Nodup →
    (∀ e ∈ l, e.1.id ∉ seen) → (∀ e ∈ l, ∃ set, mutateSet depends e.1 = .ok set) →
    ∃ y, checkFunds depends b x seen (l.map fun e => e.1.produced p e.2) = .ok y
  | [], b, x, seen, _, _, _, _ => ⟨x, rfl⟩
  | (tx, r) :: l, b, x, seen, hf, hn, hs, hm => by
    obtain ⟨c, h1, h2⟩ := hf
    obtain ⟨set, h3⟩ := hm _ (List.mem_cons_self ..)
    obtain ⟨y, h4⟩ := prepare_of_set (x := x) h3
    rw [List.map_cons, List.nodup_cons] at hn
    obtain ⟨z, h5⟩ := checkFunds_intro (x := y) (seen := tx.id :: seen) h2 hn.2 (fun e he => by
      rw [List.mem_cons, not_or]
      exact ⟨fun e' => hn.1 (e' ▸ List.mem_map.2 ⟨e, he, rfl⟩), hs e (List.mem_cons_of_mem _ he)⟩) fun e he => hm e (List.mem_cons_of_mem _ he)
    refine ⟨z, ?_⟩
    rw [List.map_cons]
    unfold checkFunds
    unfold spendTx at h1
    cases hsd : tx.sender with
    | none => rw [show (tx, r).1.sender = tx.sender from rfl, hsd] at h1; cases h1
    | some a =>
      rw [show (tx, r).1.sender = tx.sender from rfl, hsd] at h1
      obtain ⟨d, k1, k2⟩ := Option.bind_eq_some_iff.1 h1
      show (match tx.sender, some r with | some a, some r => _ | _, _ => _) = _
      rw [hsd]
      dsimp only
      have hni : (tx.produced p r).id ∉ seen := hs _ (List.mem_cons_self ..)
      rw [if_neg hni, show take b a 0 r.fee = some d from k1]
      dsimp only
      have k2 : (if r.didFail then some d else takeAll d tx.inputs) = some c := k2
      show (match (if r.didFail then some d else takeAll d tx.inputs) with | none => _ | some b => _) = _
      rw [k2]
      dsimp only
      rw [show x.prepare depends (tx.produced p r) = .ok y from h4]
      exact h5

/-! ### Running it again -/

/-- The maximum fee pays for the cost, and the transaction did not fail for its fee. -/
def PaidFor (tx : Tx) (r : ExecRes) : Prop := (r.didFail = false → r.cost * tx.feeRatio ≤ tx.maxFee * 1024) ∧ r.error ≠ some ⟨5, -1, -1⟩

theorem Locked.produced {w : World} {tx : Tx} (h : Locked w tx) (p : Params) (r : ExecRes) : Locked w (tx.produced p r) := ⟨h.ops, h.deploy⟩

/-- What was left out before `u` wrote nothing that `u` can see. -/
def LeftOut (w : World) (inc : List Addr) : Sto → List Tx → Prop
  | _, [] => True
  | g, t :: l => (t.id ∉ inc → ((validate w t).run g).writes = [] ∨ ∀ u ∈ l, u.id ∈ inc → ∀ c, ¬ (w.mayRun t.id c ∧ w.mayRun u.id c)) ∧
      LeftOut w inc (g.puts ((validate w t).run g).writes) l

theorem rerun_all {w w2 : World} (hw : CheapReads w) : ∀ (ran : List Tx) (inc : List (Tx × ExecRes)) (g g2 : Sto),
    inc.Sublist (accepted ran (seqRun w g ran).2) → (ran.map (·.id)).Nodup → (∀ t ∈ ran, Locked w t ∧ t.result = none ∧ t.Typed) →
    (∀ e ∈ inc, PaidFor e.1 e.2 ∧ validate w2 (e.1.produced w.params e.2) = validate w (e.1.produced w.params e.2)) →
    LeftOut w (inc.map fun e => e.1.id) g ran → (∀ e ∈ inc, ∀ c, w.mayRun e.1.id c → At c g g2) →
    ∀ v ∈ (seqRun w2 g2 (inc.map fun e => e.1.produced w.params e.2)).2, v ≠ .reject
  | [], inc, g, g2, hi, _, _, _, _, _ => by
    have : inc = [] := List.sublist_nil.1 hi
    subst this
    intro v hv; cases hv
  | t :: l, inc, g, g2, hi, hn, hl, hp, ho, ha => by
    rw [List.map_cons, List.nodup_cons] at hn
    unfold seqRun at hi
    dsimp only at hi
    obtain ⟨ho1, ho2⟩ := ho
    obtain ⟨t1, t2, t3⟩ := hl t (List.mem_cons_self ..)
    have hl' : ∀ u ∈ l, Locked w u ∧ u.result = none ∧ u.Typed := fun u hu => hl u (List.mem_cons_of_mem _ hu)
    have hin := (validate_loc t1).result g
    -- what happens when `t` is left out
    have drop : inc.Sublist (accepted l (seqRun w (g.puts ((validate w t).run g).writes) l).2) →
        ∀ v ∈ (seqRun w2 g2 (inc.map fun e => e.1.produced w.params e.2)).2, v ≠ .reject := by
      intro hi
      have hids : ∀ e ∈ inc, e.1 ∈ l := fun e he => ((hi.map (·.1)).trans (accepted_sub _ _)).subset (List.mem_map.2 ⟨e, he, rfl⟩)
      have hnot : t.id ∉ inc.map fun e => e.1.id := by
        intro hm
        obtain ⟨e, he, hid⟩ := List.mem_map.1 hm
        exact hn.1 (List.mem_map.2 ⟨e.1, hids e he, hid⟩)
      refine rerun_all hw l inc _ g2 hi hn.2 hl' hp ho2 fun e he c hc => ?_
      refine At.trans (puts_other _ _ ?_) (ha e he c hc)
      intro a haw
      rcases ho1 hnot with h0 | h0
      · rw [h0] at haw; cases haw
      · intro hac
        have hm := hin.writes a haw
        rw [hac] at hm
        exact h0 e.1 (hids e he) (List.mem_map.2 ⟨e, he, rfl⟩) c ⟨hm, hc⟩
    cases hv : (validate w t).run g with
    | reject =>
      rw [hv] at hi drop
      exact drop hi
    | accept r wr =>
      rw [hv] at hi
      rcases List.sublist_cons_iff.1 hi with hi' | ⟨inc', rfl, hi'⟩
      · rw [hv] at drop; exact drop hi'
      · have hids : ∀ e ∈ inc', e.1 ∈ l := fun e he => ((hi'.map (·.1)).trans (accepted_sub _ _)).subset (List.mem_map.2 ⟨e, he, rfl⟩)
        obtain ⟨p1, p2⟩ := hp _ (List.mem_cons_self ..)
        have e1 : (validate w2 (t.produced w.params r)).run g2 = .accept r wr := by
          have := C55_partial hv t2 hw t3 p1.1 p1.2
          rw [← this]
          show (validate w2 (t.produced w.params r)).run g2 = _
          rw [show validate w2 (t.produced w.params r) = validate w (t.produced w.params r) from p2]
          exact ((validate_loc (t1.produced w.params r)).run fun c hc => ha _ (List.mem_cons_self ..) c hc).symm
        intro v hvm
        rw [List.map_cons] at hvm
        unfold seqRun at hvm
        dsimp only at hvm
        rw [e1] at hvm
        rcases List.mem_cons.1 hvm with rfl | hvm
        · exact (nomatch ·)
        · rw [hv] at ho2
          refine rerun_all hw l inc' _ _ hi' hn.2 hl' (fun e he => hp e (List.mem_cons_of_mem _ he)) ?_
            (fun e he c hc => puts_at _ (ha e (List.mem_cons_of_mem _ he) c hc)) v hvm
          -- `t` is none of the rest
          have key : ∀ (l' : List Tx) (h : Sto), (∀ u ∈ l', u.id ≠ t.id) → LeftOut w (((t, r) :: inc').map fun e => e.1.id) h l' → LeftOut w (inc'.map fun e => e.1.id) h l' := by
            intro l'
            induction l' with
            | nil => intro h _ _; trivial
            | cons u l' ih =>
              intro h hne ho
              refine ⟨fun hu => ?_, ih _ (fun v hv => hne v (List.mem_cons_of_mem _ hv)) ho.2⟩
              have hut : u.id ∉ ((t, r) :: inc').map fun e => e.1.id := by
                rw [List.map_cons, List.mem_cons, not_or]
                exact ⟨hne u (List.mem_cons_self ..), hu⟩
              rcases ho.1 hut with h0 | h0
              · exact .inl h0
              · exact .inr fun z hz hzi => h0 z hz (by rw [List.map_cons]; exact List.mem_cons_of_mem _ hzi)
          exact key l _ (fun u hu e => hn.1 (e ▸ List.mem_map.2 ⟨u, hu, rfl⟩)) ho2


/-! ### The size of a result -/

theorem produced_size {w : World} {g : Sto} {tx : Tx} {r : ExecRes} {wr : Option Writes} (h : (validate w tx).run g = .accept r wr)
    (hn : tx.result = none) (hw : CheapReads w) (ht : tx.Typed) : (tx.produced w.params r).staticCost ≤ w.params.maxTxCost := by
  obtain ⟨lim, sf, a, b, avail, s, o, t, fee, ex, ins, outs, hP, hb, hc, hm, _⟩ := validate_accept h
  have hav : avail < 2 ^ 32 := by have := hP.avail_lt; have := hP.feeMax; omega
  have hlim : lim ≤ avail := by rw [hP.lim_eq]; exact Nat.min_le_left _ _
  have hsc : tx.staticCost = tx.base := by have := hP.cost; unfold Tx.calcCost at this; rw [hn] at this; exact this
  have scost : s.cost = tx.staticCost := by rw [hP.state]; rfl
  have hs32 : tx.staticCost < 2 ^ 32 := ht.static
  have hmax := hP.costMax
  show tx.base + ioCost w.params r.inputs r.outputs ≤ _
  by_cases hex : ex = none
  · rcases hc with ⟨e, rfl, hc⟩ | ⟨rfl, hc⟩
    · obtain ⟨total, a', b1, c1, c2, c3, c4, c5, c6⟩ := charge_some hc
      rcases c6 with ⟨x, _⟩ | ⟨_, x⟩
      · cases x
      · rw [hex] at x; cases x
    · unfold body at hb
      obtain ⟨_, u, hcore, hfin⟩ := bind_okR.1 hb
      rcases finish_run hfin with x | ⟨_, e, x⟩ | ⟨l, f1, f2, f3, f4, f5, f6⟩
      · cases x
      · cases x
      have step := core_pr hw (by omega) hP.avail_eq hlim g s _ u hcore (by rw [scost]; omega)
      cases f2
      rw [hn, if_pos (by rfl)] at f6
      have eo : u.outs ++ depositOuts (netSpend u.spend u.dep).2 ++ l = r.outputs := allSame_out (hm.outputs hex)
      have eio : ioCost w.params (netSpend u.spend u.dep).1 (u.outs ++ depositOuts (netSpend u.spend u.dep).2 ++ l) = ioCost w.params r.inputs r.outputs := by
        rw [eo]; exact ioCost_same (hm.inputs hex) _
      rw [eio] at f6
      have q := step.1.1
      omega
  · obtain ⟨i1, i2⟩ := hm.failed hex
    rw [i1, i2]
    have : ioCost w.params [] [] = 0 := rfl
    omega

/-! ### Leaving out skipped transactions -/

theorem filter_index {α : Type} (p : α → Bool) : ∀ l : List α, ∃ f : Nat → Nat, (∀ i j, i < j → f i < f j) ∧ ∀ i a, (l.filter p)[i]? = some a → l[f i]? = some a
  | [] => ⟨id, fun _ _ h => h, fun i a h => by simp at h⟩
  | x :: l => by
    obtain ⟨f, h1, h2⟩ := filter_index p l
    by_cases hp : p x = true
    · refine ⟨fun i => match i with | 0 => 0 | i + 1 => f i + 1, ?_, ?_⟩
      · intro i j hij
        cases j with
        | zero => omega
        | succ j =>
          cases i with
          | zero => exact Nat.succ_pos _
          | succ i => exact Nat.succ_lt_succ (h1 i j (by omega))
      · intro i a hi
        rw [List.filter_cons_of_pos hp] at hi
        cases i with
        | zero => simpa using hi
        | succ i =>
          rw [List.getElem?_cons_succ] at hi
          show (x :: l)[f i + 1]? = _
          rw [List.getElem?_cons_succ]
          exact h2 i a hi
    · refine ⟨fun i => f i + 1, fun i j hij => Nat.succ_lt_succ (h1 i j hij), ?_⟩
      intro i a hi
      rw [List.filter_cons_of_neg hp] at hi
      rw [List.getElem?_cons_succ]
      exact h2 i a hi

/-- When none of the remaining ones waits for one that was skipped, the locks of the remaining ones are
    held in order. -/
theorem Ready.filter {x : Ctx} {txs : List Tx} (h : Ready x txs) (keep : Tx → Bool)
    (hk : ∀ t ∈ txs, keep t = true → ∀ u ∈ txs, u.id ∈ x.wait t.id → keep u = true) : Ready x (txs.filter keep) := by
  obtain ⟨f, f1, f2⟩ := filter_index keep txs
  have hle : ∀ i j, f i ≤ f j → i ≤ j := fun i j hij => Nat.not_lt.1 fun hlt => by have := f1 j i hlt; omega
  have back : ∀ (k : Nat) (u : Tx), txs[k]? = some u → keep u = true → ∃ i, f i = k ∧ (txs.filter keep)[i]? = some u := by
    intro k u hu hku
    obtain ⟨i, hi⟩ := List.getElem?_of_mem (List.mem_filter.2 ⟨List.mem_of_getElem? hu, hku⟩)
    exact ⟨i, map_inj h.nodup (f2 i u hi) hu rfl, hi⟩
  have sub : ∀ t ∈ txs.filter keep, t ∈ txs := fun t ht => (List.mem_filter.1 ht).1
  refine ⟨(List.filter_sublist.map _).nodup h.nodup, fun t ht => h.ops t (sub t ht), fun t ht => h.deploy t (sub t ht), ?_, ?_⟩
  · rintro i j c tx hij ⟨t, hi, hti⟩ hj htj
    obtain ⟨p, b, k1, k2, ⟨b', k3, k3'⟩, k4, k5⟩ := h.order (f i) (f j) c tx (f1 i j hij) ⟨t, f2 i t hi, hti⟩ (f2 j tx hj) htj
    rw [k4] at k3; cases k3
    have hkb : keep b = true := hk tx (List.mem_of_getElem? (f2 j tx hj)) (List.mem_filter.1 (List.mem_of_getElem? hj)).2 b (List.mem_of_getElem? k4) k5
    obtain ⟨q, q1, q2⟩ := back p b k4 hkb
    exact ⟨q, b, hle i q (by omega), Nat.not_le.1 fun hle' => by
      rcases Nat.lt_or_eq_of_le hle' with z | z
      · have := f1 _ _ z; omega
      · rw [z] at k2; omega, ⟨b, q2, k3'⟩, q2, k5⟩
  · intro j tx q hj hq
    obtain ⟨p, t, k1, k2, k3⟩ := h.back (f j) tx q (f2 j tx hj) hq
    have hkt : keep t = true := hk tx (List.mem_of_getElem? (f2 j tx hj)) (List.mem_filter.1 (List.mem_of_getElem? hj)).2 t (List.mem_of_getElem? k2) (by rw [k3]; exact hq)
    obtain ⟨i, i1, i2⟩ := back p t k2 hkt
    exact ⟨i, t, Nat.not_le.1 fun hle' => by
      rcases Nat.lt_or_eq_of_le hle' with z | z
      · have := f1 _ _ z; omega
      · rw [z] at k1; omega, i2, k3⟩

theorem fresh_id (p : Params) (tx : Tx) : (tx.fresh p).id = tx.id := by unfold Tx.fresh; split <;> rfl
theorem fresh_ratio (p : Params) (tx : Tx) : (tx.fresh p).feeRatio = tx.feeRatio := by unfold Tx.fresh; split <;> rfl
theorem fresh_result (p : Params) (tx : Tx) : (tx.fresh p).result = none := by
  unfold Tx.fresh
  split
  · next h => exact h
  · rfl

theorem runnable_ok {w : World} {lim : Limits} {late : Tx → Bool} {pool : List Entry} {x : Ctx} {ran : List Tx} (h : runnable depends w lim late pool = .ok (x, ran)) :
    ∃ txs, prepAll depends Ctx.empty ((selectCost lim.maxCost 0 pool).map fun e => e.tx.fresh w.params) = .ok (x, txs) ∧ ran = txs.filter fun t => !late t := by
  unfold runnable at h
  split at h
  · next x' txs e => cases h; exact ⟨txs, e, rfl⟩
  · cases h
  · cases h

theorem runnable_sub {w : World} {lim : Limits} {late : Tx → Bool} {pool : List Entry} {x : Ctx} {ran : List Tx} (h : runnable depends w lim late pool = .ok (x, ran)) :
    ran.Sublist (pool.map fun e => e.tx.fresh w.params) := by
  obtain ⟨txs, h1, rfl⟩ := runnable_ok h
  exact List.filter_sublist.trans ((prepAll_sub h1).trans ((selectCost_sub _ _ _).map _))

theorem prep_ready {x : Ctx} {l txs : List Tx} (h : prepAll depends Ctx.empty l = .ok (x, txs)) (hn : (l.map (·.id)).Nodup) : Ready x txs := by
  obtain ⟨more, h1, h2⟩ := prepAll_sound h hn (Sound.empty _) (fun _ h => nomatch h)
  have := h2.ready
  rw [List.nil_append, h1] at this
  exact this

end Verif.Ledger
