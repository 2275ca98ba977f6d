import Verif.Wallet.CompleteLemmas
import Verif.Wallet.PendingLemmas
/-
  `complete` followed by `update_from`.
-/
namespace Verif.Wallet
open Verif

theorem Runs.balOk {E w u p} (h : Runs E w u p) (hb : w.BalOk) : u.BalOk := by
  obtain ⟨_, hbal, _⟩ := h.same
  exact ⟨by rw [hbal]; exact hb.keys, by rw [hbal]; exact hb.bound⟩

theorem Runs.bal {E w u p} (h : Runs E w u p) (k : Key) : u.bal k = w.bal k := by
  unfold W.bal; rw [h.same.2.1]

theorem Runs.total {E w u p} (h : Runs E w u p) (c : Addr) : u.total c = w.total c := by
  unfold W.total; rw [h.same.2.1]

/-- A completed transaction was funded and then signed. -/
theorem complete_ok {E : Env} (hsrt : SortOk E.srt) {w : W} (hk : KInv E w) (hn : w.num ≠ 0) (hb : w.BalOk)
    {o : Opts} {dep : List (Addr × Nat)} {tx tx' : Tx} (hf : Fits tx dep) (hs : tx.solutions.length + w.num ≤ 65535)
    (h : (w.complete E o dep tx).2 = .ok tx') :
    ∃ u p t take st, Runs E w u p ∧ (w.isLocked = true → o.passphrase = some p) ∧
      (w.complete E o dep tx).1 = (if w.isLocked then u.lock else w) ∧
      Funding E u o dep (setup E u o tx) t take ∧ Signed E u.addresses o t tx' st := by
  rcases complete_cases hk hn o dep tx with ⟨_, _, hc⟩ | ⟨u, p, hr, hp, hc⟩
  · rw [hc] at h; cases h
  · rw [hc] at h
    dsimp only at h
    unfold inner at h
    obtain ⟨t, ht, hsb⟩ := Res.bind_eq_ok.1 h
    obtain ⟨take, hfun⟩ := fund_ok hsrt (hr.balOk hb) (tx := setup E u o tx) hf ht
    have hlen : t.solutions.length + u.num ≤ 65535 := by
      rw [hfun.rest.2.2.2.2.2.2.2.2.2.2.1, hr.same.1]; exact hs
    obtain ⟨st, hsig⟩ := (signBody_spec hr.num hr.keys hr.addrs hr.km hlen).1 tx' hsb
    exact ⟨u, p, t, take, st, hr, hp, by rw [hc], hfun, hsig⟩

theorem Signed.drawn {E own o t tx' st} (h : Signed E own o t tx' st) (k : Key) : drawn tx'.inputs k = drawn t.inputs k := by
  unfold Wallet.drawn
  rw [h.ins.map_eq (f := fun i : TxIn => if (i.address, i.contract) = k then i.amount else 0) (by
    intro a b hab
    obtain ⟨h1, h2, h3, _⟩ := hab.same
    rw [h1, h2, h3])]

theorem Signed.inSum {E own o t tx' st} (h : Signed E own o t tx' st) (c : Addr) : inSum tx'.inputs c = inSum t.inputs c := by
  unfold Wallet.inSum
  rw [h.ins.map_eq (f := fun i : TxIn => if i.contract = c then i.amount else 0) (by
    intro a b hab
    obtain ⟨h1, h2, h3, _⟩ := hab.same
    rw [h2, h3])]

theorem le_drawn {ins : List TxIn} {i : TxIn} (h : i ∈ ins) : i.amount ≤ drawn ins (i.address, i.contract) := by
  induction ins with
  | nil => cases h
  | cons x l ih =>
    rw [drawn_cons]
    rcases List.mem_cons.1 h with rfl | h
    · simp
    · have := ih h; omega

theorem drawn_grown {l m : List TxIn} (h : Pointwise Grown l m) (k : Key) : drawn l k ≤ drawn m k := by
  induction h with
  | nil => exact Nat.le_refl _
  | cons hab _ ih =>
    obtain ⟨x, rfl⟩ := hab
    rw [drawn_cons, drawn_cons]
    dsimp only
    split <;> omega

/-! ### balances after a transaction -/

structure Pay0 (w w' : W) (own : Key → Nat) : Prop where
  bal : ∀ k, at0 w'.balance k = at0 w.balance k - own k
  ok : MapOk w'.balance
  same : w'.index = w.index ∧ w'.num = w.num ∧ w'.keypairs = w.keypairs ∧ w'.kmap = w.kmap ∧
    w'.addresses = w.addresses ∧ w'.withPass = w.withPass ∧ w'.finger = w.finger

theorem spend_pay0 {w : W} (h : MapOk w.balance) (id : Nat) (k : Key) (x : Nat) :
    Pay0 w (w.spend id k x) (fun k' => if k = k' then x else 0) := by
  refine ⟨fun k' => ?_, mapOk_subBal h k x, rfl, rfl, rfl, rfl, rfl, rfl, rfl⟩
  unfold W.spend
  dsimp only
  rw [at0_subBal h]
  by_cases hk : k' = k
  · subst hk; simp
  · rw [if_neg hk, if_neg (Ne.symm hk)]; rfl

theorem Pay0.trans {w w' w'' : W} {f g : Key → Nat} (h : Pay0 w w' f) (h' : Pay0 w' w'' g) :
    Pay0 w w'' (fun k => f k + g k) := by
  obtain ⟨a1, a2, a3, a4, a5, a6, a7⟩ := h.same
  obtain ⟨b1, b2, b3, b4, b5, b6, b7⟩ := h'.same
  refine ⟨fun k => ?_, h'.ok, by rw [b1, a1], by rw [b2, a2], by rw [b3, a3], by rw [b4, a4], by rw [b5, a5],
    by rw [b6, a6], by rw [b7, a7]⟩
  rw [h'.bal, h.bal]; omega

theorem fold_spend0 {mine : Addr → Bool} (ins : List TxIn) (id : Nat) : ∀ w : W, MapOk w.balance → (∀ a, w.owns a = mine a) →
    Pay0 w (ins.foldl (fun (u : W) i => if u.owns i.address then u.spend id (i.address, i.contract) i.amount else u) w)
      (drawn (ins.filter fun i => mine i.address)) := by
  induction ins with
  | nil => intro w h1 _; exact ⟨fun _ => rfl, h1, rfl, rfl, rfl, rfl, rfl, rfl, rfl⟩
  | cons i ins ih =>
    intro w h1 hm
    rw [List.foldl_cons]
    by_cases ho : mine i.address = true
    · rw [if_pos (by rw [hm]; exact ho), List.filter_cons_of_pos (by simpa using ho)]
      have p := spend_pay0 h1 id (i.address, i.contract) i.amount
      have q := p.trans (ih _ p.ok (by intro a; rw [← hm a]; unfold W.owns; rw [p.same.1]))
      have hfun : (fun k => (if (i.address, i.contract) = k then i.amount else 0)
          + drawn (ins.filter fun i => mine i.address) k) = drawn (i :: ins.filter fun i => mine i.address) := by
        funext k; rw [drawn_cons]
      rw [hfun] at q
      exact q
    · rw [if_neg (by rw [hm]; exact ho), List.filter_cons_of_neg (by simpa using ho)]
      exact ih w h1 hm

theorem updateFrom_pay0 {w w' : W} {tx : Tx} (h1 : MapOk w.balance) (hp : (w.pendingTx.find tx.id).isSome = false)
    (h : w.updateFrom tx = .ok w') : ∃ own, Pay0 w w' own ∧ ∀ k, drawn (tx.inputs.filter fun i => w.owns i.address) k ≤ own k := by
  unfold W.updateFrom at h
  rw [hp] at h
  simp only [Bool.false_eq_true, if_false] at h
  obtain ⟨w1, hw1, h⟩ := Res.bind_eq_ok.1 h
  cases h
  cases hs : tx.sender with
  | none =>
    rw [hs] at hw1
    cases hw1
    have p := fold_spend0 (mine := w.owns) tx.inputs tx.id w h1 (fun _ => rfl)
    exact ⟨_, ⟨p.bal, p.ok, p.same⟩, fun _ => Nat.le_refl _⟩
  | some s =>
    rw [hs] at hw1
    dsimp only at hw1
    obtain ⟨fee, hfee, hw1⟩ := Res.bind_eq_ok.1 hw1
    cases hw1
    have q := spend_pay0 h1 tx.id (s, 0) fee
    have p := q.trans (fold_spend0 (mine := w.owns) tx.inputs tx.id _ q.ok
      (by intro a; unfold W.owns; rw [q.same.1]))
    exact ⟨_, ⟨p.bal, p.ok, p.same⟩, fun k => Nat.le_add_left _ _⟩

theorem drawn_filter {mine : Addr → Bool} (ins : List TxIn) {k : Key} (h : mine k.1 = true) :
    drawn (ins.filter fun i => mine i.address) k = drawn ins k := by
  induction ins with
  | nil => rfl
  | cons i ins ih =>
    by_cases ho : mine i.address = true
    · rw [List.filter_cons_of_pos (by simpa using ho), drawn_cons, drawn_cons, ih]
    · rw [List.filter_cons_of_neg (by simpa using ho), drawn_cons, ih, if_neg]
      · omega
      · intro he; rw [← he] at h; exact ho h

theorem KInv.congr {E : Env} {w w' : W} (h : KInv E w) (h1 : w'.num = w.num) (h2 : w'.keypairs = w.keypairs)
    (h3 : w'.kmap = w.kmap) (h4 : w'.addresses = w.addresses) : KInv E w' := by
  unfold KInv at *
  rw [h1, h2, h3, h4]
  exact h

/-- Everything the wallet needs for a row of sends. -/
structure Ready (E : Env) (w : W) : Prop where
  kinv : KInv E w
  num : w.num ≠ 0
  bal : w.BalOk
  mine : ∀ k, w.bal k ≠ 0 → w.owns k.1 = true

theorem mapOk_balOk {w : W} : MapOk w.balance ↔ w.BalOk := ⟨fun h => ⟨h.1, h.2⟩, fun h => ⟨h.keys, h.bound⟩⟩

theorem Ready.lock {E w u p} (h : Ready E w) (hr : Runs E w u p) :
    Ready E (if w.isLocked then u.lock else w) ∧
    (∀ k, (if w.isLocked then u.lock else w).bal k = w.bal k) := by
  cases hl : w.isLocked with
  | false => exact ⟨by simpa using h, fun k => rfl⟩
  | true =>
    simp only [if_true]
    obtain ⟨hnum, hbal, _⟩ := hr.same
    have hb : ∀ k, u.lock.bal k = w.bal k := fun k => by unfold W.bal W.lock; dsimp only; rw [hbal]
    refine ⟨⟨.inl ⟨rfl, rfl⟩, ?_, ?_, ?_⟩, hb⟩
    · show u.num ≠ 0; rw [hnum]; exact h.num
    · exact mapOk_balOk.1 (by show MapOk u.balance; rw [hbal]; exact mapOk_balOk.2 h.bal)
    · intro k hk
      rw [hb] at hk
      have := h.mine k hk
      show u.owns k.1 = true
      rcases hr.how with ⟨hl', _⟩ | ⟨_, _, hkm, hu⟩
      · rw [hl] at hl'; cases hl'
      · obtain ⟨_, _, hc⟩ := unlock_spec hkm hu
        rcases hc with ⟨_, rfl⟩ | ⟨_, _, _, _, hidx, _⟩
        · exact this
        · unfold W.owns at *
          rw [hidx]
          exact (putAll_find _ _ _).2.2 _ this

theorem Ready.updateFrom {E w w'} {tx : Tx} (h : Ready E w) (hu : w.updateFrom tx = .ok w') :
    Ready E w' ∧ ∀ k, w'.bal k ≤ w.bal k := by
  by_cases hp : (w.pendingTx.find tx.id).isSome = true
  · unfold W.updateFrom at hu
    rw [if_pos hp] at hu
    cases hu
    exact ⟨h, fun _ => Nat.le_refl _⟩
  · obtain ⟨own, p, _⟩ := updateFrom_pay0 (mapOk_balOk.2 h.bal) (by simpa using hp) hu
    obtain ⟨s1, s2, s3, s4, s5, s6, s7⟩ := p.same
    have hle : ∀ k, w'.bal k ≤ w.bal k := by
      intro k
      have := p.bal k
      unfold at0 at this
      unfold W.bal
      omega
    refine ⟨⟨h.kinv.congr s2 s3 s4 s5, by rw [s2]; exact h.num, mapOk_balOk.1 p.ok, ?_⟩, hle⟩
    intro k hk
    have := hle k
    have := h.mine k (by omega)
    unfold W.owns at *
    rw [s1]; exact this

end Verif.Wallet
