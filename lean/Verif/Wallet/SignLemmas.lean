import Verif.Wallet.FundLemmas2
/-
  Lemmas about the keys and the signatures of the wallet.
-/
namespace Verif.Wallet
open Verif

/-- `sol` is the signature over `msg` by a key of address `owner`. -/
def SolFor (E : Env) (msg : Nat) (owner : Addr) (sol : Sol) : Prop :=
  ∃ sk, sol = ⟨E.pub sk, E.sign sk msg⟩ ∧ E.addrOf (E.pub sk) = owner

/-- The addresses of a passphrase. -/
def Env.addrs (E : Env) (pass num : Nat) : List Addr := (E.keys pass num).map fun k => E.addrOf k.2

/-- `keypair_map` finds every address at its position. -/
structure KM (m : AMap Addr Nat) (as : List Addr) : Prop where
  pos : ∀ a i, m.find a = some i → as[i]? = some a
  all : ∀ a ∈ as, (m.find a).isSome = true

/-- States of the keys: none in memory, or exactly those of some passphrase. -/
def KInv (E : Env) (w : W) : Prop :=
  (w.keypairs = [] ∧ w.kmap = []) ∨
  ∃ p, w.num ≠ 0 ∧ w.keypairs = E.keys p w.num ∧ w.addresses = E.addrs p w.num ∧ KM w.kmap w.addresses

theorem putAll_find (as : List Addr) :
    ∀ (m : AMap Addr Nat) (n : Nat),
      (∀ a i, (putAll m as n).find a = some i → (∃ j, as[j]? = some a ∧ i = n + j) ∨ (a ∉ as ∧ m.find a = some i)) ∧
      (∀ a ∈ as, ((putAll m as n).find a).isSome = true) ∧
      (∀ a, (m.find a).isSome = true → ((putAll m as n).find a).isSome = true) := by
  induction as with
  | nil => intro m n; exact ⟨fun a i h => .inr ⟨by simp, h⟩, by simp, fun a h => h⟩
  | cons x as ih =>
    intro m n
    obtain ⟨h1, h2, h3⟩ := ih (m.put addrLt x n) (n + 1)
    have hm : ∀ a, (m.find a).isSome = true → ((AMap.put addrLt m x n).find a).isSome = true := by
      intro a ha
      rw [AMap.find_put]; split
      · rfl
      · exact ha
    refine ⟨?_, ?_, fun a ha => h3 a (hm a ha)⟩
    · intro a i h
      unfold putAll at h
      rcases h1 a i h with ⟨j, hj, rfl⟩ | ⟨hn, hf⟩
      · exact .inl ⟨j + 1, by simpa using hj, by omega⟩
      · rw [AMap.find_put] at hf
        split at hf
        · rename_i hax
          simp only [Option.some.injEq] at hf
          exact .inl ⟨0, by simp [hax], by omega⟩
        · rename_i hax
          exact .inr ⟨by simp [hax, hn], hf⟩
    · intro a ha
      rcases List.mem_cons.1 ha with rfl | ha
      · exact h3 a (by rw [AMap.find_put]; simp)
      · exact h2 a ha

theorem KM_putAll {m : AMap Addr Nat} {as : List Addr} (h : m = [] ∨ KM m as) : KM (putAll m as 0) as := by
  obtain ⟨h1, h2, h3⟩ := putAll_find as m 0
  refine ⟨fun a i hi => ?_, h2⟩
  rcases h1 a i hi with ⟨j, hj, rfl⟩ | ⟨hn, hf⟩
  · simpa using hj
  · rcases h with rfl | h
    · simp [AMap.find] at hf
    · exact h.pos a i hf

theorem keys_length (E : Env) (p n : Nat) : (E.keys p n).length = n := by simp [Env.keys]
theorem addrs_length (E : Env) (p n : Nat) : (E.addrs p n).length = n := by simp [Env.addrs, keys_length]

theorem unlocked_of_keys {E : Env} {w : W} {p : Nat} (hn : w.num ≠ 0) (hk : w.keypairs = E.keys p w.num)
    (ha : w.addresses = E.addrs p w.num) : w.isLocked = false := by
  unfold W.isLocked
  rw [hk, ha, keys_length, addrs_length]
  have : E.addrs p w.num ≠ [] := by
    intro h
    have := congrArg List.length h
    rw [addrs_length] at this
    exact hn this
  cases h : E.addrs p w.num with
  | nil => exact absurd h this
  | cons _ _ => simp

theorem locked_of_nil {w : W} (h : w.keypairs = []) : w.isLocked = true := by
  unfold W.isLocked
  rw [h]
  cases w.addresses <;> simp

theorem KInv.locked {E : Env} {w : W} (h : KInv E w) (hl : w.isLocked = true) : w.keypairs = [] ∧ w.kmap = [] := by
  rcases h with h | ⟨p, hn, hk, ha, _⟩
  · exact h
  · rw [unlocked_of_keys hn hk ha] at hl; cases hl

theorem KInv.unlocked {E : Env} {w : W} (h : KInv E w) (hl : w.isLocked = false) :
    ∃ p, w.num ≠ 0 ∧ w.keypairs = E.keys p w.num ∧ w.addresses = E.addrs p w.num ∧ KM w.kmap w.addresses := by
  rcases h with h | h
  · rw [locked_of_nil h.1] at hl; cases hl
  · exact h

theorem lock_locked (w : W) : w.lock.isLocked = true := locked_of_nil rfl

/-- What a successful unlock of a locked wallet gives. -/
theorem unlock_spec {E : Env} {w u : W} {p : Nat} (hk : w.kmap = []) (h : w.unlock E p = some u) :
    (w.withPass = true → E.finger p = w.finger) ∧
    (w.addresses ≠ [] → w.num ≠ 0 → (E.addrs p w.num).head? = w.addresses.head?) ∧
    ((w.num = 0 ∧ u = w) ∨
     (w.num ≠ 0 ∧ u.keypairs = E.keys p w.num ∧ u.addresses = E.addrs p w.num ∧ KM u.kmap u.addresses ∧
      u.index = putAll w.index u.addresses 0 ∧ u.num = w.num ∧ u.balance = w.balance ∧ u.height = w.height ∧
      u.withPass = w.withPass ∧ u.finger = w.finger ∧ u.defaultExpire = w.defaultExpire ∧
      u.reserved = w.reserved ∧ u.pendingTx = w.pendingTx ∧ u.pendingMap = w.pendingMap)) := by
  unfold W.unlock at h
  split at h
  · cases h
  · rename_i h1
    refine ⟨fun hp => by
      rcases Decidable.em (E.finger p = w.finger) with h | h
      · exact h
      · exact absurd ⟨hp, h⟩ h1, ?_⟩
    split at h
    · rename_i h0
      simp only [Option.some.injEq] at h
      exact ⟨fun _ hn => absurd h0 hn, .inl ⟨h0, h.symm⟩⟩
    · rename_i h0
      dsimp only at h
      split at h
      · cases h
      · rename_i h2
        simp only [Option.some.injEq] at h
        subst h
        refine ⟨fun ha _ => ?_, .inr ⟨h0, rfl, rfl, ?_, rfl, rfl, rfl, rfl, rfl, rfl, rfl, rfl, rfl, rfl⟩⟩
        · rcases Decidable.em ((E.addrs p w.num).head? = w.addresses.head?) with h | h
          · exact h
          · exact absurd ⟨ha, h⟩ h2
        · exact KM_putAll (.inl hk)

/-! ### signatures -/

/-- `l` without repetitions inside `m` is not longer. -/
theorem nodup_length_le {l m : List Nat} (hn : l.Nodup) (hs : ∀ a ∈ l, a ∈ m) : l.length ≤ m.length := by
  induction l generalizing m with
  | nil => simp
  | cons a l ih =>
    rw [List.nodup_cons] at hn
    have := ih hn.2 (m := m.erase a) (fun b hb => by
      rw [List.mem_erase_of_ne]
      · exact hs b (List.mem_cons_of_mem _ hb)
      · rintro rfl; exact hn.1 hb)
    have ha := hs a List.mem_cons_self
    rw [List.length_erase_of_mem ha] at this
    have : 0 < m.length := List.length_pos_of_mem ha
    simp only [List.length_cons]
    omega

/-- State of the signing loop: which owner has signed at which index. -/
structure SInv (E : Env) (own : List Addr) (msg n0 : Nat) (st : List Sol × AMap Addr Nat) : Prop where
  ok : AMap.Ok st.2
  len : st.1.length = n0 + st.2.length
  made : ∀ a j, st.2.find a = some j → n0 ≤ j ∧ a ∈ own ∧ ∃ sol, st.1[j]? = some sol ∧ SolFor E msg a sol
  only : ∀ j sol, n0 ≤ j → st.1[j]? = some sol → ∃ a, st.2.find a = some j

theorem SInv.bound {E own msg n0 st} (h : SInv E own msg n0 st) : st.2.length ≤ own.length := by
  have := nodup_length_le h.ok (m := own) (by
    intro a ha
    obtain ⟨e, he, rfl⟩ := List.mem_map.1 ha
    exact (h.made e.1 e.2 (AMap.mem_find h.ok he)).2.1)
  simpa using this

theorem SInv.index {E own msg n0 st} (h : SInv E own msg n0 st) {a : Addr} {j : Nat} (hj : st.2.find a = some j) :
    j < n0 + own.length := by
  obtain ⟨_, _, sol, hs, _⟩ := h.made a j hj
  have := (List.getElem?_eq_some_iff.1 hs).1
  have := h.len
  have := h.bound
  omega

theorem length_ins {α β : Type} (lt : α → α → Bool) (m : AMap α β) (k : α) (v : β) :
    (AMap.ins lt m k v).length = m.length + 1 := by
  induction m with
  | nil => rfl
  | cons e m ih =>
    unfold AMap.ins
    split
    · simp
    · simp [ih]

theorem signEx_spec {E : Env} {w : W} {p : Nat} (hn : w.num ≠ 0) (hk : w.keypairs = E.keys p w.num)
    (ha : w.addresses = E.addrs p w.num) (hm : KM w.kmap w.addresses) {msg n0 : Nat} {owner : Addr}
    {st : List Sol × AMap Addr Nat} (hi : SInv E w.addresses msg n0 st) (hb : n0 + w.num ≤ 65535) :
    ∃ r st', signEx E w msg owner st = .ok (r, st') ∧ SInv E w.addresses msg n0 st' ∧
      (∃ l, st'.1 = st.1 ++ l) ∧
      (∀ a j, st.2.find a = some j → st'.2.find a = some j) ∧
      (∀ a j, st'.2.find a = some j → st.2.find a = some j ∨ (a = owner ∧ j = r)) ∧
      (owner ∈ w.addresses → st'.2.find owner = some r) ∧
      (owner ∉ w.addresses → r = noSolution ∧ st' = st) := by
  have hlen : w.addresses.length = w.num := by rw [ha, addrs_length]
  unfold signEx
  cases hf : st.2.find owner with
  | some i =>
    have hlt := hi.index hf
    rw [hlen] at hlt
    have hmod : i % 65536 = i := Nat.mod_eq_of_lt (by omega)
    refine ⟨i, st, by simp [hmod], hi, ⟨[], by simp⟩, fun _ _ h => h, fun _ _ h => .inl h, fun _ => hf, ?_⟩
    intro hno
    exact absurd (hi.made owner i hf).2.1 hno
  | none =>
    dsimp only
    unfold W.signMsg
    rw [unlocked_of_keys hn hk ha]
    simp only [Bool.false_eq_true, if_false]
    cases hkm : w.kmap.find owner with
    | none =>
      refine ⟨noSolution, st, rfl, hi, ⟨[], by simp⟩, fun _ _ h => h, fun _ _ h => .inl h, fun ho => ?_, fun _ => ⟨rfl, rfl⟩⟩
      have := hm.all owner ho
      rw [hkm] at this
      cases this
    | some i =>
      have hpos := hm.pos owner i hkm
      have hmem : owner ∈ w.addresses := List.mem_of_getElem? hpos
      rw [ha] at hpos
      unfold Env.addrs at hpos
      rw [List.getElem?_map] at hpos
      rw [hk]
      cases hki : (E.keys p w.num)[i]? with
      | none => rw [hki] at hpos; cases hpos
      | some k =>
        rw [hki] at hpos
        simp only [Option.map_some, Option.some.injEq] at hpos
        have hpub : k.2 = E.pub k.1 := by
          unfold Env.keys at hki
          rw [List.getElem?_map] at hki
          cases hr : (List.range w.num)[i]? with
          | none => rw [hr] at hki; cases hki
          | some j =>
            rw [hr] at hki
            simp only [Option.map_some, Option.some.injEq] at hki
            subst hki; rfl
        have hl := hi.len
        have hbd := hi.bound
        have hlt : st.1.length < 65536 := by omega
        have hmod : st.1.length % 65536 = st.1.length := Nat.mod_eq_of_lt hlt
        have hfind : ∀ a, (AMap.put addrLt st.2 owner st.1.length).find a
            = if a = owner then some st.1.length else st.2.find a := AMap.find_put _ _ _ _
        refine ⟨st.1.length, (st.1 ++ [⟨k.2, E.sign k.1 msg⟩], st.2.put addrLt owner st.1.length), ?_, ?_, ⟨_, rfl⟩, ?_, ?_, ?_, ?_⟩
        · simp [Res.bind, hmod, hki]
        · refine ⟨AMap.ok_put _ hi.ok _ _, ?_, ?_, ?_⟩
          · simp only [List.length_append, List.length_cons, List.length_nil]
            have : (AMap.put addrLt st.2 owner st.1.length).length = st.2.length + 1 := by
              unfold AMap.put; rw [hf]; exact length_ins _ _ _ _
            rw [this]; omega
          · intro a j hj
            dsimp only at hj ⊢
            rw [hfind] at hj
            split at hj
            · rename_i hao
              subst hao
              simp only [Option.some.injEq] at hj
              subst hj
              refine ⟨by omega, hmem, ⟨k.2, E.sign k.1 msg⟩, by simp, k.1, by rw [← hpub], by rw [← hpub]; exact hpos⟩
            · obtain ⟨q1, q2, sol, q3, q4⟩ := hi.made a j hj
              refine ⟨q1, q2, sol, ?_, q4⟩
              rw [List.getElem?_append_left (List.getElem?_eq_some_iff.1 q3).1]
              exact q3
          · intro j sol hj hs
            dsimp only at hs ⊢
            rcases Nat.lt_trichotomy j st.1.length with hlt | heq | hgt
            · rw [List.getElem?_append_left hlt] at hs
              obtain ⟨a, hfa⟩ := hi.only j sol hj hs
              refine ⟨a, ?_⟩
              rw [hfind, if_neg, hfa]
              rintro rfl
              rw [hf] at hfa; cases hfa
            · exact ⟨owner, by rw [hfind, if_pos rfl, heq]⟩
            · rw [List.getElem?_eq_none (by simp; omega)] at hs; cases hs
        · intro a j hj
          dsimp only
          rw [hfind, if_neg, hj]
          rintro rfl
          rw [hf] at hj; cases hj
        · intro a j hj
          dsimp only at hj
          rw [hfind] at hj
          split at hj
          · simp only [Option.some.injEq] at hj
            exact .inr ⟨by assumption, hj.symm⟩
          · exact .inl hj
        · intro _
          dsimp only
          rw [hfind, if_pos rfl]
        · intro hno; exact absurd hmem hno

/-- An input before and after signing. -/
structure InSigned (E : Env) (own : List Addr) (o : Opts) (msg : Nat) (sols : List Sol) (i j : TxIn) : Prop where
  same : j.address = i.address ∧ j.contract = i.contract ∧ j.amount = i.amount ∧ j.memo = i.memo
  kept : i.solution ≠ noSolution → j = i
  flag : i.solution = noSolution → j.exec = (i.exec || (o.ownerMap.find i.address).isSome)
  mine : i.solution = noSolution → inOwner o i ∈ own →
    j.solution ≠ noSolution ∧ ∃ sol, sols[j.solution]? = some sol ∧ SolFor E msg (inOwner o i) sol
  other : i.solution = noSolution → inOwner o i ∉ own → j.solution = noSolution

/-- An operation before and after signing. -/
structure OpSigned (E : Env) (own : List Addr) (o : Opts) (msg : Nat) (sols : List Sol) (i j : Op) : Prop where
  same : j.address = i.address ∧ j.kind = i.kind
  kept : (i.solution ≠ noSolution ∨ opOwner o i = none) → j = i
  mine : ∀ a, i.solution = noSolution → opOwner o i = some a → a ∈ own →
    j.solution ≠ noSolution ∧ ∃ sol, sols[j.solution]? = some sol ∧ SolFor E msg a sol
  other : ∀ a, i.solution = noSolution → opOwner o i = some a → a ∉ own → j.solution = noSolution

theorem getElem?_append_of_some {α : Type} {l m : List α} {i : Nat} {x : α} (h : l[i]? = some x) :
    (l ++ m)[i]? = some x := by
  rw [List.getElem?_append_left (List.getElem?_eq_some_iff.1 h).1]; exact h

theorem InSigned.mono {E own o msg sols i j} (h : InSigned E own o msg sols i j) (l : List Sol) :
    InSigned E own o msg (sols ++ l) i j :=
  ⟨h.same, h.kept, h.flag, fun a b => by
    obtain ⟨q, sol, q1, q2⟩ := h.mine a b
    exact ⟨q, sol, getElem?_append_of_some q1, q2⟩, h.other⟩

theorem OpSigned.mono {E own o msg sols i j} (h : OpSigned E own o msg sols i j) (l : List Sol) :
    OpSigned E own o msg (sols ++ l) i j :=
  ⟨h.same, h.kept, fun a b c d => by
    obtain ⟨q, sol, q1, q2⟩ := h.mine a b c d
    exact ⟨q, sol, getElem?_append_of_some q1, q2⟩, h.other⟩

theorem signIns_spec {E : Env} {w : W} {p : Nat} (hn : w.num ≠ 0) (hk : w.keypairs = E.keys p w.num)
    (ha : w.addresses = E.addrs p w.num) (hm : KM w.kmap w.addresses) (o : Opts) {msg n0 : Nat}
    (hb : n0 + w.num ≤ 65535) (ins : List TxIn) :
    ∀ (st : List Sol × AMap Addr Nat), SInv E w.addresses msg n0 st →
      ∃ ins' st', signIns E w o msg ins st = .ok (ins', st') ∧ SInv E w.addresses msg n0 st' ∧
        (∃ l, st'.1 = st.1 ++ l) ∧
        Pointwise (InSigned E w.addresses o msg st'.1) ins ins' ∧
        (∀ a j, st'.2.find a = some j → st.2.find a = some j ∨
          ∃ i ∈ ins, ∃ i' ∈ ins', i.solution = noSolution ∧ a = inOwner o i' ∧ i'.solution = j) := by
  have hlen : w.addresses.length = w.num := by rw [ha, addrs_length]
  induction ins with
  | nil => intro st hi; exact ⟨[], st, rfl, hi, ⟨[], by simp⟩, .nil, fun a j h => .inl h⟩
  | cons i ins ih =>
    intro st hi
    unfold signIns
    by_cases h0 : i.solution ≠ noSolution
    · rw [if_pos h0]
      obtain ⟨ins', st', q1, q2, ⟨l, q3⟩, q4, q5⟩ := ih st hi
      rw [q1]
      refine ⟨i :: ins', st', rfl, q2, ⟨l, q3⟩, .cons ?_ q4, ?_⟩
      · exact ⟨⟨rfl, rfl, rfl, rfl⟩, fun _ => rfl, fun h => absurd h h0, fun h => absurd h h0, fun h => absurd h h0⟩
      · intro a j hj
        rcases q5 a j hj with h | ⟨x, hx, x', hx', r⟩
        · exact .inl h
        · exact .inr ⟨x, List.mem_cons_of_mem _ hx, x', List.mem_cons_of_mem _ hx', r⟩
    · rw [if_neg h0]
      have h0 : i.solution = noSolution := by
        rcases Decidable.em (i.solution = noSolution) with h | h
        · exact h
        · exact absurd h h0
      obtain ⟨r, st1, e1, e2, ⟨l1, e3⟩, e4, e5, e6, e7⟩ := signEx_spec hn hk ha hm (owner := inOwner o i) hi hb
      obtain ⟨ins', st', q1, q2, ⟨l, q3⟩, q4, q5⟩ := ih st1 e2
      rw [e1]
      simp only [Res.bind_ok]
      rw [q1]
      refine ⟨_ :: ins', st', rfl, q2, ⟨l1 ++ l, by rw [q3, e3, List.append_assoc]⟩, .cons ?_ q4, ?_⟩
      · refine ⟨⟨rfl, rfl, rfl, rfl⟩, fun h => absurd h0 h, fun _ => rfl, fun _ ho => ?_, fun _ ho => (e7 ho).1⟩
        have hf := e6 ho
        obtain ⟨_, _, sol, s1, s2⟩ := e2.made _ _ hf
        have := e2.index hf
        refine ⟨?_, sol, ?_, s2⟩
        · unfold noSolution; dsimp only; omega
        · rw [q3]; exact getElem?_append_of_some s1
      · intro a j hj
        rcases q5 a j hj with h | ⟨x, hx, x', hx', r'⟩
        · rcases e5 a j h with h | ⟨h1, h2⟩
          · exact .inl h
          · exact .inr ⟨i, List.mem_cons_self, _, List.mem_cons_self, h0, h1, h2.symm⟩
        · exact .inr ⟨x, List.mem_cons_of_mem _ hx, x', List.mem_cons_of_mem _ hx', r'⟩

theorem signOps_spec {E : Env} {w : W} {p : Nat} (hn : w.num ≠ 0) (hk : w.keypairs = E.keys p w.num)
    (ha : w.addresses = E.addrs p w.num) (hm : KM w.kmap w.addresses) (o : Opts) {msg n0 : Nat}
    (hb : n0 + w.num ≤ 65535) (ops : List Op) :
    ∀ (st : List Sol × AMap Addr Nat), SInv E w.addresses msg n0 st →
      ∃ ops' st', signOps E w o msg ops st = .ok (ops', st') ∧ SInv E w.addresses msg n0 st' ∧
        (∃ l, st'.1 = st.1 ++ l) ∧
        Pointwise (OpSigned E w.addresses o msg st'.1) ops ops' ∧
        (∀ a j, st'.2.find a = some j → st.2.find a = some j ∨
          ∃ i ∈ ops, ∃ i' ∈ ops', i.solution = noSolution ∧ opOwner o i' = some a ∧ i'.kind = i.kind ∧ i'.solution = j) := by
  have hlen : w.addresses.length = w.num := by rw [ha, addrs_length]
  induction ops with
  | nil => intro st hi; exact ⟨[], st, rfl, hi, ⟨[], by simp⟩, .nil, fun a j h => .inl h⟩
  | cons i ops ih =>
    intro st hi
    unfold signOps
    have skip : (i.solution ≠ noSolution ∨ opOwner o i = none) →
        ∃ ops' st', (signOps E w o msg ops st >>= fun r => pure (i :: r.1, r.2)) = .ok (ops', st') ∧
          SInv E w.addresses msg n0 st' ∧ (∃ l, st'.1 = st.1 ++ l) ∧
          Pointwise (OpSigned E w.addresses o msg st'.1) (i :: ops) ops' ∧
          (∀ a j, st'.2.find a = some j → st.2.find a = some j ∨
            ∃ x ∈ i :: ops, ∃ i' ∈ ops', x.solution = noSolution ∧ opOwner o i' = some a ∧ i'.kind = x.kind ∧ i'.solution = j) := by
      intro hskip
      obtain ⟨ops', st', q1, q2, ⟨l, q3⟩, q4, q5⟩ := ih st hi
      rw [q1]
      refine ⟨i :: ops', st', rfl, q2, ⟨l, q3⟩, .cons ⟨⟨rfl, rfl⟩, fun _ => rfl, fun a h1 h2 => ?_, fun a h1 h2 => ?_⟩ q4, ?_⟩
      · rcases hskip with h | h
        · exact absurd h1 h
        · rw [h2] at h; cases h
      · rcases hskip with h | h
        · exact absurd h1 h
        · rw [h2] at h; cases h
      · intro a j hj
        rcases q5 a j hj with h | ⟨x, hx, x', hx', r⟩
        · exact .inl h
        · exact .inr ⟨x, List.mem_cons_of_mem _ hx, x', List.mem_cons_of_mem _ hx', r⟩
    by_cases h0 : i.solution ≠ noSolution
    · rw [if_pos h0]; exact skip (.inl h0)
    · rw [if_neg h0]
      have h0 : i.solution = noSolution := by
        rcases Decidable.em (i.solution = noSolution) with h | h
        · exact h
        · exact absurd h h0
      cases hoo : opOwner o i with
      | none => exact skip (.inr hoo)
      | some own =>
        dsimp only
        obtain ⟨r, st1, e1, e2, ⟨l1, e3⟩, e4, e5, e6, e7⟩ := signEx_spec hn hk ha hm (owner := own) hi hb
        obtain ⟨ops', st', q1, q2, ⟨l, q3⟩, q4, q5⟩ := ih st1 e2
        rw [e1]
        simp only [Res.bind_ok]
        rw [q1]
        refine ⟨_ :: ops', st', rfl, q2, ⟨l1 ++ l, by rw [q3, e3, List.append_assoc]⟩, .cons ?_ q4, ?_⟩
        · refine ⟨⟨rfl, rfl⟩, fun h => ?_, fun a _ h2 ho => ?_, fun a _ h2 ho => ?_⟩
          · rcases h with h | h
            · exact absurd h0 h
            · rw [hoo] at h; cases h
          · rw [hoo] at h2; simp only [Option.some.injEq] at h2; subst h2
            have hf := e6 ho
            obtain ⟨_, _, sol, s1, s2⟩ := e2.made _ _ hf
            have := e2.index hf
            refine ⟨?_, sol, ?_, s2⟩
            · unfold noSolution; dsimp only; omega
            · rw [q3]; exact getElem?_append_of_some s1
          · rw [hoo] at h2; simp only [Option.some.injEq] at h2; subst h2
            exact (e7 ho).1
        · intro a j hj
          rcases q5 a j hj with h | ⟨x, hx, x', hx', r'⟩
          · rcases e5 a j h with h | ⟨h1, h2⟩
            · exact .inl h
            · exact .inr ⟨i, List.mem_cons_self, _, List.mem_cons_self, h0, (by rw [h1]; exact hoo), rfl, h2.symm⟩
          · exact .inr ⟨x, List.mem_cons_of_mem _ hx, x', List.mem_cons_of_mem _ hx', r'⟩

end Verif.Wallet
