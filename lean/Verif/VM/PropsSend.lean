import Verif.VM.MemLemmas
import Verif.VM.PropsGas
/-
  C19: what a contract sends never exceeds its balance. C20: a contract mints only its own token.
-/
namespace Verif.VM
open Verif.Codec (Bytes)

/-! ### Specification -/

/-- The total of currency `c` in a list of outputs. -/
def total (c : Bytes) : List TxOut → Nat
  | [] => 0
  | o :: l => (if o.currency = c then o.amount else 0) + total c l

/-- Books in order for currency `c`: as long as the machine has not asked for the balance nothing was
    sent; after that, what was sent and what is left make up an amount reported by the backend. -/
def Booked (e : Env) (c : Bytes) (s : Eng) : Prop :=
  match balGet s.bal c with
  | none => total c s.outputs = 0
  | some r => ∃ u, total c s.outputs + r = (e.storBal u c).getD 0

/-- An output of `send`. -/
structure SendOk (o : TxOut) : Prop where
  pos : 0 < o.amount
  small : o.amount < 2 ^ 128
  addr : o.address.length = 32
  cur : o.currency.length = 32
  memo : ∀ m, o.memo = some m → 0 < m.length ∧ m.length ≤ 64

/-- An output of `mint`. -/
structure MintOk (e : Env) (o : TxOut) : Prop where
  own : o.currency = e.contract
  pos : 0 < o.amount
  small : o.amount < 2 ^ 80
  addr : o.address.length = 32
  memo : ∀ m, o.memo = some m → 0 < m.length ∧ m.length ≤ 64

/-! ### Successful operations -/

/-- Like `Pres`, for successful outcomes only. -/
class PresOk (R : Eng → Eng → Prop) {α : Type} (m : EM α) : Prop where
  ok : ∀ {s t : Eng} {a : α}, m s = .ok a t → R s t

section
variable {R : Eng → Eng → Prop} {α β : Type}

instance (priority := low) presOk_of_pres {m : EM α} [h : Pres R m] : PresOk R m := ⟨fun k => h.ok k⟩

instance presOk_bind [p : Pre R] {m : EM α} {f : α → EM β} [hm : PresOk R m] [hf : ∀ a, PresOk R (f a)] :
    PresOk R (m >>= f) := by
  constructor
  intro s u b h
  obtain ⟨a, t, h1, h2⟩ := bind_ok_iff.1 h
  exact p.trans (hm.ok h1) ((hf a).ok h2)

end

macro "presok" : tactic => `(tactic| repeat first
  | exact inferInstance
  | (intro _)
  | (refine presOk_bind (hm := ?_) (hf := ?_))
  | split)

theorem balGet_balSet (l : List (Bytes × Nat)) (c d : Bytes) (v : Nat) :
    balGet (balSet l c v) d = if c = d then some v else balGet l d := by
  induction l with
  | nil => simp only [balSet, balGet]
  | cons p l ih =>
    obtain ⟨k, w⟩ := p
    unfold balSet
    by_cases h : k = c
    · subst h
      rw [if_pos rfl]
      simp only [balGet]
      by_cases hk : k = d
      · rw [if_pos hk, if_pos hk]
      · rw [if_neg hk, if_neg hk, if_neg hk]
    · rw [if_neg h]
      simp only [balGet]
      rw [ih]
      by_cases hk : k = d
      · subst hk
        rw [if_pos rfl, if_neg (fun e => h e.symm), if_pos rfl]
      · rw [if_neg hk, if_neg hk]

theorem total_append (c : Bytes) (l m : List TxOut) : total c (l ++ m) = total c l + total c m := by
  induction l with
  | nil => simp [total]
  | cons o l ih => simp only [List.cons_append, total, ih]; omega

/-- `getBalance`: the currency is the binary at the address, the amount is what the books say from
    now on, and memory, outputs and mints stay as they were after reading the currency. -/
theorem getBalance_ok {e : Env} {a : Nat} {s t : Eng} {cur : Bytes} {b : Nat}
    (h : getBalance e a s = .ok (cur, b) t) :
    cur.length = 32 ∧ peek t a = some (.bin cur) ∧ balGet t.bal cur = some b ∧
    t.outputs = s.outputs ∧ t.mints = s.mints ∧
    (t.bal = s.bal ∨ (balGet s.bal cur = none ∧ t.bal = balSet s.bal cur b ∧ ∃ u, b = (e.storBal u cur).getD 0)) := by
  unfold getBalance at h
  obtain ⟨x, s1, h1, h2⟩ := bind_ok_iff.1 h
  obtain ⟨y, s2, h3, h4⟩ := bind_ok_iff.1 h2
  obtain ⟨hx, rfl, rfl⟩ := toAddr_ok h3
  obtain ⟨z, s3, h5, h6⟩ := bind_ok_iff.1 h4
  obtain ⟨rfl, rfl⟩ := getsId_ok h5
  have q := (q_readBin e a).ok h1
  have hp := readBin_ok h1
  cases hb : balGet s1.bal x with
  | some n =>
    rw [hb] at h6
    obtain ⟨h7, rfl⟩ := pure_ok h6
    cases h7
    exact ⟨hx, hp, hb, q.outputs, q.mints, .inl q.bal⟩
  | none =>
    rw [hb] at h6
    obtain ⟨_, s4, h7, h8⟩ := bind_ok_iff.1 h6
    cases modify_ok h7
    obtain ⟨v, s5, h9, h10⟩ := bind_ok_iff.1 h8
    unfold storBalance at h9
    obtain ⟨_, s6, h11, h12⟩ := bind_ok_iff.1 h9
    cases modify_ok h11
    obtain ⟨_, s7, h13, h14⟩ := bind_ok_iff.1 h12
    obtain ⟨rfl, _⟩ := checkGas_ok h13
    obtain ⟨w, s8, h15, h16⟩ := bind_ok_iff.1 h14
    obtain ⟨rfl, rfl⟩ := getsId_ok h15
    obtain ⟨rfl, rfl⟩ := pure_ok h16
    obtain ⟨_, s9, h17, h18⟩ := bind_ok_iff.1 h10
    cases modify_ok h17
    obtain ⟨h19, rfl⟩ := pure_ok h18
    cases h19
    refine ⟨hx, hp, ?_, q.outputs, q.mints, .inr ⟨?_, ?_, ⟨_, rfl⟩⟩⟩
    · simp only; rw [balGet_balSet, if_pos rfl]
    · rw [← q.bal]; exact hb
    · simp only; rw [q.bal]

/-- The currency is the one in memory. -/
theorem getBalance_cur {e : Env} {a : Nat} {s t : Eng} {cur x : Bytes} {b : Nat} (hc : peek s a = some (.bin cur))
    (h : getBalance e a s = .ok (x, b) t) : x = cur := by
  unfold getBalance at h
  rw [bind_def, readBin_peek hc] at h
  obtain ⟨y, u, h9, h10⟩ := bind_ok_iff.1 h
  obtain ⟨_, rfl, rfl⟩ := toAddr_ok h9
  obtain ⟨z, u, h11, h12⟩ := bind_ok_iff.1 h10
  obtain ⟨rfl, rfl⟩ := getsId_ok h11
  cases hx : balGet s.bal cur with
  | some n => rw [hx] at h12; obtain ⟨h13, _⟩ := pure_ok h12; cases h13; rfl
  | none =>
    rw [hx] at h12
    obtain ⟨_, u, _, h14⟩ := bind_ok_iff.1 h12
    obtain ⟨_, u, _, h15⟩ := bind_ok_iff.1 h14
    obtain ⟨_, u, _, h16⟩ := bind_ok_iff.1 h15
    obtain ⟨h13, _⟩ := pure_ok h16; cases h13; rfl

/-- The relation behind C19. -/
def BookR (e : Env) (c : Bytes) (s t : Eng) : Prop := Booked e c s → Booked e c t

instance bookPre (e : Env) (c : Bytes) : Pre (BookR e c) where
  refl _ := id
  trans h k := fun x => k (h x)

theorem booked_of {e : Env} {c : Bytes} {s t : Eng} (h1 : t.bal = s.bal) (h2 : t.outputs = s.outputs) :
    BookR e c s t := by
  unfold BookR Booked
  rw [h1, h2]; exact id

instance (priority := low) book_of_quiet {e : Env} {c : Bytes} {α : Type} {m : EM α} [h : Pres Quiet m] :
    Pres (BookR e c) m := pres_mono (fun h => booked_of h.bal h.outputs) h

theorem getBalance_book {e : Env} {c : Bytes} {a : Nat} {s t : Eng} {r : Bytes × Nat}
    (h : getBalance e a s = .ok r t) : BookR e c s t := by
  obtain ⟨cur, b⟩ := r
  obtain ⟨_, _, _, h1, _, h2⟩ := getBalance_ok h
  rcases h2 with h2 | ⟨h2, h3, u, h4⟩
  · exact booked_of h2 h1
  · intro hs
    unfold Booked at hs ⊢
    rw [h3, h1, balGet_balSet]
    by_cases hc : cur = c
    · subst hc
      rw [if_pos rfl]
      rw [h2] at hs
      simp only at hs ⊢
      exact ⟨u, by omega⟩
    · rw [if_neg hc]; exact hs

instance b_getBalance (e : Env) (c : Bytes) (a : Nat) : PresOk (BookR e c) (getBalance e a) := ⟨getBalance_book⟩

/-- What a successful `send` does. -/
theorem opSend_ok {e : Env} {address amount currency memo : Nat} {s t : Eng}
    (h : opSend e address amount currency memo s = .ok () t) :
    (∃ s1, readUint e amount s = .ok 0 s1 ∧ s1 = t) ∨
    ∃ v cur b s1 s2 o, v ≠ 0 ∧ readUint e amount s = .ok v s1 ∧ getBalance e currency s1 = .ok (cur, b) s2 ∧
      v ≤ b ∧ t.bal = balSet s2.bal cur (b - v) ∧ t.outputs = s2.outputs ++ [o] ∧ t.mints = s2.mints ∧
      o.currency = cur ∧ o.amount = v ∧ currency ≠ 0 ∧ SendOk o := by
  unfold opSend at h
  obtain ⟨v, s1, h1, h2⟩ := bind_ok_iff.1 h
  by_cases hv : v = 0
  · rw [if_pos hv] at h2
    obtain ⟨_, rfl⟩ := pure_ok h2
    exact .inl ⟨s1, hv ▸ h1, rfl⟩
  · rw [if_neg hv] at h2
    right
    obtain ⟨_, u, h3, h4⟩ := bind_ok_iff.1 h2
    obtain ⟨hbig, rfl⟩ := need_ok h3
    obtain ⟨_, u, h5, h6⟩ := bind_ok_iff.1 h4
    obtain ⟨hc, rfl⟩ := need_ok h5
    obtain ⟨⟨cur, b⟩, s2, h7, h8⟩ := bind_ok_iff.1 h6
    obtain ⟨hl, hp, _, _, _, _⟩ := getBalance_ok h7
    obtain ⟨_, u, h9, h10⟩ := bind_ok_iff.1 h8
    obtain ⟨hle, rfl⟩ := need_ok h9
    obtain ⟨_, s3, h11, h12⟩ := bind_ok_iff.1 h10
    have e3 := modify_ok h11
    obtain ⟨xb, s4, h13, h14⟩ := bind_ok_iff.1 h12
    have hp3 : peek s3 currency = some (.bin cur) := by rw [← e3]; exact hp
    rw [readBin_peek hp3] at h13
    cases h13
    obtain ⟨x, u, h15, h16⟩ := bind_ok_iff.1 h14
    obtain ⟨_, rfl, rfl⟩ := toAddr_ok h15
    obtain ⟨yb, s5, h17, h18⟩ := bind_ok_iff.1 h16
    have q5 := (q_readBin e address).ok h17
    obtain ⟨y, u, h19, h20⟩ := bind_ok_iff.1 h18
    obtain ⟨hy, rfl, rfl⟩ := toAddr_ok h19
    obtain ⟨m, s6, h21, h22⟩ := bind_ok_iff.1 h20
    have q6 := (q_parseMemo e memo).ok h21
    have e7 := modify_ok h22
    have hm : ∀ m', m = some m' → 0 < m'.length ∧ m'.length ≤ 64 := by
      unfold parseMemo at h21
      obtain ⟨c, u, _, h23⟩ := bind_ok_iff.1 h21
      intro m' hm'
      subst hm'
      cases hcv : c.val <;> rw [hcv] at h23 <;> first | cases h23 | skip
      next bb =>
        obtain ⟨_, u, h24, h25⟩ := bind_ok_iff.1 h23
        obtain ⟨hn, rfl⟩ := need_ok h24
        obtain ⟨h26, _⟩ := pure_ok h25
        split at h26
        · next hne => cases h26; omega
        · cases h26
    refine ⟨v, cur, b, s1, s2, { currency := cur, address := yb, amount := v, memo := m }, hv, h1, h7, by omega,
      ?_, ?_, ?_, rfl, rfl, hc, ⟨by show 0 < v; omega, by show v < 2 ^ 128; omega, hy, hl, hm⟩⟩
    · rw [← e7]
      show s6.bal = _
      rw [q6.bal, q5.bal, ← e3]
    · rw [← e7]
      show s6.outputs ++ _ = _
      rw [q6.outputs, q5.outputs, ← e3]
    · rw [← e7]
      show s6.mints = _
      rw [q6.mints, q5.mints, ← e3]

theorem opSend_book {e : Env} {c : Bytes} {w x y z : Nat} {s t : Eng} (h : opSend e w x y z s = .ok () t) :
    BookR e c s t := by
  rcases opSend_ok h with ⟨s1, h1, rfl⟩ | ⟨v, cur, b, s1, s2, o, _, h1, h2, h3, h4, h5, _, h6, h7, _, _⟩
  · have q := (q_readUint e x).ok h1
    exact booked_of q.bal q.outputs
  · have q := (q_readUint e x).ok h1
    refine (bookPre e c).trans (booked_of q.bal q.outputs) ((bookPre e c).trans (getBalance_book h2) ?_)
    obtain ⟨_, _, hb, _, _, _⟩ := getBalance_ok h2
    intro hs
    unfold Booked at hs ⊢
    rw [h4, h5, balGet_balSet, total_append]
    by_cases hc : cur = c
    · subst hc
      rw [if_pos rfl]
      rw [hb] at hs
      obtain ⟨u, hu⟩ := hs
      refine ⟨u, ?_⟩
      simp only [total, h6, h7, if_true]
      omega
    · rw [if_neg hc]
      have h0 : total c [o] = 0 := by
        simp only [total, h6]
        rw [if_neg hc]
      rw [h0]; exact hs

instance b_opSend (e : Env) (c : Bytes) (w x y z : Nat) : PresOk (BookR e c) (opSend e w x y z) := ⟨opSend_book⟩

instance b_mints (e : Env) (c : Bytes) (f : Eng → List TxOut) :
    Pres (BookR e c) (modify fun s => { s with mints := f s }) := pres_modify fun _ => booked_of rfl rfl
instance b_frames (e : Env) (c : Bytes) (f : Eng → List Frame) :
    Pres (BookR e c) (modify fun s => { s with frames := f s }) := pres_modify fun _ => booked_of rfl rfl
instance b_setTop (e : Env) (c : Bytes) (f : Frame) : Pres (BookR e c) (modify (setTop f)) := by
  refine pres_modify fun s => ?_
  unfold setTop
  split <;> exact booked_of rfl rfl
instance b_jump (e : Env) (c : Bytes) (ip : Nat) : Pres (BookR e c) (jump ip) := by unfold jump; pres
instance b_advance (e : Env) (c : Bytes) : Pres (BookR e c) advance := by unfold advance; pres
instance b_opMint (e : Env) (c : Bytes) (x y z : Nat) : Pres (BookR e c) (opMint e x y z) := by unfold opMint; pres
instance b_opBalance (e : Env) (c : Bytes) (x y : Nat) : PresOk (BookR e c) (opBalance e x y) := by
  unfold opBalance; presok
instance b_opCall (e : Env) (c : Bytes) (x y : Nat) : Pres (BookR e c) (opCall x y) := by unfold opCall; pres
instance b_opRet (e : Env) (c : Bytes) : Pres (BookR e c) opRet := by unfold opRet; pres
instance b_opRcall (e : Env) (c : Bytes) (w x y z : Nat) : Pres (BookR e c) (opRcall e w x y z) := by
  unfold opRcall; pres
instance b_opJumpIf (e : Env) (c : Bytes) (i : Instr) (b : Bool) : Pres (BookR e c) (opJumpIf e i b) := by
  unfold opJumpIf; pres
instance b_execOp (e : Env) (c : Bytes) (i : Instr) : PresOk (BookR e c) (execOp e i) := by unfold execOp; presok
instance b_exec (e : Env) (c : Bytes) (i : Instr) : PresOk (BookR e c) (exec e i) := by unfold exec; presok

theorem steps_book {e : Env} {c : Bytes} {n : Nat} {s t : Eng} (h : Steps e n s t) : BookR e c s t := by
  induction h with
  | zero s => exact id
  | succ _ hs _ ih =>
    obtain ⟨f, l, i, _, _, h1, _⟩ := step_ok hs
    exact (bookPre e c).trans ((b_exec e c i).ok h1) ih

/-! ### C19 -/

/-- A machine that is about to run has sent nothing and knows no balances. -/
structure Fresh (s : Eng) : Prop where
  bal : s.bal = []
  outputs : s.outputs = []
  mints : s.mints = []

/-- C19, books: after any number of successful instructions of any program, for every currency, either
    nothing was sent, or what was sent and what is left add up exactly to a balance the backend
    reported for this contract. -/
theorem C19_sent_plus_left (e : Env) (n : Nat) (s t : Eng) (h0 : Fresh s) (h : Steps e n s t) (c : Bytes) :
    (total c t.outputs = 0 ∧ balGet t.bal c = none) ∨
    ∃ r u, balGet t.bal c = some r ∧ total c t.outputs + r = (e.storBal u c).getD 0 := by
  have hb : Booked e c s := by
    unfold Booked
    rw [h0.bal, h0.outputs]
    rfl
  have := steps_book (c := c) h hb
  unfold Booked at this
  cases hc : balGet t.bal c with
  | none => rw [hc] at this; exact .inl ⟨this, rfl⟩
  | some r => rw [hc] at this; obtain ⟨u, hu⟩ := this; exact .inr ⟨r, u, rfl, hu⟩

/-- C19, bound: when the balance of the contract is `B` during the execution, at most `B` is sent,
    over any number of sends. -/
theorem C19_sent_at_most_balance (e : Env) (n : Nat) (s t : Eng) (h0 : Fresh s) (h : Steps e n s t) (c : Bytes)
    (B : Nat) (hB : ∀ u, (e.storBal u c).getD 0 = B) : total c t.outputs ≤ B := by
  rcases C19_sent_plus_left e n s t h0 h c with ⟨h1, _⟩ | ⟨r, u, _, h1⟩
  · omega
  · rw [hB] at h1; omega

/-- C19, effect of SEND: with the amount `v` and the currency in memory, a successful send of a
    non-zero amount adds exactly one output with that currency and amount, was covered by the
    balance and takes the amount from it; a send of zero adds nothing. -/
theorem C19_send_effect (e : Env) (s t : Eng) (address amount currency memo v : Nat) (cur : Bytes)
    (ha : peek s amount = some (.uint v)) (hc : peek s currency = some (.bin cur))
    (h : opSend e address amount currency memo s = .ok () t) :
    (v = 0 → t.outputs = s.outputs ∧ t.bal = s.bal) ∧
    (v ≠ 0 → v < 2 ^ 128 ∧ ∃ o b, t.outputs = s.outputs ++ [o] ∧ o.currency = cur ∧ o.amount = v ∧ v ≤ b ∧
      balGet t.bal cur = some (b - v) ∧ (balGet s.bal cur = some b ∨
        balGet s.bal cur = none ∧ ∃ u, b = (e.storBal u cur).getD 0) ∧
      ∀ d, d ≠ cur → balGet t.bal d = balGet s.bal d) := by
  have hr : ∀ n s1, readUint e amount s = .ok n s1 → n = v ∧ s1 = s := by
    intro n s1 hx
    rw [readUint_peek ha] at hx
    cases hx; exact ⟨rfl, rfl⟩
  rcases opSend_ok h with ⟨s1, h1, rfl⟩ | ⟨w, cu, b, s1, s2, o, hw, h1, h2, h3, h4, h5, _, h6, h7, _, h8⟩
  · obtain ⟨rfl, rfl⟩ := hr _ _ h1
    exact ⟨fun _ => ⟨rfl, rfl⟩, fun hn => absurd rfl hn⟩
  · obtain ⟨rfl, rfl⟩ := hr _ _ h1
    obtain ⟨_, hp, hb, ho, _, hbal⟩ := getBalance_ok h2
    have hcu : cu = cur := getBalance_cur hc h2
    subst hcu
    refine ⟨fun h0 => absurd h0 hw, fun _ => ⟨h7 ▸ h8.small, o, b, by rw [h5, ho], h6, h7, h3, ?_, ?_, ?_⟩⟩
    · rw [h4, balGet_balSet, if_pos rfl]
    · rcases hbal with hbal | ⟨hn, _, u, hu⟩
      · left; rw [← hbal]; exact hb
      · exact .inr ⟨hn, u, hu⟩
    · intro d hd
      rw [h4, balGet_balSet, if_neg (fun e => hd e.symm)]
      rcases hbal with hbal | ⟨_, hset, _⟩
      · rw [hbal]
      · rw [hset, balGet_balSet, if_neg (fun e => hd e.symm)]

/-- C19, abort: an amount of `2^128` or more is never sent. -/
theorem C19_send_too_large (e : Env) (s t : Eng) (address amount currency memo v : Nat)
    (ha : peek s amount = some (.uint v)) (hv : 2 ^ 128 ≤ v) : opSend e address amount currency memo s ≠ .ok () t := by
  intro h
  have hr : ∀ n s1, readUint e amount s = .ok n s1 → n = v := by
    intro n s1 hx
    rw [readUint_peek ha] at hx
    cases hx; rfl
  rcases opSend_ok h with ⟨s1, h1, _⟩ | ⟨w, cu, b, s1, s2, o, _, h1, _, _, _, _, _, _, h7, _, h8⟩
  · have := hr _ _ h1; omega
  · have := hr _ _ h1; have := h8.small; omega

/-- C19, abort: an amount above what is left is never sent. -/
theorem C19_send_insufficient (e : Env) (s t : Eng) (address amount currency memo v r : Nat) (cur : Bytes)
    (ha : peek s amount = some (.uint v)) (hc : peek s currency = some (.bin cur))
    (hb : balGet s.bal cur = some r) (hv : r < v) : opSend e address amount currency memo s ≠ .ok () t := by
  intro h
  obtain ⟨_, o, b, _, _, _, h1, _, h2, _⟩ := (C19_send_effect e s t _ _ _ _ _ _ ha hc h).2 (by omega)
  rcases h2 with h2 | ⟨h2, _⟩
  · rw [hb] at h2; cases h2; omega
  · rw [hb] at h2; cases h2

/-- C19, display: BALANCE shows the program exactly what is left of that currency. -/
theorem C19_balance_shown (e : Env) (s t : Eng) (dst currency : Nat) (cur : Bytes)
    (hc : peek s currency = some (.bin cur)) (h : opBalance e dst currency s = .ok () t) :
    ∃ r, peek t dst = some (.uint r) ∧ balGet t.bal cur = some r ∧ t.outputs = s.outputs ∧
      (balGet s.bal cur = some r ∨ balGet s.bal cur = none ∧ ∃ u, r = (e.storBal u cur).getD 0) := by
  unfold opBalance at h
  obtain ⟨⟨x, b⟩, s1, h1, h2⟩ := bind_ok_iff.1 h
  cases getBalance_cur hc h1
  obtain ⟨hl, _, hb, ho, _, hbal⟩ := getBalance_ok h1
  have q := (q_writeVal e dst (.uint b)).ok h2
  refine ⟨b, writeVal_peek rfl h2, by rw [q.bal]; exact hb, by rw [q.outputs]; exact ho, ?_⟩
  rcases hbal with hbal | ⟨hn, _, u, hu⟩
  · left; rw [← hbal]; exact hb
  · exact .inr ⟨hn, u, hu⟩

/-! ### C20 -/

/-- Outputs and mints are well-formed. -/
def Formed (e : Env) (s : Eng) : Prop := (∀ o ∈ s.outputs, SendOk o) ∧ ∀ o ∈ s.mints, MintOk e o

def FormR (e : Env) (s t : Eng) : Prop := Formed e s → Formed e t

instance formPre (e : Env) : Pre (FormR e) where
  refl _ := id
  trans h k := fun x => k (h x)

theorem form_of {e : Env} {s t : Eng} (h1 : t.outputs = s.outputs) (h2 : t.mints = s.mints) : FormR e s t := by
  unfold FormR Formed
  rw [h1, h2]; exact id

instance (priority := low) form_of_quiet {e : Env} {α : Type} {m : EM α} [h : Pres Quiet m] : Pres (FormR e) m :=
  pres_mono (fun h => form_of h.outputs h.mints) h

theorem parseMemo_ok {e : Env} {a : Nat} {s t : Eng} {m : Option Bytes} (h : parseMemo e a s = .ok m t) :
    ∀ m', m = some m' → 0 < m'.length ∧ m'.length ≤ 64 := by
  unfold parseMemo at h
  obtain ⟨c, u, _, h2⟩ := bind_ok_iff.1 h
  intro m' hm'
  subst hm'
  cases hcv : c.val <;> rw [hcv] at h2 <;> first | cases h2 | skip
  next bb =>
    obtain ⟨_, u, h3, h4⟩ := bind_ok_iff.1 h2
    obtain ⟨hn, rfl⟩ := need_ok h3
    obtain ⟨h5, _⟩ := pure_ok h4
    split at h5
    · next hne => cases h5; omega
    · cases h5

/-- What a successful `mint` does. -/
theorem opMint_ok {e : Env} {address amount memo : Nat} {s t : Eng} (h : opMint e address amount memo s = .ok () t) :
    (∃ s1, readUint e amount s = .ok 0 s1 ∧ s1 = t) ∨
    ∃ v s1 o, v ≠ 0 ∧ readUint e amount s = .ok v s1 ∧ t.mints = s.mints ++ [o] ∧ t.outputs = s.outputs ∧
      o.amount = v ∧ MintOk e o := by
  unfold opMint at h
  obtain ⟨v, s1, h1, h2⟩ := bind_ok_iff.1 h
  have q1 := (q_readUint e amount).ok h1
  by_cases hv : v = 0
  · rw [if_pos hv] at h2
    obtain ⟨_, rfl⟩ := pure_ok h2
    exact .inl ⟨s1, hv ▸ h1, rfl⟩
  · rw [if_neg hv] at h2
    right
    obtain ⟨_, u, h3, h4⟩ := bind_ok_iff.1 h2
    obtain ⟨hbig, rfl⟩ := need_ok h3
    obtain ⟨yb, s5, h17, h18⟩ := bind_ok_iff.1 h4
    have q5 := (q_readBin e address).ok h17
    obtain ⟨y, u, h19, h20⟩ := bind_ok_iff.1 h18
    obtain ⟨hy, rfl, rfl⟩ := toAddr_ok h19
    obtain ⟨m, s6, h21, h22⟩ := bind_ok_iff.1 h20
    have q6 := (q_parseMemo e memo).ok h21
    have e7 := modify_ok h22
    refine ⟨v, s1, { currency := e.contract, address := yb, amount := v, memo := m }, hv, h1, ?_, ?_, rfl,
      ⟨rfl, by show 0 < v; omega, by show v < 2 ^ 80; omega, hy, parseMemo_ok h21⟩⟩
    · rw [← e7]
      show s6.mints ++ _ = _
      rw [q6.mints, q5.mints, q1.mints]
    · rw [← e7]
      show s6.outputs = _
      rw [q6.outputs, q5.outputs, q1.outputs]

theorem form_append_mint {e : Env} {s t : Eng} {o : TxOut} (h1 : t.mints = s.mints ++ [o]) (h2 : t.outputs = s.outputs)
    (h3 : MintOk e o) : FormR e s t := by
  intro hs
  unfold Formed at hs ⊢
  rw [h1, h2]
  refine ⟨hs.1, fun p hp => ?_⟩
  rcases List.mem_append.1 hp with hp | hp
  · exact hs.2 p hp
  · rw [List.mem_singleton.1 hp]; exact h3

instance f_opMint (e : Env) (x y z : Nat) : PresOk (FormR e) (opMint e x y z) := by
  constructor
  intro s t a h
  rcases opMint_ok h with ⟨s1, h1, rfl⟩ | ⟨v, s1, o, _, _, h2, h3, _, h4⟩
  · have q := (q_readUint e y).ok h1
    exact form_of q.outputs q.mints
  · exact form_append_mint h2 h3 h4

instance f_getBalance (e : Env) (a : Nat) : PresOk (FormR e) (getBalance e a) := by
  constructor
  intro s t r h
  obtain ⟨cur, b⟩ := r
  obtain ⟨_, _, _, h1, h2, _⟩ := getBalance_ok h
  exact form_of h1 h2

instance f_opSend (e : Env) (w x y z : Nat) : PresOk (FormR e) (opSend e w x y z) := by
  constructor
  intro s t a h
  rcases opSend_ok h with ⟨s1, h1, rfl⟩ | ⟨v, cur, b, s1, s2, o, _, h1, h2, _, _, h5, h6, _, _, _, h8⟩
  · have q := (q_readUint e x).ok h1
    exact form_of q.outputs q.mints
  · have q := (q_readUint e x).ok h1
    obtain ⟨_, _, _, g1, g2, _⟩ := getBalance_ok h2
    intro hs
    unfold Formed at hs ⊢
    rw [h5, h6, g1, g2, q.outputs, q.mints]
    refine ⟨fun p hp => ?_, hs.2⟩
    rcases List.mem_append.1 hp with hp | hp
    · exact hs.1 p hp
    · rw [List.mem_singleton.1 hp]; exact h8

instance f_frames (e : Env) (f : Eng → List Frame) : Pres (FormR e) (modify fun s => { s with frames := f s }) :=
  pres_modify fun _ => form_of rfl rfl
instance f_setTop (e : Env) (f : Frame) : Pres (FormR e) (modify (setTop f)) := by
  refine pres_modify fun s => ?_
  unfold setTop
  split <;> exact form_of rfl rfl
instance f_jump (e : Env) (ip : Nat) : Pres (FormR e) (jump ip) := by unfold jump; pres
instance f_advance (e : Env) : Pres (FormR e) advance := by unfold advance; pres
instance f_opBalance (e : Env) (x y : Nat) : PresOk (FormR e) (opBalance e x y) := by unfold opBalance; presok
instance f_opCall (e : Env) (x y : Nat) : Pres (FormR e) (opCall x y) := by unfold opCall; pres
instance f_opRet (e : Env) : Pres (FormR e) opRet := by unfold opRet; pres
instance f_opRcall (e : Env) (w x y z : Nat) : Pres (FormR e) (opRcall e w x y z) := by unfold opRcall; pres
instance f_opJumpIf (e : Env) (i : Instr) (b : Bool) : Pres (FormR e) (opJumpIf e i b) := by unfold opJumpIf; pres
instance f_execOp (e : Env) (i : Instr) : PresOk (FormR e) (execOp e i) := by unfold execOp; presok
instance f_exec (e : Env) (i : Instr) : PresOk (FormR e) (exec e i) := by unfold exec; presok

theorem steps_form {e : Env} {n : Nat} {s t : Eng} (h : Steps e n s t) : FormR e s t := by
  induction h with
  | zero s => exact id
  | succ _ hs _ ih =>
    obtain ⟨f, l, i, _, _, h1, _⟩ := step_ok hs
    exact (formPre e).trans ((f_exec e i).ok h1) ih

/-- C20: after any number of successful instructions of any program, every mint output carries the
    executing contract as its currency and an amount from 1 to `2^80 - 1`. -/
theorem C20_mints_own_token (e : Env) (n : Nat) (s t : Eng) (h0 : Fresh s) (h : Steps e n s t) (o : TxOut)
    (ho : o ∈ t.mints) : o.currency = e.contract ∧ 0 < o.amount ∧ o.amount < 2 ^ 80 ∧ o.address.length = 32 := by
  have hf : Formed e s := by
    unfold Formed
    rw [h0.outputs, h0.mints]
    exact ⟨fun _ h => (nomatch h), fun _ h => (nomatch h)⟩
  have m := (steps_form h hf).2 o ho
  exact ⟨m.own, m.pos, m.small, m.addr⟩

/-- Sent amounts are between 1 and `2^128 - 1`, memos have at most 64 bytes. -/
theorem C19_outputs_well_formed (e : Env) (n : Nat) (s t : Eng) (h0 : Fresh s) (h : Steps e n s t) (o : TxOut)
    (ho : o ∈ t.outputs) : 0 < o.amount ∧ o.amount < 2 ^ 128 ∧ o.address.length = 32 ∧
      ∀ m, o.memo = some m → m.length ≤ 64 := by
  have hf : Formed e s := by
    unfold Formed
    rw [h0.outputs, h0.mints]
    exact ⟨fun _ h => (nomatch h), fun _ h => (nomatch h)⟩
  have m := (steps_form h hf).1 o ho
  exact ⟨m.pos, m.small, m.addr, fun x hx => (m.memo x hx).2⟩

/-- C20, sole source: an instruction other than MINT (0xC2) leaves the mint outputs as they are. -/
theorem C20_only_mint_mints (e : Env) (i : Instr) (s t : Eng) (hi : i.code ≠ 0xC2) (h : exec e i s = .ok () t) :
    t.mints = s.mints := by
  let R : Eng → Eng → Prop := fun s t => t.mints = s.mints
  have p : Pre R := ⟨fun _ => rfl, fun h k => Eq.trans k h⟩
  have hq : ∀ {α : Type} {m : EM α}, Pres Quiet m → Pres R m := fun h => pres_mono (fun h => h.mints) h
  have i1 : ∀ {α : Type} {m : EM α} [Pres Quiet m], Pres R m := fun {_ _} {h} => hq h
  have i2 : ∀ f : Eng → List Frame, Pres R (modify fun s => { s with frames := f s }) := fun f => pres_modify fun _ => rfl
  have i3 : ∀ f : Frame, Pres R (modify (setTop f)) := by
    intro f
    refine pres_modify fun s => ?_
    show (setTop f s).mints = s.mints
    unfold setTop
    split <;> rfl
  have i4 : ∀ ip, Pres R (jump ip) := by intro ip; unfold jump; pres
  have i5 : Pres R advance := by unfold advance; pres
  have i6 : ∀ a, PresOk R (getBalance e a) := by
    intro a
    constructor
    intro s t r h
    obtain ⟨cur, b⟩ := r
    exact (getBalance_ok h).2.2.2.2.1
  have i7 : ∀ w x y z, PresOk R (opSend e w x y z) := by
    intro w x y z
    constructor
    intro s t a h
    rcases opSend_ok h with ⟨s1, h1, rfl⟩ | ⟨v, cur, b, s1, s2, o, _, h1, h2, _, _, _, h6, _, _, _, _⟩
    · exact ((q_readUint e x).ok h1).mints
    · exact h6.trans ((getBalance_ok h2).2.2.2.2.1.trans ((q_readUint e x).ok h1).mints)
  have i8 : ∀ x y, PresOk R (opBalance e x y) := by intro x y; unfold opBalance; presok
  have i9 : ∀ x y, Pres R (opCall x y) := by intro x y; unfold opCall; pres
  have i10 : Pres R opRet := by unfold opRet; pres
  have i11 : ∀ w x y z, Pres R (opRcall e w x y z) := by intro w x y z; unfold opRcall; pres
  have i12 : ∀ b, Pres R (opJumpIf e i b) := by intro b; unfold opJumpIf; pres
  have i13 : PresOk R (execOp e i) := by
    unfold execOp
    split
    all_goals first
      | (next hc => exact absurd hc hi)
      | presok
  have : PresOk R (exec e i) := by unfold exec; presok
  exact this.ok h

/-! ### From loading to the end -/

def FreshR (s t : Eng) : Prop := Fresh s → Fresh t

instance freshPre : Pre FreshR where
  refl _ := id
  trans h k := fun x => k (h x)

theorem fresh_of {s t : Eng} (h1 : t.bal = s.bal) (h2 : t.outputs = s.outputs) (h3 : t.mints = s.mints) : FreshR s t :=
  fun h => ⟨h1.trans h.bal, h2.trans h.outputs, h3.trans h.mints⟩

instance (priority := low) fresh_of_quiet {α : Type} {m : EM α} [h : Pres Quiet m] : Pres FreshR m :=
  pres_mono (fun h => fresh_of h.bal h.outputs h.mints) h

theorem initKeys_fresh (s : Eng) : FreshR s (initKeys s) := by
  unfold initKeys
  have key : ∀ (l : AMap Nat) (t : Eng), FreshR s t → FreshR s (l.foldl (fun t p => if (findKey t p.2.val).isSome then t
      else { t with keys := { cell := p.1, ver := p.2.ver, live := true, addr := p.1 } :: t.keys }) t) := by
    intro l
    induction l with
    | nil => intro t h; exact h
    | cons p l ih =>
      intro t h
      rw [List.foldl_cons]
      apply ih
      split
      · exact h
      · exact freshPre.trans h (fresh_of rfl rfl rfl)
  exact key _ s id

instance fr_init : Pres FreshR init := by
  have : Pres FreshR (modify initKeys) := pres_modify initKeys_fresh
  have : Pres FreshR (modify fun s => { s with haveInit := true }) := pres_modify fun _ => fresh_of rfl rfl rfl
  unfold init; pres
instance fr_begin (ip : Nat) : Pres FreshR (begin ip) := by
  have : Pres FreshR (modify fun s => { s with mem := freeze s.mem, frames := [{ ip := ip, sp := 0 }] }) :=
    pres_modify fun _ => fresh_of rfl rfl rfl
  unfold begin; pres
instance fr_loadConsts (e : Env) (l : List Val) : Pres FreshR (loadConsts e l) := by unfold loadConsts; pres
instance fr_boot (e : Env) (pre : List HostOp) (consts : List Val) (post : List HostOp) (ip : Nat) :
    Pres FreshR (boot e pre consts post ip) := by unfold boot; pres

/-- Loading a contract sends nothing. -/
theorem boot_fresh {e : Env} {pre post : List HostOp} {consts : List Val} {ip limit : Nat} {code : List Instr} {s : Eng}
    (h : boot e pre consts post ip (newEng code limit) = .ok () s) : Fresh s :=
  (fr_boot e pre consts post ip).ok h ⟨rfl, rfl, rfl⟩

/-! ### Whole executions -/

/-- What `commit` does is not in the way: outputs, mints and balances stay. -/
theorem execute_ok {e : Env} {fuel : Nat} {c : Bool} {s t : Eng} {w : List SWrite}
    (h : execute e fuel c s = .ok (some w) t) :
    ∃ n u, Steps e n s u ∧ t.outputs = u.outputs ∧ t.mints = u.mints ∧ t.bal = u.bal := by
  unfold execute at h
  obtain ⟨fin, u, h1, h2⟩ := bind_ok_iff.1 h
  cases fin with
  | false => obtain ⟨h3, _⟩ := pure_ok h2; cases h3
  | true =>
    obtain ⟨_, n, _, hs⟩ := run_true h1
    rw [if_pos rfl] at h2
    obtain ⟨w', u', h3, h4⟩ := bind_ok_iff.1 h2
    obtain ⟨_, u'', h5, h6⟩ := bind_ok_iff.1 h4
    obtain ⟨rfl, _⟩ := checkGas_ok h5
    obtain ⟨_, rfl⟩ := pure_ok h6
    have q : Quiet u u' := by
      cases c with
      | true => exact (inferInstance : Pres Quiet (commit e)).ok h3
      | false => obtain ⟨_, rfl⟩ := pure_ok h3; exact Pre.refl _
    exact ⟨n, u, hs, q.outputs, q.mints, q.bal⟩

/-- C19 and C20 for a whole execution: load a contract, prepare a call, run it to the end. The
    outputs of any currency stay within the balance, and every mint is of the contract's own token. -/
theorem C19_execution (e : Env) (pre post : List HostOp) (consts : List Val) (code : List Instr)
    (ip limit fuel : Nat) (c : Bool) (s t : Eng) (w : List SWrite)
    (hb : boot e pre consts post ip (newEng code limit) = .ok () s) (h : execute e fuel c s = .ok (some w) t)
    (cur : Bytes) (B : Nat) (hB : ∀ u, (e.storBal u cur).getD 0 = B) :
    total cur t.outputs ≤ B ∧ ∀ o ∈ t.mints, o.currency = e.contract ∧ o.amount < 2 ^ 80 := by
  obtain ⟨n, u, hs, h1, h2, _⟩ := execute_ok h
  rw [h1, h2]
  refine ⟨C19_sent_at_most_balance e n s u (boot_fresh hb) hs cur B hB, fun o ho => ?_⟩
  obtain ⟨a, _, b, _⟩ := C20_mints_own_token e n s u (boot_fresh hb) hs o ho
  exact ⟨a, b⟩

/-! ### The hypotheses can be met -/

/-- SEND [1] = amount 3 of the currency at [2] to the address at [2], three times; MINT; RET. -/
def sendRet : List Instr :=
  let snd : Instr := { code := 0xC1, flags := 0, a := 2, b := 1, c := 2, d := 3 }
  [snd, snd, snd, { code := 0xC2, flags := 0, a := 2, b := 1, c := 3, d := 0 },
   { code := 0xC7, flags := 0, a := MEM_STACK, b := 2, c := 0, d := 0 }, { code := 8, flags := 0, a := 0, b := 0, c := 0, d := 0 }]

def readySend (amount : Nat) : Option Eng :=
  outEng (boot env0 [] [.nil, .uint amount, .bin (List.replicate 32 9), .nil] [] 0 (newEng sendRet 1000000))

def isUint (v : Option Val) (n : Nat) : Bool :=
  match v with
  | some (.uint m) => m == n
  | _ => false

/-- Three sends of 3 and one mint of 3, from a balance of 1000: 991 left. -/
example : ((readySend 3).bind fun s => (outEng (run env0 10 s)).map fun t =>
      decide (s.bal = [] ∧ s.outputs = [] ∧ s.mints = []) && isOk (run env0 10 s) &&
      total (List.replicate 32 9) t.outputs == 9 && balGet t.bal (List.replicate 32 9) == some 991 &&
      t.mints.map (·.amount) == [3] && isUint (peek t MEM_STACK) 991 && isOk (execute env0 10 true s))
    = some true := by decide +kernel

/-- Three sends of 400: the third one fails. -/
example : ((readySend 400).map fun s => isOk (run env0 10 s)) = some false := by decide +kernel

end Verif.VM
