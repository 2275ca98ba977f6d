/-
  C179: wallets with a passphrase are locked in time.  `lastUse` is the specification.
-/
import Verif.Wallet.AutoLock

namespace Verif.Wallet.AutoLock

/-- The time, and when each account was last used: unlocked with the right passphrase, or a transaction sent. -/
structure Clock where
  now : Nat
  last : Nat → Nat

def tick (c : Clock) : Op → Clock
  | .unlock i true => ⟨c.now, fun j => if j = i then c.now else c.last j⟩
  | .send i => ⟨c.now, fun j => if j = i then c.now else c.last j⟩
  | .elapse d => ⟨c.now + d, c.last⟩
  | _ => c

def clock (c : Clock) : List Op → Clock
  | [] => c
  | o :: os => clock (tick c o) os

def start : Clock := ⟨0, fun _ => 0⟩

/-- When account `i` was last used. -/
def lastUse (os : List Op) (i : Nat) : Nat := (clock start os).last i

/-! ### invariant -/

theorem upd_same {α : Type} (f : Nat → α) (i : Nat) (x : α) : upd f i x i = x := if_pos rfl
theorem upd_other {α : Type} (f : Nat → α) {i j : Nat} (x : α) (h : j ≠ i) : upd f i x j = f j := if_neg h

structure Inv (T : Nat) (s : St) (c : Clock) : Prop where
  now : s.now = c.now
  timer : ∀ i o, s.slot i = some o → o.pass = true → s.keys i o.no = true → s.timer i = some (c.last i + T, o.no)
  pass : ∀ i o t, s.slot i = some o → s.timer i = some (t, o.no) → o.pass = true
  fresh : ∀ i o, s.slot i = some o → o.no < s.next
  tfresh : ∀ i t no, s.timer i = some (t, no) → no < s.next

theorem inv_init (T : Nat) : Inv T init start where
  now := rfl
  timer _ _ h := by cases h
  pass _ _ _ h := by cases h
  fresh _ _ h := by cases h
  tfresh _ _ _ h := by cases h

theorem setKeys_false {T : Nat} {s : St} {c : Clock} (h : Inv T s c) (i no : Nat) : Inv T (setKeys s i no false) c where
  now := h.now
  timer j o ho hp hk := by
    refine h.timer j o ho hp ?_
    change upd s.keys i (upd (s.keys i) no false) j o.no = true at hk
    by_cases hj : j = i
    · subst hj
      rw [upd_same] at hk
      by_cases hn : o.no = no
      · rw [hn, upd_same] at hk; cases hk
      · rw [upd_other _ _ hn] at hk; exact hk
    · rw [upd_other _ _ hj] at hk; exact hk
  pass := h.pass
  fresh := h.fresh
  tfresh := h.tfresh

theorem keys_set_other {s : St} {i no j m : Nat} {b : Bool} (h : ¬ (j = i ∧ m = no)) :
    (setKeys s i no b).keys j m = s.keys j m := by
  show upd s.keys i (upd (s.keys i) no b) j m = _
  by_cases hj : j = i
  · subst hj; rw [upd_same, upd_other _ _ fun e => h ⟨rfl, e⟩]
  · rw [upd_other _ _ hj]

theorem keys_set_same {s : St} {i no : Nat} {b : Bool} : (setKeys s i no b).keys i no = b := by
  show upd s.keys i (upd (s.keys i) no b) i no = _
  rw [upd_same, upd_same]

/-- Unlocking, also of an object that has just been made. -/
theorem unlockObj_inv {T : Nat} (hT : 0 < T) {s : St} {c c' : Clock} (h : Inv T s c) {i : Nat} {o : Obj} (ho : s.slot i = some o)
    (hn : c'.now = c.now) (hl : c'.last i = c.now) (hj : ∀ j, j ≠ i → c'.last j = c.last j) : Inv T (unlockObj T s i o) c' := by
  unfold unlockObj
  by_cases hp : o.pass = true
  · rw [if_pos ⟨hp, hT⟩]
    exact {
      now := by show s.now = _; rw [hn]; exact h.now
      timer := by
        intro j p hs hpp hk
        change s.slot j = some p at hs
        show upd s.timer i _ j = _
        by_cases e : j = i
        · subst e
          rw [ho] at hs; cases hs
          rw [upd_same, hl, h.now]
        · rw [upd_other _ _ e, hj j e]
          refine h.timer j p hs hpp ?_
          rw [← keys_set_other (s := s) (i := i) (no := o.no) (b := true) fun q => e q.1]; exact hk
      pass := by
        intro j p t hs ht
        change s.slot j = some p at hs
        by_cases e : j = i
        · subst e
          rw [ho] at hs; cases hs; exact hp
        · change upd s.timer i _ j = some (t, p.no) at ht
          rw [upd_other _ _ e] at ht
          exact h.pass j p t hs ht
      fresh := h.fresh
      tfresh := by
        intro j t no ht
        change upd s.timer i _ j = some (t, no) at ht
        by_cases e : j = i
        · subst e
          rw [upd_same] at ht; cases ht
          exact h.fresh j o ho
        · rw [upd_other _ _ e] at ht
          exact h.tfresh j t no ht }
  · rw [if_neg fun q => hp q.1]
    exact {
      now := by show s.now = _; rw [hn]; exact h.now
      timer := by
        intro j p hs hpp hk
        change s.slot j = some p at hs
        show s.timer j = _
        by_cases e : j = i
        · subst e
          rw [ho] at hs; cases hs; exact absurd hpp hp
        · rw [hj j e]
          refine h.timer j p hs hpp ?_
          rw [← keys_set_other (s := s) (i := i) (no := o.no) (b := true) fun q => e q.1]; exact hk
      pass := h.pass
      fresh := h.fresh
      tfresh := h.tfresh }

theorem newObj_inv {T : Nat} {s : St} {c : Clock} (h : Inv T s c) (i : Nat) (pass : Bool) : Inv T (newObj s i pass) c where
  now := h.now
  timer j o hs hp hk := by
    change upd s.slot i (some ⟨s.next, pass⟩) j = some o at hs
    change (setKeys s i s.next false).keys j o.no = true at hk
    by_cases e : j = i
    · subst e
      rw [upd_same] at hs; cases hs
      rw [keys_set_same] at hk; cases hk
    · rw [upd_other _ _ e] at hs
      rw [keys_set_other fun q => e q.1] at hk
      exact h.timer j o hs hp hk
  pass j o t hs ht := by
    change upd s.slot i (some ⟨s.next, pass⟩) j = some o at hs
    by_cases e : j = i
    · subst e
      rw [upd_same] at hs; cases hs
      exact absurd (h.tfresh j t _ ht) (Nat.lt_irrefl _)
    · rw [upd_other _ _ e] at hs
      exact h.pass j o t hs ht
  fresh j o hs := by
    change upd s.slot i (some ⟨s.next, pass⟩) j = some o at hs
    show o.no < s.next + 1
    by_cases e : j = i
    · subst e
      rw [upd_same] at hs; cases hs; exact Nat.lt_succ_self _
    · rw [upd_other _ _ e] at hs
      exact Nat.lt_succ_of_lt (h.fresh j o hs)
  tfresh j t no ht := Nat.lt_succ_of_lt (h.tfresh j t no ht)

/-- If the object is locked afterwards, when it was last used does not matter. -/
theorem unlock_lock_inv {T : Nat} (hT : 0 < T) {s : St} {c : Clock} (h : Inv T s c) {i : Nat} {o : Obj} (ho : s.slot i = some o) :
    Inv T (setKeys (unlockObj T s i o) i o.no false) c := by
  have h1 := setKeys_false (unlockObj_inv hT h (c' := ⟨c.now, fun j => if j = i then c.now else c.last j⟩) ho rfl (if_pos rfl)
    (fun j e => if_neg e)) i o.no
  have hsl : (unlockObj T s i o).slot = s.slot := by unfold unlockObj setKeys; split <;> rfl
  refine ⟨h1.now, fun j p hs hp hk => ?_, h1.pass, h1.fresh, h1.tfresh⟩
  by_cases e : j = i
  · subst e
    have hs' : (unlockObj T s j o).slot j = some p := hs
    rw [hsl, ho] at hs'; cases hs'
    rw [keys_set_same] at hk; cases hk
  · have := h1.timer j p hs hp hk
    dsimp only at this
    rw [if_neg e] at this
    exact this

/-- Without a passphrase there is no timer, and it does not matter either. -/
theorem unlock_plain_inv {T : Nat} {s : St} {c : Clock} (h : Inv T s c) {i : Nat} {o : Obj} (ho : s.slot i = some o)
    (hp : o.pass = false) : Inv T (unlockObj T s i o) c := by
  unfold unlockObj
  rw [if_neg fun q => by rw [hp] at q; cases q.1]
  refine ⟨h.now, fun j p hs hpp hk => ?_, h.pass, h.fresh, h.tfresh⟩
  change s.slot j = some p at hs
  by_cases e : j = i
  · subst e
    rw [ho] at hs; cases hs; rw [hp] at hpp; cases hpp
  · rw [keys_set_other fun q => e q.1] at hk
    exact h.timer j p hs hpp hk

theorem add_inv {T : Nat} (hT : 0 < T) {s : St} {c : Clock} (h : Inv T s c) (i : Nat) (pass given : Bool) :
    Inv T (add T s i pass given) c := by
  unfold add
  cases hs : s.slot i with
  | some o => exact h
  | none =>
    have hn := newObj_inv h i pass
    have ho : (newObj s i pass).slot i = some ⟨s.next, pass⟩ := upd_same ..
    dsimp only
    by_cases h1 : pass = true ∧ given = false
    · rw [if_pos h1]; exact hn
    · rw [if_neg h1]
      by_cases h2 : given = true
      · rw [if_pos h2]; exact unlock_lock_inv hT hn ho
      · rw [if_neg h2]
        refine unlock_plain_inv hn ho ?_
        cases pass with
        | false => rfl
        | true => exact absurd ⟨rfl, by simpa using h2⟩ h1

theorem step_inv {T : Nat} (hT : 0 < T) {s : St} {c : Clock} (h : Inv T s c) (o : Op) : Inv T (step T s o) (tick c o) := by
  cases o with
  | add i pass given => exact add_inv hT h i pass given
  | unlock i ok =>
    simp only [step]
    cases hs : s.slot i with
    | none =>
      cases ok with
      | false => exact h
      | true =>
        refine ⟨h.now, fun j o hj hp hk => ?_, h.pass, h.fresh, h.tfresh⟩
        have e : j ≠ i := fun e => by rw [e, hs] at hj; cases hj
        rw [show (tick c (.unlock i true)).last j = c.last j from if_neg e]
        exact h.timer j o hj hp hk
    | some o =>
      cases ok with
      | false => exact h
      | true =>
        simp only [if_true]
        exact unlockObj_inv hT h hs rfl (if_pos rfl) (fun j e => if_neg e)
  | lock i =>
    simp only [step]
    cases hs : s.slot i with
    | none => exact h
    | some o => exact setKeys_false h i o.no
  | send i =>
    show Inv T (resetTimer T s i) _
    unfold resetTimer
    cases ht : s.timer i with
    | none =>
      refine ⟨h.now, fun j o hj hp hk => ?_, h.pass, h.fresh, h.tfresh⟩
      have q := h.timer j o hj hp hk
      have e : j ≠ i := fun e => by rw [e, ht] at q; cases q
      rw [show (tick c (.send i)).last j = c.last j from if_neg e]
      exact q
    | some p =>
      obtain ⟨t, no⟩ := p
      dsimp only
      exact {
        now := h.now
        timer := by
          intro j o hj hp hk
          have q := h.timer j o hj hp hk
          show upd s.timer i _ j = _
          by_cases e : j = i
          · subst e
            rw [upd_same, show (tick c (.send j)).last j = c.now from if_pos rfl, h.now]
            rw [ht] at q; cases q; rfl
          · rw [upd_other _ _ e, show (tick c (.send i)).last j = c.last j from if_neg e]; exact q
        pass := by
          intro j o t' hj ht'
          change upd s.timer i _ j = some (t', o.no) at ht'
          by_cases e : j = i
          · subst e
            rw [upd_same] at ht'; cases ht'
            exact h.pass j o t hj ht
          · rw [upd_other _ _ e] at ht'; exact h.pass j o t' hj ht'
        fresh := h.fresh
        tfresh := by
          intro j t' no' ht'
          change upd s.timer i _ j = some (t', no') at ht'
          by_cases e : j = i
          · subst e
            rw [upd_same] at ht'; cases ht'
            exact h.tfresh j t no ht
          · rw [upd_other _ _ e] at ht'; exact h.tfresh j t' no' ht' }
  | sign i ok =>
    simp only [step]
    cases hs : s.slot i with
    | none => exact h
    | some o =>
      dsimp only
      unfold sign
      by_cases hk : s.keys i o.no = true ∨ ok = false
      · rw [if_pos hk]; exact h
      · rw [if_neg hk]
        refine ⟨h.now, fun j p hj hp hkk => ?_, h.pass, h.fresh, h.tfresh⟩
        refine h.timer j p hj hp ?_
        by_cases e : j = i ∧ p.no = o.no
        · rw [e.1, e.2, keys_set_same] at hkk; cases hkk
        · rw [keys_set_other e, keys_set_other e] at hkk; exact hkk
  | remove i =>
    have hsl : ∀ j o, (step T s (.remove i)).slot j = some o → s.slot j = some o := by
      intro j o hj
      change upd s.slot i none j = some o at hj
      by_cases e : j = i
      · rw [e, upd_same] at hj; cases hj
      · rw [upd_other _ _ e] at hj; exact hj
    exact ⟨h.now, fun j o hj => h.timer j o (hsl j o hj), fun j o t hj => h.pass j o t (hsl j o hj),
      fun j o hj => h.fresh j o (hsl j o hj), h.tfresh⟩
  | elapse d =>
    exact ⟨by show s.now + d = c.now + d; rw [h.now], h.timer, h.pass, h.fresh, h.tfresh⟩
  | fire i =>
    show Inv T (fire s i) c
    unfold fire
    cases ht : s.timer i with
    | none => exact h
    | some p =>
      obtain ⟨t, no⟩ := p
      dsimp only
      by_cases hd : t ≤ s.now
      · rw [if_pos hd]
        have h1 := setKeys_false h i no
        exact {
          now := h.now
          timer := by
            intro j o hj hp hk
            change (setKeys s i no false).keys j o.no = true at hk
            have q : s.timer j = some (c.last j + T, o.no) := h1.timer j o hj hp hk
            show upd s.timer i none j = _
            by_cases e : j = i
            · subst e
              rw [ht] at q; cases q
              rw [keys_set_same] at hk; cases hk
            · rw [upd_other _ _ e]; exact q
          pass := by
            intro j o t' hj ht'
            change upd s.timer i none j = some (t', o.no) at ht'
            by_cases e : j = i
            · rw [e, upd_same] at ht'; cases ht'
            · rw [upd_other _ _ e] at ht'; exact h.pass j o t' hj ht'
          fresh := h.fresh
          tfresh := by
            intro j t' no' ht'
            change upd s.timer i none j = some (t', no') at ht'
            by_cases e : j = i
            · rw [e, upd_same] at ht'; cases ht'
            · rw [upd_other _ _ e] at ht'; exact h.tfresh j t' no' ht' }
      · rw [if_neg hd]; exact h

theorem run_inv {T : Nat} (hT : 0 < T) : ∀ (os : List Op) {s : St} {c : Clock}, Inv T s c → Inv T (run T s os) (clock c os)
  | [], _, _, h => h
  | o :: os, _, _, h => run_inv hT os (step_inv hT h o)

/-! ### theorems -/

/-- **C179.** Whenever the timers of a wallet have had their turn, a wallet with a passphrase that is unlocked was last used
    less than the timeout ago. -/
theorem C179_locked {T : Nat} (hT : 0 < T) (os : List Op) {i : Nat} {o : Obj}
    (hs : (fire (run T init os) i).slot i = some o) (hp : o.pass = true) (hl : isLocked (fire (run T init os) i) i = some false) :
    (run T init os).now < lastUse os i + T := by
  have h := run_inv hT os (inv_init T)
  have h' : Inv T (fire (run T init os) i) (clock start os) := step_inv hT h (.fire i)
  have hk : (fire (run T init os) i).keys i o.no = true := by
    unfold isLocked at hl
    rw [hs] at hl
    simpa using hl
  have q := h'.timer i o hs hp hk
  unfold fire at q
  cases ht : (run T init os).timer i with
  | none => simp only [ht] at q; cases q
  | some p =>
    obtain ⟨t, no⟩ := p
    simp only [ht] at q
    by_cases hd : t ≤ (run T init os).now
    · rw [if_pos hd] at q
      change upd _ i none i = some _ at q
      rw [upd_same] at q; cases q
    · rw [if_neg hd, ht] at q
      cases q
      unfold lastUse; omega

/-- **C179.** A timer locks a wallet only if it has a passphrase and was not used for the timeout; and no other wallet. -/
theorem C179_not_early {T : Nat} (hT : 0 < T) (os : List Op) {i j : Nat} (hb : isLocked (run T init os) j = some false)
    (ha : isLocked (fire (run T init os) i) j ≠ some false) :
    j = i ∧ lastUse os i + T ≤ (run T init os).now ∧ ∃ o, (run T init os).slot i = some o ∧ o.pass = true := by
  have h := run_inv hT os (inv_init T)
  unfold isLocked at hb ha
  obtain ⟨o, ho, hk⟩ := Option.map_eq_some_iff.1 hb
  have hk : (run T init os).keys j o.no = true := by simpa using hk
  unfold fire at ha
  cases ht : (run T init os).timer i with
  | none => simp only [ht] at ha; rw [ho] at ha; simp [hk] at ha
  | some p =>
    obtain ⟨t, no⟩ := p
    simp only [ht] at ha
    by_cases hd : t ≤ (run T init os).now
    · rw [if_pos hd] at ha
      change (((run T init os).slot j).map fun o => !(setKeys (run T init os) i no false).keys j o.no) ≠ some false at ha
      rw [ho] at ha
      by_cases e : j = i ∧ o.no = no
      · obtain ⟨e1, e2⟩ := e
        subst e1; subst e2
        have hp := h.pass j o t ho ht
        have q := h.timer j o ho hp hk
        rw [ht] at q; cases q
        exact ⟨rfl, hd, o, ho, hp⟩
      · simp [keys_set_other e, hk] at ha
    · rw [if_neg hd, ho] at ha
      simp [hk] at ha

/-- **C179.** Signing with a passphrase leaves a wallet as it was: locked if it was locked. -/
theorem C179_sign (T : Nat) (s : St) (i j : Nat) (ok : Bool) : isLocked (step T s (.sign i ok)) j = isLocked s j := by
  simp only [step]
  cases hs : s.slot i with
  | none => rfl
  | some o =>
    dsimp only
    unfold sign
    by_cases hk : s.keys i o.no = true ∨ ok = false
    · rw [if_pos hk]
    · rw [if_neg hk]
      show ((s.slot j).map fun p => !(setKeys (setKeys s i o.no true) i o.no false).keys j p.no) = (s.slot j).map fun p => !s.keys j p.no
      cases hj : s.slot j with
      | none => rfl
      | some p =>
        simp only [Option.map_some]
        by_cases e : j = i ∧ p.no = o.no
        · obtain ⟨e1, e2⟩ := e
          rw [e1, e2, keys_set_same]
          have : s.keys i o.no = false := by
            cases hx : s.keys i o.no with
            | false => rfl
            | true => exact absurd (.inl hx) hk
          rw [this]
        · rw [keys_set_other e, keys_set_other e]

/-- **C179, not in general.** An account made with a passphrase, but without the flag that it has one, is locked at first and
    once unlocked is never locked again. -/
theorem C179_unmarked (T d : Nat) :
    isLocked (run T init [.add 3 false true]) 3 = some true ∧
      isLocked (run T init [.add 3 false true, .unlock 3 true, .elapse d, .fire 3]) 3 = some false := by
  constructor <;> rfl

/-! ### example -/

def exOps : List Op := [.add 3 true true, .add 4 true false, .elapse 5, .unlock 3 true, .elapse 400, .send 3, .elapse 500]

example : isLocked (fire (run 600 init exOps) 3) 3 = some false ∧ lastUse exOps 3 = 405 ∧ (run 600 init exOps).now = 905 ∧
    isLocked (fire (run 600 init (exOps ++ [.elapse 100])) 3) 3 = some true ∧
    isLocked (run 600 init (exOps ++ [.elapse 100])) 3 = some false := by decide

end Verif.Wallet.AutoLock
