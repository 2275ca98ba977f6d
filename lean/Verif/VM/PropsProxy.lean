import Verif.VM.PropsConst
/-
  C23: what a running contract can do to storage (StorageProxy, Engine::commit).
-/
namespace Verif.VM
open Verif.Codec (Bytes)

/-! ## Specification -/

/-- Price of a read that returns `n` bytes. -/
def readPrice (n : Nat) : Nat := 2000 + n / 32 * 50

/-- Price of a write: keys count twice. -/
def writePrice (w : SWrite) : Nat :=
  match w.loc with
  | .mem _ => (2000 + numBytes w.cell.val * 50) * (if w.cell.key then 2 else 1)
  | .ent _ _ => 2000 + numBytes w.cell.val * 50

def totalPrice : List SWrite → Nat
  | [] => 0
  | w :: l => writePrice w + totalPrice l

/-- A write that may reach storage: at or above the static segment, no reference to memory that is
    not stored, keys are constant, entries are not counted. -/
structure Storable (w : SWrite) : Prop where
  addr : match w.loc with | .mem a => MEM_STATIC ≤ a | .ent a _ => MEM_STATIC ≤ a
  ref : ∀ a, w.cell.val = .ref a → MEM_STATIC ≤ a
  key : ∀ a, w.loc = .mem a → w.cell.key = true → w.cell.const = true
  count : ∀ a k, w.loc = .ent a k → w.cell.rc = 0
  changed : w.cell.dirty = true

/-- A variable as the engine may see it. -/
structure Fetched (e : Env) (b c : Cell) : Prop where
  val : c.val = b.val
  alive : b.deleted = false ∧ c.deleted = false
  clean : c.dirty = false
  stored : c.stored = true
  frozen : e.readOnly = true → c.const = true

/-! ## Reads -/

theorem chargeRead_ok {n : Nat} {s t : Eng} {x : Unit} (h : chargeRead n s = .ok x t) :
    t = { s with gas := s.gas + readPrice n } ∧ t.gas ≤ t.limit := by
  unfold chargeRead at h
  obtain ⟨_, u, h1, h2⟩ := bind_ok_iff.1 h
  obtain ⟨rfl, h3⟩ := checkGas_ok h2
  unfold addGas at h1
  cases modify_ok h1
  exact ⟨rfl, h3⟩

theorem readEx_fetched {e : Env} {o : Option Cell} {c : Cell} (h : readEx e o = some c) : ∃ b, o = some b ∧ Fetched e b c := by
  cases o with
  | none => cases h
  | some b =>
    simp only [readEx] at h
    split at h
    · cases h
    · next hd =>
      cases h
      refine ⟨b, rfl, rfl, ⟨by simpa using hd, by simpa using hd⟩, rfl, rfl, fun hr => ?_⟩
      rw [hr]; exact Bool.or_true _

theorem readEx_none {e : Env} {o : Option Cell} (h : readEx e o = none) : ∀ b, o = some b → b.deleted = true := by
  rintro b rfl
  simp only [readEx] at h
  split at h
  · assumption
  · cases h

/-- C23: a read costs at least its fixed price and gives what storage has, unless it was deleted;
    in a read-only execution the variable is constant. -/
theorem C23_read (e : Env) (a : Nat) (s t : Eng) (o : Option Cell) (h : storRead e a s = .ok o t) :
    2000 ≤ t.gas - s.gas ∧ t.gas = s.gas + readPrice (numBytesOpt o) ∧ t.gas ≤ t.limit ∧ t.mem = s.mem ∧ t.ents = s.ents ∧
    (∀ c, o = some c → ∃ b, e.storMem s a = some b ∧ Fetched e b c) ∧
    (o = none → ∀ b, e.storMem s a = some b → b.deleted = true) := by
  unfold storRead at h
  obtain ⟨x, u, h1, h2⟩ := bind_ok_iff.1 h
  obtain ⟨rfl, rfl⟩ := getsId_ok h1
  obtain ⟨_, v, h3, h4⟩ := bind_ok_iff.1 h2
  obtain ⟨rfl, h5⟩ := chargeRead_ok h3
  obtain ⟨rfl, rfl⟩ := pure_ok h4
  refine ⟨?_, rfl, h5, rfl, rfl, fun c hc => readEx_fetched hc, fun hn => readEx_none hn⟩
  show 2000 ≤ s.gas + readPrice _ - s.gas
  unfold readPrice; omega

theorem C23_read_entry (e : Env) (a k : Nat) (s t : Eng) (o : Option Cell) (h : storReadEnt e a k s = .ok o t) :
    2000 ≤ t.gas - s.gas ∧ t.gas = s.gas + readPrice (numBytesOpt o) ∧ t.gas ≤ t.limit ∧ t.mem = s.mem ∧ t.ents = s.ents ∧
    (∀ c, o = some c → ∃ b, e.storEnt s a k = some b ∧ Fetched e b c) ∧
    (o = none → ∀ b, e.storEnt s a k = some b → b.deleted = true) := by
  unfold storReadEnt at h
  obtain ⟨x, u, h1, h2⟩ := bind_ok_iff.1 h
  obtain ⟨rfl, rfl⟩ := getsId_ok h1
  obtain ⟨_, v, h3, h4⟩ := bind_ok_iff.1 h2
  obtain ⟨rfl, h5⟩ := chargeRead_ok h3
  obtain ⟨rfl, rfl⟩ := pure_ok h4
  refine ⟨?_, rfl, h5, rfl, rfl, fun c hc => readEx_fetched hc, fun hn => readEx_none hn⟩
  show 2000 ≤ s.gas + readPrice _ - s.gas
  unfold readPrice; omega

/-- C23: the same for keys and balances. -/
theorem C23_lookup (e : Env) (v : Val) (s t : Eng) (n : Nat) (h : storLookup e v s = .ok n t) :
    t.gas = s.gas + readPrice (numBytes v) ∧ t.gas ≤ t.limit ∧ n = e.storKey t v := by
  unfold storLookup at h
  obtain ⟨_, u, h1, h2⟩ := bind_ok_iff.1 h
  obtain ⟨rfl, h5⟩ := chargeRead_ok h1
  obtain ⟨x, w, h3, h4⟩ := bind_ok_iff.1 h2
  obtain ⟨rfl, rfl⟩ := getsId_ok h3
  obtain ⟨rfl, rfl⟩ := pure_ok h4
  exact ⟨rfl, h5, rfl⟩

theorem C23_balance (e : Env) (c : Bytes) (s t : Eng) (o : Option Nat) (h : storBalance e c s = .ok o t) :
    t.gas = s.gas + 2000 ∧ t.gas ≤ t.limit ∧ o = e.storBal t c := by
  unfold storBalance at h
  obtain ⟨_, u, h1, h2⟩ := bind_ok_iff.1 h
  obtain ⟨_, u2, h3, h4⟩ := bind_ok_iff.1 h2
  obtain ⟨rfl, h5⟩ := checkGas_ok h3
  unfold addGas at h1
  cases modify_ok h1
  obtain ⟨x, w, h6, h7⟩ := bind_ok_iff.1 h4
  obtain ⟨rfl, rfl⟩ := getsId_ok h6
  obtain ⟨rfl, rfl⟩ := pure_ok h7
  exact ⟨rfl, h5, rfl⟩

/-! ## Writes -/

theorem badRef_false {v : Val} (h : ¬ badRef v = true) : ∀ a, v = .ref a → MEM_STATIC ≤ a := by
  rintro a rfl
  simp only [badRef, decide_eq_true_eq] at h
  omega

theorem storWrite_ok {e : Env} {a : Nat} {c : Cell} {s t : Eng} {x : Unit} (h : storWrite e a c s = .ok x t) :
    e.readOnly = false ∧ (∀ b, c.val = .ref b → MEM_STATIC ≤ b) ∧ (c.key = true → c.const = true) ∧
    t = { s with gas := s.gas + writePrice ⟨.mem a, c⟩ } ∧ t.gas ≤ t.limit := by
  unfold storWrite at h
  obtain ⟨_, u, h1, h2⟩ := bind_ok_iff.1 h
  obtain ⟨g1, rfl⟩ := need_ok h1
  obtain ⟨_, u, h3, h4⟩ := bind_ok_iff.1 h2
  obtain ⟨g2, rfl⟩ := need_ok h3
  obtain ⟨_, u, h5, h6⟩ := bind_ok_iff.1 h4
  obtain ⟨g3, rfl⟩ := need_ok h5
  obtain ⟨_, u, h7, h8⟩ := bind_ok_iff.1 h6
  unfold addGas at h7
  cases modify_ok h7
  obtain ⟨_, u, h9, h10⟩ := bind_ok_iff.1 h8
  obtain ⟨rfl, g4⟩ := checkGas_ok h9
  obtain ⟨y, u, h11, h12⟩ := bind_ok_iff.1 h10
  obtain ⟨rfl, rfl⟩ := getsId_ok h11
  obtain ⟨_, rfl⟩ := need_ok h12
  refine ⟨by simpa using g1, badRef_false g2, fun hk => ?_, rfl, g4⟩
  by_cases hc : c.const = true
  · exact hc
  · exact absurd ⟨hk, hc⟩ g3

theorem storWriteEnt_ok {e : Env} {a k : Nat} {c : Cell} {s t : Eng} {x : Unit} (h : storWriteEnt e a k c s = .ok x t) :
    e.readOnly = false ∧ (∀ b, c.val = .ref b → MEM_STATIC ≤ b) ∧ c.rc = 0 ∧
    t = { s with gas := s.gas + writePrice ⟨.ent a k, c⟩ } ∧ t.gas ≤ t.limit := by
  unfold storWriteEnt at h
  obtain ⟨_, u, h1, h2⟩ := bind_ok_iff.1 h
  obtain ⟨g1, rfl⟩ := need_ok h1
  obtain ⟨_, u, h3, h4⟩ := bind_ok_iff.1 h2
  obtain ⟨g2, rfl⟩ := need_ok h3
  obtain ⟨_, u, h5, h6⟩ := bind_ok_iff.1 h4
  obtain ⟨g3, rfl⟩ := need_ok h5
  obtain ⟨_, u, h7, h8⟩ := bind_ok_iff.1 h6
  unfold addGas at h7
  cases modify_ok h7
  obtain ⟨_, u, h9, h10⟩ := bind_ok_iff.1 h8
  obtain ⟨rfl, g4⟩ := checkGas_ok h9
  obtain ⟨y, u, h11, h12⟩ := bind_ok_iff.1 h10
  obtain ⟨rfl, rfl⟩ := getsId_ok h11
  obtain ⟨_, rfl⟩ := need_ok h12
  exact ⟨by simpa using g1, badRef_false g2, g3, rfl, g4⟩

/-- No changed variable at or above the static segment but those listed. -/
def OnlyMem (l : AMap Nat) (s : Eng) : Prop :=
  ∀ a c, aget s.mem a = some c → MEM_STATIC ≤ a → c.dirty = true → (a, c) ∈ l
def OnlyEnts (l : AMap (Nat × Nat)) (s : Eng) : Prop :=
  ∀ a k c, aget s.ents (a, k) = some c → MEM_STATIC ≤ a → c.dirty = true → ((a, k), c) ∈ l

theorem aget_mem {κ : Type} [DecidableEq κ] {m : AMap κ} {x : κ} {c : Cell} (h : aget m x = some c) : (x, c) ∈ m := by
  induction m with
  | nil => cases h
  | cons p l ih =>
    obtain ⟨k, v⟩ := p
    simp only [aget] at h
    split at h
    · next hk => cases h; rw [hk]; exact List.mem_cons_self
    · exact List.mem_cons_of_mem _ (ih h)

theorem commitMem_ok {e : Env} : ∀ (l : AMap Nat) {s t : Eng} {w : List SWrite}, commitMem e l s = .ok w t →
    (∀ x ∈ w, Storable x) ∧ (w ≠ [] → e.readOnly = false) ∧ t.gas = s.gas + totalPrice w ∧ t.ents = s.ents ∧
    (∀ a c, (a, c) ∈ l → MEM_STATIC ≤ a → c.dirty = true → (⟨.mem a, c⟩ : SWrite) ∈ w) ∧
    (∀ x ∈ w, ∃ a, x.loc = .mem a ∧ (a, x.cell) ∈ l) ∧ (OnlyMem l s → OnlyMem [] t) := by
  intro l
  induction l with
  | nil =>
    intro s t w h
    obtain ⟨rfl, rfl⟩ := pure_ok h
    exact ⟨fun _ hx => (nomatch hx), fun hx => absurd rfl hx, rfl, rfl, fun _ _ hx => (nomatch hx), fun _ hx => (nomatch hx), id⟩
  | cons p l ih =>
    obtain ⟨a0, c0⟩ := p
    intro s t w h
    unfold commitMem at h
    split at h
    · next hd =>
      obtain ⟨_, u, h1, h2⟩ := bind_ok_iff.1 h
      obtain ⟨g1, g2, g3, rfl, g5⟩ := storWrite_ok h1
      obtain ⟨_, u2, h3, h4⟩ := bind_ok_iff.1 h2
      cases setMem_ok h3
      obtain ⟨r, u3, h5, h6⟩ := bind_ok_iff.1 h4
      obtain ⟨rfl, rfl⟩ := pure_ok h6
      obtain ⟨i1, i2, i3, i4, i5, i6, i7⟩ := ih h5
      refine ⟨?_, fun _ => g1, ?_, i4, ?_, ?_, ?_⟩
      · intro x hx
        rcases List.mem_cons.1 hx with rfl | hx1
        · exact ⟨hd.1, g2, fun _ _ => g3, fun _ _ hl => (nomatch hl), hd.2⟩
        · exact i1 x hx1
      · rw [i3]; show s.gas + _ + _ = _; simp only [totalPrice]; omega
      · intro a c hac ha hdy
        rcases List.mem_cons.1 hac with he | hac1
        · cases he; exact List.mem_cons_self
        · exact List.mem_cons_of_mem _ (i5 a c hac1 ha hdy)
      · intro x hx
        rcases List.mem_cons.1 hx with rfl | hx1
        · exact ⟨a0, rfl, List.mem_cons_self⟩
        · obtain ⟨a, ha, hm⟩ := i6 x hx1
          exact ⟨a, ha, List.mem_cons_of_mem _ hm⟩
      · intro ho
        apply i7
        intro a c hac ha hdy
        change aget (aset ltN s.mem a0 { c0 with dirty := false }) a = some c at hac
        rw [aget_aset] at hac
        split at hac
        · cases hac; cases hdy
        · next hne =>
          rcases List.mem_cons.1 (ho a c hac ha hdy) with he | hm
          · cases he; exact absurd rfl hne
          · exact hm
    · next hd =>
      obtain ⟨i1, i2, i3, i4, i5, i6, i7⟩ := ih h
      refine ⟨i1, i2, i3, i4, ?_, ?_, ?_⟩
      · intro a c hac ha hdy
        rcases List.mem_cons.1 hac with he | hac1
        · cases he; exact absurd ⟨ha, hdy⟩ hd
        · exact i5 a c hac1 ha hdy
      · intro x hx
        obtain ⟨a, ha, hm⟩ := i6 x hx
        exact ⟨a, ha, List.mem_cons_of_mem _ hm⟩
      · intro ho
        apply i7
        intro a c hac ha hdy
        rcases List.mem_cons.1 (ho a c hac ha hdy) with he | hm
        · cases he; exact absurd ⟨ha, hdy⟩ hd
        · exact hm

theorem setEnt_eq {a k : Nat} {s t : Eng} {c : Cell} {x : Unit} (h : setCell (.ent a k) c s = .ok x t) :
    t.mem = s.mem ∧ t.gas = s.gas ∧ ∀ y, aget t.ents y = if (a, k) = y then some c else aget s.ents y := by
  unfold setCell at h
  cases modify_ok h
  exact ⟨rfl, rfl, fun y => aget_aset _ _ _ _ _⟩

theorem commitEnts_ok {e : Env} : ∀ (l : AMap (Nat × Nat)) {s t : Eng} {w : List SWrite}, commitEnts e l s = .ok w t →
    (∀ x ∈ w, Storable x) ∧ (w ≠ [] → e.readOnly = false) ∧ t.gas = s.gas + totalPrice w ∧ t.mem = s.mem ∧
    (∀ a k c, ((a, k), c) ∈ l → MEM_STATIC ≤ a → c.dirty = true → (⟨.ent a k, c⟩ : SWrite) ∈ w) ∧
    (∀ x ∈ w, ∃ a k, x.loc = .ent a k ∧ ((a, k), x.cell) ∈ l) ∧ (OnlyEnts l s → OnlyEnts [] t) := by
  intro l
  induction l with
  | nil =>
    intro s t w h
    obtain ⟨rfl, rfl⟩ := pure_ok h
    exact ⟨fun _ hx => (nomatch hx), fun hx => absurd rfl hx, rfl, rfl, fun _ _ _ hx => (nomatch hx), fun _ hx => (nomatch hx), id⟩
  | cons p l ih =>
    obtain ⟨⟨a0, k0⟩, c0⟩ := p
    intro s t w h
    unfold commitEnts at h
    split at h
    · next hd =>
      obtain ⟨_, u, h1, h2⟩ := bind_ok_iff.1 h
      obtain ⟨g1, g2, g3, rfl, g5⟩ := storWriteEnt_ok h1
      obtain ⟨_, u2, h3, h4⟩ := bind_ok_iff.1 h2
      obtain ⟨e1, e2, e3⟩ := setEnt_eq h3
      obtain ⟨r, u3, h5, h6⟩ := bind_ok_iff.1 h4
      obtain ⟨rfl, rfl⟩ := pure_ok h6
      obtain ⟨i1, i2, i3, i4, i5, i6, i7⟩ := ih h5
      refine ⟨?_, fun _ => g1, ?_, i4.trans e1, ?_, ?_, ?_⟩
      · intro x hx
        rcases List.mem_cons.1 hx with rfl | hx1
        · exact ⟨hd.1, g2, fun _ hl => (nomatch hl), fun _ _ _ => g3, hd.2⟩
        · exact i1 x hx1
      · rw [i3, e2]; show s.gas + _ + _ = _; simp only [totalPrice]; omega
      · intro a k c hac ha hdy
        rcases List.mem_cons.1 hac with he | hac1
        · cases he; exact List.mem_cons_self
        · exact List.mem_cons_of_mem _ (i5 a k c hac1 ha hdy)
      · intro x hx
        rcases List.mem_cons.1 hx with rfl | hx1
        · exact ⟨a0, k0, rfl, List.mem_cons_self⟩
        · obtain ⟨a, k, ha, hm⟩ := i6 x hx1
          exact ⟨a, k, ha, List.mem_cons_of_mem _ hm⟩
      · intro ho
        apply i7
        intro a k c hac ha hdy
        rw [e3] at hac
        split at hac
        · cases hac; cases hdy
        · next hne =>
          rcases List.mem_cons.1 (ho a k c hac ha hdy) with he | hm
          · cases he; exact absurd rfl hne
          · exact hm
    · next hd =>
      obtain ⟨i1, i2, i3, i4, i5, i6, i7⟩ := ih h
      refine ⟨i1, i2, i3, i4, ?_, ?_, ?_⟩
      · intro a k c hac ha hdy
        rcases List.mem_cons.1 hac with he | hac1
        · cases he; exact absurd ⟨ha, hdy⟩ hd
        · exact i5 a k c hac1 ha hdy
      · intro x hx
        obtain ⟨a, k, ha, hm⟩ := i6 x hx
        exact ⟨a, k, ha, List.mem_cons_of_mem _ hm⟩
      · intro ho
        apply i7
        intro a k c hac ha hdy
        rcases List.mem_cons.1 (ho a k c hac ha hdy) with he | hm
        · cases he; exact absurd ⟨ha, hdy⟩ hd
        · exact hm

theorem totalPrice_append (a b : List SWrite) : totalPrice (a ++ b) = totalPrice a + totalPrice b := by
  induction a with
  | nil => simp [totalPrice]
  | cons x l ih => simp only [List.cons_append, totalPrice, ih]; omega

/-- C23: what a successful commit writes. Everything may be stored and is paid for, a read-only
    execution writes nothing, and nothing changed above the stack is left behind. -/
theorem C23_commit (e : Env) (s t : Eng) (w : List SWrite) (h : commit e s = .ok w t) :
    (∀ x ∈ w, Storable x) ∧ (e.readOnly = true → w = []) ∧ s.gas + totalPrice w ≤ t.gas ∧ t.gas ≤ t.limit ∧
    (∀ a c, aget t.mem a = some c → MEM_STATIC ≤ a → c.dirty = false) ∧
    (∀ a k c, aget t.ents (a, k) = some c → MEM_STATIC ≤ a → c.dirty = false) := by
  unfold commit at h
  obtain ⟨_, u, h1, h2⟩ := bind_ok_iff.1 h
  have hq := (q_clearStack 0).ok h1
  obtain ⟨x, u', h3, h4⟩ := bind_ok_iff.1 h2
  obtain ⟨rfl, rfl⟩ := getsId_ok h3
  obtain ⟨w1, u1, h5, h6⟩ := bind_ok_iff.1 h4
  obtain ⟨x, u', h7, h8⟩ := bind_ok_iff.1 h6
  obtain ⟨rfl, rfl⟩ := getsId_ok h7
  obtain ⟨w2, u2, h9, h10⟩ := bind_ok_iff.1 h8
  obtain ⟨_, u3, h11, h12⟩ := bind_ok_iff.1 h10
  obtain ⟨rfl, g⟩ := checkGas_ok h11
  obtain ⟨rfl, rfl⟩ := pure_ok h12
  obtain ⟨a1, a2, a3, a4, a5, a6, a7⟩ := commitMem_ok _ h5
  obtain ⟨b1, b2, b3, b4, b5, b6, b7⟩ := commitEnts_ok _ h9
  have m0 := a7 (fun a c hac _ _ => aget_mem hac)
  have n0 := b7 (fun a k c hac _ _ => aget_mem hac)
  refine ⟨?_, ?_, ?_, g, ?_, ?_⟩
  · intro x hx
    rcases List.mem_append.1 hx with hx1 | hx1
    · exact a1 x hx1
    · exact b1 x hx1
  · intro hr
    have : ∀ l : List SWrite, (l ≠ [] → e.readOnly = false) → l = [] := by
      intro l hl
      cases l with
      | nil => rfl
      | cons y l => rw [hl (by simp)] at hr; cases hr
    rw [this w1 a2, this w2 b2]; rfl
  · rw [totalPrice_append, b3, a3]
    have := hq.gas
    omega
  · intro a c hac ha
    rw [b4] at hac
    cases hd : c.dirty with
    | false => rfl
    | true => exact (nomatch m0 a c hac ha hd)
  · intro a k c hac ha
    cases hd : c.dirty with
    | false => rfl
    | true => exact (nomatch n0 a k c hac ha hd)

/-- C23: every changed variable is written, and nothing else, with the content it has when the stack
    has been cleared. -/
theorem C23_commit_exact (e : Env) (s t : Eng) (w : List SWrite) (h : commit e s = .ok w t) :
    ∃ u, clearStack 0 s = .ok () u ∧
      (∀ a c, aget u.mem a = some c → MEM_STATIC ≤ a → c.dirty = true → (⟨.mem a, c⟩ : SWrite) ∈ w) ∧
      (∀ a k c, aget u.ents (a, k) = some c → MEM_STATIC ≤ a → c.dirty = true → (⟨.ent a k, c⟩ : SWrite) ∈ w) ∧
      (∀ x ∈ w, (∃ a, x.loc = .mem a ∧ (a, x.cell) ∈ u.mem) ∨ (∃ a k, x.loc = .ent a k ∧ ((a, k), x.cell) ∈ u.ents)) := by
  unfold commit at h
  obtain ⟨_, u, h1, h2⟩ := bind_ok_iff.1 h
  obtain ⟨x, u', h3, h4⟩ := bind_ok_iff.1 h2
  obtain ⟨rfl, rfl⟩ := getsId_ok h3
  obtain ⟨w1, u1, h5, h6⟩ := bind_ok_iff.1 h4
  obtain ⟨x, u', h7, h8⟩ := bind_ok_iff.1 h6
  obtain ⟨rfl, rfl⟩ := getsId_ok h7
  obtain ⟨w2, u2, h9, h10⟩ := bind_ok_iff.1 h8
  obtain ⟨_, u3, h11, h12⟩ := bind_ok_iff.1 h10
  obtain ⟨rfl, g⟩ := checkGas_ok h11
  obtain ⟨rfl, rfl⟩ := pure_ok h12
  obtain ⟨a1, a2, a3, a4, a5, a6, a7⟩ := commitMem_ok _ h5
  obtain ⟨b1, b2, b3, b4, b5, b6, b7⟩ := commitEnts_ok _ h9
  refine ⟨u, h1, ?_, ?_, ?_⟩
  · intro a c hac ha hd
    exact List.mem_append.2 (.inl (a5 a c (aget_mem hac) ha hd))
  · intro a k c hac ha hd
    exact List.mem_append.2 (.inr (b5 a k c (by rw [a4]; exact aget_mem hac) ha hd))
  · intro x hx
    rcases List.mem_append.1 hx with hx1 | hx1
    · exact .inl (a6 x hx1)
    · obtain ⟨a, k, ha, hm⟩ := b6 x hx1
      exact .inr ⟨a, k, ha, by rw [← a4]; exact hm⟩

/-! ## The hypotheses can be met -/

/-- [static] = 5 + 7; RET; then commit: one write, paid for. -/
def storeCode : List Instr := [⟨0x20, 32, MEM_STATIC, 1, 2, 0⟩, ⟨0x08, 0, 0, 0, 0, 0⟩]

def writesOf (x : Out (Option (List SWrite))) : Option (List (Loc × Val)) :=
  match x with
  | .ok (some w) _ => some (w.map fun x => (x.loc, x.cell.val))
  | _ => none

example : ((ready storeCode 100000).map fun s => writesOf (execute env0 10 true s)) = some (some [(.mem MEM_STATIC, .uint 12)]) := by
  decide +kernel

/-- The same in a read-only execution: the commit throws. -/
example : ((ready storeCode 100000).map fun s => isOk (execute { env0 with readOnly := true } 10 true s)) = some false := by
  decide +kernel

/-! ## A cache and the database are not the same to a contract -/

/-- A backend with a variable at the start of the static segment. -/
def envWith (n : Nat) : Env := { env0 with storMem := fun _ a => if a = MEM_STATIC then some { val := .uint 5, rc := n } else none }

/-- A variable with a reference count cannot be erased while it is in the cache of the block
    (StorageRAM keeps the count), but after it went to the database, which does not (see
    `C22_counts_forgotten`), it can. -/
theorem C22_erase_depends_on_layer :
    ((ready addRet 100000).map fun s =>
      (isOk (exec (envWith 1) ⟨0x01, 0, MEM_STATIC, 0, 0, 0⟩ s), isOk (exec (envWith 0) ⟨0x01, 0, MEM_STATIC, 0, 0, 0⟩ s))) =
      some (false, true) := by
  decide +kernel

end Verif.VM
