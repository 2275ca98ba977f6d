import Verif.Sig.Cache
import Verif.VM.PropsGas

/-!
# C165: a signature check gives the same answer on every node, at all times
-/

namespace Verif.Sig

/-! ### The invariant -/

/-- Every slot is untouched or holds an entry the library accepts, and so does every thread that is
    about to store; every answer is the one of the library, or a yes to the zero entry. -/
structure Good (L : Lib) (s : State) : Prop where
  cache : ∀ i, s.cache i = zeroEntry ∨ fresh L (s.cache i) = .yes
  phase : ∀ t e, s.phase t = .checked e → fresh L e = .yes
  log : ∀ a ∈ s.log, a.out = fresh L a.entry ∨ (a.entry = zeroEntry ∧ a.out = .yes)

theorem good_start (L : Lib) : Good L start :=
  ⟨fun _ => .inl rfl, fun _ _ h => (nomatch h), fun _ h => absurd h List.not_mem_nil⟩

theorem good_phase {L : Lib} {s : State} (g : Good L s) (t : Nat) (p : Phase)
    (hp : ∀ e, p = .checked e → fresh L e = .yes) : Good L (setPhase s t p) := by
  refine ⟨g.cache, fun u e h => ?_, g.log⟩
  simp only [setPhase] at h
  by_cases hu : u = t
  · rw [if_pos hu] at h; exact hp e h
  · rw [if_neg hu] at h; exact g.phase u e h

theorem good_answer {L : Lib} {s : State} (g : Good L s) (t : Nat) (e : Entry) (o : Out)
    (ho : o = fresh L e ∨ (e = zeroEntry ∧ o = .yes)) : Good L (answer s t e o) := by
  have g' := good_phase g t .idle (fun _ h => (nomatch h))
  refine ⟨g'.cache, g'.phase, fun a ha => ?_⟩
  rcases List.mem_cons.1 ha with h | h
  · subst h; exact ho
  · exact g.log a h

theorem good_step {L : Lib} {s : State} (g : Good L s) (ev : Event) : Good L (step L s ev) := by
  cases ev with
  | call t e =>
    simp only [step]
    cases s.phase t with
    | idle =>
      simp only [callStep]
      by_cases h : s.cache (L.slot e.sig) = e
      · rw [if_pos h]
        refine good_answer g t e .yes ?_
        rcases g.cache (L.slot e.sig) with h0 | h0
        · exact .inr ⟨by rw [← h]; exact h0, rfl⟩
        · rw [h] at h0; exact .inl h0.symm
      · rw [if_neg h]; exact good_phase g t _ (fun _ h => (nomatch h))
    | missed _ => exact g
    | checked _ => exact g
  | check t =>
    simp only [step]
    cases s.phase t with
    | idle => exact g
    | missed e =>
      simp only [checkStep]
      cases hf : fresh L e with
      | yes => exact good_phase g t _ (fun e' h => by cases h; exact hf)
      | no => exact good_answer g t e .no (.inl hf.symm)
      | throw => exact good_answer g t e .throw (.inl hf.symm)
    | checked _ => exact g
  | store t =>
    simp only [step]
    cases hp : s.phase t with
    | idle => exact g
    | missed _ => exact g
    | checked e =>
      have hf := g.phase t e hp
      refine good_answer (s := { s with cache := fun i => if i = L.slot e.sig then e else s.cache i })
        ⟨fun i => ?_, g.phase, g.log⟩ t e .yes (.inl hf.symm)
      simp only
      by_cases hi : i = L.slot e.sig
      · rw [if_pos hi]; exact .inr hf
      · rw [if_neg hi]; exact g.cache i

theorem good_run {L : Lib} (evs : List Event) : ∀ {s : State}, Good L s → Good L (run L s evs) := by
  induction evs with
  | nil => exact fun g => g
  | cons ev evs ih => exact fun g => ih (good_step g ev)

/-! ### The claim, without the zero entry -/

/-- Two libraries that answer alike; the salts may differ. -/
structure SameLib (L M : Lib) : Prop where
  sig : L.parseSig = M.parseSig
  key : L.parseKey = M.parseKey
  check : L.check = M.check

/-- Every answer a node gave, in any history of calls by any number of threads, is the answer of the
    library alone: true exactly for a signature the library accepts, false exactly for one it
    refuses, an exception exactly for one it cannot read. Left out is the entry of zeros. -/
theorem C165_right_partial (L : Lib) (evs : List Event) (a : Answer) (ha : a ∈ (run L start evs).log)
    (hz : a.entry ≠ zeroEntry) :
    (a.out = .yes ↔ L.parseSig a.entry.sig = true ∧ L.parseKey a.entry.key = true ∧ L.check a.entry = true) ∧
    (a.out = .no ↔ L.parseSig a.entry.sig = true ∧ L.parseKey a.entry.key = true ∧ L.check a.entry = false) ∧
    (a.out = .throw ↔ L.parseSig a.entry.sig = false ∨ L.parseKey a.entry.key = false) := by
  rcases (good_run evs (good_start L)).log a ha with h | h
  · rw [h]
    simp only [fresh]
    cases L.parseSig a.entry.sig <;> cases L.parseKey a.entry.key <;> cases L.check a.entry <;> simp
  · exact absurd h.1 hz

/-- Two nodes never answer differently, whatever each of them checked before. Left out is the entry
    of zeros. -/
theorem C165_agree_partial (L M : Lib) (hLM : SameLib L M) (evs evs' : List Event) (a b : Answer)
    (ha : a ∈ (run L start evs).log) (hb : b ∈ (run M start evs').log) (hab : a.entry = b.entry)
    (hz : a.entry ≠ zeroEntry) : a.out = b.out := by
  have e : fresh L b.entry = fresh M b.entry := by simp only [fresh, hLM.sig, hLM.key, hLM.check]
  rcases (good_run evs (good_start L)).log a ha with h | h
  · rcases (good_run evs' (good_start M)).log b hb with h' | h'
    · rw [h, h', hab, e]
    · exact absurd (hab.trans h'.1) hz
  · exact absurd h.1 hz

/-! ### Every call is answered once -/

def callsOf (L : Lib) (t : Nat) : State → List Event → Nat
  | _, [] => 0
  | s, ev :: evs => (match ev with
      | .call u _ => if u = t ∧ s.phase t = .idle then 1 else 0
      | _ => 0) + callsOf L t (step L s ev) evs

def answersOf (t : Nat) (s : State) : Nat := (s.log.filter fun a => a.thread = t).length

def busy (t : Nat) (s : State) : Nat := if s.phase t = .idle then 0 else 1

theorem busy_set (t u : Nat) (s : State) (p : Phase) :
    busy t (setPhase s u p) = if t = u then (if p = .idle then 0 else 1) else busy t s := by
  simp only [busy, setPhase]
  by_cases h : t = u
  · simp only [if_pos h]
  · simp only [if_neg h]

theorem busy_answer (t u : Nat) (s : State) (e : Entry) (o : Out) :
    busy t (answer s u e o) = if t = u then 0 else busy t s := by
  have := busy_set t u s .idle
  rw [if_pos rfl] at this
  exact this

theorem answers_answer (t u : Nat) (s : State) (e : Entry) (o : Out) :
    answersOf t (answer s u e o) = (if t = u then 1 else 0) + answersOf t s := by
  simp only [answersOf, answer, setPhase, List.filter_cons]
  by_cases h : u = t
  · subst h; simp; omega
  · have h' : ¬ t = u := fun x => h x.symm
    simp [h, h']

theorem busy_idle {t : Nat} {s : State} (h : s.phase t = .idle) : busy t s = 0 := if_pos h

theorem busy_not {t : Nat} {s : State} (h : s.phase t ≠ .idle) : busy t s = 1 := if_neg h

theorem count_step (L : Lib) (t : Nat) (s : State) (ev : Event) :
    answersOf t (step L s ev) + busy t (step L s ev) = answersOf t s + busy t s +
      (match ev with
        | .call u _ => if u = t ∧ s.phase t = .idle then 1 else 0
        | _ => 0) := by
  cases ev with
  | call u e =>
    simp only [step]
    cases hp : s.phase u with
    | idle =>
      simp only [callStep]
      by_cases h : s.cache (L.slot e.sig) = e
      · rw [if_pos h, answers_answer, busy_answer]
        by_cases ht : t = u
        · subst ht; rw [if_pos rfl, if_pos rfl, if_pos ⟨rfl, hp⟩, busy_idle hp]; omega
        · rw [if_neg ht, if_neg ht, if_neg (fun x => ht x.1.symm)]; omega
      · rw [if_neg h, busy_set]
        have : answersOf t (setPhase s u (.missed e)) = answersOf t s := rfl
        rw [this]
        by_cases ht : t = u
        · subst ht; rw [if_pos rfl, if_neg (fun x => nomatch x), if_pos ⟨rfl, hp⟩, busy_idle hp]
        · rw [if_neg ht, if_neg (fun x => ht x.1.symm)]; omega
    | missed e' =>
      have : ¬ (u = t ∧ s.phase t = .idle) := fun x => by rw [← x.1, hp] at x; exact nomatch x.2
      rw [if_neg this]; rfl
    | checked e' =>
      have : ¬ (u = t ∧ s.phase t = .idle) := fun x => by rw [← x.1, hp] at x; exact nomatch x.2
      rw [if_neg this]; rfl
  | check u =>
    simp only [step]
    cases hp : s.phase u with
    | idle => rfl
    | missed e =>
      have hb : t = u → busy t s = 1 := fun x => busy_not (by rw [x, hp]; exact fun y => nomatch y)
      have fin : ∀ o, answersOf t (answer s u e o) + busy t (answer s u e o) = answersOf t s + busy t s + 0 := by
        intro o
        rw [answers_answer, busy_answer]
        by_cases ht : t = u
        · rw [if_pos ht, if_pos ht, hb ht]; omega
        · rw [if_neg ht, if_neg ht]; omega
      simp only [checkStep]
      cases fresh L e with
      | yes =>
        show answersOf t s + busy t (setPhase s u (.checked e)) = _
        rw [busy_set]
        by_cases ht : t = u
        · rw [if_pos ht, hb ht, if_neg (fun x => nomatch x)]
        · rw [if_neg ht]; omega
      | no => exact fin .no
      | throw => exact fin .throw
    | checked e => rfl
  | store u =>
    simp only [step]
    cases hp : s.phase u with
    | idle => rfl
    | missed e => rfl
    | checked e =>
      have hb : t = u → busy t s = 1 := fun x => busy_not (by rw [x, hp]; exact fun y => nomatch y)
      simp only [storeStep]
      rw [answers_answer, busy_answer]
      show _ + answersOf t s + (if t = u then 0 else busy t s) = _
      by_cases ht : t = u
      · rw [if_pos ht, if_pos ht, hb ht]; omega
      · rw [if_neg ht, if_neg ht]; omega

theorem count_run (L : Lib) (t : Nat) (evs : List Event) : ∀ s : State,
    answersOf t (run L s evs) + busy t (run L s evs) = answersOf t s + busy t s + callsOf L t s evs := by
  induction evs with
  | nil => intro s; rfl
  | cons ev evs ih =>
    intro s
    have h := ih (step L s ev)
    have h' := count_step L t s ev
    show answersOf t (run L (step L s ev) evs) + busy t (run L (step L s ev) evs) = _
    rw [h, h']
    simp only [callsOf]
    omega

/-- A thread got exactly one answer for each call, except that the last call may still be under way. -/
theorem C165_once (L : Lib) (t : Nat) (evs : List Event) :
    ((run L start evs).phase t = .idle → answersOf t (run L start evs) = callsOf L t start evs) ∧
    ((run L start evs).phase t ≠ .idle → answersOf t (run L start evs) + 1 = callsOf L t start evs) := by
  have h := count_run L t evs start
  have h0 : answersOf t start + busy t start = 0 := rfl
  constructor
  · intro hp; rw [busy_idle hp] at h; omega
  · intro hp; rw [busy_not hp] at h; omega

/-! ### A call that is not disturbed -/

theorem phase_set (s : State) (t : Nat) (p : Phase) : (setPhase s t p).phase t = p := if_pos rfl

/-- A call of an idle thread, up to its answer, when no other thread gets in between. -/
theorem C165_alone (L : Lib) (s : State) (t : Nat) (e : Entry) (h : s.phase t = .idle) :
    (run L s [.call t e, .check t, .store t]).log = ⟨t, e, ask L s.cache e⟩ :: s.log := by
  simp only [run, List.foldl, step, h, callStep, ask]
  by_cases hc : s.cache (L.slot e.sig) = e
  · simp only [if_pos hc]
    have : (answer s t e .yes).phase t = .idle := phase_set s t .idle
    simp only [this]
    rfl
  · simp only [if_neg hc, phase_set, checkStep]
    cases fresh L e with
    | yes => simp only [phase_set, storeStep]; rfl
    | no =>
      have : (answer (setPhase s t (.missed e)) t e .no).phase t = .idle := phase_set _ t .idle
      simp only [this]; rfl
    | throw =>
      have : (answer (setPhase s t (.missed e)) t e .throw).phase t = .idle := phase_set _ t .idle
      simp only [this]; rfl

/-! ### The entry of zeros -/

/-- A call of thread 0, up to its answer. -/
def whole (e : Entry) : List Event := [.call 0 e, .check 0, .store 0]

/-- A node that was just started says that a signature of zeros for a key of zeros is good, whatever
    the library thinks of it. -/
theorem C165_zero (L : Lib) : (run L start (whole zeroEntry)).log = [⟨0, zeroEntry, .yes⟩] := by
  have h := C165_alone L start 0 zeroEntry rfl
  have : ask L start.cache zeroEntry = .yes := if_pos rfl
  rw [this] at h
  exact h

theorem cache_answer (s : State) (t : Nat) (e : Entry) (o : Out) : (answer s t e o).cache = s.cache := rfl

/-- A node that checked some good signature with the same slot before gives the answer of the
    library. A key of zeros cannot be read, so it throws. -/
theorem C165_zero_after (L : Lib) (e : Entry) (he : fresh L e = .yes) (hne : e ≠ zeroEntry)
    (hs : L.slot e.sig = L.slot zeroEntry.sig) (hk : L.parseKey zeroEntry.key = false) :
    (run L start (whole e ++ whole zeroEntry)).log = [⟨0, zeroEntry, .throw⟩, ⟨0, e, .yes⟩] := by
  have hr : run L start (whole e ++ whole zeroEntry) = run L (run L start (whole e)) (whole zeroEntry) := by
    simp only [run, List.foldl_append]
  have hz : fresh L zeroEntry = .throw := by
    simp only [fresh, hk]
    by_cases h : L.parseSig zeroEntry.sig = true
    · rw [if_pos h]; rfl
    · rw [if_neg h]
  have hc : start.cache (L.slot e.sig) ≠ e := fun x => hne x.symm
  have hlog := C165_alone L start 0 e rfl
  have hask : ask L start.cache e = .yes := by rw [ask, if_neg hc]; exact he
  rw [hask] at hlog
  have hst : run L start (whole e)
      = storeStep L (setPhase (setPhase start 0 (.missed e)) 0 (.checked e)) 0 e := by
    simp only [whole, run, List.foldl, step]
    have : start.phase 0 = .idle := rfl
    simp only [this, callStep, if_neg hc, phase_set, checkStep, he]
  have hph : (run L start (whole e)).phase 0 = .idle := by
    rw [hst]; simp [storeStep, answer, setPhase]
  rw [hr, show whole zeroEntry = [.call 0 zeroEntry, .check 0, .store 0] from rfl, C165_alone L _ 0 zeroEntry hph]
  have hcache : (run L start (whole e)).cache (L.slot zeroEntry.sig) = e := by
    rw [hst]
    show (if L.slot zeroEntry.sig = L.slot e.sig then e else _) = e
    rw [if_pos hs.symm]
  have : ask L (run L start (whole e)).cache zeroEntry = .throw := by
    rw [ask, hcache, if_neg hne, hz]
  rw [this]
  show _ :: (run L start [.call 0 e, .check 0, .store 0]).log = _
  rw [hlog]
  rfl

/-! ### Cases -/

/-- A library for examples: keys begin with 2 or 3, a signature is good if it begins with the second
    byte of the key; the slot is the second byte of the signature. -/
def toyLib : Lib where
  parseSig _ := true
  parseKey k := k.head? = some 2 ∨ k.head? = some 3
  check e := e.sig.head? = e.key[1]?
  slot s := (s.getD 1 0) % 16384

def toyKey : Bytes := 2 :: 9 :: List.replicate 31 0

def goodEntry : Entry := ⟨List.replicate 32 5, toyKey, 9 :: List.replicate 63 0⟩

def badEntry : Entry := ⟨List.replicate 32 5, toyKey, 8 :: List.replicate 63 0⟩

/-- Two threads check the same good signature at once and a third a bad one in between. -/
example : (run toyLib start [.call 0 goodEntry, .call 1 goodEntry, .check 0, .call 2 badEntry, .check 2, .check 1,
      .store 0, .call 2 goodEntry, .store 1]).log.map (fun a => (a.thread, a.out))
    = [(1, .yes), (2, .yes), (0, .yes), (2, .no)] := by decide

example : goodEntry ≠ zeroEntry ∧ badEntry ≠ zeroEntry := by decide

/-- So the claim fails for the entry of zeros: two nodes with the same library give different
    answers. -/
theorem C165_differs : ∃ (evs evs' : List Event) (a b : Answer), a ∈ (run toyLib start evs).log ∧
    b ∈ (run toyLib start evs').log ∧ a.entry = b.entry ∧ a.out = .yes ∧ b.out = .throw := by
  refine ⟨whole zeroEntry, whole goodEntry ++ whole zeroEntry, ⟨0, zeroEntry, .yes⟩, ⟨0, zeroEntry, .throw⟩, ?_, ?_,
    rfl, rfl, rfl⟩
  · rw [C165_zero]; exact List.mem_cons_self
  · rw [C165_zero_after toyLib goodEntry (by decide) (by decide) (by decide) (by decide)]
    exact List.mem_cons_self

/-! ### What a contract makes of it -/

/-- The surroundings of the machine on a node with this history. -/
def envAfter (L : Lib) (evs : List Event) : VM.Env :=
  { VM.env0 with ecdsa := machineVerify L (run L start evs).cache }

/-- VERIFY [stack 0] = (message, key, signature), all zeros; RET. -/
def zeroCode : List VM.Instr := [⟨0xA4, 0, VM.MEM_STACK, 1, 2, 3⟩, ⟨8, 0, 0, 0, 0, 0⟩]

def zeroReady (E : VM.Env) : Option VM.Eng :=
  VM.outEng (VM.boot E [] [.nil, .bin zeroEntry.hash, .bin zeroEntry.key, .bin zeroEntry.sig] [] 0
    (VM.newEng zeroCode 1000000))

/-- Whether the whole call of the contract succeeds on this node. -/
def callOk (E : VM.Env) : Option Bool := (zeroReady E).map fun s => VM.isOk (VM.execute E 10 true s)

/-- The same call of the same contract in the same state succeeds on one node and fails on another:
    they differ only in the signatures they have checked before. -/
theorem C165_fork : callOk (envAfter toyLib []) = some true ∧
    callOk (envAfter toyLib (whole goodEntry)) = some false := by decide +kernel

/-- For every other message, key and signature the machine gets the answer of the library. -/
theorem C165_machine_partial (L : Lib) (evs : List Event) (msg key sig : Bytes)
    (hz : (⟨msg, key, sig⟩ : Entry) ≠ zeroEntry) :
    machineVerify L (run L start evs).cache msg key sig
      = if msg.length = 32 ∧ key.length = 33 ∧ sig.length = 64 ∧ L.parseSig sig = true ∧ L.parseKey key = true
        then some (L.check ⟨msg, key, sig⟩) else none := by
  have g := good_run evs (good_start L)
  have ha : ask L (run L start evs).cache ⟨msg, key, sig⟩ = fresh L ⟨msg, key, sig⟩ := by
    simp only [ask]
    by_cases h : (run L start evs).cache (L.slot sig) = ⟨msg, key, sig⟩
    · rw [if_pos h]
      rcases g.cache (L.slot sig) with h0 | h0
      · exact absurd (h.symm.trans h0) hz
      · rw [h] at h0; exact h0.symm
    · rw [if_neg h]
  simp only [machineVerify, ha, fresh]
  by_cases h1 : msg.length = 32 <;> by_cases h2 : key.length = 33 <;> by_cases h3 : sig.length = 64 <;>
    cases L.parseSig sig <;> cases L.parseKey key <;> cases L.check ⟨msg, key, sig⟩ <;> simp [h1, h2, h3]

end Verif.Sig
