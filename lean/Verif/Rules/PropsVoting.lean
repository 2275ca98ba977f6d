/-
  C140: the validators of a block.  C141: the votes of a node.
-/
import Verif.Rules.Voting

namespace Verif.Rules

/-! ### C140 -/

/-- The headers from one on back, at most `n`. -/
def back (get : Nat → Option Hdr) : Nat → Option Hdr → List Hdr
  | 0, _ => []
  | _ + 1, none => []
  | n + 1, some b => b :: back get n (get b.prev)

/-- The first occurrence of every key. -/
def distinct : List Nat → List Nat
  | [] => []
  | k :: l => k :: (distinct l).filter (· ≠ k)

theorem distinct_mem : ∀ {l : List Nat} {k : Nat}, k ∈ distinct l ↔ k ∈ l
  | [], k => Iff.rfl
  | a :: l, k => by
    unfold distinct
    rw [List.mem_cons, List.mem_cons, List.mem_filter, distinct_mem]
    by_cases h : k = a
    · exact ⟨fun _ => .inl h, fun _ => .inl h⟩
    · exact ⟨fun z => z.elim .inl fun z => .inr z.1, fun z => z.elim .inl fun z => .inr ⟨z, decide_eq_true h⟩⟩

theorem distinct_nodup : ∀ (l : List Nat), (distinct l).Nodup
  | [] => List.nodup_nil
  | a :: l => by
    unfold distinct
    refine List.nodup_cons.2 ⟨fun h => ?_, (distinct_nodup l).sublist List.filter_sublist⟩
    exact absurd rfl (of_decide_eq_true (List.mem_filter.1 h).2)

/-- What a list of keys adds to a set. -/
def fresh (set l : List Nat) : List Nat := (distinct l).filter (· ∉ set)

theorem fresh_nil (l : List Nat) : fresh [] l = distinct l := by
  unfold fresh
  exact List.filter_eq_self.2 fun a _ => decide_eq_true List.not_mem_nil

theorem fresh_cons (set l : List Nat) (k : Nat) :
    fresh set (k :: l) = if k ∈ set then fresh set l else k :: fresh (set ++ [k]) l := by
  have hd : distinct (k :: l) = k :: (distinct l).filter (· ≠ k) := rfl
  unfold fresh
  rw [hd, List.filter_cons, List.filter_filter]
  by_cases h : k ∈ set
  · rw [if_pos h, if_neg (by simpa using h)]
    refine List.filter_congr fun a _ => ?_
    by_cases ha : a ∈ set
    · simp [ha]
    · have : a ≠ k := fun e => ha (e ▸ h)
      simp [ha, this]
  · rw [if_neg h, if_pos (by simpa using h)]
    congr 1
    refine List.filter_congr fun a _ => ?_
    simp [List.mem_append, not_or]

theorem collect_eq (get : Nat → Option Hdr) (m : Nat) : ∀ (n : Nat) (b : Option Hdr) (set : List Nat), set.length ≤ m →
    collect get m n b set = (set ++ fresh set ((back get n b).filterMap (·.key))).take m
  | 0, b, set, h => by
    unfold collect back
    show set = (set ++ []).take m
    rw [List.append_nil, List.take_of_length_le h]
  | n + 1, none, set, h => by
    unfold collect back
    show set = (set ++ []).take m
    rw [List.append_nil, List.take_of_length_le h]
  | n + 1, some b, set, h => by
    unfold collect back
    by_cases hl : set.length < m
    · rw [if_pos hl]
      cases hk : b.key with
      | none =>
        rw [List.filterMap_cons_none hk]
        exact collect_eq get m n (get b.prev) set h
      | some k =>
        rw [List.filterMap_cons_some hk, fresh_cons]
        unfold insertKey
        dsimp only
        by_cases hm : k ∈ set
        · rw [if_pos hm, if_pos hm]
          exact collect_eq get m n (get b.prev) set h
        · rw [if_neg hm, if_neg hm, collect_eq get m n (get b.prev) (set ++ [k])
            (by rw [List.length_append, List.length_singleton]; omega), List.append_assoc]
          rfl
    · rw [if_neg hl, List.take_append_of_le_length (by omega), List.take_of_length_le h]

/-- **C140.** The validators of a block are the last `max_validators` different farmers who made a block, counted back
    from the block `commit_delay` before it, over `max_history` blocks at most. -/
theorem C140_validators (get : Nat → Option Hdr) (commitDelay maxHistory maxValidators : Nat) (b : Hdr) :
    validators get commitDelay maxHistory maxValidators b =
      (distinct ((back get maxHistory (findPrev get commitDelay b)).filterMap (·.key))).take maxValidators := by
  unfold validators
  rw [collect_eq get maxValidators maxHistory _ [] (Nat.zero_le _), List.nil_append, fresh_nil]

/-- **C140.** So there are at most `max_validators`, each once; each made a block; and if one who made a block is none of
    them there are `max_validators` others. -/
theorem C140_count (get : Nat → Option Hdr) (commitDelay maxHistory maxValidators : Nat) (b : Hdr) :
    (validators get commitDelay maxHistory maxValidators b).length ≤ maxValidators ∧
    (validators get commitDelay maxHistory maxValidators b).Nodup ∧
    (∀ k ∈ validators get commitDelay maxHistory maxValidators b,
      ∃ h ∈ back get maxHistory (findPrev get commitDelay b), h.key = some k) ∧
    (∀ h ∈ back get maxHistory (findPrev get commitDelay b), ∀ k, h.key = some k →
      k ∉ validators get commitDelay maxHistory maxValidators b →
      (validators get commitDelay maxHistory maxValidators b).length = maxValidators) := by
  rw [C140_validators]
  refine ⟨List.length_take_le _ _, (distinct_nodup _).sublist (List.take_sublist _ _), fun k hk => ?_,
    fun h hh k hk hn => ?_⟩
  · have := distinct_mem.1 ((List.take_sublist _ _).subset hk)
    obtain ⟨h, h1, h2⟩ := List.mem_filterMap.1 this
    exact ⟨h, h1, h2⟩
  · have hm : k ∈ distinct ((back get maxHistory (findPrev get commitDelay b)).filterMap (·.key)) :=
      distinct_mem.2 (List.mem_filterMap.2 ⟨h, hh, hk⟩)
    rw [List.length_take]
    by_cases hl : maxValidators ≤ (distinct ((back get maxHistory (findPrev get commitDelay b)).filterMap (·.key))).length
    · exact Nat.min_eq_left hl
    · rw [List.take_of_length_le (by omega)] at hn
      exact absurd hm hn

theorem distinct_append : ∀ (l r : List Nat), distinct (l ++ r) = distinct l ++ fresh l r
  | [], r => by rw [fresh_nil]; rfl
  | a :: l, r => by
    rw [List.cons_append]
    unfold distinct
    rw [distinct_append l r, List.filter_append, List.cons_append]
    congr 2
    unfold fresh
    rw [List.filter_filter]
    refine List.filter_congr fun x _ => ?_
    by_cases h1 : x = a <;> by_cases h2 : x ∈ l <;> simp [h1, h2]

theorem back_prefix {get get' : Nat → Option Hdr} (hg : ∀ h x, get h = some x → get' h = some x) :
    ∀ {n n' : Nat} {b b' : Option Hdr}, n ≤ n' → (∀ x, b = some x → b' = some x) → back get n b <+: back get' n' b'
  | 0, n', b, b', _, _ => List.nil_prefix
  | n + 1, n', none, b', _, _ => List.nil_prefix
  | n + 1, 0, some x, b', hn, _ => absurd hn (by omega)
  | n + 1, n' + 1, some x, b', hn, hb => by
    rw [hb x rfl]
    unfold back
    exact (List.prefix_cons_inj x).2 (back_prefix hg (by omega) (hg x.prev))

theorem findPrev_mono {get get' : Nat → Option Hdr} (hg : ∀ h x, get h = some x → get' h = some x) :
    ∀ {n : Nat} {b x : Hdr}, findPrev get n b = some x → findPrev get' n b = some x
  | 0, _, _, h => h
  | n + 1, b, x, h => by
    unfold findPrev at h ⊢
    cases hp : get b.prev with
    | none => rw [hp] at h; cases h
    | some p =>
      rw [hp] at h
      rw [hg _ _ hp]
      exact findPrev_mono hg h

/-- **C140.** Two nodes agree on the validators of a block, even if one knows more headers and has a longer history, as
    soon as the other finds `max_validators`.  Partial: otherwise only for the same headers and history
    (`C140_setting`). -/
theorem C140_agree_partial {get get' : Nat → Option Hdr} (hg : ∀ h x, get h = some x → get' h = some x)
    {commitDelay maxHistory maxHistory' maxValidators : Nat} (hh : maxHistory ≤ maxHistory') (b : Hdr)
    (hf : (validators get commitDelay maxHistory maxValidators b).length = maxValidators) :
    validators get' commitDelay maxHistory' maxValidators b = validators get commitDelay maxHistory maxValidators b := by
  rw [C140_validators] at hf ⊢
  rw [C140_validators]
  obtain ⟨r, hr⟩ := back_prefix hg (b := findPrev get commitDelay b) (b' := findPrev get' commitDelay b) hh
    (fun x => findPrev_mono hg)
  rw [← hr, List.filterMap_append, distinct_append]
  rw [List.length_take] at hf
  exact List.take_append_of_le_length (by omega)

/-- **C140.** That all nodes agree is false: `max_history` is a setting of each node.  With fewer farmers than
    `max_validators` within the history of one of them, its votes count for a node with a different setting or do not. -/
theorem C140_setting : ∃ (get : Nat → Option Hdr) (b : Hdr), ∃ k,
    k ∈ validators get 2 1000 11 b ∧ k ∉ validators get 2 3 11 b :=
  ⟨fun n => if n = 0 then none else some ⟨n - 1, some (n / 4)⟩, ⟨9, some 2⟩, 0, by decide +kernel, by decide +kernel⟩

/-- The case of C140_agree_partial is not empty. -/
example : (validators (fun n => if n = 0 then none else some ⟨n - 1, some (n / 4)⟩) 2 8 2 ⟨9, some 2⟩) = [2, 1] := by
  decide +kernel

/-! ### C141 -/

/-- What is recorded is at least as late as what was published, and nothing is later than now. -/
structure Inv (s : Voter) : Prop where
  kept : ∀ v ∈ s.log, ∃ h t, lookup v.prev s.voted = some (h, t) ∧ v.time ≤ t
  past : ∀ p h t, lookup p s.voted = some (h, t) → t ≤ s.clock

/-- Votes of the same key for blocks with the same predecessor are more than the interval apart. -/
def Apart (interval : Nat) (log : List Cast) : Prop :=
  log.Pairwise fun v w => v.key = w.key → v.prev = w.prev → w.time + interval < v.time

theorem loop_spec (e : Env) (b : Blk) (lo interval : Nat) : ∀ (l : List Nat) (s : Voter), l.Nodup → Inv s →
    Apart interval s.log → lo ≤ s.clock →
    (∀ v ∈ s.log, v.prev = b.prev → v.time + interval < lo ∨ v.key ∉ l) →
    Inv (voteLoop e b l s) ∧ Apart interval (voteLoop e b l s).log ∧ s.clock ≤ (voteLoop e b l s).clock ∧
    (∀ p, p ≠ b.prev → lookup p (voteLoop e b l s).voted = lookup p s.voted) ∧
    (lookup b.prev (voteLoop e b l s).voted = lookup b.prev s.voted ∨
      ∃ t, lookup b.prev (voteLoop e b l s).voted = some (b.hash, t) ∧ lo ≤ t)
  | [], s, _, hi, ha, _, _ => ⟨hi, ha, Nat.le_refl _, fun _ _ => rfl, .inl rfl⟩
  | k :: l, s, hn, hi, ha, hc, hv => by
    unfold voteLoop
    have hn := List.nodup_cons.1 hn
    cases hf : e.farmer k with
    | none =>
      exact loop_spec e b lo interval l s hn.2 hi ha hc fun v h1 h2 =>
        (hv v h1 h2).elim .inl fun z => .inr fun z' => z (List.mem_cons_of_mem _ z')
    | some signs =>
      dsimp only
      let s' : Voter :=
        { clock := s.clock + e.delay k
          voted := (b.prev, b.hash, s.clock + e.delay k) :: s.voted
          log := if signs then ⟨k, b.prev, b.hash, s.clock + e.delay k⟩ :: s.log else s.log }
      have hmem : ∀ v ∈ s'.log, v = ⟨k, b.prev, b.hash, s.clock + e.delay k⟩ ∨ v ∈ s.log := by
        intro v h
        have h : v ∈ if signs then (⟨k, b.prev, b.hash, s.clock + e.delay k⟩ : Cast) :: s.log else s.log := h
        cases signs with
        | false => exact .inr h
        | true => exact List.mem_cons.1 h
      have hsame : lookup b.prev s'.voted = some (b.hash, s.clock + e.delay k) := if_pos rfl
      have hother : ∀ p, p ≠ b.prev → lookup p s'.voted = lookup p s.voted := fun p hp => if_neg (Ne.symm hp)
      have hi' : Inv s' := by
        constructor
        · intro v h
          rcases hmem v h with rfl | h
          · exact ⟨_, _, hsame, Nat.le_refl _⟩
          · obtain ⟨h0, t, h1, h2⟩ := hi.kept v h
            by_cases hp : v.prev = b.prev
            · rw [hp]
              refine ⟨_, _, hsame, ?_⟩
              have := hi.past _ _ _ h1
              omega
            · exact ⟨h0, t, by rw [hother _ hp]; exact h1, h2⟩
        · intro p h t hl
          by_cases hp : p = b.prev
          · subst hp
            rw [hsame] at hl
            cases hl
            exact Nat.le_refl _
          · rw [hother _ hp] at hl
            exact Nat.le_trans (hi.past _ _ _ hl) (Nat.le_add_right _ _)
      have ha' : Apart interval s'.log := by
        show Apart interval (if signs then (⟨k, b.prev, b.hash, s.clock + e.delay k⟩ : Cast) :: s.log else s.log)
        cases signs with
        | false => exact ha
        | true =>
          refine List.pairwise_cons.2 ⟨fun w hw h1 h2 => ?_, ha⟩
          have h1 : k = w.key := h1
          have h2 : b.prev = w.prev := h2
          rcases hv w hw h2.symm with h | h
          · show _ < s.clock + e.delay k
            omega
          · exact absurd (h1 ▸ List.mem_cons_self) h
      have hv' : ∀ v ∈ s'.log, v.prev = b.prev → v.time + interval < lo ∨ v.key ∉ l := by
        intro v h1 h2
        rcases hmem v h1 with rfl | h1
        · exact .inr hn.1
        · exact (hv v h1 h2).elim .inl fun z => .inr fun z' => z (List.mem_cons_of_mem _ z')
      obtain ⟨r1, r2, r3, r4, r5⟩ := loop_spec e b lo interval l s' hn.2 hi' ha'
        (Nat.le_trans hc (Nat.le_add_right _ _)) hv'
      refine ⟨r1, r2, Nat.le_trans (Nat.le_add_right _ _) r3, fun p hp => by rw [r4 p hp, hother p hp], .inr ?_⟩
      rcases r5 with r5 | r5
      · rw [hsame] at r5
        exact ⟨_, r5, by omega⟩
      · exact r5

theorem peak_spec (e : Env) (interval : Nat) (s : Voter) (hv : ∀ b, e.peak = some b → b.validators.Nodup) (hi : Inv s)
    (ha : Apart interval s.log) :
    Inv (votePeak e s) ∧ Apart interval (votePeak e s).log ∧ s.clock ≤ (votePeak e s).clock := by
  unfold votePeak
  cases hp : e.peak with
  | none => exact ⟨hi, ha, Nat.le_refl _⟩
  | some b =>
    dsimp only
    by_cases hc : b.height ≠ 0 ∧ lookup b.prev s.voted = none ∧ e.best = true
    · rw [if_pos hc]
      obtain ⟨r1, r2, r3, _⟩ := loop_spec e b s.clock interval b.validators s (hv b hp) hi ha (Nat.le_refl _) (by
        intro v h1 h2
        obtain ⟨_, _, h3, _⟩ := hi.kept v h1
        rw [h2, hc.2.1] at h3
        cases h3)
      exact ⟨r1, r2, r3⟩
    · rw [if_neg hc]
      exact ⟨hi, ha, Nat.le_refl _⟩

theorem again_spec (e : Env) (interval now : Nat) (s : Voter) (b : Blk) (hv : b.validators.Nodup) (hi : Inv s)
    (ha : Apart interval s.log) (hn : now ≤ s.clock) :
    Inv (voteAgain e interval now s b) ∧ Apart interval (voteAgain e interval now s b).log ∧
    s.clock ≤ (voteAgain e interval now s b).clock := by
  unfold voteAgain
  cases hp : lookup b.prev s.voted with
  | none => exact ⟨hi, ha, Nat.le_refl _⟩
  | some r =>
    obtain ⟨h, t⟩ := r
    dsimp only
    by_cases hc : h ≠ b.hash ∧ t + interval < now
    · rw [if_pos hc]
      obtain ⟨r1, r2, r3, _⟩ := loop_spec e b now interval b.validators s hv hi ha hn (by
        intro v h1 h2
        obtain ⟨_, _, h3, h4⟩ := hi.kept v h1
        rw [h2, hp] at h3
        cases h3
        left
        omega)
      exact ⟨r1, r2, r3⟩
    · rw [if_neg hc]
      exact ⟨hi, ha, Nat.le_refl _⟩

/-- The validators of a fork are the keys of a map. -/
def Env.Ok (e : Env) : Prop := (∀ b, e.peak = some b → b.validators.Nodup) ∧ ∀ b ∈ e.line, b.validators.Nodup

theorem line_spec (e : Env) (interval now : Nat) : ∀ (l : List Blk) (s : Voter), (∀ b ∈ l, b.validators.Nodup) → Inv s →
    Apart interval s.log → now ≤ s.clock →
    Inv (l.foldl (voteAgain e interval now) s) ∧ Apart interval (l.foldl (voteAgain e interval now) s).log
  | [], s, _, hi, ha, _ => ⟨hi, ha⟩
  | b :: l, s, hv, hi, ha, hn => by
    obtain ⟨h1, h2, h3⟩ := again_spec e interval now s b (hv b List.mem_cons_self) hi ha hn
    exact line_spec e interval now l _ (fun c hc => hv c (List.mem_cons_of_mem _ hc)) h1 h2 (Nat.le_trans hn h3)

theorem update_inv (interval : Nat) (s : Voter) (e : Env) (he : e.Ok) (hi : Inv s) (ha : Apart interval s.log) :
    Inv (update interval s e) ∧ Apart interval (update interval s e).log := by
  unfold update
  dsimp only
  have hi' : Inv { s with clock := s.clock + e.wait } :=
    ⟨hi.kept, fun p h t hl => Nat.le_trans (hi.past p h t hl) (Nat.le_add_right _ _)⟩
  obtain ⟨h1, h2, h3⟩ := peak_spec e interval _ he.1 hi' ha
  exact line_spec e interval _ e.line _ he.2 h1 h2 h3

theorem run_inv (interval : Nat) : ∀ (es : List Env), (∀ e ∈ es, e.Ok) → ∀ s, Inv s → Apart interval s.log →
    Inv (es.foldl (update interval) s) ∧ Apart interval (es.foldl (update interval) s).log
  | [], _, s, hi, ha => ⟨hi, ha⟩
  | e :: es, he, s, hi, ha => by
    obtain ⟨h1, h2⟩ := update_inv interval s e (he e List.mem_cons_self) hi ha
    exact run_inv interval es (fun e' h => he e' (List.mem_cons_of_mem _ h)) _ h1 h2

/-- **C141.** A node that runs does not vote for two blocks with the same predecessor, nor twice for the same block, with
    the same key within a block interval: any two of its votes with the same key and the same predecessor are further
    apart. -/
theorem C141_apart (interval : Nat) (es : List Env) (he : ∀ e ∈ es, e.Ok) :
    (run interval es).log.Pairwise fun v w => v.key = w.key → v.prev = w.prev → w.time + interval < v.time :=
  (run_inv interval es he Voter.init ⟨fun _ h => absurd h List.not_mem_nil, fun _ _ _ h => (nomatch h)⟩ List.Pairwise.nil).2

/-! #### when it votes -/

/-- The votes of a round. -/
theorem loop_log (e : Env) (b : Blk) : ∀ (l : List Nat) (s : Voter), ∃ new, (voteLoop e b l s).log = new ++ s.log ∧
    (∀ v ∈ new, v.prev = b.prev ∧ v.hash = b.hash ∧ v.key ∈ l ∧ e.farmer v.key = some true ∧ s.clock ≤ v.time) ∧
    ∀ k ∈ l, e.farmer k = some true → ∃ v ∈ new, v.key = k
  | [], s => ⟨[], rfl, fun _ h => absurd h List.not_mem_nil, fun _ h => absurd h List.not_mem_nil⟩
  | k :: l, s => by
    unfold voteLoop
    cases hf : e.farmer k with
    | none =>
      obtain ⟨new, h1, h2, h3⟩ := loop_log e b l s
      refine ⟨new, h1, fun v hv => ?_, fun k' hk hs => ?_⟩
      · obtain ⟨a1, a2, a3, a4, a5⟩ := h2 v hv
        exact ⟨a1, a2, List.mem_cons_of_mem _ a3, a4, a5⟩
      · rcases List.mem_cons.1 hk with rfl | hk
        · rw [hf] at hs; cases hs
        · exact h3 k' hk hs
    | some signs =>
      dsimp only
      obtain ⟨new, h1, h2, h3⟩ := loop_log e b l
        { clock := s.clock + e.delay k
          voted := (b.prev, b.hash, s.clock + e.delay k) :: s.voted
          log := if signs then ⟨k, b.prev, b.hash, s.clock + e.delay k⟩ :: s.log else s.log }
      rw [h1]
      cases signs with
      | false =>
        refine ⟨new, rfl, fun v hv => ?_, fun k' hk hs => ?_⟩
        · obtain ⟨a1, a2, a3, a4, a5⟩ := h2 v hv
          exact ⟨a1, a2, List.mem_cons_of_mem _ a3, a4, Nat.le_trans (Nat.le_add_right _ _) a5⟩
        · rcases List.mem_cons.1 hk with rfl | hk
          · rw [hf] at hs; cases hs
          · exact h3 k' hk hs
      | true =>
        refine ⟨new ++ [⟨k, b.prev, b.hash, s.clock + e.delay k⟩], ?_, fun v hv => ?_, fun k' hk hs => ?_⟩
        · rw [List.append_assoc]; rfl
        · rcases List.mem_append.1 hv with hv | hv
          · obtain ⟨a1, a2, a3, a4, a5⟩ := h2 v hv
            exact ⟨a1, a2, List.mem_cons_of_mem _ a3, a4, Nat.le_trans (Nat.le_add_right _ _) a5⟩
          · rw [List.mem_singleton] at hv
            subst hv
            exact ⟨rfl, rfl, List.mem_cons_self, hf, Nat.le_add_right _ _⟩
        · rcases List.mem_cons.1 hk with rfl | hk
          · exact ⟨_, List.mem_append_right _ (List.mem_singleton.2 rfl), rfl⟩
          · obtain ⟨v, hv, e1⟩ := h3 k' hk hs
            exact ⟨v, List.mem_append_left _ hv, e1⟩

/-- After a round for a block, what is recorded for its predecessor is this block, or it is as before and nothing was
    published. -/
theorem loop_voted (e : Env) (b : Blk) : ∀ (l : List Nat) (s : Voter),
    (∀ p, p ≠ b.prev → lookup p (voteLoop e b l s).voted = lookup p s.voted) ∧
    (voteLoop e b l s = s ∨ ∃ t, lookup b.prev (voteLoop e b l s).voted = some (b.hash, t) ∧ s.clock ≤ t) ∧
    s.clock ≤ (voteLoop e b l s).clock
  | [], s => ⟨fun _ _ => rfl, .inl rfl, Nat.le_refl _⟩
  | k :: l, s => by
    unfold voteLoop
    cases hf : e.farmer k with
    | none => exact loop_voted e b l s
    | some signs =>
      dsimp only
      obtain ⟨h1, h2, h3⟩ := loop_voted e b l
        { clock := s.clock + e.delay k
          voted := (b.prev, b.hash, s.clock + e.delay k) :: s.voted
          log := if signs then ⟨k, b.prev, b.hash, s.clock + e.delay k⟩ :: s.log else s.log }
      refine ⟨fun p hp => ?_, .inr ?_, Nat.le_trans (Nat.le_add_right _ _) h3⟩
      · rw [h1 p hp]
        exact if_neg (Ne.symm hp)
      · rcases h2 with h2 | ⟨t, h2, h4⟩
        · rw [h2]
          exact ⟨_, if_pos rfl, Nat.le_add_right _ _⟩
        · exact ⟨t, h2, Nat.le_trans (Nat.le_add_right _ _) h4⟩

/-- Why a node votes for a block in an update that begins in state `s`: it is the peak, has the best proof and nothing is
    recorded for its predecessor; or it is on the line to the peak and something else was recorded more than the
    interval ago. -/
def Reason (interval : Nat) (s : Voter) (e : Env) (b : Blk) : Prop :=
  (e.peak = some b ∧ b.height ≠ 0 ∧ e.best = true ∧ lookup b.prev s.voted = none) ∨
  (b ∈ e.line ∧ ∃ h t, lookup b.prev s.voted = some (h, t) ∧ h ≠ b.hash ∧ t + interval < s.clock + e.wait)

/-- What is recorded in the course of an update is what was before it, or is new. -/
def Since (s : Voter) (now : Nat) (s' : Voter) : Prop :=
  now ≤ s'.clock ∧ ∀ p, lookup p s'.voted = lookup p s.voted ∨ ∃ h t, lookup p s'.voted = some (h, t) ∧ now ≤ t

theorem since_loop {s s' : Voter} {now : Nat} (e : Env) (b : Blk) (l : List Nat) (h : Since s now s') :
    Since s now (voteLoop e b l s') := by
  obtain ⟨h1, h2, h3⟩ := loop_voted e b l s'
  refine ⟨Nat.le_trans h.1 h3, fun p => ?_⟩
  by_cases hp : p = b.prev
  · subst hp
    rcases h2 with h2 | ⟨t, h2, h4⟩
    · rw [h2]; exact h.2 _
    · exact .inr ⟨_, t, h2, Nat.le_trans h.1 h4⟩
  · rw [h1 p hp]; exact h.2 p

theorem line_log (e : Env) (interval : Nat) (s : Voter) : ∀ (l : List Blk) (s' : Voter),
    (∀ b ∈ l, b ∈ e.line) → Since s (s.clock + e.wait) s' →
    ∃ new, (l.foldl (voteAgain e interval (s.clock + e.wait)) s').log = new ++ s'.log ∧
      ∀ v ∈ new, ∃ b, Reason interval s e b ∧ v.prev = b.prev ∧ v.hash = b.hash ∧ v.key ∈ b.validators ∧
        e.farmer v.key = some true
  | [], s', _, _ => ⟨[], rfl, fun _ h => absurd h List.not_mem_nil⟩
  | b :: l, s', hl, hs => by
    have key : ∃ new, (voteAgain e interval (s.clock + e.wait) s' b).log = new ++ s'.log ∧
        (∀ v ∈ new, ∃ b, Reason interval s e b ∧ v.prev = b.prev ∧ v.hash = b.hash ∧ v.key ∈ b.validators ∧
          e.farmer v.key = some true) ∧ Since s (s.clock + e.wait) (voteAgain e interval (s.clock + e.wait) s' b) := by
      unfold voteAgain
      cases hp : lookup b.prev s'.voted with
      | none => exact ⟨[], rfl, fun _ h => absurd h List.not_mem_nil, hs⟩
      | some r =>
        obtain ⟨h, t⟩ := r
        dsimp only
        by_cases hc : h ≠ b.hash ∧ t + interval < s.clock + e.wait
        · rw [if_pos hc]
          obtain ⟨new, h1, h2, _⟩ := loop_log e b b.validators s'
          refine ⟨new, h1, fun v hv => ?_, since_loop e b _ hs⟩
          obtain ⟨a1, a2, a3, a4, _⟩ := h2 v hv
          refine ⟨b, .inr ⟨hl b List.mem_cons_self, h, t, ?_, hc⟩, a1, a2, a3, a4⟩
          rcases hs.2 b.prev with h3 | ⟨h', t', h3, h4⟩
          · rw [← h3]; exact hp
          · rw [hp] at h3
            cases h3
            omega
        · rw [if_neg hc]
          exact ⟨[], rfl, fun _ h => absurd h List.not_mem_nil, hs⟩
    obtain ⟨new, h1, h2, h3⟩ := key
    obtain ⟨new', g1, g2⟩ := line_log e interval s l _ (fun c hc => hl c (List.mem_cons_of_mem _ hc)) h3
    refine ⟨new' ++ new, ?_, fun v hv => ?_⟩
    · rw [List.foldl_cons, g1, h1, List.append_assoc]
    · rcases List.mem_append.1 hv with hv | hv
      · exact g2 v hv
      · exact h2 v hv

/-- **C141.** An update publishes votes only for the peak, if it has the best proof seen and the node has not voted on
    that predecessor yet, and for blocks on the line to the peak, if it voted for another one instead and a block interval
    has passed; and only with keys of validators of the block whose farmers are registered. -/
theorem C141_when (interval : Nat) (s : Voter) (e : Env) :
    ∃ new, (update interval s e).log = new ++ s.log ∧
      ∀ v ∈ new, ∃ b, Reason interval s e b ∧ v.prev = b.prev ∧ v.hash = b.hash ∧ v.key ∈ b.validators ∧
        e.farmer v.key = some true := by
  unfold update
  dsimp only
  have h0 : Since s (s.clock + e.wait) { s with clock := s.clock + e.wait } := ⟨Nat.le_refl _, fun p => .inl rfl⟩
  have key : ∃ new, (votePeak e { s with clock := s.clock + e.wait }).log = new ++ s.log ∧
      (∀ v ∈ new, ∃ b, Reason interval s e b ∧ v.prev = b.prev ∧ v.hash = b.hash ∧ v.key ∈ b.validators ∧
        e.farmer v.key = some true) ∧
      Since s (s.clock + e.wait) (votePeak e { s with clock := s.clock + e.wait }) := by
    unfold votePeak
    cases hp : e.peak with
    | none => exact ⟨[], rfl, fun _ h => absurd h List.not_mem_nil, h0⟩
    | some b =>
      dsimp only
      by_cases hc : b.height ≠ 0 ∧ lookup b.prev s.voted = none ∧ e.best = true
      · rw [if_pos hc]
        obtain ⟨new, h1, h2, _⟩ := loop_log e b b.validators { s with clock := s.clock + e.wait }
        refine ⟨new, h1, fun v hv => ?_, since_loop e b _ h0⟩
        obtain ⟨a1, a2, a3, a4, _⟩ := h2 v hv
        exact ⟨b, .inl ⟨hp, hc.1, hc.2.2, hc.2.1⟩, a1, a2, a3, a4⟩
      · rw [if_neg hc]
        exact ⟨[], rfl, fun _ h => absurd h List.not_mem_nil, h0⟩
  obtain ⟨new, h1, h2, h3⟩ := key
  obtain ⟨new', g1, g2⟩ := line_log e interval s e.line _ (fun _ h => h) h3
  refine ⟨new' ++ new, ?_, fun v hv => ?_⟩
  · rw [g1, h1, List.append_assoc]
  · rcases List.mem_append.1 hv with hv | hv
    · exact g2 v hv
    · exact h2 v hv

theorem again_mono (e : Env) (interval now : Nat) (s : Voter) (b : Blk) {v : Cast} (h : v ∈ s.log) :
    v ∈ (voteAgain e interval now s b).log := by
  unfold voteAgain
  cases hp : lookup b.prev s.voted with
  | none => exact h
  | some r =>
    obtain ⟨h', t⟩ := r
    dsimp only
    by_cases hc : h' ≠ b.hash ∧ t + interval < now
    · rw [if_pos hc]
      obtain ⟨new, h1, _⟩ := loop_log e b b.validators s
      rw [h1]
      exact List.mem_append_right _ h
    · rw [if_neg hc]; exact h

theorem fold_mono (e : Env) (interval now : Nat) : ∀ (l : List Blk) (s : Voter) {v : Cast}, v ∈ s.log →
    v ∈ (l.foldl (voteAgain e interval now) s).log
  | [], _, _, h => h
  | b :: l, s, _, h => fold_mono e interval now l _ (again_mono e interval now s b h)

/-- **C141.** It does vote, with every key of a validator whose farmer signs: for the peak if it has the best proof and
    nothing is recorded for its predecessor, and, when the block that it voted for is off the line, for the one on the line
    if a block interval has passed.  No two blocks of a line have the same predecessor. -/
theorem C141_votes (interval : Nat) (s : Voter) (e : Env) (hl : (e.line.map (·.prev)).Nodup) {b : Blk}
    (hr : Reason interval s e b) {k : Nat} (hk : k ∈ b.validators) (hf : e.farmer k = some true) :
    ∃ v ∈ (update interval s e).log, v.key = k ∧ v.prev = b.prev ∧ v.hash = b.hash := by
  unfold update
  dsimp only
  rcases hr with ⟨h1, h2, h3, h4⟩ | ⟨h1, h, t, h2, h3, h4⟩
  · have hv : votePeak e { s with clock := s.clock + e.wait } =
        voteLoop e b b.validators { s with clock := s.clock + e.wait } := by
      unfold votePeak
      rw [h1]
      dsimp only
      rw [if_pos ⟨h2, h4, h3⟩]
    rw [hv]
    obtain ⟨new, g1, g2, g3⟩ := loop_log e b b.validators { s with clock := s.clock + e.wait }
    obtain ⟨v, hv, e1⟩ := g3 k hk hf
    refine ⟨v, fold_mono _ _ _ _ _ ?_, e1, (g2 v hv).1, (g2 v hv).2.1⟩
    rw [g1]
    exact List.mem_append_left _ hv
  · have h0 : lookup b.prev (votePeak e { s with clock := s.clock + e.wait }).voted = some (h, t) := by
      unfold votePeak
      cases hp : e.peak with
      | none => exact h2
      | some c =>
        dsimp only
        by_cases hc : c.height ≠ 0 ∧ lookup c.prev s.voted = none ∧ e.best = true
        · rw [if_pos hc]
          have hne : b.prev ≠ c.prev := by
            intro e1
            rw [e1, hc.2.1] at h2
            cases h2
          rw [(loop_voted e c c.validators _).1 _ hne]
          exact h2
        · rw [if_neg hc]; exact h2
    have key : ∀ (l : List Blk) (s' : Voter), (l.map (·.prev)).Nodup → b ∈ l → lookup b.prev s'.voted = some (h, t) →
        ∃ v ∈ (l.foldl (voteAgain e interval (s.clock + e.wait)) s').log, v.key = k ∧ v.prev = b.prev ∧ v.hash = b.hash := by
      intro l
      induction l with
      | nil => intro s' _ hb; exact absurd hb List.not_mem_nil
      | cons c l ih =>
        intro s' hn hb hs
        rw [List.map_cons] at hn
        have hn := List.nodup_cons.1 hn
        rw [List.foldl_cons]
        rcases List.mem_cons.1 hb with rfl | hb
        · have hv : voteAgain e interval (s.clock + e.wait) s' b = voteLoop e b b.validators s' := by
            unfold voteAgain
            rw [hs]
            dsimp only
            rw [if_pos ⟨h3, h4⟩]
          rw [hv]
          obtain ⟨new, g1, g2, g3⟩ := loop_log e b b.validators s'
          obtain ⟨v, hv, e1⟩ := g3 k hk hf
          refine ⟨v, fold_mono _ _ _ _ _ ?_, e1, (g2 v hv).1, (g2 v hv).2.1⟩
          rw [g1]
          exact List.mem_append_left _ hv
        · refine ih _ hn.2 hb ?_
          have hne : b.prev ≠ c.prev := fun e1 => hn.1 (e1 ▸ List.mem_map.2 ⟨b, hb, rfl⟩)
          unfold voteAgain
          cases hq : lookup c.prev s'.voted with
          | none => exact hs
          | some r =>
            obtain ⟨h', t'⟩ := r
            dsimp only
            by_cases hc : h' ≠ c.hash ∧ t' + interval < s.clock + e.wait
            · rw [if_pos hc, (loop_voted e c c.validators _).1 _ hne]; exact hs
            · rw [if_neg hc]; exact hs
    exact key e.line _ hl h1 h0

/-- Every farmer is registered and signs at once. -/
def exEnv (wait : Nat) (peak : Blk) (best : Bool) : Env :=
  { wait := wait, peak := some peak, best := best, line := [peak], farmer := fun _ => some true, delay := fun _ => 0 }

/-- **C141.** That a node votes only for blocks with the best proof it has seen is false: when it votes again, for a block on
    its line in place of the one it voted for, the proof of the block is not looked at.  Nodes that know the better proof
    drop such a vote (src/Node_update.cpp:124-127). -/
theorem C141_weaker : ∃ es : List Env, es = [exEnv 5 ⟨7, 1, 2, [4]⟩ true, exEnv 10001 ⟨7, 1, 3, [4]⟩ false] ∧
    (run 10000 es).log.map (fun v => (v.key, v.prev, v.hash)) = [(4, 1, 3), (4, 1, 2)] :=
  ⟨_, rfl, by decide⟩

/-- The cases are not empty: a vote, none again within the interval, and a vote for the other block after it. -/
example : (exEnv 5 ⟨7, 1, 2, [4, 9]⟩ true).Ok ∧
    (run 10000 [exEnv 5 ⟨7, 1, 2, [4, 9]⟩ true, exEnv 10000 ⟨7, 1, 3, [4, 9]⟩ true]).log.length = 2 ∧
    (run 10000 [exEnv 5 ⟨7, 1, 2, [4, 9]⟩ true, exEnv 10001 ⟨7, 1, 3, [4, 9]⟩ true]).log.length = 4 := by
  refine ⟨⟨fun b h => ?_, fun b h => ?_⟩, by decide, by decide⟩
  · cases h; decide
  · rw [List.mem_singleton.1 h]; decide

end Verif.Rules
