import Verif.VM.Var
/- Helper lemmas for the properties of contract values. -/
namespace Verif.VM
open Verif.Codec (Bytes le)

theorem le_length : ∀ k n, (le k n).length = k
  | 0, _ => rfl
  | k + 1, n => by simp [le, le_length k]

theorem le_byte : ∀ k n, ∀ x ∈ le k n, x < 256
  | 0, _, x, h => by simp [le] at h
  | k + 1, n, x, h => by
    simp only [le, List.mem_cons] at h
    rcases h with rfl | h
    · exact Nat.mod_lt _ (by decide)
    · exact le_byte k _ x h

theorem leNat_le : ∀ k n, n < 256 ^ k → leNat (le k n) = n
  | 0, n, h => by simp at h; simp [le, leNat, h]
  | k + 1, n, h => by
    simp only [le, leNat]
    rw [leNat_le k (n / 256) (by rw [Nat.div_lt_iff_lt_mul (by decide)]; rwa [Nat.pow_succ] at h)]
    omega

theorem leNat_lt : ∀ s : Bytes, (∀ x ∈ s, x < 256) → leNat s < 256 ^ s.length
  | [], _ => by simp [leNat]
  | b :: l, h => by
    have := leNat_lt l (fun x hx => h x (List.mem_cons_of_mem _ hx))
    have hb := h b (List.mem_cons_self ..)
    simp only [leNat, List.length_cons, Nat.pow_succ]
    omega

theorem rd_le {k n : Nat} (t : Bytes) (h : n < 256 ^ k) : rd k (le k n ++ t) = .ok (n, t) := by
  unfold rd
  rw [if_neg (by simp [le_length])]
  have h1 : (le k n ++ t).take k = le k n := by
    rw [List.take_append_of_le_length (by simp [le_length]), List.take_of_length_le (by simp [le_length])]
  have h2 : (le k n ++ t).drop k = t := by
    rw [List.drop_append_of_le_length (by simp [le_length]), List.drop_of_length_le (by simp [le_length]),
      List.nil_append]
  rw [h1, h2, leNat_le k n h]

theorem rd_cons {n : Nat} (t : Bytes) (_h : n < 256) : rd 1 (n :: t) = .ok (n, t) := by
  simp [rd, leNat]

theorem rdBytes_ser (b t : Bytes) (h : b.length < 2 ^ 32 - 1) :
    rdBytes (le 4 b.length ++ b ++ t) = .ok (b, t) := by
  unfold rdBytes
  rw [List.append_assoc, rd_le _ (by omega)]
  simp only [Res.bind_ok]
  rw [Res.chk, if_pos (by simp), Res.bind_ok, Res.chk, if_pos (by omega), Res.bind_ok]
  simp

theorem desVal_ser (v : Val) (h : v.Wf) (t : Bytes) : desVal (serVal v ++ t) = .ok (v, t) := by
  cases v with
  | nil => simp [serVal, Val.code, desVal, rd_cons]
  | fls => simp [serVal, Val.code, desVal, rd_cons]
  | tru => simp [serVal, Val.code, desVal, rd_cons]
  | ref a => simp [Val.Wf] at h; simp [serVal, desVal, rd_cons, rd_le (k := 8) t (by omega : a < 256 ^ 8)]
  | map a => simp [Val.Wf] at h; simp [serVal, desVal, rd_cons, rd_le (k := 8) t (by omega : a < 256 ^ 8)]
  | uint v =>
    simp only [Val.Wf] at h
    simp only [serVal]
    split
    · simp [desVal, rd_cons, rd_le (k := 32) t (by omega : v < 256 ^ 32)]
    split
    · rename_i h1 h2
      have : v < 256 ^ 16 := by omega
      simp [desVal, rd_cons, rd_le (k := 16) t this]
    split
    · have : v < 256 ^ 8 := by omega
      simp [desVal, rd_cons, rd_le (k := 8) t this]
    split
    · have : v < 256 ^ 4 := by omega
      simp [desVal, rd_cons, rd_le (k := 4) t this]
    · have : v < 256 ^ 2 := by omega
      simp [desVal, rd_cons, rd_le (k := 2) t this]
  | str b =>
    have := rdBytes_ser b t h.1
    rw [List.append_assoc] at this
    simp [serVal, desVal, rd_cons, this]
  | bin b =>
    have := rdBytes_ser b t h.1
    rw [List.append_assoc] at this
    simp [serVal, desVal, rd_cons, this]
  | arr a n =>
    obtain ⟨h1, h2⟩ := h
    simp only [serVal, List.cons_append, desVal, rd_cons _ (by decide : 7 < 256), Res.bind_ok]
    rw [Res.chk, if_pos (by simp [le_length]; omega), Res.bind_ok, List.append_assoc,
      rd_le (k := 8) _ (by omega), Res.bind_ok]
    dsimp only
    rw [rd_le (k := 4) _ (by omega), Res.bind_ok]

/-! How much of the input a parser looks at: it returns a suffix of its input, and the same
    result for any other continuation. -/

/-- `f` consumes a non-strict prefix and ignores what follows. -/
def Local {α : Type} (f : Bytes → Res (α × Bytes)) : Prop :=
  ∀ s a r, f s = .ok (a, r) → ∃ p, s = p ++ r ∧ ∀ t, f (p ++ t) = .ok (a, t)

theorem local_rd (n : Nat) : Local (rd n) := by
  intro s a r h
  unfold rd at h
  split at h
  · cases h
  · rename_i hl
    cases h
    refine ⟨s.take n, (List.take_append_drop n s).symm, fun t => ?_⟩
    have hlen : (s.take n).length = n := by simp; omega
    unfold rd
    rw [if_neg (by simp [hlen])]
    rw [List.take_append_of_le_length (by omega), List.take_of_length_le (by omega),
      List.drop_append_of_le_length (by omega), List.drop_of_length_le (by omega), List.nil_append]

theorem local_bind {α β : Type} {f : Bytes → Res (α × Bytes)} {g : α × Bytes → Res (β × Bytes)}
    (hf : Local f) (hg : ∀ a, Local (fun s => g (a, s))) : Local (fun s => f s >>= g) := by
  intro s b r h
  obtain ⟨⟨a, s1⟩, h1, h2⟩ := Res.bind_eq_ok.1 h
  obtain ⟨p, rfl, hp⟩ := hf _ _ _ h1
  obtain ⟨q, rfl, hq⟩ := hg a _ _ _ h2
  refine ⟨p ++ q, by simp, fun t => ?_⟩
  simp only [List.append_assoc, hp, Res.bind_ok, hq]

theorem local_ok {α : Type} (a : α) : Local (fun s => .ok (a, s)) := by
  intro s b r h
  cases h
  exact ⟨[], rfl, fun t => rfl⟩

theorem local_throw {α : Type} : Local (fun _ => (.throw : Res (α × Bytes))) := by
  intro s b r h; cases h

theorem local_take (n : Nat) : Local (fun s => if s.length < n then .throw else .ok (s.take n, s.drop n)) := by
  intro s a r h
  dsimp only at h
  split at h
  · cases h
  · rename_i hl
    cases h
    refine ⟨s.take n, (List.take_append_drop n s).symm, fun t => ?_⟩
    have hlen : (s.take n).length = n := by simp; omega
    dsimp only
    rw [if_neg (by simp [hlen])]
    rw [List.take_append_of_le_length (by omega), List.take_of_length_le (by omega),
      List.drop_append_of_le_length (by omega), List.drop_of_length_le (by omega), List.nil_append]

theorem local_rdBytes : Local rdBytes := by
  have : rdBytes = fun s => rd 4 s >>= fun p =>
      (fun n s => if n ≥ 2 ^ 32 - 1 then .throw
        else if s.length < n then .throw else .ok (s.take n, s.drop n)) p.1 p.2 := by
    funext s
    unfold rdBytes
    congr 1
    funext p
    obtain ⟨n, s⟩ := p
    simp only [Res.chk]
    by_cases h1 : n ≥ 2 ^ 32 - 1 <;> by_cases h2 : s.length < n <;> simp [h1, h2]
  rw [this]
  refine local_bind (local_rd 4) fun n => ?_
  by_cases h1 : n ≥ 2 ^ 32 - 1
  · simp only [h1, if_true]; exact local_throw
  · simp only [h1, if_false]; exact local_take n

theorem local_arr : Local (fun s => (do
    Res.chk (¬ s.length < 12)
    let (a, s) ← rd 8 s
    let (n, s) ← rd 4 s
    .ok (Val.arr a n, s) : Res (Val × Bytes))) := by
  have : (fun s => (do
    Res.chk (¬ s.length < 12)
    let (a, s) ← rd 8 s
    let (n, s) ← rd 4 s
    .ok (Val.arr a n, s) : Res (Val × Bytes))) = fun s => rd 8 s >>= fun p =>
      (fun a s => rd 4 s >>= fun q => (fun n s => .ok (Val.arr a n, s)) q.1 q.2) p.1 p.2 := by
    funext s
    unfold Res.chk rd
    by_cases h1 : s.length < 12
    · by_cases h2 : s.length < 8
      · simp [h1, h2]
      · have : s.length - 8 < 4 := by omega
        simp [h1, h2, this]
    · have h2 : ¬ s.length < 8 := by omega
      simp [h1, h2]
  rw [this]
  refine local_bind (local_rd 8) fun a => ?_
  dsimp only
  refine local_bind (local_rd 4) fun n => ?_
  dsimp only
  exact local_ok _

theorem local_desVal : Local desVal := by
  refine local_bind (f := rd 1) (local_rd 1) fun t => ?_
  dsimp only
  split
  · exact local_ok _
  · exact local_ok _
  · exact local_ok _
  · refine local_bind (local_rd 8) fun _ => ?_; dsimp only; exact local_ok _
  · refine local_bind (local_rd 32) fun _ => ?_; dsimp only; exact local_ok _
  · refine local_bind local_rdBytes fun _ => ?_; dsimp only; exact local_ok _
  · refine local_bind local_rdBytes fun _ => ?_; dsimp only; exact local_ok _
  · exact local_arr
  · refine local_bind (local_rd 8) fun _ => ?_; dsimp only; exact local_ok _
  · refine local_bind (local_rd 2) fun _ => ?_; dsimp only; exact local_ok _
  · refine local_bind (local_rd 4) fun _ => ?_; dsimp only; exact local_ok _
  · refine local_bind (local_rd 8) fun _ => ?_; dsimp only; exact local_ok _
  · refine local_bind (local_rd 16) fun _ => ?_; dsimp only; exact local_ok _
  · refine local_bind (local_rd 32) fun _ => ?_; dsimp only; exact local_ok _
  · exact local_throw

theorem local_opt (b : Bool) (n : Nat) : Local (fun s => if b then rd n s else .ok (0, s)) := by
  cases b
  · exact local_ok _
  · exact local_rd n

/-- `deserialize` keeping the rest of the input. -/
def desVar (rc vf : Bool) (s : Bytes) : Res (Var × Bytes) :=
  (if rc then rd 4 s else .ok (0, s)) >>= fun p => (fun c s =>
    (if vf then rd 1 s else .ok (0, s)) >>= fun p => (fun f s =>
      desVal s >>= fun p => (fun v s => .ok (⟨c, f, v⟩, s)) p.1 p.2) p.1 p.2) p.1 p.2

theorem local_desVar (rc vf : Bool) : Local (desVar rc vf) := by
  refine local_bind (local_opt rc 4) fun _ => ?_
  dsimp only
  refine local_bind (local_opt vf 1) fun _ => ?_
  dsimp only
  refine local_bind local_desVal fun _ => ?_
  dsimp only
  exact local_ok _

theorem deserialize_eq (s : Bytes) (rc vf : Bool) :
    deserialize s rc vf = desVar rc vf s >>= fun p => .ok (p.1, s.length - p.2.length) := by
  unfold deserialize desVar
  generalize (if rc then rd 4 s else .ok (0, s)) = x
  cases x with
  | throw => rfl
  | ub => rfl
  | ok p =>
    obtain ⟨c, s1⟩ := p
    simp only [Res.bind_ok]
    generalize (if vf then rd 1 s1 else .ok (0, s1)) = y
    cases y with
    | throw => rfl
    | ub => rfl
    | ok q =>
      obtain ⟨f, s2⟩ := q
      simp only [Res.bind_ok]
      cases desVal s2 <;> rfl

theorem desVar_ser (v : Var) (h : v.Wf) (rc vf : Bool) (t : Bytes) :
    desVar rc vf (serialize v rc vf ++ t) =
      .ok (⟨if rc then v.rc else 0, if vf then v.flags else 0, v.val⟩, t) := by
  obtain ⟨h1, h2, h3⟩ := h
  unfold desVar serialize
  cases rc <;> cases vf
  · simp [desVal_ser _ h3]
  · simp [desVal_ser _ h3, rd_le (k := 1) _ (by omega : v.flags < 256 ^ 1)]
  · simp [desVal_ser _ h3, rd_le (k := 4) _ (by omega : v.rc < 256 ^ 4)]
  · simp [desVal_ser _ h3, rd_le (k := 1) _ (by omega : v.flags < 256 ^ 1),
      rd_le (k := 4) _ (by omega : v.rc < 256 ^ 4)]

/-! Shape of the parse result. -/

theorem rd_wf {n : Nat} {s : Bytes} {a : Nat} {r : Bytes} (hs : ∀ x ∈ s, x < 256)
    (h : rd n s = .ok (a, r)) : a < 256 ^ n ∧ ∀ x ∈ r, x < 256 := by
  unfold rd at h
  split at h
  · cases h
  · rename_i hl
    cases h
    refine ⟨?_, fun x hx => hs x (List.mem_of_mem_drop hx)⟩
    have := leNat_lt (s.take n) (fun x hx => hs x (List.mem_of_mem_take hx))
    rwa [List.length_take, Nat.min_eq_left (by omega)] at this

theorem rdBytes_wf {s b r : Bytes} (hs : ∀ x ∈ s, x < 256) (h : rdBytes s = .ok (b, r)) :
    (b.length < 2 ^ 32 - 1 ∧ ∀ x ∈ b, x < 256) ∧ ∀ x ∈ r, x < 256 := by
  unfold rdBytes at h
  obtain ⟨⟨n, s1⟩, h1, h⟩ := Res.bind_eq_ok.1 h
  have h1w := rd_wf hs h1
  obtain ⟨h2, h⟩ := Res.chk_bind.1 h
  obtain ⟨h3, h⟩ := Res.chk_bind.1 h
  cases h
  refine ⟨⟨?_, fun x hx => h1w.2 x (List.mem_of_mem_take hx)⟩,
    fun x hx => h1w.2 x (List.mem_of_mem_drop hx)⟩
  rw [List.length_take]; omega

theorem desVal_wf {s : Bytes} {v : Val} {r : Bytes} (hs : ∀ x ∈ s, x < 256)
    (h : desVal s = .ok (v, r)) : v.Wf ∧ ∀ x ∈ r, x < 256 := by
  unfold desVal at h
  obtain ⟨⟨t, s1⟩, h1, h⟩ := Res.bind_eq_ok.1 h
  have hs1 := (rd_wf hs h1).2
  clear h1
  dsimp only at h
  split at h
  · cases h; exact ⟨trivial, hs1⟩
  · cases h; exact ⟨trivial, hs1⟩
  · cases h; exact ⟨trivial, hs1⟩
  · obtain ⟨⟨a, s2⟩, h2, h⟩ := Res.bind_eq_ok.1 h
    cases h; have := rd_wf hs1 h2; exact ⟨by simp only [Val.Wf]; omega, this.2⟩
  · obtain ⟨⟨a, s2⟩, h2, h⟩ := Res.bind_eq_ok.1 h
    cases h; have := rd_wf hs1 h2; exact ⟨by simp only [Val.Wf]; omega, this.2⟩
  · obtain ⟨⟨a, s2⟩, h2, h⟩ := Res.bind_eq_ok.1 h
    cases h; exact rdBytes_wf hs1 h2
  · obtain ⟨⟨a, s2⟩, h2, h⟩ := Res.bind_eq_ok.1 h
    cases h; exact rdBytes_wf hs1 h2
  · obtain ⟨_, h⟩ := Res.chk_bind.1 h
    obtain ⟨⟨a, s2⟩, h2, h⟩ := Res.bind_eq_ok.1 h
    obtain ⟨⟨n, s3⟩, h3, h⟩ := Res.bind_eq_ok.1 h
    cases h
    have w2 := rd_wf hs1 h2
    have w3 := rd_wf w2.2 h3
    exact ⟨⟨by omega, by omega⟩, w3.2⟩
  · obtain ⟨⟨a, s2⟩, h2, h⟩ := Res.bind_eq_ok.1 h
    cases h; have := rd_wf hs1 h2; exact ⟨by simp only [Val.Wf]; omega, this.2⟩
  · obtain ⟨⟨a, s2⟩, h2, h⟩ := Res.bind_eq_ok.1 h
    cases h; have := rd_wf hs1 h2; exact ⟨by simp only [Val.Wf]; omega, this.2⟩
  · obtain ⟨⟨a, s2⟩, h2, h⟩ := Res.bind_eq_ok.1 h
    cases h; have := rd_wf hs1 h2; exact ⟨by simp only [Val.Wf]; omega, this.2⟩
  · obtain ⟨⟨a, s2⟩, h2, h⟩ := Res.bind_eq_ok.1 h
    cases h; have := rd_wf hs1 h2; exact ⟨by simp only [Val.Wf]; omega, this.2⟩
  · obtain ⟨⟨a, s2⟩, h2, h⟩ := Res.bind_eq_ok.1 h
    cases h; have := rd_wf hs1 h2; exact ⟨by simp only [Val.Wf]; omega, this.2⟩
  · obtain ⟨⟨a, s2⟩, h2, h⟩ := Res.bind_eq_ok.1 h
    cases h; have := rd_wf hs1 h2; exact ⟨by simp only [Val.Wf]; omega, this.2⟩
  · cases h

theorem rd_opt_wf {b : Bool} {n : Nat} {s : Bytes} {a : Nat} {r : Bytes} (hs : ∀ x ∈ s, x < 256)
    (h : (if b then rd n s else .ok (0, s)) = .ok (a, r)) : a < 256 ^ n ∧ ∀ x ∈ r, x < 256 := by
  cases b
  · cases h; exact ⟨Nat.pow_pos (by decide), hs⟩
  · exact rd_wf hs h

theorem desVar_wf {rc vf : Bool} {s : Bytes} {v : Var} {r : Bytes} (hs : ∀ x ∈ s, x < 256)
    (h : desVar rc vf s = .ok (v, r)) : v.Wf ∧ ∀ x ∈ r, x < 256 := by
  unfold desVar at h
  obtain ⟨⟨c, s1⟩, h1, h⟩ := Res.bind_eq_ok.1 h
  obtain ⟨⟨f, s2⟩, h2, h⟩ := Res.bind_eq_ok.1 h
  obtain ⟨⟨w, s3⟩, h3, h⟩ := Res.bind_eq_ok.1 h
  cases h
  have w1 := rd_opt_wf hs h1
  have w2 := rd_opt_wf w1.2 h2
  have w3 := desVal_wf w2.2 h3
  exact ⟨⟨by simpa using w1.1, by simpa using w2.1, w3.1⟩, w3.2⟩

/-! Order. -/

theorem cmpN_eq {a b : Nat} : cmpN a b = .eq ↔ a = b := by
  unfold cmpN; split <;> simp_all; split <;> simp
theorem cmpN_lt {a b : Nat} : cmpN a b = .lt ↔ a < b := by
  unfold cmpN; split
  · simp; omega
  · split <;> simp_all
theorem cmpN_gt {a b : Nat} : cmpN a b = .gt ↔ b < a := by
  unfold cmpN; split
  · simp; omega
  · split <;> simp <;> omega

theorem memcmp_eq : ∀ {a b : Bytes}, a.length = b.length → (memcmp a b = .eq ↔ a = b)
  | [], [], _ => by simp [memcmp]
  | [], _ :: _, h => by simp at h
  | _ :: _, [], h => by simp at h
  | x :: a, y :: b, h => by
    simp only [memcmp]
    split
    · rename_i hxy; subst hxy
      rw [memcmp_eq (by simpa using h)]; simp
    · rename_i hxy
      split <;> simp [hxy]

theorem memcmp_swap : ∀ (a b : Bytes), memcmp b a = (memcmp a b).swap
  | [], [] => rfl
  | [], _ :: _ => rfl
  | _ :: _, [] => rfl
  | x :: a, y :: b => by
    simp only [memcmp]
    by_cases h : x = y
    · subst h; simp [memcmp_swap a b]
    · rw [if_neg h, if_neg (fun e => h e.symm)]
      by_cases h2 : x < y
      · rw [if_pos h2, if_neg (by omega)]; rfl
      · rw [if_neg h2, if_pos (by omega)]; rfl

theorem memcmp_trans : ∀ {a b c : Bytes}, a.length = b.length → b.length = c.length →
    memcmp a b = .lt → memcmp b c = .lt → memcmp a c = .lt
  | [], [], _, _, _, h, _ => by simp [memcmp] at h
  | _ :: _, _ :: _, [], _, h, _, _ => by simp at h
  | [], _ :: _, _, h, _, _, _ => by simp at h
  | _ :: _, [], _, h, _, _, _ => by simp at h
  | x :: a, y :: b, z :: c, h1, h2, h3, h4 => by
    simp only [memcmp] at *
    by_cases e1 : x = y
    · subst e1
      simp only [if_true] at h3
      by_cases e2 : x = z
      · subst e2
        simp only [if_true] at h4 ⊢
        exact memcmp_trans (by simpa using h1) (by simpa using h2) h3 h4
      · simpa [e2] using h4
    · rw [if_neg e1] at h3
      have lt1 : x < y := by by_cases hh : x < y; exact hh; rw [if_neg hh] at h3; cases h3
      by_cases e2 : y = z
      · subst e2; rw [if_neg e1, if_pos lt1]
      · rw [if_neg e2] at h4
        have lt2 : y < z := by by_cases hh : y < z; exact hh; rw [if_neg hh] at h4; cases h4
        rw [if_neg (by omega), if_pos (by omega)]

end Verif.VM
