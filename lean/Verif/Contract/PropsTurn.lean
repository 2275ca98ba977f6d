import Verif.Contract.PokerTurn
import Verif.Contract.PropsPoker
/-
  C158: nobody is out of the game without having had a turn.
-/
namespace Verif.Contract.Poker
open Res
open Verif.Codec (Bytes)

/-- In `settle` only active players are put out. -/
theorem settle_fold {s : Poker} {h j : Nat} {q : Player} (hq : (settle s h).players[j]? = some q) (hf : q.fold = true) :
    ∃ p, s.players[j]? = some p ∧ (p.fold = true ∨ isActive s h p = true) := by
  unfold settle at hq
  by_cases c : s.isRaise = true
  · rw [if_pos c] at hq; exact ⟨q, hq, .inl hf⟩
  · rw [if_neg c] at hq
    simp only [List.getElem?_map] at hq
    cases hp : s.players[j]? with
    | none => rw [hp] at hq; cases hq
    | some p =>
      rw [hp] at hq
      simp only [Option.map_some, Option.some.injEq] at hq
      by_cases hb : behind s h p = true
      · unfold behind at hb
        simp at hb
        exact ⟨p, rfl, .inr hb.1⟩
      · rw [if_neg hb] at hq; subst hq; exact ⟨p, rfl, .inl hf⟩

/-- A round of bets that ends by `check_action` at a time that is not over puts out only players who have acted in it, if none
    of those who acted is out. -/
theorem action_fold {sha : Bytes → Bytes} {h j : Nat} {v t : Poker} {q : Player} (a : Acts v) (hto : isTimeout v h = false)
    (hc : checkAction sha h v = .ok t) (hf : ∀ p ∈ v.players, p.step = v.sequence → p.fold = false)
    (hq : t.players[j]? = some q) (hqf : q.fold = true) :
    ∃ p, v.players[j]? = some p ∧ (p.fold = true ∨ p.step = v.sequence) := by
  rcases checkAction_ok hc with rfl | ⟨h2, hn, hp, _⟩
  · exact ⟨q, hq, .inl hqf⟩
  · rw [hto] at hn
    have hn : v.numActions = numActive v h := by
      rcases hn with hn | hn
      · exact hn
      · cases hn
    rw [hp] at hq
    obtain ⟨p, hpp, hor⟩ := settle_fold hq hqf
    refine ⟨p, hpp, ?_⟩
    rcases hor with h1 | h1
    · exact .inl h1
    · exact .inr (all_acted a h2 hn hf p (List.mem_of_getElem? hpp) h1)

section
variable {sha : Bytes → Bytes} {c b l m iv : Nat} {w0 : W Poker}

/-- In a bet or check by somebody else a player is put out only if they have already acted in this round, as long as those who
    acted in it are all still in the game.  Missing: rounds in which somebody folds (`C158_no_turn`). -/
theorem C158_turn_partial (hi : init c b l m iv = .ok w0) (es : List (Ev Call)) (e : Env) (cl : Call) (w' : W Poker)
    (j : Nat) (p q : Player) :
    let w := arriveDep e (runEv (exec sha) w0 es)
    (cl = .bet ∨ cl = .check false) → exec sha e cl w = .ok w' →
    w.st.players[j]? = some p → p.fold = false → w'.st.players[j]? = some q → q.fold = true → e.user ≠ some p.addr →
    (∀ x ∈ w.st.players, x.step = w.st.sequence → x.fold = false) →
    p.step = w.st.sequence := by
  intro w hcl h hp hpf hq hqf hu hall
  have hst : w.st = (runEv (exec sha) w0 es).st := arriveDep_st e _
  have g : Good w.st := by rw [hst]; exact (run_inv (sha := sha) hi es).good
  have a : Acts w.st := by rw [hst]; exact run_acts hi es
  have main : ∃ v, Acted e w.st v w'.st sha ∧ ∀ (j : Nat) (q : Player), v.players[j]? = some q → q.fold = true →
      ∃ p : Player, w.st.players[j]? = some p ∧ p.fold = true := by
    rcases hcl with rfl | rfl
    · obtain ⟨t, ht, rfl⟩ := keep_ok h
      obtain ⟨s1, e1, ht⟩ := Res.bind_eq_ok.1 ht
      obtain ⟨am, ha, ht⟩ := Res.bind_eq_ok.1 ht
      exact doBet_acted g a e1 ht
    · obtain ⟨t, ht, rfl⟩ := keep_ok h
      obtain ⟨s1, e1, ht⟩ := Res.bind_eq_ok.1 ht
      obtain ⟨v, h1, h2⟩ := doAct_acted g a e1 ht
      exact ⟨v, h1, h2 (by simp)⟩
  obtain ⟨v, hv, hvf⟩ := main
  obtain ⟨i, p1, q1, hu1, hp1, hvp, hqa, hqs, hcaller⟩ := hv.rest
  have hij : i ≠ j := by
    rintro rfl
    rw [hp] at hp1; cases hp1
    exact hu hu1
  have hvj : v.players[j]? = some p := by rw [hvp, List.getElem?_set_ne hij]; exact hp
  -- nobody who acted is out, the caller included
  have hil : i < w.st.players.length := by
    by_cases hh : i < w.st.players.length
    · exact hh
    · rw [List.getElem?_eq_none (by omega)] at hp1; cases hp1
  have hnone : ∀ x ∈ v.players, x.step = v.sequence → x.fold = false := by
    intro x hx hxs
    cases hxf : x.fold with
    | false => rfl
    | true =>
      obtain ⟨k, hk⟩ := List.mem_iff_getElem?.1 hx
      obtain ⟨y, hy, hyf⟩ := hvf k x hk hxf
      by_cases hik : i = k
      · subst hik; rw [hp1] at hy; cases hy; rw [hcaller] at hyf; cases hyf
      · rw [hvp, List.getElem?_set_ne hik] at hk
        rw [hk] at hy; cases hy
        rw [hv.seq] at hxs
        rw [hall x (List.mem_of_getElem? hk) hxs] at hxf; cases hxf
  obtain ⟨r, hr, hor⟩ := action_fold hv.acts hv.time hv.fin hnone hq hqf
  rw [hvj] at hr; cases hr
  rcases hor with h1 | h1
  · rw [hpf] at h1; cases h1
  · rw [← hv.seq]; exact h1

end

/-- A player who acted and did not meet the raise is put out in a call of the other. -/
example :
    viewOf (fun w => w.st.players.map fun p => (p.step, p.fold)) (gameFrom toy 2 ([joins toy 1 100, joins toy 2 100] ++
      [1, 2].map (fun p => reveals toy false p 0 101) ++ [bets 1 5 102, checks 2 102, checks 2 102])) = some [(1, false), (2, false)] ∧
    viewOf (fun w => w.st.players.map fun p => (p.step, p.fold)) (gameFrom toy 2 ([joins toy 1 100, joins toy 2 100] ++
      [1, 2].map (fun p => reveals toy false p 0 101) ++ [bets 1 5 102, checks 2 102, checks 2 102, checks 1 102]))
      = some [(2, false), (2, true)] := by decide +kernel

/-- Four players.  The first raises, the second checks, the third folds: three actions, three players left, so the round
    ends, although the fourth was never asked; in the next the first checks and the second folds, and the fourth is out for not
    having met the raise, without having had a turn. -/
def turnless : List (Ev Call) := [joins sha2 1 100, joins sha2 2 100, joins sha2 3 100, joins sha2 4 100] ++
  [1, 2, 3, 4].map (fun p => reveals sha2 false p 0 101) ++
  [bets 1 5 102, checks 2 102, folds 3 102, checks 1 102, folds 2 102]

theorem C158_no_turn :
    viewOf (fun w => w.st.players.map fun p => (p.step, p.fold)) (gameFrom sha2 4 turnless)
      = some [(2, false), (2, true), (1, true), (0, true)] := by decide +kernel

end Verif.Contract.Poker
