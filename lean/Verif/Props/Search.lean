import Verif.Lemmas.Eval
import Verif.Lemmas.PlanOk
import Mathlib.Tactic.IntervalCases

/-!
# C32: the search for the number of pools

`f` is an arbitrary `calculate_margins_and_utility`; it may also raise.
-/

set_option linter.unusedSectionVars false

namespace RSE.Props

variable {F : Type} [LinearOrder F]

theorem half_log {L : Nat} (h : 2 ≤ L) : Nat.log2 (L / 2) + 1 = Nat.log2 L := by
  rw [Nat.log2_def L, if_pos h]

theorem higher_ok {f : Nat → Py (List F × F)} {t : Nat} {u : F} {b : Bool} (h : higher f t u = .ok b) :
    ∃ ms v, f t = .ok (ms, v) ∧ (b = true ↔ u < v) := by
  unfold higher at h
  cases hf : f t with
  | error e => rw [hf] at h; cases h
  | ok res =>
    rw [hf] at h
    obtain ⟨ms, v⟩ := res
    cases h
    exact ⟨ms, v, rfl, by simp⟩

theorem log2_mono {a b : Nat} (h : a ≤ b) : Nat.log2 a ≤ Nat.log2 b := by
  by_cases ha : a = 0
  · subst ha; simp [Nat.log2_zero]
  · rw [Nat.le_log2 (by omega)]
    exact (Nat.log2_self_le ha).trans h

/-- one pass through the loop: the interval is halved, or the search ends -/
theorem search_step (f : Nat → Py (List F × F)) (fuel a b : Nat) (hab : a ≤ b) :
    (∃ e, searchPools f (fuel + 1) a b = .error e ∧ ∃ t, a ≤ t ∧ t ≤ b ∧ f t = .error e) ∨
    (∃ t ms u, a ≤ t ∧ t ≤ b ∧ f t = .ok (ms, u) ∧ searchPools f (fuel + 1) a b = .ok (t, ms) ∧
      (a < t → ∃ ms' u', f (t - 1) = .ok (ms', u') ∧ u' ≤ u) ∧ (t < b → ∃ ms' u', f (t + 1) = .ok (ms', u') ∧ u' ≤ u)) ∨
    (∃ t ms u ms' u', a < t ∧ t ≤ b ∧ t - a ≤ (b - a + 1) / 2 ∧ f t = .ok (ms, u) ∧ f (t - 1) = .ok (ms', u') ∧ u < u' ∧
      searchPools f (fuel + 1) a b = searchPools f fuel a (t - 1)) ∨
    (∃ t ms u ms' u', a ≤ t ∧ t < b ∧ b - t ≤ (b - a + 1) / 2 ∧ f t = .ok (ms, u) ∧ f (t + 1) = .ok (ms', u') ∧ u < u' ∧
      searchPools f (fuel + 1) a b = searchPools f fuel (t + 1) b) := by
  rw [searchPools]
  simp only
  have h1 : a ≤ (a + b) / 2 := by omega
  have h2 : (a + b) / 2 ≤ b := by omega
  have h3 : (a + b) / 2 - a ≤ (b - a + 1) / 2 := by omega
  have h4 : b - (a + b) / 2 ≤ (b - a + 1) / 2 := by omega
  generalize (a + b) / 2 = t at h1 h2 h3 h4
  cases hf : f t with
  | error e => exact Or.inl ⟨e, rfl, t, h1, h2, hf⟩
  | ok res =>
    obtain ⟨ms, u⟩ := res
    simp only [bind, Except.bind]
    cases hl : (if t > a then higher f (t - 1) u else .ok false : Py Bool) with
    | error e =>
      refine Or.inl ⟨e, rfl, ?_⟩
      split at hl
      · unfold higher at hl
        cases hf' : f (t - 1) with
        | error e' => rw [hf'] at hl; cases hl; exact ⟨t - 1, by omega, by omega, hf'⟩
        | ok res => rw [hf'] at hl; cases hl
      · cases hl
    | ok goLeft =>
      simp only
      have hleft : goLeft = true → a < t ∧ ∃ ms' u', f (t - 1) = .ok (ms', u') ∧ u < u' := by
        intro hg
        split at hl
        · rename_i hlt
          obtain ⟨ms', v, h5, h6⟩ := higher_ok hl
          exact ⟨hlt, ms', v, h5, h6.1 hg⟩
        · cases hl; cases hg
      have hleft' : goLeft = false → a < t → ∃ ms' u', f (t - 1) = .ok (ms', u') ∧ u' ≤ u := by
        intro hg hlt
        rw [if_pos hlt] at hl
        obtain ⟨ms', v, h5, h6⟩ := higher_ok hl
        refine ⟨ms', v, h5, not_lt.1 (fun h => ?_)⟩
        rw [h6.2 h] at hg; cases hg
      cases goLeft with
      | true =>
        obtain ⟨h5, ms', u', h6, h7⟩ := hleft rfl
        exact Or.inr (Or.inr (Or.inl ⟨t, ms, u, ms', u', h5, h2, h3, hf, h6, h7, if_pos rfl⟩))
      | false =>
        simp only [Bool.false_eq_true, if_false]
        cases hr : (if t < b then higher f (t + 1) u else .ok false : Py Bool) with
        | error e =>
          refine Or.inl ⟨e, rfl, ?_⟩
          split at hr
          · unfold higher at hr
            cases hf' : f (t + 1) with
            | error e' => rw [hf'] at hr; cases hr; exact ⟨t + 1, by omega, by omega, hf'⟩
            | ok res => rw [hf'] at hr; cases hr
          · cases hr
        | ok goRight =>
          simp only
          cases goRight with
          | true =>
            rw [if_pos rfl]
            split at hr
            · rename_i hlt
              obtain ⟨ms', v, h5, h6⟩ := higher_ok hr
              exact Or.inr (Or.inr (Or.inr ⟨t, ms, u, ms', v, h1, hlt, h4, hf, h5, h6.1 rfl, rfl⟩))
            · cases hr
          | false =>
            refine Or.inr (Or.inl ⟨t, ms, u, h1, h2, hf, rfl, hleft' rfl, fun hlt => ?_⟩)
            rw [if_pos hlt] at hr
            obtain ⟨ms', v, h5, h6⟩ := higher_ok hr
            refine ⟨ms', v, h5, not_lt.1 (fun h => ?_)⟩
            exact absurd (h6.2 h) (by simp)

/-- C32, termination.  The loop ends within `⌊log₂ k⌋ + 1` passes (`fuel` bounds the number of passes): it returns a result, or the
evaluation of a candidate has raised. -/
theorem C32_search_terminates (f : Nat → Py (List F × F)) {fuel a b : Nat} (hab : a ≤ b) (hfuel : Nat.log2 (b - a + 1) + 1 ≤ fuel) :
    (∃ t ms, searchPools f fuel a b = .ok (t, ms)) ∨ ∃ e t, searchPools f fuel a b = .error e ∧ a ≤ t ∧ t ≤ b ∧ f t = .error e := by
  induction fuel generalizing a b with
  | zero => omega
  | succ fuel ih =>
    rcases search_step f fuel a b hab with ⟨e, h1, t, h2⟩ | ⟨t, ms, u, -, -, -, h1, -⟩ | ⟨t, ms, u, ms', u', h1, h2, h3, -, -, -, h7⟩ |
      ⟨t, ms, u, ms', u', h1, h2, h3, -, -, -, h7⟩
    · exact Or.inr ⟨e, t, h1, h2⟩
    · exact Or.inl ⟨t, ms, h1⟩
    · rw [h7]
      have hlog := half_log (L := b - a + 1) (by omega)
      have hm := log2_mono (a := t - 1 - a + 1) (b := (b - a + 1) / 2) (by omega)
      rcases ih (a := a) (b := t - 1) (by omega) (by omega) with h | ⟨e, t', h8, h9, h10, h11⟩
      · exact Or.inl h
      · exact Or.inr ⟨e, t', h8, h9, by omega, h11⟩
    · rw [h7]
      have hlog := half_log (L := b - a + 1) (by omega)
      have hm := log2_mono (a := b - (t + 1) + 1) (b := (b - a + 1) / 2) (by omega)
      rcases ih (a := t + 1) (b := b) (by omega) (by omega) with h | ⟨e, t', h8, h9, h10, h11⟩
      · exact Or.inl h
      · exact Or.inr ⟨e, t', h8, by omega, h10, h11⟩

/-- the number `t` has no better neighbour among the numbers from 1 to `k`, and both have been evaluated -/
def LocalMax (f : Nat → Py (List F × F)) (k t : Nat) (u : F) : Prop :=
  ∀ t', (t' + 1 = t ∨ t' = t + 1) → 1 ≤ t' → t' ≤ k → ∃ ms' u', f t' = .ok (ms', u') ∧ u' ≤ u

theorem search_local (f : Nat → Py (List F × F)) (k : Nat) : ∀ (fuel a b : Nat) (r : Nat × List F), 1 ≤ a → a ≤ b → b ≤ k →
    (1 < a → ∃ ms u ms' u', f (a - 1) = .ok (ms, u) ∧ f a = .ok (ms', u') ∧ u < u') →
    (b < k → ∃ ms u ms' u', f (b + 1) = .ok (ms, u) ∧ f b = .ok (ms', u') ∧ u < u') →
    searchPools f fuel a b = .ok r → 1 ≤ r.1 ∧ r.1 ≤ k ∧ ∃ u, f r.1 = .ok (r.2, u) ∧ LocalMax f k r.1 u
  | 0, _, _, _, _, _, _, _, _, h => by cases h
  | fuel + 1, a, b, r, ha, hab, hb, hl, hr, h => by
    rcases search_step f fuel a b hab with ⟨e, h1, -⟩ | ⟨t, ms, u, h1, h2, h3, h4, h5, h6⟩ | ⟨t, ms, u, ms', u', h1, h2, -, h4, h5, h6, h7⟩ |
      ⟨t, ms, u, ms', u', h1, h2, -, h4, h5, h6, h7⟩
    · rw [h1] at h; cases h
    · rw [h4] at h; cases h
      refine ⟨by simp only; omega, by simp only; omega, u, h3, ?_⟩
      rintro t' (rfl | rfl) ht1 htk
      · rw [Nat.add_sub_cancel] at h5
        by_cases hat : a < t' + 1
        · exact h5 hat
        · obtain rfl : a = t' + 1 := by omega
          obtain ⟨m1, u1, m2, u2, g1, g2, g3⟩ := hl (by omega)
          rw [h3] at g2; cases g2
          exact ⟨m1, u1, g1, g3.le⟩
      · by_cases htb : t < b
        · exact h6 htb
        · obtain rfl : b = t := by omega
          obtain ⟨m1, u1, m2, u2, g1, g2, g3⟩ := hr (by omega)
          rw [h3] at g2; cases g2
          exact ⟨m1, u1, g1, g3.le⟩
    · rw [h7] at h
      refine search_local f k fuel a (t - 1) r ha (by omega) (by omega) hl (fun _ => ?_) h
      rw [Nat.sub_add_cancel (by omega)]
      exact ⟨ms, u, ms', u', h4, h5, h6⟩
    · rw [h7] at h
      exact search_local f k fuel (t + 1) b r (by omega) (by omega) hb (fun _ => ⟨ms, u, ms', u', h4, h5, h6⟩) hr h

/-- C32, result.  The search over `1..k` returns a number of pools, with its margins, that has no better neighbour. -/
theorem C32_search_finds_local_maximum (f : Nat → Py (List F × F)) {k fuel t : Nat} {ms : List F} (hk : 1 ≤ k)
    (h : searchPools f fuel 1 k = .ok (t, ms)) : 1 ≤ t ∧ t ≤ k ∧ ∃ u, f t = .ok (ms, u) ∧ LocalMax f k t u :=
  search_local f k fuel 1 k (t, ms) le_rfl hk le_rfl (fun h => absurd h (by omega)) (fun h => absurd h (by omega)) h

/-- C32, global maximum.  If the utilities increase strictly up to `p` and decrease strictly from there on, the search returns `p`. -/
theorem C32_search_unimodal (f : Nat → Py (List F × F)) {k fuel t p : Nat} {ms : List F} {m : Nat → List F} {u : Nat → F} (hk : 1 ≤ k)
    (hf : ∀ t, 1 ≤ t → t ≤ k → f t = .ok (m t, u t)) (hp : 1 ≤ p) (hpk : p ≤ k)
    (hup : ∀ t, 1 ≤ t → t < p → u t < u (t + 1)) (hdown : ∀ t, p ≤ t → t < k → u (t + 1) < u t)
    (h : searchPools f fuel 1 k = .ok (t, ms)) : t = p ∧ ∀ t', 1 ≤ t' → t' ≤ k → u t' ≤ u t := by
  obtain ⟨h1, h2, v, h3, h4⟩ := C32_search_finds_local_maximum f hk h
  rw [hf t h1 h2] at h3; cases h3
  have htp : t = p := by
    rcases Nat.lt_trichotomy t p with hlt | heq | hgt
    · obtain ⟨ms', v', h5, h6⟩ := h4 (t + 1) (Or.inr rfl) (by omega) (by omega)
      rw [hf (t + 1) (by omega) (by omega)] at h5; cases h5
      exact absurd (hup t h1 hlt) (not_lt.2 h6)
    · exact heq
    · obtain ⟨ms', v', h5, h6⟩ := h4 (t - 1) (Or.inl (by omega)) (by omega) (by omega)
      rw [hf (t - 1) (by omega) (by omega)] at h5; cases h5
      have := hdown (t - 1) (by omega) (by omega)
      rw [Nat.sub_add_cancel (by omega)] at this
      exact absurd this (not_lt.2 h6)
  subst htp
  refine ⟨rfl, ?_⟩
  have up : ∀ d, d < t → u (t - d) ≤ u t := by
    intro d
    induction d with
    | zero => intro _; exact le_rfl
    | succ d ih =>
      intro hd
      have := hup (t - (d + 1)) (by omega) (by omega)
      rw [show t - (d + 1) + 1 = t - d by omega] at this
      exact this.le.trans (ih (by omega))
  have down : ∀ d, t + d ≤ k → u (t + d) ≤ u t := by
    intro d
    induction d with
    | zero => intro _; exact le_rfl
    | succ d ih =>
      intro hd
      exact (hdown (t + d) (by omega) (by omega)).le.trans (ih (by omega))
  intro t' ht1 htk
  by_cases hle : t' ≤ t
  · have := up (t - t') (by omega)
    rwa [show t - (t - t') = t' by omega] at this
  · have := down (t' - t) (by omega)
    rwa [show t + (t' - t) = t' by omega] at this

/-- C32 for the code's use of the search: the operator strategy that `choose_pool_strategy` returns has a number of pools between 1 and `k`
at which neither neighbour has a higher utility. -/
theorem C32_choose_pool_strategy {F : Type} [LinearOrder F] [Zero F] [One F] [Add F] [Sub F] [Mul F] [Div F] [Neg F] [NatCast F] [FSum F]
    {ord : List Nat → List Nat} {s s' : State F} {me : Agent F} {σ τ : Strategy F} {u : F} (hk : 1 ≤ s.rs.k)
    (h : choosePoolStrategy ord s me σ = .ok (s', u, τ)) :
    ∃ t ms v, 1 ≤ t ∧ t ≤ s.rs.k ∧ marginsAndUtility s me σ t = .ok (ms, v) ∧ LocalMax (marginsAndUtility s me σ) s.rs.k t v ∧
      ∃ s₁ copies, determinePoolsToKeep ord s σ t = .ok (s₁, copies) ∧ findOperatorMove s₁ me σ t copies ms = .ok (s', τ) := by
  obtain ⟨t, ms, s₁, copies, hch⟩ := choosePoolStrategy_ok h
  obtain ⟨h1, h2, v, h3, h4⟩ := C32_search_finds_local_maximum _ hk hch.search
  exact ⟨t, ms, v, h1, h2, h3, h4, s₁, copies, hch.keep, hch.find⟩

/-- the hypotheses of `C32_search_unimodal` are met: utilities 3, 5, 4, 1 have their maximum at 2, found in 3 passes -/
def exampleU : Nat → ℤ
  | 1 => 3
  | 2 => 5
  | 3 => 4
  | _ => 1

example : searchPools (fun t => .ok ([], exampleU t)) 3 1 4 = .ok (2, []) := by decide
example : (∀ t, 1 ≤ t → t < 2 → exampleU t < exampleU (t + 1)) ∧ (∀ t, 2 ≤ t → t < 4 → exampleU (t + 1) < exampleU t) := by
  constructor <;> intro t h1 h2 <;> interval_cases t <;> decide

/-- without unimodality the result need not be a global maximum -/
example : searchPools (fun t => .ok ([], if t = 2 then (1 : ℤ) else if t = 4 then 9 else 0)) 3 1 4 = .ok (2, []) := by decide

end RSE.Props
