import Verif.Lemmas.MetricsFloats
import Verif.Lemmas.ConstructShape
import Verif.Lemmas.Normal
import Verif.Lemmas.Accuracy

/-!
# The constructor in binary64
-/

set_option linter.unusedSectionVars false
set_option exponentiation.threshold 2000

namespace RSE

theorem majorityLoop_ok {F : Type} [LinearOrder F] [Add F] (half : F) : ∀ (l : List F) (stake : F) (count : Nat), half < l.foldl (· + ·) stake →
    ∃ v, majorityLoop half l stake count = .ok v
  | [], stake, count, h => ⟨count, by unfold majorityLoop; exact if_neg (not_le.2 h)⟩
  | x :: t, stake, count, h => by
    unfold majorityLoop
    split
    · exact majorityLoop_ok half t _ _ h
    · exact ⟨_, rfl⟩

theorem exactSum_perm {l l' : List B64} (h : l.Perm l') : exactSum l = exactSum l' := (h.map _).sum_eq

theorem exactSum_grid (l : List B64) : ∃ m : Int, exactSum l = (m : ℚ) * (2 : ℚ) ^ (-1074 : Int) := by
  induction l with
  | nil => exact ⟨0, by simp [exactSum]⟩
  | cons x t ih =>
    obtain ⟨m, hm⟩ := ih
    obtain ⟨g, hg⟩ := B64.grid x
    exact ⟨g + m, by rw [exactSum_cons, hm, hg]; push_cast; ring⟩

theorem tiny64_le_200 : tiny64 ≤ (2 : ℚ) ^ (-200 : Int) := by
  unfold tiny64
  exact zpow_le_zpow_right₀ (by norm_num) (by norm_num)

/-- the Nakamoto coefficient before the first round can be computed -/
theorem nakamotoInitial_ok {s : State B64} (h0 : ∀ x ∈ (agentsList s).map (fun a => a.stake), 0 ≤ x) (hn : ((agentsList s).map (fun a => a.stake)).length ≤ 2 ^ 40)
    (hsum : 1 / 2 ≤ exactSum ((agentsList s).map (fun a => a.stake))) : ∃ v, nakamotoInitial s = .ok v := by
  unfold nakamotoInitial
  generalize (agentsList s).map (fun a => a.stake) = l at h0 hn hsum
  simp only
  have hp : (l.insertionSort (· ≥ ·)).Perm l := List.perm_insertionSort _ _
  generalize l.insertionSort (· ≥ ·) = l' at hp
  rw [← exactSum_perm hp] at hsum
  have h0 : ∀ x ∈ l', 0 ≤ x := fun x hx => h0 x (hp.mem_iff.1 hx)
  have hn : l'.length ≤ 2 ^ 40 := by rw [hp.length_eq]; exact hn
  apply majorityLoop_ok
  have h1 := (abs_le.1 (total_err h0 hn)).1
  have h2 := len_ulp hn
  have hu : ulp ≤ 1 / 1000 := by unfold ulp; norm_num
  have hu0 := ulp_pos
  set S := exactSum l' with hS
  have h3 := (abs_le.1 (round64_err_grid (exactSum_grid l'))).2
  rw [← hS, abs_of_nonneg (by linarith)] at h3
  have h4 : (FSum.fsum l' : B64).1 = round64 S := rfl
  have hv : (((2 : Nat) : B64)).1 = 2 := by
    have := B64.round64_natCast (n := 2) (by norm_num)
    exact_mod_cast this
  have h5 : ((FSum.fsum l' / ((2 : Nat) : B64) : B64)).1 = round64 (round64 S / 2) := by
    change round64 ((FSum.fsum l' : B64).1 / ((2 : Nat) : B64).1) = _
    rw [hv, h4]
  have h6 := (abs_le.1 (round64_err_add (round64 S / 2))).2
  have h7 : 0 ≤ round64 S := round64_nonneg (by linarith)
  rw [abs_of_nonneg (by linarith)] at h6
  have h8 : tiny64 ≤ 1 / 1000 := tiny64_le_200.trans (by norm_num)
  rw [B64.lt_def, h5]
  have h9 : ulp * S ≤ 1 / 1000 * S := mul_le_mul_of_nonneg_right hu (by linarith)
  have h10 : ulp * (round64 S / 2) ≤ 1 / 1000 * (round64 S / 2) := mul_le_mul_of_nonneg_right hu (by linarith)
  have h11 : (1 + 1 / 1000) * (↑l'.length * ulp) * S ≤ 1 / 8000 * S := mul_le_mul_of_nonneg_right (by linarith) (by linarith)
  linarith

/-- the description of the initial state can be written -/
theorem initDesc_ok64 {s : State B64} (h0 : ∀ x ∈ (agentsList s).map (fun a => a.stake), 0 ≤ x) (h1 : 1 ≤ ((agentsList s).map (fun a => a.stake)).length)
    (hn : ((agentsList s).map (fun a => a.stake)).length ≤ 2 ^ 40) (hsum : 1 / 2 ≤ exactSum ((agentsList s).map (fun a => a.stake))) : ∃ d, initDesc s = .ok d := by
  obtain ⟨nc, hnc⟩ := nakamotoInitial_ok h0 hn hsum
  unfold initDesc
  simp only [hnc]
  generalize (agentsList s).map (fun a => a.stake) = l at h1
  obtain ⟨me, hme⟩ := meanOf_ok (l := l) (by omega)
  obtain ⟨md, hmd⟩ := medianOf_ok (l := l) (by omega)
  obtain ⟨v, hv⟩ := meanOf_ok (l := l.map (fun x => (x - me) * (x - me))) (by rw [List.length_map]; omega)
  have hvar : npVariance l = .ok v := by unfold npVariance; rw [hme]; exact hv
  simp only [hme, hmd, hvar]
  match l, h1 with
  | x :: t, _ => exact ⟨_, rfl⟩

end RSE
