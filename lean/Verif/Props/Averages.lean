import Verif.Props.Operators

/-!
# C70: mean and median metrics
-/

set_option linter.unusedSectionVars false

namespace RSE.Props

variable {K : Type} [Field K] [LinearOrder K] [IsStrictOrderedRing K]

/-- `m` is a median of the values `f` of the pools -/
def IsMedian (s : State K) (f : Pool K → K) (m : K) : Prop :=
  s.pools.length ≤ 2 * s.pools.countP (fun e => decide (f (s.heap e.2) ≤ m)) ∧
  s.pools.length ≤ 2 * s.pools.countP (fun e => decide (m ≤ f (s.heap e.2)))

theorem map_poolsList (s : State K) (f : Pool K → K) : (poolsList s).map f = s.pools.map (fun e => f (s.heap e.2)) := by
  simp [poolsList, Function.comp_def]

theorem mean_pools {s : State K} (hne : s.pools ≠ []) (f : Pool K → K) : ∃ m, meanOf ((poolsList s).map f) = .ok m ∧
    m * (s.pools.length : K) = (s.pools.map (fun e => f (s.heap e.2))).sum ∧
    ∀ lo hi, (∀ e ∈ s.pools, lo ≤ f (s.heap e.2) ∧ f (s.heap e.2) ≤ hi) → lo ≤ m ∧ m ≤ hi := by
  rw [map_poolsList]
  obtain ⟨m, h1, h2, h3⟩ := meanOf_spec (l := s.pools.map (fun e => f (s.heap e.2))) (by simpa using hne)
  rw [List.length_map] at h2
  refine ⟨m, h1, h2, fun lo hi h => h3 lo hi ?_⟩
  intro x hx
  obtain ⟨e, he, rfl⟩ := List.mem_map.1 hx
  exact h e he

theorem median_pools {s : State K} (hne : s.pools ≠ []) (f : Pool K → K) : ∃ m, medianOf ((poolsList s).map f) = .ok m ∧ IsMedian s f m ∧
    ∀ lo hi, (∀ e ∈ s.pools, lo ≤ f (s.heap e.2) ∧ f (s.heap e.2) ≤ hi) → lo ≤ m ∧ m ≤ hi := by
  rw [map_poolsList]
  obtain ⟨m, h1, h2, h3, h4⟩ := medianOf_spec (l := s.pools.map (fun e => f (s.heap e.2))) (by simpa using hne)
  rw [List.length_map, List.countP_map] at h2 h3
  refine ⟨m, h1, ⟨h2, h3⟩, fun lo hi h => h4 lo hi ?_⟩
  intro x hx
  obtain ⟨e, he, rfl⟩ := List.mem_map.1 hx
  exact h e he

theorem poolsList_pos {s : State K} (hne : s.pools ≠ []) (f : Pool K → K) : ((poolsList s).map f).length > 0 := by
  rw [map_poolsList, List.length_map]; exact List.length_pos_iff.2 hne

/-- C70.  'Mean pledge' times 'Pool count' is 'Total pledge'; 'Median pledge' is a median of the pledges. -/
theorem C70_pledge {s : State K} (hne : s.pools ≠ []) : ∃ avg med, avgPledge s = .ok avg ∧ medianPledge s = .ok med ∧
    avg * (poolCount s : K) = totalPledge s ∧ totalPledge s = (s.pools.map (fun e => (s.heap e.2).pledge)).sum ∧
    IsMedian s (fun p => p.pledge) med := by
  obtain ⟨avg, a1, a2, -⟩ := mean_pools hne (fun p => p.pledge)
  obtain ⟨med, b1, b2, -⟩ := median_pools hne (fun p => p.pledge)
  have ht : totalPledge s = (s.pools.map (fun e => (s.heap e.2).pledge)).sum := by
    unfold totalPledge
    rw [map_poolsList s (fun p => p.pledge)]; rfl
  refine ⟨avg, med, ?_, ?_, ?_, ht, b2⟩
  · unfold avgPledge; rw [if_pos (poolsList_pos hne _)]; exact a1
  · unfold medianPledge; rw [if_pos (poolsList_pos hne _)]; exact b1
  · rw [ht]; exact a2

/-- C70.  Mean and median margin of a reachable state with pools are the mean and a median of the margins, and lie in `[0, 1]`. -/
theorem C70_margin {c : Config K} {s : State K} (h : Reachable c s) (hne : s.pools ≠ []) : ∃ avg med, avgMargin s = .ok avg ∧
    medianMargin s = .ok med ∧ avg * (poolCount s : K) = (s.pools.map (fun e => (s.heap e.2).margin)).sum ∧ IsMedian s (fun p => p.margin) med ∧
    0 ≤ avg ∧ avg ≤ 1 ∧ 0 ≤ med ∧ med ≤ 1 := by
  have hb : ∀ e ∈ s.pools, 0 ≤ (s.heap e.2).margin ∧ (s.heap e.2).margin ≤ 1 := fun e _ => ⟨(h.fair e.2).margin_nonneg, (h.fair e.2).margin_le⟩
  obtain ⟨avg, a1, a2, a3⟩ := mean_pools hne (fun p => p.margin)
  obtain ⟨med, b1, b2, b3⟩ := median_pools hne (fun p => p.margin)
  refine ⟨avg, med, ?_, ?_, a2, b2, (a3 0 1 hb).1, (a3 0 1 hb).2, (b3 0 1 hb).1, (b3 0 1 hb).2⟩
  · unfold avgMargin; rw [if_pos (poolsList_pos hne _)]; exact a1
  · unfold medianMargin; rw [if_pos (poolsList_pos hne _)]; exact b1

/-- C70.  'Average saturation rate' is the mean of `stake / threshold`; it raises `ZeroDivisionError` exactly if some threshold is 0. -/
theorem C70_saturation {s : State K} (hne : s.pools ≠ []) :
    ((∃ e ∈ s.pools, s.rs.sat (s.heap e.2).pledge = 0) → avgSatRate s = .error .zeroDiv) ∧
    ((¬ ∃ e ∈ s.pools, s.rs.sat (s.heap e.2).pledge = 0) → ∃ avg, avgSatRate s = .ok avg ∧
      avg * (poolCount s : K) = (s.pools.map (fun e => (s.heap e.2).stake / s.rs.sat (s.heap e.2).pledge)).sum) := by
  unfold avgSatRate
  rw [if_neg (by simpa [poolsList] using hne)]
  constructor
  · intro hz
    have : (poolsList s).mapM (fun p => pyDiv p.stake (s.rs.sat p.pledge)) = .error .zeroDiv := by
      unfold poolsList
      revert hz
      generalize s.pools = l
      induction l with
      | nil => rintro ⟨e, he, -⟩; cases he
      | cons a t ih =>
        rintro ⟨e, he, hz⟩
        rw [List.map_cons, List.mapM_cons]
        by_cases h0 : s.rs.sat (s.heap a.2).pledge = 0
        · rw [pyDiv, if_pos h0]; rfl
        · rw [pyDiv, if_neg h0]
          have : e ∈ t := by
            rcases List.mem_cons.1 he with rfl | h
            · exact absurd hz h0
            · exact h
          rw [ih ⟨e, this, hz⟩]; rfl
    rw [this]; rfl
  · intro hz
    have hok : (poolsList s).mapM (fun p => pyDiv p.stake (s.rs.sat p.pledge)) = .ok ((poolsList s).map (fun p => p.stake / s.rs.sat p.pledge)) := by
      refine mapM_ok_of (fun p hp => ?_)
      obtain ⟨e, he, rfl⟩ := List.mem_map.1 hp
      rw [pyDiv, if_neg (fun h => hz ⟨e, he, h⟩)]
    obtain ⟨avg, a1, a2, -⟩ := mean_pools hne (fun p => p.stake / s.rs.sat p.pledge)
    refine ⟨avg, ?_, a2⟩
    rw [hok]; exact a1

/-- C70.  Without pools all of them are 0. -/
theorem C70_no_pools {s : State K} (h : s.pools = []) : avgPledge s = .ok 0 ∧ medianPledge s = .ok 0 ∧ avgMargin s = .ok 0 ∧
    medianMargin s = .ok 0 ∧ avgSatRate s = .ok 0 := by
  simp [avgPledge, medianPledge, avgMargin, medianMargin, avgSatRate, poolsList, h]

/-- the demo state has three pools -/
example : ∃ s, ReachableSinglePhase (demo false) s ∧ s.pools ≠ [] ∧ avgSatRate s = .ok (9/10) ∧ ∃ m, medianPledge s = .ok m ∧ 0 < m := by
  have key : (iterM exec (initState (demo false)) (demoRound ++ demoRound)).toOption.map
      (fun s => decide (s.pools ≠ [] ∧ (avgSatRate s).toOption = some (9/10) ∧ ∃ m ∈ (medianPledge s).toOption, 0 < m)) = some true := by decide +kernel
  obtain ⟨s, hs, hv⟩ := reachable_of_run (demoRounds_valid) key
  obtain ⟨h1, h2, m, h3, h4⟩ := of_decide_eq_true hv
  exact ⟨s, hs, h1, toOption_ok h2, m, toOption_ok h3, h4⟩

/-- statistics of literal lists -/
example : (medianOf [(3 : ℚ), 1, 2]).toOption = some 2 ∧ (medianOf [(4 : ℚ), 1, 3, 2]).toOption = some (5/2) ∧ (medianOf ([] : List ℚ)).toOption = none := by
  decide +kernel

end RSE.Props
