import Verif.Lemmas.Lasting
import Verif.Lemmas.Drift

/-!
# How much rounding lets agents commit
-/

set_option linter.unusedSectionVars false
set_option exponentiation.threshold 2000

namespace RSE

/-- half of the smallest number -/
def tiny64 : ℚ := (2 : ℚ) ^ (-1075 : Int)

theorem tiny64_pos : 0 < tiny64 := by unfold tiny64; positivity

theorem ulp_le : ulp ≤ 1 / 16 := by unfold ulp; norm_num

theorem B64.cast_err (n : Nat) : |((n : B64)).1 - (n : ℚ)| ≤ ulp * n := by
  have h := round64_err_grid (q := (n : ℚ)) ⟨n * 2 ^ 1074, by
    have e : ((2 : ℚ) ^ 1074) * (2 : ℚ) ^ (-1074 : Int) = 1 := by
      rw [← zpow_natCast, ← zpow_add₀ (by norm_num : (2 : ℚ) ≠ 0)]
      rfl
    rw [Int.cast_mul, Int.cast_pow, Int.cast_natCast, Int.cast_ofNat, mul_assoc, e, mul_one]⟩
  rwa [abs_of_nonneg (by positivity : (0 : ℚ) ≤ (n : ℚ))] at h

theorem round64_err_add (q : ℚ) : |round64 q - q| ≤ ulp * |q| + tiny64 := by
  have h := round64_err q
  have h1 : |q| * (2 : ℚ) ^ (-53 : Int) = ulp * |q| := by unfold ulp; ring
  have h2 : 0 ≤ ulp * |q| := mul_nonneg ulp_pos.le (abs_nonneg _)
  rw [h1] at h
  exact h.trans (max_le (by linarith [tiny64_pos]) (by change tiny64 ≤ _; linarith))

theorem B64.mul_err (a b : B64) : |(a * b).1 - a.1 * b.1| ≤ ulp * |a.1 * b.1| + tiny64 := round64_err_add _
theorem B64.div_err (a b : B64) : |(a / b).1 - a.1 / b.1| ≤ ulp * |a.1 / b.1| + tiny64 := round64_err_add _

theorem Dict.sumQ_nonneg {d : Dict B64} (h : ∀ e ∈ d, 0 ≤ e.2) : 0 ≤ d.sumQ := by
  refine List.sum_nonneg fun x hx => ?_
  obtain ⟨e, he, rfl⟩ := List.mem_map.1 hx
  exact h e he

theorem Dict.sumQ_sublist {d d' : Dict B64} (h : List.Sublist d' d) (hd : ∀ e ∈ d, 0 ≤ e.2) : d'.sumQ ≤ d.sumQ := by
  refine (h.map (fun e => e.2.1)).sum_le_sum ?_
  intro x hx
  obtain ⟨e, he, rfl⟩ := List.mem_map.1 hx
  exact hd e he

theorem Dict.sumQ_set_le {d : Dict B64} (hd : ∀ e ∈ d, 0 ≤ e.2) (k : Nat) (v : B64) : (d.set k v).sumQ ≤ v.1 + d.sumQ := by
  rw [Dict.sumQ_set]
  have := Dict.sumQ_sublist (Dict.erase_sublist d k) hd
  linarith

/-! ### Delegating -/

theorem greedy_sumQ (rs : RS B64) (heap : Ref → Pool B64) : ∀ (l : List Ref) (x : B64) (best : Option Ref) (d : Dict B64), minUnit ≤ x →
    (∀ e ∈ d, 0 ≤ e.2) →
    (∀ e ∈ (greedy rs heap l x best d).2.2, 0 ≤ e.2) ∧ 0 ≤ (greedy rs heap l x best d).1 ∧
    (greedy rs heap l x best d).2.2.sumQ + (greedy rs heap l x best d).1.1 ≤ d.sumQ + x.1 + l.length * (ulp * x.1)
  | [], x, best, d, hx, hd => by
    refine ⟨hd, (RoundedArith.minUnit_pos (F := B64)).le.trans hx, ?_⟩
    simp [greedy]
  | r :: t, x, best, d, hx, hd => by
    have hx0 : (0 : B64) ≤ x := (RoundedArith.minUnit_pos (F := B64)).le.trans hx
    have hxq : 0 ≤ x.1 := hx0
    have hu := ulp_pos
    have hux : 0 ≤ ulp * x.1 := mul_nonneg hu.le hxq
    unfold greedy
    simp only
    split
    · obtain ⟨h1, h2, h3⟩ := greedy_sumQ rs heap t x _ d hx hd
      refine ⟨h1, h2, h3.trans ?_⟩
      rw [List.length_cons]; push_cast; linarith
    · rename_i hroom
      generalize ha : min x (rs.sat (heap r).pledge - (heap r).stake) = a
      have ha0 : (0 : B64) ≤ a := by
        rw [← ha]; exact RoundedArith.minUnit_pos.le.trans (le_min hx (not_lt.1 hroom))
      have hax : a ≤ x := by rw [← ha]; exact min_le_left _ _
      have haq : 0 ≤ a.1 := ha0
      have haxq : a.1 ≤ x.1 := hax
      have hd' : ∀ e ∈ d.set (heap r).id a, (0 : B64) ≤ e.2 := by
        intro e he
        rcases Dict.mem_set he with rfl | he
        · exact ha0
        · exact hd e he
      have hrest : 0 ≤ x - a := RoundedArith.sub_nonneg hax
      have hrx : x - a ≤ x := RoundedArith.sub_le ha0
      have hrxq : (x - a).1 ≤ x.1 := hrx
      have herr := B64.sub_err x a
      rw [abs_of_nonneg (by linarith : 0 ≤ x.1 - a.1), abs_le] at herr
      have hset := Dict.sumQ_set_le hd (heap r).id a
      have hua : 0 ≤ ulp * a.1 := mul_nonneg hu.le haq
      have hux' : ulp * (x.1 - a.1) = ulp * x.1 - ulp * a.1 := by ring
      split
      · refine ⟨hd', hrest, ?_⟩
        simp only
        rw [List.length_cons]
        push_cast
        have : 0 ≤ (t.length : ℚ) * (ulp * x.1) := by positivity
        linarith [herr.2]
      · rename_i hge
        obtain ⟨h1, h2, h3⟩ := greedy_sumQ rs heap t (x - a) best _ (not_lt.1 hge) hd'
        refine ⟨h1, h2, h3.trans ?_⟩
        rw [List.length_cons]
        push_cast
        have : (t.length : ℚ) * (ulp * (x - a).1) ≤ (t.length : ℚ) * (ulp * x.1) := by gcongr
        linarith [herr.2]

theorem greedyAllocations_sumQ (rs : RS B64) (heap : Ref → Pool B64) (l : List Ref) {x : B64} (hx : minUnit ≤ x) :
    (greedyAllocations rs heap l x).sumQ ≤ x.1 + l.length * (ulp * x.1) := by
  obtain ⟨h1, h2, h3⟩ := greedy_sumQ rs heap l x none [] hx (by simp)
  have h2q : 0 ≤ (greedy rs heap l x none []).1.1 := h2
  have e : Dict.sumQ ([] : Dict B64) = 0 := rfl
  rw [e] at h3
  unfold greedyAllocations
  simp only
  split
  · split
    · have := Dict.sumQ_set_le h1 (heap (by assumption)).id (greedy rs heap l x none []).1
      linarith
    · linarith
  · linarith

theorem eligible_length {F : Type} [LinearOrder F] [Zero F] [One F] [Add F] [Sub F] [Mul F] [Div F] [Neg F] [NatCast F] [FSum F] {n : Nat} {s : State F}
    (h : Core n s) (me : Agent F) : (eligiblePools s me).length ≤ s.pools.length := by
  have h1 := eligible_ids_nodup h me (heap := s.heap) (fun r => SamePool.refl _)
  have h2 : ∀ i ∈ (eligiblePools s me).map (fun r => (s.heap r).id), i ∈ s.pools.keys := by
    intro i hi
    obtain ⟨r, hr, rfl⟩ := List.mem_map.1 hi
    exact List.mem_map.2 ⟨(_, r), Dict.mem_of_get? (eligible_of_mem h hr).1, rfl⟩
  have := (h1.subperm h2).length_le
  simpa [Dict.keys] using this

theorem Delegated.sumQ {n : Nat} {s s' : State B64} {me : Agent B64} {σ δ : Strategy B64} {stake : B64} (h : Delegated s me σ stake s' δ)
    (hc : Core n s) (h0 : 0 ≤ stake) {M : Nat} (hM : s.pools.length ≤ M) : δ.allocs.sumQ ≤ stake.1 + M * (ulp * stake.1) := by
  have h0q : 0 ≤ stake.1 := h0
  have hu := ulp_pos
  have hz : (0 : ℚ) ≤ stake.1 + M * (ulp * stake.1) := by positivity
  cases h with
  | tiny _ _ hδ => rw [hδ]; exact hz
  | none _ _ _ hδ => rw [hδ]; exact hz
  | some s₁ hst he h1 h2 hδ =>
    rw [hδ]
    refine (greedyAllocations_sumQ _ _ _ hst).trans ?_
    have : ((eligiblePools s me).length : ℚ) ≤ (M : ℚ) := by exact_mod_cast (eligible_length hc me).trans hM
    gcongr

/-! ### Pledging -/

/-- the pledges of `n` pools, exactly -/
theorem pledges_le {S beta q : B64} (hS : 0 ≤ S) {n : Nat} (hq : pledgePerPool S beta n = .ok q) : (n : ℚ) * q.1 ≤ S.1 + 3 * ulp * S.1 + n * tiny64 := by
  have hSq : 0 ≤ S.1 := hS
  unfold pledgePerPool at hq
  split at hq
  · cases hq
  · rename_i hn
    cases hq
    have hnq : (1 : ℚ) ≤ (n : ℚ) := by exact_mod_cast Nat.one_le_iff_ne_zero.2 hn
    have hu := ulp_pos
    have hu16 := ulp_le
    have hmin : (min (S / (n : B64)) beta).1 ≤ (S / (n : B64)).1 := (min_le_left _ _ : min (S / (n : B64)) beta ≤ S / (n : B64))
    have hc := B64.cast_err n
    rw [abs_le] at hc
    have hN : (n : ℚ) * (1 - ulp) ≤ ((n : B64)).1 := by linarith [hc.1]
    have hNpos : 0 < ((n : B64)).1 := lt_of_lt_of_le (by nlinarith) hN
    have hd := B64.div_err S (n : B64)
    have hd0 : 0 ≤ S.1 / ((n : B64)).1 := by positivity
    rw [abs_of_nonneg hd0, abs_le] at hd
    have h1 : (n : ℚ) * (S.1 / ((n : B64)).1) ≤ S.1 * (1 + 3 / 2 * ulp) := by
      rw [← mul_div_assoc, div_le_iff₀ hNpos]
      have h2 : (n : ℚ) ≤ (1 + 3 / 2 * ulp) * ((n : B64)).1 := by
        calc (n : ℚ) ≤ (1 + 3 / 2 * ulp) * ((n : ℚ) * (1 - ulp)) := by nlinarith
          _ ≤ _ := by gcongr
      nlinarith
    have h3 : (n : ℚ) * (S / (n : B64)).1 ≤ (n : ℚ) * ((1 + ulp) * (S.1 / ((n : B64)).1) + tiny64) := by
      gcongr
      linarith [hd.2]
    have h4 : (n : ℚ) * (min (S / (n : B64)) beta).1 ≤ (n : ℚ) * (S / (n : B64)).1 := by gcongr
    have h5 : (1 + ulp) * ((n : ℚ) * (S.1 / ((n : B64)).1)) ≤ (1 + ulp) * (S.1 * (1 + 3 / 2 * ulp)) := by gcongr
    have h6 : (1 + ulp) * (S.1 * (1 + 3 / 2 * ulp)) ≤ S.1 + 3 * ulp * S.1 := by nlinarith [mul_nonneg hSq hu.le]
    calc _ ≤ (n : ℚ) * ((1 + ulp) * (S.1 / ((n : B64)).1) + tiny64) := h4.trans h3
      _ = (1 + ulp) * ((n : ℚ) * (S.1 / ((n : B64)).1)) + n * tiny64 := by ring
      _ ≤ _ := by linarith

/-- ... and what is left for delegating -/
theorem pledges_rest_le {S beta q : B64} (hS : 0 ≤ S) (hb : 0 ≤ beta) {n : Nat} (hq : pledgePerPool S beta n = .ok q) (hpos : 0 < S - q * (n : B64)) :
    (n : ℚ) * q.1 + (S - q * (n : B64)).1 ≤ S.1 + 4 * ulp * S.1 + (n + 1) * tiny64 := by
  have h0 := pledge_nonneg hq hS hb
  have h0q : 0 ≤ q.1 := h0
  have hSq : 0 ≤ S.1 := hS
  have h1 := pledges_le hS hq
  have hu := ulp_pos
  have hu16 := ulp_le
  have ht := tiny64_pos
  have hn : (0 : ℚ) ≤ (n : ℚ) := by positivity
  have hc := B64.cast_err n
  rw [abs_le] at hc
  have hN : (n : ℚ) * (1 - ulp) ≤ ((n : B64)).1 := by linarith [hc.1]
  have hN0 : 0 ≤ ((n : B64)).1 := le_trans (by nlinarith) hN
  have hm := B64.mul_err q (n : B64)
  rw [abs_of_nonneg (mul_nonneg h0q hN0), abs_le] at hm
  have hP0 : 0 ≤ (q * (n : B64)).1 := RoundedArith.mul_nonneg h0 (RoundedArith.cast_nonneg n)
  have hs := B64.sub_err S (q * (n : B64))
  have hlt : (q * (n : B64)).1 ≤ S.1 := by
    by_contra hcon
    have : S ≤ q * (n : B64) := (not_le.1 hcon).le
    have h2 := RoundedArith.sub_mono this (le_refl (q * (n : B64)))
    rw [RoundedArith.sub_self] at h2
    exact absurd hpos (not_lt.2 h2)
  rw [abs_of_nonneg (by linarith : 0 ≤ S.1 - (q * (n : B64)).1), abs_le] at hs
  have h2 : (q * (n : B64)).1 ≥ (1 - ulp) * (q.1 * ((n : B64)).1) - tiny64 := by linarith [hm.1]
  have h3 : (1 - ulp) * (q.1 * ((n : ℚ) * (1 - ulp))) ≤ (1 - ulp) * (q.1 * ((n : B64)).1) := by
    have : (0 : ℚ) ≤ 1 - ulp := by linarith
    gcongr
  have hnq : 0 ≤ (n : ℚ) * q.1 := by positivity
  have h4 : (n : ℚ) * q.1 - 2 * ulp * ((n : ℚ) * q.1) ≤ (1 - ulp) * (q.1 * ((n : ℚ) * (1 - ulp))) := by nlinarith [mul_nonneg hnq (mul_nonneg hu.le hu.le)]
  have h5 : ulp * (S.1 - (q * (n : B64)).1) ≤ ulp * S.1 := by
    have := mul_nonneg hu.le hP0
    nlinarith
  have h6 : 2 * ulp * ((n : ℚ) * q.1) ≤ 2 * ulp * (S.1 + 3 * ulp * S.1 + n * tiny64) := by gcongr
  have h7 : 2 * ulp * (S.1 + 3 * ulp * S.1 + n * tiny64) ≤ 3 * ulp * S.1 + n * tiny64 := by
    have a1 : 0 ≤ ulp * S.1 := mul_nonneg hu.le hSq
    have a2 : ulp * (ulp * S.1) ≤ 1 / 16 * (ulp * S.1) := by gcongr
    have a3 : ulp * ((n : ℚ) * tiny64) ≤ 1 / 16 * ((n : ℚ) * tiny64) := by gcongr
    have a4 : 0 ≤ (n : ℚ) * tiny64 := by positivity
    nlinarith
  linarith [hs.2]

/-- the pledges of the pools of a strategy, exactly -/
def pledgesQ (heap : Ref → Pool B64) (σ : Strategy B64) : ℚ := (σ.owned.vals.map (fun r => (heap r).pledge.1)).sum

/-- the commitments of a strategy that was decided when there were at most `M` pools -/
def Committed (M : Nat) (heap : Ref → Pool B64) (ag : Agent B64) (σ : Strategy B64) : Prop :=
  (∀ e ∈ σ.allocs, minUnit ≤ e.2) ∧ σ.allocs.sumQ + pledgesQ heap σ ≤ ag.stake.1 + (M + 4) * ulp * ag.stake.1 + (σ.owned.length + 1) * tiny64

theorem committed_lasting (M : Nat) : Lasting (Committed M) := by
  intro heap heap' ag ag' σ σ' h hs hc ho ha hh
  refine ⟨fun e he => h.1 e (ha.subset he), ?_⟩
  have h1 : pledgesQ heap' σ' = pledgesQ heap σ := by
    unfold pledgesQ
    rw [ho]
    congr 1
    exact List.map_congr_left (fun r hr => by rw [(hh r hr).pledge])
  have h2 := Dict.sumQ_sublist ha (fun e he => (RoundedArith.minUnit_pos (F := B64)).le.trans (h.1 e he))
  rw [h1, hs, ho]
  linarith [h.2]

theorem pledgesQ_const {heap : Ref → Pool B64} {σ : Strategy B64} {q : B64} (h : ∀ r ∈ σ.owned.vals, (heap r).pledge = q) :
    pledgesQ heap σ = (σ.owned.length : ℚ) * q.1 := by
  unfold pledgesQ
  rw [List.map_congr_left (fun r hr => congrArg Subtype.val (h r hr)), List.map_const', List.sum_replicate, nsmul_eq_mul]
  simp [Dict.vals]

theorem OpPlan.committed {n : Nat} {s₁ s' : State B64} {me : Agent B64} {σ τ : Strategy B64} (h : OpPlan n s₁ s' me σ τ) (hS : 0 ≤ me.stake)
    (hb : 0 ≤ s₁.rs.beta) {M : Nat} (hM : s₁.pools.length ≤ M) : Committed M s'.heap me τ := by
  refine ⟨fun e he => (h.allocs.good e.1 e.2 (Dict.get?_of_mem h.allocs.nodup he)).1, ?_⟩
  obtain ⟨q, c, margins, u, -, hq, hc, h0, hk, hd, hrest⟩ := h.shape
  have hp : ∀ r ∈ τ.owned.vals, (s'.heap r).pledge = q := by
    intro r hr
    obtain ⟨pid, hpid⟩ := Dict.mem_vals_get h.nodup hr
    obtain ⟨-, -, m, -, ⟨r₀, -, he⟩ | ⟨-, -, he⟩⟩ := hd pid r hpid
    · rw [he]; rfl
    · rw [he]; rfl
  rw [pledgesQ_const hp]
  have hSq : 0 ≤ me.stake.1 := hS
  have hu := ulp_pos
  have ht := tiny64_pos
  have hMu : 0 ≤ (M : ℚ) * ulp * me.stake.1 := by positivity
  have hus : 0 ≤ ulp * me.stake.1 := by positivity
  rcases hrest with ⟨-, hal⟩ | ⟨sA, sB, hpos, hcA, hpl, -, hfd⟩
  · rw [hal]
    change 0 + _ ≤ _
    linarith [pledges_le hS hq]
  · have h1 := pledges_rest_le hS hb hq hpos
    have hq0 := pledge_nonneg hq hS hb
    have hle : (me.stake - q * (τ.owned.length : B64)).1 ≤ me.stake.1 :=
      (RoundedArith.sub_le (RoundedArith.mul_nonneg hq0 (RoundedArith.cast_nonneg _)) : me.stake - q * (τ.owned.length : B64) ≤ me.stake)
    have h2 := (findDelegationMove_ok hfd).sumQ hcA hpos.le (M := M) (by rw [hpl.pools]; exact hM)
    simp only at h2
    have h3 : (M : ℚ) * (ulp * (me.stake - q * (τ.owned.length : B64)).1) ≤ (M : ℚ) * (ulp * me.stake.1) := by gcongr
    linarith

theorem planMove_committed {n : Nat} {s s' : State B64} (h : Core n s) {ord : List Nat → List Nat} (hord : ∀ l, (ord l).Perm l)
    {me : Agent B64} {σ : Strategy B64} (hσ : σ.allocs.keys.Nodup) (hnd : σ.owned.keys.Nodup)
    (hown : ∀ pid r, σ.owned.get? pid = some r → s.pools.get? pid = some r) {ν : Strategy B64} (hpm : planMove ord s me σ = .ok (s', some ν))
    (hS : 0 ≤ me.stake) (hb : 0 ≤ s.rs.beta) {M : Nat} (hM : s.pools.length ≤ M) : Committed M s'.heap me ν := by
  obtain ⟨cur, exp, s₁, δ, du, ou, ω, hp⟩ := planMove_ok hpm
  obtain ⟨c1, sh1, -, g1, -⟩ := (findDelegationMove_spec h me σ hσ me.stake).of_ok hp.delegate
  simp only at c1 sh1 g1
  have hpl := Planned.of_shuf sh1
  obtain ⟨-, -, -, hop⟩ := (choosePoolStrategy_spec c1 hord me hσ hnd (by rw [hpl.pools]; exact hown)).of_ok hp.operate
  have hpick := hp.pick
  split at hpick
  · cases hpick
  · cases hpick
    have hd := findDelegationMove_ok hp.delegate
    refine ⟨fun e he => (g1.good e.1 e.2 (Dict.get?_of_mem g1.nodup he)).1, ?_⟩
    have h1 := hd.sumQ h hS hM
    have h2 : pledgesQ s'.heap ν = 0 := by unfold pledgesQ; rw [hd.owned]; rfl
    rw [h2, hd.owned]
    have hSq : 0 ≤ me.stake.1 := hS
    have hus : 0 ≤ ulp * me.stake.1 := mul_nonneg ulp_pos.le hSq
    have ht := tiny64_pos
    simp only [List.length_nil, Nat.cast_zero]
    linarith
  · cases hpick
    exact hop.committed hS (by rw [hpl.rs]; exact hb) (by rw [hpl.pools]; exact hM)

/-- what the agents have committed in the course of a simulation that never had more than `M` pools -/
theorem run_committed {c : Config B64} (h0 : ∀ e ∈ c.people, 0 ≤ e.1) (hb : 0 ≤ c.rs.beta) {es : List (Event B64)}
    (hv : ∀ ev ∈ es, ev.Valid c.people.length) {M : Nat} (hM : ∀ s₁, Visited (initState c) es s₁ → s₁.pools.length ≤ M) {s : State B64}
    (hs : iterM exec (initState c) es = .ok s) : AllPlans (Committed M) s := by
  refine run_plans RoundedArith.minUnit_pos (committed_lasting M) (V := fun s => s.pools.length ≤ M) ?_ es (Reachable.init c) (init_plans ?_) hv hM hs
  · intro s hr hV me ord ag σ s₁ ν ha hσ hord hpm
    have hg := hr.good (RoundedArith.minUnit_pos (F := B64))
    have ht := hg.inv.tidy me ag ha
    exact planMove_committed hg.inv.core hord (ht.allocs _ hσ) (ht.owned _ hσ) (fun pid r hr => (hg.inv.owned ha hσ hr).1) hpm (hg.stake_ge h0 ha)
      (hr.terms h0 hb).1 hV
  · intro heap b ag ha
    have hS : 0 ≤ ag.stake := ((Reachable.init c).good (RoundedArith.minUnit_pos (F := B64))).stake_ge h0 ha
    have hSq : 0 ≤ ag.stake.1 := hS
    refine ⟨fun e he => (by cases he), ?_⟩
    have hu := ulp_pos
    have ht := tiny64_pos
    change (0 : ℚ) + 0 ≤ ag.stake.1 + (M + 4) * ulp * ag.stake.1 + (((0 : Nat) : ℚ) + 1) * tiny64
    have : 0 ≤ ((M : ℚ) + 4) * ulp * ag.stake.1 := by positivity
    simp only [Nat.cast_zero]
    linarith

end RSE
