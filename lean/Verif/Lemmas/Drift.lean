import Verif.Lemmas.Graded
import Verif.Lemmas.Nearest
import Verif.Spec.Rounded
import Mathlib.Algebra.Order.Ring.Pow
import Mathlib.Algebra.BigOperators.Fin
import Mathlib.Algebra.BigOperators.Group.Finset.Basic
import Mathlib.Algebra.Order.BigOperators.Group.Finset
import Mathlib.Tactic.GCongr

/-!
# How far rounding drives the stake of a pool away from its pledge and delegations
-/

set_option linter.unusedSectionVars false
set_option exponentiation.threshold 2000

namespace RSE

/-- the relative error of one operation -/
def ulp : ℚ := (2 : ℚ) ^ (-53 : Int)

theorem ulp_pos : 0 < ulp := by unfold ulp; positivity

/-! ### Sums and differences of binary64 numbers do not underflow -/

theorem B64.grid (a : B64) : ∃ m : Int, a.1 = (m : ℚ) * (2 : ℚ) ^ (-1074 : Int) := by
  obtain ⟨m, e, -, he, hq⟩ := (by have := fits_round64 a.1; rwa [a.2] at this : Fits a.1)
  refine ⟨m * 2 ^ (e + 1074).toNat, ?_⟩
  rw [hq]
  push_cast
  rw [mul_assoc]
  congr 1
  rw [← zpow_natCast, ← zpow_add₀ (by norm_num : (2 : ℚ) ≠ 0)]
  congr 1
  omega

theorem round64_err_grid {q : ℚ} (h : ∃ m : Int, q = (m : ℚ) * (2 : ℚ) ^ (-1074 : Int)) : |round64 q - q| ≤ ulp * |q| := by
  obtain ⟨m, hm⟩ := h
  by_cases hs : m.natAbs ≤ 2 ^ 53
  · rw [round64_of_fits ⟨m, -1074, hs, le_rfl, hm⟩, sub_self, abs_zero]
    exact mul_nonneg ulp_pos.le (abs_nonneg _)
  · have he := round64_err q
    have h2 : (2 : ℚ) ^ (-1075 : Int) ≤ |q| * (2 : ℚ) ^ (-53 : Int) := by
      have h3 : (1 : ℚ) ≤ |(m : ℚ)| := by
        rw [← Int.cast_abs]
        have : (1 : Int) ≤ |m| := by rw [Int.abs_eq_natAbs]; omega
        exact_mod_cast this
      have h4 : (2 : ℚ) ^ 53 ≤ |(m : ℚ)| := by
        rw [← Int.cast_abs]
        have : ((2 : Int) ^ 53) ≤ |m| := by rw [Int.abs_eq_natAbs]; omega
        exact_mod_cast this
      rw [hm, abs_mul, abs_of_pos (by positivity : (0 : ℚ) < (2 : ℚ) ^ (-1074 : Int))]
      calc (2 : ℚ) ^ (-1075 : Int) ≤ (2 : ℚ) ^ 53 * (2 : ℚ) ^ (-1074 : Int) * (2 : ℚ) ^ (-53 : Int) := by
            rw [← zpow_natCast, ← zpow_add₀ (by norm_num : (2 : ℚ) ≠ 0), ← zpow_add₀ (by norm_num : (2 : ℚ) ≠ 0)]
            exact zpow_le_zpow_right₀ (by norm_num) (by norm_num)
        _ ≤ _ := by gcongr
    rw [max_eq_left h2] at he
    rw [mul_comm]
    exact he

theorem B64.add_err (a b : B64) : |(a + b).1 - (a.1 + b.1)| ≤ ulp * |a.1 + b.1| := by
  obtain ⟨m, hm⟩ := a.grid
  obtain ⟨m', hm'⟩ := b.grid
  exact round64_err_grid ⟨m + m', by rw [hm, hm']; push_cast; ring⟩

theorem B64.sub_err (a b : B64) : |(a - b).1 - (a.1 - b.1)| ≤ ulp * |a.1 - b.1| := by
  obtain ⟨m, hm⟩ := a.grid
  obtain ⟨m', hm'⟩ := b.grid
  exact round64_err_grid ⟨m - m', by rw [hm, hm']; push_cast; ring⟩

/-! ### The accounts of a pool -/

/-- the sum of the values of a dictionary, exactly -/
def Dict.sumQ (d : Dict B64) : ℚ := (d.map (fun e => e.2.1)).sum

/-- the stake that a pool should have, exactly -/
def Pool.due (p : Pool B64) : ℚ := p.pledge.1 + p.delegators.sumQ

/-- all the stake there is, exactly -/
def Config.funds (c : Config B64) : ℚ := (c.people.map (fun e => e.1.1)).sum

theorem Dict.sumQ_perm {d d' : Dict B64} (h : d.Perm d') : d.sumQ = d'.sumQ := (h.map _).sum_eq

theorem Dict.sumQ_cons (k : Nat) (v : B64) (d : Dict B64) : Dict.sumQ ((k, v) :: d) = v.1 + d.sumQ := by simp [Dict.sumQ]

theorem Dict.sumQ_set (d : Dict B64) (k : Nat) (v : B64) : (d.set k v).sumQ = v.1 + (d.erase k).sumQ := by
  rw [Dict.sumQ_perm (Dict.set_perm d k v), Dict.sumQ_cons]

theorem Dict.sumQ_erase {d : Dict B64} {k : Nat} {v : B64} (h : d.get? k = some v) : d.sumQ = v.1 + (d.erase k).sumQ := by
  rw [Dict.sumQ_perm (Dict.perm_cons_erase h), Dict.sumQ_cons]

theorem list_sum_le {l l' : List Nat} (f : Nat → ℚ) (hf : ∀ a, 0 ≤ f a) (hl : l.Nodup) (hl' : l'.Nodup) (h : ∀ a ∈ l, a ∈ l') :
    (l.map f).sum ≤ (l'.map f).sum := by
  rw [← List.sum_toFinset f hl, ← List.sum_toFinset f hl']
  exact Finset.sum_le_sum_of_subset_of_nonneg (fun a ha => by simpa using h a (by simpa using ha)) (fun a _ _ => hf a)

/-- amounts of different agents, none larger than the agent's stake, do not exceed the funds -/
theorem sumQ_le_funds' {c : Config B64} (h0 : ∀ e ∈ c.people, 0 ≤ e.1) {d : Dict B64} (hd : d.keys.Nodup)
    (hA : ∀ e ∈ d, ∃ y, c.people[e.1]? = some y ∧ e.2 ≤ y.1) : d.sumQ ≤ c.funds := by
  let f : Nat → ℚ := fun a => match c.people[a]? with
    | some e => e.1.1
    | none => 0
  have hf : ∀ a, 0 ≤ f a := by
    intro a
    change 0 ≤ (match c.people[a]? with
    | some e => e.1.1
    | none => 0)
    cases h : c.people[a]? with
    | none => exact le_rfl
    | some e => exact h0 e (List.mem_of_getElem? h)
  have h1 : d.sumQ ≤ (d.keys.map f).sum := by
    unfold Dict.sumQ Dict.keys
    rw [List.map_map]
    apply List.sum_le_sum
    intro e he
    obtain ⟨y, hy, h2⟩ := hA e he
    change e.2.1 ≤ (match c.people[e.1]? with
    | some e => e.1.1
    | none => 0)
    rw [hy]
    exact h2
  have h2 : (d.keys.map f).sum ≤ ((List.range c.people.length).map f).sum := by
    refine list_sum_le f hf hd List.nodup_range (fun a ha => ?_)
    obtain ⟨e, he, rfl⟩ := List.mem_map.1 ha
    obtain ⟨y, hy, -⟩ := hA e he
    exact List.mem_range.2 (List.getElem?_eq_some_iff.1 hy).1
  have h3 : (List.range c.people.length).map f = c.people.map (fun e => e.1.1) := by
    apply List.ext_getElem
    · simp
    · intro i h4 h5
      simp only [List.length_map, List.length_range] at h4
      simp only [List.getElem_map, List.getElem_range]
      change (match c.people[i]? with
      | some e => e.1.1
      | none => 0) = _
      rw [List.getElem?_eq_getElem h4]
  rw [h3] at h2
  exact h1.trans h2

/-- delegations of different agents do not exceed the funds -/
theorem sumQ_le_funds {c : Config B64} (h0 : ∀ e ∈ c.people, 0 ≤ e.1) {d : Dict B64} (hd : d.keys.Nodup) (hA : ∀ e ∈ d, Amount c e.1 e.2) :
    0 ≤ d.sumQ ∧ d.sumQ ≤ c.funds := by
  refine ⟨List.sum_nonneg ?_, sumQ_le_funds' h0 hd (fun e he => ?_)⟩
  · intro x hx
    obtain ⟨e, he, rfl⟩ := List.mem_map.1 hx
    obtain ⟨y, -, h1, -⟩ := hA e he
    exact (RoundedArith.minUnit_pos (F := B64)).le.trans h1
  · obtain ⟨y, hy, -, h2⟩ := hA e he
    exact ⟨y, hy, h2⟩

theorem pledge_le_funds {c : Config B64} (h0 : ∀ e ∈ c.people, 0 ≤ e.1) {q : B64} (hq : PledgeOK c q) : 0 ≤ q.1 ∧ q.1 ≤ c.funds := by
  obtain ⟨h1, a, e, he, h2⟩ := hq
  refine ⟨h1, le_trans (show q.1 ≤ e.1.1 from h2) ?_⟩
  refine List.single_le_sum (l := c.people.map (fun e => e.1.1)) ?_ _ (List.mem_map.2 ⟨e, List.mem_of_getElem? he, rfl⟩)
  intro x hx
  obtain ⟨e, he, rfl⟩ := List.mem_map.1 hx
  exact h0 e he

/-- what `m` roundings of numbers up to `B` can add up to -/
def slack (B : ℚ) (m : Nat) : ℚ := ((1 + ulp) ^ m - 1) * B

theorem slack_mono {B : ℚ} (hB : 0 ≤ B) {m m' : Nat} (h : m ≤ m') : slack B m ≤ slack B m' := by
  unfold slack
  have := ulp_pos
  have h1 : (1 + ulp) ^ m ≤ (1 + ulp) ^ m' := pow_le_pow_right₀ (by linarith) h
  nlinarith

/-- one more rounding -/
theorem slack_succ {B v v' t : ℚ} {m : Nat} (hv : |v - t| ≤ slack B m) (ht : |t| ≤ B) (h : |v' - v| ≤ ulp * |v|) : |v' - t| ≤ slack B (m + 1) := by
  have hu := ulp_pos
  have h1 : |v| ≤ B + slack B m := by
    have : |v| ≤ |v - t| + |t| := by have := abs_add_le (v - t) t; rwa [sub_add_cancel] at this
    linarith
  have h2 : |v' - t| ≤ |v' - v| + |v - t| := abs_sub_le _ _ _
  have h3 : ulp * |v| ≤ ulp * (B + slack B m) := mul_le_mul_of_nonneg_left h1 hu.le
  have h4 : slack B (m + 1) = slack B m + ulp * (B + slack B m) := by unfold slack; rw [pow_succ]; ring
  rw [h4]; linarith

/-- the accounts of a pool after at most `n` changes -/
structure DriftOK (c : Config B64) (n : Nat) (p : Pool B64) : Prop where
  nodup : p.delegators.keys.Nodup
  amounts : ∀ e ∈ p.delegators, Amount c e.1 e.2
  pledge : 0 ≤ p.pledge.1 ∧ p.pledge.1 ≤ c.funds
  drift : ∃ m, m + p.delegators.length ≤ 2 * n ∧ |p.stake.1 - p.due| ≤ slack (2 * c.funds) m

theorem DriftOK.due_le {c : Config B64} (h0 : ∀ e ∈ c.people, 0 ≤ e.1) {q : ℚ} (hq : 0 ≤ q ∧ q ≤ c.funds) {d : Dict B64} (hd : d.keys.Nodup)
    (hA : ∀ e ∈ d, Amount c e.1 e.2) : |q + d.sumQ| ≤ 2 * c.funds := by
  have := sumQ_le_funds h0 hd hA
  rw [abs_of_nonneg (by linarith)]
  linarith

theorem B64.add_zero' (a : B64) : a + 0 = a := RoundedArith.add_zero a

theorem Dict.length_erase {V : Type} {d : Dict V} {k : Nat} {v : V} (h : d.get? k = some v) : d.length = (d.erase k).length + 1 := by
  have := (Dict.perm_cons_erase h).length_eq
  simpa using this

theorem driftOK_graded {c : Config B64} (h0 : ∀ e ∈ c.people, 0 ≤ e.1) : Graded c (DriftOK c) := by
  have hT : 0 ≤ c.funds := by
    refine List.sum_nonneg ?_
    intro x hx
    obtain ⟨e, he, rfl⟩ := List.mem_map.1 hx
    exact h0 e he
  have hB : 0 ≤ 2 * c.funds := by linarith
  refine ⟨?_, ?_, ?_, ?_, ?_, ?_, ?_⟩
  · rintro n m p hnm ⟨h1, h2, h3, k, h4, h5⟩
    exact ⟨h1, h2, h3, k, by omega, h5⟩
  · rintro n p a ⟨h1, h2, h3, k, h4, h5⟩
    have hlt : (0 : B64) < minUnit := RoundedArith.minUnit_pos
    have hA : ∀ e ∈ p.delegators.erase a, Amount c e.1 e.2 := fun e he => h2 e ((Dict.erase_sublist _ _).subset he)
    have hnd : (p.delegators.erase a).keys.Nodup := h1.sublist ((Dict.erase_sublist _ _).map _)
    have e1 : (p.updateDelegation 0 a).delegators = p.delegators.erase a := by
      simp only [Pool.updateDelegation, if_pos hlt, Dict.set_erase]
    refine ⟨by rw [e1]; exact hnd, by rw [e1]; exact hA, h3, ?_⟩
    unfold Pool.due
    rw [e1]
    change ∃ m, m + _ ≤ 2 * n ∧ |(_ : B64).1 - (p.pledge.1 + _)| ≤ _
    unfold Pool.updateDelegation
    simp only
    cases hg : p.delegators.get? a with
    | none =>
      simp only [B64.add_zero']
      rw [Dict.erase_of_not_mem (Dict.get?_eq_none.1 hg)]
      exact ⟨k, h4, h5⟩
    | some old =>
      simp only [B64.add_zero']
      have hs := Dict.sumQ_erase hg
      have hl := Dict.length_erase hg
      refine ⟨k + 1, by omega, slack_succ (v := p.stake.1 - old.1) ?_ (DriftOK.due_le h0 h3 hnd hA) (B64.sub_err _ _)⟩
      have : p.stake.1 - old.1 - (p.pledge.1 + (p.delegators.erase a).sumQ) = p.stake.1 - p.due := by
        unfold Pool.due; rw [hs]; ring
      rw [this]; exact h5
  · rintro n p x a hx ⟨h1, h2, h3, k, h4, h5⟩
    obtain ⟨y, hy, hmin, hle⟩ := hx
    have hge : ¬ x < minUnit := not_lt.2 hmin
    have e1 : (p.updateDelegation x a).delegators = p.delegators.set a x := by
      simp only [Pool.updateDelegation, if_neg hge]
    have hA1 : ∀ e ∈ p.delegators.erase a, Amount c e.1 e.2 := fun e he => h2 e ((Dict.erase_sublist _ _).subset he)
    have hnd1 : (p.delegators.erase a).keys.Nodup := h1.sublist ((Dict.erase_sublist _ _).map _)
    have hA : ∀ e ∈ p.delegators.set a x, Amount c e.1 e.2 := by
      intro e he
      rcases Dict.mem_set he with rfl | he
      · exact ⟨y, hy, hmin, hle⟩
      · exact h2 e he
    have hnd : (p.delegators.set a x).keys.Nodup := by
      have := nodup_updateDelegation (p := p) h1 x a
      rwa [e1] at this
    refine ⟨by rw [e1]; exact hnd, by rw [e1]; exact hA, h3, ?_⟩
    unfold Pool.due
    rw [e1]
    change ∃ m, m + _ ≤ 2 * (n + 1) ∧ |(_ : B64).1 - (p.pledge.1 + _)| ≤ _
    have hlen : (p.delegators.set a x).length = (p.delegators.erase a).length + 1 := by
      simpa using (Dict.set_perm p.delegators a x).length_eq
    have hb := DriftOK.due_le h0 h3 hnd hA
    unfold Pool.updateDelegation
    simp only
    cases hg : p.delegators.get? a with
    | none =>
      simp only
      rw [Dict.erase_of_not_mem (Dict.get?_eq_none.1 hg)] at hlen
      refine ⟨k + 1, by omega, slack_succ (v := p.stake.1 + x.1) ?_ hb (B64.add_err _ _)⟩
      have : p.stake.1 + x.1 - (p.pledge.1 + (p.delegators.set a x).sumQ) = p.stake.1 - p.due := by
        unfold Pool.due; rw [Dict.sumQ_set, Dict.erase_of_not_mem (Dict.get?_eq_none.1 hg)]; ring
      rw [this]; exact h5
    | some old =>
      simp only
      have hs := Dict.sumQ_erase hg
      have hl := Dict.length_erase hg
      have hmid : |(p.stake - old).1 - (p.pledge.1 + (p.delegators.erase a).sumQ)| ≤ slack (2 * c.funds) (k + 1) := by
        refine slack_succ (v := p.stake.1 - old.1) ?_ (DriftOK.due_le h0 h3 hnd1 hA1) (B64.sub_err _ _)
        have : p.stake.1 - old.1 - (p.pledge.1 + (p.delegators.erase a).sumQ) = p.stake.1 - p.due := by
          unfold Pool.due; rw [hs]; ring
        rw [this]; exact h5
      refine ⟨k + 2, by omega, slack_succ (v := (p.stake - old).1 + x.1) ?_ hb (B64.add_err _ _)⟩
      have : (p.stake - old).1 + x.1 - (p.pledge.1 + (p.delegators.set a x).sumQ) = (p.stake - old).1 - (p.pledge.1 + (p.delegators.erase a).sumQ) := by
        rw [Dict.sumQ_set]; ring
      rw [this]; exact hmid
  · rintro n rs q co p m hq ⟨h1, h2, h3, k, h4, h5⟩
    have hq' := pledge_le_funds h0 hq
    refine ⟨h1, h2, hq', k + 2, by change _ + p.delegators.length ≤ _; omega, ?_⟩
    change |(p.stake - (p.pledge - q)).1 - (q.1 + p.delegators.sumQ)| ≤ _
    have hb := DriftOK.due_le h0 hq' h1 h2
    refine slack_succ (v := p.stake.1 - (p.pledge - q).1) ?_ hb (B64.sub_err _ _)
    have e1 : p.stake.1 - (p.pledge - q).1 - (q.1 + p.delegators.sumQ) = (p.stake.1 - p.due) - ((p.pledge - q).1 - (p.pledge.1 - q.1)) := by
      unfold Pool.due; ring
    have e2 := B64.sub_err p.pledge q
    have e3 : |p.pledge.1 - q.1| ≤ 2 * c.funds := by rw [abs_le]; constructor <;> linarith [h3.1, h3.2, hq'.1, hq'.2]
    have e4 : ulp * |p.pledge.1 - q.1| ≤ ulp * (2 * c.funds) := mul_le_mul_of_nonneg_left e3 ulp_pos.le
    have e5 : slack (2 * c.funds) (k + 1) = slack (2 * c.funds) k + ulp * (2 * c.funds + slack (2 * c.funds) k) := by unfold slack; rw [pow_succ]; ring
    have e6 : 0 ≤ slack (2 * c.funds) k := (abs_nonneg _).trans h5
    have e7 : 0 ≤ ulp * slack (2 * c.funds) k := mul_nonneg ulp_pos.le e6
    rw [e1, e5]
    have e8 := abs_sub (p.stake.1 - p.due) ((p.pledge - q).1 - (p.pledge.1 - q.1))
    have e9 : |p.stake.1 - p.due - ((p.pledge - q).1 - (p.pledge.1 - q.1))| ≤ |p.stake.1 - p.due| + |(p.pledge - q).1 - (p.pledge.1 - q.1)| := e8
    linarith
  · intro rs q co a pid m hq
    refine ⟨List.nodup_nil, fun e he => (by cases he), pledge_le_funds h0 hq, 0, le_rfl, ?_⟩
    change |q.1 - (q.1 + 0)| ≤ _
    simp [slack]
  · refine ⟨List.nodup_nil, fun e he => (by cases he), ⟨le_rfl, hT⟩, 0, le_rfl, ?_⟩
    change |(0 : ℚ) - (0 + 0)| ≤ _
    simp [slack]
  · rintro n rs p ⟨h1, h2, h3, h4⟩
    exact ⟨h1, h2, h3, h4⟩

end RSE
