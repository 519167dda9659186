import Verif.Lemmas.AllPools
import Verif.Props.Margins
import Mathlib.Algebra.Order.BigOperators.Group.List

/-!
# Invariants that need exact arithmetic: stakes of pools, margins
-/

set_option linter.unusedSectionVars false

namespace RSE

variable {K : Type} [Field K] [LinearOrder K] [IsStrictOrderedRing K]

theorem minUnit_pos : (0 : K) < minUnit := by
  unfold minUnit
  apply div_pos <;> exact Nat.cast_pos.2 (by norm_num)

theorem boost_pos : (0 : K) < boost := by
  unfold boost
  apply div_pos <;> exact Nat.cast_pos.2 (by norm_num)

/-- the sum of the values of a dictionary -/
def Dict.total (d : Dict K) : K := (d.map Prod.snd).sum

theorem Dict.total_perm {d d' : Dict K} (h : d.Perm d') : d.total = d'.total := (h.map Prod.snd).sum_eq

@[simp] theorem Dict.total_nil : Dict.total ([] : Dict K) = 0 := rfl
@[simp] theorem Dict.total_cons (k : Nat) (v : K) (d : Dict K) : Dict.total ((k, v) :: d) = v + d.total := by simp [Dict.total]

theorem Dict.total_set (d : Dict K) (k : Nat) (v : K) : (d.set k v).total = v + (d.erase k).total := by
  rw [Dict.total_perm (Dict.set_perm d k v), Dict.total_cons]

theorem Dict.total_erase {d : Dict K} {k : Nat} {v : K} (h : d.get? k = some v) : d.total = v + (d.erase k).total := by
  rw [Dict.total_perm (Dict.perm_cons_erase h), Dict.total_cons]

theorem Dict.total_nonneg {d : Dict K} (h : ∀ e ∈ d, 0 ≤ e.2) : 0 ≤ d.total := by
  apply List.sum_nonneg
  intro x hx
  obtain ⟨e, he, rfl⟩ := List.mem_map.1 hx
  exact h e he

theorem Dict.total_sublist {d d' : Dict K} (h : List.Sublist d' d) (hd : ∀ e ∈ d, 0 ≤ e.2) : d'.total ≤ d.total := by
  induction h with
  | slnil => exact le_rfl
  | cons e h ih =>
    obtain ⟨k, v⟩ := e
    have := ih (fun e he => hd e (List.mem_cons_of_mem _ he))
    have hv := hd (k, v) List.mem_cons_self
    rw [Dict.total_cons]
    simp only at hv
    linarith
  | cons_cons e h ih =>
    obtain ⟨k, v⟩ := e
    have := ih (fun e he => hd e (List.mem_cons_of_mem _ he))
    rw [Dict.total_cons, Dict.total_cons]
    linarith

/-! ### A pool's stake is its pledge plus its delegations -/

/-- the books of a pool are in order -/
structure Balanced (p : Pool K) : Prop where
  nodup : p.delegators.keys.Nodup
  stake : p.stake = p.pledge + p.delegators.total
  min : ∀ e ∈ p.delegators, minUnit ≤ e.2

theorem Dict.mem_set {V : Type} {d : Dict V} {k : Nat} {v : V} {e : Nat × V} (h : e ∈ d.set k v) : e = (k, v) ∨ e ∈ d := by
  have := (Dict.set_perm d k v).mem_iff.1 h
  rcases List.mem_cons.1 this with h | h
  · exact Or.inl h
  · exact Or.inr ((Dict.erase_sublist d k).subset h)

theorem balanced_upd : UpdOK (Balanced (K := K)) := by
  intro p x a h hx
  have hnd := nodup_updateDelegation h.nodup x a
  refine ⟨hnd, ?_, ?_⟩
  · unfold Pool.updateDelegation
    simp only
    by_cases hlt : x < minUnit
    · have hx0 : x = 0 := by
        rcases hx with hx | hx
        · exact hx
        · exact absurd hlt (not_lt.2 hx)
      rw [hx0] at hlt
      simp only [hx0, if_pos hlt, Dict.set_erase, add_zero]
      cases hg : p.delegators.get? a with
      | none => simp only; rw [Dict.erase_of_not_mem (Dict.get?_eq_none.1 hg)]; exact h.stake
      | some old => simp only; have := h.stake; rw [Dict.total_erase hg] at this; rw [this]; ring
    · simp only [if_neg hlt, Dict.total_set]
      cases hg : p.delegators.get? a with
      | none => simp only; rw [Dict.erase_of_not_mem (Dict.get?_eq_none.1 hg), h.stake]; ring
      | some old => simp only; have := h.stake; rw [Dict.total_erase hg] at this; rw [this]; ring
  · unfold Pool.updateDelegation
    simp only
    intro e he
    split at he
    · rw [Dict.set_erase] at he
      exact h.min e ((Dict.erase_sublist _ _).subset he)
    · rename_i hge
      rcases Dict.mem_set he with rfl | he
      · exact not_lt.1 hge
      · exact h.min e he

theorem balanced_decides (s : State K) (me : Agent K) (σ : Strategy K) : DecidesAt Balanced s me σ := by
  intro m margins u q c _ _ _ _ _
  refine ⟨fun p m _ h => ⟨h.nodup, ?_, h.min⟩, fun pid a m _ => ⟨List.nodup_nil, ?_, ?_⟩⟩
  · change p.stake - (p.pledge - q) = q + p.delegators.total
    rw [h.stake]; ring
  · change q = q + Dict.total []
    simp
  · intro e he; cases he

theorem Reachable.balanced {c : Config K} {s : State K} (h : Reachable c s) : AllPools Balanced s :=
  h.allPools minUnit_pos balanced_upd ⟨List.nodup_nil, by simp [blankPool], by simp [blankPool]⟩ (fun rs p hp => ⟨hp.nodup, hp.stake, hp.min⟩)
    (fun s s₁ me ag σ _ _ _ _ _ _ => balanced_decides s₁ ag σ)

/-! ### Margins

In any arithmetic, with or without rounding. -/

section
variable {F : Type} [LinearOrder F] [Zero F] [One F] [Add F] [Sub F] [Mul F] [Div F] [Neg F] [NatCast F] [FSum F] [RoundedArith F]

/-- the margin is a fraction and the desirability belongs to it -/
structure Fair (p : Pool F) : Prop where
  margin_nonneg : 0 ≤ p.margin
  margin_le : p.margin ≤ 1
  des : p.des = desirability p.margin p.pp

theorem Fair.des_nonneg {p : Pool F} (h : Fair p) : 0 ≤ p.des := by rw [h.des]; exact Props.C08_nonneg _ _

theorem fair_upd : UpdOK (Fair (F := F)) := fun _ _ _ h _ => ⟨h.margin_nonneg, h.margin_le, h.des⟩

theorem loopMargins_all {M : F → Prop} {f : Nat → Py (F × F)} (hf : ∀ t, Sat AnyErr (f t) (fun res => M res.1)) : ∀ (l : List Nat) (ms : List F) (u : F),
    (∀ m ∈ ms, M m) → Sat AnyErr (loopMargins f l ms u) (fun res => ∀ m ∈ res.1, M m)
  | [], ms, u, h => h
  | t :: ts, ms, u, h => by
    unfold loopMargins
    refine Sat.bind (hf t) (fun res hres => ?_)
    obtain ⟨m, x⟩ := res
    refine loopMargins_all hf ts _ _ ?_
    intro m' hm'
    rcases List.mem_append.1 hm' with h' | h'
    · exact h m' h'
    · simp only [List.mem_singleton] at h'; subst h'; exact hres

theorem marginsAndUtility_fair {s : State F} (h : AllPools Fair s) (me : Agent F) (σ : Strategy F) (m : Nat) :
    Sat AnyErr (marginsAndUtility s me σ m) (fun res => ∀ m ∈ res.1, 0 ≤ m ∧ m ≤ 1) := by
  have hb := (RoundedArith.boost_pos (F := F)).le
  have h01 := (RoundedArith.zero_lt_one (F := F)).le
  unfold marginsAndUtility
  refine Sat.bind (P := fun _ => True) (Sat.any fun _ _ => trivial) (fun cost _ => ?_)
  refine Sat.bind (P := fun _ => True) (Sat.any fun _ _ => trivial) (fun pledge _ => ?_)
  split
  · refine loopMargins_all (M := fun m => 0 ≤ m ∧ m ≤ 1) (fun t => ?_) _ _ _ (by simp)
    unfold marginNM
    refine Sat.bind (P := fun _ => True) (Sat.any fun _ _ => trivial) (fun e _ => ?_)
    have key : ∀ td₀ tpp : F, 0 ≤ td₀ → Sat AnyErr (if potentialProfit s.rs pledge cost < td₀ + boost then do
          let u ← operatorUtility s.rs pledge pledge 0 cost
          return (0, u)
        else do
          let u ← operatorUtility s.rs (s.rs.sat pledge) pledge (suitableMargin (potentialProfit s.rs pledge cost) (max (td₀ + boost) tpp)) cost
          return (suitableMargin (potentialProfit s.rs pledge cost) (max (td₀ + boost) tpp), u) : Py (F × F)) (fun res => 0 ≤ res.1 ∧ res.1 ≤ 1) := by
      intro td tpp htd
      split
      · refine Sat.bind (P := fun _ => True) (Sat.any fun _ _ => trivial) (fun u _ => ?_)
        exact (⟨le_rfl, h01⟩ : (0 : F) ≤ 0 ∧ (0 : F) ≤ 1)
      · refine Sat.bind (P := fun _ => True) (Sat.any fun _ _ => trivial) (fun u _ => ?_)
        exact Props.C07_margin_range _ _ (le_max_of_le_left (RoundedArith.add_nonneg htd hb))
    cases e with
    | none => exact key 0 0 le_rfl
    | some r => exact key _ _ (h r).des_nonneg
  · refine loopMargins_all (M := fun m => 0 ≤ m ∧ m ≤ 1) (fun t => ?_) _ _ _ (by simp)
    unfold marginM
    refine Sat.bind (P := fun _ => True) (Sat.any fun _ _ => trivial) (fun e _ => ?_)
    refine Sat.bind (P := fun _ => True) (Sat.any fun _ _ => trivial) (fun u _ => Props.C07_margin_range _ _ ?_)
    cases e with
    | none => exact RoundedArith.add_nonneg le_rfl hb
    | some r =>
      have := Props.C08_nonneg (s.heap r).margin (currentProfit s.rs (s.heap r).stake (s.heap r).pledge (s.heap r).cost)
      change 0 ≤ myopicDes s.rs (s.heap r) + boost
      unfold myopicDes
      exact RoundedArith.add_nonneg this hb

theorem fair_decides {s : State F} (h : AllPools Fair s) (me : Agent F) (σ : Strategy F) : DecidesAt Fair s me σ := by
  intro m margins u q c _ _ hm _ _
  have hf := (marginsAndUtility_fair h me σ m).of_ok hm
  exact ⟨fun p m hm _ => ⟨(hf m hm).1, (hf m hm).2, rfl⟩, fun pid a m hm => ⟨(hf m hm).1, (hf m hm).2, rfl⟩⟩

theorem Reachable.fair {c : Config F} {s : State F} (h : Reachable c s) : AllPools Fair s :=
  h.allPools RoundedArith.minUnit_pos fair_upd ⟨le_rfl, RoundedArith.zero_lt_one.le, by simp [blankPool, desirability, RoundedArith.mul_zero]⟩ (fun rs p hp => ⟨hp.margin_nonneg, hp.margin_le, rfl⟩)
    (fun s s₁ me ag σ _ _ _ _ hp _ => fair_decides hp ag σ)

end

end RSE
