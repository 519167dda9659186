import Verif.Lemmas.NoCrash

/-!
# Phases that only relax the reward scheme: open pools stay profitable
-/

set_option linter.unusedSectionVars false

namespace RSE

variable {K : Type} [Field K] [LinearOrder K] [IsStrictOrderedRing K]

/-- every open pool may expect a profit under the current reward scheme, and its pledge does not exceed the threshold -/
def PoolsPay (s : State K) : Prop := ∀ pid r, s.pools.get? pid = some r →
  0 < (s.heap r).pp ∧ (s.heap r).pp = potentialProfit s.rs (s.heap r).pledge (s.heap r).cost ∧ (s.heap r).pledge ≤ s.rs.beta

theorem pledgePerPool_le {stake beta q : K} {n : Nat} (h : pledgePerPool stake beta n = .ok q) : q ≤ beta := by
  unfold pledgePerPool at h
  split at h
  · cases h
  · cases h; exact min_le_right _ _

theorem PoolsPay.congr {s s' : State K} (h : PoolsPay s) (hp : s'.pools = s.pools) (hrs : s'.rs = s.rs)
    (hh : ∀ pid r, s.pools.get? pid = some r → SamePool (s.heap r) (s'.heap r)) : PoolsPay s' := by
  intro pid r hr
  rw [hp] at hr
  have := hh pid r hr
  rw [this.pp, this.pledge, this.cost, hrs]
  exact h pid r hr

theorem Did.poolsPay {c : Config K} {s s' : State K} {ev : Event K} (hr : Reachable c s) (hc : c.simultaneous = false)
    (h0 : ∀ e ∈ c.people, 0 < e.1) (hb : 0 < c.rs.beta) (ha0 : 0 ≤ s.rs.a0) (hv : ev.Valid c.people.length) (hev : ∀ p, ev ≠ .phase p)
    (hd : Did (c.rs.k + 1) (c.simultaneous = false) s ev s') (h : PoolsPay s) : PoolsPay s' := by
  have hg := hr.good minUnit_pos
  have hi := hg.inv
  have hold : ∀ {me : Nat} {ag : Agent K} {σ : Strategy K} {oν : Option (Strategy K)} {s₁ s₂ : State K},
      StepPlan (c.rs.k + 1) s s₂ me ag σ oν s₁ → PoolsPay s₂ := by
    intro me ag σ oν s₁ s₂ hpl
    refine h.congr (by rw [hpl.eq]; exact hpl.planned.pools) (by rw [hpl.eq]; exact hpl.planned.rs) (fun pid r hp => ?_)
    rw [hpl.eq]
    exact hpl.planned.same r (hi.core.poolRef _ _ hp).1
  cases hd with
  | idle => exact h
  | plan me ord ag σ oν s₁ s' ha hp hσ hpm hpl => exact hold hpl
  | move me ord ag σ ν s₁ s₂ s₃ ha hp hσ hpm hpl hsim ht hex hd hinv hds =>
    have hid : ag.id = me := hi.core.agentId me ag ha
    have h2 := hold hpl
    have ht := hi.tidy me ag ha
    have hag : 0 < ag.stake := h0 _ (List.mem_of_getElem? (hg.person ha))
    have hsh := planMove_shaped hi.core hv.2 (ht.allocs _ hσ) (ht.owned _ hσ) (fun pid r hr => (hi.owned ha hσ hr).1) hag.le hpm True rfl
    have hrs2 : s₂.rs = s.rs := by rw [hpl.eq]; exact hpl.planned.rs
    have hrs : s₃.rs = s.rs := by rw [hd.frame]; exact hrs2
    have hheap : s₂.heap = s₁.heap := by rw [hpl.eq]; rfl
    change PoolsPay s₃
    intro pid r hp3
    obtain ⟨ag', σ', ha', hσ', ho'⟩ := hd.inv.owner hp3
    have hs3 := hd.same r
    rw [hs3.pp, hs3.pledge, hs3.cost, hrs]
    by_cases hbm : (s₃.heap r).owner = me
    · rw [hbm] at ha'
      have hsk := hd.mine
      rw [ha'] at hsk
      cases h1 : s₂.agents.get? me with
      | none => rw [h1] at hsk; cases hsk
      | some ag₂ =>
        rw [h1] at hsk
        simp only [Option.map_some, Option.some.injEq, Agent.skel, Prod.mk.injEq, hσ'] at hsk
        have hr' : r ∈ ν.owned.vals := List.mem_map.2 ⟨(pid, r), Dict.mem_of_get? (by rw [← hsk.2.2.2.2.1]; exact ho'), rfl⟩
        have hlen : 0 < ν.owned.length := by rw [← length_vals]; exact List.length_pos_of_mem hr'
        obtain ⟨q, hq⟩ : ∃ q, pledgePerPool ag.stake s.rs.beta ν.owned.length = .ok q := by simp [pledgePerPool, hlen.ne']
        obtain ⟨co, hco⟩ : ∃ co, costPerPool ν.owned.length ag.cost s.extraFrac = .ok co := by simp [costPerPool, hlen.ne']
        obtain ⟨k1, k2, -, k4⟩ := hsh.pools q co hq hco r hr'
        rw [hheap, k4 trivial, k1, k2]
        exact ⟨hr.plan_profitable (hr.books hc) h0 hb ha0 ha hσ hv.2 hpm rfl hlen hq hco, rfl, pledgePerPool_le hq⟩
    · have hsk := hd.others _ hbm
      rw [ha'] at hsk
      cases h1 : s₂.agents.get? (s₃.heap r).owner with
      | none => rw [h1] at hsk; cases hsk
      | some ag₂ =>
        rw [h1] at hsk
        simp only [Option.map_some, Option.some.injEq] at hsk
        obtain ⟨-, -, k3, -⟩ := skel_eq hsk
        rw [hσ'] at k3
        cases hs2 : ag₂.strategy with
        | none => rw [hs2] at k3; cases k3
        | some σ₂ =>
          rw [hs2] at k3
          have ho2 : σ₂.owned.get? pid = some r := by
            have : σ'.owned = σ₂.owned := Option.some.inj k3
            rw [← this]; exact ho'
          have := h2 pid r (hpl.inv.owned h1 hs2 ho2).1
          rw [hrs2] at this
          exact this
  | skip => exact h
  | adv me ord ag σ ν s₃ ha hσ hν hex hd hinv ht => exact absurd hc ht
  | phase p => exact absurd rfl (hev p)
  | roundEnd => exact h

/-! ### What a change of the scheme does to a profit -/

/-- `rs'` pays every pool with a sensible pledge at least what `rs` pays when saturated -/
structure Relaxes (rs rs' : RS K) : Prop where
  scheme : rs'.scheme = rs.scheme
  beta : rs.beta ≤ rs'.beta
  linear : rs.scheme ≠ .cip50 → 0 ≤ rs'.a0 ∧ rs'.a0 ≤ rs.a0
  cip : rs.scheme = .cip50 → rs.a0 ≤ rs'.a0

theorem saturated_linear {rs : RS K} (hs : rs.scheme ≠ .cip50) (hb : 0 < rs.beta) {q : K} (hq : q ≤ rs.beta) :
    rs.reward q (rs.sat q) = (rs.beta + rs.a0 * q) / (1 + rs.a0) := by
  have hsat : rs.sat q = rs.beta := by
    unfold RS.sat
    split
    · rename_i h; exact absurd h hs
    · rfl
  rw [hsat]
  unfold RS.reward
  cases h : rs.scheme with
  | cardano =>
    simp only [min_eq_left hq, min_self, totalRewards]
    rw [div_self hb.ne', sub_self, mul_zero, sub_zero, div_self hb.ne']
    ring
  | simplified =>
    simp only [min_eq_left hq, min_self, totalRewards]
    have : rs.beta * (1 + rs.a0 * q / rs.beta) = rs.beta + rs.a0 * q := by
      rw [mul_add, mul_one, mul_div_cancel₀ _ hb.ne']
    rw [mul_assoc, this]
    ring
  | flat =>
    simp only [min_eq_left hq, min_self, totalRewards]
    ring
  | cip50 => exact absurd h hs

theorem Relaxes.profit {rs rs' : RS K} (h : Relaxes rs rs') (hb : 0 < rs.beta) {q c : K} (hq0 : 0 ≤ q) (hq : q ≤ rs.beta) :
    potentialProfit rs q c ≤ potentialProfit rs' q c := by
  unfold potentialProfit
  refine sub_le_sub_right ?_ c
  by_cases hs : rs.scheme = .cip50
  · have hsat : rs.sat q ≤ rs'.sat q := by
      unfold RS.sat
      rw [h.scheme, hs]
      exact min_le_min (mul_le_mul_of_nonneg_right (h.cip hs) hq0) h.beta
    unfold RS.reward
    rw [h.scheme, hs]
    simp only [min_self, totalRewards, one_mul]
    exact hsat
  · obtain ⟨h1, h2⟩ := h.linear hs
    rw [saturated_linear hs hb hq, saturated_linear (by rw [h.scheme]; exact hs) (lt_of_lt_of_le hb h.beta) (hq.trans h.beta)]
    rw [div_le_div_iff₀ (by linarith) (by linarith)]
    nlinarith [mul_nonneg (sub_nonneg.2 h2) (sub_nonneg.2 hq), mul_nonneg (sub_nonneg.2 h.beta) (by linarith : (0:K) ≤ 1 + rs.a0)]

theorem Phased.poolsPay {c : Config K} {s s' : State K} (hr : Reachable c s) (hp : Phased s s') (h0 : ∀ e ∈ c.people, 0 < e.1) (hb : 0 < c.rs.beta)
    (hx : Relaxes s.rs s'.rs) (h : PoolsPay s) : PoolsPay s' := by
  have hbs := (hr.shaped (fun e he => (h0 e he).le) hb).1
  intro pid r hpr
  rw [hp.pools] at hpr
  obtain ⟨h1, h2, h3⟩ := h pid r hpr
  have hq := hr.pledge_pos h0 hb hpr
  have hmem : r ∈ s.pools.vals := List.mem_map.2 ⟨(pid, r), Dict.mem_of_get? hpr, rfl⟩
  rw [hp.heap r, if_pos hmem]
  change 0 < potentialProfit s'.rs (s.heap r).pledge (s.heap r).cost ∧ potentialProfit s'.rs (s.heap r).pledge (s.heap r).cost = _ ∧ _
  refine ⟨lt_of_lt_of_le h1 (by rw [h2]; exact hx.profit hbs hq.le h3), rfl, h3.trans hx.beta⟩

end RSE
