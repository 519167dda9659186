import Verif.Lemmas.Relax
import Verif.Props.Crash

/-!
# C30: crashes of multi-phase simulations, and phases that cannot cause one
-/

set_option linter.unusedSectionVars false

namespace RSE.Props

variable {K : Type} [Field K] [LinearOrder K] [IsStrictOrderedRing K]

/-- The changes of phase among the events never raise `k` and never raise `a0` (for CIP-50, where a larger `a0` raises the saturation
thresholds: never lower it).  `k` and `a` are the values in force before the events. -/
def RelaxingPhases (scheme : Scheme) : Nat → K → List (Event K) → Prop
  | _, _, [] => True
  | k, a, .phase p :: es =>
    1 ≤ p.k.getD k ∧ p.k.getD k ≤ k ∧ (if scheme = .cip50 then a ≤ p.a0.getD a else 0 ≤ p.a0.getD a ∧ p.a0.getD a ≤ a) ∧
      RelaxingPhases scheme (p.k.getD k) (p.a0.getD a) es
  | k, a, _ :: es => RelaxingPhases scheme k a es

/-- what is known between the events -/
structure Paying (c : Config K) (k : Nat) (a : K) (s : State K) : Prop where
  reach : Reachable c s
  pay : PoolsPay s
  scheme : s.rs.scheme = c.rs.scheme
  k_eq : s.rs.k = k
  k_pos : 1 ≤ k
  k_le : k ≤ c.rs.k
  beta : s.rs.beta = 1 / (k : K)
  a_eq : s.rs.a0 = a
  a_nonneg : 0 ≤ a
  cip : c.rs.scheme = .cip50 → 0 < a

theorem rs_unchanged {c : Config K} {s s' : State K} {ev : Event K} (hev : ∀ p, ev ≠ .phase p)
    (hd : Did (c.rs.k + 1) (c.simultaneous = false) s ev s') : s'.rs = s.rs := by
  cases hd with
  | idle => rfl
  | plan me ord ag σ oν s₁ s' ha hp hσ hpm hpl => rw [hpl.eq]; exact hpl.planned.rs
  | move me ord ag σ ν s₁ s₂ s₃ ha hp hσ hpm hpl hsim ht hex hd =>
    change s₃.rs = s.rs
    rw [hd.frame]; change s₂.rs = s.rs; rw [hpl.eq]; exact hpl.planned.rs
  | skip => rfl
  | adv me ord ag σ ν s₃ ha hσ hν hex hd => change s₃.rs = s.rs; rw [hd.frame]
  | phase p => exact absurd rfl (hev p)
  | roundEnd => rfl

theorem satOK_of {s : State K} {f : K} {ag : Agent K} (hst : 0 < ag.stake) (hb : 0 < s.rs.beta) (hs : s.rs.scheme = .cip50 → 0 < s.rs.a0) :
    SatOK s.rs f ag := by
  intro m q co hq hco
  left
  unfold RS.sat
  split
  · rename_i hsch
    exact (lt_min (mul_pos (hs hsch) (pledgePerPool_pos hq hst hb)) hb).ne'
  · exact hb.ne'

theorem Paying.turn {c : Config K} {k : Nat} {a : K} {s : State K} (h : Paying c k a s) (hc : c.simultaneous = false)
    (h0 : ∀ e ∈ c.people, 0 < e.1) (hb : 0 < c.rs.beta) {ev : Event K} (hv : ev.Valid c.people.length) (hev : ∀ p, ev ≠ .phase p) :
    ∃ s', exec s ev = .ok s' ∧ Paying c k a s' := by
  have hg := h.reach.good minUnit_pos
  have hbs := (h.reach.shaped (fun e he => (h0 e he).le) hb).1
  obtain ⟨s', hs'⟩ := h.reach.never hc (by rw [h.k_eq]; exact h.k_pos) h0 hb (by rw [h.a_eq]; exact h.a_nonneg)
    (fun pid r hp => (h.pay pid r hp).1) (fun b ag ha _ => satOK_of (h0 _ (List.mem_of_getElem? (hg.person ha))) hbs
      (fun hsch => by rw [h.a_eq]; exact h.cip (by rw [← h.scheme]; exact hsch))) (fun me _ _ => by rw [h.k_eq]; have := h.k_le; omega) hv hev
  obtain ⟨hd, -⟩ := (hg.exec minUnit_pos hv).of_ok hs'
  have hrs := rs_unchanged hev hd
  exact ⟨s', hs', h.reach.next hv hs', hd.poolsPay h.reach hc h0 hb (by rw [h.a_eq]; exact h.a_nonneg) hv hev h.pay, by rw [hrs]; exact h.scheme,
    by rw [hrs]; exact h.k_eq, h.k_pos, h.k_le, by rw [hrs]; exact h.beta, by rw [hrs]; exact h.a_eq, h.a_nonneg, h.cip⟩

theorem phaseRS_eq {rs : RS K} {p : PhaseParams K} {k : Nat} (hk : rs.k = k) (hb : rs.beta = 1 / (k : K)) :
    phaseRS rs p = { rs with k := p.k.getD k, beta := 1 / ((p.k.getD k : Nat) : K), a0 := p.a0.getD rs.a0 } := by
  unfold phaseRS
  cases p.k <;> cases p.a0 <;> simp [← hk, hb]
  all_goals (cases rs; simp_all)

theorem Paying.phase {c : Config K} {k : Nat} {a : K} {s : State K} (h : Paying c k a s) (h0 : ∀ e ∈ c.people, 0 < e.1) (hb : 0 < c.rs.beta)
    {p : PhaseParams K} (h1 : 1 ≤ p.k.getD k) (h2 : p.k.getD k ≤ k)
    (h3 : if c.rs.scheme = .cip50 then a ≤ p.a0.getD a else 0 ≤ p.a0.getD a ∧ p.a0.getD a ≤ a) :
    ∃ s', exec s (.phase p) = .ok s' ∧ Paying c (p.k.getD k) (p.a0.getD a) s' := by
  have hg := h.reach.good minUnit_pos
  have hk : p.k ≠ some 0 := by intro hk; rw [hk] at h1; exact absurd h1 (Nat.not_succ_le_zero 0)
  have hspec := changePhase_spec hg.inv.core p
  cases he : changePhase s p with
  | error e => exact absurd (hspec.of_error he).2 hk
  | ok s' =>
    obtain ⟨-, hph, hrs, -⟩ := hspec.of_ok he
    refine ⟨s', he, ?_⟩
    rw [phaseRS_eq h.k_eq h.beta] at hrs
    rw [h.a_eq] at hrs
    have hbeta : (1 : K) / (k : K) ≤ 1 / ((p.k.getD k : Nat) : K) :=
      one_div_le_one_div_of_le (Nat.cast_pos.2 h1) (Nat.cast_le.2 h2)
    have hx : Relaxes s.rs s'.rs := by
      refine ⟨by rw [hrs], by rw [hrs, h.beta]; exact hbeta, fun hs => ?_, fun hs => ?_⟩
      · rw [h.scheme] at hs
        rw [if_neg hs] at h3
        rw [hrs, h.a_eq]; exact h3
      · rw [h.scheme] at hs
        rw [if_pos hs] at h3
        rw [hrs, h.a_eq]; exact h3
    refine ⟨h.reach.next (ev := .phase p) trivial he, hph.poolsPay h.reach h0 hb hx h.pay, by rw [hrs]; exact h.scheme, by rw [hrs], h1, h2.trans h.k_le, by rw [hrs], by rw [hrs], ?_, ?_⟩
    · split at h3
      · exact h.a_nonneg.trans h3
      · exact h3.1
    · intro hs
      rw [if_pos hs] at h3
      exact lt_of_lt_of_le (h.cip hs) h3

/-- C30, phases that relax the reward scheme (others can stop the simulation, see `C30_index_error` and `C30_attribute_error`).  A sequential or random simulation with `k ≥ 1`, `a0 ≥ 0` (CIP-50: `a0 > 0`) and positive stakes in which the phases
never raise `k` and never raise `a0` (CIP-50: never lower it) never raises an exception, whatever happens to the other parameters. -/
theorem C30_relaxing_phases_never_crash {c : Config K} (hc : c.simultaneous = false) (hk : 1 ≤ c.rs.k) (hb : c.rs.beta = 1 / (c.rs.k : K))
    (ha0 : 0 ≤ c.rs.a0) (hcip : c.rs.scheme = .cip50 → 0 < c.rs.a0) (h0 : ∀ e ∈ c.people, 0 < e.1) (es : List (Event K))
    (hes : ∀ e ∈ es, e.Valid c.people.length) (hrel : RelaxingPhases c.rs.scheme c.rs.k c.rs.a0 es) : ∃ s, iterM exec (initState c) es = .ok s := by
  have hbpos : 0 < c.rs.beta := by rw [hb]; exact div_pos one_pos (Nat.cast_pos.2 hk)
  have key : ∀ (es : List (Event K)) (k : Nat) (a : K) (s : State K), Paying c k a s → (∀ e ∈ es, e.Valid c.people.length) →
      RelaxingPhases c.rs.scheme k a es → ∃ s', iterM exec s es = .ok s' := by
    intro es
    induction es with
    | nil => intro k a s _ _ _; exact ⟨s, rfl⟩
    | cons e t ih =>
      intro k a s h hes hrel
      have hv := hes e List.mem_cons_self
      have ht := fun e he => hes e (List.mem_cons_of_mem _ he)
      have step : ∀ {k' : Nat} {a' : K}, (∃ s', exec s e = .ok s' ∧ Paying c k' a' s') → RelaxingPhases c.rs.scheme k' a' t →
          ∃ s', iterM exec s (e :: t) = .ok s' := by
        rintro k' a' ⟨s₁, h₁, hp⟩ hr
        obtain ⟨s', h'⟩ := ih _ _ s₁ hp ht hr
        exact ⟨s', by unfold iterM; rw [h₁]; exact h'⟩
      cases e with
      | phase p =>
        obtain ⟨h1, h2, h3, h4⟩ := hrel
        exact step (h.phase h0 hbpos h1 h2 h3) h4
      | step me ord => exact step (h.turn hc h0 hbpos hv (fun p => by simp)) hrel
      | advance me ord => exact step (h.turn hc h0 hbpos hv (fun p => by simp)) hrel
      | roundEnd => exact step (h.turn hc h0 hbpos hv (fun p => by simp)) hrel
  exact key es _ _ _ ⟨⟨[], by simp, rfl⟩, (fun pid r hp => by cases hp), rfl, rfl, hk, le_rfl, hb, rfl, ha0, hcip⟩ hes hrel

/-- C30, the causes of crashes.  In a sequential or random simulation with any phases (with `k ≥ 1`, `a0 ≥ 0`, positive for CIP-50), an exception in
the turn of an agent means that `k` has grown beyond the number of place-holders in the ranking and pools of other agents, or that the phase has left
an open pool without a potential profit. -/
theorem C30_causes {c : Config K} {s : State K} (hr : Reachable c s) (hc : c.simultaneous = false) (h0 : ∀ e ∈ c.people, 0 < e.1) (hb : 0 < c.rs.beta)
    (hk : 1 ≤ s.rs.k) (ha0 : 0 ≤ s.rs.a0) (hcip : s.rs.scheme = .cip50 → 0 < s.rs.a0) {ev : Event K} (hv : ev.Valid c.people.length) (hev : ∀ p, ev ≠ .phase p)
    {e : Err} (he : exec s ev = .error e) :
    (∃ me ord, ev = .step me ord ∧ c.rs.k + 1 + othersPools s me < s.rs.k) ∨ ∃ pid r, s.pools.get? pid = some r ∧ (s.heap r).pp ≤ 0 := by
  by_contra hno
  push Not at hno
  obtain ⟨h1, h2⟩ := hno
  have hg := hr.good minUnit_pos
  have hbs := (hr.shaped (fun e he => (h0 e he).le) hb).1
  obtain ⟨s', hs'⟩ := hr.never hc hk h0 hb ha0 h2 (fun b ag ha _ => satOK_of (h0 _ (List.mem_of_getElem? (hg.person ha))) hbs hcip) h1 hv hev
  rw [hs'] at he
  cases he

/-! ### Both causes occur -/

/-- which exception a computation raises -/
def raised {α : Type} (x : Py α) : Option Err := match x with
  | .ok _ => none
  | .error e => some e

theorem raised_some {α : Type} {x : Py α} {e : Err} (h : raised x = some e) : x = .error e := by
  cases x with
  | ok a => cases h
  | error e' => exact congrArg _ (Option.some.inj h)

/-- the demo with `k = 1` -/
def oneTarget : Config ℚ := { demo false with rs := { scheme := .cardano, k := 1, beta := 1, a0 := 3/10 } }

/-- `k` grows from 1 to 3: there are two place-holders in the ranking, and a non-myopic agent looks for the third entry. -/
theorem C30_index_error : iterM exec (initState oneTarget) [.phase { k := some 3 }, .step 0 id] = .error .index :=
  raised_some (by decide +kernel)

/-- a poor agent with high costs and a rich one with low costs -/
def poorRich : Config ℚ := { demo false with people := [(1/100, 1/50, .nonMyopic), (99/100, 1/1000, .nonMyopic)] }

/-- `a0` grows from 3/10 to 100: the pools of the poor agent cannot make a profit any more, rank after the place-holders, and the other agent
runs into one of these when it looks for the rank of such a pool. -/
theorem C30_attribute_error : iterM exec (initState poorRich) ([.step 0 id, .step 1 id] ++ [.phase { a0 := some 100 }] ++ [.step 1 id]) = .error .attr :=
  raised_some (by decide +kernel)

/-! Hypotheses are met: a run with open pools, a change of all parameters and further moves. -/

example : RelaxingPhases (demo false).rs.scheme (demo false).rs.k (demo false).rs.a0
    (demoRound ++ demoRound ++ [.phase { k := some 2, a0 := some (1/10), extraFrac := some (1/3) }] ++ demoRound) := by
  simp only [demoRound, demo, List.cons_append, List.nil_append, RelaxingPhases]
  decide +kernel

example : (demo false).rs.beta = 1 / ((demo false).rs.k : ℚ) := by decide +kernel

/-- ... and in this run the phase makes agents move again -/
example : (iterM exec (initState (demo false)) (demoRound ++ demoRound)).toOption.map demoView ≠
    (iterM exec (initState (demo false)) (demoRound ++ demoRound ++ [.phase { k := some 2, a0 := some (1/10), extraFrac := some (1/3) }] ++ demoRound)).toOption.map demoView := by
  decide +kernel

end RSE.Props
