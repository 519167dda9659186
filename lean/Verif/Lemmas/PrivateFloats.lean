import Verif.Lemmas.Drift
import Verif.Lemmas.Private

/-!
# Delegations to private pools, in any arithmetic

An operator that makes a pool private expels its delegators if the stake of the pool exceeds its pledge (stakeholder.py:354-356).  In floating point a small
delegation does not make the stake exceed the pledge.
-/

set_option linter.unusedSectionVars false

namespace RSE

section
variable {F : Type} [LinearOrder F] [Zero F] [One F] [Add F] [Sub F] [Mul F] [Div F] [Neg F] [NatCast F] [FSum F]

/-- what becomes of the delegations to a pool that is private after an event: they were there before, and either the pool was private before (the same object), or
its operator has just planned it with a stake that is at most its pledge, or there are none -/
inductive PrivateFate (s s' : State F) (ev : Event F) (pid : Nat) (r : Ref) : Prop
  | none (h : ∀ b, allocOf s' b pid = none)
  | old (r₀ : Ref) (hp : s.pools.get? pid = some r₀) (hpr : (s.heap r₀).isPrivate = true) (h : ∀ b x, allocOf s' b pid = some x → allocOf s b pid = some x)
  | low (me : Nat) (ord : List Nat → List Nat) (ag : Agent F) (σ : Strategy F) (oν : Option (Strategy F)) (s₁ : State F) (hev : ev = .step me ord)
      (ha : s.agents.get? me = some ag) (hσ : ag.strategy = some σ) (hpm : planMove ord s ag σ = .ok (s₁, oν))
      (hle : (s₁.heap r).stake ≤ (s₁.heap r).pledge) (hsub : ∀ b x, allocOf s' b pid = some x → (s₁.heap r).delegators.get? b = some x)
      (h : ∀ b x, allocOf s' b pid = some x → allocOf s b pid = some x)

theorem Did.privateFate (hmin : (0 : F) < minUnit) {c : Config F} {s s' : State F} {ev : Event F} (hr : Reachable c s) (hs : c.simultaneous = false)
    (hd : Did (c.rs.k + 1) (c.simultaneous = false) s ev s') (hv : ev.Valid c.people.length) {pid : Nat} {r : Ref} (hp : s'.pools.get? pid = some r)
    (hpr : (s'.heap r).isPrivate = true) : PrivateFate s s' ev pid r := by
  have hg := hr.good hmin
  obtain ⟨hsq, hset⟩ := hg.seq hs
  have hplan : ∀ {me : Nat} {ag : Agent F} {σ : Strategy F} {oν : Option (Strategy F)} {s₁ s₂ : State F}, s.agents.get? me = some ag → StepPlan (c.rs.k + 1) s s₂ me ag σ oν s₁ →
      (∀ b pid, allocOf s₂ b pid = allocOf s b pid) ∧
      ∀ pid r, s₂.pools.get? pid = some r → (s₂.heap r).isPrivate = true → s.pools.get? pid = some r ∧ (s.heap r).isPrivate = true := by
    intro me ag σ oν s₁ s₂ ha hpl
    refine ⟨?_, ?_⟩
    · intro b pid
      rw [hpl.eq]
      exact allocOf_setAgent ha (hg.inv.core.agentId me ag ha) hpl.planned.agents oν b pid
    · intro pid r hp hpr
      have hp' : s.pools.get? pid = some r := by rw [hpl.eq] at hp; rw [← hpl.planned.pools]; exact hp
      refine ⟨hp', ?_⟩
      have hheap : s₂.heap = s₁.heap := by rw [hpl.eq]; rfl
      rw [← (hpl.planned.same r (hg.inv.core.poolRef _ _ hp').1).isPrivate, ← hheap]; exact hpr
  cases hd with
  | idle => exact .old r hp hpr (fun _ _ h => h)
  | plan me ord ag σ oν s₁ s' ha hpf hσ hpm hpl =>
    obtain ⟨hal, hpv⟩ := hplan ha hpl
    obtain ⟨h1, h2⟩ := hpv pid r hp hpr
    exact .old r h1 h2 (fun b x h => by rw [← hal]; exact h)
  | move me ord ag σ ν s₁ s₂ s₃ ha hpf hσ hpm hpl hsim ht hex hd hinv hds =>
    obtain ⟨hal, hpv⟩ := hplan ha hpl
    obtain ⟨hsq2, hst⟩ := ht hs
    have hseq := hds hs
    have hid : ag.id = me := hg.inv.core.agentId me ag ha
    have ha2 : s₂.agents.get? me = some { ag with newStrategy := some ν } := by
      rw [hpl.eq, get?_setAgent (me := me) (ag := { ag with newStrategy := some ν }) hid me, if_pos rfl]
    have hheap : s₂.heap = s₁.heap := by rw [hpl.eq]; rfl
    have hpools : s₂.pools = s₁.pools := by rw [hpl.eq]; rfl
    have hpr3 : (s₃.heap r).isPrivate = true := hpr
    have hp3 : s₃.pools.get? pid = some r := hp
    have hpr2 : (s₂.heap r).isPrivate = true := by rw [← (hd.same r).isPrivate]; exact hpr3
    by_cases hown : (s₃.heap r).owner = me
    · have hme : allocOf s₃ me pid = none := by
        cases hx : allocOf s₃ me pid with
        | none => rfl
        | some x =>
          obtain ⟨-, r', hr', ho⟩ := hseq.inv.good me pid x hx
          rw [hp3] at hr'; cases hr'
          exact absurd hown ho
      have h3 : ownOf s₃ me pid = some r := (hd.inv.own.own_iff me pid r).2 ⟨hp3, hown⟩
      have h4 : ν.owned.get? pid = some r := by
        have := hd.mine
        rw [ha2] at this
        unfold ownOf at h3
        cases hag : s₃.agents.get? me with
        | none => rw [hag] at h3; cases h3
        | some ag' =>
          rw [hag] at h3 this
          simp only [Option.map_some, Option.some.injEq, Agent.skel, Prod.mk.injEq] at this
          cases hst' : ag'.strategy with
          | none => rw [hst'] at this; simp at this
          | some σ' =>
            rw [hst'] at this
            simp only [Option.map_some, Option.some.injEq] at this
            simp only [Option.bind_some, hst'] at h3
            rw [← this.2.2.2.2.1]; exact h3
      by_cases hgone : Gone s₂ σ ν pid
      · refine .none (fun b => ?_)
        by_cases hb : b = me
        · subst hb; exact hme
        · exact hseq.gone b hb pid hgone
      · by_cases hall : ∀ b, allocOf s₂ b pid = none
        · refine .none (fun b => ?_)
          by_cases hb : b = me
          · subst hb; exact hme
          · exact (hseq.kept b hb pid hgone).trans (hall b)
        · obtain ⟨b₁, hb₁⟩ := not_forall.1 hall
          obtain ⟨x₁, hx₁⟩ := Option.ne_none_iff_exists'.1 hb₁
          obtain ⟨-, r₀, hr₀, -⟩ := hsq2.good b₁ pid x₁ hx₁
          have hst2 : stgOf s₂ me pid = some r := by simp [stgOf, ha2, h4]
          have ho2 := hpl.inv.own.stg_pool me pid r hst2 r₀ hr₀
          have h5 : σ.owned.get? pid = some r₀ := by
            have h6 := (hpl.inv.own.own_iff me pid r₀).2 ⟨hr₀, ho2⟩
            rw [ownOf_eq (ag := { ag with newStrategy := some ν }) (σ := σ) ha2 hσ] at h6
            exact h6
          have hne : ¬ Expels s₂ r := fun he => hgone ⟨Dict.mem_keys_of_get? h5, Or.inr ⟨r, h4, he⟩⟩
          have hle : (s₂.heap r).stake ≤ (s₂.heap r).pledge := by
            by_contra hc
            exact hne ⟨hpr2, not_le.1 hc⟩
          have hback : ∀ b x, allocOf s₃ b pid = some x → allocOf s₂ b pid = some x := by
            intro b x hx
            by_cases hb : b = me
            · subst hb; rw [hme] at hx; cases hx
            · rw [← hseq.kept b hb pid hgone]; exact hx
          refine .low me ord ag σ (some ν) s₁ rfl ha hσ hpm (by rw [← hheap]; exact hle) (fun b x hx => ?_) (fun b x hx => by rw [← hal]; exact hback b x hx)
          rw [← hheap, hst.copies pid r₀ r h5 h4 b, hsq2.agree pid r₀ hr₀ b]
          exact hback b x hx
    · have h3 : ownOf s₃ (s₃.heap r).owner pid = some r := (hd.inv.own.own_iff _ pid r).2 ⟨hp3, rfl⟩
      rw [(ownOf_of_skel (hd.others _ hown) pid).1] at h3
      have hp2 := ((hpl.inv.own.own_iff _ pid r).1 h3).1
      obtain ⟨h1, h2⟩ := hpv pid r hp2 hpr2
      refine .old r h1 h2 (fun b x hx => ?_)
      rw [← hal]
      change allocOf s₃ b pid = some x at hx
      by_cases hb : b = me
      · subst hb
        rw [hseq.mine] at hx
        exfalso
        obtain ⟨-, r', hr', -, hpub⟩ := (hpl.new ν rfl).allocs.good pid x hx
        rw [← hpools, hp2] at hr'; cases hr'
        rw [← hheap, hpr2] at hpub
        cases hpub
      · by_cases hgone : Gone s₂ σ ν pid
        · rw [hseq.gone b hb pid hgone] at hx; cases hx
        · rw [← hseq.kept b hb pid hgone]; exact hx
  | skip => exact .old r hp hpr (fun _ _ h => h)
  | adv me ord ag σ ν s₃ ha hσ hν hex hd hinv ht => exact absurd hs ht
  | phase p s' hph hc =>
    rw [hph.pools] at hp
    have : ∀ b, allocOf s' b pid = allocOf s b pid := fun b => by unfold allocOf; rw [hph.agents]
    refine .old r hp ?_ (fun b x h => by rw [← this]; exact h)
    rw [hph.heap r] at hpr
    split at hpr
    · exact hpr
    · exact hpr
  | roundEnd => exact .old r hp hpr (fun _ _ h => h)

end

/-! ### The amount of such delegations in binary64 -/

theorem Dict.sumQ_sub {d d' : Dict B64} (hd : d.keys.Nodup) (hd' : d'.keys.Nodup) (h0 : ∀ e ∈ d', 0 ≤ e.2) (h : ∀ b x, d.get? b = some x → d'.get? b = some x) :
    d.sumQ ≤ d'.sumQ := by
  let f : Nat → ℚ := fun a => match d'.get? a with
    | some x => x.1
    | none => 0
  have hf : ∀ a, 0 ≤ f a := by
    intro a
    change 0 ≤ (match d'.get? a with
    | some x => x.1
    | none => 0)
    cases h : d'.get? a with
    | none => exact le_rfl
    | some x => exact h0 (a, x) (Dict.mem_of_get? h)
  have hmap : ∀ {g : Dict B64}, (∀ e ∈ g, d'.get? e.1 = some e.2) → g.sumQ = (g.keys.map f).sum := by
    intro g hg
    unfold Dict.sumQ Dict.keys
    rw [List.map_map]
    congr 1
    apply List.map_congr_left
    intro e he
    change e.2.1 = (match d'.get? e.1 with
    | some x => x.1
    | none => 0)
    rw [hg e he]
  rw [hmap (g := d) (fun e he => h _ _ (Dict.get?_of_mem hd he)), hmap (g := d') (fun e he => Dict.get?_of_mem hd' he)]
  refine list_sum_le f hf hd hd' (fun a ha => ?_)
  obtain ⟨e, he, rfl⟩ := List.mem_map.1 ha
  exact Dict.mem_keys_of_get? (h _ _ (Dict.get?_of_mem hd he))

/-- private pools have delegations of at most `E` -/
def PrivateLow (E : ℚ) (s : State B64) : Prop := ∀ pid r, s.pools.get? pid = some r → (s.heap r).isPrivate = true → (s.heap r).delegators.sumQ ≤ E

theorem exec_privateLow {c : Config B64} (h0 : ∀ e ∈ c.people, 0 ≤ e.1) (hb : 0 ≤ c.rs.beta) (hs : c.simultaneous = false) {n : Nat} {s s' : State B64}
    (hr : Reachable c s) (h : AllPools (DriftOK c n) s) (hp : PrivateLow (slack (2 * c.funds) (2 * n)) s) {ev : Event B64} (hv : ev.Valid c.people.length)
    (he : exec s ev = .ok s') : PrivateLow (slack (2 * c.funds) (2 * (n + ev.cost))) s' := by
  have hmin := RoundedArith.minUnit_pos (F := B64)
  have hg := hr.good hmin
  have hd := ((hg.exec hmin hv).of_ok he).1
  have hdr := driftOK_graded h0
  have h' := exec_graded hdr h0 hb hr h hv he
  have hT : 0 ≤ 2 * c.funds := by have := (h 0).pledge; linarith [this.1, this.2]
  have hg' := (hr.next hv he).good hmin
  have hE : slack (2 * c.funds) (2 * n) ≤ slack (2 * c.funds) (2 * (n + ev.cost)) := slack_mono hT (by omega)
  intro pid r hpp hpr
  have hag := (hg'.seq hs).1.agree pid r hpp
  have hnn : ∀ {m : Nat} {q : Pool B64}, DriftOK c m q → ∀ e ∈ q.delegators, 0 ≤ e.2 := fun hq e he => by
    obtain ⟨y, -, h1, -⟩ := hq.amounts e he
    exact hmin.le.trans h1
  cases hd.privateFate hmin hr hs hv hpp hpr with
  | none hn =>
    have : (s'.heap r).delegators = [] := by
      cases hdl : (s'.heap r).delegators with
      | nil => rfl
      | cons e t =>
        have := hag e.1
        rw [hn e.1, hdl] at this
        simp [Dict.get?] at this
    have e0 : Dict.sumQ [] = 0 := by simp [Dict.sumQ]
    have e1 : slack (2 * c.funds) 0 = 0 := by simp [slack]
    rw [this, e0, ← e1]
    exact slack_mono hT (Nat.zero_le _)
  | old r₀ h1 h2 h3 =>
    refine le_trans (Dict.sumQ_sub (h' r).nodup (h r₀).nodup (hnn (h r₀)) (fun b x hx => ?_)) ((hp pid r₀ h1 h2).trans hE)
    rw [(hg.seq hs).1.agree pid r₀ h1]
    rw [hag] at hx
    exact h3 b x hx
  | low me ord ag σ oν s₁ hev ha hσ hpm hle hsub h3 =>
    subst hev
    have hm := hr.allocsMin hmin
    obtain ⟨hbeta, ht⟩ := hr.terms h0 hb
    have hid : ag.id = me := hg.inv.core.agentId me ag ha
    have htd := hg.inv.tidy me ag ha
    have h1 : AllPools (DriftOK c (n + 3)) s₁ := by
      refine (planMove_graded hdr hg.inv.core h hv.2 ag (htd.owned _ hσ) (fun pid r hr => (hg.inv.owned ha hσ hr).1) (htd.allocs _ hσ) ?_ ?_).of_ok hpm
      · rw [hid]; exact (amounts_of_terms hg hm ht ha).1 σ hσ
      · intro k q hq
        have hs := hg.stake_ge h0 ha
        refine ⟨pledge_nonneg hq hs hbeta, me, _, hg.person ha, ?_⟩
        unfold pledgePerPool at hq
        split at hq
        · cases hq
        · rename_i hk
          cases hq
          exact (min_le_left _ _).trans (RoundedArith.div_le hs (RoundedArith.one_le_cast hk))
    refine le_trans (Dict.sumQ_sub (h' r).nodup (h1 r).nodup (hnn (h1 r)) (fun b x hx => ?_)) ?_
    · rw [hag] at hx; exact hsub b x hx
    · obtain ⟨m, hm1, hm2⟩ := (h1 r).drift
      have hm3 := (abs_le.1 hm2).1
      have hle' := B64.le_def.1 hle
      have : slack (2 * c.funds) m ≤ slack (2 * c.funds) (2 * (n + (Event.step me ord : Event B64).cost)) := slack_mono hT (by simp only [Event.cost]; omega)
      unfold Pool.due at hm3
      linarith

theorem run_privateLow {c : Config B64} (h0 : ∀ e ∈ c.people, 0 ≤ e.1) (hb : 0 ≤ c.rs.beta) (hs : c.simultaneous = false) :
    ∀ (es : List (Event B64)) {n : Nat} {s s' : State B64}, Reachable c s → AllPools (DriftOK c n) s → PrivateLow (slack (2 * c.funds) (2 * n)) s →
    (∀ ev ∈ es, ev.Valid c.people.length) → iterM exec s es = .ok s' → PrivateLow (slack (2 * c.funds) (2 * (n + (es.map Event.cost).sum))) s'
  | [], n, s, s', _, _, h, _, he => by cases he; exact h
  | ev :: t, n, s, s', hr, hd, h, hv, he => by
    simp only [iterM, bind, Except.bind] at he
    cases h1 : exec s ev with
    | error e => rw [h1] at he; cases he
    | ok s₁ =>
      rw [h1] at he
      have hv1 := hv ev List.mem_cons_self
      have := run_privateLow h0 hb hs t (hr.next hv1 h1) (exec_graded (driftOK_graded h0) h0 hb hr hd hv1 h1) (exec_privateLow h0 hb hs hr hd h hv1 h1)
        (fun e he => hv e (List.mem_cons_of_mem _ he)) he
      rw [List.map_cons, List.sum_cons, ← Nat.add_assoc]
      exact this

end RSE
