import Verif.Lemmas.Reach

/-!
# Predicates that hold for every pool object

If a predicate on pools survives the delegations that agents make and the decisions that operators take, then it holds for every
pool object (open, staged or forgotten) at all times, whatever the activation order.
-/

set_option linter.unusedSectionVars false

namespace RSE

variable {F : Type} [LinearOrder F] [Zero F] [One F] [Add F] [Sub F] [Mul F] [Div F] [Neg F] [NatCast F] [FSum F]

/-- every pool object satisfies `P` -/
def AllPools (P : Pool F → Prop) (s : State F) : Prop := ∀ r, P (s.heap r)

/-- `P` survives the delegations that occur -/
def UpdOK (P : Pool F → Prop) : Prop := ∀ p x a, P p → (x = 0 ∨ minUnit ≤ x) → P (p.updateDelegation x a)

/-- `P` survives that a delegation is withdrawn -/
def ZeroOK (P : Pool F → Prop) : Prop := ∀ p a, P p → P (p.updateDelegation 0 a)

theorem UpdOK.zero {P : Pool F → Prop} (h : UpdOK P) : ZeroOK P := fun p a hp => h p 0 a hp (Or.inl rfl)

/-- amounts that are passed to `update_delegation` -/
def AmountsOK (l : List (Nat × F)) : Prop := ∀ e ∈ l, e.2 = 0 ∨ minUnit ≤ e.2

/-- no errors are excluded -/
def AnyErr (_ : Err) : Prop := True

theorem Sat.any {α : Type} {x : Py α} {P : α → Prop} (h : ∀ a, x = .ok a → P a) : Sat AnyErr x P := Sat.intro h (fun _ _ => trivial)

theorem AllPools.update {P : Pool F → Prop} {heap : Ref → Pool F} (h : ∀ r, P (heap r)) {r : Ref} {p : Pool F} (hp : P p) :
    ∀ r', P (Function.update heap r p r') := by
  intro r'
  by_cases hr : r' = r
  · subst hr; rwa [Function.update_self]
  · rw [Function.update_of_ne hr]; exact h r'

theorem AllPools.alloc {P : Pool F → Prop} {s : State F} (h : AllPools P s) {p : Pool F} (hp : P p) : AllPools P (s.alloc p) :=
  AllPools.update h hp

theorem AllPools.setPool {P : Pool F → Prop} {s : State F} (h : AllPools P s) (r : Ref) {p : Pool F} (hp : P p) : AllPools P (s.setPool r p) :=
  AllPools.update h hp

/-! ### Planning -/

theorem setDelegation_all {P : Pool F → Prop} (hu : UpdOK P) {s : State F} (h : AllPools P s) (pid : Nat) {x : F} (hx : x = 0 ∨ minUnit ≤ x) (a : Nat) :
    Sat AnyErr (setDelegation s pid x a) (fun s' => AllPools P s' ∧ s'.rs = s.rs) := by
  unfold setDelegation
  refine Sat.bind (P := fun _ => True) (Sat.any fun _ _ => trivial) (fun r _ => ?_)
  refine Sat.bind (P := fun _ => True) (Sat.any fun _ _ => trivial) (fun l _ => ?_)
  exact ⟨AllPools.update h (hu _ _ _ (h r) hx), rfl⟩

theorem setDelegations_all {P : Pool F → Prop} (hu : UpdOK P) (a : Nat) : ∀ (l : List (Nat × F)) {s : State F}, AllPools P s → AmountsOK l →
    Sat AnyErr (setDelegations s a l) (fun s' => AllPools P s' ∧ s'.rs = s.rs)
  | [], s, h, _ => ⟨h, rfl⟩
  | (pid, x) :: t, s, h, hl => by
    unfold setDelegations
    refine Sat.bind (setDelegation_all hu h pid (hl _ List.mem_cons_self) a) (fun s₁ h₁ => ?_)
    refine (setDelegations_all hu a t h₁.1 (fun e he => hl e (List.mem_cons_of_mem _ he))).imp ?_
    rintro s' ⟨k1, k2⟩
    exact ⟨k1, k2.trans h₁.2⟩

theorem amounts_zero (l : Dict F) : AmountsOK (l.map (fun e => (e.1, (0 : F)))) := by
  intro e he
  obtain ⟨e', -, rfl⟩ := List.mem_map.1 he
  exact Or.inl rfl

theorem findDelegationMove_all {P : Pool F → Prop} (hu : UpdOK P) {s : State F} (h : AllPools P s) (me : Agent F) {σ : Strategy F}
    (hσ : AmountsOK σ.allocs) (stake : F) :
    Sat AnyErr (findDelegationMove s me σ stake) (fun res => AllPools P res.1 ∧ res.1.rs = s.rs) := by
  unfold findDelegationMove
  split
  · exact ⟨h, rfl⟩
  · refine Sat.bind (P := fun res => AllPools P res.1 ∧ res.1.rs = s.rs) ?_ (fun res hres => by
      obtain ⟨s', al⟩ := res
      exact hres)
    unfold determineStakeAllocations
    simp only
    split
    · exact ⟨h, rfl⟩
    · refine Sat.bind (setDelegations_all hu me.id _ h (amounts_zero _)) (fun s₁ h₁ => ?_)
      refine Sat.bind (setDelegations_all hu me.id _ h₁.1 hσ) (fun s₂ h₂ => ⟨h₂.1, h₂.2.trans h₁.2⟩)

theorem copyPools_all {P : Pool F → Prop} : ∀ (l : List (Nat × Ref)) {s : State F}, AllPools P s → AllPools P (copyPools s l).1 ∧ (copyPools s l).1.rs = s.rs
  | [], s, h => ⟨h, rfl⟩
  | (pid, r) :: t, s, h => by
    simp only [copyPools]
    exact copyPools_all t (h.alloc (h r))

theorem determinePoolsToKeep_all {P : Pool F → Prop} {s : State F} (h : AllPools P s) (ord : List Nat → List Nat) (σ : Strategy F) (m : Nat) :
    Sat AnyErr (determinePoolsToKeep ord s σ m) (fun res => AllPools P res.1 ∧ res.1.rs = s.rs) := by
  unfold determinePoolsToKeep
  split
  · refine Sat.bind (P := fun _ => True) (Sat.any fun _ _ => trivial) (fun l _ => ?_)
    exact copyPools_all _ h
  · exact copyPools_all _ h

/-- `P` holds for every pool that an operator may stage when it has decided on pledge, cost and margins -/
structure Decides (P : Pool F → Prop) (rs : RS F) (q c : F) (margins : List F) : Prop where
  rework : ∀ p m, m ∈ margins → P p → P ((reworkPool rs q c p).setMargin m)
  fresh : ∀ pid a m, m ∈ margins → P (freshPool rs q c a pid m)

theorem reworkPools_all {P : Pool F → Prop} {rs : RS F} (me : Agent F) {q c : F} {margins : List F} (hd : Decides P rs q c margins) :
    ∀ (l : List (Nat × Ref)) (i : Nat) {s : State F}, s.rs = rs → AllPools P s → i + l.length ≤ margins.length →
    Sat AnyErr (reworkPools me q c margins s i l) (fun s' => AllPools P s' ∧ s'.rs = rs)
  | [], i, s, hrs, h, _ => ⟨h, hrs⟩
  | (pid, r) :: t, i, s, hrs, h, hlen => by
    simp only [List.length_cons] at hlen
    have hi : i < margins.length := by omega
    have hmg : margins[i]? = some margins[i] := List.getElem?_eq_getElem hi
    simp only [reworkPools, marginAt, hmg]
    refine Sat.bind (P := fun m => m = margins[i]) rfl ?_
    rintro _ rfl
    refine reworkPools_all me hd t (i + 1) (by exact hrs) (h.setPool r ?_) (by omega)
    rw [hrs]
    exact hd.rework _ _ (List.getElem_mem hi) (h r)

theorem draftPools_all {P : Pool F → Prop} {rs : RS F} (me : Agent F) {q c : F} {margins : List F} (hd : Decides P rs q c margins) :
    ∀ (cnt i : Nat) {s : State F} (owned : Dict Ref), s.rs = rs → AllPools P s → i + cnt ≤ margins.length →
    Sat AnyErr (draftPools me q c margins cnt s i owned) (fun res => AllPools P res.1 ∧ res.1.rs = rs)
  | 0, i, s, owned, hrs, h, _ => ⟨h, hrs⟩
  | cnt + 1, i, s, owned, hrs, h, hlen => by
    have hi : i < margins.length := by omega
    have hmg : margins[i]? = some margins[i] := List.getElem?_eq_getElem hi
    simp only [draftPools, marginAt, hmg]
    refine Sat.bind (P := fun m => m = margins[i]) rfl ?_
    rintro _ rfl
    refine draftPools_all me hd cnt (i + 1) _ hrs (AllPools.alloc (s := { s with idSeq := s.idSeq + 1 }) h ?_) (by omega)
    have := hd.fresh (s.idSeq + 1) me.id margins[i] (List.getElem_mem hi)
    rw [← hrs] at this
    exact this

/-- the decisions of an operator in state `s` are good for `P` -/
def DecidesAt (P : Pool F → Prop) (s : State F) (me : Agent F) (σ : Strategy F) : Prop :=
  ∀ m margins u q c, 0 < m → m ≤ s.rs.k → marginsAndUtility s me σ m = .ok (margins, u) → pledgePerPool me.stake s.rs.beta m = .ok q →
    costPerPool m me.cost s.extraFrac = .ok c → Decides P s.rs q c margins

theorem findOperatorMove_all {P : Pool F → Prop} (hu : UpdOK P) {s : State F} (h : AllPools P s) (me : Agent F) {σ : Strategy F} (hσ : AmountsOK σ.allocs)
    {k : Nat} {d : Dict Ref} {margins : List F} {q c : F} (hq : pledgePerPool me.stake s.rs.beta k = .ok q) (hcc : costPerPool k me.cost s.extraFrac = .ok c)
    (hdd : Decides P s.rs q c margins) (hlen : margins.length = k) (hd : d.length ≤ k) :
    Sat AnyErr (findOperatorMove s me σ k d margins) (fun res => AllPools P res.1 ∧ res.1.rs = s.rs) := by
  unfold findOperatorMove
  rw [hq, hcc]
  refine Sat.bind (P := fun p => p = q) rfl ?_
  rintro _ rfl
  refine Sat.bind (P := fun p => p = c) rfl ?_
  rintro _ rfl
  refine Sat.bind (reworkPools_all me hdd d 0 rfl h (by omega)) (fun s3 h3 => ?_)
  refine Sat.bind (draftPools_all me hdd (k - d.length) d.length d h3.2 h3.1 (by omega)) (fun res h4 => ?_)
  obtain ⟨s4, owned⟩ := res
  simp only
  split
  · refine Sat.bind (findDelegationMove_all hu h4.1 me hσ _) (fun res h5 => ⟨h5.1, h5.2.trans h4.2⟩)
  · exact h4

theorem choosePoolStrategy_all {P : Pool F → Prop} (hu : UpdOK P) {n : Nat} {s : State F} (hc : Core n s) (h : AllPools P s) {ord : List Nat → List Nat}
    (hord : ∀ l, (ord l).Perm l) (me : Agent F) {σ : Strategy F}
    (hnd : σ.owned.keys.Nodup) (hown : ∀ pid r, σ.owned.get? pid = some r → s.pools.get? pid = some r) (hσ : AmountsOK σ.allocs) (hd : DecidesAt P s me σ) :
    Sat AnyErr (choosePoolStrategy ord s me σ) (fun res => AllPools P res.1 ∧ res.1.rs = s.rs) := by
  unfold choosePoolStrategy
  have hmu : ∀ t, Sat AnyErr (marginsAndUtility s me σ t) (fun _ => True) := fun t => Sat.any fun _ _ => trivial
  refine Sat.bind (P := fun res => 0 < res.1 ∧ res.1 ≤ s.rs.k ∧ ∃ u, marginsAndUtility s me σ res.1 = .ok (res.2, u)) ?_ ?_
  · by_cases hk : s.rs.k = 0
    · have he : marginsAndUtility s me σ 0 = .error .zeroDiv := rfl
      rw [hk]
      simp only [searchPools, he, bind, Except.bind, Nat.add_zero, Nat.reduceDiv, Sat]
      trivial
    · refine (searchPools_sat (s.rs.k + 1) 1 s.rs.k (fun t _ _ => hmu t) (by omega) (by omega)).imp ?_
      rintro a ⟨a1, a2, a3⟩
      exact ⟨by omega, a2, a3⟩
  rintro ⟨k, margins⟩ ⟨hk, hkk, u, hm⟩
  simp only at hk hkk hm
  have hlen : margins.length = k := ((marginsAndUtility_sat s me σ k).of_ok hm).2
  obtain ⟨s2, d, e2, c2, p2, i2, f2, kd2, vd2, l2, sub2, cp2⟩ := determinePoolsToKeep_spec hc hord me.id σ.allocs.keys hnd
    (fun pid r hg => (hc.poolRef _ _ (hown _ _ hg)).1) k
  have hall2 := determinePoolsToKeep_all h ord σ k
  rw [e2] at hall2
  simp only [e2]
  refine Sat.bind (P := fun p => p = (s2, d)) rfl ?_
  rintro _ rfl
  have hk0 : k ≠ 0 := by omega
  obtain ⟨q, hq⟩ : ∃ q, pledgePerPool me.stake s.rs.beta k = .ok q := by simp [pledgePerPool, hk0]
  obtain ⟨c, hcc⟩ : ∃ c, costPerPool k me.cost s.extraFrac = .ok c := by simp [costPerPool, hk0]
  have hdd := hd k margins u q c hk hkk hm hq hcc
  refine Sat.bind (findOperatorMove_all hu hall2.1 me hσ (by rw [p2.rs]; exact hq) (by rw [p2.extraFrac]; exact hcc) (by rw [p2.rs]; exact hdd) hlen (by rw [l2]; exact Nat.min_le_left _ _)) (fun res hres =>
    Sat.bind (P := fun _ => True) (Sat.any fun _ _ => trivial) (fun _ _ => by
      obtain ⟨s', al⟩ := res
      rw [p2.rs] at hres
      exact hres))

theorem planMove_all {P : Pool F → Prop} (hu : UpdOK P) {n : Nat} {s : State F} (hc : Core n s) (h : AllPools P s) {ord : List Nat → List Nat}
    (hord : ∀ l, (ord l).Perm l) (me : Agent F) {σ : Strategy F} (ha : σ.allocs.keys.Nodup)
    (hnd : σ.owned.keys.Nodup) (hown : ∀ pid r, σ.owned.get? pid = some r → s.pools.get? pid = some r) (hσ : AmountsOK σ.allocs)
    (hd : ∀ s₁, Core n s₁ → AllPools P s₁ → Planned me.id σ.allocs.keys s s₁ → DecidesAt P s₁ me σ) :
    Sat AnyErr (planMove ord s me σ) (fun res => AllPools P res.1) := by
  unfold planMove
  refine Sat.bind (P := fun _ => True) (Sat.any fun _ _ => trivial) (fun cur _ => ?_)
  refine Sat.bind (P := fun _ => True) (Sat.any fun _ _ => trivial) (fun exp _ => ?_)
  refine Sat.bind (((findDelegationMove_spec hc me σ ha me.stake).and (findDelegationMove_all hu h me hσ me.stake)).mono (fun _ _ => trivial) (fun _ h => h)) ?_
  rintro ⟨s₁, δ⟩ ⟨⟨c1, sh1, r1, g1, o1⟩, a1, -⟩
  simp only at c1 sh1 r1 g1 o1 a1
  have p1 := Planned.of_shuf sh1
  refine Sat.bind (P := fun _ => True) (Sat.any fun _ _ => trivial) (fun du _ => ?_)
  refine Sat.bind (choosePoolStrategy_all hu c1 a1 hord me hnd (by rw [p1.pools]; exact hown) hσ (hd s₁ c1 a1 p1)) ?_
  rintro ⟨s', ou, ω⟩ h2
  exact h2.1

/-! ### Executing -/

theorem undelegateAll_all {P : Pool F → Prop} (hu : ZeroOK P) (r : Ref) : ∀ (l : List Nat) {s : State F}, AllPools P s →
    Sat AnyErr (undelegateAll s r l) (AllPools P)
  | [], s, h => h
  | aid :: t, s, h => by
    unfold undelegateAll
    refine Sat.bind (P := fun _ => True) (Sat.any fun _ _ => trivial) (fun a _ => ?_)
    cases a.strategy with
    | none => trivial
    | some σ =>
      simp only
      refine Sat.bind (P := fun _ => True) (Sat.any fun _ _ => trivial) (fun al _ => ?_)
      apply undelegateAll_all hu r t
      exact AllPools.update h (hu _ _ (h r))

theorem removeDelegations_all {P : Pool F → Prop} (hu : ZeroOK P) (r : Ref) {s : State F} (h : AllPools P s) :
    Sat AnyErr (removeDelegations s r) (AllPools P) := by
  unfold removeDelegations
  refine Sat.bind (undelegateAll_all hu r _ h) (fun s₁ h₁ => ?_)
  split
  · exact h₁
  · exact h₁

theorem closePool_all {P : Pool F → Prop} (hu : ZeroOK P) (pid : Nat) {s : State F} (h : AllPools P s) :
    Sat AnyErr (closePool s pid) (AllPools P) := by
  unfold closePool
  refine Sat.bind (P := fun _ => True) (Sat.any fun _ _ => trivial) (fun r _ => ?_)
  refine Sat.bind (P := fun _ => True) (Sat.any fun _ _ => trivial) (fun l _ => ?_)
  refine Sat.bind (P := fun _ => True) (Sat.any fun _ _ => trivial) (fun lm _ => ?_)
  refine Sat.bind (removeDelegations_all hu r (s := { s with rank := l, rankM := lm }) h) (fun s₁ h₁ => ?_)
  exact Sat.bind (P := fun _ => True) (Sat.any fun _ _ => trivial) (fun _ _ => h₁)

theorem updatePool_all {P : Pool F → Prop} (hu : ZeroOK P) (aid pid : Nat) {s : State F} (h : AllPools P s) :
    Sat AnyErr (updatePool s aid pid) (AllPools P) := by
  unfold updatePool
  refine Sat.bind (P := fun _ => True) (Sat.any fun _ _ => trivial) (fun me _ => ?_)
  cases me.newStrategy with
  | none => trivial
  | some ν =>
    simp only
    refine Sat.bind (P := fun _ => True) (Sat.any fun _ _ => trivial) (fun r' _ => ?_)
    refine Sat.bind (P := AllPools P) ?_ (fun s₁ h₁ => ?_)
    · split
      · exact removeDelegations_all hu r' h
      · exact h
    · refine Sat.bind (P := fun _ => True) (Sat.any fun _ _ => trivial) (fun me _ => ?_)
      cases me.strategy with
      | none => trivial
      | some σ =>
        simp only
        refine Sat.bind (P := fun _ => True) (Sat.any fun _ _ => trivial) (fun r _ => ?_)
        refine Sat.bind (P := fun _ => True) (Sat.any fun _ _ => trivial) (fun l _ => ?_)
        exact Sat.bind (P := fun _ => True) (Sat.any fun _ _ => trivial) (fun lm _ => h₁)

theorem openPool_all {P : Pool F → Prop} (aid pid : Nat) {s : State F} (h : AllPools P s) :
    Sat AnyErr (openPool s aid pid) (AllPools P) := by
  unfold openPool
  refine Sat.bind (P := fun _ => True) (Sat.any fun _ _ => trivial) (fun me _ => ?_)
  cases me.strategy with
  | none => trivial
  | some σ =>
    simp only
    exact Sat.bind (P := fun _ => True) (Sat.any fun _ _ => trivial) (fun r _ => h)

theorem iterM_all {α σ : Type} {Q : σ → Prop} {f : σ → α → Py σ} (hf : ∀ s a, Q s → Sat AnyErr (f s a) Q) : ∀ (l : List α) {s : σ}, Q s →
    Sat AnyErr (iterM f s l) Q
  | [], s, h => h
  | x :: t, s, h => by
    unfold iterM
    exact Sat.bind (hf s x h) (fun s₁ h₁ => iterM_all hf t h₁)

theorem executeStrategy_all {P : Pool F → Prop} (hu : UpdOK P) {s : State F} (h : AllPools P s) (ord : List Nat → List Nat) {aid : Nat} {me : Agent F}
    (ha : s.agents.get? aid = some me) (hν : ∀ ν, me.newStrategy = some ν → AmountsOK ν.allocs) :
    Sat AnyErr (executeStrategy ord s aid) (AllPools P) := by
  unfold executeStrategy
  rw [Dict.getE_of ha]
  refine Sat.bind (P := fun p => p = me) rfl (fun me' hme => ?_)
  subst hme
  cases hs : me'.strategy with
  | none => trivial
  | some σ =>
    cases hn : me'.newStrategy with
    | none => trivial
    | some ν =>
      simp only
      refine Sat.bind (setDelegations_all hu aid _ h ?_) (fun s₁ h₁ => ?_)
      · intro e he
        obtain ⟨e', -, rfl⟩ := List.mem_map.1 he
        exact Or.inl rfl
      refine Sat.bind (setDelegations_all hu aid _ h₁.1 (hν ν hn)) (fun s₂ h₂ => ?_)
      refine Sat.bind (iterM_all (Q := AllPools P) (fun s pid hs => closePool_all hu.zero pid hs) _ h₂.1) (fun s₃ h₃ => ?_)
      refine Sat.bind (iterM_all (Q := AllPools P) (fun s pid hs => updatePool_all hu.zero aid pid hs) _ h₃) (fun s₄ h₄ => ?_)
      refine Sat.bind (P := fun _ => True) (Sat.any fun _ _ => trivial) (fun me' _ => ?_)
      exact iterM_all (Q := AllPools P) (fun s pid hs => openPool_all aid pid hs) _ (s := s₄.setAgent _) h₄

end RSE
