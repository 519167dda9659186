import Verif.Lemmas.Shuffle

/-!
# Evaluating strategies: which errors are possible
-/

set_option linter.unusedSectionVars false

namespace RSE

variable {F : Type} [LinearOrder F] [Zero F] [One F] [Add F] [Sub F] [Mul F] [Div F] [Neg F] [NatCast F] [FSum F]

/-- errors that the evaluation of a strategy may raise when nothing is known about the arithmetic -/
def Ev (e : Err) : Prop := e = .zeroDiv ∨ e = .attr ∨ e = .index

theorem accM_sat {E : Err → Prop} {α : Type} {f : α → Py F} : ∀ (l : List α) (u : F), (∀ x ∈ l, Sat E (f x) (fun _ => True)) →
    Sat E (accM f l u) (fun _ => True)
  | [], _, _ => trivial
  | x :: t, u, h => by
    unfold accM
    exact Sat.bind (h x List.mem_cons_self) (fun y _ => accM_sat t _ (fun z hz => h z (List.mem_cons_of_mem _ hz)))

theorem Sat.mapM {E : Err → Prop} {α β : Type} {f : α → Py β} : ∀ (l : List α), (∀ x ∈ l, Sat E (f x) (fun _ => True)) →
    Sat E (l.mapM f) (fun _ => True)
  | [], _ => trivial
  | x :: t, h => by
    rw [List.mapM_cons]
    exact Sat.bind (h x List.mem_cons_self) (fun y _ =>
      Sat.bind (Sat.mapM t (fun z hz => h z (List.mem_cons_of_mem _ hz))) (fun _ _ => trivial))

theorem pyDiv_sat (a b : F) : Sat (· = .zeroDiv) (pyDiv a b) (fun _ => True) := by
  unfold pyDiv; split
  · exact rfl
  · trivial

theorem operatorUtility_sat (rs : RS F) (st pl m c : F) : Sat (· = .zeroDiv) (operatorUtility rs st pl m c) (fun _ => True) :=
  Sat.bind (pyDiv_sat _ _) (fun _ _ => trivial)

theorem delegatorUtility_sat (rs : RS F) (x st pl m c : F) : Sat (· = .zeroDiv) (delegatorUtility rs x st pl m c) (fun _ => True) :=
  Sat.bind (pyDiv_sat _ _) (fun _ _ => trivial)

theorem ev_of_zeroDiv {α : Type} {x : Py α} {P : α → Prop} (h : Sat (· = .zeroDiv) x P) : Sat Ev x P :=
  h.mono (fun _ he => Or.inl he) (fun _ h => h)

theorem nonMyopicStake_sat (rs : RS F) (total : F) (heap : Ref → Pool F) {rk : SKL (Key F) (Option Ref)} (hs : rk.Sorted) {r : Ref}
    (hm : (poolKey (heap r), some r) ∈ rk) : Sat Ev (nonMyopicStake rs total heap rk r) (fun _ => True) := by
  obtain ⟨i, h1, -⟩ := SKL.index_ok hs hm
  unfold nonMyopicStake
  simp only [h1]
  refine Sat.bind (P := fun _ => True) trivial (fun _ _ => Sat.bind (P := fun _ => True) ?_ (fun _ _ => trivial))
  apply Sat.mapM
  intro e _
  cases e with
  | none => exact Or.inr (Or.inl rfl)
  | some q => trivial

theorem sorted_foldl_add {α : Type} (heap : Ref → Pool F) (f : α → Option Ref) : ∀ (l : List α) (b : SKL (Key F) (Option Ref)), b.Sorted →
    (l.foldl (fun l e => match f e with
      | none => l
      | some r => SKL.add (poolKey (heap r)) (some r) l) b).Sorted
  | [], b, h => h
  | x :: t, b, h => by
    rw [List.foldl_cons]
    apply sorted_foldl_add heap f t
    cases f x with
    | none => exact h
    | some r => exact SKL.sorted_add h _ _

theorem mem_foldl_add {α : Type} (heap : Ref → Pool F) (f : α → Option Ref) : ∀ (l : List α) (b : SKL (Key F) (Option Ref))
    (e : Key F × Option Ref), e ∈ (l.foldl (fun l e => match f e with
      | none => l
      | some r => SKL.add (poolKey (heap r)) (some r) l) b) ↔ e ∈ b ∨ ∃ x ∈ l, ∃ r, f x = some r ∧ e = (poolKey (heap r), some r)
  | [], b, e => by simp
  | x :: t, b, e => by
    rw [List.foldl_cons, mem_foldl_add heap f t]
    cases hx : f x with
    | none => simp [hx]
    | some r =>
      simp only [(SKL.add_perm _ _ _).mem_iff, List.mem_cons, exists_eq_or_imp, hx, Option.some.injEq, exists_eq_left']
      tauto

theorem tempRankings_sorted (s : State F) (me : Agent F) (owned : List Ref) : (tempRankings s me owned).Sorted := by
  unfold tempRankings
  exact sorted_foldl_add s.heap (fun r => some r) _ _ (sorted_foldl_add s.heap (fun e => e) _ _ List.Pairwise.nil)

theorem mem_tempRankings (s : State F) (me : Agent F) (owned : List Ref) {e : Key F × Option Ref} :
    e ∈ tempRankings s me owned ↔
      (∃ r, some r ∈ s.rank.vals ∧ (s.heap r).owner ≠ me.id ∧ e = (poolKey (s.heap r), some r)) ∨
      ∃ r ∈ owned, e = (poolKey (s.heap r), some r) := by
  unfold tempRankings
  have h1 := mem_foldl_add s.heap (fun r : Ref => some r) owned
  have h2 := mem_foldl_add s.heap (fun e : Option Ref => e)
  refine (h1 _ _).trans ((or_congr (h2 _ _ _) Iff.rfl).trans ?_)
  simp only [List.not_mem_nil, false_or, List.mem_filter, Option.some.injEq, exists_eq_left']
  constructor
  · rintro (⟨x, ⟨hx, ho⟩, r, rfl, rfl⟩ | h)
    · exact Or.inl ⟨r, hx, by simpa using ho, rfl⟩
    · exact Or.inr h
  · rintro (⟨r, hx, ho, rfl⟩ | h)
    · exact Or.inl ⟨some r, ⟨hx, by simpa using ho⟩, r, rfl, rfl⟩
    · exact Or.inr h

theorem operatorUtilityFromStrategy_sat (s : State F) (me : Agent F) (τ : Strategy F) :
    Sat Ev (operatorUtilityFromStrategy s me τ) (fun _ => True) := by
  unfold operatorUtilityFromStrategy
  simp only
  split
  · apply accM_sat
    intro r hr
    refine Sat.bind (nonMyopicStake_sat _ _ _ (tempRankings_sorted _ _ _) ?_) (fun _ _ => ev_of_zeroDiv (operatorUtility_sat _ _ _ _ _))
    exact (mem_tempRankings s me _).2 (Or.inr ⟨r, hr, rfl⟩)
  · exact accM_sat _ _ (fun r _ => ev_of_zeroDiv (operatorUtility_sat _ _ _ _ _))

theorem delegatorUtilityFromPool_sat {n : Nat} {s : State F} (h : Core n s) (me : Agent F) (σ : Strategy F) {pid : Nat} {r : Ref}
    (hp : s.pools.get? pid = some r) (x : F) : Sat Ev (delegatorUtilityFromPool s me σ r x) (fun _ => True) := by
  unfold delegatorUtilityFromPool
  simp only
  split
  · exact Sat.bind (nonMyopicStake_sat _ _ _ h.rankSorted (h.mem_rank hp)) (fun _ _ => ev_of_zeroDiv (delegatorUtility_sat _ _ _ _ _ _))
  · exact ev_of_zeroDiv (delegatorUtility_sat _ _ _ _ _ _)

theorem expectedUtility_sat {n : Nat} {s : State F} (h : Core n s) (me : Agent F) (σ τ : Strategy F) :
    Sat Ev (expectedUtility s me σ τ) (fun _ => True) := by
  unfold expectedUtility
  refine Sat.bind (P := fun _ => True) ?_ (fun u _ => ?_)
  · split
    · exact Sat.map (operatorUtilityFromStrategy_sat s me τ) (fun _ _ => trivial)
    · trivial
  · apply accM_sat
    rintro ⟨r, x⟩ hm
    obtain ⟨e, _, he⟩ := List.mem_filterMap.1 hm
    obtain ⟨r', hr', he⟩ := Option.map_eq_some_iff.1 he
    cases he
    exact delegatorUtilityFromPool_sat h me σ hr' _

theorem currentUtility_sat (s : State F) (σ : Strategy F) :
    Sat (fun e => Ev e ∨ (e = .key ∧ ∃ pid ∈ σ.allocs.keys, s.pools.get? pid = none)) (currentUtility s σ) (fun _ => True) := by
  unfold currentUtility
  refine Sat.bind (P := fun _ => True) (accM_sat _ _ ?_) (fun u _ => accM_sat _ _ ?_)
  · intro r _
    exact (operatorUtility_sat _ _ _ _ _).mono (fun _ he => Or.inl (Or.inl he)) (fun _ h => h)
  · rintro ⟨pid, x⟩ hm
    simp only
    cases hp : s.pools.get? pid with
    | none => rw [Dict.getE_none hp]; exact Or.inr ⟨rfl, pid, List.mem_map.2 ⟨_, hm, rfl⟩, hp⟩
    | some r => rw [Dict.getE_of hp]; exact (delegatorUtility_sat _ _ _ _ _ _).mono (fun _ he => Or.inl (Or.inl he)) (fun _ h => h)

/-! ### Margins -/

theorem pyIndex_sat {α : Type} (l : List α) (i : Int) : Sat (· = .index) (pyIndex l i) (fun a => a ∈ l) := by
  unfold pyIndex
  simp only
  generalize (if i < 0 then i + (l.length : Int) else i) = j
  by_cases hj : j < 0
  · simp only [hj, if_true]; exact rfl
  · simp only [hj, if_false]
    cases h : l[j.toNat]? with
    | none => exact rfl
    | some a => exact List.mem_of_getElem? h

theorem marginNM_sat (s : State F) (me : Agent F) (pl c pp : F) (t : Nat) : Sat Ev (marginNM s me pl c pp t) (fun _ => True) := by
  unfold marginNM
  refine Sat.bind ((pyIndex_sat _ _).mono (fun _ he => Or.inr (Or.inr he)) (fun _ h => h)) (fun e _ => ?_)
  cases e <;> simp only <;> split <;>
  exact Sat.bind (P := fun _ => True) (ev_of_zeroDiv (operatorUtility_sat _ _ _ _ _)) (fun _ _ => trivial)

theorem marginM_sat (s : State F) (me : Agent F) (pl c pp : F) (t : Nat) : Sat Ev (marginM s me pl c pp t) (fun _ => True) := by
  unfold marginM
  refine Sat.bind ((pyIndex_sat _ _).mono (fun _ he => Or.inr (Or.inr he)) (fun _ h => h)) (fun e _ => ?_)
  exact Sat.bind (ev_of_zeroDiv (operatorUtility_sat _ _ _ _ _)) (fun _ _ => trivial)

theorem loopMargins_sat {E : Err → Prop} {f : Nat → Py (F × F)} (hf : ∀ t, Sat E (f t) (fun _ => True)) : ∀ (l : List Nat) (ms : List F) (u : F),
    Sat E (loopMargins f l ms u) (fun res => res.1.length = ms.length + l.length)
  | [], ms, u => by simp [loopMargins, Sat]
  | t :: ts, ms, u => by
    unfold loopMargins
    refine Sat.bind (hf t) (fun res _ => ?_)
    refine (loopMargins_sat hf ts _ _).imp ?_
    intro a ha
    rw [ha]; simp; omega

theorem marginsAndUtility_sat (s : State F) (me : Agent F) (σ : Strategy F) (m : Nat) :
    Sat Ev (marginsAndUtility s me σ m) (fun res => 0 < m ∧ res.1.length = m) := by
  unfold marginsAndUtility
  by_cases hm : m = 0
  · subst hm; exact Or.inl rfl
  · simp only [costPerPool, hm, if_false, pledgePerPool]
    refine Sat.bind (P := fun _ => True) trivial (fun _ _ => Sat.bind (P := fun _ => True) trivial (fun _ _ => ?_))
    have hpos : 0 < m := Nat.pos_of_ne_zero hm
    split
    · refine (loopMargins_sat (marginNM_sat s me _ _ _) _ _ _).imp (fun a ha => ⟨hpos, by simpa using ha⟩)
    · refine (loopMargins_sat (marginM_sat s me _ _ _) _ _ _).imp (fun a ha => ⟨hpos, by simpa using ha⟩)

/-- the search terminates and stays in its interval -/
theorem searchPools_sat {E : Err → Prop} {f : Nat → Py (List F × F)} :
    ∀ (fuel tmin tmax : Nat), (∀ t, tmin ≤ t → t ≤ tmax → Sat E (f t) (fun _ => True)) → tmin ≤ tmax → tmax - tmin < fuel →
      Sat E (searchPools f fuel tmin tmax) (fun res => tmin ≤ res.1 ∧ res.1 ≤ tmax ∧ ∃ u, f res.1 = .ok (res.2, u))
  | 0, _, _, _, _, h => by omega
  | fuel + 1, tmin, tmax, hf, hle, hfu => by
    unfold searchPools
    simp only
    have h1 : tmin ≤ (tmin + tmax) / 2 := by omega
    have h2 : (tmin + tmax) / 2 ≤ tmax := by omega
    generalize (tmin + tmax) / 2 = t at h1 h2
    refine Sat.bind (P := fun a => f t = .ok a) ?_ ?_
    · refine Sat.intro (fun a ha => ha) (fun e he => (hf t h1 h2).of_error he)
    rintro ⟨ms, u⟩ hft
    refine Sat.bind (P := fun b => b = true → tmin < t) ?_ (fun b hb => ?_)
    · split
      · rename_i hlt
        exact Sat.map (hf (t - 1) (by omega) (by omega)) (fun _ _ _ => hlt)
      · exact fun h => by cases h
    · split
      · rename_i hbt
        have := hb hbt
        refine (searchPools_sat fuel tmin (t - 1) (fun t' a b => hf t' a (by omega)) (by omega) (by omega)).imp ?_
        rintro a ⟨a1, a2, a3⟩
        exact ⟨a1, by omega, a3⟩
      · refine Sat.bind (P := fun b => b = true → t < tmax) ?_ (fun b hb => ?_)
        · split
          · rename_i hlt
            exact Sat.map (hf (t + 1) (by omega) (by omega)) (fun _ _ _ => hlt)
          · exact fun h => by cases h
        · split
          · rename_i hbt
            have := hb hbt
            refine (searchPools_sat fuel (t + 1) tmax (fun t' a b => hf t' (by omega) b) (by omega) (by omega)).imp ?_
            rintro a ⟨a1, a2, a3⟩
            exact ⟨by omega, a2, a3⟩
          · exact ⟨h1, h2, u, hft⟩

end RSE
