import Verif.Lemmas.PlanOk

/-!
# How many entries an agent finds when it fixes its margins
-/

set_option linter.unusedSectionVars false

namespace RSE

variable {F : Type} [LinearOrder F] [Zero F] [One F] [Add F] [Sub F] [Mul F] [Div F] [Neg F] [NatCast F] [FSum F]

/-- the number of open pools that belong to somebody else -/
def othersPools (s : State F) (a : Nat) : Nat := s.pools.vals.countP (fun r => decide ((s.heap r).owner ≠ a))

/-- What an agent looks at when it fixes margins: the place-holders and the pools of the others. -/
theorem Core.fixed_length {n : Nat} {s : State F} (h : Core n s) (me : Agent F) : (fixedPools s me).length = n + othersPools s me.id := by
  have key : ∀ {κ : Type} {l : SKL κ (Option Ref)} {nk : κ} {kf : Pool F → κ}, l.Perm (rankEntries n nk kf s.pools s.heap) →
      ∀ f : Option Ref → Bool, f none = true → (∀ r, f (some r) = decide ((s.heap r).owner ≠ me.id)) →
        (l.vals.filter f).length = n + othersPools s me.id := by
    intro κ l nk kf hp f hf hf'
    have h1 : (l.vals.filter f).Perm (((rankEntries n nk kf s.pools s.heap).map Prod.snd).filter f) := (hp.map Prod.snd).filter _
    rw [h1.length_eq]
    unfold rankEntries
    rw [List.map_append, List.filter_append, List.length_append, List.map_replicate]
    have : (List.replicate n (none : Option Ref)).filter f = List.replicate n none := by
      rw [List.filter_eq_self]; intro a ha; rw [List.eq_of_mem_replicate ha]; exact hf
    simp only [this, List.length_replicate, List.map_map]
    rw [← List.countP_eq_length_filter, List.countP_map, othersPools, Dict.vals, List.countP_map]
    congr 1
    exact List.countP_congr (fun e _ => by simp only [Function.comp_apply, hf'])
  unfold fixedPools rankingsOf
  split
  · exact key h.rankPerm _ rfl (fun _ => rfl)
  · exact key h.rankMPerm _ rfl (fun _ => rfl)

/-- There is no `k`-th entry in a list that is too short. -/
theorem pyIndex_short {α : Type} {l : List α} {k : Nat} (h : l.length < k) : pyIndex l ((k : Int) - ((1 : Nat) : Int)) = .error .index := by
  unfold pyIndex
  have hnn : ¬ ((k : Int) - ((1 : Nat) : Int) < 0) := by omega
  simp only [hnn, if_false]
  have hge : l.length ≤ ((k : Int) - ((1 : Nat) : Int)).toNat := by omega
  rw [List.getElem?_eq_none hge]

/-- Too few entries: no margins can be computed, for any positive number of pools. -/
theorem marginsAndUtility_short {n : Nat} {s : State F} (hc : Core n s) {me : Agent F} {σ : Strategy F} (h : n + othersPools s me.id < s.rs.k) {m : Nat} (hm : 1 ≤ m) :
    marginsAndUtility s me σ m = .error .index := by
  have hm0 : m ≠ 0 := by omega
  obtain ⟨q, hq⟩ : ∃ q, pledgePerPool me.stake s.rs.beta m = .ok q := by simp [pledgePerPool, hm0]
  obtain ⟨co, hco⟩ : ∃ co, costPerPool m me.cost s.extraFrac = .ok co := by simp [costPerPool, hm0]
  have hix := pyIndex_short (l := fixedPools s me) (k := s.rs.k) (by rw [hc.fixed_length]; exact h)
  obtain ⟨j, rfl⟩ : ∃ j, m = j + 1 := ⟨m - 1, by omega⟩
  unfold marginsAndUtility
  rw [hq, hco]
  simp only [bind, Except.bind, List.range'_succ]
  split
  · unfold loopMargins marginNM
    rw [hix]; rfl
  · unfold loopMargins marginM
    rw [hix]; rfl

theorem choosePoolStrategy_short {n : Nat} {s : State F} (hc : Core n s) {me : Agent F} {σ : Strategy F} (h : n + othersPools s me.id < s.rs.k)
    (ord : List Nat → List Nat) : choosePoolStrategy ord s me σ = .error .index := by
  have key : marginsAndUtility s me σ ((1 + s.rs.k) / 2) = .error .index := marginsAndUtility_short hc h (by omega)
  unfold choosePoolStrategy searchPools
  simp only [key, bind, Except.bind]

theorem Shuf.othersPools {a : Nat} {ids : List Nat} {s s' : State F} (h : Shuf a ids s s') (b : Nat) : othersPools s' b = othersPools s b := by
  unfold RSE.othersPools
  rw [h.pools]
  exact List.countP_congr (fun r _ => by rw [(h.same r).owner])

/-- Too few entries: the agent cannot plan. -/
theorem planMove_short {n : Nat} {s : State F} (hc : Core n s) {me : Agent F} {σ : Strategy F} (hσ : σ.allocs.keys.Nodup)
    (h : n + othersPools s me.id < s.rs.k) (ord : List Nat → List Nat) (res : State F × Option (Strategy F)) : planMove ord s me σ ≠ .ok res := by
  intro hp
  unfold planMove at hp
  obtain ⟨cur, -, hp⟩ := bind_ok hp
  obtain ⟨exp, -, hp⟩ := bind_ok hp
  simp only at hp
  obtain ⟨⟨s₁, δ⟩, hd, hp⟩ := bind_ok hp
  simp only at hp
  obtain ⟨du, -, hp⟩ := bind_ok hp
  obtain ⟨hc₁, hsh, -⟩ := (findDelegationMove_spec hc me σ hσ me.stake).of_ok hd
  rw [choosePoolStrategy_short hc₁ (by rw [hsh.othersPools, hsh.rs]; exact h)] at hp
  cases hp

end RSE
