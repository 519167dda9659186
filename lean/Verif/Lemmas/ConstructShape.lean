import Verif.Model.Construct
import Verif.Lemmas.PlanOk

/-!
# What the constructor leaves behind, for any kind of numbers
-/

set_option linter.unusedSectionVars false

namespace RSE

variable {F : Type} [LinearOrder F] [Zero F] [One F] [Add F] [Sub F] [Mul F] [Div F] [Neg F] [NatCast F] [FSum F]

theorem mapM_length {α β : Type} {f : α → Py β} : ∀ {l : List α} {bs : List β}, l.mapM f = .ok bs → bs.length = l.length
  | [], bs, h => by cases h; rfl
  | a :: t, bs, h => by
    rw [List.mapM_cons] at h
    obtain ⟨b, -, h⟩ := bind_ok h
    obtain ⟨bs', h2, h⟩ := bind_ok h
    cases h
    rw [List.length_cons, List.length_cons, mapM_length h2]

theorem normalizeStakes_length (l : List F) (x : F) : (normalizeStakes l x).1.length = l.length := by
  unfold normalizeStakes
  simp only
  split
  · rw [List.length_map]
  · generalize hs : l.map (· / x) = sc
    have hl : sc.length = l.length := by rw [← hs, List.length_map]
    rw [← hl, List.length_append, List.length_dropLast]
    cases sc with
    | nil => rfl
    | cons y t => rw [List.getLast?_eq_some_getLast (by simp)]; simp

theorem shareOut_length {stakes new : List F} {n : Nat} {inactive total : F} (h : shareOut stakes n inactive = .ok (new, total)) : new.length = n := by
  unfold shareOut at h
  split at h
  · cases h
  · rename_i hlt
    obtain ⟨x, -, h⟩ := bind_ok h
    have hl : (stakes.take n).length = n := by rw [List.length_take]; omega
    split at h
    · cases h
    · split at h
      · cases h; exact hl
      · have h := Except.ok.inj h
        have : new = (normalizeStakes (stakes.take n) x).1 := by rw [h]
        rw [this]
        rw [normalizeStakes_length, hl]

/-- what a simulation that could be constructed looks like -/
structure Shape (a : Args F) (b : Built F) : Prop where
  n : a.n.first = .ok b.n
  order : a.order.first = .ok b.order
  simultaneous : b.config.simultaneous = b.order.isSimultaneous
  maxIter : a.maxIter.first = .ok b.maxIter
  phases : b.totalPhases = a.totalPhases
  extra : a.extraFrac.first = .ok b.config.extraFrac
  people : b.config.people.length = b.n
  cols : columns (a.metrics.getD defaultMetrics) = .ok b.cols

theorem shape_tail {a : Args F} {d : Draws F} {b : Built F} {n : Nat} {rs : RS F} {rel ab ex : F} {mi : Int} {o : Order} (hn : a.n.first = .ok n)
    (ho : a.order.first = .ok o) (hmi : a.maxIter.first = .ok mi) (hex : a.extraFrac.first = .ok ex) (h : (do
      let stakes ← rawStakes a.source n d
      let costs ← costsUniform n a.costMin a.costMax d.cost
      let idx ← choices 3 (a.weights.getD [1, 0, 0]) n d.profile
      let profiles ← idx.mapM profileOf
      let (new, total) ← shareOut stakes n a.inactive
      let config : Config F :=
        { rs := rs, relThr := rel, absThr := ab, extraFrac := ex, simultaneous := o.isSimultaneous,
          people := new.zip (costs.zip profiles), totalStake := total }
      let desc ← initDesc (initState config)
      let cols ← columns (a.metrics.getD defaultMetrics)
      return { config := config, n := n, order := o, maxIter := mi, totalPhases := a.totalPhases, cols := cols, desc := desc } : Py (Built F)) = .ok b) : Shape a b := by
  obtain ⟨stakes, -, h⟩ := bind_ok h
  obtain ⟨costs, hcosts, h⟩ := bind_ok h
  obtain ⟨idx, hidx, h⟩ := bind_ok h
  obtain ⟨profiles, hprof, h⟩ := bind_ok h
  obtain ⟨⟨new, total⟩, hsh, h⟩ := bind_ok h
  obtain ⟨desc, -, h⟩ := bind_ok h
  obtain ⟨cols, hcols, h⟩ := bind_ok h
  have hcl : costs.length = n := by
    unfold costsUniform at hcosts
    split at hcosts
    · cases hcosts
    · cases hcosts; simp
  have hil : idx.length = n := by
    unfold choices at hidx
    simp only at hidx
    split at hidx
    · cases hidx
    · split at hidx
      · cases hidx
      · split at hidx
        · cases hidx
        · cases hidx; simp
  have hpl : profiles.length = n := by rw [mapM_length hprof, hil]
  have hnl := shareOut_length hsh
  cases h
  refine ⟨hn, ho, rfl, hmi, rfl, hex, ?_, hcols⟩
  change (new.zip (costs.zip profiles)).length = n
  simp [List.length_zip, hnl, hcl, hpl]

theorem shape_of_construct [PyInt F] {a : Args F} {d : Draws F} {b : Built F} (h : construct a d = .ok b) : Shape a b := by
  unfold construct at h
  obtain ⟨sch, -, h⟩ := bind_ok h
  obtain ⟨n, hn, h⟩ := bind_ok h
  obtain ⟨k, -, h⟩ := bind_ok h
  obtain ⟨rs, -, h⟩ := bind_ok h
  obtain ⟨a0, -, h⟩ := bind_ok h
  obtain ⟨rel, -, h⟩ := bind_ok h
  obtain ⟨ab, -, h⟩ := bind_ok h
  obtain ⟨mi, hmi, h⟩ := bind_ok h
  obtain ⟨ex, hex, h⟩ := bind_ok h
  obtain ⟨o, ho, h⟩ := bind_ok h
  dsimp only at h
  split at h
  · obtain ⟨rs', -, h⟩ := bind_ok h
    exact shape_tail hn ho hmi hex h
  · exact shape_tail hn ho hmi hex h

end RSE
