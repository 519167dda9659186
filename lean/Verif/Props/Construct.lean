import Verif.Model.Construct
import Verif.Props.Export

/-!
# C77: the constructor
-/

set_option linter.unusedSectionVars false

namespace RSE.Props

variable {K : Type} [Field K] [LinearOrder K] [IsStrictOrderedRing K]

/-! ### Profiles -/

theorem bisect_spec : ∀ (w : List K) (acc x : K), w ≠ [] → acc ≤ x → x < acc + w.sum →
    ∃ h : bisectIndex (accumulate acc w) x < w.length,
      acc + (w.take (bisectIndex (accumulate acc w) x)).sum ≤ x ∧
      x < acc + (w.take (bisectIndex (accumulate acc w) x)).sum + w[bisectIndex (accumulate acc w) x] := by
  intro w
  induction w with
  | nil => intro _ _ h; exact absurd rfl h
  | cons v t ih =>
    intro acc x _ h1 h2
    rw [List.sum_cons] at h2
    cases t with
    | nil =>
      have e : bisectIndex (accumulate acc [v]) x = 0 := rfl
      simp only [e, List.take_zero, List.sum_nil, add_zero, List.getElem_cons_zero, List.length_singleton]
      exact ⟨by omega, h1, by simpa using h2⟩
    | cons v' t' =>
      by_cases hv : acc + v ≤ x
      · obtain ⟨g, g1, g2⟩ := ih (acc + v) x (by simp) hv (by rw [add_assoc]; exact h2)
        have e : bisectIndex (accumulate acc (v :: v' :: t')) x = bisectIndex (accumulate (acc + v) (v' :: t')) x + 1 := by
          unfold bisectIndex
          have : (accumulate acc (v :: v' :: t')).dropLast = (acc + v) :: (accumulate (acc + v) (v' :: t')).dropLast := by
            simp [accumulate]
          rw [this, List.takeWhile_cons_of_pos (by simpa using hv), List.length_cons]
        simp only [e, List.take_succ_cons, List.sum_cons, List.getElem_cons_succ, List.length_cons]
        refine ⟨by simpa using g, by rw [← add_assoc]; exact g1, by rw [← add_assoc]; exact g2⟩
      · have e : bisectIndex (accumulate acc (v :: v' :: t')) x = 0 := by
          unfold bisectIndex
          have : (accumulate acc (v :: v' :: t')).dropLast = (acc + v) :: (accumulate (acc + v) (v' :: t')).dropLast := by
            simp [accumulate]
          rw [this, List.takeWhile_cons_of_neg (by simpa using hv)]
          rfl
        simp only [e, List.take_zero, List.sum_nil, add_zero, List.getElem_cons_zero, List.length_cons]
        exact ⟨by omega, h1, by simpa using hv⟩

theorem accumulate_length (acc : K) (w : List K) : (accumulate acc w).length = w.length := by
  induction w generalizing acc with
  | nil => rfl
  | cons v t ih => simp [accumulate, ih]

theorem accumulate_last : ∀ (w : List K) (acc : K), w ≠ [] → (accumulate acc w).getLast? = some (acc + w.sum) := by
  intro w
  induction w with
  | nil => intro _ h; exact absurd rfl h
  | cons v t ih =>
    intro acc _
    cases t with
    | nil => simp [accumulate]
    | cons v' t' =>
      have := ih (acc + v) (by simp)
      rw [show accumulate acc (v :: v' :: t') = (acc + v) :: accumulate (acc + v) (v' :: t') from rfl, List.getLast?_cons, this]
      simp [add_assoc]

/-- C77.  `random.choices` with weights that are not all zero: agent `i` gets profile `j` exactly if its draw `u i` from `[0, 1)` lies in the `j`-th of the
consecutive intervals of lengths `weights[j] / total`; in particular no agent gets a profile of weight 0. -/
theorem C77_choices (w : List K) (hw : ∀ x ∈ w, 0 ≤ x) (hs : 0 < w.sum) (n : Nat) (u : Nat → K) (hu : ∀ i, 0 ≤ u i ∧ u i < 1) :
    ∃ l, choices w.length w n u = .ok l ∧ l.length = n ∧
      ∀ i (hi : i < l.length) (j : Nat) (hj : j < w.length),
        l[i] = j ↔ (w.take j).sum ≤ u i * w.sum ∧ u i * w.sum < (w.take j).sum + w[j] := by
  have hne : w ≠ [] := by rintro rfl; simp at hs
  refine ⟨(List.range n).map (fun i => bisectIndex (accumulate 0 w) (u i * w.sum)), ?_, by simp, ?_⟩
  · unfold choices
    simp only [accumulate_length, accumulate_last w 0 hne, zero_add, ne_eq, not_true_eq_false, if_false, if_neg (not_le.2 hs)]
  · intro i hi j hj
    obtain ⟨g, g1, g2⟩ := bisect_spec w 0 (u i * w.sum) hne (mul_nonneg (hu i).1 hs.le) (by
      rw [zero_add]; exact mul_lt_of_lt_one_left hs (hu i).2)
    simp only [List.getElem_map, List.getElem_range]
    generalize hb : bisectIndex (accumulate 0 w) (u i * w.sum) = b at g g1 g2
    rw [zero_add] at g1 g2
    constructor
    · rintro rfl; exact ⟨g1, g2⟩
    · rintro ⟨e1, e2⟩
      have hmono : ∀ a c : Nat, a < c → (h : a < w.length) → (w.take a).sum + w[a] ≤ (w.take c).sum := by
        intro a c hac ha
        rw [← List.sum_take_succ w a ha]
        have : w.take c = w.take (a + 1) ++ (w.take c).drop (a + 1) := by
          conv_lhs => rw [← List.take_append_drop (a + 1) (w.take c)]
          rw [List.take_take, min_eq_left hac]
        rw [this, List.sum_append, le_add_iff_nonneg_right]
        exact List.sum_nonneg (fun x hx => hw x (List.mem_of_mem_take (List.mem_of_mem_drop hx)))
      rcases lt_trichotomy b j with h | h | h
      · exact absurd (lt_of_lt_of_le g2 (hmono b j h g)) (not_lt.2 e1)
      · exact h
      · exact absurd (lt_of_lt_of_le e2 (hmono j b h hj)) (not_lt.2 g1)

/-! ### Arguments that the command line accepts -/

/-- every value of the argument, of which there is at least one -/
def _root_.RSE.Multi.All {α : Type} (p : α → Prop) : Multi α → Prop
  | .one x => p x
  | .many l => l ≠ [] ∧ ∀ x ∈ l, p x

theorem multi_first {α : Type} {p : α → Prop} {m : Multi α} (h : m.All p) : ∃ x, m.first = .ok x ∧ p x := by
  match m, h with
  | .one x, h => exact ⟨x, rfl, h⟩
  | .many (x :: t), h => exact ⟨x, rfl, h.2 x List.mem_cons_self⟩
  | .many [], h => exact absurd rfl h.1

/-- What the command line accepts (helper.py:532-605), in exact arithmetic and without the cases in which the constructor rejects the arguments (see
`C77_rejects`), and what is known about the random draws. -/
structure Accepted (a : Args K) (d : Draws K) (N : Nat) : Prop where
  n : a.n = .one N
  n_pos : 1 ≤ N
  k : a.k.All (fun k => 1 ≤ k)
  a0 : a.a0.All (fun x => 0 ≤ x)
  relThr : a.relThr.All (fun x => 0 ≤ x)
  absThr : a.absThr.All (fun x => 0 ≤ x)
  maxIter : a.maxIter.All (fun x => 1 ≤ x)
  extraFrac : a.extraFrac.All (fun x => 0 ≤ x)
  order : a.order.All (fun _ => True)
  scheme : a.scheme = 0 ∨ a.scheme = 1 ∨ a.scheme = 2 ∨ a.scheme = 4
  weights : ∀ w, a.weights = some w → w.length = 3 ∧ (∀ x ∈ w, 0 ≤ x) ∧ 0 < w.sum
  inactive : 0 ≤ a.inactive ∧ a.inactive < 1
  costMin : 0 ≤ a.costMin
  costs : a.costMin ≤ a.costMax
  metrics : ∀ l, a.metrics = some l → ∀ i ∈ l, 1 ≤ i ∧ i ≤ 30
  disparity : a.source = .disparity → 3 < N
  file : a.source = .file → d.file ≠ [] ∧ ∀ x ∈ d.file, 0 < x
  pareto : ∀ i, 0 ≤ d.pareto i
  cost : ∀ i, 0 ≤ d.cost i ∧ d.cost i < 1
  profile : ∀ i, 0 ≤ d.profile i ∧ d.profile i < 1

theorem rawStakes_ok {a : Args K} {d : Draws K} {n : Nat} (h : Accepted a d n) :
    ∃ l, rawStakes a.source n d = .ok l ∧ l.length = n ∧ ∀ x ∈ l, 0 < x := by
  cases hs : a.source with
  | file =>
    obtain ⟨h1, h2⟩ := h.file hs
    have hlen : d.file.length ≠ 0 := fun h => h1 (List.length_eq_zero_iff.1 h)
    unfold rawStakes stakesFile
    by_cases hn : n = d.file.length
    · exact ⟨d.file, by simp [hn], hn.symm, h2⟩
    · refine ⟨_, by simp only [if_neg hn, if_neg hlen]; rfl, by simp, ?_⟩
      intro x hx
      obtain ⟨i, _, rfl⟩ := List.mem_map.1 hx
      have hlt : d.choice i % d.file.length < d.file.length := Nat.mod_lt _ (Nat.pos_of_ne_zero hlen)
      rw [List.getD_eq_getElem?_getD, List.getElem?_eq_getElem hlt, Option.getD_some]
      exact h2 _ (List.getElem_mem hlt)
  | pareto =>
    refine ⟨_, by unfold rawStakes stakesPareto; simp only [if_neg (show ¬ (-1 : K) > 0 by norm_num)]; rfl, by simp, ?_⟩
    intro x hx
    obtain ⟨i, _, rfl⟩ := List.mem_map.1 hx
    have := h.pareto i
    simp only [mul_one]
    linarith
  | flat =>
    obtain ⟨h1, -, h3⟩ := C43_flat (K := K) n h.n_pos
    exact ⟨_, rfl, h1, fun x hx => (h3 x hx).2⟩
  | disparity =>
    obtain ⟨l, h1, h2, -, h4⟩ := (C43_disparity (K := K) n).1 (h.disparity hs)
    exact ⟨l, h1, h2, h4⟩

theorem shareOut_eq (stakes : List K) (f : K) : shareOut stakes stakes.length f = initialStakes stakes f := by
  unfold shareOut initialStakes
  rw [if_neg (lt_irrefl _), List.take_length]

theorem initialStakes_pos {stakes : List K} {f : K} (hpos : ∀ x ∈ stakes, 0 < x) (hne : stakes ≠ []) (h0 : 0 ≤ f) (hf : f < 1) :
    ∃ new, initialStakes stakes f = .ok (new, 1) ∧ new.length = stakes.length ∧ (∀ x ∈ new, 0 < x) ∧ (new.sum = 1 ∨ new.sum = 1 - f) := by
  have hsum : 0 < stakes.sum := List.sum_pos _ hpos hne
  obtain ⟨new, h1, h2, h3, h4⟩ := C41_sum_one stakes f hsum hf
  refine ⟨new, h1, h2, ?_, ?_⟩
  · obtain ⟨init, x, rfl⟩ : ∃ init x, stakes = init ++ [x] := ⟨stakes.dropLast, stakes.getLast hne, (List.dropLast_append_getLast hne).symm⟩
    simp only [List.sum_append, List.sum_singleton] at hsum
    rw [initialStakes_snoc init x f hsum hf] at h1
    have h1f : 0 < 1 - f := sub_pos.2 hf
    split at h1
    · cases h1; exact hpos
    · cases h1
      intro y hy
      rcases List.mem_append.1 hy with hy | hy
      · obtain ⟨z, hz, rfl⟩ := List.mem_map.1 hy
        exact div_pos (mul_pos h1f (hpos z (List.mem_append_left _ hz))) hsum
      · rw [List.mem_singleton.1 hy]
        exact add_pos_of_pos_of_nonneg (div_pos (mul_pos h1f (hpos x (by simp))) hsum) h0
  · by_cases h5 : stakes.sum = 1 - f
    · exact Or.inr (h4 h5)
    · exact Or.inl (h3.2 (Or.inr h5))

/-- the profile with the number `j` -/
def profileNo : Nat → Profile
  | 0 => .nonMyopic
  | 1 => .myopic
  | _ => .abstainer

/-- what the constructor must have done with the arguments -/
structure Faithful (a : Args K) (d : Draws K) (N : Nat) (b : Built K) : Prop where
  n : b.n = N
  people : b.config.people.length = N
  stakes_pos : ∀ e ∈ b.config.people, 0 < e.1
  stakes_sum : (b.config.people.map (fun e => e.1)).sum = 1 ∨ (b.config.people.map (fun e => e.1)).sum = 1 - a.inactive
  /-- every agent but the last holds its share of the active stake (the last one: the rest) -/
  shares : ∃ raw, rawStakes a.source N d = .ok raw ∧ ∀ (i : Nat) (hi : i < b.config.people.length), i + 1 < N →
    (b.config.people[i]).1 * raw.sum = (1 - a.inactive) * raw.getD i 0
  costs : ∀ e ∈ b.config.people, a.costMin ≤ e.2.1 ∧ e.2.1 ≤ a.costMax
  costs_drawn : ∀ (i : Nat) (hi : i < b.config.people.length), (b.config.people[i]).2.1 = a.costMin + (a.costMax - a.costMin) * d.cost i
  /-- profiles are drawn with the given weights -/
  profiles : ∀ (i : Nat) (hi : i < b.config.people.length) (j : Nat), j < 3 → ((b.config.people[i]).2.2 = profileNo j ↔
    ((a.weights.getD [1, 0, 0]).take j).sum ≤ d.profile i * (a.weights.getD [1, 0, 0]).sum ∧
    d.profile i * (a.weights.getD [1, 0, 0]).sum < ((a.weights.getD [1, 0, 0]).take j).sum + (a.weights.getD [1, 0, 0]).getD j 0)
  total : b.config.totalStake = 1
  scheme : b.config.rs.scheme = schemeOf a.scheme
  a0 : a.a0.first = .ok b.config.rs.a0
  /-- `k` and the saturation threshold are the given ones, or inflated if the inactive stake is known -/
  k : ∃ k, a.k.first = .ok k ∧ (a.known = false → b.config.rs.k = k ∧ b.config.rs.beta = 1 / k) ∧
    (a.known = true → (b.config.rs.k : K) * (1 - a.inactive) ≤ k ∧ (k : K) < (b.config.rs.k + 1) * (1 - a.inactive) ∧ b.config.rs.beta = (1 - a.inactive) / k)
  k_pos : 1 ≤ b.config.rs.k
  beta_pos : 0 < b.config.rs.beta
  relThr : a.relThr.first = .ok b.config.relThr
  absThr : a.absThr.first = .ok b.config.absThr
  extraFrac : a.extraFrac.first = .ok b.config.extraFrac
  maxIter : a.maxIter.first = .ok b.maxIter
  order : a.order.first = .ok b.order
  /-- agents execute at the end of the round or batch in the (semi-)simultaneous orders, and at once otherwise -/
  simultaneous : b.config.simultaneous = true ↔ b.order = .simultaneous ∨ b.order = .semisimultaneous
  phases : b.totalPhases = a.totalPhases
  cols : columns (a.metrics.getD [1, 2, 6, 9, 17, 18, 25]) = .ok b.cols
  desc : initDesc (initState b.config) = .ok b.desc ∧ DescSays (b.config.people.map (fun e => e.1)) b.desc

theorem profileOf_ok {j : Nat} (hj : j < 3) : profileOf j = .ok (profileNo j) := by
  match j, hj with
  | 0, _ => rfl
  | 1, _ => rfl
  | 2, _ => rfl

theorem profileNo_inj {i j : Nat} (hi : i < 3) (hj : j < 3) : profileNo i = profileNo j ↔ i = j := by
  match i, j, hi, hj with
  | 0, 0, _, _ => simp
  | 0, 1, _, _ => simp [profileNo]
  | 0, 2, _, _ => simp [profileNo]
  | 1, 0, _, _ => simp [profileNo]
  | 1, 1, _, _ => simp
  | 1, 2, _, _ => simp [profileNo]
  | 2, 0, _, _ => simp [profileNo]
  | 2, 1, _, _ => simp [profileNo]
  | 2, 2, _, _ => simp

theorem init_agents_stakes (c : Config K) : (initState c).agents.map (fun e => e.2.stake) = c.people.map (fun e => e.1) := by
  unfold initState
  simp only [List.map_map]
  have : ((fun e : Nat × Agent K => e.2.stake) ∘ fun e : (K × K × Profile) × Nat => (e.2, newAgent e.2 e.1.1 e.1.2.1 e.1.2.2)) =
      (fun e => e.1) ∘ Prod.fst := rfl
  rw [this, ← List.map_map, List.zipIdx_map_fst]

/-- C77.  Arguments that the command line accepts are accepted by the constructor, and all of them arrive where they belong. -/
theorem C77_constructor [FloorSemiring K] {a : Args K} {d : Draws K} {n : Nat} (h : Accepted a d n) :
    ∃ b, construct a d = .ok b ∧ Faithful a d n b := by
  obtain ⟨k, k1, k2⟩ := multi_first h.k
  obtain ⟨x0, a1, a2⟩ := multi_first h.a0
  obtain ⟨rel, r1, r2⟩ := multi_first h.relThr
  obtain ⟨ab, b1, b2⟩ := multi_first h.absThr
  obtain ⟨mi, m1, m2⟩ := multi_first h.maxIter
  obtain ⟨ex, e1, e2⟩ := multi_first h.extraFrac
  obtain ⟨o, o1, -⟩ := multi_first h.order
  have n1 : a.n.first = .ok n := by rw [h.n]; rfl
  have hsch : makeScheme a.scheme = .ok a.scheme := (C44_schemes a.scheme).1.2 h.scheme
  obtain ⟨stakes, s1, s2, s3⟩ := rawStakes_ok h
  have sne : stakes ≠ [] := by
    rintro rfl; have := h.n_pos; rw [← s2] at this; simp at this
  obtain ⟨new, t1, t2, t3, t4⟩ := initialStakes_pos s3 sne h.inactive.1 h.inactive.2
  have t0 : shareOut stakes n a.inactive = .ok (new, 1) := by rw [← s2, shareOut_eq]; exact t1
  obtain ⟨costs, c1, c2, c3⟩ := C69_uniform n a.costMin a.costMax d.cost h.cost h.costs
  have hw : (a.weights.getD [1, 0, 0]).length = 3 ∧ (∀ x ∈ a.weights.getD [1, 0, 0], 0 ≤ x) ∧ 0 < (a.weights.getD [1, 0, 0]).sum := by
    cases hw : a.weights with
    | none => simp
    | some w => exact h.weights w hw
  have c4 : ∀ i (hi : i < costs.length), costs[i] = a.costMin + (a.costMax - a.costMin) * d.cost i := by
    intro i hi
    unfold costsUniform at c1
    rw [if_neg (not_lt.2 h.costs)] at c1
    cases c1
    simp
  have t5 : ∀ i (hi : i < new.length), i + 1 < n → new[i] * stakes.sum = (1 - a.inactive) * stakes.getD i 0 := by
    intro i hi hin
    have hsum : 0 < stakes.sum := List.sum_pos _ s3 sne
    obtain ⟨init, x, rfl⟩ : ∃ init x, stakes = init ++ [x] := ⟨stakes.dropLast, stakes.getLast sne, (List.dropLast_append_getLast sne).symm⟩
    simp only [List.sum_append, List.sum_singleton] at hsum ⊢
    have hii : i < init.length := by simp at s2; omega
    obtain ⟨new', u1, u2⟩ := C42_others init x a.inactive hsum h.inactive.2 i hii
    rw [t1] at u1
    cases u1
    rw [List.getElem?_eq_getElem hi] at u2
    rw [Option.some.inj u2, List.getD_eq_getElem?_getD, List.getElem?_append_left hii, List.getElem?_eq_getElem hii, Option.getD_some]
    field_simp
  obtain ⟨idx, i1, i2, i3⟩ := C77_choices _ hw.2.1 hw.2.2 n d.profile h.profile
  rw [hw.1] at i1
  have hidx : ∀ i (hi : i < idx.length), idx[i] < 3 := by
    intro i hi
    obtain ⟨g, g1, g2⟩ := bisect_spec (a.weights.getD [1, 0, 0]) 0 (d.profile i * (a.weights.getD [1, 0, 0]).sum) (by
      intro h0; rw [h0] at hw; simp at hw) (mul_nonneg (h.profile i).1 hw.2.2.le) (by
      rw [zero_add]; exact mul_lt_of_lt_one_left hw.2.2 (h.profile i).2)
    rw [zero_add] at g1 g2
    rw [(i3 i hi _ g).2 ⟨g1, g2⟩, ← hw.1]
    exact g
  obtain ⟨prof, p1, p2, p3⟩ := mapM_ok (l := idx) (f := profileOf) (fun j hj => by
    obtain ⟨i, hi, rfl⟩ := List.getElem_of_mem hj
    exact ⟨_, profileOf_ok (hidx i hi)⟩)
  have hk0 : (0 : K) < k := by exact_mod_cast k2
  have hset : (⟨schemeOf a.scheme, 0, 0, 0⟩ : RS K).setKValue (k : K) = .ok ⟨schemeOf a.scheme, k, 1 / k, 0⟩ := by
    simp [RS.setKValue, hk0.ne']
  obtain ⟨rs, g1, g2, g3, g4, g5, g6⟩ : ∃ rs : RS K, (if a.known then (⟨schemeOf a.scheme, k, 1 / k, x0⟩ : RS K).inflate a.inactive
      else .ok ⟨schemeOf a.scheme, k, 1 / k, x0⟩) = .ok rs ∧ rs.scheme = schemeOf a.scheme ∧ rs.a0 = x0 ∧ (a.known = false → rs.k = k ∧ rs.beta = 1 / k) ∧
      (a.known = true → (rs.k : K) * (1 - a.inactive) ≤ k ∧ (k : K) < (rs.k + 1) * (1 - a.inactive) ∧ rs.beta = (1 - a.inactive) / k) ∧ 1 ≤ rs.k := by
    have hf : 0 < 1 - a.inactive := sub_pos.2 h.inactive.2
    by_cases hkn : a.known = true
    · obtain ⟨rs, q1, q2, q3, q4⟩ := C45_inflate (⟨schemeOf a.scheme, k, 1 / k, x0⟩ : RS K) a.inactive h.inactive.2 k2
      have hx : (k : K) / (1 - a.inactive) ≠ 0 := (div_pos hk0 hf).ne'
      have q5 : rs.scheme = schemeOf a.scheme ∧ rs.a0 = x0 := by
        unfold RS.inflate at q1
        rw [pyDiv_ok hf.ne'] at q1
        have q1 : (⟨schemeOf a.scheme, k, 1 / k, x0⟩ : RS K).setKValue ((k : K) / (1 - a.inactive)) = .ok rs := q1
        unfold RS.setKValue at q1
        rw [if_neg hx] at q1
        cases q1; exact ⟨rfl, rfl⟩
      refine ⟨rs, by rw [if_pos hkn]; exact q1, q5.1, q5.2, fun h0 => (by rw [hkn] at h0; cases h0), fun _ => ⟨q3, q4, q2⟩, ?_⟩
      by_contra hlt
      have : rs.k = 0 := by omega
      rw [this] at q4
      have h1 : (1 : K) ≤ k := by exact_mod_cast k2
      simp only [Nat.cast_zero, zero_add, one_mul] at q4
      linarith [h.inactive.1]
    · exact ⟨_, if_neg hkn, rfl, rfl, fun _ => ⟨rfl, rfl⟩, fun h0 => absurd h0 hkn, k2⟩
  have hbeta : 0 < rs.beta := by
    cases hkn : a.known with
    | false => rw [(g4 hkn).2]; exact one_div_pos.2 hk0
    | true => rw [(g5 hkn).2.2]; exact div_pos (sub_pos.2 h.inactive.2) hk0
  obtain ⟨c, hc⟩ : ∃ c : Config K, c = ⟨rs, rel, ab, ex, o.isSimultaneous, new.zip (costs.zip prof), 1⟩ := ⟨_, rfl⟩
  have hlen : c.people.length = n := by
    rw [hc]; simp only [List.length_zip, t2, s2, c2, p2, i2, min_self]
  have hstk : c.people.map (fun e => e.1) = new := by
    rw [hc]; exact List.map_fst_zip (by simp [t2, s2, c2, p2, i2])
  have hnd : (initState c).agents.keys.Nodup := by
    have : (initState c).agents.keys = List.range c.people.length := by
      unfold initState Dict.keys
      simp only [List.map_map]
      have : (Prod.fst ∘ fun e : (K × K × Profile) × Nat => (e.2, newAgent e.2 e.1.1 e.1.2.1 e.1.2.2)) = Prod.snd := rfl
      rw [this]
      simp [List.zipIdx_map_snd, List.range_eq_range']
    rw [this]; exact List.nodup_range
  obtain ⟨dsc, d1, d2, -, -⟩ := C76_initial_descriptors (initState c) hnd
    (fun x => ((initState c).agents.get? x).elim 0 (fun ag => ag.stake)) (fun x ag hx => by simp [hx])
    (by rw [init_agents_stakes, hstk]; exact List.sum_pos _ t3 (by rintro rfl; rw [s2] at t2; have := h.n_pos; simp at t2; omega))
  rw [init_agents_stakes] at d2
  obtain ⟨names, w1, -, -⟩ := mapM_ok (l := a.metrics.getD defaultMetrics) (f := reporterName) (fun i hi => (C74_ids i).2 (by
    cases hm : a.metrics with
    | none => rw [hm] at hi; revert hi i; decide
    | some l => rw [hm] at hi; exact h.metrics l hm i hi))
  have w2 : columns (a.metrics.getD defaultMetrics) = .ok names.eraseDups := by unfold columns; rw [w1]; rfl
  refine ⟨⟨c, n, o, mi, a.totalPhases, names.eraseDups, dsc⟩, ?_, ?_⟩
  · unfold construct
    by_cases hkn : a.known = true
    · rw [if_pos hkn] at g1
      simp only [hsch, n1, k1, hset, a1, r1, b1, m1, e1, o1, if_pos hkn, g1, s1, c1, i1, p1, t0, w2, bind, Except.bind, pure, Except.pure]
      rw [← hc, d1]
    · rw [if_neg hkn] at g1
      cases g1
      simp only [hsch, n1, k1, hset, a1, r1, b1, m1, e1, o1, if_neg hkn, s1, c1, i1, p1, t0, w2, bind, Except.bind, pure, Except.pure]
      rw [← hc, d1]
  · subst hc
    refine ⟨rfl, hlen, ?_, by rw [hstk]; exact t4, ⟨stakes, s1, ?_⟩, ?_, ?_, ?_, rfl, g2, a1.trans (congrArg Except.ok g3.symm), ⟨k, k1, g4, g5⟩, g6, hbeta, r1, b1, e1, m1, o1, by cases o <;> simp [Order.isSimultaneous], rfl, w2, d1, d2⟩
    · intro e he
      exact t3 _ (hstk ▸ List.mem_map.2 ⟨e, he, rfl⟩)
    · intro i hi hin
      simp only [List.getElem_zip]
      exact t5 i _ hin
    · intro e he
      exact c3 _ (List.of_mem_zip (List.of_mem_zip he).2).1
    · intro i hi
      simp only [List.getElem_zip]
      exact c4 i _
    · intro i hi j hj
      have hi' : i < idx.length := by rw [i2, ← hlen]; exact hi
      have hpi : i < prof.length := by rw [p2]; exact hi'
      have hpr : prof[i] = profileNo idx[i] := by
        obtain ⟨x, x1, x2⟩ := p3 i prof[i] (List.getElem?_eq_getElem hpi)
        rw [List.getElem?_eq_getElem hi'] at x1
        cases x1
        rw [profileOf_ok (hidx i hi')] at x2
        exact (Except.ok.inj x2).symm
      simp only [List.getElem_zip]
      rw [hpr, profileNo_inj (hidx i hi') hj]
      have hj' : j < (a.weights.getD [1, 0, 0]).length := by rw [hw.1]; exact hj
      rw [i3 i hi' j hj', List.getD_eq_getElem?_getD, List.getElem?_eq_getElem hj', Option.getD_some]

end RSE.Props
