import Verif.Model.BatchFloats
import Verif.Props.BatchMain
import Verif.Props.MainFloats

/-!
# C130: batch-run.py in binary64

C122 says that batch-run.py runs to its end in exact arithmetic.  In binary64 it does so too if, in every run, no agent holds too small a share of the stake and pools are cheap (as in C127).
-/

set_option linter.unusedSectionVars false
set_option exponentiation.threshold 2000

namespace RSE.Props

open Cmd

variable {R : Reader} {ws : List Text} {d : ArgDict PyFloat}

/-- the value chosen for the option is a number, and this is that number in binary64 -/
def PicksFloat (c : List (String × Atom)) (p : String) (x : B64) : Prop := ∃ q, Picks c p q ∧ x = B64.of q

/-- As `TakenFrom`: the arguments of the constructor are the values chosen, as binary64 numbers. -/
structure TakenFloat (c : List (String × Atom)) (a : Args B64) : Prop where
  n : ∃ x : Nat, a.n = .one x ∧ Picks c "n" x
  k : ∃ x : Nat, a.k = .one x ∧ Picks c "k" x
  a0 : ∃ x, a.a0 = .one x ∧ PicksFloat c "a0" x
  relThr : ∃ x, a.relThr = .one x ∧ PicksFloat c "relative_utility_threshold" x
  absThr : ∃ x, a.absThr = .one x ∧ PicksFloat c "absolute_utility_threshold" x
  maxIter : ∃ x : Int, a.maxIter = .one x ∧ Picks c "max_iterations" x
  extraFrac : ∃ x, a.extraFrac = .one x ∧ PicksFloat c "extra_pool_cost_fraction" x
  order : a.order = .one .random
  scheme : Picks c "reward_scheme" a.scheme
  weights : a.weights = some [1, 0, 0]
  inactive : PicksFloat c "inactive_stake_fraction" a.inactive
  known : ("inactive_stake_fraction_known", .bool a.known) ∈ c
  costMin : PicksFloat c "cost_min" a.costMin
  costMax : PicksFloat c "cost_max" a.costMax
  source : ∃ t, ("stake_distr_source", .str t) ∈ c ∧ t.map Char.toLower = a.source.name.toList
  metrics : a.metrics = some [1, 2, 6, 9, 17, 18, 25]
  conv : Picks c "iterations_after_convergence" a.conv

/-- What is required of the values chosen for a run with at most `m` rounds, and of its random numbers: no inactive stake, a cost of at most a third of what a saturated pool without
pledge earns, and the shares of the stake that C127 wants. -/
structure Roomy (c : List (String × Atom)) (draws : Draws B64) (m : Nat) : Prop where
  n : ∀ q, Picks c "n" q → q ≤ 2 ^ 40
  a0 : ∀ q, Picks c "a0" q → q ≤ 2 ^ 53
  inactive : Picks c "inactive_stake_fraction" 0
  known : ("inactive_stake_fraction_known", .bool false) ∈ c
  extra : ∀ q, Picks c "extra_pool_cost_fraction" q → q ≤ 1
  cost : ∀ k x y, Picks c "k" k → Picks c "a0" x → Picks c "cost_max" y → 3 * k * (1 + (B64.of x).1) * (B64.of y).1 ≤ 1
  costDraws : ∀ i, 0 ≤ draws.cost i ∧ draws.cost i < 1
  stakes : ∀ (n k : Nat) (t : Text) (src : StakeSource), Picks c "n" n → Picks c "k" k → ("stake_distr_source", .str t) ∈ c → t.map Char.toLower = src.name.toList →
    ∃ raw, rawStakes src n draws = .ok raw ∧ FairShares raw n k m

/-- As `EndsWell`: the run completes, with one row of metrics, those collected before its last round. -/
def EndsWellFloats (draws : Draws B64) (solver : State B64 → B64) (t : Turns) (rnd rnd4 : B64 → B64) (m : Int) (c : List (String × Atom)) (e : RunEnding B64) : Prop :=
  ∃ a N b l row, TakenFloat c a ∧ a.n = .one N ∧ construct a draws = .ok b ∧ b.config.people.length = N ∧ simulate a draws solver t (m.toNat + 1) = .ok l ∧ Completed b rnd rnd4 m l ∧
    1 ≤ l.steps ∧ l.rows[l.steps - 1]? = some row ∧ e = .ran (.ok (l, [((l.steps : Int) - 1, row)], [row]))

/-! ### A run -/

theorem picks_unique {c : List (String × Atom)} (hc : c.map Prod.fst = batchOptions) {p : String} {x y : ℚ} (hx : Picks c p x) (hy : Picks c p y) : x = y := by
  obtain ⟨a, h1, h2⟩ := hx
  obtain ⟨b, h3, h4⟩ := hy
  have := pick_unique hc h1 h3
  subst this
  exact denotes_unique h2 h4

theorem taken_rounded {c : List (String × Atom)} {a : Args ℚ} (h : TakenFrom c a) : TakenFloat c (roundedArgs a) := by
  obtain ⟨x0, p1, p2⟩ := h.a0
  obtain ⟨x1, q1, q2⟩ := h.relThr
  obtain ⟨x2, r1, r2⟩ := h.absThr
  obtain ⟨x3, s1, s2⟩ := h.extraFrac
  have hw : a.weights.map (fun l => l.map B64.of) = some [1, 0, 0] := by rw [h.weights]; decide +kernel
  exact ⟨h.n, h.k, ⟨_, by unfold roundedArgs; rw [p1]; rfl, x0, p2, rfl⟩, ⟨_, by unfold roundedArgs; rw [q1]; rfl, x1, q2, rfl⟩, ⟨_, by unfold roundedArgs; rw [r1]; rfl, x2, r2, rfl⟩, h.maxIter,
    ⟨_, by unfold roundedArgs; rw [s1]; rfl, x3, s2, rfl⟩, h.order, h.scheme, hw, ⟨_, h.inactive, rfl⟩, h.known, ⟨_, h.costMin, rfl⟩, ⟨_, h.costMax, rfl⟩,
    h.source, h.metrics, h.conv⟩

/-- draws that have no part in what the arguments are -/
def anyDraws : Draws ℚ := { pareto := fun _ => 0, file := [1], choice := fun _ => 0, cost := fun _ => 0, profile := fun _ => 0 }

theorem anyDraws_ok (d : ArgDict PyFloat) : RunDraws d anyDraws :=
  ⟨fun _ => le_rfl, fun _ => ⟨le_rfl, one_pos⟩, fun _ => ⟨le_rfl, one_pos⟩, fun _ _ _ => ⟨by simp [anyDraws], by simp [anyDraws]⟩⟩

theorem run_ends_floats (h : parse R batchTable ws = .ok d) (hs : Suited d) {c : List (String × Atom)} (hc : Choice d c) {path : Text} (hpath : path.head? = some '/') {i : Nat} {seed : Int}
    (hseed : 0 ≤ seed) {id : Text} (hid : id ≠ [] ∧ id ≠ "temp".toList) {kw : Kw} (hkw : KwOf path i seed id kw) {draws : Draws B64} {t : Turns} (ht : TurnsOK t)
    (solver : State B64 → B64) (rnd rnd4 : B64 → B64) {str : Value → Text} (hstr : ∀ n : Nat, str (.one (.int n)) = strNat n) {cwd : Text} {D : Disk PyFloat}
    (hfree : path ++ '/' :: (strNat (i + 1) ++ '-' :: id) ∉ D.dirs) {m : Int} (hm : d.get "max_iterations" = .ok (.one (.int m))) (hr : Roomy c draws m.toNat) :
    ∃ D' e, runOne roundedArgs str cwd D kw c m draws solver t (m.toNat + 1) = (D', e) ∧ D'.dirs = (path ++ '/' :: (strNat (i + 1) ++ '-' :: id)) :: D.dirs ∧ D'.seq = D.seq ∧
      EndsWellFloats draws solver t rnd rnd4 m c e := by
  obtain ⟨a, N, m', x0, h1, h2, hacc, hph, hmi, hm', hx0, hsc, hpar⟩ := run_args h hs hc kw (anyDraws_ok d)
  rw [hm] at hm'
  cases hm'
  have hm1 : 1 ≤ m := by
    have := hacc.maxIter
    rw [hmi] at this
    exact this
  obtain ⟨M, rfl⟩ : ∃ M : Nat, m = M := ⟨m.toNat, by omega⟩
  rw [Int.toNat_natCast] at hr ⊢
  have f := taken_rounded h2
  obtain ⟨N', n1, n2⟩ := h2.n
  obtain ⟨k, k1, k2⟩ := h2.k
  obtain ⟨y0, a1, a2⟩ := h2.a0
  obtain ⟨rel, r1, -⟩ := f.relThr
  obtain ⟨ab, b1, -⟩ := f.absThr
  obtain ⟨ex, e1, e2⟩ := h2.extraFrac
  obtain ⟨tx, t1, t2⟩ := h2.source
  rw [hacc.n] at n1
  cases n1
  have hk1 : 1 ≤ k := by
    have := hacc.k
    rw [k1] at this
    exact this
  have ha0 : 0 ≤ y0 := by
    have := hacc.a0
    rw [a1] at this
    exact this
  have hex : 0 ≤ ex := by
    have := hacc.extraFrac
    rw [e1] at this
    exact this
  have hz : (B64.of 0) = 0 := by decide +kernel
  have hone : (B64.of 1) = 1 := by decide +kernel
  have h53 : round64 (2 ^ 53) = 2 ^ 53 := by decide +kernel
  have hin : InRange (roundedArgs a) draws N k M := by
    refine ⟨hacc.n, hacc.n_pos, ?_, by change a.k.values = [k]; rw [k1]; rfl, hk1, hmi, by exact_mod_cast hm1, ⟨rel, r1⟩, ⟨ab, b1⟩, .inl h2.order, ?_, ?_, ?_, ?_,
      ⟨B64.of ex, by unfold roundedArgs; rw [e1]; rfl, ?_, ?_⟩, ?_, ?_, ?_, ⟨B64.of y0, by unfold roundedArgs; rw [a1]; rfl, ?_, ?_, ?_⟩, hr.costDraws⟩
    · have := hr.n _ n2
      exact_mod_cast this
    · have := hacc.scheme
      change a.scheme ≤ 2
      omega
    · intro w hw
      rw [f.weights] at hw
      cases hw
      exact ⟨rfl, by decide +kernel, 1, by simp, by decide +kernel⟩
    · change B64.of a.inactive = 0
      rw [picks_unique hc.1 h2.inactive hr.inactive, hz]
    · have := pick_unique hc.1 h2.known hr.known
      change a.known = false
      simpa using this
    · rw [← hz]; exact round64_mono hex
    · rw [← hone]; exact round64_mono (hr.extra _ e2)
    · rw [← hz]; exact round64_mono hacc.costMin
    · exact round64_mono hacc.costs
    · exact hacc.metrics
    · rw [← hz]; exact round64_mono ha0
    · rw [← h53]; exact round64_mono (hr.a0 _ a2)
    · exact hr.cost _ _ _ k2 a2 h2.costMax
  obtain ⟨raw, w1, w2⟩ := hr.stakes N k tx a.source n2 k2 t1 t2
  obtain ⟨b, l, g1, g2, g3, g4⟩ := C127_completes hin w1 w2 ht solver rnd rnd4
  have hmax : b.maxIter = M := by
    have := (shape_of_construct g1).maxIter
    rw [show (roundedArgs a).maxIter = .one (M : Int) from hmi] at this
    exact (Except.ok.inj this).symm
  obtain ⟨D', row, q1, q2, q3, q4, q5⟩ := run_starts hc hpath hseed hid hkw hstr (cwd := cwd) hfree h1 hpar (num := roundedArgs) g1 hmi hmax (by omega) g3
  exact ⟨D', _, q1, q2, q3, roundedArgs a, N, b, l, row, f, hacc.n, g1, g2, g3, g4, q4, q5, rfl⟩

/-! ### The batch -/

/-- C130.  batch-run.py runs to its end in binary64: if the values of its options are within the ranges that simulations need, the directory of the batch is new, and every run has agents that hold
enough and cheap pools, then every run of the batch starts, in a directory of its own inside that of the batch, is a simulation with the values chosen for it and the defaults for everything else,
and completes within `max_iterations` rounds; it contributes exactly one row to the results and to the file of aggregate results, the metrics before its last round. -/
theorem C130_completes (h : parse R batchTable ws = .ok d) (hs : Suited d) {D : Disk PyFloat} {n : Nat} (hn : readSeqId D.seq = .ok n) {id : Text} (hid : d.get "execution_id" = .ok (.one (.str id)))
    {cwd path : Text} (hcwd : cwd.head? = some '/') (hpath : path = cwd ++ "/output/".toList ++ strNat (n + 1) ++ '-' :: id) (hfree : ∀ x ∈ D.dirs, ¬ path <+: x) {str : Value → Text}
    (hstr : ∀ n : Nat, str (.one (.int n)) = strNat n) {entropy : Int} (hent : 0 ≤ entropy) {order : List (Nat × Kw × List (String × Atom)) → List (Nat × Kw × List (String × Atom))}
    (hord : ∀ l, (order l).Perm l) {draws : Nat → Draws B64} {m : Int} (hm : d.get "max_iterations" = .ok (.one (.int m))) (hr : ∀ i c, (batchCombos d)[i]? = some c → Roomy c (draws i) m.toNat)
    {t : Nat → Turns} (ht : ∀ i, TurnsOK (t i)) (solver : State B64 → B64) (rnd rnd4 : B64 → B64) :
    ∃ D' es dirs, batchExecuteFloats R str cwd D ws entropy order draws solver t (m.toNat + 1) = (D', .ran es) ∧ (es.map Prod.fst).Perm (List.range (batchCombos d).length) ∧
      (∀ x ∈ es, ∃ c, (batchCombos d)[x.1]? = some c ∧ EndsWellFloats (draws x.1) solver (t x.1) rnd rnd4 m c x.2) ∧
      D'.seq = some (strNat (n + 1)) ∧ D'.dirs = dirs.reverse ++ path :: D.dirs ∧ List.Forall₂ (fun e dir => ∃ name, dir = path ++ '/' :: strNat (e.1 + 1) ++ '-' :: name) es dirs := by
  obtain ⟨m', h1, -, h2⟩ := batch_ends (num := roundedArgs) h hs hn hid hcwd hpath hfree hent hord (P := fun m i c e => EndsWellFloats (draws i) solver (t i) rnd rnd4 m c e)
    (fun m' hm' _ seed hseed hhead i kw c name D' hc id1 id2 hkw hf =>
      run_ends_floats h hs ((choice_iff h _).1 (List.mem_of_getElem? hc)) hhead hseed ⟨id1, id2⟩ hkw (ht i) solver rnd rnd4 hstr hf hm' (by
        rw [hm] at hm'
        cases hm'
        exact hr i c hc))
  rw [hm] at h1
  cases h1
  exact h2

/-- the value of an option of which only one is given -/
theorem picks_default {c : List (String × Atom)} (hc : Choice d c) {p : String} {a : Atom} {q : ℚ} (h1 : d.get p = .ok (.one a)) (h2 : Denotes a q) {x : ℚ} (hx : Picks c p x) : x = q := by
  obtain ⟨b, h3, h4⟩ := hx
  obtain ⟨v, h5, h6⟩ := hc.2 _ h3
  rw [h1] at h5
  cases h5
  simp only [atoms, List.mem_singleton] at h6
  subst h6
  exact denotes_unique h4 h2

/-- C130.  `python batch-run.py` without options, in binary64: if in each of its three runs the thousand values drawn from the Pareto distribution add up to at most 280000, then all of them complete
within 2000 rounds without an exception, whatever else is drawn and in whatever order the agents act; the run with number `i` has k = 100 (i + 1). -/
theorem C130_default {D : Disk PyFloat} {n : Nat} (hn : readSeqId D.seq = .ok n) {cwd path : Text} (hcwd : cwd.head? = some '/')
    (hpath : path = cwd ++ "/output/".toList ++ strNat (n + 1) ++ "-batch-run".toList) (hfree : ∀ x ∈ D.dirs, ¬ path <+: x) {str : Value → Text}
    (hstr : ∀ n : Nat, str (.one (.int n)) = strNat n) {entropy : Int} (hent : 0 ≤ entropy) {order : List (Nat × Kw × List (String × Atom)) → List (Nat × Kw × List (String × Atom))}
    (hord : ∀ l, (order l).Perm l) {draws : Nat → Draws B64} (h1 : ∀ j i, 0 ≤ (draws j).pareto i) (h1' : ∀ j, ((List.range 1000).map (fun i => ((draws j).pareto i).1)).sum ≤ 280000)
    (h2 : ∀ j i, 0 ≤ (draws j).cost i ∧ (draws j).cost i < 1) {t : Nat → Turns} (ht : ∀ i, TurnsOK (t i)) (solver : State B64 → B64) (rnd rnd4 : B64 → B64) :
    ∃ D' es, batchExecuteFloats R str cwd D [] entropy order draws solver t 2001 = (D', .ran es) ∧ (es.map Prod.fst).Perm [0, 1, 2] ∧
      ∀ x ∈ es, ∃ a b l row, construct a (draws x.1) = .ok b ∧ a.n = .one 1000 ∧ a.k = .one (100 * (x.1 + 1)) ∧ Completed b rnd rnd4 2000 l ∧
        x.2 = .ran (.ok (l, [((l.steps : Int) - 1, row)], [row])) := by
  have hp : parse R batchTable [] = .ok noBatchOptions := parse_nothing C120_batch
  have hlen : (batchCombos noBatchOptions).length = 3 := by decide +kernel
  have hkey : ∀ i : Nat, ∀ c, (batchCombos noBatchOptions)[i]? = some c → i < 3 ∧ ("n", Scalar.int 1000) ∈ c ∧ ("k", Scalar.int (100 * ((i : Int) + 1))) ∈ c ∧
      ("inactive_stake_fraction", Scalar.int 0) ∈ c ∧ ("inactive_stake_fraction_known", Scalar.bool false) ∈ c ∧ ("stake_distr_source", Scalar.str "Pareto".toList) ∈ c := by
    intro i c hc
    have hi : i < 3 := by rw [← hlen]; exact (List.getElem?_eq_some_iff.1 hc).1
    have : ∀ i : Nat, i < 3 → ((batchCombos noBatchOptions)[i]?.map (fun c => decide (("n", Scalar.int 1000) ∈ c ∧ ("k", Scalar.int (100 * ((i : Int) + 1))) ∈ c ∧
      ("inactive_stake_fraction", Scalar.int 0) ∈ c ∧ ("inactive_stake_fraction_known", Scalar.bool false) ∈ c ∧ ("stake_distr_source", Scalar.str "Pareto".toList) ∈ c))) = some true := by decide +kernel
    have h4 := this i hi
    rw [hc] at h4
    exact ⟨hi, by simpa using h4⟩
  have hroomy : ∀ i c, (batchCombos noBatchOptions)[i]? = some c → Roomy c (draws i) (2000 : Int).toNat := by
    intro i c hic
    have hc := (choice_iff hp c).1 (List.mem_of_getElem? hic)
    obtain ⟨hi, c1, c2, c3, c4, c5⟩ := hkey i c hic
    have kval : ∀ q, Picks c "k" q → q = 100 * (i + 1) := by
      intro q hq
      have := picks_unique hc.1 hq ⟨_, c2, .int _⟩
      rw [this]; push_cast; ring
    have aval : ∀ q, Picks c "a0" q → q = (B64.of (((3 : Nat) : ℚ) / 10 ^ 1)).1 :=
      fun q hq => picks_default hc (a := dec 3 1) (by decide +kernel) (number_iff.1 rfl) hq
    refine ⟨?_, ?_, ⟨_, c3, .int 0⟩, c4, ?_, ?_, h2 i, ?_⟩
    · intro q hq
      rw [picks_unique hc.1 hq ⟨_, c1, .int _⟩]; norm_num
    · intro q hq
      rw [aval q hq]; decide +kernel
    · intro q hq
      rw [picks_default hc (a := dec 4 1) (by decide +kernel) (number_iff.1 rfl) hq]; decide +kernel
    · intro k x y hk hx hy
      rw [kval k hk, aval x hx, picks_default hc (a := dec 1 4) (by decide +kernel) (number_iff.1 rfl) hy]
      have key : ∀ i : Nat, i < 3 → 3 * (100 * ((i : ℚ) + 1)) * (1 + (B64.of (B64.of (((3 : Nat) : ℚ) / 10 ^ 1)).1).1) * (B64.of (B64.of (((1 : Nat) : ℚ) / 10 ^ 4)).1).1 ≤ 1 := by decide +kernel
      exact key i hi
    · intro N k tx src hN hk htx hsrc
      have hN' : N = 1000 := by
        have := picks_unique hc.1 hN ⟨_, c1, .int _⟩
        exact_mod_cast this
      have hk' : (k : ℚ) = 100 * (i + 1) := kval _ hk
      have htx' := pick_unique hc.1 htx c5
      cases htx'
      have hsrc' : src = .pareto := by
        cases src with
        | pareto => rfl
        | _ => revert hsrc; decide +kernel
      subst hsrc' hN'
      have hi' : (i : ℚ) ≤ 2 := by exact_mod_cast Nat.le_of_lt_succ hi
      have hsum : 0 ≤ ((List.range 1000).map (fun j => ((draws i).pareto j).1)).sum := List.sum_nonneg (by
        intro x hx
        obtain ⟨j, -, rfl⟩ := List.mem_map.1 hx
        exact h1 i j)
      refine C127_pareto (fun j _ => h1 i j) ?_
      have hS := h1' i
      rw [hk']
      generalize ((List.range 1000).map (fun j => ((draws i).pareto j).1)).sum = S at hsum hS ⊢
      have h5 : 13 * ((1000 : Nat) : ℚ) * (100 * (i + 1)) * ((2000 : Nat) : ℚ) ≤ 13 * 1000 * 300 * 2000 := by push_cast; linarith
      have h6 : ((1000 : Nat) : ℚ) + S ≤ 281000 := by push_cast; linarith
      exact (mul_le_mul h5 h6 (by positivity) (by norm_num)).trans (by norm_num)
  obtain ⟨D', es, dirs, q2, q3, q4, -⟩ := C130_completes (R := R) hp noBatchOptions_suited hn (id := "batch-run".toList) (by decide +kernel) hcwd (path := path) (by rw [hpath]; rfl) hfree hstr
    hent hord (m := 2000) (by decide +kernel) hroomy ht solver rnd rnd4
  rw [hlen] at q3
  refine ⟨D', es, q2, q3, fun x hx => ?_⟩
  obtain ⟨c, c1, a, N, b, l, row, t1, t2, t3, t4, t5, t6, t7, t8, t9⟩ := q4 x hx
  have hc := (choice_iff hp c).1 (List.mem_of_getElem? c1)
  obtain ⟨-, c2, c3, -⟩ := hkey x.1 c c1
  refine ⟨a, b, l, row, t3, ?_, ?_, t6, t9⟩
  · obtain ⟨y, y1, z⟩ := t1.n
    rw [y1]
    have := picks_unique hc.1 z ⟨_, c2, .int _⟩
    congr 1
    exact_mod_cast this
  · obtain ⟨y, y1, z⟩ := t1.k
    rw [y1]
    have := picks_unique hc.1 z ⟨_, c3, .int _⟩
    congr 1
    exact_mod_cast this

/-- an empty file system, and draws with one agent two hundred thousand times as rich as the others -/
example : readSeqId newDisk.seq = .ok 0 ∧ (∀ x ∈ newDisk.dirs, ¬ "/home/output/1-batch-run".toList <+: x) ∧ (∀ i, 0 ≤ richDraws.pareto i) ∧
    ((List.range 1000).map (fun i => (richDraws.pareto i).1)).sum ≤ 280000 ∧ (∀ i, 0 ≤ richDraws.cost i ∧ richDraws.cost i < 1) ∧ TurnsOK cliTurns := by
  refine ⟨rfl, by simp [newDisk], fun i => ?_, by decide +kernel, fun _ => ⟨le_rfl, one_pos64⟩, cliTurns_ok⟩
  change (0 : B64) ≤ if i = 7 then _ else 0
  split
  · decide +kernel
  · exact le_rfl

end RSE.Props
