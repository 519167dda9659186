import Verif.Spec.BatchMain
import Verif.Props.MainRun
import Verif.Props.BatchIds
import Verif.Props.BatchRow

/-!
# C122: batch-run.py from the command line to the rows of all runs
-/

set_option linter.unusedSectionVars false

namespace RSE.Props

open Cmd

variable {R : Reader} {d : ArgDict PyFloat} {ws : List Text}

/-! ### The options -/

theorem batch_dict (h : parse R batchTable ws = .ok d) :
    ∃ f : String → Value, d = (batchTable.map Entry.dest).map (fun p => (p, f p)) ∧ ∀ p ∈ batchTable.map Entry.dest, d.get p = .ok (f p) := by
  obtain ⟨gs, -, hs, rfl⟩ := (C120_iff C120_batch).1 h
  let f : String → Value := fun p => match ArgDict.get (batchTable.map (fun e => (e.dest, finalValue gs e))) p with
    | .ok v => v
    | .error _ => .one .none
  have hf : ∀ e ∈ batchTable, f e.dest = finalValue gs e := by
    intro e he
    simp only [f, get_namespace C120_batch (finalValue gs) he]
  refine ⟨f, ?_, ?_⟩
  · rw [List.map_map]
    exact List.map_congr_left (fun e he => by simp only [Function.comp_apply, hf e he])
  · intro p hp
    obtain ⟨e, he, rfl⟩ := List.mem_map.1 hp
    rw [hf e he, get_namespace C120_batch (finalValue gs) he]

theorem options_eq : batchOptions = (batchTable.map Entry.dest).filter (fun p => p ≠ "execution_id" ∧ p ≠ "seed" ∧ p ≠ "agent_profile_distr") := by decide +kernel

theorem options_dests {p : String} (h : p ∈ batchOptions) : p ∈ batchTable.map Entry.dest := by
  rw [options_eq] at h
  exact (List.mem_filter.1 h).1

theorem combos_eq {f : String → Value} (h : d = (batchTable.map Entry.dest).map (fun p => (p, f p))) :
    batchCombos d = cartesian (batchOptions.map (fun p => (atoms (f p)).map (fun a => (p, a)))) := by
  unfold batchCombos
  rw [h, List.filter_map, List.map_map, options_eq]
  congr 1

theorem mem_choice {f : String → Value} : ∀ {ps : List String} {c : List (String × Atom)},
    c ∈ cartesian (ps.map (fun p => (atoms (f p)).map (fun a => (p, a)))) ↔ c.map Prod.fst = ps ∧ ∀ e ∈ c, e.2 ∈ atoms (f e.1) := by
  intro ps c
  rw [mem_cartesian, List.forall₂_map_left_iff]
  induction ps generalizing c with
  | nil =>
    cases c with
    | nil => simp
    | cons e c => simp
  | cons p ps ih =>
    cases c with
    | nil => simp
    | cons e c =>
      obtain ⟨q, a⟩ := e
      rw [List.forall₂_cons, ih]
      simp only [List.mem_map, Prod.mk.injEq, List.map_cons, List.cons.injEq, List.mem_cons, forall_eq_or_imp]
      constructor
      · rintro ⟨⟨b, hb, rfl, rfl⟩, h1, h2⟩
        exact ⟨⟨rfl, h1⟩, hb, h2⟩
      · rintro ⟨⟨rfl, h1⟩, hb, h2⟩
        exact ⟨⟨a, hb, rfl, rfl⟩, h1, h2⟩

theorem choice_iff (h : parse R batchTable ws = .ok d) (c : List (String × Atom)) : c ∈ batchCombos d ↔ Choice d c := by
  obtain ⟨f, h1, h2⟩ := batch_dict h
  rw [combos_eq h1, mem_choice]
  unfold Choice
  refine and_congr_right (fun hc => ?_)
  refine forall₂_congr (fun e he => ?_)
  have hp : e.1 ∈ batchOptions := by rw [← hc]; exact List.mem_map_of_mem he
  rw [h2 _ (options_dests hp)]
  simp

/-! ### The arguments of a run -/

theorem options_nodup : batchOptions.Nodup := by decide +kernel

theorem pick_unique {c : List (String × Atom)} (hc : c.map Prod.fst = batchOptions) {p : String} {a b : Atom} (ha : (p, a) ∈ c) (hb : (p, b) ∈ c) : a = b := by
  have h : (c.map Prod.fst).Nodup := by rw [hc]; exact options_nodup
  exact congrArg Prod.snd (List.inj_on_of_nodup_map h ha hb rfl)

theorem pick_exists {c : List (String × Atom)} (hc : c.map Prod.fst = batchOptions) {p : String} (hp : p ∈ batchOptions) : ∃ a, (p, a) ∈ c := by
  rw [← hc] at hp
  obtain ⟨⟨q, a⟩, h, rfl⟩ := List.mem_map.1 hp
  exact ⟨a, h⟩

theorem runGiven_pick {c : List (String × Atom)} (hc : c.map Prod.fst = batchOptions) {p : String} {a : Atom} (ha : (p, a) ∈ c) (kw : Kw) : runGiven kw c p = .one a := by
  unfold runGiven
  cases hf : c.find? (fun e => e.1 == p) with
  | none =>
    have := List.find?_eq_none.1 hf _ ha
    simp at this
  | some e =>
    obtain ⟨q, b⟩ := e
    have h1 := List.mem_of_find?_eq_some hf
    have h2 := List.find?_some hf
    simp only [beq_iff_eq] at h2
    subst h2
    rw [pick_unique hc ha h1]

theorem runGiven_other {c : List (String × Atom)} (hc : c.map Prod.fst = batchOptions) {p : String} (hp : p ∉ batchOptions) (kw : Kw) :
    runGiven kw c p = if p = "seed" ∨ p = "seq_id" ∨ p = "execution_id" ∨ p = "parent_dir" then .one (atomOf (kw.get? p.toList)) else defaultArg p := by
  unfold runGiven
  rw [List.find?_eq_none.2]
  intro e he h
  simp only [beq_iff_eq] at h
  exact hp (by rw [← hc, ← h]; exact List.mem_map_of_mem he)

theorem option_atoms {table : List Entry} (T : Table table) (h : parse R table ws = .ok d) {name : String} {o : Opt} (ho : optOf table name = some o) {v : Value} (hv : d.get name = .ok v) :
    ∀ a ∈ atoms v, a = .none ∨ a ∈ atoms o.default ∨ ∃ t, o.Means R t a := by
  obtain ⟨h1, rfl⟩ := optOf_mem ho
  obtain ⟨w, h2, h3⟩ := value_of_option T h h1
  rw [hv] at h2
  cases h2
  intro a ha
  rcases h3 with rfl | ⟨ts, -, ⟨-, -, rfl⟩ | ⟨-, t, b, -, hm, rfl⟩ | ⟨-, -, as, hm, rfl⟩⟩
  · exact .inr (.inl ha)
  · simp only [atoms, List.mem_singleton] at ha; exact .inl ha
  · simp only [atoms, List.mem_singleton] at ha; subst ha; exact .inr (.inr ⟨t, hm⟩)
  · exact .inr (.inr (forall₂_right hm (Q := fun a => ∃ t, o.Means R t a) (fun t _ h => ⟨t, h⟩) a ha))

/-- the options with integers have integers -/
theorem int_option (h : parse R batchTable ws = .ok d) {name : String} (hn : name ∈ ["n", "k", "max_iterations", "reward_scheme", "iterations_after_convergence"]) {v : Value}
    (hv : d.get name = .ok v) : ∀ a ∈ atoms v, a = .none ∨ ∃ i, a = .int i := by
  have key : ∀ name ∈ ["n", "k", "max_iterations", "reward_scheme", "iterations_after_convergence"],
      ∃ o, optOf batchTable name = some o ∧ o.kind = .int ∧ ∀ a ∈ atoms o.default, ∃ i, a = .int i := by
    simp only [List.forall_mem_cons, List.not_mem_nil, false_imp_iff, implies_true, and_true]
    refine ⟨⟨_, rfl, rfl, ?_⟩, ⟨_, rfl, rfl, ?_⟩, ⟨_, rfl, rfl, ?_⟩, ⟨_, rfl, rfl, ?_⟩, ⟨_, rfl, rfl, ?_⟩⟩ <;> simp [atoms, ints]
  obtain ⟨o, h1, h2, h3⟩ := key name hn
  intro a ha
  rcases option_atoms C120_batch h h1 hv a ha with h4 | h4 | ⟨t, h4⟩
  · exact .inl h4
  · exact .inr (h3 a h4)
  · exact .inr (means_int h2 h4)

theorem pick_every {c : List (String × Atom)} (hc : Choice d c) {p : String} {a : Atom} (ha : (p, a) ∈ c) {P : ℚ → Prop} (h : Every d p P) : ∃ q, Denotes a q ∧ P q := by
  obtain ⟨v, h1, h2⟩ := hc.2 _ ha
  exact h v h1 a h2

/-- a natural number from the option -/
theorem pick_nat (h : parse R batchTable ws = .ok d) {c : List (String × Atom)} (hc : Choice d c) {p : String} (hp : p ∈ ["n", "k", "max_iterations", "reward_scheme", "iterations_after_convergence"])
    {P : ℚ → Prop} (he : Every d p P) (h0 : ∀ q, P q → 0 ≤ q) (hq : p ∈ batchOptions) : ∃ (a : Atom) (x : Nat), (p, a) ∈ c ∧ a = .int x ∧ P x := by
  obtain ⟨a, ha⟩ := pick_exists hc.1 hq
  obtain ⟨q, h1, h2⟩ := pick_every hc ha he
  obtain ⟨v, h3, h4⟩ := hc.2 _ ha
  rcases int_option h hp h3 a h4 with rfl | ⟨i, rfl⟩
  · cases h1
  · cases h1
    have hi : (0 : Int) ≤ i := by exact_mod_cast h0 _ h2
    refine ⟨_, i.toNat, ha, ?_, ?_⟩
    · rw [Int.toNat_of_nonneg hi]
    · have : ((i.toNat : Int) : ℚ) = (i : ℚ) := by rw [Int.toNat_of_nonneg hi]
      rw [← this] at h2
      exact_mod_cast h2

theorem pick_number {c : List (String × Atom)} (hc : Choice d c) {p : String} {P : ℚ → Prop} (he : Every d p P) (hq : p ∈ batchOptions) : ∃ (a : Atom) (x : ℚ), (p, a) ∈ c ∧ number a = some x ∧ P x := by
  obtain ⟨a, ha⟩ := pick_exists hc.1 hq
  obtain ⟨q, h1, h2⟩ := pick_every hc ha he
  exact ⟨a, q, ha, number_iff.2 h1, h2⟩

theorem batch_scheme (h : parse R batchTable ws = .ok d) {c : List (String × Atom)} (hc : Choice d c) (he : Every d "reward_scheme" (· ≠ 3)) :
    ∃ x : Nat, ("reward_scheme", .int x) ∈ c ∧ (x = 0 ∨ x = 1 ∨ x = 2) := by
  obtain ⟨a, ha⟩ := pick_exists hc.1 (p := "reward_scheme") (by decide)
  obtain ⟨q, h1, h2⟩ := pick_every hc ha he
  obtain ⟨v, h3, h4⟩ := hc.2 _ ha
  have h5 : a = .none ∨ a ∈ ints [0, 1, 2, 3] := by
    rcases option_atoms C120_batch h (name := "reward_scheme") rfl h3 a h4 with h5 | h5 | ⟨t, h5⟩
    · exact .inl h5
    · simp only [atoms, List.mem_singleton] at h5; subst h5; exact .inr (by decide)
    · exact .inr (means_choice rfl h5)
  rcases h5 with rfl | h5
  · cases h1
  · simp only [ints, List.map_cons, List.map_nil, List.mem_cons, List.not_mem_nil, or_false] at h5
    rcases h5 with rfl | rfl | rfl | rfl
    · exact ⟨0, ha, .inl rfl⟩
    · exact ⟨1, ha, .inr (.inl rfl)⟩
    · exact ⟨2, ha, .inr (.inr rfl)⟩
    · cases h1; exact absurd (by norm_num) h2

theorem batch_conv (h : parse R batchTable ws = .ok d) {c : List (String × Atom)} (hc : Choice d c) : ∃ i, ("iterations_after_convergence", .int i) ∈ c := by
  obtain ⟨a, ha⟩ := pick_exists hc.1 (p := "iterations_after_convergence") (by decide)
  obtain ⟨v, h3, h4⟩ := hc.2 _ ha
  obtain ⟨h1, h2⟩ := optOf_mem (table := batchTable) (name := "iterations_after_convergence") rfl
  obtain ⟨w, h5, h6⟩ := value_of_option C120_batch h h1
  simp only at h3
  rw [h2, h3] at h5
  cases h5
  rcases h6 with rfl | ⟨ts, -, ⟨h6, -⟩ | ⟨-, t, b, -, hm, rfl⟩ | ⟨-, h6, -⟩⟩
  · simp only [atoms, List.mem_singleton] at h4; exact ⟨_, h4 ▸ ha⟩
  · cases h6
  · obtain ⟨i, rfl⟩ := means_int rfl hm
    simp only [atoms, List.mem_singleton] at h4
    exact ⟨i, h4 ▸ ha⟩
  · exact absurd rfl h6

theorem batch_known (h : parse R batchTable ws = .ok d) {c : List (String × Atom)} (hc : Choice d c) : ∃ b, ("inactive_stake_fraction_known", .bool b) ∈ c := by
  obtain ⟨a, ha⟩ := pick_exists hc.1 (p := "inactive_stake_fraction_known") (by decide)
  obtain ⟨v, h3, h4⟩ := hc.2 _ ha
  obtain ⟨gs, -, hs, rfl⟩ := (C120_iff C120_batch).1 h
  have he : Entry.switch "inactive_stake_fraction_known" false ∈ batchTable := by simp [batchTable]
  have h5 := get_namespace C120_batch (finalValue gs) he
  obtain ⟨b, hb⟩ := finalValue_switch C120_batch hs he
  rw [hb] at h5
  simp only at h3
  rw [show (Entry.switch "inactive_stake_fraction_known" false).dest = "inactive_stake_fraction_known" from rfl] at h5
  rw [h5] at h3
  cases h3
  simp only [atoms, List.mem_singleton] at h4
  exact ⟨b, h4 ▸ ha⟩

theorem batch_source {c : List (String × Atom)} (hc : Choice d c) {t : Text} (ht : d.get "stake_distr_source" = .ok (.one (.str t))) : ("stake_distr_source", .str t) ∈ c := by
  obtain ⟨a, ha⟩ := pick_exists hc.1 (p := "stake_distr_source") (by decide)
  obtain ⟨v, h3, h4⟩ := hc.2 _ ha
  simp only at h3
  rw [ht] at h3
  cases h3
  simp only [atoms, List.mem_singleton] at h4
  exact h4 ▸ ha

theorem source_of {t : Text} (h : t.map Char.toLower ∈ ["file", "pareto", "flat", "disparity"].map String.toList) :
    ∃ src, sourceNamed (.str t) = some src ∧ t.map Char.toLower = src.name.toList := by
  unfold sourceNamed
  simp only [List.map_cons, List.map_nil, List.mem_cons, List.not_mem_nil, or_false] at h
  rcases h with h | h | h | h <;> simp only [h]
  · exact ⟨.file, rfl, rfl⟩
  · exact ⟨.pareto, rfl, rfl⟩
  · exact ⟨.flat, rfl, rfl⟩
  · exact ⟨.disparity, rfl, rfl⟩

theorem argument_listed {α : Type} (g : String → Value) {p : String} (hp : p ∈ parameters) (F : Value → Option α) : argument (listed g) p F = F (g p) := by
  unfold argument
  rw [listed_get g hp]

/-- the arguments of a run -/
theorem run_args (h : parse R batchTable ws = .ok d) (hs : Suited d) {c : List (String × Atom)} (hc : Choice d c) (kw : Kw) {draws : Draws ℚ} (hd : RunDraws d draws) :
    ∃ (a : Args ℚ) (N : Nat) (m : Int) (x0 : ℚ), argsOf (listed (effective (runGiven kw c))) = some a ∧ TakenFrom c a ∧ Accepted a draws N ∧ a.totalPhases = 1 ∧ a.maxIter = .one m ∧
      d.get "max_iterations" = .ok (.one (.int m)) ∧ a.a0 = .one x0 ∧ a.scheme ≠ 4 ∧
      (a.source = .pareto → ∃ q, argument (listed (effective (runGiven kw c))) "pareto_param" (onlyOne number) = some q ∧ 0 < q) := by
  have hval : ∀ {p : String} {x : Atom}, (p, x) ∈ c → p ≠ "metrics" → p ≠ "agent_profile_distr" → effective (runGiven kw c) p = .one x := by
    intro p x hx h1 h2
    rw [effective_ne _ h1 h2, runGiven_pick hc.1 hx]
  obtain ⟨_, N, hN, rfl, hN1⟩ := pick_nat h hc (p := "n") (by decide) hs.n (fun q hq => le_trans zero_le_one hq) (by decide)
  obtain ⟨_, k, hk, rfl, hk1⟩ := pick_nat h hc (p := "k") (by decide) hs.k (fun q hq => le_trans zero_le_one hq) (by decide)
  obtain ⟨_, m, hm, rfl, hm1⟩ := pick_nat h hc (p := "max_iterations") (by decide) hs.maxIter (fun q hq => le_trans zero_le_one hq) (by decide)
  obtain ⟨a0, x0, ha0, ha1, ha2⟩ := pick_number hc hs.a0 (by decide)
  obtain ⟨re, xr, hr0, hr1, hr2⟩ := pick_number hc hs.relThr (by decide)
  obtain ⟨ab, xab, hb0, hb1, hb2⟩ := pick_number hc hs.absThr (by decide)
  obtain ⟨ex, xe, he0, he1, he2⟩ := pick_number hc hs.extraFrac (by decide)
  obtain ⟨ia, xi, hi0, hi1, hi2⟩ := pick_number hc hs.inactive (by decide)
  obtain ⟨cm, xc, hc0, hc1, hc2⟩ := pick_number hc hs.costMin (by decide)
  obtain ⟨cx, xx, hx0, hx1, hx2⟩ := pick_number hc hs.costs (by decide)
  obtain ⟨pa, xp, hp0, hp1, hp2⟩ := pick_number hc hs.pareto (by decide)
  obtain ⟨sc, hsc, hsc'⟩ := batch_scheme h hc hs.scheme
  obtain ⟨cv, hcv⟩ := batch_conv h hc
  obtain ⟨kn, hkn⟩ := batch_known h hc
  obtain ⟨t, ht, ht'⟩ := hs.source
  obtain ⟨src, hsrc, hname⟩ := source_of ht'
  have hst := batch_source hc ht
  have hmv : d.get "max_iterations" = .ok (.one (.int m)) := by
    obtain ⟨v, h1, h2⟩ := hc.2 _ hm
    obtain ⟨h3, h4⟩ := optOf_mem (table := batchTable) (name := "max_iterations") rfl
    obtain ⟨w, h5, h6⟩ := value_of_option C120_batch h h3
    simp only at h1
    rw [h4, h1] at h5
    cases h5
    rw [h1]
    rcases h6 with rfl | ⟨ts, -, ⟨-, -, rfl⟩ | ⟨-, t, b, -, -, rfl⟩ | ⟨h6, -⟩⟩
    · simp only [atoms, List.mem_singleton] at h2; rw [h2]
    · simp only [atoms, List.mem_singleton] at h2; rw [h2]
    · simp only [atoms, List.mem_singleton] at h2; rw [h2]
    · exact absurd rfl h6
  have hdef : ∀ p, p ∉ batchOptions → ¬ (p = "seed" ∨ p = "seq_id" ∨ p = "execution_id" ∨ p = "parent_dir") → runGiven kw c p = defaultArg p := by
    intro p h1 h2
    rw [runGiven_other hc.1 h1, if_neg h2]
  have hord : effective (runGiven kw c) "agent_activation_order" = .one (.str "random".toList) := by
    rw [effective_ne _ (by decide) (by decide), hdef _ (by decide) (by decide)]; rfl
  have hmet : effective (runGiven kw c) "metrics" = .list ([1, 2, 6, 9, 17, 18, 25].map .int) := by
    unfold effective
    rw [hdef _ (by decide) (by decide)]; rfl
  have hwei : effective (runGiven kw c) "agent_profile_distr" = .list ([1, 0, 0].map .int) := by
    unfold effective
    rw [hdef _ (by decide) (by decide)]; rfl
  have hN0 : 1 ≤ N := by exact_mod_cast hN1
  refine ⟨{ n := .one N, k := .one k, a0 := .one x0, relThr := .one xr, absThr := .one xab, maxIter := .one m, extraFrac := .one xe, order := .one .random, scheme := sc, weights := some [1, 0, 0],
            inactive := xi, known := kn, costMin := xc, costMax := xx, source := src, metrics := some [1, 2, 6, 9, 17, 18, 25], conv := cv }, N, m, x0, ?_, ?_, ?_, rfl, rfl, hmv, rfl, ?_, ?_⟩
  · have hnat : ∀ x : Nat, natural (.int x) = some x := fun x => by simp [natural]
    unfold argsOf
    simp only [argument_listed _ (show "n" ∈ parameters by decide), argument_listed _ (show "k" ∈ parameters by decide), argument_listed _ (show "a0" ∈ parameters by decide),
      argument_listed _ (show "relative_utility_threshold" ∈ parameters by decide), argument_listed _ (show "absolute_utility_threshold" ∈ parameters by decide),
      argument_listed _ (show "max_iterations" ∈ parameters by decide), argument_listed _ (show "extra_pool_cost_fraction" ∈ parameters by decide),
      argument_listed _ (show "agent_activation_order" ∈ parameters by decide), argument_listed _ (show "reward_scheme" ∈ parameters by decide),
      argument_listed _ (show "agent_profile_distr" ∈ parameters by decide), argument_listed _ (show "inactive_stake_fraction" ∈ parameters by decide),
      argument_listed _ (show "inactive_stake_fraction_known" ∈ parameters by decide), argument_listed _ (show "cost_min" ∈ parameters by decide),
      argument_listed _ (show "cost_max" ∈ parameters by decide), argument_listed _ (show "stake_distr_source" ∈ parameters by decide), argument_listed _ (show "metrics" ∈ parameters by decide),
      argument_listed _ (show "iterations_after_convergence" ∈ parameters by decide)]
    rw [hval hN (by decide) (by decide), hval hk (by decide) (by decide), hval ha0 (by decide) (by decide), hval hr0 (by decide) (by decide), hval hb0 (by decide) (by decide),
      hval hm (by decide) (by decide), hval he0 (by decide) (by decide), hord, hval hsc (by decide) (by decide), hwei, hval hi0 (by decide) (by decide), hval hkn (by decide) (by decide),
      hval hc0 (by decide) (by decide), hval hx0 (by decide) (by decide), hval hst (by decide) (by decide), hmet, hval hcv (by decide) (by decide)]
    simp only [perPhase, onlyOne, aList, hnat, ha1, hr1, hb1, he1, hi1, hc1, hx1, hsrc, truth, integer, Option.map_some]
    rfl
  · exact { n := ⟨N, rfl, _, hN, .int _⟩, k := ⟨k, rfl, _, hk, .int _⟩, a0 := ⟨x0, rfl, _, ha0, number_iff.1 ha1⟩, relThr := ⟨xr, rfl, _, hr0, number_iff.1 hr1⟩,
            absThr := ⟨xab, rfl, _, hb0, number_iff.1 hb1⟩, maxIter := ⟨m, rfl, _, hm, .int _⟩, extraFrac := ⟨xe, rfl, _, he0, number_iff.1 he1⟩, order := rfl,
            scheme := ⟨_, hsc, .int _⟩, weights := rfl, inactive := ⟨_, hi0, number_iff.1 hi1⟩, known := hkn, costMin := ⟨_, hc0, number_iff.1 hc1⟩,
            costMax := ⟨_, hx0, number_iff.1 hx1⟩, source := ⟨t, hst, hname⟩, metrics := rfl, conv := ⟨_, hcv, .int _⟩ }
  · exact { n := rfl, n_pos := hN0, k := by exact_mod_cast hk1, a0 := ha2, relThr := hr2, absThr := hb2, maxIter := by change (1 : Int) ≤ (m : Int); exact_mod_cast hm1, extraFrac := he2, order := trivial,
            scheme := by rcases hsc' with h | h | h <;> simp [h]
            weights := by intro w hw; cases hw; refine ⟨rfl, ?_, ?_⟩ <;> simp
            inactive := hi2, costMin := hc2
            costs := by
              obtain ⟨q, q1, q2⟩ := pick_every hc hc0 hx2
              rw [denotes_unique (number_iff.1 hc1) q1]; exact q2
            metrics := by intro l hl; cases hl; decide
            disparity := by
              intro h1
              simp only at h1
              subst h1
              obtain ⟨q, q1, q2⟩ := pick_every hc hN (hs.disparity t ht hname)
              cases q1
              exact_mod_cast q2
            file := by
              intro h1
              simp only at h1
              subst h1
              exact hd.file t ht hname
            pareto := hd.pareto, cost := hd.cost, profile := hd.profile }
  · simp only; rcases hsc' with h | h | h <;> simp [h]
  · intro _
    refine ⟨xp, ?_, hp2⟩
    rw [argument_listed _ (by decide), hval hp0 (by decide) (by decide)]
    exact hp1

/-! ### A run -/

/-- the batch runner gets to its data if the loop of `run_model` would end -/
theorem batchRun_of_loop {W V : Type} (env : Env W V) (hm : ∀ p, env.newMax p = none) (w : W) {m : Int} (h0 : 0 < m) {fuel : Nat} {l : Loop W V}
    (hl : Loop.loop env fuel (Loop.init w m) = .ok l) : ∃ row, l.rows[l.steps - 1]? = some row ∧ 1 ≤ l.steps ∧
      Loop.batchRun env m (-1) fuel (Loop.init w m) = .ok (l, [((l.steps : Int) - 1, row)], [row]) := by
  obtain ⟨h, -, hmeq, hle, hh⟩ := (Track.init env w m).loop_max hm fuel (by simpa [Loop.init] using h0.le) hl
  have main : ∀ (hs : l.steps = h.length) (hpos : 0 < h.length) (rs : List V),
      List.Forall₂ (fun r row => env.report r.before = .ok row) h rs → (∀ i, i < h.length → l.rows[i]? = rs[i]?) →
      ∃ row, l.rows[l.steps - 1]? = some row ∧ 1 ≤ l.steps := by
    intro hs hpos rs hf hrs
    have hlt : h.length - 1 < rs.length := by rw [← hf.length_eq]; omega
    refine ⟨rs[h.length - 1], ?_, by omega⟩
    rw [hs, hrs _ (by omega)]; exact List.getElem?_eq_getElem hlt
  have hrow : ∃ row, l.rows[l.steps - 1]? = some row ∧ 1 ≤ l.steps := by
    rcases hh with hh | hh
    · have hlen : (h.length : Int) = m := by have := hh.max; rw [hmeq] at this; exact le_antisymm hle this
      obtain ⟨row, hrow, rs, hrs, hf⟩ := hh.rows
      exact main hh.steps (by omega) rs hf (by
        intro i hi; rw [hrs, List.getElem?_append_left (by rw [← hf.length_eq]; exact hi)])
    · obtain ⟨h₀, w₀, hpre, -⟩ := hh.prefix'
      exact main hh.steps (by rw [hpre]; simp) l.rows hh.rows (fun _ _ => rfl)
  obtain ⟨row, h1, h2⟩ := hrow
  refine ⟨row, h1, h2, ?_⟩
  have hidx : Loop.pyIndex l.rows ((l.steps : Int) - 1) = .ok row := by
    unfold Loop.pyIndex
    have h3 : ¬ ((l.steps : Int) - 1 < 0) := by omega
    have h4 : ((l.steps : Int) - 1).toNat = l.steps - 1 := by omega
    simp only [h3, if_false, h4, h1]
  have hst : Loop.sampledSteps l.steps (-1) = .ok [(l.steps : Int) - 1] := by
    unfold Loop.sampledSteps
    simp
  unfold Loop.batchRun
  rw [batchLoop_eq hm m fuel _ rfl, hl]
  simp only [bind, Except.bind, hst, List.mapM_cons, List.mapM_nil, hidx, pure, Except.pure]
  simp

/-- how a run ends well: with one row of metrics, those collected before its last round -/
def EndsWell (draws : Draws ℚ) (solver : State ℚ → ℚ) (t : Turns) (rnd rnd4 : ℚ → ℚ) (m : Int) (c : List (String × Atom)) (e : RunEnding ℚ) : Prop :=
  ∃ a N b l row, TakenFrom c a ∧ a.n = .one N ∧ construct a draws = .ok b ∧ Faithful a draws N b ∧ simulate a draws solver t (m.toNat + 1) = .ok l ∧ Completed b rnd rnd4 m l ∧
    1 ≤ l.steps ∧ l.rows[l.steps - 1]? = some row ∧ e = .ran (.ok (l, [((l.steps : Int) - 1, row)], [row]))

/-- what the keyword arguments of a run must have been -/
structure KwOf (path : Text) (i : Nat) (seed : Int) (id : Text) (kw : Kw) : Prop where
  seq : kw.get? seqIdName = some (.int (i + 1))
  seed : kw.get? seedName = some (.int seed)
  id : kw.get? executionIdName = some (.text id)
  parent : kw.get? parentDirName = some (.other path)

section anyNumbers

variable {F : Type} [LinearOrder F] [Zero F] [One F] [Add F] [Sub F] [Mul F] [Div F] [Neg F] [NatCast F] [FSum F] [PyInt F]

/-- a run of the batch whose simulation would complete -/
theorem run_starts {c : List (String × Atom)} (hc : Choice d c) {path : Text} (hpath : path.head? = some '/') {i : Nat} {seed : Int} (hseed : 0 ≤ seed)
    {id : Text} (hid : id ≠ [] ∧ id ≠ "temp".toList) {kw : Kw} (hkw : KwOf path i seed id kw) {str : Value → Text} (hstr : ∀ n : Nat, str (.one (.int n)) = strNat n) {cwd : Text}
    {D : Disk PyFloat} (hfree : path ++ '/' :: (strNat (i + 1) ++ '-' :: id) ∉ D.dirs) {a : Args ℚ} (h1 : argsOf (listed (effective (runGiven kw c))) = some a)
    (hpar : a.source = .pareto → ∃ q, argument (listed (effective (runGiven kw c))) "pareto_param" (onlyOne number) = some q ∧ 0 < q) {num : Args ℚ → Args F} {draws : Draws F} {b : Built F}
    (hb : construct (num a) draws = .ok b) {m : Int} (hmi : (num a).maxIter = .one m) (hmax : b.maxIter = m) (hm0 : 0 < m) {solver : State F → F} {t : Turns}
    {l : Loop (Nat × Nat × State F) (List (MetricValue F))} (q2 : simulate (num a) draws solver t (m.toNat + 1) = .ok l) :
    ∃ D' row, runOne num str cwd D kw c m draws solver t (m.toNat + 1) = (D', .ran (.ok (l, [((l.steps : Int) - 1, row)], [row]))) ∧
      D'.dirs = (path ++ '/' :: (strNat (i + 1) ++ '-' :: id)) :: D.dirs ∧ D'.seq = D.seq ∧ 1 ≤ l.steps ∧ l.rows[l.steps - 1]? = some row := by
  have hgiven : ∀ p, p ∉ batchOptions → p = "seed" ∨ p = "seq_id" ∨ p = "execution_id" ∨ p = "parent_dir" → effective (runGiven kw c) p = .one (atomOf (kw.get? p.toList)) := by
    intro p h3 h4
    rw [effective_ne _ (by rcases h4 with rfl | rfl | rfl | rfl <;> decide) (by rcases h4 with rfl | rfl | rfl | rfl <;> decide), runGiven_other hc.1 h3, if_pos h4]
  have g1 : effective (runGiven kw c) "seq_id" = .one (.int (i + 1)) := by
    rw [hgiven _ (by decide) (by decide), show "seq_id".toList = seqIdName from rfl, hkw.seq]; rfl
  have g2 : effective (runGiven kw c) "seed" = .one (.int seed) := by
    rw [hgiven _ (by decide) (by decide), show "seed".toList = seedName from rfl, hkw.seed]; rfl
  have g3 : effective (runGiven kw c) "execution_id" = .one (.str id) := by
    rw [hgiven _ (by decide) (by decide), show "execution_id".toList = executionIdName from rfl, hkw.id]; rfl
  have g4 : effective (runGiven kw c) "parent_dir" = .one (.other path) := by
    rw [hgiven _ (by decide) (by decide), show "parent_dir".toList = parentDirName from rfl, hkw.parent]; rfl
  have htake : takeSeqId str D.seq (effective (runGiven kw c) "seq_id") = .ok (strNat (i + 1), D.seq) := by
    rw [g1]
    unfold takeSeqId
    split
    · rename_i h5
      injection h5 with h5
      injection h5 with h5
      omega
    · have := hstr (i + 1)
      push_cast at this
      rw [this]
  have hout : (executionName str (strNat (i + 1)) (listed (effective (runGiven kw c)))).bind (outputPath cwd (listed (effective (runGiven kw c)))) =
      .ok (path ++ '/' :: (strNat (i + 1) ++ '-' :: id)) := by
    unfold executionName
    rw [listed_get _ (show "execution_id" ∈ parameters by decide), g3]
    simp only [bind, Except.bind]
    rw [if_neg (by rintro (h5 | h5); exact hid.1 h5; exact hid.2 h5)]
    unfold outputPath
    rw [listed_get _ (show "parent_dir" ∈ parameters by decide), g4]
    simp only [bind, Except.bind]
    have h5 : joinPath (joinPath cwd ['o', 'u', 't', 'p', 'u', 't']) path = path := by
      cases path with
      | nil => cases hpath
      | cons x xs =>
        simp only [List.head?_cons, Option.some.injEq] at hpath
        subst hpath
        rfl
    rw [h5]
    have h6 := strNat_ne_nil (i + 1)
    have h7 := strNat_digits (i + 1)
    cases hn : strNat (i + 1) with
    | nil => exact absurd hn h6
    | cons x xs =>
      rw [hn] at h7
      have hx : x ≠ '/' := by
        rintro rfl
        have := h7 '/' (by simp)
        revert this; decide
      simp only [List.cons_append, joinPath, if_neg hx]
  have hstart : start str cwd D (.call (runGiven kw c)) 0 =
      ({ D with dirs := (path ++ '/' :: (strNat (i + 1) ++ '-' :: id)) :: D.dirs,
                written := (path ++ '/' :: (strNat (i + 1) ++ '-' :: id), (listed (effective (runGiven kw c))).json) :: D.written },
        .ok { args := listed (effective (runGiven kw c)), seed := .one (.int seed), dir := path ++ '/' :: (strNat (i + 1) ++ '-' :: id) }) := by
    rw [start_listed str cwd D _ 0 (effective (runGiven kw c)) (.inl ⟨_, rfl, rfl⟩), htake]
    simp only [hout, mkdir, if_neg hfree, g2, seedOf]
  have hloop : Loop.loop (runEnv (num a) b solver t) (m.toNat + 1) (Loop.init (0, b.n, initState b.config) m) = .ok l := by
    have := q2
    unfold simulate at this
    rw [hb] at this
    simp only [bind, Except.bind] at this
    rw [hmax] at this
    exact this
  obtain ⟨row, r1, r2, r3⟩ := batchRun_of_loop (runEnv (num a) b solver t) (by intro p; simp [runEnv, hmi, Multi.later]) (0, b.n, initState b.config) hm0 hloop
  have hnp : numpyAccepts { args := listed (effective (runGiven kw c)), seed := .one (.int seed), dir := path ++ '/' :: (strNat (i + 1) ++ '-' :: id) } a.source = true := by
    unfold numpyAccepts
    simp only [decide_eq_true hseed, Bool.true_and]
    cases hsrc : a.source with
    | pareto =>
      obtain ⟨q, w1, w2⟩ := hpar hsrc
      rw [w1]
      simpa using w2
    | _ => rfl
  refine ⟨{ D with dirs := (path ++ '/' :: (strNat (i + 1) ++ '-' :: id)) :: D.dirs,
                   written := (path ++ '/' :: (strNat (i + 1) ++ '-' :: id), (listed (effective (runGiven kw c))).json) :: D.written }, row, ?_, rfl, rfl, r2, r1⟩
  unfold runOne
  rw [hstart]
  simp only [h1, hnp, Bool.not_true, Bool.false_eq_true, if_false, hb, bind, Except.bind, hmax, r3]

end anyNumbers

theorem run_ends (h : parse R batchTable ws = .ok d) (hs : Suited d) {c : List (String × Atom)} (hc : Choice d c) {path : Text} (hpath : path.head? = some '/') {i : Nat} {seed : Int} (hseed : 0 ≤ seed)
    {id : Text} (hid : id ≠ [] ∧ id ≠ "temp".toList) {kw : Kw} (hkw : KwOf path i seed id kw) {draws : Draws ℚ} (hd : RunDraws d draws) {t : Turns} (ht : TurnsOK t) (solver : State ℚ → ℚ)
    (rnd rnd4 : ℚ → ℚ) {str : Value → Text} (hstr : ∀ n : Nat, str (.one (.int n)) = strNat n) {cwd : Text} {D : Disk PyFloat}
    (hfree : path ++ '/' :: (strNat (i + 1) ++ '-' :: id) ∉ D.dirs) {m : Int} (hm : d.get "max_iterations" = .ok (.one (.int m))) :
    ∃ D' e, runOne (fun a => a) str cwd D kw c m draws solver t (m.toNat + 1) = (D', e) ∧ D'.dirs = (path ++ '/' :: (strNat (i + 1) ++ '-' :: id)) :: D.dirs ∧ D'.seq = D.seq ∧
      EndsWell draws solver t rnd rnd4 m c e := by
  obtain ⟨a, N, m', x0, h1, h2, hacc, hph, hmi, hm', hx0, hsc, hpar⟩ := run_args h hs hc kw hd
  rw [hm] at hm'
  cases hm'
  obtain ⟨b, hb, hF⟩ := C77_constructor hacc
  obtain ⟨b', l, q1, q2, q3⟩ := C78_completes hacc hph hmi (o := .random) (by rw [h2.order]; rfl) (.inl rfl) (x0 := x0) (by rw [hx0]; rfl) (fun h => absurd h hsc) ht solver rnd rnd4
  rw [hb] at q1
  cases q1
  have hmax : b.maxIter = m := by
    have := hF.maxIter
    rw [hmi] at this
    exact (Except.ok.inj this).symm
  have hm0 : 0 < m := by
    have := hacc.maxIter
    rw [hmi] at this
    exact lt_of_lt_of_le one_pos this
  obtain ⟨D', row, r1, r2, r3, r4, r5⟩ := run_starts hc hpath hseed hid hkw hstr (cwd := cwd) hfree h1 hpar (num := fun a => a) hb hmi hmax hm0 q2
  exact ⟨D', _, r1, r2, r3, a, N, b, l, row, h2, hacc.n, hb, hF, q2, q3, r4, r5, rfl⟩

/-! ### The keyword arguments of the runs -/

theorem cartesian_map {α β : Type} (g : α → β) : ∀ ls : List (List α), cartesian (ls.map (List.map g)) = (cartesian ls).map (List.map g)
  | [] => rfl
  | l :: ls => by
    simp only [List.map_cons, cartesian, cartesian_map g ls, List.flatMap_map, List.map_flatMap, List.map_map]
    rfl

theorem cartesian_last {α : Type} (x : α) : ∀ ls : List (List α), cartesian (ls ++ [[x]]) = (cartesian ls).map (· ++ [x])
  | [] => rfl
  | l :: ls => by
    simp only [List.cons_append, cartesian, cartesian_last x ls, List.map_flatMap, List.map_map]
    rfl

theorem names_options : batchNames = batchOptions := rfl

theorem batchParam_atoms (str : Value → Text) (v : Value) : (batchParam str v).values = (atoms v).map (batchVal str) := by
  cases v with
  | one a => cases a <;> rfl
  | list l => rfl
  | tuple l => rfl

/-- the values of a run as the batch runner prints them -/
def shownKw (str : Value → Text) (path : Text) (c : List (String × Atom)) : Kw := c.map (fun e => (e.1.toList, batchVal str e.2)) ++ [(parentDirName, .other path)]

theorem batch_start (h : parse R batchTable ws = .ok d) (str : Value → Text) (path : Text) (entropy : Int) :
    ∃ params seed, batchStart R str path ws entropy = .ok (batchKwargs params 1 seed) ∧ (params.map Prod.fst).Nodup ∧ seedName ∉ params.map Prod.fst ∧
      (makeModelKwargs params).1 = (batchCombos d).map (shownKw str path) ∧ (d.get "seed" = .ok (.one (.int seed)) ∨ (seed = entropy ∧ d.get "seed" = .ok (.one .none))) := by
  obtain ⟨f, h1, h2⟩ := batch_dict h
  have hin : batchInput str d = batchOptions.map (fun p => (p.toList, batchParam str (f p))) := by
    have h3 : batchOptions = (batchTable.map Entry.dest).filter (fun p => p.toList ≠ executionIdName ∧ p.toList ≠ seedName ∧ p.toList ≠ profileDistrName) := by decide +kernel
    rw [h1, h3]
    unfold batchInput batchParams
    rw [List.map_map, List.filter_map]
    rfl
  have hdir : parentDirName ∉ batchOptions.map String.toList := by decide +kernel
  have hwith : withParentDir path (batchInput str d) = batchOptions.map (fun p => (p.toList, batchParam str (f p))) ++ [(parentDirName, .scalar (.other path))] := by
    rw [hin, withParentDir_append path (by rw [List.map_map]; exact hdir)]
  have hkeys : (batchOptions.map (fun p => (p.toList, batchParam str (f p))) ++ [(parentDirName, Param.scalar (.other path))]).map Prod.fst = batchOptions.map String.toList ++ [parentDirName] := by
    rw [List.map_append, List.map_map]; rfl
  have hnodup : (batchOptions.map String.toList ++ [parentDirName]).Nodup := by decide +kernel
  have hgrid : (makeModelKwargs (batchOptions.map (fun p => (p.toList, batchParam str (f p))) ++ [(parentDirName, Param.scalar (.other path))])).1 = (batchCombos d).map (shownKw str path) := by
    rw [kwargs_eq _ (by rw [hkeys]; exact hnodup), combos_eq h1, List.map_append, List.map_map, List.map_cons, List.map_nil]
    have h3 : (Param.values (.scalar (.other path))).map (fun v => (parentDirName, v)) = [(parentDirName, Val.other path)] := rfl
    have h4 : batchOptions.map ((fun e : Text × Param => e.2.values.map (fun v => (e.1, v))) ∘ fun p => (p.toList, batchParam str (f p))) =
        (batchOptions.map (fun p => (atoms (f p)).map (fun a => (p, a)))).map (List.map (fun e : String × Atom => (e.1.toList, batchVal str e.2))) := by
      rw [List.map_map]
      refine List.map_congr_left (fun p _ => ?_)
      simp only [Function.comp_apply, batchParam_atoms, List.map_map]
      rfl
    simp only [h3]
    rw [h4, cartesian_last, cartesian_map, List.map_map]
    rfl
  have hsd : ∃ i, d.get "seed" = .ok (.one (.int i)) ∨ d.get "seed" = .ok (.one .none) := by
    obtain ⟨h3, h4⟩ := optOf_mem (table := batchTable) (name := "seed") rfl
    obtain ⟨w, h5, h6⟩ := value_of_option C120_batch h h3
    rw [h4] at h5
    rcases h6 with rfl | ⟨ts, -, ⟨-, -, rfl⟩ | ⟨-, t, b, -, hm, rfl⟩ | ⟨h6, -⟩⟩
    · exact ⟨0, .inr h5⟩
    · exact ⟨0, .inr h5⟩
    · obtain ⟨i, rfl⟩ := means_int rfl hm
      exact ⟨i, .inl h5⟩
    · exact absurd rfl h6
  have hstart : batchStart R str path ws entropy = .ok (batchKwargs (withParentDir path (batchInput str d)) 1 (match d.get "seed" with
      | .ok (.one (.int i)) => i
      | _ => entropy)) := by
    simp only [batchStart, h, bind, Except.bind, pure, Except.pure]
    rfl
  rw [hwith] at hstart
  refine ⟨_, _, hstart, by rw [hkeys]; exact hnodup, by rw [hkeys]; decide +kernel, hgrid, ?_⟩
  obtain ⟨i, hi | hi⟩ := hsd <;> rw [hi]
  · exact .inl rfl
  · exact .inr ⟨rfl, rfl⟩

theorem shownKw_get (str : Value → Text) (path : Text) {c : List (String × Atom)} (hc : c.map Prod.fst = batchOptions) :
    Kw.get? (shownKw str path c) parentDirName = some (.other path) ∧ ∀ p a, (p, a) ∈ c → Kw.get? (shownKw str path c) p.toList = some (batchVal str a) := by
  have key : ∀ (l : List (String × Atom)), parentDirName ∉ l.map (fun e => e.1.toList) → (l.map Prod.fst).Nodup →
      Kw.get? (shownKw str path l) parentDirName = some (.other path) ∧ ∀ p a, (p, a) ∈ l → Kw.get? (shownKw str path l) p.toList = some (batchVal str a) := by
    intro l
    induction l with
    | nil => intro _ _; exact ⟨by simp [shownKw, Kw.get?], by simp⟩
    | cons e l ih =>
      obtain ⟨q, b⟩ := e
      intro h1 h2
      simp only [List.map_cons, List.mem_cons, not_or, List.nodup_cons] at h1 h2
      obtain ⟨i1, i2⟩ := ih h1.2 h2.2
      have hcons : shownKw str path ((q, b) :: l) = (q.toList, batchVal str b) :: shownKw str path l := rfl
      rw [hcons]
      constructor
      · rw [Kw.get?, if_neg (Ne.symm h1.1)]
        exact i1
      · intro p a hp
        rcases List.mem_cons.1 hp with hp | hp
        · cases hp
          rw [Kw.get?, if_pos rfl]
        · have hne : q.toList ≠ p.toList := by
            intro h3
            have : q = p := String.toList_inj.1 h3
            exact h2.1 (List.mem_map.2 ⟨_, hp, this.symm⟩)
          rw [Kw.get?, if_neg hne]
          exact i2 p a hp
  refine key c ?_ (by rw [hc]; exact options_nodup)
  have : c.map (fun e => e.1.toList) = (c.map Prod.fst).map String.toList := by rw [List.map_map]; rfl
  rw [this, hc]
  decide +kernel

theorem dashed_seed (l : List Text) (x : Text) : ∃ pre, dashed (l ++ ["seed-".toList ++ x]) = pre ++ ("seed-".toList ++ x) := by
  induction l with
  | nil => exact ⟨[], by simp [dashed]⟩
  | cons t l ih =>
    obtain ⟨pre, h⟩ := ih
    cases hl : l ++ ["seed-".toList ++ x] with
    | nil => simp at hl
    | cons u us =>
      rw [hl] at h
      refine ⟨t ++ ['-'] ++ pre, ?_⟩
      rw [List.cons_append, hl, List.append_assoc, ← h]
      simp [dashed]

theorem kw_of (h : parse R batchTable ws = .ok d) (str : Value → Text) (path : Text) (entropy : Int) :
    ∃ kws seed, batchStart R str path ws entropy = .ok kws ∧ kws.length = (batchCombos d).length ∧
      (d.get "seed" = .ok (.one (.int seed)) ∨ (seed = entropy ∧ d.get "seed" = .ok (.one .none))) ∧
      ∀ (i : Nat) kw c, kws[i]? = some kw → (batchCombos d)[i]? = some c → (∃ id, id ≠ [] ∧ id ≠ "temp".toList ∧ KwOf path i seed id kw) ∧
        ∀ p a, (p, a) ∈ c → kw.get? p.toList = some (batchVal str a) := by
  obtain ⟨params, seed, h1, h2, h3, h4, h5⟩ := batch_start h str path entropy
  refine ⟨_, seed, h1, ?_, h5, ?_⟩
  · rw [(batch_runs_named params 1 seed).1, h4, List.length_map, Nat.mul_one]
  · intro i kw c hkw hc
    obtain ⟨combo, q1, q2, q3, q4⟩ := (batch_runs_named params 1 seed).2 i kw hkw
    obtain ⟨combo', -, r2⟩ := batch_execution_id params h2 h3 1 seed i kw hkw
    have hch := (choice_iff h c).1 (List.mem_of_getElem? hc)
    rw [h4, Nat.div_one, List.getElem?_map, hc] at q1
    simp only [Option.map_some, Option.some.injEq] at q1
    obtain ⟨g1, g2⟩ := shownKw_get str path hch.1
    rw [q1] at g1 g2
    obtain ⟨pre, hpre⟩ := dashed_seed ((varying params combo').map (fun e => e.1 ++ "-".toList ++ printed e.2)) (toString (seed + (i % 1 : Nat))).toList
    rw [hpre] at r2
    have hlen : 5 ≤ (pre ++ ("seed-".toList ++ (toString (seed + (i % 1 : Nat))).toList)).length := by
      rw [List.length_append, List.length_append]
      have : "seed-".toList.length = 5 := rfl
      omega
    refine ⟨⟨_, ?_, ?_, q2, ?_, r2, ?_⟩, ?_⟩
    · intro h6; rw [h6] at hlen; simp at hlen
    · intro h6; rw [h6] at hlen; revert hlen; decide
    · rw [q3, Nat.mod_one]; simp
    · rw [q4 _ (by decide) (by decide) (by decide)]; exact g1
    · intro p a hp
      have hpo : p ∈ batchOptions := by rw [← hch.1]; exact List.mem_map_of_mem hp
      have hno : ∀ p ∈ batchOptions, p.toList ≠ seqIdName ∧ p.toList ≠ seedName ∧ p.toList ≠ executionIdName := by decide +kernel
      obtain ⟨o1, o2, o3⟩ := hno p hpo
      rw [q4 _ o1 o2 o3]
      exact g2 p a hp

/-! ### All runs -/

section anyNumbers

variable {F : Type} [LinearOrder F] [Zero F] [One F] [Add F] [Sub F] [Mul F] [Div F] [Neg F] [NatCast F] [FSum F] [PyInt F] {num : Args ℚ → Args F} {str : Value → Text} {cwd : Text}
  {draws : Nat → Draws F} {solver : State F → F} {t : Nat → Turns}

/-- Every run of the batch that gets a directory of its own ends in a certain way. -/
def RunsEnd (d : ArgDict PyFloat) (num : Args ℚ → Args F) (str : Value → Text) (cwd : Text) (draws : Nat → Draws F) (solver : State F → F) (t : Nat → Turns) (m : Int)
    (P : Nat → List (String × Atom) → RunEnding F → Prop) (path : Text) (seed : Int) : Prop :=
  ∀ (i : Nat) (kw : Kw) (c : List (String × Atom)) (id : Text) (D : Disk PyFloat), (batchCombos d)[i]? = some c → id ≠ [] → id ≠ "temp".toList → KwOf path i seed id kw →
    path ++ '/' :: (strNat (i + 1) ++ '-' :: id) ∉ D.dirs →
    ∃ D' e, runOne num str cwd D kw c m (draws i) solver (t i) (m.toNat + 1) = (D', e) ∧ D'.dirs = (path ++ '/' :: (strNat (i + 1) ++ '-' :: id)) :: D.dirs ∧ D'.seq = D.seq ∧ P i c e

theorem runs_end {P : Nat → List (String × Atom) → RunEnding F → Prop} {path : Text} {seed : Int} {m : Int} (hrun : RunsEnd d num str cwd draws solver t m P path seed) :
    ∀ (items : List (Nat × Kw × List (String × Atom))) (D : Disk PyFloat),
    (∀ x ∈ items, (batchCombos d)[x.1]? = some x.2.2 ∧ ∃ id, id ≠ [] ∧ id ≠ "temp".toList ∧ KwOf path x.1 seed id x.2.1) → (items.map Prod.fst).Nodup →
    (∀ x ∈ items, ∀ id, path ++ '/' :: (strNat (x.1 + 1) ++ '-' :: id) ∉ D.dirs) →
    ∃ D' es dirs, runAll num str cwd m draws solver t (m.toNat + 1) D items = (D', es) ∧ D'.seq = D.seq ∧ D'.dirs = dirs.reverse ++ D.dirs ∧
      List.Forall₂ (fun x e => e.1 = x.1 ∧ P x.1 x.2.2 e.2) items es ∧
      List.Forall₂ (fun e dir => ∃ id, dir = path ++ '/' :: (strNat (e.1 + 1) ++ '-' :: id)) es dirs
  | [], D, _, _, _ => ⟨D, [], [], rfl, rfl, rfl, .nil, .nil⟩
  | (i, kw, c) :: items, D, hi, hn, hf => by
    obtain ⟨hc, id, id1, id2, hkw⟩ := hi (i, kw, c) (by simp)
    obtain ⟨D₁, e, q1, q2, q3, q4⟩ := hrun i kw c id D hc id1 id2 hkw (hf (i, kw, c) (by simp) id)
    rw [List.map_cons, List.nodup_cons] at hn
    obtain ⟨D', es, dirs, r1, r2, r3, r4, r5⟩ := runs_end hrun items D₁ (fun x hx => hi x (by simp [hx])) hn.2 (by
      intro x hx id' hmem
      rw [q2, List.mem_cons] at hmem
      rcases hmem with hmem | hmem
      · have h1 := List.append_cancel_left hmem
        rw [List.cons.injEq] at h1
        have h2 := strNat_injective (split_at_dash (dash_notMem_strNat _) (dash_notMem_strNat _) h1.2).1
        have h3 : x.1 = i := by omega
        exact hn.1 (List.mem_map.2 ⟨x, hx, h3⟩)
      · exact hf x (by simp [hx]) id' hmem)
    refine ⟨D', (i, e) :: es, (path ++ '/' :: (strNat (i + 1) ++ '-' :: id)) :: dirs, ?_, r2.trans q3, ?_, .cons ⟨rfl, q4⟩ r4, .cons ⟨id, rfl⟩ r5⟩
    · simp only [runAll, q1, r1]
    · rw [r3, q2, List.reverse_cons, List.append_assoc, List.singleton_append]

/-- the whole batch, if every run ends in a certain way -/
theorem batch_ends (h : parse R batchTable ws = .ok d) (hs : Suited d) {D : Disk PyFloat} {n : Nat} (hn : readSeqId D.seq = .ok n) {id : Text} (hid : d.get "execution_id" = .ok (.one (.str id)))
    {path : Text} (hcwd : cwd.head? = some '/') (hpath : path = cwd ++ "/output/".toList ++ strNat (n + 1) ++ '-' :: id) (hfree : ∀ x ∈ D.dirs, ¬ path <+: x)
    {entropy : Int} (hent : 0 ≤ entropy) {order : List (Nat × Kw × List (String × Atom)) → List (Nat × Kw × List (String × Atom))} (hord : ∀ l, (order l).Perm l)
    {P : Int → Nat → List (String × Atom) → RunEnding F → Prop}
    (hrun : ∀ m : Int, d.get "max_iterations" = .ok (.one (.int m)) → 1 ≤ m → ∀ seed, 0 ≤ seed → path.head? = some '/' → RunsEnd d num str cwd draws solver t m (P m) path seed) :
    ∃ m : Int, d.get "max_iterations" = .ok (.one (.int m)) ∧ 1 ≤ m ∧ ∃ D' es dirs, batchExecuteIn num R str cwd D ws entropy order draws solver t (m.toNat + 1) = (D', .ran es) ∧
      (es.map Prod.fst).Perm (List.range (batchCombos d).length) ∧ (∀ x ∈ es, ∃ c, (batchCombos d)[x.1]? = some c ∧ P m x.1 c x.2) ∧
      D'.seq = some (strNat (n + 1)) ∧ D'.dirs = dirs.reverse ++ path :: D.dirs ∧ List.Forall₂ (fun e dir => ∃ name, dir = path ++ '/' :: strNat (e.1 + 1) ++ '-' :: name) es dirs := by
  obtain ⟨m, hm, hm1⟩ : ∃ m : Int, d.get "max_iterations" = .ok (.one (.int m)) ∧ 1 ≤ m := by
    obtain ⟨h3, h4⟩ := optOf_mem (table := batchTable) (name := "max_iterations") rfl
    obtain ⟨v, h5, h6⟩ := value_of_option C120_batch h h3
    rw [h4] at h5
    rcases h6 with rfl | ⟨ts, -, ⟨-, -, rfl⟩ | ⟨-, t, b, -, hb, rfl⟩ | ⟨h6, -⟩⟩
    · exact ⟨_, h5, by decide⟩
    · obtain ⟨q, q1, -⟩ := hs.maxIter _ h5 .none (by simp [atoms])
      cases q1
    · obtain ⟨i, rfl⟩ := means_int rfl hb
      obtain ⟨q, q1, q2⟩ := hs.maxIter _ h5 (.int i) (by simp [atoms])
      cases q1
      exact ⟨i, h5, by exact_mod_cast q2⟩
    · exact absurd rfl h6
  have hjoin : joinPath (joinPath cwd "output".toList) (strNat (n + 1) ++ '-' :: id) = path := by
    rw [hpath]
    have h6 := strNat_ne_nil (n + 1)
    have h7 := strNat_digits (n + 1)
    cases hx : strNat (n + 1) with
    | nil => exact absurd hx h6
    | cons x xs =>
      rw [hx] at h7
      have hx' : x ≠ '/' := by
        rintro rfl
        have := h7 '/' (by simp)
        revert this; decide
      have h8 : joinPath cwd "output".toList = cwd ++ "/output".toList := rfl
      rw [h8]
      simp only [List.cons_append, joinPath, if_neg hx']
      simp
  have hhead : path.head? = some '/' := by
    cases cwd with
    | nil => cases hcwd
    | cons x xs => rw [hpath]; exact hcwd
  obtain ⟨kws, seed, k1, k2, k3, k4⟩ := kw_of h str path entropy
  have hseed : 0 ≤ seed := by
    rcases k3 with k3 | ⟨k3, -⟩
    · exact hs.seed _ k3
    · rw [k3]; exact hent
  have hself : path ∉ D.dirs := fun hp => hfree _ hp (List.prefix_refl _)
  have hitems : ∀ x ∈ (kws.zip (batchCombos d)).mapIdx (fun i x => (i, x)), kws[x.1]? = some x.2.1 ∧ (batchCombos d)[x.1]? = some x.2.2 := by
    intro x hx
    obtain ⟨i, hi, rfl⟩ := List.mem_mapIdx.1 hx
    rw [List.length_zip] at hi
    simp only [List.getElem_zip]
    exact ⟨List.getElem?_eq_getElem (by omega), List.getElem?_eq_getElem (by omega)⟩
  have hnum : ((kws.zip (batchCombos d)).mapIdx (fun i x => (i, x))).map Prod.fst = List.range (batchCombos d).length := by
    refine List.ext_getElem ?_ ?_
    · simp [k2]
    · intro i h1 h2
      simp
  have hperm := hord ((kws.zip (batchCombos d)).mapIdx (fun i x => (i, x)))
  obtain ⟨D', es, dirs, r1, r2, r3, r4, r5⟩ := runs_end (hrun m hm hm1 seed hseed hhead) (order ((kws.zip (batchCombos d)).mapIdx (fun i x => (i, x))))
    { D with seq := some (strNat (n + 1)), dirs := path :: D.dirs } (by
      intro x hx
      obtain ⟨h1, h2⟩ := hitems x (hperm.mem_iff.1 hx)
      exact ⟨h2, (k4 _ _ _ h1 h2).1⟩) (by
      rw [(hperm.map Prod.fst).nodup_iff, hnum]
      exact List.nodup_range) (by
      intro x _ id' hmem
      rcases List.mem_cons.1 hmem with hmem | hmem
      · have := congrArg List.length hmem
        simp at this
      · exact hfree _ hmem (List.prefix_append _ _))
  refine ⟨m, hm, hm1, D', es, dirs, ?_, ?_, ?_, r2, r3, ?_⟩
  · unfold batchExecuteIn
    rw [h]
    simp only [hn, hid, hjoin, mkdir, if_neg hself, k1, hm, r1]
  · have h1 : es.map Prod.fst = (order ((kws.zip (batchCombos d)).mapIdx (fun i x => (i, x)))).map Prod.fst := by
      clear r1 r5
      generalize order ((kws.zip (batchCombos d)).mapIdx (fun i x => (i, x))) = xs at r4
      induction r4 with
      | nil => rfl
      | cons h1 _ ih => rw [List.map_cons, List.map_cons, ih, h1.1]
    rw [h1, ← hnum]
    exact hperm.map Prod.fst
  · intro e he
    obtain ⟨x, hx, h1, h2⟩ : ∃ x ∈ order ((kws.zip (batchCombos d)).mapIdx (fun i x => (i, x))), e.1 = x.1 ∧ P m x.1 x.2.2 e.2 := by
      obtain ⟨i, hi, rfl⟩ := List.getElem_of_mem he
      have hi' := r4.length_eq.trans_ge hi
      exact ⟨_, List.getElem_mem hi', r4.get hi' hi⟩
    rw [h1]
    exact ⟨_, (hitems x (hperm.mem_iff.1 hx)).2, h2⟩
  · refine r5.imp (fun e dir => ?_)
    rintro ⟨name, rfl⟩
    exact ⟨name, by simp⟩

end anyNumbers

/-- what the batch runner has of a value: integers and texts as they are, of other values only how they are printed matters to it -/
def ShownAs (str : Value → Text) : Atom → Val → Prop
  | .int i, v => v = .int i
  | .str t, v => v = .text t
  | a, v => v = .other (str (.one a))

/-- C122.  The runs of a batch are the choices of one value for each of the 15 options: there is exactly one run for each choice (if no option lists a value twice), and the keyword arguments of
the run with number `i` are the values of the choice with number `i`, the number `i + 1`, the directory of the batch, and the seed of the command line - or else the one drawn -, which is the same for all runs. -/
theorem C122_runs (h : parse R batchTable ws = .ok d) (str : Value → Text) (path : Text) (entropy : Int) :
    (∀ c, c ∈ batchCombos d ↔ Choice d c) ∧ ((∀ p v, d.get p = .ok v → (atoms v).Nodup) → (batchCombos d).Nodup) ∧
    ∃ kws seed, batchStart R str path ws entropy = .ok kws ∧ kws.length = (batchCombos d).length ∧
      (d.get "seed" = .ok (.one (.int seed)) ∨ (seed = entropy ∧ d.get "seed" = .ok (.one .none))) ∧
      ∀ (i : Nat) kw c, kws[i]? = some kw → (batchCombos d)[i]? = some c →
        kw.get? "seed".toList = some (.int seed) ∧ kw.get? "seq_id".toList = some (.int (i + 1)) ∧ kw.get? "parent_dir".toList = some (.other path) ∧
        ∀ p a, (p, a) ∈ c → ∃ v, kw.get? p.toList = some v ∧ ShownAs str a v := by
  refine ⟨choice_iff h, ?_, ?_⟩
  · intro hv
    obtain ⟨f, h1, h2⟩ := batch_dict h
    rw [combos_eq h1]
    refine nodup_cartesian _ (fun l hl => ?_)
    obtain ⟨p, hp, rfl⟩ := List.mem_map.1 hl
    exact (hv p _ (h2 p (options_dests hp))).map (fun a b hab => by simpa using hab)
  · obtain ⟨kws, seed, h1, h2, h4, h3⟩ := kw_of h str path entropy
    refine ⟨kws, seed, h1, h2, h4, fun i kw c hk hc => ?_⟩
    obtain ⟨⟨id, -, -, h5⟩, h6⟩ := h3 i kw c hk hc
    exact ⟨h5.seed, h5.seq, h5.parent, fun p a hp => ⟨_, h6 p a hp, by cases a <;> rfl⟩⟩

/-- C122.  batch-run.py runs to its end: if the values of its options are within the ranges that simulations need, and the directory of the batch is new, then every run of the batch starts, in a directory
of its own inside that of the batch, is a simulation with the values chosen for it and the defaults for everything else, and completes within `max_iterations` rounds; it contributes exactly one row to the
results and to the file of aggregate results, the metrics before its last round.  The order in which the runs are made does not matter. -/
theorem C122_completes (h : parse R batchTable ws = .ok d) (hs : Suited d) {D : Disk PyFloat} {n : Nat} (hn : readSeqId D.seq = .ok n) {id : Text} (hid : d.get "execution_id" = .ok (.one (.str id)))
    {cwd path : Text} (hcwd : cwd.head? = some '/') (hpath : path = cwd ++ "/output/".toList ++ strNat (n + 1) ++ '-' :: id) (hfree : ∀ x ∈ D.dirs, ¬ path <+: x) {str : Value → Text}
    (hstr : ∀ n : Nat, str (.one (.int n)) = strNat n) {entropy : Int} (hent : 0 ≤ entropy) {order : List (Nat × Kw × List (String × Atom)) → List (Nat × Kw × List (String × Atom))}
    (hord : ∀ l, (order l).Perm l) {draws : Nat → Draws ℚ} (hd : ∀ i, RunDraws d (draws i)) {t : Nat → Turns} (ht : ∀ i, TurnsOK (t i)) (solver : State ℚ → ℚ) (rnd rnd4 : ℚ → ℚ) :
    ∃ m : Int, d.get "max_iterations" = .ok (.one (.int m)) ∧ 1 ≤ m ∧ ∃ D' es dirs, batchExecute R str cwd D ws entropy order draws solver t (m.toNat + 1) = (D', .ran es) ∧
      (es.map Prod.fst).Perm (List.range (batchCombos d).length) ∧
      (∀ x ∈ es, ∃ c, (batchCombos d)[x.1]? = some c ∧ EndsWell (draws x.1) solver (t x.1) rnd rnd4 m c x.2) ∧
      D'.seq = some (strNat (n + 1)) ∧ D'.dirs = dirs.reverse ++ path :: D.dirs ∧ List.Forall₂ (fun e dir => ∃ name, dir = path ++ '/' :: strNat (e.1 + 1) ++ '-' :: name) es dirs := by
  exact batch_ends h hs hn hid hcwd hpath hfree hent hord (P := fun m i c e => EndsWell (draws i) solver (t i) rnd rnd4 m c e)
    (fun m hm _ seed hseed hhead i kw c name D' hc id1 id2 hkw hf =>
      run_ends h hs ((choice_iff h _).1 (List.mem_of_getElem? hc)) hhead hseed ⟨id1, id2⟩ hkw (hd i) (ht i) solver rnd rnd4 hstr hf hm)

/-! ### A directory that exists -/

/-- C122.  If the directory that the batch would have exists already, batch-run.py raises an exception: no simulation is run and no directory is created, but the number in sequence.dat has been used up. -/
theorem C122_taken (h : parse R batchTable ws = .ok d) {D : Disk PyFloat} {n : Nat} (hn : readSeqId D.seq = .ok n) {id : Text} (hid : d.get "execution_id" = .ok (.one (.str id)))
    {cwd : Text} (htaken : cwd ++ "/output/".toList ++ strNat (n + 1) ++ '-' :: id ∈ D.dirs) (str : Value → Text) (entropy : Int)
    (order : List (Nat × Kw × List (String × Atom)) → List (Nat × Kw × List (String × Atom))) (draws : Nat → Draws ℚ) (solver : State ℚ → ℚ) (t : Nat → Turns) (fuel : Nat) :
    batchExecute R str cwd D ws entropy order draws solver t fuel = ({ D with seq := some (strNat (n + 1)) }, .notStarted .exists) := by
  have hjoin : joinPath (joinPath cwd "output".toList) (strNat (n + 1) ++ '-' :: id) = cwd ++ "/output/".toList ++ strNat (n + 1) ++ '-' :: id := by
    have h6 := strNat_ne_nil (n + 1)
    have h7 := strNat_digits (n + 1)
    cases hx : strNat (n + 1) with
    | nil => exact absurd hx h6
    | cons x xs =>
      rw [hx] at h7
      have hx' : x ≠ '/' := by
        rintro rfl
        have := h7 '/' (by simp)
        revert this; decide
      have h8 : joinPath cwd "output".toList = cwd ++ "/output".toList := rfl
      rw [h8]
      simp only [List.cons_append, joinPath, if_neg hx']
      simp
  unfold batchExecute batchExecuteIn
  simp only [h, hn, hid, hjoin, mkdir, if_pos htaken]

/-! ### What is not checked -/

/-- C122.  batch-run.py accepts a negative seed, with which no run of the batch gets anywhere (main.py rejects it, C120). -/
theorem C122_seed (h : parse R batchTable ws = .ok d) {i : Int} (hi : d.get "seed" = .ok (.one (.int i))) (hneg : i < 0) {D D' : Disk PyFloat} {cwd : Text} {str : Value → Text} {entropy : Int}
    {order : List (Nat × Kw × List (String × Atom)) → List (Nat × Kw × List (String × Atom))} (hord : ∀ l, (order l).Perm l) {draws : Nat → Draws ℚ} {t : Nat → Turns} {solver : State ℚ → ℚ}
    {fuel : Nat} {es : List (Nat × RunEnding ℚ)} (he : batchExecute R str cwd D ws entropy order draws solver t fuel = (D', .ran es)) : ∀ x ∈ es, ∀ r, x.2 ≠ .ran (.ok r) := by
  have hone : ∀ (D : Disk PyFloat) (kw : Kw) (c : List (String × Atom)) (m : Int) (j : Nat) path id, Choice d c → KwOf path j i id kw →
      ∀ r, (runOne (fun a => a) str cwd D kw c m (draws j) solver (t j) fuel).2 ≠ .ran (.ok r) := by
    intro D kw c m j path id hc hkw r
    unfold runOne
    cases hst : start str cwd D (.call (runGiven kw c)) 0 with
    | mk D₁ res =>
      cases res with
      | error e => simp
      | ok st =>
        obtain ⟨_, _, -, -, -, -, h5, -, -⟩ := start_ok (Or.inl ⟨_, rfl, rfl⟩) hst
        rw [effective_ne _ (by decide) (by decide), runGiven_other hc.1 (by decide), if_pos (by decide), show "seed".toList = seedName from rfl, hkw.seed] at h5
        have hnp : ∀ src, numpyAccepts st src = false := by
          intro src
          unfold numpyAccepts
          rw [h5]
          simp only [atomOf, seedOf, decide_eq_false (not_le.2 hneg), Bool.false_and]
        simp only
        split
        · simp
        · simp [hnp, bind, Except.bind, throw, throwThe, MonadExceptOf.throw]
  have hall : ∀ (items : List (Nat × Kw × List (String × Atom))) (D : Disk PyFloat) (m : Int), (∀ x ∈ items, Choice d x.2.2 ∧ ∃ path id, KwOf path x.1 i id x.2.1) →
      ∀ x ∈ (runAll (fun a => a) str cwd m draws solver t fuel D items).2, ∀ r, x.2 ≠ .ran (.ok r) := by
    intro items
    induction items with
    | nil => intro D m _ x hx; cases hx
    | cons y items ih =>
      obtain ⟨j, kw, c⟩ := y
      intro D m hy x hx
      simp only [runAll] at hx
      rcases List.mem_cons.1 hx with rfl | hx
      · obtain ⟨h1, path, id, h2⟩ := hy _ List.mem_cons_self
        exact hone D kw c m j path id h1 h2
      · exact ih _ m (fun x hx => hy x (List.mem_cons_of_mem _ hx)) x hx
  unfold batchExecute batchExecuteIn at he
  rw [h] at he
  simp only at he
  split at he
  · cases he
  split at he
  swap
  · cases he
  split at he
  · cases he
  split at he
  swap
  · cases he
  rename_i kws m hk hm
  simp only [Prod.mk.injEq, BatchEnding.ran.injEq] at he
  obtain ⟨-, rfl⟩ := he
  refine hall _ _ m ?_
  intro x hx
  obtain ⟨kws', seed, k1, k2, k3, k4⟩ := kw_of h str _ entropy
  rw [hk] at k1
  cases k1
  have hsd : seed = i := by
    rcases k3 with k3 | ⟨-, k3⟩ <;> rw [hi] at k3
    · simpa using k3.symm
    · cases k3
  subst hsd
  obtain ⟨j, hj, rfl⟩ := List.mem_mapIdx.1 ((hord _).mem_iff.1 hx)
  rw [List.length_zip] at hj
  simp only [List.getElem_zip]
  have hc : (batchCombos d)[j]? = some (batchCombos d)[j] := List.getElem?_eq_getElem (by omega)
  obtain ⟨id, -, -, h2⟩ := (k4 j _ _ (List.getElem?_eq_getElem (by omega)) hc).1
  exact ⟨(choice_iff h _).1 (List.mem_of_getElem? hc), _, id, h2⟩

/-! ### Without options; examples -/

/-- `Every`, checked one by one -/
def every? (d : ArgDict PyFloat) (p : String) (P : ℚ → Bool) : Bool :=
  match d.get p with
  | .ok v => (atoms v).all (fun a => match number a with
    | some q => P q
    | none => false)
  | .error _ => true

theorem every_of {p : String} {P : ℚ → Bool} (h : every? d p P = true) : Every d p (fun q => P q = true) := by
  intro v hv a ha
  unfold every? at h
  rw [hv] at h
  have h1 := List.all_eq_true.1 h a ha
  split at h1
  · rename_i q hq; exact ⟨q, number_iff.1 hq, h1⟩
  · cases h1

theorem Every.mono {p : String} {P Q : ℚ → Prop} (h : Every d p P) (hpq : ∀ q, P q → Q q) : Every d p Q := by
  intro v hv a ha
  obtain ⟨q, h1, h2⟩ := h v hv a ha
  exact ⟨q, h1, hpq q h2⟩

theorem every_decide {p : String} {P : ℚ → Prop} [DecidablePred P] (h : every? d p (fun q => decide (P q)) = true) : Every d p P :=
  Every.mono (every_of h) (fun _ hq => of_decide_eq_true hq)

/-- the options of batch-run.py without any settings -/
def noBatchOptions : ArgDict PyFloat := batchTable.map (fun e => (e.dest, e.initial))

theorem noBatchOptions_suited : Suited noBatchOptions where
  n := every_decide (by decide +kernel)
  k := every_decide (by decide +kernel)
  a0 := every_decide (by decide +kernel)
  relThr := every_decide (by decide +kernel)
  absThr := every_decide (by decide +kernel)
  maxIter := every_decide (by decide +kernel)
  extraFrac := every_decide (by decide +kernel)
  scheme := every_decide (by decide +kernel)
  inactive := every_decide (by decide +kernel)
  costMin := every_decide (by decide +kernel)
  costs := Every.mono (P := fun q => q = (B64.of (1 / 10000)).1) (every_decide (by decide +kernel)) (fun q hq => by subst hq; exact every_decide (by decide +kernel))
  pareto := every_decide (by decide +kernel)
  seed i hi := by
    have : noBatchOptions.get "seed" = .ok (.one .none) := by decide +kernel
    rw [this] at hi; cases hi
  source := ⟨"Pareto".toList, by decide +kernel, by decide +kernel⟩
  disparity t ht h := by
    have : noBatchOptions.get "stake_distr_source" = .ok (.one (.str "Pareto".toList)) := by decide +kernel
    rw [this] at ht
    cases ht
    exact absurd h (by decide +kernel)

/-- C122.  `python batch-run.py` without options makes three runs with 1000 agents, for k = 100, 200 and 300 (in this order of their numbers); all of them complete within 2000 rounds. -/
theorem C122_default {D : Disk PyFloat} {n : Nat} (hn : readSeqId D.seq = .ok n) {cwd path : Text} (hcwd : cwd.head? = some '/')
    (hpath : path = cwd ++ "/output/".toList ++ strNat (n + 1) ++ "-batch-run".toList) (hfree : ∀ x ∈ D.dirs, ¬ path <+: x) {str : Value → Text}
    (hstr : ∀ n : Nat, str (.one (.int n)) = strNat n) {entropy : Int} (hent : 0 ≤ entropy) {order : List (Nat × Kw × List (String × Atom)) → List (Nat × Kw × List (String × Atom))}
    (hord : ∀ l, (order l).Perm l) {draws : Nat → Draws ℚ} (h1 : ∀ j i, 0 ≤ (draws j).pareto i) (h2 : ∀ j i, 0 ≤ (draws j).cost i ∧ (draws j).cost i < 1)
    (h3 : ∀ j i, 0 ≤ (draws j).profile i ∧ (draws j).profile i < 1) {t : Nat → Turns} (ht : ∀ i, TurnsOK (t i)) (solver : State ℚ → ℚ) (rnd rnd4 : ℚ → ℚ) :
    ∃ D' es, batchExecute R str cwd D [] entropy order draws solver t 2001 = (D', .ran es) ∧ (es.map Prod.fst).Perm [0, 1, 2] ∧
      ∀ x ∈ es, ∃ a b l row, construct a (draws x.1) = .ok b ∧ a.n = .one 1000 ∧ a.k = .one (100 * (x.1 + 1)) ∧ Completed b rnd rnd4 2000 l ∧
        x.2 = .ran (.ok (l, [((l.steps : Int) - 1, row)], [row])) := by
  have hp : parse R batchTable [] = .ok noBatchOptions := parse_nothing C120_batch
  have hd : ∀ j, RunDraws noBatchOptions (draws j) := fun j => ⟨h1 j, h2 j, h3 j, fun t ht h => by
    have : noBatchOptions.get "stake_distr_source" = .ok (.one (.str "Pareto".toList)) := by decide +kernel
    rw [this] at ht
    cases ht
    exact absurd h (by decide +kernel)⟩
  obtain ⟨m, q1, -, D', es, dirs, q2, q3, q4, -⟩ := C122_completes (R := R) hp noBatchOptions_suited hn (id := "batch-run".toList) (by decide +kernel) hcwd (path := path) (by rw [hpath]; rfl) hfree hstr
    hent hord hd ht solver rnd rnd4
  have hm : noBatchOptions.get "max_iterations" = .ok (.one (.int 2000)) := by decide +kernel
  rw [hm] at q1
  cases q1
  have hlen : (batchCombos noBatchOptions).length = 3 := by decide +kernel
  rw [hlen] at q3
  refine ⟨D', es, q2, q3, ?_⟩
  intro x hx
  obtain ⟨c, c1, a, N, b, l, row, t1, t2, t3, t4, t5, t6, t7, t8, t9⟩ := q4 x hx
  have hc := (choice_iff hp c).1 (List.mem_of_getElem? c1)
  have hx3 : x.1 ∈ [0, 1, 2] := q3.mem_iff.1 (List.mem_map_of_mem hx)
  have hcn : ("n", .int 1000) ∈ c ∧ ("k", .int (100 * (x.1 + 1))) ∈ c := by
    have key : ∀ i : Nat, i ∈ [0, 1, 2] → ∀ c, (batchCombos noBatchOptions)[i]? = some c → ("n", Scalar.int 1000) ∈ c ∧ ("k", Scalar.int (100 * ((i : Int) + 1))) ∈ c := by
      have : ∀ i : Nat, i ∈ [0, 1, 2] → ((batchCombos noBatchOptions)[i]?.map (fun c => decide (("n", Scalar.int 1000) ∈ c ∧ ("k", Scalar.int (100 * ((i : Int) + 1))) ∈ c))) = some true := by decide +kernel
      intro i hi c hc
      have h4 := this i hi
      rw [hc] at h4
      simpa using h4
    exact key x.1 hx3 c c1
  refine ⟨a, b, l, row, t3, ?_, ?_, t6, t9⟩
  · obtain ⟨y, y1, z, z1, z2⟩ := t1.n
    rw [y1]
    have := pick_unique hc.1 z1 hcn.1
    subst this
    have := denotes_unique z2 (.int _)
    congr 1
    exact_mod_cast this
  · obtain ⟨y, y1, z, z1, z2⟩ := t1.k
    rw [y1]
    have := pick_unique hc.1 z1 hcn.2
    subst this
    have := denotes_unique z2 (.int _)
    congr 1
    exact_mod_cast this

/-- `--n 50 60 --k 10 --a0 0.5 0.25 --stake_distr_source Disparity --seed 7` -/
def fourRuns : List Text := ["--n", "50", "60", "--k", "10", "--a0", "0.5", "0.25", "--stake_distr_source", "Disparity", "--seed", "7"].map String.toList

def fourRunsOptions : ArgDict PyFloat := batchTable.map (fun e => (e.dest,
  if e.dest = "n" then .list (ints [50, 60]) else if e.dest = "k" then .list (ints [10]) else if e.dest = "a0" then .list [.float (.fin (1 / 2)), .float (.fin (1 / 4))]
  else if e.dest = "stake_distr_source" then .one (.str "Disparity".toList) else if e.dest = "seed" then .one (.int 7) else e.initial))

example : parse plainReader batchTable fourRuns = .ok fourRunsOptions ∧ (batchCombos fourRunsOptions).length = 4 ∧ Suited fourRunsOptions :=
  ⟨by decide +kernel, by decide +kernel,
    { n := every_decide (by decide +kernel), k := every_decide (by decide +kernel), a0 := every_decide (by decide +kernel), relThr := every_decide (by decide +kernel),
      absThr := every_decide (by decide +kernel), maxIter := every_decide (by decide +kernel), extraFrac := every_decide (by decide +kernel), scheme := every_decide (by decide +kernel),
      inactive := every_decide (by decide +kernel), costMin := every_decide (by decide +kernel)
      costs := Every.mono (P := fun q => q = (B64.of (1 / 10000)).1) (every_decide (by decide +kernel)) (fun q hq => by subst hq; exact every_decide (by decide +kernel))
      pareto := every_decide (by decide +kernel)
      seed := fun i hi => by
        have : fourRunsOptions.get "seed" = .ok (.one (.int 7)) := by decide +kernel
        rw [this] at hi; cases hi; decide
      source := ⟨"Disparity".toList, by decide +kernel, by decide +kernel⟩
      disparity := fun _ _ _ => every_decide (by decide +kernel) }⟩

/-- `--seed -5` is accepted -/
example : parse plainReader batchTable (["--seed", "-5"].map String.toList) = .ok (batchTable.map (fun e => (e.dest, if e.dest = "seed" then .one (.int (-5)) else e.initial))) := by decide +kernel

/-- an empty file system, random numbers, and an order of the agents as C122 wants them -/
example : readSeqId newDisk.seq = .ok 0 ∧ (∀ x ∈ newDisk.dirs, ¬ "/home/output/1-batch-run".toList <+: x) ∧ RunDraws fourRunsOptions cliDraws ∧ TurnsOK cliTurns := by
  refine ⟨rfl, by simp [newDisk], ⟨cli_accepted.pareto, cli_accepted.cost, cli_accepted.profile, ?_⟩, cliTurns_ok⟩
  intro t ht h
  have : fourRunsOptions.get "stake_distr_source" = .ok (.one (.str "Disparity".toList)) := by decide +kernel
  rw [this] at ht
  cases ht
  exact absurd h (by decide +kernel)

/-- after a batch with its default name: sequence.dat is lost, so that numbers start again -/
example : readSeqId ({ newDisk with dirs := ["/home/output/1-batch-run".toList] } : Disk PyFloat).seq = .ok 0 ∧
    "/home".toList ++ "/output/".toList ++ strNat (0 + 1) ++ '-' :: "batch-run".toList ∈ ({ newDisk with dirs := ["/home/output/1-batch-run".toList] } : Disk PyFloat).dirs ∧
    noBatchOptions.get "execution_id" = .ok (.one (.str "batch-run".toList)) := by decide +kernel

end RSE.Props
