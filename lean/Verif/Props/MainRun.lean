import Verif.Spec.MainRun
import Verif.Props.CommandLine
import Verif.Props.Rejects

/-!
# C121: main.py from the command line to the end of the run

Proved: if a command line is accepted, then the values of its options are the arguments of the constructor, within the ranges that the constructor needs (but for five exceptions); with conditions that
can be read off the command line, the execution runs to its end.
-/

set_option linter.unusedSectionVars false

namespace RSE.Props

open Cmd

variable {R : Reader}

/-! ### Numbers -/

theorem number_iff {a : Atom} {q : ℚ} : number a = some q ↔ Denotes a q := by
  constructor
  · intro h
    unfold number at h
    split at h
    · cases h; exact .int _
    · cases h; exact .float _
    · cases h
  · rintro (⟨i⟩ | ⟨q⟩) <;> rfl

theorem denotes_unique {a : Atom} {q q' : ℚ} (h : Denotes a q) (h' : Denotes a q') : q = q' := by
  have := number_iff.2 h
  rw [number_iff.2 h'] at this
  exact (Option.some.inj this).symm

theorem denotes_all_unique : ∀ {as : List Atom} {l l' : List ℚ}, List.Forall₂ Denotes as l → List.Forall₂ Denotes as l' → l = l'
  | _, _, _, .nil, .nil => rfl
  | _, _, _, .cons h t, .cons h' t' => by rw [denotes_unique h h', denotes_all_unique t t']

theorem numbers_unique {d : ArgDict PyFloat} {p : String} {l l' : List ℚ} (h : Numbers d p l) (h' : Numbers d p l') : l = l' := by
  rcases h with ⟨a, q, h1, h2, rfl⟩ | ⟨as, h1, h2⟩ <;> rcases h' with ⟨a', q', h1', h2', rfl⟩ | ⟨as', h1', h2'⟩ <;> rw [h1] at h1' <;> cases h1'
  · rw [denotes_unique h2 h2']
  · exact denotes_all_unique h2 h2'

theorem mapM_some_all {α β : Type} {f : α → Option β} {Q : α → β → Prop} : ∀ {l : List α}, (∀ a ∈ l, ∃ x, f a = some x ∧ Q a x) → ∃ m, l.mapM f = some m ∧ List.Forall₂ Q l m
  | [], _ => ⟨[], rfl, .nil⟩
  | a :: l, h => by
    obtain ⟨x, h1, h2⟩ := h a (by simp)
    obtain ⟨m, h3, h4⟩ := mapM_some_all (l := l) (fun b hb => h b (by simp [hb]))
    exact ⟨x :: m, by rw [List.mapM_cons, h1, Option.bind_eq_bind, Option.bind_some, h3]; rfl, .cons h2 h4⟩

theorem forall₂_map_right {α β γ : Type} {P : α → γ → Prop} (g : β → γ) {l : List α} {m : List β} (h : List.Forall₂ (fun a x => P a (g x)) l m) : List.Forall₂ P l (m.map g) := by
  induction h with
  | nil => exact .nil
  | cons h _ ih => exact .cons h ih

/-! ### The options of an accepted command line -/

/-- no `None`, and no infinite number -/
def Proper (a : Atom) : Prop := a ≠ .none ∧ ∀ x, a = .float x → ∃ q, x = .fin q

/-- the atom is an admissible value and denotes the number -/
def Fits {α : Type} (f : Atom → Option α) (P : α → Prop) (g : α → ℚ) (a : Atom) : Prop := ∃ x, f a = some x ∧ P x ∧ Denotes a (g x)

theorem fits_nonNegative {a : Atom} (h : NonNegative a) (hp : Proper a) : Fits number (0 ≤ ·) _root_.id a := by
  obtain ⟨x, hx, rfl⟩ := h
  obtain ⟨q, rfl⟩ := hp.2 x rfl
  exact ⟨q, rfl, by simpa [PyFloat.lt] using hx, .float q⟩

theorem fits_intFrom {a : Atom} {m : Nat} (h : IntFrom m a) : Fits natural (m ≤ ·) (fun x => (x : ℚ)) a := by
  obtain ⟨i, hi, rfl⟩ := h
  have h0 : 0 ≤ i := by omega
  refine ⟨i.toNat, by simp [natural, h0], by omega, ?_⟩
  have : ((i.toNat : Nat) : ℚ) = (i : ℚ) := by exact_mod_cast Int.toNat_of_nonneg h0
  change Denotes _ ((i.toNat : Nat) : ℚ)
  rw [this]
  exact .int i

variable {d : ArgDict PyFloat} {p : String} {α : Type} {f : Atom → Option α} {P : α → Prop} {g : α → ℚ}

theorem optional_fits (hu : Usable d) (hp : p ∈ essential) {c : Atom} {Q : Atom → Prop} (h : ∃ v, d.get p = .ok v ∧ Optional v (.one c) Q) (hc : Fits f P g c)
    (hQ : ∀ a, Q a → Proper a → Fits f P g a) : ∃ x, argument d p (onlyOne f) = some x ∧ argument d p (perPhase f) = some (.one x) ∧ P x ∧ Numbers d p [g x] := by
  obtain ⟨v, h1, h2⟩ := h
  have key : ∃ a, v = .one a ∧ Fits f P g a := by
    rcases h2 with rfl | rfl | ⟨a, rfl, h2⟩
    · exact ⟨c, rfl, hc⟩
    · exact absurd rfl (hu p hp _ h1 .none (by simp [atoms])).1
    · exact ⟨a, rfl, hQ a h2 (hu p hp _ h1 a (by simp [atoms]))⟩
  obtain ⟨a, rfl, x, h3, h4, h5⟩ := key
  exact ⟨x, by simp [argument, h1, onlyOne, h3], by simp [argument, h1, perPhase, h3], h4, .inl ⟨a, _, h1, h5, rfl⟩⟩

theorem several_fits (hu : Usable d) (hp : p ∈ essential) {c : Atom} {Q : Atom → Prop} (h : ∃ v, d.get p = .ok v ∧ Several v (.one c) Q) (hc : Fits f P g c)
    (hQ : ∀ a, Q a → Proper a → Fits f P g a) : ∃ m : Multi α, argument d p (perPhase f) = some m ∧ m.All P ∧ Numbers d p (m.values.map g) := by
  obtain ⟨v, h1, rfl | ⟨l, hne, rfl, h2⟩⟩ := h
  · obtain ⟨x, h3, h4, h5⟩ := hc
    exact ⟨.one x, by simp [argument, h1, perPhase, h3], h4, .inl ⟨c, _, h1, h5, rfl⟩⟩
  · obtain ⟨m, h3, h4⟩ := mapM_some_all (f := f) (Q := fun a x => P x ∧ Denotes a (g x)) (fun a ha => hQ a (h2 a ha) (hu p hp _ h1 a ha))
    refine ⟨.many m, by simp [argument, h1, perPhase, h3], ⟨?_, forall₂_right h4 (fun _ _ h => h.1)⟩, .inr ⟨l, h1, ?_⟩⟩
    · rintro rfl
      cases h4
      exact hne rfl
    · exact forall₂_map_right g (h4.imp (fun _ _ h => h.2))

theorem fits_of_number {c : Atom} {q : ℚ} (h : number c = some q) (h0 : 0 ≤ q) : Fits number (0 ≤ ·) _root_.id c := ⟨q, h, h0, number_iff.1 h⟩

/-- The arguments are within the ranges that the command line imposes. -/
structure Within (a : Args ℚ) (N : Nat) : Prop where
  n : a.n = .one N
  n_pos : 1 ≤ N
  k : a.k.All (fun k => 1 ≤ k)
  a0 : a.a0.All (fun x => 0 ≤ x)
  relThr : ∃ x, a.relThr = .one x ∧ 0 ≤ x
  absThr : ∃ x, a.absThr = .one x ∧ 0 ≤ x
  maxIter : ∃ m, a.maxIter = .one m ∧ 1 ≤ m
  extraFrac : ∃ x, a.extraFrac = .one x ∧ 0 ≤ x
  order : ∃ o, a.order = .one o
  scheme : a.scheme ≤ 4
  weights : ∃ w, a.weights = some w ∧ w.length = 3 ∧ ∀ x ∈ w, 0 ≤ x
  inactive : 0 ≤ a.inactive ∧ a.inactive ≤ 1
  costMin : 0 ≤ a.costMin
  costMax : 0 ≤ a.costMax
  metrics : ∀ l, a.metrics = some l → ∀ i ∈ l, 1 ≤ i ∧ i ≤ 30

/-- the options of an accepted command line are arguments of the constructor -/
theorem recorded {ws : List Text} (h : parse R mainTable ws = .ok d) (hf : d.get "input_from_file" = .ok (.one (.bool false))) {str : Value → Text} {cwd : Text} {D D' : Disk PyFloat}
    {entropy : Int} {r : Started PyFloat} (hr : mainStart R str cwd D ws entropy = .ok (D', .ok r)) :
    (∀ p ∈ parameters, p ≠ "seq_id" → p ≠ "parent_dir" → p ≠ "metrics" → r.args.get p = d.get p) ∧
    (d.get "metrics" = .ok (.one .none) → r.args.get "metrics" = .ok (.list (ints [1, 2, 6, 9, 17, 18, 25]))) ∧
    (d.get "metrics" ≠ .ok (.one .none) → r.args.get "metrics" = d.get "metrics") := by
  rcases C120_main_start h str cwd D entropy with ⟨h1, -⟩ | ⟨-, given, h1, -, -, h4⟩
  · rw [hf] at h1; cases h1
  rw [h1, Except.ok.injEq] at hr
  obtain ⟨-, -, -, ha⟩ := C99_recorded hr
  have hm := h4 "metrics" (by decide) (by decide) (by decide)
  refine ⟨?_, ?_, ?_⟩
  · intro p hp hs hd hm
    rw [ha, get_map _ hp, h4 p hp hs hd]
    by_cases hw : p = "agent_profile_distr"
    · subst hw
      obtain ⟨l, hl, -⟩ := C120_main_profiles h
      have := h4 _ hp hs hd
      rw [hl, Except.ok.injEq] at this
      rw [effective, ← this]
    · rw [effective_ne given hm hw]
  · intro hn
    rw [hn, Except.ok.injEq] at hm
    rw [ha, get_map _ (by decide), effective, ← hm]
    rfl
  · intro hn
    rw [ha, get_map _ (by decide), hm]
    rw [hm] at hn
    unfold effective
    split
    · rename_i h5; rw [h5] at hn; exact absurd rfl hn
    · rfl

theorem argument_congr {d d' : ArgDict PyFloat} {p : String} (h : d.get p = d'.get p) (F : Value → Option α) : argument d p F = argument d' p F := by
  unfold argument
  rw [h]

theorem order_arrives (hu : Usable d) (h : ∃ v, d.get "agent_activation_order" = .ok v ∧
      Optional v (.one (.str "random".toList)) (· ∈ texts ["random", "sequential", "simultaneous", "semisimultaneous"])) :
    ∃ o, argument d "agent_activation_order" (perPhase orderNamed) = some (.one o) ∧ IsText d "agent_activation_order" o.name := by
  obtain ⟨v, h1, h2⟩ := h
  have key : v ∈ (texts ["random", "sequential", "simultaneous", "semisimultaneous"]).map ArgValue.one := by
    rcases h2 with rfl | rfl | ⟨a, rfl, h2⟩
    · simp [texts]
    · exact absurd rfl (hu _ (by decide) _ h1 .none (by simp [atoms])).1
    · exact List.mem_map.2 ⟨a, h2, rfl⟩
  simp only [texts, List.map_cons, List.map_nil, List.mem_cons, List.not_mem_nil, or_false] at key
  unfold argument IsText
  rcases key with rfl | rfl | rfl | rfl <;> rw [h1]
  · exact ⟨.random, rfl, rfl⟩
  · exact ⟨.sequential, rfl, rfl⟩
  · exact ⟨.simultaneous, rfl, rfl⟩
  · exact ⟨.semisimultaneous, rfl, rfl⟩

theorem source_arrives (hu : Usable d) (h : ∃ v, d.get "stake_distr_source" = .ok v ∧ Optional v (.one (.str "pareto".toList)) (· ∈ texts ["pareto", "flat", "disparity", "file"])) :
    ∃ o, argument d "stake_distr_source" (onlyOne sourceNamed) = some o ∧ IsText d "stake_distr_source" o.name := by
  obtain ⟨v, h1, h2⟩ := h
  have key : v ∈ (texts ["pareto", "flat", "disparity", "file"]).map ArgValue.one := by
    rcases h2 with rfl | rfl | ⟨a, rfl, h2⟩
    · simp [texts]
    · exact absurd rfl (hu _ (by decide) _ h1 .none (by simp [atoms])).1
    · exact List.mem_map.2 ⟨a, h2, rfl⟩
  simp only [texts, List.map_cons, List.map_nil, List.mem_cons, List.not_mem_nil, or_false] at key
  unfold argument IsText
  rcases key with rfl | rfl | rfl | rfl <;> rw [h1]
  · exact ⟨.pareto, by decide, rfl⟩
  · exact ⟨.flat, by decide, rfl⟩
  · exact ⟨.disparity, by decide, rfl⟩
  · exact ⟨.file, by decide, rfl⟩

/-- C121.  An accepted command line whose options have usable values: the values of its options are the arguments of the constructor, within these ranges. -/
theorem C121_arguments {ws : List Text} (h : parse R mainTable ws = .ok d) (hf : d.get "input_from_file" = .ok (.one (.bool false))) (hu : Usable d) {str : Value → Text} {cwd : Text}
    {D D' : Disk PyFloat} {entropy : Int} {r : Started PyFloat} (hr : mainStart R str cwd D ws entropy = .ok (D', .ok r)) :
    ∃ a N, argsOf r.args = some a ∧ Arrives d a ∧ Within a N := by
  obtain ⟨hn, hk, ha0, hsch, hcmin, hcmax, hex, habs, hrel⟩ := C120_main_numbers h
  obtain ⟨hord, hsrc, -, hin, hconv, hmax, hmet, -, -⟩ := C120_main_others h
  obtain ⟨w, hw1, hw2⟩ := C120_main_profiles h
  obtain ⟨e1, e2, e3⟩ := recorded h hf hr
  obtain ⟨N, -, n1, n2, n3⟩ := optional_fits hu (by decide) hn (fits_intFrom (m := 1) ⟨1000, by decide, rfl⟩) (fun a ha _ => fits_intFrom ha)
  obtain ⟨k, k1, k2, k3⟩ := several_fits hu (by decide) hk (fits_intFrom (m := 1) ⟨100, by decide, rfl⟩) (fun a ha _ => fits_intFrom ha)
  obtain ⟨a0, a1, a2, a3⟩ := several_fits hu (by decide) ha0 (fits_of_number rfl (by decide +kernel)) (fun a ha hp => fits_nonNegative ha hp)
  obtain ⟨rel, -, r1, r2, r3⟩ := optional_fits hu (by decide) hrel (fits_of_number (q := 0) rfl le_rfl) (fun a ha hp => fits_nonNegative ha hp)
  obtain ⟨ab, -, b1, b2, b3⟩ := optional_fits hu (by decide) habs (fits_of_number rfl (by decide +kernel)) (fun a ha hp => fits_nonNegative ha hp)
  obtain ⟨ex, -, x1, x2, x3⟩ := optional_fits hu (by decide) hex (fits_of_number rfl (by decide +kernel)) (fun a ha hp => fits_nonNegative ha hp)
  obtain ⟨cmin, c1, -, c2, c3⟩ := optional_fits hu (by decide) hcmin (fits_of_number rfl (by decide +kernel)) (fun a ha hp => fits_nonNegative ha hp)
  obtain ⟨cmax, d1, -, d2, d3⟩ := optional_fits hu (by decide) hcmax (fits_of_number rfl (by decide +kernel)) (fun a ha hp => fits_nonNegative ha hp)
  obtain ⟨mi, -, m1, m2, m3⟩ := optional_fits (f := integer) (P := (1 ≤ ·)) (g := fun x => (x : ℚ)) hu (by decide) hmax ⟨2000, rfl, by decide, .int _⟩
    (by rintro a ⟨i, hi, rfl⟩ -; exact ⟨i, rfl, hi, .int i⟩)
  obtain ⟨cv, v1, -, -, v3⟩ := optional_fits (f := integer) (P := fun _ => True) (g := fun x => (x : ℚ)) hu (by decide) hconv ⟨10, rfl, trivial, .int _⟩
    (by rintro a ⟨i, rfl⟩ -; exact ⟨i, rfl, trivial, .int i⟩)
  obtain ⟨sch, s1, -, s2, s3⟩ := optional_fits (f := natural) (P := (· ≤ 4)) (g := fun x => (x : ℚ)) hu (by decide) hsch ⟨0, rfl, by decide, .int _⟩
    (by
      intro a ha _
      simp only [ints, List.map_cons, List.map_nil, List.mem_cons, List.not_mem_nil, or_false] at ha
      rcases ha with rfl | rfl | rfl | rfl | rfl
      exacts [⟨0, rfl, by decide, .int _⟩, ⟨1, rfl, by decide, .int _⟩, ⟨2, rfl, by decide, .int _⟩, ⟨3, rfl, by decide, .int _⟩, ⟨4, rfl, by decide, .int _⟩])
  obtain ⟨ina, i1, -, i2, i3⟩ := optional_fits (f := number) (P := fun x => 0 ≤ x ∧ x ≤ 1) (g := _root_.id) hu (by decide) hin ⟨0, rfl, by norm_num, .int 0⟩
    (by
      rintro a ⟨x, hx1, hx2, rfl⟩ hp
      obtain ⟨q, rfl⟩ := hp.2 x rfl
      exact ⟨q, rfl, by simpa [PyFloat.lt, PyFloat.gt] using And.intro hx1 hx2, .float q⟩)
  obtain ⟨o, o1, o2⟩ := order_arrives hu hord
  obtain ⟨src, u1, u2⟩ := source_arrives hu hsrc
  obtain ⟨kn, hkn⟩ : ∃ b, d.get "inactive_stake_fraction_known" = .ok (.one (.bool b)) := by
    obtain ⟨gs, -, hs, rfl⟩ := (C120_iff C120_main).1 h
    have hmem : Entry.switch "inactive_stake_fraction_known" false ∈ mainTable := by simp [mainTable]
    obtain ⟨c, hc⟩ := finalValue_switch C120_main hs hmem
    have hg := get_namespace C120_main (finalValue gs) hmem
    rw [hc] at hg
    exact ⟨c, hg⟩
  obtain ⟨ws', w1, w2, w3, w4⟩ : ∃ l : List ℚ, argument d "agent_profile_distr" (aList number) = some l ∧ l.length = 3 ∧ (∀ x ∈ l, 0 ≤ x) ∧ Numbers d "agent_profile_distr" l := by
    have hfit : w.length = 3 ∧ ∀ a ∈ w, ∃ x, number a = some x ∧ (0 ≤ x ∧ Denotes a x) := by
      rcases hw2 with rfl | ⟨h1, h2⟩
      · refine ⟨rfl, fun a ha => ?_⟩
        simp only [ints, List.map_cons, List.map_nil, List.mem_cons, List.not_mem_nil, or_false] at ha
        rcases ha with rfl | rfl | rfl
        exacts [⟨1, rfl, by decide, .int _⟩, ⟨0, rfl, by decide, .int _⟩, ⟨0, rfl, by decide, .int _⟩]
      · exact ⟨h1, fun a ha => fits_nonNegative (h2 a ha) (hu _ (by decide) _ hw1 a ha)⟩
    obtain ⟨m, h3, h4⟩ := mapM_some_all hfit.2
    exact ⟨m, by simp [argument, hw1, aList, h3], by rw [← h4.length_eq, hfit.1], forall₂_right h4 (fun _ _ h => h.1), .inr ⟨w, hw1, h4.imp (fun _ _ h => h.2)⟩⟩
  obtain ⟨l, l1, l2, l3⟩ : ∃ l : List Nat, argument r.args "metrics" (aList natural) = some l ∧ (∀ i ∈ l, 1 ≤ i ∧ i ≤ 30) ∧
      (Numbers d "metrics" (l.map (fun x : Nat => (x : ℚ))) ∨ (d.get "metrics" = .ok (.one .none) ∧ l = [1, 2, 6, 9, 17, 18, 25])) := by
    obtain ⟨v, hv1, rfl | ⟨l, hne, rfl, hl⟩⟩ := hmet
    · exact ⟨[1, 2, 6, 9, 17, 18, 25], by rw [argument, e2 hv1]; rfl, by decide, .inr ⟨hv1, rfl⟩⟩
    · have hall : ∀ a ∈ l, ∃ x : Nat, natural a = some x ∧ ((1 ≤ x ∧ x ≤ 30) ∧ Denotes a x) := by
        intro a ha
        obtain ⟨i, h1, h2, rfl⟩ := hl a ha
        obtain ⟨x, hx1, hx2, hx3⟩ := fits_intFrom (m := 1) ⟨i, h1, rfl⟩
        refine ⟨x, hx1, ⟨hx2, ?_⟩, hx3⟩
        simp only [natural, show (0 : Int) ≤ i by omega, if_true, Option.some.injEq] at hx1
        omega
      obtain ⟨m, h3, h4⟩ := mapM_some_all hall
      refine ⟨m, ?_, forall₂_right h4 (fun _ _ h => h.1), .inl (.inr ⟨l, hv1, forall₂_map_right _ (h4.imp (fun _ _ h => h.2))⟩)⟩
      rw [argument, e3 (by rw [hv1]; simp), hv1]
      exact h3
  have e1' : ∀ {β : Type} (p : String) (F : Value → Option β), p ∈ parameters → p ≠ "seq_id" → p ≠ "parent_dir" → p ≠ "metrics" → argument r.args p F = argument d p F :=
    fun p F h1 h2 h3 h4 => argument_congr (e1 p h1 h2 h3 h4) F
  refine ⟨⟨.one N, k, a0, .one rel, .one ab, .one mi, .one ex, .one o, sch, some ws', ina, kn, cmin, cmax, src, some l, cv⟩, N, ?_, ?_, ?_⟩
  · unfold argsOf
    rw [e1' "n" _ (by decide) (by decide) (by decide) (by decide), e1' "k" _ (by decide) (by decide) (by decide) (by decide),
      e1' "a0" _ (by decide) (by decide) (by decide) (by decide), e1' "relative_utility_threshold" _ (by decide) (by decide) (by decide) (by decide),
      e1' "absolute_utility_threshold" _ (by decide) (by decide) (by decide) (by decide), e1' "max_iterations" _ (by decide) (by decide) (by decide) (by decide),
      e1' "extra_pool_cost_fraction" _ (by decide) (by decide) (by decide) (by decide), e1' "agent_activation_order" _ (by decide) (by decide) (by decide) (by decide),
      e1' "reward_scheme" _ (by decide) (by decide) (by decide) (by decide), e1' "agent_profile_distr" _ (by decide) (by decide) (by decide) (by decide),
      e1' "inactive_stake_fraction" _ (by decide) (by decide) (by decide) (by decide), e1' "inactive_stake_fraction_known" _ (by decide) (by decide) (by decide) (by decide),
      e1' "cost_min" _ (by decide) (by decide) (by decide) (by decide), e1' "cost_max" _ (by decide) (by decide) (by decide) (by decide),
      e1' "stake_distr_source" _ (by decide) (by decide) (by decide) (by decide), e1' "iterations_after_convergence" _ (by decide) (by decide) (by decide) (by decide),
      show argument d "inactive_stake_fraction_known" (onlyOne truth) = some kn by rw [argument, hkn]; rfl]
    simp only [n1, k1, a1, r1, b1, m1, x1, o1, s1, w1, i1, c1, d1, u1, l1, v1, bind, Option.bind, pure]
  · exact ⟨n3, k3, by simpa using a3, r3, b3, m3, x3, ⟨o, rfl, o2⟩, s3, ⟨ws', rfl, w4⟩, i3, hkn, c3, d3, u2, ⟨l, rfl, l3⟩, v3⟩
  · exact ⟨rfl, n2, k2, a2, ⟨rel, rfl, r2⟩, ⟨ab, rfl, b2⟩, ⟨mi, rfl, m2⟩, ⟨ex, rfl, x2⟩, ⟨o, rfl⟩, s2, ⟨ws', rfl, w2, w3⟩, i2, c2, d2, fun m hm => by cases hm; exact l2⟩

/-! ### Runs to the end -/

/-- What the command line does not ensure, but the constructor needs. -/
structure Sensible (d : ArgDict PyFloat) : Prop where
  scheme : ¬ Numbers d "reward_scheme" [3]
  costs : ∀ x y, Numbers d "cost_min" [x] → Numbers d "cost_max" [y] → x ≤ y
  weights : ¬ Numbers d "agent_profile_distr" [0, 0, 0]
  inactive : ¬ Numbers d "inactive_stake_fraction" [1]
  disparity : IsText d "stake_distr_source" "disparity" → ∀ n, Numbers d "n" [n] → 3 < n

/-- What the run needs in addition: agents that act one after the other, `a0 > 0` for CIP-50, and phases that only relax the values. -/
structure Runnable (d : ArgDict PyFloat) : Prop where
  order : IsText d "agent_activation_order" "random" ∨ IsText d "agent_activation_order" "sequential"
  cip50 : Numbers d "reward_scheme" [4] → ¬ ∃ l, Numbers d "a0" (0 :: l)
  phases : ∀ ks as, Numbers d "k" ks → Numbers d "a0" as → (ks.length = 1 ∧ as.length = 1) ∨
    (d.get "inactive_stake_fraction_known" = .ok (.one (.bool false)) ∧ ks.Pairwise (· ≥ ·) ∧ (Numbers d "reward_scheme" [4] → as.Pairwise (· ≤ ·)) ∧
      (¬ Numbers d "reward_scheme" [4] → as.Pairwise (· ≥ ·)))

/-- Random numbers are within their ranges, and a file with stakes has some. -/
structure HonestDraws (d : ArgDict PyFloat) (draws : Draws ℚ) : Prop where
  pareto : ∀ i, 0 ≤ draws.pareto i
  cost : ∀ i, 0 ≤ draws.cost i ∧ draws.cost i < 1
  profile : ∀ i, 0 ≤ draws.profile i ∧ draws.profile i < 1
  file : IsText d "stake_distr_source" "file" → draws.file ≠ [] ∧ ∀ x ∈ draws.file, 0 < x

theorem zero_weights {w : List ℚ} (h3 : w.length = 3) (h0 : ∀ x ∈ w, 0 ≤ x) (hne : w ≠ [0, 0, 0]) : 0 < w.sum := by
  match w, h3 with
  | [x, y, z], _ =>
    have hx := h0 x (by simp)
    have hy := h0 y (by simp)
    have hz := h0 z (by simp)
    rcases lt_or_eq_of_le hx with hx' | rfl
    · simp; linarith
    rcases lt_or_eq_of_le hy with hy' | rfl
    · simp; linarith
    rcases lt_or_eq_of_le hz with hz' | rfl
    · simp; linarith
    exact absurd rfl hne

theorem all_of_one {α : Type} {P : α → Prop} {m : Multi α} (h : ∃ x, m = .one x ∧ P x) : m.All P := by
  obtain ⟨x, rfl, h⟩ := h
  exact h

/-- arguments within the ranges are accepted by the constructor unless one of the five exceptions holds -/
theorem accepted_of {a : Args ℚ} {N : Nat} {draws : Draws ℚ} (hw : Within a N) (hd : HonestDraws d draws)
    (hsrc : a.source = .file → IsText d "stake_distr_source" "file") (h1 : a.scheme ≠ 3) (h2 : a.costMin ≤ a.costMax)
    (h3 : a.weights ≠ some [0, 0, 0]) (h4 : a.inactive ≠ 1) (h5 : a.source = .disparity → 3 < N) : Accepted a draws N where
  n := hw.n
  n_pos := hw.n_pos
  k := hw.k
  a0 := hw.a0
  relThr := all_of_one hw.relThr
  absThr := all_of_one hw.absThr
  maxIter := all_of_one hw.maxIter
  extraFrac := all_of_one hw.extraFrac
  order := by obtain ⟨o, h⟩ := hw.order; rw [h]; trivial
  scheme := by have := hw.scheme; omega
  weights := by
    obtain ⟨w, h6, h7, h8⟩ := hw.weights
    intro w' hw'
    rw [h6] at hw' h3
    cases hw'
    exact ⟨h7, h8, zero_weights h7 h8 (fun h => h3 (by rw [h]))⟩
  inactive := ⟨hw.inactive.1, lt_of_le_of_ne hw.inactive.2 h4⟩
  costMin := hw.costMin
  costs := h2
  metrics := hw.metrics
  disparity := h5
  file := fun h => hd.file (hsrc h)
  pareto := hd.pareto
  cost := hd.cost
  profile := hd.profile

theorem source_file {a : Args ℚ} (ha : Arrives d a) (h : a.source = .file) : IsText d "stake_distr_source" "file" := by
  have := ha.source
  rw [h] at this
  exact this

theorem natCast_singleton {x y : Nat} (h : [(x : ℚ)] = [(y : ℚ)]) : x = y := by
  simpa using h

theorem sensible_accepted {a : Args ℚ} {N : Nat} {draws : Draws ℚ} (ha : Arrives d a) (hw : Within a N) (hd : HonestDraws d draws) (hs : Sensible d) : Accepted a draws N := by
  refine accepted_of hw hd (source_file ha) ?_ (hs.costs _ _ ha.costMin ha.costMax) ?_ ?_ ?_
  · intro h
    have := ha.scheme
    rw [h] at this
    exact hs.scheme (by simpa using this)
  · intro h
    obtain ⟨w, h1, h2⟩ := ha.weights
    rw [h1] at h
    cases h
    exact hs.weights h2
  · intro h
    have := ha.inactive
    rw [h] at this
    exact hs.inactive this
  · intro h
    have h1 := ha.source
    rw [h] at h1
    have h2 := ha.n
    rw [hw.n] at h2
    have h3 : (3 : ℚ) < (N : ℚ) := hs.disparity h1 _ h2
    exact_mod_cast h3

theorem value_pairwise {α : Type} {r : α → α → Prop} (hr : ∀ x, r x x) {m : Multi α} (h : m.values.Pairwise r) {i : Nat} {x y : α} (hx : m.value i = some x) (hy : m.value (i + 1) = some y) : r x y := by
  cases m with
  | one z => simp only [Multi.value] at hx hy; cases hx; cases hy; exact hr _
  | many l =>
    simp only [Multi.value] at hx hy
    simp only [Multi.values] at h
    by_cases hi : i + 1 < l.length
    · rw [show min i (l.length - 1) = i by omega] at hx
      rw [show min (i + 1) (l.length - 1) = i + 1 by omega] at hy
      obtain ⟨h1, rfl⟩ := List.getElem?_eq_some_iff.1 hx
      obtain ⟨h2, rfl⟩ := List.getElem?_eq_some_iff.1 hy
      exact List.pairwise_iff_getElem.1 h _ _ h1 h2 (by omega)
    · rw [show min i (l.length - 1) = l.length - 1 by omega] at hx
      rw [show min (i + 1) (l.length - 1) = l.length - 1 by omega, hx] at hy
      cases hy
      exact hr _

theorem values_phases {α : Type} (m : Multi α) : m.values.length = m.phases := by cases m <;> rfl

/-- C121.  main.py runs to its end: a command line that is accepted, whose options have usable values and meet the above conditions, and that starts (which depends on the file system),
ends after at most `max_iterations` rounds, without an exception. -/
theorem C121_completes {ws : List Text} (h : parse R mainTable ws = .ok d) (hf : d.get "input_from_file" = .ok (.one (.bool false))) (hu : Usable d) (hs : Sensible d) (hrun : Runnable d)
    {draws : Draws ℚ} (hd : HonestDraws d draws) {t : Turns} (ht : TurnsOK t) {str : Value → Text} {cwd : Text} {D D' : Disk PyFloat} {entropy : Int} {r : Started PyFloat}
    (hr : mainStart R str cwd D ws entropy = .ok (D', .ok r)) (solver : State ℚ → ℚ) (rnd rnd4 : ℚ → ℚ) :
    ∃ m : Int, d.get "max_iterations" = .ok (.one (.int m)) ∧ ∃ a N b l, Arrives d a ∧ a.n = .one N ∧ construct a draws = .ok b ∧ Faithful a draws N b ∧
      execute R str cwd D ws entropy draws solver t (m.toNat + 1) = (D', .ran (.ok l)) ∧ Completed b rnd rnd4 m l := by
  obtain ⟨a, N, h1, ha, hw⟩ := C121_arguments h hf hu hr
  have hacc := sensible_accepted ha hw hd hs
  obtain ⟨b', hb', hF⟩ := C77_constructor hacc
  obtain ⟨m, hm, -⟩ := hw.maxIter
  obtain ⟨o, ho⟩ := hw.order
  obtain ⟨rel, hrel, -⟩ := hw.relThr
  obtain ⟨ab, hab, -⟩ := hw.absThr
  obtain ⟨ex, hex, -⟩ := hw.extraFrac
  have hm' : d.get "max_iterations" = .ok (.one (.int m)) := by
    obtain ⟨-, -, -, -, -, ⟨v, hv, hv'⟩, -, -, -⟩ := C120_main_others h
    have h2 := ha.maxIter
    rw [hm] at h2
    obtain ⟨i, rfl⟩ : ∃ i, v = .one (.int i) := by
      rcases hv' with rfl | rfl | ⟨b, rfl, i, -, rfl⟩
      · exact ⟨_, rfl⟩
      · exact absurd rfl (hu _ (by decide) _ hv .none (by simp [atoms])).1
      · exact ⟨i, rfl⟩
    have h3 : Numbers d "max_iterations" [(i : ℚ)] := .inl ⟨_, _, hv, .int i, rfl⟩
    have h4 := numbers_unique h2 h3
    simp only [Multi.values, List.map_cons, List.map_nil, List.cons.injEq, and_true, Int.cast_inj] at h4
    rw [hv, h4]
  have hseq : o = .random ∨ o = .sequential := by
    obtain ⟨o', h2, h3⟩ := ha.order
    rw [ho] at h2
    cases h2
    unfold IsText at h3
    rcases hrun.order with h4 | h4 <;> unfold IsText at h4 <;> rw [h3] at h4 <;> cases o <;> simp_all [Order.name]
  obtain ⟨x0, hx, hx0⟩ := multi_first hw.a0
  have h4iff : a.scheme = 4 ↔ Numbers d "reward_scheme" [4] := by
    constructor
    · intro h2
      have := ha.scheme
      rw [h2] at this
      exact_mod_cast this
    · intro h2
      exact natCast_singleton (by exact_mod_cast numbers_unique ha.scheme h2)
  have hcip : a.scheme = 4 → 0 < x0 := by
    intro h2
    refine lt_of_le_of_ne hx0 (fun h3 => hrun.cip50 (h4iff.1 h2) ?_)
    subst h3
    have h4 := ha.a0
    cases hm0 : a.a0 with
    | one y => rw [hm0] at hx h4; cases hx; exact ⟨[], h4⟩
    | many l =>
      rw [hm0] at hx h4
      cases l with
      | nil => cases hx
      | cons y l => cases hx; exact ⟨l, h4⟩
  have hex' : ∀ fuel, execute R str cwd D ws entropy draws solver t fuel = (D', .ran (simulate a draws solver t fuel)) := by
    intro fuel
    unfold execute
    rw [hr]
    simp only [h1]
  refine ⟨m, hm', a, N, ?_⟩
  rcases hrun.phases _ _ ha.k ha.a0 with ⟨h2, h3⟩ | ⟨h2, h3, h4, h5⟩
  · rw [List.length_map, values_phases] at h2
    rw [values_phases] at h3
    have h1' : a.totalPhases = 1 := by
      unfold Args.totalPhases
      rw [h2, h3, hw.n, hm, hrel, hab, hex, ho]
      rfl
    obtain ⟨b, l, q1, q2, q3⟩ := C78_completes hacc h1' hm (o := o) (by rw [ho]; rfl) hseq hx hcip ht solver rnd rnd4
    rw [hb'] at q1
    cases q1
    exact ⟨b', l, ha, hw.n, hb', hF, by rw [hex', q2], q3⟩
  · have hkn : a.known = false := by
      have := ha.known
      rw [h2] at this
      simpa using this.symm
    have hrelax : Relaxing a := by
      constructor
      · intro p x y hx hy
        rw [List.pairwise_map] at h3
        exact value_pairwise (r := fun x y : Nat => y ≤ x) (fun _ => le_rfl) (h3.imp (fun h => by exact_mod_cast h)) hx hy
      · intro p x y hx hy
        by_cases hs4 : a.scheme = 4
        · rw [if_pos hs4]
          exact value_pairwise (r := fun x y : ℚ => x ≤ y) (fun _ => le_rfl) (h4 (h4iff.1 hs4)) hx hy
        · rw [if_neg hs4]
          exact value_pairwise (r := fun x y : ℚ => y ≤ x) (fun _ => le_rfl) (h5 (fun h => hs4 (h4iff.2 h))) hx hy
    obtain ⟨b, l, q1, q2, q3⟩ := C78_completes_phases hacc hrelax hkn hm ho hseq hx hcip ht solver rnd rnd4
    rw [hb'] at q1
    cases q1
    exact ⟨b', l, ha, hw.n, hb', hF, by rw [hex', q2], q3⟩

/-! ### Exceptions of the constructor -/

/-- C121.  If just one of the conditions for the constructor does not hold, the execution ends with an exception, after its directory was created: `TypeError` for reward scheme 3,
`ValueError` for a minimum cost above the maximum cost and for weights that are all zero, `ZeroDivisionError` if all stake is inactive or three agents have disparate stakes. -/
theorem C121_rejected {ws : List Text} (h : parse R mainTable ws = .ok d) (hf : d.get "input_from_file" = .ok (.one (.bool false))) (hu : Usable d) {draws : Draws ℚ} (hd : HonestDraws d draws)
    {str : Value → Text} {cwd : Text} {D D' : Disk PyFloat} {entropy : Int} {r : Started PyFloat} (hr : mainStart R str cwd D ws entropy = .ok (D', .ok r)) (solver : State ℚ → ℚ) (t : Turns)
    (fuel : Nat) {x y n : ℚ} (hx : Numbers d "cost_min" [x]) (hy : Numbers d "cost_max" [y]) (hn : Numbers d "n" [n]) :
    let fails := fun e => execute R str cwd D ws entropy draws solver t fuel = (D', .ran (.error e))
    let scheme := Numbers d "reward_scheme" [3]
    let costs := y < x
    let weights := Numbers d "agent_profile_distr" [0, 0, 0]
    let inactive := Numbers d "inactive_stake_fraction" [1]
    let disparity := IsText d "stake_distr_source" "disparity"
    (scheme → fails .type) ∧
    (¬ scheme → costs → ¬ weights → ¬ inactive → (disparity → 3 < n) → fails .value) ∧
    (¬ scheme → ¬ costs → weights → ¬ inactive → (disparity → 3 < n) → fails .value) ∧
    (¬ scheme → ¬ costs → ¬ weights → inactive → (disparity → 3 < n) → fails .zeroDiv) ∧
    (¬ scheme → ¬ costs → ¬ weights → ¬ inactive → disparity → n = 3 → fails .zeroDiv) := by
  intro fails scheme costs weights inactive disparity
  obtain ⟨a, N, h1, ha, hw⟩ := C121_arguments h hf hu hr
  have key : ∀ e, construct a draws = .error e → fails e := by
    intro e he
    change execute R str cwd D ws entropy draws solver t fuel = _
    unfold execute
    rw [hr]
    simp only [h1]
    unfold simulate
    rw [he]
    rfl
  have k1 : a.scheme = 3 ↔ scheme := by
    constructor
    · intro h2
      have := ha.scheme
      rw [h2] at this
      exact_mod_cast this
    · intro h2
      exact natCast_singleton (by exact_mod_cast numbers_unique ha.scheme h2)
  have k2 : a.costMin = x ∧ a.costMax = y := by
    have q1 := numbers_unique ha.costMin hx
    have q2 := numbers_unique ha.costMax hy
    simpa using And.intro q1 q2
  have k3 : a.weights = some [0, 0, 0] ↔ weights := by
    obtain ⟨w, q1, q2⟩ := ha.weights
    rw [q1, Option.some.injEq]
    exact ⟨fun q => by rw [q] at q2; exact q2, fun q => numbers_unique q2 q⟩
  have k4 : a.inactive = 1 ↔ inactive := by
    constructor
    · intro h2
      have := ha.inactive
      rwa [h2] at this
    · intro h2
      simpa using numbers_unique ha.inactive h2
  have k5 : a.source = .disparity ↔ disparity := by
    constructor
    · intro h2
      have := ha.source
      rwa [h2] at this
    · intro h2
      have h3 := ha.source
      unfold IsText at h3
      change d.get "stake_distr_source" = _ at h2
      rw [h2] at h3
      cases hs : a.source <;> rw [hs] at h3 <;> simp [StakeSource.name] at h3 ⊢
  have k6 : (N : ℚ) = n := by
    have h2 := ha.n
    rw [hw.n] at h2
    simpa [Multi.values] using numbers_unique h2 hn
  have k7 : (disparity → 3 < n) → a.source = .disparity → 3 < N := by
    intro h2 h3
    have h4 := h2 (k5.1 h3)
    rw [← k6] at h4
    exact_mod_cast h4
  refine ⟨?_, ?_, ?_, ?_, ?_⟩
  · intro q1
    exact key _ ((C77_rejects_scheme a draws).1 (k1.2 q1))
  · intro q1 q2 q3 q4 q5
    refine key _ (C77_rejects_costs (n := N) ?_ (by rw [k2.1, k2.2]; exact q2))
    exact accepted_of (a := { a with costMax := a.costMin }) { hw with costMax := hw.costMin } hd (source_file (a := a) ha) (fun h => q1 (k1.1 h)) le_rfl (fun h => q3 (k3.1 h)) (fun h => q4 (k4.1 h)) (k7 q5)
  · intro q1 q2 q3 q4 q5
    refine key _ (C77_rejects_weights (n := N) ?_ (k3.2 q3))
    have hw' : Within { a with weights := some [1, 0, 0] } N := { hw with weights := ⟨_, rfl, rfl, by simp⟩ }
    have := accepted_of (a := { a with weights := some [1, 0, 0] }) hw' hd (source_file (a := a) ha) (fun h => q1 (k1.1 h)) (by rw [k2.1, k2.2]; exact not_lt.1 q2) (by simp) (fun h => q4 (k4.1 h)) (k7 q5)
    exact { this with weights := by simp }
  · intro q1 q2 q3 q4 q5
    refine key _ (C77_rejects_inactive (n := N) ?_ (k4.2 q4))
    exact accepted_of (a := { a with inactive := 0 }) { hw with inactive := by norm_num } hd (source_file (a := a) ha) (fun h => q1 (k1.1 h)) (by rw [k2.1, k2.2]; exact not_lt.1 q2) (fun h => q3 (k3.1 h))
      (by simp) (k7 q5)
  · intro q1 q2 q3 q4 q5 q6
    have hN : N = 3 := by rw [q6] at k6; exact_mod_cast k6
    subst hN
    refine key _ (C77_rejects_disparity ?_ (k5.2 q5))
    exact accepted_of (a := { a with source := .flat }) { hw with } hd (by simp) (fun h => q1 (k1.1 h)) (by rw [k2.1, k2.2]; exact not_lt.1 q2) (fun h => q3 (k3.1 h))
      (fun h => q4 (k4.1 h)) (by simp)

/-! ### Without options; examples -/

/-- the values can be checked one by one -/
def usable? (d : ArgDict PyFloat) : Bool := essential.all (fun p =>
  match d.get p with
  | .ok v => (atoms v).all (fun a => match a with
    | .none => false
    | .float (.fin _) => true
    | .float _ => false
    | _ => true)
  | .error _ => true)

theorem usable_of {d : ArgDict PyFloat} (h : usable? d = true) : Usable d := by
  intro p hp v hv a ha
  have h1 := List.all_eq_true.1 h p hp
  rw [hv] at h1
  have h2 := List.all_eq_true.1 h1 a ha
  constructor
  · rintro rfl
    cases h2
  · rintro x rfl
    cases x with
    | fin q => exact ⟨q, rfl⟩
    | nan => cases h2
    | posInf => cases h2
    | negInf => cases h2

theorem numbers_one {d : ArgDict PyFloat} {p : String} {a : Atom} {q : ℚ} (h : d.get p = .ok (.one a)) (hq : number a = some q) {l : List ℚ} (hl : Numbers d p l) : l = [q] :=
  numbers_unique hl (.inl ⟨a, q, h, number_iff.1 hq, rfl⟩)

theorem numbers_list {d : ArgDict PyFloat} {p : String} {as : List Atom} {m : List ℚ} (h : d.get p = .ok (.list as)) (hm : List.Forall₂ Denotes as m) {l : List ℚ} (hl : Numbers d p l) : l = m :=
  numbers_unique hl (.inr ⟨as, h, hm⟩)

/-- the options without any settings -/
def noOptions : ArgDict PyFloat := mainTable.map (fun e => (e.dest, e.initial))

theorem noOptions_usable : Usable noOptions := usable_of (by decide +kernel)

theorem noOptions_sensible : Sensible noOptions where
  scheme h := by
    have := numbers_one (a := .int 0) (q := 0) (by decide +kernel) rfl h
    norm_num at this
  costs x y hx hy := by
    have h1 := numbers_one (a := dec 1 5) (by decide +kernel) rfl hx
    have h2 := numbers_one (a := dec 1 4) (by decide +kernel) rfl hy
    simp only [List.cons.injEq, and_true] at h1 h2
    rw [h1, h2]
    decide +kernel
  weights h := by
    have := numbers_list (as := ints [1, 0, 0]) (m := [1, 0, 0]) (by decide +kernel)
      (.cons (by exact_mod_cast Denotes.int 1) (.cons (by exact_mod_cast Denotes.int 0) (.cons (by exact_mod_cast Denotes.int 0) .nil))) h
    norm_num at this
  inactive h := by
    have := numbers_one (a := .int 0) (q := 0) (by decide +kernel) rfl h
    norm_num at this
  disparity h := by
    exfalso
    revert h
    unfold IsText
    decide +kernel

theorem noOptions_runnable : Runnable noOptions where
  order := .inl (by unfold IsText; decide +kernel)
  cip50 h := by
    have := numbers_one (a := .int 0) (q := 0) (by decide +kernel) rfl h
    norm_num at this
  phases ks as hk ha := by
    left
    rw [numbers_one (a := .int 100) (q := 100) (by decide +kernel) rfl hk, numbers_one (a := dec 3 1) (by decide +kernel) rfl ha]
    exact ⟨rfl, rfl⟩

/-- C121.  `python main.py` without options: if it starts, it ends after at most 2000 rounds, whatever the random numbers and the order of the agents are. -/
theorem C121_default {str : Value → Text} {cwd : Text} {D D' : Disk PyFloat} {entropy : Int} {r : Started PyFloat} (hr : mainStart R str cwd D [] entropy = .ok (D', .ok r))
    {draws : Draws ℚ} (h1 : ∀ i, 0 ≤ draws.pareto i) (h2 : ∀ i, 0 ≤ draws.cost i ∧ draws.cost i < 1) (h3 : ∀ i, 0 ≤ draws.profile i ∧ draws.profile i < 1) {t : Turns} (ht : TurnsOK t)
    (solver : State ℚ → ℚ) (rnd rnd4 : ℚ → ℚ) :
    ∃ a b l, construct a draws = .ok b ∧ b.n = 1000 ∧ execute R str cwd D [] entropy draws solver t 2001 = (D', .ran (.ok l)) ∧ Completed b rnd rnd4 2000 l := by
  have hp : parse R mainTable [] = .ok noOptions := parse_nothing C120_main
  have hd : HonestDraws noOptions draws := ⟨h1, h2, h3, fun h => by exfalso; revert h; unfold IsText; decide +kernel⟩
  obtain ⟨m, q1, a, N, b, l, q2, qn, q3, qf, q4, q5⟩ := C121_completes hp (by decide +kernel) noOptions_usable noOptions_sensible noOptions_runnable hd ht hr solver rnd rnd4
  have hm : noOptions.get "max_iterations" = .ok (.one (.int 2000)) := by decide +kernel
  rw [hm] at q1
  cases q1
  refine ⟨a, b, l, q3, ?_, q4, q5⟩
  have hn := numbers_one (a := .int 1000) (q := 1000) (by decide +kernel) rfl q2.n
  rw [qn] at hn
  have hN : (N : ℚ) = 1000 := by simpa [Multi.values] using hn
  rw [qf.n]
  exact_mod_cast hN

/-- an empty file system -/
def newDisk : Disk PyFloat := ⟨none, [], none, []⟩

/-- main.py starts there without options -/
example : ∃ D' r, mainStart plainReader (fun _ => []) "/home".toList newDisk [] 0 = .ok (D', .ok r) := ⟨_, _, rfl⟩

/-- `--n 50 --k 10 5 --a0 0.5 0.25 --stake_distr_source disparity` -/
def twoPhases : List Text := ["--n", "50", "--k", "10", "5", "--a0", "0.5", "0.25", "--stake_distr_source", "disparity"].map String.toList

def twoPhasesOptions : ArgDict PyFloat := mainTable.map (fun e => (e.dest,
  if e.dest = "n" then .one (.int 50) else if e.dest = "k" then .list (ints [10, 5]) else if e.dest = "a0" then .list [.float (.fin (1 / 2)), .float (.fin (1 / 4))]
  else if e.dest = "stake_distr_source" then .one (.str "disparity".toList) else e.initial))

example : parse plainReader mainTable twoPhases = .ok twoPhasesOptions ∧ (∃ D' r, mainStart plainReader (fun _ => []) "/home".toList newDisk twoPhases 0 = .ok (D', .ok r)) ∧
    Usable twoPhasesOptions ∧ Sensible twoPhasesOptions ∧ Runnable twoPhasesOptions := by
  have hscheme : ∀ q, Numbers twoPhasesOptions "reward_scheme" [q] → q = 0 := fun q h => by
    simpa using numbers_one (a := .int 0) (q := 0) (by decide +kernel) rfl h
  have hstart : ∃ D' r, mainStart plainReader (fun _ => []) "/home".toList newDisk twoPhases 0 = .ok (D', .ok r) := by
    have h : (match mainStart plainReader (fun _ => []) "/home".toList newDisk twoPhases 0 with
      | .ok (_, .ok _) => true
      | _ => false) = true := by decide +kernel
    split at h
    · exact ⟨_, _, by assumption⟩
    · cases h
  refine ⟨by decide +kernel, hstart, usable_of (by decide +kernel), ⟨?_, ?_, ?_, ?_, ?_⟩, ?_, ?_, ?_⟩
  · intro h
    have := hscheme _ h
    norm_num at this
  · intro x y hx hy
    have h1 := numbers_one (a := dec 1 5) (by decide +kernel) rfl hx
    have h2 := numbers_one (a := dec 1 4) (by decide +kernel) rfl hy
    simp only [List.cons.injEq, and_true] at h1 h2
    rw [h1, h2]
    decide +kernel
  · intro h
    have := numbers_list (as := ints [1, 0, 0]) (m := [1, 0, 0]) (by decide +kernel)
      (.cons (by exact_mod_cast Denotes.int 1) (.cons (by exact_mod_cast Denotes.int 0) (.cons (by exact_mod_cast Denotes.int 0) .nil))) h
    norm_num at this
  · intro h
    have := numbers_one (a := .int 0) (q := 0) (by decide +kernel) rfl h
    norm_num at this
  · intro _ n hn
    have := numbers_one (a := .int 50) (q := 50) (by decide +kernel) rfl hn
    simp only [List.cons.injEq, and_true] at this
    rw [this]
    norm_num
  · exact .inl (by unfold IsText; decide +kernel)
  · intro h
    have := hscheme _ h
    norm_num at this
  · intro ks as hk ha
    right
    have h1 := numbers_list (as := ints [10, 5]) (m := [10, 5]) (by decide +kernel) (.cons (by exact_mod_cast Denotes.int 10) (.cons (by exact_mod_cast Denotes.int 5) .nil)) hk
    have h2 := numbers_list (as := [.float (.fin (1 / 2)), .float (.fin (1 / 4))]) (m := [1 / 2, 1 / 4]) (by decide +kernel) (.cons (.float _) (.cons (.float _) .nil)) ha
    subst h1 h2
    refine ⟨by decide +kernel, by norm_num, fun h => ?_, fun _ => by norm_num⟩
    have := hscheme _ h
    norm_num at this

/-- all stake inactive: usable, and rejected by the constructor -/
example : ∃ d, parse plainReader mainTable ["--inactive_stake_fraction=1".toList] = .ok d ∧ Usable d ∧ Numbers d "inactive_stake_fraction" [1] :=
  ⟨mainTable.map (fun e => (e.dest, if e.dest = "inactive_stake_fraction" then .one (.float (.fin 1)) else e.initial)), by decide +kernel, usable_of (by decide +kernel),
    .inl ⟨_, _, by decide +kernel, .float 1, rfl⟩⟩

end RSE.Props
