import Verif.Model.Imports
import Mathlib.Data.List.Basic
import Mathlib.Tactic.Tauto

/-!
# C117: in which order the modules can be imported
-/

namespace RSE.Props

open PyModule

/-! ### The specification -/

/-- the modules that do not need the helper functions -/
def Independent (m : PyModule) : Prop := m = rewardSchemes ∨ m = strategy ∨ m = activations

/-- the modules that cannot be the first of the others to be imported -/
def NotFirst (m : PyModule) : Prop := m = pool ∨ m = stakeholder ∨ m = profiles ∨ m = reporters ∨ m = testSim

instance (m : PyModule) : Decidable (Independent m) := by unfold Independent; infer_instance
instance (m : PyModule) : Decidable (NotFirst m) := by unfold NotFirst; infer_instance

/-- the module has been imported completely -/
def Full (s : Interp) (m : PyModule) : Prop := s.progress m = some m.body.length

/-- all modules in `sys.modules` are complete, and all they have bound is in `sys.modules` -/
def Intact (s : Interp) : Prop := ∀ m, (s.progress m = none ∨ Full s m) ∧ s.torn m = false

/-! ### When the helper functions are there -/

def rank : PyModule → Nat
  | rewardSchemes | .strategy | helper | pool | stakeholder | profiles | reporters => 0
  | activations | batchrunner | testHelper => 1
  | sim => 2
  | main | batchRun | runViz | testReporters | testSim | testStakeholder => 3

def _root_.RSE.PyModule.names (m : PyModule) : List String := m.body.filterMap (fun st => match st with
  | .mod _ => none
  | .name _ x => some x
  | .bind x => some x)

/-- the statement imports modules of lower rank only, and names that they define -/
def _root_.RSE.Stmt.fits (r : Nat) : Stmt → Bool
  | .mod n => decide (rank n < r)
  | .name n x => decide (rank n < r) && n.names.contains x
  | .bind _ => true

theorem body_fits (m : PyModule) (h : rank m ≠ 0) (hv : m ≠ runViz) : ∀ st ∈ m.body, st.fits (rank m) = true := by
  cases m <;> first | exact absurd rfl h | exact absurd rfl hv | decide

theorem bound_full {s : Interp} {m : PyModule} (h : Full s m) : s.bound m = m.names := by
  unfold Interp.bound PyModule.names
  rw [show s.progress m = some m.body.length from h]
  simp only [List.take_length]
  rfl

structure Low (r : Nat) (s : Interp) : Prop where
  core : ∀ x, rank x = 0 → Full s x
  rest : ∀ x, rank x < r → s.progress x = none ∨ Full s x

/-- only complete modules have been added -/
structure Grows (s s' : Interp) : Prop where
  same : ∀ x, s'.progress x = s.progress x ∨ (s.progress x = none ∧ Full s' x)
  torn : s'.torn = s.torn

theorem Grows.refl (s : Interp) : Grows s s := ⟨fun _ => Or.inl rfl, rfl⟩

theorem Grows.present {s s' : Interp} (h : Grows s s') {x : PyModule} {n : Nat} (hx : s.progress x = some n) : s'.progress x = some n := by
  rcases h.same x with e | ⟨e, -⟩
  · rw [e]; exact hx
  · rw [hx] at e; cases e

theorem Grows.low {s s' : Interp} (h : Grows s s') {r : Nat} (hl : Low r s) : Low r s' := by
  refine ⟨fun x hx => h.present (hl.core x hx), fun x hx => ?_⟩
  rcases h.same x with e | ⟨-, e⟩
  · rcases hl.rest x hx with e' | e'
    · exact Or.inl (by rw [e]; exact e')
    · exact Or.inr (h.present e')
  · exact Or.inr e

theorem Low.mono {s : Interp} {r r' : Nat} (h : Low r s) (hr : r' ≤ r) : Low r' s := ⟨h.core, fun x hx => h.rest x (Nat.lt_of_lt_of_le hx hr)⟩

/-- like `Grows`, but the module `m` is being imported -/
structure Works (m : PyModule) (s s' : Interp) : Prop where
  same : ∀ x, x ≠ m → s'.progress x = s.progress x ∨ (s.progress x = none ∧ Full s' x)
  torn : s'.torn = s.torn

theorem Works.refl (m : PyModule) (s : Interp) : Works m s s := ⟨fun _ _ => Or.inl rfl, rfl⟩

theorem Works.trans {m : PyModule} {s t u : Interp} (h : Works m s t) (h' : Works m t u) : Works m s u := by
  refine ⟨fun x hx => ?_, h'.torn.trans h.torn⟩
  rcases h.same x hx with e | ⟨e, f⟩ <;> rcases h'.same x hx with e' | ⟨e', f'⟩
  · exact Or.inl (e'.trans e)
  · exact Or.inr ⟨e ▸ e', f'⟩
  · exact Or.inr ⟨e, e'.trans f⟩
  · rw [show t.progress x = some _ from f] at e'; cases e'

theorem Grows.works {s s' : Interp} (h : Grows s s') (m : PyModule) : Works m s s' := ⟨fun x _ => h.same x, h.torn⟩

theorem Works.advance (m : PyModule) (s : Interp) (n : Nat) : Works m s (s.advance m n) :=
  ⟨fun x hx => Or.inl (by simp [Interp.advance, hx]), rfl⟩

theorem Works.low {m : PyModule} {s s' : Interp} (h : Works m s s') (hr : rank m ≠ 0) (hl : Low (rank m) s) : Low (rank m) s' := by
  refine ⟨fun x hx => ?_, fun x hx => ?_⟩
  · rcases h.same x (fun e => hr (e ▸ hx)) with e | ⟨e, -⟩
    · exact e.trans (hl.core x hx)
    · rw [show s.progress x = some _ from hl.core x hx] at e; cases e
  · rcases h.same x (fun e => by rw [e] at hx; exact Nat.lt_irrefl _ hx) with e | ⟨-, e⟩
    · rcases hl.rest x hx with e' | e'
      · exact Or.inl (e.trans e')
      · exact Or.inr (e.trans e')
    · exact Or.inr e

/-- what importing a module of a rank below `r` does -/
def Imports (imp : Interp → PyModule → Interp × ImportOutcome) (r : Nat) : Prop :=
  ∀ s n, Low r s → rank n < r → n ≠ runViz → ∃ s', imp s n = (s', .done) ∧ Grows s s' ∧ Full s' n

theorem runBody_ok {imp : Interp → PyModule → Interp × ImportOutcome} {m : PyModule} (hr : rank m ≠ 0) (hi : Imports imp (rank m)) (hm : rank m ≤ 3) :
    ∀ (l : List Stmt) (s : Interp) (i : Nat), Low (rank m) s → (∀ st ∈ l, Stmt.fits (rank m) st = true) → s.progress m = some i →
      ∃ s', runBody imp m s i l = (s', .done) ∧ Works m s s' ∧ s'.progress m = some (i + l.length) := by
  intro l
  induction l with
  | nil => intro s i _ _ hp; exact ⟨s, rfl, Works.refl m s, hp⟩
  | cons st t ih =>
    intro s i hl hf hp
    have hf' := fun st' h => hf st' (List.mem_cons_of_mem _ h)
    have hst := hf st List.mem_cons_self
    have key : ∀ s', Works m s s' → ∃ s'', runBody imp m (s'.advance m (i + 1)) (i + 1) t = (s'', .done) ∧ Works m s s'' ∧ s''.progress m = some (i + (st :: t).length) := by
      intro s' hw
      have hw' := hw.trans (Works.advance m s' (i + 1))
      obtain ⟨s'', h1, h2, h3⟩ := ih (s'.advance m (i + 1)) (i + 1) (hw'.low hr hl) hf' (by simp [Interp.advance])
      exact ⟨s'', h1, hw'.trans h2, by rw [h3, List.length_cons]; congr 1; omega⟩
    have low3 : ∀ n, rank n < rank m → n ≠ runViz := by
      rintro n hn rfl
      have : rank runViz = 3 := rfl
      omega
    cases st with
    | bind x => exact key s (Works.refl m s)
    | mod n =>
      simp only [Stmt.fits, decide_eq_true_eq] at hst
      obtain ⟨s', h1, h2, -⟩ := hi s n hl hst (low3 n hst)
      simp only [runBody, h1]
      exact key s' (h2.works m)
    | name n x =>
      simp only [Stmt.fits, Bool.and_eq_true, decide_eq_true_eq] at hst
      obtain ⟨s', h1, h2, h3⟩ := hi s n hl hst.1 (low3 n hst.1)
      simp only [runBody, h1, bound_full h3, hst.2]
      exact key s' (h2.works m)

theorem rank_le (m : PyModule) : rank m ≤ 3 := by cases m <;> decide

theorem imports_low : ∀ (d r : Nat), r ≤ d → Imports (importModule d) r := by
  intro d
  induction d with
  | zero => intro r hr s n _ hn _; omega
  | succ d ih =>
    intro r hr s n hl hn hv
    cases hp : s.progress n with
    | some k =>
      refine ⟨s, by simp [importModule, hp], Grows.refl s, ?_⟩
      rcases hl.rest n hn with e | e
      · rw [hp] at e; cases e
      · exact e
    | none =>
      have hr0 : rank n ≠ 0 := by
        intro e
        rw [show s.progress n = some _ from hl.core n e] at hp; cases hp
      have hw := Works.advance n s 0
      have hl' := hw.low hr0 (hl.mono (Nat.le_of_lt hn))
      obtain ⟨s', h1, h2, h3⟩ := runBody_ok hr0 (ih (rank n) (by omega)) (rank_le n) n.body (s.advance n 0) 0 hl' (body_fits n hr0 hv) (by simp [Interp.advance])
      have h3' : Full s' n := by rw [Nat.zero_add] at h3; exact h3
      refine ⟨s', by simp [importModule, hp, h1], ⟨fun x => ?_, h2.torn⟩, h3'⟩
      by_cases hx : x = n
      · subst hx; exact Or.inr ⟨hp, h3'⟩
      · have := (hw.trans h2).same x hx; exact this

theorem settled_import {s : Interp} (hl : Low 4 s) {m : PyModule} (hv : m ≠ runViz) : ∃ s', s.import m = (s', .done) ∧ Grows s s' ∧ Full s' m :=
  imports_low importDepth 4 (by decide) s m hl (by have := rank_le m; omega) hv

theorem Low.depth (s : Interp) (h : Low 4 s) : ∀ x, s.progress x = none ∨ Full s x := fun x => h.rest x (by have := rank_le x; omega)

theorem no_viz (m : PyModule) : ∀ st ∈ m.body, st.target ≠ some runViz := by cases m <;> decide

theorem holds_viz (s : Interp) (x : PyModule) : s.holds x runViz = false := by
  unfold Interp.holds
  cases s.progress x with
  | none => rfl
  | some n =>
    rw [Bool.eq_false_iff]
    intro h
    obtain ⟨st, h1, h2⟩ := List.any_eq_true.1 h
    exact no_viz x st (List.take_subset _ _ h1) (of_decide_eq_true h2)

theorem settled_viz {s : Interp} (hl : Low 4 s) (hp : s.progress runViz = none) (ht : s.torn runViz = false) :
    ∃ s', s.import runViz = (s', .importError) ∧ Grows s s' ∧ s'.progress runViz = none := by
  have hi : Imports (importModule 16) 3 := imports_low 16 3 (by decide)
  have hw := Works.advance runViz s 0
  have hl' : Low 3 (s.advance runViz 0) := hw.low (m := runViz) (by decide) (hl.mono (by decide))
  obtain ⟨s₁, h1, h2, h3⟩ := hi _ sim hl' (by decide) (by decide)
  have hw₁ := (hw.trans (h2.works runViz)).trans (Works.advance runViz s₁ 1)
  have hl₁ : Low 3 (s₁.advance runViz 1) := hw₁.low (m := runViz) (by decide) (hl.mono (by decide))
  obtain ⟨s₂, h4, h5, h6⟩ := hi _ helper hl₁ (by decide) (by decide)
  have hw₂ := hw₁.trans (h5.works runViz)
  have hbody : runBody (importModule 16) runViz (s.advance runViz 0) 0 PyModule.runViz.body = (s₂, .importError) := by
    simp only [PyModule.body, runBody, h1, bound_full h3]
    rw [if_pos (by decide)]
    simp only [h4, bound_full h6]
    rw [if_neg (by decide)]
  refine ⟨s₂.discard runViz, ?_, ⟨fun x => ?_, ?_⟩, by simp [Interp.discard]⟩
  · show importModule (16 + 1) s runViz = _
    rw [importModule]
    simp only [hp, hbody]
  · by_cases hx : x = runViz
    · subst hx; exact Or.inl (by simp [Interp.discard, hp])
    · rcases hw₂.same x hx with e | ⟨e, f⟩
      · exact Or.inl (by simpa [Interp.discard, hx] using e)
      · exact Or.inr ⟨e, by simpa [Full, Interp.discard, hx] using f⟩
  · funext x
    by_cases hx : x = runViz
    · subst hx; simp [Interp.discard, ht]
    · simp only [Interp.discard, hx, if_false, holds_viz, Bool.or_false]
      rw [hw₂.torn]

/-! ### What no import touches -/

theorem runBody_untouched {imp : Interp → PyModule → Interp × ImportOutcome} {x : PyModule}
    (hi : ∀ s n, (s.progress x ≠ none ∨ (x = runViz ∧ n ≠ runViz)) → (imp s n).1.progress x = s.progress x) {m : PyModule} (hx : x ≠ m) :
    ∀ (l : List Stmt) (s : Interp) (i : Nat), (s.progress x ≠ none ∨ x = runViz) → (∀ st ∈ l, st.target ≠ some runViz) →
      (runBody imp m s i l).1.progress x = s.progress x := by
  have adv : ∀ (s : Interp) i, (s.advance m i).progress x = s.progress x := fun s i => by simp [Interp.advance, hx]
  intro l
  induction l with
  | nil => intro s i _ _; rfl
  | cons st t ih =>
    intro s i hs hl
    have hl' := fun st' h => hl st' (List.mem_cons_of_mem _ h)
    have hst := hl st List.mem_cons_self
    have hi' : ∀ n, st.target = some n → (imp s n).1.progress x = s.progress x := fun n hn =>
      hi s n (hs.imp_right (fun e => ⟨e, fun e' => hst (by rw [hn, e'])⟩))
    cases st with
    | bind y =>
      rw [runBody, ih _ _ (by rw [adv]; exact hs) hl', adv]
    | mod n =>
      have h1 := hi' n rfl
      rw [runBody]
      rcases e : imp s n with ⟨s', o⟩
      rw [e] at h1
      cases o <;> simp only
      · rw [ih _ _ (by rw [adv, h1]; exact hs) hl', adv]; exact h1
      · exact h1
      · exact h1
    | name n y =>
      have h1 := hi' n rfl
      rw [runBody]
      rcases e : imp s n with ⟨s', o⟩
      rw [e] at h1
      cases o <;> simp only
      · split
        · rw [ih _ _ (by rw [adv, h1]; exact hs) hl', adv]; exact h1
        · exact h1
      · exact h1
      · exact h1

theorem import_untouched : ∀ (d : Nat) (s : Interp) (m x : PyModule), (s.progress x ≠ none ∨ (x = runViz ∧ m ≠ runViz)) → (importModule d s m).1.progress x = s.progress x := by
  intro d
  induction d with
  | zero => intro s m x _; rfl
  | succ d ih =>
    intro s m x hx
    rw [importModule]
    cases hp : s.progress m with
    | some k => rfl
    | none =>
      have hxm : x ≠ m := by
        rintro rfl
        rcases hx with h | ⟨h, h'⟩
        · exact h hp
        · exact h' h
      have adv : (s.advance m 0).progress x = s.progress x := by simp [Interp.advance, hxm]
      have h1 := runBody_untouched (imp := importModule d) (x := x) (fun s n => ih s n x) hxm m.body (s.advance m 0) 0 (by rw [adv]; exact hx.imp_right (·.1)) (no_viz m)
      rw [adv] at h1
      simp only
      rcases e : runBody (importModule d) m (s.advance m 0) 0 m.body with ⟨s', o⟩
      rw [e] at h1
      cases o <;> simp only
      · exact h1
      · simpa [Interp.discard, hxm] using h1
      · simpa [Interp.discard, hxm] using h1

theorem import_keeps {s : Interp} {m x : PyModule} (h : Full s x) : Full (s.import m).1 x := by
  unfold Full Interp.import
  rw [import_untouched importDepth s m x (Or.inl (by rw [show s.progress x = some _ from h]; simp))]
  exact h

/-! ### Before -/

def allModules : List PyModule := [rewardSchemes, .strategy, activations, helper, pool, stakeholder, profiles, reporters, sim, batchrunner, main, batchRun, runViz, testHelper, testReporters, testSim, testStakeholder]

theorem mem_allModules (m : PyModule) : m ∈ allModules := by cases m <;> decide

def code (s : Interp) : List (Option Nat × Bool) := allModules.map (fun m => (s.progress m, s.torn m))

theorem code_inj {s t : Interp} (h : code s = code t) : s = t := by
  have key : ∀ m, (s.progress m, s.torn m) = (t.progress m, t.torn m) := fun m => List.map_inj_left.1 h m (mem_allModules m)
  cases s; cases t
  congr 1
  · funext m; exact congrArg Prod.fst (key m)
  · funext m; exact congrArg Prod.snd (key m)

/-- at most modules that need none of the others have been imported -/
def freshState (r st a : Bool) : Interp :=
  ⟨fun m => if (m = rewardSchemes ∧ r) ∨ (m = .strategy ∧ st) ∨ (m = activations ∧ a) then some m.body.length else none, fun _ => false⟩

def tornModules (m : PyModule) : Bool := decide (m = pool ∨ m = stakeholder ∨ m = profiles)

/-- after a failed import of model_reporters.py -/
def tornState (a : Bool) : Interp :=
  ⟨fun m => if m = rewardSchemes ∨ m = .strategy ∨ tornModules m ∨ (m = activations ∧ a) then some m.body.length else none, tornModules⟩

def lowB (s : Interp) (torn : PyModule → Bool) : Bool :=
  allModules.all (fun m => (decide (s.progress m = some m.body.length) || (decide (rank m ≠ 0) && decide (s.progress m = none))) && decide (s.torn m = torn m)) && decide (s.progress runViz = none)

structure Loaded (torn : PyModule → Bool) (s : Interp) : Prop where
  low : Low 4 s
  torn : s.torn = torn
  viz : s.progress runViz = none

theorem settled_of_lowB {s : Interp} {torn : PyModule → Bool} (h : lowB s torn = true) : Loaded torn s := by
  unfold lowB at h
  simp only [Bool.and_eq_true, List.all_eq_true, decide_eq_true_eq, Bool.or_eq_true] at h
  refine ⟨⟨fun x hx => ?_, fun x _ => ?_⟩, funext fun x => (h.1 x (mem_allModules x)).2, h.2⟩
  · rcases (h.1 x (mem_allModules x)).1 with e | ⟨e, -⟩
    · exact e
    · exact absurd hx e
  · rcases (h.1 x (mem_allModules x)).1 with e | ⟨-, e⟩
    · exact Or.inr e
    · exact Or.inl e

/-- what an import does in a fresh interpreter -/
def freshStep (r st a : Bool) (m : PyModule) : Bool :=
  let o := (freshState r st a).import m
  if Independent m then code o.1 = code (freshState (r || decide (m = rewardSchemes)) (st || decide (m = .strategy)) (a || decide (m = activations))) ∧ o.2 = .done
  else if m = reporters then code o.1 = code (tornState a) ∧ o.2 = .importError
  else if NotFirst m then code o.1 = code (freshState r st a) ∧ o.2 = .importError
  else lowB o.1 (fun _ => false) ∧ o.2 = (if m = runViz then .importError else .done) ∧ (m ≠ runViz → o.1.progress m = some m.body.length)

theorem freshStep_all : ∀ r st a : Bool, ∀ m ∈ allModules, freshStep r st a m = true := by decide +kernel

/-- what an import does after a failed import of model_reporters.py -/
def tornStep (a : Bool) (m : PyModule) : Bool :=
  let o := (tornState a).import m
  if Independent m ∨ tornModules m then code o.1 = code (tornState (a || decide (m = activations))) ∧ o.2 = .done
  else if m = reporters then code o.1 = code (tornState a) ∧ o.2 = .importError
  else lowB o.1 tornModules ∧ o.2 = (if m = runViz then .importError else .done) ∧ (m ≠ runViz → o.1.progress m = some m.body.length)

theorem tornStep_all : ∀ a : Bool, ∀ m ∈ allModules, tornStep a m = true := by decide +kernel

theorem freshState_step (r st a : Bool) (m : PyModule) :
    (Independent m ∧ ∃ r' st' a', (freshState r st a).import m = (freshState r' st' a', .done) ∧ Full (freshState r' st' a') m) ∨
    (¬ Independent m ∧ m = reporters ∧ (freshState r st a).import m = (tornState a, .importError)) ∨
    (¬ Independent m ∧ m ≠ reporters ∧ NotFirst m ∧ (freshState r st a).import m = (freshState r st a, .importError)) ∨
    (¬ Independent m ∧ ¬ NotFirst m ∧ ∃ s', (freshState r st a).import m = (s', if m = runViz then .importError else .done) ∧ Loaded (fun _ => false) s' ∧ (m ≠ runViz → Full s' m)) := by
  have h := freshStep_all r st a m (mem_allModules m)
  unfold freshStep at h
  by_cases h1 : Independent m
  · simp only [h1, if_true, decide_eq_true_eq] at h
    refine Or.inl ⟨h1, _, _, _, Prod.ext (code_inj h.1) h.2, ?_⟩
    unfold Full freshState
    rcases h1 with rfl | rfl | rfl <;> simp
  · by_cases h2 : m = reporters
    · subst h2
      simp only [h1, if_false, if_true, decide_eq_true_eq] at h
      exact Or.inr (Or.inl ⟨h1, rfl, Prod.ext (code_inj h.1) h.2⟩)
    · by_cases h3 : NotFirst m
      · simp only [h1, if_false, h2, h3, if_true, decide_eq_true_eq] at h
        exact Or.inr (Or.inr (Or.inl ⟨h1, h2, h3, Prod.ext (code_inj h.1) h.2⟩))
      · simp only [h1, if_false, h2, h3, decide_eq_true_eq] at h
        exact Or.inr (Or.inr (Or.inr ⟨h1, h3, _, Prod.ext rfl h.2.1, settled_of_lowB h.1, h.2.2⟩))

theorem tornState_step (a : Bool) (m : PyModule) :
    ((Independent m ∨ tornModules m = true) ∧ ∃ a', (tornState a).import m = (tornState a', .done)) ∨
    (m = reporters ∧ (tornState a).import m = (tornState a, .importError)) ∨
    (∃ s', (tornState a).import m = (s', if m = runViz then .importError else .done) ∧ Loaded tornModules s') := by
  have h := tornStep_all a m (mem_allModules m)
  unfold tornStep at h
  by_cases h1 : Independent m ∨ tornModules m = true
  · simp only [h1, if_true, decide_eq_true_eq] at h
    exact Or.inl ⟨h1, _, Prod.ext (code_inj h.1) h.2⟩
  · by_cases h2 : m = reporters
    · subst h2
      simp only [h1, if_false, if_true, decide_eq_true_eq] at h
      exact Or.inr (Or.inl ⟨rfl, Prod.ext (code_inj h.1) h.2⟩)
    · simp only [h1, if_false, h2, decide_eq_true_eq] at h
      exact Or.inr (Or.inr ⟨_, Prod.ext rfl h.2.1, settled_of_lowB h.1⟩)

theorem settled_step {T : PyModule → Bool} (hT : T runViz = false) {s : Interp} (h : Loaded T s) (m : PyModule) :
    ∃ s', s.import m = (s', if m = runViz then .importError else .done) ∧ Loaded T s' ∧ (m ≠ runViz → Full s' m) := by
  by_cases hv : m = runViz
  · subst hv
    obtain ⟨s', h1, h2, h3⟩ := settled_viz h.low h.viz (by rw [h.torn]; exact hT)
    exact ⟨s', by simpa using h1, ⟨h2.low h.low, h2.torn.trans h.torn, h3⟩, fun e => absurd rfl e⟩
  · obtain ⟨s', h1, h2, h3⟩ := settled_import h.low hv
    have hs : s'.progress runViz = none := by
      have := import_untouched importDepth s m runViz (Or.inr ⟨rfl, hv⟩)
      unfold Interp.import at h1
      rw [h1, h.viz] at this
      exact this
    exact ⟨s', by simpa [hv] using h1, ⟨h2.low h.low, h2.torn.trans h.torn, hs⟩, fun _ => h3⟩

/-! ### Sequences of imports -/

theorem new_fresh : Interp.new = freshState false false false := code_inj (by decide +kernel)

theorem freshState_intact (r st a : Bool) : Intact (freshState r st a) := by
  intro m
  refine ⟨?_, rfl⟩
  unfold Full freshState
  simp only
  split
  · exact Or.inr rfl
  · exact Or.inl rfl

theorem settled_intact {s : Interp} (h : Loaded (fun _ => false) s) : Intact s := fun m => ⟨h.low.depth s m, by rw [h.torn]⟩

theorem importAll_keeps {x : PyModule} : ∀ (ms : List PyModule) {s : Interp}, Full s x → Full (s.importAll ms).1 x := by
  intro ms
  induction ms with
  | nil => intro s h; exact h
  | cons m t ih =>
    intro s h
    have hk := import_keeps (m := m) h
    rw [Interp.importAll]
    rcases e : s.import m with ⟨s', o⟩
    rw [e] at hk
    cases o
    · exact ih hk
    · exact hk
    · exact hk

theorem settled_importAll : ∀ (ms : List PyModule) {s : Interp}, Loaded (fun _ => false) s →
    ((s.importAll ms).2 = if runViz ∈ ms then .importError else .done) ∧
    ((s.importAll ms).2 = .done → Loaded (fun _ => false) (s.importAll ms).1 ∧ ∀ m ∈ ms, Full (s.importAll ms).1 m) := by
  intro ms
  induction ms with
  | nil => intro s h; exact ⟨rfl, fun _ => ⟨h, by simp⟩⟩
  | cons m t ih =>
    intro s h
    obtain ⟨s', h1, h2, h3⟩ := settled_step rfl h m
    by_cases hv : m = runViz
    · subst hv
      rw [Interp.importAll, h1]
      simp
    · rw [if_neg hv] at h1
      obtain ⟨h4, h5⟩ := ih h2
      have e : s.importAll (m :: t) = s'.importAll t := by rw [Interp.importAll, h1]
      rw [e]
      refine ⟨by rw [h4]; simp [Ne.symm hv], fun hd => ⟨(h5 hd).1, fun x hx => ?_⟩⟩
      rcases List.mem_cons.1 hx with rfl | hx
      · exact importAll_keeps t (h3 hv)
      · exact (h5 hd).2 x hx

theorem fresh_importAll : ∀ (ms : List PyModule) (r st a : Bool),
    (((freshState r st a).importAll ms).2 =
      if runViz ∉ ms ∧ ∀ m, ms.find? (fun m => ¬ Independent m) = some m → ¬ NotFirst m then .done else .importError) ∧
    (((freshState r st a).importAll ms).2 = .done → Intact ((freshState r st a).importAll ms).1 ∧ ∀ m ∈ ms, Full ((freshState r st a).importAll ms).1 m) := by
  intro ms
  induction ms with
  | nil => intro r st a; exact ⟨by simp [Interp.importAll], fun _ => ⟨freshState_intact r st a, by simp⟩⟩
  | cons m t ih =>
    intro r st a
    rcases freshState_step r st a m with ⟨h1, r', st', a', h2, h3⟩ | ⟨h1, rfl, h2⟩ | ⟨h1, -, h3, h2⟩ | ⟨h1, h3, s', h2, h4, h5⟩
    · have e : (freshState r st a).importAll (m :: t) = (freshState r' st' a').importAll t := by rw [Interp.importAll, h2]
      obtain ⟨h4, h5⟩ := ih r' st' a'
      rw [e]
      have hv : runViz ≠ m := by rintro rfl; revert h1; decide
      refine ⟨by rw [h4]; simp [h1, hv], fun hd => ⟨(h5 hd).1, fun x hx => ?_⟩⟩
      rcases List.mem_cons.1 hx with rfl | hx
      · exact importAll_keeps t h3
      · exact (h5 hd).2 x hx
    · rw [Interp.importAll, h2]
      simp [h1, NotFirst]
    · rw [Interp.importAll, h2]
      simp [h1, h3]
    · by_cases hv : m = runViz
      · subst hv
        rw [Interp.importAll, h2]
        simp
      · rw [if_neg hv] at h2
        have e : (freshState r st a).importAll (m :: t) = s'.importAll t := by rw [Interp.importAll, h2]
        rw [e]
        obtain ⟨h6, h7⟩ := settled_importAll t h4
        refine ⟨by rw [h6]; by_cases ht : runViz ∈ t <;> simp [h1, h3, ht, Ne.symm hv], fun hd => ⟨settled_intact (h7 hd).1, fun x hx => ?_⟩⟩
        rcases List.mem_cons.1 hx with rfl | hx
        · exact importAll_keeps t (h5 hv)
        · exact (h7 hd).2 x hx

/-- what follows a failed import of model_reporters.py that has been caught -/
def TornAfter (s : Interp) : Prop := (∃ a, s = tornState a) ∨ Loaded tornModules s

theorem tornAfter_step {s : Interp} (h : TornAfter s) (m : PyModule) : TornAfter (s.import m).1 ∧ (s.import m).2 ≠ .tooDeep ∧ (m = runViz → (s.import m).2 = .importError) := by
  rcases h with ⟨a, rfl⟩ | h
  · rcases tornState_step a m with ⟨h0, a', h1⟩ | ⟨rfl, h1⟩ | ⟨s', h1, h2⟩
    · refine ⟨by rw [h1]; exact Or.inl ⟨_, rfl⟩, by rw [h1]; simp, ?_⟩
      rintro rfl
      exact absurd h0 (by decide)
    · exact ⟨by rw [h1]; exact Or.inl ⟨_, rfl⟩, by rw [h1]; simp, fun e => by cases e⟩
    · refine ⟨by rw [h1]; exact Or.inr h2, ?_, ?_⟩
      · rw [h1]; dsimp only; split <;> simp
      · rintro rfl; rw [h1]; rfl
  · obtain ⟨s', h1, h2, -⟩ := settled_step rfl h m
    refine ⟨by rw [h1]; exact Or.inr h2, ?_, ?_⟩
    · rw [h1]; dsimp only; split <;> simp
    · rintro rfl; rw [h1]; rfl

theorem tornAfter_torn {s : Interp} (h : TornAfter s) : s.torn = tornModules := by
  rcases h with ⟨a, rfl⟩ | h
  · rfl
  · exact h.torn

/-- the modules after whose import the helper functions are either there or spoilt -/
def Decisive (m : PyModule) : Prop := ¬ Independent m ∧ (NotFirst m → m = reporters)

instance (m : PyModule) : Decidable (Decisive m) := by unfold Decisive; infer_instance

/-- which modules hold objects of a discarded module, by the imports so far -/
def tornBy (ms : List PyModule) : PyModule → Bool := if ms.find? (fun m => Decisive m) = some reporters then tornModules else fun _ => false

theorem tornAfter_collect : ∀ (ms : List PyModule) {s : Interp}, TornAfter s → TornAfter (s.collect ms).1 ∧ ∀ (i : Nat) (o : ImportOutcome), (s.collect ms).2[i]? = some o → o ≠ .tooDeep ∧ (ms[i]? = some runViz → o = .importError) := by
  intro ms
  induction ms with
  | nil => intro s h; exact ⟨h, by simp [Interp.collect]⟩
  | cons m t ih =>
    intro s h
    obtain ⟨h1, h2, h3⟩ := tornAfter_step h m
    obtain ⟨h4, h5⟩ := ih h1
    refine ⟨h4, fun i o ho => ?_⟩
    cases i with
    | zero =>
      simp only [Interp.collect, List.getElem?_cons_zero, Option.some.injEq] at ho
      subst ho
      exact ⟨h2, fun e => h3 (by simpa using e)⟩
    | succ i =>
      simp only [Interp.collect, List.getElem?_cons_succ] at ho
      obtain ⟨h6, h7⟩ := h5 i o ho
      exact ⟨h6, fun e => h7 (by simpa using e)⟩

theorem settled_collect : ∀ (ms : List PyModule) {s : Interp}, Loaded (fun _ => false) s →
    Loaded (fun _ => false) (s.collect ms).1 ∧ (s.collect ms).2 = ms.map (fun m => if m = runViz then .importError else .done) := by
  intro ms
  induction ms with
  | nil => intro s h; exact ⟨h, rfl⟩
  | cons m t ih =>
    intro s h
    obtain ⟨s', h1, h2, -⟩ := settled_step rfl h m
    obtain ⟨h3, h4⟩ := ih h2
    simp only [Interp.collect, h1]
    exact ⟨h3, by simp [h4]⟩

theorem fresh_collect : ∀ (ms : List PyModule) (r st a : Bool),
    ((freshState r st a).collect ms).1.torn = tornBy ms ∧
    (tornBy ms = (fun _ => false) → Intact ((freshState r st a).collect ms).1) ∧
    ∀ (i : Nat) (o : ImportOutcome), ((freshState r st a).collect ms).2[i]? = some o → o ≠ .tooDeep ∧ (ms[i]? = some runViz → o = .importError) := by
  intro ms
  induction ms with
  | nil => intro r st a; exact ⟨rfl, fun _ => freshState_intact r st a, by simp [Interp.collect]⟩
  | cons m t ih =>
    intro r st a
    rcases freshState_step r st a m with ⟨h1, r', st', a', h2, h3⟩ | ⟨h1, rfl, h2⟩ | ⟨h1, h4, h3, h2⟩ | ⟨h1, h3, s', h2, h4, -⟩
    · have hd : ¬ Decisive m := fun h => h.1 h1
      have e : tornBy (m :: t) = tornBy t := by simp [tornBy, hd]
      obtain ⟨h4, h5, h6⟩ := ih r' st' a'
      rw [e]
      simp only [Interp.collect, h2]
      refine ⟨h4, h5, fun i o ho => ?_⟩
      cases i with
      | zero =>
        simp only [List.getElem?_cons_zero, Option.some.injEq] at ho
        subst ho
        refine ⟨by simp, fun h => ?_⟩
        simp only [List.getElem?_cons_zero, Option.some.injEq] at h
        subst h
        revert h1; decide
      | succ i => simpa using h6 i o (by simpa using ho)
    · have hd : Decisive reporters := by decide
      have e : tornBy (reporters :: t) = tornModules := by simp [tornBy, hd]
      obtain ⟨h4, h5⟩ := tornAfter_collect t (s := tornState a) (Or.inl ⟨a, rfl⟩)
      rw [e]
      simp only [Interp.collect, h2]
      refine ⟨tornAfter_torn h4, fun h => ?_, fun i o ho => ?_⟩
      · exact absurd (congrFun h pool) (by decide)
      cases i with
      | zero =>
        simp only [List.getElem?_cons_zero, Option.some.injEq] at ho
        subst ho
        exact ⟨by simp, fun _ => rfl⟩
      | succ i => simpa using h5 i o (by simpa using ho)
    · have hd : ¬ Decisive m := fun h => h4 (h.2 h3)
      have e : tornBy (m :: t) = tornBy t := by simp [tornBy, hd]
      obtain ⟨h4, h5, h6⟩ := ih r st a
      rw [e]
      simp only [Interp.collect, h2]
      refine ⟨h4, h5, fun i o ho => ?_⟩
      cases i with
      | zero =>
        simp only [List.getElem?_cons_zero, Option.some.injEq] at ho
        subst ho
        exact ⟨by simp, fun _ => rfl⟩
      | succ i => simpa using h6 i o (by simpa using ho)
    · have hd : Decisive m := ⟨h1, fun h => absurd h h3⟩
      have hr : m ≠ reporters := by rintro rfl; exact h3 (by decide)
      have e : tornBy (m :: t) = fun _ => false := by simp [tornBy, hd, hr]
      obtain ⟨h5, h6⟩ := settled_collect t h4
      rw [e]
      simp only [Interp.collect, h2, h6]
      refine ⟨h5.torn, fun _ => settled_intact h5, fun i o ho => ?_⟩
      rw [← List.map_cons (f := fun m => if m = runViz then ImportOutcome.importError else .done), List.getElem?_map] at ho
      rcases hi : (m :: t)[i]? with _ | x
      · rw [hi] at ho; cases ho
      · rw [hi, Option.map_some, Option.some.injEq] at ho
        subst ho
        refine ⟨by split <;> simp, fun h => ?_⟩
        rw [Option.some.injEq] at h
        rw [if_pos h]

theorem collect_length : ∀ (ms : List PyModule) (s : Interp), (s.collect ms).2.length = ms.length := by
  intro ms
  induction ms with
  | nil => intro s; rfl
  | cons m t ih => intro s; simp [Interp.collect, ih]

/-! ### The theorems -/

/-- **C117** (programs): a program that imports modules of the project one after the other fails exactly if it imports runViz.py, or if the first module it imports, apart from reward_schemes.py, strategy.py and custom_activations.py, is pool.py, stakeholder.py, stakeholder_profiles.py, model_reporters.py or test_sim.py.  It fails with an ImportError; and if it does not fail, then all modules are complete and hold objects of one another only. -/
theorem C117_programs (ms : List PyModule) :
    ((Interp.new.importAll ms).2 = .done ↔ runViz ∉ ms ∧ ∀ m, ms.find? (fun m => ¬ (m = rewardSchemes ∨ m = .strategy ∨ m = activations)) = some m →
      ¬ (m = pool ∨ m = stakeholder ∨ m = profiles ∨ m = reporters ∨ m = testSim)) ∧
    ((Interp.new.importAll ms).2 ≠ .done → (Interp.new.importAll ms).2 = .importError) ∧
    ((Interp.new.importAll ms).2 = .done → Intact (Interp.new.importAll ms).1 ∧ ∀ m ∈ ms, Full (Interp.new.importAll ms).1 m) := by
  rw [new_fresh]
  obtain ⟨h1, h2⟩ := fresh_importAll ms false false false
  refine ⟨?_, fun h => ?_, h2⟩
  · change _ ↔ runViz ∉ ms ∧ ∀ m, ms.find? (fun m => ¬ Independent m) = some m → ¬ NotFirst m
    rw [h1]
    split <;> simp_all
  · rw [h1] at h ⊢
    split at h
    · exact absurd rfl h
    · rw [if_neg]; assumption

/-- **C117** (one module): in a new interpreter, exactly these six modules cannot be imported. -/
theorem C117_one (m : PyModule) : (Interp.new.import m).2 = .done ↔ m ≠ pool ∧ m ≠ stakeholder ∧ m ≠ profiles ∧ m ≠ reporters ∧ m ≠ testSim ∧ m ≠ runViz := by
  cases m <;> decide +kernel

/-- **C117** (runViz.py): it cannot be imported, whatever has been imported before and whichever failures have been caught. -/
theorem C117_runViz (ms : List PyModule) (i : Nat) (h : ms[i]? = some runViz) : (Interp.new.collect ms).2[i]? = some .importError := by
  obtain ⟨hi, -⟩ := List.getElem?_eq_some_iff.1 h
  have hl : i < (Interp.new.collect ms).2.length := by rw [collect_length]; exact hi
  rw [List.getElem?_eq_getElem hl]
  have h1 := fresh_collect ms false false false
  rw [← new_fresh] at h1
  rw [(h1.2.2 i _ (List.getElem?_eq_getElem hl)).2 h]

/-- **C117** (caught failures): let a program import modules of the project one after the other and catch the failures, as pytest does when it collects tests.  In the end some module holds objects of a module that is not in `sys.modules` any more exactly if the first of the modules other than reward_schemes.py, strategy.py, custom_activations.py, pool.py, stakeholder.py, stakeholder_profiles.py and test_sim.py is model_reporters.py, and then these are pool.py, stakeholder.py and stakeholder_profiles.py.  Otherwise all modules are complete and hold objects of one another only. -/
theorem C117_caught (ms : List PyModule) :
    ((∃ m, (Interp.new.collect ms).1.torn m = true) ↔
      ms.find? (fun m => m ∉ [rewardSchemes, .strategy, activations, pool, stakeholder, profiles, testSim]) = some reporters) ∧
    ((∃ m, (Interp.new.collect ms).1.torn m = true) → ∀ m, (Interp.new.collect ms).1.torn m = true ↔ m = pool ∨ m = stakeholder ∨ m = profiles) ∧
    ((¬ ∃ m, (Interp.new.collect ms).1.torn m = true) → Intact (Interp.new.collect ms).1) := by
  have h1 := fresh_collect ms false false false
  rw [← new_fresh] at h1
  obtain ⟨h1, h2, -⟩ := h1
  have hf : (fun m => decide (m ∉ [rewardSchemes, .strategy, activations, pool, stakeholder, profiles, testSim])) = (fun m => decide (Decisive m)) := by
    funext m; cases m <;> decide
  rw [hf, h1]
  unfold tornBy at h2 ⊢
  split
  · refine ⟨⟨fun _ => by assumption, fun _ => ⟨pool, by decide⟩⟩, fun _ m => by simp [tornModules], fun h => absurd ⟨pool, by decide⟩ h⟩
  · rename_i h
    rw [if_neg h] at h2
    exact ⟨by simp [h], by simp, fun _ => h2 rfl⟩

/-- **C117** (the tests): when test files are collected one after the other, then test_sim.py fails as long as no other file has been collected before it; nothing else fails, and in the end all modules are complete and hold objects of one another only. -/
theorem C117_tests (ts : List PyModule) (ht : ∀ t ∈ ts, t = testHelper ∨ t = testReporters ∨ t = testSim ∨ t = testStakeholder) :
    (∀ (i : Nat) (t : PyModule), ts[i]? = some t → (Interp.new.collect ts).2[i]? = some (if (ts.take (i + 1)).all (fun t' => t' = testSim) then .importError else .done)) ∧
    Intact (Interp.new.collect ts).1 := by
  constructor
  · rw [new_fresh]
    revert ht
    induction ts with
    | nil => simp
    | cons m t ih =>
      intro ht i x hx
      have ht' := ht m List.mem_cons_self
      have ht'' : ∀ x ∈ t, _ := fun x h => ht x (List.mem_cons_of_mem _ h)
      rcases freshState_step false false false m with ⟨h1, -⟩ | ⟨-, rfl, -⟩ | ⟨-, h4, h3, h2⟩ | ⟨h1, h3, s', h2, h4, -⟩
      · exact absurd h1 (by rcases ht' with rfl | rfl | rfl | rfl <;> decide)
      · exact absurd ht' (by decide)
      · have hm : m = testSim := by rcases ht' with rfl | rfl | rfl | rfl <;> first | rfl | exact absurd h3 (by decide)
        subst hm
        cases i with
        | zero => simp [Interp.collect, h2]
        | succ i =>
          have := ih ht'' i x (by simpa using hx)
          simp only [Interp.collect, h2, List.getElem?_cons_succ]
          rw [this]
          simp
      · have hm : m ≠ testSim := by rintro rfl; exact h3 (by decide)
        have hv : ∀ y ∈ m :: t, y ≠ runViz := fun y hy => by rcases ht y hy with rfl | rfl | rfl | rfl <;> decide
        simp only [Interp.collect, h2, (settled_collect t h4).2]
        rw [← List.map_cons (f := fun m => if m = runViz then ImportOutcome.importError else .done), List.getElem?_map, hx, Option.map_some, if_neg (hv x (List.mem_of_getElem? hx)), if_neg]
        simp [hm]
  · refine (C117_caught ts).2.2 (fun h => ?_)
    have := (C117_caught ts).1.1 h
    have := ht _ (List.mem_of_find?_eq_some this)
    exact absurd this (by decide)

example : (Interp.new.collect [testSim, testHelper, testSim]).2 = [.importError, .done, .done] := by decide +kernel
example : (Interp.new.importAll [strategy, helper, pool, main]).2 = .done := by decide +kernel
example : (Interp.new.importAll [strategy, pool, helper]).2 = .importError := by decide +kernel
example : (Interp.new.collect [pool, reporters, testSim]).1.torn stakeholder = true := by decide +kernel

/-- **C117** (the depth): no import is cut short by the bound of the model. -/
theorem C117_never_too_deep (ms : List PyModule) : ∀ o ∈ (Interp.new.collect ms).2, o ≠ .tooDeep := by
  intro o ho
  rw [new_fresh] at ho
  obtain ⟨i, hi⟩ := List.mem_iff_getElem?.1 ho
  exact ((fresh_collect ms false false false).2.2 i o hi).1

end RSE.Props
