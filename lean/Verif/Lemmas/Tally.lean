import Verif.Lemmas.Metrics
import Mathlib.Algebra.BigOperators.Group.List.Basic
import Mathlib.Data.List.Count

/-!
# Lemmas on counting dictionaries, medians and rounding
-/

set_option linter.unusedSectionVars false

namespace RSE

section tally
variable {α M : Type} [AddCommMonoid M]

/-- `d[f(p)] += g(p)` for all `p`, starting from 0 -/
def tally (f : α → Nat) (g : α → M) (d : Dict M) (l : List α) : Dict M :=
  l.foldl (fun d p => d.set (f p) ((d.get? (f p)).getD 0 + g p)) d

/-- the sum of `g` over the elements with key `a` -/
def sumOver (f : α → Nat) (g : α → M) (l : List α) (a : Nat) : M := (l.map (fun p => if f p = a then g p else 0)).sum

theorem tally_nodup (f : α → Nat) (g : α → M) : ∀ (l : List α) (d : Dict M), d.keys.Nodup → (tally f g d l).keys.Nodup
  | [], _, h => h
  | _ :: t, _, h => tally_nodup f g t _ (Dict.nodup_set h _ _)

theorem tally_mem (f : α → Nat) (g : α → M) (a : Nat) : ∀ (l : List α) (d : Dict M), a ∈ (tally f g d l).keys ↔ a ∈ d.keys ∨ a ∈ l.map f
  | [], d => by simp [tally]
  | p :: t, d => by
    have := tally_mem f g a t (d.set (f p) ((d.get? (f p)).getD 0 + g p))
    rw [Dict.keys_set] at this
    unfold tally at this ⊢
    rw [List.foldl_cons, this, List.map_cons, List.mem_cons]
    tauto

theorem tally_get (f : α → Nat) (g : α → M) (a : Nat) : ∀ (l : List α) (d : Dict M),
    ((tally f g d l).get? a).getD 0 = (d.get? a).getD 0 + sumOver f g l a
  | [], d => by simp [tally, sumOver]
  | p :: t, d => by
    have := tally_get f g a t (d.set (f p) ((d.get? (f p)).getD 0 + g p))
    unfold tally at this ⊢
    rw [List.foldl_cons, this, Dict.get?_set]
    unfold sumOver
    rw [List.map_cons, List.sum_cons]
    split
    · rename_i h
      subst h
      simp [add_assoc]
    · simp

theorem Dict.vals_eq {V : Type} [Zero V] {d : Dict V} (h : d.keys.Nodup) : d.vals = d.keys.map (fun a => (d.get? a).getD 0) := by
  simp only [Dict.vals, Dict.keys, List.map_map]
  refine List.map_congr_left (fun e he => ?_)
  simp [Dict.get?_of_mem h he]

/-- the values of the counting dictionary: one sum per key that occurs -/
theorem tally_vals (f : α → Nat) (g : α → M) (l : List α) : (tally f g [] l).vals.Perm ((l.map f).dedup.map (sumOver f g l)) := by
  have hn : (tally f g [] l).keys.Nodup := tally_nodup f g l [] (by simp [Dict.keys])
  have hk : (tally f g [] l).keys.Perm (l.map f).dedup := by
    rw [List.perm_ext_iff_of_nodup hn (List.nodup_dedup _)]
    intro a
    rw [tally_mem, List.mem_dedup]
    simp [Dict.keys]
  rw [Dict.vals_eq hn]
  refine (hk.map _).trans (List.Perm.of_eq (List.map_congr_left (fun a _ => ?_)))
  rw [tally_get]
  simp

end tally

theorem foldl_map_set (l : List Nat) : counter l = tally id (fun _ => 1) [] l := rfl

section median
variable {K : Type} [Field K] [LinearOrder K] [IsStrictOrderedRing K]

theorem sorted_asc (l : List K) : (l.insertionSort (· ≤ ·)).Pairwise (· ≤ ·) := by
  have : Std.Total (α := K) (· ≤ ·) := ⟨fun a b => le_total a b⟩
  have : IsTrans K (· ≤ ·) := ⟨fun a b c h g => le_trans h g⟩
  exact List.pairwise_insertionSort _ _

theorem sorted_get_le {l : List K} (h : l.Pairwise (· ≤ ·)) {i j : Nat} (hij : i ≤ j) (hj : j < l.length) : l[i]'(by omega) ≤ l[j] := by
  rcases Nat.eq_or_lt_of_le hij with rfl | hlt
  · exact le_refl _
  · exact List.pairwise_iff_getElem.1 h i j _ hj hlt

theorem count_le {l : List K} (h : l.Pairwise (· ≤ ·)) {m : K} {j : Nat} (hj : j < l.length) (hm : l[j] ≤ m) : j + 1 ≤ l.countP (fun x => decide (x ≤ m)) := by
  have h1 : (l.take (j + 1)).countP (fun x => decide (x ≤ m)) = (l.take (j + 1)).length := by
    rw [List.countP_eq_length]
    intro x hx
    obtain ⟨i, hi, rfl⟩ := List.getElem_of_mem hx
    rw [List.length_take] at hi
    rw [List.getElem_take, decide_eq_true_eq]
    exact (sorted_get_le h (by omega) hj).trans hm
  have h2 := (List.take_sublist (j + 1) l).countP_le (p := fun x => decide (x ≤ m))
  rw [h1, List.length_take] at h2
  omega

theorem count_ge {l : List K} (h : l.Pairwise (· ≤ ·)) {m : K} {j : Nat} (hj : j < l.length) (hm : m ≤ l[j]) :
    l.length - j ≤ l.countP (fun x => decide (m ≤ x)) := by
  have h1 : (l.drop j).countP (fun x => decide (m ≤ x)) = (l.drop j).length := by
    rw [List.countP_eq_length]
    intro x hx
    obtain ⟨i, hi, rfl⟩ := List.getElem_of_mem hx
    rw [List.length_drop] at hi
    rw [List.getElem_drop, decide_eq_true_eq]
    exact hm.trans (sorted_get_le h (by omega) (by omega))
  have h2 := (List.drop_sublist j l).countP_le (p := fun x => decide (m ≤ x))
  rw [h1, List.length_drop] at h2
  omega

/-- the median of a non-empty list: at least half of the values are at most it, at least half are at least it -/
theorem medianOf_spec {l : List K} (hne : l ≠ []) : ∃ m, medianOf l = .ok m ∧
    l.length ≤ 2 * l.countP (fun x => decide (x ≤ m)) ∧ l.length ≤ 2 * l.countP (fun x => decide (m ≤ x)) ∧
    ∀ lo hi : K, (∀ x ∈ l, lo ≤ x ∧ x ≤ hi) → lo ≤ m ∧ m ≤ hi := by
  set d := l.insertionSort (· ≤ ·) with hd
  have hp : d.Perm l := List.perm_insertionSort _ _
  have hs : d.Pairwise (· ≤ ·) := sorted_asc l
  have hlen : d.length = l.length := hp.length_eq
  have hpos : 0 < l.length := List.length_pos_iff.2 hne
  have hmem : ∀ (i : Nat) (hi : i < d.length), d[i] ∈ l := fun i hi => hp.mem_iff.1 (List.getElem_mem hi)
  simp only [← hp.countP_eq]
  unfold medianOf
  simp only [← hd]
  rw [if_neg (by omega)]
  by_cases hodd : d.length % 2 = 1
  · rw [if_pos hodd, List.getElem?_eq_getElem (by omega)]
    refine ⟨_, rfl, ?_, ?_, fun lo hi h => h _ (hmem _ _)⟩
    · have := count_le hs (by omega : d.length / 2 < d.length) (le_refl _)
      omega
    · have := count_ge hs (by omega : d.length / 2 < d.length) (le_refl _)
      omega
  · rw [if_neg hodd, List.getElem?_eq_getElem (by omega), List.getElem?_eq_getElem (by omega)]
    have hle := sorted_get_le hs (by omega : d.length / 2 - 1 ≤ d.length / 2) (by omega)
    refine ⟨_, rfl, ?_, ?_, fun lo hi h => ?_⟩
    · have := count_le hs (by omega : d.length / 2 - 1 < d.length) (m := (d[d.length / 2 - 1] + d[d.length / 2]) / ((2 : Nat) : K)) (by
        rw [two_cast]; linarith)
      omega
    · have := count_ge hs (by omega : d.length / 2 < d.length) (m := (d[d.length / 2 - 1] + d[d.length / 2]) / ((2 : Nat) : K)) (by
        rw [two_cast]; linarith)
      omega
    · have h1 := h _ (hmem (d.length / 2 - 1) (by omega))
      have h2 := h _ (hmem (d.length / 2) (by omega))
      rw [two_cast]
      constructor <;> linarith

theorem meanOf_spec {l : List K} (hne : l ≠ []) : ∃ m, meanOf l = .ok m ∧ m * (l.length : K) = l.sum ∧
    ∀ lo hi : K, (∀ x ∈ l, lo ≤ x ∧ x ≤ hi) → lo ≤ m ∧ m ≤ hi := by
  have hpos : (0 : K) < (l.length : K) := by exact_mod_cast List.length_pos_iff.2 hne
  refine ⟨l.sum / (l.length : K), ?_, div_mul_cancel₀ _ hpos.ne', ?_⟩
  · unfold meanOf
    rw [if_neg (by simpa using hne)]; rfl
  · intro lo hi h
    rw [le_div_iff₀ hpos, div_le_iff₀ hpos]
    have hb : ∀ (l : List K), (∀ x ∈ l, lo ≤ x ∧ x ≤ hi) → lo * (l.length : K) ≤ l.sum ∧ l.sum ≤ hi * (l.length : K) := by
      intro l
      induction l with
      | nil => intro _; simp
      | cons x t ih =>
        intro h
        have h1 := h x (by simp)
        have h2 := ih (fun y hy => h y (by simp [hy]))
        rw [List.sum_cons, List.length_cons]
        push_cast
        constructor <;> linarith
    exact hb l h

end median

theorem roundHalfEven_mem {q : ℚ} {a b : Int} (h1 : (a : ℚ) ≤ q) (h2 : q ≤ b) : a ≤ roundHalfEven q ∧ roundHalfEven q ≤ b := by
  have hf1 : a ≤ ⌊q⌋ := Int.le_floor.2 h1
  have hf2 : ⌊q⌋ ≤ b := by
    have : (⌊q⌋ : ℚ) ≤ b := (Int.floor_le q).trans h2
    exact_mod_cast this
  have hup : ¬ q - ⌊q⌋ < 1 / 2 → ⌊q⌋ + 1 ≤ b := by
    intro h
    by_contra hc
    push Not at hc
    have : ⌊q⌋ = b := by omega
    apply h
    rw [this]; linarith
  unfold roundHalfEven
  simp only
  split
  · exact ⟨hf1, hf2⟩
  · rename_i h
    have := hup h
    split
    · omega
    · split <;> omega

end RSE
