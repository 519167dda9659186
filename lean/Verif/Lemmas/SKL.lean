import Verif.Py.SortedKeyList
import Mathlib.Data.List.Perm.Basic

/-! Facts about sorted key lists. -/

namespace RSE.SKL
variable {K V : Type} [LinearOrder K]

theorem add_perm (k : K) (v : V) (l : SKL K V) : (add k v l).Perm ((k, v) :: l) := by
  induction l with
  | nil => exact List.Perm.refl _
  | cons e t ih =>
    obtain ⟨a, b⟩ := e
    simp only [add]
    split
    · exact List.Perm.refl _
    · exact (ih.cons _).trans (List.Perm.swap _ _ _)

theorem sorted_add {l : SKL K V} (h : Sorted l) (k : K) (v : V) : Sorted (add k v l) := by
  induction l with
  | nil => exact List.pairwise_singleton _ _
  | cons e t ih =>
    obtain ⟨a, b⟩ := e
    unfold Sorted at h ih ⊢
    rw [List.pairwise_cons] at h
    simp only [add]
    split
    · rename_i hk
      refine List.pairwise_cons.2 ⟨?_, List.pairwise_cons.2 h⟩
      intro x hx
      rcases List.mem_cons.1 hx with rfl | hx
      · exact le_of_lt hk
      · exact le_trans (le_of_lt hk) (h.1 x hx)
    · rename_i hk
      refine List.pairwise_cons.2 ⟨?_, ih h.2⟩
      intro x hx
      rcases List.mem_cons.1 ((add_perm k v t).mem_iff.1 hx) with rfl | hx
      · exact not_lt.1 hk
      · exact h.1 x hx

theorem remove_ok [DecidableEq V] {l : SKL K V} (h : Sorted l) {k : K} {v : V} (hm : (k, v) ∈ l) :
    ∃ l', remove k v l = .ok l' ∧ l.Perm ((k, v) :: l') ∧ Sorted l' := by
  induction l with
  | nil => simp at hm
  | cons e t ih =>
    obtain ⟨a, b⟩ := e
    unfold Sorted at h ih
    rw [List.pairwise_cons] at h
    simp only [remove]
    by_cases hab : a = k ∧ b = v
    · obtain ⟨rfl, rfl⟩ := hab
      refine ⟨t, by simp, List.Perm.refl _, h.2⟩
    · have hm' : (k, v) ∈ t := by
        rcases List.mem_cons.1 hm with hm | hm
        · cases hm; exact absurd ⟨rfl, rfl⟩ hab
        · exact hm
      obtain ⟨l', h1, h2, h3⟩ := ih h.2 hm'
      have hk : ¬ k < a := not_lt.2 (h.1 _ hm')
      refine ⟨(a, b) :: l', by simp [hk, hab, h1, Except.map], ?_, ?_⟩
      · exact (h2.cons _).trans (List.Perm.swap _ _ _)
      · refine List.pairwise_cons.2 ⟨fun x hx => h.1 x ?_, h3⟩
        exact h2.mem_iff.2 (List.mem_cons_of_mem _ hx)

theorem index_ok [DecidableEq V] {l : SKL K V} (h : Sorted l) {k : K} {v : V} (hm : (k, v) ∈ l) :
    ∃ i, index k v l = .ok i ∧ l[i]? = some (k, v) ∧ ∀ e ∈ l.take i, e ≠ (k, v) ∧ e.1 ≤ k := by
  induction l with
  | nil => simp at hm
  | cons e t ih =>
    obtain ⟨a, b⟩ := e
    unfold Sorted at h ih
    rw [List.pairwise_cons] at h
    simp only [index]
    by_cases hab : a = k ∧ b = v
    · obtain ⟨rfl, rfl⟩ := hab
      exact ⟨0, by simp, by simp, by simp⟩
    · have hm' : (k, v) ∈ t := by
        rcases List.mem_cons.1 hm with hm | hm
        · cases hm; exact absurd ⟨rfl, rfl⟩ hab
        · exact hm
      obtain ⟨i, h1, h2, h3⟩ := ih h.2 hm'
      have hk : ¬ k < a := not_lt.2 (h.1 _ hm')
      refine ⟨i + 1, by simp [hk, hab, h1, Except.map], by simpa using h2, ?_⟩
      intro x hx
      rw [List.take_succ_cons] at hx
      rcases List.mem_cons.1 hx with rfl | hx
      · exact ⟨fun he => hab (by cases he; exact ⟨rfl, rfl⟩), not_lt.1 hk⟩
      · exact h3 x hx

end RSE.SKL
