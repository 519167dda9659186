import Verif.Py.Dict
import Mathlib.Data.List.Nodup
import Mathlib.Data.List.Perm.Basic

/-! Facts about insertion-ordered dictionaries. -/

namespace RSE.Dict
variable {V : Type}

@[simp] theorem get?_nil (k : Nat) : get? ([] : Dict V) k = none := rfl

theorem get?_cons (k' : Nat) (v : V) (t : Dict V) (k : Nat) :
    get? ((k', v) :: t) k = if k' = k then some v else get? t k := rfl

theorem get?_set (d : Dict V) (k k' : Nat) (v : V) : (d.set k v).get? k' = if k = k' then some v else d.get? k' := by
  induction d with
  | nil => simp [set, get?]
  | cons e t ih =>
    obtain ⟨a, b⟩ := e
    simp only [set]
    split
    · rename_i h; subst h; simp only [get?]; split <;> rfl
    · simp only [get?, ih]
      split
      · rename_i h1 h2; subst h2; rw [if_neg (fun h => h1 h.symm)]
      · rfl

@[simp] theorem get?_set_self (d : Dict V) (k : Nat) (v : V) : (d.set k v).get? k = some v := by simp [get?_set]

theorem get?_set_ne (d : Dict V) {k k' : Nat} (v : V) (h : k ≠ k') : (d.set k v).get? k' = d.get? k' := by simp [get?_set, h]

theorem get?_eq_none {d : Dict V} {k : Nat} : d.get? k = none ↔ k ∉ d.keys := by
  induction d with
  | nil => simp [keys]
  | cons e t ih =>
    obtain ⟨a, b⟩ := e
    simp only [get?, keys, List.map_cons, List.mem_cons, not_or]
    split
    · rename_i h; simp [h]
    · rename_i h; rw [ih]; simp only [keys]; exact ⟨fun h2 => ⟨fun h3 => h h3.symm, h2⟩, fun h2 => h2.2⟩

theorem mem_keys_iff {d : Dict V} {k : Nat} : k ∈ d.keys ↔ ∃ v, d.get? k = some v := by
  rw [← not_iff_not, ← get?_eq_none]
  cases h : d.get? k <;> simp

theorem mem_keys_of_get? {d : Dict V} {k : Nat} {v : V} (h : d.get? k = some v) : k ∈ d.keys :=
  mem_keys_iff.2 ⟨v, h⟩

theorem mem_of_get? {d : Dict V} {k : Nat} {v : V} (h : d.get? k = some v) : (k, v) ∈ d := by
  induction d with
  | nil => simp at h
  | cons e t ih =>
    obtain ⟨a, b⟩ := e
    simp only [get?] at h
    split at h
    · rename_i h1; subst h1; cases h; simp
    · exact List.mem_cons_of_mem _ (ih h)

theorem get?_of_mem {d : Dict V} (hd : d.keys.Nodup) {k : Nat} {v : V} (h : (k, v) ∈ d) : d.get? k = some v := by
  induction d with
  | nil => simp at h
  | cons e t ih =>
    obtain ⟨a, b⟩ := e
    simp only [keys, List.map_cons, List.nodup_cons] at hd
    rcases List.mem_cons.1 h with h | h
    · cases h; simp [get?]
    · have : a ≠ k := by
        rintro rfl
        exact hd.1 (List.mem_map.2 ⟨_, h, rfl⟩)
      simp only [get?, this, if_false]
      exact ih hd.2 h

theorem mem_iff_get? {d : Dict V} (hd : d.keys.Nodup) {k : Nat} {v : V} : (k, v) ∈ d ↔ d.get? k = some v :=
  ⟨get?_of_mem hd, mem_of_get?⟩

theorem contains_iff {d : Dict V} {k : Nat} : d.contains k = true ↔ k ∈ d.keys := by
  rw [contains, Option.isSome_iff_exists, mem_keys_iff]

theorem erase_of_not_mem {d : Dict V} {k : Nat} (h : k ∉ d.keys) : d.erase k = d := by
  induction d with
  | nil => rfl
  | cons e t ih =>
    obtain ⟨a, b⟩ := e
    simp only [keys, List.map_cons, List.mem_cons, not_or] at h
    simp only [erase, if_neg (fun h' : a = k => h.1 h'.symm)]
    rw [ih h.2]

theorem keys_erase_subset {d : Dict V} {k k' : Nat} (h : k' ∈ (d.erase k).keys) : k' ∈ d.keys := by
  induction d with
  | nil => exact h
  | cons e t ih =>
    obtain ⟨a, b⟩ := e
    simp only [erase] at h
    split at h
    · exact List.mem_cons_of_mem _ h
    · rcases List.mem_cons.1 h with h | h
      · exact h ▸ List.mem_cons_self
      · exact List.mem_cons_of_mem _ (ih h)

theorem nodup_erase {d : Dict V} (hd : d.keys.Nodup) (k : Nat) : (d.erase k).keys.Nodup := by
  induction d with
  | nil => exact hd
  | cons e t ih =>
    obtain ⟨a, b⟩ := e
    simp only [keys, List.map_cons, List.nodup_cons] at hd
    simp only [erase]
    split
    · exact hd.2
    · simp only [keys, List.map_cons, List.nodup_cons]
      exact ⟨fun h => hd.1 (keys_erase_subset h), ih hd.2⟩

theorem get?_erase {d : Dict V} (hd : d.keys.Nodup) (k k' : Nat) :
    (d.erase k).get? k' = if k = k' then none else d.get? k' := by
  induction d with
  | nil => simp [erase]
  | cons e t ih =>
    obtain ⟨a, b⟩ := e
    simp only [keys, List.map_cons, List.nodup_cons] at hd
    simp only [erase]
    split
    · rename_i h; subst h
      split
      · rename_i h2; subst h2; exact get?_eq_none.2 hd.1
      · rename_i h2; simp [get?, h2]
    · rename_i h
      simp only [get?, ih hd.2]
      split
      · rename_i h2; subst h2; rw [if_neg (fun h' => h h'.symm)]
      · rfl

theorem get?_erase_ne (d : Dict V) {k k' : Nat} (h : k ≠ k') : (d.erase k).get? k' = d.get? k' := by
  induction d with
  | nil => rfl
  | cons e t ih =>
    obtain ⟨a, b⟩ := e
    simp only [erase]
    split
    · rename_i h1; subst h1; simp [get?, h]
    · simp only [get?, ih]

theorem keys_set (d : Dict V) (k k' : Nat) (v : V) : k' ∈ (d.set k v).keys ↔ k' = k ∨ k' ∈ d.keys := by
  simp only [mem_keys_iff, get?_set]
  by_cases h : k = k'
  · simp [h]
  · have h' : ¬ k' = k := fun e => h e.symm
    simp [h, h']

theorem nodup_set {d : Dict V} (hd : d.keys.Nodup) (k : Nat) (v : V) : (d.set k v).keys.Nodup := by
  induction d with
  | nil => simp [set, keys]
  | cons e t ih =>
    obtain ⟨a, b⟩ := e
    have hd' := hd
    simp only [keys, List.map_cons, List.nodup_cons] at hd
    simp only [set]
    split
    · exact hd'
    · rename_i h
      simp only [keys, List.map_cons, List.nodup_cons]
      refine ⟨fun h1 => ?_, ih hd.2⟩
      rcases (keys_set t k a v).1 h1 with h2 | h2
      · exact h h2
      · exact hd.1 h2

theorem perm_cons_erase {d : Dict V} {k : Nat} {v : V} (h : d.get? k = some v) : d.Perm ((k, v) :: d.erase k) := by
  induction d with
  | nil => simp at h
  | cons e t ih =>
    obtain ⟨a, b⟩ := e
    simp only [get?] at h
    simp only [erase]
    split
    · rename_i h1; subst h1; simp at h; subst h; exact List.Perm.refl _
    · rename_i h1; simp only [h1, if_false] at h
      exact ((ih h).cons _).trans (List.Perm.swap _ _ _)

theorem set_perm (d : Dict V) (k : Nat) (v : V) : (d.set k v).Perm ((k, v) :: d.erase k) := by
  induction d with
  | nil => exact List.Perm.refl _
  | cons e t ih =>
    obtain ⟨a, b⟩ := e
    simp only [set, erase]
    split
    · rename_i h1; subst h1; exact List.Perm.refl _
    · exact (ih.cons _).trans (List.Perm.swap _ _ _)

theorem set_erase_of_not_mem {d : Dict V} {k : Nat} (h : k ∉ d.keys) (v : V) : (d.set k v).erase k = d := by
  induction d with
  | nil => simp [set, erase]
  | cons e t ih =>
    obtain ⟨a, b⟩ := e
    simp only [keys, List.map_cons, List.mem_cons, not_or] at h
    have h1 : a ≠ k := fun e => h.1 e.symm
    simp only [set, h1, if_false, erase, ih h.2]

theorem set_erase (d : Dict V) (k : Nat) (v : V) : (d.set k v).erase k = d.erase k := by
  induction d with
  | nil => simp [set, erase]
  | cons e t ih =>
    obtain ⟨a, b⟩ := e
    simp only [set]
    split
    · rename_i h; simp [erase, h]
    · rename_i h; simp [erase, h, ih]

theorem getE_ok {d : Dict V} {k : Nat} {v : V} : d.getE k = .ok v ↔ d.get? k = some v := by
  unfold getE; cases h : d.get? k <;> simp

theorem getE_of {d : Dict V} {k : Nat} {v : V} (h : d.get? k = some v) : d.getE k = .ok v := getE_ok.2 h

theorem getE_none {d : Dict V} {k : Nat} (h : d.get? k = none) : d.getE k = .error .key := by
  unfold getE; simp [h]

theorem popE_of {d : Dict V} {k : Nat} {v : V} (h : d.get? k = some v) : d.popE k = .ok (d.erase k) := by
  unfold popE; simp [h]

theorem keys_map_snd {W : Type} (d : Dict V) (f : Nat → V → W) : keys (d.map (fun e => (e.1, f e.1 e.2))) = d.keys := by
  simp [keys, Function.comp_def]

theorem get?_map_snd {W : Type} (d : Dict V) (f : Nat → V → W) (k : Nat) :
    get? (d.map (fun e => (e.1, f e.1 e.2))) k = (d.get? k).map (f k) := by
  induction d with
  | nil => rfl
  | cons e t ih =>
    obtain ⟨a, b⟩ := e
    simp only [List.map_cons, get?, ih]
    split
    · rename_i h; subst h; rfl
    · rfl

end RSE.Dict
