import Verif.Py.Basic

/-! A small program logic for computations that may raise. -/

namespace RSE

/-- `x` returns a value satisfying `P`, or raises an error allowed by `E`. -/
def Sat {α : Type} (E : Err → Prop) (x : Py α) (P : α → Prop) : Prop :=
  match x with
  | .ok a => P a
  | .error e => E e

namespace Sat
variable {α β : Type} {E E' : Err → Prop} {P Q : α → Prop}

theorem ok_iff {a : α} : Sat E (.ok a) P ↔ P a := Iff.rfl
theorem error_iff {e : Err} : Sat E (.error e : Py α) P ↔ E e := Iff.rfl
theorem pure_iff {a : α} : Sat E (pure a : Py α) P ↔ P a := Iff.rfl

theorem bind {x : Py α} {f : α → Py β} {R : β → Prop} (h : Sat E x P) (hf : ∀ a, P a → Sat E (f a) R) : Sat E (x >>= f) R := by
  cases x with
  | error e => exact h
  | ok a => exact hf a h

theorem mono {x : Py α} (h : Sat E x P) (hE : ∀ e, E e → E' e) (hP : ∀ a, P a → Q a) : Sat E' x Q := by
  cases x with
  | error e => exact hE _ h
  | ok a => exact hP _ h

theorem imp {x : Py α} (h : Sat E x P) (hP : ∀ a, P a → Q a) : Sat E x Q := h.mono (fun _ h => h) hP

theorem and {x : Py α} (h : Sat E x P) (h' : Sat E' x Q) : Sat (fun e => E e ∧ E' e) x (fun a => P a ∧ Q a) := by
  cases x with
  | error e => exact ⟨h, h'⟩
  | ok a => exact ⟨h, h'⟩

theorem of_ok {x : Py α} {a : α} (h : Sat E x P) (e : x = .ok a) : P a := by subst e; exact h
theorem of_error {x : Py α} {e : Err} (h : Sat E x P) (he : x = .error e) : E e := by subst he; exact h

theorem intro {x : Py α} (h : ∀ a, x = .ok a → P a) (h' : ∀ e, x = .error e → E e) : Sat E x P := by
  cases x with
  | error e => exact h' _ rfl
  | ok a => exact h _ rfl

/-- strengthening with knowledge about the result -/
theorem and_ok {x : Py α} (h : Sat E x P) (h' : ∀ a, x = .ok a → Q a) : Sat E x (fun a => P a ∧ Q a) := by
  cases x with
  | error e => exact h
  | ok a => exact ⟨h, h' _ rfl⟩

theorem map {x : Py α} {f : α → β} {R : β → Prop} (h : Sat E x P) (hf : ∀ a, P a → R (f a)) : Sat E (x.map f) R := by
  cases x with
  | error e => exact h
  | ok a => exact hf a h

end Sat
end RSE
