import Verif.Py.Binary64
import Verif.Model.Helper
import Mathlib.Algebra.Order.Field.Basic

/-!
# Rounded arithmetic

What survives when every operation rounds to nearest: operations are monotone, and those whose exact result needs no rounding are exact.  Associativity,
distributivity and `(a + b) - b = a` do not survive.  Both exact arithmetic and binary64 are instances.
-/

namespace RSE

/-- laws that hold for exact arithmetic and for arithmetic that rounds -/
class RoundedArith (F : Type) [LinearOrder F] [Zero F] [One F] [Add F] [Sub F] [Mul F] [Div F] [Neg F] [NatCast F] [FSum F] : Prop where
  zero_lt_one : (0 : F) < 1
  add_zero : ∀ a : F, a + 0 = a
  zero_add : ∀ a : F, 0 + a = a
  add_mono : ∀ {a b c d : F}, a ≤ b → c ≤ d → a + c ≤ b + d
  sub_zero : ∀ a : F, a - 0 = a
  sub_self : ∀ a : F, a - a = 0
  sub_mono : ∀ {a b c d : F}, a ≤ b → c ≤ d → a - d ≤ b - c
  mul_one : ∀ a : F, a * 1 = a
  one_mul : ∀ a : F, 1 * a = a
  mul_zero : ∀ a : F, a * 0 = 0
  zero_mul : ∀ a : F, 0 * a = 0
  mul_left_mono : ∀ {a b c : F}, 0 ≤ c → a ≤ b → c * a ≤ c * b
  mul_right_mono : ∀ {a b c : F}, 0 ≤ c → a ≤ b → a * c ≤ b * c
  div_one : ∀ a : F, a / 1 = a
  zero_div : ∀ a : F, 0 / a = 0
  div_self : ∀ {a : F}, a ≠ 0 → a / a = 1
  div_mono : ∀ {a b c d : F}, 0 ≤ a → a ≤ b → 0 < c → c ≤ d → a / d ≤ b / c
  div_right_mono : ∀ {a b c : F}, 0 < c → a ≤ b → a / c ≤ b / c
  neg_mono : ∀ {a b : F}, a ≤ b → -b ≤ -a
  neg_zero : -(0 : F) = 0
  cast_zero : ((0 : Nat) : F) = 0
  cast_one : ((1 : Nat) : F) = 1
  cast_mono : ∀ {m n : Nat}, m ≤ n → (m : F) ≤ (n : F)
  fsum_nonneg : ∀ {l : List F}, (∀ x ∈ l, 0 ≤ x) → 0 ≤ FSum.fsum l
  minUnit_pos : (0 : F) < minUnit
  boost_pos : (0 : F) < boost

/-- exact arithmetic is an instance -/
instance (priority := 50) {K : Type} [Field K] [LinearOrder K] [IsStrictOrderedRing K] : RoundedArith K where
  zero_lt_one := _root_.zero_lt_one
  add_zero := _root_.add_zero
  zero_add := _root_.zero_add
  add_mono := add_le_add
  sub_zero := _root_.sub_zero
  sub_self := _root_.sub_self
  sub_mono := sub_le_sub
  mul_one := _root_.mul_one
  one_mul := _root_.one_mul
  mul_zero := MulZeroClass.mul_zero
  zero_mul := MulZeroClass.zero_mul
  mul_left_mono := fun hc h => mul_le_mul_of_nonneg_left h hc
  mul_right_mono := fun hc h => mul_le_mul_of_nonneg_right h hc
  div_one := _root_.div_one
  zero_div := _root_.zero_div
  div_self := _root_.div_self
  div_mono := fun ha hab hc hcd => div_le_div₀ (ha.trans hab) hab hc hcd
  div_right_mono := fun hc h => div_le_div_of_nonneg_right h hc.le
  neg_mono := neg_le_neg
  neg_zero := _root_.neg_zero
  cast_zero := Nat.cast_zero
  cast_one := Nat.cast_one
  cast_mono := fun h => Nat.cast_le.2 h
  fsum_nonneg := fun {l} h => by
    change 0 ≤ l.sum
    induction l with
    | nil => exact le_rfl
    | cons a l ih =>
      rw [List.sum_cons]
      exact _root_.add_nonneg (h a List.mem_cons_self) (ih (fun x hx => h x (List.mem_cons_of_mem _ hx)))
  minUnit_pos := by unfold minUnit; apply div_pos <;> exact Nat.cast_pos.2 (by norm_num)
  boost_pos := by unfold boost; apply div_pos <;> exact Nat.cast_pos.2 (by norm_num)

namespace RoundedArith

variable {F : Type} [LinearOrder F] [Zero F] [One F] [Add F] [Sub F] [Mul F] [Div F] [Neg F] [NatCast F] [FSum F] [RoundedArith F]

theorem add_nonneg {a b : F} (ha : 0 ≤ a) (hb : 0 ≤ b) : 0 ≤ a + b := by have := add_mono ha hb; rwa [zero_add] at this
theorem le_add {a b : F} (hb : 0 ≤ b) : a ≤ a + b := by have := add_mono (le_refl a) hb; rwa [add_zero] at this
theorem sub_le {a b : F} (hb : 0 ≤ b) : a - b ≤ a := by have := sub_mono (le_refl a) hb; rwa [sub_zero] at this
theorem sub_nonneg {a b : F} (h : b ≤ a) : 0 ≤ a - b := by have := sub_mono h (le_refl b); rwa [sub_self] at this
theorem mul_nonneg {a b : F} (ha : 0 ≤ a) (hb : 0 ≤ b) : 0 ≤ a * b := by have := mul_left_mono ha hb; rwa [mul_zero] at this
theorem mul_nonpos {a b : F} (ha : 0 ≤ a) (hb : b ≤ 0) : a * b ≤ 0 := by have := mul_left_mono ha hb; rwa [mul_zero] at this
theorem div_nonneg {a b : F} (ha : 0 ≤ a) (hb : 0 < b) : 0 ≤ a / b := by have := div_mono (le_refl 0) ha hb (le_refl b); rwa [zero_div] at this
theorem div_le {a b : F} (ha : 0 ≤ a) (hb : 1 ≤ b) : a / b ≤ a := by have := div_mono ha (le_refl a) zero_lt_one hb; rwa [div_one] at this
theorem one_le_cast {n : Nat} (h : n ≠ 0) : (1 : F) ≤ (n : F) := by
  have := cast_mono (F := F) (Nat.one_le_iff_ne_zero.2 h); rwa [cast_one] at this
theorem cast_nonneg (n : Nat) : (0 : F) ≤ (n : F) := by have := cast_mono (F := F) (Nat.zero_le n); rwa [cast_zero] at this

end RoundedArith

namespace B64

theorem round64_natCast {n : Nat} (h : n ≤ 2 ^ 53) : round64 (n : ℚ) = (n : ℚ) :=
  round64_of_fits ⟨(n : Int), 0, by simpa using h, by norm_num, by simp⟩

theorem one_val : (1 : B64).1 = 1 := by
  have := round64_natCast (n := 1) (by norm_num)
  rw [Nat.cast_one] at this
  exact this

theorem le_def {a b : B64} : a ≤ b ↔ a.1 ≤ b.1 := Iff.rfl
theorem lt_def {a b : B64} : a < b ↔ a.1 < b.1 := Iff.rfl

/-- binary64 is an instance -/
instance : RoundedArith B64 where
  zero_lt_one := by rw [lt_def, one_val]; exact _root_.zero_lt_one
  add_zero := fun a => Subtype.ext (by change round64 (a.1 + 0) = a.1; rw [_root_.add_zero, a.2])
  zero_add := fun a => Subtype.ext (by change round64 (0 + a.1) = a.1; rw [_root_.zero_add, a.2])
  add_mono := fun h1 h2 => round64_mono (add_le_add h1 h2)
  sub_zero := fun a => Subtype.ext (by change round64 (a.1 - 0) = a.1; rw [_root_.sub_zero, a.2])
  sub_self := fun a => Subtype.ext (by change round64 (a.1 - a.1) = 0; rw [_root_.sub_self, round64_zero])
  sub_mono := fun h1 h2 => round64_mono (sub_le_sub h1 h2)
  mul_one := fun a => Subtype.ext (by change round64 (a.1 * (1 : B64).1) = a.1; rw [one_val, _root_.mul_one, a.2])
  one_mul := fun a => Subtype.ext (by change round64 ((1 : B64).1 * a.1) = a.1; rw [one_val, _root_.one_mul, a.2])
  mul_zero := fun a => Subtype.ext (by change round64 (a.1 * 0) = 0; rw [MulZeroClass.mul_zero, round64_zero])
  zero_mul := fun a => Subtype.ext (by change round64 (0 * a.1) = 0; rw [MulZeroClass.zero_mul, round64_zero])
  mul_left_mono := fun hc h => round64_mono (mul_le_mul_of_nonneg_left (le_def.1 h) (le_def.1 hc))
  mul_right_mono := fun hc h => round64_mono (mul_le_mul_of_nonneg_right (le_def.1 h) (le_def.1 hc))
  div_one := fun a => Subtype.ext (by change round64 (a.1 / (1 : B64).1) = a.1; rw [one_val, _root_.div_one, a.2])
  zero_div := fun a => Subtype.ext (by change round64 (0 / a.1) = 0; rw [_root_.zero_div, round64_zero])
  div_self := fun {a} ha => Subtype.ext (by
    change round64 (a.1 / a.1) = (1 : B64).1
    rw [_root_.div_self (fun h => ha (Subtype.ext h))]; rfl)
  div_mono := fun ha hab hc hcd => round64_mono (div_le_div₀ (le_def.1 (ha.trans hab)) hab hc hcd)
  div_right_mono := fun hc h => round64_mono (div_le_div_of_nonneg_right (le_def.1 h) (le_def.1 (le_of_lt hc)))
  neg_mono := fun h => neg_le_neg (le_def.1 h)
  neg_zero := Subtype.ext (by change -(0 : ℚ) = 0; exact _root_.neg_zero)
  cast_zero := Subtype.ext (by change round64 ((0 : Nat) : ℚ) = 0; rw [Nat.cast_zero, round64_zero])
  cast_one := Subtype.ext (by change round64 ((1 : Nat) : ℚ) = (1 : B64).1; rw [Nat.cast_one]; rfl)
  cast_mono := fun h => round64_mono (Nat.cast_le.2 h)
  fsum_nonneg := fun {l} h => round64_nonneg (by
    induction l with
    | nil => exact le_rfl
    | cons a l ih =>
      rw [List.map_cons, List.sum_cons]
      exact _root_.add_nonneg (h a List.mem_cons_self) (ih (fun x hx => h x (List.mem_cons_of_mem _ hx))))
  minUnit_pos := by decide +kernel
  boost_pos := by decide +kernel

end B64

end RSE
