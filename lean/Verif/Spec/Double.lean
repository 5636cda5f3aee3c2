import Mathlib.Data.Real.Basic
import Mathlib.Data.Real.Archimedean
import Mathlib.Algebra.Order.Field.Power
import Verif.Model.Basic
/-!
# Independent specification: IEEE 754 double precision

The model of the code is written for an arbitrary number type with arbitrary operations.  Here is the number type the code
really uses: finite `double`s, with every operation rounded to nearest.  Nothing is assumed about ties (IEEE 754 takes the
even neighbour).  Not covered: overflow (exponents are not bounded above), infinities, NaN, the sign of zero; division by
zero gives some number here.
-/
namespace Seldon.Spec

/-- The finite double precision numbers (53 bits, gradual underflow at `2^-1074`), without the upper bound on exponents. -/
def IsDouble (x : ℝ) : Prop := ∃ m e : ℤ, |m| < 2 ^ 53 ∧ -1074 ≤ e ∧ x = m * (2 : ℝ) ^ e

/-- A way of rounding to a nearest double; ties may be broken in any way. -/
structure Rounding where
  round : ℝ → ℝ
  double : ∀ x, IsDouble (round x)
  nearest : ∀ x y, IsDouble y → |round x - x| ≤ |y - x|

/-- The doubles, with the arithmetic of rounding mode `R`. -/
structure Dbl (R : Rounding) where
  val : ℝ
  isDouble : IsDouble val

namespace Dbl
variable {R : Rounding}

theorem ext' {a b : Dbl R} (h : a.val = b.val) : a = b := by cases a; cases b; simp_all

/-- The correctly rounded result of an operation. -/
def ofReal (R : Rounding) (x : ℝ) : Dbl R := ⟨R.round x, R.double x⟩

theorem isDouble_zero : IsDouble 0 := ⟨0, 0, by norm_num, by norm_num, by norm_num⟩
theorem isDouble_one : IsDouble 1 := ⟨1, 0, by norm_num, by norm_num, by norm_num⟩
theorem isDouble_neg {x : ℝ} (h : IsDouble x) : IsDouble (-x) := by
  obtain ⟨m, e, h1, h2, rfl⟩ := h
  exact ⟨-m, e, by rwa [abs_neg], h2, by push_cast; ring⟩

instance : Zero (Dbl R) := ⟨⟨0, isDouble_zero⟩⟩
instance : One (Dbl R) := ⟨⟨1, isDouble_one⟩⟩
instance : Neg (Dbl R) := ⟨fun a => ⟨-a.val, isDouble_neg a.isDouble⟩⟩
noncomputable instance : Add (Dbl R) := ⟨fun a b => ofReal R (a.val + b.val)⟩
noncomputable instance : Sub (Dbl R) := ⟨fun a b => ofReal R (a.val - b.val)⟩
noncomputable instance : Mul (Dbl R) := ⟨fun a b => ofReal R (a.val * b.val)⟩
noncomputable instance : Div (Dbl R) := ⟨fun a b => ofReal R (a.val / b.val)⟩
noncomputable instance : NatCast (Dbl R) := ⟨fun n => ofReal R n⟩
noncomputable instance : IntCast (Dbl R) := ⟨fun n => ofReal R n⟩
instance : LT (Dbl R) := ⟨fun a b => a.val < b.val⟩
instance : LE (Dbl R) := ⟨fun a b => a.val ≤ b.val⟩
noncomputable instance : DecidableLT (Dbl R) := fun a b => inferInstanceAs (Decidable (a.val < b.val))
noncomputable instance : DecidableLE (Dbl R) := fun a b => inferInstanceAs (Decidable (a.val ≤ b.val))

end Dbl

/-- The same random generator, with its draws read as real numbers. -/
def exactRng {G : Type} {R : Rounding} (r : Rng G (Dbl R)) : Rng G ℝ where
  unit g := ((r.unit g).1.val, (r.unit g).2)
  int := r.int
  normal g := ((r.normal g).1.val, (r.normal g).2)

end Seldon.Spec
