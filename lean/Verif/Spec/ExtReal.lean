import Verif.Model.Sampling
import Mathlib.Analysis.SpecialFunctions.Log.Basic
import Mathlib.Analysis.SpecialFunctions.Pow.Real
/-!
# Exact arithmetic with the IEEE special values

Real numbers extended by `+inf`, `-inf` and NaN, with the IEEE-754 / C `<cmath>` conventions for the special values
(a single, positive, zero; no rounding, no overflow).
-/
namespace Seldon.Spec

inductive XR where
  | fin (x : ℝ)
  | pinf
  | ninf
  | nan

namespace XR
open Classical

noncomputable section

/-- The infinity with the sign of `s` (NaN for 0). -/
def signed (s : ℝ) : XR := if 0 < s then pinf else if s < 0 then ninf else nan

def neg : XR → XR
  | fin x => fin (-x) | pinf => ninf | ninf => pinf | nan => nan

def add : XR → XR → XR
  | fin x, fin y => fin (x + y)
  | pinf, fin _ | fin _, pinf | pinf, pinf => pinf
  | ninf, fin _ | fin _, ninf | ninf, ninf => ninf
  | _, _ => nan

def mul : XR → XR → XR
  | fin x, fin y => fin (x * y)
  | pinf, fin y | fin y, pinf => signed y
  | ninf, fin y | fin y, ninf => signed (-y)
  | pinf, pinf | ninf, ninf => pinf
  | pinf, ninf | ninf, pinf => ninf
  | _, _ => nan

/-- Division: `x / 0` is an infinity with the sign of `x` (NaN for `0 / 0`), finite / infinity is 0. -/
def div : XR → XR → XR
  | fin x, fin y => if y = 0 then signed x else fin (x / y)
  | fin _, pinf | fin _, ninf => fin 0
  | pinf, fin y => if 0 ≤ y then pinf else ninf
  | ninf, fin y => if 0 ≤ y then ninf else pinf
  | _, _ => nan

def le : XR → XR → Prop
  | fin x, fin y => x ≤ y
  | ninf, fin _ | ninf, ninf | ninf, pinf | fin _, pinf | pinf, pinf => True
  | _, _ => False

def lt : XR → XR → Prop
  | fin x, fin y => x < y
  | ninf, fin _ | ninf, pinf | fin _, pinf => True
  | _, _ => False

/-- `std::pow` for bases `≥ 0` (other bases, which do not occur, give NaN). -/
def pow : XR → XR → XR
  | fin a, fin b =>
    if a = 0 then (if 0 < b then fin 0 else if b = 0 then fin 1 else pinf)
    else if 0 < a then fin (a ^ b) else nan
  | fin a, pinf => if a < 0 then nan else if a < 1 then fin 0 else if a = 1 then fin 1 else pinf
  | fin a, ninf => if a < 0 then nan else if a < 1 then pinf else if a = 1 then fin 1 else fin 0
  | _, _ => nan

/-- `std::log`. -/
def log : XR → XR
  | fin a => if a = 0 then ninf else if 0 < a then fin (Real.log a) else nan
  | pinf => pinf
  | _ => nan

instance : Zero XR := ⟨fin 0⟩
instance : One XR := ⟨fin 1⟩
instance : Add XR := ⟨add⟩
instance : Sub XR := ⟨fun a b => add a (neg b)⟩
instance : Mul XR := ⟨mul⟩
instance : Div XR := ⟨div⟩
instance : LE XR := ⟨le⟩
instance : LT XR := ⟨lt⟩
instance : DecidableLE XR := fun _ _ => propDecidable _
instance : DecidableLT XR := fun _ _ => propDecidable _
instance : Neg XR := ⟨neg⟩
instance : NatCast XR := ⟨fun n => fin n⟩

theorem zero_def : (0 : XR) = fin 0 := rfl
theorem one_def : (1 : XR) = fin 1 := rfl
theorem add_fin (x y : ℝ) : fin x + fin y = fin (x + y) := rfl
theorem sub_fin (x y : ℝ) : fin x - fin y = fin (x - y) := by
  change add (fin x) (neg (fin y)) = _
  simp [add, neg, sub_eq_add_neg]
theorem mul_fin (x y : ℝ) : fin x * fin y = fin (x * y) := rfl
theorem div_fin (x y : ℝ) (h : y ≠ 0) : fin x / fin y = fin (x / y) := by
  change div (fin x) (fin y) = _
  simp [div, h]
theorem one_div_zero : (1 : XR) / fin 0 = pinf := by
  change div (fin 1) (fin 0) = _
  simp [div, signed]
theorem fin_div_ninf (x : ℝ) : fin x / ninf = fin 0 := rfl
theorem le_fin (x y : ℝ) : fin x ≤ fin y ↔ x ≤ y := Iff.rfl
theorem lt_fin (x y : ℝ) : fin x < fin y ↔ x < y := Iff.rfl

theorem neg_fin (x : ℝ) : -fin x = fin (-x) := rfl
theorem natCast_def (n : ℕ) : (n : XR) = fin n := rfl

/-- `std::abs`. -/
def abs : XR → XR
  | fin x => fin |x|
  | pinf | ninf => pinf
  | nan => nan

/-- `std::sqrt`. -/
def sqrt : XR → XR
  | fin x => if x < 0 then nan else fin (Real.sqrt x)
  | pinf => pinf
  | _ => nan

/-- `std::log1p`. -/
def log1p : XR → XR
  | fin x => log (fin (1 + x))
  | pinf => pinf
  | _ => nan

/-- Is the sign bit clear?  (The single zero counts as positive; for NaN it does not matter here.) -/
def nonneg : XR → Prop
  | fin x => 0 ≤ x
  | ninf => False
  | _ => True

/-- `std::copysign( m, s )`. -/
def copysign (m s : XR) : XR := if nonneg s then abs m else neg (abs m)

/-- `std::pow` and `std::log` for the sampling code. -/
def ops : Reservoir.Ops XR := ⟨pow, log⟩

end
end XR
end Seldon.Spec
