import Verif.Spec.Double
/-!
# Independent specification: IEEE 754 double precision with overflow, infinities and NaN

The doubles of `Verif.Spec.Double` with the upper bound on exponents: a result whose rounded value is `2^1024` or more in size becomes an
infinity, division by zero and the operations on infinities give what IEEE 754 prescribes.  There is a single, positive, zero.
-/
namespace Seldon.Spec

inductive Ieee (R : Rounding) where
  | fin (d : Dbl R)
  | pinf
  | ninf
  | nan

namespace Ieee
variable {R : Rounding}
open Classical

noncomputable section

/-- The correctly rounded result: `z` rounded to 53 bits, an infinity if that is too large. -/
def ofReal (R : Rounding) (z : ℝ) : Ieee R :=
  if |R.round z| < 2 ^ 1024 then fin (Dbl.ofReal R z) else if 0 < z then pinf else ninf

/-- The infinity with the sign of `s` (NaN for 0). -/
def signed (s : ℝ) : Ieee R := if 0 < s then pinf else if s < 0 then ninf else nan

def neg : Ieee R → Ieee R
  | fin x => fin (-x) | pinf => ninf | ninf => pinf | nan => nan

def add : Ieee R → Ieee R → Ieee R
  | fin x, fin y => ofReal R (x.val + y.val)
  | pinf, fin _ | fin _, pinf | pinf, pinf => pinf
  | ninf, fin _ | fin _, ninf | ninf, ninf => ninf
  | _, _ => nan

def mul : Ieee R → Ieee R → Ieee R
  | fin x, fin y => ofReal R (x.val * y.val)
  | pinf, fin y | fin y, pinf => signed y.val
  | ninf, fin y | fin y, ninf => signed (-y.val)
  | pinf, pinf | ninf, ninf => pinf
  | pinf, ninf | ninf, pinf => ninf
  | _, _ => nan

def div : Ieee R → Ieee R → Ieee R
  | fin x, fin y => if y.val = 0 then signed x.val else ofReal R (x.val / y.val)
  | fin _, pinf | fin _, ninf => fin 0
  | pinf, fin y => if 0 ≤ y.val then pinf else ninf
  | ninf, fin y => if 0 ≤ y.val then ninf else pinf
  | _, _ => nan

def le : Ieee R → Ieee R → Prop
  | fin x, fin y => x.val ≤ y.val
  | ninf, fin _ | ninf, ninf | ninf, pinf | fin _, pinf | pinf, pinf => True
  | _, _ => False

def lt : Ieee R → Ieee R → Prop
  | fin x, fin y => x.val < y.val
  | ninf, fin _ | ninf, pinf | fin _, pinf => True
  | _, _ => False

instance : Zero (Ieee R) := ⟨fin 0⟩
instance : One (Ieee R) := ⟨fin 1⟩
instance : Neg (Ieee R) := ⟨neg⟩
instance : Add (Ieee R) := ⟨add⟩
instance : Sub (Ieee R) := ⟨fun a b => add a (neg b)⟩
instance : Mul (Ieee R) := ⟨mul⟩
instance : Div (Ieee R) := ⟨div⟩
instance : NatCast (Ieee R) := ⟨fun n => ofReal R n⟩
instance : IntCast (Ieee R) := ⟨fun n => ofReal R n⟩
instance : LE (Ieee R) := ⟨le⟩
instance : LT (Ieee R) := ⟨lt⟩
instance : DecidableLE (Ieee R) := fun _ _ => propDecidable _
instance : DecidableLT (Ieee R) := fun _ _ => propDecidable _

/-- A finite number of size at most `B`: neither NaN nor an infinity. -/
def Within (B : ℝ) (a : Ieee R) : Prop := ∃ d : Dbl R, a = fin d ∧ |d.val| ≤ B

/-- The value of a finite number (0 for the others). -/
def toReal : Ieee R → ℝ
  | fin d => d.val
  | _ => 0

end
end Ieee
end Seldon.Spec
