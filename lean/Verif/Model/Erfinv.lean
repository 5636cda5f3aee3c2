import Verif.Model.Basic
import Mathlib.Data.Rat.Defs
import Mathlib.Algebra.Order.Ring.Unbundled.Rat
import Mathlib.Data.Rat.Floor
/-!
# Model of `include/util/erfinv.hpp`
-/
namespace Seldon

/-- The floating-point operations used by `erfinv` apart from `+ - * /` and comparisons.
erfinv.hpp:12-111. -/
structure ErfOps (F : Type) where
  /-- a literal -/
  lit : Rat → F
  nan : F
  infinity : F
  abs : F → F
  sqrt : F → F
  log1p : F → F
  /-- `std::copysign( magnitude, sign )` -/
  copysign : F → F → F

namespace Erfinv

/-- erfinv.hpp:28: the constant `LN2`. -/
def ln2 : Rat := 6.931471805599453094172321214581e-1

/-- erfinv.hpp:30-37: the constants `A0`, ..., `A7`. -/
def coeffsA : List Rat :=
  [1.1975323115670912564578e0,
   4.7072688112383978012285e1,
   6.9706266534389598238465e2,
   4.8548868893843886794648e3,
   1.6235862515167575384252e4,
   2.3782041382114385731252e4,
   1.1819493347062294404278e4,
   8.8709406962545514830200e2]

/-- erfinv.hpp:39-46: the constants `B0`, ..., `B7`. -/
def coeffsB : List Rat :=
  [1.0000000000000000000e0,
   4.2313330701600911252e1,
   6.8718700749205790830e2,
   5.3941960214247511077e3,
   2.1213794301586595867e4,
   3.9307895800092710610e4,
   2.8729085735721942674e4,
   5.2264952788528545610e3]

/-- erfinv.hpp:48-55: the constants `C0`, ..., `C7`. -/
def coeffsC : List Rat :=
  [1.42343711074968357734e0,
   4.63033784615654529590e0,
   5.76949722146069140550e0,
   3.64784832476320460504e0,
   1.27045825245236838258e0,
   2.41780725177450611770e-1,
   2.27238449892691845833e-2,
   7.74545014278341407640e-4]

/-- erfinv.hpp:57-64: the constants `D0`, ..., `D7`. -/
def coeffsD : List Rat :=
  [1.4142135623730950488016887e0,
   2.9036514445419946173133295e0,
   2.3707661626024532365971225e0,
   9.7547832001787427186894837e-1,
   2.0945065210512749128288442e-1,
   2.1494160384252876777097297e-2,
   7.7441459065157709165577218e-4,
   1.4859850019840355905497876e-9]

/-- erfinv.hpp:66-73: the constants `E0`, ..., `E7`. -/
def coeffsE : List Rat :=
  [6.65790464350110377720e0,
   5.46378491116411436990e0,
   1.78482653991729133580e0,
   2.96560571828504891230e-1,
   2.65321895265761230930e-2,
   1.24266094738807843860e-3,
   2.71155556874348757815e-5,
   2.01033439929228813265e-7]

/-- erfinv.hpp:75-82: the constants `F0`, ..., `F7`. -/
def coeffsF : List Rat :=
  [1.414213562373095048801689e0,
   8.482908416595164588112026e-1,
   1.936480946950659106176712e-1,
   2.103693768272068968719679e-2,
   1.112800997078859844711555e-3,
   2.611088405080593625138020e-5,
   2.010321207683943062279931e-7,
   2.891024605872965461538222e-15]

variable {F : Type} [Add F] [Sub F] [Mul F] [Div F] [Neg F] [LE F] [LT F] [DecidableLE F] [DecidableLT F]

/-- The Horner expressions `( ( ... ( c7 * r + c6 ) * r + ... ) * r + c0 )` at erfinv.hpp:91-107: the coefficients `c0, ..., c7` are given in
this order. -/
def horner (o : ErfOps F) (r : F) : List Rat → F
  | [] => o.lit 0
  | [c] => o.lit c
  | c :: c' :: cs => horner o r (c' :: cs) * r + o.lit c

/-- erfinv.hpp:88-94: the central branch, `|x| <= 0.85`. -/
def central (o : ErfOps F) (x : F) : F :=
  let r := o.lit 0.180625 - o.lit 0.25 * x * x
  let num := horner o r coeffsA
  let den := horner o r coeffsB
  x * num / den

/-- erfinv.hpp:96-110: the tails. -/
def tail (o : ErfOps F) (x : F) : F :=
  let r := o.sqrt (o.lit ln2 - o.log1p (-o.abs x))
  if r ≤ o.lit 5 then
    let r := r - o.lit 1.6
    o.copysign (horner o r coeffsC / horner o r coeffsD) x
  else
    let r := r - o.lit 5
    o.copysign (horner o r coeffsE / horner o r coeffsF) x

/-- erfinv.hpp:12-111 `erfinv( x )`.  `x == 1.0` (reached only for `-1 <= x <= 1` or NaN) is written `1 <= x`, and `x == -1.0` is written
`x <= -1`: the same for all values of `x` that get there. -/
def erfinv (o : ErfOps F) (x : F) : F :=
  if x < o.lit (-1) ∨ o.lit 1 < x then o.nan
  else if o.lit 1 ≤ x then o.infinity
  else if x ≤ o.lit (-1) then -o.infinity
  else if o.abs x ≤ o.lit 0.85 then central o x
  else tail o x

end Erfinv
end Seldon
