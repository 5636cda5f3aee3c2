import Verif.Lemmas.Transport
import Verif.Lemmas.IntPoly
import Verif.Props.Erfinv
import Mathlib.Analysis.Real.Pi.Bounds
/-!
# Helper lemmas: the three rational functions of `erfinv`
-/
namespace Seldon
open IntPoly Erfinv Spec Set

namespace Erfinv

/-- Coefficients as integers, scaled by 10^40. -/
def ints (l : List ℚ) : List ℤ := l.map fun q => (q * 10 ^ 40).num

def isInts (l : List ℚ) : Bool := l.all fun q => (q * 10 ^ 40).den == 1

theorem pe_ints {l : List ℚ} (h : isInts l = true) (x : ℝ) : pe (ints l) x = 10 ^ 40 * poly x l := by
  induction l with
  | nil => simp [ints, pe, poly]
  | cons c cs ih =>
    simp only [isInts, List.all_cons, Bool.and_eq_true, beq_iff_eq] at h
    have e : ((c * 10 ^ 40).num : ℚ) = c * 10 ^ 40 := Rat.coe_int_num_of_den_eq_one h.1
    have e' : (((c * 10 ^ 40).num : ℤ) : ℝ) = c * 10 ^ 40 := by exact_mod_cast congrArg (Rat.cast : ℚ → ℝ) e
    have : ints (c :: cs) = (c * 10 ^ 40).num :: ints cs := rfl
    rw [this, pe, ih h.2, e', poly]; ring

/-- `U' V - U V'`. -/
def wron (U V : List ℤ) : List ℤ := psub (pmul (pderiv U) V) (pmul U (pderiv V))

/-- `W' V - 2 V' W`. -/
def wron2 (V W : List ℤ) : List ℤ := psub (pmul (pderiv W) V) (pscale 2 (pmul (pderiv V) W))

/-- `q (W2 V² - 2 U W²) - p V³ W`. -/
def num (U V W W2 p q : List ℤ) : List ℤ :=
  psub (pmul q (psub (pmul W2 (pmul V V)) (pscale 2 (pmul U (pmul W W))))) (pmul p (pmul (pmul V (pmul V V)) W))

/-- `q V³ W`. -/
def den (V W q : List ℤ) : List ℤ := pmul q (pmul (pmul V (pmul V V)) W)

/-- `V`, `W`, `q` are positive and `k |num| < den` on `[a / d, b / d)`. -/
def goodOn (U V W W2 p q : List ℤ) (k a b d : ℤ) : Bool :=
  positiveOn V a b d && positiveOn W a b d && positiveOn q a b d && positiveOn (psub (den V W q) (pscale k (num U V W W2 p q))) a b d &&
    positiveOn (padd (den V W q) (pscale k (num U V W W2 p q))) a b d

theorem goodOn_sound {U V W W2 p q : List ℤ} {k a b d : ℤ} (h : goodOn U V W W2 p q k a b d = true) (hd : 0 < d) (hk : 0 < k) {x : ℝ}
    (h0 : (a : ℝ) / d ≤ x) (h1 : x < (b : ℝ) / d) : 0 < pe V x ∧ 0 < pe W x ∧ 0 < pe q x ∧
      |(pe W2 x / (pe V x * pe W x) - 2 * pe U x * pe W x / pe V x ^ 3) - pe p x / pe q x| ≤ (1 : ℝ) / k := by
  simp only [goodOn, Bool.and_eq_true] at h
  obtain ⟨⟨⟨⟨hV, hW⟩, hq⟩, hu⟩, hl⟩ := h
  have hV := positiveOn_sound hV hd h0 h1
  have hW := positiveOn_sound hW hd h0 h1
  have hq := positiveOn_sound hq hd h0 h1
  have hu := positiveOn_sound hu hd h0 h1
  have hl := positiveOn_sound hl hd h0 h1
  refine ⟨hV, hW, hq, ?_⟩
  have hk' : (0 : ℝ) < k := by exact_mod_cast hk
  have e : pe W2 x / (pe V x * pe W x) - 2 * pe U x * pe W x / pe V x ^ 3 - pe p x / pe q x = pe (num U V W W2 p q) x / pe (den V W q) x := by
    simp only [num, den, pe_psub, pe_pmul, pe_pscale]
    push_cast
    field_simp
  have hden : 0 < pe (den V W q) x := by simp only [den, pe_pmul]; positivity
  rw [e, abs_div, abs_of_pos hden, div_le_div_iff₀ hden hk', one_mul]
  simp only [pe_psub, pe_padd, pe_pscale] at hu hl
  have : |(k : ℝ) * pe (num U V W W2 p q) x| ≤ pe (den V W q) x := abs_le.mpr ⟨by linarith, by linarith⟩
  rwa [abs_mul, abs_of_pos hk', mul_comm] at this

/-- A quotient of polynomials. -/
theorem quotient_branch {U V p q : List ℤ} {k a b d : ℤ} (h : goodOn U V (wron U V) (wron2 V (wron U V)) p q k a b d = true) (hd : 0 < d) (hk : 0 < k)
    {M : ℝ → ℝ} {lo hi : ℝ} (h0 : (a : ℝ) / d ≤ lo) (h1 : hi < (b : ℝ) / d) (hM : ∀ s ∈ Icc lo hi, HasDerivAt M (pe p s / pe q s) s) :
    Branch (fun s => pe U s / pe V s) (fun s => pe (wron U V) s / pe V s ^ 2) (fun s => pe (wron2 V (wron U V)) s / pe V s ^ 3) M
      (fun s => pe p s / pe q s) ((1 : ℝ) / k) lo hi where
  d0 s hs := by
    obtain ⟨hV, -, -, -⟩ := goodOn_sound h hd hk (h0.trans hs.1) (hs.2.trans_lt h1)
    refine ((pe_hasDerivAt U s).div (pe_hasDerivAt V s) hV.ne').congr_deriv ?_
    simp only [wron, pe_psub, pe_pmul]
  d1 s hs := by
    obtain ⟨hV, -, -, -⟩ := goodOn_sound h hd hk (h0.trans hs.1) (hs.2.trans_lt h1)
    refine ((pe_hasDerivAt (wron U V) s).div ((pe_hasDerivAt V s).fun_pow 2) (by positivity)).congr_deriv ?_
    simp only [wron2, pe_psub, pe_pmul, pe_pscale]
    push_cast
    simp only [pow_one]
    field_simp
  pos s hs := by
    obtain ⟨hV, hW, -, -⟩ := goodOn_sound h hd hk (h0.trans hs.1) (hs.2.trans_lt h1)
    positivity
  dM := hM
  small s hs := by
    obtain ⟨hV, hW, -, hb⟩ := goodOn_sound h hd hk (h0.trans hs.1) (hs.2.trans_lt h1)
    refine le_trans (le_of_eq ?_) hb
    congr 1
    field_simp

/-- The central branch as a function of `x²`: `x a(x²) / b(x²)`. -/
def centralA : List ℤ := (homog [7225, -10000] [40000] (ints coeffsA)).1
def centralB : List ℤ := (homog [7225, -10000] [40000] (ints coeffsB)).1
/-- `a b + 2 t (a' b - a b')`. -/
def centralW : List ℤ := padd (pmul centralA centralB) (pscale 2 (0 :: wron centralA centralB))
/-- `2 (w' b - 2 b' w)`. -/
def centralW2 : List ℤ := pscale 2 (psub (pmul (pderiv centralW) centralB) (pscale 2 (pmul (pderiv centralB) centralW)))

theorem central_good : goodOn centralA centralB centralW centralW2 [] [1] (10 ^ 10) 0 7226 10000 = true := by decide +kernel

theorem coeffs_ints : isInts coeffsA = true ∧ isInts coeffsB = true ∧ isInts coeffsC = true ∧ isInts coeffsD = true ∧ isInts coeffsE = true ∧
    isInts coeffsF = true := by decide +kernel

theorem middle_good : goodOn (ints coeffsC) (ints coeffsD) (wron (ints coeffsC) (ints coeffsD)) (wron2 (ints coeffsD) (wron (ints coeffsC) (ints coeffsD)))
    (psub [25] (pscale 2 (pmul [8, 5] [8, 5]))) (pscale 5 [8, 5]) (10 ^ 12) 90 34001 10000 = true := by decide +kernel

theorem far_good : goodOn (ints coeffsE) (ints coeffsF) (wron (ints coeffsE) (ints coeffsF)) (wron2 (ints coeffsF) (wron (ints coeffsE) (ints coeffsF)))
    (psub [1] (pscale 2 (pmul [5, 1] [5, 1]))) [5, 1] (10 ^ 12) 0 111 10 = true := by decide +kernel

end Erfinv
end Seldon
