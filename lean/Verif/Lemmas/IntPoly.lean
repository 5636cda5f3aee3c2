import Mathlib.Data.Real.Basic
import Mathlib.Tactic.Ring
import Mathlib.Tactic.Linarith
import Mathlib.Tactic.Positivity
import Mathlib.Tactic.FieldSimp
import Mathlib.Analysis.Calculus.Deriv.Mul
import Mathlib.Analysis.Calculus.Deriv.Add
/-!
# Helper lemmas: polynomials with integer coefficients, and a test for their positivity on an interval
-/
namespace Seldon.IntPoly

/-- Value of a polynomial, the constant coefficient first. -/
def pe : List ℤ → ℝ → ℝ
  | [], _ => 0
  | c :: cs, x => c + x * pe cs x

def padd : List ℤ → List ℤ → List ℤ
  | [], q => q
  | p, [] => p
  | a :: p, b :: q => (a + b) :: padd p q

def pscale (k : ℤ) (p : List ℤ) : List ℤ := p.map (k * ·)

def pmul : List ℤ → List ℤ → List ℤ
  | [], _ => []
  | a :: p, q => padd (pscale a q) (0 :: pmul p q)

def psub (p q : List ℤ) : List ℤ := padd p (pscale (-1) q)

/-- Derivative. -/
def pderiv : List ℤ → List ℤ
  | [] => []
  | _ :: cs => padd cs (0 :: pderiv cs)

theorem pe_padd (p q : List ℤ) (x : ℝ) : pe (padd p q) x = pe p x + pe q x := by
  induction p generalizing q with
  | nil => simp [padd, pe]
  | cons a p ih =>
    cases q with
    | nil => simp [padd, pe]
    | cons b q => simp only [padd, pe, ih]; push_cast; ring

theorem pe_pscale (k : ℤ) (p : List ℤ) (x : ℝ) : pe (pscale k p) x = k * pe p x := by
  induction p with
  | nil => simp [pscale, pe]
  | cons a p ih =>
    have : pscale k (a :: p) = (k * a) :: pscale k p := rfl
    rw [this, pe, ih, pe]; push_cast; ring

theorem pe_pmul (p q : List ℤ) (x : ℝ) : pe (pmul p q) x = pe p x * pe q x := by
  induction p with
  | nil => simp [pmul, pe]
  | cons a p ih => rw [pmul, pe_padd, pe_pscale, pe, ih, pe]; push_cast; ring

theorem pe_psub (p q : List ℤ) (x : ℝ) : pe (psub p q) x = pe p x - pe q x := by
  rw [psub, pe_padd, pe_pscale]; push_cast; ring

theorem pe_hasDerivAt (p : List ℤ) (x : ℝ) : HasDerivAt (pe p) (pe (pderiv p) x) x := by
  induction p with
  | nil => exact hasDerivAt_const x (0 : ℝ)
  | cons c cs ih =>
    have h := ((hasDerivAt_id x).mul ih).const_add (c : ℝ)
    have e : pe (pderiv (c :: cs)) x = 1 * pe cs x + id x * pe (pderiv cs) x := by
      rw [pderiv, pe_padd, pe, id]; push_cast; ring
    rw [e]; exact h

/-- `w ^ n * p (m / w)` and `w ^ n`, `n` the number of coefficients of `p`. -/
def homog (m w : List ℤ) : List ℤ → List ℤ × List ℤ
  | [] => ([], [1])
  | c :: cs =>
    let r := homog m w cs
    let D := pmul w r.2
    (padd (pscale c D) (pmul m r.1), D)

theorem homog_eval (m w : List ℤ) (p : List ℤ) {x : ℝ} (hw : pe w x ≠ 0) :
    pe (homog m w p).2 x = pe w x ^ p.length ∧ pe (homog m w p).1 x = pe w x ^ p.length * pe p (pe m x / pe w x) := by
  induction p with
  | nil => simp [homog, pe]
  | cons c cs ih =>
    obtain ⟨h1, h2⟩ := ih
    have e2 : pe (homog m w (c :: cs)).2 x = pe w x ^ (cs.length + 1) := by
      show pe (pmul w (homog m w cs).2) x = _
      rw [pe_pmul, h1]; ring
    refine ⟨e2, ?_⟩
    show pe (padd (pscale c (pmul w (homog m w cs).2)) (pmul m (homog m w cs).1)) x = _
    rw [pe_padd, pe_pscale, pe_pmul, pe_pmul, h1, h2, pe, List.length_cons]
    field_simp
    ring

/-- Positive constant coefficient, no negative coefficient. -/
def positiveCoeffs : List ℤ → Bool
  | [] => false
  | c :: cs => decide (0 < c) && cs.all fun a => decide (0 ≤ a)

theorem pe_nonneg {p : List ℤ} (h : ∀ a ∈ p, 0 ≤ a) {t : ℝ} (ht : 0 ≤ t) : 0 ≤ pe p t := by
  induction p with
  | nil => simp [pe]
  | cons c cs ih =>
    have hc : (0 : ℝ) ≤ c := by exact_mod_cast h c (by simp)
    have := ih fun a ha => h a (by simp [ha])
    rw [pe]; positivity

theorem pe_pos {p : List ℤ} (h : positiveCoeffs p = true) {t : ℝ} (ht : 0 ≤ t) : 0 < pe p t := by
  cases p with
  | nil => simp [positiveCoeffs] at h
  | cons c cs =>
    simp only [positiveCoeffs, Bool.and_eq_true, decide_eq_true_eq, List.all_eq_true] at h
    have hc : (0 : ℝ) < c := by exact_mod_cast h.1
    have := pe_nonneg h.2 ht
    rw [pe]; positivity

/-- A test: is `p` positive on `[a / d, b / d)`? -/
def positiveOn (p : List ℤ) (a b d : ℤ) : Bool := positiveCoeffs (homog [a, b] [d, d] p).1

theorem positiveOn_sound {p : List ℤ} {a b d : ℤ} (h : positiveOn p a b d = true) (hd : 0 < d) {x : ℝ} (h0 : (a : ℝ) / d ≤ x) (h1 : x < (b : ℝ) / d) :
    0 < pe p x := by
  have hd' : (0 : ℝ) < d := by exact_mod_cast hd
  rw [div_le_iff₀ hd'] at h0
  rw [lt_div_iff₀ hd'] at h1
  -- the parameter
  have hb : 0 < (b : ℝ) - x * d := by linarith
  set t : ℝ := (x * d - a) / (b - x * d) with ht
  have ht0 : 0 ≤ t := div_nonneg (by linarith) hb.le
  have hw : pe [d, d] t = d * (1 + t) := by simp [pe]; ring
  have hw0 : pe [d, d] t ≠ 0 := by rw [hw]; positivity
  have hx : pe [a, b] t / pe [d, d] t = x := by
    have hm : pe [a, b] t = a + t * b := by simp [pe]
    rw [hm, hw]
    have h1t : 1 + t = ((b : ℝ) - a) / (b - x * d) := by rw [ht]; field_simp; ring
    have hba : (b : ℝ) - a ≠ 0 := by intro e; linarith
    rw [h1t, ht]; field_simp; ring
  have hp := pe_pos h ht0
  rw [(homog_eval [a, b] [d, d] p hw0).2, hx] at hp
  have : 0 < pe [d, d] t ^ p.length := by rw [hw]; positivity
  exact (mul_pos_iff_of_pos_left this).mp hp

end Seldon.IntPoly
