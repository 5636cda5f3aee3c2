import Verif.Lemmas.Averaging
import Mathlib.RingTheory.Polynomial.Bernstein
import Mathlib.Algebra.Order.BigOperators.Ring.Finset
import Mathlib.Tactic.FieldSimp
import Mathlib.Tactic.LinearCombination
/-!
# Lemmas: an averaging process in which everybody keeps some weight on itself slows down

`W = p + q Q` with `Q` averaging as well, so `W^t = Σ_j b(t, j) Q^j` with the binomial probabilities `b`, and
`b(N, j) - b(N - 1, j) = b(N, j) (j - N q) / (N p)`, whose sum of absolute values is small since the binomial distribution has variance `N p q`.
-/
set_option linter.unusedSectionVars false
namespace Seldon
namespace Averaging
variable {F : Type} [Field F] [LinearOrder F] [IsStrictOrderedRing F]

/-- Binomial probabilities. -/
def binom (p q : F) (N j : Nat) : F := (N.choose j : F) * q ^ j * p ^ (N - j)

theorem binom_nonneg {p q : F} (hp : 0 ≤ p) (hq : 0 ≤ q) (N j : Nat) : 0 ≤ binom p q N j := by
  unfold binom
  positivity

theorem binom_eval {p q : F} (h : p + q = 1) (N j : Nat) : (bernsteinPolynomial F N j).eval q = binom p q N j := by
  unfold bernsteinPolynomial binom
  rw [show p = 1 - q by linarith]
  simp

theorem binom_sum {p q : F} (h : p + q = 1) (N : Nat) : ∑ j ∈ Finset.range (N + 1), binom p q N j = 1 := by
  have := congrArg (Polynomial.eval q) (bernsteinPolynomial.sum F N)
  rw [Polynomial.eval_finsetSum] at this
  simp only [binom_eval h, Polynomial.eval_one] at this
  exact this

theorem binom_variance {p q : F} (h : p + q = 1) (N : Nat) : ∑ j ∈ Finset.range (N + 1), binom p q N j * ((j : F) - N * q) ^ 2 = N * p * q := by
  have := congrArg (Polynomial.eval q) (bernsteinPolynomial.variance F N)
  rw [Polynomial.eval_finsetSum] at this
  simp only [Polynomial.eval_mul, binom_eval h, Polynomial.eval_pow, Polynomial.eval_sub, Polynomial.eval_X, Polynomial.eval_natCast,
    Polynomial.eval_one, nsmul_eq_mul] at this
  rw [show N * p * q = N * q * (1 - q) by rw [← h]; ring, ← this]
  exact Finset.sum_congr rfl fun j _ => by ring

theorem binom_step {p q : F} (h : p + q = 1) (t j : Nat) :
    (binom p q (t + 1) j - binom p q t j) * ((t + 1 : Nat) * p) = binom p q (t + 1) j * ((j : F) - (t + 1 : Nat) * q) := by
  unfold binom
  rcases Nat.lt_or_ge (t + 1) j with hj | hj
  · rw [Nat.choose_eq_zero_of_lt hj, Nat.choose_eq_zero_of_lt (by omega)]
    simp
  · have hc : ((t.choose j : Nat) : F) * ((t + 1 : Nat) : F) = ((t + 1).choose j : F) * ((t + 1 : Nat) - (j : F)) := by
      have := Nat.choose_mul_succ_eq t j
      have h2 : ((t + 1 - j : Nat) : F) = ((t + 1 : Nat) : F) - j := Nat.cast_sub hj
      rw [← h2]
      exact_mod_cast this
    rcases Nat.eq_or_lt_of_le hj with rfl | hj'
    · have : (t.choose (t + 1)) = 0 := Nat.choose_eq_zero_of_lt (by omega)
      rw [this]
      simp only [Nat.choose_self, Nat.sub_self, pow_zero, Nat.cast_one, Nat.cast_zero]
      have : q = 1 - p := by linarith
      rw [this]
      ring
    · rw [show t + 1 - j = (t - j) + 1 by omega, pow_succ]
      have : q = 1 - p := by linarith
      have e : ((t + 1 : Nat) : F) * p = (t + 1 : Nat) - (t + 1 : Nat) * q := by rw [this]; ring
      have hc' : ((t.choose j : Nat) : F) * q ^ j * p ^ (t - j) * ((t + 1 : Nat) * p) =
          (((t + 1).choose j : F) * ((t + 1 : Nat) - (j : F))) * (q ^ j * p ^ (t - j) * p) := by rw [← hc]; ring
      rw [sub_mul, hc', e]
      ring

theorem binom_pascal {p q : F} (t : Nat) (y : Nat → F) :
    ∑ j ∈ Finset.range (t + 1), binom p q t j * (p * y j + q * y (j + 1)) = ∑ j ∈ Finset.range (t + 2), binom p q (t + 1) j * y j := by
  have h1 : ∑ j ∈ Finset.range (t + 1), binom p q t j * (p * y j + q * y (j + 1)) =
      ∑ j ∈ Finset.range (t + 1), binom p q t j * p * y j + ∑ j ∈ Finset.range (t + 1), binom p q t j * q * y (j + 1) := by
    rw [← Finset.sum_add_distrib]
    exact Finset.sum_congr rfl fun j _ => by ring
  have h2 : ∑ j ∈ Finset.range (t + 1), binom p q t j * p * y j = binom p q t 0 * p * y 0 + ∑ j ∈ Finset.range (t + 1), binom p q t (j + 1) * p * y (j + 1) := by
    rw [Finset.sum_range_succ' (fun j => binom p q t j * p * y j) t, Finset.sum_range_succ (fun j => binom p q t (j + 1) * p * y (j + 1)) t,
      show binom p q t (t + 1) = 0 by unfold binom; rw [Nat.choose_eq_zero_of_lt (by omega)]; simp]
    ring
  rw [h1, h2, Finset.sum_range_succ' (fun j => binom p q (t + 1) j * y j) (t + 1), add_assoc, ← Finset.sum_add_distrib, add_comm]
  congr 1
  · refine Finset.sum_congr rfl fun j hj => ?_
    rw [Finset.mem_range] at hj
    unfold binom
    rw [Nat.choose_succ_succ]
    rcases Nat.eq_or_lt_of_le (Nat.lt_succ_iff.mp hj) with rfl | hlt
    · rw [Nat.choose_eq_zero_of_lt (Nat.lt_succ_self j)]
      simp only [Nat.choose_self, Nat.sub_self, Nat.cast_add, Nat.cast_one, Nat.cast_zero, pow_zero]
      ring
    · rw [show t - j = (t - (j + 1)) + 1 by omega, show t + 1 - (j + 1) = (t - (j + 1)) + 1 by omega]
      push_cast
      ring
  · unfold binom
    rw [Nat.choose_zero_right, Nat.choose_zero_right, Nat.sub_zero, Nat.sub_zero, pow_succ]
    ring

/-- `Q x = (W x - p x) / q`. -/
def rest (L : Nat → List (Nat × F)) (p q : F) (x : Nat → F) (i : Nat) : F := (((L i).map (fun e => e.2 * x e.1)).sum - p * x i) / q

theorem avg_sum {l : List (Nat × F)} (s : Finset Nat) (c : Nat → F) (y : Nat → Nat → F) :
    (l.map (fun e => e.2 * ∑ j ∈ s, c j * y j e.1)).sum = ∑ j ∈ s, c j * (l.map (fun e => e.2 * y j e.1)).sum := by
  induction l with
  | nil => simp
  | cons e l ih =>
    simp only [List.map_cons, List.sum_cons]
    rw [ih, Finset.mul_sum, ← Finset.sum_add_distrib]
    exact Finset.sum_congr rfl fun j _ => by ring

theorem avg_congr {l : List (Nat × F)} {n : Nat} (hl : ∀ e ∈ l, e.1 < n) {x y : Nat → F} (h : ∀ i, i < n → x i = y i) :
    (l.map (fun e => e.2 * x e.1)).sum = (l.map (fun e => e.2 * y e.1)).sum := by
  congr 1
  exact List.map_congr_left fun e he => by rw [h _ (hl e he)]

variable {n : Nat} {L : Nat → List (Nat × F)} {x : Nat → Nat → F}

/-- An average in which `i` has the weight `p` on itself: what is left after taking that away is an average, too. -/
theorem rest_le {p q : F} (h : p + q = 1) {l : List (Nat × F)} {i : Nat} (hnn : ∀ e ∈ l, 0 ≤ e.2) (hsum : (l.map (·.2)).sum = 1)
    (hself : p ≤ ((l.filter fun e => e.1 = i).map (·.2)).sum) {y : Nat → F} {hi : F} (hy : ∀ e ∈ l, y e.1 ≤ hi) (hi' : y i ≤ hi) :
    ((l.map (fun e => e.2 * y e.1)).sum - p * y i) ≤ q * hi := by
  have key : ∀ l : List (Nat × F), (∀ e ∈ l, 0 ≤ e.2) → (∀ e ∈ l, y e.1 ≤ hi) →
      ((l.filter fun e => e.1 = i).map (·.2)).sum * (hi - y i) ≤ (l.map (·.2)).sum * hi - (l.map (fun e => e.2 * y e.1)).sum := by
    intro l
    induction l with
    | nil => simp
    | cons e l ih =>
      intro h0 h1
      have ih := ih (fun e he => h0 e (List.mem_cons_of_mem _ he)) (fun e he => h1 e (List.mem_cons_of_mem _ he))
      have h2 := mul_nonneg (h0 e (List.mem_cons_self ..)) (sub_nonneg.mpr (h1 e (List.mem_cons_self ..)))
      by_cases he : e.1 = i
      · rw [List.filter_cons_of_pos (by simpa using he)]
        simp only [List.map_cons, List.sum_cons]
        rw [he] at h2 ⊢
        linarith
      · rw [List.filter_cons_of_neg (by simpa using he)]
        simp only [List.map_cons, List.sum_cons]
        linarith
  have h1 := key l hnn hy
  have h2 := mul_le_mul_of_nonneg_right hself (sub_nonneg.mpr hi')
  rw [hsum] at h1
  rw [show q = 1 - p by linarith]
  linarith

theorem le_rest {p q : F} (h : p + q = 1) {l : List (Nat × F)} {i : Nat} (hnn : ∀ e ∈ l, 0 ≤ e.2) (hsum : (l.map (·.2)).sum = 1)
    (hself : p ≤ ((l.filter fun e => e.1 = i).map (·.2)).sum) {y : Nat → F} {lo : F} (hy : ∀ e ∈ l, lo ≤ y e.1) (hi' : lo ≤ y i) :
    q * lo ≤ ((l.map (fun e => e.2 * y e.1)).sum - p * y i) := by
  have := rest_le h hnn hsum hself (y := fun j => - y j) (hi := -lo) (fun e he => neg_le_neg (hy e he)) (neg_le_neg hi')
  have e : (l.map (fun e => e.2 * -y e.1)).sum = - (l.map (fun e => e.2 * y e.1)).sum := by
    clear hnn hsum hself hy this
    induction l with
    | nil => simp
    | cons e l ih => simp only [List.map_cons, List.sum_cons, ih]; ring
  rw [e] at this
  linarith

/-- C93, core: if everybody has at least the weight `p` on itself, the step number `t` is at most of the order of `1 / √t`. -/
theorem Process.slows (P : Process n L x) {p q : F} (hp : 0 < p) (hq : 0 < q) (h : p + q = 1)
    (hself : ∀ i, i < n → p ≤ (((L i).filter fun e => e.1 = i).map (·.2)).sum) {lo hi : F} (hbox : ∀ i, i < n → lo ≤ x 0 i ∧ x 0 i ≤ hi) (t : Nat) :
    ∀ i, i < n → 4 * p * (t + 1 : Nat) * (x (t + 1) i - x t i) ^ 2 ≤ q * (hi - lo) ^ 2 := by
  let y : Nat → Nat → F := fun j => Nat.rec (x 0) (fun _ f => rest L p q f) j
  have hy0 : y 0 = x 0 := rfl
  have hys : ∀ j i, i < n → ((L i).map (fun e => e.2 * y j e.1)).sum = p * y j i + q * y (j + 1) i := by
    intro j i _
    show _ = p * y j i + q * (rest L p q (y j) i)
    unfold rest
    rw [mul_div_cancel₀ _ hq.ne']
    ring
  have hyb : ∀ j i, i < n → lo ≤ y j i ∧ y j i ≤ hi := by
    intro j
    induction j with
    | zero => exact hbox
    | succ j ih =>
      intro i hi0
      have e := hys j i hi0
      have h1 := rest_le h (P.nonneg i hi0) (P.sum i hi0) (hself i hi0) (y := y j) (hi := hi) (fun e he => (ih _ (P.lt i hi0 e he)).2) (ih i hi0).2
      have h2 := le_rest h (P.nonneg i hi0) (P.sum i hi0) (hself i hi0) (y := y j) (lo := lo) (fun e he => (ih _ (P.lt i hi0 e he)).1) (ih i hi0).1
      rw [e, add_sub_cancel_left] at h1 h2
      exact ⟨le_of_mul_le_mul_left h2 hq, le_of_mul_le_mul_left h1 hq⟩
  have hx : ∀ t i, i < n → x t i = ∑ j ∈ Finset.range (t + 1), binom p q t j * y j i := by
    intro t
    induction t with
    | zero => intro i _; simp [binom, hy0]
    | succ t ih =>
      intro i hi0
      rw [P.step t i hi0, avg_congr (P.lt i hi0) (y := fun i => ∑ j ∈ Finset.range (t + 1), binom p q t j * y j i) ih, avg_sum,
        Finset.sum_congr rfl (fun j _ => by rw [hys j i hi0]), binom_pascal t (fun j => y j i)]
  intro i hi0
  set N : F := ((t + 1 : Nat) : F) with hN
  have hNpos : 0 < N := by rw [hN]; exact_mod_cast Nat.succ_pos t
  set c := (lo + hi) / 2 with hc
  -- the step as a combination of the deviations
  have hzero : ∑ j ∈ Finset.range (t + 2), (binom p q (t + 1) j - binom p q t j) = 0 := by
    rw [Finset.sum_sub_distrib, binom_sum h, Finset.sum_range_succ (fun j => binom p q t j) (t + 1), binom_sum h,
      show binom p q t (t + 1) = 0 by unfold binom; rw [Nat.choose_eq_zero_of_lt (by omega)]; simp]
    ring
  have hdiff : x (t + 1) i - x t i = ∑ j ∈ Finset.range (t + 2), (binom p q (t + 1) j - binom p q t j) * (y j i - c) := by
    have e1 : x t i = ∑ j ∈ Finset.range (t + 2), binom p q t j * y j i := by
      rw [hx t i hi0, Finset.sum_range_succ (fun j => binom p q t j * y j i) (t + 1),
        show binom p q t (t + 1) = 0 by unfold binom; rw [Nat.choose_eq_zero_of_lt (by omega)]; simp]
      ring
    rw [hx (t + 1) i hi0, e1, ← Finset.sum_sub_distrib]
    have e2 : ∑ j ∈ Finset.range (t + 2), (binom p q (t + 1) j - binom p q t j) * (y j i - c) =
        ∑ j ∈ Finset.range (t + 2), (binom p q (t + 1) j * y j i - binom p q t j * y j i) - c * ∑ j ∈ Finset.range (t + 2), (binom p q (t + 1) j - binom p q t j) := by
      rw [Finset.mul_sum, ← Finset.sum_sub_distrib]
      exact Finset.sum_congr rfl fun j _ => by ring
    rw [e2, hzero]
    ring
  have hscaled : (x (t + 1) i - x t i) * (N * p) = ∑ j ∈ Finset.range (t + 2), binom p q (t + 1) j * ((j : F) - N * q) * (y j i - c) := by
    rw [hdiff, Finset.sum_mul]
    refine Finset.sum_congr rfl fun j _ => ?_
    rw [← binom_step h t j]
    ring
  -- Cauchy-Schwarz
  have hdev : ∀ j, (y j i - c) ^ 2 ≤ ((hi - lo) / 2) ^ 2 := by
    intro j
    have b := hyb j i hi0
    exact sq_le_sq' (by rw [hc]; linarith [b.1]) (by rw [hc]; linarith [b.2])
  have hcs : (∑ j ∈ Finset.range (t + 2), binom p q (t + 1) j * ((j : F) - N * q) * (y j i - c)) ^ 2 ≤
      (∑ j ∈ Finset.range (t + 2), binom p q (t + 1) j * ((j : F) - N * q) ^ 2) * ∑ j ∈ Finset.range (t + 2), binom p q (t + 1) j * (y j i - c) ^ 2 :=
    Finset.sum_sq_le_sum_mul_sum_of_sq_le_mul _ (fun j _ => mul_nonneg (binom_nonneg hp.le hq.le _ _) (sq_nonneg _))
      (fun j _ => mul_nonneg (binom_nonneg hp.le hq.le _ _) (sq_nonneg _)) (fun j _ => le_of_eq (by ring))
  have hsecond : ∑ j ∈ Finset.range (t + 2), binom p q (t + 1) j * (y j i - c) ^ 2 ≤ ((hi - lo) / 2) ^ 2 := by
    calc _ ≤ ∑ j ∈ Finset.range (t + 2), binom p q (t + 1) j * ((hi - lo) / 2) ^ 2 :=
          Finset.sum_le_sum fun j _ => mul_le_mul_of_nonneg_left (hdev j) (binom_nonneg hp.le hq.le _ _)
      _ = _ := by rw [← Finset.sum_mul, binom_sum h, one_mul]
  have hvar := binom_variance h (t + 1)
  rw [← hN] at hvar
  rw [← hscaled, hvar] at hcs
  have h1 : ((x (t + 1) i - x t i) * (N * p)) ^ 2 ≤ N * p * q * ((hi - lo) / 2) ^ 2 :=
    hcs.trans (mul_le_mul_of_nonneg_left hsecond (by positivity))
  have h2 : (N * p) * (4 * p * N * (x (t + 1) i - x t i) ^ 2) ≤ (N * p) * (q * (hi - lo) ^ 2) := by
    have e1 : (N * p) * (4 * p * N * (x (t + 1) i - x t i) ^ 2) = 4 * ((x (t + 1) i - x t i) * (N * p)) ^ 2 := by ring
    have e2 : (N * p) * (q * (hi - lo) ^ 2) = 4 * (N * p * q * ((hi - lo) / 2) ^ 2) := by ring
    rw [e1, e2]
    linarith
  exact le_of_mul_le_mul_left h2 (by positivity)

end Averaging
end Seldon
