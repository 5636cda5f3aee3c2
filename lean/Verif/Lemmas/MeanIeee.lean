import Verif.Lemmas.MeanOrder
import Verif.Lemmas.ActivityIeee
/-!
# Lemmas: the mean-field weights in double precision
-/
set_option linter.unusedSectionVars false
namespace Seldon
open Spec Ieee
variable {A G : Type} {R : Rounding}

namespace Spec.Ieee

/-- a sum of bounded numbers, rounded -/
theorem add_within {x y : Dbl R} {b : Nat} (hb : b ≤ 2 ^ 53) (h : |x.val + y.val| ≤ b) : ∃ z : Dbl R, (fin x + fin y : Ieee R) = fin z ∧ |z.val| ≤ b := by
  have hb' : (b : ℝ) ≤ 2 ^ 1020 := by
    have : (b : ℝ) ≤ 2 ^ 53 := by exact_mod_cast hb
    exact this.trans (pow_le_pow_right₀ (by norm_num) (by norm_num))
  exact ⟨_, ofReal_fin R (h.trans hb'), round_abs_le R (isDouble_nat hb) h⟩

theorem mul_within {x y : Dbl R} {b : Nat} (hb : b ≤ 2 ^ 53) (h : |x.val * y.val| ≤ b) : ∃ z : Dbl R, (fin x * fin y : Ieee R) = fin z ∧ |z.val| ≤ b := by
  have hb' : (b : ℝ) ≤ 2 ^ 1020 := by
    have : (b : ℝ) ≤ 2 ^ 53 := by exact_mod_cast hb
    exact this.trans (pow_le_pow_right₀ (by norm_num) (by norm_num))
  exact ⟨_, ofReal_fin R (h.trans hb'), round_abs_le R (isDouble_nat hb) h⟩

theorem within_add {x y : Ieee R} {a b : Nat} (hb : a + b ≤ 2 ^ 53) (hx : Within a x) (hy : Within b y) : Within (a + b : Nat) (x + y) := by
  obtain ⟨d, rfl, hd⟩ := hx
  obtain ⟨e, rfl, he⟩ := hy
  refine add_within hb ((abs_add_le _ _).trans ?_)
  push_cast
  linarith

theorem within_mul {x y : Ieee R} {a b : Nat} (hb : a * b ≤ 2 ^ 53) (hx : Within a x) (hy : Within b y) : Within (a * b : Nat) (x * y) := by
  obtain ⟨d, rfl, hd⟩ := hx
  obtain ⟨e, rfl, he⟩ := hy
  refine mul_within hb ?_
  rw [abs_mul]
  push_cast
  exact mul_le_mul hd he (abs_nonneg _) (Nat.cast_nonneg _)

theorem within_neg {x : Ieee R} {a : ℝ} (hx : Within a x) : Within a (-x) := by
  obtain ⟨d, rfl, hd⟩ := hx
  exact ⟨-d, rfl, by rw [neg_val, abs_neg]; exact hd⟩

theorem within_sub {x y : Ieee R} {a b : Nat} (hb : a + b ≤ 2 ^ 53) (hx : Within a x) (hy : Within b y) : Within (a + b : Nat) (x - y) :=
  within_add hb hx (within_neg hy)

theorem within_zero : Within ((0 : Nat) : ℝ) (0 : Ieee R) := ⟨0, rfl, by show |(0 : ℝ)| ≤ _; simp⟩

theorem within_one : Within ((1 : Nat) : ℝ) (1 : Ieee R) := ⟨1, rfl, by rw [one_val]; simp⟩

theorem within_mono {x : Ieee R} {a b : ℝ} (h : a ≤ b) (hx : Within a x) : Within b x := by
  obtain ⟨d, rfl, hd⟩ := hx
  exact ⟨d, rfl, hd.trans h⟩

/-- the distance of two opinions, at least `1e-10` -/
theorem distance_fin {x y : Ieee R} {M : ℝ} (hM : 1 ≤ M) (hM' : M ≤ 2 ^ 1000) (hx : Within M x) (hy : Within M y) :
    ∃ a : Dbl R, cmax (1 / ((10 ^ 10 : Nat) : Ieee R)) (cabs (x - y)) = fin a ∧ 2 ^ (-34 : ℤ) ≤ a.val ∧ a.val ≤ 4 * M := by
  obtain ⟨d, rfl, hd⟩ := hx
  obtain ⟨e, rfl, he⟩ := hy
  have hu := ulp_pos
  have hu' := ulp_le
  obtain ⟨ten, t1, t2⟩ := natCast_fin (R := R) (n := 10 ^ 10) (by norm_num)
  have hl : (1 / ((10 ^ 10 : Nat) : Ieee R)) = fin (Dbl.ofReal R (1 / 10 ^ 10)) := by
    rw [t1]
    change (if ten.val = 0 then signed (1 : Dbl R).val else ofReal R ((1 : Dbl R).val / ten.val)) = _
    rw [t2, if_neg (by norm_num), one_val]
    rw [Nat.cast_pow, Nat.cast_ofNat]
    exact ofReal_fin R (z := 1 / 10 ^ 10) (by
      rw [abs_of_nonneg (by positivity)]
      exact (by norm_num : (1 : ℝ) / 10 ^ 10 ≤ 1).trans (one_le_pow₀ one_le_two))
  have l1 : 2 ^ (-34 : ℤ) ≤ (Dbl.ofReal R (1 / 10 ^ 10)).val := R.ge_of_ge (isDouble_pow (by norm_num)) (by norm_num)
  have l2 : (Dbl.ofReal R (1 / 10 ^ 10)).val ≤ 1 := R.le_of_le Dbl.isDouble_one (by norm_num)
  have hb : |d.val + (-e).val| ≤ 2 * M := by
    refine (abs_add_le _ _).trans ?_
    rw [neg_val, abs_neg]
    linarith
  obtain ⟨z, hz, hz'⟩ := add_fin (R := R) (x := d) (y := -e) (hb.trans (big hM' (by norm_num) (by linarith)))
  have hzb : |z.val| ≤ 4 * M := by
    have a1 := abs_add_le (z.val - (d.val + (-e).val)) (d.val + (-e).val)
    rw [sub_add_cancel] at a1
    have a2 : ulp * |d.val + (-e).val| ≤ 1 * (2 * M) := mul_le_mul (hu'.trans (by norm_num)) hb (abs_nonneg _) (by norm_num)
    linarith
  have hz0 : (fin d - fin e : Ieee R) = fin z := hz
  obtain ⟨v, hv, hv'⟩ : ∃ v : Dbl R, cabs (fin d - fin e : Ieee R) = fin v ∧ v.val ≤ 4 * M := by
    rw [hz0]
    unfold cabs
    split
    · exact ⟨-z, rfl, by rw [neg_val]; linarith [neg_abs_le z.val]⟩
    · exact ⟨z, rfl, (le_abs_self _).trans hzb⟩
  rw [hv, hl]
  unfold cmax
  split
  · next h => exact ⟨v, rfl, l1.trans (le_of_lt h), hv'⟩
  · exact ⟨_, rfl, l1, by linarith⟩

end Spec.Ieee

namespace Activity

/-- the sum of the weights in double precision: no overflow, at least as large as each of them -/
theorem totalSeq_fin {w : Nat → Ieee R} : ∀ {n : Nat}, n ≤ 2 ^ 40 → (∀ k, k < n → ∃ d : Dbl R, w k = fin d ∧ 0 ≤ d.val ∧ d.val ≤ 2 ^ 900) →
    ∃ S : Dbl R, totalSeq w n = fin S ∧ 0 ≤ S.val ∧ S.val ≤ n * 2 ^ 900 ∧ ∀ k d, k < n → w k = fin d → d.val ≤ S.val := by
  intro n
  induction n with
  | zero => intro _ _; exact ⟨0, rfl, le_refl _, by show (0 : ℝ) ≤ _; positivity, fun k d hk => absurd hk (Nat.not_lt_zero _)⟩
  | succ n ih =>
    intro hn h
    obtain ⟨S, h1, h2, h3, h4⟩ := ih (by omega) (fun k hk => h k (by omega))
    obtain ⟨d, d1, d2, d3⟩ := h n (by omega)
    have hb : |S.val + d.val| ≤ ((n + 1 : ℕ) : ℝ) * 2 ^ 900 := by
      rw [abs_of_nonneg (by linarith)]
      push_cast
      linarith
    have hD : IsDouble (((n + 1 : ℕ) : ℝ) * 2 ^ 900) := by
      have := isDouble_grid (m := ((n + 1 : ℕ) : ℤ)) (e := 900) (by
        rw [abs_of_nonneg (by positivity)]
        have : (n + 1 : ℕ) ≤ 2 ^ 53 := hn.trans (by norm_num)
        exact_mod_cast this) (by norm_num)
      exact_mod_cast this
    have hB : ((n + 1 : ℕ) : ℝ) * 2 ^ 900 ≤ 2 ^ 1020 := by
      calc ((n + 1 : ℕ) : ℝ) * 2 ^ 900 ≤ 2 ^ 40 * 2 ^ 900 := by
            apply mul_le_mul_of_nonneg_right _ (by positivity)
            exact_mod_cast hn
        _ = 2 ^ 940 := by rw [← pow_add]
        _ ≤ 2 ^ 1020 := pow_le_pow_right₀ (by norm_num) (by norm_num)
    have hs : totalSeq w (n + 1) = fin (Dbl.ofReal R (S.val + d.val)) := by
      show totalSeq w n + w n = _
      rw [h1, d1]
      exact ofReal_fin R (hb.trans hB)
    have g1 : S.val ≤ (Dbl.ofReal R (S.val + d.val)).val := R.ge_of_ge S.isDouble (by linarith)
    have g2 : d.val ≤ (Dbl.ofReal R (S.val + d.val)).val := R.ge_of_ge d.isDouble (by linarith)
    refine ⟨_, hs, h2.trans g1, (le_abs_self _).trans (round_abs_le R hD hb), ?_⟩
    intro k e hk he
    by_cases hkn : k = n
    · subst hkn
      obtain rfl : d = e := by rw [d1] at he; exact Ieee.fin.inj he
      exact g2
    · exact (h4 k e (by omega) he).trans g1

/-- the share of an agent is a number in `[0, 1]` -/
theorem share_fin {w : Nat → Ieee R} {n : Nat} (hn : n ≤ 2 ^ 40) (h : ∀ k, k < n → ∃ d : Dbl R, w k = fin d ∧ 0 ≤ d.val ∧ d.val ≤ 2 ^ 900)
    (hpos : ∃ k d, k < n ∧ w k = fin d ∧ 0 < d.val) {j : Nat} (hj : j < n) :
    ∃ q : Dbl R, w j / totalSeq w n = fin q ∧ 0 ≤ q.val ∧ q.val ≤ 1 := by
  obtain ⟨S, h1, h2, -, h4⟩ := totalSeq_fin hn h
  obtain ⟨k, e, hk, he, he0⟩ := hpos
  have hS : 0 < S.val := lt_of_lt_of_le he0 (h4 k e hk he)
  obtain ⟨d, d1, d2, -⟩ := h j hj
  have hd := h4 j d hj d1
  have r0 : 0 ≤ d.val / S.val := div_nonneg d2 h2
  have r1 : d.val / S.val ≤ 1 := (div_le_one hS).mpr hd
  refine ⟨Dbl.ofReal R (d.val / S.val), ?_, R.nonneg r0, R.le_of_le Dbl.isDouble_one r1⟩
  rw [h1, d1]
  change (if S.val = 0 then signed d.val else ofReal R (d.val / S.val)) = _
  rw [if_neg hS.ne']
  exact ofReal_fin R (by rw [abs_of_nonneg r0]; exact r1.trans (one_le_pow₀ (by norm_num)))

/-- each term of `probability_helper` is at most 1 in size -/
theorem helperTerm_fin {a : Ieee R} {q : Dbl R} (ha : Within 1 a) (h0 : 0 ≤ q.val) (h1 : q.val ≤ 1) : Within 1 ((a + fin q) / (fin q + 1)) := by
  obtain ⟨a, rfl, ha⟩ := ha
  obtain ⟨a1, a2⟩ := abs_le.mp ha
  have hb : (2 : ℝ) ≤ 2 ^ 1020 := by
    calc (2 : ℝ) = 2 ^ 1 := by norm_num
      _ ≤ 2 ^ 1020 := pow_le_pow_right₀ (by norm_num) (by norm_num)
  have e1 : (fin a + fin q : Ieee R) = fin (Dbl.ofReal R (a.val + q.val)) := ofReal_fin R ((abs_le.mpr ⟨by linarith, by linarith⟩ : _ ≤ (2 : ℝ)).trans hb)
  have e2 : (fin q + 1 : Ieee R) = fin (Dbl.ofReal R (q.val + 1)) :=
    ofReal_fin R ((abs_le.mpr ⟨by show _ ≤ q.val + 1; linarith, by show q.val + 1 ≤ _; linarith⟩ : _ ≤ (2 : ℝ)).trans hb)
  have d1 : 1 ≤ R.round (q.val + 1) := R.ge_of_ge Dbl.isDouble_one (by linarith)
  have d2 : R.round (a.val + q.val) ≤ R.round (q.val + 1) := R.mono (by linarith)
  have d3 : -R.round (q.val + 1) ≤ R.round (a.val + q.val) := by
    have : R.round (q.val + 1) ≤ 2 := R.le_of_le (by exact_mod_cast isDouble_nat (n := 2) (by norm_num)) (by linarith)
    have : -1 ≤ R.round (a.val + q.val) := R.ge_of_ge (Dbl.isDouble_neg Dbl.isDouble_one) (by linarith)
    linarith
  have hr : |R.round (a.val + q.val) / R.round (q.val + 1)| ≤ 1 := by
    rw [abs_div, abs_of_pos (by linarith : 0 < R.round (q.val + 1)), div_le_one (by linarith)]
    exact abs_le.mpr ⟨d3, d2⟩
  rw [e1, e2]
  refine ⟨Dbl.ofReal R (R.round (a.val + q.val) / R.round (q.val + 1)), ?_, round_abs_le R Dbl.isDouble_one hr⟩
  change (if R.round (q.val + 1) = 0 then signed (R.round (a.val + q.val)) else ofReal R (R.round (a.val + q.val) / R.round (q.val + 1))) = _
  rw [if_neg (by linarith)]
  exact ofReal_fin R (hr.trans (one_le_pow₀ (by norm_num)))

theorem helperSeq_fin {o : MathOps (Ieee R)} (ho : ∀ (d : Dbl R) (k : Nat), |d.val| ≤ 1 → Within 1 (o.powNat (fin d) k)) {q : Dbl R} (h0 : 0 ≤ q.val)
    (h1 : q.val ≤ 1) : ∀ {m : Nat}, m ≤ 2 ^ 53 → Within m (helperSeq o (fin q) m) := by
  intro m
  induction m with
  | zero => intro _; exact within_zero
  | succ m ih =>
    intro hm
    refine within_add hm (ih (by omega)) ?_
    rw [Nat.cast_one]
    exact helperTerm_fin (ho (-q) _ (by rw [neg_val, abs_neg, abs_of_nonneg h0]; exact h1)) h0 h1

section
variable [ActiveAgent A (Ieee R)]

/-- the weights with which an agent chooses -/
theorem weight_fin {o : MathOps (Ieee R)} {h : Ieee R} {agents : List A} {M : ℝ} (hM : 1 ≤ M) (hM' : M ≤ 2 ^ 1000)
    (hp : ∀ a : Dbl R, 2 ^ (-34 : ℤ) ≤ a.val → a.val ≤ 4 * M → ∃ d : Dbl R, o.pow (fin a) (-h) = fin d ∧ 0 < d.val ∧ d.val ≤ 2 ^ 900)
    (hx : ∀ i, i < agents.length → Within M (attr ActiveAgent.opinion agents i)) {i j : Nat} (hi : i < agents.length) (hj : j < agents.length) :
    ∃ d : Dbl R, weight o h agents i j = fin d ∧ 0 ≤ d.val ∧ d.val ≤ 2 ^ 900 ∧ (j ≠ i → 0 < d.val) := by
  unfold weight
  by_cases hij : j = i
  · rw [if_pos hij]
    exact ⟨0, rfl, le_refl _, by show (0 : ℝ) ≤ _; positivity, fun h => absurd hij h⟩
  · rw [if_neg hij, List.getElem?_eq_getElem hi, List.getElem?_eq_getElem hj]
    dsimp only
    have h1 := hx i hi
    have h2 := hx j hj
    rw [attr_lt _ hi] at h1
    rw [attr_lt _ hj] at h2
    obtain ⟨a, ha, a1, a2⟩ := distance_fin hM hM' h1 h2
    rw [ha]
    obtain ⟨d, d1, d2, d3⟩ := hp a a1 a2
    exact ⟨d, d1, d2.le, d3, fun _ => d2⟩

/-- the contact probabilities -/
theorem probsSeq_fin {o : MathOps (Ieee R)} (ho : ∀ (d : Dbl R) (k : Nat), |d.val| ≤ 1 → Within 1 (o.powNat (fin d) k)) {p : ActivitySettings (Ieee R)}
    {agents : List A} {M : ℝ} (hM : 1 ≤ M) (hM' : M ≤ 2 ^ 1000) {i j : Nat} (hi : i < agents.length) (hj : j < agents.length)
    (hn : agents.length ≤ 2 ^ 40) (hn2 : 2 ≤ agents.length)
    (hp : ∀ a : Dbl R, 2 ^ (-34 : ℤ) ≤ a.val → a.val ≤ 4 * M →
      ∃ d : Dbl R, o.pow (fin a) (-(homophilyFor p i)) = fin d ∧ 0 < d.val ∧ d.val ≤ 2 ^ 900)
    (hx : ∀ i, i < agents.length → Within M (attr ActiveAgent.opinion agents i)) (ha : Within 1 (attr ActiveAgent.activity agents i)) {c : Nat}
    (hc : (contactsOf p i).toNat ≤ c) (hc' : c ≤ 2 ^ 20) : Within c (probsSeq o p agents i j) := by
  unfold probsSeq
  have hW := fun k (hk : k < agents.length) => weight_fin (o := o) (h := homophilyFor p i) hM hM' hp hx hi hk
  obtain ⟨q, hq, q0, q1⟩ := share_fin (w := weight o (homophilyFor p i) agents i) hn (fun k hk => by
      obtain ⟨d, h1, h2, h3, -⟩ := hW k hk
      exact ⟨d, h1, h2, h3⟩) (by
      obtain ⟨k, hk, hki⟩ : ∃ k, k < agents.length ∧ k ≠ i := by
        by_cases h : i = 0
        · exact ⟨1, by omega, by omega⟩
        · exact ⟨0, by omega, fun h' => h h'.symm⟩
      obtain ⟨d, h1, -, -, h4⟩ := hW k hk
      exact ⟨k, d, hk, h1, h4 hki⟩) hj
  rw [hq]
  have h1 := helperSeq_fin ho q0 q1 (m := (contactsOf p i).toNat) (by omega)
  have h2 : cmax 1 (attr ActiveAgent.activity agents i) = (1 : Ieee R) := by
    obtain ⟨a, e, ha⟩ := ha
    rw [e]
    unfold cmax
    rw [if_neg]
    intro h
    have h : (1 : ℝ) < a.val := h
    linarith [le_abs_self a.val]
  rw [h2]
  have := within_mul (a := 1) (b := (contactsOf p i).toNat) (by omega) within_one h1
  exact within_mono (by exact_mod_cast by omega) this

/-- the weights -/
theorem weightSeq_fin {r : Ieee R} {P : Nat → Nat → Ieee R} {c x y : Nat} (hr : Within 1 r) (hc : c ≤ 2 ^ 20) (h1 : Within c (P x y)) (h2 : Within c (P y x)) :
    Within ((c * (c + 2) : Nat) : ℝ) (weightSeq r P x y) := by
  have hc2 : (1 + c) * 1 * c ≤ 2 ^ 41 := by
    calc (1 + c) * 1 * c ≤ (1 + 2 ^ 20) * 1 * 2 ^ 20 := by gcongr
      _ ≤ _ := by norm_num
  have hr' : Within ((1 : Nat) : ℝ) r := by rw [Nat.cast_one]; exact hr
  have hb : Within (((1 + c) * 1 * c : Nat) : ℝ) ((1 - P y x) * r * P x y) :=
    within_mul (by omega) (within_mul (by omega) (within_sub (by omega) within_one h2) hr') h1
  unfold weightSeq
  split
  · have := within_add (a := 0 + (1 + c) * 1 * c) (b := c) (by omega) (within_add (by omega) within_zero hb) h2
    exact within_mono (by exact_mod_cast by ring_nf; rfl) this
  · have := within_add (a := 0 + c) (b := (1 + c) * 1 * c) (by omega) (within_add (by omega) within_zero h2) hb
    exact within_mono (by exact_mod_cast by ring_nf; rfl) this

end
end Activity

/-! ## NaN -/

namespace Spec.Ieee

theorem nan_add (a : Ieee R) : nan + a = nan := by cases a <;> rfl
theorem add_nan (a : Ieee R) : a + nan = nan := by cases a <;> rfl
theorem nan_mul (a : Ieee R) : nan * a = nan := by cases a <;> rfl
theorem mul_nan (a : Ieee R) : a * nan = nan := by cases a <;> rfl
theorem nan_div (a : Ieee R) : nan / a = nan := by cases a <;> rfl
theorem div_nan (a : Ieee R) : a / nan = nan := by cases a <;> rfl
theorem neg_nan : (-nan : Ieee R) = nan := rfl

theorem foldl_nan {α : Type} {f : α → Ieee R} : ∀ (l : List α), l.foldl (fun acc e => acc + f e) nan = nan
  | [] => rfl
  | e :: l => by rw [List.foldl_cons, nan_add]; exact foldl_nan l

theorem foldl_mem_nan {α : Type} {f : α → Ieee R} : ∀ (l : List α) (a : Ieee R), (∃ e ∈ l, f e = nan) → l.foldl (fun acc e => acc + f e) a = nan
  | [], _, h => by obtain ⟨e, he, -⟩ := h; cases he
  | e :: l, a, h => by
    rw [List.foldl_cons]
    by_cases h0 : f e = nan
    · rw [h0, add_nan]; exact foldl_nan l
    · refine foldl_mem_nan l _ ?_
      obtain ⟨e', he', h'⟩ := h
      rcases List.mem_cons.mp he' with rfl | he'
      · exact absurd h' h0
      · exact ⟨e', he', h'⟩

end Spec.Ieee

namespace Activity
variable [ActiveAgent A (Ieee R)]

/-- one NaN weight makes the slope NaN -/
theorem slope_nan {o : MathOps (Ieee R)} {p : ActivitySettings (Ieee R)} {N : Network A (Ieee R)} {x : Nat → Ieee R} {i : Nat}
    (h : ∃ e ∈ row N i, e.2 = nan) : slope o p N x i = nan := by
  unfold slope
  obtain ⟨e, he, h⟩ := h
  refine foldl_mem_nan (f := fun e => 1 / attr ActiveAgent.reluctance N.agents i * p.K * e.2 * o.tanh (p.alpha * x e.1)) _ _ ⟨e, he, ?_⟩
  rw [h, mul_nan, nan_mul]

theorem rkOpinion_nan {o : MathOps (Ieee R)} {p : ActivitySettings (Ieee R)} {N : Network A (Ieee R)} {i : Nat} {x : Ieee R}
    (h : ∃ e ∈ row N i, e.2 = nan) : rkOpinion o p N i x = nan := by
  have h1 : stage1 o p N i = nan := slope_nan h
  unfold rkOpinion
  rw [h1, nan_add, nan_add, nan_add, mul_nan, nan_div, add_nan]

/-- a NaN share gives a NaN contact probability, if there is at least one contact -/
theorem helperSeq_nan {o : MathOps (Ieee R)} : ∀ {m : Nat}, 1 ≤ m → helperSeq o nan m = nan
  | m + 1, _ => by
    show helperSeq o nan m + (o.powNat (-nan) (m + 1 + 1) + nan) / (nan + 1) = nan
    rw [add_nan, nan_div, add_nan]

theorem weightSeq_nan {r : Ieee R} {P : Nat → Nat → Ieee R} {x y : Nat} (h : P x y = nan ∨ P y x = nan) : weightSeq r P x y = nan := by
  unfold weightSeq
  rcases h with h | h
  · rw [h, mul_nan, add_nan, nan_add, add_nan]; simp
  · rw [h]; simp only [add_nan, nan_add]; simp

/-- adding to an infinity or NaN -/
theorem totalSeq_inf {w : Nat → Ieee R} {j : Nat} (h : w j = pinf) : ∀ {n : Nat}, j < n → totalSeq w n = pinf ∨ totalSeq w n = nan
  | n + 1, hj => by
    show totalSeq w n + w n = pinf ∨ totalSeq w n + w n = nan
    by_cases hjn : j = n
    · subst hjn
      rw [h]
      cases totalSeq w j
      · exact .inl rfl
      · exact .inl rfl
      · exact .inr rfl
      · exact .inr rfl
    · rcases totalSeq_inf (w := w) h (n := n) (by omega) with e | e
      · rw [e]
        cases w n
        · exact .inl rfl
        · exact .inl rfl
        · exact .inr rfl
        · exact .inr rfl
      · rw [e, nan_add]; exact .inr rfl

theorem totalSeq_zero {w : Nat → Ieee R} : ∀ {n : Nat}, (∀ k, k < n → w k = 0) → totalSeq w n = 0
  | 0, _ => rfl
  | n + 1, h => by
    show totalSeq w n + w n = 0
    rw [totalSeq_zero (n := n) (fun k hk => h k (by omega)), h n (by omega)]
    show ofReal R ((0 : ℝ) + 0) = _
    rw [add_zero, ofReal_fin R (by rw [abs_zero]; positivity)]
    exact congrArg fin (Dbl.ext' (R.fix Dbl.isDouble_zero))

end Activity
end Seldon
