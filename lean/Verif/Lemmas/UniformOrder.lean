import Verif.Lemmas.Expansion
import Verif.Spec.Ode
import Mathlib.Algebra.BigOperators.Fin
import Mathlib.Analysis.Asymptotics.Theta
/-!
# Expansions in powers of a small step, uniformly in parameters
-/
namespace Seldon.Uniform
open Filter Topology Asymptotics

section
variable {P : Type} (l : Filter P) (h : P → ℝ)

/-- Bounded near the limit. -/
def Bd (u : P → ℝ) : Prop := u =O[l] (fun _ => (1 : ℝ))

/-- `u = p + O( h^k )`, uniformly. -/
def Near (k : ℕ) (u p : P → ℝ) : Prop := (fun q => u q - p q) =O[l] (fun q => h q ^ k)
end

namespace Bd
variable {P : Type} {l : Filter P} {u v : P → ℝ}
theorem const (c : ℝ) : Bd l (fun _ => c) := isBigO_const_const _ one_ne_zero _
theorem add (hu : Bd l u) (hv : Bd l v) : Bd l (fun q => u q + v q) := IsBigO.add hu hv
theorem sub (hu : Bd l u) (hv : Bd l v) : Bd l (fun q => u q - v q) := IsBigO.sub hu hv
theorem neg (hu : Bd l u) : Bd l (fun q => -u q) := IsBigO.neg_left hu
theorem mul (hu : Bd l u) (hv : Bd l v) : Bd l (fun q => u q * v q) := (IsBigO.mul hu hv).congr_right fun _ => one_mul 1
theorem pow (hu : Bd l u) (k : ℕ) : Bd l (fun q => u q ^ k) := (IsBigO.pow hu k).congr_right fun _ => one_pow k
theorem div_const (hu : Bd l u) (c : ℝ) : Bd l (fun q => u q / c) := by
  simp only [div_eq_mul_inv]; exact hu.mul (const _)
theorem of_le (M : ℝ) (h : ∀ q, |u q| ≤ M) : Bd l u :=
  IsBigO.of_bound M (Eventually.of_forall fun q => by simpa using h q)
theorem small {h : P → ℝ} [hl : Fact (Tendsto h l (𝓝 0))] : Bd l h := hl.out.isBigO_one ℝ
theorem sum {ι : Type} (s : Finset ι) {f : ι → P → ℝ} (hf : ∀ i ∈ s, Bd l (f i)) : Bd l (fun q => ∑ i ∈ s, f i q) :=
  (IsBigO.sum hf).congr_left fun x => Finset.sum_apply x s f
end Bd

/-- Boundedness of polynomials in bounded functions. -/
macro "bd" : tactic => `(tactic| repeat' (first | assumption | apply Bd.const | apply Bd.small | apply Bd.add | apply Bd.sub | apply Bd.mul | apply Bd.neg | apply Bd.pow | apply Bd.div_const))

namespace Near
variable {P : Type} {l : Filter P} {h : P → ℝ} {k m : ℕ} {u v p q : P → ℝ}

theorem refl (k : ℕ) (u : P → ℝ) : Near l h k u u := by
  unfold Near
  simp only [sub_self]
  exact isBigO_zero _ _

theorem of_eq (e : ∀ x, u x = p x) : Near l h k u p := by
  rw [show u = p from funext e]; exact refl k p

theorem symm (hu : Near l h k u p) : Near l h k p u := by
  unfold Near at *
  refine (hu.neg_left).congr_left fun x => ?_
  ring

theorem trans (hu : Near l h k u p) (h' : Near l h k p q) : Near l h k u q := by
  unfold Near at *
  refine (hu.add h').congr_left fun x => ?_
  ring

theorem add (hu : Near l h k u p) (h' : Near l h k v q) : Near l h k (fun x => u x + v x) (fun x => p x + q x) := by
  unfold Near at *
  refine (IsBigO.add hu h').congr_left fun x => ?_
  ring

theorem sub (hu : Near l h k u p) (h' : Near l h k v q) : Near l h k (fun x => u x - v x) (fun x => p x - q x) := by
  unfold Near at *
  refine (IsBigO.sub hu h').congr_left fun x => ?_
  ring

theorem bd_mul {c : P → ℝ} (hc : Bd l c) (hu : Near l h k u p) : Near l h k (fun x => c x * u x) (fun x => c x * p x) := by
  unfold Near at *
  refine (IsBigO.mul hc hu).congr (fun x => ?_) (fun x => ?_) <;> ring

theorem const_mul (c : ℝ) (hu : Near l h k u p) : Near l h k (fun x => c * u x) (fun x => c * p x) := bd_mul (Bd.const c) hu

theorem neg (hu : Near l h k u p) : Near l h k (fun x => -u x) (fun x => -p x) := by
  have := hu.const_mul (-1)
  refine (of_eq fun x => ?_).trans (this.trans (of_eq fun x => ?_)) <;> ring

theorem weaken [hl : Fact (Tendsto h l (𝓝 0))] (hu : Near l h k u p) (hm : m ≤ k) : Near l h m u p := by
  unfold Near at *
  refine hu.trans ?_
  apply IsBigO.of_bound 1
  have : Tendsto (fun x => |h x|) l (𝓝 0) := by
    have := ((continuous_abs (G := ℝ)).tendsto 0).comp hl.out
    rw [abs_zero] at this
    exact this
  filter_upwards [this.eventually (gt_mem_nhds one_pos)] with x hx
  rw [norm_pow, norm_pow, one_mul, Real.norm_eq_abs]
  exact pow_le_pow_of_le_one (abs_nonneg _) hx.le hm

theorem id_mul (hu : Near l h k u p) : Near l h (k + 1) (fun x => h x * u x) (fun x => h x * p x) := by
  unfold Near at *
  refine ((isBigO_refl (fun x => h x) l).mul hu).congr (fun x => ?_) (fun x => ?_) <;> ring

theorem mul (hu : Near l h k u p) (h' : Near l h k v q) (hv : Bd l v) (hp : Bd l p) :
    Near l h k (fun x => u x * v x) (fun x => p x * q x) := by
  unfold Near at *
  have h1' : (fun x => (u x - p x) * v x) =O[l] (fun x => h x ^ k) := (IsBigO.mul hu hv).congr_right fun x => by ring
  have h2' : (fun x => p x * (v x - q x)) =O[l] (fun x => h x ^ k) := (IsBigO.mul hp h').congr_right fun x => by ring
  refine (h1'.add h2').congr_left fun x => ?_
  ring

theorem drop {c : P → ℝ} (hc : Bd l c) : Near l h k (fun x => h x ^ k * c x) (fun _ => 0) := by
  unfold Near
  refine ((isBigO_refl (fun x => h x ^ k) l).mul hc).congr (fun x => ?_) (fun x => ?_) <;> ring

theorem bounded [Fact (Tendsto h l (𝓝 0))] (hu : Near l h k u p) (hp : Bd l p) : Bd l u := by
  have h0 := hu.weaken (Nat.zero_le k)
  unfold Near at h0
  refine ((h0.congr_right fun x => pow_zero (h x)).add hp).congr_left fun x => ?_
  ring

theorem congr (hu : Near l h k u p) (e : ∀ x, u x = v x) (e' : ∀ x, p x = q x) : Near l h k v q := by
  rw [← show u = v from funext e, ← show p = q from funext e']; exact hu

theorem sum {ι : Type} (s : Finset ι) {f g : ι → P → ℝ} (hf : ∀ i ∈ s, Near l h k (f i) (g i)) :
    Near l h k (fun x => ∑ i ∈ s, f i x) (fun x => ∑ i ∈ s, g i x) := by
  unfold Near
  have := IsBigO.sum (fun i hi => hf i hi)
  refine this.congr_left fun x => ?_
  rw [Finset.sum_apply, Finset.sum_sub_distrib]

end Near

/-! ## the hyperbolic tangent -/

/-- If `r' = s` and `|s( t )| ≤ C |t|^k` then `|r( e ) - r( 0 )| ≤ C |e|^(k+1)`. -/
theorem integrate_bound {r s : ℝ → ℝ} {C : ℝ} {k : ℕ} (hC : 0 ≤ C) (hd : ∀ t, HasDerivAt r (s t) t) (hs : ∀ t, |s t| ≤ C * |t| ^ k) (h0 : r 0 = 0) (e : ℝ) :
    |r e| ≤ C * |e| ^ (k + 1) := by
  have := Convex.norm_image_sub_le_of_norm_hasDerivWithin_le (f := r) (f' := s) (C := C * |e| ^ k) (s := Set.uIcc 0 e) (x := 0) (y := e)
    (fun t _ => (hd t).hasDerivWithinAt) (fun t ht => by
      have hle : |t| ≤ |e| := by
        rw [Set.mem_uIcc] at ht
        rcases ht with ⟨h1, h2⟩ | ⟨h1, h2⟩
        · rw [abs_of_nonneg h1, abs_of_nonneg (h1.trans h2)]; exact h2
        · rw [abs_of_nonpos h2, abs_of_nonpos (h1.trans h2)]; linarith
      exact (hs t).trans (mul_le_mul_of_nonneg_left (pow_le_pow_left₀ (abs_nonneg _) hle k) hC)) (convex_uIcc 0 e) Set.left_mem_uIcc Set.right_mem_uIcc
  rw [h0, sub_zero, sub_zero] at this
  calc |r e| ≤ C * |e| ^ k * |e| := this
    _ = C * |e| ^ (k + 1) := by rw [pow_succ]; ring

theorem abs_tanh_le (y : ℝ) : |Real.tanh y| ≤ 1 := by
  rw [abs_le]
  exact ⟨(Real.neg_one_lt_tanh y).le, (Real.tanh_lt_one y).le⟩

/-- Expansion of `tanh` with a remainder that is uniform in the point. -/
theorem tanh_remainder (y e : ℝ) : |Real.tanh (y + e) - (Real.tanh y + tanh1 (Real.tanh y) * e + tanh2 (Real.tanh y) / 2 * e ^ 2 +
    tanh3 (Real.tanh y) / 6 * e ^ 3)| ≤ 40 * |e| ^ 4 := by
  set a := Real.tanh y with ha
  set g : ℝ → ℝ := fun e => Real.tanh (y + e) with hg
  have g0 : g 0 = a := by rw [hg, ha]; simp
  have hg1 : ∀ e, |g e| ≤ 1 := fun e => abs_tanh_le _
  have hd : ∀ e, HasDerivAt g (tanh1 (g e)) e := by
    intro e
    have h1 : HasDerivAt (fun e => y + e) 1 e := by simpa using (hasDerivAt_id' e).const_add y
    have h2 := (hasDerivAt_tanh (y + e)).comp e h1
    rw [← tanh1_eq, mul_one] at h2
    exact h2
  have d1 : ∀ e, HasDerivAt (fun e => tanh1 (g e)) (tanh2 (g e)) e := by
    intro e
    have := ((hd e).pow 2).const_sub 1
    refine this.congr_deriv ?_
    unfold tanh2 tanh1; push_cast; ring
  have d2 : ∀ e, HasDerivAt (fun e => tanh2 (g e)) (tanh3 (g e)) e := by
    intro e
    have := (((hd e).const_mul (-2)).add (((hd e).pow 3).const_mul 2))
    refine (this.congr_deriv ?_).congr_of_eventuallyEq (Eventually.of_forall fun e => ?_)
    · unfold tanh3 tanh1; push_cast; ring
    · show tanh2 (g e) = -2 * g e + 2 * (g e) ^ 3
      unfold tanh2; ring
  have d3 : ∀ e, HasDerivAt (fun e => tanh3 (g e)) ((16 * g e - 24 * g e ^ 3) * (1 - g e ^ 2)) e := by
    intro e
    have := ((((hd e).pow 2).const_mul 8).sub (((hd e).pow 4).const_mul 6)).sub_const 2
    refine (this.congr_deriv ?_).congr_of_eventuallyEq (Eventually.of_forall fun e => ?_)
    · unfold tanh1; push_cast; ring
    · show tanh3 (g e) = 8 * g e ^ 2 - 6 * (g e) ^ 4 - 2
      unfold tanh3; ring
  have b3 : ∀ t, |(16 * g t - 24 * g t ^ 3) * (1 - g t ^ 2)| ≤ 40 * |t| ^ 0 := by
    intro t
    have h1 := hg1 t
    have h2 : |g t ^ 2| ≤ 1 := by rw [abs_pow]; exact pow_le_one₀ (abs_nonneg _) h1
    have h3 : |g t ^ 3| ≤ 1 := by rw [abs_pow]; exact pow_le_one₀ (abs_nonneg _) h1
    have h4 : |16 * g t - 24 * g t ^ 3| ≤ 40 := by
      rw [abs_le] at h1 h3 ⊢
      constructor <;> linarith [h1.1, h1.2, h3.1, h3.2]
    have h5 : |1 - g t ^ 2| ≤ 1 := by
      have := sq_nonneg (g t)
      rw [abs_le] at h2 ⊢
      constructor <;> linarith [h2.1, h2.2]
    rw [abs_mul, pow_zero]
    calc _ ≤ (40 : ℝ) * 1 := mul_le_mul h4 h5 (abs_nonneg _) (by norm_num)
      _ = _ := rfl
  have hlin : ∀ (c t : ℝ), HasDerivAt (fun e : ℝ => c * e) c t := fun c t => by simpa using (hasDerivAt_id' t).const_mul c
  have r3 := integrate_bound (r := fun e => tanh3 (g e) - tanh3 a) (k := 0) (by norm_num : (0 : ℝ) ≤ 40) (fun t => (d3 t).sub_const _) b3 (by simp [g0])
  have r2 := integrate_bound (r := fun e => tanh2 (g e) - (tanh2 a + tanh3 a * e)) (by norm_num : (0 : ℝ) ≤ 40)
    (fun t => (d2 t).sub ((hlin (tanh3 a) t).const_add (tanh2 a))) r3 (by simp [g0])
  have r1 := integrate_bound (r := fun e => tanh1 (g e) - (tanh1 a + tanh2 a * e + tanh3 a / 2 * e ^ 2)) (by norm_num : (0 : ℝ) ≤ 40)
    (fun t => ((d1 t).sub (((hlin (tanh2 a) t).const_add (tanh1 a)).add ((hasDerivAt_pow 2 t).const_mul (tanh3 a / 2)))).congr_deriv
      (by push_cast; ring : _ = tanh2 (g t) - (tanh2 a + tanh3 a * t))) r2 (by simp [g0])
  have r0 := integrate_bound (r := fun e => g e - (a + tanh1 a * e + tanh2 a / 2 * e ^ 2 + tanh3 a / 6 * e ^ 3)) (by norm_num : (0 : ℝ) ≤ 40)
    (fun t => ((hd t).sub ((((hlin (tanh1 a) t).const_add a).add ((hasDerivAt_pow 2 t).const_mul (tanh2 a / 2))).add
      ((hasDerivAt_pow 3 t).const_mul (tanh3 a / 6)))).congr_deriv
      (by push_cast; ring : _ = tanh1 (g t) - (tanh1 a + tanh2 a * t + tanh3 a / 2 * t ^ 2))) r1 (by simp [g0])
  exact r0 e

section
variable {P : Type} {l : Filter P} {h : P → ℝ}

theorem Bd.tanh {u : P → ℝ} : Bd l (fun q => Real.tanh (u q)) := Bd.of_le 1 fun _ => abs_tanh_le _
theorem Bd.tanh1 {u : P → ℝ} (hu : Bd l u) : Bd l (fun q => tanh1 (u q)) := by unfold Seldon.tanh1; bd
theorem Bd.tanh2 {u : P → ℝ} (hu : Bd l u) : Bd l (fun q => tanh2 (u q)) := by unfold Seldon.tanh2; bd
theorem Bd.tanh3 {u : P → ℝ} (hu : Bd l u) : Bd l (fun q => tanh3 (u q)) := by unfold Seldon.tanh3; bd

/-- `tanh` of an expansion. -/
theorem Near.tanh [hl : Fact (Tendsto h l (𝓝 0))] {u c0 c1 c2 c3 : P → ℝ} (b1 : Bd l c1) (b2 : Bd l c2) (b3 : Bd l c3)
    (hu : Near l h 4 u (fun q => c0 q + c1 q * h q + c2 q * h q ^ 2 + c3 q * h q ^ 3)) :
    Near l h 4 (fun q => Real.tanh (u q)) (fun q => Real.tanh (c0 q) + tanh1 (Real.tanh (c0 q)) * c1 q * h q +
      (tanh1 (Real.tanh (c0 q)) * c2 q + tanh2 (Real.tanh (c0 q)) / 2 * c1 q ^ 2) * h q ^ 2 +
      (tanh1 (Real.tanh (c0 q)) * c3 q + tanh2 (Real.tanh (c0 q)) * (c1 q * c2 q) + tanh3 (Real.tanh (c0 q)) / 6 * c1 q ^ 3) * h q ^ 3) := by
  have hh : Bd l h := Bd.small
  set e : P → ℝ := fun q => u q - c0 q with he
  set p : P → ℝ := fun q => c1 q * h q + c2 q * h q ^ 2 + c3 q * h q ^ 3 with hp
  have heq : Near l h 4 e p := (hu.sub (Near.refl 4 c0)).congr (fun q => rfl) (fun q => by rw [hp]; ring)
  have hpb : Bd l p := by rw [hp]; bd
  have heb := heq.bounded hpb
  have h1 : Near l h 1 e (fun _ => 0) := by
    refine (heq.weaken (by norm_num)).trans ?_
    refine (Near.drop (k := 1) (c := fun q => c1 q + c2 q * h q + c3 q * h q ^ 2) (by bd)).congr ?_ (fun _ => rfl)
    intro q; rw [hp]; ring
  have hO : e =O[l] h := by
    have := h1; unfold Near at this
    exact this.congr (fun q => by ring) (fun q => by ring)
  have hT : Near l h 4 (fun q => Real.tanh (u q))
      (fun q => Real.tanh (c0 q) + tanh1 (Real.tanh (c0 q)) * e q + tanh2 (Real.tanh (c0 q)) / 2 * e q ^ 2 + tanh3 (Real.tanh (c0 q)) / 6 * e q ^ 3) := by
    unfold Near
    refine IsBigO.trans (IsBigO.of_bound 40 (Eventually.of_forall fun q => ?_)) (hO.pow 4)
    have := tanh_remainder (c0 q) (e q)
    rw [norm_pow, Real.norm_eq_abs, Real.norm_eq_abs]
    rw [show c0 q + e q = u q by rw [he]; ring] at this
    exact this
  have hq2 : Near l h 4 (fun q => e q * e q) (fun q => p q * p q) := heq.mul heq heb hpb
  have hq3 : Near l h 4 (fun q => e q * e q * e q) (fun q => p q * p q * p q) := hq2.mul heq heb (by bd)
  refine hT.trans ?_
  have b0 : Bd l (fun q => Real.tanh (c0 q)) := Bd.tanh
  have t1 : Bd l (fun q => tanh1 (Real.tanh (c0 q))) := b0.tanh1
  have t2 : Bd l (fun q => tanh2 (Real.tanh (c0 q))) := b0.tanh2
  have t3 : Bd l (fun q => tanh3 (Real.tanh (c0 q))) := b0.tanh3
  set T1 := fun q => tanh1 (Real.tanh (c0 q)) with ht1
  set T2 := fun q => tanh2 (Real.tanh (c0 q)) with ht2
  set T3 := fun q => tanh3 (Real.tanh (c0 q)) with ht3
  have hs := (((Near.refl (l := l) (h := h) 4 fun q => Real.tanh (c0 q)).add (heq.bd_mul t1)).add (hq2.bd_mul (t2.div_const 2))).add (hq3.bd_mul (t3.div_const 6))
  refine (hs.congr (fun q => by simp only [ht1, ht2, ht3]; ring) (fun q => rfl)).trans ?_
  refine ((Near.drop (k := 4) (c := fun q => T2 q / 2 * ((c2 q + c3 q * h q) ^ 2 + 2 * c1 q * c3 q) +
      T3 q / 6 * (3 * c1 q ^ 2 * (c2 q + c3 q * h q) + 3 * c1 q * (c2 q + c3 q * h q) ^ 2 * h q + (c2 q + c3 q * h q) ^ 3 * h q ^ 2))
    (by bd)).add (Near.refl 4 (fun q => Real.tanh (c0 q) + T1 q * c1 q * h q + (T1 q * c2 q + T2 q / 2 * c1 q ^ 2) * h q ^ 2 +
      (T1 q * c3 q + T2 q * (c1 q * c2 q) + T3 q / 6 * c1 q ^ 3) * h q ^ 3))).congr ?_ ?_
  · intro q; rw [hp]; ring
  · intro q; simp only [ht1, ht2, ht3]; ring

theorem Near.tanh_congr {k : ℕ} {u v : P → ℝ} (hu : Near l h k u v) : Near l h k (fun x => Real.tanh (u x)) (fun x => Real.tanh (v x)) := by
  unfold Near at *
  refine IsBigO.trans (IsBigO.of_bound 1 (Eventually.of_forall fun x => ?_)) hu
  rw [one_mul]
  exact tanh_lipschitz _ _

end

/-! ## integration -/

section
variable {Ω : Type}

/-- Steps `q.2` from 0 to at most `H`, for each value of the parameter `q.1`, as the step tends to 0. -/
def steps (H : Ω → ℝ) : Filter (Ω × ℝ) := comap Prod.snd (𝓝 0) ⊓ 𝓟 {q | 0 ≤ q.2 ∧ q.2 ≤ H q.1}

instance (H : Ω → ℝ) : Fact (Tendsto Prod.snd (steps H) (𝓝 0)) := ⟨tendsto_comap.mono_left inf_le_left⟩

theorem eventually_steps {H : Ω → ℝ} {Q : Ω × ℝ → Prop} :
    (∀ᶠ q in steps H, Q q) ↔ ∃ ε > 0, ∀ ω t, 0 ≤ t → t ≤ H ω → t < ε → Q (ω, t) := by
  unfold steps
  rw [eventually_inf_principal, eventually_comap, Metric.eventually_nhds_iff]
  constructor
  · rintro ⟨ε, hε, hq⟩
    refine ⟨ε, hε, fun ω t h0 h1 h2 => hq (y := t) (by rw [Real.dist_eq, sub_zero, abs_of_nonneg h0]; exact h2) (ω, t) rfl ⟨h0, h1⟩⟩
  · rintro ⟨ε, hε, hq⟩
    refine ⟨ε, hε, fun {y} hy a ha hs => ?_⟩
    rw [Real.dist_eq, sub_zero] at hy
    subst ha
    exact hq a.1 a.2 hs.1 hs.2 ((le_abs_self _).trans_lt hy)

theorem Near.integrate {H : Ω → ℝ} {k : ℕ} {g : Ω → ℝ → ℝ} {u p R : Ω × ℝ → ℝ}
    (hg : ∀ ω t, 0 ≤ t → t ≤ H ω → HasDerivWithinAt (g ω) (u (ω, t)) (Set.Icc 0 (H ω)) t) (hu : Near (steps H) Prod.snd k u p)
    (hR : ∀ ω t, HasDerivAt (fun t => R (ω, t)) (p (ω, t)) t) (h0 : ∀ ω, g ω 0 = R (ω, 0)) : Near (steps H) Prod.snd (k + 1) (fun q => g q.1 q.2) R := by
  unfold Near at *
  obtain ⟨C, hC0, hC⟩ := hu.exists_nonneg
  obtain ⟨ε, hε, hball⟩ := eventually_steps.mp hC.bound
  apply IsBigO.of_bound C
  rw [eventually_steps]
  refine ⟨ε, hε, fun ω x hx0 hxH hxε => ?_⟩
  have hd : ∀ t ∈ Set.Icc 0 x, HasDerivWithinAt (fun t => g ω t - R (ω, t)) (u (ω, t) - p (ω, t)) (Set.Icc 0 x) t ∧ ‖u (ω, t) - p (ω, t)‖ ≤ C * x ^ k := by
    rintro t ⟨ht0, htx⟩
    refine ⟨((hg ω t ht0 (htx.trans hxH)).mono (Set.Icc_subset_Icc_right hxH)).sub (hR ω t).hasDerivWithinAt, ?_⟩
    refine (hball ω t ht0 (htx.trans hxH) (htx.trans_lt hxε)).trans ?_
    rw [norm_pow, Real.norm_eq_abs, abs_of_nonneg ht0]
    exact mul_le_mul_of_nonneg_left (pow_le_pow_left₀ ht0 htx k) hC0
  have := Convex.norm_image_sub_le_of_norm_hasDerivWithin_le (fun t ht => (hd t ht).1) (fun t ht => (hd t ht).2) (convex_Icc 0 x)
    (Set.left_mem_Icc.mpr hx0) (Set.right_mem_Icc.mpr hx0)
  rw [h0, sub_self, sub_zero, sub_zero] at this
  calc ‖g ω x - R (ω, x)‖ ≤ C * x ^ k * ‖x‖ := this
    _ = C * ‖x ^ (k + 1)‖ := by rw [norm_pow, Real.norm_eq_abs, abs_of_nonneg hx0, pow_succ]; ring

end

/-! ## vector fields with an expansion -/

/-- The vector fields `f q`, for the indices below `n`, can be expanded around `x q` to third order, uniformly. -/
structure Expands {P : Type} (l : Filter P) (h : P → ℝ) (f : P → (Nat → ℝ) → Nat → ℝ) (n : Nat) (x : P → Nat → ℝ) (J : P → (Nat → ℝ) → Nat → ℝ)
    (H : P → (Nat → ℝ) → (Nat → ℝ) → Nat → ℝ) (T : P → (Nat → ℝ) → (Nat → ℝ) → (Nat → ℝ) → Nat → ℝ) : Prop where
  third : ∀ (y y1 y2 y3 : P → Nat → ℝ), (∀ j, j < n → Bd l (fun q => y1 q j)) → (∀ j, j < n → Bd l (fun q => y2 q j)) → (∀ j, j < n → Bd l (fun q => y3 q j)) →
    (∀ j, j < n → Near l h 4 (fun q => y q j) (fun q => x q j + y1 q j * h q + y2 q j * h q ^ 2 + y3 q j * h q ^ 3)) →
    ∀ i, i < n → Near l h 4 (fun q => f q (y q) i) (fun q => f q (x q) i + J q (y1 q) i * h q + (J q (y2 q) i + H q (y1 q) (y1 q) i / 2) * h q ^ 2 +
      (J q (y3 q) i + H q (y1 q) (y2 q) i + T q (y1 q) (y1 q) (y1 q) i / 6) * h q ^ 3)
  lipschitz : ∀ k (y z : P → Nat → ℝ), (∀ j, j < n → Near l h k (fun q => y q j) (fun q => z q j)) →
    ∀ i, i < n → Near l h k (fun q => f q (y q) i) (fun q => f q (z q) i)
  bx : ∀ i, i < n → Bd l (fun q => x q i)
  bf : ∀ i, i < n → Bd l (fun q => f q (x q) i)
  bJ : ∀ u : P → Nat → ℝ, (∀ j, j < n → Bd l (fun q => u q j)) → ∀ i, i < n → Bd l (fun q => J q (u q) i)
  bH : ∀ u v : P → Nat → ℝ, (∀ j, j < n → Bd l (fun q => u q j)) → (∀ j, j < n → Bd l (fun q => v q j)) → ∀ i, i < n → Bd l (fun q => H q (u q) (v q) i)
  bT : ∀ u : P → Nat → ℝ, (∀ j, j < n → Bd l (fun q => u q j)) → ∀ i, i < n → Bd l (fun q => T q (u q) (u q) (u q) i)
  J_add : ∀ q u v i, J q (fun j => u j + v j) i = J q u i + J q v i
  J_mul : ∀ q (c : ℝ) u i, J q (fun j => c * u j) i = c * J q u i
  H_mul : ∀ q (c d : ℝ) u v i, H q (fun j => c * u j) (fun j => d * v j) i = c * d * H q u v i
  T_mul : ∀ q (c : ℝ) u i, T q (fun j => c * u j) (fun j => c * u j) (fun j => c * u j) i = c ^ 3 * T q u u u i

namespace Expands
variable {P : Type} {l : Filter P} {h : P → ℝ} {f : P → (Nat → ℝ) → Nat → ℝ} {n : Nat} {x : P → Nat → ℝ} {J : P → (Nat → ℝ) → Nat → ℝ}
  {H : P → (Nat → ℝ) → (Nat → ℝ) → Nat → ℝ} {T : P → (Nat → ℝ) → (Nat → ℝ) → (Nat → ℝ) → Nat → ℝ}

theorem J_zero (E : Expands l h f n x J H T) (q : P) (i : Nat) : J q (fun _ => 0) i = 0 := by
  have := E.J_mul q 0 (fun _ => 0) i
  simpa using this

theorem H_zero (E : Expands l h f n x J H T) (q : P) (u : Nat → ℝ) (i : Nat) : H q u (fun _ => 0) i = 0 := by
  have := E.H_mul q 1 0 u (fun _ => 0) i
  simpa using this

theorem H_mulr (E : Expands l h f n x J H T) (q : P) (d : ℝ) (u v : Nat → ℝ) (i : Nat) : H q u (fun j => d * v j) i = d * H q u v i := by
  have := E.H_mul q 1 d u v i
  simpa using this

/-- Expansion of the Runge-Kutta step. -/
theorem rk4 [Fact (Tendsto h l (𝓝 0))] (E : Expands l h f n x J H T) : ∀ i, i < n →
    Near l h 5 (fun q => Spec.rk4 (f q) (h q) (x q) i) (fun q => x q i + f q (x q) i * h q + J q (f q (x q)) i / 2 * h q ^ 2 +
      (J q (J q (f q (x q))) i + H q (f q (x q)) (f q (x q)) i) / 6 * h q ^ 3 +
      (J q (J q (J q (f q (x q)))) i + J q (H q (f q (x q)) (f q (x q))) i + 3 * H q (f q (x q)) (J q (f q (x q))) i +
        T q (f q (x q)) (f q (x q)) (f q (x q)) i) / 24 * h q ^ 4) := by
  have b1 := E.bf
  have b2 : ∀ i, i < n → Bd l (fun q => J q (f q (x q)) i) := E.bJ _ b1
  have b3 : ∀ i, i < n → Bd l (fun q => J q (J q (f q (x q))) i) := E.bJ _ b2
  have b4 : ∀ i, i < n → Bd l (fun q => H q (f q (x q)) (f q (x q)) i) := E.bH _ _ b1 b1
  have b5 : ∀ i, i < n → Bd l (fun q => J q (H q (f q (x q)) (f q (x q))) i) := E.bJ _ b4
  have b6 : ∀ i, i < n → Bd l (fun q => H q (f q (x q)) (J q (f q (x q))) i) := E.bH _ _ b1 b2
  have b7 : ∀ i, i < n → Bd l (fun q => T q (f q (x q)) (f q (x q)) (f q (x q)) i) := E.bT _ b1
  have stage : ∀ (c : ℝ) (k : P → Nat → ℝ) (k0 k1 k2 k3 : P → Nat → ℝ), (∀ j, j < n → Bd l (fun q => k3 q j)) →
      (∀ j, j < n → Near l h 4 (fun q => k q j) (fun q => k0 q j + k1 q j * h q + k2 q j * h q ^ 2 + k3 q j * h q ^ 3)) →
      ∀ j, j < n → Near l h 4 (fun q => x q j + h q * c * k q j)
        (fun q => x q j + (c * k0 q j) * h q + (c * k1 q j) * h q ^ 2 + (c * k2 q j) * h q ^ 3) := by
    intro c k k0 k1 k2 k3 b hk j hj
    have h1 := ((hk j hj).id_mul.weaken (m := 4) (by norm_num)).const_mul c
    have h2 := (Near.refl 4 fun q => x q j).add h1
    refine (h2.congr (fun q => ?_) (fun q => rfl)).trans ?_
    · ring
    · refine ((Near.drop (k := 4) (c := fun q => c * k3 q j) ((Bd.const c).mul (b j hj))).add
        (Near.refl 4 fun q => x q j + (c * k0 q j) * h q + (c * k1 q j) * h q ^ 2 + (c * k2 q j) * h q ^ 3)).congr (fun q => ?_) (fun q => ?_) <;> ring
  have z : ∀ j, j < n → Bd l (fun _ : P => (0 : ℝ)) := fun _ _ => Bd.const 0
  have cm : ∀ (c : ℝ) {u : P → ℝ}, Bd l u → Bd l (fun q => c * u q) := fun c _ hu => (Bd.const c).mul hu
  have k2 : ∀ j, j < n → Near l h 4 (fun q => f q (fun j => x q j + h q / 2 * f q (x q) j) j)
      (fun q => f q (x q) j + (1 / 2 * J q (f q (x q)) j) * h q + (1 / 8 * H q (f q (x q)) (f q (x q)) j) * h q ^ 2 +
        (1 / 48 * T q (f q (x q)) (f q (x q)) (f q (x q)) j) * h q ^ 3) := by
    intro j hj
    have s := stage (1 / 2) (fun q => f q (x q)) (fun q => f q (x q)) (fun _ _ => 0) (fun _ _ => 0) (fun _ _ => 0) z (fun j _ => Near.of_eq fun q => by ring)
    have := E.third (fun q j => x q j + h q * (1 / 2) * f q (x q) j) _ _ _ (fun j hj => cm _ (b1 j hj)) (fun j hj => cm _ (z j hj))
      (fun j hj => cm _ (z j hj)) s j hj
    refine this.congr (fun q => ?_) (fun q => ?_)
    · congr 1; funext j; ring
    · have e0 : (fun j : Nat => (1 / 2 : ℝ) * (fun _ : Nat => (0 : ℝ)) j) = fun _ => 0 := by funext j; simp
      rw [e0, E.H_zero, E.J_zero, E.J_mul, E.H_mul, E.T_mul]; ring
  have k3 : ∀ j, j < n → Near l h 4 (fun q => f q (fun j => x q j + h q / 2 * f q (fun j => x q j + h q / 2 * f q (x q) j) j) j)
      (fun q => f q (x q) j + (1 / 2 * J q (f q (x q)) j) * h q + (1 / 4 * J q (J q (f q (x q))) j + 1 / 8 * H q (f q (x q)) (f q (x q)) j) * h q ^ 2 +
        (1 / 16 * J q (H q (f q (x q)) (f q (x q))) j + 1 / 8 * H q (f q (x q)) (J q (f q (x q))) j +
          1 / 48 * T q (f q (x q)) (f q (x q)) (f q (x q)) j) * h q ^ 3) := by
    intro j hj
    have s := stage (1 / 2) (fun q => f q (fun j => x q j + h q / 2 * f q (x q) j)) (fun q => f q (x q)) (fun q j => 1 / 2 * J q (f q (x q)) j)
      (fun q j => 1 / 8 * H q (f q (x q)) (f q (x q)) j) (fun q j => 1 / 48 * T q (f q (x q)) (f q (x q)) (f q (x q)) j) (fun j hj => cm _ (b7 j hj)) k2
    have := E.third (fun q j => x q j + h q * (1 / 2) * f q (fun j => x q j + h q / 2 * f q (x q) j) j) _ _ _ (fun j hj => cm _ (b1 j hj))
      (fun j hj => cm _ (cm _ (b2 j hj))) (fun j hj => cm _ (cm _ (b4 j hj))) s j hj
    refine this.congr (fun q => ?_) (fun q => ?_)
    · congr 1; funext j; ring
    · simp only [E.J_mul, E.H_mul, E.H_mulr, E.T_mul]; ring
  have k4 : ∀ j, j < n → Near l h 4 (fun q => f q (fun j => x q j + h q * f q (fun j => x q j + h q / 2 * f q (fun j => x q j + h q / 2 * f q (x q) j) j) j) j)
      (fun q => f q (x q) j + J q (f q (x q)) j * h q + (1 / 2 * J q (J q (f q (x q))) j + 1 / 2 * H q (f q (x q)) (f q (x q)) j) * h q ^ 2 +
        (1 / 4 * J q (J q (J q (f q (x q)))) j + 1 / 8 * J q (H q (f q (x q)) (f q (x q))) j + 1 / 2 * H q (f q (x q)) (J q (f q (x q))) j +
          1 / 6 * T q (f q (x q)) (f q (x q)) (f q (x q)) j) * h q ^ 3) := by
    intro j hj
    have s := stage 1 (fun q => f q (fun j => x q j + h q / 2 * f q (fun j => x q j + h q / 2 * f q (x q) j) j)) (fun q => f q (x q))
      (fun q j => 1 / 2 * J q (f q (x q)) j) (fun q j => 1 / 4 * J q (J q (f q (x q))) j + 1 / 8 * H q (f q (x q)) (f q (x q)) j)
      (fun q j => 1 / 16 * J q (H q (f q (x q)) (f q (x q))) j + 1 / 8 * H q (f q (x q)) (J q (f q (x q))) j +
          1 / 48 * T q (f q (x q)) (f q (x q)) (f q (x q)) j)
      (fun j hj => ((cm _ (b5 j hj)).add (cm _ (b6 j hj))).add (cm _ (b7 j hj))) k3
    have := E.third (fun q j => x q j + h q * 1 * f q (fun j => x q j + h q / 2 * f q (fun j => x q j + h q / 2 * f q (x q) j) j) j) _ _ _
      (fun j hj => cm _ (b1 j hj)) (fun j hj => cm _ (cm _ (b2 j hj))) (fun j hj => cm _ ((cm _ (b3 j hj)).add (cm _ (b4 j hj)))) s j hj
    refine this.congr (fun q => ?_) (fun q => ?_)
    · congr 1; funext j; ring
    · simp only [E.J_mul, E.H_mul, E.H_mulr, E.T_mul, E.J_add]; ring
  intro i hi
  have hs := ((((Near.refl 4 fun q => f q (x q) i).add ((k2 i hi).const_mul 2)).add ((k3 i hi).const_mul 2)).add (k4 i hi)).id_mul.const_mul (1 / 6)
  have := (Near.refl 5 fun q => x q i).add hs
  refine this.congr (fun q => ?_) (fun q => ?_)
  · unfold Spec.rk4; ring
  · ring

end Expands

section
variable {Ω : Type} {S : Ω → ℝ} {f : Ω → (Nat → ℝ) → Nat → ℝ} {n : Nat} {x : Ω → Nat → ℝ} {J : Ω → (Nat → ℝ) → Nat → ℝ}
  {H : Ω → (Nat → ℝ) → (Nat → ℝ) → Nat → ℝ} {T : Ω → (Nat → ℝ) → (Nat → ℝ) → (Nat → ℝ) → Nat → ℝ}

/-- Expansion of the exact solutions of `dx/dt = f x`. -/
theorem Expands.solution (E : Expands (steps S) Prod.snd (fun q => f q.1) n (fun q => x q.1) (fun q => J q.1) (fun q => H q.1) (fun q => T q.1))
    {γ : Ω → ℝ → Nat → ℝ} (h0 : ∀ ω i, i < n → γ ω 0 i = x ω i) {B : ℝ} (hB : ∀ ω t i, i < n → 0 ≤ t → t ≤ S ω → |f ω (γ ω t) i| ≤ B)
    (hγ : ∀ ω t i, i < n → 0 ≤ t → t ≤ S ω → HasDerivWithinAt (fun t => γ ω t i) (f ω (γ ω t) i) (Set.Icc 0 (S ω)) t) : ∀ i, i < n →
    Near (steps S) Prod.snd 5 (fun q => γ q.1 q.2 i) (fun q => x q.1 i + f q.1 (x q.1) i * q.2 + J q.1 (f q.1 (x q.1)) i / 2 * q.2 ^ 2 +
      (J q.1 (J q.1 (f q.1 (x q.1))) i + H q.1 (f q.1 (x q.1)) (f q.1 (x q.1)) i) / 6 * q.2 ^ 3 +
      (J q.1 (J q.1 (J q.1 (f q.1 (x q.1)))) i + J q.1 (H q.1 (f q.1 (x q.1)) (f q.1 (x q.1))) i + 3 * H q.1 (f q.1 (x q.1)) (J q.1 (f q.1 (x q.1))) i +
        T q.1 (f q.1 (x q.1)) (f q.1 (x q.1)) (f q.1 (x q.1)) i) / 24 * q.2 ^ 4) := by
  have b1 := E.bf
  have b2 : ∀ i, i < n → Bd (steps S) (fun q => J q.1 (f q.1 (x q.1)) i) := E.bJ _ b1
  have b3 : ∀ i, i < n → Bd (steps S) (fun q => J q.1 (J q.1 (f q.1 (x q.1))) i) := E.bJ _ b2
  have b4 : ∀ i, i < n → Bd (steps S) (fun q => H q.1 (f q.1 (x q.1)) (f q.1 (x q.1)) i) := E.bH _ _ b1 b1
  have b6 : ∀ i, i < n → Bd (steps S) (fun q => H q.1 (f q.1 (x q.1)) (J q.1 (f q.1 (x q.1))) i) := E.bH _ _ b1 b2
  have b7 : ∀ i, i < n → Bd (steps S) (fun q => T q.1 (f q.1 (x q.1)) (f q.1 (x q.1)) (f q.1 (x q.1)) i) := E.bT _ b1
  have z : ∀ j, j < n → Bd (steps S) (fun _ => (0 : ℝ)) := fun _ _ => Bd.const 0
  have cm : ∀ (c : ℝ) {u : Ω × ℝ → ℝ}, Bd (steps S) u → Bd (steps S) (fun q => c * u q) := fun c _ hu => (Bd.const c).mul hu
  have hh : Bd (steps S) Prod.snd := Bd.small
  have hpoly : ∀ c0 c1 c2 c3 c4 t : ℝ, HasDerivAt (fun e : ℝ => c0 + c1 * e + c2 / 2 * e ^ 2 + c3 / 3 * e ^ 3 + c4 / 4 * e ^ 4)
      (c1 + c2 * t + c3 * t ^ 2 + c4 * t ^ 3) t := by
    intro c0 c1 c2 c3 c4 t
    have h1 : HasDerivAt (fun e : ℝ => c1 * e) c1 t := by simpa using (hasDerivAt_id' t).const_mul c1
    have h2 := (hasDerivAt_pow 2 t).const_mul (c2 / 2)
    have h3 := (hasDerivAt_pow 3 t).const_mul (c3 / 3)
    have h4 := (hasDerivAt_pow 4 t).const_mul (c4 / 4)
    have := (((h1.const_add c0).add h2).add h3).add h4
    refine this.congr_deriv ?_
    push_cast
    ring
  -- one more order
  have step : ∀ (k : ℕ), k ≤ 4 → ∀ (y1 y2 y3 c1 c2 c3 c4 : Ω → Nat → ℝ), (∀ j, j < n → Bd (steps S) (fun q => y1 q.1 j)) →
      (∀ j, j < n → Bd (steps S) (fun q => y2 q.1 j)) → (∀ j, j < n → Bd (steps S) (fun q => y3 q.1 j)) →
      (∀ i, i < n → Near (steps S) Prod.snd k (fun q => γ q.1 q.2 i) (fun q => x q.1 i + y1 q.1 i * q.2 + y2 q.1 i * q.2 ^ 2 + y3 q.1 i * q.2 ^ 3)) →
      (∀ i, i < n → Near (steps S) Prod.snd k (fun q => f q.1 (x q.1) i + J q.1 (y1 q.1) i * q.2 + (J q.1 (y2 q.1) i + H q.1 (y1 q.1) (y1 q.1) i / 2) * q.2 ^ 2 +
          (J q.1 (y3 q.1) i + H q.1 (y1 q.1) (y2 q.1) i + T q.1 (y1 q.1) (y1 q.1) (y1 q.1) i / 6) * q.2 ^ 3)
        (fun q => c1 q.1 i + c2 q.1 i * q.2 + c3 q.1 i * q.2 ^ 2 + c4 q.1 i * q.2 ^ 3)) →
      ∀ i, i < n → Near (steps S) Prod.snd (k + 1) (fun q => γ q.1 q.2 i)
        (fun q => x q.1 i + c1 q.1 i * q.2 + c2 q.1 i / 2 * q.2 ^ 2 + c3 q.1 i / 3 * q.2 ^ 3 + c4 q.1 i / 4 * q.2 ^ 4) := by
    intro k hk y1 y2 y3 c1 c2 c3 c4 d1 d2 d3 hy hc i hi
    refine Near.integrate (g := fun ω t => γ ω t i) (u := fun q => f q.1 (γ q.1 q.2) i)
      (p := fun q => c1 q.1 i + c2 q.1 i * q.2 + c3 q.1 i * q.2 ^ 2 + c4 q.1 i * q.2 ^ 3) (fun ω t ht0 ht => hγ ω t i hi ht0 ht) ?_
      (fun ω t => hpoly (x ω i) (c1 ω i) (c2 ω i) (c3 ω i) (c4 ω i) t) (fun ω => by simp only []; rw [h0 ω i hi]; ring)
    refine (E.lipschitz k (fun q => γ q.1 q.2) (fun q j => x q.1 j + y1 q.1 j * q.2 + y2 q.1 j * q.2 ^ 2 + y3 q.1 j * q.2 ^ 3) hy i hi).trans ?_
    exact ((E.third (fun q j => x q.1 j + y1 q.1 j * q.2 + y2 q.1 j * q.2 ^ 2 + y3 q.1 j * q.2 ^ 3) (fun q => y1 q.1) (fun q => y2 q.1) (fun q => y3 q.1)
      d1 d2 d3 (fun j _ => Near.refl 4 _) i hi).weaken hk).trans (hc i hi)
  have n1 : ∀ i, i < n → Near (steps S) Prod.snd 1 (fun q => γ q.1 q.2 i) (fun q => x q.1 i + 0 * q.2 + 0 * q.2 ^ 2 + 0 * q.2 ^ 3) := by
    intro i hi
    have := Near.integrate (k := 0) (g := fun ω t => γ ω t i) (u := fun q => f q.1 (γ q.1 q.2) i) (p := fun _ => 0) (R := fun q => x q.1 i)
      (fun ω t ht0 ht => hγ ω t i hi ht0 ht) (by
        unfold Near
        apply IsBigO.of_bound B
        rw [eventually_steps]
        refine ⟨1, one_pos, fun ω t ht0 ht _ => ?_⟩
        have := hB ω t i hi ht0 ht
        simpa using this) (fun ω t => hasDerivAt_const t (x ω i)) (fun ω => h0 ω i hi)
    refine this.congr (fun q => rfl) (fun q => by ring)
  have n2 : ∀ i, i < n → Near (steps S) Prod.snd 2 (fun q => γ q.1 q.2 i) (fun q => x q.1 i + f q.1 (x q.1) i * q.2 + 0 * q.2 ^ 2 + 0 * q.2 ^ 3) := by
    intro i hi
    refine (step 1 (by norm_num) (fun _ _ => 0) (fun _ _ => 0) (fun _ _ => 0) (fun ω i => f ω (x ω) i) (fun _ _ => 0) (fun _ _ => 0) (fun _ _ => 0)
      z z z n1 ?_ i hi).congr (fun q => rfl) (fun q => by ring)
    intro j hj
    have e1 : Bd (steps S) (fun q => J q.1 (fun _ => 0) j) := E.bJ _ z j hj
    have e2 : Bd (steps S) (fun q => H q.1 (fun _ => 0) (fun _ => 0) j) := E.bH _ _ z z j hj
    have e3 : Bd (steps S) (fun q => T q.1 (fun _ => 0) (fun _ => 0) (fun _ => 0) j) := E.bT _ z j hj
    refine ((Near.drop (k := 1) (c := fun q => J q.1 (fun _ => 0) j + (J q.1 (fun _ => 0) j + H q.1 (fun _ => 0) (fun _ => 0) j / 2) * q.2 +
      (J q.1 (fun _ => 0) j + H q.1 (fun _ => 0) (fun _ => 0) j + T q.1 (fun _ => 0) (fun _ => 0) (fun _ => 0) j / 6) * q.2 ^ 2)
      (by bd)).add (Near.refl 1 fun q => f q.1 (x q.1) j)).congr (fun q => ?_) (fun q => ?_) <;> ring
  have n3 : ∀ i, i < n → Near (steps S) Prod.snd 3 (fun q => γ q.1 q.2 i)
      (fun q => x q.1 i + f q.1 (x q.1) i * q.2 + (1 / 2 * J q.1 (f q.1 (x q.1)) i) * q.2 ^ 2 + 0 * q.2 ^ 3) := by
    intro i hi
    refine (step 2 (by norm_num) (fun ω => f ω (x ω)) (fun _ _ => 0) (fun _ _ => 0) (fun ω => f ω (x ω)) (fun ω => J ω (f ω (x ω))) (fun _ _ => 0)
      (fun _ _ => 0) b1 z z n2 ?_ i hi).congr (fun q => rfl) (fun q => by ring)
    intro j hj
    have e1 : Bd (steps S) (fun q => J q.1 (fun _ => 0) j) := E.bJ _ z j hj
    have e2 : Bd (steps S) (fun q => H q.1 (f q.1 (x q.1)) (fun _ => 0) j) := E.bH _ _ b1 z j hj
    have e3 := b7 j hj
    have e4 := b4 j hj
    refine ((Near.drop (k := 2) (c := fun q => (J q.1 (fun _ => 0) j + H q.1 (f q.1 (x q.1)) (f q.1 (x q.1)) j / 2) +
      (J q.1 (fun _ => 0) j + H q.1 (f q.1 (x q.1)) (fun _ => 0) j + T q.1 (f q.1 (x q.1)) (f q.1 (x q.1)) (f q.1 (x q.1)) j / 6) * q.2)
      (by bd)).add (Near.refl 2 fun q => f q.1 (x q.1) j + J q.1 (f q.1 (x q.1)) j * q.2)).congr (fun q => ?_) (fun q => ?_) <;> ring
  have n4 : ∀ i, i < n → Near (steps S) Prod.snd 4 (fun q => γ q.1 q.2 i)
      (fun q => x q.1 i + f q.1 (x q.1) i * q.2 + (1 / 2 * J q.1 (f q.1 (x q.1)) i) * q.2 ^ 2 +
        (1 / 6 * J q.1 (J q.1 (f q.1 (x q.1))) i + 1 / 6 * H q.1 (f q.1 (x q.1)) (f q.1 (x q.1)) i) * q.2 ^ 3) := by
    intro i hi
    refine (step 3 (by norm_num) (fun ω => f ω (x ω)) (fun ω j => 1 / 2 * J ω (f ω (x ω)) j) (fun _ _ => 0) (fun ω => f ω (x ω)) (fun ω => J ω (f ω (x ω)))
      (fun ω j => 1 / 2 * J ω (J ω (f ω (x ω))) j + H ω (f ω (x ω)) (f ω (x ω)) j / 2)
      (fun _ _ => 0) b1 (fun j hj => cm _ (b2 j hj)) z n3 ?_ i hi).congr (fun q => rfl) (fun q => by ring)
    intro j hj
    have e1 : Bd (steps S) (fun q => J q.1 (fun _ => 0) j) := E.bJ _ z j hj
    have e2 : Bd (steps S) (fun q => H q.1 (f q.1 (x q.1)) (fun j => 1 / 2 * J q.1 (f q.1 (x q.1)) j) j) :=
      E.bH _ (fun q j => 1 / 2 * J q.1 (f q.1 (x q.1)) j) b1 (fun j hj => cm _ (b2 j hj)) j hj
    have e3 := b7 j hj
    refine ((Near.drop (k := 3) (c := fun q => J q.1 (fun _ => 0) j + H q.1 (f q.1 (x q.1)) (fun j => 1 / 2 * J q.1 (f q.1 (x q.1)) j) j +
        T q.1 (f q.1 (x q.1)) (f q.1 (x q.1)) (f q.1 (x q.1)) j / 6)
      (by bd)).add
        (Near.refl 3 fun q => f q.1 (x q.1) j + J q.1 (f q.1 (x q.1)) j * q.2 +
          (1 / 2 * J q.1 (J q.1 (f q.1 (x q.1))) j + H q.1 (f q.1 (x q.1)) (f q.1 (x q.1)) j / 2) * q.2 ^ 2)).congr (fun q => ?_) (fun q => ?_)
    · rw [E.J_mul q]; ring
    · ring
  intro i hi
  refine (step 4 le_rfl (fun ω => f ω (x ω)) (fun ω j => 1 / 2 * J ω (f ω (x ω)) j)
    (fun ω j => 1 / 6 * J ω (J ω (f ω (x ω))) j + 1 / 6 * H ω (f ω (x ω)) (f ω (x ω)) j) (fun ω => f ω (x ω)) (fun ω => J ω (f ω (x ω)))
    (fun ω j => 1 / 2 * J ω (J ω (f ω (x ω))) j + H ω (f ω (x ω)) (f ω (x ω)) j / 2)
    (fun ω j => 1 / 6 * J ω (J ω (J ω (f ω (x ω)))) j + 1 / 6 * J ω (H ω (f ω (x ω)) (f ω (x ω))) j + 1 / 2 * H ω (f ω (x ω)) (J ω (f ω (x ω))) j +
      T ω (f ω (x ω)) (f ω (x ω)) (f ω (x ω)) j / 6) b1 (fun j hj => cm _ (b2 j hj)) (fun j hj => (cm _ (b3 j hj)).add (cm _ (b4 j hj))) n4 ?_ i hi).congr
    (fun q => rfl) (fun q => by ring)
  intro j hj
  refine Near.of_eq fun q => ?_
  have e1 := E.H_mul q 1 (1 / 2) (f q.1 (x q.1)) (J q.1 (f q.1 (x q.1))) j
  simp only [one_mul] at e1
  rw [E.J_mul q, E.J_add q, E.J_mul q, E.J_mul q, e1]

/-- The Runge-Kutta step is exact up to terms of fifth order, uniformly. -/
theorem Expands.rk4_order (E : Expands (steps S) Prod.snd (fun q => f q.1) n (fun q => x q.1) (fun q => J q.1) (fun q => H q.1) (fun q => T q.1))
    {γ : Ω → ℝ → Nat → ℝ} (h0 : ∀ ω i, i < n → γ ω 0 i = x ω i) {B : ℝ} (hB : ∀ ω t i, i < n → 0 ≤ t → t ≤ S ω → |f ω (γ ω t) i| ≤ B)
    (hγ : ∀ ω t i, i < n → 0 ≤ t → t ≤ S ω → HasDerivWithinAt (fun t => γ ω t i) (f ω (γ ω t) i) (Set.Icc 0 (S ω)) t) {i : Nat} (hi : i < n) :
    ∃ C ε : ℝ, 0 ≤ C ∧ 0 < ε ∧ ∀ ω h, 0 ≤ h → h ≤ S ω → h < ε → |Spec.rk4 (f ω) h (x ω) i - γ ω h i| ≤ C * h ^ 5 := by
  have := (E.rk4 i hi).trans (E.solution h0 hB hγ i hi).symm
  unfold Near at this
  obtain ⟨C, hC0, hC⟩ := this.exists_nonneg
  obtain ⟨ε, hε, hb⟩ := eventually_steps.mp hC.bound
  refine ⟨C, ε, hC0, hε, fun ω h h1 h2 h3 => ?_⟩
  have := hb ω h h1 h2 h3
  rw [norm_pow, Real.norm_eq_abs, Real.norm_eq_abs, abs_of_nonneg h1] at this
  exact this

end
end Seldon.Uniform
