import Verif.Lemmas.Double
import Verif.Lemmas.Safety
import Mathlib.Algebra.Order.BigOperators.Group.List
import Mathlib.Algebra.Order.Ring.Pow
import Mathlib.Tactic.Positivity
import Mathlib.Tactic.Linarith
import Mathlib.Tactic.Ring
/-!
# Lemmas: sums, weights and weighted sums in double precision
-/
set_option linter.unusedSectionVars false
namespace Seldon
open Spec

theorem loop_rel {σ τ : Type} {n : Nat} {f : Nat → σ → Res σ} {f' : Nat → τ → Res τ} {s : σ} {s' : τ} (I : Nat → σ → τ → Prop)
    (h0 : I 0 s s') (hs : ∀ i t t', i < n → I i t t' → ∃ u u', f i t = .ok u ∧ f' i t' = .ok u' ∧ I (i + 1) u u') :
    ∃ t t', loop n f s = .ok t ∧ loop n f' s' = .ok t' ∧ I n t t' := by
  induction n with
  | zero => exact ⟨s, s', rfl, rfl, h0⟩
  | succ n ih =>
    obtain ⟨t, t', ht, ht', hI⟩ := ih (fun i t t' hi => hs i t t' (by omega))
    obtain ⟨u, u', hu, hu', hI'⟩ := hs n t t' (Nat.lt_succ_self n) hI
    exact ⟨u, u', by rw [loop_succ, ht]; exact hu, by rw [loop_succ, ht']; exact hu', hI'⟩

/-! ## numbers -/

namespace Spec.Rounding
variable (R : Rounding)

/-- Sum of non-negative doubles from left to right. -/
theorem sum_bounds {l : List ℝ} : ∀ {a : ℝ}, IsDouble a → 0 ≤ a → (∀ x ∈ l, IsDouble x ∧ 0 ≤ x) →
    (a + l.sum) * (1 - 2 ^ (-53 : ℤ)) ^ l.length ≤ l.foldl (fun a x => R.round (a + x)) a ∧
    l.foldl (fun a x => R.round (a + x)) a ≤ (a + l.sum) * (1 + 2 ^ (-53 : ℤ)) ^ l.length ∧
    IsDouble (l.foldl (fun a x => R.round (a + x)) a) ∧ a ≤ l.foldl (fun a x => R.round (a + x)) a ∧
    ∀ x ∈ l, x ≤ l.foldl (fun a x => R.round (a + x)) a := by
  induction l with
  | nil => intro a ha h0 _; simp [ha]
  | cons x l ih =>
    intro a ha h0 hl
    obtain ⟨hx, hx0⟩ := hl x (List.mem_cons_self ..)
    have hs : 0 ≤ l.sum := List.sum_nonneg (fun y hy => (hl y (List.mem_cons_of_mem _ hy)).2)
    obtain ⟨i1, i2, i3, i4, i5⟩ := ih (a := R.round (a + x)) (R.double _) (R.nonneg (by linarith)) (fun y hy => hl y (List.mem_cons_of_mem _ hy))
    have he := abs_le.mp (R.error_add ha hx)
    rw [abs_of_nonneg (show 0 ≤ a + x by linarith)] at he
    have hu : (0 : ℝ) < 2 ^ (-53 : ℤ) := by positivity
    have hu1 : (2 : ℝ) ^ (-53 : ℤ) ≤ 1 := by norm_num
    rw [List.foldl_cons, List.sum_cons, List.length_cons, pow_succ, pow_succ]
    refine ⟨le_trans ?_ i1, i2.trans ?_, i3, (R.ge_of_ge ha (by linarith)).trans i4, ?_⟩
    · have h1 : (a + (x + l.sum)) * (1 - 2 ^ (-53 : ℤ)) ≤ R.round (a + x) + l.sum := by nlinarith
      calc _ = (a + (x + l.sum)) * (1 - 2 ^ (-53 : ℤ)) * (1 - 2 ^ (-53 : ℤ)) ^ l.length := by ring
        _ ≤ _ := by gcongr
    · have h1 : R.round (a + x) + l.sum ≤ (a + (x + l.sum)) * (1 + 2 ^ (-53 : ℤ)) := by nlinarith
      calc _ ≤ (a + (x + l.sum)) * (1 + 2 ^ (-53 : ℤ)) * (1 + 2 ^ (-53 : ℤ)) ^ l.length := by gcongr
        _ = _ := by ring
    · intro y hy
      rcases List.mem_cons.mp hy with rfl | hy
      · exact (R.ge_of_ge hx (by linarith)).trans i4
      · exact i5 y hy

theorem one_sub_pow_ge {u : ℝ} (h1 : u ≤ 1) (m : Nat) : 1 - m * u ≤ (1 - u) ^ m := by
  have := one_add_mul_le_pow (show (-2 : ℝ) ≤ -u by linarith) m
  rw [← sub_eq_add_neg] at this
  linarith

theorem one_add_pow_mul {u : ℝ} (h0 : 0 ≤ u) (h1 : u ≤ 1) (m : Nat) : (1 + u) ^ m * (1 - m * u) ≤ 1 := by
  have h2 : (1 + u) ^ m * (1 - u) ^ m ≤ 1 := by
    rw [← mul_pow]
    exact pow_le_one₀ (by nlinarith) (by nlinarith)
  have h3 : 0 ≤ (1 + u) ^ m := by positivity
  exact le_trans (mul_le_mul_of_nonneg_left (one_sub_pow_ge h1 m) h3) h2

/-- Normalised weights: nearly the exact ones. -/
theorem weights_close {l : List ℝ} (hl : ∀ x ∈ l, IsDouble x ∧ 0 ≤ x) (hne : ∃ x ∈ l, x ≠ 0) (hm : l.length + 1 ≤ 2 ^ 49) :
    (l.map (fun x => |R.round (x / l.foldl (fun a x => R.round (a + x)) 0) - x / l.sum|)).sum ≤ (l.length + 1) * 2 ^ (-52 : ℤ) ∧
    ∀ x ∈ l, 0 ≤ R.round (x / l.foldl (fun a x => R.round (a + x)) 0) ∧ R.round (x / l.foldl (fun a x => R.round (a + x)) 0) ≤ 1 := by
  obtain ⟨s1, s2, s3, s4, s5⟩ := R.sum_bounds (a := 0) Dbl.isDouble_zero le_rfl hl
  rw [zero_add] at s1 s2
  generalize hN : l.foldl (fun a x => R.round (a + x)) 0 = N at *
  obtain ⟨x0, hx0, hx0'⟩ := hne
  have hx0p : 0 < x0 := lt_of_le_of_ne (hl x0 hx0).2 (Ne.symm hx0')
  have hNp : 0 < N := lt_of_lt_of_le hx0p (s5 x0 hx0)
  have hS : x0 ≤ l.sum := List.single_le_sum (fun y hy => (hl y hy).2) x0 hx0
  have hSp : 0 < l.sum := by linarith
  set u : ℝ := 2 ^ (-53 : ℤ) with hu
  have hu0 : 0 < u := by positivity
  have hu1 : u ≤ 1 := by rw [hu]; norm_num
  set m : ℝ := (l.length : ℝ) with hmdef
  have hm0 : 1 ≤ m := by
    rw [hmdef]; exact_mod_cast List.length_pos_iff.mpr (by rintro rfl; simp at hx0)
  have hmu : m * u ≤ 1 / 16 := by
    have : m ≤ 2 ^ 49 := by
      have : ((l.length + 1 : Nat) : ℝ) ≤ ((2 ^ 49 : Nat) : ℝ) := by exact_mod_cast hm
      push_cast at this
      linarith
    calc m * u ≤ 2 ^ 49 * u := by gcongr
      _ = 1 / 16 := by rw [hu]; norm_num
  -- the ratio of the two sums
  clear_value m u
  have r1 : l.sum / N ≤ 1 + 2 * (m * u) - m * u / 2 := by
    rw [div_le_iff₀ hNp]
    have h1 : l.sum * (1 - m * u) ≤ N := le_trans (mul_le_mul_of_nonneg_left (by rw [hmdef]; exact one_sub_pow_ge hu1 _) hSp.le) s1
    have h2 : 1 ≤ (1 + 2 * (m * u) - m * u / 2) * (1 - m * u) := by nlinarith [mul_pos (lt_of_lt_of_le one_pos hm0) hu0]
    calc l.sum = l.sum * 1 := by ring
      _ ≤ l.sum * ((1 + 2 * (m * u) - m * u / 2) * (1 - m * u)) := by gcongr
      _ = (1 + 2 * (m * u) - m * u / 2) * (l.sum * (1 - m * u)) := by ring
      _ ≤ _ := by
        have : 0 ≤ 1 + 2 * (m * u) - m * u / 2 := by nlinarith [mul_pos (lt_of_lt_of_le one_pos hm0) hu0]
        exact mul_le_mul_of_nonneg_left h1 this
  have r2 : 1 - m * u ≤ l.sum / N := by
    rw [le_div_iff₀ hNp]
    have h2 : 0 ≤ 1 - m * u := by linarith
    calc (1 - m * u) * N ≤ (1 - m * u) * (l.sum * (1 + u) ^ l.length) := by gcongr
      _ = l.sum * ((1 + u) ^ l.length * (1 - l.length * u)) := by rw [hmdef]; ring
      _ ≤ l.sum * 1 := by gcongr; exact one_add_pow_mul hu0.le hu1 _
      _ = l.sum := by ring
  have hmup : 0 < m * u := mul_pos (lt_of_lt_of_le one_pos hm0) hu0
  have hr : |l.sum / N - 1| ≤ 2 * (m * u) - m * u / 2 := by rw [abs_le]; constructor <;> linarith
  refine ⟨?_, fun x hx => ⟨R.nonneg (div_nonneg (hl x hx).2 hNp.le), R.le_of_le Dbl.isDouble_one ((div_le_one hNp).mpr (s5 x hx))⟩⟩
  have step : ∀ x ∈ l, |R.round (x / N) - x / l.sum| ≤ (u * (1 / N) + (1 / l.sum) * |l.sum / N - 1|) * x + 2 ^ (-1075 : ℤ) := by
    intro x hx
    have hx0 := (hl x hx).2
    have e1 := R.error (x / N)
    rw [abs_of_nonneg (div_nonneg hx0 hNp.le), ← hu] at e1
    have e2 : |x / N - x / l.sum| = (1 / l.sum) * |l.sum / N - 1| * x := by
      rw [show x / N - x / l.sum = x * ((1 / l.sum) * (l.sum / N - 1)) by field_simp, abs_mul, abs_mul, abs_of_nonneg hx0,
        abs_of_pos (by positivity : 0 < 1 / l.sum)]
      ring
    have := abs_sub_le (R.round (x / N)) (x / N) (x / l.sum)
    rw [e2] at this
    have e3 : u * (x / N) = u * (1 / N) * x := by ring
    rw [e3] at e1
    linarith
  calc _ ≤ (l.map (fun x => (u * (1 / N) + (1 / l.sum) * |l.sum / N - 1|) * x + 2 ^ (-1075 : ℤ))).sum := by
        apply List.sum_le_sum
        intro x hx
        exact step x hx
    _ = (u * (1 / N) + (1 / l.sum) * |l.sum / N - 1|) * l.sum + m * 2 ^ (-1075 : ℤ) := by
        rw [List.sum_map_add, List.sum_map_mul_left, List.map_id', List.map_const', List.sum_replicate, nsmul_eq_mul, hmdef]
    _ = u * (l.sum / N) + |l.sum / N - 1| + m * 2 ^ (-1075 : ℤ) := by field_simp
    _ ≤ u * 2 + (2 * (m * u) - m * u / 2) + m * (u / 2) := by
        have h1 : l.sum / N ≤ 2 := by linarith
        have h2 : (2 : ℝ) ^ (-1075 : ℤ) ≤ u / 2 := by
          rw [hu, show (2 : ℝ) ^ (-53 : ℤ) / 2 = 2 ^ (-54 : ℤ) by norm_num]
          exact zpow_le_zpow_right₀ (by norm_num) (by norm_num)
        gcongr
    _ = _ := by
        rw [show (2 : ℝ) ^ (-52 : ℤ) = 2 * u by rw [hu]; norm_num]
        ring

/-- Weighted sum from left to right. -/
theorem dot_error {B : ℝ} (hB : 0 ≤ B) : ∀ {l : List (ℝ × ℝ)} {a e E V : ℝ}, (∀ p ∈ l, 0 ≤ p.1 ∧ |p.2| ≤ B) → |a - e| ≤ E → |e| ≤ V → IsDouble a →
    |l.foldl (fun a p => R.round (a + R.round (p.1 * p.2))) a - (e + (l.map (fun p => p.1 * p.2)).sum)| ≤
      (1 + 2 ^ (-53 : ℤ)) ^ l.length * (E + l.length * 2 ^ (-1075 : ℤ) + 2 ^ (-53 : ℤ) * (B * (l.map (·.1)).sum) +
        l.length * (2 ^ (-53 : ℤ) * (V + B * (l.map (·.1)).sum))) := by
  intro l
  induction l with
  | nil => intro a e E V _ h1 _ _; simpa using h1
  | cons p l ih =>
    intro a e E V hl h1 h2 ha
    obtain ⟨hw, hx⟩ := hl p (List.mem_cons_self ..)
    have hW : 0 ≤ (l.map (·.1)).sum := List.sum_nonneg (by
      intro y hy
      obtain ⟨q, hq, rfl⟩ := List.mem_map.mp hy
      exact (hl q (List.mem_cons_of_mem _ hq)).1)
    have hu : (0 : ℝ) < 2 ^ (-53 : ℤ) := by positivity
    have he : (0 : ℝ) < 2 ^ (-1075 : ℤ) := by positivity
    have hwx : |p.1 * p.2| ≤ p.1 * B := by rw [abs_mul, abs_of_nonneg hw]; gcongr
    have e1 : |R.round (p.1 * p.2) - p.1 * p.2| ≤ 2 ^ (-53 : ℤ) * (p.1 * B) + 2 ^ (-1075 : ℤ) := (R.error _).trans (by gcongr)
    have e2 := R.error_add ha (R.double (p.1 * p.2))
    generalize (2 : ℝ) ^ (-53 : ℤ) = u at *
    generalize (2 : ℝ) ^ (-1075 : ℤ) = η at *
    generalize ht : R.round (p.1 * p.2) = t at *
    have e3 : |a + t - (e + p.1 * p.2)| ≤ E + (u * (p.1 * B) + η) := by
      rw [show a + t - (e + p.1 * p.2) = (a - e) + (t - p.1 * p.2) by ring]
      exact (abs_add_le _ _).trans (add_le_add h1 e1)
    have e4 : |e + p.1 * p.2| ≤ V + p.1 * B := (abs_add_le _ _).trans (add_le_add h2 hwx)
    have e5 : |a + t| ≤ E + (u * (p.1 * B) + η) + (V + p.1 * B) := by
      have := abs_add_le (a + t - (e + p.1 * p.2)) (e + p.1 * p.2)
      rw [sub_add_cancel] at this
      linarith
    have e6 : |R.round (a + t) - (e + p.1 * p.2)| ≤ (1 + u) * (E + (u * (p.1 * B) + η)) + u * (V + p.1 * B) := by
      have := abs_sub_le (R.round (a + t)) (a + t) (e + p.1 * p.2)
      have h3 := mul_le_mul_of_nonneg_left e5 hu.le
      nlinarith
    have := ih (fun q hq => hl q (List.mem_cons_of_mem _ hq)) e6 e4 (R.double _)
    have hm : (0 : ℝ) ≤ l.length := Nat.cast_nonneg _
    rw [List.foldl_cons, ht, List.map_cons, List.sum_cons, List.map_cons, List.sum_cons, List.length_cons, ← add_assoc]
    refine this.trans ?_
    rw [pow_succ, mul_assoc]
    refine mul_le_mul_of_nonneg_left ?_ (by positivity)
    have hEV : 0 ≤ E := (abs_nonneg _).trans h1
    have hV : 0 ≤ V := (abs_nonneg _).trans h2
    generalize (l.map (fun p : ℝ × ℝ => p.1)).sum = W at *
    push_cast
    generalize (l.length : ℝ) = m at *
    have k1 : 0 ≤ m * η := by positivity
    have k2 : 0 ≤ u * (B * W) := by positivity
    have k3 : 0 ≤ m * (u * (V + B * W + p.1 * B)) := by positivity
    have k4 : 0 ≤ u * (V + p.1 * B + B * W) := by positivity
    nlinarith

end Spec.Rounding

theorem getD_append_left {α : Type} {l l' : List α} {d : α} {i : Nat} (h : i < l.length) : (l ++ l').getD i d = l.getD i d := by
  simp [List.getD, List.getElem?_append_left h]

/-! ## the generated network in both arithmetics -/

section
variable {A B G : Type} {R : Rounding}

theorem Draw.select_exact (r : Rng G (Dbl R)) : ∀ (xs : List Nat) (k : Nat) (g : G), Draw.select (exactRng r) xs k g = Draw.select r xs k g := by
  intro xs
  induction xs with
  | nil => intro k g; cases k <;> rfl
  | cons x xs ih =>
    intro k g
    cases k with
    | zero => rfl
    | succ k =>
      unfold Draw.select
      simp only [ih]
      rfl

theorem Draw.drawUnique_exact (r : Rng G (Dbl R)) (ignore : Option Nat) (k n : Nat) (buffer : List Nat) (g : G) :
    Draw.drawUnique (exactRng r) ignore k n buffer g = Draw.drawUnique r ignore k n buffer g := by
  unfold Draw.drawUnique
  simp only [Draw.select_exact]

namespace NetworkGen

theorem drawWeights_raw {F : Type} [Add F] (r : Rng G F) : ∀ (n : Nat) (acc : F) (g : G),
    (drawWeights r n acc g).2.1 = (drawWeights r n acc g).1.foldl (· + ·) acc ∧ ∀ u ∈ (drawWeights r n acc g).1, ∃ g', u = (r.unit g').1 := by
  intro n
  induction n with
  | zero => intro acc g; simp [drawWeights]
  | succ n ih =>
    intro acc g
    obtain ⟨h1, h2⟩ := ih (acc + (r.unit g).1) (r.unit g).2
    simp only [drawWeights]
    refine ⟨by rw [List.foldl_cons]; exact h1, ?_⟩
    intro u hu
    rcases List.mem_cons.mp hu with rfl | hu
    · exact ⟨g, rfl⟩
    · exact h2 u hu

theorem drawWeights_exact (r : Rng G (Dbl R)) : ∀ (n : Nat) (acc : Dbl R) (acc' : ℝ) (g : G),
    (drawWeights (exactRng r) n acc' g).1 = (drawWeights r n acc g).1.map Dbl.val ∧ (drawWeights (exactRng r) n acc' g).2.2 = (drawWeights r n acc g).2.2 := by
  intro n
  induction n with
  | zero => intro acc acc' g; simp [drawWeights]
  | succ n ih =>
    intro acc acc' g
    obtain ⟨h1, h2⟩ := ih (acc + (r.unit g).1) (acc' + (r.unit g).1.val) (r.unit g).2
    simp only [drawWeights, List.map_cons]
    exact ⟨by rw [← h1]; rfl, h2⟩

/-- One row, in both arithmetics. -/
theorem connectionRow_exact {r : Rng G (Dbl R)} (hr : r.IntLawful) (n k : Nat) (self : Bool) {i : Nat} (hi : i < n) (g : G) :
    ∃ (row : List Nat) (d : List (Dbl R)) (g' : G), connectionRow r n k self i g = .ok (row, d.map (· / d.foldl (· + ·) 0), g') ∧
      connectionRow (exactRng r) n k self i g = .ok (row, (d.map Dbl.val).map (· / (d.map Dbl.val).sum), g') ∧
      d.length = row.length ∧ d.length = k + (if self then 1 else 0) ∧ (∀ j ∈ row, j < n) ∧ ∀ u ∈ d, ∃ g'', u = (r.unit g'').1 := by
  obtain ⟨ys, g1, h1, h2, h3⟩ := Draw.drawUnique_eq hr (some i) k n [] g
  have hb : (Draw.resize [] k).drop ys.length = List.replicate (k - ys.length) 0 := by
    simp [Draw.resize]
  rw [hb] at h1
  have hl : (ys ++ List.replicate (k - ys.length) 0).length = k := by simp; omega
  have hrange : ∀ j ∈ ys ++ List.replicate (k - ys.length) 0, j < n := by
    intro j hj
    rcases List.mem_append.mp hj with hj | hj
    · exact (Draw.mem_avail.mp (h2.subset hj)).1
    · rw [List.mem_replicate] at hj; omega
  have h1' := (Draw.drawUnique_exact r (some i) k n [] g).trans h1
  obtain ⟨d1, d2⟩ := drawWeights_raw r k 0 g1
  have dl := drawWeights_length r k 0 g1
  obtain ⟨e1, e2⟩ := drawWeights_exact r k 0 0 g1
  obtain ⟨-, e3, -⟩ := drawWeights_spec (exactRng r) k 0 g1
  generalize hrow : ys ++ List.replicate (k - ys.length) 0 = row at h1 h1' hrange hl
  cases self with
  | false =>
    refine ⟨row, (drawWeights r k 0 g1).1, (drawWeights r k 0 g1).2.2, ?_, ?_, by rw [dl, hl], by simp [dl], hrange, d2⟩
    · simp only [connectionRow, h1, Res.bind_ok, hl]
      rw [← d1]; rfl
    · simp only [connectionRow, h1', Res.bind_ok, hl]
      simp [e3, e1, e2]
  | true =>
    refine ⟨row ++ [i], (drawWeights r k 0 g1).1 ++ [(r.unit (drawWeights r k 0 g1).2.2).1], (r.unit (drawWeights r k 0 g1).2.2).2, ?_, ?_,
      by simp [dl, hl], by simp [dl], ?_, ?_⟩
    · simp only [connectionRow, h1, Res.bind_ok, hl]
      rw [List.foldl_append, ← d1]; rfl
    · simp only [connectionRow, h1', Res.bind_ok, hl]
      have hu : ∀ g, (exactRng r).unit g = ((r.unit g).1.val, (r.unit g).2) := fun _ => rfl
      simp [e3, e1, e2, hu]
    · intro j hj
      rcases List.mem_append.mp hj with hj | hj
      · exact hrange j hj
      · rw [List.mem_singleton] at hj; omega
    · intro u hu
      rcases List.mem_append.mp hu with hu | hu
      · exact d2 u hu
      · rw [List.mem_singleton] at hu; exact ⟨_, hu⟩

/-- The network generated in double precision and in exact arithmetic from the same draws. -/
theorem nConnections_exact [Inhabited A] [Inhabited B] {r : Rng G (Dbl R)} (hr : r.IntLawful) (n k : Nat) (self : Bool) (g : G) :
    ∃ (N : Network A (Dbl R)) (I : Network B ℝ) (g' : G), nConnections r n k self g = .ok (N, g') ∧ nConnections (exactRng r) n k self g = .ok (I, g') ∧
      N.agents.length = n ∧ I.agents.length = n ∧ I.neighbours = N.neighbours ∧ N.neighbours.length = n ∧
      ∀ i, i < n → ∃ d : List (Dbl R), d.length = (N.neighbours.getD i []).length ∧ d.length = k + (if self then 1 else 0) ∧ (∀ u ∈ d, ∃ g'', u = (r.unit g'').1) ∧
        N.weights.getD i [] = d.map (· / d.foldl (· + ·) 0) ∧ I.weights.getD i [] = (d.map Dbl.val).map (· / (d.map Dbl.val).sum) := by
  obtain ⟨⟨as, bs, g1⟩, ⟨as', bs', g2⟩, h1, h2, h3, h4, h5, h6, h7, h8⟩ := loop_rel (n := n)
    (f := fun i (s : List (List Nat) × List (List (Dbl R)) × G) => do
      let (row, ws, g) ← connectionRow r n k self i s.2.2
      .ok (s.1 ++ [row], s.2.1 ++ [ws], g))
    (f' := fun i (s : List (List Nat) × List (List ℝ) × G) => do
      let (row, ws, g) ← connectionRow (exactRng r) n k self i s.2.2
      .ok (s.1 ++ [row], s.2.1 ++ [ws], g)) (s := ([], [], g)) (s' := ([], [], g))
    (fun i s s' => s'.1 = s.1 ∧ s'.2.2 = s.2.2 ∧ s.1.length = i ∧ s.2.1.length = i ∧ s'.2.1.length = i ∧
      ∀ j, j < i → ∃ d : List (Dbl R), d.length = (s.1.getD j []).length ∧ d.length = k + (if self then 1 else 0) ∧ (∀ u ∈ d, ∃ g'', u = (r.unit g'').1) ∧
        s.2.1.getD j [] = d.map (· / d.foldl (· + ·) 0) ∧ s'.2.1.getD j [] = (d.map Dbl.val).map (· / (d.map Dbl.val).sum))
    (by simp) (by
      rintro i ⟨as, bs, g⟩ ⟨as', bs', g'⟩ hi ⟨q1, q2, q3, q4, q5, q6⟩
      dsimp only at q1 q2 q3 q4 q5 q6
      subst q1 q2
      obtain ⟨row, d, g', c1, c2, c3, c4, c5, c6⟩ := connectionRow_exact hr n k self hi g'
      refine ⟨(as' ++ [row], bs ++ [d.map (· / d.foldl (· + ·) 0)], g'), (as' ++ [row], bs' ++ [(d.map Dbl.val).map (· / (d.map Dbl.val).sum)], g'),
        by simp only [c1, Res.bind_ok], by simp only [c2, Res.bind_ok], rfl, rfl, by simpa using q3, by simpa using q4, by simpa using q5, ?_⟩
      intro j hj
      dsimp only
      by_cases hji : j = i
      · refine ⟨d, ?_, c4, c6, ?_, ?_⟩
        · rw [hji, ← q3]; simpa using c3
        · rw [hji]; conv_lhs => rw [← q4]
          simp
        · rw [hji]; conv_lhs => rw [← q5]
          simp
      · obtain ⟨d, p1, p2, p3, p4, p5⟩ := q6 j (by omega)
        refine ⟨d, ?_, p2, p3, ?_, ?_⟩
        · rw [p1, getD_append_left (by omega)]
        · rw [← p4, getD_append_left (by omega)]
        · rw [← p5, getD_append_left (by omega)])
  dsimp only at h3 h4 h5 h6 h7 h8
  subst h3 h4
  refine ⟨Network.ofLists as' bs .incoming, Network.ofLists as' bs' .incoming, g2, ?_, ?_, by simp [Network.ofLists, h5], by simp [Network.ofLists, h5],
    rfl, h5, h8⟩
  · simp only [nConnections] at h1 ⊢
    rw [h1]; rfl
  · simp only [nConnections] at h2 ⊢
    rw [h2]; rfl

end NetworkGen
end
end Seldon
