import Verif.Lemmas.Deffuant
import Mathlib.Topology.Order.LiminfLimsup
import Mathlib.Topology.Order.MonotoneConvergence
import Mathlib.Topology.Algebra.Monoid
import Mathlib.Topology.Instances.Real.Lemmas
import Mathlib.Algebra.Order.BigOperators.Ring.Finset
import Mathlib.Algebra.BigOperators.Intervals
/-!
# Convergence of bounded-confidence meetings, for every schedule

The argument: `Σ_i |x_i - c|` never increases, for any `c`, so it converges for every `c`; its second differences in `c`
show that opinions eventually avoid some small interval between any two values; and the sum of squares shows that single
steps become small, so no opinion can jump over that interval infinitely often.
-/
set_option linter.unusedSectionVars false
namespace Seldon.Gossip
open Spec Filter Topology

/-! ## one meeting -/

theorem meet_eq (thr mu : ℝ) (a b : Nat) (x : Nat → ℝ) (h : |x a - x b| < thr) (i : Nat) :
    meet thr mu a b x i = if i = a then x a - mu * (x a - x b) else if i = b then x b + mu * (x a - x b) else x i := by
  unfold meet; rw [if_pos h]

theorem meet_abs (thr : ℝ) {mu : ℝ} (h0 : 0 ≤ mu) (h1 : mu ≤ 1) {s : Finset Nat} {a b : Nat} (ha : a ∈ s) (hb : b ∈ s)
    (x : Nat → ℝ) (c : ℝ) : ∑ i ∈ s, |meet thr mu a b x i - c| ≤ ∑ i ∈ s, |x i - c| := by
  by_cases hab : a = b
  · subst hab; rw [Deffuant.meet_self]
  · rw [Deffuant.sum_two (f := fun i => |x i - c|) (f' := fun i => |meet thr mu a b x i - c|) ha hb hab
      (fun i h1 h2 => by simp only [Deffuant.meet_other thr mu h1 h2 x])]
    have : |meet thr mu a b x a - c| + |meet thr mu a b x b - c| - (|x a - c| + |x b - c|) ≤ 0 := by
      by_cases h : |x a - x b| < thr
      · rw [meet_eq _ _ _ _ _ h, meet_eq _ _ _ _ _ h, if_pos rfl, if_neg (Ne.symm hab), if_pos rfl]
        have e1 : x a - mu * (x a - x b) - c = (1 - mu) * (x a - c) + mu * (x b - c) := by ring
        have e2 : x b + mu * (x a - x b) - c = (1 - mu) * (x b - c) + mu * (x a - c) := by ring
        rw [e1, e2]
        have k1 := abs_add_le ((1 - mu) * (x a - c)) (mu * (x b - c))
        have k2 := abs_add_le ((1 - mu) * (x b - c)) (mu * (x a - c))
        rw [abs_mul, abs_mul, abs_of_nonneg h0, abs_of_nonneg (by linarith : 0 ≤ 1 - mu)] at k1 k2
        nlinarith
      · unfold meet; rw [if_neg h]; linarith
    linarith

/-- The sum of squares drops by exactly `2 mu (1 - mu) d²` when two agents at distance `d` meet. -/
theorem meet_sq_eq (thr mu : ℝ) {s : Finset Nat} {a b : Nat} (ha : a ∈ s) (hb : b ∈ s)
    (x : Nat → ℝ) (h : |x a - x b| < thr) :
    ∑ i ∈ s, (meet thr mu a b x i) ^ 2 = ∑ i ∈ s, x i ^ 2 - 2 * mu * (1 - mu) * (x a - x b) ^ 2 := by
  by_cases hab : a = b
  · subst hab; rw [Deffuant.meet_self]; ring
  · rw [Deffuant.sum_two (f := fun i => x i ^ 2) (f' := fun i => (meet thr mu a b x i) ^ 2) ha hb hab
      (fun i h1 h2 => by simp only [Deffuant.meet_other thr mu h1 h2 x])]
    rw [meet_eq _ _ _ _ _ h, meet_eq _ _ _ _ _ h, if_pos rfl, if_neg (Ne.symm hab), if_pos rfl]
    ring

theorem meet_move (thr : ℝ) {mu : ℝ} (h0 : 0 ≤ mu) (h1 : mu ≤ 1) (a b : Nat) (x : Nat → ℝ) {η : ℝ} (hη : 0 ≤ η)
    (h : |x a - x b| < thr → |x a - x b| ≤ η) (i : Nat) : |meet thr mu a b x i - x i| ≤ η := by
  by_cases ht : |x a - x b| < thr
  · have hd := h ht
    have hm : mu * |x a - x b| ≤ η := by
      calc mu * |x a - x b| ≤ 1 * |x a - x b| := mul_le_mul_of_nonneg_right h1 (abs_nonneg _)
        _ ≤ η := by linarith
    rw [meet_eq _ _ _ _ _ ht]
    split
    · next e =>
      subst e
      rw [show x i - mu * (x i - x b) - x i = -(mu * (x i - x b)) by ring, abs_neg, abs_mul, abs_of_nonneg h0]
      exact hm
    · split
      · next e =>
        subst e
        rw [show x i + mu * (x a - x i) - x i = mu * (x a - x i) by ring, abs_mul, abs_of_nonneg h0]
        exact hm
      · simpa using hη
  · unfold meet; rw [if_neg ht]; simpa using hη

/-! ## a list of meetings -/

def Valid (n : Nat) (ps : List (Nat × Nat)) : Prop := ∀ p ∈ ps, p.1 < n ∧ p.2 < n

theorem meetings_cons (thr mu : ℝ) (p : Nat × Nat) (ps : List (Nat × Nat)) (x : Nat → ℝ) :
    meetings thr mu (p :: ps) x = meetings thr mu ps (meet thr mu p.1 p.2 x) := rfl

theorem meetings_abs (thr : ℝ) {mu : ℝ} (h0 : 0 ≤ mu) (h1 : mu ≤ 1) {n : Nat} (c : ℝ) :
    ∀ (ps : List (Nat × Nat)) (x : Nat → ℝ), Valid n ps →
      ∑ i ∈ Finset.range n, |meetings thr mu ps x i - c| ≤ ∑ i ∈ Finset.range n, |x i - c| := by
  intro ps
  induction ps with
  | nil => intro x _; exact le_refl _
  | cons p ps ih =>
    intro x hv
    rw [meetings_cons]
    have hp := hv p (by simp)
    exact (ih _ (fun q hq => hv q (by simp [hq]))).trans
      (meet_abs thr h0 h1 (Finset.mem_range.mpr hp.1) (Finset.mem_range.mpr hp.2) x c)

theorem meetings_sq (thr : ℝ) {mu : ℝ} (h0 : 0 ≤ mu) (h1 : mu ≤ 1) {n : Nat} :
    ∀ (ps : List (Nat × Nat)) (x : Nat → ℝ), Valid n ps →
      ∑ i ∈ Finset.range n, (meetings thr mu ps x i) ^ 2 ≤ ∑ i ∈ Finset.range n, x i ^ 2 := by
  intro ps
  induction ps with
  | nil => intro x _; exact le_refl _
  | cons p ps ih =>
    intro x hv
    rw [meetings_cons]
    have hp := hv p (by simp)
    exact (ih _ (fun q hq => hv q (by simp [hq]))).trans
      (Deffuant.meet_sq thr h0 h1 (Finset.mem_range.mpr hp.1) (Finset.mem_range.mpr hp.2) x)

/-- If the sum of squares drops by at most `2 mu (1-mu) η²` over the whole list, then every effective meeting is between
agents at distance at most `η`, and no opinion moves by more than `η` times the number of meetings — this holds for every
prefix `ps₁` of the list. -/
theorem meetings_small (thr : ℝ) {mu : ℝ} (h0 : 0 < mu) (h1 : mu < 1) {n : Nat} {η : ℝ} (hη : 0 ≤ η) :
    ∀ (ps₁ ps₂ : List (Nat × Nat)) (x : Nat → ℝ), Valid n (ps₁ ++ ps₂) →
      ∑ i ∈ Finset.range n, x i ^ 2 - ∑ i ∈ Finset.range n, (meetings thr mu (ps₁ ++ ps₂) x i) ^ 2 ≤ 2 * mu * (1 - mu) * η ^ 2 →
      (∀ i, |meetings thr mu ps₁ x i - x i| ≤ ps₁.length * η) ∧
      (∀ p, ps₂.head? = some p → |meetings thr mu ps₁ x p.1 - meetings thr mu ps₁ x p.2| < thr →
        |meetings thr mu ps₁ x p.1 - meetings thr mu ps₁ x p.2| ≤ η) := by
  have hκ : 0 < 2 * mu * (1 - mu) := by
    have : 0 < 1 - mu := by linarith
    positivity
  -- the distance at the first meeting of a list
  have first : ∀ (p : Nat × Nat) (ps : List (Nat × Nat)) (x : Nat → ℝ), Valid n (p :: ps) →
      ∑ i ∈ Finset.range n, x i ^ 2 - ∑ i ∈ Finset.range n, (meetings thr mu (p :: ps) x i) ^ 2 ≤ 2 * mu * (1 - mu) * η ^ 2 →
      |x p.1 - x p.2| < thr → |x p.1 - x p.2| ≤ η := by
    intro p ps x hv hE ht
    have hp := hv p (by simp)
    have e := meet_sq_eq thr mu (Finset.mem_range.mpr hp.1) (Finset.mem_range.mpr hp.2) x ht
    have h2 := meetings_sq thr h0.le h1.le ps (meet thr mu p.1 p.2 x) (fun q hq => hv q (by simp [hq]))
    rw [meetings_cons] at hE
    have h3 : 2 * mu * (1 - mu) * (x p.1 - x p.2) ^ 2 ≤ 2 * mu * (1 - mu) * η ^ 2 := by linarith
    have h4 := le_of_mul_le_mul_left h3 hκ
    exact abs_le_of_sq_le_sq h4 hη
  intro ps₁
  induction ps₁ with
  | nil =>
    intro ps₂ x hv hE
    refine ⟨fun i => by simp [meetings], fun p hp ht => ?_⟩
    cases ps₂ with
    | nil => simp at hp
    | cons q ps =>
      simp only [List.head?_cons, Option.some.injEq] at hp
      subst hp
      exact first q ps x hv hE ht
  | cons q ps₁ ih =>
    intro ps₂ x hv hE
    have hq := hv q (by simp)
    have hmove := meet_move thr h0.le h1.le q.1 q.2 x hη (first q (ps₁ ++ ps₂) x hv hE)
    have hE' : ∑ i ∈ Finset.range n, (meet thr mu q.1 q.2 x i) ^ 2 -
        ∑ i ∈ Finset.range n, (meetings thr mu (ps₁ ++ ps₂) (meet thr mu q.1 q.2 x) i) ^ 2 ≤ 2 * mu * (1 - mu) * η ^ 2 := by
      have := Deffuant.meet_sq thr h0.le h1.le (Finset.mem_range.mpr hq.1) (Finset.mem_range.mpr hq.2) x
      rw [List.cons_append, meetings_cons] at hE
      linarith
    obtain ⟨g1, g2⟩ := ih ps₂ (meet thr mu q.1 q.2 x) (fun p hp => hv p (by simp [hp])) hE'
    refine ⟨fun i => ?_, g2⟩
    rw [meetings_cons]
    have e : meetings thr mu ps₁ (meet thr mu q.1 q.2 x) i - x i =
        (meetings thr mu ps₁ (meet thr mu q.1 q.2 x) i - meet thr mu q.1 q.2 x i) + (meet thr mu q.1 q.2 x i - x i) := by ring
    rw [e, List.length_cons, Nat.cast_succ, add_mul, one_mul]
    exact (abs_add_le _ _).trans (add_le_add (g1 i) (hmove i))

/-! ## infinite schedules -/

/-- `x t` are the opinions before round `t`, in which the pairs `ps t` meet one after the other. -/
structure Process (n : Nat) (thr mu : ℝ) (ps : Nat → List (Nat × Nat)) (x : Nat → Nat → ℝ) : Prop where
  valid : ∀ t, Valid n (ps t)
  step  : ∀ t, x (t + 1) = meetings thr mu (ps t) (x t)

variable {n : Nat} {thr mu : ℝ} {ps : Nat → List (Nat × Nat)} {x : Nat → Nat → ℝ}

theorem tendsto_of_antitone_nonneg {u : Nat → ℝ} (h : ∀ t, u (t + 1) ≤ u t) (h0 : ∀ t, 0 ≤ u t) : ∃ l, Tendsto u atTop (𝓝 l) :=
  ⟨_, tendsto_atTop_ciInf (antitone_nat_of_succ_le h) ⟨0, by rintro _ ⟨t, rfl⟩; exact h0 t⟩⟩

theorem Process.energy (P : Process n thr mu ps x) (h0 : 0 < mu) (h1 : mu < 1) {η : ℝ} (hη : 0 < η) :
    ∀ᶠ t in atTop, ∑ i ∈ Finset.range n, x t i ^ 2 - ∑ i ∈ Finset.range n, (meetings thr mu (ps t) (x t) i) ^ 2 ≤
      2 * mu * (1 - mu) * η ^ 2 := by
  obtain ⟨l, hl⟩ := tendsto_of_antitone_nonneg (u := fun t => ∑ i ∈ Finset.range n, x t i ^ 2)
    (fun t => by simp only [P.step]; exact meetings_sq thr h0.le h1.le _ _ (P.valid t))
    (fun t => Finset.sum_nonneg fun i _ => sq_nonneg _)
  have hd := hl.sub ((tendsto_add_atTop_iff_nat 1).mpr hl)
  rw [sub_self] at hd
  have hκ : 0 < 2 * mu * (1 - mu) * η ^ 2 := by
    have : 0 < 1 - mu := by linarith
    positivity
  filter_upwards [hd.eventually (gt_mem_nhds hκ)] with t ht
  simp only [P.step] at ht
  exact ht.le

/-- Single rounds become small. -/
theorem Process.small_steps (P : Process n thr mu ps x) (h0 : 0 < mu) (h1 : mu < 1) {m : Nat} (hm : ∀ t, (ps t).length ≤ m)
    {ε : ℝ} (hε : 0 < ε) :
    ∀ᶠ t in atTop, ∀ i, |x (t + 1) i - x t i| < ε := by
  have hη : 0 < ε / (m + 1) := by positivity
  filter_upwards [P.energy h0 h1 hη] with t ht i
  have hg := (meetings_small thr h0 h1 hη.le (ps t) [] (x t) (by rw [List.append_nil]; exact P.valid t)
    (by rw [List.append_nil]; exact ht)).1 i
  rw [P.step]
  refine lt_of_le_of_lt hg ?_
  have : ((ps t).length : ℝ) ≤ m := by exact_mod_cast hm t
  calc ((ps t).length : ℝ) * (ε / (m + 1)) ≤ m * (ε / (m + 1)) := mul_le_mul_of_nonneg_right this hη.le
    _ < (m + 1) * (ε / (m + 1)) := by nlinarith
    _ = ε := by field_simp

theorem bump_ge (u c h : ℝ) : 0 ≤ |u - (c + h)| + |u - (c - h)| - 2 * |u - c| := by
  have := abs_add_le (u - (c + h)) (u - (c - h))
  rw [show u - (c + h) + (u - (c - h)) = 2 * (u - c) by ring, abs_mul, abs_two] at this
  linarith

theorem bump_near {u c h : ℝ} (hu : |u - c| ≤ h / 2) : h ≤ |u - (c + h)| + |u - (c - h)| - 2 * |u - c| := by
  have h1 := neg_abs_le (u - (c + h))
  have h2 := le_abs_self (u - (c - h))
  linarith

/-- Between any two values there is a small interval that all opinions avoid from some time on. -/
theorem Process.gap (P : Process n thr mu ps x) (h0 : 0 ≤ mu) (h1 : mu ≤ 1) {a b : ℝ} (hab : a < b) :
    ∃ c h, 0 < h ∧ a ≤ c - h ∧ c + h ≤ b ∧ ∀ᶠ t in atTop, ∀ i, i < n → h / 2 < |x t i - c| := by
  have hV : ∀ c, ∃ l, Tendsto (fun t => ∑ i ∈ Finset.range n, |x t i - c|) atTop (𝓝 l) := fun c =>
    tendsto_of_antitone_nonneg
      (fun t => by simp only [P.step]; exact meetings_abs thr h0 h1 c _ _ (P.valid t))
      (fun t => Finset.sum_nonneg fun i _ => abs_nonneg _)
  choose L hL using hV
  have hlip : ∀ c d, |L c - L d| ≤ n * |c - d| := by
    intro c d
    have ht := ((hL c).sub (hL d)).abs
    refine le_of_tendsto' ht fun t => ?_
    rw [← Finset.sum_sub_distrib]
    refine (Finset.abs_sum_le_sum_abs _ _).trans ?_
    calc ∑ i ∈ Finset.range n, |(|x t i - c| - |x t i - d|)| ≤ ∑ _i ∈ Finset.range n, |c - d| := by
          apply Finset.sum_le_sum
          intro i _
          have := abs_abs_sub_abs_le_abs_sub (x t i - c) (x t i - d)
          rwa [show x t i - c - (x t i - d) = d - c by ring, abs_sub_comm d c] at this
      _ = n * |c - d| := by simp
  set M : Nat := 2 * n + 1 with hM
  set h : ℝ := (b - a) / (M + 1) with hh
  have hMpos : (0 : ℝ) < M + 1 := by positivity
  have hpos : 0 < h := div_pos (by linarith) hMpos
  have hMh : (M + 1) * h = b - a := by rw [hh]; field_simp
  let y : Nat → ℝ := fun k => L (a + k * h)
  have hsum : ∑ k ∈ Finset.range M, ((y (k + 2) - y (k + 1)) - (y (k + 1) - y k)) =
      (y (M + 1) - y M) - (y 1 - y 0) := by
    have := Finset.sum_range_sub (fun k => y (k + 1) - y k) M
    simpa using this
  have hstep : ∀ k, |y (k + 1) - y k| ≤ n * h := by
    intro k
    have := hlip (a + (k + 1 : Nat) * h) (a + k * h)
    rw [show a + ((k + 1 : Nat) : ℝ) * h - (a + k * h) = h by push_cast; ring, abs_of_pos hpos] at this
    exact this
  have hlt : ∃ k ∈ Finset.range M, (y (k + 2) - y (k + 1)) - (y (k + 1) - y k) < h := by
    by_contra hc
    push Not at hc
    have h1 := Finset.sum_le_sum hc
    rw [hsum, Finset.sum_const, Finset.card_range, nsmul_eq_mul] at h1
    have h2 := (abs_le.mp (hstep M)).2
    have h3 := (abs_le.mp (hstep 0)).1
    simp only [zero_add] at h3
    have : (M : ℝ) = 2 * n + 1 := by rw [hM]; push_cast; ring
    rw [this] at h1
    nlinarith
  obtain ⟨k, hk, hkl⟩ := hlt
  have hkM : ((k : ℝ) + 1) ≤ M := by exact_mod_cast Finset.mem_range.mp hk
  refine ⟨a + (k + 1 : Nat) * h, h, hpos, ?_, ?_, ?_⟩
  · push_cast
    have : 0 ≤ (k : ℝ) * h := by positivity
    nlinarith
  · push_cast
    have : ((k : ℝ) + 1) * h ≤ M * h := mul_le_mul_of_nonneg_right hkM hpos.le
    nlinarith
  · have ht := ((hL (a + (k + 2 : Nat) * h)).add (hL (a + k * h))).sub ((hL (a + (k + 1 : Nat) * h)).const_mul 2)
    have hlt' : L (a + (k + 2 : Nat) * h) + L (a + k * h) - 2 * L (a + (k + 1 : Nat) * h) < h := by
      simp only [y] at hkl
      linarith
    filter_upwards [ht.eventually (gt_mem_nhds hlt')] with t htt i hi
    by_contra hc
    push Not at hc
    have hb := bump_near hc
    rw [show a + ((k + 1 : Nat) : ℝ) * h + h = a + (k + 2 : Nat) * h by push_cast; ring,
      show a + ((k + 1 : Nat) : ℝ) * h - h = a + k * h by push_cast; ring] at hb
    have hle : |x t i - (a + (k + 2 : Nat) * h)| + |x t i - (a + k * h)| - 2 * |x t i - (a + (k + 1 : Nat) * h)| ≤
        ∑ j ∈ Finset.range n, (|x t j - (a + (k + 2 : Nat) * h)| + |x t j - (a + k * h)| - 2 * |x t j - (a + (k + 1 : Nat) * h)|) := by
      apply Finset.single_le_sum (f := fun j => |x t j - (a + (k + 2 : Nat) * h)| + |x t j - (a + k * h)| - 2 * |x t j - (a + (k + 1 : Nat) * h)|)
      · intro j _
        have := bump_ge (x t j) (a + (k + 1 : Nat) * h) h
        rw [show a + ((k + 1 : Nat) : ℝ) * h + h = a + (k + 2 : Nat) * h by push_cast; ring,
          show a + ((k + 1 : Nat) : ℝ) * h - h = a + k * h by push_cast; ring] at this
        exact this
      · exact Finset.mem_range.mpr hi
    rw [Finset.sum_sub_distrib, Finset.sum_add_distrib, ← Finset.mul_sum] at hle
    linarith

/-- Every opinion converges. -/
theorem Process.converges (P : Process n thr mu ps x) (h0 : 0 ≤ mu) (h1 : mu < 1) {m : Nat} (hm : ∀ t, (ps t).length ≤ m)
    {i : Nat} (hi : i < n) : ∃ y, Tendsto (fun t => x t i) atTop (𝓝 y) := by
  rcases h0.eq_or_lt with rfl | h0
  · -- nothing ever moves
    have hz : ∀ (ps : List (Nat × Nat)) (x : Nat → ℝ), meetings thr 0 ps x = x := by
      intro ps
      induction ps with
      | nil => intro x; rfl
      | cons p ps ih =>
        intro x
        rw [meetings_cons, ih]
        unfold meet
        split
        · funext j
          by_cases e1 : j = p.1
          · subst e1; simp
          · by_cases e2 : j = p.2
            · subst e2; simp [e1]
            · simp [e1, e2]
        · rfl
    have : ∀ t, x t = x 0 := by
      intro t
      induction t with
      | zero => rfl
      | succ t ih => rw [P.step, hz, ih]
    exact ⟨x 0 i, by simp only [this]; exact tendsto_const_nhds⟩
  · -- bounded by the sum of squares
    have hE : ∀ t, ∑ j ∈ Finset.range n, x t j ^ 2 ≤ ∑ j ∈ Finset.range n, x 0 j ^ 2 := by
      intro t
      induction t with
      | zero => exact le_refl _
      | succ t ih =>
        rw [P.step]
        exact (meetings_sq thr h0.le h1.le _ _ (P.valid t)).trans ih
    have hbd : ∀ t, |x t i| ≤ ∑ j ∈ Finset.range n, x 0 j ^ 2 + 1 := by
      intro t
      have h2 : x t i ^ 2 ≤ ∑ j ∈ Finset.range n, x t j ^ 2 :=
        Finset.single_le_sum (f := fun j => x t j ^ 2) (fun j _ => sq_nonneg _) (Finset.mem_range.mpr hi)
      have h3 := h2.trans (hE t)
      have h4 : |x t i| ≤ x t i ^ 2 + 1 := by
        rw [← sq_abs]
        nlinarith [sq_nonneg (|x t i| - 1), abs_nonneg (x t i)]
      linarith
    refine tendsto_of_no_upcrossings dense_univ ?_ ?_ ?_
    · rintro a - b - hab ⟨hfa, hfb⟩
      obtain ⟨c, h, hpos, hca, hcb, hgap⟩ := P.gap h0.le h1.le hab
      have hsmall := P.small_steps h0 h1 hm hpos
      obtain ⟨T, hT⟩ := eventually_atTop.mp (hgap.and hsmall)
      -- from T on the side of c is constant
      obtain ⟨t1, ht1, hlow⟩ := frequently_atTop.mp hfa T
      obtain ⟨t2, ht2, hhigh⟩ := frequently_atTop.mp hfb t1
      have hside : ∀ d, x (t1 + d) i < c := by
        intro d
        induction d with
        | zero => simp only [add_zero]; linarith
        | succ d ih =>
          have g1 := (hT (t1 + d) (by omega)).1 i hi
          have g2 := (hT (t1 + d + 1) (by omega)).1 i hi
          have g3 := (hT (t1 + d) (by omega)).2 i
          rw [abs_of_neg (by linarith)] at g1
          by_contra hc
          push Not at hc
          rw [abs_of_nonneg (by rw [← Nat.add_assoc] at hc; linarith)] at g2
          have := (abs_lt.mp g3).2
          linarith
      have := hside (t2 - t1)
      rw [Nat.add_sub_cancel' ht2] at this
      linarith
    · exact isBoundedUnder_of ⟨_, fun t => (abs_le.mp (hbd t)).2⟩
    · exact isBoundedUnder_of ⟨_, fun t => (abs_le.mp (hbd t)).1⟩

/-- Two agents that meet infinitely often end up equal or at least a threshold apart. -/
theorem Process.separated (P : Process n thr mu ps x) (h0 : 0 < mu) (h1 : mu < 1) {m : Nat} (hm : ∀ t, (ps t).length ≤ m)
    {a b : Nat} {ya yb : ℝ} (hya : Tendsto (fun t => x t a) atTop (𝓝 ya)) (hyb : Tendsto (fun t => x t b) atTop (𝓝 yb))
    (hmeet : ∃ᶠ t in atTop, (a, b) ∈ ps t) : ya = yb ∨ thr ≤ |ya - yb| := by
  by_contra hc
  push Not at hc
  obtain ⟨hne, hlt⟩ := hc
  have hD : 0 < |ya - yb| := abs_pos.mpr (sub_ne_zero.mpr hne)
  -- a small step size
  obtain ⟨η, hη, hη1, hη2⟩ : ∃ η > 0, (2 * (m : ℝ) + 2) * η < |ya - yb| ∧ (2 * (m : ℝ) + 2) * η < thr - |ya - yb| := by
    refine ⟨min (|ya - yb|) (thr - |ya - yb|) / (2 * m + 3), ?_, ?_, ?_⟩
    · have : 0 < min (|ya - yb|) (thr - |ya - yb|) := lt_min hD (by linarith)
      positivity
    all_goals
      have hp : 0 < min (|ya - yb|) (thr - |ya - yb|) := lt_min hD (by linarith)
      have hlt : (2 * (m : ℝ) + 2) * (min (|ya - yb|) (thr - |ya - yb|) / (2 * m + 3)) < min (|ya - yb|) (thr - |ya - yb|) := by
        rw [mul_div_assoc', div_lt_iff₀ (by positivity)]
        nlinarith
    · exact lt_of_lt_of_le hlt (min_le_left _ _)
    · exact lt_of_lt_of_le hlt (min_le_right _ _)
  have hdiff := (hya.sub hyb).abs
  have hnear : ∀ᶠ t in atTop, |(|x t a - x t b| - |ya - yb|)| < η := by
    have := (Metric.tendsto_nhds.mp hdiff) η hη
    filter_upwards [this] with t ht
    rwa [Real.dist_eq] at ht
  obtain ⟨t, hmt, hnt, het⟩ := (hmeet.and_eventually (hnear.and (P.energy h0 h1 hη))).exists
  obtain ⟨ps₁, ps₂, hps⟩ := List.append_of_mem hmt
  have hv := P.valid t
  rw [hps] at hv het
  obtain ⟨g1, g2⟩ := meetings_small thr h0 h1 hη.le ps₁ ((a, b) :: ps₂) (x t) hv het
  have hlen : (ps₁.length : ℝ) ≤ m := by
    have := hm t
    rw [hps, List.length_append, List.length_cons] at this
    exact_mod_cast (by omega : ps₁.length ≤ m)
  have ga := g1 a
  have gb := g1 b
  have hl : (ps₁.length : ℝ) * η ≤ m * η := mul_le_mul_of_nonneg_right hlen hη.le
  set u := meetings thr mu ps₁ (x t) a
  set v := meetings thr mu ps₁ (x t) b
  have huv : |(|u - v| - |x t a - x t b|)| ≤ 2 * (m * η) := by
    refine (abs_abs_sub_abs_le_abs_sub _ _).trans ?_
    rw [show u - v - (x t a - x t b) = (u - x t a) - (v - x t b) by ring]
    refine (abs_sub _ _).trans ?_
    linarith
  have k1 := abs_le.mp huv
  have k2 := abs_lt.mp hnt
  have hthr : |u - v| < thr := by linarith [k1.2, k2.2]
  have := g2 (a, b) rfl hthr
  simp only at this
  have h5 : |u - v| ≤ η := this
  linarith [k1.1, k2.1]

end Seldon.Gossip
