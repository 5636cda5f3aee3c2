import Verif.Lemmas.Double
import Verif.Lemmas.Deffuant
import Mathlib.Data.Real.Basic
/-!
# The scalar Deffuant model in double precision
-/
set_option linter.unusedSectionVars false
namespace Seldon
open Spec
variable {F G : Type}

namespace Deffuant

/-! ## the update rule for arbitrary arithmetic -/
section raw

/-- One interaction, in any arithmetic. -/
def rawMeet [Add F] [Mul F] [Sub F] [Zero F] [Neg F] [LT F] [DecidableLT F] (thr mu : F) (a b : Nat) (x : Nat → F) : Nat → F :=
  if cabs (x a - x b) < thr then
    fun i => if i = b then (if b = a then x a - mu * (x a - x b) else x b) + mu * (x a - x b)
      else if i = a then x a - mu * (x a - x b) else x i
  else x

theorem opinionOf_set' [Zero F] {agents : List (SimpleAgent F)} {a : Nat} (ha : a < agents.length) (v : SimpleAgent F) (i : Nat) :
    opinionOf (agents.set a v) i = if i = a then v.opinion else opinionOf agents i := by
  unfold opinionOf opinions
  rw [List.map_set, List.getD_eq_getElem?_getD, List.getElem?_set]
  by_cases h : a = i
  · subst h; simp [ha]
  · rw [if_neg h, if_neg (fun h' => h h'.symm), List.getD_eq_getElem?_getD]

theorem rd_opinion' [Zero F] {agents : List (SimpleAgent F)} {a : Nat} (ha : a < agents.length) :
    rd agents a = .ok ⟨opinionOf agents a⟩ := by
  unfold opinionOf opinions
  rw [rd_lt ha, getD_lt _ _ (by simpa using ha)]
  simp

variable [Add F] [Mul F] [Sub F] [Zero F] [Neg F] [LT F] [DecidableLT F]

theorem updateRule_raw {a b : Nat} {s t : Deffuant (SimpleAgent F) F G} (ha : a < s.network.agents.length)
    (hb : b < s.network.agents.length) (h : updateRule a b s = .ok t) : Frame s t ∧
      opinionOf t.network.agents = rawMeet s.threshold s.mu a b (opinionOf s.network.agents) := by
  unfold updateRule at h
  rw [rd_opinion' ha, Res.bind_ok, rd_opinion' hb, Res.bind_ok] at h
  unfold rawMeet
  dsimp only at h
  by_cases hc : cabs (opinionOf s.network.agents a - opinionOf s.network.agents b) < s.threshold
  · rw [if_pos hc, wr_lt _ ha, Res.bind_ok, rd_opinion' (by simpa using hb), Res.bind_ok, wr_lt _ (by simpa using hb), Res.bind_ok] at h
    rw [if_pos hc]
    obtain rfl := Except.ok.inj h
    refine ⟨⟨rfl, rfl, rfl, rfl, rfl, rfl, by simp, rfl⟩, ?_⟩
    funext i
    show opinionOf ((s.network.agents.set a _).set b _) i = _
    rw [opinionOf_set' (by simpa using hb), opinionOf_set' ha, opinionOf_set' ha]
  · rw [if_neg hc] at h
    rw [if_neg hc]
    obtain rfl := Except.ok.inj h
    exact ⟨Frame.refl _, rfl⟩

/-- Any number of iterations is a sequence of `n` interactions per iteration. -/
theorem iterates_raw {r : Rng G F} {s t : Deffuant (SimpleAgent F) F G} {k : Nat} (h : Iterates (iteration r updateRule) s k t) :
    Frame s t ∧ ∃ pairs : List (Nat × Nat), pairs.length = k * s.network.agents.length ∧
      (∀ p ∈ pairs, p.1 < s.network.agents.length ∧ p.2 < s.network.agents.length) ∧
      opinionOf t.network.agents = pairs.foldl (fun x p => rawMeet s.threshold s.mu p.1 p.2 x) (opinionOf s.network.agents) := by
  have key : ∀ {s t : Deffuant (SimpleAgent F) F G}, iteration r updateRule s = .ok t → Frame s t ∧
      ∃ pairs : List (Nat × Nat), pairs.length = s.network.agents.length ∧
      (∀ p ∈ pairs, p.1 < s.network.agents.length ∧ p.2 < s.network.agents.length) ∧
      opinionOf t.network.agents = pairs.foldl (fun x p => rawMeet s.threshold s.mu p.1 p.2 x) (opinionOf s.network.agents) := by
    intro s t h
    refine loop_ok (σ := Deffuant (SimpleAgent F) F G) (f := fun _ s => interact r updateRule s)
      (fun i t => Frame s t ∧ ∃ pairs : List (Nat × Nat), pairs.length = i ∧
        (∀ p ∈ pairs, p.1 < s.network.agents.length ∧ p.2 < s.network.agents.length) ∧
        opinionOf t.network.agents = pairs.foldl (fun x p => rawMeet s.threshold s.mu p.1 p.2 x) (opinionOf s.network.agents)) ?_ ?_ h
    · rintro i u v ⟨hF, pairs, hl, hp, ho⟩ hv
      obtain ⟨a, b, g, ha, hb, hu⟩ := interact_ok hv
      obtain ⟨hF', ho'⟩ := updateRule_raw (s := { u with gen := g }) ha hb hu
      have hF'' : Frame u v := ⟨hF'.1, hF'.2, hF'.3, hF'.4, hF'.5, hF'.6, hF'.7, hF'.8⟩
      rw [hF.n] at ha hb
      refine ⟨hF.trans hF'', pairs ++ [(a, b)], by simp [hl], ?_, ?_⟩
      · intro p hp'
        rcases List.mem_append.mp hp' with hp' | hp'
        · exact hp p hp'
        · simp at hp'; subst hp'; exact ⟨ha, hb⟩
      · rw [ho']
        simp only [List.foldl_append, List.foldl_cons, List.foldl_nil]
        have e1 : ({ u with gen := g } : Deffuant (SimpleAgent F) F G).threshold = s.threshold := hF.threshold
        have e2 : ({ u with gen := g } : Deffuant (SimpleAgent F) F G).mu = s.mu := hF.mu
        rw [e1, e2]
        show rawMeet _ _ _ _ (opinionOf u.network.agents) = _
        rw [ho]
    · exact ⟨⟨rfl, rfl, rfl, rfl, rfl, rfl, rfl, rfl⟩, [], rfl, by simp, rfl⟩
  induction h with
  | zero => exact ⟨Frame.refl s, [], by simp, by simp, rfl⟩
  | succ _ h' ih =>
    obtain ⟨hF, pairs, hl, hp, ho⟩ := ih
    obtain ⟨hF', pairs', hl', hp', ho'⟩ := key h'
    rw [hF.n] at hl' hp'
    refine ⟨hF.trans hF', pairs ++ pairs', by simp [hl, hl', Nat.add_mul], ?_, ?_⟩
    · intro p hpp
      rcases List.mem_append.mp hpp with hpp | hpp
      · exact hp p hpp
      · exact hp' p hpp
    · rw [ho', hF.threshold, hF.mu, ho]
      simp only [List.foldl_append]

end raw

theorem foldl_inv {α : Type} (f : (Nat → F) → α → (Nat → F)) (I : (Nat → F) → Prop) {pairs : List α} {x : Nat → F} (h0 : I x)
    (hs : ∀ p ∈ pairs, ∀ x, I x → I (f x p)) : I (pairs.foldl f x) := by
  induction pairs generalizing x with
  | nil => exact h0
  | cons p pairs ih => exact ih (hs p (List.mem_cons_self ..) x h0) (fun q hq => hs q (List.mem_cons_of_mem _ hq))

end Deffuant

/-! ## one interaction in double precision -/
namespace Spec.Rounding
variable (R : Rounding)

theorem abs_le_of_le {x y : ℝ} (hy : IsDouble y) (h : |x| ≤ y) : |R.round x| ≤ y := by
  rw [abs_le] at h ⊢
  exact ⟨R.ge_of_ge (Dbl.isDouble_neg hy) h.1, R.le_of_le hy h.2⟩

theorem nonpos {x : ℝ} (h : x ≤ 0) : R.round x ≤ 0 := R.le_of_le Dbl.isDouble_zero h

/-- Away from `1`, the rounded movement never overshoots the difference. -/
theorem move_le {x y mu : ℝ} (hx : IsDouble x) (hy : IsDouble y) (h0 : 0 ≤ mu) (h1 : mu ≤ 1 - 2 ^ (-52 : ℤ)) :
    |R.round (mu * R.round (x - y))| ≤ |x - y| := by
  by_cases hz : 2 ^ (-1022 : ℤ) ≤ |x - y|
  · have hd := R.error_sub hx hy
    have hd' : |R.round (x - y)| ≤ (1 + 2 ^ (-53 : ℤ)) * |x - y| := by
      have := abs_sub_abs_le_abs_sub (R.round (x - y)) (x - y)
      linarith
    have hm : |mu * R.round (x - y)| ≤ (1 - 2 ^ (-52 : ℤ)) * ((1 + 2 ^ (-53 : ℤ)) * |x - y|) := by
      rw [abs_mul, abs_of_nonneg h0]
      have : (0 : ℝ) ≤ 1 - 2 ^ (-52 : ℤ) := by norm_num
      gcongr
    by_cases hu : 2 ^ (-1022 : ℤ) ≤ |mu * R.round (x - y)|
    · have he := R.error_rel hu
      have := abs_sub_abs_le_abs_sub (R.round (mu * R.round (x - y))) (mu * R.round (x - y))
      have h2 : |R.round (mu * R.round (x - y))| ≤ (1 + 2 ^ (-53 : ℤ)) * ((1 - 2 ^ (-52 : ℤ)) * ((1 + 2 ^ (-53 : ℤ)) * |x - y|)) := by
        have : |R.round (mu * R.round (x - y))| ≤ (1 + 2 ^ (-53 : ℤ)) * |mu * R.round (x - y)| := by linarith
        refine this.trans ?_
        gcongr
      refine h2.trans ?_
      have h3 : (1 + 2 ^ (-53 : ℤ)) * ((1 - 2 ^ (-52 : ℤ)) * ((1 + 2 ^ (-53 : ℤ)) * |x - y|)) =
          ((1 + 2 ^ (-53 : ℤ)) * (1 - 2 ^ (-52 : ℤ)) * (1 + 2 ^ (-53 : ℤ))) * |x - y| := by ring
      rw [h3]
      have h4 : ((1 + 2 ^ (-53 : ℤ)) * (1 - 2 ^ (-52 : ℤ)) * (1 + 2 ^ (-53 : ℤ)) : ℝ) ≤ 1 := by norm_num
      exact mul_le_of_le_one_left (abs_nonneg _) h4
    · exact (R.abs_le_of_le (isDouble_pow (by norm_num)) (not_le.mp hu).le).trans hz
  · have hD : IsDouble (x - y) := by
      obtain ⟨m, hm⟩ := hx.multiple
      obtain ⟨k, hk⟩ := hy.multiple
      refine isDouble_small ⟨m - k, by rw [hm, hk]; push_cast; ring⟩ ((not_le.mp hz).le.trans ?_)
      exact zpow_le_zpow_right₀ (by norm_num) (by norm_num)
    rw [R.fix hD]
    refine R.abs_le_of_le ?_ ?_
    · rcases abs_choice (x - y) with h | h <;> rw [h]
      · exact hD
      · exact Dbl.isDouble_neg hD
    · rw [abs_mul, abs_of_nonneg h0]
      refine mul_le_of_le_one_left (abs_nonneg _) (h1.trans (by norm_num))

/-- Doubles above one. -/
theorem above_one {z : ℝ} (hz : IsDouble z) (h : 1 < z) : 1 + 2 ^ (-52 : ℤ) ≤ z := by
  obtain ⟨m, e, hm, he, rfl⟩ := hz
  rcases le_or_gt (-52) e with h52 | h52
  · obtain ⟨k, rfl⟩ : ∃ k : ℕ, e = -52 + k := ⟨(e + 52).toNat, by omega⟩
    have e1 : (m : ℝ) * 2 ^ (-52 + (k : ℤ)) = ((m * 2 ^ k : ℤ) : ℝ) * 2 ^ (-52 : ℤ) := by
      rw [zpow_add₀ (by norm_num), zpow_natCast]; push_cast; ring
    rw [e1] at h ⊢
    have hp : (0 : ℝ) < 2 ^ (-52 : ℤ) := by positivity
    have h1 : ((2 ^ 52 : ℤ) : ℝ) < ((m * 2 ^ k : ℤ) : ℝ) := by
      have : ((2 ^ 52 : ℤ) : ℝ) * 2 ^ (-52 : ℤ) = 1 := by norm_num
      exact lt_of_mul_lt_mul_right (by rw [this]; exact h) hp.le
    have h2 : ((2 ^ 52 + 1 : ℤ) : ℝ) ≤ ((m * 2 ^ k : ℤ) : ℝ) := by exact_mod_cast Int.add_one_le_iff.mpr (Int.cast_lt.mp h1)
    calc (1 : ℝ) + 2 ^ (-52 : ℤ) = ((2 ^ 52 + 1 : ℤ) : ℝ) * 2 ^ (-52 : ℤ) := by norm_num
      _ ≤ _ := by gcongr
  · exfalso
    have h1 : (m : ℝ) ≤ 2 ^ 53 := by exact_mod_cast ((le_abs_self m).trans hm.le)
    have h2 : (2 : ℝ) ^ e ≤ 2 ^ (-53 : ℤ) := zpow_le_zpow_right₀ (by norm_num) (by omega)
    have : (m : ℝ) * 2 ^ e ≤ 2 ^ 53 * 2 ^ (-53 : ℤ) := by gcongr
    norm_num at this
    linarith

/-- Doubles below one. -/
theorem below_one {z : ℝ} (hz : IsDouble z) (h : z < 1) : z ≤ 1 - 2 ^ (-53 : ℤ) := by
  obtain ⟨m, e, hm, he, rfl⟩ := hz
  rcases le_or_gt (-53) e with h53 | h53
  · obtain ⟨k, rfl⟩ : ∃ k : ℕ, e = -53 + k := ⟨(e + 53).toNat, by omega⟩
    have e1 : (m : ℝ) * 2 ^ (-53 + (k : ℤ)) = ((m * 2 ^ k : ℤ) : ℝ) * 2 ^ (-53 : ℤ) := by
      rw [zpow_add₀ (by norm_num), zpow_natCast]; push_cast; ring
    rw [e1] at h ⊢
    have hp : (0 : ℝ) < 2 ^ (-53 : ℤ) := by positivity
    have h1 : ((m * 2 ^ k : ℤ) : ℝ) < ((2 ^ 53 : ℤ) : ℝ) := by
      have : ((2 ^ 53 : ℤ) : ℝ) * 2 ^ (-53 : ℤ) = 1 := by norm_num
      exact lt_of_mul_lt_mul_right (by rw [this]; exact h) hp.le
    have h2 : ((m * 2 ^ k : ℤ) : ℝ) ≤ ((2 ^ 53 - 1 : ℤ) : ℝ) := by exact_mod_cast Int.le_sub_one_iff.mpr (Int.cast_lt.mp h1)
    calc _ ≤ ((2 ^ 53 - 1 : ℤ) : ℝ) * 2 ^ (-53 : ℤ) := by gcongr
      _ = _ := by norm_num
  · have h1 : (m : ℝ) ≤ 2 ^ 53 := by exact_mod_cast ((le_abs_self m).trans hm.le)
    have h2 : (2 : ℝ) ^ e ≤ 2 ^ (-54 : ℤ) := zpow_le_zpow_right₀ (by norm_num) (by omega)
    have : (m : ℝ) * 2 ^ e ≤ 2 ^ 53 * 2 ^ (-54 : ℤ) := by gcongr
    norm_num at this ⊢
    linarith

/-- Numbers up to a quarter of a unit in the last place above one are rounded to at most one. -/
theorem round_one {w : ℝ} (h : w ≤ 1 + 2 ^ (-54 : ℤ)) : R.round w ≤ 1 := by
  refine (R.mono h).trans ?_
  by_contra hc
  have h1 := above_one (R.double _) (not_le.mp hc)
  have h2 := R.nearest (1 + 2 ^ (-54 : ℤ)) 1 Dbl.isDouble_one
  have h3 : |(1 : ℝ) - (1 + 2 ^ (-54 : ℤ))| = 2 ^ (-54 : ℤ) := by norm_num
  rw [h3] at h2
  have := (abs_le.mp h2).2
  have h4 : (2 : ℝ) ^ (-52 : ℤ) = 4 * 2 ^ (-54 : ℤ) := by norm_num
  have h5 : (0 : ℝ) < 2 ^ (-54 : ℤ) := by positivity
  rw [h4] at h1
  linarith

/-- The error of a sum that is at most a quarter of a unit in the last place above one. -/
theorem error_unit' {w : ℝ} (h0 : 0 ≤ w) (h : w ≤ 1 + 2 ^ (-54 : ℤ)) : |R.round w - w| ≤ 2 ^ (-54 : ℤ) := by
  rcases le_or_gt w 1 with h1 | h1
  · exact R.error_unit (by rwa [abs_of_nonneg h0])
  · refine (R.nearest w 1 Dbl.isDouble_one).trans ?_
    rw [abs_sub_comm, abs_of_pos (by linarith)]
    linarith

/-- In the unit interval, whatever `mu`. -/
theorem unit_step {l h q : ℝ} (hh : IsDouble h) (hl0 : 0 ≤ l) (hh1 : h ≤ 1) (hq0 : 0 ≤ q) (hqh : q ≤ h)
    (hs : l + q ≤ 1 + 2 ^ (-54 : ℤ)) :
    (0 ≤ R.round (h - q) ∧ R.round (h - q) ≤ 1) ∧ (0 ≤ R.round (l + q) ∧ R.round (l + q) ≤ 1) ∧
      |(R.round (h - q) + R.round (l + q)) - (h + l)| ≤ 2 ^ (-53 : ℤ) := by
  have h54 : (0 : ℝ) < 2 ^ (-54 : ℤ) := by positivity
  have e1 := R.error_unit' (w := h - q) (by linarith) (by linarith)
  have e2 := R.error_unit' (w := l + q) (by linarith) hs
  refine ⟨⟨R.nonneg (by linarith), (R.le_of_le hh (by linarith)).trans hh1⟩, ⟨R.nonneg (by linarith), R.round_one hs⟩, ?_⟩
  have h3 : (R.round (h - q) + R.round (l + q)) - (h + l) = (R.round (h - q) - (h - q)) + (R.round (l + q) - (l + q)) := by ring
  rw [h3]
  refine (abs_add_le _ _).trans ?_
  have : (2 : ℝ) ^ (-53 : ℤ) = 2 ^ (-54 : ℤ) + 2 ^ (-54 : ℤ) := by norm_num
  rw [this]
  exact add_le_add e1 e2

/-- One interaction of opinions in the unit interval. -/
theorem unit_meet {x y mu : ℝ} (hx : IsDouble x) (hy : IsDouble y) (hx0 : 0 ≤ x) (hx1 : x ≤ 1) (hy0 : 0 ≤ y) (hy1 : y ≤ 1)
    (h0 : 0 ≤ mu) (h1 : mu ≤ 1) :
    (0 ≤ R.round (x - R.round (mu * R.round (x - y))) ∧ R.round (x - R.round (mu * R.round (x - y))) ≤ 1) ∧
    (0 ≤ R.round (y + R.round (mu * R.round (x - y))) ∧ R.round (y + R.round (mu * R.round (x - y))) ≤ 1) ∧
      |(R.round (x - R.round (mu * R.round (x - y))) + R.round (y + R.round (mu * R.round (x - y)))) - (x + y)| ≤ 2 ^ (-53 : ℤ) := by
  have he := abs_le.mp (R.error_unit (x := x - y) (by rw [abs_le]; constructor <;> linarith))
  rcases le_total y x with h | h
  · have hd0 : 0 ≤ R.round (x - y) := R.nonneg (by linarith)
    have hdx : R.round (x - y) ≤ x := R.le_of_le hx (by linarith)
    have hp0 : 0 ≤ R.round (mu * R.round (x - y)) := R.nonneg (mul_nonneg h0 hd0)
    have hpd : R.round (mu * R.round (x - y)) ≤ R.round (x - y) := R.le_of_le (R.double _) (mul_le_of_le_one_left hd0 h1)
    exact R.unit_step hx hy0 hx1 hp0 (hpd.trans hdx) (by linarith)
  · have hd0 : R.round (x - y) ≤ 0 := R.nonpos (by linarith)
    have hdy : -y ≤ R.round (x - y) := R.ge_of_ge (Dbl.isDouble_neg hy) (by linarith)
    have hp0 : R.round (mu * R.round (x - y)) ≤ 0 := R.nonpos (mul_nonpos_of_nonneg_of_nonpos h0 hd0)
    have hpd : R.round (x - y) ≤ R.round (mu * R.round (x - y)) := R.ge_of_ge (R.double _) (by nlinarith)
    have := R.unit_step (l := x) (h := y) (q := -R.round (mu * R.round (x - y))) hy hx0 hy1 (by linarith) (by linarith) (by linarith)
    rw [sub_neg_eq_add, ← sub_eq_add_neg, add_comm (R.round (y + _)), add_comm y x] at this
    exact ⟨this.2.1, this.1, this.2.2⟩

/-- One interaction that does not overshoot stays between the two opinions. -/
theorem hull_meet {x y p : ℝ} (hx : IsDouble x) (hy : IsDouble y) (hp : |p| ≤ |x - y|) (hs : 0 ≤ p * (x - y)) :
    (min x y ≤ R.round (x - p) ∧ R.round (x - p) ≤ max x y) ∧ (min x y ≤ R.round (y + p) ∧ R.round (y + p) ≤ max x y) := by
  rcases lt_trichotomy y x with h | h | h
  · have h0 : 0 ≤ p := by by_contra hc; nlinarith [mul_pos_of_neg_of_neg (not_le.mp hc) (show y - x < 0 by linarith)]
    rw [abs_of_nonneg h0, abs_of_pos (by linarith)] at hp
    rw [min_eq_right h.le, max_eq_left h.le]
    exact ⟨⟨R.ge_of_ge hy (by linarith), R.le_of_le hx (by linarith)⟩, R.ge_of_ge hy (by linarith), R.le_of_le hx (by linarith)⟩
  · subst h
    rw [sub_self, abs_zero] at hp
    have : p = 0 := abs_eq_zero.mp (le_antisymm hp (abs_nonneg _))
    subst this
    simp [R.fix hy]
  · have h0 : p ≤ 0 := by by_contra hc; nlinarith [mul_pos (not_le.mp hc) (show 0 < y - x by linarith)]
    rw [abs_of_nonpos h0, abs_of_neg (by linarith)] at hp
    rw [min_eq_left h.le, max_eq_right h.le]
    exact ⟨⟨R.ge_of_ge hx (by linarith), R.le_of_le hy (by linarith)⟩, R.ge_of_ge hx (by linarith), R.le_of_le hy (by linarith)⟩

/-- The movement has the sign of the difference. -/
theorem move_sign {x y mu : ℝ} (h0 : 0 ≤ mu) : 0 ≤ R.round (mu * R.round (x - y)) * (x - y) := by
  rcases le_total 0 (x - y) with h | h
  · exact mul_nonneg (R.nonneg (mul_nonneg h0 (R.nonneg h))) h
  · exact mul_nonneg_of_nonpos_of_nonpos (R.nonpos (mul_nonpos_of_nonneg_of_nonpos h0 (R.nonpos h))) h

end Spec.Rounding
end Seldon
