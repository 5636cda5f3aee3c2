import Mathlib.Algebra.Order.Field.Basic
import Mathlib.Algebra.Order.Archimedean.Basic
import Mathlib.Algebra.BigOperators.Ring.List
import Mathlib.Algebra.Order.BigOperators.Group.List
import Mathlib.Logic.Relation
import Mathlib.Tactic.Ring
import Mathlib.Tactic.Linarith
import Mathlib.Tactic.Positivity
/-!
# Repeated weighted averaging
-/
set_option linter.unusedSectionVars false
namespace Seldon.Averaging
variable {F : Type}

section ring
variable [Ring F] [LinearOrder F] [IsStrictOrderedRing F]

theorem sum_le {L : List (Nat × F)} {x : Nat → F} {hi : F} (h0 : ∀ e ∈ L, 0 ≤ e.2) (hx : ∀ e ∈ L, x e.1 ≤ hi) :
    (L.map (fun e => e.2 * x e.1)).sum ≤ (L.map (·.2)).sum * hi := by
  induction L with
  | nil => simp
  | cons a L ih =>
    have h1 := ih (fun e he => h0 e (List.mem_cons_of_mem _ he)) (fun e he => hx e (List.mem_cons_of_mem _ he))
    have h2 := mul_le_mul_of_nonneg_left (hx a (List.mem_cons_self ..)) (h0 a (List.mem_cons_self ..))
    simp only [List.map_cons, List.sum_cons, add_mul]
    exact add_le_add h2 h1

theorem le_sum {L : List (Nat × F)} {x : Nat → F} {lo : F} (h0 : ∀ e ∈ L, 0 ≤ e.2) (hx : ∀ e ∈ L, lo ≤ x e.1) :
    (L.map (·.2)).sum * lo ≤ (L.map (fun e => e.2 * x e.1)).sum := by
  induction L with
  | nil => simp
  | cons a L ih =>
    have h1 := ih (fun e he => h0 e (List.mem_cons_of_mem _ he)) (fun e he => hx e (List.mem_cons_of_mem _ he))
    have h2 := mul_le_mul_of_nonneg_left (hx a (List.mem_cons_self ..)) (h0 a (List.mem_cons_self ..))
    simp only [List.map_cons, List.sum_cons, add_mul]
    exact add_le_add h2 h1

theorem avg_le {L : List (Nat × F)} {x : Nat → F} {hi : F} (h0 : ∀ e ∈ L, 0 ≤ e.2) (h1 : (L.map (·.2)).sum = 1)
    (hx : ∀ e ∈ L, x e.1 ≤ hi) : (L.map (fun e => e.2 * x e.1)).sum ≤ hi := by
  have := sum_le h0 hx
  rwa [h1, one_mul] at this

theorem le_avg {L : List (Nat × F)} {x : Nat → F} {lo : F} (h0 : ∀ e ∈ L, 0 ≤ e.2) (h1 : (L.map (·.2)).sum = 1)
    (hx : ∀ e ∈ L, lo ≤ x e.1) : lo ≤ (L.map (fun e => e.2 * x e.1)).sum := by
  have := le_sum h0 hx
  rwa [h1, one_mul] at this

theorem avg_affine {L : List (Nat × F)} {x : Nat → F} (a b : F) (hab : ∀ w ∈ L.map (·.2), w * a = a * w) (h1 : (L.map (·.2)).sum = 1) :
    (L.map (fun e => e.2 * (a * x e.1 + b))).sum = a * (L.map (fun e => e.2 * x e.1)).sum + b := by
  have : ∀ L : List (Nat × F), (∀ w ∈ L.map (·.2), w * a = a * w) → (L.map (fun e => e.2 * (a * x e.1 + b))).sum =
      a * (L.map (fun e => e.2 * x e.1)).sum + (L.map (·.2)).sum * b := by
    intro L
    induction L with
    | nil => simp
    | cons e L ih =>
      intro h
      have he : e.2 * a = a * e.2 := h _ (by simp)
      simp only [List.map_cons, List.sum_cons]
      rw [ih (fun w hw => h w (by simp only [List.map_cons, List.mem_cons]; exact Or.inr hw)), mul_add, ← mul_assoc, he, mul_add, add_mul, mul_assoc]
      abel
  rw [this L hab, h1, one_mul]

/-- One entry far from the upper bound pulls the average away from it. -/
theorem sum_le_sub {L : List (Nat × F)} {x : Nat → F} {hi c δ : F} (h0 : ∀ e ∈ L, 0 ≤ e.2) (hx : ∀ e ∈ L, x e.1 ≤ hi)
    {e0 : Nat × F} (he : e0 ∈ L) (hδ : δ ≤ e0.2) (hc : 0 ≤ c) (hxe : x e0.1 ≤ hi - c) :
    (L.map (fun e => e.2 * x e.1)).sum ≤ (L.map (·.2)).sum * hi - δ * c := by
  induction L with
  | nil => cases he
  | cons a L ih =>
    simp only [List.map_cons, List.sum_cons, add_mul]
    rcases List.mem_cons.mp he with rfl | he
    · have h2 := sum_le (L := L) (x := x) (hi := hi) (fun e he => h0 e (List.mem_cons_of_mem _ he)) (fun e he => hx e (List.mem_cons_of_mem _ he))
      have h3 := mul_le_mul_of_nonneg_left hxe (h0 e0 (List.mem_cons_self ..))
      have h4 := mul_le_mul_of_nonneg_right hδ hc
      rw [mul_sub] at h3
      have h5 : e0.2 * x e0.1 ≤ e0.2 * hi - δ * c := h3.trans (sub_le_sub_left h4 _)
      have := add_le_add h5 h2
      calc _ ≤ _ := this
        _ = _ := by abel
    · have h1 := ih (fun e he => h0 e (List.mem_cons_of_mem _ he)) (fun e he => hx e (List.mem_cons_of_mem _ he)) he
      have h2 := mul_le_mul_of_nonneg_left (hx a (List.mem_cons_self ..)) (h0 a (List.mem_cons_self ..))
      have := add_le_add h2 h1
      calc _ ≤ _ := this
        _ = _ := by abel

theorem exists_min_pos (L : List F) : ∃ δ : F, 0 < δ ∧ δ ≤ 1 ∧ ∀ w ∈ L, 0 < w → δ ≤ w := by
  induction L with
  | nil => exact ⟨1, one_pos, le_refl _, by simp⟩
  | cons a L ih =>
    obtain ⟨δ, h0, h1, h⟩ := ih
    by_cases ha : 0 < a
    · refine ⟨min δ a, lt_min h0 ha, (min_le_left _ _).trans h1, ?_⟩
      intro w hw hpos
      rcases List.mem_cons.mp hw with rfl | hw
      · exact min_le_right _ _
      · exact (min_le_left _ _).trans (h w hw hpos)
    · refine ⟨δ, h0, h1, ?_⟩
      intro w hw hpos
      rcases List.mem_cons.mp hw with rfl | hw
      · exact absurd hpos ha
      · exact h w hw hpos

end ring

section
variable [Field F] [LinearOrder F] [IsStrictOrderedRing F]

/-- The data of an averaging process: `n` agents, the entries of each agent, and the opinions at each time. -/
structure Process (n : Nat) (L : Nat → List (Nat × F)) (x : Nat → Nat → F) : Prop where
  lt     : ∀ i, i < n → ∀ e ∈ L i, e.1 < n
  nonneg : ∀ i, i < n → ∀ e ∈ L i, 0 ≤ e.2
  sum    : ∀ i, i < n → ((L i).map (·.2)).sum = 1
  step   : ∀ t i, i < n → x (t + 1) i = ((L i).map (fun e => e.2 * x t e.1)).sum

/-- `i` is linked to `r` by exactly `t` entries of positive weight. -/
inductive ReachIn (L : Nat → List (Nat × F)) (r : Nat) : Nat → Nat → Prop where
  | zero : ReachIn L r 0 r
  | succ {t i j : Nat} {w : F} (h : (j, w) ∈ L i) (hw : 0 < w) (hr : ReachIn L r t j) : ReachIn L r (t + 1) i

theorem Process.upper {n : Nat} {L : Nat → List (Nat × F)} {x : Nat → Nat → F} (P : Process n L x) {hi : F} {t0 : Nat}
    (h : ∀ i, i < n → x t0 i ≤ hi) (t : Nat) : ∀ i, i < n → x (t0 + t) i ≤ hi := by
  induction t with
  | zero => exact h
  | succ t ih =>
    intro i hi'
    rw [← Nat.add_assoc, P.step _ i hi']
    exact avg_le (P.nonneg i hi') (P.sum i hi') (fun e he => ih e.1 (P.lt i hi' e he))

theorem Process.lower {n : Nat} {L : Nat → List (Nat × F)} {x : Nat → Nat → F} (P : Process n L x) {lo : F} {t0 : Nat}
    (h : ∀ i, i < n → lo ≤ x t0 i) (t : Nat) : ∀ i, i < n → lo ≤ x (t0 + t) i := by
  induction t with
  | zero => exact h
  | succ t ih =>
    intro i hi'
    rw [← Nat.add_assoc, P.step _ i hi']
    exact le_avg (P.nonneg i hi') (P.sum i hi') (fun e he => ih e.1 (P.lt i hi' e he))

theorem Process.neg {n : Nat} {L : Nat → List (Nat × F)} {x : Nat → Nat → F} (P : Process n L x) :
    Process n L (fun t i => - x t i) where
  lt := P.lt
  nonneg := P.nonneg
  sum := P.sum
  step := by
    intro t i hi
    rw [P.step t i hi]
    have : ∀ M : List (Nat × F), -(M.map (fun e => e.2 * x t e.1)).sum = (M.map (fun e => e.2 * -x t e.1)).sum := by
      intro M
      induction M with
      | nil => simp
      | cons a M ih => simp only [List.map_cons, List.sum_cons, neg_add, ih, mul_neg]
    exact this _

/-- If the root is at least `c` below the upper bound, everybody linked to it in `t` steps is at least `δ^t c` below. -/
theorem Process.pull {n : Nat} {L : Nat → List (Nat × F)} {x : Nat → Nat → F} (P : Process n L x) {δ : F} (hδ0 : 0 ≤ δ)
    (hδ : ∀ i, i < n → ∀ e ∈ L i, 0 < e.2 → δ ≤ e.2) {r : Nat} {t0 : Nat} {hi c : F} (hbox : ∀ i, i < n → x t0 i ≤ hi)
    (hc : 0 ≤ c) (hr : x t0 r ≤ hi - c) : ∀ t i, i < n → ReachIn L r t i → x (t0 + t) i ≤ hi - δ ^ t * c := by
  intro t
  induction t with
  | zero => intro i hi' h; cases h; simpa using hr
  | succ t ih =>
    intro i hi' h
    cases h with
    | succ h hw hr =>
      have h1 := ih _ (P.lt i hi' _ h) hr
      have h2 := sum_le_sub (P.nonneg i hi') (fun e he => P.upper hbox t e.1 (P.lt i hi' e he)) h (hδ i hi' _ h hw)
        (mul_nonneg (pow_nonneg hδ0 t) hc) h1
      rw [P.sum i hi', one_mul, ← P.step (t0 + t) i hi'] at h2
      rw [pow_succ, mul_comm (δ ^ t), mul_assoc]
      exact h2

/-- The interval of opinions shrinks by a fixed factor every `T` steps. -/
theorem Process.shrink {n : Nat} {L : Nat → List (Nat × F)} {x : Nat → Nat → F} (P : Process n L x) {δ : F} (hδ0 : 0 ≤ δ)
    (hδ : ∀ i, i < n → ∀ e ∈ L i, 0 < e.2 → δ ≤ e.2) {r T : Nat} (hrn : r < n) (hT : ∀ i, i < n → ReachIn L r T i) {t0 : Nat} {lo hi : F}
    (hbox : ∀ i, i < n → lo ≤ x t0 i ∧ x t0 i ≤ hi) :
    ∃ lo' hi', (∀ i, i < n → lo' ≤ x (t0 + T) i ∧ x (t0 + T) i ≤ hi') ∧ hi' - lo' = (1 - δ ^ T / 2) * (hi - lo) := by
  have hd : 0 ≤ (hi - lo) / 2 := by have := hbox r hrn; linarith [this.1.trans this.2]
  rcases le_total (x t0 r) ((lo + hi) / 2) with h | h
  · refine ⟨lo, hi - δ ^ T * ((hi - lo) / 2), fun i hi' => ⟨P.lower (fun j hj => (hbox j hj).1) T i hi', ?_⟩, by ring⟩
    exact P.pull hδ0 hδ (fun j hj => (hbox j hj).2) hd (by linarith) T i hi' (hT i hi')
  · refine ⟨lo + δ ^ T * ((hi - lo) / 2), hi, fun i hi' => ⟨?_, P.upper (fun j hj => (hbox j hj).2) T i hi'⟩, by ring⟩
    have := P.neg.pull hδ0 hδ (t0 := t0) (r := r) (hi := -lo) (c := (hi - lo) / 2) (fun j hj => neg_le_neg (hbox j hj).1) hd
      (by linarith) T i hi' (hT i hi')
    linarith

theorem reachIn_mono {n : Nat} {L : Nat → List (Nat × F)} (hself : ∀ i, i < n → ∃ w, (i, w) ∈ L i ∧ 0 < w) {r t i : Nat}
    (hi : i < n) (h : ReachIn L r t i) : ∀ d, ReachIn L r (t + d) i := by
  intro d
  induction d with
  | zero => exact h
  | succ d ih =>
    obtain ⟨w, hw, hp⟩ := hself i hi
    exact .succ hw hp ih

theorem exists_reachIn {L : Nat → List (Nat × F)} {r i : Nat}
    (h : Relation.ReflTransGen (fun a b => ∃ w, (b, w) ∈ L a ∧ 0 < w) i r) : ∃ t, ReachIn L r t i := by
  induction h using Relation.ReflTransGen.head_induction_on with
  | refl => exact ⟨0, .zero⟩
  | head h _ ih =>
    obtain ⟨w, hw, hp⟩ := h
    obtain ⟨t, ht⟩ := ih
    exact ⟨t + 1, .succ hw hp ht⟩

theorem exists_common {n : Nat} {L : Nat → List (Nat × F)} (hself : ∀ i, i < n → ∃ w, (i, w) ∈ L i ∧ 0 < w) {r : Nat}
    (h : ∀ i, i < n → ∃ t, ReachIn L r t i) : ∃ T, ∀ i, i < n → ReachIn L r T i := by
  have : ∀ m, m ≤ n → ∃ T, ∀ i, i < m → ReachIn L r T i := by
    intro m
    induction m with
    | zero => intro _; exact ⟨0, by intro i hi; omega⟩
    | succ m ih =>
      intro hm
      obtain ⟨T, hT⟩ := ih (by omega)
      obtain ⟨t, ht⟩ := h m (by omega)
      refine ⟨T + t, ?_⟩
      intro i hi
      by_cases him : i = m
      · subst him
        rw [Nat.add_comm]
        exact reachIn_mono hself (by omega) ht T
      · exact reachIn_mono hself (by omega) (hT i (by omega)) t
  exact this n (le_refl n)

/-- The opinions come arbitrarily close to each other. -/
theorem Process.converges [Archimedean F] {n : Nat} {L : Nat → List (Nat × F)} {x : Nat → Nat → F} (P : Process n L x)
    (hself : ∀ i, i < n → ∃ w, (i, w) ∈ L i ∧ 0 < w) {r : Nat} (hrn : r < n)
    (hroot : ∀ i, i < n → Relation.ReflTransGen (fun a b => ∃ w, (b, w) ∈ L a ∧ 0 < w) i r) {tol : F} (htol : 0 < tol) :
    ∃ t lo hi, (∀ i, i < n → lo ≤ x t i ∧ x t i ≤ hi) ∧ hi - lo < tol := by
  obtain ⟨δ, hδ0, hδ1, hδ⟩ := exists_min_pos (((List.range n).flatMap L).map (·.2))
  have hδ' : ∀ i, i < n → ∀ e ∈ L i, 0 < e.2 → δ ≤ e.2 := by
    intro i hi e he hp
    exact hδ e.2 (List.mem_map.mpr ⟨e, List.mem_flatMap.mpr ⟨i, List.mem_range.mpr hi, he⟩, rfl⟩) hp
  obtain ⟨T, hT⟩ := exists_common hself (fun i hi => exists_reachIn (hroot i hi))
  have hpow0 : 0 < δ ^ T := pow_pos hδ0 T
  have hpow1 : δ ^ T ≤ 1 := pow_le_one₀ hδ0.le hδ1
  obtain ⟨lo, hi, hbox⟩ : ∃ lo hi, ∀ i, i < n → lo ≤ x 0 i ∧ x 0 i ≤ hi := by
    have : ∀ m, ∃ lo hi, ∀ i, i < m → lo ≤ x 0 i ∧ x 0 i ≤ hi := by
      intro m
      induction m with
      | zero => exact ⟨0, 0, by intro i hi; omega⟩
      | succ m ih =>
        obtain ⟨lo, hi, h⟩ := ih
        refine ⟨min lo (x 0 m), max hi (x 0 m), ?_⟩
        intro i him
        by_cases h' : i = m
        · subst h'; exact ⟨min_le_right _ _, le_max_right _ _⟩
        · have := h i (by omega)
          exact ⟨(min_le_left _ _).trans this.1, this.2.trans (le_max_left _ _)⟩
    exact this n
  have hq0 : 0 ≤ 1 - δ ^ T / 2 := by linarith
  have hq1 : 1 - δ ^ T / 2 < 1 := by linarith
  have hall : ∀ k, ∃ lo' hi', (∀ i, i < n → lo' ≤ x (k * T) i ∧ x (k * T) i ≤ hi') ∧ hi' - lo' = (1 - δ ^ T / 2) ^ k * (hi - lo) := by
    intro k
    induction k with
    | zero => exact ⟨lo, hi, by simpa using hbox, by simp⟩
    | succ k ih =>
      obtain ⟨lo', hi', hb, he⟩ := ih
      obtain ⟨lo'', hi'', hb', he'⟩ := P.shrink hδ0.le hδ' hrn hT hb
      refine ⟨lo'', hi'', ?_, ?_⟩
      · rw [Nat.succ_mul]; exact hb'
      · rw [he', he, pow_succ]; ring
  have hR : 0 ≤ hi - lo := by have := hbox r hrn; linarith [this.1.trans this.2]
  obtain ⟨k, hk⟩ := exists_pow_lt_of_lt_one (show 0 < tol / (hi - lo + 1) by positivity) hq1
  obtain ⟨lo', hi', hb, he⟩ := hall k
  refine ⟨k * T, lo', hi', hb, ?_⟩
  rw [he]
  have h1 : (1 - δ ^ T / 2) ^ k * (hi - lo) ≤ (1 - δ ^ T / 2) ^ k * (hi - lo + 1) :=
    mul_le_mul_of_nonneg_left (by linarith) (pow_nonneg hq0 k)
  have h2 : (1 - δ ^ T / 2) ^ k * (hi - lo + 1) < tol := by
    rwa [lt_div_iff₀ (by linarith)] at hk
  linarith

end
end Seldon.Averaging
