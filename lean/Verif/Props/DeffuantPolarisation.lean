import Verif.Props.DeffuantLaw
import Mathlib.Analysis.Convex.Mul
import Mathlib.Analysis.Convex.Function
import Mathlib.Algebra.Order.Chebyshev
/-!
# C100: polarisation never grows in the scalar Deffuant model, and opinions move only a bounded amount
-/
set_option linter.unusedSectionVars false
namespace Seldon
open Spec
variable {F G : Type}

namespace Deffuant
variable [Field F] [LinearOrder F] [IsStrictOrderedRing F]

theorem meet_values (thr mu : F) {a b : Nat} (hab : a ≠ b) (x : Nat → F) :
    (meet thr mu a b x a = x a ∧ meet thr mu a b x b = x b) ∨
    (meet thr mu a b x a = (1 - mu) * x a + mu * x b ∧ meet thr mu a b x b = (1 - mu) * x b + mu * x a) := by
  unfold meet
  split
  · right
    simp only [if_true, if_neg (Ne.symm hab)]
    exact ⟨by ring, by ring⟩
  · exact .inl ⟨rfl, rfl⟩

theorem meet_mem (thr : F) {mu : F} (h0 : 0 ≤ mu) (h1 : mu ≤ 1) {S : Set F} (hS : Convex F S) {n a b : Nat} (ha : a < n) (hb : b < n) {x : Nat → F}
    (hx : ∀ i, i < n → x i ∈ S) : ∀ i, i < n → meet thr mu a b x i ∈ S := by
  intro i hi
  by_cases hab : a = b
  · subst hab; rw [meet_self]; exact hx i hi
  have e : 1 - mu + mu = 1 := by ring
  by_cases hia : i = a
  · subst hia
    rcases meet_values thr mu hab x with ⟨h, -⟩ | ⟨h, -⟩ <;> rw [h]
    · exact hx i hi
    · exact hS (hx _ ha) (hx _ hb) (sub_nonneg.mpr h1) h0 e
  by_cases hib : i = b
  · subst hib
    rcases meet_values thr mu hab x with ⟨-, h⟩ | ⟨-, h⟩ <;> rw [h]
    · exact hx i hi
    · exact hS (hx _ hb) (hx _ ha) (sub_nonneg.mpr h1) h0 e
  · rw [meet_other thr mu hia hib]; exact hx i hi

theorem meet_convex (thr : F) {mu : F} (h0 : 0 ≤ mu) (h1 : mu ≤ 1) {S : Set F} {φ : F → F} (hφ : ConvexOn F S φ) {n a b : Nat} (ha : a < n) (hb : b < n) {x : Nat → F}
    (hx : ∀ i, i < n → x i ∈ S) : ∑ i ∈ Finset.range n, φ (meet thr mu a b x i) ≤ ∑ i ∈ Finset.range n, φ (x i) := by
  by_cases hab : a = b
  · subst hab; rw [meet_self]
  rw [sum_two (f := fun i => φ (x i)) (f' := fun i => φ (meet thr mu a b x i)) (Finset.mem_range.mpr ha) (Finset.mem_range.mpr hb) hab
    (fun i h1 h2 => by simp only [meet_other thr mu h1 h2 x])]
  have e : 1 - mu + mu = 1 := by ring
  rcases meet_values thr mu hab x with ⟨g1, g2⟩ | ⟨g1, g2⟩ <;> rw [g1, g2]
  · linarith
  · have k1 := hφ.2 (hx _ ha) (hx _ hb) (sub_nonneg.mpr h1) h0 e
    have k2 := hφ.2 (hx _ hb) (hx _ ha) (sub_nonneg.mpr h1) h0 e
    simp only [smul_eq_mul] at k1 k2
    linarith

/-- Among the sets of the same size there is one whose sum before the meeting is at least the sum of `Q` after it. -/
theorem meet_largest (thr : F) {mu : F} (h0 : 0 ≤ mu) (h1 : mu ≤ 1) {n a b : Nat} (ha : a < n) (hb : b < n) (x : Nat → F) {Q : Finset Nat} (hQ : Q ⊆ Finset.range n) :
    ∃ Q' ⊆ Finset.range n, Q'.card = Q.card ∧ ∑ i ∈ Q, meet thr mu a b x i ≤ ∑ i ∈ Q', x i := by
  by_cases hab : a = b
  · subst hab; rw [meet_self]; exact ⟨Q, hQ, rfl, le_rfl⟩
  by_cases hsame : meet thr mu a b x a = x a ∧ meet thr mu a b x b = x b
  · refine ⟨Q, hQ, rfl, le_of_eq (Finset.sum_congr rfl fun i _ => ?_)⟩
    by_cases hia : i = a
    · rw [hia, hsame.1]
    by_cases hib : i = b
    · rw [hib, hsame.2]
    exact meet_other thr mu hia hib x
  obtain ⟨g1, g2⟩ := (meet_values thr mu hab x).resolve_left hsame
  -- one of the two in the set
  have key : ∀ c d : Nat, c ≠ d → c < n → d < n → c ∈ Q → d ∉ Q → (∀ i, i ≠ c → i ≠ d → meet thr mu a b x i = x i) →
      meet thr mu a b x c = (1 - mu) * x c + mu * x d → ∃ Q' ⊆ Finset.range n, Q'.card = Q.card ∧ ∑ i ∈ Q, meet thr mu a b x i ≤ ∑ i ∈ Q', x i := by
    intro c d hcd hc hd hcQ hdQ hoth hval
    have hrest : ∑ i ∈ Q.erase c, meet thr mu a b x i = ∑ i ∈ Q.erase c, x i :=
      Finset.sum_congr rfl fun i hi => hoth i (Finset.ne_of_mem_erase hi) (fun e => hdQ (e ▸ Finset.mem_of_mem_erase hi))
    rcases le_total (x c) (x d) with hle | hle
    · refine ⟨insert d (Q.erase c), ?_, ?_, ?_⟩
      · intro i hi
        rcases Finset.mem_insert.mp hi with rfl | hi
        · exact Finset.mem_range.mpr hd
        · exact hQ (Finset.mem_of_mem_erase hi)
      · rw [Finset.card_insert_of_notMem (fun h => hdQ (Finset.mem_of_mem_erase h)), Finset.card_erase_of_mem hcQ]
        have := Finset.card_pos.mpr ⟨c, hcQ⟩
        omega
      · rw [Finset.sum_insert (fun h => hdQ (Finset.mem_of_mem_erase h)), ← Finset.add_sum_erase Q _ hcQ, hrest, hval]
        nlinarith
    · refine ⟨Q, hQ, rfl, ?_⟩
      rw [← Finset.add_sum_erase Q _ hcQ, ← Finset.add_sum_erase Q (fun i => x i) hcQ, hrest, hval]
      nlinarith
  by_cases haQ : a ∈ Q <;> by_cases hbQ : b ∈ Q
  · exact ⟨Q, hQ, rfl, (meet_sum thr mu haQ hbQ x).le⟩
  · exact key a b hab ha hb haQ hbQ (fun i h1 h2 => meet_other thr mu h1 h2 x) g1
  · exact key b a (Ne.symm hab) hb ha hbQ haQ (fun i h1 h2 => meet_other thr mu h2 h1 x) g2
  · exact ⟨Q, hQ, rfl, le_of_eq (Finset.sum_congr rfl fun i hi => meet_other thr mu (fun e => haQ (by rw [← e]; exact hi)) (fun e => hbQ (by rw [← e]; exact hi)) x)⟩

/-- What moves in a meeting is paid for by the squares. -/
theorem meet_paid (thr mu : F) {n a b : Nat} (ha : a < n) (hb : b < n) (x : Nat → F) :
    (1 - mu) * ∑ i ∈ Finset.range n, (meet thr mu a b x i - x i) ^ 2 =
      mu * (∑ i ∈ Finset.range n, x i ^ 2 - ∑ i ∈ Finset.range n, meet thr mu a b x i ^ 2) := by
  by_cases hab : a = b
  · subst hab; rw [meet_self]; simp
  have ha' := Finset.mem_range.mpr ha
  have hb' := Finset.mem_range.mpr hb
  have e1 := sum_two (f := fun _ => (0 : F)) (f' := fun i => (meet thr mu a b x i - x i) ^ 2) ha' hb' hab (fun i h1 h2 => by simp only [meet_other thr mu h1 h2 x]; ring)
  have e2 := sum_two (f := fun i => x i ^ 2) (f' := fun i => meet thr mu a b x i ^ 2) ha' hb' hab (fun i h1 h2 => by simp only [meet_other thr mu h1 h2 x])
  rw [e1, e2, Finset.sum_const_zero]
  rcases meet_values thr mu hab x with ⟨g1, g2⟩ | ⟨g1, g2⟩ <;> rw [g1, g2] <;> ring

/-- The same for several meetings. -/
theorem meetings_paid (thr : F) {mu : F} (h1 : mu ≤ 1) {n : Nat} (ps : List (Nat × Nat)) (hp : ∀ p ∈ ps, p.1 < n ∧ p.2 < n) (x : Nat → F) :
    (1 - mu) * ∑ i ∈ Finset.range n, (meetings thr mu ps x i - x i) ^ 2 ≤
      ps.length * (mu * (∑ i ∈ Finset.range n, x i ^ 2 - ∑ i ∈ Finset.range n, meetings thr mu ps x i ^ 2)) := by
  induction ps generalizing x with
  | nil => simp [meetings]
  | cons p ps ih =>
    have hp0 := hp p (List.mem_cons_self ..)
    have hps : ∀ q ∈ ps, q.1 < n ∧ q.2 < n := fun q hq => hp q (List.mem_cons_of_mem _ hq)
    have h2 := ih hps (meet thr mu p.1 p.2 x)
    have e : meetings thr mu (p :: ps) x = meetings thr mu ps (meet thr mu p.1 p.2 x) := rfl
    rw [e]
    have hpay := meet_paid thr mu hp0.1 hp0.2 x
    generalize meet thr mu p.1 p.2 x = y at h2 hpay
    rcases ps with _ | ⟨q, ps⟩
    · have : meetings thr mu [] y = y := rfl
      rw [this, hpay]
      simp
    generalize hz : meetings thr mu (q :: ps) y = z at h2
    set m : F := ((q :: ps).length : F) with hm
    have hmpos : 0 < m := by rw [hm]; exact_mod_cast Nat.succ_pos _
    have hlen : ((p :: q :: ps).length : F) = m + 1 := by rw [hm]; push_cast [List.length_cons]; ring
    rw [hlen]
    clear_value m
    have hcs : m * ∑ i ∈ Finset.range n, (z i - x i) ^ 2 ≤
        m * (m + 1) * ∑ i ∈ Finset.range n, (y i - x i) ^ 2 + (m + 1) * ∑ i ∈ Finset.range n, (z i - y i) ^ 2 := by
      rw [Finset.mul_sum, Finset.mul_sum, Finset.mul_sum, ← Finset.sum_add_distrib]
      refine Finset.sum_le_sum fun i _ => ?_
      nlinarith [sq_nonneg (m * (y i - x i) - (z i - y i))]
    set A := ∑ i ∈ Finset.range n, (z i - x i) ^ 2
    set B := ∑ i ∈ Finset.range n, (y i - x i) ^ 2
    set C := ∑ i ∈ Finset.range n, (z i - y i) ^ 2
    set X := ∑ i ∈ Finset.range n, x i ^ 2
    set Y := ∑ i ∈ Finset.range n, y i ^ 2
    set Z := ∑ i ∈ Finset.range n, z i ^ 2
    clear_value A B C X Y Z
    have hmu : 0 ≤ 1 - mu := sub_nonneg.mpr h1
    refine le_of_mul_le_mul_left ?_ hmpos
    calc m * ((1 - mu) * A) = (1 - mu) * (m * A) := by ring
      _ ≤ (1 - mu) * (m * (m + 1) * B + (m + 1) * C) := mul_le_mul_of_nonneg_left hcs hmu
      _ = m * (m + 1) * ((1 - mu) * B) + (m + 1) * ((1 - mu) * C) := by ring
      _ ≤ m * (m + 1) * (mu * (X - Y)) + (m + 1) * (m * (mu * (Y - Z))) := by
        rw [hpay]
        exact add_le_add le_rfl (mul_le_mul_of_nonneg_left h2 (by linarith))
      _ = m * ((m + 1) * (mu * (X - Z))) := by ring

end Deffuant

section
variable [Field F] [LinearOrder F] [IsStrictOrderedRing F]

/-- C100 (convex functions): for `0 ≤ mu ≤ 1` the sum of every convex function of the opinions never increases, whatever is drawn. -/
theorem C100_convex {r : Rng G F} {k : Nat} {s t : Deffuant (SimpleAgent F) F G} (h0 : 0 ≤ s.mu) (h1 : s.mu ≤ 1)
    (h : Iterates (Deffuant.iteration r Deffuant.updateRule) s k t) {S : Set F} {φ : F → F} (hφ : ConvexOn F S φ)
    (hS : ∀ i, i < s.network.agents.length → opinionOf s.network.agents i ∈ S) :
    (∀ i, i < s.network.agents.length → opinionOf t.network.agents i ∈ S) ∧
    ∑ i ∈ Finset.range s.network.agents.length, φ (opinionOf t.network.agents i) ≤ ∑ i ∈ Finset.range s.network.agents.length, φ (opinionOf s.network.agents i) := by
  obtain ⟨hF, pairs, -, hp, ho⟩ := Deffuant.iterates_schedule h
  rw [ho]
  refine Deffuant.meetings_inv _ _ (fun x => (∀ i, i < s.network.agents.length → x i ∈ S) ∧ ∑ i ∈ Finset.range s.network.agents.length, φ (x i) ≤
      ∑ i ∈ Finset.range s.network.agents.length, φ (opinionOf s.network.agents i)) ⟨hS, le_refl _⟩ ?_
  intro p hpp x hx
  exact ⟨Deffuant.meet_mem _ h0 h1 hφ.1 (hp p hpp).1 (hp p hpp).2 hx.1, (Deffuant.meet_convex _ h0 h1 hφ (hp p hpp).1 (hp p hpp).2 hx.1).trans hx.2⟩

/-- C100 (disagreement): nor does the sum, over all pairs of agents, of a convex function of the difference of their opinions (for example of its absolute value). -/
theorem C100_disagreement {r : Rng G F} {k : Nat} {s t : Deffuant (SimpleAgent F) F G} (h0 : 0 ≤ s.mu) (h1 : s.mu ≤ 1)
    (h : Iterates (Deffuant.iteration r Deffuant.updateRule) s k t) {φ : F → F} (hφ : ConvexOn F Set.univ φ) :
    ∑ i ∈ Finset.range s.network.agents.length, ∑ j ∈ Finset.range s.network.agents.length, φ (opinionOf t.network.agents i - opinionOf t.network.agents j) ≤
      ∑ i ∈ Finset.range s.network.agents.length, ∑ j ∈ Finset.range s.network.agents.length, φ (opinionOf s.network.agents i - opinionOf s.network.agents j) := by
  have hl : ∀ c : F, ConvexOn F Set.univ fun v => φ (c - v) := by
    intro c
    refine ⟨convex_univ, fun x _ y _ a b ha hb hab => ?_⟩
    have := hφ.2 (Set.mem_univ (c - x)) (Set.mem_univ (c - y)) ha hb hab
    simp only [smul_eq_mul] at this ⊢
    have e : c - (a * x + b * y) = a * (c - x) + b * (c - y) := by
      have : c = (a + b) * c := by rw [hab, one_mul]
      linear_combination this
    rw [e]
    exact this
  have hr : ∀ c : F, ConvexOn F Set.univ fun v => φ (v - c) := by
    intro c
    refine ⟨convex_univ, fun x _ y _ a b ha hb hab => ?_⟩
    have := hφ.2 (Set.mem_univ (x - c)) (Set.mem_univ (y - c)) ha hb hab
    simp only [smul_eq_mul] at this ⊢
    have e : a * x + b * y - c = a * (x - c) + b * (y - c) := by
      have : c = (a + b) * c := by rw [hab, one_mul]
      linear_combination -this
    rw [e]
    exact this
  calc _ ≤ ∑ i ∈ Finset.range s.network.agents.length, ∑ j ∈ Finset.range s.network.agents.length, φ (opinionOf t.network.agents i - opinionOf s.network.agents j) :=
        Finset.sum_le_sum fun i _ => (C100_convex h0 h1 h (hl _) fun _ _ => Set.mem_univ _).2
    _ = ∑ j ∈ Finset.range s.network.agents.length, ∑ i ∈ Finset.range s.network.agents.length, φ (opinionOf t.network.agents i - opinionOf s.network.agents j) := Finset.sum_comm
    _ ≤ ∑ j ∈ Finset.range s.network.agents.length, ∑ i ∈ Finset.range s.network.agents.length, φ (opinionOf s.network.agents i - opinionOf s.network.agents j) :=
        Finset.sum_le_sum fun j _ => (C100_convex h0 h1 h (hr _) fun _ _ => Set.mem_univ _).2
    _ = _ := Finset.sum_comm

/-- C100 (extremes): the sum of the `q` largest opinions never increases: it is at most the sum of some `q` of the initial opinions; and the sum of the `q` smallest never
decreases. -/
theorem C100_extremes {r : Rng G F} {k : Nat} {s t : Deffuant (SimpleAgent F) F G} (h0 : 0 ≤ s.mu) (h1 : s.mu ≤ 1)
    (h : Iterates (Deffuant.iteration r Deffuant.updateRule) s k t) {Q : Finset Nat} (hQ : Q ⊆ Finset.range s.network.agents.length) :
    (∃ Q' ⊆ Finset.range s.network.agents.length, Q'.card = Q.card ∧ ∑ i ∈ Q, opinionOf t.network.agents i ≤ ∑ i ∈ Q', opinionOf s.network.agents i) ∧
    ∃ Q' ⊆ Finset.range s.network.agents.length, Q'.card = Q.card ∧ ∑ i ∈ Q', opinionOf s.network.agents i ≤ ∑ i ∈ Q, opinionOf t.network.agents i := by
  obtain ⟨hF, pairs, -, hp, ho⟩ := Deffuant.iterates_schedule h
  have hsum := C33_sum h
  rw [Deffuant.sum_opinions, Deffuant.sum_opinions, hF.n] at hsum
  have key : ∀ Q : Finset Nat, Q ⊆ Finset.range s.network.agents.length →
      ∃ Q' ⊆ Finset.range s.network.agents.length, Q'.card = Q.card ∧ ∑ i ∈ Q, opinionOf t.network.agents i ≤ ∑ i ∈ Q', opinionOf s.network.agents i := by
    rw [ho]
    refine Deffuant.meetings_inv _ _ (fun x => ∀ Q : Finset Nat, Q ⊆ Finset.range s.network.agents.length →
      ∃ Q' ⊆ Finset.range s.network.agents.length, Q'.card = Q.card ∧ ∑ i ∈ Q, x i ≤ ∑ i ∈ Q', opinionOf s.network.agents i) (fun Q hQ => ⟨Q, hQ, rfl, le_rfl⟩) ?_
    intro p hpp x hx Q hQ
    obtain ⟨Q1, g1, g2, g3⟩ := Deffuant.meet_largest _ h0 h1 (hp p hpp).1 (hp p hpp).2 x hQ
    obtain ⟨Q2, g4, g5, g6⟩ := hx Q1 g1
    exact ⟨Q2, g4, g5.trans g2, g3.trans g6⟩
  refine ⟨key Q hQ, ?_⟩
  obtain ⟨Q', e1, e2, e3⟩ := key (Finset.range s.network.agents.length \ Q) Finset.sdiff_subset
  refine ⟨Finset.range s.network.agents.length \ Q', Finset.sdiff_subset, ?_, ?_⟩
  · rw [Finset.card_sdiff_of_subset e1, e2, Finset.card_sdiff_of_subset hQ]
    have := Finset.card_le_card hQ
    omega
  · have k1 := Finset.sum_sdiff hQ (f := opinionOf t.network.agents)
    have k2 := Finset.sum_sdiff e1 (f := opinionOf s.network.agents)
    linarith

/-- C100 (movement): the squared movements of all agents in all iterations together are bounded: for every `c`, `(1 - mu) Σ_t Σ_i (x_i(t+1) - x_i(t))² ≤ mu n Σ_i (x_i(0) - c)²`. -/
theorem C100_movement {r : Rng G F} {st : Nat → Deffuant (SimpleAgent F) F G} (T : Deffuant.Trajectory r st) (h0 : 0 ≤ (st 0).mu) (h1 : (st 0).mu ≤ 1) (c : F) (K : Nat) :
    (1 - (st 0).mu) * ∑ t ∈ Finset.range K, ∑ i ∈ Finset.range (st 0).network.agents.length, (opinionOf (st (t + 1)).network.agents i - opinionOf (st t).network.agents i) ^ 2 ≤
      (st 0).mu * (st 0).network.agents.length * ∑ i ∈ Finset.range (st 0).network.agents.length, (opinionOf (st 0).network.agents i - c) ^ 2 := by
  set n := (st 0).network.agents.length with hn
  have hit : ∀ t, Iterates (Deffuant.iteration r Deffuant.updateRule) (st 0) t (st t) := by
    intro t
    induction t with
    | zero => exact .zero
    | succ t ih => exact .succ ih (T t)
  have hF : ∀ t, Deffuant.Frame (st 0) (st t) := fun t => (Deffuant.iterates_schedule (hit t)).1
  have hstep : ∀ t, (1 - (st 0).mu) * ∑ i ∈ Finset.range n, (opinionOf (st (t + 1)).network.agents i - opinionOf (st t).network.agents i) ^ 2 ≤
      n * ((st 0).mu * (∑ i ∈ Finset.range n, opinionOf (st t).network.agents i ^ 2 - ∑ i ∈ Finset.range n, opinionOf (st (t + 1)).network.agents i ^ 2)) := by
    intro t
    obtain ⟨-, ps, hl, hp, ho⟩ := Deffuant.iteration_schedule (T t)
    rw [(hF t).n] at hl hp
    rw [(hF t).threshold, (hF t).mu] at ho
    have := Deffuant.meetings_paid (st 0).threshold h1 ps hp (opinionOf (st t).network.agents)
    rw [← ho, hl] at this
    exact this
  have htel : (1 - (st 0).mu) * ∑ t ∈ Finset.range K, ∑ i ∈ Finset.range n, (opinionOf (st (t + 1)).network.agents i - opinionOf (st t).network.agents i) ^ 2 ≤
      n * ((st 0).mu * (∑ i ∈ Finset.range n, opinionOf (st 0).network.agents i ^ 2 - ∑ i ∈ Finset.range n, opinionOf (st K).network.agents i ^ 2)) := by
    induction K with
    | zero => simp
    | succ K ih =>
      rw [Finset.sum_range_succ, mul_add]
      have := hstep K
      linarith
  have hsum : ∑ i ∈ Finset.range n, opinionOf (st K).network.agents i = ∑ i ∈ Finset.range n, opinionOf (st 0).network.agents i := by
    have := C33_sum (hit K)
    rw [Deffuant.sum_opinions, Deffuant.sum_opinions, (hF K).n] at this
    exact this
  have hshift : ∀ x : Nat → F, ∑ i ∈ Finset.range n, (x i - c) ^ 2 = ∑ i ∈ Finset.range n, x i ^ 2 - 2 * c * ∑ i ∈ Finset.range n, x i + n * c ^ 2 := by
    intro x
    rw [Finset.sum_congr rfl fun i _ => (show (x i - c) ^ 2 = x i ^ 2 - 2 * c * x i + c ^ 2 by ring), Finset.sum_add_distrib, Finset.sum_sub_distrib, ← Finset.mul_sum,
      Finset.sum_const, Finset.card_range, nsmul_eq_mul]
  have hpos : 0 ≤ ∑ i ∈ Finset.range n, (opinionOf (st K).network.agents i - c) ^ 2 := Finset.sum_nonneg fun i _ => sq_nonneg _
  have hdiff : ∑ i ∈ Finset.range n, opinionOf (st 0).network.agents i ^ 2 - ∑ i ∈ Finset.range n, opinionOf (st K).network.agents i ^ 2 ≤
      ∑ i ∈ Finset.range n, (opinionOf (st 0).network.agents i - c) ^ 2 := by
    rw [hshift] at hpos ⊢
    rw [hsum] at hpos
    linarith
  refine htel.trans ?_
  have := mul_le_mul_of_nonneg_left hdiff (mul_nonneg h0 (Nat.cast_nonneg n) : (0 : F) ≤ (st 0).mu * n)
  linarith

/-- C100 (number of eventful iterations): the number of iterations in which some opinion changes by at least `η` satisfies `(1 - mu) η² · number ≤ mu n Σ_i (x_i(0) - c)²`,
for every sequence of draws, however long the run. -/
theorem C100_eventful {r : Rng G F} {st : Nat → Deffuant (SimpleAgent F) F G} (T : Deffuant.Trajectory r st) (h0 : 0 ≤ (st 0).mu) (h1 : (st 0).mu ≤ 1) (c : F)
    {η : F} (hη : 0 ≤ η) {I : Finset Nat} (hI : ∀ t ∈ I, ∃ i, i < (st 0).network.agents.length ∧ η ≤ |opinionOf (st (t + 1)).network.agents i - opinionOf (st t).network.agents i|) :
    (1 - (st 0).mu) * η ^ 2 * I.card ≤
      (st 0).mu * (st 0).network.agents.length * ∑ i ∈ Finset.range (st 0).network.agents.length, (opinionOf (st 0).network.agents i - c) ^ 2 := by
  obtain ⟨K, hK⟩ := I.exists_nat_subset_range
  refine le_trans ?_ (C100_movement T h0 h1 c K)
  rw [mul_assoc]
  refine mul_le_mul_of_nonneg_left ?_ (sub_nonneg.mpr h1)
  have hev : ∀ t ∈ I, η ^ 2 ≤ ∑ i ∈ Finset.range (st 0).network.agents.length, (opinionOf (st (t + 1)).network.agents i - opinionOf (st t).network.agents i) ^ 2 := by
    intro t ht
    obtain ⟨i, hi, hle⟩ := hI t ht
    refine le_trans ?_ (Finset.single_le_sum (f := fun i => (opinionOf (st (t + 1)).network.agents i - opinionOf (st t).network.agents i) ^ 2) (fun j _ => sq_nonneg _)
      (Finset.mem_range.mpr hi))
    rw [← sq_abs (opinionOf (st (t + 1)).network.agents i - opinionOf (st t).network.agents i)]
    exact pow_le_pow_left₀ hη hle 2
  calc η ^ 2 * I.card = ∑ _t ∈ I, η ^ 2 := by rw [Finset.sum_const, nsmul_eq_mul, mul_comm]
    _ ≤ ∑ t ∈ I, ∑ i ∈ Finset.range (st 0).network.agents.length, (opinionOf (st (t + 1)).network.agents i - opinionOf (st t).network.agents i) ^ 2 := Finset.sum_le_sum hev
    _ ≤ _ := Finset.sum_le_sum_of_subset_of_nonneg hK fun t _ _ => Finset.sum_nonneg fun i _ => sq_nonneg _

/-- C100 (from `initialize_agents`): with the initial opinions `i / n`, `(1 - mu) η² · number ≤ mu n² / 4`. -/
theorem C100_created {r : Rng G F} {s : Deffuant (SimpleAgent F) F G} {st : Nat → Deffuant (SimpleAgent F) F G} (hi : Deffuant.initializeAgents s = .ok (st 0))
    (T : Deffuant.Trajectory r st) (h0 : 0 ≤ s.mu) (h1 : s.mu ≤ 1)
    {η : F} (hη : 0 ≤ η) {I : Finset Nat} (hI : ∀ t ∈ I, ∃ i, i < s.network.agents.length ∧ η ≤ |opinionOf (st (t + 1)).network.agents i - opinionOf (st t).network.agents i|) :
    (1 - s.mu) * η ^ 2 * I.card ≤ s.mu * (s.network.agents.length : F) ^ 2 / 4 := by
  obtain ⟨ag, e, hi⟩ := Res.bind_eq_ok.mp hi
  rw [DeGroot.spread_eq] at e
  obtain rfl := Except.ok.inj e
  have hst := Except.ok.inj hi
  have emu : (st 0).mu = s.mu := by rw [← hst]
  have eag : (st 0).network.agents.length = s.network.agents.length := by rw [← hst]; simp
  have := C100_eventful T (by rw [emu]; exact h0) (by rw [emu]; exact h1) (1 / 2) hη (I := I) (by rw [eag]; exact hI)
  rw [emu, eag] at this
  refine this.trans ?_
  have hb : ∑ i ∈ Finset.range s.network.agents.length, (opinionOf (st 0).network.agents i - 1 / 2) ^ 2 ≤ s.network.agents.length * (1 / 4 : F) := by
    calc _ ≤ ∑ _i ∈ Finset.range s.network.agents.length, (1 / 4 : F) := by
          refine Finset.sum_le_sum fun i hi => ?_
          have hi := Finset.mem_range.mp hi
          have ho : opinionOf (st 0).network.agents i = (i : F) / s.network.agents.length := by
            rw [← hst]
            simp [opinionOf, opinions, hi]
          have hpos : (0 : F) < s.network.agents.length := by exact_mod_cast (by omega : 0 < s.network.agents.length)
          have k1 : (0 : F) ≤ (i : F) / s.network.agents.length := by positivity
          have k2 : (i : F) / s.network.agents.length ≤ 1 := (div_le_one hpos).mpr (by exact_mod_cast hi.le)
          rw [ho]
          nlinarith
      _ = _ := by rw [Finset.sum_const, Finset.card_range, nsmul_eq_mul]
  have := mul_le_mul_of_nonneg_left hb (mul_nonneg h0 (Nat.cast_nonneg _) : (0 : F) ≤ s.mu * s.network.agents.length)
  refine this.trans (le_of_eq ?_)
  ring

end

/-! ## The hypotheses are met -/

/-- The opinions 0, 1/2, 1 (`mu = 1/4`): there are at most 50 iterations in which an opinion changes by 1/10 or more, whatever is drawn, and the sum of the squares of the
opinions never exceeds 5/4. -/
example (g : ℕ → ℝ) : ∃ st : Nat → Deffuant (SimpleAgent ℝ) ℝ (ℕ → ℝ), st 0 = threeAgents g ∧ Deffuant.Trajectory fairRng st ∧
    (∀ I : Finset ℕ, (∀ t ∈ I, ∃ i, i < 3 ∧ 1 / 10 ≤ |opinionOf (st (t + 1)).network.agents i - opinionOf (st t).network.agents i|) → (I.card : ℝ) ≤ 50) ∧
    ∀ t, Iterates (Deffuant.iteration fairRng Deffuant.updateRule) (st 0) t (st t) → ∑ i ∈ Finset.range 3, opinionOf (st t).network.agents i ^ 2 ≤ 5 / 4 := by
  obtain ⟨st, h1, h2⟩ := C64_trajectory_exists fairRng_lawful (threeAgents_ready g)
  have hn : (st 0).network.agents.length = 3 := by rw [h1]; rfl
  have hm : (st 0).mu = 1 / 4 := by rw [h1]; rfl
  refine ⟨st, h1, h2, fun I hI => ?_, fun t ht => ?_⟩
  · have := C100_eventful h2 (by rw [hm]; norm_num) (by rw [hm]; norm_num) (1 / 2) (η := 1 / 10) (by norm_num) (I := I) (by rw [hn]; exact hI)
    rw [hm, hn, h1] at this
    norm_num [Finset.sum_range_succ, threeAgents, opinionOf, opinions] at this
    linarith
  · have := (C100_convex (by rw [hm]; norm_num) (by rw [hm]; norm_num) ht (φ := fun x => x ^ 2) (even_two.convexOn_pow) fun _ _ => Set.mem_univ _).2
    rw [hn, h1] at this
    refine this.trans ?_
    norm_num [Finset.sum_range_succ, threeAgents, opinionOf, opinions]

end Seldon
