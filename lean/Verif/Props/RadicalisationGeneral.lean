import Verif.Props.Radicalisation
/-!
# Property C107: strong interaction keeps one-sided populations away from neutrality in mean-field mode
-/
set_option linter.unusedSectionVars false
namespace Seldon
open Spec Filter Topology
variable {A F G : Type}

section
variable [Field F] [LinearOrder F] [IsStrictOrderedRing F]

/-- The sum of the weights of the stored entries of agent `i`. -/
def Spec.totalWeight (N : Network A F) (i : Nat) : F := ((row N i).map fun e => e.2).sum

/-- What a finite time step costs: `1 - h³ / ( 2 ( 1 - h ) )`. -/
def Spec.lag (h : F) : F := 1 - h ^ 3 / (2 * (1 - h))

theorem lag_pos {h : F} (h0 : 0 ≤ h) (h1 : h ≤ 2 / 3) : 0 < Spec.lag h ∧ Spec.lag h ≤ 1 := by
  have hp : 0 < 2 * (1 - h) := by linarith
  unfold Spec.lag
  have a : h ^ 3 ≤ (2 / 3) ^ 3 := pow_le_pow_left₀ h0 h1 3
  have b : h ^ 3 / (2 * (1 - h)) < 1 := by rw [div_lt_one hp]; nlinarith
  have c : 0 ≤ h ^ 3 / (2 * (1 - h)) := div_nonneg (pow_nonneg h0 3) hp.le
  constructor <;> linarith

theorem pull_const {tanh : F → F} (ht : Squashing tanh) {K alpha : F} (hK : 0 ≤ K) (ha : 0 ≤ alpha) {N : Network A F} {m : Nat → F} {n : Nat}
    (hr : ∀ i, i < n → ∀ e ∈ row N i, e.1 < n ∧ 0 ≤ e.2) (hm : ∀ i, i < n → 0 < m i) {z : Nat → F} {y : F}
    (hz : ∀ j, j < n → y ≤ z j) {i : Nat} (hi : i < n) : K / m i * Spec.totalWeight N i * tanh (alpha * y) ≤ pull tanh K alpha N m z i := by
  unfold pull
  have : Spec.totalWeight N i * tanh (alpha * y) ≤ weightedSum N (fun j => tanh (alpha * z j)) i := by
    unfold weightedSum Spec.totalWeight
    have hr := hr i hi
    generalize row N i = l at hr
    induction l with
    | nil => simp
    | cons e l ih =>
      simp only [List.map_cons, List.sum_cons, add_mul]
      obtain ⟨h1, h2⟩ := hr e List.mem_cons_self
      refine add_le_add ?_ (ih fun e' he' => hr e' (List.mem_cons_of_mem _ he'))
      exact mul_le_mul_of_nonneg_left (ht.mono _ _ (mul_le_mul_of_nonneg_left (hz _ h1) ha)) h2
  rw [mul_assoc]
  exact mul_le_mul_of_nonneg_left this (div_nonneg hK (hm i hi).le)

/-- One Runge-Kutta step of the opinion dynamics under strong interaction: if all opinions are at least `y`, and the influence of agents with opinions
`lag h * y` on every agent is at least `y`, then all opinions are at least `y` afterwards. -/
theorem rk4_rate_persist {tanh : F → F} (ht : Squashing tanh) {K alpha : F} (hK : 0 ≤ K) (ha : 0 ≤ alpha) {N : Network A F} {m : Nat → F} {n : Nat}
    {h : F} (h0 : 0 ≤ h) (h1 : h ≤ 2 / 3)
    (hr : ∀ i, i < n → ∀ e ∈ row N i, e.1 < n ∧ 0 ≤ e.2) (hm : ∀ i, i < n → 0 < m i) {x : Nat → F} {y : F} (hy : 0 ≤ y)
    (hW : ∀ i, i < n → y ≤ K / m i * Spec.totalWeight N i * tanh (alpha * (Spec.lag h * y)))
    (hx : ∀ i, i < n → y ≤ x i) {i : Nat} (hi : i < n) :
    y ≤ rk4 (rate tanh K alpha N m) h x i := by
  obtain ⟨l0, l1⟩ := lag_pos h0 h1
  have lag_eq : (1 - h) * (Spec.lag h * y) = (1 - h - h * h * h / 2) * y := by
    have : (1 - h) ≠ 0 := by linarith
    unfold Spec.lag; field_simp
  have hh2 : 0 ≤ h * h := mul_nonneg h0 h0
  have hh3 : 0 ≤ h * h * h := mul_nonneg hh2 h0
  have l2 : h * h ≤ h := by nlinarith
  have l2' : h * h ≤ 2 / 3 * h := by nlinarith
  have l3 : h * h * h ≤ h * h := by nlinarith
  set z := Spec.lag h * y with hz
  have hzy : z ≤ y := by rw [hz]; nlinarith
  have hz0 : 0 ≤ z := mul_nonneg l0.le hy
  have hx0 : ∀ j, j < n → 0 ≤ x j := fun j hj => hy.trans (hx j hj)
  set y2 : Nat → F := fun j => x j + h / 2 * rate tanh K alpha N m x j with hy2
  set y3 : Nat → F := fun j => x j + h / 2 * rate tanh K alpha N m y2 j with hy3
  set y4 : Nat → F := fun j => x j + h * rate tanh K alpha N m y3 j with hy4
  set C := pull tanh K alpha N m with hC
  have hCz : ∀ w : Nat → F, (∀ j, j < n → z ≤ w j) → ∀ j, j < n → y ≤ C w j := fun w hw j hj => (hW j hj).trans (pull_const ht hK ha hr hm hw hj)
  have e2 : ∀ j, y2 j = (1 - h / 2) * x j + h / 2 * C x j := by
    intro j; rw [hy2, hC]; unfold rate pull; ring
  have e3 : ∀ j, y3 j = (1 - h / 2 + h * h / 4) * x j - h * h / 4 * C x j + h / 2 * C y2 j := by
    intro j
    have : y3 j = x j + h / 2 * (-y2 j + C y2 j) := rfl
    rw [this, e2]; ring
  have e4 : ∀ j, y4 j = (1 - h + h * h / 2 - h * h * h / 4) * x j + h * h * h / 4 * C x j - h * h / 2 * C y2 j + h * C y3 j := by
    intro j
    have : y4 j = x j + h * (-y3 j + C y3 j) := rfl
    rw [this, e3]; ring
  have c1 : ∀ j, j < n → y ≤ C x j := hCz x fun j hj => hzy.trans (hx j hj)
  have n2 : ∀ j, j < n → y ≤ y2 j := by
    intro j hj
    rw [e2]
    have a := mul_le_mul_of_nonneg_left (hx j hj) (show 0 ≤ 1 - h / 2 by linarith)
    have b := mul_le_mul_of_nonneg_left (c1 j hj) (show 0 ≤ h / 2 by linarith)
    linarith
  have c2 : ∀ j, j < n → y ≤ C y2 j := hCz y2 fun j hj => hzy.trans (n2 j hj)
  have c21 : ∀ j, j < n → (1 - h / 2) * C x j ≤ C y2 j := fun j hj =>
    pull_scaled ht hK ha hr hm (by linarith) (by linarith) hx0 (fun k hk => by
      rw [e2]
      have := mul_nonneg (show 0 ≤ h / 2 by linarith) (hy.trans (c1 k hk))
      linarith) hj
  have n3 : ∀ j, j < n → z ≤ y3 j := by
    intro j hj
    have hp : 0 < 1 - h / 2 := by linarith
    have a := mul_le_mul_of_nonneg_left (hx j hj) (show 0 ≤ (1 - h / 2) * (1 - h / 2 + h * h / 4) from mul_nonneg hp.le (by linarith))
    have b := mul_le_mul_of_nonneg_left (c21 j hj) (show 0 ≤ h * h / 4 by linarith)
    have c := mul_le_mul_of_nonneg_left (c2 j hj) (show 0 ≤ h / 2 * (1 - h / 2) - h * h / 4 by linarith)
    have d : (1 - h / 2) * z ≤ (1 - h / 2 - h * h * h / 8) * y := by
      have d1 := mul_le_mul_of_nonneg_left hzy (show 0 ≤ h / 2 by linarith)
      have d2 := mul_nonneg hh3 hy
      have : (1 - h / 2) * z = (1 - h) * z + h / 2 * z := by ring
      rw [this, lag_eq]
      linarith
    have e : (1 - h / 2) * y3 j = (1 - h / 2) * (1 - h / 2 + h * h / 4) * x j - h * h / 4 * ((1 - h / 2) * C x j) + h / 2 * (1 - h / 2) * C y2 j := by
      rw [e3]; ring
    have : (1 - h / 2) * z ≤ (1 - h / 2) * y3 j := by rw [e]; linarith
    exact le_of_mul_le_mul_left this hp
  have c3 : ∀ j, j < n → y ≤ C y3 j := hCz y3 n3
  have c32 : ∀ j, j < n → (1 - h) * C y2 j ≤ C y3 j := fun j hj =>
    pull_scaled ht hK ha hr hm (by linarith) (by linarith) (fun k hk => hy.trans (n2 k hk)) (fun k hk => by
      rw [e2, e3]
      have a := mul_nonneg (show 0 ≤ h - h * h / 4 by linarith) (hx0 k hk)
      have b := mul_le_mul_of_nonneg_left (c21 k hk) (show 0 ≤ h / 2 by linarith)
      have c := mul_nonneg (show 0 ≤ h / 2 * (1 - h / 2) - h * h / 4 - h / 2 * (1 - h) by linarith) (hy.trans (c1 k hk))
      linarith) hj
  have n4 : ∀ j, j < n → z ≤ y4 j := by
    intro j hj
    have hp : 0 < 1 - h := by linarith
    have a := mul_le_mul_of_nonneg_left (hx j hj) (show 0 ≤ (1 - h) * (1 - h + h * h / 2 - h * h * h / 4) from mul_nonneg hp.le (by linarith))
    have b := mul_le_mul_of_nonneg_left (c1 j hj) (show 0 ≤ (1 - h) * (h * h * h / 4) from mul_nonneg hp.le (by linarith))
    have c := mul_le_mul_of_nonneg_left (c32 j hj) (show 0 ≤ h * h / 2 by linarith)
    have d := mul_le_mul_of_nonneg_left (c3 j hj) (show 0 ≤ (1 - h) * h - h * h / 2 by linarith)
    have e : (1 - h) * y4 j = (1 - h) * (1 - h + h * h / 2 - h * h * h / 4) * x j + (1 - h) * (h * h * h / 4) * C x j -
        h * h / 2 * ((1 - h) * C y2 j) + (1 - h) * h * C y3 j := by
      rw [e4]; ring
    have : (1 - h) * z ≤ (1 - h) * y4 j := by rw [e, lag_eq]; linarith
    exact le_of_mul_le_mul_left this hp
  have c4 : y ≤ C y4 i := hCz y4 n4 i hi
  have e : rk4 (rate tanh K alpha N m) h x i = decay h * x i + (h / 6 * (1 - h + h * h / 2 - h * h * h / 4)) * C x i +
        (h / 6 * (2 - h + h * h / 2)) * C y2 i + (h / 6 * (2 - h)) * C y3 i + h / 6 * C y4 i := by
    have : rk4 (rate tanh K alpha N m) h x i = x i + h / 6 * ((-x i + C x i) + 2 * (-y2 i + C y2 i) + 2 * (-y3 i + C y3 i) + (-y4 i + C y4 i)) := rfl
    rw [this, e4, e3, e2]; unfold decay; ring
  rw [e]
  have p0 := mul_le_mul_of_nonneg_left (hx i hi) (decay_nonneg h0 (h1.trans (by norm_num)))
  have p1 := mul_le_mul_of_nonneg_left (c1 i hi) (show 0 ≤ h / 6 * (1 - h + h * h / 2 - h * h * h / 4) from mul_nonneg (by linarith) (by linarith))
  have p2 := mul_le_mul_of_nonneg_left (c2 i hi) (show 0 ≤ h / 6 * (2 - h + h * h / 2) from mul_nonneg (by linarith) (by linarith))
  have p3 := mul_le_mul_of_nonneg_left (c3 i hi) (show 0 ≤ h / 6 * (2 - h) from mul_nonneg (by linarith) (by linarith))
  have p4 := mul_le_mul_of_nonneg_left c4 (show 0 ≤ h / 6 by linarith)
  have : decay h * y + (h / 6 * (1 - h + h * h / 2 - h * h * h / 4)) * y + (h / 6 * (2 - h + h * h / 2)) * y + (h / 6 * (2 - h)) * y + h / 6 * y = y := by
    unfold decay; ring
  linarith

variable [ActiveAgent A F] [LawfulActiveAgent A F]

theorem MeanWeights.total {o : MathOps F} {p : ActivitySettings F} {agents : List A} {N : Network A F} (hN : MeanWeights o p agents N) {i : Nat}
    (hi : i < agents.length) :
    Spec.totalWeight N i = ∑ j ∈ Finset.range agents.length, listening (contactProbability o p agents) p.reciprocity i j := by
  unfold Spec.totalWeight
  rw [hN.rows i hi, List.map_map, Finset.sum_range, ← List.sum_ofFn]
  congr 1
  apply List.ext_getElem
  · simp
  · intro j h1 h2
    simp [Function.comp]

/-- Agents that make one contact each listen to others with a total weight of at least the reciprocity, whatever the opinions and the homophily. -/
theorem total_ge_reciprocity {o : MathOps F} (ho : Spec.Powers o) {s : Activity A F G} (h : Spec.MeanField s 1) (hn : 2 ≤ s.network.agents.length)
    (hc : ∀ i, i < s.network.agents.length → contactsOf s.p i = 1)
    {N : Network A F} (hN : MeanWeights o s.p s.network.agents N) {i : Nat} (hi : i < s.network.agents.length) :
    s.p.reciprocity ≤ Spec.totalWeight N i := by
  rw [hN.total hi]
  have h1 := (C49_one_contact ho.pos (p := s.p) (hc i hi) (h.activity i hi)).2.2 hn
  calc s.p.reciprocity = ∑ j ∈ Finset.range s.network.agents.length, s.p.reciprocity * contactProbability o s.p s.network.agents i j := by
        rw [← Finset.mul_sum, h1, mul_one]
    _ ≤ _ := by
      apply Finset.sum_le_sum
      intro j hj
      have hj := Finset.mem_range.mp hj
      obtain ⟨-, a, b⟩ := (C49_one_contact ho.pos (p := s.p) (hc i hi) (h.activity i hi)).1 j hj
      obtain ⟨-, c, d⟩ := (C49_one_contact ho.pos (p := s.p) (hc j hj) (h.activity j hj)).1 i hi
      unfold listening
      have e : s.p.reciprocity * contactProbability o s.p s.network.agents i j ≤ 1 := mul_le_one₀ h.reciprocity_le a b
      have := mul_nonneg c (sub_nonneg.mpr e)
      linarith

/-- Without homophily the total weight is exactly `1 + r ( n - 2 ) / ( n - 1 )`. -/
theorem total_uniform {o : MathOps F} (hpow : ∀ x, o.pow x 0 = 1) {s : Activity A F G} {c : Nat} (h : Spec.MeanField s c) (hn : 2 ≤ s.network.agents.length)
    (hc : ∀ i, i < s.network.agents.length → contactsOf s.p i = 1) (hz : ∀ i, i < s.network.agents.length → homophilyFor s.p i = 0)
    {N : Network A F} (hN : MeanWeights o s.p s.network.agents N) {i : Nat} (hi : i < s.network.agents.length) :
    Spec.totalWeight N i = 1 + s.p.reciprocity * (((s.network.agents.length : F) - 2) / (s.network.agents.length - 1)) := by
  have h1 : (0 : F) < s.network.agents.length - 1 := by
    have : (2 : F) ≤ s.network.agents.length := by exact_mod_cast hn
    linarith
  have hP : ∀ a b, a < s.network.agents.length → b < s.network.agents.length → contactProbability o s.p s.network.agents a b =
      if b = a then 0 else 1 / ((s.network.agents.length : F) - 1) := by
    intro a b ha hb
    rw [contactProbability_uniform one_pos (h.activity a ha) ha hb (fun k hk => by unfold preference; rw [hz a ha, neg_zero, hpow]), hc a ha]
    have : ((1 : Int)).toNat = 1 := rfl
    rw [this, rounds_one (div_nonneg zero_le_one h1.le)]
  rw [hN.total hi, ← Finset.add_sum_erase _ _ (Finset.mem_range.mpr hi)]
  have e0 : listening (contactProbability o s.p s.network.agents) s.p.reciprocity i i = 0 := by
    unfold listening; rw [hP i i hi hi, if_pos rfl]; ring
  rw [e0, zero_add, Finset.sum_congr rfl (g := fun _ => 1 / ((s.network.agents.length : F) - 1) +
    (1 - 1 / ((s.network.agents.length : F) - 1)) * s.p.reciprocity * (1 / ((s.network.agents.length : F) - 1))) (fun j hj => ?_),
    Finset.sum_const, Finset.card_erase_of_mem (Finset.mem_range.mpr hi), Finset.card_range, nsmul_eq_mul, Nat.cast_sub (by omega), Nat.cast_one]
  · field_simp
    ring
  · have hji := Finset.ne_of_mem_erase hj
    have hj := Finset.mem_range.mp (Finset.mem_of_mem_erase hj)
    unfold listening
    rw [hP j i hj hi, hP i j hi hj, if_neg hji, if_neg (fun h => hji h.symm)]

theorem persist_of_total {o : MathOps F} (ho : Spec.Powers o) (htanh : Squashing o.tanh) {pick : List (Nat × F) → Nat} {r : Rng G F}
    {s t : Activity A F G} (h : Spec.MeanField s 1) (hK : 0 ≤ s.p.K) (ha : 0 ≤ s.p.alpha) (h0 : 0 ≤ s.p.dt) (h1 : s.p.dt ≤ 2 / 3)
    (hm : ∀ i, i < s.network.agents.length → 0 < attr ActiveAgent.reluctance s.network.agents i) {σ y R : F} (hσ : σ = 1 ∨ σ = -1) (hy : 0 ≤ y)
    (hR : ∀ k u v, Iterates (Activity.iteration o pick r) s k u → Activity.iteration o pick r u = .ok v →
      ∀ i, i < s.network.agents.length → R ≤ Spec.totalWeight v.network i)
    (hW : ∀ i, i < s.network.agents.length →
      y * attr ActiveAgent.reluctance s.network.agents i ≤ s.p.K * R * o.tanh (s.p.alpha * (Spec.lag s.p.dt * y)))
    (hx : ∀ i, i < s.network.agents.length → y ≤ σ * attr ActiveAgent.opinion s.network.agents i)
    (hb : ∀ i, i < s.p.nBots → y ≤ σ * s.p.botOpinion.getD i 0)
    {k : Nat} (ht : Iterates (Activity.iteration o pick r) s k t) :
    ∀ i, i < s.network.agents.length → y ≤ σ * attr ActiveAgent.opinion t.network.agents i := by
  induction ht with
  | zero => exact hx
  | @succ k t u ht hu ih =>
    obtain ⟨-, e2, e3, -⟩ := C42_activity ht
    have hlen : t.network.agents.length = s.network.agents.length := by
      have := congrArg List.length e2; simpa using this
    have erel : attr ActiveAgent.reluctance t.network.agents = attr ActiveAgent.reluctance s.network.agents := by
      funext i; unfold attr; rw [e2]
    have hst := (h.iterates ho ht).step ho hu
    intro i hi
    by_cases hbot : i < s.p.nBots
    · obtain ⟨a, ha, ha'⟩ := (Activity.iteration_frame hu).1.bots i (by rw [e3]; exact hbot)
      rw [Activity.attr_some _ ha]
      rw [e3] at ha'
      have := hb i hbot
      rw [List.getD_eq_getElem?_getD, ha'] at this
      exact this
    · rw [C47_rk4 hu hst.wf (by rw [e3]; omega) (by rw [hlen]; exact hi), e3, erel]
      have hent : ∀ i, i < s.network.agents.length → ∀ e ∈ row u.network i, e.1 < s.network.agents.length ∧ 0 ≤ e.2 := by
        intro i hi e he
        obtain ⟨a, -, b⟩ := hst.entries i (by rw [hlen]; exact hi) e he
        rw [hlen] at a
        exact ⟨a, b rfl⟩
      have hz : 0 ≤ o.tanh (s.p.alpha * (Spec.lag s.p.dt * y)) := htanh.nonneg (mul_nonneg ha (mul_nonneg (lag_pos h0 h1).1.le hy))
      have hW' : ∀ i, i < s.network.agents.length → y ≤ s.p.K / attr ActiveAgent.reluctance s.network.agents i * Spec.totalWeight u.network i *
          o.tanh (s.p.alpha * (Spec.lag s.p.dt * y)) := by
        intro i hi
        have hmi := hm i hi
        have e := hW i hi
        have e' : s.p.K * R * o.tanh (s.p.alpha * (Spec.lag s.p.dt * y)) ≤
            s.p.K * Spec.totalWeight u.network i * o.tanh (s.p.alpha * (Spec.lag s.p.dt * y)) :=
          mul_le_mul_of_nonneg_right (mul_le_mul_of_nonneg_left (hR k t u ht hu i hi) hK) hz
        rw [div_mul_eq_mul_div, div_mul_eq_mul_div, le_div_iff₀ hmi]
        exact e.trans e'
      have key : ∀ x : Nat → F, (∀ i, i < s.network.agents.length → y ≤ x i) → y ≤
          rk4 (rate o.tanh s.p.K s.p.alpha u.network (attr ActiveAgent.reluctance s.network.agents)) s.p.dt x i := fun x hx =>
        rk4_rate_persist htanh hK ha h0 h1 hent hm hy hW' hx hi
      rcases hσ with rfl | rfl
      · simp only [one_mul] at ih ⊢
        exact key _ ih
      · have := key _ ih
        have e : (fun j => -1 * attr ActiveAgent.opinion t.network.agents j) = fun j => -attr ActiveAgent.opinion t.network.agents j := by
          funext j; ring
        rw [e, rk4_neg (rate_neg htanh.odd _ _ _ _)] at this
        linarith

theorem uniform_next {o : MathOps F} (ho : Spec.Powers o) {pick : List (Nat × F) → Nat} {r : Rng G F} {s u v : Activity A F G} {c k : Nat}
    (h : Spec.MeanField s c) (hu : Iterates (Activity.iteration o pick r) s k u) (hv : Activity.iteration o pick r u = .ok v) :
    u.p = s.p ∧ u.network.agents.length = s.network.agents.length ∧ Spec.MeanField u c ∧ MeanWeights o u.p u.network.agents v.network := by
  obtain ⟨-, e2, e3, -⟩ := C42_activity hu
  obtain ⟨w, hw, hM, -⟩ := C49_activity ho.nat pick r (h.iterates ho hu).ready
  obtain rfl := Except.ok.inj (hv.symm.trans hw)
  exact ⟨e3, by have := congrArg List.length e2; simpa using this, h.iterates ho hu, hM⟩

/-- C107 with any homophily: every agent makes one contact, `K, α ≥ 0`, `0 ≤ dt ≤ 2/3`. If `y m_i ≤ K r tanh( α lag y )` for all `i`, and all opinions and bot
opinions are at least `y ≥ 0` (times the sign `σ`), they are so for ever. -/
theorem C107_persist {o : MathOps F} (ho : Spec.Powers o) (htanh : Squashing o.tanh) {pick : List (Nat × F) → Nat} {r : Rng G F}
    {s t : Activity A F G} (h : Spec.MeanField s 1) (hn : 2 ≤ s.network.agents.length) (hc : ∀ i, i < s.network.agents.length → contactsOf s.p i = 1)
    (hK : 0 ≤ s.p.K) (ha : 0 ≤ s.p.alpha) (h0 : 0 ≤ s.p.dt) (h1 : s.p.dt ≤ 2 / 3)
    (hm : ∀ i, i < s.network.agents.length → 0 < attr ActiveAgent.reluctance s.network.agents i) {σ y : F} (hσ : σ = 1 ∨ σ = -1) (hy : 0 ≤ y)
    (hW : ∀ i, i < s.network.agents.length →
      y * attr ActiveAgent.reluctance s.network.agents i ≤ s.p.K * s.p.reciprocity * o.tanh (s.p.alpha * (Spec.lag s.p.dt * y)))
    (hx : ∀ i, i < s.network.agents.length → y ≤ σ * attr ActiveAgent.opinion s.network.agents i)
    (hb : ∀ i, i < s.p.nBots → y ≤ σ * s.p.botOpinion.getD i 0)
    {k : Nat} (ht : Iterates (Activity.iteration o pick r) s k t) :
    ∀ i, i < s.network.agents.length → y ≤ σ * attr ActiveAgent.opinion t.network.agents i := by
  refine persist_of_total ho htanh h hK ha h0 h1 hm hσ hy (fun k u v hu hv i hi => ?_) hW hx hb ht
  obtain ⟨e1, e2, hf, hM⟩ := uniform_next ho h hu hv
  have := total_ge_reciprocity ho hf (by rw [e2]; exact hn) (by rw [e1, e2]; exact hc) hM (i := i) (by rw [e2]; exact hi)
  rwa [e1] at this

/-- C107 without homophily: the same with the exact total weight `1 + r ( n - 2 ) / ( n - 1 )`. -/
theorem C107_persist_uniform {o : MathOps F} (ho : Spec.Powers o) (hpow : ∀ x, o.pow x 0 = 1) (htanh : Squashing o.tanh) {pick : List (Nat × F) → Nat}
    {r : Rng G F} {s t : Activity A F G} (h : Spec.MeanField s 1) (hn : 2 ≤ s.network.agents.length)
    (hc : ∀ i, i < s.network.agents.length → contactsOf s.p i = 1) (hz : ∀ i, i < s.network.agents.length → homophilyFor s.p i = 0)
    (hK : 0 ≤ s.p.K) (ha : 0 ≤ s.p.alpha) (h0 : 0 ≤ s.p.dt) (h1 : s.p.dt ≤ 2 / 3)
    (hm : ∀ i, i < s.network.agents.length → 0 < attr ActiveAgent.reluctance s.network.agents i) {σ y : F} (hσ : σ = 1 ∨ σ = -1) (hy : 0 ≤ y)
    (hW : ∀ i, i < s.network.agents.length → y * attr ActiveAgent.reluctance s.network.agents i ≤
      s.p.K * (1 + s.p.reciprocity * ((s.network.agents.length - 2) / (s.network.agents.length - 1))) * o.tanh (s.p.alpha * (Spec.lag s.p.dt * y)))
    (hx : ∀ i, i < s.network.agents.length → y ≤ σ * attr ActiveAgent.opinion s.network.agents i)
    (hb : ∀ i, i < s.p.nBots → y ≤ σ * s.p.botOpinion.getD i 0)
    {k : Nat} (ht : Iterates (Activity.iteration o pick r) s k t) :
    ∀ i, i < s.network.agents.length → y ≤ σ * attr ActiveAgent.opinion t.network.agents i := by
  refine persist_of_total ho htanh h hK ha h0 h1 hm hσ hy (fun k u v hu hv i hi => ?_) hW hx hb ht
  obtain ⟨e1, e2, hf, hM⟩ := uniform_next ho h hu hv
  have := total_uniform hpow hf (by rw [e2]; exact hn) (by rw [e1, e2]; exact hc) (by rw [e1, e2]; exact hz) hM (i := i) (by rw [e2]; exact hi)
  rw [this, e1, e2]

/-- C107, the other side, without homophily and bots: `|K α| ( 1 + r ( n - 2 ) / ( n - 1 ) ) ≤ L m_i` with `L ≤ (2 - dt) / (2 + dt)`. After `k` iterations all opinions
are within `(decay dt + (1 - decay dt) L)^k` times the initial bound. -/
theorem C107_decay {o : MathOps F} (ho : Spec.Powers o) (hpow : ∀ x, o.pow x 0 = 1) (htanh : ∀ y, |o.tanh y| ≤ |y|) {pick : List (Nat × F) → Nat}
    {r : Rng G F} {s t : Activity A F G} (h : Spec.MeanField s 1) (hn : 2 ≤ s.network.agents.length)
    (hc : ∀ i, i < s.network.agents.length → contactsOf s.p i = 1) (hz : ∀ i, i < s.network.agents.length → homophilyFor s.p i = 0)
    (hb : s.p.nBots = 0) (h0 : 0 ≤ s.p.dt) (h1 : s.p.dt ≤ 1) {L M : F} (hL0 : 0 ≤ L) (hL : L * (2 + s.p.dt) ≤ 2 - s.p.dt)
    (hm : ∀ i, i < s.network.agents.length → 0 < attr ActiveAgent.reluctance s.network.agents i)
    (hw : ∀ i, i < s.network.agents.length → |s.p.K * s.p.alpha| *
      (1 + s.p.reciprocity * ((s.network.agents.length - 2) / (s.network.agents.length - 1))) ≤ L * attr ActiveAgent.reluctance s.network.agents i)
    (hx : ∀ i, i < s.network.agents.length → |attr ActiveAgent.opinion s.network.agents i| ≤ M)
    {k : Nat} (ht : Iterates (Activity.iteration o pick r) s k t) :
    ∀ i, i < s.network.agents.length → |attr ActiveAgent.opinion t.network.agents i| ≤ (decay s.p.dt + (1 - decay s.p.dt) * L) ^ k * M := by
  induction ht with
  | zero => intro i hi; rw [pow_zero, one_mul]; exact hx i hi
  | @succ k t u ht hu ih =>
    obtain ⟨e3, hlen, hf, hM⟩ := uniform_next ho h ht hu
    have erel : ∀ i, attr ActiveAgent.reluctance t.network.agents i = attr ActiveAgent.reluctance s.network.agents i := by
      intro i; unfold attr; rw [(C42_activity ht).2.1]
    have hst := hf.step ho hu
    have habs : ∀ i, i < s.network.agents.length → absWeight u.network i =
        1 + s.p.reciprocity * (((s.network.agents.length : F) - 2) / (s.network.agents.length - 1)) := by
      intro i hi
      have := total_uniform hpow hf (by rw [hlen]; exact hn) (by rw [e3, hlen]; exact hc) (by rw [e3, hlen]; exact hz) hM (i := i) (by rw [hlen]; exact hi)
      rw [e3, hlen] at this
      rw [← this]
      unfold absWeight Spec.totalWeight
      congr 1
      apply List.map_congr_left
      intro e he
      exact abs_of_nonneg ((hst.entries i (by rw [hlen]; exact hi) e he).2.2 rfl)
    intro i hi
    have := C75_step htanh hu hst.wf (by rw [e3]; exact hb) (by rw [e3]; exact h0) (by rw [e3]; exact h1) hL0 (by rw [e3]; exact hL)
      (by rw [hlen]; intro i hi; rw [erel]; exact hm i hi)
      (by intro i hi; rw [hlen] at hi; rw [erel, e3, habs i hi]; exact hw i hi)
      (by rw [hlen]; exact ih) (i := i) (by rw [hlen]; exact hi)
    rw [e3] at this
    rw [pow_succ]
    calc _ ≤ _ := this
      _ = _ := by ring

end

theorem persist_exists {ρ κ α θ : ℝ} (hρ : 0 < ρ) (ha : 0 < α) (hθ : 0 < θ) (hk : ρ < κ * α * θ) :
    ∃ w, 0 < w ∧ ∀ y, 0 < y → y ≤ w → y * ρ ≤ κ * Real.tanh (α * (θ * y)) := by
  have h1 : 1 < κ / ρ * (α * θ) := by
    rw [div_mul_eq_mul_div, lt_div_iff₀ hρ]; linarith
  have hκ : 0 < κ / ρ := by
    by_contra h
    have := mul_nonneg (sub_nonneg.mpr (not_lt.mp h)) (mul_pos ha hθ).le
    linarith
  obtain ⟨w, ⟨hw0, hw⟩, -⟩ := Scalar.exists_unique (mul_pos ha hθ) h1
  refine ⟨w, hw0, fun y hy hyw => ?_⟩
  have : y ≤ κ / ρ * Real.tanh (α * θ * y) := by
    rcases hyw.lt_or_eq with h | rfl
    · exact (Scalar.below hκ (mul_pos ha hθ) hw hy h).le
    · exact hw.le
  rw [div_mul_eq_mul_div, le_div_iff₀ hρ] at this
  rwa [← mul_assoc]

theorem finite_floor {n : Nat} {f : Nat → ℝ} (h : ∀ i, i < n → 0 < f i) : ∃ y, 0 < y ∧ ∀ i, i < n → y ≤ f i := by
  induction n with
  | zero => exact ⟨1, one_pos, fun i hi => absurd hi (by omega)⟩
  | succ n ih =>
    obtain ⟨y, hy, hall⟩ := ih fun i hi => h i (by omega)
    refine ⟨min y (f n), lt_min hy (h n (by omega)), fun i hi => ?_⟩
    rcases Nat.lt_succ_iff_lt_or_eq.mp hi with hi | rfl
    · exact (min_le_left _ _).trans (hall i hi)
    · exact min_le_right _ _

/-- C107 over the real numbers with the real hyperbolic tangent, any homophily: if `m_i < K α r lag( dt )` for all agents, a population whose opinions (and bot
opinions) are all on one side of 0 stays a positive distance away from 0. -/
theorem C107_radical [ActiveAgent A ℝ] [LawfulActiveAgent A ℝ] {o : MathOps ℝ} (ho : Spec.Powers o) (htanh : o.tanh = Real.tanh)
    {pick : List (Nat × ℝ) → Nat} {r : Rng G ℝ} {s : Activity A ℝ G} (h : Spec.MeanField s 1) (hn : 2 ≤ s.network.agents.length)
    (hc : ∀ i, i < s.network.agents.length → contactsOf s.p i = 1)
    (hK : 0 ≤ s.p.K) (ha : 0 < s.p.alpha) (h0 : 0 ≤ s.p.dt) (h1 : s.p.dt ≤ 2 / 3)
    (hm : ∀ i, i < s.network.agents.length → 0 < attr ActiveAgent.reluctance s.network.agents i)
    (hW : ∀ i, i < s.network.agents.length →
      attr ActiveAgent.reluctance s.network.agents i < s.p.K * s.p.reciprocity * s.p.alpha * Spec.lag s.p.dt) {σ : ℝ} (hσ : σ = 1 ∨ σ = -1)
    (hx : ∀ i, i < s.network.agents.length → 0 < σ * attr ActiveAgent.opinion s.network.agents i)
    (hb : ∀ i, i < s.p.nBots → 0 < σ * s.p.botOpinion.getD i 0) :
    ∃ y, 0 < y ∧ ∀ k t, Iterates (Activity.iteration o pick r) s k t →
      ∀ i, i < s.network.agents.length → y ≤ σ * attr ActiveAgent.opinion t.network.agents i := by
  obtain ⟨a, ha0, ha1⟩ := finite_floor hx
  obtain ⟨b, hb0, hb1⟩ := finite_floor hb
  choose! w hw0 hw using fun i (hi : i < s.network.agents.length) => persist_exists (hm i hi) ha (lag_pos h0 h1).1 (hW i hi)
  obtain ⟨d, hd0, hd1⟩ := finite_floor hw0
  have hy : 0 < min a (min b d) := lt_min ha0 (lt_min hb0 hd0)
  refine ⟨min a (min b d), hy, fun k t ht => ?_⟩
  refine C107_persist ho (by rw [htanh]; exact tanh_squashing) h hn hc hK ha.le h0 h1 hm hσ hy.le (fun i hi => ?_)
    (fun i hi => (min_le_left _ _).trans (ha1 i hi)) (fun i hi => (min_le_right _ _).trans ((min_le_left _ _).trans (hb1 i hi))) ht
  rw [htanh]
  exact hw i hi _ hy ((min_le_right _ _).trans ((min_le_right _ _).trans (hd1 i hi)))

/-- C107 without homophily: the threshold of C106, up to `lag( dt )`, for populations that are not alike. -/
theorem C107_radical_uniform [ActiveAgent A ℝ] [LawfulActiveAgent A ℝ] {o : MathOps ℝ} (ho : Spec.Powers o) (hpow : ∀ x, o.pow x 0 = 1)
    (htanh : o.tanh = Real.tanh) {pick : List (Nat × ℝ) → Nat} {r : Rng G ℝ} {s : Activity A ℝ G} (h : Spec.MeanField s 1)
    (hn : 2 ≤ s.network.agents.length) (hc : ∀ i, i < s.network.agents.length → contactsOf s.p i = 1)
    (hz : ∀ i, i < s.network.agents.length → homophilyFor s.p i = 0)
    (hK : 0 ≤ s.p.K) (ha : 0 < s.p.alpha) (h0 : 0 ≤ s.p.dt) (h1 : s.p.dt ≤ 2 / 3)
    (hm : ∀ i, i < s.network.agents.length → 0 < attr ActiveAgent.reluctance s.network.agents i)
    (hW : ∀ i, i < s.network.agents.length → attr ActiveAgent.reluctance s.network.agents i <
      s.p.K * (1 + s.p.reciprocity * ((s.network.agents.length - 2) / (s.network.agents.length - 1))) * s.p.alpha * Spec.lag s.p.dt)
    {σ : ℝ} (hσ : σ = 1 ∨ σ = -1)
    (hx : ∀ i, i < s.network.agents.length → 0 < σ * attr ActiveAgent.opinion s.network.agents i)
    (hb : ∀ i, i < s.p.nBots → 0 < σ * s.p.botOpinion.getD i 0) :
    ∃ y, 0 < y ∧ ∀ k t, Iterates (Activity.iteration o pick r) s k t →
      ∀ i, i < s.network.agents.length → y ≤ σ * attr ActiveAgent.opinion t.network.agents i := by
  obtain ⟨a, ha0, ha1⟩ := finite_floor hx
  obtain ⟨b, hb0, hb1⟩ := finite_floor hb
  choose! w hw0 hw using fun i (hi : i < s.network.agents.length) => persist_exists (hm i hi) ha (lag_pos h0 h1).1 (hW i hi)
  obtain ⟨d, hd0, hd1⟩ := finite_floor hw0
  have hy : 0 < min a (min b d) := lt_min ha0 (lt_min hb0 hd0)
  refine ⟨min a (min b d), hy, fun k t ht => ?_⟩
  refine C107_persist_uniform ho hpow (by rw [htanh]; exact tanh_squashing) h hn hc hz hK ha.le h0 h1 hm hσ hy.le (fun i hi => ?_)
    (fun i hi => (min_le_left _ _).trans (ha1 i hi)) (fun i hi => (min_le_right _ _).trans ((min_le_left _ _).trans (hb1 i hi))) ht
  rw [htanh]
  exact hw i hi _ hy ((min_le_right _ _).trans ((min_le_right _ _).trans (hd1 i hi)))

/-! ## concrete cases -/

/-- Three agents with homophily exponent `h` and different opinions, reluctances and activities, one of them a bot. -/
noncomputable def Activity.mixed (h K : ℝ) : Activity (ActivityAgent ℝ) ℝ Nat where
  p := {
    maxIterations := none, dt := 0.01, m := 1, eps := 0.01, gamma := 2.1, alpha := 3, homophily := h, reciprocity := 0.5, K := K,
    meanActivities := false, meanWeights := true, nBots := 1, botM := [1], botActivity := [1], botOpinion := [2], botHomophily := [h],
    useReluctances := true, reluctanceMean := 1, reluctanceSigma := 0.25, reluctanceEps := 0.01, covarianceFactor := 0 }
  network := ⟨[⟨2, 1, 1⟩, ⟨1 / 1000, 1 / 10, 1 / 2⟩, ⟨5, 1 / 5, 1⟩], List.replicate 3 (List.range 3), List.replicate 3 (List.replicate 3 0), .incoming⟩
  contactProb := List.replicate 3 (List.replicate 3 0)
  counter := ⟨none, 0⟩
  gen := 0

theorem below_three {P : Nat → Prop} (a : P 0) (b : P 1) (c : P 2) : ∀ i, i < 3 → P i := by
  intro i hi
  interval_cases i <;> assumption

theorem Activity.mixed_field (h K : ℝ) : Spec.MeanField (Activity.mixed h K) 1 := by
  refine ⟨⟨rfl, rfl, rfl, rfl, ?_, ?_, ?_, ?_, below_three ?_ ?_ ?_, below_three ?_ ?_ ?_, rfl⟩, ?_, ?_, below_three ?_ ?_ ?_, below_three ?_ ?_ ?_, le_rfl⟩
  · show 1 ≤ 3; decide
  · exact le_rfl
  · exact le_rfl
  · exact le_rfl
  any_goals (show (0 : Int) ≤ 1; decide)
  any_goals (show (1 : Int) < 2 ^ 64; decide)
  any_goals (show (1 : Int) ≤ 1; decide)
  · show (0 : ℝ) ≤ 0.5; norm_num
  · show (0.5 : ℝ) ≤ 1; norm_num
  · show (1 : ℝ) ≤ 1; norm_num
  · show (1 / 10 : ℝ) ≤ 1; norm_num
  · show (1 / 5 : ℝ) ≤ 1; norm_num

-- the hypotheses of C107_radical are met (`K = 1`, homophily 1/2), and those of C107_radical_uniform (`K = 1/2`, no homophily)
example (pick : List (Nat × ℝ) → Nat) (r : Rng Nat ℝ) :
    (∃ y, 0 < y ∧ ∀ k t, Iterates (Activity.iteration realOps pick r) (Activity.mixed (1 / 2) 1) k t →
      ∀ i, i < 3 → y ≤ attr ActiveAgent.opinion t.network.agents i) ∧
    (∃ y, 0 < y ∧ ∀ k t, Iterates (Activity.iteration realOps pick r) (Activity.mixed 0 (1 / 2)) k t →
      ∀ i, i < 3 → y ≤ attr ActiveAgent.opinion t.network.agents i) := by
  have hp : Spec.Powers realOps := ⟨fun _ _ => rfl, fun x y hx => Real.rpow_pos_of_pos hx y⟩
  have hlag : (0.99 : ℝ) ≤ Spec.lag 0.01 := by unfold Spec.lag; norm_num
  constructor
  · obtain ⟨y, hy, hall⟩ := C107_radical (σ := 1) hp rfl (pick := pick) (r := r) (Activity.mixed_field (1 / 2) 1) (by show 2 ≤ 3; decide)
      (below_three rfl rfl rfl) (by show (0 : ℝ) ≤ 1; norm_num) (by show (0 : ℝ) < 3; norm_num) (by show (0 : ℝ) ≤ 0.01; norm_num)
      (by show (0.01 : ℝ) ≤ 2 / 3; norm_num)
      (below_three (by show (0 : ℝ) < 1; norm_num) (by show (0 : ℝ) < 1 / 2; norm_num) (by show (0 : ℝ) < 1; norm_num))
      (below_three (by show (1 : ℝ) < 1 * 0.5 * 3 * Spec.lag 0.01; linarith) (by show (1 / 2 : ℝ) < 1 * 0.5 * 3 * Spec.lag 0.01; linarith)
        (by show (1 : ℝ) < 1 * 0.5 * 3 * Spec.lag 0.01; linarith)) (.inl rfl)
      (below_three (by show (0 : ℝ) < 1 * 2; norm_num) (by show (0 : ℝ) < 1 * (1 / 1000); norm_num) (by show (0 : ℝ) < 1 * 5; norm_num))
      (fun i hi => by
        have hi : i < 1 := hi
        obtain rfl : i = 0 := by omega
        show (0 : ℝ) < 1 * 2; norm_num)
    exact ⟨y, hy, fun k t ht i hi => by have := hall k t ht i hi; rwa [one_mul] at this⟩
  · have e : ∀ K : ℝ, K * (1 + 0.5 * ((((3 : ℕ) : ℝ) - 2) / (((3 : ℕ) : ℝ) - 1))) = K * 1.25 := by intro K; push_cast; norm_num
    obtain ⟨y, hy, hall⟩ := C107_radical_uniform (σ := 1) hp Real.rpow_zero rfl (pick := pick) (r := r) (Activity.mixed_field 0 (1 / 2)) (by show 2 ≤ 3; decide)
      (below_three rfl rfl rfl) (below_three rfl rfl rfl) (by show (0 : ℝ) ≤ 1 / 2; norm_num) (by show (0 : ℝ) < 3; norm_num) (by show (0 : ℝ) ≤ 0.01; norm_num)
      (by show (0.01 : ℝ) ≤ 2 / 3; norm_num)
      (below_three (by show (0 : ℝ) < 1; norm_num) (by show (0 : ℝ) < 1 / 2; norm_num) (by show (0 : ℝ) < 1; norm_num))
      (below_three (by show (1 : ℝ) < 1 / 2 * (1 + 0.5 * ((((3 : ℕ) : ℝ) - 2) / (((3 : ℕ) : ℝ) - 1))) * 3 * Spec.lag 0.01; rw [e]; linarith)
        (by show (1 / 2 : ℝ) < 1 / 2 * (1 + 0.5 * ((((3 : ℕ) : ℝ) - 2) / (((3 : ℕ) : ℝ) - 1))) * 3 * Spec.lag 0.01; rw [e]; linarith)
        (by show (1 : ℝ) < 1 / 2 * (1 + 0.5 * ((((3 : ℕ) : ℝ) - 2) / (((3 : ℕ) : ℝ) - 1))) * 3 * Spec.lag 0.01; rw [e]; linarith)) (.inl rfl)
      (below_three (by show (0 : ℝ) < 1 * 2; norm_num) (by show (0 : ℝ) < 1 * (1 / 1000); norm_num) (by show (0 : ℝ) < 1 * 5; norm_num))
      (fun i hi => by
        have hi : i < 1 := hi
        obtain rfl : i = 0 := by omega
        show (0 : ℝ) < 1 * 2; norm_num)
    exact ⟨y, hy, fun k t ht i hi => by have := hall k t ht i hi; rwa [one_mul] at this⟩

/-- One contact per agent, no bots, no homophily, `K α = 3/5`. -/
def Activity.posFlat : Activity (ActivityAgent ℚ) ℚ Nat :=
  { Activity.posMean with p := { Activity.posMean.p with K := 1 / 5, alpha := 3, homophily := 0, reciprocity := 1 / 2 } }

theorem Activity.posFlat_field : Spec.MeanField Activity.posFlat 1 := by
  refine ⟨?_, ?_, ?_, ?_, ?_, ?_⟩
  · constructor <;> decide +kernel
  all_goals decide +kernel

-- the hypotheses of C107_decay are met, beyond the condition of C102_decay (`K α n ≤ L m_i`)
example (k : Nat) : ∃ t, Iterates (Activity.iteration flatOps firstMin counterRng) Activity.posFlat k t ∧
    ∀ i, i < 4 → |attr ActiveAgent.opinion t.network.agents i| ≤ (decay (1 / 100 : ℚ) + (1 - decay (1 / 100)) * (4 / 5)) ^ k * 7 := by
  obtain ⟨t, ht, -⟩ := C49_total flatOps_powers.nat firstMin counterRng Activity.posFlat_field.ready k
  exact ⟨t, ht, C107_decay (L := 4 / 5) (M := 7) flatOps_powers (fun _ => rfl) flatOps_le Activity.posFlat_field (by decide +kernel) (by decide +kernel)
    (by decide +kernel) rfl (by decide +kernel) (by decide +kernel) (by decide +kernel) (by decide +kernel) (by decide +kernel) (by decide +kernel)
    (by decide +kernel) ht⟩

end Seldon
