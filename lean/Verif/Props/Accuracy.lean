import Verif.Lemmas.Expansion
import Verif.Props.ActivityDynamics
import Verif.Spec.Accuracy
import Verif.Spec.RealOps
import Mathlib.Analysis.ODE.ExistUnique
/-!
# Properties C77 and C78: order of accuracy of the integrators
-/
set_option linter.unusedSectionVars false
namespace Seldon
open Spec Filter Topology Asymptotics
variable {A G : Type}

namespace Expands
variable {f : (Nat → ℝ) → Nat → ℝ} {n : Nat} {x : Nat → ℝ} {J : (Nat → ℝ) → Nat → ℝ} {H : (Nat → ℝ) → (Nat → ℝ) → Nat → ℝ}
  {T : (Nat → ℝ) → (Nat → ℝ) → (Nat → ℝ) → Nat → ℝ}

/-- Expansion of the Runge-Kutta step. -/
theorem rk4 (E : Expands f n x J H T) : ∀ i, i < n →
    Near 5 (fun h => Spec.rk4 f h x i) (fun h => x i + f x i * h + J (f x) i / 2 * h ^ 2 + (J (J (f x)) i + H (f x) (f x) i) / 6 * h ^ 3 +
      (J (J (J (f x))) i + J (H (f x) (f x)) i + 3 * H (f x) (J (f x)) i + T (f x) (f x) (f x) i) / 24 * h ^ 4) := by
  have bd : ∀ c0 c1 c2 c3 : ℝ, (fun h : ℝ => c0 + c1 * h + c2 * h ^ 2 + c3 * h ^ 3) =O[𝓝 0] (fun _ => (1 : ℝ)) := fun c0 c1 c2 c3 =>
    bounded_of_continuous (by fun_prop)
  -- a stage `y = x + c h k`
  have stage : ∀ (c : ℝ) (k : ℝ → Nat → ℝ) (k0 k1 k2 k3 : Nat → ℝ), (∀ j, j < n → Near 4 (fun h => k h j) (fun h => k0 j + k1 j * h + k2 j * h ^ 2 + k3 j * h ^ 3)) →
      ∀ j, j < n → Near 4 (fun h => x j + h * c * k h j) (fun h => x j + (c * k0 j) * h + (c * k1 j) * h ^ 2 + (c * k2 j) * h ^ 3) := by
    intro c k k0 k1 k2 k3 hk j hj
    have h1 := ((hk j hj).id_mul.weaken (l := 4) (by norm_num)).const_mul c
    have h2 := (Near.refl 4 fun _ => x j).add h1
    refine (h2.congr (fun h => ?_) (fun h => rfl)).trans ?_
    · ring
    · refine ((Near.drop (k := 4) (c := fun _ => c * k3 j) (bounded_of_continuous (by fun_prop))).add
        (Near.refl 4 fun h => x j + (c * k0 j) * h + (c * k1 j) * h ^ 2 + (c * k2 j) * h ^ 3)).congr (fun h => ?_) (fun h => ?_) <;> ring
  have j0 := E.J_zero
  have k2 : ∀ j, j < n → Near 4 (fun h => f (fun j => x j + h / 2 * f x j) j)
      (fun h => f x j + (1 / 2 * J (f x) j) * h + (1 / 8 * H (f x) (f x) j) * h ^ 2 + (1 / 48 * T (f x) (f x) (f x) j) * h ^ 3) := by
    intro j hj
    have s := stage (1 / 2) (fun _ => f x) (f x) (fun _ => 0) (fun _ => 0) (fun _ => 0) (fun j _ => Near.of_eq fun h => by ring)
    have := E.third (fun h j => x j + h * (1 / 2) * f x j) _ _ _ s j hj
    refine this.congr (fun h => ?_) (fun h => ?_)
    · congr 1; funext j; ring
    · have e0 : (fun j : Nat => (1 / 2 : ℝ) * (fun _ : Nat => (0 : ℝ)) j) = fun _ => 0 := by funext j; simp
      rw [e0, E.H_zero, j0, E.J_mul, E.H_mul, E.T_mul]; ring
  have k3 : ∀ j, j < n → Near 4 (fun h => f (fun j => x j + h / 2 * f (fun j => x j + h / 2 * f x j) j) j)
      (fun h => f x j + (1 / 2 * J (f x) j) * h + (1 / 4 * J (J (f x)) j + 1 / 8 * H (f x) (f x) j) * h ^ 2 +
        (1 / 16 * J (H (f x) (f x)) j + 1 / 8 * H (f x) (J (f x)) j + 1 / 48 * T (f x) (f x) (f x) j) * h ^ 3) := by
    intro j hj
    have s := stage (1 / 2) (fun h => f (fun j => x j + h / 2 * f x j)) _ _ _ _ k2
    have := E.third (fun h j => x j + h * (1 / 2) * f (fun j => x j + h / 2 * f x j) j) _ _ _ s j hj
    refine this.congr (fun h => ?_) (fun h => ?_)
    · congr 1; funext j; ring
    · simp only [E.J_mul, E.H_mul, E.H_mulr, E.T_mul]; ring
  have k4 : ∀ j, j < n → Near 4 (fun h => f (fun j => x j + h * f (fun j => x j + h / 2 * f (fun j => x j + h / 2 * f x j) j) j) j)
      (fun h => f x j + J (f x) j * h + (1 / 2 * J (J (f x)) j + 1 / 2 * H (f x) (f x) j) * h ^ 2 +
        (1 / 4 * J (J (J (f x))) j + 1 / 8 * J (H (f x) (f x)) j + 1 / 2 * H (f x) (J (f x)) j + 1 / 6 * T (f x) (f x) (f x) j) * h ^ 3) := by
    intro j hj
    have s := stage 1 (fun h => f (fun j => x j + h / 2 * f (fun j => x j + h / 2 * f x j) j)) _ _ _ _ k3
    have := E.third (fun h j => x j + h * 1 * f (fun j => x j + h / 2 * f (fun j => x j + h / 2 * f x j) j) j) _ _ _ s j hj
    refine this.congr (fun h => ?_) (fun h => ?_)
    · congr 1; funext j; ring
    · simp only [E.J_mul, E.H_mul, E.H_mulr, E.T_mul, E.J_add]; ring
  intro i hi
  have hs := ((((Near.refl 4 fun _ => f x i).add ((k2 i hi).const_mul 2)).add ((k3 i hi).const_mul 2)).add (k4 i hi)).id_mul.const_mul (1 / 6)
  have := (Near.refl 5 fun _ => x i).add hs
  refine this.congr (fun h => ?_) (fun h => ?_)
  · unfold Spec.rk4; ring
  · ring

/-- The Runge-Kutta step is exact up to terms of fifth order. -/
theorem rk4_order (E : Expands f n x J H T) {γ : ℝ → Nat → ℝ} (h0 : ∀ i, i < n → γ 0 i = x i)
    (hγ : ∀ᶠ t in 𝓝 (0 : ℝ), ∀ i, i < n → HasDerivAt (fun t => γ t i) (f (γ t) i) t) {i : Nat} (hi : i < n) :
    Near 5 (fun h => Spec.rk4 f h x i) (fun h => γ h i) :=
  (E.rk4 i hi).trans (E.solution h0 hγ i hi).symm

end Expands

/-! ## the opinion dynamics -/

section
variable (K alpha : ℝ) (N : Network A ℝ) (m : Nat → ℝ) (x : Nat → ℝ)

/-- First, second and third derivative of the opinion dynamics. -/
noncomputable def rateJ (u : Nat → ℝ) (i : Nat) : ℝ :=
  -u i + K / m i * weightedSum N (fun j => tanh1 (Real.tanh (alpha * x j)) * (alpha * u j)) i
noncomputable def rateH (u v : Nat → ℝ) (i : Nat) : ℝ :=
  K / m i * weightedSum N (fun j => tanh2 (Real.tanh (alpha * x j)) * ((alpha * u j) * (alpha * v j))) i
noncomputable def rateT (u v w : Nat → ℝ) (i : Nat) : ℝ :=
  K / m i * weightedSum N (fun j => tanh3 (Real.tanh (alpha * x j)) * ((alpha * u j) * (alpha * v j) * (alpha * w j))) i

theorem weightedSum_add' (u v : Nat → ℝ) (i : Nat) : weightedSum N (fun j => u j + v j) i = weightedSum N u i + weightedSum N v i := by
  unfold weightedSum
  generalize row N i = l
  induction l with
  | nil => simp
  | cons e l ih => simp only [List.map_cons, List.sum_cons]; rw [ih]; ring

theorem weightedSum_mul' (c : ℝ) (u : Nat → ℝ) (i : Nat) : weightedSum N (fun j => c * u j) i = c * weightedSum N u i := by
  unfold weightedSum
  generalize row N i = l
  induction l with
  | nil => simp
  | cons e l ih => simp only [List.map_cons, List.sum_cons]; rw [ih]; ring

theorem weightedSum_near {k n : Nat} {i : Nat} (hr : ∀ e ∈ row N i, e.1 < n) {u v : ℝ → Nat → ℝ}
    (h : ∀ j, j < n → Near k (fun t => u t j) (fun t => v t j)) :
    Near k (fun t => weightedSum N (u t) i) (fun t => weightedSum N (v t) i) := by
  unfold weightedSum
  exact Near.sum (f := fun e t => e.2 * u t e.1) (g := fun e t => e.2 * v t e.1) _ fun e he => (h _ (hr e he)).const_mul _

theorem rate_expands {n : Nat} (hr : ∀ i, i < n → ∀ e ∈ row N i, e.1 < n) :
    Expands (rate Real.tanh K alpha N m) n x (rateJ K alpha N m x) (rateH K alpha N m x) (rateT K alpha N m x) where
  third y y1 y2 y3 hy i hi := by
    have h1 : ∀ j, j < n → Near 4 (fun h => Real.tanh (alpha * y h j)) (fun h => Real.tanh (alpha * x j) +
        (tanh1 (Real.tanh (alpha * x j)) * (alpha * y1 j)) * h +
        (tanh1 (Real.tanh (alpha * x j)) * (alpha * y2 j) + 1 / 2 * (tanh2 (Real.tanh (alpha * x j)) * ((alpha * y1 j) * (alpha * y1 j)))) * h ^ 2 +
        (tanh1 (Real.tanh (alpha * x j)) * (alpha * y3 j) + tanh2 (Real.tanh (alpha * x j)) * ((alpha * y1 j) * (alpha * y2 j)) +
          1 / 6 * (tanh3 (Real.tanh (alpha * x j)) * ((alpha * y1 j) * (alpha * y1 j) * (alpha * y1 j)))) * h ^ 3) := by
      intro j hj
      have h2 := ((hy j hj).const_mul alpha).congr (q := fun h => alpha * x j + alpha * y1 j * h + alpha * y2 j * h ^ 2 + alpha * y3 j * h ^ 3)
        (fun h => rfl) (fun h => by ring)
      exact h2.tanh.congr (fun h => rfl) (fun h => by ring)
    have h3 := ((hy i hi).neg).add ((weightedSum_near N (hr i hi) h1).const_mul (K / m i))
    refine h3.congr (fun h => rfl) (fun h => ?_)
    have c : ∀ (u : Nat → ℝ) (c : ℝ), weightedSum N (fun j => u j * c) i = weightedSum N u i * c := by
      intro u c
      rw [mul_comm, ← weightedSum_mul']
      congr 1; funext j; ring
    simp only [weightedSum_add', c, weightedSum_mul']
    unfold rate rateJ rateH rateT
    ring
  lipschitz k y z h i hi := by
    have h1 := ((h i hi).neg).add ((weightedSum_near N (hr i hi) fun j hj => ((h j hj).const_mul alpha).tanh_congr).const_mul (K / m i))
    exact h1
  ext y z h i hi := by
    unfold rate weightedSum
    rw [h i hi]
    congr 3
    exact List.map_congr_left fun e he => by dsimp only; rw [h e.1 (hr i hi e he)]
  J_add u v i := by
    unfold rateJ
    have : (fun j => tanh1 (Real.tanh (alpha * x j)) * (alpha * (u j + v j))) =
        fun j => tanh1 (Real.tanh (alpha * x j)) * (alpha * u j) + tanh1 (Real.tanh (alpha * x j)) * (alpha * v j) := by funext j; ring
    rw [this, weightedSum_add']; ring
  J_mul c u i := by
    unfold rateJ
    have : (fun j => tanh1 (Real.tanh (alpha * x j)) * (alpha * (c * u j))) =
        fun j => c * (tanh1 (Real.tanh (alpha * x j)) * (alpha * u j)) := by funext j; ring
    rw [this, weightedSum_mul']; ring
  H_mul c d u v i := by
    unfold rateH
    have : (fun j => tanh2 (Real.tanh (alpha * x j)) * ((alpha * (c * u j)) * (alpha * (d * v j)))) =
        fun j => (c * d) * (tanh2 (Real.tanh (alpha * x j)) * ((alpha * u j) * (alpha * v j))) := by funext j; ring
    rw [this, weightedSum_mul']; ring
  T_mul c u i := by
    unfold rateT
    have : (fun j => tanh3 (Real.tanh (alpha * x j)) * ((alpha * (c * u j)) * (alpha * (c * u j)) * (alpha * (c * u j)))) =
        fun j => c ^ 3 * (tanh3 (Real.tanh (alpha * x j)) * ((alpha * u j) * (alpha * u j) * (alpha * u j))) := by funext j; ring
    rw [this, weightedSum_mul']; ring

end

/-! ## the same model with another time step -/

/-- The same state with `dt` set to `h`. -/
def Activity.withDt {F : Type} (s : Activity A F G) (h : F) : Activity A F G := { s with p := { s.p with dt := h } }

theorem Activity.updateNetwork_dt {F : Type} [Field F] [LinearOrder F] [ActiveAgent A F] (o : MathOps F) (pick : List (Nat × F) → Nat) (r : Rng G F)
    (s : Activity A F G) (h : F) :
    Activity.updateNetwork o pick r (s.withDt h) = (Activity.updateNetwork o pick r s).map (fun u => u.withDt h) := by
  unfold Activity.updateNetwork
  have e : (s.withDt h).p.meanWeights = s.p.meanWeights := rfl
  rw [e]
  split
  · unfold Activity.updateProbabilistic
    have e1 : (fun i (t : Contacting A F G) => Activity.activate o pick r (s.withDt h).p i t) = fun i t => Activity.activate o pick r s.p i t := rfl
    have e2 : (s.withDt h).network = s.network := rfl
    have e3 : (s.withDt h).gen = s.gen := rfl
    have e4 : (s.withDt h).p.reciprocity = s.p.reciprocity := rfl
    simp only [e1, e2, e3, e4]
    generalize loop s.network.nAgents _ _ = R
    cases R with
    | error e => rfl
    | ok t =>
      simp only [Res.bind_ok]
      generalize loop s.network.nAgents _ _ = R
      cases R with
      | error e => rfl
      | ok t =>
        simp only [Res.bind_ok]
        generalize t.1.toggle = R
        cases R with
        | error e => rfl
        | ok N => rfl
  · unfold Activity.updateMean
    have e1 : ∀ l : List A, (fun i (P : List (List F)) => Activity.contactProbs o (s.withDt h).p l i P) = fun i P => Activity.contactProbs o s.p l i P :=
      fun _ => rfl
    have e2 : (s.withDt h).network = s.network := rfl
    have e3 : (s.withDt h).contactProb = s.contactProb := rfl
    have e4 : (s.withDt h).p.reciprocity = s.p.reciprocity := rfl
    simp only [e1, e2, e3, e4]
    generalize loop s.network.nAgents _ _ = R
    cases R with
    | error e => rfl
    | ok t =>
      simp only [Res.bind_ok]
      generalize loop s.network.nAgents _ _ = R
      cases R with
      | error e => rfl
      | ok t =>
        simp only [Res.bind_ok]
        generalize loop s.network.nAgents _ _ = R
        cases R with
        | error e => rfl
        | ok N => rfl

section
variable {F : Type} [Field F] [LinearOrder F] [ActiveAgent A F] [LawfulActiveAgent A F]

/-- The time step has no influence on the edges and weights that an iteration leads to. -/
theorem C77_same_network {o : MathOps F} {pick : List (Nat × F) → Nat} {r : Rng G F} {s u t : Activity A F G} {h : F}
    (hu : Activity.iteration o pick r s = .ok u) (ht : Activity.iteration o pick r (s.withDt h) = .ok t) :
    t.network.neighbours = u.network.neighbours ∧ t.network.weights = u.network.weights ∧ t.network.direction = u.network.direction := by
  unfold Activity.iteration at hu ht
  obtain ⟨u1, hu1, hu⟩ := Res.bind_eq_ok.mp hu
  obtain ⟨u2, -, hu⟩ := Res.bind_eq_ok.mp hu
  obtain ⟨t1, ht1, ht⟩ := Res.bind_eq_ok.mp ht
  obtain ⟨t2, -, ht⟩ := Res.bind_eq_ok.mp ht
  have e := Activity.updateNetwork_dt o pick r { s with counter := s.counter.tick } h
  rw [hu1] at e
  have := ht1.symm.trans e
  have e1 : t1 = u1.withDt h := Except.ok.inj this
  rw [← Except.ok.inj hu, ← Except.ok.inj ht, e1]
  exact ⟨rfl, rfl, rfl⟩

end

theorem rate_congr {B F : Type} [Field F] (tanh : F → F) (K alpha : F) {N : Network A F} {M : Network B F} (h1 : M.neighbours = N.neighbours)
    (h2 : M.weights = N.weights) (m : Nat → F) : rate tanh K alpha M m = rate tanh K alpha N m := by
  funext x i
  unfold rate weightedSum row
  rw [h1, h2]

section
variable [ActiveAgent A ℝ] [LawfulActiveAgent A ℝ]

/-- What an iteration with time step `h` does to an agent that is not a bot. -/
theorem Activity.step_dt {o : MathOps ℝ} (ho : o.tanh = Real.tanh) {pick : List (Nat × ℝ) → Nat} {r : Rng G ℝ} {s u t : Activity A ℝ G} {h : ℝ}
    (hu : Activity.iteration o pick r s = .ok u) (hw : WF u.network) (ht : Activity.iteration o pick r (s.withDt h) = .ok t) {i : Nat}
    (hi : s.p.nBots ≤ i) (hi' : i < s.network.agents.length) :
    attr ActiveAgent.opinion t.network.agents i =
      Spec.rk4 (rate Real.tanh s.p.K s.p.alpha u.network (attr ActiveAgent.reluctance s.network.agents)) h
        (attr ActiveAgent.opinion s.network.agents) i := by
  obtain ⟨h1, h2, h3⟩ := C77_same_network hu ht
  have hl1 := (Activity.iteration_frame hu).1.traits.length
  have hl2 := (Activity.iteration_frame ht).1.traits.length
  have hlen : t.network.agents.length = u.network.agents.length := by rw [hl1, hl2]; rfl
  have hw' : WF t.network := by
    refine ⟨?_, ?_, ?_, ?_⟩
    · rw [h1, hlen]; exact hw.rows
    · rw [h2, hlen]; exact hw.wrows
    · rw [h1, h2]; exact hw.lengths
    · rw [h1, hlen]; exact hw.range
  have := C47_rk4 ht hw' (i := i) hi hi'
  rw [this, ho]
  exact congrFun (congrFun (congrFun (congrArg Spec.rk4 (rate_congr _ _ _ h1 h2 _)) _) _) _

theorem Activity.rows_lt {o : MathOps ℝ} {pick : List (Nat × ℝ) → Nat} {r : Rng G ℝ} {s u : Activity A ℝ G}
    (hu : Activity.iteration o pick r s = .ok u) (hw : WF u.network) :
    ∀ i, i < s.network.agents.length → ∀ e ∈ row u.network i, e.1 < s.network.agents.length := by
  intro i _ e he
  have := NetLemmas.row_lt hw he
  rw [(Activity.iteration_frame hu).1.traits.length] at this
  exact this

/-- C77: let `γ` be the exact solution of `dx_i/dt = -x_i + (K/m_i) Σ_j w_ij tanh(α x_j)` that starts at the opinions before the iteration, with the weights `w`
of the updated network (which are the same for all time steps, `C77_same_network`). Without bots, the opinions after an iteration with time step `h`
differ from `γ( h )` by at most `C |h|⁵`, for all `h` that are small enough. -/
theorem C77_accuracy {o : MathOps ℝ} (ho : o.tanh = Real.tanh) {pick : List (Nat × ℝ) → Nat} {r : Rng G ℝ} {s u : Activity A ℝ G}
    (hu : Activity.iteration o pick r s = .ok u) (hw : WF u.network) (hb : s.p.nBots = 0) {γ : ℝ → Nat → ℝ}
    (hγ : SolvesNear (rate Real.tanh s.p.K s.p.alpha u.network (attr ActiveAgent.reluctance s.network.agents)) s.network.agents.length
      (attr ActiveAgent.opinion s.network.agents) γ) {i : Nat} (hi : i < s.network.agents.length) :
    ∃ C ε : ℝ, 0 < ε ∧ ∀ h, |h| < ε → ∀ t, Activity.iteration o pick r (s.withDt h) = .ok t →
      |attr ActiveAgent.opinion t.network.agents i - γ h i| ≤ C * |h| ^ 5 := by
  have E := rate_expands s.p.K s.p.alpha u.network (attr ActiveAgent.reluctance s.network.agents) (attr ActiveAgent.opinion s.network.agents)
    (Activity.rows_lt hu hw)
  have := E.rk4_order hγ.start hγ.deriv hi
  unfold Near at this
  obtain ⟨C, hC⟩ := this.bound
  obtain ⟨ε, hε, hball⟩ := Metric.eventually_nhds_iff.mp hC
  refine ⟨C, ε, hε, fun h hh t ht => ?_⟩
  rw [Activity.step_dt ho hu hw ht (by omega) hi]
  have := hball (y := h) (by rw [Real.dist_eq, sub_zero]; exact hh)
  rw [norm_pow, Real.norm_eq_abs, Real.norm_eq_abs] at this
  exact this

end

/-! ## bots -/

theorem Expands.held {f : (Nat → ℝ) → Nat → ℝ} {n : Nat} {x : Nat → ℝ} {J : (Nat → ℝ) → Nat → ℝ} {H : (Nat → ℝ) → (Nat → ℝ) → Nat → ℝ}
    {T : (Nat → ℝ) → (Nat → ℝ) → (Nat → ℝ) → Nat → ℝ} (E : Expands f n x J H T) (b : Nat) :
    Expands (heldFixed b f) n x (fun u i => if i < b then 0 else J u i) (fun u v i => if i < b then 0 else H u v i)
      (fun u v w i => if i < b then 0 else T u v w i) where
  third y y1 y2 y3 hy i hi := by
    unfold heldFixed
    by_cases h : i < b
    · simp only [if_pos h]
      exact Near.of_eq fun h => by ring
    · simp only [if_neg h]
      exact E.third y y1 y2 y3 hy i hi
  lipschitz k y z h i hi := by
    unfold heldFixed
    by_cases h' : i < b
    · simp only [if_pos h']; exact Near.refl _ _
    · simp only [if_neg h']; exact E.lipschitz k y z h i hi
  ext y z h i hi := by
    unfold heldFixed
    split
    · rfl
    · exact E.ext y z h i hi
  J_add u v i := by split <;> simp [E.J_add]
  J_mul c u i := by split <;> simp [E.J_mul]
  H_mul c d u v i := by split <;> simp [E.H_mul]
  T_mul c u i := by split <;> simp [E.T_mul]

section
variable [ActiveAgent A ℝ] [LawfulActiveAgent A ℝ]

/-- How much the drift of the bots during one step of size `h` contributes to the error of agent `i`, divided by `h²/2`:
`(K/m_i) Σ_{bots j} w_ij α tanh'(α x_j) dx_j/dt`, where `dx_j/dt` is the velocity that bot `j` would have if it were an ordinary agent. -/
noncomputable def botDrift (K alpha : ℝ) (N : Network A ℝ) (m : Nat → ℝ) (b : Nat) (x : Nat → ℝ) (i : Nat) : ℝ :=
  K / m i * weightedSum N (fun j => if j < b then alpha * (1 / Real.cosh (alpha * x j) ^ 2) * rate Real.tanh K alpha N m x j else 0) i

/-- C77, with bots: let `γ` be the exact solution with the opinions of the bots held fixed. The opinions of the other agents after an iteration with time step
`h` are `γ( h ) + botDrift h²/2 + O( h³ )`: the bots are only put back after the step, and move during its stages. -/
theorem C77_bots {o : MathOps ℝ} (ho : o.tanh = Real.tanh) {pick : List (Nat × ℝ) → Nat} {r : Rng G ℝ} {s u : Activity A ℝ G}
    (hu : Activity.iteration o pick r s = .ok u) (hw : WF u.network) {γ : ℝ → Nat → ℝ}
    (hγ : SolvesNear (heldFixed s.p.nBots (rate Real.tanh s.p.K s.p.alpha u.network (attr ActiveAgent.reluctance s.network.agents)))
      s.network.agents.length (attr ActiveAgent.opinion s.network.agents) γ) {i : Nat} (hi : s.p.nBots ≤ i) (hi' : i < s.network.agents.length) :
    ∃ C ε : ℝ, 0 < ε ∧ ∀ h, |h| < ε → ∀ t, Activity.iteration o pick r (s.withDt h) = .ok t →
      |attr ActiveAgent.opinion t.network.agents i - (γ h i + botDrift s.p.K s.p.alpha u.network (attr ActiveAgent.reluctance s.network.agents) s.p.nBots
        (attr ActiveAgent.opinion s.network.agents) i * h ^ 2 / 2)| ≤ C * |h| ^ 3 := by
  set K := s.p.K
  set alpha := s.p.alpha
  set m := attr ActiveAgent.reluctance s.network.agents
  set x := attr ActiveAgent.opinion s.network.agents
  set b := s.p.nBots
  have E := rate_expands K alpha u.network m x (Activity.rows_lt hu hw)
  have h1 := (E.rk4 i hi').weaken (l := 3) (by norm_num)
  have h2 := (E.held b).solution hγ.start hγ.deriv i hi'
  have h2' := h2.weaken (l := 3) (by norm_num)
  set f := rate Real.tanh K alpha u.network m with hf
  set J := rateJ K alpha u.network m x with hJ
  have d : botDrift K alpha u.network m b x i = J (f x) i - J (heldFixed b f x) i := by
    have e : J (f x) i = J (fun j => heldFixed b f x j + (f x j - heldFixed b f x j)) i := by congr 1; funext j; ring
    rw [e, E.J_add, add_sub_cancel_left]
    rw [hJ]
    unfold botDrift rateJ
    have e0 : f x i - heldFixed b f x i = 0 := by unfold heldFixed; rw [if_neg (by omega)]; ring
    beta_reduce
    rw [e0, neg_zero, zero_add]
    congr 2
    funext j
    unfold heldFixed
    split
    · rw [← tanh1_eq]; ring
    · rw [sub_self]; ring
  have tr : ∀ c0 c1 c2 c3 c4 : ℝ, Near 3 (fun h : ℝ => c0 + c1 * h + c2 / 2 * h ^ 2 + c3 * h ^ 3 + c4 * h ^ 4) (fun h => c0 + c1 * h + c2 / 2 * h ^ 2) := by
    intro c0 c1 c2 c3 c4
    refine ((Near.drop (k := 3) (c := fun h => c3 + c4 * h) (bounded_of_continuous (by fun_prop))).add
      (Near.refl 3 fun h => c0 + c1 * h + c2 / 2 * h ^ 2)).congr (fun h => ?_) (fun h => ?_) <;> ring
  have g1 := h1.trans (tr _ _ _ _ _)
  have g2 := h2'.trans (tr _ _ _ _ _)
  have e1 : heldFixed b f x i = f x i := by unfold heldFixed; rw [if_neg (by omega)]
  have g3 : Near 3 (fun h => Spec.rk4 f h x i) (fun h => γ h i + botDrift K alpha u.network m b x i * h ^ 2 / 2) := by
    refine g1.trans (Near.symm ?_)
    refine (g2.add (Near.refl 3 fun h => botDrift K alpha u.network m b x i * h ^ 2 / 2)).congr (fun h => rfl) (fun h => ?_)
    rw [e1, d, if_neg (by omega)]
    ring
  unfold Near at g3
  obtain ⟨C, hC⟩ := g3.bound
  obtain ⟨ε, hε, hball⟩ := Metric.eventually_nhds_iff.mp hC
  refine ⟨C, ε, hε, fun h hh t ht => ?_⟩
  rw [Activity.step_dt ho hu hw ht hi hi']
  have := hball (y := h) (by rw [Real.dist_eq, sub_zero]; exact hh)
  rw [norm_pow, Real.norm_eq_abs, Real.norm_eq_abs] at this
  exact this

end

/-- C77, with bots: if the drift does not vanish, then the error is of second order and no better: it is not bounded by any multiple of `|h|³`. -/
theorem C77_bots_sharp [ActiveAgent A ℝ] [LawfulActiveAgent A ℝ] {o : MathOps ℝ} (ho : o.tanh = Real.tanh) {pick : List (Nat × ℝ) → Nat} {r : Rng G ℝ}
    {s u : Activity A ℝ G}
    (hu : Activity.iteration o pick r s = .ok u) (hw : WF u.network) {γ : ℝ → Nat → ℝ}
    (hγ : SolvesNear (heldFixed s.p.nBots (rate Real.tanh s.p.K s.p.alpha u.network (attr ActiveAgent.reluctance s.network.agents)))
      s.network.agents.length (attr ActiveAgent.opinion s.network.agents) γ) {i : Nat} (hi : s.p.nBots ≤ i) (hi' : i < s.network.agents.length)
    (hd : botDrift s.p.K s.p.alpha u.network (attr ActiveAgent.reluctance s.network.agents) s.p.nBots (attr ActiveAgent.opinion s.network.agents) i ≠ 0)
    (hok : ∀ h, ∃ t, Activity.iteration o pick r (s.withDt h) = .ok t) :
    ¬ ∃ C ε : ℝ, 0 < ε ∧ ∀ h, |h| < ε → ∀ t, Activity.iteration o pick r (s.withDt h) = .ok t →
      |attr ActiveAgent.opinion t.network.agents i - γ h i| ≤ C * |h| ^ 3 := by
  rintro ⟨C, ε, hε, hC⟩
  obtain ⟨C', ε', hε', hC'⟩ := C77_bots ho hu hw hγ hi hi'
  set D := botDrift s.p.K s.p.alpha u.network (attr ActiveAgent.reluctance s.network.agents) s.p.nBots (attr ActiveAgent.opinion s.network.agents) i
  have key : ∀ h : ℝ, 0 < h → h < ε → h < ε' → |D| ≤ 2 * (C + C') * h := by
    intro h h0 h1 h2
    obtain ⟨t, ht⟩ := hok h
    have a1 := hC h (by rw [abs_of_pos h0]; exact h1) t ht
    have a2 := hC' h (by rw [abs_of_pos h0]; exact h2) t ht
    rw [abs_of_pos h0] at a1 a2
    have a3 : |D * h ^ 2 / 2| ≤ C * h ^ 3 + C' * h ^ 3 := by
      calc |D * h ^ 2 / 2| = |(attr ActiveAgent.opinion t.network.agents i - γ h i) -
            (attr ActiveAgent.opinion t.network.agents i - (γ h i + D * h ^ 2 / 2))| := by congr 1; ring
        _ ≤ _ := (abs_sub _ _).trans (add_le_add a1 a2)
    rw [abs_div, abs_mul, abs_of_pos (pow_pos h0 2), abs_of_pos (show (0 : ℝ) < 2 by norm_num)] at a3
    have h2 : 0 < h ^ 2 := pow_pos h0 2
    have : |D| * h ^ 2 ≤ (2 * (C + C') * h) * h ^ 2 := by nlinarith
    exact le_of_mul_le_mul_right this h2
  have hD : 0 < |D| := abs_pos.mpr hd
  set B := |2 * (C + C')| + 1 with hB
  have hB0 : 0 < B := by positivity
  set h := min (min (ε / 2) (ε' / 2)) (|D| / (2 * B)) with hh
  have h0 : 0 < h := by rw [hh]; positivity
  have l1 : h ≤ ε / 2 := (min_le_left _ _).trans (min_le_left _ _)
  have l2 : h ≤ ε' / 2 := (min_le_left _ _).trans (min_le_right _ _)
  have l3 : h ≤ |D| / (2 * B) := min_le_right _ _
  have := key h h0 (by linarith) (by linarith)
  have l4 : 2 * (C + C') * h ≤ B * h := by
    apply mul_le_mul_of_nonneg_right _ h0.le
    have := le_abs_self (2 * (C + C')); linarith
  have l5 : B * h ≤ |D| / 2 := by
    calc B * h ≤ B * (|D| / (2 * B)) := mul_le_mul_of_nonneg_left l3 hB0.le
      _ = |D| / 2 := by field_simp
  linarith

/-! ## the exact solutions exist -/

section
/-- A vector with `n` components as a function on all indices. -/
def extend (n : Nat) (y : Fin n → ℝ) (j : Nat) : ℝ := if h : j < n then y ⟨j, h⟩ else 0

theorem extend_lt {n : Nat} (y : Fin n → ℝ) {j : Nat} (h : j < n) : extend n y j = y ⟨j, h⟩ := dif_pos h

theorem contDiff_extend (n j : Nat) : ContDiff ℝ 1 (fun y : Fin n → ℝ => extend n y j) := by
  unfold extend
  by_cases h : j < n
  · simp only [dif_pos h]; fun_prop
  · simp only [dif_neg h]; fun_prop

theorem contDiff_tanh : ContDiff ℝ 1 Real.tanh := by
  have e : Real.tanh = fun y => Real.sinh y / Real.cosh y := funext Real.tanh_eq_sinh_div_cosh
  rw [e]
  exact Real.contDiff_sinh.div Real.contDiff_cosh fun y => (Real.cosh_pos y).ne'

theorem contDiff_rate (K alpha : ℝ) (N : Network A ℝ) (m : Nat → ℝ) (n i : Nat) :
    ContDiff ℝ 1 (fun y : Fin n → ℝ => rate Real.tanh K alpha N m (extend n y) i) := by
  unfold rate weightedSum
  refine (contDiff_extend n i).neg.add (contDiff_const.mul ?_)
  generalize row N i = l
  induction l with
  | nil => simp only [List.map_nil, List.sum_nil]; exact contDiff_const
  | cons e l ih =>
    simp only [List.map_cons, List.sum_cons]
    exact (contDiff_const.mul (contDiff_tanh.comp (contDiff_const.mul (contDiff_extend n e.1)))).add ih

theorem solvesNear_exists {f : (Nat → ℝ) → Nat → ℝ} {n : Nat} (hf : ∀ i, i < n → ContDiff ℝ 1 (fun y : Fin n → ℝ => f (extend n y) i)) (x : Nat → ℝ) :
    ∃ γ, SolvesNear f n x γ := by
  have hF : ContDiff ℝ 1 (fun (y : Fin n → ℝ) (i : Fin n) => f (extend n y) i) := contDiff_pi.mpr fun i => hf i i.2
  obtain ⟨α, h0, ε, hε, hα⟩ := ContDiffAt.exists_forall_mem_closedBall_exists_eq_forall_mem_Ioo_hasDerivAt₀ (x₀ := fun i : Fin n => x i) hF.contDiffAt 0
  refine ⟨fun t => extend n (α t), fun i hi => ?_, ?_⟩
  · rw [h0, extend_lt _ hi]
  · filter_upwards [Ioo_mem_nhds (show (0 : ℝ) - ε < 0 by linarith) (show (0 : ℝ) < 0 + ε by linarith)] with t ht i hi
    have := hasDerivAt_pi.mp (hα t ht) ⟨i, hi⟩
    simp only [extend_lt _ hi]
    exact this

/-- C77: the exact solutions that `C77_accuracy` and `C77_bots` compare with exist, for every network and all opinions. -/
theorem C77_solution_exists (K alpha : ℝ) (N : Network A ℝ) (m : Nat → ℝ) (n b : Nat) (x : Nat → ℝ) :
    (∃ γ, SolvesNear (rate Real.tanh K alpha N m) n x γ) ∧ ∃ γ, SolvesNear (heldFixed b (rate Real.tanh K alpha N m)) n x γ := by
  refine ⟨solvesNear_exists (fun i _ => contDiff_rate K alpha N m n i) x, solvesNear_exists (fun i _ => ?_) x⟩
  unfold heldFixed
  by_cases h : i < b
  · simp only [if_pos h]; exact contDiff_const
  · simp only [if_neg h]; exact contDiff_rate K alpha N m n i

theorem C78_solution_exists (K alpha : ℝ) (N : Network A ℝ) (m : Nat → ℝ) (n : Nat) (c : ℝ) (x v : Nat → ℝ) :
    ∃ γ ν, SolvesNear2 (rate Real.tanh K alpha N m) c n x v γ ν := by
  have hF : ContDiff ℝ 1 (fun (y : (Fin n → ℝ) × (Fin n → ℝ)) => ((y.2, fun i : Fin n => rate Real.tanh K alpha N m (extend n y.1) i - c * y.2 i) :
      (Fin n → ℝ) × (Fin n → ℝ))) := by
    refine contDiff_snd.prodMk (contDiff_pi.mpr fun i => ?_)
    refine ((contDiff_rate K alpha N m n i).comp contDiff_fst).sub (contDiff_const.mul ?_)
    fun_prop
  obtain ⟨α, h0, ε, hε, hα⟩ := ContDiffAt.exists_forall_mem_closedBall_exists_eq_forall_mem_Ioo_hasDerivAt₀
    (x₀ := ((fun i : Fin n => x i, fun i : Fin n => v i) : (Fin n → ℝ) × (Fin n → ℝ))) hF.contDiffAt 0
  refine ⟨fun t => extend n (α t).1, fun t => extend n (α t).2, fun i hi => ?_, ?_⟩
  · rw [h0, extend_lt _ hi, extend_lt _ hi]; exact ⟨rfl, rfl⟩
  · filter_upwards [Ioo_mem_nhds (show (0 : ℝ) - ε < 0 by linarith) (show (0 : ℝ) < 0 + ε by linarith)] with t ht i hi
    have h1 := hasDerivAt_pi.mp (hα t ht).fst ⟨i, hi⟩
    have h2 := hasDerivAt_pi.mp (hα t ht).snd ⟨i, hi⟩
    simp only [extend_lt _ hi]
    exact ⟨h1, h2⟩

end

/-! ## C77: a concrete case with a bot -/

section
/-- A bot (agent 0) with opinion 1 that contacts everybody, and an agent with opinion 0 that is never activated. -/
noncomputable def botPair : Activity (ActivityAgent ℝ) ℝ Unit where
  counter := ⟨none, 0⟩
  p := { maxIterations := none, dt := 1 / 100, m := 2, eps := 1 / 100, gamma := 2, alpha := 1, homophily := 1, reciprocity := 0, K := 1,
         meanActivities := false, meanWeights := false, nBots := 1, botM := [2], botActivity := [1], botOpinion := [1], botHomophily := [1],
         useReluctances := false, reluctanceMean := 1, reluctanceSigma := 1, reluctanceEps := 1, covarianceFactor := 0 }
  network := ⟨[⟨1, 1, 1⟩, ⟨0, 0, 1⟩], [[], []], [[], []], .incoming⟩
  contactProb := [[], []]
  gen := ()

/-- A generator that always returns 1/2. -/
noncomputable def halfRng : Rng Unit ℝ := ⟨fun _ => (1 / 2, ()), fun a _ _ => (a, ()), fun _ => (0, ())⟩

theorem firstPick_valid : Reservoir.Pick.Valid (fun _ : List (Nat × ℝ) => 0) := ⟨fun _ hl => List.length_pos_iff.mpr hl⟩

theorem botPair_ready (h : ℝ) : (botPair.withDt h).Ready where
  wf := by
    refine ⟨rfl, rfl, ?_, ?_⟩
    · intro i hi hi'
      have : i < 2 := hi
      rcases i with _ | _ | i
      · rfl
      · rfl
      · omega
    · intro row hrow j hj
      have : row = [] := by simpa [botPair, Activity.withDt] using hrow
      rw [this] at hj
      exact absurd hj List.not_mem_nil
  incoming := rfl
  fit := by
    have hc : ∀ i, i < 2 → contactsOf (botPair.withDt h).p i = 2 := by
      intro i hi
      rcases i with _ | _ | i
      · rfl
      · rfl
      · omega
    have hn : (botPair.withDt h).network.agents.length = 2 := rfl
    refine ⟨by rw [hn]; norm_num, Nat.le_succ 1, Nat.le_refl 1, Nat.le_refl 1, ?_, ?_⟩
    · intro i hi; rw [hc i hi]; norm_num
    · intro i hi; rw [hc i hi]; norm_num [hn]
  botOpinion := Nat.le_refl 1
  probabilistic := rfl

/-- The only incoming edge of agent 1, and of the bot, comes from the bot. -/
theorem botPair_rows {u : Activity (ActivityAgent ℝ) ℝ Unit} (hu : Activity.iteration realOps (fun _ => 0) halfRng botPair = .ok u) :
    WF u.network ∧ row u.network 0 = [(0, 1)] ∧ row u.network 1 = [(0, 1)] := by
  have hR : botPair.Ready := botPair_ready (1 / 100)
  obtain ⟨gs, buf, contacts, u', hu', hF, -⟩ := C43_activity (o := realOps) firstPick_valid halfRng hR
  obtain rfl := Except.ok.inj (hu.symm.trans hu')
  have hlen : botPair.network.agents.length = 2 := rfl
  have hc0 : 0 ∈ contacts 0 ∧ 1 ∈ contacts 0 := by
    have ha : Activated halfRng (botPair.network.agents[0]'(by rw [hlen]; norm_num)) (gs 0) := by
      show (1 / 2 : ℝ) < 1
      norm_num
    have hs := (hF.phase.active 0 (by rw [hlen]; norm_num) ha).2
    have hk : (contactsOf botPair.p 0).toNat = 2 := rfl
    rw [hk, hlen] at hs
    obtain ⟨b, g', e1, e2, e3, e4⟩ := Reservoir.sample_spec (o := realOps.toOps) (r := halfRng)
      (weight := Activity.weight realOps (homophilyFor botPair.p 0) botPair.network.agents 0) firstPick_valid (k := 2) (n := 2) (by norm_num) le_rfl (buf 0)
      (halfRng.unit (gs 0)).2
    have := hs.symm.trans e1
    have hb : contacts 0 = b := congrArg Prod.fst (Except.ok.inj this)
    rw [hb]
    have hsub : b ⊆ [0, 1] := by
      intro j hj
      have := e4 j hj
      have : j = 0 ∨ j = 1 := by omega
      rcases this with rfl | rfl <;> simp
    have hp := (e3.subperm hsub).perm_of_length_le (by rw [e2]; simp)
    exact ⟨hp.mem_iff.mpr (by simp), hp.mem_iff.mpr (by simp)⟩
  have hc1 : contacts 1 = [] := by
    have ha : ¬ Activated halfRng (botPair.network.agents[1]'(by rw [hlen]; norm_num)) (gs 1) := by
      show ¬ (1 / 2 : ℝ) < 0
      norm_num
    exact (hF.phase.passive 1 (by rw [hlen]; norm_num) ha).2.1
  have hkeep : ∀ (l : List (Nat × Nat)) g, (keep halfRng botPair.p.reciprocity l g).1 = [] := by
    intro l
    induction l with
    | nil => intro g; rfl
    | cons e l ih =>
      intro g
      unfold keep
      have : ¬ (halfRng.unit g).1 < botPair.p.reciprocity := by show ¬ (1 / 2 : ℝ) < 0; norm_num
      dsimp only
      rw [if_neg this]
      exact ih _
  have hrow : ∀ j, j < 2 → row u.network j = [(0, 1)] := by
    intro j hj
    have m0 : 0 ∈ (row u.network j).map (·.1) := by
      rw [hF.edges 0 j (by rw [hlen]; norm_num) (by rw [hlen]; exact hj)]
      left
      have : j = 0 ∨ j = 1 := by omega
      rcases this with rfl | rfl
      · exact hc0.1
      · exact hc0.2
    have m1 : 1 ∉ (row u.network j).map (·.1) := by
      rw [hF.edges 1 j (by rw [hlen]; norm_num) (by rw [hlen]; exact hj), hc1, hkeep]
      simp
    have hsub : (row u.network j).map (·.1) ⊆ [0] := by
      intro i hi
      obtain ⟨e, he, rfl⟩ := List.mem_map.mp hi
      have hlt := NetLemmas.row_lt hF.wf he
      rw [(Activity.iteration_frame hu).1.traits.length, hlen] at hlt
      have : e.1 = 0 ∨ e.1 = 1 := by omega
      rcases this with h | h
      · rw [h]; simp
      · exact absurd (h ▸ hi) m1
    have hone : (row u.network j).map (·.1) = [0] := by
      have hl := ((hF.nodup j).subperm hsub).length_le
      rcases hr : (row u.network j).map (·.1) with _ | ⟨a, _ | ⟨b, l⟩⟩
      · rw [hr] at m0; exact absurd m0 List.not_mem_nil
      · rw [hr] at m0; simp at m0; rw [hr, ← m0]
      · rw [hr] at hl; simp at hl
    rcases hr : row u.network j with _ | ⟨a, _ | ⟨b, l⟩⟩
    · rw [hr] at hone; simp at hone
    · rw [hr] at hone
      have h1 : a.1 = 0 := by simpa using hone
      have h2 : a.2 = 1 := hF.ones j a (by rw [hr]; simp)
      rw [← h1, ← h2]
    · rw [hr] at hone; simp at hone
  exact ⟨hF.wf, hrow 0 (by norm_num), hrow 1 (by norm_num)⟩

/-- C77 refuted in the presence of bots (with the bots' opinions held fixed in the exact dynamics): the error is not even of third order, let alone fifth. -/
theorem C77_bots_example {γ : ℝ → Nat → ℝ} {u : Activity (ActivityAgent ℝ) ℝ Unit}
    (hu : Activity.iteration realOps (fun _ => 0) halfRng botPair = .ok u)
    (hγ : SolvesNear (heldFixed 1 (rate Real.tanh 1 1 u.network (attr ActiveAgent.reluctance botPair.network.agents))) 2
      (attr ActiveAgent.opinion botPair.network.agents) γ) :
    ¬ ∃ C ε : ℝ, 0 < ε ∧ ∀ h, |h| < ε → ∀ t, Activity.iteration realOps (fun _ => 0) halfRng (botPair.withDt h) = .ok t →
      |attr ActiveAgent.opinion t.network.agents 1 - γ h 1| ≤ C * |h| ^ 3 := by
  obtain ⟨hw, r0, r1⟩ := botPair_rows hu
  refine C77_bots_sharp (o := realOps) rfl hu hw hγ (Nat.le_refl 1) (show 1 < 2 by norm_num) ?_ ?_
  · have x0 : attr ActiveAgent.opinion botPair.network.agents 0 = 1 := rfl
    have m0 : attr ActiveAgent.reluctance botPair.network.agents 0 = 1 := rfl
    have m1 : attr ActiveAgent.reluctance botPair.network.agents 1 = 1 := rfl
    have hb : botPair.p.nBots = 1 := rfl
    have hK : botPair.p.K = 1 := rfl
    have ha : botPair.p.alpha = 1 := rfl
    unfold botDrift rate weightedSum
    rw [hb, hK, ha, r1]
    simp only [List.map_cons, List.map_nil, List.sum_cons, List.sum_nil]
    rw [if_pos Nat.zero_lt_one, r0]
    simp only [List.map_cons, List.map_nil, List.sum_cons, List.sum_nil, x0, m0, m1]
    have h1 : Real.tanh (1 * 1) < 1 := (abs_lt.mp (Real.abs_tanh_lt_one _)).2
    have h2 := Real.cosh_pos (1 * 1)
    have h3 : 0 < 1 / Real.cosh (1 * 1) ^ 2 := by positivity
    have : 1 / 1 * (1 * (1 * (1 / Real.cosh (1 * 1) ^ 2) * (-1 + 1 / 1 * (1 * Real.tanh (1 * 1) + 0))) + 0) < 0 := by
      generalize 1 / Real.cosh (1 * 1) ^ 2 = c at *
      generalize Real.tanh (1 * 1) = d at *
      have := mul_pos h3 (show 0 < 1 - d by linarith)
      linarith
    exact this.ne
  · intro h
    obtain ⟨_, _, _, t, ht, -⟩ := C43_activity (o := realOps) firstPick_valid halfRng (botPair_ready h)
    exact ⟨t, ht⟩

example : ∃ u γ, Activity.iteration realOps (fun _ => 0) halfRng botPair = .ok u ∧
    SolvesNear (heldFixed 1 (rate Real.tanh 1 1 u.network (attr ActiveAgent.reluctance botPair.network.agents))) 2
      (attr ActiveAgent.opinion botPair.network.agents) γ := by
  obtain ⟨_, _, _, u, hu, -⟩ := C43_activity (o := realOps) firstPick_valid halfRng (s := botPair) (botPair_ready (1 / 100))
  obtain ⟨γ, hγ⟩ := (C77_solution_exists 1 1 u.network (attr ActiveAgent.reluctance botPair.network.agents) 2 1
    (attr ActiveAgent.opinion botPair.network.agents)).2
  exact ⟨u, γ, hu, hγ⟩

end

/-! ## C78: the inertial model -/

namespace Expands
variable {f : (Nat → ℝ) → Nat → ℝ} {n : Nat} {x : Nat → ℝ} {J : (Nat → ℝ) → Nat → ℝ} {H : (Nat → ℝ) → (Nat → ℝ) → Nat → ℝ}
  {T : (Nat → ℝ) → (Nat → ℝ) → (Nat → ℝ) → Nat → ℝ}

/-- To first order. -/
theorem first (E : Expands f n x J H T) {y : ℝ → Nat → ℝ} {y1 : Nat → ℝ} (hy : ∀ j, j < n → Near 2 (fun h => y h j) (fun h => x j + y1 j * h)) {i : Nat}
    (hi : i < n) : Near 2 (fun h => f (y h) i) (fun h => f x i + J y1 i * h) := by
  refine (E.lipschitz 2 y (fun h j => x j + y1 j * h + 0 * h ^ 2 + 0 * h ^ 3) (fun j hj => (hy j hj).congr (fun _ => rfl) (fun h => by ring)) i hi).trans ?_
  refine ((E.third (fun h j => x j + y1 j * h + 0 * h ^ 2 + 0 * h ^ 3) y1 (fun _ => 0) (fun _ => 0) (fun j _ => Near.refl 4 _) i hi).weaken (l := 2)
    (by norm_num)).trans ?_
  refine ((Near.drop (k := 2) (c := fun h => (J (fun _ => 0) i + H y1 y1 i / 2) + (J (fun _ => 0) i + H y1 (fun _ => 0) i + T y1 y1 y1 i / 6) * h)
    (bounded_of_continuous (by fun_prop))).add (Near.refl 2 fun h => f x i + J y1 i * h)).congr (fun h => ?_) (fun h => ?_) <;> ring

/-- Expansion of the exact solution of `x'' = f x - c x'`. -/
theorem solution2 (E : Expands f n x J H T) {c : ℝ} {v : Nat → ℝ} {γ ν : ℝ → Nat → ℝ} (hγ : SolvesNear2 f c n x v γ ν) : ∀ i, i < n →
    Near 3 (fun h => γ h i) (fun h => x i + v i * h + (f x i - c * v i) / 2 * h ^ 2) ∧
    Near 3 (fun h => ν h i) (fun h => v i + (f x i - c * v i) * h + (J v i - c * (f x i - c * v i)) / 2 * h ^ 2) := by
  have e1 : ∀ i, i < n → ∀ᶠ t in 𝓝 (0 : ℝ), HasDerivAt (fun t => γ t i) (ν t i) t := fun i hi => hγ.deriv.mono fun t ht => (ht i hi).1
  have e2 : ∀ i, i < n → ∀ᶠ t in 𝓝 (0 : ℝ), HasDerivAt (fun t => ν t i) (f (γ t) i - c * ν t i) t := fun i hi => hγ.deriv.mono fun t ht => (ht i hi).2
  have hpoly : ∀ c0 c1 c2 t : ℝ, HasDerivAt (fun e : ℝ => c0 + c1 * e + c2 / 2 * e ^ 2) (c1 + c2 * t) t := by
    intro c0 c1 c2 t
    have h1 : HasDerivAt (fun e : ℝ => c1 * e) c1 t := by simpa using (hasDerivAt_id' t).const_mul c1
    have h2 := (hasDerivAt_pow 2 t).const_mul (c2 / 2)
    refine ((h1.const_add c0).add h2).congr_deriv ?_
    push_cast
    ring
  have near1 : ∀ {g u : ℝ → ℝ}, (∀ᶠ t in 𝓝 (0 : ℝ), HasDerivAt g (u t) t) → Near 1 g (fun _ => g 0) := by
    intro g u hg
    have hO := hg.self_of_nhds.differentiableAt.isBigO_sub
    unfold Near
    exact hO.congr (fun h => rfl) (fun h => by ring)
  have ν1 : ∀ i, i < n → Near 1 (fun h => ν h i) (fun _ => v i) := fun i hi =>
    (near1 (e2 i hi)).congr (fun _ => rfl) fun _ => (hγ.start i hi).2
  have γ1 : ∀ i, i < n → Near 1 (fun h => γ h i) (fun _ => x i) := fun i hi =>
    (near1 (e1 i hi)).congr (fun _ => rfl) fun _ => (hγ.start i hi).1
  have ν2 : ∀ i, i < n → Near 2 (fun h => ν h i) (fun h => v i + (f x i - c * v i) * h) := by
    intro i hi
    have h1 := (E.lipschitz 1 γ (fun _ => x) γ1 i hi).sub ((ν1 i hi).const_mul c)
    refine (Near.integrate (e2 i hi) (h1.congr (q := fun t => (f x i - c * v i) + 0 * t) (fun _ => rfl) (fun t => by ring)) (hpoly (v i) _ _) ?_).congr
      (fun _ => rfl) (fun h => by ring)
    rw [(hγ.start i hi).2]; ring
  have γ2 : ∀ i, i < n → Near 2 (fun h => γ h i) (fun h => x i + v i * h) := by
    intro i hi
    refine (Near.integrate (e1 i hi) ((ν1 i hi).congr (q := fun t => v i + 0 * t) (fun _ => rfl) (fun t => by ring)) (hpoly (x i) _ _) ?_).congr
      (fun _ => rfl) (fun h => by ring)
    rw [(hγ.start i hi).1]; ring
  intro i hi
  constructor
  · refine Near.integrate (e1 i hi) (ν2 i hi) (hpoly (x i) _ _) ?_
    rw [(hγ.start i hi).1]; ring
  · have h1 := (E.first γ2 hi).sub ((ν2 i hi).const_mul c)
    refine Near.integrate (e2 i hi) (h1.congr (q := fun t => (f x i - c * v i) + (J v i - c * (f x i - c * v i)) * t) (fun _ => rfl) (fun t => by ring))
      (hpoly (v i) _ _) ?_
    rw [(hγ.start i hi).2]; ring

/-- The velocity Verlet step with implicit friction is exact up to terms of third order. -/
theorem verlet_order (E : Expands f n x J H T) {c : ℝ} {v : Nat → ℝ} {γ ν : ℝ → Nat → ℝ} (hγ : SolvesNear2 f c n x v γ ν) {i : Nat} (hi : i < n) :
    ∃ C ε : ℝ, 0 < ε ∧ ∀ h, |h| < ε → -2 < c * h ∧ ∀ x' v', VerletStep f c h n x v x' v' → |x' i - γ h i| ≤ C * |h| ^ 3 ∧ |v' i - ν h i| ≤ C * |h| ^ 3 := by
  obtain ⟨g1, g2⟩ := E.solution2 hγ i hi
  -- the position of the step as a function of `h`
  set X : ℝ → Nat → ℝ := fun h j => x j + v j * h + (f x j - c * v j) * h ^ 2 / 2 with hX
  have hX2 : ∀ j, j < n → Near 2 (fun h => X h j) (fun h => x j + v j * h) := by
    intro j _
    refine ((Near.drop (k := 2) (c := fun _ => (f x j - c * v j) / 2) (bounded_of_continuous (by fun_prop))).add
      (Near.refl 2 fun h => x j + v j * h)).congr (fun h => ?_) (fun h => ?_)
    · rw [hX]; ring
    · ring
  have hfX := E.first hX2 hi
  have p1 : Near 3 (fun h => X h i) (fun h => γ h i) :=
    (Near.of_eq fun h => by rw [hX]; ring).trans g1.symm
  -- `( 1 + c h / 2 ) v'` as a function of `h`
  set W : ℝ → ℝ := fun h => v i + h / 2 * (f x i - c * v i + f (X h) i) with hW
  have hW3 : Near 3 W (fun h => (1 + c * h / 2) * ν h i) := by
    have a1 := (Near.refl 3 fun _ => v i).add (((Near.refl 2 fun _ => f x i - c * v i).add hfX).id_mul.const_mul (1 / 2))
    have a2 : Near 3 W (fun h => v i + 1 / 2 * (h * (f x i - c * v i + (f x i + J v i * h)))) :=
      a1.congr (fun h => by rw [hW]; ring) (fun h => rfl)
    have hb : (fun h : ℝ => 1 + c * h / 2) =O[𝓝 0] (fun _ => (1 : ℝ)) := bounded_of_continuous (by fun_prop)
    have hνb : (fun h => ν h i) =O[𝓝 0] (fun _ => (1 : ℝ)) := g2.bounded (bounded_of_continuous (by fun_prop))
    have a3 := (Near.refl 3 fun h : ℝ => 1 + c * h / 2).mul g2 hνb hb
    refine a2.trans (Near.symm (a3.trans ?_))
    refine ((Near.drop (k := 3) (c := fun _ => c * (J v i - c * (f x i - c * v i)) / 4) (bounded_of_continuous (by fun_prop))).add
      (Near.refl 3 fun h => v i + 1 / 2 * (h * (f x i - c * v i + (f x i + J v i * h))))).congr (fun h => ?_) (fun h => ?_) <;> ring
  unfold Near at p1 hW3
  obtain ⟨C1, hC1⟩ := p1.bound
  obtain ⟨C2, hC2⟩ := hW3.bound
  have hden : ∀ᶠ h in 𝓝 (0 : ℝ), 1 / 2 < 1 + c * h / 2 := by
    have : Tendsto (fun h : ℝ => 1 + c * h / 2) (𝓝 0) (𝓝 (1 + c * 0 / 2)) := by
      have hc : Continuous (fun h : ℝ => 1 + c * h / 2) := by fun_prop
      exact hc.tendsto 0
    refine this.eventually (lt_mem_nhds ?_)
    norm_num
  obtain ⟨ε, hε, hball⟩ := Metric.eventually_nhds_iff.mp ((hC1.and hC2).and hden)
  refine ⟨max C1 (2 * C2), ε, hε, fun h hh => ?_⟩
  obtain ⟨⟨b1, b2⟩, b3⟩ := hball (y := h) (by rw [Real.dist_eq, sub_zero]; exact hh)
  rw [norm_pow, Real.norm_eq_abs, Real.norm_eq_abs] at b1 b2
  have h3 : 0 ≤ |h| ^ 3 := by positivity
  refine ⟨by linarith, fun x' v' hV => ?_⟩
  have ex : x' i = X h i := hV.position i hi
  have efx : f x' i = f (X h) i := E.ext _ _ (fun j hj => hV.position j hj) i hi
  have ev : (1 + c * h / 2) * v' i = W h := by
    have := hV.velocity i hi
    rw [efx] at this
    rw [hW]
    dsimp only
    linear_combination this
  rw [← ev, ← mul_sub, abs_mul, abs_of_pos (by linarith : (0 : ℝ) < 1 + c * h / 2)] at b2
  have n1 : 0 ≤ |v' i - ν h i| := abs_nonneg _
  have c1 : C1 * |h| ^ 3 ≤ max C1 (2 * C2) * |h| ^ 3 := mul_le_mul_of_nonneg_right (le_max_left _ _) h3
  have c2 : 2 * C2 * |h| ^ 3 ≤ max C1 (2 * C2) * |h| ^ 3 := mul_le_mul_of_nonneg_right (le_max_right _ _) h3
  refine ⟨?_, ?_⟩
  · rw [ex]; exact b1.trans c1
  · nlinarith

end Expands

/-! ## C78: accuracy of the inertial model -/

/-- The same state with `dt` set to `h`. -/
def Inertial.withDt {F : Type} (s : Inertial F G) (h : F) : Inertial F G := { s with base := s.base.withDt h }

/-- The time step has no influence on the edges and weights that an iteration leads to. -/
theorem C78_same_network {F : Type} [Field F] [LinearOrder F] {o : MathOps F} {pick : List (Nat × F) → Nat} {r : Rng G F} {s u t : Inertial F G} {h : F}
    (hu : Inertial.iteration o pick r s = .ok u) (ht : Inertial.iteration o pick r (s.withDt h) = .ok t) :
    t.base.network.neighbours = u.base.network.neighbours ∧ t.base.network.weights = u.base.network.weights ∧
      t.base.network.direction = u.base.network.direction := by
  unfold Inertial.iteration at hu ht
  obtain ⟨u1, hu1, hu⟩ := Res.bind_eq_ok.mp hu
  obtain ⟨u2, -, hu⟩ := Res.bind_eq_ok.mp hu
  obtain ⟨t1, ht1, ht⟩ := Res.bind_eq_ok.mp ht
  obtain ⟨t2, -, ht⟩ := Res.bind_eq_ok.mp ht
  have e := Activity.updateNetwork_dt o pick r { s.base with counter := s.base.counter.tick } h
  rw [hu1] at e
  have := ht1.symm.trans e
  have e1 : t1 = u1.withDt h := Except.ok.inj this
  rw [← Except.ok.inj hu, ← Except.ok.inj ht, e1]
  exact ⟨rfl, rfl, rfl⟩

/-- C78: let `γ` with velocity `ν` be the exact solution of `x_i'' = -x_i + (K/m_i) Σ_j w_ij tanh(α x_j) - friction x_i'` that starts at the opinions and velocities
before the iteration, with the weights `w` of the updated network. Without bots, the opinions and the velocities after an iteration with time step `h`
differ from `γ( h )` and `ν( h )` by at most `C |h|³`, for all `h` that are small enough. -/
theorem C78_accuracy {o : MathOps ℝ} (ho : o.tanh = Real.tanh) {pick : List (Nat × ℝ) → Nat} {r : Rng G ℝ} {s u : Inertial ℝ G}
    (hu : Inertial.iteration o pick r s = .ok u) (hw : WF u.base.network) (hb : s.base.p.nBots = 0) {γ ν : ℝ → Nat → ℝ}
    (hγ : SolvesNear2 (rate Real.tanh s.base.p.K s.base.p.alpha u.base.network (attr (·.reluctance) s.base.network.agents)) s.friction
      s.base.network.agents.length (attr (·.opinion) s.base.network.agents) (attr (·.velocity) s.base.network.agents) γ ν)
    {i : Nat} (hi : i < s.base.network.agents.length) :
    ∃ C ε : ℝ, 0 < ε ∧ ∀ h, |h| < ε → ∀ t, Inertial.iteration o pick r (s.withDt h) = .ok t →
      |attr (·.opinion) t.base.network.agents i - γ h i| ≤ C * |h| ^ 3 ∧ |attr (·.velocity) t.base.network.agents i - ν h i| ≤ C * |h| ^ 3 := by
  have hl1 := (Inertial.iteration_frame hu).1.traits.length
  have hr : ∀ i, i < s.base.network.agents.length → ∀ e ∈ row u.base.network i, e.1 < s.base.network.agents.length := by
    intro i _ e he
    have := NetLemmas.row_lt hw he
    rw [hl1] at this
    exact this
  have E := rate_expands s.base.p.K s.base.p.alpha u.base.network (attr (·.reluctance) s.base.network.agents) (attr (·.opinion) s.base.network.agents) hr
  obtain ⟨C, ε, hε, hC⟩ := E.verlet_order hγ hi
  refine ⟨C, ε, hε, fun h hh t ht => ?_⟩
  obtain ⟨hc, hV⟩ := hC h hh
  obtain ⟨h1, h2, h3⟩ := C78_same_network hu ht
  have hl2 := (Inertial.iteration_frame ht).1.traits.length
  have hlen : t.base.network.agents.length = u.base.network.agents.length := by rw [hl1, hl2]; rfl
  have hw' : WF t.base.network := by
    refine ⟨?_, ?_, ?_, ?_⟩
    · rw [h1, hlen]; exact hw.rows
    · rw [h2, hlen]; exact hw.wrows
    · rw [h1, h2]; exact hw.lengths
    · rw [h1, hlen]; exact hw.range
  obtain ⟨x', hx, hxi⟩ := C50_verlet ht hw' hc
  have e := rate_congr Real.tanh s.base.p.K s.base.p.alpha h1 h2 (attr (·.reluctance) s.base.network.agents)
  have hx2 : VerletStep (rate Real.tanh s.base.p.K s.base.p.alpha u.base.network (attr (·.reluctance) s.base.network.agents)) s.friction h
      s.base.network.agents.length (attr (·.opinion) s.base.network.agents) (attr (·.velocity) s.base.network.agents) x'
      (attr (·.velocity) t.base.network.agents) := by
    rw [← e, ← ho]; exact hx
  obtain ⟨a1, a2⟩ := hV x' _ hx2
  refine ⟨?_, a2⟩
  rw [hxi i (by show s.base.p.nBots ≤ i; omega) hi]
  exact a1

/-- Every ready state meets the hypotheses of `C77_accuracy`: the iteration succeeds for every time step, and the exact solution exists. -/
theorem C77_exists [ActiveAgent A ℝ] [LawfulActiveAgent A ℝ] {o : MathOps ℝ} {pick : List (Nat × ℝ) → Nat} (hp : Reservoir.Pick.Valid pick)
    (r : Rng G ℝ) {s : Activity A ℝ G} (hs : s.Ready) :
    ∃ u γ, Activity.iteration o pick r s = .ok u ∧ WF u.network ∧
      SolvesNear (rate Real.tanh s.p.K s.p.alpha u.network (attr ActiveAgent.reluctance s.network.agents)) s.network.agents.length
        (attr ActiveAgent.opinion s.network.agents) γ ∧
      ∀ h, ∃ t, Activity.iteration o pick r (s.withDt h) = .ok t := by
  obtain ⟨_, _, _, u, hu, hF, -⟩ := C43_activity (o := o) hp r hs
  obtain ⟨⟨γ, hγ⟩, -⟩ := C77_solution_exists s.p.K s.p.alpha u.network (attr ActiveAgent.reluctance s.network.agents) s.network.agents.length 0
    (attr ActiveAgent.opinion s.network.agents)
  refine ⟨u, γ, hu, hF.wf, hγ, fun h => ?_⟩
  have hsh : (s.withDt h).Ready := ⟨hs.wf, hs.incoming, ⟨hs.fit.size, hs.fit.bots, hs.fit.botM, hs.fit.botHomophily, hs.fit.nonneg, hs.fit.le⟩,
    hs.botOpinion, hs.probabilistic⟩
  obtain ⟨_, _, _, t, ht, -⟩ := C43_activity (o := o) hp r hsh
  exact ⟨t, ht⟩

/-- Every ready state of the inertial model meets the hypotheses of `C78_accuracy`. -/
theorem C78_exists {o : MathOps ℝ} {pick : List (Nat × ℝ) → Nat} (hp : Reservoir.Pick.Valid pick)
    (r : Rng G ℝ) {s : Inertial ℝ G} (hs : s.base.Ready) :
    ∃ u γ ν, Inertial.iteration o pick r s = .ok u ∧ WF u.base.network ∧
      SolvesNear2 (rate Real.tanh s.base.p.K s.base.p.alpha u.base.network (attr (·.reluctance) s.base.network.agents)) s.friction
        s.base.network.agents.length (attr (·.opinion) s.base.network.agents) (attr (·.velocity) s.base.network.agents) γ ν ∧
      ∀ h, ∃ t, Inertial.iteration o pick r (s.withDt h) = .ok t := by
  obtain ⟨_, _, _, u, hu, hF, -⟩ := C43_inertial (o := o) hp r hs
  obtain ⟨γ, ν, hγ⟩ := C78_solution_exists s.base.p.K s.base.p.alpha u.base.network (attr (·.reluctance) s.base.network.agents)
    s.base.network.agents.length s.friction (attr (·.opinion) s.base.network.agents) (attr (·.velocity) s.base.network.agents)
  refine ⟨u, γ, ν, hu, hF.wf, hγ, fun h => ?_⟩
  have hsh : (s.withDt h).base.Ready := ⟨hs.wf, hs.incoming, ⟨hs.fit.size, hs.fit.bots, hs.fit.botM, hs.fit.botHomophily, hs.fit.nonneg,
    hs.fit.le⟩, hs.botOpinion, hs.probabilistic⟩
  obtain ⟨_, _, _, t, ht, -⟩ := C43_inertial (o := o) hp r hsh
  exact ⟨t, ht⟩

/-- Two agents moving towards each other, without bots. -/
noncomputable def movingPair : Inertial ℝ Unit where
  base :=
  { counter := ⟨none, 0⟩
    p := { maxIterations := none, dt := 1 / 100, m := 1, eps := 1 / 100, gamma := 2, alpha := 1, homophily := 1, reciprocity := 0, K := 1,
           meanActivities := false, meanWeights := false, nBots := 0, botM := [], botActivity := [], botOpinion := [], botHomophily := [],
           useReluctances := false, reluctanceMean := 1, reluctanceSigma := 1, reluctanceEps := 1, covarianceFactor := 0 }
    network := ⟨[⟨1, 1, 1, -1⟩, ⟨0, 1, 1, 1⟩], [[], []], [[], []], .incoming⟩
    contactProb := [[], []]
    gen := () }
  friction := 2

theorem movingPair_ready : movingPair.base.Ready where
  wf := by
    refine ⟨rfl, rfl, ?_, ?_⟩
    · intro i hi hi'
      have : i < 2 := hi
      rcases i with _ | _ | i
      · rfl
      · rfl
      · omega
    · intro row hrow j hj
      have : row = [] := by simpa [movingPair] using hrow
      rw [this] at hj
      exact absurd hj List.not_mem_nil
  incoming := rfl
  fit := by
    have hc : ∀ i, contactsOf movingPair.base.p i = 1 := by
      intro i
      unfold contactsOf
      rfl
    have hn : movingPair.base.network.agents.length = 2 := rfl
    refine ⟨by rw [hn]; norm_num, Nat.zero_le _, Nat.le_refl 0, Nat.le_refl 0, ?_, ?_⟩
    · intro i hi; rw [hc i]; norm_num
    · intro i hi; rw [hc i]; norm_num [hn]
  botOpinion := Nat.le_refl 0
  probabilistic := rfl

end Seldon
