import Verif.Lemmas.ActivityStepper
/-!
# Helper lemmas: the law of the agents after some iterations of the activity-driven models
-/
set_option linter.unusedSectionVars false
namespace Seldon
open Spec MeasureTheory
open scoped ENNReal
variable {A G : Type}

section
variable [ActiveAgent A XR] [MeasurableSpace G] {μ : Measure G} [IsProbabilityMeasure μ]
  {o : MathOps XR} {pick : List (ℕ × XR) → ℕ} {r : Rng G XR}
  {s : Activity A XR G} {n : ℕ} {step : Network A XR → G → Res (Network A XR × G)} {move : Network A XR → List A} {I : List A → Prop}

/-- The states of the generator from which `t` iterations lead from `N` to the agents `y`. -/
def Finals (step : Network A XR → G → Res (Network A XR × G)) (y : List A) : ℕ → Network A XR → Set G
  | 0, N => {_g | N.agents = y}
  | t + 1, N => {g | ∃ M g', step N g = .ok (M, g') ∧ g' ∈ Finals step y t M}

omit [MeasurableSpace G] in
theorem Stepper.finals_congr (S : Stepper o pick r s n step move I) (hp : Reservoir.Pick.Valid pick) (y : List A) (t : ℕ) : ∀ {N N' : Network A XR}, Good I N → Good I N' →
    N'.agents = N.agents → Finals step y t N ⊆ Finals step y t N' := by
  induction t with
  | zero => intro N N' _ _ ha g hg; exact ha.trans hg
  | succ t ih =>
    rintro N N' hN hN' ha g ⟨M, g', h1, h4⟩
    obtain ⟨M', h5, h6, h7⟩ := S.det hp hN hN' ha h1
    have hM : Good I M := by
      obtain ⟨_, _, _, M₁, e1, -, e3, -⟩ := S.result hN g
      obtain ⟨rfl, -⟩ := Prod.mk.inj (Except.ok.inj (e1.symm.trans h1))
      exact e3
    have hM' : Good I M' := by
      obtain ⟨_, _, _, M₁, e1, -, e3, -⟩ := S.result hN' g
      obtain ⟨rfl, -⟩ := Prod.mk.inj (Except.ok.inj (e1.symm.trans h5))
      exact e3
    exact ⟨M', g', h5, ih hM hM' h6 h4⟩

/-- A relation on the agents from a relation on `Fin n`. -/
def onNat (R : Fin n → Fin n → Prop) (i j : ℕ) : Prop := ∃ (hi : i < n) (hj : j < n), R ⟨i, hi⟩ ⟨j, hj⟩

theorem onNat_fin (R : Fin n → Fin n → Prop) (i j : Fin n) : onNat R i j ↔ R i j := ⟨fun ⟨_, _, h⟩ => h, fun h => ⟨i.2, j.2, h⟩⟩

/-- The network with other agents. -/
theorem Stepper.good_move (S : Stepper o pick r s n step move I) {N : Network A XR} (hN : Good I N) (R : ℕ → ℕ → Prop) :
    Good I { N with agents := move (withEdges N.agents R) } := by
  have hlen : (move (withEdges N.agents R)).length = N.agents.length := by rw [S.length]; rfl
  refine ⟨⟨by rw [hlen]; exact hN.wf.rows, by rw [hlen]; exact hN.wf.wrows, hN.wf.lengths, by rw [hlen]; exact hN.wf.range⟩, hN.incoming, ?_⟩
  exact S.inv _ (withEdges_plain _ _) hN.inv

theorem Stepper.finals_succ (S : Stepper o pick r s n step move I) (hp : Reservoir.Pick.Valid pick) (y : List A) (t : ℕ) {N : Network A XR} (hN : Good I N) :
    Finals step y (t + 1) N = ⋃ R : Fin n → Fin n → Prop, Reaches step n N (move (withEdges N.agents (onNat R))) (onNat R)
      (Finals step y t { N with agents := move (withEdges N.agents (onNat R)) }) := by
  ext g
  rw [Set.mem_iUnion]
  obtain ⟨_, _, _, M, e1, -, e3, -, e5⟩ := S.result hN g
  constructor
  · rintro ⟨M', g', h1, h2⟩
    obtain ⟨rfl, rfl⟩ := Prod.mk.inj (Except.ok.inj (e1.symm.trans h1))
    have hR : ∀ i j, i < n → j < n → (i ∈ (row M j).map (·.1) ↔ onNat (fun i j : Fin n => (i : ℕ) ∈ (row M j).map (·.1)) i j) :=
      fun i j hi hj => (onNat_fin (fun i j : Fin n => (i : ℕ) ∈ (row M j).map (·.1)) ⟨i, hi⟩ ⟨j, hj⟩).symm
    exact ⟨fun i j => (i : ℕ) ∈ (row M j).map (·.1), M, _, e1, e5 _ hR, hR, S.finals_congr hp y t e3 (S.good_move hN _) (e5 _ hR).symm h2⟩
  · rintro ⟨R, M', g', h1, h2, h3, h4⟩
    obtain ⟨rfl, rfl⟩ := Prod.mk.inj (Except.ok.inj (e1.symm.trans h1))
    exact ⟨M, _, e1, S.finals_congr hp y t (S.good_move hN _) e3 h2 h4⟩

open scoped Classical in
/-- The law of the agents after `t + 1` iterations: the first step, then the rest. -/
theorem Stepper.finals_law (S : Stepper o pick r s n step move I) (hr : DrawsUniform r μ) (hp : Reservoir.Pick.Min pick) (ho : o.toOps = XR.ops) (y : List A) (t : ℕ)
    {N : Network A XR} (hN : Good I N)
    (ih : ∀ R : Fin n → Fin n → Prop, NullMeasurableSet (Finals step y t { N with agents := move (withEdges N.agents (onNat R)) }) μ) :
    NullMeasurableSet (Finals step y (t + 1) N) μ ∧ μ (Finals step y (t + 1) N) =
      ∑ R : Fin n → Fin n → Prop, edgeChance s n N.agents (onNat R) * μ (Finals step y t { N with agents := move (withEdges N.agents (onNat R)) }) := by
  have hl := fun R => S.law hr hp ho hN (onNat R) (ih R)
  rw [S.finals_succ ⟨hp.lt⟩ y t hN]
  refine ⟨NullMeasurableSet.iUnion fun R => (hl R).1, ?_⟩
  rw [measure_iUnion₀, tsum_fintype]
  · exact Finset.sum_congr rfl fun R _ => (hl R).2
  · intro R R' hne
    refine Disjoint.aedisjoint (Set.disjoint_left.mpr ?_)
    rintro g ⟨M, g', h1, -, h3, -⟩ ⟨M', g'', h1', -, h3', -⟩
    obtain ⟨rfl, rfl⟩ := Prod.mk.inj (Except.ok.inj (h1.symm.trans h1'))
    refine hne (funext fun i => funext fun j => propext ?_)
    rw [← onNat_fin R, ← onNat_fin R', ← h3 i j i.2 j.2, ← h3' i j i.2 j.2]
  · exact fun R => (hl R).1

variable {s' : Activity A XR G} {step' : Network A XR → G → Res (Network A XR × G)} {move' : Network A XR → List A} {I' : List A → Prop}

/-- A numbering of the agents below `n`. -/
def permFin {σ : Equiv.Perm ℕ} (hσ : ∀ i, σ i < n ↔ i < n) : Fin n ≃ Fin n where
  toFun i := ⟨σ i, (hσ i).mpr i.2⟩
  invFun i := ⟨σ.symm i, by rw [← hσ, Equiv.apply_symm_apply]; exact i.2⟩
  left_inv i := by simp
  right_inv i := by simp

open scoped Classical in
theorem Stepper.finals_relabel (S : Stepper o pick r s n step move I) (S' : Stepper o pick r s' n step' move' I') (hr : DrawsUniform r μ)
    (hp : Reservoir.Pick.Min pick) (ho : o.toOps = XR.ops) {σ : Equiv.Perm ℕ} (hσ : ∀ i, σ i < n ↔ i < n) (hset : RelabelledSettings σ s.p s'.p)
    (hmove : ∀ N M, Relabelled σ N.agents M.agents → RowsPerm σ N M → Relabelled σ (move N) (move' M)) {y y' : List A} (hy : Relabelled σ y y') (t : ℕ) :
    ∀ (N N' : Network A XR), Good I N → Good I' N' → Relabelled σ N.agents N'.agents →
        NullMeasurableSet (Finals step y t N) μ ∧ NullMeasurableSet (Finals step' y' t N') μ ∧ μ (Finals step' y' t N') = μ (Finals step y t N) := by
  induction t with
  | zero =>
    intro N N' hN hN' ha
    have hiff : N'.agents = y' ↔ N.agents = y := by
      constructor
      · intro h
        refine List.ext_getElem? fun i => ?_
        rw [← hy.2 i, ← h, ha.2]
      · intro h
        refine List.ext_getElem? fun i => ?_
        obtain ⟨j, rfl⟩ := σ.surjective i
        rw [hy.2 j, ← h, ha.2]
    have : Finals step' y' 0 N' = Finals step y 0 N := by
      ext g
      exact hiff
    rw [this]
    have hm : NullMeasurableSet (Finals step y 0 N) μ := (MeasurableSet.const _).nullMeasurableSet
    exact ⟨hm, hm, rfl⟩
  | succ t ih =>
    intro N N' hN hN' ha
    have hn := S.size_of hN
    have hn' := S'.size_of hN'
    set e := permFin hσ
    -- the relation in the other numbering
    have key : ∀ (R R' : Fin n → Fin n → Prop), (∀ i j, R' (e i) (e j) ↔ R i j) →
        (∀ i j, i < n → j < n → (onNat R' (σ i) (σ j) ↔ onNat R i j)) ∧
        Relabelled σ (move (withEdges N.agents (onNat R))) (move' (withEdges N'.agents (onNat R'))) := by
      intro R R' h
      have h1 : ∀ i j, i < n → j < n → (onNat R' (σ i) (σ j) ↔ onNat R i j) := by
        intro i j hi hj
        exact (onNat_fin R' (e ⟨i, hi⟩) (e ⟨j, hj⟩)).trans ((h _ _).trans (onNat_fin R ⟨i, hi⟩ ⟨j, hj⟩).symm)
      refine ⟨h1, hmove _ _ ha (rowsPerm_of_edges (withEdges_plain _ _) (withEdges_plain _ _) (by show N'.agents.length = N.agents.length; rw [hn, hn']) ?_ ?_)⟩
      · show ∀ i, σ i < N.agents.length ↔ i < N.agents.length
        rw [hn]; exact hσ
      · intro i j hi hj
        have hi' : i < n := by rw [← hn]; exact hi
        have hj' : j < n := by rw [← hn]; exact hj
        rw [withEdges_edge N.agents _ hi hj, withEdges_edge N'.agents _ (by rw [hn', hσ]; exact hi') (by rw [hn', hσ]; exact hj')]
        exact h1 i j hi' hj'
    let E : (Fin n → Fin n → Prop) ≃ (Fin n → Fin n → Prop) :=
      { toFun := fun R i j => R (e.symm i) (e.symm j), invFun := fun R i j => R (e i) (e j), left_inv := fun R => by simp, right_inv := fun R => by simp }
    have hE : ∀ R i j, E R (e i) (e j) ↔ R i j := fun R i j => by simp [E]
    have hih := fun R => ih { N with agents := move (withEdges N.agents (onNat R)) } { N' with agents := move' (withEdges N'.agents (onNat (E R))) }
      (S.good_move hN _) (S'.good_move hN' _) (key R (E R) (hE R)).2
    obtain ⟨a1, a2⟩ := S.finals_law hr hp ho y t hN fun R => (hih R).1
    obtain ⟨b1, b2⟩ := S'.finals_law hr hp ho y' t hN' fun R => by
      have := (hih (E.symm R)).2.1
      rwa [E.apply_symm_apply] at this
    refine ⟨a1, b1, ?_⟩
    rw [a2, b2, ← E.sum_comp]
    refine Finset.sum_congr rfl fun R _ => ?_
    rw [(hih R).2.2, edgeChance_relabel hσ hset ha (key R (E R) (hE R)).1]

end

theorem iterates_front {S : Type} {f : S → Res S} {s u : S} {k : ℕ} : Iterates f s (k + 1) u ↔ ∃ v, f s = .ok v ∧ Iterates f v k u := by
  induction k generalizing u with
  | zero =>
    constructor
    · intro h
      cases h with
      | succ h h' => cases h; exact ⟨u, h', .zero⟩
    · rintro ⟨v, h1, h2⟩
      cases h2
      exact .succ .zero h1
  | succ k ih =>
    constructor
    · intro h
      cases h with
      | succ h h' =>
        obtain ⟨v, h1, h2⟩ := ih.mp h
        exact ⟨v, h1, .succ h2 h'⟩
    · rintro ⟨v, h1, h2⟩
      cases h2 with
      | succ h h' => exact .succ (ih.mpr ⟨v, h1, h⟩) h'

theorem iterates_iff {S : Type} {iteration : S → Res S} {network : S → Network A XR} {gen : S → G} {step : Network A XR → G → Res (Network A XR × G)}
    {good : S → Prop} (hstep : ∀ u, good u → (iteration u).map (fun t => (network t, gen t)) = step (network u) (gen u))
    (hnext : ∀ u t, good u → iteration u = .ok t → good t) (y : List A) (t : ℕ) : ∀ u : S, good u →
      ((∃ v, Iterates iteration u t v ∧ (network v).agents = y) ↔ gen u ∈ Finals step y t (network u)) := by
  induction t with
  | zero =>
    intro u _
    exact ⟨by rintro ⟨v, h, hy⟩; cases h; exact hy, fun h => ⟨u, .zero, h⟩⟩
  | succ t ih =>
    intro u hu
    constructor
    · rintro ⟨v, h, hy⟩
      obtain ⟨w, h1, h2⟩ := iterates_front.mp h
      have hs := hstep _ hu
      rw [h1] at hs
      exact ⟨_, _, hs.symm, (ih w (hnext _ _ hu h1)).mp ⟨v, h2, hy⟩⟩
    · rintro ⟨M, g', h1, h4⟩
      rw [← hstep _ hu] at h1
      obtain ⟨w, h5, h6⟩ := map_eq_ok.mp h1
      obtain ⟨rfl, rfl⟩ := Prod.mk.inj h6
      obtain ⟨v, h7, h8⟩ := (ih w (hnext _ _ hu h5)).mpr h4
      exact ⟨v, iterates_front.mpr ⟨w, h5, h7⟩, h8⟩

end Seldon
