import Verif.Lemmas.ActivityRelabel
/-!
# Helper lemmas: the law of the histories of the activity-driven models
-/
set_option linter.unusedSectionVars false
namespace Seldon
open Spec MeasureTheory
open scoped ENNReal
variable {A G : Type}

/-! ## networks with given edges -/

/-- All weights are 1 and no edge occurs twice. -/
structure Plain (N : Network A XR) : Prop where
  wf : WF N
  ones : ∀ i, ∀ e ∈ row N i, e.2 = 1
  nodup : ∀ i, ((row N i).map (·.1)).Nodup

theorem Plain.agents {N : Network A XR} (h : Plain N) {l : List A} (hl : l.length = N.agents.length) : Plain { N with agents := l } :=
  ⟨⟨by rw [hl]; exact h.wf.rows, by rw [hl]; exact h.wf.wrows, h.wf.lengths, by rw [hl]; exact h.wf.range⟩, h.ones, h.nodup⟩

theorem row_ones {N : Network A XR} (h : Plain N) (i : ℕ) : row N i = ((row N i).map (·.1)).map fun j => (j, 1) := by
  rw [List.map_map]
  conv_lhs => rw [← List.map_id (row N i)]
  refine List.map_congr_left fun e he => ?_
  exact Prod.ext rfl (h.ones i e he)

theorem row_none {N : Network A XR} (h : WF N) {i : ℕ} (hi : N.agents.length ≤ i) : row N i = [] := by
  unfold row
  rw [List.getD_eq_getElem?_getD, List.getElem?_eq_none (by rw [h.rows]; exact hi)]
  rfl

theorem rowsPerm_of_edges {N M : Network A XR} (hN : Plain N) (hM : Plain M) (hl : M.agents.length = N.agents.length) {σ : Equiv.Perm ℕ}
    (hσ : ∀ i, σ i < N.agents.length ↔ i < N.agents.length)
    (h : ∀ i j, i < N.agents.length → j < N.agents.length → (σ i ∈ (row M (σ j)).map (·.1) ↔ i ∈ (row N j).map (·.1))) : RowsPerm σ N M := by
  intro j
  by_cases hj : j < N.agents.length
  · rw [row_ones hM, row_ones hN]
    have hp : ((row M (σ j)).map (·.1)).Perm (((row N j).map (·.1)).map σ) := by
      rw [List.perm_ext_iff_of_nodup (hM.nodup _) ((hN.nodup _).map σ.injective)]
      intro b
      obtain ⟨i, rfl⟩ := σ.surjective b
      rw [List.mem_map_of_injective σ.injective]
      by_cases hi : i < N.agents.length
      · exact h i j hi hj
      · constructor
        · intro hc
          obtain ⟨e, he, e1⟩ := List.mem_map.mp hc
          have := NetLemmas.row_lt hM.wf he
          rw [e1, hl, hσ] at this
          exact absurd this hi
        · intro hc
          obtain ⟨e, he, e1⟩ := List.mem_map.mp hc
          have := NetLemmas.row_lt hN.wf he
          rw [e1] at this
          exact absurd this hi
    have := hp.map fun j => (j, (1 : XR))
    simp only [List.map_map] at this ⊢
    exact this
  · rw [row_none hN.wf (by omega), row_none hM.wf (by rw [hl]; by_contra hc; exact hj ((hσ j).mp (by omega)))]
    exact List.Perm.nil

open scoped Classical in
/-- The network with the agents `xs` and the edges `R`. -/
noncomputable def withEdges (xs : List A) (R : ℕ → ℕ → Prop) : Network A XR where
  agents := xs
  neighbours := (List.range xs.length).map fun j => (List.range xs.length).filter fun i => R i j
  weights := (List.range xs.length).map fun j => ((List.range xs.length).filter fun i => R i j).map fun _ => 1
  direction := .incoming

theorem zip_map_self {α β : Type} (f : α → β) (l : List α) : l.zip (l.map f) = l.map fun a => (a, f a) := by
  induction l with
  | nil => rfl
  | cons a l ih => simp [ih]

theorem withEdges_row (xs : List A) (R : ℕ → ℕ → Prop) {j : ℕ} (hj : j < xs.length) [DecidablePred fun i => R i j] :
    row (withEdges xs R) j = ((List.range xs.length).filter fun i => R i j).map fun i => (i, 1) := by
  classical
  unfold row withEdges
  dsimp only
  rw [NetLemmas.getD_map_range _ _ hj, NetLemmas.getD_map_range _ _ hj]
  rw [zip_map_self]
  congr 1
  exact List.filter_congr fun i _ => decide_eq_decide.mpr Iff.rfl

theorem withEdges_plain (xs : List A) (R : ℕ → ℕ → Prop) : Plain (withEdges xs R) := by
  classical
  have hwf : WF (withEdges xs R) := by
    refine ⟨by simp [withEdges], by simp [withEdges], ?_, ?_⟩
    · intro k h1 h2
      simp [withEdges]
    · intro l hl j hj
      simp only [withEdges, List.mem_map, List.mem_range] at hl
      obtain ⟨a, -, rfl⟩ := hl
      exact List.mem_range.mp (List.mem_filter.mp hj).1
  refine ⟨hwf, fun i e he => ?_, fun i => ?_⟩
  · by_cases hi : i < xs.length
    · rw [withEdges_row xs R hi] at he
      obtain ⟨a, -, rfl⟩ := List.mem_map.mp he
      rfl
    · rw [row_none hwf (by simpa [withEdges] using hi)] at he
      simp at he
  · by_cases hi : i < xs.length
    · rw [withEdges_row xs R hi, List.map_map]
      have : ((fun e : ℕ × XR => e.1) ∘ fun i : ℕ => (i, (1 : XR))) = id := rfl
      rw [this, List.map_id]
      exact List.nodup_range.filter _
    · rw [row_none hwf (by simpa [withEdges] using hi)]
      exact List.nodup_nil

theorem withEdges_edge (xs : List A) (R : ℕ → ℕ → Prop) {i j : ℕ} (hi : i < xs.length) (hj : j < xs.length) :
    i ∈ (row (withEdges xs R) j).map (·.1) ↔ R i j := by
  classical
  rw [withEdges_row xs R hj, List.map_map]
  simp [hi]

/-! ## one iteration -/

section
variable [ActiveAgent A XR] [MeasurableSpace G] {μ : Measure G} [IsProbabilityMeasure μ]
  {o : MathOps XR} {pick : List (ℕ × XR) → ℕ} {r : Rng G XR}

/-- One iteration, given by what it does to the network and the generator: the network is updated as specified by C43, then the agents are moved. -/
structure Stepper (o : MathOps XR) (pick : List (ℕ × XR) → ℕ) (r : Rng G XR) (s : Activity A XR G) (n : ℕ) (step : Network A XR → G → Res (Network A XR × G))
    (move : Network A XR → List A) (I : List A → Prop) : Prop where
  size : ∀ xs, I xs → xs.length = n
  updates : ∀ N, WF N → N.direction = .incoming → I N.agents → Updates o pick r { s with network := N } (step N)
  moves : ∀ N g M g', WF N → N.direction = .incoming → I N.agents → WF M → step N g = .ok (M, g') → M.agents = move { M with agents := N.agents }
  length : ∀ N, (move N).length = N.agents.length
  inv : ∀ N, Plain N → I N.agents → I (move N)
  same : ∀ N M, N.agents = M.agents → RowsPerm (Equiv.refl ℕ) N M → move M = move N
  numbers : ∀ xs, I xs → Numbers s.p xs (fun i => (attr ActiveAgent.opinion xs i).num) (fun i => (attr ActiveAgent.activity xs i).num)
    (fun i => (homophilyFor s.p i).num) s.p.reciprocity.num
  contacts : ∀ i, i < n → 0 < contactsOf s.p i ∧ contactsOf s.p i < n

/-- The network a stepper can be applied to. -/
structure Good (I : List A → Prop) (N : Network A XR) : Prop where
  wf : WF N
  incoming : N.direction = .incoming
  inv : I N.agents

variable {s : Activity A XR G} {n : ℕ} {step : Network A XR → G → Res (Network A XR × G)} {move : Network A XR → List A} {I : List A → Prop}

/-- The probability of the edges `R` after one iteration from the agents `xs`. -/
noncomputable def edgeChance (s : Activity A XR G) (n : ℕ) (xs : List A) (R : ℕ → ℕ → Prop) : ℝ≥0∞ :=
  netChance n (fun i => (contactsOf s.p i).toNat) (fun i => (attr ActiveAgent.activity xs i).num)
    (fun i => contactWeight (homophilyFor s.p i).num (fun i => (attr ActiveAgent.opinion xs i).num) i) s.p.reciprocity.num R

omit [MeasurableSpace G] in
/-- What one iteration does. -/
theorem Stepper.result (S : Stepper o pick r s n step move I) {N : Network A XR} (hN : Good I N) (g : G) :
    ∃ gs buf contacts M, step N g = .ok (M, (keep r s.p.reciprocity (oneWay n contacts) (gs n)).2) ∧
      FromContacts o pick r s.p N.agents g M gs buf contacts ∧ Good I M ∧ Plain M ∧
      ∀ R : ℕ → ℕ → Prop, (∀ i j, i < n → j < n → (i ∈ (row M j).map (·.1) ↔ R i j)) → M.agents = move (withEdges N.agents R) := by
  obtain ⟨gs, buf, contacts, M, e1, e2⟩ := S.updates N hN.wf hN.incoming hN.inv g
  have hn : N.agents.length = n := S.size _ hN.inv
  dsimp only at e1 e2
  rw [hn] at e1
  have hM : M.agents = move { M with agents := N.agents } := S.moves N g M _ hN.wf hN.incoming hN.inv e2.wf e1
  have hlenM : M.agents.length = n := by
    rw [hM, S.length]; exact hn
  have hpl : Plain M := ⟨e2.wf, e2.ones, e2.nodup⟩
  have hpl' : Plain { M with agents := N.agents } := hpl.agents (by rw [hn, hlenM])
  refine ⟨gs, buf, contacts, M, e1, e2, ⟨e2.wf, e2.incoming, by rw [hM]; exact S.inv _ hpl' hN.inv⟩, hpl, fun R hR => ?_⟩
  rw [hM]
  refine S.same _ _ rfl (rowsPerm_of_edges (withEdges_plain _ _) hpl' rfl (fun _ => Iff.rfl) ?_)
  intro i j hi hj
  have hi' : i < n := by rw [← hn]; exact hi
  have hj' : j < n := by rw [← hn]; exact hj
  rw [withEdges_edge N.agents R hi hj]
  exact hR i j hi' hj'

omit [MeasurableSpace G] in
theorem Stepper.size_of (S : Stepper o pick r s n step move I) {N : Network A XR} (hN : Good I N) : N.agents.length = n := S.size _ hN.inv

omit [MeasurableSpace G] in
/-- What an iteration does depends only on the agents and the generator. -/
theorem Stepper.det (S : Stepper o pick r s n step move I) (hp : Reservoir.Pick.Valid pick) {N N' : Network A XR} (hN : Good I N) (hN' : Good I N') (ha : N'.agents = N.agents) {g : G}
    {M : Network A XR} {g' : G} (h : step N g = .ok (M, g')) :
    ∃ M', step N' g = .ok (M', g') ∧ M'.agents = M.agents ∧ ∀ i j, i < n → j < n → (i ∈ (row M' j).map (·.1) ↔ i ∈ (row M j).map (·.1)) := by
  obtain ⟨gs, buf, contacts, M₁, e1, e2, e3, e4, e5⟩ := S.result hN g
  obtain ⟨rfl, rfl⟩ := Prod.mk.inj (Except.ok.inj (e1.symm.trans h))
  obtain ⟨gs', buf', contacts', M', f1, f2, f3, f4, f5⟩ := S.result hN' g
  have hn := S.size_of hN
  rw [ha] at f2 f5
  obtain ⟨u1, u2⟩ := phase_unique e2.phase f2.phase (e2.start.trans f2.start.symm)
  rw [hn] at u1 u2
  have hlt : ∀ i, i < n → ∀ j ∈ contacts i, j < n := by
    intro i hi j hj
    by_cases hA : Activated r (N.agents[i]'(by rw [hn]; exact hi)) (gs i)
    · have hm := S.contacts i hi
      exact (C45_contacts_partial hp e2.phase (by rw [hn]; exact hi) hA hm.1 (by rw [hn]; exact hm.2.le)).2.2 j hj |>.trans_eq hn
    · rw [(e2.phase.passive i (by rw [hn]; exact hi) hA).2.1] at hj
      simp at hj
  have hw : oneWay n contacts = oneWay n contacts' := oneWay_congr u2 hlt
  have hedges : ∀ i j, i < n → j < n → (i ∈ (row M' j).map (·.1) ↔ i ∈ (row M₁ j).map (·.1)) := by
    intro i j hi hj
    rw [f2.edges i j (by rw [hn]; exact hi) (by rw [hn]; exact hj), e2.edges i j (by rw [hn]; exact hi) (by rw [hn]; exact hj), hn, hw, (u1 n le_rfl).1, u2 i hi]
  refine ⟨M', by rw [f1, hw, (u1 n le_rfl).1], ?_, hedges⟩
  rw [e5 (fun i j => i ∈ (row M₁ j).map (·.1)) (fun i j _ _ => Iff.rfl), f5 (fun i j => i ∈ (row M₁ j).map (·.1)) hedges]

/-- From sets to sets that are measurable up to null sets. -/
theorem null_extend {E : Set G → Set G} (hmono : ∀ S T, S ⊆ T → E S ⊆ E T) {c : ℝ≥0∞} (hc : c ≠ ⊤)
    (h : ∀ T, MeasurableSet T → NullMeasurableSet (E T) μ ∧ μ (E T) = c * μ T) {T : Set G} (hT : NullMeasurableSet T μ) :
    NullMeasurableSet (E T) μ ∧ μ (E T) = c * μ T := by
  obtain ⟨S, h1, h2, h3⟩ := hT.exists_measurable_subset_ae_eq
  obtain ⟨U, h4, h5, h6⟩ := hT.exists_measurable_superset_ae_eq
  obtain ⟨a1, a2⟩ := h S h2
  obtain ⟨b1, b2⟩ := h U h5
  rw [measure_congr h3] at a2
  rw [measure_congr h6] at b2
  have hne : μ (E U) ≠ ⊤ := by rw [b2]; exact ENNReal.mul_ne_top hc (measure_ne_top _ _)
  have hSU : E S =ᵐ[μ] E U := ae_eq_of_subset_of_measure_ge (hmono S U (h1.trans h4)) (by rw [a2, b2]) a1 hne
  have hST : E S =ᵐ[μ] E T := by
    refine Filter.EventuallyLE.antisymm (Filter.Eventually.of_forall (hmono S T h1)) ?_
    exact Filter.EventuallyLE.trans_eq (Filter.Eventually.of_forall (hmono T U h4)) hSU.symm
  exact ⟨a1.congr hST, by rw [← measure_congr hST, a2]⟩

/-- The iteration from `N` leads to the agents `y`, the edges `R` and a state of the generator in `T`. -/
def Reaches (step : Network A XR → G → Res (Network A XR × G)) (n : ℕ) (N : Network A XR) (y : List A) (R : ℕ → ℕ → Prop) (T : Set G) : Set G :=
  {g | ∃ M g', step N g = .ok (M, g') ∧ M.agents = y ∧ (∀ i j, i < n → j < n → (i ∈ (row M j).map (·.1) ↔ R i j)) ∧ g' ∈ T}

theorem Stepper.law (S : Stepper o pick r s n step move I) (hr : DrawsUniform r μ) (hp : Reservoir.Pick.Min pick) (ho : o.toOps = XR.ops) {N : Network A XR}
    (hN : Good I N) (R : ℕ → ℕ → Prop) {T : Set G} (hT : NullMeasurableSet T μ) :
    NullMeasurableSet (Reaches step n N (move (withEdges N.agents R)) R T) μ ∧
      μ (Reaches step n N (move (withEdges N.agents R)) R T) = edgeChance s n N.agents R * μ T := by
  classical
  have hn := S.size_of hN
  refine null_extend (E := Reaches step n N (move (withEdges N.agents R)) R) ?_ ?_ ?_ hT
  · rintro T T' hTT g ⟨M, g', h1, h2, h3, h4⟩
    exact ⟨M, g', h1, h2, h3, hTT h4⟩
  · exact ENNReal.sum_ne_top.mpr fun z _ => ENNReal.ofReal_ne_top
  · intro T hT
    subst hn
    have := event_law (s := { s with network := N }) (E := Reaches step N.agents.length N (move (withEdges N.agents R)) R T)
      (P := fun c kept => ∀ i j : Fin N.agents.length, ((j : ℕ) ∈ c i ∨ ((j : ℕ), (i : ℕ)) ∈ kept) ↔ R i j) hr hp ho
      (S.updates N hN.wf hN.incoming hN.inv) (S.numbers _ hN.inv) S.contacts hT ?_
    · exact this
    · intro g gs buf contacts M g' kept e1 e2 e3
      have hedges : ∀ i j : Fin N.agents.length, (i : ℕ) ∈ (row M j).map (·.1) ↔ ((j : ℕ) ∈ contacts i ∨ ((j : ℕ), (i : ℕ)) ∈ kept) := by
        intro i j
        have := e2.edges i j i.2 j.2
        rw [this, ← e3]
      constructor
      · rintro ⟨M', g'', h1, h2, h3, h4⟩
        obtain ⟨rfl, rfl⟩ := Prod.mk.inj (Except.ok.inj (e1.symm.trans h1))
        exact ⟨fun i j => (hedges i j).symm.trans (h3 i j i.2 j.2), h4⟩
      · rintro ⟨h2, h3⟩
        obtain ⟨gs', buf', contacts', M', f1, f2, f3, f4, f5⟩ := S.result hN g
        obtain ⟨rfl, rfl⟩ := Prod.mk.inj (Except.ok.inj (e1.symm.trans f1))
        have hR : ∀ i j, i < N.agents.length → j < N.agents.length → (i ∈ (row M j).map (·.1) ↔ R i j) :=
          fun i j hi hj => (hedges ⟨i, hi⟩ ⟨j, hj⟩).trans (h2 ⟨i, hi⟩ ⟨j, hj⟩)
        exact ⟨M, _, e1, f5 R hR, hR, h3⟩

/-! ## histories -/

/-- The histories from `N`: the agents `ys k` and edges `R k` after iteration `k + 1`, for `t` iterations. -/
def Histories (step : Network A XR → G → Res (Network A XR × G)) (n : ℕ) : ℕ → (ℕ → List A) → (ℕ → ℕ → ℕ → Prop) → Network A XR → Set G
  | 0, _, _, _ => Set.univ
  | t + 1, ys, R, N => {g | ∃ M g', step N g = .ok (M, g') ∧ M.agents = ys 0 ∧ (∀ i j, i < n → j < n → (i ∈ (row M j).map (·.1) ↔ R 0 i j)) ∧
      g' ∈ Histories step n t (fun k => ys (k + 1)) (fun k => R (k + 1)) M}

omit [MeasurableSpace G] in
theorem Stepper.histories_congr (S : Stepper o pick r s n step move I) (hp : Reservoir.Pick.Valid pick) (t : ℕ) : ∀ (ys : ℕ → List A) (R : ℕ → ℕ → ℕ → Prop) {N N' : Network A XR}, Good I N → Good I N' →
    N'.agents = N.agents → Histories step n t ys R N ⊆ Histories step n t ys R N' := by
  induction t with
  | zero => intro ys R N N' _ _ _; exact subset_rfl
  | succ t ih =>
    rintro ys R N N' hN hN' ha g ⟨M, g', h1, h2, h3, h4⟩
    obtain ⟨M', h5, h6, h7⟩ := S.det hp hN hN' ha h1
    have hM : Good I M := by
      obtain ⟨_, _, _, M₁, e1, -, e3, -⟩ := S.result hN g
      obtain ⟨rfl, -⟩ := Prod.mk.inj (Except.ok.inj (e1.symm.trans h1))
      exact e3
    have hM' : Good I M' := by
      obtain ⟨_, _, _, M₁, e1, -, e3, -⟩ := S.result hN' g
      obtain ⟨rfl, -⟩ := Prod.mk.inj (Except.ok.inj (e1.symm.trans h5))
      exact e3
    exact ⟨M', g', h5, h6.trans h2, fun i j hi hj => (h7 i j hi hj).trans (h3 i j hi hj), ih _ _ hM hM' h6 h4⟩

/-- The law of a history: the first step, then the rest. -/
theorem Stepper.histories_succ (S : Stepper o pick r s n step move I) (hp : Reservoir.Pick.Valid pick) (t : ℕ) (ys : ℕ → List A) (R : ℕ → ℕ → ℕ → Prop) {N : Network A XR} (hN : Good I N) :
    (ys 0 ≠ move (withEdges N.agents (R 0)) → Histories step n (t + 1) ys R N = ∅) ∧
    (ys 0 = move (withEdges N.agents (R 0)) → Good I { N with agents := ys 0 } ∧ Histories step n (t + 1) ys R N =
      Reaches step n N (ys 0) (R 0) (Histories step n t (fun k => ys (k + 1)) (fun k => R (k + 1)) { N with agents := ys 0 })) := by
  have hres : ∀ g M g', step N g = .ok (M, g') → Good I M ∧
      ∀ R : ℕ → ℕ → Prop, (∀ i j, i < n → j < n → (i ∈ (row M j).map (·.1) ↔ R i j)) → M.agents = move (withEdges N.agents R) := by
    intro g M g' h
    obtain ⟨_, _, _, M₁, e1, -, e3, -, e5⟩ := S.result hN g
    obtain ⟨rfl, -⟩ := Prod.mk.inj (Except.ok.inj (e1.symm.trans h))
    exact ⟨e3, e5⟩
  constructor
  · intro hne
    refine Set.eq_empty_of_forall_notMem ?_
    rintro g ⟨M, g', h1, h2, h3, -⟩
    exact hne (h2.symm.trans ((hres g M g' h1).2 _ h3))
  · intro he
    have hlen : (ys 0).length = N.agents.length := by rw [he, S.length]; rfl
    have hG : Good I { N with agents := ys 0 } := by
      refine ⟨⟨by rw [hlen]; exact hN.wf.rows, by rw [hlen]; exact hN.wf.wrows, hN.wf.lengths, by rw [hlen]; exact hN.wf.range⟩, hN.incoming, ?_⟩
      show I (ys 0)
      rw [he]
      exact S.inv _ (withEdges_plain _ _) hN.inv
    refine ⟨hG, ?_⟩
    ext g
    constructor
    · rintro ⟨M, g', h1, h2, h3, h4⟩
      exact ⟨M, g', h1, h2, h3, S.histories_congr hp t _ _ (hres g M g' h1).1 hG h2.symm h4⟩
    · rintro ⟨M, g', h1, h2, h3, h4⟩
      exact ⟨M, g', h1, h2, h3, S.histories_congr hp t _ _ hG (hres g M g' h1).1 h2 h4⟩

variable {s' : Activity A XR G} {step' : Network A XR → G → Res (Network A XR × G)} {move' : Network A XR → List A} {I' : List A → Prop}

theorem edgeChance_relabel {σ : Equiv.Perm ℕ} (hσ : ∀ i, σ i < n ↔ i < n) (hp : RelabelledSettings σ s.p s'.p) {xs xs' : List A} (hx : Relabelled σ xs xs')
    {R R' : ℕ → ℕ → Prop} (hR : ∀ i j, i < n → j < n → (R' (σ i) (σ j) ↔ R i j)) : edgeChance s' n xs' R' = edgeChance s n xs R := by
  unfold edgeChance
  obtain ⟨-, -, -, -, -, -, e7, -⟩ := hp.eqs
  rw [e7]
  refine netChance_relabel hσ (fun i => by rw [hp.contacts]) (fun i => by rw [relabelled_attr _ hx]) (fun i j => ?_) _ hR
  unfold contactWeight
  simp only [EmbeddingLike.apply_eq_iff_eq, relabelled_attr _ hx, hp.homophily]

/-- The law of the histories does not depend on the numbering. -/
theorem Stepper.histories_relabel (S : Stepper o pick r s n step move I) (S' : Stepper o pick r s' n step' move' I') (hr : DrawsUniform r μ)
    (hp : Reservoir.Pick.Min pick) (ho : o.toOps = XR.ops) {σ : Equiv.Perm ℕ} (hσ : ∀ i, σ i < n ↔ i < n) (hset : RelabelledSettings σ s.p s'.p)
    (hmove : ∀ N M, Relabelled σ N.agents M.agents → RowsPerm σ N M → Relabelled σ (move N) (move' M)) (t : ℕ) :
    ∀ (ys ys' : ℕ → List A) (R R' : ℕ → ℕ → ℕ → Prop), (∀ k, Relabelled σ (ys k) (ys' k)) → (∀ k i j, i < n → j < n → (R' k (σ i) (σ j) ↔ R k i j)) →
      ∀ (N N' : Network A XR), Good I N → Good I' N' → Relabelled σ N.agents N'.agents →
        NullMeasurableSet (Histories step n t ys R N) μ ∧ NullMeasurableSet (Histories step' n t ys' R' N') μ ∧
        μ (Histories step' n t ys' R' N') = μ (Histories step n t ys R N) := by
  induction t with
  | zero =>
    intro ys ys' R R' _ _ N N' _ _ _
    exact ⟨MeasurableSet.univ.nullMeasurableSet, MeasurableSet.univ.nullMeasurableSet, rfl⟩
  | succ t ih =>
    intro ys ys' R R' hys hR N N' hN hN' ha
    obtain ⟨a1, a2⟩ := S.histories_succ ⟨hp.lt⟩ t ys R hN
    obtain ⟨b1, b2⟩ := S'.histories_succ ⟨hp.lt⟩ t ys' R' hN'
    have hn := S.size_of hN
    have hn' := S'.size_of hN'
    have key : Relabelled σ (move (withEdges N.agents (R 0))) (move' (withEdges N'.agents (R' 0))) := by
      refine hmove _ _ ha (rowsPerm_of_edges (withEdges_plain _ _) (withEdges_plain _ _) (by show N'.agents.length = N.agents.length; rw [hn, hn']) ?_ ?_)
      · show ∀ i, σ i < N.agents.length ↔ i < N.agents.length
        rw [hn]; exact hσ
      · intro i j hi hj
        have hi' : i < n := by rw [← hn]; exact hi
        have hj' : j < n := by rw [← hn]; exact hj
        rw [withEdges_edge N.agents (R 0) hi hj, withEdges_edge N'.agents (R' 0) (by rw [hn', hσ]; exact hi') (by rw [hn', hσ]; exact hj')]
        exact hR 0 i j hi' hj'
    have hiff : ys' 0 = move' (withEdges N'.agents (R' 0)) ↔ ys 0 = move (withEdges N.agents (R 0)) := by
      have hl : (move (withEdges N.agents (R 0))).length = n := by rw [S.length]; exact hn
      constructor
      · intro h
        refine List.ext_getElem? fun i => ?_
        rw [← (hys 0).2 i, h, key.2]
      · intro h
        refine List.ext_getElem? fun i => ?_
        obtain ⟨j, rfl⟩ := σ.surjective i
        rw [(hys 0).2 j, h, key.2]
    by_cases he : ys 0 = move (withEdges N.agents (R 0))
    · obtain ⟨c1, c2⟩ := a2 he
      obtain ⟨d1, d2⟩ := b2 (hiff.mpr he)
      obtain ⟨i1, i2, i3⟩ := ih (fun k => ys (k + 1)) (fun k => ys' (k + 1)) (fun k => R (k + 1)) (fun k => R' (k + 1)) (fun k => hys (k + 1))
        (fun k => hR (k + 1)) { N with agents := ys 0 } { N' with agents := ys' 0 } c1 d1 (hys 0)
      obtain ⟨l1, l2⟩ := S.law hr hp ho hN (R 0) i1
      obtain ⟨m1, m2⟩ := S'.law hr hp ho hN' (R' 0) i2
      rw [← he] at l1 l2
      rw [← hiff.mpr he] at m1 m2
      rw [c2, d2]
      refine ⟨l1, m1, ?_⟩
      rw [l2, m2, i3, edgeChance_relabel hσ hset ha (hR 0)]
    · rw [a1 he, b1 fun h => he (hiff.mp h)]
      exact ⟨MeasurableSet.empty.nullMeasurableSet, MeasurableSet.empty.nullMeasurableSet, rfl⟩

end
end Seldon
