import Verif.Lemmas.Relabel
import Verif.Props.DeGroot
import Verif.Props.DeffuantLaw
/-!
# C86: the numbering of the agents is immaterial in the DeGroot model and in the Deffuant model with scalar opinions
-/
set_option linter.unusedSectionVars false
namespace Seldon
open Spec MeasureTheory
open scoped ENNReal
variable {F G : Type}

/-! ## DeGroot -/

theorem relabelled_opinion [Zero F] {σ : Equiv.Perm ℕ} {xs ys : List (SimpleAgent F)} (h : Relabelled σ xs ys) (i : ℕ) : opinionOf ys (σ i) = opinionOf xs i := by
  simp only [opinionOf, opinions, List.getD_eq_getElem?_getD, List.getElem?_map, h.2]

theorem relabelled_of_opinion [Zero F] {σ : Equiv.Perm ℕ} {xs ys : List (SimpleAgent F)} (hl : ys.length = xs.length) (hσ : ∀ i, σ i < xs.length ↔ i < xs.length)
    (h : ∀ i, i < xs.length → opinionOf ys (σ i) = opinionOf xs i) : Relabelled σ xs ys := by
  refine ⟨hl, fun i => ?_⟩
  by_cases hi : i < xs.length
  · have hi' : σ i < ys.length := by rw [hl]; exact (hσ i).mpr hi
    have := h i hi
    rw [DeGroot.opinionOf_lt hi', DeGroot.opinionOf_lt hi] at this
    rw [List.getElem?_eq_getElem hi', List.getElem?_eq_getElem hi]
    generalize ys[σ i] = y at this
    generalize xs[i] = x at this
    cases x; cases y
    cases this; rfl
  · rw [List.getElem?_eq_none (l := xs) (by omega), List.getElem?_eq_none (l := ys)]
    rw [hl]
    by_contra hc
    exact hi ((hσ i).mp (by omega))

theorem relabelled_row {A : Type} {σ : Equiv.Perm ℕ} {N M : Network A F} (h : RelabelledNetwork σ N M) (i : ℕ) :
    row M (σ i) = (row N i).map fun e => (σ e.1, e.2) := by
  have h1 : M.neighbours.getD (σ i) [] = (N.neighbours.getD i []).map σ := by
    rw [List.getD_eq_getElem?_getD, h.neighbours.2, List.getElem?_map, List.getD_eq_getElem?_getD]
    cases N.neighbours[i]? <;> rfl
  have h2 : M.weights.getD (σ i) [] = N.weights.getD i [] := by
    rw [List.getD_eq_getElem?_getD, h.weights.2, List.getD_eq_getElem?_getD]
  rw [row, row, h1, h2, List.zip_map_left]
  rfl

/-- C86: one iteration of the DeGroot model on the renumbered network gives the renumbered result, bit by bit, in any arithmetic. -/
theorem C86_degroot_step [Zero F] [Add F] [Mul F] [Sub F] [Neg F] [LT F] [DecidableLT F] {s s' t t' : DeGroot F} (h : s.Ready) (h' : s'.Ready) {σ : Equiv.Perm ℕ}
    (hN : RelabelledNetwork σ s.network s'.network) (ht : s.iteration = .ok t) (ht' : s'.iteration = .ok t') : RelabelledNetwork σ t.network t'.network := by
  obtain ⟨u, e, -, e1, e2, -, e3, e4⟩ := C29_iteration h
  obtain rfl := Except.ok.inj (e.symm.trans ht)
  obtain ⟨u', f, -, f1, f2, -, f3, f4⟩ := C29_iteration h'
  obtain rfl := Except.ok.inj (f.symm.trans ht')
  refine ⟨?_, by rw [e1, f1]; exact hN.neighbours, by rw [e2, f2]; exact hN.weights⟩
  have hσ := hN.agents.lt_iff
  have hl := hN.agents.1
  refine relabelled_of_opinion (by rw [e3, f3, hl]) (by rw [e3]; exact hσ) ?_
  intro i hi
  rw [e3] at hi
  rw [e4 i hi, f4 (σ i) (by rw [hl]; exact (hσ i).mpr hi), weightedSumLR, weightedSumLR, relabelled_row hN, List.foldl_map]
  simp only [relabelled_opinion hN.agents]

/-- C86: the same after any number of iterations. -/
theorem C86_degroot [Zero F] [Add F] [Mul F] [Sub F] [Neg F] [LT F] [DecidableLT F] {s s' : DeGroot F} (h : s.Ready) (h' : s'.Ready) {σ : Equiv.Perm ℕ}
    (hN : RelabelledNetwork σ s.network s'.network) {k : ℕ} {t t' : DeGroot F} (ht : Iterates DeGroot.iteration s k t) (ht' : Iterates DeGroot.iteration s' k t') :
    RelabelledNetwork σ t.network t'.network := by
  induction ht generalizing t' with
  | zero => cases ht'; exact hN
  | succ a e ih =>
    cases ht' with
    | succ a' e' => exact C86_degroot_step (DeGroot.iterates_ready a h).1 (DeGroot.iterates_ready a' h').1 (ih a') e e'

/-- C86: a run of the DeGroot model on the renumbered network makes the same number of iterations and writes the renumbered opinions
after each of them. -/
theorem C86_degroot_run [Ring F] [LinearOrder F] [IsStrictOrderedRing F] {s s' : DeGroot F} (h : s.Ready) (h' : s'.Ready) (hu : s.Unsettled) (hu' : s'.Unsettled)
    (htol : s'.tol = s.tol) (hmax : s'.counter.maxIterations = s.counter.maxIterations) {σ : Equiv.Perm ℕ} (hN : RelabelledNetwork σ s.network s'.network)
    {K K' : ℕ} {st st' : ℕ → DeGroot F} (hrun : IsRun DeGroot.machine s.reset K st) (hrun' : IsRun DeGroot.machine s'.reset K' st') :
    K' = K ∧ ∀ k, k ≤ K → RelabelledNetwork σ (st k).network (st' k).network := by
  have key : ∀ k, k ≤ K → k ≤ K' → RelabelledNetwork σ (st k).network (st' k).network := by
    intro k
    induction k with
    | zero =>
      intro _ _
      rw [hrun.start, hrun'.start]
      exact hN
    | succ k ih =>
      intro h1 h2
      exact C86_degroot_step ((DeGroot.finished_iff h hu hrun.start hrun.step) k (by omega)).1
        ((DeGroot.finished_iff h' hu' hrun'.start hrun'.step) k (by omega)).1 (ih (by omega) (by omega)) (hrun.step k (by omega)) (hrun'.step k (by omega))
  have hσ := hN.agents.lt_iff
  have hl := hN.agents.1
  have hstop : ∀ k, k ≤ K → k ≤ K' → (DeGrootStops s'.counter.maxIterations s'.tol s'.network.agents.length (fun k => opinionOf (st' k).network.agents) k ↔
      DeGrootStops s.counter.maxIterations s.tol s.network.agents.length (fun k => opinionOf (st k).network.agents) k) := by
    intro k h1 h2
    unfold DeGrootStops
    rw [htol, hmax, hl]
    refine or_congr Iff.rfl (and_congr Iff.rfl (and_congr Iff.rfl ?_))
    have e1 := relabelled_opinion (key k h1 h2).agents
    have e2 := relabelled_opinion (key (k - 1) (by omega) (by omega)).agents
    constructor
    · intro hc i hi
      have := hc (σ i) ((hσ i).mpr hi)
      dsimp only at this ⊢
      rwa [e1, e2] at this
    · intro hc i hi
      have := hc (σ.symm i) ((perm_symm_lt hσ i).mpr hi)
      dsimp only at this ⊢
      rw [← e1, ← e2, Equiv.apply_symm_apply] at this
      exact this
  obtain ⟨s1, s2⟩ := C31_stop h hu hrun
  obtain ⟨s1', s2'⟩ := C31_stop h' hu' hrun'
  have hK : K' = K := by
    rcases lt_trichotomy K' K with hlt | heq | hlt
    · exact absurd ((hstop K' hlt.le le_rfl).mp s1') (s2 K' hlt)
    · exact heq
    · exact absurd ((hstop K le_rfl hlt.le).mpr s1) (s2' K hlt)
  exact ⟨hK, fun k hk => key k hk (by omega)⟩

/-! ## Deffuant, scalar opinions -/

namespace Deffuant
variable [Ring F] [LinearOrder F] [IsStrictOrderedRing F]

/-- The update rule on lists of agents. -/
def meetL (θ mu : F) (a b : Nat) (xs : List (SimpleAgent F)) (g : G) : Res (List (SimpleAgent F) × G) :=
  .ok ((List.range xs.length).map fun i => ⟨meet θ mu a b (opinionOf xs) i⟩, g)

theorem opinionOf_range (n : ℕ) (x : ℕ → F) {i : ℕ} (hi : i < n) : opinionOf ((List.range n).map fun i => (⟨x i⟩ : SimpleAgent F)) i = x i := by
  rw [DeGroot.opinionOf_lt (by simpa using hi)]
  simp

theorem meetL_rule [MeasurableSpace G] {μ : Measure G} [IsProbabilityMeasure μ] (s : Deffuant (SimpleAgent F) F G) :
    Rule updateRule s (meetL s.threshold s.mu) (fun xs => xs.length = s.network.agents.length) μ where
  eq a b u hF ha hb := by
    obtain ⟨t, h1, hF', hg, hc, ho⟩ := updateRule_ok a b u (by rw [hF.n]; exact ha) (by rw [hF.n]; exact hb)
    rw [h1, meetL, Res.bind_ok]
    congr 1
    have hag : t.network.agents = (List.range u.network.agents.length).map fun i => ⟨meet u.threshold u.mu a b (opinionOf u.network.agents) i⟩ := by
      refine List.ext_getElem (by rw [List.length_map, List.length_range, hF'.n]) ?_
      intro i hi hi'
      have := congrFun ho i
      rw [DeGroot.opinionOf_lt hi] at this
      simp only [List.getElem_map, List.getElem_range]
      rw [← this]
    rw [← hF.threshold, ← hF.mu, ← hag]
    obtain ⟨c, θ, m, un, ⟨ag, nb, ws, d⟩, g⟩ := t
    obtain ⟨e1, e2, e3, e4, e5, e6, e7, e8⟩ := hF'
    dsimp only at e1 e2 e3 e4 e5 e6 hg hc
    subst e1 e2 e3 e4 e5 e6 hg hc
    rfl
  size xs h := h
  fresh a b xs _ _ _ := (Fresh.pure _).1
  inv a b xs h _ _ g ys g' e := by
    cases e
    simpa using h

theorem meet_relabel (θ mu : F) (σ : Equiv.Perm ℕ) (a b : ℕ) {x y : ℕ → F} (h : ∀ i, y (σ i) = x i) (i : ℕ) :
    meet θ mu (σ a) (σ b) y (σ i) = meet θ mu a b x i := by
  unfold meet
  rw [h, h]
  split
  · simp only [EmbeddingLike.apply_eq_iff_eq, h]
  · rw [h]

theorem meet_swap (θ mu : F) {a b : ℕ} (hab : a ≠ b) (x : ℕ → F) : meet θ mu b a x = meet θ mu a b x := by
  unfold meet
  rw [abs_sub_comm]
  split
  · funext i
    by_cases h1 : i = a
    · rw [if_pos h1, if_neg (by rw [h1]; exact hab), if_pos h1, show x b - x a = -(x a - x b) by rw [neg_sub], mul_neg, ← sub_eq_add_neg]
    · by_cases h2 : i = b
      · rw [if_pos h2, if_neg h1, if_pos h2, show x b - x a = -(x a - x b) by rw [neg_sub], mul_neg, sub_neg_eq_add]
      · rw [if_neg h1, if_neg h2, if_neg h2, if_neg h1]
  · rfl

theorem hits_pure {X : Type} (x y : X) : hits (fun g : G => (.ok (x, g) : Res (X × G))) y Set.univ = {_g | x = y} := by
  ext g
  simp [hits]

end Deffuant

/-- C86: in the Deffuant model with scalar opinions the law of the opinions after any number of iterations does not depend on the numbering of the agents:
if `s'` is `s` with agent `i` called `σ i` (with `use_network` also the lists of neighbours, up to their order), every list of opinions is reached
from `s'` with the same probability as the same opinions in the old numbering are reached from `s`. -/
theorem C86_deffuant [Ring F] [LinearOrder F] [IsStrictOrderedRing F] [MeasurableSpace G] {μ : Measure G} [IsProbabilityMeasure μ] {r : Rng G F}
    (hr : r.IntLawful) (hi : FairIntegers r μ) {s s' : Deffuant (SimpleAgent F) F G} (hs : s.Ready) (hs' : s'.Ready) (hn : 2 ≤ s.network.agents.length)
    (hθ : s'.threshold = s.threshold) (hmu : s'.mu = s.mu) (hun : s'.useNetwork = s.useNetwork) {σ : Equiv.Perm ℕ}
    (hag : Relabelled σ s.network.agents s'.network.agents)
    (hrows : s.useNetwork = true → ∀ i, i < s.network.agents.length →
      (s'.network.neighbours.getD (σ i) []).Perm ((s.network.neighbours.getD i []).map σ))
    (t : ℕ) {ys ys' : List (SimpleAgent F)} (hys : Relabelled σ ys ys') :
    μ {g | ∃ u, Iterates (Deffuant.iteration r Deffuant.updateRule) { s' with gen := g } t u ∧ u.network.agents = ys'} =
      μ {g | ∃ u, Iterates (Deffuant.iteration r Deffuant.updateRule) { s with gen := g } t u ∧ u.network.agents = ys} := by
  have hσ := hag.lt_iff
  refine Deffuant.relabel_law hr hi hs hs' hn (Deffuant.meetL_rule s) (Deffuant.meetL_rule s') hag rfl (fun xs zs h1 h2 => (h2.1.trans h1).trans hag.1.symm) ?_ ?_ t hys
  · intro a b xs xs' zs zs' hx _ _ hxs hzs hz
    rw [hθ, hmu]
    have key : Relabelled σ ((List.range xs.length).map fun i => (⟨meet s.threshold s.mu a b (opinionOf xs) i⟩ : SimpleAgent F))
        ((List.range xs'.length).map fun i => ⟨meet s.threshold s.mu (σ a) (σ b) (opinionOf xs') i⟩) := by
      refine relabelled_of_opinion (by simp [hxs.1]) (by simp only [List.length_map, List.length_range]; exact hxs.lt_iff) ?_
      intro i hi
      simp only [List.length_map, List.length_range] at hi
      rw [Deffuant.opinionOf_range _ _ hi, Deffuant.opinionOf_range _ _ (by rw [hxs.1]; exact (hxs.lt_iff i).mpr hi)]
      exact Deffuant.meet_relabel _ _ σ a b (relabelled_opinion hxs) i
    unfold Deffuant.meetL
    rw [Deffuant.hits_pure, Deffuant.hits_pure]
    have h1 := key.eq (n := s.network.agents.length) (hσ := hσ) (by simpa using hx)
    have h2 := hzs.eq (n := s.network.agents.length) (hσ := hσ) hz
    rw [h1, h2]
    simp only [EmbeddingLike.apply_eq_iff_eq]
  · by_cases hu : s.useNetwork = true
    · exact .inl (Deffuant.chance_network hr hi hs hs' hn hag.1 hu (hun.trans hu) hσ (hrows hu))
    · have hu : s.useNetwork = false := by simpa using hu
      refine .inr ⟨?_, hu, hun.trans hu⟩
      intro a b xs zs _ _ _ hab
      unfold Deffuant.meetL
      rw [Deffuant.meet_swap _ _ hab]

/-! ## The hypotheses are met -/

theorem relabelled_swap {A : Type} (x y : A) (l : List A) : Relabelled (Equiv.swap 0 1) (x :: y :: l) (y :: x :: l) := by
  refine ⟨rfl, fun i => ?_⟩
  match i with
  | 0 => rw [Equiv.swap_apply_left]; rfl
  | 1 => rw [Equiv.swap_apply_right]; rfl
  | i + 2 => rw [Equiv.swap_apply_of_ne_of_ne (by omega) (by omega)]; rfl

/-- The network of `mixNet` with the two agents exchanged. -/
def mixNetSwapped : Network (SimpleAgent ℚ) ℚ where
  agents := [mixNet.agents[1], mixNet.agents[0]]
  neighbours := [[0, 1], [1, 0]]
  weights := [[1 / 2, 1 / 2], [1 / 4, 3 / 4]]
  direction := .incoming

example : RelabelledNetwork (Equiv.swap 0 1) mixNet mixNetSwapped := by
  refine ⟨relabelled_swap _ _ [], ?_, relabelled_swap _ _ []⟩
  have : mixNet.neighbours.map (List.map (Equiv.swap 0 1)) = [[1, 0], [0, 1]] := by decide
  rw [this]
  exact relabelled_swap _ _ []

/-- `threeAgents` with the first two agents exchanged. -/
noncomputable def threeAgentsSwapped (g : ℕ → ℝ) : Deffuant (SimpleAgent ℝ) ℝ (ℕ → ℝ) :=
  { threeAgents g with network := { (threeAgents g).network with agents := [⟨1 / 2⟩, ⟨0⟩, ⟨1⟩] } }

example (t : ℕ) (x y z : ℝ) :
    tapes {g | ∃ u, Iterates (Deffuant.iteration fairRng Deffuant.updateRule) { threeAgentsSwapped 0 with gen := g } t u ∧ u.network.agents = [⟨y⟩, ⟨x⟩, ⟨z⟩]} =
      tapes {g | ∃ u, Iterates (Deffuant.iteration fairRng Deffuant.updateRule) { threeAgents 0 with gen := g } t u ∧ u.network.agents = [⟨x⟩, ⟨y⟩, ⟨z⟩]} := by
  have hF : Deffuant.Frame (threeAgents 0) (threeAgentsSwapped 0) := ⟨rfl, rfl, rfl, rfl, rfl, rfl, rfl, rfl⟩
  exact C86_deffuant fairRng_lawful fairRng_fair (threeAgents_ready 0) (hF.ready (threeAgents_ready 0)) (by simp [threeAgents]) rfl rfl rfl
    (σ := Equiv.swap 0 1) (relabelled_swap _ _ _) (fun h => by cases h) t (relabelled_swap _ _ _)

end Seldon
