import Verif.Lemmas.DeGroot
import Verif.Lemmas.Averaging
import Verif.Props.Simulation
import Verif.Props.Connectivity
import Verif.Props.NetworkGen
/-!
# Properties C29–C32: the DeGroot model
-/
namespace Seldon
open Spec
variable {F : Type}

/-- What `DeGrootModel::iteration` needs: a well-formed network and a buffer with one entry per agent.  Both are established
by the constructor (`C29_constructor`) and preserved by every iteration (`C29_iteration`). -/
structure DeGroot.Ready (s : DeGroot F) : Prop where
  wf : WF s.network
  copy : s.copy.length = s.network.agents.length

/-! ## C29 -/

/-- C29: one iteration never fails, replaces all opinions simultaneously by the weighted sum of the *old* opinions of the
stored neighbours (here for an arbitrary, e.g. rounding, arithmetic; the sum is evaluated from left to right starting at 0),
and changes neither edges nor weights nor the number of agents. -/
theorem C29_iteration [Zero F] [Add F] [Mul F] [Sub F] [Neg F] [LT F] [DecidableLT F] {s : DeGroot F} (h : s.Ready) :
    ∃ s', s.iteration = .ok s' ∧ s'.Ready ∧ s'.network.neighbours = s.network.neighbours ∧
      s'.network.weights = s.network.weights ∧ s'.network.direction = s.network.direction ∧
      s'.network.agents.length = s.network.agents.length ∧
      ∀ i, i < s.network.agents.length →
        opinionOf s'.network.agents i = weightedSumLR s.network (opinionOf s.network.agents) i := by
  refine ⟨_, DeGroot.iteration_eq h.wf h.copy, ⟨⟨?_, ?_, ?_, ?_⟩, ?_⟩, rfl, rfl, rfl, ?_, ?_⟩
  · simp [DeGroot.stepAgents_length, h.wf.rows]
  · simp [DeGroot.stepAgents_length, h.wf.wrows]
  · exact h.wf.lengths
  · simpa [DeGroot.stepAgents_length] using h.wf.range
  · rfl
  · exact DeGroot.stepAgents_length _
  · intro i hi
    rw [DeGroot.opinionOf_lt (by simpa [DeGroot.stepAgents_length] using hi)]
    simp [DeGroot.stepAgents]

theorem weightedSumLR_eq [Semiring F] {A : Type} (N : Network A F) (x : Nat → F) (i : Nat) : weightedSumLR N x i = weightedSum N x i := by
  unfold weightedSumLR weightedSum
  rw [List.sum_eq_foldl, List.foldl_map]

/-- C29 in exact arithmetic: `x_i' = Σ_j w_ij x_j`. -/
theorem C29_exact [Ring F] [LT F] [DecidableLT F] {s s' : DeGroot F} (h : s.Ready) (hs : s.iteration = .ok s') :
    ∀ i, i < s.network.agents.length → opinionOf s'.network.agents i = weightedSum s.network (opinionOf s.network.agents) i := by
  obtain ⟨t, h1, -, -, -, -, -, h2⟩ := C29_iteration h
  obtain rfl := Except.ok.inj (h1.symm.trans hs)
  intro i hi
  rw [h2 i hi, weightedSumLR_eq]

theorem WF.inRange {A W : Type} {N : Network A W} (h : WF N) : InRange N.neighbours := by
  intro row hrow j hj
  rw [h.rows]; exact h.range row hrow j hj

/-- C29: the constructor does not fail on a well-formed network, leaves the edges alone, sets the opinions to `i/n`, and its
result is ready for iterations.  The warning about components is printed iff the component search does not return exactly
one component. -/
theorem C29_constructor [Zero F] [NatCast F] [Div F] {N : Network (SimpleAgent F) F} (h : WF N) (max : Option Int) (tol : F) :
    ∃ (s : DeGroot F) (comps : List (List Nat)), Tarjan.scc N N.neighbours.length = .ok comps ∧
      DeGroot.create max tol N = .ok (s, decide (comps.length ≠ 1)) ∧ s.Ready ∧
      s.network.neighbours = N.neighbours ∧ s.network.weights = N.weights ∧ s.network.direction = N.direction ∧
      s.network.agents.length = N.agents.length ∧ s.tol = tol ∧ s.maxDiff = none ∧
      s.counter = ⟨max.map Network.toSize, 0⟩ ∧
      ∀ i, i < N.agents.length → opinionOf s.network.agents i = (i : F) / (N.agents.length : F) := by
  obtain ⟨L, hL, -, -⟩ := C08_scc_partition (WF.inRange h)
  have hL' := hL _ (le_refl _)
  let ag : List (SimpleAgent F) := (List.range N.agents.length).map (fun i : Nat => ⟨(i : F) / (N.agents.length : F)⟩)
  refine ⟨⟨⟨max.map Network.toSize, 0⟩, tol, none, { N with agents := ag }, N.agents⟩, L, hL', ?_, ⟨⟨?_, ?_, ?_, ?_⟩, ?_⟩,
    rfl, rfl, rfl, ?_, rfl, rfl, rfl, ?_⟩
  · simp only [DeGroot.create, hL', DeGroot.spread_eq, Res.bind_ok, ag]
  · simp [ag, h.rows]
  · simp [ag, h.wrows]
  · exact h.lengths
  · simpa [ag] using h.range
  · simp [ag]
  · simp [ag]
  · intro i hi
    simp [ag, opinionOf, opinions, hi]

/-! ## any number of iterations -/

theorem DeGroot.Ready.reset {s : DeGroot F} (h : s.Ready) : s.reset.Ready := ⟨h.wf, h.copy⟩

/-- Everything except the opinions, the counter and the recorded change stays the same over any number of iterations. -/
theorem DeGroot.iterates_ready [Zero F] [Add F] [Mul F] [Sub F] [Neg F] [LT F] [DecidableLT F] {k : Nat} {s t : DeGroot F}
    (hk : Iterates DeGroot.iteration s k t) (h : s.Ready) :
    t.Ready ∧ t.network.neighbours = s.network.neighbours ∧ t.network.weights = s.network.weights ∧
      t.network.agents.length = s.network.agents.length := by
  induction hk with
  | zero => exact ⟨h, rfl, rfl, rfl⟩
  | succ _ h' ih =>
    obtain ⟨h1, h2, h3, h4⟩ := ih
    obtain ⟨u', e, g1, g2, g3, -, g5, -⟩ := C29_iteration h1
    obtain rfl := Except.ok.inj (e.symm.trans h')
    exact ⟨g1, g2.trans h2, g3.trans h3, g5.trans h4⟩

/-- C29: any number of iterations succeeds. -/
theorem C29_any_number [Zero F] [Add F] [Mul F] [Sub F] [Neg F] [LT F] [DecidableLT F] {s : DeGroot F} (h : s.Ready) (k : Nat) :
    ∃ t, Iterates DeGroot.iteration s k t := by
  induction k with
  | zero => exact ⟨s, .zero⟩
  | succ k ih =>
    obtain ⟨t, ht⟩ := ih
    obtain ⟨u, hu, -⟩ := C29_iteration (DeGroot.iterates_ready ht h).1
    exact ⟨u, .succ ht hu⟩

theorem row_congr {A B : Type} {N : Network A F} {M : Network B F} (h1 : N.neighbours = M.neighbours) (h2 : N.weights = M.weights) (i : Nat) :
    row N i = row M i := by unfold row; rw [h1, h2]

/-! ## C30 -/

/-- C30: with non-negative weights and rows summing to one, opinions never leave an interval that contains all starting
opinions, however many iterations are made. -/
theorem C30_hull [Ring F] [LinearOrder F] [IsStrictOrderedRing F] {k : Nat} {s t : DeGroot F} (h : s.Ready)
    (hw : RowStochastic s.network) (hk : Iterates DeGroot.iteration s k t) {lo hi : F}
    (hx : ∀ i, i < s.network.agents.length → lo ≤ opinionOf s.network.agents i ∧ opinionOf s.network.agents i ≤ hi) :
    ∀ i, i < s.network.agents.length → lo ≤ opinionOf t.network.agents i ∧ opinionOf t.network.agents i ≤ hi := by
  induction hk with
  | zero => exact hx
  | succ hit h' ih =>
    obtain ⟨h1, h2, h3, h4⟩ := DeGroot.iterates_ready hit h
    intro i hi'
    rw [C29_exact h1 h' i (by omega)]
    unfold weightedSum
    rw [row_congr h2 h3]
    have hlt : ∀ e ∈ row s.network i, e.1 < s.network.agents.length := fun e he => NetLemmas.row_lt h.wf he
    exact ⟨Averaging.le_avg (hw.nonneg i hi') (hw.sum i hi') (fun e he => (ih e.1 (hlt e he)).1),
      Averaging.avg_le (hw.nonneg i hi') (hw.sum i hi') (fun e he => (ih e.1 (hlt e he)).2)⟩

/-- C30: a consensus stays a consensus, with the same value. -/
theorem C30_consensus [Ring F] [LinearOrder F] [IsStrictOrderedRing F] {k : Nat} {s t : DeGroot F} (h : s.Ready)
    (hw : RowStochastic s.network) (hk : Iterates DeGroot.iteration s k t) {c : F}
    (hx : ∀ i, i < s.network.agents.length → opinionOf s.network.agents i = c) :
    ∀ i, i < s.network.agents.length → opinionOf t.network.agents i = c := by
  intro i hi
  have := C30_hull h hw hk (lo := c) (hi := c) (fun i hi => by rw [hx i hi]; exact ⟨le_refl _, le_refl _⟩) i hi
  exact le_antisymm this.2 this.1

/-- C30: the dynamics commutes with affine rescaling: if the opinions of `s₂` are `a x + b` for the opinions `x` of `s₁` on
the same weighted network, this stays so forever. -/
theorem C30_affine [CommRing F] [LinearOrder F] [IsStrictOrderedRing F] {k : Nat} {s₁ s₂ t₁ t₂ : DeGroot F} (h₁ : s₁.Ready) (h₂ : s₂.Ready)
    (hw : RowStochastic s₁.network) (hn : s₂.network.neighbours = s₁.network.neighbours)
    (hws : s₂.network.weights = s₁.network.weights) (hl : s₂.network.agents.length = s₁.network.agents.length) (a b : F)
    (hx : ∀ i, i < s₁.network.agents.length → opinionOf s₂.network.agents i = a * opinionOf s₁.network.agents i + b)
    (hk₁ : Iterates DeGroot.iteration s₁ k t₁) (hk₂ : Iterates DeGroot.iteration s₂ k t₂) :
    ∀ i, i < s₁.network.agents.length → opinionOf t₂.network.agents i = a * opinionOf t₁.network.agents i + b := by
  induction hk₁ generalizing t₂ with
  | zero => cases hk₂; exact hx
  | succ hit₁ h₁' ih =>
    cases hk₂ with
    | succ hit₂ h₂' =>
      have ih := ih hit₂
      obtain ⟨p1, p2, p3, p4⟩ := DeGroot.iterates_ready hit₁ h₁
      obtain ⟨q1, q2, q3, q4⟩ := DeGroot.iterates_ready hit₂ h₂
      intro i hi
      rw [C29_exact p1 h₁' i (by omega), C29_exact q1 h₂' i (by omega)]
      unfold weightedSum
      rw [row_congr p2 p3, row_congr (q2.trans hn) (q3.trans hws)]
      have hlt : ∀ e ∈ row s₁.network i, e.1 < s₁.network.agents.length := fun e he => NetLemmas.row_lt h₁.wf he
      rw [← Averaging.avg_affine a b (fun w _ => mul_comm w a) (hw.sum i hi)]
      congr 1
      apply List.map_congr_left
      intro e he
      rw [ih e.1 (hlt e he)]

/-! ## C31 -/

/-- The run may stop after `k` iterations: the iteration limit is reached, or the last iteration changed no opinion by
`tol` or more (`x k i` is the opinion of agent `i` after `k` iterations). -/
def DeGrootStops [Ring F] [LinearOrder F] (max : Option Nat) (tol : F) (n : Nat) (x : Nat → Nat → F) (k : Nat) : Prop :=
  (∃ m, max = some m ∧ m ≤ k) ∨ (1 ≤ k ∧ 0 < tol ∧ ∀ i, i < n → |x k i - x (k - 1) i| < tol)

theorem cabs_eq [Ring F] [LinearOrder F] [IsStrictOrderedRing F] (x : F) : cabs x = |x| := by
  unfold cabs
  split
  · next h => rw [abs_of_neg h]
  · next h => rw [abs_of_nonneg (not_lt.mp h)]

theorem cmax_eq [LinearOrder F] (a b : F) : cmax a b = max a b := by
  unfold cmax
  split
  · next h => rw [max_eq_right h.le]
  · next h => rw [max_eq_left (not_lt.mp h)]

theorem maxChange_lt [Ring F] [LinearOrder F] [IsStrictOrderedRing F] {old new : List (SimpleAgent F)} (hl : new.length = old.length) (tol : F) :
    DeGroot.maxChange old new < tol ↔ 0 < tol ∧ ∀ i, i < old.length → |opinionOf new i - opinionOf old i| < tol := by
  unfold DeGroot.maxChange
  have key : ∀ (L : List (SimpleAgent F × SimpleAgent F)) (m : F),
      L.foldl (fun m e => cmax m (cabs (e.1.opinion - e.2.opinion))) m < tol ↔ m < tol ∧ ∀ e ∈ L, |e.2.opinion - e.1.opinion| < tol := by
    intro L
    induction L with
    | nil => intro m; simp
    | cons e L ih =>
      intro m
      rw [List.foldl_cons, ih, cmax_eq, cabs_eq, max_lt_iff, abs_sub_comm]
      simp only [List.mem_cons, forall_eq_or_imp]
      tauto
  rw [key]
  refine and_congr_right fun _ => ⟨fun h i hi => ?_, fun h e he => ?_⟩
  · have := h (old[i], new[i]'(by omega)) (by
      rw [List.mem_iff_getElem]
      exact ⟨i, by simp; omega, by simp⟩)
    rw [DeGroot.opinionOf_lt hi, DeGroot.opinionOf_lt (by omega)]
    exact this
  · obtain ⟨i, hi, rfl⟩ := List.mem_iff_getElem.mp he
    have hi' : i < old.length := by simp at hi; omega
    have := h i hi'
    rw [DeGroot.opinionOf_lt hi', DeGroot.opinionOf_lt (by omega)] at this
    simpa using this

theorem DeGroot.counts [Zero F] [Add F] [Mul F] [Sub F] [Neg F] [LT F] [DecidableLT F] : (DeGroot.machine (F := F)).Counts where
  reset _ := rfl
  iteration := by
    intro s t h
    simp only [DeGroot.machine, DeGroot.iteration] at h
    obtain ⟨c, -, h⟩ := Res.bind_eq_ok.mp h
    obtain ⟨r, -, h⟩ := Res.bind_eq_ok.mp h
    have := Except.ok.inj h
    subst this
    rfl

/-- No iteration has settled the model so far: it is fresh, or the last iteration changed some opinion by `tol` or more. -/
def DeGroot.Unsettled [LT F] (s : DeGroot F) : Prop := ∀ d, s.maxDiff = some d → ¬ d < s.tol

theorem DeGroot.Unsettled.of_fresh [LT F] {s : DeGroot F} (h : s.maxDiff = none) : s.Unsettled := by
  intro d hd
  rw [h] at hd; cases hd

/-- States along a sequence of iterations of a model that has not settled: the model considers itself finished after `k` iterations iff the
stopping rule says so. -/
theorem DeGroot.finished_iff [Ring F] [LinearOrder F] [IsStrictOrderedRing F] {s : DeGroot F} (h : s.Ready) (hfresh : s.Unsettled)
    {st : Nat → DeGroot F} (h0 : st 0 = s.reset) {K : Nat} (hstep : ∀ k, k < K → (st k).iteration = .ok (st (k + 1))) :
    ∀ k, k ≤ K → (st k).Ready ∧ (st k).network.agents.length = s.network.agents.length ∧
      (st k).network.neighbours = s.network.neighbours ∧ (st k).network.weights = s.network.weights ∧
      ((st k).finished = true ↔ DeGrootStops s.counter.maxIterations s.tol s.network.agents.length
        (fun k => opinionOf (st k).network.agents) k) := by
  have inv : ∀ k, k ≤ K → (st k).Ready ∧ (st k).network.agents.length = s.network.agents.length ∧ (st k).tol = s.tol ∧
      (st k).counter = ⟨s.counter.maxIterations, k⟩ ∧
      (st k).network.neighbours = s.network.neighbours ∧ (st k).network.weights = s.network.weights ∧
      ((k = 0 ∧ (st k).Unsettled) ∨ (1 ≤ k ∧ ∃ d, (st k).maxDiff = some d ∧
        d = DeGroot.maxChange (st (k - 1)).network.agents (st k).network.agents)) := by
    intro k
    induction k with
    | zero =>
      intro _
      rw [h0]
      exact ⟨h.reset, rfl, rfl, rfl, rfl, rfl, Or.inl ⟨rfl, hfresh⟩⟩
    | succ k ih =>
      intro hk
      obtain ⟨i1, i2, i3, i4, i5, i6, -⟩ := ih (by omega)
      have e := DeGroot.iteration_eq i1.wf i1.copy
      have e' := Except.ok.inj (e.symm.trans (hstep k (by omega)))
      obtain ⟨u, hu, g1, g2, g3, -, g5, -⟩ := C29_iteration i1
      obtain rfl := Except.ok.inj (hu.symm.trans (hstep k (by omega)))
      refine ⟨g1, g5.trans i2, ?_, ?_, g2.trans i5, g3.trans i6, Or.inr ⟨by omega, ?_⟩⟩
      · rw [← e']; exact i3
      · rw [← e']; simp only [i4, Counter.tick]
      · rw [← e']; exact ⟨_, rfl, rfl⟩
  intro k hk
  obtain ⟨i1, i2, i3, i4, i5, i6, i7⟩ := inv k hk
  refine ⟨i1, i2, i5, i6, ?_⟩
  unfold DeGroot.finished DeGrootStops
  rw [i4]
  simp only [Bool.or_eq_true]
  refine or_congr ?_ ?_
  · unfold Counter.finished
    cases s.counter.maxIterations with
    | none => simp
    | some m => simp
  · rcases i7 with ⟨rfl, hd⟩ | ⟨h1, d, hd, hd'⟩
    · constructor
      · intro hf
        split at hf
        · next d e => exact absurd (of_decide_eq_true hf) (hd d e)
        · cases hf
      · intro hf
        omega
    · rw [hd]
      simp only [decide_eq_true_eq]
      have hprev := inv (k - 1) (by omega)
      rw [hd', i3, maxChange_lt (by rw [i2, hprev.2.1]), hprev.2.1]
      exact ⟨fun ⟨a, b⟩ => ⟨h1, a, b⟩, fun ⟨_, a, b⟩ => ⟨a, b⟩⟩

/-- C31: a run of a freshly constructed model (`Unsettled.of_fresh`) stops after the first iteration at which the stopping rule holds, not earlier
and not later. -/
theorem C31_stop [Ring F] [LinearOrder F] [IsStrictOrderedRing F] {s : DeGroot F} (h : s.Ready) (hfresh : s.Unsettled) {K : Nat}
    {st : Nat → DeGroot F} (hrun : IsRun DeGroot.machine s.reset K st) :
    DeGrootStops s.counter.maxIterations s.tol s.network.agents.length (fun k => opinionOf (st k).network.agents) K ∧
    ∀ k, k < K → ¬ DeGrootStops s.counter.maxIterations s.tol s.network.agents.length (fun k => opinionOf (st k).network.agents) k := by
  have key := DeGroot.finished_iff h hfresh hrun.start hrun.step
  refine ⟨(key K (le_refl _)).2.2.2.2.mp hrun.stop, fun k hk hs => ?_⟩
  have h1 := (key k (by omega)).2.2.2.2.mpr hs
  have h2 : (st k).finished = false := hrun.going k hk
  rw [h1] at h2; cases h2

/-- The states of successive iterations. -/
theorem DeGroot.exists_states [Ring F] [LinearOrder F] [IsStrictOrderedRing F] {s : DeGroot F} (h : s.Ready) :
    ∃ st : Nat → DeGroot F, st 0 = s ∧ ∀ k, (st k).iteration = .ok (st (k + 1)) ∧ (st k).Ready := by
  classical
  let nxt : DeGroot F → DeGroot F := fun s => match s.iteration with | .ok t => t | .error _ => s
  let st : Nat → DeGroot F := fun k => Nat.rec s (fun _ t => nxt t) k
  have hr : ∀ k, (st k).Ready := by
    intro k
    induction k with
    | zero => exact h
    | succ k ih =>
      obtain ⟨u, hu, hr, -⟩ := C29_iteration ih
      have : st (k + 1) = u := by show nxt (st k) = u; simp only [nxt, hu]
      rw [this]; exact hr
  refine ⟨st, rfl, fun k => ⟨?_, hr k⟩⟩
  obtain ⟨u, hu, -⟩ := C29_iteration (hr k)
  have : st (k + 1) = u := by show nxt (st k) = u; simp only [nxt, hu]
  rw [this]; exact hu

/-- C31: the run exists as soon as the stopping rule holds at some time; in particular it always exists with an iteration
limit. -/
theorem C31_exists [Ring F] [LinearOrder F] [IsStrictOrderedRing F] {s : DeGroot F} (h : s.Ready) (hfresh : s.Unsettled)
    {st : Nat → DeGroot F} (h0 : st 0 = s.reset) (hstep : ∀ k, (st k).iteration = .ok (st (k + 1)))
    (hex : ∃ k, DeGrootStops s.counter.maxIterations s.tol s.network.agents.length (fun k => opinionOf (st k).network.agents) k) :
    ∃ K, IsRun DeGroot.machine s.reset K st := by
  classical
  have key := fun K => DeGroot.finished_iff h hfresh h0 (K := K) (fun k _ => hstep k)
  refine ⟨Nat.find hex, h0, fun k hk => ?_, fun k _ => hstep k, (key _ _ (le_refl _)).2.2.2.2.mpr (Nat.find_spec hex)⟩
  have := Nat.find_min hex hk
  rw [← (key k k (le_refl _)).2.2.2.2] at this
  simpa [DeGroot.machine] using this

/-- C31 with an iteration limit `m`: the run exists and makes at most `m` iterations, with only well-formed networks. -/
theorem C31_limit [Ring F] [LinearOrder F] [IsStrictOrderedRing F] {s : DeGroot F} (h : s.Ready) (hfresh : s.Unsettled)
    {m : Nat} (hm : s.counter.maxIterations = some m) :
    ∃ (K : Nat) (st : Nat → DeGroot F), IsRun DeGroot.machine s.reset K st ∧ K ≤ m ∧ ∀ k, (st k).Ready := by
  obtain ⟨st, h0, hst⟩ := DeGroot.exists_states h.reset
  obtain ⟨K, hrun⟩ := C31_exists h hfresh h0 (fun k => (hst k).1) ⟨m, Or.inl ⟨m, hm, le_refl _⟩⟩
  refine ⟨K, st, hrun, ?_, fun k => (hst k).2⟩
  by_contra hc
  exact (C31_stop h hfresh hrun).2 m (by omega) (Or.inl ⟨m, hm, le_refl _⟩)

/-! ## C32 -/

/-- Agent `i` listens to agent `j`: some stored entry with positive weight. -/
def Listens [Zero F] [LT F] {A : Type} (N : Network A F) (i j : Nat) : Prop := ∃ w, (j, w) ∈ row N i ∧ 0 < w

/-- C32: with a positive tolerance the run terminates (whatever the iteration limit) on every row-stochastic network whose
agents all listen to themselves and in which some agent is listened to, directly or indirectly, by everybody; this includes
all strongly connected networks with positive self-weights. -/
theorem C32_terminates [Field F] [LinearOrder F] [IsStrictOrderedRing F] [Archimedean F] {s : DeGroot F} (h : s.Ready)
    (hfresh : s.Unsettled) (hw : RowStochastic s.network) (htol : 0 < s.tol)
    (hself : ∀ i, i < s.network.agents.length → Listens s.network i i) {r : Nat} (hr : r < s.network.agents.length)
    (hroot : ∀ i, i < s.network.agents.length → Relation.ReflTransGen (Listens s.network) i r) :
    ∃ (K : Nat) (st : Nat → DeGroot F), IsRun DeGroot.machine s.reset K st := by
  obtain ⟨st, h0, hst⟩ := DeGroot.exists_states h.reset
  have key := fun K => DeGroot.finished_iff h hfresh h0 (K := K) (fun k _ => (hst k).1)
  have P : Averaging.Process s.network.agents.length (row s.network) (fun k => opinionOf (st k).network.agents) := by
    refine ⟨fun i _ e he => NetLemmas.row_lt h.wf he, hw.nonneg, hw.sum, ?_⟩
    intro t i hi
    obtain ⟨k1, k2, k3, k4, -⟩ := key t t (le_refl _)
    have := C29_exact k1 (hst t).1 i (by rw [k2]; exact hi)
    simp only [this]
    unfold weightedSum
    rw [row_congr k3 k4]
  obtain ⟨t, lo, hi, hbox, hlt⟩ := P.converges hself hr hroot htol
  have hlast : ∀ i, i < s.network.agents.length →
      |opinionOf (st (t + 1)).network.agents i - opinionOf (st t).network.agents i| < s.tol := by
    intro i hi'
    have b1 := hbox i hi'
    have b2l := P.lower (t0 := t) (fun j hj => (hbox j hj).1) 1 i hi'
    have b2u := P.upper (t0 := t) (fun j hj => (hbox j hj).2) 1 i hi'
    rw [abs_lt]
    constructor <;> linarith [b1.1, b1.2]
  obtain ⟨K, hrun⟩ := C31_exists h hfresh h0 (fun k => (hst k).1) ⟨t + 1, Or.inr ⟨by omega, htol, hlast⟩⟩
  exact ⟨K, st, hrun⟩

/-- C32 for strongly connected networks. -/
theorem C32_strongly_connected [Field F] [LinearOrder F] [IsStrictOrderedRing F] [Archimedean F] {s : DeGroot F} (h : s.Ready)
    (hfresh : s.Unsettled) (hw : RowStochastic s.network) (htol : 0 < s.tol) (hn : 0 < s.network.agents.length)
    (hself : ∀ i, i < s.network.agents.length → Listens s.network i i)
    (hconn : ∀ i j, i < s.network.agents.length → j < s.network.agents.length → Relation.ReflTransGen (Listens s.network) i j) :
    ∃ (K : Nat) (st : Nat → DeGroot F), IsRun DeGroot.machine s.reset K st :=
  C32_terminates h hfresh hw htol hself hn (fun i hi => hconn i 0 hi hn)

/-- The periodic network: two agents that only listen to each other. -/
def swapNet (x y : ℚ) : Network (SimpleAgent ℚ) ℚ where
  agents := [⟨x⟩, ⟨y⟩]
  neighbours := [[1], [0]]
  weights := [[1], [1]]
  direction := .incoming

theorem swapNet_wf (x y : ℚ) : WF (swapNet x y) := by
  refine ⟨rfl, rfl, ?_, ?_⟩
  · intro i h h'
    simp only [swapNet, List.length_cons, List.length_nil] at h
    match i, h with
    | 0, _ => rfl
    | 1, _ => rfl
  · intro row hrow j hj
    simp only [swapNet, List.mem_cons, List.not_mem_nil, or_false] at hrow
    rcases hrow with rfl | rfl <;> simp at hj <;> simp [swapNet, hj]

theorem swapNet_stochastic (x y : ℚ) : RowStochastic (swapNet x y) := by
  constructor
  · intro i hi e he
    simp only [swapNet, List.length_cons, List.length_nil] at hi
    match i, hi with
    | 0, _ => simp [swapNet, row] at he; simp [he]
    | 1, _ => simp [swapNet, row] at he; simp [he]
  · intro i hi
    simp only [swapNet, List.length_cons, List.length_nil] at hi
    match i, hi with
    | 0, _ => simp [swapNet, row]
    | 1, _ => simp [swapNet, row]

theorem swap_step (x y : ℚ) (s : DeGroot ℚ) (hs : s.network = swapNet x y) (hc : s.copy.length = 2) :
    ∃ t, s.iteration = .ok t ∧ t.network = swapNet y x ∧ t.copy.length = 2 ∧ t.maxDiff = some |x - y| ∧ t.tol = s.tol ∧
      t.counter.maxIterations = s.counter.maxIterations := by
  have hst : DeGroot.stepAgents (swapNet x y) = [⟨y⟩, ⟨x⟩] := by
    simp [DeGroot.stepAgents, swapNet, weightedSumLR, row, opinionOf, opinions, List.range_succ]
  refine ⟨_, DeGroot.iteration_eq (by rw [hs]; exact swapNet_wf x y) (by rw [hc, hs]; rfl), ?_, ?_, ?_, rfl, rfl⟩
  · rw [hs, hst]; rfl
  · rw [hs, hst]; rfl
  · simp only [hs, hst]
    rw [show (swapNet x y).agents = [⟨x⟩, ⟨y⟩] from rfl]
    simp [DeGroot.maxChange, cmax_eq, cabs_eq, abs_sub_comm y x]

/-- C32, the exception: the strongly connected, row-stochastic network of two agents that only listen to each other, with
the opinions `0, 1/2` set by the constructor, never stops without an iteration limit if `tol ≤ 1/2`. -/
theorem C32_periodic {tol : ℚ} (htol : tol ≤ 1 / 2) :
    ∃ s b, DeGroot.create none tol (swapNet 0 0) = .ok (s, b) ∧ s.network = swapNet 0 (1 / 2) ∧
      ∀ R o fuel t, Simulation.run DeGroot.machine R o fuel s ≠ .ok t := by
  obtain ⟨s, comps, -, h1, h2, h3, h4, h5, h6, h7, h8, h9, h10⟩ := C29_constructor (swapNet_wf 0 0) none tol
  have hnet : s.network = swapNet 0 (1 / 2) := by
    have hl : s.network.agents.length = 2 := h6
    have e0 := h10 0 (by simp [swapNet])
    have e1 := h10 1 (by simp [swapNet])
    rw [DeGroot.opinionOf_lt (by omega)] at e0 e1
    have ha : s.network.agents = [⟨0⟩, ⟨1 / 2⟩] := by
      match hh : s.network.agents, hl with
      | [⟨a⟩, ⟨b⟩], _ =>
        simp [hh, swapNet] at e0 e1
        simp [e0, e1]
    cases hN : s.network with
    | mk a b c d =>
      rw [hN] at ha h3 h4 h5
      simp only at ha h3 h4 h5
      subst ha h3 h4 h5
      rfl
  refine ⟨s, _, h1, hnet, fun R o fuel t => ?_⟩
  refine C51_never (M := DeGroot.machine)
    (fun s => ∃ x y : ℚ, s.network = swapNet x y ∧ |x - y| = 1 / 2 ∧ s.copy.length = 2 ∧ s.tol = tol ∧
      s.counter.maxIterations = none ∧ (s.maxDiff = none ∨ s.maxDiff = some (1 / 2))) ?_ ?_ ?_ R o fuel ?_ t
  · rintro s ⟨x, y, a1, a2, a3, a4, a5, a6⟩
    exact ⟨x, y, a1, a2, a3, a4, a5, a6⟩
  · rintro s t ⟨x, y, a1, a2, a3, a4, a5, a6⟩ ht
    obtain ⟨u, b1, b2, b3, b4, b5, b6⟩ := swap_step x y s a1 a3
    obtain rfl := Except.ok.inj (b1.symm.trans ht)
    exact ⟨y, x, b2, by rw [abs_sub_comm]; exact a2, b3, b5.trans a4, b6.trans a5, Or.inr (by rw [b4, a2])⟩
  · rintro s ⟨x, y, a1, a2, a3, a4, a5, a6⟩
    simp only [DeGroot.machine, DeGroot.finished, Counter.finished, a5, a4, Bool.false_or]
    rcases a6 with a6 | a6
    · rw [a6]
    · rw [a6]; simpa using htol
  · refine ⟨0, 1 / 2, hnet, by norm_num [abs_of_neg], ?_, h7, by rw [h9]; rfl, Or.inl h8⟩
    rw [h2.copy, hnet]; rfl

/-! ## The hypotheses are met by concrete networks -/

/-- Two agents, one of which listens to both: ready, row-stochastic, aperiodic and connected. -/
def mixNet : Network (SimpleAgent ℚ) ℚ where
  agents := [⟨0⟩, ⟨1⟩]
  neighbours := [[0, 1], [1, 0]]
  weights := [[1 / 4, 3 / 4], [1 / 2, 1 / 2]]
  direction := .incoming

def mixModel : DeGroot ℚ := { counter := ⟨none, 0⟩, tol := 1 / 100, maxDiff := none, network := mixNet, copy := mixNet.agents }

example : mixModel.iteration.map (fun s => opinions s.network.agents) = .ok [3 / 4, 1 / 2] := by decide +kernel

example : mixModel.Ready ∧ RowStochastic mixModel.network ∧ (∀ i, i < 2 → Listens mixModel.network i i) ∧
    (∀ i, i < 2 → Relation.ReflTransGen (Listens mixModel.network) i 0) := by
  have hL : ∀ i, i < 2 → Listens mixModel.network i i := by
    intro i hi
    match i, hi with
    | 0, _ => exact ⟨1 / 4, by simp [mixModel, mixNet, row], by norm_num⟩
    | 1, _ => exact ⟨1 / 2, by simp [mixModel, mixNet, row], by norm_num⟩
  refine ⟨⟨⟨rfl, rfl, ?_, ?_⟩, rfl⟩, ⟨?_, ?_⟩, hL, ?_⟩
  · intro i h h'
    simp only [mixModel, mixNet, List.length_cons, List.length_nil] at h
    match i, h with
    | 0, _ => rfl
    | 1, _ => rfl
  · intro row hrow j hj
    simp only [mixModel, mixNet, List.mem_cons, List.not_mem_nil, or_false] at hrow
    rcases hrow with rfl | rfl <;> simp at hj <;> rcases hj with rfl | rfl <;> simp [mixModel, mixNet]
  · intro i hi e he
    simp only [mixModel, mixNet, List.length_cons, List.length_nil] at hi
    match i, hi with
    | 0, _ => simp [mixModel, mixNet, row] at he; rcases he with rfl | rfl <;> norm_num
    | 1, _ => simp [mixModel, mixNet, row] at he; rcases he with rfl | rfl <;> norm_num
  · intro i hi
    simp only [mixModel, mixNet, List.length_cons, List.length_nil] at hi
    match i, hi with
    | 0, _ => simp [mixModel, mixNet, row]; norm_num
    | 1, _ => simp [mixModel, mixNet, row]; norm_num
  · intro i hi
    match i, hi with
    | 0, _ => exact .refl
    | 1, _ => exact .single ⟨1 / 2, by simp [mixModel, mixNet, row], by norm_num⟩

end Seldon
