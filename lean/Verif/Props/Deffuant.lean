import Verif.Lemmas.DeffuantVector
import Verif.Props.Simulation
import Verif.Props.NetworkGen
import Verif.Props.Sampling
import Mathlib.Algebra.BigOperators.Fin
/-!
# Properties C33–C41: the Deffuant models, and C51 for them
-/
namespace Seldon
open Spec
variable {A F G : Type}

namespace Deffuant

/-! ## helpers -/

theorem sum_opinions [AddCommMonoid F] (agents : List (SimpleAgent F)) :
    (opinions agents).sum = ∑ i ∈ Finset.range agents.length, opinionOf agents i := by
  have h : ∀ l : List F, l.sum = ∑ i ∈ Finset.range l.length, l.getD i 0 := by
    intro l
    rw [Finset.sum_range, ← List.sum_ofFn]
    congr 1
    apply List.ext_getElem
    · simp
    · intro i h1 h2
      simp [h1]
  rw [h]
  simp [opinionOf, opinions]

theorem mem_opinions [Zero F] {agents : List (SimpleAgent F)} {x : F} :
    x ∈ opinions agents ↔ ∃ i, i < agents.length ∧ opinionOf agents i = x := by
  unfold opinionOf opinions
  rw [List.mem_iff_getElem]
  constructor
  · rintro ⟨i, h, rfl⟩
    exact ⟨i, by simpa using h, by rw [getD_lt _ _ h]⟩
  · rintro ⟨i, h, rfl⟩
    exact ⟨i, by simpa using h, by rw [getD_lt _ _ (by simpa using h)]⟩

/-- Successful interactions keep the counter, whatever the update rule, if the rule does. -/
theorem iteration_counter {r : Rng G F} {update : Nat → Nat → Deffuant A F G → Res (Deffuant A F G)}
    (hu : ∀ a b s t, update a b s = .ok t → t.counter = s.counter) {s t : Deffuant A F G} (h : iteration r update s = .ok t) :
    t.counter = s.counter.tick := by
  refine loop_ok (σ := Deffuant A F G) (f := fun _ s => interact r update s) (fun _ t => t.counter = s.counter.tick) ?_ ?_ h
  · intro i u v hI hv
    obtain ⟨a, b, g, -, -, h⟩ := interact_ok hv
    rw [hu _ _ _ _ h]; exact hI
  · rfl

theorem updateRule_counter [Add F] [Mul F] [Sub F] [Zero F] [Neg F] [LT F] [DecidableLT F] (a b : Nat)
    (s t : Deffuant (SimpleAgent F) F G) (h : updateRule a b s = .ok t) : t.counter = s.counter := by
  obtain ⟨x, -, h⟩ := Res.bind_eq_ok.mp h
  obtain ⟨y, -, h⟩ := Res.bind_eq_ok.mp h
  simp only at h
  split at h
  · obtain ⟨l, -, h⟩ := Res.bind_eq_ok.mp h
    obtain ⟨z, -, h⟩ := Res.bind_eq_ok.mp h
    obtain ⟨l', -, h⟩ := Res.bind_eq_ok.mp h
    rw [← Except.ok.inj h]
  · rw [← Except.ok.inj h]

theorem updateVector_counter [LT F] [DecidableLT F] [IntCast F] (r : Rng G F) (a b : Nat)
    (s t : Deffuant DiscreteVectorAgent F G) (h : updateVector r a b s = .ok t) : t.counter = s.counter := by
  obtain ⟨x, -, h⟩ := Res.bind_eq_ok.mp h
  obtain ⟨y, -, h⟩ := Res.bind_eq_ok.mp h
  obtain ⟨d, -, h⟩ := Res.bind_eq_ok.mp h
  split at h
  · obtain ⟨l, -, h⟩ := Res.bind_eq_ok.mp h
    rw [← Except.ok.inj h]
  · rw [← Except.ok.inj h]

theorem counts {r : Rng G F} {update : Nat → Nat → Deffuant A F G → Res (Deffuant A F G)}
    (hu : ∀ a b s t, update a b s = .ok t → t.counter = s.counter) : (machine r update).Counts where
  reset _ := rfl
  iteration s t h := by
    show t.counter.nIterations = s.counter.nIterations + 1
    rw [iteration_counter hu h]; rfl

end Deffuant

section scalar
variable [CommRing F] [LinearOrder F] [IsStrictOrderedRing F]

/-! ## C33 -/

/-- C33: the sum of all opinions is the same after any number of iterations, whatever the random numbers (`r` is an arbitrary
generator, `s` an arbitrary state, any `mu` and threshold). -/
theorem C33_sum {r : Rng G F} {k : Nat} {s t : Deffuant (SimpleAgent F) F G}
    (h : Iterates (Deffuant.iteration r Deffuant.updateRule) s k t) :
    (opinions t.network.agents).sum = (opinions s.network.agents).sum := by
  obtain ⟨hF, pairs, -, hp, ho⟩ := Deffuant.iterates_schedule h
  rw [Deffuant.sum_opinions, Deffuant.sum_opinions, hF.n, ho]
  refine Deffuant.meetings_inv _ _
    (fun x => ∑ i ∈ Finset.range s.network.agents.length, x i =
      ∑ i ∈ Finset.range s.network.agents.length, opinionOf s.network.agents i) rfl ?_
  intro p hpp x hx
  rw [Deffuant.meet_sum _ _ (Finset.mem_range.mpr (hp p hpp).1) (Finset.mem_range.mpr (hp p hpp).2)]
  exact hx

/-- C33: a single interaction of any two agents (also of one agent with itself) preserves the sum. -/
theorem C33_interaction {a b : Nat} {s t : Deffuant (SimpleAgent F) F G} (ha : a < s.network.agents.length)
    (hb : b < s.network.agents.length) (h : Deffuant.updateRule a b s = .ok t) :
    (opinions t.network.agents).sum = (opinions s.network.agents).sum := by
  obtain ⟨hF, ho⟩ := Deffuant.updateRule_sound ha hb h
  rw [Deffuant.sum_opinions, Deffuant.sum_opinions, hF.n, ho]
  exact Deffuant.meet_sum _ _ (Finset.mem_range.mpr ha) (Finset.mem_range.mpr hb) _

/-! ## C34 -/

/-- C34: for `0 ≤ mu ≤ 1` the opinions never leave an interval that contains all starting opinions. -/
theorem C34_hull {r : Rng G F} {k : Nat} {s t : Deffuant (SimpleAgent F) F G} (h0 : 0 ≤ s.mu) (h1 : s.mu ≤ 1)
    (h : Iterates (Deffuant.iteration r Deffuant.updateRule) s k t) {lo hi : F}
    (hx : ∀ x ∈ opinions s.network.agents, lo ≤ x ∧ x ≤ hi) : ∀ x ∈ opinions t.network.agents, lo ≤ x ∧ x ≤ hi := by
  obtain ⟨hF, pairs, -, hp, ho⟩ := Deffuant.iterates_schedule h
  intro x hxt
  obtain ⟨i, hi', rfl⟩ := Deffuant.mem_opinions.mp hxt
  rw [hF.n] at hi'
  rw [ho]
  refine Deffuant.meetings_inv _ _ (fun x => ∀ i, i < s.network.agents.length → lo ≤ x i ∧ x i ≤ hi)
    (fun i hi => hx _ (Deffuant.mem_opinions.mpr ⟨i, hi, rfl⟩)) ?_ i hi'
  intro p hpp x hx i hi
  exact Deffuant.meet_box _ h0 h1 (hx _ (hp p hpp).1) (hx _ (hp p hpp).2) (hx i hi)

end scalar

/-- C34: with the default initialisation (`i/n`) all opinions stay in `[0, 1)` forever. -/
theorem C34_default [Field F] [LinearOrder F] [IsStrictOrderedRing F] {r : Rng G F} {k : Nat}
    {s s1 t : Deffuant (SimpleAgent F) F G} (h0 : 0 ≤ s.mu) (h1 : s.mu ≤ 1)
    (hi : Deffuant.initializeAgents s = .ok s1) (h : Iterates (Deffuant.iteration r Deffuant.updateRule) s1 k t) :
    ∀ x ∈ opinions t.network.agents, 0 ≤ x ∧ x < 1 := by
  obtain ⟨ag, e, hi⟩ := Res.bind_eq_ok.mp hi
  rw [DeGroot.spread_eq] at e
  obtain rfl := Except.ok.inj e
  obtain rfl := Except.ok.inj hi
  have hF := (Deffuant.iterates_schedule h).1
  intro x hx
  have hpos : 0 < s.network.agents.length := by
    obtain ⟨i, hi', -⟩ := Deffuant.mem_opinions.mp hx
    rw [hF.n] at hi'
    simp at hi'
    omega
  have hposF : (0 : F) < s.network.agents.length := by exact_mod_cast hpos
  have key := C34_hull (r := r) (k := k) (lo := 0) (hi := ((s.network.agents.length - 1 : Nat) : F) / s.network.agents.length) (t := t)
    (s := { s with network := { s.network with agents := ((List.range s.network.agents.length).map (fun i : Nat => (⟨(i : F) / (s.network.agents.length : F)⟩ : SimpleAgent F))) } })
    h0 h1 h (by
    intro y hy
    obtain ⟨ag, hag, rfl⟩ := List.mem_map.mp hy
    obtain ⟨i, hi', rfl⟩ := List.mem_map.mp hag
    rw [List.mem_range] at hi'
    constructor
    · exact div_nonneg (Nat.cast_nonneg _) hposF.le
    · apply div_le_div_of_nonneg_right _ hposF.le
      exact_mod_cast (by omega : i ≤ s.network.agents.length - 1)) x hx
  refine ⟨key.1, lt_of_le_of_lt key.2 ?_⟩
  rw [div_lt_one hposF]
  exact_mod_cast (by omega : s.network.agents.length - 1 < s.network.agents.length)

section scalar
variable [CommRing F] [LinearOrder F] [IsStrictOrderedRing F]

/-! ## C35 -/

/-- C35: an interaction of the agents `a ≠ b` never fails, touches only these two agents and no edge; it changes nothing if
they differ by at least the threshold; otherwise their difference is multiplied by `1 - 2 mu`, and so is nothing else. -/
theorem C35_interaction {a b : Nat} {s : Deffuant (SimpleAgent F) F G} (ha : a < s.network.agents.length)
    (hb : b < s.network.agents.length) (hab : a ≠ b) : ∃ t, Deffuant.updateRule a b s = .ok t ∧
      t.network.neighbours = s.network.neighbours ∧ t.network.weights = s.network.weights ∧
      t.network.agents.length = s.network.agents.length ∧
      (∀ i, i ≠ a → i ≠ b → opinionOf t.network.agents i = opinionOf s.network.agents i) ∧
      (s.threshold ≤ |opinionOf s.network.agents a - opinionOf s.network.agents b| → t = s) ∧
      (|opinionOf s.network.agents a - opinionOf s.network.agents b| < s.threshold →
        opinionOf t.network.agents a - opinionOf t.network.agents b =
          (1 - 2 * s.mu) * (opinionOf s.network.agents a - opinionOf s.network.agents b) ∧
        opinionOf t.network.agents a + opinionOf t.network.agents b =
          opinionOf s.network.agents a + opinionOf s.network.agents b) := by
  obtain ⟨t, h1, hF, -, -, ho⟩ := Deffuant.updateRule_ok a b s ha hb
  refine ⟨t, h1, hF.neighbours, hF.weights, hF.n, ?_, ?_, ?_⟩
  · intro i hi hi'; rw [ho]; exact Deffuant.meet_other _ _ hi hi' _
  · intro hle
    unfold Deffuant.updateRule at h1
    rw [Deffuant.rd_opinion ha, Res.bind_ok, Deffuant.rd_opinion hb, Res.bind_ok] at h1
    simp only [Deffuant.cabs_abs] at h1
    rw [if_neg (not_lt.mpr hle)] at h1
    exact (Except.ok.inj h1).symm
  · intro hlt
    have e1 : opinionOf t.network.agents a = opinionOf s.network.agents a - s.mu * (opinionOf s.network.agents a - opinionOf s.network.agents b) := by
      rw [ho]; simp [meet, hlt]
    have e2 : opinionOf t.network.agents b = opinionOf s.network.agents b + s.mu * (opinionOf s.network.agents a - opinionOf s.network.agents b) := by
      rw [ho]; simp [meet, hlt, Ne.symm hab]
    rw [e1, e2]
    constructor <;> ring

/-- C35: for `0 ≤ mu ≤ 1` the sum of the squared opinions never increases over any number of iterations. -/
theorem C35_squares {r : Rng G F} {k : Nat} {s t : Deffuant (SimpleAgent F) F G} (h0 : 0 ≤ s.mu) (h1 : s.mu ≤ 1)
    (h : Iterates (Deffuant.iteration r Deffuant.updateRule) s k t) :
    ∑ i ∈ Finset.range s.network.agents.length, opinionOf t.network.agents i ^ 2 ≤
      ∑ i ∈ Finset.range s.network.agents.length, opinionOf s.network.agents i ^ 2 := by
  obtain ⟨hF, pairs, -, hp, ho⟩ := Deffuant.iterates_schedule h
  rw [ho]
  refine Deffuant.meetings_inv _ _
    (fun x => ∑ i ∈ Finset.range s.network.agents.length, x i ^ 2 ≤
      ∑ i ∈ Finset.range s.network.agents.length, opinionOf s.network.agents i ^ 2) (le_refl _) ?_
  intro p hpp x hx
  exact le_trans (Deffuant.meet_sq _ h0 h1 (Finset.mem_range.mpr (hp p hpp).1) (Finset.mem_range.mpr (hp p hpp).2) x) hx

/-- C35: hence the variance (here `n² · Var = n Σ x² - (Σ x)²`) never increases. -/
theorem C35_variance {r : Rng G F} {k : Nat} {s t : Deffuant (SimpleAgent F) F G} (h0 : 0 ≤ s.mu) (h1 : s.mu ≤ 1)
    (h : Iterates (Deffuant.iteration r Deffuant.updateRule) s k t) :
    (s.network.agents.length : F) * ∑ i ∈ Finset.range s.network.agents.length, opinionOf t.network.agents i ^ 2
        - (opinions t.network.agents).sum ^ 2 ≤
      (s.network.agents.length : F) * ∑ i ∈ Finset.range s.network.agents.length, opinionOf s.network.agents i ^ 2
        - (opinions s.network.agents).sum ^ 2 := by
  rw [C33_sum h]
  have := mul_le_mul_of_nonneg_left (C35_squares h0 h1 h) (Nat.cast_nonneg (α := F) s.network.agents.length)
  linarith

/-! ## C36 -/

/-- C36: if the agents are split by `P` into two groups with opinions in `[lo₁, hi₁]` and `[lo₂, hi₂]`, where
`hi₁ + threshold ≤ lo₂`, then for every schedule each group stays in its own interval and keeps its own sum forever. -/
theorem C36_clusters {r : Rng G F} {k : Nat} {s t : Deffuant (SimpleAgent F) F G} (h0 : 0 ≤ s.mu) (h1 : s.mu ≤ 1)
    (h : Iterates (Deffuant.iteration r Deffuant.updateRule) s k t) (P : Nat → Prop) [DecidablePred P] {lo₁ hi₁ lo₂ hi₂ : F}
    (hsep : hi₁ + s.threshold ≤ lo₂)
    (hP : ∀ i, i < s.network.agents.length → P i → lo₁ ≤ opinionOf s.network.agents i ∧ opinionOf s.network.agents i ≤ hi₁)
    (hQ : ∀ i, i < s.network.agents.length → ¬ P i → lo₂ ≤ opinionOf s.network.agents i ∧ opinionOf s.network.agents i ≤ hi₂) :
    (∀ i, i < s.network.agents.length → P i → lo₁ ≤ opinionOf t.network.agents i ∧ opinionOf t.network.agents i ≤ hi₁) ∧
    (∀ i, i < s.network.agents.length → ¬ P i → lo₂ ≤ opinionOf t.network.agents i ∧ opinionOf t.network.agents i ≤ hi₂) ∧
    ∑ i ∈ (Finset.range s.network.agents.length).filter P, opinionOf t.network.agents i =
      ∑ i ∈ (Finset.range s.network.agents.length).filter P, opinionOf s.network.agents i ∧
    ∑ i ∈ (Finset.range s.network.agents.length).filter (fun i => ¬ P i), opinionOf t.network.agents i =
      ∑ i ∈ (Finset.range s.network.agents.length).filter (fun i => ¬ P i), opinionOf s.network.agents i := by
  obtain ⟨hF, pairs, -, hp, ho⟩ := Deffuant.iterates_schedule h
  rw [ho]
  refine Deffuant.meetings_inv _ _ (fun x =>
    (∀ i, i < s.network.agents.length → P i → lo₁ ≤ x i ∧ x i ≤ hi₁) ∧
    (∀ i, i < s.network.agents.length → ¬ P i → lo₂ ≤ x i ∧ x i ≤ hi₂) ∧
    ∑ i ∈ (Finset.range s.network.agents.length).filter P, x i =
      ∑ i ∈ (Finset.range s.network.agents.length).filter P, opinionOf s.network.agents i ∧
    ∑ i ∈ (Finset.range s.network.agents.length).filter (fun i => ¬ P i), x i =
      ∑ i ∈ (Finset.range s.network.agents.length).filter (fun i => ¬ P i), opinionOf s.network.agents i) ⟨hP, hQ, rfl, rfl⟩ ?_
  rintro p hpp x ⟨g1, g2, g3, g4⟩
  obtain ⟨ha, hb⟩ := hp p hpp
  have same : ∀ (u v : F), u ≤ hi₁ → lo₂ ≤ v → ¬ |u - v| < s.threshold := by
    intro u v hu hv
    rw [not_lt, abs_sub_comm]
    exact le_trans (by linarith) (le_abs_self _)
  by_cases hPa : P p.1 <;> by_cases hPb : P p.2
  · have hun : ∀ i, ¬ P i → meet s.threshold s.mu p.1 p.2 x i = x i := fun i hi =>
      Deffuant.meet_other _ _ (by rintro rfl; exact hi hPa) (by rintro rfl; exact hi hPb) x
    refine ⟨fun i hi hPi => Deffuant.meet_box _ h0 h1 (g1 _ ha hPa) (g1 _ hb hPb) (g1 i hi hPi), fun i hi hPi => ?_, ?_, ?_⟩
    · rw [hun i hPi]; exact g2 i hi hPi
    · rw [Deffuant.meet_sum _ _ (by simp [ha, hPa]) (by simp [hb, hPb])]; exact g3
    · rw [← g4]
      apply Finset.sum_congr rfl
      intro i hi
      exact hun i (Finset.mem_filter.mp hi).2
  · have e : meet s.threshold s.mu p.1 p.2 x = x := by
      unfold meet; rw [if_neg (same _ _ (g1 _ ha hPa).2 (g2 _ hb hPb).1)]
    rw [e]; exact ⟨g1, g2, g3, g4⟩
  · have e : meet s.threshold s.mu p.1 p.2 x = x := by
      unfold meet; rw [if_neg (by rw [abs_sub_comm]; exact same _ _ (g1 _ hb hPb).2 (g2 _ ha hPa).1)]
    rw [e]; exact ⟨g1, g2, g3, g4⟩
  · have hun : ∀ i, P i → meet s.threshold s.mu p.1 p.2 x i = x i := fun i hi =>
      Deffuant.meet_other _ _ (by rintro rfl; exact hPa hi) (by rintro rfl; exact hPb hi) x
    refine ⟨fun i hi hPi => ?_, fun i hi hPi => Deffuant.meet_box _ h0 h1 (g2 _ ha hPa) (g2 _ hb hPb) (g2 i hi hPi), ?_, ?_⟩
    · rw [hun i hPi]; exact g1 i hi hPi
    · rw [← g3]
      apply Finset.sum_congr rfl
      intro i hi
      exact hun i (Finset.mem_filter.mp hi).2
    · rw [Deffuant.meet_sum _ _ (by simp [ha, hPa]) (by simp [hb, hPb])]; exact g4

end scalar

/-! ## C37 -/

/-- C37: the chosen pair.  Without network the two agents are distinct as soon as there are two agents; with network the
second one is stored as a neighbour of the first. -/
theorem C37_pair {r : Rng G F} (hr : r.IntLawful) {s : Deffuant A F G} (h : s.Ready) (hn : 0 < s.network.agents.length) :
    ∃ a b g, Deffuant.selectPair r s = .ok ([a, b], { s with gen := g }) ∧
      a < s.network.agents.length ∧ b < s.network.agents.length ∧
      (s.useNetwork = false → 2 ≤ s.network.agents.length → a ≠ b) ∧
      (s.useNetwork = true → ∃ row, s.network.getNeighbours a = .ok row ∧ b ∈ row) := by
  obtain ⟨a, b, g, h1, h2, h3, h4, h5⟩ := Deffuant.selectPair_ok hr h hn
  refine ⟨a, b, g, h1, h2, h3, fun hu h2n => Nat.ne_of_lt (h4 hu h2n), fun hu => ⟨_, ?_, h5 hu⟩⟩
  rw [Network.getNeighbours, rd_getD []]
  rw [h.wf.rows]; exact h2

/-- C37: without network every pair of two distinct agents can be drawn. -/
theorem C37_every_pair [Inhabited F] {s : Deffuant A F (List Nat)} (hu : s.useNetwork = false) {a b : Nat} (hab : a < b)
    (hb : b < s.network.agents.length) :
    ∃ g g', Deffuant.selectPair (Draw.script : Rng (List Nat) F) { s with gen := g } = .ok ([a, b], { s with gen := g' }) := by
  obtain ⟨g, g', -, h⟩ := C21_draw_unique_covers (F := F) none s.network.agents.length [a, b] [] (by simpa using hab) (by
    intro i hi
    simp at hi
    rcases hi with rfl | rfl
    · exact ⟨by omega, by simp⟩
    · exact ⟨hb, by simp⟩)
  refine ⟨g, g', ?_⟩
  unfold Deffuant.selectPair
  rw [if_pos hu]
  simp only [Network.nAgents]
  simp only [List.length_cons, List.length_nil] at h
  rw [h]; rfl

/-- C37: no iteration of the scalar model fails, for every lawful generator; any number of them can be made. -/
theorem C37_total [CommRing F] [LinearOrder F] [IsStrictOrderedRing F] {r : Rng G F} (hr : r.IntLawful)
    {s : Deffuant (SimpleAgent F) F G} (h : s.Ready) (k : Nat) :
    ∃ t, Iterates (Deffuant.iteration r Deffuant.updateRule) s k t := by
  induction k with
  | zero => exact ⟨s, .zero⟩
  | succ k ih =>
    obtain ⟨t, ht⟩ := ih
    obtain ⟨u, hu⟩ := Deffuant.iteration_total hr ((Deffuant.iterates_schedule ht).1.ready h)
    exact ⟨u, .succ ht hu⟩

/-! ## C38 -/

/-- C38: construction without network keeps the network. -/
theorem C38_plain [Inhabited A] [Zero F] (isqrt : Nat → Nat) (max : Option Int) (thr mu : F) (N : Network A F) (g : G) :
    Deffuant.create isqrt max thr mu false N g = .ok ⟨⟨max.map Network.toSize, 0⟩, thr, mu, false, N, g⟩ := rfl

/-- C38: with `use_network` construction throws if the number of agents is not a perfect square, whatever `std::sqrt`
returns. -/
theorem C38_throws [Inhabited A] [Zero F] (isqrt : Nat → Nat) (max : Option Int) (thr mu : F) (N : Network A F) (g : G)
    (h : ¬ IsSquare N.agents.length) : Deffuant.create isqrt max thr mu true N g = .error (.exn "runtime_error") := by
  unfold Deffuant.create
  rw [if_pos rfl]
  simp only [Network.nAgents]
  exact if_pos (fun hc => h ⟨_, hc.symm⟩)

/-- C38: if the number of agents is `L²` and `size_t( std::sqrt( L² ) )` is `L`, construction succeeds, the network becomes the
`L × L` lattice (see C14) with the same number of agents, and the model is ready for iterations. -/
theorem C38_square [Inhabited A] [Zero F] (isqrt : Nat → Nat) (max : Option Int) (thr mu : F) (N : Network A F) (g : G) {L : Nat}
    (h : N.agents.length = L * L) (hs : isqrt (L * L) = L) :
    ∃ M : Network A F, NetworkGen.lattice L 0 = .ok M ∧ M.agents.length = N.agents.length ∧
      Deffuant.create isqrt max thr mu true N g = .ok ⟨⟨max.map Network.toSize, 0⟩, thr, mu, true, M, g⟩ ∧
      (N.agents.length < 2 ^ 64 → (⟨⟨max.map Network.toSize, 0⟩, thr, mu, true, M, g⟩ : Deffuant A F G).Ready) := by
  obtain ⟨M, hM, hwf, hn, -, hrow, -, -, -⟩ := C14_lattice (A := A) L (0 : F)
  have hrows : ∀ row ∈ M.neighbours, row.length = 4 := by
    rw [NetworkGen.lattice_eq] at hM
    obtain rfl := Except.ok.inj hM
    intro row hrow
    obtain ⟨c, -, rfl⟩ := List.mem_map.mp hrow
    rfl
  refine ⟨M, hM, by rw [hn, h], ?_, fun hlt => ⟨hwf, by rw [h] at hlt; show M.agents.length < _; rw [hn]; exact hlt, ?_⟩⟩
  · unfold Deffuant.create
    rw [if_pos rfl]
    simp only [Network.nAgents, h, hs]
    rw [if_neg (by simp), hM]; rfl
  · intro _ row hr
    have := hrows row hr
    refine ⟨fun e => ?_, by omega⟩
    rw [e] at this; cases this

/-! ## C39, C40 -/

section vector
variable [LT F] [DecidableLT F] [IntCast F]

theorem Deffuant.iteratesVector_inv {r : Rng G F} {d : Nat} {k : Nat} {s t : Deffuant DiscreteVectorAgent F G}
    (hd : Deffuant.Dim d s.network.agents) (h : Iterates (Deffuant.iteration r (Deffuant.updateVector r)) s k t) :
    Deffuant.Frame s t ∧ Deffuant.Dim d t.network.agents ∧
    ∀ P : Nat → Int → Prop, (∀ i j v, entry s.network.agents i j = some v → P j v) → ∀ i j v, entry t.network.agents i j = some v → P j v := by
  induction h with
  | zero => exact ⟨.refl s, hd, fun P h => h⟩
  | succ _ h' ih =>
    obtain ⟨h1, h2, h3⟩ := ih
    obtain ⟨g1, g2, g3⟩ := Deffuant.iterationVector_inv h2 h'
    exact ⟨h1.trans g1, g2, fun P hP => g3 P (h3 P hP)⟩

/-- C39: after initialisation with dimension `dim`, however many iterations are made, every agent's opinion has exactly `dim`
entries, all of them 0 or 1. -/
theorem C39_binary {r : Rng G F} (hr : r.IntLawful) {dim k : Nat} {s s1 t : Deffuant DiscreteVectorAgent F G}
    (hi : Deffuant.initializeVectors r dim s = .ok s1)
    (h : Iterates (Deffuant.iteration r (Deffuant.updateVector r)) s1 k t) :
    t.network.agents.length = s.network.agents.length ∧
    ∀ a ∈ t.network.agents, a.opinion.length = dim ∧ ∀ v ∈ a.opinion, v = 0 ∨ v = 1 := by
  obtain ⟨s1', e, hF, -, hd, hb⟩ := Deffuant.initializeVectors_ok hr dim s
  obtain rfl := Except.ok.inj (e.symm.trans hi)
  obtain ⟨hF', hd', hP⟩ := Deffuant.iteratesVector_inv hd h
  refine ⟨(hF.trans hF').n, fun a ha => ⟨hd' a ha, fun v hv => ?_⟩⟩
  obtain ⟨i, hi', rfl⟩ := List.mem_iff_getElem.mp ha
  obtain ⟨j, hj, rfl⟩ := List.mem_iff_getElem.mp hv
  exact hP (fun _ v => v = 0 ∨ v = 1) hb i j _ (by simp [entry, hi', hj])

/-- C39: initialisation and any number of iterations succeed: no out-of-bounds access, no size-mismatch exception. -/
theorem C39_total {r : Rng G F} (hr : r.IntLawful) {s : Deffuant DiscreteVectorAgent F G} (h : s.Ready) (dim k : Nat) :
    ∃ s1 t, Deffuant.initializeVectors r dim s = .ok s1 ∧ Iterates (Deffuant.iteration r (Deffuant.updateVector r)) s1 k t := by
  obtain ⟨s1, e, hF, -, hd, -⟩ := Deffuant.initializeVectors_ok hr dim s
  suffices ∃ t, Iterates (Deffuant.iteration r (Deffuant.updateVector r)) s1 k t by
    obtain ⟨t, ht⟩ := this; exact ⟨s1, t, e, ht⟩
  induction k with
  | zero => exact ⟨s1, .zero⟩
  | succ k ih =>
    obtain ⟨t, ht⟩ := ih
    obtain ⟨hF', hd', -⟩ := Deffuant.iteratesVector_inv hd ht
    obtain ⟨u, hu⟩ := Deffuant.iterationVector_total hr ((hF.trans hF').ready h) hd'
    exact ⟨u, .succ ht hu⟩

/-- C40: one interaction of the agents `a` and `b` (all opinions of dimension `d`) never fails.  If the number of positions in
which they differ is below the threshold they end up equal, each entry coming from one of the two, and nobody else changes;
otherwise nothing changes at all. -/
theorem C40_interaction (r : Rng G F) {a b d : Nat} {s : Deffuant DiscreteVectorAgent F G}
    (hd : ∀ x ∈ s.network.agents, x.opinion.length = d) (ha : a < s.network.agents.length) (hb : b < s.network.agents.length) :
    ∃ t, Deffuant.updateVector r a b s = .ok t ∧ t.network.agents.length = s.network.agents.length ∧
      t.network.neighbours = s.network.neighbours ∧ t.network.weights = s.network.weights ∧
      (((((Finset.range d).filter (fun j => entry s.network.agents a j ≠ entry s.network.agents b j)).card : Int) : F) < s.threshold →
        (∀ j, entry t.network.agents a j = entry t.network.agents b j ∧
          (entry t.network.agents a j = entry s.network.agents a j ∨ entry t.network.agents a j = entry s.network.agents b j)) ∧
        ∀ i j, i ≠ a → i ≠ b → entry t.network.agents i j = entry s.network.agents i j) ∧
      (¬ ((((Finset.range d).filter (fun j => entry s.network.agents a j ≠ entry s.network.agents b j)).card : Int) : F) < s.threshold →
        t = s) := by
  obtain ⟨t, h1, hF, -, hd', h⟩ := Deffuant.updateVector_ok r (d := d) hd ha hb
  refine ⟨t, h1, hF.n, hF.neighbours, hF.weights, ?_, ?_⟩
  · intro hlt
    rw [if_pos (show ((Deffuant.distance s.network.agents a b d : Int) : F) < s.threshold from hlt)] at h
    obtain ⟨val, hv, he⟩ := h
    constructor
    · intro j
      by_cases hj : j < d
      · rw [he a j, he b j, if_pos ⟨Or.inl rfl, hj⟩, if_pos ⟨Or.inr rfl, hj⟩]
        refine ⟨rfl, ?_⟩
        rcases hv j hj with h | h
        · exact Or.inl h.symm
        · exact Or.inr h.symm
      · have ea : entry s.network.agents a j = none := by
          have := hd _ (List.getElem_mem ha)
          simp [entry, ha]; omega
        have eb : entry s.network.agents b j = none := by
          have := hd _ (List.getElem_mem hb)
          simp [entry, hb]; omega
        rw [he a j, he b j, if_neg (fun h => hj h.2), if_neg (fun h => hj h.2), ea, eb]
        exact ⟨rfl, Or.inl rfl⟩
    · intro i j hia hib
      rw [he i j, if_neg]
      rintro ⟨h | h, -⟩
      · exact hia h
      · exact hib h
  · intro hnlt
    rw [if_neg (show ¬ ((Deffuant.distance s.network.agents a b d : Int) : F) < s.threshold from hnlt)] at h
    exact h

/-- C40: a position on which all agents agree keeps its value for everybody, over any number of iterations. -/
theorem C40_agreement {r : Rng G F} {d k : Nat} {s t : Deffuant DiscreteVectorAgent F G}
    (hd : ∀ x ∈ s.network.agents, x.opinion.length = d)
    (h : Iterates (Deffuant.iteration r (Deffuant.updateVector r)) s k t) {j : Nat} {v : Int}
    (hv : ∀ i w, entry s.network.agents i j = some w → w = v) : ∀ i w, entry t.network.agents i j = some w → w = v := by
  obtain ⟨-, -, hP⟩ := Deffuant.iteratesVector_inv (d := d) hd h
  intro i w hw
  exact hP (fun j' w => j' = j → w = v) (by rintro i' j' w' hw' rfl; exact hv i' w' hw') i j w hw rfl

/-- C40: consensus is absorbing: if all agents hold the vector `c` they hold it forever. -/
theorem C40_consensus {r : Rng G F} {k : Nat} {s t : Deffuant DiscreteVectorAgent F G} {c : List Int}
    (hc : ∀ x ∈ s.network.agents, x.opinion = c)
    (h : Iterates (Deffuant.iteration r (Deffuant.updateVector r)) s k t) : ∀ x ∈ t.network.agents, x.opinion = c := by
  have hd : Deffuant.Dim c.length s.network.agents := fun x hx => by rw [hc x hx]
  obtain ⟨-, hd', hP⟩ := Deffuant.iteratesVector_inv hd h
  have key := hP (fun j v => c[j]? = some v) (by
    intro i j v hv
    simp only [entry, Option.bind_eq_some_iff] at hv
    obtain ⟨x, hx, hv⟩ := hv
    rw [hc x (List.mem_of_getElem? hx)] at hv
    exact hv)
  intro x hx
  obtain ⟨i, hi, rfl⟩ := List.mem_iff_getElem.mp hx
  apply List.ext_getElem
  · exact hd' _ hx
  · intro j h1 h2
    have := key i j _ (by simp only [entry, List.getElem?_eq_getElem hi, Option.bind_some]; rw [List.getElem?_eq_getElem h1])
    rw [List.getElem?_eq_getElem h2] at this
    simpa using this.symm

/-! ## C41 -/

/-- C41 is false: whatever `mu` is (also for `mu = 0`) and whatever the random numbers, two agents that differ within the
threshold do not both keep their opinions. -/
theorem C41_false (r : Rng G F) {a b d : Nat} {s : Deffuant DiscreteVectorAgent F G}
    (hd : ∀ x ∈ s.network.agents, x.opinion.length = d) (ha : a < s.network.agents.length) (hb : b < s.network.agents.length)
    (hne : ∃ j, entry s.network.agents a j ≠ entry s.network.agents b j)
    (hlt : ((((Finset.range d).filter (fun j => entry s.network.agents a j ≠ entry s.network.agents b j)).card : Int) : F) < s.threshold) :
    ∃ t, Deffuant.updateVector r a b s = .ok t ∧
      ∃ j, entry t.network.agents a j ≠ entry s.network.agents a j ∨ entry t.network.agents b j ≠ entry s.network.agents b j := by
  obtain ⟨t, h1, -, -, -, h2, -⟩ := C40_interaction r hd ha hb
  obtain ⟨j, hj⟩ := hne
  refine ⟨t, h1, j, ?_⟩
  by_contra hc
  push Not at hc
  exact hj (by rw [← hc.1, ← hc.2]; exact ((h2 hlt).1 j).1)

/-- C41, what holds: agents with equal opinions, and agents that are too far apart, do not change, for every `mu`. Missing for
the full property: agents that differ within the threshold, for which it is false (`C41_false`). -/
theorem C41_unchanged_partial (r : Rng G F) {a b d : Nat} {s : Deffuant DiscreteVectorAgent F G}
    (hd : ∀ x ∈ s.network.agents, x.opinion.length = d) (ha : a < s.network.agents.length) (hb : b < s.network.agents.length)
    (heq : (∀ j, entry s.network.agents a j = entry s.network.agents b j) ∨
      ¬ ((((Finset.range d).filter (fun j => entry s.network.agents a j ≠ entry s.network.agents b j)).card : Int) : F) < s.threshold) :
    ∃ t, Deffuant.updateVector r a b s = .ok t ∧ ∀ i j, entry t.network.agents i j = entry s.network.agents i j := by
  obtain ⟨t, h1, -, -, -, h2, h3⟩ := C40_interaction r hd ha hb
  refine ⟨t, h1, fun i j => ?_⟩
  by_cases hlt : ((((Finset.range d).filter (fun j => entry s.network.agents a j ≠ entry s.network.agents b j)).card : Int) : F) < s.threshold
  · obtain ⟨h4, h5⟩ := h2 hlt
    rcases heq with heq | heq
    · have h6 : entry t.network.agents a j = entry s.network.agents a j := by
        rcases (h4 j).2 with h | h
        · exact h
        · rw [h, heq]
      by_cases hia : i = a
      · rw [hia]; exact h6
      · by_cases hib : i = b
        · rw [hib, ← (h4 j).1, h6, heq]
        · exact h5 i j hia hib
    · exact absurd hlt heq
  · rw [h3 hlt]

end vector

/-- C41, the direction is inverted: with `mu ≥ 1` (always convinced, according to the documentation) the first agent of the
pair never adopts anything. -/
theorem C41_inverted [Field F] [LinearOrder F] [IsStrictOrderedRing F] {r : Rng G F} (hr : r.Lawful) {a b : Nat}
    {s t : Deffuant DiscreteVectorAgent F G} (hab : a ≠ b) (hmu : 1 ≤ s.mu)
    (h : Deffuant.updateVector r a b s = .ok t) : ∀ j, entry t.network.agents a j = entry s.network.agents a j := by
  obtain ⟨x, -, h⟩ := Res.bind_eq_ok.mp h
  obtain ⟨y, -, h⟩ := Res.bind_eq_ok.mp h
  obtain ⟨dist, -, h⟩ := Res.bind_eq_ok.mp h
  split at h
  · obtain ⟨l, hl, h⟩ := Res.bind_eq_ok.mp h
    rw [← Except.ok.inj h]
    intro j
    show entry l.1 a j = _
    refine Deffuant.loop_ok (σ := List DiscreteVectorAgent × G) (f := fun k t => Deffuant.convince r s.mu a b k t)
      (fun _ t => entry t.1 a j = entry s.network.agents a j) ?_ rfl hl
    intro k u v hI hv
    obtain ⟨x, -, hv⟩ := Res.bind_eq_ok.mp hv
    obtain ⟨y, -, hv⟩ := Res.bind_eq_ok.mp hv
    obtain ⟨xk, -, hv⟩ := Res.bind_eq_ok.mp hv
    obtain ⟨yk, -, hv⟩ := Res.bind_eq_ok.mp hv
    have fin : ∀ (g : G) (v : List DiscreteVectorAgent × G), (do
        let op ← wr y.opinion k xk
        let agents ← wr u.1 b ⟨op⟩
        .ok (agents, g)) = .ok v → entry v.1 a j = entry s.network.agents a j := by
      intro g v hv
      obtain ⟨op, -, hv⟩ := Res.bind_eq_ok.mp hv
      obtain ⟨ag, hag, hv⟩ := Res.bind_eq_ok.mp hv
      obtain ⟨-, rfl⟩ := wr_eq_ok.mp hag
      rw [← Except.ok.inj hv, ← hI]
      simp only [entry, List.getElem?_set]
      rw [if_neg (Ne.symm hab)]
    split at hv
    · simp only at hv
      split at hv
      · split at hv
        · next hlt => exact absurd (lt_of_lt_of_le (hr.unit_lt_one _) hmu) (not_lt.mpr hlt.le)
        · exact fin _ _ hv
      · exact fin _ _ hv
    · rw [← Except.ok.inj hv]; exact hI
  · rw [← Except.ok.inj h]; intro j; rfl

/-! ## C51 for the Deffuant models -/

/-- C51, scalar Deffuant: with `max_iterations = N` a run makes exactly `N` iterations (none for `N = 0`), whatever the state
(in particular also when `run` is called again), provided the pair choice cannot fail; without it, it never ends. -/
theorem C51_deffuant [CommRing F] [LinearOrder F] [IsStrictOrderedRing F] {r : Rng G F} (hr : r.IntLawful)
    {s : Deffuant (SimpleAgent F) F G} (h : s.Ready) :
    (∀ N, s.counter.maxIterations = some N →
      (∃ st, IsRun (Deffuant.machine r Deffuant.updateRule) (Deffuant.reset s) N st) ∧
      ∀ K st, IsRun (Deffuant.machine r Deffuant.updateRule) (Deffuant.reset s) K st → K = N) ∧
    (s.counter.maxIterations = none → ∀ R o fuel t, Simulation.run (Deffuant.machine r Deffuant.updateRule) R o fuel s ≠ .ok t) := by
  have hM := Deffuant.counts (r := r) (update := Deffuant.updateRule (F := F) (G := G)) Deffuant.updateRule_counter
  constructor
  · intro N hN
    have hI : ∀ s : Deffuant (SimpleAgent F) F G, (s.Ready ∧ s.counter.maxIterations = some N) →
        ∃ t, (Deffuant.machine r Deffuant.updateRule).iteration s = .ok t ∧ (t.Ready ∧ t.counter.maxIterations = some N) := by
      rintro s ⟨h1, h2⟩
      obtain ⟨t, ht⟩ := Deffuant.iteration_total hr h1
      have hF := (Deffuant.iteration_schedule ht).1
      exact ⟨t, ht, hF.ready h1, hF.max.trans h2⟩
    have hfin : ∀ s : Deffuant (SimpleAgent F) F G, (s.Ready ∧ s.counter.maxIterations = some N) →
        ((Deffuant.machine r Deffuant.updateRule).finished s = true ↔ N ≤ (Deffuant.machine r Deffuant.updateRule).nIterations s) := by
      rintro s ⟨-, h2⟩
      simp [Deffuant.machine, Deffuant.finished, Counter.finished, h2]
    refine ⟨?_, fun K st hK => ?_⟩
    · obtain ⟨st, hst, -⟩ := C51_reaches hM (fun s => s.Ready ∧ s.counter.maxIterations = some N) N
        (fun s hs => ⟨⟨hs.1.wf, hs.1.size, hs.1.rows⟩, hs.2⟩) hI hfin (s := s) ⟨h, hN⟩
      exact ⟨st, hst⟩
    · refine C51_exactly hM (fun s => s.Ready ∧ s.counter.maxIterations = some N) N
        (fun s hs => ⟨⟨hs.1.wf, hs.1.size, hs.1.rows⟩, hs.2⟩) ?_ hfin (s := s) ⟨h, hN⟩ hK
      intro s t hs ht
      obtain ⟨t', ht', hs'⟩ := hI s hs
      obtain rfl := Except.ok.inj (ht'.symm.trans ht)
      exact hs'
  · intro hN R o fuel t
    refine C51_never (fun s => s.counter.maxIterations = none) (fun s hs => hs) ?_ ?_ R o fuel (s := s) hN t
    · intro s t hs ht
      exact (Deffuant.iteration_schedule ht).1.max.trans hs
    · intro s hs
      simp [Deffuant.machine, Deffuant.finished, Counter.finished, hs]

/-- C51, vector Deffuant. -/
theorem C51_deffuant_vector [LT F] [DecidableLT F] [IntCast F] {r : Rng G F} (hr : r.IntLawful)
    {s : Deffuant DiscreteVectorAgent F G} (h : s.Ready) {d : Nat} (hd : ∀ x ∈ s.network.agents, x.opinion.length = d) :
    (∀ N, s.counter.maxIterations = some N →
      (∃ st, IsRun (Deffuant.machine r (Deffuant.updateVector r)) (Deffuant.reset s) N st) ∧
      ∀ K st, IsRun (Deffuant.machine r (Deffuant.updateVector r)) (Deffuant.reset s) K st → K = N) ∧
    (s.counter.maxIterations = none → ∀ R o fuel t, Simulation.run (Deffuant.machine r (Deffuant.updateVector r)) R o fuel s ≠ .ok t) := by
  have hM := Deffuant.counts (r := r) (update := Deffuant.updateVector (F := F) (G := G) r) (Deffuant.updateVector_counter r)
  have hreset : ∀ s : Deffuant DiscreteVectorAgent F G, s.Ready → s.reset.Ready := fun s hs => ⟨hs.wf, hs.size, hs.rows⟩
  constructor
  · intro N hN
    have hI : ∀ s : Deffuant DiscreteVectorAgent F G, (s.Ready ∧ Deffuant.Dim d s.network.agents ∧ s.counter.maxIterations = some N) →
        ∃ t, (Deffuant.machine r (Deffuant.updateVector r)).iteration s = .ok t ∧
          (t.Ready ∧ Deffuant.Dim d t.network.agents ∧ t.counter.maxIterations = some N) := by
      rintro s ⟨h1, h2, h3⟩
      obtain ⟨t, ht⟩ := Deffuant.iterationVector_total hr h1 h2
      obtain ⟨hF, hd', -⟩ := Deffuant.iterationVector_inv h2 ht
      exact ⟨t, ht, hF.ready h1, hd', hF.max.trans h3⟩
    have hfin : ∀ s : Deffuant DiscreteVectorAgent F G, (s.Ready ∧ Deffuant.Dim d s.network.agents ∧ s.counter.maxIterations = some N) →
        ((Deffuant.machine r (Deffuant.updateVector r)).finished s = true ↔ N ≤ (Deffuant.machine r (Deffuant.updateVector r)).nIterations s) := by
      rintro s ⟨-, -, h2⟩
      simp [Deffuant.machine, Deffuant.finished, Counter.finished, h2]
    refine ⟨?_, fun K st hK => ?_⟩
    · obtain ⟨st, hst, -⟩ := C51_reaches hM _ N (fun s hs => ⟨hreset s hs.1, hs.2⟩) hI hfin (s := s) ⟨h, hd, hN⟩
      exact ⟨st, hst⟩
    · refine C51_exactly hM _ N (fun s hs => ⟨hreset s hs.1, hs.2⟩) ?_ hfin (s := s) ⟨h, hd, hN⟩ hK
      intro s t hs ht
      obtain ⟨t', ht', hs'⟩ := hI s hs
      obtain rfl := Except.ok.inj (ht'.symm.trans ht)
      exact hs'
  · intro hN R o fuel t
    refine C51_never (fun s => Deffuant.Dim d s.network.agents ∧ s.counter.maxIterations = none) (fun s hs => hs) ?_ ?_ R o fuel (s := s) (And.intro (show Deffuant.Dim d s.network.agents from hd) hN) t
    · intro s t hs ht
      obtain ⟨hF, hd', -⟩ := Deffuant.iterationVector_inv hs.1 ht
      exact ⟨hd', hF.max.trans hs.2⟩
    · intro s hs
      simp [Deffuant.machine, Deffuant.finished, Counter.finished, hs.2]

/-! ## Concrete cases -/

/-- Four agents, two of them near 0 and two near 1. -/
def Deffuant.sample : Deffuant (SimpleAgent ℚ) ℚ Nat :=
  ⟨⟨some 3, 0⟩, 1/2, 1/4, false, ⟨[⟨0⟩, ⟨1/5⟩, ⟨4/5⟩, ⟨1⟩], [[], [], [], []], [[], [], [], []], .incoming⟩, 1⟩

theorem Deffuant.sample_ready : Deffuant.sample.Ready :=
  ⟨⟨rfl, rfl, by decide, by decide⟩, by decide, by intro h; cases h⟩

-- hypotheses of C33–C37, C51 are met, and opinions really change
example : (Deffuant.iteration counterRng Deffuant.updateRule Deffuant.sample).map (fun t => opinions t.network.agents) =
    .ok [0, 1/5, 71/80, 73/80] := by decide +kernel

example : ∃ st, IsRun (Deffuant.machine counterRng Deffuant.updateRule) (Deffuant.reset Deffuant.sample) 3 st :=
  ((C51_deffuant counterRng_lawful.toInt Deffuant.sample_ready).1 3 rfl).1

example {k : Nat} {t : Deffuant (SimpleAgent ℚ) ℚ Nat}
    (h : Iterates (Deffuant.iteration counterRng Deffuant.updateRule) Deffuant.sample k t) :
    opinionOf t.network.agents 0 + opinionOf t.network.agents 1 = 1/5 := by
  have := (C36_clusters (by decide +kernel) (by decide +kernel) h (fun i => i < 2) (lo₁ := 0) (hi₁ := 1/5) (lo₂ := 4/5) (hi₂ := 1)
    (by decide +kernel) (by decide +kernel) (by decide +kernel)).2.2.1
  have e : (Finset.range Deffuant.sample.network.agents.length).filter (fun i => i < 2) = {0, 1} := by decide
  rw [e] at this
  simpa [Deffuant.sample, opinionOf, opinions] using this

/-- A network of `n` agents without edges. -/
def bareNetwork (n : Nat) : Network (SimpleAgent ℚ) ℚ := ⟨List.replicate n ⟨0⟩, List.replicate n [], List.replicate n [], .incoming⟩

example : (Deffuant.create Nat.sqrt none (1/5) (1/2) true (bareNetwork 9) 0).map (·.network.neighbours.length) = .ok 9 := by decide +kernel
example : (Deffuant.create Nat.sqrt none (1/5) (1/2) true (bareNetwork 8) 0).map (·.network.neighbours.length) =
    .error (.exn "runtime_error") := by
  rw [C38_throws _ _ _ _ (bareNetwork 8) _ (by decide +kernel)]; rfl

/-- Three agents with binary vectors. -/
def Deffuant.sampleVector : Deffuant DiscreteVectorAgent ℚ Nat :=
  ⟨⟨some 2, 0⟩, 3, 0, false, ⟨[⟨[0, 0, 1]⟩, ⟨[0, 1, 1]⟩, ⟨[0, 1, 0]⟩], [[], [], []], [[], [], []], .incoming⟩, 1⟩

-- C40, C41: within the threshold, with `mu = 0`, the two agents become equal
example : (Deffuant.updateVector counterRng 0 1 Deffuant.sampleVector).map (fun t => t.network.agents.map (·.opinion)) =
    .ok [[0, 0, 1], [0, 0, 1], [0, 1, 0]] := by decide +kernel

example : ∃ t, Deffuant.updateVector counterRng 0 1 Deffuant.sampleVector = .ok t ∧
    ∃ j, entry t.network.agents 0 j ≠ entry Deffuant.sampleVector.network.agents 0 j ∨
      entry t.network.agents 1 j ≠ entry Deffuant.sampleVector.network.agents 1 j :=
  C41_false counterRng (d := 3) (by decide) (by decide) (by decide) ⟨1, by decide⟩ (by decide +kernel)

example : ∃ s1 t, Deffuant.initializeVectors counterRng 5 Deffuant.sampleVector = .ok s1 ∧
    Iterates (Deffuant.iteration counterRng (Deffuant.updateVector counterRng)) s1 7 t :=
  C39_total counterRng_lawful.toInt ⟨⟨rfl, rfl, by decide, by decide⟩, by decide, by intro h; cases h⟩ 5 7

end Seldon
