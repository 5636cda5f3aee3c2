import Verif.Spec.Relabel
import Verif.Lemmas.VectorChain
import Mathlib.Topology.Algebra.InfiniteSum.ENNReal
/-!
# Helper lemmas: the numbering of the agents in the Deffuant models
-/
set_option linter.unusedSectionVars false
namespace Seldon
open Spec MeasureTheory
open scoped ENNReal
variable {A F G : Type} [MeasurableSpace G] {μ : Measure G}

/-! ## lists under another numbering -/

theorem Spec.Relabelled.lt_iff {σ : Equiv.Perm ℕ} {xs ys : List A} (h : Relabelled σ xs ys) (i : ℕ) : σ i < xs.length ↔ i < xs.length := by
  have h2 := h.2 i
  rw [← h.1]
  constructor
  · intro hi
    by_contra hc
    rw [List.getElem?_eq_getElem hi, List.getElem?_eq_none (by rw [h.1] at hc; omega)] at h2
    cases h2
  · intro hi
    by_contra hc
    rw [List.getElem?_eq_none (by omega), List.getElem?_eq_getElem (by rw [← h.1]; exact hi)] at h2
    cases h2

/-- The list that holds at position `i` what `xs` holds at position `τ i` (for lists of length `n`). -/
noncomputable def reorder (τ : Equiv.Perm ℕ) (n : ℕ) (hτ : ∀ i, τ i < n ↔ i < n) (xs : List A) : List A :=
  if h : xs.length = n then List.ofFn (fun i : Fin n => xs[τ i]'(by rw [h]; exact (hτ i).mpr i.2)) else xs

theorem reorder_length (τ : Equiv.Perm ℕ) (n : ℕ) (hτ : ∀ i, τ i < n ↔ i < n) (xs : List A) : (reorder τ n hτ xs).length = xs.length := by
  unfold reorder
  split
  · rename_i h
    rw [List.length_ofFn, h]
  · rfl

theorem reorder_get (τ : Equiv.Perm ℕ) (n : ℕ) (hτ : ∀ i, τ i < n ↔ i < n) (xs : List A) (h : xs.length = n) (i : ℕ) : (reorder τ n hτ xs)[i]? = xs[τ i]? := by
  unfold reorder
  rw [dif_pos h, List.getElem?_ofFn]
  split
  · rename_i hi
    rw [List.getElem?_eq_getElem]
  · rename_i hi
    rw [List.getElem?_eq_none]
    rw [h]
    by_contra hc
    exact hi ((hτ i).mp (by omega))

theorem perm_symm_lt {σ : Equiv.Perm ℕ} {n : ℕ} (hσ : ∀ i, σ i < n ↔ i < n) (i : ℕ) : σ.symm i < n ↔ i < n := by
  rw [← hσ (σ.symm i), Equiv.apply_symm_apply]

/-- Calling agent `i` by the number `σ i`, on the lists of length `n`. -/
noncomputable def relabel (σ : Equiv.Perm ℕ) (n : ℕ) (hσ : ∀ i, σ i < n ↔ i < n) : List A ≃ List A where
  toFun := reorder σ.symm n (perm_symm_lt hσ)
  invFun := reorder σ n hσ
  left_inv xs := by
    by_cases h : xs.length = n
    · refine List.ext_getElem? fun i => ?_
      rw [reorder_get σ n hσ _ ((reorder_length _ _ _ _).trans h), reorder_get _ _ _ _ h, Equiv.symm_apply_apply]
    · simp only [reorder, dif_neg h]
  right_inv xs := by
    by_cases h : xs.length = n
    · refine List.ext_getElem? fun i => ?_
      rw [reorder_get σ.symm n _ _ ((reorder_length _ _ _ _).trans h), reorder_get _ _ _ _ h, Equiv.apply_symm_apply]
    · simp only [reorder, dif_neg h]

theorem relabel_length {σ : Equiv.Perm ℕ} {n : ℕ} {hσ : ∀ i, σ i < n ↔ i < n} (xs : List A) : (relabel σ n hσ xs).length = xs.length :=
  reorder_length _ _ (perm_symm_lt hσ) _

theorem relabel_spec {σ : Equiv.Perm ℕ} {n : ℕ} {hσ : ∀ i, σ i < n ↔ i < n} {xs : List A} (h : xs.length = n) : Relabelled σ xs (relabel σ n hσ xs) := by
  refine ⟨relabel_length xs, fun i => ?_⟩
  show (reorder σ.symm n (perm_symm_lt hσ) xs)[σ i]? = _
  rw [reorder_get _ _ _ _ h, Equiv.symm_apply_apply]

theorem Spec.Relabelled.eq {σ : Equiv.Perm ℕ} {n : ℕ} {hσ : ∀ i, σ i < n ↔ i < n} {xs ys : List A} (hr : Relabelled σ xs ys) (h : xs.length = n) :
    ys = relabel σ n hσ xs := by
  refine List.ext_getElem? fun i => ?_
  have h1 := hr.2 (σ.symm i)
  have h2 := (relabel_spec (hσ := hσ) h).2 (σ.symm i)
  rw [Equiv.apply_symm_apply] at h1 h2
  rw [h1, h2]

/-! ## one interaction as a step of a random walk -/

namespace Deffuant

/-- One interaction as a step of a random walk on the agents, `m` being the effect of the update rule. -/
def stepOf (r : Rng G F) (s : Deffuant A F G) (m : Nat → Nat → List A → G → Res (List A × G)) (xs : List A) (g : G) : Res (List A × G) :=
  (.ok (drawnPair r s g) : Res ((Nat × Nat) × G)) >>= fun p => (fun (q : Nat × Nat) => m q.1 q.2 xs) p.1 p.2

/-- `m` describes the effect of the update rule on the agents of `s`. -/
structure Rule (update : Nat → Nat → Deffuant A F G → Res (Deffuant A F G)) (s : Deffuant A F G) (m : Nat → Nat → List A → G → Res (List A × G))
    (I : List A → Prop) (μ : Measure G) : Prop where
  eq : ∀ a b u, Frame s u → a < s.network.agents.length → b < s.network.agents.length → update a b u = (m a b u.network.agents u.gen >>= fun t => .ok { u with network := { u.network with agents := t.1 }, gen := t.2 })
  size : ∀ xs, I xs → xs.length = s.network.agents.length
  fresh : ∀ a b xs, I xs → a < s.network.agents.length → b < s.network.agents.length → Fresh (m a b xs) μ
  inv : ∀ a b xs, I xs → a < s.network.agents.length → b < s.network.agents.length → ∀ g ys g', m a b xs g = .ok (ys, g') → I ys

theorem drawnPair_range {r : Rng G F} (hr : r.IntLawful) {s : Deffuant A F G} (hs : s.Ready) (hn : 0 < s.network.agents.length) (g : G) :
    ∃ a b g', drawnPair r s g = ((a, b), g') ∧ a < s.network.agents.length ∧ b < s.network.agents.length ∧
      (s.useNetwork = false → 2 ≤ s.network.agents.length → a < b) := by
  have hF : Frame s { s with gen := g } := ⟨rfl, rfl, rfl, rfl, rfl, rfl, rfl, rfl⟩
  obtain ⟨a, b, g', h1, ha, hb, hc, -⟩ := selectPair_ok hr (hF.ready hs) hn
  exact ⟨a, b, _, drawnPair_eq hF h1, ha, hb, hc⟩

theorem stepOf_inv {update : Nat → Nat → Deffuant A F G → Res (Deffuant A F G)} {m : Nat → Nat → List A → G → Res (List A × G)} {I : List A → Prop}
    {r : Rng G F} (hr : r.IntLawful) {s : Deffuant A F G} (hs : s.Ready) (hn : 0 < s.network.agents.length) (R : Rule update s m I μ) :
    ∀ xs, I xs → ∀ g ys g', stepOf r s m xs g = .ok (ys, g') → I ys := by
  intro xs hx g ys g' h
  obtain ⟨a, b, g'', h1, ha, hb, -⟩ := drawnPair_range hr hs hn g
  rw [stepOf, h1, Res.bind_ok] at h
  exact R.inv a b xs hx ha hb g'' ys g' h

theorem interact_stepOf {update : Nat → Nat → Deffuant A F G → Res (Deffuant A F G)} {m : Nat → Nat → List A → G → Res (List A × G)} {I : List A → Prop}
    {r : Rng G F} (hr : r.IntLawful) {s u : Deffuant A F G} (hs : s.Ready) (hn : 0 < s.network.agents.length) (R : Rule update s m I μ) (hF : Frame s u) :
    interact r update u = (stepOf r s m u.network.agents u.gen >>= fun t => .ok { u with network := { u.network with agents := t.1 }, gen := t.2 }) := by
  have hn' : 0 < u.network.agents.length := by rw [hF.n]; exact hn
  obtain ⟨a, b, g, h1, ha, hb, -⟩ := selectPair_ok hr (hF.ready hs) hn'
  have hFg : Frame s { u with gen := g } := ⟨hF.1, hF.2, hF.3, hF.4, hF.5, hF.6, hF.7, hF.8⟩
  rw [stepOf, drawnPair_eq hF h1, Res.bind_ok]
  unfold interact
  simp only [h1, Res.bind_ok, rd, List.getElem?_cons_zero, List.getElem?_cons_succ, List.getElem?_eq_getElem ha, List.getElem?_eq_getElem hb]
  rw [R.eq a b _ hFg (by rw [← hF.n]; exact ha) (by rw [← hF.n]; exact hb)]

theorem loop_stepOf {update : Nat → Nat → Deffuant A F G → Res (Deffuant A F G)} {m : Nat → Nat → List A → G → Res (List A × G)} {I : List A → Prop}
    {r : Rng G F} (hr : r.IntLawful) {s u : Deffuant A F G} (hs : s.Ready) (hn : 0 < s.network.agents.length) (R : Rule update s m I μ) (hF : Frame s u)
    (hu : I u.network.agents) (k : ℕ) : ∃ ys g', walk (stepOf r s m) k u.network.agents u.gen = .ok (ys, g') ∧ I ys ∧
      loop k (fun _ s => interact r update s) u = .ok { u with network := { u.network with agents := ys }, gen := g' } := by
  induction k with
  | zero => exact ⟨_, _, rfl, hu, rfl⟩
  | succ k ih =>
    obtain ⟨ys, g', h1, h2, h3⟩ := ih
    have hF' : Frame s { u with network := { u.network with agents := ys }, gen := g' } :=
      ⟨hF.1, hF.2, hF.3, hF.4, hF.5, hF.6, R.size ys h2, hF.8⟩
    obtain ⟨a, b, g'', h4, ha, hb, -⟩ := drawnPair_range hr hs hn g'
    obtain ⟨⟨zs, g3⟩, h5⟩ := (R.fresh a b ys h2 ha hb).ok g''
    have h6 : stepOf r s m ys g' = .ok (zs, g3) := by
      rw [stepOf, h4, Res.bind_ok]; exact h5
    refine ⟨zs, g3, ?_, R.inv a b ys h2 ha hb g'' zs g3 h5, ?_⟩
    · rw [walk_add, h1, Res.bind_ok, walk, h6, Res.bind_ok, walk]
    · rw [loop_succ, h3, Res.bind_ok, interact_stepOf hr hs hn R hF']
      dsimp only
      rw [h6, Res.bind_ok]

/-- `t` iterations are `t · n` steps of the walk. -/
theorem iterates_stepOf {update : Nat → Nat → Deffuant A F G → Res (Deffuant A F G)} {m : Nat → Nat → List A → G → Res (List A × G)} {I : List A → Prop}
    {r : Rng G F} (hr : r.IntLawful) {s : Deffuant A F G} (hs : s.Ready) (hn : 0 < s.network.agents.length) (R : Rule update s m I μ)
    (hI : I s.network.agents) (g : G) (t : ℕ) : ∃ ys g' c, walk (stepOf r s m) (t * s.network.agents.length) s.network.agents g = .ok (ys, g') ∧ I ys ∧
      c.maxIterations = s.counter.maxIterations ∧
      Iterates (iteration r update) { s with gen := g } t { s with network := { s.network with agents := ys }, gen := g', counter := c } := by
  induction t with
  | zero =>
    refine ⟨s.network.agents, g, s.counter, ?_, hI, rfl, .zero⟩
    rw [Nat.zero_mul]; rfl
  | succ t ih =>
    obtain ⟨ys, g', c, h1, h2, hc, h3⟩ := ih
    have hF : Frame s { s with network := { s.network with agents := ys }, gen := g', counter := c.tick } :=
      ⟨rfl, rfl, rfl, rfl, rfl, rfl, R.size ys h2, hc⟩
    obtain ⟨zs, g'', h4, h5, h6⟩ := loop_stepOf hr hs hn R hF h2 s.network.agents.length
    refine ⟨zs, g'', c.tick, ?_, h5, hc, .succ h3 ?_⟩
    · rw [Nat.succ_mul, walk_add, h1, Res.bind_ok]
      exact h4
    · rw [iteration, show ({ s with network := { s.network with agents := ys }, gen := g', counter := c } : Deffuant A F G).network.nAgents =
        s.network.agents.length from R.size ys h2]
      exact h6

theorem iterates_unique {S : Type} {step : S → Res S} {s : S} {t : ℕ} {u v : S} (h : Iterates step s t u) (h' : Iterates step s t v) : u = v := by
  induction h generalizing v with
  | zero => cases h'; rfl
  | succ _ e ih =>
    cases h' with
    | succ h1 e1 =>
      rw [ih h1, e1] at e
      exact (Except.ok.inj e).symm

theorem iterates_hits {update : Nat → Nat → Deffuant A F G → Res (Deffuant A F G)} {m : Nat → Nat → List A → G → Res (List A × G)} {I : List A → Prop}
    {r : Rng G F} (hr : r.IntLawful) {s : Deffuant A F G} (hs : s.Ready) (hn : 0 < s.network.agents.length) (R : Rule update s m I μ)
    (hI : I s.network.agents) (t : ℕ) (zs : List A) :
    {g | ∃ u, Iterates (iteration r update) { s with gen := g } t u ∧ u.network.agents = zs} =
      hits (walk (stepOf r s m) (t * s.network.agents.length) s.network.agents) zs Set.univ := by
  ext g
  obtain ⟨ys, g', c, h1, -, -, h3⟩ := iterates_stepOf hr hs hn R hI g t
  simp only [Set.mem_ofPred_eq, hits, h1, Set.mem_univ, and_true, Except.ok.injEq, Prod.mk.injEq]
  constructor
  · rintro ⟨u, hu, rfl⟩
    rw [iterates_unique hu h3]
    exact ⟨g', rfl, rfl⟩
  · rintro ⟨g'', rfl, rfl⟩
    exact ⟨_, h3, rfl⟩

/-- The probability that the pair `(a, b)` is drawn. -/
noncomputable def chance (r : Rng G F) (s : Deffuant A F G) (μ : Measure G) (p : Nat × Nat) : ℝ≥0∞ :=
  μ (hits (fun g => (.ok (drawnPair r s g) : Res ((Nat × Nat) × G))) p Set.univ)

theorem pair_fresh {r : Rng G F} [IsProbabilityMeasure μ] (hr : r.IntLawful) (hi : FairIntegers r μ) {s : Deffuant A F G} (hs : s.Ready)
    (hn : 2 ≤ s.network.agents.length) : Fresh (fun g => (.ok (drawnPair r s g) : Res ((Nat × Nat) × G))) μ := by
  obtain ⟨law, hl, hd, -⟩ := drawnPair_draws hr hi hs hn
  exact (Fresh.of_draws hd).1

theorem stepOf_law {update : Nat → Nat → Deffuant A F G → Res (Deffuant A F G)} {m : Nat → Nat → List A → G → Res (List A × G)} {I : List A → Prop}
    {r : Rng G F} [IsProbabilityMeasure μ] (hr : r.IntLawful) (hi : FairIntegers r μ) {s : Deffuant A F G} (hs : s.Ready)
    (hn : 2 ≤ s.network.agents.length) (R : Rule update s m I μ) {xs : List A} (hx : I xs) : Fresh (stepOf r s m xs) μ ∧
      ∀ ys, μ (hits (stepOf r s m xs) ys Set.univ) = ∑' p : Nat × Nat, chance r s μ p * μ (hits (m p.1 p.2 xs) ys Set.univ) := by
  refine Fresh.bind_law (h := fun (q : Nat × Nat) => m q.1 q.2 xs) (pair_fresh hr hi hs hn) ?_
  intro p g g' h
  obtain ⟨a, b, g'', h1, ha, hb, -⟩ := drawnPair_range hr hs (by omega) g
  rw [h1] at h
  cases h
  exact R.fresh a b xs hx ha hb

/-- Pairs of no two agents are never drawn. -/
theorem chance_zero {r : Rng G F} (hr : r.IntLawful) {s : Deffuant A F G} (hs : s.Ready) (hn : 2 ≤ s.network.agents.length) {a b : Nat}
    (h : ¬ (a < s.network.agents.length ∧ b < s.network.agents.length ∧ (s.useNetwork = false → a < b))) : chance r s μ (a, b) = 0 := by
  rw [chance, Fresh.hits_never, measure_empty]
  rintro ⟨g, g', h1⟩
  obtain ⟨a', b', g'', h2, ha, hb, hc⟩ := drawnPair_range hr hs (by omega) g
  rw [h2] at h1
  cases h1
  exact h ⟨ha, hb, fun hu => hc hu hn⟩

theorem chance_eq {r : Rng G F} (hr : r.IntLawful) {s : Deffuant A F G} (hs : s.Ready) (hn : 0 < s.network.agents.length) (a b : Nat) :
    chance r s μ (a, b) = μ {g | ∃ g', selectPair r { s with gen := g } = .ok ([a, b], { s with gen := g' }) ∧ g' ∈ Set.univ} := by
  rw [← drawnPair_mem hr hs hn a b Set.univ, chance]
  congr 1
  ext g
  simp only [hits, Set.mem_ofPred_eq, Except.ok.injEq, Set.mem_univ, and_true]
  constructor
  · rintro ⟨g', h1⟩; rw [h1]
  · intro h1; exact ⟨_, by rw [← h1]⟩

/-- Both orders of the two agents taken together, any two agents are equally likely to meet when there is no network. -/
theorem chance_plain {r : Rng G F} [IsProbabilityMeasure μ] (hr : r.IntLawful) (hi : FairIntegers r μ) {s : Deffuant A F G} (hs : s.Ready)
    (hn : 2 ≤ s.network.agents.length) (hu : s.useNetwork = false) (a b : Nat) :
    chance r s μ (a, b) + chance r s μ (b, a) =
      if a < s.network.agents.length ∧ b < s.network.agents.length ∧ a ≠ b then (1 / (s.network.agents.length.choose 2 : ℕ) : ℝ≥0∞) else 0 := by
  have hv : ∀ a b, a < b → b < s.network.agents.length → chance r s μ (a, b) = 1 / (s.network.agents.length.choose 2 : ℕ) := by
    intro a b hab hb
    rw [chance_eq hr hs (by omega), (C74_pair hr hi hu hab hb MeasurableSet.univ).2, measure_univ]
  by_cases h : a < s.network.agents.length ∧ b < s.network.agents.length ∧ a ≠ b
  · rw [if_pos h]
    obtain ⟨ha, hb, hab⟩ := h
    rcases lt_or_gt_of_ne hab with hlt | hlt
    · have h0 : chance r s μ (b, a) = 0 := chance_zero hr hs hn (by rintro ⟨-, -, h⟩; have := h hu; omega)
      rw [hv a b hlt hb, h0, add_zero]
    · have h0 : chance r s μ (a, b) = 0 := chance_zero hr hs hn (by rintro ⟨-, -, h⟩; have := h hu; omega)
      rw [hv b a hlt ha, h0, zero_add]
  · have h0 : chance r s μ (a, b) = 0 := chance_zero hr hs hn (by rintro ⟨h1, h2, h3⟩; exact h ⟨h1, h2, (h3 hu).ne⟩)
    have h1 : chance r s μ (b, a) = 0 := chance_zero hr hs hn (by rintro ⟨h1, h2, h3⟩; exact h ⟨h2, h1, (h3 hu).ne'⟩)
    rw [if_neg h, h0, h1, add_zero]

/-- With network, the chance depends on the rows as bags. -/
theorem chance_network {r : Rng G F} [IsProbabilityMeasure μ] (hr : r.IntLawful) (hi : FairIntegers r μ) {s s' : Deffuant A F G} (hs : s.Ready) (hs' : s'.Ready)
    (hn : 2 ≤ s.network.agents.length) (hn' : s'.network.agents.length = s.network.agents.length) (hu : s.useNetwork = true) (hu' : s'.useNetwork = true)
    {σ : Equiv.Perm ℕ} (hσ : ∀ i, σ i < s.network.agents.length ↔ i < s.network.agents.length)
    (hrows : ∀ i, i < s.network.agents.length → (s'.network.neighbours.getD (σ i) []).Perm ((s.network.neighbours.getD i []).map σ)) (a b : Nat) :
    chance r s' μ (σ a, σ b) = chance r s μ (a, b) := by
  by_cases h : a < s.network.agents.length
  · have ha : a < s.network.neighbours.length := by rw [hs.wf.rows]; exact h
    have hσa : σ a < s'.network.neighbours.length := by rw [hs'.wf.rows, hn']; exact (hσ a).mpr h
    have hp := hrows a h
    rw [getD_lt _ _ ha, getD_lt _ _ hσa] at hp
    rw [chance_eq hr hs' (by omega), chance_eq hr hs (by omega),
      (C74_neighbour hi hs' hu' (by rw [hn']; exact (hσ a).mpr h) (row := s'.network.neighbours[σ a]) (by rw [Network.getNeighbours, rd_lt hσa]) (σ b) MeasurableSet.univ).2,
      (C74_neighbour hi hs hu h (row := s.network.neighbours[a]) (by rw [Network.getNeighbours, rd_lt ha]) b MeasurableSet.univ).2,
      hn', hp.length_eq, List.length_map, hp.count_eq, List.count_map_of_injective _ _ σ.injective]
  · rw [chance_zero hr hs' (by omega), chance_zero hr hs hn]
    · rintro ⟨h1, -⟩; exact h h1
    · rintro ⟨h1, -⟩; rw [hn', hσ] at h1; exact h h1

/-- The law of the opinions after any number of iterations does not depend on the numbering, if the update rule and the choice of the pair do not. -/
theorem relabel_law {update : Nat → Nat → Deffuant A F G → Res (Deffuant A F G)} {m m' : Nat → Nat → List A → G → Res (List A × G)} {I I' : List A → Prop}
    {r : Rng G F} [IsProbabilityMeasure μ] (hr : r.IntLawful) (hi : FairIntegers r μ) {s s' : Deffuant A F G} (hs : s.Ready) (hs' : s'.Ready)
    (hn : 2 ≤ s.network.agents.length) (R : Rule update s m I μ) (R' : Rule update s' m' I' μ) {σ : Equiv.Perm ℕ}
    (hag : Relabelled σ s.network.agents s'.network.agents) (hI : I s.network.agents) (hI' : ∀ xs ys, I xs → Relabelled σ xs ys → I' ys)
    (hm : ∀ a b xs xs' ys ys', I xs → a < s.network.agents.length → b < s.network.agents.length → Relabelled σ xs xs' → Relabelled σ ys ys' →
      ys.length = s.network.agents.length → μ (hits (m' (σ a) (σ b) xs') ys' Set.univ) = μ (hits (m a b xs) ys Set.univ))
    (hP : (∀ a b, chance r s' μ (σ a, σ b) = chance r s μ (a, b)) ∨
      ((∀ a b xs ys, I xs → a < s.network.agents.length → b < s.network.agents.length → a ≠ b →
        μ (hits (m b a xs) ys Set.univ) = μ (hits (m a b xs) ys Set.univ)) ∧ s.useNetwork = false ∧ s'.useNetwork = false))
    (t : ℕ) {ys ys' : List A} (hys : Relabelled σ ys ys') :
    μ {g | ∃ u, Iterates (iteration r update) { s' with gen := g } t u ∧ u.network.agents = ys'} =
      μ {g | ∃ u, Iterates (iteration r update) { s with gen := g } t u ∧ u.network.agents = ys} := by
  have hσ := hag.lt_iff
  have hn' : s'.network.agents.length = s.network.agents.length := hag.1
  have hIs' : I' s'.network.agents := hI' _ _ hI hag
  rw [iterates_hits hr hs' (by omega) R' hIs', iterates_hits hr hs (by omega) R hI]
  have hinv := stepOf_inv hr hs (by omega) R
  have hinv' := stepOf_inv hr hs' (by omega) R'
  by_cases hl : ys.length = s.network.agents.length
  · let φ : List A ≃ List A := relabel σ s.network.agents.length hσ
    have e1 : s'.network.agents = φ s.network.agents := hag.eq rfl
    have e2 : ys' = φ ys := hys.eq hl
    rw [e2, hn', e1]
    refine walk_invariant hinv hinv' (fun x hx => (stepOf_law hr hi hs hn R hx).1) (fun x hx => (stepOf_law hr hi hs' (by omega) R' hx).1) φ
      (fun x hx => hI' _ _ hx (relabel_spec (R.size x hx))) ?_ _ _ hI ys
    intro x hx y
    have hx' : I' (φ x) := hI' _ _ hx (relabel_spec (R.size x hx))
    rw [(stepOf_law hr hi hs hn R hx).2, (stepOf_law hr hi hs' (by omega) R' hx').2]
    by_cases hy : y.length = s.network.agents.length
    · -- the pairs, renamed
      rw [← (Equiv.prodCongr σ σ).tsum_eq]
      have hterm : ∀ p : Nat × Nat, chance r s' μ ((Equiv.prodCongr σ σ) p) * μ (hits (m' ((Equiv.prodCongr σ σ) p).1 ((Equiv.prodCongr σ σ) p).2 (φ x)) (φ y) Set.univ) =
          chance r s' μ (σ p.1, σ p.2) * μ (hits (m p.1 p.2 x) y Set.univ) := by
        rintro ⟨a, b⟩
        show chance r s' μ (σ a, σ b) * μ (hits (m' (σ a) (σ b) (φ x)) (φ y) Set.univ) = _
        by_cases hab : a < s.network.agents.length ∧ b < s.network.agents.length
        · rw [hm a b x (φ x) y (φ y) hx hab.1 hab.2 (relabel_spec (R.size x hx)) (relabel_spec hy) hy]
        · rw [chance_zero hr hs' (by omega), zero_mul, zero_mul]
          rintro ⟨h1, h2, -⟩
          rw [hn', hσ] at h1 h2
          exact hab ⟨h1, h2⟩
      rw [tsum_congr hterm]
      rcases hP with hP | ⟨hsym, hu, hu'⟩
      · exact tsum_congr fun p => by rw [hP]
      · have hQ : ∀ a b, chance r s' μ (σ a, σ b) + chance r s' μ (σ b, σ a) = chance r s μ (a, b) + chance r s μ (b, a) := by
          intro a b
          rw [chance_plain hr hi hs hn hu, chance_plain hr hi hs' (by omega) hu', hn']
          simp only [ne_eq, EmbeddingLike.apply_eq_iff_eq, hσ]
        have hdouble : ∀ P : Nat × Nat → ℝ≥0∞, (∀ a b, ¬ (a < s.network.agents.length ∧ b < s.network.agents.length ∧ a ≠ b) → P (a, b) = 0) →
            2 * ∑' p : Nat × Nat, P p * μ (hits (m p.1 p.2 x) y Set.univ) =
              ∑' p : Nat × Nat, (P (p.1, p.2) + P (p.2, p.1)) * μ (hits (m p.1 p.2 x) y Set.univ) := by
          intro P hP0
          rw [two_mul]
          conv_lhs => arg 2; rw [← (Equiv.prodComm ℕ ℕ).tsum_eq]
          rw [← ENNReal.tsum_add]
          refine tsum_congr ?_
          rintro ⟨a, b⟩
          show P (a, b) * μ (hits (m a b x) y Set.univ) + P (b, a) * μ (hits (m b a x) y Set.univ) = (P (a, b) + P (b, a)) * μ (hits (m a b x) y Set.univ)
          rw [add_mul]
          by_cases hab : a < s.network.agents.length ∧ b < s.network.agents.length ∧ a ≠ b
          · rw [hsym a b x y hx hab.1 hab.2.1 hab.2.2]
          · rw [hP0 b a (by rintro ⟨h1, h2, h3⟩; exact hab ⟨h2, h1, h3.symm⟩), zero_mul, zero_mul]
        have hz : ∀ a b, ¬ (a < s.network.agents.length ∧ b < s.network.agents.length ∧ a ≠ b) → chance r s μ (a, b) = 0 := by
          intro a b h
          refine chance_zero hr hs hn ?_
          rintro ⟨h1, h2, h3⟩
          exact h ⟨h1, h2, (h3 hu).ne⟩
        have hz' : ∀ a b, ¬ (a < s.network.agents.length ∧ b < s.network.agents.length ∧ a ≠ b) → chance r s' μ (σ a, σ b) = 0 := by
          intro a b h
          refine chance_zero hr hs' (by omega) ?_
          rintro ⟨h1, h2, h3⟩
          rw [hn', hσ] at h1 h2
          exact h ⟨h1, h2, fun hc => by rw [hc] at h3; exact lt_irrefl _ (h3 hu')⟩
        have h2 := (hdouble (fun p => chance r s' μ (σ p.1, σ p.2)) hz').trans
          ((tsum_congr fun p => by dsimp only; rw [hQ]).trans (hdouble (chance r s μ) hz).symm)
        exact (ENNReal.mul_right_inj two_ne_zero ENNReal.ofNat_ne_top).mp h2
    · -- no such list is reached
      have hnone : ∀ {s₀ : Deffuant A F G} {m₀ : Nat → Nat → List A → G → Res (List A × G)} {I₀ : List A → Prop} (R₀ : Rule update s₀ m₀ I₀ μ) (hs₀ : s₀.Ready)
          (hn₀ : 2 ≤ s₀.network.agents.length) {x₀ y₀ : List A}, I₀ x₀ → y₀.length ≠ s₀.network.agents.length →
          ∑' p : Nat × Nat, chance r s₀ μ p * μ (hits (m₀ p.1 p.2 x₀) y₀ Set.univ) = 0 := by
        intro s₀ m₀ I₀ R₀ hs₀ hn₀ x₀ y₀ hx₀ hy₀
        rw [← (stepOf_law hr hi hs₀ hn₀ R₀ hx₀).2, Fresh.hits_never, measure_empty]
        rintro ⟨g, g', h1⟩
        exact hy₀ (R₀.size _ (stepOf_inv hr hs₀ (by omega) R₀ x₀ hx₀ g y₀ g' h1))
      rw [hnone R hs hn hx hy, hnone R' hs' (by omega) hx' (by rw [relabel_length, hn']; exact hy)]
  · have hnone : ∀ {s₀ : Deffuant A F G} {m₀ : Nat → Nat → List A → G → Res (List A × G)} {I₀ : List A → Prop} (R₀ : Rule update s₀ m₀ I₀ μ) (hs₀ : s₀.Ready)
        (hn₀ : 2 ≤ s₀.network.agents.length) (hI₀ : I₀ s₀.network.agents) {y₀ : List A}, y₀.length ≠ s₀.network.agents.length →
        hits (walk (stepOf r s₀ m₀) (t * s₀.network.agents.length) s₀.network.agents) y₀ Set.univ = ∅ := by
      intro s₀ m₀ I₀ R₀ hs₀ hn₀ hI₀ y₀ hy₀
      refine Fresh.hits_never _ ?_
      rintro ⟨g, g', h1⟩
      obtain ⟨zs, g'', c, h2, h3, -⟩ := iterates_stepOf hr hs₀ (by omega) R₀ hI₀ g t
      rw [h2] at h1
      cases h1
      exact hy₀ (R₀.size _ h3)
    rw [hnone R hs hn hI hl, hnone R' hs' (by omega) hIs' (by rw [hys.1, hn']; exact hl)]

end Deffuant
end Seldon
