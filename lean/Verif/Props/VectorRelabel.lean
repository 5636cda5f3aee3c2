import Verif.Lemmas.VectorEntry
import Verif.Props.VectorLimit
import Verif.Props.Relabel
/-!
# C87: the numbering of the agents in the Deffuant model with binary vectors
-/
set_option linter.unusedSectionVars false
namespace Seldon
open Spec MeasureTheory
open scoped ENNReal
variable {G : Type}

/-- C87, the part that holds: with `use_network`, or with `mu ≤ 0`, the law of the vectors after any number of iterations does not depend on the numbering of
the agents.  Missing: the same without network for `mu > 0`, which is false (`C87_refuted`). -/
theorem C87_relabel_partial [MeasurableSpace G] {μ : Measure G} [IsProbabilityMeasure μ] {r : Rng G ℝ}
    (hr : r.IntLawful) (hi : FairIntegers r μ) (hu : Draws r.unit uniform μ) {s s' : Deffuant DiscreteVectorAgent ℝ G} (hs : s.Ready) (hs' : s'.Ready)
    (hn : 2 ≤ s.network.agents.length) (hθ : s'.threshold = s.threshold) (hmu : s'.mu = s.mu) (hun : s'.useNetwork = s.useNetwork) {σ : Equiv.Perm ℕ}
    (hag : Relabelled σ s.network.agents s'.network.agents)
    (hrows : s.useNetwork = true → ∀ i, i < s.network.agents.length →
      (s'.network.neighbours.getD (σ i) []).Perm ((s.network.neighbours.getD i []).map σ))
    {d : ℕ} (hd : ∀ x ∈ s.network.agents, x.opinion.length = d) (hcase : s.useNetwork = true ∨ s.mu ≤ 0)
    (t : ℕ) {ys ys' : List DiscreteVectorAgent} (hys : Relabelled σ ys ys') :
    μ {g | ∃ u, Iterates (Deffuant.iteration r (Deffuant.updateVector r)) { s' with gen := g } t u ∧ u.network.agents = ys'} =
      μ {g | ∃ u, Iterates (Deffuant.iteration r (Deffuant.updateVector r)) { s with gen := g } t u ∧ u.network.agents = ys} := by
  have hσ := hag.lt_iff
  refine Deffuant.relabel_law hr hi hs hs' hn (Deffuant.meetV_rule hi hu s d) (Deffuant.meetV_rule hi hu s' d) hag ⟨rfl, hd⟩ ?_ ?_ ?_ t hys
  · rintro xs zs ⟨h1, h2⟩ h3
    refine ⟨(h3.1.trans h1).trans hag.1.symm, ?_⟩
    intro x hx
    obtain ⟨i, hi', rfl⟩ := List.mem_iff_getElem.mp hx
    have h4 := h3.2 (σ.symm i)
    rw [Equiv.apply_symm_apply, List.getElem?_eq_getElem hi'] at h4
    exact h2 _ (List.mem_of_getElem? h4.symm)
  · intro a b xs xs' zs zs' hx ha hb hxs hzs hz
    rw [hθ, hmu]
    congr 1
    have inj : ∀ ws ws' : List DiscreteVectorAgent, ws.length = s.network.agents.length → Relabelled σ ws ws' → (ws' = zs' ↔ ws = zs) := by
      intro ws ws' hw h
      rw [h.eq (n := s.network.agents.length) (hσ := hσ) hw, hzs.eq (n := s.network.agents.length) (hσ := hσ) hz, EmbeddingLike.apply_eq_iff_eq]
    ext g
    obtain ⟨⟨ws, g'⟩, h1⟩ := ((Deffuant.meetV_rule hi hu s d).fresh a b xs hx ha hb).ok g
    obtain ⟨ws', h2, h3⟩ := Deffuant.meetV_relabel r s.threshold s.mu a b hxs h1
    have hl := ((Deffuant.meetV_rule hi hu s d).inv a b xs hx ha hb g ws g' h1).1
    simp only [hits, Set.mem_ofPred_eq, h1, h3, Except.ok.injEq, Prod.mk.injEq, Set.mem_univ, and_true]
    constructor
    · rintro ⟨g'', h4, h5⟩
      exact ⟨g'', (inj ws ws' hl h2).mp h4, h5⟩
    · rintro ⟨g'', h4, h5⟩
      exact ⟨g'', (inj ws ws' hl h2).mpr h4, h5⟩
  · by_cases hun' : s.useNetwork = true
    · exact .inl (Deffuant.chance_network hr hi hs hs' hn hag.1 hun' (hun.trans hun') hσ (hrows hun'))
    · have hu0 : s.useNetwork = false := by simpa using hun'
      refine .inr ⟨?_, hu0, hun.trans hu0⟩
      intro a b xs zs hx ha hb hab
      exact Deffuant.meetV_swap hi hu (hcase.resolve_left hun') hx.2 (by rw [hx.1]; exact ha) (by rw [hx.1]; exact hb) hab zs

/-- C87: when two different agents meet (`a` being the first of the pair, which without network is always the one with the lower number), then for each
position at which their vectors differ, both end up with the entry of `a` with probability `(1 + mu) / 2` and with the entry of `b` with probability
`(1 - mu) / 2`, for `0 ≤ mu ≤ 1`. -/
theorem C87_bias [MeasurableSpace G] {μ : Measure G} [IsProbabilityMeasure μ] {r : Rng G ℝ} (hi : FairIntegers r μ) (hu : Draws r.unit uniform μ)
    {s : Deffuant DiscreteVectorAgent ℝ G} {d : ℕ} (hd : ∀ x ∈ s.network.agents, x.opinion.length = d) (h0 : 0 ≤ s.mu) (h1 : s.mu ≤ 1)
    {a b k : ℕ} (ha : a < s.network.agents.length) (hb : b < s.network.agents.length) (hk : k < d)
    (hnear : ((Finset.range d).filter fun j => entry s.network.agents a j ≠ entry s.network.agents b j).card < s.threshold)
    (hne : entry s.network.agents a k ≠ entry s.network.agents b k) :
    μ {g | ∃ u, Deffuant.updateVector r a b { s with gen := g } = .ok u ∧ entry u.network.agents a k = entry s.network.agents a k ∧
      entry u.network.agents b k = entry s.network.agents a k} = ENNReal.ofReal ((1 + s.mu) / 2) ∧
    μ {g | ∃ u, Deffuant.updateVector r a b { s with gen := g } = .ok u ∧ entry u.network.agents a k = entry s.network.agents b k ∧
      entry u.network.agents b k = entry s.network.agents b k} = ENNReal.ofReal ((1 - s.mu) / 2) := by
  have hab : a ≠ b := fun hc => hne (by rw [hc])
  have hn : Deffuant.Near d s.threshold s.network.agents[a].opinion s.network.agents[b].opinion := by
    unfold Deffuant.Near
    simp only [Deffuant.entry_vec, Deffuant.vec_lt ha, Deffuant.vec_lt hb] at hnear
    exact hnear
  obtain ⟨hm, hv⟩ := Deffuant.yields_law hi hu s.mu
  rw [Deffuant.uniform_mid h0] at hv
  have hv' : μ (Deffuant.yields r s.mu) = ENNReal.ofReal ((1 - s.mu) / 2) := by
    rw [hv, ENNReal.ofReal_div_of_pos (by norm_num)]
    simp
  have hvc : μ (Deffuant.yields r s.mu)ᶜ = ENNReal.ofReal ((1 + s.mu) / 2) := by
    rw [measure_compl hm (measure_ne_top μ _), measure_univ, hv', ← ENNReal.ofReal_one, ← ENNReal.ofReal_sub _ (by linarith)]
    congr 1
    ring
  have hfr := (Deffuant.convinceTo_fresh hi hu s.mu hd ha hb k hk.le).1
  have hset : ∀ g, ∃ gk u, (∀ S : Set G, (∃ y g', loop k (fun k t => Deffuant.convince r s.mu a b k t) (s.network.agents, g) = .ok (y, g') ∧ g' ∈ S) ↔ gk ∈ S) ∧
      Deffuant.updateVector r a b { s with gen := g } = .ok u ∧
      (gk ∈ Deffuant.yields r s.mu → entry u.network.agents a k = entry s.network.agents b k ∧ entry u.network.agents b k = entry s.network.agents b k) ∧
      (gk ∉ Deffuant.yields r s.mu → entry u.network.agents a k = entry s.network.agents a k ∧ entry u.network.agents b k = entry s.network.agents a k) := by
    intro g
    obtain ⟨zs, gk, ys, g', e1, e2, -, -, e5, e6⟩ := Deffuant.meetV_entry r s.threshold s.mu hd ha hb hab hk hn g
    refine ⟨gk, { s with network := { s.network with agents := ys }, gen := g' }, ?_, ?_, e5, e6⟩
    · intro S
      rw [e1]
      constructor
      · rintro ⟨y, g'', h2, h3⟩
        cases h2
        exact h3
      · exact fun h => ⟨zs, gk, rfl, h⟩
    · rw [Deffuant.updateVector_eq]
      dsimp only
      rw [e2, Res.bind_ok]
  constructor
  · rw [← hvc, ← (hfr.after_law hm.compl).2]
    congr 1
    ext g
    obtain ⟨gk, u, e1, e2, e3, e4⟩ := hset g
    simp only [Set.mem_ofPred_eq, e1, e2, Except.ok.injEq, exists_eq_left']
    show _ ↔ gk ∉ Deffuant.yields r s.mu
    constructor
    · rintro ⟨h2, -⟩ hy
      exact hne (h2.symm.trans (e3 hy).1)
    · exact e4
  · rw [← hv', ← (hfr.after_law hm).2]
    congr 1
    ext g
    obtain ⟨gk, u, e1, e2, e3, e4⟩ := hset g
    simp only [Set.mem_ofPred_eq, e1, e2, Except.ok.injEq, exists_eq_left']
    constructor
    · rintro ⟨h2, -⟩
      by_contra hy
      exact hne ((e4 hy).1.symm.trans h2)
    · exact e3

/-- C87: without network the first agent of the pair is the one with the lower number, for every state of the generator. -/
theorem C87_lower_first {A F : Type} {r : Rng G F} (hr : r.IntLawful) {s u : Deffuant A F G} (hs : s.Ready) (hn : 2 ≤ s.network.agents.length)
    (hu : s.useNetwork = false) {p : List Nat} (h : Deffuant.selectPair r s = .ok (p, u)) : ∃ a b, p = [a, b] ∧ a < b := by
  obtain ⟨a, b, g, h1, -, -, hc, -⟩ := Deffuant.selectPair_ok hr hs (by omega)
  rw [h1] at h
  cases h
  exact ⟨a, b, rfl, hc hu hn⟩

/-- C87: without network, if `mu` is at least every number that the generator returns (for instance `mu ≥ 1`), the vector of the agent with number 0 never
changes, for all states of the generator and any number of iterations, in any arithmetic. -/
theorem C87_first {F : Type} [LT F] [DecidableLT F] [IntCast F] {r : Rng G F} (hr : r.IntLawful) {s t : Deffuant DiscreteVectorAgent F G} (hs : s.Ready)
    (hn : 2 ≤ s.network.agents.length) (hu : s.useNetwork = false) {d : ℕ} (hd : ∀ x ∈ s.network.agents, x.opinion.length = d)
    (hmu : ∀ g, ¬ s.mu < (r.unit g).1) {k : ℕ} (h : Iterates (Deffuant.iteration r (Deffuant.updateVector r)) s k t) :
    t.network.agents[0]? = s.network.agents[0]? := by
  have hconv : ∀ (a b j : ℕ) (u v : List DiscreteVectorAgent × G), b ≠ 0 → Deffuant.convince r s.mu a b j u = .ok v → v.1[0]? = u.1[0]? := by
    intro a b j u v hb hv
    unfold Deffuant.convince at hv
    obtain ⟨x, h1, hv⟩ := Res.bind_eq_ok.mp hv
    obtain ⟨y, h2, hv⟩ := Res.bind_eq_ok.mp hv
    obtain ⟨xk, h3, hv⟩ := Res.bind_eq_ok.mp hv
    obtain ⟨yk, h4, hv⟩ := Res.bind_eq_ok.mp hv
    have hw : ∀ {ag : List DiscreteVectorAgent} {o : DiscreteVectorAgent}, wr u.1 b o = .ok ag → ag[0]? = u.1[0]? := by
      intro ag o h
      unfold wr at h
      split at h
      · cases h
        exact List.getElem?_set_ne hb
      · cases h
    split at hv
    · dsimp only at hv
      rw [if_neg (hmu _)] at hv
      split at hv
      · obtain ⟨op, h5, hv⟩ := Res.bind_eq_ok.mp hv
        obtain ⟨ag, h6, hv⟩ := Res.bind_eq_ok.mp hv
        cases hv
        exact hw h6
      · obtain ⟨op, h5, hv⟩ := Res.bind_eq_ok.mp hv
        obtain ⟨ag, h6, hv⟩ := Res.bind_eq_ok.mp hv
        cases hv
        exact hw h6
    · cases hv; rfl
  have hint : ∀ u v : Deffuant DiscreteVectorAgent F G, Deffuant.Frame s u → Deffuant.Dim d u.network.agents → Deffuant.interact r (Deffuant.updateVector r) u = .ok v →
      Deffuant.Frame s v ∧ Deffuant.Dim d v.network.agents ∧ v.network.agents[0]? = u.network.agents[0]? := by
    intro u v hF hD hv
    obtain ⟨a, b, g, h1, ha, hb, hc, -⟩ := Deffuant.selectPair_ok hr (hF.ready hs) (by rw [hF.n]; omega)
    have hab := hc (hF.useNetwork.trans hu) (by rw [hF.n]; exact hn)
    unfold Deffuant.interact at hv
    simp only [h1, Res.bind_ok, rd, List.getElem?_cons_zero, List.getElem?_cons_succ, List.getElem?_eq_getElem ha, List.getElem?_eq_getElem hb] at hv
    obtain ⟨hF', hD', -⟩ := Deffuant.updateVector_inv r (s := { u with gen := g }) hD ha hb hv
    refine ⟨hF.trans ⟨hF'.1, hF'.2, hF'.3, hF'.4, hF'.5, hF'.6, hF'.7, hF'.8⟩, hD', ?_⟩
    unfold Deffuant.updateVector at hv
    obtain ⟨x, h2, hv⟩ := Res.bind_eq_ok.mp hv
    obtain ⟨y, h3, hv⟩ := Res.bind_eq_ok.mp hv
    obtain ⟨dd, h4, hv⟩ := Res.bind_eq_ok.mp hv
    split at hv
    · obtain ⟨p, h5, hv⟩ := Res.bind_eq_ok.mp hv
      cases hv
      dsimp only at h5 ⊢
      rw [hF.mu] at h5
      exact Deffuant.loop_ok (σ := List DiscreteVectorAgent × G) (f := fun k t => Deffuant.convince r s.mu a b k t) (fun _ t => t.1[0]? = u.network.agents[0]?)
        (fun i w w' hw he => (hconv a b i w w' (by omega) he).trans hw) rfl h5
    · cases hv; rfl
  have hiter : ∀ u v : Deffuant DiscreteVectorAgent F G, Deffuant.Frame s u → Deffuant.Dim d u.network.agents → Deffuant.iteration r (Deffuant.updateVector r) u = .ok v →
      Deffuant.Frame s v ∧ Deffuant.Dim d v.network.agents ∧ v.network.agents[0]? = u.network.agents[0]? := by
    intro u v hF hD hv
    refine Deffuant.loop_ok (σ := Deffuant DiscreteVectorAgent F G) (f := fun _ s => Deffuant.interact r (Deffuant.updateVector r) s)
      (n := u.network.nAgents) (s := { u with counter := u.counter.tick }) (fun _ w => Deffuant.Frame s w ∧ Deffuant.Dim d w.network.agents ∧ w.network.agents[0]? = u.network.agents[0]?)
      (fun i w w' hw he => by
        obtain ⟨e1, e2, e3⟩ := hint w w' hw.1 hw.2.1 he
        exact ⟨e1, e2, e3.trans hw.2.2⟩)
      ⟨hF.trans ⟨rfl, rfl, rfl, rfl, rfl, rfl, rfl, rfl⟩, hD, rfl⟩ hv
  have key : Deffuant.Frame s t ∧ Deffuant.Dim d t.network.agents ∧ t.network.agents[0]? = s.network.agents[0]? := by
    induction h with
    | zero => exact ⟨.refl s, hd, rfl⟩
    | succ _ e ih =>
      obtain ⟨e1, e2, e3⟩ := hiter _ _ ih.1 ih.2.1 e
      exact ⟨e1, e2, e3.trans ih.2.2⟩
  exact key.2.2

/-! ## the numbering does matter -/

/-- Two agents without network with the vectors `x` and `y` of length one; threshold 2. -/
noncomputable def twoVectors (mu : ℝ) (x y : Int) (g : G) : Deffuant DiscreteVectorAgent ℝ G :=
  ⟨⟨none, 0⟩, 2, mu, false, ⟨[⟨[x]⟩, ⟨[y]⟩], [[], []], [[], []], .incoming⟩, g⟩

theorem twoVectors_ready (mu : ℝ) (x y : Int) (g : G) : (twoVectors mu x y g).Ready where
  wf := by
    refine ⟨rfl, rfl, ?_, ?_⟩
    · intro i h1 h2
      have : i < 2 := h1
      interval_cases i <;> rfl
    · intro row hrow j hj
      have : row = [] := by simpa [twoVectors] using hrow
      rw [this] at hj
      cases hj
  size := by simp [twoVectors]
  rows h := by cases h

/-- The probability that the first of two agents convinces the second one in one iteration. -/
theorem C87_two [MeasurableSpace G] {μ : Measure G} [IsProbabilityMeasure μ] {r : Rng G ℝ} (hr : r.IntLawful) (hi : FairIntegers r μ)
    (hu : Draws r.unit uniform μ) {mu : ℝ} (h0 : 0 ≤ mu) (h1 : mu ≤ 1) {x y : Int} (hxy : x ≠ y) (g₀ : G) :
    μ {g | ∃ u, Iterates (Deffuant.iteration r (Deffuant.updateVector r)) { twoVectors mu x y g₀ with gen := g } 1 u ∧ u.network.agents = [⟨[x]⟩, ⟨[x]⟩]} =
      ENNReal.ofReal ((1 + mu) / 2) ∧
    μ {g | ∃ u, Iterates (Deffuant.iteration r (Deffuant.updateVector r)) { twoVectors mu x y g₀ with gen := g } 1 u ∧ u.network.agents = [⟨[y]⟩, ⟨[y]⟩]} =
      ENNReal.ofReal ((1 - mu) / 2) := by
  let s := twoVectors mu x y g₀
  have hs : s.Ready := twoVectors_ready mu x y g₀
  have hn2 : s.network.agents.length = 2 := rfl
  have hd : ∀ w ∈ s.network.agents, w.opinion.length = 1 := by
    intro w hw
    simp only [s, twoVectors, List.mem_cons, List.not_mem_nil, or_false] at hw
    rcases hw with rfl | rfl <;> rfl
  have R := Deffuant.meetV_rule (μ := μ) hi hu s 1
  have hI : s.network.agents.length = s.network.agents.length ∧ Deffuant.Dim 1 s.network.agents := ⟨rfl, hd⟩
  have hpair : ∀ g, ∃ g', Deffuant.drawnPair r s g = ((0, 1), g') := by
    intro g
    obtain ⟨a, b, g', e, ha, hb, hc⟩ := Deffuant.drawnPair_range hr hs (by omega) g
    have := hc rfl (by omega)
    obtain rfl : a = 0 := by omega
    obtain rfl : b = 1 := by omega
    exact ⟨g', e⟩
  have hB := C87_bias (s := s) hi hu hd h0 h1 (a := 0) (b := 1) (k := 0) (by omega) (by omega) (by omega) (by
      have h2 := Finset.card_filter_le (Finset.range 1) fun j => entry s.network.agents 0 j ≠ entry s.network.agents 1 j
      rw [Finset.card_range] at h2
      have h3 : (((Finset.range 1).filter fun j => entry s.network.agents 0 j ≠ entry s.network.agents 1 j).card : ℝ) ≤ 1 := by exact_mod_cast h2
      exact lt_of_le_of_lt h3 (by show (1 : ℝ) < 2; norm_num)) (by
      show some x ≠ some y
      simpa using hxy)
  -- after the first meeting both agree
  have hone : ∀ {ws : List DiscreteVectorAgent} {w : Int}, ws.length = 2 → Deffuant.Dim 1 ws → entry ws 0 0 = some w → entry ws 1 0 = some w → ws = [⟨[w]⟩, ⟨[w]⟩] := by
    intro ws w hl hD e1 e2
    match ws, hl with
    | [⟨u⟩, ⟨v⟩], _ =>
      have hu' : u.length = 1 := hD ⟨u⟩ (by simp)
      have hv' : v.length = 1 := hD ⟨v⟩ (by simp)
      match u, hu', v, hv' with
      | [p], _, [q], _ =>
        cases e1; cases e2; rfl
  have hfix : ∀ (w : Int) g, ∃ g', Deffuant.stepOf r s (Deffuant.meetV r s.threshold s.mu) [⟨[w]⟩, ⟨[w]⟩] g = .ok ([⟨[w]⟩, ⟨[w]⟩], g') := by
    intro w g
    obtain ⟨g', e⟩ := hpair g
    refine ⟨g', ?_⟩
    rw [Deffuant.stepOf, e, Res.bind_ok]
    exact Deffuant.meetV_idle r s.threshold s.mu (d := 1) (a := 0) (b := 1) (xs := [⟨[w]⟩, ⟨[w]⟩]) (by
      intro v hv
      simp only [List.mem_cons, List.not_mem_nil, or_false] at hv
      rcases hv with rfl | rfl <;> rfl) (by simp) (by simp) g' (.inl rfl)
  have hmeet : ∀ g, ∃ w g', (w = x ∨ w = y) ∧ Deffuant.meetV r s.threshold s.mu 0 1 s.network.agents g = .ok ([⟨[w]⟩, ⟨[w]⟩], g') := by
    intro g
    obtain ⟨zs, gk, ys, g', e1, e2, e3, e4, e5, e6⟩ := Deffuant.meetV_entry r s.threshold s.mu (a := 0) (b := 1) (k := 0) hd (by omega) (by omega) (by omega) (by omega) (by
      unfold Deffuant.Near
      have h2 := Finset.card_filter_le (Finset.range 1) fun j => (s.network.agents[0]'(by omega)).opinion[j]? ≠ (s.network.agents[1]'(by omega)).opinion[j]?
      rw [Finset.card_range] at h2
      have h3 : (((Finset.range 1).filter fun j => (s.network.agents[0]'(by omega)).opinion[j]? ≠ (s.network.agents[1]'(by omega)).opinion[j]?).card : ℝ) ≤ 1 := by
        exact_mod_cast h2
      exact lt_of_le_of_lt h3 (by show (1 : ℝ) < 2; norm_num)) g
    by_cases hy : gk ∈ Deffuant.yields r s.mu
    · obtain ⟨f1, f2⟩ := e5 hy
      exact ⟨y, g', .inr rfl, by rw [e2, hone (e3.trans hn2) e4 f1 f2]⟩
    · obtain ⟨f1, f2⟩ := e6 hy
      exact ⟨x, g', .inl rfl, by rw [e2, hone (e3.trans hn2) e4 f1 f2]⟩
  have hwalk : ∀ g w g', Deffuant.meetV r s.threshold s.mu 0 1 s.network.agents (Deffuant.drawnPair r s g).2 = .ok ([⟨[w]⟩, ⟨[w]⟩], g') →
      ∃ g'', walk (Deffuant.stepOf r s (Deffuant.meetV r s.threshold s.mu)) (1 * 2) s.network.agents g = .ok ([⟨[w]⟩, ⟨[w]⟩], g'') := by
    intro g w g' e
    obtain ⟨gp, hp⟩ := hpair g
    rw [hp] at e
    obtain ⟨g'', hf⟩ := hfix w g'
    refine ⟨g'', ?_⟩
    show walk (Deffuant.stepOf r s (Deffuant.meetV r s.threshold s.mu)) (0 + 1 + 1) s.network.agents g = _
    rw [walk, Deffuant.stepOf, hp, Res.bind_ok]
    dsimp only
    rw [e, Res.bind_ok, walk]
    dsimp only
    rw [hf, Res.bind_ok, walk]
  have hfp := Deffuant.pair_fresh (μ := μ) hr hi hs (le_of_eq hn2.symm)
  have hlaw : ∀ w : Int, MeasurableSet {g | ∃ u, Deffuant.updateVector r 0 1 { s with gen := g } = .ok u ∧ u.network.agents = [⟨[w]⟩, ⟨[w]⟩]} →
      μ {g | ∃ u, Iterates (Deffuant.iteration r (Deffuant.updateVector r)) { s with gen := g } 1 u ∧ u.network.agents = [⟨[w]⟩, ⟨[w]⟩]} =
      μ {g | ∃ u, Deffuant.updateVector r 0 1 { s with gen := g } = .ok u ∧ u.network.agents = [⟨[w]⟩, ⟨[w]⟩]} := by
    intro w hw
    rw [Deffuant.iterates_hits hr hs (by omega) R hI, ← (hfp.after_law hw).2]
    congr 1
    ext g
    obtain ⟨gp, hp⟩ := hpair g
    obtain ⟨v, g', hv, e⟩ := hmeet gp
    obtain ⟨g'', hwk⟩ := hwalk g v g' (by rw [hp]; exact e)
    have hupd : Deffuant.updateVector r 0 1 { s with gen := gp } = .ok { s with network := { s.network with agents := [⟨[v]⟩, ⟨[v]⟩] }, gen := g' } := by
      rw [Deffuant.updateVector_eq]
      dsimp only
      rw [e, Res.bind_ok]
    rw [hn2]
    simp only [hits, Set.mem_ofPred_eq, hwk, hp, Except.ok.injEq, Prod.mk.injEq, Set.mem_univ, and_true]
    constructor
    · rintro ⟨g3, e1, -⟩
      exact ⟨(0, 1), gp, ⟨rfl, rfl⟩, _, hupd, e1⟩
    · rintro ⟨p, g3, ⟨-, rfl⟩, u, e1, e2⟩
      rw [hupd] at e1
      cases e1
      exact ⟨g'', e2, rfl⟩
  have hev : ∀ w : Int, {g | ∃ u, Deffuant.updateVector r 0 1 { s with gen := g } = .ok u ∧ u.network.agents = [⟨[w]⟩, ⟨[w]⟩]} =
      {g | ∃ u, Deffuant.updateVector r 0 1 { s with gen := g } = .ok u ∧ entry u.network.agents 0 0 = some w ∧ entry u.network.agents 1 0 = some w} := by
    intro w
    ext g
    obtain ⟨v, g', hv, e⟩ := hmeet g
    have hupd : Deffuant.updateVector r 0 1 { s with gen := g } = .ok { s with network := { s.network with agents := [⟨[v]⟩, ⟨[v]⟩] }, gen := g' } := by
      rw [Deffuant.updateVector_eq]
      dsimp only
      rw [e, Res.bind_ok]
    simp only [Set.mem_ofPred_eq, hupd, Except.ok.injEq, exists_eq_left', entry]
    simp
  have hmeas : ∀ w : Int, MeasurableSet {g | ∃ u, Deffuant.updateVector r 0 1 { s with gen := g } = .ok u ∧ u.network.agents = [⟨[w]⟩, ⟨[w]⟩]} := by
    intro w
    have := (R.fresh 0 1 s.network.agents hI (by omega) (by omega)).measurable [⟨[w]⟩, ⟨[w]⟩] Set.univ MeasurableSet.univ
    convert this using 1
    ext g
    obtain ⟨v, g', hv, e⟩ := hmeet g
    have hupd : Deffuant.updateVector r 0 1 { s with gen := g } = .ok { s with network := { s.network with agents := [⟨[v]⟩, ⟨[v]⟩] }, gen := g' } := by
      rw [Deffuant.updateVector_eq]
      dsimp only
      rw [e, Res.bind_ok]
    simp only [Set.mem_ofPred_eq, hupd, hits, e, Except.ok.injEq, Prod.mk.injEq, exists_eq_left', Set.mem_univ, and_true, exists_and_left]
    exact ⟨fun h => ⟨h, g', rfl⟩, fun h => h.1⟩
  constructor
  · rw [show μ _ = _ from hlaw x (hmeas x), hev]
    exact hB.1
  · rw [show μ _ = _ from hlaw y (hmeas y), hev]
    exact hB.2

/-- C87 is false of the code: without network and with `0 < mu ≤ 1`, exchanging the numbers of two agents changes the probability that the opinion `x`
prevails (from `(1 + mu) / 2` to `(1 - mu) / 2`). -/
theorem C87_refuted [MeasurableSpace G] {μ : Measure G} [IsProbabilityMeasure μ] {r : Rng G ℝ} (hr : r.IntLawful) (hi : FairIntegers r μ)
    (hu : Draws r.unit uniform μ) {mu : ℝ} (h0 : 0 < mu) (h1 : mu ≤ 1) {x y : Int} (hxy : x ≠ y) (g₀ : G) :
    ∃ (s s' : Deffuant DiscreteVectorAgent ℝ G) (σ : Equiv.Perm ℕ) (zs : List DiscreteVectorAgent), s.Ready ∧ s'.Ready ∧ s.mu = mu ∧ s.useNetwork = false ∧
      s' = { s with network := { s.network with agents := s'.network.agents } } ∧ Relabelled σ s.network.agents s'.network.agents ∧ Relabelled σ zs zs ∧
      μ {g | ∃ u, Iterates (Deffuant.iteration r (Deffuant.updateVector r)) { s' with gen := g } 1 u ∧ u.network.agents = zs} <
        μ {g | ∃ u, Iterates (Deffuant.iteration r (Deffuant.updateVector r)) { s with gen := g } 1 u ∧ u.network.agents = zs} := by
  refine ⟨twoVectors mu x y g₀, twoVectors mu y x g₀, Equiv.swap 0 1, [⟨[x]⟩, ⟨[x]⟩], twoVectors_ready _ _ _ _, twoVectors_ready _ _ _ _, rfl, rfl, rfl,
    relabelled_swap _ _ _, relabelled_swap _ _ _, ?_⟩
  rw [(C87_two hr hi hu h0.le h1 hxy g₀).1, (C87_two hr hi hu h0.le h1 hxy.symm g₀).2]
  exact (ENNReal.ofReal_lt_ofReal_iff (by linarith)).mpr (by linarith)

/-! ## The hypotheses are met -/

example : ∃ (s s' : Deffuant DiscreteVectorAgent ℝ (ℕ → ℝ)) (σ : Equiv.Perm ℕ) (zs : List DiscreteVectorAgent), s.Ready ∧ s'.Ready ∧ s.mu = 1 / 2 ∧ s.useNetwork = false ∧
      s' = { s with network := { s.network with agents := s'.network.agents } } ∧ Relabelled σ s.network.agents s'.network.agents ∧ Relabelled σ zs zs ∧
      tapes {g | ∃ u, Iterates (Deffuant.iteration fairRng (Deffuant.updateVector fairRng)) { s' with gen := g } 1 u ∧ u.network.agents = zs} <
        tapes {g | ∃ u, Iterates (Deffuant.iteration fairRng (Deffuant.updateVector fairRng)) { s with gen := g } 1 u ∧ u.network.agents = zs} :=
  C87_refuted fairRng_lawful fairRng_fair fairRng_unit (by norm_num) (by norm_num) (x := 0) (y := 1) (by norm_num) 0

-- a case of `C87_first`: `mu = 1` and a generator that always returns 1/2
example {k : ℕ} {t : Deffuant DiscreteVectorAgent ℝ Unit}
    (h : Iterates (Deffuant.iteration (⟨fun _ => (1 / 2, ()), fun a _ _ => (a, ()), fun _ => (0, ())⟩ : Rng Unit ℝ)
      (Deffuant.updateVector ⟨fun _ => (1 / 2, ()), fun a _ _ => (a, ()), fun _ => (0, ())⟩)) (twoVectors 1 0 1 ()) k t) :
    t.network.agents[0]? = some ⟨[0]⟩ :=
  C87_first ⟨fun _ _ _ _ => le_rfl, fun _ _ _ h => h⟩ (twoVectors_ready 1 0 1 ()) le_rfl rfl (d := 1) (by
    intro w hw
    simp only [twoVectors, List.mem_cons, List.not_mem_nil, or_false] at hw
    rcases hw with rfl | rfl <;> rfl) (by intro g; norm_num [twoVectors]) h

-- a case of `C87_relabel_partial`: `mu = 0`, two agents exchanged
example (t : ℕ) (x y : Int) (u v : List Int) :
    tapes {g | ∃ w, Iterates (Deffuant.iteration fairRng (Deffuant.updateVector fairRng)) { twoVectors 0 y x 0 with gen := g } t w ∧ w.network.agents = [⟨v⟩, ⟨u⟩]} =
      tapes {g | ∃ w, Iterates (Deffuant.iteration fairRng (Deffuant.updateVector fairRng)) { twoVectors 0 x y 0 with gen := g } t w ∧ w.network.agents = [⟨u⟩, ⟨v⟩]} :=
  C87_relabel_partial fairRng_lawful fairRng_fair fairRng_unit (twoVectors_ready 0 x y 0) (twoVectors_ready 0 y x 0) le_rfl rfl rfl rfl
    (σ := Equiv.swap 0 1) (relabelled_swap _ _ _) (fun h => by cases h) (d := 1) (by
      intro w hw
      simp only [twoVectors, List.mem_cons, List.not_mem_nil, or_false] at hw
      rcases hw with rfl | rfl <;> rfl) (.inr le_rfl) t (relabelled_swap _ _ _)

end Seldon
