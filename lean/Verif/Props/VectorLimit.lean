import Verif.Lemmas.VectorChain
/-!
# C85: the binary-vector Deffuant model almost surely comes to rest
-/
set_option linter.unusedSectionVars false
namespace Seldon
open Spec MeasureTheory
open scoped ENNReal
variable {G : Type} [MeasurableSpace G] {μ : Measure G}

namespace Deffuant

/-- The opinion vector of an agent. -/
def vec (xs : List DiscreteVectorAgent) (i : Nat) : List Int := (xs.getD i ⟨[]⟩).opinion

theorem vec_lt {xs : List DiscreteVectorAgent} {i : Nat} (h : i < xs.length) : vec xs i = xs[i].opinion := by
  rw [vec, getD_lt _ _ h]

theorem entry_vec (xs : List DiscreteVectorAgent) (i j : Nat) : entry xs i j = (vec xs i)[j]? := by
  by_cases h : i < xs.length
  · rw [vec_lt h]; simp [entry, h]
  · simp [entry, vec, h]

/-- No two agents that can meet differ in fewer positions than the threshold, unless they agree. -/
def Resting (s : Deffuant DiscreteVectorAgent ℝ G) (d : Nat) (xs : List DiscreteVectorAgent) : Prop :=
  ∀ a b, s.CanMeet a b → vec xs a = vec xs b ∨ ¬ Near d s.threshold (vec xs a) (vec xs b)

/-- The states of the walk: the number of agents, the dimension and the set of entries do not change. -/
def Inside (n d : Nat) (P : Int → Prop) (xs : List DiscreteVectorAgent) : Prop := xs.length = n ∧ Dim d xs ∧ ∀ x ∈ xs, ∀ v ∈ x.opinion, P v

theorem inside_finite (n d : Nat) (E : Finset Int) : {xs | Inside n d (· ∈ E) xs}.Finite := by
  refine (Set.finite_range fun f : Fin n → Fin d → E => List.ofFn fun i => (⟨List.ofFn fun j => (f i j : Int)⟩ : DiscreteVectorAgent)).subset ?_
  rintro xs ⟨h1, h2, h3⟩
  refine ⟨fun i j => ⟨(xs[i.1]'(by rw [h1]; exact i.2)).opinion[j.1]'(by rw [h2 _ (List.getElem_mem _)]; exact j.2),
    h3 _ (List.getElem_mem _) _ (List.getElem_mem _)⟩, ?_⟩
  apply List.ext_getElem
  · simp [h1]
  · intro i hi1 hi2
    have hl := h2 _ (List.getElem_mem hi2)
    rw [List.getElem_ofFn]
    have : ∀ x : DiscreteVectorAgent, x = ⟨x.opinion⟩ := fun _ => rfl
    rw [this xs[i]]
    congr 1
    apply List.ext_getElem
    · simp [hl]
    · intro j hj1 hj2
      simp

theorem stepV_inside {r : Rng G ℝ} (hr : r.IntLawful) {s : Deffuant DiscreteVectorAgent ℝ G} (hs : s.Ready) (hn : 0 < s.network.agents.length) {d : Nat}
    {P : Int → Prop} {xs ys : List DiscreteVectorAgent} {g g' : G} (hx : Inside s.network.agents.length d P xs) (h : stepV r s xs g = .ok (ys, g')) :
    Inside s.network.agents.length d P ys := by
  obtain ⟨ha, hb, -⟩ := drawnPair_lt hr hs hn g
  rw [stepV, Res.bind_ok] at h
  obtain ⟨h1, h2, h3⟩ := meetV_inv r _ _ hx.2.1 (by rw [hx.1]; exact ha) (by rw [hx.1]; exact hb) h
  exact ⟨h1.trans hx.1, h2, h3 P hx.2.2⟩

/-- At rest nothing changes. -/
theorem stepV_resting {r : Rng G ℝ} (hr : r.IntLawful) {s : Deffuant DiscreteVectorAgent ℝ G} (hs : s.Ready) (hn : 0 < s.network.agents.length) {d : Nat}
    {xs ys : List DiscreteVectorAgent} {g g' : G} (hd : Dim d xs) (hl : xs.length = s.network.agents.length) (hrest : Resting s d xs)
    (h : stepV r s xs g = .ok (ys, g')) : ys = xs := by
  obtain ⟨ha, hb, hc⟩ := drawnPair_lt hr hs hn g
  rw [stepV, Res.bind_ok] at h
  rw [← hl] at ha hb
  rw [meetV_idle r _ _ hd ha hb] at h
  · cases h; rfl
  · by_cases he : (drawnPair r s g).1.1 = (drawnPair r s g).1.2
    · left; simp only [he]
    · rw [← vec_lt ha, ← vec_lt hb]
      exact hrest _ _ ⟨hl ▸ ha, hl ▸ hb, he, hc⟩

theorem walk_resting {r : Rng G ℝ} (hr : r.IntLawful) {s : Deffuant DiscreteVectorAgent ℝ G} (hs : s.Ready) (hn : 0 < s.network.agents.length) {d : Nat}
    {xs ys : List DiscreteVectorAgent} (hd : Dim d xs) (hl : xs.length = s.network.agents.length) (hrest : Resting s d xs) (k : ℕ) {g g' : G}
    (h : walk (stepV r s) k xs g = .ok (ys, g')) : ys = xs := by
  induction k generalizing g with
  | zero =>
    rw [walk] at h
    cases h; rfl
  | succ k ih =>
    rw [walk] at h
    obtain ⟨⟨zs, g''⟩, h1, h2⟩ := Res.bind_eq_ok.mp h
    rw [stepV_resting hr hs hn hd hl hrest h1] at h2
    exact ih h2

/-- From every state the walk can come to rest. -/
theorem reach_resting {r : Rng G ℝ} [IsProbabilityMeasure μ] (hr : r.IntLawful) (hi : FairIntegers r μ) (hu : Draws r.unit uniform μ)
    {s : Deffuant DiscreteVectorAgent ℝ G} (hs : s.Ready) (hn : 2 ≤ s.network.agents.length)
    (hsym : s.useNetwork = true → ∀ a b, a < s.network.agents.length → b ∈ s.network.neighbours.getD a [] → a ∈ s.network.neighbours.getD b [])
    {d : Nat} {xs : List DiscreteVectorAgent} (hd : Dim d xs) (hl : xs.length = s.network.agents.length) :
    (Fresh (stepV r s xs) μ) ∧ ∃ ys, Resting s d ys ∧ Relation.ReflTransGen (fun x y => Likely (stepV r s x) μ y) xs ys := by
  obtain ⟨law, hlaw, hdraw, hp1, hp2⟩ := drawnPair_draws hr hi hs hn
  obtain ⟨hpair, hpl⟩ := Fresh.of_draws hdraw
  have hfresh : ∀ zs : List DiscreteVectorAgent, Dim d zs → zs.length = s.network.agents.length → Fresh (stepV r s zs) μ := by
    intro zs hdz hlz
    refine Fresh.bind (h := fun (q : Nat × Nat) g => meetV r s.threshold s.mu q.1 q.2 zs g) hpair ?_
    intro q g g' hq
    obtain ⟨ha, hb, -⟩ := drawnPair_lt hr hs (by omega) g
    have hq' := Except.ok.inj hq
    rw [hq'] at ha hb
    exact (meetV_fresh hi hu s.threshold s.mu hdz (by rw [hlz]; exact ha) (by rw [hlz]; exact hb)).1
  refine ⟨hfresh xs hd hl, ?_⟩
  -- the pairs that are drawn with positive probability
  let C : ℕ → ℕ → Prop := fun a b => if s.useNetwork = true then s.CanMeet a b else a < b
  have hClaw : ∀ a b, a < s.network.agents.length → b < s.network.agents.length → C a b → law {(a, b)} ≠ 0 ∧ a ≠ b := by
    intro a b ha hb hc
    by_cases hn' : s.useNetwork = true
    · simp only [C, if_pos hn'] at hc
      exact ⟨hp2 hn' a b ha (hc.2.2.2 hn'), hc.2.2.1⟩
    · simp only [C, if_neg hn'] at hc
      exact ⟨hp1 (by simpa using hn') a b hc hb, by omega⟩
  obtain ⟨y, hy, hset⟩ : ∃ y, Relation.ReflTransGen (CopyStep C (Near d s.threshold) (Finset.range s.network.agents.length)) (vec xs) y ∧
      Settled C (Near d s.threshold) (Finset.range s.network.agents.length) y := by
    by_cases hn' : s.useNetwork = true
    · refine settle_symm ?_ Near.symm _ _
      intro a b hc
      simp only [C, if_pos hn'] at hc ⊢
      exact ⟨hc.2.1, hc.1, hc.2.2.1.symm, fun _ => hsym hn' a b hc.1 (hc.2.2.2 hn')⟩
    · refine settle_below ?_ ?_ Near.symm _ _
      · intro a b hc
        simpa only [C, if_neg hn'] using hc
      · intro a b hc
        simpa only [C, if_neg hn'] using hc
  have hpath : ∀ y, Relation.ReflTransGen (CopyStep C (Near d s.threshold) (Finset.range s.network.agents.length)) (vec xs) y →
      ∃ ys, Relation.ReflTransGen (fun x y => Likely (stepV r s x) μ y) xs ys ∧ Dim d ys ∧ ys.length = s.network.agents.length ∧ vec ys = y := by
    intro y hy
    induction hy with
    | refl => exact ⟨xs, .refl, hd, hl, rfl⟩
    | tail _ hs' ih =>
      obtain ⟨zs, hz, hdz, hlz, rfl⟩ := ih
      obtain ⟨a, b, ha, hb, hc, -, hnear, rfl⟩ := hs'
      have ha' := Finset.mem_range.mp ha
      have hb' := Finset.mem_range.mp hb
      have ha2 : a < zs.length := by omega
      have hb2 : b < zs.length := by omega
      obtain ⟨hlab, hab⟩ := hClaw a b ha' hb' hc
      rw [vec_lt ha2, vec_lt hb2] at hnear
      obtain ⟨hm1, hm2⟩ := meetV_fresh hi hu s.threshold s.mu hdz ha2 hb2
      refine ⟨zs.set b ⟨zs[a].opinion⟩, hz.tail ?_, ?_, by simpa using hlz, ?_⟩
      · exact Fresh.likely_bind (h := fun (q : Nat × Nat) g => meetV r s.threshold s.mu q.1 q.2 zs g) hpair (y := (a, b))
          (by rw [Likely, hpl]; exact hlab) hm1 (hm2 hab hnear)
      · intro w hw
        rcases List.mem_or_eq_of_mem_set hw with h | h
        · exact hdz w h
        · subst h; exact hdz _ (List.getElem_mem ha2)
      · funext i
        by_cases hib : i = b
        · rw [hib, Function.update_self, vec_lt (by simpa using hb2), List.getElem_set_self, vec_lt ha2]
        · rw [Function.update_of_ne hib]
          unfold vec
          simp only [List.getD_eq_getElem?_getD, List.getElem?_set_ne (Ne.symm hib)]
  obtain ⟨ys, h1, h2, h3, h4⟩ := hpath y hy
  refine ⟨ys, ?_, h1⟩
  intro a b hab
  rw [h4]
  by_cases hn' : s.useNetwork = true
  · exact hset a (Finset.mem_range.mpr hab.1) b (Finset.mem_range.mpr hab.2.1) (by simp only [C, if_pos hn']; exact hab)
  · rcases Nat.lt_or_gt_of_ne hab.2.2.1 with hlt | hlt
    · exact hset a (Finset.mem_range.mpr hab.1) b (Finset.mem_range.mpr hab.2.1) (by simp only [C, if_neg hn']; exact hlt)
    · have := hset b (Finset.mem_range.mpr hab.2.1) a (Finset.mem_range.mpr hab.1) (by simp only [C, if_neg hn']; exact hlt)
      exact this.imp Eq.symm fun h hc => h (Near.symm _ _ hc)

/-- A sequence of states, each obtained from the previous one by an iteration. -/
def TrajectoryV (r : Rng G ℝ) (st : Nat → Deffuant DiscreteVectorAgent ℝ G) : Prop := ∀ t, iteration r (updateVector r) (st t) = .ok (st (t + 1))

theorem trajectoryV_exists {r : Rng G ℝ} (hr : r.IntLawful) {d : Nat} {s : Deffuant DiscreteVectorAgent ℝ G} (hs : s.Ready) (hd : Dim d s.network.agents) :
    ∃ st : Nat → Deffuant DiscreteVectorAgent ℝ G, st 0 = s ∧ TrajectoryV r st := by
  classical
  let next : Deffuant DiscreteVectorAgent ℝ G → Deffuant DiscreteVectorAgent ℝ G := fun u => match iteration r (updateVector r) u with | .ok v => v | .error _ => u
  have key : ∀ t, Deffuant.Frame s (next^[t] s) ∧ Dim d (next^[t] s).network.agents ∧ iteration r (updateVector r) (next^[t] s) = .ok (next^[t + 1] s) := by
    intro t
    induction t with
    | zero =>
      obtain ⟨v, hv⟩ := iterationVector_total hr hs hd
      refine ⟨.refl s, hd, ?_⟩
      simp only [Function.iterate_succ, Function.iterate_zero, Function.comp, id, next, hv]
    | succ t ih =>
      obtain ⟨h1, h2, h3⟩ := ih
      obtain ⟨h4, h5, -⟩ := iterationVector_inv h2 h3
      obtain ⟨v, hv⟩ := iterationVector_total hr ((h1.trans h4).ready hs) h5
      refine ⟨h1.trans h4, h5, ?_⟩
      rw [Function.iterate_succ_apply' next (t + 1)]
      simp only [next] at hv ⊢
      rw [hv]
  exact ⟨fun t => next^[t] s, rfl, fun t => (key t).2.2⟩

/-- An iteration is a walk of as many steps as there are agents. -/
theorem iteration_walk {r : Rng G ℝ} (hr : r.IntLawful) {d : Nat} {s u t : Deffuant DiscreteVectorAgent ℝ G} (hs : s.Ready) (hn : 0 < s.network.agents.length)
    (hF : Frame s u) (hd : Dim d u.network.agents) (h : iteration r (updateVector r) u = .ok t) :
    walk (stepV r s) s.network.agents.length u.network.agents u.gen = .ok (t.network.agents, t.gen) := by
  have key : ∀ m (v : Deffuant DiscreteVectorAgent ℝ G), loop m (fun _ s => interact r (updateVector r) s) { u with counter := u.counter.tick } = .ok v →
      Frame s v ∧ Dim d v.network.agents ∧ walk (stepV r s) m u.network.agents u.gen = .ok (v.network.agents, v.gen) := by
    intro m
    induction m with
    | zero =>
      intro v hv
      have hv' : v = { u with counter := u.counter.tick } := (Except.ok.inj hv).symm
      subst hv'
      exact ⟨hF.trans ⟨rfl, rfl, rfl, rfl, rfl, rfl, rfl, rfl⟩, hd, rfl⟩
    | succ m ih =>
      intro v hv
      rw [loop_succ] at hv
      obtain ⟨w, h1, h2⟩ := Res.bind_eq_ok.mp hv
      obtain ⟨hFw, hdw, hw⟩ := ih w h1
      have h3 := interact_stepV hr hs hn hFw h2
      obtain ⟨a, b, g, ha, hb, hu⟩ := interact_ok h2
      obtain ⟨hF', hD', -⟩ := updateVector_inv r (s := { w with gen := g }) hdw ha hb hu
      refine ⟨hFw.trans ⟨hF'.1, hF'.2, hF'.3, hF'.4, hF'.5, hF'.6, hF'.7, hF'.8⟩, hD', ?_⟩
      rw [walk_add, hw, Res.bind_ok, walk, h3, Res.bind_ok, walk]
  have := (key _ t h).2.2
  rwa [show u.network.nAgents = s.network.agents.length from hF.n] at this

end Deffuant

/-- What is needed to study the walk from the opinions of `s`. -/
theorem Deffuant.walk_setup {r : Rng G ℝ} [IsProbabilityMeasure μ] (hr : r.IntLawful) (hi : FairIntegers r μ) (hu : Draws r.unit uniform μ)
    {s : Deffuant DiscreteVectorAgent ℝ G} (hs : s.Ready)
    (hsym : s.useNetwork = true → ∀ a b, a < s.network.agents.length → b ∈ s.network.neighbours.getD a [] → a ∈ s.network.neighbours.getD b [])
    {d : Nat} (hd : ∀ x ∈ s.network.agents, x.opinion.length = d) (hn : 2 ≤ s.network.agents.length) :
    ∃ I : Finset (List DiscreteVectorAgent), s.network.agents ∈ I ∧
      (∀ x ∈ I, ∀ g y g', Deffuant.stepV r s x g = .ok (y, g') → y ∈ I) ∧ (∀ x ∈ I, Fresh (Deffuant.stepV r s x) μ) ∧
      ∀ x ∈ I, ∃ y, Deffuant.Resting s d y ∧ Relation.ReflTransGen (fun x y => Likely (Deffuant.stepV r s x) μ y) x y := by
  classical
  let E : Finset Int := (s.network.agents.flatMap fun x => x.opinion).toFinset
  have hfin := Deffuant.inside_finite s.network.agents.length d E
  refine ⟨hfin.toFinset, ?_, ?_, ?_, ?_⟩
  · rw [Set.Finite.mem_toFinset]
    refine ⟨rfl, hd, fun x hx v hv => ?_⟩
    exact List.mem_toFinset.mpr (List.mem_flatMap.mpr ⟨x, hx, hv⟩)
  · intro x hx g y g' h
    rw [Set.Finite.mem_toFinset] at hx ⊢
    exact Deffuant.stepV_inside hr hs (by omega) hx h
  · intro x hx
    rw [Set.Finite.mem_toFinset] at hx
    exact (Deffuant.reach_resting hr hi hu hs hn hsym hx.2.1 hx.1).1
  · intro x hx
    rw [Set.Finite.mem_toFinset] at hx
    exact (Deffuant.reach_resting hr hi hu hs hn hsym hx.2.1 hx.1).2

/-- If the walk is at rest after `k` steps, the model is at rest after `k` iterations. -/
theorem Deffuant.rest_of_walk {r : Rng G ℝ} (hr : r.IntLawful) {s : Deffuant DiscreteVectorAgent ℝ G} (hs : s.Ready)
    {d : Nat} (hd : ∀ x ∈ s.network.agents, x.opinion.length = d) {g g' : G} {k T₀ : ℕ} {ys : List DiscreteVectorAgent}
    (hk : walk (Deffuant.stepV r s) k s.network.agents g = .ok (ys, g')) (hrest : Deffuant.Resting s d ys) (hkT : k ≤ T₀) :
    ∃ st : Nat → Deffuant DiscreteVectorAgent ℝ G, st 0 = { s with gen := g } ∧ Deffuant.TrajectoryV r st ∧
      (∀ t, T₀ ≤ t → (st t).network.agents = (st T₀).network.agents) ∧
        ∀ a b, s.CanMeet a b → (∀ j, entry (st T₀).network.agents a j = entry (st T₀).network.agents b j) ∨
          s.threshold ≤ ((Finset.range d).filter fun j => entry (st T₀).network.agents a j ≠ entry (st T₀).network.agents b j).card := by
  have hF0 : Deffuant.Frame s { s with gen := g } := ⟨rfl, rfl, rfl, rfl, rfl, rfl, rfl, rfl⟩
  obtain ⟨st, hst, T⟩ := Deffuant.trajectoryV_exists hr (hF0.ready hs) (d := d) hd
  refine ⟨st, hst, T, ?_⟩
  have hinv : ∀ t, Deffuant.Frame s (st t) ∧ Deffuant.Dim d (st t).network.agents := by
    intro t
    induction t with
    | zero => rw [hst]; exact ⟨hF0, hd⟩
    | succ t ih =>
      obtain ⟨h1, h2, -⟩ := Deffuant.iterationVector_inv ih.2 (T t)
      exact ⟨ih.1.trans h1, h2⟩
  by_cases hn : 0 < s.network.agents.length
  · have hw : ∀ t, walk (Deffuant.stepV r s) (s.network.agents.length * t) s.network.agents g = .ok ((st t).network.agents, (st t).gen) := by
      intro t
      induction t with
      | zero => rw [hst]; rfl
      | succ t ih =>
        rw [Nat.mul_succ, walk_add, ih, Res.bind_ok]
        exact Deffuant.iteration_walk hr hs hn (hinv t).1 (hinv t).2 (T t)
    have hys : Deffuant.Dim d ys ∧ ys.length = s.network.agents.length := by
      have : ∀ (k : ℕ) (xs : List DiscreteVectorAgent) (g : G), Deffuant.Inside s.network.agents.length d (fun _ => True) xs →
          walk (Deffuant.stepV r s) k xs g = .ok (ys, g') → Deffuant.Inside s.network.agents.length d (fun _ => True) ys := by
        intro k
        induction k with
        | zero =>
          intro xs g hx h
          rw [walk] at h
          cases h; exact hx
        | succ k ih =>
          intro xs g hx h
          rw [walk] at h
          obtain ⟨p, h1, h2⟩ := Res.bind_eq_ok.mp h
          exact ih p.1 p.2 (Deffuant.stepV_inside hr hs hn hx h1) h2
      have := this k _ _ ⟨rfl, hd, fun _ _ _ _ => trivial⟩ hk
      exact ⟨this.2.1, this.1⟩
    have hlate : ∀ t, k ≤ t → (st t).network.agents = ys := by
      intro t ht
      have hle : k ≤ s.network.agents.length * t := ht.trans (Nat.le_mul_of_pos_left t hn)
      have h1 := hw t
      rw [← Nat.add_sub_cancel' hle, walk_add, hk, Res.bind_ok] at h1
      exact Deffuant.walk_resting hr hs hn hys.1 hys.2 hrest _ h1
    refine ⟨fun t ht => (hlate t (hkT.trans ht)).trans (hlate T₀ hkT).symm, ?_⟩
    intro a b hab
    rw [hlate T₀ hkT]
    simp only [Deffuant.entry_vec]
    rcases hrest a b hab with h | h
    · exact .inl fun j => by rw [h]
    · exact .inr (not_lt.mp h)
  · refine ⟨fun t _ => ?_, ?_⟩
    · have e : ∀ t, (st t).network.agents = [] := fun t => List.eq_nil_of_length_eq_zero (by rw [(hinv t).1.n]; omega)
      rw [e t, e T₀]
    · rintro a b ⟨h1, -⟩
      omega

/-- C85: with fair draws, whatever the initial vectors, the threshold and `mu`, the opinions almost surely stop changing after finitely many iterations, and
then any two agents that can meet agree or differ in at least as many positions as the threshold.  (Being neighbours is mutual on the lattice that the
constructor builds.) -/
theorem C85_rest {r : Rng G ℝ} [IsProbabilityMeasure μ] (hr : r.IntLawful) (hi : FairIntegers r μ) (hu : Draws r.unit uniform μ)
    {s : Deffuant DiscreteVectorAgent ℝ G} (hs : s.Ready)
    (hsym : s.useNetwork = true → ∀ a b, a < s.network.agents.length → b ∈ s.network.neighbours.getD a [] → a ∈ s.network.neighbours.getD b [])
    {d : Nat} (hd : ∀ x ∈ s.network.agents, x.opinion.length = d) :
    ∀ᵐ g ∂μ, ∃ st : Nat → Deffuant DiscreteVectorAgent ℝ G, st 0 = { s with gen := g } ∧ Deffuant.TrajectoryV r st ∧
      ∃ T, (∀ t, T ≤ t → (st t).network.agents = (st T).network.agents) ∧
        ∀ a b, s.CanMeet a b → (∀ j, entry (st T).network.agents a j = entry (st T).network.agents b j) ∨
          s.threshold ≤ ((Finset.range d).filter fun j => entry (st T).network.agents a j ≠ entry (st T).network.agents b j).card := by
  have hwalk : ∀ᵐ g ∂μ, ∃ k ys g', walk (Deffuant.stepV r s) k s.network.agents g = .ok (ys, g') ∧ Deffuant.Resting s d ys := by
    by_cases hn : 2 ≤ s.network.agents.length
    · obtain ⟨I, h1, h2, h3, h4⟩ := Deffuant.walk_setup hr hi hu hs hsym hd hn
      exact walk_absorbed I (Deffuant.Resting s d) h2 h3 h4 _ h1
    · refine Filter.Eventually.of_forall fun g => ⟨0, s.network.agents, g, rfl, ?_⟩
      rintro a b ⟨h1, h2, h3, -⟩
      omega
  filter_upwards [hwalk] with g ⟨k, ys, g', hk, hrest⟩
  obtain ⟨st, h1, h2, h3⟩ := Deffuant.rest_of_walk hr hs hd hk hrest le_rfl
  exact ⟨st, h1, h2, k, h3⟩

/-- C85: the time until the opinions come to rest has a geometric tail (so its mean is finite): there is a `K` such that after `m K` iterations they have not
come to rest with a probability of at most `2⁻ᵐ`. -/
theorem C85_rate {r : Rng G ℝ} [IsProbabilityMeasure μ] (hr : r.IntLawful) (hi : FairIntegers r μ) (hu : Draws r.unit uniform μ)
    {s : Deffuant DiscreteVectorAgent ℝ G} (hs : s.Ready)
    (hsym : s.useNetwork = true → ∀ a b, a < s.network.agents.length → b ∈ s.network.neighbours.getD a [] → a ∈ s.network.neighbours.getD b [])
    {d : Nat} (hd : ∀ x ∈ s.network.agents, x.opinion.length = d) :
    ∃ K, ∀ m, μ {g | ¬ ∃ st : Nat → Deffuant DiscreteVectorAgent ℝ G, st 0 = { s with gen := g } ∧ Deffuant.TrajectoryV r st ∧
      (∀ t, m * K ≤ t → (st t).network.agents = (st (m * K)).network.agents) ∧
        ∀ a b, s.CanMeet a b → (∀ j, entry (st (m * K)).network.agents a j = entry (st (m * K)).network.agents b j) ∨
          s.threshold ≤ ((Finset.range d).filter fun j => entry (st (m * K)).network.agents a j ≠ entry (st (m * K)).network.agents b j).card} ≤
      (1 / 2) ^ m := by
  by_cases hn : 2 ≤ s.network.agents.length
  · obtain ⟨I, h1, h2, h3, h4⟩ := Deffuant.walk_setup hr hi hu hs hsym hd hn
    obtain ⟨K, hK⟩ := avoid_tail I (Deffuant.Resting s d) h2 h3 h4
    refine ⟨K, fun m => (measure_mono ?_).trans (hK m _ h1)⟩
    intro g hg j hj ys g' hw hrest
    exact hg (Deffuant.rest_of_walk hr hs hd hw hrest hj)
  · refine ⟨0, fun m => ?_⟩
    rw [show {g | _} = (∅ : Set G) from ?_, measure_empty]
    · exact bot_le
    · refine Set.eq_empty_of_forall_notMem fun g hg => hg ?_
      refine Deffuant.rest_of_walk (k := 0) (ys := s.network.agents) (g' := g) hr hs hd rfl ?_ (Nat.zero_le _)
      rintro a b ⟨h1, h2, h3, -⟩
      omega

/-- C85: if the threshold exceeds the dimension and every two agents are connected by agents that can meet, all agents almost surely end up with the same
vector after finitely many iterations, and keep it. -/
theorem C85_consensus {r : Rng G ℝ} [IsProbabilityMeasure μ] (hr : r.IntLawful) (hi : FairIntegers r μ) (hu : Draws r.unit uniform μ)
    {s : Deffuant DiscreteVectorAgent ℝ G} (hs : s.Ready)
    (hsym : s.useNetwork = true → ∀ a b, a < s.network.agents.length → b ∈ s.network.neighbours.getD a [] → a ∈ s.network.neighbours.getD b [])
    {d : Nat} (hd : ∀ x ∈ s.network.agents, x.opinion.length = d) (hθ : d < s.threshold)
    (hc : ∀ i j, i < s.network.agents.length → j < s.network.agents.length → Relation.ReflTransGen s.CanMeet i j) :
    ∀ᵐ g ∂μ, ∃ st : Nat → Deffuant DiscreteVectorAgent ℝ G, st 0 = { s with gen := g } ∧ Deffuant.TrajectoryV r st ∧
      ∃ T c, ∀ t, T ≤ t → ∀ x ∈ (st t).network.agents, x.opinion = c := by
  filter_upwards [C85_rest hr hi hu hs hsym hd] with g ⟨st, hst, hT, T, hlate, hrest⟩
  have hF0 : Deffuant.Frame s { s with gen := g } := ⟨rfl, rfl, rfl, rfl, rfl, rfl, rfl, rfl⟩
  have hF : ∀ t, Deffuant.Frame s (st t) ∧ Deffuant.Dim d (st t).network.agents := by
    intro t
    induction t with
    | zero => rw [hst]; exact ⟨hF0, hd⟩
    | succ t ih =>
      obtain ⟨h1, h2, -⟩ := Deffuant.iterationVector_inv ih.2 (hT t)
      exact ⟨ih.1.trans h1, h2⟩
  have hstep : ∀ a b, s.CanMeet a b → Deffuant.vec (st T).network.agents a = Deffuant.vec (st T).network.agents b := by
    intro a b hab
    have : ∀ j, entry (st T).network.agents a j = entry (st T).network.agents b j := by
      refine (hrest a b hab).resolve_right (not_le.mpr (lt_of_le_of_lt ?_ hθ))
      have h1 := Finset.card_filter_le (Finset.range d) fun j => entry (st T).network.agents a j ≠ entry (st T).network.agents b j
      rw [Finset.card_range] at h1
      exact_mod_cast h1
    simp only [Deffuant.entry_vec] at this
    exact List.ext_getElem? this
  have hall : ∀ i j, Relation.ReflTransGen s.CanMeet i j → Deffuant.vec (st T).network.agents i = Deffuant.vec (st T).network.agents j := by
    intro i j h
    induction h with
    | refl => rfl
    | tail _ h1 ih => exact ih.trans (hstep _ _ h1)
  refine ⟨st, hst, hT, T, Deffuant.vec (st T).network.agents 0, ?_⟩
  intro t ht x hx
  rw [hlate t ht] at hx
  obtain ⟨i, hi', rfl⟩ := List.mem_iff_getElem.mp hx
  rw [← Deffuant.vec_lt hi']
  have hn := (hF T).1.n
  exact hall i 0 (hc i 0 (by omega) (by omega))

/-! ## starting from the construction of the model -/

namespace Deffuant

theorem drawBits_fresh {r : Rng G ℝ} [IsProbabilityMeasure μ] (hi : FairIntegers r μ) (n : Nat) : Fresh (fun g => .ok (drawBits r n g)) μ := by
  induction n with
  | zero => exact (Fresh.pure ([] : List Int)).1
  | succ n ih =>
    have hint := (Fresh.of_draws (hi.int 0 1 (Nat.zero_le _))).1
    exact Fresh.bind (h := fun (d : Nat) g => ((.ok (drawBits r n g) : Res (List Int × G)) >>= fun q => (fun ds g => .ok ((d : Int) :: ds, g)) q.1 q.2)) hint
      fun d _ _ _ => Fresh.bind (h := fun ds g => .ok ((d : Int) :: ds, g)) ih fun ds _ _ _ => (Fresh.pure _).1

theorem initialVectors_fresh {r : Rng G ℝ} [IsProbabilityMeasure μ] (hi : FairIntegers r μ) (dim : Nat) (xs : List DiscreteVectorAgent) :
    Fresh (fun g => loop xs.length (fun i (t : List DiscreteVectorAgent × G) => do
      let _ ← rd t.1 i
      let (bits, g) := drawBits r dim t.2
      let agents ← wr t.1 i ⟨bits⟩
      .ok (agents, g)) (xs, g)) μ := by
  suffices h : ∀ m, m ≤ xs.length → Fresh (fun g => loop m (fun i (t : List DiscreteVectorAgent × G) => do
      let _ ← rd t.1 i
      let (bits, g) := drawBits r dim t.2
      let agents ← wr t.1 i ⟨bits⟩
      .ok (agents, g)) (xs, g)) μ ∧ ∀ g ys g', loop m (fun i (t : List DiscreteVectorAgent × G) => do
      let _ ← rd t.1 i
      let (bits, g) := drawBits r dim t.2
      let agents ← wr t.1 i ⟨bits⟩
      .ok (agents, g)) (xs, g) = .ok (ys, g') → ys.length = xs.length from (h _ le_rfl).1
  intro m
  induction m with
  | zero =>
    intro _
    refine ⟨(Fresh.pure xs).1, fun g ys g' h => ?_⟩
    cases h; rfl
  | succ m ih =>
    intro hm
    obtain ⟨h1, h2⟩ := ih (by omega)
    refine ⟨?_, ?_⟩
    · refine Fresh.bind (h := fun (ys : List DiscreteVectorAgent) g => do
          let _ ← rd ys m
          let (bits, g) := drawBits r dim g
          let agents ← wr ys m ⟨bits⟩
          .ok (agents, g)) h1 ?_
      intro ys g g' h
      have hl := h2 g ys g' h
      have hm' : m < ys.length := by omega
      have e : ∀ g, (do
          let _ ← rd ys m
          let (bits, g) := drawBits r dim g
          let agents ← wr ys m ⟨bits⟩
          .ok (agents, g) : Res (List DiscreteVectorAgent × G)) =
          ((.ok (drawBits r dim g) : Res (List Int × G)) >>= fun q => (fun bits g => .ok (ys.set m ⟨bits⟩, g)) q.1 q.2) := by
        intro g
        rw [rd_lt hm', Res.bind_ok]
        simp only [wr_lt _ hm', Res.bind_ok]
      exact Fresh.of_eq (Fresh.bind (h := fun bits g => .ok (ys.set m ⟨bits⟩, g)) (drawBits_fresh hi dim) fun _ _ _ _ => (Fresh.pure _).1) e
    · intro g ys g' h
      rw [loop_succ] at h
      obtain ⟨⟨zs, g''⟩, h3, h4⟩ := Res.bind_eq_ok.mp h
      have hl := h2 _ _ _ h3
      have hm' : m < zs.length := by omega
      simp only [rd_lt hm', wr_lt _ hm', Res.bind_ok, Except.ok.injEq, Prod.mk.injEq] at h4
      rw [← h4.1, List.length_set, hl]

/-- What the constructor builds is ready, and being neighbours is mutual. -/
theorem create_mutual {isqrt : Nat → Nat} {max : Option Int} {thr mu : ℝ} {un : Bool} {N : Network DiscreteVectorAgent ℝ} {g₀ : G}
    {s : Deffuant DiscreteVectorAgent ℝ G} (hw : WF N) (hN : N.agents.length < 2 ^ 64) (hc : create isqrt max thr mu un N g₀ = .ok s) :
    s.Ready ∧ s.threshold = thr ∧
      (s.useNetwork = true → ∀ a b, a < s.network.agents.length → b ∈ s.network.neighbours.getD a [] → a ∈ s.network.neighbours.getD b []) := by
  unfold create at hc
  cases un with
  | false =>
    simp only [Bool.false_eq_true, if_false, Except.ok.injEq] at hc
    subst hc
    exact ⟨⟨hw, hN, fun h => by cases h⟩, rfl, fun h => by cases h⟩
  | true =>
    rw [if_pos rfl] at hc
    dsimp only at hc
    split at hc
    · cases hc
    · rename_i hsq
      rw [ne_eq, not_not] at hsq
      obtain ⟨M, hM, hc⟩ := Res.bind_eq_ok.mp hc
      cases hc
      obtain ⟨M', hM', hw', hl, -, hrows, hsym, -, -⟩ := C14_lattice (A := DiscreteVectorAgent) (isqrt N.nAgents) (0 : ℝ)
      rw [hM] at hM'
      cases hM'
      have hlt : M.agents.length < 2 ^ 64 := by rw [hl, hsq]; exact hN
      refine ⟨⟨hw', hlt, ?_⟩, rfl, ?_⟩
      · intro _ row hrow
        obtain ⟨c, hcl, rfl⟩ := List.getElem_of_mem hrow
        have hcn : c < isqrt N.nAgents * isqrt N.nAgents := by
          rw [← hl, ← hw'.rows]; exact hcl
        have hL : 0 < isqrt N.nAgents := by
          by_contra hz
          rw [Nat.eq_zero_of_not_pos hz] at hcn
          omega
        have := (hrows (c % isqrt N.nAgents) (c / isqrt N.nAgents) (Nat.mod_lt _ hL) (Nat.div_lt_of_lt_mul hcn)).1
        rw [Nat.mod_add_div, Network.getNeighbours, rd_lt hcl] at this
        have e := Except.ok.inj this
        dsimp only
        rw [e]
        simp
      · intro _ a b ha hb
        dsimp only at ha hb ⊢
        have ha' : a < M.neighbours.length := by rw [hw'.rows]; exact ha
        rw [getD_lt _ _ ha'] at hb
        have hbl : b < M.agents.length := hw'.range _ (List.getElem_mem ha') _ hb
        have hb' : b < M.neighbours.length := by rw [hw'.rows]; exact hbl
        have := hsym a b (by rw [← hl]; exact ha) (by rw [← hl]; exact hbl) _ _ (by rw [Network.getNeighbours, rd_lt ha']) (by rw [Network.getNeighbours, rd_lt hb'])
        rw [getD_lt _ _ hb']
        refine List.count_pos_iff.mp ?_
        rw [← this]
        exact List.count_pos_iff.mpr hb

end Deffuant

/-- C85: the same from the construction of the model: for every network, with or without `use_network`, every threshold, `mu` and dimension, if the
constructor succeeds then almost surely the vectors drawn by `initialize_agents` evolve so that after finitely many iterations nothing changes any more, and
then any two agents that can meet agree or differ in at least as many positions as the threshold. -/
theorem C85_created {r : Rng G ℝ} [IsProbabilityMeasure μ] (hr : r.IntLawful) (hi : FairIntegers r μ) (hu : Draws r.unit uniform μ)
    {isqrt : Nat → Nat} {max : Option Int} {thr mu : ℝ} {un : Bool} {N : Network DiscreteVectorAgent ℝ} {g₀ : G}
    {s : Deffuant DiscreteVectorAgent ℝ G} (hw : WF N) (hN : N.agents.length < 2 ^ 64) (hc : Deffuant.create isqrt max thr mu un N g₀ = .ok s) (dim : Nat) :
    ∀ᵐ g ∂μ, ∃ st : Nat → Deffuant DiscreteVectorAgent ℝ G, Deffuant.initializeVectors r dim { s with gen := g } = .ok (st 0) ∧ Deffuant.TrajectoryV r st ∧
      ∃ T, (∀ t, T ≤ t → (st t).network.agents = (st T).network.agents) ∧
        ∀ a b, s.CanMeet a b → (∀ j, entry (st T).network.agents a j = entry (st T).network.agents b j) ∨
          thr ≤ ((Finset.range dim).filter fun j => entry (st T).network.agents a j ≠ entry (st T).network.agents b j).card := by
  obtain ⟨hs, hthr, hsym⟩ := Deffuant.create_mutual hw hN hc
  have hfresh := Deffuant.initialVectors_fresh hi dim s.network.agents
  have hF : ∀ xs : List DiscreteVectorAgent, xs.length = s.network.agents.length →
      Deffuant.Frame s { s with network := { s.network with agents := xs } } := fun xs h => ⟨rfl, rfl, rfl, rfl, rfl, rfl, h, rfl⟩
  have key := hfresh.ae_after (P := fun xs g => ∃ st : Nat → Deffuant DiscreteVectorAgent ℝ G,
      st 0 = { s with network := { s.network with agents := xs }, gen := g } ∧ Deffuant.TrajectoryV r st ∧
      ∃ T, (∀ t, T ≤ t → (st t).network.agents = (st T).network.agents) ∧
        ∀ a b, s.CanMeet a b → (∀ j, entry (st T).network.agents a j = entry (st T).network.agents b j) ∨
          thr ≤ ((Finset.range dim).filter fun j => entry (st T).network.agents a j ≠ entry (st T).network.agents b j).card) (by
    intro xs g g' h
    obtain ⟨t, ht, hFt, -, hdt, -⟩ := Deffuant.initializeVectors_ok hr dim { s with gen := g }
    unfold Deffuant.initializeVectors at ht
    simp only [h, Res.bind_ok, Except.ok.injEq] at ht
    subst ht
    have hl : xs.length = s.network.agents.length := hFt.n
    have := C85_rest hr hi hu ((hF xs hl).ready hs) (by
      intro h1 a b ha hb
      exact hsym h1 a b (by rw [← hl]; exact ha) hb) (d := dim) hdt
    refine this.mono ?_
    rintro g ⟨st, h1, h2, T, h3, h4⟩
    refine ⟨st, h1, h2, T, h3, ?_⟩
    intro a b ⟨ha, hb, hab, hnb⟩
    have := h4 a b ⟨by rw [show ({ s with network := { s.network with agents := xs } } : Deffuant DiscreteVectorAgent ℝ G).network.agents = xs from rfl, hl]; exact ha,
      by rw [show ({ s with network := { s.network with agents := xs } } : Deffuant DiscreteVectorAgent ℝ G).network.agents = xs from rfl, hl]; exact hb, hab, hnb⟩
    rwa [show ({ s with network := { s.network with agents := xs } } : Deffuant DiscreteVectorAgent ℝ G).threshold = thr from hthr] at this)
  filter_upwards [key] with g hg
  obtain ⟨⟨xs, g'⟩, h1⟩ := hfresh.ok g
  obtain ⟨st, h2, h3⟩ := hg xs g' h1
  refine ⟨st, ?_, h3⟩
  unfold Deffuant.initializeVectors
  simp only [h1, Res.bind_ok, h2]

/-! ## The hypotheses are met: a fair generator, three agents -/

theorem fairRng_unit : Draws fairRng.unit uniform tapes := readTape_preserving uniform

/-- Three agents without network, with the vectors 00, 01 and 11; threshold 2, `mu = 1`. -/
noncomputable def threeVectors : Deffuant DiscreteVectorAgent ℝ (ℕ → ℝ) :=
  ⟨⟨none, 0⟩, 2, 1, false, ⟨[⟨[0, 0]⟩, ⟨[0, 1]⟩, ⟨[1, 1]⟩], [[], [], []], [[], [], []], .incoming⟩, 0⟩

theorem threeVectors_ready : threeVectors.Ready where
  wf := by
    refine ⟨rfl, rfl, ?_, ?_⟩
    · intro i h1 h2
      have : i < 3 := h1
      interval_cases i <;> rfl
    · intro row hrow j hj
      have : row = [] := by simpa [threeVectors] using hrow
      rw [this] at hj
      cases hj
  size := by simp [threeVectors]
  rows h := by cases h

example : ∀ᵐ g ∂tapes, ∃ st : Nat → Deffuant DiscreteVectorAgent ℝ (ℕ → ℝ), st 0 = { threeVectors with gen := g } ∧ Deffuant.TrajectoryV fairRng st ∧
    ∃ T, (∀ t, T ≤ t → (st t).network.agents = (st T).network.agents) ∧
      ∀ a b, threeVectors.CanMeet a b → (∀ j, entry (st T).network.agents a j = entry (st T).network.agents b j) ∨
        threeVectors.threshold ≤ ((Finset.range 2).filter fun j => entry (st T).network.agents a j ≠ entry (st T).network.agents b j).card :=
  C85_rest fairRng_lawful fairRng_fair fairRng_unit threeVectors_ready (fun h => by cases h) (by
    intro x hx
    simp only [threeVectors, List.mem_cons, List.not_mem_nil, or_false] at hx
    rcases hx with rfl | rfl | rfl <;> rfl)

-- the constructor succeeds on four agents with `use_network`
example : ∃ s, Deffuant.create Nat.sqrt none (2 : ℝ) 1 true (⟨List.replicate 4 ⟨[]⟩, List.replicate 4 [], List.replicate 4 [], .incoming⟩ : Network DiscreteVectorAgent ℝ)
    (0 : ℕ → ℝ) = .ok s ∧ s.CanMeet 0 1 := by
  obtain ⟨M, hM, hl, hc, -⟩ := C38_square Nat.sqrt none (2 : ℝ) 1
    (⟨List.replicate 4 ⟨[]⟩, List.replicate 4 [], List.replicate 4 [], .incoming⟩ : Network DiscreteVectorAgent ℝ) (0 : ℕ → ℝ) (L := 2) rfl (Nat.sqrt_eq 2)
  obtain ⟨M', hM', hw, -, -, hrows, -⟩ := C14_lattice (A := DiscreteVectorAgent) 2 (0 : ℝ)
  rw [hM] at hM'
  cases hM'
  have hl4 : M.agents.length = 4 := hl
  refine ⟨_, hc, by show 0 < M.agents.length; omega, by show 1 < M.agents.length; omega, by decide, fun _ => ?_⟩
  have h0 := (hrows 0 0 (by decide) (by decide)).1
  have hlt : 0 < M.neighbours.length := by rw [hw.rows]; omega
  rw [Network.getNeighbours, rd_lt hlt] at h0
  show 1 ∈ M.neighbours.getD 0 []
  rw [getD_lt _ _ hlt, Except.ok.inj h0]
  decide

end Seldon
