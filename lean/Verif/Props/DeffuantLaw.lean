import Verif.Lemmas.FairDraws
import Verif.Lemmas.Tape
import Verif.Props.DeffuantLimit
import Verif.Props.Uniform
/-!
# C62 (as a probability) and C74: which agents meet in the Deffuant model, and where the opinions end up almost surely
-/
set_option linter.unusedSectionVars false
namespace Seldon
open Spec MeasureTheory Filter Topology
open scoped ENNReal
variable {A F G : Type} [MeasurableSpace G] {μ : Measure G}

/-- C62: if the integers drawn are independent and uniform, `draw_unique_k_from_n` returns each increasing list of `k` allowed indices with the same
probability, one over the number of such lists, and the state of the generator afterwards is independent of the list returned. -/
theorem C62_law {r : Rng G F} [IsProbabilityMeasure μ] (hr : r.IntLawful) (h : FairIntegers r μ) (ignore : Option Nat) (n : Nat) (target buffer : List Nat)
    (hsorted : target.Pairwise (· < ·)) (hallowed : ∀ i ∈ target, Allowed ignore n i) {S : Set G} (hS : MeasurableSet S) :
    MeasurableSet {g | ∃ g', Draw.drawUnique r ignore target.length n buffer g = .ok (target, g') ∧ g' ∈ S} ∧
    μ {g | ∃ g', Draw.drawUnique r ignore target.length n buffer g = .ok (target, g') ∧ g' ∈ S} =
      μ S / (((List.range n).filter (fun i => ignore ≠ some i)).length.choose target.length : ℕ) := by
  have hsub : target.Sublist (Draw.avail ignore n) := sublist_avail hsorted hallowed
  have hnd : (Draw.avail ignore n).Nodup := (Draw.avail_sorted ignore n).imp (fun h => ne_of_lt h)
  obtain ⟨hm, hv⟩ := Draw.select_law hr h hS (Draw.avail ignore n) target hnd hsub
  have e : {g | ∃ g', Draw.drawUnique r ignore target.length n buffer g = .ok (target, g') ∧ g' ∈ S} =
      {g | ∃ g', Draw.select r (Draw.avail ignore n) target.length g = .ok (target, g') ∧ g' ∈ S} := by
    ext g
    obtain ⟨ys, g', h1, -, h3⟩ := Draw.select_spec hr (Draw.avail ignore n) target.length g hsub.length_le
    have hd : Draw.drawUnique r ignore target.length n buffer g = .ok (ys, g') := by
      simp only [Draw.drawUnique, Draw.sequence_avail, Res.bind_ok, min_eq_left hsub.length_le, h1]
      rw [h3, List.drop_eq_nil_of_le (by rw [Draw.resize_length]), List.append_nil]
    simp only [Set.mem_ofPred_eq, hd, h1]
  rw [e]
  have hpos : ((Draw.avail ignore n).length.choose target.length : ℝ≥0∞) ≠ 0 := by
    exact_mod_cast (Nat.choose_pos hsub.length_le).ne'
  exact ⟨hm, (ENNReal.eq_div_iff hpos (ENNReal.natCast_ne_top _)).mpr hv⟩

namespace Deffuant

/-- The pair drawn from the generator state `g`, and the state that is left. -/
def drawnPair (r : Rng G F) (s : Deffuant A F G) (g : G) : (Nat × Nat) × G :=
  match selectPair r { s with gen := g } with
  | .ok (a :: b :: _, t) => ((a, b), t.gen)
  | _ => ((0, 0), g)

omit [MeasurableSpace G] in
theorem drawnPair_eq {r : Rng G F} {s u t : Deffuant A F G} (hF : Frame s u) {a b : Nat} (h : selectPair r u = .ok ([a, b], t)) :
    drawnPair r s u.gen = ((a, b), t.gen) := by
  have h' : selectPair r { s with gen := u.gen } = .ok ([a, b], { s with gen := t.gen }) := by
    unfold selectPair Network.nAgents Network.getNeighbours at h ⊢
    rw [hF.n, hF.useNetwork, hF.neighbours] at h
    by_cases hu : s.useNetwork = false
    · rw [if_pos hu] at h
      dsimp only
      rw [if_pos hu]
      obtain ⟨q, h1, h2⟩ := Res.bind_eq_ok.mp h
      rw [h1, Res.bind_ok]
      simp only [Except.ok.injEq, Prod.mk.injEq] at h2 ⊢
      obtain ⟨h3, rfl⟩ := h2
      exact ⟨h3, rfl⟩
    · rw [if_neg hu] at h
      dsimp only
      rw [if_neg hu]
      obtain ⟨row, h1, h2⟩ := Res.bind_eq_ok.mp h
      obtain ⟨c, h3, h4⟩ := Res.bind_eq_ok.mp h2
      rw [h1, Res.bind_ok, h3, Res.bind_ok]
      simp only [Except.ok.injEq, Prod.mk.injEq] at h4 ⊢
      obtain ⟨h5, rfl⟩ := h4
      exact ⟨h5, rfl⟩
  rw [drawnPair, h']

end Deffuant

/-- C74: without network, every pair of two agents is drawn with the same probability, one over the number of pairs, independently of all later draws. -/
theorem C74_pair {r : Rng G F} [IsProbabilityMeasure μ] (hr : r.IntLawful) (h : FairIntegers r μ) {s : Deffuant A F G} (hu : s.useNetwork = false)
    {a b : Nat} (hab : a < b) (hb : b < s.network.agents.length) {S : Set G} (hS : MeasurableSet S) :
    MeasurableSet {g | ∃ g', Deffuant.selectPair r { s with gen := g } = .ok ([a, b], { s with gen := g' }) ∧ g' ∈ S} ∧
    μ {g | ∃ g', Deffuant.selectPair r { s with gen := g } = .ok ([a, b], { s with gen := g' }) ∧ g' ∈ S} =
      μ S / (s.network.agents.length.choose 2 : ℕ) := by
  have := C62_law hr h none s.network.agents.length [a, b] [] (by simpa using hab) (by
    intro i hi
    simp only [List.mem_cons, List.not_mem_nil, or_false] at hi
    rcases hi with rfl | rfl
    · exact ⟨by omega, by simp⟩
    · exact ⟨hb, by simp⟩) hS
  simp only [List.length_cons, List.length_nil] at this
  have e : {g | ∃ g', Deffuant.selectPair r { s with gen := g } = .ok ([a, b], { s with gen := g' }) ∧ g' ∈ S} =
      {g | ∃ g', Draw.drawUnique r none (0 + 1 + 1) s.network.agents.length [] g = .ok ([a, b], g') ∧ g' ∈ S} := by
    ext g
    unfold Deffuant.selectPair Network.nAgents
    simp only [Set.mem_ofPred_eq]
    refine exists_congr fun g' => and_congr_left fun _ => ?_
    rw [if_pos hu]
    constructor
    · intro h1
      obtain ⟨q, h2, h3⟩ := Res.bind_eq_ok.mp h1
      simp only [Except.ok.injEq, Prod.mk.injEq] at h3
      rw [h2]
      obtain ⟨h4, h5⟩ := h3
      have : q.2 = g' := congrArg Deffuant.gen h5
      rw [← h4, ← this]
    · intro h1
      rw [h1]; rfl
  rw [e]
  have hl : ((List.range s.network.agents.length).filter (fun i => (none : Option Nat) ≠ some i)).length = s.network.agents.length := by simp
  rw [hl] at this
  exact this

/-- C74: with network, an agent is drawn uniformly and then one of the entries of its list of neighbours. -/
theorem C74_neighbour {r : Rng G F} [IsProbabilityMeasure μ] (h : FairIntegers r μ) {s : Deffuant A F G} (hs : s.Ready)
    (hu : s.useNetwork = true) {a : Nat} (ha : a < s.network.agents.length) {row : List Nat} (hrow : s.network.getNeighbours a = .ok row) (b : Nat)
    {S : Set G} (hS : MeasurableSet S) :
    MeasurableSet {g | ∃ g', Deffuant.selectPair r { s with gen := g } = .ok ([a, b], { s with gen := g' }) ∧ g' ∈ S} ∧
    μ {g | ∃ g', Deffuant.selectPair r { s with gen := g } = .ok ([a, b], { s with gen := g' }) ∧ g' ∈ S} =
      (row.count b : ℕ) / (s.network.agents.length * row.length : ℕ) * μ S := by
  have hrow' := hrow
  rw [Network.getNeighbours, rd_eq_ok] at hrow'
  have hne := hs.rows hu row (List.mem_of_getElem? hrow')
  have hpos : 0 < row.length := List.length_pos_iff.mpr hne.1
  let D : Finset ℕ := (Finset.range row.length).filter fun i => row[i]? = some b
  have hD : D.card = row.count b := by
    have : ∀ l : List Nat, ((Finset.range l.length).filter fun i => l[i]? = some b).card = l.count b := by
      intro l
      rw [Finset.card_filter]
      induction l with
      | nil => simp
      | cons x l ih =>
        rw [List.length_cons, Finset.sum_range_succ', List.count_cons]
        simp only [List.getElem?_cons_succ, ih, List.getElem?_cons_zero, Option.some.injEq, beq_iff_eq]
    exact this row
  have hsz := Text.subSz_of_le (a := s.network.agents.length) (b := 1) (by omega) hs.size
  have hsz' := Text.subSz_of_le (a := row.length) (b := 1) (by omega) hne.2
  have e : {g | ∃ g', Deffuant.selectPair r { s with gen := g } = .ok ([a, b], { s with gen := g' }) ∧ g' ∈ S} =
      {g | (r.int 0 (s.network.agents.length - 1) g).1 ∈ ({a} : Finset ℕ) ∧ (r.int 0 (s.network.agents.length - 1) g).2 ∈
        {g | (r.int 0 (row.length - 1) g).1 ∈ D ∧ (r.int 0 (row.length - 1) g).2 ∈ S}} := by
    ext g
    unfold Deffuant.selectPair Network.nAgents
    simp only [Set.mem_ofPred_eq, Finset.mem_singleton]
    rw [if_neg (by rw [hu]; simp), hsz]
    constructor
    · rintro ⟨g', h1, h2⟩
      obtain ⟨row', h3, h4⟩ := Res.bind_eq_ok.mp h1
      obtain ⟨c, h5, h6⟩ := Res.bind_eq_ok.mp h4
      simp only [Except.ok.injEq, Prod.mk.injEq, List.cons.injEq, and_true] at h6
      obtain ⟨⟨h7, h8⟩, h9⟩ := h6
      rw [h7, hrow] at h3
      cases h3
      have h10 := congrArg Deffuant.gen h9
      dsimp only at h10
      rw [hsz'] at h5 h10
      subst h8
      refine ⟨h7, ?_, by rw [h10]; exact h2⟩
      rw [rd_eq_ok] at h5
      refine Finset.mem_filter.mpr ⟨Finset.mem_range.mpr ?_, h5⟩
      exact (List.getElem?_eq_some_iff.mp h5).1
    · rintro ⟨h1, h2, h3⟩
      refine ⟨_, ?_, h3⟩
      rw [h1, hrow, Res.bind_ok, hsz', rd_eq_ok.mpr (Finset.mem_filter.mp h2).2, Res.bind_ok]
  rw [e]
  obtain ⟨m1, m2⟩ := h.measure (m := row.length - 1) D (by
    intro i hi
    have := Finset.mem_range.mp (Finset.mem_filter.mp hi).1
    exact Finset.mem_range.mpr (by omega)) hS
  obtain ⟨m3, m4⟩ := h.measure (m := s.network.agents.length - 1) {a} (by
    intro i hi
    obtain rfl := Finset.mem_singleton.mp hi
    exact Finset.mem_range.mpr (by omega)) m1
  refine ⟨m3, ?_⟩
  rw [Finset.card_singleton, Nat.cast_one, one_mul, show s.network.agents.length - 1 + 1 = s.network.agents.length by omega] at m4
  rw [show row.length - 1 + 1 = row.length by omega, hD] at m2
  have h1 : ((s.network.agents.length * row.length : ℕ) : ℝ≥0∞) ≠ 0 := by
    exact_mod_cast (Nat.mul_pos (by omega) hpos).ne'
  rw [← ENNReal.mul_div_right_comm, ENNReal.eq_div_iff h1 (ENNReal.natCast_ne_top _), Nat.cast_mul, mul_comm (s.network.agents.length : ℝ≥0∞), mul_assoc, m4, m2]

namespace Deffuant

theorem drawnPair_mem {r : Rng G F} (hr : r.IntLawful) {s : Deffuant A F G} (hs : s.Ready) (hn : 0 < s.network.agents.length) (a b : Nat) (S : Set G) :
    {g | (drawnPair r s g).1 = (a, b) ∧ (drawnPair r s g).2 ∈ S} =
      {g | ∃ g', selectPair r { s with gen := g } = .ok ([a, b], { s with gen := g' }) ∧ g' ∈ S} := by
  ext g
  have hF : Frame s { s with gen := g } := ⟨rfl, rfl, rfl, rfl, rfl, rfl, rfl, rfl⟩
  obtain ⟨a', b', g', h1, -⟩ := selectPair_ok hr (hF.ready hs) hn
  have h2 := drawnPair_eq hF h1
  dsimp only at h2
  simp only [Set.mem_ofPred_eq, h2]
  rw [h1]
  constructor
  · rintro ⟨h3, h4⟩
    cases h3
    exact ⟨g', rfl, h4⟩
  · rintro ⟨g'', h3, h4⟩
    simp only [Except.ok.injEq, Prod.mk.injEq, List.cons.injEq, and_true] at h3
    obtain ⟨⟨rfl, rfl⟩, h5⟩ := h3
    have h6 : g' = g'' := congrArg Deffuant.gen h5
    exact ⟨rfl, by rw [h6]; exact h4⟩

/-- The pairs drawn one after the other are independent and have the same law; agents that can meet have a positive probability. -/
theorem drawnPair_draws {r : Rng G F} [IsProbabilityMeasure μ] (hr : r.IntLawful) (h : FairIntegers r μ) {s : Deffuant A F G} (hs : s.Ready)
    (hn : 2 ≤ s.network.agents.length) :
    ∃ law : Measure (Nat × Nat), IsProbabilityMeasure law ∧ Draws (drawnPair r s) law μ ∧
      (s.useNetwork = false → ∀ a b, a < b → b < s.network.agents.length → law {(a, b)} ≠ 0) ∧
      (s.useNetwork = true → ∀ a b, a < s.network.agents.length → b ∈ s.network.neighbours.getD a [] → law {(a, b)} ≠ 0) := by
  have hn0 : 0 < s.network.agents.length := by omega
  have key : ∃ p : Nat × Nat → ℝ≥0∞, (∀ q S, MeasurableSet S → MeasurableSet {g | (drawnPair r s g).1 = q ∧ (drawnPair r s g).2 ∈ S}) ∧
      (∀ q S, MeasurableSet S → μ {g | (drawnPair r s g).1 = q ∧ (drawnPair r s g).2 ∈ S} = p q * μ S) ∧
      (s.useNetwork = false → ∀ a b, a < b → b < s.network.agents.length → p (a, b) ≠ 0) ∧
      (s.useNetwork = true → ∀ a b, a < s.network.agents.length → b ∈ s.network.neighbours.getD a [] → p (a, b) ≠ 0) := by
    have hempty : ∀ (a b : Nat) (S : Set G), ¬ (a < s.network.agents.length ∧ b < s.network.agents.length ∧ (s.useNetwork = false → a < b)) →
        {g | ∃ g', selectPair r { s with gen := g } = .ok ([a, b], { s with gen := g' }) ∧ g' ∈ S} = ∅ := by
      intro a b S hno
      ext g
      simp only [Set.mem_ofPred_eq, Set.mem_empty_iff_false, iff_false]
      rintro ⟨g', h1, -⟩
      have hF : Frame s { s with gen := g } := ⟨rfl, rfl, rfl, rfl, rfl, rfl, rfl, rfl⟩
      obtain ⟨a', b', g'', h2, h3, h4, h5, -⟩ := selectPair_ok hr (hF.ready hs) hn0
      rw [h2] at h1
      simp only [Except.ok.injEq, Prod.mk.injEq, List.cons.injEq, and_true] at h1
      obtain ⟨⟨rfl, rfl⟩, -⟩ := h1
      exact hno ⟨h3, h4, fun hu => h5 hu hn⟩
    by_cases hu : s.useNetwork = false
    · refine ⟨fun q => if q.1 < q.2 ∧ q.2 < s.network.agents.length then ((s.network.agents.length.choose 2 : ℕ) : ℝ≥0∞)⁻¹ else 0, ?_, ?_, ?_, ?_⟩
      · rintro ⟨a, b⟩ S hS
        rw [drawnPair_mem hr hs hn0]
        by_cases hab : a < b ∧ b < s.network.agents.length
        · exact (C74_pair hr h hu hab.1 hab.2 hS).1
        · rw [hempty a b S (fun hc => hab ⟨hc.2.2 hu, hc.2.1⟩)]
          exact MeasurableSet.empty
      · rintro ⟨a, b⟩ S hS
        rw [drawnPair_mem hr hs hn0]
        by_cases hab : a < b ∧ b < s.network.agents.length
        · rw [(C74_pair hr h hu hab.1 hab.2 hS).2]
          dsimp only
          rw [if_pos hab, ENNReal.div_eq_inv_mul]
        · rw [hempty a b S (fun hc => hab ⟨hc.2.2 hu, hc.2.1⟩)]
          dsimp only
          rw [if_neg hab, measure_empty, zero_mul]
      · intro _ a b h1 h2
        dsimp only
        rw [if_pos ⟨h1, h2⟩]
        exact ENNReal.inv_ne_zero.mpr (ENNReal.natCast_ne_top _)
      · intro hc
        rw [hu] at hc; cases hc
    · have hu' : s.useNetwork = true := by simpa using hu
      have hget : ∀ a, a < s.network.agents.length → s.network.getNeighbours a = .ok (s.network.neighbours.getD a []) := by
        intro a ha
        rw [Network.getNeighbours, rd_getD []]
        rw [hs.wf.rows]; exact ha
      refine ⟨fun q => if q.1 < s.network.agents.length then ((s.network.neighbours.getD q.1 []).count q.2 : ℕ) /
          (s.network.agents.length * (s.network.neighbours.getD q.1 []).length : ℕ) else 0, ?_, ?_, ?_, ?_⟩
      · rintro ⟨a, b⟩ S hS
        rw [drawnPair_mem hr hs hn0]
        by_cases ha : a < s.network.agents.length
        · exact (C74_neighbour h hs hu' ha (hget a ha) b hS).1
        · rw [hempty a b S (fun hc => ha hc.1)]
          exact MeasurableSet.empty
      · rintro ⟨a, b⟩ S hS
        rw [drawnPair_mem hr hs hn0]
        by_cases ha : a < s.network.agents.length
        · rw [(C74_neighbour h hs hu' ha (hget a ha) b hS).2]
          dsimp only
          rw [if_pos ha]
        · rw [hempty a b S (fun hc => ha hc.1)]
          dsimp only
          rw [if_neg ha, measure_empty, zero_mul]
      · intro hc
        exact absurd hc hu
      · intro _ a b ha hb
        dsimp only
        rw [if_pos ha]
        refine (ENNReal.div_pos ?_ (ENNReal.natCast_ne_top _)).ne'
        exact_mod_cast (List.count_pos_iff.mpr hb).ne'
  obtain ⟨p, hm, hp, h1, h2⟩ := key
  obtain ⟨hd, hl⟩ := Draws.of_atoms p hm hp
  refine ⟨μ.map fun g => (drawnPair r s g).1, Measure.isProbabilityMeasure_map (measurable_fst.comp hd.measurable).aemeasurable, hd, ?_, ?_⟩
  · intro hu a b hab hb
    rw [hl]; exact h1 hu a b hab hb
  · intro hu a b ha hb
    rw [hl]; exact h2 hu a b ha hb

end Deffuant

omit [MeasurableSpace G] in
/-- The pairs of a sequence of interactions are those drawn from the generator one after the other. -/
theorem Meets.drawn [CommRing F] [LinearOrder F] [IsStrictOrderedRing F] {r : Rng G F} {s u v : Deffuant (SimpleAgent F) F G} {ps : List (Nat × Nat)}
    (h : Meets r u ps v) (hF : Deffuant.Frame s u) :
    v.gen = after (Deffuant.drawnPair r s) ps.length u.gen ∧
      ∀ j, j < ps.length → ps[j]? = some (Deffuant.drawnPair r s (after (Deffuant.drawnPair r s) j u.gen)).1 := by
  induction h with
  | nil => exact ⟨rfl, by simp⟩
  | @cons u s₁ s₂ t a b ps hp hu hm ih =>
    have hmt := (Meets.cons hp hu .nil : Meets r u [(a, b)] s₂).meetings.1
    have hd := Deffuant.drawnPair_eq hF hp
    have hg : s₂.gen = s₁.gen := by
      unfold Deffuant.updateRule at hu
      obtain ⟨x, -, hu⟩ := Res.bind_eq_ok.mp hu
      obtain ⟨y, -, hu⟩ := Res.bind_eq_ok.mp hu
      dsimp only at hu
      split at hu
      · obtain ⟨_, -, hu⟩ := Res.bind_eq_ok.mp hu
        obtain ⟨_, -, hu⟩ := Res.bind_eq_ok.mp hu
        obtain ⟨_, -, hu⟩ := Res.bind_eq_ok.mp hu
        cases hu; rfl
      · cases hu; rfl
    obtain ⟨i1, i2⟩ := ih (hF.trans hmt)
    have ha : ∀ j, after (Deffuant.drawnPair r s) (j + 1) u.gen = after (Deffuant.drawnPair r s) j s₂.gen := by
      intro j
      rw [after, hd, hg]
    refine ⟨by rw [List.length_cons, ha]; exact i1, ?_⟩
    intro j hj
    cases j with
    | zero => rw [after, hd]; rfl
    | succ j =>
      rw [ha, List.getElem?_cons_succ]
      exact i2 j (by simpa using hj)

/-- Agents `a` and `b` can be drawn as a pair: any two of them without network, neighbours with network. -/
def Deffuant.CanMeet (s : Deffuant A F G) (a b : Nat) : Prop :=
  a < s.network.agents.length ∧ b < s.network.agents.length ∧ a ≠ b ∧ (s.useNetwork = true → b ∈ s.network.neighbours.getD a [])

/-- C74: almost surely, two agents that can meet are drawn as a pair in infinitely many iterations (in one of the two orders). -/
theorem C74_meet_again {r : Rng G ℝ} [IsProbabilityMeasure μ] (hr : r.IntLawful) (h : FairIntegers r μ) {s : Deffuant (SimpleAgent ℝ) ℝ G} (hs : s.Ready) :
    ∀ᵐ g ∂μ, ∀ st : Nat → Deffuant (SimpleAgent ℝ) ℝ G, st 0 = { s with gen := g } → Deffuant.Trajectory r st →
      ∃ ps : Nat → List (Nat × Nat), (∀ t, (ps t).length = s.network.agents.length) ∧ (∀ t, Meets r (st t).ticked (ps t) (st (t + 1))) ∧
        ∀ a b, s.CanMeet a b → ∃ᶠ t in atTop, (a, b) ∈ ps t ∨ (b, a) ∈ ps t := by
  have hio : ∀ q : Nat × Nat, ∀ᵐ g ∂μ, s.CanMeet q.1 q.2 → ∃ᶠ m in atTop,
      (Deffuant.drawnPair r s (after (Deffuant.drawnPair r s) m g)).1 = q ∨ (Deffuant.drawnPair r s (after (Deffuant.drawnPair r s) m g)).1 = (q.2, q.1) := by
    rintro ⟨a, b⟩
    by_cases hq : s.CanMeet a b
    · have hn : 2 ≤ s.network.agents.length := by
        obtain ⟨h1, h2, h3, -⟩ := hq
        omega
      obtain ⟨law, hl, hd, h1, h2⟩ := Deffuant.drawnPair_draws hr h hs hn
      have hpos : law {(a, b)} ≠ 0 ∨ law {(b, a)} ≠ 0 := by
        obtain ⟨h3, h4, h5, h6⟩ := hq
        by_cases hu : s.useNetwork = true
        · exact .inl (h2 hu a b h3 (h6 hu))
        · have hu' : s.useNetwork = false := by simpa using hu
          rcases Nat.lt_or_gt_of_ne h5 with hlt | hlt
          · exact .inl (h1 hu' a b hlt h4)
          · exact .inr (h1 hu' b a hlt h3)
      rcases hpos with hpos | hpos
      · filter_upwards [hd.infinitely_often (measurableSet_singleton _) hpos] with g hg _
        exact hg.mono fun m hm => .inl hm
      · filter_upwards [hd.infinitely_often (measurableSet_singleton _) hpos] with g hg _
        exact hg.mono fun m hm => .inr hm
    · exact Eventually.of_forall fun g hc => absurd hc hq
  filter_upwards [ae_all_iff.mpr hio] with g hg st h0 T
  have hF0 : Deffuant.Frame s (st 0) := by rw [h0]; exact ⟨rfl, rfl, rfl, rfl, rfl, rfl, rfl, rfl⟩
  have hF : ∀ t, Deffuant.Frame s (st t) := fun t => hF0.trans (T.frame t)
  have hsch : ∀ t, ∃ ps : List (Nat × Nat), ps.length = s.network.agents.length ∧ Meets r (st t).ticked ps (st (t + 1)) := by
    intro t
    obtain ⟨ps, h1, h2, -⟩ := C37_schedule hr ((hF t).ready hs) (T t)
    exact ⟨ps, h1.trans (hF t).n, h2⟩
  choose ps hl hm using hsch
  refine ⟨ps, hl, hm, ?_⟩
  have htick : ∀ t, Deffuant.Frame s (st t).ticked := fun t => (hF t).trans ⟨rfl, rfl, rfl, rfl, rfl, rfl, rfl, rfl⟩
  have hgen : ∀ t, (st t).gen = after (Deffuant.drawnPair r s) (s.network.agents.length * t) g := by
    intro t
    induction t with
    | zero => rw [h0]; rfl
    | succ t ih =>
      have := ((hm t).drawn (htick t)).1
      rw [this, hl, show (st t).ticked.gen = (st t).gen from rfl, ih, ← after_add, Nat.mul_succ]
  have hps : ∀ t j, j < s.network.agents.length →
      (ps t)[j]? = some (Deffuant.drawnPair r s (after (Deffuant.drawnPair r s) (s.network.agents.length * t + j) g)).1 := by
    intro t j hj
    rw [((hm t).drawn (htick t)).2 j (by rw [hl]; exact hj), show (st t).ticked.gen = (st t).gen from rfl, hgen, ← after_add]
  intro a b hab
  have hf := hg (a, b) hab
  have hn : 0 < s.network.agents.length := lt_of_le_of_lt (Nat.zero_le _) hab.1
  rw [frequently_atTop] at hf ⊢
  intro t₀
  obtain ⟨m, hm1, hm2⟩ := hf (s.network.agents.length * t₀)
  refine ⟨m / s.network.agents.length, (Nat.le_div_iff_mul_le hn).mpr (by rw [Nat.mul_comm]; exact hm1), ?_⟩
  have := hps (m / s.network.agents.length) (m % s.network.agents.length) (Nat.mod_lt _ hn)
  rw [Nat.div_add_mod] at this
  rcases hm2 with e | e
  · exact .inl (by rw [← e]; exact List.mem_of_getElem? this)
  · exact .inr (by rw [← e]; exact List.mem_of_getElem? this)

/-- C74: for `0 < mu < 1` and fair draws the opinions almost surely converge, and any two agents that can meet end up with the same opinion or at least the
threshold apart. -/
theorem C74_clusters {r : Rng G ℝ} [IsProbabilityMeasure μ] (hr : r.IntLawful) (h : FairIntegers r μ) {s : Deffuant (SimpleAgent ℝ) ℝ G} (hs : s.Ready)
    (h0 : 0 < s.mu) (h1 : s.mu < 1) :
    ∀ᵐ g ∂μ, ∃ st : Nat → Deffuant (SimpleAgent ℝ) ℝ G, st 0 = { s with gen := g } ∧ Deffuant.Trajectory r st ∧
      ∃ y : Nat → ℝ, (∀ i, i < s.network.agents.length → Tendsto (fun t => opinionOf (st t).network.agents i) atTop (𝓝 (y i))) ∧
        ∀ i j, s.CanMeet i j → y i = y j ∨ s.threshold ≤ |y i - y j| := by
  filter_upwards [C74_meet_again hr h hs] with g hg
  have hF : Deffuant.Frame s { s with gen := g } := ⟨rfl, rfl, rfl, rfl, rfl, rfl, rfl, rfl⟩
  obtain ⟨st, hst, T⟩ := C64_trajectory_exists hr (hF.ready hs)
  obtain ⟨ps, hl, hm, hio⟩ := hg st hst T
  have e1 : (st 0).mu = s.mu := by rw [hst]
  have e2 : (st 0).threshold = s.threshold := by rw [hst]
  have e3 : (st 0).network.agents.length = s.network.agents.length := by rw [hst]
  obtain ⟨y, hy⟩ := C64_converges T (by rw [e1]; exact h0.le) (by rw [e1]; exact h1)
  refine ⟨st, hst, T, y, by rw [e3] at hy; exact hy, ?_⟩
  intro i j hij
  rcases frequently_or_distrib.mp (hio i j hij) with hf | hf
  · have := C64_clusters (by rw [e1]; exact h0) (by rw [e1]; exact h1) (fun t => (hl t).trans e3.symm) hm hy hf
    rwa [e2] at this
  · have := C64_clusters (by rw [e1]; exact h0) (by rw [e1]; exact h1) (fun t => (hl t).trans e3.symm) hm hy hf
    rw [e2, abs_sub_comm] at this
    exact this.imp Eq.symm id

/-- C74: if all opinions start within less than the threshold of each other and every two agents are connected by agents that can meet, the agents almost
surely reach consensus on the mean of the initial opinions. -/
theorem C74_consensus {r : Rng G ℝ} [IsProbabilityMeasure μ] (hr : r.IntLawful) (h : FairIntegers r μ) {s : Deffuant (SimpleAgent ℝ) ℝ G} (hs : s.Ready)
    (h0 : 0 < s.mu) (h1 : s.mu < 1) {lo hi : ℝ} (hx : ∀ x ∈ opinions s.network.agents, lo ≤ x ∧ x ≤ hi) (hd : hi - lo < s.threshold)
    (hc : ∀ i j, i < s.network.agents.length → j < s.network.agents.length → Relation.ReflTransGen s.CanMeet i j) :
    ∀ᵐ g ∂μ, ∃ st : Nat → Deffuant (SimpleAgent ℝ) ℝ G, st 0 = { s with gen := g } ∧ Deffuant.Trajectory r st ∧
      ∀ i, i < s.network.agents.length →
        Tendsto (fun t => opinionOf (st t).network.agents i) atTop (𝓝 ((opinions s.network.agents).sum / s.network.agents.length)) := by
  filter_upwards [C74_clusters hr h hs h0 h1] with g ⟨st, hst, T, y, hy, hcl⟩
  refine ⟨st, hst, T, ?_⟩
  have e1 : (st 0).mu = s.mu := by rw [hst]
  have e3 : (st 0).network.agents = s.network.agents := by rw [hst]
  obtain ⟨hb, hsum⟩ := C64_limit_hull T (by rw [e1]; exact h0.le) (by rw [e1]; exact h1.le) (y := y) (by rw [e3]; exact hy)
  rw [e3] at hb hsum
  have hbox := hb lo hi hx
  have hstep : ∀ i j, s.CanMeet i j → y i = y j := by
    intro i j hij
    rcases hcl i j hij with e | e
    · exact e
    · exfalso
      have h2 := hbox i hij.1
      have h3 := hbox j hij.2.1
      have : |y i - y j| ≤ hi - lo := by rw [abs_le]; constructor <;> linarith
      linarith
  have hall : ∀ i j, Relation.ReflTransGen s.CanMeet i j → y i = y j := by
    intro i j hij
    induction hij with
    | refl => rfl
    | tail _ hbc ih => exact ih.trans (hstep _ _ hbc)
  intro i hi'
  have hn : (s.network.agents.length : ℝ) ≠ 0 := by exact_mod_cast (lt_of_le_of_lt (Nat.zero_le _) hi').ne'
  have : (opinions s.network.agents).sum / s.network.agents.length = y i := by
    rw [div_eq_iff hn, ← hsum, Finset.sum_congr rfl (fun j hj => hall j i (hc j i (Finset.mem_range.mp hj) hi')), Finset.sum_const,
      Finset.card_range, nsmul_eq_mul, mul_comm]
  rw [this]
  exact hy i hi'

/-- Without network everybody can meet everybody else. -/
theorem C74_plain_connected {s : Deffuant A F G} (hu : s.useNetwork = false) :
    ∀ i j, i < s.network.agents.length → j < s.network.agents.length → Relation.ReflTransGen s.CanMeet i j := by
  intro i j hi hj
  by_cases e : i = j
  · rw [e]
  · exact .single ⟨hi, hj, e, fun hc => by rw [hu] at hc; cases hc⟩

/-- On a network in which every agent can be reached from every other, they are connected by agents that can meet. -/
theorem C74_network_connected {s : Deffuant A F G} (hs : s.Ready)
    (hc : ∀ i j, i < s.network.agents.length → j < s.network.agents.length → Reaches s.network.neighbours i j) :
    ∀ i j, i < s.network.agents.length → j < s.network.agents.length → Relation.ReflTransGen s.CanMeet i j := by
  intro i j hi hj
  have : ∀ k, Relation.ReflTransGen (Step s.network.neighbours) i k → k < s.network.agents.length ∧ Relation.ReflTransGen s.CanMeet i k := by
    intro k hk
    induction hk with
    | refl => exact ⟨hi, .refl⟩
    | @tail b c _ hbc ih =>
      have hbl : b < s.network.neighbours.length := by rw [hs.wf.rows]; exact ih.1
      have hcr : c ∈ s.network.neighbours.getD b [] := hbc
      have hcl : c < s.network.agents.length := by
        rw [getD_lt _ _ hbl] at hcr
        exact hs.wf.range _ (List.getElem_mem hbl) _ hcr
      by_cases e : b = c
      · rw [← e]; exact ih
      · exact ⟨hcl, ih.2.tail ⟨ih.1, hcl, e, fun _ => hcr⟩⟩
  exact (this j (hc i j hi hj)).2

/-- C74: on the square lattice built by the constructor (`use_network`), with agents spread over less than the threshold, consensus is almost sure. -/
theorem C74_lattice {r : Rng G ℝ} [IsProbabilityMeasure μ] (hr : r.IntLawful) (h : FairIntegers r μ) {isqrt : Nat → Nat} {max : Option Int} {thr mu : ℝ}
    {N : Network (SimpleAgent ℝ) ℝ} {g₀ : G} {s : Deffuant (SimpleAgent ℝ) ℝ G} (hN : N.agents.length < 2 ^ 64)
    (hc : Deffuant.create isqrt max thr mu true N g₀ = .ok s) (h0 : 0 < mu) (h1 : mu < 1) {agents : List (SimpleAgent ℝ)}
    (hlen : agents.length = s.network.agents.length) {lo hi : ℝ} (hx : ∀ x ∈ opinions agents, lo ≤ x ∧ x ≤ hi) (hd : hi - lo < thr) :
    ∀ᵐ g ∂μ, ∃ st : Nat → Deffuant (SimpleAgent ℝ) ℝ G, st 0 = { s with gen := g, network := { s.network with agents := agents } } ∧
      Deffuant.Trajectory r st ∧ ∀ i, i < agents.length →
        Tendsto (fun t => opinionOf (st t).network.agents i) atTop (𝓝 ((opinions agents).sum / agents.length)) := by
  unfold Deffuant.create Network.nAgents at hc
  rw [if_pos rfl] at hc
  dsimp only at hc
  split at hc
  · cases hc
  · rename_i hsq
    rw [ne_eq, not_not] at hsq
    obtain ⟨M, hM, hc⟩ := Res.bind_eq_ok.mp hc
    cases hc
    obtain ⟨M', hM', hw, hl, -, hrows, -, -, hconn⟩ := C14_lattice (A := SimpleAgent ℝ) (isqrt N.agents.length) (0 : ℝ)
    rw [hM] at hM'
    cases hM'
    rw [hsq] at hl hconn
    dsimp only at hlen
    have hready : Deffuant.Ready (⟨⟨max.map Network.toSize, 0⟩, thr, mu, true, { M with agents := agents }, g₀⟩ : Deffuant (SimpleAgent ℝ) ℝ G) := by
      refine ⟨⟨by rw [hw.rows]; exact hlen.symm, by rw [hw.wrows]; exact hlen.symm, hw.lengths, fun row hr j hj => by rw [hlen]; exact hw.range row hr j hj⟩,
        by dsimp only; omega, ?_⟩
      intro _ row hrow
      obtain ⟨c, hcl, rfl⟩ := List.getElem_of_mem hrow
      have hcn : c < isqrt N.agents.length * isqrt N.agents.length := by
        rw [hsq, ← hl, ← hw.rows]; exact hcl
      have hL : 0 < isqrt N.agents.length := by
        by_contra hz
        rw [Nat.eq_zero_of_not_pos hz] at hcn
        omega
      have := (hrows (c % isqrt N.agents.length) (c / isqrt N.agents.length) (Nat.mod_lt _ hL) (Nat.div_lt_of_lt_mul hcn)).1
      rw [Nat.mod_add_div, Network.getNeighbours, rd_lt hcl] at this
      have e := Except.ok.inj this
      dsimp only
      rw [e]
      simp
    have := C74_consensus hr h hready h0 h1 hx hd (C74_network_connected hready (by
      intro i j hi hj
      dsimp only at hi hj ⊢
      rw [hlen, hl] at hi hj
      exact hconn i j hi hj))
    exact this

/-! ## The hypotheses are met: a fair generator, three agents -/

/-- Three agents with the opinions 0, 1/2 and 1 without network, threshold 2, `mu = 1/4`. -/
noncomputable def threeAgents (g : ℕ → ℝ) : Deffuant (SimpleAgent ℝ) ℝ (ℕ → ℝ) :=
  ⟨⟨none, 0⟩, 2, 1 / 4, false, ⟨[⟨0⟩, ⟨1 / 2⟩, ⟨1⟩], [[], [], []], [[], [], []], .incoming⟩, g⟩

theorem threeAgents_ready (g : ℕ → ℝ) : (threeAgents g).Ready where
  wf := by
    refine ⟨rfl, rfl, ?_, ?_⟩
    · intro i h1 h2
      have : i < 3 := h1
      interval_cases i <;> rfl
    · intro row hrow j hj
      have : row = [] := by simpa [threeAgents] using hrow
      rw [this] at hj
      cases hj
  size := by simp [threeAgents]
  rows h := by cases h

example : ∀ᵐ g ∂tapes, ∃ st : Nat → Deffuant (SimpleAgent ℝ) ℝ (ℕ → ℝ), st 0 = threeAgents g ∧ Deffuant.Trajectory fairRng st ∧
    ∀ i, i < 3 → Tendsto (fun t => opinionOf (st t).network.agents i) atTop (𝓝 (1 / 2)) := by
  have := C74_consensus fairRng_lawful fairRng_fair (threeAgents_ready 0) (by norm_num [threeAgents]) (by norm_num [threeAgents]) (lo := 0) (hi := 1)
    (by
      intro x hx
      simp only [threeAgents, opinions, List.map_cons, List.map_nil, List.mem_cons, List.not_mem_nil, or_false] at hx
      rcases hx with rfl | rfl | rfl <;> norm_num)
    (by norm_num [threeAgents]) (C74_plain_connected rfl)
  have e : (opinions (threeAgents 0).network.agents).sum / (threeAgents 0).network.agents.length = 1 / 2 := by
    norm_num [threeAgents, opinions]
  rw [e] at this
  exact this

end Seldon
