import Verif.Lemmas.Chance
import Verif.Lemmas.Copying
import Verif.Lemmas.DeffuantVector
import Verif.Props.DeffuantLaw
/-!
# Helper lemmas: the vector Deffuant model as a random walk on the opinions
-/
set_option linter.unusedSectionVars false
namespace Seldon
open Spec MeasureTheory
open scoped ENNReal
variable {G : Type} [MeasurableSpace G] {μ : Measure G}

instance : Countable DiscreteVectorAgent := by
  refine Function.Injective.countable (f := DiscreteVectorAgent.opinion) ?_
  rintro ⟨x⟩ ⟨y⟩ h
  cases h; rfl

namespace Deffuant

/-- The update rule as a function of the agents and the generator. -/
noncomputable def meetV (r : Rng G ℝ) (θ mu : ℝ) (a b : Nat) (xs : List DiscreteVectorAgent) (g : G) : Res (List DiscreteVectorAgent × G) := do
  let x ← rd xs a
  let y ← rd xs b
  let distance ← hamming x.opinion y.opinion
  if (distance : ℝ) < θ then loop x.opinion.length (fun k t => convince r mu a b k t) (xs, g)
  else .ok (xs, g)

theorem updateVector_eq (r : Rng G ℝ) (a b : Nat) (u : Deffuant DiscreteVectorAgent ℝ G) :
    updateVector r a b u = (meetV r u.threshold u.mu a b u.network.agents u.gen >>= fun t =>
      .ok { u with network := { u.network with agents := t.1 }, gen := t.2 }) := by
  unfold updateVector meetV
  cases h1 : rd u.network.agents a with
  | error e => rfl
  | ok x =>
    cases h2 : rd u.network.agents b with
    | error e => rfl
    | ok y =>
      simp only [Res.bind_ok]
      cases h3 : hamming x.opinion y.opinion with
      | error e => rfl
      | ok d =>
        simp only [Res.bind_ok]
        split <;> rfl

/-- One interaction, as a step of a random walk. -/
noncomputable def stepV (r : Rng G ℝ) (s : Deffuant DiscreteVectorAgent ℝ G) (xs : List DiscreteVectorAgent) (g : G) : Res (List DiscreteVectorAgent × G) :=
  (.ok (drawnPair r s g) : Res ((Nat × Nat) × G)) >>= fun p => meetV r s.threshold s.mu p.1.1 p.1.2 xs p.2

theorem interact_stepV {r : Rng G ℝ} (hr : r.IntLawful) {s u t : Deffuant DiscreteVectorAgent ℝ G} (hs : s.Ready) (hn : 0 < s.network.agents.length)
    (hF : Frame s u) (h : interact r (updateVector r) u = .ok t) :
    stepV r s u.network.agents u.gen = .ok (t.network.agents, t.gen) := by
  have hn' : 0 < u.network.agents.length := by rw [hF.n]; exact hn
  obtain ⟨a, b, g, h1, ha, hb, -⟩ := selectPair_ok hr (hF.ready hs) hn'
  unfold interact at h
  simp only [h1, Res.bind_ok, rd, List.getElem?_cons_zero, List.getElem?_cons_succ, List.getElem?_eq_getElem ha,
    List.getElem?_eq_getElem hb] at h
  rw [updateVector_eq] at h
  obtain ⟨p, h2, h3⟩ := Res.bind_eq_ok.mp h
  dsimp only at h2
  rw [stepV, Res.bind_ok, drawnPair_eq hF h1, ← hF.threshold, ← hF.mu]
  dsimp only
  rw [h2]
  cases h3; rfl

/-- Bounds on the choice of the pair. -/
theorem drawnPair_lt {r : Rng G ℝ} (hr : r.IntLawful) {s : Deffuant DiscreteVectorAgent ℝ G} (hs : s.Ready) (hn : 0 < s.network.agents.length) (g : G) :
    (drawnPair r s g).1.1 < s.network.agents.length ∧ (drawnPair r s g).1.2 < s.network.agents.length ∧
      (s.useNetwork = true → (drawnPair r s g).1.2 ∈ s.network.neighbours.getD (drawnPair r s g).1.1 []) := by
  have hF : Frame s { s with gen := g } := ⟨rfl, rfl, rfl, rfl, rfl, rfl, rfl, rfl⟩
  obtain ⟨a, b, g', h1, ha, hb, -, hc⟩ := selectPair_ok hr (hF.ready hs) hn
  have := drawnPair_eq hF h1
  dsimp only at this
  rw [this]
  exact ⟨ha, hb, hc⟩

/-! ## one position -/

/-- `convince` when the two entries differ. -/
theorem convince_eq (r : Rng G ℝ) (mu : ℝ) {a b k : Nat} {xs : List DiscreteVectorAgent} (ha : a < xs.length) (hb : b < xs.length)
    (hka : k < xs[a].opinion.length) (hkb : k < xs[b].opinion.length) (hne : xs[a].opinion[k] ≠ xs[b].opinion[k]) (g : G) :
    convince r mu a b k (xs, g) = ((.ok (r.int 0 1 g) : Res (Nat × G)) >>= fun p => (fun sel g => if sel = 0 then
        ((.ok (decide (mu < (r.unit g).1), (r.unit g).2) : Res (Bool × G)) >>= fun q => (fun (c : Bool) g =>
          if c = true then (.ok (xs.set a ⟨xs[a].opinion.set k xs[b].opinion[k]⟩, g) : Res (List DiscreteVectorAgent × G))
          else .ok (xs.set b ⟨xs[b].opinion.set k xs[a].opinion[k]⟩, g)) q.1 q.2)
      else .ok (xs.set b ⟨xs[b].opinion.set k xs[a].opinion[k]⟩, g)) p.1 p.2) := by
  unfold convince
  rw [rd_lt ha, Res.bind_ok, rd_lt hb, Res.bind_ok, rd_lt hka, Res.bind_ok, rd_lt hkb, Res.bind_ok, if_pos hne]
  simp only [Res.bind_ok, wr_lt _ hka, wr_lt _ hkb, wr_lt _ ha, wr_lt _ hb]
  split
  · by_cases hc : mu < (r.unit (r.int 0 1 g).2).1
    · rw [if_pos hc, if_pos (decide_eq_true hc)]
    · rw [if_neg hc, if_neg (by rw [decide_eq_false hc]; simp)]
  · rfl

theorem convince_fresh {r : Rng G ℝ} [IsProbabilityMeasure μ] (hi : FairIntegers r μ) (hu : Draws r.unit uniform μ) (mu : ℝ) {a b k d : Nat}
    {xs : List DiscreteVectorAgent} (hd : Dim d xs) (ha : a < xs.length) (hb : b < xs.length) (hk : k < d) :
    Fresh (fun g => convince r mu a b k (xs, g)) μ ∧
      Likely (fun g => convince r mu a b k (xs, g)) μ (xs.set b ⟨xs[b].opinion.set k (xs[a].opinion[k]'(by rw [hd _ (List.getElem_mem ha)]; exact hk))⟩) := by
  have hka : k < xs[a].opinion.length := by rw [hd _ (List.getElem_mem ha)]; exact hk
  have hkb : k < xs[b].opinion.length := by rw [hd _ (List.getElem_mem hb)]; exact hk
  by_cases hne : xs[a].opinion[k] = xs[b].opinion[k]
  · have e : (fun g => convince r mu a b k (xs, g)) = fun g => .ok (xs, g) := by
      funext g
      unfold convince
      rw [rd_lt ha, Res.bind_ok, rd_lt hb, Res.bind_ok, rd_lt hka, Res.bind_ok, rd_lt hkb, Res.bind_ok, if_neg (not_not.mpr hne)]
    have e2 : xs.set b ⟨xs[b].opinion.set k xs[a].opinion[k]⟩ = xs := by
      rw [hne, List.set_getElem_self]
      exact List.set_getElem_self hb
    rw [e, e2]
    exact Fresh.pure xs
  · rw [show (fun g => convince r mu a b k (xs, g)) = _ from funext (convince_eq r mu ha hb hka hkb hne)]
    let body : Nat → G → Res (List DiscreteVectorAgent × G) := fun sel g => if sel = 0 then
        ((.ok (decide (mu < (r.unit g).1), (r.unit g).2) : Res (Bool × G)) >>= fun q => (fun (c : Bool) g =>
          if c = true then (.ok (xs.set a ⟨xs[a].opinion.set k xs[b].opinion[k]⟩, g) : Res (List DiscreteVectorAgent × G))
          else .ok (xs.set b ⟨xs[b].opinion.set k xs[a].opinion[k]⟩, g)) q.1 q.2)
      else .ok (xs.set b ⟨xs[b].opinion.set k xs[a].opinion[k]⟩, g)
    have hint := Fresh.of_draws (hi.int 0 1 (Nat.zero_le _))
    have hunit := Fresh.of_draws (hu.map (φ := fun u => decide (mu < u)) (measurable_to_bool (by
      have : (fun u : ℝ => decide (mu < u)) ⁻¹' {true} = Set.Ioi mu := by ext u; simp
      rw [this]; exact measurableSet_Ioi)))
    have hA := fun ys : List DiscreteVectorAgent => (Fresh.pure (μ := μ) ys)
    have hbody : ∀ sel : Nat, Fresh (body sel) μ := by
      intro sel
      by_cases hsel : sel = 0
      · simp only [body, if_pos hsel]
        refine Fresh.bind hunit.1 (h := fun (c : Bool) g =>
          if c = true then (.ok (xs.set a ⟨xs[a].opinion.set k xs[b].opinion[k]⟩, g) : Res (List DiscreteVectorAgent × G))
          else .ok (xs.set b ⟨xs[b].opinion.set k xs[a].opinion[k]⟩, g)) ?_
        intro c _ _ _
        cases c
        · exact (hA _).1
        · exact (hA _).1
      · simp only [body, if_neg hsel]
        exact (hA _).1
    refine ⟨Fresh.bind (h := body) hint.1 fun sel _ _ _ => hbody sel, Fresh.likely_bind (h := body) hint.1 (y := 1) ?_ (hbody 1) ?_⟩
    · rw [Likely, hint.2, ← Finset.coe_Icc, ← Finset.coe_singleton, ProbabilityTheory.uniformOn_apply_finset]
      simp
    · exact (hA _).2

/-! ## one interaction -/

theorem convinceTo_fresh {r : Rng G ℝ} [IsProbabilityMeasure μ] (hi : FairIntegers r μ) (hu : Draws r.unit uniform μ) (mu : ℝ) {a b d : Nat}
    {xs : List DiscreteVectorAgent} (hd : Dim d xs) (ha : a < xs.length) (hb : b < xs.length) (m : Nat) (hm : m ≤ d) :
    Fresh (fun g => loop m (fun k t => convince r mu a b k t) (xs, g)) μ ∧
      (a ≠ b → Likely (fun g => loop m (fun k t => convince r mu a b k t) (xs, g)) μ
        (xs.set b ⟨xs[a].opinion.take m ++ xs[b].opinion.drop m⟩)) := by
  induction m with
  | zero =>
    have e : (fun g => loop 0 (fun k t => convince r mu a b k t) (xs, g)) = fun g => (.ok (xs, g) : Res (List DiscreteVectorAgent × G)) := rfl
    rw [e]
    refine ⟨(Fresh.pure xs).1, fun _ => ?_⟩
    have : xs.set b ⟨xs[a].opinion.take 0 ++ xs[b].opinion.drop 0⟩ = xs := by
      simp only [List.take_zero, List.drop_zero, List.nil_append]
      exact List.set_getElem_self hb
    rw [this]
    exact (Fresh.pure xs).2
  | succ m ih =>
    obtain ⟨ih1, ih2⟩ := ih (by omega)
    have e : (fun g => loop (m + 1) (fun k t => convince r mu a b k t) (xs, g)) =
        fun g => (fun g => loop m (fun k t => convince r mu a b k t) (xs, g)) g >>= fun p => (fun ys g => convince r mu a b m (ys, g)) p.1 p.2 := by
      funext g
      rw [loop_succ]
    rw [e]
    refine ⟨Fresh.bind (h := fun ys g => convince r mu a b m (ys, g)) ih1 ?_, fun hab => ?_⟩
    · intro ys g g' h1
      have hinv : ys.length = xs.length ∧ Dim d ys := by
        obtain ⟨t', h2, h3, h4, -⟩ := loop_inv (n := m) (f := fun k t => convince r mu a b k t) (s := (xs, g))
          (fun k t' => t'.1.length = xs.length ∧ Dim d t'.1 ∧ True) ⟨rfl, hd, trivial⟩ (by
            rintro k u hk ⟨g1, g2, -⟩
            obtain ⟨u', v, e1, e2, e3, -⟩ := convince_ok r mu g2 (by rw [g1]; exact ha) (by rw [g1]; exact hb) (show k < d by omega)
            exact ⟨u', e1, e2.trans g1, e3, trivial⟩)
        have h1' : loop m (fun k t => convince r mu a b k t) (xs, g) = .ok (ys, g') := h1
        rw [h2] at h1'
        cases h1'
        exact ⟨h3, h4⟩
      exact (convince_fresh hi hu mu hinv.2 (by rw [hinv.1]; exact ha) (by rw [hinv.1]; exact hb) (by omega)).1
    · have hla : xs[a].opinion.length = d := hd _ (List.getElem_mem ha)
      have hlb : xs[b].opinion.length = d := hd _ (List.getElem_mem hb)
      have hd' : Dim d (xs.set b ⟨xs[a].opinion.take m ++ xs[b].opinion.drop m⟩) := by
        intro w hw
        rcases List.mem_or_eq_of_mem_set hw with h | h
        · exact hd w h
        · subst h
          simp only [List.length_append, List.length_take, List.length_drop, hla, hlb]
          omega
      have hc := convince_fresh hi hu mu (a := a) (b := b) hd' (by simpa using ha) (by simpa using hb) (show m < d by omega)
      refine Fresh.likely_bind (h := fun ys g => convince r mu a b m (ys, g)) ih1 (ih2 hab) hc.1 ?_
      have e2 : (xs.set b ⟨xs[a].opinion.take (m + 1) ++ xs[b].opinion.drop (m + 1)⟩) =
          (xs.set b ⟨xs[a].opinion.take m ++ xs[b].opinion.drop m⟩).set b
            ⟨((xs.set b ⟨xs[a].opinion.take m ++ xs[b].opinion.drop m⟩)[b]'(by simpa using hb)).opinion.set m
              (((xs.set b ⟨xs[a].opinion.take m ++ xs[b].opinion.drop m⟩)[a]'(by simpa using ha)).opinion[m]'(by
                rw [List.getElem_set_ne (Ne.symm hab)]; omega))⟩ := by
        rw [List.set_set]
        congr 2
        simp only [List.getElem_set_self, List.getElem_set_ne (Ne.symm hab)]
        apply List.ext_getElem?
        intro i
        rw [List.getElem?_set]
        by_cases him : m = i
        · subst him
          rw [if_pos rfl, if_pos (by simp [hla, hlb]; omega), List.getElem?_append_left (by simp; omega)]
          simp
        · rw [if_neg him]
          by_cases hlt : i < m
          · rw [List.getElem?_append_left (by simp; omega), List.getElem?_append_left (by simp; omega),
              List.getElem?_take_of_lt (by omega), List.getElem?_take_of_lt (by omega)]
          · rw [List.getElem?_append_right (by simp; omega), List.getElem?_append_right (by simp; omega)]
            simp only [List.length_take, hla, List.getElem?_drop]
            congr 1
            omega
      rw [e2]
      exact hc.2

/-- Two vectors differ in fewer positions than the threshold. -/
def Near (d : Nat) (θ : ℝ) (v w : List Int) : Prop := (((Finset.range d).filter fun j => v[j]? ≠ w[j]?).card : ℝ) < θ

theorem Near.symm {d : Nat} {θ : ℝ} (v w : List Int) (h : Near d θ v w) : Near d θ w v := by
  unfold Near at h ⊢
  simpa only [ne_comm] using h

theorem meetV_eq (r : Rng G ℝ) (θ mu : ℝ) {a b d : Nat} {xs : List DiscreteVectorAgent} (hd : Dim d xs) (ha : a < xs.length) (hb : b < xs.length) (g : G) :
    (Near d θ xs[a].opinion xs[b].opinion → meetV r θ mu a b xs g = loop d (fun k t => convince r mu a b k t) (xs, g)) ∧
    (¬ Near d θ xs[a].opinion xs[b].opinion → meetV r θ mu a b xs g = .ok (xs, g)) := by
  have hla : xs[a].opinion.length = d := hd _ (List.getElem_mem ha)
  have hlb : xs[b].opinion.length = d := hd _ (List.getElem_mem hb)
  unfold meetV
  rw [rd_lt ha, Res.bind_ok, rd_lt hb, Res.bind_ok, hamming_eq (hla.trans hlb.symm), Res.bind_ok, hla]
  unfold Near diffPositions
  rw [hla]
  simp only [Int.cast_natCast]
  exact ⟨fun h => if_pos h, fun h => if_neg h⟩

/-- An interaction of agents that agree, or are too far apart, changes nothing (and draws nothing). -/
theorem meetV_idle (r : Rng G ℝ) (θ mu : ℝ) {a b d : Nat} {xs : List DiscreteVectorAgent} (hd : Dim d xs) (ha : a < xs.length) (hb : b < xs.length) (g : G)
    (h : xs[a].opinion = xs[b].opinion ∨ ¬ Near d θ xs[a].opinion xs[b].opinion) : meetV r θ mu a b xs g = .ok (xs, g) := by
  by_cases hn : Near d θ xs[a].opinion xs[b].opinion
  · rw [(meetV_eq r θ mu hd ha hb g).1 hn]
    have he : xs[a].opinion = xs[b].opinion := h.resolve_right (not_not.mpr hn)
    have := loop_eq (n := d) (f := fun k t => convince r mu a b k t) (fun _ => (xs, g)) (by
      intro k hk
      have hka : k < xs[a].opinion.length := by rw [hd _ (List.getElem_mem ha)]; exact hk
      have hkb : k < xs[b].opinion.length := by rw [hd _ (List.getElem_mem hb)]; exact hk
      unfold convince
      rw [rd_lt ha, Res.bind_ok, rd_lt hb, Res.bind_ok, rd_lt hka, Res.bind_ok, rd_lt hkb, Res.bind_ok, if_neg]
      rw [not_not]
      simp only [he])
    exact this
  · exact (meetV_eq r θ mu hd ha hb g).2 hn

theorem meetV_fresh {r : Rng G ℝ} [IsProbabilityMeasure μ] (hi : FairIntegers r μ) (hu : Draws r.unit uniform μ) (θ mu : ℝ) {a b d : Nat}
    {xs : List DiscreteVectorAgent} (hd : Dim d xs) (ha : a < xs.length) (hb : b < xs.length) :
    Fresh (meetV r θ mu a b xs) μ ∧
      (a ≠ b → Near d θ xs[a].opinion xs[b].opinion → Likely (meetV r θ mu a b xs) μ (xs.set b ⟨xs[a].opinion⟩)) := by
  have hla : xs[a].opinion.length = d := hd _ (List.getElem_mem ha)
  have hlb : xs[b].opinion.length = d := hd _ (List.getElem_mem hb)
  obtain ⟨h1, h2⟩ := convinceTo_fresh hi hu mu hd ha hb d le_rfl
  by_cases hn : Near d θ xs[a].opinion xs[b].opinion
  · rw [show meetV r θ mu a b xs = _ from funext fun g => (meetV_eq r θ mu hd ha hb g).1 hn]
    refine ⟨h1, fun hab _ => ?_⟩
    have := h2 hab
    rwa [List.take_of_length_le (by omega), List.drop_of_length_le (by omega), List.append_nil] at this
  · rw [show meetV r θ mu a b xs = _ from funext fun g => (meetV_eq r θ mu hd ha hb g).2 hn]
    exact ⟨(Fresh.pure xs).1, fun _ hc => absurd hc hn⟩

theorem meetV_inv (r : Rng G ℝ) (θ mu : ℝ) {a b d : Nat} {xs ys : List DiscreteVectorAgent} {g g' : G} (hd : Dim d xs) (ha : a < xs.length)
    (hb : b < xs.length) (h : meetV r θ mu a b xs g = .ok (ys, g')) :
    ys.length = xs.length ∧ Dim d ys ∧ ∀ P : Int → Prop, (∀ x ∈ xs, ∀ v ∈ x.opinion, P v) → ∀ x ∈ ys, ∀ v ∈ x.opinion, P v := by
  by_cases hn : Near d θ xs[a].opinion xs[b].opinion
  · rw [(meetV_eq r θ mu hd ha hb g).1 hn] at h
    obtain ⟨t', val, h1, h2, h3, h4, h5⟩ := convinceAll_ok r mu (t := (xs, g)) hd ha hb
    rw [h1] at h
    cases h
    refine ⟨h2, h3, ?_⟩
    have hent : ∀ (zs : List DiscreteVectorAgent) (P : Int → Prop), (∀ x ∈ zs, ∀ v ∈ x.opinion, P v) ↔ ∀ i j v, entry zs i j = some v → P v := by
      intro zs P
      constructor
      · intro hP i j v hv
        simp only [entry, Option.bind_eq_some_iff] at hv
        obtain ⟨w, hw, hv⟩ := hv
        exact hP w (List.mem_of_getElem? hw) v (List.mem_of_getElem? hv)
      · intro hP x hx v hv
        obtain ⟨i, hi, rfl⟩ := List.mem_iff_getElem.mp hx
        obtain ⟨j, hj, rfl⟩ := List.mem_iff_getElem.mp hv
        exact hP i j _ (entry_lt hi hj)
    intro P hP
    rw [hent] at hP ⊢
    intro i j v hv
    rw [h5] at hv
    split at hv
    · next hc =>
      simp only [Option.some.injEq] at hv
      subst hv
      rcases h4 j hc.2 with h | h
      · exact hP _ _ _ h
      · exact hP _ _ _ h
    · exact hP _ _ _ hv
  · rw [(meetV_eq r θ mu hd ha hb g).2 hn] at h
    cases h
    exact ⟨rfl, hd, fun P h => h⟩

end Deffuant
end Seldon
