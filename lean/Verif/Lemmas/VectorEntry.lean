import Verif.Lemmas.VectorChain
import Verif.Lemmas.Relabel
/-!
# Helper lemmas: which of two agents gives in, entry by entry
-/
set_option linter.unusedSectionVars false
namespace Seldon
open Spec MeasureTheory
open scoped ENNReal
variable {G : Type} [MeasurableSpace G] {μ : Measure G}

namespace Deffuant

/-- The states of the generator from which the first agent of the pair takes over the entry of the second one. -/
def yields (r : Rng G ℝ) (mu : ℝ) : Set G := {g | (r.int 0 1 g).1 = 0 ∧ mu < (r.unit (r.int 0 1 g).2).1}

theorem yields_law {r : Rng G ℝ} [IsProbabilityMeasure μ] (hi : FairIntegers r μ) (hu : Draws r.unit uniform μ) (mu : ℝ) :
    MeasurableSet (yields r mu) ∧ μ (yields r mu) = uniform (Set.Ioi mu) / 2 := by
  have hS : MeasurableSet {g | mu < (r.unit g).1} := (hu.measurable.fst) measurableSet_Ioi
  have e1 : μ {g | mu < (r.unit g).1} = uniform (Set.Ioi mu) := by
    have : {g | mu < (r.unit g).1} = r.unit ⁻¹' (Set.Ioi mu ×ˢ Set.univ) := by
      ext g; simp
    rw [this, hu.measure_preimage (measurableSet_Ioi.prod MeasurableSet.univ).nullMeasurableSet, Measure.prod_prod, measure_univ, mul_one]
  obtain ⟨h1, h2⟩ := hi.measure (m := 1) {0} (by simp) hS
  have e : {g | (r.int 0 1 g).1 ∈ ({0} : Finset ℕ) ∧ (r.int 0 1 g).2 ∈ {g | mu < (r.unit g).1}} = yields r mu := by
    ext g; simp [yields]
  rw [e] at h1 h2
  rw [e1] at h2
  refine ⟨h1, ?_⟩
  rw [ENNReal.eq_div_iff (by simp) (by simp), ← one_mul (uniform (Set.Ioi mu))]
  simpa using h2

theorem uniform_low {mu : ℝ} (h : mu ≤ 0) : uniform (Set.Ioi mu) = 1 := by
  rw [uniform, Measure.restrict_apply measurableSet_Ioi, show Set.Ioi mu ∩ Set.Ioo 0 1 = Set.Ioo 0 1 from ?_]
  · simp
  · ext x
    simp only [Set.mem_inter_iff, Set.mem_Ioi, Set.mem_Ioo]
    constructor
    · exact fun h => h.2
    · exact fun hx => ⟨by linarith, hx⟩

theorem uniform_mid {mu : ℝ} (h : 0 ≤ mu) : uniform (Set.Ioi mu) = ENNReal.ofReal (1 - mu) := by
  rw [uniform, Measure.restrict_apply measurableSet_Ioi, show Set.Ioi mu ∩ Set.Ioo 0 1 = Set.Ioo mu 1 from ?_, Real.volume_Ioo]
  ext x
  simp only [Set.mem_inter_iff, Set.mem_Ioi, Set.mem_Ioo]
  constructor
  · exact fun h => ⟨h.1, h.2.2⟩
  · exact fun hx => ⟨hx.1, by linarith, hx.2⟩

theorem convince_entry (r : Rng G ℝ) (mu : ℝ) {a b k d : Nat} {xs : List DiscreteVectorAgent} (hd : Dim d xs) (ha : a < xs.length) (hb : b < xs.length)
    (hab : a ≠ b) (hk : k < d) (g : G) : ∃ ys g', convince r mu a b k (xs, g) = .ok (ys, g') ∧ ys.length = xs.length ∧ Dim d ys ∧
      (∀ i j, j ≠ k → entry ys i j = entry xs i j) ∧ (∀ i, i ≠ a → i ≠ b → ys[i]? = xs[i]?) ∧
      (g ∈ yields r mu → entry ys a k = entry xs b k ∧ ys[b]? = xs[b]?) ∧ (g ∉ yields r mu → ys[a]? = xs[a]? ∧ entry ys b k = entry xs a k) := by
  have hla : xs[a].opinion.length = d := hd _ (List.getElem_mem ha)
  have hlb : xs[b].opinion.length = d := hd _ (List.getElem_mem hb)
  have hka : k < xs[a].opinion.length := by omega
  have hkb : k < xs[b].opinion.length := by omega
  have ea := entry_lt ha hka
  have eb := entry_lt hb hkb
  obtain ⟨⟨ys, g'⟩, v, h1, h2, h3, h4, h5⟩ := convince_ok r mu (t := (xs, g)) hd ha hb hk
  dsimp only at h2 h3 h4 h5
  refine ⟨ys, g', h1, h2, h3, fun i j hj => by rw [h5, if_neg (fun hc => hj hc.2)], ?_⟩
  by_cases hne : xs[a].opinion[k] = xs[b].opinion[k]
  · have e : convince r mu a b k (xs, g) = .ok (xs, g) := by
      unfold convince
      rw [rd_lt ha, Res.bind_ok, rd_lt hb, Res.bind_ok, rd_lt hka, Res.bind_ok, rd_lt hkb, Res.bind_ok, if_neg (not_not.mpr hne)]
    rw [e] at h1
    cases h1
    exact ⟨fun _ _ _ => rfl, fun _ => ⟨by rw [ea, eb, hne], rfl⟩, fun _ => ⟨rfl, by rw [ea, eb, hne]⟩⟩
  · rw [convince_eq r mu ha hb hka hkb hne g, Res.bind_ok] at h1
    have hA : ∀ g'', (.ok (xs.set a ⟨xs[a].opinion.set k xs[b].opinion[k]⟩, g'') : Res (List DiscreteVectorAgent × G)) = .ok (ys, g') →
        (∀ i, i ≠ a → i ≠ b → ys[i]? = xs[i]?) ∧ (entry ys a k = entry xs b k ∧ ys[b]? = xs[b]?) := by
      intro g'' h
      cases h
      refine ⟨fun i hi _ => List.getElem?_set_ne (Ne.symm hi), ?_, List.getElem?_set_ne hab⟩
      rw [entry_lt (by simpa using ha) (by simpa using hka), eb]
      simp
    have hB : ∀ g'', (.ok (xs.set b ⟨xs[b].opinion.set k xs[a].opinion[k]⟩, g'') : Res (List DiscreteVectorAgent × G)) = .ok (ys, g') →
        (∀ i, i ≠ a → i ≠ b → ys[i]? = xs[i]?) ∧ (ys[a]? = xs[a]? ∧ entry ys b k = entry xs a k) := by
      intro g'' h
      cases h
      refine ⟨fun i _ hi => List.getElem?_set_ne (Ne.symm hi), List.getElem?_set_ne (Ne.symm hab), ?_⟩
      rw [entry_lt (by simpa using hb) (by simpa using hkb), ea]
      simp
    by_cases hy : g ∈ yields r mu
    · simp only [if_pos hy.1, Res.bind_ok, if_pos (decide_eq_true hy.2)] at h1
      exact ⟨(hA _ h1).1, fun _ => (hA _ h1).2, fun hc => absurd hy hc⟩
    · have : ∃ g'', (.ok (xs.set b ⟨xs[b].opinion.set k xs[a].opinion[k]⟩, g'') : Res (List DiscreteVectorAgent × G)) = .ok (ys, g') := by
        by_cases hs : (r.int 0 1 g).1 = 0
        · have hc : ¬ mu < (r.unit (r.int 0 1 g).2).1 := fun hc => hy ⟨hs, hc⟩
          simp only [if_pos hs, Res.bind_ok, decide_eq_false hc, Bool.false_eq_true, if_false] at h1
          exact ⟨_, h1⟩
        · simp only [if_neg hs] at h1
          exact ⟨_, h1⟩
      obtain ⟨g'', h⟩ := this
      exact ⟨(hB _ h).1, fun hc => absurd hc hy, fun _ => (hB _ h).2⟩

/-- A meeting of near agents, seen at one position: the generator just before the position decides who gives in. -/
theorem meetV_entry (r : Rng G ℝ) (θ mu : ℝ) {a b k d : Nat} {xs : List DiscreteVectorAgent} (hd : Dim d xs) (ha : a < xs.length) (hb : b < xs.length)
    (hab : a ≠ b) (hk : k < d) (hn : Near d θ xs[a].opinion xs[b].opinion) (g : G) :
    ∃ zs gk ys g', loop k (fun k t => convince r mu a b k t) (xs, g) = .ok (zs, gk) ∧ meetV r θ mu a b xs g = .ok (ys, g') ∧ ys.length = xs.length ∧ Dim d ys ∧
      (gk ∈ yields r mu → entry ys a k = entry xs b k ∧ entry ys b k = entry xs b k) ∧
      (gk ∉ yields r mu → entry ys a k = entry xs a k ∧ entry ys b k = entry xs a k) := by
  have before : ∀ j, j ≤ k → ∃ zs gk, loop j (fun k t => convince r mu a b k t) (xs, g) = .ok (zs, gk) ∧ zs.length = xs.length ∧ Dim d zs ∧
      ∀ i, entry zs i k = entry xs i k := by
    intro j
    induction j with
    | zero => exact fun _ => ⟨xs, g, rfl, rfl, hd, fun _ => rfl⟩
    | succ j ih =>
      intro hj
      obtain ⟨zs, gk, h1, h2, h3, h4⟩ := ih (by omega)
      obtain ⟨ws, g', e1, e2, e3, e4, -⟩ := convince_entry r mu h3 (by rw [h2]; exact ha) (by rw [h2]; exact hb) hab (show j < d by omega) gk
      exact ⟨ws, g', by rw [loop_succ, h1, Res.bind_ok, e1], e2.trans h2, e3, fun i => (e4 i k (by omega)).trans (h4 i)⟩
  obtain ⟨zs, gk, h1, h2, h3, h4⟩ := before k le_rfl
  have after : ∀ j, k + 1 ≤ j → j ≤ d → ∃ ys g', loop j (fun k t => convince r mu a b k t) (xs, g) = .ok (ys, g') ∧ ys.length = xs.length ∧ Dim d ys ∧
      (gk ∈ yields r mu → entry ys a k = entry xs b k ∧ entry ys b k = entry xs b k) ∧
      (gk ∉ yields r mu → entry ys a k = entry xs a k ∧ entry ys b k = entry xs a k) := by
    intro j hj
    induction j, hj using Nat.le_induction with
    | base =>
      intro _
      obtain ⟨ws, g', e1, e2, e3, -, -, e5, e6⟩ := convince_entry r mu h3 (by rw [h2]; exact ha) (by rw [h2]; exact hb) hab hk gk
      refine ⟨ws, g', by rw [loop_succ, h1, Res.bind_ok, e1], e2.trans h2, e3, fun hy => ?_, fun hy => ?_⟩
      · obtain ⟨e7, e8⟩ := e5 hy
        exact ⟨e7.trans (h4 b), (show entry ws b k = entry zs b k by rw [entry, e8, ← entry]).trans (h4 b)⟩
      · obtain ⟨e7, e8⟩ := e6 hy
        exact ⟨(show entry ws a k = entry zs a k by rw [entry, e7, ← entry]).trans (h4 a), e8.trans (h4 a)⟩
    | succ j hj ih =>
      intro hjd
      obtain ⟨ys, g', f1, f2, f3, f4, f5⟩ := ih (by omega)
      obtain ⟨ws, g'', e1, e2, e3, e4, -⟩ := convince_entry r mu f3 (by rw [f2]; exact ha) (by rw [f2]; exact hb) hab (show j < d by omega) g'
      refine ⟨ws, g'', by rw [loop_succ, f1, Res.bind_ok, e1], e2.trans f2, e3, fun hy => ?_, fun hy => ?_⟩
      · rw [e4 a k (by omega), e4 b k (by omega)]; exact f4 hy
      · rw [e4 a k (by omega), e4 b k (by omega)]; exact f5 hy
  obtain ⟨ys, g', f1, f2, f3, f4, f5⟩ := after d hk le_rfl
  exact ⟨zs, gk, ys, g', h1, by rw [(meetV_eq r θ mu hd ha hb g).1 hn, f1], f2, f3, f4, f5⟩

/-! ## renumbering -/

theorem rd_relabel {A : Type} {σ : Equiv.Perm ℕ} {xs xs' : List A} (h : Relabelled σ xs xs') (a : ℕ) : rd xs' (σ a) = rd xs a := by
  unfold rd
  rw [h.2]

theorem set_relabel {A : Type} {σ : Equiv.Perm ℕ} {xs xs' : List A} (h : Relabelled σ xs xs') (a : ℕ) (v : A) : Relabelled σ (xs.set a v) (xs'.set (σ a) v) := by
  refine ⟨by simp [h.1], fun i => ?_⟩
  rw [List.getElem?_set, List.getElem?_set]
  simp only [EmbeddingLike.apply_eq_iff_eq, h.1, h.lt_iff, h.2]

theorem wr_relabel {A : Type} {σ : Equiv.Perm ℕ} {xs xs' ys : List A} (h : Relabelled σ xs xs') {a : ℕ} {v : A} (hw : wr xs a v = .ok ys) :
    wr xs' (σ a) v = .ok (xs'.set (σ a) v) ∧ Relabelled σ ys (xs'.set (σ a) v) := by
  unfold wr at hw ⊢
  split at hw
  · rename_i ha
    cases hw
    rw [if_pos (by rw [h.1]; exact (h.lt_iff a).mpr ha)]
    exact ⟨rfl, set_relabel h a v⟩
  · cases hw

theorem convince_relabel (r : Rng G ℝ) (mu : ℝ) {σ : Equiv.Perm ℕ} (a b k : ℕ) {xs xs' : List DiscreteVectorAgent} (h : Relabelled σ xs xs') {g g' : G}
    {ys : List DiscreteVectorAgent} (hc : convince r mu a b k (xs, g) = .ok (ys, g')) :
    ∃ ys', Relabelled σ ys ys' ∧ convince r mu (σ a) (σ b) k (xs', g) = .ok (ys', g') := by
  unfold convince at hc ⊢
  dsimp only at hc ⊢
  rw [rd_relabel h, rd_relabel h]
  obtain ⟨x, h1, hc⟩ := Res.bind_eq_ok.mp hc
  obtain ⟨y, h2, hc⟩ := Res.bind_eq_ok.mp hc
  obtain ⟨xk, h3, hc⟩ := Res.bind_eq_ok.mp hc
  obtain ⟨yk, h4, hc⟩ := Res.bind_eq_ok.mp hc
  rw [h1, Res.bind_ok, h2, Res.bind_ok, h3, Res.bind_ok, h4, Res.bind_ok]
  by_cases hne : xk ≠ yk
  · rw [if_pos hne] at hc ⊢
    split at hc
    · rename_i hs
      rw [if_pos hs]
      split at hc
      · rename_i hm
        rw [if_pos hm]
        obtain ⟨op, h5, hc⟩ := Res.bind_eq_ok.mp hc
        obtain ⟨ag, h6, hc⟩ := Res.bind_eq_ok.mp hc
        cases hc
        obtain ⟨h7, h8⟩ := wr_relabel h h6
        exact ⟨_, h8, by rw [h5, Res.bind_ok, h7, Res.bind_ok]⟩
      · rename_i hm
        rw [if_neg hm]
        obtain ⟨op, h5, hc⟩ := Res.bind_eq_ok.mp hc
        obtain ⟨ag, h6, hc⟩ := Res.bind_eq_ok.mp hc
        cases hc
        obtain ⟨h7, h8⟩ := wr_relabel h h6
        exact ⟨_, h8, by rw [h5, Res.bind_ok, h7, Res.bind_ok]⟩
    · rename_i hs
      rw [if_neg hs]
      obtain ⟨op, h5, hc⟩ := Res.bind_eq_ok.mp hc
      obtain ⟨ag, h6, hc⟩ := Res.bind_eq_ok.mp hc
      cases hc
      obtain ⟨h7, h8⟩ := wr_relabel h h6
      exact ⟨_, h8, by rw [h5, Res.bind_ok, h7, Res.bind_ok]⟩
  · rw [if_neg hne] at hc ⊢
    cases hc
    exact ⟨xs', h, rfl⟩

theorem loop_relabel (r : Rng G ℝ) (mu : ℝ) {σ : Equiv.Perm ℕ} (a b : ℕ) {xs xs' : List DiscreteVectorAgent} (h : Relabelled σ xs xs') (n : ℕ) {g g' : G}
    {ys : List DiscreteVectorAgent} (hc : loop n (fun k t => convince r mu a b k t) (xs, g) = .ok (ys, g')) :
    ∃ ys', Relabelled σ ys ys' ∧ loop n (fun k t => convince r mu (σ a) (σ b) k t) (xs', g) = .ok (ys', g') := by
  induction n generalizing ys g' with
  | zero => cases hc; exact ⟨xs', h, rfl⟩
  | succ n ih =>
    rw [loop_succ] at hc
    obtain ⟨⟨zs, g''⟩, h1, h2⟩ := Res.bind_eq_ok.mp hc
    obtain ⟨zs', h3, h4⟩ := ih h1
    obtain ⟨ws', h5, h6⟩ := convince_relabel r mu a b n h3 h2
    exact ⟨ws', h5, by rw [loop_succ, h4, Res.bind_ok, h6]⟩

theorem meetV_relabel (r : Rng G ℝ) (θ mu : ℝ) {σ : Equiv.Perm ℕ} (a b : ℕ) {xs xs' : List DiscreteVectorAgent} (h : Relabelled σ xs xs') {g g' : G}
    {ys : List DiscreteVectorAgent} (hc : meetV r θ mu a b xs g = .ok (ys, g')) :
    ∃ ys', Relabelled σ ys ys' ∧ meetV r θ mu (σ a) (σ b) xs' g = .ok (ys', g') := by
  unfold meetV at hc ⊢
  rw [rd_relabel h, rd_relabel h]
  obtain ⟨x, h1, hc⟩ := Res.bind_eq_ok.mp hc
  obtain ⟨y, h2, hc⟩ := Res.bind_eq_ok.mp hc
  obtain ⟨dd, h3, hc⟩ := Res.bind_eq_ok.mp hc
  rw [h1, Res.bind_ok, h2, Res.bind_ok, h3, Res.bind_ok]
  split at hc
  · rename_i hs
    rw [if_pos hs]
    exact loop_relabel r mu a b h _ hc
  · rename_i hs
    rw [if_neg hs]
    cases hc
    exact ⟨xs', h, rfl⟩

/-- A meeting with the two agents exchanged has the same law if nobody is favoured. -/
theorem convince_swap {r : Rng G ℝ} [IsProbabilityMeasure μ] (hi : FairIntegers r μ) (hu : Draws r.unit uniform μ) {mu : ℝ} (hmu : mu ≤ 0)
    {a b k d : Nat} {xs : List DiscreteVectorAgent} (hd : Dim d xs) (ha : a < xs.length) (hb : b < xs.length) (hab : a ≠ b) (hk : k < d) (ys : List DiscreteVectorAgent) :
    μ (hits (fun g => convince r mu b a k (xs, g)) ys Set.univ) = μ (hits (fun g => convince r mu a b k (xs, g)) ys Set.univ) := by
  have hka : k < xs[a].opinion.length := by rw [hd _ (List.getElem_mem ha)]; exact hk
  have hkb : k < xs[b].opinion.length := by rw [hd _ (List.getElem_mem hb)]; exact hk
  by_cases hne : xs[a].opinion[k] = xs[b].opinion[k]
  · have e : ∀ g, convince r mu a b k (xs, g) = .ok (xs, g) := by
      intro g
      unfold convince
      rw [rd_lt ha, Res.bind_ok, rd_lt hb, Res.bind_ok, rd_lt hka, Res.bind_ok, rd_lt hkb, Res.bind_ok, if_neg (not_not.mpr hne)]
    have e' : ∀ g, convince r mu b a k (xs, g) = .ok (xs, g) := by
      intro g
      unfold convince
      rw [rd_lt hb, Res.bind_ok, rd_lt ha, Res.bind_ok, rd_lt hkb, Res.bind_ok, rd_lt hka, Res.bind_ok, if_neg (not_not.mpr hne.symm)]
    simp only [e, e']
  · let A : List DiscreteVectorAgent := xs.set a ⟨xs[a].opinion.set k xs[b].opinion[k]⟩
    let B : List DiscreteVectorAgent := xs.set b ⟨xs[b].opinion.set k xs[a].opinion[k]⟩
    have hAB : A ≠ B := by
      intro hc
      have := congrArg (fun l : List DiscreteVectorAgent => l[a]?) hc
      simp only [A, B] at this
      rw [List.getElem?_set_self (by simpa using ha), List.getElem?_set_ne (Ne.symm hab), List.getElem?_eq_getElem ha] at this
      have h2 := congrArg (fun o : DiscreteVectorAgent => o.opinion[k]?) (Option.some.inj this)
      simp only [List.getElem?_set_self hka, List.getElem?_eq_getElem hka, Option.some.injEq] at h2
      exact hne h2.symm
    have e1 : ∀ (a b : ℕ) (ha : a < xs.length) (hb : b < xs.length) (hka : k < xs[a].opinion.length) (hkb : k < xs[b].opinion.length)
        (hne : xs[a].opinion[k] ≠ xs[b].opinion[k]) (g : G),
        (g ∈ yields r mu → ∃ g', convince r mu a b k (xs, g) = .ok (xs.set a ⟨xs[a].opinion.set k xs[b].opinion[k]⟩, g')) ∧
        (g ∉ yields r mu → ∃ g', convince r mu a b k (xs, g) = .ok (xs.set b ⟨xs[b].opinion.set k xs[a].opinion[k]⟩, g')) := by
      intro a b ha hb hka hkb hne g
      rw [convince_eq r mu ha hb hka hkb hne g, Res.bind_ok]
      constructor
      · intro hy
        simp only [if_pos hy.1, Res.bind_ok, if_pos (decide_eq_true hy.2)]
        exact ⟨_, rfl⟩
      · intro hy
        by_cases hs : (r.int 0 1 g).1 = 0
        · have hc : ¬ mu < (r.unit (r.int 0 1 g).2).1 := fun hc => hy ⟨hs, hc⟩
          simp only [if_pos hs, Res.bind_ok, decide_eq_false hc, Bool.false_eq_true, if_false]
          exact ⟨_, rfl⟩
        · simp only [if_neg hs]
          exact ⟨_, rfl⟩
    have hset : ∀ (f : G → Res (List DiscreteVectorAgent × G)) (P Q : List DiscreteVectorAgent), (∀ g, (g ∈ yields r mu → ∃ g', f g = .ok (P, g')) ∧
        (g ∉ yields r mu → ∃ g', f g = .ok (Q, g'))) → P ≠ Q → hits f P Set.univ = yields r mu ∧ hits f Q Set.univ = (yields r mu)ᶜ ∧
          ∀ y, y ≠ P → y ≠ Q → hits f y Set.univ = ∅ := by
      intro f P Q hf hPQ
      have : ∀ y g, g ∈ hits f y Set.univ ↔ (g ∈ yields r mu ∧ P = y) ∨ (g ∉ yields r mu ∧ Q = y) := by
        intro y g
        by_cases hy : g ∈ yields r mu
        · obtain ⟨g', h1⟩ := (hf g).1 hy
          simp [hits, h1, hy]
        · obtain ⟨g', h1⟩ := (hf g).2 hy
          simp [hits, h1, hy]
      refine ⟨?_, ?_, ?_⟩
      · ext g; rw [this]; simp [hPQ.symm]
      · ext g; rw [this]; simp [hPQ]
      · intro y h1 h2
        ext g; rw [this]; simp [Ne.symm h1, Ne.symm h2]
    obtain ⟨p1, p2, p3⟩ := hset _ A B (e1 a b ha hb hka hkb hne) hAB
    obtain ⟨q1, q2, q3⟩ := hset _ B A (e1 b a hb ha hkb hka (Ne.symm hne)) hAB.symm
    obtain ⟨hm, hv⟩ := yields_law hi hu mu
    have hcompl : μ (yields r mu)ᶜ = μ (yields r mu) := by
      rw [measure_compl hm (measure_ne_top μ _), measure_univ, hv, uniform_low hmu]
      exact ENNReal.sub_half (by simp)
    by_cases hyA : ys = A
    · rw [hyA, p1, q2, hcompl]
    · by_cases hyB : ys = B
      · rw [hyB, p2, q1, hcompl]
      · rw [p3 ys hyA hyB, q3 ys hyB hyA]

theorem meetV_swap {r : Rng G ℝ} [IsProbabilityMeasure μ] (hi : FairIntegers r μ) (hu : Draws r.unit uniform μ) {θ mu : ℝ} (hmu : mu ≤ 0)
    {a b d : Nat} {xs : List DiscreteVectorAgent} (hd : Dim d xs) (ha : a < xs.length) (hb : b < xs.length) (hab : a ≠ b) (ys : List DiscreteVectorAgent) :
    μ (hits (meetV r θ mu b a xs) ys Set.univ) = μ (hits (meetV r θ mu a b xs) ys Set.univ) := by
  by_cases hn : Near d θ xs[a].opinion xs[b].opinion
  · rw [show meetV r θ mu a b xs = _ from funext fun g => (meetV_eq r θ mu hd ha hb g).1 hn,
      show meetV r θ mu b a xs = _ from funext fun g => (meetV_eq r θ mu hd hb ha g).1 (hn.symm _ _)]
    suffices h : ∀ m, m ≤ d → ∀ ys, μ (hits (fun g => loop m (fun k t => convince r mu b a k t) (xs, g)) ys Set.univ) =
        μ (hits (fun g => loop m (fun k t => convince r mu a b k t) (xs, g)) ys Set.univ) from h d le_rfl ys
    intro m
    induction m with
    | zero => intro _ ys; rfl
    | succ m ih =>
      intro hm ys
      have hinv : ∀ a b, a < xs.length → b < xs.length → ∀ (zs : List DiscreteVectorAgent) g g',
          loop m (fun k t => convince r mu a b k t) (xs, g) = .ok (zs, g') → zs.length = xs.length ∧ Dim d zs := by
        intro a b ha hb zs g g' h1
        obtain ⟨t', h2, h3, h4, -⟩ := loop_inv (n := m) (f := fun k t => convince r mu a b k t) (s := (xs, g))
          (fun k t' => t'.1.length = xs.length ∧ Dim d t'.1 ∧ True) ⟨rfl, hd, trivial⟩ (by
            rintro k u hk ⟨g1, g2, -⟩
            obtain ⟨u', v, e1, e2, e3, -⟩ := convince_ok r mu g2 (by rw [g1]; exact ha) (by rw [g1]; exact hb) (show k < d by omega)
            exact ⟨u', e1, e2.trans g1, e3, trivial⟩)
        rw [h2] at h1
        cases h1
        exact ⟨h3, h4⟩
      have hlaw : ∀ a b, a < xs.length → b < xs.length →
          μ (hits (fun g => loop (m + 1) (fun k t => convince r mu a b k t) (xs, g)) ys Set.univ) =
          ∑' zs, μ (hits (fun g => loop m (fun k t => convince r mu a b k t) (xs, g)) zs Set.univ) * μ (hits (fun g => convince r mu a b m (zs, g)) ys Set.univ) := by
        intro a b ha hb
        have e : (fun g => loop (m + 1) (fun k t => convince r mu a b k t) (xs, g)) =
            fun g => (fun g => loop m (fun k t => convince r mu a b k t) (xs, g)) g >>= fun p => (fun zs g => convince r mu a b m (zs, g)) p.1 p.2 := by
          funext g
          rw [loop_succ]
        rw [e]
        refine (Fresh.bind_law (h := fun zs g => convince r mu a b m (zs, g)) (convinceTo_fresh hi hu mu hd ha hb m (by omega)).1 ?_).2 ys
        intro zs g g' h1
        obtain ⟨h2, h3⟩ := hinv a b ha hb zs g g' h1
        exact (convince_fresh hi hu mu h3 (by rw [h2]; exact ha) (by rw [h2]; exact hb) (by omega)).1
      rw [hlaw a b ha hb, hlaw b a hb ha]
      refine tsum_congr fun zs => ?_
      rw [ih (by omega)]
      by_cases hz : ∃ g g', loop m (fun k t => convince r mu a b k t) (xs, g) = .ok (zs, g')
      · obtain ⟨g, g', hz⟩ := hz
        obtain ⟨h2, h3⟩ := hinv a b ha hb zs g g' hz
        rw [convince_swap hi hu hmu h3 (by rw [h2]; exact ha) (by rw [h2]; exact hb) hab (by omega)]
      · rw [Fresh.hits_never _ hz, measure_empty, zero_mul, zero_mul]
  · rw [show meetV r θ mu a b xs = _ from funext fun g => (meetV_eq r θ mu hd ha hb g).2 hn,
      show meetV r θ mu b a xs = _ from funext fun g => (meetV_eq r θ mu hd hb ha g).2 (fun hc => hn (hc.symm _ _))]

theorem meetV_rule {r : Rng G ℝ} [IsProbabilityMeasure μ] (hi : FairIntegers r μ) (hu : Draws r.unit uniform μ) (s : Deffuant DiscreteVectorAgent ℝ G) (d : ℕ) :
    Rule (updateVector r) s (meetV r s.threshold s.mu) (fun xs => xs.length = s.network.agents.length ∧ Dim d xs) μ where
  eq a b u hF _ _ := by rw [updateVector_eq, hF.threshold, hF.mu]
  size xs h := h.1
  fresh a b xs h ha hb := (meetV_fresh hi hu _ _ h.2 (by rw [h.1]; exact ha) (by rw [h.1]; exact hb)).1
  inv a b xs h ha hb g ys g' e := by
    obtain ⟨h1, h2, -⟩ := meetV_inv r _ _ h.2 (by rw [h.1]; exact ha) (by rw [h.1]; exact hb) e
    exact ⟨h1.trans h.1, h2⟩

end Deffuant
end Seldon
