import Verif.Spec.RelabelActivity
import Verif.Props.ContactLaw
import Verif.Lemmas.Relabel
/-!
# Helper lemmas: the numbering of the agents in the activity-driven models
-/
set_option linter.unusedSectionVars false
namespace Seldon
open Spec MeasureTheory
open scoped ENNReal
variable {A G : Type}

/-! ## arithmetic -/

namespace Spec.XR

theorem add_comm' (a b : XR) : a + b = b + a := by
  show add a b = add b a
  cases a <;> cases b <;> simp [add, _root_.add_comm]

theorem add_assoc' (a b c : XR) : a + b + c = a + (b + c) := by
  show add (add a b) c = add a (add b c)
  cases a <;> cases b <;> cases c <;> simp [add, _root_.add_assoc]

theorem add_right_comm' (a b c : XR) : a + b + c = a + c + b := by
  rw [add_assoc', add_comm' b c, ← add_assoc']

/-- A finite number. -/
def IsFin (x : XR) : Prop := ∃ r, x = fin r

/-- The number, 0 for the special values. -/
noncomputable def num : XR → ℝ
  | fin r => r
  | _ => 0

theorem IsFin.eq {x : XR} (h : IsFin x) : x = fin (num x) := by obtain ⟨r, rfl⟩ := h; rfl

theorem IsFin.add {x y : XR} (hx : IsFin x) (hy : IsFin y) : IsFin (x + y) := by
  obtain ⟨r, rfl⟩ := hx
  obtain ⟨q, rfl⟩ := hy
  exact ⟨_, add_fin r q⟩

theorem IsFin.sub {x y : XR} (hx : IsFin x) (hy : IsFin y) : IsFin (x - y) := by
  obtain ⟨r, rfl⟩ := hx
  obtain ⟨q, rfl⟩ := hy
  exact ⟨_, sub_fin r q⟩

theorem IsFin.mul {x y : XR} (hx : IsFin x) (hy : IsFin y) : IsFin (x * y) := by
  obtain ⟨r, rfl⟩ := hx
  obtain ⟨q, rfl⟩ := hy
  exact ⟨_, mul_fin r q⟩

theorem IsFin.neg {x : XR} (hx : IsFin x) : IsFin (-x) := by
  obtain ⟨r, rfl⟩ := hx
  exact ⟨_, neg_fin r⟩

theorem IsFin.div {x y : XR} (hx : IsFin x) (hy : IsFin y) (h0 : y ≠ 0) : IsFin (x / y) := by
  obtain ⟨r, rfl⟩ := hx
  obtain ⟨q, rfl⟩ := hy
  exact ⟨_, div_fin r q fun h => h0 (by rw [h]; rfl)⟩

theorem isFin_one : IsFin 1 := ⟨1, rfl⟩
theorem isFin_zero : IsFin 0 := ⟨0, rfl⟩
theorem isFin_nat (n : ℕ) : IsFin (n : XR) := ⟨n, rfl⟩
theorem nat_ne_zero {n : ℕ} (h : n ≠ 0) : (n : XR) ≠ 0 := by
  intro e
  rw [natCast_def, zero_def] at e
  have : (n : ℝ) = 0 := by injection e
  exact h (by exact_mod_cast this)

end Spec.XR

/-! ## the dynamics -/

theorem relabelled_attr {F : Type} [Zero F] (f : A → F) {σ : Equiv.Perm ℕ} {xs ys : List A} (h : Relabelled σ xs ys) (i : ℕ) : attr f ys (σ i) = attr f xs i := by
  simp only [attr, List.getD_eq_getElem?_getD, List.getElem?_map, h.2]

/-- The rows of `M` are those of `N` in another numbering, in any order. -/
def RowsPerm (σ : Equiv.Perm ℕ) (N M : Network A XR) : Prop := ∀ i, (row M (σ i)).Perm ((row N i).map fun e => (σ e.1, e.2))

section
variable [ActiveAgent A XR] {o : MathOps XR} {σ : Equiv.Perm ℕ} {p p' : ActivitySettings XR} {N M : Network A XR}

theorem slope_relabel (hK : p'.K = p.K) (ha : p'.alpha = p.alpha) (hag : Relabelled σ N.agents M.agents) (hrows : RowsPerm σ N M) {x x' : ℕ → XR}
    (hx : ∀ i, x' (σ i) = x i) (i : ℕ) : Activity.slope o p' M x' (σ i) = Activity.slope o p N x i := by
  unfold Activity.slope
  rw [(hrows i).foldl_eq' (fun a _ b _ acc => XR.add_right_comm' acc _ _), List.foldl_map]
  simp only [hx, hK, ha, relabelled_attr _ hag]

theorem rkOpinion_relabel (hK : p'.K = p.K) (ha : p'.alpha = p.alpha) (hdt : p'.dt = p.dt) (hag : Relabelled σ N.agents M.agents) (hrows : RowsPerm σ N M)
    (i : ℕ) (x : XR) : Activity.rkOpinion o p' M (σ i) x = Activity.rkOpinion o p N i x := by
  have h1 : ∀ i, Activity.stage1 o p' M (σ i) = Activity.stage1 o p N i :=
    fun i => slope_relabel hK ha hag hrows (fun j => relabelled_attr _ hag j) i
  have h2 : ∀ i, Activity.stage2 o p' M (σ i) = Activity.stage2 o p N i :=
    fun i => slope_relabel hK ha hag hrows (fun j => by rw [relabelled_attr _ hag, h1, hdt]) i
  have h3 : ∀ i, Activity.stage3 o p' M (σ i) = Activity.stage3 o p N i :=
    fun i => slope_relabel hK ha hag hrows (fun j => by rw [relabelled_attr _ hag, h2, hdt]) i
  have h4 : ∀ i, Activity.stage4 o p' M (σ i) = Activity.stage4 o p N i :=
    fun i => slope_relabel hK ha hag hrows (fun j => by rw [relabelled_attr _ hag, h3, hdt]) i
  unfold Activity.rkOpinion
  rw [h1, h2, h3, h4, hdt]

/-- A list changed entry by entry, in another numbering. -/
theorem relabelled_mapIdx {B : Type} {xs ys : List A} (h : Relabelled σ xs ys) {f f' : ℕ → A → B} (hf : ∀ i a, i < xs.length → f' (σ i) a = f i a) :
    Relabelled σ (xs.mapIdx f) (ys.mapIdx f') := by
  refine ⟨by simp [h.1], fun i => ?_⟩
  rw [List.getElem?_mapIdx, List.getElem?_mapIdx, h.2]
  by_cases hi : i < xs.length
  · rw [List.getElem?_eq_getElem hi]
    simp [hf i _ hi]
  · rw [List.getElem?_eq_none (by omega)]; rfl

theorem getD_of_getElem? {α : Type} {l l' : List α} {i j : ℕ} {d : α} (h : l'[j]? = l[i]?) : l'.getD j d = l.getD i d := by
  rw [List.getD_eq_getElem?_getD, List.getD_eq_getElem?_getD, h]

theorem Spec.RelabelledSettings.eqs {p p' : ActivitySettings XR} (h : RelabelledSettings σ p p') : p'.K = p.K ∧ p'.alpha = p.alpha ∧ p'.dt = p.dt ∧ p'.nBots = p.nBots ∧
    p'.m = p.m ∧ p'.homophily = p.homophily ∧ p'.reciprocity = p.reciprocity ∧ p'.meanWeights = p.meanWeights := by
  have := h.rest
  generalize hb1 : p'.botM = b1 at this
  generalize hb2 : p'.botActivity = b2 at this
  generalize hb3 : p'.botOpinion = b3 at this
  generalize hb4 : p'.botHomophily = b4 at this
  rw [this]
  exact ⟨rfl, rfl, rfl, rfl, rfl, rfl, rfl, rfl⟩

theorem Spec.RelabelledSettings.contacts (h : RelabelledSettings σ p p') (i : ℕ) : contactsOf p' (σ i) = contactsOf p i := by
  obtain ⟨-, -, -, e4, e5, -⟩ := h.eqs
  unfold contactsOf
  rw [e4, e5]
  by_cases hi : i < p.nBots
  · rw [if_pos hi, if_pos ((h.bots i).mpr hi), getD_of_getElem? (h.botM i hi)]
  · rw [if_neg hi, if_neg fun hc => hi ((h.bots i).mp hc)]

theorem Spec.RelabelledSettings.homophily (h : RelabelledSettings σ p p') (i : ℕ) : homophilyFor p' (σ i) = homophilyFor p i := by
  obtain ⟨-, -, -, e4, -, e6, -⟩ := h.eqs
  unfold homophilyFor
  rw [e4, e6]
  by_cases hi : i < p.nBots
  · rw [if_pos hi, if_pos ((h.bots i).mpr hi), getD_of_getElem? (h.botHomophily i hi)]
  · rw [if_neg hi, if_neg fun hc => hi ((h.bots i).mp hc)]

/-- The agents after the Runge-Kutta step on the network `N`. -/
noncomputable def rkAgents (o : MathOps XR) (p : ActivitySettings XR) (N : Network A XR) : List A := N.agents.mapIdx fun i a =>
  if i < p.nBots then ActiveAgent.setOpinion (p.botOpinion.getD i 0) (ActiveAgent.setOpinion (Activity.rkOpinion o p N i (ActiveAgent.opinion a)) a)
  else ActiveAgent.setOpinion (Activity.rkOpinion o p N i (ActiveAgent.opinion a)) a

theorem rkAgents_relabel (h : RelabelledSettings σ p p') (hag : Relabelled σ N.agents M.agents) (hrows : RowsPerm σ N M) :
    Relabelled σ (rkAgents o p N) (rkAgents o p' M) := by
  obtain ⟨e1, e2, e3, e4, -⟩ := h.eqs
  refine relabelled_mapIdx hag fun i a _ => ?_
  rw [rkOpinion_relabel e1 e2 e3 hag hrows, e4]
  by_cases hi : i < p.nBots
  · rw [if_pos hi, if_pos ((h.bots i).mpr hi), getD_of_getElem? (h.botOpinion i hi)]
  · rw [if_neg hi, if_neg fun hc => hi ((h.bots i).mp hc)]

end

section
variable {o : MathOps XR} {σ : Equiv.Perm ℕ} {p p' : ActivitySettings XR} {c : XR} {N M : Network (InertialAgent XR) XR}

/-- The agents after the Verlet step on the network `N`. -/
noncomputable def verletAgents (o : MathOps XR) (p : ActivitySettings XR) (c : XR) (N : Network (InertialAgent XR) XR) : List (InertialAgent XR) := N.agents.mapIdx fun i a =>
  if i < p.nBots then { Inertial.kicked o p c N i a with opinion := p.botOpinion.getD i 0 } else Inertial.kicked o p c N i a

theorem verletAgents_relabel (h : RelabelledSettings σ p p') (hag : Relabelled σ N.agents M.agents) (hrows : RowsPerm σ N M) :
    Relabelled σ (verletAgents o p c N) (verletAgents o p' c M) := by
  obtain ⟨e1, e2, e3, e4, -⟩ := h.eqs
  have h1 : ∀ i a, Inertial.moved o p' c M (σ i) a = Inertial.moved o p c N i a := by
    intro i a
    unfold Inertial.moved
    rw [slope_relabel e1 e2 hag hrows (fun j => relabelled_attr _ hag j), e3]
  have h2 : Relabelled σ (Inertial.movedNet o p c N).agents (Inertial.movedNet o p' c M).agents := relabelled_mapIdx hag fun i a _ => h1 i a
  have h3 : ∀ i a, Inertial.kicked o p' c M (σ i) a = Inertial.kicked o p c N i a := by
    intro i a
    unfold Inertial.kicked
    rw [h1, slope_relabel e1 e2 hag hrows (fun j => relabelled_attr _ hag j),
      slope_relabel e1 e2 h2 (M := Inertial.movedNet o p' c M) (N := Inertial.movedNet o p c N) hrows (fun j => relabelled_attr _ h2 j), e3]
  refine relabelled_mapIdx hag fun i a _ => ?_
  rw [h3, e4]
  by_cases hi : i < p.nBots
  · rw [if_pos hi, if_pos ((h.bots i).mpr hi), getD_of_getElem? (h.botOpinion i hi)]
  · rw [if_neg hi, if_neg fun hc => hi ((h.bots i).mp hc)]

end

/-! ## the law of the network -/

theorem sublist_filter {α : Type} [DecidableEq α] {k l : List α} (h : k.Sublist l) (hl : l.Nodup) : l.filter (· ∈ k) = k := by
  have h1 : (l.filter (· ∈ k)).Perm k := by
    rw [List.perm_ext_iff_of_nodup (hl.filter _) (hl.sublist h)]
    intro a
    simp only [List.mem_filter, decide_eq_true_eq]
    exact ⟨fun h => h.2, fun ha => ⟨h.subset ha, ha⟩⟩
  have h2 : k.Sublist (l.filter (· ∈ k)) := by
    have := h.filter (· ∈ k)
    rwa [List.filter_eq_self.mpr (fun a ha => by simpa using ha)] at this
  exact (h2.eq_of_length h1.length_eq.symm).symm

theorem successive_relabel (σ : Equiv.Perm ℕ) {w w' : ℕ → ℝ} (hw : ∀ j, w' (σ j) = w j) (t : List ℕ) (S : Finset ℕ) :
    successive w' (S.map σ.toEmbedding) (t.map σ) = successive w S t := by
  induction t generalizing S with
  | nil => rfl
  | cons i t ih =>
    rw [List.map_cons, successive, successive, Finset.sum_map]
    simp only [Equiv.coe_toEmbedding, Finset.mem_map_equiv, Equiv.symm_apply_apply, hw]
    split
    · rw [← ih]
      congr 2
      exact (Finset.map_erase σ.toEmbedding S i).symm
    · rfl

theorem range_relabel {σ : Equiv.Perm ℕ} {n : ℕ} (hσ : ∀ i, σ i < n ↔ i < n) : (Finset.range n).map σ.toEmbedding = Finset.range n := by
  ext i
  rw [Finset.mem_map_equiv, Finset.mem_range, Finset.mem_range, ← hσ, Equiv.apply_symm_apply]

theorem contactLaw_relabel {σ : Equiv.Perm ℕ} {n : ℕ} (hσ : ∀ i, σ i < n ↔ i < n) (a : ℝ) {w w' : ℕ → ℝ} (hw : ∀ j, w' (σ j) = w j) (b : List ℕ) :
    contactLaw a w' n (b.map σ) = contactLaw a w n b := by
  unfold contactLaw
  rw [← List.map_reverse, ← successive_relabel σ hw, range_relabel hσ]
  simp only [List.map_eq_nil_iff]

/-- The contacts of agent `σ i` are those of agent `i`, renamed. -/
def renameContacts (σ : Equiv.Perm ℕ) {n : ℕ} (hσ : ∀ i, σ i < n ↔ i < n) (d : Fin n → List ℕ) (i : Fin n) : List ℕ :=
  (d ⟨σ.symm i, by rw [← hσ, Equiv.apply_symm_apply]; exact i.2⟩).map σ

theorem fromFin_rename (σ : Equiv.Perm ℕ) {n : ℕ} (hσ : ∀ i, σ i < n ↔ i < n) (d : Fin n → List ℕ) (i : ℕ) :
    fromFin (renameContacts σ hσ d) (σ i) = (fromFin d i).map σ := by
  unfold fromFin
  by_cases hi : i < n
  · rw [dif_pos hi, dif_pos ((hσ i).mpr hi)]
    simp [renameContacts]
  · rw [dif_neg hi, dif_neg fun hc => hi ((hσ i).mp hc)]; rfl

theorem mem_oneWay_rename (σ : Equiv.Perm ℕ) {n : ℕ} (hσ : ∀ i, σ i < n ↔ i < n) (d : Fin n → List ℕ) (i j : ℕ) :
    (σ i, σ j) ∈ oneWay n (fromFin (renameContacts σ hσ d)) ↔ (i, j) ∈ oneWay n (fromFin d) := by
  rw [Activity.mem_oneWay, Activity.mem_oneWay, fromFin_rename, fromFin_rename, hσ, List.mem_map_of_injective σ.injective, List.mem_map_of_injective σ.injective]

/-- The outcome `z` in another numbering. -/
def renameOutcome (σ : Equiv.Perm ℕ) {n : ℕ} (hσ : ∀ i, σ i < n ↔ i < n) (z : Σ _ : Fin n → List ℕ, List (ℕ × ℕ)) : Σ _ : Fin n → List ℕ, List (ℕ × ℕ) :=
  ⟨renameContacts σ hσ z.1, (oneWay n (fromFin (renameContacts σ hσ z.1))).filter fun e => (σ.symm e.1, σ.symm e.2) ∈ z.2⟩

theorem nodup_outcome {n : ℕ} {k : ℕ → ℕ} {d : Fin n → List ℕ} (h : ∀ i, i < n → Choice n (k i) (fromFin d i)) : (oneWay n (fromFin d)).Nodup := by
  refine Activity.nodup_oneWay fun i => ?_
  by_cases hi : i < n
  · rcases h i hi with e | ⟨-, e, -⟩
    · rw [e]; exact List.nodup_nil
    · exact e
  · rw [fromFin, dif_neg hi]; exact List.nodup_nil

theorem rename_mem {σ : Equiv.Perm ℕ} {n : ℕ} (hσ : ∀ i, σ i < n ↔ i < n) {k k' : ℕ → ℕ} (hk : ∀ i, k' (σ i) = k i)
    {z : Σ _ : Fin n → List ℕ, List (ℕ × ℕ)} (hz : z ∈ outcomes n k) : renameOutcome σ hσ z ∈ outcomes n k' := by
  obtain ⟨d, kept⟩ := z
  obtain ⟨h1, h2⟩ := mem_outcomes.mp hz
  refine mem_outcomes.mpr ⟨fun i hi => ?_, List.filter_sublist⟩
  obtain ⟨j, rfl⟩ := σ.surjective i
  rw [fromFin_rename, hk]
  rcases h1 j ((hσ j).mp hi) with e | ⟨e1, e2, e3⟩
  · exact Or.inl (by rw [e]; rfl)
  · refine Or.inr ⟨by simpa using e1, e2.map σ.injective, fun b hb => ?_⟩
    obtain ⟨c, hc, rfl⟩ := List.mem_map.mp hb
    exact (hσ c).mpr (e3 c hc)

theorem mem_rename_kept {σ : Equiv.Perm ℕ} {n : ℕ} (hσ : ∀ i, σ i < n ↔ i < n) {k : ℕ → ℕ}
    {z : Σ _ : Fin n → List ℕ, List (ℕ × ℕ)} (hz : z ∈ outcomes n k) (i j : ℕ) : (σ i, σ j) ∈ (renameOutcome σ hσ z).2 ↔ (i, j) ∈ z.2 := by
  obtain ⟨d, kept⟩ := z
  obtain ⟨h1, h2⟩ := mem_outcomes.mp hz
  simp only [renameOutcome, List.mem_filter, decide_eq_true_eq, Equiv.symm_apply_apply]
  rw [mem_oneWay_rename]
  exact ⟨fun h => h.2, fun h => ⟨h2.subset h, h⟩⟩

theorem rename_injOn {σ : Equiv.Perm ℕ} {n : ℕ} (hσ : ∀ i, σ i < n ↔ i < n) {k : ℕ → ℕ} :
    Set.InjOn (renameOutcome σ hσ) (outcomes n k : Set (Σ _ : Fin n → List ℕ, List (ℕ × ℕ))) := by
  rintro z hz z' hz' e
  have hd : z.1 = z'.1 := by
    have e1 : renameContacts σ hσ z.1 = renameContacts σ hσ z'.1 := congrArg Sigma.fst e
    funext i
    have h1 := fromFin_rename σ hσ z.1 i
    rw [e1, fromFin_rename] at h1
    have h2 := List.map_injective_iff.mpr σ.injective h1
    simpa [fromFin] using h2.symm
  have hk : ∀ e, e ∈ z.2 ↔ e ∈ z'.2 := by
    rintro ⟨i, j⟩
    rw [← mem_rename_kept hσ hz, ← mem_rename_kept hσ hz', e]
  obtain ⟨d, kept⟩ := z
  obtain ⟨d', kept'⟩ := z'
  obtain rfl : d = d' := hd
  obtain ⟨h1, h2⟩ := mem_outcomes.mp hz
  obtain ⟨-, h2'⟩ := mem_outcomes.mp hz'
  have hn := nodup_outcome h1
  have : kept = kept' := by
    rw [← sublist_filter h2 hn, ← sublist_filter h2' hn]
    refine List.filter_congr fun e _ => ?_
    simp only [decide_eq_decide]
    exact hk e
  rw [this]

theorem keepLaw_relabel {σ : Equiv.Perm ℕ} {n : ℕ} (hσ : ∀ i, σ i < n ↔ i < n) {k k' : ℕ → ℕ} (hk : ∀ i, k' (σ i) = k i) (q : ℝ)
    {z : Σ _ : Fin n → List ℕ, List (ℕ × ℕ)} (hz : z ∈ outcomes n k) :
    keepLaw q (oneWay n (fromFin (renameOutcome σ hσ z).1)) (renameOutcome σ hσ z).2 = keepLaw q (oneWay n (fromFin z.1)) z.2 := by
  have hn := nodup_outcome (mem_outcomes.mp (show ⟨z.1, z.2⟩ ∈ outcomes n k from hz)).1
  have hn' := nodup_outcome (mem_outcomes.mp (show ⟨(renameOutcome σ hσ z).1, (renameOutcome σ hσ z).2⟩ ∈ outcomes n k' from rename_mem hσ hk hz)).1
  have hinj : Function.Injective fun e : ℕ × ℕ => (σ e.1, σ e.2) := fun a b h => by
    obtain ⟨h1, h2⟩ := Prod.mk.inj h
    exact Prod.ext (σ.injective h1) (σ.injective h2)
  have hp : (oneWay n (fromFin (renameOutcome σ hσ z).1)).Perm ((oneWay n (fromFin z.1)).map fun e => (σ e.1, σ e.2)) := by
    rw [List.perm_ext_iff_of_nodup hn' (hn.map hinj)]
    rintro ⟨a, b⟩
    obtain ⟨i, rfl⟩ := σ.surjective a
    obtain ⟨j, rfl⟩ := σ.surjective b
    rw [show (renameOutcome σ hσ z).1 = renameContacts σ hσ z.1 from rfl, mem_oneWay_rename]
    exact (List.mem_map_of_injective hinj (a := (i, j))).symm
  unfold keepLaw
  rw [(hp.map _).prod_eq, List.map_map]
  congr 1
  refine List.map_congr_left fun e _ => ?_
  simp only [Function.comp, mem_rename_kept hσ hz]

open scoped Classical in
/-- The probability that among `n` agents exactly those with `R i j` have the edge from `i` to `j`; agent `i` contacts `k i` agents. -/
noncomputable def netChance (n : ℕ) (k : ℕ → ℕ) (a : ℕ → ℝ) (w : ℕ → ℕ → ℝ) (q : ℝ) (R : ℕ → ℕ → Prop) : ℝ≥0∞ :=
  ∑ z ∈ outcomes n k with ∀ i j : Fin n, ((j : ℕ) ∈ z.1 i ∨ ((j : ℕ), (i : ℕ)) ∈ z.2) ↔ R i j,
    ENNReal.ofReal ((∏ i : Fin n, contactLaw (a i) (w i) n (z.1 i)) * keepLaw q (oneWay n (fromFin z.1)) z.2)

theorem netChance_le {σ : Equiv.Perm ℕ} {n : ℕ} (hσ : ∀ i, σ i < n ↔ i < n) {k k' : ℕ → ℕ} (hk : ∀ i, k' (σ i) = k i) {a a' : ℕ → ℝ} (ha : ∀ i, a' (σ i) = a i)
    {w w' : ℕ → ℕ → ℝ} (hw : ∀ i j, w' (σ i) (σ j) = w i j) (q : ℝ) {R R' : ℕ → ℕ → Prop} (hR : ∀ i j, i < n → j < n → (R' (σ i) (σ j) ↔ R i j)) :
    netChance n k a w q R ≤ netChance n k' a' w' q R' := by
  classical
  unfold netChance
  rw [show (∑ z ∈ outcomes n k with ∀ i j : Fin n, ((j : ℕ) ∈ z.1 i ∨ ((j : ℕ), (i : ℕ)) ∈ z.2) ↔ R i j,
      ENNReal.ofReal ((∏ i : Fin n, contactLaw (a i) (w i) n (z.1 i)) * keepLaw q (oneWay n (fromFin z.1)) z.2)) =
    ∑ z ∈ outcomes n k with ∀ i j : Fin n, ((j : ℕ) ∈ z.1 i ∨ ((j : ℕ), (i : ℕ)) ∈ z.2) ↔ R i j,
      ENNReal.ofReal ((∏ i : Fin n, contactLaw (a' i) (w' i) n ((renameOutcome σ hσ z).1 i)) *
        keepLaw q (oneWay n (fromFin (renameOutcome σ hσ z).1)) (renameOutcome σ hσ z).2) from ?_]
  · have hinj : Set.InjOn (renameOutcome σ hσ) ((outcomes n k).filter fun z => ∀ i j : Fin n, ((j : ℕ) ∈ z.1 i ∨ ((j : ℕ), (i : ℕ)) ∈ z.2) ↔ R i j) :=
      (rename_injOn hσ).mono (by
        intro z hz
        exact (Finset.mem_filter.mp hz).1)
    rw [← Finset.sum_image (f := fun z => ENNReal.ofReal ((∏ i : Fin n, contactLaw (a' i) (w' i) n (z.1 i)) * keepLaw q (oneWay n (fromFin z.1)) z.2)) hinj]
    refine Finset.sum_le_sum_of_subset ?_
    intro y hy
    obtain ⟨z, hz, rfl⟩ := Finset.mem_image.mp hy
    obtain ⟨h1, h2⟩ := Finset.mem_filter.mp hz
    refine Finset.mem_filter.mpr ⟨rename_mem hσ hk h1, ?_⟩
    rintro ⟨i, hi⟩ ⟨j, hj⟩
    obtain ⟨i, rfl⟩ := σ.surjective i
    obtain ⟨j, rfl⟩ := σ.surjective j
    have hi' := (hσ i).mp hi
    have hj' := (hσ j).mp hj
    have := h2 ⟨i, hi'⟩ ⟨j, hj'⟩
    rw [hR i j hi' hj', ← this]
    dsimp only
    rw [mem_rename_kept hσ h1]
    have e : (renameOutcome σ hσ z).1 ⟨σ i, hi⟩ = (z.1 ⟨i, hi'⟩).map σ := by
      simp [renameOutcome, renameContacts]
    rw [e, List.mem_map_of_injective σ.injective]
  · refine Finset.sum_congr rfl fun z hz => ?_
    rw [keepLaw_relabel hσ hk q (Finset.mem_filter.mp hz).1]
    congr 2
    refine Fintype.prod_bijective (fun i : Fin n => (⟨σ i, (hσ i).mpr i.2⟩ : Fin n)) ?_ _ _ fun i => ?_
    · refine Finite.injective_iff_bijective.mp fun i j h => ?_
      have : σ i = σ j := congrArg Fin.val h
      exact Fin.ext (σ.injective this)
    · have e : (renameOutcome σ hσ z).1 ⟨σ i, (hσ i).mpr i.2⟩ = (z.1 i).map σ := by
        simp [renameOutcome, renameContacts]
      rw [e]
      dsimp only
      rw [ha, contactLaw_relabel hσ _ (hw i)]

theorem netChance_relabel {σ : Equiv.Perm ℕ} {n : ℕ} (hσ : ∀ i, σ i < n ↔ i < n) {k k' : ℕ → ℕ} (hk : ∀ i, k' (σ i) = k i) {a a' : ℕ → ℝ}
    (ha : ∀ i, a' (σ i) = a i) {w w' : ℕ → ℕ → ℝ} (hw : ∀ i j, w' (σ i) (σ j) = w i j) (q : ℝ) {R R' : ℕ → ℕ → Prop}
    (hR : ∀ i j, i < n → j < n → (R' (σ i) (σ j) ↔ R i j)) : netChance n k' a' w' q R' = netChance n k a w q R := by
  have hσ' : ∀ i, σ.symm i < n ↔ i < n := fun i => by rw [← hσ, Equiv.apply_symm_apply]
  refine le_antisymm (netChance_le (σ := σ.symm) hσ' ?_ ?_ ?_ q ?_) (netChance_le hσ hk ha hw q hR)
  · intro i; rw [← hk, Equiv.apply_symm_apply]
  · intro i; rw [← ha, Equiv.apply_symm_apply]
  · intro i j; rw [← hw, Equiv.apply_symm_apply, Equiv.apply_symm_apply]
  · intro i j hi hj
    rw [← hR _ _ ((hσ' i).mpr hi) ((hσ' j).mpr hj), Equiv.apply_symm_apply, Equiv.apply_symm_apply]

end Seldon
