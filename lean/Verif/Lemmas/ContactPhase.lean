import Verif.Lemmas.ContactLaw
/-!
# Helper lemmas: the law of one network update
-/
namespace Seldon
open Spec MeasureTheory
open scoped ENNReal
variable {A G : Type}

/-- What can be in the contact buffer when agent `i` has its turn, if the agents contact `c`. -/
def lastContacts (c : ℕ → List ℕ) : ℕ → List ℕ
  | 0 => []
  | i + 1 => if c i = [] then lastContacts c i else c i

section
variable [ActiveAgent A XR]

/-- The turn of agent `i`: it contacts `c i`. -/
def Turn (o : MathOps XR) (pick : List (ℕ × XR) → ℕ) (r : Rng G XR) (p : ActivitySettings XR) (agents : List A) (a : ℝ) (c : ℕ → List ℕ) (i : ℕ)
    (g g' : G) : Prop :=
  (c i ≠ [] ∧ (r.unit g).1 < XR.fin a ∧ Reservoir.sample o.toOps pick r (contactsOf p i).toNat agents.length
    (Activity.weight o (homophilyFor p i) agents i) (lastContacts c i) (r.unit g).2 = .ok (c i, g')) ∨
  (c i = [] ∧ ¬ (r.unit g).1 < XR.fin a ∧ g' = (r.unit g).2)

/-- The agents `b` could be contacted by an agent that contacts `k` of `n` agents. -/
def Choice (n k : ℕ) (b : List ℕ) : Prop := b = [] ∨ (b.length = k ∧ b.Nodup ∧ ∀ j ∈ b, j < n)

variable {o : MathOps XR} {pick : List (ℕ × XR) → ℕ} {r : Rng G XR} {p : ActivitySettings XR} {agents : List A} {x a h : ℕ → ℝ} {q : ℝ} {c : ℕ → List ℕ}

theorem phase_of_turns (hn : Numbers p agents x a h q) {gs : ℕ → G}
    (ht : ∀ i, i < agents.length → Turn o pick r p agents (a i) c i (gs i) (gs (i + 1))) : ContactPhase o pick r p agents gs (lastContacts c) c := by
  refine ⟨rfl, fun i hi hA => ?_, fun i hi hA => ?_⟩
  · unfold Activated at hA
    rw [hn.activity i hi] at hA
    rcases ht i hi with ⟨h1, -, h3⟩ | ⟨-, h2, -⟩
    · exact ⟨by simp [lastContacts, h1], h3⟩
    · exact absurd hA h2
  · unfold Activated at hA
    rw [hn.activity i hi] at hA
    rcases ht i hi with ⟨-, h2, -⟩ | ⟨h1, -, h3⟩
    · exact absurd h2 hA
    · exact ⟨by simp [lastContacts, h1], h1, h3⟩

/-- The contacts are determined by the state of the generator. -/
theorem phase_unique {gs gs' : ℕ → G} {buf buf' c c' : ℕ → List ℕ} (h1 : ContactPhase o pick r p agents gs buf c)
    (h2 : ContactPhase o pick r p agents gs' buf' c') (h0 : gs 0 = gs' 0) :
    (∀ i, i ≤ agents.length → gs i = gs' i ∧ buf i = buf' i) ∧ ∀ i, i < agents.length → c i = c' i := by
  have step : ∀ i, i < agents.length → gs i = gs' i → buf i = buf' i → gs (i + 1) = gs' (i + 1) ∧ buf (i + 1) = buf' (i + 1) ∧ c i = c' i := by
    intro i hi hg hb
    by_cases hA : Activated r agents[i] (gs i)
    · obtain ⟨e1, e2⟩ := h1.active i hi hA
      obtain ⟨e3, e4⟩ := h2.active i hi (hg ▸ hA)
      rw [hg, hb, e4] at e2
      obtain ⟨e5, e6⟩ := Prod.mk.inj (Except.ok.inj e2)
      exact ⟨e6.symm, by rw [e1, e3, e5], e5.symm⟩
    · obtain ⟨e1, e2, e3⟩ := h1.passive i hi hA
      obtain ⟨e4, e5, e6⟩ := h2.passive i hi (hg ▸ hA)
      exact ⟨by rw [e3, e6, hg], by rw [e1, e4, hb], by rw [e2, e5]⟩
  have all : ∀ i, i ≤ agents.length → gs i = gs' i ∧ buf i = buf' i := by
    intro i
    induction i with
    | zero => intro _; exact ⟨h0, by rw [h1.empty, h2.empty]⟩
    | succ i ih =>
      intro hi
      obtain ⟨e1, e2⟩ := ih (by omega)
      exact ⟨(step i (by omega) e1 e2).1, (step i (by omega) e1 e2).2.1⟩
  exact ⟨all, fun i hi => (step i hi (all i hi.le).1 (all i hi.le).2).2.2⟩

variable [MeasurableSpace G] {μ : Measure G} [IsProbabilityMeasure μ]

/-- One agent. -/
theorem turn_lower (hr : DrawsUniform r μ) (hp : Reservoir.Pick.Min pick) (ho : o.toOps = XR.ops) (hn : Numbers p agents x a h q) {i : ℕ}
    (hi : i < agents.length) (hm : 0 < contactsOf p i) (hm' : contactsOf p i < agents.length)
    (hc : Choice agents.length (contactsOf p i).toNat (c i)) {T : Set G} (hT : MeasurableSet T) :
    ∃ S : Set G, MeasurableSet S ∧ S ⊆ {g | ∃ g' ∈ T, Turn o pick r p agents (a i) c i g g'} ∧
      ENNReal.ofReal (contactLaw (a i) (contactWeight (h i) x i) agents.length (c i)) * μ T ≤ μ S := by
  obtain ⟨u, hu, hru⟩ := hr
  by_cases h0 : c i = []
  · obtain ⟨e1, e2⟩ := draw_not_lt hu hru (a i) hT
    refine ⟨_, e1, ?_, ?_⟩
    · rintro g ⟨h1, h2⟩
      exact ⟨_, h2, Or.inr ⟨h0, h1, rfl⟩⟩
    · rw [e2, contactLaw, if_pos h0]
  · obtain ⟨h1, h2, h3⟩ := hc.resolve_left h0
    obtain ⟨S, hS, hSs, hSμ⟩ := Reservoir.sample_lower ⟨u, hu, hru⟩ hp (w := contactWeight (h i) x i) (n := agents.length) (fun j _ => contactWeight_nonneg)
      (fun j _ j' _ e e' => by
        have e1 : j = i := by by_contra hne; exact (contactWeight_pos hne).ne' e
        have e2 : j' = i := by by_contra hne; exact (contactWeight_pos hne).ne' e'
        rw [e1, e2]) (k := (contactsOf p i).toNat) (by omega) (by omega) (lastContacts c i) h1 h2 h3 hT
    obtain ⟨e1, e2⟩ := draw_lt hu hru (a i) hS
    refine ⟨_, e1, ?_, ?_⟩
    · rintro g ⟨h4, h5⟩
      obtain ⟨g', hg', h6⟩ := hSs h5
      refine ⟨g', hg', Or.inl ⟨h0, h4, ?_⟩⟩
      rw [← h6, ho]
      exact Reservoir.sample_congr XR.ops pick r (fun j hj => hn.weight ho hi hj) _ _
    · rw [e2, contactLaw, if_neg h0, ENNReal.ofReal_mul (clip_nonneg _), mul_assoc]
      exact mul_le_mul_right hSμ _

theorem contactLaw_nonneg (a h : ℝ) (i n : ℕ) (b : List ℕ) : 0 ≤ contactLaw a (contactWeight h x i) n b := by
  unfold contactLaw
  split
  · linarith [clip_le_one a]
  · exact mul_nonneg (clip_nonneg a) (Keys.successive_nonneg _ (fun j _ => contactWeight_nonneg) _)

/-- The agents from `j` on. -/
theorem turns_lower (hr : DrawsUniform r μ) (hp : Reservoir.Pick.Min pick) (ho : o.toOps = XR.ops) (hn : Numbers p agents x a h q)
    (hm : ∀ i, i < agents.length → 0 < contactsOf p i ∧ contactsOf p i < agents.length)
    (hc : ∀ i, i < agents.length → Choice agents.length (contactsOf p i).toNat (c i)) {T : Set G} (hT : MeasurableSet T) {k j : ℕ} (hk : j + k = agents.length) :
    ∃ S : Set G, MeasurableSet S ∧
      S ⊆ {g | ∃ gs : ℕ → G, gs j = g ∧ (∀ i, j ≤ i → i < agents.length → Turn o pick r p agents (a i) c i (gs i) (gs (i + 1))) ∧ gs agents.length ∈ T} ∧
      ENNReal.ofReal (∏ i ∈ Finset.Ico j agents.length, contactLaw (a i) (contactWeight (h i) x i) agents.length (c i)) * μ T ≤ μ S := by
  induction k generalizing j with
  | zero =>
    obtain rfl : j = agents.length := by omega
    refine ⟨T, hT, fun g hg => ⟨fun _ => g, rfl, fun i h1 h2 => by omega, hg⟩, by simp⟩
  | succ k ih =>
    obtain ⟨S, hS, hSs, hSμ⟩ := ih (j := j + 1) (by omega)
    have hj : j < agents.length := by omega
    obtain ⟨S', hS', hSs', hSμ'⟩ := turn_lower hr hp ho hn hj (hm j hj).1 (hm j hj).2 (hc j hj) hS
    refine ⟨S', hS', ?_, ?_⟩
    · intro g hg
      obtain ⟨g', hg', ht⟩ := hSs' hg
      obtain ⟨gs, e1, e2, e3⟩ := hSs hg'
      refine ⟨fun i => if i = j then g else gs i, by simp, fun i h1 h2 => ?_, by simpa [hj.ne'] using e3⟩
      by_cases e : i = j
      · subst e
        simpa [e1] using ht
      · have e' : i + 1 ≠ j := by omega
        simpa [e, e'] using e2 i (by omega) h2
    · rw [← Finset.insert_Ico_add_one_left_eq_Ico hj, Finset.prod_insert (by simp), ENNReal.ofReal_mul (contactLaw_nonneg _ _ _ _ _), mul_assoc]
      exact (mul_le_mul_right hSμ _).trans hSμ'

/-- All contact lists of agent `i`. -/
def choices (n k : ℕ) : Finset (List ℕ) := insert [] ((sequences k (Finset.range n)).image List.reverse)

omit [ActiveAgent A XR] [MeasurableSpace G] in
theorem mem_choices {n k : ℕ} {b : List ℕ} : b ∈ choices n k ↔ Choice n k b := by
  unfold choices Choice
  rw [Finset.mem_insert, Finset.mem_image]
  refine or_congr_right ?_
  constructor
  · rintro ⟨t, ht, rfl⟩
    obtain ⟨h1, h2, h3⟩ := mem_sequences.mp ht
    exact ⟨by simp [h1], List.nodup_reverse.mpr h2, fun j hj => Finset.mem_range.mp (h3 j (List.mem_reverse.mp hj))⟩
  · rintro ⟨h1, h2, h3⟩
    exact ⟨b.reverse, mem_sequences.mpr ⟨by simp [h1], List.nodup_reverse.mpr h2, fun j hj => Finset.mem_range.mpr (h3 j (List.mem_reverse.mp hj))⟩, by simp⟩

/-- An agent contacts somebody or nobody. -/
theorem contactLaw_total (a h : ℝ) {i n k : ℕ} (hi : i < n) (hk : 0 < k) (hkn : k < n) :
    ∑ b ∈ choices n k, contactLaw a (contactWeight h x i) n b = 1 := by
  unfold choices
  rw [Finset.sum_insert, Finset.sum_image (by intro a _ b _ e; exact List.reverse_injective e)]
  · have e : ∀ t ∈ sequences k (Finset.range n), contactLaw a (contactWeight h x i) n t.reverse =
        clip a * successive (contactWeight h x i) (Finset.range n) t := by
      intro t ht
      have : t.reverse ≠ [] := by
        intro e
        have := (mem_sequences.mp ht).1
        rw [List.reverse_eq_nil_iff.mp e] at this
        simp at this
        omega
      rw [contactLaw, if_neg this, List.reverse_reverse]
    rw [Finset.sum_congr rfl e, ← Finset.mul_sum, successive_total k _ (fun j _ => contactWeight_nonneg)]
    · simp [contactLaw]
    · have : (Finset.range n).erase i ⊆ (Finset.range n).filter fun j => 0 < contactWeight h x i j := by
        intro j hj
        rw [Finset.mem_erase] at hj
        exact Finset.mem_filter.mpr ⟨hj.2, contactWeight_pos hj.1⟩
      have := Finset.card_le_card this
      rw [Finset.card_erase_of_mem (Finset.mem_range.mpr hi), Finset.card_range] at this
      omega
  · intro h0
    obtain ⟨t, ht, e⟩ := Finset.mem_image.mp h0
    have := (mem_sequences.mp ht).1
    rw [List.reverse_eq_nil_iff.mp e] at this
    simp at this
    omega

/-- The contact phase that starts in `g` leads to the contacts `c` and to a state in `T`. -/
def Leads (o : MathOps XR) (pick : List (ℕ × XR) → ℕ) (r : Rng G XR) (p : ActivitySettings XR) (agents : List A) (c : ℕ → List ℕ) (T : Set G) : Set G :=
  {g | ∃ (gs : ℕ → G) (buf contacts : ℕ → List ℕ), gs 0 = g ∧ ContactPhase o pick r p agents gs buf contacts ∧
    (∀ i, i < agents.length → contacts i = c i) ∧ gs agents.length ∈ T}

/-- A function on the first numbers, continued. -/
def fromFin {n : ℕ} (d : Fin n → List ℕ) (i : ℕ) : List ℕ := if hi : i < n then d ⟨i, hi⟩ else []

/-- The law of the contacts of all agents. -/
theorem contacts_law (hr : DrawsUniform r μ) (hp : Reservoir.Pick.Min pick) (ho : o.toOps = XR.ops) (hn : Numbers p agents x a h q)
    (hm : ∀ i, i < agents.length → 0 < contactsOf p i ∧ contactsOf p i < agents.length)
    (hc : ∀ i, i < agents.length → Choice agents.length (contactsOf p i).toNat (c i)) {T : Set G} (hT : MeasurableSet T) :
    NullMeasurableSet (Leads o pick r p agents c T) μ ∧ μ (Leads o pick r p agents c T) =
      ENNReal.ofReal (∏ i ∈ Finset.range agents.length, contactLaw (a i) (contactWeight (h i) x i) agents.length (c i)) * μ T := by
  set n := agents.length with hlen
  have hchoice : ∀ d ∈ Fintype.piFinset (fun i : Fin n => choices n (contactsOf p i).toNat), ∀ i, i < n →
      Choice n (contactsOf p i).toNat (fromFin d i) := by
    intro d hd i hi
    have := mem_choices.mp (Fintype.mem_piFinset.mp hd ⟨i, hi⟩)
    simpa [fromFin, hi] using this
  have hcongr : ∀ c' : ℕ → List ℕ, (∀ i, i < n → c i = c' i) → Leads o pick r p agents c T = Leads o pick r p agents c' T := by
    intro c' h
    ext g
    constructor
    · rintro ⟨gs, buf, contacts, h1, h2, h3, h4⟩
      exact ⟨gs, buf, contacts, h1, h2, fun i hi => (h3 i hi).trans (h i hi), h4⟩
    · rintro ⟨gs, buf, contacts, h1, h2, h3, h4⟩
      exact ⟨gs, buf, contacts, h1, h2, fun i hi => (h3 i hi).trans (h i hi).symm, h4⟩
  have key := squeeze (μ := μ) (ι := (Fin n → List ℕ) × Bool) (Fintype.piFinset (fun i : Fin n => choices n (contactsOf p i).toNat) ×ˢ Finset.univ)
    (fun d => Leads o pick r p agents (fromFin d.1) (if d.2 then T else Tᶜ))
    (fun d => ENNReal.ofReal (∏ i ∈ Finset.range n, contactLaw (a i) (contactWeight (h i) x i) n (fromFin d.1 i)) * μ (if d.2 then T else Tᶜ))
    (by
      rintro ⟨d, e⟩ - ⟨d', e'⟩ - hne
      rw [Set.disjoint_left]
      rintro g ⟨gs, buf, contacts, h1, h2, h3, h4⟩ ⟨gs', buf', contacts', h1', h2', h3', h4'⟩
      obtain ⟨u1, u2⟩ := phase_unique h2 h2' (h1.trans h1'.symm)
      have hd : d = d' := by
        funext i
        have := (h3 i i.2).symm.trans ((u2 i i.2).trans (h3' i i.2))
        simpa [fromFin] using this
      subst hd
      rw [(u1 n le_rfl).1] at h4
      cases e <;> cases e' <;> simp_all)
    (by
      rintro ⟨d, e⟩ hd
      obtain ⟨S, hS, hSs, hSμ⟩ := turns_lower hr hp ho hn hm (hchoice d (Finset.mem_product.mp hd).1) (T := if e then T else Tᶜ)
        (by cases e <;> simp [hT]) (zero_add n)
      rw [← Finset.range_eq_Ico] at hSμ
      refine ⟨S, hS, fun g hg => ?_, hSμ⟩
      obtain ⟨gs, e1, e2, e3⟩ := hSs hg
      exact ⟨gs, _, _, e1, phase_of_turns hn fun i hi => e2 i (by omega) hi, fun _ _ => rfl, e3⟩)
    (by
      rw [Finset.sum_product]
      simp only [Fintype.sum_bool, ← mul_add, if_true, Bool.false_eq_true, if_false]
      rw [← Finset.sum_mul, prob_add_prob_compl hT, mul_one,
        ← ENNReal.ofReal_sum_of_nonneg fun d _ => Finset.prod_nonneg fun i _ => contactLaw_nonneg _ _ _ _ _]
      have e1 : ∀ d : Fin n → List ℕ, ∏ i ∈ Finset.range n, contactLaw (a i) (contactWeight (h i) x i) n (fromFin d i) =
          ∏ i : Fin n, contactLaw (a i) (contactWeight (h i) x i) n (d i) := by
        intro d
        rw [Finset.prod_range]
        exact Finset.prod_congr rfl fun i _ => by simp [fromFin]
      simp only [e1]
      rw [← Finset.prod_univ_sum, Finset.prod_congr rfl fun (i : Fin n) _ => contactLaw_total (a i) (h i) i.2 (k := (contactsOf p i).toNat)
        (by have := hm i i.2; omega) (by have := hm i i.2; omega)]
      simp)
    (i := (fun i => c i, true)) (Finset.mem_product.mpr ⟨Fintype.mem_piFinset.mpr fun i => mem_choices.mpr (hc i i.2), Finset.mem_univ _⟩)
  have hff : ∀ i, i < n → fromFin (fun i : Fin n => c i) i = c i := fun i hi => by simp [fromFin, hi]
  simp only [if_true] at key
  rw [hcongr _ fun i hi => (hff i hi).symm]
  refine ⟨key.1, key.2.trans ?_⟩
  rw [Finset.prod_congr rfl fun i hi => by rw [hff i (Finset.mem_range.mp hi)]]

omit [ActiveAgent A XR] [MeasurableSpace G] in
theorem oneWay_congr {n : ℕ} {c c' : ℕ → List ℕ} (h : ∀ i, i < n → c i = c' i) (hc : ∀ i, i < n → ∀ j ∈ c i, j < n) : oneWay n c = oneWay n c' := by
  unfold oneWay
  refine List.flatMap_congr fun i hi => ?_
  rw [List.mem_range] at hi
  rw [← h i hi]
  congr 1
  refine List.filter_congr fun j hj => ?_
  rw [h j (hc i hi j hj)]

/-- The iterations that lead to the contacts `c`, of which `kept` are reciprocated, and to a state of the generator in `T`. -/
def Happens (o : MathOps XR) (pick : List (ℕ × XR) → ℕ) (r : Rng G XR) (s : Activity A XR G) (run : G → Res (Network A XR × G)) (c : ℕ → List ℕ)
    (kept : List (ℕ × ℕ)) (T : Set G) : Set G :=
  {g | ∃ (gs : ℕ → G) (buf contacts : ℕ → List ℕ) (N : Network A XR) (g' : G), run g = .ok (N, g') ∧
    FromContacts o pick r s.p s.network.agents g N gs buf contacts ∧ (∀ i, i < s.network.agents.length → contacts i = c i) ∧
    (keep r s.p.reciprocity (oneWay s.network.agents.length contacts) (gs s.network.agents.length)).1 = kept ∧ g' ∈ T}

/-- `run` makes one iteration as specified by C43. -/
def Updates (o : MathOps XR) (pick : List (ℕ × XR) → ℕ) (r : Rng G XR) (s : Activity A XR G) (run : G → Res (Network A XR × G)) : Prop :=
  ∀ g, ∃ (gs : ℕ → G) (buf contacts : ℕ → List ℕ) (N : Network A XR), run g = .ok (N,
    (keep r s.p.reciprocity (oneWay s.network.agents.length contacts) (gs s.network.agents.length)).2) ∧
    FromContacts o pick r s.p s.network.agents g N gs buf contacts

variable {s : Activity A XR G} {run : G → Res (Network A XR × G)}

theorem happens_law (hr : DrawsUniform r μ) (hp : Reservoir.Pick.Min pick) (ho : o.toOps = XR.ops) (hrun : Updates o pick r s run)
    (hn : Numbers s.p s.network.agents x a h q)
    (hm : ∀ i, i < s.network.agents.length → 0 < contactsOf s.p i ∧ contactsOf s.p i < s.network.agents.length)
    (hc : ∀ i, i < s.network.agents.length → Choice s.network.agents.length (contactsOf s.p i).toNat (c i)) {kept : List (ℕ × ℕ)}
    (hk : kept.Sublist (oneWay s.network.agents.length c)) {T : Set G} (hT : MeasurableSet T) :
    NullMeasurableSet (Happens o pick r s run c kept T) μ ∧ μ (Happens o pick r s run c kept T) =
      ENNReal.ofReal ((∏ i ∈ Finset.range s.network.agents.length, contactLaw (a i) (contactWeight (h i) x i) s.network.agents.length (c i)) *
        keepLaw q (oneWay s.network.agents.length c) kept) * μ T := by
  set n := s.network.agents.length with hlen
  -- beyond the agents the contacts do not matter
  have hlt : ∀ i, i < n → ∀ j ∈ c i, j < n := by
    intro i hi j hj
    rcases hc i hi with e | ⟨-, -, e⟩
    · rw [e] at hj; simp at hj
    · exact e j hj
  have hnd : (oneWay n c).Nodup := by
    have : oneWay n c = oneWay n (fun i => if i < n then c i else []) := oneWay_congr (fun i hi => by simp [hi]) hlt
    rw [this]
    refine Activity.nodup_oneWay fun i => ?_
    by_cases hi : i < n
    · rw [if_pos hi]
      rcases hc i hi with e | ⟨-, e, -⟩
      · rw [e]; exact List.nodup_nil
      · exact e
    · rw [if_neg hi]; exact List.nodup_nil
  obtain ⟨k1, k2⟩ := keep_law hr q hnd hk hT
  have hset : Happens o pick r s run c kept T =
      Leads o pick r s.p s.network.agents c {g | (keep r (XR.fin q) (oneWay n c) g).1 = kept ∧ (keep r (XR.fin q) (oneWay n c) g).2 ∈ T} := by
    ext g
    constructor
    · rintro ⟨gs, buf, contacts, N, g', h1, h2, h3, h4, h5⟩
      obtain ⟨gs', buf', contacts', N', h1', h2'⟩ := hrun g
      obtain ⟨u1, u2⟩ := phase_unique h2.phase h2'.phase (h2.start.trans h2'.start.symm)
      rw [h1] at h1'
      obtain ⟨-, e2⟩ := Prod.mk.inj (Except.ok.inj h1')
      have e3 : oneWay n c = oneWay n contacts := oneWay_congr (fun i hi => (h3 i hi).symm) hlt
      have e4 : oneWay n c = oneWay n contacts' := oneWay_congr (fun i hi => (h3 i hi).symm.trans (u2 i hi)) hlt
      refine ⟨gs, buf, contacts, h2.start, h2.phase, h3, ?_, ?_⟩
      · rw [← hn.reciprocity, e3]; exact h4
      · rw [← hn.reciprocity, e4, (u1 n le_rfl).1, ← e2]; exact h5
    · rintro ⟨gs, buf, contacts, h1, h2, h3, h4, h5⟩
      obtain ⟨gs', buf', contacts', N', h1', h2'⟩ := hrun g
      obtain ⟨u1, u2⟩ := phase_unique h2 h2'.phase (h1.trans h2'.start.symm)
      have e4 : oneWay n c = oneWay n contacts' := oneWay_congr (fun i hi => (h3 i hi).symm.trans (u2 i hi)) hlt
      rw [← hn.reciprocity, e4, (u1 n le_rfl).1] at h4 h5
      exact ⟨gs', buf', contacts', N', _, h1', h2', fun i hi => (u2 i hi).symm.trans (h3 i hi), h4, h5⟩
  obtain ⟨c1, c2⟩ := contacts_law (c := c) hr hp ho hn hm hc k1
  rw [hset]
  refine ⟨c1, ?_⟩
  rw [c2, k2, ← mul_assoc, ENNReal.ofReal_mul (Finset.prod_nonneg fun i _ => contactLaw_nonneg _ _ _ _ _)]

omit [MeasurableSpace G] in
theorem happens_unique {c c' : ℕ → List ℕ} {kept kept' : List (ℕ × ℕ)} {T T' : Set G} {g : G} (h1 : g ∈ Happens o pick r s run c kept T)
    (h2 : g ∈ Happens o pick r s run c' kept' T') (hc : ∀ i, i < s.network.agents.length → ∀ j ∈ c i, j < s.network.agents.length) :
    (∀ i, i < s.network.agents.length → c i = c' i) ∧ kept = kept' := by
  obtain ⟨gs, buf, contacts, N, g', e1, e2, e3, e4, e5⟩ := h1
  obtain ⟨gs', buf', contacts', N', g'', e1', e2', e3', e4', e5'⟩ := h2
  obtain ⟨u1, u2⟩ := phase_unique e2.phase e2'.phase (e2.start.trans e2'.start.symm)
  have e6 : oneWay s.network.agents.length contacts = oneWay s.network.agents.length contacts' :=
    oneWay_congr u2 fun i hi j hj => hc i hi j ((e3 i hi) ▸ hj)
  refine ⟨fun i hi => (e3 i hi).symm.trans ((u2 i hi).trans (e3' i hi)), ?_⟩
  rw [← e4, ← e4', e6, (u1 _ le_rfl).1]

omit [MeasurableSpace G] in
/-- Something always happens. -/
theorem happens_exists (hp : Reservoir.Pick.Valid pick) (hrun : Updates o pick r s run)
    (hm : ∀ i, i < s.network.agents.length → 0 < contactsOf s.p i ∧ contactsOf s.p i < s.network.agents.length) (g : G) :
    ∃ (gs : ℕ → G) (buf contacts : ℕ → List ℕ) (N : Network A XR) (g' : G) (kept : List (ℕ × ℕ)), run g = .ok (N, g') ∧
      FromContacts o pick r s.p s.network.agents g N gs buf contacts ∧
      (keep r s.p.reciprocity (oneWay s.network.agents.length contacts) (gs s.network.agents.length)).1 = kept ∧
      (∀ i, i < s.network.agents.length → Choice s.network.agents.length (contactsOf s.p i).toNat (contacts i)) ∧
      kept.Sublist (oneWay s.network.agents.length contacts) := by
  obtain ⟨gs, buf, contacts, N, h1, h2⟩ := hrun g
  refine ⟨gs, buf, contacts, N, _, _, h1, h2, rfl, fun i hi => ?_, Activity.keep_sublist _ _ _ _⟩
  by_cases hA : Activated r s.network.agents[i] (gs i)
  · obtain ⟨e1, e2, e3⟩ := C45_contacts_partial hp h2.phase hi hA (hm i hi).1 (hm i hi).2.le
    exact Or.inr ⟨by omega, e2, e3⟩
  · exact Or.inl (h2.phase.passive i hi hA).2.1

/-- The pairs of contacts and reciprocated contacts. -/
def outcomes (n : ℕ) (k : ℕ → ℕ) : Finset (Σ _ : Fin n → List ℕ, List (ℕ × ℕ)) :=
  (Fintype.piFinset fun i : Fin n => choices n (k i)).sigma fun d => (oneWay n (fromFin d)).sublists.toFinset

omit [MeasurableSpace G] [ActiveAgent A XR] in
theorem mem_outcomes {n : ℕ} {k : ℕ → ℕ} {d : Fin n → List ℕ} {kept : List (ℕ × ℕ)} :
    ⟨d, kept⟩ ∈ outcomes n k ↔ (∀ i, i < n → Choice n (k i) (fromFin d i)) ∧ kept.Sublist (oneWay n (fromFin d)) := by
  unfold outcomes
  rw [Finset.mem_sigma, Fintype.mem_piFinset, List.mem_toFinset, List.mem_sublists]
  refine and_congr_left fun _ => ?_
  constructor
  · intro hd i hi
    have := mem_choices.mp (hd ⟨i, hi⟩)
    simpa [fromFin, hi] using this
  · intro hd i
    have := mem_choices.mpr (hd i i.2)
    simpa [fromFin] using this

/-- The probability of an event that is decided by the contacts and the reciprocated contacts. -/
theorem event_law (hr : DrawsUniform r μ) (hp : Reservoir.Pick.Min pick) (ho : o.toOps = XR.ops) (hrun : Updates o pick r s run)
    (hn : Numbers s.p s.network.agents x a h q)
    (hm : ∀ i, i < s.network.agents.length → 0 < contactsOf s.p i ∧ contactsOf s.p i < s.network.agents.length)
    {P : (Fin s.network.agents.length → List ℕ) → List (ℕ × ℕ) → Prop}
    [DecidablePred fun z : (Σ _ : Fin s.network.agents.length → List ℕ, List (ℕ × ℕ)) => P z.1 z.2]
    {E : Set G} {T : Set G} (hT : MeasurableSet T) (hE : ∀ g gs buf contacts N g' kept, run g = .ok (N, g') →
      FromContacts o pick r s.p s.network.agents g N gs buf contacts →
      (keep r s.p.reciprocity (oneWay s.network.agents.length contacts) (gs s.network.agents.length)).1 = kept →
      (g ∈ E ↔ P (fun i => contacts i) kept ∧ g' ∈ T)) :
    NullMeasurableSet E μ ∧ μ E = (∑ z ∈ outcomes s.network.agents.length (fun i => (contactsOf s.p i).toNat) with P z.1 z.2, ENNReal.ofReal
      ((∏ i : Fin s.network.agents.length, contactLaw (a i) (contactWeight (h i) x i) s.network.agents.length (z.1 i)) *
        keepLaw q (oneWay s.network.agents.length (fromFin z.1)) z.2)) * μ T := by
  have hset : E = ⋃ z ∈ (outcomes s.network.agents.length (fun i => (contactsOf s.p i).toNat)).filter (fun z : (Σ _ : Fin s.network.agents.length → List ℕ, List (ℕ × ℕ)) => P z.1 z.2), Happens o pick r s run (fromFin z.1) z.2 T := by
    ext g
    rw [Set.mem_iUnion₂]
    constructor
    · intro hg
      obtain ⟨gs, buf, contacts, N, g', kept, e1, e2, e3, e4, e5⟩ := happens_exists (⟨hp.lt⟩ : Reservoir.Pick.Valid pick) hrun hm g
      obtain ⟨e6, e7⟩ := (hE g gs buf contacts N g' kept e1 e2 e3).mp hg
      have hff : ∀ i, i < s.network.agents.length → fromFin (fun i : Fin s.network.agents.length => contacts i) i = contacts i := fun i hi => by simp [fromFin, hi]
      refine ⟨⟨fun i => contacts i, kept⟩, Finset.mem_filter.mpr ⟨mem_outcomes.mpr ⟨fun i hi => ?_, ?_⟩, e6⟩, gs, buf, contacts, N, g', e1, e2,
        fun i hi => (hff i hi).symm, e3, e7⟩
      · rw [hff i hi]; exact e4 i hi
      · rwa [oneWay_congr hff]
        intro i hi j hj
        rw [hff i hi] at hj
        rcases e4 i hi with e | ⟨-, -, e⟩
        · rw [e] at hj; simp at hj
        · exact e j hj
    · rintro ⟨⟨d, kept⟩, hz, gs, buf, contacts, N, g', e1, e2, e3, e4, e5⟩
      refine (hE g gs buf contacts N g' kept e1 e2 e4).mpr ⟨?_, e5⟩
      have : (fun i : Fin s.network.agents.length => contacts i) = d := by
        funext i
        rw [e3 i i.2]
        simp [fromFin]
      rw [this]
      exact (Finset.mem_filter.mp hz).2
  have hlt : ∀ z ∈ outcomes s.network.agents.length (fun i => (contactsOf s.p i).toNat), ∀ i, i < s.network.agents.length → ∀ j ∈ fromFin z.1 i, j < s.network.agents.length := by
    rintro ⟨d, kept⟩ hz i hi j hj
    rcases (mem_outcomes.mp hz).1 i hi with e | ⟨-, -, e⟩
    · rw [e] at hj; simp at hj
    · exact e j hj
  rw [hset]
  refine ⟨Finset.nullMeasurableSet_biUnion _ ?_, ?_⟩
  · rintro ⟨d, kept⟩ hz
    obtain ⟨h1, h2⟩ := mem_outcomes.mp (Finset.mem_filter.mp hz).1
    exact (happens_law hr hp ho hrun hn hm h1 h2 hT).1
  rw [measure_biUnion_finset₀, Finset.sum_mul]
  · refine Finset.sum_congr rfl ?_
    rintro ⟨d, kept⟩ hz
    obtain ⟨h1, h2⟩ := mem_outcomes.mp (Finset.mem_filter.mp hz).1
    rw [(happens_law hr hp ho hrun hn hm h1 h2 hT).2, Finset.prod_range]
    simp only [fromFin, Fin.is_lt, dif_pos, Fin.eta]
  · rintro ⟨d, kept⟩ hz ⟨d', kept'⟩ hz' hne
    refine Disjoint.aedisjoint (Set.disjoint_left.mpr fun g hg hg' => hne ?_)
    obtain ⟨h1, h2⟩ := happens_unique hg hg' (hlt _ (Finset.mem_filter.mp hz).1)
    have h2' : kept = kept' := h2
    have : d = d' := by
      funext i
      have := h1 i i.2
      simpa [fromFin] using this
    rw [this, h2']
  · rintro ⟨d, kept⟩ hz
    obtain ⟨h1, h2⟩ := mem_outcomes.mp (Finset.mem_filter.mp hz).1
    exact (happens_law hr hp ho hrun hn hm h1 h2 hT).1

end
end Seldon
