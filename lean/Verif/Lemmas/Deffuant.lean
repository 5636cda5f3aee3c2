import Verif.Spec.Dynamics
import Verif.Spec.Run
import Verif.Model.Deffuant
import Verif.Lemmas.DeGroot
import Verif.Lemmas.Sampling
import Verif.Lemmas.Text
import Mathlib.Algebra.BigOperators.Group.Finset.Basic
import Mathlib.Algebra.Order.BigOperators.Group.Finset
import Mathlib.Algebra.Order.Field.Basic
import Mathlib.Tactic.Ring
import Mathlib.Tactic.Linarith
/-!
# Lemmas for the Deffuant models
-/
set_option linter.unusedSectionVars false
namespace Seldon
open Spec
namespace Deffuant
variable {A F G : Type}

/-- `t` differs from `s` only in the agents' data, the generator and the iteration counter. -/
structure Frame (s t : Deffuant A F G) : Prop where
  threshold : t.threshold = s.threshold
  mu : t.mu = s.mu
  useNetwork : t.useNetwork = s.useNetwork
  neighbours : t.network.neighbours = s.network.neighbours
  weights : t.network.weights = s.network.weights
  direction : t.network.direction = s.network.direction
  n : t.network.agents.length = s.network.agents.length
  max : t.counter.maxIterations = s.counter.maxIterations

theorem Frame.refl (s : Deffuant A F G) : Frame s s := ⟨rfl, rfl, rfl, rfl, rfl, rfl, rfl, rfl⟩

theorem Frame.trans {s t u : Deffuant A F G} (h : Frame s t) (h' : Frame t u) : Frame s u :=
  ⟨h'.1.trans h.1, h'.2.trans h.2, h'.3.trans h.3, h'.4.trans h.4, h'.5.trans h.5, h'.6.trans h.6, h'.7.trans h.7, h'.8.trans h.8⟩

theorem Frame.wf {s t : Deffuant A F G} (h : Frame s t) (hw : WF s.network) : WF t.network := by
  refine ⟨by rw [h.neighbours, h.n]; exact hw.rows, by rw [h.weights, h.n]; exact hw.wrows, ?_, ?_⟩
  · intro i h1 h2
    have := hw.lengths i (by rw [← h.neighbours]; exact h1) (by rw [← h.weights]; exact h2)
    simp only [h.neighbours, h.weights]
    exact this
  · rw [h.neighbours, h.n]; exact hw.range

/-! ## choosing the pair -/

/-- What the choice of a pair needs: sizes fit into `size_t`; with `use_network` the network is well-formed and everybody has
a neighbour. -/
structure Ready (s : Deffuant A F G) : Prop where
  wf : WF s.network
  size : s.network.agents.length < 2 ^ 64
  rows : s.useNetwork = true → ∀ row ∈ s.network.neighbours, row ≠ [] ∧ row.length < 2 ^ 64

theorem Frame.ready {s t : Deffuant A F G} (h : Frame s t) (hr : Ready s) : Ready t :=
  ⟨h.wf hr.wf, by rw [h.n]; exact hr.size, by rw [h.useNetwork, h.neighbours]; exact hr.rows⟩

theorem selectPair_ok {r : Rng G F} (hr : r.IntLawful) {s : Deffuant A F G} (h : s.Ready) (hn : 0 < s.network.agents.length) :
    ∃ a b g, selectPair r s = .ok ([a, b], { s with gen := g }) ∧ a < s.network.agents.length ∧ b < s.network.agents.length ∧
      (s.useNetwork = false → 2 ≤ s.network.agents.length → a < b) ∧
      (s.useNetwork = true → b ∈ s.network.neighbours.getD a []) := by
  unfold selectPair Network.nAgents
  by_cases hu : s.useNetwork = false
  · rw [if_pos hu]
    obtain ⟨ys, g', h1, h2, h3⟩ := Draw.drawUnique_eq hr none 2 s.network.agents.length [] s.gen
    rw [Draw.avail_none] at h2 h3
    simp only [List.length_range] at h3
    by_cases h2n : 2 ≤ s.network.agents.length
    · rw [min_eq_left h2n] at h3
      match ys, h3 with
      | [a, b], _ =>
        have hs := (List.pairwise_lt_range (n := s.network.agents.length)).sublist h2
        have ha := List.mem_range.mp (h2.subset (show a ∈ [a, b] by simp))
        have hb := List.mem_range.mp (h2.subset (show b ∈ [a, b] by simp))
        refine ⟨a, b, g', ?_, ha, hb, fun _ _ => by simpa using hs, fun hc => by rw [hu] at hc; cases hc⟩
        rw [h1]; rfl
    · have h1n : s.network.agents.length = 1 := by omega
      rw [h1n] at h1 h2 h3
      match ys, h3 with
      | [a], _ =>
        have ha := List.mem_range.mp (h2.subset (show a ∈ [a] by simp))
        refine ⟨a, 0, g', ?_, by omega, by omega, fun _ hc => absurd hc h2n, fun hc => by rw [hu] at hc; cases hc⟩
        rw [h1n, h1]; rfl
  · have hu' : s.useNetwork = true := by simpa using hu
    rw [if_neg hu]
    have hsub := Text.subSz_of_le (a := s.network.agents.length) (b := 1) (by omega) h.size
    simp only [hsub]
    have ha := hr.int_le 0 (s.network.agents.length - 1) s.gen (Nat.zero_le _)
    have hal : (r.int 0 (s.network.agents.length - 1) s.gen).1 < s.network.neighbours.length := by rw [h.wf.rows]; omega
    have hrow := h.rows hu' _ (List.getElem_mem hal)
    simp only [Network.getNeighbours, rd_lt hal, Res.bind_ok]
    have hpos : 0 < (s.network.neighbours[(r.int 0 (s.network.agents.length - 1) s.gen).1]).length := by
      rw [List.length_pos_iff]; exact hrow.1
    rw [Text.subSz_of_le (by omega) hrow.2]
    have hb := hr.int_le 0 ((s.network.neighbours[(r.int 0 (s.network.agents.length - 1) s.gen).1]).length - 1)
      (r.int 0 (s.network.agents.length - 1) s.gen).2 (Nat.zero_le _)
    have hbl : (r.int 0 ((s.network.neighbours[(r.int 0 (s.network.agents.length - 1) s.gen).1]).length - 1)
      (r.int 0 (s.network.agents.length - 1) s.gen).2).1 < (s.network.neighbours[(r.int 0 (s.network.agents.length - 1) s.gen).1]).length := by omega
    simp only [rd_lt hbl, Res.bind_ok]
    refine ⟨_, _, _, rfl, by rw [h.wf.rows] at hal; exact hal, h.wf.range _ (List.getElem_mem hal) _ (List.getElem_mem _), fun hc => absurd hc hu, fun _ => ?_⟩
    rw [getD_lt _ _ hal]; exact List.getElem_mem _

/-- Whatever the generator does, a successful choice leaves everything but the generator unchanged. -/
theorem selectPair_gen {r : Rng G F} {s t : Deffuant A F G} {p : List Nat} (h : selectPair r s = .ok (p, t)) :
    ∃ g, t = { s with gen := g } := by
  unfold selectPair at h
  by_cases hu : s.useNetwork = false
  · rw [if_pos hu] at h
    obtain ⟨q, -, h⟩ := Res.bind_eq_ok.mp h
    have := Except.ok.inj h
    exact ⟨q.2, (Prod.mk.inj this).2.symm⟩
  · rw [if_neg hu] at h
    obtain ⟨q, -, h⟩ := Res.bind_eq_ok.mp h
    obtain ⟨b, -, h⟩ := Res.bind_eq_ok.mp h
    have := Except.ok.inj h
    exact ⟨_, (Prod.mk.inj this).2.symm⟩

/-- A successful interaction is an update of a pair of valid indices. -/
theorem interact_ok {r : Rng G F} {update : Nat → Nat → Deffuant A F G → Res (Deffuant A F G)} {s t : Deffuant A F G}
    (h : interact r update s = .ok t) : ∃ a b g, a < s.network.agents.length ∧ b < s.network.agents.length ∧
      update a b { s with gen := g } = .ok t := by
  obtain ⟨⟨p, s1⟩, h1, h⟩ := Res.bind_eq_ok.mp h
  obtain ⟨g, rfl⟩ := selectPair_gen h1
  obtain ⟨a, -, h⟩ := Res.bind_eq_ok.mp h
  obtain ⟨x, hx, h⟩ := Res.bind_eq_ok.mp h
  obtain ⟨b, -, h⟩ := Res.bind_eq_ok.mp h
  obtain ⟨y, hy, h⟩ := Res.bind_eq_ok.mp h
  refine ⟨a, b, g, ?_, ?_, h⟩
  · rw [rd_eq_ok, List.getElem?_eq_some_iff] at hx; exact hx.1
  · rw [rd_eq_ok, List.getElem?_eq_some_iff] at hy; exact hy.1

theorem interact_total {r : Rng G F} (hr : r.IntLawful) {update : Nat → Nat → Deffuant A F G → Res (Deffuant A F G)}
    {s : Deffuant A F G} (h : s.Ready) (hn : 0 < s.network.agents.length)
    (hu : ∀ a b g, a < s.network.agents.length → b < s.network.agents.length → ∃ t, update a b { s with gen := g } = .ok t) :
    ∃ t, interact r update s = .ok t := by
  obtain ⟨a, b, g, h1, ha, hb, -⟩ := selectPair_ok hr h hn
  obtain ⟨t, ht⟩ := hu a b g ha hb
  refine ⟨t, ?_⟩
  unfold interact
  simp only [h1, Res.bind_ok, rd, List.getElem?_cons_zero, List.getElem?_cons_succ, List.getElem?_eq_getElem ha,
    List.getElem?_eq_getElem hb, ht]

/-- Loop rule: a property of states preserved by successful interactions. -/
theorem loop_ok {σ : Type} {f : Nat → σ → Res σ} (I : Nat → σ → Prop) (hf : ∀ i s t, I i s → f i s = .ok t → I (i + 1) t) :
    ∀ {n : Nat} {s t : σ}, I 0 s → loop n f s = .ok t → I n t := by
  intro n
  induction n with
  | zero => intro s t h0 h; cases h; exact h0
  | succ n ih =>
    intro s t h0 h
    rw [loop_succ] at h
    obtain ⟨u, h1, h2⟩ := Res.bind_eq_ok.mp h
    exact hf n u t (ih h0 h1) h2

/-! ## the scalar rule -/
section scalar
variable [Ring F] [LinearOrder F] [IsStrictOrderedRing F]

theorem opinionOf_set {agents : List (SimpleAgent F)} {a : Nat} (ha : a < agents.length) (v : SimpleAgent F) (i : Nat) :
    opinionOf (agents.set a v) i = if i = a then v.opinion else opinionOf agents i := by
  unfold opinionOf opinions
  rw [List.map_set, List.getD_eq_getElem?_getD, List.getElem?_set]
  by_cases h : a = i
  · subst h; simp [ha]
  · rw [if_neg h, if_neg (fun h' => h h'.symm), List.getD_eq_getElem?_getD]

theorem cabs_abs (x : F) : cabs x = |x| := by
  unfold cabs
  split
  · next h => rw [abs_of_neg h]
  · next h => rw [abs_of_nonneg (not_lt.mp h)]

theorem rd_opinion {agents : List (SimpleAgent F)} {a : Nat} (ha : a < agents.length) : rd agents a = .ok ⟨opinionOf agents a⟩ := by
  rw [rd_lt ha, DeGroot.opinionOf_lt ha]

/-- Closed form of the update rule. -/
theorem updateRule_ok (a b : Nat) (s : Deffuant (SimpleAgent F) F G) (ha : a < s.network.agents.length)
    (hb : b < s.network.agents.length) : ∃ t, updateRule a b s = .ok t ∧ Frame s t ∧ t.gen = s.gen ∧ t.counter = s.counter ∧
      opinionOf t.network.agents = meet s.threshold s.mu a b (opinionOf s.network.agents) := by
  unfold updateRule meet
  rw [rd_opinion ha, Res.bind_ok, rd_opinion hb, Res.bind_ok]
  simp only [cabs_abs]
  by_cases h : |opinionOf s.network.agents a - opinionOf s.network.agents b| < s.threshold
  · rw [if_pos h, if_pos h, wr_lt _ ha, Res.bind_ok, rd_opinion (by simpa using hb), Res.bind_ok, wr_lt _ (by simpa using hb), Res.bind_ok]
    refine ⟨_, rfl, ⟨rfl, rfl, rfl, rfl, rfl, rfl, by simp, rfl⟩, rfl, rfl, ?_⟩
    funext i
    rw [opinionOf_set (by simpa using hb), opinionOf_set ha, opinionOf_set ha]
    by_cases hi : i = b
    · rw [if_pos hi]
      by_cases hab : b = a
      · subst hab; subst hi; simp
      · rw [if_neg hab, if_neg (by rw [hi]; exact hab), if_pos hi]
    · rw [if_neg hi, if_neg hi]
  · rw [if_neg h, if_neg h]
    exact ⟨s, rfl, Frame.refl s, rfl, rfl, rfl⟩

theorem updateRule_sound {a b : Nat} {s t : Deffuant (SimpleAgent F) F G} (ha : a < s.network.agents.length)
    (hb : b < s.network.agents.length) (h : updateRule a b s = .ok t) : Frame s t ∧
      opinionOf t.network.agents = meet s.threshold s.mu a b (opinionOf s.network.agents) := by
  obtain ⟨u, h1, h2, -, -, h3⟩ := updateRule_ok a b s ha hb
  obtain rfl := Except.ok.inj (h1.symm.trans h)
  exact ⟨h2, h3⟩

/-- Every iteration is a sequence of `n` meetings of valid pairs. -/
theorem iteration_schedule {r : Rng G F} {s t : Deffuant (SimpleAgent F) F G} (h : iteration r updateRule s = .ok t) :
    Frame s t ∧ ∃ pairs : List (Nat × Nat), pairs.length = s.network.agents.length ∧
      (∀ p ∈ pairs, p.1 < s.network.agents.length ∧ p.2 < s.network.agents.length) ∧
      opinionOf t.network.agents = meetings s.threshold s.mu pairs (opinionOf s.network.agents) := by
  refine loop_ok (σ := Deffuant (SimpleAgent F) F G) (f := fun _ s => interact r updateRule s)
    (fun i t => Frame s t ∧ ∃ pairs : List (Nat × Nat), pairs.length = i ∧
      (∀ p ∈ pairs, p.1 < s.network.agents.length ∧ p.2 < s.network.agents.length) ∧
      opinionOf t.network.agents = meetings s.threshold s.mu pairs (opinionOf s.network.agents)) ?_ ?_ h
  · rintro i u v ⟨hF, pairs, hl, hp, ho⟩ hv
    obtain ⟨a, b, g, ha, hb, hu⟩ := interact_ok hv
    obtain ⟨hF', ho'⟩ := updateRule_sound (s := { u with gen := g }) ha hb hu
    have hF'' : Frame u v := ⟨hF'.1, hF'.2, hF'.3, hF'.4, hF'.5, hF'.6, hF'.7, hF'.8⟩
    rw [hF.n] at ha hb
    refine ⟨hF.trans hF'', pairs ++ [(a, b)], by simp [hl], ?_, ?_⟩
    · intro p hp'
      rcases List.mem_append.mp hp' with hp' | hp'
      · exact hp p hp'
      · simp at hp'; subst hp'; exact ⟨ha, hb⟩
    · rw [ho']
      simp only [meetings, List.foldl_append, List.foldl_cons, List.foldl_nil]
      have e1 : ({ u with gen := g } : Deffuant (SimpleAgent F) F G).threshold = s.threshold := hF.threshold
      have e2 : ({ u with gen := g } : Deffuant (SimpleAgent F) F G).mu = s.mu := hF.mu
      rw [e1, e2]
      show meet _ _ _ _ (opinionOf u.network.agents) = _
      rw [ho]; rfl
  · exact ⟨⟨rfl, rfl, rfl, rfl, rfl, rfl, rfl, rfl⟩, [], rfl, by simp, rfl⟩

theorem iterates_schedule {r : Rng G F} {s t : Deffuant (SimpleAgent F) F G} {k : Nat} (h : Iterates (iteration r updateRule) s k t) :
    Frame s t ∧ ∃ pairs : List (Nat × Nat), pairs.length = k * s.network.agents.length ∧
      (∀ p ∈ pairs, p.1 < s.network.agents.length ∧ p.2 < s.network.agents.length) ∧
      opinionOf t.network.agents = meetings s.threshold s.mu pairs (opinionOf s.network.agents) := by
  induction h with
  | zero => exact ⟨Frame.refl s, [], by simp, by simp, rfl⟩
  | succ _ h' ih =>
    obtain ⟨hF, pairs, hl, hp, ho⟩ := ih
    obtain ⟨hF', pairs', hl', hp', ho'⟩ := iteration_schedule h'
    rw [hF.n] at hl' hp'
    refine ⟨hF.trans hF', pairs ++ pairs', by simp [hl, hl', Nat.add_mul], ?_, ?_⟩
    · intro p hpp
      rcases List.mem_append.mp hpp with hpp | hpp
      · exact hp p hpp
      · exact hp' p hpp
    · rw [ho', hF.threshold, hF.mu, ho]
      simp only [meetings, List.foldl_append]

theorem iteration_total {r : Rng G F} (hr : r.IntLawful) {s : Deffuant (SimpleAgent F) F G} (h : s.Ready) :
    ∃ t, iteration r updateRule s = .ok t := by
  obtain ⟨t, ht, -⟩ := loop_inv (n := s.network.nAgents) (f := fun _ s => interact r updateRule s)
    (s := { s with counter := s.counter.tick }) (fun _ t => Frame s t) ⟨rfl, rfl, rfl, rfl, rfl, rfl, rfl, rfl⟩ (by
      intro i t hi hF
      have hr' := hF.ready h
      have hn : 0 < t.network.agents.length := by rw [hF.n]; exact Nat.zero_lt_of_lt hi
      obtain ⟨u, hu⟩ := interact_total hr (update := updateRule) hr' hn (fun a b g ha hb => by
        obtain ⟨v, hv, -⟩ := updateRule_ok a b { t with gen := g } ha hb
        exact ⟨v, hv⟩)
      obtain ⟨a, b, g, ha, hb, hu'⟩ := interact_ok hu
      obtain ⟨hF', -⟩ := updateRule_sound (s := { t with gen := g }) ha hb hu'
      exact ⟨u, hu, hF.trans ⟨hF'.1, hF'.2, hF'.3, hF'.4, hF'.5, hF'.6, hF'.7, hF'.8⟩⟩)
  exact ⟨t, ht⟩

end scalar

/-! ## pure facts about meetings -/
section meetings
variable [CommRing F] [LinearOrder F] [IsStrictOrderedRing F]

theorem meetings_inv (thr mu : F) (I : (Nat → F) → Prop) {pairs : List (Nat × Nat)} {x : Nat → F} (h0 : I x)
    (hs : ∀ p ∈ pairs, ∀ x, I x → I (meet thr mu p.1 p.2 x)) : I (meetings thr mu pairs x) := by
  unfold meetings
  induction pairs generalizing x with
  | nil => exact h0
  | cons p pairs ih =>
    exact ih (hs p (List.mem_cons_self ..) x h0) (fun q hq => hs q (List.mem_cons_of_mem _ hq))

theorem sum_two {s : Finset Nat} {f f' : Nat → F} {a b : Nat} (ha : a ∈ s) (hb : b ∈ s) (hab : a ≠ b)
    (hf : ∀ i, i ≠ a → i ≠ b → f' i = f i) : ∑ i ∈ s, f' i = ∑ i ∈ s, f i + ((f' a + f' b) - (f a + f b)) := by
  have hsub : ({a, b} : Finset Nat) ⊆ s := by
    intro i hi
    simp at hi
    rcases hi with rfl | rfl <;> assumption
  rw [← Finset.sum_sdiff hsub, ← Finset.sum_sdiff (f := f) hsub, Finset.sum_pair hab, Finset.sum_pair hab]
  have : ∑ i ∈ s \ {a, b}, f' i = ∑ i ∈ s \ {a, b}, f i := by
    apply Finset.sum_congr rfl
    intro i hi
    simp at hi
    exact hf i hi.2.1 hi.2.2
  rw [this]; ring

theorem meet_self (thr mu : F) (a : Nat) (x : Nat → F) : meet thr mu a a x = x := by
  unfold meet
  split
  · funext i; by_cases h : i = a <;> simp [h]
  · rfl

theorem meet_other (thr mu : F) {a b i : Nat} (ha : i ≠ a) (hb : i ≠ b) (x : Nat → F) : meet thr mu a b x i = x i := by
  unfold meet
  split <;> simp [ha, hb]

theorem meet_sum (thr mu : F) {s : Finset Nat} {a b : Nat} (ha : a ∈ s) (hb : b ∈ s) (x : Nat → F) :
    ∑ i ∈ s, meet thr mu a b x i = ∑ i ∈ s, x i := by
  by_cases hab : a = b
  · subst hab; rw [meet_self]
  · rw [sum_two ha hb hab (fun i h1 h2 => meet_other thr mu h1 h2 x)]
    unfold meet
    split
    · simp [Ne.symm hab]
    · simp

theorem meet_sq (thr : F) {mu : F} (h0 : 0 ≤ mu) (h1 : mu ≤ 1) {s : Finset Nat} {a b : Nat} (ha : a ∈ s) (hb : b ∈ s) (x : Nat → F) :
    ∑ i ∈ s, (meet thr mu a b x i) ^ 2 ≤ ∑ i ∈ s, x i ^ 2 := by
  by_cases hab : a = b
  · subst hab; rw [meet_self]
  · rw [sum_two (f := fun i => x i ^ 2) (f' := fun i => (meet thr mu a b x i) ^ 2) ha hb hab (fun i h1 h2 => by simp only [meet_other thr mu h1 h2 x])]
    have : (meet thr mu a b x a) ^ 2 + (meet thr mu a b x b) ^ 2 - (x a ^ 2 + x b ^ 2) ≤ 0 := by
      unfold meet
      split
      · simp only [if_true, if_neg (Ne.symm hab)]
        have hd : 0 ≤ (x a - x b) ^ 2 := sq_nonneg _
        have hm : 0 ≤ mu * (1 - mu) := mul_nonneg h0 (by linarith)
        have := mul_nonneg hm hd
        nlinarith
      · linarith
    linarith

theorem meet_box (thr : F) {mu : F} (h0 : 0 ≤ mu) (h1 : mu ≤ 1) {a b : Nat} {lo hi : F} {x : Nat → F}
    (ha : lo ≤ x a ∧ x a ≤ hi) (hb : lo ≤ x b ∧ x b ≤ hi) {i : Nat} (hi' : lo ≤ x i ∧ x i ≤ hi) :
    lo ≤ meet thr mu a b x i ∧ meet thr mu a b x i ≤ hi := by
  have key : ∀ u v : F, lo ≤ u ∧ u ≤ hi → lo ≤ v ∧ v ≤ hi → lo ≤ u - mu * (u - v) ∧ u - mu * (u - v) ≤ hi := by
    intro u v hu hv
    have e : u - mu * (u - v) = (1 - mu) * u + mu * v := by ring
    rw [e]
    have hm : 0 ≤ 1 - mu := by linarith
    constructor
    · have := mul_le_mul_of_nonneg_left hu.1 hm
      have := mul_le_mul_of_nonneg_left hv.1 h0
      linarith
    · have := mul_le_mul_of_nonneg_left hu.2 hm
      have := mul_le_mul_of_nonneg_left hv.2 h0
      linarith
  unfold meet
  split
  · simp only
    split
    · exact key _ _ ha hb
    · split
      · have := key _ _ hb ha
        have e : x b + mu * (x a - x b) = x b - mu * (x b - x a) := by ring
        rw [e]; exact this
      · exact hi'
  · exact hi'

end meetings
end Deffuant
end Seldon
