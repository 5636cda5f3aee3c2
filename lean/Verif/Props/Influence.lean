import Verif.Props.DeGrootRate
import Verif.Props.Indifference
import Verif.Props.Deffuant
import Verif.Spec.Influence
/-!
# Property C115: who can influence whom
-/
set_option linter.unusedSectionVars false
namespace Seldon
open Spec
variable {A A' F G G' : Type}

theorem Spec.Within.refl {N : Network A F} (k i : Nat) : Within N k i i := ⟨0, Nat.zero_le k, .here i⟩

theorem Spec.Within.mono {N : Network A F} {k l i j : Nat} (h : Within N k i j) (hkl : k ≤ l) : Within N l i j := by
  obtain ⟨m, hm, hc⟩ := h
  exact ⟨m, hm.trans hkl, hc⟩

theorem Spec.Within.step {N : Network A F} {k i l j : Nat} (h : Hears N i l) (hw : Within N k l j) : Within N (k + 1) i j := by
  obtain ⟨m, hm, hc⟩ := hw
  exact ⟨m + 1, by omega, .step h hc⟩

/-- A group that only listens to itself contains whatever can be reached from it. -/
theorem Spec.Within.closed {N : Network A F} {S : Nat → Prop} (hS : ∀ i, S i → ∀ j, Hears N i j → S j) {k i j : Nat} (hi : S i) (h : Within N k i j) : S j := by
  obtain ⟨m, -, hc⟩ := h
  induction hc with
  | here => exact hi
  | step h1 _ ih => exact ih (hS _ hi _ h1)

theorem Spec.Chain.snoc {N : Network A F} {k i j l : Nat} (h : Chain N k i j) (hl : Hears N j l) : Chain N (k + 1) i l := by
  induction h with
  | here => exact .step hl (.here _)
  | step h1 _ ih => exact .step h1 (ih hl)

theorem listens_mem {N : Network A F} {i : Nat} {e : Nat × F} (he : e ∈ row N i) : Hears N i e.1 := ⟨e.2, he⟩

theorem attr_none [Zero F] (f : A → F) {agents : List A} {i : Nat} (h : agents.length ≤ i) : attr f agents i = 0 := by
  unfold attr
  rw [List.getD_eq_getElem?_getD, List.getElem?_eq_none (by rw [List.length_map]; exact h)]
  rfl

/-! ## DeGroot -/

theorem weightedSumLR_congr [Zero F] [Add F] [Mul F] {N N' : Network A F} {i : Nat} (hr : row N' i = row N i) {x x' : Nat → F}
    (hx : ∀ j, Hears N i j → x' j = x j) : weightedSumLR N' x' i = weightedSumLR N x i := by
  unfold weightedSumLR
  rw [hr]
  have : ∀ (l : List (Nat × F)) (a : F), (∀ e ∈ l, x' e.1 = x e.1) → l.foldl (fun acc e => acc + e.2 * x' e.1) a = l.foldl (fun acc e => acc + e.2 * x e.1) a := by
    intro l
    induction l with
    | nil => exact fun a _ => rfl
    | cons e l ih =>
      intro a h
      rw [List.foldl_cons, List.foldl_cons, h e List.mem_cons_self]
      exact ih _ fun e he => h e (List.mem_cons_of_mem _ he)
  exact this _ _ fun e he => hx _ (listens_mem he)

theorem row_same {N N' : Network A F} {i : Nat} (h1 : N'.neighbours = N.neighbours) (h2 : N'.weights = N.weights) : row N' i = row N i := by
  unfold row; rw [h1, h2]

section
variable [Zero F] [Add F] [Mul F] [Sub F] [Neg F] [LT F] [DecidableLT F]

/-- C115, DeGroot: in any arithmetic, the opinion of agent `i` after `k` iterations depends only on the initial opinions of the agents at the end of a chain of exactly
`k` steps: if two runs on the same weighted network start with equal opinions of those agents, agent `i` has equal opinions after `k` iterations. -/
theorem C115_degroot {k : Nat} {s s' t t' : DeGroot F} (hs : s.Ready) (hs' : s'.Ready) (hw : SameWeights s s') (ht : Iterates DeGroot.iteration s k t)
    (ht' : Iterates DeGroot.iteration s' k t') {i : Nat} (hi : i < s.network.agents.length)
    (hx : ∀ j, Chain s.network k i j → opinionOf s'.network.agents j = opinionOf s.network.agents j) :
    opinionOf t'.network.agents i = opinionOf t.network.agents i := by
  induction k generalizing i t t' with
  | zero =>
    cases ht; cases ht'
    exact hx i (.here i)
  | succ k ih =>
    cases ht with | succ h1 h2 =>
    cases ht' with | succ h1' h2' =>
    obtain ⟨r1, r2, r3, r4⟩ := DeGroot.iterates_ready h1 hs
    obtain ⟨r1', r2', r3', r4'⟩ := DeGroot.iterates_ready h1' hs'
    obtain ⟨u, e1, -, -, -, -, -, e2⟩ := C29_iteration r1
    obtain rfl := Except.ok.inj (e1.symm.trans h2)
    obtain ⟨u', e1', -, -, -, -, -, e2'⟩ := C29_iteration r1'
    obtain rfl := Except.ok.inj (e1'.symm.trans h2')
    rw [e2 i (by omega), e2' i (by have := hw.size; omega)]
    have hrow := row_same (N := s.network) (i := i) r2 r3
    refine weightedSumLR_congr ?_ fun j hj => ?_
    · rw [hrow, row_same (N := s'.network) r2' r3', row_same hw.neighbours hw.weights]
    · have hj' : Hears s.network i j := by
        obtain ⟨w, hw⟩ := hj
        rw [hrow] at hw
        exact ⟨w, hw⟩
      refine ih h1 h1' ?_ fun l hl => hx l (.step hj' hl)
      obtain ⟨w, hw⟩ := hj'
      exact NetLemmas.row_lt hs.wf hw

/-- C115, DeGroot: in any arithmetic, a group of agents that listens only to itself evolves as if there were nobody else: if two runs, possibly with different numbers of
agents and different networks, agree on the opinions and the rows of the group, they agree on its opinions after any number of iterations. -/
theorem C115_degroot_group {k : Nat} {s s' t t' : DeGroot F} (hs : s.Ready) (hs' : s'.Ready) (ht : Iterates DeGroot.iteration s k t)
    (ht' : Iterates DeGroot.iteration s' k t') {S : Nat → Prop} (hS : ∀ i, S i → i < s.network.agents.length ∧ i < s'.network.agents.length)
    (hc : ∀ i, S i → ∀ j, Hears s.network i j → S j) (hrow : ∀ i, S i → row s'.network i = row s.network i)
    (hx : ∀ i, S i → opinionOf s'.network.agents i = opinionOf s.network.agents i) :
    ∀ i, S i → opinionOf t'.network.agents i = opinionOf t.network.agents i := by
  induction k generalizing t t' with
  | zero =>
    cases ht; cases ht'
    exact hx
  | succ k ih =>
    cases ht with | succ h1 h2 =>
    cases ht' with | succ h1' h2' =>
    intro i hi
    obtain ⟨r1, r2, r3, r4⟩ := DeGroot.iterates_ready h1 hs
    obtain ⟨r1', r2', r3', r4'⟩ := DeGroot.iterates_ready h1' hs'
    obtain ⟨u, e1, -, -, -, -, -, e2⟩ := C29_iteration r1
    obtain rfl := Except.ok.inj (e1.symm.trans h2)
    obtain ⟨u', e1', -, -, -, -, -, e2'⟩ := C29_iteration r1'
    obtain rfl := Except.ok.inj (e1'.symm.trans h2')
    have := hS i hi
    rw [e2 i (by omega), e2' i (by omega)]
    have hr := row_same (N := s.network) (i := i) r2 r3
    refine weightedSumLR_congr ?_ fun j hj => ?_
    · rw [hr, row_same (N := s'.network) r2' r3', hrow i hi]
    · obtain ⟨w, hw⟩ := hj
      rw [hr] at hw
      exact ih h1 h1' j (hc i hi j ⟨w, hw⟩)

end

/-- C115, DeGroot: and it does depend on them: over an ordered field and for positive weights, if no initial opinion is lower in the second run, and that of an agent at the
end of a chain of exactly `k` steps from `i` is higher, then agent `i` has a higher opinion after `k` iterations. -/
theorem C115_degroot_strict [Field F] [LinearOrder F] [IsStrictOrderedRing F] {k : Nat} {s s' t t' : DeGroot F} (hs : s.Ready) (hs' : s'.Ready)
    (hw : SameWeights s s') (hpos : ∀ i, i < s.network.agents.length → ∀ e ∈ row s.network i, 0 < e.2) (ht : Iterates DeGroot.iteration s k t)
    (ht' : Iterates DeGroot.iteration s' k t') (hx : ∀ j, opinionOf s.network.agents j ≤ opinionOf s'.network.agents j) {i j : Nat}
    (hi : i < s.network.agents.length) (hc : Chain s.network k i j) (hj : opinionOf s.network.agents j < opinionOf s'.network.agents j) :
    opinionOf t.network.agents i < opinionOf t'.network.agents i := by
  have weak : ∀ k t t', Iterates DeGroot.iteration s k t → Iterates DeGroot.iteration s' k t' → ∀ i, i < s.network.agents.length →
      opinionOf t.network.agents i ≤ opinionOf t'.network.agents i := by
    intro k
    induction k with
    | zero => intro t t' h h' i _; cases h; cases h'; exact hx i
    | succ k ih =>
      intro t t' h h' i hi
      cases h with | succ h1 h2 =>
      cases h' with | succ h1' h2' =>
      obtain ⟨r1, r2, r3, r4⟩ := DeGroot.iterates_ready h1 hs
      obtain ⟨r1', r2', r3', r4'⟩ := DeGroot.iterates_ready h1' hs'
      rw [C29_exact r1 h2 i (by omega), C29_exact r1' h2' i (by have := hw.size; omega)]
      unfold weightedSum
      rw [row_same (N := s'.network) r2' r3', row_same hw.neighbours hw.weights, row_same (N := s.network) r2 r3]
      exact List.sum_le_sum fun e he => mul_le_mul_of_nonneg_left (ih _ _ h1 h1' _ (NetLemmas.row_lt hs.wf he)) (hpos i hi e he).le
  induction k generalizing i t t' with
  | zero =>
    cases ht; cases ht'; cases hc
    exact hj
  | succ k ih =>
    cases ht with | succ h1 h2 =>
    cases ht' with | succ h1' h2' =>
    cases hc with | @step _ _ l _ hl hc =>
    obtain ⟨r1, r2, r3, r4⟩ := DeGroot.iterates_ready h1 hs
    obtain ⟨r1', r2', r3', r4'⟩ := DeGroot.iterates_ready h1' hs'
    rw [C29_exact r1 h2 i (by omega), C29_exact r1' h2' i (by have := hw.size; omega)]
    unfold weightedSum
    rw [row_same (N := s'.network) r2' r3', row_same hw.neighbours hw.weights, row_same (N := s.network) r2 r3]
    obtain ⟨w, hlw⟩ := hl
    refine List.sum_lt_sum _ _ (fun e he => mul_le_mul_of_nonneg_left (weak _ _ _ h1 h1' _ (NetLemmas.row_lt hs.wf he)) (hpos i hi e he).le) ⟨(l, w), hlw, ?_⟩
    exact mul_lt_mul_of_pos_left (ih h1 h1' (NetLemmas.row_lt hs.wf hlw) hc) (hpos i hi _ hlw)

/-! ## the activity-driven and the inertial model -/

section
variable [ActiveAgent A F] [Zero F] [One F] [Sub F] [Mul F] [Add F] [Div F] [Neg F] [NatCast F] [LT F] [LE F] [DecidableLT F] [DecidableLE F]

theorem Activity.slope_congr {o : MathOps F} {p : ActivitySettings F} {N N' : Network A F} {x x' : Nat → F} {i : Nat} (hr : row N' i = row N i)
    (hm : attr ActiveAgent.reluctance N'.agents i = attr ActiveAgent.reluctance N.agents i) (hx : x' i = x i) (hn : ∀ j, Hears N i j → x' j = x j) :
    Activity.slope o p N' x' i = Activity.slope o p N x i := by
  unfold Activity.slope
  rw [hr, hm, hx]
  generalize -(x i) = a
  have hn : ∀ e ∈ row N i, x' e.1 = x e.1 := fun e he => hn _ (listens_mem he)
  generalize row N i = l at hn
  induction l generalizing a with
  | nil => rfl
  | cons e l ih =>
    rw [List.foldl_cons, List.foldl_cons, hn e List.mem_cons_self]
    exact ih (a := _) fun e he => hn e (List.mem_cons_of_mem _ he)

/-- What a successful iteration consists of, in any arithmetic. -/
theorem Activity.parts {o : MathOps F} {pick : List (Nat × F) → Nat} {r : Rng G F} {s t : Activity A F G}
    (h : Activity.iteration o pick r s = .ok t) : ∃ (N : Network A F) (l : List A), N.agents = s.network.agents ∧
      t.network = { N with agents := l } ∧ Activity.rkStep o s.p N = .ok l := by
  unfold Activity.iteration at h
  obtain ⟨u, h1, h⟩ := Res.bind_eq_ok.mp h
  obtain ⟨l, h2, h⟩ := Res.bind_eq_ok.mp h
  obtain ⟨e1, e2, -⟩ := Activity.updateNetwork_frame h1
  rw [e2] at h2
  exact ⟨u.network, l, e1, by rw [← Except.ok.inj h], h2⟩

theorem bots_fit' {p : ActivitySettings F} {l : List A} (h : ∀ i, i < p.nBots → ∃ a, l[i]? = some a ∧ p.botOpinion[i]? = some (ActiveAgent.opinion a)) :
    p.nBots ≤ l.length ∧ p.nBots ≤ p.botOpinion.length := by
  by_cases h0 : p.nBots = 0
  · omega
  · obtain ⟨a, h1, h2⟩ := h (p.nBots - 1) (by omega)
    have := (List.getElem?_eq_some_iff.mp h1).1
    have := (List.getElem?_eq_some_iff.mp h2).1
    omega

/-- The opinion of an agent after an iteration. -/
theorem Activity.opinion_after [LawfulActiveAgent A F] {o : MathOps F} {pick : List (Nat × F) → Nat} {r : Rng G F} {s t : Activity A F G}
    (h : Activity.iteration o pick r s = .ok t) (hw : WF t.network) : ∃ N : Network A F, N.agents = s.network.agents ∧ N.neighbours = t.network.neighbours ∧
      N.weights = t.network.weights ∧ t.network.agents.length = s.network.agents.length ∧ ∀ i, i < s.network.agents.length → attr ActiveAgent.opinion t.network.agents i =
        if i < s.p.nBots then s.p.botOpinion.getD i 0 else Activity.rkOpinion o s.p N i (attr ActiveAgent.opinion s.network.agents i) := by
  obtain ⟨N, l, hN, ht, hl⟩ := Activity.parts h
  have hB := (Activity.iteration_frame h).1
  have hlen : l.length = N.agents.length := by
    have := hB.traits.length
    rw [ht] at this
    rw [hN]; exact this
  have hw' : WF N := by
    rw [ht] at hw
    exact ⟨by rw [← hlen]; exact hw.rows, by rw [← hlen]; exact hw.wrows, hw.lengths, by rw [← hlen]; exact hw.range⟩
  have hb := hB.bots
  rw [ht] at hb
  obtain ⟨b1, b2⟩ := bots_fit' hb
  have := Activity.rkStep_eq o s.p hw' (by rw [← hlen]; exact b1) b2
  rw [hl] at this
  have hle := Except.ok.inj this
  refine ⟨N, hN, by rw [ht], by rw [ht], by rw [ht]; simp only; rw [hlen, hN], fun i hi => ?_⟩
  rw [ht]
  dsimp only
  rw [hle, Activity.attr_mapIdx _ _ (by rw [hN]; exact hi)]
  split
  · rw [LawfulActiveAgent.opinion_setOpinion]
  · rw [LawfulActiveAgent.opinion_setOpinion, ← Activity.attr_lt ActiveAgent.opinion (by rw [hN]; exact hi), hN]

/-- C115, activity-driven model: in any arithmetic, the opinion of an agent after an iteration depends only on the opinions, before the iteration, of the agents within four
steps, each from an agent to one it listens to in the network of that iteration: if two iterations with the same settings (of any two runs, whatever their generators do)
agree on the opinions within four steps of `i`, and on reluctances and rows within three, then they agree on the opinion of `i` afterwards. -/
theorem C115_activity [LawfulActiveAgent A F] {o : MathOps F} {pick pick' : List (Nat × F) → Nat} {r : Rng G F} {r' : Rng G' F} {s t : Activity A F G}
    {s' t' : Activity A F G'} (ht : Activity.iteration o pick r s = .ok t) (ht' : Activity.iteration o pick' r' s' = .ok t') (hw : WF t.network)
    (hw' : WF t'.network) (hp : s'.p = s.p) {i : Nat} (hi : i < s.network.agents.length) (hi' : i < s'.network.agents.length)
    (hx : ∀ j, Within t.network 4 i j → attr ActiveAgent.opinion s'.network.agents j = attr ActiveAgent.opinion s.network.agents j)
    (hm : ∀ j, Within t.network 3 i j → attr ActiveAgent.reluctance s'.network.agents j = attr ActiveAgent.reluctance s.network.agents j ∧
      row t'.network j = row t.network j) :
    attr ActiveAgent.opinion t'.network.agents i = attr ActiveAgent.opinion t.network.agents i := by
  obtain ⟨N, n1, n2, n3, -, n4⟩ := Activity.opinion_after ht hw
  obtain ⟨N', n1', n2', n3', -, n4'⟩ := Activity.opinion_after ht' hw'
  rw [n4 i hi, n4' i hi', hp]
  split
  · rfl
  have hr : ∀ j, row N j = row t.network j := fun j => by unfold row; rw [n2, n3]
  have hr' : ∀ j, row N' j = row t'.network j := fun j => by unfold row; rw [n2', n3']
  have hL : ∀ j l, Hears N j l → Hears t.network j l := fun j l ⟨w, hw⟩ => ⟨w, by rw [← hr j]; exact hw⟩
  have hX : ∀ j, Within t.network 4 i j → attr ActiveAgent.opinion N'.agents j = attr ActiveAgent.opinion N.agents j := fun j hj => by rw [n1, n1']; exact hx j hj
  have hM : ∀ j, Within t.network 3 i j → attr ActiveAgent.reluctance N'.agents j = attr ActiveAgent.reluctance N.agents j ∧ row N' j = row N j := fun j hj => by
    rw [n1, n1', hr, hr']; exact hm j hj
  -- the stages: `l` steps away from `i` the stage `m` only sees what lies within `l + m` steps
  have snoc : ∀ (l j : Nat), Within t.network l i j → ∀ q, Hears N j q → Within t.network (l + 1) i q := by
    intro l j ⟨m, hm, hc⟩ q hq
    exact ⟨m + 1, by omega, hc.snoc (hL _ _ hq)⟩
  have st1 : ∀ j, Within t.network 3 i j → Activity.stage1 o s.p N' j = Activity.stage1 o s.p N j := fun j hj =>
    Activity.slope_congr (hM j hj).2 (hM j hj).1 (hX j (hj.mono (by omega))) fun q hq => hX q (snoc 3 j hj q hq)
  have st2 : ∀ j, Within t.network 2 i j → Activity.stage2 o s.p N' j = Activity.stage2 o s.p N j := fun j hj => by
    have h3 := hj.mono (l := 3) (by omega)
    refine Activity.slope_congr (hM j h3).2 (hM j h3).1 ?_ fun q hq => ?_
    · rw [hX j (hj.mono (by omega)), st1 j h3]
    · have := snoc 2 j hj q hq
      rw [hX q (this.mono (by omega)), st1 q this]
  have st3 : ∀ j, Within t.network 1 i j → Activity.stage3 o s.p N' j = Activity.stage3 o s.p N j := fun j hj => by
    have h3 := hj.mono (l := 3) (by omega)
    have h2 := hj.mono (l := 2) (by omega)
    refine Activity.slope_congr (hM j h3).2 (hM j h3).1 ?_ fun q hq => ?_
    · rw [hX j (hj.mono (by omega)), st2 j h2]
    · have := snoc 1 j hj q hq
      rw [hX q (this.mono (by omega)), st2 q this]
  have h0 : Within t.network 0 i i := Within.refl 0 i
  have st4 : Activity.stage4 o s.p N' i = Activity.stage4 o s.p N i := by
    refine Activity.slope_congr (hM i (h0.mono (by omega))).2 (hM i (h0.mono (by omega))).1 ?_ fun q hq => ?_
    · rw [hX i (h0.mono (by omega)), st3 i (h0.mono (by omega))]
    · have := snoc 0 i h0 q hq
      rw [hX q (this.mono (by omega)), st3 q this]
  unfold Activity.rkOpinion
  rw [st1 i (h0.mono (by omega)), st2 i (h0.mono (by omega)), st3 i (h0.mono (by omega)), st4, hx i (h0.mono (by omega))]

/-- C115, activity-driven model, whole runs: let `S k` be any set of agents for each number `k` of iterations, such that whoever is within four steps of an agent of
`S (k+1)` in the network of iteration `k+1` belongs to `S k`. If two runs with the same settings and numbers of agents agree on the initial opinions of `S 0`, on the
reluctances, and in each iteration `k+1` on the rows of the agents of `S k`, then they agree on the opinions of `S k` after `k` iterations, for all `k`. -/
theorem C115_activity_history [LawfulActiveAgent A F] {o : MathOps F} {pick pick' : List (Nat × F) → Nat} {r : Rng G F} {r' : Rng G' F} {K : Nat}
    {st : Nat → Activity A F G} {st' : Nat → Activity A F G'} (ht : ∀ k, k < K → Activity.iteration o pick r (st k) = .ok (st (k + 1)) ∧ WF (st (k + 1)).network)
    (ht' : ∀ k, k < K → Activity.iteration o pick' r' (st' k) = .ok (st' (k + 1)) ∧ WF (st' (k + 1)).network) (hp : (st' 0).p = (st 0).p)
    (hlen : (st' 0).network.agents.length = (st 0).network.agents.length) {S : Nat → Nat → Prop}
    (hS : ∀ k, k < K → ∀ i, S (k + 1) i → ∀ j, Within (st (k + 1)).network 4 i j → S k j)
    (hm : ∀ j, attr ActiveAgent.reluctance (st' 0).network.agents j = attr ActiveAgent.reluctance (st 0).network.agents j)
    (hr : ∀ k, k < K → ∀ j, S k j → row (st' (k + 1)).network j = row (st (k + 1)).network j)
    (hx : ∀ j, S 0 j → attr ActiveAgent.opinion (st' 0).network.agents j = attr ActiveAgent.opinion (st 0).network.agents j) :
    ∀ k, k ≤ K → ∀ i, S k i → attr ActiveAgent.opinion (st' k).network.agents i = attr ActiveAgent.opinion (st k).network.agents i := by
  have frame : ∀ k, k ≤ K → (st k).p = (st 0).p ∧ (st k).network.agents.length = (st 0).network.agents.length ∧
      attr ActiveAgent.reluctance (st k).network.agents = attr ActiveAgent.reluctance (st 0).network.agents := by
    intro k
    induction k with
    | zero => exact fun _ => ⟨rfl, rfl, rfl⟩
    | succ k ih =>
      intro hk
      obtain ⟨i1, i2, i3⟩ := ih (by omega)
      obtain ⟨hB, hp, -⟩ := Activity.iteration_frame (ht k (by omega)).1
      refine ⟨hp.trans i1, hB.traits.length.trans i2, ?_⟩
      rw [← i3]; unfold attr; rw [hB.traits.2]
  have frame' : ∀ k, k ≤ K → (st' k).p = (st' 0).p ∧ (st' k).network.agents.length = (st' 0).network.agents.length ∧
      attr ActiveAgent.reluctance (st' k).network.agents = attr ActiveAgent.reluctance (st' 0).network.agents := by
    intro k
    induction k with
    | zero => exact fun _ => ⟨rfl, rfl, rfl⟩
    | succ k ih =>
      intro hk
      obtain ⟨i1, i2, i3⟩ := ih (by omega)
      obtain ⟨hB, hp, -⟩ := Activity.iteration_frame (ht' k (by omega)).1
      refine ⟨hp.trans i1, hB.traits.length.trans i2, ?_⟩
      rw [← i3]; unfold attr; rw [hB.traits.2]
  intro k
  induction k with
  | zero => exact fun _ => hx
  | succ k ih =>
    intro hk i hi
    obtain ⟨f1, f2, f3⟩ := frame k (by omega)
    obtain ⟨f1', f2', f3'⟩ := frame' k (by omega)
    by_cases hin : i < (st 0).network.agents.length
    · refine C115_activity (ht k (by omega)).1 (ht' k (by omega)).1 (ht k (by omega)).2 (ht' k (by omega)).2 (by rw [f1, f1', hp]) (by omega) (by omega) ?_ ?_
      · exact fun j hj => ih (by omega) j (hS k (by omega) i hi j hj)
      · intro j hj
        refine ⟨?_, hr k (by omega) j (hS k (by omega) i hi j (hj.mono (by omega)))⟩
        rw [f3, f3', hm j]
    · have e1 := (frame (k + 1) hk).2.1
      have e2 := (frame' (k + 1) hk).2.1
      rw [attr_none _ (by omega), attr_none _ (by omega)]

end

section
variable [Zero F] [One F] [Sub F] [Mul F] [Add F] [Div F] [Neg F] [NatCast F] [LT F] [LE F] [DecidableLT F] [DecidableLE F]

/-- Opinion and velocity of an agent after an iteration of the inertial model. -/
theorem Inertial.state_after {o : MathOps F} {pick : List (Nat × F) → Nat} {r : Rng G F} {s t : Inertial F G}
    (h : Inertial.iteration o pick r s = .ok t) (hw : WF t.base.network) : ∃ N : Network (InertialAgent F) F, N.agents = s.base.network.agents ∧
      N.neighbours = t.base.network.neighbours ∧ N.weights = t.base.network.weights ∧ ∀ i, (hi : i < N.agents.length) →
        attr (·.opinion) t.base.network.agents i =
          (if i < s.base.p.nBots then s.base.p.botOpinion.getD i 0 else (Inertial.moved o s.base.p s.friction N i N.agents[i]).opinion) ∧
        attr (·.velocity) t.base.network.agents i = (Inertial.kicked o s.base.p s.friction N i N.agents[i]).velocity := by
  have h0 := h
  unfold Inertial.iteration at h
  obtain ⟨u, h1, h⟩ := Res.bind_eq_ok.mp h
  obtain ⟨l, h2, h⟩ := Res.bind_eq_ok.mp h
  obtain ⟨hN, e2, -⟩ := Activity.updateNetwork_frame h1
  rw [e2] at h2
  have ht : t.base.network = { u.network with agents := l } := by rw [← Except.ok.inj h]
  have hB := (Inertial.iteration_frame h0).1
  have hlen : l.length = u.network.agents.length := by
    have := hB.traits.length
    rw [ht] at this
    rw [hN]; exact this
  have hw' : WF u.network := by
    rw [ht] at hw
    exact ⟨by rw [← hlen]; exact hw.rows, by rw [← hlen]; exact hw.wrows, hw.lengths, by rw [← hlen]; exact hw.range⟩
  have hb := hB.bots
  rw [ht] at hb
  obtain ⟨b1, b2⟩ := bots_fit' hb
  have := Inertial.verletStep_eq o s.base.p s.friction hw' (by rw [← hlen]; exact b1) b2
  dsimp only at h2
  rw [h2] at this
  have hle := Except.ok.inj this
  refine ⟨u.network, hN, by rw [ht], by rw [ht], fun i hi => ?_⟩
  rw [ht]
  dsimp only
  rw [hle, Activity.attr_mapIdx _ _ hi, Activity.attr_mapIdx _ _ hi]
  constructor
  · split <;> rfl
  · split <;> rfl

theorem Inertial.moved_congr {o : MathOps F} {p : ActivitySettings F} {c : F} {N N' : Network (InertialAgent F) F} {i : Nat} (hi : i < N.agents.length)
    (hi' : i < N'.agents.length) (hr : row N' i = row N i) (hm : attr ActiveAgent.reluctance N'.agents i = attr ActiveAgent.reluctance N.agents i)
    (hx : attr ActiveAgent.opinion N'.agents i = attr ActiveAgent.opinion N.agents i)
    (hn : ∀ j, Hears N i j → attr ActiveAgent.opinion N'.agents j = attr ActiveAgent.opinion N.agents j)
    (hv : attr (·.velocity) N'.agents i = attr (·.velocity) N.agents i) :
    (Inertial.moved o p c N' i N'.agents[i]).opinion = (Inertial.moved o p c N i N.agents[i]).opinion := by
  have e := Activity.slope_congr (o := o) (p := p) hr hm hx hn
  rw [Activity.attr_lt _ hi, Activity.attr_lt _ hi'] at hv
  rw [Activity.attr_lt _ hi, Activity.attr_lt _ hi'] at hx
  have hx : N'.agents[i].opinion = N.agents[i].opinion := hx
  unfold Inertial.moved
  dsimp only
  rw [e, hx, hv]

/-- C115, inertial model: in any arithmetic, an iteration lets an agent feel opinions at most one step away in its new opinion and at most two steps away in its new
velocity: if two iterations with the same settings and the same friction (of any two runs, whatever their generators do) agree on the reluctance and the row of `i`, on its
velocity and on the opinions within one step of it, they agree on the opinion of `i` afterwards; if they agree on the reluctances, rows and velocities within one step and the
opinions within two, they agree on its velocity as well. -/
theorem C115_inertial {o : MathOps F} {pick pick' : List (Nat × F) → Nat} {r : Rng G F} {r' : Rng G' F} {s t : Inertial F G} {s' t' : Inertial F G'}
    (ht : Inertial.iteration o pick r s = .ok t) (ht' : Inertial.iteration o pick' r' s' = .ok t') (hw : WF t.base.network) (hw' : WF t'.base.network)
    (hp : s'.base.p = s.base.p) (hc : s'.friction = s.friction) {i : Nat} (hi : i < s.base.network.agents.length) (hi' : i < s'.base.network.agents.length) :
    ((∀ j, Within t.base.network 1 i j → attr (·.opinion) s'.base.network.agents j = attr (·.opinion) s.base.network.agents j) →
      attr (·.velocity) s'.base.network.agents i = attr (·.velocity) s.base.network.agents i →
      attr (·.reluctance) s'.base.network.agents i = attr (·.reluctance) s.base.network.agents i → row t'.base.network i = row t.base.network i →
      attr (·.opinion) t'.base.network.agents i = attr (·.opinion) t.base.network.agents i) ∧
    ((∀ j, Within t.base.network 2 i j → attr (·.opinion) s'.base.network.agents j = attr (·.opinion) s.base.network.agents j) →
      (∀ j, Within t.base.network 1 i j → attr (·.velocity) s'.base.network.agents j = attr (·.velocity) s.base.network.agents j ∧
        attr (·.reluctance) s'.base.network.agents j = attr (·.reluctance) s.base.network.agents j ∧ row t'.base.network j = row t.base.network j) →
      attr (·.velocity) t'.base.network.agents i = attr (·.velocity) t.base.network.agents i) := by
  obtain ⟨N, n1, n2, n3, n4⟩ := Inertial.state_after ht hw
  obtain ⟨N', n1', n2', n3', n4'⟩ := Inertial.state_after ht' hw'
  have hr : ∀ j, row N j = row t.base.network j := fun j => by unfold row; rw [n2, n3]
  have hr' : ∀ j, row N' j = row t'.base.network j := fun j => by unfold row; rw [n2', n3']
  have hlen : N.agents.length = t.base.network.agents.length := by rw [n1]; exact (Inertial.iteration_frame ht).1.traits.length.symm
  have hlen' : N'.agents.length = t'.base.network.agents.length := by rw [n1']; exact (Inertial.iteration_frame ht').1.traits.length.symm
  have hL : ∀ j l, Hears N j l → Hears t.base.network j l := fun j l ⟨w, hw⟩ => ⟨w, by rw [← hr j]; exact hw⟩
  have hrange : ∀ l, Hears N i l → row t'.base.network i = row t.base.network i → l < N.agents.length ∧ l < N'.agents.length := fun l hj e => by
    obtain ⟨w, hw1⟩ := hL i l hj
    have h1 := NetLemmas.row_lt hw hw1
    rw [← e] at hw1
    have h2 := NetLemmas.row_lt hw' hw1
    dsimp only at h1 h2
    omega
  rw [← n1] at hi
  rw [← n1'] at hi'
  obtain ⟨a1, a2⟩ := n4 i hi
  obtain ⟨b1, b2⟩ := n4' i hi'
  rw [hp, hc] at b1 b2
  rw [← n1, ← n1']
  have snoc : ∀ (l j : Nat), Within t.base.network l i j → ∀ q, Hears N j q → Within t.base.network (l + 1) i q := by
    intro l j ⟨m, hm, hc⟩ q hq
    exact ⟨m + 1, by omega, hc.snoc (hL _ _ hq)⟩
  have h0 : Within t.base.network 0 i i := Within.refl 0 i
  constructor
  · intro hx hv hm hrow
    rw [a1, b1]
    split
    · rfl
    · exact Inertial.moved_congr hi hi' (by rw [hr, hr', hrow]) hm (hx i (h0.mono (by omega))) (fun j hj => hx j (snoc 0 i h0 j hj)) hv
  · intro hx hm
    have hmv : ∀ j, Within t.base.network 1 i j → (h : j < N.agents.length) → (h' : j < N'.agents.length) →
        (Inertial.moved o s.base.p s.friction N' j N'.agents[j]).opinion = (Inertial.moved o s.base.p s.friction N j N.agents[j]).opinion := by
      intro j hj h h'
      obtain ⟨m1, m2, m3⟩ := hm j hj
      exact Inertial.moved_congr h h' (by rw [hr, hr', m3]) m2 (hx j (hj.mono (by omega))) (fun q hq => hx q (snoc 1 j hj q hq)) m1
    obtain ⟨m1, m2, m3⟩ := hm i (h0.mono (by omega))
    have e1 : Activity.slope o s.base.p N' (attr ActiveAgent.opinion N'.agents) i = Activity.slope o s.base.p N (attr ActiveAgent.opinion N.agents) i :=
      Activity.slope_congr (by rw [hr, hr', m3]) m2 (hx i (h0.mono (by omega))) fun j hj => hx j ((snoc 0 i h0 j hj).mono (by omega))
    have emv : ∀ j, (h : j < N.agents.length) → attr ActiveAgent.opinion (Inertial.movedNet o s.base.p s.friction N).agents j =
        (Inertial.moved o s.base.p s.friction N j N.agents[j]).opinion := fun j h => Activity.attr_mapIdx _ _ h
    have emv' : ∀ j, (h : j < N'.agents.length) → attr ActiveAgent.opinion (Inertial.movedNet o s.base.p s.friction N').agents j =
        (Inertial.moved o s.base.p s.friction N' j N'.agents[j]).opinion := fun j h => Activity.attr_mapIdx _ _ h
    have erel : attr ActiveAgent.reluctance (Inertial.movedNet o s.base.p s.friction N').agents i =
        attr ActiveAgent.reluctance (Inertial.movedNet o s.base.p s.friction N).agents i := by
      have q : attr ActiveAgent.reluctance (Inertial.movedNet o s.base.p s.friction N).agents i = (N.agents[i]).reluctance := Activity.attr_mapIdx _ _ hi
      have q' : attr ActiveAgent.reluctance (Inertial.movedNet o s.base.p s.friction N').agents i = (N'.agents[i]).reluctance := Activity.attr_mapIdx _ _ hi'
      rw [Activity.attr_lt _ hi, Activity.attr_lt _ hi'] at m2
      rw [q, q', m2]
    have e2 : Activity.slope o s.base.p (Inertial.movedNet o s.base.p s.friction N') (attr ActiveAgent.opinion (Inertial.movedNet o s.base.p s.friction N').agents) i =
        Activity.slope o s.base.p (Inertial.movedNet o s.base.p s.friction N) (attr ActiveAgent.opinion (Inertial.movedNet o s.base.p s.friction N).agents) i := by
      refine Activity.slope_congr ?_ erel ?_ fun j hj => ?_
      · exact (hr' i).trans (m3.trans (hr i).symm)
      · rw [emv i hi, emv' i hi', hmv i (h0.mono (by omega)) hi hi']
      · obtain ⟨h, h'⟩ := hrange j hj m3
        rw [emv j h, emv' j h', hmv j (snoc 0 i h0 j hj) h h']
    rw [a2, b2]
    unfold Inertial.kicked
    dsimp only
    rw [Activity.attr_lt _ hi, Activity.attr_lt _ hi'] at m1
    rw [e1, e2, m1]

end

/-! ## whole runs without homophily -/

section
variable [Zero F] [One F] [Sub F] [Mul F] [Add F] [Div F] [Neg F] [NatCast F] [LT F] [LE F] [DecidableLT F] [DecidableLE F]

theorem Spec.SameStart.along [ActiveAgent A F] [LawfulActiveAgent A F] {o : MathOps F} (ho : ∀ x, o.pow x (-0) = 1) {pick : List (Nat × F) → Nat} {r : Rng G F} {K : Nat}
    {st st' : Nat → Activity A F G} (ht : ∀ k, k < K → Activity.iteration o pick r (st k) = .ok (st (k + 1)))
    (ht' : ∀ k, k < K → Activity.iteration o pick r (st' k) = .ok (st' (k + 1))) (h : SameStart (st 0) (st' 0)) : ∀ k, k ≤ K → SameStart (st k) (st' k) := by
  intro k
  induction k with
  | zero => exact fun _ => h
  | succ k ih => exact fun hk => (ih (by omega)).activity ho (ht k (by omega)) (ht' k (by omega))

/-- C115, activity-driven model without homophily, whole runs: two runs with the same settings, the same random numbers, the same activities and the same reluctances agree
on the opinion of agent `i` after `k` iterations if they agree on the initial opinions of the agents upstream of `i`, at most four steps per iteration. For every arithmetic
in which `x^(-0) = 1`, in particular IEEE double precision. -/
theorem C115_activity_run [ActiveAgent A F] [LawfulActiveAgent A F] {o : MathOps F} (ho : ∀ x, o.pow x (-0) = 1) {pick : List (Nat × F) → Nat} {r : Rng G F} {K : Nat}
    {st st' : Nat → Activity A F G} (ht : ∀ k, k < K → Activity.iteration o pick r (st k) = .ok (st (k + 1)) ∧ WF (st (k + 1)).network)
    (ht' : ∀ k, k < K → Activity.iteration o pick r (st' k) = .ok (st' (k + 1)) ∧ WF (st' (k + 1)).network) (h : SameStart (st 0) (st' 0))
    (hp : (st' 0).p = (st 0).p)
    (hm : ∀ j, attr ActiveAgent.reluctance (st' 0).network.agents j = attr ActiveAgent.reluctance (st 0).network.agents j) {k i : Nat} (hk : k ≤ K)
    (hx : ∀ j, Upstream (fun k => (st k).network) 4 k i j → attr ActiveAgent.opinion (st' 0).network.agents j = attr ActiveAgent.opinion (st 0).network.agents j) :
    attr ActiveAgent.opinion (st' k).network.agents i = attr ActiveAgent.opinion (st k).network.agents i := by
  have hs := Spec.SameStart.along ho (fun k hk => (ht k hk).1) (fun k hk => (ht' k hk).1) h
  have hlen : (st' 0).network.agents.length = (st 0).network.agents.length := by simpa using congrArg List.length h.network.activity
  -- whoever is upstream of `i` after the iterations from `q` on
  let S : Nat → Nat → Prop := fun q j => ∀ l, Upstream (fun k => (st k).network) 4 q j l →
    attr ActiveAgent.opinion (st' 0).network.agents l = attr ActiveAgent.opinion (st 0).network.agents l
  refine C115_activity_history ht ht' hp hlen (S := S) ?_ hm ?_ ?_ k hk i hx
  · intro q _ j hj l hl m hm
    exact hj m (.step hl hm)
  · intro q hq j _
    exact row_same (hs (q + 1) (by omega)).network.neighbours (hs (q + 1) (by omega)).network.weights
  · intro j hj
    exact hj j (.here j)

theorem Spec.SameStart.along_inertial {o : MathOps F} (ho : ∀ x, o.pow x (-0) = 1) {pick : List (Nat × F) → Nat} {r : Rng G F} {K : Nat}
    {st st' : Nat → Inertial F G} (ht : ∀ k, k < K → Inertial.iteration o pick r (st k) = .ok (st (k + 1)))
    (ht' : ∀ k, k < K → Inertial.iteration o pick r (st' k) = .ok (st' (k + 1))) (h : SameStart (st 0).base (st' 0).base) : ∀ k, k ≤ K → SameStart (st k).base (st' k).base := by
  intro k
  induction k with
  | zero => exact fun _ => h
  | succ k ih => exact fun hk => (ih (by omega)).inertial ho (ht k (by omega)) (ht' k (by omega))

/-- C115, inertial model without homophily, whole runs: the same for the opinion and the velocity, at most two steps per iteration. -/
theorem C115_inertial_run {o : MathOps F} (ho : ∀ x, o.pow x (-0) = 1) {pick : List (Nat × F) → Nat} {r : Rng G F} {K : Nat} {st st' : Nat → Inertial F G}
    (ht : ∀ k, k < K → Inertial.iteration o pick r (st k) = .ok (st (k + 1)) ∧ WF (st (k + 1)).base.network)
    (ht' : ∀ k, k < K → Inertial.iteration o pick r (st' k) = .ok (st' (k + 1)) ∧ WF (st' (k + 1)).base.network) (h : SameStart (st 0).base (st' 0).base)
    (hp : (st' 0).base.p = (st 0).base.p) (hc : (st' 0).friction = (st 0).friction)
    (hm : ∀ j, attr (·.reluctance) (st' 0).base.network.agents j = attr (·.reluctance) (st 0).base.network.agents j) {k i : Nat} (hk : k ≤ K)
    (hi : i < (st 0).base.network.agents.length)
    (hx : ∀ j, Upstream (fun k => (st k).base.network) 2 k i j → attr (·.opinion) (st' 0).base.network.agents j = attr (·.opinion) (st 0).base.network.agents j ∧
      attr (·.velocity) (st' 0).base.network.agents j = attr (·.velocity) (st 0).base.network.agents j) :
    attr (·.opinion) (st' k).base.network.agents i = attr (·.opinion) (st k).base.network.agents i ∧
      attr (·.velocity) (st' k).base.network.agents i = attr (·.velocity) (st k).base.network.agents i := by
  have hs := Spec.SameStart.along_inertial ho (fun k hk => (ht k hk).1) (fun k hk => (ht' k hk).1) h
  have hlen : (st' 0).base.network.agents.length = (st 0).base.network.agents.length := by simpa using congrArg List.length h.network.activity
  have frame : ∀ k, k ≤ K → (st k).base.p = (st 0).base.p ∧ (st k).friction = (st 0).friction ∧ (st k).base.network.agents.length = (st 0).base.network.agents.length ∧
      attr (·.reluctance) (st k).base.network.agents = attr (·.reluctance) (st 0).base.network.agents := by
    intro k
    induction k with
    | zero => exact fun _ => ⟨rfl, rfl, rfl, rfl⟩
    | succ k ih =>
      intro hk
      obtain ⟨i1, i2, i3, i4⟩ := ih (by omega)
      obtain ⟨hB, hp, hf⟩ := Inertial.iteration_frame (ht k (by omega)).1
      refine ⟨hp.trans i1, hf.2.trans i2, hB.traits.length.trans i3, ?_⟩
      rw [← i4]; unfold attr
      have := hB.traits.2
      exact congrArg (fun (l : List F) (i : Nat) => l.getD i 0) this
  have frame' : ∀ k, k ≤ K → (st' k).base.p = (st' 0).base.p ∧ (st' k).friction = (st' 0).friction ∧
      (st' k).base.network.agents.length = (st' 0).base.network.agents.length ∧
      attr (·.reluctance) (st' k).base.network.agents = attr (·.reluctance) (st' 0).base.network.agents := by
    intro k
    induction k with
    | zero => exact fun _ => ⟨rfl, rfl, rfl, rfl⟩
    | succ k ih =>
      intro hk
      obtain ⟨i1, i2, i3, i4⟩ := ih (by omega)
      obtain ⟨hB, hp, hf⟩ := Inertial.iteration_frame (ht' k (by omega)).1
      refine ⟨hp.trans i1, hf.2.trans i2, hB.traits.length.trans i3, ?_⟩
      rw [← i4]; unfold attr
      have := hB.traits.2
      exact congrArg (fun (l : List F) (i : Nat) => l.getD i 0) this
  induction k generalizing i with
  | zero => exact hx i (.here i)
  | succ k ih =>
    obtain ⟨f1, f2, f3, f4⟩ := frame k (by omega)
    obtain ⟨f1', f2', f3', f4'⟩ := frame' k (by omega)
    have hw := (ht k (by omega)).2
    have hl : (st (k + 1)).base.network.agents.length = (st 0).base.network.agents.length := (frame (k + 1) hk).2.2.1
    have key : ∀ j, Within (st (k + 1)).base.network 2 i j → attr (·.opinion) (st' k).base.network.agents j = attr (·.opinion) (st k).base.network.agents j ∧
        attr (·.velocity) (st' k).base.network.agents j = attr (·.velocity) (st k).base.network.agents j := by
      intro j hj
      have hj' : j < (st 0).base.network.agents.length :=
        hj.closed (S := fun j => j < (st 0).base.network.agents.length) (fun a _ b ⟨w, hb⟩ => by have := NetLemmas.row_lt hw hb; dsimp only at this; omega) hi
      exact ih (by omega) hj' fun l hl => hx l (.step hj hl)
    have hrow : ∀ j, row (st' (k + 1)).base.network j = row (st (k + 1)).base.network j := fun j =>
      row_same (hs (k + 1) hk).network.neighbours (hs (k + 1) hk).network.weights
    obtain ⟨c1, c2⟩ := C115_inertial (ht k (by omega)).1 (ht' k (by omega)).1 hw (ht' k (by omega)).2 (by rw [f1, f1', hp]) (by rw [f2, f2', hc]) (i := i)
      (by omega) (by omega)
    have h0 : Within (st (k + 1)).base.network 0 i i := Within.refl 0 i
    exact ⟨c1 (fun j hj => (key j (hj.mono (by omega))).1) (key i (h0.mono (by omega))).2 (by rw [f4, f4', hm i]) (hrow i),
      c2 (fun j hj => (key j hj).1) fun j hj => ⟨(key j (hj.mono (by omega))).2, by rw [f4, f4', hm j], hrow j⟩⟩

end

/-! ## the Deffuant model on a network -/

section
variable [Add F] [Mul F] [Sub F] [Zero F] [Neg F] [LT F] [DecidableLT F]

/-- Agreement of two runs of the Deffuant model on a set of agents. -/
structure Deffuant.Agree (S : Nat → Prop) (s s' : Deffuant (SimpleAgent F) F G) : Prop where
  uses : s.useNetwork = true
  uses' : s'.useNetwork = true
  threshold : s'.threshold = s.threshold
  mu : s'.mu = s.mu
  neighbours : s'.network.neighbours = s.network.neighbours
  size : s'.network.agents.length = s.network.agents.length
  gen : s'.gen = s.gen
  agents : ∀ i, S i → s'.network.agents[i]? = s.network.agents[i]?

/-- What a pair drawn from the network is. -/
theorem Deffuant.selectPair_network {r : Rng G F} {s u : Deffuant (SimpleAgent F) F G} {pair : List Nat} (hu : s.useNetwork = true)
    (h : selectPair r s = .ok (pair, u)) :
    ∃ l, s.network.neighbours[((r.int 0 (Text.subSz s.network.agents.length 1) s.gen).1)]? = some l ∧
      ∃ b, l[((r.int 0 (Text.subSz l.length 1) (r.int 0 (Text.subSz s.network.agents.length 1) s.gen).2).1)]? = some b ∧
      pair = [(r.int 0 (Text.subSz s.network.agents.length 1) s.gen).1, b] ∧
      u = { s with gen := (r.int 0 (Text.subSz l.length 1) (r.int 0 (Text.subSz s.network.agents.length 1) s.gen).2).2 } := by
  unfold selectPair at h
  rw [if_neg (by rw [hu]; decide)] at h
  obtain ⟨l, h1, h⟩ := Res.bind_eq_ok.mp h
  obtain ⟨b, h2, h⟩ := Res.bind_eq_ok.mp h
  obtain ⟨e1, e2⟩ := Prod.mk.inj (Except.ok.inj h)
  exact ⟨l, rd_eq_ok.mp h1, b, rd_eq_ok.mp h2, e1.symm, e2.symm⟩

/-- What a successful application of the rule does. -/
theorem Deffuant.updateRule_parts {a b : Nat} {s t : Deffuant (SimpleAgent F) F G} (h : updateRule a b s = .ok t) :
    ∃ x y l, s.network.agents[a]? = some x ∧ s.network.agents[b]? = some y ∧ t = { s with network := { s.network with agents := l } } ∧
      l = if cabs (x.opinion - y.opinion) < s.threshold then
        (s.network.agents.set a ⟨x.opinion - s.mu * (x.opinion - y.opinion)⟩).set b
          ⟨(if a = b then x.opinion - s.mu * (x.opinion - y.opinion) else y.opinion) + s.mu * (x.opinion - y.opinion)⟩
        else s.network.agents := by
  unfold updateRule at h
  obtain ⟨x, h1, h⟩ := Res.bind_eq_ok.mp h
  obtain ⟨y, h2, h⟩ := Res.bind_eq_ok.mp h
  have h1 := rd_eq_ok.mp h1
  have h2 := rd_eq_ok.mp h2
  dsimp only at h
  split at h
  · next hlt =>
    obtain ⟨l1, h3, h⟩ := Res.bind_eq_ok.mp h
    obtain ⟨y', h4, h⟩ := Res.bind_eq_ok.mp h
    obtain ⟨l2, h5, h⟩ := Res.bind_eq_ok.mp h
    obtain ⟨ha, rfl⟩ := wr_eq_ok.mp h3
    obtain ⟨hb, rfl⟩ := wr_eq_ok.mp h5
    have h4 := rd_eq_ok.mp h4
    refine ⟨x, y, _, h1, h2, (Except.ok.inj h).symm, ?_⟩
    rw [if_pos hlt]
    by_cases hab : a = b
    · subst hab
      rw [List.getElem?_set_self ha] at h4
      rw [← Option.some.inj h4, if_pos rfl]
    · rw [List.getElem?_set_ne hab, h2] at h4
      rw [← Option.some.inj h4, if_neg hab]
  · next hlt => exact ⟨x, y, _, h1, h2, (Except.ok.inj h).symm, by rw [if_neg hlt]⟩

theorem Deffuant.Agree.interact {S : Nat → Prop} {r : Rng G F} {s s' t t' : Deffuant (SimpleAgent F) F G} (h : Agree S s s')
    (hS : ∀ a l, s.network.neighbours[a]? = some l → ∀ b ∈ l, S a ↔ S b) (ht : Deffuant.interact r updateRule s = .ok t)
    (ht' : Deffuant.interact r updateRule s' = .ok t') : Agree S t t' ∧ t.network.neighbours = s.network.neighbours := by
  unfold Deffuant.interact at ht ht'
  obtain ⟨⟨pair, u⟩, h1, ht⟩ := Res.bind_eq_ok.mp ht
  obtain ⟨⟨pair', u'⟩, h1', ht'⟩ := Res.bind_eq_ok.mp ht'
  obtain ⟨l, l1, b, l2, rfl, rfl⟩ := selectPair_network h.uses h1
  obtain ⟨l', l1', b', l2', rfl, rfl⟩ := selectPair_network h.uses' h1'
  rw [h.neighbours, h.size, h.gen] at l1'
  obtain rfl := Option.some.inj (l1.symm.trans l1')
  rw [h.size, h.gen] at l2'
  obtain rfl := Option.some.inj (l2.symm.trans l2')
  have hab := hS _ _ l1 b (List.mem_of_getElem? l2)
  rw [h.size, h.gen] at ht'
  generalize (r.int 0 (Text.subSz s.network.agents.length 1) s.gen).1 = a at ht ht' hab
  generalize (r.int 0 (Text.subSz l.length 1) (r.int 0 (Text.subSz s.network.agents.length 1) s.gen).2).2 = g at ht ht'
  obtain ⟨_, e, ht⟩ := Res.bind_eq_ok.mp ht
  obtain rfl := Except.ok.inj e
  obtain ⟨_, -, ht⟩ := Res.bind_eq_ok.mp ht
  obtain ⟨_, e, ht⟩ := Res.bind_eq_ok.mp ht
  obtain rfl := Except.ok.inj e
  obtain ⟨_, -, ht⟩ := Res.bind_eq_ok.mp ht
  obtain ⟨_, e, ht'⟩ := Res.bind_eq_ok.mp ht'
  obtain rfl := Except.ok.inj e
  obtain ⟨_, -, ht'⟩ := Res.bind_eq_ok.mp ht'
  obtain ⟨_, e, ht'⟩ := Res.bind_eq_ok.mp ht'
  obtain rfl := Except.ok.inj e
  obtain ⟨_, -, ht'⟩ := Res.bind_eq_ok.mp ht'
  obtain ⟨x, y, m, hx, hy, rfl, hm⟩ := updateRule_parts ht
  obtain ⟨x', y', m', hx', hy', rfl, hm'⟩ := updateRule_parts ht'
  dsimp only at hx hy hm hx' hy' hm'
  rw [h.threshold, h.mu] at hm'
  refine ⟨⟨h.uses, h.uses', h.threshold, h.mu, h.neighbours, ?_, rfl, fun i hi => ?_⟩, rfl⟩
  · dsimp only
    have : ∀ (c : Prop) [Decidable c] (L : List (SimpleAgent F)) (v w : SimpleAgent F), (if c then (L.set a v).set b w else L).length = L.length := by
      intro c _ L v w
      split <;> simp
    rw [hm, hm', this, this]
    exact h.size
  · dsimp only
    rw [hm, hm']
    by_cases ha : S a
    · rw [h.agents _ ha, hx] at hx'
      rw [h.agents _ (hab.mp ha), hy] at hy'
      obtain rfl := Option.some.inj hx'
      obtain rfl := Option.some.inj hy'
      split
      · simp only [List.getElem?_set, h.agents _ hi, h.size, List.length_set]
      · exact h.agents _ hi
    · have hia : a ≠ i := fun e => ha (e ▸ hi)
      have hib : b ≠ i := fun e => ha (hab.mpr (e ▸ hi))
      have : ∀ (c c' : Prop) [Decidable c] [Decidable c'] (L L' : List (SimpleAgent F)) (v w v' w' : SimpleAgent F), L'[i]? = L[i]? →
          (if c' then (L'.set a v').set b w' else L')[i]? = (if c then (L.set a v).set b w else L)[i]? := by
        intro c c' _ _ L L' v w v' w' e
        split <;> split <;> simp [List.getElem?_set_ne hia, List.getElem?_set_ne hib, e]
      exact this _ _ _ _ _ _ _ _ (h.agents _ hi)

theorem Deffuant.Agree.iteration {S : Nat → Prop} {r : Rng G F} {s s' t t' : Deffuant (SimpleAgent F) F G} (h : Agree S s s')
    (hS : ∀ a l, s.network.neighbours[a]? = some l → ∀ b ∈ l, S a ↔ S b) (ht : Deffuant.iteration r updateRule s = .ok t)
    (ht' : Deffuant.iteration r updateRule s' = .ok t') : Agree S t t' ∧ t.network.neighbours = s.network.neighbours := by
  unfold Deffuant.iteration Network.nAgents at ht ht'
  rw [h.size] at ht'
  have key : ∀ n t t', loop n (fun _ s => Deffuant.interact r updateRule s) { s with counter := s.counter.tick } = .ok t →
      loop n (fun _ s => Deffuant.interact r updateRule s) { s' with counter := s'.counter.tick } = .ok t' →
      Agree S t t' ∧ t.network.neighbours = s.network.neighbours := by
    intro n
    induction n with
    | zero =>
      intro t t' ht ht'
      cases ht; cases ht'
      exact ⟨⟨h.uses, h.uses', h.threshold, h.mu, h.neighbours, h.size, h.gen, h.agents⟩, rfl⟩
    | succ n ih =>
      intro t t' ht ht'
      rw [loop_succ] at ht ht'
      obtain ⟨u, h1, ht⟩ := Res.bind_eq_ok.mp ht
      obtain ⟨u', h1', ht'⟩ := Res.bind_eq_ok.mp ht'
      obtain ⟨i1, i2⟩ := ih u u' h1 h1'
      obtain ⟨j1, j2⟩ := i1.interact (by rw [i2]; exact hS) ht ht'
      exact ⟨j1, j2.trans i2⟩
  exact key _ _ _ ht ht'

/-- C115, Deffuant model on a network (scalar opinions): in any arithmetic, a group of agents without connection to the others evolves as if the others were different:
if no edge leads into or out of the group, then two runs on the same network, with the same settings and random numbers, that agree on the initial opinions of the group
agree on them after any number of iterations. -/
theorem C115_deffuant {r : Rng G F} {k : Nat} {s s' t t' : Deffuant (SimpleAgent F) F G} (ht : Iterates (Deffuant.iteration r Deffuant.updateRule) s k t)
    (ht' : Iterates (Deffuant.iteration r Deffuant.updateRule) s' k t') (hu : s.useNetwork = true) (hu' : s'.useNetwork = true)
    (hthr : s'.threshold = s.threshold) (hmu : s'.mu = s.mu) (hn : s'.network.neighbours = s.network.neighbours)
    (hlen : s'.network.agents.length = s.network.agents.length) (hgen : s'.gen = s.gen) {S : Nat → Prop}
    (hS : ∀ a l, s.network.neighbours[a]? = some l → ∀ b ∈ l, S a ↔ S b)
    (hx : ∀ i, S i → s'.network.agents[i]? = s.network.agents[i]?) : ∀ i, S i → t'.network.agents[i]? = t.network.agents[i]? := by
  suffices Deffuant.Agree S t t' ∧ t.network.neighbours = s.network.neighbours from this.1.agents
  induction ht generalizing t' with
  | zero => cases ht'; exact ⟨⟨hu, hu', hthr, hmu, hn, hlen, hgen, hx⟩, rfl⟩
  | succ h1 h2 ih =>
    cases ht' with | succ h1' h2' =>
    obtain ⟨i1, i2⟩ := ih h1'
    obtain ⟨j1, j2⟩ := i1.iteration (by rw [i2]; exact hS) h2 h2'
    exact ⟨j1, j2.trans i2⟩

end
/-! ## concrete cases -/

/-- Agent 0 listens to agent 1, who listens to agent 2, who listens to itself. -/
def Influence.line (x y z : ℚ) : DeGroot ℚ :=
  { counter := ⟨none, 0⟩, tol := 1 / 100, maxDiff := none, copy := [⟨x⟩, ⟨y⟩, ⟨z⟩]
    network := ⟨[⟨x⟩, ⟨y⟩, ⟨z⟩], [[1], [2], [2]], [[1], [1], [1]], .incoming⟩ }

theorem Influence.line_ready (x y z : ℚ) : (Influence.line x y z).Ready := by
  refine ⟨⟨rfl, rfl, ?_, ?_⟩, rfl⟩
  · intro i h h'
    simp only [Influence.line, List.length_cons, List.length_nil] at h
    match i, h with
    | 0, _ => rfl
    | 1, _ => rfl
    | 2, _ => rfl
  · intro l hl j hj
    simp only [Influence.line, List.mem_cons, List.not_mem_nil, or_false] at hl
    rcases hl with rfl | rfl | rfl <;> simp only [List.mem_cons, List.not_mem_nil, or_false] at hj <;> subst hj <;> simp [Influence.line]

/-- After two iterations, agent 0 only knows the opinion of agent 2, whatever it and agent 1 thought at first. -/
example {t t' : DeGroot ℚ} (h : Iterates DeGroot.iteration (Influence.line 0 0 1) 2 t) (h' : Iterates DeGroot.iteration (Influence.line 5 7 1) 2 t') :
    opinionOf t'.network.agents 0 = opinionOf t.network.agents 0 := by
  refine C115_degroot (Influence.line_ready 0 0 1) (Influence.line_ready 5 7 1) ⟨rfl, rfl, rfl⟩ h h' (by decide) fun j hj => ?_
  have e : j = 2 := by
    cases hj with | step h1 hj =>
    cases hj with | step h2 hj =>
    cases hj
    obtain ⟨w, h1⟩ := h1
    obtain ⟨w', h2⟩ := h2
    simp only [Influence.line, row, List.getD_cons_zero, List.zip_cons_cons, List.zip_nil_right, List.mem_cons, Prod.mk.injEq, List.not_mem_nil, or_false] at h1
    obtain ⟨rfl, -⟩ := h1
    simp [Influence.line, row] at h2
    exact h2.1
  subst e
  rfl

/-- It did not know it after one iteration. -/
example : (Influence.line 0 0 1).iteration.map (fun t => opinionOf t.network.agents 0) = .ok 0 ∧
    (Influence.line 5 7 1).iteration.map (fun t => opinionOf t.network.agents 0) = .ok 7 := by decide +kernel

/-- Without reciprocity. Agent 1 listens to nobody in the first iteration. -/
def Activity.sampleAlone (x : ℚ) : Activity (ActivityAgent ℚ) ℚ Nat :=
  { Activity.sampleBots with
    p := { Activity.sampleBots.p with reciprocity := 0 }
    network := ⟨[⟨0, 1, 1⟩, ⟨1/2, 1/5, 1⟩, ⟨-1/2, 1, 1⟩, ⟨x, 1/5, 1⟩], [[], [], [], []], [[], [], [], []], .incoming⟩ }

theorem Activity.sampleAlone_ready (x : ℚ) : (Activity.sampleAlone x).Ready where
  wf := by
    refine ⟨rfl, rfl, ?_, ?_⟩
    · intro i h h'
      simp only [Activity.sampleAlone, List.length_cons, List.length_nil] at h
      match i, h with
      | 0, _ => rfl
      | 1, _ => rfl
      | 2, _ => rfl
      | 3, _ => rfl
    · intro l hl j hj
      simp only [Activity.sampleAlone, List.mem_cons, List.not_mem_nil, or_false] at hl
      rcases hl with rfl | rfl | rfl | rfl <;> simp at hj
  incoming := rfl
  fit := by
    have h : ContactsFit (Activity.sampleAlone 0).p 4 := by constructor <;> decide +kernel
    exact h
  botOpinion := Activity.sampleBots_ready.botOpinion
  probabilistic := rfl

/-- So whatever agent 3 thinks does not matter to agent 1. -/
example {t t' : Activity (ActivityAgent ℚ) ℚ Nat} (h : Activity.iteration ratOps firstMin counterRng (Activity.sampleAlone 1) = .ok t)
    (h' : Activity.iteration ratOps firstMin counterRng (Activity.sampleAlone 7) = .ok t') :
    attr ActiveAgent.opinion t'.network.agents 1 = attr ActiveAgent.opinion t.network.agents 1 := by
  have e : (Activity.iteration ratOps firstMin counterRng (Activity.sampleAlone 1)).map (fun t => (t.network.neighbours, t.network.weights)) =
    .ok ([[], [], [0, 1, 2, 3], []], [[], [], [1, 1, 1, 1], []]) := by decide +kernel
  have e' : (Activity.iteration ratOps firstMin counterRng (Activity.sampleAlone 7)).map (fun t => (t.network.neighbours, t.network.weights)) =
    .ok ([[], [], [0, 1, 2, 3], []], [[], [], [1, 1, 1, 1], []]) := by decide +kernel
  rw [h] at e
  rw [h'] at e'
  obtain ⟨e1, e2⟩ := Prod.mk.inj (Except.ok.inj e)
  obtain ⟨e1', e2'⟩ := Prod.mk.inj (Except.ok.inj e')
  have alone : ∀ j, Within t.network 4 1 j → j = 1 := by
    rintro j ⟨m, -, hc⟩
    generalize hi : 1 = i at hc
    cases hc with
    | here => rfl
    | step h1 _ =>
      subst hi
      obtain ⟨w, h1⟩ := h1
      simp [row, e1, e2] at h1
  refine C115_activity h h' (Activity.Ready.next firstMin_valid (Activity.sampleAlone_ready 1) h).wf
    (Activity.Ready.next firstMin_valid (Activity.sampleAlone_ready 7) h').wf rfl (by decide) (by decide) ?_ ?_
  · intro j hj
    obtain rfl := alone j hj
    rfl
  · intro j hj
    obtain rfl := alone j (hj.mono (by omega))
    exact ⟨rfl, by simp [row, e1, e2, e1', e2']⟩

/-- The same without homophily: now also the contacts are the same in both runs. -/
def Activity.sampleQuiet (x : ℚ) : Activity (ActivityAgent ℚ) ℚ Nat :=
  { Activity.sampleAlone x with p := { (Activity.sampleAlone x).p with homophily := 0, botHomophily := [0] } }

theorem Activity.sampleQuiet_ready (x : ℚ) : (Activity.sampleQuiet x).Ready where
  wf := (Activity.sampleAlone_ready x).wf
  incoming := rfl
  fit := by
    have h : ContactsFit (Activity.sampleQuiet 0).p 4 := by constructor <;> decide +kernel
    exact h
  botOpinion := Activity.sampleBots_ready.botOpinion
  probabilistic := rfl

example {t t' : Activity (ActivityAgent ℚ) ℚ Nat} (h : Activity.iteration flatOps firstMin counterRng (Activity.sampleQuiet 1) = .ok t)
    (h' : Activity.iteration flatOps firstMin counterRng (Activity.sampleQuiet 7) = .ok t') :
    attr ActiveAgent.opinion t'.network.agents 1 = attr ActiveAgent.opinion t.network.agents 1 := by
  have e : (Activity.iteration flatOps firstMin counterRng (Activity.sampleQuiet 1)).map (fun t => (t.network.neighbours, t.network.weights)) =
    .ok ([[], [], [], [0, 1, 2, 3]], [[], [], [], [1, 1, 1, 1]]) := by decide +kernel
  rw [h] at e
  obtain ⟨e1, e2⟩ := Prod.mk.inj (Except.ok.inj e)
  have bots : ∀ h ∈ (Activity.sampleQuiet 1).p.botHomophily, h = 0 := by decide +kernel
  refine C115_activity_run (o := flatOps) (fun _ => rfl) (K := 1) (pick := firstMin) (r := counterRng) (st := fun k => if k = 0 then Activity.sampleQuiet 1 else t)
    (st' := fun k => if k = 0 then Activity.sampleQuiet 7 else t') ?_ ?_ ⟨⟨rfl, rfl, rfl, rfl, rfl, rfl, rfl, rfl, bots⟩, ⟨rfl, rfl, rfl, rfl⟩, rfl, rfl⟩ rfl
    (fun j => rfl) (k := 1) le_rfl fun j hj => ?_
  · intro k hk
    obtain rfl : k = 0 := by omega
    exact ⟨h, (Activity.Ready.next firstMin_valid (Activity.sampleQuiet_ready 1) h).wf⟩
  · intro k hk
    obtain rfl : k = 0 := by omega
    exact ⟨h', (Activity.Ready.next firstMin_valid (Activity.sampleQuiet_ready 7) h').wf⟩
  · cases hj with | step h1 hj =>
    cases hj
    obtain ⟨m, -, hc⟩ := h1
    generalize hi : 1 = i at hc
    cases hc with
    | here => subst hi; rfl
    | step h1 _ =>
      subst hi
      obtain ⟨w, h1⟩ := h1
      simp [row, e1, e2] at h1

/-- Three inertial agents without homophily, one contact each and no reciprocity. -/
def Inertial.sampleQuiet (x : ℚ) : Inertial ℚ Nat where
  base :=
    { Inertial.sample.base with
      p := { Activity.settings with m := 1, reciprocity := 0, homophily := 0 }
      network := ⟨[⟨0, 1/5, 1, 1⟩, ⟨1/2, 1, 1, 0⟩, ⟨x, 1/5, 1, 0⟩], [[], [], []], [[], [], []], .incoming⟩ }
  friction := 1

theorem Inertial.sampleQuiet_ready (x : ℚ) : (Inertial.sampleQuiet x).base.Ready where
  wf := by
    refine ⟨rfl, rfl, ?_, ?_⟩
    · intro i h h'
      simp only [Inertial.sampleQuiet, List.length_cons, List.length_nil] at h
      match i, h with
      | 0, _ => rfl
      | 1, _ => rfl
      | 2, _ => rfl
    · intro l hl j hj
      simp only [Inertial.sampleQuiet, List.mem_cons, List.not_mem_nil, or_false] at hl
      rcases hl with rfl | rfl | rfl <;> simp at hj
  incoming := rfl
  fit := by
    have h : Activity.ContactsFit (Inertial.sampleQuiet 0).base.p 3 := by constructor <;> decide +kernel
    exact h
  botOpinion := Nat.zero_le _
  probabilistic := rfl

/-- In the first iteration agent 0 listens to agents 1 and 2, who listen to nobody: agent 1 moves in the same way whatever agent 2 thinks. -/
example {t t' : Inertial ℚ Nat} (h : Inertial.iteration flatOps firstMin counterRng (Inertial.sampleQuiet 1) = .ok t)
    (h' : Inertial.iteration flatOps firstMin counterRng (Inertial.sampleQuiet 7) = .ok t') :
    attr (·.opinion) t'.base.network.agents 1 = attr (·.opinion) t.base.network.agents 1 ∧
      attr (·.velocity) t'.base.network.agents 1 = attr (·.velocity) t.base.network.agents 1 := by
  have e : (Inertial.iteration flatOps firstMin counterRng (Inertial.sampleQuiet 1)).map (fun t => (t.base.network.neighbours, t.base.network.weights)) =
    .ok ([[1, 2], [], []], [[1, 1], [], []]) := by decide +kernel
  rw [h] at e
  obtain ⟨e1, e2⟩ := Prod.mk.inj (Except.ok.inj e)
  have bots : ∀ h ∈ (Inertial.sampleQuiet 1).base.p.botHomophily, h = 0 := by decide +kernel
  refine C115_inertial_run (o := flatOps) (fun _ => rfl) (K := 1) (pick := firstMin) (r := counterRng) (st := fun k => if k = 0 then Inertial.sampleQuiet 1 else t)
    (st' := fun k => if k = 0 then Inertial.sampleQuiet 7 else t') ?_ ?_ ⟨⟨rfl, rfl, rfl, rfl, rfl, rfl, rfl, rfl, bots⟩, ⟨rfl, rfl, rfl, rfl⟩, rfl, rfl⟩ rfl
    rfl (fun j => rfl) (k := 1) le_rfl (by show 1 < 3; omega) fun j hj => ?_
  · intro k hk
    obtain rfl : k = 0 := by omega
    exact ⟨h, (Inertial.ready_next firstMin_valid (Inertial.sampleQuiet_ready 1) h).wf⟩
  · intro k hk
    obtain rfl : k = 0 := by omega
    exact ⟨h', (Inertial.ready_next firstMin_valid (Inertial.sampleQuiet_ready 7) h').wf⟩
  · cases hj with | step h1 hj =>
    cases hj
    obtain ⟨m, -, hc⟩ := h1
    generalize hi : 1 = i at hc
    cases hc with
    | here => subst hi; exact ⟨rfl, rfl⟩
    | step h1 _ =>
      subst hi
      obtain ⟨w, h1⟩ := h1
      simp [row, e1, e2] at h1

/-- Two pairs of agents that know each other. -/
def Deffuant.couples (x y : ℚ) : Deffuant (SimpleAgent ℚ) ℚ Nat :=
  ⟨⟨some 3, 0⟩, 1/2, 1/4, true, ⟨[⟨0⟩, ⟨1/5⟩, ⟨x⟩, ⟨y⟩], [[1], [0], [3], [2]], [[1], [1], [1], [1]], .incoming⟩, 1⟩

/-- The first pair does not notice what the second one thinks, for any number of iterations. -/
example {k : Nat} {t t' : Deffuant (SimpleAgent ℚ) ℚ Nat} (h : Iterates (Deffuant.iteration counterRng Deffuant.updateRule) (Deffuant.couples (1/10) (1/5)) k t)
    (h' : Iterates (Deffuant.iteration counterRng Deffuant.updateRule) (Deffuant.couples 7 8) k t') :
    t'.network.agents[0]? = t.network.agents[0]? ∧ t'.network.agents[1]? = t.network.agents[1]? := by
  have key := C115_deffuant h h' rfl rfl rfl rfl rfl rfl rfl (S := fun i => i < 2) ?_ ?_
  · exact ⟨key 0 (by decide), key 1 (by decide)⟩
  · intro a l hl b hb
    match a, hl with
    | 0, hl => simp [Deffuant.couples] at hl; subst hl; simp at hb; subst hb; decide
    | 1, hl => simp [Deffuant.couples] at hl; subst hl; simp at hb; subst hb; decide
    | 2, hl => simp [Deffuant.couples] at hl; subst hl; simp at hb; subst hb; decide
    | 3, hl => simp [Deffuant.couples] at hl; subst hl; simp at hb; subst hb; decide
    | n + 4, hl => simp [Deffuant.couples] at hl
  · intro i hi
    match i, hi with
    | 0, _ => rfl
    | 1, _ => rfl

/-- Both runs go on for ever, and the first pair does talk to each other. -/
example : (∀ k, ∃ t, Iterates (Deffuant.iteration counterRng Deffuant.updateRule) (Deffuant.couples 7 8) k t) ∧
    (Deffuant.iteration counterRng Deffuant.updateRule (Deffuant.couples 7 8)).toOption.map (fun t => t.network.agents.take 2) ≠ some [⟨0⟩, ⟨1/5⟩] := by
  refine ⟨fun k => C37_total counterRng_lawful.toInt ⟨⟨rfl, rfl, by decide, by decide⟩, by decide, fun _ => by decide⟩ k, by decide +kernel⟩

end Seldon
