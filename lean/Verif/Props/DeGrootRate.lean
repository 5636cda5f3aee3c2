import Verif.Props.Consensus
import Mathlib.Tactic.LinearCombination
/-!
# C89: how fast the DeGroot model reaches consensus; C90: it is monotone and non-expansive
-/
set_option linter.unusedSectionVars false
namespace Seldon
open Spec Filter Topology
variable {F : Type}

/-! ## the contraction -/

namespace Averaging
section
variable [Field F] [LinearOrder F] [IsStrictOrderedRing F] {n : Nat} {L : Nat → List (Nat × F)} {x : Nat → Nat → F}

/-- With self-loops, everybody linked to the root is linked to it in exactly `n - 1` steps. -/
theorem reachIn_bound (hlt : ∀ i, i < n → ∀ e ∈ L i, e.1 < n) (hself : ∀ i, i < n → ∃ w, (i, w) ∈ L i ∧ 0 < w) {r : Nat} (hrn : r < n)
    (hroot : ∀ i, i < n → Relation.ReflTransGen (fun a b => ∃ w, (b, w) ∈ L a ∧ 0 < w) i r) : ∀ i, i < n → ReachIn L r (n - 1) i := by
  classical
  let S : Nat → Finset Nat := fun t => (Finset.range n).filter fun i => ReachIn L r t i
  have hmono : ∀ t, S t ⊆ S (t + 1) := by
    intro t i hi
    obtain ⟨h1, h2⟩ := Finset.mem_filter.mp hi
    exact Finset.mem_filter.mpr ⟨h1, reachIn_mono hself (Finset.mem_range.mp h1) h2 1⟩
  have hclosed : ∀ t, S (t + 1) = S t → S t = Finset.range n := by
    intro t he
    refine Finset.Subset.antisymm (Finset.filter_subset _ _) fun i hi => ?_
    have hr : r ∈ S t := Finset.mem_filter.mpr ⟨Finset.mem_range.mpr hrn, by
      have := reachIn_mono hself hrn (.zero : ReachIn L r 0 r) t
      rwa [Nat.zero_add] at this⟩
    have hrel := hroot i (Finset.mem_range.mp hi)
    have key : ∀ i, i < n → Relation.ReflTransGen (fun a b => ∃ w, (b, w) ∈ L a ∧ 0 < w) i r → i ∈ S t := by
      intro i hin h
      induction h using Relation.ReflTransGen.head_induction_on with
      | refl => exact hr
      | @head a b hab _ ih =>
        obtain ⟨w, hw, hp⟩ := hab
        have hb := ih (hlt a hin _ hw)
        rw [← he]
        exact Finset.mem_filter.mpr ⟨Finset.mem_range.mpr hin, .succ hw hp (Finset.mem_filter.mp hb).2⟩
    exact key i (Finset.mem_range.mp hi) hrel
  have hcard : ∀ t, t + 1 ≤ (S t).card ∨ S t = Finset.range n := by
    intro t
    induction t with
    | zero =>
      left
      exact Finset.card_pos.mpr ⟨r, Finset.mem_filter.mpr ⟨Finset.mem_range.mpr hrn, .zero⟩⟩
    | succ t ih =>
      by_cases he : S (t + 1) = S t
      · right
        rw [he]
        exact hclosed t he
      · rcases ih with ih | ih
        · left
          have : (S t).card < (S (t + 1)).card := Finset.card_lt_card (Finset.ssubset_iff_subset_ne.mpr ⟨hmono t, fun h => he h.symm⟩)
          omega
        · refine absurd (Finset.Subset.antisymm (fun i hi => ?_) (hmono t)) he
          rw [ih]
          exact (Finset.mem_filter.mp hi).1
  have hfull : S (n - 1) = Finset.range n := by
    rcases hcard (n - 1) with h | h
    · refine Finset.eq_of_subset_of_card_le (Finset.filter_subset _ _) ?_
      rw [Finset.card_range]
      omega
    · exact h
  intro i hi
  have : i ∈ S (n - 1) := by rw [hfull]; exact Finset.mem_range.mpr hi
  exact (Finset.mem_filter.mp this).2

/-- The interval of opinions shrinks by the factor `1 - δ^T` every `T` steps. -/
theorem Process.contract (P : Process n L x) {δ : F} (hδ0 : 0 ≤ δ) (hδ : ∀ i, i < n → ∀ e ∈ L i, 0 < e.2 → δ ≤ e.2) {r T : Nat} (hrn : r < n)
    (hT : ∀ i, i < n → ReachIn L r T i) {t0 : Nat} {lo hi : F} (hbox : ∀ i, i < n → lo ≤ x t0 i ∧ x t0 i ≤ hi) :
    ∃ lo' hi', (∀ i, i < n → lo' ≤ x (t0 + T) i ∧ x (t0 + T) i ≤ hi') ∧ hi' - lo' = (1 - δ ^ T) * (hi - lo) := by
  have hr := hbox r hrn
  refine ⟨lo + δ ^ T * (x t0 r - lo), hi - δ ^ T * (hi - x t0 r), fun i hi' => ⟨?_, ?_⟩, by ring⟩
  · have := P.neg.pull hδ0 hδ (t0 := t0) (r := r) (hi := -lo) (c := x t0 r - lo) (fun j hj => neg_le_neg (hbox j hj).1) (by linarith [hr.1])
      (by linarith) T i hi' (hT i hi')
    linarith
  · exact P.pull hδ0 hδ (fun j hj => (hbox j hj).2) (by linarith [hr.2]) (by linarith) T i hi' (hT i hi')

theorem Process.contracts (P : Process n L x) {δ : F} (hδ0 : 0 ≤ δ) (hδ : ∀ i, i < n → ∀ e ∈ L i, 0 < e.2 → δ ≤ e.2) {r T : Nat} (hrn : r < n)
    (hT : ∀ i, i < n → ReachIn L r T i) {lo hi : F} (hbox : ∀ i, i < n → lo ≤ x 0 i ∧ x 0 i ≤ hi) (m : Nat) :
    ∃ lo' hi', (∀ k, m * T ≤ k → ∀ i, i < n → lo' ≤ x k i ∧ x k i ≤ hi') ∧ hi' - lo' = (1 - δ ^ T) ^ m * (hi - lo) := by
  have hstay : ∀ {t0 : Nat} {lo hi : F}, (∀ i, i < n → lo ≤ x t0 i ∧ x t0 i ≤ hi) → ∀ k, t0 ≤ k → ∀ i, i < n → lo ≤ x k i ∧ x k i ≤ hi := by
    intro t0 lo hi hb k hk i hi'
    obtain ⟨d, rfl⟩ := Nat.exists_eq_add_of_le hk
    exact ⟨P.lower (fun j hj => (hb j hj).1) d i hi', P.upper (fun j hj => (hb j hj).2) d i hi'⟩
  induction m with
  | zero => exact ⟨lo, hi, fun k _ => hstay hbox k (Nat.zero_le _), by simp⟩
  | succ m ih =>
    obtain ⟨lo', hi', hb, he⟩ := ih
    obtain ⟨lo'', hi'', hb', he'⟩ := P.contract hδ0 hδ hrn hT (hb (m * T) (le_refl _))
    refine ⟨lo'', hi'', fun k hk => hstay hb' k (by rw [Nat.succ_mul] at hk; exact hk), ?_⟩
    rw [he', he, pow_succ]
    ring

end
end Averaging

/-! ## C89 -/

section
variable [Field F] [LinearOrder F] [IsStrictOrderedRing F]

/-- C89: let all positive weights be at least `δ`, let everybody listen to itself and some agent be heard, directly or indirectly, by everybody.  Then with `n`
agents the opinions after `m (n - 1)` iterations, and ever after, lie within an interval that is shorter than the first one by the factor
`(1 - δ^(n-1))^m`. -/
theorem C89_rate {st : Nat → DeGroot F} (T : DeGroot.Trajectory st) (hw : RowStochastic (st 0).network)
    (hself : ∀ i, i < (st 0).network.agents.length → Listens (st 0).network i i) {r : Nat} (hr : r < (st 0).network.agents.length)
    (hroot : ∀ i, i < (st 0).network.agents.length → Relation.ReflTransGen (Listens (st 0).network) i r)
    {δ : F} (hδ0 : 0 ≤ δ) (hδ : ∀ i, i < (st 0).network.agents.length → ∀ e ∈ row (st 0).network i, 0 < e.2 → δ ≤ e.2)
    {lo hi : F} (hx : ∀ i, i < (st 0).network.agents.length → lo ≤ opinionOf (st 0).network.agents i ∧ opinionOf (st 0).network.agents i ≤ hi) (m : Nat) :
    ∃ lo' hi', hi' - lo' = (1 - δ ^ ((st 0).network.agents.length - 1)) ^ m * (hi - lo) ∧
      ∀ k, m * ((st 0).network.agents.length - 1) ≤ k → ∀ i, i < (st 0).network.agents.length →
        lo' ≤ opinionOf (st k).network.agents i ∧ opinionOf (st k).network.agents i ≤ hi' := by
  have P := T.process hw
  obtain ⟨lo', hi', h1, h2⟩ := P.contracts hδ0 hδ hr (Averaging.reachIn_bound P.lt hself hr hroot) hx m
  exact ⟨lo', hi', h2, h1⟩

/-- C89 (number of iterations): the run with a positive tolerance makes at most `m (n - 1) + 1` iterations if `(1 - δ^(n-1))^m` times the length of the interval of the
starting opinions is below the tolerance. -/
theorem C89_iterations {s : DeGroot F} (h : s.Ready) (hfresh : s.Unsettled) (hw : RowStochastic s.network) (htol : 0 < s.tol)
    (hself : ∀ i, i < s.network.agents.length → Listens s.network i i) {r : Nat} (hr : r < s.network.agents.length)
    (hroot : ∀ i, i < s.network.agents.length → Relation.ReflTransGen (Listens s.network) i r)
    {δ : F} (hδ0 : 0 ≤ δ) (hδ : ∀ i, i < s.network.agents.length → ∀ e ∈ row s.network i, 0 < e.2 → δ ≤ e.2)
    {lo hi : F} (hx : ∀ i, i < s.network.agents.length → lo ≤ opinionOf s.network.agents i ∧ opinionOf s.network.agents i ≤ hi) {m : Nat}
    (hm : (1 - δ ^ (s.network.agents.length - 1)) ^ m * (hi - lo) < s.tol) :
    ∃ (K : Nat) (st : Nat → DeGroot F), IsRun DeGroot.machine s.reset K st ∧ K ≤ m * (s.network.agents.length - 1) + 1 := by
  obtain ⟨st, h0, hst⟩ := DeGroot.exists_states h.reset
  have T : DeGroot.Trajectory st := ⟨(hst 0).2, fun k => (hst k).1⟩
  have hnet : (st 0).network = s.network := by rw [h0]; rfl
  obtain ⟨lo', hi', e1, e2⟩ := C89_rate T (by rw [hnet]; exact hw) (by rw [hnet]; exact hself) (r := r) (by rw [hnet]; exact hr) (by rw [hnet]; exact hroot) hδ0
    (by rw [hnet]; exact hδ) (lo := lo) (hi := hi) (by rw [hnet]; exact hx) m
  rw [hnet] at e1 e2
  have hstop : DeGrootStops s.counter.maxIterations s.tol s.network.agents.length (fun k => opinionOf (st k).network.agents)
      (m * (s.network.agents.length - 1) + 1) := by
    refine Or.inr ⟨by omega, htol, fun i hi' => ?_⟩
    have b1 := e2 _ (le_refl _) i hi'
    have b2 := e2 (m * (s.network.agents.length - 1) + 1) (Nat.le_succ _) i hi'
    rw [Nat.add_sub_cancel, abs_lt]
    constructor <;> linarith [b1.1, b1.2, b2.1, b2.2]
  obtain ⟨K, hrun⟩ := C31_exists h hfresh h0 (fun k => (hst k).1) ⟨_, hstop⟩
  refine ⟨K, st, hrun, ?_⟩
  by_contra hc
  exact (C31_stop h hfresh hrun).2 _ (by omega) hstop

/-- C89 (from the constructor): the model starts with the opinions `i / n`, so `(1 - δ^(n-1))^m < tol` is enough. -/
theorem C89_created {N : Network (SimpleAgent F) F} (h : WF N) (hn : 0 < N.agents.length) (hw : RowStochastic N) {max : Option Int} {tol : F} (htol : 0 < tol)
    (hself : ∀ i, i < N.agents.length → Listens N i i) (hconn : ∀ i j, i < N.agents.length → j < N.agents.length → Relation.ReflTransGen (Listens N) i j)
    {δ : F} (hδ0 : 0 ≤ δ) (hδ : ∀ i, i < N.agents.length → ∀ e ∈ row N i, 0 < e.2 → δ ≤ e.2) {m : Nat} (hm : (1 - δ ^ (N.agents.length - 1)) ^ m < tol) :
    ∃ (s : DeGroot F) (warn : Bool) (K : Nat) (st : Nat → DeGroot F), DeGroot.create max tol N = .ok (s, warn) ∧ IsRun DeGroot.machine s.reset K st ∧
      K ≤ m * (N.agents.length - 1) + 1 := by
  obtain ⟨s, comps, -, h1, h2, h3, h4, -, h6, h7, h8, -, h10⟩ := C29_constructor h max tol
  have hrow : ∀ i, row s.network i = row N i := row_congr h3 h4
  have hL : Listens s.network = Listens N := by
    funext i j
    unfold Listens
    rw [hrow]
  have hpos : (0 : F) < N.agents.length := by exact_mod_cast hn
  obtain ⟨K, st, h11, h12⟩ := C89_iterations (s := s) h2 (DeGroot.Unsettled.of_fresh h8) ⟨fun i hi e he => hw.nonneg i (by rw [← h6]; exact hi) e (by rw [← hrow]; exact he),
      fun i hi => by rw [hrow]; exact hw.sum i (by rw [← h6]; exact hi)⟩ (by rw [h7]; exact htol) (by rw [h6, hL]; exact hself) (r := 0) (by rw [h6]; exact hn)
    (by rw [h6, hL]; exact fun i hi => hconn i 0 hi hn) hδ0 (by rw [h6]; intro i hi e he; rw [hrow] at he; exact hδ i hi e he) (lo := 0) (hi := 1) (by
      rw [h6]
      intro i hi
      rw [h10 i hi]
      have hi' : (i : F) ≤ N.agents.length := by exact_mod_cast hi.le
      exact ⟨by positivity, (div_le_one hpos).mpr hi'⟩) (m := m) (by rw [h6, h7]; linarith)
  rw [h6] at h12
  exact ⟨s, _, K, st, h1, h11, h12⟩

/-- C89 (everybody listens to everybody, with a total weight of at least `δ` each): each iteration shortens the interval of opinions by the factor `1 - n δ`. -/
theorem C89_complete {st : Nat → DeGroot F} (T : DeGroot.Trajectory st) (hw : RowStochastic (st 0).network)
    {δ : F} (hδ : ∀ i j, i < (st 0).network.agents.length → j < (st 0).network.agents.length → δ ≤ weightOn (st 0).network i j)
    {lo hi : F} (hx : ∀ i, i < (st 0).network.agents.length → lo ≤ opinionOf (st 0).network.agents i ∧ opinionOf (st 0).network.agents i ≤ hi) (k : Nat) :
    ∀ i j, i < (st 0).network.agents.length → j < (st 0).network.agents.length →
      |opinionOf (st k).network.agents i - opinionOf (st k).network.agents j| ≤ (1 - (st 0).network.agents.length * δ) ^ k * (hi - lo) := by
  have P := T.process hw
  set n := (st 0).network.agents.length with hn
  have hsum : ∀ i, i < n → ∑ j ∈ Finset.range n, weightOn (st 0).network i j = 1 := by
    intro i hi
    have := weightedSum_eq_weightOn (P.lt i hi) (fun _ => (1 : F))
    simp only [mul_one] at this
    have h1 := P.sum i hi
    rw [← this]
    unfold weightedSum
    simpa using h1
  have hbox : ∃ lo' hi', hi' - lo' = (1 - (n : F) * δ) ^ k * (hi - lo) ∧ ∀ i, i < n → lo' ≤ opinionOf (st k).network.agents i ∧ opinionOf (st k).network.agents i ≤ hi' := by
    induction k with
    | zero => exact ⟨lo, hi, by simp, hx⟩
    | succ k ih =>
      obtain ⟨lo', hi', e1, e2⟩ := ih
      refine ⟨(1 - n * δ) * lo' + δ * ∑ j ∈ Finset.range n, opinionOf (st k).network.agents j,
        (1 - n * δ) * hi' + δ * ∑ j ∈ Finset.range n, opinionOf (st k).network.agents j, by rw [pow_succ]; linear_combination (1 - n * δ) * e1, fun i hi0 => ?_⟩
      have hstep : opinionOf (st (k + 1)).network.agents i =
          ∑ j ∈ Finset.range n, (weightOn (st 0).network i j - δ) * opinionOf (st k).network.agents j + δ * ∑ j ∈ Finset.range n, opinionOf (st k).network.agents j := by
        rw [P.step k i hi0, show ((row (st 0).network i).map (fun e => e.2 * opinionOf (st k).network.agents e.1)).sum =
          weightedSum (st 0).network (opinionOf (st k).network.agents) i from rfl, weightedSum_eq_weightOn (P.lt i hi0), Finset.mul_sum, ← Finset.sum_add_distrib]
        exact Finset.sum_congr rfl fun j _ => by ring
      have htot : ∑ j ∈ Finset.range n, (weightOn (st 0).network i j - δ) = 1 - n * δ := by
        rw [Finset.sum_sub_distrib, hsum i hi0, Finset.sum_const, Finset.card_range, nsmul_eq_mul]
      rw [hstep, ← htot, Finset.sum_mul, Finset.sum_mul]
      constructor
      · refine add_le_add_left (Finset.sum_le_sum fun j hj => ?_) _
        have hj' := Finset.mem_range.mp hj
        exact mul_le_mul_of_nonneg_left (e2 j hj').1 (by linarith [hδ i j hi0 hj'])
      · refine add_le_add_left (Finset.sum_le_sum fun j hj => ?_) _
        have hj' := Finset.mem_range.mp hj
        exact mul_le_mul_of_nonneg_left (e2 j hj').2 (by linarith [hδ i j hi0 hj'])
  obtain ⟨lo', hi', e1, e2⟩ := hbox
  intro i j hi0 hj0
  have b1 := e2 i hi0
  have b2 := e2 j hj0
  rw [← e1, abs_le]
  constructor <;> linarith [b1.1, b1.2, b2.1, b2.2]

/-! ## C90 -/

/-- Two models on the same weighted network. -/
structure SameWeights (s₁ s₂ : DeGroot F) : Prop where
  neighbours : s₂.network.neighbours = s₁.network.neighbours
  weights : s₂.network.weights = s₁.network.weights
  size : s₂.network.agents.length = s₁.network.agents.length

/-- C90 (superposition): the difference of two runs on the same weighted network follows the DeGroot dynamics. -/
theorem C90_difference {k : Nat} {s₁ s₂ t₁ t₂ u₁ u₂ : DeGroot F} (h₁ : s₁.Ready) (h₂ : s₂.Ready) (hs : SameWeights s₁ s₂)
    (hk₁ : Iterates DeGroot.iteration s₁ k t₁) (hk₂ : Iterates DeGroot.iteration s₂ k t₂) (hu₁ : t₁.iteration = .ok u₁) (hu₂ : t₂.iteration = .ok u₂) {i : Nat}
    (hi : i < s₁.network.agents.length) :
    opinionOf u₂.network.agents i - opinionOf u₁.network.agents i =
      weightedSum s₁.network (fun j => opinionOf t₂.network.agents j - opinionOf t₁.network.agents j) i := by
  obtain ⟨p1, p2, p3, p4⟩ := DeGroot.iterates_ready hk₁ h₁
  obtain ⟨q1, q2, q3, q4⟩ := DeGroot.iterates_ready hk₂ h₂
  rw [C29_exact p1 hu₁ i (by omega), C29_exact q1 hu₂ i (by rw [q4, hs.size]; exact hi)]
  unfold weightedSum
  rw [row_congr p2 p3, row_congr (q2.trans hs.neighbours) (q3.trans hs.weights)]
  generalize row s₁.network i = l
  induction l with
  | nil => simp
  | cons e l ih => simp only [List.map_cons, List.sum_cons, ← ih]; ring

theorem C90_box {k : Nat} {s₁ s₂ t₁ t₂ : DeGroot F} (h₁ : s₁.Ready) (h₂ : s₂.Ready) (hw : RowStochastic s₁.network) (hs : SameWeights s₁ s₂)
    (hk₁ : Iterates DeGroot.iteration s₁ k t₁) (hk₂ : Iterates DeGroot.iteration s₂ k t₂) {lo hi : F}
    (hx : ∀ i, i < s₁.network.agents.length → lo ≤ opinionOf s₂.network.agents i - opinionOf s₁.network.agents i ∧
      opinionOf s₂.network.agents i - opinionOf s₁.network.agents i ≤ hi) :
    ∀ i, i < s₁.network.agents.length → lo ≤ opinionOf t₂.network.agents i - opinionOf t₁.network.agents i ∧
      opinionOf t₂.network.agents i - opinionOf t₁.network.agents i ≤ hi := by
  induction hk₁ generalizing t₂ with
  | zero => cases hk₂; exact hx
  | @succ _ t₁' _ hit₁ h₁' ih =>
    cases hk₂ with
    | @succ _ t₂' _ hit₂ h₂' =>
      have ih := ih hit₂
      intro i hi0
      rw [C90_difference h₁ h₂ hs hit₁ hit₂ h₁' h₂' hi0]
      have hlt : ∀ e ∈ row s₁.network i, e.1 < s₁.network.agents.length := fun e he => NetLemmas.row_lt h₁.wf he
      exact ⟨Averaging.le_avg (x := fun j => opinionOf t₂'.network.agents j - opinionOf t₁'.network.agents j) (hw.nonneg i hi0) (hw.sum i hi0) (fun e he => (ih e.1 (hlt e he)).1),
        Averaging.avg_le (x := fun j => opinionOf t₂'.network.agents j - opinionOf t₁'.network.agents j) (hw.nonneg i hi0) (hw.sum i hi0) (fun e he => (ih e.1 (hlt e he)).2)⟩

/-- C90 (non-expansive): if the starting opinions are changed by at most `d`, all later opinions change by at most `d`. -/
theorem C90_nonexpansive {k : Nat} {s₁ s₂ t₁ t₂ : DeGroot F} (h₁ : s₁.Ready) (h₂ : s₂.Ready) (hw : RowStochastic s₁.network) (hs : SameWeights s₁ s₂)
    (hk₁ : Iterates DeGroot.iteration s₁ k t₁) (hk₂ : Iterates DeGroot.iteration s₂ k t₂) {d : F}
    (hx : ∀ i, i < s₁.network.agents.length → |opinionOf s₂.network.agents i - opinionOf s₁.network.agents i| ≤ d) :
    ∀ i, i < s₁.network.agents.length → |opinionOf t₂.network.agents i - opinionOf t₁.network.agents i| ≤ d := by
  intro i hi
  rw [abs_le]
  exact C90_box h₁ h₂ hw hs hk₁ hk₂ (fun i hi => abs_le.mp (hx i hi)) i hi

/-- C90 (monotone): if no starting opinion is lowered, no later opinion is lowered; and if all are raised by at least `d`, so are all later ones. -/
theorem C90_monotone {k : Nat} {s₁ s₂ t₁ t₂ : DeGroot F} (h₁ : s₁.Ready) (h₂ : s₂.Ready) (hw : RowStochastic s₁.network) (hs : SameWeights s₁ s₂)
    (hk₁ : Iterates DeGroot.iteration s₁ k t₁) (hk₂ : Iterates DeGroot.iteration s₂ k t₂) {d : F}
    (hx : ∀ i, i < s₁.network.agents.length → opinionOf s₁.network.agents i + d ≤ opinionOf s₂.network.agents i) :
    ∀ i, i < s₁.network.agents.length → opinionOf t₁.network.agents i + d ≤ opinionOf t₂.network.agents i := by
  intro i hi
  obtain ⟨B, hB⟩ : ∃ B, ∀ i, i < s₁.network.agents.length → opinionOf s₂.network.agents i - opinionOf s₁.network.agents i ≤ B := by
    refine ⟨∑ j ∈ Finset.range s₁.network.agents.length, |opinionOf s₂.network.agents j - opinionOf s₁.network.agents j|, fun i hi => ?_⟩
    exact (le_abs_self _).trans (Finset.single_le_sum (f := fun j => |opinionOf s₂.network.agents j - opinionOf s₁.network.agents j|) (fun j _ => abs_nonneg _)
      (Finset.mem_range.mpr hi))
  have := (C90_box h₁ h₂ hw hs hk₁ hk₂ (lo := d) (hi := B) (fun i hi => ⟨by linarith [hx i hi], hB i hi⟩) i hi).1
  linarith

end

/-- C89 (distance from the consensus): every opinion after `m (n - 1)` iterations or more differs from the common limit by at most `(1 - δ^(n-1))^m` times the length of
the interval of the starting opinions. -/
theorem C89_limit {st : Nat → DeGroot ℝ} (T : DeGroot.Trajectory st) (hw : RowStochastic (st 0).network)
    (hself : ∀ i, i < (st 0).network.agents.length → Listens (st 0).network i i) {r : Nat} (hr : r < (st 0).network.agents.length)
    (hroot : ∀ i, i < (st 0).network.agents.length → Relation.ReflTransGen (Listens (st 0).network) i r)
    {δ : ℝ} (hδ0 : 0 ≤ δ) (hδ : ∀ i, i < (st 0).network.agents.length → ∀ e ∈ row (st 0).network i, 0 < e.2 → δ ≤ e.2)
    {lo hi : ℝ} (hx : ∀ i, i < (st 0).network.agents.length → lo ≤ opinionOf (st 0).network.agents i ∧ opinionOf (st 0).network.agents i ≤ hi) :
    ∃ c : ℝ, (∀ i, i < (st 0).network.agents.length → Tendsto (fun k => opinionOf (st k).network.agents i) atTop (𝓝 c)) ∧
      ∀ m k, m * ((st 0).network.agents.length - 1) ≤ k → ∀ i, i < (st 0).network.agents.length →
        |opinionOf (st k).network.agents i - c| ≤ (1 - δ ^ ((st 0).network.agents.length - 1)) ^ m * (hi - lo) := by
  obtain ⟨c, hc, -⟩ := C63_consensus T hw hself hr hroot
  refine ⟨c, hc, fun m k hk i hi0 => ?_⟩
  obtain ⟨lo', hi', e1, e2⟩ := C89_rate T hw hself hr hroot hδ0 hδ hx m
  have hlo : lo' ≤ c := ge_of_tendsto (hc i hi0) (eventually_atTop.mpr ⟨_, fun k hk => (e2 k hk i hi0).1⟩)
  have hhi : c ≤ hi' := le_of_tendsto (hc i hi0) (eventually_atTop.mpr ⟨_, fun k hk => (e2 k hk i hi0).2⟩)
  have b := e2 k hk i hi0
  rw [← e1, abs_le]
  constructor <;> linarith [b.1, b.2]

/-! ## The hypotheses are met by a concrete network -/

theorem mixModel_facts : mixModel.Ready ∧ RowStochastic mixModel.network ∧ (∀ i, i < 2 → Listens mixModel.network i i) ∧
    (∀ i, i < 2 → Relation.ReflTransGen (Listens mixModel.network) i 0) ∧ (∀ i, i < 2 → ∀ e ∈ row mixModel.network i, 0 < e.2 → (1 / 4 : ℚ) ≤ e.2) := by
  have hL : ∀ i, i < 2 → Listens mixModel.network i i := by
    intro i hi
    match i, hi with
    | 0, _ => exact ⟨1 / 4, by simp [mixModel, mixNet, row], by norm_num⟩
    | 1, _ => exact ⟨1 / 2, by simp [mixModel, mixNet, row], by norm_num⟩
  refine ⟨⟨⟨rfl, rfl, ?_, ?_⟩, rfl⟩, ⟨?_, ?_⟩, hL, ?_, ?_⟩
  · intro i h h'
    simp only [mixModel, mixNet, List.length_cons, List.length_nil] at h
    match i, h with
    | 0, _ => rfl
    | 1, _ => rfl
  · intro row hrow j hj
    simp only [mixModel, mixNet, List.mem_cons, List.not_mem_nil, or_false] at hrow
    rcases hrow with rfl | rfl <;> simp at hj <;> rcases hj with rfl | rfl <;> simp [mixModel, mixNet]
  · intro i hi e he
    simp only [mixModel, mixNet, List.length_cons, List.length_nil] at hi
    match i, hi with
    | 0, _ => simp [mixModel, mixNet, row] at he; rcases he with rfl | rfl <;> norm_num
    | 1, _ => simp [mixModel, mixNet, row] at he; rcases he with rfl | rfl <;> norm_num
  · intro i hi
    simp only [mixModel, mixNet, List.length_cons, List.length_nil] at hi
    match i, hi with
    | 0, _ => simp [mixModel, mixNet, row]; norm_num
    | 1, _ => simp [mixModel, mixNet, row]; norm_num
  · intro i hi
    match i, hi with
    | 0, _ => exact .refl
    | 1, _ => exact .single ⟨1 / 2, by simp [mixModel, mixNet, row], by norm_num⟩
  · intro i hi e he _
    match i, hi with
    | 0, _ => simp [mixModel, mixNet, row] at he; rcases he with rfl | rfl <;> norm_num
    | 1, _ => simp [mixModel, mixNet, row] at he; rcases he with rfl | rfl <;> norm_num

/-- Two agents, smallest weight `1/4`, tolerance `1/100`: at most 18 iterations. -/
example : ∃ (K : Nat) (st : Nat → DeGroot ℚ), IsRun DeGroot.machine mixModel.reset K st ∧ K ≤ 18 := by
  obtain ⟨h1, h2, h3, h4, h5⟩ := mixModel_facts
  exact C89_iterations (m := 17) h1 (DeGroot.Unsettled.of_fresh rfl) h2 (by norm_num [mixModel]) h3 (r := 0) (by decide) h4 (δ := 1 / 4) (by norm_num) h5 (lo := 0) (hi := 1)
    (fun i hi => by
      match i, hi with
      | 0, _ => exact ⟨le_refl _, by norm_num [mixModel, mixNet, opinionOf, opinions]⟩
      | 1, _ => exact ⟨by norm_num [mixModel, mixNet, opinionOf, opinions], le_refl _⟩) (by norm_num [mixModel, mixNet])

/-- The example with the opinion of agent 0 raised by `1/2`: this raises no opinion by more, and lowers none, after any number of iterations. -/
def mixRaised : DeGroot ℚ := { mixModel with network := { mixNet with agents := [⟨1 / 2⟩, ⟨1⟩] } }

example {k : Nat} {t₁ t₂ : DeGroot ℚ} (h₁ : Iterates DeGroot.iteration mixModel k t₁) (h₂ : Iterates DeGroot.iteration mixRaised k t₂) :
    ∀ i, i < 2 → 0 ≤ opinionOf t₂.network.agents i - opinionOf t₁.network.agents i ∧ opinionOf t₂.network.agents i - opinionOf t₁.network.agents i ≤ 1 / 2 := by
  obtain ⟨h1, h2, -⟩ := mixModel_facts
  refine C90_box (s₂ := mixRaised) h1 ⟨⟨h1.wf.1, h1.wf.2, h1.wf.3, h1.wf.4⟩, rfl⟩ h2 ⟨rfl, rfl, rfl⟩ h₁ h₂ fun i hi => ?_
  match i, hi with
  | 0, _ => norm_num [mixModel, mixRaised, mixNet, opinionOf, opinions]
  | 1, _ => norm_num [mixModel, mixRaised, mixNet, opinionOf, opinions]

end Seldon
