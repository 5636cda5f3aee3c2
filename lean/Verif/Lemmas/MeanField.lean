import Verif.Lemmas.ActivityNetwork
import Verif.Lemmas.NetworkGen
import Mathlib.Algebra.BigOperators.Group.Finset.Basic
import Mathlib.Algebra.BigOperators.Intervals
import Mathlib.Data.List.Defs
import Mathlib.Tactic.Ring
/-!
# Lemmas: the mean-field network update
-/
set_option linter.unusedSectionVars false
namespace Seldon
open Spec
variable {A F G : Type}

/-- The `n × n` table of `f`. -/
def mat (n : Nat) (f : Nat → Nat → F) : List (List F) := (List.range n).map (fun a => (List.range n).map (f a))

theorem mat_length (n : Nat) (f : Nat → Nat → F) : (mat n f).length = n := by simp [mat]

theorem mat_row {n : Nat} (f : Nat → Nat → F) {a : Nat} (ha : a < n) : (mat n f)[a]? = some ((List.range n).map (f a)) := by
  simp [mat, ha]

theorem mat_congr {n : Nat} {f g : Nat → Nat → F} (h : ∀ a b, a < n → b < n → f a b = g a b) : mat n f = mat n g := by
  unfold mat
  apply List.map_congr_left
  intro a ha
  apply List.map_congr_left
  intro b hb
  exact h a b (List.mem_range.mp ha) (List.mem_range.mp hb)

theorem mat_set {n : Nat} (f : Nat → Nat → F) {a b : Nat} (v : F) :
    (mat n f).set a (((List.range n).map (f a)).set b v) = mat n (fun x y => if x = a ∧ y = b then v else f x y) := by
  unfold mat
  rw [NetLemmas.map_range_set, NetLemmas.map_range_set]
  apply List.map_congr_left
  intro x _
  by_cases h : x = a
  · subst h
    simp
  · simp [h]

theorem mat_rows {N : Network A F} {n : Nat} (hr : N.neighbours = List.replicate n (List.range n))
    {f : Nat → Nat → F} (hw : N.weights = mat n f) {j : Nat} (hj : j < n) : row N j = (List.range n).map (fun i => (i, f j i)) := by
  unfold row
  rw [hr, hw]
  simp only [mat, List.getD_eq_getElem?_getD, List.getElem?_replicate, hj, if_true, Option.getD_some, List.getElem?_map,
    List.getElem?_range, Option.map_some]
  apply List.ext_getElem
  · simp
  · intro i h1 h2
    simp

theorem mat_wf {N : Network A F} {n : Nat} (hn : N.agents.length = n) (hr : N.neighbours = List.replicate n (List.range n))
    {f : Nat → Nat → F} (hw : N.weights = mat n f) : WF N := by
  refine ⟨by rw [hr, hn]; simp, by rw [hw, hn, mat_length], ?_, ?_⟩
  · rw [hr, hw]
    simp [mat]
  · rw [hr, hn]
    intro r hr' j hj
    rw [(List.mem_replicate.mp hr').2] at hj
    exact List.mem_range.mp hj

/-- The update of `update_network_mean` can take place: fully connected network, tables of the right size, bot vectors long enough,
non-negative numbers of contacts. -/
structure Activity.MeanReady (s : Activity A F G) : Prop where
  rows : s.network.neighbours = List.replicate s.network.agents.length (List.range s.network.agents.length)
  wrows : s.network.weights.length = s.network.agents.length
  incoming : s.network.direction = .incoming
  probs : s.contactProb.length = s.network.agents.length
  bots : s.p.nBots ≤ s.network.agents.length
  botM : s.p.nBots ≤ s.p.botM.length
  botHomophily : s.p.nBots ≤ s.p.botHomophily.length
  botOpinion : s.p.nBots ≤ s.p.botOpinion.length
  nonneg : ∀ i, i < s.network.agents.length → 0 ≤ contactsOf s.p i
  size : ∀ i, i < s.network.agents.length → contactsOf s.p i < 2 ^ 64
  mean : s.p.meanWeights = true

namespace Activity
section
variable [ActiveAgent A F] [Zero F] [One F] [Sub F] [Mul F] [Add F] [Div F] [Neg F] [NatCast F] [LT F] [LE F] [DecidableLT F] [DecidableLE F]

theorem contactsWanted_eq' {s : Activity A F G} (h : MeanReady s) {i : Nat} (hi : i < s.network.agents.length) :
    contactsWanted s.p i = .ok (contactsOf s.p i).toNat := by
  have h1 := h.nonneg i hi
  have h2 := h.size i hi
  have e : ∀ x : Int, 0 ≤ x → x < 2 ^ 64 → Network.toSize x = x.toNat := by
    intro x hx hx'
    unfold Network.toSize
    rw [Int.emod_eq_of_lt hx hx']
  unfold contactsWanted
  unfold contactsOf at *
  rw [isBot_eq]
  by_cases hb : i < s.p.nBots
  · rw [if_pos hb] at h1 h2
    rw [if_pos (by simpa using hb), if_pos hb, rd_getD 0 (by have := h.botM; omega), Res.bind_ok, e _ h1 h2]
  · rw [if_neg hb] at h1 h2
    rw [if_neg (by simpa using hb), if_neg hb, e _ h1 h2]

/-- First loop of the mean-field update. -/
theorem resetMean_loop {N : Network A F} {P : List (List F)}
    (hr : N.neighbours = List.replicate N.agents.length (List.range N.agents.length)) (hw : N.weights.length = N.agents.length)
    (hP : P.length = N.agents.length) :
    loop N.agents.length (fun i t => resetMean i t) (N, P) =
      .ok ({ N with weights := mat N.agents.length (fun _ _ => 0) }, mat N.agents.length (fun _ _ => 0)) := by
  obtain ⟨⟨N', P'⟩, ht, W, hN', hW, hWv, hP', hPv⟩ := loop_inv (n := N.agents.length) (f := fun i t => resetMean i t) (s := (N, P))
    (fun k t => ∃ W : List (List F), t.1 = { N with weights := W } ∧ W.length = N.agents.length ∧
      (∀ j, j < k → W[j]? = some (List.replicate N.agents.length 0)) ∧ t.2.length = N.agents.length ∧
      (∀ j, j < k → t.2[j]? = some (List.replicate N.agents.length 0))) ⟨N.weights, rfl, hw, by simp, hP, by simp⟩ (by
      rintro k ⟨N', P'⟩ hk ⟨W, hN', hW, hWv, hP', hPv⟩
      simp only at hN' hP' hPv
      subst hN'
      refine ⟨({ N with weights := W.set k (List.replicate N.agents.length 0) }, P'.set k (List.replicate N.agents.length 0)), ?_,
        _, rfl, by simpa using hW, ?_, by simpa using hP', ?_⟩
      · have h1 : (Network.setWeights ({ N with weights := W } : Network A F) k (List.replicate N.agents.length 0)).run =
            .ok { N with weights := W.set k (List.replicate N.agents.length 0) } := by
          unfold Network.setWeights
          simp only [hr]
          rw [rd_lt (by simpa using hk)]
          simp only [List.getElem_replicate, List.length_replicate, List.length_range, ne_eq, not_true_eq_false, if_false]
          rw [wr_lt _ (by omega)]
          rfl
        have h2 : Network.nAgents ({ N with weights := W } : Network A F) = N.agents.length := rfl
        unfold resetMean
        simp only [h2, h1, Res.bind_ok]
        rw [wr_lt _ (by omega), Res.bind_ok]
      · intro j hj
        by_cases hjk : k = j
        · subst hjk; rw [List.getElem?_set_self (by omega)]
        · rw [List.getElem?_set_ne hjk]; exact hWv j (by omega)
      · intro j hj
        by_cases hjk : k = j
        · subst hjk; rw [List.getElem?_set_self (by omega)]
        · rw [List.getElem?_set_ne hjk]; exact hPv j (by omega))
  simp only at hN' hP' hPv
  have e : ∀ L : List (List F), L.length = N.agents.length → (∀ j, j < N.agents.length → L[j]? = some (List.replicate N.agents.length 0)) →
      L = mat N.agents.length (fun _ _ => 0) := by
    intro L hL hv
    apply List.ext_getElem?
    intro j
    by_cases hj : j < N.agents.length
    · rw [hv j hj, mat_row _ hj, List.map_const']; simp
    · rw [List.getElem?_eq_none (by omega), List.getElem?_eq_none (by rw [mat_length]; omega)]
  rw [ht, hN', e W hW hWv, e P' hP' hPv]

theorem addWeight_mat {N : Network A F} {n : Nat} (f : Nat → Nat → F) {a b : Nat} (ha : a < n) (hb : b < n) (v : F) :
    addWeight { N with weights := mat n f } a b v =
      .ok { N with weights := mat n (fun x y => if x = a ∧ y = b then f a b + v else f x y) } := by
  unfold addWeight Network.getWeights Network.pokeWeight
  simp only
  rw [rd_eq_ok.mpr (mat_row f ha), Res.bind_ok, rd_lt (by simpa using hb), Res.bind_ok]
  dsimp only
  rw [wr_lt _ (by simpa using hb)]
  simp only [Network.Effect.run, List.getElem_map, List.getElem_range]
  rw [mat_set]

end

section
variable [ActiveAgent A F] [Field F] [LT F] [LE F] [DecidableLT F] [DecidableLE F]

/-- `Σ_{i=1}^m ( (-ω)^(i+1) + ω ) / ( ω + 1 )`, as in the code. -/
def helper (o : MathOps F) (omega : F) (m : Nat) : F := ∑ i ∈ Finset.range m, (o.powNat (-omega) (i + 2) + omega) / (omega + 1)

theorem probabilityHelper_eq (o : MathOps F) (omega : F) (m : Nat) : probabilityHelper o omega m = .ok (helper o omega m) := by
  unfold probabilityHelper
  have := loop_eq (n := m) (f := fun i p => .ok (p + (o.powNat (-omega) (i + 1 + 1) + omega) / (omega + 1))) (helper o omega) (by
    intro i _
    unfold helper
    rw [Finset.sum_range_succ])
  simpa [helper] using this

theorem normalization_eq (w : Nat → F) (n : Nat) : normalization w n = .ok (∑ k ∈ Finset.range n, w k) := by
  unfold normalization
  have := loop_eq (n := n) (f := fun k acc => .ok (acc + w k)) (fun n => ∑ k ∈ Finset.range n, w k) (by
    intro i _
    rw [Finset.sum_range_succ])
  simpa using this

/-- The contact probabilities as computed by the code. -/
def probs (o : MathOps F) (p : ActivitySettings F) (agents : List A) (i j : Nat) : F :=
  cmax 1 (attr ActiveAgent.activity agents i) * helper o (weight o (homophilyFor p i) agents i j /
    ∑ k ∈ Finset.range agents.length, weight o (homophilyFor p i) agents i k) (contactsOf p i).toNat

theorem contactRow_eq (o : MathOps F) (w : Nat → F) (norm activity : F) (m : Nat) {n i : Nat} {P : List (List F)} {row : List F}
    (hP : P[i]? = some row) (hrow : row.length = n) :
    contactRow o w norm activity m n i P = .ok (P.set i ((List.range n).map (fun j => activity * helper o (w j / norm) m))) := by
  unfold contactRow
  have hi := (List.getElem?_eq_some_iff.mp hP).1
  obtain ⟨t, ht, row', rfl, hl, hv⟩ := loop_inv (n := n) (f := fun j P => do
      let q ← probabilityHelper o (w j / norm) m
      let row ← rd P i
      let row ← wr row j (activity * q)
      wr P i row) (s := P)
    (fun k t => ∃ row' : List F, t = P.set i row' ∧ row'.length = n ∧ ∀ j, j < k → row'[j]? = some (activity * helper o (w j / norm) m)) (by
      refine ⟨row, ?_, hrow, by simp⟩
      obtain ⟨_, rfl⟩ := List.getElem?_eq_some_iff.mp hP
      simp) (by
      rintro k t hk ⟨row', rfl, hl, hv⟩
      refine ⟨P.set i (row'.set k (activity * helper o (w k / norm) m)), ?_, _, rfl, by simpa using hl, ?_⟩
      · rw [probabilityHelper_eq, Res.bind_ok, rd_eq_ok.mpr (List.getElem?_set_self hi), Res.bind_ok, wr_lt _ (by omega), Res.bind_ok,
          wr_lt _ (by simpa using hi)]
        simp
      · intro j hj
        by_cases hjk : k = j
        · subst hjk; rw [List.getElem?_set_self (by omega)]
        · rw [List.getElem?_set_ne hjk]; exact hv j (by omega))
  rw [ht]
  congr 2
  apply List.ext_getElem?
  intro j
  by_cases hj : j < n
  · rw [hv j hj]; simp [hj]
  · rw [List.getElem?_eq_none (by omega), List.getElem?_eq_none (by simp; omega)]

/-- Second loop of the mean-field update. -/
theorem contactProbs_loop (o : MathOps F) {s : Activity A F G} (h : MeanReady s) :
    loop s.network.agents.length (fun i P => contactProbs o s.p s.network.agents i P) (mat s.network.agents.length (fun _ _ => 0)) =
      .ok (mat s.network.agents.length (probs o s.p s.network.agents)) := by
  obtain ⟨t, ht, hl, hv, -⟩ := loop_inv (n := s.network.agents.length) (f := fun i P => contactProbs o s.p s.network.agents i P)
    (s := mat s.network.agents.length (fun _ _ => 0))
    (fun k t => t.length = s.network.agents.length ∧
      (∀ i, i < k → t[i]? = some ((List.range s.network.agents.length).map (probs o s.p s.network.agents i))) ∧
      (∀ (i : Nat) (row : List F), t[i]? = some row → row.length = s.network.agents.length)) (by
      refine ⟨mat_length _ _, by simp, ?_⟩
      intro i row hrow
      have hi := (List.getElem?_eq_some_iff.mp hrow).1
      rw [mat_length] at hi
      rw [mat_row _ hi] at hrow
      rw [← Option.some.inj hrow]; simp) (by
      rintro k t hk ⟨hl, hv, hr⟩
      obtain ⟨row, hrow⟩ : ∃ row, t[k]? = some row := ⟨t[k], by simp [hl, hk]⟩
      refine ⟨t.set k ((List.range s.network.agents.length).map (probs o s.p s.network.agents k)), ?_, by simpa using hl, ?_, ?_⟩
      · unfold contactProbs
        rw [homophilyOf_eq h.botHomophily, Res.bind_ok, normalization_eq, Res.bind_ok, contactsWanted_eq' h hk, Res.bind_ok, rd_lt hk,
          Res.bind_ok, contactRow_eq o _ _ _ _ hrow (hr k row hrow)]
        unfold probs
        rw [attr_lt _ hk]
      · intro i hi
        by_cases hik : k = i
        · subst hik; rw [List.getElem?_set_self (by omega)]
        · rw [List.getElem?_set_ne hik]; exact hv i (by omega)
      · intro i row' hrow'
        by_cases hik : k = i
        · subst hik
          rw [List.getElem?_set_self (by omega)] at hrow'
          rw [← Option.some.inj hrow']; simp
        · rw [List.getElem?_set_ne hik] at hrow'
          exact hr i row' hrow')
  rw [ht]
  congr 1
  apply List.ext_getElem?
  intro j
  by_cases hj : j < s.network.agents.length
  · rw [hv j hj, mat_row _ hj]
  · rw [List.getElem?_eq_none (by omega), List.getElem?_eq_none (by rw [mat_length]; omega)]

theorem meanPair_mat {N : Network A F} {n : Nat} (f P : Nat → Nat → F) (c : F) {i j : Nat} (hi : i < n) (hj : j < n) :
    meanPair c (mat n P) i j { N with weights := mat n f } =
      .ok { N with weights := mat n (fun x y => f x y + (if x = j ∧ y = i then P i j else 0) +
        (if x = i ∧ y = j then (1 - P j i) * c * P i j else 0)) } := by
  unfold meanPair
  rw [rd_eq_ok.mpr (mat_row P hi), Res.bind_ok, rd_lt (by simpa using hj), Res.bind_ok, rd_eq_ok.mpr (mat_row P hj), Res.bind_ok,
    rd_lt (by simpa using hi), Res.bind_ok, addWeight_mat f hj hi, Res.bind_ok, addWeight_mat _ hi hj]
  simp only [List.getElem_map, List.getElem_range]
  congr 2
  apply mat_congr
  intro x y _ _
  by_cases h1 : x = i ∧ y = j
  · obtain ⟨rfl, rfl⟩ := h1
    by_cases h2 : x = y
    · subst h2; simp
    · have h2' : ¬ (x = y ∧ y = x) := fun h => h2 h.1
      simp [h2']
  · by_cases h2 : x = j ∧ y = i
    · obtain ⟨rfl, rfl⟩ := h2
      simp [h1]
    · simp [h1, h2]

/-- The pair `(a, b)` comes before `(i, j)` in the order of the double loop. -/
def Before (i j a b : Nat) : Prop := a < i ∨ (a = i ∧ b < j)

instance (i j a b : Nat) : Decidable (Before i j a b) := by unfold Before; infer_instance

/-- The weights after the pairs before `(i, j)`. -/
def partialWeights (c : F) (P : Nat → Nat → F) (i j x y : Nat) : F :=
  (if Before i j y x then P y x else 0) + (if Before i j x y then (1 - P y x) * c * P x y else 0)

theorem meanPairs_loop {N : Network A F} {n : Nat} (P : Nat → Nat → F) (c : F) (hN : N.weights = mat n (fun _ _ => 0)) :
    loop n (fun i N => loop n (fun j N => meanPair c (mat n P) i j N) N) N =
      .ok { N with weights := mat n (fun x y => P y x + (1 - P y x) * c * P x y) } := by
  have inner : ∀ i, i < n → loop n (fun j N => meanPair c (mat n P) i j N)
      ({ N with weights := mat n (partialWeights c P i 0) } : Network A F) = .ok { N with weights := mat n (partialWeights c P i n) } := by
    intro i hi
    refine loop_eq (fun j => ({ N with weights := mat n (partialWeights c P i j) } : Network A F)) ?_
    intro j hj
    rw [meanPair_mat _ _ _ hi hj]
    congr 2
    apply mat_congr
    intro x y _ _
    unfold partialWeights
    have b : ∀ a b, Before i (j + 1) a b ↔ Before i j a b ∨ (a = i ∧ b = j) := by
      intro a b; unfold Before; omega
    have nb : ¬ Before i j i j := by unfold Before; omega
    by_cases h1 : x = j ∧ y = i
    · obtain ⟨rfl, rfl⟩ := h1
      by_cases h2 : x = y
      · subst h2; simp [b, nb]
      · have h2' : ¬ (x = y ∧ y = x) := fun h => h2 h.1
        simp only [b, nb, h2', or_true, or_false, if_true, if_false, and_self]
        ring
    · have h1' : ¬ (y = i ∧ x = j) := fun h => h1 ⟨h.2, h.1⟩
      by_cases h2 : x = i ∧ y = j
      · obtain ⟨rfl, rfl⟩ := h2
        simp [b, nb, h1, h1']
      · simp [b, h1, h1', h2]
  have e0 : ∀ i, mat n (partialWeights c P i n) = mat n (partialWeights c P (i + 1) 0) := by
    intro i
    apply mat_congr
    intro x y hx hy
    unfold partialWeights
    have b : ∀ a b, b < n → (Before i n a b ↔ Before (i + 1) 0 a b) := by
      intro a b hb; unfold Before; omega
    simp only [b _ _ hx, b _ _ hy]
  have := loop_eq (n := n) (f := fun i N => loop n (fun j N => meanPair c (mat n P) i j N) N)
    (fun i => ({ N with weights := mat n (partialWeights c P i 0) } : Network A F)) (by
      intro i hi
      rw [inner i hi, e0])
  have e1 : ({ N with weights := mat n (partialWeights c P 0 0) } : Network A F) = N := by
    have : mat n (partialWeights c P 0 0) = N.weights := by
      rw [hN]
      apply mat_congr
      intro x y _ _
      simp [partialWeights, Before]
    rw [this]
  rw [e1] at this
  rw [this]
  congr 2
  apply mat_congr
  intro x y hx hy
  unfold partialWeights
  have b : ∀ a b, a < n → Before n 0 a b := by
    intro a b ha; unfold Before; omega
  simp [b _ _ hx, b _ _ hy]

/-- Closed form of the mean-field update. -/
theorem updateMean_eq (o : MathOps F) {s : Activity A F G} (h : MeanReady s) :
    updateMean o s = .ok { s with
      network := { s.network with weights := mat s.network.agents.length (fun x y => probs o s.p s.network.agents y x +
        (1 - probs o s.p s.network.agents y x) * s.p.reciprocity * probs o s.p s.network.agents x y) }
      contactProb := mat s.network.agents.length (probs o s.p s.network.agents) } := by
  unfold updateMean Network.nAgents
  simp only [resetMean_loop h.rows h.wrows h.probs, Res.bind_ok, contactProbs_loop o h]
  rw [meanPairs_loop _ _ rfl, Res.bind_ok]

end
end Activity
end Seldon
