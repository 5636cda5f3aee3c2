import Verif.Lemmas.MeanField
/-!
# Lemmas: the mean-field network update, operation by operation

The closed form of `Verif.Lemmas.MeanField` without the laws of a field: every addition is kept in the order in which the code carries it out, so
that it can be used for floating-point numbers.
-/
set_option linter.unusedSectionVars false
namespace Seldon
open Spec
variable {A F G : Type}

namespace Activity
section
variable [ActiveAgent A F] [Zero F] [One F] [Sub F] [Mul F] [Add F] [Div F] [Neg F] [NatCast F] [LT F] [LE F] [DecidableLT F] [DecidableLE F]

/-- the sum in `probability_helper`, one term after the other -/
def helperSeq (o : MathOps F) (omega : F) : Nat → F
  | 0 => 0
  | m + 1 => helperSeq o omega m + (o.powNat (-omega) (m + 1 + 1) + omega) / (omega + 1)

theorem probabilityHelper_seq (o : MathOps F) (omega : F) (m : Nat) : probabilityHelper o omega m = .ok (helperSeq o omega m) :=
  loop_eq (n := m) (f := fun i p => .ok (p + (o.powNat (-omega) (i + 1 + 1) + omega) / (omega + 1))) (helperSeq o omega) (fun _ _ => rfl)

/-- the sum of the weights, one after the other -/
def totalSeq (w : Nat → F) : Nat → F
  | 0 => 0
  | n + 1 => totalSeq w n + w n

theorem normalization_seq (w : Nat → F) (n : Nat) : normalization w n = .ok (totalSeq w n) :=
  loop_eq (n := n) (f := fun k acc => .ok (acc + w k)) (totalSeq w) (fun _ _ => rfl)

/-- the contact probabilities -/
def probsSeq (o : MathOps F) (p : ActivitySettings F) (agents : List A) (i j : Nat) : F :=
  cmax 1 (attr ActiveAgent.activity agents i) * helperSeq o (weight o (homophilyFor p i) agents i j /
    totalSeq (weight o (homophilyFor p i) agents i) agents.length) (contactsOf p i).toNat

theorem contactRow_seq (o : MathOps F) (w : Nat → F) (norm activity : F) (m : Nat) {n i : Nat} {P : List (List F)} {row : List F}
    (hP : P[i]? = some row) (hrow : row.length = n) :
    contactRow o w norm activity m n i P = .ok (P.set i ((List.range n).map (fun j => activity * helperSeq o (w j / norm) m))) := by
  unfold contactRow
  have hi := (List.getElem?_eq_some_iff.mp hP).1
  obtain ⟨t, ht, row', rfl, hl, hv⟩ := loop_inv (n := n) (f := fun j P => do
      let q ← probabilityHelper o (w j / norm) m
      let row ← rd P i
      let row ← wr row j (activity * q)
      wr P i row) (s := P)
    (fun k t => ∃ row' : List F, t = P.set i row' ∧ row'.length = n ∧ ∀ j, j < k → row'[j]? = some (activity * helperSeq o (w j / norm) m)) (by
      refine ⟨row, ?_, hrow, by simp⟩
      obtain ⟨_, rfl⟩ := List.getElem?_eq_some_iff.mp hP
      simp) (by
      rintro k t hk ⟨row', rfl, hl, hv⟩
      refine ⟨P.set i (row'.set k (activity * helperSeq o (w k / norm) m)), ?_, _, rfl, by simpa using hl, ?_⟩
      · rw [probabilityHelper_seq, Res.bind_ok, rd_eq_ok.mpr (List.getElem?_set_self hi), Res.bind_ok, wr_lt _ (by omega), Res.bind_ok,
          wr_lt _ (by simpa using hi)]
        simp
      · intro j hj
        by_cases hjk : k = j
        · subst hjk; rw [List.getElem?_set_self (by omega)]
        · rw [List.getElem?_set_ne hjk]; exact hv j (by omega))
  rw [ht]
  congr 2
  apply List.ext_getElem?
  intro j
  by_cases hj : j < n
  · rw [hv j hj]; simp [hj]
  · rw [List.getElem?_eq_none (by omega), List.getElem?_eq_none (by simp; omega)]

theorem contactProbs_seq (o : MathOps F) {s : Activity A F G} (h : MeanReady s) :
    loop s.network.agents.length (fun i P => contactProbs o s.p s.network.agents i P) (mat s.network.agents.length (fun _ _ => 0)) =
      .ok (mat s.network.agents.length (probsSeq o s.p s.network.agents)) := by
  obtain ⟨t, ht, hl, hv, -⟩ := loop_inv (n := s.network.agents.length) (f := fun i P => contactProbs o s.p s.network.agents i P)
    (s := mat s.network.agents.length (fun _ _ => 0))
    (fun k t => t.length = s.network.agents.length ∧
      (∀ i, i < k → t[i]? = some ((List.range s.network.agents.length).map (probsSeq o s.p s.network.agents i))) ∧
      (∀ (i : Nat) (row : List F), t[i]? = some row → row.length = s.network.agents.length)) (by
      refine ⟨mat_length _ _, by simp, ?_⟩
      intro i row hrow
      have hi := (List.getElem?_eq_some_iff.mp hrow).1
      rw [mat_length] at hi
      rw [mat_row _ hi] at hrow
      rw [← Option.some.inj hrow]; simp) (by
      rintro k t hk ⟨hl, hv, hr⟩
      obtain ⟨row, hrow⟩ : ∃ row, t[k]? = some row := ⟨t[k], by simp [hl, hk]⟩
      refine ⟨t.set k ((List.range s.network.agents.length).map (probsSeq o s.p s.network.agents k)), ?_, by simpa using hl, ?_, ?_⟩
      · unfold contactProbs
        rw [homophilyOf_eq h.botHomophily, Res.bind_ok, normalization_seq, Res.bind_ok, contactsWanted_eq' h hk, Res.bind_ok, rd_lt hk,
          Res.bind_ok, contactRow_seq o _ _ _ _ hrow (hr k row hrow)]
        unfold probsSeq
        rw [attr_lt _ hk]
      · intro i hi
        by_cases hik : k = i
        · subst hik; rw [List.getElem?_set_self (by omega)]
        · rw [List.getElem?_set_ne hik]; exact hv i (by omega)
      · intro i row' hrow'
        by_cases hik : k = i
        · subst hik
          rw [List.getElem?_set_self (by omega)] at hrow'
          rw [← Option.some.inj hrow']; simp
        · rw [List.getElem?_set_ne hik] at hrow'
          exact hr i row' hrow')
  rw [ht]
  congr 1
  apply List.ext_getElem?
  intro j
  by_cases hj : j < s.network.agents.length
  · rw [hv j hj, mat_row _ hj]
  · rw [List.getElem?_eq_none (by omega), List.getElem?_eq_none (by rw [mat_length]; omega)]

/-- A weight, given which of its two contributions have been added: `a` by the pair in reverse order, `b` by the pair itself. -/
def weightAfter (x y : Nat) (a b : F) (hasA hasB : Prop) [Decidable hasA] [Decidable hasB] : F :=
  if hasA then if hasB then if x < y then 0 + b + a else 0 + a + b else 0 + a else if hasB then 0 + b else 0

/-- the weights after the pairs before `(i, j)` -/
def partialSeq (c : F) (P : Nat → Nat → F) (i j x y : Nat) : F :=
  weightAfter x y (P y x) ((1 - P y x) * c * P x y) (Before i j y x) (Before i j x y)

/-- the weights after all pairs -/
def weightSeq (c : F) (P : Nat → Nat → F) (x y : Nat) : F :=
  if x < y then 0 + (1 - P y x) * c * P x y + P y x else 0 + P y x + (1 - P y x) * c * P x y

theorem meanPair_seq {N : Network A F} {n : Nat} (f P : Nat → Nat → F) (c : F) {i j : Nat} (hi : i < n) (hj : j < n) :
    meanPair c (mat n P) i j { N with weights := mat n f } =
      .ok { N with weights := mat n (fun x y => if x = i ∧ y = j then (if i = j ∧ j = i then f j i + P i j else f i j) + (1 - P j i) * c * P i j
        else if x = j ∧ y = i then f j i + P i j else f x y) } := by
  unfold meanPair
  rw [rd_eq_ok.mpr (mat_row P hi), Res.bind_ok, rd_lt (by simpa using hj), Res.bind_ok, rd_eq_ok.mpr (mat_row P hj), Res.bind_ok,
    rd_lt (by simpa using hi), Res.bind_ok, addWeight_mat f hj hi, Res.bind_ok, addWeight_mat _ hi hj]
  simp only [List.getElem_map, List.getElem_range]

theorem before_succ {i j a b : Nat} : Before i (j + 1) a b ↔ Before i j a b ∨ (a = i ∧ b = j) := by
  unfold Before; omega

theorem partialSeq_step (c : F) (P : Nat → Nat → F) (i j x y : Nat) :
    (if x = i ∧ y = j then (if i = j ∧ j = i then partialSeq c P i j j i + P i j else partialSeq c P i j i j) + (1 - P j i) * c * P i j
        else if x = j ∧ y = i then partialSeq c P i j j i + P i j else partialSeq c P i j x y) = partialSeq c P i (j + 1) x y := by
  have nb : ¬ Before i j i j := by unfold Before; omega
  by_cases h1 : x = i ∧ y = j
  · obtain ⟨rfl, rfl⟩ := h1
    by_cases h2 : x = y
    · subst h2
      simp [partialSeq, weightAfter, before_succ, nb]
    · have h2' : ¬ (x = y ∧ y = x) := fun h => h2 h.1
      have h2'' : ¬ (y = x ∧ x = y) := fun h => h2 h.2
      rw [if_pos ⟨rfl, rfl⟩, if_neg h2']
      unfold partialSeq weightAfter
      simp only [before_succ, nb, h2'', or_false, false_or, and_self, if_true, if_false]
      by_cases h3 : Before x y y x
      · have : ¬ x < y := by unfold Before at h3; omega
        simp [h3, this]
      · simp [h3]
  · rw [if_neg h1]
    by_cases h2 : x = j ∧ y = i
    · obtain ⟨rfl, rfl⟩ := h2
      rw [if_pos ⟨rfl, rfl⟩]
      unfold partialSeq weightAfter
      simp only [before_succ, nb, h1, or_false, false_or, and_self, if_true, if_false]
      by_cases h3 : Before y x x y
      · have : x < y := by
          unfold Before at h3; omega
        simp [h3, this]
      · simp [h3]
    · have h2' : ¬ (y = i ∧ x = j) := fun h => h2 ⟨h.2, h.1⟩
      rw [if_neg h2]
      unfold partialSeq
      simp only [before_succ, h1, h2', or_false]

theorem meanPairs_seq {N : Network A F} {n : Nat} (P : Nat → Nat → F) (c : F) (hN : N.weights = mat n (fun _ _ => 0)) :
    loop n (fun i N => loop n (fun j N => meanPair c (mat n P) i j N) N) N = .ok { N with weights := mat n (weightSeq c P) } := by
  have inner : ∀ i, i < n → loop n (fun j N => meanPair c (mat n P) i j N)
      ({ N with weights := mat n (partialSeq c P i 0) } : Network A F) = .ok { N with weights := mat n (partialSeq c P i n) } := by
    intro i hi
    refine loop_eq (fun j => ({ N with weights := mat n (partialSeq c P i j) } : Network A F)) ?_
    intro j hj
    rw [meanPair_seq _ _ _ hi hj]
    congr 2
    apply mat_congr
    intro x y _ _
    exact partialSeq_step c P i j x y
  have e0 : ∀ i, mat n (partialSeq c P i n) = mat n (partialSeq c P (i + 1) 0) := by
    intro i
    apply mat_congr
    intro x y hx hy
    unfold partialSeq
    have b : ∀ a b, b < n → (Before i n a b ↔ Before (i + 1) 0 a b) := by
      intro a b hb; unfold Before; omega
    simp only [b _ _ hx, b _ _ hy]
  have := loop_eq (n := n) (f := fun i N => loop n (fun j N => meanPair c (mat n P) i j N) N)
    (fun i => ({ N with weights := mat n (partialSeq c P i 0) } : Network A F)) (by
      intro i hi
      rw [inner i hi, e0])
  have e1 : ({ N with weights := mat n (partialSeq c P 0 0) } : Network A F) = N := by
    have : mat n (partialSeq c P 0 0) = N.weights := by
      rw [hN]
      apply mat_congr
      intro x y _ _
      simp [partialSeq, weightAfter, Before]
    rw [this]
  rw [e1] at this
  rw [this]
  congr 2
  apply mat_congr
  intro x y hx hy
  unfold partialSeq weightAfter weightSeq
  have b : ∀ a b, a < n → Before n 0 a b := by
    intro a b ha; unfold Before; omega
  simp [b _ _ hx, b _ _ hy]

/-- Closed form of the mean-field update, with the operations in the order of the code. -/
theorem updateMean_seq (o : MathOps F) {s : Activity A F G} (h : MeanReady s) :
    updateMean o s = .ok { s with
      network := { s.network with weights := mat s.network.agents.length (weightSeq s.p.reciprocity (probsSeq o s.p s.network.agents)) }
      contactProb := mat s.network.agents.length (probsSeq o s.p s.network.agents) } := by
  unfold updateMean Network.nAgents
  simp only [resetMean_loop h.rows h.wrows h.probs, Res.bind_ok, contactProbs_seq o h]
  rw [meanPairs_seq _ _ rfl, Res.bind_ok]

end
end Activity
end Seldon
