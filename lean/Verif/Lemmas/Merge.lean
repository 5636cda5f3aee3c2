import Verif.Lemmas.Network
import Mathlib.Data.List.Perm.Basic
import Mathlib.Algebra.BigOperators.Group.Multiset.Basic
/-!
# Helper lemmas about `remove_double_counting`
-/
namespace Seldon
open Spec NetLemmas
variable {A W : Type}

namespace MergeLemmas

section General
variable [AddCommMonoid W]

/-- Row entries in the order chosen by the sort. -/
def sortedEntries (sort : List Nat → List Nat) (nbrs : List Nat) (ws : List W) : List (Nat × W) :=
  (sort nbrs).map fun k => (nbrs.zip ws).getD k (0, 0)

def mergePure (acc : List (Nat × W)) (e : Nat × W) : List (Nat × W) :=
  match acc.getLast? with
  | some kb => if kb.1 = e.1 then acc.dropLast ++ [(kb.1, kb.2 + e.2)] else acc ++ [e]
  | none    => acc ++ [e]

def toState (acc : List (Nat × W)) : Network.MergeState W where
  weightsCopy := acc.map (·.2)
  neighboursCopy := acc.map (·.1)
  last := acc.getLast?.map (·.1)

theorem sortedEntries_perm {sort : List Nat → List Nat} (hsort : Network.SortSpec sort) {nbrs : List Nat} {ws : List W}
    (hl : ws.length = nbrs.length) : (sortedEntries sort nbrs ws).Perm (nbrs.zip ws) := by
  have h1 : (sortedEntries sort nbrs ws).Perm ((List.range nbrs.length).map fun k => (nbrs.zip ws).getD k (0, 0)) :=
    (hsort.perm nbrs).map _
  have h2 : ((List.range nbrs.length).map fun k => (nbrs.zip ws).getD k ((0, 0) : Nat × W)) = nbrs.zip ws := by
    apply List.ext_getElem
    · simp [hl]
    · intro i h1 h2
      simp only [List.getElem_map, List.getElem_range]
      rw [getD_lt _ _ h2]
  rw [h2] at h1
  exact h1

theorem sortedEntries_sorted {sort : List Nat → List Nat} (hsort : Network.SortSpec sort) {nbrs : List Nat} {ws : List W}
    (hl : ws.length = nbrs.length) : (sortedEntries sort nbrs ws).Pairwise (fun a b => a.1 ≤ b.1) := by
  unfold sortedEntries
  rw [List.pairwise_map]
  have hlt : ∀ k ∈ sort nbrs, k < nbrs.length := by
    intro k hk
    have := (hsort.perm nbrs).mem_iff.mp hk
    simpa using this
  have hget : ∀ k ∈ sort nbrs, ((nbrs.zip ws).getD k ((0, 0) : Nat × W)).1 = nbrs.getD k 0 := by
    intro k hk
    have h1 := hlt k hk
    have h2 : k < ws.length := by omega
    rw [getD_lt _ _ (by simp; omega), getD_lt _ _ h1]
    simp
  refine (hsort.sorted nbrs).imp_of_mem ?_
  intro a b ha hb hab
  rw [hget a ha, hget b hb]
  exact hab

theorem mergeStep_eq {nbrs : List Nat} {ws : List W} (hl : ws.length = nbrs.length) {sort : List Nat → List Nat}
    (hsort : Network.SortSpec sort) {i : Nat} (hi : i < nbrs.length) (acc : List (Nat × W)) :
    Network.mergeStep nbrs ws (sort nbrs) i (toState acc) =
      .ok (toState (mergePure acc ((sortedEntries sort nbrs ws).getD i (0, 0)))) := by
  have hlen : (sort nbrs).length = nbrs.length := by simpa using (hsort.perm nbrs).length_eq
  have hi' : i < (sort nbrs).length := by omega
  have hs : (sort nbrs)[i] < nbrs.length := by
    have := (hsort.perm nbrs).mem_iff.mp (List.getElem_mem hi')
    simpa using this
  have hs' : (sort nbrs)[i] < ws.length := by omega
  unfold Network.mergeStep
  rw [rd_lt hi']
  simp only [Res.bind_ok]
  rw [rd_lt hs]
  simp only [Res.bind_ok]
  rw [rd_lt hs']
  simp only [Res.bind_ok]
  have he : (sortedEntries sort nbrs ws).getD i (0, 0) = (nbrs[(sort nbrs)[i]], ws[(sort nbrs)[i]]) := by
    unfold sortedEntries
    rw [getD_lt _ _ (by simpa using hi'), List.getElem_map, getD_lt _ _ (by simp; omega)]
    simp
  rw [he]
  generalize nbrs[(sort nbrs)[i]] = k
  generalize ws[(sort nbrs)[i]] = w
  rcases List.eq_nil_or_concat acc with rfl | ⟨init, kb, rfl⟩
  · simp [toState, mergePure]
  · by_cases hk : kb.1 = k
    · simp [toState, mergePure, hk, back, Res.bind_ok]
    · simp [toState, mergePure, hk]

theorem mergeLoop_eq {nbrs : List Nat} {ws : List W} (hl : ws.length = nbrs.length) {sort : List Nat → List Nat}
    (hsort : Network.SortSpec sort) :
    loop nbrs.length (Network.mergeStep nbrs ws (sort nbrs))
        { weightsCopy := [], neighboursCopy := [], last := none } =
      .ok (toState ((sortedEntries sort nbrs ws).foldl mergePure [])) := by
  have hlen : (sortedEntries sort nbrs ws).length = nbrs.length := by
    simpa [hl] using (sortedEntries_perm hsort hl).length_eq
  have := loop_eq (n := nbrs.length) (f := Network.mergeStep nbrs ws (sort nbrs))
    (fun i => toState (((sortedEntries sort nbrs ws).take i).foldl mergePure [])) (by
      intro i hi
      rw [mergeStep_eq hl hsort hi]
      rw [List.take_succ_eq_append_getElem (by omega), List.foldl_append]
      rw [getD_lt _ _ (by omega)]
      rfl)
  simp only [List.take_zero, List.foldl_nil] at this
  have h0 : (toState ([] : List (Nat × W))) = { weightsCopy := [], neighboursCopy := [], last := none } := rfl
  rw [h0] at this
  rw [this, ← hlen, List.take_length]

theorem weightOf_append (L M : List (Nat × W)) (j : Nat) : weightOf (L ++ M) j = weightOf L j + weightOf M j := by
  simp [weightOf, List.filter_append]

theorem weightOf_single (e : Nat × W) (j : Nat) : weightOf [e] j = if e.1 = j then e.2 else 0 := by
  by_cases h : e.1 = j <;> simp [weightOf, h]

theorem weightOf_perm {L M : List (Nat × W)} (h : L.Perm M) (j : Nat) : weightOf L j = weightOf M j :=
  ((h.filter _).map _).sum_eq

/-- `acc` is the merge of `P`. -/
structure Merged (P acc : List (Nat × W)) : Prop where
  sorted : (acc.map (·.1)).Pairwise (· < ·)
  keys   : ∀ j, j ∈ acc.map (·.1) ↔ j ∈ P.map (·.1)
  weight : ∀ j, weightOf acc j = weightOf P j

theorem Merged.nil : Merged ([] : List (Nat × W)) [] := ⟨by simp, by simp, by simp⟩

theorem Merged.step {P acc : List (Nat × W)} {e : Nat × W} (h : Merged P acc) (hle : ∀ a ∈ P, a.1 ≤ e.1) :
    Merged (P ++ [e]) (mergePure acc e) := by
  have hle' : ∀ k ∈ acc.map (·.1), k ≤ e.1 := by
    intro k hk
    obtain ⟨a, ha, rfl⟩ := List.mem_map.mp ((h.keys k).mp hk)
    exact hle a ha
  rcases List.eq_nil_or_concat acc with rfl | ⟨init, kb, rfl⟩
  · have hP : P = [] := by
      cases P with
      | nil => rfl
      | cons a P => have := (h.keys a.1).mpr (by simp); simp at this
    subst hP
    constructor <;> simp [mergePure]
  · have hs := h.sorted
    rw [List.concat_eq_append] at h hle'
    rw [List.concat_eq_append, List.map_append, List.pairwise_append] at hs
    rw [List.concat_eq_append]
    by_cases hk : kb.1 = e.1
    · have hm : mergePure (init ++ [kb]) e = init ++ [(kb.1, kb.2 + e.2)] := by simp [mergePure, hk]
      rw [hm]
      constructor
      · simpa [List.pairwise_append] using h.sorted
      · intro j
        have := h.keys j
        simp only [List.map_append, List.mem_append, List.map_cons, List.map_nil, List.mem_singleton] at this ⊢
        rw [this]
        constructor
        · exact Or.inl
        · rintro (h1 | h1)
          · exact h1
          · rw [← this]; right; rw [hk]; exact h1
      · intro j
        have := h.weight j
        simp only [weightOf_append, weightOf_single] at this ⊢
        rw [← this]
        by_cases hj : kb.1 = j
        · rw [if_pos hj, if_pos hj, if_pos (hk ▸ hj), add_assoc]
        · rw [if_neg hj, if_neg hj, if_neg (hk ▸ hj)]; simp
    · have hm : mergePure (init ++ [kb]) e = init ++ [kb] ++ [e] := by simp [mergePure, hk]
      rw [hm]
      have hlt : kb.1 < e.1 := lt_of_le_of_ne (hle' kb.1 (by simp)) hk
      constructor
      · rw [List.map_append, List.pairwise_append]
        refine ⟨h.sorted, by simp, ?_⟩
        intro a ha b hb
        simp only [List.map_cons, List.map_nil, List.mem_singleton] at hb
        subst hb
        simp only [List.map_append, List.mem_append, List.map_cons, List.map_nil, List.mem_singleton] at ha
        rcases ha with ha | ha
        · exact lt_trans (hs.2.2 a ha kb.1 (by simp)) hlt
        · omega
      · intro j
        have := h.keys j
        rw [List.map_append, List.mem_append, this, List.map_append, List.mem_append]
      · intro j
        rw [weightOf_append, h.weight, ← weightOf_append]

theorem merged_foldl {S : List (Nat × W)} (hS : S.Pairwise (fun a b => a.1 ≤ b.1)) :
    Merged S (S.foldl mergePure []) := by
  induction S using List.reverseRecOn with
  | nil => exact Merged.nil
  | append_singleton S e ih =>
    rw [List.pairwise_append] at hS
    rw [List.foldl_append]
    exact (ih hS.1).step (fun a ha => hS.2.2 a ha e (by simp))

theorem Merged.congr {P Q acc : List (Nat × W)} (h : Merged P acc) (hPQ : P.Perm Q) : Merged Q acc :=
  ⟨h.sorted, fun j => (h.keys j).trans ((hPQ.map _).mem_iff), fun j => (h.weight j).trans (weightOf_perm hPQ j)⟩

/-- A strictly sorted row is determined by its keys and per-key weights. -/
theorem sorted_ext {L M : List (Nat × W)} (hL : (L.map (·.1)).Pairwise (· < ·)) (hM : (M.map (·.1)).Pairwise (· < ·))
    (hk : ∀ j, j ∈ L.map (·.1) ↔ j ∈ M.map (·.1)) (hw : ∀ j, weightOf L j = weightOf M j) : L = M := by
  induction L generalizing M with
  | nil =>
    cases M with
    | nil => rfl
    | cons m M => have := (hk m.1).mpr (by simp); simp at this
  | cons a L ih =>
    cases M with
    | nil => have := (hk a.1).mp (by simp); simp at this
    | cons m M =>
      simp only [List.map_cons, List.pairwise_cons] at hL hM
      have hkey : a.1 = m.1 := by
        have h1 := (hk a.1).mp (by simp)
        have h2 := (hk m.1).mpr (by simp)
        simp only [List.map_cons, List.mem_cons] at h1 h2
        rcases h1 with h1 | h1
        · exact h1
        · rcases h2 with h2 | h2
          · exact h2.symm
          · have := hL.1 _ h2; have := hM.1 _ h1; omega
      have hnotL : ∀ e ∈ L, e.1 ≠ a.1 := fun e he => (ne_of_lt (hL.1 e.1 (List.mem_map_of_mem he))).symm
      have hnotM : ∀ e ∈ M, e.1 ≠ m.1 := fun e he => (ne_of_lt (hM.1 e.1 (List.mem_map_of_mem he))).symm
      have zero_of : ∀ (X : List (Nat × W)) (j : Nat), (∀ e ∈ X, e.1 ≠ j) → weightOf X j = 0 := by
        intro X j hX
        have : X.filter (fun e => e.1 = j) = [] := by
          rw [List.filter_eq_nil_iff]; intro e he; simpa using hX e he
        simp [weightOf, this]
      have cons_w : ∀ (e : Nat × W) (X : List (Nat × W)) (j : Nat),
          weightOf (e :: X) j = (if e.1 = j then e.2 else 0) + weightOf X j := by
        intro e X j
        have := weightOf_append [e] X j
        rw [weightOf_single] at this
        exact this
      have hval : a.2 = m.2 := by
        have := hw a.1
        rw [cons_w, cons_w, if_pos rfl, if_pos hkey.symm, zero_of L _ hnotL, zero_of M _ (hkey ▸ hnotM)] at this
        simpa using this
      have ham : a = m := Prod.ext hkey hval
      subst ham
      congr 1
      apply ih hL.2 hM.2
      · intro j
        have := hk j
        simp only [List.map_cons, List.mem_cons] at this
        constructor
        · intro hj
          rcases this.mp (Or.inr hj) with h | h
          · have := hL.1 j hj; omega
          · exact h
        · intro hj
          rcases this.mpr (Or.inr hj) with h | h
          · have := hM.1 j hj; omega
          · exact h
      · intro j
        by_cases hj : a.1 = j
        · subst hj; rw [zero_of L _ hnotL, zero_of M _ hnotM]
        · have := hw j
          rw [cons_w, cons_w, if_neg hj] at this
          simpa using this

/-- The merged row. -/
def mergedRow (sort : List Nat → List Nat) (nbrs : List Nat) (ws : List W) : List (Nat × W) :=
  (sortedEntries sort nbrs ws).foldl mergePure []

theorem mergedRow_spec {sort : List Nat → List Nat} (hsort : Network.SortSpec sort) {nbrs : List Nat} {ws : List W}
    (hl : ws.length = nbrs.length) : Merged (nbrs.zip ws) (mergedRow sort nbrs ws) :=
  (merged_foldl (sortedEntries_sorted hsort hl)).congr (sortedEntries_perm hsort hl)

/-- Network with the first `m` rows merged. -/
def mergedNet (sort : List Nat → List Nat) (N : Network A W) (m : Nat) : Network A W :=
  { N with
    neighbours := (List.range N.agents.length).map fun k =>
      if k < m then (mergedRow sort (N.neighbours.getD k []) (N.weights.getD k [])).map (·.1) else N.neighbours.getD k []
    weights := (List.range N.agents.length).map fun k =>
      if k < m then (mergedRow sort (N.neighbours.getD k []) (N.weights.getD k [])).map (·.2) else N.weights.getD k [] }

theorem map_range_getD {β : Type} (l : List β) (d : β) {n : Nat} (h : l.length = n) :
    (List.range n).map (fun k => l.getD k d) = l := by
  subst h
  apply List.ext_getElem
  · simp
  · intro i h1 h2
    simp [h2]

theorem removeDoubleCounting_eq {sort : List Nat → List Nat} (hsort : Network.SortSpec sort) {N : Network A W}
    (h : WF N) : N.removeDoubleCounting sort = .ok (mergedNet sort N N.agents.length) := by
  unfold Network.removeDoubleCounting
  have h0 : mergedNet sort N 0 = N := by
    unfold mergedNet
    simp only [Nat.not_lt_zero, if_false]
    rw [map_range_getD _ _ h.rows, map_range_getD _ _ h.wrows]
  have := loop_eq (n := N.agents.length) (f := fun i M => do
      let neighbours ← rd M.neighbours i
      let weights ← rd M.weights i
      let sorting := sort neighbours
      let s ← loop neighbours.length (Network.mergeStep neighbours weights sorting)
        { weightsCopy := [], neighboursCopy := [], last := none }
      let wgt' ← wr M.weights i s.weightsCopy
      let nbr' ← wr M.neighbours i s.neighboursCopy
      .ok { M with weights := wgt', neighbours := nbr' })
    (mergedNet sort N) (by
      intro i hi
      have e1 : rd (mergedNet sort N i).neighbours i = .ok (N.neighbours.getD i []) := by
        rw [rd_getD [] (by simp [mergedNet]; exact hi)]
        simp only [mergedNet]
        rw [getD_map_range _ _ hi, if_neg (Nat.lt_irrefl i)]
      have e2 : rd (mergedNet sort N i).weights i = .ok (N.weights.getD i []) := by
        rw [rd_getD [] (by simp [mergedNet]; exact hi)]
        simp only [mergedNet]
        rw [getD_map_range _ _ hi, if_neg (Nat.lt_irrefl i)]
      rw [e1]
      simp only [Res.bind_ok]
      rw [e2]
      simp only [Res.bind_ok]
      rw [mergeLoop_eq (WF.row_len h hi) hsort]
      simp only [Res.bind_ok]
      rw [wr_lt _ (by simp [mergedNet]; exact hi)]
      simp only [Res.bind_ok]
      rw [wr_lt _ (by simp [mergedNet]; exact hi)]
      simp only [Res.bind_ok]
      unfold mergedNet
      simp only [map_range_set, toState]
      congr 2
      · apply List.map_congr_left
        intro k _
        by_cases hk : k = i
        · subst hk; simp [mergedRow]
        · have : k < i + 1 ↔ k < i := by omega
          simp [hk, this]
      · apply List.map_congr_left
        intro k _
        by_cases hk : k = i
        · subst hk; simp [mergedRow]
        · have : k < i + 1 ↔ k < i := by omega
          simp [hk, this])
  rw [h0] at this
  exact this

theorem row_mergedNet {sort : List Nat → List Nat} {N : Network A W} {i : Nat} (hi : i < N.agents.length) :
    row (mergedNet sort N N.agents.length) i = mergedRow sort (N.neighbours.getD i []) (N.weights.getD i []) := by
  unfold row mergedNet
  simp only
  rw [getD_map_range _ _ hi, getD_map_range _ _ hi, if_pos hi, if_pos hi, List.zip_map']
  simp

theorem wf_mergedNet {sort : List Nat → List Nat} (hsort : Network.SortSpec sort) {N : Network A W} (h : WF N) :
    WF (mergedNet sort N N.agents.length) where
  rows := by simp [mergedNet]
  wrows := by simp [mergedNet]
  lengths := by
    intro i h1 h2
    simp only [mergedNet, List.getElem_map, List.getElem_range]
    have : i < N.agents.length := by simpa [mergedNet] using h1
    simp [this]
  range := by
    intro r hr j hj
    simp only [mergedNet, List.mem_map, List.mem_range] at hr
    obtain ⟨k, hk, rfl⟩ := hr
    rw [if_pos hk] at hj
    have := ((mergedRow_spec hsort (WF.row_len h hk)).keys j).mp hj
    obtain ⟨e, he, rfl⟩ := List.mem_map.mp this
    exact row_lt h he

end General
end MergeLemmas
end Seldon
