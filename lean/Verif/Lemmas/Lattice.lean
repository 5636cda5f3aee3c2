import Verif.Lemmas.NetworkGen
/-!
# Helper lemmas about the square lattice
-/
namespace Seldon
open Spec NetLemmas
variable {A F : Type}

namespace NetworkGen

theorem wrap_self {L x : Nat} (h : x < L) : wrap L x = x := by
  unfold wrap; split <;> [omega; (split <;> omega)]

theorem pred_mod {L x : Nat} (h : x < L) : (x + L - 1) % L = if x = 0 then L - 1 else x - 1 := by
  split
  · subst x; rw [Nat.mod_eq_of_lt (by omega)]; omega
  · have : x + L - 1 = (x - 1) + L := by omega
    rw [this, Nat.add_mod_right, Nat.mod_eq_of_lt (by omega)]

theorem succ_mod {L x : Nat} (h : x < L) : (x + 1) % L = if x + 1 = L then 0 else x + 1 := by
  split
  · rename_i h; rw [h, Nat.mod_self]
  · rw [Nat.mod_eq_of_lt (by omega)]

theorem wrap_pred {L x : Nat} (h : x < L) : wrap L ((x : Int) - 1) = ((x + L - 1) % L : Nat) := by
  rw [pred_mod h]
  unfold wrap; split_ifs <;> omega

theorem wrap_succ {L x : Nat} (h : x < L) : wrap L ((x : Int) + 1) = ((x + 1) % L : Nat) := by
  rw [succ_mod h]
  unfold wrap; split_ifs <;> omega

theorem linear_of {L : Nat} {i j : Int} {a b : Nat} (hi : wrap L i = a) (hj : wrap L j = b) : linear L i j = a + L * b := by
  unfold linear; rw [hi, hj]; norm_cast

/-- Linear index arithmetic. -/
theorem idx_mod {L x y : Nat} (hx : x < L) : (x + L * y) % L = x := by
  rw [Nat.add_mul_mod_self_left, Nat.mod_eq_of_lt hx]

theorem idx_div {L x y : Nat} (hx : x < L) : (x + L * y) / L = y := by
  rw [Nat.add_mul_div_left _ _ (by omega), Nat.div_eq_of_lt hx, Nat.zero_add]

theorem idx_lt {L x y : Nat} (hx : x < L) (hy : y < L) : x + L * y < L * L := by
  have : L * (y + 1) ≤ L * L := Nat.mul_le_mul_left _ hy
  rw [Nat.mul_add] at this; omega

theorem idx_eq {L c a b : Nat} (ha : a < L) : c = a + L * b ↔ c % L = a ∧ c / L = b := by
  constructor
  · rintro rfl; exact ⟨idx_mod ha, idx_div ha⟩
  · rintro ⟨rfl, rfl⟩; exact (Nat.mod_add_div c L).symm

theorem mod_lt_of {L c : Nat} (h : c < L * L) : c % L < L ∧ c / L < L := by
  have hL : 0 < L := by rcases Nat.eq_zero_or_pos L with rfl | h'; · simp at h
                        · exact h'
  exact ⟨Nat.mod_lt _ hL, Nat.div_lt_of_lt_mul h⟩

theorem code_neighbours {L x y : Nat} (hx : x < L) (hy : y < L) :
    [linear L ((x : Int) - 1) y, linear L ((x : Int) + 1) y, linear L x ((y : Int) - 1), linear L x ((y : Int) + 1)] =
      latticeNeighbours L (x + L * y) := by
  rw [linear_of (wrap_pred hx) (wrap_self hy), linear_of (wrap_succ hx) (wrap_self hy),
    linear_of (wrap_self hx) (wrap_pred hy), linear_of (wrap_self hx) (wrap_succ hy)]
  simp only [latticeNeighbours, idx_mod hx, idx_div hx]

/-- The lattice under construction: rows before column `i`, and in column `i` before row `j`, are done. -/
def partialLattice [Inhabited A] (L : Nat) (w : F) (i j : Nat) : Network A F where
  agents := List.replicate (L * L) default
  neighbours := (List.range (L * L)).map fun c =>
    if c % L < i ∨ (c % L = i ∧ c / L < j) then latticeNeighbours L c else []
  weights := (List.range (L * L)).map fun c =>
    if c % L < i ∨ (c % L = i ∧ c / L < j) then List.replicate 4 w else []
  direction := .incoming

theorem partial_step [Inhabited A] {L i j : Nat} (w : F) (hi : i < L) (hj : j < L) :
    ((partialLattice (A := A) L w i j).setNeighboursConst (linear L i j)
      [linear L ((i : Int) - 1) j, linear L ((i : Int) + 1) j, linear L i ((j : Int) - 1), linear L i ((j : Int) + 1)]
      w).run = .ok (partialLattice L w i (j + 1)) := by
  rw [code_neighbours hi hj, linear_of (wrap_self hi) (wrap_self hj)]
  have hc := idx_lt hi hj
  unfold Network.setNeighboursConst
  rw [wr_lt _ (by simpa [partialLattice] using hc)]
  simp only
  rw [wr_lt _ (by simpa [partialLattice] using hc)]
  simp only [Network.Effect.run, partialLattice, map_range_set]
  have key : ∀ c, (c % L < i ∨ c % L = i ∧ c / L < j + 1) ↔ (c = i + L * j ∨ (c % L < i ∨ c % L = i ∧ c / L < j)) := by
    intro c; rw [idx_eq hi]; omega
  congr 2
  · apply List.map_congr_left
    intro c _
    by_cases h1 : c = i + L * j
    · rw [if_pos h1, if_pos ((key c).mpr (Or.inl h1)), h1]
    · rw [if_neg h1]
      by_cases h2 : c % L < i ∨ c % L = i ∧ c / L < j
      · rw [if_pos h2, if_pos ((key c).mpr (Or.inr h2))]
      · rw [if_neg h2, if_neg (fun h => (((key c).mp h).elim h1 h2))]
  · apply List.map_congr_left
    intro c _
    by_cases h1 : c = i + L * j
    · rw [if_pos h1, if_pos ((key c).mpr (Or.inl h1))]; rfl
    · rw [if_neg h1]
      by_cases h2 : c % L < i ∨ c % L = i ∧ c / L < j
      · rw [if_pos h2, if_pos ((key c).mpr (Or.inr h2))]
      · rw [if_neg h2, if_neg (fun h => (((key c).mp h).elim h1 h2))]

theorem partial_col [Inhabited A] {L i : Nat} (w : F) :
    partialLattice (A := A) L w i L = partialLattice L w (i + 1) 0 := by
  unfold partialLattice
  congr 1
  · apply List.map_congr_left
    intro c hc
    have := mod_lt_of (List.mem_range.mp hc)
    have : (c % L < i ∨ c % L = i ∧ c / L < L) ↔ (c % L < i + 1 ∨ c % L = i + 1 ∧ c / L < 0) := by
      generalize c % L = x at *
      generalize c / L = y at *
      omega
    simp only [this]
  · apply List.map_congr_left
    intro c hc
    have := mod_lt_of (List.mem_range.mp hc)
    have : (c % L < i ∨ c % L = i ∧ c / L < L) ↔ (c % L < i + 1 ∨ c % L = i + 1 ∧ c / L < 0) := by
      generalize c % L = x at *
      generalize c / L = y at *
      omega
    simp only [this]

/-- Closed form of `generate_square_lattice`. -/
theorem lattice_eq [Inhabited A] (L : Nat) (w : F) :
    lattice (A := A) L w = .ok
      { agents := List.replicate (L * L) default
        neighbours := (List.range (L * L)).map (latticeNeighbours L)
        weights := List.replicate (L * L) (List.replicate 4 w)
        direction := .incoming } := by
  have h0 : Network.ofSize (L * L) = partialLattice (A := A) L w 0 0 := by
    unfold Network.ofSize partialLattice
    simp [List.map_const']
  unfold lattice
  rw [h0, loop_eq (fun i => partialLattice (A := A) L w i 0)]
  · congr 1
    unfold partialLattice
    congr 1
    · apply List.map_congr_left
      intro c hc
      rw [if_pos (Or.inl (mod_lt_of (List.mem_range.mp hc)).1)]
    · have e : List.replicate (L * L) (List.replicate 4 w) = (List.range (L * L)).map (fun _ => List.replicate 4 w) := by
        rw [List.map_const', List.length_range]
      rw [e]
      apply List.map_congr_left
      intro c hc
      rw [if_pos (Or.inl (mod_lt_of (List.mem_range.mp hc)).1)]
  · intro i hi
    rw [loop_eq (fun j => partialLattice (A := A) L w i j) (fun j hj => partial_step w hi hj), partial_col]

theorem latticeNeighbours_lt {L c d : Nat} (hc : c < L * L) (hd : d ∈ latticeNeighbours L c) : d < L * L := by
  obtain ⟨hx, hy⟩ := mod_lt_of hc
  have hL : 0 < L := by omega
  simp only [latticeNeighbours, List.mem_cons, List.not_mem_nil, or_false] at hd
  rcases hd with rfl | rfl | rfl | rfl <;> apply idx_lt <;> first | assumption | exact Nat.mod_lt _ hL

theorem count_lattice {L c d : Nat} (hc : c < L * L) :
    (latticeNeighbours L c).count d =
      (if d % L = (c % L + L - 1) % L ∧ d / L = c / L then 1 else 0) +
      (if d % L = (c % L + 1) % L ∧ d / L = c / L then 1 else 0) +
      (if d % L = c % L ∧ d / L = (c / L + L - 1) % L then 1 else 0) +
      (if d % L = c % L ∧ d / L = (c / L + 1) % L then 1 else 0) := by
  obtain ⟨hx, hy⟩ := mod_lt_of hc
  have hL : 0 < L := by omega
  have e : ∀ a b : Nat, a < L → ((a + L * b == d) = true ↔ (d % L = a ∧ d / L = b)) := by
    intro a b ha
    rw [beq_iff_eq, eq_comm, idx_eq ha]
  simp only [latticeNeighbours, List.count_cons, List.count_nil]
  simp only [e _ _ (Nat.mod_lt (c % L + L - 1) hL), e _ _ (Nat.mod_lt (c % L + 1) hL), e _ _ hx]
  omega

theorem lattice_count_symm {L c d : Nat} (hc : c < L * L) (hd : d < L * L) :
    (latticeNeighbours L c).count d = (latticeNeighbours L d).count c := by
  rw [count_lattice hc, count_lattice hd]
  obtain ⟨hx, hy⟩ := mod_lt_of hc
  obtain ⟨hu, hv⟩ := mod_lt_of hd
  rw [pred_mod hx, pred_mod hy, pred_mod hu, pred_mod hv, succ_mod hx, succ_mod hy, succ_mod hu, succ_mod hv]
  generalize c % L = x at *
  generalize c / L = y at *
  generalize d % L = u at *
  generalize d / L = v at *
  have ps : ∀ {x u : Nat}, x < L → u < L →
      ((u = if x = 0 then L - 1 else x - 1) ↔ (x = if u + 1 = L then 0 else u + 1)) := by
    intro x u hx hu; split_ifs <;> omega
  have a1 := ps hx hu
  have a2 := ps hu hx
  have a3 := ps hy hv
  have a4 := ps hv hy
  simp only [a1, a3, a2.symm, a4.symm, eq_comm (a := v) (b := y), eq_comm (a := u) (b := x)]
  omega

theorem lattice_nodup {L c : Nat} (hL : 3 ≤ L) (hc : c < L * L) : (c :: latticeNeighbours L c).Nodup := by
  have e : ∀ {a b a' b' : Nat}, a < L → a' < L → (a + L * b = a' + L * b' ↔ a = a' ∧ b = b') := by
    intro a b a' b' ha ha'
    rw [idx_eq ha', idx_mod ha, idx_div ha]
  have key : ∀ x y : Nat, x < L → y < L → c = x + L * y → (c :: latticeNeighbours L c).Nodup := by
    clear hc
    intro x y hx hy h
    subst h
    have hp : (x + L - 1) % L < L := Nat.mod_lt _ (by omega)
    have hs : (x + 1) % L < L := Nat.mod_lt _ (by omega)
    simp only [latticeNeighbours, idx_mod hx, idx_div hx, List.nodup_cons, List.mem_cons, List.not_mem_nil, or_false,
      not_or, List.nodup_nil, and_true, not_false_eq_true]
    simp only [e hx hp, e hx hs, e hx hx, e hp hs, e hp hx, e hs hx]
    rw [pred_mod hx, pred_mod hy, succ_mod hx, succ_mod hy]
    refine ⟨⟨?_, ?_, ?_, ?_⟩, ⟨?_, ?_, ?_⟩, ⟨?_, ?_⟩, ?_⟩ <;> (split_ifs <;> omega)
  obtain ⟨hx, hy⟩ := mod_lt_of hc
  exact key _ _ hx hy (Nat.mod_add_div c L).symm

theorem lattice_getD {L c : Nat} (hc : c < L * L) :
    ((List.range (L * L)).map (latticeNeighbours L)).getD c [] = latticeNeighbours L c := by
  rw [getD_lt _ _ (by simpa using hc)]; simp

theorem lattice_reach_all {L c : Nat} (hc : c < L * L) :
    Reaches ((List.range (L * L)).map (latticeNeighbours L)) 0 c := by
  obtain ⟨hx, hy⟩ := mod_lt_of hc
  have h1 : ∀ x, x < L → Reaches ((List.range (L * L)).map (latticeNeighbours L)) 0 (x + L * 0) := by
    intro x
    induction x with
    | zero => intro _; exact Relation.ReflTransGen.refl
    | succ x ih =>
      intro h
      refine (ih (by omega)).tail ?_
      unfold Step
      rw [lattice_getD (idx_lt (by omega) (by omega))]
      simp only [latticeNeighbours, idx_mod (show x < L by omega), idx_div (show x < L by omega), succ_mod (show x < L by omega)]
      rw [if_neg (by omega)]
      simp
  have h2 : ∀ x y, x < L → y < L → Reaches ((List.range (L * L)).map (latticeNeighbours L)) 0 (x + L * y) := by
    intro x y hx
    induction y with
    | zero => intro _; exact h1 x hx
    | succ y ih =>
      intro h
      refine (ih (by omega)).tail ?_
      unfold Step
      rw [lattice_getD (idx_lt hx (by omega))]
      simp only [latticeNeighbours, idx_mod hx, idx_div hx, succ_mod (show y < L by omega)]
      rw [if_neg (by omega)]
      simp
  have := h2 _ _ hx hy
  rwa [Nat.mod_add_div] at this

theorem lattice_symmetric (L : Nat) : Symmetric ((List.range (L * L)).map (latticeNeighbours L)) := by
  intro a b h
  unfold Step at h ⊢
  by_cases ha : a < L * L
  · rw [lattice_getD ha] at h
    have hb := latticeNeighbours_lt ha h
    rw [lattice_getD hb, ← List.count_pos_iff, ← lattice_count_symm ha hb, List.count_pos_iff]
    exact h
  · simp [List.getD, Nat.not_lt.mp ha] at h

theorem reaches_symm {adj : List (List Nat)} (h : Symmetric adj) {a b : Nat} (hab : Reaches adj a b) : Reaches adj b a := by
  induction hab with
  | refl => exact Relation.ReflTransGen.refl
  | tail _ hstep ih => exact Relation.ReflTransGen.head (h _ _ hstep) ih

end NetworkGen
end Seldon
