import Verif.Lemmas.Sampling
import Verif.Lemmas.Network
import Verif.Model.NetworkGen
import Mathlib.Algebra.Order.Field.Basic
import Mathlib.Algebra.Order.BigOperators.Group.List
import Mathlib.Algebra.BigOperators.Ring.List
/-!
# Helper lemmas about the network generators
-/
namespace Seldon
open Spec
variable {A G F : Type}

namespace NetworkGen

theorem iotaBuffer_eq (n : Nat) : iotaBuffer n = .ok (List.range n) := by
  have := loop_eq (n := n) (f := fun i b => wr b i i)
    (fun i => List.range i ++ List.replicate (n - i) 0) (by
      intro i hi
      rw [wr_lt _ (by simp; omega)]
      congr 1
      rw [List.set_append_right _ _ (by simp)]
      obtain ⟨d, hd⟩ : ∃ d, n - i = d + 1 := ⟨n - i - 1, by omega⟩
      have hd' : n - (i + 1) = d := by omega
      simp [hd, hd', List.replicate_succ, List.range_succ])
  simpa [iotaBuffer] using this

theorem fullyConnected_eq [Inhabited A] (n : Nat) (w : F) :
    fullyConnected (A := A) n w = .ok (Network.ofLists (List.replicate n (List.range n))
      (List.replicate n (List.replicate n w)) .incoming) := by
  have := loop_eq (n := n) (f := fun _ (s : List (List Nat) × List (List F)) =>
      .ok (s.1 ++ [List.range n], s.2 ++ [List.replicate n w]))
    (fun i => (List.replicate i (List.range n), List.replicate i (List.replicate n w))) (by
      intro i hi
      simp [List.replicate_succ'])
  simp only [List.replicate_zero] at this
  simp only [fullyConnected, iotaBuffer_eq, Res.bind_ok, this]

/-- The draws made by `drawWeights`. -/
theorem drawWeights_spec [AddCommMonoid F] (r : Rng G F) : ∀ (n : Nat) (acc : F) (g : G),
    (drawWeights r n acc g).1.length = n ∧
    (drawWeights r n acc g).2.1 = acc + (drawWeights r n acc g).1.sum ∧
    ∀ u ∈ (drawWeights r n acc g).1, ∃ g', u = (r.unit g').1 := by
  intro n
  induction n with
  | zero => intro acc g; simp [drawWeights]
  | succ n ih =>
    intro acc g
    obtain ⟨h1, h2, h3⟩ := ih (acc + (r.unit g).1) (r.unit g).2
    simp only [drawWeights]
    refine ⟨by simp [h1], by simp [h2, add_assoc], ?_⟩
    intro u hu
    rcases List.mem_cons.mp hu with rfl | hu
    · exact ⟨g, rfl⟩
    · exact h3 u hu

/-- What one row of `generate_n_connections` looks like. -/
theorem connectionRow_spec [Field F] {r : Rng G F} (hr : r.IntLawful) (n k : Nat) (self : Bool) (i : Nat) (g : G) :
    ∃ (ys : List Nat) (draws : List F) (g' : G), connectionRow r n k self i g =
        .ok (ys ++ List.replicate (k - ys.length) 0 ++ (if self then [i] else []), draws.map (· / draws.sum), g') ∧
      ys.Sublist (Draw.avail (some i) n) ∧ ys.length = min k (Draw.avail (some i) n).length ∧
      draws.length = k + (if self then 1 else 0) ∧ ∀ u ∈ draws, ∃ g'', u = (r.unit g'').1 := by
  obtain ⟨ys, g1, h1, h2, h3⟩ := Draw.drawUnique_eq hr (some i) k n [] g
  have hb : (Draw.resize [] k).drop ys.length = List.replicate (k - ys.length) 0 := by
    simp [Draw.resize]
  rw [hb] at h1
  have hl : (ys ++ List.replicate (k - ys.length) 0).length = k := by simp; omega
  obtain ⟨d1, d2, d3⟩ := drawWeights_spec r k 0 g1
  cases self with
  | false =>
    refine ⟨ys, (drawWeights r k 0 g1).1, (drawWeights r k 0 g1).2.2, ?_, h2, h3, by simpa using d1, d3⟩
    simp only [connectionRow, h1, Res.bind_ok, hl]
    simp [d2]
  | true =>
    refine ⟨ys, (drawWeights r k 0 g1).1 ++ [(r.unit (drawWeights r k 0 g1).2.2).1], (r.unit (drawWeights r k 0 g1).2.2).2, ?_, h2, h3,
      by simpa using d1, ?_⟩
    · simp only [connectionRow, h1, Res.bind_ok, hl]
      simp [d2]
    · intro u hu
      rcases List.mem_append.mp hu with hu | hu
      · exact d3 u hu
      · rw [List.mem_singleton] at hu; exact ⟨_, hu⟩

/-- Loops appending one row per round. -/
theorem rows_loop {R S : Type} {n : Nat} {body : Nat → G → Res (R × S × G)} {P : Nat → R → S → Prop}
    (hb : ∀ i g, i < n → ∃ a b g', body i g = .ok (a, b, g') ∧ P i a b) (g : G) :
    ∃ as bs g', loop n (fun i (s : List R × List S × G) => do
        let (a, b, g) ← body i s.2.2
        .ok (s.1 ++ [a], s.2.1 ++ [b], g)) ([], [], g) = .ok (as, bs, g') ∧
      as.length = n ∧ bs.length = n ∧ ∀ i a b, as[i]? = some a → bs[i]? = some b → P i a b := by
  obtain ⟨⟨as, bs, g'⟩, h1, h2⟩ := loop_inv (n := n)
    (f := fun i (s : List R × List S × G) => do
        let (a, b, g) ← body i s.2.2
        .ok (s.1 ++ [a], s.2.1 ++ [b], g)) (s := ([], [], g))
    (fun i s => s.1.length = i ∧ s.2.1.length = i ∧ ∀ j a b, s.1[j]? = some a → s.2.1[j]? = some b → P j a b)
    (by simp) (by
      rintro i ⟨as, bs, g⟩ hi ⟨h1, h2, h3⟩
      obtain ⟨a, b, g', hb1, hb2⟩ := hb i g hi
      refine ⟨(as ++ [a], bs ++ [b], g'), by simp only [hb1, Res.bind_ok], by simpa using h1, by simpa using h2, ?_⟩
      intro j a' b' ha' hb'
      simp only at h1 h2 h3 ha' hb'
      rcases Nat.lt_trichotomy j i with hj | hj | hj
      · rw [List.getElem?_append_left (by omega)] at ha' hb'
        exact h3 j a' b' ha' hb'
      · subst hj
        rw [List.getElem?_append_right (by omega)] at ha' hb'
        simp [h1] at ha'; simp [h2] at hb'
        subst ha' hb'; exact hb2
      · rw [List.getElem?_append_right (by omega)] at ha'
        simp [show j - as.length ≠ 0 by omega] at ha')
  exact ⟨as, bs, g', h1, h2⟩

/-- Normalised non-negative numbers. -/
theorem normalised [Field F] [LinearOrder F] [IsStrictOrderedRing F] {d : List F} (h0 : ∀ u ∈ d, 0 ≤ u) (hs : ∃ u ∈ d, u ≠ 0) :
    (d.map (· / d.sum)).sum = 1 ∧ ∀ w ∈ d.map (· / d.sum), 0 ≤ w ∧ w ≤ 1 := by
  have hle : ∀ u ∈ d, u ≤ d.sum := fun u hu => List.single_le_sum h0 u hu
  have hpos : 0 < d.sum := by
    obtain ⟨u, hu, hne⟩ := hs
    exact lt_of_lt_of_le (lt_of_le_of_ne (h0 u hu) (Ne.symm hne)) (hle u hu)
  constructor
  · simp only [div_eq_mul_inv]
    rw [List.sum_map_mul_right, List.map_id', mul_inv_cancel₀ hpos.ne']
  · intro w hw
    obtain ⟨u, hu, rfl⟩ := List.mem_map.mp hw
    exact ⟨div_nonneg (h0 u hu) hpos.le, (div_le_one hpos).mpr (hle u hu)⟩

end NetworkGen
end Seldon
