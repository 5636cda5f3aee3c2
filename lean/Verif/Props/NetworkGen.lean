import Verif.Lemmas.Lattice
import Mathlib.Algebra.Order.Ring.Rat
import Mathlib.Data.Rat.Defs
import Mathlib.Tactic.Linarith
import Mathlib.Tactic.Positivity
/-!
# Properties C11–C14: network generators
-/
namespace Seldon
open Spec NetworkGen
variable {A G F : Type}

/-! ## C11 -/

/-- C11: `generate_fully_connected( n, w )` has `n` agents, incoming direction, and every agent has exactly the neighbours
`0 .. n-1` in order, each with weight `w`. -/
theorem C11_fully_connected [Inhabited A] (n : Nat) (w : F) :
    ∃ N : Network A F, fullyConnected n w = .ok N ∧ WF N ∧ N.agents.length = n ∧ N.direction = .incoming ∧
      ∀ i, i < n → N.getNeighbours i = .ok (List.range n) ∧ N.getWeights i = .ok (List.replicate n w) := by
  refine ⟨_, fullyConnected_eq n w, ?_, by simp [Network.ofLists], rfl, ?_⟩
  · refine ⟨by simp [Network.ofLists], by simp [Network.ofLists], ?_, ?_⟩
    · intro i h h'; simp [Network.ofLists]
    · intro row hrow j hj
      rw [Network.ofLists, List.mem_replicate] at hrow
      rw [hrow.2, List.mem_range] at hj
      simpa [Network.ofLists] using hj
  · intro i hi
    constructor
    · rw [Network.getNeighbours, rd_lt (by simpa [Network.ofLists] using hi)]; simp [Network.ofLists]
    · rw [Network.getWeights, rd_lt (by simpa [Network.ofLists] using hi)]; simp [Network.ofLists]

/-! ## C12 -/

/-- The weights `ws` are random draws in `[0,1)` divided by their sum: this is what "random normalised weights" means.
If not all draws are zero, then they are non-negative, at most one, and sum to one. -/
structure RandomNormalised [Field F] [LinearOrder F] (ws : List F) : Prop where
  draws : ∃ d : List F, (∀ u ∈ d, 0 ≤ u ∧ u < 1) ∧ d.length = ws.length ∧ ws = d.map (· / d.sum) ∧
    ((∃ u ∈ d, u ≠ 0) → ws.sum = 1 ∧ ∀ w ∈ ws, 0 ≤ w ∧ w ≤ 1)

theorem randomNormalised_of [Field F] [LinearOrder F] [IsStrictOrderedRing F] {r : Rng G F} (hr : r.Lawful)
    {d : List F} (hd : ∀ u ∈ d, ∃ g, u = (r.unit g).1) : RandomNormalised (d.map (· / d.sum)) := by
  have h : ∀ u ∈ d, 0 ≤ u ∧ u < 1 := by
    intro u hu
    obtain ⟨g, rfl⟩ := hd u hu
    exact ⟨hr.unit_nonneg g, hr.unit_lt_one g⟩
  exact ⟨⟨d, h, by simp, rfl, fun hne => normalised (fun u hu => (h u hu).1) hne⟩⟩

theorem Rng.Lawful.toInt [Zero F] [One F] [LT F] [LE F] {r : Rng G F} (h : r.Lawful) : r.IntLawful :=
  ⟨h.int_ge, h.int_le⟩

/-- C11/C12 for `generate_fully_connected( n, gen )`: complete network, every row of weights normalised. -/
theorem C12_fully_connected_random [Inhabited A] [Field F] [LinearOrder F] [IsStrictOrderedRing F] {r : Rng G F}
    (hr : r.Lawful) (n : Nat) (g : G) :
    ∃ (N : Network A F) (g' : G), fullyConnectedRandom r n g = .ok (N, g') ∧ WF N ∧ N.agents = List.replicate n default ∧
      N.direction = .incoming ∧
      ∀ i, i < n → N.getNeighbours i = .ok (List.range n) ∧
        ∃ ws, N.getWeights i = .ok ws ∧ ws.length = n ∧ RandomNormalised ws := by
  obtain ⟨as, bs, g', h1, h2, h3, h4⟩ := rows_loop (n := n)
    (body := fun _ g => .ok (List.range n, (drawWeights r n 0 g).1.map (· / (drawWeights r n 0 g).2.1), (drawWeights r n 0 g).2.2))
    (P := fun _ row ws => row = List.range n ∧ ws.length = n ∧ RandomNormalised ws)
    (by
      intro i g _
      refine ⟨_, _, _, rfl, rfl, ?_, ?_⟩
      · rw [List.length_map, (drawWeights_spec r n 0 g).1]
      · obtain ⟨d1, d2, d3⟩ := drawWeights_spec r n 0 g
        rw [d2, zero_add]
        exact randomNormalised_of hr d3) g
  refine ⟨Network.ofLists as bs .incoming, g', ?_, ?_, by simp [Network.ofLists, h2], rfl, ?_⟩
  · simp only [fullyConnectedRandom, iotaBuffer_eq, Res.bind_ok] at h1 ⊢
    rw [h1]; rfl
  · have hP : ∀ i (h : i < as.length) (h' : i < bs.length), as[i] = List.range n ∧ (bs[i]).length = n ∧ RandomNormalised bs[i] :=
      fun i h h' => h4 i _ _ (List.getElem?_eq_getElem h) (List.getElem?_eq_getElem h')
    refine ⟨by simp [Network.ofLists], by simp [Network.ofLists, h2, h3], ?_, ?_⟩
    · intro i h h'
      obtain ⟨p1, p2, _⟩ := hP i h h'
      show (bs[i]).length = (as[i]).length
      rw [p1, p2, List.length_range]
    · intro row hrow j hj
      obtain ⟨i, hi, rfl⟩ := List.getElem_of_mem (show row ∈ as from hrow)
      rw [(hP i hi (by omega)).1, List.mem_range] at hj
      simpa [Network.ofLists, h2] using hj
  · intro i hi
    have ha : i < as.length := by omega
    have hb : i < bs.length := by omega
    obtain ⟨p1, p2, p3⟩ := h4 i _ _ (List.getElem?_eq_getElem ha) (List.getElem?_eq_getElem hb)
    refine ⟨?_, bs[i], ?_, p2, p3⟩
    · exact (rd_lt (l := as) ha).trans (by rw [p1])
    · exact rd_lt (l := bs) hb

/-- General shape of `generate_n_connections`: `ys` are distinct available neighbours; when too many are requested the
row is filled up with zeros. -/
theorem nConnections_spec [Inhabited A] [Field F] [LinearOrder F] [IsStrictOrderedRing F] {r : Rng G F} (hr : r.Lawful)
    (n k : Nat) (self : Bool) (g : G) :
    ∃ (N : Network A F) (g' : G), nConnections r n k self g = .ok (N, g') ∧ WF N ∧ N.agents = List.replicate n default ∧
      N.direction = .incoming ∧
      ∀ i, i < n → ∃ ys ws, ys.Sublist (Draw.avail (some i) n) ∧ ys.length = min k (n - 1) ∧
        N.getNeighbours i = .ok (ys ++ List.replicate (k - (n - 1)) 0 ++ (if self then [i] else [])) ∧
        N.getWeights i = .ok ws ∧ RandomNormalised ws := by
  obtain ⟨as, bs, g', h1, h2, h3, h4⟩ := rows_loop (n := n)
    (body := fun i g => connectionRow r n k self i g)
    (P := fun i row ws => RandomNormalised ws ∧ ws.length = row.length ∧ ∃ ys, ys.Sublist (Draw.avail (some i) n) ∧ ys.length = min k (n - 1) ∧
      row = ys ++ List.replicate (k - (n - 1)) 0 ++ (if self then [i] else []))
    (by
      intro i g hi
      obtain ⟨ys, draws, g', c1, c2, c3, c4, c5⟩ := connectionRow_spec hr.toInt n k self i g
      rw [Draw.avail_length_some hi] at c3
      have hk : k - ys.length = k - (n - 1) := by omega
      rw [hk] at c1
      refine ⟨_, _, _, c1, randomNormalised_of hr c5, ?_, ys, c2, c3, rfl⟩
      cases self <;> simp [c4] <;> omega) g
  refine ⟨Network.ofLists as bs .incoming, g', ?_, ?_, by simp [Network.ofLists, h2], rfl, ?_⟩
  · simp only [nConnections] at h1 ⊢
    rw [h1]; rfl
  · have hP : ∀ i (h : i < as.length) (h' : i < bs.length), _ :=
      fun i h h' => h4 i _ _ (List.getElem?_eq_getElem h) (List.getElem?_eq_getElem h')
    refine ⟨by simp [Network.ofLists], by simp [Network.ofLists, h2, h3], ?_, ?_⟩
    · intro i h h'
      exact (hP i h h').2.1
    · intro row hrow j hj
      obtain ⟨i, hi, rfl⟩ := List.getElem_of_mem (show row ∈ as from hrow)
      obtain ⟨_, _, ys, q1, q2, q3⟩ := hP i hi (by omega)
      rw [q3, List.mem_append, List.mem_append] at hj
      simp only [Network.ofLists, List.length_replicate, h2]
      rcases hj with (hj | hj) | hj
      · exact (Draw.mem_avail.mp (q1.subset hj)).1
      · rw [List.mem_replicate] at hj; omega
      · cases self <;> simp at hj; omega
  · intro i hi
    have ha : i < as.length := by omega
    have hb : i < bs.length := by omega
    obtain ⟨p1, _, ys, p3, p4, p5⟩ := h4 i _ _ (List.getElem?_eq_getElem ha) (List.getElem?_eq_getElem hb)
    refine ⟨ys, bs[i], p3, p4, ?_, rd_lt (l := bs) hb, p1⟩
    exact (rd_lt (l := as) ha).trans (by rw [p5])

/-- C12 for `generate_n_connections`. -/
theorem C12_n_connections [Inhabited A] [Field F] [LinearOrder F] [IsStrictOrderedRing F] {r : Rng G F} (hr : r.Lawful)
    (n k : Nat) (self : Bool) (g : G) :
    ∃ (N : Network A F) (g' : G), nConnections r n k self g = .ok (N, g') ∧ WF N ∧
      ∀ i, i < n → ∃ ws, N.getWeights i = .ok ws ∧ ws.length = k + (if self then 1 else 0) ∧ RandomNormalised ws := by
  obtain ⟨N, g', h1, h2, h3, _, h5⟩ := nConnections_spec (A := A) hr n k self g
  refine ⟨N, g', h1, h2, fun i hi => ?_⟩
  obtain ⟨ys, ws, _, p2, p3, p4, p5⟩ := h5 i hi
  refine ⟨ws, p4, ?_, p5⟩
  have e1 := rd_eq_ok.mp p3
  have e2 := rd_eq_ok.mp p4
  obtain ⟨l1, e1⟩ := List.getElem?_eq_some_iff.mp e1
  obtain ⟨l2, e2⟩ := List.getElem?_eq_some_iff.mp e2
  have := h2.lengths i l1 l2
  rw [e1, e2] at this
  rw [this]
  cases self <;> simp [p2] <;> omega

/-! ## C13 -/

/-- C13 (for `n_connections < n_agents`): every agent gets `k` distinct other agents in increasing order, followed by
itself exactly when `self_interaction` is set. Missing for the full property: `k ≥ n`, where it is false (next theorem). -/
theorem C13_n_connections_partial [Inhabited A] [Field F] [LinearOrder F] [IsStrictOrderedRing F] {r : Rng G F} (hr : r.Lawful)
    (n k : Nat) (self : Bool) (g : G) (hk : k < n) :
    ∃ (N : Network A F) (g' : G), nConnections r n k self g = .ok (N, g') ∧ WF N ∧ N.agents.length = n ∧ N.direction = .incoming ∧
      ∀ i, i < n → ∃ ys, N.getNeighbours i = .ok (ys ++ (if self then [i] else [])) ∧ ys.length = k ∧
        ys.Pairwise (· < ·) ∧ ∀ j ∈ ys, j < n ∧ j ≠ i := by
  obtain ⟨N, g', h1, h2, h3, h4, h5⟩ := nConnections_spec (A := A) hr n k self g
  refine ⟨N, g', h1, h2, by simp [h3], h4, fun i hi => ?_⟩
  obtain ⟨ys, ws, p1, p2, p3, _, _⟩ := h5 i hi
  have e : k - (n - 1) = 0 := by omega
  rw [e, List.replicate_zero, List.append_nil] at p3
  refine ⟨ys, p3, by omega, (Draw.avail_sorted _ _).sublist p1, fun j hj => ?_⟩
  obtain ⟨q1, q2⟩ := Draw.mem_avail.mp (p1.subset hj)
  exact ⟨q1, fun h => q2 (by rw [h])⟩

/-- C13, too many connections: with `k ≥ n ≥ 1` every agent listens to all others and then `k - (n-1)` more times to agent
0 (agent 0 thus listens to itself), although `self_interaction` may be off. -/
theorem C13_too_many [Inhabited A] [Field F] [LinearOrder F] [IsStrictOrderedRing F] {r : Rng G F} (hr : r.Lawful)
    (n k : Nat) (g : G) (hk : n ≤ k) :
    ∃ (N : Network A F) (g' : G), nConnections r n k false g = .ok (N, g') ∧
      ∀ i, i < n → N.getNeighbours i = .ok ((List.range n).filter (fun j => some i ≠ some j) ++ List.replicate (k - (n - 1)) 0) := by
  obtain ⟨N, g', h1, h2, h3, h4, h5⟩ := nConnections_spec (A := A) hr n k false g
  refine ⟨N, g', h1, fun i hi => ?_⟩
  obtain ⟨ys, ws, p1, p2, p3, _, _⟩ := h5 i hi
  rw [p3]
  have : ys = Draw.avail (some i) n := p1.eq_of_length (by rw [p2, Draw.avail_length_some hi]; omega)
  rw [this]
  simp [Draw.avail]

/-! ## C14 -/

/-- C14: the square lattice. -/
theorem C14_lattice [Inhabited A] (L : Nat) (w : F) :
    ∃ N : Network A F, lattice L w = .ok N ∧ WF N ∧ N.agents.length = L * L ∧ N.direction = .incoming ∧
      -- four neighbours, one step in either coordinate modulo `L`, weight `w`
      (∀ x y, x < L → y < L →
        N.getNeighbours (x + L * y) = .ok
          [(x + L - 1) % L + L * y, (x + 1) % L + L * y, x + L * ((y + L - 1) % L), x + L * ((y + 1) % L)] ∧
        N.getWeights (x + L * y) = .ok [w, w, w, w]) ∧
      -- symmetric with multiplicity
      (∀ a b, a < L * L → b < L * L → ∀ ra rb, N.getNeighbours a = .ok ra → N.getNeighbours b = .ok rb →
        ra.count b = rb.count a) ∧
      -- distinct for L ≥ 3
      (3 ≤ L → ∀ a ra, N.getNeighbours a = .ok ra → ra.Nodup ∧ a ∉ ra) ∧
      -- connected
      (∀ a b, a < L * L → b < L * L → Reaches N.neighbours a b) := by
  refine ⟨_, lattice_eq L w, ?_, by simp, rfl, ?_, ?_, ?_, ?_⟩
  · refine ⟨by simp, by simp, ?_, ?_⟩
    · intro i h h'
      simp [latticeNeighbours]
    · intro row hrow j hj
      obtain ⟨c, hc, rfl⟩ := List.mem_map.mp hrow
      simpa using latticeNeighbours_lt (List.mem_range.mp hc) hj
  · intro x y hx hy
    have hc := idx_lt hx hy
    constructor
    · rw [Network.getNeighbours, rd_lt (by simpa using hc)]
      simp [latticeNeighbours, idx_mod hx, idx_div hx]
    · rw [Network.getWeights, rd_lt (by simpa using hc)]
      simp [List.replicate]
  · intro a b ha hb ra rb hra hrb
    rw [Network.getNeighbours, rd_lt (by simpa using ha)] at hra
    rw [Network.getNeighbours, rd_lt (by simpa using hb)] at hrb
    simp at hra hrb
    rw [← hra, ← hrb]
    exact lattice_count_symm ha hb
  · intro hL a ra hra
    rw [Network.getNeighbours, rd_eq_ok, List.getElem?_eq_some_iff] at hra
    obtain ⟨ha, hra⟩ := hra
    simp at ha hra
    rw [← hra]
    have := lattice_nodup hL ha
    rw [List.nodup_cons] at this
    exact ⟨this.2, this.1⟩
  · intro a b ha hb
    exact (reaches_symm (lattice_symmetric L) (lattice_reach_all ha)).trans (lattice_reach_all hb)

/-! ## Concrete cases -/

/-- A lawful generator: a counter. -/
def counterRng : Rng Nat ℚ where
  unit g := (1 / ((g : ℚ) + 2), g + 1)
  int a b g := (max a (min b g), g + 1)
  normal g := (0, g)

theorem counterRng_lawful : counterRng.Lawful where
  unit_nonneg g := by unfold counterRng; positivity
  unit_lt_one g := by
    unfold counterRng
    rw [div_lt_one (by positivity)]
    linarith [(Nat.cast_nonneg g : (0 : ℚ) ≤ g)]
  int_ge _ _ _ _ := le_max_left _ _
  int_le _ _ _ h := max_le h (min_le_left _ _)

example : (nConnections counterRng 4 2 true 0 : Res (Network Unit ℚ × Nat)).map
      (fun p => (p.1.neighbours, p.1.weights.map List.sum)) =
    .ok ([[1, 3, 0], [2, 3, 1], [1, 3, 2], [1, 2, 3]], [1, 1, 1, 1]) := by decide +kernel

example : (nConnections counterRng 2 3 false 0 : Res (Network Unit ℚ × Nat)).map (·.1.neighbours) =
    .ok [[1, 0, 0], [0, 0, 0]] := by decide +kernel

example : (lattice 3 (1 : Int) : Res (Network Unit Int)).map (·.neighbours) =
    .ok [[2, 1, 6, 3], [0, 2, 7, 4], [1, 0, 8, 5], [5, 4, 0, 6], [3, 5, 1, 7], [4, 3, 2, 8], [8, 7, 3, 0], [6, 8, 4, 1],
      [7, 6, 5, 2]] := by decide +kernel

end Seldon
