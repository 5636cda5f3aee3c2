import Verif.Lemmas.DeGrootDouble
import Verif.Props.DeffuantDouble
import Verif.Props.RunDeGroot
/-!
# Property C73: the DeGroot model in double precision

The theorems about DeGroot in `Props/DeGroot` are about exact arithmetic.  Here the same program runs on doubles, side by side with the same program in
exact arithmetic, from the same random draws (`Spec.exactRng`).
-/
set_option linter.unusedSectionVars false
namespace Seldon
open Spec NetworkGen
variable {A B G : Type} {R : Rounding}

/-- Double precision weights `ws` next to exact weights `vs`: none is negative, and the differences add up to at most `(m+1)·2^-52`. -/
structure Spec.RowClose (ws : List (Dbl R)) (vs : List ℝ) : Prop where
  length : ws.length = vs.length
  nonneg : ∀ w ∈ ws, 0 ≤ w.val
  close : ((ws.zip vs).map (fun e => |e.1.val - e.2|)).sum ≤ (ws.length + 1) * 2 ^ (-52 : ℤ)

/-- The same edges, nearly the same weights. -/
structure Spec.WeightsClose (N : Network A (Dbl R)) (I : Network B ℝ) : Prop where
  neighbours : I.neighbours = N.neighbours
  agents : I.agents.length = N.agents.length
  rows : ∀ i, i < N.agents.length → RowClose (N.weights.getD i []) (I.weights.getD i [])

namespace DeGrootDouble

theorem foldl_val (l : List (Dbl R)) (a : Dbl R) : (l.foldl (· + ·) a).val = (l.map Dbl.val).foldl (fun a x => R.round (a + x)) a.val := by
  induction l generalizing a with
  | nil => rfl
  | cons x l ih => rw [List.foldl_cons, ih, List.map_cons, List.foldl_cons]; rfl

theorem rowClose_of_draws {d : List (Dbl R)} (hd : ∀ u ∈ d, 0 ≤ u.val) (hne : ∃ u ∈ d, u.val ≠ 0) (hm : d.length + 1 ≤ 2 ^ 49) :
    RowClose (d.map (· / d.foldl (· + ·) 0)) ((d.map Dbl.val).map (· / (d.map Dbl.val).sum)) ∧ ∀ w ∈ d.map (· / d.foldl (· + ·) 0), w.val ≤ 1 := by
  have hN : (d.foldl (· + ·) 0).val = (d.map Dbl.val).foldl (fun a x => R.round (a + x)) 0 := foldl_val d 0
  obtain ⟨h1, h2⟩ := R.weights_close (l := d.map Dbl.val)
    (by
      intro x hx
      obtain ⟨u, hu, rfl⟩ := List.mem_map.mp hx
      exact ⟨u.isDouble, hd u hu⟩)
    (by
      obtain ⟨u, hu, hu'⟩ := hne
      exact ⟨u.val, List.mem_map_of_mem hu, hu'⟩) (by simpa using hm)
  rw [← hN, List.length_map] at h1
  rw [← hN] at h2
  have hw : ∀ w ∈ d.map (· / d.foldl (· + ·) 0), 0 ≤ w.val ∧ w.val ≤ 1 := by
    intro w hw
    obtain ⟨u, hu, rfl⟩ := List.mem_map.mp hw
    exact h2 u.val (List.mem_map_of_mem hu)
  refine ⟨⟨by simp, fun w h => (hw w h).1, ?_⟩, fun w h => (hw w h).2⟩
  rw [List.length_map]
  refine le_of_eq_of_le ?_ h1
  rw [List.map_map, List.map_map, List.zip_map', List.map_map]
  rfl

/-- Weighted sums with nearly equal weights and nearly equal values. -/
theorem dot_track {x X : Nat → ℝ} {C E : ℝ} : ∀ (ns : List Nat) (ws : List (Dbl R)) (vs : List ℝ), ws.length = vs.length → ns.length = vs.length →
    (∀ v ∈ vs, 0 ≤ v) → (∀ j ∈ ns, |x j| ≤ C ∧ |x j - X j| ≤ E) →
    |((ns.zip ws).map (fun e => e.2.val * x e.1)).sum - ((ns.zip vs).map (fun e => e.2 * X e.1)).sum| ≤
      C * ((ws.zip vs).map (fun e => |e.1.val - e.2|)).sum + E * vs.sum := by
  intro ns
  induction ns with
  | nil =>
    intro ws vs h1 h2 _ _
    obtain rfl := List.length_eq_zero_iff.mp h2.symm
    obtain rfl := List.length_eq_zero_iff.mp h1
    simp
  | cons j ns ih =>
    intro ws vs h1 h2 hv hx
    obtain ⟨v, vs, rfl⟩ := List.exists_cons_of_length_pos (l := vs) (by rw [← h2]; simp)
    obtain ⟨w, ws, rfl⟩ := List.exists_cons_of_length_pos (l := ws) (by rw [h1]; simp)
    have := ih ws vs (by simpa using h1) (by simpa using h2) (fun v h => hv v (List.mem_cons_of_mem _ h)) (fun j h => hx j (List.mem_cons_of_mem _ h))
    obtain ⟨hx1, hx2⟩ := hx j (List.mem_cons_self ..)
    have hv0 := hv v (List.mem_cons_self ..)
    simp only [List.zip_cons_cons, List.map_cons, List.sum_cons]
    have e : |w.val * x j - v * X j| ≤ C * |w.val - v| + E * v := by
      rw [show w.val * x j - v * X j = (w.val - v) * x j + v * (x j - X j) by ring]
      refine (abs_add_le _ _).trans ?_
      rw [abs_mul, abs_mul, abs_of_nonneg hv0]
      have k1 := mul_le_mul_of_nonneg_left hx1 (abs_nonneg (w.val - v))
      have k2 := mul_le_mul_of_nonneg_left hx2 hv0
      linarith
    rw [add_sub_add_comm]
    refine (abs_add_le _ _).trans ?_
    linarith

theorem sum_close {ws : List (Dbl R)} {vs : List ℝ} (h : ws.length = vs.length) :
    (ws.map Dbl.val).sum ≤ vs.sum + ((ws.zip vs).map (fun e => |e.1.val - e.2|)).sum := by
  induction ws generalizing vs with
  | nil => obtain rfl := List.length_eq_zero_iff.mp h.symm; simp
  | cons w ws ih =>
    obtain ⟨v, vs, rfl⟩ := List.exists_cons_of_length_pos (l := vs) (by rw [← h]; simp)
    have := ih (vs := vs) (by simpa using h)
    simp only [List.zip_cons_cons, List.map_cons, List.sum_cons]
    have := le_abs_self (w.val - v)
    linarith

theorem weightedSumLR_val (N : Network A (Dbl R)) (x : Nat → Dbl R) (i : Nat) : (weightedSumLR N x i).val =
    ((row N i).map (fun e => (e.2.val, (x e.1).val))).foldl (fun a p => R.round (a + R.round (p.1 * p.2))) 0 := by
  unfold weightedSumLR
  have key : ∀ (l : List (Nat × Dbl R)) (a : Dbl R), (l.foldl (fun acc e => acc + e.2 * x e.1) a).val =
      (l.map (fun e => (e.2.val, (x e.1).val))).foldl (fun a p => R.round (a + R.round (p.1 * p.2))) a.val := by
    intro l
    induction l with
    | nil => intro a; rfl
    | cons e l ih => intro a; rw [List.foldl_cons, ih, List.map_cons, List.foldl_cons]; rfl
  exact key _ _

/-- One weighted sum, in both arithmetics. -/
theorem step_track {N : Network A (Dbl R)} {I : Network B ℝ} (hN : WF N) (hI : RowStochastic I) (hc : WeightsClose N I) {i M : Nat}
    (hi : i < N.agents.length) (hM : (N.weights.getD i []).length ≤ M) (hM' : M + 1 ≤ 2 ^ 49) {x : Nat → Dbl R} {X : Nat → ℝ} {C E : ℝ} (hC : 0 ≤ C)
    (hx : ∀ j, j < N.agents.length → |(x j).val| ≤ C ∧ |(x j).val - X j| ≤ E) :
    |(weightedSumLR N x i).val - weightedSum I X i| ≤ E + (M + 1) * (2 ^ (-51 : ℤ) * C + 2 ^ (-1074 : ℤ)) := by
  obtain ⟨r1, r2, r3⟩ := hc.rows i hi
  have hi' : i < I.agents.length := by rw [hc.agents]; exact hi
  have hlen := NetLemmas.WF.row_len hN hi
  set ns := N.neighbours.getD i [] with hns
  set ws := N.weights.getD i [] with hws
  set vs := I.weights.getD i [] with hvs
  have hrowN : row N i = ns.zip ws := rfl
  have hrowI : row I i = ns.zip vs := by unfold row; rw [hc.neighbours]
  have hsnd : (row I i).map (·.2) = vs := by rw [hrowI]; exact List.map_snd_zip (by omega)
  have hv : ∀ v ∈ vs, 0 ≤ v := by
    intro v hv
    rw [← hsnd] at hv
    obtain ⟨e, he, rfl⟩ := List.mem_map.mp hv
    exact hI.nonneg i hi' e he
  have hvsum : vs.sum = 1 := by rw [← hsnd]; exact hI.sum i hi'
  have hj : ∀ j ∈ ns, j < N.agents.length := by
    intro j hj
    have hin : i < N.neighbours.length := by rw [hN.rows]; exact hi
    rw [hns, getD_lt _ _ hin] at hj
    exact hN.range _ (List.getElem_mem hin) j hj
  have t1 := dot_track (x := fun j => (x j).val) (X := X) (C := C) (E := E) ns ws vs r1 (by omega) hv (fun j h => hx j (hj j h))
  have t2 := R.dot_error hC (l := (row N i).map (fun e => (e.2.val, (x e.1).val))) (a := 0) (e := 0) (E := 0) (V := 0)
    (by
      intro p hp
      obtain ⟨e, he, rfl⟩ := List.mem_map.mp hp
      rw [hrowN] at he
      exact ⟨r2 _ (List.of_mem_zip he).2, (hx _ (hj _ (List.of_mem_zip he).1)).1⟩) (by simp) (by simp) Dbl.isDouble_zero
  rw [← weightedSumLR_val, List.map_map, List.map_map, List.length_map, hrowN] at t2
  have hl : (ns.zip ws).length = ws.length := by rw [List.length_zip]; omega
  have hW : ((ns.zip ws).map ((fun p : ℝ × ℝ => p.1) ∘ fun e => (e.2.val, (x e.1).val))).sum = (ws.map Dbl.val).sum := by
    congr 1
    rw [show ((fun p : ℝ × ℝ => p.1) ∘ fun e : Nat × Dbl R => (e.2.val, (x e.1).val)) = Dbl.val ∘ Prod.snd from rfl, ← List.map_map,
      List.map_snd_zip (by omega)]
  rw [hW, hl, zero_add, zero_add, zero_add] at t2
  have hWle := sum_close r1
  rw [hvsum] at hWle t1
  have hW0 : 0 ≤ (ws.map Dbl.val).sum := List.sum_nonneg (by
    intro y hy
    obtain ⟨w, hw, rfl⟩ := List.mem_map.mp hy
    exact r2 w hw)
  have hD0 : 0 ≤ ((ws.zip vs).map (fun e => |e.1.val - e.2|)).sum := List.sum_nonneg (by
    intro y hy
    obtain ⟨w, hw, rfl⟩ := List.mem_map.mp hy
    exact abs_nonneg _)
  have e1 : weightedSum I X i = ((ns.zip vs).map (fun e => e.2 * X e.1)).sum := by unfold weightedSum; rw [hrowI]
  rw [e1]
  have t3 := abs_sub_le (weightedSumLR N x i).val ((ns.zip ws).map (fun e => e.2.val * (x e.1).val)).sum ((ns.zip vs).map (fun e => e.2 * X e.1)).sum
  have t2' : |(weightedSumLR N x i).val - ((ns.zip ws).map (fun e => e.2.val * (x e.1).val)).sum| ≤ _ := t2
  clear t2
  -- sizes
  have hmM : (ws.length : ℝ) ≤ M := by exact_mod_cast hM
  have hm0 : (0 : ℝ) ≤ ws.length := Nat.cast_nonneg _
  have hM2 : (M : ℝ) + 1 ≤ 2 ^ 49 := by exact_mod_cast hM'
  have hp := Rounding.one_add_pow_mul (u := 2 ^ (-53 : ℤ)) (by positivity) (by norm_num) ws.length
  generalize ((ns.zip ws).map (fun e => e.2.val * (x e.1).val)).sum = S1 at *
  generalize ((ns.zip vs).map (fun e => e.2 * X e.1)).sum = S2 at *
  generalize ((ws.zip vs).map (fun e => |e.1.val - e.2|)).sum = D at *
  generalize (ws.map Dbl.val).sum = W at *
  generalize (weightedSumLR N x i).val = y at *
  rw [show (2 : ℝ) ^ (-52 : ℤ) = 2 * 2 ^ (-53 : ℤ) by norm_num] at r3
  rw [show (2 : ℝ) ^ (-51 : ℤ) = 4 * 2 ^ (-53 : ℤ) by norm_num, show (2 : ℝ) ^ (-1074 : ℤ) = 2 * 2 ^ (-1075 : ℤ) by
    rw [← zpow_one_add₀ (by norm_num)]; norm_num]
  have hη : (0 : ℝ) < 2 ^ (-1075 : ℤ) := by positivity
  have hu : (0 : ℝ) < 2 ^ (-53 : ℤ) := by positivity
  have hMu : (M + 1) * (2 : ℝ) ^ (-53 : ℤ) ≤ 1 / 16 := by
    calc (M + 1) * (2 : ℝ) ^ (-53 : ℤ) ≤ 2 ^ 49 * 2 ^ (-53 : ℤ) := by gcongr
      _ = 1 / 16 := by norm_num
  generalize (2 : ℝ) ^ (-53 : ℤ) = u at *
  generalize (2 : ℝ) ^ (-1075 : ℤ) = η at *
  generalize (1 + u) ^ ws.length = P at *
  generalize (ws.length : ℝ) = m at *
  generalize (M : ℝ) = M at *
  have hmu : (m + 1) * u ≤ (M + 1) * u := by gcongr
  have hWle' : W ≤ 9 / 8 := by linarith
  have hP : P ≤ 16 / 15 := by
    have hmu' : m * u ≤ 1 / 16 := by linarith
    by_contra hc
    push Not at hc
    nlinarith
  have hCW : C * W ≤ 9 / 8 * C := by nlinarith
  have i1 : m * η + u * (C * W) + m * (u * (C * W)) ≤ (M + 1) * η + (M + 1) * u * (9 / 8 * C) := by
    have k1 : m * η ≤ (M + 1) * η := by nlinarith
    have k2 : (m + 1) * u * (C * W) ≤ (M + 1) * u * (9 / 8 * C) := by
      have : 0 ≤ (m + 1) * u := by positivity
      have : 0 ≤ C * W := by positivity
      have : 0 ≤ (M + 1) * u := by linarith
      gcongr
    linarith
  have hnn : 0 ≤ m * η + u * (C * W) + m * (u * (C * W)) := by positivity
  have i2 : P * (m * η + u * (C * W) + m * (u * (C * W))) ≤ 16 / 15 * ((M + 1) * η + (M + 1) * u * (9 / 8 * C)) := by
    refine mul_le_mul hP i1 hnn (by norm_num)
  have i3 : C * D ≤ C * ((M + 1) * (2 * u)) := by
    refine mul_le_mul_of_nonneg_left ?_ hC
    linarith
  have hMC : 0 ≤ (M + 1) * u * C := mul_nonneg (mul_nonneg (by linarith) hu.le) hC
  have hMη : 0 ≤ (M + 1) * η := mul_nonneg (by linarith) hη.le
  nlinarith

end DeGrootDouble

/-! ## generated weights -/

/-- C73: `generate_n_connections` in double precision (draws in `[0,1)`, fewer than `2^49` connections): next to the network that exact arithmetic makes
of the same draws, it has the same edges; in every row in which not all draws are zero, the weights are in `[0,1]` and differ from the exact ones, which
sum to one, by at most `(m+1)·2^-52` altogether (`m` = number of weights in the row). -/
theorem C73_weights [Inhabited A] [Inhabited B] {r : Rng G (Dbl R)} (hr : r.Lawful) (n k : Nat) (self : Bool) (g : G) (hk : k + 2 ≤ 2 ^ 49) :
    ∃ (N : Network A (Dbl R)) (I : Network B ℝ) (g' : G), nConnections r n k self g = .ok (N, g') ∧ nConnections (exactRng r) n k self g = .ok (I, g') ∧
      N.agents.length = n ∧ I.agents.length = n ∧ I.neighbours = N.neighbours ∧
      ∀ i, i < n → (N.weights.getD i []).length ≤ k + 1 ∧ ((∃ v ∈ I.weights.getD i [], v ≠ 0) →
        RowClose (N.weights.getD i []) (I.weights.getD i []) ∧ (∀ w ∈ N.weights.getD i [], w.val ≤ 1) ∧
        (I.weights.getD i []).sum = 1 ∧ ∀ v ∈ I.weights.getD i [], 0 ≤ v) := by
  obtain ⟨N, I, g', h1, h2, h3, h4, h5, -, h7⟩ := nConnections_exact (A := A) (B := B) ⟨hr.int_ge, hr.int_le⟩ n k self g
  refine ⟨N, I, g', h1, h2, h3, h4, h5, fun i hi => ?_⟩
  obtain ⟨d, d1, d2, d3, d4, d5⟩ := h7 i hi
  rw [d4, d5]
  have d2' : d.length ≤ k + 1 := by rw [d2]; split <;> omega
  refine ⟨by simpa using d2', fun ⟨v, hv, hv0⟩ => ?_⟩
  have hd : ∀ u ∈ d, 0 ≤ u.val := by
    intro u hu
    obtain ⟨g'', rfl⟩ := d3 u hu
    exact hr.unit_nonneg g''
  have hne : ∃ u ∈ d, u.val ≠ 0 := by
    obtain ⟨x, hx, rfl⟩ := List.mem_map.mp hv
    obtain ⟨u, hu, rfl⟩ := List.mem_map.mp hx
    exact ⟨u, hu, fun h0 => hv0 (by rw [h0, zero_div])⟩
  obtain ⟨c1, c2⟩ := DeGrootDouble.rowClose_of_draws hd hne (by omega)
  obtain ⟨c3, c4⟩ := normalised (d := d.map Dbl.val) (by
      intro x hx
      obtain ⟨u, hu, rfl⟩ := List.mem_map.mp hx
      exact hd u hu) (by
      obtain ⟨u, hu, hu'⟩ := hne
      exact ⟨u.val, List.mem_map_of_mem hu, hu'⟩)
  exact ⟨c1, c2, c3, fun v hv => (c4 v hv).1⟩

/-! ## iterations -/

/-- C73: one iteration: each new opinion is within `(m+1)·(2^-51·C + 2^-1074)` of the exact weighted sum, if all opinions are at most `C` in absolute
value and the weights are nearly normalised. -/
theorem C73_step {s t : DeGroot (Dbl R)} (hs : s.Ready) (h : s.iteration = .ok t) {I : Network B ℝ} (hI : RowStochastic I)
    (hc : WeightsClose s.network I) {M : Nat} (hM : ∀ i, i < s.network.agents.length → (s.network.weights.getD i []).length ≤ M) (hM' : M + 1 ≤ 2 ^ 49)
    {C : ℝ} (hC : ∀ i, i < s.network.agents.length → |(opinionOf s.network.agents i).val| ≤ C) :
    ∀ i, i < s.network.agents.length →
      |(opinionOf t.network.agents i).val - weightedSum I (fun j => (opinionOf s.network.agents j).val) i| ≤
        (M + 1) * (2 ^ (-51 : ℤ) * C + 2 ^ (-1074 : ℤ)) := by
  intro i hi
  obtain ⟨u, h1, -, -, -, -, -, h2⟩ := C29_iteration hs
  obtain rfl := Except.ok.inj (h1.symm.trans h)
  rw [h2 i hi]
  have := DeGrootDouble.step_track hs.wf hI hc hi (hM i hi) hM' (x := opinionOf s.network.agents) (X := fun j => (opinionOf s.network.agents j).val)
    (C := C) (E := 0) ((abs_nonneg _).trans (hC i hi)) (fun j hj => ⟨hC j hj, by simp⟩)
  rwa [zero_add] at this

/-- C73: opinions that start non-negative stay non-negative (exactly). -/
theorem C73_nonneg {k : Nat} {s t : DeGroot (Dbl R)} (hs : s.Ready) (hw : ∀ i, i < s.network.agents.length → ∀ w ∈ s.network.weights.getD i [], 0 ≤ w.val)
    (hk : Iterates DeGroot.iteration s k t) (hx : ∀ i, i < s.network.agents.length → 0 ≤ (opinionOf s.network.agents i).val) :
    ∀ i, i < s.network.agents.length → 0 ≤ (opinionOf t.network.agents i).val := by
  induction hk with
  | zero => exact hx
  | succ hit h' ih =>
    obtain ⟨h1, h2, h3, h4⟩ := DeGroot.iterates_ready hit hs
    intro i hi
    obtain ⟨u, e1, -, -, -, -, -, e2⟩ := C29_iteration h1
    obtain rfl := Except.ok.inj (e1.symm.trans h')
    rw [e2 i (by omega), DeGrootDouble.weightedSumLR_val]
    have key : ∀ (l : List (ℝ × ℝ)) (a : ℝ), 0 ≤ a → (∀ p ∈ l, 0 ≤ p.1 ∧ 0 ≤ p.2) →
        0 ≤ l.foldl (fun a p => R.round (a + R.round (p.1 * p.2))) a := by
      intro l
      induction l with
      | nil => intro a ha _; exact ha
      | cons p l ih =>
        intro a ha hp
        obtain ⟨p1, p2⟩ := hp p (List.mem_cons_self ..)
        exact ih _ (R.nonneg (add_nonneg ha (R.nonneg (mul_nonneg p1 p2)))) (fun q hq => hp q (List.mem_cons_of_mem _ hq))
    refine key _ _ le_rfl ?_
    intro p hp
    obtain ⟨e, he, rfl⟩ := List.mem_map.mp hp
    have hlt := NetLemmas.row_lt h1.wf he
    refine ⟨hw i hi _ ?_, ih _ (by omega)⟩
    rw [← h3]
    exact (List.of_mem_zip he).2

/-- C73: double precision follows exact arithmetic.  Let `s` be a model in double precision and `e` one in exact arithmetic on a row-stochastic network
with the same edges and nearly the same weights (as generated: `C73_weights`), with at most `M` neighbours per agent, exact opinions at most `B` and
starting opinions at most `E` apart.  Then after `k` iterations all opinions are at most `E + k·(M+1)·2^-49·B` apart (as long as this bound is at most
`B`). -/
theorem C73_track {k : Nat} {s t : DeGroot (Dbl R)} {e f : DeGroot ℝ} (hs : s.Ready) (he : e.Ready) (hI : RowStochastic e.network)
    (hc : WeightsClose s.network e.network) {M : Nat} (hM : ∀ i, i < s.network.agents.length → (s.network.weights.getD i []).length ≤ M) {B E : ℝ}
    (hB : 2 ^ (-1000 : ℤ) ≤ B) (hE : 0 ≤ E) (hX : ∀ i, i < s.network.agents.length → |opinionOf e.network.agents i| ≤ B)
    (hx : ∀ i, i < s.network.agents.length → |(opinionOf s.network.agents i).val - opinionOf e.network.agents i| ≤ E)
    (hk : E + k * (M + 1) * 2 ^ (-49 : ℤ) * B ≤ B) (h1 : Iterates DeGroot.iteration s k t) (h2 : Iterates DeGroot.iteration e k f) :
    ∀ i, i < s.network.agents.length →
      |(opinionOf t.network.agents i).val - opinionOf f.network.agents i| ≤ E + k * (M + 1) * 2 ^ (-49 : ℤ) * B := by
  have hB0 : 0 < B := lt_of_lt_of_le (by positivity) hB
  induction h1 generalizing f with
  | zero =>
    cases h2
    simpa using hx
  | @succ k t u hit h' ih =>
    cases h2 with
    | @succ _ f u' hit₂ h₂' =>
      push_cast at hk ⊢
      have hδ : 0 ≤ ((M : ℝ) + 1) * 2 ^ (-49 : ℤ) * B := by positivity
      have hk' : E + k * (M + 1) * 2 ^ (-49 : ℤ) * B ≤ B := by nlinarith
      have ih := ih hk' hit₂
      obtain ⟨p1, p2, p3, p4⟩ := DeGroot.iterates_ready hit hs
      obtain ⟨q1, q2, q3, q4⟩ := DeGroot.iterates_ready hit₂ he
      have hbox := C30_hull he hI hit₂ (lo := -B) (hi := B) (fun i hi => abs_le.mp (hX i (by rw [← hc.agents]; exact hi)))
      intro i hi
      obtain ⟨w, e1, -, -, -, -, -, e2⟩ := C29_iteration p1
      obtain rfl := Except.ok.inj (e1.symm.trans h')
      have hie : i < e.network.agents.length := by rw [hc.agents]; exact hi
      rw [e2 i (by omega), C29_exact q1 h₂' i (by omega)]
      have hc' : WeightsClose t.network f.network := by
        refine ⟨by rw [q2, p2, hc.neighbours], by rw [q4, p4, hc.agents], fun i hi => ?_⟩
        rw [p3, q3]
        exact hc.rows i (by omega)
      have hI' : RowStochastic f.network := by
        refine ⟨fun i hi => ?_, fun i hi => ?_⟩
        · rw [row_congr q2 q3]; exact hI.nonneg i (by omega)
        · rw [row_congr q2 q3]; exact hI.sum i (by omega)
      have hM1 : M + 1 ≤ 2 ^ 49 := by
        have a1 : ((M : ℝ) + 1) * 2 ^ (-49 : ℤ) * B ≤ 1 * B := by
          have : 0 ≤ (k : ℝ) * (M + 1) * 2 ^ (-49 : ℤ) * B := by positivity
          nlinarith
        have a2 := le_of_mul_le_mul_right a1 hB0
        have a3 : ((M : ℝ) + 1) ≤ 2 ^ 49 := by
          rw [zpow_neg, mul_inv_le_iff₀ (by positivity), one_mul] at a2
          exact_mod_cast a2
        exact_mod_cast a3
      have st := DeGrootDouble.step_track p1.wf hI' hc' (i := i) (by omega) (M := M) (by rw [p3]; exact hM i hi) hM1 (x := opinionOf t.network.agents)
        (X := opinionOf f.network.agents) (C := 2 * B) (E := E + k * (M + 1) * 2 ^ (-49 : ℤ) * B) (by linarith) (by
          intro j hj
          have hj' : j < s.network.agents.length := by omega
          have a1 := ih j hj'
          have a2 := abs_le.mpr (hbox j (by rw [hc.agents]; exact hj'))
          refine ⟨?_, a1⟩
          have := abs_add_le ((opinionOf t.network.agents j).val - opinionOf f.network.agents j) (opinionOf f.network.agents j)
          rw [sub_add_cancel] at this
          linarith)
      refine st.trans ?_
      have b1 : (2 : ℝ) ^ (-1074 : ℤ) ≤ 2 ^ (-50 : ℤ) * B := by
        calc (2 : ℝ) ^ (-1074 : ℤ) ≤ 2 ^ (-1050 : ℤ) := zpow_le_zpow_right₀ (by norm_num) (by norm_num)
          _ = 2 ^ (-50 : ℤ) * 2 ^ (-1000 : ℤ) := by rw [← zpow_add₀ (by norm_num)]; norm_num
          _ ≤ _ := by gcongr
      have b2 : (2 : ℝ) ^ (-51 : ℤ) * (2 * B) + 2 ^ (-1074 : ℤ) ≤ 2 ^ (-49 : ℤ) * B := by
        rw [show (2 : ℝ) ^ (-51 : ℤ) * (2 * B) = 2 ^ (-50 : ℤ) * B by
          rw [show (2 : ℝ) ^ (-50 : ℤ) = 2 * 2 ^ (-51 : ℤ) by norm_num]; ring,
          show (2 : ℝ) ^ (-49 : ℤ) * B = 2 ^ (-50 : ℤ) * B + 2 ^ (-50 : ℤ) * B by
          rw [show (2 : ℝ) ^ (-49 : ℤ) = 2 * 2 ^ (-50 : ℤ) by norm_num]; ring]
        linarith
      have b3 : ((M : ℝ) + 1) * (2 ^ (-51 : ℤ) * (2 * B) + 2 ^ (-1074 : ℤ)) ≤ (M + 1) * (2 ^ (-49 : ℤ) * B) := by gcongr
      linarith

/-- C73: opinions leave the interval of the starting opinions by at most `k·(M+1)·2^-49·B` in `k` iterations. -/
theorem C73_hull {k : Nat} {s t : DeGroot (Dbl R)} (hs : s.Ready) {I : Network B ℝ} (hI : RowStochastic I) (hc : WeightsClose s.network I) {M : Nat}
    (hM : ∀ i, i < s.network.agents.length → (s.network.weights.getD i []).length ≤ M) {lo hi b : ℝ} (hb : 2 ^ (-1000 : ℤ) ≤ b) (hlo : -b ≤ lo)
    (hhi : hi ≤ b) (hx : ∀ i, i < s.network.agents.length → lo ≤ (opinionOf s.network.agents i).val ∧ (opinionOf s.network.agents i).val ≤ hi)
    (hk : k * (M + 1) * 2 ^ (-49 : ℤ) ≤ (1 : ℝ)) (h1 : Iterates DeGroot.iteration s k t) :
    ∀ i, i < s.network.agents.length → lo - k * (M + 1) * 2 ^ (-49 : ℤ) * b ≤ (opinionOf t.network.agents i).val ∧
      (opinionOf t.network.agents i).val ≤ hi + k * (M + 1) * 2 ^ (-49 : ℤ) * b := by
  have hb0 : 0 < b := lt_of_lt_of_le (by positivity) hb
  let ag : List (SimpleAgent ℝ) := s.network.agents.map (fun a => ⟨a.opinion.val⟩)
  have hag : ag.length = s.network.agents.length := List.length_map ..
  have hop : ∀ i, i < s.network.agents.length → opinionOf ag i = (opinionOf s.network.agents i).val := by
    intro i hi
    rw [DeGroot.opinionOf_lt (by rw [hag]; exact hi), DeGroot.opinionOf_lt hi]
    simp [ag]
  have hwl : ∀ i, i < s.network.agents.length → (I.weights.getD i []).length = (I.neighbours.getD i []).length := by
    intro i hi
    rw [← (hc.rows i hi).length, hc.neighbours]
    exact NetLemmas.WF.row_len hs.wf hi
  have hIw : ∀ i, i < I.agents.length → (I.weights.getD i []) ≠ [] := by
    intro i hi h0
    have := hI.sum i hi
    unfold row at this
    rw [h0] at this
    simp at this
  by_cases hn : s.network.agents.length = 0
  · intro i hi; omega
  -- extra rows of `I.weights` do not matter: cut them off
  let e' : DeGroot ℝ := ⟨⟨none, 0⟩, 0, none, ⟨ag, I.neighbours, I.weights.take ag.length, .incoming⟩, ag⟩
  have hlenw : ag.length ≤ I.weights.length := by
    by_contra hcon
    push Not at hcon
    refine hIw (ag.length - 1) (by rw [hc.agents, ← hag]; omega) ?_
    simp [List.getD, List.getElem?_eq_none (show I.weights.length ≤ ag.length - 1 by omega)]
  have hgetD : ∀ i, i < ag.length → (I.weights.take ag.length).getD i [] = I.weights.getD i [] := by
    intro i hi
    rw [getD_lt _ _ (by rw [List.length_take]; omega), getD_lt _ _ (by omega), List.getElem_take]
  have hrow' : ∀ i, i < ag.length → row e'.network i = row I i := by
    intro i hi
    show (I.neighbours.getD i []).zip ((I.weights.take ag.length).getD i []) = _
    rw [hgetD i hi]; rfl
  have he : e'.Ready := by
    refine ⟨⟨?_, ?_, ?_, ?_⟩, rfl⟩
    · show I.neighbours.length = ag.length
      rw [hc.neighbours, hs.wf.rows, hag]
    · show (I.weights.take ag.length).length = ag.length
      rw [List.length_take]; omega
    · intro i h h'
      have hi : i < ag.length := by
        have : i < (I.weights.take ag.length).length := h'
        rw [List.length_take] at this; omega
      have h2 : i < I.neighbours.length := h
      have := hwl i (by rw [← hag]; exact hi)
      rw [getD_lt I.neighbours _ h2, ← hgetD i hi, getD_lt _ _ h'] at this
      exact this
    · intro row hrow j hj
      show j < ag.length
      rw [hag]
      exact hs.wf.range row (by rw [← hc.neighbours]; exact hrow) j hj
  have hI' : RowStochastic e'.network := by
    refine ⟨fun i hi => ?_, fun i hi => ?_⟩
    · rw [hrow' i hi]; exact hI.nonneg i (by rw [hc.agents, ← hag]; exact hi)
    · rw [hrow' i hi]; exact hI.sum i (by rw [hc.agents, ← hag]; exact hi)
  have hc' : WeightsClose s.network e'.network := by
    refine ⟨hc.neighbours, hag, fun i hi => ?_⟩
    show RowClose _ ((I.weights.take ag.length).getD i [])
    rw [hgetD i (by rw [hag]; exact hi)]
    exact hc.rows i hi
  obtain ⟨f, hf⟩ := C29_any_number he k
  have key := C73_track hs he hI' hc' hM (B := b) (E := 0) hb le_rfl
    (by
      intro i hi'
      rw [show opinionOf e'.network.agents i = _ from hop i hi']
      obtain ⟨a1, a2⟩ := hx i hi'
      exact abs_le.mpr ⟨by linarith, by linarith⟩)
    (by intro i hi'; rw [show opinionOf e'.network.agents i = _ from hop i hi']; simp)
    (by rw [zero_add]; nlinarith) h1 hf
  have hbox := C30_hull he hI' hf (lo := lo) (hi := hi) (by
    intro i hi'
    rw [show opinionOf e'.network.agents i = _ from hop i (by rw [← hag]; exact hi')]
    exact hx i (by rw [← hag]; exact hi'))
  intro i hi'
  have b1 := abs_le.mp (key i hi')
  have b2 := hbox i (by show i < ag.length; rw [hag]; exact hi')
  rw [zero_add] at b1
  constructor <;> linarith [b1.1, b1.2, b2.1, b2.2]

/-! ## stopping -/

namespace DeGrootDouble

/-- The states of successive iterations, and the counter. -/
theorem exists_states {s : DeGroot (Dbl R)} (h : s.Ready) :
    ∃ st : Nat → DeGroot (Dbl R), st 0 = s.reset ∧ (∀ k, (st k).iteration = .ok (st (k + 1))) ∧ (∀ k, (st k).Ready) ∧
      (∀ k, (st k).counter = ⟨s.counter.maxIterations, k⟩ ∧ (st k).tol = s.tol) ∧
      ∀ k, (st (k + 1)).maxDiff = some (DeGroot.maxChange (st k).network.agents (st (k + 1)).network.agents) := by
  classical
  let nxt : DeGroot (Dbl R) → DeGroot (Dbl R) := fun s => match s.iteration with | .ok t => t | .error _ => s
  let st : Nat → DeGroot (Dbl R) := fun k => Nat.rec s.reset (fun _ t => nxt t) k
  have hr : ∀ k, (st k).Ready := by
    intro k
    induction k with
    | zero => exact h.reset
    | succ k ih =>
      obtain ⟨u, hu, hr, -⟩ := C29_iteration ih
      have : st (k + 1) = u := by show nxt (st k) = u; simp only [nxt, hu]
      rw [this]; exact hr
  have hstep : ∀ k, (st k).iteration = .ok (st (k + 1)) := by
    intro k
    obtain ⟨u, hu, -⟩ := C29_iteration (hr k)
    have : st (k + 1) = u := by show nxt (st k) = u; simp only [nxt, hu]
    rw [this]; exact hu
  have heq : ∀ k, st (k + 1) = _ := fun k => Except.ok.inj ((hstep k).symm.trans (DeGroot.iteration_eq (hr k).wf (hr k).copy))
  refine ⟨st, rfl, hstep, hr, ?_, ?_⟩
  · intro k
    induction k with
    | zero => exact ⟨rfl, rfl⟩
    | succ k ih => rw [heq k]; exact ⟨by simp only [ih.1, Counter.tick], ih.2⟩
  · intro k; rw [heq k]

theorem exists_run {s : DeGroot (Dbl R)} {st : Nat → DeGroot (Dbl R)} (h0 : st 0 = s.reset) (hstep : ∀ k, (st k).iteration = .ok (st (k + 1))) {m : Nat}
    (hm : (st m).finished = true) : ∃ K, K ≤ m ∧ IsRun DeGroot.machine s.reset K st := by
  classical
  have hex : ∃ k, (st k).finished = true := ⟨m, hm⟩
  refine ⟨Nat.find hex, Nat.find_min' hex hm, h0, fun k hk => ?_, fun k _ => hstep k, Nat.find_spec hex⟩
  have := Nat.find_min hex hk
  simpa [DeGroot.machine] using this

theorem maxChange_lt {old new : List (SimpleAgent (Dbl R))} (hl : new.length = old.length) {tol : Dbl R} (h0 : 0 < tol.val)
    (h : ∀ i, i < old.length → |R.round ((opinionOf old i).val - (opinionOf new i).val)| < tol.val) : DeGroot.maxChange old new < tol := by
  unfold DeGroot.maxChange
  have key : ∀ (L : List (SimpleAgent (Dbl R) × SimpleAgent (Dbl R))) (m : Dbl R), m.val < tol.val →
      (∀ e ∈ L, |R.round (e.1.opinion.val - e.2.opinion.val)| < tol.val) →
      (L.foldl (fun m e => cmax m (cabs (e.1.opinion - e.2.opinion))) m).val < tol.val := by
    intro L
    induction L with
    | nil => intro m hm _; exact hm
    | cons e L ih =>
      intro m hm hL
      rw [List.foldl_cons]
      refine ih _ ?_ (fun e he => hL e (List.mem_cons_of_mem _ he))
      have he := hL e (List.mem_cons_self ..)
      unfold cmax
      split
      · rw [Deffuant.val_cabs, Deffuant.val_sub]; exact he
      · exact hm
  refine key _ _ h0 ?_
  intro e he
  obtain ⟨i, hi, rfl⟩ := List.getElem_of_mem he
  rw [List.length_zip] at hi
  have := h i (by omega)
  rw [DeGroot.opinionOf_lt (by omega), DeGroot.opinionOf_lt (by omega)] at this
  simpa using this

end DeGrootDouble

/-- C73: stopping.  In the situation of `C73_track`, if in iteration `k+1` of the exact model no opinion changes by more than the tolerance minus
`2E + (2(k+1)(M+1)+1)·2^-49·B`, then the run in double precision stops after at most `k+1` iterations. -/
theorem C73_stops {s : DeGroot (Dbl R)} {e : DeGroot ℝ} (hs : s.Ready) (he : e.Ready) (hI : RowStochastic e.network)
    (hc : WeightsClose s.network e.network) {M : Nat} (hM : ∀ i, i < s.network.agents.length → (s.network.weights.getD i []).length ≤ M) {B E : ℝ}
    (hB : 2 ^ (-1000 : ℤ) ≤ B) (hE : 0 ≤ E) (hX : ∀ i, i < s.network.agents.length → |opinionOf e.network.agents i| ≤ B)
    (hx : ∀ i, i < s.network.agents.length → |(opinionOf s.network.agents i).val - opinionOf e.network.agents i| ≤ E) {k : Nat}
    (hk : E + (k + 1) * (M + 1) * 2 ^ (-49 : ℤ) * B ≤ B) (htol : 0 < s.tol.val) {f f' : DeGroot ℝ} (h1 : Iterates DeGroot.iteration e k f)
    (h2 : f.iteration = .ok f')
    (hstop : ∀ i, i < s.network.agents.length → |opinionOf f'.network.agents i - opinionOf f.network.agents i| +
      (2 * E + (2 * (k + 1) * (M + 1) + 1) * 2 ^ (-49 : ℤ) * B) < s.tol.val) :
    ∃ (K : Nat) (st : Nat → DeGroot (Dbl R)), K ≤ k + 1 ∧ IsRun DeGroot.machine s.reset K st := by
  obtain ⟨st, g0, gs, gr, gc, gd⟩ := DeGrootDouble.exists_states hs
  have hit : ∀ j, Iterates DeGroot.iteration s.reset j (st j) := by
    intro j
    induction j with
    | zero => rw [g0]; exact .zero
    | succ j ih => exact .succ ih (gs j)
  have hlen : ∀ j, (st j).network.agents.length = s.network.agents.length := fun j => (DeGroot.iterates_ready (hit j) hs.reset).2.2.2
  have hB0 : 0 < B := lt_of_lt_of_le (by positivity) hB
  have hδ : 0 ≤ ((M : ℝ) + 1) * 2 ^ (-49 : ℤ) * B := by positivity
  have t1 := C73_track (s := s.reset) hs.reset he hI hc hM hB hE hX hx (k := k) (by nlinarith) (hit k) h1
  have t2 := C73_track (s := s.reset) hs.reset he hI hc hM hB hE hX hx (k := k + 1) (by push_cast; exact hk) (hit (k + 1)) (.succ h1 h2)
  push_cast at t2
  have hbox := C30_hull he hI h1 (lo := -B) (hi := B) (fun i hi => abs_le.mp (hX i (by rw [← hc.agents]; exact hi)))
  have hbox' := C30_hull he hI (.succ h1 h2) (lo := -B) (hi := B) (fun i hi => abs_le.mp (hX i (by rw [← hc.agents]; exact hi)))
  have hfin : (st (k + 1)).finished = true := by
    unfold DeGroot.finished
    rw [gd k, (gc (k + 1)).2]
    simp only [Bool.or_eq_true, decide_eq_true_eq]
    right
    refine DeGrootDouble.maxChange_lt (by rw [hlen, hlen]) htol ?_
    intro i hi
    rw [hlen] at hi
    have a1 := abs_le.mp (t1 i hi)
    have a2 := abs_le.mp (t2 i hi)
    have a3 := hstop i hi
    have a4 := hbox i (by rw [hc.agents]; exact hi)
    have a5 := hbox' i (by rw [hc.agents]; exact hi)
    have er := R.error_sub (opinionOf (st k).network.agents i).isDouble (opinionOf (st (k + 1)).network.agents i).isDouble
    generalize (opinionOf (st k).network.agents i).val = y at *
    generalize (opinionOf (st (k + 1)).network.agents i).val = y' at *
    generalize opinionOf f.network.agents i = Y at *
    generalize opinionOf f'.network.agents i = Y' at *
    have d1 : |y - y'| ≤ |Y' - Y| + 2 * (E + (k + 1) * (M + 1) * 2 ^ (-49 : ℤ) * B) := by
      have e1 : |y - y'| = |(y - Y) + (Y - Y') + (Y' - y')| := by congr 1; ring
      have e2 := abs_add_three (y - Y) (Y - Y') (Y' - y')
      rw [← e1, abs_sub_comm Y Y', abs_sub_comm Y' y'] at e2
      have e3 := t1 i hi
      have e4 := t2 i hi
      have e5 : |y - Y| ≤ E + k * (M + 1) * 2 ^ (-49 : ℤ) * B := abs_le.mpr a1
      have e6 : |y' - Y'| ≤ E + (k + 1) * (M + 1) * 2 ^ (-49 : ℤ) * B := abs_le.mpr a2
      nlinarith
    have d2 : |y - y'| ≤ 4 * B := by
      have : |Y' - Y| ≤ 2 * B := abs_le.mpr ⟨by linarith [a4.2, a5.1], by linarith [a4.1, a5.2]⟩
      rw [abs_le]
      constructor <;> nlinarith
    have d3 : |R.round (y - y')| ≤ |y - y'| + 2 ^ (-53 : ℤ) * |y - y'| := by
      have := abs_add_le (R.round (y - y') - (y - y')) (y - y')
      rw [sub_add_cancel] at this
      linarith
    have d4 : (2 : ℝ) ^ (-53 : ℤ) * |y - y'| ≤ 2 ^ (-49 : ℤ) * B := by
      calc (2 : ℝ) ^ (-53 : ℤ) * |y - y'| ≤ 2 ^ (-53 : ℤ) * (4 * B) := by gcongr
        _ = 2 ^ (-51 : ℤ) * B := by rw [show (2 : ℝ) ^ (-51 : ℤ) = 4 * 2 ^ (-53 : ℤ) by norm_num]; ring
        _ ≤ _ := by gcongr <;> norm_num
    nlinarith
  obtain ⟨K, hK, hrun⟩ := DeGrootDouble.exists_run g0 gs hfin
  exact ⟨K, st, hK, hrun⟩

/-! ## the whole program -/

section program
open Simulation Program
variable {env : Env (Dbl R) G} {args : Args} {options : Config.Options (Dbl R)} {s : Config.DeGrootSettings (Dbl R)}

/-- C73: the whole program in double precision.  With an accepted DeGroot configuration with `max_iterations = M` (and `(M+1)·(c+2) ≤ 2^49` for `c`
connections per agent) it completes for every random outcome after some `K ≤ M` iterations, and the files it writes are those wanted for networks
`N 0, ..., N K`.  Let `X 0, X 1, ...` be the DeGroot model in exact arithmetic, built from the network that exact arithmetic makes of the same draws.
Unless all draws of some row are zero, all weights written are in `[0,1]`, all opinions written are non-negative, and those of `N k` differ from
those of `X k` by at most `(k·(c+2)+1)·2^-49`. -/
theorem C73_program (he : env.Safe) (hr : env.rng.Lawful) (h : Accepted env args options) (hout : SaneOutput options)
    (hs : options.settings = .deGroot s) {M : Nat} (hM : s.maxIterations = some (M : Int)) (hM' : M < 2 ^ 31)
    (hc : (M + 1) * (options.network.nConnections + 2) ≤ 2 ^ 49) {fuel : Nat} (hf : M ≤ fuel) :
    ∃ (K : Nat) (N : Nat → Network (SimpleAgent (Dbl R)) (Dbl R)) (tr : List FileWrite) (I : Network (SimpleAgent ℝ) ℝ) (g : G) (b : Bool)
      (X : Nat → DeGroot ℝ), K ≤ M ∧ main env args fuel = .ok tr ∧ List.Forall₂ (Fulfils (render env .simple)) tr (wanted options.output N K) ∧
      nConnections (exactRng env.rng) options.network.nAgents options.network.nConnections true (env.seed options.rngSeed) = .ok (I, g) ∧
      DeGroot.create none 0 I = .ok (X 0, b) ∧ (∀ k, (X k).iteration = .ok (X (k + 1))) ∧
      ∀ k, k ≤ K → (N k).agents.length = options.network.nAgents ∧ (N k).neighbours = I.neighbours ∧
        ((∀ i, i < options.network.nAgents → ∃ v ∈ I.weights.getD i [], v ≠ 0) → ∀ i, i < options.network.nAgents →
          (∀ w ∈ (N k).weights.getD i [], 0 ≤ w.val ∧ w.val ≤ 1) ∧ 0 ≤ (opinionOf (N k).agents i).val ∧
          |(opinionOf (N k).agents i).val - opinionOf (X k).network.agents i| ≤
            (k * (options.network.nConnections + 2) + 1) * 2 ^ (-49 : ℤ)) := by
  obtain ⟨N, g, m, hN, hready, hfresh, htol, hmax, hlen, hop, hnb, hws, -, hmain⟩ := h.deGroot_safe he hs
  have hc2 : options.network.nConnections + 2 ≤ 2 ^ 49 := le_trans (Nat.le_mul_of_pos_left _ (by omega)) hc
  obtain ⟨N', I, g', e1, e2, e3, e4, e5, e6⟩ := C73_weights (A := SimpleAgent (Dbl R)) (B := SimpleAgent ℝ) hr options.network.nAgents
    options.network.nConnections true (env.seed options.rngSeed) hc2
  rw [hN] at e1
  obtain ⟨rfl, rfl⟩ := Prod.mk.inj (Except.ok.inj e1)
  -- the exact model
  have hrI : (exactRng env.rng).IntLawful := ⟨hr.int_ge, hr.int_le⟩
  obtain ⟨I', g'', i1, hIwf, -, -⟩ := nConnections_total (A := SimpleAgent ℝ) hrI options.network.nAgents options.network.nConnections true
    (env.seed options.rngSeed)
  rw [e2] at i1
  obtain ⟨rfl, rfl⟩ := Prod.mk.inj (Except.ok.inj i1)
  obtain ⟨e, comps, -, c1, c2, c3, c4, -, c6, -, -, -, c10⟩ := C29_constructor hIwf none (0 : ℝ)
  obtain ⟨X, x0, xs⟩ := DeGroot.exists_states c2
  have hX : ∀ k, Iterates DeGroot.iteration e k (X k) := by
    intro k
    induction k with
    | zero => rw [x0]; exact .zero
    | succ k ih => exact .succ ih (xs k).1
  -- the run
  have hmax' : m.counter.maxIterations = some M := by rw [hmax, hM, Option.map_some, toSize_nat hM']
  obtain ⟨st, s0, ss, sr, sc, -⟩ := DeGrootDouble.exists_states hready
  obtain ⟨K, hK, hrun⟩ := DeGrootDouble.exists_run (m := M) s0 ss (by
    unfold DeGroot.finished Counter.finished
    rw [(sc M).1, hmax']
    simp)
  obtain ⟨tr, htr⟩ := C52_total (M := DeGroot.machine) (R := render env .simple) hout.agents hout.network (s := m) hready.wf hrun
    (fun k _ => (sr k).wf) (le_trans hK hf)
  obtain ⟨K', st', hrun', hK', hst', hfiles⟩ := C52_files (M := DeGroot.machine) DeGroot.counts (fun _ => rfl) htr
  have hsame : ∀ k, k ≤ K' → (st' k).Ready ∧ (st' k).network.neighbours = m.network.neighbours ∧ (st' k).network.weights = m.network.weights ∧
      (st' k).network.agents.length = m.network.agents.length :=
    fun k hk => DeGroot.iterates_ready (s := DeGroot.reset m) (IsRun.iterates hrun' k hk) hready.reset
  have hcount : ∀ k, k ≤ K' → (st' k).counter = ⟨some M, k⟩ := by
    intro k
    induction k with
    | zero => intro _; rw [hrun'.start]; show m.counter.reset = _; rw [Counter.reset, hmax']
    | succ k ih =>
      intro hk
      have e := DeGroot.iteration_eq (hsame k (by omega)).1.wf (hsame k (by omega)).1.copy
      have e' := Except.ok.inj (e.symm.trans (hrun'.step k (by omega)))
      rw [← e', ih (by omega)]; rfl
  have hKM : K' ≤ M := by
    by_contra hcon
    have h1 : (st' M).finished = false := hrun'.going M (by omega)
    unfold DeGroot.finished Counter.finished at h1
    rw [hcount M (by omega)] at h1
    simp at h1
  refine ⟨K', fun k => (st' k).network, tr, I, g, _, X, hKM, by rw [hmain, htr]; rfl, hfiles, e2, by rw [x0]; exact c1, fun k => (xs k).1, ?_⟩
  intro k hk
  obtain ⟨k1, k2, k3, k4⟩ := hsame k hk
  refine ⟨k4.trans hlen, by rw [k2, hnb, e5], fun hne i hi => ?_⟩
  have hrows : ∀ i, i < options.network.nAgents → _ := fun i hi => (e6 i hi).2 (hne i hi)
  have hcl : WeightsClose m.network e.network := by
    refine ⟨by rw [c3, hnb, e5], by rw [c6, e4, hlen], fun i hi => ?_⟩
    rw [hlen] at hi
    rw [hws, c4]
    exact (hrows i hi).1
  have hIr : RowStochastic e.network := by
    have hl : e.network.agents.length = options.network.nAgents := c6.trans e4
    have key : ∀ i, i < options.network.nAgents → (row e.network i).map (·.2) = I.weights.getD i [] := by
      intro i hi
      unfold row
      rw [c4, c3]
      exact List.map_snd_zip (by
        rw [NetLemmas.WF.row_len hIwf (by rw [e4]; exact hi)])
    refine ⟨fun i hi w hw => ?_, fun i hi => ?_⟩
    · rw [hl] at hi
      refine (hrows i hi).2.2.2 _ ?_
      rw [← key i hi]
      exact List.mem_map_of_mem hw
    · rw [hl] at hi
      rw [key i hi]
      exact (hrows i hi).2.2.1
  have hn : options.network.nAgents < 2 ^ 31 := h.size
  have hx0 : ∀ i, i < options.network.nAgents →
      |(opinionOf m.network.agents i).val - opinionOf e.network.agents i| ≤ 2 ^ (-49 : ℤ) ∧ 0 ≤ (opinionOf m.network.agents i).val ∧
        |opinionOf e.network.agents i| ≤ 1 := by
    intro i hi
    rw [hop i hi, c10 i (by rw [e4]; exact hi), e4]
    have hr1 : R.round (i : ℝ) = i := R.fix (isDouble_nat (by omega))
    have hr2 : R.round (options.network.nAgents : ℝ) = options.network.nAgents := R.fix (isDouble_nat (by omega))
    have hv : ((i : Dbl R) / (options.network.nAgents : Dbl R)).val = R.round ((i : ℝ) / options.network.nAgents) := by
      show R.round (R.round i / R.round options.network.nAgents) = _
      rw [hr1, hr2]
    have hu : |(i : ℝ) / options.network.nAgents| ≤ 1 := by
      rw [abs_of_nonneg (by positivity)]
      exact div_le_one_of_le₀ (by exact_mod_cast hi.le) (Nat.cast_nonneg _)
    refine ⟨?_, (Dbl.ratio_unit hi).1, hu⟩
    rw [hv]
    exact (R.error_unit hu).trans (by norm_num)
  have hmlen : m.reset.network.agents.length = options.network.nAgents := hlen
  have hMrow : ∀ i, i < m.reset.network.agents.length → (m.reset.network.weights.getD i []).length ≤ options.network.nConnections + 1 := by
    intro i hi
    show (m.network.weights.getD i []).length ≤ _
    rw [hws]
    exact (e6 i (by rw [← hlen]; exact hi)).1
  have hw01 : ∀ i, i < options.network.nAgents → ∀ w ∈ m.network.weights.getD i [], 0 ≤ w.val ∧ w.val ≤ 1 := by
    intro i hi w hw
    rw [hws] at hw
    exact ⟨(hrows i hi).1.nonneg w hw, (hrows i hi).2.1 w hw⟩
  have hsize : (2 : ℝ) ^ (-49 : ℤ) + k * (((options.network.nConnections + 1 : Nat) : ℝ) + 1) * 2 ^ (-49 : ℤ) * 1 ≤ 1 := by
    have h1 : k * (options.network.nConnections + 2) + 1 ≤ 2 ^ 49 := by
      refine le_trans ?_ hc
      have : k * (options.network.nConnections + 2) ≤ M * (options.network.nConnections + 2) := Nat.mul_le_mul_right _ (by omega)
      rw [Nat.add_mul]; omega
    have h2 : (k : ℝ) * (options.network.nConnections + 2) + 1 ≤ 2 ^ 49 := by exact_mod_cast h1
    push_cast
    calc _ = ((k : ℝ) * (options.network.nConnections + 2) + 1) * 2 ^ (-49 : ℤ) := by ring
      _ ≤ 2 ^ 49 * 2 ^ (-49 : ℤ) := by gcongr
      _ = 1 := by norm_num
  have htrack := C73_track (s := m.reset) hready.reset c2 hIr hcl hMrow (B := 1) (E := 2 ^ (-49 : ℤ))
    (by rw [zpow_neg]; exact inv_le_one_of_one_le₀ (one_le_zpow₀ (by norm_num) (by norm_num))) (by positivity)
    (fun i hi => (hx0 i (by rw [← hmlen]; exact hi)).2.2) (fun i hi => (hx0 i (by rw [← hmlen]; exact hi)).1) hsize (IsRun.iterates hrun' k hk) (hX k)
    i (by rw [hmlen]; exact hi)
  refine ⟨by show ∀ w ∈ (st' k).network.weights.getD i [], _; rw [k3]; exact hw01 i hi, ?_, ?_⟩
  · exact C73_nonneg (s := m.reset) hready.reset (fun i hi w hw => (hw01 i (by rw [← hmlen]; exact hi) w hw).1) (IsRun.iterates hrun' k hk)
      (fun i hi => (hx0 i (by rw [← hmlen]; exact hi)).2.1) i (by rw [hmlen]; exact hi)
  · refine htrack.trans (le_of_eq ?_)
    push_cast
    ring

end program

/-! ## Concrete case -/

/-- Draws `1/10, ..., 9/10` (rounded) in turn. -/
noncomputable def dblRng (R : Rounding) : Rng Nat (Dbl R) :=
  ⟨fun g => (Dbl.ofReal R (((g % 9 + 1 : Nat) : ℝ) / 10), g + 1), fun a b g => (a + g % (b - a + 1), g + 1), fun g => (0, g + 1)⟩

theorem dblRng_pos (R : Rounding) (g : Nat) : 0 < ((dblRng R).unit g).1.val ∧ ((dblRng R).unit g).1.val < 1 := by
  show 0 < R.round (((g % 9 + 1 : Nat) : ℝ) / 10) ∧ R.round (((g % 9 + 1 : Nat) : ℝ) / 10) < 1
  have h1 : (1 : ℝ) ≤ ((g % 9 + 1 : Nat) : ℝ) := by exact_mod_cast Nat.succ_le_succ (Nat.zero_le _)
  have h2 : ((g % 9 + 1 : Nat) : ℝ) ≤ 9 := by exact_mod_cast (show g % 9 + 1 ≤ 9 by omega)
  have d1 : IsDouble ((2 : ℝ) ^ (-4 : ℤ)) := isDouble_pow (by norm_num)
  have d2 : IsDouble ((15 : ℤ) * (2 : ℝ) ^ (-4 : ℤ)) := isDouble_grid (by norm_num) (by norm_num)
  constructor
  · refine lt_of_lt_of_le (by positivity) (R.ge_of_ge d1 ?_)
    rw [show (2 : ℝ) ^ (-4 : ℤ) = 1 / 16 by norm_num]
    linarith
  · refine lt_of_le_of_lt (R.le_of_le d2 ?_) (by norm_num)
    rw [show ((15 : ℤ) * (2 : ℝ) ^ (-4 : ℤ)) = 15 / 16 by norm_num]
    linarith

theorem dblRng_lawful (R : Rounding) : (dblRng R).Lawful where
  unit_nonneg g := (dblRng_pos R g).1.le
  unit_lt_one g := (dblRng_pos R g).2
  int_ge _ _ _ _ := Nat.le_add_right _ _
  int_le a b g h := (dblEnv_safe R (dblDoc R)).rng.int_le a b g h

/-- Four agents with two connections each, at most three iterations. -/
def dblDeGrootDoc (R : Rounding) : Config.Doc (Dbl R) := fun s k =>
  if s = "simulation" ∧ k = "model" then some (.str "DeGroot")
  else if s = "network" ∧ k = "number_of_agents" then some (.int 4)
  else if s = "network" ∧ k = "connections_per_agent" then some (.int 2)
  else if s = "model" ∧ k = "max_iterations" then some (.int 3)
  else if s = "io" ∧ k = "n_output_agents" then some (.int 1)
  else if s = "DeGroot" ∧ k = "convergence" then some (.float 1)
  else none

/-- What is read from this file. -/
def dblDeGrootOptions (R : Rounding) : Config.Options (Dbl R) where
  model := .deGroot
  modelString := "DeGroot"
  rngSeed := 7
  output := { nOutputNetwork := none, nOutputAgents := some 1, printProgress := false, outputInitial := true, startOutput := 1, startNumberingFrom := 0 }
  settings := .deGroot ⟨some 3, 1⟩
  network := ⟨none, 4, 2⟩

/-- The environment of the example of C72 with these draws. -/
noncomputable def dblEnv' (R : Rounding) (doc : Config.Doc (Dbl R)) : Env (Dbl R) Nat := { dblEnv R doc with rng := dblRng R }

theorem dblEnv'_safe (R : Rounding) (doc : Config.Doc (Dbl R)) : (dblEnv' R doc).Safe where
  rng := ⟨(dblRng_lawful R).int_ge, (dblRng_lawful R).int_le⟩
  pick := (dblEnv_safe R doc).pick
  isqrt := (dblEnv_safe R doc).isqrt

theorem dblDeGroot_accepted (R : Rounding) : Accepted (dblEnv' R (dblDeGrootDoc R)) ⟨"conf.toml", none, none, none⟩ (dblDeGrootOptions R) where
  config := ⟨_, rfl, by with_unfolding_all rfl⟩
  valid := by
    refine (C53_validate _ ?_).1.mpr ⟨show 0 < 1 by norm_num, ?_⟩
    · trivial
    · exact show (0 : ℝ) ≤ 1 by norm_num
  noNetworkFile := rfl
  noAgentsFile := rfl
  size := show 4 < 2 ^ 31 by norm_num

/-- With these draws no weight is zero. -/
theorem dblRng_weights (R : Rounding) (n k : Nat) (g : Nat) {I : Network (SimpleAgent ℝ) ℝ} {g' : Nat}
    (h : nConnections (exactRng (dblRng R)) n k true g = .ok (I, g')) : ∀ i, i < n → ∃ v ∈ I.weights.getD i [], v ≠ 0 := by
  obtain ⟨N, I', g'', -, h2, -, -, -, h6, h7⟩ := nConnections_exact (A := SimpleAgent (Dbl R)) (B := SimpleAgent ℝ) (r := dblRng R)
    ⟨(dblRng_lawful R).int_ge, (dblRng_lawful R).int_le⟩ n k true g
  rw [h] at h2
  obtain ⟨rfl, rfl⟩ := Prod.mk.inj (Except.ok.inj h2)
  intro i hi
  obtain ⟨d, -, hl, hd, -, hI⟩ := h7 i hi
  have hpos : ∀ x ∈ d.map Dbl.val, 0 < x := by
    intro x hx
    obtain ⟨u, hu, rfl⟩ := List.mem_map.mp hx
    obtain ⟨g, rfl⟩ := hd u hu
    exact (dblRng_pos R g).1
  obtain ⟨u, d', rfl⟩ := List.exists_cons_of_length_pos (l := d) (by rw [hl]; simp)
  have hu := hpos u.val (by simp)
  have hs : u.val ≤ ((u :: d').map Dbl.val).sum := List.single_le_sum (fun x hx => (hpos x hx).le) _ (by simp)
  rw [hI]
  exact ⟨_, List.mem_map_of_mem (List.mem_map_of_mem (List.mem_cons_self ..)), (div_pos hu (by linarith)).ne'⟩

-- the hypotheses of C73_program are met, including the one about the draws
example : ∃ (K : Nat) (N : Nat → Network (SimpleAgent (Dbl Rounding.some)) (Dbl Rounding.some)) (tr : _),
    Program.main (dblEnv' Rounding.some (dblDeGrootDoc _)) ⟨"conf.toml", none, none, none⟩ 3 = .ok tr ∧
    ∀ k, k ≤ K → ∀ i, i < 4 → 0 ≤ (opinionOf (N k).agents i).val := by
  obtain ⟨K, N, tr, I, g, b, X, -, h, -, hI, -, -, hh⟩ := C73_program (dblEnv'_safe _ _) (dblRng_lawful _) (dblDeGroot_accepted Rounding.some)
    ⟨by decide, by decide⟩ rfl (M := 3) rfl (by decide) (by decide) (fuel := 3) (le_refl 3)
  exact ⟨K, N, tr, h, fun k hk i hi => ((hh k hk).2.2 (dblRng_weights _ _ _ _ hI) i hi).2.1⟩

end Seldon
