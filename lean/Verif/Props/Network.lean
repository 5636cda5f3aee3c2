import Verif.Lemmas.Merge
import Verif.Spec.NetworkOps
import Mathlib.Algebra.Order.Group.Nat
import Mathlib.Tactic.Ring
import Mathlib.Data.List.Sort
/-!
# Properties C01–C07: the `Network` class
-/
namespace Seldon
open Spec NetLemmas MergeLemmas
variable {A W : Type}

/-! ## A concrete network used in the non-vacuity examples: 3 agents, a double edge and a self loop -/
def exNet : Network Unit Int :=
  { agents := [(), (), ()], neighbours := [[2, 1, 2], [], [2]], weights := [[5, 7, 1], [], [3]], direction := .incoming }

theorem exNet_wf : WF exNet where
  rows := rfl
  wrows := rfl
  lengths := by
    intro i h h'
    match i, h with
    | 0, _ => rfl
    | 1, _ => rfl
    | 2, _ => rfl
  range := by decide

/-- A behaviour of `std::sort` meeting its specification. -/
def exSort (keys : List Nat) : List Nat :=
  (List.range keys.length).insertionSort (fun a b => keys.getD a 0 ≤ keys.getD b 0)

theorem exSort_spec : Network.SortSpec exSort where
  perm keys := List.perm_insertionSort _ _
  sorted keys := by
    have : Std.Total (fun a b => keys.getD a 0 ≤ keys.getD b 0) := ⟨fun _ _ => Nat.le_total _ _⟩
    have : IsTrans Nat (fun a b => keys.getD a 0 ≤ keys.getD b 0) := ⟨fun _ _ _ => Nat.le_trans⟩
    exact List.pairwise_insertionSort (fun a b => keys.getD a 0 ≤ keys.getD b 0) _

/-! ## C01 -/

theorem wf_set_neighbours {N : Network A W} (h : WF N) {i : Nat} {ns : List Nat} {ws : List W}
    (hl : ws.length = ns.length) (hns : ∀ j ∈ ns, j < N.nAgents) :
    WF { N with neighbours := N.neighbours.set i ns, weights := N.weights.set i ws } where
  rows := by simp [h.rows]
  wrows := by simp [h.wrows]
  lengths := by
    intro k h1 h2
    simp only [List.getElem_set]
    split
    · exact hl
    · exact h.lengths k _ _
  range := by
    intro r hr j hj
    rcases List.mem_or_eq_of_mem_set hr with hr | rfl
    · exact h.range r hr j hj
    · exact hns j hj

theorem wf_set_weights {N : Network A W} (h : WF N) {i : Nat} {ws : List W}
    (hl : ws.length = (N.neighbours.getD i []).length) : WF { N with weights := N.weights.set i ws } where
  rows := h.rows
  wrows := by simp [h.wrows]
  lengths := by
    intro k h1 h2
    simp only [List.getElem_set]
    split
    · rename_i hk; subst hk; rw [hl, getD_lt _ _ h1]
    · exact h.lengths k _ _
  range := h.range

theorem wf_switch {N : Network A W} (h : WF N) : WF N.switchDirectionFlag := ⟨h.rows, h.wrows, h.lengths, h.range⟩

/-- C01, one call: a call with in-range arguments on a well-formed network either succeeds or throws (never undefined
behaviour), keeps the number of agents and leaves a well-formed network; if it throws, nothing has changed. -/
theorem C01_step [AddCommMonoid W] {N : Network A W} (h : WF N) (op : Op A W) (hop : op.InRange N) :
    WF (op.exec N).1 ∧ (op.exec N).1.nAgents = N.nAgents ∧
      ((op.exec N).2 = .ok () ∨ ((op.exec N).2 = .error (.exn "runtime_error") ∧ (op.exec N).1 = N)) := by
  cases op with
  | setAgent i a =>
    simp only [Op.InRange] at hop
    simp only [Op.exec, wr_lt a hop, Except.map, ofRes]
    refine ⟨⟨by simp [h.rows], by simp [h.wrows], h.lengths, ?_⟩, by simp [Network.nAgents], Or.inl (by simp)⟩
    intro r hr j hj; simpa using h.range r hr j hj
  | setWeights i ws =>
    simp only [Op.InRange] at hop
    have h1 : i < N.neighbours.length := by rw [h.rows]; exact hop
    have h2 : i < N.weights.length := by rw [h.wrows]; exact hop
    simp only [Op.exec, Network.setWeights, rd_getD [] h1, wr_lt ws h2]
    by_cases hl : (N.neighbours.getD i []).length = ws.length
    · rw [if_neg (by simp only [hl, ne_eq, not_true, not_false_iff])]
      exact ⟨wf_set_weights h hl.symm, rfl, Or.inl (by simp)⟩
    · rw [if_pos hl]
      exact ⟨h, rfl, Or.inr ⟨rfl, rfl⟩⟩
  | setNeighboursConst i ns w =>
    obtain ⟨hi, hns⟩ := hop
    have h1 : i < N.neighbours.length := by rw [h.rows]; exact hi
    have h2 : i < N.weights.length := by rw [h.wrows]; exact hi
    simp only [Op.exec, Network.setNeighboursConst, wr_lt _ h1, wr_lt _ h2]
    exact ⟨wf_set_neighbours h (by simp) hns, rfl, Or.inl (by simp)⟩
  | setNeighbours i ns ws =>
    obtain ⟨hi, hns⟩ := hop
    have h1 : i < N.neighbours.length := by rw [h.rows]; exact hi
    have h2 : i < N.weights.length := by rw [h.wrows]; exact hi
    simp only [Op.exec, Network.setNeighbours, wr_lt _ h1, wr_lt _ h2]
    by_cases hl : ns.length = ws.length
    · rw [if_neg (by simp only [hl, ne_eq, not_true, not_false_iff])]
      exact ⟨wf_set_neighbours h hl.symm hns, rfl, Or.inl (by simp)⟩
    · rw [if_pos hl]
      exact ⟨h, rfl, Or.inr ⟨rfl, rfl⟩⟩
  | pushBack i j w =>
    obtain ⟨hi, hj⟩ := hop
    have h1 : i < N.neighbours.length := by rw [h.rows]; exact hi
    have h2 : i < N.weights.length := by rw [h.wrows]; exact hi
    simp only [Op.exec, Network.pushBack, List.getElem?_eq_getElem h1, List.getElem?_eq_getElem h2]
    refine ⟨wf_set_neighbours h (by simp [h.lengths i h1 h2]) ?_, rfl, Or.inl (by simp)⟩
    intro k hk
    rcases List.mem_append.mp hk with hk | hk
    · exact h.range _ (List.getElem_mem h1) k hk
    · simp at hk; subst hk; exact hj
  | pokeNeighbour i k v =>
    obtain ⟨hi, hk, hv⟩ := hop
    have h1 : i < N.neighbours.length := by rw [h.rows]; exact hi
    have h2 : i < N.weights.length := by rw [h.wrows]; exact hi
    simp only [Op.exec, Network.pokeNeighbour, rd_getD [] h1, wr_lt _ hk]
    have hw : N.weights = N.weights.set i (N.weights[i]) := by simp
    refine ⟨?_, rfl, Or.inl (by simp)⟩
    have := wf_set_neighbours (i := i) (ns := (N.neighbours.getD i []).set k v) (ws := N.weights[i]) h
      (by rw [h.lengths i h1 h2, getD_lt _ _ h1]; simp) (by
        intro j hj
        rcases List.mem_or_eq_of_mem_set hj with hj | rfl
        · rw [getD_lt _ _ h1] at hj; exact h.range _ (List.getElem_mem h1) j hj
        · exact hv)
    rw [← hw] at this
    exact this
  | pokeWeight i k w =>
    obtain ⟨hi, hk⟩ := hop
    have h2 : i < N.weights.length := by rw [h.wrows]; exact hi
    simp only [Op.exec, Network.pokeWeight, rd_getD [] h2, wr_lt _ hk]
    refine ⟨wf_set_weights h ?_, rfl, Or.inl (by simp)⟩
    simpa using WF.row_len h hi
  | switchDirectionFlag => exact ⟨wf_switch h, rfl, Or.inl rfl⟩
  | toggle =>
    simp only [Op.exec, toggle_eq_toggled h, ofRes]
    exact ⟨wf_toggled, rfl, Or.inl (by simp)⟩
  | transpose =>
    simp only [Op.exec, Network.transpose, toggle_eq_toggled h, Res.bind_ok, ofRes]
    exact ⟨wf_switch wf_toggled, rfl, Or.inl (by simp)⟩
  | removeDoubleCounting sort =>
    simp only [Op.exec, removeDoubleCounting_eq hop h, ofRes]
    exact ⟨wf_mergedNet hop h, rfl, Or.inl (by simp)⟩
  | clear =>
    refine ⟨⟨by simp [Op.exec, Network.clear, h.rows], by simp [Op.exec, Network.clear, h.wrows], ?_, ?_⟩, rfl, Or.inl rfl⟩
    · intro i h1 h2; simp [Op.exec, Network.clear]
    · intro r hr j hj
      simp only [Op.exec, Network.clear, List.mem_map] at hr
      obtain ⟨_, _, rfl⟩ := hr
      simp at hj

/-- C01, whole histories: every network reachable from a well-formed one by in-range calls is well-formed, has the
same number of agents, and the next in-range call again succeeds or throws leaving the network as it was. -/
theorem C01_history [AddCommMonoid W] {N N' : Network A W} (h : WF N) (hr : Reach N N') :
    WF N' ∧ N'.nAgents = N.nAgents ∧
      ∀ op : Op A W, op.InRange N' → (op.exec N').2 = .ok () ∨
        ((op.exec N').2 = .error (.exn "runtime_error") ∧ (op.exec N').1 = N') := by
  have main : WF N' ∧ N'.nAgents = N.nAgents := by
    induction hr with
    | start => exact ⟨h, rfl⟩
    | step op _ hop ih =>
      obtain ⟨h1, h2⟩ := ih
      have := C01_step h1 op hop
      exact ⟨this.1, this.2.1.trans h2⟩
  exact ⟨main.1, main.2, fun op hop => (C01_step main.1 op hop).2.2⟩

/-- C01, starting points: the constructors `Network( n )` and `Network( agents )` give well-formed networks. -/
theorem C01_constructors [Inhabited A] (n : Nat) (agents : List A) :
    WF (Network.ofSize n : Network A W) ∧ WF (Network.ofAgents agents : Network A W) := by
  constructor
  · refine ⟨by simp [Network.ofSize], by simp [Network.ofSize], ?_, ?_⟩
    · intro i h h'; simp [Network.ofSize]
    · intro r hr j hj
      simp only [Network.ofSize] at hr
      rw [List.eq_of_mem_replicate hr] at hj; simp at hj
  · refine ⟨by simp [Network.ofAgents], by simp [Network.ofAgents], ?_, ?_⟩
    · intro i h h'; simp [Network.ofAgents]
    · intro r hr j hj
      simp only [Network.ofAgents] at hr
      rw [List.eq_of_mem_replicate hr] at hj; simp at hj

/-- Non-vacuity for C01: a history mixing a push, a merge and a toggle, in range at every step. -/
example : ∃ N', Reach exNet N' ∧ N' ≠ exNet := by
  refine ⟨_, Reach.step (.toggle) (Reach.step (.pushBack 1 0 4) Reach.start ?_) trivial, ?_⟩
  · exact ⟨by decide, by decide⟩
  · intro h
    have := congrArg Network.direction h
    revert this; decide

/-! ## C02 -/

/-- C02: `toggle_incoming_outgoing` succeeds, flips the direction flag, keeps the agents, and the multiset of directed
weighted edges is unchanged. -/
theorem C02_toggle_preserves_graph {N : Network A W} (h : WF N) :
    ∃ N', N.toggle = .ok N' ∧ N'.direction = opposite N.direction ∧ N'.agents = N.agents ∧ WF N' ∧
      edges N' = edges N :=
  ⟨toggled N, toggle_eq_toggled h, rfl, rfl, wf_toggled, edges_toggled h⟩

example : ∃ N', exNet.toggle = .ok N' ∧ edges N' = edges exNet ∧
    edges exNet = {(2, 0, 5), (1, 0, 7), (2, 0, 1), (2, 2, 3)} := by
  obtain ⟨N', h1, _, _, _, h2⟩ := C02_toggle_preserves_graph exNet_wf
  exact ⟨N', h1, h2, by decide⟩

/-! ## C03 -/

/-- C03: the effect of the three operations on (direction flag, graph): `transpose` keeps the flag and reverses every
edge, `switch_direction_flag` flips the flag and reverses every edge (and leaves all rows as they are). -/
theorem C03_transpose_switch {N : Network A W} (h : WF N) :
    (∃ T, N.transpose = .ok T ∧ T.direction = N.direction ∧ T.agents = N.agents ∧ edges T = (edges N).map revEdge) ∧
    (N.switchDirectionFlag.direction = opposite N.direction ∧
      N.switchDirectionFlag.neighbours = N.neighbours ∧ N.switchDirectionFlag.weights = N.weights ∧
      N.switchDirectionFlag.agents = N.agents ∧ edges N.switchDirectionFlag = (edges N).map revEdge) := by
  refine ⟨⟨(toggled N).switchDirectionFlag, ?_, ?_, rfl, ?_⟩, ?_, rfl, rfl, rfl, edges_switch N⟩
  · simp only [Network.transpose, toggle_eq_toggled h, Res.bind_ok]
  · cases hd : N.direction <;> simp [Network.switchDirectionFlag, toggled, opposite, hd]
  · rw [edges_switch, edges_toggled h]
  · cases hd : N.direction <;> simp [Network.switchDirectionFlag, opposite, hd]

/-- C03, composition: `toggle` followed by `transpose` has the flag and the graph of `switch_direction_flag`, and each
row is a permutation of the row there. -/
theorem C03_toggle_transpose_is_switch {N : Network A W} (h : WF N) :
    ∃ T T', N.toggle = .ok T ∧ T.transpose = .ok T' ∧ T'.direction = N.switchDirectionFlag.direction ∧
      edges T' = edges N.switchDirectionFlag ∧
      ∀ i, i < N.nAgents → (row T' i).Perm (row N.switchDirectionFlag i) := by
  have hw : WF (toggled N) := wf_toggled
  refine ⟨toggled N, (toggled (toggled N)).switchDirectionFlag, toggle_eq_toggled h, ?_, ?_, ?_, ?_⟩
  · simp only [Network.transpose, toggle_eq_toggled hw, Res.bind_ok]
  · cases hd : N.direction <;> simp [Network.switchDirectionFlag, toggled, opposite, hd]
  · rw [edges_switch, edges_toggled hw, edges_toggled h, edges_switch]
  · intro i hi
    have h1 : row (toggled (toggled N)).switchDirectionFlag i = row (toggled (toggled N)) i := rfl
    have h2 : row N.switchDirectionFlag i = row N i := rfl
    rw [h1, h2, row_toggled_toggled hi]
    exact bucket_perm _ _ _ (fun e he => row_lt h he)

example : edges exNet.switchDirectionFlag = {(0, 2, 5), (0, 1, 7), (0, 2, 1), (2, 2, 3)} := by decide

/-! ## C04 -/

/-- C04: toggling twice restores the flag and the agents, and each row becomes the original row stably sorted by
neighbour index: it is a permutation, its neighbours are non-decreasing, and the entries of each neighbour keep their
order. -/
theorem C04_toggle_twice {N : Network A W} (h : WF N) :
    ∃ T T', N.toggle = .ok T ∧ T.toggle = .ok T' ∧ T'.direction = N.direction ∧ T'.agents = N.agents ∧
      ∀ i, i < N.nAgents →
        (row T' i).Perm (row N i) ∧
        (row T' i).Pairwise (fun a b => a.1 ≤ b.1) ∧
        ∀ j, (row T' i).filter (fun e => e.1 = j) = (row N i).filter (fun e => e.1 = j) := by
  refine ⟨toggled N, toggled (toggled N), toggle_eq_toggled h, toggle_eq_toggled wf_toggled,
    opposite_opposite _, rfl, ?_⟩
  intro i hi
  rw [row_toggled_toggled hi]
  exact ⟨bucket_perm _ _ _ (fun e he => row_lt h he), bucket_sorted _ _ _,
    fun j => bucket_filter _ _ _ (fun e he => row_lt h he) j⟩

theorem ext_rows {N M : Network A W} (hN : WF N) (hM : WF M) (ha : N.agents = M.agents) (hd : N.direction = M.direction)
    (hr : ∀ i, i < N.nAgents → row N i = row M i) : N = M := by
  have hn : N.neighbours = M.neighbours := by
    apply List.ext_getElem
    · rw [hN.rows, hM.rows, ha]
    · intro i h1 h2
      have hi : i < N.agents.length := by rw [← hN.rows]; exact h1
      have hi' : i < M.agents.length := by rw [← hM.rows]; exact h2
      have e := congrArg (List.map (·.1)) (hr i hi)
      rw [row_fst hN hi, row_fst hM hi', getD_lt _ _ h1, getD_lt _ _ h2] at e
      exact e
  have hw : N.weights = M.weights := by
    apply List.ext_getElem
    · rw [hN.wrows, hM.wrows, ha]
    · intro i h1 h2
      have hi : i < N.agents.length := by rw [← hN.wrows]; exact h1
      have hi' : i < M.agents.length := by rw [← hM.wrows]; exact h2
      have e := congrArg (List.map (·.2)) (hr i hi)
      rw [row_snd hN hi, row_snd hM hi', getD_lt _ _ h1, getD_lt _ _ h2] at e
      exact e
  cases N; cases M; simp_all

/-- C04: toggling three times equals toggling once, exactly; hence four times equals twice. -/
theorem C04_toggle_periodic {N : Network A W} (h : WF N) :
    (do let a ← N.toggle; let b ← a.toggle; let c ← b.toggle; c.toggle) =
      (do let a ← N.toggle; a.toggle) := by
  simp only [toggle_eq_toggled h, Res.bind_ok, toggle_eq_toggled wf_toggled]
  congr 1
  apply ext_rows (N := toggled (toggled (toggled (toggled N)))) (M := toggled (toggled N)) wf_toggled wf_toggled rfl
  · exact opposite_opposite _
  · intro i hi
    have hi1 : i < N.agents.length := hi
    have hi2 : i < (toggled (toggled N)).agents.length := hi
    rw [row_toggled_toggled (N := toggled (toggled N)) hi2, row_toggled_toggled hi1]
    have hlen : (toggled (toggled N)).agents.length = N.agents.length := rfl
    rw [hlen]
    congr 1
    funext j
    exact bucket_filter _ (fun e : Nat × W => e.1) _ (fun e he => row_lt h he) j

example : ∃ T T', exNet.toggle = .ok T ∧ T.toggle = .ok T' ∧ row T' 0 = [(1, 7), (2, 5), (2, 1)] :=
  ⟨_, _, rfl, rfl, by decide⟩

/-! ## C05 -/

/-- C05: whatever admissible result `std::sort` gives, `remove_double_counting` succeeds, keeps agents and direction, and
each row then has strictly increasing neighbours, the same set of neighbours as before, and for each neighbour the sum
of the weights it had; the total weight of the row is unchanged. -/
theorem C05_merge [AddCommMonoid W] {sort : List Nat → List Nat} (hsort : Network.SortSpec sort) {N : Network A W}
    (h : WF N) :
    ∃ M, N.removeDoubleCounting sort = .ok M ∧ M.agents = N.agents ∧ M.direction = N.direction ∧ WF M ∧
      ∀ i, i < N.nAgents →
        (M.neighbours.getD i []).Pairwise (· < ·) ∧
        (∀ j, j ∈ M.neighbours.getD i [] ↔ j ∈ N.neighbours.getD i []) ∧
        (∀ j, weightOf (row M i) j = weightOf (row N i) j) ∧
        (M.weights.getD i []).sum = (N.weights.getD i []).sum := by
  have hwf := wf_mergedNet hsort h
  refine ⟨_, removeDoubleCounting_eq hsort h, rfl, rfl, hwf, ?_⟩
  intro i hi
  have hi' : i < (mergedNet sort N N.agents.length).agents.length := hi
  have hm := mergedRow_spec hsort (WF.row_len h hi)
  have e1 := row_fst hwf hi'
  have e1' := row_fst h hi
  have hw : ∀ j, weightOf (row (mergedNet sort N N.agents.length) i) j = weightOf (row N i) j := by
    intro j; rw [row_mergedNet hi]; exact hm.weight j
  have sum_eq : ∀ L : List (Nat × W), (∀ e ∈ L, e.1 < N.agents.length) →
      (L.map (·.2)).sum = ((List.range N.agents.length).map (fun j => weightOf L j)).sum := by
    intro L hL
    have := (bucket_perm N.agents.length (fun e : Nat × W => e.1) L hL).map (·.2)
    rw [← this.sum_eq, List.map_flatMap, List.flatMap, List.sum_flatten, List.map_map]
    rfl
  refine ⟨?_, ?_, hw, ?_⟩
  · rw [← e1, row_mergedNet hi]; exact hm.sorted
  · intro j
    rw [← e1, ← e1', row_mergedNet hi]; exact hm.keys j
  · rw [← row_snd hwf hi', ← row_snd h hi, sum_eq _ (fun e he => row_lt hwf he), sum_eq _ (fun e he => row_lt h he)]
    congr 1
    apply List.map_congr_left
    intro j _
    exact hw j

/-- C05, determinism and idempotence: the result does not depend on how `std::sort` orders equal keys, and a second
call changes nothing. -/
theorem C05_unique_idempotent [AddCommMonoid W] {sort sort' : List Nat → List Nat} (hsort : Network.SortSpec sort)
    (hsort' : Network.SortSpec sort') {N : Network A W} (h : WF N) :
    N.removeDoubleCounting sort = N.removeDoubleCounting sort' ∧
    ∀ M, N.removeDoubleCounting sort = .ok M → M.removeDoubleCounting sort' = .ok M := by
  constructor
  · rw [removeDoubleCounting_eq hsort h, removeDoubleCounting_eq hsort' h]
    congr 1
    apply ext_rows (wf_mergedNet hsort h) (wf_mergedNet hsort' h) rfl rfl
    intro i hi
    have hi' : i < N.agents.length := hi
    rw [row_mergedNet hi', row_mergedNet hi']
    have h1 := mergedRow_spec hsort (WF.row_len h hi')
    have h2 := mergedRow_spec hsort' (WF.row_len h hi')
    exact sorted_ext h1.sorted h2.sorted (fun j => (h1.keys j).trans (h2.keys j).symm)
      (fun j => (h1.weight j).trans (h2.weight j).symm)
  · intro M hM
    rw [removeDoubleCounting_eq hsort h] at hM
    have hM' := Except.ok.inj hM
    subst hM'
    have hwf := wf_mergedNet hsort h
    rw [removeDoubleCounting_eq hsort' hwf]
    congr 1
    apply ext_rows (wf_mergedNet hsort' hwf) hwf rfl rfl
    intro i hi
    have hi' : i < N.agents.length := hi
    have hi2 : i < (mergedNet sort N N.agents.length).agents.length := hi
    rw [row_mergedNet hi2]
    have h1 := mergedRow_spec hsort (WF.row_len h hi')
    have h2 := mergedRow_spec hsort' (WF.row_len hwf hi2)
    have e : row (mergedNet sort N N.agents.length) i = mergedRow sort (N.neighbours.getD i []) (N.weights.getD i []) :=
      row_mergedNet hi'
    have e' : (List.zip ((mergedNet sort N N.agents.length).neighbours.getD i [])
        ((mergedNet sort N N.agents.length).weights.getD i [])) = row (mergedNet sort N N.agents.length) i := rfl
    rw [e'] at h2
    apply sorted_ext h2.sorted
    · rw [e]; exact h1.sorted
    · exact h2.keys
    · exact h2.weight

example : ∃ M, exNet.removeDoubleCounting exSort = .ok M ∧ (M.neighbours.getD 0 []) = [1, 2] ∧
    weightOf (row M 0) 2 = 6 := by
  refine ⟨_, removeDoubleCounting_eq exSort_spec exNet_wf, ?_, ?_⟩ <;> decide +kernel

/-! ## C06 -/

theorem toInt32_add (a b : Int) : Network.toInt32 (Network.toInt32 a + b) = Network.toInt32 (a + b) := by
  simp [Network.toInt32]

theorem nEdges_fold (rows : List (List Nat)) (acc : Int) :
    rows.foldl (fun acc row => Network.toInt32 (acc + row.length)) (Network.toInt32 acc) =
      Network.toInt32 (acc + ((rows.map List.length).sum : Nat)) := by
  induction rows generalizing acc with
  | nil => simp
  | cons r rows ih =>
    simp only [List.foldl_cons, toInt32_add]
    rw [ih]
    simp only [List.map_cons, List.sum_cons]
    congr 1
    push_cast
    ring

/-- C06 (what the code computes): `n_edges()` is the number of edges reduced to a 32-bit signed integer and then
converted to `size_t`. -/
theorem C06_nEdges_value (N : Network A W) :
    N.nEdges none = .ok (Network.toSize (Network.toInt32 ((N.neighbours.map List.length).sum : Nat))) := by
  have := nEdges_fold N.neighbours 0
  simp only [zero_add] at this
  have h0 : Network.toInt32 0 = 0 := by decide
  rw [h0] at this
  simp only [Network.nEdges, this]

theorem toSize_toInt32_small (s : Nat) (hs : s < 2 ^ 31) : Network.toSize (Network.toInt32 (s : Int)) = s := by
  have h1 : Network.toInt32 (s : Int) = s := by
    unfold Network.toInt32
    have e : (2 ^ 32 : Nat) = 4294967296 := by norm_num
    rw [e]
    apply Int.bmod_eq_of_le <;> omega
  rw [h1]
  unfold Network.toSize
  have h2 : ((s : Int) % (2 ^ 64 : Int)) = s := Int.emod_eq_of_lt (by omega) (by omega)
  rw [h2]
  simp

/-- C06, partial: `n_edges()` is the sum of all `n_edges( i )` as long as there are fewer than 2^31 edges.
Missing: larger networks, for which the claim is false (`C06_overflow`). -/
theorem C06_nEdges_partial (N : Network A W) (hsmall : (N.neighbours.map List.length).sum < 2 ^ 31) :
    N.nEdges none = .ok (N.neighbours.map List.length).sum ∧
    ∀ i (h : i < N.neighbours.length), N.nEdges (some i) = .ok (N.neighbours[i]).length := by
  constructor
  · rw [C06_nEdges_value, toSize_toInt32_small _ hsmall]
  · intro i h
    simp [Network.nEdges, rd_lt h]

/-- C06 is false in general: a network with 2^31 edges reports 2^64 - 2^31 of them. -/
theorem C06_overflow : ∃ N : Network Unit Unit, WF N ∧ (N.neighbours.map List.length).sum = 2 ^ 31 ∧
    N.nEdges none = .ok (2 ^ 64 - 2 ^ 31) := by
  refine ⟨{ agents := [()], neighbours := [List.replicate (2 ^ 31) 0], weights := [List.replicate (2 ^ 31) ()],
            direction := .incoming }, ⟨rfl, rfl, ?_, ?_⟩, ?_, ?_⟩
  · intro i h h'
    match i, h with
    | 0, _ => simp only [List.getElem_cons_zero, List.length_replicate]
  · intro r hr j hj
    rw [List.mem_singleton.mp hr] at hj
    rw [List.eq_of_mem_replicate hj]
    exact Nat.zero_lt_one
  · simp only [List.map_cons, List.map_nil, List.length_replicate, List.sum_cons, List.sum_nil, Nat.add_zero]
  · rw [C06_nEdges_value]
    simp only [List.map_cons, List.map_nil, List.length_replicate, List.sum_cons, List.sum_nil, Nat.add_zero]
    decide

example : exNet.nEdges none = .ok 4 ∧ (exNet.neighbours.map List.length).sum < 2 ^ 31 := by decide

/-! ## C07 -/

/-- Everything except row `i` is the same in the two networks. -/
def SameOutsideRow (i : Nat) (N M : Network A W) : Prop :=
  M.agents = N.agents ∧ M.direction = N.direction ∧ M.nAgents = N.nAgents ∧
    ∀ k, k ≠ i → M.getNeighbours k = N.getNeighbours k ∧ M.getWeights k = N.getWeights k

theorem rd_set_ne {α : Type} (l : List α) {i k : Nat} (a : α) (h : k ≠ i) : rd (l.set i a) k = rd l k := by
  unfold rd; rw [List.getElem?_set_ne (Ne.symm h)]

theorem rd_set_self {α : Type} (l : List α) {i : Nat} (a : α) (h : i < l.length) : rd (l.set i a) i = .ok a := by
  unfold rd; rw [List.getElem?_set_self h]

/-- C07, `set_weights`: throws and changes nothing if the number of weights is not the number of edges of agent `i`;
otherwise the weights of `i` become exactly `ws`, and nothing else changes. -/
theorem C07_set_weights {N : Network A W} (h : WF N) {i : Nat} (hi : i < N.nAgents) (ws : List W) :
    (N.nEdges (some i) ≠ .ok ws.length → N.setWeights i ws = (N, .error (.exn "runtime_error"))) ∧
    (N.nEdges (some i) = .ok ws.length → (N.setWeights i ws).2 = .ok () ∧
      (N.setWeights i ws).1.getWeights i = .ok ws ∧
      (N.setWeights i ws).1.getNeighbours i = N.getNeighbours i ∧ SameOutsideRow i N (N.setWeights i ws).1) := by
  have h1 : i < N.neighbours.length := by rw [h.rows]; exact hi
  have h2 : i < N.weights.length := by rw [h.wrows]; exact hi
  simp only [Network.nEdges, Network.setWeights, rd_lt h1, wr_lt ws h2, Res.bind_ok]
  constructor
  · intro hne
    rw [if_pos (fun e => hne (by rw [e]))]
  · intro he
    have he' := Except.ok.inj he
    rw [if_neg (by simp only [he', ne_eq, not_true, not_false_iff])]
    refine ⟨rfl, rd_set_self _ _ h2, rfl, rfl, rfl, rfl, fun k hk => ⟨rfl, rd_set_ne _ _ hk⟩⟩

/-- C07, `set_neighbours_and_weights` with a weight buffer. -/
theorem C07_set_neighbours {N : Network A W} (h : WF N) {i : Nat} (hi : i < N.nAgents) (ns : List Nat) (ws : List W) :
    (ns.length ≠ ws.length → N.setNeighbours i ns ws = (N, .error (.exn "runtime_error"))) ∧
    (ns.length = ws.length → (N.setNeighbours i ns ws).2 = .ok () ∧
      (N.setNeighbours i ns ws).1.getNeighbours i = .ok ns ∧ (N.setNeighbours i ns ws).1.getWeights i = .ok ws ∧
      SameOutsideRow i N (N.setNeighbours i ns ws).1) := by
  have h1 : i < N.neighbours.length := by rw [h.rows]; exact hi
  have h2 : i < N.weights.length := by rw [h.wrows]; exact hi
  simp only [Network.setNeighbours, wr_lt _ h1, wr_lt ws h2]
  constructor
  · intro hne; rw [if_pos hne]
  · intro he
    rw [if_neg (by simp only [he, ne_eq, not_true, not_false_iff])]
    exact ⟨rfl, rd_set_self _ _ h1, rd_set_self _ _ h2, rfl, rfl, rfl,
      fun k hk => ⟨rd_set_ne _ _ hk, rd_set_ne _ _ hk⟩⟩

/-- C07, `set_neighbours_and_weights` with a constant weight, and `push_back_neighbour_and_weight`. -/
theorem C07_set_const_push {N : Network A W} (h : WF N) {i : Nat} (hi : i < N.nAgents) :
    (∀ ns w, (N.setNeighboursConst i ns w).2 = .ok () ∧
      (N.setNeighboursConst i ns w).1.getNeighbours i = .ok ns ∧
      (N.setNeighboursConst i ns w).1.getWeights i = .ok (List.replicate ns.length w) ∧
      SameOutsideRow i N (N.setNeighboursConst i ns w).1) ∧
    (∀ j w ns ws, N.getNeighbours i = .ok ns → N.getWeights i = .ok ws →
      (N.pushBack i j w).2 = .ok () ∧ (N.pushBack i j w).1.getNeighbours i = .ok (ns ++ [j]) ∧
      (N.pushBack i j w).1.getWeights i = .ok (ws ++ [w]) ∧ SameOutsideRow i N (N.pushBack i j w).1) := by
  have h1 : i < N.neighbours.length := by rw [h.rows]; exact hi
  have h2 : i < N.weights.length := by rw [h.wrows]; exact hi
  constructor
  · intro ns w
    simp only [Network.setNeighboursConst, wr_lt _ h1, wr_lt _ h2]
    exact ⟨trivial, rd_set_self _ _ h1, rd_set_self _ _ h2, rfl, rfl, rfl,
      fun k hk => ⟨rd_set_ne _ _ hk, rd_set_ne _ _ hk⟩⟩
  · intro j w ns ws hn hw
    have hn' := rd_eq_ok.mp hn
    have hw' := rd_eq_ok.mp hw
    simp only [Network.pushBack, hn', hw']
    exact ⟨trivial, rd_set_self _ _ h1, rd_set_self _ _ h2, rfl, rfl, rfl,
      fun k hk => ⟨rd_set_ne _ _ hk, rd_set_ne _ _ hk⟩⟩

/-- C07: the setters never read or write out of bounds silently: with an index `≥ n_agents()` they are undefined. -/
theorem C07_out_of_range {N : Network A W} (h : WF N) {i : Nat} (hi : N.nAgents ≤ i) (ns : List Nat) (ws : List W) (w : W)
    (hl : ns.length = ws.length) :
    (N.setWeights i ws).2 = .error .ub ∧ (N.setNeighbours i ns ws).2 = .error .ub ∧
      (N.setNeighboursConst i ns w).2 = .error .ub := by
  have h1 : N.neighbours.length ≤ i := by rw [h.rows]; exact hi
  refine ⟨?_, ?_, ?_⟩
  · simp only [Network.setWeights, rd_ge h1]
  · simp only [Network.setNeighbours, wr_ge _ h1]
    rw [if_neg (by simp only [hl, ne_eq, not_true, not_false_iff])]
  · simp only [Network.setNeighboursConst, wr_ge _ h1]

example : exNet.setWeights 0 [1, 2] = (exNet, .error (.exn "runtime_error")) ∧
    (exNet.setWeights 0 [1, 2, 3]).1.getWeights 0 = .ok [1, 2, 3] ∧
    (exNet.setNeighbours 1 [0, 0] [1, 2]).1.getNeighbours 1 = .ok [0, 0] := by decide

end Seldon
