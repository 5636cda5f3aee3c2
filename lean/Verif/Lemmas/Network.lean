import Verif.Lemmas.Basic
import Verif.Spec.Graph
/-!
# Helper lemmas about `Network`: closed form of `toggle`
-/
namespace Seldon
open Spec
variable {A W : Type}

namespace NetLemmas

/-- All stored entries as triples `(i, j, w)`: row index, neighbour, weight; first `m` rows, in storage order. -/
def entries (N : Network A W) (m : Nat) : List (Nat × Nat × W) :=
  (List.range m).flatMap fun i => (row N i).map fun e => (i, e.1, e.2)

/-- Transposed lists obtained from a list of triples. -/
def tr (n : Nat) (E : List (Nat × Nat × W)) : List (List Nat) × List (List W) :=
  ((List.range n).map fun j => (E.filter (fun e => e.2.1 = j)).map (·.1),
   (List.range n).map fun j => (E.filter (fun e => e.2.1 = j)).map (·.2.2))

theorem tr_nil (n : Nat) : tr n ([] : List (Nat × Nat × W)) = (List.replicate n [], List.replicate n []) := by
  simp [tr, List.map_const']

theorem map_range_set {β : Type} (n j : Nat) (f : Nat → β) (b : β) :
    ((List.range n).map f).set j b = (List.range n).map (fun k => if k = j then b else f k) := by
  apply List.ext_getElem
  · simp
  · intro k h1 h2
    simp [List.getElem_set]
    by_cases h : j = k <;> simp [h, eq_comm]

theorem WF.row_len {N : Network A W} (h : WF N) {i : Nat} (hi : i < N.agents.length) :
    (N.weights.getD i []).length = (N.neighbours.getD i []).length := by
  have h1 : i < N.neighbours.length := by rw [h.rows]; exact hi
  have h2 : i < N.weights.length := by rw [h.wrows]; exact hi
  simpa [List.getD, h1, h2] using h.lengths i h1 h2

theorem row_length {N : Network A W} (h : WF N) {i : Nat} (hi : i < N.agents.length) :
    (row N i).length = (N.neighbours.getD i []).length := by
  rw [row, List.length_zip, WF.row_len h hi, Nat.min_self]

theorem row_fst {N : Network A W} (h : WF N) {i : Nat} (hi : i < N.agents.length) :
    (row N i).map (·.1) = N.neighbours.getD i [] := by
  have := WF.row_len h hi
  exact List.map_fst_zip (by omega)

theorem row_snd {N : Network A W} (h : WF N) {i : Nat} (hi : i < N.agents.length) :
    (row N i).map (·.2) = N.weights.getD i [] := by
  have := WF.row_len h hi
  exact List.map_snd_zip (by omega)

theorem row_lt {N : Network A W} (h : WF N) {i : Nat} {e : Nat × W} (he : e ∈ row N i) :
    e.1 < N.agents.length := by
  have h1 : e.1 ∈ N.neighbours.getD i [] := (List.of_mem_zip he).1
  by_cases hi : i < N.neighbours.length
  · simp [List.getD, hi] at h1
    exact h.range _ (List.getElem_mem hi) _ h1
  · simp [List.getD, Nat.not_lt.mp hi] at h1

theorem mem_row_imp_lt {N : Network A W} {i : Nat} {e : Nat × W} (he : e ∈ row N i) :
    i < N.neighbours.length ∧ i < N.weights.length := by
  have h1 := List.of_mem_zip he
  constructor
  · by_contra hi
    simp [List.getD, Nat.not_lt.mp hi] at h1
  · by_contra hi
    simp [List.getD, Nat.not_lt.mp hi] at h1

/-- One step of the inner loop of toggle. -/
theorem toggleStep_tr {N : Network A W} (h : WF N) {i k : Nat} (hi : i < N.agents.length)
    (hk : k < (row N i).length) (E : List (Nat × Nat × W)) :
    N.toggleStep i k (tr N.agents.length E) =
      .ok (tr N.agents.length (E ++ [(i, (row N i)[k].1, (row N i)[k].2)])) := by
  have h1 : i < N.neighbours.length := by rw [h.rows]; exact hi
  have h2 : i < N.weights.length := by rw [h.wrows]; exact hi
  have hk' : k < (N.neighbours.getD i []).length := by rw [← row_length h hi]; exact hk
  have hk'' : k < (N.weights.getD i []).length := by rw [WF.row_len h hi]; exact hk'
  have hj : (row N i)[k].1 < N.agents.length := row_lt h (List.getElem_mem hk)
  have e1 : (row N i)[k].1 = (N.neighbours.getD i [])[k] := by simp [row]
  have e2 : (row N i)[k].2 = (N.weights.getD i [])[k] := by simp [row]
  unfold Network.toggleStep
  rw [rd_getD [] h1]
  simp only [Res.bind_ok]
  rw [rd_lt hk']
  simp only [Res.bind_ok]
  rw [rd_getD [] h2]
  simp only [Res.bind_ok]
  rw [rd_lt hk'', ← e1, ← e2]
  simp only [Res.bind_ok]
  generalize (row N i)[k].1 = j at *
  generalize (row N i)[k].2 = w at *
  rw [rd_lt (by simp [tr]; exact hj)]
  simp only [Res.bind_ok]
  rw [wr_lt _ (by simp [tr]; exact hj)]
  simp only [Res.bind_ok]
  rw [rd_lt (by simp [tr]; exact hj)]
  simp only [Res.bind_ok]
  rw [wr_lt _ (by simp [tr]; exact hj)]
  simp only [Res.bind_ok, tr, map_range_set]
  congr 2
  · apply List.map_congr_left
    intro a _
    by_cases ha : a = j
    · subst ha; simp [List.filter_append]
    · simp [ha, List.filter_append, Ne.symm ha]
  · apply List.map_congr_left
    intro a _
    by_cases ha : a = j
    · subst ha; simp [List.filter_append]
    · simp [ha, List.filter_append, Ne.symm ha]

theorem toggle_inner {N : Network A W} (h : WF N) {i : Nat} (hi : i < N.agents.length)
    (E : List (Nat × Nat × W)) :
    loop (N.neighbours.getD i []).length (fun k t => N.toggleStep i k t) (tr N.agents.length E) =
      .ok (tr N.agents.length (E ++ (row N i).map fun e => (i, e.1, e.2))) := by
  have := loop_eq (n := (N.neighbours.getD i []).length) (f := fun k t => N.toggleStep i k t)
    (fun k => tr N.agents.length (E ++ ((row N i).take k).map fun e => (i, e.1, e.2))) (by
      intro k hk
      have hk' : k < (row N i).length := by rw [row_length h hi]; exact hk
      rw [toggleStep_tr h hi hk']
      congr 2
      rw [List.take_succ_eq_append_getElem hk', List.map_append, List.append_assoc]
      rfl)
  simp only [List.take_zero, List.map_nil, List.append_nil] at this
  rw [this, ← row_length h hi, List.take_length]

/-- Closed form of `toggle_incoming_outgoing` on a well-formed network. -/
theorem toggle_eq {N : Network A W} (h : WF N) :
    N.toggle = .ok { agents := N.agents, neighbours := (tr N.agents.length (entries N N.agents.length)).1,
                     weights := (tr N.agents.length (entries N N.agents.length)).2,
                     direction := opposite N.direction } := by
  unfold Network.toggle
  have := loop_eq (n := N.agents.length)
    (f := fun i t => do
      let row ← rd N.neighbours i
      loop row.length (fun k t => N.toggleStep i k t) t)
    (fun i => tr N.agents.length (entries N i)) (by
      intro i hi
      have h1 : i < N.neighbours.length := by rw [h.rows]; exact hi
      rw [rd_getD [] h1]
      simp only [Res.bind_ok]
      rw [toggle_inner h hi]
      simp [entries, List.range_succ])
  simp only [entries, List.range_zero, List.flatMap_nil, tr_nil] at this
  simp only [Network.nAgents]
  rw [this]
  simp only [Res.bind_ok, Network.switchDirectionFlag, opposite]
  rfl

theorem edgeOf_opposite (d : EdgeDirection) (i j : Nat) (w : W) :
    edgeOf (opposite d) j (i, w) = edgeOf d i (j, w) := by cases d <;> rfl

theorem edgeOf_opposite_rev (d : EdgeDirection) (i : Nat) (e : Nat × W) :
    edgeOf (opposite d) i e = revEdge (edgeOf d i e) := by cases d <;> rfl

theorem opposite_opposite (d : EdgeDirection) : opposite (opposite d) = d := by cases d <;> rfl

theorem getD_map_range {β : Type} (f : Nat → β) (d : β) {n j : Nat} (hj : j < n) :
    ((List.range n).map f).getD j d = f j := by
  simp [List.getD, hj]

/-- Row `j` of the toggled network. -/
theorem row_toggle {d : EdgeDirection} {ag : List A} {n j : Nat} (hj : j < n) (E : List (Nat × Nat × W)) :
    row ({ agents := ag, neighbours := (tr n E).1, weights := (tr n E).2, direction := d } : Network A W) j =
      (E.filter (fun e => e.2.1 = j)).map fun e => (e.1, e.2.2) := by
  simp only [row, tr]
  rw [getD_map_range _ _ hj, getD_map_range _ _ hj]
  rw [List.zip_map']

theorem bind_range_filter {β γ : Type} (n : Nat) (key : β → Nat) (f : β → γ) (E : List β) (hE : ∀ e ∈ E, key e < n) :
    (Multiset.range n).bind (fun j => ((E.filter (fun e => key e = j) : List β) : Multiset β).map f) =
      ((E.map f : List γ) : Multiset γ) := by
  induction E with
  | nil => simp
  | cons a E ih =>
    have hone : ∀ (m : Nat), key a < m →
        (Multiset.range m).bind (fun j => if key a = j then ({f a} : Multiset γ) else 0) = {f a} := by
      intro m
      induction m with
      | zero => intro h; omega
      | succ m ihm =>
        intro h
        rw [Multiset.range_succ, Multiset.cons_bind]
        by_cases hk : key a = m
        · have hz : (Multiset.range m).bind (fun j => if key a = j then ({f a} : Multiset γ) else 0) = 0 := by
            rw [Multiset.bind_congr (g := fun _ => 0)]
            · simp
            · intro j hj
              have := Multiset.mem_range.mp hj
              rw [if_neg (by omega)]
          rw [hz, if_pos hk]; rfl
        · rw [if_neg hk, ihm (by omega)]; simp
    have hsplit : ∀ j, ((List.filter (fun e => decide (key e = j)) (a :: E) : List β) : Multiset β).map f =
        (if key a = j then ({f a} : Multiset γ) else 0) +
          ((E.filter (fun e => key e = j) : List β) : Multiset β).map f := by
      intro j
      by_cases hk : key a = j
      · simp [hk]
      · simp [hk]
    rw [Multiset.bind_congr (fun j _ => hsplit j), Multiset.bind_add, hone n (hE a (by simp)),
      ih (fun e he => hE e (by simp [he]))]
    rfl

theorem edges_eq_entries (N : Network A W) :
    edges N = (((entries N N.agents.length).map fun e => edgeOf N.direction e.1 (e.2.1, e.2.2) : List _) : Multiset (Nat × Nat × W)) := by
  simp only [edges, entries, List.map_flatMap, List.map_map]
  rw [← Multiset.coe_range]
  exact Multiset.coe_bind _ _

theorem entries_lt {N : Network A W} (h : WF N) (m : Nat) : ∀ e ∈ entries N m, e.2.1 < N.agents.length := by
  intro e he
  simp only [entries, List.mem_flatMap, List.mem_map] at he
  obtain ⟨i, _, x, hx, rfl⟩ := he
  exact row_lt h hx

/-- The toggled network, in closed form. -/
def toggled (N : Network A W) : Network A W :=
  { agents := N.agents, neighbours := (tr N.agents.length (entries N N.agents.length)).1,
    weights := (tr N.agents.length (entries N N.agents.length)).2, direction := opposite N.direction }

theorem toggle_eq_toggled {N : Network A W} (h : WF N) : N.toggle = .ok (toggled N) := toggle_eq h

theorem wf_toggled {N : Network A W} : WF (toggled N) where
  rows := by simp [toggled, tr]
  wrows := by simp [toggled, tr]
  lengths := by intro i h h'; simp [toggled, tr]
  range := by
    intro row hrow j hj
    simp only [toggled, tr, List.mem_map] at hrow
    obtain ⟨k, _, rfl⟩ := hrow
    simp only [List.mem_map, List.mem_filter, entries, List.mem_flatMap, List.mem_range] at hj
    obtain ⟨e, ⟨⟨i, hi, x, _, rfl⟩, _⟩, rfl⟩ := hj
    exact hi

theorem row_toggled {N : Network A W} {j : Nat} (hj : j < N.agents.length) :
    row (toggled N) j = ((entries N N.agents.length).filter (fun e => e.2.1 = j)).map fun e => (e.1, e.2.2) :=
  row_toggle hj _

theorem edges_toggled {N : Network A W} (h : WF N) : edges (toggled N) = edges N := by
  rw [edges_eq_entries N]
  have : edges (toggled N) = (Multiset.range N.agents.length).bind (fun j =>
      (((entries N N.agents.length).filter (fun e => e.2.1 = j) : List (Nat × Nat × W)) : Multiset (Nat × Nat × W)).map
        (fun e => edgeOf N.direction e.1 (e.2.1, e.2.2))) := by
    unfold edges
    apply Multiset.bind_congr
    intro j hj
    have hj' : j < N.agents.length := Multiset.mem_range.mp hj
    rw [row_toggled hj']
    simp only [Multiset.map_coe, List.map_map]
    congr 1
    apply List.map_congr_left
    intro e he
    have : e.2.1 = j := by simpa using (List.mem_filter.mp he).2
    subst this
    exact edgeOf_opposite N.direction e.1 e.2.1 e.2.2
  rw [this]
  exact bind_range_filter _ (fun e : Nat × Nat × W => e.2.1) _ _ (entries_lt h _)

theorem edges_switch (N : Network A W) : edges N.switchDirectionFlag = (edges N).map revEdge := by
  unfold edges
  rw [Multiset.map_bind]
  apply Multiset.bind_congr
  intro i _
  rw [Multiset.map_map]
  have : N.switchDirectionFlag.direction = opposite N.direction := by
    simp only [Network.switchDirectionFlag, opposite]
    rfl
  rw [this]
  apply Multiset.map_congr rfl
  intro e _
  exact edgeOf_opposite_rev _ _ _

theorem entries_filter {N : Network A W} {n i : Nat} (hi : i < n) :
    (entries N n).filter (fun e => e.1 = i) = (row N i).map fun e => (i, e.1, e.2) := by
  have key : ∀ m, (entries N m).filter (fun e => e.1 = i) =
      if i < m then (row N i).map (fun e => (i, e.1, e.2)) else [] := by
    intro m
    induction m with
    | zero => simp [entries]
    | succ m ih =>
      have : entries N (m + 1) = entries N m ++ (row N m).map fun e => (m, e.1, e.2) := by
        simp [entries, List.range_succ]
      have hpos : m = i → ((row N m).map fun e => (m, e.1, e.2)).filter (fun e => e.1 = i) =
          (row N m).map fun e => (m, e.1, e.2) := by
        intro hmi
        rw [List.filter_eq_self]
        intro a ha
        obtain ⟨x, _, rfl⟩ := List.mem_map.mp ha
        simp [hmi]
      have hneg : m ≠ i → ((row N m).map fun e => (m, e.1, e.2)).filter (fun e => e.1 = i) = [] := by
        intro hmi
        rw [List.filter_eq_nil_iff]
        intro a ha
        obtain ⟨x, _, rfl⟩ := List.mem_map.mp ha
        simp [hmi]
      rw [this, List.filter_append, ih]
      by_cases h1 : i < m
      · rw [hneg (by omega)]
        simp [h1, Nat.lt_succ_of_lt h1]
      · by_cases h2 : m = i
        · rw [hpos h2]; subst h2; simp
        · rw [hneg h2]
          have : ¬ i < m + 1 := by omega
          simp [h1, this]
  rw [key n, if_pos hi]

/-- Rows after toggling twice: the entries of the row grouped by neighbour index, in increasing order. -/
theorem row_toggled_toggled {N : Network A W} {i : Nat} (hi : i < N.agents.length) :
    row (toggled (toggled N)) i =
      (List.range N.agents.length).flatMap fun j => (row N i).filter (fun e => e.1 = j) := by
  rw [row_toggled (N := toggled N) hi]
  have ha : (toggled N).agents.length = N.agents.length := rfl
  rw [ha]
  simp only [entries]
  rw [List.filter_flatMap, List.map_flatMap]
  have hcongr : ∀ (l : List Nat) (f g : Nat → List (Nat × W)), (∀ j ∈ l, f j = g j) → l.flatMap f = l.flatMap g := by
    intro l f g hfg
    induction l with
    | nil => rfl
    | cons a l ih => simp [hfg a (by simp), ih (fun j hj => hfg j (by simp [hj]))]
  apply hcongr
  intro j hj
  have hj' : j < N.agents.length := List.mem_range.mp hj
  rw [row_toggled hj']
  simp only [List.map_map, List.filter_map]
  have e0 : ((entries N N.agents.length).filter (fun e => e.2.1 = j)).filter (fun e => e.1 = i) =
      ((entries N N.agents.length).filter (fun e => e.1 = i)).filter (fun e => e.2.1 = j) := by
    rw [List.filter_filter, List.filter_filter]
    congr 1; funext e; rw [Bool.and_comm]
  have e1 : List.filter ((fun e : Nat × Nat × W => decide (e.2.1 = i)) ∘ ((fun e => (j, e.1, e.2)) ∘ fun e => (e.1, e.2.2)))
      ((entries N N.agents.length).filter (fun e => e.2.1 = j)) =
      ((row N i).filter (fun e => e.1 = j)).map (fun e => (i, e.1, e.2)) := by
    have : ((fun e : Nat × Nat × W => decide (e.2.1 = i)) ∘ ((fun e : Nat × W => (j, e.1, e.2)) ∘ fun e : Nat × Nat × W => (e.1, e.2.2)))
        = fun e => decide (e.1 = i) := by funext e; rfl
    rw [this, e0, entries_filter hi, List.filter_map]
    rfl
  rw [e1]
  rw [List.map_map]
  conv_rhs => rw [← List.map_id ((row N i).filter (fun e => e.1 = j))]
  apply List.map_congr_left
  intro e he
  have : e.1 = j := by simpa using (List.mem_filter.mp he).2
  subst this
  rfl

/-- Grouping by key: sorted. -/
theorem bucket_sorted {β : Type} (n : Nat) (key : β → Nat) (l : List β) :
    ((List.range n).flatMap fun j => l.filter (fun e => key e = j)).Pairwise (fun a b => key a ≤ key b) := by
  induction n with
  | zero => simp
  | succ n ih =>
    rw [List.range_succ, List.flatMap_append]
    simp only [List.flatMap_cons, List.flatMap_nil, List.append_nil]
    rw [List.pairwise_append]
    refine ⟨ih, ?_, ?_⟩
    · apply List.pairwise_of_forall_mem_list
      intro a ha b hb
      have h1 : key a = n := by simpa using (List.mem_filter.mp ha).2
      have h2 : key b = n := by simpa using (List.mem_filter.mp hb).2
      omega
    · intro a ha b hb
      simp only [List.mem_flatMap, List.mem_range, List.mem_filter, decide_eq_true_eq] at ha hb
      obtain ⟨j, hj, _, hk⟩ := ha
      omega

/-- Grouping by key: the elements with a given key keep their order. -/
theorem bucket_filter {β : Type} (n : Nat) (key : β → Nat) (l : List β) (hl : ∀ e ∈ l, key e < n) (k : Nat) :
    ((List.range n).flatMap fun j => l.filter (fun e => key e = j)).filter (fun e => key e = k) =
      l.filter (fun e => key e = k) := by
  have : ∀ m, ((List.range m).flatMap fun j => l.filter (fun e => key e = j)).filter (fun e => key e = k) =
      if k < m then l.filter (fun e => key e = k) else [] := by
    intro m
    induction m with
    | zero => simp
    | succ m ih =>
      rw [List.range_succ, List.flatMap_append, List.filter_append, ih]
      simp only [List.flatMap_cons, List.flatMap_nil, List.append_nil, List.filter_filter]
      by_cases h1 : k < m
      · have : l.filter (fun a => decide (key a = k) && decide (key a = m)) = [] := by
          rw [List.filter_eq_nil_iff]; intro a _; simp; omega
        simp [h1, this, Nat.lt_succ_of_lt h1]
      · by_cases h2 : k = m
        · subst h2; simp
        · have : l.filter (fun a => decide (key a = k) && decide (key a = m)) = [] := by
            rw [List.filter_eq_nil_iff]; intro a _; simp; omega
          have h3 : ¬ k < m + 1 := by omega
          simp [h1, this, h3]
  rw [this n]
  split
  · rfl
  · symm; rw [List.filter_eq_nil_iff]
    intro a ha hk
    have := hl a ha
    simp at hk; omega

theorem bucket_perm {β : Type} (n : Nat) (key : β → Nat) (l : List β) (hl : ∀ e ∈ l, key e < n) :
    ((List.range n).flatMap fun j => l.filter (fun e => key e = j)).Perm l := by
  have := bind_range_filter n key (id : β → β) l hl
  simp only [Multiset.map_id, List.map_id] at this
  rw [← Multiset.coe_eq_coe, ← this, ← Multiset.coe_range]
  exact (Multiset.coe_bind _ _).symm

end NetLemmas
end Seldon
