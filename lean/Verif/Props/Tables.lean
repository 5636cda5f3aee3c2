import Verif.Spec.Table
import Verif.Props.IO
/-!
# Property C110: the layout of the written files
-/
namespace Seldon
open Spec Text
variable {A F : Type}

namespace Tables

theorem decimal_toDigits (n : Nat) : decimal n = Nat.toDigits 10 n := by
  have key : ∀ f n, n < f → decimalAux f n = Nat.toDigits 10 n := by
    intro f
    induction f with
    | zero => intro n h; omega
    | succ f ih =>
      intro n h
      have hc : ∀ k, k < 10 → digitChar k = k.digitChar := by decide
      by_cases h10 : n < 10
      · rw [decimalAux, if_pos h10, Nat.toDigits_of_lt_base h10, hc n h10]
      · rw [decimalAux, if_neg h10, ih _ (by omega), hc _ (Nat.mod_lt _ (by decide))]
        rw [Nat.toDigits_eq_if (b := 10) (n := n) (by decide), if_neg h10]
  exact key _ _ (Nat.lt_succ_self n)

theorem fmtInt_numeral (i : Int) : fmtInt i = numeral i := by
  unfold numeral
  cases i with
  | ofNat n => rw [fmtInt, if_pos (by exact Int.natCast_nonneg n), decimal_toDigits]; rfl
  | negSucc n =>
    rw [fmtInt, if_neg (by omega), decimal_toDigits]
    congr 2

theorem decimal_plain (n : Nat) : Plain (decimal n) := by
  intro c hc
  have h := decimal_mem hc
  refine ⟨?_, h.2.2.2.2.1, h.2.2.2.2.2.1⟩
  rintro rfl
  exact absurd h.2.1 (by decide)

theorem fmtInt_plain (i : Int) : Plain (fmtInt i) := by
  cases i with
  | ofNat n => exact decimal_plain n
  | negSucc n =>
    intro c hc
    rcases List.mem_cons.mp hc with rfl | hc
    · decide
    · exact decimal_plain _ c hc

theorem trim_blanks (k : Nat) {t : List Char} (h : Plain t) : trim (List.replicate k ' ' ++ t) = t := by
  induction k with
  | zero =>
    cases t with
    | nil => rfl
    | cons c t => unfold trim; exact List.dropWhile_cons_of_neg (by simpa using (h c (by simp)).1)
  | succ k ih =>
    rw [List.replicate_succ, List.cons_append]
    unfold trim at ih ⊢
    rw [List.dropWhile_cons_of_pos (by simp), ih]

theorem trim_plain {t : List Char} (h : Plain t) : trim t = t := trim_blanks 0 h

theorem trim_pad (w : Nat) {t : List Char} (h : Plain t) : trim (padLeft w t) = t := trim_blanks _ h

theorem trim_cons (t : List Char) : trim (' ' :: t) = trim t := List.dropWhile_cons_of_pos (by simp)

theorem cells_join {cs : List (List Char)} (hne : cs ≠ []) (h : ∀ e ∈ cs, ',' ∉ e) : cells (join ',' cs) = cs.map trim := by
  rw [cells, split_join cs hne h]

theorem lines_of {ls : List (List Char)} (h : ∀ l ∈ ls, '\n' ∉ l) : lines (ls.flatMap (fun l => l ++ ['\n'])) = ls := by
  have := split_lines ls h []
  rw [List.append_nil] at this
  unfold lines
  rw [this]
  simp [split]

/-- An agent format whose texts are plain cells `c, d, ...` separated by commas and blanks. -/
structure Fields (fmt : AgentIO.Format A) (a : A) (c : List Char) (cs : List (List Char)) : Prop where
  text : fmt.toString a = join ',' (c :: cs.map (fun d => ' ' :: d))
  plain : ∀ e ∈ c :: cs, Plain e

theorem comma_of_plain {e : List Char} (h : Plain e) : ',' ∉ e := fun hm => (h _ hm).2.1 rfl
theorem blank_cons {e : List Char} {c : Char} (hc : c ≠ ' ') (h : c ∉ e) : c ∉ ' ' :: e := by
  intro hm
  rcases List.mem_cons.mp hm with hm | hm
  · exact hc hm
  · exact h hm

theorem pad_comma {w : Nat} {e : List Char} (h : Plain e) : ',' ∉ padLeft w e := by
  intro hm
  rcases mem_padLeft hm with hm | hm
  · revert hm; decide
  · exact comma_of_plain h hm

theorem cells_row {fmt : AgentIO.Format A} {a : A} {c : List Char} {cs : List (List Char)} (h : Fields fmt a c cs) (i : Nat) :
    cells (AgentIO.rowText fmt i a) = numeral i :: c :: cs := by
  have hjoin : ∀ (x : List Char) (c : List Char) (l : List (List Char)), x ++ join ',' (c :: l) = join ',' ((x ++ c) :: l) := by
    intro x c l
    cases l with
    | nil => rfl
    | cons d l => simp [join]
  have e : AgentIO.rowText fmt i a = join ',' (padLeft 5 (decimal i) ::
      (' ' :: (List.replicate (25 - (fmt.toString a).length) ' ' ++ c)) :: cs.map (fun d => ' ' :: d)) := by
    unfold AgentIO.rowText
    rw [join, show padLeft 25 (fmt.toString a) = List.replicate (25 - (fmt.toString a).length) ' ' ++ fmt.toString a from rfl]
    conv_lhs => rw [h.text, hjoin]
    rw [← List.cons_append, ← h.text]
    rw [List.cons_append, ← List.singleton_append (l := List.replicate _ _ ++ c), ← hjoin [' '], ← hjoin]
    simp
  rw [e, cells_join (by simp)]
  · have hn : numeral (i : Int) = decimal i := by rw [decimal_toDigits]; rfl
    have hc : cs.map (trim ∘ fun d => ' ' :: d) = cs := by
      conv_rhs => rw [← List.map_id cs]
      apply List.map_congr_left
      intro d hd
      rw [Function.comp, trim_cons, trim_plain (h.plain d (by simp [hd]))]; rfl
    rw [List.map_cons, List.map_cons, List.map_map, trim_pad 5 (decimal_plain i), trim_cons, trim_blanks _ (h.plain c (by simp)), hc, hn]
  · intro d hd
    rcases List.mem_cons.mp hd with rfl | hd
    · exact pad_comma (decimal_plain i)
    · rcases List.mem_cons.mp hd with rfl | hd
      · apply blank_cons (by decide)
        intro hm
        rcases List.mem_append.mp hm with hm | hm
        · have := (List.mem_replicate.mp hm).2; revert this; decide
        · exact comma_of_plain (h.plain c (by simp)) hm
      · obtain ⟨d, hd', rfl⟩ := List.mem_map.mp hd
        exact blank_cons (by decide) (comma_of_plain (h.plain d (List.mem_cons_of_mem _ hd')))

theorem fields_break {fmt : AgentIO.Format A} {a : A} {c : List Char} {cs : List (List Char)} (h : Fields fmt a c cs) :
    '\n' ∉ fmt.toString a := by
  rw [h.text]
  apply NetworkIO.join_clean (by decide)
  intro l hl
  rcases List.mem_cons.mp hl with rfl | hl
  · exact fun hm => (h.plain _ (by simp) _ hm).2.2 rfl
  · obtain ⟨d, hd, rfl⟩ := List.mem_map.mp hl
    exact blank_cons (by decide) (fun hm => (h.plain d (by simp [hd]) _ hm).2.2 rfl)

/-- The file of agents as a table. -/
theorem agents_table (fmt : AgentIO.Format A) {head : List Char} (hhead : AgentIO.header fmt = head ++ ['\n']) (hbr : '\n' ∉ head)
    (agents : List A) (fields : A → List Char × List (List Char)) (h : ∀ a ∈ agents, Fields fmt a (fields a).1 (fields a).2) :
    ∃ text, AgentIO.toFile fmt agents = .ok text ∧
      table text = cells head :: agents.mapIdx (fun i a => numeral i :: (fields a).1 :: (fields a).2) := by
  refine ⟨_, AgentIO.toFile_eq fmt agents, ?_⟩
  rw [hhead, show head ++ ['\n'] ++ (agents.mapIdx (AgentIO.rowText fmt)).flatMap (fun l => l ++ ['\n']) =
    (head :: agents.mapIdx (AgentIO.rowText fmt)).flatMap (fun l => l ++ ['\n']) by simp]
  rw [table, lines_of, List.map_cons]
  · congr 1
    apply List.ext_getElem (by simp)
    intro i hi hi'
    simp only [List.getElem_map, List.getElem_mapIdx]
    exact cells_row (h _ (List.getElem_mem _)) i
  · intro l hl
    rcases List.mem_cons.mp hl with rfl | hl
    · exact hbr
    · obtain ⟨i, hi, rfl⟩ := List.mem_mapIdx.mp hl
      exact (AgentIO.rowText_spec fmt (fields_break (h _ (List.getElem_mem _))) i).1

end Tables
open Tables

/-- A list of words as cells. -/
def Spec.words (ws : List String) : List (List Char) := ws.map String.toList

/-- C110 (DeGroot and Deffuant model): the file of agents is a table with the columns index and opinion, one row per agent, in order. -/
theorem C110_simple (T : Double F) (agents : List (SimpleAgent F)) (h : ∀ a ∈ agents, Plain (T.fmt a.opinion)) :
    ∃ text, AgentIO.toFile (AgentIO.simple T) agents = .ok text ∧
      table text = words ["# idx_agent", "opinion"] :: agents.mapIdx (fun i a => [numeral i, T.fmt a.opinion]) := by
  obtain ⟨text, h1, h2⟩ := agents_table (AgentIO.simple T) (head := "# idx_agent, opinion".toList) rfl (by decide) agents
    (fun a => (T.fmt a.opinion, [])) (fun a ha => ⟨rfl, by simpa using h a ha⟩)
  exact ⟨text, h1, h2⟩

/-- C110 (activity-driven model): index, opinion, activity, reluctance. -/
theorem C110_activity [Zero F] [One F] (T : Double F) (agents : List (ActivityAgent F))
    (h : ∀ a ∈ agents, Plain (T.fmt a.opinion) ∧ Plain (T.fmt a.activity) ∧ Plain (T.fmt a.reluctance)) :
    ∃ text, AgentIO.toFile (AgentIO.activity T) agents = .ok text ∧
      table text = words ["# idx_agent", "opinion", "activity", "reluctance"] ::
        agents.mapIdx (fun i a => [numeral i, T.fmt a.opinion, T.fmt a.activity, T.fmt a.reluctance]) := by
  obtain ⟨text, h1, h2⟩ := agents_table (AgentIO.activity T) (head := "# idx_agent, opinion, activity, reluctance".toList) rfl (by decide) agents
    (fun a => (T.fmt a.opinion, [T.fmt a.activity, T.fmt a.reluctance]))
    (fun a ha => ⟨by simp [AgentIO.activity, join], by
      intro e he
      obtain ⟨p, q, r⟩ := h a ha
      rcases List.mem_cons.mp he with rfl | he
      · exact p
      rcases List.mem_cons.mp he with rfl | he
      · exact q
      rw [List.mem_singleton.mp he]; exact r⟩)
  exact ⟨text, h1, h2⟩

/-- C110 (inertial model): index, opinion, velocity, activity, reluctance. -/
theorem C110_inertial [Zero F] [One F] (T : Double F) (agents : List (InertialAgent F))
    (h : ∀ a ∈ agents, Plain (T.fmt a.opinion) ∧ Plain (T.fmt a.velocity) ∧ Plain (T.fmt a.activity) ∧ Plain (T.fmt a.reluctance)) :
    ∃ text, AgentIO.toFile (AgentIO.inertial T) agents = .ok text ∧
      table text = words ["# idx_agent", "opinion", "velocity", "activity", "reluctance"] ::
        agents.mapIdx (fun i a => [numeral i, T.fmt a.opinion, T.fmt a.velocity, T.fmt a.activity, T.fmt a.reluctance]) := by
  obtain ⟨text, h1, h2⟩ := agents_table (AgentIO.inertial T) (head := "# idx_agent, opinion, velocity, activity, reluctance".toList) rfl
    (by decide) agents
    (fun a => (T.fmt a.opinion, [T.fmt a.velocity, T.fmt a.activity, T.fmt a.reluctance]))
    (fun a ha => ⟨by simp [AgentIO.inertial, join], by
      intro e he
      obtain ⟨p, q, r, s⟩ := h a ha
      rcases List.mem_cons.mp he with rfl | he
      · exact p
      rcases List.mem_cons.mp he with rfl | he
      · exact q
      rcases List.mem_cons.mp he with rfl | he
      · exact r
      rw [List.mem_singleton.mp he]; exact s⟩)
  exact ⟨text, h1, h2⟩

/-- C110 (vector Deffuant model): index and all binary opinions; an agent without opinions has one empty cell. -/
theorem C110_vector (agents : List DiscreteVectorAgent) :
    ∃ text, AgentIO.toFile AgentIO.vector agents = .ok text ∧
      table text = words ["# idx_agent", "agent_data[...]"] ::
        agents.mapIdx (fun i a => numeral i :: (if a.opinion = [] then [[]] else a.opinion.map numeral)) := by
  obtain ⟨text, h1, h2⟩ := agents_table AgentIO.vector (head := "# idx_agent, agent_data[...]".toList) rfl (by decide) agents
    (fun a => match a.opinion with | [] => ([], []) | x :: xs => (fmtInt x, xs.map fmtInt))
    (by
      rintro ⟨op⟩ -
      cases op with
      | nil => exact ⟨rfl, by simp [Plain]⟩
      | cons x xs =>
        refine ⟨?_, ?_⟩
        · exact AgentIO.vectorToString_eq x xs |>.trans (by simp [List.map_map, Function.comp_def])
        · intro e he
          rcases List.mem_cons.mp he with rfl | he
          · exact fmtInt_plain x
          · obtain ⟨y, _, rfl⟩ := List.mem_map.mp he
            exact fmtInt_plain y)
  refine ⟨text, h1, h2.trans ?_⟩
  congr 1
  apply List.ext_getElem (by simp)
  intro i hi hi'
  simp only [List.getElem_mapIdx]
  congr 1
  generalize agents[i]'(by simpa using hi) = a
  rcases a with ⟨op⟩
  cases op with
  | nil => rfl
  | cons x xs =>
    simp only [reduceCtorEq, if_false, List.map_cons, fmtInt_numeral]
    congr 1
    exact List.map_congr_left (fun y _ => fmtInt_numeral y)

/-- C110 (network): the file of the network is a table with one row per agent, in order: index, number of neighbours, the neighbours, the weights. -/
theorem C110_network (T : Double F) {N : Network A F} (hwf : WF N) (hn : N.agents.length < 2 ^ 64 - 1)
    (hrow : ∀ row ∈ N.neighbours, row.length < 2 ^ 64 - 1) (hw : ∀ ws ∈ N.weights, ∀ w ∈ ws, Plain (T.fmt w)) :
    ∃ text, NetworkIO.toFile T N = .ok text ∧
      table text = words ["# idx_agent", "n_neighbours_in", "indices_neighbours_in[...]", "weights_in[...]"] ::
        (List.range N.agents.length).map (fun i : Nat => numeral i :: numeral (N.neighbours.getD i []).length ::
          ((N.neighbours.getD i []).map (fun j : Nat => numeral j) ++ (N.weights.getD i []).map T.fmt)) := by
  have hnum : ∀ k : Nat, numeral (k : Int) = decimal k := by intro k; rw [decimal_toDigits]; rfl
  have hcols : ∀ i ns (ws : List F), (∀ w ∈ ws, Plain (T.fmt w)) →
      (∀ e ∈ NetworkIO.rowColumns T i ns ws, ',' ∉ e ∧ '\n' ∉ e) ∧
      (NetworkIO.rowColumns T i ns ws).map trim = numeral i :: numeral ns.length :: (ns.map (fun j : Nat => numeral j) ++ ws.map T.fmt) := by
    intro i ns ws hws
    have hp : ∀ (w : Nat) {t : List Char}, Plain t → ',' ∉ padLeft w t ∧ '\n' ∉ padLeft w t := by
      intro w t ht
      refine ⟨pad_comma ht, fun hm => ?_⟩
      rcases mem_padLeft hm with hm | hm
      · revert hm; decide
      · exact (ht _ hm).2.2 rfl
    have hb : ∀ (w : Nat) {t : List Char}, Plain t → ',' ∉ ' ' :: padLeft w t ∧ '\n' ∉ ' ' :: padLeft w t :=
      fun w t ht => ⟨blank_cons (by decide) (hp w ht).1, blank_cons (by decide) (hp w ht).2⟩
    constructor
    · intro e he
      unfold NetworkIO.rowColumns at he
      rcases List.mem_cons.mp he with rfl | he
      · exact hp 5 (decimal_plain i)
      rcases List.mem_cons.mp he with rfl | he
      · exact hb 5 (decimal_plain _)
      rcases List.mem_append.mp he with he | he
      · obtain ⟨j, _, rfl⟩ := List.mem_map.mp he
        exact hb 5 (decimal_plain j)
      · obtain ⟨w, hwm, rfl⟩ := List.mem_map.mp he
        exact hb 25 (hws w hwm)
    · unfold NetworkIO.rowColumns
      rw [List.map_cons, List.map_cons, List.map_append, List.map_map, List.map_map, trim_pad 5 (decimal_plain i), trim_cons,
        trim_pad 5 (decimal_plain _), hnum, hnum]
      congr 3
      · apply List.map_congr_left
        intro j _
        rw [Function.comp, trim_cons, trim_pad 5 (decimal_plain j), hnum]
      · apply List.map_congr_left
        intro w hwm
        rw [Function.comp, trim_cons, trim_pad 25 (hws w hwm)]
  have hwi : ∀ i, ∀ w ∈ N.weights.getD i [], Plain (T.fmt w) := by
    intro i w hwm
    by_cases hi : i < N.weights.length
    · rw [getD_lt _ _ hi] at hwm
      exact hw _ (List.getElem_mem hi) w hwm
    · rw [List.getD_eq_getElem?_getD, List.getElem?_eq_none (by omega)] at hwm
      cases hwm
  obtain ⟨tail, ht, _, h⟩ := NetworkIO.toFile_eq T hwf (by rw [npos_eq]; exact hn) (fun i hi => by
    have h1 : i < N.neighbours.length := by rw [hwf.rows]; exact hi
    rw [npos_eq, getD_lt _ _ h1]
    exact hrow _ (List.getElem_mem h1))
  refine ⟨_, h, ?_⟩
  have hclean : ∀ l ∈ NetworkIO.linesOf T N N.agents.length, '\n' ∉ l := by
    intro l hl
    obtain ⟨i, _, rfl⟩ := List.mem_map.mp hl
    exact NetworkIO.join_clean (by decide) _ (fun e he => ((hcols i _ _ (hwi i)).1 e he).2)
  have hne : ∀ l ∈ NetworkIO.linesOf T N N.agents.length, l ≠ [] := by
    intro l hl
    obtain ⟨i, _, rfl⟩ := List.mem_map.mp hl
    unfold NetworkIO.lineText NetworkIO.rowColumns
    rw [join]
    intro h0
    have := (List.append_eq_nil_iff.mp h0).2
    cases this
  have hlines : lines (NetworkIO.header.dropLast ++ (NetworkIO.linesOf T N N.agents.length).flatMap (fun l => '\n' :: l) ++ tail) =
      NetworkIO.header.dropLast :: NetworkIO.linesOf T N N.agents.length := by
    generalize NetworkIO.linesOf T N N.agents.length = ls at hclean hne
    have hbr : '\n' ∉ NetworkIO.header.dropLast := by decide
    have hhd : NetworkIO.header.dropLast ≠ [] := by decide
    generalize NetworkIO.header.dropLast = hd at hbr hhd
    have hshift := NetworkIO.flatMap_shift '\n' hd ls
    rcases ht with rfl | rfl
    · -- no line break at the end
      have hj : ∀ (ls : List (List Char)) (hd : List Char), hd ++ ls.flatMap (fun l => '\n' :: l) = join '\n' (hd :: ls) := by
        intro ls
        induction ls with
        | nil => intro hd; simp [join]
        | cons l ls ih => intro hd; rw [join, ← ih l]; simp
      rw [List.append_nil, hj, lines, split_join _ (by simp) (by
        intro l hl
        rcases List.mem_cons.mp hl with rfl | hl
        · exact hbr
        · exact hclean l hl), if_neg]
      rw [List.getLast?_eq_some_getLast (by simp)]
      intro hh
      have hm := List.getLast_mem (l := hd :: ls) (by simp)
      rw [Option.some.inj hh] at hm
      rcases List.mem_cons.mp hm with hm | hm
      · exact hhd hm.symm
      · exact hne _ hm rfl
    · have : hd ++ ls.flatMap (fun l => '\n' :: l) ++ ['\n'] = (hd :: ls).flatMap (fun l => l ++ ['\n']) := by
        have hj : ∀ (ls : List (List Char)) (hd : List Char),
            hd ++ ls.flatMap (fun l => '\n' :: l) ++ ['\n'] = (hd :: ls).flatMap (fun l => l ++ ['\n']) := by
          intro ls
          induction ls with
          | nil => intro hd; simp
          | cons l ls ih => intro hd; rw [List.flatMap_cons (x := hd), ← ih l]; simp
        exact hj ls hd
      rw [this, lines_of]
      intro l hl
      rcases List.mem_cons.mp hl with rfl | hl
      · exact hbr
      · exact hclean l hl
  rw [table, hlines, List.map_cons]
  congr 1
  unfold NetworkIO.linesOf
  rw [List.map_map]
  apply List.map_congr_left
  intro i _
  rw [Function.comp, NetworkIO.lineText, cells_join (by unfold NetworkIO.rowColumns; simp) (fun e he => ((hcols i _ _ (hwi i)).1 e he).1)]
  exact (hcols i _ _ (hwi i)).2

/-- A file of agents and a network file as they are written: the hypotheses hold for integers as numbers. -/
example : ∀ i : Int, Plain (intText.fmt i) := fmtInt_plain

example : (AgentIO.toFile (AgentIO.inertial intText) [⟨5, 6, 7, -8⟩]).map (fun t => table t) =
    .ok [words ["# idx_agent", "opinion", "velocity", "activity", "reluctance"], words ["0", "5", "-8", "6", "7"]] := by
  decide +kernel

example : (NetworkIO.toFile intText ioNet).map (fun t => table t) = .ok
    [words ["# idx_agent", "n_neighbours_in", "indices_neighbours_in[...]", "weights_in[...]"],
      words ["0", "2", "2", "1", "10", "-3"], words ["1", "0"], words ["2", "1", "0", "7"]] := by
  decide +kernel

end Seldon
