import Verif.Lemmas.AgentIO
import Verif.Lemmas.Network
import Verif.Model.NetworkIO
/-!
# Helper lemmas about network files
-/
namespace Seldon
open Spec Text
namespace NetworkIO
variable {A F : Type}

/-- The column loop in closed form. -/
theorem columns_aux (T : Double F) {line : List Char} (hlen : line.length < npos) :
    ∀ (es : List (List Char)) (fuel start : Nat) (c : Columns F), es ≠ [] → (∀ e ∈ es, ',' ∉ e) → es.length ≤ fuel →
      start ≤ line.length → line.drop start = join ',' es → columns T line fuel start c = each (column T) es c := by
  intro es
  induction es with
  | nil => intro _ _ _ h; exact absurd rfl h
  | cons e es ih =>
    intro fuel start c _ hcl hf hst hd
    obtain ⟨fuel, rfl⟩ : ∃ f, fuel = f + 1 := ⟨fuel - 1, by simp at hf; omega⟩
    have he : ',' ∉ e := hcl e (by simp)
    rw [npos_eq] at hlen
    cases es with
    | nil =>
      simp only [join] at hd
      have hfind : find line ',' start = npos := find_none (by rw [hd]; exact he)
      have hll : e.length ≤ npos - start := by
        have := congrArg List.length hd
        simp at this; rw [npos_eq]; omega
      have hsub : substr line start (subSz npos start) = .ok e := by
        rw [substr_le hst, subSz_of_le (by rw [npos_eq]; omega) (by rw [npos_eq]; omega), hd, List.take_of_length_le hll]
      simp only [columns, hfind, hsub, Res.bind_ok, if_true, each]
    | cons e' es =>
      rw [join] at hd
      have hfind : find line ',' start = start + e.length := find_some hd he
      have hle := drop_eq_length hd
      have hne : ¬ (start + e.length = npos) := by rw [npos_eq]; omega
      have hsub : substr line start (subSz (start + e.length) start) = .ok e := by
        rw [substr_le hst, subSz_of_le (by omega) (by omega), hd]
        simp
      have hadd : addSz (start + e.length) 1 = start + e.length + 1 := addSz_of_lt (by omega)
      simp only [columns, hfind, hsub, Res.bind_ok, hne, if_false, hadd]
      rw [each]
      cases column T e c with
      | error err => rfl
      | ok c' =>
        exact ih fuel (start + e.length + 1) c' (by simp) (fun x hx => hcl x (by simp [hx])) (by simp at hf ⊢; omega) hle (drop_next hd)

theorem columns_eq (T : Double F) {line : List Char} (hlen : line.length < npos) (c : Columns F) :
    columns T line (line.length + 1) 0 c = each (column T) (split ',' line) c :=
  columns_aux T hlen _ _ 0 c (split_ne_nil _ _) (split_clean _ _) (split_length_le _ _) (Nat.zero_le _)
    (by rw [List.drop_zero, join_split])

/-- One data line: its columns, in order. -/
def rowOf (T : Double F) (line : List Char) : Res (List Nat × List F) := do
  let c ← each (column T) (split ',' line) { ns := [], ws := [], idx := 0, n := 0 }
  .ok (c.ns, c.ws)

theorem parseLine_eq (T : Double F) (line : List Char) (e : Nat) (s : List (List Nat) × List (List F)) (_h1 : line.length ≤ e)
    (h2 : line.length < npos) :
    parseLine T line e s = (do
      let r ← rowOf T line
      .ok (s.1 ++ [r.1], s.2 ++ [r.2])) := by
  unfold parseLine rowOf
  rw [columns_eq T h2]
  cases each (column T) (split ',' line) { ns := [], ws := [], idx := 0, n := 0 } <;> rfl

theorem fromFile_eq [Inhabited A] (T : Double F) {contents : List Char} (h : contents.length < npos) :
    fromFile (A := A) T contents = (do
      let s ← each (fun line (s : List (List Nat) × List (List F)) => do
        let r ← rowOf T line
        .ok (s.1 ++ [r.1], s.2 ++ [r.2])) (dataLines contents) ([], [])
      .ok (Network.ofLists s.1 s.2 .incoming)) := by
  unfold fromFile
  rw [readLines_eq h (parseLine_eq T)]

/-! ## writer -/

/-- The columns written for one agent. -/
def rowColumns (T : Double F) (i : Nat) (ns : List Nat) (ws : List F) : List (List Char) :=
  padLeft 5 (decimal i) :: (' ' :: padLeft 5 (decimal ns.length)) ::
    (ns.map (fun j => ' ' :: padLeft 5 (decimal j)) ++ ws.map (fun w => ' ' :: padLeft 25 (T.fmt w)))

theorem weightsText_eq (T : Double F) (last : Bool) (ws : List F) (row : List Char) (hne : ws ≠ []) (hlen : ws.length < npos) :
    weightsText T last ws row = .ok (row ++ (join ',' (ws.map (fun w => ' ' :: padLeft 25 (T.fmt w)))).tail ++
      (if last then [] else ['\n'])) := by
  -- state after k rounds
  have hsz : subSz ws.length 1 = ws.length - 1 := by
    rw [npos_eq] at hlen
    have : 0 < ws.length := List.length_pos_iff.mpr hne
    exact subSz_of_le (by omega) (by omega)
  have key : ∀ (m : Nat), m < ws.length → loop m (fun k row => do
      let w ← rd ws k
      if k = subSz ws.length 1 then
        if last then .ok (row ++ padLeft 25 (T.fmt w)) else .ok (row ++ padLeft 25 (T.fmt w) ++ "\n".toList)
      else .ok (row ++ padLeft 25 (T.fmt w) ++ ", ".toList)) row =
      .ok (row ++ (ws.take m).flatMap (fun w => padLeft 25 (T.fmt w) ++ [',', ' '])) := by
    intro m
    induction m with
    | zero => intro _; simp
    | succ m ih =>
      intro hm
      rw [loop_succ, ih (by omega), Res.bind_ok, rd_lt (by omega), Res.bind_ok, hsz, if_neg (by omega)]
      rw [List.take_succ_eq_append_getElem (by omega), List.flatMap_append]
      simp
  have hjoin : ∀ (us : List F) (u : F), (join ',' ((us ++ [u]).map (fun w => ' ' :: padLeft 25 (T.fmt w)))).tail =
      us.flatMap (fun w => padLeft 25 (T.fmt w) ++ [',', ' ']) ++ padLeft 25 (T.fmt u) := by
    intro us
    induction us with
    | nil => intro u; simp [join]
    | cons v vs ih =>
      intro u
      have := ih u
      cases hv : (vs ++ [u]).map (fun w => ' ' :: padLeft 25 (T.fmt w)) with
      | nil => simp at hv
      | cons x xs =>
        have hx : ∃ x', x = ' ' :: x' := by
          have : x ∈ (vs ++ [u]).map (fun w => ' ' :: padLeft 25 (T.fmt w)) := by rw [hv]; simp
          obtain ⟨w, _, rfl⟩ := List.mem_map.mp this
          exact ⟨_, rfl⟩
        obtain ⟨x', rfl⟩ := hx
        rw [hv] at this
        rw [List.cons_append, List.map_cons, hv, join]
        simp only [List.cons_append, List.tail_cons, List.flatMap_cons, List.append_assoc]
        rw [← this]
        cases xs with
        | nil => simp [join]
        | cons y ys => simp [join]
  have hpos : 0 < ws.length := List.length_pos_iff.mpr hne
  unfold weightsText
  obtain ⟨m, hm⟩ : ∃ m, ws.length = m + 1 := ⟨ws.length - 1, by omega⟩
  have hk := key m (by omega)
  rw [hm] at hk hsz ⊢
  rw [loop_succ, hk, Res.bind_ok, rd_lt (by omega), Res.bind_ok, hsz, if_pos (by omega)]
  have hsplit : ws = ws.take m ++ [ws[m]'(by omega)] := by
    rw [← List.take_succ_eq_append_getElem (by omega), ← hm, List.take_length]
  have hj := hjoin (ws.take m) (ws[m]'(by omega))
  rw [← hsplit] at hj
  rw [hj]
  cases last <;> simp

theorem networkRow_eq (T : Double F) (n i : Nat) (ns : List Nat) (ws : List F) (hl : ws.length = ns.length) (hlen : ws.length < npos) :
    networkRow T n i ns ws = .ok (join ',' (rowColumns T i ns ws) ++
      (if ns ≠ [] ∧ i = subSz n 1 then [] else ['\n'])) := by
  unfold networkRow
  by_cases hn : ns = []
  · have hw : ws = [] := by rw [hn] at hl; exact List.eq_nil_of_length_eq_zero hl
    simp [hn, hw, rowColumns, join, weightsText]
  · have hw : ws ≠ [] := by intro h; rw [h] at hl; exact hn (List.eq_nil_of_length_eq_zero hl.symm)
    simp only [hn, if_false]
    rw [weightsText_eq T _ ws _ hw hlen]
    congr 1
    have e1 : (decide (i = subSz n 1) = true) ↔ (ns ≠ [] ∧ i = subSz n 1) := by simp [hn]
    have e2 : (if (decide (i = subSz n 1)) = true then ([] : List Char) else ['\n']) =
        (if ns ≠ [] ∧ i = subSz n 1 then [] else ['\n']) := by
      by_cases h : i = subSz n 1 <;> simp [h, hn]
    rw [e2]
    congr 1
    have hmap : ∀ (ms : List Nat) (us : List (List Char)), us ≠ [] → (∀ u ∈ us, ∃ u', u = ' ' :: u') →
        join ',' (ms.map (fun j => ' ' :: padLeft 5 (decimal j)) ++ us) =
        ' ' :: (ms.flatMap (fun j => padLeft 5 (decimal j) ++ ", ".toList) ++ (join ',' us).tail) := by
      intro ms
      induction ms with
      | nil =>
        intro us hne hsp
        obtain ⟨u, us, rfl⟩ := List.exists_cons_of_ne_nil hne
        obtain ⟨u', rfl⟩ := hsp u (by simp)
        cases us <;> simp [join]
      | cons m ms ih =>
        intro us hne hsp
        rw [List.map_cons, List.cons_append]
        have h := ih us hne hsp
        obtain ⟨v, vs, hv⟩ := List.exists_cons_of_ne_nil (l := ms.map (fun j => ' ' :: padLeft 5 (decimal j)) ++ us) (by simp [hne])
        rw [hv] at h ⊢
        rw [join, h]
        simp
    have hws : ∀ u ∈ ws.map (fun w => ' ' :: padLeft 25 (T.fmt w)), ∃ u', u = ' ' :: u' := by
      intro u hu
      obtain ⟨w, _, rfl⟩ := List.mem_map.mp hu
      exact ⟨_, rfl⟩
    have h := hmap ns (ws.map (fun w => ' ' :: padLeft 25 (T.fmt w))) (by simpa using hw) hws
    unfold rowColumns
    obtain ⟨v, vs, hv⟩ := List.exists_cons_of_ne_nil
      (l := ns.map (fun j => ' ' :: padLeft 5 (decimal j)) ++ ws.map (fun w => ' ' :: padLeft 25 (T.fmt w))) (by simp [hw])
    rw [hv] at h ⊢
    rw [join, join, h]
    simp

/-- What is needed for one row to survive. -/
structure RowOk (T : Double F) (ns : List Nat) (ws : List F) : Prop where
  lengths : ws.length = ns.length
  small : ns.length < 2 ^ 31
  ns : ∀ j ∈ ns, j < 2 ^ 31
  ws : ∀ w ∈ ws, T.Survives w

theorem rowColumns_clean {T : Double F} {ns : List Nat} {ws : List F} (h : RowOk T ns ws) (i : Nat) :
    ∀ e ∈ rowColumns T i ns ws, ∀ c ∈ e, c ≠ ',' ∧ c ≠ '\n' := by
  have hd : ∀ (w n : Nat) (c : Char), c ∈ padLeft w (decimal n) → c ≠ ',' ∧ c ≠ '\n' := by
    intro w n c hc
    rcases mem_padLeft hc with rfl | hc
    · decide
    · have := decimal_mem hc; tauto
  have hb : ∀ (s : List Char), (∀ c ∈ s, c ≠ ',' ∧ c ≠ '\n') → ∀ c ∈ (' ' :: s), c ≠ ',' ∧ c ≠ '\n' := by
    intro s hs c hc
    rcases List.mem_cons.mp hc with rfl | hc
    · decide
    · exact hs c hc
  intro e he
  unfold rowColumns at he
  rcases List.mem_cons.mp he with rfl | he
  · exact hd 5 i
  rcases List.mem_cons.mp he with rfl | he
  · exact hb _ (hd 5 _)
  rcases List.mem_append.mp he with he | he
  · obtain ⟨j, _, rfl⟩ := List.mem_map.mp he
    exact hb _ (hd 5 _)
  · obtain ⟨w, hw, rfl⟩ := List.mem_map.mp he
    apply hb
    intro c hc
    rcases mem_padLeft hc with rfl | hc
    · decide
    · exact (h.ws w hw).clean c hc

theorem join_clean {c : Char} (hc : c ≠ ',') : ∀ (ls : List (List Char)), (∀ l ∈ ls, c ∉ l) → c ∉ join ',' ls := by
  intro ls
  induction ls with
  | nil => intro _; simp [join]
  | cons l ls ih =>
    intro h
    cases ls with
    | nil => exact h l (by simp)
    | cons l' ls =>
      intro hm
      rw [join] at hm
      rcases List.mem_append.mp hm with hm | hm
      · exact h l (by simp) hm
      · rcases List.mem_cons.mp hm with hm | hm
        · exact hc hm
        · exact ih (fun x hx => h x (by simp [hx])) hm

/-- The line written for one agent. -/
def lineText (T : Double F) (i : Nat) (ns : List Nat) (ws : List F) : List Char := join ',' (rowColumns T i ns ws)

theorem lineText_spec {T : Double F} {ns : List Nat} {ws : List F} (h : RowOk T ns ws) (i : Nat) :
    '\n' ∉ lineText T i ns ws ∧ lineText T i ns ws ≠ [] ∧ (lineText T i ns ws).head? ≠ some '#' := by
  refine ⟨join_clean (by decide) _ (fun l hl hm => (rowColumns_clean h i l hl _ hm).2 rfl), ?_⟩
  have hp : ∀ c ∈ padLeft 5 (decimal i), c ≠ '#' := by
    intro c hc
    rcases mem_padLeft hc with rfl | hc
    · decide
    · have := decimal_mem hc; tauto
  have hne : padLeft 5 (decimal i) ≠ [] := by
    unfold padLeft
    intro h
    exact decimal_ne i (List.append_eq_nil_iff.mp h).2
  obtain ⟨c, cs, hc⟩ := List.exists_cons_of_ne_nil hne
  have := hp c (by rw [hc]; simp)
  unfold lineText rowColumns
  rw [join, hc]
  simpa using this

theorem each_ns (T : Double F) : ∀ (ns ns0 : List Nat) (ws0 : List F) (n : Nat), (∀ j ∈ ns, j < 2 ^ 31) →
    ns0.length + ns.length ≤ n → n < 2 ^ 31 →
    each (column T) (ns.map (fun j => ' ' :: padLeft 5 (decimal j))) { ns := ns0, ws := ws0, idx := 2 + ns0.length, n := n } =
      .ok { ns := ns0 ++ ns, ws := ws0, idx := 2 + (ns0 ++ ns).length, n := n } := by
  intro ns
  induction ns with
  | nil => intro ns0 ws0 n _ _ _; simp [each]
  | cons j ns ih =>
    intro ns0 ws0 n hr hle hn
    have hadd : addSz 2 n = 2 + n := addSz_of_lt (by omega)
    have hj := hr j (by simp)
    simp only [List.length_cons] at hle
    have h1 : ¬ (2 + ns0.length = 1) := by omega
    have h2 : 2 + ns0.length ≥ 2 ∧ 2 + ns0.length < 2 + n := by omega
    have hcol : column T (' ' :: padLeft 5 (decimal j)) { ns := ns0, ws := ws0, idx := 2 + ns0.length, n := n } =
        .ok { ns := ns0 ++ [j], ws := ws0, idx := 2 + (ns0 ++ [j]).length, n := n } := by
      simp only [column, h1, if_false, hadd, h2, and_self, if_true, stoi_blank, stoi_padLeft, stoi_decimal hj, Res.bind_ok,
        toSize_nat (show j < 2 ^ 64 by omega), List.length_append, List.length_singleton]
      rfl
    simp only [List.map_cons, each, hcol, Res.bind_ok]
    rw [ih (ns0 ++ [j]) ws0 n (fun x hx => hr x (by simp [hx])) (by simp; omega) hn]
    simp

theorem each_ws {T : Double F} (hT : T.Lawful) (ns : List Nat) (hn : ns.length < 2 ^ 31) :
    ∀ (ws ws0 : List F) (idx : Nat), (∀ w ∈ ws, T.Survives w) → 2 + ns.length ≤ idx →
    each (column T) (ws.map (fun w => ' ' :: padLeft 25 (T.fmt w))) { ns := ns, ws := ws0, idx := idx, n := ns.length } =
      .ok { ns := ns, ws := ws0 ++ ws, idx := idx + ws.length, n := ns.length } := by
  intro ws
  induction ws with
  | nil => intro ws0 idx _ _; simp [each]
  | cons w ws ih =>
    intro ws0 idx hs hidx
    have hadd : addSz 2 ns.length = 2 + ns.length := addSz_of_lt (by omega)
    have h1 : ¬ (idx = 1) := by omega
    have h2 : ¬ (idx ≥ 2 ∧ idx < 2 + ns.length) := by omega
    have h3 : idx ≥ 2 + ns.length := hidx
    have hst : T.stod (' ' :: padLeft 25 (T.fmt w)) = .ok w := by
      rw [hT.blank]; unfold padLeft; rw [hT.pad]; exact (hs w (by simp)).read
    have hcol : column T (' ' :: padLeft 25 (T.fmt w)) { ns := ns, ws := ws0, idx := idx, n := ns.length } =
        .ok { ns := ns, ws := ws0 ++ [w], idx := idx + 1, n := ns.length } := by
      simp only [column, h1, if_false, hadd, h2, h3, if_true, hst, Res.bind_ok]
    simp only [List.map_cons, each, hcol, Res.bind_ok]
    rw [ih (ws0 ++ [w]) (idx + 1) (fun x hx => hs x (by simp [hx])) (by omega)]
    simp [Nat.add_comm, Nat.add_left_comm]

theorem rowOf_lineText {T : Double F} (hT : T.Lawful) {ns : List Nat} {ws : List F} (h : RowOk T ns ws) (i : Nat) :
    rowOf T (lineText T i ns ws) = .ok (ns, ws) := by
  unfold rowOf lineText
  rw [split_join _ (by simp [rowColumns]) (fun l hl hm => (rowColumns_clean h i l hl _ hm).1 rfl)]
  have h0 : column T (padLeft 5 (decimal i)) { ns := [], ws := ([] : List F), idx := 0, n := 0 } =
      .ok { ns := [], ws := [], idx := 1, n := 0 } := by
    simp [column, addSz]
  have h1 : column T (' ' :: padLeft 5 (decimal ns.length)) { ns := [], ws := ([] : List F), idx := 1, n := 0 } =
      .ok { ns := [], ws := [], idx := 2, n := ns.length } := by
    simp only [column, if_true, stoi_blank, stoi_padLeft, stoi_decimal h.small, Res.bind_ok,
      toSize_nat (show ns.length < 2 ^ 64 by have := h.small; omega)]
  have h2 := each_ns T ns [] ([] : List F) ns.length h.ns (by simp) h.small
  have h3 := each_ws hT ns h.small ws [] (2 + ns.length) h.ws (by omega)
  simp only [List.length_nil, Nat.add_zero, List.nil_append] at h2 h3
  simp only [rowColumns, each, h0, h1, Res.bind_ok, each_append, h2, h3]

/-! ## whole files -/

/-- All rows of a network with their indices. -/
def rowsOf (N : Network A F) : List (List Nat × List F) :=
  (List.range N.agents.length).map fun i => (N.neighbours.getD i [], N.weights.getD i [])

/-- The lines written for a network. -/
def linesOf (T : Double F) (N : Network A F) (m : Nat) : List (List Char) :=
  (List.range m).map fun i => lineText T i (N.neighbours.getD i []) (N.weights.getD i [])

theorem toFile_eq (T : Double F) {N : Network A F} (hwf : WF N) (hn : N.agents.length < npos)
    (hrow : ∀ i, i < N.agents.length → (N.neighbours.getD i []).length < npos) :
    ∃ tail, (tail = [] ∨ tail = ['\n']) ∧ (N.agents.length = 0 → tail = ['\n']) ∧
      toFile T N = .ok (header.dropLast ++ (linesOf T N N.agents.length).flatMap (fun l => '\n' :: l) ++ tail) := by
  have hrows : ∀ i, i < N.agents.length → i < N.neighbours.length ∧ i < N.weights.length :=
    fun i hi => ⟨by rw [hwf.rows]; exact hi, by rw [hwf.wrows]; exact hi⟩
  have hnl : ∀ i, i < N.agents.length → networkRow T N.agents.length i (N.neighbours.getD i []) (N.weights.getD i []) =
      .ok (lineText T i (N.neighbours.getD i []) (N.weights.getD i []) ++
        (if N.neighbours.getD i [] ≠ [] ∧ i = subSz N.agents.length 1 then [] else ['\n'])) := by
    intro i hi
    exact networkRow_eq T _ i _ _ (NetLemmas.WF.row_len hwf hi) (by rw [NetLemmas.WF.row_len hwf hi]; exact hrow i hi)
  rw [npos_eq] at hn
  have step : ∀ m, m < N.agents.length → toFile T N = toFile T N → loop m (fun i s => do
      let ns ← N.getNeighbours i
      let ws ← N.getWeights i
      let row ← networkRow T N.nAgents i ns ws
      .ok (s ++ row)) header = .ok (header.dropLast ++ (linesOf T N m).flatMap (fun l => '\n' :: l) ++ ['\n']) := by
    intro m
    induction m with
    | zero => intro _ _; simp [linesOf]; rfl
    | succ m ih =>
      intro hm _
      have hsz : subSz N.agents.length 1 = N.agents.length - 1 := subSz_of_le (by omega) (by omega)
      rw [loop_succ, ih (by omega) rfl, Res.bind_ok, Network.getNeighbours, rd_getD [] (hrows m (by omega)).1, Res.bind_ok,
        Network.getWeights, rd_getD [] (hrows m (by omega)).2, Res.bind_ok]
      unfold Network.nAgents
      rw [hnl m (by omega), Res.bind_ok, if_neg (by rw [hsz]; omega)]
      simp [linesOf, List.range_succ]
  rcases Nat.eq_zero_or_pos N.agents.length with h0 | hpos
  · refine ⟨['\n'], Or.inr rfl, fun _ => rfl, ?_⟩
    unfold toFile Network.nAgents
    rw [h0]
    simp [linesOf]
    rfl
  · obtain ⟨m, hm⟩ : ∃ m, N.agents.length = m + 1 := ⟨N.agents.length - 1, by omega⟩
    refine ⟨if N.neighbours.getD m [] ≠ [] ∧ m = subSz N.agents.length 1 then [] else ['\n'], by split <;> simp, by omega, ?_⟩
    have hs := step m (by omega) rfl
    unfold toFile
    unfold Network.nAgents at hs ⊢
    conv_lhs => rw [hm]
    rw [hm] at hs
    rw [loop_succ, hs, Res.bind_ok, Network.getNeighbours, rd_getD [] (hrows m (by omega)).1, Res.bind_ok,
        Network.getWeights, rd_getD [] (hrows m (by omega)).2, Res.bind_ok]
    have hnl' := hnl m (by omega)
    rw [hm] at hnl' ⊢
    rw [hnl', Res.bind_ok]
    simp [linesOf, List.range_succ]

theorem flatMap_shift (c : Char) : ∀ (h : List Char) (ls : List (List Char)),
    h ++ ls.flatMap (fun l => c :: l) = join c (h :: ls) := by
  intro h ls
  induction ls generalizing h with
  | nil => simp [join]
  | cons l ls ih => rw [join, ← ih l]; simp

theorem dataLines_net {hdr : List Char} (hh : '\n' ∉ ('#' :: hdr)) {ls : List (List Char)}
    (h : ∀ l ∈ ls, '\n' ∉ l ∧ l ≠ [] ∧ l.head? ≠ some '#') {tail : List Char} (ht : tail = [] ∨ tail = ['\n']) :
    dataLines (('#' :: hdr) ++ ls.flatMap (fun l => '\n' :: l) ++ tail) = ls := by
  have hcl : ∀ l ∈ ('#' :: hdr) :: ls, '\n' ∉ l := by
    intro l hl
    rcases List.mem_cons.mp hl with rfl | hl
    · exact hh
    · exact (h l hl).1
  have hfin : ∀ rest : List (List Char), (rest = [] ∨ rest = [[]]) →
      ((('#' :: hdr) :: (ls ++ rest)).takeWhile (fun l => l ≠ [])).filter (fun l => l.head? ≠ some '#') = ls := by
    intro rest hr
    rw [List.takeWhile_cons_of_pos (by simp), List.filter_cons_of_neg (by simp)]
    rw [List.takeWhile_append_of_pos (by intro l hl; simpa using (h l hl).2.1)]
    have : rest.takeWhile (fun l => decide (l ≠ [])) = [] := by rcases hr with rfl | rfl <;> simp
    rw [this, List.append_nil]
    exact List.filter_eq_self.mpr (by intro l hl; simpa using (h l hl).2.2)
  unfold dataLines
  rcases ht with rfl | rfl
  · rw [List.append_nil, flatMap_shift, split_join _ (by simp) hcl]
    have := hfin [] (Or.inl rfl)
    rwa [List.append_nil] at this
  · have e : ('#' :: hdr) ++ ls.flatMap (fun l => '\n' :: l) ++ ['\n'] = join '\n' ((('#' :: hdr) :: ls) ++ [[]]) := by
      rw [flatMap_shift, join_append _ _ (by simp) (by simp)]
      simp [join]
    rw [e, split_join _ (by simp)]
    · exact hfin [[]] (Or.inr rfl)
    · intro l hl
      rcases List.mem_append.mp hl with hl | hl
      · exact hcl l hl
      · rw [List.mem_singleton] at hl; rw [hl]; simp

theorem each_rows {β : Type} (f : β → Res (List Nat × List F)) : ∀ (ls : List β) (rs : List (List Nat × List F))
    (acc : List (List Nat) × List (List F)), List.Forall₂ (fun l r => f l = .ok r) ls rs →
    each (fun line (s : List (List Nat) × List (List F)) => do
      let r ← f line
      .ok (s.1 ++ [r.1], s.2 ++ [r.2])) ls acc = .ok (acc.1 ++ rs.map (·.1), acc.2 ++ rs.map (·.2)) := by
  intro ls
  induction ls with
  | nil => intro rs acc h; cases h; simp [each]
  | cons l ls ih =>
    intro rs acc h
    cases h with
    | cons h1 h2 =>
      rename_i r rs
      simp only [each, h1, Res.bind_ok]
      rw [ih rs _ h2]
      simp

theorem map_getD_range {α : Type} {l : List (List α)} {n : Nat} (h : l.length = n) :
    (List.range n).map (fun i => l.getD i []) = l := by
  apply List.ext_getElem
  · simp [h]
  · intro i h1 h2
    simp [h2]

theorem roundTrip [Inhabited A] {T : Double F} (hT : T.Lawful) {N : Network A F} (hwf : WF N) (hn : N.agents.length ≤ 2 ^ 31)
    (hr : ∀ i, i < N.agents.length → (N.neighbours.getD i []).length < 2 ^ 31)
    (hw : ∀ ws ∈ N.weights, ∀ w ∈ ws, T.Survives w) :
    ∃ text, toFile T N = .ok text ∧ (text.length < npos → fromFile (A := A) T text =
      .ok (Network.ofLists N.neighbours N.weights .incoming)) := by
  have hok : ∀ i, i < N.agents.length → RowOk T (N.neighbours.getD i []) (N.weights.getD i []) := by
    intro i hi
    have h1 : i < N.neighbours.length := by rw [hwf.rows]; exact hi
    have h2 : i < N.weights.length := by rw [hwf.wrows]; exact hi
    refine ⟨NetLemmas.WF.row_len hwf hi, hr i hi, ?_, ?_⟩
    · intro j hj
      rw [getD_lt _ _ h1] at hj
      exact lt_of_lt_of_le (hwf.range _ (List.getElem_mem h1) j hj) hn
    · intro w hw'
      rw [getD_lt _ _ h2] at hw'
      exact hw _ (List.getElem_mem h2) w hw'
  obtain ⟨tail, ht, _, htext⟩ := toFile_eq T hwf (by rw [npos_eq]; omega) (fun i hi => by have := hr i hi; rw [npos_eq]; omega)
  refine ⟨_, htext, fun hl => ?_⟩
  rw [fromFile_eq T hl]
  have hh : header.dropLast = '#' :: " idx_agent, n_neighbours_in, indices_neighbours_in[...], weights_in[...]".toList := by decide
  rw [hh, dataLines_net (by decide) (ls := linesOf T N N.agents.length) (by
    intro l hl
    unfold linesOf at hl
    obtain ⟨i, hi, rfl⟩ := List.mem_map.mp hl
    exact lineText_spec (hok i (List.mem_range.mp hi)) i) ht]
  rw [each_rows (rowOf T) (linesOf T N N.agents.length) (rowsOf N) ([], []) (by
    unfold linesOf rowsOf
    rw [List.forall₂_map_left_iff, List.forall₂_map_right_iff, List.forall₂_same]
    intro i hi
    exact rowOf_lineText hT (hok i (List.mem_range.mp hi)) i)]
  simp only [Res.bind_ok, List.nil_append]
  unfold rowsOf
  rw [List.map_map, List.map_map]
  have e1 : (List.range N.agents.length).map ((·.1) ∘ fun i => (N.neighbours.getD i [], N.weights.getD i [])) = N.neighbours :=
    map_getD_range hwf.rows
  have e2 : (List.range N.agents.length).map ((·.2) ∘ fun i => (N.neighbours.getD i [], N.weights.getD i [])) = N.weights :=
    map_getD_range hwf.wrows
  rw [e1, e2]

/-! ## dot files -/

theorem dotRow_eq (i : Nat) {buffer : List Nat} (hne : buffer ≠ []) (hlen : buffer.length < npos) :
    dotRow i buffer = .ok (decimal i ++ " <- {".toList ++ (buffer.dropLast.flatMap (fun b => decimal b ++ ", ".toList)) ++
      decimal (buffer.getLast hne) ++ "}\n".toList) := by
  have hpos : 0 < buffer.length := List.length_pos_iff.mpr hne
  rw [npos_eq] at hlen
  have hsz : subSz buffer.length 1 = buffer.length - 1 := subSz_of_le (by omega) (by omega)
  have := loop_eq (n := buffer.length - 1) (f := fun k row => do
      let b ← rd buffer k
      .ok (row ++ decimal b ++ ", ".toList))
    (fun k => decimal i ++ " <- {".toList ++ (buffer.take k).flatMap (fun b => decimal b ++ ", ".toList)) (by
      intro k hk
      rw [rd_lt (by omega), Res.bind_ok, List.take_succ_eq_append_getElem (by omega), List.flatMap_append]
      simp)
  simp only [List.take_zero, List.flatMap_nil, List.append_nil] at this
  unfold dotRow
  simp only [hsz, this, Res.bind_ok]
  rw [rd_lt (by omega), Res.bind_ok, List.getLast_eq_getElem, List.dropLast_eq_take]

theorem dotRow_nil (i : Nat) : dotRow i [] = .error .ub := by
  have : ∀ m row, loop (m + 1) (fun k row => do
      let b ← rd ([] : List Nat) k
      .ok (row ++ decimal b ++ ", ".toList)) row = .error .ub := by
    intro m
    induction m with
    | zero => intro row; simp [loop_succ, rd]
    | succ m ih => intro row; rw [loop_succ, ih]; rfl
  have hsz : subSz ([] : List Nat).length 1 = (2 ^ 64 - 2) + 1 := by decide
  unfold dotRow
  simp only [hsz, this]
  rfl

end NetworkIO
end Seldon
