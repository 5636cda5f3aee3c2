import Verif.Lemmas.NetworkIO
/-!
# Properties C15–C20: files
-/
namespace Seldon
open Spec Text
variable {A F : Type}

/-! ## a concrete number format (used in the examples) -/

/-- Integers as "doubles", written in decimal and read by the model of `std::stoi`. -/
def intText : Double Int := ⟨fmtInt, stoi⟩

theorem intText_lawful : intText.Lawful := ⟨stoi_blank, fun s r _ => stoi_comma s r⟩

theorem intText_survives {i : Int} (h1 : -(2 ^ 31) ≤ i) (h2 : i < 2 ^ 31) : intText.Survives i :=
  ⟨fun _ hc => fmtInt_mem hc, stoi_fmtInt h1 h2⟩

/-! ## C15 -/

/-- C15: a network (well-formed, indices and row lengths representable as `int`, weights that survive formatting) written
by `network_to_file` and read by `generate_from_file` has the same rows in the same order; the direction is `Incoming`
and the agents are default-constructed. -/
theorem C15_network_round_trip [Inhabited A] {T : Double F} (hT : T.Lawful) {N : Network A F} (hwf : WF N)
    (hn : N.agents.length ≤ 2 ^ 31) (hr : ∀ row ∈ N.neighbours, row.length < 2 ^ 31)
    (hw : ∀ ws ∈ N.weights, ∀ w ∈ ws, T.Survives w) :
    ∃ text, NetworkIO.toFile T N = .ok text ∧ (text.length < 2 ^ 64 - 1 →
      ∃ N' : Network A F, NetworkIO.fromFile T text = .ok N' ∧ N'.neighbours = N.neighbours ∧ N'.weights = N.weights ∧
        N'.agents = List.replicate N.agents.length default ∧ N'.direction = .incoming) := by
  obtain ⟨text, h1, h2⟩ := NetworkIO.roundTrip hT hwf hn (by
    intro i hi
    have h1 : i < N.neighbours.length := by rw [hwf.rows]; exact hi
    rw [getD_lt _ _ h1]
    exact hr _ (List.getElem_mem h1)) hw
  exact ⟨text, h1, fun hl => ⟨_, h2 hl, rfl, rfl, by simp [Network.ofLists, hwf.rows], rfl⟩⟩

/-- A concrete file: a row with neighbours, an empty row, and a last row. -/
def ioNet : Network Unit Int where
  agents := [(), (), ()]
  neighbours := [[2, 1], [], [0]]
  weights := [[10, -3], [], [7]]
  direction := .outgoing

example : WF ioNet ∧ (∀ ws ∈ ioNet.weights, ∀ w ∈ ws, intText.Survives w) ∧
    NetworkIO.toFile intText ioNet = .ok ((String.join [
      "# idx_agent, n_neighbours_in, indices_neighbours_in[...], weights_in[...]\n",
      "    0,     2,     2,     1,                        10,                        -3\n",
      "    1,     0\n",
      "    2,     1,     0,                         7"]).toList) ∧
    (NetworkIO.toFile intText ioNet >>= NetworkIO.fromFile (A := Unit) intText) =
      .ok { ioNet with direction := .incoming } := by
  refine ⟨⟨rfl, rfl, by decide, by decide⟩, ?_, by decide +kernel, by decide +kernel⟩
  intro ws hws w hw
  apply intText_survives <;>
  · simp [ioNet] at hws
    rcases hws with rfl | rfl | rfl <;> simp at hw <;> (try rcases hw with rfl | rfl) <;> omega

/-! ## C16 -/

/-- C16 for SimpleAgent. -/
theorem C16_simple {T : Double F} (hT : T.Lawful) (agents : List (SimpleAgent F)) (h : ∀ a ∈ agents, T.Survives a.opinion) :
    ∃ text, AgentIO.toFile (AgentIO.simple T) agents = .ok text ∧
      (text.length < 2 ^ 64 - 1 → AgentIO.fromFile (AgentIO.simple T) text = .ok agents) :=
  AgentIO.roundTrip _ (by intro c hc; simp [AgentIO.simple] at hc; subst hc; decide) agents
    (fun a ha => AgentIO.simple_roundTrips hT (h a ha))

/-- C16 for ActivityAgent. -/
theorem C16_activity [Zero F] [One F] {T : Double F} (hT : T.Lawful) (agents : List (ActivityAgent F))
    (h : ∀ a ∈ agents, T.Survives a.opinion ∧ T.Survives a.activity ∧ T.Survives a.reluctance)
    (hlen : ∀ a ∈ agents, (T.fmt a.opinion).length + (T.fmt a.activity).length + (T.fmt a.reluctance).length < 2 ^ 31) :
    ∃ text, AgentIO.toFile (AgentIO.activity T) agents = .ok text ∧
      (text.length < 2 ^ 64 - 1 → AgentIO.fromFile (AgentIO.activity T) text = .ok agents) :=
  AgentIO.roundTrip _ (by intro c hc; simp [AgentIO.activity] at hc; rcases hc with rfl | rfl | rfl <;> decide) agents
    (fun a ha => AgentIO.activity_roundTrips hT (h a ha).1 (h a ha).2.1 (h a ha).2.2 (by
      have := hlen a ha
      simp [AgentIO.activity, npos_eq]; omega))

/-- C16 for InertialAgent (all four columns, velocity second). -/
theorem C16_inertial [Zero F] [One F] {T : Double F} (hT : T.Lawful) (agents : List (InertialAgent F))
    (h : ∀ a ∈ agents, T.Survives a.opinion ∧ T.Survives a.velocity ∧ T.Survives a.activity ∧ T.Survives a.reluctance)
    (hlen : ∀ a ∈ agents, (T.fmt a.opinion).length + (T.fmt a.velocity).length + (T.fmt a.activity).length +
      (T.fmt a.reluctance).length < 2 ^ 31 - 32) :
    ∃ text, AgentIO.toFile (AgentIO.inertial T) agents = .ok text ∧
      (text.length < 2 ^ 64 - 1 → AgentIO.fromFile (AgentIO.inertial T) text = .ok agents) :=
  AgentIO.roundTrip _ (by intro c hc; simp [AgentIO.inertial] at hc; rcases hc with rfl | rfl | rfl | rfl <;> decide) agents
    (fun a ha => AgentIO.inertial_roundTrips hT (h a ha).1 (h a ha).2.1 (h a ha).2.2.1 (h a ha).2.2.2 (by
      have := hlen a ha
      simp [AgentIO.inertial]; omega))

/-- C16 for DiscreteVectorAgent with non-empty opinions.  Missing: empty opinion vectors, where the property is false
(next theorem). -/
theorem C16_vector_partial (agents : List DiscreteVectorAgent) (h : ∀ a ∈ agents, a.opinion ≠ [])
    (hr : ∀ a ∈ agents, ∀ v ∈ a.opinion, -(2 ^ 31) ≤ v ∧ v < 2 ^ 31)
    (hlen : ∀ a ∈ agents, (AgentIO.vectorToString a).length + 26 < 2 ^ 31) :
    ∃ text, AgentIO.toFile AgentIO.vector agents = .ok text ∧
      (text.length < 2 ^ 64 - 1 → AgentIO.fromFile AgentIO.vector text = .ok agents) :=
  AgentIO.roundTrip _ (by intro c hc; simp [AgentIO.vector] at hc; subst hc; decide) agents
    (fun a ha => AgentIO.vector_roundTrips (h a ha) (hr a ha) (hlen a ha))

/-- C16 is false for an empty opinion vector: the file that `agents_to_file` writes makes `agents_from_file` throw. -/
theorem C16_vector_empty :
    (AgentIO.toFile AgentIO.vector [⟨[]⟩] >>= AgentIO.fromFile AgentIO.vector) = .error (.exn "invalid_argument") := by
  decide +kernel

example : (AgentIO.toFile (AgentIO.inertial intText) [⟨1, 2, 3, 4⟩, ⟨-10, 0, 7, 5⟩] =
      .ok (String.join ["# idx_agent, opinion, velocity, activity, reluctance\n",
        "    0,                1, 4, 2, 3\n",
        "    1,              -10, 5, 0, 7\n"]).toList) ∧
    (AgentIO.toFile (AgentIO.inertial intText) [⟨1, 2, 3, 4⟩, ⟨-10, 0, 7, 5⟩] >>= AgentIO.fromFile (AgentIO.inertial intText)) =
      .ok [⟨1, 2, 3, 4⟩, ⟨-10, 0, 7, 5⟩] := by decide +kernel

example : (AgentIO.toFile AgentIO.vector [⟨[1, 0, -12]⟩, ⟨[5]⟩] >>= AgentIO.fromFile AgentIO.vector) =
    .ok [⟨[1, 0, -12]⟩, ⟨[5]⟩] := by decide +kernel

example : (AgentIO.toFile (AgentIO.activity intText) [⟨1, 2, 3⟩] >>= AgentIO.fromFile (AgentIO.activity intText)) =
    .ok [⟨1, 2, 3⟩] ∧
    (AgentIO.toFile (AgentIO.simple intText) [⟨1⟩, ⟨-4⟩] >>= AgentIO.fromFile (AgentIO.simple intText)) =
    .ok [⟨1⟩, ⟨-4⟩] := by decide +kernel

/-! ## C17 -/

theorem dataLines_join {ls : List (List Char)} (hne : ls ≠ []) (h : ∀ l ∈ ls, '\n' ∉ l) :
    dataLines (join '\n' ls) = (ls.takeWhile (fun l => l ≠ [])).filter (fun l => l.head? ≠ some '#') := by
  unfold dataLines; rw [split_join _ hne h]

/-- A comment line makes no difference to the lines that count. -/
theorem dataLines_comment {ls1 ls2 : List (List Char)} {c : List Char} (hne : ls1 ++ ls2 ≠ [])
    (h : ∀ l ∈ ls1 ++ ls2, '\n' ∉ l) (hc : '\n' ∉ c) :
    dataLines (join '\n' (ls1 ++ ('#' :: c) :: ls2)) = dataLines (join '\n' (ls1 ++ ls2)) := by
  have h' : ∀ l ∈ ls1 ++ ('#' :: c) :: ls2, '\n' ∉ l := by
    intro l hl
    rcases List.mem_append.mp hl with hl | hl
    · exact h l (by simp [hl])
    · rcases List.mem_cons.mp hl with rfl | hl
      · intro hm
        rcases List.mem_cons.mp hm with hm | hm
        · revert hm; decide
        · exact hc hm
      · exact h l (by simp [hl])
  rw [dataLines_join hne h, dataLines_join (by simp) h', List.takeWhile_append, List.takeWhile_append]
  split
  · rw [List.takeWhile_cons_of_pos (by simp), List.filter_append, List.filter_append, List.filter_cons_of_neg (by simp)]
  · rfl

/-- Everything after the first empty line makes no difference. -/
theorem dataLines_blank {ls1 ls2 : List (List Char)} (h : ∀ l ∈ ls1 ++ ls2, '\n' ∉ l) :
    dataLines (join '\n' (ls1 ++ [] :: ls2)) = dataLines (join '\n' (ls1 ++ [[]])) := by
  have h' : ∀ l ∈ ls1 ++ [] :: ls2, '\n' ∉ l := by
    intro l hl
    rcases List.mem_append.mp hl with hl | hl
    · exact h l (by simp [hl])
    · rcases List.mem_cons.mp hl with rfl | hl
      · simp
      · exact h l (by simp [hl])
  rw [dataLines_join (by simp) h', dataLines_join (by simp) (fun l hl => h' l (by
    rcases List.mem_append.mp hl with hl | hl
    · simp [hl]
    · simp at hl; simp [hl])), List.takeWhile_append, List.takeWhile_append]
  split
  · rw [List.takeWhile_cons_of_neg (by simp), List.takeWhile_cons_of_neg (by simp)]
  · rfl

/-- C17, comments: a line starting with `#`, inserted anywhere between the lines of a file, changes neither what
`agents_from_file` nor what `generate_from_file` returns (also when they fail). -/
theorem C17_comment [Inhabited A] {B : Type} (T : Double F) (fmt : AgentIO.Format B) {ls1 ls2 : List (List Char)} {c : List Char}
    (hne : ls1 ++ ls2 ≠ []) (h : ∀ l ∈ ls1 ++ ls2, '\n' ∉ l) (hc : '\n' ∉ c)
    (hlen : (join '\n' (ls1 ++ ('#' :: c) :: ls2)).length < 2 ^ 64 - 1)
    (hlen' : (join '\n' (ls1 ++ ls2)).length < 2 ^ 64 - 1) :
    AgentIO.fromFile fmt (join '\n' (ls1 ++ ('#' :: c) :: ls2)) = AgentIO.fromFile fmt (join '\n' (ls1 ++ ls2)) ∧
    NetworkIO.fromFile (A := A) T (join '\n' (ls1 ++ ('#' :: c) :: ls2)) = NetworkIO.fromFile T (join '\n' (ls1 ++ ls2)) := by
  rw [AgentIO.fromFile_eq fmt hlen, AgentIO.fromFile_eq fmt hlen', NetworkIO.fromFile_eq T hlen, NetworkIO.fromFile_eq T hlen',
    dataLines_comment hne h hc]
  exact ⟨rfl, rfl⟩

/-- C17, blank line: whatever follows the first empty line is ignored by both readers. -/
theorem C17_blank [Inhabited A] {B : Type} (T : Double F) (fmt : AgentIO.Format B) {ls1 ls2 : List (List Char)}
    (h : ∀ l ∈ ls1 ++ ls2, '\n' ∉ l)
    (hlen : (join '\n' (ls1 ++ [] :: ls2)).length < 2 ^ 64 - 1)
    (hlen' : (join '\n' (ls1 ++ [[]])).length < 2 ^ 64 - 1) :
    AgentIO.fromFile fmt (join '\n' (ls1 ++ [] :: ls2)) = AgentIO.fromFile fmt (join '\n' (ls1 ++ [[]])) ∧
    NetworkIO.fromFile (A := A) T (join '\n' (ls1 ++ [] :: ls2)) = NetworkIO.fromFile T (join '\n' (ls1 ++ [[]])) := by
  rw [AgentIO.fromFile_eq fmt hlen, AgentIO.fromFile_eq fmt hlen', NetworkIO.fromFile_eq T hlen, NetworkIO.fromFile_eq T hlen',
    dataLines_blank h]
  exact ⟨rfl, rfl⟩

example : AgentIO.fromFile (AgentIO.simple intText) "0, 5\n# note\n1, 6\n\n2, 7".toList = .ok [⟨5⟩, ⟨6⟩] ∧
    "0, 5\n# note\n1, 6\n\n2, 7".toList = join '\n' (["0, 5".toList] ++ ('#' :: " note".toList) :: ["1, 6".toList, [], "2, 7".toList]) := by
  decide +kernel

/-! ## C18 -/

/-- A callback that records its calls. -/
def record (i : Nat) (s : List Char) (log : List (Nat × List Char)) : Res (List (Nat × List Char)) := .ok (log ++ [(i, s)])

theorem passed_record : ∀ (es : List (List Char)) (p idx : Nat) (log : List (Nat × List Char)),
    ∃ tr, passed record p idx es log = .ok (log ++ tr) ∧ tr.length = es.length ∧
      ∀ i e, es[i]? = some e → ∃ r, tr[i]? = some (idx + i, e ++ r) ∧ (r = [] ∨ r.head? = some ',') ∧ (i = 0 → p = 0 → r = []) ∧
        (i + 1 = es.length → r = []) := by
  intro es
  induction es with
  | nil => intro p idx log; exact ⟨[], by simp [passed], rfl, by simp⟩
  | cons e es ih =>
    intro p idx log
    cases es with
    | nil =>
      refine ⟨[(idx, e)], by simp [passed, record], rfl, ?_⟩
      intro i x hx
      cases i with
      | zero => simp at hx; subst hx; exact ⟨[], by simp, Or.inl rfl, fun _ _ => rfl, fun _ => rfl⟩
      | succ i => simp at hx
    | cons e' es =>
      obtain ⟨tr, h1, h2, h3⟩ := ih (p + e.length + 1) (idx + 1) (log ++ [(idx, e ++ (',' :: join ',' (e' :: es)).take p)])
      refine ⟨(idx, e ++ (',' :: join ',' (e' :: es)).take p) :: tr, ?_, by simp [h2], ?_⟩
      · simp only [passed, record, Res.bind_ok]
        rw [h1]
        simp
      · intro i x hx
        cases i with
        | zero =>
          simp at hx; subst hx
          refine ⟨_, rfl, ?_, ?_, ?_⟩
          · cases p with
            | zero => left; rfl
            | succ p => right; simp
          · intro _ hp; subst hp; rfl
          · intro hl; simp at hl
        | succ i =>
          rw [List.getElem?_cons_succ] at hx
          obtain ⟨r, r1, r2, r3, r4⟩ := h3 i x hx
          refine ⟨r, by rw [List.getElem?_cons_succ, r1]; simp; omega, r2, by omega, ?_⟩
          intro hl
          exact r4 (by simp at hl ⊢; omega)

/-- C18 (partial): there is exactly one call per entry, in order, with the right index; the text passed *starts* with the
entry, followed by nothing or by a comma and more text; the first and the last entry are passed exactly.  Missing: that
inner entries are passed exactly, which is false (`C18_counterexample`). -/
theorem C18_calls_partial {str : List Char} (h : str.length < 2 ^ 31) :
    ∃ tr, parseCommaSeparatedList str record [] = .ok tr ∧ tr.length = (split ',' str).length ∧
      ∀ i e, (split ',' str)[i]? = some e →
        ∃ r, tr[i]? = some (i, e ++ r) ∧ (r = [] ∨ r.head? = some ',') ∧ (i = 0 → r = []) ∧
          (i + 1 = (split ',' str).length → r = []) := by
  obtain ⟨tr, h1, h2, h3⟩ := passed_record (split ',' str) 0 0 []
  refine ⟨tr, by rw [parse_eq _ h, h1]; rfl, h2, ?_⟩
  intro i e he
  obtain ⟨r, r1, r2, r3, r4⟩ := h3 i e he
  exact ⟨r, by rw [r1]; simp, r2, fun hi => r3 hi rfl, r4⟩

/-- C18: a callback that does not look beyond a comma (such as `std::stoi`, `std::stod`) is called as documented. -/
theorem C18_number_callbacks {σ : Type} {str : List Char} (h : str.length < 2 ^ 31) {cb : Nat → List Char → σ → Res σ}
    (hcb : ∀ i e r s, ',' ∉ e → cb i (e ++ ',' :: r) s = cb i e s) (s : σ) :
    parseCommaSeparatedList str cb s = eachIdx cb 0 (split ',' str) s := by
  rw [parse_eq _ h, passed_eq hcb _ _ _ _ (split_clean _ _)]

/-- C18 is false: on the example of the documentation, `"a_d, b, 1"`, the second call gets `" b, 1"` instead of `" b"`. -/
theorem C18_counterexample :
    parseCommaSeparatedList "a_d, b, 1".toList record [] =
      .ok [(0, "a_d".toList), (1, " b, 1".toList), (2, " 1".toList)] ∧
    split ',' "a_d, b, 1".toList = ["a_d".toList, " b".toList, " 1".toList] := by
  decide +kernel

/-! ## C19 -/

/-- C19 for InertialAgent: the columns are opinion, velocity, activity, reluctance; missing trailing columns leave the
defaults; further columns are ignored. -/
theorem C19_inertial [Zero F] [One F] {T : Double F} (hT : T.Lawful) {cols : List (List Char)} {xs : List F}
    (hx : List.Forall₂ (fun c x => ',' ∉ c ∧ T.stod c = .ok x) cols xs) (hne : cols ≠ [])
    (hlen : (join ',' cols).length < 2 ^ 31) :
    (AgentIO.inertial T).fromString (join ',' cols) =
      .ok ⟨xs.getD 0 0, xs.getD 2 0, xs.getD 3 1, xs.getD 1 0⟩ := by
  have hcl : ∀ c ∈ cols, ',' ∉ c := by
    intro c hc
    obtain ⟨i, hi, rfl⟩ := List.getElem_of_mem hc
    have hi' : i < xs.length := by rw [← hx.length_eq]; exact hi
    have := List.forall₂_iff_get.mp hx |>.2 i hi hi'
    exact this.1
  rw [AgentIO.inertial_fromString hT hlen, split_join _ hne hcl]
  have hrest : ∀ (cs : List (List Char)) (i : Nat) (a : InertialAgent F), 4 ≤ i →
      eachIdx (AgentIO.inertialCallback T) i cs a = .ok a := by
    intro cs
    induction cs with
    | nil => intros; rfl
    | cons c cs ih =>
      intro i a hi
      have : AgentIO.inertialCallback T i c a = .ok a := by
        unfold AgentIO.inertialCallback
        rw [if_neg (by omega), if_neg (by omega), if_neg (by omega), if_neg (by omega)]
      rw [eachIdx, this, Res.bind_ok]
      exact ih (i + 1) a (by omega)
  match hx with
  | .cons h1 .nil => simp [eachIdx, AgentIO.inertialCallback, h1.2]; exact ⟨rfl, rfl, rfl⟩
  | .cons h1 (.cons h2 .nil) => simp [eachIdx, AgentIO.inertialCallback, h1.2, h2.2]; exact ⟨rfl, rfl⟩
  | .cons h1 (.cons h2 (.cons h3 .nil)) => simp [eachIdx, AgentIO.inertialCallback, h1.2, h2.2, h3.2]; rfl
  | .cons h1 (.cons h2 (.cons h3 (.cons h4 h))) =>
    simp [eachIdx, AgentIO.inertialCallback, h1.2, h2.2, h3.2, h4.2, hrest]

/-- C19 for ActivityAgent with at least two columns (opinion, activity, reluctance; a missing reluctance is 1).
Missing: a single column, where the property is false (`C19_activity_single_column`). -/
theorem C19_activity_partial [Zero F] [One F] {T : Double F} (hT : T.Lawful) {c0 c1 : List Char} {x0 x1 : F}
    (h0 : ',' ∉ c0) (h1 : ',' ∉ c1) (e0 : T.stod c0 = .ok x0) (e1 : T.stod c1 = .ok x1) :
    ((c0 ++ ',' :: c1).length < 2 ^ 64 - 1 → (AgentIO.activity T).fromString (c0 ++ ',' :: c1) = .ok ⟨x0, x1, 1⟩) ∧
    (∀ c2 x2, T.stod c2 = .ok x2 → (c0 ++ ',' :: (c1 ++ ',' :: c2)).length < 2 ^ 64 - 1 →
      (AgentIO.activity T).fromString (c0 ++ ',' :: (c1 ++ ',' :: c2)) = .ok ⟨x0, x1, x2⟩) := by
  constructor
  · intro hlen
    show AgentIO.activityFromString T _ = _
    generalize hs : c0 ++ ',' :: c1 = s at *
    have hd0 : s.drop 0 = c0 ++ ',' :: c1 := by rw [List.drop_zero, hs]
    have f0 : find s ',' 0 = 0 + c0.length := find_some hd0 h0
    have l0 := drop_eq_length hd0
    have d0 := drop_next hd0
    have a0 : addSz (0 + c0.length) 1 = 0 + c0.length + 1 := addSz_of_lt (by omega)
    have f1 : find s ',' (0 + c0.length + 1) = npos := find_none (by rw [d0]; exact h1)
    have t0 : (s.drop 0).take (0 + c0.length) = c0 := by rw [hd0]; simp
    have t1 : c1.length ≤ s.length := by rw [← hs]; simp; omega
    simp only [AgentIO.activityFromString, f0, a0, f1, substr_le (Nat.zero_le s.length), t0, Res.bind_ok, e0, if_true, substr_le l0, d0,
      List.take_of_length_le t1, e1, ne_eq, not_true_eq_false, if_false]
    rfl
  · intro c2 x2 e2 hlen
    exact AgentIO.activityFromString_three hT h0 h1 hlen e0 e1 e2

/-- C19 is false for ActivityAgent with a single column: the activity becomes the *opinion* (the code looks for the second
column at `npos + 1 = 0`) instead of the default 0. -/
theorem C19_activity_single_column [Zero F] [One F] {T : Double F} {c0 : List Char} {x0 : F}
    (h0 : ',' ∉ c0) (e0 : T.stod c0 = .ok x0) (hlen : c0.length < 2 ^ 64 - 1) :
    (AgentIO.activity T).fromString c0 = .ok ⟨x0, x0, 1⟩ := by
  show AgentIO.activityFromString T _ = _
  have f0 : find c0 ',' 0 = npos := find_none (by rw [List.drop_zero]; exact h0)
  have t0 : c0.length ≤ npos := by rw [npos_eq]; omega
  simp only [AgentIO.activityFromString, f0, addSz_npos, substr_le (Nat.zero_le c0.length), List.drop_zero, List.take_of_length_le t0,
    Res.bind_ok, e0, if_true, List.take_length, ne_eq, not_true_eq_false, if_false]
  rfl

example : (AgentIO.activity intText).fromString "5".toList = .ok ⟨5, 5, 1⟩ ∧
    (AgentIO.activity intText).fromString "5, 2".toList = .ok ⟨5, 2, 1⟩ ∧
    (AgentIO.inertial intText).fromString "5".toList = .ok ⟨5, 0, 1, 0⟩ ∧
    (AgentIO.inertial intText).fromString "5, 7".toList = .ok ⟨5, 0, 1, 7⟩ := by decide +kernel

/-! ## C20 -/

/-- The line that describes agent `i` with the given neighbours. -/
def dotLine (i : Nat) (ns : List Nat) : List Char :=
  decimal i ++ " <- {".toList ++ (", ".toList.intercalate (ns.map decimal)) ++ "}\n".toList

theorem intercalate_dot : ∀ (ns : List Nat) (hne : ns ≠ []),
    ns.dropLast.flatMap (fun b => decimal b ++ ", ".toList) ++ decimal (ns.getLast hne) = ", ".toList.intercalate (ns.map decimal) := by
  intro ns
  induction ns with
  | nil => intro h; exact absurd rfl h
  | cons n ns ih =>
    intro hne
    cases ns with
    | nil => simp [List.intercalate]
    | cons m ms =>
      have := ih (by simp)
      rw [List.dropLast_cons_of_ne_nil (by simp), List.flatMap_cons, List.getLast_cons (by simp), List.append_assoc, List.append_assoc, this]
      simp [List.intercalate]

/-- C20 (partial): when every agent has a neighbour the dot file consists of the head line, one line per agent with all its
neighbours separated by ", ", and the closing line.  Missing: agents without neighbours (`C20_no_neighbours`). -/
theorem C20_dot_partial {N : Network A F} (hwf : WF N) (hne : ∀ row ∈ N.neighbours, row ≠ [] ∧ row.length < 2 ^ 64 - 1) :
    NetworkIO.toDot N = .ok ("digraph G {\n".toList ++
      (List.range N.agents.length).flatMap (fun i => dotLine i (N.neighbours.getD i [])) ++ "}\n".toList) := by
  have := loop_eq (n := N.agents.length) (f := fun i s => do
      let buffer ← N.getNeighbours i
      let row ← NetworkIO.dotRow i buffer
      .ok (s ++ row))
    (fun m => "digraph G {\n".toList ++ (List.range m).flatMap (fun i => dotLine i (N.neighbours.getD i []))) (by
      intro i hi
      have h1 : i < N.neighbours.length := by rw [hwf.rows]; exact hi
      obtain ⟨hn, hl⟩ := hne _ (List.getElem_mem h1)
      rw [Network.getNeighbours, rd_lt h1, Res.bind_ok, NetworkIO.dotRow_eq i hn hl, Res.bind_ok, List.range_succ, List.flatMap_append,
        List.append_assoc]
      congr 3
      rw [List.flatMap_cons, List.flatMap_nil, List.append_nil, dotLine, getD_lt _ _ h1, ← intercalate_dot _ hn]
      simp only [List.append_assoc])
  simp only [List.range_zero, List.flatMap_nil, List.append_nil] at this
  unfold NetworkIO.toDot Network.nAgents
  rw [this, Res.bind_ok]

/-- C20 is false as soon as some agent has no neighbours: `buffer.size() - 1` wraps around and the code reads out of
bounds. -/
theorem C20_no_neighbours {N : Network A F} (hwf : WF N) (hlen : ∀ row ∈ N.neighbours, row.length < 2 ^ 64 - 1)
    (h : ∃ row ∈ N.neighbours, row = []) : NetworkIO.toDot N = .error .ub := by
  obtain ⟨row, hrow, rfl⟩ := h
  obtain ⟨k, hk, hke⟩ := List.getElem_of_mem hrow
  have key : ∀ m s, k < m → m ≤ N.agents.length → loop m (fun i s => do
      let buffer ← N.getNeighbours i
      let row ← NetworkIO.dotRow i buffer
      .ok (s ++ row)) s = .error .ub := by
    intro m
    induction m with
    | zero => intro s h; omega
    | succ m ih =>
      intro s h1 h2
      rw [loop_succ]
      by_cases hkm : k = m
      · have hprev : ∀ m' s, m' ≤ m → (∃ s', loop m' (fun i s => do
            let buffer ← N.getNeighbours i
            let row ← NetworkIO.dotRow i buffer
            .ok (s ++ row)) s = .ok s') ∨ loop m' (fun i s => do
            let buffer ← N.getNeighbours i
            let row ← NetworkIO.dotRow i buffer
            .ok (s ++ row)) s = .error .ub := by
          intro m'
          induction m' with
          | zero => intro s _; exact Or.inl ⟨s, rfl⟩
          | succ m' ih' =>
            intro s hm'
            rw [loop_succ]
            rcases ih' s (by omega) with ⟨s', hs'⟩ | he
            · rw [hs', Res.bind_ok]
              have hm1 : m' < N.neighbours.length := by rw [hwf.rows]; omega
              rw [Network.getNeighbours, rd_lt hm1, Res.bind_ok]
              by_cases hnil : N.neighbours[m'] = []
              · right; rw [hnil, NetworkIO.dotRow_nil]; rfl
              · left; rw [NetworkIO.dotRow_eq m' hnil (hlen _ (List.getElem_mem hm1))]; exact ⟨_, rfl⟩
            · right; rw [he]; rfl
        rcases hprev m s (le_refl m) with ⟨s', hs'⟩ | he
        · rw [hs', Res.bind_ok, ← hkm, Network.getNeighbours, rd_lt hk, Res.bind_ok, hke, NetworkIO.dotRow_nil]; rfl
        · rw [he]; rfl
      · rw [ih s (by omega) (by omega)]; rfl
  unfold NetworkIO.toDot Network.nAgents
  rw [key N.agents.length _ (by rw [← hwf.rows]; exact hk) (le_refl _)]
  rfl

example : NetworkIO.toDot ({ ioNet with neighbours := [[2, 1], [0], [0]], weights := [[1, 1], [1], [1]] } : Network Unit Int) =
    .ok "digraph G {\n0 <- {2, 1}\n1 <- {0}\n2 <- {0}\n}\n".toList := by decide +kernel

end Seldon
