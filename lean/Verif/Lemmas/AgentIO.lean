import Verif.Lemmas.Text
import Verif.Model.AgentIO
import Mathlib.Data.List.Forall2
import Mathlib.Data.List.Zip
/-!
# Helper lemmas about agent files
-/
namespace Seldon
open Spec Text
namespace AgentIO
variable {A F : Type}

theorem parseLine_eq (fmt : Format A) (line : List Char) (e : Nat) (s : List A) (h1 : line.length ≤ e) (h2 : line.length < npos) :
    parseLine fmt line e s = (do
      let a ← fmt.fromString (afterFirstColumn line)
      .ok (s ++ [a])) := by
  rw [npos_eq] at h2
  have hj := join_split ',' line
  have hc := split_clean ',' line
  have hn := split_ne_nil ',' line
  unfold parseLine afterFirstColumn
  generalize split ',' line = ls at *
  match ls, hn with
  | [h], _ =>
    rw [join] at hj
    subst hj
    have hfind : find h ',' 0 = npos := find_none (by rw [List.drop_zero]; exact hc h (by simp))
    simp only [hfind, addSz_npos, substr_le (Nat.zero_le _), List.drop_zero, List.take_of_length_le h1, Res.bind_ok]
  | h :: c :: cs, _ =>
    rw [join] at hj
    have hd : line.drop 0 = h ++ ',' :: join ',' (c :: cs) := by rw [List.drop_zero, hj]
    have hfind : find line ',' 0 = 0 + h.length := find_some hd (hc h (by simp))
    have hle := drop_eq_length hd
    have hnx := drop_next hd
    have hadd : addSz (0 + h.length) 1 = 0 + h.length + 1 := addSz_of_lt (by omega)
    have htk : (join ',' (c :: cs)).length ≤ e := by
      have := congrArg List.length hj
      simp only [List.length_append, List.length_cons] at this
      omega
    simp only [hfind, hadd, substr_le hle, hnx, List.take_of_length_le htk, Res.bind_ok]

/-- The reader in closed form: one agent per data line. -/
theorem fromFile_eq (fmt : Format A) {contents : List Char} (h : contents.length < npos) :
    fromFile fmt contents = each (fun line s => do
      let a ← fmt.fromString (afterFirstColumn line)
      .ok (s ++ [a])) (dataLines contents) [] :=
  readLines_eq h (parseLine_eq fmt) []

/-- One agent survives writing and reading (with some leading blanks). -/
structure RoundTrips (fmt : Format A) (a : A) : Prop where
  clean : '\n' ∉ fmt.toString a
  read : ∀ k, k ≤ 26 → fmt.fromString (List.replicate k ' ' ++ fmt.toString a) = .ok a

/-- The text of one row without the line break. -/
def rowText (fmt : Format A) (i : Nat) (a : A) : List Char :=
  padLeft 5 (decimal i) ++ ", ".toList ++ padLeft 25 (fmt.toString a)

theorem toFile_eq (fmt : Format A) (agents : List A) :
    toFile fmt agents = .ok (header fmt ++ ((agents.mapIdx (rowText fmt)).flatMap (fun l => l ++ ['\n']))) := by
  have := loop_eq (n := agents.length) (f := fun i s => do
      let a ← rd agents i
      .ok (s ++ (padLeft 5 (decimal i) ++ ", ".toList ++ padLeft 25 (fmt.toString a) ++ "\n".toList)))
    (fun i => header fmt ++ (((agents.mapIdx (rowText fmt)).take i).flatMap (fun l => l ++ ['\n']))) (by
      intro i hi
      rw [rd_lt hi, Res.bind_ok]
      congr 1
      rw [List.take_succ_eq_append_getElem (by simpa using hi), List.flatMap_append, List.append_assoc]
      simp [rowText])
  simp only [List.take_zero, List.flatMap_nil, List.append_nil] at this
  rw [toFile, this, List.take_of_length_le (by simp)]

theorem header_line (fmt : Format A) (h : ∀ c ∈ fmt.columns, '\n' ∉ c) :
    ∃ l, header fmt = ('#' :: l) ++ ['\n'] ∧ '\n' ∉ ('#' :: l) := by
  have key : ∀ (cols : List (List Char)) (l : List Char), (∀ c ∈ cols, '\n' ∉ c) → '\n' ∉ ('#' :: l) →
      ∃ l', cols.foldl (fun h col => h ++ (", ".toList ++ col)) ('#' :: l) = '#' :: l' ∧ '\n' ∉ ('#' :: l') := by
    intro cols
    induction cols with
    | nil => intro l _ hl; exact ⟨l, rfl, hl⟩
    | cons c cols ih =>
      intro l hc hl
      rw [List.foldl_cons, List.cons_append]
      apply ih _ (fun c' h' => hc c' (by simp [h']))
      rw [← List.cons_append]
      intro hm
      rcases List.mem_append.mp hm with hm | hm
      · exact hl hm
      · rcases List.mem_append.mp hm with hm | hm
        · revert hm; decide
        · exact hc c (by simp) hm
  obtain ⟨l, h1, h2⟩ := key fmt.columns " idx_agent".toList h (by decide)
  exact ⟨l, by unfold header; rw [← h1]; rfl, h2⟩

theorem rowText_spec (fmt : Format A) {a : A} (h : '\n' ∉ fmt.toString a) (i : Nat) :
    '\n' ∉ rowText fmt i a ∧ rowText fmt i a ≠ [] ∧ (rowText fmt i a).head? ≠ some '#' ∧
    afterFirstColumn (rowText fmt i a) = List.replicate (25 - (fmt.toString a).length + 1) ' ' ++ fmt.toString a := by
  have hp : ∀ c ∈ padLeft 5 (decimal i), c ≠ ',' ∧ c ≠ '\n' ∧ c ≠ '#' := by
    intro c hc
    rcases mem_padLeft hc with rfl | hc
    · decide
    · have := decimal_mem hc; tauto
  have hne : padLeft 5 (decimal i) ≠ [] := by
    unfold padLeft
    intro h
    exact decimal_ne i (List.append_eq_nil_iff.mp h).2
  refine ⟨?_, ?_, ?_, ?_⟩
  · unfold rowText
    intro hm
    rcases List.mem_append.mp hm with hm | hm
    · rcases List.mem_append.mp hm with hm | hm
      · exact (hp _ hm).2.1 rfl
      · revert hm; decide
    · rcases mem_padLeft hm with h' | hm
      · revert h'; decide
      · exact h hm
  · unfold rowText
    intro h
    rw [List.append_assoc] at h
    exact hne (List.append_eq_nil_iff.mp h).1
  · obtain ⟨c, cs, hc⟩ := List.exists_cons_of_ne_nil hne
    unfold rowText
    rw [hc]
    simp
    have := hp c (by rw [hc]; simp)
    exact this.2.2
  · have e : rowText fmt i a = padLeft 5 (decimal i) ++ ',' :: (' ' :: padLeft 25 (fmt.toString a)) := by
      simp [rowText]
    have hsp := split_append (c := ',') (l := padLeft 5 (decimal i)) (fun hm => (hp _ hm).1 rfl) (' ' :: padLeft 25 (fmt.toString a))
    rw [← e] at hsp
    unfold afterFirstColumn
    rw [hsp]
    obtain ⟨c, cs, hc⟩ := List.exists_cons_of_ne_nil (split_ne_nil ',' (' ' :: padLeft 25 (fmt.toString a)))
    rw [hc]
    simp only
    rw [← hc, join_split]
    unfold padLeft
    rw [List.replicate_succ, List.cons_append]

theorem each_agents {β : Type} (f : β → Res A) : ∀ (ls : List β) (as acc : List A), List.Forall₂ (fun l a => f l = .ok a) ls as →
    each (fun line s => do
      let a ← f line
      .ok (s ++ [a])) ls acc = .ok (acc ++ as) := by
  intro ls
  induction ls with
  | nil => intro as acc h; cases h; simp [each]
  | cons l ls ih =>
    intro as acc h
    cases h with
    | cons h1 h2 =>
      rename_i a as
      simp only [each, h1, Res.bind_ok]
      rw [ih as _ h2]
      simp

theorem dataLines_file {hdr : List Char} (hh : '\n' ∉ ('#' :: hdr)) {ls : List (List Char)}
    (h : ∀ l ∈ ls, '\n' ∉ l ∧ l ≠ [] ∧ l.head? ≠ some '#') :
    dataLines (('#' :: hdr) ++ ['\n'] ++ ls.flatMap (fun l => l ++ ['\n'])) = ls := by
  unfold dataLines
  rw [List.append_assoc, List.singleton_append, split_append hh]
  have := split_lines ls (fun l hl => (h l hl).1) []
  rw [List.append_nil] at this
  rw [this, List.takeWhile_cons_of_pos (by simp), List.filter_cons_of_neg (by simp)]
  rw [List.takeWhile_append_of_pos (by intro l hl; simpa using (h l hl).2.1)]
  simp only [split]
  rw [List.takeWhile_cons_of_neg (by simp), List.append_nil]
  exact List.filter_eq_self.mpr (by intro l hl; simpa using (h l hl).2.2)

theorem roundTrip (fmt : Format A) (hcol : ∀ c ∈ fmt.columns, '\n' ∉ c) (agents : List A) (h : ∀ a ∈ agents, RoundTrips fmt a) :
    ∃ text, toFile fmt agents = .ok text ∧ (text.length < npos → fromFile fmt text = .ok agents) := by
  refine ⟨_, toFile_eq fmt agents, fun hl => ?_⟩
  obtain ⟨l, h1, h2⟩ := header_line fmt hcol
  rw [fromFile_eq fmt hl]
  rw [h1, dataLines_file h2]
  · have := each_agents (A := A) (fun line => fmt.fromString (afterFirstColumn line)) (agents.mapIdx (rowText fmt)) agents [] (by
      rw [List.forall₂_iff_get]
      refine ⟨by simp, ?_⟩
      intro i hi hi'
      simp only [List.get_eq_getElem, List.getElem_mapIdx]
      have ha := h agents[i] (List.getElem_mem _)
      rw [(rowText_spec fmt ha.clean i).2.2.2]
      exact ha.read _ (by omega))
    rw [this]
    simp
  · intro r hr
    rw [List.mem_mapIdx] at hr
    obtain ⟨i, hi, rfl⟩ := hr
    obtain ⟨p1, p2, p3, _⟩ := rowText_spec fmt (h agents[i] (List.getElem_mem _)).clean i
    exact ⟨p1, p2, p3⟩

/-! ## the four agent types -/

theorem simple_roundTrips {T : Double F} (hT : T.Lawful) {a : SimpleAgent F} (h : T.Survives a.opinion) :
    RoundTrips (simple T) a where
  clean hm := (h.clean _ hm).2 rfl
  read k _ := by
    simp only [simple, hT.pad, h.read, Res.bind_ok]

/-- Reading a column with blanks in front and possibly other columns behind it. -/
theorem stod_col {T : Double F} (hT : T.Lawful) {x : F} (h : T.Survives x) (k : Nat) :
    T.stod (List.replicate k ' ' ++ T.fmt x) = .ok x ∧
    ∀ r, T.stod (List.replicate k ' ' ++ T.fmt x ++ ',' :: r) = .ok x := by
  refine ⟨by rw [hT.pad, h.read], fun r => ?_⟩
  rw [List.append_assoc, hT.pad, hT.comma _ _ (fun hm => (h.clean _ hm).1 rfl), h.read]

theorem comma_blank {F : Type} {T : Double F} {x : F} (h : T.Survives x) (k : Nat) : ',' ∉ List.replicate k ' ' ++ T.fmt x := by
  intro hm
  rcases List.mem_append.mp hm with hm | hm
  · have := (List.mem_replicate.mp hm).2; revert this; decide
  · exact (h.clean _ hm).1 rfl

/-- ActivityAgent from at least three columns; only the parts up to the next comma matter. -/
theorem activityFromString_three [Zero F] [One F] {T : Double F} (hT : T.Lawful) {c0 c1 c2 : List Char} {x0 x1 x2 : F}
    (h0 : ',' ∉ c0) (h1 : ',' ∉ c1) (hlen : (c0 ++ ',' :: (c1 ++ ',' :: c2)).length < npos)
    (e0 : T.stod c0 = .ok x0) (e1 : T.stod c1 = .ok x1) (e2 : T.stod c2 = .ok x2) :
    activityFromString T (c0 ++ ',' :: (c1 ++ ',' :: c2)) = .ok ⟨x0, x1, x2⟩ := by
  rw [npos_eq] at hlen
  generalize hs : c0 ++ ',' :: (c1 ++ ',' :: c2) = s at *
  have hd0 : s.drop 0 = c0 ++ ',' :: (c1 ++ ',' :: c2) := by rw [List.drop_zero, hs]
  have f0 : find s ',' 0 = 0 + c0.length := find_some hd0 h0
  have l0 := drop_eq_length hd0
  have d0 := drop_next hd0
  have a0 : addSz (0 + c0.length) 1 = 0 + c0.length + 1 := addSz_of_lt (by omega)
  have f1 : find s ',' (0 + c0.length + 1) = 0 + c0.length + 1 + c1.length := find_some d0 h1
  have l1 := drop_eq_length d0
  have d1 := drop_next d0
  have a1 : addSz (0 + c0.length + 1 + c1.length) 1 = 0 + c0.length + 1 + c1.length + 1 := addSz_of_lt (by omega)
  have n1 : ¬ (0 + c0.length + 1 + c1.length = npos) := by rw [npos_eq]; omega
  have t0 : (s.drop 0).take (0 + c0.length) = c0 := by rw [hd0]; simp
  have t1 : ∃ r, (c1 ++ ',' :: c2).take (0 + c0.length + 1 + c1.length) = c1 ++ ',' :: r := by
    refine ⟨c2.take c0.length, ?_⟩
    rw [show 0 + c0.length + 1 + c1.length = c1.length + (c0.length + 1) by omega, List.take_length_add_append, List.take_succ_cons]
  obtain ⟨r, t1⟩ := t1
  have t2 : c2.length ≤ s.length := by rw [← hs]; simp; omega
  simp only [activityFromString, f0, a0, f1, substr_le (Nat.zero_le s.length), t0, Res.bind_ok, e0, n1, if_false, substr_le l0, d0, t1,
    hT.comma _ _ h1, e1, ne_eq, not_false_eq_true, if_true, a1, substr_le l1, d1, List.take_of_length_le t2, e2]

theorem activity_roundTrips [Zero F] [One F] {T : Double F} (hT : T.Lawful) {a : ActivityAgent F} (h0 : T.Survives a.opinion)
    (h1 : T.Survives a.activity) (h2 : T.Survives a.reluctance) (hlen : ((activity T).toString a).length + 26 < npos) :
    RoundTrips (activity T) a where
  clean hm := by
    simp only [activity, List.mem_append] at hm
    rcases hm with (((hm | hm) | hm) | hm) | hm
    · exact (h0.clean _ hm).2 rfl
    · revert hm; decide
    · exact (h1.clean _ hm).2 rfl
    · revert hm; decide
    · exact (h2.clean _ hm).2 rfl
  read k hk := by
    have e : List.replicate k ' ' ++ (activity T).toString a =
        (List.replicate k ' ' ++ T.fmt a.opinion) ++ ',' :: ((' ' :: T.fmt a.activity) ++ ',' :: (' ' :: T.fmt a.reluctance)) := by
      simp [activity]
    have hl : (List.replicate k ' ' ++ (activity T).toString a).length < npos := by
      rw [List.length_append, List.length_replicate]; omega
    rw [e] at hl
    show activityFromString T _ = _
    rw [e]
    have := activityFromString_three hT (x0 := a.opinion) (x1 := a.activity) (x2 := a.reluctance) (comma_blank h0 k)
      (by simpa using comma_blank h1 1) hl (stod_col hT h0 k).1 (by rw [hT.blank]; exact h1.read) (by rw [hT.blank]; exact h2.read)
    rw [this]

theorem inertialCallback_comma {T : Double F} (hT : T.Lawful) (i : Nat) (e r : List Char) (s : InertialAgent F) (h : ',' ∉ e) :
    inertialCallback T i (e ++ ',' :: r) s = inertialCallback T i e s := by
  unfold inertialCallback
  rw [hT.comma _ _ h]

/-- InertialAgent in closed form: only the columns matter. -/
theorem inertial_fromString [Zero F] [One F] {T : Double F} (hT : T.Lawful) {s : List Char} (h : s.length < 2 ^ 31) :
    (inertial T).fromString s = eachIdx (inertialCallback T) 0 (split ',' s) default := by
  show parseCommaSeparatedList s (inertialCallback T) default = _
  rw [parse_eq _ h, passed_eq (inertialCallback_comma hT) _ _ _ _ (split_clean _ _)]

theorem inertial_roundTrips [Zero F] [One F] {T : Double F} (hT : T.Lawful) {a : InertialAgent F} (h0 : T.Survives a.opinion)
    (h1 : T.Survives a.velocity) (h2 : T.Survives a.activity) (h3 : T.Survives a.reluctance)
    (hlen : ((inertial T).toString a).length + 26 < 2 ^ 31) :
    RoundTrips (inertial T) a where
  clean hm := by
    simp only [inertial, List.mem_append] at hm
    rcases hm with (((((hm | hm) | hm) | hm) | hm) | hm) | hm
    · exact (h0.clean _ hm).2 rfl
    · revert hm; decide
    · exact (h1.clean _ hm).2 rfl
    · revert hm; decide
    · exact (h2.clean _ hm).2 rfl
    · revert hm; decide
    · exact (h3.clean _ hm).2 rfl
  read k hk := by
    have e : List.replicate k ' ' ++ (inertial T).toString a =
        (List.replicate k ' ' ++ T.fmt a.opinion) ++ ',' :: ((' ' :: T.fmt a.velocity) ++ ',' :: ((' ' :: T.fmt a.activity) ++ ',' ::
          (' ' :: T.fmt a.reluctance))) := by
      simp [inertial]
    rw [inertial_fromString hT (by rw [List.length_append, List.length_replicate]; omega), e, split_append (comma_blank h0 k),
      split_append (by simpa using comma_blank h1 1), split_append (by simpa using comma_blank h2 1),
      split_single (by simpa using comma_blank h3 1)]
    simp only [eachIdx, inertialCallback, (stod_col hT h0 k).1, hT.blank, h1.read, h2.read, h3.read, Res.bind_ok]
    rfl

theorem vectorToString_eq : ∀ (x : Int) (xs : List Int),
    vectorToString ⟨x :: xs⟩ = join ',' (fmtInt x :: xs.map (fun y => ' ' :: fmtInt y)) := by
  have key : ∀ (xs : List Int) (acc : List Char),
      xs.foldl (fun res y => res ++ ", ".toList ++ fmtInt y) acc = join ',' (acc :: xs.map (fun y => ' ' :: fmtInt y)) := by
    intro xs
    induction xs with
    | nil => intro acc; rfl
    | cons y ys ih =>
      intro acc
      rw [List.foldl_cons, ih, List.map_cons, join]
      cases ys with
      | nil => simp [join]
      | cons z zs => simp [join]
  intro x xs
  exact key xs (fmtInt x)

theorem each_vector : ∀ (es : List (List Char)) (vs : List Int) (idx : Nat) (acc : List Int),
    List.Forall₂ (fun e v => stoi e = .ok v) es vs →
    eachIdx vectorCallback idx es ⟨acc⟩ = .ok ⟨acc ++ vs⟩ := by
  intro es
  induction es with
  | nil => intro vs idx acc h; cases h; simp [eachIdx]
  | cons e es ih =>
    intro vs idx acc h
    cases h with
    | cons h1 h2 =>
      rename_i v vs
      simp only [eachIdx, vectorCallback, h1, Res.bind_ok]
      rw [ih vs _ _ h2]
      simp

theorem vectorCallback_comma (i : Nat) (e r : List Char) (s : DiscreteVectorAgent) :
    vectorCallback i (e ++ ',' :: r) s = vectorCallback i e s := by
  unfold vectorCallback; rw [stoi_comma]

theorem vector_fromString {s : List Char} (h : s.length < 2 ^ 31) :
    vector.fromString s = eachIdx vectorCallback 0 (split ',' s) default := by
  show parseCommaSeparatedList s vectorCallback default = _
  rw [parse_eq _ h, passed_eq (fun i e r s _ => vectorCallback_comma i e r s) _ _ _ _ (split_clean _ _)]

theorem vector_roundTrips {a : DiscreteVectorAgent} (hne : a.opinion ≠ []) (hr : ∀ v ∈ a.opinion, -(2 ^ 31) ≤ v ∧ v < 2 ^ 31)
    (hlen : (vector.toString a).length + 26 < 2 ^ 31) : RoundTrips vector a := by
  obtain ⟨op⟩ := a
  obtain ⟨x, xs, rfl⟩ := List.exists_cons_of_ne_nil hne
  have hcl : ∀ l ∈ (fmtInt x :: xs.map (fun y => ' ' :: fmtInt y)), ∀ c ∈ l, c ≠ ',' ∧ c ≠ '\n' := by
    intro l hl c hc
    rcases List.mem_cons.mp hl with rfl | hl
    · exact fmtInt_mem hc
    · obtain ⟨y, _, rfl⟩ := List.mem_map.mp hl
      rcases List.mem_cons.mp hc with rfl | hc
      · decide
      · exact fmtInt_mem hc
  have hjoin : ∀ (ls : List (List Char)), (∀ l ∈ ls, ∀ c ∈ l, c ≠ ',' ∧ c ≠ '\n') → '\n' ∉ join ',' ls := by
    intro ls
    induction ls with
    | nil => intro _; simp [join]
    | cons l ls ih =>
      intro h
      cases ls with
      | nil => intro hm; exact (h l (by simp) _ hm).2 rfl
      | cons l' ls =>
        intro hm
        rw [join] at hm
        rcases List.mem_append.mp hm with hm | hm
        · exact (h l (by simp) _ hm).2 rfl
        · rcases List.mem_cons.mp hm with hm | hm
          · revert hm; decide
          · exact ih (fun x hx => h x (by simp [hx])) hm
  constructor
  · show '\n' ∉ vectorToString ⟨x :: xs⟩
    rw [vectorToString_eq]
    exact hjoin _ hcl
  · intro k hk
    rw [vector_fromString (by rw [List.length_append, List.length_replicate]; omega)]
    have e : List.replicate k ' ' ++ vector.toString ⟨x :: xs⟩ =
        join ',' ((List.replicate k ' ' ++ fmtInt x) :: xs.map (fun y => ' ' :: fmtInt y)) := by
      show List.replicate k ' ' ++ vectorToString ⟨x :: xs⟩ = _
      rw [vectorToString_eq]
      cases xs with
      | nil => rfl
      | cons y ys => simp [join]
    rw [e, split_join _ (by simp)]
    · have := each_vector ((List.replicate k ' ' ++ fmtInt x) :: xs.map (fun y => ' ' :: fmtInt y)) (x :: xs) 0 [] (by
        constructor
        · rw [stoi_pad]; exact stoi_fmtInt (hr x (by simp)).1 (hr x (by simp)).2
        · rw [List.forall₂_map_left_iff, List.forall₂_same]
          intro y hy
          rw [stoi_blank]
          exact stoi_fmtInt (hr y (by simp [hy])).1 (hr y (by simp [hy])).2)
      exact this
    · intro l hl
      rcases List.mem_cons.mp hl with rfl | hl
      · intro hm
        rcases List.mem_append.mp hm with hm | hm
        · have := (List.mem_replicate.mp hm).2; revert this; decide
        · exact (fmtInt_mem hm).1 rfl
      · intro hm
        exact (hcl l (by simp [hl]) _ hm).1 rfl

end AgentIO
end Seldon
