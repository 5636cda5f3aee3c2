import Verif.Spec.Config
import Verif.Lemmas.Basic
import Mathlib.Algebra.Order.Field.Basic
import Mathlib.Tactic.NormNum
import Batteries.Lean.Except
/-!
# Properties C53, C55: validation and parsing of the configuration
-/
set_option linter.unusedSectionVars false
namespace Seldon
open Spec Config
variable {F : Type}

/-! ## C53 -/

section
variable [Zero F] [One F] [Neg F] [NatCast F] [LT F] [LE F] [DecidableLT F] [DecidableLE F]

theorem Config.check_bind {b : Bool} {k : Res Unit} : (do Config.check b; k) = if b = true then k else .error (.exn "runtime_error") := by
  cases b <;> rfl

theorem Config.check_true {b : Bool} : Config.check b = .ok () ↔ b = true := by
  cases b <;> simp [Config.check]

theorem Config.check_cases (b : Bool) : Config.check b = .ok () ∨ Config.check b = .error (.exn "runtime_error") := by
  cases b <;> simp [Config.check]

theorem Config.ite_ok {p : Prop} [Decidable p] {k : Res Unit} {f : Fault} : (if p then k else .error f) = .ok () ↔ p ∧ k = .ok () := by
  by_cases h : p <;> simp [h]

theorem Config.ite_cases {p : Prop} [Decidable p] {k : Res Unit} {f : Fault} (h : k = .ok () ∨ k = .error f) :
    (if p then k else .error f) = .ok () ∨ (if p then k else .error f) = .error f := by
  by_cases hp : p <;> simp [hp, h]

/-- A sequence of checks succeeds iff all of them do; otherwise it throws. -/
theorem Config.validateActivity_iff (s : ActivitySettings F) :
    (validateActivity s = .ok () ↔ ValidActivity s) ∧ (validateActivity s = .ok () ∨ validateActivity s = .error (.exn "runtime_error")) := by
  unfold validateActivity
  simp only [check_bind]
  constructor
  · constructor
    · intro h
      simp only [ite_ok, check_true, decide_eq_true_eq, Bool.and_eq_true] at h
      obtain ⟨h1, h2, h3, h4, h5, h6, h7, h8, h9, h10, h11, h12, h13, h14⟩ := h
      exact ⟨h1, h2, h3, h4, h5, h6, h7, h8, h9, h10, h11, h12, h13, h14⟩
    · intro h
      simp only [h.dt, h.m, h.eps, h.gamma, h.alpha, h.reciprocity, h.reluctanceMean, h.reluctanceSigma, h.reluctanceEps, h.covariance.1,
        h.covariance.2, h.botM, h.botActivity, h.botOpinion, h.botHomophily, decide_true, if_true, Bool.and_self, check]
  · iterate 13 apply ite_cases
    exact check_cases _

theorem Config.validateDeffuant_iff (s : DeffuantSettings F) :
    (validateDeffuant s = .ok () ↔ ValidDeffuant s) ∧ (validateDeffuant s = .ok () ∨ validateDeffuant s = .error (.exn "runtime_error")) := by
  unfold validateDeffuant
  simp only [check_bind]
  constructor
  · constructor
    · intro h
      simp only [ite_ok, decide_eq_true_eq, Bool.and_eq_true] at h
      obtain ⟨h1, h2, h3, h⟩ := h
      refine ⟨h1, h2, h3, fun hb => ?_⟩
      rw [hb, if_neg (by simp), check_true] at h
      simpa using h
    · intro h
      simp only [h.threshold, h.mu.1, h.mu.2, h.dim, decide_true, if_true, Bool.and_self]
      split
      · rfl
      · next hb => rw [check_true]; simpa using h.scalar (by simpa using hb)
  · split; rotate_left; · exact .inr rfl
    split; rotate_left; · exact .inr rfl
    split; rotate_left; · exact .inr rfl
    split
    · exact .inl rfl
    · exact check_cases _

/-- C53: options whose settings belong to the chosen model are accepted iff they are valid, and rejected by an exception otherwise (for every
number type, including one with values that compare to nothing). -/
theorem C53_validate (o : Options F) (h : Matching o) :
    (validate o = .ok () ↔ Valid o) ∧ (¬ Valid o → validate o = .error (.exn "runtime_error")) := by
  have key : (validateModel o.model o.settings = .ok () ↔ ValidModel o.settings) ∧
      (validateModel o.model o.settings = .ok () ∨ validateModel o.model o.settings = .error (.exn "runtime_error")) := by
    unfold Matching at h
    unfold validateModel ValidModel
    split at h
    · next e1 e2 => simp only [e1, e2]; exact ⟨by rw [check_true]; simp, check_cases _⟩
    · next e1 e2 => simp only [e1, e2]; exact validateDeffuant_iff _
    · next e1 e2 => simp only [e1, e2]; exact validateActivity_iff _
    · next s e1 e2 =>
      simp only [e1, e2, check_bind]
      have := validateActivity_iff s.base
      by_cases hf : 0 ≤ s.friction
      · simp only [hf, decide_true, if_true, true_and]; exact this
      · simp [hf]
    · exact h.elim
  have e : validate o = if 0 < o.output.startOutput then validateModel o.model o.settings else .error (.exn "runtime_error") := by
    unfold validate
    simp only [check_bind, Nat.zero_le, decide_true, if_true, decide_eq_true_eq]
  rw [e]
  unfold Valid
  by_cases hs : 0 < o.output.startOutput
  · simp only [hs, if_true, true_and]
    refine ⟨key.1, fun hv => ?_⟩
    rcases key.2 with h' | h'
    · exact absurd (key.1.mp h') hv
    · exact h'
  · simp [hs]

/-- C53: settings of another model than the chosen one make `std::get` throw (if they get that far). -/
theorem C53_mismatch (o : Options F) (h : ¬ Matching o) : ∃ tag, validate o = .error (.exn tag) := by
  unfold Matching at h
  by_cases hs : 0 < o.output.startOutput
  · refine ⟨"bad_variant_access", ?_⟩
    unfold validate validateModel
    simp only [check_bind, hs, Nat.zero_le, decide_true, if_true]
    split <;> first | rfl | (exfalso; apply h; simp_all)
  · refine ⟨"runtime_error", ?_⟩
    unfold validate
    simp only [check_bind, hs, decide_false]
    rfl

end

/-! ## C55 -/

section
variable [Zero F] [One F] [NatCast F] [Div F]

theorem Config.setIf_says {α : Type} (tbl : Doc F) (sec key : String) (conv : Node F → Option α) (dflt : α) :
    Says tbl sec key conv dflt (setIf conv (tbl sec key) dflt) := by
  unfold Says setIf
  cases h : tbl sec key with
  | none => simp
  | some n =>
    cases h' : conv n with
    | none => exact ⟨fun n' y hn hy => by cases hn; (rw [h'] at hy); (cases hy), fun _ => by simp [h']⟩
    | some x =>
      refine ⟨fun n' y hn hy => ?_, fun hc => absurd h' (hc n x rfl)⟩
      cases hn
      rw [h'] at hy; cases hy
      simp [h']

theorem Config.bind_says {α : Type} (tbl : Doc F) (sec key : String) (conv : Node F → Option α) :
    SaysOptional tbl sec key conv ((tbl sec key).bind conv) := by
  unfold SaysOptional
  cases h : tbl sec key with
  | none => simp
  | some n =>
    cases h' : conv n with
    | none => exact ⟨fun n' y hn hy => by cases hn; (rw [h'] at hy); (cases hy), fun _ => by simp [h']⟩
    | some x =>
      refine ⟨fun n' y hn hy => ?_, fun hc => absurd h' (hc n x rfl)⟩
      cases hn
      simp [hy]

theorem Config.pushDoubles_numbers (c : Convert F) {es : List (Elem F)} {xs : List F}
    (h : List.Forall₂ (fun e x => e = .float x ∨ ∃ k, e = .int k ∧ x = c.ofInt k) es xs) : pushDoubles c es = xs := by
  induction h with
  | nil => rfl
  | cons h _ ih =>
    rcases h with rfl | ⟨k, rfl, rfl⟩
    · simp [pushDoubles, ih]
    · simp [pushDoubles, ih]

theorem Config.toInt32_id {k : Int} (h : -2 ^ 31 ≤ k) (h' : k < 2 ^ 31) : Network.toInt32 k = k := by
  unfold Network.toInt32
  rw [Int.bmod_def]
  split <;> omega

theorem Config.pushInts_numbers (c : Convert F) {es : List (Elem F)} {ks : List Int}
    (h : List.Forall₂ (fun e k => (e = .int k ∧ -2 ^ 31 ≤ k ∧ k < 2 ^ 31) ∨ ∃ x, e = .float x ∧ c.trunc x = some k) es ks) :
    pushInts c es = .ok ks := by
  induction h with
  | nil => rfl
  | cons h _ ih =>
    rcases h with ⟨rfl, h1, h2⟩ | ⟨x, rfl, hx⟩
    · simp only [pushInts, ih, Res.bind_ok, toInt32_id h1 h2]
    · simp only [pushInts, hx, ih, Res.bind_ok]

theorem Config.botDoubles_says (c : Convert F) (tbl : Doc F) (sec key : String) (n : Nat) (d : F) :
    SaysFloats c tbl sec key n d (botDoubles c (tbl sec key) n d) := by
  constructor
  · intro es xs h hx
    rw [h]; exact pushDoubles_numbers c hx
  · intro h
    unfold botDoubles
    split
    · next l e => exact absurd e (h l)
    · rfl

theorem Config.botInts_says {c : Convert F} {tbl : Doc F} {sec key : String} {n : Nat} {d : Int} {v : List Int}
    (h : botInts c (tbl sec key) n d = .ok v) : SaysInts c tbl sec key n d v := by
  constructor
  · intro es ks e hk
    rw [e] at h
    simp only [botInts, pushInts_numbers c hk] at h
    cases h; rfl
  · intro ha
    unfold botInts at h
    split at h
    · next l e => exact absurd e (ha l)
    · cases h; rfl

end

section
variable [Field F]

theorem Config.parseActivity_documented {c : Convert F} {tbl : Doc F} {sec : String} {s : ActivitySettings F}
    (h : parseActivity c (tbl sec) (tbl "model" "max_iterations") = .ok s) : DocumentedActivity c tbl sec 1 s := by
  unfold parseActivity at h
  simp only at h
  obtain ⟨bm, hbm, h⟩ := Res.bind_eq_ok.mp h
  cases h
  have l1 : ∀ k : Nat, (lit 1 k : F) = 1 / (k : F) := fun k => by simp [lit]
  have l2 : ∀ k : Nat, (lit k 1 : F) = (k : F) := fun k => by simp [lit]
  have l3 : (lit 1 1 : F) = 1 := by simp [lit]
  refine ⟨bind_says _ _ _ _, ?_, setIf_says _ _ _ _ _, ?_, setIf_says _ _ _ _ _, ?_, ?_, ?_, ?_, setIf_says _ _ _ _ _, setIf_says _ _ _ _ _,
    setIf_says _ _ _ _ _, botInts_says hbm, botDoubles_says _ _ _ _ _ _, botDoubles_says _ _ _ _ _ _, botDoubles_says _ _ _ _ _ _,
    setIf_says _ _ _ _ _, ?_, ?_, ?_, setIf_says _ _ _ _ _⟩
  · rw [← l1]; exact setIf_says _ _ _ _ _
  · rw [← l1]; exact setIf_says _ _ _ _ _
  · rw [← l2]; exact setIf_says _ _ _ _ _
  · rw [← l1]; exact setIf_says _ _ _ _ _
  · rw [← l1]; exact setIf_says _ _ _ _ _
  · rw [← l2]; exact setIf_says _ _ _ _ _
  · rw [← l3]; exact setIf_says _ _ _ _ _
  · rw [← l1]; exact setIf_says _ _ _ _ _
  · rw [← l1]; exact setIf_says _ _ _ _ _

theorem Config.modelOfString_ok {s : String} {m : Config.Model} (h : modelOfString s = .ok m) : s = modelName m := by
  unfold modelOfString at h
  repeat' (split at h; · next e => cases h; exact e)
  cases h

theorem Config.modelOfString_name (m : Config.Model) : modelOfString (modelName m) = .ok m := by
  cases m <;> rfl

/-- C55, the part that holds: whatever is parsed comes from the documented keys with the documented defaults, except that the tolerance of the DeGroot
model defaults to 0 (documented: 1e-6) and the activity of bots to 1 (documented: 0).  Missing: these two defaults, which are refuted by
`C55_convergence_default` and `C55_bot_activity_default`. -/
theorem C55_keys_partial [CharZero F] {c : Convert F} {fresh : Int} {tbl : Doc F} {o : Options F} (h : parse c fresh tbl = .ok o) :
    DocumentedCommon c fresh tbl o ∧ o.modelString = modelName o.model ∧ o.network.file = none ∧
      DocumentedModel c tbl 0 1 o.model o.settings := by
  unfold parse at h
  split at h
  · cases h
  · next ms hms =>
    obtain ⟨m, hm, h⟩ := Res.bind_eq_ok.mp h
    obtain ⟨st, hst, h⟩ := Res.bind_eq_ok.mp h
    cases h
    have hn := modelOfString_ok hm
    obtain ⟨n, hn1, hn2⟩ := Option.bind_eq_some_iff.mp hms
    refine ⟨⟨⟨n, hn1, hn2⟩, setIf_says _ _ _ _ _, bind_says _ _ _ _, bind_says _ _ _ _, setIf_says _ _ _ _ _, setIf_says _ _ _ _ _,
      setIf_says _ _ _ _ _, setIf_says _ _ _ _ _, setIf_says _ _ _ _ _, setIf_says _ _ _ _ _⟩, hn, rfl, ?_⟩
    subst hn
    have l1 : ∀ k : Nat, (lit 1 k : F) = 1 / (k : F) := fun k => by simp [lit]
    cases m
    · cases hst
      exact ⟨bind_says _ _ _ _, setIf_says _ _ _ _ _⟩
    · obtain ⟨s, hs, hst⟩ := Res.bind_eq_ok.mp hst
      cases hst
      exact parseActivity_documented hs
    · obtain ⟨s, hs, hst⟩ := Res.bind_eq_ok.mp hst
      cases hst
      refine ⟨parseActivity_documented hs, ?_⟩
      have : (1 : F) = lit 1 1 := by simp [lit]
      rw [this]; exact setIf_says _ _ _ _ _
    · cases hst
      refine ⟨bind_says _ _ _ _, ?_, ?_, setIf_says _ _ _ _ _, setIf_says _ _ _ _ _, setIf_says _ _ _ _ _⟩
      · have : (1 / ((5 : Nat) : F)) = lit 2 10 := by
          simp only [lit]
          push_cast
          rw [div_eq_div_iff (by norm_num) (by norm_num)]; norm_num
        rw [this]; exact setIf_says _ _ _ _ _
      · rw [← l1]; exact setIf_says _ _ _ _ _

end

section
variable [Zero F] [One F] [NatCast F] [Div F]

/-- C55: the parsed settings always belong to the parsed model. -/
theorem C55_matching {c : Convert F} {fresh : Int} {tbl : Doc F} {o : Options F} (h : parse c fresh tbl = .ok o) : Matching o := by
  unfold parse at h
  split at h
  · cases h
  · obtain ⟨m, hm, h⟩ := Res.bind_eq_ok.mp h
    obtain ⟨st, hst, h⟩ := Res.bind_eq_ok.mp h
    cases h
    unfold Matching
    cases m
    · cases hst; trivial
    · obtain ⟨s, hs, hst⟩ := Res.bind_eq_ok.mp hst
      cases hst; trivial
    · obtain ⟨s, hs, hst⟩ := Res.bind_eq_ok.mp hst
      cases hst; trivial
    · cases hst; trivial

/-- C55: a missing, non-string or unknown `simulation.model` throws. -/
theorem C55_no_model {c : Convert F} (hc : c.Lawful) (fresh : Int) (tbl : Doc F)
    (h : ∀ m, tbl "simulation" "model" ≠ some (.str (modelName m))) : parse c fresh tbl = .error (.exn "runtime_error") := by
  unfold parse
  split
  · rfl
  · next ms hms =>
    obtain ⟨n, hn1, hn2⟩ := Option.bind_eq_some_iff.mp hms
    obtain rfl := hc.str_only _ _ hn2
    have : modelOfString ms = .error (.exn "runtime_error") := by
      cases e : modelOfString ms with
      | ok m => exact absurd (by rw [hn1, modelOfString_ok e]) (h m)
      | error f =>
        unfold modelOfString at e
        repeat' (split at e; · cases e)
        rw [← e]
    rw [this]; rfl

theorem Config.pushInts_cases (c : Convert F) (l : List (Elem F)) : (∃ v, pushInts c l = .ok v) ∨ ∃ x, .float x ∈ l ∧ c.trunc x = none := by
  induction l with
  | nil => exact .inl ⟨[], rfl⟩
  | cons e l ih =>
    rcases ih with ⟨v, hv⟩ | ⟨x, hx, hx'⟩
    · cases e with
      | int k => exact .inl ⟨Network.toInt32 k :: v, by simp only [pushInts, hv, Res.bind_ok]⟩
      | float x =>
        cases ht : c.trunc x with
        | none => exact .inr ⟨x, by simp, ht⟩
        | some k => exact .inl ⟨k :: v, by simp only [pushInts, ht, hv, Res.bind_ok]⟩
      | other => exact .inl ⟨v, by simp only [pushInts, hv]⟩
    · exact .inr ⟨x, by simp [hx], hx'⟩

theorem Config.parseActivity_total {c : Convert F} {sec : String → Option (Node F)} {mi : Option (Node F)}
    (h : ∀ l x, sec "bot_m" = some (.arr l) → .float x ∈ l → c.trunc x ≠ none) : ∃ s, parseActivity c sec mi = .ok s := by
  unfold parseActivity
  simp only
  have : ∀ n d, ∃ v, botInts c (sec "bot_m") n d = .ok v := by
    intro n d
    unfold botInts
    split
    · next l e =>
      rcases pushInts_cases c l with hv | ⟨x, hx, hx'⟩
      · exact hv
      · exact absurd hx' (h l x e hx)
    · exact ⟨_, rfl⟩
  obtain ⟨v, hv⟩ := this (setIf c.size (sec "n_bots") 0) (setIf c.int (sec "m") 10)
  rw [hv]
  exact ⟨_, rfl⟩

/-- C55: a file with a known model is always parsed, unless `bot_m` contains a floating point number that does not fit into an `int`. -/
theorem C55_total {c : Convert F} (hc : c.Lawful) (fresh : Int) (tbl : Doc F) (m : Config.Model)
    (h : tbl "simulation" "model" = some (.str (modelName m)))
    (hb : ∀ l x, tbl (modelName m) "bot_m" = some (.arr l) → .float x ∈ l → c.trunc x ≠ none) :
    ∃ o, parse c fresh tbl = .ok o ∧ o.model = m := by
  have hs : (tbl "simulation" "model").bind c.str = some (modelName m) := by rw [h]; exact hc.str _
  unfold parse
  simp only [hs, modelOfString_name, Res.bind_ok]
  have : ∃ st, parseModel c tbl m (modelName m) = .ok st := by
    unfold parseModel
    cases m
    · exact ⟨_, rfl⟩
    · obtain ⟨s, hs⟩ := parseActivity_total (mi := tbl "model" "max_iterations") hb
      simp only [hs]; exact ⟨_, rfl⟩
    · obtain ⟨s, hs⟩ := parseActivity_total (mi := tbl "model" "max_iterations") hb
      simp only [hs]; exact ⟨_, rfl⟩
    · exact ⟨_, rfl⟩
  obtain ⟨st, hst⟩ := this
  rw [hst]
  exact ⟨_, rfl, rfl⟩

/-- The keys that have a meaning when the model called `name` is chosen. -/
def Spec.meaningful (name : String) : List (String × String) :=
  [("simulation", "model"), ("simulation", "rng_seed"), ("io", "n_output_network"), ("io", "n_output_agents"), ("io", "print_progress"),
    ("io", "output_initial"), ("io", "start_output"), ("io", "start_numbering_from"), ("model", "max_iterations"), ("network", "number_of_agents"),
    ("network", "connections_per_agent")] ++
  (["convergence", "homophily_threshold", "mu", "use_network", "binary_vector", "dim", "dt", "m", "eps", "gamma", "homophily", "reciprocity", "alpha", "K",
    "mean_activities", "mean_weights", "covariance_factor", "reluctances", "reluctance_mean", "reluctance_sigma", "reluctance_eps", "n_bots", "bot_m",
    "bot_opinion", "bot_activity", "bot_homophily", "friction_coefficient"]).map (fun k => (name, k))

/-- C55: nothing else in the file matters; in particular a section of another model or a `network.file` has no effect. -/
theorem C55_other_keys {c : Convert F} (hc : c.Lawful) (fresh : Int) (t₁ t₂ : Doc F) (m : Config.Model)
    (h : t₁ "simulation" "model" = some (.str (modelName m))) (hag : ∀ q ∈ meaningful (modelName m), t₁ q.1 q.2 = t₂ q.1 q.2) :
    parse c fresh t₁ = parse c fresh t₂ := by
  have h2 : t₂ "simulation" "model" = some (.str (modelName m)) := by
    rw [← hag ("simulation", "model") (by simp [meaningful])]; exact h
  have hs1 : (t₁ "simulation" "model").bind c.str = some (modelName m) := by rw [h]; exact hc.str _
  have hs2 : (t₂ "simulation" "model").bind c.str = some (modelName m) := by rw [h2]; exact hc.str _
  simp only [meaningful, List.map_cons, List.map_nil, List.cons_append, List.nil_append, List.forall_mem_cons] at hag
  unfold parse
  simp only [hs1, hs2, modelOfString_name, Res.bind_ok]
  obtain ⟨a1, a2, a3, a4, a5, a6, a7, a8, a9, a10, a11, b1, b2, b3, b4, b5, b6, b7, b8, b9, b10, b11, b12, b13, b14, b15, b16, b17, b18, b19,
    b20, b21, b22, b23, b24, b25, b26, b27, -⟩ := hag
  have e1 : parseModel c t₁ m (modelName m) = parseModel c t₂ m (modelName m) := by
    unfold parseModel parseActivity
    simp only [a9, b1, b2, b3, b4, b5, b6, b7, b8, b9, b10, b11, b12, b13, b14, b15, b16, b17, b18, b19, b20, b21, b22, b23, b24, b25, b26, b27]
  have e2 : parseOutput c t₁ = parseOutput c t₂ := by
    unfold parseOutput; simp only [a3, a4, a5, a6, a7, a8]
  have e3 : parseNetwork c t₁ = parseNetwork c t₂ := by
    unfold parseNetwork; simp only [a10, a11]
  rw [e1, e2, e3, a2]

end

section
variable [Field F] [CharZero F]

/-- C55 is false for the tolerance of the DeGroot model: without `convergence` in the file it is 0, not 1e-6. -/
theorem C55_convergence_default {c : Convert F} {fresh : Int} {tbl : Doc F} {o : Options F} {s : DeGrootSettings F} (h : parse c fresh tbl = .ok o)
    (hs : o.settings = .deGroot s) (ha : tbl "DeGroot" "convergence" = none) : s.tol = 0 ∧ s.tol ≠ 1 / 1000000 := by
  have hd := (C55_keys_partial h).2.2.2
  rw [hs] at hd
  have hm : o.model = .deGroot := by
    have := C55_matching h
    unfold Matching at this
    rw [hs] at this
    cases e : o.model <;> simp [e] at this ⊢
  rw [hm] at hd
  have : s.tol = 0 := hd.tol.2 (fun n x e => by rw [ha] at e; cases e)
  exact ⟨this, by rw [this]; norm_num⟩

/-- C55 is false for the activity of bots: without `bot_activity` in the file it is 1, not 0. -/
theorem C55_bot_activity_default {c : Convert F} {fresh : Int} {tbl : Doc F} {o : Options F} {s : ActivitySettings F} (h : parse c fresh tbl = .ok o)
    (hs : o.settings = .activity s) (ha : tbl "ActivityDriven" "bot_activity" = none) : ∀ v ∈ s.botActivity, v = 1 ∧ v ≠ 0 := by
  have hd := (C55_keys_partial h).2.2.2
  rw [hs] at hd
  have hm : o.model = .activityDriven := by
    have := C55_matching h
    unfold Matching at this
    rw [hs] at this
    cases e : o.model <;> simp [e] at this ⊢
  rw [hm] at hd
  intro v hv
  rw [hd.botActivity.absent (fun l e => by rw [ha] at e; cases e)] at hv
  rw [List.eq_of_mem_replicate hv]
  exact ⟨rfl, one_ne_zero⟩

end

/-! ## an example -/

/-- Conversions that only accept nodes of the right type. -/
def Config.strict : Convert ℚ where
  double | .float x => some x | .int k => some k | _ => none
  int | .int k => if -2 ^ 31 ≤ k ∧ k < 2 ^ 31 then some k else none | _ => none
  size | .int k => if 0 ≤ k ∧ k < 2 ^ 63 then some k.toNat else none | _ => none
  bool | .bool b => some b | _ => none
  str | .str s => some s | _ => none
  ofInt k := k
  trunc x := some x.floor

theorem Config.strict_lawful : Config.strict.Lawful where
  double _ := rfl
  int k h h' := by simp only [Config.strict]; rw [if_pos ⟨h, h'⟩]
  size k h := by simp only [Config.strict]; rw [if_pos (by omega)]; rfl
  bool _ := rfl
  str _ := rfl
  str_only n s h := by
    cases n <;> simp [Config.strict] at h
    rw [h]

/-- The file `[simulation] model = "ActivityDriven"`, `[ActivityDriven] n_bots = 2, bot_m = [300, 300], bot_opinion = [-2.0, 2.0]`. -/
def Config.sampleDoc : Doc ℚ := fun s k =>
  if s = "simulation" ∧ k = "model" then some (.str "ActivityDriven")
  else if s = "ActivityDriven" ∧ k = "n_bots" then some (.int 2)
  else if s = "ActivityDriven" ∧ k = "bot_m" then some (.arr [.int 300, .int 300])
  else if s = "ActivityDriven" ∧ k = "bot_opinion" then some (.arr [.float (-2), .float 2])
  else none

/-- What the example looks at. -/
def Config.summary (tbl : Doc ℚ) : Res (List Int × List (List ℚ)) := do
  let o ← parse strict 7 tbl
  validate o
  match o.settings with
  | .activity s => .ok (o.rngSeed :: s.m :: s.botM, [s.botOpinion, s.botActivity, s.botHomophily])
  | _ => .error .ub

/-- It is parsed and accepted; the unspecified activity of the bots is 1 (not 0, as the comments in the example files say). -/
example : summary sampleDoc = .ok ([7, 10, 300, 300], [[-2, 2], [1, 1], [1 / 2, 1 / 2]]) := by
  decide +kernel

end Seldon
