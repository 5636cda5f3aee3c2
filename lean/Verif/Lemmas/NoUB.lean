import Verif.Lemmas.Safety
import Verif.Lemmas.DeffuantVector
import Verif.Model.Program
/-!
# Lemmas: what never has undefined behaviour (but may throw)
-/
set_option linter.unusedSectionVars false
namespace Seldon
open Spec
variable {F G : Type}

/-- No undefined behaviour. -/
def NoUB {α : Type} (x : Res α) : Prop := x ≠ .error .ub

namespace NoUB
variable {α β σ : Type}

theorem ok (a : α) : NoUB (.ok a : Res α) := by unfold NoUB; simp
theorem exn (m : String) : NoUB (.error (.exn m) : Res α) := by unfold NoUB; simp
theorem fuel : NoUB (.error .fuel : Res α) := by unfold NoUB; simp

theorem bind {x : Res α} {f : α → Res β} (h1 : NoUB x) (h2 : ∀ a, x = .ok a → NoUB (f a)) : NoUB (x >>= f) := by
  cases x with
  | ok a => rw [Res.bind_ok]; exact h2 a rfl
  | error e => rw [Res.bind_error]; intro h; apply h1; cases h; rfl

theorem map {x : Res α} (f : α → β) (h1 : NoUB x) : NoUB (x.map f) := by
  cases x with
  | ok a => exact ok _
  | error e => intro h; apply h1; cases h; rfl

theorem loop {n : Nat} {f : Nat → σ → Res σ} {s : σ} (I : σ → Prop) (h0 : I s) (step : ∀ i t, i < n → I t → NoUB (f i t) ∧ ∀ u, f i t = .ok u → I u) :
    NoUB (Seldon.loop n f s) ∧ ∀ t, Seldon.loop n f s = .ok t → I t := by
  induction n with
  | zero => exact ⟨ok _, fun t ht => by cases ht; exact h0⟩
  | succ n ih =>
    rw [loop_succ]
    obtain ⟨h1, h2⟩ := ih (fun i t hi ht => step i t (by omega) ht)
    refine ⟨bind h1 (fun t ht => (step n t (by omega) (h2 t ht)).1), ?_⟩
    intro t ht
    obtain ⟨u, hu, hv⟩ := Res.bind_eq_ok.mp ht
    exact (step n u (by omega) (h2 u hu)).2 t hv

end NoUB

/-! ## readers -/

namespace Text

theorem substr_noUB (s : List Char) (pos count : Nat) : NoUB (substr s pos count) := by
  unfold substr
  split
  · exact NoUB.exn _
  · exact NoUB.ok _

theorem stoiDigits_noUB (neg : Bool) (s : List Char) : NoUB (stoiDigits neg s) := by
  unfold stoiDigits
  simp only
  split
  · exact NoUB.exn _
  · split <;> split
    · exact NoUB.exn _
    · exact NoUB.ok _
    · exact NoUB.exn _
    · exact NoUB.ok _

theorem stoi_noUB (s : List Char) : NoUB (stoi s) := by
  unfold stoi
  split <;> exact stoiDigits_noUB _ _

theorem parseList_noUB {σ : Type} (str : List Char) {cb : Nat → List Char → σ → Res σ} (h : ∀ i s t, NoUB (cb i s t)) :
    ∀ (fuel idx : Nat) (pos : Int) (s : σ), NoUB (parseList str cb fuel idx pos s) := by
  intro fuel
  induction fuel with
  | zero => intro idx pos s; exact NoUB.fuel
  | succ fuel ih =>
    intro idx pos s
    unfold parseList
    refine (substr_noUB _ _ _).bind (fun sub _ => (h _ _ _).bind (fun t _ => ?_))
    split
    · exact NoUB.ok _
    · exact ih _ _ _

theorem readLines_noUB {σ : Type} (contents : List Char) {body : List Char → Nat → σ → Res σ} (h : ∀ l e t, NoUB (body l e t)) :
    ∀ (fuel start : Nat) (s : σ), NoUB (readLines contents body fuel start s) := by
  intro fuel
  induction fuel with
  | zero => intro start s; exact NoUB.fuel
  | succ fuel ih =>
    intro start s
    unfold readLines
    refine (substr_noUB _ _ _).bind (fun line _ => ?_)
    simp only
    split
    · exact NoUB.ok _
    · split
      · split
        · exact NoUB.ok _
        · exact ih _ _
      · refine (h _ _ _).bind (fun t _ => ?_)
        split
        · exact NoUB.ok _
        · exact ih _ _

end Text
open Text

namespace NetworkIO

theorem column_noUB {T : Double F} (hT : ∀ s, NoUB (T.stod s)) (sub : List Char) (c : Columns F) : NoUB (column T sub c) := by
  unfold column
  simp only
  split
  · exact (stoi_noUB _).bind (fun _ _ => NoUB.ok _)
  · split
    · exact (stoi_noUB _).bind (fun _ _ => NoUB.ok _)
    · split
      · exact (hT _).bind (fun _ _ => NoUB.ok _)
      · exact NoUB.ok _

theorem columns_noUB {T : Double F} (hT : ∀ s, NoUB (T.stod s)) (line : List Char) :
    ∀ (fuel start : Nat) (c : Columns F), NoUB (columns T line fuel start c) := by
  intro fuel
  induction fuel with
  | zero => intro start c; exact NoUB.fuel
  | succ fuel ih =>
    intro start c
    unfold columns
    refine (substr_noUB _ _ _).bind (fun sub _ => (column_noUB hT _ _).bind (fun c _ => ?_))
    split
    · exact NoUB.ok _
    · exact ih _ _

theorem fromFile_noUB {A : Type} [Inhabited A] {T : Double F} (hT : ∀ s, NoUB (T.stod s)) (text : List Char) :
    NoUB (fromFile (A := A) T text) := by
  unfold fromFile
  refine (readLines_noUB _ (fun l e t => ?_) _ _ _).bind (fun _ _ => NoUB.ok _)
  unfold parseLine
  exact (columns_noUB hT _ _ _ _).bind (fun _ _ => NoUB.ok _)

theorem fromFile_incoming {A : Type} [Inhabited A] {T : Double F} {text : List Char} {N : Network A F} (h : fromFile T text = .ok N) :
    N.direction = .incoming := by
  obtain ⟨s, -, h⟩ := Res.bind_eq_ok.mp h
  cases h; rfl

end NetworkIO

namespace AgentIO

theorem activity_noUB [Zero F] [One F] {T : Double F} (hT : ∀ s, NoUB (T.stod s)) (s : List Char) : NoUB (activityFromString T s) := by
  unfold activityFromString
  refine (substr_noUB _ _ _).bind (fun sub _ => (hT _).bind (fun x _ => ?_))
  dsimp only
  split
  · next h => exact (substr_noUB _ _ _).bind (fun sub _ => (hT _).bind (fun x _ => (NoUB.ok _).bind (fun r _ => by first | exact NoUB.ok _ | (rw [if_neg (by simpa using h)]; exact NoUB.ok _))))
  · next h => exact (substr_noUB _ _ _).bind (fun sub _ => (hT _).bind (fun x _ => (NoUB.ok _).bind (fun r _ =>
      (substr_noUB _ _ _).bind (fun sub _ => (hT _).bind (fun x _ => NoUB.ok _)))))

theorem inertial_noUB [Zero F] [One F] {T : Double F} (hT : ∀ s, NoUB (T.stod s)) (s : List Char) : NoUB ((inertial T).fromString s) := by
  refine parseList_noUB _ (fun i s t => ?_) _ _ _ _
  unfold inertialCallback
  split
  · exact (hT _).bind (fun x _ => NoUB.ok _)
  · split
    · exact (hT _).bind (fun x _ => NoUB.ok _)
    · split
      · exact (hT _).bind (fun x _ => NoUB.ok _)
      · split
        · exact (hT _).bind (fun x _ => NoUB.ok _)
        · exact NoUB.ok _

theorem vector_noUB (s : List Char) : NoUB (vector.fromString s) :=
  parseList_noUB _ (fun _ _ _ => (stoi_noUB _).bind (fun _ _ => NoUB.ok _)) _ _ _ _

theorem fromFile_noUB {A : Type} {fmt : Format A} (h : ∀ s, NoUB (fmt.fromString s)) (text : List Char) : NoUB (fromFile fmt text) := by
  unfold fromFile
  refine readLines_noUB _ (fun l e t => ?_) _ _ _
  unfold parseLine
  exact (substr_noUB _ _ _).bind (fun sub _ => (h _).bind (fun _ _ => NoUB.ok _))

theorem format_noUB [Zero F] [One F] {T : Double F} (hT : ∀ s, NoUB (T.stod s)) (k : AgentKind) (s : List Char) :
    NoUB ((Program.format T k).fromString s) := by
  cases k with
  | simple => exact (hT _).bind (fun _ _ => NoUB.ok _)
  | activity => exact activity_noUB hT s
  | inertial => exact inertial_noUB hT s
  | vector => exact vector_noUB s

end AgentIO

/-! ## the vector Deffuant model with vectors of any lengths -/

namespace Deffuant
variable [LT F] [DecidableLT F]

/-- The lengths of the opinion vectors. -/
def lens (agents : List DiscreteVectorAgent) : List Nat := agents.map (fun v => v.opinion.length)

theorem lens_set {agents : List DiscreteVectorAgent} {a : Nat} (ha : a < agents.length) (k : Nat) (v : Int) :
    lens (agents.set a ⟨agents[a].opinion.set k v⟩) = lens agents := by
  unfold lens
  apply List.ext_getElem
  · simp
  · intro i h1 h2
    simp only [List.getElem_map, List.getElem_set]
    split
    · next h => subst h; simp
    · rfl

theorem convince_lens (r : Rng G F) (mu : F) {a b k : Nat} {t : List DiscreteVectorAgent × G} (ha : a < t.1.length) (hb : b < t.1.length)
    (hka : k < t.1[a].opinion.length) (hkb : k < t.1[b].opinion.length) : ∃ u, convince r mu a b k t = .ok u ∧ lens u.1 = lens t.1 := by
  unfold convince
  rw [rd_lt ha, Res.bind_ok, rd_lt hb, Res.bind_ok, rd_lt hka, Res.bind_ok, rd_lt hkb, Res.bind_ok]
  split
  · simp only
    split
    · split
      · rw [wr_lt _ hka, Res.bind_ok, wr_lt _ ha, Res.bind_ok]; exact ⟨_, rfl, lens_set ha _ _⟩
      · rw [wr_lt _ hkb, Res.bind_ok, wr_lt _ hb, Res.bind_ok]; exact ⟨_, rfl, lens_set hb _ _⟩
    · rw [wr_lt _ hkb, Res.bind_ok, wr_lt _ hb, Res.bind_ok]; exact ⟨_, rfl, lens_set hb _ _⟩
  · exact ⟨t, rfl, rfl⟩

variable [IntCast F]

theorem updateVector_noUB (r : Rng G F) {a b : Nat} {s : Deffuant DiscreteVectorAgent F G} (ha : a < s.network.agents.length)
    (hb : b < s.network.agents.length) : NoUB (updateVector r a b s) ∧ ∀ t, updateVector r a b s = .ok t → Frame s t := by
  have hlen : ∀ {u : List DiscreteVectorAgent}, lens u = lens s.network.agents → u.length = s.network.agents.length := by
    intro u hu; simpa [lens] using congrArg List.length hu
  have hget : ∀ {u : List DiscreteVectorAgent} (_ : lens u = lens s.network.agents) {i : Nat} (h1 : i < u.length) (h2 : i < s.network.agents.length),
      u[i].opinion.length = s.network.agents[i].opinion.length := by
    intro u hu i h1 h2
    have e : (lens u)[i]? = (lens s.network.agents)[i]? := by rw [hu]
    simpa [lens, h1, h2] using e
  unfold updateVector
  rw [rd_lt ha, Res.bind_ok, rd_lt hb, Res.bind_ok]
  dsimp only
  by_cases hl : s.network.agents[a].opinion.length = s.network.agents[b].opinion.length
  · rw [hamming_eq hl, Res.bind_ok]
    split
    · obtain ⟨t, ht, h1⟩ := loop_inv (n := s.network.agents[a].opinion.length) (f := fun k t => convince r s.mu a b k t)
        (s := (s.network.agents, s.gen)) (fun _ t => lens t.1 = lens s.network.agents) rfl (by
          intro k t hk ht
          have h1 := hlen ht
          obtain ⟨u, hu, hl'⟩ := convince_lens r s.mu (a := a) (b := b) (k := k) (t := t) (by omega) (by omega) (by rw [hget ht (by omega) ha]; exact hk)
            (by rw [hget ht (by omega) hb]; omega)
          exact ⟨u, hu, hl'.trans ht⟩)
      rw [ht, Res.bind_ok]
      refine ⟨NoUB.ok _, fun u hu => ?_⟩
      cases hu
      exact ⟨rfl, rfl, rfl, rfl, rfl, rfl, hlen h1, rfl⟩
    · exact ⟨NoUB.ok _, fun t ht => by cases ht; exact Frame.refl s⟩
  · have e : hamming s.network.agents[a].opinion s.network.agents[b].opinion = .error (.exn "runtime_error") := by
      unfold hamming; rw [if_pos hl]
    rw [e, Res.bind_error]
    exact ⟨NoUB.exn _, fun t ht => by cases ht⟩

theorem iterationVector_noUB {r : Rng G F} (hr : r.IntLawful) {s : Deffuant DiscreteVectorAgent F G} (h : s.Ready) :
    NoUB (iteration r (updateVector r) s) ∧ ∀ t, iteration r (updateVector r) s = .ok t → Frame s t := by
  have key := NoUB.loop (n := s.network.nAgents) (f := fun _ s => interact r (updateVector r) s) (s := { s with counter := s.counter.tick })
    (fun t => Frame s t) ⟨rfl, rfl, rfl, rfl, rfl, rfl, rfl, rfl⟩ (by
      intro i t hi hF
      have hr' := hF.ready h
      have hn : 0 < t.network.agents.length := by rw [hF.n]; exact Nat.zero_lt_of_lt hi
      constructor
      · obtain ⟨a, b, g, h1, ha, hb, -⟩ := selectPair_ok hr hr' hn
        unfold interact
        simp only [h1, Res.bind_ok, rd, List.getElem?_cons_zero, List.getElem?_cons_succ, List.getElem?_eq_getElem ha, List.getElem?_eq_getElem hb]
        exact (updateVector_noUB r (s := { t with gen := g }) ha hb).1
      · intro u hu
        obtain ⟨a, b, g, ha, hb, hu'⟩ := interact_ok hu
        have hF' := (updateVector_noUB r (s := { t with gen := g }) ha hb).2 u hu'
        exact hF.trans ⟨hF'.1, hF'.2, hF'.3, hF'.4, hF'.5, hF'.6, hF'.7, hF'.8⟩)
  exact key

end Deffuant
end Seldon
