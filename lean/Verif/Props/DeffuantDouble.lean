import Verif.Lemmas.DeffuantDouble
import Verif.Props.Deffuant
import Verif.Props.RunDeffuant
/-!
# Property C72: the scalar Deffuant model in double precision

The theorems about Deffuant in `Props/Deffuant` are about exact arithmetic.  Here the same program runs on doubles.
-/
set_option linter.unusedSectionVars false
namespace Seldon
open Spec
variable {G : Type} {R : Rounding}

/-- The values of the opinions, as real numbers. -/
def Spec.opinionValues (agents : List (SimpleAgent (Dbl R))) : List ℝ := agents.map (fun a => a.opinion.val)

namespace Deffuant

theorem val_sub (a b : Dbl R) : (a - b).val = R.round (a.val - b.val) := rfl
theorem val_add (a b : Dbl R) : (a + b).val = R.round (a.val + b.val) := rfl
theorem val_mul (a b : Dbl R) : (a * b).val = R.round (a.val * b.val) := rfl
theorem val_zero : (0 : Dbl R).val = 0 := rfl

theorem val_cabs (a : Dbl R) : (cabs a).val = |a.val| := by
  unfold cabs
  split
  · next h => exact (abs_of_neg (show a.val < 0 from h)).symm
  · next h => exact (abs_of_nonneg (not_lt.mp (show ¬ a.val < 0 from h))).symm

theorem sub_self_dbl (a : Dbl R) : a - a = 0 := Dbl.ext' (by rw [val_sub, sub_self, R.fix Dbl.isDouble_zero]; rfl)

theorem rawMeet_self (thr mu : Dbl R) (a : Nat) (x : Nat → Dbl R) : rawMeet thr mu a a x = x := by
  unfold rawMeet
  split
  · funext i
    have h0 : mu * (0 : Dbl R) = 0 := Dbl.ext' (by rw [val_mul, val_zero, mul_zero, R.fix Dbl.isDouble_zero])
    have h1 : ∀ c : Dbl R, c + 0 = c := fun c => Dbl.ext' (by rw [val_add, val_zero, add_zero, R.fix c.isDouble])
    have h2 : ∀ c : Dbl R, c - 0 = c := fun c => Dbl.ext' (by rw [val_sub, val_zero, sub_zero, R.fix c.isDouble])
    rw [sub_self_dbl, h0, if_pos rfl, h2, h1]
    by_cases h : i = a <;> simp [h]
  · rfl

theorem rawMeet_other (thr mu : Dbl R) {a b i : Nat} (ha : i ≠ a) (hb : i ≠ b) (x : Nat → Dbl R) : rawMeet thr mu a b x i = x i := by
  unfold rawMeet
  split <;> simp [ha, hb]

/-- Two agents at least the threshold apart do not change. -/
theorem rawMeet_far {thr mu : Dbl R} {a b : Nat} {x : Nat → Dbl R} (h : thr.val ≤ |(x a).val - (x b).val|) : rawMeet thr mu a b x = x := by
  unfold rawMeet
  rw [if_neg]
  show ¬ (cabs (x a - x b)).val < thr.val
  rw [val_cabs, val_sub, not_lt]
  rcases le_total 0 ((x a).val - (x b).val) with h' | h'
  · rw [abs_of_nonneg h'] at h
    exact (R.ge_of_ge thr.isDouble h).trans (le_abs_self _)
  · rw [abs_of_nonpos h'] at h
    have := R.le_of_le (Dbl.isDouble_neg thr.isDouble) (show (x a).val - (x b).val ≤ -thr.val by linarith)
    exact le_trans (by linarith) (neg_le_abs _)

/-- The new opinions of two different agents. -/
theorem rawMeet_near (thr mu : Dbl R) {a b : Nat} (hab : a ≠ b) (x : Nat → Dbl R) : rawMeet thr mu a b x = x ∨
    (((rawMeet thr mu a b x) a).val = R.round ((x a).val - R.round (mu.val * R.round ((x a).val - (x b).val))) ∧
     ((rawMeet thr mu a b x) b).val = R.round ((x b).val + R.round (mu.val * R.round ((x a).val - (x b).val)))) := by
  unfold rawMeet
  split
  · refine Or.inr ⟨?_, ?_⟩
    · dsimp only; rw [if_neg hab, if_pos rfl]; rfl
    · dsimp only; rw [if_pos rfl, if_neg hab.symm]; rfl
  · exact Or.inl rfl

theorem opinionValues_eq (agents : List (SimpleAgent (Dbl R))) : opinionValues agents = (opinions agents).map Dbl.val := by
  simp [opinionValues, opinions]

theorem mem_values {agents : List (SimpleAgent (Dbl R))} {v : ℝ} :
    v ∈ opinionValues agents ↔ ∃ i, i < agents.length ∧ (opinionOf agents i).val = v := by
  rw [opinionValues_eq, List.mem_map]
  constructor
  · rintro ⟨x, hx, rfl⟩
    obtain ⟨i, hi, rfl⟩ := mem_opinions.mp hx
    exact ⟨i, hi, rfl⟩
  · rintro ⟨i, hi, rfl⟩
    exact ⟨_, mem_opinions.mpr ⟨i, hi, rfl⟩, rfl⟩

theorem sum_values (agents : List (SimpleAgent (Dbl R))) :
    (opinionValues agents).sum = ∑ i ∈ Finset.range agents.length, (opinionOf agents i).val := by
  have h : ∀ l : List ℝ, l.sum = ∑ i ∈ Finset.range l.length, l.getD i 0 := by
    intro l
    rw [Finset.sum_range, ← List.sum_ofFn]
    congr 1
    apply List.ext_getElem
    · simp
    · intro i h1 h2
      simp [h1]
  rw [h]
  have hl : (opinionValues agents).length = agents.length := by simp [opinionValues]
  rw [hl]
  refine Finset.sum_congr rfl (fun i hi => ?_)
  have hi := Finset.mem_range.mp hi
  unfold opinionOf opinions
  rw [getD_lt _ _ (by rw [hl]; exact hi), getD_lt _ _ (by simpa using hi)]
  simp [opinionValues]

/-- The sum over a set of agents changes only by the rounding errors of the pair. -/
theorem rawMeet_sum (thr mu : Dbl R) {S : Finset Nat} {a b : Nat} (ha : a ∈ S) (hb : b ∈ S) (h0 : 0 ≤ mu.val) (h1 : mu.val ≤ 1) (x : Nat → Dbl R)
    (hxa : 0 ≤ (x a).val ∧ (x a).val ≤ 1) (hxb : 0 ≤ (x b).val ∧ (x b).val ≤ 1) :
    |∑ i ∈ S, (rawMeet thr mu a b x i).val - ∑ i ∈ S, (x i).val| ≤ 2 ^ (-53 : ℤ) := by
  have hp : (0 : ℝ) ≤ 2 ^ (-53 : ℤ) := by positivity
  by_cases hab : a = b
  · subst hab; rw [rawMeet_self, sub_self, abs_zero]; exact hp
  rcases rawMeet_near thr mu hab x with h | ⟨e1, e2⟩
  · rw [h, sub_self, abs_zero]; exact hp
  · rw [sum_two (f := fun i => (x i).val) (f' := fun i => (rawMeet thr mu a b x i).val) ha hb hab
      (fun i h1 h2 => by simp only [rawMeet_other thr mu h1 h2 x]), add_sub_cancel_left]
    show |(rawMeet thr mu a b x a).val + (rawMeet thr mu a b x b).val - ((x a).val + (x b).val)| ≤ _
    rw [e1, e2]
    exact (R.unit_meet (x a).isDouble (x b).isDouble hxa.1 hxa.2 hxb.1 hxb.2 h0 h1).2.2

theorem rawMeet_unit (thr mu : Dbl R) {a b : Nat} (h0 : 0 ≤ mu.val) (h1 : mu.val ≤ 1) {x : Nat → Dbl R}
    (hxa : 0 ≤ (x a).val ∧ (x a).val ≤ 1) (hxb : 0 ≤ (x b).val ∧ (x b).val ≤ 1) {i : Nat} (hi : 0 ≤ (x i).val ∧ (x i).val ≤ 1) :
    0 ≤ (rawMeet thr mu a b x i).val ∧ (rawMeet thr mu a b x i).val ≤ 1 := by
  by_cases hab : a = b
  · subst hab; rw [rawMeet_self]; exact hi
  rcases rawMeet_near thr mu hab x with h | ⟨e1, e2⟩
  · rw [h]; exact hi
  have := R.unit_meet (x a).isDouble (x b).isDouble hxa.1 hxa.2 hxb.1 hxb.2 h0 h1
  by_cases hia : i = a
  · rw [hia, e1]; exact this.1
  by_cases hib : i = b
  · rw [hib, e2]; exact this.2.1
  · rw [rawMeet_other thr mu hia hib]; exact hi

theorem rawMeet_hull (thr mu : Dbl R) {a b : Nat} (h0 : 0 ≤ mu.val) (h1 : mu.val ≤ 1 - 2 ^ (-52 : ℤ)) {x : Nat → Dbl R} {lo hi : ℝ}
    (hxa : lo ≤ (x a).val ∧ (x a).val ≤ hi) (hxb : lo ≤ (x b).val ∧ (x b).val ≤ hi) {i : Nat} (hi' : lo ≤ (x i).val ∧ (x i).val ≤ hi) :
    lo ≤ (rawMeet thr mu a b x i).val ∧ (rawMeet thr mu a b x i).val ≤ hi := by
  by_cases hab : a = b
  · subst hab; rw [rawMeet_self]; exact hi'
  rcases rawMeet_near thr mu hab x with h | ⟨e1, e2⟩
  · rw [h]; exact hi'
  have := R.hull_meet (x a).isDouble (x b).isDouble (R.move_le (x a).isDouble (x b).isDouble h0 h1) (R.move_sign h0)
  have m1 : lo ≤ min (x a).val (x b).val := le_min hxa.1 hxb.1
  have m2 : max (x a).val (x b).val ≤ hi := max_le hxa.2 hxb.2
  by_cases hia : i = a
  · rw [hia, e1]; exact ⟨m1.trans this.1.1, this.1.2.trans m2⟩
  by_cases hib : i = b
  · rw [hib, e2]; exact ⟨m1.trans this.2.1, this.2.2.trans m2⟩
  · rw [rawMeet_other thr mu hia hib]; exact hi'

end Deffuant

/-- C72: in double precision, for every accepted `mu` (`0 ≤ mu ≤ 1`), every threshold and all random numbers, opinions that
start in `[0,1]` stay in `[0,1]`, and rounding moves the sum of all opinions by at most `2^-53` per interaction: after `k`
iterations of `n` interactions the mean has moved by at most `k · 2^-53`. -/
theorem C72_unit {r : Rng G (Dbl R)} {k : Nat} {s t : Deffuant (SimpleAgent (Dbl R)) (Dbl R) G} (h0 : 0 ≤ s.mu.val) (h1 : s.mu.val ≤ 1)
    (h : Iterates (Deffuant.iteration r Deffuant.updateRule) s k t) (hx : ∀ v ∈ opinionValues s.network.agents, 0 ≤ v ∧ v ≤ 1) :
    (∀ v ∈ opinionValues t.network.agents, 0 ≤ v ∧ v ≤ 1) ∧
    |(opinionValues t.network.agents).sum - (opinionValues s.network.agents).sum| ≤ k * s.network.agents.length * 2 ^ (-53 : ℤ) := by
  obtain ⟨hF, pairs, hl, hp, ho⟩ := Deffuant.iterates_raw h
  have hx' : ∀ i, i < s.network.agents.length → 0 ≤ (opinionOf s.network.agents i).val ∧ (opinionOf s.network.agents i).val ≤ 1 :=
    fun i hi => hx _ (Deffuant.mem_values.mpr ⟨i, hi, rfl⟩)
  have key : ∀ (pairs : List (Nat × Nat)) (x : Nat → Dbl R),
      (∀ p ∈ pairs, p.1 < s.network.agents.length ∧ p.2 < s.network.agents.length) →
      (∀ i, i < s.network.agents.length → 0 ≤ (x i).val ∧ (x i).val ≤ 1) →
      (∀ i, i < s.network.agents.length → 0 ≤ ((pairs.foldl (fun x p => Deffuant.rawMeet s.threshold s.mu p.1 p.2 x) x) i).val ∧
        ((pairs.foldl (fun x p => Deffuant.rawMeet s.threshold s.mu p.1 p.2 x) x) i).val ≤ 1) ∧
      |∑ i ∈ Finset.range s.network.agents.length, ((pairs.foldl (fun x p => Deffuant.rawMeet s.threshold s.mu p.1 p.2 x) x) i).val -
        ∑ i ∈ Finset.range s.network.agents.length, (x i).val| ≤ pairs.length * 2 ^ (-53 : ℤ) := by
    intro pairs
    induction pairs with
    | nil => intro x _ hx; refine ⟨hx, ?_⟩; simp
    | cons p pairs ih =>
      intro x hp hx
      obtain ⟨ha, hb⟩ := hp p (List.mem_cons_self ..)
      obtain ⟨i1, i2⟩ := ih (Deffuant.rawMeet s.threshold s.mu p.1 p.2 x) (fun q hq => hp q (List.mem_cons_of_mem _ hq))
        (fun i hi => Deffuant.rawMeet_unit _ _ h0 h1 (hx _ ha) (hx _ hb) (hx i hi))
      refine ⟨i1, ?_⟩
      have h3 := Deffuant.rawMeet_sum s.threshold s.mu (Finset.mem_range.mpr ha) (Finset.mem_range.mpr hb) h0 h1 x (hx _ ha) (hx _ hb)
      rw [List.foldl_cons, List.length_cons]
      push_cast
      have := (abs_add_le _ _).trans (add_le_add i2 h3)
      rw [sub_add_sub_cancel] at this
      linarith
  obtain ⟨g1, g2⟩ := key pairs _ hp hx'
  refine ⟨?_, ?_⟩
  · intro v hv
    obtain ⟨i, hi, rfl⟩ := Deffuant.mem_values.mp hv
    rw [hF.n] at hi
    rw [ho]
    exact g1 i hi
  · rw [Deffuant.sum_values, Deffuant.sum_values, hF.n, ho]
    refine g2.trans (le_of_eq ?_)
    rw [hl]; push_cast; ring

/-- C72: for `mu ≤ 1 - 2^-52` opinions never leave an interval that contains all starting opinions (exactly, in spite of
rounding). -/
theorem C72_hull {r : Rng G (Dbl R)} {k : Nat} {s t : Deffuant (SimpleAgent (Dbl R)) (Dbl R) G} (h0 : 0 ≤ s.mu.val)
    (h1 : s.mu.val ≤ 1 - 2 ^ (-52 : ℤ)) (h : Iterates (Deffuant.iteration r Deffuant.updateRule) s k t) {lo hi : ℝ}
    (hx : ∀ v ∈ opinionValues s.network.agents, lo ≤ v ∧ v ≤ hi) : ∀ v ∈ opinionValues t.network.agents, lo ≤ v ∧ v ≤ hi := by
  obtain ⟨hF, pairs, -, hp, ho⟩ := Deffuant.iterates_raw h
  intro v hv
  obtain ⟨i, hi', rfl⟩ := Deffuant.mem_values.mp hv
  rw [hF.n] at hi'
  rw [ho]
  refine Deffuant.foldl_inv (α := Nat × Nat) _ (fun x : Nat → Dbl R => ∀ i, i < s.network.agents.length → lo ≤ (x i).val ∧ (x i).val ≤ hi)
    (fun i hi => hx _ (Deffuant.mem_values.mpr ⟨i, hi, rfl⟩)) ?_ i hi'
  intro p hpp x hx i hi
  exact Deffuant.rawMeet_hull _ _ h0 h1 (hx _ (hp p hpp).1) (hx _ (hp p hpp).2) (hx i hi)

/-- C72: two groups at least the threshold apart never mix: each stays in its own interval forever, in double precision. -/
theorem C72_clusters {r : Rng G (Dbl R)} {k : Nat} {s t : Deffuant (SimpleAgent (Dbl R)) (Dbl R) G} (h0 : 0 ≤ s.mu.val)
    (h1 : s.mu.val ≤ 1 - 2 ^ (-52 : ℤ)) (h : Iterates (Deffuant.iteration r Deffuant.updateRule) s k t) (P : Nat → Prop) {lo₁ hi₁ lo₂ hi₂ : ℝ}
    (hsep : hi₁ + s.threshold.val ≤ lo₂)
    (hP : ∀ i, i < s.network.agents.length → P i → lo₁ ≤ (opinionOf s.network.agents i).val ∧ (opinionOf s.network.agents i).val ≤ hi₁)
    (hQ : ∀ i, i < s.network.agents.length → ¬ P i → lo₂ ≤ (opinionOf s.network.agents i).val ∧ (opinionOf s.network.agents i).val ≤ hi₂) :
    (∀ i, i < s.network.agents.length → P i → lo₁ ≤ (opinionOf t.network.agents i).val ∧ (opinionOf t.network.agents i).val ≤ hi₁) ∧
    (∀ i, i < s.network.agents.length → ¬ P i → lo₂ ≤ (opinionOf t.network.agents i).val ∧ (opinionOf t.network.agents i).val ≤ hi₂) := by
  obtain ⟨hF, pairs, -, hp, ho⟩ := Deffuant.iterates_raw h
  rw [ho]
  refine Deffuant.foldl_inv (α := Nat × Nat) _ (fun x : Nat → Dbl R =>
    (∀ i, i < s.network.agents.length → P i → lo₁ ≤ (x i).val ∧ (x i).val ≤ hi₁) ∧
    (∀ i, i < s.network.agents.length → ¬ P i → lo₂ ≤ (x i).val ∧ (x i).val ≤ hi₂)) ⟨hP, hQ⟩ ?_
  rintro p hpp x ⟨g1, g2⟩
  obtain ⟨ha, hb⟩ := hp p hpp
  have far : ∀ (u v : ℝ), u ≤ hi₁ → lo₂ ≤ v → s.threshold.val ≤ |v - u| := fun u v hu hv => le_trans (by linarith) (le_abs_self _)
  by_cases pa : P p.1 <;> by_cases pb : P p.2
  · refine ⟨fun i hi hPi => Deffuant.rawMeet_hull _ _ h0 h1 (g1 _ ha pa) (g1 _ hb pb) (g1 i hi hPi), fun i hi hPi => ?_⟩
    rw [Deffuant.rawMeet_other _ _ (i := i) (by rintro rfl; exact hPi pa) (by rintro rfl; exact hPi pb)]
    exact g2 i hi hPi
  · rw [Deffuant.rawMeet_far (by rw [abs_sub_comm]; exact far _ _ (g1 _ ha pa).2 (g2 _ hb pb).1)]
    exact ⟨g1, g2⟩
  · rw [Deffuant.rawMeet_far (far _ _ (g1 _ hb pb).2 (g2 _ ha pa).1)]
    exact ⟨g1, g2⟩
  · refine ⟨fun i hi hPi => ?_, fun i hi hPi => Deffuant.rawMeet_hull _ _ h0 h1 (g2 _ ha pa) (g2 _ hb pb) (g2 i hi hPi)⟩
    rw [Deffuant.rawMeet_other _ _ (i := i) (by rintro rfl; exact pa hPi) (by rintro rfl; exact pb hPi)]
    exact g1 i hi hPi

/-- The starting opinions `i/n`, rounded, are in the unit interval. -/
theorem Dbl.ratio_unit {i n : Nat} (h : i < n) : 0 ≤ ((i : Dbl R) / (n : Dbl R)).val ∧ ((i : Dbl R) / (n : Dbl R)).val ≤ 1 := by
  show 0 ≤ R.round (R.round i / R.round n) ∧ R.round (R.round i / R.round n) ≤ 1
  have h1 : (1 : ℝ) ≤ R.round n := R.ge_of_ge Dbl.isDouble_one (by exact_mod_cast (show 1 ≤ n by omega))
  have h2 : 0 ≤ R.round i := R.nonneg (Nat.cast_nonneg i)
  have h3 : R.round i ≤ R.round n := R.mono (by exact_mod_cast h.le)
  exact ⟨R.nonneg (div_nonneg h2 (by linarith)), R.le_of_le Dbl.isDouble_one (by rw [div_le_one (by linarith)]; exact h3)⟩

section program
open Simulation Program
variable {env : Env (Dbl R) G} {args : Args} {options : Config.Options (Dbl R)} {s : Config.DeffuantSettings (Dbl R)}

/-- C72: the whole program in double precision (scalar opinions, any accepted configuration): it completes for every random outcome, the files it
writes are those wanted for networks `N 0, ..., N K`; all opinions ever written are in `[0,1]`, and the sum of the opinions of `N k` differs from that
of `N 0` by at most `k · n · 2^-53`. -/
theorem C72_program (he : env.Safe) (h : Accepted env args options) (hout : SaneOutput options) (hs : options.settings = .deffuant s)
    (hb : s.useBinaryVector = false) (hsq : s.useNetwork = true → IsSquare options.network.nAgents) {K : Nat} (hK : s.maxIterations = some (K : Int))
    (hK' : K < 2 ^ 31) {fuel : Nat} (hf : K ≤ fuel) :
    ∃ (N : Nat → Network (SimpleAgent (Dbl R)) (Dbl R)) (tr : List FileWrite), main env args fuel = .ok tr ∧
      List.Forall₂ (Fulfils (render env .simple)) tr (wanted options.output N K) ∧
      ∀ k, k ≤ K → (N k).agents.length = options.network.nAgents ∧ (∀ v ∈ opinionValues (N k).agents, 0 ≤ v ∧ v ≤ 1) ∧
        |(opinionValues (N k).agents).sum - (opinionValues (N 0).agents).sum| ≤ k * options.network.nAgents * 2 ^ (-53 : ℤ) := by
  obtain ⟨m1, m, hi, hmu1, hr, hmu, -, hmax, ho, hmain⟩ := h.deffuant he hs hb hsq
  have hv : ValidDeffuant s := by have := h.validModel.2; rw [hs] at this; exact this
  have hmax' : m.counter.maxIterations = some K := by rw [hmax, hK, Option.map_some, toSize_nat hK']
  obtain ⟨st, tr, hrun, h0, hI, hfiles, -⟩ := (Deffuant.counted he.rng K).files (render env .simple) hout.agents hout.network
    (s := m) ⟨hr, hmax'⟩ hf
  have hlen : m.network.agents.length = options.network.nAgents := by
    have := congrArg List.length ho
    simpa [opinions] using this
  have hx : ∀ v ∈ opinionValues (Deffuant.reset m).network.agents, 0 ≤ v ∧ v ≤ 1 := by
    intro v hv
    rw [Deffuant.opinionValues_eq, List.mem_map] at hv
    obtain ⟨x, hx, rfl⟩ := hv
    rw [show (Deffuant.reset m).network.agents = m.network.agents from rfl, ho, List.mem_map] at hx
    obtain ⟨i, hi, rfl⟩ := hx
    exact Dbl.ratio_unit (List.mem_range.mp hi)
  refine ⟨fun k => (st k).network, tr, by rw [hmain, hrun]; rfl, hfiles, fun k hk => ?_⟩
  have hit := (hI k hk).1
  obtain ⟨g1, g2⟩ := C72_unit (s := Deffuant.reset m) (by show 0 ≤ m.mu.val; rw [hmu]; exact hv.mu.1)
    (by show m.mu.val ≤ 1; rw [hmu]; exact hv.mu.2) hit hx
  refine ⟨?_, g1, ?_⟩
  · rw [(Deffuant.iterates_raw hit).1.n, ← hlen]; rfl
  · rw [show (Deffuant.reset m).network.agents.length = options.network.nAgents from hlen] at g2
    dsimp only
    rw [h0]
    exact g2

end program

/-- C72: the bound `mu ≤ 1 - 2^-52` of `C72_hull` is needed: for `mu = 1` there are two opinions in `[2^-60, 1]` that an interaction moves outside
this interval, in every rounding mode. -/
theorem C72_mu_one (R : Rounding) : ∃ s t : Deffuant (SimpleAgent (Dbl R)) (Dbl R) Nat, s.mu = 1 ∧ Deffuant.updateRule 0 1 s = .ok t ∧
    (∀ v ∈ opinionValues s.network.agents, 2 ^ (-60 : ℤ) ≤ v ∧ v ≤ 1) ∧ ∃ v ∈ opinionValues t.network.agents, v = 0 := by
  have hsmall : IsDouble ((2 : ℝ) ^ (-60 : ℤ)) := isDouble_pow (by norm_num)
  have h2 : IsDouble (2 : ℝ) := by simpa using isDouble_nat (n := 2) (by norm_num)
  have hd : R.round (1 - 2 ^ (-60 : ℤ)) = 1 := by
    have hn := R.nearest (1 - 2 ^ (-60 : ℤ)) 1 Dbl.isDouble_one
    have hle : R.round (1 - 2 ^ (-60 : ℤ)) ≤ 1 := R.le_of_le Dbl.isDouble_one (by norm_num)
    by_contra hc
    have := Rounding.below_one (R.double _) (lt_of_le_of_ne hle hc)
    have h3 : |(1 : ℝ) - (1 - 2 ^ (-60 : ℤ))| = 2 ^ (-60 : ℤ) := by norm_num
    rw [h3] at hn
    have := (abs_le.mp hn).1
    have h4 : (2 : ℝ) ^ (-53 : ℤ) = 128 * 2 ^ (-60 : ℤ) := by norm_num
    have h5 : (0 : ℝ) < 2 ^ (-60 : ℤ) := by positivity
    linarith
  let x : Dbl R := 1
  let y : Dbl R := ⟨2 ^ (-60 : ℤ), hsmall⟩
  have hxy : x - y = 1 := Dbl.ext' (by rw [Deffuant.val_sub]; exact hd)
  have h11 : (1 : Dbl R) * 1 = 1 := Dbl.ext' (by
    rw [Deffuant.val_mul]; show R.round (1 * 1) = 1; rw [mul_one, R.fix Dbl.isDouble_one])
  have h10 : x - 1 = 0 := Deffuant.sub_self_dbl 1
  let s : Deffuant (SimpleAgent (Dbl R)) (Dbl R) Nat := ⟨⟨none, 0⟩, ⟨2, h2⟩, 1, false, ⟨[⟨x⟩, ⟨y⟩], [[], []], [[], []], .incoming⟩, 0⟩
  have hab : cabs (x - y) < s.threshold := by
    show (cabs (x - y)).val < 2
    rw [Deffuant.val_cabs, hxy]
    show |(1 : ℝ)| < 2
    norm_num
  have hu : Deffuant.updateRule 0 1 s = .ok { s with network := { s.network with agents := [⟨0⟩, ⟨y + 1⟩] } } := by
    unfold Deffuant.updateRule
    show (if cabs (x - y) < s.threshold then _ else _) = _
    rw [if_pos hab]
    show Except.ok { s with network := { s.network with agents := ([⟨x - 1 * (x - y)⟩, ⟨y + 1 * (x - y)⟩] : List (SimpleAgent (Dbl R))) } } = _
    rw [hxy, h11, h10]
  refine ⟨s, _, rfl, hu, ?_, 0, ?_, rfl⟩
  · intro v hv
    simp only [opinionValues, s, List.map_cons, List.map_nil, List.mem_cons, List.not_mem_nil, or_false] at hv
    rcases hv with rfl | rfl
    · exact ⟨by show (2 : ℝ) ^ (-60 : ℤ) ≤ 1; norm_num, le_rfl⟩
    · exact ⟨le_rfl, by show (2 : ℝ) ^ (-60 : ℤ) ≤ 1; norm_num⟩
  · show (0 : ℝ) ∈ [(0 : Dbl R).val, (y + 1).val]
    exact List.mem_cons_self ..

/-! ## Concrete case -/

/-- An environment with double precision numbers: draws are multiples of 1/10 (rounded). -/
noncomputable def dblEnv (R : Rounding) (doc : Config.Doc (Dbl R)) : Env (Dbl R) Nat where
  rng := ⟨fun g => (Dbl.ofReal R ((g % 10 : Nat) / 10), g + 1), fun a b g => (a + g % (b - a + 1), g + 1), fun g => (0, g + 1)⟩
  seed k := k.toNat
  fresh := 7
  math := ⟨⟨fun a _ => a, fun a => a⟩, fun a => a, fun a _ => a, fun a => a, fun a => a, fun a => a, fun a => a, 0⟩
  pick _ := 0
  isqrt := Nat.sqrt
  text := ⟨fun _ => ['0'], fun _ => .ok 0⟩
  files f := if f = "conf.toml" then some [] else none
  toml _ := some doc
  convert := {
    double := fun | .float x => some x | .int k => some k | _ => none
    int := fun | .int k => some k | _ => none
    size := fun | .int k => some k.toNat | _ => none
    bool := fun | .bool b => some b | _ => none
    str := fun | .str s => some s | _ => none
    ofInt := fun k => k
    trunc := fun _ => none }

theorem dblEnv_safe (R : Rounding) (doc : Config.Doc (Dbl R)) : (dblEnv R doc).Safe where
  rng := ⟨fun a b g _ => Nat.le_add_right _ _, fun a b g h => by
    show a + g % (b - a + 1) ≤ b
    have := Nat.mod_lt g (show 0 < b - a + 1 by omega)
    omega⟩
  pick := ⟨fun l h => List.length_pos_iff.mpr h⟩
  isqrt L _ := Nat.sqrt_eq L

/-- Nine agents on the lattice with `mu = 1`, five iterations. -/
def dblDoc (R : Rounding) : Config.Doc (Dbl R) := fun s k =>
  if s = "simulation" ∧ k = "model" then some (.str "Deffuant")
  else if s = "network" ∧ k = "number_of_agents" then some (.int 9)
  else if s = "network" ∧ k = "connections_per_agent" then some (.int 0)
  else if s = "model" ∧ k = "max_iterations" then some (.int 5)
  else if s = "io" ∧ k = "n_output_agents" then some (.int 2)
  else if s = "Deffuant" ∧ k = "use_network" then some (.bool true)
  else if s = "Deffuant" ∧ k = "homophily_threshold" then some (.float 1)
  else if s = "Deffuant" ∧ k = "mu" then some (.float 1)
  else none

/-- What is read from this file. -/
def dblOptions (R : Rounding) : Config.Options (Dbl R) where
  model := .deffuant
  modelString := "Deffuant"
  rngSeed := 7
  output := { nOutputNetwork := none, nOutputAgents := some 2, printProgress := false, outputInitial := true, startOutput := 1, startNumberingFrom := 0 }
  settings := .deffuant ⟨some 5, 1, 1, true, false, 1⟩
  network := ⟨none, 9, 0⟩

theorem dblDoc_accepted (R : Rounding) : Accepted (dblEnv R (dblDoc R)) ⟨"conf.toml", none, none, none⟩ (dblOptions R) where
  config := ⟨_, rfl, by with_unfolding_all rfl⟩
  valid := by
    refine (C53_validate _ ?_).1.mpr ⟨show 0 < 1 by norm_num, ?_⟩
    · trivial
    · exact ⟨show (0 : ℝ) < 1 by norm_num, ⟨show (0 : ℝ) ≤ 1 by norm_num, show (1 : ℝ) ≤ 1 from le_rfl⟩, show 0 < 1 by norm_num, fun _ => rfl⟩
  noNetworkFile := rfl
  noAgentsFile := rfl
  size := show 9 < 2 ^ 31 by norm_num

-- the hypotheses of C72_program are met: four files are written
example : ∃ tr, Program.main (dblEnv Rounding.some (dblDoc _)) ⟨"conf.toml", none, none, none⟩ 5 = .ok tr ∧ tr.length = 4 := by
  obtain ⟨N, tr, h, hf, -⟩ := C72_program (dblEnv_safe _ _) (dblDoc_accepted Rounding.some) ⟨by decide, by decide⟩ rfl rfl
    (fun _ => ⟨3, rfl⟩) (K := 5) rfl (by decide) (fuel := 5) (le_refl 5)
  refine ⟨tr, h, ?_⟩
  rw [hf.length_eq]
  rfl

end Seldon
