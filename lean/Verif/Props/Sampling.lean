import Verif.Lemmas.ReservoirSelf
import Mathlib.Data.Finset.Basic
import Mathlib.Data.Finset.Card
import Mathlib.Data.Finset.Range
/-!
# Properties C21–C24: sampling helpers and the Hamming distance
-/
namespace Seldon
open Draw Spec
variable {G F : Type}

/-! ## C21 -/

/-- The indices one may draw: below `n` and not the ignored one. -/
def Allowed (ignore : Option Nat) (n i : Nat) : Prop := i < n ∧ ignore ≠ some i

/-- C21: if at most as many indices are requested as are available, `draw_unique_k_from_n` succeeds for every generator
and buffer, and the buffer holds exactly `k` strictly increasing allowed indices. -/
theorem C21_draw_unique {r : Rng G F} (hr : r.IntLawful) (ignore : Option Nat) (k n : Nat) (buffer : List Nat) (g : G)
    (hk : k ≤ ((List.range n).filter (fun i => ignore ≠ some i)).length) :
    ∃ b g', drawUnique r ignore k n buffer g = .ok (b, g') ∧ b.length = k ∧ b.Pairwise (· < ·) ∧
      ∀ i ∈ b, Allowed ignore n i := by
  obtain ⟨ys, g', h1, h2, h3⟩ := drawUnique_eq hr ignore k n buffer g
  have hk' : k ≤ (avail ignore n).length := hk
  rw [min_eq_left hk'] at h3
  have hdrop : (resize buffer k).drop ys.length = [] := by
    rw [List.drop_eq_nil_iff, resize_length, h3]
  rw [hdrop, List.append_nil] at h1
  exact ⟨ys, g', h1, h3, (avail_sorted ignore n).sublist h2, fun i hi => mem_avail.mp (h2.subset hi)⟩

/-- The number of available indices: `n`, or `n - 1` when one of them is ignored. -/
theorem C21_available (n : Nat) :
    ((List.range n).filter (fun i => (none : Option Nat) ≠ some i)).length = n ∧
    ∀ i, i < n → ((List.range n).filter (fun j => some i ≠ some j)).length = n - 1 := by
  refine ⟨?_, fun i hi => avail_length_some hi⟩
  have := congrArg List.length (avail_none n)
  rwa [List.length_range] at this

theorem sublist_avail {ignore : Option Nat} {n : Nat} {target : List Nat}
    (hsorted : target.Pairwise (· < ·)) (hallowed : ∀ i ∈ target, Allowed ignore n i) :
    target.Sublist (avail ignore n) := by
  have h1 : target = (avail ignore n).filter (fun i => i ∈ target) := by
    apply List.Perm.eq_of_pairwise (le := (· < ·))
    · intro a b _ _ h1 h2; omega
    · exact hsorted
    · exact (avail_sorted ignore n).filter _
    · rw [List.perm_ext_iff_of_nodup (hsorted.imp (fun h => ne_of_lt h))
        (((avail_sorted ignore n).imp (fun h => ne_of_lt h)).filter _)]
      intro a
      simp only [List.mem_filter, decide_eq_true_eq]
      constructor
      · intro ha; exact ⟨mem_avail.mpr (hallowed a ha), ha⟩
      · exact fun h => h.2
  rw [h1]
  exact List.filter_sublist

/-- C21, coverage: every strictly increasing list of allowed indices is the outcome for some sequence of draws. -/
theorem C21_draw_unique_covers [Inhabited F] (ignore : Option Nat) (n : Nat) (target buffer : List Nat)
    (hsorted : target.Pairwise (· < ·)) (hallowed : ∀ i ∈ target, Allowed ignore n i) :
    ∃ g g' : List Nat, (script : Rng (List Nat) F).IntLawful ∧
      drawUnique (script : Rng (List Nat) F) ignore target.length n buffer g = .ok (target, g') := by
  have hsub : target.Sublist (avail ignore n) := sublist_avail hsorted hallowed
  obtain ⟨g, hg⟩ := select_reaches (F := F) hsub
  refine ⟨g, [], script_lawful, ?_⟩
  have hlen : min target.length (avail ignore n).length = target.length := min_eq_left hsub.length_le
  have hg' := hg []
  rw [List.append_nil] at hg'
  simp only [drawUnique, sequence_avail, Res.bind_ok, hlen, hg']
  have hdrop : (resize buffer target.length).drop target.length = [] := by
    rw [List.drop_eq_nil_iff, resize_length]
  rw [hdrop, List.append_nil]

/-- C21, what happens when more are requested than available (not rejected by the code): all available indices, followed
by left-over buffer contents (zeros if the buffer was empty before). -/
theorem C21_too_many {r : Rng G F} (hr : r.IntLawful) (ignore : Option Nat) (k n : Nat) (g : G)
    (hk : ((List.range n).filter (fun i => ignore ≠ some i)).length < k) :
    ∃ g', drawUnique r ignore k n [] g =
      .ok ((List.range n).filter (fun i => ignore ≠ some i) ++
        List.replicate (k - ((List.range n).filter (fun i => ignore ≠ some i)).length) 0, g') := by
  obtain ⟨ys, g', h1, h2, h3⟩ := drawUnique_eq hr ignore k n [] g
  have hk' : (avail ignore n).length ≤ k := le_of_lt hk
  rw [min_eq_right hk'] at h3
  have hy := h2.eq_of_length h3
  subst hy
  refine ⟨g', ?_⟩
  rw [h1]
  simp only [resize, List.take_nil, List.nil_append, List.length_nil, Nat.sub_zero, List.drop_replicate]
  rfl

example : drawUnique (script : Rng (List Nat) Int) (some 1) 2 4 [7, 7, 7] [2, 0, 0] = .ok ([2, 3], []) ∧
    2 ≤ ((List.range 4).filter (fun i => some 1 ≠ some i)).length := by decide

/-! ## C22 -/

section
variable [Zero F] [One F] [Sub F] [Mul F] [Add F] [Div F] [LE F] [DecidableLE F]

/-- C22: for arbitrary numbers (no laws at all, so also NaN), weights, generator and tie-breaking, sampling `0 < k ≤ n`
items succeeds without undefined behaviour and returns exactly `k` distinct indices below `n`. -/
theorem C22_reservoir (o : Reservoir.Ops F) {pick : List (Nat × F) → Nat} (hp : Reservoir.Pick.Valid pick)
    (r : Rng G F) (weight : Nat → F) {k n : Nat} (hk : 0 < k) (hkn : k ≤ n) (buffer : List Nat) (g : G) :
    ∃ b g', Reservoir.sample o pick r k n weight buffer g = .ok (b, g') ∧ b.length = k ∧ b.Nodup ∧ ∀ i ∈ b, i < n :=
  Reservoir.sample_spec hp hk hkn buffer g

/-- C22, edge cases: `k = 0` leaves the buffer exactly as it was (in particular it is *not* cleared), and `k > n` is
undefined behaviour. -/
theorem C22_edge_cases (o : Reservoir.Ops F) {pick : List (Nat × F) → Nat} (hp : Reservoir.Pick.Valid pick)
    (r : Rng G F) (weight : Nat → F) (buffer : List Nat) (g : G) :
    (∀ n, Reservoir.sample o pick r 0 n weight buffer g = .ok (buffer, g)) ∧
    (∀ k n, n < k → Reservoir.sample o pick r k n weight buffer g = .error .ub) :=
  ⟨fun _ => rfl, fun _ _ h => Reservoir.sample_too_many hp h buffer g⟩

end

/-- A concrete tie-breaking rule: the first item with the smallest key. -/
noncomputable def exPick (l : List (Nat × XR)) : Nat := by
  classical
  exact if h : ∃ i, i < l.length ∧ ∀ x, l[i]? = some x → ∀ y ∈ l, ¬ y.2 < x.2 then Nat.find h else 0

/-- `<` on the extended reals has a minimal element in every non-empty list, so `Pick.Min` is satisfiable. -/
theorem exPick_min : Reservoir.Pick.Min exPick := by
  classical
  have hirr : ∀ a : XR, ¬ a < a := by
    intro a; change ¬ XR.lt a a; cases a <;> simp [XR.lt]
  have htrans : ∀ a b c : XR, a < b → b < c → a < c := by
    intro a b c; change XR.lt a b → XR.lt b c → XR.lt a c
    cases a <;> cases b <;> cases c <;> simp [XR.lt]
    exact lt_trans
  have hex : ∀ l : List (Nat × XR), l ≠ [] → ∃ x ∈ l, ∀ y ∈ l, ¬ y.2 < x.2 := by
    intro l
    induction l with
    | nil => intro h; exact absurd rfl h
    | cons a l ih =>
      intro _
      by_cases hl : l = []
      · subst hl
        exact ⟨a, by simp, by intro y hy; simp at hy; subst hy; exact hirr _⟩
      · obtain ⟨x, hx, hmin⟩ := ih hl
        by_cases hax : a.2 < x.2
        · refine ⟨a, by simp, ?_⟩
          intro y hy
          rcases List.mem_cons.mp hy with rfl | hy
          · exact hirr _
          · exact fun hya => hmin y hy (htrans _ _ _ hya hax)
        · refine ⟨x, by simp [hx], ?_⟩
          intro y hy
          rcases List.mem_cons.mp hy with rfl | hy
          · exact hax
          · exact hmin y hy
  have hex' : ∀ l : List (Nat × XR), l ≠ [] → ∃ i, i < l.length ∧ ∀ x, l[i]? = some x → ∀ y ∈ l, ¬ y.2 < x.2 := by
    intro l hl
    obtain ⟨x, hx, hmin⟩ := hex l hl
    obtain ⟨i, hi, rfl⟩ := List.getElem_of_mem hx
    refine ⟨i, hi, ?_⟩
    intro z hz
    rw [List.getElem?_eq_getElem hi] at hz
    have := Option.some.inj hz
    subst this
    exact hmin
  constructor
  · intro l hl
    have h := hex' l hl
    unfold exPick
    rw [dif_pos h]
    exact (Nat.find_spec h).1
  · intro l x hx y hy
    have hl : l ≠ [] := by rintro rfl; simp at hy
    have h := hex' l hl
    unfold exPick at hx
    rw [dif_pos h] at hx
    exact (Nat.find_spec h).2 x hx y hy

/-! ## C23 -/

/-- C23: in exact arithmetic with IEEE special values, for draws strictly inside (0, 1): if item `s` has weight 0, every
other item a positive finite weight, and `0 < k ≤ n - 1`, then `s` is never sampled. -/
theorem C23_no_self {pick : List (Nat × XR) → Nat} (hp : Reservoir.Pick.Min pick) {r : Rng G XR}
    (hr : ∀ g, ∃ u : ℝ, (r.unit g).1 = XR.fin u ∧ 0 < u ∧ u < 1) {weight : Nat → XR} {s n k : Nat}
    (hs : weight s = 0) (hw : ∀ i, i < n → i ≠ s → ∃ w : ℝ, weight i = XR.fin w ∧ 0 < w) (hk : 0 < k) (hkn : k ≤ n - 1)
    (buffer : List Nat) (g : G) :
    ∃ b g', Reservoir.sample XR.ops pick r k n weight buffer g = .ok (b, g') ∧ b.length = k ∧ b.Nodup ∧
      (∀ i ∈ b, i < n) ∧ s ∉ b := by
  obtain ⟨b, g', h1, h2, h3, h4⟩ := Reservoir.sample_spec (o := XR.ops) (r := r) (weight := weight)
    (⟨hp.lt⟩ : Reservoir.Pick.Valid pick) hk (show k ≤ n by omega) buffer g
  exact ⟨b, g', h1, h2, h3, h4, Reservoir.sample_no_self hp hr hs hw hk (by omega) h1⟩

/-- Non-vacuity for C23: a constant generator, agent 1 of 3 sampling 2 contacts. -/
example : ∃ b g', Reservoir.sample XR.ops exPick
    (⟨fun g => (XR.fin (1/2), g), fun a _ g => (a, g), fun g => (0, g)⟩ : Rng Unit XR) 2 3
    (fun i => if i = 1 then 0 else XR.fin 1) [] () = .ok (b, g') ∧ b.length = 2 ∧ b.Nodup ∧
      (∀ i ∈ b, i < 3) ∧ 1 ∉ b :=
  C23_no_self exPick_min (fun _ => ⟨1/2, rfl, by norm_num, by norm_num⟩) (by simp)
    (fun i _ hi => ⟨1, by simp [hi], one_pos⟩) (by norm_num) (by norm_num) [] ()

/-! ## C24 -/

/-- The positions at which two vectors differ. -/
def diffPositions {T : Type} [DecidableEq T] (v w : List T) : Finset Nat :=
  (Finset.range v.length).filter (fun i => v[i]? ≠ w[i]?)

theorem hamming_eq {T : Type} [DecidableEq T] {v w : List T} (h : v.length = w.length) :
    hamming v w = .ok ((diffPositions v w).card : Int) := by
  unfold hamming
  rw [if_neg (by simp [h])]
  have := loop_eq (n := w.length) (f := fun i (d : Int) => do
      let a ← rd v i
      let b ← rd w i
      if a ≠ b then .ok (d + 1) else .ok d)
    (fun i => (((Finset.range i).filter (fun i => v[i]? ≠ w[i]?)).card : Int)) (by
      intro i hi
      have hi' : i < v.length := by omega
      rw [rd_lt hi', Res.bind_ok, rd_lt hi, Res.bind_ok, Finset.range_add_one, Finset.filter_insert]
      by_cases hab : v[i] = w[i]
      · have : ¬ (v[i]? ≠ w[i]?) := by simp [hi, hi', hab]
        rw [if_neg (by simp [hab]), if_neg this]
      · have : v[i]? ≠ w[i]? := by simp [hi, hi', hab]
        rw [if_pos hab, if_pos this, Finset.card_insert_of_notMem (by simp)]
        simp)
  simp only [Finset.range_zero, Finset.filter_empty, Finset.card_empty, Nat.cast_zero] at this
  rw [this, diffPositions, h]

/-- C24: `hamming_distance` throws exactly when the lengths differ and otherwise counts the differing positions; it is a
metric bounded by the length. -/
theorem C24_hamming {T : Type} [DecidableEq T] (u v w : List T) :
    (u.length ≠ v.length → hamming u v = .error (.exn "runtime_error")) ∧
    (u.length = v.length → hamming u v = .ok ((diffPositions u v).card : Int)) ∧
    (hamming u v = hamming v u) ∧
    (hamming u v = .ok 0 ↔ u = v) ∧
    (∀ a, hamming u v = .ok a → 0 ≤ a ∧ a ≤ u.length) ∧
    (∀ a b c, hamming u v = .ok a → hamming v w = .ok b → hamming u w = .ok c → c ≤ a + b) := by
  have herr : ∀ x y : List T, x.length ≠ y.length → hamming x y = .error (.exn "runtime_error") := by
    intro x y h; simp [hamming, h]
  have hlen : ∀ (x y : List T) (a : Int), hamming x y = .ok a → x.length = y.length := by
    intro x y a h; by_contra hc; rw [herr x y hc] at h; simp at h
  refine ⟨herr u v, hamming_eq, ?_, ?_, ?_, ?_⟩
  · by_cases h : u.length = v.length
    · rw [hamming_eq h, hamming_eq h.symm]
      congr 3
      unfold diffPositions
      rw [h]
      apply Finset.filter_congr
      intro i _
      exact ne_comm
    · rw [herr u v h, herr v u (Ne.symm h)]
  · constructor
    · intro h
      have hl := hlen u v 0 h
      rw [hamming_eq hl] at h
      have h0 : (diffPositions u v).card = 0 := by have := Except.ok.inj h; exact_mod_cast this
      rw [Finset.card_eq_zero] at h0
      apply List.ext_getElem?
      intro i
      by_cases hi : i < u.length
      · by_contra hc
        have : i ∈ diffPositions u v := by simp only [diffPositions, Finset.mem_filter, Finset.mem_range]; exact ⟨hi, hc⟩
        rw [h0] at this; simp at this
      · rw [List.getElem?_eq_none (by omega), List.getElem?_eq_none (by omega)]
    · rintro rfl
      rw [hamming_eq rfl]
      simp [diffPositions]
  · intro a h
    have hl := hlen u v a h
    rw [hamming_eq hl] at h
    have := Except.ok.inj h
    subst this
    refine ⟨by positivity, ?_⟩
    have : (diffPositions u v).card ≤ u.length := by
      have := Finset.card_filter_le (Finset.range u.length) (fun i => u[i]? ≠ v[i]?)
      simpa [diffPositions] using this
    exact_mod_cast this
  · intro a b c ha hb hc
    have h1 := hlen u v a ha
    have h2 := hlen v w b hb
    rw [hamming_eq h1] at ha
    rw [hamming_eq h2] at hb
    rw [hamming_eq (h1.trans h2)] at hc
    have ha := Except.ok.inj ha
    have hb := Except.ok.inj hb
    have hc := Except.ok.inj hc
    subst ha hb hc
    have hsub : diffPositions u w ⊆ diffPositions u v ∪ diffPositions v w := by
      intro i hi
      simp only [diffPositions, Finset.mem_filter, Finset.mem_range, Finset.mem_union] at hi ⊢
      by_contra hcon
      push Not at hcon
      have e1 := hcon.1 hi.1
      have e2 := hcon.2 (by omega)
      exact hi.2 (e1.trans e2)
    have := (Finset.card_le_card hsub).trans (Finset.card_union_le _ _)
    exact_mod_cast this

example : hamming [1, 0, 1, 1] [0, 0, 1, 0] = .ok 2 ∧ hamming [1] [1, 1] = .error (.exn "runtime_error") := by decide

end Seldon
