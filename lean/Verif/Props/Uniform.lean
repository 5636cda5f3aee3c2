import Verif.Props.Sampling
import Mathlib.Data.Nat.Factorial.Basic
import Mathlib.Data.Nat.Choose.Basic
import Mathlib.Data.List.Count
import Mathlib.Algebra.Order.BigOperators.Group.List
import Mathlib.Algebra.BigOperators.Group.List.Basic
/-!
# Property C62: `draw_unique_k_from_n` is unbiased

The sampler asks `std::uniform_int_distribution` for a number in `[0, m - 1]`, then `[0, m - 2]`, ..., where `m` is the
number of allowed indices.  `fairTapes m` lists every possible answer sequence exactly once, so if the answers are
independent and uniform all of its `m!` members are equally likely.
-/
namespace Seldon
open Draw Spec
variable {G F : Type}

/-- All sequences `d₀, d₁, …, d_{m-1}` with `d_i ≤ m - 1 - i`. -/
def fairTapes : Nat → List (List Nat)
  | 0     => [[]]
  | m + 1 => (List.range (m + 1)).flatMap (fun d => (fairTapes m).map (fun t => d :: t))

/-- What `fairTapes` is: exactly the sequences of length `m` whose `i`-th entry is in `[0, m - 1 - i]`, each once, `m!` in
total. -/
theorem C62_fairTapes (m : Nat) :
    (∀ t : List Nat, t ∈ fairTapes m ↔ t.length = m ∧ ∀ i d, t[i]? = some d → d ≤ m - 1 - i) ∧
    (fairTapes m).Nodup ∧ (fairTapes m).length = m.factorial := by
  induction m with
  | zero =>
    refine ⟨fun t => ?_, by simp [fairTapes], rfl⟩
    simp only [fairTapes, List.mem_singleton]
    constructor
    · rintro rfl; simp
    · intro h; exact List.eq_nil_of_length_eq_zero h.1
  | succ m ih =>
    obtain ⟨h1, h2, h3⟩ := ih
    refine ⟨fun t => ?_, ?_, ?_⟩
    · simp only [fairTapes, List.mem_flatMap, List.mem_range, List.mem_map]
      constructor
      · rintro ⟨d, hd, t, ht, rfl⟩
        obtain ⟨ha, hb⟩ := (h1 t).mp ht
        refine ⟨by simp [ha], ?_⟩
        intro i e he
        cases i with
        | zero => simp at he; omega
        | succ i => simp at he; have := hb i e he; omega
      · rintro ⟨ha, hb⟩
        cases t with
        | nil => simp at ha
        | cons d t =>
          have := hb 0 d (by simp)
          refine ⟨d, by omega, t, (h1 t).mpr ⟨by simpa using ha, ?_⟩, rfl⟩
          intro i e he
          have := hb (i + 1) e (by simpa using he)
          omega
    · rw [fairTapes, List.nodup_flatMap]
      refine ⟨fun d _ => h2.map (fun a b h => by simpa using h), ?_⟩
      apply List.nodup_range.imp
      intro a b hab
      simp only [Function.onFun, List.disjoint_left, List.mem_map]
      rintro _ ⟨t, _, rfl⟩ ⟨t', _, h⟩
      simp at h
      exact hab h.1.symm
    · simp [fairTapes, List.length_flatMap, h3, Nat.factorial_succ]

/-- The list of indices returned by a run of `draw_unique_k_from_n`, if it succeeds. -/
def outcome (x : Res (List Nat × List Nat)) : Option (List Nat) :=
  match x with
  | .ok (b, _) => some b
  | .error _   => none

theorem sum_map_range_ite (n a : Nat) (h : a ≤ n) (p q : Nat) :
    ((List.range n).map (fun d => if d < a then p else q)).sum = a * p + (n - a) * q := by
  induction n with
  | zero => simp at h; subst h; simp
  | succ n ih =>
    rw [List.range_succ, List.map_append, List.sum_append]
    by_cases ha : a ≤ n
    · rw [ih ha]
      simp only [List.map_cons, List.map_nil, List.sum_cons, List.sum_nil, if_neg (by omega : ¬ n < a)]
      rw [Nat.succ_sub ha, Nat.succ_mul]; omega
    · have : a = n + 1 := by omega
      subst this
      have : ((List.range n).map (fun d => if d < n + 1 then p else q)) = (List.range n).map (fun _ => p) := by
        apply List.map_congr_left
        intro d hd
        simp at hd
        rw [if_pos (by omega)]
      rw [this]
      simp [Nat.succ_mul]

/-- Selection sampling: of the `|xs|!` answer sequences exactly `k! · (|xs| - k)!` give the sublist `ys` of length `k`. -/
theorem select_count [Inhabited F] : ∀ (xs ys : List Nat), xs.Nodup → ys.Sublist xs →
    (fairTapes xs.length).countP
      (fun t => outcome (select (script : Rng (List Nat) F) xs ys.length t) = some ys) =
      ys.length.factorial * (xs.length - ys.length).factorial := by
  intro xs
  induction xs with
  | nil =>
    intro ys _ hs
    have : ys = [] := List.eq_nil_of_sublist_nil hs
    subst this
    simp [fairTapes, select, outcome]
  | cons x xs ih =>
    intro ys hnd hs
    have hx : x ∉ xs := (List.nodup_cons.mp hnd).1
    have hxs : xs.Nodup := (List.nodup_cons.mp hnd).2
    cases ys with
    | nil =>
      rw [List.countP_eq_length.mpr]
      · rw [(C62_fairTapes _).2.2]; simp
      · intro t _; simp [select, outcome]
    | cons y ys =>
      have hlen : ys.length ≤ xs.length := by simpa using hs.length_le
      rw [List.length_cons (a := x), fairTapes, List.countP_flatMap]
      -- the contribution of each first draw
      have key : ∀ d ∈ List.range (xs.length + 1),
          (List.countP (fun t => decide (outcome (select (script : Rng (List Nat) F) (x :: xs) (y :: ys).length t) =
              some (y :: ys))) ∘ fun d => (fairTapes xs.length).map (fun t => d :: t)) d =
          if d < ys.length + 1 then
            (if y = x then ys.length.factorial * (xs.length - ys.length).factorial else 0)
          else (if y = x then 0 else (ys.length + 1).factorial * (xs.length - (ys.length + 1)).factorial) := by
        intro d hd
        simp only [List.mem_range] at hd
        simp only [Function.comp, List.countP_map, List.length_cons]
        by_cases hlt : d < ys.length + 1
        · rw [if_pos hlt]
          have e : ∀ t, select (script : Rng (List Nat) F) (x :: xs) (ys.length + 1) (d :: t) =
              (do let (zs, g) ← select (script : Rng (List Nat) F) xs ys.length t; .ok (x :: zs, g)) :=
            fun t => select_take (script_int (by omega) t) hlt
          have e2 : ∀ t, outcome (select (script : Rng (List Nat) F) (x :: xs) (ys.length + 1) (d :: t)) =
              (outcome (select (script : Rng (List Nat) F) xs ys.length t)).map (x :: ·) := by
            intro t
            rw [e t]
            cases select (script : Rng (List Nat) F) xs ys.length t <;> rfl
          by_cases hyx : y = x
          · subst hyx
            rw [if_pos rfl, ← ih ys hxs (by
              cases hs with
              | cons _ h => exact absurd (h.subset (by simp)) hx
              | cons_cons _ h => exact h)]
            apply List.countP_congr
            intro t _
            simp only [Function.comp, e2 t, decide_eq_true_eq]
            cases outcome (select (script : Rng (List Nat) F) xs ys.length t) <;> simp
          · rw [if_neg hyx, List.countP_eq_zero]
            intro t _
            simp only [Function.comp, e2 t, decide_eq_true_eq]
            cases outcome (select (script : Rng (List Nat) F) xs ys.length t) <;> simp
            exact fun h => absurd h.symm hyx
        · rw [if_neg hlt]
          have e : ∀ t, select (script : Rng (List Nat) F) (x :: xs) (ys.length + 1) (d :: t) =
              select (script : Rng (List Nat) F) xs (ys.length + 1) t :=
            fun t => select_leave (script_int (by omega) t) hlt
          by_cases hyx : y = x
          · subst hyx
            rw [if_pos rfl, List.countP_eq_zero]
            intro t _
            simp only [Function.comp, e t, decide_eq_true_eq]
            intro h
            obtain ⟨zs, g', h1, h2, _⟩ := select_spec (F := F) script_lawful xs (ys.length + 1) t (by omega)
            rw [h1] at h
            simp only [outcome, Option.some.injEq] at h
            subst h
            exact hx (h2.subset (by simp))
          · rw [if_neg hyx]
            have := ih (y :: ys) hxs (by
              cases hs with
              | cons _ h => exact h
              | cons_cons _ h => exact absurd rfl hyx)
            rw [List.length_cons] at this
            rw [← this]
            apply List.countP_congr
            intro t _
            simp only [Function.comp, e t]
      rw [List.map_congr_left key, sum_map_range_ite _ _ (by omega)]
      by_cases hyx : y = x
      · simp only [hyx, if_true, List.length_cons, Nat.mul_zero, Nat.add_zero, Nat.factorial_succ, Nat.add_sub_add_right]
        ring
      · have hs' : (y :: ys).Sublist xs := by
          cases hs with
          | cons _ h => exact h
          | cons_cons _ h => exact absurd rfl hyx
        have hl : ys.length + 1 ≤ xs.length := by simpa using hs'.length_le
        simp only [hyx, if_false, List.length_cons, Nat.mul_zero, Nat.zero_add, Nat.add_sub_add_right]
        obtain ⟨c, hc⟩ := Nat.exists_eq_add_of_le hl
        rw [show xs.length - ys.length = c + 1 by omega, show xs.length - (ys.length + 1) = c by omega,
          Nat.factorial_succ c]
        ring

/-- C62: among all equally likely answer sequences, every strictly increasing list of allowed indices with `k` entries is
returned equally often, namely `k! · (m - k)!` times out of `m!` (`m` = number of allowed indices) — whatever was in the
buffer before. -/
theorem C62_uniform [Inhabited F] (ignore : Option Nat) (n : Nat) (target buffer : List Nat)
    (hsorted : target.Pairwise (· < ·)) (hallowed : ∀ i ∈ target, Allowed ignore n i) :
    ((fairTapes ((List.range n).filter (fun i => ignore ≠ some i)).length).countP (fun t =>
        outcome (drawUnique (script : Rng (List Nat) F) ignore target.length n buffer t) = some target)) *
      ((List.range n).filter (fun i => ignore ≠ some i)).length.choose target.length =
    (fairTapes ((List.range n).filter (fun i => ignore ≠ some i)).length).length := by
  have hsub : target.Sublist (avail ignore n) := sublist_avail hsorted hallowed
  have hav : (List.range n).filter (fun i => ignore ≠ some i) = avail ignore n := rfl
  have hlen : min target.length (avail ignore n).length = target.length := min_eq_left hsub.length_le
  have hnd : (avail ignore n).Nodup := (avail_sorted ignore n).imp (fun h => ne_of_lt h)
  have hc := select_count (F := F) (avail ignore n) target hnd hsub
  have hcount : (fairTapes (avail ignore n).length).countP (fun t =>
        outcome (drawUnique (script : Rng (List Nat) F) ignore target.length n buffer t) = some target) =
      target.length.factorial * ((avail ignore n).length - target.length).factorial := by
    rw [← hc]
    apply List.countP_congr
    intro t _
    simp only [decide_eq_true_eq]
    have : outcome (drawUnique (script : Rng (List Nat) F) ignore target.length n buffer t) =
        outcome (select (script : Rng (List Nat) F) (avail ignore n) target.length t) := by
      obtain ⟨ys, g', h1, _, h3⟩ := select_spec (F := F) script_lawful (avail ignore n) target.length t hsub.length_le
      simp only [drawUnique, sequence_avail, Res.bind_ok, hlen, h1]
      have hdrop : (resize buffer target.length).drop ys.length = [] := by
        rw [List.drop_eq_nil_iff, resize_length, h3]
      rw [hdrop, List.append_nil]
    rw [this]
  rw [hav, hcount, (C62_fairTapes _).2.2, ← Nat.choose_mul_factorial_mul_factorial hsub.length_le]
  ring

/-- The hypotheses are met, e.g. by the pair `[0, 3]` from `{0, 1, 3}`: two of the six answer sequences give it. -/
example : ((fairTapes 3).countP (fun t =>
    outcome (drawUnique (script : Rng (List Nat) Int) (some 2) 2 4 [9] t) = some [0, 3])) = 2 := by decide +kernel

end Seldon
