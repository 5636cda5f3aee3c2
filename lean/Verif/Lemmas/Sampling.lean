import Verif.Lemmas.Basic
import Verif.Model.Sampling
import Mathlib.Data.List.Basic
import Mathlib.Data.List.Range
import Mathlib.Data.List.Nodup
/-!
# Helper lemmas about selection and reservoir sampling
-/
namespace Seldon
variable {G F : Type}

namespace Draw

/-- The indices `draw_unique_k_from_n` may choose from. -/
def avail (ignore : Option Nat) (n : Nat) : List Nat := (List.range n).filter (fun i => ignore ≠ some i)

theorem sequence_eq (ignore : Option Nat) (n : Nat) : ∀ (d i fuel : Nat), i + d = n → d < fuel →
    sequence ignore (skip ignore n) fuel (skip ignore i) = .ok ((List.range' i d).filter (fun i => ignore ≠ some i)) := by
  intro d
  induction d with
  | zero =>
    intro i fuel hi hf
    obtain ⟨fuel, rfl⟩ := Nat.exists_eq_succ_of_ne_zero (by omega : fuel ≠ 0)
    have : i = n := by omega
    subst this
    simp [sequence]
  | succ d ih =>
    intro i fuel hi hf
    by_cases hig : ignore = some i
    · have h1 : skip ignore i = i + 1 := by simp [skip, hig]
      have h2 : skip ignore (i + 1) = i + 1 := by simp [skip, hig]
      rw [h1, ← h2, ih (i + 1) fuel (by omega) (by omega)]
      rw [List.range'_succ, List.filter_cons_of_neg (by simp [hig])]
    · obtain ⟨fuel, rfl⟩ := Nat.exists_eq_succ_of_ne_zero (by omega : fuel ≠ 0)
      have h1 : skip ignore i = i := by simp [skip, hig]
      have h2 : i ≠ skip ignore n := by
        unfold skip; split <;> omega
      rw [h1, sequence, if_neg h2, ih (i + 1) fuel (by omega) (by omega)]
      rw [List.range'_succ, List.filter_cons_of_pos (by simp [hig])]
      rfl

theorem sequence_avail (ignore : Option Nat) (n : Nat) :
    sequence ignore (skip ignore n) (n + 2) (skip ignore 0) = .ok (avail ignore n) := by
  rw [sequence_eq ignore n n 0 (n + 2) (by omega) (by omega), avail, List.range_eq_range']

theorem select_spec {r : Rng G F} (hr : r.IntLawful) : ∀ (xs : List Nat) (k : Nat) (g : G), k ≤ xs.length →
    ∃ ys g', select r xs k g = .ok (ys, g') ∧ ys.Sublist xs ∧ ys.length = k := by
  intro xs
  induction xs with
  | nil =>
    intro k g hk
    have : k = 0 := by simpa using hk
    subst this
    exact ⟨[], g, by simp [select], List.Sublist.refl _, rfl⟩
  | cons x xs ih =>
    intro k g hk
    cases k with
    | zero => exact ⟨[], g, by simp [select], List.nil_sublist _, rfl⟩
    | succ k =>
      have hd := hr.int_le 0 xs.length g (Nat.zero_le _)
      rw [select]
      generalize r.int 0 xs.length g = dg at *
      obtain ⟨d, g1⟩ := dg
      simp only at hd ⊢
      by_cases hlt : d < k + 1
      · rw [if_pos hlt]
        obtain ⟨ys, g', h1, h2, h3⟩ := ih k g1 (by simpa using hk)
        exact ⟨x :: ys, g', by rw [h1]; rfl, h2.cons_cons x, by simp [h3]⟩
      · rw [if_neg hlt]
        obtain ⟨ys, g', h1, h2, h3⟩ := ih (k + 1) g1 (by omega)
        exact ⟨ys, g', h1, h2.cons x, h3⟩

theorem drawUnique_eq {r : Rng G F} (hr : r.IntLawful) (ignore : Option Nat) (k n : Nat) (buffer : List Nat) (g : G) :
    ∃ ys g', drawUnique r ignore k n buffer g = .ok (ys ++ (resize buffer k).drop ys.length, g') ∧
      ys.Sublist (avail ignore n) ∧ ys.length = min k (avail ignore n).length := by
  obtain ⟨ys, g', h1, h2, h3⟩ := select_spec hr (avail ignore n) (min k (avail ignore n).length) g (min_le_right _ _)
  refine ⟨ys, g', ?_, h2, h3⟩
  simp only [drawUnique, sequence_avail, Res.bind_ok, h1]

theorem resize_length (buffer : List Nat) (k : Nat) : (resize buffer k).length = k := by
  simp [resize]; omega

theorem mem_avail {ignore : Option Nat} {n i : Nat} : i ∈ avail ignore n ↔ i < n ∧ ignore ≠ some i := by
  simp [avail]

theorem avail_sorted (ignore : Option Nat) (n : Nat) : (avail ignore n).Pairwise (· < ·) :=
  List.pairwise_lt_range.filter _

theorem avail_none (n : Nat) : avail none n = List.range n := by simp [avail]

theorem avail_length_some {n i : Nat} (hi : i < n) : (avail (some i) n).length = n - 1 := by
  have h : ((List.range n).filter (fun j => decide (j ≠ i))).length + ((List.range n).filter (fun j => !decide (j ≠ i))).length = n := by
    rw [← List.length_append]
    have := (List.filter_append_perm (fun j => decide (j ≠ i)) (List.range n)).length_eq
    simpa using this
  have h1 : ((List.range n).filter (fun j => !decide (j ≠ i))) = [i] := by
    have : ((List.range n).filter (fun j => !decide (j ≠ i))) = (List.range n).filter (· == i) := by
      apply List.filter_congr
      intro j _
      by_cases hj : j = i <;> simp [hj]
    rw [this]
    have hc : (List.range n).count i = 1 := List.count_eq_one_of_mem List.nodup_range (by simpa using hi)
    rw [List.filter_beq, hc]; rfl
  rw [h1] at h
  have e : avail (some i) n = (List.range n).filter (fun j => decide (j ≠ i)) := by
    unfold avail
    apply List.filter_congr
    intro j _
    simp [eq_comm]
  rw [e]
  simp at h ⊢
  omega

/-- A generator whose state is the list of integers it will deliver. -/
def script [Inhabited F] : Rng (List Nat) F where
  unit g := (default, g)
  int a b g := (max a (min b (g.headD 0)), g.tail)
  normal g := (default, g)

theorem script_lawful [Inhabited F] : (script : Rng (List Nat) F).IntLawful where
  int_ge _ _ _ _ := le_max_left _ _
  int_le _ _ _ h := max_le h (min_le_left _ _)

theorem script_int [Inhabited F] {b d : Nat} (h : d ≤ b) (tl : List Nat) :
    (script : Rng (List Nat) F).int 0 b (d :: tl) = (d, tl) := by
  simp [script, h]

theorem select_take {r : Rng G F} {x : Nat} {xs : List Nat} {k d : Nat} {g g1 : G}
    (h : r.int 0 xs.length g = (d, g1)) (hd : d < k + 1) :
    select r (x :: xs) (k + 1) g = (do let (ys, g) ← select r xs k g1; .ok (x :: ys, g)) := by
  rw [select]; simp only [h, hd, if_true]

theorem select_leave {r : Rng G F} {x : Nat} {xs : List Nat} {k d : Nat} {g g1 : G}
    (h : r.int 0 xs.length g = (d, g1)) (hd : ¬ d < k + 1) :
    select r (x :: xs) (k + 1) g = select r xs (k + 1) g1 := by
  rw [select]; simp only [h, hd, if_false]

theorem select_reaches [Inhabited F] {ys xs : List Nat} (h : ys.Sublist xs) :
    ∃ g : List Nat, ∀ tl, select (script : Rng (List Nat) F) xs ys.length (g ++ tl) = .ok (ys, tl) := by
  induction h with
  | slnil => exact ⟨[], fun tl => by simp [select]⟩
  | @cons ys xs x h ih =>
    obtain ⟨g, hg⟩ := ih
    cases hy : ys.length with
    | zero =>
      refine ⟨[], fun tl => ?_⟩
      have : ys = [] := List.eq_nil_of_length_eq_zero hy
      subst this
      simp [select]
    | succ k =>
      refine ⟨(k + 1) :: g, fun tl => ?_⟩
      have hle : k + 1 ≤ xs.length := by rw [← hy]; exact h.length_le
      rw [List.cons_append, select_leave (script_int hle _) (lt_irrefl _), ← hy]
      exact hg tl
  | @cons_cons ys xs x h ih =>
    obtain ⟨g, hg⟩ := ih
    refine ⟨0 :: g, fun tl => ?_⟩
    rw [List.length_cons, List.cons_append, select_take (script_int (Nat.zero_le _) _) (Nat.succ_pos _), hg tl]
    rfl

end Draw
end Seldon
