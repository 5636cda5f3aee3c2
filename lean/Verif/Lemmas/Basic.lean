import Verif.Model.Basic
/-!
# Helper lemmas about outcomes, checked accesses and loops
-/
namespace Seldon

@[simp] theorem Res.bind_ok {α β : Type} (a : α) (f : α → Res β) : ((Except.ok a : Res α) >>= f) = f a := rfl
@[simp] theorem Res.bind_error {α β : Type} (e : Fault) (f : α → Res β) :
    ((Except.error e : Res α) >>= f) = .error e := rfl
@[simp] theorem Res.pure_eq {α : Type} (a : α) : (pure a : Res α) = .ok a := rfl

theorem Res.bind_eq_ok {α β : Type} {x : Res α} {f : α → Res β} {b : β} :
    (x >>= f) = .ok b ↔ ∃ a, x = .ok a ∧ f a = .ok b := by
  cases x <;> simp

theorem getD_lt {α : Type} (l : List α) (d : α) {i : Nat} (h : i < l.length) : l.getD i d = l[i] := by
  simp [List.getD, h]

theorem rd_eq_ok {α : Type} {l : List α} {i : Nat} {a : α} : rd l i = .ok a ↔ l[i]? = some a := by
  unfold rd; cases h : l[i]? <;> simp

theorem rd_lt {α : Type} {l : List α} {i : Nat} (h : i < l.length) : rd l i = .ok l[i] := by
  simp [rd, h]

theorem rd_ge {α : Type} {l : List α} {i : Nat} (h : l.length ≤ i) : rd l i = .error .ub := by
  simp [rd, h]

theorem rd_getD {α : Type} {l : List α} {i : Nat} (d : α) (h : i < l.length) : rd l i = .ok (l.getD i d) := by
  simp [rd, h]

theorem wr_lt {α : Type} {l : List α} {i : Nat} (a : α) (h : i < l.length) : wr l i a = .ok (l.set i a) := by
  simp [wr, h]

theorem wr_ge {α : Type} {l : List α} {i : Nat} (a : α) (h : l.length ≤ i) : wr l i a = .error .ub := by
  simp [wr, Nat.not_lt.mpr h]

theorem wr_eq_ok {α : Type} {l : List α} {i : Nat} {a : α} {l' : List α} :
    wr l i a = .ok l' ↔ i < l.length ∧ l' = l.set i a := by
  unfold wr
  split
  · simp_all [eq_comm]
  · simp only [reduceCtorEq, false_iff, not_and]; intro h; contradiction

@[simp] theorem loop_zero {σ : Type} (f : Nat → σ → Res σ) (s : σ) : loop 0 f s = .ok s := rfl
theorem loop_succ {σ : Type} (n : Nat) (f : Nat → σ → Res σ) (s : σ) :
    loop (n + 1) f s = loop n f s >>= f n := rfl

/-- Invariant rule for counting loops. -/
theorem loop_inv {σ : Type} {n : Nat} {f : Nat → σ → Res σ} {s : σ} (I : Nat → σ → Prop) (h0 : I 0 s)
    (hs : ∀ i t, i < n → I i t → ∃ t', f i t = .ok t' ∧ I (i + 1) t') :
    ∃ t, loop n f s = .ok t ∧ I n t := by
  induction n with
  | zero => exact ⟨s, rfl, h0⟩
  | succ n ih =>
    obtain ⟨t, ht, hI⟩ := ih (fun i t hi => hs i t (Nat.lt_succ_of_lt hi))
    obtain ⟨t', ht', hI'⟩ := hs n t (Nat.lt_succ_self n) hI
    exact ⟨t', by simp [loop_succ, ht, ht'], hI'⟩

/-- Loops whose state after `i` rounds is known in closed form. -/
theorem loop_eq {σ : Type} {n : Nat} {f : Nat → σ → Res σ} (g : Nat → σ)
    (hs : ∀ i, i < n → f i (g i) = .ok (g (i + 1))) : loop n f (g 0) = .ok (g n) := by
  induction n with
  | zero => rfl
  | succ n ih => simp [loop_succ, ih (fun i hi => hs i (Nat.lt_succ_of_lt hi)), hs n (Nat.lt_succ_self n)]

/-- Two loops with pointwise equal bodies agree. -/
theorem loop_congr {σ : Type} {n : Nat} {f g : Nat → σ → Res σ} {s : σ}
    (h : ∀ i t, i < n → f i t = g i t) : loop n f s = loop n g s := by
  induction n with
  | zero => rfl
  | succ n ih =>
    rw [loop_succ, loop_succ, ih (fun i t hi => h i t (Nat.lt_succ_of_lt hi))]
    cases loop n g s with
    | error e => rfl
    | ok t => exact h n t (Nat.lt_succ_self n)

end Seldon
