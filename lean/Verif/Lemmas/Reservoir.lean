import Verif.Lemmas.Sampling
import Mathlib.Data.List.Perm.Basic
/-!
# Helper lemmas about reservoir sampling (structural part: any numbers, any weights)
-/
set_option linter.unusedSectionVars false
namespace Seldon.Reservoir
open Seldon
variable {G F : Type}

theorem loop_error {σ : Type} {m k : Nat} {f : Nat → σ → Res σ} {s : σ} {e : Fault} (hmk : m ≤ k)
    (h : loop m f s = .error e) : loop k f s = .error e := by
  induction k with
  | zero => have : m = 0 := by omega
            subst this; exact h
  | succ k ih =>
    rcases Nat.lt_or_ge k m with hk | hk
    · have : m = k + 1 := by omega
      subst this; exact h
    · rw [loop_succ, ih hk]; rfl

section
variable {pick : List (Nat × F) → Nat}

theorem top_pop (hp : Pick.Valid pick) {H : List (Nat × F)} (hH : H ≠ []) :
    ∃ x H', top pick H = .ok x ∧ pop pick H = .ok H' ∧ (x :: H').Perm H := by
  have hlt := hp.lt H hH
  refine ⟨H[pick H], H.eraseIdx (pick H), ?_, ?_, List.getElem_cons_eraseIdx_perm hlt⟩
  · simp [top, hH, rd_lt hlt]
  · simp [pop, hH]

theorem drain_spec (hp : Pick.Valid pick) {H : List (Nat × F)} :
    ∃ b, drain pick H.length H = .ok b ∧ b.Perm (H.map (·.1)) := by
  have := loop_inv (n := H.length) (s := (List.replicate H.length 0, H))
    (f := fun i (s : List Nat × List (Nat × F)) => do
      let x ← top pick s.2
      let buffer ← wr s.1 i x.1
      let H ← pop pick s.2
      .ok (buffer, H))
    (fun i s => ∃ P : List Nat, P.length = i ∧ s.1 = P ++ List.replicate (H.length - i) 0 ∧
      (P ++ s.2.map (·.1)).Perm (H.map (·.1)))
    ⟨[], rfl, by simp, by simp⟩ (by
      rintro i ⟨b, Q⟩ hi ⟨P, hP, hb, hperm⟩
      simp only at hb hperm ⊢
      have hQ : Q ≠ [] := by
        rintro rfl
        have := hperm.length_eq
        simp at this
        omega
      obtain ⟨x, Q', h1, h2, h3⟩ := top_pop hp hQ
      have hlen : i < b.length := by rw [hb]; simp; omega
      refine ⟨(b.set i x.1, Q'), ?_, P ++ [x.1], by simp [hP], ?_, ?_⟩
      · simp only [h1, h2, Res.bind_ok, wr_lt _ hlen]
      · rw [hb]
        obtain ⟨d, hd⟩ := Nat.exists_eq_succ_of_ne_zero (by omega : H.length - i ≠ 0)
        have hd' : H.length - (i + 1) = d := by omega
        rw [hd, hd', List.replicate_succ, List.set_append_right _ _ (by omega), hP]
        simp
      · have : (P ++ [x.1] ++ Q'.map (·.1)) = P ++ ((x :: Q').map (·.1)) := by simp
        rw [this]
        exact ((h3.map _).append_left P).trans hperm)
  obtain ⟨⟨b, Q⟩, h1, P, hP, hb, hperm⟩ := this
  refine ⟨b, ?_, ?_⟩
  · simp only [drain, h1, Res.bind_ok]
  · simp only at hb hperm
    have hQ : Q = [] := by
      have := hperm.length_eq
      simp at this
      have h0 : Q.length = 0 := by omega
      exact List.eq_nil_of_length_eq_zero h0
    subst hQ
    simpa [hb] using hperm

theorem drain_too_many (hp : Pick.Valid pick) {H : List (Nat × F)} {k : Nat} (hk : H.length < k) :
    drain pick k H = .error .ub := by
  unfold drain
  obtain ⟨b, hb, _⟩ := drain_spec hp (H := H)
  unfold drain at hb
  obtain ⟨s, hs, hsb⟩ := Res.bind_eq_ok.mp hb
  have hlen : s.2 = [] := by
    have := loop_inv (n := H.length) (s := (List.replicate H.length 0, H))
      (f := fun i (s : List Nat × List (Nat × F)) => do
        let x ← top pick s.2
        let buffer ← wr s.1 i x.1
        let H ← pop pick s.2
        .ok (buffer, H))
      (fun i s => s.1.length = H.length ∧ s.2.length = H.length - i) ⟨by simp, rfl⟩ (by
        rintro i ⟨b, Q⟩ hi ⟨h1, h2⟩
        simp only at h1 h2 ⊢
        have hQ : Q ≠ [] := by rintro rfl; simp at h2; omega
        obtain ⟨x, Q', h3, h4, h5⟩ := top_pop hp hQ
        refine ⟨(b.set i x.1, Q'), ?_, ?_, ?_⟩
        · simp only [h3, h4, Res.bind_ok, wr_lt _ (show i < b.length by omega)]
        · simpa using h1
        · have := h5.length_eq
          simp at this
          simp only
          omega)
    obtain ⟨t, ht, _, h2⟩ := this
    have := Except.ok.inj (hs.symm.trans ht)
    subst this
    simpa using h2
  have herr : loop (H.length + 1) (fun i (s : List Nat × List (Nat × F)) => do
        let x ← top pick s.2
        let buffer ← wr s.1 i x.1
        let H ← pop pick s.2
        .ok (buffer, H)) (List.replicate H.length 0, H) = .error .ub := by
    rw [loop_succ, hs, Res.bind_ok]
    simp [top, hlen]
  rw [loop_error hk herr]
  rfl

end

variable [Zero F] [One F] [Sub F] [Mul F] [Add F] [Div F] [LE F] [DecidableLE F]
variable {o : Ops F} {pick : List (Nat × F) → Nat} {r : Rng G F} {weight : Nat → F}

theorem fill_spec (m : Nat) (g : G) :
    ∃ H g', fill o r weight m g = .ok (H, g') ∧ H.map (·.1) = List.range m := by
  have := loop_inv (n := m) (s := (([] : List (Nat × F)), g))
    (f := fun idx s =>
      let (u, g) := r.unit s.2
      .ok (s.1 ++ [(idx, o.pow u (1 / weight idx))], g))
    (fun i s => s.1.map (·.1) = List.range i) rfl (by
      rintro i ⟨H, g⟩ _ h
      exact ⟨_, rfl, by simp only at h; simp [h, List.range_succ]⟩)
  obtain ⟨⟨H, g'⟩, h1, h2⟩ := this
  exact ⟨H, g', h1, h2⟩

/-- Structural invariant of the queue: `k` distinct items, all below `b`. -/
structure QInv (k b : Nat) (H : List (Nat × F)) : Prop where
  len : H.length = k
  nodup : (H.map (·.1)).Nodup
  lt : ∀ x ∈ H, x.1 < b

theorem QInv.push {k b : Nat} {H H' : List (Nat × F)} {x : Nat × F} {key : F} (h : QInv k b H) (hp : (x :: H').Perm H) :
    QInv k (b + 1) (H' ++ [(b, key)]) := by
  have hsub : ∀ y ∈ H', y.1 < b := fun y hy => h.lt y (hp.mem_iff.mp (List.mem_cons_of_mem _ hy))
  refine ⟨?_, ?_, ?_⟩
  · have := hp.length_eq; simp at this; simp [this, h.len]
  · have hn := ((hp.map (·.1)).nodup_iff.mpr h.nodup)
    rw [List.map_cons, List.nodup_cons] at hn
    rw [List.map_append, List.nodup_append]
    refine ⟨hn.2, by simp, ?_⟩
    intro a ha c hc
    obtain ⟨y, hy, rfl⟩ := List.mem_map.mp ha
    simp at hc
    subst hc
    have := hsub y hy
    omega
  · intro y hy
    rcases List.mem_append.mp hy with hy | hy
    · have := hsub y hy; omega
    · simp at hy; subst hy; exact Nat.lt_succ_self b

theorem jumpStep_spec (hp : Pick.Valid pick) {k b : Nat} (hk : 0 < k) {H : List (Nat × F)} {X : F} {g : G}
    (h : QInv k b H) :
    ∃ H' X' g', jumpStep o pick r weight b (H, X, g) = .ok (H', X', g') ∧ QInv k (b + 1) H' := by
  unfold jumpStep
  simp only
  by_cases hX : X - weight b ≤ 0
  · rw [if_pos hX]
    have hH : H ≠ [] := by rintro rfl; have := h.len; simp at this; omega
    obtain ⟨x, H', h1, h2, h3⟩ := top_pop hp hH
    rw [h1]
    simp only [Res.bind_ok]
    rw [h2]
    simp only [Res.bind_ok]
    have hne : H' ++ [(b, o.pow ((r.unit g).1 * (1 - o.pow x.2 (weight b)) + o.pow x.2 (weight b)) (1 / weight b))] ≠ [] := by simp
    obtain ⟨y, _, h4, _, _⟩ := top_pop hp hne
    rw [h4]
    exact ⟨_, _, _, rfl, h.push h3⟩
  · rw [if_neg hX]
    refine ⟨_, _, _, rfl, h.len, h.nodup, ?_⟩
    intro x hx
    have := h.lt x hx; omega

/-- Structural result: with `0 < k ≤ n` sampling succeeds and returns `k` distinct indices below `n`. -/
theorem sample_spec (hp : Pick.Valid pick) {k n : Nat} (hk : 0 < k) (hkn : k ≤ n) (buffer : List Nat) (g : G) :
    ∃ b g', sample o pick r k n weight buffer g = .ok (b, g') ∧ b.length = k ∧ b.Nodup ∧ ∀ i ∈ b, i < n := by
  unfold sample
  rw [if_neg (by omega)]
  simp only [min_eq_right hkn]
  obtain ⟨H, g1, h1, h2⟩ := fill_spec (o := o) (r := r) (weight := weight) k g
  simp only [h1, Res.bind_ok]
  have hlen : H.length = k := by
    have := congrArg List.length h2
    simpa using this
  have hH : H ≠ [] := by rintro rfl; simp at hlen; omega
  obtain ⟨x, _, h3, _, _⟩ := top_pop hp hH
  rw [h3]
  simp only [Res.bind_ok]
  have hQ : QInv k (k + 0) H := by
    refine ⟨hlen, by rw [h2]; exact List.nodup_range, ?_⟩
    intro y hy
    have : y.1 ∈ H.map (·.1) := List.mem_map_of_mem hy
    rw [h2] at this
    simpa using this
  have := loop_inv (n := n - k) (s := (H, o.log (r.unit g1).1 / o.log x.2, (r.unit g1).2))
    (f := fun j s => jumpStep o pick r weight (k + j) s)
    (fun j s => QInv k (k + j) s.1) hQ (by
      rintro j ⟨H, X, g⟩ _ h
      obtain ⟨H', X', g', h4, h5⟩ := jumpStep_spec (o := o) (r := r) (weight := weight) hp hk (X := X) (g := g) h
      exact ⟨_, h4, h5⟩)
  obtain ⟨⟨H2, X2, g2⟩, h4, h5⟩ := this
  rw [h4]
  simp only [Res.bind_ok]
  simp only at h5
  obtain ⟨b, h6, h7⟩ := drain_spec hp (H := H2)
  rw [h5.len] at h6
  rw [h6]
  refine ⟨b, g2, rfl, ?_, h7.nodup_iff.mpr h5.nodup, ?_⟩
  · rw [h7.length_eq, List.length_map, h5.len]
  · intro i hi
    obtain ⟨y, hy, rfl⟩ := List.mem_map.mp (h7.mem_iff.mp hi)
    have := h5.lt y hy
    omega

theorem sample_too_many (hp : Pick.Valid pick) {k n : Nat} (hkn : n < k) (buffer : List Nat) (g : G) :
    sample o pick r k n weight buffer g = .error .ub := by
  unfold sample
  rw [if_neg (by omega)]
  simp only [min_eq_left (le_of_lt hkn)]
  obtain ⟨H, g1, h1, h2⟩ := fill_spec (o := o) (r := r) (weight := weight) n g
  simp only [h1, Res.bind_ok]
  have hlen : H.length = n := by
    have := congrArg List.length h2
    simpa using this
  by_cases hH : H = []
  · subst hH; simp [top]
  · obtain ⟨x, _, h3, _, _⟩ := top_pop hp hH
    rw [h3]
    simp only [Res.bind_ok, Nat.sub_self, loop_zero]
    rw [drain_too_many hp (by omega)]
    rfl

end Seldon.Reservoir
