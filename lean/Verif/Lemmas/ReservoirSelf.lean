import Verif.Lemmas.Reservoir
import Verif.Spec.ExtReal
/-!
# Helper lemmas: a zero-weight item is never sampled
-/
namespace Seldon.Reservoir
open Seldon Spec Spec.XR
variable {G : Type}

/-- Key strictly inside (0, 1). -/
def Inside (x : XR) : Prop := ∃ q : ℝ, x = fin q ∧ 0 < q ∧ q < 1

theorem pow_inside {u w : ℝ} (hu0 : 0 < u) (hu1 : u < 1) (hw : 0 < w) : Inside (XR.pow (fin u) (1 / fin w)) := by
  refine ⟨u ^ (1 / w), ?_, Real.rpow_pos_of_pos hu0 _, Real.rpow_lt_one hu0.le hu1 (by positivity)⟩
  rw [one_def, div_fin _ _ hw.ne']
  simp [XR.pow, hu0.ne', hu0]

theorem pow_self {u : ℝ} (hu0 : 0 < u) (hu1 : u < 1) : XR.pow (fin u) (1 / (0 : XR)) = fin 0 := by
  rw [zero_def, one_div_zero]
  simp [XR.pow, hu1, not_lt.mpr hu0.le]

theorem log_ratio {u q : ℝ} (hu0 : 0 < u) (hu1 : u < 1) (hq0 : 0 < q) (hq1 : q < 1) :
    ∃ x : ℝ, XR.log (fin u) / XR.log (fin q) = fin x ∧ 0 < x := by
  have h1 := Real.log_neg hu0 hu1
  have h2 := Real.log_neg hq0 hq1
  refine ⟨Real.log u / Real.log q, ?_, div_pos_of_neg_of_neg h1 h2⟩
  simp only [XR.log, hu0.ne', hq0.ne', hu0, hq0, if_true, if_false]
  exact div_fin _ _ h2.ne

theorem log_ratio_zero {u : ℝ} (hu0 : 0 < u) : XR.log (fin u) / XR.log (fin 0) = fin 0 := by
  simp only [XR.log, hu0.ne', hu0, if_true, if_false]
  rfl

/-- The key of a replacement item lies strictly inside (0, 1), also when the ejected key is 0. -/
theorem new_key_inside {u w q : ℝ} (hu0 : 0 < u) (hu1 : u < 1) (hw : 0 < w) (hq0 : 0 ≤ q) (hq1 : q < 1) :
    Inside (XR.pow (fin u * (1 - XR.pow (fin q) (fin w)) + XR.pow (fin q) (fin w)) (1 / fin w)) := by
  obtain ⟨t, ht, ht0, ht1⟩ : ∃ t : ℝ, XR.pow (fin q) (fin w) = fin t ∧ 0 ≤ t ∧ t < 1 := by
    rcases hq0.eq_or_lt with rfl | hq
    · exact ⟨0, by simp [XR.pow, hw], le_refl _, one_pos⟩
    · exact ⟨q ^ w, by simp [XR.pow, hq.ne', hq], (Real.rpow_pos_of_pos hq w).le, Real.rpow_lt_one hq.le hq1 hw⟩
  rw [ht, one_def, sub_fin, mul_fin, add_fin, ← one_def]
  apply pow_inside _ _ hw
  · nlinarith [mul_pos hu0 (sub_pos.mpr ht1)]
  · nlinarith [mul_pos (sub_pos.mpr hu1) (sub_pos.mpr ht1)]

/-- Neither the zero-weight item nor a degenerate key is left. -/
structure Clean (s : Nat) (H : List (Nat × XR)) (X : XR) : Prop where
  no : ∀ x ∈ H, x.1 ≠ s
  keys : ∀ x ∈ H, Inside x.2
  jump : ∃ x : ℝ, X = fin x ∧ 0 < x

/-- Right after filling, with the zero-weight item among the first `k`. -/
structure Dirty (s : Nat) (H : List (Nat × XR)) (X : XR) : Prop where
  self : (s, fin 0) ∈ H
  keys : ∀ x ∈ H, x.1 ≠ s → Inside x.2
  nodup : (H.map (·.1)).Nodup
  jump : X = fin 0

section
variable {pick : List (Nat × XR) → Nat} {r : Rng G XR} {weight : Nat → XR} {s n : Nat}

theorem top_min (hp : Pick.Min pick) {H : List (Nat × XR)} {x : Nat × XR} (h : top pick H = .ok x) :
    x ∈ H ∧ ∀ y ∈ H, ¬ y.2 < x.2 := by
  unfold top at h
  split at h
  · simp at h
  · have := rd_eq_ok.mp h
    exact ⟨List.mem_of_getElem? this, hp.min H x this⟩

theorem pop_eq {H H' : List (Nat × XR)} {x : Nat × XR} (hv : Pick.Valid pick) (h : top pick H = .ok x)
    (h' : pop pick H = .ok H') : (x :: H').Perm H := by
  have hH : H ≠ [] := by rintro rfl; simp [top] at h
  obtain ⟨y, Q, h1, h2, h3⟩ := top_pop hv hH
  have e1 := Except.ok.inj (h1.symm.trans h)
  have e2 := Except.ok.inj (h2.symm.trans h')
  subst e1 e2; exact h3

theorem clean_step (hp : Pick.Min pick) (hr : ∀ g, Inside (r.unit g).1) (hs : weight s = 0)
    {idx : Nat} (hw : idx ≠ s → ∃ w : ℝ, weight idx = fin w ∧ 0 < w) {H : List (Nat × XR)} {X : XR} {g : G}
    (h : Clean s H X ∨ (idx ≠ s ∧ Dirty s H X)) {t : List (Nat × XR) × XR × G}
    (hstep : jumpStep XR.ops pick r weight idx (H, X, g) = .ok t) : Clean s t.1 t.2.1 := by
  have hv : Pick.Valid pick := ⟨hp.lt⟩
  unfold jumpStep at hstep
  simp only at hstep
  by_cases hidx : idx = s
  · -- the zero-weight item itself: X does not change and stays positive
    rcases h with h | ⟨h, _⟩
    · obtain ⟨x, hx, hx0⟩ := h.jump
      subst hidx
      rw [hs, hx, zero_def, sub_fin, sub_zero, if_neg (fun hc => not_le.mpr hx0 ((le_fin _ _).mp hc))] at hstep
      have := Except.ok.inj hstep
      subst this
      exact ⟨h.no, h.keys, x, rfl, hx0⟩
    · exact absurd hidx h
  · obtain ⟨w, hw1, hw0⟩ := hw hidx
    by_cases hX : X - weight idx ≤ 0
    · rw [if_pos hX] at hstep
      obtain ⟨x, hx, hstep⟩ := Res.bind_eq_ok.mp hstep
      obtain ⟨H', hH', hstep⟩ := Res.bind_eq_ok.mp hstep
      obtain ⟨y, hy, hstep⟩ := Res.bind_eq_ok.mp hstep
      have := Except.ok.inj hstep
      subst this
      have hperm := pop_eq hv hx hH'
      obtain ⟨u, hu, hu0, hu1⟩ := hr g
      obtain ⟨u', hu', hu0', hu1'⟩ := hr (r.unit g).2
      -- the ejected key is in [0, 1), and the remaining items are clean
      have hq : ∃ q : ℝ, x.2 = fin q ∧ 0 ≤ q ∧ q < 1 := by
        rcases h with h | ⟨_, h⟩
        · obtain ⟨q, h1, h2, h3⟩ := h.keys x (top_min hp hx).1
          exact ⟨q, h1, h2.le, h3⟩
        · by_cases hxs : x.1 = s
          · have hmem := (top_min hp hx).1
            have : x = (s, fin 0) := by
              apply (List.inj_on_of_nodup_map h.nodup) hmem h.self
              exact hxs
            rw [this]; exact ⟨0, rfl, le_refl _, one_pos⟩
          · obtain ⟨q, h1, h2, h3⟩ := h.keys x (top_min hp hx).1 hxs
            exact ⟨q, h1, h2.le, h3⟩
      obtain ⟨q, hq, hq0, hq1⟩ := hq
      have hrest : ∀ z ∈ H', z.1 ≠ s ∧ Inside z.2 := by
        intro z hz
        have hzH : z ∈ H := hperm.mem_iff.mp (List.mem_cons_of_mem _ hz)
        rcases h with h | ⟨_, h⟩
        · exact ⟨h.no z hzH, h.keys z hzH⟩
        · have hxs : x.1 = s := by
            by_contra hxs
            obtain ⟨q', h1, h2, _⟩ := h.keys x (top_min hp hx).1 hxs
            have := (top_min hp hx).2 _ h.self
            rw [h1, lt_fin] at this
            exact this h2
          have hn := (hperm.map (·.1)).nodup_iff.mpr h.nodup
          rw [List.map_cons, List.nodup_cons, hxs] at hn
          have hzs : z.1 ≠ s := fun e => hn.1 (e ▸ List.mem_map_of_mem hz)
          exact ⟨hzs, h.keys z hzH hzs⟩
      have hkey : Inside (XR.ops.pow ((r.unit g).1 * (1 - XR.ops.pow x.2 (weight idx)) + XR.ops.pow x.2 (weight idx))
          (1 / weight idx)) := by
        rw [hu, hw1, hq]
        exact new_key_inside hu0 hu1 hw0 hq0 hq1
      have hall : ∀ z ∈ H' ++ [(idx, XR.ops.pow ((r.unit g).1 * (1 - XR.ops.pow x.2 (weight idx)) + XR.ops.pow x.2 (weight idx))
          (1 / weight idx))], z.1 ≠ s ∧ Inside z.2 := by
        intro z hz
        rcases List.mem_append.mp hz with hz | hz
        · exact hrest z hz
        · rw [List.mem_singleton] at hz
          subst hz
          exact ⟨hidx, hkey⟩
      refine ⟨fun z hz => (hall z hz).1, fun z hz => (hall z hz).2, ?_⟩
      obtain ⟨p, hp1, hp2, hp3⟩ := (hall y (top_min hp hy).1).2
      obtain ⟨x', h1, h2⟩ := log_ratio hu0' hu1' hp2 hp3
      refine ⟨x', ?_, h2⟩
      simp only [XR.ops]
      rw [hu', hp1]
      exact h1
    · rw [if_neg hX] at hstep
      have := Except.ok.inj hstep
      subst this
      rcases h with h | ⟨_, h⟩
      · obtain ⟨x, hx, hx0⟩ := h.jump
        rw [hx, hw1, sub_fin, zero_def, le_fin] at hX
        refine ⟨h.no, h.keys, x - w, ?_, not_le.mp hX⟩
        simp only
        rw [hx, hw1, sub_fin]
      · exfalso
        apply hX
        rw [h.jump, hw1, sub_fin, zero_def, le_fin]
        linarith

/-- The keys after filling. -/
theorem fill_keys (hr : ∀ g, Inside (r.unit g).1) (hs : weight s = 0) {k : Nat}
    (hw : ∀ i, i < k → i ≠ s → ∃ w : ℝ, weight i = fin w ∧ 0 < w) (g : G) :
    ∃ H g', fill XR.ops r weight k g = .ok (H, g') ∧ H.map (·.1) = List.range k ∧
      (∀ x ∈ H, x.1 ≠ s → Inside x.2) ∧ (∀ x ∈ H, x.1 = s → x.2 = fin 0) := by
  have := loop_inv (n := k) (s := (([] : List (Nat × XR)), g))
    (f := fun idx s =>
      let (u, g) := r.unit s.2
      .ok (s.1 ++ [(idx, XR.ops.pow u (1 / weight idx))], g))
    (fun i t => t.1.map (·.1) = List.range i ∧ (∀ x ∈ t.1, x.1 ≠ s → Inside x.2) ∧ (∀ x ∈ t.1, x.1 = s → x.2 = fin 0))
    ⟨rfl, by simp, by simp⟩ (by
      rintro i ⟨H, g⟩ hi ⟨h1, h2, h3⟩
      refine ⟨_, rfl, ?_, ?_, ?_⟩
      · simp only at h1; simp [h1, List.range_succ]
      · intro x hx hxs
        obtain ⟨u, hu, hu0, hu1⟩ := hr g
        rcases List.mem_append.mp hx with hx | hx
        · exact h2 x hx hxs
        · rw [List.mem_singleton] at hx
          subst hx
          obtain ⟨w, hw1, hw0⟩ := hw i hi hxs
          simp only [XR.ops]
          rw [hu, hw1]
          exact pow_inside hu0 hu1 hw0
      · intro x hx hxs
        obtain ⟨u, hu, hu0, hu1⟩ := hr g
        rcases List.mem_append.mp hx with hx | hx
        · exact h3 x hx hxs
        · rw [List.mem_singleton] at hx
          subst hx
          simp only at hxs
          subst hxs
          simp only [XR.ops]
          rw [hu, hs]
          exact pow_self hu0 hu1)
  obtain ⟨⟨H, g'⟩, h1, h2⟩ := this
  exact ⟨H, g', h1, h2⟩

theorem sample_no_self (hp : Pick.Min pick) (hr : ∀ g, Inside (r.unit g).1) (hs : weight s = 0)
    (hw : ∀ i, i < n → i ≠ s → ∃ w : ℝ, weight i = fin w ∧ 0 < w) {k : Nat} (hk : 0 < k) (hkn : k < n)
    {buffer b : List Nat} {g g' : G} (h : sample XR.ops pick r k n weight buffer g = .ok (b, g')) : s ∉ b := by
  have hv : Pick.Valid pick := ⟨hp.lt⟩
  unfold sample at h
  rw [if_neg (by omega)] at h
  simp only [min_eq_right (le_of_lt hkn)] at h
  obtain ⟨H, g1, h1, h2, h3, h4⟩ := fill_keys (k := k) hr hs (fun i hi => hw i (by omega)) g
  simp only [h1, Res.bind_ok] at h
  obtain ⟨x, hx, h⟩ := Res.bind_eq_ok.mp h
  have hlen : H.length = k := by
    have := congrArg List.length h2
    simpa using this
  have hnd : (H.map (·.1)).Nodup := by rw [h2]; exact List.nodup_range
  obtain ⟨u, hu, hu0, hu1⟩ := hr g1
  -- state before the second loop
  have hstart : (Clean s H (XR.ops.log (r.unit g1).1 / XR.ops.log x.2)) ∨
      (s < k ∧ Dirty s H (XR.ops.log (r.unit g1).1 / XR.ops.log x.2)) := by
    by_cases hsk : s < k
    · right
      have hmem : s ∈ H.map (·.1) := by rw [h2]; simpa using hsk
      obtain ⟨y, hy, hys⟩ := List.mem_map.mp hmem
      have hself : (s, fin 0) ∈ H := by
        have := h4 y hy hys
        have e : y = (s, fin 0) := Prod.ext hys this
        exact e ▸ hy
      refine ⟨hsk, hself, h3, hnd, ?_⟩
      have hxs : x.1 = s := by
        by_contra hxs
        obtain ⟨q', hq1, hq2, _⟩ := h3 x (top_min hp hx).1 hxs
        have := (top_min hp hx).2 _ hself
        rw [hq1, lt_fin] at this
        exact this hq2
      rw [h4 x (top_min hp hx).1 hxs, hu]
      exact log_ratio_zero hu0
    · left
      have hno : ∀ y ∈ H, y.1 ≠ s := by
        intro y hy e
        have : y.1 ∈ H.map (·.1) := List.mem_map_of_mem hy
        rw [h2, List.mem_range] at this
        omega
      refine ⟨hno, fun y hy => h3 y hy (hno y hy), ?_⟩
      obtain ⟨q, hq1, hq2, hq3⟩ := h3 x (top_min hp hx).1 (hno x (top_min hp hx).1)
      obtain ⟨z, hz1, hz2⟩ := log_ratio hu0 hu1 hq2 hq3
      refine ⟨z, ?_, hz2⟩
      rw [hq1, hu]
      exact hz1
  -- the loop
  obtain ⟨⟨H2, X2, g2⟩, hl, h⟩ := Res.bind_eq_ok.mp h
  have hQ : QInv k (k + 0) H := by
    refine ⟨hlen, hnd, ?_⟩
    intro y hy
    have : y.1 ∈ H.map (·.1) := List.mem_map_of_mem hy
    rw [h2] at this
    simpa using this
  have hI := loop_inv (n := n - k) (s := (H, XR.ops.log (r.unit g1).1 / XR.ops.log x.2, (r.unit g1).2))
    (f := fun j t => jumpStep XR.ops pick r weight (k + j) t)
    (fun j t => QInv k (k + j) t.1 ∧ (Clean s t.1 t.2.1 ∨ (j = 0 ∧ s < k ∧ Dirty s t.1 t.2.1)))
    ⟨hQ, by
      rcases hstart with h | ⟨h5, h6⟩
      · exact Or.inl h
      · exact Or.inr ⟨rfl, h5, h6⟩⟩ (by
      rintro j ⟨H, X, g⟩ hj ⟨hq, h⟩
      obtain ⟨H', X', g', h5, h6⟩ := jumpStep_spec (o := XR.ops) (r := r) (weight := weight) hv hk (X := X) (g := g) hq
      refine ⟨_, h5, h6, Or.inl ?_⟩
      have hc := clean_step (idx := k + j) hp hr hs (fun hne => hw (k + j) (by omega) hne) (H := H) (X := X) (g := g)
        (by
          rcases h with h | ⟨h7, h8, h9⟩
          · exact Or.inl h
          · exact Or.inr ⟨by omega, h9⟩) h5
      exact hc)
  obtain ⟨t, ht, htq, htc⟩ := hI
  have e := Except.ok.inj (hl.symm.trans ht)
  subst e
  have hclean : Clean s H2 X2 := by
    rcases htc with h | ⟨h, _⟩
    · exact h
    · omega
  obtain ⟨b', hb', hperm⟩ := drain_spec hv (H := H2)
  rw [htq.len] at hb'
  simp only [hb', Res.bind_ok] at h
  have e := Except.ok.inj h
  have e1 : b' = b := congrArg Prod.fst e
  subst e1
  intro hmem
  obtain ⟨y, hy, hys⟩ := List.mem_map.mp (hperm.mem_iff.mp hmem)
  exact hclean.no y hy hys

end
end Seldon.Reservoir
