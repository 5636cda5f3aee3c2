import Mathlib.Logic.Relation
import Mathlib.Data.Finset.Card
import Mathlib.Data.Finset.SDiff
import Mathlib.Logic.Function.Basic
/-!
# Helper lemmas: agents that copy each other can always reach a state in which nothing changes any more
-/
namespace Seldon
variable {V : Type}

/-- Agent `b` copies agent `a`: both belong to `W`, `C a b` allows it, and their values differ and are near each other. -/
def CopyStep (C : ℕ → ℕ → Prop) (near : V → V → Prop) (W : Finset ℕ) (x y : ℕ → V) : Prop :=
  ∃ a b, a ∈ W ∧ b ∈ W ∧ C a b ∧ x a ≠ x b ∧ near (x a) (x b) ∧ y = Function.update x b (x a)

/-- No agent of `W` can copy another. -/
def Settled (C : ℕ → ℕ → Prop) (near : V → V → Prop) (W : Finset ℕ) (x : ℕ → V) : Prop :=
  ∀ a ∈ W, ∀ b ∈ W, C a b → x a = x b ∨ ¬ near (x a) (x b)

theorem CopyStep.mono {C : ℕ → ℕ → Prop} {near : V → V → Prop} {W W' : Finset ℕ} (h : W ⊆ W') {x y : ℕ → V} (hs : CopyStep C near W x y) :
    CopyStep C near W' x y := by
  obtain ⟨a, b, h1, h2, h3⟩ := hs
  exact ⟨a, b, h h1, h h2, h3⟩

theorem CopyStep.outside {C : ℕ → ℕ → Prop} {near : V → V → Prop} {W : Finset ℕ} {x y : ℕ → V} (h : Relation.ReflTransGen (CopyStep C near W) x y)
    {i : ℕ} (hi : i ∉ W) : y i = x i := by
  induction h with
  | refl => rfl
  | tail _ hs ih =>
    obtain ⟨a, b, -, hb, -, -, -, rfl⟩ := hs
    rw [Function.update_of_ne (fun hc => hi (by rw [hc]; exact hb)), ih]

/-- If copying is allowed in both directions. -/
theorem settle_symm {C : ℕ → ℕ → Prop} (hC : ∀ a b, C a b → C b a) {near : V → V → Prop} (hn : ∀ v w, near v w → near w v) (W : Finset ℕ) (x : ℕ → V) :
    ∃ y, Relation.ReflTransGen (CopyStep C near W) x y ∧ Settled C near W y := by
  classical
  induction hk : W.card using Nat.strong_induction_on generalizing W x with
  | _ k ih =>
    rcases W.eq_empty_or_nonempty with rfl | ⟨v, hv⟩
    · exact ⟨x, .refl, fun a ha => absurd ha (Finset.notMem_empty a)⟩
    -- the holders of the value `w` of `v` become more and more
    suffices key : ∀ m (w : V) (x : ℕ → V), x v = w → (W.filter fun u => x u ≠ w).card = m →
        ∃ y, Relation.ReflTransGen (CopyStep C near W) x y ∧ Settled C near W y from key _ _ x rfl rfl
    intro m
    induction m using Nat.strong_induction_on with
    | _ m ihm =>
      intro w x hx hm
      have hlt : (W.filter fun u => x u ≠ w).card < k := by
        rw [← hk]
        refine Finset.card_lt_card (Finset.ssubset_iff_subset_ne.mpr ⟨Finset.filter_subset _ _, fun hc => ?_⟩)
        have := hc ▸ hv
        exact (Finset.mem_filter.mp this).2 hx
      obtain ⟨y, hy, hset⟩ := ih _ hlt (W.filter fun u => x u ≠ w) x rfl
      have hy' : Relation.ReflTransGen (CopyStep C near W) x y :=
        Relation.ReflTransGen.mono (fun _ _ h => h.mono (Finset.filter_subset _ _)) _ _ hy
      have hkeep : ∀ u ∈ W, x u = w → y u = w := by
        intro u _ hu
        rw [CopyStep.outside hy (fun hc => (Finset.mem_filter.mp hc).2 hu), hu]
      by_cases hdone : Settled C near W y
      · exact ⟨y, hy', hdone⟩
      unfold Settled at hdone
      push Not at hdone
      obtain ⟨a, ha, b, hb, hc, hne, hnear⟩ := hdone
      -- one of the two agents holds `w`, the other one copies it
      obtain ⟨c, d, hcW, hdW, hcd, hcw, hdw, hnear'⟩ : ∃ c d, c ∈ W ∧ d ∈ W ∧ C c d ∧ y c = w ∧ y d ≠ w ∧ near (y c) (y d) := by
        by_cases hxa : x a = w
        · have h1 := hkeep a ha hxa
          exact ⟨a, b, ha, hb, hc, h1, fun h => hne (h1.trans h.symm), hnear⟩
        · by_cases hxb : x b = w
          · have h1 := hkeep b hb hxb
            exact ⟨b, a, hb, ha, hC _ _ hc, h1, fun h => hne (h.trans h1.symm), hn _ _ hnear⟩
          · rcases hset a (Finset.mem_filter.mpr ⟨ha, hxa⟩) b (Finset.mem_filter.mpr ⟨hb, hxb⟩) hc with h | h
            · exact absurd h hne
            · exact absurd hnear h
      have hstep : CopyStep C near W y (Function.update y d (y c)) := ⟨c, d, hcW, hdW, hcd, fun h => hdw (h.symm.trans hcw), hnear', rfl⟩
      have hsub : (W.filter fun u => Function.update y d (y c) u ≠ w) ⊂ W.filter fun u => x u ≠ w := by
        refine Finset.ssubset_iff_subset_ne.mpr ⟨?_, ?_⟩
        · intro u hu
          obtain ⟨h1, h2⟩ := Finset.mem_filter.mp hu
          refine Finset.mem_filter.mpr ⟨h1, fun h3 => h2 ?_⟩
          by_cases hud : u = d
          · rw [hud, Function.update_self, hcw]
          · rw [Function.update_of_ne hud, hkeep u h1 h3]
        · intro he
          have hd : d ∈ W.filter fun u => x u ≠ w := Finset.mem_filter.mpr ⟨hdW, fun h => hdw (hkeep d hdW h)⟩
          rw [← he] at hd
          refine (Finset.mem_filter.mp hd).2 ?_
          rw [Function.update_self, hcw]
      have hv' : Function.update y d (y c) v = w := by
        by_cases hvd : v = d
        · rw [hvd, Function.update_self, hcw]
        · rw [Function.update_of_ne hvd, hkeep v hv hx]
      obtain ⟨z, hz, hzs⟩ := ihm _ (by rw [← hm]; exact Finset.card_lt_card hsub) w _ hv' rfl
      exact ⟨z, (hy'.tail hstep).trans hz, hzs⟩

/-- If agents only copy agents with a smaller index. -/
theorem settle_below {C : ℕ → ℕ → Prop} (hC : ∀ a b, C a b → a < b) {near : V → V → Prop} (hall : ∀ a b, a < b → C a b) (hn : ∀ v w, near v w → near w v) (n : ℕ) (x : ℕ → V) :
    ∃ y, Relation.ReflTransGen (CopyStep C near (Finset.range n)) x y ∧ Settled C near (Finset.range n) y := by
  induction n with
  | zero => exact ⟨x, .refl, fun a ha => absurd ha (by simp)⟩
  | succ n ih =>
    obtain ⟨y, hy, hs⟩ := ih
    have hy' : Relation.ReflTransGen (CopyStep C near (Finset.range (n + 1))) x y :=
      Relation.ReflTransGen.mono (fun _ _ h => h.mono (Finset.range_mono (Nat.le_succ n))) _ _ hy
    by_cases h : ∃ j, j < n ∧ y j ≠ y n ∧ near (y j) (y n)
    · obtain ⟨j, hj, hne, hnear⟩ := h
      refine ⟨Function.update y n (y j), hy'.tail ⟨j, n, Finset.mem_range.mpr (by omega), Finset.mem_range.mpr (by omega), hall j n hj, hne, hnear, rfl⟩, ?_⟩
      intro a ha b hb hab
      have hlt := hC a b hab
      have hb' := Finset.mem_range.mp hb
      rw [Function.update_of_ne (by omega : a ≠ n)]
      by_cases hbn : b = n
      · rw [hbn, Function.update_self]
        rcases Nat.lt_trichotomy a j with haj | haj | haj
        · exact hs a (Finset.mem_range.mpr (by omega)) j (Finset.mem_range.mpr hj) (hall a j haj)
        · exact .inl (by rw [haj])
        · have := hs j (Finset.mem_range.mpr hj) a (Finset.mem_range.mpr (by omega)) (hall j a haj)
          exact this.imp Eq.symm (fun h hc => h (hn _ _ hc))
      · rw [Function.update_of_ne hbn]
        exact hs a (Finset.mem_range.mpr (by omega)) b (Finset.mem_range.mpr (by omega)) hab
    · push Not at h
      refine ⟨y, hy', ?_⟩
      intro a ha b hb hab
      have hlt := hC a b hab
      have hb' := Finset.mem_range.mp hb
      by_cases hbn : b = n
      · rw [hbn]
        by_cases he : y a = y n
        · exact .inl he
        · exact .inr (h a (by omega) he)
      · exact hs a (Finset.mem_range.mpr (by omega)) b (Finset.mem_range.mpr (by omega)) hab

end Seldon
