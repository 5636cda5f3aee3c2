import Verif.Props.ContactLaw
import Verif.Spec.MeanField
import Verif.Spec.EntryLaw
/-!
# Lemmas for C108: marginals of the law of the contacts
-/
namespace Seldon
open Spec

/-- Independent selections from a list. -/
theorem sum_sublists (f g : ℕ × ℕ → ℝ) {l : List (ℕ × ℕ)} (hl : l.Nodup) :
    ∑ k ∈ l.sublists.toFinset, (l.map fun e => if e ∈ k then f e else g e).prod = (l.map fun e => f e + g e).prod := by
  induction l with
  | nil => simp
  | cons a l ih =>
    obtain ⟨ha, hl⟩ := List.nodup_cons.mp hl
    have hset : (a :: l).sublists.toFinset = l.sublists.toFinset ∪ l.sublists.toFinset.image (List.cons a) := by
      ext k
      simp only [List.mem_toFinset, List.mem_sublists, Finset.mem_union, Finset.mem_image, List.sublist_cons_iff]
      refine or_congr_right ⟨?_, ?_⟩
      · rintro ⟨r, rfl, h⟩; exact ⟨r, h, rfl⟩
      · rintro ⟨r, h, rfl⟩; exact ⟨r, rfl, h⟩
    have hno : ∀ k ∈ l.sublists.toFinset, a ∉ k := fun k hk h => ha ((List.mem_sublists.mp (List.mem_toFinset.mp hk)).subset h)
    have hdis : Disjoint l.sublists.toFinset (l.sublists.toFinset.image (List.cons a)) := by
      rw [Finset.disjoint_left]
      intro k hk hk'
      obtain ⟨r, -, rfl⟩ := Finset.mem_image.mp hk'
      exact hno _ hk (by simp)
    rw [hset, Finset.sum_union hdis, Finset.sum_image (by intro x _ y _ e; exact List.cons_injective e), List.map_cons, List.prod_cons, ← ih hl,
      add_mul, Finset.mul_sum, Finset.mul_sum, add_comm]
    congr 1
    · refine Finset.sum_congr rfl fun k hk => ?_
      rw [List.map_cons, List.prod_cons, if_pos (by simp)]
      congr 2
      refine List.map_congr_left fun e he => ?_
      have : e ≠ a := fun h => ha (h ▸ he)
      simp [this]
    · refine Finset.sum_congr rfl fun k hk => ?_
      rw [List.map_cons, List.prod_cons, if_neg (hno k hk)]

theorem keepLaw_total (q : ℝ) {l : List (ℕ × ℕ)} (hl : l.Nodup) : ∑ k ∈ l.sublists.toFinset, keepLaw q l k = 1 := by
  unfold keepLaw
  rw [sum_sublists (fun _ => clip q) (fun _ => 1 - clip q) hl]
  simp

theorem keepLaw_mem (q : ℝ) {l : List (ℕ × ℕ)} (hl : l.Nodup) {e : ℕ × ℕ} (he : e ∈ l) :
    ∑ k ∈ l.sublists.toFinset with e ∈ k, keepLaw q l k = clip q := by
  have h : ∀ k ∈ l.sublists.toFinset, (if e ∈ k then keepLaw q l k else 0) =
      (l.map fun x => if x ∈ k then clip q else if x = e then 0 else 1 - clip q).prod := by
    intro k _
    split
    · rename_i hk
      unfold keepLaw
      congr 1
      refine List.map_congr_left fun x _ => ?_
      split
      · rfl
      · rename_i hx
        rw [if_neg (fun h : x = e => hx (by rw [h]; exact hk))]
    · rename_i hk
      refine (List.prod_eq_zero (List.mem_map.mpr ⟨e, he, ?_⟩)).symm
      rw [if_neg hk, if_pos rfl]
  rw [Finset.sum_filter, Finset.sum_congr rfl h, sum_sublists (fun _ => clip q) (fun x => if x = e then 0 else 1 - clip q) hl]
  have : (l.map fun x => clip q + if x = e then 0 else 1 - clip q) = l.map fun x => if x = e then clip q else 1 := by
    refine List.map_congr_left fun x _ => ?_
    split <;> ring
  rw [this]
  clear this h
  induction l with
  | nil => simp at he
  | cons a l ih =>
    obtain ⟨ha, hl⟩ := List.nodup_cons.mp hl
    rw [List.map_cons, List.prod_cons]
    rcases List.mem_cons.mp he with rfl | he
    · rw [if_pos rfl, List.prod_eq_one, mul_one]
      intro y hy
      obtain ⟨x, hx, rfl⟩ := List.mem_map.mp hy
      rw [if_neg (fun h => ha (by rw [← h]; exact hx))]
    · rw [if_neg (fun h => ha (by rw [h]; exact he)), one_mul, ih hl he]

theorem mem_oneWay {n : ℕ} {c : ℕ → List ℕ} {i j : ℕ} : (j, i) ∈ oneWay n c ↔ j < n ∧ i ∈ c j ∧ j ∉ c i := by
  unfold oneWay
  simp only [List.mem_flatMap, List.mem_range, List.mem_map, List.mem_filter, decide_eq_true_eq, Prod.mk.injEq]
  constructor
  · rintro ⟨a, ha, b, ⟨hb, hb'⟩, rfl, rfl⟩
    exact ⟨ha, hb, hb'⟩
  · rintro ⟨h1, h2, h3⟩
    exact ⟨j, h1, i, ⟨h2, h3⟩, rfl, rfl⟩

theorem oneWay_nodup {n : ℕ} {c : ℕ → List ℕ} (hc : ∀ i, i < n → (c i).Nodup) : (oneWay n c).Nodup := by
  unfold oneWay
  rw [List.nodup_flatMap]
  refine ⟨fun i hi => ((hc i (List.mem_range.mp hi)).filter _).map fun a b e => (Prod.mk.inj e).2, ?_⟩
  refine List.nodup_range.imp fun {a b} hab => ?_
  rw [Function.onFun, List.disjoint_left]
  intro e h1 h2
  obtain ⟨x, -, rfl⟩ := List.mem_map.mp h1
  obtain ⟨y, -, h⟩ := List.mem_map.mp h2
  exact hab (Prod.mk.inj h).1.symm

/-- An entry is there if the contact was made, or made the other way round only and reciprocated. -/
theorem keepLaw_entry (q : ℝ) {n : ℕ} {c : ℕ → List ℕ} (hc : ∀ i, i < n → (c i).Nodup) {i j : ℕ} (hj : j < n) [DecidablePred fun k : List (ℕ × ℕ) => j ∈ c i ∨ (j, i) ∈ k] :
    ∑ k ∈ (oneWay n c).sublists.toFinset with j ∈ c i ∨ (j, i) ∈ k, keepLaw q (oneWay n c) k =
      (if j ∈ c i then 1 else 0) + clip q * if j ∉ c i ∧ i ∈ c j then 1 else 0 := by
  by_cases h : j ∈ c i
  · rw [Finset.filter_true_of_mem fun k _ => Or.inl h, keepLaw_total q (oneWay_nodup hc)]
    simp [h]
  · by_cases h' : i ∈ c j
    · have : (oneWay n c).sublists.toFinset.filter (fun k => j ∈ c i ∨ (j, i) ∈ k) = (oneWay n c).sublists.toFinset.filter fun k => (j, i) ∈ k :=
        Finset.filter_congr fun k _ => by simp [h]
      rw [this, keepLaw_mem q (oneWay_nodup hc) (mem_oneWay.mpr ⟨hj, h', h⟩)]
      simp [h, h']
    · rw [Finset.filter_false_of_mem, Finset.sum_empty]
      · simp [h, h']
      · rintro k hk (h1 | h1)
        · exact h h1
        · exact h' (mem_oneWay.mp ((List.mem_sublists.mp (List.mem_toFinset.mp hk)).subset h1)).2.1

/-- In a product of independent choices, what two of them do. -/
theorem prod_two {n : ℕ} {β : Type} [DecidableEq β] (S : Fin n → Finset β) (f : Fin n → β → ℝ) (htot : ∀ k, ∑ b ∈ S k, f k b = 1) {i j : Fin n} (hij : i ≠ j)
    (u v : β → ℝ) : ∑ d ∈ Fintype.piFinset S, (∏ k, f k (d k)) * (u (d i) * v (d j)) = (∑ b ∈ S i, f i b * u b) * ∑ b ∈ S j, f j b * v b := by
  have h : ∀ d : Fin n → β, (∏ k, f k (d k)) * (u (d i) * v (d j)) =
      ∏ k, f k (d k) * ((if k = i then u (d k) else 1) * if k = j then v (d k) else 1) := by
    intro d
    rw [Finset.prod_mul_distrib, Finset.prod_mul_distrib]
    simp
  rw [Finset.sum_congr rfl fun d _ => h d, ← Finset.prod_univ_sum (t := S) (f := fun k b => f k b * ((if k = i then u b else 1) * if k = j then v b else 1)),
    ← Finset.mul_prod_erase Finset.univ _ (Finset.mem_univ i), ← Finset.mul_prod_erase (Finset.univ.erase i) _ (Finset.mem_erase.mpr ⟨hij.symm, Finset.mem_univ j⟩),
    Finset.prod_eq_one, mul_one]
  · simp [hij, hij.symm]
  · intro k hk
    obtain ⟨h1, h2⟩ := Finset.mem_erase.mp hk
    have h3 := (Finset.mem_erase.mp h2).1
    simp [h1, h3, htot]

theorem chosen_nonneg {w : ℕ → ℝ} (m : ℕ) (S : Finset ℕ) (hw : ∀ j ∈ S, 0 ≤ w j) (j : ℕ) : 0 ≤ chosen w m S j := by
  induction m generalizing S with
  | zero => exact le_refl 0
  | succ m ih =>
    refine Finset.sum_nonneg fun i hi => mul_nonneg (div_nonneg (hw i hi) (Finset.sum_nonneg hw)) ?_
    split
    · exact zero_le_one
    · exact ih _ fun k hk => hw k (Finset.mem_of_mem_erase hk)

theorem chosen_of_zero {w : ℕ → ℝ} (m : ℕ) (S : Finset ℕ) {j : ℕ} (hj : w j = 0) : chosen w m S j = 0 := by
  induction m generalizing S with
  | zero => rfl
  | succ m ih =>
    refine Finset.sum_eq_zero fun i _ => ?_
    split
    · rename_i h; rw [h, hj]; simp
    · rw [ih]; simp

theorem chosen_of_notMem {w : ℕ → ℝ} (m : ℕ) {S : Finset ℕ} {j : ℕ} (hj : j ∉ S) : chosen w m S j = 0 := by
  induction m generalizing S with
  | zero => rfl
  | succ m ih =>
    refine Finset.sum_eq_zero fun i hi => ?_
    rw [if_neg (fun h => hj (by rw [← h]; exact hi)), ih fun h => hj (Finset.mem_of_mem_erase h), mul_zero]

theorem erase_positive {w : ℕ → ℝ} {m : ℕ} {S : Finset ℕ} {i : ℕ} (hi : i ∈ S) (h0 : 0 < w i) (hk : m + 1 ≤ (S.filter fun j => 0 < w j).card) :
    m ≤ ((S.erase i).filter fun j => 0 < w j).card := by
  rw [Finset.filter_erase, Finset.card_erase_of_mem (Finset.mem_filter.mpr ⟨hi, h0⟩)]
  omega

theorem sum_pos_of_card {w : ℕ → ℝ} {m : ℕ} {S : Finset ℕ} (hw : ∀ j ∈ S, 0 ≤ w j) (hk : m + 1 ≤ (S.filter fun j => 0 < w j).card) : 0 < ∑ j ∈ S, w j := by
  obtain ⟨i, hi⟩ := Finset.card_pos.mp (by omega : 0 < (S.filter fun j => 0 < w j).card)
  rw [Finset.mem_filter] at hi
  exact hi.2.trans_le (Finset.single_le_sum hw hi.1)

/-- The recursion adds up the probabilities of the sequences with `j`. -/
theorem sum_successive_mem {w : ℕ → ℝ} (m : ℕ) (S : Finset ℕ) (hw : ∀ j ∈ S, 0 ≤ w j) (hk : m ≤ (S.filter fun j => 0 < w j).card) (j : ℕ) :
    ∑ t ∈ sequences m S, successive w S t * (if j ∈ t then 1 else 0) = chosen w m S j := by
  induction m generalizing S with
  | zero => simp [sequences, chosen]
  | succ m ih =>
    unfold sequences chosen
    rw [Finset.sum_biUnion]
    · refine Finset.sum_congr rfl fun i hi => ?_
      rw [Finset.sum_image (by intro a _ c _ h; exact (List.cons.inj h).2)]
      rcases (hw i hi).eq_or_lt with h0 | h0
      · rw [← h0, zero_div, zero_mul]
        refine Finset.sum_eq_zero fun t _ => ?_
        rw [successive, if_pos hi, ← h0]
        simp
      · have hm := erase_positive hi h0 hk
        have hw' : ∀ k ∈ S.erase i, 0 ≤ w k := fun k hk => hw k (Finset.mem_of_mem_erase hk)
        by_cases hij : i = j
        · rw [if_pos hij]
          refine Eq.trans ?_ (congrArg (w i / (∑ k ∈ S, w k) * ·) (successive_total m _ hw' hm))
          rw [Finset.mul_sum]
          refine Finset.sum_congr rfl fun t _ => ?_
          rw [successive, if_pos hi, if_pos (by simp [hij]), mul_one]
        · rw [if_neg hij, ← ih _ hw' hm, Finset.mul_sum]
          refine Finset.sum_congr rfl fun t _ => ?_
          rw [successive, if_pos hi, mul_assoc]
          have : j ∈ i :: t ↔ j ∈ t := by simp [Ne.symm hij]
          simp only [this]
    · intro i _ k _ hik
      rw [Function.onFun, Finset.disjoint_left]
      intro t h1 h2
      obtain ⟨a, -, rfl⟩ := Finset.mem_image.mp h1
      obtain ⟨c, -, h⟩ := Finset.mem_image.mp h2
      exact hik (List.cons.inj h).1.symm

/-- `m` agents are chosen. -/
theorem chosen_sum {w : ℕ → ℝ} (m : ℕ) (S : Finset ℕ) (hw : ∀ j ∈ S, 0 ≤ w j) (hk : m ≤ (S.filter fun j => 0 < w j).card) :
    ∑ j ∈ S, chosen w m S j = m := by
  induction m generalizing S with
  | zero => simp [chosen]
  | succ m ih =>
    have hpos := sum_pos_of_card hw hk
    unfold chosen
    rw [Finset.sum_comm]
    have : ∀ i ∈ S, ∑ j ∈ S, w i / (∑ k ∈ S, w k) * (if i = j then 1 else chosen w m (S.erase i) j) = w i / (∑ k ∈ S, w k) * (m + 1) := by
      intro i hi
      rw [← Finset.mul_sum]
      rcases (hw i hi).eq_or_lt with h0 | h0
      · rw [← h0]; simp
      · congr 1
        rw [← Finset.add_sum_erase _ _ hi, if_pos rfl, add_comm, ← ih _ (fun k hk => hw k (Finset.mem_of_mem_erase hk)) (erase_positive hi h0 hk)]
        congr 1
        refine Finset.sum_congr rfl fun j hj => ?_
        rw [if_neg (Finset.ne_of_mem_erase hj).symm]
    rw [Finset.sum_congr rfl this, ← Finset.sum_mul, ← Finset.sum_div, div_self hpos.ne']
    push_cast
    ring

/-- One draw. -/
theorem chosen_one {w : ℕ → ℝ} {S : Finset ℕ} {j : ℕ} (hj : j ∈ S) : chosen w 1 S j = w j / ∑ k ∈ S, w k := by
  unfold chosen
  rw [← Finset.add_sum_erase _ (fun i => w i / (∑ k ∈ S, w k) * if i = j then 1 else chosen w 0 (S.erase i) j) hj, if_pos rfl, mul_one]
  refine add_eq_left.mpr (Finset.sum_eq_zero fun i hi => ?_)
  rw [if_neg (Finset.ne_of_mem_erase hi)]
  simp [chosen]

/-- Without replacement an agent is chosen at least as often as with replacement. -/
theorem chosen_ge {w : ℕ → ℝ} (m : ℕ) (S : Finset ℕ) (hw : ∀ j ∈ S, 0 ≤ w j) {j : ℕ} (hj : j ∈ S) :
    1 - (1 - w j / ∑ k ∈ S, w k) ^ m ≤ chosen w m S j := by
  induction m generalizing S with
  | zero => simp [chosen]
  | succ m ih =>
    rcases (hw j hj).eq_or_lt with h0 | h0
    · rw [← h0]
      simpa using chosen_nonneg (m + 1) S hw j
    have hW : 0 < ∑ k ∈ S, w k := h0.trans_le (Finset.single_le_sum hw hj)
    have hp0 : 0 ≤ w j / ∑ k ∈ S, w k := div_nonneg h0.le hW.le
    have hp1 : w j / ∑ k ∈ S, w k ≤ 1 := (div_le_one hW).mpr (Finset.single_le_sum hw hj)
    unfold chosen
    rw [← Finset.add_sum_erase _ (fun i => w i / (∑ k ∈ S, w k) * if i = j then 1 else chosen w m (S.erase i) j) hj, if_pos rfl, mul_one]
    have hstep : ∀ i ∈ S.erase j, w i / (∑ k ∈ S, w k) * (1 - (1 - w j / ∑ k ∈ S, w k) ^ m) ≤
        w i / (∑ k ∈ S, w k) * (if i = j then 1 else chosen w m (S.erase i) j) := by
      intro i hi
      obtain ⟨hij, hiS⟩ := Finset.mem_erase.mp hi
      rw [if_neg hij]
      refine mul_le_mul_of_nonneg_left ?_ (div_nonneg (hw i hiS) hW.le)
      have hw' : ∀ k ∈ S.erase i, 0 ≤ w k := fun k hk => hw k (Finset.mem_of_mem_erase hk)
      have hj' : j ∈ S.erase i := Finset.mem_erase.mpr ⟨hij.symm, hj⟩
      refine le_trans ?_ (ih _ hw' hj')
      have hW' : 0 < ∑ k ∈ S.erase i, w k := h0.trans_le (Finset.single_le_sum hw' hj')
      have hle : ∑ k ∈ S.erase i, w k ≤ ∑ k ∈ S, w k := Finset.sum_le_sum_of_subset_of_nonneg (Finset.erase_subset _ _) fun k hk _ => hw k hk
      have h1 : w j / ∑ k ∈ S, w k ≤ w j / ∑ k ∈ S.erase i, w k := div_le_div_of_nonneg_left h0.le hW' hle
      have h2 : w j / ∑ k ∈ S.erase i, w k ≤ 1 := (div_le_one hW').mpr (Finset.single_le_sum hw' hj')
      have h3 := pow_le_pow_left₀ (sub_nonneg.mpr h2) (sub_le_sub_left h1 1) m
      linarith
    have hsum := Finset.sum_le_sum hstep
    rw [← Finset.sum_mul, ← Finset.sum_div] at hsum
    have hrest : ∑ i ∈ S.erase j, w i = (∑ k ∈ S, w k) - w j := by rw [← Finset.add_sum_erase _ _ hj]; ring
    rw [hrest, sub_div, div_self hW.ne'] at hsum
    have : 1 - (1 - w j / ∑ k ∈ S, w k) ^ (m + 1) = w j / (∑ k ∈ S, w k) + (1 - w j / ∑ k ∈ S, w k) * (1 - (1 - w j / ∑ k ∈ S, w k) ^ m) := by ring
    rw [this]
    linarith

end Seldon
