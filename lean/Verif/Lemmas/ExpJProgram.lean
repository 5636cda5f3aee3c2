import Verif.Lemmas.ExpJ
import Verif.Lemmas.ReservoirSelf
/-!
# Helper lemmas: the sampling code runs the process with exponential jumps
-/
namespace Seldon.ExpJ
open Seldon Spec MeasureTheory Keys
open scoped ENNReal
variable {G : Type}

/-- The process from the start: `r` more items are filled in, from item `i` on. -/
def Start (w : ℕ → ℝ) (u : G → ℝ × G) (T : Set G) (b : List ℕ) (n : ℕ) : ℕ → ℕ → (ℕ → ℝ) → G → Prop
  | 0, i, v, g => (u g).1 ∈ Set.Ioo (0 : ℝ) 1 ∧ ∃ m ∈ List.range i, Least w v (List.range i) m ∧
      Hit w u T b (n - i) i (List.range i) v (Real.log (u g).1 / Real.log (key (w m) (v m))) (u g).2
  | r + 1, i, v, g => (u g).1 ∈ Set.Ioo (0 : ℝ) 1 ∧ Start w u T b n r (i + 1) (Function.update v i (u g).1) (u g).2

section
variable [MeasurableSpace G]

theorem Start_measurable (w : ℕ → ℝ) {u : G → ℝ × G} (hu : Measurable u) {T : Set G} (hT : MeasurableSet T) (b : List ℕ) (n r i : ℕ) {α : Type} [MeasurableSpace α] {v : α → ℕ → ℝ}
    (hv : Measurable v) {g : α → G} (hg : Measurable g) : MeasurableSet {p | Start w u T b n r i (v p) (g p)} := by
  induction r generalizing i v g with
  | zero =>
    have h1 : Measurable fun p => u (g p) := hu.comp hg
    exact (h1.fst measurableSet_Ioo).inter (exists_measurable _ fun m => (Least_measurable w _ m hv).inter (Hit_measurable w hu hT b _ i _ hv
      ((Real.measurable_log.comp h1.fst).div (Real.measurable_log.comp (key_comp_measurable w hv m))) h1.snd))
  | succ r ih =>
    have h1 : Measurable fun p => u (g p) := hu.comp hg
    exact (h1.fst measurableSet_Ioo).inter (ih (i + 1) (update_measurable hv i h1.fst) h1.snd)

theorem Good.fill {w : ℕ → ℝ} {i : ℕ} {v : ℕ → ℝ} {z : ℝ} (h : Good w i i (List.range i) v) (hz : z ∈ Set.Ioo (0 : ℝ) 1)
    (hne : ∀ j, j < i → key (w i) z ≠ key (w j) (v j)) : Good w (i + 1) (i + 1) (List.range (i + 1)) (Function.update v i z) :=
  ⟨List.nodup_range, List.length_range, fun _ hj => List.mem_range.mp hj, h.inside_update hz, h.inj_update hne,
    fun _ hj hjl => absurd (List.mem_range.mpr hj) hjl⟩

variable {w : ℕ → ℝ} {u : G → ℝ × G} {μ : Measure G} [IsProbabilityMeasure μ] {T : Set G} {b : List ℕ} {n k : ℕ}

theorem start_bound (hu : MeasurePreserving u μ (uniform.prod μ)) (hT : MeasurableSet T) (hw : ∀ j, j < n → 0 ≤ w j)
    (hz : ∀ j, j < n → ∀ c, c < n → w j = 0 → w c = 0 → j = c) (hb : b.Nodup) (hbn : ∀ i ∈ b, i < n) (hbk : b.length = k) (hk : 0 < k) (hkn : k ≤ n)
    {r i : ℕ} (hr : i + r = k) {v : ℕ → ℝ} (h : Good w i i (List.range i) v) :
    (∫⋯∫⁻_Finset.Ico i n, orderInd w 1 (Finset.range n) b.reverse ∂(fun _ => uniform)) v * μ T ≤ μ {g | Start w u T b n r i v g} := by
  induction r generalizing i v with
  | zero =>
    obtain rfl : i = k := by omega
    obtain ⟨m, hm, hl⟩ := h.least hk
    refine (prob_bound hu hT hw hz hb hbn hbk hk (r := n - i) (by omega) h hl).trans ?_
    have hset : {g | Start w u T b n 0 i v g} = u ⁻¹' {p | p.1 ∈ Set.Ioo (0 : ℝ) 1 ∧ ∃ m ∈ List.range i, Least w v (List.range i) m ∧
        Hit w u T b (n - i) i (List.range i) v (Real.log p.1 / Real.log (key (w m) (v m))) p.2} := rfl
    rw [hset, hu.measure_preimage]
    · unfold prob
      have hae : ∀ᵐ p ∂(uniform.prod μ), p.1 ∈ Set.Ioo (0 : ℝ) 1 := Measure.quasiMeasurePreserving_fst.ae uniform_mem
      refine measure_mono_ae ?_
      filter_upwards [hae] with p hp hh
      exact ⟨hp, m, hm, hl, hh⟩
    · refine MeasurableSet.nullMeasurableSet ((measurable_fst measurableSet_Ioo).inter (exists_measurable _ fun m =>
        (MeasurableSet.const _).inter (Hit_measurable w hu.measurable hT b _ i _ measurable_const
          ((Real.measurable_log.comp measurable_fst).div measurable_const) measurable_snd)))
  | succ r ih =>
    have hi : i < n := by omega
    have hins : Finset.Ico i n = insert i (Finset.Ico (i + 1) n) := (Finset.insert_Ico_add_one_left_eq_Ico hi).symm
    have hdist := ae_distinct hw hz hi h.inside
    rw [hins, lmarginal_insert _ (orderInd_measurable _ _ _ _) (by simp), ← lintegral_mul_const' _ _ (measure_ne_top μ T)]
    have hset : {g | Start w u T b n (r + 1) i v g} =
        u ⁻¹' {p | p.1 ∈ Set.Ioo (0 : ℝ) 1 ∧ Start w u T b n r (i + 1) (Function.update v i p.1) p.2} := rfl
    have hmeas : MeasurableSet {p : ℝ × G | p.1 ∈ Set.Ioo (0 : ℝ) 1 ∧ Start w u T b n r (i + 1) (Function.update v i p.1) p.2} :=
      (measurable_fst measurableSet_Ioo).inter
        (Start_measurable w hu.measurable hT b n r (i + 1) (update_measurable measurable_const i measurable_fst) measurable_snd)
    rw [hset, hu.measure_preimage hmeas.nullMeasurableSet, Measure.prod_apply hmeas]
    refine lintegral_mono_ae ?_
    filter_upwards [hdist, uniform_mem] with z h1 h2
    refine (ih (by omega) (h.fill h2 h1)).trans (measure_mono fun g hg => ⟨h2, hg⟩)

end

/-! ## the program -/

theorem loop_front {σ : Type} (n : ℕ) (f : ℕ → σ → Res σ) (s : σ) : loop (n + 1) f s = f 0 s >>= loop n (fun j => f (j + 1)) := by
  induction n with
  | zero =>
    rw [loop_succ, loop_zero, Res.bind_ok]
    cases f 0 s <;> rfl
  | succ n ih =>
    rw [loop_succ, ih]
    cases f 0 s with
    | error e => rfl
    | ok t => rw [Res.bind_ok, Res.bind_ok, loop_succ]

/-- The queue that belongs to a list of items. -/
noncomputable def queue (w : ℕ → ℝ) (v : ℕ → ℝ) (l : List ℕ) : List (ℕ × XR) := l.map fun j => (j, XR.fin (key (w j) (v j)))

section
variable {pick : List (ℕ × XR) → ℕ} {w v : ℕ → ℝ} {l : List ℕ} {m : ℕ}

theorem top_queue (hp : Reservoir.Pick.Min pick) (hm : Least w v l m) (hn : l.Nodup) :
    Reservoir.top pick (queue w v l) = .ok (m, XR.fin (key (w m) (v m))) ∧ Reservoir.pop pick (queue w v l) = .ok (queue w v (l.erase m)) := by
  have hl : l ≠ [] := List.ne_nil_of_mem hm.1
  have hq : queue w v l ≠ [] := by simpa [queue] using hl
  have hlt := hp.lt _ hq
  have hlt' : pick (queue w v l) < l.length := by simpa [queue] using hlt
  have hget : (queue w v l)[pick (queue w v l)] = (l[pick (queue w v l)], XR.fin (key (w l[pick (queue w v l)]) (v l[pick (queue w v l)]))) := by
    simp [queue]
  have hmin : l[pick (queue w v l)] = m := by
    by_contra hne
    have h1 := hm.2 _ (List.getElem_mem hlt') hne
    have h2 := hp.min (queue w v l) _ (by rw [List.getElem?_eq_getElem hlt, hget]) (m, XR.fin (key (w m) (v m)))
      (List.mem_map.mpr ⟨m, hm.1, rfl⟩)
    exact h2 h1
  constructor
  · unfold Reservoir.top
    rw [if_neg hq, rd_lt hlt, hget, hmin]
  · unfold Reservoir.pop
    rw [if_neg hq]
    congr 1
    have : l.erase m = l.eraseIdx (pick (queue w v l)) := by
      conv_lhs => rw [← hmin]
      exact hn.erase_getElem _ _
    rw [this]
    unfold queue
    rw [List.eraseIdx_map]

/-- The keys of a finished queue come out in increasing order. -/
theorem drain_queue (hp : Reservoir.Pick.Min pick) {b : List ℕ} (hb : b.Perm l) (hn : l.Nodup)
    (hs : b.Pairwise (fun a c => key (w a) (v a) < key (w c) (v c))) : Reservoir.drain pick l.length (queue w v l) = .ok b := by
  have hbl := hb.length_eq
  have hlen : (queue w v l).length = b.length := by simp [queue, hbl]
  obtain ⟨⟨buf, Q⟩, h1, h2, -⟩ := loop_inv (n := l.length) (s := (List.replicate (queue w v l).length 0, queue w v l))
    (f := fun i (s : List Nat × List (Nat × XR)) => do
      let x ← Reservoir.top pick s.2
      let buffer ← wr s.1 i x.1
      let H ← Reservoir.pop pick s.2
      .ok (buffer, H))
    (fun i s => s.1 = b.take i ++ List.replicate (b.length - i) 0 ∧ ∃ c : List ℕ, s.2 = queue w v c ∧ c.Perm (b.drop i))
    ⟨by simp [hlen], l, rfl, by simpa using hb.symm⟩ (by
      rintro i ⟨buf, Q⟩ hi ⟨h1, c, rfl, hc⟩
      simp only at h1 ⊢
      have hib : i < b.length := by omega
      have hdrop : b.drop i = b[i] :: b.drop (i + 1) := List.drop_eq_getElem_cons hib
      have hcn : c.Nodup := hc.nodup_iff.mpr ((hb.nodup_iff.mpr hn).sublist (List.drop_sublist i b))
      have hleast : Least w v c b[i] := by
        refine ⟨hc.mem_iff.mpr (hdrop ▸ List.mem_cons_self), fun j hj hne => ?_⟩
        have hj' := hc.mem_iff.mp hj
        rw [hdrop] at hj'
        rcases List.mem_cons.mp hj' with e | hj'
        · exact absurd e hne
        · have hpw : (b.drop i).Pairwise (fun a c => key (w a) (v a) < key (w c) (v c)) := hs.sublist (List.drop_sublist i b)
          rw [hdrop] at hpw
          exact (List.pairwise_cons.mp hpw).1 j hj'
      obtain ⟨e1, e2⟩ := top_queue hp hleast hcn
      have hbuf : i < buf.length := by rw [h1]; simp; omega
      refine ⟨(buf.set i b[i], queue w v (c.erase b[i])), ?_, ?_, c.erase b[i], rfl, ?_⟩
      · rw [e1, Res.bind_ok, wr_lt _ hbuf, Res.bind_ok, e2, Res.bind_ok]
      · simp only
        rw [h1]
        obtain ⟨d, hd⟩ := Nat.exists_eq_succ_of_ne_zero (by omega : b.length - i ≠ 0)
        have hd' : b.length - (i + 1) = d := by omega
        have htake : (b.take i).length = i := by simp; omega
        rw [hd, hd', List.replicate_succ, List.set_append_right _ _ (by omega), htake, Nat.sub_self, List.set_cons_zero,
          List.take_succ_eq_append_getElem hib, List.append_assoc]
        rfl
      · have := hc.erase b[i]
        rw [hdrop, List.erase_cons_head] at this
        exact this)
  unfold Reservoir.drain
  rw [h1, Res.bind_ok]
  simp only at h2
  rw [h2, ← hbl]
  simp

end

section
variable {pick : List (ℕ × XR) → ℕ} {w : ℕ → ℝ} {u : G → ℝ × G} {rng : Rng G XR} {T : Set G} {b : List ℕ}

theorem fin_log_ratio {x q : ℝ} (hx : 0 < x) (hq0 : 0 ≤ q) (hq1 : q < 1) :
    XR.ops.log (XR.fin x) / XR.ops.log (XR.fin q) = XR.fin (Real.log x / Real.log q) := by
  show XR.log (XR.fin x) / XR.log (XR.fin q) = _
  rcases hq0.eq_or_lt with rfl | hq
  · rw [Reservoir.log_ratio_zero hx]; simp
  · simp only [XR.log, hx.ne', hq.ne', hx, hq, if_true, if_false]
    exact XR.div_fin _ _ (Real.log_neg hq hq1).ne

theorem fin_pow {q c : ℝ} (hq : 0 ≤ q) (hc : 0 < c) : XR.ops.pow (XR.fin q) (XR.fin c) = XR.fin (q ^ c) := by
  show XR.pow (XR.fin q) (XR.fin c) = _
  rcases hq.eq_or_lt with rfl | hq
  · simp [XR.pow, hc, Real.zero_rpow hc.ne']
  · simp [XR.pow, hq.ne', hq]

theorem fin_key {x c : ℝ} (hx : x ∈ Set.Ioo (0 : ℝ) 1) (hc : 0 ≤ c) : XR.ops.pow (XR.fin x) (1 / XR.fin c) = XR.fin (key c x) := by
  rcases hc.eq_or_lt with rfl | hc
  · rw [key, if_pos rfl]
    exact Reservoir.pow_self hx.1 hx.2
  · rw [XR.one_def, XR.div_fin _ _ hc.ne', key, if_neg hc.ne']
    simp [XR.ops, XR.pow, hx.1.ne', hx.1]

/-- One jump or skip of the program. -/
theorem hit_step (hp : Reservoir.Pick.Min pick) (hr : ∀ g, rng.unit g = (XR.fin (u g).1, (u g).2)) (hw : ∀ j, 0 ≤ w j) {r i : ℕ} {l : List ℕ}
    {v : ℕ → ℝ} {X : ℝ} {g : G} (hn : l.Nodup) (hl : ∀ j ∈ l, j < i) (hv : ∀ j ∈ l, v j ∈ Set.Ioo (0 : ℝ) 1)
    (h : Hit w u T b (r + 1) i l v X g) :
    ∃ l' v' X' g', Reservoir.jumpStep XR.ops pick rng (fun j => XR.fin (w j)) i (queue w v l, XR.fin X, g) = .ok (queue w v' l', XR.fin X', g') ∧
      Hit w u T b r (i + 1) l' v' X' g' ∧ l'.Nodup ∧ (∀ j ∈ l', j < i + 1) ∧ (∀ j ∈ l', v' j ∈ Set.Ioo (0 : ℝ) 1) ∧ l'.length = l.length := by
  unfold Reservoir.jumpStep
  simp only
  rcases h with ⟨h1, h2, h3, h4, m, hm, hleast, m', hm', hleast', hit⟩ | ⟨h1, hit⟩
  · have hle : XR.fin X - XR.fin (w i) ≤ 0 := by rw [XR.sub_fin, XR.zero_def, XR.le_fin]; linarith
    rw [if_pos hle]
    obtain ⟨e1, e2⟩ := top_queue hp hleast hn
    have hk0 : 0 ≤ key (w m) (v m) := key_nonneg (hv m hm).1
    have hk1 : key (w m) (v m) < 1 := key_lt_one (hw m) (hv m hm)
    have ht0 : 0 ≤ key (w m) (v m) ^ w i := Real.rpow_nonneg hk0 _
    have ht1 : key (w m) (v m) ^ w i < 1 := by
      rcases hk0.eq_or_lt with hk | hk
      · rw [← hk, Real.zero_rpow h2.ne']; exact one_pos
      · exact Real.rpow_lt_one hk0 hk1 h2
    set t := key (w m) (v m) ^ w i with ht
    set x := (u g).1 * (1 - t) + t with hx
    have hx01 : x ∈ Set.Ioo (0 : ℝ) 1 := by
      constructor
      · nlinarith [mul_pos h3.1 (sub_pos.mpr ht1)]
      · nlinarith [mul_pos (sub_pos.mpr h3.2) (sub_pos.mpr ht1)]
    rw [e1, Res.bind_ok]
    simp only [hr]
    rw [e2, Res.bind_ok, fin_pow hk0 h2, ← ht, XR.one_def, XR.sub_fin, XR.mul_fin, XR.add_fin, ← hx, ← XR.one_def, fin_key hx01 (hw i)]
    have hil : i ∉ l := fun hi => absurd (hl i hi) (lt_irrefl i)
    have hq : queue w v (l.erase m) ++ [(i, XR.fin (key (w i) x))] = queue w (Function.update v i x) (l.erase m ++ [i]) := by
      unfold queue
      rw [List.map_append]
      congr 1
      · refine List.map_congr_left fun j hj => ?_
        rw [update_lt (hl j (List.mem_of_mem_erase hj))]
      · simp
    have hn' : (l.erase m ++ [i]).Nodup := by
      refine List.nodup_append.mpr ⟨hn.erase m, by simp, ?_⟩
      intro a ha c hc
      rw [List.mem_singleton] at hc
      subst hc
      rintro rfl
      exact hil (List.mem_of_mem_erase ha)
    have hv' : ∀ j ∈ l.erase m ++ [i], Function.update v i x j ∈ Set.Ioo (0 : ℝ) 1 := by
      intro j hj
      rcases List.mem_append.mp hj with hj | hj
      · rw [update_lt (hl j (List.mem_of_mem_erase hj))]; exact hv j (List.mem_of_mem_erase hj)
      · rw [List.mem_singleton.mp hj, Function.update_self]; exact hx01
    obtain ⟨e3, -⟩ := top_queue hp hleast' hn'
    rw [hq, e3, Res.bind_ok]
    simp only
    rw [fin_log_ratio h4.1 (key_nonneg (hv' m' hm').1) (key_lt_one (hw m') (hv' m' hm'))]
    refine ⟨_, _, _, _, rfl, hit, hn', ?_, hv', ?_⟩
    · intro j hj
      rcases List.mem_append.mp hj with hj | hj
      · exact (hl j (List.mem_of_mem_erase hj)).trans (Nat.lt_succ_self i)
      · rw [List.mem_singleton.mp hj]; exact Nat.lt_succ_self i
    · rw [List.length_append, List.length_singleton, List.length_erase_of_mem hm]
      have := List.length_pos_of_mem hm
      omega
  · have hle : ¬ (XR.fin X - XR.fin (w i) ≤ 0) := by rw [XR.sub_fin, XR.zero_def, XR.le_fin]; linarith
    rw [if_neg hle, XR.sub_fin]
    exact ⟨l, v, X - w i, g, rfl, hit, hn, fun j hj => (hl j hj).trans (Nat.lt_succ_self i), hv, rfl⟩

/-- All jumps of the program. -/
theorem hit_loop (hp : Reservoir.Pick.Min pick) (hr : ∀ g, rng.unit g = (XR.fin (u g).1, (u g).2)) (hw : ∀ j, 0 ≤ w j) {r i : ℕ} {l : List ℕ}
    {v : ℕ → ℝ} {X : ℝ} {g : G} (hn : l.Nodup) (hl : ∀ j ∈ l, j < i) (hv : ∀ j ∈ l, v j ∈ Set.Ioo (0 : ℝ) 1)
    (h : Hit w u T b r i l v X g) :
    ∃ H X' g', loop r (fun j s => Reservoir.jumpStep XR.ops pick rng (fun j => XR.fin (w j)) (i + j) s) (queue w v l, XR.fin X, g) = .ok (H, X', g') ∧
      Reservoir.drain pick l.length H = .ok b ∧ g' ∈ T := by
  induction r generalizing i l v X g with
  | zero => exact ⟨_, _, _, rfl, drain_queue hp h.1.1 hn h.1.2, h.2⟩
  | succ r ih =>
    obtain ⟨l', v', X', g', e1, e2, e3, e4, e5, e6⟩ := hit_step hp hr hw hn hl hv h
    obtain ⟨H, X2, g2, e7, e8, e9⟩ := ih e3 e4 e5 e2
    refine ⟨H, X2, g2, ?_, by rw [← e6]; exact e8, e9⟩
    rw [loop_front]
    show Reservoir.jumpStep XR.ops pick rng (fun j => XR.fin (w j)) i (queue w v l, XR.fin X, g) >>= _ = _
    rw [e1, Res.bind_ok, ← e7]
    refine loop_congr fun j t _ => ?_
    rw [show i + (j + 1) = i + 1 + j by omega]

/-- The filling of the reservoir. -/
theorem start_loop (hr : ∀ g, rng.unit g = (XR.fin (u g).1, (u g).2)) (hw : ∀ j, 0 ≤ w j) {n k r i : ℕ} (hik : i + r = k)
    {v : ℕ → ℝ} {g : G} (hv : ∀ j, j < i → v j ∈ Set.Ioo (0 : ℝ) 1) (h : Start w u T b n r i v g) :
    ∃ v' g' X', loop r (fun idx (s : List (ℕ × XR) × G) =>
        let (x, g) := rng.unit s.2
        .ok (s.1 ++ [(i + idx, XR.ops.pow x (1 / XR.fin (w (i + idx))))], g)) (queue w v (List.range i), g) = .ok (queue w v' (List.range k), g') ∧
      (∀ j, j < k → v' j ∈ Set.Ioo (0 : ℝ) 1) ∧ (u g').1 ∈ Set.Ioo (0 : ℝ) 1 ∧
      (∃ m, Least w v' (List.range k) m ∧ X' = Real.log (u g').1 / Real.log (key (w m) (v' m))) ∧
      Hit w u T b (n - k) k (List.range k) v' X' (u g').2 := by
  induction r generalizing i v g with
  | zero =>
    obtain rfl : i = k := by omega
    obtain ⟨h1, m, hm, hl, hit⟩ := h
    exact ⟨v, g, _, rfl, hv, h1, ⟨m, hl, rfl⟩, hit⟩
  | succ r ih =>
    obtain ⟨h1, h2⟩ := h
    have hv' : ∀ j, j < i + 1 → Function.update v i (u g).1 j ∈ Set.Ioo (0 : ℝ) 1 := by
      intro j hj
      by_cases e : j = i
      · subst e; simpa using h1
      · rw [update_lt (by omega)]; exact hv j (by omega)
    obtain ⟨v', g', X', e1, e2⟩ := ih (by omega) hv' h2
    refine ⟨v', g', X', ?_, e2⟩
    rw [loop_front]
    simp only [hr] at e1 ⊢
    rw [Res.bind_ok]
    have hq : queue w v (List.range i) ++ [(i + 0, XR.ops.pow (XR.fin (u g).1) (1 / XR.fin (w (i + 0))))] =
        queue w (Function.update v i (u g).1) (List.range (i + 1)) := by
      rw [add_zero, fin_key h1 (hw i)]
      unfold queue
      rw [List.range_succ, List.map_append]
      congr 1
      · refine List.map_congr_left fun j hj => ?_
        rw [update_lt (List.mem_range.mp hj)]
      · simp
    rw [hq, ← e1]
    refine loop_congr fun j t _ => ?_
    rw [show i + (j + 1) = i + 1 + j by omega]

/-- The sampling code returns `b` whenever the process ends with `b`. -/
theorem sample_start (hp : Reservoir.Pick.Min pick) (hr : ∀ g, rng.unit g = (XR.fin (u g).1, (u g).2)) (hw : ∀ j, 0 ≤ w j) {n k : ℕ} (hk : 0 < k)
    (hkn : k ≤ n) {v : ℕ → ℝ} {g : G} (h : Start w u T b n k 0 v g) (buffer : List ℕ) :
    ∃ g' ∈ T, Reservoir.sample XR.ops pick rng k n (fun j => XR.fin (w j)) buffer g = .ok (b, g') := by
  obtain ⟨v', g', X', e1, e2, e3, ⟨m, hm, rfl⟩, hit⟩ := start_loop hr hw (zero_add k) (by intro j hj; omega) h
  obtain ⟨H, X2, g2, e4, e5, hT⟩ := hit_loop hp hr hw List.nodup_range (fun j hj => List.mem_range.mp hj) (fun j hj => e2 j (List.mem_range.mp hj)) hit
  rw [List.length_range] at e5
  have hfill : Reservoir.fill XR.ops rng (fun j => XR.fin (w j)) k g = .ok (queue w v' (List.range k), g') := by
    unfold Reservoir.fill
    rw [← e1]
    show loop k _ ([], g) = loop k _ ([], g)
    refine loop_congr fun j t _ => ?_
    simp only [zero_add]
  unfold Reservoir.sample
  rw [if_neg hk.ne']
  simp only [min_eq_right hkn]
  rw [hfill, Res.bind_ok]
  simp only [hr]
  obtain ⟨e6, -⟩ := top_queue hp hm List.nodup_range
  have hmk : m < k := List.mem_range.mp hm.1
  rw [e6, Res.bind_ok]
  simp only
  rw [fin_log_ratio e3.1 (key_nonneg (e2 m hmk).1) (key_lt_one (hw m) (e2 m hmk)), e4, Res.bind_ok]
  simp only
  rw [e5, Res.bind_ok]
  exact ⟨g2, hT, rfl⟩

end

end Seldon.ExpJ
