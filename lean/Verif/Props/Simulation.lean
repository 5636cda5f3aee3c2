import Verif.Lemmas.Simulation
/-!
# Properties C51, C52: the simulation loop and its output files

The theorems here hold for every model that implements the `Model` interface; they are instantiated for the concrete models
in `Props/DeGroot.lean`, `Props/Deffuant.lean`, `Props/Activity.lean`.
-/
namespace Seldon
open Spec Simulation
variable {A F S : Type}

/-! ## C52 -/

/-- C52: if `run` returns, then it made some number `K` of iterations, and the files written are, in this order, exactly the
wanted ones: initially `network_s`, `opinions_s` (iff `output_initial`), and after iteration `k = 1..K` the opinions file
and the network file numbered `k + s` iff requested, each with the contents of the state right after iteration `k`. -/
theorem C52_files {M : Machine A F S} (hM : M.Counts) (hnet : ∀ s, M.network (M.reset s) = M.network s) {R : Render A F}
    {o : OutputSettings} {fuel : Nat} {s : S} {s' : S} {tr : List FileWrite} (h : run M R o fuel s = .ok (s', tr)) :
    ∃ (K : Nat) (st : Nat → S), IsRun M (M.reset s) K st ∧ K ≤ fuel ∧ s' = st K ∧
      List.Forall₂ (Fulfils R) tr (wanted o (fun k => M.network (st k)) K) := by
  obtain ⟨tr0, h0, h⟩ := Res.bind_eq_ok.mp h
  obtain ⟨K, st, ws, hK, hrun, ht, hn, hw⟩ := loop_ok hM fuel h
  simp only [Prod.mk.injEq] at ht
  refine ⟨K, st, hrun, hK, ht.1, ?_⟩
  rw [ht.2]
  unfold wanted
  refine List.rel_append ?_ ?_
  · simp only [hrun.start, hnet]; exact initialOutput_ok h0
  · simpa [hM.reset] using hw

/-- C52: conversely, whenever the model's own iterations do not fail and its networks are well-formed, `run` returns and the
output settings (with non-zero intervals) cannot make it fail. -/
theorem C52_total {M : Machine A F S} {R : Render A F} {o : OutputSettings} (h1 : o.nOutputAgents ≠ some 0)
    (h2 : o.nOutputNetwork ≠ some 0) {s : S} {K : Nat} {st : Nat → S} (hs : WF (M.network s)) (hrun : IsRun M (M.reset s) K st)
    (hwf : ∀ k, k ≤ K → WF (M.network (st k))) {fuel : Nat} (hf : K ≤ fuel) :
    ∃ tr, run M R o fuel s = .ok (st K, tr) := by
  obtain ⟨tr0, h0⟩ := initialOutput_total (renderable_of_wf R hs) o
  obtain ⟨tr, ht⟩ := loop_total h1 h2 K tr0 hf hrun (fun k hk => renderable_of_wf R (hwf k hk))
  refine ⟨tr, ?_⟩
  unfold run
  rw [h0, Res.bind_ok, ht]

theorem wantedAt_numbers {o : OutputSettings} {N : Network A F} {k : Nat} {q : Wanted A F} (h : q ∈ wantedAt o N k) :
    q.number = k + o.startNumberingFrom := by
  unfold wantedAt at h
  rw [List.mem_append] at h
  rcases h with h | h <;> split at h <;> simp at h <;> rw [h]

theorem wantedInitially_numbers {o : OutputSettings} {N : Network A F} {q : Wanted A F} (h : q ∈ wantedInitially o N) :
    q.number = o.startNumberingFrom := by
  unfold wantedInitially at h
  split at h
  · simp at h; rcases h with h | h <;> rw [h]
  · simp at h

theorem wanted_nodup (o : OutputSettings) (N : Nat → Network A F) (K : Nat) :
    ((wanted o N K).map (fun q => (q.kind, q.number))).Nodup := by
  induction K with
  | zero => simp only [wanted, wantedInitially]; split <;> simp
  | succ K ih =>
    have : wanted o N (K + 1) = wanted o N K ++ wantedAt o (N (K + 1)) (K + 1) := by
      simp [wanted, List.range_succ, List.append_assoc]
    rw [this, List.map_append]
    refine List.nodup_append.mpr ⟨ih, ?_, ?_⟩
    · unfold wantedAt; split <;> split <;> simp
    · intro a ha b hb
      rw [List.mem_map] at ha hb
      obtain ⟨q, hq, rfl⟩ := ha
      obtain ⟨p, hp, rfl⟩ := hb
      intro heq
      simp only [Prod.mk.injEq] at heq
      have e1 := wantedAt_numbers hp
      unfold wanted at hq
      rw [List.mem_append] at hq
      rcases hq with hq | hq
      · have := wantedInitially_numbers hq; omega
      · rw [List.mem_flatMap] at hq
        obtain ⟨k, hk, hq⟩ := hq
        rw [List.mem_range] at hk
        have := wantedAt_numbers hq
        omega

/-- C52: no file name is written twice in one run. -/
theorem C52_no_duplicates {M : Machine A F S} (hM : M.Counts) (hnet : ∀ s, M.network (M.reset s) = M.network s) {R : Render A F}
    {o : OutputSettings} {fuel : Nat} {s : S} {s' : S} {tr : List FileWrite} (h : run M R o fuel s = .ok (s', tr)) :
    (tr.map (·.name)).Nodup := by
  obtain ⟨K, st, -, -, -, hw⟩ := C52_files hM hnet h
  have e : tr.map (·.name) = ((wanted o (fun k => M.network (st k)) K).map (fun q => (q.kind, q.number))).map
      (fun p => fileName p.1 p.2) := by
    rw [List.map_map]
    clear h
    generalize wanted o (fun k => M.network (st k)) K = ws at hw
    induction hw with
    | nil => rfl
    | cons h1 _ ih => simp only [List.map_cons, ih, Function.comp]; rw [h1.1]
  rw [e]
  refine List.Nodup.map_on ?_ (wanted_nodup o _ K)
  intro a _ b _ hab
  have := fileName_inj hab
  exact Prod.ext this.1 this.2

/-- C52: with `n_output_agents = 0` or `n_output_network = 0` (accepted by the settings check) every run that reaches
iteration `start_output` ends in undefined behaviour (`% 0`). -/
theorem C52_zero_interval {M : Machine A F S} (hM : M.Counts) {R : Render A F} {o : OutputSettings}
    (h0 : o.nOutputAgents = some 0 ∨ o.nOutputNetwork = some 0) {s : S} {K : Nat} {st : Nat → S} (hs : WF (M.network s))
    (hstart : st 0 = M.reset s) (hgo : ∀ k, k < K → M.finished (st k) = false)
    (hstep : ∀ k, k < K → M.iteration (st k) = .ok (st (k + 1))) (hwf : ∀ k, k ≤ K → WF (M.network (st k)))
    (hK : o.startOutput ≤ K) (hpos : 1 ≤ K) {fuel : Nat} (hfuel : K ≤ fuel) : run M R o fuel s = .error .ub := by
  have hdue : ∀ n k, due n o.startOutput k = .error .ub ∨ ∃ b, due n o.startOutput k = .ok b := by
    intro n k
    by_cases hn : n = some 0
    · subst hn
      by_cases hk : o.startOutput ≤ k
      · left; simp [due, hk]
      · right; simp [due, hk]
    · right; exact due_total hn _ _
  have hdue0 : ∀ k, o.startOutput ≤ k → due (some 0) o.startOutput k = .error .ub := by intro k hk; simp [due, hk]
  have ho : ∀ (N : Network A F) k tr, WF N → outputOpinions R o N k tr = .error .ub ∨ ∃ tr', outputOpinions R o N k tr = .ok tr' := by
    intro N k tr hN
    obtain ⟨c, hc⟩ := (renderable_of_wf R hN).1
    unfold outputOpinions writeOpinions
    rcases hdue o.nOutputAgents k with h | ⟨b, h⟩
    · left; rw [h]; rfl
    · right; cases b <;> simp [h, hc]
  have hn : ∀ (N : Network A F) k tr, WF N → outputNetwork R o N k tr = .error .ub ∨ ∃ tr', outputNetwork R o N k tr = .ok tr' := by
    intro N k tr hN
    obtain ⟨c, hc⟩ := (renderable_of_wf R hN).2
    unfold outputNetwork writeNetwork
    rcases hdue o.nOutputNetwork k with h | ⟨b, h⟩
    · left; rw [h]; rfl
    · right; cases b <;> simp [h, hc]
  have hout : ∀ (N : Network A F) k tr, WF N → output R o N k tr = .error .ub ∨ ∃ tr', output R o N k tr = .ok tr' := by
    intro N k tr hN
    unfold output
    rcases ho N k tr hN with h | ⟨tr1, h⟩
    · left; rw [h]; rfl
    · rw [h, Res.bind_ok]; exact hn N k tr1 hN
  have hout0 : ∀ (N : Network A F) k tr, WF N → o.startOutput ≤ k → output R o N k tr = .error .ub := by
    intro N k tr hN hk
    unfold output
    rcases h0 with h0 | h0
    · unfold outputOpinions; rw [h0, hdue0 k hk]; rfl
    · rcases ho N k tr hN with h | ⟨tr1, h⟩
      · rw [h]; rfl
      · rw [h, Res.bind_ok]; unfold outputNetwork; rw [h0, hdue0 k hk]; rfl
  have key : ∀ (fuel : Nat) (j : Nat) (tr : List FileWrite), j < K → K - j ≤ fuel → M.nIterations (st j) = j →
      runLoop M R o fuel (st j, tr) = .error .ub := by
    intro fuel
    induction fuel with
    | zero => intro j tr hj hf; omega
    | succ fuel ih =>
      intro j tr hj hf hni
      have hn' := hM.iteration _ _ (hstep j hj)
      unfold runLoop
      simp only [hgo j hj, Bool.false_eq_true, if_false, hstep j hj, Res.bind_ok]
      by_cases hlast : j + 1 = K
      · rw [hn', hni, hout0 _ _ _ (hwf _ (by omega)) (by omega)]; rfl
      · rcases hout (M.network (st (j + 1))) (M.nIterations (st (j + 1))) tr (hwf _ (by omega)) with h | ⟨tr1, h⟩
        · rw [h]; rfl
        · rw [h, Res.bind_ok]
          exact ih (j + 1) tr1 (by omega) (by omega) (by omega)
  obtain ⟨tr0, htr0⟩ := initialOutput_total (renderable_of_wf R hs) o
  unfold run
  rw [htr0, Res.bind_ok, ← hstart]
  exact key fuel 0 tr0 (by omega) (by omega) (by rw [hstart]; exact hM.reset s)

/-! ## C51 -/

/-- C51: if the model stops exactly when its counter reaches `N`, a run makes exactly `N` iterations. -/
theorem C51_exactly {M : Machine A F S} (hM : M.Counts) (I : S → Prop) (N : Nat) (hI : ∀ s, I s → I (M.reset s))
    (hstep : ∀ s t, I s → M.iteration s = .ok t → I t) (hfin : ∀ s, I s → (M.finished s = true ↔ N ≤ M.nIterations s))
    {s : S} (hs : I s) {K : Nat} {st : Nat → S} (hrun : IsRun M (M.reset s) K st) : K = N := by
  have h : ∀ k, k ≤ K → I (st k) ∧ M.nIterations (st k) = k := by
    intro k
    induction k with
    | zero => intro _; rw [hrun.start]; exact ⟨hI s hs, hM.reset s⟩
    | succ k ih =>
      intro hk
      obtain ⟨h1, h2⟩ := ih (by omega)
      exact ⟨hstep _ _ h1 (hrun.step k (by omega)), by rw [hM.iteration _ _ (hrun.step k (by omega)), h2]⟩
  have h1 := h K (le_refl K)
  have h2 := (hfin _ h1.1).mp hrun.stop
  rw [h1.2] at h2
  by_contra hne
  have h3 := h N (by omega)
  have h4 := hrun.going N (by omega)
  rw [(hfin _ h3.1).mpr (by omega)] at h4
  cases h4

/-- C51: and if its iterations never fail, that run exists. -/
theorem C51_reaches {M : Machine A F S} (hM : M.Counts) (I : S → Prop) (N : Nat) (hI : ∀ s, I s → I (M.reset s))
    (hstep : ∀ s, I s → ∃ t, M.iteration s = .ok t ∧ I t) (hfin : ∀ s, I s → (M.finished s = true ↔ N ≤ M.nIterations s))
    {s : S} (hs : I s) : ∃ st, IsRun M (M.reset s) N st ∧ ∀ k, k ≤ N → I (st k) := by
  classical
  let nxt : S → S := fun s => if h : I s then (hstep s h).choose else s
  have hn : ∀ s, I s → M.iteration s = .ok (nxt s) ∧ I (nxt s) := by
    intro s hs
    have := (hstep s hs).choose_spec
    simp only [nxt, hs, dite_true]
    exact this
  let st : Nat → S := fun k => Nat.rec (M.reset s) (fun _ t => nxt t) k
  have h : ∀ k, I (st k) ∧ M.nIterations (st k) = k := by
    intro k
    induction k with
    | zero => exact ⟨hI s hs, hM.reset s⟩
    | succ k ih => exact ⟨(hn _ ih.1).2, by rw [hM.iteration _ _ (hn _ ih.1).1, ih.2]⟩
  refine ⟨st, ⟨rfl, ?_, fun k _ => (hn _ (h k).1).1, ?_⟩, fun k _ => (h k).1⟩
  · intro k hk
    have := hfin _ (h k).1
    rw [(h k).2] at this
    by_contra hc
    simp only [Bool.not_eq_false] at hc
    exact absurd (this.mp hc) (by omega)
  · rw [hfin _ (h N).1, (h N).2]

/-- C51: a model that is never finished is never stopped by `run`. -/
theorem C51_never {M : Machine A F S} (I : S → Prop) (hI : ∀ s, I s → I (M.reset s))
    (hstep : ∀ s t, I s → M.iteration s = .ok t → I t) (hfin : ∀ s, I s → M.finished s = false) (R : Render A F)
    (o : OutputSettings) (fuel : Nat) {s : S} (hs : I s) : ∀ t, run M R o fuel s ≠ .ok t := by
  intro t h
  obtain ⟨tr0, -, h⟩ := Res.bind_eq_ok.mp h
  have key : ∀ (fuel : Nat) (s : S) (tr : List FileWrite) (t : S × List FileWrite), I s → runLoop M R o fuel (s, tr) ≠ .ok t := by
    intro fuel
    induction fuel with
    | zero => intro s tr t hs h; unfold runLoop at h; simp [hfin s hs] at h
    | succ fuel ih =>
      intro s tr t hs h
      unfold runLoop at h
      simp only [hfin s hs, Bool.false_eq_true, if_false] at h
      obtain ⟨s1, h1, h⟩ := Res.bind_eq_ok.mp h
      obtain ⟨tr1, -, h⟩ := Res.bind_eq_ok.mp h
      exact ih s1 tr1 t (hstep _ _ hs h1) h
  exact key fuel _ tr0 t (hI s hs) h

end Seldon
