import Verif.Lemmas.Deffuant
import Verif.Props.Sampling
/-!
# Lemmas for the vector Deffuant model
-/
set_option linter.unusedSectionVars false
namespace Seldon
open Spec
namespace Deffuant
variable {F G : Type}

/-- All opinion vectors have `d` entries. -/
def Dim (d : Nat) (agents : List DiscreteVectorAgent) : Prop := ∀ v ∈ agents, v.opinion.length = d

theorem entry_lt {agents : List DiscreteVectorAgent} {i j : Nat} (hi : i < agents.length) (hj : j < agents[i].opinion.length) :
    entry agents i j = some agents[i].opinion[j] := by
  simp [entry, hi, hj]

theorem entry_set {agents : List DiscreteVectorAgent} {d a k : Nat} (hd : Dim d agents) (ha : a < agents.length) (hk : k < d) (v : Int) (i j : Nat) :
    entry (agents.set a ⟨agents[a].opinion.set k v⟩) i j = if i = a ∧ j = k then some v else entry agents i j := by
  have hl : agents[a].opinion.length = d := hd _ (List.getElem_mem ha)
  unfold entry
  rw [List.getElem?_set]
  by_cases hia : a = i
  · subst hia
    simp only [ha, if_true, Option.bind_some, true_and, List.getElem?_eq_getElem ha]
    rw [List.getElem?_set]
    by_cases hjk : k = j
    · subst hjk; simp [hl, hk]
    · rw [if_neg hjk, if_neg (fun h => hjk h.symm)]
  · rw [if_neg hia, if_neg (fun h => hia h.1.symm)]

theorem dim_set {agents : List DiscreteVectorAgent} {d a k : Nat} (hd : Dim d agents) (ha : a < agents.length) (v : Int) :
    Dim d (agents.set a ⟨agents[a].opinion.set k v⟩) := by
  intro w hw
  rcases List.mem_or_eq_of_mem_set hw with h | h
  · exact hd w h
  · subst h; simpa using hd _ (List.getElem_mem ha)

/-- The outcome of processing one position. -/
theorem convince_ok [LT F] [DecidableLT F] (r : Rng G F) (mu : F) {a b k d : Nat} {t : List DiscreteVectorAgent × G} (hd : Dim d t.1)
    (ha : a < t.1.length) (hb : b < t.1.length) (hk : k < d) :
    ∃ t' v, convince r mu a b k t = .ok t' ∧ t'.1.length = t.1.length ∧ Dim d t'.1 ∧
      (entry t.1 a k = some v ∨ entry t.1 b k = some v) ∧
      ∀ i j, entry t'.1 i j = if (i = a ∨ i = b) ∧ j = k then some v else entry t.1 i j := by
  have hla : t.1[a].opinion.length = d := hd _ (List.getElem_mem ha)
  have hlb : t.1[b].opinion.length = d := hd _ (List.getElem_mem hb)
  have ea := entry_lt ha (show k < t.1[a].opinion.length by omega)
  have eb := entry_lt hb (show k < t.1[b].opinion.length by omega)
  -- the two possible writes
  have caseA : ∀ g, ∃ t' v, (do
        let op ← wr t.1[a].opinion k (t.1[b].opinion[k]'(by omega))
        let agents ← wr t.1 a ⟨op⟩
        .ok (agents, g) : Res (List DiscreteVectorAgent × G)) = .ok t' ∧ t'.1.length = t.1.length ∧ Dim d t'.1 ∧
      (entry t.1 a k = some v ∨ entry t.1 b k = some v) ∧
      ∀ i j, entry t'.1 i j = if (i = a ∨ i = b) ∧ j = k then some v else entry t.1 i j := by
    intro g
    refine ⟨_, t.1[b].opinion[k]'(by omega), by rw [wr_lt _ (by omega), Res.bind_ok, wr_lt _ ha, Res.bind_ok], by simp, dim_set hd ha _, Or.inr eb, ?_⟩
    intro i j
    rw [entry_set hd ha hk]
    by_cases h1 : i = a ∧ j = k
    · rw [if_pos h1, if_pos ⟨Or.inl h1.1, h1.2⟩]
    · rw [if_neg h1]
      by_cases h2 : i = b ∧ j = k
      · rw [if_pos ⟨Or.inr h2.1, h2.2⟩, h2.1, h2.2, eb]
      · rw [if_neg]; rintro ⟨h3 | h3, h4⟩
        · exact h1 ⟨h3, h4⟩
        · exact h2 ⟨h3, h4⟩
  have caseB : ∀ g, ∃ t' v, (do
        let op ← wr t.1[b].opinion k (t.1[a].opinion[k]'(by omega))
        let agents ← wr t.1 b ⟨op⟩
        .ok (agents, g) : Res (List DiscreteVectorAgent × G)) = .ok t' ∧ t'.1.length = t.1.length ∧ Dim d t'.1 ∧
      (entry t.1 a k = some v ∨ entry t.1 b k = some v) ∧
      ∀ i j, entry t'.1 i j = if (i = a ∨ i = b) ∧ j = k then some v else entry t.1 i j := by
    intro g
    refine ⟨_, t.1[a].opinion[k]'(by omega), by rw [wr_lt _ (by omega), Res.bind_ok, wr_lt _ hb, Res.bind_ok], by simp, dim_set hd hb _, Or.inl ea, ?_⟩
    intro i j
    rw [entry_set hd hb hk]
    by_cases h1 : i = b ∧ j = k
    · rw [if_pos h1, if_pos ⟨Or.inr h1.1, h1.2⟩]
    · rw [if_neg h1]
      by_cases h2 : i = a ∧ j = k
      · rw [if_pos ⟨Or.inl h2.1, h2.2⟩, h2.1, h2.2, ea]
      · rw [if_neg]; rintro ⟨h3 | h3, h4⟩
        · exact h2 ⟨h3, h4⟩
        · exact h1 ⟨h3, h4⟩
  unfold convince
  rw [rd_lt ha, Res.bind_ok, rd_lt hb, Res.bind_ok, rd_lt (show k < t.1[a].opinion.length by omega), Res.bind_ok,
    rd_lt (show k < t.1[b].opinion.length by omega), Res.bind_ok]
  by_cases hne : t.1[a].opinion[k]'(by omega) ≠ t.1[b].opinion[k]'(by omega)
  · rw [if_pos hne]
    simp only
    split
    · split
      · exact caseA _
      · exact caseB _
    · exact caseB _
  · rw [if_neg hne]
    rw [not_not] at hne
    refine ⟨t, t.1[a].opinion[k]'(by omega), rfl, rfl, hd, Or.inl ea, ?_⟩
    intro i j
    by_cases h : (i = a ∨ i = b) ∧ j = k
    · rw [if_pos h]
      rcases h with ⟨h | h, hj⟩
      · rw [h, hj, ea]
      · rw [h, hj, eb, hne]
    · rw [if_neg h]

/-- The outcome of processing all positions. -/
theorem convinceAll_ok [LT F] [DecidableLT F] (r : Rng G F) (mu : F) {a b d : Nat} {t : List DiscreteVectorAgent × G} (hd : Dim d t.1)
    (ha : a < t.1.length) (hb : b < t.1.length) :
    ∃ t', ∃ val : Nat → Int, loop d (fun k t => convince r mu a b k t) t = .ok t' ∧ t'.1.length = t.1.length ∧ Dim d t'.1 ∧
      (∀ j, j < d → entry t.1 a j = some (val j) ∨ entry t.1 b j = some (val j)) ∧
      ∀ i j, entry t'.1 i j = if (i = a ∨ i = b) ∧ j < d then some (val j) else entry t.1 i j := by
  obtain ⟨t', ht', h1, h2, val, h3, h4⟩ := loop_inv (n := d) (f := fun k t => convince r mu a b k t) (s := t)
    (fun k t' => t'.1.length = t.1.length ∧ Dim d t'.1 ∧ ∃ val : Nat → Int,
      (∀ j, j < k → entry t.1 a j = some (val j) ∨ entry t.1 b j = some (val j)) ∧
      ∀ i j, entry t'.1 i j = if (i = a ∨ i = b) ∧ j < k then some (val j) else entry t.1 i j)
    ⟨rfl, hd, fun _ => 0, by simp, by simp⟩ (by
      rintro k u hk ⟨g1, g2, val, g3, g4⟩
      obtain ⟨u', v, e1, e2, e3, e4, e5⟩ := convince_ok r mu g2 (by rw [g1]; exact ha) (by rw [g1]; exact hb) hk
      refine ⟨u', e1, e2.trans g1, e3, fun j => if j = k then v else val j, ?_, ?_⟩
      · intro j hj
        by_cases hjk : j = k
        · subst hjk
          simp only [if_true]
          have ga := g4 a j; have gb := g4 b j
          rw [if_neg (by simp)] at ga gb
          rw [← ga, ← gb]; exact e4
        · simp only [if_neg hjk]; exact g3 j (by omega)
      · intro i j
        rw [e5, g4]
        by_cases hi : i = a ∨ i = b
        · by_cases hjk : j = k
          · subst hjk; simp [hi]
          · beta_reduce
            rw [if_neg (fun h => hjk h.2), if_neg hjk]
            by_cases hj : j < k
            · rw [if_pos ⟨hi, hj⟩, if_pos ⟨hi, by omega⟩]
            · rw [if_neg (by tauto), if_neg]
              rintro ⟨-, h⟩; omega
        · simp [hi])
  exact ⟨t', val, ht', h1, h2, h3, h4⟩

/-- Number of positions in which the vectors of two agents differ. -/
def distance (agents : List DiscreteVectorAgent) (a b d : Nat) : Nat :=
  ((Finset.range d).filter (fun j => entry agents a j ≠ entry agents b j)).card

/-- Outcome of the vector update rule. -/
theorem updateVector_ok [LT F] [DecidableLT F] [IntCast F] (r : Rng G F) {a b d : Nat} {s : Deffuant DiscreteVectorAgent F G}
    (hd : Dim d s.network.agents) (ha : a < s.network.agents.length) (hb : b < s.network.agents.length) :
    ∃ t, updateVector r a b s = .ok t ∧ Frame s t ∧ t.counter = s.counter ∧ Dim d t.network.agents ∧
      if ((distance s.network.agents a b d : Int) : F) < s.threshold then
        ∃ val : Nat → Int, (∀ j, j < d → entry s.network.agents a j = some (val j) ∨ entry s.network.agents b j = some (val j)) ∧
          ∀ i j, entry t.network.agents i j = if (i = a ∨ i = b) ∧ j < d then some (val j) else entry s.network.agents i j
      else t = s := by
  have hla : s.network.agents[a].opinion.length = d := hd _ (List.getElem_mem ha)
  have hlb : s.network.agents[b].opinion.length = d := hd _ (List.getElem_mem hb)
  have hham : hamming s.network.agents[a].opinion s.network.agents[b].opinion = .ok (distance s.network.agents a b d : Int) := by
    rw [hamming_eq (hla.trans hlb.symm)]
    unfold diffPositions distance
    congr 3
    rw [hla]
    apply Finset.filter_congr
    intro j hj
    simp [entry, ha, hb]
  unfold updateVector
  rw [rd_lt ha, Res.bind_ok, rd_lt hb, Res.bind_ok]
  simp only [hham, Res.bind_ok]
  by_cases h : ((distance s.network.agents a b d : Int) : F) < s.threshold
  · rw [if_pos h]
    obtain ⟨t', val, h1, h2, h3, h4, h5⟩ := convinceAll_ok r s.mu (t := (s.network.agents, s.gen)) hd ha hb
    rw [hla]
    simp only [h1, Res.bind_ok]
    refine ⟨_, rfl, ⟨rfl, rfl, rfl, rfl, rfl, rfl, h2, rfl⟩, rfl, h3, ?_⟩
    rw [if_pos h]
    exact ⟨val, h4, h5⟩
  · rw [if_neg h]
    refine ⟨s, rfl, Frame.refl s, rfl, hd, ?_⟩
    rw [if_neg h]

/-- Every entry keeps a property that all entries at its position had. -/
theorem updateVector_inv [LT F] [DecidableLT F] [IntCast F] (r : Rng G F) {a b d : Nat} {s t : Deffuant DiscreteVectorAgent F G}
    (hd : Dim d s.network.agents) (ha : a < s.network.agents.length) (hb : b < s.network.agents.length)
    (h : updateVector r a b s = .ok t) :
    Frame s t ∧ Dim d t.network.agents ∧
    ∀ P : Nat → Int → Prop, (∀ i j v, entry s.network.agents i j = some v → P j v) → ∀ i j v, entry t.network.agents i j = some v → P j v := by
  obtain ⟨u, h1, h2, -, h3, h4⟩ := updateVector_ok r hd ha hb
  obtain rfl := Except.ok.inj (h1.symm.trans h)
  refine ⟨h2, h3, ?_⟩
  intro P hP i j v hv
  split at h4
  · obtain ⟨val, hval, he⟩ := h4
    rw [he] at hv
    split at hv
    · next hc =>
      simp only [Option.some.injEq] at hv
      subst hv
      rcases hval j hc.2 with h | h
      · exact hP _ _ _ h
      · exact hP _ _ _ h
    · exact hP _ _ _ hv
  · subst h4; exact hP _ _ _ hv

theorem iterationVector_inv [LT F] [DecidableLT F] [IntCast F] {r : Rng G F} {d : Nat} {s t : Deffuant DiscreteVectorAgent F G}
    (hd : Dim d s.network.agents) (h : iteration r (updateVector r) s = .ok t) :
    Frame s t ∧ Dim d t.network.agents ∧
    ∀ P : Nat → Int → Prop, (∀ i j v, entry s.network.agents i j = some v → P j v) → ∀ i j v, entry t.network.agents i j = some v → P j v := by
  refine loop_ok (σ := Deffuant DiscreteVectorAgent F G) (f := fun _ s => interact r (updateVector r) s)
    (fun _ t => Frame s t ∧ Dim d t.network.agents ∧
      ∀ P : Nat → Int → Prop, (∀ i j v, entry s.network.agents i j = some v → P j v) → ∀ i j v, entry t.network.agents i j = some v → P j v) ?_ ?_ h
  · rintro i u v ⟨hF, hD, hP⟩ hv
    obtain ⟨a, b, g, ha, hb, hu⟩ := interact_ok hv
    obtain ⟨hF', hD', hP'⟩ := updateVector_inv r (s := { u with gen := g }) hD ha hb hu
    exact ⟨hF.trans ⟨hF'.1, hF'.2, hF'.3, hF'.4, hF'.5, hF'.6, hF'.7, hF'.8⟩, hD', fun P h0 => hP' P (hP P h0)⟩
  · exact ⟨⟨rfl, rfl, rfl, rfl, rfl, rfl, rfl, rfl⟩, hd, fun P h => h⟩

theorem iterationVector_total [LT F] [DecidableLT F] [IntCast F] {r : Rng G F} (hr : r.IntLawful) {d : Nat}
    {s : Deffuant DiscreteVectorAgent F G} (h : s.Ready) (hd : Dim d s.network.agents) :
    ∃ t, iteration r (updateVector r) s = .ok t := by
  obtain ⟨t, ht, -⟩ := loop_inv (n := s.network.nAgents) (f := fun _ s => interact r (updateVector r) s)
    (s := { s with counter := s.counter.tick }) (fun _ t => Frame s t ∧ Dim d t.network.agents)
    ⟨⟨rfl, rfl, rfl, rfl, rfl, rfl, rfl, rfl⟩, hd⟩ (by
      rintro i t hi ⟨hF, hD⟩
      have hr' := hF.ready h
      have hn : 0 < t.network.agents.length := by rw [hF.n]; exact Nat.zero_lt_of_lt hi
      obtain ⟨u, hu⟩ := interact_total hr (update := updateVector r) hr' hn (fun a b g ha hb => by
        obtain ⟨v, hv, -⟩ := updateVector_ok r (s := { t with gen := g }) hD ha hb
        exact ⟨v, hv⟩)
      obtain ⟨a, b, g, ha, hb, hu'⟩ := interact_ok hu
      obtain ⟨hF', hD', -⟩ := updateVector_inv r (s := { t with gen := g }) hD ha hb hu'
      exact ⟨u, hu, hF.trans ⟨hF'.1, hF'.2, hF'.3, hF'.4, hF'.5, hF'.6, hF'.7, hF'.8⟩, hD'⟩)
  exact ⟨t, ht⟩

/-! ## initialisation -/

theorem drawBits_spec {r : Rng G F} (hr : r.IntLawful) : ∀ (n : Nat) (g : G), (drawBits r n g).1.length = n ∧
    ∀ v ∈ (drawBits r n g).1, v = 0 ∨ v = 1 := by
  intro n
  induction n with
  | zero => intro g; simp [drawBits]
  | succ n ih =>
    intro g
    simp only [drawBits, List.length_cons, List.mem_cons]
    obtain ⟨h1, h2⟩ := ih (r.int 0 1 g).2
    refine ⟨by rw [h1], ?_⟩
    rintro v (rfl | h)
    · have := hr.int_le 0 1 g (Nat.zero_le _)
      have h3 : (r.int 0 1 g).1 = 0 ∨ (r.int 0 1 g).1 = 1 := by omega
      rcases h3 with h3 | h3 <;> simp [h3]
    · exact h2 v h

theorem initializeVectors_ok {r : Rng G F} (hr : r.IntLawful) (dim : Nat) (s : Deffuant DiscreteVectorAgent F G) :
    ∃ t, initializeVectors r dim s = .ok t ∧ Frame s t ∧ t.counter = s.counter ∧ Dim dim t.network.agents ∧
      ∀ i j v, entry t.network.agents i j = some v → v = 0 ∨ v = 1 := by
  obtain ⟨t, ht, h1, h2⟩ := loop_inv (n := s.network.agents.length) (f := fun i (t : List DiscreteVectorAgent × G) => do
      let _ ← rd t.1 i
      let (bits, g) := drawBits r dim t.2
      let agents ← wr t.1 i ⟨bits⟩
      .ok (agents, g)) (s := (s.network.agents, s.gen))
    (fun k t => t.1.length = s.network.agents.length ∧ ∀ i, i < k → ∃ v, t.1[i]? = some v ∧ v.opinion.length = dim ∧ ∀ x ∈ v.opinion, x = 0 ∨ x = 1)
    ⟨rfl, by simp⟩ (by
      rintro k t hk ⟨h1, h2⟩
      rw [rd_lt (by omega), Res.bind_ok]
      simp only [wr_lt _ (show k < t.1.length by omega), Res.bind_ok]
      refine ⟨_, rfl, by simpa using h1, ?_⟩
      intro i hi
      rw [List.getElem?_set]
      by_cases hik : k = i
      · subst hik
        obtain ⟨b1, b2⟩ := drawBits_spec hr dim t.2
        exact ⟨⟨(drawBits r dim t.2).1⟩, by simp [h1, hk], b1, b2⟩
      · rw [if_neg hik]; exact h2 i (by omega))
  have hok : initializeVectors r dim s = .ok { s with network := { s.network with agents := t.1 }, gen := t.2 } := by
    unfold initializeVectors; rw [ht, Res.bind_ok]
  refine ⟨_, hok, ⟨rfl, rfl, rfl, rfl, rfl, rfl, h1, rfl⟩, rfl, ?_, ?_⟩
  · intro v hv
    obtain ⟨i, hi, rfl⟩ := List.mem_iff_getElem.mp hv
    obtain ⟨w, e, hl, -⟩ := h2 i (by rw [← h1]; exact hi)
    rw [List.getElem?_eq_getElem hi] at e
    simp only [Option.some.injEq] at e
    rw [e]; exact hl
  · intro i j v hv
    simp only [entry, Option.bind_eq_some_iff] at hv
    obtain ⟨w, hw, hv⟩ := hv
    obtain ⟨hi, -⟩ := List.getElem?_eq_some_iff.mp hw
    obtain ⟨w', e, -, hb⟩ := h2 i (by rw [← h1]; exact hi)
    rw [hw] at e
    simp only [Option.some.injEq] at e
    subst e
    exact hb v (List.mem_of_getElem? hv)

end Deffuant
end Seldon
