import Verif.Lemmas.Deffuant
import Verif.Lemmas.MeanField
/-!
# Lemmas: what does not fail, for arbitrary arithmetic

Nothing in this file assumes any law of the floating-point operations.
-/
set_option linter.unusedSectionVars false
namespace Seldon
open Spec
variable {A F G : Type}

/-! ## `generate_n_connections` -/

namespace NetworkGen

theorem drawWeights_length [Add F] (r : Rng G F) : ∀ (n : Nat) (acc : F) (g : G), (drawWeights r n acc g).1.length = n := by
  intro n
  induction n with
  | zero => intro acc g; rfl
  | succ n ih => intro acc g; simp only [drawWeights, List.length_cons, ih]

theorem connectionRow_total [Zero F] [Add F] [Div F] {r : Rng G F} (hr : r.IntLawful) (n k : Nat) (self : Bool) {i : Nat} (hi : i < n) (g : G) :
    ∃ (row : List Nat) (ws : List F) (g' : G), connectionRow r n k self i g = .ok (row, ws, g') ∧ ws.length = row.length ∧ ∀ j ∈ row, j < n := by
  obtain ⟨ys, g1, h1, h2, h3⟩ := Draw.drawUnique_eq hr (some i) k n [] g
  have hb : (Draw.resize [] k).drop ys.length = List.replicate (k - ys.length) 0 := by
    simp [Draw.resize]
  rw [hb] at h1
  have hrange : ∀ j ∈ ys ++ List.replicate (k - ys.length) 0, j < n := by
    intro j hj
    rcases List.mem_append.mp hj with hj | hj
    · exact (Draw.mem_avail.mp (h2.subset hj)).1
    · rw [List.mem_replicate] at hj; omega
  generalize hrow : ys ++ List.replicate (k - ys.length) 0 = row at h1 hrange
  cases self with
  | false =>
    refine ⟨row, _, _, by simp only [connectionRow, h1, Res.bind_ok]; rfl, ?_, hrange⟩
    rw [List.length_map, drawWeights_length]
  | true =>
    refine ⟨row ++ [i], _, _, by simp only [connectionRow, h1, Res.bind_ok]; rfl, ?_, ?_⟩
    · rw [List.length_map, List.length_append, List.length_append, drawWeights_length]; rfl
    · intro j hj
      rcases List.mem_append.mp hj with hj | hj
      · exact hrange j hj
      · rw [List.mem_singleton] at hj; omega

/-- The generated network is well-formed. -/
theorem nConnections_total [Inhabited A] [Zero F] [Add F] [Div F] {r : Rng G F} (hr : r.IntLawful) (n k : Nat) (self : Bool) (g : G) :
    ∃ (N : Network A F) (g' : G), nConnections r n k self g = .ok (N, g') ∧ WF N ∧ N.agents = List.replicate n default ∧
      N.direction = .incoming := by
  obtain ⟨as, bs, g', h1, h2, h3, h4⟩ := rows_loop (n := n) (body := fun i g => connectionRow r n k self i g)
    (P := fun _ row (ws : List F) => ws.length = row.length ∧ ∀ j ∈ row, j < n)
    (fun i g hi => connectionRow_total hr n k self hi g) g
  refine ⟨Network.ofLists as bs .incoming, g', ?_, ?_, by simp [Network.ofLists, h2], rfl⟩
  · simp only [nConnections] at h1 ⊢
    rw [h1]; rfl
  · have hP : ∀ i (h : i < as.length) (h' : i < bs.length), _ :=
      fun i h h' => h4 i _ _ (List.getElem?_eq_getElem h) (List.getElem?_eq_getElem h')
    refine ⟨by simp [Network.ofLists], by simp [Network.ofLists, h2, h3], fun i h h' => (hP i h h').1, ?_⟩
    intro row hrow j hj
    obtain ⟨i, hi, rfl⟩ := List.getElem_of_mem (show row ∈ as from hrow)
    simp only [Network.ofLists, List.length_replicate, h2]
    exact (hP i hi (by omega)).2 j hj

end NetworkGen

/-! ## the Deffuant model with scalar opinions -/

namespace Deffuant
section
variable [Add F] [Mul F] [Sub F] [Zero F] [Neg F] [LT F] [DecidableLT F]

theorem updateRule_total (a b : Nat) (s : Deffuant (SimpleAgent F) F G) (ha : a < s.network.agents.length)
    (hb : b < s.network.agents.length) : ∃ t, updateRule a b s = .ok t ∧ Frame s t := by
  unfold updateRule
  rw [rd_lt ha, Res.bind_ok, rd_lt hb, Res.bind_ok]
  dsimp only
  split
  · rw [wr_lt _ ha, Res.bind_ok, rd_lt (by simpa using hb), Res.bind_ok, wr_lt _ (by simpa using hb), Res.bind_ok]
    exact ⟨_, rfl, ⟨rfl, rfl, rfl, rfl, rfl, rfl, by simp, rfl⟩⟩
  · exact ⟨s, rfl, Frame.refl s⟩

theorem iteration_safe {r : Rng G F} (hr : r.IntLawful) {s : Deffuant (SimpleAgent F) F G} (h : s.Ready) :
    ∃ t, iteration r updateRule s = .ok t ∧ Frame s t := by
  obtain ⟨t, ht, hF⟩ := loop_inv (n := s.network.nAgents) (f := fun _ s => interact r updateRule s)
    (s := { s with counter := s.counter.tick }) (fun _ t => Frame s t) ⟨rfl, rfl, rfl, rfl, rfl, rfl, rfl, rfl⟩ (by
      intro i t hi hF
      have hr' := hF.ready h
      have hn : 0 < t.network.agents.length := by rw [hF.n]; exact Nat.zero_lt_of_lt hi
      obtain ⟨u, hu⟩ := interact_total hr (update := updateRule) hr' hn (fun a b g ha hb => by
        obtain ⟨v, hv, -⟩ := updateRule_total a b { t with gen := g } ha hb
        exact ⟨v, hv⟩)
      obtain ⟨a, b, g, ha, hb, hu'⟩ := interact_ok hu
      obtain ⟨v, hv, hF'⟩ := updateRule_total a b { t with gen := g } ha hb
      obtain rfl := Except.ok.inj (hv.symm.trans hu')
      exact ⟨v, hu, hF.trans ⟨hF'.1, hF'.2, hF'.3, hF'.4, hF'.5, hF'.6, hF'.7, hF'.8⟩⟩)
  exact ⟨t, ht, hF⟩

end

theorem initializeAgents_safe [NatCast F] [Div F] {s : Deffuant (SimpleAgent F) F G} (h : s.Ready) :
    ∃ t, Deffuant.initializeAgents s = .ok t ∧ t.Ready ∧ t.mu = s.mu ∧ t.threshold = s.threshold ∧ t.counter = s.counter ∧
      opinions t.network.agents = (List.range s.network.agents.length).map (fun i : Nat => (i : F) / (s.network.agents.length : F)) := by
  have hlen : ((List.range s.network.agents.length).map (fun i : Nat => (⟨(i : F) / (s.network.agents.length : F)⟩ : SimpleAgent F))).length =
      s.network.agents.length := by simp
  generalize hag : (List.range s.network.agents.length).map (fun i : Nat => (⟨(i : F) / (s.network.agents.length : F)⟩ : SimpleAgent F)) = ag at hlen
  refine ⟨{ s with network := { s.network with agents := ag } }, ?_, ?_, rfl, rfl, rfl, ?_⟩
  · unfold Deffuant.initializeAgents
    rw [DeGroot.spread_eq, Res.bind_ok, hag]
  · exact ⟨⟨by rw [hlen]; exact h.wf.rows, by rw [hlen]; exact h.wf.wrows, h.wf.lengths, by rw [hlen]; exact h.wf.range⟩,
      by rw [hlen]; exact h.size, h.rows⟩
  · rw [← hag]; simp [opinions]

end Deffuant

/-! ## the mean-field update -/

/-- An `n × n` table. -/
structure Square (n : Nat) (P : List (List F)) : Prop where
  rows : P.length = n
  cols : ∀ i (h : i < P.length), P[i].length = n

theorem Square.set {n i : Nat} {P : List (List F)} (h : Square n P) {l : List F} (hl : l.length = n) : Square n (P.set i l) where
  rows := by rw [List.length_set]; exact h.rows
  cols j hj := by
    rw [List.getElem_set]
    split
    · exact hl
    · exact h.cols j (by simpa using hj)

namespace Activity
section
variable [ActiveAgent A F] [Zero F] [One F] [Sub F] [Mul F] [Add F] [Div F] [Neg F] [NatCast F] [LT F] [LE F] [DecidableLT F] [DecidableLE F]

theorem probabilityHelper_total (o : MathOps F) (omega : F) (m : Nat) : ∃ q, probabilityHelper o omega m = .ok q := by
  obtain ⟨t, ht, -⟩ := loop_inv (n := m) (f := fun i p => .ok (p + (o.powNat (-omega) (i + 1 + 1) + omega) / (omega + 1))) (s := (0 : F))
    (fun _ _ => True) trivial (fun i t _ _ => ⟨_, rfl, trivial⟩)
  exact ⟨t, ht⟩

theorem normalization_total (w : Nat → F) (n : Nat) : ∃ q, normalization w n = .ok q := by
  obtain ⟨t, ht, -⟩ := loop_inv (n := n) (f := fun k acc => .ok (acc + w k)) (s := (0 : F))
    (fun _ _ => True) trivial (fun i t _ _ => ⟨_, rfl, trivial⟩)
  exact ⟨t, ht⟩

theorem contactRow_total (o : MathOps F) (w : Nat → F) (norm activity : F) (m : Nat) {n i : Nat} (hi : i < n) {P : List (List F)} (hP : Square n P) :
    ∃ Q, contactRow o w norm activity m n i P = .ok Q ∧ Square n Q := by
  unfold contactRow
  refine loop_inv (fun _ Q => Square n Q) hP (fun j Q hj hQ => ?_)
  obtain ⟨q, hq⟩ := probabilityHelper_total o (w j / norm) m
  have hiQ : i < Q.length := by rw [hQ.rows]; exact hi
  rw [hq, Res.bind_ok, rd_lt hiQ, Res.bind_ok, wr_lt _ (by rw [hQ.cols i hiQ]; exact hj), Res.bind_ok, wr_lt _ hiQ]
  exact ⟨_, rfl, hQ.set (by rw [List.length_set]; exact hQ.cols i hiQ)⟩

theorem contactProbs_total (o : MathOps F) {s : Activity A F G} (h : MeanReady s) {i : Nat} (hi : i < s.network.agents.length) {P : List (List F)}
    (hP : Square s.network.agents.length P) :
    ∃ Q, contactProbs o s.p s.network.agents i P = .ok Q ∧ Square s.network.agents.length Q := by
  unfold contactProbs
  obtain ⟨q, hq⟩ := normalization_total (weight o (homophilyFor s.p i) s.network.agents i) s.network.agents.length
  rw [homophilyOf_eq h.botHomophily, Res.bind_ok, hq, Res.bind_ok]
  have hm : ∃ k, contactsWanted s.p i = .ok k := by
    unfold contactsWanted
    split
    · next hb =>
      unfold isBot at hb
      simp only [Bool.and_eq_true, decide_eq_true_eq] at hb
      rw [rd_lt (by have := h.botM; omega)]
      exact ⟨_, rfl⟩
    · exact ⟨_, rfl⟩
  obtain ⟨k, hk⟩ := hm
  rw [hk, Res.bind_ok, rd_lt hi, Res.bind_ok]
  exact contactRow_total o _ _ _ _ hi hP

/-- A network whose weights form a square table, with everything else as in `N`. -/
structure SameButWeights (N M : Network A F) : Prop where
  agents : M.agents = N.agents
  neighbours : M.neighbours = N.neighbours
  direction : M.direction = N.direction

theorem addWeight_total {N M : Network A F} {n : Nat} (hM : SameButWeights N M) (hw : Square n M.weights) {a b : Nat} (ha : a < n) (hb : b < n) (v : F) :
    ∃ M', addWeight M a b v = .ok M' ∧ SameButWeights N M' ∧ Square n M'.weights := by
  have h1 : a < M.weights.length := by rw [hw.rows]; exact ha
  have h2 : b < M.weights[a].length := by rw [hw.cols a h1]; exact hb
  refine ⟨{ M with weights := M.weights.set a (M.weights[a].set b (M.weights[a][b] + v)) }, ?_, ⟨hM.1, hM.2, hM.3⟩,
    hw.set (by rw [List.length_set]; exact hw.cols a h1)⟩
  unfold addWeight Network.getWeights Network.pokeWeight
  rw [rd_lt h1, Res.bind_ok, rd_lt h2, Res.bind_ok]
  dsimp only
  rw [wr_lt _ h2]
  rfl

theorem meanPair_total {N M : Network A F} {n : Nat} (hM : SameButWeights N M) (hw : Square n M.weights) {P : List (List F)} (hP : Square n P) (c : F)
    {i j : Nat} (hi : i < n) (hj : j < n) : ∃ M', meanPair c P i j M = .ok M' ∧ SameButWeights N M' ∧ Square n M'.weights := by
  have h1 : i < P.length := by rw [hP.rows]; exact hi
  have h2 : j < P.length := by rw [hP.rows]; exact hj
  unfold meanPair
  rw [rd_lt h1, Res.bind_ok, rd_lt (by rw [hP.cols i h1]; exact hj), Res.bind_ok, rd_lt h2, Res.bind_ok,
    rd_lt (by rw [hP.cols j h2]; exact hi), Res.bind_ok]
  obtain ⟨M1, e1, s1, w1⟩ := addWeight_total hM hw hj hi (P[i][j]'(by rw [hP.cols i h1]; exact hj))
  rw [e1, Res.bind_ok]
  exact addWeight_total s1 w1 hi hj _

theorem resetMean_total {N : Network A F} {P : List (List F)}
    (hr : N.neighbours = List.replicate N.agents.length (List.range N.agents.length)) (hw : N.weights.length = N.agents.length)
    (hP : P.length = N.agents.length) :
    ∃ M Q, loop N.agents.length (fun i t => resetMean i t) (N, P) = .ok (M, Q) ∧ SameButWeights N M ∧ Square N.agents.length M.weights ∧
      Square N.agents.length Q := by
  obtain ⟨⟨M, Q⟩, ht, hM, hW, hWv, hQ, hQv⟩ := loop_inv (n := N.agents.length) (f := fun i t => resetMean i t) (s := (N, P))
    (fun k t => SameButWeights N t.1 ∧ t.1.weights.length = N.agents.length ∧
      (∀ j (h : j < t.1.weights.length), j < k → t.1.weights[j].length = N.agents.length) ∧ t.2.length = N.agents.length ∧
      (∀ j (h : j < t.2.length), j < k → t.2[j].length = N.agents.length)) ⟨⟨rfl, rfl, rfl⟩, hw, by simp, hP, by simp⟩ (by
      rintro k ⟨M, Q⟩ hk ⟨hM, hW, hWv, hQ, hQv⟩
      simp only at hM hW hWv hQ hQv
      refine ⟨({ M with weights := M.weights.set k (List.replicate N.agents.length 0) }, Q.set k (List.replicate N.agents.length 0)), ?_,
        ⟨hM.1, hM.2, hM.3⟩, by simpa using hW, ?_, by simpa using hQ, ?_⟩
      · have hz : (List.replicate M.nAgents (0 : F)) = List.replicate N.agents.length 0 := by unfold Network.nAgents; rw [hM.agents]
        have h1 : (M.setWeights k (List.replicate N.agents.length 0)).run =
            .ok { M with weights := M.weights.set k (List.replicate N.agents.length 0) } := by
          unfold Network.setWeights
          rw [hM.neighbours, hr, rd_lt (by simpa using hk)]
          simp only [List.getElem_replicate, List.length_replicate, List.length_range, ne_eq, not_true_eq_false, if_false]
          rw [wr_lt _ (by omega)]
          rfl
        unfold resetMean
        simp only [hz, h1, Res.bind_ok]
        rw [wr_lt _ (by omega), Res.bind_ok]
      · intro j hj hjk
        simp only [List.getElem_set]
        split
        · simp
        · exact hWv j (by simpa using hj) (by omega)
      · intro j hj hjk
        simp only [List.getElem_set]
        split
        · simp
        · exact hQv j (by simpa using hj) (by omega))
  exact ⟨M, Q, ht, hM, ⟨hW, fun i h => hWv i h (by simpa [hW] using h)⟩, ⟨hQ, fun i h => hQv i h (by simpa [hQ] using h)⟩⟩

/-- The mean-field update never fails; the network stays fully connected. -/
theorem updateMean_total (o : MathOps F) {s : Activity A F G} (h : MeanReady s) :
    ∃ t, updateMean o s = .ok t ∧ MeanReady t ∧ WF t.network ∧ t.network.agents = s.network.agents ∧ t.p = s.p ∧ t.counter = s.counter := by
  obtain ⟨M, Q, h1, hM, hW, hQ⟩ := resetMean_total h.rows h.wrows h.probs
  obtain ⟨P, h2, hP⟩ := loop_inv (n := s.network.agents.length) (f := fun i P => contactProbs o s.p M.agents i P) (s := Q)
    (fun _ P => Square s.network.agents.length P) hQ (fun i P hi hP => by rw [hM.agents]; exact contactProbs_total o h hi hP)
  obtain ⟨N, h3, hN, hNW⟩ := loop_inv (n := s.network.agents.length)
    (f := fun i N => loop s.network.agents.length (fun j N => meanPair s.p.reciprocity P i j N) N) (s := M)
    (fun _ N => SameButWeights s.network N ∧ Square s.network.agents.length N.weights) ⟨hM, hW⟩ (by
      rintro i N hi hN
      exact loop_inv (fun _ N => SameButWeights s.network N ∧ Square s.network.agents.length N.weights) hN
        (fun j N hj hN => meanPair_total hN.1 hN.2 hP _ hi hj))
  refine ⟨{ s with network := N, contactProb := P }, ?_, ?_, ?_, hN.agents, rfl, rfl⟩
  · unfold updateMean Network.nAgents
    simp only [h1, Res.bind_ok, h2, h3]
  · have e := hN.agents
    refine ⟨?_, ?_, hN.direction.trans h.incoming, ?_, ?_, h.botM, h.botHomophily, h.botOpinion, ?_, ?_, h.mean⟩
    · simp only [e, hN.neighbours]; exact h.rows
    · simp only [e]; exact hNW.rows
    · simp only [e]; exact hP.rows
    · simp only [e]; exact h.bots
    · simp only [e]; exact h.nonneg
    · simp only [e]; exact h.size
  · have e := hN.agents
    have hr : N.neighbours = List.replicate s.network.agents.length (List.range s.network.agents.length) := hN.neighbours.trans h.rows
    refine ⟨?_, ?_, ?_, ?_⟩
    · show N.neighbours.length = N.agents.length
      rw [hr, e]; simp
    · show N.weights.length = N.agents.length
      rw [e]; exact hNW.rows
    · intro i h1 h2
      show N.weights[i].length = N.neighbours[i].length
      rw [hNW.cols i h2]
      simp [hr]
    · intro row hrow j hj
      show j < N.agents.length
      rw [show ({ s with network := N, contactProb := P } : Activity A F G).network.neighbours = N.neighbours from rfl, hr] at hrow
      obtain rfl := List.eq_of_mem_replicate hrow
      rw [e]; exact List.mem_range.mp hj

end
end Activity
end Seldon
