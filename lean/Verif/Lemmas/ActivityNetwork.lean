import Verif.Spec.Contacts
import Verif.Lemmas.Integration
import Verif.Lemmas.Reservoir
/-!
# Lemmas: the probabilistic network update
-/
set_option linter.unusedSectionVars false
namespace Seldon
open Spec
variable {A F G : Type}

namespace Activity
section
variable [ActiveAgent A F] [Zero F] [One F] [Sub F] [Mul F] [Add F] [Div F] [Neg F] [NatCast F] [LT F] [LE F] [DecidableLT F] [DecidableLE F]

/-- The numbers of contacts make sense for `n` agents. -/
structure ContactsFit (p : ActivitySettings F) (n : Nat) : Prop where
  size : n < 2 ^ 64
  bots : p.nBots ≤ n
  botM : p.nBots ≤ p.botM.length
  botHomophily : p.nBots ≤ p.botHomophily.length
  nonneg : ∀ i, i < n → 0 ≤ contactsOf p i
  le : ∀ i, i < n → contactsOf p i ≤ n

theorem isBot_eq (p : ActivitySettings F) (i : Nat) : isBot p i = decide (i < p.nBots) := by
  unfold isBot
  by_cases h : i < p.nBots
  · simp [h]; omega
  · simp [h]

theorem contactsWanted_eq {p : ActivitySettings F} {n : Nat} (h : ContactsFit p n) {i : Nat} (hi : i < n) :
    contactsWanted p i = .ok (contactsOf p i).toNat := by
  have h1 := h.nonneg i hi
  have h2 := h.le i hi
  have h3 := h.size
  have e : ∀ x : Int, 0 ≤ x → x ≤ n → Network.toSize x = x.toNat := by
    intro x hx hx'
    unfold Network.toSize
    rw [Int.emod_eq_of_lt hx (by omega)]
  unfold contactsWanted
  unfold contactsOf at *
  rw [isBot_eq]
  by_cases hb : i < p.nBots
  · rw [if_pos hb] at h1 h2
    rw [if_pos (by simpa using hb), if_pos hb, rd_getD 0 (by have := h.botM; omega), Res.bind_ok, e _ h1 h2]
  · rw [if_neg hb] at h1 h2
    rw [if_neg (by simpa using hb), if_neg hb, e _ h1 h2]

theorem homophilyOf_eq {p : ActivitySettings F} (h : p.nBots ≤ p.botHomophily.length) (i : Nat) :
    homophilyOf p i = .ok (homophilyFor p i) := by
  unfold homophilyOf homophilyFor
  rw [isBot_eq]
  by_cases hb : i < p.nBots
  · rw [if_pos (by simpa using hb), if_pos hb, rd_getD 0 (by omega)]
  · rw [if_neg (by simpa using hb), if_neg hb]

/-! ## first loop -/

theorem setConst_run {N : Network A F} (h : WF N) {i : Nat} (hi : i < N.agents.length) (ns : List Nat) (w : F) :
    (N.setNeighboursConst i ns w).run =
      .ok { N with neighbours := N.neighbours.set i ns, weights := N.weights.set i (List.replicate ns.length w) } := by
  unfold Network.setNeighboursConst
  rw [wr_lt _ (by rw [h.rows]; exact hi)]
  dsimp only
  rw [wr_lt _ (by rw [h.wrows]; exact hi)]
  rfl

theorem wf_setConst {N : Network A F} (h : WF N) {i : Nat} (ns : List Nat) (hns : ∀ j ∈ ns, j < N.agents.length) (w : F) :
    WF ({ N with neighbours := N.neighbours.set i ns, weights := N.weights.set i (List.replicate ns.length w) } : Network A F) where
  rows := by simpa using h.rows
  wrows := by simpa using h.wrows
  lengths := by
    intro k hk hk'
    simp only [List.getElem_set]
    split
    · simp
    · exact h.lengths k (by simpa using hk) (by simpa using hk')
  range := by
    intro row hrow j hj
    rcases List.mem_or_eq_of_mem_set hrow with h1 | h1
    · exact h.range row h1 j hj
    · subst h1; exact hns j hj

/-- Invariant of the first loop before agent `i`. -/
structure Phase1 (o : MathOps F) (pick : List (Nat × F) → Nat) (r : Rng G F) (s : Activity A F G)
    (gs : Nat → G) (buf contacts : Nat → List Nat) (i : Nat) (t : Contacting A F G) : Prop where
  start : gs 0 = s.gen
  empty : buf 0 = []
  active : ∀ k (h : k < s.network.agents.length), k < i → Activated r s.network.agents[k] (gs k) → buf (k + 1) = contacts k ∧
    Reservoir.sample o.toOps pick r (contactsOf s.p k).toNat s.network.agents.length
      (weight o (homophilyFor s.p k) s.network.agents k) (buf k) (r.unit (gs k)).2 = .ok (contacts k, gs (k + 1))
  passive : ∀ k (h : k < s.network.agents.length), k < i → ¬ Activated r s.network.agents[k] (gs k) → buf (k + 1) = buf k ∧
    contacts k = [] ∧ gs (k + 1) = (r.unit (gs k)).2
  gen : t.gen = gs i
  contacted : t.contacted = buf i
  wf : WF t.network
  agents : t.network.agents = s.network.agents
  direction : t.network.direction = opposite s.network.direction
  rows : ∀ k, k < i → t.network.neighbours[k]? = some (contacts k)
  wrows : ∀ k, k < i → t.network.weights[k]? = some (List.replicate (contacts k).length 1)
  edges : ∀ a b, (a, b) ∈ t.edges ↔ a < i ∧ b ∈ contacts a
  nodup : ∀ k, (contacts k).Nodup
  lt : ∀ k, ∀ j ∈ contacts k, j < s.network.agents.length
  bufNodup : (buf i).Nodup
  bufLt : ∀ j ∈ buf i, j < s.network.agents.length

theorem sample_total {o : MathOps F} {pick : List (Nat × F) → Nat} (hp : Reservoir.Pick.Valid pick) (r : Rng G F) {k n : Nat}
    (hk : k ≤ n) (weight : Nat → F) {buffer : List Nat} (hb : buffer.Nodup) (hb' : ∀ i ∈ buffer, i < n) (g : G) :
    ∃ b g', Reservoir.sample o.toOps pick r k n weight buffer g = .ok (b, g') ∧ b.Nodup ∧ ∀ i ∈ b, i < n := by
  by_cases h0 : k = 0
  · subst h0
    exact ⟨buffer, g, rfl, hb, hb'⟩
  · obtain ⟨b, g', h1, _, h2, h3⟩ := Reservoir.sample_spec (o := o.toOps) (r := r) (weight := weight) hp (Nat.pos_of_ne_zero h0) hk buffer g
    exact ⟨b, g', h1, h2, h3⟩

theorem phase1_step {o : MathOps F} {pick : List (Nat × F) → Nat} (hp : Reservoir.Pick.Valid pick) {r : Rng G F} {s : Activity A F G}
    (hf : ContactsFit s.p s.network.agents.length) {i : Nat} (hi : i < s.network.agents.length) {t : Contacting A F G}
    (h : ∃ gs buf contacts, Phase1 o pick r s gs buf contacts i t) :
    ∃ t', activate o pick r s.p i t = .ok t' ∧ ∃ gs buf contacts, Phase1 o pick r s gs buf contacts (i + 1) t' := by
  obtain ⟨gs, buf, contacts, h⟩ := h
  have hi' : i < t.network.agents.length := by rw [h.agents]; exact hi
  have hm := contactsWanted_eq hf hi
  have hh := homophilyOf_eq (p := s.p) hf.botHomophily i
  have hle : (contactsOf s.p i).toNat ≤ s.network.agents.length := by have := hf.le i hi; omega
  obtain ⟨c, g', hs, hc, hc'⟩ := sample_total (o := o) hp r hle (weight o (homophilyFor s.p i) s.network.agents i) h.bufNodup h.bufLt
    (r.unit (gs i)).2
  have hai : t.network.agents[i] = s.network.agents[i] := by simp [h.agents]
  unfold activate
  simp only [h.gen]
  rw [rd_lt hi', Res.bind_ok, hai]
  -- common extension of the three functions
  have key : ∀ (c : List Nat) (g' : G) (b : List Nat) (E : List (Nat × Nat)),
      c.Nodup → (∀ j ∈ c, j < s.network.agents.length) → b.Nodup → (∀ j ∈ b, j < s.network.agents.length) →
      (Activated r s.network.agents[i] (gs i) → b = c ∧ Reservoir.sample o.toOps pick r (contactsOf s.p i).toNat s.network.agents.length
        (weight o (homophilyFor s.p i) s.network.agents i) (buf i) (r.unit (gs i)).2 = .ok (c, g')) →
      (¬ Activated r s.network.agents[i] (gs i) → b = buf i ∧ c = [] ∧ g' = (r.unit (gs i)).2) →
      (∀ a b, (a, b) ∈ E ↔ (a, b) ∈ t.edges ∨ a = i ∧ b ∈ c) →
      ∃ gs buf contacts, Phase1 o pick r s gs buf contacts (i + 1)
        (⟨{ t.network with neighbours := t.network.neighbours.set i c, weights := t.network.weights.set i (List.replicate c.length 1) },
          b, E, g'⟩ : Contacting A F G) := by
    intro c g' b E hc hc' hb hb' hact hpas hE
    refine ⟨fun k => if k ≤ i then gs k else g', fun k => if k ≤ i then buf k else b,
      fun k => if k < i then contacts k else if k = i then c else [], ?_⟩
    constructor
    · simpa using h.start
    · simpa using h.empty
    · intro k hk hki ha
      rcases Nat.lt_succ_iff_lt_or_eq.mp hki with hlt | rfl
      · have := h.active k hk hlt (by simpa [show k ≤ i by omega] using ha)
        simpa [show k ≤ i by omega, hlt, show k + 1 ≤ i by omega] using this
      · have := hact (by simpa using ha)
        simpa using this
    · intro k hk hki ha
      rcases Nat.lt_succ_iff_lt_or_eq.mp hki with hlt | rfl
      · have := h.passive k hk hlt (by simpa [show k ≤ i by omega] using ha)
        simpa [show k ≤ i by omega, hlt, show k + 1 ≤ i by omega] using this
      · have := hpas (by simpa using ha)
        simpa using this
    · simp
    · simp
    · exact wf_setConst h.wf c (by rw [h.agents]; exact hc') 1
    · exact h.agents
    · exact h.direction
    · intro k hk
      simp only [List.getElem?_set]
      by_cases hki : i = k
      · subst hki
        simp [h.wf.rows, hi']
      · simpa [hki, show k < i by omega] using h.rows k (by omega)
    · intro k hk
      simp only [List.getElem?_set]
      by_cases hki : i = k
      · subst hki
        simp [h.wf.wrows, hi']
      · simpa [hki, show k < i by omega] using h.wrows k (by omega)
    · intro a b
      rw [hE, h.edges]
      by_cases h1 : a < i
      · simp [h1, show a ≠ i by omega, show a < i + 1 by omega]
      · by_cases h2 : a = i
        · subst h2; simp
        · simp [h1, h2]
    · intro k
      split
      · exact h.nodup k
      · split
        · exact hc
        · exact List.nodup_nil
    · intro k j hj
      split at hj
      · exact h.lt k j hj
      · split at hj
        · exact hc' j hj
        · simp at hj
    · simpa using hb
    · simpa using hb'
  by_cases ha : (r.unit (gs i)).1 < ActiveAgent.activity s.network.agents[i]
  · rw [if_pos ha]
    unfold contact
    rw [hm, Res.bind_ok, hh, Res.bind_ok]
    unfold Network.nAgents
    rw [h.agents, h.contacted, hs, Res.bind_ok]
    dsimp only
    rw [setConst_run h.wf hi', Res.bind_ok]
    exact ⟨_, rfl, key c g' c _ hc hc' hc hc' (fun _ => ⟨rfl, hs⟩) (fun h' => absurd ha h') (by
      intro a b
      simp only [List.mem_append, List.mem_map, Prod.mk.injEq]
      constructor
      · rintro (h | ⟨j, hj, rfl, rfl⟩)
        · exact .inl h
        · exact .inr ⟨rfl, hj⟩
      · rintro (h | ⟨rfl, hj⟩)
        · exact .inl h
        · exact .inr ⟨b, hj, rfl, rfl⟩)⟩
  · rw [if_neg ha, setConst_run h.wf hi', Res.bind_ok]
    refine ⟨_, rfl, ?_⟩
    have := key [] (r.unit (gs i)).2 (buf i) t.edges List.nodup_nil (by simp) h.bufNodup h.bufLt (fun h' => absurd h' ha)
      (fun _ => ⟨rfl, rfl, rfl⟩) (by simp)
    rw [h.contacted]
    exact this

theorem wf_switch' {N : Network A F} (h : WF N) : WF N.switchDirectionFlag := ⟨h.rows, h.wrows, h.lengths, h.range⟩

theorem phase1 {o : MathOps F} {pick : List (Nat × F) → Nat} (hp : Reservoir.Pick.Valid pick) (r : Rng G F) {s : Activity A F G}
    (hw : WF s.network) (hf : ContactsFit s.p s.network.agents.length) :
    ∃ t, loop s.network.agents.length (fun i t => activate o pick r s.p i t) ⟨s.network.switchDirectionFlag, [], [], s.gen⟩ = .ok t ∧
      ∃ gs buf contacts, Phase1 o pick r s gs buf contacts s.network.agents.length t := by
  apply loop_inv (fun i t => ∃ gs buf contacts, Phase1 o pick r s gs buf contacts i t)
  · refine ⟨fun _ => s.gen, fun _ => [], fun _ => [], ?_⟩
    constructor <;> try simp
    · exact wf_switch' hw
    · rfl
    · unfold Network.switchDirectionFlag opposite
      cases s.network.direction <;> rfl
  · intro i t hi h
    exact phase1_step hp hf hi h

/-! ## second loop -/

theorem keep_append (r : Rng G F) (c : F) (l l' : List (Nat × Nat)) (g : G) :
    keep r c (l ++ l') g = ((keep r c l g).1 ++ (keep r c l' (keep r c l g).2).1, (keep r c l' (keep r c l g).2).2) := by
  induction l generalizing g with
  | nil => simp [keep]
  | cons e l ih =>
    simp only [List.cons_append, keep, ih]
    split <;> simp

theorem keep_sublist (r : Rng G F) (c : F) (l : List (Nat × Nat)) (g : G) : (keep r c l g).1.Sublist l := by
  induction l generalizing g with
  | nil => simp [keep]
  | cons e l ih =>
    simp only [keep]
    split
    · exact (ih _).cons_cons e
    · exact (ih _).cons e

/-- The row of agent `j` after the pairs `l` have been accepted. -/
def outRow (contacts : Nat → List Nat) (l : List (Nat × Nat)) (j : Nat) : List Nat :=
  contacts j ++ (l.filter (fun e => e.2 = j)).map (·.1)

/-- The state of the second loop after the pairs `l` have been looked at. -/
def after (r : Rng G F) (c : F) (N : Network A F) (contacts : Nat → List Nat) (g : G) (l : List (Nat × Nat)) : Network A F × G :=
  ({ N with
      neighbours := (List.range N.agents.length).map (outRow contacts (keep r c l g).1)
      weights := (List.range N.agents.length).map (fun j => List.replicate (outRow contacts (keep r c l g).1 j).length 1) },
    (keep r c l g).2)

theorem outRow_append (contacts : Nat → List Nat) (l : List (Nat × Nat)) (i j k : Nat) :
    outRow contacts (l ++ [(i, j)]) k = if k = j then outRow contacts l k ++ [i] else outRow contacts l k := by
  unfold outRow
  rw [List.filter_append]
  by_cases h : k = j
  · subst h; simp
  · have h' : ¬ j = k := fun e => h e.symm
    simp [h, h']

theorem after_snoc_mutual {r : Rng G F} {c : F} {N : Network A F} {contacts : Nat → List Nat} {g : G} {l : List (Nat × Nat)}
    {edges : List (Nat × Nat)} {i k j : Nat} (hi : i < N.agents.length)
    (hj : (outRow contacts (keep r c l g).1 i)[k]? = some j)
    (hE : ∀ a b, (a, b) ∈ edges ↔ a < N.agents.length ∧ b ∈ contacts a) (hjn : j < N.agents.length)
    (hc : i ∉ contacts j → j ∈ contacts i) :
    reciprocateEdge r c edges i k (after r c N contacts g l) =
      .ok (after r c N contacts g (if i ∈ contacts j then l else l ++ [(i, j)])) := by
  unfold reciprocateEdge
  have e1 : rd (after r c N contacts g l).1.neighbours i = .ok (outRow contacts (keep r c l g).1 i) := by
    rw [rd_eq_ok]
    simp [after, hi]
  rw [e1, Res.bind_ok, rd_eq_ok.mpr hj, Res.bind_ok]
  by_cases hm : i ∈ contacts j
  · rw [if_pos ((hE j i).mpr ⟨hjn, hm⟩), if_pos hm]
  · rw [if_neg (fun h => hm ((hE j i).mp h).2), if_neg hm]
    have hne : j ≠ i := by
      rintro rfl
      exact hm (hc hm)
    have hk : keep r c (l ++ [(i, j)]) g = (if (r.unit (keep r c l g).2).1 < c then (keep r c l g).1 ++ [(i, j)] else (keep r c l g).1,
        (r.unit (keep r c l g).2).2) := by
      rw [keep_append]
      simp only [keep]
      split <;> simp
    have e2 : (after r c N contacts g l).2 = (keep r c l g).2 := rfl
    dsimp only
    rw [e2]
    split
    · rename_i hlt
      have : ((after r c N contacts g l).1.pushBack j i 1).run = .ok (after r c N contacts g (l ++ [(i, j)])).1 := by
        unfold Network.pushBack
        have h1 : (after r c N contacts g l).1.neighbours[j]? = some (outRow contacts (keep r c l g).1 j) := by simp [after, hjn]
        have h2 : (after r c N contacts g l).1.weights[j]? = some (List.replicate (outRow contacts (keep r c l g).1 j).length 1) := by
          simp [after, hjn]
        rw [h1]
        dsimp only
        rw [h2]
        unfold after
        rw [hk, if_pos hlt]
        simp only [Network.Effect.run]
        congr 2
        · rw [NetLemmas.map_range_set]
          apply List.map_congr_left
          intro k _
          rw [outRow_append]
          split
          · rename_i h; subst h; rfl
          · rfl
        · rw [NetLemmas.map_range_set]
          apply List.map_congr_left
          intro k _
          rw [outRow_append]
          split
          · rename_i h; subst h; simp [List.replicate_succ']
          · rfl
      rw [this, Res.bind_ok]
      unfold after
      rw [hk]
    · rename_i hlt
      unfold after
      rw [hk, if_neg hlt]

theorem outRow_keep_append {r : Rng G F} {c : F} {contacts : Nat → List Nat} {g : G} {l l' : List (Nat × Nat)} {i : Nat}
    (h : ∀ e ∈ l', e.2 ≠ i) : outRow contacts (keep r c (l ++ l') g).1 i = outRow contacts (keep r c l g).1 i := by
  unfold outRow
  rw [keep_append, List.filter_append]
  have : (keep r c l' (keep r c l g).2).1.filter (fun e => e.2 = i) = [] := by
    rw [List.filter_eq_nil_iff]
    intro e he
    simpa using h e ((keep_sublist r c l' _).subset he)
  simp [this]

/-- The pairs of agent `i` looked at in the second loop. -/
def pairsOf (contacts : Nat → List Nat) (i : Nat) (l : List Nat) : List (Nat × Nat) :=
  (l.filter (fun j => i ∉ contacts j)).map (fun j => (i, j))

theorem reciprocate_eq {r : Rng G F} {c : F} {N : Network A F} {contacts : Nat → List Nat} {g : G} {l : List (Nat × Nat)}
    {edges : List (Nat × Nat)} {i : Nat} (hi : i < N.agents.length) (hl : ∀ e ∈ l, e.1 < N.agents.length ∧ e.2 ∈ contacts e.1)
    (hlt : ∀ k, ∀ j ∈ contacts k, j < N.agents.length)
    (hE : ∀ a b, (a, b) ∈ edges ↔ a < N.agents.length ∧ b ∈ contacts a) :
    reciprocate r c edges i (after r c N contacts g l) =
      .ok (after r c N contacts g (l ++ pairsOf contacts i (contacts i))) := by
  unfold reciprocate Network.getNeighbours
  have e1 : rd (after r c N contacts g l).1.neighbours i = .ok (outRow contacts (keep r c l g).1 i) := by
    rw [rd_eq_ok]
    simp [after, hi]
  rw [e1, Res.bind_ok]
  have hrow : ∀ j ∈ outRow contacts (keep r c l g).1 i, j < N.agents.length ∧ (i ∉ contacts j → j ∈ contacts i) := by
    intro j hj
    unfold outRow at hj
    rcases List.mem_append.mp hj with h | h
    · exact ⟨hlt i j h, fun _ => h⟩
    · simp only [List.mem_map, List.mem_filter, decide_eq_true_eq] at h
      obtain ⟨⟨a, b⟩, ⟨h1, rfl⟩, rfl⟩ := h
      have := hl _ ((keep_sublist r c l g).subset h1)
      exact ⟨this.1, fun h => absurd this.2 h⟩
  have hout : ∀ k, outRow contacts (keep r c (l ++ pairsOf contacts i ((outRow contacts (keep r c l g).1 i).take k)) g).1 i =
      outRow contacts (keep r c l g).1 i := by
    intro k
    apply outRow_keep_append
    rintro ⟨a, b⟩ he hb
    simp only [pairsOf, List.mem_map, List.mem_filter, decide_eq_true_eq, Prod.mk.injEq] at he
    obtain ⟨j, ⟨h1, h2⟩, rfl, rfl⟩ := he
    have := (hrow j (List.mem_of_mem_take h1)).2 h2
    simp only at hb
    rw [hb] at this h2
    exact h2 this
  have := loop_eq (n := (outRow contacts (keep r c l g).1 i).length) (f := fun k t => reciprocateEdge r c edges i k t)
    (fun k => after r c N contacts g (l ++ pairsOf contacts i ((outRow contacts (keep r c l g).1 i).take k))) (by
      intro k hk
      have hm := List.getElem_mem hk
      rw [after_snoc_mutual (j := (outRow contacts (keep r c l g).1 i)[k]) hi (by rw [hout k]; simp [hk]) hE (hrow _ hm).1 (hrow _ hm).2]
      congr 2
      rw [List.take_succ_eq_append_getElem hk]
      unfold pairsOf
      rw [List.filter_append, List.map_append]
      split
      · rename_i h; simp [h]
      · rename_i h; simp [h])
  simp only [List.take_zero, List.take_length] at this
  have e0 : pairsOf contacts i [] = [] := rfl
  rw [e0, List.append_nil] at this
  rw [this]
  congr 3
  unfold outRow pairsOf
  rw [List.filter_append]
  have : (((keep r c l g).1.filter (fun e => e.2 = i)).map (·.1)).filter (fun j => i ∉ contacts j) = [] := by
    rw [List.filter_eq_nil_iff]
    intro j hj
    simp only [List.mem_map, List.mem_filter, decide_eq_true_eq] at hj
    obtain ⟨⟨a, b⟩, ⟨h1, rfl⟩, rfl⟩ := hj
    simpa using (hl _ ((keep_sublist r c l g).subset h1)).2
  rw [this, List.append_nil]

theorem oneWay_succ (n : Nat) (contacts : Nat → List Nat) : oneWay (n + 1) contacts = oneWay n contacts ++ pairsOf contacts n (contacts n) := by
  unfold oneWay pairsOf
  rw [List.range_succ, List.flatMap_append]
  simp

theorem mem_oneWay {n : Nat} {contacts : Nat → List Nat} {a b : Nat} :
    (a, b) ∈ oneWay n contacts ↔ a < n ∧ b ∈ contacts a ∧ a ∉ contacts b := by
  unfold oneWay
  simp only [List.mem_flatMap, List.mem_range, List.mem_map, List.mem_filter, decide_eq_true_eq, Prod.mk.injEq]
  constructor
  · rintro ⟨i, hi, j, ⟨h1, h2⟩, rfl, rfl⟩
    exact ⟨hi, h1, h2⟩
  · rintro ⟨h1, h2, h3⟩
    exact ⟨a, h1, b, ⟨h2, h3⟩, rfl, rfl⟩

theorem phase2 {r : Rng G F} {c : F} {N : Network A F} {contacts : Nat → List Nat} {g : G} {edges : List (Nat × Nat)}
    (hlt : ∀ k, ∀ j ∈ contacts k, j < N.agents.length)
    (hE : ∀ a b, (a, b) ∈ edges ↔ a < N.agents.length ∧ b ∈ contacts a)
    (hr : N.neighbours = (List.range N.agents.length).map contacts)
    (hw : N.weights = (List.range N.agents.length).map (fun j => List.replicate (contacts j).length 1)) :
    loop N.agents.length (fun i t => reciprocate r c edges i t) (N, g) =
      .ok (after r c N contacts g (oneWay N.agents.length contacts)) := by
  have := loop_eq (n := N.agents.length) (f := fun i t => reciprocate r c edges i t)
    (fun i => after r c N contacts g (oneWay i contacts)) (by
      intro i hi
      rw [oneWay_succ]
      refine reciprocate_eq hi ?_ hlt hE
      rintro ⟨a, b⟩ he
      have := mem_oneWay.mp he
      exact ⟨by omega, this.2.1⟩)
  have e0 : after r c N contacts g (oneWay 0 contacts) = (N, g) := by
    unfold after oneWay outRow
    simp only [List.range_zero, List.flatMap_nil, keep, List.filter_nil, List.map_nil, List.append_nil]
    rw [← hr, ← hw]
  rw [e0] at this
  exact this

theorem nodup_oneWay {n : Nat} {contacts : Nat → List Nat} (h : ∀ k, (contacts k).Nodup) : (oneWay n contacts).Nodup := by
  unfold oneWay
  rw [List.nodup_flatMap]
  constructor
  · intro i _
    exact ((h i).filter _).map (fun a b e => (Prod.mk.inj e).2)
  · apply List.Pairwise.imp _ (List.nodup_range (n := n))
    intro a b hab
    rw [Function.onFun, List.disjoint_left]
    intro e h1 h2
    simp only [List.mem_map] at h1 h2
    obtain ⟨_, _, rfl⟩ := h1
    obtain ⟨_, _, h3⟩ := h2
    exact hab (Prod.mk.inj h3).1.symm

theorem nodup_outRow {contacts : Nat → List Nat} {l : List (Nat × Nat)} (h : ∀ k, (contacts k).Nodup) (hl : l.Nodup)
    (hl' : ∀ e ∈ l, e.1 ∉ contacts e.2) (j : Nat) : (outRow contacts l j).Nodup := by
  unfold outRow
  rw [List.nodup_append]
  refine ⟨h j, ?_, ?_⟩
  · apply List.Nodup.map_on _ (hl.filter _)
    rintro ⟨a, b⟩ h1 ⟨c, d⟩ h2 e
    simp only [List.mem_filter, decide_eq_true_eq] at h1 h2
    simp only at e
    rw [e, h1.2, h2.2]
  · rintro a ha b hb rfl
    simp only [List.mem_map, List.mem_filter, decide_eq_true_eq] at hb
    obtain ⟨e, ⟨h1, rfl⟩, rfl⟩ := hb
    exact hl' e h1 ha

/-- Closed form of the probabilistic update. -/
theorem updateProbabilistic_eq {o : MathOps F} {pick : List (Nat × F) → Nat} (hp : Reservoir.Pick.Valid pick) (r : Rng G F) {s : Activity A F G}
    (hw : WF s.network) (hf : ContactsFit s.p s.network.agents.length) :
    ∃ (gs : Nat → G) (buf contacts : Nat → List Nat), gs 0 = s.gen ∧ ContactPhase o pick r s.p s.network.agents gs buf contacts ∧
      (∀ k, (contacts k).Nodup) ∧ (∀ k, ∀ j ∈ contacts k, j < s.network.agents.length) ∧
      ∃ (M : Network A F), M.agents = s.network.agents ∧ M.direction = opposite s.network.direction ∧ WF M ∧
        M.neighbours = (List.range s.network.agents.length).map
          (outRow contacts (keep r s.p.reciprocity (oneWay s.network.agents.length contacts) (gs s.network.agents.length)).1) ∧
        M.weights = (List.range s.network.agents.length).map (fun j => List.replicate
          (outRow contacts (keep r s.p.reciprocity (oneWay s.network.agents.length contacts) (gs s.network.agents.length)).1 j).length 1) ∧
        updateProbabilistic o pick r s = .ok { s with
          network := NetLemmas.toggled M
          gen := (keep r s.p.reciprocity (oneWay s.network.agents.length contacts) (gs s.network.agents.length)).2 } := by
  obtain ⟨t, ht, gs, buf, contacts, h⟩ := phase1 (o := o) hp r hw hf
  refine ⟨gs, buf, contacts, h.start, ⟨h.empty, fun i hi ha => h.active i hi hi ha, fun i hi ha => h.passive i hi hi ha⟩, h.nodup, h.lt, ?_⟩
  have hn : t.network.agents.length = s.network.agents.length := by rw [h.agents]
  have h1 : t.network.neighbours = (List.range t.network.agents.length).map contacts := by
    apply List.ext_getElem?
    intro k
    by_cases hk : k < t.network.agents.length
    · rw [h.rows k (by omega)]; simp [hk]
    · rw [List.getElem?_eq_none (by rw [h.wf.rows]; omega), List.getElem?_eq_none (by simp; omega)]
  have h2 : t.network.weights = (List.range t.network.agents.length).map (fun j => List.replicate (contacts j).length 1) := by
    apply List.ext_getElem?
    intro k
    by_cases hk : k < t.network.agents.length
    · rw [h.wrows k (by omega)]; simp [hk]
    · rw [List.getElem?_eq_none (by rw [h.wf.wrows]; omega), List.getElem?_eq_none (by simp; omega)]
  have h3 := phase2 (r := r) (c := s.p.reciprocity) (g := t.gen) (edges := t.edges) (by rw [hn]; exact h.lt) (by rw [hn]; exact h.edges) h1 h2
  rw [hn, h.gen] at h3
  have hMn : (after r s.p.reciprocity t.network contacts (gs s.network.agents.length) (oneWay s.network.agents.length contacts)).1.agents.length =
    s.network.agents.length := hn
  have hwf : WF (after r s.p.reciprocity t.network contacts (gs s.network.agents.length) (oneWay s.network.agents.length contacts)).1 := by
    constructor
    · simp [after]
    · simp [after]
    · intro i h h'; simp [after]
    · intro row hrow j hj
      rw [hMn]
      simp only [after, List.mem_map, List.mem_range] at hrow
      obtain ⟨k, hk, rfl⟩ := hrow
      unfold outRow at hj
      rcases List.mem_append.mp hj with hj | hj
      · exact h.lt k j hj
      · simp only [List.mem_map, List.mem_filter] at hj
        obtain ⟨⟨a, b⟩, ⟨he, _⟩, rfl⟩ := hj
        exact (mem_oneWay.mp ((keep_sublist _ _ _ _).subset he)).1
  refine ⟨(after r s.p.reciprocity t.network contacts (gs s.network.agents.length) (oneWay s.network.agents.length contacts)).1,
    h.agents, h.direction, hwf, ?_, ?_, ?_⟩
  · simp only [after]; rw [hn]
  · simp only [after]; rw [hn]
  · unfold updateProbabilistic Network.nAgents
    simp only [ht, Res.bind_ok]
    rw [h.gen, h3]
    simp only [Res.bind_ok]
    have e : (after r s.p.reciprocity t.network contacts (gs s.network.agents.length) (oneWay s.network.agents.length contacts)) =
      ((after r s.p.reciprocity t.network contacts (gs s.network.agents.length) (oneWay s.network.agents.length contacts)).1,
        (keep r s.p.reciprocity (oneWay s.network.agents.length contacts) (gs s.network.agents.length)).2) := rfl
    rw [e]
    simp only [NetLemmas.toggle_eq_toggled hwf, Res.bind_ok]

end
end Activity
end Seldon
