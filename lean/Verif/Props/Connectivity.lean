import Verif.Lemmas.Tarjan
/-!
# Properties C08–C10: `strongly_connected_components`
-/
namespace Seldon
open Spec Tarjan
variable {A W : Type}

theorem inRange_of_wf {N : Network A W} (h : WF N) : InRange N.neighbours := by
  intro row hrow j hj
  rw [h.rows]; exact h.range row hrow j hj

/-- C08: with in-range indices `strongly_connected_components()` terminates (recursion depth at most the number of
agents; more fuel changes nothing), without undefined behaviour, and returns non-empty lists in which every agent
occurs exactly once. -/
theorem C08_scc_partition {N : Network A W} (h : InRange N.neighbours) :
    ∃ L, (∀ fuel, N.neighbours.length ≤ fuel → scc N fuel = .ok L) ∧ (∀ c ∈ L, c ≠ []) ∧
      L.flatten.Perm (List.range N.neighbours.length) := by
  obtain ⟨s, hs, hI⟩ := run_spec h (le_refl N.neighbours.length)
  refine ⟨s.sccs, ?_, fun c hc => (hI.inv.scc c hc).1, ?_⟩
  · intro fuel hf
    obtain ⟨k, rfl⟩ := Nat.exists_eq_add_of_le hf
    have hrun : run N.neighbours (N.neighbours.length + k) = .ok s := by
      unfold run at hs ⊢
      have hgen : ∀ (m : Nat) (t : St),
          loop m (fun i s => do
            let vis ← rd s.visited i
            if vis = false then dfs N.neighbours N.neighbours.length i s else .ok s) (init N.neighbours.length) = .ok t →
          loop m (fun i s => do
            let vis ← rd s.visited i
            if vis = false then dfs N.neighbours (N.neighbours.length + k) i s else .ok s)
            (init N.neighbours.length) = .ok t := by
        intro m
        induction m with
        | zero => intro t ht; exact ht
        | succ m ih =>
          intro t ht
          rw [loop_succ] at ht ⊢
          obtain ⟨t1, ht1, ht⟩ := Res.bind_eq_ok.mp ht
          rw [ih t1 ht1, Res.bind_ok]
          obtain ⟨b, hb, ht⟩ := Res.bind_eq_ok.mp ht
          rw [hb, Res.bind_ok]
          by_cases hbf : b = false
          · rw [if_pos hbf] at ht ⊢
            exact dfs_fuel_mono _ k _ _ _ ht
          · rw [if_neg hbf] at ht ⊢; exact ht
      exact hgen _ _ hs
    simp only [scc, hrun, Res.bind_ok]
  · have hnd := hI.inv.nodup
    rw [hI.stack, List.nil_append] at hnd
    rw [List.perm_ext_iff_of_nodup hnd List.nodup_range]
    intro a
    rw [List.mem_range]
    constructor
    · intro ha
      exact vis_lt hI.inv ((hI.inv.mem a).mpr (Or.inr ha))
    · intro ha
      rcases (hI.inv.mem a).mp (hI.done a ha) with h1 | h1
      · rw [hI.stack] at h1; simp at h1
      · exact h1

/-- C09: any two agents of one reported list reach each other along stored edges. -/
theorem C09_component_strongly_connected {N : Network A W} (h : InRange N.neighbours) {fuel : Nat}
    (hf : N.neighbours.length ≤ fuel) {L : List (List Nat)} (hL : scc N fuel = .ok L) :
    ∀ c ∈ L, ∀ a ∈ c, ∀ b ∈ c, Reaches N.neighbours a b := by
  obtain ⟨s, hs, hI⟩ := run_spec h hf
  simp only [scc, hs, Res.bind_ok] at hL
  have := Except.ok.inj hL
  subst this
  exact fun c hc => (hI.inv.scc c hc).2

/-- C09, consequence used by the DeGroot constructor: a result with a single list means that every agent reaches every
other agent. -/
theorem C09_single_component {N : Network A W} (h : InRange N.neighbours) {fuel : Nat}
    (hf : N.neighbours.length ≤ fuel) {L : List (List Nat)} (hL : scc N fuel = .ok L) (h1 : L.length = 1) :
    ∀ a b, a < N.neighbours.length → b < N.neighbours.length → Reaches N.neighbours a b := by
  obtain ⟨L', hL', _, hp⟩ := C08_scc_partition h
  have := Except.ok.inj ((hL' fuel hf).symm.trans hL)
  subst this
  obtain ⟨c, rfl⟩ := List.length_eq_one_iff.mp h1
  intro a b ha hb
  have hmem : ∀ x, x < N.neighbours.length → x ∈ c := by
    intro x hx
    have := hp.mem_iff.mpr (List.mem_range.mpr hx)
    simpa using this
  exact C09_component_strongly_connected h hf hL c (by simp) a (hmem a ha) b (hmem b hb)

/-- C10, partial: on networks in which stored edges between agents that reach each other are stored in both directions, two agents are in the same
reported list iff each reaches the other.  This covers symmetric (undirected) networks and networks without directed cycles, see below.  Missing: other
networks, for which it is false (`C10_split`, below). -/
theorem C10_exact_partial {N : Network A W} (h : InRange N.neighbours) (htw : TwoWay N.neighbours) {fuel : Nat}
    (hf : N.neighbours.length ≤ fuel) {L : List (List Nat)} (hL : scc N fuel = .ok L) {a b : Nat} (ha : a < N.neighbours.length) :
    (∃ c ∈ L, a ∈ c ∧ b ∈ c) ↔ (Reaches N.neighbours a b ∧ Reaches N.neighbours b a) := by
  constructor
  · rintro ⟨c, hc, hac, hbc⟩
    have := C09_component_strongly_connected h hf hL c hc
    exact ⟨this a hac b hbc, this b hbc a hac⟩
  · rintro ⟨hab, hba⟩
    obtain ⟨s, hs, hI⟩ := run_spec h hf
    simp only [scc, hs, Res.bind_ok] at hL
    have := Except.ok.inj hL
    subst this
    have hmem : ∃ c ∈ s.sccs, a ∈ c := by
      rcases (hI.inv.mem a).mp (hI.done a ha) with h1 | h1
      · rw [hI.stack] at h1; simp at h1
      · exact List.mem_flatten.mp h1
    obtain ⟨c, hc, hac⟩ := hmem
    refine ⟨c, hc, hac, ?_⟩
    have : ∀ x, Reaches N.neighbours a x → Reaches N.neighbours x a → x ∈ c := by
      intro x hx
      induction hx with
      | refl => intro _; exact hac
      | tail hx hstep ih =>
        intro hback
        exact hI.inv.comp htw c hc _ (ih ((Relation.ReflTransGen.single hstep).trans hback)) _ hstep (hback.trans hx)
    exact this b hab hba

/-- C10, partial: exact on symmetric networks. -/
theorem C10_symmetric_partial {N : Network A W} (h : InRange N.neighbours) (hsym : Symmetric N.neighbours) {fuel : Nat}
    (hf : N.neighbours.length ≤ fuel) {L : List (List Nat)} (hL : scc N fuel = .ok L) {a b : Nat} (ha : a < N.neighbours.length) :
    (∃ c ∈ L, a ∈ c ∧ b ∈ c) ↔ Reaches N.neighbours a b := by
  have hr : ∀ x y, Reaches N.neighbours x y → Reaches N.neighbours y x := by
    intro x y hxy
    induction hxy with
    | refl => exact .refl
    | tail _ hs ih => exact (Relation.ReflTransGen.single (hsym _ _ hs)).trans ih
  rw [C10_exact_partial h (fun x y hxy _ => hsym x y hxy) hf hL ha]
  exact ⟨And.left, fun h => ⟨h, hr _ _ h⟩⟩

/-- C10, partial: also exact on networks without directed cycles through different agents. -/
theorem C10_acyclic_partial {N : Network A W} (h : InRange N.neighbours)
    (hac : ∀ a b, Reaches N.neighbours a b → Reaches N.neighbours b a → a = b) {fuel : Nat}
    (hf : N.neighbours.length ≤ fuel) {L : List (List Nat)} (hL : scc N fuel = .ok L) {a b : Nat}
    (ha : a < N.neighbours.length) :
    (∃ c ∈ L, a ∈ c ∧ b ∈ c) ↔ (Reaches N.neighbours a b ∧ Reaches N.neighbours b a) := by
  refine C10_exact_partial h (fun x y hxy hyx => ?_) hf hL ha
  obtain rfl := hac x y (Relation.ReflTransGen.single hxy) hyx
  exact hxy

/-- C10, partial: on such networks the test of the DeGroot constructor (exactly one list) is passed exactly by the strongly connected networks. -/
theorem C10_warning_partial {N : Network A W} (h : InRange N.neighbours) (htw : TwoWay N.neighbours) (hn : 0 < N.neighbours.length) {fuel : Nat}
    (hf : N.neighbours.length ≤ fuel) {L : List (List Nat)} (hL : scc N fuel = .ok L) :
    L.length = 1 ↔ ∀ a b, a < N.neighbours.length → b < N.neighbours.length → Reaches N.neighbours a b := by
  refine ⟨C09_single_component h hf hL, fun hr => ?_⟩
  obtain ⟨L', hL', hne, hp⟩ := C08_scc_partition h
  have := Except.ok.inj ((hL' fuel hf).symm.trans hL)
  subst this
  obtain ⟨c0, hc0, h0⟩ : ∃ c ∈ L', 0 ∈ c := List.mem_flatten.mp (hp.mem_iff.mpr (List.mem_range.mpr hn))
  have hnd : L'.flatten.Nodup := hp.nodup_iff.mpr List.nodup_range
  have hall : ∀ c ∈ L', 0 ∈ c := by
    intro c hc
    obtain ⟨x, hx⟩ := List.exists_mem_of_ne_nil c (hne c hc)
    have hxl : x < N.neighbours.length := List.mem_range.mp (hp.mem_iff.mp (List.mem_flatten.mpr ⟨c, hc, hx⟩))
    obtain ⟨c', hc', h0', hx'⟩ := (C10_exact_partial h htw hf hL hn (b := x)).mpr ⟨hr 0 x hn hxl, hr x 0 hxl hn⟩
    have hcc : c = c' := by
      by_contra hcc
      have hpw := (List.nodup_flatten.mp hnd).2
      have hd : ∀ u ∈ L', ∀ w ∈ L', u ≠ w → u.Disjoint w := by
        intro u hu w hw huw
        have : Std.Symm (List.Disjoint (α := Nat)) := ⟨fun _ _ h => h.symm⟩
        exact hpw.forall hu hw huw
      exact hd c hc c' hc' hcc hx hx'
    rw [hcc]; exact h0'
  match L', hc0, hall, hnd with
  | [_], _, _, _ => rfl
  | u :: w :: t, _, hall, hnd =>
    exfalso
    have hpw := (List.nodup_flatten.mp hnd).2
    rw [List.pairwise_cons] at hpw
    exact hpw.1 w (by simp) (hall u (by simp)) (hall w (by simp))

/-- The adjacency list 0 → {1, 2}, 1 → {0}, 2 → {1}: agents 0, 1, 2 lie on the cycle 0 → 2 → 1 → 0. -/
def splitNet : Network Unit Unit :=
  { agents := [(), (), ()], neighbours := [[1, 2], [0], [1]], weights := [[(), ()], [()], [()]], direction := .incoming }

/-- C10 is false: `splitNet` is strongly connected, yet two components are reported (a cross edge into a vertex that is
finished but still on the stack is ignored, connectivity.hpp:69-74). -/
theorem C10_split :
    (∀ fuel, 3 ≤ fuel → scc splitNet fuel = .ok [[2], [1, 0]]) ∧ (∀ a < 3, ∀ b < 3, Reaches splitNet.neighbours a b) := by
  constructor
  · intro fuel hf
    have hin : InRange splitNet.neighbours := by
      intro row hrow j hj
      revert row hrow j hj
      decide
    obtain ⟨L, hL, _⟩ := C08_scc_partition hin
    have h3 : scc splitNet 3 = .ok [[2], [1, 0]] := by decide
    rw [hL fuel hf, ← hL 3 (le_refl 3), h3]
  · have e01 : Reaches splitNet.neighbours 0 2 := .single (by unfold Step; decide)
    have e12 : Reaches splitNet.neighbours 2 1 := .single (by unfold Step; decide)
    have e20 : Reaches splitNet.neighbours 1 0 := .single (by unfold Step; decide)
    have to0 : ∀ a < 3, Reaches splitNet.neighbours a 0 := by
      intro a ha
      match a, ha with
      | 0, _ => exact .refl
      | 1, _ => exact e20
      | 2, _ => exact e12.trans e20
    have from0 : ∀ a < 3, Reaches splitNet.neighbours 0 a := by
      intro a ha
      match a, ha with
      | 0, _ => exact .refl
      | 1, _ => exact e01.trans e12
      | 2, _ => exact e01
    intro a ha b hb
    exact (to0 a ha).trans (from0 b hb)

/-- Consequence for users: the number of reported components can exceed 1 on a strongly connected network, so the DeGroot
constructor's warning can be wrong in that direction (but never the other way round, `C09_single_component`). -/
theorem C10_false_warning : ∃ N : Network Unit Unit, WF N ∧
    (∀ a < N.nAgents, ∀ b < N.nAgents, Reaches N.neighbours a b) ∧
    ∃ L, scc N N.nAgents = .ok L ∧ L.length ≠ 1 := by
  refine ⟨splitNet, ⟨rfl, rfl, ?_, by decide⟩, C10_split.2, _, C10_split.1 3 (le_refl 3), by decide⟩
  intro i h h'
  match i, h with
  | 0, _ => rfl
  | 1, _ => rfl
  | 2, _ => rfl

/-- Non-vacuity: a symmetric network with two components. -/
def symNet : Network Unit Unit :=
  { agents := [(), (), (), ()], neighbours := [[2], [3, 1], [0, 2], [1]], weights := [], direction := .incoming }

example : InRange symNet.neighbours ∧ Symmetric symNet.neighbours ∧ scc symNet 4 = .ok [[2, 0], [3, 1]] := by
  refine ⟨?_, ?_, by decide⟩
  · intro row hrow j hj
    revert row hrow j hj
    decide
  · have key : ∀ a < 4, ∀ b < 4, b ∈ symNet.neighbours.getD a [] → a ∈ symNet.neighbours.getD b [] := by decide
    have hr : ∀ a < 4, ∀ b ∈ symNet.neighbours.getD a [], b < 4 := by decide
    intro a b hab
    have ha : a < 4 := by
      by_contra hc
      have : symNet.neighbours.getD a [] = [] := by
        have h4 : symNet.neighbours.length ≤ a := Nat.not_lt.mp hc
        simp [List.getD, h4]
      unfold Step at hab
      rw [this] at hab; simp at hab
    exact key a ha b (hr a ha b hab) hab

/-- A network that is neither symmetric nor acyclic: 0 and 1 hear each other, 2 and 3 hear each other, and there is an edge from 1 to 2. -/
def mixedNet : Network Unit Unit :=
  { agents := [(), (), (), ()], neighbours := [[1], [0, 2], [3], [2]], weights := [], direction := .incoming }

-- the hypotheses of C10_exact_partial are met
example : InRange mixedNet.neighbours ∧ TwoWay mixedNet.neighbours ∧ scc mixedNet 4 = .ok [[3, 2], [1, 0]] := by
  have hr : ∀ a < 4, ∀ b ∈ mixedNet.neighbours.getD a [], b < 4 := by decide
  have hlt : ∀ a b, Step mixedNet.neighbours a b → a < 4 := by
    intro a b hab
    by_contra hc
    have : mixedNet.neighbours.getD a [] = [] := by
      have h4 : mixedNet.neighbours.length ≤ a := Nat.not_lt.mp hc
      simp [List.getD, h4]
    unfold Step at hab
    rw [this] at hab; simp at hab
  refine ⟨?_, ?_, by decide⟩
  · intro row hrow j hj
    revert row hrow j hj
    decide
  · intro a b hab hba
    have key : ∀ a < 4, ∀ b < 4, b ∈ mixedNet.neighbours.getD a [] → a ∈ mixedNet.neighbours.getD b [] ∨ (a = 1 ∧ b = 2) := by decide
    have ha := hlt a b hab
    rcases key a ha b (hr a ha b hab) hab with h | ⟨rfl, rfl⟩
    · exact h
    · exfalso
      have hup : ∀ x, Reaches mixedNet.neighbours 2 x → 2 ≤ x := by
        intro x hx
        induction hx with
        | refl => exact le_refl 2
        | tail _ hs ih =>
          rename_i y z _
          have hy := hlt y z hs
          have : ∀ y < 4, 2 ≤ y → ∀ z ∈ mixedNet.neighbours.getD y [], 2 ≤ z := by decide
          exact this y hy ih z hs
      have := hup 1 hba
      omega

/-- Non-vacuity for C08/C09 on a non-symmetric network: a 3-cycle reported as a single component, and a chain. -/
example : scc (A := Unit) (W := Unit) ⟨[(), (), ()], [[1], [2], [0]], [], .incoming⟩ 3 = .ok [[2, 1, 0]] ∧
    scc (A := Unit) (W := Unit) ⟨[(), (), ()], [[1], [2], []], [], .incoming⟩ 3 = .ok [[2], [1], [0]] := by decide

end Seldon
