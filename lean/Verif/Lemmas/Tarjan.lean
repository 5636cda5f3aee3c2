import Verif.Lemmas.Basic
import Verif.Model.Tarjan
import Verif.Spec.Graph
import Mathlib.Data.Finset.Card
import Mathlib.Data.Finset.Range
import Mathlib.Data.Finset.Filter
/-!
# Helper lemmas: invariants of the depth-first search
-/
namespace Seldon.Tarjan
open Seldon Spec

theorem getD_set {α : Type} {l : List α} {i : Nat} (hi : i < l.length) (a d : α) (j : Nat) :
    (l.set i a).getD j d = if j = i then a else l.getD j d := by
  by_cases h : j = i
  · subst h; simp [List.getD, hi]
  · simp [List.getD, h, Ne.symm h]

def vis (s : St) (u : Nat) : Prop := s.visited.getD u false = true
def pro (s : St) (u : Nat) : Prop := s.processed.getD u false = true
def num (s : St) (u : Nat) : Nat := s.num.getD u 0
def low (s : St) (u : Nat) : Nat := s.lowest.getD u 0

/-- Every processed vertex on the stack reaches a vertex deeper in the stack, whose number is its `lowest`. -/
def BL (adj : List (List Nat)) (s : St) : List Nat → Prop
  | [] => True
  | x :: post => (pro s x → ∃ y ∈ post, num s y = low s x ∧ Reaches adj x y) ∧ BL adj s post

structure Inv (adj : List (List Nat)) (s : St) : Prop where
  l1 : s.num.length = adj.length
  l2 : s.lowest.length = adj.length
  l3 : s.visited.length = adj.length
  l4 : s.processed.length = adj.length
  mem : ∀ u, vis s u ↔ u ∈ s.stack ∨ u ∈ s.sccs.flatten
  nodup : (s.stack ++ s.sccs.flatten).Nodup
  dec : s.stack.Pairwise (fun a b => num s b < num s a)
  cnt : ∀ u ∈ s.stack, num s u < s.counter
  gray : ∀ u, vis s u → ¬ pro s u → u ∈ s.stack
  pv : ∀ u, pro s u → vis s u
  bl : BL adj s s.stack
  scc : ∀ c ∈ s.sccs, c ≠ [] ∧ ∀ a ∈ c, ∀ b ∈ c, Reaches adj a b
  closed : ∀ u, pro s u → ∀ w, Step adj u w → vis s w
  /-- a finished vertex has seen its unfinished neighbours -/
  glow : ∀ u, u ∈ s.stack → pro s u → ∀ w, Step adj u w → ¬ pro s w → low s u ≤ num s w
  /-- if edges inside strongly connected components go both ways, components are closed -/
  comp : TwoWay adj → ∀ c ∈ s.sccs, ∀ a ∈ c, ∀ b, Step adj a b → Reaches adj b a → b ∈ c
  cntv : ∀ u, vis s u → num s u < s.counter

theorem BL.append {adj : List (List Nat)} {s : St} {T L : List Nat} (h : BL adj s (T ++ L)) : BL adj s L := by
  induction T with
  | nil => exact h
  | cons a T ih => exact ih h.2

theorem BL.mem {adj : List (List Nat)} {s : St} {T L : List Nat} (h : BL adj s (T ++ L)) {x : Nat} (hx : x ∈ T)
    (hp : pro s x) : ∃ y ∈ T ++ L, num s y = low s x ∧ Reaches adj x y := by
  induction T with
  | nil => simp at hx
  | cons a T ih =>
    rcases List.mem_cons.mp hx with rfl | hx
    · obtain ⟨y, hy, h1⟩ := h.1 hp
      exact ⟨y, List.mem_cons_of_mem _ hy, h1⟩
    · obtain ⟨y, hy, h1⟩ := ih h.2 hx
      exact ⟨y, List.mem_cons_of_mem _ hy, h1⟩

theorem BL.congr {adj : List (List Nat)} {s s' : St} {L : List Nat} (h : BL adj s L)
    (hn : ∀ x ∈ L, num s' x = num s x) (hl : ∀ x ∈ L, pro s' x → pro s x ∧ low s' x = low s x) : BL adj s' L := by
  induction L with
  | nil => trivial
  | cons a L ih =>
    refine ⟨?_, ih h.2 (fun x hx => hn x (by simp [hx])) (fun x hx => hl x (by simp [hx]))⟩
    intro hp
    obtain ⟨h1, h2⟩ := hl a (by simp) hp
    obtain ⟨y, hy, hy1, hy2⟩ := h.1 h1
    exact ⟨y, hy, by rw [hn y (by simp [hy]), hy1, h2], hy2⟩

/-- What a finished call `dfs v` started in `s0` guarantees about its final state. -/
structure Post (adj : List (List Nat)) (v : Nat) (s0 s : St) : Prop where
  inv : Inv adj s
  visv : vis s v
  mono : ∀ u, vis s0 u → vis s u ∧ num s u = num s0 u ∧ low s u = low s0 u
  gray : ∀ u, (vis s u ∧ ¬ pro s u) ↔ (vis s0 u ∧ ¬ pro s0 u)
  new : ∀ u, vis s u → vis s0 u ∨ Reaches adj v u
  cnt : s0.counter < s.counter
  numv : num s v = s0.counter
  gl : ∀ w, Step adj v w → vis s0 w → ¬ pro s0 w → low s v ≤ num s w
  alt : (low s v = num s v ∧ s.stack = s0.stack) ∨
        (low s v ≠ num s v ∧
          ∃ T, s.stack = T ++ v :: s0.stack ∧ ∀ x ∈ T, low s v ≤ low s x ∧ Reaches adj v x)

/-- Loop invariant: state `s` after the neighbours in `pre` have been handled by the call `dfs v` started in `s0`. -/
structure LI (adj : List (List Nat)) (v : Nat) (s0 : St) (pre : List Nat) (s : St) : Prop where
  inv : Inv adj s
  stk : ∃ T, s.stack = T ++ v :: s0.stack ∧ ∀ x ∈ T, low s v ≤ low s x ∧ Reaches adj v x
  visv : vis s v
  npro : ¬ pro s v
  cnt : s0.counter < s.counter
  numv : num s v = s0.counter
  lowv : ∃ y, (y = v ∨ y ∈ s0.stack) ∧ num s y = low s v ∧ Reaches adj v y
  mono : ∀ u, vis s0 u → vis s u ∧ num s u = num s0 u ∧ low s u = low s0 u
  gray : ∀ u, (vis s u ∧ ¬ pro s u) ↔ ((vis s0 u ∧ ¬ pro s0 u) ∨ u = v)
  new : ∀ u, vis s u → vis s0 u ∨ Reaches adj v u
  dn : ∀ w ∈ pre, vis s w
  gl : ∀ w ∈ pre, vis s0 w → ¬ pro s0 w → low s v ≤ num s w

/-- Number of unvisited vertices. -/
def unv (n : Nat) (s : St) : Nat := ((Finset.range n).filter (fun u => s.visited.getD u false = false)).card

theorem unv_mono {n : Nat} {s s' : St} (h : ∀ u, vis s u → vis s' u) : unv n s' ≤ unv n s := by
  apply Finset.card_le_card
  intro u hu
  simp only [Finset.mem_filter] at hu ⊢
  refine ⟨hu.1, ?_⟩
  have := h u
  unfold vis at this
  cases hv : s.visited.getD u false with
  | false => rfl
  | true => rw [this hv] at hu; simp at hu

theorem unv_lt {n : Nat} {s s' : St} (h : ∀ u, vis s u → vis s' u) {v : Nat} (hv : v < n) (h1 : ¬ vis s v)
    (h2 : vis s' v) : unv n s' < unv n s := by
  apply Finset.card_lt_card
  rw [Finset.ssubset_iff_of_subset]
  · refine ⟨v, ?_, ?_⟩
    · simp only [Finset.mem_filter, Finset.mem_range]
      exact ⟨hv, by simpa [vis] using h1⟩
    · simp only [Finset.mem_filter, Finset.mem_range, not_and]
      intro _
      unfold vis at h2
      rw [h2]; simp
  · intro u hu
    simp only [Finset.mem_filter] at hu ⊢
    refine ⟨hu.1, ?_⟩
    have := h u
    unfold vis at this
    cases hv : s.visited.getD u false with
    | false => rfl
    | true => rw [this hv] at hu; simp at hu

variable {adj : List (List Nat)}

theorem vis_lt {s : St} (h : Inv adj s) {u : Nat} (hu : vis s u) : u < adj.length := by
  by_contra hc
  unfold vis at hu
  rw [← h.l3] at hc
  simp [List.getD, Nat.not_lt.mp hc] at hu

theorem enter_spec {v : Nat} {s0 : St} (h : Inv adj s0) (hv : v < adj.length) (hnv : ¬ vis s0 v) :
    ∃ s, enter v s0 = .ok s ∧ LI adj v s0 [] s ∧ (∀ u, vis s u ↔ vis s0 u ∨ u = v) := by
  have hb1 : v < s0.num.length := by rw [h.l1]; exact hv
  have hb2 : v < s0.lowest.length := by rw [h.l2]; exact hv
  have hb3 : v < s0.visited.length := by rw [h.l3]; exact hv
  unfold enter
  rw [wr_lt _ hb1]
  simp only [Res.bind_ok]
  rw [rd_getD 0 (by simpa using hb1), getD_set hb1, if_pos rfl]
  simp only [Res.bind_ok]
  rw [wr_lt _ hb2, Res.bind_ok, wr_lt _ hb3, Res.bind_ok]
  refine ⟨_, rfl, ?_⟩
  generalize hs : ({ s0 with num := s0.num.set v s0.counter, lowest := s0.lowest.set v s0.counter, visited := s0.visited.set v true, counter := s0.counter + 1, stack := v :: s0.stack } : St) = s
  have fv : ∀ u, vis s u ↔ vis s0 u ∨ u = v := by
    intro u; subst hs; simp only [vis]; rw [getD_set hb3]
    by_cases hu : u = v <;> simp [hu]
  have fp : ∀ u, pro s u ↔ pro s0 u := by intro u; subst hs; rfl
  have fn : ∀ u, num s u = if u = v then s0.counter else num s0 u := by
    intro u; subst hs; simp only [num]; rw [getD_set hb1]
  have fl : ∀ u, low s u = if u = v then s0.counter else low s0 u := by
    intro u; subst hs; simp only [low]; rw [getD_set hb2]
  have fs : s.stack = v :: s0.stack := by subst hs; rfl
  have fc : s.sccs = s0.sccs := by subst hs; rfl
  have fk : s.counter = s0.counter + 1 := by subst hs; rfl
  have hnp : ¬ pro s0 v := fun hp => hnv (h.pv v hp)
  have hvs : v ∉ s0.stack := fun hm => hnv ((h.mem v).mpr (Or.inl hm))
  have hvc : v ∉ s0.sccs.flatten := fun hm => hnv ((h.mem v).mpr (Or.inr hm))
  have ne_of_mem : ∀ u ∈ s0.stack, u ≠ v := fun u hu e => hvs (e ▸ hu)
  refine ⟨⟨?_, ?_, ?_, ?_, ?_, ?_, ?_, ?_, ?_, ?_, ?_, ?_⟩, fv⟩
  · -- Inv
    constructor
    · subst hs; simp [h.l1]
    · subst hs; simp [h.l2]
    · subst hs; simp [h.l3]
    · subst hs; simp [h.l4]
    · intro u
      rw [fv, fs, fc, h.mem u, List.mem_cons]
      tauto
    · rw [fs, fc, List.cons_append, List.nodup_cons]
      exact ⟨by simp [hvs]; simpa using hvc, h.nodup⟩
    · rw [fs, List.pairwise_cons]
      constructor
      · intro u hu
        rw [fn, fn, if_pos rfl, if_neg (ne_of_mem u hu)]
        exact h.cnt u hu
      · refine h.dec.imp_of_mem ?_
        intro a b ha hb hab
        rw [fn, fn, if_neg (ne_of_mem a ha), if_neg (ne_of_mem b hb)]
        exact hab
    · intro u hu
      rw [fs] at hu
      rw [fn, fk]
      rcases List.mem_cons.mp hu with rfl | hu
      · simp
      · rw [if_neg (ne_of_mem u hu)]
        have := h.cnt u hu
        omega
    · intro u h1 h2
      rw [fs]
      rcases (fv u).mp h1 with h1 | rfl
      · exact List.mem_cons_of_mem _ (h.gray u h1 (fun hp => h2 ((fp u).mpr hp)))
      · simp
    · intro u hu
      exact (fv u).mpr (Or.inl (h.pv u ((fp u).mp hu)))
    · rw [fs]
      refine ⟨fun hp => absurd ((fp v).mp hp) hnp, h.bl.congr ?_ ?_⟩
      · intro x hx; rw [fn, if_neg (ne_of_mem x hx)]
      · intro x hx hp; rw [fl, if_neg (ne_of_mem x hx)]; exact ⟨(fp x).mp hp, rfl⟩
    · rw [fc]; exact h.scc
    · intro u hu w hw
      exact (fv w).mpr (Or.inl (h.closed u ((fp u).mp hu) w hw))
    · intro u hu hp w hw hnw
      have hp := (fp u).mp hp
      have hw1 : w ≠ v := fun e => hnv (e ▸ h.closed u hp w hw)
      have hu1 : u ≠ v := fun e => hnp (e ▸ hp)
      rw [fs] at hu
      rw [fl, fn, if_neg hw1, if_neg hu1]
      exact h.glow u ((List.mem_cons.mp hu).resolve_left hu1) hp w hw (fun hc => hnw ((fp w).mpr hc))
    · rw [fc]; exact h.comp
    · intro u hu
      rw [fn, fk]
      rcases (fv u).mp hu with hu | rfl
      · rw [if_neg (show ¬ u = v from fun e => hnv (e ▸ hu))]
        have := h.cntv u hu
        omega
      · simp
  · exact ⟨[], by rw [fs]; rfl, by simp⟩
  · exact (fv v).mpr (Or.inr rfl)
  · exact fun hp => hnp ((fp v).mp hp)
  · omega
  · rw [fn, if_pos rfl]
  · exact ⟨v, Or.inl rfl, by rw [fn, fl, if_pos rfl, if_pos rfl], Relation.ReflTransGen.refl⟩
  · intro u hu
    have hne : u ≠ v := fun e => hnv (e ▸ hu)
    exact ⟨(fv u).mpr (Or.inl hu), by rw [fn, if_neg hne], by rw [fl, if_neg hne]⟩
  · intro u
    rw [fv, fp]
    constructor
    · rintro ⟨h1 | h1, h2⟩
      · exact Or.inl ⟨h1, h2⟩
      · exact Or.inr h1
    · rintro (⟨h1, h2⟩ | rfl)
      · exact ⟨Or.inl h1, h2⟩
      · exact ⟨Or.inr rfl, hnp⟩
  · intro u hu
    rcases (fv u).mp hu with hu | rfl
    · exact Or.inl hu
    · exact Or.inr Relation.ReflTransGen.refl
  · simp
  · simp

/-- Lowering `lowest[v]` of the vertex under processing to the number `k` of a vertex at or below `v`, or doing
nothing. -/
theorem lower_inv {v : Nat} {s : St} (h : Inv adj s) (hv : v < adj.length) (hnp : ¬ pro s v) (k : Nat) :
    Inv adj { s with lowest := s.lowest.set v k } := by
  have hb2 : v < s.lowest.length := by rw [h.l2]; exact hv
  constructor
  · exact h.l1
  · simp [h.l2]
  · exact h.l3
  · exact h.l4
  · exact h.mem
  · exact h.nodup
  · exact h.dec
  · exact h.cnt
  · exact h.gray
  · exact h.pv
  · refine h.bl.congr (fun x _ => rfl) ?_
    intro x hx hp
    refine ⟨hp, ?_⟩
    simp only [low]
    rw [getD_set hb2, if_neg]
    intro e; subst e; exact hnp hp
  · exact h.scc
  · exact h.closed
  · intro u hu hp w hw hnw
    have hne : u ≠ v := fun e => hnp (e ▸ hp)
    have : low { s with lowest := s.lowest.set v k } u = low s u := by simp only [low]; rw [getD_set hb2, if_neg hne]
    rw [this]
    exact h.glow u hu hp w hw hnw
  · exact h.comp
  · exact h.cntv

theorem low_set {v : Nat} {s : St} (h : Inv adj s) (hv : v < adj.length) (k u : Nat) :
    low { s with lowest := s.lowest.set v k } u = if u = v then k else low s u := by
  have hb2 : v < s.lowest.length := by rw [h.l2]; exact hv
  simp only [low]; rw [getD_set hb2]

/-- Lowering `lowest[v]` to a smaller value that is still the number of a vertex at or below `v` that `v` reaches. -/
theorem LI.lower {v : Nat} {s0 s : St} {pre pre' : List Nat} (h : LI adj v s0 pre s) (hv : v < adj.length)
    (hnv : ¬ vis s0 v)
    {k : Nat} (hk : k ≤ low s v)
    (hy : ∃ y, (y = v ∨ y ∈ s0.stack) ∧ num s y = k ∧ Reaches adj v y)
    (hdn : ∀ w ∈ pre', vis s w) (hgl : ∀ w ∈ pre', w ∉ pre → vis s0 w → ¬ pro s0 w → k ≤ num s w) :
    LI adj v s0 pre' { s with lowest := s.lowest.set v k } := by
  have fl := low_set h.inv hv k
  constructor
  · exact lower_inv h.inv hv h.npro k
  · obtain ⟨T, hT, hx⟩ := h.stk
    refine ⟨T, hT, fun x hxT => ?_⟩
    have hne : x ≠ v := by
      rintro rfl
      have := h.inv.nodup
      rw [hT] at this
      have := (List.nodup_append.mp this).1
      exact (List.nodup_append.mp this).2.2 _ hxT _ (by simp) rfl
    rw [fl, fl, if_pos rfl, if_neg hne]
    exact ⟨le_trans hk (hx x hxT).1, (hx x hxT).2⟩
  · exact h.visv
  · exact h.npro
  · exact h.cnt
  · exact h.numv
  · obtain ⟨y, h1, h2, h3⟩ := hy
    exact ⟨y, h1, by rw [fl, if_pos rfl]; exact h2, h3⟩
  · intro u hu
    have hne : u ≠ v := fun e => hnv (e ▸ hu)
    obtain ⟨h1, h2, h3⟩ := h.mono u hu
    exact ⟨h1, h2, by rw [fl, if_neg hne]; exact h3⟩
  · exact h.gray
  · exact h.new
  · exact hdn
  · intro w hw h1 h2
    rw [fl, if_pos rfl]
    by_cases hwp : w ∈ pre
    · exact le_trans hk (h.gl w hwp h1 h2)
    · exact hgl w hw hwp h1 h2

theorem LI.extend {v : Nat} {s0 s : St} {pre pre' : List Nat} (h : LI adj v s0 pre s)
    (hdn : ∀ w ∈ pre', vis s w) (hgl : ∀ w ∈ pre', w ∉ pre → vis s0 w → ¬ pro s0 w → low s v ≤ num s w) :
    LI adj v s0 pre' s := by
  obtain ⟨a, b, c, d, e, f, g, i, j, k, l, m⟩ := h
  refine ⟨a, b, c, d, e, f, g, i, j, k, hdn, ?_⟩
  intro w hw h1 h2
  by_cases hwp : w ∈ pre
  · exact m w hwp h1 h2
  · exact hgl w hw hwp h1 h2

/-- `lowest[v] ≤ num[v]` during the loop. -/
theorem LI.low_le {v : Nat} {s0 s : St} {pre : List Nat} (h : LI adj v s0 pre s) : low s v ≤ num s v := by
  obtain ⟨y, hy, h1, _⟩ := h.lowv
  rcases hy with rfl | hy
  · omega
  · obtain ⟨T, hT, _⟩ := h.stk
    have hd := h.inv.dec
    rw [hT, List.pairwise_append] at hd
    have := (List.pairwise_cons.mp hd.2.1).1 y hy
    omega

theorem edgeStep_spec {rec : Nat → St → Res St} {v u : Nat} {s0 s : St} {pre : List Nat}
    (hv : v < adj.length) (hu : u < adj.length) (hstep : Step adj v u) (hnv : ¬ vis s0 v)
    (hinv0 : Inv adj s0) (h : LI adj v s0 pre s)
    (hrec : ¬ vis s u → ∃ s', rec u s = .ok s' ∧ Post adj u s s') :
    ∃ s', edgeStep rec v s u = .ok s' ∧ LI adj v s0 (pre ++ [u]) s' ∧ (∀ w, vis s w → vis s' w) := by
  have hR : Reaches adj v u := Relation.ReflTransGen.single hstep
  unfold edgeStep
  by_cases huv : u = v
  · subst huv
    rw [if_pos rfl]
    refine ⟨s, rfl, h.extend ?_ ?_, fun _ => id⟩
    · intro w hw
      rcases List.mem_append.mp hw with hw | hw
      · exact h.dn w hw
      · simp at hw; subst hw; exact h.visv
    · intro w hw hwp h1 _
      have : w = u := by
        rcases List.mem_append.mp hw with hw | hw
        · exact absurd hw hwp
        · simpa using hw
      subst this; exact absurd h1 hnv
  rw [if_neg huv]
  have hb3 : u < s.visited.length := by rw [h.inv.l3]; exact hu
  have hb4 : u < s.processed.length := by rw [h.inv.l4]; exact hu
  have hbl : v < s.lowest.length := by rw [h.inv.l2]; exact hv
  rw [rd_getD false hb3, Res.bind_ok]
  by_cases hvu : vis s u
  · -- already visited
    rw [if_neg (by rw [show s.visited.getD u false = true from hvu]; simp), rd_getD false hb4, Res.bind_ok]
    by_cases hpu : pro s u
    · rw [if_neg (by rw [show s.processed.getD u false = true from hpu]; simp)]
      refine ⟨s, rfl, h.extend ?_ ?_, fun _ => id⟩
      · intro w hw
        rcases List.mem_append.mp hw with hw | hw
        · exact h.dn w hw
        · simp at hw; subst hw; exact hvu
      · intro w hw hwp h1 h2
        have : w = u := by
          rcases List.mem_append.mp hw with hw | hw
          · exact absurd hw hwp
          · simpa using hw
        subst this
        exact absurd hpu ((h.gray w).mpr (Or.inl ⟨h1, h2⟩)).2
    · have hpf : s.processed.getD u false = false := by simpa [pro] using hpu
      rw [if_pos hpf, rd_getD 0 hbl, Res.bind_ok, rd_getD 0 (by rw [h.inv.l1]; exact hu), Res.bind_ok,
        wr_lt _ hbl, Res.bind_ok]
      have hgr : vis s0 u ∧ ¬ pro s0 u := by
        rcases (h.gray u).mp ⟨hvu, hpu⟩ with h1 | h1
        · exact h1
        · exact absurd h1 huv
      have hstk : u ∈ s0.stack := hinv0.gray u hgr.1 hgr.2
      refine ⟨_, rfl, h.lower hv hnv (k := min (low s v) (num s u)) (min_le_left _ _) ?_ ?_ ?_, fun _ => id⟩
      · rcases le_total (low s v) (num s u) with hle | hle
        · rw [min_eq_left hle]; exact h.lowv
        · rw [min_eq_right hle]; exact ⟨u, Or.inr hstk, rfl, hR⟩
      · intro w hw
        rcases List.mem_append.mp hw with hw | hw
        · exact h.dn w hw
        · simp at hw; subst hw; exact hvu
      · intro w hw hwp h1 h2
        have : w = u := by
          rcases List.mem_append.mp hw with hw | hw
          · exact absurd hw hwp
          · simpa using hw
        subst this
        exact min_le_right _ _
  · -- recursive call
    have hvf : s.visited.getD u false = false := by simpa [vis] using hvu
    rw [if_pos hvf]
    obtain ⟨s', hs', P⟩ := hrec hvu
    rw [hs', Res.bind_ok, rd_getD 0 (by rw [P.inv.l2]; exact hv), Res.bind_ok,
      rd_getD 0 (by rw [P.inv.l2]; exact hu), Res.bind_ok, wr_lt _ (by rw [P.inv.l2]; exact hv), Res.bind_ok]
    obtain ⟨hvv, hnumv, hlowv⟩ := P.mono v h.visv
    have hnp' : ¬ pro s' v := ((P.gray v).mpr ⟨h.visv, h.npro⟩).2
    obtain ⟨T, hT, hTx⟩ := h.stk
    -- low s' u is either above v or the number of a vertex at or below v
    have hlowu : low s' v ≤ low s' u ∨
        (low s' u ≤ low s' v ∧ ∃ y, (y = v ∨ y ∈ s0.stack) ∧ num s' y = low s' u ∧ Reaches adj v y) := by
      have hle := h.low_le
      rcases P.alt with ⟨h1, _⟩ | ⟨h1, T', hT', _⟩
      · left
        rw [hlowv, h1, P.numv]
        have := h.cnt
        have := h.numv
        omega
      · have hbl' := P.inv.bl
        rw [hT'] at hbl'
        have hpu : pro s' u := by
          by_contra hc
          exact hvu ((P.gray u).mp ⟨P.visv, hc⟩).1
        obtain ⟨y, hy, hy1, hy2⟩ := hbl'.append.1 hpu
        rw [hT] at hy
        rcases List.mem_append.mp hy with hyT | hyS
        · left
          have hd := h.inv.dec
          rw [hT, List.pairwise_append] at hd
          have h3 := hd.2.2 y hyT v (by simp)
          have hvy : vis s y := (h.inv.mem y).mpr (Or.inl (by rw [hT]; simp [hyT]))
          have := (P.mono y hvy).2.1
          rw [hlowv, ← hy1, this]
          omega
        · rcases le_total (low s' v) (low s' u) with hc | hc
          · left; exact hc
          · right
            refine ⟨hc, y, ?_, hy1, hR.trans hy2⟩
            rcases List.mem_cons.mp hyS with rfl | hyS
            · exact Or.inl rfl
            · exact Or.inr hyS
    -- the invariant for s' without lowering
    have hLI : LI adj v s0 pre { s' with lowest := s'.lowest.set v (min (low s' v) (low s' u)) } := by
      have fl := low_set P.inv hv (min (low s' v) (low s' u))
      constructor
      · exact lower_inv P.inv hv hnp' _
      · -- stack
        have hmin : min (low s' v) (low s' u) ≤ low s v := by rw [← hlowv]; exact min_le_left _ _
        have hTold : ∀ x ∈ T, min (low s' v) (low s' u) ≤ low s' x ∧ Reaches adj v x := by
          intro x hx
          have hvx : vis s x := (h.inv.mem x).mpr (Or.inl (by rw [hT]; simp [hx]))
          rw [(P.mono x hvx).2.2]
          exact ⟨le_trans hmin (hTx x hx).1, (hTx x hx).2⟩
        have hnotv : ∀ (L : List Nat), s'.stack = L ++ v :: s0.stack → ∀ x ∈ L, x ≠ v := by
          rintro L hL x hx rfl
          have := P.inv.nodup
          rw [hL] at this
          have := (List.nodup_append.mp this).1
          exact (List.nodup_append.mp this).2.2 _ hx _ (by simp) rfl
        rcases P.alt with ⟨_, h2⟩ | ⟨_, T', hT', hTx'⟩
        · refine ⟨T, by rw [← hT, ← h2], ?_⟩
          intro x hx
          rw [fl, fl, if_pos rfl, if_neg (hnotv T (by rw [h2, hT]) x hx)]
          exact hTold x hx
        · have hst : s'.stack = (T' ++ u :: T) ++ v :: s0.stack := by rw [hT', hT]; simp
          refine ⟨T' ++ u :: T, hst, ?_⟩
          intro x hx
          rw [fl, fl, if_pos rfl, if_neg (hnotv _ hst x hx)]
          rcases List.mem_append.mp hx with hx | hx
          · exact ⟨le_trans (min_le_right _ _) (hTx' x hx).1, hR.trans (hTx' x hx).2⟩
          · rcases List.mem_cons.mp hx with rfl | hx
            · exact ⟨min_le_right _ _, hR⟩
            · exact hTold x hx
      · exact hvv
      · exact hnp'
      · have := h.cnt
        have := P.cnt
        change s0.counter < s'.counter
        omega
      · change num s' v = _
        rw [hnumv]; exact h.numv
      · rw [fl, if_pos rfl]
        obtain ⟨y, hy, hy1, hy2⟩ := h.lowv
        rcases hlowu with hc | ⟨hc, y', hy', h1', h2'⟩
        · refine ⟨y, hy, ?_, hy2⟩
          rw [min_eq_left hc, hlowv, ← hy1]
          have hvy : vis s y := by
            rcases hy with rfl | hy
            · exact h.visv
            · exact (h.inv.mem y).mpr (Or.inl (by rw [hT]; simp [hy]))
          exact (P.mono y hvy).2.1
        · exact ⟨y', hy', by rw [min_eq_right hc]; exact h1', h2'⟩
      · intro w hw
        have hne : w ≠ v := fun e => hnv (e ▸ hw)
        obtain ⟨h1, h2, h3⟩ := h.mono w hw
        obtain ⟨h1', h2', h3'⟩ := P.mono w h1
        exact ⟨h1', h2'.trans h2, by rw [fl, if_neg hne]; exact h3'.trans h3⟩
      · intro w
        exact (P.gray w).trans (h.gray w)
      · intro w hw
        rcases P.new w hw with h1 | h1
        · exact h.new w h1
        · exact Or.inr (hR.trans h1)
      · intro w hw; exact (P.mono w (h.dn w hw)).1
      · intro w hw h1 h2
        have hvw := (h.mono w h1).1
        rw [fl, if_pos rfl]
        change _ ≤ num s' w
        rw [(P.mono w hvw).2.1]
        refine le_trans (min_le_left _ _) ?_
        rw [hlowv]; exact h.gl w hw h1 h2
    refine ⟨_, rfl, hLI.extend ?_ ?_, fun w hw => (P.mono w hw).1⟩
    · intro w hw
      rcases List.mem_append.mp hw with hw | hw
      · exact (P.mono w (h.dn w hw)).1
      · simp at hw; subst hw; exact P.visv
    · intro w hw hwp h1 _
      have : w = u := by
        rcases List.mem_append.mp hw with hw | hw
        · exact absurd hw hwp
        · simpa using hw
      subst this
      exact absurd (h.mono w h1).1 hvu

theorem popScc_eq {v : Nat} {T S acc : List Nat} (h : v ∉ T) :
    popScc v (T ++ v :: S) acc = .ok (acc ++ T ++ [v], S) := by
  induction T generalizing acc with
  | nil => simp [popScc]
  | cons a T ih =>
    have ha : a ≠ v := by rintro rfl; simp at h
    have hT : v ∉ T := fun hm => h (by simp [hm])
    rw [List.cons_append, popScc, if_neg ha, ih hT]
    simp

/-- All vertices above a root `v` on the stack reach `v`. -/
theorem reach_root {v : Nat} {s : St} {T S : List Nat} (h : Inv adj s) (hT : s.stack = T ++ v :: S)
    (hp : ∀ x ∈ T, pro s x) (hlow : ∀ x ∈ T, num s v ≤ low s x) : ∀ x ∈ T, Reaches adj x v := by
  have key : ∀ k, ∀ x ∈ T, num s x ≤ k → Reaches adj x v := by
    intro k
    have hbl := h.bl
    have hdec := h.dec
    rw [hT] at hbl hdec
    rw [List.pairwise_append] at hdec
    -- the witness of x lies strictly deeper, so its number is smaller
    have hdeeper : ∀ (L M : List Nat), BL adj s (L ++ M) → (L ++ M).Pairwise (fun a b => num s b < num s a) →
        ∀ x ∈ L, pro s x → ∃ y ∈ L ++ M, num s y = low s x ∧ Reaches adj x y ∧ num s y < num s x := by
      intro L M
      induction L with
      | nil => intro _ _ x hx; simp at hx
      | cons a L ih =>
        intro hb hd x hx hpx
        rw [List.cons_append] at hb hd
        rw [List.pairwise_cons] at hd
        rcases List.mem_cons.mp hx with rfl | hx
        · obtain ⟨y, hy, h1, h2⟩ := hb.1 hpx
          exact ⟨y, List.mem_cons_of_mem _ hy, h1, h2, hd.1 y hy⟩
        · obtain ⟨y, hy, h1⟩ := ih hb.2 hd.2 x hx hpx
          exact ⟨y, List.mem_cons_of_mem _ hy, h1⟩
    induction k with
    | zero =>
      intro x hx hk
      have := hdec.2.2 x hx v (by simp)
      omega
    | succ k ih =>
      intro x hx hk
      obtain ⟨y, hy, h1, h2, h3⟩ := hdeeper T (v :: S) hbl (by rw [List.pairwise_append]; exact hdec) x hx (hp x hx)
      have hvy : num s v ≤ num s y := by rw [h1]; exact hlow x hx
      rcases List.mem_append.mp hy with hyT | hyS
      · exact h2.trans (ih y hyT (by omega))
      · rcases List.mem_cons.mp hyS with rfl | hyS
        · exact h2
        · have := (List.pairwise_cons.mp hdec.2.1).1 y hyS
          omega
  intro x hx
  exact key (num s x) x hx le_rfl

theorem finish_spec {v : Nat} {s0 s : St} {row : List Nat} (hv : v < adj.length) (hnv : ¬ vis s0 v)
    (hrow : row = adj.getD v []) (hinv0 : Inv adj s0) (h : LI adj v s0 row s) :
    ∃ s', finish v s = .ok s' ∧ Post adj v s0 s' := by
  have hb4 : v < s.processed.length := by rw [h.inv.l4]; exact hv
  unfold finish
  rw [wr_lt _ hb4, Res.bind_ok, rd_getD 0 (by rw [h.inv.l2]; exact hv), Res.bind_ok,
    rd_getD 0 (by rw [h.inv.l1]; exact hv), Res.bind_ok]
  obtain ⟨T, hT, hTx⟩ := h.stk
  have hnd := h.inv.nodup
  rw [hT] at hnd
  have hnd1 := (List.nodup_append.mp hnd).1
  have hvT : v ∉ T := fun hm => (List.nodup_append.mp hnd1).2.2 _ hm _ (by simp) rfl
  have hvS : v ∉ s0.stack := fun hm => hnv ((hinv0.mem v).mpr (Or.inl hm))
  have fp : ∀ u, (s.processed.set v true).getD u false = true ↔ pro s u ∨ u = v := by
    intro u; rw [getD_set hb4]
    by_cases hu : u = v <;> simp [hu, pro]
  have hTpro : ∀ x ∈ T, pro s x := by
    intro x hx
    by_contra hc
    have hvx : vis s x := (h.inv.mem x).mpr (Or.inl (by rw [hT]; simp [hx]))
    rcases (h.gray x).mp ⟨hvx, hc⟩ with h1 | h1
    · have := hinv0.gray x h1.1 h1.2
      exact (List.nodup_append.mp hnd1).2.2 x hx x (by simp [this]) rfl
    · exact hvT (h1 ▸ hx)
  have hgrayeq : ∀ u, (vis s u ∧ ¬ (pro s u ∨ u = v)) ↔ (vis s0 u ∧ ¬ pro s0 u) := by
    intro u
    constructor
    · rintro ⟨h1, h2⟩
      rcases (h.gray u).mp ⟨h1, fun hp => h2 (Or.inl hp)⟩ with h3 | h3
      · exact h3
      · exact absurd (Or.inr h3) h2
    · intro h1
      have h2 := (h.gray u).mpr (Or.inl h1)
      refine ⟨h2.1, ?_⟩
      rintro (h3 | rfl)
      · exact h2.2 h3
      · exact hnv h1.1
  have hclosed : ∀ u, pro s u ∨ u = v → ∀ w, Step adj u w → vis s w := by
    rintro u (hu | rfl) w hw
    · exact h.inv.closed u hu w hw
    · exact h.dn w (by rw [hrow]; exact hw)
  have hgl : ∀ w, Step adj v w → vis s0 w → ¬ pro s0 w → low s v ≤ num s w :=
    fun w hw => h.gl w (by rw [hrow]; exact hw)
  by_cases hroot : low s v = num s v
  · rw [if_pos (show s.lowest.getD v 0 = s.num.getD v 0 from hroot)]
    rw [hT, popScc_eq hvT]
    simp only [Res.bind_ok]
    refine ⟨_, rfl, ?_⟩
    have hcomp : ∀ a ∈ T ++ [v], Reaches adj v a ∧ Reaches adj a v := by
      intro a ha
      rcases List.mem_append.mp ha with ha | ha
      · refine ⟨(hTx a ha).2, reach_root h.inv hT hTpro ?_ a ha⟩
        intro x hx; rw [← hroot]; exact (hTx x hx).1
      · simp at ha; subst ha; exact ⟨Relation.ReflTransGen.refl, Relation.ReflTransGen.refl⟩
    have hdec := h.inv.dec
    rw [hT, List.pairwise_append] at hdec
    have hbl := h.inv.bl
    rw [hT] at hbl
    constructor
    · constructor
      · exact h.inv.l1
      · exact h.inv.l2
      · exact h.inv.l3
      · simp [h.inv.l4]
      · intro u
        refine (h.inv.mem u).trans ?_
        rw [hT]
        simp only [List.mem_append, List.mem_cons, List.flatten_append, List.nil_append, List.flatten_cons,
          List.flatten_nil, List.append_nil, List.not_mem_nil, or_false]
        tauto
      · have : (T ++ v :: s0.stack ++ s.sccs.flatten).Perm (s0.stack ++ (s.sccs ++ [[] ++ T ++ [v]]).flatten) := by
          simp only [List.flatten_append, List.nil_append, List.flatten_cons, List.flatten_nil, List.append_nil]
          have e1 : T ++ v :: s0.stack ++ s.sccs.flatten = (T ++ [v]) ++ (s0.stack ++ s.sccs.flatten) := by simp
          have e2 : s0.stack ++ (s.sccs.flatten ++ (T ++ [v])) = (s0.stack ++ s.sccs.flatten) ++ (T ++ [v]) := by simp
          rw [e1, e2]
          exact List.perm_append_comm
        exact this.nodup_iff.mp hnd
      · exact (List.pairwise_cons.mp hdec.2.1).2
      · intro u hu
        exact h.inv.cnt u (by rw [hT]; simp [hu])
      · intro u h1 h2
        have h2' : ¬ (pro s u ∨ u = v) := fun hc => h2 ((fp u).mpr hc)
        have := (hgrayeq u).mp ⟨h1, h2'⟩
        exact hinv0.gray u this.1 this.2
      · intro u hu
        rcases (fp u).mp hu with hu | rfl
        · exact h.inv.pv u hu
        · exact h.visv
      · refine (hbl.append.2).congr (fun _ _ => rfl) ?_
        intro x hx hp
        rcases (fp x).mp hp with hp | rfl
        · exact ⟨hp, rfl⟩
        · exact absurd hx hvS
      · intro c hc
        simp only [List.mem_append, List.mem_singleton] at hc
        rcases hc with hc | rfl
        · exact h.inv.scc c hc
        · refine ⟨by simp, fun a ha b hb => ?_⟩
          simp only [List.nil_append] at ha hb
          exact (hcomp a ha).2.trans (hcomp b hb).1
      · intro u hu w hw
        exact hclosed u ((fp u).mp hu) w hw
      · intro u hu hp w hw hnw
        have hu' : u ≠ v := fun e => hvS (e ▸ hu)
        refine h.inv.glow u (by rw [hT]; simp [hu]) (((fp u).mp hp).resolve_right hu') w hw (fun hc => hnw ((fp w).mpr (Or.inl hc)))
      · intro htw c hc a ha b hab hba
        simp only [List.mem_append, List.mem_singleton] at hc
        rcases hc with hc | rfl
        · exact h.inv.comp htw c hc a ha b hab hba
        · simp only [List.nil_append] at ha ⊢
          have hback := htw a b hab hba
          have hpa : pro s a ∨ a = v := by
            rcases List.mem_append.mp ha with h1 | h1
            · exact Or.inl (hTpro a h1)
            · exact Or.inr (by simpa using h1)
          have ha' : a ∈ T ++ v :: s0.stack := by
            rcases List.mem_append.mp ha with h1 | h1
            · exact List.mem_append.mpr (Or.inl h1)
            · exact List.mem_append.mpr (Or.inr (List.mem_cons.mpr (Or.inl (by simpa using h1))))
          rcases (h.inv.mem b).mp (hclosed a hpa b hab) with h1 | h1
          · rw [hT] at h1
            rcases List.mem_append.mp h1 with h1 | h1
            · exact List.mem_append.mpr (Or.inl h1)
            · rcases List.mem_cons.mp h1 with rfl | h1
              · simp
              · exfalso
                -- `a` is not visited in `s0`
                have hna : ¬ vis s0 a := by
                  intro hc
                  have h2 := hinv0.cntv a hc
                  rw [← (h.mono a hc).2.1, ← h.numv] at h2
                  rcases List.mem_append.mp ha with h3 | h3
                  · have := hdec.2.2 a h3 v (by simp)
                    omega
                  · have : a = v := by simpa using h3
                    subst this
                    omega
                have hnb : ¬ pro s0 b := fun hp => hna (hinv0.closed b hp a hback)
                have hvb : vis s0 b := (hinv0.mem b).mpr (Or.inl h1)
                have hlt := (List.pairwise_cons.mp hdec.2.1).1 b h1
                have hle : low s v ≤ num s b := by
                  rcases List.mem_append.mp ha with h2 | h2
                  · exact le_trans (hTx a h2).1 (h.inv.glow a (by rw [hT]; simp [h2]) (hTpro a h2) b hab ((h.gray b).mpr (Or.inl ⟨hvb, hnb⟩)).2)
                  · have : a = v := by simpa using h2
                    subst this
                    exact hgl b hab hvb hnb
                rw [hroot] at hle
                omega
          · exfalso
            obtain ⟨d, hd, hbd⟩ := List.mem_flatten.mp h1
            have had := h.inv.comp htw d hd b hbd a hback (Relation.ReflTransGen.single hab)
            exact (List.nodup_append.mp hnd).2.2 a ha' a (List.mem_flatten.mpr ⟨d, hd, had⟩) rfl
      · exact h.inv.cntv
    · exact h.visv
    · exact h.mono
    · intro u
      rw [← hgrayeq u]
      have := fp u
      simp only [pro, vis] at this ⊢
      rw [this]
    · exact h.new
    · exact h.cnt
    · exact h.numv
    · exact hgl
    · exact Or.inl ⟨hroot, rfl⟩
  · rw [if_neg (show ¬ s.lowest.getD v 0 = s.num.getD v 0 from hroot)]
    refine ⟨_, rfl, ?_⟩
    have hbl := h.inv.bl
    constructor
    · constructor
      · exact h.inv.l1
      · exact h.inv.l2
      · exact h.inv.l3
      · simp [h.inv.l4]
      · exact h.inv.mem
      · exact h.inv.nodup
      · exact h.inv.dec
      · exact h.inv.cnt
      · intro u h1 h2
        exact h.inv.gray u h1 (fun hp => h2 ((fp u).mpr (Or.inl hp)))
      · intro u hu
        rcases (fp u).mp hu with hu | rfl
        · exact h.inv.pv u hu
        · exact h.visv
      · -- BL with v now processed
        change BL adj _ s.stack
        rw [hT] at hbl
        have hgen : ∀ L : List Nat, v ∉ L → BL adj s (L ++ v :: s0.stack) →
            BL adj { s with processed := s.processed.set v true } (L ++ v :: s0.stack) := by
          intro L
          induction L with
          | nil =>
            intro _ hb
            refine ⟨fun _ => ?_, hb.2.congr (fun _ _ => rfl) ?_⟩
            · obtain ⟨y, hy, hy1, hy2⟩ := h.lowv
              rcases hy with rfl | hy
              · exact absurd hy1.symm hroot
              · exact ⟨y, hy, hy1, hy2⟩
            · intro x hx hp
              rcases (fp x).mp hp with hp | rfl
              · exact ⟨hp, rfl⟩
              · exact absurd hx hvS
          | cons a L ih =>
            intro hL hb
            have ha : a ≠ v := by rintro rfl; simp at hL
            refine ⟨fun hp => ?_, ih (fun hm => hL (by simp [hm])) hb.2⟩
            rcases (fp a).mp hp with hp | hp
            · exact hb.1 hp
            · exact absurd hp ha
        have hfin := hgen T hvT hbl
        rw [← hT] at hfin
        exact hfin
      · exact h.inv.scc
      · intro u hu w hw
        exact hclosed u ((fp u).mp hu) w hw
      · intro u hu hp w hw hnw
        have hnw' : ¬ (pro s w ∨ w = v) := fun hc => hnw ((fp w).mpr hc)
        rcases (fp u).mp hp with hp | rfl
        · exact h.inv.glow u hu hp w hw (fun hc => hnw' (Or.inl hc))
        · have := (hgrayeq w).mp ⟨hclosed u (Or.inr rfl) w hw, hnw'⟩
          exact hgl w hw this.1 this.2
      · exact h.inv.comp
      · exact h.inv.cntv
    · exact h.visv
    · exact h.mono
    · intro u
      rw [← hgrayeq u]
      have := fp u
      simp only [pro, vis] at this ⊢
      rw [this]
    · exact h.new
    · exact h.cnt
    · exact h.numv
    · exact hgl
    · exact Or.inr ⟨hroot, T, hT, hTx⟩

theorem dfs_spec (hadj : InRange adj) (fuel : Nat) :
    ∀ v s0, Inv adj s0 → v < adj.length → ¬ vis s0 v → unv adj.length s0 ≤ fuel →
      ∃ s, dfs adj fuel v s0 = .ok s ∧ Post adj v s0 s := by
  induction fuel with
  | zero =>
    intro v s0 h hv hnv hf
    exfalso
    have hmem : v ∈ (Finset.range adj.length).filter (fun u => s0.visited.getD u false = false) := by
      simp only [Finset.mem_filter, Finset.mem_range]
      exact ⟨hv, by simpa [vis] using hnv⟩
    have := Finset.card_pos.mpr ⟨v, hmem⟩
    unfold unv at hf
    omega
  | succ fuel ih =>
    intro v s0 h hv hnv hf
    obtain ⟨s1, hs1, hLI, hvis1⟩ := enter_spec h hv hnv
    rw [dfs, hs1, Res.bind_ok, rd_getD [] hv, Res.bind_ok]
    have hunv1 : unv adj.length s1 ≤ fuel := by
      have := unv_lt (n := adj.length) (s := s0) (s' := s1) (fun u hu => (hvis1 u).mpr (Or.inl hu)) hv hnv
        ((hvis1 v).mpr (Or.inr rfl))
      omega
    have hloop : ∀ (suf pre : List Nat) (s : St), pre ++ suf = adj.getD v [] → LI adj v s0 pre s →
        unv adj.length s ≤ fuel →
        ∃ s', suf.foldlM (edgeStep (dfs adj fuel) v) s = .ok s' ∧ LI adj v s0 (adj.getD v []) s' := by
      intro suf
      induction suf with
      | nil =>
        intro pre s hpre hL _
        rw [List.append_nil] at hpre
        exact ⟨s, rfl, hpre ▸ hL⟩
      | cons u suf ihs =>
        intro pre s hpre hL hu
        have hmem : u ∈ adj.getD v [] := by rw [← hpre]; simp
        have hul : u < adj.length := by
          rw [getD_lt _ _ hv] at hmem
          exact hadj _ (List.getElem_mem hv) u hmem
        obtain ⟨s', hs', hL', hmono⟩ := edgeStep_spec (rec := dfs adj fuel) hv hul hmem hnv h hL
          (fun hnu => ih u s hL.inv hul hnu hu)
        obtain ⟨s'', hs'', hL''⟩ := ihs (pre ++ [u]) s' (by rw [← hpre]; simp) hL'
          (le_trans (unv_mono hmono) hu)
        refine ⟨s'', ?_, hL''⟩
        rw [List.foldlM_cons, hs', Res.bind_ok, hs'']
    obtain ⟨s2, hs2, hL2⟩ := hloop (adj.getD v []) [] s1 rfl hLI hunv1
    rw [hs2, Res.bind_ok]
    exact finish_spec hv hnv rfl h hL2

theorem inv_init (n : Nat) (hn : n = adj.length) : Inv adj (init n) := by
  have hv : ∀ u, ¬ vis (init n) u := by
    intro u hu
    unfold vis init at hu
    by_cases h : u < n <;> simp [List.getD, h] at hu
  have hp : ∀ u, ¬ pro (init n) u := by
    intro u hu
    unfold pro init at hu
    by_cases h : u < n <;> simp [List.getD, h] at hu
  constructor
  · simp [init, hn]
  · simp [init, hn]
  · simp [init, hn]
  · simp [init, hn]
  · intro u; simp only [hv u, false_iff]; simp [init]
  · simp [init]
  · simp [init]
  · simp [init]
  · intro u h; exact absurd h (hv u)
  · intro u h; exact absurd h (hp u)
  · simp [init, BL]
  · simp [init]
  · intro u h; exact absurd h (hp u)
  · intro u _ h; exact absurd h (hp u)
  · intro _ c hc; simp [init] at hc
  · intro u h; exact absurd h (hv u)

/-- Invariant between the top-level calls. -/
structure RunInv (adj : List (List Nat)) (i : Nat) (s : St) : Prop where
  inv : Inv adj s
  stack : s.stack = []
  done : ∀ u, u < i → vis s u

theorem run_spec (hadj : InRange adj) {fuel : Nat} (hf : adj.length ≤ fuel) :
    ∃ s, run adj fuel = .ok s ∧ RunInv adj adj.length s := by
  unfold run
  apply loop_inv (RunInv adj)
  · exact ⟨inv_init _ rfl, rfl, by simp⟩
  · intro i s hi h
    have hb3 : i < s.visited.length := by rw [h.inv.l3]; exact hi
    rw [rd_getD false hb3, Res.bind_ok]
    by_cases hv : vis s i
    · rw [if_neg (by rw [show s.visited.getD i false = true from hv]; simp)]
      refine ⟨s, rfl, h.inv, h.stack, ?_⟩
      intro u hu
      rcases Nat.lt_succ_iff_lt_or_eq.mp hu with hu | rfl
      · exact h.done u hu
      · exact hv
    · rw [if_pos (show s.visited.getD i false = false by simpa [vis] using hv)]
      have hunv : unv adj.length s ≤ fuel := by
        refine le_trans ?_ hf
        unfold unv
        exact le_trans (Finset.card_filter_le _ _) (by simp)
      obtain ⟨s', hs', P⟩ := dfs_spec hadj fuel i s h.inv hi hv hunv
      have hgrayempty : ∀ u, vis s' u → pro s' u := by
        intro u hu
        by_contra hc
        have := (P.gray u).mp ⟨hu, hc⟩
        have := h.inv.gray u this.1 this.2
        rw [h.stack] at this
        simp at this
      have hroot : low s' i = num s' i ∧ s'.stack = s.stack := by
        rcases P.alt with h1 | ⟨_, T, hT, _⟩
        · exact h1
        · exfalso
          have hbl := P.inv.bl
          rw [hT] at hbl
          obtain ⟨y, hy, _⟩ := hbl.append.1 (hgrayempty i P.visv)
          rw [h.stack] at hy
          simp at hy
      have hst : s'.stack = [] := by rw [hroot.2, h.stack]
      refine ⟨s', hs', P.inv, hst, ?_⟩
      intro u hu
      rcases Nat.lt_succ_iff_lt_or_eq.mp hu with hu | rfl
      · exact (P.mono u (h.done u hu)).1
      · exact P.visv

/-- More fuel than needed does not change the outcome. -/
theorem dfs_fuel_mono (fuel : Nat) : ∀ (k v : Nat) (s s' : St), dfs adj fuel v s = .ok s' → dfs adj (fuel + k) v s = .ok s' := by
  induction fuel with
  | zero => intro k v s s' h; simp [dfs] at h
  | succ fuel ih =>
    intro k v s s' h
    rw [Nat.add_right_comm]
    rw [dfs] at h ⊢
    obtain ⟨s1, h1, h⟩ := Res.bind_eq_ok.mp h
    obtain ⟨row, hrow, h⟩ := Res.bind_eq_ok.mp h
    obtain ⟨s2, h2, h⟩ := Res.bind_eq_ok.mp h
    rw [h1, Res.bind_ok, hrow, Res.bind_ok]
    have hfold : ∀ (l : List Nat) (t t' : St), l.foldlM (edgeStep (dfs adj fuel) v) t = .ok t' →
        l.foldlM (edgeStep (dfs adj (fuel + k)) v) t = .ok t' := by
      intro l
      induction l with
      | nil => intro t t' h; exact h
      | cons u l ihl =>
        intro t t' h
        rw [List.foldlM_cons] at h ⊢
        obtain ⟨t1, ht1, h⟩ := Res.bind_eq_ok.mp h
        have : edgeStep (dfs adj (fuel + k)) v t u = .ok t1 := by
          unfold edgeStep at ht1 ⊢
          by_cases huv : u = v
          · rw [if_pos huv] at ht1 ⊢; exact ht1
          · rw [if_neg huv] at ht1 ⊢
            obtain ⟨b, hb, ht1⟩ := Res.bind_eq_ok.mp ht1
            rw [hb, Res.bind_ok]
            by_cases hbf : b = false
            · rw [if_pos hbf] at ht1 ⊢
              obtain ⟨x, hx, ht1⟩ := Res.bind_eq_ok.mp ht1
              rw [ih k u t x hx, Res.bind_ok]
              exact ht1
            · rw [if_neg hbf] at ht1 ⊢; exact ht1
        rw [this, Res.bind_ok]
        exact ihl t1 t' h
    rw [hfold row s1 s2 h2, Res.bind_ok]
    exact h

end Seldon.Tarjan
