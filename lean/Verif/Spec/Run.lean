import Verif.Model.Simulation
import Mathlib.Data.List.Forall2
/-!
# Independent specification: runs and the files they write
-/
namespace Seldon.Spec
variable {A F S : Type}

/-- `Iterates step s k t`: `s` becomes `t` by exactly `k` successful iterations. -/
inductive Iterates (step : S → Res S) (s : S) : Nat → S → Prop where
  | zero : Iterates step s 0 s
  | succ {k : Nat} {t u : S} (h : Iterates step s k t) (h' : step t = .ok u) : Iterates step s (k + 1) u

/-- `st 0, st 1, ..., st K` are the states of a run of `K` iterations: the model is not finished before iteration
`1, ..., K` and finished after iteration `K`. -/
structure IsRun (M : Machine A F S) (s0 : S) (K : Nat) (st : Nat → S) : Prop where
  start  : st 0 = s0
  going  : ∀ k, k < K → M.finished (st k) = false
  step   : ∀ k, k < K → M.iteration (st k) = .ok (st (k + 1))
  stop   : M.finished (st K) = true

inductive FileKind where
  | opinions
  | network
  deriving DecidableEq

/-- A file that should be written: its kind, its number, and the network (with agents) it should contain. -/
structure Wanted (A F : Type) where
  kind : FileKind
  number : Nat
  net : Network A F

/-- `opinions_<number>.txt` / `network_<number>.txt`. -/
def fileName : FileKind → Nat → List Char
  | .opinions, k => "opinions_".toList ++ Text.decimal k ++ ".txt".toList
  | .network, k => "network_".toList ++ Text.decimal k ++ ".txt".toList

/-- The written file `w` is the wanted file `q`: right name, and the contents are the agents (network) of `q` as rendered by
`agents_to_file` (`network_to_file`), whose formats are the subject of C15–C17. -/
def Fulfils (R : Simulation.Render A F) (w : FileWrite) (q : Wanted A F) : Prop :=
  w.name = fileName q.kind q.number ∧
  match q.kind with
  | .opinions => AgentIO.toFile R.agents q.net.agents = .ok w.contents
  | .network => NetworkIO.toFile R.text q.net = .ok w.contents

/-- Output is requested after iteration `k`. -/
def Requested (n : Option Nat) (start k : Nat) : Prop := ∃ m, n = some m ∧ m ∣ k ∧ start ≤ k

instance (n : Option Nat) (start k : Nat) : Decidable (Requested n start k) :=
  match n with
  | none => isFalse (by rintro ⟨m, h, _⟩; cases h)
  | some m => decidable_of_iff (m ∣ k ∧ start ≤ k) ⟨fun h => ⟨m, rfl, h⟩, fun ⟨_, h, h'⟩ => by cases h; exact h'⟩

/-- The files wanted after iteration `k` in the state with network `N`. -/
def wantedAt (o : OutputSettings) (N : Network A F) (k : Nat) : List (Wanted A F) :=
  (if Requested o.nOutputAgents o.startOutput k then [⟨.opinions, k + o.startNumberingFrom, N⟩] else []) ++
  (if Requested o.nOutputNetwork o.startOutput k then [⟨.network, k + o.startNumberingFrom, N⟩] else [])

/-- The files wanted before the first iteration. -/
def wantedInitially (o : OutputSettings) (N : Network A F) : List (Wanted A F) :=
  if o.outputInitial then [⟨.network, o.startNumberingFrom, N⟩, ⟨.opinions, o.startNumberingFrom, N⟩] else []

/-- All files wanted in a run of `K` iterations with networks `N 0` (before), `N 1`, ..., `N K`. -/
def wanted (o : OutputSettings) (N : Nat → Network A F) (K : Nat) : List (Wanted A F) :=
  wantedInitially o (N 0) ++ (List.range K).flatMap (fun k => wantedAt o (N (k + 1)) (k + 1))

end Seldon.Spec
