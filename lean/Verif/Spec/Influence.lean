import Verif.Spec.Graph
/-!
# Independent specification: who can influence whom
-/
namespace Seldon.Spec
variable {A W : Type}

/-- `Hears N i j`: agent `i` takes the opinion of agent `j` into account: `j` is stored in the row of `i`. -/
def Hears (N : Network A W) (i j : Nat) : Prop := ∃ w, (j, w) ∈ row N i

/-- `Chain N k i j`: a chain of exactly `k` steps, each from an agent to somebody it listens to, leads from `i` to `j`. -/
inductive Chain (N : Network A W) : Nat → Nat → Nat → Prop where
  | here (i : Nat) : Chain N 0 i i
  | step {k i l j : Nat} : Hears N i l → Chain N k l j → Chain N (k + 1) i j

/-- `Within N k i j`: a chain of at most `k` steps leads from `i` to `j`. -/
def Within (N : Network A W) (k i j : Nat) : Prop := ∃ m, m ≤ k ∧ Chain N m i j

/-- `Upstream net d k i j`: along the networks `net 1, ..., net k` of `k` iterations, with up to `d` steps in each of them, latest first, a chain leads from `i` to `j`. -/
inductive Upstream (net : Nat → Network A W) (d : Nat) : Nat → Nat → Nat → Prop where
  | here (i : Nat) : Upstream net d 0 i i
  | step {k i l j : Nat} : Within (net (k + 1)) d i l → Upstream net d k l j → Upstream net d (k + 1) i j

end Seldon.Spec
