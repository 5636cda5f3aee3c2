import Verif.Spec.Random
import Verif.Spec.Contacts
/-!
# Specification: the random network of one iteration of the activity-driven model
-/
namespace Seldon.Spec
variable {A : Type}

/-- The probability that a uniform number between 0 and 1 is below `x`. -/
noncomputable def clip (x : ℝ) : ℝ := max 0 (min 1 x)

/-- The weight with which agent `i` (homophily `h`) contacts agent `j`, for the opinions `x`. -/
noncomputable def contactWeight (h : ℝ) (x : ℕ → ℝ) (i j : ℕ) : ℝ := if j = i then 0 else (max (1 / 10 ^ 10) |x i - x j|) ^ (-h)

/-- The probability that an agent with activity `a`, which chooses its contacts among `n` agents with the weights `w`, contacts exactly the agents of `b`:
nobody if it is not activated, otherwise a weighted sample without replacement (the agents drawn first are last in `b`). -/
noncomputable def contactLaw (a : ℝ) (w : ℕ → ℝ) (n : ℕ) (b : List ℕ) : ℝ :=
  if b = [] then 1 - clip a else clip a * successive w (Finset.range n) b.reverse

/-- The probability that, of the one-way contacts `l`, exactly those of `kept` are reciprocated, each independently with probability `q`. -/
noncomputable def keepLaw (q : ℝ) (l kept : List (ℕ × ℕ)) : ℝ := (l.map fun e => if e ∈ kept then clip q else 1 - clip q).prod

/-- The opinions, activities and homophilies of the agents are the numbers `x i`, `a i`, `h i`, and the reciprocity is `q`. -/
structure Numbers [ActiveAgent A XR] (p : ActivitySettings XR) (agents : List A) (x a h : ℕ → ℝ) (q : ℝ) : Prop where
  opinion : ∀ i (_ : i < agents.length), ActiveAgent.opinion agents[i] = XR.fin (x i)
  activity : ∀ i (_ : i < agents.length), ActiveAgent.activity agents[i] = XR.fin (a i)
  homophily : ∀ i, i < agents.length → homophilyFor p i = XR.fin (h i)
  reciprocity : p.reciprocity = XR.fin q

end Seldon.Spec
