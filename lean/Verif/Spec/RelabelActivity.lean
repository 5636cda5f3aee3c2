import Verif.Spec.Relabel
import Verif.Spec.Contacts
import Verif.Spec.ContactLaw
/-!
# Specification: another numbering of the agents of the activity-driven models; histories
-/
namespace Seldon.Spec
variable {A F S : Type}

/-- `p'` are the settings `p` with the bots renumbered: bots are still the first agents, with the same number of contacts, homophily and opinion. -/
structure RelabelledSettings (σ : Equiv.Perm ℕ) (p p' : ActivitySettings F) : Prop where
  rest : p' = { p with botM := p'.botM, botActivity := p'.botActivity, botOpinion := p'.botOpinion, botHomophily := p'.botHomophily }
  bots : ∀ i, σ i < p.nBots ↔ i < p.nBots
  botM : ∀ i, i < p.nBots → p'.botM[σ i]? = p.botM[i]?
  botHomophily : ∀ i, i < p.nBots → p'.botHomophily[σ i]? = p.botHomophily[i]?
  botOpinion : ∀ i, i < p.nBots → p'.botOpinion[σ i]? = p.botOpinion[i]?

/-- A history of `t` iterations from `s`: after iteration `k + 1` the agents are `ys k`, and among the `n` agents exactly those with `R k i j` have the edge from
`i` to `j`. -/
def HasHistory (iteration : S → Res S) (network : S → Network A F) (n : ℕ) (s : S) (t : ℕ) (ys : ℕ → List A) (R : ℕ → ℕ → ℕ → Prop) : Prop :=
  ∃ st : ℕ → S, st 0 = s ∧ ∀ k, k < t → iteration (st k) = .ok (st (k + 1)) ∧ (network (st (k + 1))).agents = ys k ∧
    ∀ i j, i < n → j < n → (i ∈ (row (network (st (k + 1))) j).map (·.1) ↔ R k i j)

/-- The parameters of the model that enter the evolution of the opinions are finite numbers. -/
structure FiniteSettings (p : ActivitySettings XR) : Prop where
  dt : ∃ x, p.dt = XR.fin x
  K : ∃ x, p.K = XR.fin x
  alpha : ∃ x, p.alpha = XR.fin x
  reciprocity : ∃ x, p.reciprocity = XR.fin x
  homophily : ∃ x, p.homophily = XR.fin x
  botHomophily : ∀ h ∈ p.botHomophily, ∃ x, h = XR.fin x
  botOpinion : ∀ h ∈ p.botOpinion, ∃ x, h = XR.fin x

/-- The data of the agent are finite numbers, and its reluctance is not 0. -/
structure FiniteAgent [ActiveAgent A XR] (a : A) : Prop where
  opinion : ∃ x, ActiveAgent.opinion a = XR.fin x
  activity : ∃ x, ActiveAgent.activity a = XR.fin x
  reluctance : ∃ x, ActiveAgent.reluctance a = XR.fin x ∧ x ≠ 0

end Seldon.Spec
