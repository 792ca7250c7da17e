import Verif.Spec.FineGroups

/-!
# Specification: groups in any order

The same matter described with groups that have other numbers, or of which there are more.
-/

namespace Minimc.Spec

/-- Every group among `1, …, G'` stands for a group among `1, …, G`, in any order. -/
def StandsFor (G G' : ℕ) (into : ℕ → ℕ) : Prop := ∀ g, 1 ≤ g → g ≤ G' → 1 ≤ into g ∧ into g ≤ G

/-- The same task with other groups, to be done in any way: the source emits neutrons in a group that stands
for its group, and estimators have bins that do not tell groups that stand for the same one apart. -/
structure RegroupedTask (G' : ℕ) (into : ℕ → ℕ) (P P' : Problem) : Prop where
  source : ∃ g, 1 ≤ g ∧ g ≤ G' ∧ P.source.energy = .group (into g) ∧
    P'.source = { P.source with energy := .group g }
  estimators : List.Forall₂ (fun e e' : Estimator => e'.base.name = e.base.name ∧
    e'.surface = e.surface ∧ BinsAlike G' into e.base.bins e'.base.bins) P.init.estimators P'.init.estimators
  histories : P'.batchsize = P.batchsize

end Minimc.Spec
