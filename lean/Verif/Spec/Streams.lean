import Verif.Model.Rng

/-! # Random number streams -/

namespace Minimc.Spec

/-- The first `N` states that a generator started in state `a` goes through and the first `N`
states of one started in state `b` have no state in common. -/
def DisjointStreams (N a b : ℕ) : Prop :=
  ∀ i < N, ∀ j < N, Rng.next^[i] a ≠ Rng.next^[j] b

end Minimc.Spec
