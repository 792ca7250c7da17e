import Verif.Spec.Transport
import Verif.Spec.Driver

/-! # Specification of the balance of a history -/

namespace Minimc.Spec

/-- How many of the states have the given event. -/
def countEvent (ev : Event) (states : List Particle) : ℕ :=
  (states.filter (fun p => p.event = ev)).length

/-- How many neutrons the fissions among the states have put into the bank. -/
def bornInFission (states : List Particle) : ℕ :=
  ((states.filter (fun p => p.event = .fission)).map (fun p => p.secondaries.length)).sum

/-- The data have a fission reaction. -/
def ListsFission : Interaction → Prop
  | .multigroup m => ∃ r ∈ m.reactions, r.1 = .fission
  | .continuous c => ∃ ev nubar, ContinuousReaction.fission ev nubar ∈ c.reactions

/-- The material has a nuclide with a fission reaction. -/
def Fissile (m : Material) : Prop :=
  ∃ e ∈ m.afracs, ∃ t i, e.1.xs t = some i ∧ ListsFission i

/-- Some cell has such a material. -/
def HasFissile (w : World) : Prop := ∃ c ∈ w.cells, ∃ m, c.material = some m ∧ Fissile m

end Minimc.Spec
