import Verif.Spec.GasWalk
import Verif.Spec.Mixture
import Verif.Spec.Turn

/-!
# Specification: the same gases in another place

Problems with continuous energies whose gases are made of the same matter, and which are turned or mirrored
as a whole.
-/

namespace Minimc.Spec

open Classical
open scoped ENNReal

/-- Nuclei per unit volume of all nuclides of the material with the given reactions. -/
noncomputable def gasAmount (data : Nuclide → Continuous) (m : Material) (rs : List ContinuousReaction) : ℝ :=
  m.numberDensity * ((m.afracs.filter fun x => decide ((data x.1).reactions = rs)).map Prod.snd).sum

/-- The gases have the same number of nuclei with any reactions, in any order. -/
def SameGas (data data' : Nuclide → Continuous) (m m' : Material) : Prop :=
  ∀ rs, gasAmount data' m' rs = gasAmount data m rs

/-- A cell and one that has its shape, turned by `R`, and is filled with the same gas of the same
temperature, or void. -/
structure GasCellsAlike (R : Point → Point) (data data' : Nuclide → Continuous) (c c' : Cell) : Prop where
  matter : CellsAlike (SameGas data data') (turnCell R c) c'
  temperature : c.material ≠ none → c'.temperature = c.temperature

/-- Worlds whose cells are related in this way, one by one. -/
def GasesAlike (R : Point → Point) (data data' : Nuclide → Continuous) (w w' : World) : Prop :=
  List.Forall₂ (GasCellsAlike R data data') w.cells w'.cells

/-- The same source and estimators, turned by `R`, and the same number of histories.  The seed, the tracking
method, the number of threads and the world may be others. -/
structure TurnedTask (R : Point → Point) (P P' : Problem) : Prop where
  source : P'.source = turnSource R P.source
  estimators : P'.init = turnSet R P.init
  histories : P'.batchsize = P.batchsize

/-- What a history of the problem scores, if neutrons start in cell `c` with energy `e`, see `played`. -/
noncomputable def gasPlayed {σ : Type} (S : Supply σ) (a b : Direction → Direction)
    (data : Nuclide → Continuous) (P : Problem) (hit : SurfaceObj → Direction → ℝ → ℝ≥0∞) (u v : Direction)
    (c : Cell) (e : ℝ) (s : σ) : ℝ≥0∞ :=
  emitted S u v P.source.direction
    (fun d s => ⨆ n, gasScore S a b data P.world P.method hit n c P.source.position d e s) s

end Minimc.Spec
