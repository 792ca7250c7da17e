import Verif.Spec.Experiment

/-!
# Specification: problems with the same matter

Two ways to say that materials are made of the same matter, though their nuclides, the fractions of them
and the density are written in another way.
-/

namespace Minimc.Spec

open Classical

/-- `l'` is `l` with each nuclide replaced by any number of nuclides with the same data, one after the
other.  Their fractions add up to its own, up to a factor. -/
inductive Divided (nodes nodes' : Nuclide → List MgNode) (factor : ℝ) :
    List (Nuclide × ℝ) → List (Nuclide × ℝ) → Prop where
  | nil : Divided nodes nodes' factor [] []
  | cons {e : Nuclide × ℝ} {parts l l' : List (Nuclide × ℝ)} :
      (∀ p ∈ parts, 0 ≤ p.2 ∧ nodes' p.1 = nodes e.1) → (parts.map Prod.snd).sum = factor * e.2 →
      Divided nodes nodes' factor l l' → Divided nodes nodes' factor (e :: l) (parts ++ l')

/-- The nuclides of the second material are those of the first one, divided.  If all fractions are
multiplied by a factor, the density is divided by it. -/
def DividedMaterial (nodes nodes' : Nuclide → List MgNode) (m m' : Material) : Prop :=
  ∃ factor, 0 < factor ∧ m'.numberDensity * factor = m.numberDensity ∧
    Divided nodes nodes' factor m.afracs m'.afracs

/-- Nuclei per unit volume of all nuclides of the material with the given data. -/
noncomputable def amount (nodes : Nuclide → List MgNode) (m : Material) (data : List MgNode) : ℝ :=
  m.numberDensity * ((m.afracs.filter fun e => decide (nodes e.1 = data)).map Prod.snd).sum

/-- The materials have the same number of nuclei with any data, in any order. -/
def SameAmounts (nodes nodes' : Nuclide → List MgNode) (m m' : Material) : Prop :=
  ∀ data, amount nodes' m' data = amount nodes m data

/-- Cells of the same shape that are both void, or filled with materials that are related.  Names and
temperatures may differ. -/
structure CellsAlike (Q : Material → Material → Prop) (c c' : Cell) : Prop where
  shape : c'.surfaceSenses = c.surfaceSenses
  material : (c.material = none ∧ c'.material = none) ∨
    ∃ m m', c.material = some m ∧ c'.material = some m' ∧ Q m m'

/-- Worlds whose cells are related, one by one. -/
def WorldsAlike (Q : Material → Material → Prop) (w w' : World) : Prop :=
  List.Forall₂ (CellsAlike Q) w.cells w'.cells

/-- The same source, seed, tracking method, estimators and number of histories.  Worlds, perturbations
and numbers of threads may differ. -/
structure SameTask (P P' : Problem) : Prop where
  source : P'.source = P.source
  seed : P'.seed = P.seed
  method : P'.method = P.method
  estimators : P'.init = P.init
  histories : P'.batchsize = P.batchsize

end Minimc.Spec
