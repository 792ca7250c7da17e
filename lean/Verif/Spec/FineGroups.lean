import Verif.Spec.Mixture
import Verif.Spec.Chain

/-!
# Specification: groups that are divided

The same matter described with more groups: every group is divided into groups next to each other, and
neutrons in them behave alike.
-/

namespace Minimc.Spec

open Classical

/-- Groups `1, …, G'` divide groups `1, …, G`: fine group `g` lies in coarse group `into g`, and the order
is the same. -/
structure Subdivides (G G' : ℕ) (into : ℕ → ℕ) : Prop where
  range : ∀ g, 1 ≤ g → g ≤ G' → 1 ≤ into g ∧ into g ≤ G
  order : ∀ g h, 1 ≤ g → g ≤ h → h ≤ G' → into g ≤ into h

/-- What the table lists for the way from fine group `g` to any part of the coarse group `h`. -/
noncomputable def intoGroup (G' : ℕ) (into : ℕ → ℕ) (flat : List ℝ) (g h : ℕ) : ℝ :=
  (((List.range' 1 G').filter fun g' => decide (into g' = h)).map (entry2 G' flat g)).sum

/-- Data for fine groups and data for coarse groups that say the same: reactions and yields in a fine group
are those of its coarse group, transfers into the parts of a coarse group add up to those into it, and so do
spectra, up to their norm. -/
structure DividedGroups (G G' : ℕ) (into : ℕ → ℕ) (data data' : List MgNode) : Prop where
  reaction : ∀ r g, 1 ≤ g → g ≤ G' → specXS G' data' r g = specXS G data r (into g)
  transfer : ∀ g h, 1 ≤ g → g ≤ G' → 1 ≤ h → h ≤ G →
    intoGroup G' into (scatterTable data') g h = entry2 G (scatterTable data) (into g) h
  yield : ∀ g, 1 ≤ g → g ≤ G' → 0 < specXS G' data' .fission g →
    entry1 (nubarTable data') g = entry1 (nubarTable data) (into g)
  spectrum : ∀ g, 1 ≤ g → g ≤ G' → 0 < specXS G' data' .fission g → ∃ s : ℝ, 0 < s ∧
    ∀ h, 1 ≤ h → h ≤ G →
      intoGroup G' into (chiTable data') g h = s * entry2 G (chiTable data) (into g) h

/-- Materials of the same composition, the second one with data for fine groups. -/
def FineMaterial (G G' : ℕ) (into : ℕ → ℕ) (nodes nodes' : Nuclide → List MgNode) (m m' : Material) : Prop :=
  m'.numberDensity = m.numberDensity ∧ List.Forall₂ (fun e e' : Nuclide × ℝ =>
    DividedGroups G G' into (nodes e.1) (nodes' e'.1) ∧ e'.2 = e.2) m.afracs m'.afracs

/-- The bins do not tell fine groups of one coarse group apart: all directions and the number of the fine
group have the same bin as with the number of the coarse group. -/
def BinsAlike (G' : ℕ) (into : ℕ → ℕ) (bins bins' : ParticleBins) : Prop :=
  bins'.size = bins.size ∧
    ∀ (d : Direction) (g : ℕ), 1 ≤ g → g ≤ G' → bins'.getIndex d g = bins.getIndex d (into g : ℕ)

/-- The same task with fine groups: the source emits neutrons in a fine group of its coarse group, and
estimators have bins that do not tell fine groups of one coarse group apart. -/
structure FineTask (G' : ℕ) (into : ℕ → ℕ) (P P' : Problem) : Prop where
  source : ∃ g, 1 ≤ g ∧ g ≤ G' ∧ P.source.energy = .group (into g) ∧
    P'.source = { P.source with energy := .group g }
  seed : P'.seed = P.seed
  method : P'.method = P.method
  estimators : List.Forall₂ (fun e e' : Estimator => e'.base.name = e.base.name ∧
    e'.surface = e.surface ∧ BinsAlike G' into e.base.bins e'.base.bins) P.init.estimators P'.init.estimators
  histories : P'.batchsize = P.batchsize

end Minimc.Spec
