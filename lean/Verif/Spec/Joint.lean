import Verif.Spec.GasAlike

/-! # Specification: several scores together -/

namespace Minimc.Spec

open MeasureTheory
open scoped ENNReal

/-- Families of scores have the same joint distribution, if the numbers are independent: all functions of
all of them together have the same mean. -/
def SameJoint {ι : Type} (f f' : ι → (ℕ → ℝ) → ℝ≥0∞) : Prop :=
  ∀ φ : (ι → ℝ≥0∞) → ℝ≥0∞, Measurable φ →
    ∫⁻ us, φ (fun i => f i us) ∂uniforms = ∫⁻ us, φ (fun i => f' i us) ∂uniforms

/-- The score of the current estimator of a surface in one of its bins, to be counted. -/
structure Entry where
  surface : SurfaceObj
  bins : ParticleBins
  index : ℕ

/-- The entry of a problem that is turned by `R`. -/
noncomputable def turnEntry (R : Point → Point) (e : Entry) : Entry :=
  ⟨turnSurface R e.surface, turnBins R e.bins, e.index⟩

/-- The run of a problem has printed, for every estimator and every bin, the mean and the standard error of
the scores of its histories, where `score` says what a history with a given seed scores. -/
def Prints (P : Problem) (r : EstimatorSet) (score : Entry → ℕ → ℝ≥0∞) : Prop :=
  ∀ (k : ℕ) (o : Estimator), P.init.estimators[k]? = some o →
    ∃ q : Estimator, r.estimators[k]? = some q ∧ q.base.name = o.base.name ∧
      ∀ i < o.base.bins.size,
        (q.base.means P.batchsize)[i]? = some (.ok (mean (sample (fun k =>
          (score ⟨o.surface, o.base.bins, i⟩ (P.seed + k)).toReal) P.batchsize))) ∧
        (q.base.stdDevs P.batchsize)[i]? = some (.ok (standardError (sample (fun k =>
          (score ⟨o.surface, o.base.bins, i⟩ (P.seed + k)).toReal) P.batchsize)))

/-- What is printed for scores of independent histories: a table of means and standard errors. -/
noncomputable def table {ι : Type} (f : ι → (ℕ → ℝ) → ℝ≥0∞) (n : ℕ) (histories : ℕ → ℕ → ℝ) : ι → ℝ × ℝ := fun i =>
  (mean (sample (fun e => (f i (histories e)).toReal) n),
    standardError (sample (fun e => (f i (histories e)).toReal) n))

end Minimc.Spec
