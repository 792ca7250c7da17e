import Verif.Spec.Thermal
import Verif.Spec.Histogram
import Mathlib.Analysis.SpecialFunctions.Pow.Real
import Mathlib.Data.Real.Sign

/-! # Specification: the energy and momentum a neutron exchanges with a thermal scatterer -/

namespace Minimc.Spec

/-- The inner corner points of a cumulative distribution function: `n` cumulative probabilities
`f k` and values `v k`. -/
structure Curve where
  n : ℕ
  f : ℕ → ℝ
  v : ℕ → ℝ

/-- Among the values from `lo` to `hi`, `a` has cumulative probability `F`. -/
def Curve.At (c : Curve) (lo hi F a : ℝ) : Prop := OnCurve c.n (knot c.n c.f c.v lo hi) F a

/-- Probabilities and values increase from `(0, lo)` to `(1, hi)`. -/
def Curve.Sound (c : Curve) (lo hi : ℝ) : Prop := Increasing c.n (knot c.n c.f c.v lo hi)

/-- A value is at most `z` with probability `F`. -/
def Curve.Cumulative (c : Curve) (lo hi z F : ℝ) : Prop :=
  (z < lo ∧ F = 0) ∨ c.At lo hi F z ∨ (hi ≤ z ∧ F = 1)

/-- At temperature `t`, between two tabulated ones, the rows of the partition hold the given
distributions, each stored for an incident energy or an energy transfer. -/
def RowsAt (P : Partition) (t : ℝ) (l : List (ℝ × Curve)) : Prop :=
  ∃ fs rows ts X j a b, PartitionTable P fs rows ts X ∧ ts[j]? = some a ∧ ts[j + 1]? = some b ∧
    a ≤ t ∧ t < b ∧ l.map Prod.fst = rows ∧ ∀ i x c, l[i]? = some (x, c) →
      c.n = fs.length ∧ (∀ k < c.n, fs[k]? = some (c.f k)) ∧
      ∀ k < c.n, c.v k = mix (weight a b t) (X k i j) (X k i (j + 1))

/-- The partitions, one after the other, hold the given distributions. -/
def Tabulates (parts : List Partition) (t : ℝ) (L : List (ℝ × Curve)) : Prop :=
  ∃ ls, List.Forall₂ (fun P l => RowsAt P t l) parts ls ∧ L = ls.flatten

/-- The energy transfer, in units of `kT`, that leaves a neutron of energy `e` with none. -/
noncomputable def allLost (e t : ℝ) : ℝ := -e / (boltzmann * t)

/-- The neighbours of an incident energy among the tabulated ones, and the weight of the upper.
Below the table its lowest energy is both, with all the weight. -/
inductive Neighbours (L : List (ℝ × Curve)) (e : ℝ) : ℝ → ℝ × Curve → ℝ × Curve → Prop where
  | between {i : ℕ} {x y : ℝ × Curve} : L[i]? = some x → L[i + 1]? = some y → x.1 ≤ e → e < y.1 →
      Neighbours L e (weight x.1 y.1 e) x y
  | below {y : ℝ × Curve} : L[0]? = some y → e < y.1 → Neighbours L e 1 y y

/-- The first number chooses between the distributions of the two neighbours.  With the lower one
the next number gives the energy transfer.  With the upper one up to ten numbers are tried until
one gives a transfer that the neutron can afford: `k` transfers are rejected before `b`. -/
def EnergyTransfer (w : ℝ) (x y : ℝ × Curve) (e t cut : ℝ) (us : ℕ → ℝ) (k : ℕ) (b : ℝ) : Prop :=
  (w ≤ us 0 ∧ k = 0 ∧ x.2.At (allLost x.1 t) cut (us 1) b) ∨
  (us 0 < w ∧ k < 10 ∧ y.2.At (allLost y.1 t) cut (us (k + 1)) b ∧ allLost e t ≤ b ∧
    ∀ j < k, ∃ b', y.2.At (allLost y.1 t) cut (us (j + 1)) b' ∧ b' < allLost e t)

/-- The upper neighbour is chosen, and none of ten transfers can be afforded. -/
def NoTransfer (w : ℝ) (y : ℝ × Curve) (e t cut : ℝ) (us : ℕ → ℝ) : Prop :=
  us 0 < w ∧ ∀ j < 10, ∃ b', y.2.At (allLost y.1 t) cut (us (j + 1)) b' ∧ b' < allLost e t

/-- Least momentum transfer at energy transfer `b`, for a scatterer of `A` neutron masses. -/
noncomputable def leastMomentum (A e t b : ℝ) : ℝ :=
  (Real.sqrt e - Real.sqrt (e + b * boltzmann * t)) ^ 2 / (A * boltzmann * t)

/-- Largest momentum transfer at energy transfer `b`. -/
noncomputable def mostMomentum (A e t b : ℝ) : ℝ :=
  (Real.sqrt e + Real.sqrt (e + b * boltzmann * t)) ^ 2 / (A * boltzmann * t)

/-- The tabulated energy transfer `β`, with the sign of `b`, is beyond the cutoff or takes more
energy than the neutron has. -/
def Barred (cut e t b β : ℝ) : Prop :=
  (0 < b ∧ cut ≤ β) ∨ (b < 0 ∧ e / (boltzmann * t) < β)

/-- The tabulated energy transfer whose momentum transfers are used for `b`: with the number `u`
one of the neighbours of `|b|` is chosen, the lower one if the upper is barred.  The weight of the
upper is the one that the code computes, see C46 for what is wrong with it. -/
inductive Chosen (M : List (ℝ × Curve)) (cut e t b u : ℝ) : ℝ × Curve → Prop where
  | lower {i : ℕ} {x y : ℝ × Curve} : M[i]? = some x → M[i + 1]? = some y → x.1 ≤ |b| →
      |b| < y.1 → (Barred cut e t b y.1 ∨ |b| - x.1 / (y.1 - x.1) ≤ u) → Chosen M cut e t b u x
  | upper {i : ℕ} {x y : ℝ × Curve} : M[i]? = some x → M[i + 1]? = some y → x.1 ≤ |b| →
      |b| < y.1 → ¬ Barred cut e t b y.1 → u < |b| - x.1 / (y.1 - x.1) → Chosen M cut e t b u y
  | lowest {y : ℝ × Curve} : M[0]? = some y → |b| < y.1 → ¬ Barred cut e t b y.1 →
      Chosen M cut e t b u y

/-- The momentum transfer for the energy transfer `b`: the first number chooses a tabulated
distribution, the second a value in the part of it that is possible at its own energy transfer; the
value is stretched to the range that is possible at `b`. -/
def MomentumTransfer (M : List (ℝ × Curve)) (cut top A e t b u v α : ℝ) : Prop :=
  ∃ x fMin fMax a, Chosen M cut e t b u x ∧
    x.2.At 0 top fMin (leastMomentum A e t (Real.sign b * x.1)) ∧
    x.2.At 0 top fMax (mostMomentum A e t (Real.sign b * x.1)) ∧
    x.2.At 0 top (fMin + v * (fMax - fMin)) a ∧
    α = mix (weight (leastMomentum A e t (Real.sign b * x.1))
      (mostMomentum A e t (Real.sign b * x.1)) a) (leastMomentum A e t b) (mostMomentum A e t b)

/-- The tables of momentum transfers serve a neutron of energy `e`: the least tabulated energy
transfer is affordable and below the cutoff `cut`, the largest is neither, none is exactly what the
neutron has, and no momentum transfer is beyond the largest, `top`. -/
structure Serves (M : List (ℝ × Curve)) (cut top A e t : ℝ) : Prop where
  first : ∃ x, M[0]? = some x ∧ x.1 < cut ∧ x.1 ≤ e / (boltzmann * t)
  last : ∃ y ∈ M, cut ≤ y.1 ∧ e / (boltzmann * t) < y.1
  off : ∀ x ∈ M, x.1 ≠ e / (boltzmann * t)
  momentum : mostMomentum A e t cut < top
  sound : ∀ x ∈ M, x.2.Sound 0 top

end Minimc.Spec
