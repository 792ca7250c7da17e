import Verif.Model.Particle
import Verif.Model.Search

/-! # Thermal scattering (ThermalScattering.cpp) -/

namespace Minimc

open Classical

/-- `constants::boltzmann` (Constants.hpp:24). -/
noncomputable def boltzmann : ℝ := 8.617333262145e-11

/-- `constants::beta_resample_limit` (Constants.hpp:32). -/
def betaResampleLimit : ℕ := 10

/-- `constants::alpha_resample_limit` (Constants.hpp:35). -/
def alphaResampleLimit : ℕ := 10

/-- A sum over expansion orders `for (order = 0; order < max_order; order++) result += f(order)`
(ThermalScattering.cpp:202-207, 243-248, 264-267). -/
noncomputable def sumOrders (f : ℕ → Res ℝ) (maxOrder : ℕ) : Res ℝ :=
  sumLoop f 0 (List.range maxOrder)

/-- `HDF5DataSet::GetAxis` (HDF5DataSet.hpp:79-81). -/
def DataSet.getAxis (ds : DataSet) (level : ℕ) : Res (List ℝ) := vecAt ds.axes level

/-- Upper index into the temperatures (ThermalScattering.cpp:128-132, 189-193, 230-234).  On an
empty axis the code computes `0 - 1` in `size_t`; the model keeps 0, and both are out of
range. -/
noncomputable def tempHi (ts : List ℝ) (t : ℝ) : ℕ :=
  if upperIdx ts t = ts.length then upperIdx ts t - 1 else upperIdx ts t

/-- Lower index into the temperatures (ThermalScattering.cpp:134-135, 195-196, 236-237). -/
noncomputable def tempLo (ts : List ℝ) (t : ℝ) : ℕ :=
  if tempHi ts t = 0 then tempHi ts t else tempHi ts t - 1

namespace Partition

/-- The term of one order in the low-rank expansion (ThermalScattering.cpp:203-206,
244-247). -/
noncomputable def term (P : Partition) (cdfIndex rowIndex tIndex order : ℕ) : Res ℝ := do
  let s ← P.singularValues.at' [order]
  let c ← P.cdfModes.at' [cdfIndex, order]
  let m ← P.modes.at' [rowIndex, tIndex, order]
  .ok (s * c * m)

/-- `BetaPartition::Evaluate` (ThermalScattering.cpp:183-215) and `AlphaPartition::Evaluate`
(ThermalScattering.cpp:225-256), which are the same code but for names and `noexcept`; every
caller runs below a `noexcept` function.  Simplification: the two sums are accumulated in one
loop in the code.  Equal neighbouring temperatures divide zero by zero. -/
noncomputable def evaluate (P : Partition) (cdfIndex rowIndex : ℕ) (t : ℝ) : Res ℝ := do
  let ts ← P.modes.getAxis 1
  let orders ← P.singularValues.getAxis 0
  let hi ← sumOrders (P.term cdfIndex rowIndex (tempHi ts t)) orders.length
  let lo ← sumOrders (P.term cdfIndex rowIndex (tempLo ts t)) orders.length
  let tHi ← vecAt ts (tempHi ts t)
  let tLo ← vecAt ts (tempLo ts t)
  if tHi - tLo = 0 then .error .nan
  else .ok (lo + (hi - lo) / (tHi - tLo) * (t - tLo))

/-- The incident energies or energy transfers of a partition (ThermalScattering.cpp:43,
76). -/
def rows (P : Partition) : Res (List ℝ) := P.modes.getAxis 0

end Partition

namespace ThermalScattering

/-- Concatenation of the row axes of all partitions (ThermalScattering.cpp:41-45, 74-78). -/
def concatRows : List Partition → Res (List ℝ)
  | [] => .ok []
  | P :: ps => do .ok ((← P.rows) ++ (← concatRows ps))

/-- The loop asserting strictly increasing positive values (ThermalScattering.cpp:47-51,
80-84). -/
noncomputable def assertIncreasing : ℝ → List ℝ → Res Unit
  | _, [] => .ok ()
  | prev, x :: xs => if prev < x then assertIncreasing x xs else .error .assertFail

/-- One-past-the-last row index of each partition (ThermalScattering.cpp:56-62, 89-95). -/
def partitionEnds : ℕ → List Partition → Res (List ℕ)
  | _, [] => .ok []
  | currentEnd, P :: ps => do
    let r ← P.rows
    .ok ((currentEnd + r.length) :: (← partitionEnds (currentEnd + r.length) ps))

/-- `ThermalScattering` constructor (ThermalScattering.cpp:25-99, ThermalScattering.hpp:125-126)
from the data read from the files.  `back()` of an empty axis is undefined. -/
noncomputable def create (majorant xsT xsS xsE : DataSet)
    (betaPartitions alphaPartitions : List Partition) (betaCutoff alphaCutoff awr : ℝ) :
    Res ThermalScattering := noexcept do
  let majorant ← majorant.toContinuousMap
  let es ← concatRows betaPartitions
  assertIncreasing 0 es
  let betaEnds ← partitionEnds 0 betaPartitions
  let betas ← concatRows alphaPartitions
  assertIncreasing 0 betas
  let alphaEnds ← partitionEnds 0 alphaPartitions
  let cutoffAxis ← xsE.getAxis 0
  match cutoffAxis.getLast? with
  | none => .error .ub
  | some cutoffEnergy =>
    .ok ⟨majorant, xsT, xsS, xsE, betaPartitions, es, betaEnds, alphaPartitions, betas,
      alphaEnds, betaCutoff, alphaCutoff, awr, cutoffEnergy⟩

/-- `ThermalScattering::IsValid` (ThermalScattering.cpp:101-104). -/
noncomputable def isValid (s : ThermalScattering) (p : Particle) : Res Bool := noexcept do
  let e ← p.energy.getContinuous
  .ok (p.type == .neutron && decide (e < s.cutoffEnergy))

/-- `ThermalScattering::GetMajorant` (ThermalScattering.cpp:106-109). -/
noncomputable def getMajorant (s : ThermalScattering) (p : Particle) : Res ℝ := noexcept do
  s.majorant.at' (← p.energy.getContinuous)

/-- `ThermalScattering::EvaluateInelastic` (ThermalScattering.cpp:260-269). -/
noncomputable def evaluateInelastic (s : ThermalScattering) (eIndex tIndex : ℕ) : Res ℝ :=
  noexcept do
  let orders ← s.scatterXsS.getAxis 0
  sumOrders (fun order => do
    let a ← s.scatterXsS.at' [order]
    let b ← s.scatterXsE.at' [eIndex, order]
    let c ← s.scatterXsT.at' [tIndex, order]
    .ok (a * b * c)) orders.length

/-- `ThermalScattering::GetTotal` (ThermalScattering.cpp:111-157) as a function of energy and
temperature. -/
noncomputable def totalAt (s : ThermalScattering) (e t : ℝ) : Res ℝ := do
  let es ← s.scatterXsE.getAxis 0
  let eHi := upperIdx es e
  if eHi = es.length then .error .assertFail
  else
    let eLo := if eHi = 0 then eHi else eHi - 1
    let ts ← s.scatterXsT.getAxis 0
    let tHi := tempHi ts t
    let tLo := tempLo ts t
    let xsLoLo ← s.evaluateInelastic eLo tLo
    let xsLoHi ← s.evaluateInelastic eLo tHi
    let xsHiLo ← s.evaluateInelastic eHi tLo
    let xsHiHi ← s.evaluateInelastic eHi tHi
    let eLoV ← vecAt es eLo
    let eHiV ← vecAt es eHi
    let rE := if eHi = 0 then 1 else (e - eLoV) / (eHiV - eLoV)
    let xsTLo := xsLoLo + rE * (xsHiLo - xsLoLo)
    let xsTHi := xsLoHi + rE * (xsHiHi - xsLoHi)
    let tLoV ← vecAt ts tLo
    let tHiV ← vecAt ts tHi
    let rT := if tHi = 0 then 1
              else if upperIdx ts t = ts.length then 0
              else (t - tLoV) / (tHiV - tLoV)
    .ok (xsTLo + rT * (xsTHi - xsTLo))

/-- `ThermalScattering::GetTotal` (ThermalScattering.cpp:111-157). -/
noncomputable def getTotal (s : ThermalScattering) (p : Particle) : Res ℝ := noexcept do
  let e ← p.energy.getContinuous
  let t ← p.temperatureAt
  s.totalAt e t

/-- Partition index and local row index of a global row index (ThermalScattering.cpp:292-300,
381-390). -/
def locate (ends : List ℕ) (globalIndex : ℕ) : Res (ℕ × ℕ) :=
  let P := upperIdxNat ends globalIndex
  if P = 0 then .ok (P, globalIndex)
  else do
    let e ← vecAt ends (P - 1)
    .ok (P, globalIndex - e)

/-- One value of the tabulated inverse distribution function, extended by `lo` below the first
and `hi` above the last cumulative probability, interpolated between its neighbours
(ThermalScattering.cpp:307-326, 431-448). -/
noncomputable def inverseCdf (P : Partition) (row : ℕ) (t lo hi F : ℝ) : Res ℝ := do
  let fs ← P.cdfModes.getAxis 0
  let i := upperIdx fs F
  let fLo ← if i ≠ 0 then vecAt fs (i - 1) else .ok 0
  let fHi ← if i ≠ fs.length then vecAt fs i else .ok 1
  let vLo ← if i ≠ 0 then P.evaluate (i - 1) row t else .ok lo
  let vHi ← if i ≠ fs.length then P.evaluate i row t else .ok hi
  if fHi - fLo = 0 then .error .nan
  else .ok (vLo + (F - fLo) / (fHi - fLo) * (vHi - vLo))

/-- The resampling loop of `SampleBeta` (ThermalScattering.cpp:302-337), `n` rounds left.
`boltzmann * T = 0` gives infinite bounds in the code and is not modelled further (outcome
`nan`). -/
noncomputable def betaLoop (s : ThermalScattering) (P : Partition) (row : ℕ) (eS e t : ℝ) :
    ℕ → Particle → Res (ℝ × Particle)
  | 0, _ => .error .runtimeError
  | n + 1, p => do
    let (F, p) := p.sample
    if boltzmann * t = 0 then .error .nan
    else
      let b ← inverseCdf P row t (-eS / (boltzmann * t)) s.betaCutoff F
      if -e / (boltzmann * t) ≤ b then .ok (b, p)
      else betaLoop s P row eS e t n p

/-- Interpolation factor of `SampleBeta` (ThermalScattering.cpp:283-285). -/
noncomputable def betaFactor (s : ThermalScattering) (e : ℝ) : Res ℝ :=
  let hi := upperIdx s.es e
  if hi ≠ 0 then do
    let a ← vecAt s.es (hi - 1)
    let b ← vecAt s.es hi
    .ok ((e - a) / (b - a))
  else .ok 1

/-- `r <= u ? hi - 1 : hi` in `size_t` (ThermalScattering.cpp:286-287, 366-367); for `hi = 0`
the difference wraps around and the following `at` throws. -/
noncomputable def pickIndex (r u : ℝ) (hi : ℕ) : Res ℕ :=
  if r ≤ u then (if hi = 0 then .error .outOfRange else .ok (hi - 1)) else .ok hi

/-- Index of the incident energy whose distribution is used, given the uniform number `u`
(ThermalScattering.cpp:274-287). -/
noncomputable def betaIndex (s : ThermalScattering) (e u : ℝ) : Res ℕ :=
  let hi := upperIdx s.es e
  if hi = s.es.length then .error .assertFail
  else do pickIndex (← s.betaFactor e) u hi

/-- `ThermalScattering::SampleBeta` (ThermalScattering.cpp:271-338). -/
noncomputable def sampleBeta (s : ThermalScattering) (p : Particle) (e t : ℝ) :
    Res (ℝ × Particle) := do
  let (u, p) := p.sample
  let i ← s.betaIndex e u
  let eS ← vecAt s.es i
  let (pi, row) ← locate s.betaEnds i
  let P ← vecAt s.betaPartitions pi
  s.betaLoop P row eS e t betaResampleLimit p

/-- `sgn_b` (ThermalScattering.cpp:346). -/
noncomputable def sgn (b : ℝ) : ℝ := (if 0 < b then 1 else 0) - (if b < 0 then 1 else 0)

/-- `snap_to_lower` (ThermalScattering.cpp:355-357); `betas.at` is evaluated only for non-zero
`b`. -/
noncomputable def snapToLower (s : ThermalScattering) (b e t : ℝ) : Res Bool :=
  let hi := upperIdx s.betas |b|
  if sgn b = 1 then do
    let bHi ← vecAt s.betas hi
    .ok (decide (s.betaCutoff ≤ bHi))
  else if sgn b = -1 then do
    let bHi ← vecAt s.betas hi
    .ok (decide (-bHi < -e / (boltzmann * t)))
  else .ok false

/-- The interpolation factor of `SampleAlpha` (ThermalScattering.cpp:361-365), with the
parentheses where the code has them. -/
noncomputable def alphaFactor (s : ThermalScattering) (b e t : ℝ) : Res ℝ := do
  let hi := upperIdx s.betas |b|
  if ← s.snapToLower b e t then .ok 0
  else if hi = 0 then .ok 1
  else
    let lo ← vecAt s.betas (hi - 1)
    let up ← vecAt s.betas hi
    .ok (|b| - lo / (up - lo))

/-- Index of the energy transfer whose distribution is used, given the uniform number `u`
(ThermalScattering.cpp:348-367). -/
noncomputable def alphaIndex (s : ThermalScattering) (b e t u : ℝ) : Res ℕ := do
  pickIndex (← s.alphaFactor b e t) u (upperIdx s.betas |b|)

/-- Smallest momentum transfer (ThermalScattering.cpp:371-375, 453-454): `std::sqrt` of a
negative number is not a number. -/
noncomputable def alphaMin (s : ThermalScattering) (b e t : ℝ) : Res ℝ :=
  if e < 0 ∨ e + b * boltzmann * t < 0 ∨ s.awr * boltzmann * t = 0 then .error .nan
  else .ok ((Real.sqrt e - Real.sqrt (e + b * boltzmann * t)) ^ 2 / (s.awr * boltzmann * t))

/-- Largest momentum transfer (ThermalScattering.cpp:371-376, 453-455). -/
noncomputable def alphaMax (s : ThermalScattering) (b e t : ℝ) : Res ℝ :=
  if e < 0 ∨ e + b * boltzmann * t < 0 ∨ s.awr * boltzmann * t = 0 then .error .nan
  else .ok ((Real.sqrt e + Real.sqrt (e + b * boltzmann * t)) ^ 2 / (s.awr * boltzmann * t))

/-- The `std::upper_bound` of `find_cdf` (ThermalScattering.cpp:398-406), as libstdc++ implements
it: the `len` cumulative probabilities from index `first` on are bisected for the first whose value
is greater than `a`. -/
noncomputable def findCdfIndex (P : Partition) (row : ℕ) (t a : ℝ) (len first : ℕ) : Res ℕ :=
  if len = 0 then .ok first
  else do
    let v ← P.evaluate (first + len / 2) row t
    if a < v then findCdfIndex P row t a (len / 2) first
    else findCdfIndex P row t a (len - len / 2 - 1) (first + len / 2 + 1)
termination_by len

/-- `find_cdf` (ThermalScattering.cpp:395-418). -/
noncomputable def findCdf (s : ThermalScattering) (P : Partition) (row : ℕ) (t a : ℝ) :
    Res ℝ := do
  let fs ← P.cdfModes.getAxis 0
  let i ← findCdfIndex P row t a fs.length 0
  let fLo ← if i ≠ 0 then vecAt fs (i - 1) else .ok 0
  let fHi ← if i ≠ fs.length then vecAt fs i else .ok 1
  let aLo ← if i ≠ 0 then P.evaluate (i - 1) row t else .ok 0
  let aHi ← if i ≠ fs.length then P.evaluate i row t else .ok s.alphaCutoff
  if aHi - aLo = 0 then .error .nan
  else .ok (fLo + (a - aLo) * (fHi - fLo) / (aHi - aLo))

/-- The resampling loop of `SampleAlpha` (ThermalScattering.cpp:424-462), `n` rounds left. -/
noncomputable def alphaLoop (s : ThermalScattering) (P : Partition) (row : ℕ)
    (b bsMin bsMax fMin fMax e t : ℝ) : ℕ → Particle → Res (ℝ × Particle)
  | 0, _ => .error .runtimeError
  | n + 1, p => do
    let (u, p) := p.sample
    let a ← inverseCdf P row t 0 s.alphaCutoff (fMin + u * (fMax - fMin))
    if bsMin < a ∧ a < bsMax then
      let bMin ← s.alphaMin b e t
      let bMax ← s.alphaMax b e t
      .ok (bMin + (a - bsMin) * (bMax - bMin) / (bsMax - bsMin), p)
    else alphaLoop s P row b bsMin bsMax fMin fMax e t n p

/-- `ThermalScattering::SampleAlpha` (ThermalScattering.cpp:340-463). -/
noncomputable def sampleAlpha (s : ThermalScattering) (p : Particle) (b e t : ℝ) :
    Res (ℝ × Particle) := do
  let (u, p) := p.sample
  let i ← s.alphaIndex b e t u
  let bAbs ← vecAt s.betas i
  let bS := sgn b * bAbs
  let bsMin ← s.alphaMin bS e t
  let bsMax ← s.alphaMax bS e t
  if ¬ bsMax < s.alphaCutoff then .error .assertFail
  else
    let (pi, row) ← locate s.alphaEnds i
    let P ← vecAt s.alphaPartitions pi
    let fMin ← s.findCdf P row t bsMin
    let fMax ← s.findCdf P row t bsMax
    s.alphaLoop P row b bsMin bsMax fMin fMax e t alphaResampleLimit p

/-- Outgoing energy (ThermalScattering.cpp:167). -/
noncomputable def outgoingEnergy (e t beta : ℝ) : ℝ := e + beta * boltzmann * t

/-- Scattering cosine (ThermalScattering.cpp:168-169): not a number when an energy is zero or
their product negative. -/
noncomputable def outgoingCosine (s : ThermalScattering) (e t beta alpha : ℝ) : Res ℝ :=
  if e * outgoingEnergy e t beta ≤ 0 then .error .nan
  else .ok ((e + outgoingEnergy e t beta - alpha * s.awr * boltzmann * t) /
    (2 * Real.sqrt (e * outgoingEnergy e t beta)))

/-- The sampled outgoing energy and cosine (ThermalScattering.cpp:161-169). -/
noncomputable def sampleOutgoing (s : ThermalScattering) (p : Particle) :
    Res (ℝ × ℝ × Particle) := do
  let e ← p.energy.getContinuous
  let t ← p.temperatureAt
  let (beta, p) ← s.sampleBeta p e t
  let (alpha, p) ← s.sampleAlpha p beta e t
  let mu ← s.outgoingCosine e t beta alpha
  .ok (mu, outgoingEnergy e t beta, p)

/-- `ThermalScattering::Scatter` (ThermalScattering.cpp:159-171). -/
noncomputable def scatter (s : ThermalScattering) (p : Particle) : Res Particle := do
  let (mu, e', p) ← s.sampleOutgoing p
  p.scatter mu (.continuous e')

end ThermalScattering
end Minimc
