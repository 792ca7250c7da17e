# Formal model of minimc: design

The subject is the C++ code in `/repo/src` (a Monte Carlo neutron/photon
transport code).  The model is written in Lean 4 with Mathlib, in `lean/Verif`.

## Layout

* `Verif/Model/*.lean`: the model, function by function.  Each definition
  cites the file and lines it models and says where it simplifies.
* `Verif/Spec/*.lean`: small specifications that do not use the model's
  helper functions (geometry of surfaces, "number of boundaries not above v",
  prefix sums, row-major offset, schedules, and so on).
* `Verif/Lemmas/*.lean`: helper lemmas.
* `Verif/Props/*.lean`: the property theorems, each with a concrete
  non-trivial instance beside it.  Theorem names start with the property id
  (`C04_...`).  A theorem that covers only part of its property ends in
  `_partial`; a theorem that refutes a property with a concrete witness ends in
  `_violated`.

## Trusted base

* The Lean 4.33 kernel and the axioms `propext`, `Classical.choice`,
  `Quot.sound` (every theorem depends on at most these three; no other axiom is
  declared, nothing is `sorry`, no `native_decide`, no `bv_decide`).
* The reading of the C++ source into Lean definitions (by hand, cited).
* `Real = double` (BasicTypes.hpp) is modelled by the real numbers `ℝ`:
  rounding, overflow and NaN propagation are not modelled, except in
  `Model/Rounded`, `Model/RoundedScore` (C72 to C76, C89, C112), `Model/RoundedDirection` (C88) and `Model/RoundedTable` (C113), where every operation is followed by rounding to
  a nearest double.  There the exponent is not bounded (no overflow, no
  underflow, except in `Model/Underflow`, C116), operations are taken not to be fused or reordered by the compiler,
  and ties may be decided in any way unless a theorem names `double` (ties to
  even).  Without rounding these functions are those of the rest of the model
  (`Props/RoundedExact`).  Positive infinity, which the code uses as "no crossing",
  is modelled explicitly (`⊤ : WithTop ℝ`).
  Places where the code would produce a NaN (`0/0`, `sqrt` of a negative,
  `log` of a negative) or convert one to an integer are explicit outcomes of
  the model or explicit hypotheses of theorems.
* The standard library as implemented by libstdc++: `std::minstd_rand`,
  `std::generate_canonical` (two draws per double), `uniform_real_distribution`,
  `exponential_distribution`, `bernoulli_distribution`, the bisection of
  `std::upper_bound` (`Model/Search`), `std::map` (`upper_bound`, `emplace`),
  `std::list::splice`, `std::atomic` increments being
  indivisible.
* Undefined behaviour, escaping exceptions from `noexcept` functions and
  failed assertions are separate outcomes of the model (`Err.ub`,
  `Err.terminate`, `Err.assertFail`), never assumed away.

## Not modelled

* XML syntax (pugixml and Xerces as parsers, a parameter of `Main`) and the
  layout of HDF5 files.  The model of the input starts from a tree of
  elements, attributes and text (`Model/Xml`), and from a function giving the
  content of data files; the schema is written out as a predicate on trees
  (`Model/Schema`), the reading of the tree as functions (`Model/Input`).
  Theorems about single parts of the code take what the schema guarantees as
  hypotheses (for example: fractions are positive); C58 proves that the
  driver made from any document has the described parts.
* The number that a decimal literal denotes is a parameter (`Env.real`), used
  both by the schema and by the program; only C58's group numbers need that
  positive numbers have no minus sign (`Unsigned`).  Infinities and NaN, which
  `xs:double` would admit, are not modelled.  Integers are read character by
  character (`Text`).
* Floating point rounding outside C72 to C76, C88 and C89 (see above), progress printing.  Printed numbers are
  rounded from real numbers.
* The file system is a map from paths to contents with a set of writable paths
  (`Files`): links, permissions that change and full disks are left out.
* Wrap-around of `size_t` counters (history numbers, bin strides).
* Memory reclamation (`shared_ptr`, `unique_ptr`): objects live as long as they
  are used.
* `std::map` keyed by pointers iterates in address order; the address order is a
  parameter of the model (theorems quantify over all orders).

* Real arithmetic also hides rounding that depends on the order of summation
  (for example scores merged in a different order by different threads).

## Properties: what is modelled and how it is proved

`MANIFEST.json` lists the theorems and the status of each property.

| Id | Modelled code | Method |
|----|---------------|--------|
| C01 | Point/Direction arithmetic, Normalize | algebra over ℝ |
| C02 | Direction(RNG&) on the exact generator | algebra, cos²+sin²=1; distribution: projection of the sphere on the disk, rotation of the plane |
| C03 | Direction(d, mu, phi) incl. axis choice and implicit renormalisation | orthonormal frame algebra; azimuth: translation of a periodic set |
| C04 | SolveQuadratic, Distance of each surface | root analysis of quadratics; refinement to an implicit equation of the surface |
| C05 | same | sign analysis |
| C06 | Contains vs Distance | sign constancy between roots |
| C07 | Cell::NearestSurface | induction on the surface list |
| C08 | Cell::Contains, World::FindCellContaining | induction on the cell list |
| C09 | both transport loops | invariant over the step relation |
| C10, C11 | all four bin kinds | floor arithmetic |
| C100 | how matter is written down | choices by weight as a recursion along the list of nuclides: pieces with the same value next to each other can be merged, and scaling all weights changes nothing; for other orders the mean of any function of a collision's score is a sum sorted by data |
| C101 | orientation, tracking method and writing of gases | same distribution by induction over rounds: free flights by their length, nuclides sorted by reactions, collisions with moving atoms as a mean over velocities that is turned as a whole |
| C102 | joint distribution of all results | scores are natural numbers, so a sum of them with logarithms of different primes as weights tells them apart; that sum is one score, to which the arguments of C99, C100 and C101 apply |
| C103 | statistics of a run with gases | as C79, with the transport equation of C81; the square of the score satisfies an equation of its own, and that is bounded by induction over rounds |
| C104 | other writing of gas data, same seed | as C100, with tables compared by their values and the game of C81 |
| C105 | gases in which neutrons die out | as C82: a round of the game is linear in what follows, also through the rejection loop as a supremum (`Lemmas/GasSubcritical`), induction on rounds with crossings ahead + 1 + k(K+1)/(1-k), sandwich for uniqueness; the bank follows the flights (`Lemmas/GasFlightsFollow`) |
| C106 | printed values where neutrons die out | bounds of finite tables, C82/C105 for the bounded mean, C79/C103 for the mean square, law of large numbers and central limit theorem (`Lemmas/Statistics`); the printed tables by C79_result and C101_printed |
| C107 | other estimators, finer bins | what is printed as a function of the histories (C32, C34, C35), histories do not depend on estimators; the bin of a value is the number of boundaries not above it; a standard error is a seminorm of the scores |
| C108 | units and norms of group data | thresholds of every selection scale with the weights, so that the same random number selects the same nuclide, reaction and group (as for C100, C102) |
| C109 | divided groups | weights of the parts of a group lie next to each other and add up to its weight, so that the same random number selects a part of the group that it would select; induction over rounds, for a neutron and all its descendants |
| C110 | groups in any order | the mean of any function of what a choice leads to is a sum over weights, which can be taken block by block; choices of nuclides, reactions, groups, directions and children one after the other; induction over rounds and a limit |
| C111 | proportions in the input | the fractions are divided by their sum and vectors by their length; the common factor cancels; all else is created from equal nodes |
| C112 | cylinders in double precision | the quadratic equation with any leading coefficient: its exact solution is within five roundings or solves a nearby equation; errors of the coefficients; the square of the distance from the axis along the flight is the equation plus errors |
| C113 | tables and flights in double precision | the slope times the length is within five roundings, and not more than the difference of entries; the uniform number is away from zero and one, so that the logarithm of the rounded argument is close |
| C114 | whether tables in double precision keep between their entries | rounding is monotone and keeps signs, so that the sum stays on one side of the entry at the lower key; the witness is evaluated with ties to even, operation by operation |
| C115 | flights almost parallel to the axis of a cylinder | a direction of nearly unit length that is not within the angle has a first component below one, see C112; the witness is evaluated operation by operation, for every rounding to nearest |
| C116 | directions and underflow | above `2^-1022` rounding is that without underflow; squares, sums, root and quotients are bounded away from there one by one |
| C12 | ParticleBins, ComputeStrides | arithmetic |
| C13 | bin constructors | iff by case analysis / induction |
| C14 | ContinuousMap::at | induction on the sorted list |
| C15 | HDF5DataSet strides, at, ToContinuousMap | induction on the axes |
| C16–C18 | Multigroup table constructors | list arithmetic |
| C19–C20 | Multigroup::Interact, Scatter | prefix-sum selection specification (`Spec/Select`); Lebesgue measure of the selecting set |
| C21 | yield sampling | floor arithmetic; interval integral |
| C22 | Multigroup::Fission, ContinuousFission, BankSecondaries | induction on the yield |
| C23–C24 | Material, SampleNuclide | sums, prefix-sum selection |
| C25–C27 | minstd_rand, generate_canonical, seeding | modular arithmetic, primality of 2^31-1, order of 48271 |
| C28 | exponential sampling | Lebesgue measure of a preimage |
| C29 | transport loops | step relation (`Spec/Transport`); induction on steps |
| C30 | bank processing | induction over trees |
| C31–C33 | FixedSource::Solve with interleaved workers | labelled transition system, invariants |
| C34–C37 | Scorable/Estimator/proxies/sets | induction on the score sequence; Cauchy–Schwarz |
| C38–C39 | ScalarField, TransportMethod::Create | algebra |
| C40–C42 | Continuous totals and majorants, free gas adjustment | derivative sign of the adjustment, case analysis |
| C43 | free-gas kinematics | vector algebra |
| C44–C47 | ThermalScattering | list search lemmas, algebra |
| C48 | World construction from a parsed document | induction on cells |
| C49 | KEigenvalue | stub; bank hand-out as transition system |
| C50 | Perturbation, Sensitivity | derivative of the log-likelihood (`Spec/Likelihood`) |
| C51 | Source | algebra, measure |
| C52 | address order | two placements of the same document compared (`Spec/Placement`) |
| C53 | Continuous::Interact | selection specification, geometric series over independent uniforms |
| C54 | delta tracking loop in one cell | thinning: product measure over independent uniforms, series of gamma integrals |
| C55 | outcomes of Transport | progress and preservation over the step relation |
| C56 | random numbers of secondaries | closed form of the generator states, full period |
| C57 | estimator and perturbation factories | one relation between node and object (`Spec/Estimators`), induction on the nodes |
| C58 | schema, all readers, driver constructors | relation between document and objects (`Spec/Input`), case analysis of every reader |
| C59 | free gas adjustment, scatter cross section | mean over speed and direction in closed form (`Spec/Maxwell`), scaling to unit slowness |
| C60, C61 | energy transfer sampling, momentum transfer sampling | inverse of a piecewise linear distribution function, Lebesgue measure |
| C62 | rejection loop for the target velocity | change of variables (exponential, polar), Tonelli, geometric series (`Spec/Target`) |
| C63 | acceptance of tentative collisions | one step of delta tracking spelled out |
| C64 | uniqueness constraints of the schema; Create followed by Solve | C57, C58 and C32 combined |
| C65 | histories, bank of secondaries, Solve | induction over the bank; C55, C09, C10 and C32 combined (`Spec/Run`) |
| C66 | the same for continuous energy | outcomes of each step (`Spec/ContinuousRun`, `Spec/ThermalRun`), C24, C40 and C53 for the choices, free gas kinematics, C84 for thermal data |
| C67 | all `to_string` functions, `operator<<` of numbers | a reader written independently (`Spec/Output`), list lemmas, decimal digits |
| C68 | `main` | case analysis of the runs (`Main`), C67, C58, C64 |
| C69 | histories in absorbers | distance along the ray as a measure of progress (`Spec/Absorber`), C55, C65, C68 |
| C70 | attenuation along a straight way | induction over the parts of the way (`Spec/Attenuation`), product of the probabilities of C28, C06 for the line integral, C69 |
| C71 | current estimator in an absorber | C69, C70 on each beginning of the way; strong law of large numbers |
| C72 | uniform numbers in double precision | `Model/Double` (numbers with 53 digits, nearest rounding), `Model/Rounded`; error bounds through the four roundings; which states lead to the extreme draws (inverse of the multiplier) |
| C73 | selections in double precision | numbers differing by at most k roundings (`Near`) are closed under sums, products, quotients; induction over the loops; C72 |
| C74 | equal bins in double precision | `Near` for the coordinate in units of the width, monotonicity of rounding |
| C75 | crossing planes in double precision | `Near` for distance and step; a coordinate of at least 2^5 is a multiple of 2^-47, so that the nudge is lost |
| C76 | scores in double precision | `Model/RoundedScore`; naturals up to 2^53 are doubles, so that every partial sum is exact; Cauchy-Schwarz and monotonicity of rounding for the number under the root; `rnd = id` gives the exact model (`C76_exact_*`) |
| C77 | the transport equation | the walk as a function of a sequence of numbers (`Spec.walkScore`), which the program follows step by step (`Lemmas/WalkFollows`); measurability of geometry and bins (`Lemmas/Walk`, `WalkBins`); means of one flight, one choice and one direction (`WalkMean`, `WalkCollision`, `WalkRounds`); monotone convergence (`WalkLimit`); strong law |
| C78 | the transport equation with fission | the branching walk as a function of a supply of numbers (`Spec.chainScore`), instantiated with generators (`Lemmas/ChainFollows`: the program follows it, bank included) and with independent sequences split in two at each birth (`Lemmas/ChainMean`, `ChainLimit`); monotone convergence; strong law |
| C79 | what the printed error means | the history as a function of a supply of numbers including the source (`Spec.played`); second moment of the branching walk by induction on rounds (`Lemmas/ChainSquare`, `ChainVariance`); strong law, central limit theorem, convergence of the estimated standard deviation (`Lemmas/Statistics`) |
| C80 | equilibrium of free gas collisions | change of variables to centre of mass and relative velocity in six dimensions (`Lemmas/Elastic`), volume in spherical coordinates (`Lemmas/Space`), law of the rejection loop with what follows it (`Lemmas/Leaving`, `CollisionLaw`), the extra turn about the old direction averages out because the gas has no preferred azimuth (`Lemmas/Equilibrium`), exchange of before and after at fixed centre of mass (`Lemmas/Balance`), program against specification number by number (`Props/Equilibrium`) |
| C81 | the transport equation of warm gases | the game as a function of a supply of numbers (`Spec.gasScore`), the rejection loop and its continuation integrated in closed form (`Lemmas/GasMean`, with the law of C80), one round (`Lemmas/GasRounds`), limit of many rounds (`Lemmas/GasLimit`), the program follows the game number by number, bank included (`Lemmas/GasFollows`), scores of bins (`Lemmas/GasBins`); strong law |
| C82 | problems in which neutrons die out | a round of the game is linear in what follows (`Lemmas/Subcritical`), crossings ahead on a line are finitely many and each crossing uses one up (`Lemmas/Crossings`: roots of polynomials, the nudge moves past the root), induction on rounds with the bound crossings ahead + 1 + k(K+1)/(1-k); `s ≤ s²` for whole numbers turns a vanishing sum into extinction; uniqueness by sandwiching between the score of n rounds and that plus B times the neutrons still flying; the bank follows the flights (`Lemmas/FlightsFollow`) |
| C83 | Perturbation, Sensitivity in absorbers | induction over the parts of the way (`uncollided_credits`, using C50 for each step), mean by C70, strong law of large numbers; derivative of the sum of exponentials in `Spec/SensitivityWay`, identified with C71 in the changed world |
| C84 | ThermalScattering | tables as functions (`Tabulates`, `Curve.At`) in `Spec/ThermalLaw`; the loops followed by induction (`betaLoop_cases`, `sampleAlpha_cases`); probabilities by `uniforms_firstAt`; violation with a concrete table and seed |
| C85 | `std::upper_bound` in Bins and ThermalScattering | strong induction on the number of entries left (`upperBound_spec`) |
| C86 | all model functions used by a history | one lemma per function that it does not end in `ub` (`defined_*`), composed along the call graph; exact condition for `transport` |
| C87 | `GetCrossSection` of ContinuousScatter | bounds of the adjustment from signs of derivatives: erf is between chord and tangent, y·adj(y) grows, adj at the cutoff (`mul_adj_mono`, `adj_fast`) |
| C88 | constructors of `Direction` with rounded arithmetic | first-order error analysis of vectors (`normalize_spec`, `cross_spec`, `rotated_spec`); exactness of single doubles (`nearest_eq`) for the witness |
| C89 | `SolveQuadratic` and spheres with rounded arithmetic | the computed solution is near (`Near 5`) the exact solution of the equation with the computed coefficients, up to an error of the discriminant; the coefficients are near the exact ones at the scale of the larger of radius and distance |
| C90 | seeds of histories | arithmetic modulo 2^31 - 1 (`C90_states`); twelve states in arithmetic progression counted by their first member above a bound (`count_ge`) |
| C91 | flights in a temperature gradient | renewal equation for the chance to pass `t` from distance `b`, as an integral equation over the end of the first tentative flight (`chance_equation`); comparison principle by contraction (`nonneg_of_mean`) |
| C92 | balance of neutrons | induction over the forest of a history (C30) with the lives of its particles (C29); every collision either is a fission or leaves the bank alone (`step_banks`) |
| C93 | runs add up | each run as if sequential (C32), tallies as sums over histories, histories depend on seed and index only through their sum |
| C94 | runs with different seeds | shifted sums over the same histories (`sum_window`), crossings bounded by leaks (C92) |
| C95 | moved problems | equivariance of every function of the model from `Surface::Distance` to the merged estimators; witness in double precision |
| C96 | starts on surfaces | sign of the implicit equation along the flight; slab with a source on its face, printed means |
| C97 | scatter over seeds | counting for an additive walk modulo 2^31 - 1; printed mean and standard deviation of a lamp in an empty slab |
| C98 | order of the input | permutations up to an equivalence of elements; placement of the objects at the same addresses; lookups by name and by point in permuted lists |
| C99 | how the problem is turned | equality of distributions, propagated through every number that is drawn: choices, directions (the mean over the sphere is invariant), the numbers of descendants (independent of those after them), and limits over rounds; the two methods differ on flights of one length only |

## Where the code deviates

For each, the negation of the property is proved with a witness (theorems
ending in `_violated`), and what still holds is proved in theorems ending in
`_partial` or in theorems with the needed hypothesis.

| Property | Deviation | Source |
|----------|-----------|--------|
| C06, C08, C09 | `CylinderX::Contains` compares the distance from the axis with the squared radius | CSGSurface.cpp |
| C06 | a start exactly on a surface has no well defined side | CSGSurface.cpp |
| C10 | a logarithmic grid and a non-positive value: conversion of a non-number or negative number to an index | Bins.cpp |
| C11 | a logarithmic grid with base below 1 is accepted but decreasing | Bins.cpp |
| C22 | an all-zero emission spectrum silently drops the sampled secondaries | Multigroup.cpp |
| C27 | seeds that agree modulo 2^31-1 (and 0 and 1) give the same stream | FixedSource.cpp, Source.cpp |
| C33 | the history counter is not reset, so a second Solve runs nothing | FixedSource.cpp |
| C36 | a sensitivity missing on the other side of a merge is dereferenced unchecked | Estimator.cpp |
| C38 | bounds of a linear field are taken from the input unchecked | ScalarField.cpp |
| C40 | a nuclide total smaller than its reactions is accepted, so that the total can exceed the majorant | Continuous.cpp |
| C41 | the temperature tolerance test lacks an absolute value | ContinuousEvaluation.cpp |
| C87 | the same test: in material colder than the table the hot cross section is used | ContinuousEvaluation.cpp |
| C88 | the scattering cosine is a rounded scalar product of two unit vectors and is not limited to 1; the direction is then not a number | ContinuousReaction.cpp |
| C89 | at radii of 64 and above the nudge into a sphere can be lost; the particle is then on the sphere, counts as outside and sees only the far side | Constants.hpp, TransportMethod.cpp, CSGSurface.cpp |
| C90 | consecutive histories get consecutive seeds of a multiplicative generator, so that their numbers differ by constants | FixedSource.cpp, Source.cpp, BasicTypes.hpp |
| C91 | in a temperature gradient delta tracking flies too far towards hotter places and not far enough towards colder ones, by a factor without bound | TransportMethod.cpp |
| C94 | runs of N histories with seeds s and s + k have N - k histories in common; repeating a run with the next seed changes fractions by at most 1 / N | FixedSource.cpp |
| C95 | a neutron leaves a slab between planes at 0 and 2, and stays in the same slab between planes at 64 and 66 | TransportMethod.cpp, Constants.hpp |
| C96 | neutrons that start on a surface and fly to its inside are followed through the wrong cell; with a source on the lower face of a slab nothing leaves through that face, with a source on the upper face the program dereferences a null pointer | CSGSurface.cpp, Cell.cpp |
| C97 | first direction components of consecutive histories are equally spaced on a circle, so that for some numbers of histories the result hardly depends on the seed and is 400 times as accurate as printed | FixedSource.cpp (seed + history) |
| C98 | where cells overlap the first one listed is used, and of two nuclides with one name the first one listed; neither is reported | World.cpp:26-37, 118-145 |
| C44 | at or above the highest temperature the second highest one is used | ThermalScattering.cpp |
| C46 | a misplaced parenthesis in the interpolation weight; lookups below and beyond the grid fail | ThermalScattering.cpp |
| C47 | one temperature, or a request below the lowest: 0/0; above the highest: extrapolation | ThermalScattering.cpp |
| C49 | KEigenvalue::Solve is a stub | KEigenvalue.cpp |
| C50 | the effect added per flight lacks number density and fraction, and is added at surfaces too; with delta tracking it has the majorant in place of the cross section, for real and virtual collisions alike | Perturbation.cpp |
| C83 | the average score of a sensitivity in an absorber does not tend to the derivative of the current; for short ways it even has the wrong sign | Perturbation.cpp, Sensitivity.cpp |
| C84 | a neutron whose energy is exactly a tabulated energy transfer is lost with an exception when the momentum distribution of that transfer is chosen for it | ThermalScattering.cpp |
| C52 | sampling order of nuclides and ties between surfaces depend on addresses | Material.cpp, Cell.cpp |
| C53 | a total below the sum biases the reactions; with no reaction the loop never ends | Continuous.cpp |
| C55 | a start in a void or outside every cell | TransportMethod.cpp, World.cpp |
| C56 | secondaries continue the generator of the parent, so siblings share random numbers | Particle.cpp |
| C58 | `noexcept` constructors turn input errors (bins, perturbations, nuclides) into termination; zero directions; `type` of the source particle optional; source group read from a positive real number, so that 0.5 is group 0 | Bins.cpp, Estimator.cpp, Perturbation.cpp, Source.cpp, minimc_basictypes.xsd |
| C63 | the acceptance ratio is evaluated before the flight, not at the tentative collision | TransportMethod.cpp |
| C64 | `unique-nuclide-name` selects the children of `nuclides`, which have no names, instead of the nuclides | minimc.xsd |
| C65 | a source group of 0.5 passes the schema, is read as group 0 and ends every history | minimc_basictypes.xsd, Source.cpp, Multigroup.cpp |
| C68 | the state of the output stream is never tested; the output path may be the input path; an eigenvalue document gives zeros and success | minimc.cpp, KEigenvalue.cpp |
| C114 | interpolation multiplies a rounded slope, so that the value next to the upper key can pass the entry there; a table without negative entries can give a negative value | ContinuousMap.hpp |
| C115 | for directions whose first component is rounded to one, the leading coefficient of the quadratic equation is zero, and a cylinder that is left after its axis has been passed is not seen | CSGSurface.cpp |
| C116 | the components of a direction are squared without scaling, so that vectors shorter than about 2^-500 give no direction or one whose length is not one | Point.cpp |
| C74 | a value next to an edge may be rounded into the neighbouring bin | Bins.cpp |
| C75 | the nudge is an absolute distance of 10 * 2^-52 and is lost at coordinates of 64 and above; far along a cylinder the distance from the axis is lost | Constants.hpp, TransportMethod.cpp, CSGSurface.cpp |
| C76 | the order in which workers take histories shows in the last bits of sensitivities; `square_score - score * score / total_weight` can round to a negative number, printing nan for a standard deviation of zero | Scorable.cpp |

## Tests of the theorems

`seeded/LOG.jsonl` records edits of single model definitions made in a scratch
copy, one line each, with the claim that the edit breaks and the property
theorems that no longer hold up (directly or because a lemma they use fails).
