{"id": "C01", "title": "Directions built from coordinates are unit vectors along the input", "statement": "Constructing a Direction from any non-zero (x, y, z) or any non-zero Point yields a vector of length exactly one that is a positive multiple of the input.", "quantifier": "every non-zero vector in three-dimensional space", "why_tests_cant": "Tests check a handful of vectors; the claim ranges over a continuum.", "anchors": ["src/Point.cpp: Direction::Direction(Real,Real,Real), Point::Normalize, Point::Dot, operator/="]}
{"id": "C02", "title": "Random directions are unit vectors distributed evenly on the sphere", "statement": "A Direction drawn from a random number generator has length one for every generator state, its x component is an affine image of the first uniform draw and its azimuth is 2*pi times the second draw. If the two draws are independent and uniform then the distribution of the direction does not change when it is turned about any axis by any angle, and its cosine with any axis is uniform on [-1, 1].", "quantifier": "every generator state; every pair of uniform numbers in [0,1); every axis, angle and measurable set of directions", "why_tests_cant": "The number of generator states is 2^31-2 and the distributional part is about all uniform inputs.", "anchors": ["src/Point.cpp: Direction::Direction(RNG&)"]}
{"id": "C03", "title": "A rotated direction makes exactly the requested angle with its reference", "statement": "For a unit reference direction d, a cosine mu in [-1, 1] and any azimuth phi, the constructed direction has length one and its scalar product with d is mu; as phi runs over [0, 2*pi) the whole cone is covered. When a particle is scattered, the azimuth is drawn so that the distribution of the new direction does not change when it is turned about the former direction.", "quantifier": "every unit vector, every cosine in [-1,1], every azimuth", "why_tests_cant": "Tests sample a few axes; the choice of auxiliary axis switches at an internal threshold and must be right on both sides for every direction.", "anchors": ["src/Point.cpp: Direction::Direction(const Direction&, Real, Real)", "src/Constants.hpp: on_axis_tolerance", "src/Particle.cpp: Particle::Scatter"]}
{"id": "C04", "title": "A finite distance to a surface is the first forward crossing", "statement": "If the distance from a point along a unit direction to a sphere, x-plane or x-cylinder is a finite t, then t > 0, the point at distance t lies on the surface, and no point at a distance strictly between 0 and t lies on the surface.", "quantifier": "every surface with any parameters, every origin, every unit direction", "why_tests_cant": "Ray-surface intersection has continuum many inputs and several branches for the two quadratic roots.", "anchors": ["src/CSGSurface.cpp: CSGSurface::SolveQuadratic, Sphere::Distance, PlaneX::Distance, CylinderX::Distance"]}
{"id": "C05", "title": "An infinite distance means the ray never crosses the surface", "statement": "If the distance from a point to a surface along a unit direction is infinite, no point further along the ray is on the other side of the surface: the ray never passes through it (it may touch it tangentially).", "quantifier": "every surface, every origin, every unit direction", "why_tests_cant": "A missed crossing for one input in a continuum loses particles; tests cannot rule it out.", "anchors": ["src/CSGSurface.cpp: SolveQuadratic, Sphere::Distance, PlaneX::Distance, CylinderX::Distance"]}
{"id": "C06", "title": "Which side of a surface a particle is on changes exactly at the reported distance", "statement": "For an origin that is not on the surface, the Contains answer is the same for every point at a distance smaller than the reported distance, and is the opposite answer just beyond it.", "quantifier": "every surface, every origin off the surface, every unit direction, every distance along the ray", "why_tests_cant": "Contains and Distance are separate implementations of the same surface; only a proof over all rays shows that they agree.", "anchors": ["src/CSGSurface.cpp: Sphere::Contains, PlaneX::Contains, CylinderX::Contains and the matching Distance functions"]}
{"id": "C07", "title": "The nearest surface is a nearest one, and is always found when there is one", "statement": "NearestSurface returns a surface of the cell together with that surface's distance, no other surface of the cell has a smaller distance, and an exception is raised exactly when the cell has no surfaces.", "quantifier": "every cell (any number of surfaces, in any storage order), every position and direction", "why_tests_cant": "Cells can hold any number of surfaces in an order set by memory addresses.", "anchors": ["src/Cell.cpp: Cell::NearestSurface"]}
{"id": "C08", "title": "Cell lookup returns the first containing cell or raises", "statement": "FindCellContaining(point) returns the first cell, in input order, for which the point is on the required side of every bounding surface; it raises exactly when no cell contains the point.", "quantifier": "every list of cells and every point", "why_tests_cant": "All geometries and all points cannot be enumerated.", "anchors": ["src/World.cpp: World::FindCellContaining", "src/Cell.cpp: Cell::Contains"]}
{"id": "C09", "title": "A tracked particle is always inside the cell it is assigned to", "statement": "During transport by either tracking method, whenever scores are recorded, the particle's current cell contains the particle's position.", "quantifier": "every geometry, every source particle, every random sequence, every number of steps", "why_tests_cant": "It is an invariant of an unbounded random walk over arbitrary geometry.", "anchors": ["src/TransportMethod.cpp: SurfaceTracking::Transport, CellDeltaTracking::Transport", "src/Particle.cpp: Particle::Stream, SetCell"]}
{"id": "C10", "title": "Every value falls in an existing bin", "statement": "For every bin structure (none, linspace, logspace, boundaries) the index returned for any value is smaller than the number of bins, so no score can be recorded outside the score array.", "quantifier": "every bin structure that passes construction, every value", "why_tests_cant": "An index one too large is an out-of-bounds write for one value in a continuum.", "anchors": ["src/Bins.cpp: NoBins::GetIndex, LinspaceBins::GetIndex, LogspaceBins::GetIndex, BoundaryBins::GetIndex, size"]}
{"id": "C100", "title": "Only the numbers of nuclei with the same data count in multigroup problems, not how they are written down, nor the temperature", "statement": "In a multigroup problem, dividing a nuclide into several ones with the same data, multiplying all fractions of a material by a factor while dividing its density by it, and changing names and temperatures leaves every history's crossings and everything that is printed for the current estimators unchanged for the same seed. If the order of the nuclides changes too, the scores of histories keep their distribution.", "quantifier": "every well-posed multigroup world, every division of nuclides into any number of others, every factor, all temperatures and names; every source, seed, surface, set of bins, number of histories, threads and every schedule; both tracking methods", "why_tests_cant": "Tests compare results for a few inputs; that no way of writing the same matter changes any history is a statement about all inputs and all seeds, and a dependence on the order can be told from noise only by the distribution.", "anchors": ["src/Material.cpp: Material::GetMicroscopicTotal", "src/Particle.cpp: Particle::SampleNuclide", "src/Multigroup.cpp: Multigroup::Interact", "src/TransportMethod.cpp: SurfaceTracking::Transport", "src/TransportMethod.cpp: CellDeltaTracking::Transport"]}
{"id": "C101", "title": "What counts in problems with gases and continuous energies: not the orientation, not the tracking method, not how the gases are written down", "statement": "Two problems with gases of constant temperatures and continuous energies whose cells, sources and estimators are turned or mirrored into each other, and whose gases have the same number of nuclei per volume for every list of reactions, print means and standard deviations of scores with the same distribution, whatever their seeds, numbers of threads, schedules and tracking methods. The solution of the transport equation is turned with the problem.", "quantifier": "all worlds of gases with free-gas scattering, capture and fission, all rotations and reflections (about the x axis if there are planes or cylinders), every division and order of nuclides with the same reactions; every source, surface, set of bins, number of histories, seed, number of threads and schedule; both tracking methods", "why_tests_cant": "Directions are drawn with respect to the axes and nuclides along a list, so histories differ from problem to problem; only the distribution over all histories is the same, and noise hides small deviations from tests.", "anchors": ["src/ContinuousReaction.cpp: ContinuousScatter::Interact", "src/ContinuousReaction.cpp: ContinuousFission::Interact", "src/Continuous.cpp: Continuous::Interact", "src/Particle.cpp: Particle::SampleNuclide", "src/TransportMethod.cpp: SurfaceTracking::Transport", "src/TransportMethod.cpp: CellDeltaTracking::Transport", "src/Source.cpp: IsotropicFlux::Sample"]}
{"id": "C102", "title": "The whole table of results, with all correlations, does not depend on orientation, tracking method or how materials are written down", "statement": "In problems that are turned or mirrored into each other, use the other tracking method, or are made of the same nuclei written down differently, the scores of a history in all bins of all estimators together have the same distribution; so the whole table of means and standard deviations of independent histories has, with all correlations between its entries.", "quantifier": "all multigroup problems and all problems with gases of constant temperatures, all rotations and reflections (about the x axis if there are planes or cylinders), every finite set of bins of estimators, every number of histories, every event about the printed table, every number of threads and schedule; both tracking methods", "why_tests_cant": "Correlations between entries of a table need many runs to be estimated at all, and no finite number of them decides whether the joint distribution of all entries is the same.", "anchors": ["src/Estimator.cpp: EstimatorSetProxy::Score", "src/Estimator.cpp: EstimatorSetProxy::CommitHistory", "src/TransportMethod.cpp: SurfaceTracking::Transport", "src/TransportMethod.cpp: CellDeltaTracking::Transport"]}
{"id": "C103", "title": "With gases, too, the printed mean and standard deviation estimate the solution of the transport equation and its error", "statement": "What a run of a problem with continuous energies prints for a bin of a current estimator are the mean and the standard error of the scores of one game, played once for each history. If the numbers are independent, then the mean score is the mean of the solution of the transport equation for gases (C81) over the directions of the source; the mean square is bounded if each collision leaves less than one neutron on average; the printed mean tends to that solution; the printed standard deviation, times the square root of the number of histories, tends to the true standard deviation of a history; and the solution is within k printed standard deviations of the printed mean with a probability that tends to that of the normal distribution.", "quantifier": "every world of gases of constant temperatures, with capture, fission and scattering off moving atoms, every source, estimator and bin, number of threads, schedule, number of histories (in the limit), k; finite mean square where needed, variance not zero for the last statement; both tracking methods", "why_tests_cant": "Laws of large numbers and a central limit theorem for branching random walks in space, direction and energy: no finite number of runs shows what the printed error means.", "anchors": ["src/FixedSource.cpp: FixedSource::Solve", "src/Source.cpp: Source::Sample", "src/Scorable.cpp: Scorable::GetScoreAsString", "src/Estimator.cpp: CurrentEstimator::GetScore", "src/Continuous.cpp: Continuous::Interact", "src/Particle.cpp: Particle::Transport"]}
{"id": "C104", "title": "The same seed gives the same results if the data of gases are only written down in another way", "statement": "In a problem with continuous energies only the values of the tables count, not their entries. A point on the straight line between two neighbours, or a point beyond the ends with the value of the end, changes no value that is looked up. If tables have the same values, if nuclides are divided into several ones with such data, if fractions are multiplied by a factor and the density is divided by it, or if names, numbers of threads and schedules are others, then every history with the same seed crosses every surface as often as before, in every bin, and runs print the same means and standard deviations. The temperature of an evaluation only counts for scattering, and only if the gas is at least one percent hotter.", "quantifier": "every world of gases of constant temperatures, with capture, fission and scattering off moving atoms, every tables with the same values, division of nuclides, seed, history, source, estimator, bin, number of threads and schedule; both tracking methods; exact arithmetic", "why_tests_cant": "Holds for all tables, all ways to divide nuclides and all chains of random numbers; tests compare a few problems.", "anchors": ["src/ContinuousMap.hpp: ContinuousMap::at", "src/ContinuousEvaluation.cpp: ContinuousEvaluation", "src/ContinuousReaction.cpp: ContinuousReaction::GetCrossSection", "src/Continuous.cpp: Continuous::Interact", "src/Material.cpp: Material::GetMicroscopicTotal", "src/FixedSource.cpp: FixedSource::Solve"]}
{"id": "C105", "title": "Histories in gases end and the transport equation has one solution when collisions leave fewer neutrons than they take", "statement": "In a problem with continuous energies in which, at every energy, a collision leaves on average at most k neutrons (scattered off moving atoms or made by fission), with k below one, a neutron and all its descendants make on average at most (K+1)/(1-k) flights, where K is the largest number of crossings of a straight line with the surfaces of the cells. So with independent uniform random numbers almost surely no neutron is left after finitely many flights, the chance of N flights or more is at most (K+1)/((1-k)N), a current estimator has a finite mean, this mean is the only bounded solution of the integral transport equation with thermal motion and fission, and averages over histories tend to it. In the program the states of a history that ends are exactly these flights, played with the particles' own random numbers.", "quantifier": "every geometry and gas world of constant temperatures with k < 1; every tables, composition, starting cell, point, direction and energy; every bounded measurable score of crossings; every source and history; both tracking methods; exact arithmetic", "why_tests_cant": "Extinction and uniqueness are statements about all random sequences and all functions; tests run finitely many histories that happened to end and cannot bound how long a history may be.", "anchors": ["src/TransportMethod.cpp: SurfaceTracking::Transport", "src/TransportMethod.cpp: CellDeltaTracking::Transport", "src/FixedSource.cpp: FixedSource::StartWorker", "src/ContinuousReaction.cpp: ContinuousFission::Interact", "src/ContinuousReaction.cpp: ContinuousScatter::Interact", "src/Particle.cpp: Particle::BankSecondaries", "src/Estimator.cpp: CurrentEstimator::GetScore"]}
{"id": "C106", "title": "Where collisions leave fewer neutrons than they take, every printed mean and standard deviation estimates the one bounded solution and its error", "statement": "In every problem, with energy groups or with gases, in which a collision leaves on average at most k < 1 neutrons, a run that has a result prints, for every bin of every current estimator, the mean and the standard error of the scores of a game played with the generators of the seeds seed, seed+1, and so on. The transport equation for that bin has exactly one bounded solution. If the same game is played with independent uniform numbers, the printed mean tends to that solution averaged over the directions of the source, the printed standard deviation times the root of the number of histories tends to the standard deviation of the score of one history, which is finite, and unless that is zero the solution is within m printed standard deviations of the printed mean with the probability that the normal distribution gives for m. Nothing about finiteness has to be assumed.", "quantifier": "every geometry, materials, tables and gas worlds of constant temperatures with k < 1; every source; every current estimator and bin; every seed, number of histories and threads and every schedule of the workers that gives a result; both tracking methods; exact arithmetic", "why_tests_cant": "That a variance is finite and that the mean and the error are estimated without bias for all problems of a class is a statement about limits over infinitely many histories; tests see one table of one problem.", "anchors": ["src/FixedSource.cpp: FixedSource::StartWorker", "src/TransportMethod.cpp: SurfaceTracking::Transport", "src/TransportMethod.cpp: CellDeltaTracking::Transport", "src/Particle.cpp: Particle::BankSecondaries", "src/Estimator.cpp: CurrentEstimator::GetScore", "src/Estimator.cpp: EstimatorProxy::CommitHistory", "src/Estimator.cpp: EstimatorSet::to_string", "src/Multigroup.cpp: Multigroup::Fission", "src/ContinuousReaction.cpp: ContinuousFission::Interact"]}
{"id": "C107", "title": "What is tallied does not change what happens, and results in coarse bins are sums of results in fine bins", "statement": "Two runs of the same world, source, perturbations, seed, number of histories and tracking method, which may differ in their estimators and in the number of threads, agree as follows. Estimators on the same surface with the same bins print the same means and standard deviations, whatever else is tallied. If every boundary of the bins of one estimator is a boundary of the bins of another on the same surface, a bin of the fine one lies in one bin of the coarse one; every coarse mean is the sum of the fine means of the bins in it, and the coarse standard deviation is at most the sum of theirs. The same holds for sensitivities. In particular the means of all bins add up to the mean that is printed without bins.", "quantifier": "every world, source, seed, number of histories, numbers of threads and schedules that give results; every pair of estimators on one surface and all bins that can be made (logarithmic ones with a base above one) of which one divides the other; both tracking methods; exact arithmetic", "why_tests_cant": "A test compares two particular tables. That no choice of estimators, boundaries or threads changes a history or loses a score is a statement about all pairs of runs.", "anchors": ["src/Bins.cpp: ParticleBins::GetIndex", "src/Estimator.cpp: CurrentEstimator::GetScore", "src/Estimator.cpp: EstimatorProxy::CommitHistory", "src/Scorable.cpp: Scorable::GetScoreAsString", "src/FixedSource.cpp: FixedSource::StartWorker"]}
{"id": "C108", "title": "Units of cross sections and norms of spectra do not change results", "statement": "Take two runs of the same geometry, source, seed, number of histories, tracking method and estimators, whose materials have the same nuclides, one by one. Each nuclide of the second run may be given in its own unit: all its reaction cross sections and transfers between groups are multiplied by a positive number, and its atomic fraction divided by it. All fractions of a material may be multiplied by a common factor which the density is divided by. Spectra of fission may be multiplied by any positive number, for each group that causes it. Then every history crosses every surface in the same bins equally often, and both runs print the same means and standard deviations.", "quantifier": "every world that group data describe and transport can deal with, every restatement of its data, every source in it, seed, number of histories, numbers of threads and schedules that give results; both tracking methods; exact arithmetic", "why_tests_cant": "A test compares the printed values of two inputs. That no unit or norm in any input can change a choice of nuclide, reaction, group or yield is a statement about all data and all random numbers.", "anchors": ["src/Multigroup.cpp: Multigroup::NormalizedTwoDimensional::NormalizedTwoDimensional", "src/Multigroup.cpp: Multigroup::Interact", "src/Multigroup.cpp: Multigroup::Scatter", "src/Multigroup.cpp: Multigroup::Fission", "src/Material.cpp: Material::GetMicroscopicTotal", "src/Material.cpp: Material::GetMicroscopicMajorant"]}
{"id": "C109", "title": "Dividing energy groups into finer ones with the same data does not change results", "statement": "Take two multigroup runs of the same geometry, source direction and position, seed, number of histories and tracking method. The second one has more groups: every group of the first is divided into groups next to each other, in the same order. For every nuclide, cross sections of all reactions and yields in a fine group are those of the coarse group that it lies in, and transfers from it to the parts of a coarse group add up to the transfer from coarse group to coarse group; spectra add up likewise, up to their norm. The source emits in some part of its coarse group, and the bins of estimators do not tell the parts of a group apart. Then every history crosses every surface in the same bins equally often, and both runs print the same means and standard deviations.", "quantifier": "every world that group data describe and transport can deal with, every division of its groups, every distribution of transfers and spectra among the parts, every source, seed, number of histories, numbers of threads and schedules that give results; both tracking methods; exact arithmetic", "why_tests_cant": "A test compares the printed values of two inputs. That no number of groups, no division of them and no random number can lead a neutron out of the coarse group that it would be in is a statement about all data and histories.", "anchors": ["src/Multigroup.cpp: Multigroup::Scatter", "src/Multigroup.cpp: Multigroup::Fission", "src/Multigroup.cpp: Multigroup::Interact", "src/Multigroup.cpp: Multigroup::NormalizedTwoDimensional::NormalizedTwoDimensional", "src/Bins.cpp: ParticleBins::GetIndex"]}
{"id": "C11", "title": "The bin index counts the printed boundaries not above the value", "statement": "The bin index returned for a value equals the number of boundaries, as printed in the output, that are less than or equal to the value: bin 0 is below the first boundary, bin i is the half-open interval between boundaries i-1 and i, and the last bin is at or above the last boundary.", "quantifier": "every bin structure, every value", "why_tests_cant": "It relates two independent pieces of code (indexing and printing) for all values.", "anchors": ["src/Bins.cpp: LinspaceBins::GetIndex/to_string, LogspaceBins::GetIndex/to_string, BoundaryBins::GetIndex/to_string"]}
{"id": "C110", "title": "Numbers and order of energy groups do not change what results estimate", "statement": "Take two multigroup problems of the same geometry, source direction and position. Every group of the second one stands for a group of the first, in any order: the groups may only have other numbers, or several may stand for one. For every nuclide, cross sections of all reactions and yields in a group are those of the group that it stands for, and transfers from it to all groups that stand for the same one add up to the transfer to that one; spectra add up likewise, up to their norm. The source emits in a group that stands for its group, and bins of estimators do not tell groups that stand for the same one apart. Then numbers of crossings by histories have the same distribution, for both tracking methods and also if the methods differ, and all runs print, for any seeds and schedules, means and standard errors of scores with that distribution.", "quantifier": "every world that group data describe and transport can deal with, every map from groups to groups, every distribution of transfers and spectra among groups that stand for the same one, every source, pair of seeds, pair of tracking methods, numbers of threads and schedules that give results; exact arithmetic", "why_tests_cant": "Runs with groups in another order print other numbers, because the same random number selects another group. Tests can only find that the numbers are close; that the distributions are equal is a statement about all random numbers, data and numbers of collisions.", "anchors": ["src/Multigroup.cpp: Multigroup::Scatter", "src/Multigroup.cpp: Multigroup::Fission", "src/Multigroup.cpp: Multigroup::Interact", "src/Particle.cpp: Particle::SampleNuclide", "src/Bins.cpp: ParticleBins::GetIndex"]}
{"id": "C111", "title": "Only proportions of fractions and directions in the input count", "statement": "Take two valid input documents that differ only as follows: atom fractions of a material are multiplied by a common positive factor, which may be another one for every material; the vector of a constant source direction or the axis of an isotropic flux is multiplied by a positive factor; vectors that cosine bins refer to are multiplied by positive factors. Then the same driver is created for both, or both are refused for the same reason, and whatever one run of the program can do with one document it can do with the other: it ends in the same way, and writes the same text to the output file or writes nothing.", "quantifier": "every pair of valid documents, all positive factors, every number of materials, nuclides and estimators, fixed sources and eigenvalue problems, all files, schedules and seeds; exact arithmetic", "why_tests_cant": "Tests compare runs for a few factors and a few documents. That nothing else in the program looks at lengths or sums that were not divided out is a statement about all documents and all runs.", "anchors": ["src/Material.cpp: Material::AssignNuclides", "src/Point.cpp: Direction::Direction", "src/Bins.cpp: ParticleBins::ParticleBins", "src/Source.cpp: Source::Source", "src/World.cpp: World::World"]}
{"id": "C112", "title": "Cylinders in double precision", "statement": "With every operation rounded to double precision, for every radius, every position and every direction of nearly unit length that is not along the axis: whether a point counts as inside agrees up to rounding with comparing its distance from the axis with the square of the radius, as the program does without rounding; a distance that is found is positive and leads to the cylinder; from inside, the cylinder is always seen and the way to it stays inside; from outside, nothing of the cylinder lies before the point that is found; a cylinder that is not seen is not entered. Errors are at most 64 units of 2^-53 of the sum of the squares of the radius, of the distance from the origin and of the length of the flight.", "quantifier": "every rounding to nearest (whatever it does with ties), every radius, every position whose coordinate along the axis is a double, every direction of unit length up to 2^-48 with a double component below 1 along the axis; over- and underflow are not modelled", "why_tests_cant": "Cancellation is worst for grazing flights, flights nearly along the axis and positions far along it. Tests meet few of these combinations, and no number of samples bounds the error.", "anchors": ["src/CSGSurface.cpp: CylinderX::Distance", "src/CSGSurface.cpp: CylinderX::Contains", "src/CSGSurface.cpp: CSGSurface::SolveQuadratic", "src/Point.cpp: Point::Dot"]}
{"id": "C113", "title": "Tables and flights in double precision", "statement": "With every operation rounded to double precision: a value that a table gives without rounding is given with rounding, too, and differs from it by at most 12 units of 2^-53 of the largest entry. The distance to the next collision is a positive finite number, shorter than 23 mean free paths, and in mean free paths equal to the negative logarithm of one minus the uniform number up to 4 units of 2^-53 of that plus one, if the logarithm of the mathematical library is accurate to one unit in the last place.", "quantifier": "every rounding to nearest (whatever it does with ties), every table and key, every positive rate, every valid state of the generator, every logarithm that is accurate to one unit in the last place; over- and underflow are not modelled", "why_tests_cant": "Interpolation divides differences, in which digits cancel; flights take the logarithm of numbers near one and near zero. Tests sample few tables, keys and random numbers, and cannot show that no distance is zero, negative or infinite.", "anchors": ["src/ContinuousMap.hpp: ContinuousMap::at", "src/TransportMethod.cpp: SurfaceTracking::Transport", "src/TransportMethod.cpp: CellDeltaTracking::Transport"]}
{"id": "C114", "title": "Tables in double precision keep between their entries", "statement": "With every operation rounded to double precision, the value that a table of cross sections or other numbers gives at a key between two of its keys is between the entries at these keys; in particular, a table without negative entries gives no negative value.", "quantifier": "every rounding to nearest, every table of double precision numbers with rising keys, every key", "why_tests_cant": "The value leaves the range of the entries by one unit in the last place, only at keys next to an end of an interval, and only for a few of many tables. Tests of sampled tables and keys with a tolerance do not see the sign.", "anchors": ["src/ContinuousMap.hpp: ContinuousMap"]}
{"id": "C115", "title": "Flights out of a cylinder see it, in double precision", "statement": "With every operation rounded to double precision, a flight that starts inside a cylinder and leads out of it is given a finite distance to the cylinder.", "quantifier": "every rounding to nearest, every point inside the cylinder by more than the rounding error, every direction that Direction can hold", "why_tests_cant": "Only directions within 2^-24 of the axis are concerned, which tests neither sample nor, if they try a direction along the axis, distinguish from the parallel one.", "anchors": ["src/CSGSurface.cpp: CylinderX::Distance", "src/CSGSurface.cpp: CSGSurface::SolveQuadratic", "src/Point.cpp: Point::Normalize"]}
{"id": "C116", "title": "Directions of any length, with underflow", "statement": "A direction given in the input by any vector of double precision numbers other than zero becomes a vector of length one (up to 2^-48) along it. This takes into account that double precision numbers below 2^-1022 are multiples of 2^-1074.", "quantifier": "every vector of double precision numbers other than zero; overflow is not modelled", "why_tests_cant": "Vectors with components below 2^-500 are not written in tests, and squares that underflow raise no error: the direction is not a number, or its length is not one, and the run goes on.", "anchors": ["src/Point.cpp: Point::Normalize", "src/Point.cpp: Point::Dot"]}
{"id": "C12", "title": "Scores of different cosine and energy bins never share a slot", "statement": "For a particle binning over cosine and energy, the flat score index is below the total size and two particles get the same flat index exactly when they fall in the same cosine bin and the same energy bin.", "quantifier": "every pair of bin structures, every pair of particles", "why_tests_cant": "Arbitrary sizes of two bin structures; collisions would silently add unrelated scores.", "anchors": ["src/Bins.cpp: ParticleBins::GetIndex, ParticleBins::size", "src/Bins.hpp: ComputeStrides"]}
{"id": "C13", "title": "Malformed bin specifications are rejected", "statement": "Construction of bins raises exactly when the boundaries are not strictly increasing, or when a linspace/logspace maximum is not greater than its minimum; accepted bins print strictly increasing boundaries.", "quantifier": "every bin specification", "why_tests_cant": "All lists of boundaries of any length.", "anchors": ["src/Bins.cpp: LinspaceBins ctor, LogspaceBins ctor, BoundaryBins ctor"]}
{"id": "C14", "title": "Tabulated data is interpolated linearly and clamped outside its range", "statement": "Looking up a key in a non-empty table returns the stored value at a grid point, the straight-line interpolant between the two neighbouring grid points inside the range, and the first or last stored value outside; the result never leaves the range of neighbouring stored values.", "quantifier": "every table with strictly increasing keys, every key", "why_tests_cant": "Every table and every real key.", "anchors": ["src/ContinuousMap.hpp: ContinuousMap::at"]}
{"id": "C15", "title": "Multidimensional data sets are addressed in row-major order", "statement": "Reading element (i1, ..., iD) of a data set with axis lengths (n1, ..., nD) returns the entry at offset sum of i_k times the product of later axis lengths, distinct index tuples address distinct entries, and an exception is raised exactly when the number of values or an index is out of range.", "quantifier": "every number of dimensions, every shape, every index tuple", "why_tests_cant": "Any number of dimensions and any shape.", "anchors": ["src/HDF5DataSet.hpp: HDF5DataSet::at, ComputeAxisStrides, at_from_base, ToContinuousMap"]}
{"id": "C16", "title": "Multigroup tables put the incoming group in the column", "statement": "A two-dimensional table of G*G numbers listed row by row is read so that the entry for incoming group gp and outgoing group g is number G*(g-1)+(gp-1); a one-dimensional table gives its g-th number for group g; the wrong number of entries is rejected; a group outside 1..G raises.", "quantifier": "every group count, every table, every pair of groups", "why_tests_cant": "A transposition is invisible for symmetric or 1x1 test data; the claim is for all G.", "anchors": ["src/Multigroup.cpp: OneDimensional, TwoDimensional constructors and at"]}
{"id": "C17", "title": "Normalised multigroup columns are probability distributions", "statement": "After normalisation each column with a non-zero sum sums to one with the ratios of entries unchanged, and a column summing to zero is left at zero.", "quantifier": "every non-negative table", "why_tests_cant": "All tables.", "anchors": ["src/Multigroup.cpp: NormalizedTwoDimensional constructor"]}
{"id": "C18", "title": "The multigroup total is the sum of the reactions", "statement": "For each group, the total cross section equals the sum over the reactions present of that reaction's cross section, the scatter cross section being the sum of the scatter table over outgoing groups.", "quantifier": "every set of reactions, every group count and group", "why_tests_cant": "All data sets.", "anchors": ["src/Multigroup.cpp: CreateScatterXS, CreateReactions, CreateTotalXS, GetTotal"]}
{"id": "C19", "title": "Multigroup reactions are sampled in proportion to their cross sections", "statement": "Whenever the total cross section is positive, one uniform number selects exactly one reaction, each reaction is selected on a set of uniform numbers of measure cross section / total, a reaction with zero cross section is never selected, and the selection never runs off the end.", "quantifier": "every non-negative reaction data with positive total, every uniform number, every generator state", "why_tests_cant": "A measure-theoretic statement over a continuum of random numbers and all data.", "anchors": ["src/Multigroup.cpp: Multigroup::Interact"]}
{"id": "C20", "title": "Multigroup scattering chooses a valid outgoing group with the tabulated probability", "statement": "After a scatter, the particle's group is in 1..G, the outgoing group g is chosen with probability scatter(gp->g) divided by the column sum, the direction is redrawn isotropically, and the selection never runs off the end when the scatter cross section is positive.", "quantifier": "every scatter table, incoming group, generator state", "why_tests_cant": "All tables and random sequences.", "anchors": ["src/Multigroup.cpp: Multigroup::Scatter"]}
{"id": "C21", "title": "Fission yields are unbiased", "statement": "The number of fission neutrons is the average yield rounded down or up, and its mean over the uniform random number equals the average yield.", "quantifier": "every non-negative average yield, every uniform number", "why_tests_cant": "A mean over a continuum of random numbers.", "anchors": ["src/Multigroup.cpp: Multigroup::Fission", "src/ContinuousReaction.cpp: ContinuousFission::Interact"]}
{"id": "C22", "title": "Fission banks the sampled number of valid secondaries at the collision site", "statement": "A fission banks exactly as many secondaries as the sampled yield; each is a neutron born at the parent's position and in its cell, with a unit direction, a valid energy (for multigroup: a group drawn from the emission spectrum), and no prior scores; the parent stops being alive.", "quantifier": "every data set, particle and generator state", "why_tests_cant": "Unbounded yields and all data sets.", "anchors": ["src/Multigroup.cpp: Multigroup::Fission", "src/ContinuousReaction.cpp: ContinuousFission::Interact", "src/Particle.cpp: Particle::BankSecondaries"]}
{"id": "C23", "title": "Material fractions are normalised and cross sections are their weighted mean", "statement": "After construction a material's atomic fractions sum to one and keep the ratios given in the input, and its microscopic total (majorant) cross section is the sum over nuclides of fraction times nuclide total (majorant).", "quantifier": "every list of nuclides with positive fractions; every particle", "why_tests_cant": "All compositions.", "anchors": ["src/Material.cpp: AssignNuclides, GetMicroscopicTotal, GetMicroscopicMajorant"]}
{"id": "C24", "title": "The colliding nuclide is sampled in proportion to its macroscopic cross section", "statement": "If the material's total cross section is positive, every uniform number selects exactly one nuclide of the material, each with probability fraction*total/material total, in any storage order, and selection never runs off the end.", "quantifier": "every material, every storage order of its nuclides, every uniform number", "why_tests_cant": "A measure statement over a continuum and all orders.", "anchors": ["src/Particle.cpp: Particle::SampleNuclide"]}
{"id": "C25", "title": "The random number generator never degenerates", "statement": "From any seed the generator's state stays within 1..2^31-2 forever, stepping is reversible (a bijection on the states), and the sequence from any seed is purely periodic: it returns to its starting state and never sticks at a fixed state.", "quantifier": "every seed, every number of steps", "why_tests_cant": "2^31 states and unbounded sequences.", "anchors": ["src/BasicTypes.hpp: RNG (std::minstd_rand)"]}
{"id": "C26", "title": "Uniform numbers are strictly between zero and one", "statement": "Every uniform number produced from any reachable generator state is strictly greater than 0 and strictly less than 1, so logarithms taken of it are finite.", "quantifier": "every generator state", "why_tests_cant": "2^31 states.", "anchors": ["src/BasicTypes.hpp: RNG", "src/*.cpp: std::uniform_real_distribution uses"]}
{"id": "C27", "title": "Different histories use different random streams", "statement": "In a fixed-source run, the generators of two different histories start in different states.", "quantifier": "every seed, batch size and pair of histories", "why_tests_cant": "Collisions happen only for particular seeds out of 2^31.", "anchors": ["src/FixedSource.cpp: FixedSource::StartWorker", "src/Source.cpp: Source::Sample"]}
{"id": "C28", "title": "Flight distances are exponentially distributed", "statement": "With macroscopic cross section S > 0, the sampled distance to collision is positive and exceeds t with probability exp(-S*t) for every t >= 0.", "quantifier": "every positive cross section, every distance, every uniform number", "why_tests_cant": "A distribution identity over a continuum.", "anchors": ["src/TransportMethod.cpp: SurfaceTracking::Transport, CellDeltaTracking::Transport"]}
{"id": "C29", "title": "A particle's transport ends exactly at capture, fission or leakage", "statement": "Transport of a particle returns only when its last event is capture, fission or leak; each step records exactly one event and is scored exactly once; a leak is recorded exactly on entering a cell without material and a surface crossing exactly on entering a cell with material.", "quantifier": "every world, particle and random sequence, for both tracking methods", "why_tests_cant": "Unbounded random walks.", "anchors": ["src/TransportMethod.cpp", "src/Particle.cpp: Particle::IsAlive"]}
{"id": "C30", "title": "Every particle of a history is transported exactly once", "statement": "Processing a history transports the source particle and each secondary created during the history exactly once, and finishes with an empty bank whenever the family tree of secondaries is finite.", "quantifier": "every family tree of secondaries", "why_tests_cant": "All finite branching trees.", "anchors": ["src/FixedSource.cpp: FixedSource::StartWorker", "src/Bank.cpp", "src/Particle.cpp: MoveSecondariesTo"]}
{"id": "C31", "title": "Every history is run exactly once, whatever the schedule", "statement": "With at least one worker thread, each history number from 0 to batchsize-1 is processed by exactly one worker, no other number is processed, and every worker stops.", "quantifier": "every number of threads, every interleaving of the workers' steps, every batch size", "why_tests_cant": "The number of interleavings is unbounded; tests observe only a few.", "anchors": ["src/FixedSource.cpp: FixedSource::Solve, StartWorker, histories_elapsed"]}
{"id": "C32", "title": "Results do not depend on the number of threads or on scheduling", "statement": "The scores and squared scores returned by a fixed-source solve (in exact arithmetic) are a function of the input, the seed and the batch size alone: the sum over history numbers of that history's contribution.", "quantifier": "every number of threads, every interleaving, every assignment of histories to workers", "why_tests_cant": "All schedules.", "anchors": ["src/FixedSource.cpp: FixedSource::Solve", "src/Estimator.cpp: EstimatorSet::operator+="]}
{"id": "C33", "title": "Solving twice gives the same answer", "statement": "Calling Solve again on the same driver returns the same scores as the first call.", "quantifier": "every input and schedule", "why_tests_cant": "State is left behind between calls in a way visible only for a second call after any schedule.", "anchors": ["src/FixedSource.hpp: histories_elapsed", "src/FixedSource.cpp: FixedSource::Solve"]}
{"id": "C34", "title": "A committed history adds its score and the square of its score", "statement": "For each bin, committing a history adds the sum of the scores made in that bin during the history to the bin's score, and the square of that sum to the bin's squared score; before commit the estimator is unchanged; zero scores leave no trace.", "quantifier": "every sequence of scores, bins and histories", "why_tests_cant": "All sequences.", "anchors": ["src/Scorable.cpp: ScorableProxy::Score, CommitHistory", "src/Estimator.cpp: EstimatorProxy, EstimatorSetProxy"]}
{"id": "C35", "title": "Printed standard deviations are well defined", "statement": "For every bin and every number of histories equal to the weight, the quantity under the square root of the standard deviation is non-negative, and it is zero exactly when every history contributed the same score.", "quantifier": "every multiset of history scores", "why_tests_cant": "An inequality over all score sequences.", "anchors": ["src/Scorable.cpp: Scorable::GetScoreAsString"]}
{"id": "C36", "title": "Merging result sets adds scores estimator by estimator, by name", "statement": "Adding one estimator set to another adds, for each estimator name and each of its sensitivities, the scores and squared scores bin by bin, raises exactly when a name is missing, and the result does not depend on the order of merging.", "quantifier": "every pair of estimator sets", "why_tests_cant": "All sets and orders.", "anchors": ["src/Estimator.cpp: EstimatorSet::operator+=, Estimator::operator+=", "src/Scorable.cpp: Scorable::operator+="]}
{"id": "C37", "title": "A current estimator counts the crossings of its surface", "statement": "The score a current estimator accumulates for a history in a bin is the number of steps of the history's particles that crossed that surface (including leaking through it) with bin coordinates in that bin; collisions never score.", "quantifier": "every history", "why_tests_cant": "All event sequences.", "anchors": ["src/Estimator.cpp: CurrentEstimator::GetScore", "src/Scorable.cpp: ScorableProxy::Score"]}
{"id": "C38", "title": "Temperature fields report constancy and bounds faithfully", "statement": "A temperature field reports being constant exactly when it has the same value at every point, and its value at any point of the problem lies between its lower and upper bound.", "quantifier": "every field and every point", "why_tests_cant": "All points in space.", "anchors": ["src/ScalarField.cpp: ConstantField, LinearField"]}
{"id": "C39", "title": "Surface tracking is only used where temperature is constant", "statement": "Creating the surface tracking method raises exactly when the world's global temperature field is not constant; whenever surface tracking is in use, every cell of the world has a constant temperature, so the cross section is constant along every flight inside a cell.", "quantifier": "every world", "why_tests_cant": "All inputs.", "anchors": ["src/TransportMethod.cpp: TransportMethod::Create", "src/World.cpp: HasConstantTemperature"]}
{"id": "C40", "title": "The majorant bounds the total cross section", "statement": "In every cell and at every position, direction and energy the majorant cross section is at least the total cross section and non-negative, so that the probability of accepting a tentative collision in delta tracking lies in [0, 1].", "quantifier": "every continuous-energy or multigroup data set, every temperature field, every particle", "why_tests_cant": "An inequality between special functions over all energies and temperatures.", "anchors": ["src/Continuous.cpp: GetMajorant, GetTotal", "src/ContinuousReaction.cpp: ContinuousScatter::GetMajorant, GetCrossSection", "src/TransportMethod.cpp: CellDeltaTracking::Transport"]}
{"id": "C41", "title": "Cross section evaluations are used only near their temperature", "statement": "A tabulated evaluation is declared valid for a requested temperature exactly when the requested temperature differs from the evaluation temperature by less than one percent.", "quantifier": "every evaluation temperature and requested temperature", "why_tests_cant": "All pairs of temperatures.", "anchors": ["src/ContinuousEvaluation.cpp: ContinuousEvaluation::IsValid"]}
{"id": "C42", "title": "The free-gas adjustment grows with temperature and is at least one", "statement": "The free-gas cross section adjustment is at least one, decreases as energy grows, increases as temperature grows, and tends to one.", "quantifier": "every positive energy, temperature and mass ratio", "why_tests_cant": "A monotonicity statement about special functions on a continuum.", "anchors": ["src/ContinuousReaction.cpp: GetFreeGasScatterAdjustment"]}
{"id": "C43", "title": "Free-gas scattering conserves energy and momentum", "statement": "In a free-gas scatter the neutron's outgoing velocity together with the target velocity implied by momentum conservation carries the same kinetic energy as before; the acceptance probability is in [0, 1], the scattering cosine passed on is in [-1, 1], and the outgoing energy is non-negative.", "quantifier": "every energy, temperature, mass ratio and random sequence", "why_tests_cant": "All kinematic configurations.", "anchors": ["src/ContinuousReaction.cpp: ContinuousScatter::Interact"]}
{"id": "C44", "title": "Thermal scattering total cross sections interpolate the tabulated ones", "statement": "The thermal scattering total cross section at a tabulated temperature and energy is the tabulated value; in between it is the bilinear interpolant; below the lowest and above the highest tabulated temperature the value at the nearest tabulated temperature is used.", "quantifier": "every table, energy and temperature", "why_tests_cant": "All tables and arguments.", "anchors": ["src/ThermalScattering.cpp: ThermalScattering::GetTotal"]}
{"id": "C45", "title": "Thermal scattering produces physical outgoing states", "statement": "Whenever thermal scattering samples an outgoing state, the outgoing energy is non-negative and the scattering cosine lies in [-1, 1].", "quantifier": "every table, energy, temperature and random sequence", "why_tests_cant": "All tables and random numbers; the sampled values come from rescaled tables.", "anchors": ["src/ThermalScattering.cpp: Scatter, SampleBeta, SampleAlpha"]}
{"id": "C46", "title": "Momentum transfer is sampled from the neighbouring energy-transfer grid points", "statement": "Given a sampled energy transfer, the momentum transfer is taken from one of the two neighbouring energy-transfer grid points, the upper one with probability equal to the linear interpolation weight, except where kinematics forces one of them; no energy transfer makes the lookup fail.", "quantifier": "every grid, every energy transfer, every uniform number", "why_tests_cant": "All grids and arguments.", "anchors": ["src/ThermalScattering.cpp: SampleAlpha"]}
{"id": "C47", "title": "Partitioned thermal data is looked up in the right partition and interpolated", "statement": "A global grid index is mapped to the unique partition and local index holding that grid point, never out of range, and an evaluated table entry is the low-rank expansion linearly interpolated in temperature.", "quantifier": "every partition layout, every global index, temperature and cumulative value", "why_tests_cant": "All layouts.", "anchors": ["src/ThermalScattering.cpp: ThermalScattering ctor, SampleBeta, SampleAlpha, EvaluateInelastic, BetaPartition::Evaluate, AlphaPartition::Evaluate"]}
{"id": "C48", "title": "World construction shares objects and rejects dangling names", "statement": "A world is built exactly when every surface, material and nuclide named by a used cell or material is defined and the data of the used nuclides can be read; surfaces shared by cells are one object; each cell keeps the sense given for each surface; only used surfaces and nuclides are built, each once, in order of first use.", "quantifier": "every input document", "why_tests_cant": "All documents.", "anchors": ["src/World.cpp: CreateCSGSurfaces, CreateNuclides, CreateMaterials, CreateCells", "src/Cell.cpp: AssignSurfaceSenses, AssignMaterial"]}
{"id": "C49", "title": "K-eigenvalue results account for the simulated cycles", "statement": "Solving a k-eigenvalue problem returns scores from the active cycles' histories, and the shared source bank hands each particle to exactly one worker.", "quantifier": "every input and schedule", "why_tests_cant": "All schedules and inputs.", "anchors": ["src/KEigenvalue.cpp: KEigenvalue::Solve, NextParticle"]}
{"id": "C50", "title": "Accumulated perturbation effects are derivatives of the log-likelihood", "statement": "The indirect effect that a flight adds for a total cross section perturbation is the derivative, with respect to that cross section, of the logarithm of the probability density of that flight; flights through materials not containing the perturbed nuclide add nothing.", "quantifier": "every material, flight length and outcome of the flight", "why_tests_cant": "An analytic identity over all flights.", "anchors": ["src/Perturbation.cpp: TotalCrossSectionPerturbation::Stream", "src/Particle.cpp: Particle::Stream", "src/Sensitivity.cpp: GetScore"]}
{"id": "C51", "title": "Source particles are reproducible and physical", "statement": "The source particle of a history is a function of the seed only; its direction is a unit vector; a constant source has exactly the requested position, direction, energy and type; an isotropic-flux source emits into the half space of its reference direction with cosine distribution function mu^2.", "quantifier": "every source specification and seed", "why_tests_cant": "All seeds; a distribution over a continuum.", "anchors": ["src/Source.cpp: Source::Sample, IsotropicFlux::Sample, IsotropicDistribution::Sample, ConstantDistribution::Sample"]}
{"id": "C52", "title": "A given input and seed always gives the same trajectory", "statement": "The sampled nuclide and the crossed surface depend only on the input, the particle and the random number, not on where objects happen to be placed in memory.", "quantifier": "every placement of objects in memory", "why_tests_cant": "Object addresses vary between runs and platforms.", "anchors": ["src/Material.hpp: afracs (std::map keyed by shared_ptr)", "src/Cell.hpp: surface_senses (std::map keyed by shared_ptr)", "src/Particle.cpp: SampleNuclide", "src/Cell.cpp: NearestSurface"]}
{"id": "C53", "title": "Continuous-energy reactions are sampled in proportion to their cross sections", "statement": "When a nuclide's total cross section equals the sum of its reactions, one uniform number selects a reaction with probability cross section / total; when the total exceeds the sum, repeated sampling selects each reaction with probability cross section / sum; sampling terminates with probability one whenever some reaction has a positive cross section.", "quantifier": "every reaction data, every random sequence", "why_tests_cant": "Distributional statement over infinite random sequences.", "anchors": ["src/Continuous.cpp: Continuous::Interact"]}
{"id": "C54", "title": "Delta tracking samples the same flight distribution as surface tracking", "statement": "In a cell with constant total cross section S below majorant M, the distance to the first accepted collision in delta tracking exceeds t with probability exp(-S*t).", "quantifier": "every pair 0 < S <= M, every distance", "why_tests_cant": "A distribution identity over sequences of random numbers of unbounded length.", "anchors": ["src/TransportMethod.cpp: CellDeltaTracking::Transport"]}
{"id": "C55", "title": "No input that passes validation drives transport into undefined behaviour", "statement": "Transporting a particle never dereferences a missing material or surface and never raises out of the non-throwing transport function, whatever the source position.", "quantifier": "every validated input, every source position, every random sequence", "why_tests_cant": "Every geometry and random walk.", "anchors": ["src/TransportMethod.cpp: SurfaceTracking::Transport, CellDeltaTracking::Transport", "src/Particle.cpp: GetCell, SampleNuclide", "src/Nuclide.cpp"]}
{"id": "C56", "title": "Secondaries of one fission do not share random numbers", "statement": "The random numbers that decide the history of one fission secondary are not used for anything else: the generators of two secondaries of the same fission go through disjoint sequences of states over the numbers they use. (In the code the generator of a secondary starts in the very state with which the parent goes on to create the next one, so the sequences are disjoint exactly as long as no secondary uses more than seven states in the multigroup case, five in the continuous case; the number deciding the first flight of a secondary also selects the group of the next one.)", "quantifier": "every data set, particle, generator state, yield and pair of secondaries", "why_tests_cant": "Shared random numbers leave every single history looking right; only their correlation is wrong.", "anchors": ["src/Particle.cpp: Particle::BankSecondaries", "src/Multigroup.cpp: Multigroup::Fission", "src/ContinuousReaction.cpp: ContinuousFission::Interact"]}
{"id": "C57", "title": "Estimators and perturbations are built as the input describes them", "statement": "An estimator set can be built exactly when everything its nodes refer to is defined; it then has one estimator per node in order, with the node's name and bins, the first surface of the given name and one sensitivity per request with the first perturbation of the given name, all scores zero. A missing surface raises an exception, a missing perturbation or nuclide and rejected bins terminate the program. Lookup by name returns the first match and raises an exception otherwise. With unique names the set satisfies all preconditions of the scoring and driver results, and every state scored in a history has an accumulated effect for every perturbation, so that its sensitivities can be scored.", "quantifier": "every world, every list of perturbation and estimator nodes, every history", "why_tests_cant": "All documents and all histories; failure outcomes depend on which reference is missing first.", "anchors": ["src/Estimator.cpp: Estimator::Create, EstimatorSet, FindEstimatorByName", "src/Perturbation.cpp: PerturbationSet", "src/Sensitivity.cpp: Sensitivity::Create", "src/Scorable.cpp: Scorable"]}
{"id": "C58", "title": "A document gives the driver it describes or is reported", "statement": "Driver::Create on a document that the schema accepts gives a driver exactly when everything the document refers to is defined and used, the data of the used nuclides can be read, integers fit their types, bins and directions are possible and surface tracking is only asked for with a constant temperature; the driver then has the world, perturbations, estimators, batch size, seed, threads, tracking method and source that the document describes, with a source group among the groups. A document that the schema rejects, and one that gives no driver, raises an exception.", "quantifier": "every document tree, every content of the data files, every placement of objects in memory", "why_tests_cant": "All documents: every element can be missing, repeated, malformed or refer to something absent, and the failure depends on which check comes first.", "anchors": ["src/Driver.cpp: Driver::Create, Driver::Driver", "src/FixedSource.cpp: FixedSource::FixedSource", "src/KEigenvalue.cpp: KEigenvalue::KEigenvalue", "src/XMLDocument.cpp: XMLDocument", "test/minimc.xsd", "test/minimc_basictypes.xsd"]}
{"id": "C59", "title": "The free gas correction is the mean relative speed of a Maxwell gas", "statement": "The factor by which the free gas model adjusts a cross section is the mean relative speed between the neutron and atoms with Maxwell distributed velocities at the given temperature, divided by the speed of the neutron, whatever mass is taken for the neutron. Hence, where the model applies, the scatter cross section at the temperature of the place and the tabulated one are in the ratio of the mean relative speeds at the two temperatures (for a table at 0 K, the neutron's own speed).", "quantifier": "all energies, temperatures, atomic weights, tables and masses", "why_tests_cant": "An identity between a closed formula with an error function and a double integral over all speeds and directions.", "anchors": ["src/ContinuousReaction.cpp: ContinuousScatter::GetCrossSection, ContinuousScatter::GetFreeGasScatterAdjustment"]}
{"id": "C60", "title": "Energy transfer distributions are taken from neighbouring incident energies", "statement": "Between two tabulated incident energies the upper one's energy-transfer distribution is used with probability equal to the linear interpolation weight and the lower one's otherwise; below the lowest tabulated energy the lowest one's is used; the data read is the data stored for the chosen energy.", "quantifier": "every energy grid, partition layout, incident energy and uniform number", "why_tests_cant": "All grids and arguments; a distributional claim.", "anchors": ["src/ThermalScattering.cpp: SampleBeta"]}
{"id": "C61", "title": "Energy and momentum transfers follow the tabulated distributions", "statement": "An energy transfer sampled from a chosen distribution is at most x with the probability that linear interpolation of the tabulated cumulative distribution gives x; a momentum transfer follows the tabulated distribution restricted to the kinematically allowed range; nothing has to be resampled when the distribution's own incident energy is not above the neutron's, respectively ever for momentum transfers.", "quantifier": "every increasing table, every allowed range, every uniform number", "why_tests_cant": "An identity between distributions for all tables; sampling can only estimate it for one.", "anchors": ["src/ThermalScattering.cpp: SampleBeta, SampleAlpha, find_cdf"]}
{"id": "C62", "title": "The target of a free gas collision is chosen in proportion to the rate at which atoms are met", "statement": "The rejection loop of free gas scattering returns the first accepted proposal made from the successive random numbers of the particle. With independent uniform numbers it ends with probability one, and the speed and cosine of the chosen atom have the density of Maxwell's distribution times the relative speed of neutron and atom, divided by the mean relative speed.", "quantifier": "all neutron energies, temperatures and atomic weights above zero, every measurable set of speeds and cosines, every number of rounds", "why_tests_cant": "A statement about the distribution of the result of a loop that may take any number of rounds.", "anchors": ["src/ContinuousReaction.cpp: ContinuousScatter::Interact"]}
{"id": "C63", "title": "A tentative collision is real with the ratio of total and majorant at its place", "statement": "With delta tracking, when no surface comes before the tentative collision, the particle flies to it; the collision is real exactly when the second number drawn is below the ratio of the total and the majorant cross section at the place of the tentative collision; otherwise only position, generator state, event and perturbation effects change.", "quantifier": "every particle, cell, material, temperature field, generator state and fuel", "why_tests_cant": "All states; whether the ratio is taken before or after the flight only shows where cross sections vary along it.", "anchors": ["src/TransportMethod.cpp: CellDeltaTracking::Transport"]}
{"id": "C64", "title": "Names in accepted documents are unique and results do not depend on the number of threads", "statement": "In a document that the schema accepts, the surfaces, materials, nuclides, cells, estimators and perturbations have unique names. Hence every driver made from a document has zeroed estimators of distinct names with usable bins and at least one thread, the result of a fixed-source problem is what its histories give one after another, and two documents that differ in nothing but the number of threads give the same result.", "quantifier": "every document, every schedule of the threads", "why_tests_cant": "All documents and all interleavings.", "anchors": ["test/minimc.xsd", "src/Driver.cpp: Driver::Create", "src/FixedSource.cpp: FixedSource::Solve"]}
{"id": "C65", "title": "A well posed multigroup problem runs to its end", "statement": "Every history of a well posed multigroup problem ends with scored states, all of them of particles in one of the groups, and Solve returns a result under every schedule of its threads: no exception, no failed assertion, no undefined behaviour in the source, in transport, in the bank of secondaries or in scoring. A problem made from an accepted document is well posed if its cells cover space, something reacts in each group and material, and the source is in one of the groups and in a material.", "quantifier": "every well posed multigroup problem, every history, every schedule of the threads", "why_tests_cant": "All geometries, data and seeds, with chains of fission secondaries of any length.", "anchors": ["src/FixedSource.cpp: FixedSource::Solve", "src/Bank.cpp", "src/TransportMethod.cpp", "src/Multigroup.cpp", "src/Estimator.cpp", "test/minimc.xsd, test/minimc_basictypes.xsd"]}
{"id": "C66", "title": "A sound continuous-energy problem runs to its end", "statement": "In a continuous-energy problem with sound tables, a neutron that starts in a material is transported to the end of its life by either method, every state and every banked secondary having a positive energy; every history ends and Solve returns a result under every schedule of its threads. No exception, no failed assertion, no undefined behaviour and no number that is not a number arises on the way.", "quantifier": "every sound continuous-energy problem, with or without thermal scattering data, every history, every random sequence, both transport methods, every schedule of the threads", "why_tests_cant": "All geometries, tables, temperatures and seeds, with random walks and chains of fission secondaries of any length.", "anchors": ["src/TransportMethod.cpp: SurfaceTracking::Transport, CellDeltaTracking::Transport", "src/Continuous.cpp", "src/ContinuousReaction.cpp: ContinuousScatter::Interact, ContinuousFission::Interact", "src/ThermalScattering.cpp: ThermalScattering::Scatter, ThermalScattering::GetTotal, ThermalScattering::GetMajorant", "src/FixedSource.cpp: FixedSource::Solve"]}
{"id": "C67", "title": "The output file can be read back", "statement": "A number is printed so that reading it gives it to seven digits. From the text printed of a result a reader recovers the number of histories and, for each estimator in order, its name, the boundaries of its bins, the mean and standard deviation in each bin, and the same for each of its sensitivities; a standard deviation is missing exactly where its variance is negative.", "quantifier": "every real number; every result with a total weight other than zero and names of one line each", "why_tests_cant": "Every value, including those that round up to a power of ten, and every number of estimators, sensitivities and bins.", "anchors": ["src/Scorable.cpp: GetScoreAsString", "src/Bins.cpp: to_string", "src/Estimator.cpp: Estimator::to_string, EstimatorSet::to_string", "src/Sensitivity.cpp: to_string", "src/minimc.cpp"]}
{"id": "C68", "title": "What a run of the program does to the files", "statement": "The only file that a run may change is the input path with its extension replaced by .out. Unless exactly one argument names a well formed and accepted document, the program is aborted and no file is touched. If the run succeeds on a fixed source document then the output file can be read and gives, for each estimator and sensitivity of the document, the mean and standard deviation of the sums of scores of the histories.", "quantifier": "every argument list, file system, document and schedule of the threads", "why_tests_cant": "All documents and all outcomes of all histories; file names of any form.", "anchors": ["src/minimc.cpp: main", "src/Driver.cpp: Driver::Create", "src/FixedSource.cpp: FixedSource::Solve", "src/KEigenvalue.cpp: KEigenvalue::Solve"]}
{"id": "C69", "title": "Absorbers: straight flights that end", "statement": "If nothing in a well posed multigroup problem scatters or fissions and all material lies within a ball, then every history is a straight flight from the source along the sampled direction that crosses surfaces, each further than the one before, and ends with a capture or a leak within a number of steps that the size of the ball bounds. On a document of such a problem the program can only succeed, and it writes a readable result.", "quantifier": "every such problem and document, every history, both transport methods, every schedule of the threads", "why_tests_cant": "All geometries, data and seeds, with a bound on the number of steps that holds for all of them.", "anchors": ["src/TransportMethod.cpp", "src/Multigroup.cpp", "src/FixedSource.cpp: FixedSource::Solve", "src/minimc.cpp: main"]}
{"id": "C70", "title": "Attenuation along a straight way", "statement": "A neutron of a group passes a straight way through any cells with material without collision exactly if the flights made of the numbers it draws, one for each part of the way, reach the nearest surfaces. If these numbers are independent, that has the probability exp(-tau) with either transport method, where tau, the optical depth, is the sum of length times macroscopic cross section over the parts; it is the line integral of the macroscopic cross section of the place along the way, up to the short steps taken beyond each surface. In an absorber a history ends with a leak exactly in that case, and with a capture otherwise.", "quantifier": "every well posed multigroup world, way, group, direction and transport method", "why_tests_cant": "A statement about a probability distribution, for all geometries and data.", "anchors": ["src/TransportMethod.cpp: SurfaceTracking::Transport", "src/TransportMethod.cpp: CellDeltaTracking::Transport", "src/Material.cpp: Material::GetMicroscopicTotal", "src/Cell.cpp: Cell::NearestSurface", "src/World.cpp: World::FindCellContaining"]}
{"id": "C71", "title": "The current estimator is unbiased in an absorber", "statement": "In a multigroup problem whose materials only absorb, the score that a history makes for a current estimator is, in the bin of its direction and energy, the number of crossings of the surface on the part of its way that its numbers let it pass, and zero in all other bins. If the numbers are independent, the mean of that score is the sum, over the crossings of the surface by the way, of exp(-tau) of the optical depth tau up to there, with either transport method; with independent numbers for each history the average over the histories almost surely tends to that mean.", "quantifier": "every well posed absorbing multigroup problem with bounded material, surface, bins, history and transport method", "why_tests_cant": "A limit over endlessly many histories of a random quantity, for all geometries and data.", "anchors": ["src/Estimator.cpp: CurrentEstimator::GetScore", "src/Particle.cpp: Particle::Transport", "src/TransportMethod.cpp: SurfaceTracking::Transport", "src/TransportMethod.cpp: CellDeltaTracking::Transport", "src/Bins.cpp: ParticleBins::GetIndex"]}
{"id": "C72", "title": "Uniform random numbers in double precision", "statement": "With every operation rounded to a nearest double, the uniform numbers made from the generator are doubles strictly between 2^-32 and 1 - 2^-32, within a relative error of 5 * 2^-53 of the number computed without rounding, and the generator moves as without rounding. Without rounding the smallest number is 1899818558 / (2^31-2)^2 and the largest 1 - 1899818559 / (2^31-2)^2, both attained, so that no sampled flight is longer than log((2^31-2)^2 / 1899818559), less than 22, mean free paths.", "quantifier": "every rounding to a nearest double (ties decided in any way), every state of the generator, every positive rate", "why_tests_cant": "There are 2^31-2 states, and a statement about all roundings; a test cannot show that 0 and 1 never occur.", "anchors": ["src/BasicTypes.hpp: Real, RNG", "src/Particle.cpp: Particle::Sample", "src/TransportMethod.cpp: SurfaceTracking::Transport"]}
{"id": "C73", "title": "Selections in double precision always end", "statement": "With rounded sums, products and random numbers, the choice of a nuclide, of a multigroup reaction and of an outgoing group always finds an item (the loops never run past their end into the assertion), the item found has a positive weight, and the random number lies in its piece of the total or closer to it than (2n+9) * 2^-53 of the total for n items. Away from the ends of the pieces the item is the one chosen without rounding. The number of fission neutrons is the yield rounded down or up.", "quantifier": "every rounding to a nearest double, every material, table, particle and state of the generator; outgoing groups: fewer than 2^20 groups; fission: yields below 2^20", "why_tests_cant": "Failures would need rounding errors that add up over many items and a random number next to 1: no test set covers them.", "anchors": ["src/Particle.cpp: Particle::SampleNuclide", "src/Material.cpp: Material::GetMicroscopicTotal", "src/Multigroup.cpp: Multigroup::Interact", "src/Multigroup.cpp: Multigroup::Scatter", "src/Multigroup.cpp: Multigroup::Fission", "src/Multigroup.cpp: NormalizedTwoDimensional"]}
{"id": "C74", "title": "Equal bins in double precision", "statement": "With rounded arithmetic an index never leaves the vector of scores, only values below the lower edge get the underflow bin, larger values never get smaller indices, and a value between the edges of a bin gets its index. The last part holds for values further from the edges than 5 (b+2) * 2^-53 of the width of a bin, b being the number of bins.", "quantifier": "every rounding to a nearest double, every grid of up to 2^50-2 bins, every value", "why_tests_cant": "The values concerned are the doubles next to the edges of arbitrary grids.", "anchors": ["src/Bins.cpp: LinspaceBins::GetIndex", "src/Bins.cpp: LinspaceBins::LinspaceBins", "src/Bins.cpp: LogspaceBins::GetIndex"]}
{"id": "C75", "title": "Crossing planes in double precision", "statement": "A particle sent across a plane ends on the other side of it, with rounded arithmetic too. It does if 4 |c - x| + |c| <= 19 |d_x| (towards smaller x) or 4 |c - x| <= 19 d_x (towards larger x) for a plane at c, a particle at x and the direction cosine d_x. A plane is seen exactly when it is without rounding, at a distance within two roundings of the exact one. The square root in the test for a cylinder never meets a negative number.", "quantifier": "every rounding to a nearest double, every plane, position and direction", "why_tests_cant": "The outcome depends on single roundings; a statement about all positions and directions.", "anchors": ["src/Constants.hpp: nudge", "src/TransportMethod.cpp: SurfaceTracking::Transport", "src/Particle.cpp: Particle::Stream", "src/CSGSurface.cpp: PlaneX::Distance", "src/CSGSurface.cpp: PlaneX::Contains", "src/CSGSurface.cpp: CylinderX::Contains"]}
{"id": "C76", "title": "Scores in double precision", "statement": "With every operation rounded to a nearest double: the scores of a current are the exact numbers of crossings and the exact sums of their squares, hence the same to the last bit for every number of threads and every schedule, as long as no sum of squares exceeds 2^53; the printed mean is the double nearest to the exact mean; the printed standard deviation is a number, zero exactly when all histories have the same number of crossings, and its square differs from that of the standard error of the mean by at most 8 * 2^-53 of the mean square over the number of histories. Sensitivities, too, are the same for every schedule.", "quantifier": "every rounding to a nearest double, all histories, all distributions of them over any number of workers, any bins; standard deviations: at most 94906265 crossings in total", "why_tests_cant": "Differences between schedules show up in single bits and rarely; the failure of the standard deviation needs hundreds of millions of histories.", "anchors": ["src/Scorable.cpp: ScorableProxy::Score", "src/Scorable.cpp: ScorableProxy::CommitHistory", "src/Scorable.cpp: Scorable::operator+=", "src/Scorable.cpp: Scorable::GetScoreAsString", "src/FixedSource.cpp: FixedSource::Solve", "src/FixedSource.cpp: FixedSource::StartWorker", "src/Sensitivity.cpp: CurrentTotalCrossSectionSensitivity::GetScore"]}
{"id": "C77", "title": "The current estimator solves the transport equation", "statement": "In a multigroup problem, whatever a crossing of a surface scores, the states of a neutron score in its first n rounds exactly what a game of flights, passages and collisions scores that is played with the successive numbers of its generator; without fission, what the current estimator counts in a bin during a history is the score of that game. If the numbers are independent, the mean score, as a function of the cell, place, direction and group where a neutron starts, satisfies the integral transport equation with scattering (isotropic emission along the flight and passage through the nearest surface, both attenuated); it is the smallest solution, is approached round by round, is the same for both transport methods, is at most one if only leaving scores, and with independent numbers for each history the average score almost surely tends to it if it is finite.", "quantifier": "every well posed multigroup problem, surface, bins, score function, starting point, direction and group, either transport method; the history theorem: no fission and a history that ends", "why_tests_cant": "A statement about the mean and the limit of endlessly many random walks with arbitrarily many collisions, for all geometries and data.", "anchors": ["src/Particle.cpp: Particle::Transport", "src/TransportMethod.cpp: SurfaceTracking::Transport", "src/TransportMethod.cpp: CellDeltaTracking::Transport", "src/Multigroup.cpp: Multigroup::Interact", "src/Multigroup.cpp: Multigroup::Scatter", "src/Particle.cpp: Particle::SampleNuclide", "src/Estimator.cpp: CurrentEstimator::GetScore", "src/Bins.cpp: ParticleBins::GetIndex", "src/Cell.cpp: Cell::NearestSurface"]}
{"id": "C78", "title": "With fission the current estimator solves the transport equation of multiplying media", "statement": "In a multigroup problem with fission, what the current estimator counts in a bin during a history is exactly the score of a game played by the source neutron and all its descendants, in which the yield is rounded by one number, each new neutron draws its group and direction from its parent's numbers, starts where the fission was in the first cell that it is in, and gets its own numbers. If all these numbers are independent, the mean score satisfies the integral transport equation with scattering and fission (yield and spectrum as given by the data); it is the smallest solution, is approached round by round, is the same for both transport methods, is the mean of C77 if there is no fission, is at most one if a collision leaves at most one neutron on average and only leaving scores, and with independent numbers for each history the average score almost surely tends to it if it is finite.", "quantifier": "every well posed multigroup problem, surface, bins, score function, starting point, direction and group, either transport method; the history theorem: a history that ends", "why_tests_cant": "A statement about the mean and the limit of endlessly many branching random walks with arbitrarily many descendants, for all geometries and data.", "anchors": ["src/FixedSource.cpp: FixedSource::StartWorker", "src/Particle.cpp: Particle::Transport", "src/Particle.cpp: Particle::BankSecondaries", "src/Particle.cpp: Particle::MoveSecondariesTo", "src/TransportMethod.cpp: SurfaceTracking::Transport", "src/TransportMethod.cpp: CellDeltaTracking::Transport", "src/Multigroup.cpp: Multigroup::Interact", "src/Multigroup.cpp: Multigroup::Fission", "src/Multigroup.cpp: Multigroup::Scatter", "src/Particle.cpp: Particle::SampleNuclide", "src/Estimator.cpp: CurrentEstimator::GetScore"]}
{"id": "C79", "title": "The printed mean and standard deviation estimate the solution of the transport equation and its error", "statement": "For every bin of every current estimator, a run of a multigroup problem prints the mean and the standard error of the scores of one and the same game, played once for each history with the generator that starts at the seed plus the number of the history; the game includes the source, which gives each neutron its direction (fixed, all directions alike, or in proportion to the cosine with a reference direction). If the numbers are independent, then the mean score of a history is the mean of the solution of the transport equation (C78) over the directions of the source; its mean square is bounded if each collision leaves less than one neutron on average; the printed mean tends to that solution; the printed standard deviation, times the square root of the number of histories, tends to the true standard deviation of a history; and the solution is within k printed standard deviations of the printed mean with a probability that tends to that of the normal distribution.", "quantifier": "every well posed multigroup problem, source, estimator and bin, number of threads, schedule, number of histories (in the limit), k; finite mean square where needed, variance not zero for the last statement", "why_tests_cant": "Laws of large numbers and a central limit theorem for branching random walks in arbitrary geometries: no finite number of runs shows what the printed error means.", "anchors": ["src/FixedSource.cpp: FixedSource::Solve", "src/FixedSource.cpp: FixedSource::StartWorker", "src/Source.cpp: Source::Sample", "src/Source.cpp: IsotropicFlux::Sample", "src/Source.cpp: IsotropicDistribution::Sample", "src/Scorable.cpp: Scorable::GetScoreAsString", "src/Estimator.cpp: CurrentEstimator::GetScore", "src/Particle.cpp: Particle::Transport"]}
{"id": "C80", "title": "Free gas collisions keep thermal equilibrium", "statement": "Let the flux of neutrons have the energies of thermal equilibrium at a temperature, with density proportional to e exp(-e/kT), and all directions evenly, and let the cross section be adjusted to that temperature as ContinuousScatter::GetFreeGasScatterAdjustment does. Then collisions as ContinuousScatter::Interact makes them, with independent uniform numbers, do not change the flux: for every set of directions and energies, neutrons leave collisions in that set at the rate at which they enter collisions in it, and for every two sets, they go from the first to the second at the rate at which they go from the second to the first (detailed balance). The outcome of a collision of the program is a fixed function of the random numbers of the particle, and with independent numbers a collision ends with probability one.", "quantifier": "every mass ratio and temperature above zero, every measurable set of outgoing directions and energies, every particle with a valid generator state", "why_tests_cant": "The joint law of a rejection loop, two random turns in a moving frame and one more turn about the old direction, averaged over a continuous spectrum: a histogram of samples cannot tell an exact equilibrium from one that drifts slowly.", "anchors": ["src/ContinuousReaction.cpp: ContinuousScatter::Interact", "src/ContinuousReaction.cpp: ContinuousScatter::GetFreeGasScatterAdjustment", "src/ContinuousReaction.cpp: ContinuousScatter::GetCrossSection", "src/Particle.cpp: Particle::Scatter", "src/Point.cpp: Direction::Direction(const Direction&, const Real&, const Real&)"]}
{"id": "C81", "title": "The current estimator solves the transport equation of continuous energy with thermal motion and fission", "statement": "In a problem with continuous energies whose materials are gases, each cell at one temperature above zero, what a current estimator counts in a history that ends is the score of a game played with the particles' own random numbers. If the numbers are independent and uniform, the mean score is the smallest solution of the integral transport equation: along each flight the neutron is attenuated by the sum of the cross sections at the temperature of the cell, scattering is off atoms with Maxwellian velocities met in proportion to the relative speed and isotropic in the frame of the centre of mass, fission emits the tabulated mean number of neutrons evenly in all directions with the energy of the neutron that causes it, and crossing the surface of the estimator scores. The mean is the same with surface tracking and with cell delta tracking. It is at most one if collisions do not multiply neutrons, and then averages over histories tend to it.", "quantifier": "every geometry, composition and set of tables of a sound problem, every surface and binning, every source direction, position and energy, every measurable score of crossings; both transport methods", "why_tests_cant": "The estimator is compared with the solution of an integral equation over position, direction and energy whose kernel contains the thermal motion; tests compare finitely many histories of a few problems with a reference within statistical error, and cannot see a small bias of the kernel.", "anchors": ["src/TransportMethod.cpp: SurfaceTracking::Transport", "src/TransportMethod.cpp: CellDeltaTracking::Transport", "src/Continuous.cpp: Continuous::Interact", "src/Continuous.cpp: Continuous::GetTotal", "src/ContinuousReaction.cpp: ContinuousScatter::Interact", "src/ContinuousReaction.cpp: ContinuousScatter::GetCrossSection", "src/ContinuousReaction.cpp: ContinuousFission::Interact", "src/Particle.cpp: Particle::SampleNuclide", "src/FixedSource.cpp: FixedSource::StartWorker", "src/Particle.cpp: Particle::BankSecondaries", "src/Estimator.cpp: CurrentEstimator::GetScore"]}
{"id": "C82", "title": "Histories end and the transport equation has one solution when collisions leave fewer neutrons than they take", "statement": "In a multigroup problem in which a collision leaves on average at most k neutrons (scattered or made by fission), with k below one, a neutron and all its descendants make on average at most (K+1)/(1-k) flights, where K is the largest number of crossings of a straight line with the surfaces of the cells: twice the number of spheres and cylinders plus the number of planes. So with independent uniform random numbers the bank of a history is almost surely worked off after finitely many flights, the chance of N flights or more is at most (K+1)/((1-k)N), a current estimator has a finite mean, this mean is the only bounded solution of the integral transport equation, and averages over histories tend to it. In the program the states of a history that ends are exactly these flights played with the particles' own random numbers, and a history whose game has at most N flights ends within N rounds of its loops, unless a fission neutron starts in a cell without material.", "quantifier": "every geometry, composition and multigroup data of a well posed problem with k < 1; every starting cell, point, direction and group; every bounded measurable score of crossings; every source and history; both transport methods", "why_tests_cant": "Termination and uniqueness are statements about all random sequences and all functions; tests run finitely many histories that happened to end, and cannot bound how long a history may be.", "anchors": ["src/TransportMethod.cpp: SurfaceTracking::Transport", "src/TransportMethod.cpp: CellDeltaTracking::Transport", "src/FixedSource.cpp: FixedSource::StartWorker", "src/Multigroup.cpp: Multigroup::Fission", "src/Particle.cpp: Particle::BankSecondaries", "src/CSGSurface.cpp: SolveQuadratic", "src/Estimator.cpp: CurrentEstimator::GetScore"]}
{"id": "C83", "title": "The average score of a sensitivity tends to the derivative of the current", "statement": "In an absorber the scores of a sensitivity to a nuclide's cross section average, over ever more histories with independent uniform random numbers, to the derivative with respect to that cross section of the mean score of its current estimator.", "quantifier": "every geometry, composition and data of an absorbing multigroup problem, every source position and direction with a way out of the materials, every surface and nuclide, both transport methods", "why_tests_cant": "The limit over all random sequences and a derivative over all cross sections are not observable in a run; a finite run shows a number without anything to compare it with.", "anchors": ["src/Sensitivity.cpp: CurrentTotalCrossSectionSensitivity::GetScore", "src/Perturbation.cpp: TotalCrossSectionPerturbation::Stream", "src/Particle.cpp: Particle::Stream", "src/Particle.cpp: Particle::GetIndirectEffect", "src/TransportMethod.cpp: SurfaceTracking::Transport", "src/TransportMethod.cpp: CellDeltaTracking::Transport", "src/Estimator.cpp: CurrentEstimator::GetScore"]}
{"id": "C84", "title": "Thermal scattering turns every sequence of random numbers into the tabulated energy and momentum transfers", "statement": "When the thermal scattering tables cover the energy of a neutron and its temperature is tabulated, scattering moves it to the energy and angle that belong to an energy transfer and a momentum transfer, which are the values at successive random numbers of the tabulated distributions, restricted to what the neutron can afford and to the momentum transfers its energies allow; it fails only if ten energy transfers in a row cannot be afforded.", "quantifier": "every pair of tables, temperature, scatterer mass, incident energy, direction and random state; for the probabilities, every sequence of independent uniform numbers", "why_tests_cant": "A test fixes a table and a seed; the probability of each energy transfer, of giving up after ten attempts and of hitting a tabulated energy exactly cannot be seen in a run.", "anchors": ["src/ThermalScattering.cpp: ThermalScattering::Scatter", "src/ThermalScattering.cpp: ThermalScattering::SampleBeta", "src/ThermalScattering.cpp: ThermalScattering::SampleAlpha", "src/ThermalScattering.cpp: ThermalScattering::ThermalScattering"]}
{"id": "C85", "title": "Searching a table finds the number of entries not above the value", "statement": "Searching the boundaries of bins, the energies and temperatures of thermal data or the cumulative probabilities of a distribution finds the number of entries that are not above the value; in tables that are not increasing it still finds a place between an entry not above the value and one above it.", "quantifier": "every table, of any length, and every value", "why_tests_cant": "The library's bisection compares with a few entries only; a test sees a few tables and values, not every length, boundary case and order.", "anchors": ["src/Bins.cpp: BoundaryBins::GetIndex", "src/ThermalScattering.cpp: GetTotal, SampleBeta, SampleAlpha (find_cdf), BetaPartition::Evaluate, AlphaPartition::Evaluate, ThermalScattering ctor"]}
{"id": "C86", "title": "Undefined behaviour in a history has a closed list of causes", "statement": "With data whose tables are not empty and whose yields are not negative, transporting a particle has undefined behaviour exactly if the particle is still alive and starts in a cell without material; a whole history has it only if some particle of it starts there, and scoring only if the logarithm of a value that is not positive is binned.", "quantifier": "every world with such data, every particle, every seed, every set of estimators, both tracking methods, histories of any length", "why_tests_cant": "Undefined behaviour need not show: a test that passes may have run through it, and no set of tests reaches every read of every table.", "anchors": ["src/TransportMethod.cpp: SurfaceTracking::Transport, CellDeltaTracking::Transport", "src/ContinuousMap.hpp: at", "src/Multigroup.cpp: Fission", "src/ContinuousReaction.cpp: ContinuousFission::Interact", "src/ThermalScattering.cpp: ThermalScattering ctor, SampleBeta, SampleAlpha", "src/Bins.cpp: LogspaceBins::GetIndex"]}
{"id": "C87", "title": "The scattering cross section accounts for the motion of the atoms to half a percent", "statement": "Outside of the range of thermal scattering data, the scattering cross section reported for a neutron is at most half a percent below the one that accounts exactly for the thermal motion of the atoms (the tabulated one times the ratio of the mean relative speeds at the temperature of the place and of the table), and never above it; where the neutron is too fast for the free gas model the difference is at most 0.11 percent; the slope in the square root of E/kT is the documented one.", "quantifier": "every table, every energy and mass, every temperature of the table and every temperature of the place", "why_tests_cant": "The three branches of the code are approximations of one function of energy, mass and two temperatures; tests compare a few points, and the error is largest at the edges between the branches.", "anchors": ["src/ContinuousReaction.cpp: ContinuousScatter::GetCrossSection, IsFreeGasScatteringValid, GetFreeGasScatterAdjustment", "src/ContinuousEvaluation.cpp: IsValid", "doc/transport_methods.dox"]}
{"id": "C88", "title": "Directions stay unit vectors in double precision", "statement": "With every operation rounded to double precision, every direction a particle can have (read from the input, made from a velocity, drawn at random, or turned by any number of scatterings) has unit length up to 2^-48. A scattering by any cosine in [-1, 1] and any azimuth gives a direction whose scalar product with the old one is that cosine up to 2^-44 and whose azimuth is the one asked for. A cosine outside [-1, 1] by one unit in the last place gives no number; the cosine computed in free gas scattering never leaves [-1, 1].", "quantifier": "every rounding to nearest, every cosine and sine accurate to 2^-52, every vector, generator state, cosine, azimuth and number of scatterings", "why_tests_cant": "The errors are of the order of 1e-16 and the failing cosines are single doubles just above 1, hit by few directions; whether errors accumulate shows only after more scatterings than a test makes.", "anchors": ["src/Point.cpp: Point::Normalize, Point::Cross, Direction constructors", "src/Constants.hpp: on_axis_tolerance", "src/ContinuousReaction.cpp: ContinuousScatter::Interact"]}
{"id": "C89", "title": "Spheres in double precision", "statement": "With every operation rounded to double precision, for every sphere, position and direction of nearly unit length: whether a point counts as inside agrees with geometry up to rounding; from inside a sphere its surface is always seen and the way to it stays inside; a distance that is found is positive and leads to the surface; from outside nothing of the sphere lies before the point found; a sphere that is not seen does not contain the particle and is not entered. A particle that is sent into a sphere is next found inside it.", "quantifier": "every rounding to nearest, every centre, radius, position and direction with squared length within 2^-48 of 1", "why_tests_cant": "Cancellation in the quadratic equation depends on the last digits of positions and directions; a particle that flies through a sphere with the wrong material produces no error and shifts results only slightly.", "anchors": ["src/CSGSurface.cpp: CSGSurface::SolveQuadratic, Sphere::Distance, Sphere::Contains", "src/TransportMethod.cpp: SurfaceTracking::Transport", "src/Constants.hpp: nudge"]}
{"id": "C90", "title": "Random numbers of different histories are unrelated", "statement": "At every point of every history, every state of the generator occurs for exactly one seed, so that each history by itself is fair. What one history draws says nothing about what the others draw at the same point; for example, with an isotropic source the directions of consecutive histories are unrelated.", "quantifier": "every seed, every pair of histories, every number of draws", "why_tests_cant": "Correlations between histories leave every single history and the averages right; they show only in joint distributions of histories, which no test looks at, and make the printed standard deviations meaningless.", "anchors": ["src/FixedSource.cpp: FixedSource::StartWorker", "src/Source.cpp: Source::Sample", "src/Point.cpp: Direction::Direction(RNG&)", "src/BasicTypes.hpp: RNG"]}
{"id": "C91", "title": "In delta tracking, flights through a cell that is not evenly warm follow the local cross section", "statement": "When a particle flies through a cell whose temperature, and with it the total cross section, changes along the path, the chance that cell delta tracking lets it fly further than a distance t without collision is the exponential of minus the integral of the total cross section up to t.", "quantifier": "every particle and cell, every total cross section along the path that stays below the majorant and is continuous but for countably many places, every distance", "why_tests_cant": "A test compares counts in cells of one temperature. That flights towards hotter places are too long shows only in the distribution of infinitely many flights along a gradient, and the error depends on all tentative collisions on the way.", "anchors": ["src/TransportMethod.cpp: CellDeltaTracking::Transport", "src/ScalarField.cpp: LinearField::at", "src/Material.cpp: Material::GetMicroscopicTotal"]}
{"id": "C92", "title": "Every neutron that is born dies once", "statement": "In every history that runs to its end, captures, leaks and fissions together are as many as neutrons: the one from the source and those that the fissions have put into the bank; nothing but a fission puts neutrons into the bank, and there are fissions only where a nuclide has a fission reaction. So without fission reactions the captures and leaks of a solution are as many as its histories, and an estimator on a surface through which particles only leave prints proportions: the fractions of histories that left in each bin, together at most one, with the error of a proportion.", "quantifier": "every problem, transport method, history, number of threads and schedule; every number of generations", "why_tests_cant": "A neutron that is lost or transported twice in a rare branch, or a secondary banked by a collision that is not a fission, changes averages by less than their error.", "anchors": ["src/FixedSource.cpp: FixedSource::StartWorker", "src/Particle.cpp: Particle::Transport, BankSecondaries, IsAlive", "src/Multigroup.cpp: Multigroup::Interact", "src/ContinuousReaction.cpp: ContinuousFission::Interact", "src/Scorable.cpp: Scorable::GetScoreAsString"]}
{"id": "C93", "title": "A long run is the sum of short runs", "statement": "A run of N + M histories with seed s scores exactly what a run of N histories with seed s and a run of M histories with seed s + N score together, whatever the numbers of threads and the schedules of the three; the mean it prints is the mean of theirs weighted with the numbers of histories. If the long run ends, the two short ones end too.", "quantifier": "every problem, every N and M, every number of threads and every schedule of the three runs", "why_tests_cant": "Restarting or splitting a run can go wrong for one history in a billion, or only when a worker of one run has finished at a certain moment; comparing two printed results shows neither.", "anchors": ["src/FixedSource.cpp: FixedSource::Solve, StartWorker", "src/Driver.cpp: Driver::Driver", "src/Estimator.cpp: EstimatorSet::operator+=, to_string", "src/Scorable.cpp: Scorable::GetScoreAsString"]}
{"id": "C94", "title": "Runs with different seeds share no histories", "statement": "Two runs of N histories of the same problem with different seeds have no history in common, so that their results agree no better than two independent samples do.", "quantifier": "every problem, every pair of seeds, every number of histories and threads, every schedule", "why_tests_cant": "A test that runs two seeds sees two different results. That nearly all histories are the same ones shows only when single histories of the two runs are compared, or the spread over many seeds with the printed error.", "anchors": ["src/FixedSource.cpp: FixedSource::StartWorker, Sample", "src/Driver.cpp: Driver::Driver", "src/Estimator.cpp: EstimatorSet::operator+="]}
{"id": "C95", "title": "Results do not depend on where the origin is", "statement": "If the surfaces, the temperature fields and the source of a problem are all moved by the same vector (along x if there are cylinders), every history is the same history at moved places, and the program can write exactly the same outputs.", "quantifier": "every problem, every displacement, every seed, history and schedule, both tracking methods, continuous and multigroup physics, perturbations included", "why_tests_cant": "Inputs are written around the origin; a mistake that depends on absolute coordinates, like a nudge that is lost far out, shows only for neutrons that meet a surface in particular ways at particular places.", "anchors": ["src/CSGSurface.cpp: Sphere::Distance, PlaneX::Distance, CylinderX::Distance", "src/Cell.cpp: Cell::NearestSurface, Cell::Contains", "src/World.cpp: World::FindCellContaining", "src/TransportMethod.cpp: SurfaceTracking::Transport, CellDeltaTracking::Transport", "src/ScalarField.cpp: LinearField::at", "src/Source.cpp: Source::Sample"]}
{"id": "C96", "title": "Neutrons that start on a surface are followed through the cell they fly into", "statement": "A neutron that starts exactly on a surface is followed through the cell it flies into, and results change continuously when the source is moved onto a surface.", "quantifier": "every world of planes, spheres and cylinders of radius 0 or 1, every start on one or several surfaces, every direction; for the runs every slab of an absorber, every source distribution of directions, every seed, number of histories and schedule", "why_tests_cant": "A source on the face of a slab looks like a natural input. The program runs and prints plausible numbers; that the neutrons flying out are kept in the material shows only when the result is compared with one for a source a little beside.", "anchors": ["src/CSGSurface.cpp: PlaneX::Distance, PlaneX::Contains, Sphere::Contains", "src/Cell.cpp: Cell::Contains, Cell::NearestSurface", "src/World.cpp: World::FindCellContaining", "src/TransportMethod.cpp: SurfaceTracking::Transport", "src/Source.cpp: Source::Sample"]}
{"id": "C97", "title": "Results of runs with different seeds scatter as the printed standard deviation says", "statement": "If a problem is run with several seeds, the results differ by about as much as the standard deviations that are printed beside them.", "quantifier": "every isotropic source; every seed for which seed plus histories stays below 2^31 - 1; every number of histories that is the denominator of a convergent from below of the step of the generator; every schedule on every number of threads", "why_tests_cant": "A user who repeats a run finds results that agree better than expected, which looks like success. No set of runs shows that the agreement holds for every seed and is a property of the numbering of the seeds, not of the problem.", "anchors": ["src/FixedSource.cpp: FixedSource::StartWorker", "src/Source.cpp: Source::Sample", "src/BasicTypes.hpp: RNG", "src/Point.cpp: Direction::Direction", "src/Estimator.cpp: EstimatorSet"]}
{"id": "C98", "title": "The order in which surfaces, materials, nuclides and cells are listed does not matter", "statement": "Two input files that list the same surfaces, materials, nuclides and cells in different orders, or the nuclides of a material or the surfaces of a cell, give the same world and the same results.", "quantifier": "every pair of documents that the schema accepts and that differ only in order; every placement of the objects; every number of histories, threads and every schedule", "why_tests_cant": "The number of orders is the factorial of the number of elements, and a test suite has each input in one order. Whether a lookup takes the first match matters only for inputs in which two elements match.", "anchors": ["src/World.cpp: World::FindCellContaining", "src/World.cpp: World::CreateCells", "src/World.cpp: World::CreateCSGSurfaces", "src/World.cpp: World::CreateNuclides", "src/World.cpp: World::CreateMaterials", "src/Cell.cpp: Cell::Cell", "src/Material.cpp: Material::Material"]}
{"id": "C99", "title": "Results do not depend on how the problem is turned or on the tracking method, as far as distributions are concerned", "statement": "If a multigroup problem is turned or mirrored as a whole (surfaces, source and estimators) and run with either tracking method, the score of a history in every bin of every current estimator has exactly the same distribution, and so have the means and standard deviations that are printed.", "quantifier": "every rotation about the origin and every reflection in a plane through it that the surfaces of the cells allow (any at all for balls, those that keep the x axis otherwise); every well-posed multigroup world, source, surface, set of bins, number of histories, threads and every schedule; both tracking methods", "why_tests_cant": "The histories of the turned problem are others, so that results can be compared only within their statistical errors; a small dependence on the axes, in one of the places where directions are drawn or used, disappears in them.", "anchors": ["src/Point.cpp: Direction::Direction", "src/CSGSurface.cpp: Sphere::Distance", "src/CSGSurface.cpp: Sphere::Contains", "src/Source.cpp: IsotropicFlux::Sample", "src/Bins.cpp: ParticleBins::GetIndex", "src/TransportMethod.cpp: SurfaceTracking::Transport", "src/TransportMethod.cpp: CellDeltaTracking::Transport", "src/Multigroup.cpp: Multigroup::Scatter", "src/Multigroup.cpp: Multigroup::Fission"]}
