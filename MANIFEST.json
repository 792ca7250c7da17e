{
 "claims": [
  {
   "property": "C01",
   "status": "proved",
   "theorems": [
    "Minimc.Props.C01_direction_unit",
    "Minimc.Props.C01_direction_of_point_unit",
    "Minimc.Props.C01_direction_nan_iff"
   ],
   "note": "Exact over the reals; also: the constructor gives not-a-number exactly for the zero vector."
  },
  {
   "property": "C02",
   "status": "proved",
   "theorems": [
    "Minimc.Props.C02_isotropic",
    "Minimc.Props.C02_cosine_any_axis",
    "Minimc.Props.C02_random_direction_unit",
    "Minimc.Props.C02_random_direction_formula",
    "Minimc.Props.C02_cosine_uniform"
   ],
   "note": "Unit length and formula for every generator state. Distributions are measures of sets of uniform numbers: invariance under all rotations, uniform cosine with every axis."
  },
  {
   "property": "C03",
   "status": "proved",
   "theorems": [
    "Minimc.Props.C03_scatter_azimuth",
    "Minimc.Props.C03_rotated_direction",
    "Minimc.Props.C03_rotated_nan",
    "Minimc.Props.C03_cone_covered"
   ],
   "note": "Angle, length and coverage of the cone; behaviour outside |mu| <= 1 is not-a-number. The azimuth of Particle::Scatter is evenly distributed (C03_scatter_azimuth)."
  },
  {
   "property": "C04",
   "status": "proved",
   "theorems": [
    "Minimc.Props.C04_distance_first_crossing",
    "Minimc.Props.C04_no_missed_crossing"
   ],
   "note": "Sphere, x-plane, x-cylinder, any parameters."
  },
  {
   "property": "C05",
   "status": "proved",
   "theorems": [
    "Minimc.Props.C05_infinite_never_crosses"
   ],
   "note": ""
  },
  {
   "property": "C06",
   "status": "partial",
   "theorems": [
    "Minimc.Props.C06_contains_partial",
    "Minimc.Props.C06_contains_iff_conforming",
    "Minimc.Props.C06_side_constant_before_partial",
    "Minimc.Props.C06_side_flips_after_partial",
    "Minimc.Props.C06_side_changes_violated",
    "Minimc.Props.C06_on_surface_violated"
   ],
   "note": "Holds for spheres, planes and cylinders of squared radius 0 or 1. The code violates it for other cylinders (CylinderX::Contains compares with r^4) and for starts on the surface: negations proved."
  },
  {
   "property": "C07",
   "status": "proved",
   "theorems": [
    "Minimc.Props.C07_nearest",
    "Minimc.Props.C07_raises_iff_no_surfaces"
   ],
   "note": "Also: among equally near surfaces the first in address order is returned."
  },
  {
   "property": "C08",
   "status": "partial",
   "theorems": [
    "Minimc.Props.C08_first_cell_partial",
    "Minimc.Props.C08_raises_partial",
    "Minimc.Props.C08_geometric_side_partial",
    "Minimc.Props.C08_cylinder_violated"
   ],
   "note": "The lookup is right with respect to each surface's own Contains for all surfaces; with respect to the geometric side it holds for spheres, planes and cylinders of squared radius 0 or 1. The code violates it for other cylinders: negation proved."
  },
  {
   "property": "C09",
   "status": "partial",
   "theorems": [
    "Minimc.Props.C09_inside_cell_partial",
    "Minimc.Props.C09_cylinder_violated"
   ],
   "note": "Proved for worlds of spheres, planes and cylinders of squared radius 0 or 1, non-negative rates, and trajectories that never sit exactly on a surface. The code violates it for other cylinders: negation proved."
  },
  {
   "property": "C10",
   "status": "partial",
   "theorems": [
    "Minimc.Props.C10_index_lt_size_partial",
    "Minimc.Props.C10_index_exists_partial",
    "Minimc.Props.C10_index_violated",
    "Minimc.Props.C10_undefined_iff"
   ],
   "note": "Every index is below the bin count for every value for which one is computed; an index is computed except for a logarithmic grid and a non-positive or tiny value, where the conversion is undefined: exact criterion and witness proved."
  },
  {
   "property": "C100",
   "status": "proved",
   "theorems": [
    "Minimc.Props.C100_divided_amounts",
    "Minimc.Props.C100_well_posed",
    "Minimc.Props.C100_history",
    "Minimc.Props.C100_result",
    "Minimc.Props.C100_temperature",
    "Minimc.Props.C100_score",
    "Minimc.Props.C100_printed"
   ],
   "note": "C100_history and C100_result: nuclides divided, fractions scaled, other names and temperatures: the same crossings and the same printed means and standard deviations for the same seed. C100_temperature: in particular temperatures have no effect. C100_well_posed: the world with the nuclides divided is well posed. C100_divided_amounts: dividing keeps the numbers of nuclei. C100_score and C100_printed: any two problems with the same numbers of nuclei with the same data, in any order: scores with the same distribution, whose means and standard errors are printed."
  },
  {
   "property": "C101",
   "status": "proved",
   "theorems": [
    "Minimc.Props.C101_history",
    "Minimc.Props.C101_printed",
    "Minimc.Props.C101_neutron",
    "Minimc.Props.C101_mean",
    "Minimc.Props.C101_score",
    "Minimc.Props.C101_run",
    "Minimc.Props.C101_result",
    "Minimc.Props.C101_turned",
    "Minimc.Props.C101_methods"
   ],
   "note": "C101_history and C101_printed: what is counted and printed are scores of a game that is the same for all histories. C101_neutron, C101_score and C101_run: in related problems the scores of neutrons, of histories and everything calculated from independent histories have the same distribution. C101_mean: so have the solutions of the transport equation the same values. C101_result: what runs of both problems print. C101_turned: a world that is turned is related to the given one. C101_methods: the tracking method does not matter."
  },
  {
   "property": "C102",
   "status": "proved",
   "theorems": [
    "Minimc.Props.C102_turned",
    "Minimc.Props.C102_mixture",
    "Minimc.Props.C102_gases",
    "Minimc.Props.C102_run",
    "Minimc.Props.C102_table",
    "Minimc.Props.C102_turned_result",
    "Minimc.Props.C102_mixture_result",
    "Minimc.Props.C102_gases_result"
   ],
   "note": "C102_turned, C102_mixture and C102_gases: the joint distribution of all scores of a history, for turned multigroup problems, for multigroup problems with the same numbers of nuclei, and for gases. C102_run and C102_table: so have all functions of the scores of independent histories, and the printed table, the same distribution. C102_turned_result, C102_mixture_result and C102_gases_result: the tables that runs of the program print are tables of these scores."
  },
  {
   "property": "C103",
   "status": "proved",
   "theorems": [
    "Minimc.Props.C103_mean",
    "Minimc.Props.C103_second_moment",
    "Minimc.Props.C103_average",
    "Minimc.Props.C103_standard_deviation",
    "Minimc.Props.C103_confidence",
    "Minimc.Props.C103_result"
   ],
   "note": "C103_mean: mean of the score of a history. C103_second_moment: bound for its mean square. C103_average, C103_standard_deviation and C103_confidence: what printed means and standard deviations tend to, with a central limit theorem. C103_result: that a run prints them."
  },
  {
   "property": "C104",
   "status": "proved",
   "theorems": [
    "Minimc.Props.C104_point_between",
    "Minimc.Props.C104_point_outside",
    "Minimc.Props.C104_reactions",
    "Minimc.Props.C104_history",
    "Minimc.Props.C104_result"
   ],
   "note": "C104_point_between and C104_point_outside: points that change no value. C104_reactions: reactions with the same values. C104_history and C104_result: the same crossings and the same printed results."
  },
  {
   "property": "C105",
   "status": "proved",
   "theorems": [
    "Minimc.Props.C105_history",
    "Minimc.Props.C105_flights",
    "Minimc.Props.C105_long",
    "Minimc.Props.C105_vanish",
    "Minimc.Props.C105_dies_out",
    "Minimc.Props.C105_bounded",
    "Minimc.Props.C105_unique",
    "Minimc.Props.C105_converges"
   ],
   "note": "C105_history: the states of a history are the flights of the game. C105_flights and C105_long: how many there are. C105_vanish and C105_dies_out: extinction. C105_bounded, C105_unique and C105_converges: finite mean, one bounded solution, averages tend to it. What is not claimed, unlike C82, is that the program's loops end for given generators, since the rejection loop of a collision may take any number of proposals."
  },
  {
   "property": "C106",
   "status": "proved",
   "theorems": [
    "Minimc.Props.C106_groups_square",
    "Minimc.Props.C106_groups",
    "Minimc.Props.C106_gases_square",
    "Minimc.Props.C106_gases"
   ],
   "note": "C106_groups: energy groups. C106_gases: gases. C106_groups_square and C106_gases_square: the mean square of the score is finite, because yields are bounded (finite tables) and means are bounded (C82, C105). Real seeds give dependent numbers; what that means is C67 and C79."
  },
  {
   "property": "C107",
   "status": "proved",
   "theorems": [
    "Minimc.Props.C107_bins",
    "Minimc.Props.C107_same",
    "Minimc.Props.C107_result",
    "Minimc.Props.C107_total",
    "Minimc.Props.C107_sensitivities"
   ],
   "note": "C107_bins: the bins. C107_same: equal bins. C107_result: means and standard deviations of estimators. C107_sensitivities: those of sensitivities. C107_total: the mean without bins."
  },
  {
   "property": "C108",
   "status": "proved",
   "theorems": [
    "Minimc.Props.C108_scaled",
    "Minimc.Props.C108_well_posed",
    "Minimc.Props.C108_history",
    "Minimc.Props.C108_result"
   ],
   "note": "C108_scaled: multiplied tables restate the data. C108_well_posed: transport can deal with restated data. C108_history: crossings of one history. C108_result: means and standard deviations that are printed."
  },
  {
   "property": "C109",
   "status": "proved",
   "theorems": [
    "Minimc.Props.C109_well_posed",
    "Minimc.Props.C109_history",
    "Minimc.Props.C109_result"
   ],
   "note": "C109_well_posed: transport can deal with fine data. C109_history: crossings of one history. C109_result: means and standard deviations that are printed."
  },
  {
   "property": "C11",
   "status": "partial",
   "theorems": [
    "Minimc.Props.C11_index_counts_printed_partial",
    "Minimc.Props.C11_base_one",
    "Minimc.Props.C11_small_base",
    "Minimc.Props.C11_count_violated"
   ],
   "note": "Exact count of printed boundaries not above the value for every accepted grid with base > 1 or without a logarithm, and with base one for every value other than 1. The code accepts a base below one: negation with a witness, and what the index then counts (C11_small_base)."
  },
  {
   "property": "C110",
   "status": "proved",
   "theorems": [
    "Minimc.Props.C110_score",
    "Minimc.Props.C110_printed"
   ],
   "note": "C110_score: the distribution of what a history scores with ideal random numbers. C110_printed: what runs print, as the mean and the standard error of scores of games with the same distribution. C109 is the case in which even the printed numbers are the same."
  },
  {
   "property": "C111",
   "status": "proved",
   "theorems": [
    "Minimc.Props.C111_driver",
    "Minimc.Props.C111_program"
   ],
   "note": "C111_driver: the drivers are equal. C111_program: the runs of the program are the same. Factors and lengths are exact; rounded divisions can differ in the last digit."
  },
  {
   "property": "C112",
   "status": "proved",
   "theorems": [
    "Minimc.Props.C112_contains",
    "Minimc.Props.C112_reached",
    "Minimc.Props.C112_inside",
    "Minimc.Props.C112_first",
    "Minimc.Props.C112_missed",
    "Minimc.Props.C112_parallel"
   ],
   "note": "C112_contains, C112_reached, C112_inside, C112_first, C112_missed and C112_parallel. Both margins in C112_inside and C112_first are 7 units of 2^-53 of the squares of the distance from the origin and the radius. The error grows with the distance from the origin along the axis; C75_cylinder_violated is a point where it is larger than the radius. That membership is decided with the square of the radius is a defect without rounding, too (C06). Directions next to the axis are the subject of C115."
  },
  {
   "property": "C113",
   "status": "proved",
   "theorems": [
    "Minimc.Props.C113_table",
    "Minimc.Props.C113_exact",
    "Minimc.Props.C113_flight"
   ],
   "note": "C113_table, C113_flight; C113_exact shows that without rounding these are the functions of the exact model."
  },
  {
   "property": "C114",
   "status": "partial",
   "theorems": [
    "Minimc.Props.C114_violated",
    "Minimc.Props.C114_backwards_violated",
    "Minimc.Props.C114_partial"
   ],
   "note": "C114_violated: the statement is false. The table (1/2, 7), (6755399441055749, 0) gives the negative value -2^-50 at 6755399441055748 when rounding to nearest with ties to even. C114_backwards_violated: with such a cross section distances to collisions are negative. C114_partial: on the side of the entry at the lower key it holds; rising tables give no value below the entries before the key, and falling tables none above them. C113_table bounds by how much the other side can be passed."
  },
  {
   "property": "C115",
   "status": "partial",
   "theorems": [
    "Minimc.Props.C115_violated",
    "Minimc.Props.C115_flight_violated",
    "Minimc.Props.C115_partial"
   ],
   "note": "C115_violated: the statement is false. The vector (2^30, 1, 0) is normalized to (1, 2^-30, 0), for which 1 - dw * dw is zero; SolveQuadratic then divides by zero and returns infinity for a flight that crosses the axis and leaves the cylinder. C115_flight_violated: such a neutron collides with the material of the cylinder outside of it. C115_partial: it holds for directions whose angle with the axis is at least 2^-24; C112_inside for all with first component other than 1 and -1. C112_parallel: exactly parallel flights rightly see no cylinder."
  },
  {
   "property": "C116",
   "status": "partial",
   "theorems": [
    "Minimc.Props.C116_violated",
    "Minimc.Props.C116_length_violated",
    "Minimc.Props.C116_partial"
   ],
   "note": "C116_violated: the statement is false. The vector (2^-540, 0, 0) has the square 0 and gives a direction that is not a number; C116_length_violated: the vector (9/8 * 2^-537, 0, 0) gives the direction (9/8, 0, 0). C116_partial: it holds for vectors whose components are zero or between 2^-500 and 2^500. Without underflow it holds in general (C88_normalize, C111)."
  },
  {
   "property": "C12",
   "status": "proved",
   "theorems": [
    "Minimc.Props.C12_flat_index_lt_size",
    "Minimc.Props.C12_flat_index_iff_same_bins"
   ],
   "note": "Row-major index below the product of the bin counts and injective on bin triples."
  },
  {
   "property": "C13",
   "status": "proved",
   "theorems": [
    "Minimc.Props.C13_linspace_rejected_iff",
    "Minimc.Props.C13_logspace_rejected_iff",
    "Minimc.Props.C13_boundaries_rejected_iff",
    "Minimc.Props.C13_printed_increasing",
    "Minimc.Props.C13_linspace_limits",
    "Minimc.Props.C13_particle_bins_terminate"
   ],
   "note": "Exact rejection criteria of all three grid kinds; an invalid grid inside the noexcept constructor of the combined bins terminates."
  },
  {
   "property": "C14",
   "status": "proved",
   "theorems": [
    "Minimc.Props.C14_grid_point",
    "Minimc.Props.C14_between",
    "Minimc.Props.C14_outside",
    "Minimc.Props.C14_range",
    "Minimc.Props.C14_empty_undefined",
    "Minimc.Props.C14_store"
   ],
   "note": ""
  },
  {
   "property": "C15",
   "status": "proved",
   "theorems": [
    "Minimc.Props.C15_row_major",
    "Minimc.Props.C15_offsets_distinct",
    "Minimc.Props.C15_out_of_range_iff",
    "Minimc.Props.C15_missing_values",
    "Minimc.Props.C15_to_table"
   ],
   "note": ""
  },
  {
   "property": "C16",
   "status": "proved",
   "theorems": [
    "Minimc.Props.C16_one_rejected",
    "Minimc.Props.C16_two_rejected",
    "Minimc.Props.C16_one_lookup",
    "Minimc.Props.C16_two_lookup",
    "Minimc.Props.C16_group_out_of_range"
   ],
   "note": "Both kinds of tables, any number of groups."
  },
  {
   "property": "C17",
   "status": "proved",
   "theorems": [
    "Minimc.Props.C17_columns",
    "Minimc.Props.C17_normalised",
    "Minimc.Props.C17_zero_column"
   ],
   "note": ""
  },
  {
   "property": "C18",
   "status": "proved",
   "theorems": [
    "Minimc.Props.C18_total",
    "Minimc.Props.C18_wrong_energy"
   ],
   "note": "Also: an energy of the wrong kind or a group outside 1..G ends the program (noexcept)."
  },
  {
   "property": "C19",
   "status": "proved",
   "theorems": [
    "Minimc.Props.C19_reaction",
    "Minimc.Props.C19_probability",
    "Minimc.Props.C19_zero_never",
    "Minimc.Props.C19_succeeds",
    "Minimc.Props.C19_fission_data_missing"
   ],
   "note": "Selection by one uniform number, measures, zero reactions; success needs the fission data, otherwise the program terminates (proved)."
  },
  {
   "property": "C20",
   "status": "proved",
   "theorems": [
    "Minimc.Props.C20_scatter",
    "Minimc.Props.C20_probability",
    "Minimc.Props.C20_reached_with_positive_column"
   ],
   "note": ""
  },
  {
   "property": "C21",
   "status": "proved",
   "theorems": [
    "Minimc.Props.C21_unbiased",
    "Minimc.Props.C21_banked"
   ],
   "note": "Mean as Lebesgue integral over the uniform number."
  },
  {
   "property": "C22",
   "status": "partial",
   "theorems": [
    "Minimc.Props.C22_fission_partial",
    "Minimc.Props.C22_born_fresh",
    "Minimc.Props.C22_zero_spectrum_violated",
    "Minimc.Props.C22_dropped_secondary_violated",
    "Minimc.Props.C22_continuous",
    "Minimc.Props.C22_continuous_no_yield"
   ],
   "note": "Continuous energy: holds whenever yield data are present (otherwise the program terminates). Multigroup: holds for a non-zero emission spectrum column; for a zero column the code drops the secondaries (negation proved)."
  },
  {
   "property": "C23",
   "status": "proved",
   "theorems": [
    "Minimc.Props.C23_composition",
    "Minimc.Props.C23_built_iff",
    "Minimc.Props.C23_weighted_mean"
   ],
   "note": "Fractions positive and nuclides with distinct names and addresses, as the schema and the allocator guarantee."
  },
  {
   "property": "C24",
   "status": "proved",
   "theorems": [
    "Minimc.Props.C24_selects",
    "Minimc.Props.C24_probability",
    "Minimc.Props.C24_any_order",
    "Minimc.Props.C24_void"
   ],
   "note": "Also: a particle without cell or in a void makes the call undefined."
  },
  {
   "property": "C25",
   "status": "proved",
   "theorems": [
    "Minimc.Props.C25_state_in_range",
    "Minimc.Props.C25_draw_bijective",
    "Minimc.Props.C25_full_period",
    "Minimc.Props.C25_every_state_reached",
    "Minimc.Props.C25_recurrence",
    "Minimc.Props.C25_closed_form"
   ],
   "note": ""
  },
  {
   "property": "C26",
   "status": "proved",
   "theorems": [
    "Minimc.Props.C26_uniform_open_interval",
    "Minimc.Props.C26_uniformReal_open_interval",
    "Minimc.Props.C26_uniform_injective",
    "Minimc.Props.C26_uniform_advances"
   ],
   "note": ""
  },
  {
   "property": "C27",
   "status": "partial",
   "theorems": [
    "Minimc.Props.C27_streams_distinct_partial",
    "Minimc.Props.C27_streams_distinct_violated",
    "Minimc.Props.C27_collision_iff"
   ],
   "note": "Holds while seed + number of histories <= 2^31-1; negation with a witness beyond; exact collision criterion proved."
  },
  {
   "property": "C28",
   "status": "proved",
   "theorems": [
    "Minimc.Props.C28_flight_distribution",
    "Minimc.Props.C28_flight_positive",
    "Minimc.Props.C28_flight_infinite"
   ],
   "note": "Distribution as Lebesgue measure of the set of uniform draws."
  },
  {
   "property": "C29",
   "status": "proved",
   "theorems": [
    "Minimc.Props.C29_life",
    "Minimc.Props.C29_events",
    "Minimc.Props.C29_surface_tracking",
    "Minimc.Props.C29_outcome_unique",
    "Minimc.Props.C29_ends_exactly"
   ],
   "note": "Both tracking methods; every returning transport is a life of steps as specified, ending exactly at capture, fission or leak."
  },
  {
   "property": "C30",
   "status": "proved",
   "theorems": [
    "Minimc.Props.C30_exactly_once",
    "Minimc.Props.C30_finishes",
    "Minimc.Props.C30_family_unique",
    "Minimc.Props.C30_history_iff",
    "Minimc.Props.C30_history_states"
   ],
   "note": "The family of a history is an inductively defined forest; the bank loop visits it exactly when it is finite."
  },
  {
   "property": "C31",
   "status": "proved",
   "theorems": [
    "Minimc.Props.C31_no_history_twice",
    "Minimc.Props.C31_all_histories_once",
    "Minimc.Props.C31_every_schedule_ends",
    "Minimc.Props.C31_progress",
    "Minimc.Props.C31_every_worker_stops"
   ],
   "note": "For every interleaving of worker steps (fetch of a history number, processing it); every schedule ends and every worker stops, provided each history is well defined. The history counter is a natural number (no wrap-around)."
  },
  {
   "property": "C32",
   "status": "proved",
   "theorems": [
    "Minimc.Props.C32_as_if_sequential",
    "Minimc.Props.C32_independent_of_threads",
    "Minimc.Props.C32_result_exists"
   ],
   "note": "In exact arithmetic, for every schedule and number of threads."
  },
  {
   "property": "C33",
   "status": "partial",
   "theorems": [
    "Minimc.Props.C33_second_solve_empty_violated",
    "Minimc.Props.C33_new_driver_partial",
    "Minimc.Props.C33_violated"
   ],
   "note": "The code violates it: the atomic history counter is never reset, so a second Solve returns the initial scores (proved in general and for a concrete problem). A fresh driver gives the same result: proved."
  },
  {
   "property": "C34",
   "status": "proved",
   "theorems": [
    "Minimc.Props.C34_commit",
    "Minimc.Props.C34_commit_iff",
    "Minimc.Props.C34_zero_leaves_no_trace"
   ],
   "note": "For every set of estimators with user-obtainable bins; also characterises exactly when scoring a history is possible."
  },
  {
   "property": "C35",
   "status": "proved",
   "theorems": [
    "Minimc.Props.C35_printed_value",
    "Minimc.Props.C35_zero_iff_equal",
    "Minimc.Props.C35_printed",
    "Minimc.Props.C35_get_score"
   ],
   "note": "For a weight equal to the number of histories, as the driver sets it."
  },
  {
   "property": "C36",
   "status": "partial",
   "theorems": [
    "Minimc.Props.C36_adds_by_name",
    "Minimc.Props.C36_raises_iff_partial",
    "Minimc.Props.C36_any_order",
    "Minimc.Props.C36_missing_sensitivity_violated"
   ],
   "note": "Addition by name and independence of the order are proved; raising is characterised for sets where equally named estimators have the same sensitivities. The code violates the rest: a sensitivity missing on the other side is dereferenced without a check (negation proved)."
  },
  {
   "property": "C37",
   "status": "proved",
   "theorems": [
    "Minimc.Props.C37_counts_crossings",
    "Minimc.Props.C37_counted_steps"
   ],
   "note": "The states of a history are those passed to the scoring proxy; C29 characterises them as steps."
  },
  {
   "property": "C38",
   "status": "partial",
   "theorems": [
    "Minimc.Props.C38_constant_iff",
    "Minimc.Props.C38_constant_bounds_partial",
    "Minimc.Props.C38_linear_box_partial",
    "Minimc.Props.C38_linear_bounds_violated"
   ],
   "note": "Constancy and the bounds of constant fields are proved. Bounds of a linear field come from the input unchecked: they hold in every box whose corners respect them, and fail somewhere in space for every non-constant field (negation proved)."
  },
  {
   "property": "C39",
   "status": "proved",
   "theorems": [
    "Minimc.C39_created_iff",
    "Minimc.C39_other_methods",
    "Minimc.C39_cells_constant",
    "Minimc.C39_cross_section_constant"
   ],
   "note": "For every world built from a document; the cross section of any material is the same at all points of a flight."
  },
  {
   "property": "C40",
   "status": "partial",
   "theorems": [
    "Minimc.Props.C40_continuous_partial",
    "Minimc.Props.C40_acceptance_partial",
    "Minimc.Props.C40_inconsistent_total_violated"
   ],
   "note": "Proved for every data set whose nuclide total is the sum of its reactions with non-negative tables; the code never checks that, and without it the total can exceed the majorant (proved)."
  },
  {
   "property": "C41",
   "status": "partial",
   "theorems": [
    "Minimc.Props.C41_hotter_partial",
    "Minimc.Props.C41_near_partial",
    "Minimc.Props.C41_colder_violated",
    "Minimc.Props.C41_violated",
    "Minimc.Props.C41_zero_violated",
    "Minimc.Props.C41_cold_scatter_violated"
   ],
   "note": "The code's test has no absolute value: every requested temperature below the evaluation temperature is accepted (negation proved). Proved for requests at or above the evaluation temperature, and that anything within one percent is accepted when hot enough."
  },
  {
   "property": "C42",
   "status": "proved",
   "theorems": [
    "Minimc.Props.C42_at_least_one",
    "Minimc.Props.C42_increases_with_temperature",
    "Minimc.Props.C42_decreases_with_energy",
    "Minimc.Props.C42_tends_to_one_energy",
    "Minimc.Props.C42_tends_to_one_temperature",
    "Minimc.Props.C42_formula",
    "Minimc.Props.C42_documented_derivative"
   ],
   "note": "Over the reals, with erf defined as an integral."
  },
  {
   "property": "C43",
   "status": "proved",
   "theorems": [
    "Minimc.Props.C43_elastic",
    "Minimc.Props.C43_accept_prob",
    "Minimc.Props.C43_accept_relative_speed",
    "Minimc.Props.C43_candidate",
    "Minimc.Props.C43_scatter"
   ],
   "note": "The code keeps the cosine of the outgoing velocity and draws a fresh azimuth, as stated."
  },
  {
   "property": "C44",
   "status": "partial",
   "theorems": [
    "Minimc.Props.C44_bilinear_partial",
    "Minimc.Props.C44_tabulated_partial",
    "Minimc.Props.C44_below_temperature",
    "Minimc.Props.C44_below_energy",
    "Minimc.Props.C44_single_temperature",
    "Minimc.Props.C44_above_temperature_violated",
    "Minimc.Props.C44_above_energy",
    "Minimc.Props.C44_violated",
    "Minimc.Props.C44_valid_total"
   ],
   "note": "Interpolation, tabulated values and the lower ends proved. At or above the highest temperature the code uses the second highest temperature (negation proved); above the highest energy the value there is used."
  },
  {
   "property": "C45",
   "status": "proved",
   "theorems": [
    "Minimc.Props.C45_outgoing_state",
    "Minimc.Props.C45_scattered_particle",
    "Minimc.Props.C45_transfers"
   ],
   "note": "The sampled outgoing energy is even positive: at zero the cosine computation is not a number, which is its own outcome in the model."
  },
  {
   "property": "C46",
   "status": "partial",
   "theorems": [
    "Minimc.Props.C46_neighbour_partial",
    "Minimc.Props.C46_forced_partial",
    "Minimc.Props.C46_lowest_partial",
    "Minimc.Props.C46_probability_partial",
    "Minimc.Props.C46_always_upper_violated",
    "Minimc.Props.C46_violated",
    "Minimc.Props.C46_beyond_grid_violated",
    "Minimc.Props.C46_below_grid_violated"
   ],
   "note": "Because of a misplaced parenthesis in the interpolation weight the probabilities are right only on grids with unit spacing; with wider spacing the upper neighbour is always taken (negation proved). Below the lowest forced grid point and beyond the last one the lookup fails (negations proved)."
  },
  {
   "property": "C47",
   "status": "partial",
   "theorems": [
    "Minimc.Props.C47_located",
    "Minimc.Props.C47_constructed",
    "Minimc.Props.C47_interpolated_partial",
    "Minimc.Props.C47_tabulated_partial",
    "Minimc.Props.C47_below_violated",
    "Minimc.Props.C47_single_temperature_violated",
    "Minimc.Props.C47_above_extrapolates",
    "Minimc.Props.C47_violated"
   ],
   "note": "Lookup proved for every layout. Below the lowest temperature, and with a single temperature, evaluation is 0/0 (negations proved); above the highest it extrapolates."
  },
  {
   "property": "C48",
   "status": "proved",
   "theorems": [
    "Minimc.C48_fails_only_if_undefined",
    "Minimc.C48_built_iff",
    "Minimc.C48_surfaces",
    "Minimc.C48_nuclides",
    "Minimc.C48_materials",
    "Minimc.C48_cells"
   ],
   "note": "For every document that the schema accepts; addresses are arbitrary distinct numbers. A document fails exactly when something used is not defined or its data cannot be read, in which case the outcome is the one of the reader."
  },
  {
   "property": "C49",
   "status": "partial",
   "theorems": [
    "Minimc.Props.C49_solve_returns_nothing_violated",
    "Minimc.Props.C49_violated",
    "Minimc.Props.C49_bank_partial",
    "Minimc.Props.C49_bank_emptied_partial",
    "Minimc.Props.C49_source_bank_partial"
   ],
   "note": "The code violates the first half: Solve is a stub that returns the initial scores for every input (proved). The hand-out of the source bank is proved for every interleaving."
  },
  {
   "property": "C50",
   "status": "partial",
   "theorems": [
    "Minimc.Props.C50_other_material",
    "Minimc.Props.C50_collision_iff",
    "Minimc.Props.C50_collision_partial",
    "Minimc.Props.C50_density_violated",
    "Minimc.Props.C50_crossing_violated",
    "Minimc.Props.C50_accumulates",
    "Minimc.Props.C50_starts_at_zero",
    "Minimc.Props.C50_restarts",
    "Minimc.Props.C50_delta_real_iff",
    "Minimc.Props.C50_delta_virtual_iff",
    "Minimc.Props.C50_delta_partial",
    "Minimc.Props.C50_delta_violated"
   ],
   "note": "The code violates the property: it adds 1/sigma - d, which lacks the number density and the fraction of the nuclide and adds 1/sigma also for flights that end at a surface (negations proved). Proved: exactly when the added value is right for a collision, the case of a single nuclide with unit number density, that other materials add nothing, that steps accumulate and that every particle restarts at zero. With delta tracking the added value is 1/majorant - d: exactly when it is right is proved for real and for virtual collisions and any dependence of the majorant on the cross section (C50_delta_real_iff, C50_delta_virtual_iff); with a majorant that does not depend on it the code is wrong for every real collision (C50_delta_violated)."
  },
  {
   "property": "C51",
   "status": "proved",
   "theorems": [
    "Minimc.Props.C51_source_particle",
    "Minimc.Props.C51_constant_direction",
    "Minimc.Props.C51_isotropic_direction",
    "Minimc.Props.C51_particle_stream",
    "Minimc.Props.C51_isotropic_flux_forward",
    "Minimc.Props.C51_isotropic_flux_distribution",
    "Minimc.Props.C51_isotropic_flux_covers"
   ],
   "note": "Includes the distribution function mu^2 of the isotropic flux source."
  },
  {
   "property": "C52",
   "status": "partial",
   "theorems": [
    "Minimc.Props.C52_world",
    "Minimc.Props.C52_cell",
    "Minimc.Props.C52_surface_partial",
    "Minimc.Props.C52_no_surface",
    "Minimc.Props.C52_cross_sections",
    "Minimc.Props.C52_probability",
    "Minimc.Props.C52_nuclide_partial",
    "Minimc.Props.C52_surface_violated",
    "Minimc.Props.C52_nuclide_violated"
   ],
   "note": "The code violates the property: nuclides are sampled in the order of their addresses and ties between surfaces are broken by address (negations proved on a whole document). Proved for every placement: the same world is built, cells, distances, cross sections and nuclide probabilities agree; the surface agrees unless another is equally near and the nuclide agrees in materials of one nuclide. Sums are exact, so rounding that depends on the order is not modelled."
  },
  {
   "property": "C53",
   "status": "proved",
   "theorems": [
    "Minimc.Props.C53_selects",
    "Minimc.Props.C53_probability",
    "Minimc.Props.C53_probability_resampled",
    "Minimc.Props.C53_terminates",
    "Minimc.Props.C53_no_reaction_never_returns",
    "Minimc.Props.C53_total_below_sum_biased"
   ],
   "note": "Also: with total below the sum the sampling is biased, and with no reaction it never returns."
  },
  {
   "property": "C54",
   "status": "proved",
   "theorems": [
    "Minimc.Props.C54_distribution",
    "Minimc.Props.C54_as_surface_tracking",
    "Minimc.Props.C54_accepted",
    "Minimc.Props.C54_round",
    "Minimc.Props.C54_rounds"
   ],
   "note": "For regions where the cross section is the same everywhere, with the uniform numbers independent."
  },
  {
   "property": "C55",
   "status": "partial",
   "theorems": [
    "Minimc.Props.C55_multigroup_safe_partial",
    "Minimc.Props.C55_void_start_violated",
    "Minimc.Props.C55_outside_start_violated"
   ],
   "note": "Proved for well posed multigroup problems with starts in a cell with material; for continuous energy see C66. Starts in a void (null dereference) and outside every cell (terminate) violate it: proved. Undefined behaviour for any data: C86."
  },
  {
   "property": "C56",
   "status": "partial",
   "theorems": [
    "Minimc.Props.C56_multigroup_partial",
    "Minimc.Props.C56_continuous_partial",
    "Minimc.Props.C56_flight_selects_sibling_violated",
    "Minimc.Props.C56_violated"
   ],
   "note": "The code violates it as soon as a secondary uses more than seven (continuous energy: five) generator states: negation with a witness, exact bound, and the shared number spelled out."
  },
  {
   "property": "C57",
   "status": "proved",
   "theorems": [
    "Minimc.Props.C57_set_as_described",
    "Minimc.Props.C57_undefined",
    "Minimc.Props.C57_built_iff",
    "Minimc.Props.C57_lookup",
    "Minimc.Props.C57_perturbations",
    "Minimc.Props.C57_effects_present",
    "Minimc.Props.C57_fresh"
   ],
   "note": "All parts of the statement."
  },
  {
   "property": "C58",
   "status": "partial",
   "theorems": [
    "Minimc.Props.C58_created_iff",
    "Minimc.Props.C58_rejected",
    "Minimc.Props.C58_failures",
    "Minimc.Props.C58_multigroup_outcomes",
    "Minimc.Props.C58_reported_violated",
    "Minimc.Props.C58_source_group_violated"
   ],
   "note": "C58_created_iff proves when a driver is made and what it consists of, C58_rejected that a rejected document raises an exception, C58_failures how every other document fails, by cause. That failures are always exceptions is false (C58_reported_violated: reversed bins, unknown perturbations and perturbations of unused nuclides terminate, a zero direction gives no number, a source particle without type is an assertion), and the source group can be 0 (C58_source_group_violated). Assumes the schema that comes with the program and finite numbers."
  },
  {
   "property": "C59",
   "status": "proved",
   "theorems": [
    "Minimc.Props.C59_adjustment",
    "Minimc.Props.C59_cross_section",
    "Minimc.Props.C59_cross_section_cold"
   ],
   "note": "Exact real arithmetic; the Maxwell density is shown to have integral one. Cross section for neutrons without thermal scattering data."
  },
  {
   "property": "C60",
   "status": "proved",
   "theorems": [
    "Minimc.Props.C60_probability",
    "Minimc.Props.C60_below",
    "Minimc.Props.C60_distribution"
   ],
   "note": "Stated for energies inside the tabulated range and below it; at or above the highest energy the model's assertion outcome applies."
  },
  {
   "property": "C61",
   "status": "proved",
   "theorems": [
    "Minimc.Props.C61_energy_distribution",
    "Minimc.Props.C61_energy_first_round",
    "Minimc.Props.C61_momentum_distribution",
    "Minimc.Props.C61_momentum_first_round"
   ],
   "note": "For strictly increasing tables, which is what cumulative distributions are."
  },
  {
   "property": "C62",
   "status": "proved",
   "theorems": [
    "Minimc.Props.C62_loop",
    "Minimc.Props.C62_sample",
    "Minimc.Props.C62_distribution",
    "Minimc.Props.C62_terminates"
   ],
   "note": "Exact real arithmetic. The distribution is that for independent uniform numbers; the loop theorem says which numbers of the generator take their place."
  },
  {
   "property": "C63",
   "status": "partial",
   "theorems": [
    "Minimc.Props.C63_ratio_at_start",
    "Minimc.Props.C63_ratio_there_partial",
    "Minimc.Props.C63_constant_temperature",
    "Minimc.Props.C63_violated"
   ],
   "note": "The code evaluates the ratio at the start of the flight (C63_ratio_at_start, for every temperature field). C63_violated proves that the statement with the ratio at the place of the tentative collision fails in a temperature gradient; it holds where the ratio is the same at both ends, in particular at constant temperature."
  },
  {
   "property": "C64",
   "status": "partial",
   "theorems": [
    "Minimc.Props.C64_names_unique",
    "Minimc.Props.C64_fresh",
    "Minimc.Props.C64_result",
    "Minimc.Props.C64_threads_do_not_matter",
    "Minimc.Props.C64_nuclides_violated"
   ],
   "note": "Everything except the names of nuclides: the schema's constraint on them selects the wrong elements, and a document with two nuclides of one name gives a driver (C64_nuclides_violated). Both documents in C64_threads_do_not_matter are read with the same placement in memory."
  },
  {
   "property": "C65",
   "status": "partial",
   "theorems": [
    "Minimc.Props.C65_document",
    "Minimc.Props.C65_document_runs_partial",
    "Minimc.Props.C65_source_outside_groups",
    "Minimc.Props.C65_accepted_violated",
    "Minimc.Props.C65_history_partial",
    "Minimc.Props.C65_history_conforming_partial",
    "Minimc.Props.C65_solve_partial"
   ],
   "note": "For well posed multigroup problems (C55) with a neutron source in a cell with material; for accepted documents the data, densities and estimators need no assumption. Missing: particles that begin or end a step exactly on a surface, cylinder radii other than 0 and 1 (C06), cells without material before those they overlap, and logarithmic cosine bins. Violated: an accepted source group of 0.5 ends every history (C65_accepted_violated)."
  },
  {
   "property": "C66",
   "status": "partial",
   "theorems": [
    "Minimc.Props.C66_transport_partial",
    "Minimc.Props.C66_transport_warm_partial",
    "Minimc.Props.C66_transport_cold",
    "Minimc.Props.C66_history_partial",
    "Minimc.Props.C66_solve_partial",
    "Minimc.Props.C66_without_thermal"
   ],
   "note": "Proved at zero temperature for the transport of a neutron (C66_transport_cold). At other temperatures a collision with a moving target may bring the neutron exactly to rest, which gives a direction that is not a number; places with a negative temperature are excluded. Histories and Solve also exclude, as in C65, particles exactly on a surface, cylinder radii other than 0 and 1 and cells without material before those they overlap. With thermal scattering data three more things can go wrong and are named in the theorems: the tables do not serve the energy of the neutron (see C46, C47 and C84 for the gaps), ten energy transfers in a row cannot be afforded and the program terminates, or all the energy is transferred and the direction is not a number."
  },
  {
   "property": "C67",
   "status": "proved",
   "theorems": [
    "Minimc.Props.C67_number",
    "Minimc.Props.C67_readable"
   ],
   "note": "Numbers are printed exactly rounded (ties to even) from real numbers; the sign of zero and of not-a-number is not modelled."
  },
  {
   "property": "C68",
   "status": "partial",
   "theorems": [
    "Minimc.Props.C68_unwritten_violated",
    "Minimc.Props.C68_input_lost_violated",
    "Minimc.Props.C68_only_output",
    "Minimc.Props.C68_input_kept",
    "Minimc.Props.C68_no_effect",
    "Minimc.Props.C68_reports",
    "Minimc.Props.C68_aborted_empty",
    "Minimc.Props.C68_output",
    "Minimc.Props.C68_keigenvalue_violated"
   ],
   "note": "Violated: the program reports success though the output file could not be written (C68_unwritten_violated), an input file with the extension .out is overwritten before it is used (C68_input_lost_violated), and for every eigenvalue document the run succeeds with a result of zeros (C68_keigenvalue_violated). C68_output needs names without line breaks. Links between files, and a file system that changes or fails during the run, are not modelled."
  },
  {
   "property": "C69",
   "status": "proved",
   "theorems": [
    "Minimc.Props.C69_straight",
    "Minimc.Props.C69_document",
    "Minimc.Props.C69_program"
   ],
   "note": "Well posed as in C55; no restriction to particles off surfaces or to cylinders of certain radii. That documents with such problems exist is shown on an example."
  },
  {
   "property": "C70",
   "status": "proved",
   "theorems": [
    "Minimc.Props.C70_uncollided",
    "Minimc.Props.C70_attenuation",
    "Minimc.Props.C70_leak",
    "Minimc.Props.C70_line_integral"
   ],
   "note": "That the way consists of finitely many parts is part of what a way is (`Spec.Route`). The line integral is for cells that do not overlap, cylinder radii 0 or 1, and parts that do not begin on a surface of their cell; the short steps contribute at most 10/2^52 times the largest macroscopic cross section each."
  },
  {
   "property": "C71",
   "status": "proved",
   "theorems": [
    "Minimc.Props.C71_score",
    "Minimc.Props.C71_mean",
    "Minimc.Props.C71_converges"
   ],
   "note": "No two surfaces of a cell may be met at the end of the same part of the way (`Spec.NoTies`); which one is recorded then depends on the order of the surfaces. Mean and limit are for the score as a function of the numbers; that the generator's numbers behave like independent ones is not claimed."
  },
  {
   "property": "C72",
   "status": "proved",
   "theorems": [
    "Minimc.Props.C72_canonical",
    "Minimc.Props.C72_extremes",
    "Minimc.Props.C72_longest_flight",
    "Minimc.Props.C72_exact"
   ],
   "note": "Exponents of doubles are not bounded in the model (no overflow or underflow; the numbers concerned are far from both). The logarithm in the bound on flights is exact."
  },
  {
   "property": "C73",
   "status": "proved",
   "theorems": [
    "Minimc.C73_exact_nuclide",
    "Minimc.C73_exact_multigroup",
    "Minimc.Props.C73_nuclide",
    "Minimc.Props.C73_reaction",
    "Minimc.Props.C73_group",
    "Minimc.Props.C73_same_choice",
    "Minimc.Props.C73_fission_yield"
   ],
   "note": "Cross sections are parameters: any numbers that the tables give, the total of a nuclide being the same for the sum and for the loop. The compiler is taken not to fuse or reorder operations. Continuous-energy reactions are not covered, since their total is read from a separate table (C53)."
  },
  {
   "property": "C74",
   "status": "partial",
   "theorems": [
    "Minimc.Rounded.C74_index_range",
    "Minimc.Rounded.C74_monotone",
    "Minimc.Rounded.C74_right_bin_partial",
    "Minimc.Rounded.C74_right_bin_violated",
    "Minimc.Rounded.C74_exact"
   ],
   "note": "Violated next to the edges (C74_right_bin_violated): with IEEE rounding the largest double below 1 falls into the overflow bin of a single bin on [0, 1]. For logarithmic bins the statement is about the computed logarithm."
  },
  {
   "property": "C75",
   "status": "partial",
   "theorems": [
    "Minimc.Props.C75_plane_distance",
    "Minimc.Props.C75_cross_down_partial",
    "Minimc.Props.C75_cross_up_partial",
    "Minimc.Props.C75_cross_down_violated",
    "Minimc.Props.C75_leak_violated",
    "Minimc.Props.C75_cylinder_root",
    "Minimc.Props.C75_cylinder_violated",
    "Minimc.C75_exact_geometry",
    "Minimc.C75_exact_crossing",
    "Minimc.C75_exact_flight"
   ],
   "note": "Violated at larger coordinates (C75_cross_down_violated, C75_leak_violated): at a plane at 64 or any larger integer the nudge is rounded away, the particle is found in the cell it came from, no longer sees the plane and collides outside the material. Far along a cylinder the distance from its axis is lost (C75_cylinder_violated). Spheres are treated in C89 and cylinders in C112."
  },
  {
   "property": "C76",
   "status": "partial",
   "theorems": [
    "Minimc.C76_current",
    "Minimc.C76_any_schedule",
    "Minimc.C76_any_schedule_violated",
    "Minimc.C76_mean",
    "Minimc.C76_std_dev_partial",
    "Minimc.C76_std_dev_violated",
    "Minimc.C76_exact_scores",
    "Minimc.C76_exact_histories",
    "Minimc.C76_exact_solve",
    "Minimc.C76_exact_printed"
   ],
   "note": "Violated for sensitivities (C76_any_schedule_violated): the same three histories divided differently between two workers give 1 and 1 + 2^-52. Violated for large runs (C76_std_dev_violated): after 379625063 histories with one crossing each \"nan\" is printed as the standard deviation, which is zero. The bin of a state is a parameter (any function), since the bins round as well (C74)."
  },
  {
   "property": "C77",
   "status": "proved",
   "theorems": [
    "Minimc.Props.C77_follows",
    "Minimc.Props.C77_history",
    "Minimc.Props.C77_rounds",
    "Minimc.Props.C77_equation",
    "Minimc.Props.C77_smallest",
    "Minimc.Props.C77_at_most_one",
    "Minimc.Props.C77_methods",
    "Minimc.Props.C77_converges"
   ],
   "note": "Mean and limit are for the score as a function of the numbers; that the generator's numbers behave like independent ones is not claimed. The mean is that of one starting direction; the source's own draws are in C02 and C51. The game includes the nudge of 10/2^52 beyond a surface and the first of several nearest surfaces, as the program does. Fission neutrons are separate tracks: `C77_follows` covers each of them, `C77_history` excludes them."
  },
  {
   "property": "C78",
   "status": "proved",
   "theorems": [
    "Minimc.Props.C78_history",
    "Minimc.Props.C78_rounds",
    "Minimc.Props.C78_equation",
    "Minimc.Props.C78_smallest",
    "Minimc.Props.C78_methods",
    "Minimc.Props.C78_without_fission",
    "Minimc.Props.C78_at_most_one",
    "Minimc.Props.C78_converges"
   ],
   "note": "Mean and limit are for the score as a function of the numbers, those of a descendant being independent of its parent's; that the generators behave like that is not claimed, and C56 shows that the streams of the program overlap. Without the bound on the number of neutrons per collision the mean may be infinite. The mean is that of one starting direction."
  },
  {
   "property": "C79",
   "status": "proved",
   "theorems": [
    "Minimc.Props.C79_history",
    "Minimc.Props.C79_result",
    "Minimc.Props.C79_mean",
    "Minimc.Props.C79_second_moment",
    "Minimc.Props.C79_average",
    "Minimc.Props.C79_standard_deviation",
    "Minimc.Props.C79_confidence"
   ],
   "note": "What is printed is exact: the mean and the standard error of the program's own scores. The limits are for the same scores as functions of independent numbers; that the generators behave like that is not claimed, and C56 shows that the streams of the program overlap. The mean square is bounded by data: kappa < 1 neutrons per collision, at most N per fission, a mean score of at most M; C78 gives M = 1 if only leaving scores."
  },
  {
   "property": "C80",
   "status": "proved",
   "theorems": [
    "Minimc.Props.C80_interact",
    "Minimc.Props.C80_ends",
    "Minimc.Props.C80_never_rest",
    "Minimc.Props.C80_moves_on",
    "Minimc.Props.C80_equilibrium",
    "Minimc.Props.C80_detailed_balance",
    "Minimc.Props.C80_reaction"
   ],
   "note": "Numbers are independent and uniform in the law; the link to the program is for its own numbers, one by one. A neutron that would leave at rest has no direction in the program (not a number); a moving neutron is almost never brought to rest (C80_never_rest, C80_moves_on) and such outcomes are in the claim. With the program's own cross section the claim is proved for nuclides not heavier than a neutron (C80_reaction), where the program always adjusts; heavier ones are adjusted only below 500 kT / awr, so C80_equilibrium and C80_detailed_balance suppose the adjustment at all energies."
  },
  {
   "property": "C81",
   "status": "proved",
   "theorems": [
    "Minimc.Props.C81_history",
    "Minimc.Props.C81_rounds",
    "Minimc.Props.C81_equation",
    "Minimc.Props.C81_smallest",
    "Minimc.Props.C81_methods",
    "Minimc.Props.C81_at_most_one",
    "Minimc.Props.C81_converges"
   ],
   "note": "Histories that do not end (an error of the model's step counter) or in which a neutron is stopped dead (probability zero by C80) are outside C81_history. Temperatures that vary within a cell are excluded because the program accepts tentative collisions at the wrong place (C63). Thermal scattering laws are excluded. Randomness: the equation is for independent uniform numbers, the link to the program is for its own numbers."
  },
  {
   "property": "C82",
   "status": "proved",
   "theorems": [
    "Minimc.Props.C82_history",
    "Minimc.Props.C82_history_ends",
    "Minimc.Props.C82_flights",
    "Minimc.Props.C82_long",
    "Minimc.Props.C82_vanish",
    "Minimc.Props.C82_dies_out",
    "Minimc.Props.C82_bounded",
    "Minimc.Props.C82_unique",
    "Minimc.Props.C82_converges"
   ],
   "note": "The bound is for independent uniform numbers; the link to the program is for its own numbers. Rates count the neutrons of all groups together. The case of a fission neutron that starts in void is the failure described in C65."
  },
  {
   "property": "C83",
   "status": "partial",
   "theorems": [
    "Minimc.Props.C83_score",
    "Minimc.Props.C83_mean",
    "Minimc.Props.C83_converges",
    "Minimc.Props.C83_changed",
    "Minimc.Props.C83_derivative",
    "Minimc.Props.C83_derivative_iff",
    "Minimc.Props.C83_elsewhere_partial",
    "Minimc.Props.C83_derivative_violated",
    "Minimc.Props.C83_sign_violated"
   ],
   "note": "Proved: the score of every history in closed form, its mean, the limit, the derivative of the mean current (which is the mean score in a world with the changed cross section), a criterion for the two to agree, and that they agree if the nuclide is not on the way. Violated otherwise: in materials of only the nuclide with unit number density the limit is always greater than the derivative, and positive instead of negative if the parts of the way are shorter than the mean free path, because the reciprocal of the cross section is credited at surfaces, where no collision took place (C50)."
  },
  {
   "property": "C84",
   "status": "partial",
   "theorems": [
    "Minimc.Props.C84_exact_violated",
    "Minimc.Props.C84_violated",
    "Minimc.Props.C84_energy_transfer",
    "Minimc.Props.C84_momentum_transfer",
    "Minimc.Props.C84_outcome_partial",
    "Minimc.Props.C84_energy_law",
    "Minimc.Props.C84_gives_up",
    "Minimc.Props.C84_keeps_energy"
   ],
   "note": "Proved for neutrons whose energy is not exactly a tabulated energy transfer (in units of kT): the outcome for all random numbers, the distribution of the energy transfer (mixture of the neighbours' distributions with the upper one truncated after ten attempts), the probability of giving up (w q^10), and that a neutron almost surely keeps some energy. Violated in the excluded case (C84_violated): at the negative of its own energy only one momentum transfer is possible, so no value strictly between the least and the greatest is ever found and the code throws after ten attempts, although the selected energy transfer could be afforded. The weight between neighbouring momentum distributions is the one the code computes (C46 shows that it is not an interpolation weight)."
  },
  {
   "property": "C85",
   "status": "proved",
   "theorems": [
    "Minimc.Props.C85_boundaries",
    "Minimc.Props.C85_increasing",
    "Minimc.Props.C85_neighbours",
    "Minimc.Props.C85_grids",
    "Minimc.Props.C85_distribution",
    "Minimc.Props.C85_any_distribution"
   ],
   "note": "The bisection of libstdc++ is part of the model (Model/Search, findCdfIndex); all theorems about bins and thermal data use it."
  },
  {
   "property": "C86",
   "status": "proved",
   "theorems": [
    "Minimc.Props.C86_transport",
    "Minimc.Props.C86_history",
    "Minimc.Props.C86_scoring",
    "Minimc.Props.C86_thermal",
    "Minimc.Props.C86_negative_yield",
    "Minimc.Props.C86_empty_table"
   ],
   "note": "Undefined behaviour is the outcome ub of the model: dereferences of null or end iterators and conversions of values out of range. C86_negative_yield and C86_empty_table show that the two conditions on the data are needed; C86_thermal does the construction of thermal data."
  },
  {
   "property": "C87",
   "status": "partial",
   "theorems": [
    "Minimc.Props.C87_accuracy",
    "Minimc.Props.C87_fast",
    "Minimc.Props.C87_slope",
    "Minimc.Props.C87_colder_violated"
   ],
   "note": "Proved for places that are not colder than the table. Violated for colder places (C87_colder_violated): because of the missing absolute value in IsValid (C41) the hot table is used as it is, and the result is too large by any factor if the table is hot enough."
  },
  {
   "property": "C88",
   "status": "partial",
   "theorems": [
    "Minimc.C88_normalize",
    "Minimc.C88_isotropic",
    "Minimc.C88_rotate",
    "Minimc.C88_no_drift",
    "Minimc.C88_not_a_number",
    "Minimc.C88_kept_violated",
    "Minimc.C88_exact"
   ],
   "note": "Everything but the last half sentence is proved. The last is violated (C88_kept_violated): the scalar product of the direction (0, 3, 3) with the direction of a velocity along it is 1 + 2^-52, and the scattering then gives no direction. The witness is for the two calls that compute and use the cosine, not for random numbers leading there. Over- and underflow are not modelled."
  },
  {
   "property": "C89",
   "status": "partial",
   "theorems": [
    "Minimc.Props.C89_contains",
    "Minimc.Props.C89_reached",
    "Minimc.Props.C89_inside",
    "Minimc.Props.C89_first",
    "Minimc.Props.C89_overlooked",
    "Minimc.Props.C89_fly_through_violated"
   ],
   "note": "All but the last sentence is proved, with errors of at most 256 units of 2^-53 of the square of the larger of the radius and the distance from the centre. The last sentence is violated (C89_fly_through_violated): at any integer radius from 64 to 2^25 a particle one unit away flying at the centre lands exactly on the sphere, is found outside, sees next the far side, and collides anywhere inside the sphere with the outer material. Over- and underflow are not modelled."
  },
  {
   "property": "C90",
   "status": "partial",
   "theorems": [
    "Minimc.Props.C90_states",
    "Minimc.Props.C90_fair",
    "Minimc.Props.C90_numbers",
    "Minimc.Props.C90_unrelated_violated",
    "Minimc.Props.C90_next_direction_violated"
   ],
   "note": "Fairness is proved (C90_fair). The rest is violated for every seed: since the generator is multiplicative and history h is seeded with the seed plus h, states differ by a constant (C90_states) and numbers by one of four values (C90_numbers). With an isotropic source the first component of the direction of the next history is larger by 0.17006490 modulo 2 (C90_next_direction_violated), and of any twelve consecutive histories five to seven start towards positive x (C90_unrelated_violated), where unrelated directions would do otherwise in 39 percent of all cases. C79 describes what the printed standard deviation means for independent numbers."
  },
  {
   "property": "C91",
   "status": "partial",
   "theorems": [
    "Minimc.Props.C91_rule",
    "Minimc.Props.C91_rounds",
    "Minimc.Props.C91_law",
    "Minimc.Props.C91_too_far",
    "Minimc.Props.C91_strictly_too_far",
    "Minimc.Props.C91_too_short",
    "Minimc.Props.C91_even_partial",
    "Minimc.Props.C91_jump",
    "Minimc.Props.C91_violated"
   ],
   "note": "Violated: the code judges a tentative collision by the cross section where the tentative flight started (C91_rule, C91_rounds). Judged where it ends, flights would be right (C91_law). As it is, particles fly too far where the cross section grows along the path (C91_too_far), strictly so as soon as it has grown anywhere (C91_strictly_too_far), and not far enough where it falls (C91_too_short). Where it jumps from a fraction q of the majorant M to the majorant, the chance to fly a distance d past the jump is 1 + (1 - q) M d times too large (C91_jump), beyond every bound. The full statement is refuted with the neutron of C63 (C91_violated). C91_even_partial keeps the case of an even cross section. Surfaces on the way are excluded, as in C54; numbers are independent and uniform."
  },
  {
   "property": "C92",
   "status": "proved",
   "theorems": [
    "Minimc.Props.C92_balance",
    "Minimc.Props.C92_fissions",
    "Minimc.Props.C92_one_end",
    "Minimc.Props.C92_batch",
    "Minimc.Props.C92_leakage"
   ],
   "note": "Balance of one history C92_balance, over trees of any shape; C92_fissions says which states can have secondaries and which worlds can have fissions. C92_one_end and C92_batch are the case without fission reactions, for one history and for a solution on any number of threads. C92_leakage derives what the estimator prints."
  },
  {
   "property": "C93",
   "status": "proved",
   "theorems": [
    "Minimc.Props.C93_parts",
    "Minimc.Props.C93_means",
    "Minimc.Props.C93_parts_end"
   ],
   "note": "C93_parts adds with the code's own operator+=. It compares the estimators of the sum with those of the long run: the code keeps the total weight of the left operand, so the sum must be divided by N + M by whoever adds runs (C93_means). C93_parts_end shows that the hypotheses follow from the long run. Exact arithmetic; in double precision the order of additions matters (C76)."
  },
  {
   "property": "C94",
   "status": "partial",
   "theorems": [
    "Minimc.Props.C94_separate_partial",
    "Minimc.Props.C94_shared_violated",
    "Minimc.Props.C94_close_violated",
    "Minimc.Props.C94_fractions_violated"
   ],
   "note": "Violated: history e is seeded with seed + e, so runs with seeds s and s + k have N - k of N histories in common (C94_shared_violated), their scores differ by at most k times the largest number of crossings in a history (C94_close_violated), and fractions of histories that leave through a surface differ by at most k / N, where the printed error is of order 1 / sqrt N (C94_fractions_violated with C92_leakage). C94_separate_partial keeps the case of seeds at least N apart, within the 2^31 - 2 seeds of C27; there the streams are different, though not independent (C90)."
  },
  {
   "property": "C95",
   "status": "partial",
   "theorems": [
    "Minimc.Props.C95_method",
    "Minimc.Props.C95_history_partial",
    "Minimc.Props.C95_results_partial",
    "Minimc.Props.C95_output_partial",
    "Minimc.Props.C95_double_violated"
   ],
   "note": "Proved in exact arithmetic for histories (C95_history_partial), results (C95_results_partial, in both directions) and the output text (C95_output_partial). Violated in double precision: a neutron that leaves a slab between planes at 0 and 2 is kept in it when everything is moved by 64, because the nudge of ten units in the last place of 1 is rounded away there (C95_double_violated)."
  },
  {
   "property": "C96",
   "status": "partial",
   "theorems": [
    "Minimc.Props.C96_cell_partial",
    "Minimc.Props.C96_cell_violated",
    "Minimc.Props.C96_plane_unseen",
    "Minimc.Props.C96_captured_outside_violated",
    "Minimc.Props.C96_prints_zero_violated",
    "Minimc.Props.C96_jump_violated",
    "Minimc.Props.C96_upper_face_violated"
   ],
   "note": "C96_cell_partial keeps the neutrons that fly away from the insides of the surfaces they start on. All others are violations (C96_cell_violated). A plane on which a neutron is is never reached (C96_plane_unseen). With the source on the lower face of a slab of an absorber, neutrons flying out are captured outside (C96_captured_outside_violated), and the estimator on that face prints zero for every source (C96_prints_zero_violated); a beam that starts a little inside prints one (C96_jump_violated). With the source on the upper face every history dereferences a null pointer (C96_upper_face_violated)."
  },
  {
   "property": "C97",
   "status": "partial",
   "theorems": [
    "Minimc.Props.C97_halves_violated",
    "Minimc.Props.C97_printed_partial",
    "Minimc.Props.C97_scatter_violated"
   ],
   "note": "C97_printed_partial: the printed result is the fraction of histories that start towards positive x, and the printed error is that of a proportion among independent trials. C97_halves_violated: for certain numbers of histories (12, 247, 4316, 2950309, 225371434 among them) that fraction is one half up to two histories, whatever the seed. C97_scatter_violated: with 2950309 histories of a lamp in an empty slab every seed gives a result within one millionth of 1/2 and a printed error at least 400 times as large. C79 is the statement for independent numbers."
  },
  {
   "property": "C98",
   "status": "partial",
   "theorems": [
    "Minimc.Props.C98_world_partial",
    "Minimc.Props.C98_refused",
    "Minimc.Props.C98_results_partial",
    "Minimc.Props.C98_documents_partial",
    "Minimc.Props.C98_overlap_violated",
    "Minimc.Props.C98_nuclides_violated"
   ],
   "note": "C98_world_partial: with unique names the objects are exactly the same ones, when they are placed at the same addresses (that addresses can matter is C52). C98_refused: whether the world can be built does not depend on the order. C98_results_partial and C98_documents_partial: if moreover no point is in two cells, every possible result of one is a possible result of the other, from the input file on. C98_overlap_violated: with overlapping cells the order decides, up to whether any history can be completed. C98_nuclides_violated: with two nuclides of one name, which the schema accepts, the first one's cross sections are used."
  },
  {
   "property": "C99",
   "status": "proved",
   "theorems": [
    "Minimc.Props.C99_rotation",
    "Minimc.Props.C99_mirror",
    "Minimc.Props.C99_surface",
    "Minimc.Props.C99_problem",
    "Minimc.Props.C99_neutron",
    "Minimc.Props.C99_score",
    "Minimc.Props.C99_run",
    "Minimc.Props.C99_printed",
    "Minimc.Props.C99_result",
    "Minimc.Props.C99_only_distribution",
    "Minimc.Props.C99_methods",
    "Minimc.Props.C99_no_direction"
   ],
   "note": "C99_rotation and C99_mirror: rotations and mirrors are among the maps that are considered. C99_surface: surfaces. C99_problem: the turned problem is well posed if the given one is. C99_neutron and C99_score: the score of a neutron and of a history has the same distribution. C99_run and C99_printed: so has everything that is calculated from independent histories, in particular the mean and the standard deviation together. C99_result: these are the scores whose means and standard errors the program prints for the two problems. C99_methods: the two tracking methods. C99_no_direction: balls around an isotropic source look the same from all directions. C99_only_distribution: single histories are not turned."
  }
 ]
}