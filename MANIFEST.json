{
 "claims": [
  {
   "property": "C01",
   "status": "proved",
   "theorems": [
    "KMC.C01_index_to_address",
    "KMC.C01_address_to_index",
    "KMC.C01_front_end_agrees"
   ],
   "note": "Exact arithmetic; rounding of double is not modelled here."
  },
  {
   "property": "C02",
   "status": "proved",
   "theorems": [
    "KMC.C02_neighbourhood",
    "KMC.C02_valid",
    "KMC.C02_nodup",
    "KMC.C02_narrow_box_duplicates"
   ],
   "note": "Membership exact for every box; each site once on wide boxes, duplicates witnessed on narrow ones."
  },
  {
   "property": "C03",
   "status": "proved",
   "theorems": [
    "KMC.C03_mutual",
    "KMC.C03_self"
   ],
   "note": ""
  },
  {
   "property": "C04",
   "status": "proved",
   "theorems": [
    "KMC.C04_move",
    "KMC.C04_move_basis",
    "KMC.C04_superset"
   ],
   "note": ""
  },
  {
   "property": "C05",
   "status": "proved",
   "theorems": [
    "KMC.C05_minimum_image"
   ],
   "note": ""
  },
  {
   "property": "C06",
   "status": "proved",
   "theorems": [
    "KMC.C06_equality",
    "KMC.C06_components",
    "KMC.C06_lexicographic",
    "KMC.C06_strict_total_order",
    "KMC.C06_single"
   ],
   "note": ""
  },
  {
   "property": "C07",
   "status": "proved",
   "theorems": [
    "KMC.C07_match",
    "KMC.C07_match_preorder",
    "KMC.C07_add_monotone",
    "KMC.C07_total_order",
    "KMC.C07_lexicographic"
   ],
   "note": ""
  },
  {
   "property": "C08",
   "status": "partial",
   "theorems": [
    "KMC.C08_complete",
    "KMC.C08_sorted_partial",
    "KMC.C08_starts_with_itself_partial"
   ],
   "note": "Contents proved for every lattice; order and first entry for distances that are equal or at least the tolerance apart (false otherwise, C09)."
  },
  {
   "property": "C09",
   "status": "partial",
   "theorems": [
    "KMC.C09_strict_order_partial",
    "KMC.C09_same_for_processes",
    "KMC.C09_not_transitive"
   ],
   "note": "Proved for separated distances; general claim false (cycle witness)."
  },
  {
   "property": "C10",
   "status": "partial",
   "theorems": [
    "KMC.C10_available_iff_partial",
    "KMC.C10_no_false_offer",
    "KMC.C10_offered_iff_partial"
   ],
   "note": "No false offers proved for every environment; the equivalence for sites that see their surroundings like the central cell, with exact coordinates. For states of runs: C10_available_iff_partial."
  },
  {
   "property": "C11",
   "status": "partial",
   "theorems": [
    "KMC.C11_false_negative_at_open_boundary",
    "KMC.C11_offered_tail_iff_partial",
    "KMC.C11_offered_iff_partial",
    "KMC.C11_mirror",
    "KMC.C11_trailing_wildcard",
    "KMC.C11_available_tail_iff_partial",
    "KMC.C11_available_iff_partial"
   ],
   "note": "False: witness of a process not offered at an open end, while its mirror image is offered at the other end (C11_mirror). What is offered there is right (C10_no_false_offer), and C11_offered_iff_partial says exactly when: the pattern fits and nothing is missing that comes before its last place. C11_available_iff_partial says the same for all states of runs. Explicit wildcards at the end ask for enough sites, not for their own (C11_offered_tail_iff_partial, C11_available_tail_iff_partial), so that with and without them a process is offered at different sites (C11_trailing_wildcard). Missing: processes with wildcards only, narrow periodic axes, near coincidences."
  },
  {
   "property": "C12",
   "status": "proved",
   "theorems": [
    "KMC.C12_insertion",
    "KMC.C12_not_performed"
   ],
   "note": "Insertion keeps entries, order and moves; zero-update entries are passed over when performing."
  },
  {
   "property": "C13",
   "status": "partial",
   "theorems": [
    "KMC.C13_axis_partial",
    "KMC.C13_range_partial",
    "KMC.C13_range_too_small",
    "KMC.C13_custom_range_smaller"
   ],
   "note": "Per-axis coverage under a condition on fractional parts; two false witnesses (positive coordinates, custom rates)."
  },
  {
   "property": "C14",
   "status": "partial",
   "theorems": [
    "KMC.C14_multiplicity_partial",
    "KMC.C14_multiplicity_total_partial",
    "KMC.C14_overflow"
   ],
   "note": "Equal to the number of ways whenever no 32 bit overflow occurs; overflow witness for 10 of 20."
  },
  {
   "property": "C15",
   "status": "partial",
   "theorems": [
    "KMC.C15_rate_partial",
    "KMC.C15_not_scaled"
   ],
   "note": "False of the code: the multiplicity is computed and then dropped (witness). Proved that the rate is the bare rate constant, which is right where every site has one particle."
  },
  {
   "property": "C16",
   "status": "proved",
   "theorems": [
    "KMC.C16_elements",
    "KMC.C16_counts"
   ],
   "note": "For every state of every run from a well formed input."
  },
  {
   "property": "C17",
   "status": "proved",
   "theorems": [
    "KMC.C17_short_list",
    "KMC.C17_places_partial",
    "KMC.C17_exact",
    "KMC.C17_total",
    "KMC.C17_conserved",
    "KMC.C17_along",
    "KMC.C17_stoichiometry",
    "KMC.C17_weighted"
   ],
   "note": "For every step of every run from a well formed input; conservation along whole runs; the numbers of particles follow from the numbers of events (C17_stoichiometry). In terms of the sites at the places of the process: C17_places_partial, for processes with a single basis site whose places are at sites."
  },
  {
   "property": "C18",
   "status": "partial",
   "theorems": [
    "KMC.C18_nonneg_partial",
    "KMC.C18_negative"
   ],
   "note": "Proved for processes that take away no more than they require; bucket processes that take more are accepted and make counts negative (witness)."
  },
  {
   "property": "C19",
   "status": "proved",
   "theorems": [
    "KMC.C19_one_particle",
    "KMC.C19_ordinary"
   ],
   "note": "For every state of every run; processes made from one-particle local configurations are shown to be balanced."
  },
  {
   "property": "C20",
   "status": "partial",
   "theorems": [
    "KMC.C20_permutation_partial",
    "KMC.C20_duplicated"
   ],
   "note": "Proved where the moves of every process permute its moving sites; false for chains of moves (witness)."
  },
  {
   "property": "C21",
   "status": "partial",
   "theorems": [
    "KMC.C21_tracked_partial",
    "KMC.C21_tolerance_partial",
    "KMC.C21_untracked"
   ],
   "note": "Proved with an error that grows with the steps by at most the tolerances (none for exact positions), for processes whose moves permute and show; false otherwise (witness)."
  },
  {
   "property": "C22",
   "status": "partial",
   "theorems": [
    "KMC.C22_types_follow_partial",
    "KMC.C22_disagree"
   ],
   "note": "Proved where the moves of every process permute its moving sites; false otherwise (witness)."
  },
  {
   "property": "C23",
   "status": "proved",
   "theorems": [
    "KMC.C23_report"
   ],
   "note": "For every step of every run from a well formed input."
  },
  {
   "property": "C24",
   "status": "proved",
   "theorems": [
    "KMC.C24_listed",
    "KMC.C24_available",
    "KMC.C24_same_processes",
    "KMC.C24_from_scratch"
   ],
   "note": "For every state of every run from a well formed input."
  },
  {
   "property": "C25",
   "status": "proved",
   "theorems": [
    "KMC.C25_totals"
   ],
   "note": "For every state of every run from a well formed input; exact arithmetic."
  },
  {
   "property": "C26",
   "status": "partial",
   "theorems": [
    "KMC.C26_step_bounded",
    "KMC.C26_init_bounded",
    "KMC.C26_step_ordinary",
    "KMC.C26_init_ordinary",
    "KMC.C26_single_step_partial",
    "KMC.C26_init_partial",
    "KMC.C26_run_partial",
    "KMC.C26_cutoff_overrun"
   ],
   "note": "Every step ends properly or overflows 32 bit multiplicities. When the number of particles cannot grow, on each site or in total, and is small enough for the processes, nothing overflows and every step and the constructor end properly, for bucket processes as well (C26_step_bounded, C26_init_bounded); one particle per site is always small enough (C26_step_ordinary, C26_init_ordinary). False for custom rates whose cutoff misses a site matched within tolerance (witness)."
  },
  {
   "property": "C27",
   "status": "partial",
   "theorems": [
    "KMC.C27_only_possible_events_partial",
    "KMC.C27_zero_random_number"
   ],
   "note": "Proved for every random number above zero, and for zero when the first process has a site; the remaining case is false of the code and has a witness."
  },
  {
   "property": "C28",
   "status": "proved",
   "theorems": [
    "KMC.C28_process_interval",
    "KMC.C28_site_interval",
    "KMC.C28_process_probability",
    "KMC.C28_site_probability",
    "KMC.C28_event_probability"
   ],
   "note": "Interval form over any ordered field; Lebesgue probability over the reals, for process, site and event."
  },
  {
   "property": "C29",
   "status": "proved",
   "theorems": [
    "KMC.C29_increases",
    "KMC.C29_strict",
    "KMC.C29_time_step",
    "KMC.C29_exponential",
    "KMC.C29_propagate",
    "KMC.C29_run_monotone"
   ],
   "note": ""
  },
  {
   "property": "C30",
   "status": "partial",
   "theorems": [
    "KMC.C30_time_loop_ends_partial",
    "KMC.C30_zero_rate_never_ends"
   ],
   "note": "Time loop ends for a positive total rate; for total rate zero it never ends (witness)."
  },
  {
   "property": "C31",
   "status": "proved",
   "theorems": [
    "KMC.C31_matching",
    "KMC.C31_run",
    "KMC.C31_work_sharing",
    "KMC.C31_chunks"
   ],
   "note": "Matching and whole runs give the same result for any number of ranks."
  },
  {
   "property": "C32",
   "status": "proved",
   "theorems": [
    "KMC.C32_current"
   ],
   "note": "Without caching; the condition CustomGeometry (cutoff covers the pattern) is needed for the code to be defined."
  },
  {
   "property": "C33",
   "status": "partial",
   "theorems": [
    "KMC.C33_transparent_partial",
    "KMC.C33_not_transparent",
    "KMC.C33_cached_current_partial",
    "KMC.C33_key_blind"
   ],
   "note": "When the key decides the answer: stored rates are the calculator's answers, and the whole run (states, times, errors) is the same with and without storing. False in general (geometry is not part of the key), with witnesses for a wrong rate and for two runs that differ."
  },
  {
   "property": "C34",
   "status": "proved",
   "theorems": [
    "KMC.C34_total",
    "KMC.C34_bounded",
    "KMC.C34_never_invents",
    "KMC.C34_retrieve_iff_stored",
    "KMC.C34_found",
    "KMC.C34_fresh",
    "KMC.C34_functional",
    "KMC.C34_old_value_can_hide_new"
   ],
   "note": ""
  },
  {
   "property": "C35",
   "status": "partial",
   "theorems": [
    "KMC.C35_shown",
    "KMC.C35_all_within_cutoff_partial",
    "KMC.C35_updates",
    "KMC.C35_after",
    "KMC.C35_missed",
    "KMC.C35_user_plain",
    "KMC.C35_user_before",
    "KMC.C35_user_after",
    "KMC.C35_end_read",
    "KMC.C35_past_end"
   ],
   "note": "Geometry, before states, updates and after states shown to the rate calculator are proved exact, up to the arguments of the Python rate function (C35_user_*); after names need one particle per site and no site listed twice in the environment. Complete within the cutoff when distances are separated by the tolerance; otherwise false, with witness. When all listed sites are within the cutoff the code reads one entry past the end (C35_end_read, C35_past_end)."
  },
  {
   "property": "C36",
   "status": "partial",
   "theorems": [
    "KMC.C36_buckets",
    "KMC.C36_pairs",
    "KMC.C36_short_pair",
    "KMC.C36_format",
    "KMC.C36_sparse",
    "KMC.C36_sparse_accepted",
    "KMC.C36_full",
    "KMC.C36_agree",
    "KMC.C36_constructed_partial",
    "KMC.C36_bucket_length",
    "KMC.C36_empty_site"
   ],
   "note": "Full and sparse input proved exact, with acceptance and rejection, up to the construction of the back end configuration. Bucket input with one nonempty entry per site is exact too (C36_buckets). Partial: the length of bucket input is not checked and empty sites are accepted (witnesses). Pairs that are too short are errors (C36_short_pair)."
  },
  {
   "property": "C37",
   "status": "partial",
   "theorems": [
    "KMC.C37_numbering_partial",
    "KMC.C37_repeated",
    "KMC.C37_repeated_update",
    "KMC.C37_default"
   ],
   "note": "Proved when the given list of possible types has no repetition; with a repetition the numbering has gaps (witnesses of a wrong count and of a write out of bounds)."
  },
  {
   "property": "C38",
   "status": "proved",
   "theorems": [
    "KMC.C38_explained",
    "KMC.C38_wildcards",
    "KMC.C38_reconstructed",
    "KMC.C38_complete",
    "KMC.C38_chain_accepted",
    "KMC.C38_copy_accepted",
    "KMC.C38_rejected"
   ],
   "note": "Accepted moves explain the elements after and wildcards stay; they need not permute the atoms (a chain and a copy are accepted, witnesses)."
  },
  {
   "property": "C39",
   "status": "proved",
   "theorems": [
    "KMC.C39_same_process"
   ],
   "note": ""
  },
  {
   "property": "C40",
   "status": "proved",
   "theorems": [
    "KMC.C40_list",
    "KMC.C40_single",
    "KMC.C40_expanded",
    "KMC.C40_added",
    "KMC.C40_adds",
    "KMC.C40_malformed_accepted"
   ],
   "note": "For entries made of names and (number, name) pairs; a malformed pair inside a list is not rejected (witness). Of other entries: two are added up only if their second items are the same value (C40_added), and they are when it is made of strings, integers, tuples and lists (C40_adds)."
  },
  {
   "property": "C41",
   "status": "partial",
   "theorems": [
    "KMC.C41_accepted",
    "KMC.C41_rejected",
    "KMC.C41_zero_accepted",
    "KMC.C41_zero_fails",
    "KMC.C41_runnable_partial"
   ],
   "note": "Accepted control parameters are exactly characterised. Interval zero is accepted and then makes the run fail (witness); for positive intervals the faults of a run are only those of the back end, the outside or the error that nothing is available."
  },
  {
   "property": "C42",
   "status": "proved",
   "theorems": [
    "KMC.C42_model",
    "KMC.C42_schedule",
    "KMC.C42_first_breaker",
    "KMC.C42_runs"
   ],
   "note": "The loop of the front end over an arbitrary back end and arbitrary outside. C42_model identifies its states with those of the run of the C++ model."
  },
  {
   "property": "C43",
   "status": "partial",
   "theorems": [
    "KMC.C43_clean_up_partial",
    "KMC.C43_not_prepared",
    "KMC.C43_setup_raises",
    "KMC.C43_clean_up_cut"
   ],
   "note": "Clean-up is complete however the loop ends, if the preparation and the clean-up calls themselves do not raise; both exceptions have witnesses."
  },
  {
   "property": "C44",
   "status": "partial",
   "theorems": [
    "KMC.C44_multiples_partial",
    "KMC.C44_late",
    "KMC.C44_second_run",
    "KMC.C44_model_partial"
   ],
   "note": "Holds for runs from time zero whose time steps are not longer than the interval; longer steps give late frames with the wrong configuration and second runs drift (witnesses)."
  },
  {
   "property": "C45",
   "status": "partial",
   "theorems": [
    "KMC.C45_lattice",
    "KMC.C45_lattice_any",
    "KMC.C45_bounded",
    "KMC.C45_lattice_other",
    "KMC.C45_lattice_first",
    "KMC.C45_one_site",
    "KMC.C45_short",
    "KMC.C45_xyz",
    "KMC.C45_xyz_first",
    "KMC.C45_xyz_any",
    "KMC.C45_run",
    "KMC.C45_schedule"
   ],
   "note": "Proved for both trajectory types, any limits and any pattern of wall-clock flushes, for the frames of a run, and a bound on what the buffer holds. Partial: the lattice trajectory of a one-site lattice fails with an index error (C45_one_site)."
  },
  {
   "property": "C46",
   "status": "partial",
   "theorems": [
    "KMC.Analysis.C46_exact_partial",
    "KMC.Analysis.C46_normalised",
    "KMC.Analysis.C46_middles",
    "KMC.Analysis.C46_zero",
    "KMC.Analysis.C46_unset",
    "KMC.C46_real_partial",
    "KMC.C46_run_partial",
    "KMC.C46_negative"
   ],
   "note": "Every entry of the histogram is the number of steps in its bin, and the printed places are the middles of the bins. Partial: a bin size of zero is accepted and fails at the first step (C46_zero). Without setup a step is an exception (C46_unset). In runs of the front end the registered steps are those whose number is a multiple of the analysis interval (C46_run_partial), so with an interval above one the histogram is that of longer steps. That time does not decrease is an assumption there; with the logarithm, positive rates and random numbers in [0,1) it is proved (C29_increases, C46_real_partial)."
  },
  {
   "property": "C47",
   "status": "partial",
   "theorems": [
    "KMC.C47_real_partial",
    "KMC.C47_times",
    "KMC.Msd.C47_pairs",
    "KMC.Msd.C47_sums_partial",
    "KMC.C47_front_partial",
    "KMC.C47_interval",
    "KMC.Msd.C47_bin",
    "KMC.Msd.C47_effective",
    "KMC.Msd.C47_cutoff",
    "KMC.Msd.C47_factor_pos",
    "KMC.Msd.C47_factor_joins",
    "KMC.Msd.C47_deviation_counter",
    "KMC.Msd.C47_deviation",
    "KMC.Msd.C47_run_partial",
    "KMC.Msd.C47_setup",
    "KMC.Msd.C47_results",
    "KMC.Msd.C47_results_empty",
    "KMC.Msd.C47_zero_steps",
    "KMC.Msd.C47_cutoff_fails",
    "KMC.Msd.C47_zero_time",
    "KMC.Msd.C47_cast"
   ],
   "note": "The sums hold while every registered time difference is fewer than 2^31 bins and the largest time and the history length are positive; the other cases are refuted by C47_cast, C47_zero_time, C47_zero_steps and C47_cutoff_fails. What is made of the sums is proved as well; the deviation uses the counter of the wrong number of steps (C47_deviation_counter). In runs of the front end the positions are those of the atoms moved by events whose number is a multiple of the analysis interval (C47_front_partial); an interval above one changes the means (C47_interval). With the logarithm, positive rates and random numbers in [0,1) time increases (C47_real_partial)."
  },
  {
   "property": "C48",
   "status": "proved",
   "theorems": [
    "KMC.Blocker.C48_blocks",
    "KMC.Blocker.C48_partition",
    "KMC.Blocker.C48_no_blocks",
    "KMC.Blocker.C48_values"
   ],
   "note": "The front end always asks for blocks of size 0 and so never has blocks (C48_no_blocks)."
  },
  {
   "property": "C49",
   "status": "partial",
   "theorems": [
    "KMC.Analysis.C49_composition_partial",
    "KMC.Analysis.C49_statistics_partial",
    "KMC.Analysis.C49_rows",
    "KMC.Analysis.C49_mean_rate",
    "KMC.Analysis.C49_last_block",
    "KMC.Analysis.C49_times",
    "KMC.Analysis.C49_spatial",
    "KMC.Analysis.C49_unset",
    "KMC.C49_run_partial",
    "KMC.C49_interval",
    "KMC.C49_composition_run_partial",
    "KMC.C49_composition_constant"
   ],
   "note": "Every event and sample is in exactly one block and the results are the sums or means over closed blocks. Partial: the last block is dropped, reported times drift from the blocks, spatial rates are divided by the start of the last block, and the printed mean rate counts one block too many (witnesses). Without setup a step is an exception (C49_unset). In runs of the front end the counted events are those whose number is a multiple of the analysis interval (C49_run_partial), so with an interval above one most events are not counted (C49_interval). The composition in runs is made of the numbers of particles that the states report at these multiples (C49_composition_run_partial), and a number that no event changes is in every row (C49_composition_constant)."
  },
  {
   "property": "C50",
   "status": "partial",
   "theorems": [
    "KMC.C50_alone",
    "KMC.C50_new",
    "KMC.C50_exact",
    "KMC.C50_reuse_partial",
    "KMC.C50_reuse_same_lattice_partial",
    "KMC.C50_shared_changes",
    "KMC.C50_wildcards_stay",
    "KMC.C50_cached",
    "KMC.C50_stale_numbering"
   ],
   "note": "False of the code: a second model made from the same processes makes the first one choose impossible sites (C50_shared_changes), inserted wildcards stay in the processes and make a later model on another lattice miss events (C50_wildcards_stay), and the cached back end keeps the numbering of the types of the first model (C50_cached, C50_stale_numbering). Proved: as long as only one model is used it behaves as with its own processes (C50_alone, C50_new), and reusing the processes for a later model gives the same run as with fresh ones, on any lattice without implicit wildcards (C50_reuse_partial) and on the same lattice with them (C50_reuse_same_lattice_partial)."
  },
  {
   "property": "C51",
   "status": "partial",
   "theorems": [
    "KMC.C51_basis_beyond",
    "KMC.C51_basis_never",
    "KMC.C51_bucket",
    "KMC.C51_custom",
    "KMC.C51_processes",
    "KMC.C51_short_update",
    "KMC.C51_unknown_update",
    "KMC.C51_nothing_required",
    "KMC.C51_empty_update",
    "KMC.C51_repeated_update",
    "KMC.C51_emptied_site",
    "KMC.C51_process",
    "KMC.C51_model_partial",
    "KMC.C51_wildcard_move",
    "KMC.C51_repeated_place"
   ],
   "note": "Ordinary processes with distinct places and no moved wildcard, and bucket processes from sound input, with or without a rate calculator, and configurations in all three formats (C51_processes, C51_model_partial, C36_buckets). Partial: what soundness excludes is accepted by the front end and breaks the back end (witnesses for a moved wildcard, a repeated place, update information that is too short, unknown, empty or repeated, nothing required, and a site that is emptied). A basis site that the lattice does not have is accepted as well: with implicit wildcards the constructor reads out of bounds (C51_basis_beyond), otherwise the process is never available (C51_basis_never)."
  },
  {
   "property": "C52",
   "status": "partial",
   "theorems": [
    "KMC.C52_run_bounded",
    "KMC.C52_run",
    "KMC.C52_model_partial",
    "KMC.C52_edge",
    "KMC.C52_mixed_partial"
   ],
   "note": "Proved for processes of both kinds with positive rates, when the number of particles cannot grow and is small enough for the processes (always so with one particle per site), and moved coordinates are at sites around the middle of the lattice: the model is constructed and every run does all its steps or ends in a state without available sites. Partial: a process that reaches over an open edge is accepted and read outside bounds in the constructor (witness); multiplicities may overflow with many particles; bucket processes need sound input and custom rates the conditions of C26."
  },
  {
   "property": "C53",
   "status": "partial",
   "theorems": [
    "KMC.C53_unit_cell",
    "KMC.C53_lattice",
    "KMC.C53_assumptions",
    "KMC.C53_sites",
    "KMC.C53_distinct",
    "KMC.C53_cartesian",
    "KMC.C53_independent_rejected",
    "KMC.C53_coinciding_accepted"
   ],
   "note": "Acceptance, layout and independence are exact. False: independent vectors that are left-handed or span less than 1/100000 are rejected (C53_independent_rejected), and a repeated basis point is accepted (C53_coinciding_accepted); sites are distinct exactly if the basis points are."
  },
  {
   "property": "C54",
   "status": "partial",
   "theorems": [
    "KMC.LatticeMap.C54_cell_partial",
    "KMC.LatticeMap.C54_neighbours_partial",
    "KMC.LatticeMap.C54_wrong_cell",
    "KMC.LatticeMap.C54_neighbour_missed"
   ],
   "note": "Proved up to 2^24 cells, for any rounding to nearest. False above: the last cell of a layer is taken for the first of the next (C54_wrong_cell) and its site misses neighbours (C54_neighbour_missed). Coordinates and distances are not rounded; the exponent is unbounded."
  },
  {
   "property": "C55",
   "status": "partial",
   "theorems": [
    "KMC.C55_drift_run_partial",
    "KMC.C55_near_ties_partial",
    "KMC.C55_near_ties_time_partial",
    "KMC.C55_rare_partial",
    "KMC.C55_tie_chance",
    "KMC.C55_without_rounding",
    "KMC.C55_followed",
    "KMC.C55_available",
    "KMC.C55_select_partial",
    "KMC.C55_step_partial",
    "KMC.C55_exact_partial",
    "KMC.C55_grid_step_partial",
    "KMC.C55_drift_partial",
    "KMC.C55_time_partial",
    "KMC.C55_ghost",
    "KMC.C55_backwards",
    "KMC.C55_stalls",
    "KMC.C55_same_events_partial",
    "KMC.C55_default_generator_partial",
    "KMC.C55_other_event"
   ],
   "note": "Where runs can go and what is listed is not affected by rounding (C55_followed, C55_available). Selection and time: false of the code, since the stored total of a process can stay positive without sites (C55_ghost: out of bounds), become negative (C55_backwards: time goes back) or be too large for the time to advance (C55_stalls); proved when the stored totals are sound, in particular when all rates are multiples of one power of two, and the drift per process is bounded (C55_drift_partial; along whole runs with constant rates C55_drift_run_partial). When moreover the products with the random numbers are exact, the same events take place as in exact arithmetic, with a bound for the error of the time (C55_same_events_partial, C55_default_generator_partial); without this last condition another event can be selected (C55_other_event), but with constant rates only if a random number is close to a border between two processes or sites, closer than twice the roundings so far (C55_near_ties_partial; with a bound for the error of the time C55_near_ties_time_partial). Rates and multiplicities only; the exponent is unbounded. How often random numbers are that close is bounded: the share of all random numbers for which a run with rounding differs from the exact one (C55_rare_partial). A simple formula that bounds this share, linear in the number of events, is C55_tie_chance."
  },
  {
   "property": "C57",
   "status": "partial",
   "theorems": [
    "KMC.C57_grid",
    "KMC.C57_uniform",
    "KMC.C57_bits",
    "KMC.C57_process_share",
    "KMC.C57_site_share",
    "KMC.C57_event_share",
    "KMC.C57_last_never",
    "KMC.C57_first_always",
    "KMC.C57_slow_processes",
    "KMC.C57_time_bound",
    "KMC.C57_time_share",
    "KMC.C57_reproducible",
    "KMC.C57_start",
    "KMC.C57_device"
   ],
   "note": "Shares of processes, sites and events hold up to 1/N and 2/N, time steps up to 1/N and never longer than log N over the total rate. False below the resolution: the last process is never selected if its share is at most 1/N, the first one is selected with at least 1/N whatever its rate (witness with the default generator, N = 2^32). Seeded numbers are reproducible and equal on all ranks; those of the random device differ between the ranks and are not exchanged (witness). Engines are arbitrary state machines with the ranges of the standard; the canonical fraction is exact, which for MINSTD is a simplification."
  },
  {
   "property": "C56",
   "status": "partial",
   "theorems": [
    "KMC.C56_names",
    "KMC.C56_names_quote",
    "KMC.C56_number",
    "KMC.C56_number_exact",
    "KMC.C56_process_exact_partial",
    "KMC.C56_process_close",
    "KMC.C56_process_without_moves",
    "KMC.C56_process_settles_partial",
    "KMC.C56_process_accepted_partial",
    "KMC.C56_process_rejected",
    "KMC.C56_cell_exact",
    "KMC.C56_possible_partial",
    "KMC.C56_configuration_partial",
    "KMC.C56_basis_rejected",
    "KMC.C56_possible_repeated",
    "KMC.C56_model_partial",
    "KMC.C56_model_exact_partial",
    "KMC.C56_buckets_fail",
    "KMC.C56_stored_types",
    "KMC.C56_list",
    "KMC.C56_unknown",
    "KMC.C56_stored_stale"
   ],
   "note": "Text of names and numbers is read back (names without quotes, numbers within 5e-7 and exactly up to seven digits). The script of a model evaluates to the model of its parts read back; with short numbers, distinct places and no repeated possible type it is the same model without its rate calculator. Processes without moves always come back; with moves they do if the rounded moves still fit (sufficient condition). False in general: rejected processes and basis points (witnesses), lost rate calculator, no buckets, stored types instead of the current ones, numbering with repeated types, names with quotes. Layout of the text above names and numbers is not modelled. Names that are not assigned are exceptions (C56_unknown)."
  },
  {
   "property": "C58",
   "status": "proved",
   "theorems": [
    "KMC.C58_path_law",
    "KMC.C58_total",
    "KMC.C58_possible",
    "KMC.C58_courses"
   ],
   "note": "For ideal random numbers, uniform real numbers in [0,1); the resolution of the actual generators is C57 and the rounding of rates C55. That every listed event can come next is for models whose number of particles cannot grow and is small enough (otherwise multiplicities can overflow, C26). That the listed events are the possible ones with the right rates is C24, C25, C32."
  },
  {
   "property": "C59",
   "status": "proved",
   "theorems": [
    "KMC.C59_elsewhere",
    "KMC.C59_elsewhere_constructor",
    "KMC.C59_elsewhere_back",
    "KMC.C59_elsewhere_balance",
    "KMC.C59_elsewhere_stationary",
    "KMC.C59_elsewhere_product",
    "KMC.C59_undone",
    "KMC.C59_particles",
    "KMC.C59_constructor",
    "KMC.C59_back",
    "KMC.C59_balance",
    "KMC.C59_total",
    "KMC.C59_stationary",
    "KMC.C59_product",
    "KMC.C59_product_stationary",
    "KMC.C59_law"
   ],
   "note": "Reverse processes are those with the same places around the same central site, or around another place of the process, such as the hop to the left for the hop to the right (C59_elsewhere). In the second case the model is on the sites of a lattice on which all sites of a kind see the same surroundings, it inserts wildcards, and the places of the processes are at sites. The flows are sums over events, so the theorems on balance need that every listed event can come next, which is shown for models whose number of particles cannot grow and is small enough (C26)."
  },
  {
   "property": "C60",
   "status": "partial",
   "theorems": [
    "KMC.Md5.C60_md5",
    "KMC.Md5.C60_pieces",
    "KMC.Md5.C60_key",
    "KMC.Md5.C60_message",
    "KMC.Md5.C60_collision",
    "KMC.Md5.C60_same_key",
    "KMC.Md5.C60_text"
   ],
   "note": "The digest, the key and the messages are proved exact. False: keys cannot be different for all surroundings (C60_collision, from 65 sites with two types on, for any 64 bit hash; C60_same_key for the one of the code), and the printed digest is ambiguous since leading zeros are dropped (C60_text). The table of constants is compared with that of the RFC, not with the sine."
  },
  {
   "property": "C61",
   "status": "partial",
   "theorems": [
    "KMC.C61_same_partial",
    "KMC.C61_double",
    "KMC.C61_rounded",
    "KMC.C61_length",
    "KMC.C61_euclidean_partial",
    "KMC.C61_half_box",
    "KMC.C61_range",
    "KMC.C61_order",
    "KMC.C61_sites",
    "KMC.C61_sites_error",
    "KMC.C61_centre",
    "KMC.C61_centre_error",
    "KMC.C61_move_error",
    "KMC.C61_mesh_partial",
    "KMC.C61_moves",
    "KMC.C61_moves_checked",
    "KMC.C61_found_accepted",
    "KMC.C61_moves_margin"
   ],
   "note": "Proved for geometries with a margin (C61_same_partial, C61_euclidean_partial), with the Euclidean length computed in rounded arithmetic (C61_length) and coordinates and moves stored with an error, as the front end stores them (C61_sites, C61_centre, C61_move_error). The move vectors that the front end finds by itself or is given pass its check in rounded arithmetic as in exact arithmetic, if no target is close to the tolerance (C61_moves, C61_moves_checked, C61_found_accepted; false otherwise, C61_moves_margin). Coordinates that are multiples of 1/q have the margin if q is not too large (C61_mesh_partial). False without: at half the box (C61_half_box), when the number of cells is truncated (C61_range), and for equal components that are computed in different ways (C61_order). Models with custom rates are not covered, and the exponent is unbounded."
  },
  {
   "property": "C62",
   "status": "proved",
   "theorems": [
    "KMC.C62_available",
    "KMC.C62_event",
    "KMC.C62_rates",
    "KMC.C62_course",
    "KMC.C62_law",
    "KMC.C62_chance",
    "KMC.C62_homogeneous",
    "KMC.C62_times",
    "KMC.C62_homogeneous_times"
   ],
   "note": "Availability (C62_available), rates (C62_rates), the effect of an event (C62_event), courses of events (C62_course) and their probabilities (C62_law). With constant rates the probability of given types at a given time is that of the translated types in the translated model (C62_chance), and within one model whose runs come to all translates (C62_homogeneous); the same for types at several times (C62_times, C62_homogeneous_times). The axes of translation must be periodic and at least as long as the range. With a rate calculator it must take no account of the position, and either all processes are bucket processes or every site has one particle."
  },
  {
   "property": "C63",
   "status": "proved",
   "theorems": [
    "KMC.C63_same",
    "KMC.C63_shift",
    "KMC.C63_equal",
    "KMC.C63_refl",
    "KMC.C63_symm",
    "KMC.C63_rate_ignored",
    "KMC.C63_bucket",
    "KMC.C63_not_transitive"
   ],
   "note": "C63_same and C63_shift: the same process from another form. C63_equal: what the comparison says; C63_refl, C63_symm. It leaves out the rate constants (C63_rate_ignored), is not transitive (C63_not_transitive) and raises for a bucket process of the same size (C63_bucket)."
  },
  {
   "property": "C64",
   "status": "proved",
   "theorems": [
    "KMC.C64_types",
    "KMC.C64_start",
    "KMC.C64_master",
    "KMC.C64_total",
    "KMC.C64_unique",
    "KMC.C64_stationary",
    "KMC.C64_rates",
    "KMC.C64_family"
   ],
   "note": "The probability is the limit, for more and more random numbers, of the probability that they decide the state at the given time. A state without available sites is kept for ever; the front end stops there. That the types decide the rates is a hypothesis of the general theorems, shown for constant rates (C64_rates, C64_family). Random numbers are real and independent, as in C28, C29 and C58."
  },
  {
   "property": "C65",
   "status": "proved",
   "theorems": [
    "KMC.C65_average",
    "KMC.C65_ergodic",
    "KMC.C65_semigroup",
    "KMC.C65_reached",
    "KMC.C65_rate",
    "KMC.C65_equilibrium",
    "KMC.C65_connected",
    "KMC.C65_balance",
    "KMC.C65_product",
    "KMC.C65_elsewhere",
    "KMC.C65_uniform"
   ],
   "note": "Stated for the probabilities of C64. That the average over one long run has this limit with probability one is not treated. The hypotheses on the family of types hold for constant rates (C64_family); the examples are a site with two states and a particle on a ring of four sites. Averages over time go to the averages with the stationary weights (C65_average, C65_ergodic)."
  },
  {
   "property": "C66",
   "status": "proved",
   "theorems": [
    "KMC.C66_rates",
    "KMC.C66_types",
    "KMC.C66_law",
    "KMC.C66_order",
    "KMC.C66_scale",
    "KMC.C66_split"
   ],
   "note": "Stated for the probabilities of C64, with constant rates. The same largest range is a hypothesis: the range decides which neighbours are looked at. Match lists are compared entry by entry as the processes hold them when the model is set up, before implicit wildcards are inserted. Single runs with the same random numbers may differ between the two models."
  },
  {
   "property": "C67",
   "status": "proved",
   "theorems": [
    "KMC.C67_numbers",
    "KMC.C67_configuration",
    "KMC.C67_process",
    "KMC.C67_processes",
    "KMC.C67_run",
    "KMC.C67_seen",
    "KMC.C67_input",
    "KMC.C67_step",
    "KMC.C67_follows"
   ],
   "note": "Constant rates only: the numbers of the types enter the key under which a custom rate is stored. From the names in the input to the end of the run (C67_input). That the second run goes through (C67_step, C67_follows) needs small enough numbers of particles. Processes are made with the constructor for constant rates."
  },
  {
   "property": "C68",
   "status": "partial",
   "theorems": [
    "KMC.C68_available",
    "KMC.C68_event",
    "KMC.C68_rates",
    "KMC.C68_course",
    "KMC.C68_law",
    "KMC.C68_mirror_partial",
    "KMC.C68_swapXY",
    "KMC.C68_swapYZ",
    "KMC.C68_half_box",
    "KMC.C68_flow",
    "KMC.C68_chance",
    "KMC.C68_times"
   ],
   "note": "Constant rates; one basis site per process; lattices whose axes are periodic and not shorter than the range, or one cell long. Mirror images only with no place at exactly half of the box, where the statement is false (C68_half_box: the place +2 on a ring of four is never matched, the place -2 is). At open ends it is false as well (C11_mirror). The rates from types to types (C68_flow) and the probabilities of given types at a time (C68_chance) and at several times (C68_times) are those of the images."
  },
  {
   "property": "C69",
   "status": "proved",
   "theorems": [
    "KMC.C69_local",
    "KMC.C69_looks",
    "KMC.C69_elsewhere",
    "KMC.C69_event_local",
    "KMC.C69_stays",
    "KMC.C69_commute",
    "KMC.C69_range",
    "KMC.C69_far",
    "KMC.C69_same_available",
    "KMC.C69_both_orders"
   ],
   "note": "All lattices and all processes (C69_local, C69_looks, C69_elsewhere, C69_event_local, C69_stays, C69_commute, C69_same_available, C69_range, C69_far). That both orders can be done (C69_both_orders) needs positive rates and small enough numbers of particles."
  },
  {
   "property": "C70",
   "status": "partial",
   "theorems": [
    "KMC.C70_followed_partial",
    "KMC.C70_step_partial",
    "KMC.C70_available_partial",
    "KMC.C70_open_ends_partial",
    "KMC.C70_event_partial",
    "KMC.C70_same_events_partial",
    "KMC.C70_near_ties_partial",
    "KMC.C70_rare_partial"
   ],
   "note": "C55, C61, C10 and C17 put together (C70_followed_partial, C70_step_partial, C70_available_partial, C70_open_ends_partial, C70_event_partial). Constant rates. The geometry must leave room for the errors; without it the statement is false (C61_half_box, C61_range, C61_order). Availability at sites that see their surroundings like those in the middle, and near open ends as in C11. When all rates are multiples of a power of two and the model is small enough, run and exact run are the same but for the time (C70_same_events_partial); with other constant rates they are if no random number is close to a border between two processes or sites (C70_near_ties_partial), and the share of random numbers for which one is close is bounded (C70_rare_partial). Otherwise, that a run goes on, and which event is selected with which probability, is not included (C55, C57)."
  },
  {
   "property": "C71",
   "status": "proved",
   "theorems": [
    "KMC.C71_reversible",
    "KMC.C71_backwards",
    "KMC.C71_correlation",
    "KMC.C71_autocorrelation",
    "KMC.C71_return",
    "KMC.C71_product"
   ],
   "note": "C71_reversible, C71_backwards, C71_correlation, C71_autocorrelation and C71_return for any finite family of types with detailed balance (C59); C71_product for models with constant rates and reverse processes. The probability of a course is the product of the probabilities of its parts, and C72_times shows that this is the probability of the types at these times."
  },
  {
   "property": "C72",
   "status": "proved",
   "theorems": [
    "KMC.C72_stationary",
    "KMC.C72_mixing",
    "KMC.C72_times",
    "KMC.C72_later",
    "KMC.C72_backwards",
    "KMC.C72_constant"
   ],
   "note": "C72_times: the probability that the model has listed types at listed times, as the volume of a set of random numbers, is the product of the probabilities of C64 from each time to the next. C72_later: a course and then another. C72_backwards: the reverse course with detailed balance. C72_constant for models with constant rates, without a family. C72_stationary: from a start with the stationary weights all times may be shifted. C72_mixing: types a long time after a course are nearly independent of the course."
  },
  {
   "property": "C73",
   "status": "proved",
   "theorems": [
    "KMC.C73_sampled",
    "KMC.C73_law",
    "KMC.C73_near",
    "KMC.C73_balance",
    "KMC.C73_elsewhere",
    "KMC.C73_uniform"
   ],
   "note": "C73_sampled: the probability, as the volume of a set of random numbers, that the average over k samples is at least ε away from the stationary average is at most C / (k ε²), with one C for all starts. C73_near: with at least one minus this probability the samples are decided and their average is less than ε away. C73_law: the limit. C73_balance: with detailed balance, in terms of the weights of the balance. C73_elsewhere, C73_uniform: for models with constant rates and reversible processes, without a family."
  }
 ]
}