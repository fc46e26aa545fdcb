{
 "C01": [
  "proved",
  "Exact arithmetic; rounding of double is not modelled here."
 ],
 "C02": [
  "proved",
  "Membership exact for every box; each site once on wide boxes, duplicates witnessed on narrow ones."
 ],
 "C03": [
  "proved",
  ""
 ],
 "C04": [
  "proved",
  ""
 ],
 "C05": [
  "proved",
  ""
 ],
 "C06": [
  "proved",
  ""
 ],
 "C07": [
  "proved",
  ""
 ],
 "C08": [
  "partial",
  "Contents proved for every lattice; order and first entry for distances that are equal or at least the tolerance apart (false otherwise, C09)."
 ],
 "C09": [
  "partial",
  "Proved for separated distances; general claim false (cycle witness)."
 ],
 "C10": [
  "partial",
  "No false offers proved for every environment; the equivalence for sites that see their surroundings like the central cell, with exact coordinates. For states of runs: C10_available_iff_partial."
 ],
 "C11": [
  "partial",
  "False: witness of a process not offered at an open end, while its mirror image is offered at the other end (C11_mirror). What is offered there is right (C10_no_false_offer), and C11_offered_iff_partial says exactly when: the pattern fits and nothing is missing that comes before its last place. C11_available_iff_partial says the same for all states of runs. Explicit wildcards at the end ask for enough sites, not for their own (C11_offered_tail_iff_partial, C11_available_tail_iff_partial), so that with and without them a process is offered at different sites (C11_trailing_wildcard). Missing: processes with wildcards only, narrow periodic axes, near coincidences."
 ],
 "C12": [
  "proved",
  "Insertion keeps entries, order and moves; zero-update entries are passed over when performing."
 ],
 "C13": [
  "partial",
  "Per-axis coverage under a condition on fractional parts; two false witnesses (positive coordinates, custom rates)."
 ],
 "C14": [
  "partial",
  "Equal to the number of ways whenever no 32 bit overflow occurs; overflow witness for 10 of 20."
 ],
 "C15": [
  "partial",
  "False of the code: the multiplicity is computed and then dropped (witness). Proved that the rate is the bare rate constant, which is right where every site has one particle."
 ],
 "C16": [
  "proved",
  "For every state of every run from a well formed input."
 ],
 "C17": [
  "proved",
  "For every step of every run from a well formed input; conservation along whole runs; the numbers of particles follow from the numbers of events (C17_stoichiometry). In terms of the sites at the places of the process: C17_places_partial, for processes with a single basis site whose places are at sites."
 ],
 "C18": [
  "partial",
  "Proved for processes that take away no more than they require; bucket processes that take more are accepted and make counts negative (witness)."
 ],
 "C19": [
  "proved",
  "For every state of every run; processes made from one-particle local configurations are shown to be balanced."
 ],
 "C20": [
  "partial",
  "Proved where the moves of every process permute its moving sites; false for chains of moves (witness)."
 ],
 "C21": [
  "partial",
  "Proved with an error that grows with the steps by at most the tolerances (none for exact positions), for processes whose moves permute and show; false otherwise (witness)."
 ],
 "C22": [
  "partial",
  "Proved where the moves of every process permute its moving sites; false otherwise (witness)."
 ],
 "C23": [
  "proved",
  "For every step of every run from a well formed input."
 ],
 "C24": [
  "proved",
  "For every state of every run from a well formed input."
 ],
 "C25": [
  "proved",
  "For every state of every run from a well formed input; exact arithmetic."
 ],
 "C26": [
  "partial",
  "Every step ends properly or overflows 32 bit multiplicities. When the number of particles cannot grow, on each site or in total, and is small enough for the processes, nothing overflows and every step and the constructor end properly, for bucket processes as well (C26_step_bounded, C26_init_bounded); one particle per site is always small enough (C26_step_ordinary, C26_init_ordinary). False for custom rates whose cutoff misses a site matched within tolerance (witness)."
 ],
 "C27": [
  "partial",
  "Proved for every random number above zero, and for zero when the first process has a site; the remaining case is false of the code and has a witness."
 ],
 "C28": [
  "proved",
  "Interval form over any ordered field; Lebesgue probability over the reals, for process, site and event."
 ],
 "C29": [
  "proved",
  ""
 ],
 "C30": [
  "partial",
  "Time loop ends for a positive total rate; for total rate zero it never ends (witness)."
 ],
 "C31": [
  "proved",
  "Matching and whole runs give the same result for any number of ranks."
 ],
 "C32": [
  "proved",
  "Without caching; the condition CustomGeometry (cutoff covers the pattern) is needed for the code to be defined."
 ],
 "C33": [
  "partial",
  "When the key decides the answer: stored rates are the calculator's answers, and the whole run (states, times, errors) is the same with and without storing. False in general (geometry is not part of the key), with witnesses for a wrong rate and for two runs that differ."
 ],
 "C34": [
  "proved",
  ""
 ],
 "C35": [
  "partial",
  "Geometry, before states, updates and after states shown to the rate calculator are proved exact, up to the arguments of the Python rate function (C35_user_*); after names need one particle per site and no site listed twice in the environment. Complete within the cutoff when distances are separated by the tolerance; otherwise false, with witness. When all listed sites are within the cutoff the code reads one entry past the end (C35_end_read, C35_past_end)."
 ],
 "C36": [
  "partial",
  "Full and sparse input proved exact, with acceptance and rejection, up to the construction of the back end configuration. Bucket input with one nonempty entry per site is exact too (C36_buckets). Partial: the length of bucket input is not checked and empty sites are accepted (witnesses). Pairs that are too short are errors (C36_short_pair)."
 ],
 "C37": [
  "partial",
  "Proved when the given list of possible types has no repetition; with a repetition the numbering has gaps (witnesses of a wrong count and of a write out of bounds)."
 ],
 "C38": [
  "proved",
  "Accepted moves explain the elements after and wildcards stay; they need not permute the atoms (a chain and a copy are accepted, witnesses)."
 ],
 "C39": [
  "proved",
  ""
 ],
 "C40": [
  "proved",
  "For entries made of names and (number, name) pairs; a malformed pair inside a list is not rejected (witness). Of other entries: two are added up only if their second items are the same value (C40_added), and they are when it is made of strings, integers, tuples and lists (C40_adds)."
 ],
 "C41": [
  "partial",
  "Accepted control parameters are exactly characterised. Interval zero is accepted and then makes the run fail (witness); for positive intervals the faults of a run are only those of the back end, the outside or the error that nothing is available."
 ],
 "C42": [
  "proved",
  "The loop of the front end over an arbitrary back end and arbitrary outside. C42_model identifies its states with those of the run of the C++ model."
 ],
 "C43": [
  "partial",
  "Clean-up is complete however the loop ends, if the preparation and the clean-up calls themselves do not raise; both exceptions have witnesses."
 ],
 "C44": [
  "partial",
  "Holds for runs from time zero whose time steps are not longer than the interval; longer steps give late frames with the wrong configuration and second runs drift (witnesses)."
 ],
 "C45": [
  "partial",
  "Proved for both trajectory types, any limits and any pattern of wall-clock flushes, for the frames of a run, and a bound on what the buffer holds. Partial: the lattice trajectory of a one-site lattice fails with an index error (C45_one_site)."
 ],
 "C46": [
  "partial",
  "Every entry of the histogram is the number of steps in its bin, and the printed places are the middles of the bins. Partial: a bin size of zero is accepted and fails at the first step (C46_zero). Without setup a step is an exception (C46_unset). In runs of the front end the registered steps are those whose number is a multiple of the analysis interval (C46_run_partial), so with an interval above one the histogram is that of longer steps. That time does not decrease is an assumption there; with the logarithm, positive rates and random numbers in [0,1) it is proved (C29_increases, C46_real_partial)."
 ],
 "C47": [
  "partial",
  "The sums hold while every registered time difference is fewer than 2^31 bins and the largest time and the history length are positive; the other cases are refuted by C47_cast, C47_zero_time, C47_zero_steps and C47_cutoff_fails. What is made of the sums is proved as well; the deviation uses the counter of the wrong number of steps (C47_deviation_counter). In runs of the front end the positions are those of the atoms moved by events whose number is a multiple of the analysis interval (C47_front_partial); an interval above one changes the means (C47_interval). With the logarithm, positive rates and random numbers in [0,1) time increases (C47_real_partial)."
 ],
 "C48": [
  "proved",
  "The front end always asks for blocks of size 0 and so never has blocks (C48_no_blocks)."
 ],
 "C49": [
  "partial",
  "Every event and sample is in exactly one block and the results are the sums or means over closed blocks. Partial: the last block is dropped, reported times drift from the blocks, spatial rates are divided by the start of the last block, and the printed mean rate counts one block too many (witnesses). Without setup a step is an exception (C49_unset). In runs of the front end the counted events are those whose number is a multiple of the analysis interval (C49_run_partial), so with an interval above one most events are not counted (C49_interval). The composition in runs is made of the numbers of particles that the states report at these multiples (C49_composition_run_partial), and a number that no event changes is in every row (C49_composition_constant)."
 ],
 "C50": [
  "partial",
  "False of the code: a second model made from the same processes makes the first one choose impossible sites (C50_shared_changes), inserted wildcards stay in the processes and make a later model on another lattice miss events (C50_wildcards_stay), and the cached back end keeps the numbering of the types of the first model (C50_cached, C50_stale_numbering). Proved: as long as only one model is used it behaves as with its own processes (C50_alone, C50_new), and reusing the processes for a later model gives the same run as with fresh ones, on any lattice without implicit wildcards (C50_reuse_partial) and on the same lattice with them (C50_reuse_same_lattice_partial)."
 ],
 "C51": [
  "partial",
  "Ordinary processes with distinct places and no moved wildcard, and bucket processes from sound input, with or without a rate calculator, and configurations in all three formats (C51_processes, C51_model_partial, C36_buckets). Partial: what soundness excludes is accepted by the front end and breaks the back end (witnesses for a moved wildcard, a repeated place, update information that is too short, unknown, empty or repeated, nothing required, and a site that is emptied). A basis site that the lattice does not have is accepted as well: with implicit wildcards the constructor reads out of bounds (C51_basis_beyond), otherwise the process is never available (C51_basis_never)."
 ],
 "C52": [
  "partial",
  "Proved for processes of both kinds with positive rates, when the number of particles cannot grow and is small enough for the processes (always so with one particle per site), and moved coordinates are at sites around the middle of the lattice: the model is constructed and every run does all its steps or ends in a state without available sites. Partial: a process that reaches over an open edge is accepted and read outside bounds in the constructor (witness); multiplicities may overflow with many particles; bucket processes need sound input and custom rates the conditions of C26."
 ],
 "C53": [
  "partial",
  "Acceptance, layout and independence are exact. False: independent vectors that are left-handed or span less than 1/100000 are rejected (C53_independent_rejected), and a repeated basis point is accepted (C53_coinciding_accepted); sites are distinct exactly if the basis points are."
 ],
 "C54": [
  "partial",
  "Proved up to 2^24 cells, for any rounding to nearest. False above: the last cell of a layer is taken for the first of the next (C54_wrong_cell) and its site misses neighbours (C54_neighbour_missed). Coordinates and distances are not rounded; the exponent is unbounded."
 ],
 "C55": [
  "partial",
  "Where runs can go and what is listed is not affected by rounding (C55_followed, C55_available). Selection and time: false of the code, since the stored total of a process can stay positive without sites (C55_ghost: out of bounds), become negative (C55_backwards: time goes back) or be too large for the time to advance (C55_stalls); proved when the stored totals are sound, in particular when all rates are multiples of one power of two, and the drift per process is bounded (C55_drift_partial; along whole runs with constant rates C55_drift_run_partial). When moreover the products with the random numbers are exact, the same events take place as in exact arithmetic, with a bound for the error of the time (C55_same_events_partial, C55_default_generator_partial); without this last condition another event can be selected (C55_other_event), but with constant rates only if a random number is close to a border between two processes or sites, closer than twice the roundings so far (C55_near_ties_partial; with a bound for the error of the time C55_near_ties_time_partial). Rates and multiplicities only; the exponent is unbounded. How often random numbers are that close is bounded: the share of all random numbers for which a run with rounding differs from the exact one (C55_rare_partial). A simple formula that bounds this share, linear in the number of events, is C55_tie_chance."
 ],
 "C57": [
  "partial",
  "Shares of processes, sites and events hold up to 1/N and 2/N, time steps up to 1/N and never longer than log N over the total rate. False below the resolution: the last process is never selected if its share is at most 1/N, the first one is selected with at least 1/N whatever its rate (witness with the default generator, N = 2^32). Seeded numbers are reproducible and equal on all ranks; those of the random device differ between the ranks and are not exchanged (witness). Engines are arbitrary state machines with the ranges of the standard; the canonical fraction is exact, which for MINSTD is a simplification."
 ],
 "C56": [
  "partial",
  "Text of names and numbers is read back (names without quotes, numbers within 5e-7 and exactly up to seven digits). The script of a model evaluates to the model of its parts read back; with short numbers, distinct places and no repeated possible type it is the same model without its rate calculator. Processes without moves always come back; with moves they do if the rounded moves still fit (sufficient condition). False in general: rejected processes and basis points (witnesses), lost rate calculator, no buckets, stored types instead of the current ones, numbering with repeated types, names with quotes. Layout of the text above names and numbers is not modelled. Names that are not assigned are exceptions (C56_unknown)."
 ],
 "C58": [
  "proved",
  "For ideal random numbers, uniform real numbers in [0,1); the resolution of the actual generators is C57 and the rounding of rates C55. That every listed event can come next is for models whose number of particles cannot grow and is small enough (otherwise multiplicities can overflow, C26). That the listed events are the possible ones with the right rates is C24, C25, C32."
 ],
 "C59": [
  "proved",
  "Reverse processes are those with the same places around the same central site, or around another place of the process, such as the hop to the left for the hop to the right (C59_elsewhere). In the second case the model is on the sites of a lattice on which all sites of a kind see the same surroundings, it inserts wildcards, and the places of the processes are at sites. The flows are sums over events, so the theorems on balance need that every listed event can come next, which is shown for models whose number of particles cannot grow and is small enough (C26)."
 ],
 "C60": [
  "partial",
  "The digest, the key and the messages are proved exact. False: keys cannot be different for all surroundings (C60_collision, from 65 sites with two types on, for any 64 bit hash; C60_same_key for the one of the code), and the printed digest is ambiguous since leading zeros are dropped (C60_text). The table of constants is compared with that of the RFC, not with the sine."
 ],
 "C61": [
  "partial",
  "Proved for geometries with a margin (C61_same_partial, C61_euclidean_partial), with the Euclidean length computed in rounded arithmetic (C61_length) and coordinates and moves stored with an error, as the front end stores them (C61_sites, C61_centre, C61_move_error). The move vectors that the front end finds by itself or is given pass its check in rounded arithmetic as in exact arithmetic, if no target is close to the tolerance (C61_moves, C61_moves_checked, C61_found_accepted; false otherwise, C61_moves_margin). Coordinates that are multiples of 1/q have the margin if q is not too large (C61_mesh_partial). False without: at half the box (C61_half_box), when the number of cells is truncated (C61_range), and for equal components that are computed in different ways (C61_order). Models with custom rates are not covered, and the exponent is unbounded."
 ],
 "C62": [
  "proved",
  "Availability (C62_available), rates (C62_rates), the effect of an event (C62_event), courses of events (C62_course) and their probabilities (C62_law). With constant rates the probability of given types at a given time is that of the translated types in the translated model (C62_chance), and within one model whose runs come to all translates (C62_homogeneous); the same for types at several times (C62_times, C62_homogeneous_times). The axes of translation must be periodic and at least as long as the range. With a rate calculator it must take no account of the position, and either all processes are bucket processes or every site has one particle."
 ],
 "C63": [
  "proved",
  "C63_same and C63_shift: the same process from another form. C63_equal: what the comparison says; C63_refl, C63_symm. It leaves out the rate constants (C63_rate_ignored), is not transitive (C63_not_transitive) and raises for a bucket process of the same size (C63_bucket)."
 ],
 "C64": [
  "proved",
  "The probability is the limit, for more and more random numbers, of the probability that they decide the state at the given time. A state without available sites is kept for ever; the front end stops there. That the types decide the rates is a hypothesis of the general theorems, shown for constant rates (C64_rates, C64_family). Random numbers are real and independent, as in C28, C29 and C58."
 ],
 "C65": [
  "proved",
  "Stated for the probabilities of C64. That the average over one long run has this limit with probability one is not treated. The hypotheses on the family of types hold for constant rates (C64_family); the examples are a site with two states and a particle on a ring of four sites. Averages over time go to the averages with the stationary weights (C65_average, C65_ergodic)."
 ],
 "C66": [
  "proved",
  "Stated for the probabilities of C64, with constant rates. The same largest range is a hypothesis: the range decides which neighbours are looked at. Match lists are compared entry by entry as the processes hold them when the model is set up, before implicit wildcards are inserted. Single runs with the same random numbers may differ between the two models."
 ],
 "C67": [
  "proved",
  "Constant rates only: the numbers of the types enter the key under which a custom rate is stored. From the names in the input to the end of the run (C67_input). That the second run goes through (C67_step, C67_follows) needs small enough numbers of particles. Processes are made with the constructor for constant rates."
 ],
 "C68": [
  "partial",
  "Constant rates; one basis site per process; lattices whose axes are periodic and not shorter than the range, or one cell long. Mirror images only with no place at exactly half of the box, where the statement is false (C68_half_box: the place +2 on a ring of four is never matched, the place -2 is). At open ends it is false as well (C11_mirror). The rates from types to types (C68_flow) and the probabilities of given types at a time (C68_chance) and at several times (C68_times) are those of the images."
 ],
 "C69": [
  "proved",
  "All lattices and all processes (C69_local, C69_looks, C69_elsewhere, C69_event_local, C69_stays, C69_commute, C69_same_available, C69_range, C69_far). That both orders can be done (C69_both_orders) needs positive rates and small enough numbers of particles."
 ],
 "C70": [
  "partial",
  "C55, C61, C10 and C17 put together (C70_followed_partial, C70_step_partial, C70_available_partial, C70_open_ends_partial, C70_event_partial). Constant rates. The geometry must leave room for the errors; without it the statement is false (C61_half_box, C61_range, C61_order). Availability at sites that see their surroundings like those in the middle, and near open ends as in C11. When all rates are multiples of a power of two and the model is small enough, run and exact run are the same but for the time (C70_same_events_partial); with other constant rates they are if no random number is close to a border between two processes or sites (C70_near_ties_partial), and the share of random numbers for which one is close is bounded (C70_rare_partial). Otherwise, that a run goes on, and which event is selected with which probability, is not included (C55, C57)."
 ],
 "C71": [
  "proved",
  "C71_reversible, C71_backwards, C71_correlation, C71_autocorrelation and C71_return for any finite family of types with detailed balance (C59); C71_product for models with constant rates and reverse processes. The probability of a course is the product of the probabilities of its parts, and C72_times shows that this is the probability of the types at these times."
 ],
 "C72": [
  "proved",
  "C72_times: the probability that the model has listed types at listed times, as the volume of a set of random numbers, is the product of the probabilities of C64 from each time to the next. C72_later: a course and then another. C72_backwards: the reverse course with detailed balance. C72_constant for models with constant rates, without a family. C72_stationary: from a start with the stationary weights all times may be shifted. C72_mixing: types a long time after a course are nearly independent of the course."
 ],
 "C73": [
  "proved",
  "C73_sampled: the probability, as the volume of a set of random numbers, that the average over k samples is at least ε away from the stationary average is at most C / (k ε²), with one C for all starts. C73_near: with at least one minus this probability the samples are decided and their average is less than ε away. C73_law: the limit. C73_balance: with detailed balance, in terms of the weights of the balance. C73_elsewhere, C73_uniform: for models with constant rates and reversible processes, without a family."
 ]
}