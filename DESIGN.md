# Formal model of KMCLib: design

The properties are in `properties.jsonl` (C01, C02, …). Their status and the names of the
theorems are in `MANIFEST.json`. Below `lean/Verif/`:

* `Model/*`: the model, function by function. Each definition cites the file and lines of /repo that it models and says
  where it simplifies.
* `Spec/*`: small specifications used in the statements. They do not use the model's algorithms: `Spec/Lattice` (sites and
  cells), `Spec/Process` (what a process says), `Spec/Input` (what a well formed input is), `Spec/Run` and `Spec/Model`
  (runs of well formed inputs, `GoodRun`).
* `Lemmas/*`: helper lemmas.
* `Props/*`: the property theorems `Cnn_…`, with an `example` of a concrete case beside them.
* `Samples/*`: concrete lattices, processes and runs for the examples and witnesses.

A theorem with the suffix `_partial` proves part of its property, and its comment says what is missing. Where a property
is false of the code, a theorem without the suffix proves the negation with a witness; these are listed under
"Disagreements" below.

## Modelling conventions

* **Faults.** `M α = Except Fault α`. Every indexed read and write goes through a checked accessor that gives
  `Fault.outOfBounds`, so "no undefined behaviour" is a theorem and not an artefact of totalised functions. Thrown
  exceptions are error values as well (`exception`, and `indexError`, `divByZero` for those of Python). `overflow` stands
  for a C++ `int` that cannot hold its value, `diverges` for a loop that does not end.
* **Numbers.** `double` is an arbitrary linearly ordered field `K`; theorems hold in ℚ and ℝ, witnesses use ℚ and
  probabilities ℝ. Rounding is added in three places: `Model/Double`, `Model/Rounded` and `Model/RoundedGeometry` follow the
  cell numbers (C54), the rates and the time (C55) and the coordinates and distances (C61) through rounding to 53 bits with an
  unbounded exponent. The analyses are exact throughout. Infinities and nans are not modelled. `std::sqrt` is a parameter `dist : Coord K → K`, and
  statements say what they assume of it. The logarithm is a parameter `negLog`; C29 uses the real one.
* **`int`** is `Nat` or `Int` without overflow, except for the multiplicity (C14) and the bins of the mean square
  displacement (C47), where the overflow is a fault.
* **Vectors** are lists. Iterators that go one element past the end without being used are not faults; in particular the
  search loop of `removeSite` stops at the first hit, and not finding the site is `outOfBounds`. One read at `end()` is
  ignored in the model of runs: that of matcher.cpp:543 and hash.cpp:134, whose value does not matter (C35).
* **Sorting.** `std::sort` is insertion sort with the code's own comparison. It agrees with any correct sort up to the order
  of entries that compare equal. `numpy.argsort` is taken to be stable.
* **Random numbers** are inputs: each step is given the numbers drawn, and C28 and C29 say how uniform numbers translate
  into probabilities. `Model/Random` has the choice of the generator, the seeding and the fraction that is made of the values
  of an engine (C57). The engines are arbitrary state machines with the ranges of the standard. The fraction is exact, which
  for MINSTD, whose fractions have 62 bits, is a simplification.
* **Callbacks** (custom rates, plugins, breakers) are arbitrary functions of exactly the data that the code passes. A rate
  function with a state of its own is outside the model; for analyses and breakers in the run loop any reply, also an
  exception, may depend on all calls made before.
* **MPI** is `nRanks` ranks that each compute their part, joined by an all-reduce sum. Transport is not modelled.
* **Hashing** (MD5 folded to 64 bits) is an arbitrary function on the hashed list of integers in the model of runs; `Model/Md5`
  has the function itself (C60).
* **Python values.** Arguments whose type decides a branch are the inductive type `Py`. Elsewhere arguments have the right
  type; conversions between `int`, `float` and numpy types are not modelled, nor that `bool` counts as `int`. The vectors
  that SWIG returns are copies.
* **Run loop.** Everything outside the loop (trajectory, analyses, breakers) is an oracle that is given the list of calls
  and replies or raises. Breaker intervals are fixed during a run. The outside does not change the simulation.
* **Files** are lists of lines with their content. Number formats, row breaks, quoting and the header are left out, and
  writing does not fail.
* **Scripts** (C56). The text is modelled for lists of names and for numbers (`%15.6e`), and `Spec/Literal` says how Python
  reads these two. Above that a script is a list of assignments that are evaluated in order. Comments and layout are left out.
  The scripts contain no import, so that the names of the classes are taken to be known to the reader.
* **Analyses.** Counters are unbounded. Square roots in deviations are left out: the model has the squares.
* **Sharing** (C50). Processes are shared objects between models; each model has its own configuration object.

## What is modelled

| code | model | what is left out |
|------|-------|------------------|
| c++/src/latticemap | `LatticeMap`, `Rounded`, `RoundedGeometry` | – |
| c++/src/coordinate, typebucket | `Coordinate`, `TypeBucket`, `RoundedGeometry` | printing |
| c++/src/matchlist, matchlistentry | `MatchList`, `RoundedGeometry` | – |
| c++/src/configuration | `Configuration`, `RoundedGeometry` | – |
| c++/src/process, customrateprocess | `Process`, `Rounded`, `RoundedGeometry` | – |
| c++/src/interactions | `Interactions`, `Rounded` | – |
| c++/src/matcher | `Matcher` | `printMatch…` output |
| c++/src/latticemodel, simulationtimer | `LatticeModel`, `Rounded` | – |
| c++/src/ratetable | `RateTable` | – |
| c++/src/hash.cpp, c++/externals/zip/md5.tar.gz | `Matcher` (`keyData`), `Md5` | big-endian machines |
| c++/src/mpiroutines | `Mpi` | transport |
| c++/src/ontheflymsd, blocker | `Msd` | square roots |
| c++/src/random | `Random` | the engines of the standard library |
| c++/src/mpicommons, ratecalculator | parameters | MPI calls, director classes |
| c++/custom | – | test calculators |
| KMCLattice, KMCUnitCell, CoordinateUtilities | `PyLattice`, `PyUnitCell`, `Script` | – |
| KMCConfiguration, CheckUtilities, ConversionUtilities | `PyTypes`, `Configuration`, `Script` | queries, ATK scripts |
| KMCProcess, KMCLocalConfiguration, KMCBaseProcess | `PyProcess`, `PyEqual`, `Script` | – |
| KMCBucketProcess | `PyBucket` | – |
| KMCInteractions | `PyProcess`, `PyBucket`, `Sharing`, `Script` | – |
| KMCControlParameters, KMCLatticeModel | `PyControl`, `PyRun`, `Sharing`, `Script` | printing |
| Trajectory, LatticeTrajectory, XYZTrajectory | `Trajectory` | formats |
| Composition, ProcessStatistics, TimeStepDistribution, OnTheFlyMSD | `Analysis`, `Msd` | printing |
| KMCRateCalculatorPlugin | `PyRate` | – |
| SaveAndReadUtilities | `Script` | file access |
| PrintUtilities, other plugin interfaces | – | all |

## How each property is proved

| id | model | proof |
|----|-------|-------|
| C01 | `indexToCell` with its 1e-9 and truncation, `indicesFromCell`, Python `_globalIndex`, site loops | truncation is integer division for all indices; mutual inverses; order of the generated sites |
| C02, C03 | `neighbourIndices` | membership against "cells within range"; each site once on wide boxes, duplicates on narrow ones; symmetry of the wrap |
| C04 | `supersetNeighbourIndices` | strictly sorted, membership |
| C05 | `wrap` | interval arithmetic |
| C06, C07 | `Coordinate`, `TypeBucket` operators | order laws by induction; error branches |
| C08, C09 | `configMatchList`, `operator<` of entries | sortedness, permutation, first entry; a cycle, and a theorem for separated distances |
| C10–C12 | `whateverMatch`, `match`, wildcard insertion | equivalence with a geometric pattern by induction on both lists; at open ends by comparing the two sorted lists up to the last place |
| C13 | ranges of processes, `maxRange` | coverage under conditions, witnesses where it fails |
| C14, C15 | `multiplicity`, tasks, `updateProcesses` | product of `Nat.choose`; it does not reach the rates |
| C16–C23 | `performBucketProcess` | invariants over all runs of well formed inputs |
| C24–C26 | matcher, site lists, inverse table, `singleStep` | refinement to an availability map; induction over runs |
| C27–C30 | tables, `lower_bound`, timer | cumulative intervals; Lebesgue measure; exponential law |
| C31 | chunks, split, join | partition, join ∘ map ∘ split = map |
| C32–C35 | custom rates, rate table, key, `updateSingleRate` | invariant; eviction refinement; two runs in step, with and without the table; witnesses |
| C36–C40 | front end validators | functional specifications, acceptance and rejection |
| C41–C44 | control parameters, run loop, time based dumping | traces of calls with exceptions |
| C45 | trajectories | representation of buffer and file; combined with C42 |
| C46–C49 | analyses | folds against counting specifications |
| C50 | several models with shared processes | simulation relations; witnesses |
| C51 | front end input to back end input | composition of C36–C39 with the assumptions of C16–C26 |
| C52 | front end input to the end of the run; bounds on the number of particles for bucket processes | composition of C51, the constructor, C26 and C42; the bound is kept by events and bounds every multiplicity |
| C53 | unit cell and lattice | determinant, bijection of sites and addresses |
| C54, C55 | rounding to 53 bits | error bounds; simulation by exact runs with other random numbers; exactness on a common grid; the same events as in exact arithmetic if the products with the random numbers are exact too (Props/SameEvents); the number of roundings of each stored total counted along runs (Props/Drift), so that only random numbers near a border can select another event (Props/NearTies), and these are counted (Props/RareTies); witnesses |
| C56 | saved scripts and their reading | automaton on the text; digits and rounding; the constructors applied to their own output; evaluation of the assignments |
| C57 | generators, seeding, canonical fractions | counting of the fractions in an interval; agreement of states |
| C58 | whole paths: product of the one-step probabilities, over real random numbers (sample model over the reals) | induction over the course; the measure of the first three random numbers times that of the rest; the state after a step depends on the event only |
| C59 | reverse processes, rates of going from state to state, weights of states, over all runs | the fitted match lists before and after an event; a bijection between the events from one state to another and those back; measure of a finite union of boxes; for reverses around other places the sites of the lattice and the displacements between them |
| C60 | hash.cpp and the MD5 code in its archive, against RFC 1321 | the registers as rotated views of the state of the RFC, line by line; an invariant of the context for update; pigeonhole |
| C61 | coordinates and distances in rounded arithmetic, against exact ones | a relation between the two states (all but the places equal, the same points recognised) kept by every function; error bounds for differences, wrapping, lengths and comparisons; lengths on a mesh of multiples of 1/q are equal or well apart; the check of move vectors as an error bound on the sum of the components; witnesses with 53 bits |
| C62 | translations along periodic axes as a map of the site numbers | the neighbours of the translated site are the translated neighbours in the same order with the same displacements, so the match lists agree entry by entry; then availability, rates and effects agree, and the law of paths of C58 gives the probabilities; the probabilities of types at given times agree because both solve the same master equation (C64) and it has one solution (Props/SymmetricLaw) |
| C63 | renumberings of the places and lists of moves that name the same places | distinct places are never tied in the sorting, so the sorted rows agree up to their numbers; the moves are found or checked at the renamed places and get the same new numbers; the comparison is unfolded |
| C64 | finite sets of types that no event leads out of, all times, over all runs | the random numbers of one step split into the time and the event; integration over the first step gives a renewal equation for the probability that the state is known within `N` events, and the limit of large `N` keeps it; the renewal equation is solved by differentiation, and uniqueness of solutions of linear differential equations turns it into the master equation (Lemmas/Chain, Lemmas/Jumps) |
| C65 | finite sets of types that no event leads out of, limit of large times, over all runs | the probabilities make a semigroup, by uniqueness for the backward equation; they are positive at positive times where events lead; so in a unit of time the distance from the stationary weights shrinks by a factor (Lemmas/Ergodic); with detailed balance a positive rate there has a positive rate back, and all states of runs are reached from the same start; samples: one site with two states, and a particle on a ring (Samples/RealRing); the area between the probability and its limit is bounded, which gives the averages over time (Props/Average) |
| C66 | all pairs of lists of processes, over all runs | equal match lists and basis sites stay equal when wildcards are inserted (`prepared_pattern`), so they are available at the same sites and lead to the same types (`leadsTo_pattern`); the rate from types to types is then a sum over patterns; uniqueness for the master equation (C64) with the time rescaled; the order, splitting and scaling of processes are special cases; sample: the site of C64 with rates doubled, reordered and one process split |
| C67 | all pairs of numberings with the wildcard at 0, all runs | a relation between two states that holds buckets to the same number for each type and 0 for types the first model does not have (Spec/Recoded); every function of the back end that reads or writes buckets keeps it (Lemmas/Recoded), from the constructors of configuration and process to the step; the names on a site follow from the counts; sample: A, B, C renumbered with a D between them |
| C68 | all models with constant rates on lattices that look alike from all sites, all runs | a one-to-one map of sites that carries the displacements of one lattice to those of the other (Spec/Symmetric) is enough, because availability (C10) and events (C17) only depend on which site is at which displacement; the mirror image and the exchange of axes are such maps (Lemmas/Symmetric); the probabilities at given times follow from the uniqueness of C64 (Props/SymmetricLaw)
| C69 | all models, all states of runs, all pairs of events without a common site | the surroundings of a site in two states differ in the types only, so matching and performing (C24, C17) read and write the same sites in both (Props/Local) |
| C70 | all roundings within bounds, all models with constant positive rates and room for the errors, all runs | a run as computed agrees in all but coordinates with a run with rounded rates only (C61); the latter is followed by an exact run with other random numbers (C55); C10 and C17 hold for the exact run (Props/Computed); with rates on a common grid, or random numbers away from the borders, the exact run has the same random numbers (Props/NearTiesComputed); the others are counted (Props/RareTiesComputed) |
| C71 | all models with detailed balance, all states, all times | the probabilities times the weights, forwards and backwards, solve the same equation (backward equation of C64 against its forward equation); sums over the types in the middle (Props/TimeReversal) |
| C72 | all finite closed families, all lists of times and types | the random number already drawn for the next event, divided by the probability that the event comes after the first time, is again uniform; so the random numbers from the first time on are as at a start. This gives the renewal equation of C64 with another start value, and solutions of it are combinations of those of C64 (Lemmas/Joint, Props/SeveralTimes) |
| C73 | all finite closed families whose types lead to one another, all numbers of samples | the samples are a Markov chain in discrete time (C72) that forgets its start as fast as powers of a number below one (C65); so the mean square of the sum of the deviations grows at most in proportion to the number of samples, and Chebyshev's inequality gives the bound (Lemmas/WeakLaw, Props/SampledAverage) |

## Disagreements between the code and the properties

Each has a theorem about the model with a concrete witness, unless noted. The theorems that remain true are the `_partial`
ones of the same property.

1. C09 (`C09_not_transitive`): comparing distances with a tolerance is not transitive, so `std::sort` is given an order it
   does not accept.
2. C11 (`C11_false_negative_at_open_boundary`): an unused pattern entry makes a process unavailable at an open end.
   The exact condition is in `C11_offered_iff_partial`, for states of runs in `C11_available_iff_partial`. It depends on the direction: the mirror image of the process is
   offered at the other end (`C11_mirror`). An explicit wildcard after the last other entry asks for enough sites in range, not for a site at
   its own place (`C11_offered_tail_iff_partial`), so that adding one can make a process unavailable at the ends (`C11_trailing_wildcard`).
3. C13 (`C13_range_too_small`, `C13_custom_range_smaller`): the range of a process can be less than its pattern needs; for
   custom processes it is the truncated cutoff.
4. C14 (`C14_overflow`): the multiplicity of 10 of 20 particles overflows 32 bits on the way.
5. C15 (`C15_not_scaled`): the multiplicity is computed and passed on, and then a literal 1.0 is used.
6. C18 (`C18_negative`): bucket processes may take away more than they require. Entries with a positive first component of
   the update (the wildcard slot) are passed over when the process is performed but their sites count as affected.
7. C20, C22 (`C20_duplicated`, `C22_disagree`), accepted by the front end (`C38_chain_accepted`, `C38_copy_accepted`): moves
   that do not permute the atoms duplicate identities.
8. C21 (`C21_untracked`): a move of an atom between places that look the same is not tracked.
9. C26, C32 (`C26_cutoff_overrun`): with custom rates a cutoff that is shorter than the pattern reads outside a list.
10. C27 (`C27_zero_random_number`): the random number zero selects a process without sites if it is the first.
11. C30 (`C30_zero_rate_never_ends`): with total rate zero the loop that draws the time step does not end. (The front end
    checks before each step whether something is available, but a rate of zero counts as available.)
12. C33 (`C33_key_blind`, `C33_not_transparent`): the key of the rate cache does not include the positions of the atoms, so
    storing rates can change them and with them the run. `C33_transparent_partial`: it does not when the key decides the answer.
13. C34 (`C34_old_value_can_hide_new`): a value stored again can be hidden by its old value after a change of tables.
14. C35 (`C35_missed`): within the tolerance of the cutoff a site can be left out of what the calculator is shown.
    `C35_past_end`: when all listed sites are within the cutoff, as is common, the entry at `end()` is read before the test
    for the end (matcher.cpp:543, hash.cpp:134).
15. C36 (`C36_bucket_length`, `C36_empty_site`): bucket input of a wrong length, and empty sites, are accepted.
16. C37 (`C37_repeated`, `C37_repeated_update`): repeated names in the list of possible types give a numbering with gaps, wrong
    counts and a write outside a vector.
17. C40 (`C40_malformed_accepted`): operator precedence in CheckUtilities.py:308 lets malformed pairs through.
18. C41 (`C41_zero_accepted`, `C41_zero_fails`), C46 (`C46_zero`), C47 (`C47_zero_steps`, `C47_zero_time`,
    `C47_cutoff_fails`): "positive" checks accept zero, which fails later.
19. C43 (`C43_not_prepared`, `C43_setup_raises`, `C43_clean_up_cut`): exceptions in the preparation or the clean-up skip the rest
    of the clean-up.
20. C44 (`C44_late`, `C44_second_run`): time based dumping with steps longer than the interval, and in second runs.
21. C45 (`C45_one_site`): the lattice trajectory of a lattice with one site raises.
22. C47 (`C47_cast`): a time difference of 2^31 bins is cast to an `int`. `C47_deviation_counter`: the deviation for pairs `m` steps
    apart uses the number of those `m + 2` apart. The documentation says that the largest time is the start of the last bin;
    it is its end (`MsdInput.times`). With an analysis interval of more than one only the atoms moved by the registered events are
    sampled, which changes the means (`C47_interval`).
23. C48 (`C48_no_blocks`): the front end always asks for blocks of size zero.
24. C49 (`C49_last_block`, `C49_times`, `C49_spatial`, `C49_mean_rate`): the last block is dropped, times of blocks drift, rates per
    site are divided by the start of the last block, and the printed mean rate counts one block too many. With an analysis interval `w` only
    every `w`-th event is counted (`C49_interval`).
25. C50 (`C50_shared_changes`, `C50_wildcards_stay`, `C50_stale_numbering`): models that share interactions disturb each other.
26. C51 (`C51_wildcard_move`, `C51_repeated_place`): moved wildcards and repeated places are accepted. The update information of
    bucket processes is not checked: it may be too short (`C51_short_update`), name unknown types (`C51_unknown_update`), be empty
    (`C51_empty_update`), or name a type twice, when the last number counts (`C51_repeated_update`). A place that requires nothing
    (`C51_nothing_required`) and a process that empties a site (`C51_emptied_site`) read the first of no elements.
27. C52 (`C52_edge`): the hop to the right on a chain of two sites that is not periodic is accepted; with implicit wildcards the
    constructor looks for its places around the middle of the lattice, does not find one and reads `index_mapping` outside its
    bounds (interactions.cpp:174-185).
28. C53 (`C53_independent_rejected`, `C53_coinciding_accepted`): left-handed and small cells are rejected; coinciding basis points
    are accepted.
29. C54 (`C54_wrong_cell`, `C54_neighbour_missed`): from 2^24 cells on, cell numbers are wrong in double precision.
30. C55 (`C55_ghost`, `C55_backwards`, `C55_stalls`, `C55_other_event`): total rates that are updated by adding and subtracting drift; a run can end
    outside an array, go back in time or stand still. `C55_other_event`: also with exact totals another event can be selected than in
    exact arithmetic, since the product of the total with the random number is rounded.
31. C57 (`C57_last_never`, `C57_first_always`, `C57_slow_processes`): the random numbers have 32 bits with the default generator, so
    the last process is never selected if its share is at most 2^-32, and the first is selected for the number zero whatever its
    rate (the case of 10). The header says that zero is not drawn. `C57_device`: with the random device the ranks of a parallel
    run draw different numbers and perform different events.
32. C56 (`C56_process_rejected`, `C56_basis_rejected`): scripts keep seven digits, and a process or a unit cell that was accepted
    can be rejected when it is read back. `C56_model_partial`: the rate calculator of the interactions is lost.
    `C56_buckets_fail`: models with buckets cannot be saved. `C56_stored_types`, `C56_stored_stale`: the types saved are those of
    the last call of `types()`, after a run without a lattice trajectory those of the beginning. `C56_possible_repeated`: with a
    repeated possible type the numbering changes. `C56_names_quote`: names with quotes are not read back.
33. C60 (`C60_collision`, `C60_same_key`): a 64 bit key cannot tell all surroundings apart, so that with enough sites within the
    cutoff a stored rate can be that of other surroundings. `C60_text`: the text of a digest drops leading zeros of each half
    (hash.cpp:76).
34. C61 (`C61_half_box`, `C61_range`, `C61_order`, `C61_moves_margin`): decisions at a border depend on the last bit of coordinates. On a ring of four
    cells with sites at 0.3 the site two cells away is at 1.9999999999999998 from two sites and at -1.9999999999999998 from the
    others, and a process that needs it is available at half of them. A process given with points at 0.3 and 2.3 covers one
    cell instead of two, and never matches. Points with equal components that were computed differently are sorted in another
    order than the sites. A move vector that misses its target by the tolerance of 0.00000001 is accepted after rounding.
35. C63 (`C63_rate_ignored`, `C63_not_transitive`, `C63_bucket`): processes that differ in their rate constants compare equal; the
    comparison is not transitive; comparing with a bucket process of the same basis sites and number of places raises an
    IndexError (KMCProcess.py:320).
36. C68 (`C68_half_box`): on a periodic axis with an even number of cells the place at plus half of the box is never matched while
    the place at minus half of the box is, although they are the same site: `wrap` gives coordinates from minus half of the box
    (included) to plus half of it (not included). So a process and its mirror image behave differently.
37. C51 (`C51_basis_beyond`, `C51_basis_never`): a basis site that the lattice does not have is accepted. As the only basis site of a
    process, with implicit wildcards, it makes the constructor read out of bounds (interactions.cpp:137); otherwise the process
    is silently never available.

Seen in the code but not stated as theorems: type names with quotes
give malformed trajectory files; a nan for the dump interval is not noticed; saved scripts lack the import of the package.

## Wrong programs

`seeded/LOG.jsonl` has one line for each wrong version of the model that was tried (`tools/seed.py` with the edits in
`seeded/edits*.jsonl`): the edit, the claim it should break, the declarations that failed to build, the property theorems
that depend on them, and, where nothing failed, the theorems that were added or tightened (`tightened`). S323 is the one edit
that changes nothing: the branch cannot be reached, since the lengths are compared before. Edits in
`seeded/edits*.jsonl` without a line in the log were written down but not tried for lack of time.

## Trusted base

The Lean 4.33.0 kernel; the axioms `propext`, `Classical.choice` and `Quot.sound` only; Mathlib as installed; and the reading of
the code: nothing is extracted from it or run. Beyond these, what a theorem says of the program rests on the conventions
above: exact numbers outside C54, C55 and C61, the meaning of `std::sort`, `std::lower_bound` and vectors, callbacks as functions,
the random numbers as inputs, and MPI reductions as sums.
