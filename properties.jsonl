{"id": "C01", "title": "Site numbering is one-to-one", "statement": "Every lattice site (cell a,b,c plus basis position) has exactly one site index in 0..n_sites-1 and every index denotes exactly one site: converting an index to its cell and basis position and back gives the index again, and the backend and the Python front end (site list order, index conversion used for the sparse types format) use the same numbering.", "quantifier": "all repetitions >= 1 along each axis, all basis sizes >= 1, all indices and cells", "why_tests_cant": "the backend computes cells with a floating point epsilon and truncation; tests check a handful of indices on a few lattices, the claim is for every lattice size", "anchors": ["c++/src/latticemap.cpp:LatticeMap::indexToCell", "c++/src/latticemap.cpp:LatticeMap::indicesFromCell", "c++/src/latticemap.h:basisSiteFromIndex", "python/src/KMCLib/CoreComponents/KMCLattice.py:_globalIndex", "python/src/KMCLib/CoreComponents/KMCLattice.py:__generateLatticeSites"]}
{"id": "C02", "title": "Neighbourhoods are exactly the surrounding cells", "statement": "The neighbourhood of a site consists of exactly the sites whose cell is at most `range` cells away along every axis, counting through the boundary along periodic axes and never through it along non-periodic ones; it never contains an invalid index, and contains each site once whenever the box is at least as wide as the neighbourhood (narrower periodic boxes repeat sites)..", "quantifier": "all lattices, periodicity settings, site indices and ranges", "why_tests_cant": "boundary wrap has a different outcome for every combination of size, range, periodicity and position", "anchors": ["c++/src/latticemap.cpp:LatticeMap::neighbourIndices"]}
{"id": "C03", "title": "Being neighbours is mutual", "statement": "If site t is in the neighbourhood of site s then s is in the neighbourhood of t, for any box size and periodicity (the engine relies on this to find all environments an event can change).", "quantifier": "all lattices, all pairs of sites, all ranges", "why_tests_cant": "a single asymmetric pair on one odd lattice size silently corrupts a run; pairs x sizes x ranges cannot be enumerated", "anchors": ["c++/src/latticemap.cpp:LatticeMap::neighbourIndices", "c++/src/latticemodel.cpp:LatticeModel::singleStep"]}
{"id": "C04", "title": "The set of sites to re-examine is the union of neighbourhoods, once each", "statement": "For any list of changed sites the list of sites to re-examine is strictly increasing (so each site occurs once) and contains a site exactly when that site is in the neighbourhood of one of the changed sites.", "quantifier": "all lattices, all lists of sites (with repetitions), all ranges", "why_tests_cant": "duplicated or missing sites only show for overlapping neighbourhoods of particular shapes", "anchors": ["c++/src/latticemap.cpp:LatticeMap::supersetNeighbourIndices"]}
{"id": "C05", "title": "Minimum image convention", "statement": "The relative coordinate between two sites along a periodic axis of length L is moved into [-L/2, L/2) and differs from the raw difference by a multiple of L; along non-periodic axes it is the raw difference.", "quantifier": "all pairs of sites of all lattices, all basis coordinates in [0,1)", "why_tests_cant": "the code wraps at most once, so correctness depends on every raw difference being within one box length", "anchors": ["c++/src/latticemap.h:LatticeMap::wrap", "c++/src/configuration.cpp:Configuration::configMatchList"]}
{"id": "C06", "title": "Coordinates are totally ordered", "statement": "Comparing coordinates is a strict total order (irreflexive, transitive, exactly one of <, ==, > holds) and == is equality of the three components; the components can be read by number.", "quantifier": "all pairs and triples of coordinates", "why_tests_cant": "order laws quantify over triples of real vectors", "anchors": ["c++/src/coordinate.h:operator<", "c++/src/coordinate.h:operator=="]}
{"id": "C07", "title": "Bucket comparison laws", "statement": "A minimum-match bucket matches a site bucket exactly when no type is required more often than it is present; matching is reflexive and transitive, adding particles never breaks a match, the lexicographic bucket comparisons form a total order, and comparing buckets of different sizes is always an error rather than an answer.", "quantifier": "all pairs and triples of type buckets of all sizes", "why_tests_cant": "order laws over arbitrary integer vectors; error branch for all size mismatches", "anchors": ["c++/src/typebucket.h:match", "c++/src/typebucket.h:greaterOrEqual", "c++/src/typebucket.h:lessThan", "c++/src/typebucket.h:add", "c++/src/typebucket.h:identical"]}
{"id": "C08", "title": "Local environments are complete and sorted", "statement": "The local environment the engine keeps for a site lists every site of its neighbourhood exactly as often as the neighbourhood does, with minimum-image relative coordinate, ordered by distance then x, y, z, and starts with the site itself.", "quantifier": "all configurations and lattices (whose distinct distances differ by more than the tolerance)", "why_tests_cant": "ordering uses a tolerance comparison; tests use a few symmetric lattices", "anchors": ["c++/src/configuration.cpp:Configuration::configMatchList", "c++/src/configuration.cpp:Configuration::initMatchLists", "c++/src/matchlistentry.cpp:operator<"]}
{"id": "C09", "title": "The tolerance ordering of environment entries is a consistent ordering", "statement": "Ordering environment entries by distance (within tolerance 1e-5) then x, y, z is a strict weak order, as sorting requires.", "quantifier": "all sets of entries", "why_tests_cant": "non-transitive triples require near-tie distances that no unit test contains", "anchors": ["c++/src/matchlistentry.cpp:operator<"]}
{"id": "C10", "title": "A process is offered at a site exactly when its pattern is there", "statement": "With implicit wildcards, a process is available at a site of its basis exactly when, for each of its explicit coordinates, the site at that relative position has the required type(s) (a '*' accepts anything); positions not mentioned by the process never matter.", "quantifier": "all processes, all configurations, all sites whose surroundings are complete (interior or periodic)", "why_tests_cant": "matching is positional after sorting and wildcard insertion; its agreement with the geometric meaning depends on all pairs of lists", "anchors": ["c++/src/matchlist.h:whateverMatch", "c++/src/matchlistentry.h:match", "c++/src/interactions.cpp:Interactions::updateProcessMatchLists"]}
{"id": "C11", "title": "Patterns that fit near an open boundary are offered there", "statement": "On a non-periodic lattice a process whose explicit coordinates all exist at a boundary site, with the required types, is available there just as in the interior.", "quantifier": "all processes, all sites of lattices with at least one non-periodic axis", "why_tests_cant": "requires comparing edge and interior sites for every pattern", "anchors": ["c++/src/interactions.cpp:Interactions::updateProcessMatchLists", "c++/src/matchlist.h:whateverMatch", "manual/_sources/api.txt"]}
{"id": "C12", "title": "Wildcards are inert", "statement": "Positions that a process leaves unspecified or marks '*' are never changed by the process, and inserting implicit wildcards changes neither the explicit entries, their order, nor which sites the process's moves connect.", "quantifier": "all processes and all lattices", "why_tests_cant": "insertion re-indexes move information; tests cover one or two processes", "anchors": ["c++/src/interactions.cpp:Interactions::updateProcessMatchLists", "c++/src/matchlistentry.h:initWildcard", "c++/src/configuration.cpp:Configuration::performBucketProcess"]}
{"id": "C13", "title": "The interaction range covers every process coordinate", "statement": "The range used for neighbourhoods is large enough that every coordinate of every process is inside the neighbourhood of every site of its basis (so a process is never silently impossible, and customizing rates does not change which sites match).", "quantifier": "all processes, basis positions, custom cutoffs", "why_tests_cant": "depends on signs and fractional parts of coordinates for every basis offset", "anchors": ["c++/src/matchlist.cpp:configurationsToMatchList", "c++/src/customrateprocess.cpp:CustomRateProcess::CustomRateProcess", "c++/src/interactions.cpp:Interactions::maxRange"]}
{"id": "C14", "title": "Multiplicity counts the ways", "statement": "The multiplicity computed for a bucket process at a matching site equals the product over sites and types of the binomial coefficients n over r: the number of ways of choosing the r required particles among the n present.", "quantifier": "all bucket processes and environments", "why_tests_cant": "combinatorial identity for all n, r", "anchors": ["c++/src/matchlist.cpp:multiplicity"]}
{"id": "C15", "title": "Bucket rates are scaled by multiplicity", "statement": "The rate with which a bucket process fires at a site is its rate constant times the number of ways its required particles can be chosen there.", "quantifier": "all bucket models", "why_tests_cant": "unit tests check the multiplicity function and the process bookkeeping separately, never that one reaches the other", "anchors": ["c++/src/matcher.cpp:Matcher::updateProcesses", "c++/src/matcher.cpp:Matcher::matchIndicesWithProcesses", "c++/src/process.h:addSite"]}
{"id": "C16", "title": "Reported types and particle counts agree", "statement": "After any number of events, the list of element names reported for each site is exactly the multiset given by that site's type counts, and the global particle counts are the sums over sites.", "quantifier": "all configurations, all sequences of events", "why_tests_cant": "invariant over unbounded event sequences", "anchors": ["c++/src/configuration.cpp:Configuration::performBucketProcess", "c++/src/configuration.cpp:Configuration::particlesPerType", "python/src/KMCLib/CoreComponents/KMCConfiguration.py:types"]}
{"id": "C17", "title": "An event changes exactly what the process says", "statement": "Performing a process at a site changes the particle counts of the sites named by the process by exactly the process's update and leaves every other site untouched; the global count of each type changes by the sum of the updates, so processes that conserve particles conserve them for ever.", "quantifier": "all processes, sites and configurations; all event sequences", "why_tests_cant": "conservation is a statement about unbounded histories", "anchors": ["c++/src/configuration.cpp:Configuration::performBucketProcess", "c++/src/configuration.cpp:Configuration::particlesPerType"]}
{"id": "C18", "title": "Particle counts never become negative", "statement": "No sequence of events drives the number of particles of any type at any site below zero.", "quantifier": "all models, all event sequences", "why_tests_cant": "needs the link between what is matched and what is removed for every process", "anchors": ["c++/src/configuration.cpp:Configuration::performBucketProcess", "python/src/KMCLib/CoreComponents/KMCBucketProcess.py:__init__", "c++/src/matchlist.cpp:configurationsToMatchList"]}
{"id": "C19", "title": "One particle per site stays one particle per site", "statement": "In a model built from ordinary (non-bucket) processes on a configuration with one particle per site, every site holds exactly one particle after any number of events.", "quantifier": "all non-bucket models, all event sequences", "why_tests_cant": "invariant over unbounded event sequences", "anchors": ["c++/src/configuration.cpp:Configuration::performBucketProcess", "c++/src/matchlist.cpp:configurationsToMatchList"]}
{"id": "C20", "title": "Atom identities are never duplicated or lost", "statement": "After any number of events the atom ids of the sites are a permutation of 0..n-1, for every process that passes input validation.", "quantifier": "all accepted processes, all event sequences", "why_tests_cant": "chains of moves within one process interact; permutation invariants need induction", "anchors": ["c++/src/configuration.cpp:Configuration::performBucketProcess", "c++/src/process.cpp:Process::Process", "python/src/KMCLib/CoreComponents/KMCProcess.py:__checkValidMoveVectors"]}
{"id": "C21", "title": "Tracked atom positions agree with occupied sites", "statement": "At any time the unwrapped coordinate tracked for an atom differs from the coordinate of the site it occupies by a whole number of box lengths along periodic axes (and not at all along others).", "quantifier": "all accepted processes, all event sequences", "why_tests_cant": "the tracked coordinate is accumulated over the entire history", "anchors": ["c++/src/configuration.cpp:Configuration::performBucketProcess", "c++/src/configuration.h:atomIDCoordinates"]}
{"id": "C22", "title": "Atom types follow atoms", "statement": "At any time the type reported for an atom id is the type present at the site holding that id.", "quantifier": "all one-particle-per-site models, all event sequences", "why_tests_cant": "two update paths (with and without move vectors) must agree for all histories", "anchors": ["c++/src/configuration.cpp:Configuration::performBucketProcess", "c++/src/configuration.h:atomIDElements"]}
{"id": "C23", "title": "The last-event report is exact", "statement": "After an event the reported process number and site are those of the event, and the reported moved atoms and move vectors list exactly the atoms at changed sites with their displacement, in matching order.", "quantifier": "all processes, sites, configurations", "why_tests_cant": "buffers are reused between events; stale content must be excluded for all histories", "anchors": ["c++/src/configuration.h:movedAtomIDs", "c++/src/configuration.h:recentMoveVectors", "c++/src/configuration.cpp:Configuration::performBucketProcess"]}
{"id": "C24", "title": "Incremental re-matching equals full matching", "statement": "After any number of events, the set of sites at which each process is available is exactly the set of sites that match it now, as if every site had been matched from scratch.", "quantifier": "all models, all random number streams, all run lengths, all box sizes and periodicities", "why_tests_cant": "the central correctness claim of the engine: an invariant over unbounded runs; tests compare a few steps of one model", "anchors": ["c++/src/latticemodel.cpp:LatticeModel::singleStep", "c++/src/matcher.cpp:Matcher::calculateMatching", "c++/src/matcher.cpp:Matcher::updateProcesses"]}
{"id": "C25", "title": "Total rates are the sums of site rates", "statement": "After any number of events the total rate of each process is the sum of the rates of its available sites, each available site is listed once, and the number of available sites reported is the sum of the list lengths.", "quantifier": "all models, all event sequences", "why_tests_cant": "rates are maintained incrementally with swap-and-pop lists; drift or misalignment appears only after particular add/remove orders", "anchors": ["c++/src/process.cpp:addSite", "c++/src/process.cpp:removeSite", "c++/src/customrateprocess.cpp:removeSite", "c++/src/interactions.cpp:totalAvailableSites"]}
{"id": "C26", "title": "Runs never hit undefined bookkeeping", "statement": "From a well-formed model no step removes a site that is not listed, reads or writes outside a table, or compares buckets of different sizes, for any random numbers in (0,1).", "quantifier": "all well-formed models, all random number streams, all run lengths", "why_tests_cant": "absence of out-of-range accesses on all histories", "anchors": ["c++/src/latticemodel.cpp:LatticeModel::singleStep", "c++/src/process.cpp:removeSite", "c++/src/configuration.cpp:performBucketProcess"]}
{"id": "C27", "title": "Only possible events are selected", "statement": "The selected process has at least one available site and the selected site is one of them, for every random number the generator can return.", "quantifier": "all tables of rates, all random numbers in [0,1)", "why_tests_cant": "corner values of the random number (0) and processes without sites", "anchors": ["c++/src/interactions.cpp:Interactions::pickProcessIndex", "c++/src/interactions.cpp:pairComp", "c++/src/process.cpp:Process::pickSite"]}
{"id": "C28", "title": "Events are selected with probability proportional to their rates", "statement": "With uniform random numbers, process p is selected with probability (total rate of p)/(total rate), and a site s of it with probability (rate at s)/(total rate of p), so each event occurs with probability rate/total.", "quantifier": "all rate tables", "why_tests_cant": "probabilities are a measure over a continuum of random numbers; sampling tests only approximate", "anchors": ["c++/src/interactions.cpp:pickProcessIndex", "c++/src/interactions.cpp:updateProbabilityTable", "c++/src/process.cpp:pickSite", "c++/src/process.cpp:updateRateTable"]}
{"id": "C29", "title": "Time steps are exponentially distributed and time never runs backwards", "statement": "Each time increment is -ln(u)/R for the current total rate R: it is non-negative, finite, and exceeds t with probability exp(-R t); simulation time is non-decreasing over any run.", "quantifier": "all positive total rates, all random numbers, all runs", "why_tests_cant": "distribution statement over a continuum; monotonicity over unbounded runs", "anchors": ["c++/src/simulationtimer.cpp:SimulationTimer::propagateTime"]}
{"id": "C30", "title": "A step always terminates", "statement": "If at least one event is available, advancing time and performing the step terminates.", "quantifier": "all models accepted by the front end with at least one available site", "why_tests_cant": "depends on total rate being positive, which no test with zero rates checks", "anchors": ["c++/src/simulationtimer.cpp:SimulationTimer::propagateTime", "python/src/KMCLib/CoreComponents/KMCLatticeModel.py:run", "python/src/KMCLib/CoreComponents/KMCBaseProcess.py:__init__"]}
{"id": "C31", "title": "Results do not depend on the number of parallel processes", "statement": "Matching and custom rate evaluation give the same result for any number of MPI ranks: the work is split into contiguous chunks that cover every task exactly once, differ in size by at most one, and are joined in the original order.", "quantifier": "all task lists, all numbers of ranks >= 1", "why_tests_cant": "tests run with one or a few ranks and particular list lengths", "anchors": ["c++/src/mpiroutines.cpp:determineChunks", "c++/src/mpiroutines.h:splitOverProcesses", "c++/src/mpiroutines.h:joinOverProcesses", "c++/src/matcher.cpp:matchIndicesWithProcesses"]}
{"id": "C32", "title": "Custom rates are always current", "statement": "With a custom rate calculator (not cached), after any number of events the rate of each available event equals the calculator's value for the present local environment of that site.", "quantifier": "all calculators that are functions of their arguments, all models, all runs", "why_tests_cant": "requires that every environment within the cutoff of a changed site is re-evaluated, on all histories", "anchors": ["c++/src/matcher.cpp:Matcher::calculateMatching", "c++/src/matcher.cpp:updateSingleRate", "c++/src/customrateprocess.cpp:addSite"]}
{"id": "C33", "title": "Rate caching is transparent", "statement": "Turning on caching of custom rates changes no rate.", "quantifier": "all calculators and models", "why_tests_cant": "depends on which parts of the environment enter the cache key", "anchors": ["c++/src/ratetable.cpp", "c++/src/hash.cpp:hashCustomRateInput", "c++/src/matcher.cpp:Matcher::calculateMatching", "python/src/KMCLib/PluginInterfaces/KMCRateCalculatorPlugin.py:cacheRates"]}
{"id": "C34", "title": "The rate cache is bounded and never invents a value", "statement": "After any sequence of stores the cache holds at most 8*1024 values, a lookup succeeds only for a stored key, returns a value that was stored for that key, and a value just stored is found.", "quantifier": "all sequences of store operations", "why_tests_cant": "eviction behaviour over unbounded sequences", "anchors": ["c++/src/ratetable.cpp:RateTable::store", "c++/src/ratetable.cpp:RateTable::stored", "c++/src/ratetable.cpp:RateTable::retrieve"]}
{"id": "C35", "title": "The rate calculator sees the true before and after states", "statement": "The environment passed to a custom rate calculator contains every listed site within the cutoff with its present type, and the 'after' types are those the sites would have after performing the process.", "quantifier": "all processes and environments", "why_tests_cant": "positional pairing of process and environment lists for all patterns", "anchors": ["c++/src/matcher.cpp:Matcher::updateSingleRate", "python/src/KMCLib/PluginInterfaces/KMCRateCalculatorPlugin.py:backendRateCallback"]}
{"id": "C36", "title": "Both type input formats describe the same configuration", "statement": "Sparse type input (default type plus positioned exceptions) yields, at each site, the last type given for that site or the default; positions outside the lattice are rejected; the full list format is used verbatim and must have one entry per site.", "quantifier": "all lattices and input lists", "why_tests_cant": "all orders, duplicates and positions of entries", "anchors": ["python/src/KMCLib/CoreComponents/KMCConfiguration.py:__typesFromLongFormat", "python/src/KMCLib/CoreComponents/KMCConfiguration.py:__checkAndSetTypes"]}
{"id": "C37", "title": "The type numbering is a bijection", "statement": "The numbering of types used by the backend maps '*' to 0 and the possible types to 1..n one-to-one, so a type name reported back is the one that was put in.", "quantifier": "all lists of possible types", "why_tests_cant": "needs all lists, including repeated names", "anchors": ["python/src/KMCLib/CoreComponents/KMCConfiguration.py:__checkAndSetTypes", "c++/src/configuration.cpp:Configuration::Configuration"]}
{"id": "C38", "title": "Accepted move vectors explain the process", "statement": "If a process is accepted with move vectors, then performing the moves on the before-elements gives exactly the after-elements, and wildcards are in the same positions before and after.", "quantifier": "all process definitions", "why_tests_cant": "validator soundness over all inputs", "anchors": ["python/src/KMCLib/CoreComponents/KMCProcess.py:__checkValidMoveVectors", "python/src/KMCLib/CoreComponents/KMCProcess.py:__checkValidMoveElements", "python/src/KMCLib/CoreComponents/KMCProcess.py:__reconstructMoveVectors"]}
{"id": "C39", "title": "Sorting a process does not change its meaning", "statement": "The front end's reordering of a process (by distance, type and coordinate) permutes coordinates, elements and move vectors consistently: each coordinate keeps its before-type, after-type and move vector, and the first coordinate remains the origin.", "quantifier": "all process definitions", "why_tests_cant": "index remapping over all permutations", "anchors": ["python/src/KMCLib/CoreComponents/KMCProcess.py:__sortCoordinatesElementsAndMoveVectors", "python/src/KMCLib/Utilities/CoordinateUtilities.py:sortCoordinates"]}
{"id": "C40", "title": "Bucket input normalisation preserves counts", "statement": "Normalising a bucket description (strings, pairs, repeated types) preserves the total number given for each type and lists each type once.", "quantifier": "all bucket entries", "why_tests_cant": "merging loop over arbitrary repetition patterns", "anchors": ["python/src/KMCLib/Utilities/CheckUtilities.py:checkAndNormaliseBucketEntry"]}
{"id": "C41", "title": "Control parameter validation is sound", "statement": "Accepted control parameters always give a runnable schedule: exactly one of step-interval and time-interval dumping is active, and all intervals used as divisors are positive.", "quantifier": "all constructor arguments", "why_tests_cant": "decision table over all argument combinations", "anchors": ["python/src/KMCLib/CoreComponents/KMCControlParameters.py"]}
{"id": "C42", "title": "Run loop schedule", "statement": "A run of n steps performs exactly n events unless a breaker fires or nothing is available; trajectory frames are written at step 0 and at exactly the multiples of the dump interval, analyses are called at exactly the multiples of the analysis interval, breakers at multiples of their own interval, and the first breaker that fires stops the run.", "quantifier": "all control parameters, breakers, analyses and models", "why_tests_cant": "schedule over unbounded step counts with interacting exits", "anchors": ["python/src/KMCLib/CoreComponents/KMCLatticeModel.py:run"]}
{"id": "C43", "title": "Clean-up always happens", "statement": "However the run ends (normally, by a breaker, by running out of events or by an exception in a step or analysis) the trajectory is flushed and every analysis finalised exactly once.", "quantifier": "all runs and all exit points", "why_tests_cant": "every possible failure point", "anchors": ["python/src/KMCLib/CoreComponents/KMCLatticeModel.py:run"]}
{"id": "C44", "title": "Equidistant-time dumping", "statement": "With time-interval dumping every multiple of the interval passed by the simulation gives one frame showing the configuration in force at that time.", "quantifier": "all sequences of time steps", "why_tests_cant": "depends on the relation between interval and every time step", "anchors": ["python/src/KMCLib/CoreComponents/KMCLatticeModel.py:run"]}
{"id": "C45", "title": "Buffering never loses or reorders frames", "statement": "For any buffer limits and any pattern of wall-clock flushes, after the final flush the file contains every appended frame exactly once in order.", "quantifier": "all sequences of appends and flush decisions", "why_tests_cant": "flush decisions depend on wall-clock time and memory", "anchors": ["python/src/KMCLib/Utilities/Trajectory/Trajectory.py:append", "python/src/KMCLib/Utilities/Trajectory/LatticeTrajectory.py:flush", "python/src/KMCLib/Utilities/Trajectory/XYZTrajectory.py"]}
{"id": "C46", "title": "Time step histogram is exact", "statement": "The time-step distribution counts every registered step exactly once, in the bin [b*w,(b+1)*w) containing its length, whatever the order and size of the steps (the histogram grows as needed).", "quantifier": "all sequences of time steps", "why_tests_cant": "growth of the histogram for all sequences", "anchors": ["python/src/KMCLib/Analysis/TimeStepDistribution.py"]}
{"id": "C47", "title": "Mean-square displacement sums are exact", "statement": "Each registered displacement of a tracked atom is compared with at most history-1 earlier positions of the same atom, and is added to the bin of its time difference, so the sums and counts per bin are those of all pairs within the history window.", "quantifier": "all event histories, bins and window sizes", "why_tests_cant": "ring-buffer behaviour over unbounded histories", "anchors": ["c++/src/ontheflymsd.cpp:OnTheFlyMSD::registerStep", "c++/src/ontheflymsd.cpp:calculateAndBinMSD"]}
{"id": "C48", "title": "Block averages partition the samples", "statement": "The block statistics partition each bin's samples, in order, into consecutive blocks of exactly the block size, with a remainder smaller than a block left over.", "quantifier": "all sample sequences, bins and block sizes", "why_tests_cant": "partition invariant over unbounded sequences", "anchors": ["c++/src/blocker.cpp:Blocker::registerStep"]}
{"id": "C49", "title": "Process statistics and composition sampling count every step", "statement": "Process statistics attribute every executed event to its process in exactly one time block, and composition sampling records the particle counts in force, with times that correspond to the blocks.", "quantifier": "all runs and intervals", "why_tests_cant": "block boundaries relative to all event times", "anchors": ["python/src/KMCLib/Analysis/ProcessStatistics.py", "python/src/KMCLib/Analysis/Composition.py"]}
{"id": "C50", "title": "Models sharing interactions are independent", "statement": "Constructing a second model from the same interactions object does not change the behaviour of the first.", "quantifier": "all pairs of models", "why_tests_cant": "aliasing through copied pointers is only visible in particular constructions", "anchors": ["c++/src/interactions.cpp:Interactions::Interactions", "c++/src/latticemodel.cpp:LatticeModel::LatticeModel", "python/src/KMCLib/CoreComponents/KMCInteractions.py:_backend"]}
{"id": "C51", "title": "What the front end accepts is well formed", "statement": "A lattice, types and processes accepted by the Python front end give a backend configuration and backend processes that satisfy the assumptions under which runs are safe: known types, one numbering, changes that conserve wildcards, distinct places, positive slots for every change.", "quantifier": "all accepted front end inputs", "why_tests_cant": "connects the validation code with the assumptions of the backend for every input", "anchors": ["python/src/KMCLib/CoreComponents/KMCInteractions.py:_backend", "python/src/KMCLib/CoreComponents/KMCConfiguration.py:_backend", "python/src/KMCLib/CoreComponents/KMCProcess.py:__init__"]}
{"id": "C52", "title": "Accepted models run to the end", "statement": "A lattice, types, processes and control parameters accepted by the Python front end give a model that is constructed without fault, and every run of it does all steps asked for unless no event is possible any more; there is no other fault, overflow or endless loop, and the states are those of the backend.", "quantifier": "all accepted inputs, all random number streams, all control parameters with nonzero intervals", "why_tests_cant": "composition of the front end, the constructor, every step and the run loop for all inputs and streams", "anchors": ["python/src/KMCLib/CoreComponents/KMCLatticeModel.py:run", "c++/src/interactions.cpp:updateProcessMatchLists", "c++/src/latticemodel.cpp:LatticeModel::singleStep"]}
{"id": "C53", "title": "Accepted lattices are lattices", "statement": "A unit cell and lattice accepted by the front end have linearly independent cell vectors, at least one cell in each direction and a non-empty basis inside the cell; there is one site for each cell and basis point, numbered by _globalIndex, the coordinates of a site determine its cell and basis point, and different sites are at different places in space. Independent cell vectors are accepted.", "quantifier": "all cell vectors, basis points, repetitions and periodicities", "why_tests_cant": "acceptance and layout for every input, not for sample cells", "anchors": ["python/src/KMCLib/CoreComponents/KMCUnitCell.py:__init__", "python/src/KMCLib/CoreComponents/KMCLattice.py:__checkRepetitions", "python/src/KMCLib/CoreComponents/KMCLattice.py:__generateLatticeSites", "python/src/KMCLib/Utilities/CheckUtilities.py:checkCellVectors"]}
{"id": "C54", "title": "Site numbers in double precision", "statement": "Computed in double precision, the cell of every site and its neighbourhood are the same as with exact arithmetic.", "quantifier": "all lattices and sites", "why_tests_cant": "the failure begins at 2^24 cells, a lattice too large for tests, and rests on every index below being right", "anchors": ["c++/src/latticemap.cpp:indexToCell", "c++/src/latticemap.cpp:neighbourIndices"]}
{"id": "C55", "title": "Rates in double precision", "statement": "With the incremental sums of rates kept in double precision, runs pass through states that exact runs pass through, the listed events are exactly the possible ones, an event that is listed is selected whenever there is one, and the time does not decrease.", "quantifier": "all models, runs, random numbers and roundings to nearest", "why_tests_cant": "the errors add up over the whole run and show only when they exceed all remaining rates", "anchors": ["c++/src/process.cpp:addSite", "c++/src/process.cpp:removeSite", "c++/src/interactions.cpp:updateProbabilityTable", "c++/src/interactions.cpp:pickProcessIndex", "c++/src/simulationtimer.cpp:propagateTime"]}
{"id": "C57", "title": "Events and times have the right probabilities with the random numbers that are drawn", "statement": "With the random numbers of the generators (fractions of a fixed denominator N) every event is selected with its share of the total rate and the time steps are exponentially distributed, up to the resolution 1/N; with a seed the numbers depend on the generator and the seed only and are the same on all processes of a parallel run.", "quantifier": "all generators, process lists, seeds and states of the generators", "why_tests_cant": "the resolution shows for events with shares below 1/N or after billions of steps", "anchors": ["c++/src/random.cpp:setRngType", "c++/src/random.cpp:seedRandom", "c++/src/random.cpp:randomDouble01", "c++/src/interactions.cpp:Interactions::pickProcessIndex", "c++/src/process.cpp:Process::pickSite", "c++/src/simulationtimer.cpp:SimulationTimer::propagateTime", "python/src/KMCLib/CoreComponents/KMCLatticeModel.py:run"]}
{"id": "C56", "title": "Saved scripts read back", "statement": "A model, configuration or set of interactions that is written as a script comes back from the script: with the same lattice, types, numbering of the types, processes, moves, rates and options, up to the seven digits that are written for each number.", "quantifier": "all unit cells, lattices, type lists, processes and interactions that the constructors accept", "why_tests_cant": "tests save and read a few models with round numbers; whether rounded coordinates and moves still fit together depends on all digits of all of them", "anchors": ["python/src/KMCLib/CoreComponents/KMCUnitCell.py:_script", "python/src/KMCLib/CoreComponents/KMCLattice.py:_script", "python/src/KMCLib/CoreComponents/KMCConfiguration.py:_script", "python/src/KMCLib/CoreComponents/KMCConfiguration.py:types", "python/src/KMCLib/CoreComponents/KMCProcess.py:_script", "python/src/KMCLib/CoreComponents/KMCInteractions.py:_script", "python/src/KMCLib/CoreComponents/KMCLatticeModel.py:_script", "python/src/KMCLib/Utilities/SaveAndReadUtilities.py:getScriptComponent"]}
{"id": "C58", "title": "Runs have the law of the Markov chain of their rates", "statement": "With independent uniform random numbers a run is a sample of the continuous time Markov chain given by the rates: the probability that the first n events are n given ones, each after a waiting time longer than a given one, is the product over the steps of (rate of the event / total rate) times exp(-total rate x time), with the rates of the state the step starts from. Every listed event can happen, and the probabilities of the listed events add up to one.", "quantifier": "all models with positive rates, all states reached by runs, all finite sequences of events and waiting times", "why_tests_cant": "the law of whole paths cannot be told from samples; an error such as using the rates of the previous state shifts probabilities of long paths only", "anchors": ["c++/src/latticemodel.cpp:LatticeModel::singleStep", "c++/src/latticemodel.cpp:LatticeModel::propagateTime", "c++/src/simulationtimer.cpp:SimulationTimer::propagateTime", "c++/src/interactions.cpp:Interactions::pickProcessIndex", "c++/src/process.cpp:Process::pickSite", "c++/src/customrateprocess.cpp:CustomRateProcess::updateRateTable"]}
{"id": "C59", "title": "Reverse processes undo events, and detailed balance follows", "statement": "When a model contains, for a process, the process given with the configurations before and after exchanged, then after each event of the first the second is available at the same site, and performing it gives back the state before the event. The same holds, at the site of that place, when the exchanged process is given around another place of the first, as a hop to the left is for a hop to the right. If every process has such a reverse, and the rates of each event and its reverse are in the ratio of weights given to the states (for constant rates: a product of factors of the particles), then the rates of going from state to state satisfy detailed balance with these weights, and the weights are stationary on every finite family of states that no event leaves. The rates of going from state to state are those of the chain that a run samples.", "quantifier": "all models with positive rates whose processes have distinct places, all states reached by runs", "why_tests_cant": "equilibrium averages are estimated by long runs only within noise; a missing reverse event (an availability list not refreshed, an update applied at the wrong place) biases them slightly", "anchors": ["c++/src/process.cpp:Process::Process", "c++/src/matchlist.h:whateverMatch", "c++/src/configuration.cpp:Configuration::performBucketProcess", "c++/src/matcher.cpp:Matcher::calculateMatching", "c++/src/latticemodel.cpp:LatticeModel::singleStep"]}
{"id": "C60", "title": "The key of a stored rate is MD5 of the process and its surroundings", "statement": "The key under which a custom rate is stored is the MD5 digest (RFC 1321) of the process number and the types within the cutoff, written as 32 bit integers, with its two halves combined by exclusive or; the digest does not depend on how a message is cut into pieces, and nothing is read or written outside the buffers. Different processes or surroundings give different messages, different keys and different printed digests.", "quantifier": "all messages of any length, all contents of the uninitialised buffer", "why_tests_cant": "tests compare a few digests; errors at block borders (lengths 55, 56, 63, 64 modulo 64) or in the length counters beyond 2^29 bytes need particular lengths, and collisions are never met by chance", "anchors": ["c++/src/hash.cpp:hash64MD5xor", "c++/src/hash.cpp:md5Core", "c++/src/hash.cpp:hashMD5", "c++/src/hash.cpp:hashCustomRateInput", "c++/externals/zip/md5.tar.gz:md5.c"]}
{"id": "C61", "title": "The rounding of coordinates does not change a run", "statement": "A run in which all coordinates, differences, wrapped coordinates and distances are calculated in double precision has the same types, identities, lists, rates, times and events as the run with exact coordinates, including the construction of the processes from their points and moves.", "quantifier": "all models without custom rates, all sequences of random numbers, all roundings with relative error u, all geometries that keep a margin of 400 u B from the tolerance, from half the box and between different components", "why_tests_cant": "the errors are of the order 1e-16 and matter only where a decision is made exactly at a border (half the box, a whole number of cells, equal distances); tests use a few lattices, whose decimal coordinates happen to round well or not", "anchors": ["c++/src/configuration.cpp:configMatchList", "c++/src/latticemap.h:wrap", "c++/src/matchlistentry.cpp:samePoint", "c++/src/matchlist.cpp:configurationsToMatchList", "c++/src/process.cpp:Process", "c++/src/coordinate.h:distance"]}
{"id": "C62", "title": "A translated model makes translated runs", "statement": "When the configuration is translated by whole cells along periodic axes, every process is available at the translated sites, with the same rates and total rates; the same event at the translated site leads to the translated state; and every sequence of events with waiting times has the same probability as the sequence at the translated sites from the translated start.", "quantifier": "all lattices whose axes of translation are periodic and not shorter than the range of the processes, all process lists, all configurations, all sequences of events; with custom rates all calculators that take no account of the position of the site", "why_tests_cant": "tests compare a few sites of small lattices; a site next to the border that is treated differently from one in the middle, or a border case of the wrapping, needs the particular site, and equality of probabilities is not seen in samples", "anchors": ["c++/src/latticemap.cpp:neighbourIndices", "c++/src/latticemap.h:wrap", "c++/src/configuration.cpp:configMatchList", "c++/src/matcher.cpp:updateSingleRate", "python/src/KMCLib/CoreComponents/KMCLattice.py:__generateLatticeSites"]}
{"id": "C63", "title": "A process does not depend on how it is written down", "statement": "A process that is written down with its places (after the first) in another order, its moves in another order or with indices that count from the end, and coordinates from another origin is accepted and is the same process. Two processes compare equal exactly if they have the same basis sites, elements and moved places, and their coordinates and move vectors agree within the tolerances.", "quantifier": "all processes with places further apart than the tolerance of the moves and no place moved twice, all reorderings that keep the first place in front, all origins; all pairs of processes for the comparison", "why_tests_cant": "tests write a few processes down in two ways; a tie in the sorting, or a move that is assigned to the wrong place after sorting, shows only for particular orders", "anchors": ["python/src/KMCLib/CoreComponents/KMCProcess.py:__init__", "python/src/KMCLib/CoreComponents/KMCProcess.py:__checkValidMoveVectors", "python/src/KMCLib/CoreComponents/KMCProcess.py:__sortCoordinatesElementsAndMoveVectors", "python/src/KMCLib/CoreComponents/KMCProcess.py:__eq__", "python/src/KMCLib/Utilities/CoordinateUtilities.py:sortCoordinatesDistance"]}
{"id": "C64", "title": "Runs solve the master equation", "statement": "With independent uniform random numbers, the probability that the model has given types on its sites after a given time is the solution of the master equation with the rates of going from state to state. It depends on the types at the start only, adds up to one over all types (finitely many events happen in a finite time, with probability one), and stationary weights, such as those of detailed balance, stay as they are.", "quantifier": "all models with positive rates whose number of particles cannot grow and is small enough, all finite sets of types that no event leads out of, all starting states in them, all times; for constant rates the set of all types of all runs is such a set", "why_tests_cant": "a probability at a given time needs very many runs to estimate, and an error in the waiting times or in the selection that is small or shows up only in some states is lost in the noise; tests with fixed random numbers do not look at probabilities", "anchors": ["c++/src/latticemodel.cpp:singleStep", "c++/src/latticemodel.cpp:propagateTime", "c++/src/simulationtimer.cpp:propagateTime", "c++/src/interactions.cpp:pickProcess", "c++/src/process.cpp:pickSite"]}
{"id": "C65", "title": "Runs go to equilibrium", "statement": "After a long time the probability that the model has given types on its sites is the stationary weight of these types, whatever the state at the start, when events lead from everywhere to everywhere; the distance decreases exponentially. Where every process has its reverse and the rates are in detailed balance, events do lead from everywhere to everywhere, and the limit is the weight of the detailed balance divided by the sum of the weights: in particular all possible states become equally probable when every process has the rate of its reverse.", "quantifier": "all models with positive rates whose number of particles cannot grow and is small enough, all starting states, all types that are possible; for the product weights, constant rates and reverses given at the same site or around another place", "why_tests_cant": "equilibrium is a limit over times and over random numbers; a test sees one run of finite length, and cannot tell a slow or a slightly wrong approach from noise", "anchors": ["c++/src/latticemodel.cpp:singleStep", "c++/src/latticemodel.cpp:propagateTime", "c++/src/simulationtimer.cpp:propagateTime", "c++/src/interactions.cpp:pickProcess", "c++/src/process.cpp:pickSite", "c++/src/matcher.cpp:calculateMatching"]}
{"id": "C66", "title": "What matters about the processes", "statement": "With constant rates the probabilities of the types on the sites depend on the processes only through the sum of the rates of the processes that have the same pattern: the same match list and the same basis sites. If these sums in one model are a times those in another one, then the runs of both come to the same types and the first model has at time t the probabilities of the second one at time a t. So the order and numbers of the processes do not matter, a process may be given as two whose rates add up, and multiplying all rates by a number only changes the unit of time.", "quantifier": "all pairs of models with the same lattice and starting configuration, the same largest range, constant positive rates, and a number of particles that cannot grow and is small enough; all times, all types that runs come to", "why_tests_cant": "the two models use the random numbers differently, so their runs differ event by event; only the probabilities agree, and these are not visible in a finite number of runs", "anchors": ["c++/src/interactions.cpp:updateProbabilityTable", "c++/src/interactions.cpp:pickProcess", "c++/src/interactions.cpp:updateProcessMatchLists", "c++/src/process.cpp:pickSite", "c++/src/matcher.cpp:calculateMatching", "c++/src/simulationtimer.cpp:propagateTime"]}
{"id": "C67", "title": "The numbers of the types do not matter", "statement": "With constant rates the same input, with the possible types numbered in another way or with further possible types that do not occur in it, makes the same run from the same random numbers: the times, the table of rates, the sites available to each process, the places and numbers of the atoms and their displacements are equal after every step, and on every site are the same names, in any order if there are several particles. With numbers of particles that cannot grow the second model can do every step that the first one can do.", "quantifier": "all pairs of numberings of the types, the second one with all names of the first one, both with the wildcard at 0; all configurations, processes, lattices and random numbers; all lengths of runs", "why_tests_cant": "the numbering comes from the order of the names in the input; tests use the few numberings that their input happens to give, and compare a run with a stored one instead of with the run under another numbering", "anchors": ["c++/src/configuration.cpp:Configuration", "c++/src/process.cpp:Process", "c++/src/matchlist.cpp:whateverMatch", "c++/src/matcher.cpp:calculateMatching", "c++/src/configuration.cpp:performProcess", "c++/src/latticemodel.cpp:singleStep", "python/src/KMCLib/Utilities/ConversionUtilities.py"]}
{"id": "C68", "title": "Images of a model under symmetries", "statement": "The mirror image of a model along a periodic axis, and the model with two axes exchanged, do at the images of the sites what the model does at the sites: a process is available at a site exactly if its image is available at the image of the site, the rates are equal, an event and its image lead to images of each other, and every course of events has the same probability as its image. The code sorts the entries of the image processes and numbers the sites in another order, so that the two runs differ in their use of the random numbers.", "quantifier": "all models with constant rates on lattices that look alike from all sites of a kind, whose processes have one basis site and places at sites, none of them at exactly half of the box for the mirror image; all runs, all courses of events", "why_tests_cant": "which of two places at the same distance comes first, and where a coordinate at the border of the box is put, are choices of the code that are not symmetric; that they do not show in the results can be seen for all models only by proof, and where they do show (half of the box, open ends) tests with other sizes do not see it", "anchors": ["c++/src/latticemap.cpp:wrap", "c++/src/latticemap.cpp:neighbourIndices", "c++/src/matcher.cpp:calculateMatching", "c++/src/interactions.cpp:updateProcessMatchLists", "c++/src/process.cpp:pickSite", "c++/src/configuration.cpp:performProcess", "c++/src/matchlistentry.cpp"]}
{"id": "C69", "title": "Processes act locally; events apart from each other commute", "statement": "Whether a process is available at a site depends only on the types at the sites of its pattern, all within its range: two states, of the same or of different runs, that agree there agree on the availability. An event changes nothing at other sites, and what it does at a site depends on the types at this site only. So an event does not change what is available apart from it, and two available events without a common site can be done in either order and lead to the same types on all sites and the same available sites.", "quantifier": "all models and lattices, open or periodic, with or without wildcards or custom rates; all states of runs; all pairs of processes and sites whose patterns have no site in common (and numbers of particles small enough, that both orders can be done)", "why_tests_cant": "the model keeps lists of available sites that are updated after each event for the sites nearby; a site that is left out or one too many shows only for particular arrangements and orders of events", "anchors": ["c++/src/latticemodel.cpp:singleStep", "c++/src/matcher.cpp:calculateMatching", "c++/src/configuration.cpp:performProcess", "c++/src/latticemap.cpp:supersetNeighbourIndices", "c++/src/matchlist.h:whateverMatch", "c++/src/interactions.cpp:updateProcessMatchLists"]}
{"id": "C70", "title": "The model as computed: events where the pattern fits", "statement": "When every operation on coordinates, distances, rates and times is rounded, as in the program, and coordinates are stored with errors, every state that a run comes to has the particles and the available events of a state of the model in exact arithmetic. A process is available at a site exactly when its pattern fits the lattice as it is meant there, and a step performs an available event: the types at the places of its pattern change as the process says and all others stay.", "quantifier": "all roundings with a relative error bound, all ways of storing coordinates within the bounds, all models with constant positive rates whose geometry leaves room for the errors, all random numbers, all states of runs", "why_tests_cant": "the errors depend on all coordinates and on the whole course of a run; tests use lattices whose coordinates are exact in double precision", "anchors": ["c++/src/latticemodel.cpp:singleStep", "c++/src/configuration.cpp:initMatchLists", "c++/src/configuration.cpp:performProcess", "c++/src/coordinate.cpp:distanceToOrigin", "c++/src/matchlist.h:whateverMatch", "c++/src/interactions.cpp:updateProbabilityTable"]}
{"id": "C71", "title": "With detailed balance a run looks the same forwards and backwards", "statement": "If every process has its reverse and the rates of both are in the ratio of factors of the particles, the probabilities of going from some types to others in any given time and of going back are in the ratio of the products of these factors. A course through given types at given times is as probable as the same course backwards, correlations of two quantities in time are symmetric, no quantity is correlated negatively with itself at a later time, and the probability to have the types of the start again is never less than in equilibrium.", "quantifier": "all models with detailed balance, in particular all with constant rates and reverse processes, all states of runs, all times", "why_tests_cant": "probabilities over continuous time of random runs; a test would have to compare frequencies", "anchors": ["c++/src/latticemodel.cpp:singleStep", "c++/src/latticemodel.cpp:propagateTime", "c++/src/simulationtimer.cpp:propagateTime", "c++/src/interactions.cpp:pickProcessIndex", "c++/src/process.cpp:pickSite"]}
{"id": "C72", "title": "The types at several times are those of a Markov chain", "statement": "The probability that a run has given types at each of several given times is the product of the probabilities from each time to the next. What comes after a time depends on the types at that time only, not on how they came about and not on how long ago the last event was. With detailed balance the types at several times are as probable as the same types in reverse order with the times reversed.", "quantifier": "all models with a finite closed family of types, in particular all with constant rates, all states of runs, all finite lists of times and types", "why_tests_cant": "joint probabilities over continuous time of random runs; a test would have to compare frequencies for every list of times", "anchors": ["c++/src/latticemodel.cpp:singleStep", "c++/src/latticemodel.cpp:propagateTime", "c++/src/simulationtimer.cpp:propagateTime", "c++/src/interactions.cpp:pickProcessIndex", "c++/src/process.cpp:pickSite"]}
{"id": "C73", "title": "The average over the samples of one run goes to the equilibrium average", "statement": "Look at a run in equal steps of time and average a quantity of the types over the samples. The probability that the average is at least a given amount away from the average with the stationary weights is at most a constant over the number of samples and the square of the amount. The constant does not depend on the types at the start. So one long enough run gives the equilibrium average, as closely and as surely as wanted.", "quantifier": "all models with a finite closed family of types that lead to one another, all starts, all quantities of the types, all steps of time, all numbers of samples", "why_tests_cant": "a limit in probability over all runs; a test sees finitely many runs of finite length", "anchors": ["c++/src/latticemodel.cpp:singleStep", "c++/src/latticemodel.cpp:propagateTime", "c++/src/simulationtimer.cpp:propagateTime", "c++/src/interactions.cpp:pickProcessIndex", "c++/src/process.cpp:pickSite"]}
