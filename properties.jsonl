{"id": "C01", "title": "Diagram topology survives every Monte Carlo history", "statement": "Starting from a freshly built simulation, after any number of Monte Carlo hops the diagram is a well formed Feynman diagram: with N interaction lines there are exactly 2N propagators and 2N vertices; every propagator end is attached to a vertex that lists this propagator on the matching side, every vertex lists one incoming propagator, one outgoing propagator and one interaction line, and each interaction line end is attached to a vertex that remembers which end it is.", "quantifier": "for every parameter set with beta > 0, maximal order between 1 and 9, at least maximal order + 1 reweighting factors and a non-empty lattice containing the start site; every weight table with non-zero start configuration, every sequence of random words and every number of hops, also interrupted by changes of the reweighting factors and by annealing steps", "why_tests_cant": "A test runs one seed for a finite number of hops; the claim is about every history of moves and every random word, including rare aliasing cases (two lines sharing an end, a worm sitting on a line being removed).", "anchors": ["src/module/markov/markov.cpp: Markov::Hop and all updates", "src/module/markov/gamma3_updates.cpp", "src/module/diagram/diagram_check.cpp: Diagram::_CheckTopo"]}
{"id": "C02", "title": "Momentum is conserved at every vertex", "statement": "After any number of hops, incoming propagator momentum minus outgoing propagator momentum minus/plus interaction momentum (according to the interaction end) minus the worm momentum at Ira, plus it at Masha, is zero modulo the momentum period at each vertex.", "quantifier": "for every parameter set, every sequence of random words, every number of hops and every vertex", "why_tests_cant": "A test runs one seed for a finite number of hops; the claim is about every history of moves and every random word, including rare aliasing cases (two lines sharing an end, a worm sitting on a line being removed).", "anchors": ["src/module/markov/markov.cpp", "src/module/markov/gamma3_updates.cpp", "src/module/diagram/diagram_check.cpp: Diagram::_CheckK", "src/utility/momentum.cpp"]}
{"id": "C03", "title": "Spin is conserved along propagators and across interactions", "statement": "After any number of hops both ends of each propagator carry the same spin, and the spins emitted at the two ends of an interaction line cancel, except that the worm end Masha emits the worm spin and the worm end Ira absorbs it.", "quantifier": "for every sequence of random words, every number of hops, every propagator and every interaction line", "why_tests_cant": "A test runs one seed for a finite number of hops; the claim is about every history of moves and every random word, including rare aliasing cases (two lines sharing an end, a worm sitting on a line being removed).", "anchors": ["src/module/markov/markov.cpp", "src/module/diagram/diagram_check.cpp: Diagram::_CheckSpin", "src/module/diagram/component.cpp: GLine::FlipSpin"]}
{"id": "C04", "title": "Momenta in use are unique and exactly those registered in the hash tables", "statement": "After any number of hops no two propagators carry the same momentum, no two interaction lines carry the same absolute momentum, no interaction line carries zero momentum, and the momentum hash tables contain exactly the momenta of the lines of the diagram, so the irreducibility test made by proposals is exact.", "quantifier": "for every sequence of random words, every number of hops, every pair of lines", "why_tests_cant": "A test runs one seed for a finite number of hops; the claim is about every history of moves and every random word, including rare aliasing cases (two lines sharing an end, a worm sitting on a line being removed).", "anchors": ["src/module/diagram/diagram.cpp: GHashCheck, AddGHash, RemoveGHash, WHashCheck, AddWHash, RemoveWHash", "src/module/markov/markov.cpp"]}
{"id": "C05", "title": "The stored diagram weight is the product of its parts", "statement": "After any number of hops at order N>=1 the stored weight equals (product of propagator weights) x (product of interaction weights) x (fermion loop sign) x (-1)^N, each cached line weight equals the weight function of the current coordinates, times, spins and flags of its ends, and the stored phase is the phase of the stored weight. At order 0 the stored weight is the normalisation weight.", "quantifier": "for every weight table, every sequence of random words and every number of hops", "why_tests_cant": "The weight is updated incrementally by ratios; a wrong factor in a rare branch only shows in particular configurations. Exact equality over all histories cannot be sampled.", "anchors": ["src/module/markov/markov.cpp", "src/module/markov/gamma3_updates.cpp", "src/module/diagram/diagram_check.cpp: Diagram::_CheckWeight", "src/module/weight/component_MC.cpp"]}
{"id": "C06", "title": "The fermion loop sign is (-1)^(number of closed fermion loops + 1)", "statement": "After any number of hops the stored fermion loop sign equals -(-1)^L, where L is the number of closed loops formed by following outgoing propagators.", "quantifier": "for every sequence of random words and every number of hops", "why_tests_cant": "The code never counts loops; it flips a sign in one update. Equality with the global combinatorial count is a property of all histories.", "anchors": ["src/module/markov/markov.cpp: Markov::Reconnect, AddInteraction, DeleteInteraction, JumpBackToOrder1"]}
{"id": "C07", "title": "No hop crashes, aborts or runs into undefined behaviour", "statement": "From a freshly built simulation, no Monte Carlo hop dereferences a null or dead pointer, indexes a fixed size array out of range, takes a random pick from an empty container, overflows a component container or triggers one of the ABORTs of the hash tables and containers.", "quantifier": "for every parameter set accepted by the loader, every weight table with a non-zero start configuration, every sequence of random words and every number of hops", "why_tests_cant": "Absence of a crash on all histories is not a finite observation.", "anchors": ["src/module/markov/markov.cpp", "src/module/markov/gamma3_updates.cpp", "src/module/diagram/component_bundle.cpp", "src/module/diagram/diagram.cpp"]}
{"id": "C08", "title": "Exactly one line is the measuring line", "statement": "After any number of hops exactly one line (propagator or interaction) carries the measuring flag, the diagram's measuring pointer designates it, and its kind agrees with the 'measuring a propagator' flag.", "quantifier": "for every sequence of random words and every number of hops", "why_tests_cant": "A test runs one seed for a finite number of hops; the claim is about every history of moves and every random word, including rare aliasing cases (two lines sharing an end, a worm sitting on a line being removed).", "anchors": ["src/module/markov/markov.cpp: ChangeMeasureFromGToW, ChangeMeasureFromWToG, DeleteInteraction", "src/module/diagram/diagram_check.cpp: Diagram::_CheckStatus"]}
{"id": "C09", "title": "Instantaneous interactions have equal end times and are never measured", "statement": "After any number of hops both ends of each instantaneous (delta) interaction line have the same imaginary time, and no instantaneous line is the measuring line or a composite (gamma) line.", "quantifier": "for every sequence of random words and every number of hops", "why_tests_cant": "The violating history needs a specific sequence of eight accepted moves; random tests at small statistics do not meet it.", "anchors": ["src/module/markov/markov.cpp: AddDeltaInteraction, DeleteInteraction, JumpToOrder0, JumpBackToOrder1, ChangeContinuousToDelta, ChangeTauOnVertex", "src/module/diagram/diagram_check.cpp: Diagram::_CheckStatus"]}
{"id": "C10", "title": "The order stays within the configured bound and moves by at most one per hop", "statement": "After any number of hops the order is between 0 and the configured maximum order, the number of interaction lines equals the order (or is 1 at order 0), and a single hop changes the order by at most one.", "quantifier": "for every parameter set with beta > 0, maximal order between 1 and 9, at least maximal order + 1 reweighting factors and a non-empty lattice containing the start site; every sequence of random words, every number of hops", "why_tests_cant": "A test runs one seed for a finite number of hops; the claim is about every history of moves and every random word, including rare aliasing cases (two lines sharing an end, a worm sitting on a line being removed).", "anchors": ["src/module/markov/markov.cpp: AddInteraction, DeleteInteraction, JumpToOrder0, JumpBackToOrder1", "src/module/parameter/parameter.cpp: ParaMC::FromDict"]}
{"id": "C11", "title": "A rejected proposal changes nothing", "statement": "A hop whose proposal is not accepted leaves lines, vertices, momenta, times, sites, spins, flags, hash tables, order, worm, weight, phase and sign exactly as they were; the external point is only changed when no composite line exists.", "quantifier": "for every state, every update and every sequence of random words for which the proposal is rejected", "why_tests_cant": "Only finitely many rejections can be observed and the observation would have to compare the whole state.", "anchors": ["src/module/markov/markov.cpp", "src/module/markov/gamma3_updates.cpp"]}
{"id": "C12", "title": "Zero weight configurations are never entered", "statement": "After any number of hops the stored weight and every cached line weight are non-zero, so no later acceptance ratio divides by zero.", "quantifier": "for every weight table (zeros allowed away from the start configuration), every sequence of random words and every number of hops", "why_tests_cant": "Zeros of the tables are hit only for particular coordinates and times.", "anchors": ["src/module/markov/markov.cpp", "src/module/markov/gamma3_updates.cpp", "src/utility/rng.h: urn"]}
{"id": "C13", "title": "Worm bookkeeping is exact", "statement": "After any number of hops, when a worm exists its two ends are two different vertices of the diagram, and an interaction line is flagged as a worm line exactly if one of its ends is a worm end; without worm no line is flagged.", "quantifier": "for every sequence of random words and every number of hops", "why_tests_cant": "A test runs one seed for a finite number of hops; the claim is about every history of moves and every random word, including rare aliasing cases (two lines sharing an end, a worm sitting on a line being removed).", "anchors": ["src/module/markov/markov.cpp: CreateWorm, DeleteWorm, MoveWormOnG, MoveWormOnW, AddInteraction, DeleteInteraction", "src/module/diagram/diagram.cpp: Diagram::IsWorm", "src/module/diagram/diagram_check.cpp: _CheckStatus"]}
{"id": "C14", "title": "At most one composite (gamma) line exists and the status word tells which kind", "statement": "After any number of hops the status word is 0 exactly when no line is composite, 1 exactly when precisely one propagator and no interaction is composite, 2 exactly when precisely one interaction and no propagator is composite; the composite line is never the measuring line and the stored end-point handles designate its ends.", "quantifier": "for every sequence of random words and every number of hops", "why_tests_cant": "A test runs one seed for a finite number of hops; the claim is about every history of moves and every random word, including rare aliasing cases (two lines sharing an end, a worm sitting on a line being removed).", "anchors": ["src/module/markov/gamma3_updates.cpp", "src/module/markov/markov.cpp: DeleteInteraction, ChangeMeasureFromGToW"]}
{"id": "C15", "title": "Times, sites and spins stay in their domains", "statement": "After any number of hops every vertex time lies in [0, beta), every vertex site lies inside the lattice (sublattice included), and every momentum lies in [-MAX_K, MAX_K].", "quantifier": "for every lattice with the start site inside it, every beta>0, every sequence of random words, every number of hops and every vertex", "why_tests_cant": "A test runs one seed for a finite number of hops; the claim is about every history of moves and every random word, including rare aliasing cases (two lines sharing an end, a worm sitting on a line being removed).", "anchors": ["src/module/markov/markov.cpp: RandomPickTau, RandomPickSite, RandomPickK, ChangeRLoop, JumpBackToOrder1", "src/module/diagram/diagram_IO.cpp: Diagram::BuildNew"]}
{"id": "C16", "title": "Acceptance ratios of complementary updates are reciprocal", "statement": "For each pair of complementary updates (create/delete worm, add/delete interaction, add/delete instantaneous interaction, measure G to W and back, instantaneous to continuous and back, order 0 jump and back, to and from composite lines, and the self-inverse moves) the acceptance ratio computed for the move is the inverse of the ratio computed for the move that undoes it.", "quantifier": "for every state, every accepted proposal, every non-zero weight table and every positive reweighting factor", "why_tests_cant": "Detailed balance is an identity between two code paths for all real inputs; histograms only test it statistically.", "anchors": ["src/module/markov/markov.cpp", "src/module/markov/gamma3_updates.cpp"]}
{"id": "C17", "title": "The built-in consistency check never raises a false alarm and implies real consistency of the topology", "statement": "On every state reachable without the order-0 excursion of an instantaneous line the self check returns normally, and it passes unless some line weight is within the comparison tolerance of zero; conversely if the check passes on a state of order >= 1 then each vertex has exactly one incoming and one outgoing propagator and one interaction of the diagram, spin and momentum are conserved, there is one measuring line, and cached weights agree with the tables.", "quantifier": "for every reachable state; for every (even unreachable) state for the converse", "why_tests_cant": "Completeness over all reachable states and soundness over all states are universal claims.", "anchors": ["src/module/diagram/diagram_check.cpp", "src/module/diagram/component_bundle.cpp"]}
{"id": "C18", "title": "Without a worm there are no tadpoles", "statement": "In every worm-free diagram produced by the simulation no propagator starts and ends at the same vertex; the hard-coded sign of the jump from order 0 back to order 1 is therefore the correct fermion sign.", "quantifier": "for every sequence of random words and every number of hops ending without a worm", "why_tests_cant": "A test runs one seed for a finite number of hops; the claim is about every history of moves and every random word, including rare aliasing cases (two lines sharing an end, a worm sitting on a line being removed).", "anchors": ["src/module/markov/markov.cpp: JumpBackToOrder1, Reconnect, DeleteWorm", "src/module/diagram/diagram.cpp: WHashCheck"]}
{"id": "C19", "title": "Component containers behave as finite sets with dense numbering", "statement": "For any sequence of add and remove calls the components held are exactly those added and not removed; each has a name in [0, count), different components have different names, looking up a name gives the component with this name, removing keeps all the others and every component address remains valid.", "quantifier": "for every sequence of add/remove operations within capacity, every component", "why_tests_cant": "The swap-with-last removal permutes names; all orders of operations must be covered.", "anchors": ["src/module/diagram/component_bundle.cpp: Add, Remove, operator(), operator[], Exist, HowMany, Recover"]}
{"id": "C20", "title": "Adding to a full container is refused", "statement": "Adding a component to a container that already holds its maximum number of components aborts instead of accessing memory outside the array.", "quantifier": "for every container history that reaches full capacity", "why_tests_cant": "The guard is wrong by one and is never reached by the shipped parameter sets.", "anchors": ["src/module/diagram/component_bundle.cpp: Bundle<T>::Add()"]}
{"id": "C21", "title": "Momentum arithmetic is exact modulo the momentum period", "statement": "Sum, difference and negation of two momenta always give a momentum in [-MAX_K, MAX_K] that is congruent to the integer result modulo 2*MAX_K+1; hence addition is associative, commutative, cancellative, and equality of momenta is equality modulo the period. Integer multiples are exact for multipliers up to 3 in absolute value.", "quantifier": "for all momenta in range; for all integers in the single-wrap window", "why_tests_cant": "20001^3 triples for associativity alone.", "anchors": ["src/utility/momentum.cpp", "src/utility/momentum.h"]}
{"id": "C22", "title": "Lattice vector/index conversions are mutually inverse", "statement": "Converting a coordinate vector inside the lattice to a linear index and back gives the vector, converting an index in [0, volume) to a vector and back gives the index, and the index of a vector inside the lattice is in [0, volume).", "quantifier": "for every lattice size, every vector in the lattice, every index below the volume", "why_tests_cant": "Unbounded lattice sizes.", "anchors": ["src/lattice/lattice.cpp: Vec2Index, Index2Vec, Initialize"]}
{"id": "C23", "title": "The relative-coordinate index is in range, translation invariant and faithful", "statement": "For two sites of the lattice the relative-coordinate index lies in [0, volume), does not change when both sites are translated by the same lattice vector (periodically), and two target sites have the same index relative to one source exactly if their coordinates agree.", "quantifier": "for every lattice size and all sites in the lattice", "why_tests_cant": "Unbounded lattice sizes and all site pairs.", "anchors": ["src/lattice/lattice.cpp: Shift, CoordiIndex"]}
{"id": "C24", "title": "Weight table addressing is in bounds and collision free", "statement": "The linear index computed for a propagator or interaction weight (smooth or instantaneous) lies inside the table for all legal spins, sites and times in [0,beta), so the out-of-bounds exception is never thrown, and two argument tuples get the same index only if spins, sublattices, relative coordinate and time bin all agree.", "quantifier": "for every lattice, every number of time bins, every beta>0, every legal argument tuple", "why_tests_cant": "Six-dimensional unbounded index space.", "anchors": ["src/module/weight/index_map.cpp: GetIndex, _UpdateCache, TauIndex"]}
{"id": "C25", "title": "Time binning is in range, periodic and consistent with bin centres", "statement": "For every time difference in [-beta, beta) the time bin lies in [0, MaxTauBin) and is the bin whose interval contains the difference folded into [0, beta); adding beta to a negative difference gives the same bin and, for differences above -beta, flips the symmetry factor of antisymmetric functions; the bin's centre maps back to the bin, and every time in a bin is within half a bin width of its centre.", "quantifier": "for every beta>0, every number of bins and every real time difference in the window", "why_tests_cant": "Real valued inputs.", "anchors": ["src/module/weight/index_map.cpp: TauIndex, IndexToTau, GetTauSymmetryFactor"]}
{"id": "C26", "title": "Direction-aware weight look-ups agree with the plain ones", "statement": "Asking for the weight of a line seen from its IN end, or from its OUT end with the arguments exchanged, gives the weight of the same line asked for in the plain order; worm lines do not depend on the spins. The only argument combinations that disagree are measured instantaneous interactions.", "quantifier": "for all weight tables and all arguments", "why_tests_cant": "Two hand-written code paths must agree on all inputs.", "anchors": ["src/module/weight/component_MC.cpp: GClass::Weight, WClass::Weight"]}
{"id": "C27", "title": "Three-point propagator table: measuring and evaluating use the same cell and sign", "statement": "For the composite propagator table, measuring a value at given coordinates and evaluating at the same coordinates address the same in-range cell with the same sign, different (spin, relative coordinate, bin, bin) tuples address different cells, and shifting one time by beta flips the sign.", "quantifier": "for every lattice, number of bins, beta>0 and all legal arguments", "why_tests_cant": "Real valued times and unbounded table sizes.", "anchors": ["src/module/weight/gamma3.cpp: GammaGClass::Weight, GammaGClass::Measure"]}
{"id": "C28", "title": "Packed triangular index of the composite interaction is a bijection", "statement": "The packed index of an unordered pair of space-time points is below n(n+1)/2, is the same for both orders of the pair, differs for different unordered pairs and reaches every value.", "quantifier": "for every number n of space-time points and every pair", "why_tests_cant": "Unbounded n.", "anchors": ["src/module/weight/gamma3.cpp: GammaWClass::_GetIndex"]}
{"id": "C29", "title": "Composite interaction: evaluating inverts measuring for every spin channel", "statement": "For each spin channel the sign/conjugation applied when measuring the composite interaction is the inverse of the one applied when evaluating it, so that a table filled by measurements of one channel evaluates to the measured value (up to the symmetry factor).", "quantifier": "for every spin channel and every complex weight", "why_tests_cant": "All complex weights; the channels differ by conjugation which real test weights cannot see.", "anchors": ["src/module/weight/gamma3.cpp: GammaWClass::Weight, GammaWClass::Measure, _SpinIndex"]}
{"id": "C30", "title": "Estimators report the running mean and squeezing does not change it", "statement": "After any sequence of measurements the estimator's norm is 1 plus the number of samples and its mean is the sum of samples divided by the norm; squeezing by any positive factor leaves the mean unchanged and scales the norm; clearing forgets everything.", "quantifier": "for every sequence of measure/squeeze/clear operations and all sample values", "why_tests_cant": "All finite sequences of operations and real samples.", "anchors": ["src/estimator/estimator.cpp: Measure, SqueezeStatistics, ClearStatistics, _update"]}
{"id": "C31", "title": "Estimator history never overflows and thins uniformly", "statement": "For any number of AddStatistics calls the number of stored history entries never exceeds the buffer size, the sampling interval is a power of two equal to two to the number of thinnings, and thinning keeps exactly every second entry.", "quantifier": "for every number of AddStatistics calls interleaved with measurements", "why_tests_cant": "The buffer has 10000 entries; the second and later thinnings need millions of calls.", "anchors": ["src/estimator/estimator.cpp: AddStatistics"]}
{"id": "C32", "title": "The error bar bounds the spread of the retained history", "statement": "After an update the reported error equals half the difference between the largest and the smallest entry of the last two thirds of the history, hence any two of these entries differ by at most twice the error and the error is non-negative.", "quantifier": "for every non-empty history of finite values", "why_tests_cant": "All histories.", "anchors": ["src/estimator/estimator.cpp: Estimator<real>::_update, Estimate"]}
{"id": "C33", "title": "Order-resolved measurement histograms address disjoint in-range cells", "statement": "Measuring at order n in [1, max order] and table index i below the per-order size touches a cell inside the array; different (n, i) pairs touch different cells; nothing else changes. Squeezing preserves the ratio of data and normalisation.", "quantifier": "for every table size, maximum order, measurement sequence and positive squeeze factor", "why_tests_cant": "Unbounded sizes and sequences.", "anchors": ["src/module/weight/weight_estimator.cpp: Measure, MeasureNorm, SqueezeStatistics, Allocate"]}
{"id": "C34", "title": "Annealing leaves the normalised histogram unchanged", "statement": "Changing beta rescales the stored statistics such that the normalised weight function read from the histogram is the same before and after.", "quantifier": "for every beta, new beta and histogram", "why_tests_cant": "The stated intent is about all annealing sequences; it needs the stored normalisation to follow.", "anchors": ["src/module/weight/weight_estimator.cpp: Anneal, Allocate"]}
{"id": "C35", "title": "Parameter messages are applied once and never go backwards", "statement": "The version number of a running simulation never decreases; a message with a version not larger than the current one changes nothing; a message with a larger version sets version, beta and temperature to the message's values; an unreadable message changes nothing.", "quantifier": "for every sequence of messages, including stale, repeated and unreadable ones", "why_tests_cant": "All interleavings of message arrival.", "anchors": ["src/environment/envMonteCarlo.cpp: ListenToMessage", "src/module/parameter/parameter.cpp: UpdateWithMessage, GenerateMessage"]}
{"id": "C36", "title": "Signals are deferred in the critical section and never lost", "statement": "Between Delay and Resume a SIGINT or SIGTERM does not end the process; if at least one arrived, Resume ends the process with the last one received; outside the section the first signal ends the process at once; after Resume without pending signal the handler reports not delaying.", "quantifier": "for every interleaving of signals, Delay and Resume", "why_tests_cant": "All signal arrival points.", "anchors": ["src/utility/abort.cpp", "src/utility/abort.h: InterruptHandler"]}
{"id": "C37", "title": "The periodic timer fires at most once per interval and never misses an elapsed interval", "statement": "check(I) returns true exactly if at least I seconds passed since the last start or firing; consecutive firings are at least I seconds apart, for any non-decreasing clock.", "quantifier": "for every non-decreasing clock sequence and every sequence of check calls", "why_tests_cant": "All clock behaviours.", "anchors": ["src/utility/timer.cpp: timer::check(time_t), restart, start"]}
{"id": "C38", "title": "Saving and loading a diagram restores it", "statement": "Saving a diagram of order >= 1 without composite line and with a consistent state and loading it into a fresh process gives a diagram with the same lines, vertices, momenta, times, sites, spins, flags, worm, sign, weights, order and hash tables.", "quantifier": "for every reachable diagram state", "why_tests_cant": "The loader recomputes several fields; equality is needed for every reachable state.", "anchors": ["src/module/diagram/diagram_IO.cpp: ToDict, FromDict", "src/module/diagram/diagram.cpp: FixDiagram, ClearDiagram"]}
{"id": "C39", "title": "Recomputing the diagram after a parameter change is the identity when nothing changed", "statement": "Resetting the diagram with unchanged weight tables leaves topology, flags, order, cached weights and total weight of a consistent order >= 1 state unchanged.", "quantifier": "for every reachable state", "why_tests_cant": "All reachable states, including those after a worm has been removed, where stale worm pointers remain.", "anchors": ["src/module/diagram/diagram.cpp: Reset, FixDiagram, IsWorm"]}
{"id": "C40", "title": "Complex arithmetic obeys the field laws", "statement": "Sum, difference, product, quotient, conjugation, modulus, phase and square root of complex numbers agree with the mathematical operations, in particular mixed real/complex sums and differences.", "quantifier": "for all real parts and imaginary parts (exact arithmetic)", "why_tests_cant": "All real inputs.", "anchors": ["src/utility/complex.cpp", "src/utility/complex.h"]}
{"id": "C41", "title": "Random number helpers stay in range", "statement": "The uniform real lies in [0,1), the uniform integer on [a,b] lies in [a,b] and reaches every value, for each random word; a uniform pick from a container yields a component of the container.", "quantifier": "for every 32 bit random word and every non-empty integer interval", "why_tests_cant": "2^32 words times all intervals.", "anchors": ["src/utility/rng.h: urn, irn", "src/module/diagram/component_bundle.cpp: RandomPick"]}
{"id": "C42", "title": "Each measurement is booked in exactly one place", "statement": "Each call of the monitor's measure step increments exactly one of the worm/physical counters, at the current order, and at most one of the section counters; data are added to the self energy histogram exactly when a propagator is measured in a worm-free diagram of order >= 1 without composite line, to the polarisation analogously, and the normalisation only at order 0.", "quantifier": "for every diagram state and parameter set", "why_tests_cant": "All combinations of flags.", "anchors": ["src/module/markov/markov_monitor.cpp: Measure"]}
{"id": "C43", "title": "Reweighting factors change only when enough statistics exist", "statement": "If the adjustment routine reports failure then no reweighting factor has been changed; if it reports success each order factor is multiplied by time ratio times weight[0]/weight[i], with positive factors staying positive.", "quantifier": "for every statistics state", "why_tests_cant": "The failing branch requires zero worm statistics together with enough physical statistics.", "anchors": ["src/module/markov/markov_monitor.cpp: AdjustOrderReWeight, PrintOrderReWeight"]}
{"id": "C44", "title": "Moving a whole fermion loop terminates, visits exactly the loop and is all-or-nothing", "statement": "In a worm-free diagram of order at least one the loop move always makes a proposal; it visits each vertex of the fermion loop of the picked vertex exactly once and terminates; on acceptance precisely these vertices get the new site and nothing else but weights and phase changes; on rejection nothing changes.", "quantifier": "for every diagram and loop length", "why_tests_cant": "Loop lengths and aliasings (interactions with both ends in the loop) are unbounded in principle.", "anchors": ["src/module/markov/markov.cpp: ChangeRLoop"]}
{"id": "C45", "title": "Update selection is total and uniform", "statement": "For each uniform random number in [0,1) the hop selects exactly one update; each enabled update is selected for a sub-interval of length equal to its call probability.", "quantifier": "for every x in [0,1) and every vector of call probabilities that sums to one", "why_tests_cant": "Real valued input.", "anchors": ["src/module/markov/markov.cpp: Hop, Reset"]}
{"id": "C46", "title": "Parameter dictionary semantics", "statement": "A dictionary lookup returns the last value stored under the key, storing under one key does not change others, update overrides exactly the keys of the argument, clear removes all, and looking up a missing key raises instead of returning garbage.", "quantifier": "for every sequence of operations and all keys", "why_tests_cant": "All operation sequences.", "anchors": ["src/utility/dictionary.h", "src/utility/dictionary.cpp"]}
{"id": "C47", "title": "Text padding helpers return the string padded to the width", "statement": "Left/right/centre padding return a string of the requested width containing the argument, for each argument not longer than the width; longer arguments are returned unchanged.", "quantifier": "for all strings and widths", "why_tests_cant": "The failing inputs (argument longer than width) hang the program.", "anchors": ["src/utility/utility.cpp: Center, Right, Left"]}
{"id": "C48", "title": "Scope guards run their callback exactly once unless dismissed", "statement": "A scope guard executes its callback exactly once when the scope is left, on every path, and not at all if it was dismissed before.", "quantifier": "for every sequence of operations in the scope, including exceptions", "why_tests_cant": "All exit paths.", "anchors": ["src/utility/scopeguard.h"]}
{"id": "C49", "title": "Big dictionary files are replaced atomically", "statement": "If the process dies at any point while saving a big dictionary, the target file holds either the complete old or the complete new contents.", "quantifier": "for every crash point and every content", "why_tests_cant": "All crash points.", "anchors": ["src/utility/dictionary.cpp: BigSave", "IO.py: SaveBigDict"]}
{"id": "C50", "title": "Propagators never leave their site", "statement": "After any number of hops both ends of each propagator are on the same lattice site, so all vertices of a fermion loop are; the site tests made by updates before they use a propagator never exclude a diagram the simulation produces.", "quantifier": "for every sequence of random words, every number of hops, every propagator and every fermion loop", "why_tests_cant": "A violation needs a particular sequence of worm moves, reconnections and loop moves; tests see only the sequences of one random seed.", "anchors": ["src/module/markov/markov.cpp: Markov::Reconnect, Markov::AddInteraction, Markov::ChangeRLoop, Markov::JumpBackToOrder1", "src/module/markov/gamma3_updates.cpp: Markov::JumpToGGGammaG"]}
{"id": "C51", "title": "Statistics survive a restart", "statement": "An estimator or histogram restored from the data it saved reports the same sum, norm, mean, error bar and cells as the saved one, whatever it held before; a file with fewer orders leaves the missing orders empty.", "quantifier": "for every saved state, every previous state of the receiving object, every history of at most the buffer size", "why_tests_cant": "All saved and receiving states.", "anchors": ["src/estimator/estimator.cpp: FromDict, ToDict", "src/module/weight/weight_estimator.cpp: FromDict, ToDict"]}
{"id": "C52", "title": "The main loop never runs into undefined behaviour", "statement": "From a new or restored simulation any number of passes of the main loop, with printing, saving, reading messages and reweighting happening whenever their timers say so, never accesses memory out of bounds, never loses the consistency of diagram, statistics and parameters, and ends only because one of the program's own checks fails.", "quantifier": "for every sequence of random words, every timing of the four periodic actions, every sequence of message and weight files, every number of passes", "why_tests_cant": "The interleavings of timers, random moves and files are unbounded, and out-of-bounds accesses are often silent.", "anchors": ["src/main.cpp: MonteCarlo", "src/environment/envMonteCarlo.cpp: Save, ListenToMessage, AdjustOrderReWeight", "src/module/markov/markov_monitor.cpp: Measure, PrintOrderReWeight, SqueezeStatistics"]}
{"id": "C53", "title": "Stopping and restarting does not change a run", "statement": "Save a run at a state of order at least one without composite line, load the file in a new process with the same parameters and continue with the same random words: diagrams, later files, counts of proposals and acceptances, and all measurements are those of the uninterrupted run, although components are kept in other memory cells.", "quantifier": "for every reachable state of order at least one without composite line, every content of the new process's memory, every continuation of any length, every state of the estimators", "why_tests_cant": "Equality of all continuations of two differently laid out states; tests follow single seeds for a few steps.", "anchors": ["src/module/diagram/diagram_IO.cpp: ToDict, FromDict", "src/module/diagram/component_bundle.cpp", "src/module/markov/markov.cpp: Hop and all updates", "src/module/markov/markov_monitor.cpp: Measure"]}
{"id": "C54", "title": "Runs do not depend on uninitialised memory", "statement": "Two simulations started with the same parameters and random words give the same diagrams, files, statistics and measurements, whatever the memory of the two diagram objects contained apart from what the constructors set.", "quantifier": "for every two contents of unset memory, every random word sequence of any length, every state of the estimators", "why_tests_cant": "Uninitialised memory is usually zero in tests; its content cannot be enumerated.", "anchors": ["src/module/diagram/diagram.cpp: Diagram::Diagram, FixDiagram", "src/module/diagram/diagram_IO.cpp: BuildNew", "src/module/diagram/component.h", "src/module/markov/markov.cpp"]}
{"id": "C55", "title": "Weight tables are looked up only inside their domain", "statement": "No update looks up a weight for a site outside the lattice or a time outside [0, beta), or in the table of instantaneous measuring lines: changing all other table entries changes no proposal, acceptance ratio, new state or statistics.", "quantifier": "for every reachable state, every update, every random word sequence of any length, every two sets of tables agreeing on the domain", "why_tests_cant": "Reads outside the domain are silent when the tables happen to be padded; all states and tables would have to be tried.", "anchors": ["src/module/markov/markov.cpp", "src/module/markov/gamma3_updates.cpp", "src/module/weight/component_MC.cpp"]}
{"id": "C56", "title": "Diagrams stay connected", "statement": "In every diagram the simulation reaches, with or without a worm, any two vertices are joined by a path of propagators and interaction lines. The program never tests this; it follows because updates change connections only at the worm ends and spin conservation keeps both worm ends in the same piece.", "quantifier": "for every parameter set, every sequence of hops, reweightings, annealing steps and restarts, every update with every random word sequence", "why_tests_cant": "Disconnected pieces would need a global graph search at every step of all runs; only an invariant over all executions excludes them.", "anchors": ["src/module/markov/markov.cpp: Reconnect, AddInteraction, DeleteInteraction, AddDeltaInteraction, DeleteDeltaInteraction, CreateWorm, DeleteWorm, MoveWormOnG, MoveWormOnW"]}
{"id": "C57", "title": "Diagrams contain no insertions", "statement": "Every worm-free diagram the simulation reaches stays connected when any two propagators, any two interaction lines, or any propagator and any interaction line are cut; no propagator begins and ends at the same vertex. So the diagrams with dressed lines count nothing twice.", "quantifier": "for every parameter set, every reachable worm-free diagram of any order, every pair of lines", "why_tests_cant": "Irreducibility is enforced only through distinctness of conserved momenta modulo 2*MAX_K+1 kept in hash tables over a whole run; it concerns all cuts of all diagrams.", "anchors": ["src/module/diagram/diagram.cpp: AddGHash, AddWHash, RemoveGHash, RemoveWHash, GHashCheck, WHashCheck", "src/utility/momentum.cpp", "src/module/markov/markov.cpp: CreateWorm, DeleteWorm, MoveWormOnG, Reconnect, AddInteraction, DeleteInteraction"]}
{"id": "C58", "title": "Every run can be undone, so no part of the configuration space is a trap", "statement": "From each state that hops lead to from a state s, further hops with suitable random words lead back to s, and to every other state that hops lead to from s, up to the memory cells of the components: the chain is irreducible on the states it can visit. For this all times of all diagrams must be times that the random number generator can produce.", "quantifier": "for every parameter set with positive reweighting factors, every reachable state, every pair of hop sequences of any length", "why_tests_cant": "Existence of a way back has probability practically zero in any random run; it must be constructed for all states.", "anchors": ["src/module/markov/markov.cpp: Hop and all updates, RandomPick*", "src/module/markov/gamma3_updates.cpp", "src/utility/rng.h: urn, irn"]}
{"id": "C59", "title": "A restarted process continues like the uninterrupted one", "statement": "A process that has been saved (parameter file and statistics file) and is started again gets back every parameter, the state of the random number generator, the statistics and the diagram. Given the same random words and messages from then on it measures, saves, reweights and ends exactly as the process that was not interrupted, in whatever memory it runs.", "quantifier": "for every parameter set, every history of starts, messages, sweeps and earlier restarts, every memory content of the new process, every later sequence of random words, timer events and messages", "why_tests_cant": "equality of two runs of unbounded length over all histories, message sequences and uninitialised memory", "anchors": ["src/environment/envMonteCarlo.cpp: BuildNew, Load, Save", "src/module/parameter/parameter.cpp: ParaMC::FromDict, ParaMC::ToDict", "src/module/markov/markov_monitor.cpp: FromDict, ToDict", "src/module/weight/weight.cpp: FromDict, _Allocate*", "src/module/weight/weight_estimator.cpp: FromDict, ToDict", "src/estimator/estimator.cpp: FromDict, ToDict", "src/main.cpp: MonteCarlo"]}
{"id": "C60", "title": "Collecting pools the statistics of all processes", "statement": "CollectStatis sums the data and the normalisations of all readable statistics files, independently of the order of the files, provided at least three quarters of the files can be read; otherwise it reports a failure. A file that is reported as failed contributes nothing. Collecting the files of several processes of the same model gives the measured functions of one process that had visited all their configurations.", "quantifier": "for every number of files in every order, every content, every set of processes with arbitrary runs", "why_tests_cant": "sums over unboundedly many files and configurations, over all permutations and all failure patterns", "anchors": ["dyson/collect.py: WeightEstimator.MergeFromDict, CollectStatis", "src/module/weight/weight_estimator.cpp: ToDict", "src/module/markov/markov_monitor.cpp: ToDict, Measure"]}
{"id": "C61", "title": "Only consecutive, sufficiently accurate orders are accepted", "statement": "UpdateWeight returns the sum of the normalised data of orders 1..k, where every order up to k has an error below the threshold or was accepted before, and order k+1, if measured, has not. An accepted order stays accepted. Missing normalisation is reported as a failure that the self-consistency loop handles, and no result without an accepted order is used.", "quantifier": "for every number of orders, all data, every error estimate, threshold and previously accepted order", "why_tests_cant": "decision logic over arbitrary sequences of errors and missing data", "anchors": ["dyson/collect.py: WeightEstimator.UpdateWeight, UpdateWeight", "dyson/main.py: Dyson"]}
{"id": "C62", "title": "The acceptance statistics are exact and balance", "statement": "Proposed and Accepted count every call of an update under the order the diagram had when the call was made: Proposed the calls that reach the acceptance test, Accepted those that are accepted. Over any run the accepted steps from order n to n+1 exceed those from n+1 to n by exactly the change of [order > n], so by at most one; the same holds for creation and deletion of worms, for the change of the measuring line, and for entering and leaving each three-point sector.", "quantifier": "for every reachable simulation, every number of hops and all random numbers", "why_tests_cant": "counters over unboundedly many steps of a random walk; a test sees one seed", "anchors": ["src/module/markov/markov.cpp: Hop, Proposed, Accepted, PrintDetailBalanceInfo, _CheckBalance", "src/module/markov/gamma3_updates.cpp"]}
{"id": "C63", "title": "Changing the domain of a weight changes nothing else", "statement": "Weight.FFT, called in any sequence with any domain letters, always leaves the weight representing the same function of lattice vector and imaginary time; returning to real space and time gives the data it started with, every array represents exactly one function, and the values in momentum and frequency space are the sums over sites and bins with the fermionic or bosonic Matsubara frequencies at the centres of the bins.", "quantifier": "for every lattice, number of bins, inverse temperature, symmetry, array and sequence of calls", "why_tests_cant": "a transform and its inverse can agree on samples while a phase, a shift of half a bin or the order of letters is wrong for other sizes", "anchors": ["dyson/weight.py: Weight.FFT, ChangeSymmetry, __fftTime, __fftSpace, __AdditionalPhaseFactor"]}
{"id": "C64", "title": "The Dyson equations are solved exactly", "statement": "If G_Dyson returns, its result represents the only function of lattice vector and time that satisfies G = G0 + G0 (Sigma + Sigma_delta) G on the bins; if W_Dyson returns, its results represent the only functions that satisfy W = J P J + J P W and X = -P + J P X. Both end with an exception other than DenorminatorTouchZero exactly if the equations do not have exactly one solution.", "quantifier": "for every lattice, number of bins, temperature, sublattice and spin structure, all input functions in any domain, and every linear solver that solves what it factorises", "why_tests_cant": "matrix equations over all momenta and frequencies with unbounded sizes; signs of wrap-around terms cancel in symmetric test cases", "anchors": ["dyson/calculator.py: G_Dyson, W_Dyson, Calculate_Denorminator, Check_Denorminator", "dyson/weight.py: LUFactor, LUSolve", "dyson/solver/lu_slow.py"]}
{"id": "C65", "title": "The averaged functions contain exactly the successful versions", "statement": "After any number of versions of the self-consistency loop, SigmaDeltaT, Sigma and Polar represent the averages of the contributions of the versions that ended without failure, with weight v/(v+10) for version v; a version that failed, wherever it failed, leaves no trace.", "quantifier": "for every number of versions, all contributions, both modes and every pattern of failures", "why_tests_cant": "depends on every interleaving of successes and of the places where a version can fail", "anchors": ["dyson/main.py: Dyson", "dyson/weight.py: Weight.Merge, Weight.RollBack, Weight.FFT"]}
{"id": "C66", "title": "The bare interaction is the Heisenberg exchange of the chosen lattice", "statement": "For each lattice and spin model, BareFactory.Build fills BareW with the exchange J1 S.S for each nearest neighbour of the infinite lattice, J2 S.S for each next nearest and J3 S.S for each third neighbour (folded into the periodic cell, images added), with the spin matrix of two spins one half; it holds nothing else, and exchanging the two ends of a bond leaves it unchanged.", "quantifier": "for every lattice type, all sizes, all couplings, all sites, sublattices and spins", "why_tests_cant": "neighbour lists are written by hand for each lattice with wrap-around for each size; a wrong entry is visible only for some sizes or sublattice pairs", "anchors": ["dyson/model.py: BareFactory.Build, __SpinModel, __BuildHubbardInteraction", "dyson/lattice.py: Lattice", "dyson/weight.py: IndexMap.CoordiIndex"]}
{"id": "C67", "title": "Lattice momenta fit the periodic cell", "statement": "The reciprocal vectors of each lattice are dual to its lattice vectors; a momentum with integer coordinates is a wave that fits the periodic cell, and for such momenta FourierTransformation gives the sum over all pairs of sites with the phase of their real distance, for any origin; the momentum (pi,...,pi) used for staggered order changes sign between nearest neighbours.", "quantifier": "for every lattice type, all sizes, all integer momenta and all data", "why_tests_cant": "vectors are typed by hand with square roots; a permutation is invisible on cells with equal sizes", "anchors": ["dyson/lattice.py: Lattice, FourierTransformation, GetRealVec, __Shift", "dyson/measure.py: Observable.Measure"]}
{"id": "C68", "title": "The reported susceptibilities are static", "statement": "UnifChi is the sum of the susceptibility over all pairs of sublattices, lattice vectors and imaginary time, per sublattice; StagChi is the same sum with the staggered phase.", "quantifier": "for every lattice, number of bins, temperature and susceptibility in any domain", "why_tests_cant": "whether a field of the array is a time bin or a frequency depends on the history of transforms", "anchors": ["dyson/measure.py: Observable.Measure", "dyson/weight.py: Weight.FFT"]}
{"id": "C69", "title": "The bare propagator describes exactly spins one half", "statement": "For the spin models BareG is the propagator of isolated sites with the imaginary chemical potential i*pi/(2*beta) and the given field; with this potential the states without or with two particles cancel from the partition function and from the average of every product of spin operators, so that all results of the fermion model with any spin Hamiltonian are those of spins one half; and the measured <Sz> and <n> are what the propagator says, up to the extrapolation to the end of the time interval.", "quantifier": "for all temperatures, fields, numbers of sites, spin Hamiltonians and operators", "why_tests_cant": "the cancellation is an identity of infinite families of traces; a test sees some matrices only", "anchors": ["dyson/model.py: BareFactory.__SpinModel (Mu, BareG)", "dyson/weight.py: IndexMap.Pauli", "dyson/measure.py: Observable.Measure (<Sz>, <n>)"]}
{"id": "C70", "title": "Annealing of the external field ends at zero field", "statement": "BareFactory.DecreaseField is called after each round of the self consistency loop; after finitely many rounds the field is within one step's tolerance of the target for all components and stays there. RevertField takes the field back to half way to the last field for which a round was completed.", "quantifier": "for all initial fields, step vectors and sequences of rounds that end normally or with an exception", "why_tests_cant": "the end of the annealing is a statement on runs of any length", "anchors": ["dyson/model.py: BareFactory.DecreaseField, RevertField", "dyson/main.py: Dyson", "inlist.py: Annealing"]}
{"id": "C71", "title": "Both programs mean the same by an element of an array", "statement": "An array of G or W written by the Python program and read by the Monte Carlo program gives each line the element that Python has at the spins, sublattices, coordinate difference and time of that line; what the Monte Carlo program adds to its statistics is found by Python at those indices and at position order-1 of the first axis, and nothing else changes; lattice vectors and times of bins are numbered in the same way by both programs.", "quantifier": "for all lattice sizes, numbers of bins and sublattices, arrays, lines and measurements", "why_tests_cant": "index arithmetic is written twice, in C++ with strides and in Python with shapes; they have to agree for all sizes", "anchors": ["src/module/weight/weight_array.cpp: WeightArray::FromDict", "src/module/weight/index_map.cpp: IndexMap", "src/module/weight/weight_estimator.cpp: WeightEstimator", "dyson/weight.py: IndexMap, Weight"]}
{"id": "C72", "title": "At first order both programs compute the same functions", "statement": "Every Monte Carlo configuration of order one with a measured propagator (interaction) is one of the diagrams whose sum SigmaSmoothT_FirstOrder (Polar_FirstOrder) stores in the same element: the weight of the configuration with the sign of its record is minus the product of the elements of G and W (of G and G) of these arrays, with the spins, sublattice and time bin of the element where it is recorded. Other elements of the Python arrays are zero when G does not connect different sites, and for spin models without field SigmaDeltaT_FirstOrder is zero.", "quantifier": "for all parameters, arrays G, W, W0, lattices, numbers of bins, and all reachable configurations of order one", "why_tests_cant": "signs, spin and time conventions of two programs in two languages have to fit for all configurations; a Monte Carlo run only gives statistical agreement", "anchors": ["dyson/calculator.py: SigmaSmoothT_FirstOrder, SigmaDeltaT_FirstOrder, Polar_FirstOrder", "src/module/markov/markov_monitor.cpp: MarkovMonitor::Measure", "src/module/weight/component_MC.cpp: GClass::Weight, WClass::Weight"]}
{"id": "C73", "title": "Symmetry tables and compressed three-point interactions", "statement": "The tables of SymmetryMapping number pairs of time bins up to exchange and pairs of sites up to the mirror symmetries of the lattice: two pairs have the same number exactly if one is an image of the other, the factors are the numbers of members, and every number is valid. CompressGammaW and UnCompressGammaW are inverse to each other on arrays with these symmetries, and the restored array always has them. The Monte Carlo program accepts the tables and reads from the compressed array the elements of the original array for the sites, times and spins of a line.", "quantifier": "for all lattice sizes, symmetry lists, numbers of bins, arrays, sites, times and spins", "why_tests_cant": "tables are built by loops over all quadruples of coordinates; that no class is missed or split and that two programs read them alike is a statement about all sizes", "anchors": ["dyson/gamma3_calc.py: GetR, MirrorR, SymmetryMapping, CompressGammaW, UnCompressGammaW", "dyson/main.py: Measure", "src/module/weight/gamma3.cpp: GammaWClass::WeightFromDict, GammaWClass::Weight"]}
{"id": "C74", "title": "Statistics of the three-point functions survive restarts and are collected correctly", "statement": "After any sequence of measurements, norms, reductions and restarts, every element of the saved three-point propagator is the sum of the measurements with its spin, relative position and time bins, reduced by the later factors, and the norm likewise; the same for the interaction. CollectStatis returns, from the files of several processes, the norm times the sum of all measurements divided by the sum of all norms; files that count as failures do not contribute.", "quantifier": "for all tables, sequences of operations, numbers of processes, and contents of files", "why_tests_cant": "the order of measurements, reductions and restarts is arbitrary, and types of array elements in files are only known at run time", "anchors": ["src/module/weight/gamma3.cpp: StatisFromDict, StatisToDict, SqueezeStatistics", "src/module/weight/weight.cpp: Weight::FromDict", "IO.py: SaveBigDict, LoadBigDict", "dyson/collect.py: CollectStatis"]}
{"id": "C75", "title": "The job manager runs every job once and within the number of processors", "statement": "Jobs are submitted once each, those that do not keep a processor busy first, otherwise in the order of TO_DO. At no time do more than CPU of the local processes that keep a processor busy run. The manager ends only when all jobs are submitted and all its processes have ended, and it does end if all processes do and CPU > 0. A signal ends it. Different jobs have different input files; a calculation in a fresh directory numbers its processes from zero, a resumed one continues the existing ones.", "quantifier": "for all lists of job classes, numbers of processors, ending times of processes, arrival of signals, and contents of the directory", "why_tests_cant": "ending times of processes and signals are arbitrary; the list of processes is changed while it is traversed", "anchors": ["job_manager.py: construct_job_queue, check_status, submit_job, StopTheWorld", "job_class.py: get_current_PID, JobMonteCarlo, JobDyson"]}
{"id": "C76", "title": "The update of the three-point function is the vertex equation with all spin sums", "statement": "One update of GGGammaG in a calculation without statistics gives G*G plus the propagators joined to the ladder part (one interaction line) minus those joined to the part with two exchanged lines, each with the complete sums over spins, sites and times, although the program computes only two spin channels, takes conjugates for spin down and convolves by Fourier transforms. The symmetry in the two times that this needs holds after every update. At equal times the first term is the polarisation of first order.", "quantifier": "for all propagators with particle-hole symmetry, all real and even exchange interactions, all lattice sizes with two axes, all numbers of time bins, and all numbers of updates", "why_tests_cant": "the equality of the shortcut with the sum over spins is an identity in all arrays; a run shows numbers only", "anchors": ["dyson/gamma3_calc.py: SimpleGG, AddW_To_GGGammaG, AddTwoG_To_GammaG, AddG_To_GGGammaG, AddTwoW_To_GammaW, FFTGammaW, FFTWshift, AddG_To_WWGammaW", "dyson/main.py: Dyson"]}
{"id": "C77", "title": "Self-consistent calculations keep the symmetries of the spin model", "statement": "In a calculation without Monte Carlo data for a spin model in zero field, after every number of versions the propagator and self energy stay on a site, do not depend on the spin and have particle-hole symmetry, the interaction has the spin structure of S.S and is real and even in time, the polarisation is local, real and even, and there is no instantaneous self energy. The bare functions built by the program have these symmetries, and the equations for the three-point functions rely on them. For one sublattice W_Dyson fails exactly at the magnetic instability: twice the product of exchange and polarisation is one at some wave vector and frequency; the first version of a new calculation ends well if the interaction is weak enough.", "quantifier": "for all lattices, numbers of sublattices and time bins, all temperatures, all sequences of bare functions with the symmetries, all numbers of versions, with failures of G_Dyson in between", "why_tests_cant": "the symmetry is an invariant of an unbounded iteration through Fourier transforms, averages and linear solves; a run checks some elements after some versions", "anchors": ["dyson/main.py: Dyson", "dyson/calculator.py: SigmaSmoothT_FirstOrder, SigmaDeltaT_FirstOrder, Polar_FirstOrder, G_Dyson, W_Dyson", "dyson/model.py: __SpinModel", "dyson/weight.py: Weight.Merge, Weight.RollBack, Weight.FFT"]}
{"id": "C78", "title": "A converged calculation solves the self-consistent equations", "statement": "In a calculation without Monte Carlo data in which all versions end well, if the self energies and the polarisation converge, to limits whose Dyson equations are not singular, then the propagator and the interaction converge as well and the limits solve the first-order self-consistent equations: the Dyson equations, with the exchange diagram, the bubble and the Fock and Hartree diagrams of the limits themselves. Averaging over versions, the mixture of old and new functions inside a version, and the function the calculation started from have no influence on the limit. A calculation that starts from a solution stays there for any number of versions, and the functions that a version leaves the same are exactly the solutions.", "quantifier": "for all lattices, numbers of sublattices, two or more time bins, temperatures, bare functions and starting functions, all infinite sequences of versions whose functions converge; C78_fixed: all numbers of versions", "why_tests_cant": "a statement on limits of infinite iterations; a run shows that numbers stop changing, not that they solve the equations, because the weights of the average decide that", "anchors": ["dyson/main.py: Dyson", "dyson/calculator.py: SigmaSmoothT_FirstOrder, SigmaDeltaT_FirstOrder, Polar_FirstOrder, G_Dyson, W_Dyson", "dyson/weight.py: Weight.Merge"]}
{"id": "C79", "title": "The reported susceptibility is the correlation function of the spins", "statement": "The susceptibility that a version of the self-consistent calculation reports and saves is the correlation function of the z components of the spins. In zero field it is the one solution of the equation of the random phase approximation with the polarisation of the version and the exchange constants of the model, the other two components would give the same, and the version fails exactly if that equation does not have one solution. For spins without exchange it is, for fine time bins, the exact one: 1/4 for a spin with itself and the product of the averages for different spins, in any field. With the option for the sum rule the polarisation is rescaled until the local susceptibility at time zero has its exact value, and the interaction belongs to the rescaled polarisation.", "quantifier": "for all lattices, numbers of sublattices and time bins, temperatures, bare interactions and polarisations with the symmetries of zero field, all numbers of passes of the loop for the sum rule; C79_free and C79_free_limit: all fields", "why_tests_cant": "the reference is the solution of a matrix equation in space and time for arbitrary parameters and a limit of infinitely many bins; a test compares one lattice at one temperature with numbers of the same program", "anchors": ["dyson/calculator.py: W_Dyson, Add_ChiTensor_ZerothOrder, Calculate_Chi", "dyson/main.py: Measure, Dyson"]}
{"id": "C80", "title": "The bare propagator of the band models is that of particles hopping on the lattice", "statement": "For the models Hubbard and Haldane, BareFactory.Build returns in BareG, at the centres of the time bins and for all lattice vectors, sublattices and spins, the one propagator of free particles that hop with the amplitudes Hopping[0] to nearest and Hopping[1] to next nearest neighbours of the lattice, with the given phases, chemical potential and field: it obeys the equation of motion with this Hermitian Hamiltonian and jumps by one at time zero. Missing amplitudes count as zero, and the result does not depend on which eigenvectors numpy returns.", "quantifier": "for both lattices with a branch in the code, all sizes from two cells in each direction, all amplitudes, chemical potentials, fields, temperatures and numbers of time bins, all eigenvectors", "why_tests_cant": "the reference is the solution of a differential equation on a lattice of any size; errors for degenerate levels, for phases and for large energies are visible only at special parameters", "anchors": ["dyson/model.py: BareFactory.Build, __BuildBareG, __FermiKernel, Hubbard, Haldane", "dyson/weight.py: IndexMap.Pauli, Weight.FFT"]}
{"id": "C81", "title": "The interactions of the Kitaev and Haldane models are the bond operators that they name", "statement": "For the model Kitaev, BareFactory.Build fills BareW with J1 SxSx, J2 SySy, J3 SzSz on the bonds of the honeycomb lattice of the three directions; for the short range interactions of the band models each name in the list (SS, SSxy, SxSx, SySy, SzSz, nn) stands for its operator, the first acting with the first coupling between nearest neighbours and the second with the second coupling between next nearest neighbours, images in the periodic lattice added; the Haldane model has the density interaction with the couplings given. The table holds nothing else and is the same seen from both ends of a bond.", "quantifier": "for both lattices with a branch in the code, all sizes, all couplings, all lists of names, all sites, sublattices and spins", "why_tests_cant": "six statements with hand written wrap-around have to match directions of bonds for every size; operators are written as four by four tables; wrong entries are visible only for some spins and sizes", "anchors": ["dyson/model.py: Kitaev, Haldane, __SpinModel, __BuildShortRangeInteraction", "dyson/weight.py: IndexMap.CoordiIndex"]}
{"id": "C82", "title": "Values cross the border between C++ and Python unchanged", "statement": "A value put into a Dictionary or passed to Python with CastToPy and read back with Convert (Dictionary::Get<T>, AnyObject::As<T>, FromPy) of the same type is the value that went in, for text, truth values, integers of all sizes, reals, complex numbers, momenta, spins, Python objects, Vec, vector, list, map and tuple of these to any depth, in whatever order Python lists the items of a dict. An object of the wrong kind or out of the range of the type is refused, the call returns false and the variable keeps its value. What the variable held before does not matter.", "quantifier": "for all values of all types built from the supported ones, all Python objects, all earlier contents of the variable", "why_tests_cant": "types nest without bound and each integer type has its own range; a test with small numbers in fresh variables passes while large numbers, other kinds, earlier contents or failing items are read wrongly without a message", "anchors": ["src/utility/pyglue/type_cast.h: Convert, AddToTuple, ConvertList, CastToPyList, CastToPy", "src/utility/pyglue/type_cast.cpp: Convert, CastToPy, IsInt, ConvertReal", "src/utility/pyglue/pywrapper.h: AnyObject::As", "src/utility/dictionary.cpp: ToPy, FromPy"]}
{"id": "C83", "title": "A Python object lives exactly as long as somebody owns a reference to it", "statement": "However instances of Python::Object are made, copied, assigned (also to themselves or to another instance of the same object), destroyed or asked for a pointer, in any order and mixed with what the interpreter does, the count of every Python object is the number of its owners: no instance points to freed memory, and an object without owner is freed. The functions of the glue (CastToPy and Convert of simple values, lists, maps and tuples to any depth, CallFunction, EvalScript, ArrayObject) leave no reference behind and take none away that is not theirs.", "quantifier": "for all sequences of calls that keep to the rules of NewRef and NoRef, all numbers of instances and objects, all depths of containers", "why_tests_cant": "a lost or an extra reference has no effect on results until memory is reused or exhausted, which depends on the allocator and the length of the run; aliases of instances come in too many orders to try", "anchors": ["src/utility/pyglue/object.h: Object, OwnerShip", "src/utility/pyglue/object.cpp: IncreaseRef, DecreaseRef, Object members", "src/utility/pyglue/type_cast.h: CastToPyList, CastToPy, ConvertList, Convert, AddToTuple", "src/utility/pyglue/pywrapper.h: CallFunction, add_tuple_vars", "src/utility/pyglue/pywrapper.cpp: EvalScript, GetAttr", "src/utility/pyglue/pyarraywrapper.cpp: ArrayObject"]}
{"id": "C84", "title": "Times, sites, instantaneous lines and the measuring line are explored completely", "statement": "For the lines of a diagram without worm the simulation can reach, by hops that occur with positive probability, every assignment of lattice sites to its fermion loops, every assignment of generator times to its vertices and every choice of instantaneous lines that has a weight different from zero, and nothing else about the diagram changes. It can also make every fermion line and every continuous interaction line the measuring line. So no part of the sums and integrals over positions is left out.", "quantifier": "for all reachable diagrams of any order above one without worm (order one: without instantaneous lines), all target positions, all weight tables without zeros for continuous lines, all positive reweighting factors, all lattice sizes", "why_tests_cant": "that a configuration is not seen in a run of finite length says nothing about whether it can be reached; the positions are too many to be listed", "anchors": ["src/module/markov/markov.cpp: Markov::ChangeTauOnVertex", "src/module/markov/markov.cpp: Markov::ChangeRLoop", "src/module/markov/markov.cpp: Markov::ChangeDeltaToContinuous", "src/module/markov/markov.cpp: Markov::ChangeContinuousToDelta", "src/module/markov/markov.cpp: Markov::ChangeMeasureFromGToW", "src/module/markov/markov.cpp: Markov::ChangeMeasureFromWToG"]}
{"id": "C85", "title": "What is saved in a data file comes back when it is loaded", "statement": "A dictionary that SaveBigDict accepts is equal to what LoadBigDict returns for the file afterwards, to any depth of dictionaries: the same keys, numbers, text, arrays and lists; only the statistics of the three-point interaction are rounded to single precision, as intended. Saving does not change the dictionary of the caller otherwise, changes no other file, leaves no temporary file, and a save that fails leaves the old file as it was. A dictionary that was loaded can be saved again and does not change any more.", "quantifier": "for all dictionaries of any depth and size, all file names, all states of the file system", "why_tests_cant": "dictionaries nest without bound, and keys and types combine freely: which of them are dropped, converted or refused is not visible in a round trip of a few samples; a failed save is rare and is noticed only when the old file is needed", "anchors": ["IO.py: SaveBigDict, LoadBigDict", "hickle.py: dump, dump_dict, _dump_dict, load, load_dict", "src/utility/dictionary.cpp: Dictionary::BigSave, Dictionary::BigLoad", "dyson/main.py: Measure", "dyson/collect.py"]}
{"id": "C86", "title": "A step of the Markov chain leaves the target distribution unchanged", "statement": "If the diagram is drawn with probability proportional to its weight (modulus of the weight, reweighting factors of order, worm and composite lines, measure of the times) and then one update is called with random choices and accepted or rejected, then the diagram is again distributed in proportion to its weight. All updates and all choices together count: the total flow from one diagram to another is the same in both directions, also if several updates or choices lead to the same diagram, and the probabilities of all outcomes of a step add up to one.", "quantifier": "for all consistent diagrams of any order with times of the generator (order 0: without instantaneous line), all weight tables, all positive reweighting factors, all lattice sizes", "why_tests_cant": "stationarity is a statement about a sum over all states and all choices, of which there are more than 2^64 from a single diagram; an error in one ratio of probabilities shifts results slightly and cannot be told from statistical noise", "anchors": ["src/module/markov/markov.cpp: Markov::Hop and all updates", "src/module/markov/markov.h: Markov", "src/module/markov/gamma3_updates.cpp: updates of composite lines", "src/utility/rng.h: RandomFactory"]}
{"id": "C87", "title": "Measurements are unbiased", "statement": "What is recorded for a diagram is its phase over the reweighting factor of its order; diagrams occur with the modulus of their weight times the reweighting factors. So on average every diagram counts with its complex weight, in self energy, polarisation, three-point functions and normalisation, and the ratio of data and normalisation does not depend on the reweighting factors. With the norm of the estimator, the sum over all diagrams of first order, over the normalisation from order 0, is the first-order self energy and polarisation that Python computes from the same arrays.", "quantifier": "for all consistent diagrams of any order, all positive reweighting factors, all sets of diagrams; first order: all arrays (no instantaneous interaction within a site, interaction symmetric under exchange of its ends), all lattices, numbers of time bins, spins, sublattices and time bins, all good diagrams of order 0", "why_tests_cant": "the statement is about a sum over some 2^64 diagrams of first order and over all diagrams of higher orders; a wrong factor in norm, reweighting or proposal shifts results of a finite run by an amount that can be told from noise only if the exact answer is known", "anchors": ["src/module/markov/markov_monitor.cpp: MarkovMonitor::Measure", "src/module/weight/weight_estimator.cpp: WeightEstimator::Allocate, Measure, MeasureNorm", "src/module/weight/weight.cpp: Norm::NormFactor", "src/module/markov/markov.cpp: Markov::JumpToOrder0, JumpBackToOrder1", "dyson/calculator.py: SigmaSmoothT_FirstOrder, Polar_FirstOrder"]}
{"id": "C88", "title": "The linear solver and the check of the denominators", "statement": "lu_factor succeeds exactly if no matrix of the array is singular and raises ValueError otherwise; lu_det gives the determinants; lu_solve gives the only solution of A X = b, leaving b alone, whatever the order of the elements in memory. lu_factor leaves its argument alone in lu_fast unless it is in Fortran order. Check_Denorminator raises DenorminatorTouchZero exactly if a denominator has a negative determinant; for interactions and polarisations with the symmetry of correlation functions all determinants are real. The Dyson equations are solved with this solver.", "quantifier": "for all arrays of complex square matrices of any size and number, all memory layouts, all right-hand sides; all lattices, numbers of time bins and functions for the Dyson equations", "why_tests_cant": "the tests factorise a few random arrays in C order; row interchanges, singular pivots, memory layouts and the order of complex determinants are a matter of all matrices", "anchors": ["dyson/solver/lu_fast.pyx: lu_factor, lu_solve, lu_det", "dyson/solver/lu_slow.py: lu_factor, lu_solve, lu_det", "dyson/weight.py: LUFactor, Weight.LUSolve", "dyson/calculator.py: Check_Denorminator, W_Dyson, G_Dyson"]}
{"id": "C89", "title": "Runs in terms of the words of the generator", "statement": "If the 32-bit words of the generator are independent and equally likely, then after n calls of an update, from any consistent diagram, the probability of any event that does not depend on the storage of the diagram differs from that of the Markov chain with even choices (C86) by at most n (20050 + Lx + Ly + NSublat) / 2^32. One step keeps the target distribution up to this bound. A step uses at most nine words. The value k of n possible ones is chosen by 2^32 / n words, rounded down or up; all are equally likely exactly if n divides 2^32.", "quantifier": "for all parameters, all consistent diagrams, all numbers of steps, all events; all words", "why_tests_cant": "the bias is of the order of 10^-6 per step, out of reach of statistics; there are 2^288 sequences of words per step", "anchors": ["utility/rng.h: RandomFactory::irn, RandomFactory::urn", "module/markov/markov.cpp: Markov::Hop, Markov::RandomPickK, Markov::RandomPickTau, Markov::RandomPickSite, Markov::RandomPickDir", "module/diagram/component_bundle.h: Bundle::RandomPick"]}
{"id": "C90", "title": "Random words: generator, seeds, saving and restoring", "statement": "For every seed the words that the updates get are those of the Mersenne twister of the C++ standard. The generator that a process reads from the parameter file is the one that was saved, so the random words go on where they stopped, and with the saved diagram the whole run does. Without a saved generator the words belong to the seed of the file. A text with fewer than 625 numbers ends the process. Processes with different seeds have different words, which shows within the first 624 words; 624 consecutive words determine all later ones; the words never become zero for 624 calls in a row; the sequence of words repeats from its first word on.", "quantifier": "for all seeds, all states of the generator and of the new process, all numbers of words drawn before saving, all continuations of the run, all texts", "why_tests_cant": "2^19937 states of the generator and 2^32 seeds; equality and inequality of infinite sequences", "anchors": ["src/utility/rng.h: RandomFactory", "src/utility/rng.cpp: Reset, operator<<, operator>>, ToString", "src/utility/pyglue/type_cast.cpp: Convert(Object, RandomFactory&), CastToPy(const RandomFactory&)", "src/module/parameter/parameter.cpp: ParaMC::FromDict, ParaMC::ToDict", "job_class.py: JobMonteCarlo.to_dict"]}
{"id": "C91", "title": "One generator drives the whole run", "statement": "The updates draw their words one after the other from one generator. Each call does what the update with given words does, draws as many words as its table says (at most eight), and a call that is refused at once draws none. Any number of hops from a reachable state ends, takes between n and 9 n words and depends on no others; hopping in two parts is hopping in one. A simulation is decided by its parameters and its seed, whatever memory contained. A run that is stopped and continued by new processes any number of times has the same estimators, diagram, files and generator as the run without interruptions, and can always go on.", "quantifier": "for all parameters and seeds, all reachable states and states of the generator, all updates, all numbers of hops and sweeps, all numbers and times of interruptions in states of order at least one without composite line, all memory contents of the new processes", "why_tests_cant": "All runs of any length with any pattern of interruptions; the number of words drawn depends on the state and on the words", "anchors": ["src/module/markov/markov.cpp: Hop, all updates, RandomPickK, RandomPickTau, RandomPickSite and others", "src/module/markov/gamma3_updates.cpp", "src/module/diagram/component_bundle.h: RandomPick", "src/utility/rng.h: RandomFactory::urn, irn", "src/main.cpp: MonteCarlo", "src/module/parameter/parameter.cpp: ParaMC::FromDict, ToDict"]}
{"id": "C92", "title": "What double precision does to choices, times and bins", "statement": "With every operation rounded to double precision as the program does: random numbers are exact; the update that is chosen is the exact one for every word, and one is always chosen; times lie in [0, Beta), are ordered as the exact ones and have a relative error of at most 2^-53; the bin of the difference of two times drawn at the same temperature lies within the table, for one-particle functions and for three-point functions, and is the exact one unless the exact difference lies on the border of two bins (then it is the exact one or the one below); the bin of the centre of a bin is that bin.", "quantifier": "for all words of the generator, all inverse temperatures between 2^-400 and 2^400, all numbers of bins below 2^31 (same bin: below 2^17)", "why_tests_cant": "2^64 pairs of words for each temperature and number of bins; wrong indices appear only for differences of one unit in the last place", "anchors": ["src/module/markov/markov.cpp: Hop, Reset, RandomPickTau", "src/utility/rng.h: RandomFactory::urn", "src/module/weight/index_map.cpp: TauIndex, IndexToTau", "src/module/weight/gamma3.cpp: GammaGClass::Weight, Measure, GammaWClass::Weight, Measure"]}
{"id": "C93", "title": "Susceptibility from the three-point function", "statement": "With the option Gamma3, on lattices of one sublattice: the saved BKChi, as a function of lattice vector and time, is the one solution of the equation of the random phase approximation whose bare response is -1/2 of the difference of the three-point function GGGammaG of both spins at equal times, with the exchange constants of the bare interaction; the calculation fails exactly if this equation does not have exactly one solution, and is never given up with DenorminatorTouchZero; for a three-point function without corrections and in zero field BKChi equals the susceptibility Chi with the polarisation of first order.", "quantifier": "for all lattice sizes, numbers of bins and temperatures, all three-point functions, all bare interactions with the spin structure of the exchange interaction, in any domain", "why_tests_cant": "BKChi is compared with nothing in the program; its polarisation breaks the rotation symmetry that the equations for Chi rely on, so that the agreement of the two ways is an identity between two tensor equations", "anchors": ["dyson/gamma3_calc.py: FullGGGammaG, Calculate_Chi, Check_Denorminator, SimpleGG", "dyson/main.py: Measure", "dyson/calculator.py: Calculate_Denorminator, W_Dyson, Polar_FirstOrder"]}
{"id": "C94", "title": "Momenta along a path and the staggered susceptibility of the triangular lattice", "statement": "GetKVecAlongPath gives all momenta of the lattice (around the given centre, up to one reciprocal lattice vector) that lie on the segment between two momenta, and only momenta whose distances to both ends exceed their distance by less than 0.001, whatever was asked before. StagChi of the triangular lattice is the susceptibility at frequency zero and at the corner (4 pi/3, 0) of the Brillouin zone, where neighbours have the phases of the order with three sublattices.", "quantifier": "for all lattices and sizes, all paths and centres, all sequences of calls; for all susceptibilities, temperatures and numbers of bins, sizes up to 7000", "why_tests_cant": "the list depends on sizes, path, tolerance and a cache; with sizes that are not multiples of three the program reports the susceptibility at another momentum without a message", "anchors": ["dyson/lattice.py: GetKVecAlongPath, __GetKVecBetween, __Distance, __Triangular", "dyson/measure.py: Measure"]}
{"id": "C95", "title": "Saving and restarting the Dyson part", "statement": "Signals that arrive while a version is saved never leave half of it: the files of weights, parameters and observables all belong to one version, no signal is lost, and after the block every signal is handled by its own handler. After a crash at any moment the next process loads complete weights together with the parameters of the same version or the one before. The file of observables has one value per version for every observable, over all restarts.", "quantifier": "for all executions with any signals at any moments, any handlers, any number of versions and processes, a crash after any number of system calls", "why_tests_cant": "signals and crashes can come between any two steps; the windows are a few instructions or system calls wide", "anchors": ["dyson/logger.py: DelayedInterrupt", "dyson/main.py: Measure, Dyson, __main__", "dyson/parameter.py: Save, LoadPara, BroadcastMessage", "dyson/measure.py: Observable", "IO.py: SaveDict, SaveBigDict"]}
{"id": "C96", "title": "Reported energy, sum rule and magnetisation", "statement": "Energy, SumRule and Mag^2 density in the file of observables are the average energy per site in units of the nearest neighbour coupling, the average square of one spin component, and the average square of the magnetisation over the square of the number of sites.", "quantifier": "for all lattices and sizes, all states of the spin model with periodic boundary conditions and uniform isotropic correlations, all algebras of spins and averages", "why_tests_cant": "the program has nothing to compare these numbers with; a wrong constant factor is not seen in any single run", "anchors": ["dyson/measure.py: Observable.Measure", "dyson/model.py: BareFactory.NearestNeighbor", "dyson/lattice.py: Lattice"]}
{"id": "C97", "title": "Counters and timers in long runs", "statement": "However long the main loop of the Monte Carlo part runs, its timers are asked at least once in a hundred passes, run out at the first question after their interval and not before, and its counters hold the number of events counted.", "quantifier": "for all numbers of passes, all sequences of clock readings, all sequences of measured diagrams, all intervals", "why_tests_cant": "overflow of the counters needs 2^31, 2^32 or 2^53 passes; clock jumps do not happen in tests", "anchors": ["src/main.cpp: MonteCarlo", "src/utility/timer.cpp: timer::check, timer::restart", "src/estimator/estimator.cpp: Estimator::Measure"]}
{"id": "C98", "title": "Basis of functions of imaginary time", "statement": "The script that makes the basis files samples the kernels of fermions and bosons at the middles of the time bins, and stores orthonormal functions that represent these kernels better than any other functions of the same number; coefficients in this basis can be turned into functions of time and back.", "quantifier": "for all temperatures, numbers of bins, numbers of functions, frequencies and times, all functions of two times, all results of the linear algebra routines that agree with their documentation", "why_tests_cant": "optimality is a statement about all other bases; the error of the sampling times vanishes at the temperature one", "anchors": ["basis.py: SVDBasis.FermiKernel, BoseKernel, GenerateBasis", "dyson/gamma3_calc.py: GetBoseBasis, FitW, FitGammaW, RestoreGammaW"]}
{"id": "C99", "title": "The report on the updates", "statement": "The report printed during a run shows, for every update and order, exactly the proposals and acceptances of this process, with ratios between zero and one, and never more calls than the counter. The lines on pairs of updates compare each update with its reverse at the order to which it leads. The summations of the pairs obey conservation laws: the pairs for interaction lines together follow the number of lines of the diagram, the pairs for instantaneous lines their number, the pair for the measured line its kind; so three of the four deviations agree up to the number of orders for every choice of transition probabilities.", "quantifier": "for every reachable simulation, with changes of the reweighting, annealing and restarts, every number of hops and all random numbers", "why_tests_cant": "conservation laws over unboundedly many steps of a random walk; a deviation seen in one run does not tell whether it could be larger", "anchors": ["src/module/markov/markov.cpp: PrintDetailBalanceInfo, _DetailBalanceStr, _CheckBalance", "src/main.cpp: MC"]}
{"id": "C100", "title": "The drawing of the model", "statement": "The file Coordinates and the list of sites behind every Fourier transformation contain each site of the lattice exactly once, at its index, with its coordinates and sublattice. A site is drawn at its place in the periodic lattice, moved so that the cell zero is in the middle; different sites are drawn at different places; neighbours of the cell zero are drawn beside it. The interaction list has each interaction of the cell zero once, with the indices and places of the list of sites, and the lines of the cells have each pair of sites of a cell once. The Fourier transformation over the list of sites is the sum over cells and sublattices.", "quantifier": "for every lattice of one to three dimensions, every number of cells and sublattices, every table of bare interactions, every data and momentum", "why_tests_cant": "an index or a wrap-around that is right for one size or number of sublattices can be wrong for another; the drawing is only looked at", "anchors": ["dyson/lattice.py: Lattice.GetSitesList, GetRealVec, __Shift, FourierTransformation", "dyson/model.py: BareFactory.ToDict, __GetBareWList", "dyson/weight.py: IndexMap.GetAllCoordi, LatIndex", "dyson/main.py: IO.SaveDict(\"Coordinates\")"]}
{"id": "C101", "title": "The log of a simulation", "statement": "Every message of a program is added at the end of the log file that was last configured before it and of the screen, if its level is not below the configured one, in the order of the messages and with the name of the logger, the level, the time, the source and the text. Nothing that is in a log is changed and no other file is touched. A job that stops with ABORT or THROW has the message of its error at the end of its log and of the screen. What is said before the environment of a job is built goes to test.log, what is said after it to the log of the job.", "quantifier": "for every sequence of configurations and messages of the four levels, every content of the files before, every set of files that can be opened, every uninitialised value of the members", "why_tests_cant": "the order of closing and opening of the stream, its error flags and the read of an uninitialised member depend on the history of the configurations", "anchors": ["src/utility/logger.cpp: Logger::configure, Logger::print", "src/utility/logger.h: LOGGER, LOGGER_CONF, LOGSTR", "src/utility/abort.h: THROW, ABORT", "src/environment/envMonteCarlo.cpp: BuildNew, Load", "src/test.cpp: RunTest"]}
{"id": "C102", "title": "The text of vectors and momenta", "statement": "A vector of integers that is written to a stream and read back is the same vector, and what follows it stays in the stream. A vector is read exactly from the texts of its components with commas between, in which spaces may be put before the numbers and the commas; any other text, a number out of range and a text of fewer components set the flag of a failure. Two vectors of integers compare as equal exactly if they are equal, two of real numbers if all components differ by less than the tolerance. A momentum is read back from its text.", "quantifier": "for every number of components, every vector, every text, every content of the vector and of the uninitialised separator before, everything that follows", "why_tests_cant": "signs, spaces, range limits, the end of the text and the uninitialised separator combine in unboundedly many texts", "anchors": ["src/utility/vector.cpp: operator<<, operator>>, operator==", "src/utility/vector.h: Vec", "src/utility/momentum.cpp: operator<<, operator>>", "src/utility/utility.cpp: Equal"]}
{"id": "C103", "title": "Bundles of estimators", "statement": "A bundle has the estimators that were added to it, in that order and with different names, whatever was measured, cleared or loaded between, and the access by the name of one of them gives this one; a name that is there already cannot be added again. The counters of the orders that a monitor has saved are read back with history, sum, norm and the mean that belongs to them, also if the number of orders is another one: orders that were not saved begin anew, orders beyond the new number are left out. A monitor cannot be built or loaded twice. Where failures are not allowed, a missing entry ends the program; where they are, an estimator without an entry is as before.", "quantifier": "for every sequence of additions, measurements, clearings and loadings, every name, every contents of the estimators, every two numbers of orders and every uninitialised memory", "why_tests_cant": "names, places and saved entries are kept in separate containers that must agree after any sequence of operations and for any pair of numbers of orders", "anchors": ["src/estimator/estimator.cpp: EstimatorBundle::AddEstimator, operator[], FromDict, ToDict, ClearStatistics", "src/module/markov/markov_monitor.cpp: MarkovMonitor::BuildNew, FromDict"]}
{"id": "C104", "title": "First order of the screened interaction", "statement": "W_FirstOrder gives, at every wave number and frequency, the product of the bare interaction, the polarisation and the bare interaction, summed over both inner spins and sublattices, for functions that conserve the spin; its other elements are zero. The list of spins that it runs over has every combination that conserves the spin once and no other one.", "quantifier": "for every number of sublattices and all arrays of the bare interaction and of the polarisation", "why_tests_cant": "the elements are sums over lists of spins with a filter; the unit tests look at the list only and not at the values", "anchors": ["dyson/calculator.py: W_FirstOrder", "dyson/weight.py: IndexMap.IsConserved, GetConservedSpinTuple, GetSpin4SimilarTuples"]}
{"id": "C105", "title": "Differences of sites in the tables of three-point functions", "statement": "CoordiIndex of r_index.py maps the indices of two sites to the index of the site whose coordinates are the differences of theirs modulo the lengths of the lattice; it is the number that the Monte Carlo program gives to the pair (with the sites in the other order). The index of a site gives its coordinates and these give the index. Differences do not depend on the origin, and seen from any site, or to any site, every difference occurs exactly once.", "quantifier": "for every number of dimensions, all lengths and all pairs of sites", "why_tests_cant": "the lengths, the dimension and the pairs of sites are unbounded; the errors are at the boundary of the lattice and depend on the strides", "anchors": ["dyson/r_index.py: Vec2Index, Index2Vec, Shift, CoordiIndex", "src/lattice/lattice.cpp: Lattice::CoordiIndex"]}
{"id": "C106", "title": "Inverses of three by three matrices", "statement": "The function inverse of the tool on matrix inverses gives, for every three by three matrix that has an inverse, this inverse, from both sides; it divides by zero exactly if there is none.", "quantifier": "for all three by three matrices over any field of characteristic zero", "why_tests_cant": "the script prints the product for one random matrix; the claim is about all entries and about which matrices are singular", "anchors": ["tool/matrix_inverse.py: adjoint, inverse_transpose, inverse, dot"]}
