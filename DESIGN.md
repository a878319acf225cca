# Formal model of Feynman_Simulator: design

Source under study: `/repo` (C++ diagrammatic Monte Carlo code, plus a few Python helpers).
Everything here is read from the source text; nothing from `/repo` is compiled or run.

## 1. Trusted base

* Lean 4.33.0 kernel, and Mathlib as installed.
* Axioms: only `propext`, `Classical.choice`, `Quot.sound`. `lean/Verif/Axioms.lean` fails the build
  if a theorem of `MANIFEST.json` depends on anything else. No axioms of our own, no `sorry`, no `native_decide`, no `bv_decide`.
* The reading of the C++ source: each model definition cites file and lines.
  A mistake in this transcription is not detected by Lean.

### What is modelled

* Integer and pointer logic exactly: momenta with the single-wrap `Shift`, containers with the
  swap-with-last removal, hash tables, flags, guards, order of reads and writes.
* Pointers are cell numbers of the fixed arrays of `MAX_BUNDLE = 20` cells. A value `>= 20` is not a
  valid address (null or uninitialised). Dereferencing it is the distinct outcome `Res.ub`.
  `ABORT` is the distinct outcome `Res.abort`. Out-of-range array access, modulo zero and picks from
  an empty container are `Res.ub`.
* Random numbers: each call gets an arbitrary sequence of 32-bit words; `urn` and `irn` are the
  formulas of `rng.h` over these words. Theorems quantify over all words.
* Real and complex numbers: the Markov model is generic over an ordered field `Q` (real parts, times,
  probabilities) and a field `F` (weights) with an absolute value `F -> Q` and a multiplicative phase.
  This covers `Q = R`, `F = C` (instance given) and computable instances for concrete runs.
* Weight tables are arbitrary functions; the index arithmetic that addresses them is modelled
  separately and proved in range on the domain the Markov chain stays in.
* The Python part (`dyson/`): exact arithmetic, arrays as values (aliasing is not modelled). numpy's FFT is the discrete Fourier sum with a phase function of period
  one (`Phase`), the linear solver is any function that solves what it accepts and rejects only singular matrices (`Solver.Good`); both are contracts, with instances. The program's own solver is modelled in C88 with LAPACK replaced by the loops of its reference implementation in exact arithmetic, and fulfils the contract; LAPACK itself (blocking, rounding, NaN) is trusted.
* The glue to Python (C82, C83): an object is its value or its address with its count; what the C functions of CPython 2.7 return, steal and borrow is written into the model from its source and its manual.

### What is not modelled

* Floating point rounding, overflow to inf/nan; all arithmetic is exact. Exception: C92 models the rounding of choices, times and time bins.
* Machine integer overflow except where it is the point of a property (unsigned padding).
* The C++ library is modelled only where C90 needs it (engine, extraction of numbers). The Python interpreter (beyond the functions of its C interface named in C82 and C83), file formats, logging text.
* The structs-of-arrays layout of the model: a field `x->f` of cell `x` is the function value `f x`.
* Time, processes and signals only as far as needed for the event-level models.

## 2. Plan per property

| id | model | proof method |
|----|-------|--------------|
| C01 | `Diag`, all updates of markov.cpp and gamma3_updates.cpp | invariant by induction over hops (`Topo`) |
| C02 | same, momenta in `Int` with `Shift` | invariant; equations pushed to `ZMod 20001` |
| C03 | same | invariant (`SpinOk`) |
| C04 | hash tables as functions, ABORTs as outcomes | invariant (`HashOk`) |
| C05 | cached weights, product over live lines | invariant (`WeightOk`) |
| C06 | permutation of vertices along outgoing lines | invariant with `Equiv.Perm.sign`; cycle count by `sign_of_cycleType` |
| C07 | `Res` outcomes | progress theorem: every hop returns `ok` |
| C08 | measuring flag and pointers | invariant |
| C09 | delta lines | refutation by a reachable witness run; `_partial` invariant for runs without the order-0 jump on a delta line |
| C10 | order and counts | invariant |
| C11 | each update returns a tag skipped/rejected/accepted | case analysis of each update |
| C12 | acceptance test | invariant |
| C13 | worm flags | invariant |
| C14 | composite flags and status word, slot handles | invariant |
| C15 | domains | invariant |
| C16 | update cores with explicit choices and computed ratio; proposal densities in `Spec/Reverse` | for each move: the reverse move is valid, returns to the same state up to memory cells, acceptance ratio equals target ratio times proposal ratio |
| C17 | `CheckDiagram` as a function | completeness from the invariant; soundness by counting |
| C18 | momentum conservation + non-zero W momentum | consequence of the invariant |
| C19 | `Bundle` | refinement to finite sets by induction over operations |
| C20 | `Bundle.add` | refuted: witness run reaches `ub`; `_partial` for below capacity |
| C21 | `shift`, momentum operations | congruence lemmas; refutation for large multiples |
| C22, C23 | lattice | integer arithmetic |
| C24, C25 | index map | mixed radix arithmetic, floor of real division |
| C26 | weight look-up overloads | case analysis |
| C27, C28, C29 | gamma3 tables | arithmetic; C29 refuted for two channels, `_partial` for the rest |
| C30, C31, C32 | estimator | induction over operations |
| C33, C34 | weight estimator | arithmetic; C34 refuted, `_partial` for what holds |
| C35 | message handling | induction over messages |
| C36 | interrupt handler as state machine over event traces | induction; last clause refuted |
| C37 | timer | induction over check calls |
| C38, C39 | `toDict`, `fromDict`, `fixDiagram` | round trip up to renaming of cells; refuted for stale worm pointers and order 0 |
| C40 | complex class over a field | `ring`/`field_simp`; mixed sums refuted |
| C41 | rng | arithmetic |
| C42, C43 | monitor | case analysis; C43 refuted for the late failure return |
| C44 | ChangeRLoop | loop invariant on the visited prefix of a permutation cycle |
| C45 | Hop selection | order argument |
| C46 | dictionary | induction over operations |
| C47 | padding with unsigned width | refuted for long strings; `_partial` for short ones |
| C48 | scope guard | induction over scope events |
| C49 | file replace | all crash prefixes of the write protocol |
| C50 | sites of vertices | invariant by induction over hops |
| C51 | estimator and histogram save/load | round trip |
| C52 | main loop with hops, measurements, timers, messages | invariant by induction over passes |
| C53 | all updates, save, load, measure | simulation relation up to a permutation of cells, preserved by every update (`Proof/Sim*.lean`) |
| C54 | constructor, `BuildNew`, all updates, measure | same relation; the dictionary of a new diagram does not depend on memory |
| C55 | all updates with their table look-ups | same relation between runs with different tables |
| C56 | all updates, start, load | sets of vertices that no line leaves: preserved by every update as long as they contain both worm ends, which spin flow puts in the same piece (`Proof/Connect.lean`) |
| C57 | same | flow of particle number and momentum out of a set left by two lines only, distinct momenta modulo 20001 |
| C58 | all updates, `Hop`, generator | each accepted update has a reverse update with positive ratio (C16) whose choices are words of the generator because times stay on its grid; updates carry over to the same state in other cells (`Proof/Transfer.lean`); induction over the hops. Partial: see C16 for instantaneous lines with unequal times |
| C59 | `BuildNew`, `Save`, `Load`, parameter and statistics dictionaries, `MonteCarlo` | round trip of each dictionary; the simulation relation of C53 extended to processes (`Proof/EnvSim.lean`) and shown to hold between the saved and the loaded process; induction over passes and over the history of the process (`Alive`). Partial: order zero, temperature changed both before and after the restart, three-point functions |
| C60 | `MergeFromDict`, `CollectStatis` with exceptions as outcomes that keep their side effects; `ToDict` of the histograms | invariant: the collected data are the sums over the files merged so far; composed with C42 for whole processes. Partial: what a failed file leaves behind |
| C61 | `UpdateWeight` | induction over the orders |
| C62 | `Hop`, counters of all updates | a record of the calls of a run; conserved balances from the effect of each update |
| C63 | `Weight.FFT` on arrays over lattice and bins, discrete Fourier sums with an abstract phase function | each transform commutes with the representation in each domain; induction over calls; complex exponentials for the explicit formula |
| C64 | `G_Dyson`, `W_Dyson`, solver as a contract | convolution theorem with anti-periodic and periodic wrap and half-bin shifts; bijectivity of the transform; unique solvability per momentum and frequency |
| C65 | `Merge`, `RollBack`, the loop of `Dyson` with its failure places | refinement of `Data`/`AccuData`/`Norm` to a ledger of contributions; induction over versions; refuted for four patterns of failures |
| C66 | neighbour lists and bond loop of `__SpinModel` for eleven lattices, `CoordiIndex`, numpy's negative indices and `IndexError` caught in `Build` | the specification ranks real distances of the infinite lattice; displacements become integer quadratic forms; lists proved equal to the shells; folding with images; refuted for thin cells, `J2` on two lattices, Hubbard interaction |
| C67 | reciprocal vectors, `GetRealVec`, `FourierTransformation` over real geometry | duality by calculation; translation invariance of the sum for waves that fit; refuted for three lattices with unequal sizes and for the staggered momentum on one |
| C68 | `Measure`: order of `FFT` calls, `UnifChi`, `StagChi` | C63 for each call, then evaluation; `StagChi` shown to use the first time bin |
| C69 | `Mu`, `BareG` of `__SpinModel`, `<Sz>`, `<n>`; spec: Fock space of sites, spin operators as matrices, polynomials in them as a free algebra | sums over occupation numbers; exchange of empty and full sites changes the sign of their weight, the matrices of spin polynomials commute with it; exponential of the Hamiltonian; refuted for option `ImW` |
| C70 | `DecreaseField`, `RevertField` and the ends of a round in `main.py` | induction over rounds; refuted if the field is not a multiple of the step, or if the first component is zero |
| C71 | `FromDict` of tables, shapes and index functions of dyson/weight.py, `WeightAccu` | both index formulas equal the position in C order; injectivity of positions; refuted for arrays of other shape or type |
| C72 | the three first order functions of dyson/calculator.py; link from arrays through `FromDict` to the tables of the simulation | topology and sign at order one from the invariant, locality of propagators (C50), C71 for the tables; refuted with an interaction within a site, and for propagators between sites |
| C73 | loops of `SymmetryMapping`, compression and its inverse, dictionary, `WeightFromDict`; sets as lists without repetition, `is` as comparison of small integers | loop invariants over the list of pairs; group property of the mirror matrices; flattening arithmetic; refuted for more than 257 bins, for triangular lattices of unequal sides and for reversed times in the Monte Carlo program |
| C74 | statistics part of both three-point classes, `SaveBigDict`/`LoadBigDict` with the element type of the arrays, three-point part of `CollectStatis` | induction over the operations with discounted sums, injectivity of the cell index, induction over the files; refuted for the interaction after a restart and for incomplete files |
| C75 | queues, `check_status` (list changed during traversal), `submit_job`, main loops, signal handler, numbers of Monte Carlo processes; time as the number of calls of `check_status` | invariant over all events; termination by a measure of remaining work; the signal, `CPU = 0`, `statis_total`, two Monte Carlo classes and a larger `__Duplicate` are refuted |
| C76 | the functions of `gamma3_calc.py` that make the new `GGGammaG`, one sublattice, two axes, exact numbers, `MaxTauBin == MaxTauBinTiny` | refinement: transforms to convolutions, then to sums over the integers with (anti)periodic functions; induction over the updates for the symmetry; necessity of the particle-hole symmetry by a counterexample |
| C77 | the loop of `dyson/main.py` with the branch without statistics: first-order functions, merging, both Dyson equations, roll back; `EnforceSumRule` off | invariant by induction over the versions: C65 says what the merged functions are, C64 that `G`, `W` are the unique solutions of the Dyson equations, and each symmetry maps solutions to solutions; spectrum of the exchange matrix for the instability; bare functions from C66, C69 |
| C78 | the loop as in C77 | what a version does, as equations between the shown functions (C64, C65); solutions of the Dyson equations depend continuously on the self energies; weighted means with weights `v/(v+10)` converge to the limit of what is merged (the sum of the weights diverges); uniqueness of limits; for the converse induction over the versions with records of one function |
| C79 | `Add_ChiTensor_ZerothOrder`, `Calculate_Chi`, the lines of `Measure` for the susceptibility, the loop for the sum rule as a relation | the contraction with the matrix of a component turns the exchange interaction into a number (finite sums over four pairs of spins), so it maps solutions of the equation of the tensor to solutions of the reduced equation; uniqueness by lifting a solution back, in the other direction by splitting a tensor into four components and finite dimension; free spins by the formulas of C69; the loop by induction, its end for free spins by a contraction `u ↦ √u` |
| C80 | `__BuildBareG` statement by statement with exceptions, `__FermiKernel`, `Pauli`; `numpy.linalg.eig` is a parameter with the contract of its documentation | the spec is the equation of motion and the jump; in momentum space it splits into levels, each solved by the product with an exponential; the eigenvalues are real because the Hamiltonian is Hermitian; the error of the kernel by cases; hopping lists by the lemmas of C66 |
| C81 | the statements of the Kitaev branch, `__BuildShortRangeInteraction` with the list of names, `Haldane` with what can fail before | the spec has the directions of the bonds from the geometry and the operators from the Pauli matrices; sums of statements as sums over images with the lemmas of C66 |
| C82 | the functions `CastToPy` and `Convert` of every type as a pair `Conv`, containers as functions of the pair of their elements; a Python object is its value; `Convert` gets the old value of the variable | round trip by induction on the types; `std::map` through insertion into sorted lists in any order; decision tables for the kinds; what the code does beyond is refuted with witnesses |
| C83 | counts of objects, the stack of instances of `Object`, references owned by plain pointers and by the interpreter; every member and the functions of the glue as calls on this state; use of a freed object is undefined | invariant `Owned` by induction over executions; functions of the glue by following the calls, containers by induction with the conversions of the elements as parameters |
| C84 | the updates of C10 and the hops of C45; positions, instantaneous lines and marks as functions on the cells in use | words for each single change as for C58; induction over the lines and vertices in four stages: all lines continuous, times, loops, instantaneous lines |
| C85 | Python objects of 2.7, numpy arrays, HDF5 groups and datasets as trees; `_dump_dict`, `load_dict`, `SaveBigDict`, `LoadBigDict`; files by path | invariant of the group during the loop over the items (names taken, what is loaded from them), mutual induction over values and dictionaries; characterisation of what can be saved; fixed point for a second save |
| C86 | finite set of all moves of a diagram with their probabilities (times on the grid of the generator), transition probabilities up to cells | pairing of every accepted move with the move of the other state that undoes it; injectivity of the pairing from the uniqueness of momenta; sum over the pairing; representatives of the neighbours by induction |
| C87 | contribution of a diagram times its distribution; sums over finite sets of diagrams; the sector of orders 0 and 1 with all jumps between them | cancellation of the factors for each diagram; bijection between diagrams of first order and pairs of a diagram of order 0 and a jump; evaluation of the landed diagram with C72; counting of the pairs of times of the generator in a time bin |
| C88 | `lu_factor`, `lu_solve`, `lu_det` of both solvers with LAPACK's reference loops (`zgetf2`, `zlaswp`, `ztrsm`) over any field; memory of arrays in C and Fortran order and the pointers LAPACK gets; `Check_Denorminator` with numpy's order of complex numbers | loop invariant P A = L U on the columns done; triangular solves by induction; determinant of a product; offsets in memory do not overlap; Hermitian transforms give real determinants; the solver fulfils the contract of C64 |
| C89 | share of the tuples of nine words per step for which `Hop` leads to an event, against the transition probabilities of C86; how the words become choices (`irn`, `urn`, selection of the update) | counting of remainders and of multiples of 2^-32 below a bound; nested averages whose errors add, for each update; the average is invariant under relabelling, so the errors of the steps add by induction |
| C90 | `std::mt19937` of the C++ library of GCC with words of 64 bits and the array overwritten in place; text output and extraction of numbers from a stream with its flags; `Convert`, `CastToPy`, the lines of `FromDict` | loop invariant of the array against the recurrence on an infinite sequence of 32-bit words; digits and fold over the 625 numbers for the round trip; number of digit sequences left as a measure for incomplete texts; each step of the recurrence and of the mixing is injective, so sequences can be followed backwards to the seed |
| C91 | all updates once more, now with words drawn one after the other from a state, in the order of the source and with the lazy `prob >= 1.0 \|\| urn() < prob`; `Hop` on the generator of C90; main loop of sweeps and measurements with stops | each update equals the one with words at fixed places on all calls that return, and its count of words is that of a table; results depend only on the words below the count; simulation of C53 extended by equal counts; induction over the pattern of interruptions, relating each loaded diagram directly to the uninterrupted one |
| C92 | rounding of rationals to IEEE doubles (nearest, ties to even, subnormal numbers), and with it `urn`, `RandomPickTau`, the sums of the probabilities in `Hop`, `TauIndex`, `IndexToTau`, the time indices of the three-point functions | relative error of each operation, exactness on multiples of powers of two; the borders of the sums are no multiples of 2^-32 for odd numbers of updates and their error is far smaller; distance of exact positions to borders is a multiple of 2^-32 |
| C93 | `FullGGGammaG` with `Calculate_Denorminator`, `Calculate_Chi`, transforms to lattice vector and time | the polarisation acts on the difference of the spins up and down only; contraction with `SzSz` and its right inverse carry the tensor equation to the equation of numbers, also for uniqueness; `FullGGGammaG` is the second half of `W_Dyson` with another polarisation (C64, C79) |
| C94 | `GetKVecAlongPath` with its cache, `StagChi` of the triangular lattice; real numbers | triangle inequality for the detour, lower bounds of it beside and beyond the segment, order of the product of ranges for the last element; C63 for the transforms |
| C95 | `DelayedInterrupt` as steps on handlers with signals between them, the system calls of a version, the start of a process, the names appended by `Observable.Measure` | induction over executions (handlers and files as functions of the own steps of a living process), over versions and over processes; all crash prefixes |
| C96 | the loops of `Observable.Measure` over the neighbour lists, `SumRule`, `Mag^2 density`; spins of any algebra and any linear average | the lists are the nearest neighbours of the lattice in space (C66), linearity of the average, translations; shift of sums over periodic cells |
| C97 | the counter of passes, `timer::check`, the local arrays `sigma` and `polar`, counters of the type `double` | division with remainder across the wrap of 32 bits; induction over the calls of a timer and over the measurements; rounding to the nearest double (C92) |
| C98 | `FermiKernel`, `BoseKernel`, grids of frequency and time, `GenerateBasis` for any `svd` and `inv` with the documented properties, `FitW`, `FitGammaW`, `RestoreGammaW` | inequalities for exponentials; sums of squares: weights of the singular values are between zero and one and add up to the number of functions (Ky Fan); division with remainder |
| C99 | `_DetailBalanceStr`, `_CheckBalance`, `PrintDetailBalanceInfo` as lists of printed numbers; the chain of C62 | a closed form of the loops; invariants of all reachable states: cells of the tables that stay zero, differences of acceptances minus numbers of lines; instantaneous lines are counted through the effect of every update |
| C100 | `GetAllCoordi`, `LatIndex`, `__Shift`, `GetRealVec`, `GetSitesList`, `__GetBareWList` and the loops of `FourierTransformation`, with the assignments by index | the indices of the assignments are the numbers from zero in order (induction over the dimensions), so that the filled list is known; residues for the places |
| C101 | `Logger::configure` and `Logger::print` with the stream, its error flags, the files as texts and the screen; `THROW` | invariant of the logger (last configuration, open file, flags) over every sequence of uses; texts by induction |
| C102 | `operator<<`, `operator>>` and `operator==` of `Vec`, those of `Momentum`, with extraction of `int` and `char` from a stream and its flags | induction over the components in both directions: texts that are read, and what a successful reading says about the text |
| C103 | `EstimatorBundle` with `AddEstimator`, `operator[]`, `ClearStatistics`, `ToDict`, `FromDict`; the bundles of `MarkovMonitor::BuildNew` and `FromDict` | invariant over all sequences of uses (map and vector agree), induction over the orders; refinement of the saved entries |
| C104 | `W_FirstOrder` at one wave number and frequency, `IsConserved`, `GetConservedSpinTuple`, `GetSpin4SimilarTuples` | unfolding of the loop over the spins to a closed form for all arrays; comparison with the product; refuted between different spins |
| C105 | `Vec2Index`, `Index2Vec`, `Shift`, `CoordiIndex` of dyson/r_index.py | induction over the dimensions; refinement to `Lattice::CoordiIndex` and to arithmetic modulo the lengths |
| C106 | `adjoint`, `dot`, `inverse_transpose`, `inverse` of tool/matrix_inverse.py, for one matrix | algebraic identities for the rows of the adjoint and the determinant; uniqueness of inverses |

If the code violates a property, the negation is proved with a concrete witness and a theorem with
suffix `_partial` keeps the part that holds. The findings are listed in section 4.

## 3. Conventions

* `lean/Verif/Model/*` model definitions with citations, `lean/Verif/Spec/*` small specifications,
  `lean/Verif/Proof/*` lemmas, `lean/Verif/Props/*` the property theorems with non-vacuity examples.
* `MANIFEST.json` maps properties to theorem names.
* `seeded/LOG.jsonl` records mutation experiments (made in a scratch copy outside this tree). `result` is
  `killed` if the build of the edited copy failed outside the edited model file, `survived` if it passed, and
  `not_compiled` if the edited model file itself was rejected, so that no theorem was tested (eight such edits were
  logged as `killed` in earlier versions; each names the edit that repeats it). `theorems_failed` are the declarations (or modules) for which
  Lean reported an error; this is what was observed. `property_theorems_dependent` was not observed: modules that
  import a failed one are not built, so it is computed afterwards, from the dependencies of the proofs in the
  present tree, as the property theorems that are among the failed declarations or use one of them. It is
  recomputed whenever the log is written and so can name theorems that were added after the experiment. (In
  earlier versions of the log the two fields were called `failed_directly` and `property_theorems_failed`.) If a lemma fails,
  its proof no longer works for the edited program; that the property theorem is false of it is not shown by that.

## 4. Findings

Each finding is a behaviour of the source text. Where a theorem is named, it is proved in Lean; the others
were noticed while transcribing and are not claimed as theorems.

### Markov chain

* `Order = 0` is accepted by the loader but the first hop reads `OrderReWeight[1]` out of range
  (`C07_refuted_for_order_zero`). All other theorems about the chain assume `Order >= 1` (`Params.Wf`).
* `JumpToOrder0` removes nothing; `JumpBackToOrder1` draws new times for both vertices but leaves the flag of an
  instantaneous line set, so an instantaneous line can end up with two different times
  (`C09_refuted`). In these states `DeleteDelta` and the change from delta to continuous are not
  reversible (`C16_refuted_unequal_times`) and the self check aborts. `ReachD` is the set of executions
  without such an excursion.
* `CheckDiagram` compares with an absolute tolerance `1e-9`, so a correct diagram with small weights
  raises an alarm (`C17_small_weights_raise_alarm`).
* `Bundle::Add()` tests `> MAX_BUNDLE` and reads one cell past the array when the container is full
  (`C20_add_to_full_container_refuted`). Simulations never fill a container.
* `Bundle::Remove(name)` with a name that is not in use removes the last component (`C19_remove_by_unused_name`).
* The momentum product is right only for small factors (`C21_multiplier_four_leaves_range`).
* `FixDiagram` computes worm flags from `Worm.Ira`, `Worm.Masha` even if there is no worm. A reset after a
  deleted worm can change the weight (`C39_reset_refuted`).
* A state of order zero becomes order one by saving and loading, or by annealing (`C38_order_zero_becomes_one`).
* Saving is skipped silently while a composite line is present.
* `irn` takes a remainder, so integers are not exactly uniform when the length of the range does not divide
  `2^32`. The proposal densities of C16 are those of exactly uniform draws.
* `SignFermiLoop` and the `Weight` pointers are read before they are assigned at the very first `FixDiagram`;
  the value is overwritten later. `_LoadBasis` and `ListenToMessage` lack return statements.

### Tables and measurements

* Measured instantaneous lines are looked up differently by the two overloads (`C26_measured_delta_disagrees`);
  the chain never has one (C08, C09).
* The factor for antiperiodicity does not flip at the difference `-beta` itself (`C25_boundary`).
* In the two spin-flip channels a composite interaction returns half of the negated conjugate of what was
  recorded (`C29_refuted`).
* Annealing multiplies the measured function by `(beta/beta')^2`, each time (`C34_refuted`).
* The error bar survives `ClearStatistics` (`C30_clear_refuted`).
* The thinning interval is zero after 32 thinnings and the call that thins drops a record
  (`C31_interval_refuted`).
* The error bar is wrong for entries beyond `1e30`, the sentinels of the scan (`C32_refuted`).
* `Estimator::FromDict` writes past the buffer if the stored history is longer (`C51_too_long`); the interval is
  reset to one. `WeightEstimator::FromDict` with more orders than allocated does the same.
* `AdjustOrderReWeight` returns `false` after it has changed the factors if no worm configuration was counted
  (`C43_refuted_failure_changes`); the size of `OrderTimeRatio` is never checked (`C43_refuted_short_ratio`).
* `PrintOrderReWeight` assigns `WormSpaceReweight`, `0/0` before anything was counted
  (`C43_refuted_print`, `C52_refuted_early_print`).
* `MarkovMonitor::AddStatistics` is empty. `IsSameSpin` tests `0 || 2`. `BuildTest` uses a bin number as a time.
* `GammaG`, `GammaW` keep the old `Beta` after annealing. A missing `GGGammaG` keeps the old table although the
  log says zeros. `GammaW` statistics are saved in single precision.
* `EstimatorBundle::operator[]` with an unknown name inserts index 0.

### Process

* After `Resume` the handler still reports that it is delaying (`C36_still_delaying_refuted`).
* `ListenToMessage` runs off its end while a composite line is present (`C35_refuted_composite`); a message file
  with a missing key ends the process (`C35_refuted_keys`); the version is updated before the weights are loaded.
* `Center`, `Left`, `Right` have an unsigned underflow for text longer than the width (`C47_refuted`).
* Sums of a real and a complex number add the real number to both parts, `Complex - real` adds
  (`C40_mixed_sums_refuted`); `pow(Complex, real)` tests the constant `0.0` (`C40_pow_refuted`).
* Restarts: a histogram keeps the `_Beta` it was allocated with when the temperature changes, while a restarted process allocates
  with the present one, so later changes rescale the normalisation differently (`C59_refuted_anneal`). A state of order zero
  restarts at another order (`C59_refuted_order_zero`). `Load` needs the statistics file even when it falls back to the
  input file, so a process that died before its first `Save` cannot be restarted (`C59_refuted_no_statistics`).
  The constructor of `Weight` leaves `GammaG` and `GammaW` uninitialised, which `_AllocateGammaGW` tests: with `runGamma3`
  the start is undefined (`C59_gamma`).
* Noticed about restarts: `Load` listens to messages and throws `Toss` sweeps away again; `Step` starts at zero; the
  seed is not saved; the weight file read may be newer than the saved version; `Load` does not test for order zero
  (division by zero in `WeightEstimator::Allocate`); the length of `OrderTimeRatio` is never checked.
* Collecting: `MergeFromDict` compares the norms after adding, and the polarisation is merged after the self energy, so files
  that are reported as failed contribute (`C60_refuted_norm`, `C60_refuted_half`). A file with one order is repeated for all orders by numpy, one
  with another smaller number of orders is refused, contrary to the doc string (`C60_refuted_orders`).
* Accepting orders: an order without data passes by the error of the order before (`C61_refuted_empty`); if order one has no data the
  variable `RelativeError` is undefined and the self-consistency loop exits (`C61_crash`). What is called relative error is the absolute one.
* `dyson/main.py --collect` unpacks the four results of `CollectStatis` into two names and always fails; its file would
  contain normalised data with norm zero.
* Self-consistency loop: after a failure of `CollectStatis` the handler rolls back `Polar`, and after a failure of the first `G_Dyson` it rolls back
  `Sigma`, although neither was merged in this version: the contribution of the last good version is removed (`C65_refuted_collect`, `C65_refuted_first_G`).
  Repeated failures subtract it repeatedly; the norm can become negative.
* Rolling back the only merge leaves the failed function as data (`C65_refuted_first`).
* `__AdditionalPhaseFactor` multiplies `Data` but not `AccuData`. `Polar` is merged as a function of time and rolled back as a function of frequency
  if `W_Dyson` fails, which mixes the two conventions (`C65_refuted_domain`).
* Read, not proved: `IsNewCalculation` is never reset in the loop, so a new calculation collects no statistics until it is restarted;
  `except KeyboardInterrupt, SystemExit` of Python 2 does not catch `SystemExit`; `LUFactor` overwrites the denominator before its condition number is
  computed; the sum rule rescales `Polar.Data` but not `AccuData`; `Polar_FirstOrder` needs inversion symmetry; `GenerateBasis` uses `1/Nt/2` instead of `Beta/Nt/2`.
* Neighbours: on lattices one cell wide the lists contain wrong sites or an index out of range (`C66_refuted_strip`); on the triangular lattice with two cells in a
  direction the exception comes in the middle of a list (`C66_refuted_triangular`). `Build` catches it, writes a message and continues with an incomplete interaction.
* `J2` is ignored without a message on `Cubic` and `Assymetric_Triangular` (`C66_refuted_cubic`, `C66_refuted_asymmetric`). On `Kagome` and `Pyrochlore`, `J3` acts only on some
  third neighbours; for `ValenceBond`, "next nearest" means the weak bonds.
* `__BuildHubbardInteraction` adds `U` at all distances and for spin pairs 0, 1, which are down-down and down-up (`C66_refuted_hubbard`).
* The reciprocal vectors of `Checkerboard`, `Kagome` and `Pyrochlore` are in another order than the lattice vectors: with unequal sizes, integer momenta do not fit the cell (`C67_refuted`).
* The momentum (pi, pi) is not the staggered one of `Assymetric_Triangular` (`C67_refuted_staggered`).
* `StagChi` and `StagMag^2 density` are computed after the transform back to time and therefore use the first time bin instead of frequency zero (`C68_refuted_staggered`).
* The option `ImW` of the spin models uses the real chemical potential pi/(4 beta): empty and doubly occupied sites do not cancel (`C69_refuted_imw`). `IndexMap.Pauli` has a wrong
  sigma_x ([[0,1],[-1,0]]) and sigma_y with the other sign; the spin models use sigma_z only (read).
* Annealing: a field that is not a whole number of steps passes zero and grows for ever (`C70_refuted_multiple`); only the first component is tested (`C70_refuted_first`). Fields given as
  integers make an array of integers, in which the halving of `RevertField` rounds (read).
* `WeightArray::FromDict` looks at as many axes as its own table has: arrays with fewer are read out of bounds, with more accepted; the type of the elements is not checked
  (`C71_refuted_shape`).
* With an instantaneous interaction within a site (Hubbard) the simulation also samples it at order one and records it in the smooth self energy, where it does not belong: `SigmaDeltaT_FirstOrder` has it
  already (`C72_refuted_onsite`). `Polar_FirstOrder` multiplies `G[B,A,r]` and `G[A,B,r]`, where the first should be `G[B,A,-r]` (`C72_refuted_polar`); harmless if propagators stay on a site. `W_FirstOrder`, which is
  not called, uses the incoming spins of `W` for its outgoing end (read).
* `SymmetryMapping` compares integers with `is`, which fails from 257 on: with more than 257 bins diagonal pairs get factor two and are flagged as exchanged (`C73_refuted_is`). On triangular lattices with
  unequal sides the images are not consistent: factors are wrong or an `IndexError` occurs (`C73_refuted_triangular`). `UnCompressGammaW` exchanges the sites for reversed times, `GammaWClass::Weight` does not, so the
  simulation reads the element for exchanged sites (`C73_refuted_exchange`).
* `SaveBigDict` stores the statistics of the three-point interaction in single precision, `LoadBigDict` does not convert them back, and `StatisFromDict` reinterprets the memory without a check: every restart with
  three-point functions reads beyond the array (`C74_refuted_restart`). `StatisFromDict` does not compare the first axis (`C74_refuted_shape`). A file without interactions counts as a failure in `CollectStatis`,
  but its propagators have been added before (`C74_refuted_merge`).
* The handler of SIGINT and SIGTERM terminates the running jobs but returns to the main program, which then starts all waiting jobs (`C75_refuted_stop`). With `CPU = 0` and a local job the manager never ends
  (`C75_refuted_cpu`). `check_status` changes the list it traverses and skips the neighbour of each ended process until the next call (`C75_refuted_sweep`). After `main.py --collect` the file `statis_total.hkl`
  makes `get_current_PID` raise a `ValueError` (`C75_refuted_total`). Two Monte Carlo classes in `TO_DO` share numbers and overwrite each other's input files (`C75_refuted_files`). A larger `__Duplicate` does not add
  processes to a resumed calculation (`C75_refuted_more`). `job_manager.py` does not import `traceback`; its handlers raise a `NameError`, and `finally: Exit()` ends with code 0 all the same (read, not modelled).
* `AddG_To_WWGammaW` takes minus the conjugate of the spin-up functions for spin down. This is the sum over spins only for a propagator with `G(beta-tau) = conj G(tau)`; otherwise the sign is wrong
  (`C76_refuted_down`). Read, not modelled: `FFTGammaW` and `FFTWshift` work for lattices with two axes and sublattice 0 only; `AddW_To_GGGammaG` has no instantaneous part; `UnCompressGammaW` returns an array with
  five axes itself, so `AddTwoW_To_GammaW` overwrites its argument; `SimpleGG` is a function of times in the middle of bins and is added to functions of times between bins.
* C77 excludes versions that fail in `W_Dyson`: the roll back then happens in the wrong domain (`C65_refuted_domain`). A singular denominator is not a `DenorminatorTouchZero`, so at the instability itself the program ends
  (`C77_instability`, `C77_start`).
* The susceptibility of two or more inequivalent sublattices is wrong: `W_Dyson` solves `(1 - J P) X = -P`, the right equation is `(1 - P J) X = -P`. The two agree for equal sublattices (C79_rpa_partial); for different
  ones the result is not even symmetric (C79_refuted_order).
* The loop for the sum rule compares the correlation of the z components with 3/4, the value for the sum of the three components, because only `SzSz` is left in the list of `Calculate_Chi`. For free spins, where 1/4 is correct, it
  drives the reported value to 3/4 (C79_refuted_sumrule). It also rescales `Polar` itself, but not the sums from which the next `Merge` computes it (C79_sumrule_partial), and the product of the magnetisations is counted twice, in
  the loop and again in `Measure` (C79_refuted_twice).
* With a single value of `Hopping` the band models have a bare propagator zero: the padded list is computed but `self.__Hopping[1]` is used; the exception is caught in `Build` and only logged (C80_refuted_single).
* With a `Phase` the hopping Hamiltonian is not Hermitian, because the same matrix is used for a hop and for the hop back (C80_refuted_phase), and around the first axis the matrix is not unitary and can be singular,
  because `Pauli` returns `[[0,1],[-1,0]]` for the first matrix (C80_refuted_pauli).
* `numpy.linalg.eig` instead of `eigh` is used and the inverse of the matrix of eigenvectors replaced by its adjoint. For degenerate levels (without field always, because of the spin) what numpy promises does not make that correct
  (C80_refuted_degenerate); it is correct for the square lattice in a field (C80_field).
* `ExternalField` has the opposite sign and twice the strength in band models as compared to spin models (C80_refuted_sign).
* The Haldane model passes the list `["nn"]` with one name, so the second of the `ShortRangeInteraction` is multiplied by zero (C81_refuted_haldane). With one value of `Hopping` it has no interaction at all (C81_refuted_hopping).
* A name that is not known is skipped without message and the interactions after it move up to nearer neighbours (C81_refuted_name).
* On a lattice other than Honeycomb the models Kitaev and Haldane log an error and the calculation goes on without interaction (C81_refuted_lattice); on a lattice one cell wide a coupling of the Kitaev model connects wrong sites (C81_refuted_strip).
* Read, not proved: `CoulombInteraction` replaces `ShortRangeInteraction`; `LongRangeInteraction` of the input file is never read.
* `Convert` to integers never refuses a number out of range: `int` keeps the last 32 bits (`2^32+5` is read as 5), the others give -1 with a pending exception that nobody looks at (C82_refuted_range). `unsigned long long` of a plain Python integer is `2^64-1` (C82_refuted_ullong).
* `Convert(Object, spin&)` calls itself for ever (C82_refuted_spin).
* `AddToTuple` ignores whether the items before the last one were converted (C82_refuted_tuple).
* `Dictionary::Load`, `LoadFromString` and `FromPy` keep the old values of keys that exist, because `std::map::insert` does not replace (C82_refuted_load); lists and vectors are appended to (C82_refuted_append).
* Text is cut at a zero byte (C82_refuted_nul); entries of a map whose keys cannot be hashed are lost (C82_refuted_key).
* `AddToTuple` passes `obj.Get()` where an `Object` is expected: the constructor with the default `NewRef` takes over a reference that nobody gave, so the conversion of a tuple with n items takes n - 1 references away and frees a tuple that is still in use (C83_refuted_tuple, C83_refuted_pair). No other file converts tuples at present.
* A lattice one cell long makes the Kitaev model stop with a caught exception before the third coupling is added (C81_refuted_column).
* Values whose key begins with `_` are dropped on loading without a message; tuples and sets come back as arrays, nested lists as lists of arrays, number keys as text (C85_refuted_underscore, C85_refuted_tuple, C85_refuted_nested, C85_refuted_number_key). Complex numbers and `long` integers of Python and a key beside the same key with `_` are refused (C85_refuted_kinds, C85_refuted_clash, C85_refuted_raise).
* `SaveBigDict` puts `_` in front of the whole path, not of the file name. A file in another directory is not saved (C85_refuted_directory): `collect.py` as a program and `main.py --collect` cannot write `statis_total` in their workspace.
* `main.py` 383 unpacks two values from `CollectStatis`, which returns four: `--collect` always stops with `ValueError` (read, not modelled).
* `weight::Weight::_LoadBasis` is declared `bool` and returns nothing: undefined behaviour whenever weights are loaded (read, not modelled).
* The target distribution is not stationary once an instantaneous line has visited the order-0 sector: there are two diagrams of order 2 with a step from the first to the second and none back (C86_refuted; consequence of C09_refuted).
* `lu_solve` of `lu_fast` is wrong for right-hand sides in Fortran order, its own results among them: `b.copy()` is in C order, but LAPACK gets pointers as for Fortran order (C88_refuted_fortran, C88_refuted_twice; for a single matrix it solves the transposed system, C88_fortran). The callers in the repository pass arrays in C order.
* `lu_slow.lu_factor` overwrites its argument, so the condition number that `Check_Denorminator` logs is that of the packed factors (C88_refuted_altered).
* `Check_Denorminator` looks at the determinant that is smallest by real part: one that is real and negative goes unnoticed beside one with a smaller real part and an imaginary part, and any large negative imaginary part passes for small (C88_refuted_unnoticed, C88_refuted_alarm). Not if the determinants are real (C88_check_real, C88_real).
* Momenta are not equally likely: 214738 words choose -10000, 214737 choose 10000, because 20001 does not divide 2^32 (C89_refuted_momenta). The effect on a step is bounded in C89_steps.
* A text of the generator that ends within its last number is accepted, and other words follow (C90_refuted_cut). `RandomFactory::Reset(string)` ignores errors: a text without numbers leaves the old state or sets one word to zero (C90_refuted_reset); the parameters do not use it. Numbers with a minus sign are accepted (C90_refuted_sign).
* A three-point function can be read or written one element after its row (at the end of the table: after the array) when the temperature has changed: times are kept, a negative
  difference of an old and a new time of less than half a unit in the last place plus `Beta` is rounded to `Beta`, and the index is the number of bins (`C92_refuted_temperatures`).
* On triangular lattices whose sizes are not both multiples of three, `StagChi` is not the susceptibility at the corner of the Brillouin zone, but at the last momentum of the lattice before it:
  with equal sizes up to 75 at `(4 pi floor(L/3)/L, 0)`, for two times two cells at zero, so that it equals `UnifChi` (`C94_refuted_corner`, `C94_equal`, `C94_refuted_two`).
* A signal that arrives while the Dyson part saves is given to the handler of `SIGINT` even if it is `SIGTERM`, and of several signals only the last one is (`C95_refuted_term`). In a process that
  ignores `SIGINT`, as one in the background of a script, the saved `SIG_IGN` is called and the process ends with `TypeError` (`C95_refuted_background`).
* A crash of the Dyson part while the parameters are written makes the next process go on with the new weights and the parameters of the input file, so that `Version` begins again at 0
  (`C95_refuted_crash`); Monte Carlo processes then ignore its messages until `Version` has passed the old one (`C35_stale`).
* The history of the observables is not loaded when the Dyson part is restarted, and its file is overwritten (`C95_refuted_history`). On the pyrochlore lattice `UnifChi` gets two values per
  version (`C95_refuted_pyrochlore`).
* `Energy` is two thirds of the energy per site in units of the nearest neighbour coupling: `Chi` has one component of three, and the lists of neighbours have each bond twice
  (`C96_refuted_energy`). Second neighbours do not enter (`C96_refuted_next`), nor do the bonds between the rows of cells of `ValenceBond` (`C96_valence_partial`).
* The arrays `sigma` and `polar` of the main loop are of type `int`; a run that measures one kind of diagram 2^31 times has undefined behaviour (`C97_refuted_local`). They are never read.
* The timers read the time of day; after the clock is set back nothing is saved and no message is read for that time in addition to the interval (`C97_refuted_clock`).
* `basis.py` adds half of 1/bins to the times instead of half of beta/bins: the kernels are sampled in the middle of the bins at the temperature one only (`C98_refuted_times`), above
  the temperature two the last time is larger than beta (`C98_refuted_range`), and the matrix is not symmetric in time (`C98_refuted_symmetric`). A kind that is neither "Fermi" nor "Bose" is accepted and gives functions of no kernel (`C98_refuted_kind`).
* `_CheckBalance` can hardly show a violation of detailed balance: in every run the summation for the measured line deviates by at most one, and those for adding lines and for making lines
  instantaneous are the same number up to the order (`C99_laws`), whatever the acceptance probabilities are. The pairs for worms and for order zero are not printed.
* The drawing of the model shows an interaction only if its element for spins up at both ends is not negligible: the x and y bonds of the Kitaev model are missing (`C100_refuted_kitaev`). With
  three cells in a direction, one neighbour of the cell zero is drawn two cells away (`C100_refuted_three`).
* In the log the month is one less than in the calendar, January is 0 (`C101_refuted_month`), and a source that is compiled under a path without a separator has no name (`C101_refuted_source`).
  The first `Logger::configure` reads `configuration_` before it has a value; this has no effect, since a successful opening of the file clears the error flags (`C101_run` holds for every value).
* The comparison of vectors of real numbers is not transitive (`C102_refuted_transitive`), and a momentum that is read from a text is not brought into the range of the momenta
  (`C102_refuted_momentum`).
* `EstimatorBundle::operator[](string)` with a name that the bundle does not have gives the first estimator, and the name cannot be added afterwards (`C103_refuted_unknown`);
  `RemoveEstimator` is declared but not defined.
* `W_FirstOrder` takes the last factor at the spins of the first end (`spW0R` has `spWt[IN]` for `spWt[OUT]`): the elements between `DOWN` and `UP` are those between equal spins
  (`C104_refuted_sign`), spin flips are lost (`C104_refuted_flip`), as for Heisenberg spins (`C104_refuted`). The function is not called by the programs.
* The parameter file is not written atomically (`C49_small_files_not_atomic`).
* `SymmetryMapping` in `dyson/gamma3_calc.py` compares integers with `is`.
