# DESIGN: a Lean 4 model of SpaceHub

MANIFEST.json holds the status of each property; `seeded/LOG.jsonl` the wrong programs the theorems were tested against.

## Trusted base
* Lean 4.33.0's kernel. Mathlib is used as a library of proofs the kernel checks; nothing in it is trusted beyond the kernel.
* Axioms: every theorem depends on at most `propext`, `Classical.choice`, `Quot.sound` (the three axioms of Lean's library). No axiom is declared here; no placeholder proof, no compiled evaluation (`decide +kernel` is the kernel's own evaluation of rational table checks).
* That the definitions in `lean/Verif/Model` say what the C++ says. This is reading, not proof: each definition cites the file and lines it follows. The mutation log shows that the theorems react to wrong programs, not that the model is faithful.
* The statements: `lean/Verif/Spec` holds the vocabulary of the properties (moments, orbits, motions, rounding, interleavings...), defined without reference to the model where possible.

## Conventions
* `lean/Verif/Model/*.lean` — definitions only, each citing file and lines in /repo. `lean/Verif/Spec/*.lean` — specifications. `lean/Verif/Proof/*.lean` — helper lemmas. `lean/Verif/Props/*.lean` — the property theorems (names `Cnn_...`), with examples that meet the hypotheses.
* Outcomes of a call are `Res`: `ok v`, `abort` (`spacehub_abort`: print and `exit(0)`), `ub` (out-of-bounds access, missing `return`, modulo 0, violated precondition of the standard library), `nan` (a value that is not a finite number where one is needed), `diverge` (fuel exhausted; statements about non-termination say "for every fuel").
* Floating point numbers are elements of an arbitrary (ordered) field, or of ℝ when sqrt/sin/cos/pow are needed: results are *exact-arithmetic* results; π is the real number; no signed zeros. Rounding is modelled only in C34 and C91 (binary floating point of every precision with unbounded exponent, any rounding to nearest), C113–C121 (any arithmetic with a relative error per operation), C55 and in `Fl` (values with NaN and infinities, C59/C60).
* C arrays are total functions `Nat → α` or lists with an explicit size; indices outside are `ub`.
* Loops are recursions; loops without a bound carry fuel, and the theorems quantify over all fuels.
* Threads are interleavings of atomic steps under sequential consistency, with spurious wake-ups; every number of threads and every schedule.
* Random generators are arbitrary streams of numbers; number formatting is an arbitrary function `Fmt`.
* A property the code does not have is kept as stated: a theorem refutes it by a concrete witness or exactly characterises what the code does instead, what remains true is proved with the suffix `_partial` or as further theorems, and the status is `partial` with a note "False of the code: ...".

## Plan per property

* **C01 Chain index is a permutation of the particles** — Model: the pair list, any permutation of it sorted by distance, and the insertion scan with head/tail/avail flags and the `k = 1` restart, with fuel for the `for`. Proof: invariant (nodup, head/tail are the ends) + counting argument that every missing vertex keeps a usable edge; fuel bound = termination. N<2 is the `ub` outcome.
* **C02 Cartesian -> chain -> Cartesian round trip** — Model: arrays ℕ→V3 with size n, loops as recursion. Proof: induction along the index.
* **C03 Chain -> Cartesian -> chain round trip** — As C02.
* **C04 Re-indexing a chain keeps it equal to the chain of the new index** — Model of get_new_node/update_chain; telescoping-sum lemma.
* **C05 The chain starts from the closest pair and links nearest neighbours first** — Closest pair adjacent: proved; greedy claim refuted by a concrete witness (dist[1] skipped on rescan), partial theorem kept.
* **C06 Chain and direct Newtonian accelerations agree** — Generic pair-kernel evaluators (direct and chain loops); a bijection between chain pairs and index pairs.
* **C07 Newton's third law** — Fold lemma for pair kernels + antisymmetry.
* **C08 Chain and direct potential energy agree** — Same bijection for scalar sums.
* **C09 Moving to the centre of mass** — Algebra over a field.
* **C10 Post-Newtonian forces do not depend on particle labelling** — Swap symmetry of the kernels by ring; PN2 refuted by witness.
* **C11 Splitting of the forces is complete** — List of forces with flags; fold lemmas.
* **C12 Dissipative pair forces conserve momentum** — Fold lemmas for kernels.
* **C13 State <-> scalar array round trip** — Layout functions on lists; length arithmetic for every N.
* **C14 Cartesian coordinates always belong to the chain** — State machine over the public operations; invariant by induction on the op list.
* **C15 Momentum conservation and uniform centre-of-mass motion** — Sum invariants over op lists.
* **C16 Angular momentum conservation** — As C15 with cross products.
* **C17 Time bookkeeping of the integrators** — Fold over coefficient lists; exact rational table checks.
* **C18 Time reversibility** — Each drift/kick is invertible by the opposite step; palindromic composition.
* **C19 Collected increments equal the state change** — Ghost initial state + induction over op list.
* **C20 Callback discipline of a run** — run as an event trace; induction on fuel.
* **C21 A run ends exactly at the end time and never overshoots** — Archimedean argument in an ordered field.
* **C22 A run stops at the first state satisfying a stop condition** — As C20; copying of callbacks modelled explicitly; refuted for stateful conditions.
* **C23 A run with the end time in the past** — Refuted: non-termination theorem for constant step.
* **C24 StepSlice fires every interval-th call** — List induction.
* **C25 TimeSlice output times** — List induction over call times.
* **C26 LogTimeSlice output times** — Catch-up loop with fuel; nontermination proved for ratio ≤ 1.
* **C27 Bulirsch-Stoer extrapolation is exact on even polynomials** — Aitken–Neville induction.
* **C28 Bulirsch-Stoer never leaves its tables** — State machine of ranks over arbitrary error oracles; OOB is an outcome; refuted for the first step.
* **C29 Bulirsch-Stoer acceptance and restoration** — Same machine with state/increment ghost.
* **C30 Bulirsch-Stoer on a user function advances time by the step** — Model of time& threading; refuted.
* **C31 Step-size controller limits** — Abstract power function with monotonicity.
* **C32 SequentOdeIterator accepts only a converged result** — Refuted for the non-converged path.
* **C33 IAS15 step acceptance** — State machine with oracles.
* **C34 Compensated summation** — Abstract rounding.
* **C35 Bisection keeps a bracket** — Real-valued bisection.
* **C36 Parallel loop covers every index exactly once** — Arithmetic; refuted for total<threads.
* **C37 Thread pool runs every accepted task exactly once** — Labelled transition system of threads; refuted liveness; safety invariants proved.
* **C38 Concurrent file writes are atomic lines** — Transition system with a mutex.
* **C39 Particle containers stay rectangular and ids identify particles** — Op-list invariant; id uniqueness refuted after growing resize.
* **C40 CSV header matches the rows** — List equalities.
* **C41 Configuration file semantics** — List Char parser.
* **C42 Orbit to coordinates keeps the orbital invariants** — ℝ, sin/cos; ring identities.
* **C43 Coordinates to orbit inverts** — ℝ.
* **C44 Anomaly conversions** — ℝ, half-angle identities.
* **C45 Tidal factor and tidal radius are inverse** — ℝ.
* **C46 Truncated random draws respect their bounds** — Stream with first-hit.
* **C47 Gauss-Radau tables and predictor** — Rational tables, polynomial identities.
* **C48 Regularisation variables track the energies** — Invariant over ops.
* **C49 Galilean invariance of the inner energy and of accelerations** — Algebra.
* **C50 Output header and energy reference are per run** — State machine of writers; E0 refuted.
* **C51 Drag forces oppose the motion relative to the gas** — Kernel lemmas over ℝ: sign of the force along the relative velocity, for the static medium, the alpha disc (friction factor by cases in the Mach number) and the disc-capture star.
* **C52 Angular momentum of a subsystem and size of a cluster** — Sums over index subsets.
* **C53 Chain and plain systems evolve identically** — Simulation relation between the plain and the chain state machines, by induction on the op list.
* **C54 Integrators have their nominal order on oscillators** — The schemes applied to the oscillator are 2×2 matrices; Taylor bounds of their entries; exact rational evaluation of the tables, with the tabulated 10th-order coefficients refuted.
* **C55 Default step size** — Closed formula of the default step.
* **C56 Stateful stop conditions keep their state between checks** — Copies of callbacks in the model of the simulator; refuted by a theorem about every stateful condition.
* **C57 Sticky collision detection** — List characterisation of the colliding pairs.
* **C58 Extrapolated steps conserve what the leapfrog conserves** — Extrapolation is an affine combination with weights that sum to 1.
* **C59 Meaning of the error estimate** — Each estimator equals the documented norm.
* **C60 A result containing NaN is never accepted** — Values with NaN (`Fl`); refuted for the estimators based on std::max.
* **C61 Derivative handed to Gauss-Radau is the true derivative** — HasDerivAt along the motion; refuted for LogH.
* **C62 An IAS15 step ends** — Fuel; refuted by a jumping derivative.
* **C63 IAS15 keeps momentum, uniform motion of the mass centre, and the clock** — Linear invariants of the Radau sums; on chains, of their chain variables, which change their meaning when the order of the chain changes.
* **C64 Spawned threads get the callable and arguments given** — Value categories of the arguments as moved-from flags.
* **C65 Output pipe writes every record once and in order** — Transition system of producers and writer; refinement to a queue.
* **C66 Input pipe hands out every record once and in order** — Transition system of loader and consumers.
* **C67 A particle written to a stream can be read back** — Token-level stream model.
* **C68 Command line arguments reach their variables** — List Char model of the command line.
* **C69 The timer measures its running time** — State machine of the timer.
* **C70 Coordinates to orbit to coordinates** — Case analysis in the node and apsidal vectors over ℝ.
* **C71 Coordinates follow the two-body motion** — Calculus: the parametrised conic satisfies Kepler II and the equation of motion.
* **C72 Time to periapsis** — Kepler's equation, integrals of the law of areas.
* **C73 Hyperbolic and elliptic orbits from physical parameters** — Algebra of the constructors; random angles from streams.
* **C74 Orbital period** — Least period of the motion.
* **C75 Centre of mass and rigid displacement** — Moments of lists; displacement relation.
* **C76 Energies and sizes of groups** — König decomposition; maximum of pairwise distances.
* **C77 Scattering set-ups** — Geometry of the hyperbola; refuted for the common direction.
* **C78 Random draws follow their law within the limits** — Distribution functions through inverse transforms; measure of preimages of the uniform draw.
* **C79 Tabulated gas disc: tables are read inside their bounds** — Index arithmetic of the table look-up with exact decimal tables; refuted next to Mach 100.
* **C80 Tabulated gas disc: values are the interpolated tables** — Bounds of every cell by kernel evaluation of the tables; refuted at the cell borders.
* **C81 Tabulated gas disc: drag opposes the motion through the gas and conserves momentum** — Fold lemmas; definedness by cases.
* **C82 Hierarchy tests decide by two-body and total energy** — List recursion; refuted for more than two nodes.
* **C83 Quadrupole eccentric Lidov-Kozai time scale** — Algebra; refuted (operator precedence).
* **C84 Stellar radii** — Real powers.
* **C85 Automatic file names do not repeat** — Induction over the history of calls; refuted for alternating prefixes.
* **C86 Tidal energy and hard separation** — Moments of lists, algebra.
* **C87 Dynamical friction factor of the alpha disc** — Calculus of the two formulae and the connecting cubic; refuted at Mach 0.1 exactly.
* **C88 Regularised leapfrogs follow two-body orbits exactly** — Invariant of the merged leapfrog in relative coordinates (Laplace vector, angular momentum, r·g), induction over steps; transferred to TTL and AR chain by C48/C53.
* **C89 Symplectic integrators are symplectic** — Rates of change of families of states through each update (the tidal tensor is symmetric), induction over updates; transferred to chains by C53.
* **C90 Energy belongs to the forces** — Derivative of the potential along families of states; mean value theorem.
* **C91 Rounding does not keep a run from ending** — The time of a run with every operation rounded (any precision, any rounding to nearest); error of one step against the room left; refuted where the step is lost.
* **C92 The computed motion converges to the true motion** — A motion is a curve with the right derivatives; exact stages of the model as maps of phase space; local error by the mean value inequality, tube around the curve by compactness, global error by a discrete Gronwall argument.
* **C93 The integrators have their nominal order on gravity** — A small specification of order conditions (`Spec/Order.lean`: coefficient of a word in the product of exponentials); Taylor expansion of stages and of the true motion by iterated Lie derivatives along words; the conditions themselves for all words up to the order by exact integer arithmetic in the kernel; tube and discrete Gronwall argument as in C92.
* **C94 Lazily evaluated vectors and arrays** — Memory of arrays, expression trees with references, assignment as the element loop of the code, indices modulo 2^64; loop invariant: elements stored so far are those of the specification and nothing later has changed.
* **C95 A Bulirsch-Stoer simulation converges with the order of its extrapolation** — The order conditions of a weighted sum of runs: the coefficient of every word of drifts and kicks in n equal sub-steps is a polynomial in 1/n² (an even leap-frog to the n-th power, in the algebra of words), so the extrapolation to 1/n² = 0 gives the coefficient of the exact solution; then local error, stability and induction over the calls as in C93.
* **C96 Small Bulirsch-Stoer steps are accepted, and the steps do not collapse** — On a compact set of collision-free configurations every run of sub-steps moves by at most C·h (`words_move`), so neighbouring extrapolations differ by O(h) and the models of the estimators give an error below any bound; the model of the PID controller then asks for a factor of at least 1. Induction over the columns of an attempt (`columns_goes`) and over the attempts of a call (`attempts_keep`), and over the calls.
* **C97 Bulirsch-Stoer does to a chain system what it does to a plain one** — Chain coordinates are a linear image of the Cartesian ones along the fixed index of the call and extrapolation is linear, so extrapolated chain coordinates are those of the extrapolated particles (`extraV_belongs`); the runs are related by the simulation of C53, and the state read at the end of a call is consistent (`chain_good`). Induction over the macro steps; C58 and C95 carry over.
* **C98 IAS15 converges to the Newtonian motion, with an order that grows with the number of corrections** — Local analysis in a normed space (`Proof/RadauTaylor` … `RadauCourse`): the collocation equations of the seven nodes have a solution by contraction; by the quadrature conditions (checked for the literal nodes over the rationals) its end point is the Taylor polynomial of degree 15 up to `H ^ 16 + η H ^ 2`; one corrector sweep with tables that are exact up to `η` multiplies the distance to that solution by `O(H)` up to `η`; the predictor keeps the tables bounded. A discrete Gronwall argument in a tube around the motion gives the global error. The model is tied in by `Shadow`: positions and velocities are a linear image of the array of variables that moves along the Newtonian field. `C98_runs` (`Props/IAS15Small`) shows that such runs exist: in the tube the first correction changes the last coefficient by `O(h)`, so both error tests pass; `motion_exists` (Picard–Lindelöf) gives a motion from every collision-free state, hence `C62_small_steps_partial`.
* **C99 The parallel Bulirsch-Stoer iterator computes what the serial one computes** — `Model/BSParallel`: two threads whose steps (a row computed, a number copied) interleave arbitrarily, the closure with the object it was created in and the liveness of the captured variable. Invariant per thread (rows of its parity: filled above its row, untouched below); a well-founded measure; the particle system a thread works on differs from the serial one only in what the next `read_from_scalar_array` and `clear_increment` overwrite (`Proof/BSForget`). Refuted for every call but those whose closure is their own.
* **C100 The symplectic integrators keep their order with additional forces** — a velocity update with velocity-dependent forces is the composition of three straight motions (velocities, second velocities, velocities) on triples (positions, velocities, second velocities), so a step is a word in three letters; the theory of C93 is redone for any finite alphabet (`Proof/Letter*`), with a projection that makes the second velocities equal before each step; the order conditions for the words of three letters up to the nominal order are computed by the kernel (`Proof/MoveTable`). Instances: gravity with any list of PN1, PN2.5, tidal and drag forces.
* **C101 Bulirsch-Stoer keeps its order with additional forces** — the extrapolation of words in three letters (`Proof/LetterExtrap`): with position updates first and last the sub-steps are powers of one symmetric step, so the coefficients of all words are polynomials in the square of the sub-step length and the extrapolation cancels them; the steps of different methods, orders and lengths add up as in C95, with the projection of C100 between them. With velocity updates first and last this fails: the velocity under a linear drag after n sub-steps is computed exactly up to fourth order (`Proof/KdkDrag`), and the extrapolation of the cubes of the sub-step lengths is not zero for any number of runs (Descartes' rule of signs).
* **C102 Order and step control of Bulirsch-Stoer** — `Spec/BSTries` states the control of Hairer, Nørsett, Wanner II.9 as an inductive relation between step, target order, trials given up, accepted step and column, next order and step. Proved by induction over the columns of a trial and the trials of a call (`Proof/BSTries`), the errors being those of rows that start from restored copies of the state (`FreshOf`, as in C29). The counters follow by induction over the calls.
* **C103 IAS15 keeps its order with additional forces and on the other systems** — `course_vary` (`Proof/RadauCourse`) is the error bound of C98 for a sequence of calls each of which is seen through its own linear map from the variable array to configurations, all of one norm. For a chain system that map is the sum along the chain, which depends on the current chain; a permutation of the particles does not change the maximum norm, so a new chain after a step costs nothing, and warm-started coefficients (in the old chain coordinates) are covered because C98 bounds the corrections whatever the start. `chain_deriv` shows that the derivative of the chain variables is the chain of velocities and accelerations. For regularised systems (`Proof/RadauRegu`, `Props/ConvergeIAS15Regu`) the field is the one of all variables — clock, positions, velocities, ω and binding energy — over the transformed time (`regu_derivative2`, `ar_derivative2`: the derivatives that the code computes are that field), and the true motion over the transformed time is obtained from `TimeChange.time_change`; the error in the clock is converted back with the Lipschitz constant of the motion. That the calls return (`Props/IAS15Runs`, `Props/IAS15RunsAR`): `total` (`Proof/RadauRuns`) completes the derivative of the system to a total one; a correction with it runs and, by `full_tube`, visits only states near the motion, where the completed derivative is the code's; so the correction of the code runs and gives the same, its last change is below the clock entry times the tolerance (`clock_call`; the clock is a variable with a derivative bounded below), and one correction suffices. For plain systems and chain systems (`Proof/RadauSlow`, `Props/IAS15RunsForced`) the clock is masked from the step error; `slow_call` instead uses a lower bound on the rates of the variables that are not masked: a particle (or a link of the chain) that is not slow and not at rest at the origin has a rate bounded below along the motion (`busy_bound`, `link_fast`: the links of a chain are bounded below because the particles stay apart).
* **C104 symplectic integrators keep their order on regularised systems with additional forces** — `Proof/ReguForced`: the variables of a regularised system (clock, positions, two copies of the velocities — the second is the auxiliary velocity that the code keeps for velocity-dependent forces — ω and binding energy) form one space, the three moves of a stage (drift; velocity update with frozen velocities; update of the auxiliary velocity) are vector fields on it that are constant along their own flow (`wide_straight`), so every stage of the code is a word of exact moves (`stages_wide`) and C100's `Letters.order_global` applies. The true motion over the transformed time is obtained from `time_change` (`wide_motion`), with the binding energy changing at the rate of the work of the additional forces; clock errors are converted back with the Lipschitz constant of the motion. AR-chain systems by the simulation of C16/C53 (`archain_end`).
* **C105 Bulirsch-Stoer keeps its order on regularised systems with additional forces** — `Props/ForcedReguBS`: the sub-steps of a run are the words of C104's moves on the space of `Proof/ReguForced`, the runs of a call are the mixtures of `Proof/LetterExtrap` (C101), so the extrapolated state is a fixed linear combination of palindromic words whose expansion has even powers only; `regu_forced_core` carries the bound, the clock and the distance from the poles of the transformation along the calls, and AR-chain systems follow through the simulation of `Proof/BSChain`.
* **C106 simulations with Bulirsch-Stoer, additional forces and short steps come through** — `Proof/BSGoes`: on any system whose runs move every variable by at most a constant times the step (`Letters.words_move`), the extrapolations of a short step agree up to the step times a constant (`weights_bounded`), the estimators report a small error and the call is accepted at the first window (`lawful_small`); `Props/BSRuns` supplies the displacement of each kind of system (`flat_close`, `links_close`) and carries the iterator's history; `Props/BSReaches` drives whole simulations (`drive`).
* **C107 containers behave like lists** — `Model/SmallVector`: memory as blocks of cells (unconstructed, element, moved-from), with `malloc`, `realloc`, `free`, placement new, assignment, destruction and moves as partial operations; every member function as a sequence of them, for trivially copyable and other elements. `Proof/SmallVector` describes what the loops leave in the cells, `Proof/SmallVectorRep`, `Ops`, `Two` give the operations on one and two vectors (`Rep`: a vector holds a list, `Frame`: what a call may touch), `Proof/SmallVectorWorld` keeps "every block has exactly one owner" for any number of vectors, `Spec/SmallVector` is the meaning on lists, `Props/SmallVector` the induction over programs.
* **C108 elements of the container as arguments** — `Props/SmallVectorAlias`: the same operations with a reference into the vector, read where the code reads it; refuted for several calls, with the exact condition for `push_back`.
* **C109 appending is amortised** — `Props/SmallVectorGrowth`: the memory model of C107 counts the blocks handed out; NextPowerOf2 is evaluated bit by bit for every 64-bit number, and an invariant relates the number of blocks, the capacity and the number of elements.
* **C110 IAS15 with LogH and additional forces** — `Props/LogHForces`, `Spec/Misled`: the error analysis of C103 is carried out for the motion that the derivatives describe (`Led`), which with LogH and a non-empty list of forces is not the true one; existence of both motions by Picard–Lindelöf, and a comparison of their accelerations shows that they part.
* **C111 Bulirsch-Stoer on a user function shortens a step** — iterateF of Model/BulirschStoer; the exact outcome of every call by induction over the columns and attempts (Props/BSFunctionSteps); refuted.
* **C112 Units and constants fit together** — Model/Units (macros.hpp), Spec/Units (the units in SI), by computation with bounds on pi.
* **C113 Rounding adds to the error only in proportion to the number of steps** — Model/Rounded (the plain system with the operations of the scalar type as a parameter); a calculus of computations that are insensitive to rounding where they are bounded and divide by nothing small (Proof/Rounded), applied to the steps near the motion (compactness), then the convergence proof with an error per step.
* **C114 With compensated types rounding errors do not add up** — Model/RoundedKahan; the calculus of C113 for the values that the sums and their stored errors stand for: an increment of the size h leaves an error of u h + u² there, and stored errors remain at most a constant times u (Proof/RoundedKahan); then as C113.
* **C115 Energies, accelerations and momenta are computed to the last digits for every configuration** — Model/RoundedCore (core-computation.hpp with the operations of the scalar type as a parameter); a calculus of factors (1 + e)^k, |e| ≤ u, for products and sums without cancellation (Proof/Digits), applied to each quantity by induction over the loops.
* **C116 Rounding adds to the error of chain systems only in proportion to the number of steps** — Model/RoundedChain (chain.hpp, chain-system.hpp and the chain branch of newtonian.hpp with the operations of the scalar type as a parameter); the calculus of C113 for chains: a stored chain is near the chain of the true coordinates along its index, through drifts, kicks and changes of the index (Proof/RoundedChain); the chain stands for a plain system without rounding, from which the stored Cartesian coordinates differ by a constant times u, not more with every step (Proof/RoundedChainRun); the constants are uniform over the finitely many pairs of indices; global error as in C113 for a relation in place of a function (global_related). Without rounding the model is that of ChainSys (C116_exact).
* **C117 Rounding adds to the error of regularised systems only in proportion to the number of steps** — Model/RoundedRegu (regu-system.hpp with the operations of the scalar type as a parameter); the calculus of C113 (Near) for energies, the stored omega and binding energy and the two divisions (Proof/RoundedRegu); the stored quantities are reduced to one, the binding energy (for the time-transformed leap-frog: omega minus the kinetic energy, conserved by exact kicks), so that a step is a composition of two smooth flows on (time, positions, velocities, binding energy) up to a constant times u (Proof/RoundedReguRun); the true motion in the transformed time (C93), global error as in C113, and the clock's rate from below bounds the number of steps. Without rounding the model is that of ReguSys (C117_exact).
* **C118 Rounding adds to the error of ARchain systems only in proportion to the number of steps** — Model/RoundedAR (archain.hpp with the operations of the scalar type as a parameter); the state of the chain stands for that of a regularised system, up to a constant times u (the sums along a chain, C116); energies along the chain and the divided step lengths in the calculus of C113 (Proof/RoundedAR); rebuilding the chain changes what it stands for by a constant times u (C116), for each of the finitely many pairs of indices (Proof/RoundedARRun); then the true motion in the transformed time, the global error and the clock's rate as in C117, over all runs of the relation. Without rounding the model is that of ARSys (C118_exact).
* **C119 Rounding adds to the error of Bulirsch-Stoer only in proportion to the number of calls** — Model/RoundedBS (the runs, collecting increments, with the operations of the scalar type as a parameter; the iterator is that of Model/BulirschStoer with the rounded operations); what an accepted step is in any arithmetic, by induction over attempts and columns (Proof/BSAny); the runs and every entry of the table in the calculus of C113 (Proof/RoundedBS, RoundedBSRun); without rounding the new variables are the extrapolated ones of C95; stability and local errors of the weighted combinations (Proof/RoundedMix); the global error by induction over the calls.
* **C120 The energy a simulation reports is that of the start up to the errors of the integrator and of rounding** — Model/RoundedEnergy (`calc_energy_error`, `EnergyErrWriter`, with the operations of the scalar type as a parameter); the energy is constant along a motion and Lipschitz near it (compactness), the computed energies are near the exact ones uniformly on a neighbourhood of the motion (the calculus of C113), and C113 and C116–C119 say that the states are near the motion; the links of a chain are the differences of the stored coordinates up to rounding, so that the energy along the chain is near that of the coordinates; a regularised system never changes its binding energy.
* **C121 Rounding adds to the error only in proportion to the number of steps also with post-Newtonian forces** — Model/RoundedForces (`kick` in three parts, PN1 and PN2p5, operation by operation, with the operations of the scalar type as a parameter); the calculus of C113 extended to the corrections and to the auxiliary velocity bounds what rounding does to a step uniformly near the motion; the exact step is a composition of the flows of three vector fields on triples (position, velocity, auxiliary velocity) as in C100, which are stable near the motion and have the order of the integrator (Proof/LetterParts); the perturbed global error bound of C113 puts the two together.

## What is modelled
| Model file | Code |
|---|---|
| Vec3, Core | vector/vector3.hpp, core-computation.hpp |
| Lazy | vector/lazy-vec3.h, lazy-evaluation/{lazy_expr,slice,lazy_array}.h (small arrays; the multi-threaded ones do not compile) |
| Chain | particle-system/chain.hpp |
| Force, Forces | interaction/{interaction,newtonian,post-newtonian,tidal,static-gas-drag,alpha-disk,disk-capture-star}.hpp |
| Magneto, MagnetoTables | interaction/magneto-disk.hpp (tables as the decimal numbers written there; log10(0) = -∞ is below every table) |
| System | particle-system/{base-system,chain-system,regu-system,archain}.hpp |
| Integrator | integrator/symplectic/symplectic-integrator.hpp, ode-iterator/const-iterator.hpp |
| GaussRadau | integrator/Gauss-Radau.hpp, ode-iterator/IAS15.hpp |
| BulirschStoer, BSParallel, StepControl | ode-iterator/{Bulirsch-Stoer,sequent-iterator}.hpp (serial and BS_SUBSTEP_PARALLEL; trusted of taskflow: a task runs once, between its submission and `wait_for_all`), error-checker/*, step-controller/* |
| Units | macros.hpp (units and constants, not those of the planets) |
| Simulator, Callbacks | simulator.hpp, args-callback/*.hpp |
| Clock | the time in simulator.hpp, the drifts of symplectic-integrator.hpp and of the systems, rounded |
| Rounded | drift and kick of base-system.hpp under newtonian.hpp and the stages of symplectic-integrator.hpp, rounded |
| RoundedKahan | the same with the compensated types: Kahan::operator+= of kahan-number.hpp |
| RoundedCore | energies, angular momentum and centre of mass of core-computation.hpp, vector3.hpp dot/norm/cross, rounded |
| RoundedChain | chain.hpp, chain-system.hpp and the chain branch of newtonian.hpp, rounded |
| RoundedRegu | regu-system.hpp, rounded |
| RoundedAR | archain.hpp, rounded |
| RoundedBS | Bulirsch-Stoer.hpp and SimpleSystem of base-system.hpp with increments, rounded |
| RoundedEnergy | `calc_energy_error` of core-computation.hpp and EnergyErrWriter of callbacks.hpp, rounded |
| RoundedForces | `kick` of base-system.hpp with forces that depend on the velocities, PN1 and PN2p5 of post-newtonian.hpp, rounded |
| Particles | particles/*.hpp, IO.hpp (number formatting a parameter; capacities not modelled; arrays a caller resizes through an accessor are outside) |
| SmallVector | the small-vector.hpp container of type-class.hpp:35-38,55,92-94 (no throwing constructors, no allocation failure, no size overflow; `operator<` and `set_size` left out) |
| Kahan, MathFn | kahan-number.hpp, math.hpp |
| ParLoop, ThreadPool, ConcurrentFile, Opip, Ipip | multi-thread/*.hpp (sequentially consistent interleavings) |
| Tools, Misc | tools/*.hpp (ASCII), stellar/stellar.hpp, secular.hpp, scattering/hierarchical.hpp |
| Orbit, Manip, Random | orbits/*.hpp, scattering/cross-section.hpp, rand-generator.hpp |

## What is not modelled
* Rounding, overflow and signed zeros outside C34/C55/C59/C60/C91/C113–C121; the compensated types in integrators other than the symplectic ones and in chain and regularised systems, except the time (C91); mpfr.hpp and the extended-precision types; vectorised vectors (vector3d.hpp, vector3pd.hpp: their includes in vector3.hpp are commented out).
* Weak memory, exceptions thrown by allocation, I/O errors; the file system and the clock are parameters.
* Vendored code: taskflow, mpfr.hpp; lazy-evaluation/mkl-array.h (calls to MKL). Compile-time code: spacehub-concepts.hpp, type-class.hpp, the reflection macros of dev-tools.hpp except the arrays they generate (Particles).
* Code that does not compile when used, and so has no behaviour: interaction/disk.hpp (undeclared names), tools/any-vector.hpp, hierarchical.hpp's get_hierarchical_struct, octree.hpp, ConcurrentDeque, Costream's operator<<, E_tid with two arguments, the call operator of StickyCollision (private; its body is modelled).
* Empty function bodies: secular.hpp GW_dadt, radial_tidal_dadt.

## Faults of the code found, each with its theorem
* C05 The chain starts from the closest pair and links nearest neighbours first: The greedy claim is false of the code: `k = 1` followed by the loop's ++k skips dist[1] on every rescan (C05_not_greedy, particles at 0,1,4,6 give 3,0,1,2). Proved: closest pair adjacent; greedy except for the second-shortest pair; fully greedy when the two shortest pairs share a particle, or N<=3.
* C10 Post-Newtonian forces do not depend on particle labelling: PN1 and PN2.5 proved for every N (each equals the literature two-body formula, chain = direct). PN2: the claim is false of the code (C10_pn2_depends_on_labels): Bj contains 5*v1s*nv2 where label exchange of Bi gives 5*v1s*nv1; C10_pn2_pair_partial gives the exact value the code computes for a pair.
* C23 A run with the end time in the past: False of the code: with a constant positive step and the end time further back than a step the run never returns (C23_never_returns); with a longer step it evolves backwards in time (C23_runs_backwards). Proved: an end time already reached gives no steps (C23_end_time_reached).
* C26 LogTimeSlice output times: Proved for windows longer than 1. False of the code for windows of length <= 1 (hangs / never fires) and after reset (start time not updated): C26_hangs_*, C26_never_fires_on_short_window.
* C28 Bulirsch-Stoer never leaves its tables: False of the code: a first step accepted in the last column sets the target order to max_depth, and the next call reads and writes outside the tables (C28_leaves_its_tables). Proved for every arithmetic: the first call is safe, and all later calls are safe with target order in [1, max_depth-1] unless the first was accepted in the last column; the order is at least 2 once it was.
* C30 Bulirsch-Stoer on a user function advances time by the step: False of the code: every sub-integration and the final update advance the caller's time, so it moves by at least three steps (C30_time_advances_too_far). Proved: the data returned, for derivatives that do not depend on time.
* C31 Step-size controller limits: False of the code in one clause: set_limiter changes members that are read only in the constructor, so the limits never change (C31_set_limiter_no_effect). All other clauses proved in exact arithmetic; an order of 50 or more reads outside the tables (C31_orders).
* C32 SequentOdeIterator accepts only a converged result: False of the code: without convergence the call returns the result of 18 sub-steps although that of 20 was computed and did not agree (C32_unconverged_result_accepted). Proved for the four system kinds and every drift/kick integrator: in the converged case the finest result is returned; the exact outcome in the other case.
* C34 Compensated summation: Binary floating point of every precision, unbounded exponent (no overflow), every rounding to nearest. Proved for all histories of += and -= for Neumaier and Klein; for Kahan only when each operand is smaller than the value it is added to - otherwise false of the code (C34_kahan_loses: 1 + B - B shows 0 and carries no error; this Neumaier shares it). Scaling (C34_scaling_wrong: (B+1)/B + 0 shows 2), negation (C34_negation_wrong) and reading a Klein number (C34_klein_read_wrong) do not keep the meaning.
* C35 Bisection keeps a bracket: Exact arithmetic. Bracket, halving, evaluation points and returned point proved for every function with a sign change, and termination when the root is not 0. False of the code when the only root in the bracket is 0: the tolerance is relative to the midpoint and is never met (C35_root_zero_never_ends; in floating point it ends only after underflow).
* C36 Parallel loop covers every index exactly once: Proved when the length is a multiple of the number of threads or leaves a remainder smaller than the share of one thread (e.g. always for at least threads^2 indices). False of the code otherwise: the last total % threads indices are handed to no thread (C36_drops_the_remainder); with fewer indices than threads nothing is processed (C36_short_loops_do_nothing); 0 threads is a division by zero.
* C37 Thread pool runs every accepted task exactly once: Every number of workers and committers, capacity and schedule, sequentially consistent atomics. Proved: order, at most once, capacity, and that all accepted tasks are run as long as the pool is not destroyed. False of the code: the destructor can hang for ever (C37_destructor_hangs: stop_ is set without the mutex, lost wake-up), drops accepted tasks (C37_drops_accepted_tasks) and tasks can be accepted after it was entered (C37_accepts_after_shutdown).
* C39 Particle containers stay rectangular and ids identify particles: Every history, all four particle types: the containers act as a plain list of particles (proved). Ids: proved 0..number()-1 as long as no resize adds particles; false of the code otherwise, a growing resize gives the new particles the id 0 (C39_resize_duplicates_ids).
* C43 Coordinates to orbit inverts: Proved for the overload returning the orbit, every state of non-zero angular momentum. False of the code: for a parabola the overload with output argument has its test inverted and divides by zero (C43_overload_parabola), and the argument of periapsis comes back turned by pi (C43_recovers, C70).
* C44 Anomaly conversions: Proved: true <-> eccentric anomaly for every kind of orbit; mean -> eccentric for |M| up to pi (ellipse), e sinh pi - pi (hyperbola), pi + pi^3/3 (parabola). False of the code beyond these ranges, where it silently returns about -pi (C44_mean_out_of_range), and a negative eccentricity is accepted with a mean anomaly within the tolerance of 0 (C44_negative_eccentricity).
* C45 Tidal factor and tidal radius are inverse: Proved for the scalar functions and the groups-with-radius overload. False of the code for two groups: tidal_factor(cluster1, cluster2) measures the distance from the first group to itself, so the value is never finite (C45_groups_never_finite).
* C46 Truncated random draws respect their bounds: Proved for explicit bounds. False of the code with defaults: the lower bound is the smallest positive number, not minus infinity, so no value <= 0 is ever accepted (C46_default_positive) and a generator that gives none hangs (C46_default_hangs).
* C50 Output header and energy reference are per run: Header: proved. Energy reference: false of the code, the first energy is kept in a function-local static shared by all simulations of the process (C50_second_simulation_wrong); proved for the first simulation.
* C54 Integrators have their nominal order on oscillators: Proved for 2nd (DKD, KDK), 4th, 6th, 8th. False of the code for Symplectic10th (C54_not_10th, C54_10th_not_6th): its tabulated coefficients only give a 4th-order scheme (C54_10th_is_4th_order).
* C56 Stateful stop conditions keep their state between checks: False of the code: check_stops copies the condition for each check (C56_members_lost), so e.g. a StepSlice used as stop condition never advances (C56_step_slice_never_advances).
* C60 A result containing NaN is never accepted: Proved for RMS. False of the code for WorstOffender, MaxRatioError and the estimates of IAS15 (C60_ias15_ignores_nan): the maximum skips NaN, so a NaN result is accepted (C60_worst_offender_accepts_nan, C60_max_ratio_accepts_nan).
* C61 Derivative handed to Gauss-Radau is the true derivative: False of the code for LogH with extra forces: the rate of the binding energy uses the total acceleration instead of the extra one (C61_wrong_energy_rate), even if the extra force is 0. Proved for plain and chain systems and otherwise for regularised ones, plain or chain.
* C62 An IAS15 step ends: False in exact arithmetic: with a derivative that jumps at the start of the step it rejects for ever (C62_never_ends). Proved: it ends unless ever shorter steps keep being rejected (C62_only_by_rejection_partial); free motion ends after one correction with the exact result; under gravity, for particles in different places (none at the origin without velocity and acceleration), all sufficiently short steps end after one correction (C62_small_steps_partial), and so do, from every state in which the forces are smooth, sufficiently short steps with any additional forces on plain, chain, regularised and AR-chain systems (C62_forces_partial, C62_chain_forces_partial, C62_regularised_partial, C62_archain_partial).
* C64 Spawned threads get the callable and arguments given: Proved for lvalue arguments. False of the code for rvalues: std::forward inside the loop moves the argument into the first thread (C64_rvalues_moved_from).
* C66 Input pipe hands out every record once and in order: Every number of consumers, file and schedule, provided the constructor ends before the loader's first step. False of the code otherwise (C66_quick_loader_hangs), and a file that ends with a newline gives an extra junk record (C66_final_newline_gives_junk).
* C67 A particle written to a stream can be read back: False of the code: operator<< separates the fields by commas, operator>> expects white space, so reading back fails after the mass (C67_written_particle_not_readable). Proved: both use the same order of fields, and white-space separated fields are read correctly.
* C68 Command line arguments reach their variables: Proved for arguments without white space that are not empty. False of the code otherwise: arguments are joined by blanks and split again (C68_quoted_argument_split, C68_empty_argument_skipped).
* C69 The timer measures its running time: Proved in seconds (the documentation says milliseconds) as long as start is not called on a running timer; false of the code otherwise, the time between the two calls is lost (C69_restart_loses_time).
* C70 Coordinates to orbit to coordinates: False of the code: orbit_to_coord adds pi to the argument of periapsis, coord_to_orbit does not subtract it. The theorems give exactly what comes back in each of the four cases (inclined/planar, eccentric/circular).
* C72 Time to periapsis: Proved for parabolas and hyperbolas. False of the code for ellipses: the value is the time since periapsis (C72_ellipse_elapsed); the overload on kind, parameter and mean anomaly returns the time since periapsis for all kinds (C72_overload_elapsed); an orbit of type None is undefined behaviour.
* C77 Scattering set-ups: b_max, critical_vel and the geometry of one incident orbit proved. False of the code: incident orbits of different impact parameter do not come from one common direction (C77_incident_not_common).
* C78 Random draws follow their law within the limits: Proved for power >= -1 and for the logarithmic and normal distributions. False of the code for power < -1: the limits are handed to the uniform distribution in descending order, which is undefined behaviour (C78_power_law_steep).
* C79 Tabulated gas disc: tables are read inside their bounds: False of the code: Mach numbers from 10^1.9999999999999979 to 100 read behind the table (C79_drag_reads_outside); inside proved for every Mach number.
* C80 Tabulated gas disc: values are the interpolated tables: False of the code: the cell is computed as if the grid were uniform, so that the value is not the interpolation and the density jumps by more than 3% (C80_density_jumps, C80_density_not_interpolated); bounds of the profiles proved.
* C81 Tabulated gas disc: drag opposes the motion through the gas and conserves momentum: False of the code for a particle at rest relative to the gas: NaN (C81_at_rest_nan). Direction, momentum and definedness proved for all others.
* C82 Hierarchy tests decide by two-body and total energy: check_most_bound proved. False of the code for check_unbound with more than two nodes: only the last node's potential counts (C82_unbound_only_last, C82_bound_counts_as_unbound).
* C83 Quadrupole eccentric Lidov-Kozai time scale: False of the code: an operator precedence error makes the value m1+m2 times the right one (C83_timescale_factor).
* C85 Automatic file names do not repeat: Proved for one prefix and a clock that never goes back. False of the code if prefixes alternate within a second or the local time repeats (C85_alternating, C85_repeated_time).
* C87 Dynamical friction factor of the alpha disc: Sign, formulae, continuity and derivative proved for every other Mach number. False of the code at Mach number 0.1 exactly: the connecting cubic is evaluated far outside its window and the factor jumps to more than 200 times that of slower particles (C87_tenth); the tiny step of the leading term at 0.1 is bounded by C87_formula.
* C91 Rounding does not keep a run from ending: False of the code: a step far below the spacing of numbers at the current time never advances the plain clock and the run never returns (C91_stagnates); with time_rtol 0 it can hang one unit before the end (C91_zero_tolerance), and rounding can carry it past the end by a unit (C91_passes_end). Proved: steps and tolerances above 1.6e-12 in double precision (C91_double; in general C91_ends), and the compensated clock for steps down to 16*2^(-2p) of the end time with the leap-frog (C91_compensated). C91_clock: without rounding this clock is that of the simulator model.
* C94 Lazily evaluated vectors and arrays: Assignments proved for every expression that reads no overwritten element, in particular all elementwise ones; slices with stride 1 or -1 that do not run backwards over the beginning. False of the code otherwise: v = v / v.x divides only the first element (C94_own_element), reversing in place duplicates (C94_reversed_in_place), the length of a slice ignores the stride (C94_stride_ignored), slice(0, size) has one element (C94_whole_is_one) and backward slices wrap around 2^64 (C94_slice_backwards).
* C99 The parallel Bulirsch-Stoer iterator computes what the serial one computes: False of the code: the closure integrate_with_stride is a static local variable that captures `this` and the local variable iter_h of the first call in the process, so every later call reads a dead variable (C99_later_call_undefined), and even if it lies at the same place a second iterator object fills the table of the first and never moves its system (C99_second_object_stuck, C99_second_object_never_moves). Proved: no data race and no endless schedule for any call (C99_race_free, C99_phase_ends); the calls whose closure is their own agree with the serial variant, failures included, under every schedule (C99_own_closure_partial for plain systems, C99_chain_partial for chain systems); for regularised and regularised chain systems such calls, if they return, return what the serial call returns, up to step_scale() (C99_regularized_partial, C99_regularized_chain_partial).
* C101 Bulirsch-Stoer keeps its order with additional forces: False of the code for LeapFrogKDK with velocity-dependent forces: a velocity update is then itself composed of three updates, so the two half updates between neighbouring sub-steps, which the iterator joins into one, are not the same as one; the error of the runs has odd powers of the sub-step length, which the extrapolation in even powers keeps. For the drag of the library every macro step is off by at least a constant times the third power of the step, however many runs it extrapolates from (C101_kdk_third_power). Proved: the order for LeapFrogDKD (as in all methods the library names), and for both leap-frogs if no force depends on the velocities, plain (C101_order, C101_library) and chain systems (C101_chain). Exact real arithmetic.
* C108 A container accepts its own elements as arguments: False of the code: push_back, append and resize with an element of a full container read memory that was given back or an element that was destroyed, unless the elements are trivially copyable and in the inline buffer (C108_push_back, exactly when, C108_push_back_full, C108_append_resize); assign of an element that is not trivially copyable always does (C108_assign); insert(p, n, v[j]) with j at least n behind p inserts copies of what was v[j-n] (C108_insert_copies, trivially copyable elements). Proved: insert(p, v[j]) is right when there is room (C108_insert), push_back otherwise.
* C110 IAS15 with the logarithmic Hamiltonian and additional forces follows the true motion: False of the code: because the rate of the binding energy is computed from the total acceleration (C61), the clock of a LogH system with additional forces runs at a constant rate, and IAS15 converges to the motion with the accelerations multiplied by the ratio of the initial to the present potential energy (C110_regularised_misled, C110_archain_misled), even when the additional forces do nothing. From every state in which the potential energy changes and a particle is accelerated the result stays away from the true motion however small the steps (C110_regularised_wrong, C110_archain_wrong, C110_library_wrong); it is right exactly as long as the potential energy does not change (C110_unchanged).
* C111 Bulirsch-Stoer on a user function shortens a step that is too long: False of the code: the overload for user functions never takes away the mark of the first step, so that no step is ever rejected: a call looks at the columns up to the target order plus 1 with the step given, accepts the first whose error is small enough and otherwise repeats the same computation 100 times and terminates the process (C111_outcome, the exact outcome of every call; C111_never_shortens). The target order becomes the number of the accepted column, so an easy call makes the next, harder one fail (C111_easy_call_spoils), and a call accepted in the last column makes it leave the tables (C111_leaves_its_tables). Proved: what is returned is the extrapolated result of the full step with an error estimate of at most 1 (C111_full_step). Derivatives that do not depend on time (for others see C30).
* C112 Units and constants fit together: False of the code in one clause: consts::kB_on_mp is 0.1 % smaller than kB / mp (C112_kB_on_mp_wrong). All other clauses proved in exact arithmetic with the exact value of pi; the constants of the planets (macros.hpp:83-97) are not modelled.
