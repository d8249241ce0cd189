{"id": "C01", "title": "Chain index is a permutation of the particles", "statement": "Building the chain index for N>=2 particles always terminates and yields a list in which every particle 0..N-1 occurs exactly once, whatever the geometry and however ties between equal distances are ordered by the sort; with fewer than two particles the call reads a non-existent pair (undefined behaviour) instead of producing an index.", "quantifier": "every N>=2, every set of positions (every total preorder of the pair distances), every order std::sort may give to equal distances", "why_tests_cant": "the number of distance orderings is (N(N-1)/2)! and ties are resolved by an unstable sort", "anchors": ["src/particle-system/chain.hpp: Chain::calc_chain_index, create_distances_array, create_index_from_dist_array, try_add_to_chain, try_insert"]}
{"id": "C02", "title": "Cartesian -> chain -> Cartesian round trip", "statement": "Converting coordinates to chain coordinates and back along the same index returns every coordinate unchanged (exact arithmetic), for any permutation used as index.", "quantifier": "every N>=1, every coordinate array, every permutation index", "why_tests_cant": "N! indices times a continuum of coordinates", "anchors": ["src/particle-system/chain.hpp: Chain::calc_chain, calc_cartesian, to_chain, to_cartesian"]}
{"id": "C03", "title": "Chain -> Cartesian -> chain round trip", "statement": "Rebuilding Cartesian coordinates from chain coordinates and converting them again gives back the same chain coordinates (exact arithmetic), for any permutation used as index.", "quantifier": "every N>=1, every chain array, every permutation index", "why_tests_cant": "N! indices times a continuum of coordinates", "anchors": ["src/particle-system/chain.hpp: Chain::calc_chain, calc_cartesian"]}
{"id": "C04", "title": "Re-indexing a chain keeps it equal to the chain of the new index", "statement": "When the chain is re-ordered from an old index to a new one, updating the chain array in place gives exactly the array that building the chain of the new index from the Cartesian coordinates would give.", "quantifier": "every N>=1, every pair of permutations (old,new), every coordinate array", "why_tests_cant": "(N!)^2 transitions", "anchors": ["src/particle-system/chain.hpp: Chain::update_chain, get_new_node"]}
{"id": "C05", "title": "The chain starts from the closest pair and links nearest neighbours first", "statement": "The two particles of the closest pair are neighbours in the chain index, and the index is what greedily extending the two ends with the shortest remaining usable distance gives.", "quantifier": "every N>=2 and every set of pair distances", "why_tests_cant": "continuum of geometries; the rescan bug only shows when the second-shortest pair becomes usable later", "anchors": ["src/particle-system/chain.hpp: create_index_from_dist_array"]}
{"id": "C06", "title": "Chain and direct Newtonian accelerations agree", "statement": "For a chain system whose chain coordinates belong to its Cartesian coordinates, the Newtonian acceleration computed along the chain equals the one computed by the direct double loop over particles (exact arithmetic), and no memory outside the N accelerations is touched; both ADD to what the array held before. With exactly one particle the chain variant's loop bound wraps around (undefined behaviour).", "quantifier": "every N>=2, every masses/positions, every permutation index", "why_tests_cant": "N! indices, continuum of configurations", "anchors": ["src/interaction/newtonian.hpp: NewtonianGrav::add_acc_to"]}
{"id": "C07", "title": "Newton's third law", "statement": "The Newtonian accelerations satisfy sum_i m_i a_i = 0 and sum_i m_i r_i x a_i = 0 (exact arithmetic), in the direct and in the chain evaluation.", "quantifier": "every N, every masses, positions", "why_tests_cant": "continuum of configurations", "anchors": ["src/interaction/newtonian.hpp: NewtonianGrav::add_acc_to"]}
{"id": "C08", "title": "Chain and direct potential energy agree", "statement": "The potential energy computed along the chain equals the sum of -G m_i m_j / r_ij over all unordered pairs and equals the non-chain computation; it does not depend on the index used.", "quantifier": "every N>=2, every permutation index, every configuration", "why_tests_cant": "N! indices, continuum of configurations", "anchors": ["src/core-computation.hpp: calc::calc_potential_energy"]}
{"id": "C09", "title": "Moving to the centre of mass", "statement": "After moving to the centre-of-mass frame the mass-weighted mean position and velocity are exactly zero whenever total mass is non-zero, relative coordinates are unchanged, and doing it again changes nothing.", "quantifier": "every N>=1, all masses with non-zero sum, all coordinates", "why_tests_cant": "continuum of inputs", "anchors": ["src/core-computation.hpp: calc::calc_com, move_to_com", "src/orbits/particle-manip.hpp: COM_p, COM_v, move_particles, move_to_COM_frame"]}
{"id": "C10", "title": "Post-Newtonian forces do not depend on particle labelling", "statement": "For PN1, PN2 and PN2.5, the acceleration of each body of a pair does not depend on which of the two is listed first, so that chain systems (which visit pairs in chain order) and plain systems compute the same accelerations.", "quantifier": "every N>=2, every masses, positions, velocities, every permutation index", "why_tests_cant": "continuum of configurations times N! orders", "anchors": ["src/interaction/post-newtonian.hpp: PN1::add_acc_to, PN2::add_acc_to, PN2p5::add_acc_to"]}
{"id": "C11", "title": "Splitting of the forces is complete", "statement": "The total acceleration equals internal + velocity-independent external + velocity-dependent external acceleration: every registered extra force is evaluated exactly once in the total and in exactly one of the two groups; the compile-time flags say whether each group is empty.", "quantifier": "every list of extra forces (any length, any mix), every particle state", "why_tests_cant": "unbounded list of template arguments", "anchors": ["src/interaction/interaction.hpp: Interactions::eval_acc, eval_extra_acc, eval_extra_vel_dep_acc, eval_extra_vel_indep_acc, ext_vel_dep, ext_vel_indep"]}
{"id": "C12", "title": "Dissipative pair forces conserve momentum", "statement": "The tidal, alpha-disk and disk-capture forces give opposite momentum changes to the two bodies of each interacting pair: sum_i m_i a_i = 0.", "quantifier": "every N, every non-zero masses, radii, positions, velocities", "why_tests_cant": "continuum of configurations", "anchors": ["src/interaction/tidal.hpp: Tidal::add_acc_to", "src/interaction/alpha-disk.hpp: AlphaDisk::add_acc_to", "src/interaction/disk-capture-star.hpp: DiskCaptureStar::add_acc_to"]}
{"id": "C13", "title": "State <-> scalar array round trip", "statement": "For every particle system, writing the state to a flat scalar array and reading it back restores time, positions, velocities and (when present) auxiliary velocities and regularisation variables; the array has the advertised number of variables; the chain systems' Cartesian state is restored too. Reading an array of any other length aborts and changes nothing.", "quantifier": "all four systems, every N, with and without velocity-dependent forces, every state", "why_tests_cant": "unbounded N and state; off-by-k slicing only shows for particular N", "anchors": ["src/particle-system/base-system.hpp, chain-system.hpp, regu-system.hpp, archain.hpp: write_to_scalar_array, read_from_scalar_array, variable_number", "src/type-class.hpp: load_to_coords, add_coords_to"]}
{"id": "C14", "title": "Cartesian coordinates always belong to the chain", "statement": "After any sequence of drifts, kicks, state loads and end-of-step index rebuilds, the Cartesian positions and velocities of the chain systems are the ones described by their chain coordinates and current index, and the index is a permutation.", "quantifier": "every N>=2, every finite sequence of public operations, every force law", "why_tests_cant": "unbounded histories", "anchors": ["src/particle-system/chain-system.hpp: ChainSystem", "src/particle-system/archain.hpp: ARchainSystem"]}
{"id": "C15", "title": "Momentum conservation and uniform centre-of-mass motion", "statement": "For an isolated system (internal pairwise forces only) any sequence of drifts and kicks leaves the total momentum unchanged and moves sum m_i r_i by momentum times the elapsed physical time.", "quantifier": "every N, masses, states, every finite sequence of drift/kick step sizes, all four systems", "why_tests_cant": "unbounded histories, continuum of states", "anchors": ["src/particle-system/*.hpp: drift, kick"]}
{"id": "C16", "title": "Angular momentum conservation", "statement": "For an isolated Newtonian system any sequence of drifts and kicks leaves the total angular momentum unchanged (exact arithmetic).", "quantifier": "every N, masses, states, every finite sequence of step sizes", "why_tests_cant": "unbounded histories", "anchors": ["src/particle-system/*.hpp: drift, kick", "src/core-computation.hpp: calc_total_angular_momentum"]}
{"id": "C17", "title": "Time bookkeeping of the integrators", "statement": "One step of size h of the symplectic integrators of every order advances the time of a non-regularised system by exactly (sum of drift coefficients)*h, which is h up to the decimal precision of the tabulated coefficients; the leap-frogs advance it by exactly h; n Bulirsch-Stoer sub-steps advance it by exactly h.", "quantifier": "every h, state, force law, number of substeps n", "why_tests_cant": "unbounded n and states", "anchors": ["src/integrator/symplectic/symplectic-integrator.hpp", "src/ode-iterator/Bulirsch-Stoer.hpp: integrate_by_n_steps"]}
{"id": "C18", "title": "Time reversibility", "statement": "With velocity-independent forces, integrating one step with h and then one step with -h returns to the initial state exactly (exact arithmetic) for the leap-frogs and every symplectic composition, in plain and chain systems and, for logarithmic-Hamiltonian and time-transformed-leapfrog regularisation, in regularised systems.", "quantifier": "every N, state, step size, position-dependent force law", "why_tests_cant": "continuum of states", "anchors": ["src/integrator/symplectic/symplectic-integrator.hpp", "src/particle-system/*.hpp: drift, kick"]}
{"id": "C19", "title": "Collected increments equal the state change", "statement": "With increment collection switched on and cleared, after any sequence of drifts and kicks the collected increments are exactly the difference between the current and the initial state variables.", "quantifier": "every finite sequence of drift/kick, every state", "why_tests_cant": "unbounded histories", "anchors": ["src/particle-system/*.hpp: sync_increment, clear_increment, drift, kick, chain_advance"]}
{"id": "C20", "title": "Callback discipline of a run", "statement": "In a run that ends, start operations are called exactly once on the initial state, step operations exactly once on every visited state in order (number of steps + 1 times, including first and last), stop operations exactly once on the last state, each group in registration order.", "quantifier": "every number of registered callbacks, every evolution, every stop condition", "why_tests_cant": "unbounded run lengths", "anchors": ["src/simulator.hpp: Simulator::run", "src/simulator.hpp: RunArgs"]}
{"id": "C21", "title": "A run ends exactly at the end time and never overshoots", "statement": "With a constant-step integrator and no regularisation, starting before the end time with a positive step, a run terminates after finitely many steps, never passes the end time, and ends at it exactly or within the relative time tolerance; run() refuses to start when neither an end time nor a stop condition is given.", "quantifier": "every start time, positive end time, step size, tolerance", "why_tests_cant": "continuum of times, unbounded run lengths", "anchors": ["src/simulator.hpp: Simulator::run"]}
{"id": "C22", "title": "A run stops at the first state satisfying a stop condition", "statement": "The evolution stops at the first visited state on which some registered stop condition holds (or whose time is the end time), and no earlier; the conditions are asked in registration order and the ones after the first true one are not asked.", "quantifier": "every list of (stateful) stop conditions, every evolution", "why_tests_cant": "unbounded runs and histories of stateful callbacks", "anchors": ["src/simulator.hpp: RunArgs::check_stops, Simulator::run", "src/args-callback/callbacks.hpp: StepSlice, TimeSlice"]}
{"id": "C23", "title": "A run with the end time in the past", "statement": "run() with an end time not after the current time finishes without evolving the system.", "quantifier": "every start/end time pair", "why_tests_cant": "needs a termination argument", "anchors": ["src/simulator.hpp: Simulator::run"]}
{"id": "C24", "title": "StepSlice fires every interval-th call", "statement": "A StepSlice with interval k>0 runs its operation exactly on calls number 0,k,2k,... since the last reset, hence ceil(n/k) times in n calls; interval 0 is undefined behaviour.", "quantifier": "every k, every number of calls, every reset history", "why_tests_cant": "unbounded call sequences", "anchors": ["src/args-callback/callbacks.hpp: StepSlice"]}
{"id": "C25", "title": "TimeSlice output times", "statement": "A TimeSlice over [start,end] with n slices fires at most once per call and never outside [start,end]; its k-th firing happens at the first call whose time is >= start + k*(end-start)/n after the previous firing; at most n+1 firings; if the calls are spaced closer than the slice width it fires exactly once per slice passed.", "quantifier": "every call-time sequence, every start<end, n", "why_tests_cant": "unbounded sequences of call times", "anchors": ["src/args-callback/callbacks.hpp: TimeSlice"]}
{"id": "C26", "title": "LogTimeSlice output times", "statement": "A LogTimeSlice fires at most once per call, only within [start,end], and after firing at time t its next firing time is > t; every call terminates.", "quantifier": "every call-time sequence, every start<end, n", "why_tests_cant": "unbounded call sequences; termination of the catch-up loop", "anchors": ["src/args-callback/callbacks.hpp: LogTimeSlice"]}
{"id": "C27", "title": "Bulirsch-Stoer extrapolation is exact on even polynomials", "statement": "If the result of the n-step base integrator is a polynomial of degree <= k in (h/n)^2, extrapolating k+1 results gives exactly its value at zero step size, for the tabulated and for the arithmetic step sequences.", "quantifier": "every depth k, every polynomial, every dimension", "why_tests_cant": "unbounded k and coefficients", "anchors": ["src/ode-iterator/Bulirsch-Stoer.hpp: BulirschStoerConsts, extrapolate, checkout_initial..."]}
{"id": "C28", "title": "Bulirsch-Stoer never leaves its tables", "statement": "At every step of every run the extrapolation order stays inside the allocated tables (columns 0..max_depth), and after the first accepted step the target order stays in [2, max_depth-1].", "quantifier": "every sequence of error estimates (every ODE, tolerance, step)", "why_tests_cant": "unbounded histories of error estimates", "anchors": ["src/ode-iterator/Bulirsch-Stoer.hpp: iterate, set_next_iteration, is_diverged_anyhow, in_converged_window"]}
{"id": "C29", "title": "Bulirsch-Stoer acceptance and restoration", "statement": "A Bulirsch-Stoer step returns only after an extrapolated result whose error estimate is <= 1; the state it leaves is the initial state plus that extrapolated increment; every rejected attempt restarts from the unchanged initial state; otherwise the program aborts after the retry limit.", "quantifier": "every history of error estimates, every ODE", "why_tests_cant": "unbounded histories", "anchors": ["src/ode-iterator/Bulirsch-Stoer.hpp: iterate"]}
{"id": "C30", "title": "Bulirsch-Stoer on a user function advances time by the step", "statement": "Integrating a user-supplied derivative function with the Bulirsch-Stoer iterator advances the caller's time variable by exactly the step taken.", "quantifier": "every ODE, step, error history", "why_tests_cant": "depends on the accepted order", "anchors": ["src/ode-iterator/Bulirsch-Stoer.hpp: iterate(func, data, time, step), integrate_by_n_steps"]}
{"id": "C31", "title": "Step-size controller limits", "statement": "The adaptive step controller never multiplies a step by more than its upper limiter nor less than its lower limiter for the given order, is monotone (larger error, no larger next step), keeps the sign of the step, maps error 0 to the upper limit; changing the limiter settings changes the limits.", "quantifier": "every order, error, old step, limiter setting", "why_tests_cant": "continuum of errors", "anchors": ["src/ode-iterator/step-controller/PID-controller.hpp: PIDController::next_step_size, set_limiter, limiter"]}
{"id": "C32", "title": "SequentOdeIterator accepts only a converged result", "statement": "The refinement iterator returns the finest result it computed, and only when two successive refinements agree within tolerance.", "quantifier": "every error history", "why_tests_cant": "histories of error estimates", "anchors": ["src/ode-iterator/sequent-iterator.hpp: SequentOdeIterator::iterate"]}
{"id": "C33", "title": "IAS15 step acceptance", "statement": "An IAS15 step is accepted only when the predictor-corrector iteration has ended (its last change was below tolerance or no smaller than the one before, within 30 corrections) and the proposed new step is more than limiter_min times the current one; a rejected attempt leaves the particle state unchanged and retries with a step at most a quarter as long; the state returned is the initial one plus the integral of the fitted derivative polynomial; the next step grows at most by the upper limiter.", "quantifier": "every history of convergence/error estimates", "why_tests_cant": "histories of error estimates", "anchors": ["src/ode-iterator/IAS15.hpp: IAS15::iterate"]}
{"id": "C34", "title": "Compensated summation", "statement": "The Kahan, Neumaier and Klein compensated numbers represent the running sum: in exact arithmetic value = sum and the error is 0, and in binary floating-point arithmetic with any rounding to nearest, after any sequence of += and -=, value plus carried error differs from the exact sum by at most the roundings of the operands (Kahan, Neumaier) or by second-order terms only (Klein), and the value itself by one rounding more; scaling, negation and reading from a stream keep that meaning.", "quantifier": "every sequence of += / -= of any length, every precision and every rounding to nearest", "why_tests_cant": "unbounded sequences, all roundings", "anchors": ["src/kahan-number.hpp: Kahan, Neumaier, Klein operator+=, operator-=, operator*=, operator/=, operator-, operator>>"]}
{"id": "C35", "title": "Bisection keeps a bracket", "statement": "root_bisection on a function with a sign change keeps a sign change inside its interval, halves the interval each iteration, only ever evaluates inside it, and returns a point within the relative tolerance of a sign change.", "quantifier": "every function with opposite signs at the ends (continuous for the root claim), every bracket", "why_tests_cant": "continuum of functions", "anchors": ["src/math.hpp: root_bisection, in_range, sign"]}
{"id": "C36", "title": "Parallel loop covers every index exactly once", "statement": "The multi-threaded loop hands each index 0..total-1 to exactly one thread, for every number of threads.", "quantifier": "every total length and every thread count", "why_tests_cant": "unbounded pairs", "anchors": ["src/multi-thread/multi-thread.hpp: multi_threads_loop, multi_thread"]}
{"id": "C37", "title": "Thread pool runs every accepted task exactly once", "statement": "Every task accepted by the thread pool before it is destroyed is executed exactly once, tasks start in commit order, no task is accepted after shutdown began, and the destructor returns.", "quantifier": "every interleaving of committers, workers and the destructor, every pool size", "why_tests_cant": "schedules", "anchors": ["src/multi-thread/thread_pool.h: ThreadPool"]}
{"id": "C38", "title": "Concurrent file writes are atomic lines", "statement": "Text written through a shared concurrent file by one call is never interleaved with text of another call, for every schedule.", "quantifier": "every interleaving of any number of writers", "why_tests_cant": "schedules", "anchors": ["src/multi-thread/multi-thread.hpp: ConcurrentFile", "src/multi-thread/ciostream.hpp"]}
{"id": "C39", "title": "Particle containers stay rectangular and ids identify particles", "statement": "After any sequence of emplace_back, resize, reserve, clear the arrays of a particle container all have length number(), and different particles have different ids.", "quantifier": "every operation history, all four particle types", "why_tests_cant": "unbounded histories", "anchors": ["src/particles/point-particles.hpp, finite-size.hpp, tide-particles.hpp, drag-particles.hpp: resize, clear, emplace_back"]}
{"id": "C40", "title": "CSV header matches the rows", "statement": "For every particle type the printed header names exactly the columns printed for each particle, in the same order.", "quantifier": "all particle types, every N, every values", "why_tests_cant": "all particle counts", "anchors": ["src/particles/*.hpp: column_names, operator<<", "src/args-callback/callbacks.hpp: DefaultWriter"]}
{"id": "C41", "title": "Configuration file semantics", "statement": "Reading a configuration file ignores blank lines, whitespace and comment lines; each remaining line 'key divider value' defines key; the last definition wins; asking for an undefined key aborts.", "quantifier": "every file content", "why_tests_cant": "unbounded text", "anchors": ["src/tools/config-reader.hpp: ConfigReader"]}
{"id": "C42", "title": "Orbit to coordinates keeps the orbital invariants", "statement": "The position and velocity produced from a Kepler orbit have distance p/(1+e cos nu), squared angular momentum u p, specific energy -u(1-e^2)/(2p), and an angular-momentum direction given by inclination and node; rotation by the Euler angles is orthogonal.", "quantifier": "every orbit with p>0, e>=0, 1+e cos nu>0, all angles", "why_tests_cant": "continuum", "anchors": ["src/orbits/orbits.hpp: orbit_to_coord, euler_rotate"]}
{"id": "C43", "title": "Coordinates to orbit inverts", "statement": "Eccentricity and semi-latus rectum recovered from the coordinates of an orbit are the ones it was created from; both coord_to_orbit overloads agree.", "quantifier": "every non-degenerate orbit", "why_tests_cant": "continuum", "anchors": ["src/orbits/orbits.hpp: coord_to_orbit, calc_eccentricity, calc_a_e"]}
{"id": "C44", "title": "Anomaly conversions", "statement": "True <-> eccentric anomaly conversions are mutually inverse, mean -> eccentric anomaly solves Kepler's equation to the stated tolerance for every mean anomaly accepted, and negative eccentricities are rejected.", "quantifier": "every eccentricity >=0 and anomaly in range", "why_tests_cant": "continuum", "anchors": ["src/orbits/orbits.hpp: T_anomaly_to_E_anomaly, E_anomaly_to_T_anomaly, E_anomaly_to_M_anomaly, M_anomaly_to_E_anomaly"]}
{"id": "C45", "title": "Tidal factor and tidal radius are inverse", "statement": "At the tidal radius returned for a factor the tidal factor is that factor; the cluster overload computes the factor of the two clusters it is given.", "quantifier": "all positive masses, radii, factors", "why_tests_cant": "continuum", "anchors": ["src/orbits/orbits.hpp: tidal_factor, tidal_radius", "src/orbits/particle-manip.hpp: tidal_factor"]}
{"id": "C46", "title": "Truncated random draws respect their bounds", "statement": "TruncatedNormal, TruncatedMaxwellian and Parameter::draw only return values inside the requested bounds, namely the first such value of the underlying stream; with default bounds a Parameter returns every drawn value.", "quantifier": "every random stream", "why_tests_cant": "all streams", "anchors": ["src/rand-generator.hpp: TruncatedNormal, TruncatedMaxwellian, Parameter"]}
{"id": "C47", "title": "Gauss-Radau tables and predictor", "statement": "The tabulated sub-steps are the Gauss-Radau nodes and all tables belong to them; the g<->b conversions are mutually inverse; a corrector sweep makes the derivative polynomial pass through the derivatives evaluated at the sub-steps; a fixed point of the corrector is the collocation solution; the step adds the exact integral of the polynomial, which is exact for derivatives of degree up to 14; the predictor re-expands the same polynomial about the end of the step and adds the last prediction error.", "quantifier": "every coefficient vector and step ratio", "why_tests_cant": "continuum", "anchors": ["src/integrator/Gauss-Radau.hpp"]}
{"id": "C48", "title": "Regularisation variables track the energies", "statement": "In exact arithmetic without external forces the binding-energy variable of a regularised system never changes, and the physical time of a position update is the step divided by (binding energy + kinetic energy) (LogH) or by omega (TTL), that of a velocity update is the step divided by minus the potential energy, and the step scale reported afterwards is that divisor; for TTL, omega changes in a velocity update by the work of the Newtonian accelerations.", "quantifier": "every sequence of operations", "why_tests_cant": "unbounded histories", "anchors": ["src/particle-system/regu-system.hpp: Regularization, RegularizedSystem"]}
{"id": "C49", "title": "Galilean invariance of the inner energy and of accelerations", "statement": "Inner energy (total minus centre-of-mass kinetic energy) is unchanged when a common velocity and displacement is added to all particles; Newtonian accelerations are unchanged too.", "quantifier": "every N, masses with non-zero sum, states, boosts", "why_tests_cant": "continuum", "anchors": ["src/orbits/particle-manip.hpp: E_inner, E_k, E_k_COM, E_p", "src/interaction/newtonian.hpp"]}
{"id": "C50", "title": "Output header and energy reference are per run", "statement": "A DefaultWriter writes its header exactly once, before the first row; an energy-error writer reports errors relative to the first energy of its own simulation.", "quantifier": "every sequence of calls, any number of writers", "why_tests_cant": "histories of several writers", "anchors": ["src/args-callback/callbacks.hpp: DefaultWriter, EnergyErrWriter"]}
{"id": "C51", "title": "Drag forces oppose the motion relative to the gas", "statement": "Static gas drag changes each particle's acceleration by a non-positive multiple of its own velocity (the documented sub- and supersonic coefficients) and touches nothing else; disk drag decelerates every star against its velocity relative to the circularly rotating gas by the ram pressure over its mass.", "quantifier": "every N, non-negative coefficients, masses, sound speeds; every state", "why_tests_cant": "quantifies over all states, coefficients and particle numbers; a test samples a few", "anchors": ["src/interaction/static-gas-drag.hpp: StaticGasDrag::add_acc_to", "src/interaction/disk-capture-star.hpp: DiskCaptureStar::add_acc_to, disk_v"]}
{"id": "C52", "title": "Angular momentum of a subsystem and size of a cluster", "statement": "The isolated angular momentum of a group of particles is its angular momentum minus that of its centre of mass; the total angular momentum is that of the group of all particles; the size of a cluster of at least two particles is the largest distance between two of its members.", "quantifier": "every group of particles with non-zero total mass; every cluster", "why_tests_cant": "quantifies over all groups, of any size", "anchors": ["src/core-computation.hpp: calc_isolated_angular_momentum, calc_angular_momentum, calc_total_angular_momentum", "src/orbits/particle-manip.hpp: cluster_size"]}
{"id": "C53", "title": "Chain and plain systems evolve identically", "statement": "A chain system and a plain system (an AR-chain system and a regularised system) built from the same particles, stepped by the same iterator with the same steps, hold exactly the same positions, velocities, time (and regularisation variables) after every step, and the chain system never fails or indexes out of bounds (exact arithmetic; the library's Newtonian, PN1, PN2.5, tidal, disk and drag forces).", "quantifier": "every N>=2, initial state, sequence of integrator calls, number of steps, every choice of index under distance ties", "why_tests_cant": "unbounded histories over a continuum of states", "anchors": ["src/particle-system/chain-system.hpp: ChainSystem", "src/particle-system/archain.hpp: ARchainSystem", "src/particle-system/base-system.hpp: SimpleSystem", "src/particle-system/regu-system.hpp: RegularizedSystem", "src/simulator.hpp: advance_one_step"]}
{"id": "C54", "title": "Integrators have their nominal order on oscillators", "statement": "One step of the integrator of nominal order p on harmonic oscillators (phase advance at most 1) differs from the exact rotation by at most a constant times the (p+1)-th power of the phase advance, up to the rounding of the tabulated coefficients.", "quantifier": "every frequency, step size, number of particles, initial positions and velocities", "why_tests_cant": "a continuum of states and steps; the order is an asymptotic statement", "anchors": ["src/integrator/symplectic/symplectic-integrator.hpp: Symplectic2nd, LeapFrogKDK, Symplectic4th, Symplectic6th, Symplectic8th, Symplectic10th"]}
{"id": "C55", "title": "Default step size", "statement": "If no step size is given, the first step proposed by a run is the step scale of the system times a tenth of the shortest free-fall time pi/2*sqrt(r^3/(2 G (m1+m2))) over all pairs of particles.", "quantifier": "every configuration of two or more particles, plain and regularised systems", "why_tests_cant": "minimum over all pairs of arbitrary configurations", "anchors": ["src/simulator.hpp: Simulator::run", "src/core-computation.hpp: calc_fall_free_time"]}
{"id": "C56", "title": "Stateful stop conditions keep their state between checks", "statement": "A function object registered as stop condition sees on each check the state its previous check left.", "quantifier": "every function object with state, every run", "why_tests_cant": "every history of checks", "anchors": ["src/simulator.hpp: RunArgs::check_stops"]}
{"id": "C57", "title": "Sticky collision detection", "statement": "The sticky-collision condition is true iff some pair of particles is closer than the sum of the radii.", "quantifier": "every configuration of particles with radii", "why_tests_cant": "all pairs of arbitrary configurations", "anchors": ["src/args-callback/collision.hpp: StickyCollision"]}
{"id": "C58", "title": "Extrapolated steps conserve what the leapfrog conserves", "statement": "A Bulirsch-Stoer step of a plain system advances the clock by exactly the step it accepted; of a plain or regularised system, or of a chain system of either kind, whose forces have no net momentum it leaves the total momentum exactly unchanged and moves the centre of mass uniformly in the time shown.", "quantifier": "every system, force without net momentum, step, error history, leapfrog variant, depth", "why_tests_cant": "continuum of states and steps; arbitrary error histories and orders", "anchors": ["src/ode-iterator/Bulirsch-Stoer.hpp: iterate, extrapolate", "src/particle-system/base-system.hpp", "src/particle-system/regu-system.hpp"]}
{"id": "C59", "title": "Meaning of the error estimate", "statement": "The error a checker reports is at most 1 exactly when every component (worst offender), the mean of squares (RMS), or the largest difference against the largest scale (max ratio) is within the tolerance atol + rtol*scale the user set; the error is never negative and zero only for equal results.", "quantifier": "every pair of arrays of any length, every tolerance", "why_tests_cant": "The claim quantifies over all real arrays and tolerances; a test compares a few vectors.", "anchors": ["src/ode-iterator/error-checker/worst-offender.hpp: WorstOffender::error", "src/ode-iterator/error-checker/RMS.hpp: RMS::error", "src/ode-iterator/error-checker/max-ratio-error.hpp: MaxRatioError::error"]}
{"id": "C60", "title": "A result containing NaN is never accepted", "statement": "If a component of the result or of the comparison result is NaN the reported error does not pass the acceptance test error <= 1.", "quantifier": "every array with a NaN in any place, every tolerance, all three error checkers", "why_tests_cant": "NaN can occur at any index of an array of any length; comparisons with NaN are silently false and tests rarely contain one.", "anchors": ["src/ode-iterator/error-checker/worst-offender.hpp: WorstOffender::error", "src/ode-iterator/error-checker/RMS.hpp: RMS::error", "src/ode-iterator/error-checker/max-ratio-error.hpp: MaxRatioError::error", "src/math.hpp: max"]}
{"id": "C61", "title": "Derivative handed to Gauss-Radau is the true derivative", "statement": "The array produced by evaluate_general_derivative holds, entry by entry in the layout of write_to_scalar_array, the rates of change of the written variables under the equations of motion: 1 for the time, velocities, total accelerations; for a regularised system whose regularisation variables agree with the particles, all per unit of fictitious time, with the power of the internal force for omega (TTL) and minus the power of the extra forces for the binding energy (LogH).", "quantifier": "every particle state, every set of additive forces, every regularisation type", "why_tests_cant": "the error only shows up as a slow drift of the time transformation; any particular derivative looks plausible", "anchors": ["src/particle-system/base-system.hpp: evaluate_general_derivative", "src/particle-system/regu-system.hpp: evaluate_general_derivative, calc_dbindE_dt, calc_domega_dt"]}
{"id": "C62", "title": "An IAS15 step ends", "statement": "A call of IAS15::iterate returns or aborts after finitely many force evaluations.", "quantifier": "every system, step size and iterator history", "why_tests_cant": "termination for all right-hand sides; the loop counter is reset at every rejection", "anchors": ["src/ode-iterator/IAS15.hpp: IAS15::iterate"]}
{"id": "C63", "title": "IAS15 keeps momentum, uniform motion of the mass centre, and the clock", "statement": "After any number of IAS15 steps, whatever was accepted or rejected in between, a system with forces that add no net momentum has exactly the momentum it started with, and its centre of mass has moved uniformly in the physical time shown; without regularisation the clock advances by exactly the accepted step.", "quantifier": "every system size and masses, every sequence of steps, every table of coefficients, plain, regularised, chain and AR-chain systems", "why_tests_cant": "histories of predictor/corrector iterations and rejections of unbounded length", "anchors": ["src/ode-iterator/IAS15.hpp: IAS15::iterate", "src/integrator/Gauss-Radau.hpp: GaussRadau"]}
{"id": "C64", "title": "Spawned threads get the callable and arguments given", "statement": "multi_thread and indexed_multi_thread run the job once per thread with the arguments given, the indexed variant with the numbers 0..n-1; the automatic variants use the number of hardware threads, at least one.", "quantifier": "every thread count, every argument, passed as lvalue or rvalue", "why_tests_cant": "all counts and argument categories", "anchors": ["src/multi-thread/multi-thread.hpp: multi_thread, indexed_multi_thread, auto_multi_thread, auto_indexed_multi_thread, machine_thread_num"]}
{"id": "C65", "title": "Output pipe writes every record once and in order", "statement": "Everything put into an output pipe by any number of threads is written to the file once, in the order it was put in, before the destructor returns; putting never blocks for ever and the destructor returns.", "quantifier": "every interleaving of any number of producers, the writer thread and the owner", "why_tests_cant": "schedules", "anchors": ["src/multi-thread/ciostream.hpp: Opip"]}
{"id": "C66", "title": "Input pipe hands out every record once and in order", "statement": "The records of the file of an input pipe are handed out to any number of threads once each, in order; the end is reported only after the last record; taking never blocks for ever and the destructor returns.", "quantifier": "every file content, every interleaving of any number of consumers, the loader thread and the owner", "why_tests_cant": "schedules, unbounded files", "anchors": ["src/multi-thread/ciostream.hpp: Ipip"]}
{"id": "C67", "title": "A particle written to a stream can be read back", "statement": "Reading with operator>> the text that operator<< wrote for one particle gives back the particle.", "quantifier": "every particle of the four types, every number format that round-trips", "why_tests_cant": "the separator mismatch shows only when reading back; tests check single literals or the container rows", "anchors": ["src/particles/*.hpp: operator<<, operator>> of PointParticle, SizeParticle, TideParticle, DragParticle; src/IO.hpp: print_csv, input; src/vector/vector3.hpp: operator<<, operator>>"]}
{"id": "C68", "title": "Command line arguments reach their variables", "statement": "read_command_line gives the k-th variable the k-th command line argument, and aborts when their numbers differ.", "quantifier": "every number and content of arguments", "why_tests_cant": "the arguments are glued together and split again: depends on the content of every argument", "anchors": ["src/tools/config-reader.hpp: read_command_line, OptArg"]}
{"id": "C69", "title": "The timer measures its running time", "statement": "get_time returns the time the timer has been running since the last reset, for every history of start, pause and reset.", "quantifier": "every history of calls, every clock", "why_tests_cant": "a statement about all histories", "anchors": ["src/tools/timer.hpp: Timer"]}
{"id": "C70", "title": "Coordinates to orbit to coordinates", "statement": "Turning a state into an orbit and the orbit back into coordinates returns the state.", "quantifier": "every state of non-zero angular momentum, any plane, any eccentricity", "why_tests_cant": "continuum; the error is a convention shared by no two functions", "anchors": ["src/orbits/orbits.hpp: coord_to_orbit, orbit_to_coord"]}
{"id": "C71", "title": "Coordinates follow the two-body motion", "statement": "The coordinates orbit_to_coord returns along a motion of the true anomaly obeying the law of areas are a solution of the two-body problem: the position changes at the rate of the returned velocity and the velocity at the rate -u r/|r|^3.", "quantifier": "every orbit, kind of conic, motion of the anomaly", "why_tests_cant": "an assertion about all times of all orbits", "anchors": ["src/orbits/orbits.hpp: orbit_to_coord, euler_rotate"]}
{"id": "C72", "title": "Time to periapsis", "statement": "time_to_periapsis(orbit) is the time the body still needs to reach periapsis (positive before, negative after), for every kind of orbit.", "quantifier": "every orbit, every anomaly between the apsides or asymptotes", "why_tests_cant": "continuum; needs the equation of motion", "anchors": ["src/orbits/orbits.hpp: time_to_periapsis, T_anomaly_to_E_anomaly, E_anomaly_to_M_anomaly"]}
{"id": "C73", "title": "Hyperbolic and elliptic orbits from physical parameters", "statement": "Hyperbolic(m1,m2,v_inf,b,angles,r,in/out) gives the orbit whose body has speed v_inf and impact parameter b at infinity, stands at distance r and approaches (in) or recedes (out); a distance below the closest approach, b = 0 and non-positive total mass are refused. Elliptic(m1,m2,a,e,...) gives the orbit of semi-major axis a and eccentricity e, and refuses e >= 1 and a <= 0. A random (isotherm) angle ends in the documented range and a random anomaly is refused for unbound orbits.", "quantifier": "every mass, speed, impact parameter, distance, angle, random draw", "why_tests_cant": "continuum", "anchors": ["src/orbits/orbits.hpp: Hyperbolic, Elliptic, KeplerOrbit, shuffle_i, shuffle_Omega, shuffle_omega, shuffle_nu"]}
{"id": "C74", "title": "Orbital period", "statement": "period(m1,m2,a) is positive and satisfies Kepler's third law, and is the least time after which a body on an ellipse of semi-major axis a returns to its position and velocity; a non-positive semi-major axis is refused.", "quantifier": "every bound orbit, every instant", "why_tests_cant": "the least period is a statement about all times", "anchors": ["src/orbits/orbits.hpp: period"]}
{"id": "C75", "title": "Centre of mass and rigid displacement", "statement": "COM_p and COM_v are the mass-weighted centres and M_tot the total mass; move_particles, move_particles_pos, move_particles_vel and move_to_COM_frame put the centre of mass where asked and displace every particle by the same vector, changing nothing else; the overloads for several particles agree with those for a container; particles placed on an orbit have the elements of that orbit relative to a body at rest at the origin. A vanishing total mass gives NaN.", "quantifier": "every list of particles of any length, every target", "why_tests_cant": "all lists", "anchors": ["src/orbits/particle-manip.hpp: M_tot, COM_p, COM_v, move_particles, move_particles_pos, move_particles_vel, move_to_COM_frame, calc_a_e"]}
{"id": "C76", "title": "Energies and sizes of groups", "statement": "E_k, E_p, E_tot are the kinetic, potential and total energy of the group, E_inner is the energy in its centre-of-mass frame and does not depend on where the group is or how it moves; cluster_size is the largest distance between two members, the radius for a single particle.", "quantifier": "every list of particles of any length", "why_tests_cant": "all lists", "anchors": ["src/orbits/particle-manip.hpp: E_k, E_p, E_k_COM, E_tot, E_inner, cluster_size"]}
{"id": "C77", "title": "Scattering set-ups", "statement": "b_max(m,v,rp) is the impact parameter of the orbit with closest approach rp: smaller impact parameters come closer; critical_vel is the speed at infinity for which the total energy of two groups vanishes; the orbits of incident_orbit come from one common direction at infinity, uniformly over a disc perpendicular to it.", "quantifier": "every mass, speed, distance, random draw", "why_tests_cant": "continuum; geometry of an asymptote", "anchors": ["src/scattering/cross-section.hpp: b_max, critical_vel, incident_orbit"]}
{"id": "C78", "title": "Random draws follow their law within the limits", "statement": "Logarithm(low,high) and PowerLaw(power,low,high) return a number in [low,high] distributed by the stated law: as a function of the underlying uniform number t, the result is at most y exactly when t is at most the distribution function at y. Normal2(min_r) returns a pair at a radius at most 2 sqrt(-ln min_r).", "quantifier": "every uniform draw, all limits, every power", "why_tests_cant": "continuum of powers, limits and draws", "anchors": ["src/rand-generator.hpp: Uniform, Logarithm, PowerLaw, Normal2"]}
{"id": "C79", "title": "Tabulated gas disc: tables are read inside their bounds", "statement": "For every position and every Mach number, evaluating the density, the scale height, the rotation of the gas and the drag factor of MagnetoDisk reads only entries that exist and yields a number.", "quantifier": "all positions of a particle relative to the central one and all Mach numbers", "why_tests_cant": "The reads depend on a floating-point quotient truncated to an index; only values in the last 1e-14 of the table show an overrun.", "anchors": ["src/interaction/magneto-disk.hpp MagnetoDisk::disk_rho, disk_H, disk_v, GDF_I, interpolate"]}
{"id": "C80", "title": "Tabulated gas disc: values are the interpolated tables", "statement": "The density, scale height and rotation speed of MagnetoDisk at any radius are those of the tables, linearly interpolated between the two neighbouring entries and constant outside; in particular they are continuous functions of the radius.", "quantifier": "all radii", "why_tests_cant": "The table has 252 entries with an uneven grid; a test at the entries themselves passes.", "anchors": ["src/interaction/magneto-disk.hpp MagnetoDisk::interpolate"]}
{"id": "C81", "title": "Tabulated gas disc: drag opposes the motion through the gas and conserves momentum", "statement": "MagnetoDisk::add_acc_to decelerates every particle but the first against its velocity relative to the rotating gas by the sum of dynamical friction and aerodynamic drag, gives the opposite momentum to the first particle, writes nothing else, and is defined for every state of particles off the axis.", "quantifier": "all particle systems and prior accelerations", "why_tests_cant": "Universal over states; the singular states (particle moving with the gas, particle on the axis, Mach number next to 100) have to be found, not sampled.", "anchors": ["src/interaction/magneto-disk.hpp MagnetoDisk::add_acc_to"]}
{"id": "C82", "title": "Hierarchy tests decide by two-body and total energy", "statement": "check_most_bound(nodes, idx, amin) holds exactly if no other node (the first one apart) forms a pair with node idx of positive semi-major axis below amin; check_unbound(nodes) holds exactly if the kinetic plus the total potential energy of the first node in the field of all others is not negative.", "quantifier": "all lists of nodes, indices and limits", "why_tests_cant": "Universal over configurations of any number of nodes; an accumulation error shows only for particular configurations.", "anchors": ["src/scattering/hierarchical.hpp: check_most_bound, check_unbound, HierarchicalNode"]}
{"id": "C83", "title": "Quadrupole eccentric Lidov-Kozai time scale", "statement": "ELK_quad_timescale(m1, m2, m3, a1, a2, e2) is P (m1+m2)/m3 (a2 sqrt(1-e2^2)/a1)^3 with P the period of the inner orbit of masses m1, m2 and semi-major axis a1.", "quantifier": "all positive masses, axes and eccentricities below 1", "why_tests_cant": "Identity over all reals; with masses adding up to one the wrong formula gives the right value.", "anchors": ["src/secular.hpp: ELK_quad_timescale; src/orbits/orbits.hpp: period"]}
{"id": "C84", "title": "Stellar radii", "statement": "stellar_radius gives the Schwarzschild radius for black holes (escape velocity c), 10 km for neutron stars whatever the mass, the solar radius for a star of one solar mass and larger radii for heavier stars, a hundredth of it for a white dwarf of one solar mass and smaller radii for heavier ones; always positive.", "quantifier": "all positive masses and all star types", "why_tests_cant": "Monotonicity and the escape velocity are statements about all masses.", "anchors": ["src/stellar/stellar.hpp: stellar_radius, StarType; src/macros.hpp: unit, consts"]}
{"id": "C85", "title": "Automatic file names do not repeat", "statement": "No two calls of auto_name in one process return the same name; make_name with one prefix and extension returns different names for different numbers.", "quantifier": "all histories of calls: prefixes and times of the calls", "why_tests_cant": "Depends on the whole history of calls and on the clock.", "anchors": ["src/tools/auto-name.hpp: auto_name, make_name"]}
{"id": "C86", "title": "Tidal energy and hard separation", "statement": "E_tid of two groups is symmetric in the groups, does not change when both are displaced, and approximates the change of the potential energy of the two centres of mass over the sizes of the groups to second order in size/distance; hard_radius is the separation at which the binding energy of a pair equals the kinetic energy of a typical star around it, tighter pairs being hard.", "quantifier": "all groups of particles with distinct centres of mass, all sizes, masses and dispersions", "why_tests_cant": "Universal over groups of any size and over real parameters.", "anchors": ["src/orbits/particle-manip.hpp: E_tid; src/scattering/cross-section.hpp: hard_radius"]}
{"id": "C87", "title": "Dynamical friction factor of the alpha disc", "statement": "As a function of the Mach number the friction factor of AlphaDisk is never negative, equals the subsonic and supersonic formulae of Ostriker (1999) outside the transonic window (their leading term below Mach 0.1), and is continuous, without kink at the ends of the window.", "quantifier": "all Mach numbers >= 0", "why_tests_cant": "Continuity, differentiability and sign over all reals; the exceptional Mach number 0.1 is a single point.", "anchors": ["src/interaction/alpha-disk.hpp: AlphaDisk::add_acc_to (I_sub, I_sup, dIdM_sub, dIdM_sup, connect)"]}
{"id": "C88", "title": "Regularised leapfrogs follow two-body orbits exactly", "statement": "Two particles under gravity, in a LogH- or TTL-regularised system or an AR chain, advanced by any number of leapfrog steps starting and ending with position updates (second- and fourth-order symplectic integrators, Bulirsch-Stoer sub-steps), stay exactly on the Kepler orbit they started on: energy, angular momentum and Laplace vector of the relative motion do not change whatever the step sizes; only the position along the orbit carries an error.", "quantifier": "all pairs of masses, relative positions (not zero) and velocities, all lists of step sizes, either sign", "why_tests_cant": "Exactness for every step size is an algebraic identity over all states; a tolerance in a test cannot tell it from a small error.", "anchors": ["src/particle-system/regu-system.hpp; src/particle-system/archain.hpp; src/integrator/symplectic/symplectic-integrator.hpp; src/ode-iterator/Bulirsch-Stoer.hpp integrate_by_n_steps"]}
{"id": "C89", "title": "Symplectic integrators are symplectic", "statement": "For gravity, every sequence of position and velocity updates preserves the symplectic form sum dx^dp of any two infinitesimal variations of the initial state, in plain and chain systems; in LogH-regularised systems and AR chains it preserves the form extended by dt^dB (time and binding energy).", "quantifier": "all numbers of particles, masses, states, pairs of variations, sequences and sizes of steps without exact coincidence of particles", "why_tests_cant": "A statement about the derivative of the map at every state in every direction; finite differences in a test only estimate it.", "anchors": ["src/particle-system/base-system.hpp, chain-system.hpp, regu-system.hpp, archain.hpp; src/interaction/newtonian.hpp; src/integrator/symplectic/symplectic-integrator.hpp"]}
{"id": "C90", "title": "Energy belongs to the forces", "statement": "The potential energy reported by calc_potential_energy changes, under any displacement, by minus the work of the accelerations the Newtonian interaction evaluates; the total energy reported is constant along every exact solution of the equations of motion evaluated.", "quantifier": "all numbers of particles, masses, states without coincidence, all displacements and all solutions on any time interval", "why_tests_cant": "Gradient identity at every state and in every direction; constancy along all solutions.", "anchors": ["src/core-computation.hpp calc_potential_energy, calc_kinetic_energy, calc_total_energy; src/interaction/newtonian.hpp; src/interaction/interaction.hpp eval_acc"]}
{"id": "C91", "title": "Rounding does not keep a run from ending", "statement": "In floating-point arithmetic a run with a constant-step method and an end time after the start time ends after finitely many steps, within the requested relative tolerance of the end time and beyond it by no more than a few rounding units, for any positive step and any tolerance; the compensated (_Plus) methods allow steps far below the spacing of the numbers at the current time.", "quantifier": "every precision, every rounding to nearest, every start time, end time, step, tolerance and number of rounds; the six constant-step integrators", "why_tests_cant": "Whether additions of small steps stagnate depends on the binary expansion of every intermediate time; a test sees a few step sizes.", "anchors": ["src/simulator.hpp: Simulator::run", "src/integrator/symplectic/symplectic-integrator.hpp: integrate", "src/particle-system/base-system.hpp: drift", "src/kahan-number.hpp: Kahan"]}
{"id": "C92", "title": "The computed motion converges to the true motion", "statement": "Let point masses move under Newton's gravity (G = 1) from time t0 to time t1 without colliding. A simulation of a plain or chain system with gravity alone, started from their state at t0, approaches that motion as the step gets smaller: with either leap-frog, constants K and h0 exist that depend on the motion only, such that for any sequence of steps not longer than h <= h0, constant or not, every position and velocity is off by at most K h^2 at every time up to t1; with any other integrator made of position and velocity updates whose two coefficient sums are 1, by at most K h; with coefficient sums off 1 by delta (the sixth-, eighth- and tenth-order integrators), by at most K (h + delta). In particular a run of the simulator with a fixed step h to an end time T <= t1 returns particles within K h^2 (leap-frogs) or K h (fourth order) of the true ones at the returned time. With the regularised systems (LogH, TTL, with or without chain) and positive masses, whose steps are steps of a transformed time, the simulation passes t1 after finitely many steps without a division by zero, and at every step before, the particles are within K (h + delta) of the true ones at the time the simulation has reached.", "quantifier": "all numbers of particles, masses and collision-free motions, all intervals of time, all sequences of steps, all bounds on number and size of coefficients, all end times and tolerances", "why_tests_cant": "a test compares one orbit with one reference solution at a few step sizes; the bound holds for every motion and every sequence of steps at once, with constants that do not depend on the steps", "anchors": ["src/integrator/symplectic/symplectic-integrator.hpp: Symplectic2nd, Symplectic4th", "src/particle-system/base-system.hpp: SimpleSystem::drift, kick", "src/particle-system/chain-system.hpp: ChainSystem", "src/particle-system/regu-system.hpp: RegularizedSystem::drift, kick", "src/particle-system/archain.hpp: ARchainSystem", "src/simulator.hpp: Simulator::run"]}
{"id": "C93", "title": "The integrators have their nominal order on gravity", "statement": "While the particles move under Newtonian gravity without colliding, halving the step of an integrator of order p divides the error of every position and velocity at a given time by 2^p, down to an error that comes from the printed coefficients: for small enough steps, constant or not, the error is at most a constant times (largest step)^p plus the deviation of the coefficients. The order conditions - the coefficients of all words in position and velocity updates of up to p letters - hold for the two leap-frogs with p = 2 and for Symplectic4th, 6th and 8th with p = 4, 6 and 8 (Symplectic10th only with p = 4). The same holds of the chain system, of runs of the simulator, and of the regularised and ARchain systems, whose steps are steps of a transformed time, at the physical time they have reached.", "quantifier": "every number of particles, all masses, every motion without collisions on a time interval, every list of stages, every list of steps up to the largest", "why_tests_cant": "Tests can only compare a few runs; the order is a statement about all motions and arbitrarily small steps, and the tests' tolerance hides a lost order.", "anchors": ["src/integrator/symplectic/symplectic-integrator.hpp: Symplectic2nd, LeapFrogKDK, Symplectic4th, Symplectic6th, Symplectic8th, Symplectic10th", "src/particle-system/base-system.hpp: SimpleSystem::drift, SimpleSystem::kick", "src/particle-system/chain-system.hpp: ChainSystem::drift, ChainSystem::kick", "src/particle-system/regu-system.hpp: RegularizedSystem::drift, RegularizedSystem::kick", "src/particle-system/archain.hpp: ARchainSystem::drift, ARchainSystem::kick"]}
{"id": "C94", "title": "Lazily evaluated vectors and arrays", "statement": "Assigning an expression to a lazily evaluated three-vector (LazyVec3) or small array (Larray), and +=, -=, *=, /= of a LazyVec3, stores the elements of the expression computed from the values before the assignment and changes nothing else. A slice a[slice(begin, end, stride)] consists of the elements begin, begin + stride, ... up to end, counted cyclically; assigning a number to it changes exactly these. max and min return the largest and the smallest element.", "quantifier": "every expression tree over arrays, slices, numbers and element references, every length, begin, end and stride, all element values", "why_tests_cant": "Expressions hold references and are evaluated while the target is overwritten; whether that is visible depends on the aliasing in each expression, an unbounded family.", "anchors": ["src/vector/lazy-vec3.h: LazyVec3", "src/lazy-evaluation/lazy_expr.h: Unary_Expr, Binary_Expr, eval_at", "src/lazy-evaluation/lazy_array.h: Larray (small)", "src/lazy-evaluation/slice.h: constexpr_slice_len, Slice_Expr"]}
{"id": "C95", "title": "A Bulirsch-Stoer simulation converges with the order of its extrapolation", "statement": "Particles move under their mutual gravity from t0 to t1 without colliding. A plain system, started in the true state at t0, is integrated by the Bulirsch-Stoer iterator call after call, in either variant (drift-kick-drift or kick-drift-kick sub-steps), with any tolerance, error estimate and step control. A call that returns has extrapolated from the runs number 0 to some k, at least 1. There are numbers K and rho, depending only on the motion and the maximal depth, such that if no accepted step is longer than rho, every position and velocity is off the true one by at most K times the sum over the calls of (accepted step)^(2k+3): a step with k extrapolations has order 2k+2. With accepted steps of at most hm the error is at most K hm^4. The same holds for a regularised system with the logarithmic Hamiltonian, with steps of the transformed time and up to any time before t1; there no run with a step of at most rho divides by zero. Both hold for the chain systems as well.", "quantifier": "every number of particles, all masses, every motion without collisions on a time interval, every sequence of calls and accepted steps, every maximal depth, tolerance, error estimate, step controller and state of the iterator", "why_tests_cant": "The order concerns all motions and arbitrarily small steps, and holds whatever the adaptive control decides in every call; a test runs one history at one tolerance.", "anchors": ["src/ode-iterator/Bulirsch-Stoer.hpp: BulirschStoer::iterate, integrate_by_n_steps, extrapolate, BulirschStoerConsts", "src/particle-system/base-system.hpp: SimpleSystem::drift, SimpleSystem::kick", "src/particle-system/regu-system.hpp: RegularizedSystem::drift, RegularizedSystem::kick"]}
{"id": "C96", "title": "Small Bulirsch-Stoer steps are accepted, and the steps do not collapse", "statement": "Particles attract each other by gravity. For particles that stay in a bounded region, at bounded speed and not closer to each other than some distance d, and any positive absolute tolerance, there is a step rho such that every call of the Bulirsch-Stoer iterator on a plain system with a step h of at most rho returns, has advanced the system by exactly h, and proposes a next step that is at least h. This holds for an iterator that is new and for one that has been called before, with either error estimator (RMS, worst offender) and the PID step controller. In a simulation that always continues with the proposed step (and whose very first step is at most rho if the iterator is new), every accepted and every proposed step is therefore at least the smaller of the first step and rho/200, so that N calls advance the time by at least N times that: the integration does not stall.", "quantifier": "every number of particles, all masses, every region (bounds on distance, speed and separation), every tolerance with positive absolute part, every depth from 3 to 24, both estimators, all positive safe guards of the controller, every number of calls", "why_tests_cant": "That the step cannot shrink towards zero is a claim about all states in a region and unboundedly many calls; a test sees one history and cannot exclude that another one stalls.", "anchors": ["src/ode-iterator/Bulirsch-Stoer.hpp: BulirschStoer::iterate, set_next_iteration, get_next_step_len, is_diverged_anyhow", "src/ode-iterator/step-controller/PID-controller.hpp: PIDController::next, limiter", "src/ode-iterator/error-checker/RMS.hpp: RMS::error", "src/ode-iterator/error-checker/worst-offender.hpp: WorstOffender::error"]}
{"id": "C97", "title": "Bulirsch-Stoer does to a chain system what it does to a plain one", "statement": "A chain system (an AR-chain system) simulated with the Bulirsch-Stoer iterator holds, after every macro step that returns, exactly the particles that a plain (regularised) system in the same state would hold after an accepted Bulirsch-Stoer step of the same length and depth: every Cartesian position and velocity, the time and the regularisation variables are the values extrapolated from plain leap-frog runs, although the code extrapolates the chain coordinates. The chain coordinates describe the Cartesian ones after every macro step, and rebuilding the chain after a call never fails.", "quantifier": "every N>=2, initial state, library force agreeing on both systems (C53), tolerance, error estimate, step control, number of macro steps, both leap-frog variants, every choice of index under distance ties", "why_tests_cant": "unbounded histories over a continuum of states; arbitrary error histories and depths", "anchors": ["src/ode-iterator/Bulirsch-Stoer.hpp: BulirschStoer::iterate", "src/particle-system/chain-system.hpp: ChainSystem", "src/particle-system/archain.hpp: ARchainSystem", "src/simulator.hpp: advance_one_step"]}
{"id": "C98", "title": "IAS15 converges to the Newtonian motion, with an order that grows with the number of corrections", "statement": "Point masses move under Newtonian gravity over a time interval without colliding. A plain particle system started in their exact state and integrated by IAS15 call after call stays close to them: if no requested step is longer than h, with h small enough for the motion, then as long as the clock is within the interval every position and velocity is off by at most a constant times h^2 + 1e-26 h, whatever the error control decides; and if every call makes at least k corrections in the attempt it accepts (1 <= k <= 14), the error is at most a constant times h^(k+1) + 1e-26 h, so that the scheme reaches order 15. The 1e-26 is due to the finite number of digits of the tables of nodes and coefficients. Such runs exist: if no particle is ever at the origin without velocity and acceleration, then for every sequence of sufficiently short steps all calls return, each after one correction and with the full step.", "quantifier": "every collision-free Newtonian motion of any number of particles with any masses, every time interval, every sequence of calls with any (small enough) step sizes, rejected attempts included, every k from 1 to 14", "why_tests_cant": "The order is a statement about the limit of small steps for all motions, and depends on all the digits of four tables, on the predictor carried from call to call and on every correction; a test on one orbit with one tolerance sees a single error number.", "anchors": ["src/integrator/Gauss-Radau.hpp: GaussRadau::correct, evaluate, predict, Radau tables", "src/ode-iterator/IAS15.hpp: IAS15::iterate", "src/particle-system/base-system.hpp: SimpleSystem::evaluate_general_derivative"]}
{"id": "C99", "title": "The parallel Bulirsch-Stoer iterator computes what the serial one computes", "statement": "Compiled with BS_SUBSTEP_PARALLEL, BulirschStoer::iterate has no data race, always ends its parallel phase, and whatever the schedule of the two threads leaves the particles, the clock, the proposed step and its members as the serial variant does, and fails exactly when the serial one fails; for every iterator object and every number of calls in the process.", "quantifier": "every system, step, tolerance and state of the iterator, every interleaving of the worker with the calling thread, every sequence of calls of any number of iterator objects in one process", "why_tests_cant": "Races and orders of interleaving show up once in millions of runs, and the static closure makes the outcome depend on which object was called first in the process and on where the compiler puts a local variable; a test runs one schedule of one object.", "anchors": ["src/ode-iterator/Bulirsch-Stoer.hpp: BulirschStoer::iterate, integrate_with_stride, executor", "src/taskflow/core/executor.hpp: Executor::silent_async"]}
{"id": "C100", "title": "The symplectic integrators keep their order with additional forces", "statement": "A simulation of a plain or chain system with Newtonian gravity and any number of additional forces that add to the accelerations, velocity-dependent or not (post-Newtonian corrections, tides, gas drag, user forces), advanced with any of the six symplectic integrators, follows the motion that the summed accelerations prescribe: for all small enough steps, constant or varying, the error of every position and velocity at every time is at most K times the step to the order of the integrator (2, 2, 4, 6, 8, and 4 for the one named 10th), up to the rounding of the coefficients; the handling of velocity-dependent forces with a second set of velocities loses no order. Runs of the simulator with a fixed step end at the requested time with that error.", "quantifier": "all particle numbers, masses, motions along which the accelerations are smooth, lists of additional forces, sequences of steps, and integrators with given numbers and sizes of coefficients", "why_tests_cant": "a limit over all step sizes for every motion and every set of forces; a test sees one problem and a few step sizes, and an order-losing treatment of velocity-dependent forces looks like a slightly larger error", "anchors": ["src/particle-system/base-system.hpp: SimpleSystem::kick, kick_real_vel, kick_pseu_vel", "src/integrator/symplectic/symplectic-integrator.hpp: Symplectic2nd … Symplectic10th, LeapFrogKDK", "src/interaction/interaction.hpp: Interactions::eval_acc", "src/interaction/post-newtonian.hpp", "src/interaction/tidal.hpp", "src/interaction/static-gas-drag.hpp"]}
{"id": "C101", "title": "Bulirsch-Stoer keeps its order with additional forces", "statement": "A simulation of a plain or chain system with Newtonian gravity and any number of additional forces that add to the accelerations, velocity-dependent or not (post-Newtonian corrections, tides, gas drag, user forces), integrated with the Bulirsch-Stoer iterator over LeapFrogDKD or LeapFrogKDK, follows the motion that these forces define: every returning call has extrapolated from runs number 0 to some k >= 1, and as long as the steps are small enough, all positions and velocities are off by at most a constant times the sum of the (2k+3)-th powers of the steps.", "quantifier": "all numbers of particles, masses, motions along which the accelerations are smooth, force lists, tolerances, controllers, histories of the iterator, numbers and sequences of macro steps", "why_tests_cant": "A statement about all motions, all forces and all sequences of accepted steps; a test on one orbit cannot tell the order of the error for every number of columns.", "anchors": ["src/ode-iterator/Bulirsch-Stoer.hpp: BulirschStoer::iterate, integrate_by_n_steps", "src/particle-system/base-system.hpp: SimpleSystem::kick, kick_real_vel, kick_pseu_vel, pre_iter_process", "src/particle-system/chain-system.hpp: ChainSystem::kick", "src/integrator/symplectic/symplectic-integrator.hpp: LeapFrogDKD, LeapFrogKDK", "src/spaceHub.hpp: methods::BS"]}
{"id": "C102", "title": "Order and step control of Bulirsch-Stoer", "statement": "On every call but the first, the Bulirsch-Stoer iterator tries steps one after the other. A trial step with target order r is decided at the first of the columns r-1, r, r+1 whose error estimate is at most 1 (the step is accepted there) or is so large that column r+1 cannot be expected to converge (the step is given up there); no trial ends undecided. Each decision sets the next target order to the column of the decision or one next to it, within [2, max_depth-1], by comparing the work per unit of step of neighbouring columns (with the 0.8 and 0.9 margins of Hairer, Norsett and Wanner; raised above the column only after an accepted step), and the next step to the controller's step for that order, limited by the controller. The call returns the increments extrapolated at the accepted column with the accepted step, and proposes the step of that last decision. reject_rate() is the number of trials given up divided by the number of trials, and below 1. The first call of an iterator repeats the step it was given and counts no rejection.", "quantifier": "all four systems, both leap-frogs, every number of particles, force, tolerance, error estimate, step controller, step, target order and history of the iterator, every max_depth >= 3", "why_tests_cant": "the control flow depends on all the errors of all columns of all trials; a test observes the result of one error history, and an inverted or dropped comparison only costs efficiency on it", "anchors": ["src/ode-iterator/Bulirsch-Stoer.hpp: BulirschStoer::iterate, set_next_iteration, get_next_step_len, is_diverged_anyhow, allowed, reject_rate", "src/ode-iterator/Bulirsch-Stoer.hpp: BulirschStoerConsts"]}
{"id": "C103", "title": "IAS15 keeps its order with additional forces and on the other systems", "statement": "n particles move from t0 to t1 with the accelerations that a list of force classes gives them (gravity and any additional forces, velocity-dependent or not, smooth along the motion). A plain or chain system with the state at t0 is integrated with IAS15 (tables as in the code), macro step after macro step: pre_iter_process, iterate, post_iter_process, which may change the chain. For every k from 1 to 14 there are K and h0 such that, if the steps asked for are at most h <= h0 and every call makes at least k corrections in the attempt it accepts, then as long as the clock has not passed t1 all positions and velocities differ from the true ones at the time of the clock by at most K (h^(k+1) + 1e-26 h). Without any condition on the calls the error is at most K (h^2 + 1e-26 h). The same holds for regularised systems and AR-chain systems with positive masses and no collision (time-transformed leap-frog or no transformation with any such forces, logarithmic Hamiltonian with gravity alone), where the steps are steps of the transformed time: as long as no call begins after the clock has passed a time t2 < t1, the clock stays before t1 and moreover advances by at least kappa > 0 times the sum of the steps that the calls recommend. On these systems the calls with steps of at most h0 do return: each accepts its first attempt after one correction and recommends a step within a factor of 4 of the one asked for, and with constant steps the clock passes t2 after finitely many macro steps. On plain and chain systems they return too, each with the full step, if no particle is ever at the origin without velocity and acceleration (and, for chains, particles do not collide).", "quantifier": "all numbers of particles, masses, motions along which the accelerations are smooth, force lists, chains, time transformations, numbers and sequences of macro steps, warm starts, rejected attempts, k <= 14", "why_tests_cant": "A statement about all motions, all forces and all sequences of steps; a test on one orbit cannot tell the order of the error, nor that a change of the chain between steps with warm-started coefficients does not spoil it.", "anchors": ["src/ode-iterator/IAS15.hpp: IAS15::iterate", "src/integrator/Gauss-Radau.hpp: GaussRadau::correct, predict, integrate_to", "src/particle-system/base-system.hpp: SimpleSystem::evaluate_general_derivative, pre_iter_process", "src/particle-system/chain-system.hpp: ChainSystem::evaluate_general_derivative, post_iter_process", "src/particle-system/regu-system.hpp: RegularizedSystem::evaluate_general_derivative", "src/particle-system/archain.hpp: ARchainSystem::evaluate_general_derivative", "src/simulator.hpp: Simulator::advance_one_step"]}
{"id": "C104", "title": "Symplectic integrators keep their order on regularised systems with additional forces", "statement": "When a regularised system or an AR-chain system, with the logarithmic Hamiltonian, the time-transformed leap-frog or no transformation, has additional forces, dependent on the velocities or not (post-Newtonian corrections, tides, drag), and the true motion has no collisions, then a simulation with a fixed and small enough step of the transformed time passes any time before the end of the motion after finitely many steps, never divides by zero on the way, and at every step the particles are off their true places at the time the simulation shows by at most a constant times h^p: p = 2 for the leap-frogs, p = 4 for the fourth-order integrator (with a residual 1e-14 h^2 from its decimals); for any other splitting integrator the order is the length up to which its coefficients agree with those of the true motion.", "quantifier": "all smooth additional forces (velocity-dependent or not), all numbers of particles from two on, all positive masses, all collision-free motions, all three kinds of regularisation, all small enough steps (constant or not), all numbers of steps, all chains that an AR-chain system may build", "why_tests_cant": "A test compares a few runs with a reference; the order is a statement about all motions and all small steps, and the regularised system carries three auxiliary variables whose updates must all be of the right order.", "anchors": ["src/particle-system/regu-system.hpp: RegularizedSystem::kick, drift, kick_pseu_vel, kick_real_vel, pre_iter_process", "src/particle-system/archain.hpp: ARchainSystem::kick, drift, pre_iter_process, post_iter_process", "src/integrator/symplectic/symplectic-integrator.hpp: Symplectic2nd, Symplectic4th", "src/integrator/symplectic/symplectic-integrator.hpp: LeapFrogKDK, Symplectic6th, Symplectic8th, Symplectic10th"]}
{"id": "C105", "title": "Bulirsch-Stoer keeps its order on regularised systems with additional forces", "statement": "When a regularised system or an AR-chain system, with any of the three kinds of regularisation, has additional forces, dependent on the velocities or not (post-Newtonian corrections, tides, drag), and the true motion has no collisions, then after any sequence of Bulirsch-Stoer calls with LeapFrogDKD whose accepted steps of the transformed time b1, b2, ... are short enough, the particles are off their true places at the time the system shows by at most a constant times the sum of b_i^(2 k_i + 3), where k_i >= 1 is the column of the extrapolation at which step i was accepted, and the time has advanced by at least a positive constant times the sum of the steps. None of the runs of a further call with a short step fails. The constants do not depend on the tolerances, the step controller, the retries or the number of calls.", "quantifier": "all smooth additional forces (velocity-dependent or not), all numbers of particles from two on, all positive masses, all collision-free motions, all three kinds of regularisation, all sequences of macro steps with any retries, depth and tolerance, all chains that an AR-chain system may build", "why_tests_cant": "The order of an extrapolation depends on the powers of the sub-step in the error of the splitting, for all motions; the regularised splitting with additional forces has frozen auxiliary velocities and a binding energy updated by the work of the extra forces, any of which could bring in odd powers unnoticed by a test at one tolerance.", "anchors": ["src/ode-iterator/Bulirsch-Stoer.hpp: BulirschStoer::iterate, integrate_by_n_steps, extrapolate", "src/particle-system/regu-system.hpp: RegularizedSystem::kick, drift, kick_pseu_vel, kick_real_vel, advance_omega, advance_bindE, pre_iter_process", "src/particle-system/archain.hpp: ARchainSystem::kick, drift, pre_iter_process, post_iter_process", "src/integrator/symplectic/symplectic-integrator.hpp: LeapFrogDKD"]}
{"id": "C106", "title": "Simulations with Bulirsch-Stoer, additional forces and short steps come through", "statement": "With the error estimators and the step controller of the library, any positive absolute tolerance and positive guards, a Bulirsch-Stoer call with a short enough step returns, is accepted without a retry, and proposes a step that is not shorter, at every point of a simulation that begins with a new iterator, as long as all steps given so far were short enough and the motion has no collisions - on plain, chain, regularised and AR-chain systems with any smooth additional forces. So a simulation whose steps are picked by any rule from the proposals, within a lower bound and a small enough cap, passes any time before the end of the motion after finitely many calls, none of which fails, and on the way all particles are within a constant times the fourth power of the cap of their true places.", "quantifier": "all four kinds of systems, all smooth additional forces, all collision-free motions, both estimators, all positive absolute tolerances, all settings of the controller with positive guards, depths 3 to 24, all rules that pick the next step, all numbers of calls, all chains", "why_tests_cant": "That no call ever gets into a rejection loop or reads outside the tables, at any point of any simulation, is a statement about all histories of the iterator's order and step control together with all states of the system.", "anchors": ["src/ode-iterator/Bulirsch-Stoer.hpp: BulirschStoer::iterate, set_next_iteration, in_converged_window, is_diverged_anyhow, get_next_step_len", "src/ode-iterator/error-checker/worst-offender.hpp: WorstOffender::error", "src/ode-iterator/error-checker/RMS.hpp: RMS::error", "src/ode-iterator/step-controller/PID-controller.hpp: PIDController::next_step_size, limiter", "src/particle-system/base-system.hpp: SimpleSystem::kick, drift", "src/particle-system/chain-system.hpp: ChainSystem::kick, drift, post_iter_process", "src/particle-system/regu-system.hpp: RegularizedSystem::kick, drift", "src/particle-system/archain.hpp: ARchainSystem::kick, drift, post_iter_process"]}
{"id": "C107", "title": "The particle containers behave like lists and give all memory back", "statement": "Whatever sequence of calls a program makes on any number of the library's containers (ScalarArray, VectorArray and the arrays of particles: construction empty, from a value, a range, by copying or moving another one; push_back, pop_back, pop_back_val, clear, resize, reserve, append, assign, insert, erase, swap, copy and move assignment, also to itself, destruction) with values from outside, each container afterwards holds exactly the list that the same calls on mathematical lists give: size() is its length, operator[] reads its elements, == compares them, pop_back_val returns the last one, a container that was moved from is empty. No call reads or writes outside the storage of its containers, reads storage without an element, loses or destroys an element twice; the calls that go wrong are exactly those that name an element or a container that is not there. Every block of storage in use belongs to exactly one living container, and when all are destroyed none is left. reserve(n) makes room for n, and while there is room push_back, append and resize do not move the elements.", "quantifier": "all programs (finite sequences of calls) on any number of containers, all element types (trivially copyable or not), all inline capacities, all contents and sizes", "why_tests_cant": "Moves between inline and allocated storage depend on the whole history of sizes and capacities of two containers at a time; a missing destruction, a leak or a wrong boundary shows only in some of the combinations.", "anchors": ["src/type-class.hpp: SSO_vector, SSO_vec_vector, ScalarArray, VectorArray", "src/small-vector.hpp: SmallVector, SmallVectorImpl, SmallVectorTemplateBase::grow, SmallVectorBase::grow_pod, SmallVectorImpl::swap, operator=, insert, erase, append, assign, resize"]}
{"id": "C108", "title": "A container accepts its own elements as arguments", "statement": "v.push_back(v[i]), v.insert(p, v[i]), v.insert(p, n, v[i]), v.append(n, v[i]), v.resize(n, v[i]) and v.assign(n, v[i]) on one of the library's containers use the value that v[i] has when the call is made, as they do for std::vector.", "quantifier": "all containers that any program has built, all indices and counts, both kinds of element types", "why_tests_cant": "It depends on whether the container happens to be full and where its elements are stored at that moment; a test with spare capacity passes.", "anchors": ["src/small-vector.hpp: SmallVectorTemplateBase::push_back, SmallVectorImpl::insert, append, resize, assign", "src/type-class.hpp: ScalarArray, VectorArray"]}
{"id": "C109", "title": "Appending one element at a time does not reallocate for each", "statement": "Calling push_back n times on a new SmallVector allocates at most log2(n) + 1 blocks besides the object's inline buffer, none at all if n does not exceed the inline capacity, and its capacity afterwards is at most the larger of the inline capacity and 2n + 2. reserve(n) keeps the elements and makes room for n; push_back calls that stay within the capacity allocate nothing and leave the elements where they are.", "quantifier": "every program run before, every inline capacity, every element type (trivially copyable or not) and every sequence of fewer than 2^63 elements", "why_tests_cant": "A bound that must hold for every number of elements and every inline capacity; a test measures some of them.", "anchors": ["src/small-vector.hpp: push_back, grow, grow_pod, NextPowerOf2, reserve"]}
{"id": "C110", "title": "IAS15 with the logarithmic Hamiltonian and additional forces follows the true motion", "statement": "With a LogH-regularised system (plain or AR-chain) that has additional forces, smaller macro steps of IAS15 bring the particles at each clock reading as close as wanted to the true motion under gravity and the additional forces, as they do with the other time transformations (C103) and the other integrators (C104, C105).", "quantifier": "every state of at least two particles in different places with positive masses, every smooth set of additional forces (also such that do nothing), every step length below a bound", "why_tests_cant": "That a numerical result converges, and to what, is a statement about all step lengths; a test sees a plausible orbit.", "anchors": ["src/particle-system/regu-system.hpp: evaluate_general_derivative", "src/particle-system/archain.hpp: evaluate_general_derivative", "src/ode-iterator/IAS15.hpp: iterate", "src/integrator/Gauss-Radau.hpp"]}
{"id": "C111", "title": "Bulirsch-Stoer on a user function shortens a step that is too long", "statement": "A call of BulirschStoer::iterate(func, data, time, step) whose extrapolated results miss the tolerance with the step given is repeated with a shorter step until they meet it; whether a call succeeds does not depend on how easy earlier calls were, and it never reads or writes outside its tables.", "quantifier": "every derivative that does not depend on time, every number of variables, data and step, every error estimator, step controller and depth, every history of earlier calls on user functions", "why_tests_cant": "Tests integrate with steps that converge in the first try; the mark of the first step that this overload never takes away shows only with a step that is too long, or an easy call followed by a harder one.", "anchors": ["src/ode-iterator/Bulirsch-Stoer.hpp: BulirschStoer::iterate (user function), in_converged_window, is_diverged_anyhow, set_next_iteration"]}
{"id": "C112", "title": "Units and constants fit together", "statement": "A number written with a unit literal and divided by a unit of the same kind is the converted number; every unit is the length, time, mass, speed or angle its name says relative to unit::m, unit::sec and unit::kg; with consts::G = 1 a body at 1 AU from 1 solar mass returns after one unit::year; consts::G, C and kB are the physical constants in these units, and consts::kB_on_mp is kB / mp.", "quantifier": "every number, every pair of the 27 units of the same kind", "why_tests_cant": "A test compares single conversions with a tolerance; a derived constant that is off by 0.1 % stays within it.", "anchors": ["src/macros.hpp: MAKE_UNIT, hub::unit, hub::consts", "src/orbits/orbits.hpp: period"]}
{"id": "C113", "title": "Rounding adds to the error only in proportion to the number of steps", "statement": "A plain system under gravity is integrated with one of the symplectic integrators and constant or varying steps in floating-point arithmetic, every operation rounded (in the plain accumulation of `double` or `long double`). Against the true motion of the particles, which does not collide, every position and velocity is off by at most K (h^p + e + N u), h the longest step, p the order of the integrator, e the error of the start (such as that of rounding the data), N the number of steps made and u the relative error of one operation, with one constant K for all h, e, N and u small enough; the clock is off by at most K N u. Without rounding the computation is the one of all other properties.", "quantifier": "all numbers of particles, masses and motions without a collision, all integrators made of position and velocity updates, all arithmetics with a relative error per operation, all lists of steps and all starts near the motion", "why_tests_cant": "Rounding errors depend on the data, and whether they can add up to more than a bound for some motion, step or number of steps is not seen from samples.", "anchors": ["src/particle-system/base-system.hpp: kick, drift", "src/interaction/newtonian.hpp: NewtonianGrav::add_acc_to", "src/integrator/symplectic/symplectic-integrator.hpp: integrate", "src/core-computation.hpp: array_advance"]}
{"id": "C114", "title": "With compensated types rounding errors do not add up", "statement": "The same as before with the compensated types (the methods named `_Plus` and `_ExtPlus`): positions, velocities and the time are Kahan numbers. Every position and velocity that the system shows is off by at most K (h^p + e + u + N u^2) and the clock by at most K (u + N u^2): the part of the error that grows with the number of steps N has the square of the relative error u of one operation. For the leap-frogs with a constant step h >= u the error is at most K (h^2 + u). Without rounding the computation is the one with plain types, and the stored errors remain zero.", "quantifier": "all numbers of particles, masses and motions without a collision, all integrators made of position and velocity updates, all arithmetics with a relative error per operation, all lists of steps and all starts near the motion", "why_tests_cant": "Whether the compensation survives the interplay with the forces, the half steps and the conversions to the base type for every motion and any number of steps cannot be seen from samples; runs with N u near 1 cannot be carried out.", "anchors": ["src/kahan-number.hpp: Kahan::operator+=", "src/type-class.hpp: Types::StateScalar", "src/particle-system/base-system.hpp: kick, drift", "src/interaction/newtonian.hpp: NewtonianGrav::add_acc_to", "src/integrator/symplectic/symplectic-integrator.hpp: integrate", "src/core-computation.hpp: array_advance"]}
{"id": "C115", "title": "Energies, accelerations and momenta are computed to the last digits for every configuration", "statement": "In floating-point arithmetic whose operations have a relative error of at most u, the kinetic and the potential energy of n particles are computed with a relative error of about (n + 6) u and (n (n - 1) / 2 + 9) u, the total energy, the accelerations, the angular momentum and the centre of mass with an error of about (n (n + 1) / 2 + 10) u, (n + 23) u, (n + 3) u and (2 n + 2) u times the sum of the sizes of their terms, whatever the magnitudes of the masses, distances and velocities are; nothing cancels that is not a difference of the input itself.", "quantifier": "all numbers of particles, all masses that are not negative, all positions at which no two particles coincide, all velocities, all arithmetics with a relative error per operation", "why_tests_cant": "The loss of digits by cancellation depends on the configuration (close pairs far from the origin, extreme mass ratios); no sample of configurations shows that there is none.", "anchors": ["src/core-computation.hpp: calc_kinetic_energy, calc_potential_energy, calc_total_energy, calc_total_angular_momentum, calc_com", "src/interaction/newtonian.hpp: NewtonianGrav::add_acc_to", "src/vector/vector3.hpp: dot, norm, re_norm, cross"]}
{"id": "C116", "title": "Rounding adds to the error of chain systems only in proportion to the number of steps", "statement": "As for plain systems (C113), for chain systems under gravity: the chain coordinates are made from the data, drifted and kicked, the accelerations are computed from chain coordinates between near neighbours of the chain and from Cartesian ones between the others, the Cartesian coordinates are summed up along the chain after every update, and after every step the chain is rebuilt from the distances as they are computed, its coordinates carried over by sums and differences of the old ones; every operation is rounded. Against the true motion of the particles, which does not collide, every position and velocity is off by at most K (h^p + e + N u), however ties and nearly equal distances are decided and however often the chain changes; the clock is off by at most K N u. A chain is always found and every run goes through. Without rounding the computation is the one of all other properties about chain systems.", "quantifier": "all numbers of particles from two on, masses and motions without a collision, all integrators made of position and velocity updates, all arithmetics with a relative error per operation, all lists of steps, all starts near the motion, all chains and all ways to break ties", "why_tests_cant": "Rounding may reverse the order of two distances and so change the chain; whether the errors of sums along the chain and of its rebuilding add up to more than a bound for some motion is not seen from samples.", "anchors": ["src/particle-system/chain.hpp: Chain::calc_chain_index, update_chain, calc_cartesian, calc_chain", "src/particle-system/chain-system.hpp: drift, kick, post_iter_process", "src/interaction/newtonian.hpp: NewtonianGrav::add_acc_to", "src/integrator/symplectic/symplectic-integrator.hpp: integrate"]}
{"id": "C117", "title": "Rounding adds to the error of regularised systems only in proportion to the number of steps", "statement": "As for plain systems (C113), for regularised systems (logarithmic Hamiltonian and time-transformed leap-frog) under gravity, where the step is one of a transformed time, divided by the kinetic energy plus a stored binding energy or by a stored omega, and by the potential energy, all computed with rounding: against the true motion of the particles, which does not collide, at the time the clock shows, every position and velocity is off by at most K (h^p + e + N u) for N steps of at most h of the transformed time, an integrator of order p, a start that is off by e and a relative error u of the operations. The clock goes on: with a constant step h and u small compared with h it passes any time before the end of the motion after finitely many steps. Without rounding the computation is the one of all other properties about regularised systems.", "quantifier": "all numbers of particles from two on, positive masses, motions without a collision, both kinds of regularisation, all integrators made of position and velocity updates, all arithmetics with a relative error per operation, all lists of steps, all starts near the motion", "why_tests_cant": "The stored energies carry the rounding errors of all earlier steps into the lengths of the later ones, and so into the clock; whether this adds up to more than a bound for some motion and some number of steps is not seen from samples.", "anchors": ["src/particle-system/regu-system.hpp: Regularization, RegularizedSystem::drift, kick, advance_omega", "src/core-computation.hpp: calc_kinetic_energy, calc_potential_energy, coord_contract_to_scalar", "src/integrator/symplectic/symplectic-integrator.hpp: integrate"]}
{"id": "C118", "title": "Rounding adds to the error of ARchain systems only in proportion to the number of steps", "statement": "As for regularised systems (C117), for ARchain systems, which combine the transformed time with chain coordinates: the accelerations and the potential energy in the step length come from sums along the chain, the particles are sums of chain links, and the chain is rebuilt after every step. Against the true motion of the particles, which does not collide, at the time the clock shows, every position and velocity is off by at most K (h^p + e + N u) for N steps of at most h of the transformed time, an integrator of order p, a start that is off by e and a relative error u of the operations, whatever chain rounding and ties between distances lead to. The clock goes on: with a constant step h and u small compared with h it passes any time before the end of the motion after finitely many steps. Without rounding the computation is the one of all other properties about ARchain systems.", "quantifier": "all numbers of particles from two on, positive masses, motions without a collision, both kinds of regularisation, all integrators made of position and velocity updates, all arithmetics with a relative error per operation, all lists of steps, all starts near the motion, all chains and all ways to break ties", "why_tests_cant": "Three sources of error feed into each other: the chain sums enter the energies, the energies enter the step lengths, and rounding may reverse the order of two distances and so change the chain; whether this adds up to more than a bound for some motion is not seen from samples.", "anchors": ["src/particle-system/archain.hpp: ARchainSystem constructor, drift, kick, post_iter_process", "src/particle-system/regu-system.hpp: Regularization", "src/particle-system/chain.hpp: Chain::calc_chain_index, update_chain, calc_cartesian, calc_chain", "src/core-computation.hpp: calc_potential_energy", "src/integrator/symplectic/symplectic-integrator.hpp: integrate"]}
{"id": "C119", "title": "Rounding adds to the error of Bulirsch-Stoer only in proportion to the number of calls", "statement": "Bulirsch-Stoer integrates a plain system of particles under gravity, call after call, in an arithmetic with a relative error u per operation. Every call that returns has accepted a step: the one it was given, shortened by the step-size control for every rejection, extrapolated from runs number 0 to some k of at least 1. Against the true motion of the particles, which does not collide, N calls with accepted steps a_1, ..., a_N of at most some length leave every position and velocity off by at most K (a_1^(2 k_1 + 3) + ... + a_N^(2 k_N + 3) + e + N u), where the start is off by e; the clock is off the sum of the accepted steps by at most K N u. In particular steps of at most h give K (h^4 + e + N u), whatever the tolerance: the table of extrapolations, whose weights have both signs and add up to more than 1 in size, does not let rounding errors grow faster than in proportion to the number of calls. Without rounding the computation is the one of all other properties about the iterator.", "quantifier": "all numbers of particles, masses and motions without a collision, both variants of the sub-steps, all table depths, all error estimates and step-size controls, all arithmetics with a relative error per operation, all sequences of calls that return, with all rejections, all starts near the motion", "why_tests_cant": "Extrapolation subtracts nearly equal numbers; how rounding errors of the runs get through the table and from call to call depends on the motion, the step and the number of columns used; samples show single cases only.", "anchors": ["src/ode-iterator/Bulirsch-Stoer.hpp: BulirschStoer::iterate, integrate_by_n_steps, extrapolate", "src/ode-iterator/Bulirsch-Stoer.hpp: BulirschStoerConsts", "src/particle-system/base-system.hpp: SimpleSystem drift, kick, sync_pos_increment, sync_vel_increment, sync_time_increment, write_to_scalar_array, read_from_scalar_array", "src/type-class.hpp: advance_scaled_coords_to"]}
{"id": "C120", "title": "The energy a simulation reports is that of the start up to the errors of the integrator and of rounding", "statement": "Particles move under Newton's laws without colliding, and a simulation with plain, regularised, chain or ARchain systems, with a symplectic or the Bulirsch-Stoer integrator, follows them. calc_total_energy of the state it has reached, computed in floating point, differs from the energy at the start by at most K (h^p + e + (N+1) u): the error of the integrator, of the initial state, and the accumulated rounding errors. If that energy is not zero, EnergyErrWriter, first called at the start, writes a number of at most that size; for regularised and ARchain systems the number it writes (the logarithm of a ratio of energies) is zero up to that size.", "quantifier": "every collision-free Newtonian motion, every arithmetic with a relative error u per operation, every integrator of the given order, every sequence of step sizes, every number of steps, every retry pattern of Bulirsch-Stoer", "why_tests_cant": "a test observes the energy error of a handful of runs; that no run near a motion can report more than the bound, for every motion, arithmetic and number of steps, is a statement about all of them", "anchors": ["src/core-computation.hpp: calc_energy_error, calc_total_energy, calc_potential_energy, calc_kinetic_energy", "src/args-callback/callbacks.hpp: EnergyErrWriter", "src/particle-system/base-system.hpp: SimpleSystem", "src/particle-system/regu-system.hpp: RegularizedSystem", "src/particle-system/chain-system.hpp: ChainSystem", "src/particle-system/archain.hpp: ARchainSystem"]}
{"id": "C121", "title": "Rounding adds to the error only in proportion to the number of steps also with post-Newtonian forces", "statement": "Particles move under gravity and post-Newtonian corrections of the orders 1 and 2.5 (either or both, the classes PN1 and PN2p5), without colliding. A plain system with those forces is integrated with a symplectic integrator of the order p in an arithmetic whose operations have the relative error u, so that every kick is made in three parts with an auxiliary velocity that is set anew at every step. After N steps of at most h from a start that is off by e, every position and velocity is off by at most K (h^p + e + N u), and the clock by at most K N u; for the leap-frogs with a constant step h in b bits that is K (h^2 + 1 / (2^b h)). Without rounding the computation is the one of all other properties about systems with forces that depend on the velocities.", "quantifier": "all numbers of particles, masses, gravitational constants and speeds of light other than 0, all lists of the two corrections with at least one entry, all motions under these forces without a collision, all symplectic integrators with their orders, all arithmetics with a relative error per operation, all sequences of steps, all starts near the motion", "why_tests_cant": "The post-Newtonian terms are small differences of large terms, and the auxiliary velocity is advanced by rounded forces of its own; a test sees the final error of a few binaries, in which the error of the integrator dominates, and cannot tell a bias per step that grows faster than the number of steps from the truncation error. That no motion, no list of terms and no arithmetic makes the rounding errors grow faster is a statement about all runs.", "anchors": ["src/interaction/post-newtonian.hpp: PN1::add_acc_to, PN2p5::add_acc_to, INV_C2, INV_C5", "src/particle-system/base-system.hpp: SimpleSystem::kick, drift, pre_iter_process", "src/interaction/interaction.hpp: Interactions::eval_extra_vel_dep_acc", "src/core-computation.hpp: array_add, array_advance", "src/integrator/symplectic/symplectic-integrator.hpp: integrate_to"]}
