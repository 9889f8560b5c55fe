{"id": "C01", "title": "Base32768 round trip", "statement": "Decoding the Base32768 encoding of any byte string yields exactly that byte string.", "quantifier": "every finite byte string (any length, any content, including the three cases of the final padding)", "why_tests_cant": "the input space is infinite and the padding depends on length mod 15 and on the bits straddling a code point boundary; tests use a few strings", "anchors": ["base/base32768_body.hpp: Base32768Encoder::Encode, Decode"]}
{"id": "C02", "title": "Base32768 lengths and alphabet", "statement": "The encoder emits exactly EncodedLength code units (never writing past the buffer it allocates), every code unit belongs to the 15-bit repertoire except possibly the last which may belong to the 7-bit repertoire, and DecodedLength of the encoding is the original length.", "quantifier": "every finite byte string", "why_tests_cant": "buffer overrun for one residue class of lengths or one bit pattern would corrupt memory; must hold for all lengths", "anchors": ["base/base32768_body.hpp: EncodedLength, DecodedLength, CachingRepertoire, fifteen_bits, seven_bits"]}
{"id": "C03", "title": "Hexadecimal round trip", "statement": "Decoding the hexadecimal encoding of any byte string yields that byte string, in upper or lower case, and in-place encoding over the start of the output buffer gives the same result as encoding into a disjoint buffer.", "quantifier": "every finite byte string; both the disjoint and the in-place buffer layouts", "why_tests_cant": "overlap bugs appear only for particular positions; all byte values and lengths must work", "anchors": ["base/hexadecimal_body.hpp: HexadecimalEncoder::Encode, Decode"]}
{"id": "C04", "title": "Integer modulus", "statement": "mod(a, b) is the unique integer congruent to a modulo b that lies between 0 and b (b excluded, with the sign of b), and the three-argument form returns the unique congruent integer in [offset, offset + b).", "quantifier": "all integers a, b ≠ 0 and offset, as long as the intermediate results are representable", "why_tests_cant": "unbounded domain, sign combinations; calendar, permutation and orbit code depend on it", "anchors": ["base/mod.hpp: mod"]}
{"id": "C05", "title": "Bit utilities", "statement": "FloorLog2 and PowerOf2Le return the exponent and value of the largest power of two not exceeding their argument; BitReversedIncrement on `bits` bits maps the bit reversal of k to the bit reversal of k+1, so iterating it from 0 enumerates every index exactly once.", "quantifier": "all non-zero 32-bit arguments; all widths and all counters", "why_tests_cant": "FFT data shuffling requires the enumeration to be a permutation for every size", "anchors": ["base/bits_body.hpp: FloorLog2, PowerOf2Le, BitReversedIncrement"]}
{"id": "C06", "title": "Fingerprints are never 0 or 1", "statement": "Neither combining two fingerprints nor fingerprinting a byte string ever produces one of the reserved values 0 and 1.", "quantifier": "all pairs of 64-bit fingerprints, all byte strings", "why_tests_cant": "2^128 inputs", "anchors": ["base/fingerprint2011.hpp: FingerprintCat2011, Fingerprint2011"]}
{"id": "C07", "title": "Disjoint sets compute connectivity", "statement": "After any sequence of unions, two elements are reported to be in the same subset iff they are connected by the unions performed; queries (which compress paths) never change the answer of any other query, and always terminate.", "quantifier": "every finite set of elements, every interleaving of Unite and Find calls", "why_tests_cant": "the history of unions and path compressions is unbounded", "anchors": ["base/disjoint_sets_body.hpp: Subset::Unite, Subset::Find, Node::Root"]}
{"id": "C08", "title": "Pile-ups are the connected components of the parts", "statement": "After parts are united according to contacts and collected, the pile-ups are exactly the connected components; a component that coincides with an existing pile-up keeps that pile-up object, any other existing pile-up is destroyed, and no internal consistency check fails.", "quantifier": "every initial arrangement of parts into pile-ups, every sequence of unions, every collection order", "why_tests_cant": "depends on the history of merges and on the bookkeeping of missing parts; combinatorial", "anchors": ["ksp_plugin/part_subsets.cpp: Subset<Part>::Properties::MergeWith, Collect", "ksp_plugin/pile_up.cpp: PileUp::~PileUp"]}
{"id": "C09", "title": "Bundle join", "statement": "Join returns only once every task added has completed, returns OK iff all tasks returned OK and otherwise the status of a failing task; no schedule makes Join wait forever or notify twice.", "quantifier": "every number of tasks, every interleaving of worker and client steps", "why_tests_cant": "interleavings cannot be enumerated by tests; the notification race is schedule dependent", "anchors": ["base/bundle.cpp: Bundle::Add, Join, JoinWithin, Toil"]}
{"id": "C10", "title": "Thread pool scheduling", "statement": "Calls are started in the order in which they were added, each exactly once, at most pool_size run at once, and TryAdd accepts a call only if a thread can run it immediately.", "quantifier": "every interleaving of Add, TryAdd and of the worker threads' steps", "why_tests_cant": "schedule dependent", "anchors": ["base/thread_pool_body.hpp: ThreadPool::Add, TryAdd, DequeueCallAndExecute"]}
{"id": "C11", "title": "Pull serializer delivers the exact byte stream", "statement": "For every interleaving of the serializing thread and of the client calling Pull, the concatenation of the arrays returned by Pull until the empty one is exactly the compressed-or-not byte stream written by the serializer; an array returned by Pull is not overwritten until the next Pull; the two threads never deadlock.", "quantifier": "every message size, chunk size, number of chunks and schedule", "why_tests_cant": "schedules and sizes unbounded; data corruption would be silent save-game corruption", "anchors": ["base/pull_serializer_body.hpp: PullSerializer::Start, Pull, Push; DelegatingArrayOutputStream::Next, BackUp"]}
{"id": "C12", "title": "Push deserializer consumes the exact byte stream", "statement": "For every interleaving of Push calls and of the deserializing thread, the bytes seen by the parser are the concatenation of the pushed arrays, in order, and the done callback of each array runs exactly once, after its bytes have been consumed.", "quantifier": "every sequence of array sizes, every chunk configuration, every schedule", "why_tests_cant": "schedules unbounded; freeing memory early or twice corrupts the heap", "anchors": ["base/push_deserializer_body.hpp: PushDeserializer::Push, Pull, Start; DelegatingArrayInputStream::Next, BackUp, Skip"]}
{"id": "C13", "title": "Push-pull executor", "statement": "Every callback invocation made by the executed function is seen by the driver exactly once and in order, receives the value pushed in reply, and once Pull returns false the result of the function is available.", "quantifier": "every number of callback invocations, every schedule of the two threads", "why_tests_cant": "schedule dependent", "anchors": ["base/push_pull_callback_body.hpp: PushPullCallback::Pull, Push, Shutdown; PushPullExecutor"]}
{"id": "C14", "title": "Recurring thread", "statement": "Each input given to the thread is processed at most once, the last input given is processed unless a newer one replaced it, outputs are produced in the order of the inputs processed, and an error in the action yields no output.", "quantifier": "every interleaving of Put, Get and of the runs of the action", "why_tests_cant": "schedule dependent", "anchors": ["base/recurring_thread_body.hpp: RecurringThread::Put, Get, RunAction"]}
{"id": "C15", "title": "Checkpointer queries and serialization", "statement": "oldest/newest/at_or_before/at_or_after/all_between return exactly the checkpoints their names say, checkpoints written conditionally are never closer than the given interval to the preceding newest one, and writing then reading a message restores the same set of checkpoints.", "quantifier": "every history of checkpoint writes, every query time", "why_tests_cant": "arbitrary histories", "anchors": ["physics/checkpointer_body.hpp: Checkpointer::*"]}
{"id": "C16", "title": "Protector runs callbacks exactly when safe", "statement": "A callback registered to run when the times before t are unprotected runs exactly once, never while a protection that covers a time before t is in force, and as soon as there is none.", "quantifier": "every interleaving of Protect, Unprotect and RunWhenUnprotected", "why_tests_cant": "arbitrary histories of nested protections with equal times", "anchors": ["physics/protector.cpp: Protector::RunWhenUnprotected, Protect, Unprotect"]}
{"id": "C17", "title": "Clientele minimum and monostable", "statement": "Clientele::first returns the least of the times of clients that joined and have not left, with multiplicity, or the default when there are none; a Monostable is true until the first call to Flop and false from then on.", "quantifier": "every sequence of Join/Leave/Flop", "why_tests_cant": "arbitrary histories with duplicates", "anchors": ["physics/clientele_body.hpp: Clientele::Join, Leave, first", "base/monostable_body.hpp: Monostable"]}
{"id": "C18", "title": "Discrete trajectory consistency", "statement": "Any sequence of public operations on discrete trajectories that does not fail a documented precondition leaves the trajectory consistent: times strictly increase within each segment, consecutive non-empty segments share their boundary point, empty segments precede non-empty ones, and time look-up is exact.", "quantifier": "every finite sequence of NewSegment, Append, ForgetAfter, ForgetBefore, DetachSegments, AttachSegments, DeleteSegments, Merge, clear", "why_tests_cant": "histories are unbounded; tests exercise a handful", "anchors": ["physics/discrete_trajectory_body.hpp: ConsistencyStatus, NewSegment, Append, ForgetAfter, ForgetBefore, DetachSegments, AttachSegments, DeleteSegments, AdjustAfterSplicing"]}
{"id": "C19", "title": "Discrete trajectory look-up", "statement": "find, lower_bound and upper_bound return the point at the given time, the first point at or after it, and the first point strictly after it, among all points of the trajectory, or end if there is none.", "quantifier": "every consistent trajectory, every time", "why_tests_cant": "boundary times shared by several segments, one-point segments and empty segments combine arbitrarily", "anchors": ["physics/discrete_trajectory_body.hpp: find, lower_bound, upper_bound, FindSegment"]}
{"id": "C20", "title": "Forgetting and appending", "statement": "ForgetBefore(t) removes exactly the points before t; ForgetAfter(t) removes exactly the points at or after t, except that a point at t which joins two segments remains the end of the earlier one; Append adds exactly one point at the end, replacing at most the previous last point, and that only when downsampling is on.", "quantifier": "every consistent trajectory, every time", "why_tests_cant": "segment boundaries and one-point segments", "anchors": ["physics/discrete_trajectory_body.hpp: ForgetAfter, ForgetBefore, Append", "physics/discrete_trajectory_segment_body.hpp"]}
{"id": "C21", "title": "Trajectory iterators", "statement": "Incrementing visits every distinct time of the trajectory once in increasing order; decrement is the inverse of increment; += n and -= n equal n increments or decrements; the difference of two iterators is the number of increments between them; size() is the number of points visited.", "quantifier": "every consistent trajectory, every iterator, every n", "why_tests_cant": "the fast paths of += and - skip whole segments and must agree with stepping for every segment shape", "anchors": ["physics/discrete_trajectory_iterator_body.hpp: operator++, operator--, operator+=, operator-=, operator-"]}
{"id": "C22", "title": "Detaching and attaching segments", "statement": "Detaching a tail of segments and attaching it back yields the original trajectory; detaching partitions the points; attaching concatenates them.", "quantifier": "every consistent trajectory and segment boundary", "why_tests_cant": "histories and segment shapes unbounded", "anchors": ["physics/discrete_trajectory_body.hpp: DetachSegments, AttachSegments, AdjustAfterSplicing"]}
{"id": "C23", "title": "Merging trajectories", "statement": "Merging an earlier reconstructed trajectory segment by segment yields the union of the points, ordered by time.", "quantifier": "all pairs of consistent trajectories whose corresponding segments are time-ordered", "why_tests_cant": "segment shapes unbounded", "anchors": ["physics/discrete_trajectory_body.hpp: Merge", "physics/discrete_trajectory_segment_body.hpp: Merge"]}
{"id": "C24", "title": "Trajectory serialization", "statement": "Reading back a serialized trajectory yields the same points in the same segments (for the points in the written range), and the time look-up structure is rebuilt consistently.", "quantifier": "every consistent trajectory", "why_tests_cant": "save games contain arbitrary trajectories", "anchors": ["physics/discrete_trajectory_body.hpp: WriteToMessage, ReadFromMessage"]}
{"id": "C25", "title": "Downsampling honours the tolerance", "statement": "However many points are appended to a downsampled segment, every point that was dropped lies within the tolerance of the interpolated trajectory that replaces it, in every later state of the segment.", "quantifier": "every sequence of appended points, every tolerance and horizon", "why_tests_cant": "errors accumulate over unbounded histories of repeated re-interpolation", "anchors": ["physics/discrete_trajectory_segment_body.hpp: Append", "numerics/hermite3_body.hpp"]}
{"id": "C26", "title": "Hermite interpolation", "statement": "The cubic Hermite interpolant takes the prescribed values and derivatives at both ends, is the unique cubic doing so, reproduces cubics exactly, and the error bound it reports against samples is the true maximum.", "quantifier": "all real arguments, values, derivatives and samples", "why_tests_cant": "real-number identities over infinite domains", "anchors": ["numerics/hermite3_body.hpp: Hermite3"]}
{"id": "C27", "title": "Calendar arithmetic", "statement": "Converting a valid date to a Julian day and back yields the same date; consecutive dates have consecutive Julian days; ordinal and ISO week dates denote the day ISO 8601 assigns to them; the order of dates is the order of their Julian days.", "quantifier": "every valid date of the supported years", "why_tests_cant": "tests check some dates; leap-century, year and month boundaries and truncated divisions must all be right", "anchors": ["astronomy/date_time_body.hpp: Date::JD, Date::jd, Date::Ordinal, Date::Week, next_day"]}
{"id": "C28", "title": "Date and time literals", "statement": "Parsing accepts exactly the documented formats, denotes the fields written, and parsing the printed form of a date or time yields it back; all values accepted are valid dates and times.", "quantifier": "every input string; every date and time", "why_tests_cant": "infinitely many strings", "anchors": ["astronomy/date_time_body.hpp: DateParser, TimeParser, JulianDateParser, operator<<"]}
{"id": "C29", "title": "Orbit recurrence subcycle", "statement": "For every valid recurrence triple the constructor terminates and the subcycle is the smallest number of days after which the ground track passes one grid interval from the origin; 0 < |subcycle| < |Cto| when Dto ≠ 0.", "quantifier": "every valid triple of integers", "why_tests_cant": "unbounded integers; termination", "anchors": ["astronomy/orbit_recurrence_body.hpp: OrbitRecurrence::OrbitRecurrence"]}
{"id": "C30", "title": "Closest recurrence is always valid", "statement": "For every finite orbit characteristic, the recurrence search yields a triple meeting all the conditions of the constructor (so the process never aborts), with |Cto| at most the bound, and no smaller error among the allowed cycles.", "quantifier": "every real daily recurrence frequency and every bound ≥ 1", "why_tests_cant": "a counterexample would crash the game; domain is the reals", "anchors": ["astronomy/orbit_recurrence_body.hpp: OrbitRecurrence::ClosestRecurrence"]}
{"id": "C31", "title": "Flight plan structure", "statement": "After every sequence of flight plan operations, segments alternate coast and burn and number 2n+1 for n manœuvres, there is one analyser per coast, and when an integration fails every later segment is a single point and counted as anomalous.", "quantifier": "every sequence of Insert, Remove, Replace, SetDesiredFinalTime, SetAdaptiveStepParameters and deadline-avoiding queries, with arbitrary integration outcomes", "why_tests_cant": "histories with arbitrary integration failures", "anchors": ["ksp_plugin/flight_plan.cpp: ComputeSegments, PopLastSegments, ResetLastSegment, RecomputeSegmentsAvoidingDeadlineIfNeeded"]}
{"id": "C32", "title": "Flight plan errors have no effect", "statement": "Insert, Replace and SetDesiredFinalTime leave the flight plan unchanged when they reject their argument.", "quantifier": "every flight plan state and argument", "why_tests_cant": "arbitrary states", "anchors": ["ksp_plugin/flight_plan.cpp: Insert, Replace, SetDesiredFinalTime"]}
{"id": "C33", "title": "Flight plan mass chain", "statement": "The initial mass of each manœuvre is the final mass of the preceding one (or the initial mass of the plan), after any sequence of edits.", "quantifier": "every sequence of edits", "why_tests_cant": "histories", "anchors": ["ksp_plugin/flight_plan.cpp: UpdateInitialMassOfManœuvresAfter, Insert, Remove, Replace"]}
{"id": "C34", "title": "Flight plan copy", "statement": "A copy of a flight plan is observationally equal to the original (manœuvres, segments, anomalies, status).", "quantifier": "every reachable flight plan", "why_tests_cant": "arbitrary states, in particular anomalous ones", "anchors": ["ksp_plugin/flight_plan.cpp: FlightPlan::FlightPlan(FlightPlan const&)"]}
{"id": "C35", "title": "Barycentres", "statement": "The barycentre of weighted values is the unique value about which the weighted displacements sum to zero, does not depend on the order of accumulation, can be computed group by group, and for Jacobi and hierarchical systems the computed positions have the specified barycentre and relative displacements.", "quantifier": "every list of values and non-cancelling weights, every hierarchy", "why_tests_cant": "unbounded lists and trees", "anchors": ["geometry/barycentre_calculator_body.hpp", "physics/jacobi_coordinates_body.hpp", "physics/hierarchical_system_body.hpp"]}
{"id": "C36", "title": "Rotations", "statement": "Applying a rotation preserves inner products and orientation; composition, inverse and conversion from axis-angle, Euler angles and matrices act as the corresponding linear maps.", "quantifier": "every unit quaternion, every vector, every angle", "why_tests_cant": "real identities", "anchors": ["geometry/quaternion_body.hpp", "geometry/rotation_body.hpp"]}
{"id": "C37", "title": "Discrete and affine maps", "statement": "Permutations, signatures, orthogonal, conformal and affine maps compose associatively, have inverses, preserve (or scale) inner products and act on bivectors and trivectors compatibly with the wedge product.", "quantifier": "all maps, all multivectors", "why_tests_cant": "algebraic laws over infinite domains", "anchors": ["geometry/permutation_body.hpp", "geometry/signature_body.hpp", "geometry/orthogonal_map_body.hpp", "geometry/conformal_map_body.hpp", "geometry/affine_map_body.hpp", "geometry/grassmann_body.hpp"]}
{"id": "C38", "title": "Polynomials", "statement": "Evaluation by the Horner and Estrin schemes agrees with the mathematical polynomial; sum, product, composition, derivative, primitive and change of origin commute with evaluation.", "quantifier": "every degree, every coefficients and argument in exact arithmetic", "why_tests_cant": "degrees and coefficients unbounded", "anchors": ["numerics/polynomial_evaluators_body.hpp", "numerics/polynomial_in_monomial_basis_body.hpp"]}
{"id": "C39", "title": "Чебышёв series", "statement": "Evaluation of a polynomial in the Чебышёв basis gives the sum of its series, and the evaluation of the derivative gives the derivative of that sum. The zero-free test never denies the existence of a root between the bounds, even for a function that only lies within the error estimate of the polynomial. The real roots that are returned are the roots between the bounds.", "quantifier": "every degree, coefficients, bounds and argument, every function within the error estimate", "why_tests_cant": "unbounded degrees and arbitrary coefficients; the special cases of low degree are easily missed", "anchors": ["numerics/polynomial_in_чебышёв_basis_body.hpp:PolynomialInЧебышёвBasis"]}
{"id": "C40", "title": "Fast Fourier transform", "statement": "The transform computed equals the discrete Fourier transform of the data for every power-of-two size.", "quantifier": "every size 2^n and every sequence of values in a real vector space", "why_tests_cant": "unbounded sizes", "anchors": ["numerics/fast_fourier_transform_body.hpp"]}
{"id": "C41", "title": "Root finders and extremum searches", "statement": "Bisection returns a point of the interval at which (to the last representable number) the function changes sign and terminates; the quadratic solver returns exactly the real roots in increasing order. Brent's method, given a continuous function that changes sign, terminates (if the interval doesn't contain 0) with a number within a relative 4 ϵ of a zero. Brent's search for an extremum terminates within its stated tolerance of a local extremum of the function on the interval, which is the extremum if the function is unimodal. The golden section search gains a factor φ per iteration for a unimodal function. DoubleBrent only returns approximations of zeroes, and returns at least one if the function changes sign.", "quantifier": "every function (continuous, unimodal or with a sign change, as stated), every interval, every coefficients", "why_tests_cant": "functions are arbitrary", "anchors": ["numerics/root_finders_body.hpp: Bisect, Brent, DoubleBrent, GoldenSectionSearch, SolveQuadraticEquation"]}
{"id": "C42", "title": "Nearest neighbour search", "statement": "The principal component partitioning tree returns the nearest value satisfying the filter, for every tree content and query.", "quantifier": "every finite set of points, every query, every filter", "why_tests_cant": "pruning errors appear only in special geometries", "anchors": ["numerics/nearest_neighbour_body.hpp"]}
{"id": "C43", "title": "Dimensional analysis", "statement": "The packed representation of dimensions implements the group of exponent vectors: products, quotients, powers and roots of quantities have the right dimension and distinct dimensions never compare equal, within the representable range of exponents.", "quantifier": "all exponent vectors in range", "why_tests_cant": "2^64 packed values", "anchors": ["quantities/dimensions_body.hpp: Dimensions, DimensionsProductGenerator, …"]}
{"id": "C44", "title": "Fixed-step integration ends on time", "statement": "A fixed-step integrator instance never goes past the requested time, stops less than one step short of it, and integrating to t1 then t2 visits the same steps as integrating to t2.", "quantifier": "every step (positive or negative), every sequence of requested times", "why_tests_cant": "histories unbounded", "anchors": ["integrators/symplectic_runge_kutta_nyström_integrator_body.hpp: Instance::Solve", "integrators/symmetric_linear_multistep_integrator_body.hpp"]}
{"id": "C45", "title": "The methods have their stated order", "statement": "Each integration method of the library has the order p that is stated for it: a step of length h from a point of a solution (for the multistep methods, from previous steps that are points of the solution) ends at a distance O(h^(p+1)) of the solution, up to the accuracy with which the coefficients of the method are given.", "quantifier": "every method and composition of the library, every differential equation with an analytic right-hand side, in any number of dimensions, every solution of it", "why_tests_cant": "unit tests only observe convergence numerically on sample problems", "anchors": ["integrators/methods.hpp", "integrators/cohen_hubbard_oesterwinter_body.hpp", "integrators/symplectic_runge_kutta_nyström_integrator_body.hpp: Instance::Solve", "integrators/explicit_runge_kutta_integrator_body.hpp: Instance::Solve", "integrators/symmetric_linear_multistep_integrator_body.hpp: Instance::Solve", "integrators/explicit_linear_multistep_integrator_body.hpp: Instance::Solve"]}
{"id": "C46", "title": "Journal", "statement": "While a recorder is active, and at whatever point the program stops, the journal contains the calls completed since the activation, in order, each as a line for its arguments immediately followed by a line for its outcome, and possibly the beginning of these lines for a call that is being made. Replaying the journal calls the same functions, in the same order, with the same arguments, on the same objects, and with the outcomes that were recorded, then stops. The recorder neither deadlocks nor misuses its lock.", "quantifier": "every number of threads, every interleaving of their steps (up to the output of each character), every call history, every point where the program may stop, every message length", "why_tests_cant": "arbitrary interleavings, histories and crash points", "anchors": ["journal/recorder.cpp", "journal/player.cpp: Read, Process", "journal/player_body.hpp: RunIfAppropriate", "journal/method_body.hpp", "journal/profiles.cpp: Insert, Delete, DeserializePointer", "base/get_line_body.hpp"]}
{"id": "C47", "title": "Evaluation of trajectory segments", "statement": "Evaluating a segment at the time of one of its points yields that point; between two consecutive points it yields the value and the derivative of their cubic Hermite interpolant; elsewhere it fails.", "quantifier": "every sequence of operations on the segment, every time", "why_tests_cant": "arbitrary histories (downsampling, forgetting, prepending) must keep the cached interpolants in agreement with the points", "anchors": ["physics/discrete_trajectory_segment_body.hpp: EvaluatePosition, EvaluateVelocity, Append, Prepend, ForgetBefore, ForgetAfter"]}
{"id": "C48", "title": "Manœuvres obey the rocket equation", "statement": "The final mass of a manœuvre is the initial mass times exp(-Δv/Isp); a vessel subject to its acceleration accumulates exactly its Δv between the initial and final times and half of it at the time of half Δv; the timing given by the client is honoured; reading what was written yields the same manœuvre, including for saves that give a direction and a duration.", "quantifier": "every initial mass, thrust, specific impulse, Δv and timing", "why_tests_cant": "a continuum of real parameters and a differential equation", "anchors": ["ksp_plugin/manœuvre_body.hpp: Manœuvre::Manœuvre, final_mass, time_to_half_Δv, ComputeIntrinsicAcceleration, ReadFromMessage, ComputeЦиолковскийΔv"]}
{"id": "C49", "title": "Analyses of flight plan coasts", "statement": "While analysis is enabled, the analysis returned for a coast of a flight plan is for the current coast: it starts at the initial state of that coast, ends at its final time, and its extended mission ends at the desired final time of the plan.", "quantifier": "every sequence of flight plan operations, with arbitrary integration outcomes, every coast", "why_tests_cant": "histories with arbitrary integration failures", "anchors": ["ksp_plugin/flight_plan.cpp: analysis, EnableAnalysis, ComputeSegments"]}
{"id": "C50", "title": "Flight plan operations do not crash", "statement": "Editing a flight plan (insertion, removal, replacement, change of the final time or of the parameters, deadline-avoiding queries) never fails a CHECK: the arguments that cannot be honoured are rejected with a status.", "quantifier": "every reachable flight plan, every argument in range, every integration outcome", "why_tests_cant": "a failed CHECK kills the game; arbitrary histories and burns", "anchors": ["ksp_plugin/flight_plan.cpp: Insert, Remove, Replace, SetDesiredFinalTime, ComputeSegments", "physics/ephemeris_body.hpp: FlowODEWithAdaptiveStep", "ksp_plugin/manœuvre_body.hpp: set_coasting_trajectory"]}
{"id": "C51", "title": "A flight plan does not depend on its history", "statement": "If integrations are reproducible, two flight plans with the same initial state, manœuvres and desired final time have the same trajectory, anomalies and status, whatever sequence of edits produced them; in particular saving a plan and loading it gives the same plan.", "quantifier": "every two histories of edits, every integrator (including one that fails)", "why_tests_cant": "the incremental recomputation of a plan depends on the whole history of edits", "anchors": ["ksp_plugin/flight_plan.cpp FlightPlan::ComputeSegments", "FlightPlan::PopSegmentsAffectedByManœuvre", "FlightPlan::ReadFromMessage", "FlightPlan::WriteToMessage"]}
{"id": "C52", "title": "Solving 3×3 linear systems", "statement": "Whenever the solver of 3×3 linear systems returns, the matrix is invertible and the vector it returns is the solution of the system; nothing it reads is uninitialized; it returns for every inertia-like matrix it is given by its clients.", "quantifier": "every 3×3 matrix and right-hand side", "why_tests_cant": "a continuum of matrices, with data-dependent pivoting", "anchors": ["geometry/r3x3_matrix_body.hpp: Solve", "geometry/symmetric_bilinear_form_body.hpp: operator/"]}
{"id": "C53", "title": "Symmetric bilinear forms", "statement": "Symmetric bilinear forms obey the laws of the tensor algebra (symmetry, bilinearity, products, anticommutator and its inverse), and the diagonalization of every form terminates without failure, yields eigenvalues in increasing order and a rotation that maps the diagonal form to the original one, up to a relative error of a few units in the last place.", "quantifier": "every symmetric bilinear form", "why_tests_cant": "a continuum of forms; convergence of an iteration with a fixed bound on the number of steps", "anchors": ["geometry/symmetric_bilinear_form_body.hpp: Diagonalize, Anticommutator, AnticommutatorInverse, SymmetricProduct, SymmetricSquare, operator()"]}
{"id": "C54", "title": "Parsing of quantities", "statement": "A text made of a number and of a unit (a quotient of products of powers of named units, with arbitrary blanks) is parsed as the quantity that the rules of algebra give it; a text is accepted only if it has that form and has the expected dimensions; and what the library prints for the dimensions of a quantity can be parsed back.", "quantifier": "every text", "why_tests_cant": "unboundedly many texts, blanks, factors and exponents", "anchors": ["quantities/parser_body.hpp: ParseQuantity, ParseUnit, ParseExponentiationUnit, ParseProductUnit, ParseQuotientUnit, ParseExponent", "quantities/quantities_body.hpp: Format, FormatUnit"]}
{"id": "C55", "title": "Completion of Keplerian elements", "statement": "When the shape and size of a conic are given minimally (two categories of elements, each given by one of its members or completely), the construction of an orbit gives to each of the sixteen elements its value on that conic, whichever elements are given, for ellipses, circles and hyperbolae (the elements that do not exist for the conic being NaN); any other choice of elements is rejected.  The longitude of the periapsis and its argument are deduced from one another.", "quantifier": "every conic and every choice of elements", "why_tests_cant": "sixteen optional elements give 2^16 combinations of presence and a continuum of values for each", "anchors": ["physics/kepler_orbit.hpp: KeplerianElements", "physics/kepler_orbit_body.hpp: CompleteConicParameters, CompleteConicParametersByCategory, CompleteOrientationParameters"]}
{"id": "C56", "title": "Motion on Keplerian orbits", "statement": "The state vectors of an orbit constructed from elements obey Newton's law for the gravitational parameter of the two bodies, stay on the conic and in the plane given by the elements, pass through the periapsis at the time given by the mean anomaly, or are in the direction given by the true anomaly at epoch, and are periodic with the period of the orbit if the conic is an ellipse.  An orbit constructed from state vectors has these state vectors at epoch.", "quantifier": "every conic, orientation, anomaly, epoch and time, and every state vectors", "why_tests_cant": "the motion is defined by the solution of a transcendental equation over a continuum of elements and times", "anchors": ["physics/kepler_orbit.hpp: KeplerOrbit", "physics/kepler_orbit_body.hpp: KeplerOrbit, StateVectors, CompleteAnomalies"]}
{"id": "C57", "title": "Rigid and similar motions", "statement": "Applying a rigid or similar motion to a position and a velocity yields the position and the velocity in the target frame: if the motion is the derivative of a time-dependent transformation, the velocity obtained is the derivative of the transformed position. The inverse and the product of motions are the derivatives of the inverse and of the composition of the transformations, undo and chain their effects, and the construction from the velocities of either frame agree.", "quantifier": "every differentiable rigid transformation or similarity depending on the time, every trajectory, of either handedness", "why_tests_cant": "derivatives of arbitrary functions of the time", "anchors": ["physics/rigid_motion_body.hpp: RigidMotion, operator(), Inverse, operator*, MakeNonRotatingMotion, Forget", "physics/similar_motion_body.hpp: SimilarMotion, operator(), Inverse, operator*, DilatationAboutOrigin"]}
{"id": "C58", "title": "Mechanical systems", "statement": "The mass, centre of mass, angular momentum and inertia tensor computed for a set of moving and rotating rigid bodies are those of all the particles that make up the bodies; the angular momentum and inertia tensor are taken with respect to the centre of mass. The linear motion is that of a non-rotating frame centred on the centre of mass. A system that is empty or massless has none of these.", "quantifier": "every list of rigid bodies, made of any particles, with any motions and orders of addition", "why_tests_cant": "sums over arbitrarily many particles and bodies; the parallel axis theorem and the change of axes are only checked by tests for special configurations", "anchors": ["physics/mechanical_system_body.hpp: AddRigidBody, LinearMotion, mass, centre_of_mass, AngularMomentum, InertiaTensor"]}
{"id": "C59", "title": "Reference frames", "statement": "A reference frame defined by celestial bodies has the geometry that it is documented to have: the centre, primary or barycentre is at rest at the origin, the axes point to the pole, the prime meridian or the secondary, and the rotating-pulsating frame keeps both bodies fixed. The motion of the frame is the derivative of its transformation, its accelerations the derivatives of the motion. The geometric acceleration of a particle in free fall is the derivative of its velocity in the frame, and it derives from the geometric potential, apart from rotational terms. The Frenet trihedron is orthonormal and follows the velocity and acceleration. The cache of barycentres never changes a result.", "quantifier": "every ephemeris, time, trajectory in free fall, choice of bodies, history of evaluations", "why_tests_cant": "derivatives of arbitrary motions; second-order terms that vanish or are small in the configurations that tests use", "anchors": ["physics/rigid_reference_frame_body.hpp: ComputeGeometricAccelerations, GeometricPotential, ComputeTrihedra, ComputeAngularVelocity, ComputeAngularAcceleration", "physics/reference_frame_body.hpp: FrenetFrame", "physics/body_centred_non_rotating_reference_frame_body.hpp", "physics/body_surface_reference_frame_body.hpp", "physics/body_centred_body_direction_reference_frame_body.hpp", "physics/barycentric_rotating_reference_frame_body.hpp", "physics/rotating_pulsating_reference_frame_body.hpp"]}
{"id": "C60", "title": "Complexification is the field of the complex numbers", "statement": "Complexified quantities add, multiply, divide and conjugate like complex numbers; complexified vectors form a module over the complex numbers, with a Hermitian inner product whose square root is the norm. Mixed operations with real quantities agree with the conversion of the real quantity.", "quantifier": "all complex numbers, complexified vectors and real operands, in exact arithmetic", "why_tests_cant": "the identities must hold for every value, including the mixed overloads that no caller of the library may use today", "anchors": ["geometry/complexification_body.hpp:Complexification", "geometry/complexification.hpp"]}
{"id": "C61", "title": "Interpolation of functions in the Чебышёв basis", "statement": "The interpolant of a function over an interval has a degree that is at most the given maximum, and takes the values of the function at the Чебышёв-Lobatto points, in particular at both ends; polynomials of that degree are reproduced exactly; the estimate of the error bounds the distance to the interpolant at twice as many points, and is at most the given error unless the maximum degree is reached. The adaptive interpolation of a continuous function terminates, its pieces tile the interval in order, and each has an error that is at most the given one unless the client said not to subdivide it. The client's callback sees the pieces in order, up to the one where it asks to stop.", "quantifier": "every function, interval, error, maximum degree, and every behaviour of the callbacks", "why_tests_cant": "arbitrary functions and callbacks, unbounded subdivisions", "anchors": ["numerics/approximation_body.hpp: ЧебышёвPolynomialInterpolant, AdaptiveЧебышёвPolynomialInterpolant, StreamingAdaptiveЧебышёвPolynomialInterpolant"]}
{"id": "C62", "title": "The first collision with the terrain", "statement": "For a trajectory that starts above the terrain, the time of the first collision is one where the height above the terrain is zero, up to the given error, and before which the trajectory doesn't go below the terrain by more than that error; if no collision is reported the trajectory never goes below the terrain by more than that error. (This presumes that the estimates of the errors of the interpolants of the height are bounds of these errors.)", "quantifier": "every height as a function of time, interval and error", "why_tests_cant": "the terrain and the trajectory are arbitrary functions; a missed collision is only visible for some of them", "anchors": ["physics/apsides_body.hpp: ComputeFirstCollision"]}
{"id": "C65", "title": "The adaptive integrators take tolerable steps, end on time, terminate and may be restarted", "statement": "Every state that an integrator with an adaptive step passes to append_state is one step of the higher-order method from the previous one, and its error estimate is tolerable.  The times are strictly monotonic and do not exceed the requested time; if there is no error, the last one is the requested time if the last step is to be exact, otherwise one more step would exceed it.  There are at most max_steps of them.  The call returns.  Interrupting an integration and resuming it gives the same states.", "quantifier": "every method whose coefficients meet the checks of the constructor, every differential equation (even one that returns errors), every tolerance function, every stop request, every parameter, every final time", "why_tests_cant": "a unit test runs one equation with one tolerance; rejected, truncated and reused stages interact in ways that depend on the whole history of the steps", "anchors": ["integrators/embedded_explicit_runge_kutta_nyström_integrator_body.hpp: Instance::Solve", "integrators/embedded_explicit_generalized_runge_kutta_nyström_integrator_body.hpp: Instance::Solve", "integrators/embedded_explicit_runge_kutta_integrator_body.hpp: Instance::Solve", "integrators/integrators_body.hpp: AdaptiveStepSizeIntegrator::Instance"]}
{"id": "C63", "title": "Apsides and nodes", "statement": "Given points of a trajectory in increasing order of time, the computation of the apsides never fails, and finds an apsis between each pair of consecutive points (in the time range of the reference and before the given time) between which the derivative of the distance to the reference changes sign: an apoapsis if the distance ends up decreasing, a periapsis if it ends up increasing. It is the maximum, resp. the minimum, between these points, of the cubic that interpolates the squared distance; the motion itself has such an extremum between the points. The apsides are reported in order, alternate, and nothing else is reported; fewer are reported only if enough of both kinds have been found. Similarly the nodes are found where the coordinate along the axis changes sign, and are ascending if the trajectory crosses the plane towards the north.", "quantifier": "every trajectory and reference, every sequence of points, every time limit and number of points", "why_tests_cant": "the points, the geometry and the signs are arbitrary; degenerate cases are not sampled", "anchors": ["physics/apsides_body.hpp: ComputeApsides, ComputeNodes"]}
{"id": "C64", "title": "The collision intervals are those where a trajectory is inside the sphere of maximal radius", "statement": "Given the apsides of a trajectory with respect to a body, the intervals computed for the search of collisions are sorted, disjoint and within the range of time of the trajectory, and no internal check fails.  Up to the tolerance of the bisection at their bounds, every instant where the trajectory is at less than the maximal radius of the body is in one of them, and the trajectory is never above the maximal radius within one of them.  If the apsides do not alternate, no interval is returned.", "quantifier": "every squared distance function that is continuous, every maximal radius, every range of time, every set of apoapsides and of periapsides between which the distance is monotonic", "why_tests_cant": "the algorithm is an automaton over periapsides and apoapsides that may be above or below the radius, in any number, with special cases at both ends; tests only sample a few sequences", "anchors": ["physics/apsides_body.hpp: ComputeCollisionIntervals"]}
{"id": "C66", "title": "The symplectic integrators are time-reversible, symplectic, and conserve the momenta", "statement": "If a fixed-step symplectic integrator is declared time-reversible, integrating from the resulting state with the opposite step comes back to the initial state and visits the same states in the reverse order.  If the forces have no resultant, the linear momentum is the same in all the states, and the centre of mass is in uniform motion; if they have no torque, so is the angular momentum.  If the forces derive from a potential, the state after an integration is a symplectic function of the initial one.  All the methods pass the checks that the constructor of the integrator does on their coefficients.", "quantifier": "every method that passes the checks of the constructor, every equation, initial state, step, requested time, and interruption for the conservation laws", "why_tests_cant": "tests look at the drift of the energy or of the momentum of a few problems over a few steps; these are exact algebraic properties for all the equations and all the numbers of steps", "anchors": ["integrators/symplectic_runge_kutta_nyström_integrator_body.hpp: Instance::Solve, SymplecticRungeKuttaNyströmIntegrator", "integrators/methods.hpp: SymplecticRungeKuttaNyström, AsSymplecticRungeKuttaNyström"]}
{"id": "C67", "title": "A continuous trajectory is the piecewise approximation of the points appended to it", "statement": "Points may be appended to a continuous trajectory if and only if they are equally spaced.  It spans the interval from the first point to the last point whose index is a multiple of eight, and is empty if there are at most eight points.  It may be evaluated exactly at the times of that interval; the evaluation at a time uses a polynomial which is the approximation, of degree 3 to 17, of nine consecutive points around that time.  That polynomial doesn't depend on the evaluations made before, nor on the points appended after.  The error estimate of a polynomial is at most the current tolerance unless its degree is the maximal one or increasing the degree didn't reduce the error estimate.  The status of an append is an error only if some error estimate is at least one million times the tolerance.  Reading a checkpoint restores the trajectory as it was when the checkpoint was taken, and so does loading a save for a time at or after the checkpoint; loading it for an earlier time succeeds if and only if the trajectory covered that time.", "quantifier": "every step, tolerance, approximation algorithm with nonnegative error estimates, and every sequence of appends and evaluations", "why_tests_cant": "the choice of the degree depends on the whole history of the trajectory through the adjusted tolerance, the age and the instability flag, and the look-up of a polynomial on the last evaluation; tests follow a few histories", "anchors": ["physics/continuous_trajectory_body.hpp: Append, ComputeBestNewhallApproximation, FindPolynomialForInstantLocked, EvaluatePosition, EvaluateVelocity, EvaluateDegreesOfFreedom, t_min, t_max, WriteToCheckpoint, MakeCheckpointerReader, WriteToMessage, ReadFromMessage"]}
{"id": "C68", "title": "The history of an ephemeris never changes its results", "statement": "The trajectories of the massive bodies are a function of the initial state alone: whatever the interleaving of prolongations (stopped or not), evaluations, saves, loads and reanimations by a background thread, two ephemerides constructed from the same initial state evaluate the trajectory of any body at any time with the same polynomial, if both of them cover that time. All the bodies may be evaluated exactly between t_min and t_max. No CHECK fails in any history in which a prolongation of an empty ephemeris is not stopped, the evaluations are within the bounds, a load doesn't ask for a time before the oldest checkpoint, and the reanimator isn't stopped while its integrator is starting. A prolongation that isn't stopped returns OK and covers the desired time and all that was covered before. Once an undisturbed reanimation is complete (and it does complete), the ephemeris covers the desired time or goes back to the initial time. Saving, loading, reanimating and prolonging an ephemeris yields the same evaluations as the original.", "quantifier": "all initial states, numbers of bodies, fixed-step integrators (with or without a startup), fitting functions, sequences of calls, stop points and interleavings with the reanimator thread", "why_tests_cant": "The reanimated segments must fit exactly with what is in memory for every placement of the checkpoints relative to the polynomials and to the prolongations; tests exercise a couple of checkpoints of one solar system, and no stops.", "anchors": ["physics/ephemeris_body.hpp: Ephemeris::Prolong, WriteToMessage, ReadFromMessage, Reanimate, ReanimateOneCheckpoint, AppendMassiveBodiesState, t_min, t_max", "physics/continuous_trajectory_body.hpp", "physics/checkpointer_body.hpp", "integrators/starter_body.hpp: Starter::Solve"]}
{"id": "C69", "title": "The gravitational accelerations obey the laws of mechanics", "statement": "For any set of massive bodies, oblate or not, given in any order to the constructor of an ephemeris: (1) each body keeps its own position, velocity, gravitational parameter and geopotential; (2) the acceleration of each massive body is the sum, over all the other ones, of their Newtonian attraction, of the effect of their oblateness, and of the reaction to the effect of its own oblateness on them, no pair being forgotten or counted twice, and the two entry points that compute it agree; (3) the sum of the forces is zero, and if the bodies are spherical so is the sum of the torques; therefore a symplectic integrator conserves the linear momentum, and the angular momentum for spherical bodies, exactly, whatever the step; (4) if the geopotentials derive from static potentials, the energy is constant along the exact solutions; (5) the acceleration of a massless body is the sum of the attractions of all the massive ones, it is the opposite of the gradient of the potential returned for that position, and an error is reported if, and only if, a massless body is closer to the centre of a massive one than 99 % of its minimum radius; (6) the Jacobian and the jerks are the derivatives of the accelerations, for spherical bodies.", "quantifier": "every number, order, kind and mass of the bodies, every position, velocity and time, every motion without collision, every symplectic Runge-Kutta-Nyström method and step, every list of massless bodies", "why_tests_cant": "The accelerations are computed by four instances of a template that each handles one range of indices and updates both bodies of a pair; a test exercises a few systems, most of them with one or two bodies, and compares numbers within a tolerance. That no pair of indices is missed for any split between oblate and spherical bodies, and that momentum, energy and derivatives are right for all configurations, are universal statements.", "anchors": ["physics/ephemeris_body.hpp: Ephemeris::Ephemeris, ComputeGravitationalAccelerationByMassiveBodyOnMassiveBodies, ComputeGravitationalAccelerationBetweenAllMassiveBodies, ComputeGravitationalAccelerationOnMassiveBody, ComputeGravitationalAccelerationByAllMassiveBodiesOnMasslessBodies, ComputeGravitationalPotentialsOfAllMassiveBodies, ComputeJacobianOnMassiveBody, ComputeGravitationalJerkOnMassiveBody, ComputeGravitationalJerkOnMasslessBody"]}
{"id": "C70", "title": "The geopotential is the damped sum of the spherical harmonics, and the acceleration is its gradient", "statement": "For every oblate body, every tolerance, every time and every position other than the centre of the body: the potential that is computed is the sum of the spherical harmonics of all the degrees and orders of the body (except the degree 2, order 1), defined by the derivatives of the Legendre polynomials in the sine of the latitude and by the multiples of the longitude, each multiplied by a damping factor; the acceleration that is computed is the opposite of its gradient, on the polar axis and in the damped zones as elsewhere; the truncation of the sum and the shortcut for zonal bodies do not alter the result.  The damping factor goes smoothly from 1 below a threshold to 0 beyond three times the threshold, and only acts where the harmonic contributes less than the tolerance times the central force.  A system of bodies with such geopotentials derives from a potential, and conserves its energy if its bodies are zonal.", "quantifier": "all bodies, coefficients, degrees, tolerances, times, positions and initial contents of the scratch arrays", "why_tests_cant": "the recurrences, the powers by halving, the order of the thresholds and the truncation interact for every degree and every distance; tests compare a few points with a naive implementation", "anchors": ["physics/geopotential.hpp", "physics/geopotential_body.hpp", "physics/harmonic_damping_body.hpp", "physics/oblate_body_body.hpp", "Geopotential::GeneralSphericalHarmonicsAcceleration", "Geopotential::GeneralSphericalHarmonicsPotential", "HarmonicDamping"]}
{"id": "C71", "title": "The Euler solver gives the free rotation of a rigid body", "statement": "For any body whose principal moments of inertia are positive and given in increasing order, and any initial attitude and angular momentum (zero or not, along a principal axis or not, on the separatrix or not), the solver is constructed without failing a check, and the angular momentum and attitude that it returns for any time, before or after the initial one, are those of the free rotation of the body: they are the given ones at the initial time, the attitude maps the angular momentum of the body to the constant angular momentum, and the attitude turns at the angular velocity given by the inertia.  There is only one such motion.  Restarting the solver from its own results yields the same motion.  The rigid motion returned has the velocities of that rotation, and its centre of mass is the given one.  Reading a solver that was written yields the same solver.  The solver is only constructed for a diagonal and sorted inertia tensor.", "quantifier": "all positive moments of inertia (equal or not), angular momenta, attitudes, initial times and times", "why_tests_cant": "the motion is given by five different formulas, with elliptic integrals and branches chosen by signs, degenerate at boundaries which are of measure zero and hence are missed by random tests; agreement for all times is a statement about differential equations", "anchors": ["physics/euler_solver.hpp: EulerSolver", "physics/euler_solver_body.hpp: EulerSolver, AngularMomentumAt, AttitudeAt, MotionAt, WriteToMessage, ReadFromMessage, GetEulerAngles", "numerics/elliptic_functions.hpp: JacobiAmplitude, JacobiSNCNDN", "numerics/elliptic_integrals.hpp: EllipticF, EllipticΠ"]}
{"id": "C72", "title": "A pile-up of parts conserves the momentum and angular momentum of its parts, and its trajectory is that of their centre of mass", "statement": "A pile-up constructed from distinct parts starts at their centre of mass, with their angular momentum about it, and the parts keep their motions relative to it. The force and torque on it are the sums of those on the parts, and the solid rocket motors take away the angular momentum of the mass that they lose. When the game gives apparent motions to the parts, the pile-up takes their shape and internal motions, corrected by a translation, a rotation and an overall angular velocity common to all the parts, such that the parts are in the frame of their centre of mass and have the angular momentum of the pile-up, which changes by the torque times the elapsed time; otherwise it turns as a free rigid body, without changing its angular momentum, no matter how it is stepped. When it advances, its trajectory is extended by the integrators: without a force the history doesn't depend on the psychohistory or on how the advance is cut; with a force the psychohistory becomes history. Each part gets one point per point of the pile-up, given by its relative motion, so that the centre of mass of the parts is on the trajectory of the pile-up, and the parts are left at its end. Calls that follow the rules never fail, apparent motions may be set only once, and partial sets of apparent motions are rejected.", "quantifier": "All the lists of distinct parts, all the parts made of positive masses not on a line, all the rigid motions, all the sequences of calls and changes to the parts, all the integrators and attitude estimators that satisfy their contracts, and all the times", "why_tests_cant": "The code composes a mechanical system, a diagonalization, an Euler solver, an attitude estimator and two integrators; tests check one or two pile-ups at a few times with a mocked ephemeris, and can't cover all the sequences of deformations and warps, nor all the shapes of parts.", "anchors": ["ksp_plugin/pile_up.cpp", "ksp_plugin/pile_up.hpp", "ksp_plugin/part.cpp", "PileUp::PileUp", "PileUp::RecomputeFromParts", "PileUp::SetPartApparentRigidMotion", "PileUp::DeformPileUpIfNeeded", "PileUp::AdvanceTime", "PileUp::NudgeParts", "PileUp::DeformAndAdvanceTime"]}
{"id": "C73", "title": "Decompositions of matrices and resolution of linear systems", "statement": "In exact arithmetic, the decompositions of a matrix multiply back to that matrix and have the advertised shape: the Cholesky decomposition of every positive definite symmetric matrix exists and is an upper triangular matrix with a positive diagonal; the ᵗRDR decomposition of every such matrix exists, with a unit diagonal for R and positive elements for D; the classical Gram-Schmidt orthogonalization of every regular matrix gives an orthogonal matrix and an upper triangular matrix with a positive diagonal; the unitriangular Gram-Schmidt orthogonalization of every rectangular matrix, even of deficient rank, gives orthogonal columns and a unitriangular matrix. Back and forward substitution succeed exactly when there is no zero on the diagonal and give the only solution. When the resolution of a general system returns, its result is the only solution of the system, and it does return for every 2 × 2 regular system and every strictly diagonally dominant system.", "quantifier": "All dimensions, all matrices and right-hand sides over an ordered field (over the real numbers for the algorithms with square roots), all contents of the uninitialized arrays.", "why_tests_cant": "The results are exact identities between the entries of matrices of arbitrary dimension; tests compare a few matrices of small dimension.", "anchors": ["numerics/matrix_computations_body.hpp: CholeskyDecomposition, ᵗRDRDecomposition, BackSubstitution, ForwardSubstitution, ClassicalGramSchmidt, UnitriangularGramSchmidt, Solve", "numerics/matrix_computations.hpp"]}
{"id": "C74", "title": "Reduction of lattices", "statement": "Both algorithms for the reduction of lattices return vectors that generate exactly the same lattice as their argument, whatever the errors of rounding: for Lenstra, Lenstra and Lovász whatever the integers to which the coefficients are rounded, and for Nguyễn and Stehlé whatever the floating-point arithmetic (which in particular never causes a wrong Gram matrix). Linearly independent columns remain so. With correct roundings, the result is a reduced basis, its first vector is at most 2 ^ ((n - 1) / 2) times longer than any nonzero vector of the lattice, and the algorithms terminate on every integer matrix with linearly independent columns.", "quantifier": "All dimensions, all matrices over an ordered field (with integer elements for the algorithm of Nguyễn and Stehlé and for the termination), all roundings, all floating-point arithmetics, all contents of the uninitialized arrays.", "why_tests_cant": "The lattice is infinite, the algorithms iterate a number of times that depends on the size of the coordinates, and the preservation of the lattice must not depend on the floating-point hardware; tests reduce a few matrices.", "anchors": ["numerics/lattices_body.hpp: LenstraLenstraLovász, NguyễnStehlé, Gram, Insert, CholeskyFactorization, SizeReduce", "numerics/elementary_functions_body.hpp: Round(cpp_rational)"]}
{"id": "C75", "title": "Eigenvalues of matrices", "statement": "HessenbergDecomposition returns a matrix that is zero under the elements that follow the diagonal, and RealSchurDecomposition one that is upper quasi-triangular; the real eigenvalues that RealSchurDecomposition returns are finite and are exactly the real eigenvalues of the matrix that it returns; when the vectors from which the reflections are computed are not zero and not negative multiples of the first vector of the basis, HessenbergDecomposition returns a matrix that is orthogonally similar to its argument, and RealSchurDecomposition, without a tolerance, returns exactly the real eigenvalues of its argument.  ClassicalJacobi, for a symmetric matrix, returns an orthogonal matrix that transforms its argument into the diagonal matrix of the eigenvalues that it returns, up to elements that are not on the diagonal; the sum of the squares of these elements decreases geometrically until they are all smaller than the tolerance, which is always reached if enough iterations are allowed; every number returned is close to an eigenvalue and every eigenvalue is close to a number returned.  RayleighQuotient minimizes the residual, and RayleighQuotientIteration, when it converges, returns a unit vector whose residual is smaller than its tolerance.", "quantifier": "all dimensions, matrices, tolerances, and numbers of iterations", "why_tests_cant": "the matrices are arbitrary, and whether the result is a decomposition, and how fast an iteration converges, depends on all the elements", "anchors": ["numerics/matrix_computations_body.hpp: ComputeHouseholderReflection, Premultiply, PostMultiply, FrancisQRStep, HessenbergDecomposition, RealSchurDecomposition, SymmetricSchurDecomposition2By2, ClassicalJacobi, RayleighQuotient, RayleighQuotientIteration"]}
{"id": "C76", "title": "Davenport's Q method solves Wahba's problem", "statement": "Given as many vectors in one frame, vectors in another frame and weights, Davenport's method returns a rotation, i.e., a unit quaternion, for which the weighted sum of the squared distances between the images of the first vectors and the second ones is minimal among all rotations, up to a term proportional to the weighted sum of the products of the norms of the vectors; the factor of proportionality is the relative tolerance of the eigenvalue solver if it converged, and otherwise decreases geometrically with its number of iterations. If the second vectors are images of the first ones by a rotation, that rotation is recovered to that precision. Lists of different lengths are rejected.", "quantifier": "all lists of vectors and weights, of any length, and all competing rotations", "why_tests_cant": "The optimality is a claim about all the rotations and about all the data: a test compares a few results with known rotations.", "anchors": ["numerics/davenport_q_method_body.hpp: DavenportQMethod", "numerics/matrix_computations_body.hpp: ClassicalJacobi"]}
{"id": "C77", "title": "The vessels and parts known to the plugin are the ones the game declared", "statement": "Whatever sequence of calls the game makes, what the plugin answers about vessels and parts is what a pointer-free description of the game predicts, and a call crashes exactly when that description says so. After a cleanup the vessels are those for which InsertOrKeepVessel was called since the previous cleanup, minus those joined by contacts to a part that touches the ground; the parts are those of these vessels, minus the parts of loaded vessels for which InsertOrKeepLoadedPart was not called. No pointer to a destroyed vessel or part is ever kept (maps, loaded and kept sets, target of the renderer), no vessel is leaked, each part is in exactly one vessel, a vessel that is destroyed and inserted again gets back its prediction parameters, and PartIsTruthful never crashes.", "quantifier": "all sequences of insertions, part moves, collision reports, cleanups, time advances, target changes and parameter changes; all vessels, parts and contacts", "why_tests_cant": "The state is a web of raw pointers updated by a dozen calls whose order the game chooses; tests exercise a few scripts of one or two vessels.", "anchors": ["ksp_plugin/plugin.cpp: InsertOrKeepVessel, InsertUnloadedPart, InsertOrKeepLoadedPart, PartIsTruthful, PrepareToReportCollisions, ReportGroundCollision, ReportPartCollision, FreeVesselsAndPartsAndCollectPileUps, AdvanceTime, SetPredictionAdaptiveStepParameters, CreateFlightPlan, SetTargetVessel, AddPart", "ksp_plugin/vessel.cpp: AddPart, ExtractPart, KeepPart, FreeParts, CreateTrajectoryIfNeeded", "ksp_plugin/renderer.cpp: SetTargetVessel, ClearTargetVessel, ClearTargetVesselIf"]}
{"id": "C78", "title": "What the perspective says is visible is exactly what the spheres do not hide", "statement": "For a camera, a segment and any list of spheres, `VisibleSegments` returns parts of the segment none of whose points is hidden (the line of sight from the camera to the point does not enter a sphere) and which contain every point of the segment, other than its extremities, whose line of sight stays away from the spheres; `IsHiddenBySphere` is true exactly if the line of sight enters the sphere; `SegmentBehindFocalPlane` returns exactly the points of the segment that are not in front of the focal plane; two points have equal projections exactly if they are aligned with the camera; `Tan²AngularDistance` and `SphereSin²HalfAngle` are the squared tangent and sine of the angles seen from the camera.", "quantifier": "every camera, segment, point and list of spheres, of any length", "why_tests_cant": "The set of visible points is a continuum, and the algorithm has many degenerate configurations (tangents, hyperbolas, parallels, points behind the camera) that tests only sample.", "anchors": ["geometry/perspective_body.hpp: Perspective::VisibleSegments, IsHiddenBySphere, SegmentBehindFocalPlane, Tan²AngularDistance, SphereSin²HalfAngle, operator()", "geometry/sphere_body.hpp: Sphere", "geometry/rp2_point_body.hpp: RP2Point"]}
{"id": "C79", "title": "Arithmetic in double precision", "statement": "Pairs of doubles, value plus error, extend the precision of the computations. For all doubles, with any rounding to nearest and including subnormal numbers: TwoSum and TwoDifference return the rounded result and its exact error; QuickTwoSum and QuickTwoDifference do so whenever the check on the order of their arguments passes; TwoProduct does so, with a fused multiply-add or with Veltkamp's splitting, whenever nothing underflows. The sum, difference, product and quotient of pairs (or of a double and a pair) have a relative error of a few squares of the unit roundoff, even under cancellation, return a pair whose value is its exact sum rounded to nearest, and never trip the internal checks. Increment and Decrement only lose the rounding of the corrected increment, so the error of a long summation is proportional to the increments and not to the sum. Comparing pairs compares the numbers that they represent, scaling by a power of two is exact, and Trunc is the integer part.", "quantifier": "all doubles, all pairs whose error is at most half an ulp of the value, all roundings to nearest (whatever the rule for ties), all sequences of increments", "why_tests_cant": "The exactness claims hold for 2^128 pairs of operands and depend on cancellation, on ties and on subnormal numbers; a test samples a few of them, and the accumulated error of a long integration cannot be observed without a reference.", "anchors": ["numerics/double_precision.hpp: DoublePrecision, TwoSum, TwoDifference, QuickTwoSum, QuickTwoDifference, TwoProduct, Scale, Trunc", "numerics/double_precision_body.hpp: Increment, Decrement, VeltkampSplitting, VeltkampDekkerProduct, ProperlyOrdered, operators"]}
{"id": "C80", "title": "Neighbours of the doubles", "statement": "For every double, finite (normal or subnormal) or infinite: LogB terminates and returns the exponent of its argument; ScaleB returns the argument times the power of two, rounded exactly once and overflowing to infinity; NextUp and NextDown return the double immediately above or below their argument, across binades, subnormal numbers, zero and the infinities; ULPDistance is the number of times that NextUp must be applied to go from one argument to the other, saturated to the largest 64-bit integer, is symmetric, and does not depend on the signs of the zeroes.", "quantifier": "all doubles other than NaN, all scales, all roundings to nearest", "why_tests_cant": "There are 2^64 doubles and 2^128 pairs; the mistakes are at the boundaries of the binades and of the subnormal numbers, of which there are thousands.", "anchors": ["numerics/log_b_body.hpp: LogB", "numerics/scale_b_body.hpp: ScaleB", "numerics/next_body.hpp: NextUp, NextDown", "numerics/ulp_distance_body.hpp: ULPDistance"]}
{"id": "C81", "title": "Clenshaw-Curtis quadrature is exact on polynomials and reuses its evaluations", "statement": "For 2ᵖ + 1 points, the Clenshaw-Curtis quadrature returns the integral of the polynomial of degree at most 2ᵖ that takes the same values as the integrand at the Чебышёв-Lobatto nodes of the interval; hence it is exact for the polynomials of that degree. The integrand is evaluated exactly once at each node and nowhere else. The automatic quadrature returns the result for the first number of points, greater than the initial one, for which the estimated relative error or the number of points meets the given limits, with the same evaluations as if that number of points had been used directly, and fails if it would need more than 2²⁴ + 1 points. The number of points does not exceed the given maximum. The midpoint rule is exact for the polynomials of degree at most 1.", "quantifier": "all integrands with values in a complete normed vector space, all bounds (in either order), all numbers of points 2ᵖ + 1 that fit in an int, all limits on the error and on the number of points", "why_tests_cant": "A test integrates a few functions with a few numbers of points and a tolerance; it cannot show that the order of the cache, the mirroring, the Fourier transform and the weights fit together for every power of two and every polynomial.", "anchors": ["numerics/quadrature_body.hpp: FillClenshawCurtisCache, ClenshawCurtisImplementation, ClenshawCurtis, AutomaticClenshawCurtisImplementation, AutomaticClenshawCurtis, Midpoint", "numerics/quadrature.hpp", "numerics/чебышёв_lobatto_body.hpp: ЧебышёвLobattoPoint", "numerics/fast_fourier_transform_body.hpp", "base/bits_body.hpp: BitReversedIncrement"]}
{"id": "C82", "title": "Finite differences are exact on polynomials", "statement": "From n equidistant values, n at most 9, and for any offset less than n, FiniteDifference returns the exact derivative at the point given by the offset if the values are those of a polynomial of degree at most n - 1. If the function differs from such a polynomial by at most M |x - x_offset|ⁿ, the error on the derivative is at most a constant, which depends only on n and the offset, times M |h|ⁿ⁻¹. For the central difference of an odd number of values, the middle value is unused.", "quantifier": "all numbers of values for which there is a table, all offsets, all polynomials, all positions and nonzero steps (of either sign), all functions with values in a normed space", "why_tests_cant": "A test evaluates a few polynomials at a few points; it cannot show that each of the 285 coefficients is right for every polynomial and every step, nor that the two ways of computing the sum agree.", "anchors": ["numerics/finite_difference_body.hpp: FiniteDifference", "numerics/finite_difference_coefficients.mathematica.h: Numerators, Denominators", "numerics/finite_difference.hpp"]}
{"id": "C83", "title": "Hermite interpolation of degree 2", "statement": "For two distinct arguments, in any order, the polynomial built by Hermite2 takes the given values and has the given derivative at the first argument; it reproduces every polynomial of degree at most 2; EvaluateDerivative is the derivative of Evaluate. If the same point is given twice it is the line with the given derivative. FindExtremum returns the only argument where the derivative is zero, which is a minimum or a maximum of the polynomial, unless the polynomial is affine.", "quantifier": "all arguments, values and derivatives, in any normed space (real values for the extremum)", "why_tests_cant": "A test checks a few polynomials with a tolerance; it cannot show the interpolation conditions for all data.", "anchors": ["numerics/hermite2_body.hpp: Hermite2, Evaluate, EvaluateDerivative, FindExtremum", "numerics/hermite2.hpp"]}
{"id": "C84", "title": "Gradient descent finds a better argument", "statement": "For every differentiable function and starting argument, the Broyden-Fletcher-Goldfarb-Shanno minimization never divides by zero nor fails a check. Each of its line searches, in a direction which is always a descent direction, terminates if the function is bounded below, and the step that it reports as acceptable satisfies the strong Wolfe conditions. Unless the last line search is abandoned because two successive values are equal, the result is the starting argument if it is stationary, or an argument within the given radius where the function is smaller than at the start and where the next quasi-Newton displacement is no more than the tolerance; NoMinimum is returned only if an argument beyond the radius makes the function smaller than at the start.", "quantifier": "every real inner product space, function, gradient, starting argument, tolerance, radius and first step, and every number of iterations", "why_tests_cant": "Whether the iteration divides by zero or goes uphill depends on the whole history of the approximations of the Hessian; tests run it on a few classical functions.", "anchors": ["numerics/gradient_descent_body.hpp:BroydenFletcherGoldfarbShanno", "numerics/gradient_descent_body.hpp:LineSearch", "numerics/gradient_descent_body.hpp:Zoom"]}
{"id": "C85", "title": "Poisson series form an algebra with exact primitives", "statement": "A Poisson series built from any terms, in any order and with frequencies that may be negative, zero or repeated, denotes the sum of these terms and has positive, distinct and increasing frequencies. The sum, difference, opposite, product by a scalar and product of series denote the corresponding operations on functions of time, and keep the frequencies positive, distinct and increasing. The change of origin doesn't change the function. The primitive has the series as its derivative, and Integrate returns the definite integral. Splitting at a frequency yields two series that add up to the original. Operands with different origins, and a zero frequency whose degree is too large, fail a check.", "quantifier": "all lists of terms, all polynomials and degrees, all frequencies, all origins and times, every outcome of the unstable sort", "why_tests_cant": "The normalization merges terms of opposite and equal frequencies in an order that depends on an unstable sort; the tests check a few series.", "anchors": ["numerics/poisson_series.hpp:PoissonSeries", "numerics/poisson_series_body.hpp:Multiply", "numerics/poisson_series_body.hpp:AngularFrequencyPrimitive", "numerics/poisson_series_body.hpp:AngularFrequencyIntegrate"]}
{"id": "C86", "title": "Angle reduction yields the same angle, in the right interval", "statement": "Reducing an angle to [-π/2, π/2], [-π, π] or [0, 2π] yields an angle in that interval which differs from the original by a whole number of periods, and the integer part returned is that number. Sine, cosine and their pair, computed from a reduced angle and a quadrant, are the sine and the cosine of the original angle, whichever of the neighbouring quadrants the reduction chose.", "quantifier": "every real angle and every quadrant number within π/2 of it", "why_tests_cant": "Angles form a continuum, and the quadrant chosen near the boundaries depends on the roundings; a test covers a few angles with one choice each.", "anchors": ["numerics/angle_reduction_body.hpp:ReduceAngle", "numerics/sin_cos.cpp:Sin", "numerics/sin_cos.cpp:Cos", "numerics/sin_cos.cpp:SinCos"]}
{"id": "C87", "title": "Combinatorial functions and Legendre polynomials are exact or overflow", "statement": "Factorials, falling factorials and double factorials have their mathematical value if it fits in 64 bits, and overflow otherwise. A binomial coefficient has its mathematical value if the falling factorial fits in 64 bits and overflows otherwise. The coefficients of the Legendre polynomials are those of the formula of Rodrigues, and can be computed exactly for the degrees up to 17.", "quantifier": "every nonnegative integer argument below 2^63, every degree and every index up to the degree", "why_tests_cant": "The arguments are unbounded in practice, and a test of some coefficients does not show that the formula is that of the Legendre polynomials for every degree.", "anchors": ["numerics/combinatorics_body.hpp:Binomial", "numerics/combinatorics_body.hpp:DoubleFactorial", "numerics/combinatorics_body.hpp:Factorial", "numerics/combinatorics_body.hpp:FallingFactorial", "numerics/combinatorics_body.hpp:KroneckerDelta", "numerics/legendre_body.hpp:LegendreCoefficientsGenerator", "numerics/legendre_body.hpp:LegendrePolynomial"]}
{"id": "C88", "title": "UTC, with its leap seconds, is converted to instants without gap or overlap", "statement": "A date and time of UTC since 1972 is accepted if and only if it exists, that is, its time is within the length of the day, which is 86401 seconds for the days with a leap second and 86400 seconds for the others. Its instant is at the stated distance from the beginning of the day, and the beginning of the next day is at the length of the day, so that the order of the dates and times is that of the instants and each leap second has its own instants. TAI, TT, GPS time and 北斗 time agree with UTC at their epochs. The search in the tables of the Earth orientation parameters finds the last entry which is not after the given time.", "quantifier": "every day from 1972 to June 2023, every time of day, every pair of them, and every sorted table", "why_tests_cant": "The tests cover a few dates around some leap seconds; a wrong entry in the table, or a wrong boundary in the half-years, only shows on the other days.", "anchors": ["astronomy/time_scales_body.hpp:DateTimeAsUTC", "astronomy/time_scales_body.hpp:DateTimeAsTAI", "astronomy/time_scales_body.hpp:DateTimeAsTT", "astronomy/time_scales_body.hpp:DateTimeAsGPSTime", "astronomy/time_scales_body.hpp:ModernUTCMinusTAI", "astronomy/time_scales_body.hpp:LeapSecond", "astronomy/time_scales_body.hpp:IsValidStretchyUTC", "astronomy/time_scales_body.hpp:LookupUT1", "astronomy/time_scales_body.hpp:LookupTT"]}
{"id": "C89", "title": "The ground track of an orbit is reported as the spread around the recurrence grid", "statement": "The interval of the mean solar times of the nodes is the smallest one that contains those of all the nodes, once unwound so that the first one is in [0, 2π] and that successive ones are within half a turn. The same holds for the longitudes of the equator crossings from which the equatorial shift of each pass is subtracted. Reducing to a pass moves the interval without changing its length and puts its middle in [0, 2π[. If the orbit follows the nominal recurrence exactly, the interval of the ascending passes is a single point in the first grid interval, and that of the descending passes is the corresponding point.", "quantifier": "every list of nodes, equatorial shift, grid interval and pass index", "why_tests_cant": "The tests compare the intervals for a few satellites; an error in the unwinding or in the number of shifts only shows for other numbers of revolutions, other passes, or orbits that begin with a descending pass.", "anchors": ["astronomy/orbit_ground_track_body.hpp:MeanSolarTimesOfNodes", "astronomy/orbit_ground_track_body.hpp:ReducedLongitudesOfEquatorialCrossings", "astronomy/orbit_ground_track_body.hpp:longitudes_reduced_to_pass", "astronomy/orbit_ground_track_body.hpp:equator_crossing_longitudes", "astronomy/orbit_ground_track_body.hpp:ForTrajectory", "geometry/interval_body.hpp:Include", "numerics/elementary_functions_body.hpp:UnwindFrom"]}
{"id": "C90", "title": "The apodization functions are windows over the given interval", "statement": "Each of the apodization functions Dirichlet, Sine, Hann, Hamming, Blackman, ExactBlackman, Nuttall, BlackmanNuttall and BlackmanHarris is 1 in the middle of the interval, is symmetric with respect to it, decreases from the middle to the ends, and has at both ends the value that characterizes it. In particular it is never negative on the interval. The flat-top function of ISO 18431-2 is 1 in the middle, symmetric, at most 1 in absolute value, and slightly negative at the ends.", "quantifier": "every interval that is not reduced to a point and every time in it", "why_tests_cant": "The tests evaluate each function at three points of one interval; a coefficient that breaks the monotonicity, or a frequency that is not that of the interval, shows elsewhere.", "anchors": ["numerics/apodization.cpp:Dirichlet", "numerics/apodization.cpp:Sine", "numerics/apodization.cpp:Hann", "numerics/apodization.cpp:Hamming", "numerics/apodization.cpp:Blackman", "numerics/apodization.cpp:ExactBlackman", "numerics/apodization.cpp:Nuttall", "numerics/apodization.cpp:BlackmanNuttall", "numerics/apodization.cpp:BlackmanHarris", "numerics/apodization.cpp:ISO18431_2"]}
{"id": "C91", "title": "Triangular matrices keep their elements apart, and keep them when extended or truncated", "statement": "Each element of a lower, upper or strictly upper triangular matrix of any size may be read and assigned to, and an assignment changes no other element; the storage has one slot for each element and no other slot. A new matrix is zero; extending a matrix keeps its elements and the new ones are zero; erasing its end keeps the elements of the smaller triangle. The size of a nonempty matrix is deduced correctly from the number of its elements.", "quantifier": "every kind of triangular matrix, every size, every pair of elements, every extension or truncation", "why_tests_cant": "The tests use matrices of size 3 to 6; an overlap of the slots, or a wrong rounding in the deduction of the size, may show for other sizes only.", "anchors": ["numerics/unbounded_arrays_body.hpp:UnboundedLowerTriangularMatrix", "numerics/unbounded_arrays_body.hpp:UnboundedUpperTriangularMatrix", "numerics/unbounded_arrays_body.hpp:UnboundedStrictlyUpperTriangularMatrix", "numerics/unbounded_arrays_body.hpp:Extend", "numerics/unbounded_arrays_body.hpp:EraseToEnd"]}
{"id": "C92", "title": "A piecewise Poisson series has the value of its pieces, and its operators and Fourier transform agree with its values", "statement": "After any sequence of construction, appending and operators, the value of a piecewise Poisson series in each of its intervals, closed on the left, and at the end of the last one, is that of the corresponding series plus the series that were added to the whole; outside of the intervals a check fails. The sums, differences, and products by a scalar or a Poisson series act on the values. The Fourier transform uses the values of the function, even if it was evaluated before and if series were appended since.", "quantifier": "every sequence of operations, every time, every sequence of points of the quadrature", "why_tests_cant": "The tests evaluate a function with two or three intervals at a few times, and never modify a function whose Fourier transform was evaluated; an error at a bound, or in the management of the cache, needs a particular history.", "anchors": ["numerics/piecewise_poisson_series_body.hpp:PiecewisePoissonSeries", "numerics/piecewise_poisson_series_body.hpp:Append", "numerics/piecewise_poisson_series_body.hpp:operator()", "numerics/piecewise_poisson_series_body.hpp:operator+=", "numerics/piecewise_poisson_series_body.hpp:operator-=", "numerics/piecewise_poisson_series_body.hpp:operator-", "numerics/piecewise_poisson_series_body.hpp:operator*", "numerics/piecewise_poisson_series_body.hpp:operator/", "numerics/piecewise_poisson_series_body.hpp:FourierTransform", "numerics/piecewise_poisson_series_body.hpp:EvaluateAddend"]}
