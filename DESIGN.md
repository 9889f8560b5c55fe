# Formal model of Principia in Lean 4

## Layout

* `properties.jsonl` – the English properties, C01…
* `lean/Verif/<Area>/<X>Model.lean` – the code, function by function; each definition cites the file and lines it models
  and the simplifications made.
* `lean/Verif/<Area>/<X>Lemmas.lean` – auxiliary lemmas (not to be read as claims).
* `lean/Verif/<Area>/<X>Props.lean` – a small independent specification, the property theorems, and for each theorem an
  `example` showing that its hypotheses are met by a non-trivial case.
* `MANIFEST.json` – property → theorems.
* `seeded/LOG.jsonl` – log of the experiments in which the model was edited like a buggy program.

## Conventions

* Programs are total computable functions over `Nat`, `Int`, `BitVec`, `List`, `Option`.  A failed `CHECK`, an
  out-of-bounds access or any undefined behaviour is a distinct outcome (`none`, or a constructor `abort`), never
  silently identified with a normal result.
* Stateful classes are `State`, `init`, `step`; concurrent classes are transition relations whose labels are atomic
  sections (a critical section under a mutex, an atomic operation), and properties quantify over all runs, i.e., over all
  schedules.
* Floating-point numbers: where the code computes integers in `double` the model uses exact rationals/integers and says
  so.  Where the code computes real quantities, the model is exact arithmetic over a field or over ℝ, so theorems about it
  are about the algorithm and do not cover rounding.
* Machine integers are `BitVec`/`UIntN` where wrap-around matters and `Int`/`Nat` otherwise; the comment says which and,
  where relevant, the theorem has the no-overflow hypothesis.

## Trusted base

Lean 4.33.0's kernel; the axioms `propext`, `Classical.choice`, `Quot.sound` (no other axiom, no `sorry`, no
`native_decide`, no `bv_decide`); the correspondence between the C++ text and the model definitions, which is by reading
(the cited lines); the C++ standard library, Abseil and protobuf behaving as documented.

## Plan per property

| Property | Modelled | Technique |
|---|---|---|
| C01, C02 | base32768 encoder/decoder on bit strings, the actual repertoire tables | table facts by kernel evaluation over the whole table; induction on the byte string |
| C03 | hexadecimal tables and loops, buffers as functions from indices for the in-place case | induction on the length |
| C04 | `mod` with C++ truncated `%` over `Int` | Euclidean division lemmas |
| C05 | `FloorLog2`, `PowerOf2Le`, `BitReversedIncrement` on `BitVec`/`Nat` | induction on bits |
| C06 | `FingerprintCat2011` on `BitVec 64` | bit-vector arithmetic |
| C07 | union-find as a parent/rank map | invariant: acyclic by rank; refinement to connectivity |
| C08 | parts, pile-ups, subsets with `missing_` | invariant on missing counts; refinement to components |
| C09–C14 | transition systems of the concurrent classes | inductive invariants over all schedules; refinement to a byte stream/queue |
| C15–C17 | finite maps/multisets as sorted lists | refinement to set specifications |
| C18–C24 | timelines, segments, time-to-segment map, iterators | invariant + refinement to a list of points |
| C25, C26 | Hermite interpolation over an inner product space; downsampling | triangle inequality induction, field identities |
| C27, C28 | calendar and parsers with exact integers | integer arithmetic, induction on strings |
| C29, C30 | orbit recurrence over `Int`/`ℝ` | Bézout, minimality |
| C31–C34 | flight plan with an abstract integrator oracle | invariants over all histories and oracles |
| C35 | barycentre calculator, Jacobi and hierarchical systems over modules | algebra, induction on trees |
| C36, C37 | quaternions, rotations, permutations, signatures, maps over a field | ring identities |
| C38 | polynomial evaluators and arithmetic | induction on the degree |
| C39 | `Verif.Numerics.Chebyshev*`: Clenshaw evaluation of the value and of the derivative, companion matrix, real roots (the Schur decomposition being a parameter), zero-free test | invariants of the two loops, by induction on the degree; the eigenvectors are the values of the polynomials of the basis |
| C40 | `Verif.Numerics.Fourier*`: the reindexing, the Danielson-Lánczos recursion with its special cases and its loop, the power spectrum and the mode | induction on the log of the size, with a loop invariant for the combination of two halves and for the reindexing |
| C41 | bisection, quadratic solver, Brent's methods for a zero and for an extremum, `DoubleBrent`, golden section search (exact arithmetic) | loop invariants; measures for termination; intermediate value theorem and compactness for the conclusions |
| C42 | PCP tree: construction, insertion and search, with `std::nth_element` as a parameter that meets its specification | the cells of the tree partition the indices; the two sides of an internal node are separated by its hyperplane; induction on the tree with the pruning bound |
| C43 | packed exponents | bit-vector/integer arithmetic |
| C44 | the loops of the fixed-step integrators and their startup (`Integrators/FixedStep*`, `Integrators/Multistep*`) | loop invariants |
| C45 | all the tables of integrators/methods.hpp and integrators/cohen_hubbard_oesterwinter_body.hpp (`Integrators/MethodsModel`), the steps of C44 | expansion of the steps and of the solution in powers of h, indexed by rooted trees (`Integrators/Expansion`, `Trees`, `OrderTheory`, `OrderSteps`, `MultistepOrder`); the order conditions are then a finite number of rational identities or inequalities, decided by the kernel for every table (`OrderCheck`) |
| C46 | recorder, method guards and mutex as a transition system whose steps include the output of single characters; activation and deactivation; line reader, decoder, player, pointer map; protocol buffers by their laws, which an encoding of the outer fields is shown to obey (`Verif/Journal`) | invariant of the transition system relating the file to the observed history; induction on the journal for the player, with a case analysis of the point of truncation; invariant of the pointer map |
| C47 | evaluation of a segment | refinement to interpolation between neighbours |
| C48 | manœuvres over the reals | calculus, uniqueness of antiderivatives |
| C49, C50 | flight plan model of C31–C34, with the requests to the analysers and an ephemeris of limited extent | invariants over all histories and oracles |
| C51 | flight plan model of C31–C34, where all the operations of a history use the same oracle for integrations | the state of a plan is that of a computation from scratch: invariant over all histories |
| C52 | `Solve` in exact arithmetic, with the contents of the uninitialized factors as parameters | the factors read are those that were written; LU invariant |
| C53 | symmetric bilinear forms over ℝ, Jacobi iterations with their bound of 16 | algebra; off-diagonal norm as variant: linear phase (6 iterations) then quadratic phase (10 iterations) |
| C54 | the parser of quantities on lists of characters, `strtol` modelled, `strtod` a parameter; `Format` | induction on the grammar (completeness) and on the recursion of the parser (soundness) |
| C55 | the completion of the conic and orientation elements, category by category then for each pair of categories, over ℝ with a NaN | case analysis on the pairs of categories; each branch by algebra on the conic (μ, a, e) |
| C56 | the constructors of `KeplerOrbit` and `StateVectors`, over ℝ with a NaN; Brent's method is a parameter that finds a root of a continuous function whose values have opposite signs | differentiation of the inverse of Kepler's equation; the plane of the orbit as a rotation; the eccentricity vector |
| C57 | `RigidMotion` and `SimilarMotion`: application, inverse, product, the two constructors, the factories | `IsMotionOf`/`IsSimilarMotionOf` say that a motion is the derivative of a time-dependent transformation; the components of a transformed vector are its inner products with the axes, which are differentiated |
| C58 | `MechanicalSystem` | a rigid body is a list of particles at rest in its frame and centred at the origin; an invariant, by induction on the list of bodies, relates the state of the system to sums over all the particles with respect to an arbitrary point |
| C59 | `RigidReferenceFrame` (geometric accelerations and potential, trihedra and their derivatives), the five reference frames defined by bodies, `FrenetFrame`, the cache of the barycentric frame | the ephemeris is a parameter whose velocities, accelerations and jerks are the derivatives of the positions; `IsFrame` says that the motions are the derivatives of the transformations and the accelerations those of the motions; each frame is shown to be one, and free fall follows from `IsFrame` by differentiation; the cache by an invariant over all histories of requests |
| C60 | `Verif.Geometry.Complexification*`: the operations on complexifications of a vector space | they are those of the complex numbers and of a module over them; the subtraction from a real is shown to be wrong |
| C61 | `Verif.Numerics.Approximation*`: the interpolation at Чебышёв-Lobatto points with the doubling of the degree, the streaming and adaptive interpolations | discrete orthogonality of the cosines; invariant of the recursion on the degree; induction on the depth of the subdivision; uniform continuity for the termination |
| C62 | `Verif.Physics.FirstCollision*`: the callbacks given to the streaming interpolation of the height; the height is a function of time | induction on the pieces, intermediate value theorem; the wrong root of linear pieces is shown by a counterexample |
| C65 | the three `Solve` functions with a step-size control, including the rejected, truncated and dropped steps, the reuse of the last stage, the stop requests, the aborted status and the maximal number of steps (`Integrators/AdaptiveModel`) | invariant of the loop for any method whose kept stage is coherent (`AdaptiveDriver`), coherence of the stages of each kind of method (`AdaptiveSteps`); termination by the decrease of the rejected steps and the bound on the accepted ones; restart by simulation |
| C63 | `ComputeApsides`, `ComputeNodes` (exact arithmetic, any inner product space) | both loops simulate a scan of the sign changes, proved by induction on the points; the extrema of the interpolant by C26 and the sign of a quadratic; the zeroes by C41 |
| C64 | Verif/Physics/CollisionIntervalsModel.lean: the set of apsides, the search for anomalies, the two nested loops, the checks, with Brent's method of C41 | induction on the list of the apsides, with the invariant that the previous apoapsis is above the radius or is the beginning of the trajectory; the crossings by C41 |
| C66 | Verif/Integrators/FixedStepModel.lean (`SRKN`), Verif/Integrators/MethodsModel.lean (the coefficients), as for C44 and C45 | a step is proved to be a composition of shears, which are a palindrome if the method is time-reversible; each shear is invertible, symplectic and conserves the momenta; induction on the steps |
| C67 | `ContinuousTrajectory` with its regulator of the degree, its polynomials, its look-up cache, its checkpoints and its serialization, over an ordered group of times, an ordered field of lengths, and an arbitrary approximation algorithm | invariant: the state is a slice of the reference sequence of polynomials computed from the sequence of the points; specification of the choice of the degree by cases on the reset; look-up by the ordering of the times |
| C68 | The construction, prolongation, serialization, deserialization and reanimation of an ephemeris, on top of the models of the continuous trajectories (C67) and of the checkpointer; an arbitrary deterministic integrator with a startup; the stop token; the reanimator thread as two atomic actions per segment interleaved with the calls | An invariant that every state is a slice of the canonical sequence of polynomials determined by the initial state, with canonical checkpoints; total correctness of `Prolong` by induction on the number of steps; an invariant on the pending segments for the reanimation |
| C69 | `Physics/GravityModel.lean`: the part of the constructor that sorts the bodies, the four instances of the template for the massive bodies, the functions for massless bodies, potentials, Jacobian and jerks, over any real inner product space and with exact arithmetic; the geopotential of an oblate body is an arbitrary pair of functions of the time and the displacement (see C70). The massive bodies' positions are given, not evaluated from their trajectories. | The updates of the arrays are summed: by induction on the ranges, each entry of the result is a sum over all the other indices; antisymmetry of the sum over pairs for the momenta and the energy; calculus for the gradient, the Jacobian and the jerks. The momentum of the numerical solution then follows from C66. |
| C70 | `OblateBody`, the thresholds (priority queue), `HarmonicDamping`, the precomputations with their uninitialized arrays, `DegreeNOrderM`, `DegreeNAllOrders`, `AllDegrees`, with exact arithmetic; the tables of normalization factors are parameters | the invariant of the precomputations is that they agree with Rodrigues' formula (Bonnet's recurrence and its derivatives are proved), de Moivre and the powers; invariant of the loop over the thresholds; the sum over what is evaluated is extended to all harmonics since the others are damped to 0; Fréchet derivative of each harmonic in the frame of the surface |
| C71 | `EulerSolver` (constructor, `AngularMomentumAt`, `AttitudeAt`, `MotionAt`, serialization) with exact reals; the elliptic integrals are integrals and the amplitude is the inverse of the integral of the first kind (their algorithms are not modelled); infinities only for the argument of the hyperbolic functions of formula (iii) | each formula is shown to satisfy Euler's equations (derivatives of the elliptic functions from the fundamental theorem of calculus); the attitude from the rate of the angle around the angular momentum in the preferred frame; uniqueness by differentiating the square of the difference of two solutions |
| C72 | Pile-ups (construction, recomputation of the forces, deformation, warp, advance, nudging) and the trajectories of the parts, over the models of C36, C37, C52, C53, C58 and C71; the integrators and Davenport's method are parameters | Particles: the parts are made of any particles, and the sums over them are computed. Invariant over the reachable states; the angular momentum of the particles is related to that of the Euler solver through the inertia tensor, within the accuracy of its diagonalization. Lists of points in increasing order for the trajectories |
| C73 | Matrices as functions of the row and the column, with the loops of the seven algorithms and arbitrary contents for the uninitialized arrays; divisions by zero and square roots of negative numbers are failures. | Loop invariants on the rows or columns already computed; positive definiteness gives a form whose value is the next pivot; the solutions of the system are preserved by the row exchanges; diagonal dominance is inherited by the Schur complements, and so no rows are exchanged; the orthonormal columns are combinations of the columns of the matrix. The theorems are stated with Mathlib's matrices. |
| C74 | `LatticeModel`, `NguyenStehleModel`: `LenstraLenstraLovász` over an ordered field with any function that rounds to an integer, `NguyễnStehlé` over the integers with abstract operations on the floating-point numbers. | `LatticeSpec`: the lattice as a ℤ-submodule, reduced bases, linear independence. Invariants of the loops; the orthogonalization is unique, so that its change in each operation on the columns is known; termination by the product of the Gram determinants, a natural number. The rest of the properties is for exact arithmetic; the saturation of the conversion to an integer is not considered for the termination of `NguyễnStehlé`. |
| C75 | `ComputeHouseholderReflection`, the multiplications by a reflection, `HessenbergDecomposition`, `FrancisQRStep`, `RealSchurDecomposition` with its deflation, its search for the active block and its collection of eigenvalues, `ClassicalJacobi`, `RayleighQuotient`, `RayleighQuotientIteration` | the Householder vector satisfies the equation of a reflection; the step of Francis is an induction on the position of the bulge, which also shows that all the reflections but the last are proper; the determinant of a block triangular matrix is the product of those of its blocks; a rotation of Jacobi removes twice the square of the largest element from the sum of the squares; the spectral theorem of Mathlib for the distance to an eigenvalue |
| C76 | `DavenportQMethod` over the real numbers, with the model of `ClassicalJacobi` of C75 and that of `Rotation` of C36 | The loss is an affine function of the value of a quadratic form at the unit quaternion; the approximate diagonalization bounds that form above by its largest diagonal element plus the norm of what is off the diagonal, and the returned quaternion reaches that element. The norm of the matrix is twice that of the attitude profile matrix, which is bounded by the scale of the data |
| C77 | The plugin with a heap of vessels, its maps and sets of pointers, the subsets of parts as the list of what was reported; the calls of the game (`Ksp/LifecycleModel`). The specification `Game` has no pointers (`Ksp/LifecycleSpec`). | An invariant (no dangling pointer, no leak, one vessel per part) and a simulation of each call, by induction over the sequence of calls. Not modelled: the motions, the pile-ups collected at the end of a cleanup (C08), the concurrency of predictions. |
| C78 | `Perspective` (all its functions), `Sphere` and `RP2Point`, over the reals extended with infinities and NaNs where the code relies on them (`PerspectiveModel`); the in-place slices of the function for many spheres | The shadow of a ball is convex (`hidden_of_combination`); the restriction of the cone to the line is a product of two affine functions (`Line`), and the intersections kept by the code are shown to be touched by the shadow and to enclose every hidden point (`above`, `below`); the vectors of the code give such a line (`cone_spec`, by Viète's formulas); the loops are proved with an invariant that the slot written is never one that must still be read (`hideSlice_spec`). |
| C79 | `Numerics/DoublePrecisionModel.lean`: the doubles as a set of reals (53-bit mantissa, exponent at least -1074), an arbitrary rounding to nearest, the error-free transformations, the operators, `Increment`, `Decrement`, `Scale`, `Trunc`, the comparison and the debug checks. Not modelled: overflow, infinities, NaNs, vectors. | `DoublePrecisionLemmas` (grids, rounding, Sterbenz), `DoublePrecisionExact` (the transformations are exact), `DoublePrecisionAccuracy` (relative errors), `DoublePrecisionProps`, `DoublePrecisionDivision`. `Trunc` is refuted in general. |
| C80 | `Numerics/NextModel.lean`: the doubles with infinities and overflow on top of the model of C79, the loops of `LogB` and `ScaleB`, `NextUp`, `NextDown`, the bit patterns and `ULPDistance`. Not modelled: NaNs. | `NextProps`: loop invariants; a double is the only element of its grid up to the next one. `UlpDistanceProps`: the bit patterns are in an increasing bijection with the doubles. `ScaleB` is refuted for negative numbers and large negative scales. |
| C81 | The cache in bit-reversed order, with its incremental filling and a record of the evaluations; the copy with mirroring; the Fourier transform of C40; the weighted sum; the automatic refinement; the midpoint rule. Real arithmetic, values in a normed space. Not modelled: rounding, Gauss-Legendre (its tables are decimal approximations), the heuristics for the number of points. | Bit-reversal lemmas give the contents of the cache by induction on the logarithm of the number of points; C40 gives the transform; discrete orthogonality of the cosines and the integrals of the Чебышёв polynomials give exactness, by induction on the degree; the refinement is an induction on the number of refinements that remain. |
| C82 | The whole table of coefficients and the two loops (central and general), with real arithmetic. Not modelled: rounding. | The moments of every row of the table are checked by evaluation of the whole table; summation by parts and antisymmetry show that both loops compute the weighted sum; Taylor expansion of the polynomial at the point. |
| C83 | The constructor, with its removable singularity, and the three functions, with real arithmetic; a division by zero is a distinct outcome. Not modelled: rounding. | Algebra in a module; the derivative by the rules of calculus; completing the square for the extremum. |
| C84 | `Zoom`, `LineSearch`, `BroydenFletcherGoldfarbShanno` over a real inner product space, exact arithmetic, unbounded loops with fuel | invariant of the bracketing interval; contraction of the interval by at least 1 % per iteration and mean value theorem for the termination; the update preserves positive definiteness because the Wolfe conditions make ⟪s, y⟫ positive; induction on the iterations |
| C85 | `PoissonSeries`: constructor, evaluation, `AtOrigin`, `Primitive`, `Integrate`, `Split`, `max_ω`, sum, difference, scalar and series products; real values, exact arithmetic | invariant of the grouping loop for any sorted permutation of the terms; induction on the merges; induction on the degree for the integration by parts; fundamental theorem of calculus |
| C86 | `ReduceAngle` for its three intervals, its fractional and integer parts, and the use of the quadrant by `Sin`, `Cos` and `SinCos`, with real arithmetic and any choice of a neighbouring quadrant | case analysis on the quadrant |
| C87 | the combinatorial functions on 64-bit integers with overflow as an outcome, and the coefficients of `LegendrePolynomial` as rationals | induction on the loops; the coefficients satisfy the recurrence of Bonnet, proved for the formula of Rodrigues |
| C88 | the conversions from TT, TAI, UTC (modern and stretchy), GPS and 北斗 times to instants, over the calendar model of C27 and C28, with exact durations; the binary search in the tables of UT1 | TAI - UTC is a sum over the half-years; its increments are compared with the list of the leap seconds of the IERS, and the length of the days follows; induction on the size for the search |
| C89 | the intervals, the unwinding of the angles, the loops over the nodes and the reduction to a pass, over the reals; the nodes are given by their times and longitudes | induction on the list of nodes, with the invariant that the interval spans the unwound angles; the floor and the nearest integer are bounded by their defining inequalities |
| C90 | the ten functions as Poisson series, over the model of C85, in exact real arithmetic | each function is a polynomial in the cosine of the phase, increasing on [-1, 1] by an inequality on its coefficients, and the cosine decreases on [0, π] |
| C91 | the storage of the three kinds of unbounded triangular matrices, their accessors, constructors, `Extend` and `EraseToEnd`, and the deduction of the size from that of an initializer list | the triangular numbers increase by the length of each row, which gives a bijection between the elements and the slots; the square root is bounded between consecutive odd and even numbers |
| C92 | the bounds, the series (as functions), the addend and the cache; the search of the interval; the operators; the values that the Fourier transform uses | invariant on the bounds for all the reachable functions, from which the result of the search follows; induction on the points of the quadrature, with the invariant that the cache is a prefix of the values |

What cannot be expressed: numerical accuracy of floating-point evaluation (no verified floating-point semantics of the
compiled code is available), wall-clock performance, and the behaviour of the game and of Unity.

## Disagreements between the code and the properties

Each is either proved in Lean (the theorem is named) or found by reading (marked "not formalized").

* `mod` overflows (undefined behaviour) for operands whose result is representable, e.g. `mod(INT_MAX - 1, INT_MAX)`:
  `C04_mod_overflow_counterexample`.
* The null-terminated hexadecimal encoder accepts an input located immediately after the last digit of its output and
  overwrites its first byte before reading it: `C03_terminator_counterexample`.  The decoder indexes a table with a
  signed `char` (not formalized beyond `nibble` returning `none`).
* The decoding cache of Base32768 has 65535 entries, so that the code unit U+FFFF is out of bounds (`repDecode` returns
  `none`; it is never produced by the encoder, `C02_encode`).
* `Bundle`: `all_done_.Notify()` may be called twice (which is a `CHECK` failure in `absl::Notification`) when a worker
  whose decrement preceded the count of a concurrent `Join` resumes late: `C09_notify_once_counterexample`.  A deadline
  replaces the error of a task that failed earlier.
* `ThreadPool`: the destructor drops the calls that are still queued, whose futures are then broken:
  `C10_shutdown_drops_calls`.
* `PullSerializer`: if the serialization ends with a full chunk and no call to `BackUp` (allowed by the
  `ZeroCopyOutputStream` contract), the last chunk is never delivered: `C11_last_chunk_lost_counterexample`.
* `RecurringThread`: an input that was taken by the thread when `Stop` is called is lost, and not run after `Start`, although
  base/recurring_thread.hpp:68-70 says that `Restart` does not lose the input: `C14_stop_loses_input_counterexample`.
* `Protector`: a protection may come into force between the time when a callback is found to be unprotected and the time when
  it runs, since callbacks run without the lock: `C16_race_counterexample`; `C16_never_run_protected_partial` gives the
  condition under which this cannot happen.
* `Checkpointer::WriteToCheckpointLocked` inserts an empty checkpoint, releases the lock and then fills it: a concurrent
  reader may see a checkpoint that is not filled (not formalized).
* `DiscreteTrajectory::ForgetBefore(t)` fails its consistency check whenever `t` is strictly between the last two points of a
  segment which is followed by another one (e.g. segments with times [0, 10] and [10, 20], `ForgetBefore(5)`): the former
  segment is left with a single point and its entry in the time-to-segment map replaces that of the latter:
  `C20_forget_before_counterexample`; `C20_forget_before_partial` proves the exact condition.
* `DiscreteTrajectory::ForgetAfter(t)` keeps the point at `t` if `t` is the boundary of two segments and there are points before
  `t`, although the header says that it removes the points in `[t, end[`: `C20_forget_after_counterexample`.
* The difference of two `DiscreteTrajectoryIterator`s fails a `CHECK` when the left one precedes the right one, although the
  iterator category is random access: `C21_difference_counterexample`.
* `AttachSegments` fails a `CHECK` when the attached trajectory starts with an empty segment, or with a one-point segment
  followed by another one and not at the last point of the trajectory: `C22_attach` gives the exact condition.
  `DetachSegments(begin())` leaves a trajectory without segments, on which `NewSegment`, `clear` and `Append` are undefined
  (`C18_progress` requires that there be a segment).  `Merge` fails a `CHECK` when the source has more segments than the target
  and the extra ones are empty.  `Append` at the time of the first point of the segment found is silently ignored.
* Writing an empty range `[it, it[` of a `DiscreteTrajectory` with `it != end()` succeeds, but yields a message whose reading
  fails the consistency check: `C24_empty_range_counterexample`.
* Neither reading a segment nor `Merge` restores the accumulated downsampling error, so that the bound of C25 may be exceeded if
  points are appended afterwards: `C25_merge_counterexample` (not formalized for reading).
* `Hermite3::LInfinityL₁NormUpperBound` is not an upper bound: it ignores the bounds of the interval and returns 0 for `t ↦ t` on
  `[0, 1]`: `C26_l1_bound_counterexample` (it is only used in tests).  `LInfinityL₂Norm` is documented to require that the function and
  its derivative vanish at the lower bound; `C26_norm` has that hypothesis.
* The comment on `MonomialAtOrigin` (numerics/polynomial_in_monomial_basis_body.hpp) has the sign of the shift wrong; the code is right
  (`C38_at_origin`).
* `SolveQuadraticEquation` returns an infinity or a NaN when the leading coefficient is zero: `C41_quadratic` says that the finite
  results are exactly the roots, and `C41_quadratic_constant` that there is none for a constant.
* `Date::jd` is off by one for the proleptic Gregorian dates from 1 March of a negative year that is a multiple of 100 but not of 400 to
  the end of the following February, because of a truncated division: `C27_negative_century_counterexample`.  It is also wrong before
  the year -4716 (outside `Supported`, not formalized).  `JD` returns a date of the Julian calendar before 2299160.5.
* Date literals: a W is accepted anywhere among eight digits (`C28_spurious_W_counterexample`); ordinal dates with a negative year are
  rejected although the sign is documented (`C28_negative_ordinal_counterexample`); date-times in basic format with a negative year are
  rejected (`C28_negative_basic_counterexample`); dates of the year 10000 and later are printed but cannot be read
  (`C28_five_digit_year_counterexample`); Julian dates without digits are accepted (`C28_empty_julian_counterexample`).  A time may
  end with a decimal mark without digits (`TimeBody` allows it).
- C29: the constructor of `OrbitRecurrence` accepts triples for which the number of revolutions is negative, e.g., [0; -1; 3], although its
  comments say that it is always positive.  Negation: `C29_negative_revolutions_counterexample`.
- C30: `OrbitRecurrence::ClosestRecurrence` computes with doubles: for the double just above 7/5 and a maximal cycle of 25 days or more (the
  orbit analyser uses 100) the best error in floating point is that of 25 days, the triple [1; 10; 25] is not reduced, and the `CHECK` in the
  constructor fails.  Negation: `C30_crash_counterexample`.  If the maximal cycle is not positive an uninitialized variable is used:
  `C30_no_cycle_counterexample`.
- C48: the constructor of `Manœuvre` has a special case for a burn whose thrust vanishes, but the time of half Δv (or the initial time, if
  the timing is given by the time of half Δv) is then 0 / 0.  Negation: `C48_zero_thrust_counterexample`.
- C33: `FlightPlan::Remove` does not update the mass of the manœuvre that follows the one removed: `C33_remove_counterexample`.
- C34: the copy constructor of `FlightPlan` does not copy `anomalous_status_`, so that an integration that exceeded its deadline is never retried
  on a copy: `C34_status_counterexample`.  Analysis is enabled in the copy but no analysis is requested: `C34_analysis_counterexample`.
- C49: `analysis` returns the analysis of a trajectory that no longer exists for the coast that follows an anomalous burn:
  `C49_stale_counterexample`.  The extended mission of the coasts other than the last one is not updated by `SetDesiredFinalTime`:
  `C49_extended_mission_counterexample`.
- C50: replacing a burn by a smaller one makes the vessel heavier for the subsequent burns, which last longer and may overlap; `Replace` only looks at
  the neighbours of the burn that is replaced, and a `CHECK` fails while integrating: `C50_replace_counterexample`.  The same happens for an
  insertion that follows a removal, because the masses are stale: `C50_insert_counterexample`.
- C37: `ConformalMap::Determinant` returns the cube of the scale, whose sign is wrong when the quaternion is combined with a change of handedness:
  `C37_conformal_determinant_counterexample`.  `Permutation::ReadFromMessage` does not check the code of the permutation:
  `C37_permutation_counterexample`.
- C52: the pivots are chosen, and compared with zero, in the original matrix and not in the reduced one; as a result `Solve` fails a `CHECK` on a
  symmetric positive definite matrix, and divides by zero on another invertible matrix: `C52_pivot_counterexample`.
- C54: the exponents are read by `strtol` with a null end pointer and narrowed to `int`, so `m^2kg`, `m^2^3`, `m^2.5` and `m^4294967298` are all accepted
  and mean `m^2`: `C54_exponent_counterexample`; the language that is accepted is described by `C54_accepts_partial`.
- C56: a hyperbolic orbit given by a true anomaly before the periapsis is mirrored, because the sign of the eccentric anomaly is lost by `ArcCosh`:
  `C56_true_anomaly_counterexample`; for the same reason an orbit constructed from the state vectors of a body that approaches on a hyperbola does not
  go through these state vectors: `C56_incoming_counterexample`.  The same happens for the orbits that are exactly equatorial or exactly circular,
  for which the angles are measured from the null vector: `C56_equatorial_counterexample`, `C56_circular_counterexample`.  A parabolic orbit may be
  constructed, but asking for its state vectors is fatal: `C56_parabola_counterexample`.
- C42 (numerics/nearest_neighbour_body.hpp:108): with `max_values_per_cell` equal to 0, which the constructor accepts, the construction of a tree that is not empty does not terminate, as a cell with one value is split into an empty one and itself (`C42_empty_cells_counterexample`).
- C59 (physics/rigid_reference_frame_body.hpp:302): the second derivative of a normalized vector has `v̇² - v·v̈` instead of `v̇² + v·v̈`, so the second derivatives of the orthonormal trihedron are wrong along the axes of the trihedron (`C59_second_derivative_counterexample`).  They are only used for the angular acceleration, to which these components do not contribute, so no observable result is affected.
- C60: `operator-(L, Complexification<R>)` (geometry/complexification_body.hpp:108-114) returns the imaginary part of its right operand instead of its opposite, so that subtracting a complex number from a
  real number gives the conjugate of the difference.  `C60_subtraction_counterexample`.
- C40: `FastFourierTransform::Mode` (numerics/fast_fourier_transform_body.hpp:164-193) dereferences the successor of the maximum.  For a transform of size 1, and for one of size 2 whose maximum is at the
  highest frequency, that is the past-the-end iterator.  `C40_mode_counterexample`; for all the other sizes `C40_mode` shows that the successor exists.
- C39: `EvaluateDerivative` of a polynomial of degree 0 reads `coefficients_[1]`, past the end of the array (numerics/polynomial_in_чебышёв_basis_body.hpp:201).  `C39_derivative_counterexample`.
- C39: `FrobeniusCompanionMatrix` is wrong for a polynomial of degree 1: the last row is written with a denominator of twice the leading coefficient (lines 266-273), which is only correct when the
  degree is 2 or more.  `RealRoots` therefore returns a root that is at half the distance from the middle of the interval (`C39_real_roots_counterexample`).  Polynomials of degree 1 are produced by
  `ЧебышёвPolynomialInterpolant` for functions that are nearly linear.
- C62: because of the previous point, `ComputeFirstCollision` returns a wrong time when the height is nearly a linear function of time over a piece: `C62_linear_counterexample` has a trajectory
  that falls at constant speed, for which the reported time of the collision is one where the height is half of what it was at the middle of the interval.
- C44: `ExplicitRungeKuttaIntegrator::Instance::Solve` lacks the `CHECK_NE(Time(), step)` of the symplectic integrators: with a zero step it never returns (`C44_zero_step_counterexample`). The multistep integrators accept a negative step but die once their startup has completed (`C44_negative_step_counterexample`). The comment of `FixedStepSizeIntegrator::Instance` says that the last time is of the form `t_final + n * step`: it is of the form `t_initial + n * step`.
- C45: the coefficients of 吉田1990Order8C and 吉田1990Order8D, as written in the source, meet the order conditions only to about 2×10⁻¹³, that is hundreds of ULPs, whereas all the other symplectic methods meet them to 10⁻¹⁵: for small steps these two methods lose their order earlier than the others.
- C45: in `Fine1987RKNG34` (integrators/methods.hpp:560) a coefficient of `aʹ` is `-234 / 128.0` where it should be `-243 / 128.0`: two digits are transposed, the sum of the row is 105/128 instead of the node 3/4.  `C45_fine34_counterexample`: for q″ = q′ the method is not even of order 2, where orders 4 and 3 are stated.  `C45_fine34_corrected_order`: with the correct coefficient it has the stated orders.  `C45_fine34_velocity_independent_order`: where the acceleration doesn't depend on the velocity the error is harmless.
- C65: when the last step need not be exact, the three adaptive integrators test whether they overshoot with `t.value + (t.error + h) > t_final`, whatever the direction of the integration, although they accept negative steps.  A backward integration thus drops its first step and returns OK without having advanced (`C65_backward_counterexample`).
- C65: `EmbeddedExplicitRungeKuttaNyströmIntegrator` doesn't return early when the right-hand side is aborted, the two other adaptive integrators do.  No constructor checks that the last row of `aʹ` is `b̂ʹ` when `first_same_as_last` is set, which the reuse of the last stage requires for generalized equations; it holds of `Fine1987RKNG45` (`C65_methods`).
- C46: `Method` tests whether a recorder is active in its constructor and again in its destructor, and `active_recorder_` is not protected: if a recorder is activated while a journalled function is running, its destructor writes an unpaired line and releases a mutex that it does not hold; if it is deactivated, a mutex that is held is destroyed (`C46_activation_counterexample`). The theorems suppose that this does not happen. With `PRINCIPIA_VERIFY_SERIALIZATION`, `principia__SerializePlugin` calls a journalled function while it holds the lock, which is not reentrant: it would wait forever if a recorder is active.
- C46: if the recording program stops in the middle of a line, the replay ends with a failed `CHECK` or a fatal error after having replayed the complete calls, rather than by returning false as it does if the program stops between two lines (`C46_replay_incomplete`).
- `DoubleBrent` is documented to find all the zeroes over the interval. It separates them using extrema that are found by looking at finitely many values, so that it may return no zero for a continuous function that has one strictly between the bounds: `C41_double_brent_counterexample`. What it returns is always near a zero, and it returns at least one if the signs differ at the bounds: `C41_double_brent`.
- `ComputeApsides` has a fallback for when there is not exactly one extremum between the two points, a linear interpolation (physics/apsides_body.hpp:112-124), but the time that it computes is overwritten by the statement that follows. When the derivative of the distance is exactly zero at the second point, which is when there may be two extrema, the last one is reported as a periapsis although it may be a maximum: `C63_periapsis_counterexample`.
- `ComputeNodes` decides whether a node is ascending from the velocity at the point that follows the node, instead of the velocity at the node: a crossing from below to above may be reported as descending if the trajectory turns back before the next point: `C63_node_direction_counterexample`.
- C64: if two successive extrema (apsides or ends of the trajectory) are at the same distance, or do not alternate, `ComputeCollisionIntervals` returns no interval (physics/apsides_body.hpp:236-247), so that the collisions of a trajectory that is below the maximal radius all the time are not found: `C64_anomalous_counterexample`.
- C67: when the error estimate increases with the degree, `ComputeBestNewhallApproximation` decrements `degree_` and adjusts the tolerance to the error estimate of the lower degree, but keeps the polynomial of the higher degree, whose error estimate is larger and may exceed the adjusted tolerance (`C67_error_counterexample`).  The comment says that it goes back to the point where the error was decreasing.  An error estimate of exactly 0 is also treated as an instability.
- C67: a trajectory whose first checkpoint is taken when it already has polynomials, written when it has a later checkpoint, and read at the later checkpoint, has the polynomials that precede the first checkpoint but not those between the checkpoints; after further appends, it silently evaluates a wrong polynomial in the gap (`C67_gap_counterexample`).  An ephemeris takes a checkpoint at the first point, so this can only happen for old saves that are rewritten.
- C68: `Starter::Solve` ignores the status of the startup integrator (integrators/starter_body.hpp:66-71), so a reanimation which is stopped (by `reanimator_.Restart()`, ephemeris_body.hpp:265-297) while the integrator is starting returns an OK status with truncated trajectories; `ReanimateOneCheckpoint` stitches them and records that the segment has been reanimated, so the ephemeris never covers the desired time and `AwaitReanimation` never returns (`C68_reanimation_stopped_counterexample`).
- C68: if a `Prolong` of a freshly loaded ephemeris is stopped before the first polynomial has been constructed, and a segment is then reanimated, `ContinuousTrajectory::Prepend` overwrites the last points, and the next `Prolong` fails a CHECK (`C68_stopped_prolong_counterexample`).
- C68: at a time which is the junction of two polynomials, the evaluation uses the left one, unless the ephemeris starts there; thus reanimating may change the value at that time (`C68_deterministic_counterexample`).
- C68 (by reading): `ReanimateOneCheckpoint` constructs its local trajectories with the default evaluator policy and not with that of the loaded trajectories, which may differ when the save comes from a machine with a different FMA support (this is hypothesis `policy` of `Lawful`); `DesiredTMinReachedOrFullyReanimated` (ephemeris_body.hpp:1063-1069) is not called, so `AwaitReanimation` with a time before the initial one never returns; a save from before Grassmann read with no checkpoint at or before the desired time keeps the dummy instance.
- C69: the Jacobian and the jerks ignore the geopotentials (as a comment in the code says), so (6) holds only if the bodies are spherical; similarly the torque-free statement holds only for spherical bodies: the rotation of an oblate body is prescribed and doesn't respond to the torque that it exerts.
- C70: the harmonic of degree 2 and order 1 is ignored by the acceleration and by the potential, even if the body was given non-zero coefficients for it (`C70_order_21_counterexample`).
- C70: a body of degree 31 to 50 is accepted at construction, but the evaluation of its geopotential is a fatal error unless the code is compiled with `PRINCIPIA_GEOPOTENTIAL_MAX_DEGREE_50` or the harmonics are damped at the point of evaluation (`C70_degree_counterexample`).
- C72: when the integration of a pile-up fails, its trajectory ends before the requested time but the motions of its parts, and its angular momentum, have been updated for that time (pile_up.cpp:111-120: the deformation comes first). The next deformation applies the torque from the end of the trajectory (pile_up.cpp:456), so the torque is applied twice over the interval between the two. `C72_deform` states what the code does (`t - back.time`). The caller reports the vessels of such a pile-up as having collided with a celestial (plugin.cpp:855-870); what the game does with them is outside the model.
- C73: `Solve` looks for the pivot of a column in the given matrix and not in the matrix reduced by the previous steps (matrix_computations_body.hpp:1075-1082), so it divides by zero on some regular systems, e.g. with the matrix ((2, 2, 1), (1, 1, 0), (0, 1/2, 0)) (`C73_solve_counterexample`); the result then has infinities or NaNs. When the result is finite it is correct (`C73_solve`).
- C73: `ᵗRDRDecomposition` is documented for any symmetric matrix, but it fails on regular matrices such as ((0, 1), (1, 0)), which have no such decomposition (`C73_rdr_counterexample`).
- C74: `Round` of a `cpp_rational` goes through `cpp_bin_float_50`, which has a significand of 168 bits, so that the result is not always the nearest integer: `LenstraLenstraLovász` applied to the columns (1, 0) and (2¹⁷⁰ + 1, 1) returns (1, 0) and (1, 1), which is not reduced (`C74_round_counterexample`).
- C74 (not a theorem): `largest_convertible_integer` is `2LL << 53`, i.e. 2⁵⁴, although the comment describes 2⁵³; and the matrix allocated by `GramGenerator` for an `UnboundedMatrix` has as many columns and rows as the rows of its argument, instead of its columns, so that the Gram matrix is accessed out of bounds when there are more columns than rows.
- `ComputeHouseholderReflection` uses β = -2 for a negative multiple of the first vector of the basis (numerics/matrix_computations_body.hpp:60-63), but 1 - β v ᵗv with β = -2 is 1 + 2 v ᵗv, which is not orthogonal: the sign is wrong (`C75_householder_counterexample`).  As a consequence `HessenbergDecomposition` may return a matrix whose eigenvalues are not those of its argument (`C75_hessenberg_counterexample`), and `RealSchurDecomposition` may return numbers that are not eigenvalues of its argument (`C75_schur_counterexample`, for a matrix with small integer elements).
- `ComputeHouseholderReflection` divides by zero for the zero vector, so that `HessenbergDecomposition` of the identity yields NaNs (`C75_hessenberg_identity_counterexample`), and `RealSchurDecomposition` yields NaNs when the shifts are eigenvalues (`C75_schur_exact_shift_counterexample`): the comparisons with NaN are then false and the loop doesn't terminate.
- `RealSchurDecomposition` of a cyclic permutation doesn't terminate, because the step of Francis leaves the matrix unchanged and there is no exceptional shift (`C75_schur_termination_counterexample`).
- C77: a cleanup crashes (`CHECK(!parts_.empty())`, ksp_plugin/vessel.cpp:179, or the binding of the vessels, ksp_plugin/plugin.cpp:625-632) if a vessel declared with InsertOrKeepVessel has lost all its parts to other vessels since (`C77_emptied_vessel_counterexample`): nothing in the documentation of InsertOrKeepLoadedPart says so.
- C78: `Perspective::VisibleSegments` returns the whole segment, although part of it is hidden, if the first extremity is in the plane of the camera orthogonal to the direction of the centre of the sphere: KA·KH is zero, the quadratic equation for the tangents degenerates into a double root, and geometry/perspective_body.hpp takes this for the absence of tangents (`C78_plane_counterexample`). If the camera is aligned with the segment, the determinant is zero and the part of the segment that is behind the sphere is said to be visible (`C78_aligned_counterexample`).
- C78: `Perspective::SegmentBehindFocalPlane` takes the scalar product with the image of the third axis of the camera, which has the norm of the scale of the similarity, and not with its inverse image; with a rotating-pulsating plotting frame, whose scale is not one, the depth is wrong by the square of the scale (`C78_focal_counterexample`).
- C78: `Perspective::IsHiddenBySphere` says that a point is visible if the camera is in the sphere and the point is on the other side, whereas `VisibleSegments` says that nothing is visible from the inside of a sphere (`C78_hidden_counterexample`).
- C79: the comment of `Trunc` (numerics/double_precision_body.hpp:283) says that the fractional point cannot be in both the value and the error. This is false: for the pair 5/2 - 2^-60 the value has a fractional part and so has the error, and `Trunc` returns 2 + (-1) = 1 instead of 2. `C79_trunc_counterexample` proves it; `C79_trunc` proves that the result is right when the value is an integer or the error is zero.
- C80: `ScaleB` (numerics/scale_b_body.hpp:18) compares `result`, and not its absolute value, with the smallest normal number. For a negative number the loop therefore immediately divides by the power of the radix, which overflows if the scale is less than -1023: `ScaleB(-2^1000, -1100)` is zero instead of -2^-100. `C80_scale_b_counterexample` proves it.
- C81: numerics/quadrature.hpp:28-29 says that AutomaticClenshawCurtis returns when the number of points *would* exceed `max_points`, but numerics/quadrature_body.hpp:171 compares the number of points of the current estimate: with a limit of 6, it goes from 5 to 9 points (C81_max_points_counterexample), and with a limit of 4 or less it still uses 5. The number of points is at most twice the limit minus 3, or that of the first refinement (C81_max_points).
- C84: `Zoom` (numerics/gradient_descent_body.hpp:155-161) gives up when two successive values of the function are equal, on the grounds that the function is numerically constant, and `BroydenFletcherGoldfarbShanno` then returns the last argument that it tried without comparing it with the start. Equal values at two arguments do not mean that the function is constant: `C84_worse_counterexample` exhibits a polynomial of degree 4 for which, with exact arithmetic, the result has value 5 while the start has value 0. Also, `αᵢ₋₁` and `ϕ_αᵢ₋₁` are never updated by the loop of `LineSearch` (197-230), so the interval always starts at 0; this is harmless (the theorems hold with it) but is not what the referenced algorithm does.
- C87 (`Binomial`): the computation divides a falling factorial by a factorial and overflows whenever the falling factorial does not fit in 64 bits, even if the binomial coefficient does. For instance `Binomial(21, 21)`, which is 1, overflows: `C87_binomial_counterexample`.
- C88 (`IsValidStretchyUTCIfOnDayOfNegativeLeap`, astronomy/time_scales_body.hpp:214-222): the function compares the hour, the minute and the millisecond, but not the second, so the ends of all the seconds of the last minute of the day are rejected, not just that of the last second. `"1961-07-31T23:59:30,960"_UTC` fails a check although it exists: `C88_negative_leap_counterexample`.
- C89 (`OrbitGroundTrack::ForTrajectory`, astronomy/orbit_ground_track_body.hpp:158-162): the first ascending and descending nodes are bound by dereferencing `begin()` before the containers are tested for emptiness, so a trajectory without an ascending or without a descending node has undefined behaviour (reading the elements bound is avoided by the short-circuit, but dereferencing the end of the container is not): `C89_no_node_counterexample`.
- C91 (`UnboundedLowerTriangularMatrix` and `UnboundedUpperTriangularMatrix`, numerics/unbounded_arrays_body.hpp:354, 428, 640 and 718): for an empty initializer list the number of rows is `llround(-0.5)`, that is, -1, since ties are rounded away from zero; the check that follows succeeds because -1 * 0 / 2 = 0: `C91_deduce_empty_counterexample`.
- C92 (`PiecewisePoissonSeries::operator+=` and `operator-=`, numerics/piecewise_poisson_series_body.hpp:40-72): they change the values of the function but do not reset the cache of its values at the points of the Gauss-Legendre quadrature, so the Fourier transform of the function, if it was evaluated before, remains that of the previous function: `C92_stale_cache_counterexample`. The copies of a function share its cache, so modifying a copy has the same effect.
