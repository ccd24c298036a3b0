# Formal model of dynamic_trajectory_generator — design

## 1. What is modelled and how

The code under `/repo` is modelled in Lean 4, function by function, under `lean/Verif/`:

* `Model/*.lean` — executable-style definitions. Every definition cites the file and lines it models and
  says where it simplifies.
* `Spec/*.lean` — small specifications that do not use the model's helpers (Mathlib polynomials and derivatives,
  abstract maps, lists, schedules).
* `Lemmas/*.lean` — helper lemmas.
* `Properties/*.lean` — one theorem (or a few) per property of `properties.jsonl`, each followed by an `example` that a
  concrete non-trivial case meets the hypotheses.

Conventions.

* `double`/`float` arithmetic is replaced by exact arithmetic: over an arbitrary (ordered) field `K` where only field
  operations and comparisons are used (so the definitions run over `ℚ`), over `ℝ` where `exp`, `sqrt`, integrals or
  trigonometry occur. Rounding is modelled for the evaluation and sampling of trajectories (`Model/Rounding`, C103, C104), for the `float` parameters of the planner (`Model/PlannerFloat`, C120) and for
  durations and time stamps (`Model/TimeStamps`, C106, C107) only.
  Overflow, underflow, NaN (outside C144) and infinities are not modelled, except that a division by zero whose
  result the code would use is a distinct outcome where a property is about it.
* Undefined behaviour (indexing past the end, null dereference, reading a missing constraint), glog `CHECK` aborts, C++
  exceptions and non-termination are distinct constructors of the outcome type `Res`.
* External numerical routines (NLopt, Eigen's matrix inverse and sparse QR), and the root finder outside `Model/RPoly`, are
  parameters. Theorems that need something from them state it as an explicit hypothesis (e.g. "the list contains
  every real root"), which appears in the theorem statement.
* Threads: two models. `Model/Planner.lean` is a state machine whose transitions are whole API calls, whole worker
  iterations and completion of the background computation, with full data. `Model/Concurrency.lean` is a small-step interleaving
  model at the granularity of single mutex operations and single reads/writes of the atomic flags, for the schedule properties.

## 2. Trusted base

* Lean 4.33.0 kernel; axioms `propext`, `Classical.choice`, `Quot.sound` only (checked by `#print axioms` and by `vcheck`).
* The reading of the C++ code recorded in the comments of `Model/`.
* Exact arithmetic in place of floating point, outside `Model/Rounding`; there, the standard model of rounding (each operation is exact followed by a
  rounding with bounded relative error).
* Contracts of external routines, only where a theorem has them as hypothesis.

## 3. Plan per property

| id | model | proof |
|----|-------|-------|
| C01–C03 | `Model/Polynomial`: base-coefficient table, Horner loop, convolution loop, over a field | induction; equality with Mathlib's `Polynomial.derivative`/`eval` |
| C04–C07 | candidate selection, root finder as parameter | extreme value theorem + Fermat's theorem; C06 refuted by witness, `_partial` kept |
| C08–C18 | `Model/Segment`, `Model/Trajectory` | induction on segment lists; C13, C14, C15 have refutations for the stated full property |
| C19–C22 | `Model/Vertex` | refinement to a map; real arithmetic; C22 by integration bound over all admissible motions |
| C23–C28 | `Model/LinearOpt` | linear algebra, Hermite interpolation by root counting, convexity |
| C75, C76 | `Model/OptMagnitude` | from the polynomial extremum theorems; block-diagonal and selection matrix algebra |
| C29–C32 | `Model/NonlinearOpt` | index arithmetic; C31 refuted by witness |
| C77 | `Model/LinearOpt` | two histories with the same problem satisfy the same invariant, and the invariant determines the segments |
| C78–C82 | `Model/NonlinearOpt`, NLopt as a list of callback invocations | induction over the invocations; refutations by concrete runs |
| C83, C84 | `Model/NonlinearOpt`: Mellinger objective, gradient and final scaling | induction over the segments; uniqueness of the linear solution |
| C85 | `Model/ComputeTrajectory`: the planner's optimisation as composition of the modelled parts | C21, C23, C28, C30 composed; discharges the contracts of the planner theorems |
| C66 | `Model/MotionDefines` | case analysis over the tables |
| C67 | `Model/Timing`: ring buffer accumulator with `int` counters | induction over the samples; the buffer is a rotation of the last N samples |
| C68, C86 | `Model/Timing`: registry of tags and handles, timers | invariant over all histories of calls |
| C33–C39 | `Model/Waypoint` | induction on updates; calculus for the Gaussian; C35, C37, C39 refuted in part |
| C40–C42, C46–C63 | `Model/Planner` | invariants by induction on histories; refutations by concrete histories |
| C41, C43–C45, C60, C61, C63, C87 | `Model/Concurrency`: each call, the worker and the computation as a program of mutex operations, flag reads/writes and member accesses; scheduler picks any thread at each step | an abstract interpretation of the programs (`Lemmas/Concurrency`) proved sound for every interleaving: an invariant over all reachable states by induction on steps; mutex order for C44; refutations by concrete schedules |
| C108–C111 | `Model/PlannerFine`: the evaluating calls of `Model/Planner` cut into steps that touch shared data once, with all data; other threads' calls, the worker and the computation in between | a simulation: in every interleaving the state with a pending take-over completed is one that complete calls lead to (`interleaved_inv`), so the invariants of `Model/Planner` carry over; an invariant of the states since the call began (C108); a lexicographic measure (C111); refutations by concrete interleavings |
| C112–C116 | `Model/PlannerThreads`: the worker's loop, too, cut into its single accesses (the zone test in four, the collection in three, the attachment in up to 19, updates one waypoint at a time), beside the evaluating thread of `Model/PlannerFine` | a second simulation: a step of the worker is nothing, an event of `Model/Planner`, or a belated event whose inputs were read in earlier states (`Belated`, `step_fine`, `threads_inv`); invariants over the states since a phase began relate the worker's local variables to the state they were read in (`collecting`, `attaching`, `applying`, `looking`); C108, C109, C111 are transferred (`_threads`) |
| C117, C118 | the interleaving model of C112–C116; infinite executions (`Spec/PlannerForever`) with fairness as hypotheses | what happens to a requested waypoint is followed through queue, collection, preparation, launch and take-over (`request_carried`); liveness by ranking functions for the worker between two looks (`rank1`), up to the launch (`rank2`), and for the evaluation that takes over (`no_descent`, `request_taken`) |
| C119 | `Model/PlannerDestroy`: the destructor (stop flag, join, then the members in the reverse order of their declaration) interleaved with the worker of C112–C116 and the computation; use of a destroyed member is `ub` | invariant: the worker has ended before any member is destroyed; `NoPlanComing` is kept by every step; termination by a measure over worker, computation and destructor |
| C120 | `Model/PlannerFloat`: the planner's evaluation behind a rounding function `fl`; `Spec/PlannerFloat`: numbers with 24 binary digits, rounding to a nearest one with ties left open | error and fixed points of rounding to nearest; mean value theorem along the segments (transferred from ℝ to every Archimedean field); witness with a plan that starts at 2³⁰ + 1280 s |
| C121 | the planner's evaluation (C40) as a function of the instant; `Spec/PlannerFloat`: `JoinsSmoothly`, pieces meet in derivatives 0 to 4 | mean value theorem along the plan, continuity of the Gaussians inside their windows; sample history executed over ℝ (`Lemmas/PlannerSampleReal`) for the refutation |
| C122 | the planner's event model from the preparation of a plan (C53) to its take-over (C56), the plan's velocities bounded as in C121 | the old plan is kept by every event without take-over (induction); the new plan's start and the fitted point compared with the last reference, the rest by the mean value theorem; sample history for the refutation |
| C123 | `evaluateTrajectory` of the planner model, twice | case analysis of `checkTrajectoryGenerated`: after an evaluation nothing is left to take over; induction over the events in between |
| C124 | the optimiser as the planner calls it (C85), NLopt as an arbitrary run within its bounds; `magnitude` of the returned segments | the objective of the last point evaluated (C32, C80) contains both soft costs and nothing negative, so they bound the peaks; mean value theorem for the time needed; a run that ends at the smallest segment time for the refutation |
| C125 | the planner's event model with its history of events | invariant over histories: running computations, waiting plans and the plan in force each go back to a start of a computation in the history and the speed set last before it |
| C126 | the planner's event model from construction to the flown plan | invariant over histories (queued, collected, planned, flown) with the waypoints of the route and the reported positions; composed with C54 (times, positions), C40 (references), C55 (hovering) and C85 (the optimiser's contract) |
| C127 | the planner's event model with the modelled optimiser | the estimates are quotients by the speed: zero gives no finite value, a negative one gives a time the set-up's check refuses (C28); invariant over histories with the speed a computation read (C125) |
| C128 | the planner's event model with the modelled optimiser | totality of each step without zero widths; invariant over histories counting the worker's phases since the request and the begin and end of the computation; estimates bounded below from the spacing of the route (C21), success of the optimisation (C85) |
| C129 | the planner's event model from any reachable state at rest | invariant over histories: where the route is (queued, collected, being planned, taken over) and that the old plan is in force until the take-over; the flown references from C40, C54 and C55 |
| C130 | as C129, with appendWaypoint | invariant over histories: where the appended waypoints are (queued, collected behind those ahead, being planned); every take-over flies the plan it takes over (C54, C55), until a waypoint is moved |
| C131 | the event model with modifyWaypoint from a state at rest; the compensation evaluated as in C08 | invariant over histories counting the worker's phases: queued, then applied at the instant evaluated last; the references before and after are compared term by term; e^(-9/2) < 12/1000 over the reals |
| C132 | as C130, with modifyWaypoints | invariant over histories with two ways to the new plan: the moves still queued when the worker collects, or applied to the plan in force before |
| C133 | as C128, in flight: planner, worker and modelled optimiser together | invariant over histories until the take-over; the estimates of the first two segments decide failure; refuted by a route that begins where the old plan ends |
| C134 | createRandomVertices as a function of the sequence of random numbers; the rejection loop is exact, no attempt succeeding is the outcome `hang` | induction over the segments; distance of a point to the farthest corner of a box over the reals; refuted by a box with diagonal 0.2 |
| C135 | createSquareVertices | induction over the rounds; constraints of each vertex as a finite map |
| C136 | the comparison operators of polynomials, segments and trajectories, comparing vectors of different sizes being `ub` | induction over the segments and dimensions; refuted by trajectories of different order |
| C137 | the interleaved threads of C108 with counters for requests, collections and changes of the trajectory | invariants: the request flag is down from the end of a planning pass to the next request; a trajectory still to be taken over is counted as a collection |
| C138 | the interleaved threads of C108, one route as the only request | simulation: every interleaving leads to a plan that a history of complete calls and phases (C126) leads to, with the plan being taken over as the only intermediate stage |
| C139 | the linear optimisation of C27 | parallelogram identity: the difference of two minima has no energy, so it is one polynomial of degree below d on all segments; it vanishes by counting zeros with multiplicity, or, if there are too few, a non-zero one is constructed |
| C140 | the fine-grained model of all threads (C113, C114) with a ghost of what the users have told | invariant over all places that hold waypoints: to-do lists, next plan, plan in force, the locals of the worker and of the evaluating thread; for the replaced route a second invariant from the taking of the requests to the exchange of the plans |
| C141 | the planner models of C61 and C112 with the modelled optimisation of C85 as their optimiser | every function of the optimisation is shown to fail only by a check or a non-finite value, with the invariant of the object under arbitrary requests of NLopt; hence the future never holds an exception, by induction over histories and interleavings |
| C142 | `Model/PlannerAftermath.lean`: the planner with the thread that left `swapTrajectory` by an exception; an event for a computation that throws | invariant after the exception (mutex locked, flag set, future invalid, plan unchanged), by induction over all later histories; refuted in full with a sample history |
| C143 | `Model/ManyPlanners.lean`: any family of planners and the process-wide registry of timers, one step per access of a computation to a member of the registry | projection of every history of the process to one planner; invariant of the registry while at most one planner computes; refuted in full with two planners |
| C144 | `Model/NotANumber.lean`: evaluation, one round of the worker thread and the estimated segment times over doubles that may be NaN | agreement with the planner model on numbers, function by function; a NaN is followed from the stored instant to the failing check; refuted in full with a sample history |
| C145 | The planner model; `Spec/Moves.lean`: a desk that records which move was carried out at which instant, and the closed form of the correction each one adds | invariant over runs relating the planner to the desk, giving the references exactly; refuted in full with a sample over the reals, proved for moves at one instant |
| C146 | As C145, over the reals | `u exp(-u²/2) ≤ exp(-1/2)` and `y exp(-y) ≤ exp(-1)` summed over the steps of C145; the bounds are attained; refuted in full by moves ever closer to the waypoint's time |
| C147 | The planner model; `Spec/PlannerPile.lean`: the names the planner gives its own points and their number in a plan | invariant over runs bounding the number in the plan in force, in preparation and ready; refuted in full by a sample history; by induction over the number of plans, symbolically executing one cycle of call, worker, computation and evaluation, a family of histories in which the number grows without bound |
| C148 | `Model/TaylorBench.lean`: the two classes of the benchmark and their sums | the alternating expansion of the exponential bounds one series; induction over the list for sums; refuted in full for different means |
| C149 | `Model/RandomPath.lean`: `createRandomVerticesPath` over all sequences of random numbers; `Spec/RandomPath.lean`: what a path with bounded legs is | induction over the segments with the lemmas of C134 on drawn positions; refuted in full by one segment |
| C150 | `Model/DemoDriver.lean`: the modifiers, the two static variables and the loop of `runEvaluation`, the planner being an arbitrary sequence of answers; `Spec/DemoDriver.lean`: when a waypoint is due and the schedule | induction over the modifiers of a pass and over the passes; refinement to the schedule; refuted in full by two waypoints at the same time |
| C151 | The planner model; `Spec/PlannerPile.lean` `askedAhead` counts the waypoints ahead that do not bear a name of the planner | invariant over runs: the planner's own points come first in the plan; C59 says what is counted; refuted in full by a sample history |
| C152 | The planner model; `Spec/PlannerStored.lean` counts updates per name | account over runs: kept plus pending never exceed the updates asked for; symbolic run of one move at rest, then induction over the number of moves; refuted in full by that family |
| C153 | `Model/CsvDriver.lean`: the program call by call on the planner model, with the worker and the computation running between any two calls; the text of the file; `Spec/CsvDriver.lean` says what a flight through a route and a line of it are | invariants until the plan is taken over (clock at 0, vehicle where reported) and after it (plan and offset stay), then induction over the loop; the text by splitting and joining; refuted in full by a sample run |
| C154 | `Model/Waypoint.lean`; `Spec/WaypointTold.lean` keeps a plain record of what was told | simulation of the record by the waypoint, one operation at a time, then induction over the sequence; constructors separately |
| C155 | `getHighestDerivativeFromN` of `Model/Vertex.lean` against polynomials and their derivatives (`Spec/Polynomial.lean`) | the map from coefficients to end conditions is invertible (even N); for odd N the polynomial (X(X-T))^h can be added |
| C156 | `Model/PlannerDirect.lean`: `generateTrajectory` called by the user while no computation is in progress, on the planner model | invariant over reachable states: what the list of the next plan holds while nothing is being prepared; then the computation and the takeover step by step; refuted in full by a sample history |
| C157 | `Model/TimingPrint.lean`: the characters `Timing::Print` and `SecondsToTimeString` (`%09.6f`, buffer of 256) write; rounding to a whole number and the square root are parameters; `Spec/TimingPrint.lean` reads lines, columns and decimal numbers | the reader inverts the writer (digits, padding, splitting at tabs and line ends); the figures are those of C67 and C68; sizes of the figures bounded so that the buffer suffices |
| C158 | the linear optimiser and the time estimate as for C27 and C85; `Spec/OptimumFrame.lean`: vertices, problems and curves in another frame | the map carries candidates to candidates and multiplies every energy by the same factor, in both directions, so it carries optima to optima; there is only one (C139) |
| C159 | as C158; `slowProblem`, `SlowedCurve` | as C158, with substitution in the integral |
| C160 | as C158; `Spec/OptimumReverse.lean`: vertices, problems and curves backwards | as C158, with the polynomials composed with `T - x` and the lists reversed; the time estimate is symmetric in the two ends |
| C161 | the planner model of C01; `Spec/PlannerMoved.lean`: positions, waypoints, events, references and planner states in another frame; contract `SameOptimizer` for the optimizers | simulation: each operation of the planner in the old frame is matched by the same operation in the new one, by induction over the history; the linear optimisation meets the contract by C158 |
| C162 | the planner model; every history up to the first take-over | as long as there is no plan the recorded times are zero (C57); with C56 and C40 this gives the instant read, with C129 the answer after the end |
| C163 | as C158, C18; `Spec/OptimumRest.lean`: the problem cut at a vertex | the parts of an optimum are optimal for the parts of the problem, because two parts that meet in its state make a candidate for the whole (`parts_candidate`); the parts have one optimum (C139). `C163_only_at_vertices`: the second half of a leg of the optimum is not the optimum of the half leg, because the curves are polynomials of a bounded degree on each leg |
| C164 | as C26, C27; `Spec/OptimumCost.lean`: problems that prescribe more, and problems with one vertex more | the reported cost is the least integral (C26, C27), and each comparison follows from curves of one problem that serve for the other: the same curve (`more_candidate`), the curve with a segment cut in two (`cut_candidate`, `cutCurve_energy`), the curve moved, slowed or turned back (C158–C160); where only positions are prescribed non-zero the slowed mission has the same vertices (`restful_slow`) |
| C165 | `Model/Print.lean`: the characters written for vertices and segments, with Eigen's alignment; the text of a number is a parameter; `Spec/Print.lean` reads lines, names and numbers | the reader undoes the printer (splitting at line ends, headings and commas; blanks dropped); coefficients by C01 |
| C166 | `Model/PrintInfo.lean`: the characters written for a report and for an extremum; `Spec/PrintInfo.lean` reads labels, words and numbers | the reader undoes the printer (lines, then labels, or words between blanks); return codes by cases |
| C167 | `Model/PlotResults.lean`: reading of the table by column names, the curves and the path drawn; `Spec/PlotResults.lean`: figures that show a flight | the reader undoes the writer of C153; columns by name; magnitudes are Euclidean norms; composed with C153 |
| C168 | `Model/PathCheck.lean`: `checkPath` and `checkExtrema` of the tests; `Spec/PathCheck.lean`: paths that meet their vertices up to a tolerance | loops of checks as conjunctions; what the optimiser solves meets the vertices and joins exactly (C23, C24) |
| C169 | `Model/CostCheck.lean`: `checkCost` of the tests, with the sampling interval as a parameter; integrals as in C26, sampling as in C102 | left Riemann sums with an offset, segment by segment; a vanishing integral means a vanishing derivative; composed with C26 |
| C170 | `Model/MaxCheck.lean`: the two functions of the tests for maximum speed and acceleration, the sampling interval as a parameter | a sample near the place of the maximum within its segment and continuity there; every sample is a value of a segment (C07, C102); refutation for a fixed interval by a short parabola |
| C171 | nothing new: the optimiser for ten coefficients (C23, C28), `makeStartOrEnd` (C20) and `estimateSegmentTimes` (C21); `Spec/RestLeg.lean`: the course of a leg | ten end values fix a polynomial of ten coefficients, the course has them; the maxima of its derivatives by factorisation, attained at 1/2 and at (1 − 1/√7)/2 |
| C172 | nothing new: the optimiser (C27, C139) and `getSubdimension` (C20); `Spec/OptimumAxes.lean`: some axes of a segment and of a mission | an axis of a curve can be exchanged for another curve through the same values of that axis, so each axis of an optimum is an optimum; the integral is the sum over the axes; uniqueness by C139 |
| C173 | nothing new: the optimiser (C27, C139); `Spec/OptimumSum.lean`: when a mission is a combination of two others | an optimum is orthogonal, in the integral of products of the derivative, to every allowed change; the allowed changes depend on the form of the mission only, so a combination of optima is orthogonal to them too and hence an optimum; uniqueness by C139 |
| C174 | nothing new: the optimiser (C27, C139); `Spec/OptimumPlane.lean`: the component along a direction, missions in a plane | the component of an optimum along the direction is exchanged for the polynomial, at right angles to the rest; this is allowed and does not add to the integral, because the polynomial has no derivative of the optimised order; uniqueness by C139 |
| C175 | nothing new: the optimiser (C27, C139); `Spec/OptimumPlane.lean`: missions taken from a path | repeated integration by parts leaves values at the vertices only, which cancel at the joints and vanish at the ends, so the path is orthogonal to every allowed change and hence an optimum; uniqueness by C139 |
| C64, C95 | `Model/IO` (abstract YAML tree with yaml-cpp's accessors; for the text see C105) | round trip by induction; inversion of the reader; the table row by row from C65 |
| C65 | `Model/Sampling` | direct |
| C69, C70, C88–C94 | `Model/MavMsgs`: the helper functions of `mav_msgs` over the reals, with Eigen's quaternion and angle-axis operations as used | identities in SO(3); Euler's rotation theorem; derivative of Rodrigues' formula along a curve; C70 refuted in part |
| C71, C96 | `Model/RPoly` (all of `rpoly_ak1.cpp`; exact arithmetic) | synthetic division and Vieta by induction; acceptance tests turned into bounds on the value; the answer as an inductive specification (`Spec/RPoly`) by induction on the degree; termination by convexity of the Cauchy polynomial |
| C97–C99 | `Model/Plotter` (the lists of `TrajectoryPlotter`; the drawing thread as steps interleaved with the user's calls; matplotlib not modelled) | C40 for every sample; induction over histories of calls; invariants over all schedules, refutations by concrete ones |
| C100 | `Model/SharedTrajectory` (any number of handles, threads and calls; mutexes as owners; a trajectory is its address, the access to the pointer one step) | invariant: who holds which mutex; refinement to calls made one after the other; measure for termination; races refuted by a schedule |
| C103, C104 | `Model/Rounding` (evaluation and sampling with a rounding function after every operation) | standard error analysis by induction over Horner's rule, the sum of times and the samples; rounding to `p` bits shown to satisfy the hypotheses |
| C105 (and `C64_text_round_trip`) | `Model/YamlText` (the characters `segmentsToFile` writes, and a line by line reader for such documents and their beginnings, after yaml-cpp 0.7; how a double is printed is a parameter, `Spec.Faithful`) | for every line, what each of its beginnings does to the state of the reader; induction over rows, segments and lines |
| C106, C107 | `Model/TimeStamps` (conversions between seconds and whole nanoseconds with a rounding function after every operation and conversion) | gaps between numbers with `p` bits; rounding to nearest with any rule for ties; the constant `1.0e-9` is a little too large, which is why saved durations never lose |
| C101, C102 | `Model/SampledExtrema` (the sampling loops with fuel) | induction over the samples; mean value theorem between neighbouring samples; Riemann sums; refutation by a segment in the plane |

For a root finder that is only accurate to ε, C05, C07, C12 and C75 have versions (`Properties/MagnitudeApprox`) with a contract about the one polynomial handed to it: the result is right up to M ε², M a bound of the second derivative of the squared magnitude.

Nothing in the list is `not_applicable`. Not expressed in any model: floating-point rounding outside evaluation and sampling, wall-clock timing of sleeps, memory
allocation, the weak memory model (all atomics are sequentially consistent in the code; the data races on non-atomic members are
listed below instead), text output.

## 4. Disagreements between the code and the property list

Each is a theorem `Cxx_refuted` (or as named) with a concrete witness; the part that does hold is a `_partial` theorem.

| id | what goes wrong in the code |
|----|------------------------------|
| C06, C13–C15 | see the header comments of `Properties/Segment.lean` and `Properties/Trajectory.lean` |
| C25 | `baseCoeffsWithTime` treats times below 2⁻⁵² as 0, so for such positive segment times the end-point matrix is singular |
| C31 | the bounds on free derivatives count orders up to the optimised derivative only, while the variables enumerate all boundary orders: in the planner's own configuration a velocity limit bounds other variables |
| C32 | a soft constraint with limit 0 costs the cap even for a trajectory that stands still (0/0) |
| C35 | the acceleration of the compensation is not the second derivative of the compensation (exact error term proved) |
| C37, C39 | an update with unknown time changes only some axes or behaves differently after a copy |
| C46 | a request made while a computation runs is forgotten at the take-over; `modifyWaypoint` without generation cancels a pending one |
| C48 | `setWaypoints` with an empty list keeps the old route |
| C50 | a pending modification of a queued waypoint is consumed in the security zone |
| C51, C53, C56 | the local time used for stitching is stale when the plan is taken over by a call other than an evaluation |
| C52 | waypoints between 10 and 20 computation times ahead are dropped by stitching |
| C57 | `parameters_ = new_parameters_` at the take-over restores an older last evaluated time |
| C45, C61 | two threads that evaluate at the same time: both call `get` on the future, or one uses the trajectory before the other has put it in place |
| C60 | the read and the reset of the flag are two steps; a change in between is lost. `C60_interleaved_partial` covers every interleaving in which no change and no other such call happens during the call |
| C63 | each update of `modifyWaypoints` takes the mutex separately; the worker can act on some of them |
| C67 | the maximum starts at the smallest positive double and is wrong when no sample is positive; the `int` counters overflow after 2³¹−1 samples |
| C72 | compensations of neighbouring updated waypoints overlap |
| C73 | the passed/next/zone decisions ignore the time offset |
| C74 | free values of an earlier problem survive in the optimisation object |
| C78 | when NLopt throws before the first evaluation (time-only methods, initial time below 0.1), the object returns a trajectory of zeros |
| C80 | the point NLopt returns is discarded; the last evaluated point is kept |
| C81 | the constraint callback ignores its argument and answers for the trajectory held |
| C87 | data races: `dynamic_trajectory.cpp` line 280 (size of the list of modifications), 268 (`parameters_.last_local_time_evaluated`), 698 (trajectory pointer in `checkInSecurityZone`); with two evaluating threads also 162, 171, 653 (trajectory pointer) and 133, 134 (`parameters_.t_offset`) |
| C64 | `trajectoryFromFile` hands the segments to `setSegments` even when the file could not be read: the process aborts (`C64_unreadable_file`); a faulty entry leaves the earlier segments in the trajectory (`C64_file_faulty_entry`); the node reader accepts any number of coefficients (`C64_node_sizes_unchecked`) |
| C65 | sampling a range that starts inside a segment goes on past the end of the range; a range that starts at the end of the trajectory reads past the last segment |
| C95 | with more segments than samples the last column is written past the end of the table |
| C96 | the quadratic iteration tests only one of two real roots: from X² − 1 it accepts {1, −1} for X³ + X² + X + 1; roots of polynomials with all coefficients below 2⁻¹⁰²² are not found (and `true` is returned); more than 101 coefficients are written past the end of an array; the call returns `true` when it gave up after finding some of the roots |
| C70 | `isRotationMatrix` tests `det - 1 > eps` without absolute value: the point reflection -I passes |
| C89 | `vectorFromRotationMatrix` divides by sin(pi) for half turns |
| C82 | `setupFromVertices` replaces the NLopt object; constraints registered before are lost; without a set-up the NLopt pointer is null |
| C97 | a plan that becomes ready between two calls of `plotTraj` is drawn with the time axis of the old plan; an exception of the background computation leaves the plotter's mutex locked for ever; the last tenth of a second is not drawn |
| C99 | `update_plot_` is lowered after drawing without the mutex: what is written in between is not shown; `ended_` is initialised after the thread that reads it has been started: the thread may end at once |
| C100 | `ThreadSafeTrajectory`: copying, moving from and comparing handles read `trajectory_ptr_` of the other handle without its mutexes: a data race with an assignment to it; moving copies |
| C101 | `computeSegmentMaximumMagnitudeCandidatesBySampling` keeps a turning sample only if the *vector* of the next derivative is short, which is not so at an extremum of the length in two or more dimensions: the maximum is missed for every step |
| C104 | `evaluateRange` advances its times by adding `dt`; once `dt` is less than a quarter of the spacing of doubles at these times the sums stop growing and the loop never ends, e.g. from 2⁵⁴ to 2⁵⁴+4 s in steps of 1 s |
| C105 | `segmentsToFile` overwrites the file in place and the format has no end mark: if the program stops after a complete segment, `segmentsFromFile` reports success with the segments so far (`C105_refuted`); the previous contents are lost at every crash point |
| C108 | the mutex of the waypoints is taken once per derivative order: an update applied in between gives a position of the old and a velocity of the new waypoints |
| C109 | `swapTrajectory` announces the new plan (410) before `swapDynamicWaypoints` (415) |
| C110 | `dt.cpp` 678-679: a request made between the two assignments is forgotten although the status already says idle |
| C113 | `dt.cpp` 696-730: the zone is inspected before the status is read; a plan taken over in between is not inspected |
| C119 | `dt.hpp` 91-119: `future_traj_`, whose destructor waits for the computation, is declared before the mutexes and waypoints the computation uses, so these are destroyed first; and the worker may start a computation after the destructor has been called, even if both status calls said idle |
| C120 | `dt.hpp` 176, `dt.cpp` 115: the instant to evaluate is a `const float &`; a `double` counting seconds from 1970 is rounded to a multiple of 128 s, so all instants of a plan give the same references (`C120_frozen`) |
| C121 | `traj_modifiers.hpp` 50-51: a compensation is cut off at 3.5 widths, where it is still exp(-49/8) of its height: the position reference jumps there (`C121_refuted`, size bounded in `C121_jump_partial`) |
| C122 | `dynamic_trajectory.cpp` 763: the time fitting adds one step to the best match, so the reference jumps ahead by a tenth of a second's flight when a plan is taken over (`C122_refuted`); the best match itself may be off by what the vehicle flew during the computation (`C122_stitched_partial`) |
| C124 | `dynamic_trajectory.cpp` 334-342: the limits are soft, the optimisation's return value is ignored, and the last trajectory evaluated is kept (`polynomial_optimization_nonlinear_impl.h` 492-522), so nothing bounds the velocity of the plan (`C124_refuted`) |
| C133 | `dynamic_trajectory.cpp` 474-532, 696-720: the security zone is computed without the time compensation, with which the new plan is attached. Near the end of a plan the second point of attachment is therefore the end itself, and a route that begins there has two coincident vertices, an estimated time of zero, and a CHECK abort (`C133_window`, `C133_refuted`) |
| C134 | `vertex.cpp` 33, 52, 72: boxes with a diagonal of at least 0.2 are accepted, but positions must be more than 0.2 apart. With a diagonal of 0.2 the loop never ends, up to 0.4 it may never end (`C134_smallest_box`, `C134_middle`). A lower bound above the upper one is not checked (undefined behaviour in the distribution, `C134_refused`) |
| C136 | `segment.cpp` 28-39, `trajectory.cpp` 34-46, `polynomial.h` 65: the number of coefficients is not compared before the coefficients are (`C136_refuted`). `trajectory.cpp` 39-43 compares all segments once per segment, which is only slow |
| C142 | `dynamic_trajectory.cpp` 381-383: `future_mutex_` is locked and unlocked by hand around `future_traj_.get()`. If the computation threw, the exception leaves the mutex locked and `computing_new_trajectory_` set: later evaluating calls lock it again (undefined in the same thread, for ever waiting in others), and the worker never plans again |
| C143 | `timing.cpp` 36-63, 109-111: the registry of timers is a static object without a lock; every computation uses it (`polynomial_optimization_nonlinear_impl.h` 513-516). Two planners computing at the same time race, and a measured time can be lost |
| C144 | `dynamic_trajectory.cpp` 122-131: the evaluation instant is stored without a check. After `evaluateTrajectory(NaN)` no waypoint counts as passed, the security zone is never entered, the new plan is always joined to the old one, at a NaN; the estimated times are NaNs and `CHECK_GT(segment_time, 0)` (`polynomial_optimization_linear_impl.h` 297) aborts the process, unless an evaluation at a number comes before the worker thread takes up a request |
| C145 | `dynamic_waypoint.cpp` `setCurrentPosition`: each move adds a correction of its own, as wide as the time left when it is carried out, and none is taken away. A waypoint moved away and back leaves the difference of two bells of different widths in the references |
| C146 | `dynamic_waypoint.cpp` `setCurrentPosition`: the width of the correction is the time left over three, with no lower limit. A waypoint moved by one metre with the time `l` left changes the velocity reference by `1.82/l`, whatever speed was set |
| C147 | `dynamic_trajectory.cpp` `stitchActualTrajectoryWithNewWaypoints`, `filterPassedWaypoints`: points the planner made for an earlier plan are treated like waypoints asked for. Those not flown yet and more than twenty computation times ahead stay in the plan, behind the new ones; each further replanning adds to them, and the vehicle is led back to them, even to where it started |
| C148 | `tests/taylor_series_vs_exp_benchmark.cpp` `operator+`: the coefficients are added, but they belong to powers of the distance from different means; the sum is evaluated around the mean of the left operand |
| C149 | `polynomial_timing_evaluation.cpp` `createRandomVerticesPath` line 86: `last_position = position_sample` stores the step, not the position reached, so points do not go on from each other, the path never leaves the surroundings of the origin, and the last vertex is put at the last step (line 89) |
| C150 | `tests/traj_evaluator.hpp` `triggerModification` line 70: `static double last_trigger_time` is shared by all modifiers, so the first modifier whose waypoint is due takes every turn and the ones after it starve; likewise `static int counter` (124) limits all of them together |
| C151 | `dynamic_trajectory.hpp` 152-165 `getRemainingWaypoints`: only leading points named "stitching_point" are discounted; the start position of the first plan (named "") is counted once a second plan has been put before it, as is any joining point behind it |
| C152 | `dynamic_waypoint.cpp` 33-60 `setCurrentPosition` appends to `modifiers_` on every call and nothing but a new plan ever removes an entry, so a target tracked with `modifyWaypoint` costs more with every update |
| C153 | `dynamic_trajectory.cpp` 763: the time fitting adds 0.1 s also for the first plan, when the vehicle is still at its start, so `tests/trajectory_test.cpp` writes the plan 0.1 s late under every instant: the first tenth of a second is missing from the table, and the last lines repeat the end |
| C156 | `dynamic_trajectory.cpp` 306, 369-376: `generateTrajectory` ignores its arguments; the computation reads the list the worker prepared for the plan before. That plan is computed again and flown from its beginning: the reference jumps back. If that list is empty, as before the first plan, `vertices[size - 1]` is out of range |
| C161 | `dynamic_waypoint.cpp` `setCurrentPosition`: when the time of the last evaluation is not positive, each axis takes three quarters of the last width and stores it, so the three axes of one update get three different widths and the flight depends on which axis is called the first. (Frames turned by other angles are not compared: the threshold of 0.02 m below which a change is ignored is applied per axis.) |
| C162 | `dynamic_trajectory.cpp` 254-255, 755-763: a plan begins at the last evaluated instant, which is 0 before the first evaluation, so the first plan begins at 0 on the caller's clock. A caller whose clock reads more than the plan lasts (say seconds since 1970) gets the last waypoint as its first reference, while the vehicle is still at the start. |
| C165 | `motion_defines.cpp` 25-34: derivatives above the snap have no name, so `vertex.cpp` 214 prints constraints of the fifth and of the sixth derivative alike, as `invalid` (`C165_refuted`). |
| C107 | `secondsToNanoseconds(nanosecondsToSeconds(n))` truncates instead of rounding: 15 ns become 14 ns, and 8121942050 ns lose one nanosecond in each of five conversions |

## 5. Scope notes

* The public member `generateTrajectory(waypoints, force)` is not among the events of the histories; a call of it while no computation is in progress is the subject of C156.
* In `Model/Concurrency` data are abstracted: conditions on data are decided by the scheduler, waypoint lists and times are represented by version counters, a modification by its name, a speed by a number. Steps are interleaved sequentially consistently; after undefined behaviour nothing is said. The destructor (its stop flag and join) is one of the calls; calls made after it are not excluded, which only adds behaviours. The destruction of the members is in `Model/PlannerDestroy` only, where no other call is in progress. The debug macros and the logging are left out.
* In `Model/PlannerFine` the evaluating calls (`evaluateTrajectory`, `getMaxTime`, `getMinTime`, `getDynamicWaypoints`) are made by one thread; each of its steps reads or writes shared data under one mutex or in one assignment. The calls of other threads are atomic except that `modifyWaypoints` may set the request flag later; the worker's phases are those of `Model/Planner`. In `Model/PlannerThreads` the worker's phases are cut as well (see there for what stays together); `Serialised` states are those that complete events, or events of the worker with belatedly used inputs, lead to. Two evaluating threads are the subject of C45, C61 and C87.
* Planner theorems about positions assume that the user hands over waypoints without pending compensations (`FreshEvent`).
* The optimiser enters the planner model through the contracts `Segmentwise` and `MeetsVertices` (`Spec/Planner.lean`), the second one for well-formed vertices only. Both, and the contract `JoinsSmoothly` of C121, are proved of the modelled optimiser (C85), for every solver, root finder and run of NLopt, over the reals.
* `Model/MavMsgs`: real arithmetic. `Affine.rotation()` (an SVD in Eigen) is a field of the transform that the theorems require to equal the linear part, as it does for rigid transforms. A half turn in `vectorFromRotationMatrix` is marked `nonfinite`: exact arithmetic divides 0 by 0, double arithmetic divides two rounding errors. The parts under `ROS2_SUPPORT` are not compiled and not modelled.
* `Model/Plotter`: one pass of the drawing thread is represented by the list of items drawn; colours come from a number given as parameter (`rand()`).
* Not modelled: `dynamic_trajectory_v2.cpp` (a template that is not compiled), the logging macros, matplotlib, the timing loops of the benchmarks. Of the tests and benchmarks `trajectory_test.cpp` (C153), `traj_evaluator.hpp` (C150), the two classes of `taylor_series_vs_exp_benchmark.cpp` (C148), `createRandomVerticesPath` (C149) `checkPath`, `checkExtrema`, `checkCost` and the computations of maxima of `test_polynomial_optimization.cpp` (C168-C170; `EIGEN_MATRIX_NEAR`, of another library, is taken to compare entry by entry, at most the tolerance apart) and `plot_results.py` (C167, without colours and layout; lines of the wrong length are errors) are modelled.
