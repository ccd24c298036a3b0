{"id": "C01", "title": "Polynomial evaluation is the k-th derivative", "statement": "Evaluating a polynomial object at time t for derivative order k returns exactly the k-th derivative at t of c0 + c1 t + ... + c_{N-1} t^{N-1}; for k >= N it returns 0; the bulk overload that fills a vector returns the same numbers; getCoefficients(k) returns the coefficients of that derivative. For N above the precomputed table size (22) the access is out of bounds.", "quantifier": "all coefficient vectors, all derivative orders, all times", "why_tests_cant": "Tests compare a few polynomials at a few times; the claim is about every coefficient vector, order and time, and about the table bound.", "anchors": ["subpackages/mav_trajectory_generation/include/mav_trajectory_generation/polynomial.h: Polynomial::evaluate, Polynomial::getCoefficients", "subpackages/mav_trajectory_generation/src/polynomial.cpp: computeBaseCoefficients"]}
{"id": "C02", "title": "Convolution is the product of polynomials", "statement": "The product operator / convolve returns a coefficient vector of length n+m-1 whose polynomial is, at every t, the product of the two argument polynomials' values.", "quantifier": "all pairs of non-empty coefficient vectors and all times", "why_tests_cant": "Index arithmetic on every pair of lengths; tests fix the lengths.", "anchors": ["subpackages/mav_trajectory_generation/src/polynomial.cpp: Polynomial::convolve", "subpackages/mav_trajectory_generation/include/mav_trajectory_generation/convolution.h: convolve"]}
{"id": "C03", "title": "Polynomial arithmetic, padding, offset and time scaling", "statement": "Sum, scalar product, appending zero coefficients, offsetting by a constant and scaling in time with factor b give polynomials whose value at every t is p(t)+q(t), a*p(t), p(t), p(t)+offset and p(b*t); the k-th derivative after scaling is b^k times the k-th derivative at b*t; shortening the coefficient vector is refused and leaves the polynomial unchanged.", "quantifier": "all polynomials, offsets, scale factors, derivative orders and times", "why_tests_cant": "Universal algebraic identities over reals.", "anchors": ["subpackages/mav_trajectory_generation/src/polynomial.cpp: getPolynomialWithAppendedCoefficients, scalePolynomialInTime, offsetPolynomial", "subpackages/mav_trajectory_generation/include/mav_trajectory_generation/polynomial.h: operator+, operator*"]}
{"id": "C04", "title": "Polynomial min/max over an interval is the true extremum", "statement": "When the root finder returns every real critical point, computeMinMax over [t_start,t_end] returns the attained global minimum and maximum of the requested derivative over the whole closed interval; the arguments reported lie in the interval; it reports failure exactly when t_start > t_end or the derivative order is not below the number of coefficients.", "quantifier": "all polynomials, intervals, derivative orders and all complete root lists", "why_tests_cant": "A maximum over a continuum cannot be checked by sampling.", "anchors": ["subpackages/mav_trajectory_generation/src/polynomial.cpp: selectMinMaxCandidatesFromRoots, selectMinMaxFromCandidates, computeMinMax, computeMinMaxCandidates"]}
{"id": "C05", "title": "Segment magnitude extremum is the true extremum", "statement": "When the root finder is complete, the maximum (and for two or more dimensions the minimum) of the Euclidean magnitude of a derivative over a segment, selected from the computed candidates, is the attained global extremum over the closed interval.", "quantifier": "all segments, derivative orders, lists of dimensions, intervals and complete root lists", "why_tests_cant": "Continuum of times and all polynomials.", "anchors": ["subpackages/mav_trajectory_generation/src/segment.cpp: computeMinMaxMagnitudeCandidateTimes, computeMinMaxMagnitudeCandidates, selectMinMaxMagnitudeFromCandidates"]}
{"id": "C06", "title": "One-dimensional minimum magnitude", "statement": "For a single dimension the reported minimum magnitude over a segment is the smallest absolute value attained. (The code only looks at critical points of the signed value, so a sign change inside the segment is missed.)", "quantifier": "all segments, one dimension, all intervals", "why_tests_cant": "The failure needs an interior zero crossing between critical points; no sampled test searches for it.", "anchors": ["subpackages/mav_trajectory_generation/src/segment.cpp: computeMinMaxMagnitudeCandidateTimes (lines 125-132)"]}
{"id": "C07", "title": "Trajectory-wide maximum velocity and acceleration", "statement": "With a complete root finder, computeMinMaxMagnitude and computeMaxVelocityAndAcceleration return the maximum over all segments and all times of the derivative's norm, attained in the reported segment at the reported time.", "quantifier": "all non-empty trajectories with non-negative segment times", "why_tests_cant": "Global claim over all times of all segments.", "anchors": ["subpackages/mav_trajectory_generation/src/trajectory.cpp: computeMinMaxMagnitude, computeMaxVelocityAndAcceleration"]}
{"id": "C08", "title": "Trajectory evaluation picks the right segment at the right local time", "statement": "For 0 <= t <= max time evaluate(t,k) equals the k-th derivative of the segment that contains t (the right-hand one at a joint, the last one at the end), at t minus the sum of the previous segment times; for t beyond the end the zero vector is returned; evaluating an empty trajectory at t <= 0 is undefined behaviour.", "quantifier": "all trajectories, all times, all derivative orders", "why_tests_cant": "Boundary behaviour at every joint of every trajectory.", "anchors": ["subpackages/mav_trajectory_generation/src/trajectory.cpp: Trajectory::evaluate"]}
{"id": "C09", "title": "Evaluated derivatives are the time derivatives of the evaluated position", "statement": "If consecutive segments join with equal derivatives up to order k+1, then at every time strictly inside the trajectory the order k+1 evaluation is the derivative of the order k evaluation with respect to time, joints included.", "quantifier": "all trajectories with matching joints, all interior times", "why_tests_cant": "Differentiability at all points, in particular across joints, is not observable by sampling.", "anchors": ["subpackages/mav_trajectory_generation/src/trajectory.cpp: Trajectory::evaluate"]}
{"id": "C10", "title": "Maximum time is the sum of the segment times under every construction history", "statement": "After any sequence of setSegments, addSegments, merge, time scaling and clear, getMaxTime equals the sum of the current segments' times, and D and N equal those of every stored segment.", "quantifier": "all operation histories", "why_tests_cant": "Invariant over unbounded histories.", "anchors": ["subpackages/mav_trajectory_generation/include/mav_trajectory_generation/trajectory.h: setSegments, addSegments, clear", "subpackages/mav_trajectory_generation/src/trajectory.cpp: addTrajectories, scaleSegmentTimes"]}
{"id": "C11", "title": "Time scaling keeps the path", "statement": "scaleSegmentTimes(s) is refused exactly for s < 1e-6 (nothing changes); otherwise every segment time and the maximum time are multiplied by s, evaluation at s*t after scaling equals evaluation at t before, and the k-th derivative is divided by s^k.", "quantifier": "all trajectories, scale factors, times, derivative orders", "why_tests_cant": "Universal reparametrisation identity.", "anchors": ["subpackages/mav_trajectory_generation/src/trajectory.cpp: scaleSegmentTimes"]}
{"id": "C12", "title": "Scaling to meet limits only slows down, keeps the path, and is honest when it reports success", "statement": "scaleSegmentTimesToMeetConstraints only multiplies all times by a common factor >= 1, keeps the path, terminates, and when it returns true the computed maximum velocity and acceleration are within 0.1% of the limits; with exact maxima one scaling pass suffices.", "quantifier": "all trajectories, positive limits", "why_tests_cant": "Loop over iterates with real-valued state.", "anchors": ["subpackages/mav_trajectory_generation/src/trajectory.cpp: scaleSegmentTimesToMeetConstraints"]}
{"id": "C13", "title": "Range sampling", "statement": "evaluateRange(t_start,t_end,dt) returns the values of the trajectory at t_start, t_start+dt, ... while within range, with their sampling times. (The code reports sampling times counted from the start of the segment that contains t_start, not from t_start, and therefore also samples past t_end; t_start equal to the end time indexes past the last segment; dt <= 0 never terminates.)", "quantifier": "all trajectories, ranges and step sizes", "why_tests_cant": "Loop with unbounded number of samples and boundary conditions.", "anchors": ["subpackages/mav_trajectory_generation/src/trajectory.cpp: evaluateRange"]}
{"id": "C14", "title": "Single-dimension extraction", "statement": "getTrajectoryWithSingleDimension(d) returns a trajectory that evaluates, at every time of the original, to the d-th coordinate. (The code drops the segment times, so the result has duration 0.) The segment-level getSegmentWithSingleDimension does keep time and values.", "quantifier": "all trajectories and dimensions", "why_tests_cant": "Needs every time and every trajectory; the repository's tests only read coefficients.", "anchors": ["subpackages/mav_trajectory_generation/src/trajectory.cpp: getTrajectoryWithSingleDimension", "subpackages/mav_trajectory_generation/src/segment.cpp: getSegmentWithSingleDimension"]}
{"id": "C15", "title": "Appending dimensions", "statement": "Appending the dimensions of a second segment or trajectory gives one whose evaluation is the concatenation of both evaluations, each reparametrised to the longer duration. (When the two have different numbers of coefficients and different durations, the code appends the unscaled polynomials.)", "quantifier": "all pairs of segments/trajectories", "why_tests_cant": "All pairs of durations and orders.", "anchors": ["subpackages/mav_trajectory_generation/src/segment.cpp: getSegmentWithAppendedDimension", "subpackages/mav_trajectory_generation/src/trajectory.cpp: getTrajectoryWithAppendedDimension"]}
{"id": "C16", "title": "Merging trajectories plays them one after another", "statement": "addTrajectories succeeds exactly when all parts have the same D and N; the merged trajectory lasts the sum of durations and for a time inside part j evaluates to part j at the time since its start.", "quantifier": "all lists of trajectories, all times", "why_tests_cant": "Unbounded lists.", "anchors": ["subpackages/mav_trajectory_generation/src/trajectory.cpp: addTrajectories"]}
{"id": "C17", "title": "Offsetting a trajectory translates positions only", "statement": "offsetTrajectory(r) is refused when r is too short; otherwise positions of the first three dimensions are shifted by r, other dimensions and all higher derivatives are unchanged at every time, and offsetting by r then -r restores the trajectory.", "quantifier": "all trajectories, offsets, times, orders", "why_tests_cant": "Universal identity.", "anchors": ["subpackages/mav_trajectory_generation/src/trajectory.cpp: offsetTrajectory", "subpackages/mav_trajectory_generation/src/segment.cpp: offsetSegment"]}
{"id": "C18", "title": "Vertices read back from a trajectory", "statement": "getVertices(k) on a K-segment trajectory returns K+1 vertices whose constraint of order j <= k is the trajectory's j-th derivative at the corresponding joint time (start, each joint, end), and no other constraints.", "quantifier": "all trajectories and orders", "why_tests_cant": "All joints and orders.", "anchors": ["subpackages/mav_trajectory_generation/src/trajectory.cpp: getVertices, getVertexAtTime, getStartVertex, getGoalVertex"]}
{"id": "C19", "title": "Vertex constraint store is a map", "statement": "After any sequence of add, remove and makeStartOrEnd, the constraint of each derivative order is the one last written and not removed since; has/get/size agree with that map; adding a value of the wrong dimension aborts; iteration is in increasing order.", "quantifier": "all operation histories", "why_tests_cant": "Refinement to an abstract map over all histories.", "anchors": ["subpackages/mav_trajectory_generation/src/vertex.cpp: addConstraint, removeConstraint, getConstraint, hasConstraint, makeStartOrEnd"]}
{"id": "C20", "title": "Vertex comparison and projection", "statement": "isEqualTol is reflexive and symmetric, holds iff both vertices constrain the same orders with coordinates within tolerance; getSubdimension keeps exactly the constraints up to the order, projected to the requested coordinates, and fails iff a coordinate does not exist.", "quantifier": "all vertices, tolerances, coordinate lists", "why_tests_cant": "Universal over maps.", "anchors": ["subpackages/mav_trajectory_generation/src/vertex.cpp: isEqualTol, getSubdimension"]}
{"id": "C21", "title": "Estimated segment times", "statement": "estimateSegmentTimes on n >= 2 vertices returns n-1 times; each equals distance/v, plus v/a when an end is constrained to (near) zero velocity; with v,a > 0 it is never below distance/v, it is positive unless the two positions coincide with no rest constraint, and it is invariant under translation and under reversing the vertex list. Fewer than 2 vertices abort.", "quantifier": "all vertex lists, speeds and accelerations", "why_tests_cant": "All lists and all reals.", "anchors": ["subpackages/mav_trajectory_generation/src/vertex.cpp: estimateSegmentTimes, estimateSegmentTimesNfabian"]}
{"id": "C22", "title": "Velocity ramp time", "statement": "computeTimeVelocityRamp is the minimum time of a rest-to-rest motion over the distance under speed limit v and acceleration limit a: no admissible motion covers the distance in less time; the estimate is continuous at the case split, monotone in distance, and the segment variant is at least 0.1 s.", "quantifier": "all distances, speeds, accelerations, all admissible motions", "why_tests_cant": "Quantifies over all motions.", "anchors": ["subpackages/mav_trajectory_generation/src/vertex.cpp: computeTimeVelocityRamp, estimateSegmentTimesVelocityRamp"]}
{"id": "C23", "title": "Optimised trajectory meets every vertex constraint", "statement": "For positive segment times, whatever values the free derivatives take, the trajectory obtained from the optimiser has at every vertex exactly the constrained value of every constrained derivative (orders up to N/2-1), on both sides of the joint.", "quantifier": "all vertex lists, positive times, free values, dimensions", "why_tests_cant": "All problem sizes and all reals.", "anchors": ["subpackages/mav_trajectory_generation/include/mav_trajectory_generation/impl/polynomial_optimization_linear_impl.h: setupFromVertices, setupConstraintReorderingMatrix, updateSegmentsFromCompactConstraints"]}
{"id": "C24", "title": "Optimised trajectory is smooth at joints", "statement": "For positive segment times and any free values, consecutive segments agree at their joint in all derivatives 0..N/2-1.", "quantifier": "all vertex lists, positive times, free values", "why_tests_cant": "All problem sizes.", "anchors": ["subpackages/mav_trajectory_generation/include/mav_trajectory_generation/impl/polynomial_optimization_linear_impl.h: setupConstraintReorderingMatrix, updateSegmentsFromCompactConstraints"]}
{"id": "C25", "title": "Endpoint mapping is invertible and correctly inverted", "statement": "For every even N and T > 0 the map from polynomial coefficients to endpoint derivatives (orders 0..N/2-1 at 0 and T) is invertible, and the block formula used by invertMappingMatrix is its inverse when the sub-block inverse is exact: endpoint derivatives of the resulting polynomial are the prescribed ones, and the polynomial is the only one of that size with those derivatives.", "quantifier": "all even N, all T > 0", "why_tests_cant": "All sizes and reals; tests check residuals for random samples.", "anchors": ["subpackages/mav_trajectory_generation/include/mav_trajectory_generation/impl/polynomial_optimization_linear_impl.h: setupMappingMatrix, invertMappingMatrix"]}
{"id": "C26", "title": "Quadratic cost matrix is the integral of the squared derivative", "statement": "For every segment, c^T Q c with the matrix of computeQuadraticCostJacobian equals twice (as scaled in the code) the integral over the segment of the squared derivative being optimised; it is symmetric and positive semidefinite.", "quantifier": "all coefficient vectors, derivative orders, durations", "why_tests_cant": "Integral identity.", "anchors": ["subpackages/mav_trajectory_generation/include/mav_trajectory_generation/impl/polynomial_optimization_linear_impl.h: computeQuadraticCostJacobian, computeCost"]}
{"id": "C27", "title": "Linear solution is optimal", "statement": "With exact linear solves, solveLinear returns free derivatives whose cost is no larger than that of any other choice of free derivatives, hence no larger than any piecewise polynomial meeting the vertex constraints with the same smoothness.", "quantifier": "all problems, all alternative free values", "why_tests_cant": "Optimality over an infinite set.", "anchors": ["subpackages/mav_trajectory_generation/include/mav_trajectory_generation/impl/polynomial_optimization_linear_impl.h: solveLinear, constructR, computeCost"]}
{"id": "C28", "title": "Setup rejects or drops what it cannot honour", "statement": "setupFromVertices aborts on unequal numbers of vertices and times or non-positive times, and silently ignores constraints of order above N/2-1; the numbers of fixed and free constraints add up to (number of vertices)*N/2.", "quantifier": "all vertex lists and times", "why_tests_cant": "All sizes.", "anchors": ["subpackages/mav_trajectory_generation/include/mav_trajectory_generation/impl/polynomial_optimization_linear_impl.h: setupFromVertices, setupConstraintReorderingMatrix, updateSegmentTimes"]}
{"id": "C29", "title": "Decision vector packing", "statement": "The optimisation vector [times, free derivatives of each dimension] built for the optimiser is decoded in the objective into the same times and the same free derivatives; cost and gradient entries refer to the same positions.", "quantifier": "all problem sizes and values", "why_tests_cant": "Index arithmetic for all sizes.", "anchors": ["subpackages/mav_trajectory_generation/include/mav_trajectory_generation/impl/polynomial_optimization_nonlinear_impl.h: optimizeTimeAndFreeConstraints, objectiveFunctionTimeAndConstraints"]}
{"id": "C30", "title": "The optimiser is only ever asked about positive segment times", "statement": "With strictly positive initial times, every point inside the bounds handed to the optimiser has all segment times positive (at least min(0.1, initial)), so the objective never aborts on a non-positive time, and the initial point lies within the bounds.", "quantifier": "all problems, all points within the bounds", "why_tests_cant": "All points the optimiser may visit.", "anchors": ["subpackages/mav_trajectory_generation/include/mav_trajectory_generation/impl/polynomial_optimization_nonlinear_impl.h: optimizeTimeAndFreeConstraints"]}
{"id": "C31", "title": "Hard bounds on free derivatives are attached to the right variables", "statement": "A magnitude limit on derivative k bounds exactly the free variables that are derivative k of some vertex. (The code counts only orders up to the optimised derivative while the variables enumerate all orders up to N/2-1, so the bounds land on other variables unless the optimised derivative is N/2-1.)", "quantifier": "all vertex lists, limits, derivative orders", "why_tests_cant": "All index layouts.", "anchors": ["subpackages/mav_trajectory_generation/include/mav_trajectory_generation/impl/polynomial_optimization_nonlinear_impl.h: setFreeEndpointDerivativeHardConstraints"]}
{"id": "C32", "title": "Soft constraint cost", "statement": "The soft-constraint cost is between 0 and the cap, does not decrease when a maximum grows, is below 1 per constraint when the limit is met, and tends to the cap when violated.", "quantifier": "all limits, maxima and weights", "why_tests_cant": "Real-valued monotonicity.", "anchors": ["subpackages/mav_trajectory_generation/include/mav_trajectory_generation/impl/polynomial_optimization_nonlinear_impl.h: evaluateMaximumMagnitudeAsSoftConstraint"]}
{"id": "C33", "title": "A modified waypoint is reached at its time", "statement": "After any sequence of position updates of a waypoint, each by at least 2 cm per changed axis and before its time, the compensation added to the trajectory at the waypoint's time is exactly current position minus planned position. (Axis changes below 2 cm are never applied, so repeated small updates drift without bound.)", "quantifier": "all sequences of updates", "why_tests_cant": "Unbounded sequences; the drift needs many updates.", "anchors": ["src/dynamic_waypoint.cpp: setCurrentPosition, trajectoryCompensation", "include/dynamic_trajectory_generator/utils/traj_modifiers.hpp: GaussianModifier::operator()"]}
{"id": "C34", "title": "Compensation is local and bounded", "statement": "A waypoint update changes the trajectory only within 3.5 sigma of the waypoint's time, never before the time of the update by more than half a sigma, never by more than the position increment, and the jump at the cut-off is at most exp(-6.125) of it.", "quantifier": "all updates, all times", "why_tests_cant": "Continuum of times.", "anchors": ["include/dynamic_trajectory_generator/utils/traj_modifiers.hpp: GaussianModifier::operator()"]}
{"id": "C35", "title": "Compensation velocity and acceleration are derivatives of the compensation", "statement": "Inside the active window the order-1 compensation is the time derivative of the order-0 compensation and the order-2 one of the order-1. (The order-2 formula lacks the -1/sigma^2 term, so the second half is false.)", "quantifier": "all modifiers, all times inside the window", "why_tests_cant": "Derivative of a real function.", "anchors": ["include/dynamic_trajectory_generator/utils/traj_modifiers.hpp: GaussianModifier::operator()"]}
{"id": "C36", "title": "Updates after the waypoint was passed have no effect; update exactly at its time is undefined", "statement": "A waypoint update issued after its time contributes 0 at all times and orders; an update issued exactly at its time has sigma 0 and evaluates 0/0 at that instant.", "quantifier": "all updates, all times", "why_tests_cant": "Boundary value of a real parameter.", "anchors": ["src/dynamic_waypoint.cpp: setCurrentPosition", "include/dynamic_trajectory_generator/utils/traj_modifiers.hpp: GaussianModifier::operator()"]}
{"id": "C37", "title": "All axes of a waypoint update move together", "statement": "The three axes of one update use the same time profile. (When no evaluation time is known yet, the code narrows sigma once per axis, so the axes get different profiles.)", "quantifier": "all updates", "why_tests_cant": "Depends on history of updates.", "anchors": ["src/dynamic_waypoint.cpp: setCurrentPosition (lines 38-56)"]}
{"id": "C38", "title": "Waypoint position bookkeeping", "statement": "At every point of every history of a waypoint's operations the current position equals the position constraint of its vertex; without pending compensation the original position equals the current one; re-timing moves every compensation to the new time.", "quantifier": "all operation histories on a waypoint", "why_tests_cant": "Invariant over unbounded histories.", "anchors": ["include/dynamic_trajectory_generator/dynamic_waypoint.hpp: setTime, resetWaypoint, resetWaypointWithCurrentPosition, setConstraint", "src/dynamic_waypoint.cpp: setCurrentPosition"]}
{"id": "C39", "title": "Copying a waypoint preserves its behaviour", "statement": "A copied waypoint behaves as the original under all further operations. (The copy constructor resets the sigma memory, the assignment does not.)", "quantifier": "all waypoints and further histories", "why_tests_cant": "Behavioural equivalence over histories.", "anchors": ["src/dynamic_waypoint.cpp: DynamicWaypoint(const DynamicWaypoint&)"]}
{"id": "C40", "title": "What evaluateTrajectory returns", "statement": "When no new plan is waiting to be taken over, evaluateTrajectory(t) returns for orders 0,1,2 the current plan's derivative at the instant t - start + offset clamped to the plan's duration, plus the compensations of all named waypoints at the same instant on the global clock (only when that global instant is positive); the plotting variant returns the same values and changes no state.", "quantifier": "all planner states and times", "why_tests_cant": "All states and times.", "anchors": ["src/dynamic_trajectory.cpp: evaluateTrajectory, getReferences, evaluateModifiedTrajectory"]}
{"id": "C41", "title": "Speed setting survives replanning", "statement": "getSpeed returns the value of the latest setSpeed (0 if none), in every interleaving with planning and take-over of new plans.", "quantifier": "all histories and interleavings", "why_tests_cant": "Interleavings.", "anchors": ["src/dynamic_trajectory.cpp: setSpeed, getSpeed, swapTrajectory, todoThreadLoop"]}
{"id": "C42", "title": "A plan always has at least two vertices", "statement": "Whatever the user requests and whatever the state, every computation that is started has at least two vertices, so the 'Not enough waypoints' exception is never thrown.", "quantifier": "all histories", "why_tests_cant": "All histories.", "anchors": ["src/dynamic_trajectory.cpp: todoThreadLoop, computeTrajectory, stitchActualTrajectoryWithNewWaypoints, appendDronePositionWaypoint"]}
{"id": "C43", "title": "At most one computation, and its input is not touched while it runs", "statement": "In every interleaving of user threads, worker and computation at most one trajectory computation runs, and the waypoint list being planned and its start time are not changed by anyone else until the result is taken over.", "quantifier": "all interleavings", "why_tests_cant": "Schedules.", "anchors": ["src/dynamic_trajectory.cpp: todoThreadLoop, generateTrajectory, computeTrajectory, checkTrajectoryGenerated"]}
{"id": "C44", "title": "No deadlock", "statement": "In every interleaving of any number of user threads, the worker and the computation, no set of threads waits for each other's mutexes: whenever some thread is inside a call and not waiting for a first trajectory, some thread can proceed.", "quantifier": "all interleavings, any number of threads", "why_tests_cant": "Schedules.", "anchors": ["src/dynamic_trajectory.cpp: all functions taking todo_mutex, dynamic_waypoints_mutex_, parameters_mutex_, future_mutex_, vehicle_position_mutex_, time_measure_mutex_"]}
{"id": "C45", "title": "The computed trajectory is taken over once", "statement": "Each computed trajectory is taken over exactly once. (With two threads calling evaluateTrajectory/getDynamicWaypoints concurrently, both can see it ready and both call get() on the future, which is undefined behaviour; with one consumer thread it cannot happen.)", "quantifier": "all interleavings", "why_tests_cant": "Schedules.", "anchors": ["src/dynamic_trajectory.cpp: checkTrajectoryGenerated, swapTrajectory"]}
{"id": "C46", "title": "No request is lost", "statement": "Every waypoint passed to setWaypoints/appendWaypoint is part of a later plan unless replaced by a later setWaypoints. (A request made while a plan is being computed is forgotten when that plan is taken over, and modifyWaypoint(...,false) cancels a pending request.)", "quantifier": "all histories and interleavings", "why_tests_cant": "Schedules and histories.", "anchors": ["src/dynamic_trajectory.cpp: appendWaypoint, modifyWaypoint, checkTrajectoryGenerated (line 679), todoThreadLoop (line 277)"]}
{"id": "C47", "title": "What the next plan contains", "statement": "When a plan starts, its user waypoints are: the waypoints of the latest setWaypoints if any is pending, else those of the current plan not yet passed, at their current positions; followed by the appended ones in order; with all pending position updates applied to equally named waypoints, the last update per name winning. All three request queues are empty afterwards.", "quantifier": "all histories", "why_tests_cant": "Refinement over all histories.", "anchors": ["src/dynamic_trajectory.cpp: generateWaypointsForTheNextTrajectory, filterPassedWaypoints, resetWaypointThroughDeque, modifyWaypoint"]}
{"id": "C48", "title": "Clearing the route", "statement": "setWaypoints with an empty list replaces the route by nothing. (The code cannot distinguish it from no request and keeps the old route.)", "quantifier": "all states", "why_tests_cant": "Depends on state reached by history.", "anchors": ["src/dynamic_trajectory.cpp: setWaypoints, generateWaypointsForTheNextTrajectory"]}
{"id": "C49", "title": "Modifying touches only the named waypoint", "statement": "modifyWaypoint(name, ...) changes only waypoints with that name; waypoints without a name are never changed; an empty or unknown name changes nothing.", "quantifier": "all states, names, positions", "why_tests_cant": "All states.", "anchors": ["src/dynamic_trajectory.cpp: applyWaypointModification, resetWaypointThroughDeque"]}
{"id": "C50", "title": "A position update of a waypoint that is not yet planned is honoured", "statement": "A pending position update for a waypoint that is still queued is applied when that waypoint is planned. (Inside the security zone the worker consumes the update on the current plan and forgets it.)", "quantifier": "all histories", "why_tests_cant": "Histories and timing.", "anchors": ["src/dynamic_trajectory.cpp: todoThreadLoop (lines 280-289)"]}
{"id": "C51", "title": "Passed waypoints are not flown again", "statement": "A waypoint whose time is before the last evaluated time is not part of the next plan unless the user sets or appends it again.", "quantifier": "all histories", "why_tests_cant": "Histories.", "anchors": ["src/dynamic_trajectory.cpp: filterPassedWaypoints"]}
{"id": "C52", "title": "Upcoming waypoints are not skipped", "statement": "Replanning keeps every named waypoint of the current plan that lies in the future. (Stitching drops those closer than 20 times the measured computation time, while replanning is only blocked within 10 times.)", "quantifier": "all states", "why_tests_cant": "Depends on relation of measured times.", "anchors": ["src/dynamic_trajectory.cpp: stitchActualTrajectoryWithNewWaypoints, checkInSecurityZone"]}
{"id": "C53", "title": "A replanned trajectory starts where the old one is", "statement": "When a plan is stitched, its first vertex carries position, velocity and acceleration of the current references at the last evaluated instant, so the new trajectory starts there with exactly these values.", "quantifier": "all states and problems", "why_tests_cant": "All states; combines planning and optimisation.", "anchors": ["src/dynamic_trajectory.cpp: stitchActualTrajectoryWithNewWaypoints, computeTrajectory"]}
{"id": "C54", "title": "Waypoint times and indices after planning", "statement": "After a plan is taken over the waypoints have indices 0..n-1, strictly increasing times, the first equal to getMinTime and the last to getMaxTime, and the unmodified trajectory is at each waypoint's planned position at its time.", "quantifier": "all histories", "why_tests_cant": "All histories and problems.", "anchors": ["src/dynamic_trajectory.cpp: computeTrajectory, getCummulativeTime, swapTrajectory, swapDynamicWaypoints"]}
{"id": "C55", "title": "The trajectory ends at rest", "statement": "At getMaxTime of a plan velocity and acceleration of the unmodified trajectory are zero.", "quantifier": "all plans", "why_tests_cant": "All plans.", "anchors": ["src/dynamic_trajectory.cpp: extractVerticesFromWaypoints, computeTrajectory"]}
{"id": "C56", "title": "Time fitting at take-over", "statement": "On take-over the new offset makes the next evaluation at time t read the new plan at (t - last evaluated time) + m + 0.1 where m is a multiple of 0.1 in [0, 3 x computation time) minimising the distance to the reference position over that grid (the latest one in case of ties).", "quantifier": "all states, trajectories and positions", "why_tests_cant": "Argmin over an unbounded grid.", "anchors": ["src/dynamic_trajectory.cpp: timeFittingWithVehiclePosition, swapTrajectory"]}
{"id": "C57", "title": "Last evaluated time does not go backwards", "statement": "The time used to decide which waypoints are passed never decreases while evaluation times increase. (Take-over restores the value it had when planning started, and the local time of the old plan's clock.)", "quantifier": "all histories", "why_tests_cant": "Histories.", "anchors": ["src/dynamic_trajectory.cpp: swapTrajectory (line 404), evaluateTrajectory"]}
{"id": "C58", "title": "No replanning just before a waypoint", "statement": "No plan is started while the next named waypoint is within the security time (10 x computation time) after the last evaluated time; in every other state with a pending request and no computation a plan is started.", "quantifier": "all states", "why_tests_cant": "All states.", "anchors": ["src/dynamic_trajectory.cpp: checkInSecurityZone, checkIfTrajectoryCanBeGenerated, todoThreadLoop"]}
{"id": "C59", "title": "Next and remaining waypoints", "statement": "getNextTrajectoryWaypoints returns exactly the waypoints later than the last evaluated time, in order; getRemainingWaypoints counts them without the leading stitching points; for evaluation after the end both are empty.", "quantifier": "all states", "why_tests_cant": "All states.", "anchors": ["include/dynamic_trajectory_generator/dynamic_trajectory.hpp: getNextTrajectoryWaypoints, getRemainingWaypoints"]}
{"id": "C60", "title": "Regenerated flag", "statement": "getWasTrajectoryRegenerated returns true iff a plan was taken over or a waypoint modified since the previous call. (The read and the reset are two steps, so a change between them is lost.)", "quantifier": "all histories and interleavings", "why_tests_cant": "Schedules.", "anchors": ["src/dynamic_trajectory.cpp: getWasTrajectoryRegenerated, swapTrajectory, applyWaypointModification"]}
{"id": "C61", "title": "Evaluation before a plan exists blocks, and never uses a missing plan", "statement": "Until a first plan was computed evaluateTrajectory, getMaxTime, getMinTime and getDynamicWaypoints do not return, and no call ever dereferences a missing trajectory.", "quantifier": "all histories and interleavings with one consumer", "why_tests_cant": "Schedules.", "anchors": ["src/dynamic_trajectory.cpp: checkTrajectoryGenerated, getMaxTime, getMinTime"]}
{"id": "C62", "title": "Cumulative time", "statement": "The time assigned to waypoint i is the sum of the first i segment durations; an index below 0 or above the number of segments raises out_of_range.", "quantifier": "all segment lists and indices", "why_tests_cant": "All lists.", "anchors": ["src/dynamic_trajectory.cpp: getCummulativeTime"]}
{"id": "C63", "title": "modifyWaypoints is atomic", "statement": "A batch of updates is seen by planning entirely or not at all. (Each update takes the lock separately.)", "quantifier": "all interleavings", "why_tests_cant": "Schedules.", "anchors": ["src/dynamic_trajectory.cpp: modifyWaypoints"]}
{"id": "C64", "title": "Saved trajectories read back", "statement": "Writing segments to YAML (node or file) and reading them gives the same polynomials and durations rounded down to nanoseconds, exactly the same segments when the durations are whole nanoseconds; through a node an empty list or a zero-dimensional segment does not read back; the file reader only produces segments with the declared number of coefficients; a file that cannot be read is reported for segments, but aborts the process for trajectories.", "quantifier": "all segment lists", "why_tests_cant": "All values.", "anchors": ["subpackages/mav_trajectory_generation/src/io.cpp: segmentsToFile, segmentsFromFile, segmentToYaml, segmentFromYaml"]}
{"id": "C65", "title": "Sampling a whole trajectory", "statement": "Sampling yields time-stamped states whose position, velocity, ... are the trajectory's derivatives at the sample time; requests outside the trajectory or with fewer than 3 dimensions are refused.", "quantifier": "all trajectories, ranges and intervals", "why_tests_cant": "All ranges.", "anchors": ["subpackages/mav_trajectory_generation/src/trajectory_sampling.cpp: sampleTrajectoryInRange, sampleTrajectoryAtTime, sampleFlatStateAtTime"]}
{"id": "C66", "title": "Derivative names", "statement": "positionDerivativeToString / ToInt and the orientation pair are inverse on all valid orders and names, and reject all others.", "quantifier": "all orders and strings", "why_tests_cant": "All strings.", "anchors": ["subpackages/mav_trajectory_generation/src/motion_defines.cpp"]}
{"id": "C67", "title": "Statistics accumulator", "statement": "After any sequence of samples the total count, sum and mean are those of all samples, the rolling mean and variance those of the last 50, min is the minimum; max is the maximum. (max starts at the smallest positive double, so it is wrong when all samples are non-positive.)", "quantifier": "all sample sequences", "why_tests_cant": "Unbounded sequences.", "anchors": ["subpackages/mav_trajectory_generation/include/mav_trajectory_generation/timing.h: Accumulator"]}
{"id": "C68", "title": "Timer registry", "statement": "GetHandle returns the same handle for the same tag and different handles for different tags over any history; GetTag inverts it. (Reset forgets tags but keeps the statistics list.)", "quantifier": "all histories", "why_tests_cant": "Histories.", "anchors": ["subpackages/mav_trajectory_generation/src/timing.cpp: Timing::GetHandle, GetTag, Reset"]}
{"id": "C69", "title": "Yaw and quaternion conversions", "statement": "quaternionFromYaw(y) is a unit quaternion rotating about z by y, and yawFromQuaternion returns y for y in (-pi, pi].", "quantifier": "all angles", "why_tests_cant": "All reals.", "anchors": ["subpackages/mav_trajectory_generation/include/mav_msgs/common.hpp: quaternionFromYaw, yawFromQuaternion"]}
{"id": "C70", "title": "Rotation helpers", "statement": "skewMatrixFromVector and vectorFromSkewMatrix are inverse and the matrix acts as the cross product; matrixFromRotationVector returns a rotation; isRotationMatrix accepts exactly (near) rotation matrices. (Its determinant test is one-sided, so reflections such as -I are accepted.)", "quantifier": "all vectors and matrices", "why_tests_cant": "All reals.", "anchors": ["subpackages/mav_trajectory_generation/include/mav_msgs/common.hpp: skewMatrixFromVector, vectorFromSkewMatrix, isRotationMatrix, matrixFromRotationVector"]}
{"id": "C71", "title": "Quadratic solver and synthetic division of the root finder", "statement": "For every quadratic with a != 0 the two returned complex numbers are its roots with multiplicity; quadratic synthetic division returns quotient and remainder of division by x^2+ux+v; the wrapper returns no roots for constant polynomials and strips trailing and leading zeros correctly.", "quantifier": "all coefficients", "why_tests_cant": "All reals.", "anchors": ["subpackages/mav_trajectory_generation/src/rpoly/rpoly_ak1.cpp: Quad_ak1, QuadSD_ak1, findLastNonZeroCoeff, findRootsJenkinsTraub"]}
{"id": "C72", "title": "An evaluation at a waypoint's time returns the waypoint's position", "statement": "After a trajectory was generated, evaluating it at the time reported for a waypoint (compensated by the time offset) returns that waypoint's current position, also after any number of position updates applied to the running trajectory. (Fails when compensations of neighbouring updated waypoints are still active at that time, because all active compensations are summed.)", "quantifier": "all histories of calls, worker steps and computations; all waypoints", "why_tests_cant": "Depends on the whole history of updates and on the overlap of the compensations of different waypoints.", "anchors": ["src/dynamic_trajectory.cpp: evaluateModifiedTrajectory, applyWaypointModification", "include/dynamic_trajectory_generator/dynamic_waypoint.hpp: getCurrentPosition"]}
{"id": "C73", "title": "Waypoints left out as passed have been reached", "statement": "Replanning leaves a waypoint out as already passed only if the flown reference has reached it, i.e. its time is not after the last evaluated time plus the time offset in force. (Fails when the offset is negative: the decisions compare waypoint times with the evaluated time and ignore the offset.)", "quantifier": "all histories of calls, worker steps and computations; all waypoints of the current plan", "why_tests_cant": "Depends on the offset chosen by every earlier take-over and on the evaluation schedule.", "anchors": ["src/dynamic_trajectory.cpp: generateWaypointsForTheNextTrajectory, checkInSecurityZone, evaluateTrajectory"]}
{"id": "C74", "title": "An optimisation object can be used again", "statement": "Whatever problems an optimisation object was used for before, setting it up with an acceptable new problem and solving it succeeds. (Fails when an earlier problem left derivatives free and the new one prescribes all of them: the old free values are still stored and solveLinear concatenates vectors whose sizes do not fit.)", "quantifier": "all histories of the object, all acceptable problems", "why_tests_cant": "Depends on the whole history of earlier set-ups and solutions.", "anchors": ["subpackages/mav_trajectory_generation/include/mav_trajectory_generation/impl/polynomial_optimization_linear_impl.h: setupFromVertices, setupConstraintReorderingMatrix, solveLinear, updateSegmentsFromCompactConstraints"]}
{"id": "C75", "title": "Maximum magnitude of a solved trajectory", "statement": "computeMaximumOfMagnitude returns the largest magnitude the chosen derivative of the returned trajectory takes over all segments and dimensions together, at the segment and time it reports, given a root finder that finds all real roots; the list of candidates contains the maximum, and a derivative order outside the supported range is refused.", "quantifier": "all histories of the optimisation object, all derivative orders, all evaluation times", "why_tests_cant": "An upper bound over a continuum of evaluation times for every trajectory.", "anchors": ["subpackages/mav_trajectory_generation/include/mav_trajectory_generation/impl/polynomial_optimization_linear_impl.h: computeSegmentMaximumMagnitudeCandidates, computeMaximumOfMagnitude"]}
{"id": "C76", "title": "The matrices handed out by the optimisation object are consistent", "statement": "For every problem held, the matrices returned by getA and getAInverse are inverse to each other, every row of the matrix returned by getM has exactly one nonzero entry, which is one, and the matrix returned by getMpinv is a left inverse of it.", "quantifier": "all histories of the optimisation object, all matrix entries", "why_tests_cant": "Sizes depend on the number of segments and constraints.", "anchors": ["subpackages/mav_trajectory_generation/include/mav_trajectory_generation/impl/polynomial_optimization_linear_impl.h: getA, getAInverse, getM, getMpinv"]}
{"id": "C77", "title": "The linear solution depends on the problem only", "statement": "Two optimisation objects that hold the same problem (vertices, segment times, derivative to optimise) return the same trajectory after solveLinear, whatever was set up, solved or changed on either of them before; the same holds after setFreeConstraints with equal values.", "quantifier": "all pairs of histories of optimisation objects that end with the same problem", "why_tests_cant": "Quantifies over pairs of arbitrary histories.", "anchors": ["subpackages/mav_trajectory_generation/include/mav_trajectory_generation/impl/polynomial_optimization_linear_impl.h: setupFromVertices, updateSegmentTimes, setFreeConstraints, solveLinear", "subpackages/mav_trajectory_generation/include/mav_trajectory_generation/polynomial_optimization_linear.h: getTrajectory"]}
{"id": "C78", "title": "After an optimisation the trajectory meets the vertex constraints", "statement": "After every call of optimize that returns, whatever NLopt did, the trajectory returned by getTrajectory meets all constraints of the vertices. (Fails for the time-only methods when NLopt throws before evaluating anything, e.g. because an initial segment time is below the lower bound: the object then returns the trajectory of zeros it was set up with.)", "quantifier": "all histories of the object, all methods, all runs of NLopt", "why_tests_cant": "Quantifies over every behaviour of an external optimiser.", "anchors": ["subpackages/mav_trajectory_generation/include/mav_trajectory_generation/impl/polynomial_optimization_nonlinear_impl.h: optimize, optimizeTime, optimizeTimeAndFreeConstraints, optimizeTimeMellingerOuterLoop"]}
{"id": "C79", "title": "The optimisation information describes the trajectory", "statement": "After optimize with a gradient-free method in which the objective was evaluated at least once, the information returned by getOptimizationInfo belongs to the trajectory returned by getTrajectory: the trajectory cost is the integral of the squared derivative, the time and soft-constraint costs and the recorded maxima are those of this trajectory, the number of iterations is the number of objective evaluations, and the stopping reason is NLopt's result.", "quantifier": "all histories of the object, all runs of NLopt", "why_tests_cant": "Quantifies over every sequence of callback invocations.", "anchors": ["subpackages/mav_trajectory_generation/include/mav_trajectory_generation/impl/polynomial_optimization_nonlinear_impl.h: objectiveFunctionTime, objectiveFunctionTimeAndConstraints, optimize"]}
{"id": "C80", "title": "The trajectory returned is the best one evaluated", "statement": "After optimize with a gradient-free method the cost of the trajectory returned is not above the cost of any point at which NLopt evaluated the objective. (Fails: the point NLopt returns is discarded and the object keeps the trajectory of the point evaluated last.)", "quantifier": "all histories of the object, all runs of NLopt", "why_tests_cant": "Depends on the order of evaluations chosen by the optimiser.", "anchors": ["subpackages/mav_trajectory_generation/include/mav_trajectory_generation/impl/polynomial_optimization_nonlinear_impl.h: optimizeTime, optimizeTimeAndFreeConstraints"]}
{"id": "C81", "title": "A magnitude constraint is evaluated at the point it is asked for", "statement": "When NLopt asks for the value of a maximum magnitude constraint at a point, the answer is the largest magnitude on the trajectory of that point minus the limit. (Fails: the point is ignored and the trajectory now held is used, so the answer is right only if the objective was evaluated at the same point just before.)", "quantifier": "all histories of the object, all points", "why_tests_cant": "Quantifies over every order of callback invocations.", "anchors": ["subpackages/mav_trajectory_generation/include/mav_trajectory_generation/impl/polynomial_optimization_nonlinear_impl.h: evaluateMaximumMagnitudeConstraint"]}
{"id": "C82", "title": "Magnitude limits stay constraints of the optimisation", "statement": "Without soft constraints, a limit that addMaximumMagnitudeConstraint reports as added is a constraint of every later NLopt run. (Fails across set-ups: setupFromVertices creates a new NLopt object without constraints while the limit stays stored; before the first set-up the call uses a null pointer.)", "quantifier": "all histories of the object", "why_tests_cant": "Depends on the order of arbitrarily many calls.", "anchors": ["subpackages/mav_trajectory_generation/include/mav_trajectory_generation/impl/polynomial_optimization_nonlinear_impl.h: setupFromVertices, addMaximumMagnitudeConstraint"]}
{"id": "C83", "title": "The Mellinger gradient is the difference quotient of the linear solutions", "statement": "With the Mellinger method the objective returns the cost of the linear solution for the given segment times and leaves the object with that solution; entry i of the gradient is (cost with segment i longer by the increment and the others shorter by an equal share - cost) / increment; with one segment the gradient is zero; the perturbed times have the same sum unless one is cut off at the lower bound; an algorithm that asks for no gradient aborts.", "quantifier": "all histories of the object, all time vectors within the bounds", "why_tests_cant": "Quantifies over all histories and real-valued time vectors.", "anchors": ["subpackages/mav_trajectory_generation/include/mav_trajectory_generation/impl/polynomial_optimization_nonlinear_impl.h: objectiveFunctionTimeMellingerOuterLoop, getCostAndGradientMellinger"]}
{"id": "C84", "title": "The Mellinger method ends with one common stretch of the times", "statement": "After the optimisation the Mellinger method multiplies all segment times by one factor that is at least one, and leaves the trajectory unchanged if the velocity and acceleration limits are respected; without both limits the factor is not finite.", "quantifier": "all histories of the object, all runs of NLopt, all limits", "why_tests_cant": "Quantifies over every behaviour of an external optimiser.", "anchors": ["subpackages/mav_trajectory_generation/include/mav_trajectory_generation/impl/polynomial_optimization_nonlinear_impl.h: scaleSegmentTimesWithViolation, optimizeTimeMellingerOuterLoop"]}
{"id": "C85", "title": "What the planner gets from its optimiser", "statement": "Every trajectory the planner's optimisation returns has one segment with a positive time between consecutive vertices, consistent bookkeeping, and at the time of each vertex the derivatives the vertex prescribes, whatever the linear solver, the root finder and NLopt do. For at least two vertices in space with positions, a positive speed and estimated times of at least 2^-52 s the optimisation succeeds, with segment times not below the smaller of 0.1 s and the estimate; two consecutive vertices at the same place, neither at rest, abort the process.", "quantifier": "all vertex lists, speeds, solvers, root finders and runs of NLopt; linear and nonlinear optimisation", "why_tests_cant": "Quantifies over every behaviour of three external components and all routes.", "anchors": ["src/dynamic_trajectory.cpp: DynamicTrajectory::computeTrajectory", "subpackages/mav_trajectory_generation/include/mav_trajectory_generation/impl/polynomial_optimization_nonlinear_impl.h: optimize"]}
{"id": "C86", "title": "A timer records exactly its running times", "statement": "A timer started at t0 and stopped at t1 adds exactly one duration t1-t0 to the statistics of its tag; the destructor adds one iff the timer is running. Stop does not check that the timer runs: stopped twice it records two durations from the same start, and never started it records the time since the epoch. MiniTimer returns the time since construction, or zero if the clock was set back.", "quantifier": "all sequences of calls and clock readings", "why_tests_cant": "Quantifies over all clock readings, including clocks that go back.", "anchors": ["subpackages/mav_trajectory_generation/src/timing.cpp: Timer::Timer, Start, Stop, ~Timer", "subpackages/mav_trajectory_generation/include/mav_trajectory_generation/timing.h: MiniTimer"]}
{"id": "C87", "title": "No data races", "statement": "No two threads (any number of user threads, the worker, the computation) access the same non-atomic member of the planner at the same time with one of them writing. (Fails for five unprotected reads: the worker reads the number of requested modifications, the last evaluation time and the trajectory pointer, evaluating threads read the trajectory pointer and the time offset. Everything else is free of races, and with one evaluating thread the last two are harmless.)", "quantifier": "all interleavings, any number of threads", "why_tests_cant": "Quantifies over every interleaving; a race shows in a test only by chance.", "anchors": ["src/dynamic_trajectory.cpp: todoThreadLoop, checkInSecurityZone, checkTrajectoryGenerated, evaluateTrajectory, swapTrajectory", "include/dynamic_trajectory_generator/dynamic_trajectory.hpp", "include/dynamic_trajectory_generator/thread_safe_trajectory.hpp"]}
{"id": "C88", "title": "Euler angles of a quaternion", "statement": "getEulerAnglesFromQuaternion of a unit quaternion returns roll and yaw in (-pi, pi] and pitch in [-pi/2, pi/2]; away from pitch +-pi/2 turning by roll about x, pitch about y and yaw about z is the rotation of the quaternion; conversely the quaternion built from the three angles gives them back, and the yaw agrees with yawFromQuaternion.", "quantifier": "all unit quaternions, all angles", "why_tests_cant": "All reals.", "anchors": ["subpackages/mav_trajectory_generation/include/mav_msgs/common.hpp: getEulerAnglesFromQuaternion"]}
{"id": "C89", "title": "Rotation vectors and rotation matrices", "statement": "vectorFromRotationMatrix inverts matrixFromRotationVector for vectors of length in [1e-6, pi), and returns zero for shorter ones; for every rotation matrix that is not a half turn it returns a vector shorter than pi whose matrix is the given one, up to 2e-6 for nearly the identity; a half turn gives a non-finite result; a matrix that is not a rotation is refused.", "quantifier": "all vectors, all rotation matrices", "why_tests_cant": "All reals; needs Euler's rotation theorem.", "anchors": ["subpackages/mav_trajectory_generation/include/mav_msgs/common.hpp: vectorFromRotationMatrix, matrixFromRotationVector"]}
{"id": "C90", "title": "Angular velocity and acceleration from rotation vectors", "statement": "When the rotation vector of a frame moves along a differentiable curve, omegaFromRotationVector returns the angular velocity of the frame exactly if the rotation vector is at least 1e-3 long, and within 6e-4 of the speed of the vector otherwise; omegaDotFromRotationVector returns the time derivative of that angular velocity.", "quantifier": "all curves of rotation vectors, all times", "why_tests_cant": "Quantifies over all differentiable curves.", "anchors": ["subpackages/mav_trajectory_generation/include/mav_msgs/common.hpp: omegaFromRotationVector, omegaDotFromRotationVector"]}
{"id": "C91", "title": "Rigid transforms of trajectory points", "statement": "Applying a rigid transform to a trajectory point moves the position, turns all derivatives and the orientation, and keeps time stamps and actuation; it preserves distances, composes, is undone by the inverse transform, and maps a trajectory whose fields are derivatives of one another to one with the same property.", "quantifier": "all rigid transforms, all trajectory points with unit orientation, all differentiable trajectories", "why_tests_cant": "Quantifies over all transforms and trajectories.", "anchors": ["subpackages/mav_trajectory_generation/include/mav_msgs/eigen_mav_msgs.hpp: operator*(Eigen::Affine3d, EigenTrajectoryPoint)"]}
{"id": "C92", "title": "Odometry: velocity in the world frame", "statement": "The world velocity set in an odometry message is read back exactly; the body speed equals the world speed; setting the current world velocity changes nothing; the other fields keep their values.", "quantifier": "all odometry messages with unit orientation, all velocities", "why_tests_cant": "All reals.", "anchors": ["subpackages/mav_trajectory_generation/include/mav_msgs/eigen_mav_msgs.hpp: EigenOdometry::getVelocityWorld, setVelocityWorld"]}
{"id": "C93", "title": "Time stamps", "statement": "secondsToNanoseconds cuts towards zero: the result is off by less than a nanosecond and keeps the order; nanosecondsToSeconds is inverted exactly (in exact arithmetic); times outside the 64 bit range are undefined behaviour.", "quantifier": "all times", "why_tests_cant": "All reals and all 64 bit integers.", "anchors": ["subpackages/mav_trajectory_generation/include/mav_msgs/common.hpp: nanosecondsToSeconds, secondsToNanoseconds"]}
{"id": "C94", "title": "Rotor speeds and gravity", "statement": "The squared rotor speeds returned produce the torque of Euler's equation and the thrust m|a| whenever the matrix given is a right inverse of the allocation matrix; the gravity model decreases with height, is symmetric in the latitude and at sea level lies between its values at the equator and the poles.", "quantifier": "all allocation matrices, inertias and motions; all heights and latitudes", "why_tests_cant": "All reals.", "anchors": ["subpackages/mav_trajectory_generation/include/mav_msgs/common.hpp: getSquaredRotorSpeedsFromAllocationAndState, MagnitudeOfGravity"]}
{"id": "C95", "title": "Table of sampled states", "statement": "The text table of a trajectory has one row per 10 ms before its end; each row holds time, position, velocity, acceleration, jerk, snap, orientation, angular velocity and angular acceleration of the trajectory at that time in fixed columns, and the last column lists the end times of the segments; trajectories with fewer than three dimensions are refused; a trajectory with more segments than rows makes the program write outside the table.", "quantifier": "all trajectories with continuous derivatives up to snap", "why_tests_cant": "All trajectories and durations.", "anchors": ["subpackages/mav_trajectory_generation/src/io.cpp: sampledTrajectoryStatesToFile"]}
{"id": "C96", "title": "The root finder's answer", "statement": "For a polynomial of positive degree the root finder ends and returns at most as many roots as the degree, in conjugate pairs; the roots are exact, with multiplicity, when what is left after removing zeros at the origin has degree at most two; otherwise every root or pair is split off by a division with remainder after passing a test that bounds the value of the polynomial at one of the roots split off by a multiple of the machine precision; failure is reported exactly when no root at all was found, and then the caller's vector is left as it was.", "quantifier": "all real polynomials of degree at most 100", "why_tests_cant": "All real coefficient lists; termination of unbounded loops.", "anchors": ["subpackages/mav_trajectory_generation/src/rpoly/rpoly_ak1.cpp: findRootsJenkinsTraub, rpoly_ak1, Fxshfr_ak1, RealIT_ak1, QuadIT_ak1"]}
{"id": "C97", "title": "What plotting a trajectory records", "statement": "plotTraj leaves the planner's plan as it is and records a line through the positions evaluateTrajectory returns every 0.1 s from the start of the plan, and the current positions of the waypoints; if a new plan waits to be taken over, times come from the old and positions from the new plan; if the background computation has failed, the call is left by an exception with the plotter's mutex held and every later call waits for ever.", "quantifier": "all reachable planner states, all states of the plotter", "why_tests_cant": "All plans and all moments at which a new plan can be ready.", "anchors": ["include/dynamic_trajectory_generator/utils/plotting_utils.hpp: TrajectoryPlotter::plotTraj"]}
{"id": "C98", "title": "Which plots are kept", "statement": "After any sequence of plotTraj and setUAVposition calls the plotter holds the first line and the last three curves with their waypoints (all of them up to three), the vehicle is where it was reported last, and all reported references are kept in order.", "quantifier": "all histories of calls", "why_tests_cant": "Histories of every length.", "anchors": ["include/dynamic_trajectory_generator/utils/plotting_utils.hpp: TrajectoryPlotter::plotTraj, setUAVposition"]}
{"id": "C99", "title": "The plot on the screen", "statement": "The screen always shows a complete state of the data and never goes back; once all calls have returned and the drawing thread has nothing to do, it shows the newest data; the drawing thread runs from construction until the destructor, which returns.", "quantifier": "all interleavings of user calls, constructor, destructor and drawing thread", "why_tests_cant": "All schedules.", "anchors": ["include/dynamic_trajectory_generator/utils/plotting_utils.hpp: TrajectoryPlotter::TrajectoryPlotter, ~TrajectoryPlotter, plot, update_plot_, ended_"]}
{"id": "C100", "title": "Trajectory handles shared by threads", "statement": "Any number of threads may copy, assign, compare, evaluate and destroy thread-safe trajectory handles: no two threads access a handle at the same time while one changes it, no call waits for ever, a call never sees a handle change under it, and everything happens as if the calls were made one after the other in an order that respects each thread; a handle that was never assigned must not be evaluated.", "quantifier": "all numbers of threads and handles, all lists of calls, all schedules", "why_tests_cant": "All interleavings.", "anchors": ["include/dynamic_trajectory_generator/thread_safe_trajectory.hpp: ThreadSafeTrajectory"]}
{"id": "C101", "title": "Candidates for extrema by sampling", "statement": "Sampling a segment for candidates of the maximum magnitude returns strictly increasing times from the start to the end of the interval: start, end and the samples at which the magnitude turns and the next derivative is shorter than 1/100; for every interval and step some candidate is close to the maximum; the call ends.", "quantifier": "all segments, derivatives, intervals and steps", "why_tests_cant": "All segments and steps.", "anchors": ["subpackages/mav_trajectory_generation/include/mav_trajectory_generation/impl/polynomial_optimization_linear_impl.h: computeSegmentMaximumMagnitudeCandidatesBySampling"]}
{"id": "C102", "title": "Maximum and cost by sampling", "statement": "The sampled maximum of a derivative is attained and at most L dt below every value before the end of the trajectory if the magnitude changes by at most L per second; the sampled cost is a left Riemann sum and differs from the integral of the squared magnitude by at most (L T + B) dt; with a step that is not positive the calls do not return.", "quantifier": "all trajectories, derivatives and steps", "why_tests_cant": "All trajectories and steps.", "anchors": ["subpackages/mav_trajectory_generation/include/mav_trajectory_generation/test_utils.h: getMaximumMagnitude, computeCostNumeric"]}
{"id": "C103", "title": "Accuracy of evaluation in floating point", "statement": "Evaluating a trajectory with rounded arithmetic of unit u: every time from 0 to the reported maximum time is in range and exactly the later ones give zeros; the segment is evaluated at a local time whose error is bounded by ((1+u)^(j+3)-1) times the end of segment j plus u t, and each component differs from the exact derivative there by at most (1+u)^(2(N-d)-1)-1 times the sum of the absolute values of its terms.", "quantifier": "all trajectories, times, derivatives and roundings with relative error u (in particular rounding to p bits)", "why_tests_cant": "Every input and every rounding error.", "anchors": ["subpackages/mav_trajectory_generation/include/mav_trajectory_generation/polynomial.h: Polynomial::evaluate", "subpackages/mav_trajectory_generation/src/segment.cpp: Segment::evaluate", "subpackages/mav_trajectory_generation/src/trajectory.cpp: Trajectory::evaluate"]}
{"id": "C104", "title": "Sampling a range in floating point", "statement": "Sampling a range of a trajectory with rounded arithmetic returns for every positive step; sample i is near the exact sample i, within an explicit bound, and sampling does not stop before the end time or the end of the trajectory up to that bound.", "quantifier": "all trajectories, ranges, steps and roundings", "why_tests_cant": "Every input and every rounding error.", "anchors": ["subpackages/mav_trajectory_generation/src/trajectory.cpp: Trajectory::evaluateRange"]}
{"id": "C105", "title": "Interrupted saving", "statement": "If the program stops at any moment while it saves a trajectory to a file, reading the file afterwards never reports success unless it gives the complete saved trajectory; in any case it never gives a segment that was not saved, never segments out of order or with gaps, and never has undefined behaviour.", "quantifier": "all trajectories, all crash points (any number of characters written), all previous contents of the file and of the output list", "why_tests_cant": "Every crash point of every save.", "anchors": ["subpackages/mav_trajectory_generation/src/io.cpp: segmentsToFile, segmentsFromFile", "subpackages/mav_trajectory_generation/include/mav_trajectory_generation/io.h: trajectoryToFile, trajectoryFromFile"]}
{"id": "C106", "title": "Saved durations do not drift", "statement": "In double precision a segment duration changes by less than a nanosecond (plus rounding) when it is saved and loaded, and not at all when it is saved and loaded again: every whole number of nanoseconds up to 2^51 comes back as it was.", "quantifier": "all durations up to 2^50 ns, all whole numbers of nanoseconds up to 2^51, every way to round ties", "why_tests_cant": "All 2^51 durations.", "anchors": ["subpackages/mav_trajectory_generation/include/mav_trajectory_generation/segment.h: Segment::getTimeNSec, Segment::setTimeNSec"]}
{"id": "C107", "title": "Time stamps in double precision", "statement": "Time stamps survive the conversion to seconds and back; the stamp of a sampled state is the time at which the trajectory was evaluated, cut to nanoseconds, up to rounding; later samples never have earlier stamps, and samples more than a nanosecond apart have different ones.", "quantifier": "all time stamps up to 2^51 ns, all trajectories, ranges and steps, every way to round ties", "why_tests_cant": "Every time stamp and every number of conversions.", "anchors": ["subpackages/mav_trajectory_generation/include/mav_msgs/common.hpp: nanosecondsToSeconds, secondsToNanoseconds", "subpackages/mav_trajectory_generation/src/trajectory_sampling.cpp: sampleTrajectoryInRange, sampleFlatStateAtTime"]}
{"id": "C108", "title": "Evaluating while others act", "statement": "Position, velocity and acceleration returned by one evaluation are the references of one moment during the call, of the plan in force when the call returns, whatever other threads request, plan, compute or apply in the meantime; a plan that waits when the call begins is used by it; the instant is recorded unless the evaluation is for plotting.", "quantifier": "all interleavings of the steps of one evaluating call with any number of calls, worker steps and computation steps of other threads", "why_tests_cant": "Every interleaving at every step of the call.", "anchors": ["src/dynamic_trajectory.cpp: DynamicTrajectory::evaluateTrajectory, getReferences, checkTrajectoryGenerated, swapTrajectory, timeFitting, swapDynamicWaypoints", "src/dynamic_trajectory.cpp: appendWaypoint, setWaypoints, modifyWaypoint, todoThreadLoop", "include/dynamic_trajectory_generator/dynamic_trajectory.hpp: getComputingNewTrajectoryStatus"]}
{"id": "C109", "title": "A plan is taken over as a whole", "statement": "Whenever another thread is told that the plan has changed, or that no new plan is being made, the trajectory, its start time and its waypoints belong together; apart from the moment of a take-over the planner is always in a state that complete calls, one after the other, could have led to.", "quantifier": "all interleavings of evaluating calls, step by step, with everything else", "why_tests_cant": "Every interleaving.", "anchors": ["src/dynamic_trajectory.cpp: DynamicTrajectory::evaluateTrajectory, getReferences, checkTrajectoryGenerated, swapTrajectory, timeFitting, swapDynamicWaypoints", "src/dynamic_trajectory.cpp: appendWaypoint, setWaypoints, modifyWaypoint, todoThreadLoop", "include/dynamic_trajectory_generator/dynamic_trajectory.hpp: getComputingNewTrajectoryStatus"]}
{"id": "C110", "title": "Requests during an evaluation", "statement": "A waypoint appended while the status says that no new plan is being made stays requested until the worker collects it, whatever the evaluating thread is doing at that moment.", "quantifier": "all interleavings, all moments of the request, all continuations", "why_tests_cant": "Every moment of every interleaving.", "anchors": ["src/dynamic_trajectory.cpp: DynamicTrajectory::evaluateTrajectory, getReferences, checkTrajectoryGenerated, swapTrajectory, timeFitting, swapDynamicWaypoints", "src/dynamic_trajectory.cpp: appendWaypoint, setWaypoints, modifyWaypoint, todoThreadLoop", "include/dynamic_trajectory_generator/dynamic_trajectory.hpp: getComputingNewTrajectoryStatus"]}
{"id": "C111", "title": "Evaluating calls come back", "statement": "An evaluating call waits only for the very first plan; otherwise it returns after finitely many steps of its own no matter what other threads do, and no interleaving gives it undefined behaviour.", "quantifier": "all interleavings, including infinite ones", "why_tests_cant": "Liveness over infinite interleavings.", "anchors": ["src/dynamic_trajectory.cpp: DynamicTrajectory::evaluateTrajectory, getReferences, checkTrajectoryGenerated, swapTrajectory, timeFitting, swapDynamicWaypoints", "src/dynamic_trajectory.cpp: appendWaypoint, setWaypoints, modifyWaypoint, todoThreadLoop", "include/dynamic_trajectory_generator/dynamic_trajectory.hpp: getComputingNewTrajectoryStatus"]}
{"id": "C112", "title": "No interleaving is undefined", "statement": "Whatever the evaluating thread, other user threads, the background worker and the running computation do, in any interleaving of their single accesses to shared data, no step has undefined behaviour or throws, except that an evaluation rethrows the exception of a failed computation; a value can become not finite only at a waypoint moved at exactly its own time.", "quantifier": "all interleavings of all threads, all steps", "why_tests_cant": "Every interleaving of every thread.", "anchors": ["src/dynamic_trajectory.cpp: DynamicTrajectory::todoThreadLoop, generateWaypointsForTheNextTrajectory, checkStitchTrajectory, stitchActualTrajectoryWithNewWaypoints, appendDronePositionWaypoint, checkInSecurityZone, applyWaypointModification", "src/dynamic_trajectory.cpp: evaluateTrajectory, appendWaypoint, setWaypoints, modifyWaypoint, setSpeed", "include/dynamic_trajectory_generator/dynamic_trajectory.hpp: updateVehiclePosition", "include/dynamic_trajectory_generator/dynamic_trajectory.hpp: todo_mutex, dynamic_waypoints_mutex_"]}
{"id": "C113", "title": "The security zone under concurrency", "statement": "When the background worker begins to make a plan, the vehicle has been outside the security zone of the plan in force at some moment since the worker began to look, and no other plan is being made.", "quantifier": "all interleavings of all threads, all plans and computation times", "why_tests_cant": "Every interleaving.", "anchors": ["src/dynamic_trajectory.cpp: DynamicTrajectory::todoThreadLoop, generateWaypointsForTheNextTrajectory, checkStitchTrajectory, stitchActualTrajectoryWithNewWaypoints, appendDronePositionWaypoint, checkInSecurityZone, applyWaypointModification", "src/dynamic_trajectory.cpp: evaluateTrajectory, appendWaypoint, setWaypoints, modifyWaypoint, setSpeed", "include/dynamic_trajectory_generator/dynamic_trajectory.hpp: updateVehiclePosition", "include/dynamic_trajectory_generator/dynamic_trajectory.hpp: todo_mutex, dynamic_waypoints_mutex_"]}
{"id": "C114", "title": "What a plan contains under concurrency", "statement": "Requests, evaluations and other calls during the collection of a plan's waypoints do not corrupt it: the plan has the route pending at the end of the collection (or the waypoints of the current plan not passed at some moment of it), the appended waypoints, and the last update per name; no request is lost or taken twice.", "quantifier": "all interleavings of all threads", "why_tests_cant": "Every interleaving.", "anchors": ["src/dynamic_trajectory.cpp: DynamicTrajectory::todoThreadLoop, generateWaypointsForTheNextTrajectory, checkStitchTrajectory, stitchActualTrajectoryWithNewWaypoints, appendDronePositionWaypoint, checkInSecurityZone, applyWaypointModification", "src/dynamic_trajectory.cpp: evaluateTrajectory, appendWaypoint, setWaypoints, modifyWaypoint, setSpeed", "include/dynamic_trajectory_generator/dynamic_trajectory.hpp: updateVehiclePosition", "include/dynamic_trajectory_generator/dynamic_trajectory.hpp: todo_mutex, dynamic_waypoints_mutex_"]}
{"id": "C115", "title": "Where a plan starts under concurrency", "statement": "A plan prepared while evaluations go on either continues the plan in force, with position, velocity and acceleration of its references at the last evaluated instant, if enough of it was left at some moment during the preparation, or starts at rest at the vehicle's last known position.", "quantifier": "all interleavings of all threads", "why_tests_cant": "Every interleaving.", "anchors": ["src/dynamic_trajectory.cpp: DynamicTrajectory::todoThreadLoop, generateWaypointsForTheNextTrajectory, checkStitchTrajectory, stitchActualTrajectoryWithNewWaypoints, appendDronePositionWaypoint, checkInSecurityZone, applyWaypointModification", "src/dynamic_trajectory.cpp: evaluateTrajectory, appendWaypoint, setWaypoints, modifyWaypoint, setSpeed", "include/dynamic_trajectory_generator/dynamic_trajectory.hpp: updateVehiclePosition", "include/dynamic_trajectory_generator/dynamic_trajectory.hpp: todo_mutex, dynamic_waypoints_mutex_"]}
{"id": "C116", "title": "Updates applied under concurrency", "statement": "Position updates applied to the current plan while evaluations and further calls go on move exactly the named waypoints, each to its last requested position, each once; none is lost.", "quantifier": "all interleavings of all threads", "why_tests_cant": "Every interleaving.", "anchors": ["src/dynamic_trajectory.cpp: DynamicTrajectory::todoThreadLoop, generateWaypointsForTheNextTrajectory, checkStitchTrajectory, stitchActualTrajectoryWithNewWaypoints, appendDronePositionWaypoint, checkInSecurityZone, applyWaypointModification", "src/dynamic_trajectory.cpp: evaluateTrajectory, appendWaypoint, setWaypoints, modifyWaypoint, setSpeed", "include/dynamic_trajectory_generator/dynamic_trajectory.hpp: updateVehiclePosition", "include/dynamic_trajectory_generator/dynamic_trajectory.hpp: todo_mutex, dynamic_waypoints_mutex_"]}
{"id": "C117", "title": "A request is part of the next plan, under concurrency", "statement": "A new waypoint appended or set while no plan is being made is in the next plan that is taken over, in whatever way the evaluating thread, other users, the background worker and the computation interleave, unless the whole route is set again before; without an update for its name it is there at its position and with all its constraints.", "quantifier": "all interleavings of all threads, all requests in between", "why_tests_cant": "Every interleaving of every thread.", "anchors": ["src/dynamic_trajectory.cpp: DynamicTrajectory::todoThreadLoop, generateWaypointsForTheNextTrajectory, checkStitchTrajectory, stitchActualTrajectoryWithNewWaypoints, appendDronePositionWaypoint, checkInSecurityZone, applyWaypointModification", "src/dynamic_trajectory.cpp: evaluateTrajectory, appendWaypoint, setWaypoints, modifyWaypoint, setSpeed", "include/dynamic_trajectory_generator/dynamic_trajectory.hpp: updateVehiclePosition", "include/dynamic_trajectory_generator/dynamic_trajectory.hpp: todo_mutex, dynamic_waypoints_mutex_"]}
{"id": "C118", "title": "Requests are carried out", "statement": "If the background worker and the computations keep running, the user keeps evaluating and the vehicle leaves the security zone for good, then a new waypoint appended or set while no plan is being made (and not in the instant between the two assignments at the end of a take-over) is in a plan that is computed and taken over after finitely many steps, unless the route is set again or a waypoint moved without asking for a plan before.", "quantifier": "all infinite fair executions of all threads", "why_tests_cant": "Liveness over infinite executions.", "anchors": ["src/dynamic_trajectory.cpp: DynamicTrajectory::todoThreadLoop, generateWaypointsForTheNextTrajectory, checkStitchTrajectory, stitchActualTrajectoryWithNewWaypoints, appendDronePositionWaypoint, checkInSecurityZone, applyWaypointModification", "src/dynamic_trajectory.cpp: evaluateTrajectory, appendWaypoint, setWaypoints, modifyWaypoint, setSpeed", "include/dynamic_trajectory_generator/dynamic_trajectory.hpp: updateVehiclePosition", "include/dynamic_trajectory_generator/dynamic_trajectory.hpp: todo_mutex, dynamic_waypoints_mutex_"]}
{"id": "C119", "title": "Destroying the planner is safe", "statement": "If a planner object is destroyed while no other thread is in one of its calls, its background threads stop and the destructor returns, and no thread uses a part of the object after that part has been destroyed, whatever the planner was doing.", "quantifier": "every planner state reachable in an interleaving of all threads, every interleaving of the destructor with the worker and a running computation, every environment", "why_tests_cant": "The use after destruction needs a computation that outlives the worker; whether a test meets it depends on the schedule and on how long the optimizer runs.", "anchors": ["include/dynamic_trajectory_generator/dynamic_trajectory.hpp: ~DynamicTrajectory, declaration order of future_traj_ and next_trajectory_waypoint_", "src/dynamic_trajectory.cpp: todoThreadLoop, computeTrajectory, generateTrajectory"]}
{"id": "C120", "title": "The instant evaluated is the one asked for", "statement": "evaluateTrajectory(t) answers for the instant t the caller passes, also when the caller keeps time as a double: references at different instants of a plan are those of the plan at these instants.", "quantifier": "every history, every optimizer meeting its contract, every instant representable as a double, every rounding to nearest", "why_tests_cant": "The parameter is a float: tests that start their clock at 0 stay within its precision, clocks counting from 1970 do not, and the error depends on the size of the instant.", "anchors": ["include/dynamic_trajectory_generator/dynamic_trajectory.hpp: evaluateTrajectory", "src/dynamic_trajectory.cpp: evaluateTrajectory, generateTrajectory (float max_speed)"]}
{"id": "C121", "title": "References vary continuously within a plan", "statement": "As long as no other plan is taken over, the position, velocity and acceleration that evaluateTrajectory returns are continuous functions of the instant, inside the plan, at its waypoints, and before and after it: between two instants they change by at most the largest value of the next derivative along the plan times the time between them, and moving a waypoint does not make the references jump in time.", "quantifier": "every plan, every set of moved waypoints, all pairs of instants", "why_tests_cant": "Jumps sit at single instants, such as the joints of segments and the borders of the windows of the compensations, which sampled tests miss.", "anchors": ["src/dynamic_trajectory.cpp: evaluateTrajectory, evaluateModifiedTrajectory", "include/dynamic_trajectory_generator/utils/traj_modifiers.hpp: operator()"]}
{"id": "C122", "title": "Taking over a plan does not make the references jump", "statement": "While a new plan is computed the old one is followed unchanged. When the new plan is taken over, the position reference moves on from the last one returned by no more than the vehicle could fly at the plans' largest velocity in the time between the two evaluations; after a plan made from scratch it starts at the vehicle.", "quantifier": "every history, every optimizer meeting its contract, every moment of the take-over, all instants", "why_tests_cant": "The jump depends on how long the computation took and on where the old plan is at that moment.", "anchors": ["src/dynamic_trajectory.cpp: swapTrajectory, timeFittingWithVehiclePosition, stitchActualTrajectoryWithNewWaypoints, appendDronePositionWaypoint"]}
{"id": "C123", "title": "Asking again gives the same answer", "statement": "evaluateTrajectory called twice for the same instant returns the same references, also if the first call took over a plan, and the second call changes nothing; the same holds with anything else happening in between that neither takes over a plan nor changes the current waypoints.", "quantifier": "every planner state, all instants and flags, all events in between", "why_tests_cant": "Whether the first call takes over a plan depends on the schedule.", "anchors": ["src/dynamic_trajectory.cpp: evaluateTrajectory, checkTrajectoryGenerated, swapTrajectory"]}
{"id": "C124", "title": "Plans keep to the speed that was set", "statement": "A plan nowhere exceeds the speed given to setSpeed (nor the planner's largest acceleration), provided no vertex prescribes a larger velocity; how far it can exceed them follows from the cost the optimisation ended with.", "quantifier": "all vertices, speeds, linear solvers, complete root finders and runs of NLopt that stay within the bounds given to it", "why_tests_cant": "The limits enter the cost as soft penalties and the planner returns the last trajectory NLopt evaluated; whether it violates them depends on where NLopt stops.", "anchors": ["src/dynamic_trajectory.cpp: generateTrajectory", "subpackages/mav_trajectory_generation/include/mav_trajectory_generation/impl/polynomial_optimization_nonlinear_impl.h: optimizeTimeAndFreeConstraints, objectiveFunctionTimeAndConstraints, evaluateMaximumMagnitudeAsSoftConstraint"]}
{"id": "C125", "title": "Which speed a plan was computed with", "statement": "The plan in force was computed with the speed last set when its background computation began. Setting the speed changes neither the plan in force (same references, times and waypoints) nor a computation that has begun.", "quantifier": "every history of calls, worker phases and computation steps", "why_tests_cant": "Which setSpeed a plan sees depends on the schedule.", "anchors": ["src/dynamic_trajectory.cpp: setSpeed, generateTrajectory, computeTrajectory, swapTrajectory"]}
{"id": "C126", "title": "The first route is flown as it was given", "statement": "A planner without a plan is given a list of waypoints; nothing else is requested. Once getDynamicWaypoints returns, it returns an unnamed starting point at a reported vehicle position followed by exactly the waypoints given, in order, with strictly increasing times. evaluateTrajectory at the time of each of them returns its position, with its prescribed velocity and acceleration (the last one excepted); from the last time on it returns the last position at rest. The plan stays until something else is requested.", "quantifier": "all routes, all vehicle positions reported before and after, every interleaving of reports, speeds, evaluations, worker phases and computation steps, every optimizer meeting its contract", "why_tests_cant": "Between the request and the flown references lie the queue, the collection, the start from the vehicle, a computation, the assignment of times and the take-over, at arbitrary moments.", "anchors": ["src/dynamic_trajectory.cpp: setWaypoints, generateWaypointsForTheNextTrajectory, appendDronePositionWaypoint, computeTrajectory, swapTrajectory, getDynamicWaypoints, evaluateTrajectory"]}
{"id": "C127", "title": "A plan needs a positive speed", "statement": "Every plan in force was computed because a computation began while the speed set last was positive. A computation that begins with speed zero, the value before the first setSpeed, goes on with values that are not finite; one that begins with a negative speed aborts the process. As long as no positive speed was set, evaluateTrajectory, getMaxTime, getMinTime and getDynamicWaypoints do not return.", "quantifier": "all routes and histories of calls, worker phases and computation steps, linear and nonlinear optimisation, whatever the linear solver and NLopt answer", "why_tests_cant": "Which speed a computation sees depends on the schedule; the times of the segments are quotients by it, whatever the waypoints are.", "anchors": ["src/dynamic_trajectory.cpp: setSpeed, generateTrajectory, computeTrajectory", "include/dynamic_trajectory_generator/dynamic_trajectory.hpp: Parameters::speed", "subpackages/mav_trajectory_generation/src/vertex.cpp: estimateSegmentTimes, computeTimeVelocityRamp"]}
{"id": "C128", "title": "A first route is planned and flown without failure", "statement": "A planner without a plan, with a positive speed set, is given a route of waypoints not closer together than 2^-52 seconds of flight (except for the last two); nothing else is requested. Then no call and no step of the worker or the computation fails; after six phases of the worker the computation can begin; once begun it can end; once it has ended evaluateTrajectory, getMaxTime, getMinTime and getDynamicWaypoints all return. More generally, in any state without compensations of width zero and without a failed computation, no call and no worker step fails.", "quantifier": "all routes, vehicle positions, speeds, interleavings of reports, evaluations, worker phases and computation steps; whatever the linear solver answers; NLopt keeping to the bounds given to it", "why_tests_cant": "Every intermediate step (copying, extraction of vertices, set-up, solution, assignment of times, take-over) has its own checks and undefined cases.", "anchors": ["src/dynamic_trajectory.cpp: todoThreadLoop, generateTrajectory, computeTrajectory, checkTrajectoryGenerated, swapTrajectory, evaluateTrajectory"]}
{"id": "C129", "title": "A route given in flight is flown as it was given", "statement": "A planner at rest (nothing is being prepared or computed), whatever was requested and flown before, is given a route of new waypoints; nothing else is requested until a plan is taken over. From then on getDynamicWaypoints returns all waypoints of the route, in order, after a beginning: a point at rest at a reported vehicle position, or two points of the old plan, the first with its velocity and acceleration. Times strictly increase; evaluateTrajectory at the time of each waypoint returns its position, with its prescribed velocity and acceleration (the last one excepted); from the last time on it returns the last position at rest. More generally this holds of the waypoints of any plan in force none of whose waypoints was moved.", "quantifier": "all earlier histories, routes, reports, interleavings of evaluations, worker phases and computation steps, every optimizer meeting its contract", "why_tests_cant": "The new plan is prepared from a state of the flight that depends on the schedule, and waypoints can be dropped, reordered or mistimed at each of the stages between the request and the references.", "anchors": ["src/dynamic_trajectory.cpp: setWaypoints, generateWaypointsForTheNextTrajectory, stitchActualTrajectoryWithNewWaypoints, appendDronePositionWaypoint, computeTrajectory, swapTrajectory, getDynamicWaypoints, evaluateTrajectory"]}
{"id": "C130", "title": "Waypoints appended in flight are flown after those ahead", "statement": "A planner at rest, whatever was requested and flown before, is given waypoints with appendWaypoint; nothing else is requested until a plan is taken over. From then on getDynamicWaypoints returns the waypoints of the old plan that were ahead, at their current positions and in order, followed by all appended ones in order, after a beginning (a point at rest at a reported vehicle position, or two points of the old plan). All are flown through at strictly increasing times with their prescribed velocities and accelerations, and the last one is held. Every waypoint of the old plan that is further ahead than the time compensation plus twenty times the computation time is kept. More generally every plan that is taken over is flown through all its waypoints until a waypoint is moved or another plan is taken over.", "quantifier": "all earlier histories in which plans are taken over by evaluations, all appended waypoints, reports, interleavings of evaluations, worker phases and computation steps, every optimizer meeting its contract", "why_tests_cant": "Which waypoints are still ahead is decided twice, at moments that depend on the schedule.", "anchors": ["src/dynamic_trajectory.cpp: appendWaypoint, generateWaypointsForTheNextTrajectory, filterPassedWaypoints, stitchActualTrajectoryWithNewWaypoints, computeTrajectory, swapTrajectory, getDynamicWaypoints, evaluateTrajectory"]}
{"id": "C131", "title": "A waypoint moved in flight is flown to its new position", "statement": "A planner at rest flies a plan none of whose waypoints was moved; the only waypoint of some name is moved with modifyWaypoint (without replanning); nothing else is requested. After two phases of the worker getDynamicWaypoints returns the same waypoints with this one at its new position, and evaluateTrajectory at its time returns the new position (along axes along which it was moved by at least two centimetres; else the old one). If the move was applied at instant a before the waypoint's time T, references further than 7/6(T - a) from T are unchanged, those closer move by exp(-9/2((t - T)/(T - a))^2) of the move, hence never further than the waypoint, and those up to a by less than 1.2 percent of it.", "quantifier": "all earlier histories in which plans are taken over by evaluations, all plans, moves, reports, interleavings of evaluations and worker phases, every optimizer meeting its contract", "why_tests_cant": "The width of the compensation depends on the instant evaluated last when the worker applies the move.", "anchors": ["src/dynamic_trajectory.cpp: modifyWaypoint, applyWaypointModification, evaluateTrajectory, getDynamicWaypoints", "src/dynamic_waypoint.cpp: setCurrentPosition, trajectoryCompensation", "include/dynamic_trajectory_generator/utils/traj_modifiers.hpp: GaussianModifier"]}
{"id": "C132", "title": "Waypoints moved with replanning are flown at their new positions", "statement": "A planner at rest, whatever was requested and flown before, is asked with modifyWaypoints (or modifyWaypoint with replanning) to move waypoints; nothing else is requested until a plan is taken over. From then on getDynamicWaypoints returns the waypoints of the old plan that were ahead, in order, each at the position given last for its name, or where it was if none was given, after a beginning (a point at rest at a reported vehicle position, or two points of the old plan). All are flown through at strictly increasing times with their prescribed velocities and accelerations, and the last one is held. Every waypoint of the old plan that is further ahead than the time compensation plus twenty times the computation time is kept. This holds also if the worker, too close to a waypoint to plan, first applies the moves to the plan in force.", "quantifier": "all earlier histories in which plans are taken over by evaluations, all moves (also several for one name), reports, interleavings of evaluations, worker phases and computation steps, every optimizer meeting its contract", "why_tests_cant": "Whether moves are first applied to the plan in force or go directly into the new one depends on the schedule, as do the waypoints that are still ahead.", "anchors": ["src/dynamic_trajectory.cpp: modifyWaypoints, modifyWaypoint, todoThreadLoop, generateWaypointsForTheNextTrajectory, resetWaypointThroughDeque, applyWaypointModification, stitchActualTrajectoryWithNewWaypoints, swapTrajectory, getDynamicWaypoints, evaluateTrajectory"]}
{"id": "C133", "title": "A route given in flight is planned without failure", "statement": "A planner at rest, whatever was requested and flown before, is given a route of new waypoints that are not too close to one another, at sensible speeds. Then no call, no phase of the worker and no step of the computation fails (by exception, CHECK abort, undefined behaviour or a non-finite number), the computation can begin as soon as the last evaluation is outside the security zone and the worker ran its phases, it can end once it began, and afterwards every call returns and the plan is taken over.", "quantifier": "all earlier histories, all routes, reports, speeds, interleavings of evaluations, worker phases and computation steps, linear and nonlinear optimisation with any NLopt behaviour within its bounds", "why_tests_cant": "Where the new plan is attached to the old one depends on when the last evaluation took place, on the measured computation time and on the time compensation; tests cannot enumerate them.", "anchors": ["src/dynamic_trajectory.cpp: setWaypoints, todoThreadLoop, checkInSecurityZone, stitchActualTrajectoryWithNewWaypoints, computeTrajectory, swapTrajectory, evaluateTrajectory"]}
{"id": "C134", "title": "Random vertices are returned, and are as described", "statement": "createRandomVertices (and createRandomVertices1D) with accepted arguments returns n_segments + 1 vertices whose positions lie between the bounds in every dimension; consecutive ones are more than 0.2 apart; the first and the last one have their derivatives up to maximum_derivative set to zero, the ones in between prescribe the position only. Other arguments are refused by a CHECK.", "quantifier": "all bounds in any dimension, numbers of segments, orders, and all sequences of random numbers that come close to every corner of the box again and again (hence all seeds)", "why_tests_cant": "The function draws positions until one is far enough from the last; whether that ends depends on the box and on every number drawn, and no test can observe that a call never returns.", "anchors": ["subpackages/mav_trajectory_generation/src/vertex.cpp: createRandomVertices, createRandomVertices1D", "subpackages/mav_trajectory_generation/include/mav_trajectory_generation/vertex.h: createRandomVertices"]}
{"id": "C135", "title": "Square vertices go round the square", "statement": "createSquareVertices returns 4 * rounds + 1 vertices that go through the four corners of the axis-parallel square of the given side around the given centre in turn, consecutive ones one side apart, at rest (up to maximum_derivative) at the first and the last, which are at the same corner; in between only the position is prescribed. Zero rounds give one vertex at rest; a negative number throws.", "quantifier": "all centres, sides, orders and numbers of rounds", "why_tests_cant": "The number of vertices is unbounded; tests sample a few numbers of rounds.", "anchors": ["subpackages/mav_trajectory_generation/src/vertex.cpp: createSquareVertices"]}
{"id": "C136", "title": "Comparing trajectories tells whether they are the same", "statement": "Comparing two trajectories with == always gives an answer: true exactly if they have as many segments, with the same durations and the same coefficients in every dimension. The answer does not depend on the order of the operands, and trajectories that compare equal have the same dimension, segment times and duration, and the same value of every derivative at every time.", "quantifier": "all trajectories, with any numbers of segments, dimensions and coefficients", "why_tests_cant": "The comparison ranges over unboundedly many segments and coefficients; tests compare a few trajectories.", "anchors": ["subpackages/mav_trajectory_generation/include/mav_trajectory_generation/trajectory.h: operator==, operator!=", "subpackages/mav_trajectory_generation/src/trajectory.cpp: operator==", "subpackages/mav_trajectory_generation/src/segment.cpp: operator==", "subpackages/mav_trajectory_generation/include/mav_trajectory_generation/polynomial.h: operator=="]}
{"id": "C137", "title": "No plan without a request", "statement": "Nothing plans or replaces the trajectory by itself: in every interleaving of the threads the trajectory has changed at most as often as the worker took requests for a plan, and the worker has taken requests at most as often as a plan was asked for (setWaypoints, appendWaypoint, modifyWaypoint with replanning, modifyWaypoints). Once requests have been taken, or a planning pass is over, none are taken again before a further one is made.", "quantifier": "all interleavings, access by access, of the worker, the optimising task, the users' threads and an evaluating thread, from construction on, of any length", "why_tests_cant": "A spurious second plan needs a particular interleaving of the worker clearing the request flag with the other threads; tests see a few schedules, and the histories are unbounded.", "anchors": ["src/dynamic_trajectory.cpp: todoThreadLoop, generateTrajectory, computeTrajectory, checkTrajectoryGenerated, swapTrajectory, setWaypoints, appendWaypoint, modifyWaypoint, modifyWaypoints"]}
{"id": "C138", "title": "One route is flown as given, whatever the threads do", "statement": "A planner is given one route of waypoints in space, and nothing else is requested before or after; vehicle positions are reported, the speed is set and the evaluating functions are called at any time. Once getDynamicWaypoints returns, it returns a start without name, at rest, at a position the planner held for the vehicle, followed by the route, in order and with its names, at strictly increasing times; every later copy is the same. evaluateTrajectory called for the time of one of them (minus the time compensation) returns its position, with the velocity and acceleration it prescribes unless it is the last; from the time of the last on, its position at rest. Once in place, the plan and the time compensation never change.", "quantifier": "all routes, and all interleavings, access by access, of the worker, the optimising task, the users' threads and an evaluating thread, of any length", "why_tests_cant": "The plan is handed between three threads through shared fields, partly without locks; a lost or mixed plan needs a particular interleaving, of which there are unboundedly many and of which a test sees a few.", "anchors": ["src/dynamic_trajectory.cpp: setWaypoints, todoThreadLoop, computeTrajectory, checkTrajectoryGenerated, swapTrajectory, evaluateTrajectory, getDynamicWaypoints", "include/dynamic_trajectory_generator/dynamic_trajectory.hpp: getTimeCompensation"]}
{"id": "C139", "title": "The linear optimum is the only one exactly if enough is prescribed", "statement": "PolynomialOptimization minimises the integral of the squared derivative of order d over all splines through what the vertices prescribe. Suppose no vertex prescribes a derivative without prescribing the lower ones (as all vertices of the planner). If the vertices together prescribe at least d values of order below d, there is one such minimum, and solveLinear returns this trajectory with every solver that solves linear systems. If they prescribe fewer, there is another minimum beside every minimum. The planner minimises the acceleration (d = 2) through at least two positions, so its linear trajectory is always unique.", "quantifier": "all problems (vertices, times, derivative to optimise) accepted by setupFromVertices whose vertices prescribe derivatives without gaps, all exact solvers", "why_tests_cant": "That the result does not depend on the sparse solver is a statement about all solvers and all competing splines; a test runs one solver and compares with a few splines.", "anchors": ["subpackages/mav_trajectory_generation/include/mav_trajectory_generation/impl/polynomial_optimization_linear_impl.h: PolynomialOptimization::setupFromVertices, solveLinear, getTrajectory", "src/dynamic_trajectory.cpp: computeTrajectory"]}
{"id": "C140", "title": "A plan consists of what was asked for, and a replaced route does not come back", "statement": "At every moment, however the threads interleave, each waypoint of the plan being flown (and each one getDynamicWaypoints returns) is of one of three kinds: a waypoint handed over by setWaypoints or appendWaypoint, with its name and constraints, at the position handed over or at one a later modifyWaypoint gave for its name; a nameless start at rest at a position the vehicle was reported at; or a point named stitching_point at which a plan was attached to the previous one. Once a plan for a route given by setWaypoints has been taken over, the first two kinds refer only to that route and to what was requested with it or afterwards: nothing of an earlier route, no earlier update and no earlier start comes back.", "quantifier": "all histories of calls by the user's threads, all interleavings of them with the evaluating thread, the worker and the optimisation task, all environments", "why_tests_cant": "That nothing foreign or stale ever enters the plan is a statement about all histories and interleavings; a test inspects the plans of a few.", "anchors": ["src/dynamic_trajectory.cpp: setWaypoints, appendWaypoint, modifyWaypoint, updateVehiclePosition, todoThreadLoop, generateDynamicWaypoints, stitchActualTrajectoryWithNewWaypoints, appendDronePositionWaypoint, swapTrajectory, getDynamicWaypoints", "src/dynamic_waypoint.cpp: resetWaypoint, setCurrentPosition"]}
{"id": "C141", "title": "Nothing throws and nothing is undefined, the optimisation included", "statement": "Whatever waypoints (in space, with positions), speeds and position reports the users' threads give, whatever the linear solver, the root finder and NLopt do, and however the threads interleave: no public call of the planner, no step of its worker thread and no computation throws an exception, hangs or has undefined behaviour. The only ways to fail are a failed check in the computation, which ends the process, and a value that is not finite.", "quantifier": "all histories and interleavings, all vertices in space, all speeds, all behaviours of solver, root finder and NLopt (also outside its bounds), linear and nonlinear optimisation", "why_tests_cant": "The absence of exceptions and undefined behaviour must hold for all inputs, all answers of the external libraries and all interleavings; a test runs through a few.", "anchors": ["src/dynamic_trajectory.cpp: computeTrajectory, evaluateTrajectory, getMaxTime, getMinTime, getDynamicWaypoints, todoThreadLoop, swapTrajectory", "subpackages/mav_trajectory_generation/include/mav_trajectory_generation/impl/polynomial_optimization_nonlinear_impl.h: optimize, objectiveFunctionTimeAndConstraints, setFreeEndpointDerivativeHardConstraints", "subpackages/mav_trajectory_generation/include/mav_trajectory_generation/impl/polynomial_optimization_linear_impl.h: setupFromVertices, solveLinear"]}
{"id": "C142", "title": "A computation that throws costs one exception and nothing else", "statement": "If the background computation ends by an exception (exhausted memory, for instance), one evaluating call reports it by that exception; afterwards the planner can be used as before: the calls that return references or waypoints return what the previous plan says, further requests are planned, and the other calls return.", "quantifier": "all histories of calls by any threads, worker steps and computations, all points at which a computation throws, all later histories", "why_tests_cant": "The damage shows only in calls made long after the failure and depends on which thread makes them; a test would have to make an allocation fail at the right moment and then to wait for calls that never return.", "anchors": ["src/dynamic_trajectory.cpp: swapTrajectory, checkTrajectoryGenerated, generateTrajectory, todoThreadLoop, evaluateTrajectory, getDynamicWaypoints, getMaxTime, getMinTime"]}
{"id": "C143", "title": "Planners in one process do not disturb each other", "statement": "Several planners can be used in one process, each from its own threads: what one of them does does not depend on the others, there is no data race between them, and the time statistics kept for the optimisation contain every computation exactly once.", "quantifier": "all numbers of planners, all histories of each, all interleavings of their computations' accesses to global state", "why_tests_cant": "A race between two computations occurs only in some interleavings of their threads, and its effect is undefined; no test can enumerate them.", "anchors": ["src/dynamic_trajectory.cpp: computeTrajectory, generateTrajectory", "subpackages/mav_trajectory_generation/src/timing.cpp: Instance, GetHandle, AddTime, Timer::Timer, Timer::Stop", "subpackages/mav_trajectory_generation/include/mav_trajectory_generation/impl/polynomial_optimization_nonlinear_impl.h: optimizeTimeAndFreeConstraints"]}
{"id": "C144", "title": "A bad evaluation instant spoils only its own answer", "statement": "An evaluation at an instant that is not a number affects only what that call returns: later evaluations and later requests are served as if it had not been made; in particular it does not end the process.", "quantifier": "all planners with a plan, all stored times, all pending requests, speeds and accelerations, evaluations for plotting or not", "why_tests_cant": "The stored instant is used only when the worker thread takes up a request before the next evaluation, so a test sees the damage only for one interleaving; and that every value computed from the instant is affected has to be followed through every formula.", "anchors": ["src/dynamic_trajectory.cpp: evaluateTrajectory, evaluateModifiedTrajectory, checkInSecurityZone, checkStitchTrajectory, filterPassedWaypoints, stitchActualTrajectoryWithNewWaypoints, todoThreadLoop, computeTrajectory", "subpackages/mav_trajectory_generation/src/vertex.cpp: estimateSegmentTimesNfabian", "subpackages/mav_trajectory_generation/src/trajectory.cpp: Trajectory::evaluate", "subpackages/mav_trajectory_generation/include/mav_trajectory_generation/impl/polynomial_optimization_linear_impl.h: updateSegmentTimes"]}
{"id": "C145", "title": "Where a moved waypoint has been does not matter", "statement": "While a plan is flown its waypoints may be moved again and again. The references handed out afterwards depend only on where the waypoints are at that time, not on the way they got there: a waypoint moved away and back to its place leaves no trace.", "quantifier": "all planners with a plan, all sequences of moves, evaluations and worker steps in any interleaving, all evaluation times, orders and axes", "why_tests_cant": "Each move adds a correction whose width is the time left when it was carried out, so two histories with the same end differ only for particular pairs of instants; that everything adds up exactly has to be shown for every sequence of moves.", "anchors": ["src/dynamic_waypoint.cpp: setCurrentPosition, trajectoryCompensation", "include/dynamic_trajectory_generator/traj_modifiers.hpp: GaussianModifier::operator()", "src/dynamic_trajectory.cpp: modifyWaypoint, applyWaypointModification, evaluateModifiedTrajectory, todoThreadLoop"]}
{"id": "C146", "title": "Moving a waypoint asks for bounded speed", "statement": "Moving waypoints by at most a metre, before the plan reaches them, changes the velocity references by no more than a bound that depends on the plan only, however late the move is made.", "quantifier": "all planners with a plan, all instants of the move before the waypoint's time, all waypoints, all displacements, all evaluation times and axes", "why_tests_cant": "The change grows without bound as the time left goes to zero, so every test that moves the waypoint early enough passes; the exact bound as a function of the time left has to hold for every instant and every sequence of moves.", "anchors": ["src/dynamic_waypoint.cpp: setCurrentPosition, trajectoryCompensation", "include/dynamic_trajectory_generator/traj_modifiers.hpp: GaussianModifier::operator()", "src/dynamic_trajectory.cpp: modifyWaypoint, evaluateModifiedTrajectory, evaluateTrajectory"]}
{"id": "C147", "title": "Replanning does not fill the plan with points nobody asked for", "statement": "However often a new plan is made, the plan in force holds the waypoints asked for and at most two points of the planner's own: the position it starts from, or the two points that join it to the plan before.", "quantifier": "all histories of calls, worker phases and computations, all optimisers that keep their contract, all routes whose waypoints are named", "why_tests_cant": "The points of an earlier plan are dropped only if they lie in the past or within twenty computation times, so how many are left depends on the times the optimiser assigns and on when the replanning happens, over any number of replannings; a test replans once or twice.", "anchors": ["src/dynamic_trajectory.cpp: generateWaypointsForTheNextTrajectory, filterPassedWaypoints, stitchActualTrajectoryWithNewWaypoints, appendDronePositionWaypoint, getDynamicWaypoints"]}
{"id": "C148", "title": "A sum of five-term series stands for the sum of the Gaussians", "statement": "The five-term series that is meant to replace a Gaussian agrees with it up to the next term of the expansion, and a sum of such series has everywhere the value of the sum of their values.", "quantifier": "all means, widths and numbers of series, all evaluation points", "why_tests_cant": "The series differ from the Gaussian by an amount that depends on the distance from the mean, and the sum is formed coefficient by coefficient; a benchmark only compares running times.", "anchors": ["tests/taylor_series_vs_exp_benchmark.cpp: gaussian, taylorSerie5terms, operator+, add_multiple_gaussians, add_multiple_taylor"]}
{"id": "C149", "title": "A random path has legs of about the distance asked for", "statement": "The path made for the timing evaluation starts in the cube of side two around the origin, has the number of segments asked for, rests at both ends, and each of its points is at most twice the average distance away from the one before.", "quantifier": "all sequences of random numbers, dimensions, numbers of segments and average distances", "why_tests_cant": "The points come from a random generator and each depends on the one before; a test sees one seed.", "anchors": ["subpackages/mav_trajectory_generation/src/polynomial_timing_evaluation.cpp: createRandomVerticesPath"]}
{"id": "C150", "title": "The driver of the tests moves every waypoint it is given a modifier for", "statement": "While a trajectory is flown, every modifier moves its waypoint at least once in any stretch longer than a second in which the waypoint is between ten seconds and three tenths of a second ahead; moves of one modifier are more than a second apart and go a fifth of a metre further each time.", "quantifier": "all numbers of modifiers, all answers of the planner, all numbers of passes", "why_tests_cant": "Which modifier gets its turn depends on variables shared by all of them and on the times of all waypoints; a run of the driver shows one combination.", "anchors": ["tests/traj_evaluator.hpp: DynamicWaypointModifier::modifyWaypointInTraj, triggerModification, updateModifiedPosition, TrajEvaluator::runEvaluation"]}
{"id": "C151", "title": "The number of remaining waypoints is that of the waypoints asked for", "statement": "After evaluateTrajectory at an instant not before the start of the plan, getRemainingWaypoints is the number of waypoints the user asked for that lie after that instant; points the planner added itself are not counted.", "quantifier": "all histories of calls, worker phases and computations, with the user naming all waypoints; all instants", "why_tests_cant": "Which points of the planner's own are in the plan depends on how often and how soon plans were made; a test sees one history.", "anchors": ["include/dynamic_trajectory_generator/dynamic_trajectory.hpp: getRemainingWaypoints, getNextTrajectoryWaypoints", "src/dynamic_trajectory.cpp: stitchActualTrajectoryWithNewWaypoints, appendDronePositionWaypoint"]}
{"id": "C152", "title": "Moving waypoints does not make evaluation slower and slower", "statement": "While a plan is flown and waypoints are moved with modifyWaypoint (without replanning), the number of compensations kept for a waypoint, all of which every later evaluateTrajectory adds up, stays below a bound that does not depend on how often waypoints are moved.", "quantifier": "all histories of calls, worker phases and computations before; all numbers of moves, all names and destinations", "why_tests_cant": "The growth is one compensation per move and shows only after very many moves; a test makes a few.", "anchors": ["src/dynamic_waypoint.cpp: setCurrentPosition, trajectoryCompensation", "src/dynamic_trajectory.cpp: todoThreadLoop, applyWaypointModification, swapTrajectory"]}
{"id": "C153", "title": "The table of the test program is the flight that was planned", "statement": "The program that plans a route once and writes it to a table writes one line for each instant 0, dt, 2 dt, … up to dt before the end, each with the position, velocity and acceleration planned for that instant; the first line is the reported position at rest, the last one the end of the route; the file, read back between line breaks and commas, gives these numbers; and the program always gets to its end.", "quantifier": "all vehicle positions, routes, speeds, steps and durations of the computation; all interleavings of the program with the worker and the computation; all optimisers that meet the vertices", "why_tests_cant": "Which instant of the plan a line shows depends on how long the computation took and on where the flight is then; a run of the program shows one.", "anchors": ["tests/trajectory_test.cpp: main, CsvLogger::save, eigen_vector_to_dynamic_waypoint_vector", "src/dynamic_trajectory.cpp: timeFittingWithVehiclePosition, getMaxTime, evaluateTrajectory"]}
{"id": "C154", "title": "What a waypoint says about itself is what it was told last", "statement": "Every operation on a waypoint in space succeeds, and after any sequence of operations its name, index, time, planned position, current position, whether it has compensations, and the constraint of every order are those given last; a waypoint without arguments has no name, the index -1, the time 0 and no constraints; one made from a vertex has the name and index given, the time 0 and the position of the vertex.", "quantifier": "all sequences of updates, resets, constraints, copies and settings on a waypoint; all names, indices, times, positions and widths", "why_tests_cant": "Operations share fields: a reset rewrites the constraint of order 0, a constraint of order 0 resets the compensations, an update moves the current position only; which of them a later read sees depends on the whole history.", "anchors": ["src/dynamic_waypoint.cpp: setPosition, resetWaypoint, updateWaypoint, addConstraint, hasModifiers, copy", "include/dynamic_trajectory_generator/dynamic_waypoint.hpp: setName, setIndex, displaceIndex, setTime and the corresponding getters"]}
{"id": "C155", "title": "The order given for a number of coefficients is the one that end conditions determine", "statement": "For an even number N of coefficients, prescribing at both ends of a segment all derivatives up to getHighestDerivativeFromN(N) leaves exactly one polynomial whatever is prescribed; prescribing one order more can be impossible; for odd N the conditions never determine the polynomial.", "quantifier": "all N; all durations other than zero; all prescribed values", "why_tests_cant": "The number is the boundary between too few and too many conditions for every N; tests use N = 10 or 12.", "anchors": ["subpackages/mav_trajectory_generation/include/mav_trajectory_generation/vertex.h: getHighestDerivativeFromN"]}
{"id": "C156", "title": "generateTrajectory plans the waypoints it is given", "statement": "If the planner is doing nothing and generateTrajectory is called with at least two waypoints, these become the plan that the next evaluation after the computation follows.", "quantifier": "all histories before the call; all waypoints and both values of the flag; all durations of the computation; all optimisers", "why_tests_cant": "What the call does depends on what earlier plans left behind; a test shows one history.", "anchors": ["src/dynamic_trajectory.cpp: generateTrajectory, computeTrajectory, swapTrajectory, timeFittingWithVehiclePosition", "include/dynamic_trajectory_generator/dynamic_trajectory.hpp: DynamicTrajectory::generateTrajectory"]}
{"id": "C157", "title": "The printed table of the timers shows what was recorded", "statement": "Timing::Print gives nothing if no timer was asked for since the last reset; otherwise two head lines and then exactly one line for every timer asked for since then, in the order of the names. Read between the tabs, the line says the name, the number of durations recorded and, if there are any, their sum, their mean, the standard deviation of the last fifty, the shortest and the longest (or the smallest positive double, if that is longer), each to within half a microsecond.", "quantifier": "all histories of timers, durations and resets; all names without tabs and line ends; all durations up to 1e200 s", "why_tests_cant": "The text depends on the whole history: which names are known, how wide the longest name ever was, how many digits each figure has; rounding and padding must not change any figure.", "anchors": ["subpackages/mav_trajectory_generation/src/timing.cpp: Timing::Print, Timing::SecondsToTimeString"]}
{"id": "C158", "title": "The optimum does not depend on the frame of reference", "statement": "If the vertices of a problem are turned, mirrored, moved and enlarged (the derivatives turned, mirrored and enlarged), solveLinear returns the trajectory of the original problem turned, mirrored, moved and enlarged in the same way, with the same durations; provided a derivative of the position is optimised and the vertices prescribe enough for one optimum. The planner's linear optimisation, which estimates the durations itself, finds the turned, mirrored and moved trajectory for turned, mirrored and moved vertices.", "quantifier": "all dimensions, similarity maps, translations and problems; all previous uses of the objects; all solvers that solve linear systems exactly", "why_tests_cant": "A frame-dependent slip (an axis treated differently, a norm taken of a position instead of a difference) shows only for particular pairs of problems; a test compares one turn of one mission.", "anchors": ["subpackages/mav_trajectory_generation/include/mav_trajectory_generation/impl/polynomial_optimization_linear_impl.h: setupFromVertices, solveLinear", "subpackages/mav_trajectory_generation/src/vertex.cpp: estimateSegmentTimes"]}
{"id": "C159", "title": "A mission with more time is the same path flown more slowly", "statement": "If all durations of a problem are multiplied by a factor and the prescribed derivatives of order k are divided by its k-th power, solveLinear returns the same path flown slower by that factor; provided the vertices prescribe enough for one optimum. The planner's linear optimisation finds the slower flight when the speed is divided by the factor and the maximum acceleration by its square, provided no prescribed velocity crosses the threshold of 1e-6 below which an end counts as slow.", "quantifier": "all positive factors and problems; all previous uses of the objects; all solvers that solve linear systems exactly", "why_tests_cant": "The cost matrices, mapping matrices and time estimates all carry powers of the durations; a wrong power is compensated by others for durations near one second, which tests use.", "anchors": ["subpackages/mav_trajectory_generation/include/mav_trajectory_generation/impl/polynomial_optimization_linear_impl.h: setupFromVertices, updateSegmentTimes, solveLinear", "subpackages/mav_trajectory_generation/src/vertex.cpp: estimateSegmentTimes"]}
{"id": "C160", "title": "A mission flown backwards follows the same path", "statement": "If the vertices and durations of a problem are given in reverse order, with the odd derivatives negated, solveLinear returns the trajectory of the original problem flown backwards; provided the vertices prescribe enough for one optimum. The planner's linear optimisation, which estimates the durations itself, succeeds for the reversed vertices whenever it succeeds for the original ones, and finds the flight backwards.", "quantifier": "all dimensions and problems; all previous uses of the objects; all solvers that solve linear systems exactly", "why_tests_cant": "The code treats the start and the end of a segment by different formulas; an error in one of them breaks the symmetry only for problems that prescribe something there.", "anchors": ["subpackages/mav_trajectory_generation/include/mav_trajectory_generation/impl/polynomial_optimization_linear_impl.h: setupFromVertices, solveLinear", "subpackages/mav_trajectory_generation/src/vertex.cpp: estimateSegmentTimes"]}
{"id": "C161", "title": "The planner does not depend on the frame of reference", "statement": "If every position handed to the planner (waypoints with their prescribed derivatives, changes of waypoints, vehicle positions) is told in a frame with another origin, with axes in another order or pointing the other way, then after every history all answers are the same in that frame: the references, the waypoints, the trajectory's beginning and end, the remaining waypoints, the speed and the regeneration flag. It suffices that the optimizer does not depend on the frame, as the linear one does not.", "quantifier": "all frames with the axes of the old one; all histories of calls, worker steps and computations; all optimizers that do not depend on the frame", "why_tests_cant": "The code handles the axes one after the other by copied lines; a slip in one of them (a wrong component, a position where a difference belongs) shows only when the same mission is flown along other axes at the same moments.", "anchors": ["src/dynamic_trajectory.cpp: setCurrentPosition, stitchActualTrajectoryWithNewWaypoints, timeFittingWithVehiclePosition, evaluateTrajectory", "src/dynamic_waypoint.cpp: setCurrentPosition, trajectoryCompensation"]}
{"id": "C162", "title": "The first flight begins when it is first asked for", "statement": "When a planner's first plan is ready, the first call of evaluateTrajectory returns a reference near the beginning of the plan, whatever the clock of the caller reads at that moment.", "quantifier": "all histories before the first plan is taken over; all instants of the first evaluation; all optimizers meeting their contract", "why_tests_cant": "Tests count time from zero at the start of the program; callers with another clock are outside every test.", "anchors": ["src/dynamic_trajectory.cpp: evaluateTrajectory, swapTrajectory, timeFittingWithVehiclePosition, todoThreadLoop"]}
{"id": "C163", "title": "A mission taken up at one of its vertices goes on as planned", "statement": "After solveLinear, the state at a vertex on the way can be read from the trajectory with getVertices, up to the highest order the object handles; if the rest of the mission is solved again from that state with the same durations, the answer is the rest of the trajectory, and the mission that ends there in that state is its first part. If a vertex prescribes all these derivatives itself (a halt), the two sides of it can be solved apart.", "quantifier": "all dimensions and problems whose vertices prescribe derivatives without gaps; all vertices on the way; all previous uses of the objects; all solvers that solve linear systems exactly", "why_tests_cant": "It relates three runs of the optimiser on problems of different size, whose matrices have nothing in common; the coupling of neighbouring segments is wrong in a way a test on one mission does not show.", "anchors": ["subpackages/mav_trajectory_generation/include/mav_trajectory_generation/impl/polynomial_optimization_linear_impl.h: setupFromVertices, solveLinear, getTrajectory", "subpackages/mav_trajectory_generation/src/trajectory.cpp: getVertices, getVertexAtTime"]}
{"id": "C164", "title": "The cost reported for a mission compares missions as it should", "statement": "After solveLinear, computeCost of two objects compares their missions: prescribing more at the vertices, with the same durations, never lowers the cost; an additional vertex within a leg that prescribes nothing, or nothing but what the trajectory does there in any case, never raises it; in a frame in which squares of lengths are c times as large the cost is c times as high; with all durations multiplied by s the cost is divided by s to the power 2d-1, where d is the derivative optimised; flown backwards the mission costs the same.", "quantifier": "all dimensions and problems; all additional constraints and vertices; all frames and factors; all previous uses of the objects; all solvers that solve linear systems exactly", "why_tests_cant": "It compares the costs of runs on different problems, whose matrices differ in size and content; a cost that is off by a term or a factor looks plausible for each mission alone.", "anchors": ["subpackages/mav_trajectory_generation/include/mav_trajectory_generation/impl/polynomial_optimization_linear_impl.h: setupFromVertices, solveLinear, computeCost"]}
{"id": "C165", "title": "Printed vertices and segments show what they hold", "statement": "What operator<< writes for a vertex can be read back: every prescribed derivative by its name, in ascending order, with all its components to four digits; vertices printed one after the other can be told apart. printSegment writes the duration and, for every dimension in order, the coefficients of the derivative asked for, to the precision of the stream, and aborts for a derivative out of range; segments printed one after the other can be told apart.", "quantifier": "all vertices and segments with any number of constraints, dimensions and coefficients; all texts of numbers that can be read back", "why_tests_cant": "A test compares one text; alignment, separators and names depend on the sizes of the numbers and on the orders present.", "anchors": ["subpackages/mav_trajectory_generation/src/vertex.cpp: operator<<", "subpackages/mav_trajectory_generation/src/segment.cpp: printSegment, operator<<", "subpackages/mav_trajectory_generation/src/motion_defines.cpp: positionDerivativeToString"]}
{"id": "C166", "title": "The printed report of an optimisation shows what it holds", "statement": "What operator<< writes for the information about an optimisation can be read back: the duration, the number of iterations, the reason for stopping by its NLopt name, the costs of trajectory, time and soft constraints, and for every maximum the derivative by its name (derivatives above the snap are called invalid), the value, the segment and the time in it; numbers to the precision of the stream. The same holds for a printed extremum. Two reports with named derivatives that are printed alike hold the same up to rounding.", "quantifier": "all reports with any number of maxima and any numbers; all return codes; all texts of numbers that can be read back", "why_tests_cant": "A test compares one text; which lines appear and where the columns end depends on the entries.", "anchors": ["subpackages/mav_trajectory_generation/include/mav_trajectory_generation/impl/polynomial_optimization_nonlinear_impl.h: operator<<, returnValueToString", "subpackages/mav_trajectory_generation/include/mav_trajectory_generation/extremum.h: operator<<"]}
{"id": "C167", "title": "The plots drawn from the table of a flight show the flight", "statement": "Run on the file the flight of a route was written to, the plotting script gets through and draws, over the times of the lines, every component of position, velocity and acceleration under its label, the magnitudes of velocity and acceleration, and the path in space, with one point per line of the file; the points are those of the flight through the route at the instants the lines are for, up to the digits the numbers are written with.", "quantifier": "all routes, speeds, steps and schedules of the planner; all ways to write numbers without commas and line ends that can be read back", "why_tests_cant": "The names and the order of the columns are agreed upon by two programs in two languages; a test of either one alone does not see a mismatch.", "anchors": ["tests/plot_results.py", "tests/trajectory_test.cpp: CsvLogger, main"]}
{"id": "C168", "title": "The checks of the tests accept exactly the trajectories they should, and every solution of the optimiser", "statement": "Given one vertex more than segments, checkPath of the tests of the optimisation raises no complaint exactly if every segment takes, at its start and its end, the values its two vertices prescribe for each derivative, and consecutive segments agree in all derivatives of orders below N/2, each component up to the tolerance. Whatever the optimiser solves passes, for every solver of linear systems and whatever the object was used for before, for vertices with constraints of the orders it handles. checkExtrema accepts exactly if every value tested is less than the tolerance away from some reference value.", "quantifier": "all paths with any number of vertices, dimensions, constraints and coefficients; all tolerances; all histories of the optimiser; all solvers", "why_tests_cant": "It is about the judgement of the tests themselves: a check that is skipped for some segment or order goes unnoticed, because it makes tests pass.", "anchors": ["subpackages/mav_trajectory_generation/test/test_polynomial_optimization.cpp: checkPath, checkExtrema", "subpackages/mav_trajectory_generation/include/mav_trajectory_generation/impl/polynomial_optimization_linear_impl.h: solveLinear, setFreeConstraints, getTrajectory"]}
{"id": "C169", "title": "The cost the optimiser reports agrees with the cost found by sampling the trajectory", "statement": "computeCostNumeric of a trajectory differs from the integral of the squared derivative over all segments and dimensions by at most a constant of the trajectory times the sampling interval. Hence checkCost of the tests, with samples close enough together, accepts the cost the optimiser reports of whatever it solved, for every positive tolerance and also if the cost is zero, accepts every cost that differs from the integral by less than the relative tolerance and rejects every cost that differs by more; a tolerance out of the range from 0 to 1 is a failed check.", "quantifier": "all trajectories with any number of segments, dimensions and coefficients, also with jumps in the derivative at the joints; all derivatives; all sampling intervals below a bound that depends on the trajectory; all histories of the optimiser; all solvers; all tolerances", "why_tests_cant": "Two independent computations, one from matrices, one from samples, are compared for every mission; a test compares them for a few missions and one interval.", "anchors": ["subpackages/mav_trajectory_generation/test/test_polynomial_optimization.cpp: checkCost", "subpackages/mav_trajectory_generation/include/mav_trajectory_generation/test_utils.h: computeCostNumeric", "subpackages/mav_trajectory_generation/include/mav_trajectory_generation/impl/polynomial_optimization_linear_impl.h: computeCost, solveLinear, getTrajectory"]}
{"id": "C170", "title": "The maxima found by sampling a trajectory agree with the computed ones", "statement": "For a trajectory of segments with positive durations the maximum speed and acceleration the tests find by sampling never exceed the ones computed from the extrema of the polynomials, whatever the sampling interval, and differ from them by at most any given positive tolerance if the samples are close enough together. No fixed interval suffices: for each one there are trajectories whose sampled maximum speed is lower by more than any given amount.", "quantifier": "all trajectories with any number of segments, dimensions and coefficients, also with jumps at the joints; all sampling intervals; all tolerances; all root finders that find the real roots", "why_tests_cant": "Two independent computations of the same number are compared for every trajectory; tests compare them for a few trajectories with one interval.", "anchors": ["subpackages/mav_trajectory_generation/test/test_polynomial_optimization.cpp: getMaxVelocityAndAccelerationAnalytical, getMaxVelocityAndAccelerationNumerical", "subpackages/mav_trajectory_generation/include/mav_trajectory_generation/test_utils.h: getMaximumMagnitude", "subpackages/mav_trajectory_generation/src/trajectory.cpp: computeMinMaxMagnitude"]}
{"id": "C171", "title": "A leg from rest to rest follows one course, and keeps a limit exactly if its duration is long enough", "statement": "Between two vertices made by makeStartOrEnd up to the snap, the optimiser for ten coefficients finds a trajectory for every duration it accepts, and it is always the same: every component goes from start to goal in the same way, without a stop, without overshooting and symmetrically in time, whatever derivative is optimised and whatever solver is used. The leg keeps a speed limit exactly if its duration is at least 315/128 times its length over the limit, and a limit of the acceleration exactly if the limit times the squared duration is at least 1215/(49 times the root of 7) times its length. With the duration estimateSegmentTimes gives for a speed limit and an acceleration, the speed limit is kept exactly if the leg is no longer than 128/187 of the squared limit over the acceleration: every longer leg is flown faster than the limit the duration was estimated for.", "quantifier": "all dimensions, starts, goals, durations, limits, derivatives to optimise, solvers and histories of the optimiser", "why_tests_cant": "The bounds are exact for a continuum of legs and durations and all instants in them; a test samples one leg, and the one there is is faster than its own limit without noticing.", "anchors": ["subpackages/mav_trajectory_generation/include/mav_trajectory_generation/impl/polynomial_optimization_linear_impl.h: setupFromVertices, solveLinear, setFreeConstraints", "subpackages/mav_trajectory_generation/src/vertex.cpp: makeStartOrEnd, estimateSegmentTimes", "subpackages/mav_trajectory_generation/test/test_polynomial_optimization.cpp: TwoVerticesSetup"]}
{"id": "C172", "title": "Axes of a mission can be planned apart", "statement": "If the vertices of a mission are reduced with getSubdimension to some of its axes, in any order, with all orders the optimiser handles, and solved on their own with the same durations and the same derivative to optimise, the solution is these axes of the solution of the whole mission, wherever that is unique (at least as many values of orders below the derivative are prescribed as its order, without gaps). So position and yaw, or the horizontal axes and height, can be planned apart, and put together with getTrajectoryWithAppendedDimension they are the solution of the whole mission. Unique or not, if each axis belongs to one of two parts, the cost of the mission is the sum of the costs of the parts.", "quantifier": "all missions with any number of vertices, axes and constraints; all selections and orders of axes; all durations; all histories of the optimisers; all solvers that solve linear systems", "why_tests_cant": "It compares solutions of different problems for every mission and every split of its axes; a test compares a few.", "anchors": ["subpackages/mav_trajectory_generation/include/mav_trajectory_generation/impl/polynomial_optimization_linear_impl.h: setupFromVertices, solveLinear, computeCost, getTrajectory", "subpackages/mav_trajectory_generation/src/vertex.cpp: getSubdimension", "subpackages/mav_trajectory_generation/src/trajectory.cpp: getTrajectoryWithAppendedDimension"]}
{"id": "C173", "title": "Missions add up", "statement": "If two missions have the same durations, optimise the same derivative and prescribe the same derivatives at the same vertices, and a third mission of that form prescribes alpha times the values of the first plus beta times those of the second, its solution is alpha times the solution of the first plus beta times that of the second, at every instant and in every derivative, wherever it is unique (at least as many values of orders below the derivative are prescribed as its order, without gaps). So moving a waypoint while the durations are kept changes the trajectory in proportion to the move, in a way that does not depend on where the other waypoints are.", "quantifier": "all pairs of missions of the same form, with any number of vertices, dimensions and constraints; all factors; all durations; all histories of the optimisers; all solvers that solve linear systems", "why_tests_cant": "It compares solutions of different problems for a continuum of missions; a test compares a few.", "anchors": ["subpackages/mav_trajectory_generation/include/mav_trajectory_generation/impl/polynomial_optimization_linear_impl.h: setupFromVertices, setupConstraintReorderingMatrix, solveLinear, getTrajectory"]}
{"id": "C174", "title": "A mission in a plane stays in it", "statement": "If all positions a mission prescribes lie in a plane, at any angle, and the derivatives it prescribes are parallel to it, the whole solution stays in that plane, wherever it is unique (at least as many values of orders below the derivative are prescribed as its order, without gaps): waypoints of equal height are flown at exactly that height, and a mission whose waypoints are on a straight line is flown on it. More generally, if all that is prescribed along a direction are values, at the instants of the vertices, of a polynomial of a degree below the derivative to optimise, and of its derivatives, the solution follows this polynomial along that direction at every instant.", "quantifier": "all missions with any number of vertices, dimensions and constraints; all planes and directions; all polynomials of a degree below the derivative; all durations; all histories of the optimiser; all solvers that solve linear systems; all instants and derivatives", "why_tests_cant": "It is about every instant of every such mission; a test samples a few instants of a few missions.", "anchors": ["subpackages/mav_trajectory_generation/include/mav_trajectory_generation/impl/polynomial_optimization_linear_impl.h: setupFromVertices, solveLinear, constructR, getTrajectory"]}
{"id": "C175", "title": "A polynomial path is recovered from its values at the vertices", "statement": "If all that a mission prescribes are values of one polynomial path, and of its derivatives, at the instants of the vertices, the degree of the path is below twice the order of the derivative to optimise (at most seven for the snap), and the first and the last vertex prescribe all orders below that derivative, the solution is exactly this path at every instant and in every derivative, however many vertices there are and whatever orders they prescribe without gaps: vertices put on a path of that kind do not change it.", "quantifier": "all polynomial paths of such degrees in any number of dimensions; all numbers of vertices, durations and prescribed orders; all derivatives to optimise; all histories of the optimiser; all solvers that solve linear systems; all instants", "why_tests_cant": "It is about every path of a continuum and every choice of vertices on it; a test tries a few.", "anchors": ["subpackages/mav_trajectory_generation/include/mav_trajectory_generation/impl/polynomial_optimization_linear_impl.h: setupFromVertices, solveLinear, constructR, computeQuadraticCostJacobian, getTrajectory"]}
