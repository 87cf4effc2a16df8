{"id": "C01", "title": "Duration arithmetic is exact and canonical", "statement": "Adding or subtracting two Durations whose nanosecond field is in [0,1e9) yields a Duration whose total nanosecond count is exactly the sum/difference and whose nanosecond field is again in [0,1e9), unless the seconds field overflows i64, in which case the operation panics (debug) and never returns a wrong value.", "quantifier": "all pairs of canonical Durations over the whole i64/i32 field range", "why_tests_cant": "carry/borrow and overflow boundaries form a 2^190 input space; tests sample a handful", "anchors": ["crates/aether_time/src/time/duration.rs:Duration::normalize", "crates/aether_time/src/time/duration.rs:impl Add for Duration", "crates/aether_time/src/time/duration.rs:impl Sub for Duration"]}
{"id": "C02", "title": "Duration constructors denote the requested length", "statement": "from_secs, from_millis, from_micros and from_nanos produce a canonical Duration (nanoseconds in [0,1e9)) whose total length is exactly the requested one, for every i64 argument including negative ones.", "quantifier": "every i64 argument", "why_tests_cant": "negative arguments and truncating division only misbehave on part of the range", "anchors": ["crates/aether_time/src/time/duration.rs:Duration::from_nanos", "crates/aether_time/src/time/duration.rs:Duration::from_millis", "crates/aether_time/src/time/duration.rs:Duration::from_micros", "crates/aether_time/src/time/duration.rs:Duration::from_secs"]}
{"id": "C03", "title": "Time and Duration form an affine pair", "statement": "For canonical values that do not overflow: (t + d) - t = d, t + (u - t) = u, t + (d + e) = (t + d) + e, and the by-value and by-reference operators return the same results; the total nanosecond count of t + d is the sum of the totals.", "quantifier": "all canonical times and durations whose results fit i64 seconds", "why_tests_cant": "must hold for every carry/borrow combination and every magnitude", "anchors": ["crates/aether_time/src/time/duration.rs:impl Add<Duration> for Time", "crates/aether_time/src/time/duration.rs:impl Sub<Time> for Time"]}
{"id": "C04", "title": "Comparison of Times and Durations is chronological", "statement": "For canonical values, <, <= and == agree with the comparison of total nanoseconds; the order is total, antisymmetric and transitive for arbitrary field values.", "quantifier": "all pairs/triples of values", "why_tests_cant": "order laws quantify over triples of values", "anchors": ["crates/aether_time/src/time/duration.rs:impl Ord for Duration", "crates/aether_time/src/time/time.rs:impl Ord for Time", "crates/aether_time/src/time/time.rs:impl PartialEq for Time"]}
{"id": "C05", "title": "Time-scale conversions are mutually inverse", "statement": "While the configured leap-second count does not change, converting between UTC, Unix, TAI and GPS and back is the identity, GPS minus TAI is the same constant whatever the leap-second setting, and all conversions preserve elapsed durations and order; if the leap count changes from a to b between the two directions, the round trip through TAI or GPS is shifted by exactly the change of the leap count (a-b seconds).", "quantifier": "all times (no overflow) and all leap-second settings, including changes between calls", "why_tests_cant": "the leap-second count is global mutable state; the law ranges over all interleavings of set_leap_seconds with conversions", "anchors": ["crates/aether_time/src/time/time.rs:tai_minus_utc", "crates/aether_time/src/time/time.rs:set_leap_seconds", "crates/aether_time/src/time/time.rs:Time<UTC>::to_tai", "crates/aether_time/src/time/time.rs:Time<TAI>::to_utc", "crates/aether_time/src/time/time.rs:Time<UTC>::to_gps", "crates/aether_time/src/time/time.rs:Time<GPS>::to_utc", "crates/aether_time/src/time/time.rs:Time<GPS>::to_tai", "crates/aether_time/src/time/time.rs:Time<TAI>::to_gps"]}
{"id": "C06", "title": "GPS week rollover resolution", "statement": "For a GPS time and a hint week, the returned seconds-of-week is in [0,604800), the raw week is the true week modulo 1024, and the full week is a week number congruent to the raw week modulo 1024 that is nearest to the hint (at most 512 away); when the true week is within 511 of the hint, the full week is the true week and week*604800+sow reconstructs the time.", "quantifier": "all GPS times and all u32 hints", "why_tests_cant": "rollover happens every 19.7 years; every (time, hint) pair must resolve correctly", "anchors": ["crates/aether_time/src/time/gps.rs:Time<GPS>::to_gps_week"]}
{"id": "C07", "title": "Hardware ticks convert exactly, across counter wrap", "statement": "The mission-elapsed time is the wrap-around tick difference divided by the tick rate, rounded down to a nanosecond, in canonical form; now_tai is the start time plus that; a tick rate of zero panics.", "quantifier": "all u64 start ticks, current ticks (including after the counter wrapped) and tick rates", "why_tests_cant": "the counter wrap point and all tick rates cannot be enumerated", "anchors": ["crates/aether_time/src/time/mission.rs:Epoch::duration_from_ticks", "crates/aether_time/src/time/mission.rs:TimeKeeper::now_tai", "crates/aether_time/src/time/mission.rs:TimeKeeper::t_plus"]}
{"id": "C08", "title": "Incremental tick polling neither loses nor invents time", "statement": "Over any sequence of polls of dt_from_ticks (each within one counter wrap of the previous) the stored tick equals the last polled tick and the sum of the returned durations is at most the true elapsed time and short of it by less than one nanosecond per poll.", "quantifier": "all poll sequences of any length, any tick rate, any wraps", "why_tests_cant": "the accumulated error bound quantifies over histories of unbounded length", "anchors": ["crates/aether_time/src/time/mission.rs:TimeKeeper::dt_from_ticks"]}
{"id": "C09", "title": "Periodic timer conserves time", "statement": "For a positive canonical period and any sequence of non-negative canonical steps, after each step the timer's stored remainder is in [0, period), is congruent to total elapsed time modulo the period, and the step reports true exactly when the elapsed time crossed a multiple of the period during that step; for a zero or negative period a step that reaches it never returns.", "quantifier": "all periods, all finite step sequences", "why_tests_cant": "remainder drift only shows over long histories; non-termination cannot be tested", "anchors": ["crates/aether_time/src/time/mission.rs:TimerEvent::step", "crates/aether_time/src/time/mission.rs:TimerEvent::new"]}
{"id": "C10", "title": "A timer set behaves as independent timers", "statement": "Stepping a TimerSet is the same as stepping each of its timers separately; the i-th flag is the i-th timer's result, for any number of timers and any step sequence.", "quantifier": "all N, all periods, all step sequences", "why_tests_cant": "N is a const generic and histories are unbounded", "anchors": ["crates/aether_time/src/time/mission.rs:TimerSet::step", "crates/aether_time/src/time/mission.rs:TimerSet::new"]}
{"id": "C11", "title": "A UTC alarm fires exactly once, at the first poll at or after its target", "statement": "For any sequence of polled times, check returns true at exactly the first poll with now >= target and false at every other poll; is_done is true from then on.", "quantifier": "all poll sequences (monotone or not) and all targets", "why_tests_cant": "quantifies over all histories", "anchors": ["crates/aether_time/src/time/schedule.rs:UtcAlarm::check", "crates/aether_time/src/time/schedule.rs:UtcAlarm::is_done"]}
{"id": "C12", "title": "Interval schedules keep their phase", "statement": "For a positive period, after any sequence of polls next_fire is strictly later than every poll that fired, equals start + k*period for a positive integer k, and a poll fires iff now has reached the pending next_fire (missed ticks are coalesced into one firing and none is lost).", "quantifier": "all periods, starts and poll sequences", "why_tests_cant": "catch-up over arbitrary gaps; histories are unbounded", "anchors": ["crates/aether_time/src/time/schedule.rs:UtcSchedule::check", "crates/aether_time/src/time/schedule.rs:next_interval"]}
{"id": "C13", "title": "Hourly and daily schedules pick the next matching wall-clock second", "statement": "The next firing time is the earliest whole second strictly after now whose minute/second (hour/minute/second) match the pattern.", "quantifier": "all current times and all valid patterns", "why_tests_cant": "every second of history and every pattern; negative (pre-1970) times take a different arithmetic branch", "anchors": ["crates/aether_time/src/time/schedule.rs:next_hourly", "crates/aether_time/src/time/schedule.rs:next_daily"]}
{"id": "C14", "title": "Calendar dates agree with the proleptic Gregorian calendar", "statement": "Converting a UTC time at or after 1970 to a date yields the date obtained by counting days one by one with the Gregorian leap-year rule, and the hour/minute/second/nanos of the time of day.", "quantifier": "all UTC times from 1970 until the year exceeds i32", "why_tests_cant": "calendar arithmetic errors hide at 4/100/400-year boundaries over an unbounded range", "anchors": ["crates/aether_time/src/time/schedule.rs:days_to_ymd", "crates/aether_time/src/time/schedule.rs:Time<UTC>::to_utc_datetime"]}
{"id": "C15", "title": "Date conversion round-trips", "statement": "from_utc_datetime(to_utc_datetime(t)) = t for every time, and to_utc_datetime(from_utc_datetime(d)) = d for every valid civil date-time; later dates map to later times.", "quantifier": "all times; all valid dates", "why_tests_cant": "round trips must hold on the whole range, including before the epoch", "anchors": ["crates/aether_time/src/time/schedule.rs:Time<UTC>::from_utc_datetime", "crates/aether_time/src/time/schedule.rs:Time<UTC>::to_utc_datetime"]}
{"id": "C16", "title": "Yearly schedules pick the next matching date", "statement": "The next firing time of a yearly schedule is strictly after now, at most one year and a day later, and its calendar date-time is the requested month/day/time.", "quantifier": "all current times and all valid month/day/time patterns", "why_tests_cant": "leap years and year boundaries", "anchors": ["crates/aether_time/src/time/schedule.rs:next_yearly"]}
{"id": "C17", "title": "One-shot schedules fire once", "statement": "A schedule with recurrence Once reports a firing at most once over any poll sequence.", "quantifier": "all poll sequences", "why_tests_cant": "quantifies over histories", "anchors": ["crates/aether_time/src/time/schedule.rs:UtcSchedule::check"]}
{"id": "C18", "title": "The generator never gets stuck", "statement": "For every seed (including 0) and after any number of draws the internal state is non-zero, every 64-bit output is non-zero, and no draw panics.", "quantifier": "all 2^64 seeds and all histories", "why_tests_cant": "the state space has 2^64 elements", "anchors": ["crates/aether_rand/src/randomizers/xor_shift.rs:XorShift64Star::new", "crates/aether_rand/src/randomizers/xor_shift.rs:XorShift64Star::next_u64"]}
{"id": "C19", "title": "Distinct seeds give distinct, non-merging streams", "statement": "One draw is a bijection of the state space and the output determines the state, so two generators with different states produce different outputs at every later draw; seeds other than 0 and the substitute constant never collide.", "quantifier": "all pairs of seeds, all draw counts", "why_tests_cant": "pairs of 64-bit seeds cannot be enumerated", "anchors": ["crates/aether_rand/src/randomizers/xor_shift.rs:XorShift64Star::next_u64", "crates/aether_rand/src/randomizers/xor_shift.rs:XorShift64Star::new"]}
{"id": "C20", "title": "Uniform reals lie in [0,1)", "statement": "Every value returned by the uniform real sampler is at least 0 and strictly less than 1, for f64 and for f32, and takes exactly the values k/2^53 for f64.", "quantifier": "all generator states, both precisions", "why_tests_cant": "the offending draws have probability 2^-25 or less", "anchors": ["crates/aether_rand/src/randomizers/xor_shift.rs:XorShift64Star::next_real"]}
{"id": "C21", "title": "Matrix product computes the textbook sum in index order", "statement": "Every entry of a matrix product is the left-to-right accumulation over k of a[i][k]*b[k][j] starting from zero, identically for the direct and the cache-blocked path, for every size; over the reals it is the matrix product.", "quantifier": "all sizes M,N,P (below and above the blocking threshold), all entries, any scalar arithmetic", "why_tests_cant": "block-edge bugs appear only at particular sizes", "anchors": ["crates/aether_core/src/math/algorithms.rs:mul_matrix_strided", "crates/aether_core/src/math/matrix.rs:impl Mul<Matrix> for Matrix"]}
{"id": "C22", "title": "Matrix-vector products and dot products agree with the definition", "statement": "Matrix-vector product entries are the accumulated dot products of rows with the vector, including unrolled tails of any length; dot and norm accumulate in index order.", "quantifier": "all sizes (all unroll remainders), all entries", "why_tests_cant": "remainder handling depends on N mod 4", "anchors": ["crates/aether_core/src/math/algorithms.rs:mul_vector_unrolled", "crates/aether_core/src/math/vector.rs:Vector::dot", "crates/aether_core/src/math/vector.rs:Vector::norm"]}
{"id": "C23", "title": "Elementwise matrix algebra", "statement": "Addition, subtraction, negation, scalar scaling, transpose, identity, diagonal, outer product and trace act entrywise as defined; transpose is an involution and reverses products (over a commutative ring); identity is neutral.", "quantifier": "all sizes and entries", "why_tests_cant": "sizes are const generics", "anchors": ["crates/aether_core/src/math/matrix.rs:Matrix::transpose", "crates/aether_core/src/math/matrix.rs:Matrix::identity", "crates/aether_core/src/math/matrix.rs:Matrix::trace", "crates/aether_core/src/math/matrix.rs:Matrix::outer"]}
{"id": "C24", "title": "LU solve is correct whenever it succeeds", "statement": "If solving A x = b by LU with partial pivoting returns a solution x, then A x = b exactly (over the reals), the recorded pivots are a permutation and P A = L U with unit lower-triangular L; multi-right-hand-side solve satisfies A X = B.", "quantifier": "all sizes N, all matrices and right-hand sides", "why_tests_cant": "all matrices of all sizes", "anchors": ["crates/aether_core/src/numerical_methods/solvers/lu.rs:lu_decompose", "crates/aether_core/src/numerical_methods/solvers/lu.rs:lu_solve"]}
{"id": "C25", "title": "Cholesky factorisation and SPD solve are correct", "statement": "If the lower Cholesky factor L is returned for a symmetric A then L L^T = A, L is lower triangular with positive diagonal, A is positive definite, and the SPD solve returns x with A x = b; conversely it succeeds for every positive-definite matrix whose pivots exceed the threshold.", "quantifier": "all sizes and all symmetric matrices", "why_tests_cant": "all matrices of all sizes", "anchors": ["crates/aether_core/src/numerical_methods/solvers/spd.rs:cholesky_lower", "crates/aether_core/src/numerical_methods/solvers/spd.rs:CholLower::solve"]}
{"id": "C26", "title": "Determinant and inverses", "statement": "determinant returns det A whenever no pivot falls under its threshold; the 3x3 adjugate inverse and the Gauss-Jordan inverse, when they return Some, return a two-sided inverse, and they return None for every singular matrix.", "quantifier": "all matrices", "why_tests_cant": "all matrices of all sizes", "anchors": ["crates/aether_core/src/math/matrix.rs:Matrix::determinant", "crates/aether_core/src/math/matrix.rs:Matrix::inverse", "crates/aether_core/src/math/matrix.rs:Matrix::inverse_gauss_jordan"]}
{"id": "C27", "title": "Tensor indexing is a bijection onto storage", "statement": "The flat offset of a multi-index that is in bounds is within the storage length, different in-bounds multi-indices have different offsets, every storage slot is hit, and the order is row-major.", "quantifier": "all shapes and ranks", "why_tests_cant": "all ranks and shapes", "anchors": ["crates/aether_core/src/math/tensor.rs:Tensor::offset"]}
{"id": "C28", "title": "Quaternion rotation is a rotation", "statement": "For every non-zero quaternion, rotating vectors preserves inner products and lengths, is linear, fixes the vector part, and does not change under scaling or negation of the quaternion.", "quantifier": "all non-zero quaternions and all vectors (over the reals)", "why_tests_cant": "continuous domain", "anchors": ["crates/aether_core/src/attitude/quaternion.rs:Quaternion::rotate_vector"]}
{"id": "C29", "title": "Quaternion and direction-cosine-matrix rotations agree", "statement": "For a unit quaternion q, q.rotate_vector(v) equals DirectionCosineMatrix::from(q)*v and q.to_dcm()*v for every v.", "quantifier": "all unit quaternions and vectors", "why_tests_cant": "continuous domain; a transposed convention passes tests on symmetric cases", "anchors": ["crates/aether_core/src/attitude/quaternion.rs:Quaternion::rotate_vector", "crates/aether_core/src/attitude/quaternion.rs:Quaternion::to_dcm", "crates/aether_core/src/attitude/dcm.rs:From<&Quaternion> for DirectionCosineMatrix"]}
{"id": "C30", "title": "Composition of quaternions matches composition of rotations", "statement": "Rotating by a product of two quaternions equals rotating by one and then the other in the order given by the frame types (as for direction cosine matrices).", "quantifier": "all unit quaternions and vectors", "why_tests_cant": "order errors are invisible when the rotations commute", "anchors": ["crates/aether_core/src/attitude/quaternion.rs:impl Mul for Quaternion", "crates/aether_core/src/attitude/rotation.rs:Rotation::compose"]}
{"id": "C31", "title": "Quaternion algebra", "statement": "The product is associative with identity, the norm is multiplicative, q times its inverse is the identity for every non-zero q, normalized() has norm one, and the conjugate of a product is the reversed product of conjugates.", "quantifier": "all quaternions (over the reals)", "why_tests_cant": "continuous domain", "anchors": ["crates/aether_core/src/attitude/quaternion.rs:Quaternion::inverse", "crates/aether_core/src/attitude/quaternion.rs:Quaternion::conjugate", "crates/aether_core/src/attitude/quaternion.rs:Quaternion::normalized", "crates/aether_core/src/attitude/quaternion.rs:impl Mul for Quaternion"]}
{"id": "C32", "title": "Direction cosine matrix round trip", "statement": "Converting a unit quaternion to a direction cosine matrix and back returns the same quaternion up to sign, never an error; every elementary rotation matrix and every frame-transform matrix is orthogonal with determinant one.", "quantifier": "all unit quaternions; all angles", "why_tests_cant": "which of four formula branches runs depends on the input region", "anchors": ["crates/aether_core/src/attitude/quaternion.rs:TryFrom<&DirectionCosineMatrix> for Quaternion", "crates/aether_core/src/attitude/dcm.rs:DirectionCosineMatrix::rotate_x", "crates/aether_core/src/reference_frame/transforms.rs"]}
{"id": "C33", "title": "Euler angles, matrices and quaternions describe the same rotation", "statement": "The rotation matrix of Euler angles equals the product of the elementary rotations, equals the matrix of the quaternion built from the same angles, and extracting angles from that matrix recovers them away from gimbal lock.", "quantifier": "all angle triples", "why_tests_cant": "continuous domain with branch cuts", "anchors": ["crates/aether_core/src/attitude/euler.rs:From<&Quaternion> for Euler", "crates/aether_core/src/attitude/euler.rs:From<&DirectionCosineMatrix> for Euler", "crates/aether_core/src/attitude/dcm.rs:From<Euler> for DirectionCosineMatrix", "crates/aether_core/src/attitude/quaternion.rs:From<&Euler> for Quaternion"]}
{"id": "C34", "title": "Cartesian, spherical and cylindrical coordinates round-trip", "statement": "Converting a point to spherical or cylindrical coordinates and back returns the same point; radii are non-negative and angles are in the principal ranges.", "quantifier": "all points (all octants, axes, origin)", "why_tests_cant": "octants and axis cases of a continuous domain", "anchors": ["crates/aether_core/src/coordinate/spherical.rs", "crates/aether_core/src/coordinate/cylindrical.rs", "crates/aether_core/src/coordinate/cartesian.rs"]}
{"id": "C35", "title": "Frame transformations are mutually inverse rotations", "statement": "Inertial-to-Earth-fixed and its inverse, lunar inertial/fixed transforms at any epoch, wind/body/flight-path and NED transforms are rotation matrices and the paired directions compose to the identity.", "quantifier": "all times, latitudes, longitudes and angles", "why_tests_cant": "continuous domain", "anchors": ["crates/aether_core/src/reference_frame/transforms.rs", "crates/aether_models/src/terrestrial/wgs84/transforms/mod.rs:icrf_to_itrf", "crates/aether_models/src/lunar/transforms.rs"]}
{"id": "C36", "title": "Linear interpolation laws", "statement": "lerp hits both endpoints, is affine and monotone in t, stays between the endpoints for t in [0,1]; inverse_lerp inverts it whenever the endpoints differ by more than the tolerance; remap maps range endpoints to range endpoints.", "quantifier": "all reals", "why_tests_cant": "continuous domain", "anchors": ["crates/aether_interp/src/lerp.rs:lerp", "crates/aether_interp/src/lerp.rs:inverse_lerp", "crates/aether_interp/src/lerp.rs:remap"]}
{"id": "C37", "title": "Polynomial interpolation is the unique interpolant", "statement": "Construction fails exactly when there are no nodes or two nodes are within tolerance; otherwise evaluation returns the node value at each node and equals the value of the unique polynomial of degree below N through the data at every point further than the tolerance from all nodes.", "quantifier": "all N, all node sets and values, all evaluation points", "why_tests_cant": "all N and a continuous domain", "anchors": ["crates/aether_interp/src/polynomial.rs:PolynomialInterpolator::new", "crates/aether_interp/src/polynomial.rs:PolynomialInterpolator::evaluate"]}
{"id": "C38", "title": "Cubic spline is the natural spline", "statement": "For strictly increasing knots the constructed spline passes through every data point, its first and second derivatives are continuous at every interior knot, and its second derivative vanishes at both ends; it reproduces straight lines.", "quantifier": "all N >= 2, all strictly increasing knots, all values", "why_tests_cant": "N is a const generic and data are continuous", "anchors": ["crates/aether_interp/src/spline.rs:CubicSpline::new", "crates/aether_interp/src/spline.rs:CubicSpline::evaluate"]}
{"id": "C39", "title": "Spline segment search", "statement": "For every query point the search terminates with a valid segment index; if the point is inside the knot range the segment contains it, otherwise it is the first/last segment.", "quantifier": "all N, all sorted knot arrays, all query points", "why_tests_cant": "off-by-one errors at every knot position", "anchors": ["crates/aether_interp/src/spline.rs:CubicSpline::segment_index"]}
{"id": "C40", "title": "Gradient descent reports honestly", "statement": "The returned value is the objective at the returned point, the iteration count never exceeds the limit, a 'converged' result satisfies the gradient or decrease tolerance that was requested, and with the Armijo line search an accepted (not given-up) step satisfies the sufficient-decrease condition.", "quantifier": "all objectives, gradients, starting points and option settings", "why_tests_cant": "quantifies over arbitrary user functions and histories", "anchors": ["crates/aether_opt/src/gradient_descent/basic.rs:GradientDescentGeneric::minimize"]}
{"id": "C41", "title": "Box constraints are respected", "statement": "With bounds set (lo <= hi) the returned point is inside the box.", "quantifier": "all objectives, gradients, boxes and starting points", "why_tests_cant": "early-exit paths skip the projection", "anchors": ["crates/aether_opt/src/gradient_descent/basic.rs:GradientDescentGeneric::minimize"]}
{"id": "C42", "title": "Parallel batch partition is exact", "statement": "The batch indices handed to worker threads are contiguous, disjoint and cover the batch exactly once for every batch size and thread count, no worker gets an empty range when threads <= batch size, and the aggregated gradient does not depend on the order in which workers finish.", "quantifier": "all batch sizes, thread counts and schedules", "why_tests_cant": "all (batch, threads) pairs and all interleavings", "anchors": ["crates/aether_opt/src/gradient_descent/stochastic_parallel.rs:GDStochasticParallel::minimize"]}
{"id": "C43", "title": "Per-thread random streams are distinct", "statement": "Within an iteration different workers get different seeds, and one worker gets different seeds in different iterations.", "quantifier": "all base seeds, thread indices and iterations", "why_tests_cant": "64-bit domain", "anchors": ["crates/aether_opt/src/gradient_descent/stochastic_parallel.rs:thread_seed"]}
{"id": "C44", "title": "Stochastic descent stop rule", "statement": "minimize reports convergence only when a requested tolerance is met.", "quantifier": "all objectives and settings", "why_tests_cant": "quantifies over arbitrary objectives, including negative-valued ones", "anchors": ["crates/aether_opt/src/gradient_descent/stochastic.rs:GDStochastic::minimize"]}
{"id": "C45", "title": "Linear and ridge regression take true gradient steps", "statement": "One training epoch moves the parameters by minus the learning rate times the gradient of the (regularised) mean squared error over the data set, and the gradient given to the optimiser is the derivative of the objective given to it.", "quantifier": "all data sets, dimensions, weights and rates", "why_tests_cant": "continuous domain and arbitrary data sizes", "anchors": ["crates/aether_ml/src/regression/linear.rs", "crates/aether_ml/src/regression/ridge.rs"]}
{"id": "C46", "title": "Logistic regression", "statement": "The predicted class is 1 iff the linear score is positive, predicted probabilities are strictly between 0 and 1, one epoch is a gradient step of the cross-entropy, and the optimiser receives the gradient of its objective.", "quantifier": "all data and weights", "why_tests_cant": "continuous domain", "anchors": ["crates/aether_ml/src/regression/logistic.rs"]}
{"id": "C47", "title": "Perceptron mistake bound", "statement": "On data with labels +1/-1 that are linearly separable with margin gamma inside radius R, training makes at most (R/gamma)^2 weight updates over any number of epochs, in any order.", "quantifier": "all separable data sets, all epoch counts, any learning rate", "why_tests_cant": "the bound quantifies over unbounded training histories", "anchors": ["crates/aether_ml/src/classification/perceptron.rs:Perceptron::train_epoch"]}
{"id": "C48", "title": "Naive Bayes returns the most probable class", "statement": "fit refuses labels that are not classes and otherwise computes class counts, frequencies (non-negative, summing to one), means and variances; predict returns, among the classes that have data, the one with the largest prior times product of normal densities with those means and variances (floored), the first such class on ties.", "quantifier": "all data sets and queries", "why_tests_cant": "arbitrary data", "anchors": ["crates/aether_ml/src/classification/naive_bayes.rs"]}
{"id": "C49", "title": "Sample covariance", "statement": "Sample covariance fails exactly on fewer than two samples, is symmetric and positive semi-definite, equals the textbook formula, is invariant under translating the data and under permuting samples; cross-covariance of x with itself is the covariance and swapping arguments transposes it.", "quantifier": "all dimensions, all sample sets", "why_tests_cant": "arbitrary numbers of samples and dimensions", "anchors": ["crates/aether_stats/src/covariance.rs:sample_covariance", "crates/aether_stats/src/covariance.rs:sample_cross_covariance", "crates/aether_stats/src/covariance.rs:mean"]}
{"id": "C50", "title": "Correlation and covariance convert back and forth", "statement": "correlation_from_covariance fails exactly when some variance is not above the threshold; otherwise the result has unit diagonal, entries in [-1,1] for a positive semi-definite input, and covariance_from_correlation restores the covariance.", "quantifier": "all covariance matrices", "why_tests_cant": "arbitrary dimension", "anchors": ["crates/aether_stats/src/covariance.rs:correlation_from_covariance", "crates/aether_stats/src/covariance.rs:covariance_from_correlation", "crates/aether_stats/src/covariance.rs:standard_deviations_from_covariance"]}
{"id": "C51", "title": "Fitted discrete distributions are probability distributions", "statement": "Bernoulli and categorical maximum-likelihood fits have probabilities in [0,1] that sum to one and equal empirical frequencies; pmf is zero outside the support.", "quantifier": "all data sets", "why_tests_cant": "arbitrary data", "anchors": ["crates/aether_stats/src/distributions/bernoulli.rs", "crates/aether_stats/src/distributions/categorical.rs"]}
{"id": "C52", "title": "Unit prefixes round-trip", "statement": "Converting a base quantity to a prefixed unit and back is the identity, the factor between two prefixes is the quotient of powers of ten given by SI, and quantity arithmetic commutes with conversion.", "quantifier": "all quantities and all prefixes of length, time and mass", "why_tests_cant": "all values times all prefixes", "anchors": ["crates/aether_units/src/si/si_prefix.rs", "crates/aether_units/src/base/units.rs:Quantity"]}
{"id": "C53", "title": "Mass properties combine conservatively", "statement": "Adding two mass models adds volume and mass and returns the mass, centre of mass and inertia tensor (about that centre) of the two bodies together; subtracting a part from a whole returns those of the rest. Addition is commutative and associative, subtracting one part from the sum gives the other part back, and the operations are refused exactly for parts without volume or a combination without positive mass or volume.", "quantifier": "all mass models, of any shape, density, orientation and position, and all distributions of mass they describe", "why_tests_cant": "continuous domain with frame shifts", "anchors": ["crates/aether_shapes/src/attributes.rs:impl Add for MassModel", "crates/aether_shapes/src/attributes.rs:impl Sub for MassModel", "crates/aether_shapes/src/attributes.rs:parallel_axis", "crates/aether_shapes/src/attributes.rs:MassModel::add_with", "crates/aether_shapes/src/attributes.rs:MassModel::subtract_with"]}
{"id": "C54", "title": "Volumes and inertias of solids are those of the geometry", "statement": "The volume and principal moments reported for a sphere, cylinder and rectangular prism are the volume of the geometric region and the moments of inertia, about its centre, of that region filled uniformly; the moments are non-negative, satisfy the triangle inequality, and scale with mass and with the square of size.", "quantifier": "all dimensions, masses and densities", "why_tests_cant": "continuous domain", "anchors": ["crates/aether_shapes/src/sphere.rs", "crates/aether_shapes/src/cylinder.rs", "crates/aether_shapes/src/prism.rs"]}
{"id": "C55", "title": "Propellant tank limits are consistent", "statement": "Usable volume lies between 0 and the geometric volume for every specification (also negative or oversized inputs); aggregate mass and inertia are non-negative, additive under concatenation and independent of tank order.", "quantifier": "all tank lists and specifications", "why_tests_cant": "arbitrary lists and out-of-range inputs", "anchors": ["crates/aether_fluids/src/lib.rs:PropellantTankSpec::limits", "crates/aether_fluids/src/lib.rs"]}
{"id": "C56", "title": "Earth force model obeys mechanics", "statement": "The Coriolis force is orthogonal to velocity (does no work), the centrifugal force is orthogonal to the rotation axis, and gravity-gradient torque vanishes for a spherical inertia tensor and is orthogonal to the position.", "quantifier": "all states", "why_tests_cant": "continuous domain", "anchors": ["crates/aether_models/src/terrestrial/earth.rs"]}
{"id": "C57", "title": "Normal gravity is symmetric about the equator", "statement": "Normal gravity at latitude phi equals normal gravity at -phi, and equals the polar value at the poles and the equatorial value on the equator.", "quantifier": "all latitudes", "why_tests_cant": "continuous domain", "anchors": ["crates/aether_models/src/terrestrial/wgs84/gravity/mod.rs:gravity_normal"]}
{"id": "C58", "title": "Geodetic and Earth-fixed coordinates round-trip", "statement": "A converged iterative geodetic solution maps back to the original Earth-fixed position; the iteration always terminates; geodetic-to-ECEF points of zero altitude lie on the reference ellipsoid.", "quantifier": "all positions", "why_tests_cant": "continuous domain and an iteration", "anchors": ["crates/aether_models/src/terrestrial/wgs84/transforms/mod.rs:ecef_to_geocentric", "crates/aether_models/src/terrestrial/wgs84/transforms/mod.rs:geocentric_to_ecef", "crates/aether_models/src/terrestrial/wgs84/transforms/mod.rs:ecef_to_geocentric_ferrari"]}
{"id": "C59", "title": "ICAO standard atmosphere", "statement": "Temperature is continuous in altitude, follows the layer lapse rates from the standard's base values, is defined exactly up to 80 km, is positive; pressure and density are positive and satisfy the gas law; inside every layer the pressure gradient is minus density times standard gravity; geometric and geopotential altitude conversions are inverse.", "quantifier": "all altitudes", "why_tests_cant": "layer boundaries of a continuous domain", "anchors": ["crates/aether_models/src/terrestrial/atmospheres/isa.rs:ISA::temperature", "crates/aether_models/src/terrestrial/atmospheres/isa.rs:ISA::pressure", "crates/aether_models/src/terrestrial/atmospheres/isa.rs:ISA::get_base_index", "crates/aether_models/src/terrestrial/atmospheres/isa.rs:ISA::geopotential_altitude"]}
{"id": "C60", "title": "US standard atmosphere", "statement": "Queries above the table return an error rather than panic; temperature is positive and continuous at layer boundaries and follows the tables and the standard's exponential; pressure and density are positive and satisfy the gas law, with the pressure gradient of standard gravity and the tabulated pressures at the layer boundaries; the speed of sound is sqrt(gamma R T); viscosity is Sutherland's formula.", "quantifier": "all heights", "why_tests_cant": "layer boundaries and out-of-table heights", "anchors": ["crates/aether_models/src/terrestrial/atmospheres/ussa.rs:USSA::temperature", "crates/aether_models/src/terrestrial/atmospheres/ussa.rs:USSA::get_base_index", "crates/aether_models/src/terrestrial/atmospheres/ussa.rs:USSA::speed_of_sound", "crates/aether_models/src/terrestrial/atmospheres/ussa.rs:USSA::pressure", "crates/aether_models/src/terrestrial/atmospheres/ussa.rs:USSA::viscosity"]}
{"id": "C61", "title": "Lunar gravity is a central inverse-square field", "statement": "Away from the centre the acceleration points to the centre with magnitude GM/r^2; torque is orthogonal to position; at the centre the result is zero rather than undefined.", "quantifier": "all positions", "why_tests_cant": "continuous domain", "anchors": ["crates/aether_models/src/lunar/moon.rs:Moon::gravitational_acceleration", "crates/aether_models/src/lunar/moon.rs:Moon::solve_gravitational_torque"]}
{"id": "C62", "title": "look_at is a rigid camera transform", "statement": "The view transform maps the eye to the origin, the look-at point onto the negative z axis at its distance, preserves distances and orientation (determinant one).", "quantifier": "all non-degenerate eye/center/up", "why_tests_cant": "continuous domain", "anchors": ["crates/aether_graphics/src/graphics/transforms.rs:look_at"]}
{"id": "C63", "title": "Orbit camera stays orthonormal", "statement": "After any sequence of set_angles, orbit operations and assignments of public fields from the default camera, forward, right and up are orthonormal with up in the upper half-space, the target is straight ahead at the set distance, after an orbit operation yaw and pitch are the azimuth and elevation of the forward axis, set_angles stores the given angles and changes no other public field, a zero drag changes nothing and horizontal drags add up.", "quantifier": "all operation sequences", "why_tests_cant": "drift accumulates over unbounded histories", "anchors": ["crates/aether_graphics/src/cameras/orbit_camera.rs:OrbitCamera"]}
{"id": "C64", "title": "The magnetic field reported is minus the gradient of the published potential", "statement": "Whenever the WMM-2025 model evaluates at a geodetic point, the north, east and down components are minus the derivatives, along the geodetic north, east and down directions, of the spherical-harmonic potential with the published Schmidt coefficients moved linearly to the requested date (up to the requested degree, evaluated at the geocentric position of the point on the WGS-84 ellipsoid); the Legendre values equal the Schmidt semi-normalised Rodrigues functions and the reported slopes are their derivatives; longitude harmonics are cos(m lambda), sin(m lambda); H, F, declination and inclination are the polar forms of the components; every reported rate is the time derivative of the corresponding element; and the geographic poles and the degenerate field are reported as errors.", "quantifier": "all dates, maximum degrees up to 12, and geodetic points", "why_tests_cant": "continuous domain and all degrees/orders", "anchors": ["crates/aether_catalogs/src/wmm/mod.rs:WorldMagneticModel::evaluate_with_coefficients", "crates/aether_catalogs/src/wmm/mod.rs:schmidt_semi_normalized_legendre", "crates/aether_catalogs/src/wmm/mod.rs:longitude_harmonics", "crates/aether_catalogs/src/wmm/mod.rs:WorldMagneticModel::coefficients_at"]}
{"id": "C65", "title": "Triangular coefficient table", "statement": "Distinct (degree, order) pairs with order <= degree <= 12 use distinct slots that exactly fill the 91-entry table; after any sequence of writes a read returns the last value written to that pair and untouched pairs keep their value; out-of-range reads return zero and out-of-range writes fail; the coefficients at a date are the published ones plus (date - epoch) times the published rates, for every pair and date.", "quantifier": "all pairs and all update sequences", "why_tests_cant": "aliasing between slots", "anchors": ["crates/aether_catalogs/src/wmm/mod.rs:TriangularTable", "crates/aether_catalogs/src/wmm/mod.rs:WorldMagneticModel::coefficients_at"]}
{"id": "C66", "title": "Star colours are displayable", "statement": "For every colour index each RGB channel of bp_rp_to_rgb (linear or not) is in [0,1], the effective temperature is within the published table's range, never increases with the index and takes the table's values at its knots; for every temperature the blackbody colour is in [0,1], red never increases and blue never decreases with temperature; the display transfer function maps [0,1] into itself monotonically; photometric and infrared colours of records are displayable, present exactly when the magnitudes are, and brighter infrared magnitudes give larger channels.", "quantifier": "all real colour indices, temperatures, magnitudes and records", "why_tests_cant": "continuous domain with clamps and branches", "anchors": ["crates/aether_catalogs/src/star_catalogs/color.rs:bp_rp_to_teff", "crates/aether_catalogs/src/star_catalogs/color.rs:blackbody_to_rgb", "crates/aether_catalogs/src/star_catalogs/color.rs:srgb_to_linear", "crates/aether_catalogs/src/star_catalogs/color.rs:bp_rp_to_rgb", "crates/aether_catalogs/src/star_catalogs/mod.rs:PhotometricColor::photometric_color", "crates/aether_catalogs/src/star_catalogs/mod.rs:InfraredColor::photometric_infrared_rgb"]}
{"id": "C67", "title": "A catalogue file is parsed only if its checksum matches", "statement": "from_csv_with_expected_sha256 returns records only if the digest of the file bytes equals the expected digest (hex, case-insensitively), whatever sizes the file reads return.", "quantifier": "all file contents, all read chunkings, all expected strings", "why_tests_cant": "all chunkings of all files", "anchors": ["crates/aether_catalogs/src/star_catalogs/mod.rs:GncCatalogReader::verify_catalog_checksum", "crates/aether_catalogs/src/star_catalogs/mod.rs:GncCatalogReader::from_csv_with_expected_sha256"]}
{"id": "C68", "title": "CSV tailing is independent of how the file grows", "statement": "For any append-only CSV file, whatever the byte positions at which successive polls observe it (also inside a line), the plotted series equal those of parsing the complete lines of the file in one go.", "quantifier": "all file contents and all poll schedules", "why_tests_cant": "all ways of splitting a stream into chunks", "anchors": ["crates/aether_viz/src/realtime.rs:CsvRealtimePlotter::parse_text_chunk", "crates/aether_viz/src/realtime.rs:CsvRealtimePlotter::update_once", "crates/aether_viz/src/realtime.rs:CsvRealtimePlotter::read_new_bytes"]}
{"id": "C69", "title": "Series stay aligned and bounded", "statement": "After any history of chunks every y series has as many points as x, at most max_points points are kept and they are the most recent ones.", "quantifier": "all histories and configurations", "why_tests_cant": "unbounded histories", "anchors": ["crates/aether_viz/src/realtime.rs:CsvRealtimePlotter::trim_if_needed", "crates/aether_viz/src/realtime.rs:CsvRealtimePlotter::parse_text_chunk"]}
{"id": "C70", "title": "Approximate-equality helpers are sound and complete", "statement": "vector/matrix approximate equality succeeds iff all entries differ by at most the tolerance and otherwise reports the first differing index; max_abs_diff is the largest entry difference.", "quantifier": "all sizes and entries", "why_tests_cant": "all sizes", "anchors": ["crates/aether_test/src/assert/vector.rs", "crates/aether_test/src/assert/matrix.rs"]}
{"id": "C71", "title": "Newton iteration reports honestly", "statement": "The solver evaluates at most the allowed number of iterations; Ok(x) is returned only after a step smaller than the tolerance; a zero derivative or exhaustion gives an error. The derivative and function are called once per iteration, at the Newton iterates. When the derivative is Lipschitz with constant L an accepted x has |f(x)| at most L/2 times the squared tolerance, and when moreover the derivative is at least m>0 everywhere the only root lies within L tol^2/(2m) of x; from a start with L|f(x0)| at most m^2 the solver returns Ok once n iterations are allowed with (1/2)^(2^(n-1)) < tol L/(2m).", "quantifier": "all functions and starting points", "why_tests_cant": "arbitrary user functions", "anchors": ["crates/aether_core/src/numerical_methods/solvers/newton.rs:NewtonRaphson::solve"]}
{"id": "C72", "title": "One-step integrators have their nominal exactness and order", "statement": "All three RK4 variants are the classical scheme. A step integrates y'=p(t) exactly for every polynomial p of degree at most three. On a linear system y'=Ay of any dimension a step multiplies by the fourth-order Taylor polynomial of exp(hA), and N steps of size T/N miss the exact solution at T by at most \u2016TA\u2016^5 exp(\u2016TA\u2016)/(120 N^4) times the initial state. On every system with a Lipschitz right-hand side the iterates converge to the solution as the step is refined. The Euler increment is exact for a constant derivative and off by at most L h^2 otherwise; the trapezoidal increment is exact for affine integrands and off by at most zeta|h|^3/12 for C^2 integrands.", "quantifier": "all right-hand sides in the stated classes, dimensions, steps, step counts and states", "why_tests_cant": "continuous domain; convergence is a statement about every step count", "anchors": ["crates/aether_core/src/numerical_methods/integration/rk4.rs", "crates/aether_core/src/numerical_methods/integration/euler.rs", "crates/aether_core/src/numerical_methods/integration/trapezoidal.rs"]}
{"id": "C73", "title": "Serialised vectors and matrices round-trip", "statement": "Encoding then decoding a vector or matrix returns the same value and consumes exactly its bytes; decoding rejects sequences of the wrong length.", "quantifier": "all sizes, all values, all sequence lengths", "why_tests_cant": "all lengths", "anchors": ["crates/aether_core/src/math/vector.rs", "crates/aether_core/src/math/matrix.rs"]}
{"id": "C74", "title": "The generator has full period", "statement": "From every seed the generator returns to its starting state after n draws exactly when n is a multiple of 2^64-1, and within one period every non-zero 64-bit word is output exactly once.", "quantifier": "all 2^64 seeds, all draw counts", "why_tests_cant": "a period of 2^64-1 draws cannot be run", "anchors": ["crates/aether_rand/src/randomizers/xor_shift.rs:XorShift64Star::next_u64", "crates/aether_rand/src/randomizers/xor_shift.rs:XorShift64Star::new"]}
{"id": "C75", "title": "Vector geometry", "statement": "The cross product is perpendicular to both factors, anticommutative and of squared length |a|^2|b|^2-(a.b)^2; normalising a nonzero vector gives length one and keeps its direction; try_normalize returns the length always and the vector unchanged below its threshold; the angle of two nonzero vectors lies in [0, pi], is symmetric and its cosine is a.b/(|a||b|).", "quantifier": "all real vectors of every dimension", "why_tests_cant": "all vectors", "anchors": ["crates/aether_core/src/math/vector.rs:normalize", "crates/aether_core/src/math/vector.rs:try_normalize", "crates/aether_core/src/math/vector.rs:angle", "crates/aether_core/src/math/vector.rs:cross"]}
{"id": "C77", "title": "Attitude integration does not drift", "statement": "Updating an attitude with an angular velocity over a time step keeps the quaternion's norm whatever the history of rates and steps; steps at a constant rate compose (any subdivision of a time span gives the same attitude); the update follows the documented rate equation with the angular velocity expressed in body axes; a body at rest keeps its attitude.", "quantifier": "all attitudes, all sequences of angular velocities and time steps", "why_tests_cant": "histories of any length; drift and axis conventions show only on general states", "anchors": ["crates/aether_core/src/attitude/rotation.rs:Rotation::integrate", "crates/aether_core/src/attitude/rotation.rs:Quaternion::from_angular_velocity", "crates/aether_core/src/attitude/quaternion.rs:Quaternion::integrate"]}
{"id": "C78", "title": "Momentum update as documented", "statement": "With momentum mu and learning rate alpha each step of gradient descent is x_{k+1} = P[x_k - alpha g_k + mu v_k], where v_k is the previous step and P the projection on the box.", "quantifier": "all objectives, gradients, starting points and option settings", "why_tests_cant": "a wrong scaling of the momentum term still converges on test problems", "anchors": ["crates/aether_opt/src/gradient_descent/basic.rs:GradientDescentGeneric::minimize", "crates/aether_opt/src/gradient_descent/stochastic.rs:GDStochastic::minimize"]}
{"id": "C79", "title": "Best point of gradient descent", "statement": "x_best and f_best of the returned result are the best point and value seen during the run.", "quantifier": "all objectives, gradients, starting points and option settings", "why_tests_cant": "on monotone test runs the last value is the best; only non-monotone histories tell the two apart", "anchors": ["crates/aether_opt/src/gradient_descent/basic.rs:GDResult", "crates/aether_opt/src/gradient_descent/basic.rs:GradientDescentGeneric::minimize"]}
{"id": "C80", "title": "Independent worker streams", "statement": "Different workers of one iteration, and one worker in different iterations, never draw the same sequence of random numbers.", "quantifier": "all base seeds, workers, iterations and numbers of draws", "why_tests_cant": "64-bit domain with a special seed", "anchors": ["crates/aether_opt/src/gradient_descent/stochastic_parallel.rs:thread_seed", "crates/aether_rand/src/xor_shift.rs:XorShift64Star::new"]}
{"id": "C81", "title": "Normal density and maximum-likelihood fit", "statement": "The normal distribution's density is the textbook Gaussian density: positive everywhere, integrating to one. Fitting to a non-empty sample returns the sample mean and the standard deviation with divisor n (floored at a tiny positive constant), and no other mean and positive standard deviation gives the sample a larger likelihood whenever the floor is not active. Fitting to no data returns the standard normal.", "quantifier": "all means, all positive standard deviations, all sample lists", "why_tests_cant": "Integrating to one and being the maximiser are statements over the whole real line and over all competing parameters.", "anchors": ["crates/aether_stats/src/distributions/gaussian.rs:Gaussian::pdf", "crates/aether_stats/src/distributions/gaussian.rs:Gaussian::fit_mle"]}
{"id": "C82", "title": "Normal draws are always defined and bounded", "statement": "Drawing from a normal distribution never yields NaN or an infinity, whatever the generator state: the draw is mean plus standard deviation times a number of absolute value at most sqrt(2*53*ln 2), and consumes exactly two generator outputs.", "quantifier": "all 2^64 generator states, all means and standard deviations", "why_tests_cant": "The dangerous case, a uniform draw of exactly zero (logarithm of zero), has probability 2^-53 and will not be hit by sampling.", "anchors": ["crates/aether_stats/src/distributions/gaussian.rs:Gaussian::sample", "crates/aether_rand/src/randomizers/xor_shift.rs:normal01_real"]}
{"id": "C83", "title": "Multivariate normal density", "statement": "The multivariate normal density at a point is exp(-(x-m)^T S^-1 (x-m)/2) / sqrt((2 pi)^N det S) whenever no pivot of S falls under the inversion threshold, and the call panics otherwise, in particular for every singular S. For a positive definite S the density is positive and integrates to one over R^N; in one dimension it is the univariate normal density.", "quantifier": "all dimensions, means, covariances and points", "why_tests_cant": "The integral over R^N and the formula for all covariances of all dimensions are not samples.", "anchors": ["crates/aether_stats/src/distributions/multivariate.rs:MultivariateNormal::pdf"]}
{"id": "C84", "title": "Determinant of every regular matrix", "statement": "determinant returns det A for every matrix, in particular a nonzero value for every regular matrix.", "quantifier": "all matrices of all sizes", "why_tests_cant": "all matrices of all sizes", "anchors": ["crates/aether_core/src/math/matrix.rs:Matrix::determinant"]}
{"id": "C85", "title": "Margin classifiers hand the optimiser a subgradient of their loss", "statement": "Fitting the perceptron or the linear SVM with the gradient descent optimiser minimises, respectively, the mean of max(0, -y s) and the mean hinge loss max(0, 1 - y s) plus |w|^2/(2c); the direction supplied is at every point a subgradient of that same loss, and the point returned becomes weights and bias. Without data nothing changes.", "quantifier": "all data sets, all parameters, all optimiser settings, all c > 0", "why_tests_cant": "a subgradient inequality quantifies over all pairs of parameter vectors", "anchors": ["crates/aether_ml/src/classification/perceptron.rs:fit", "crates/aether_ml/src/classification/svm.rs:fit"]}
{"id": "C86", "title": "An SVM epoch is a subgradient step", "statement": "One training epoch of the linear SVM moves weights and bias by minus the learning rate times a subgradient of the mean hinge loss with penalty |w|^2/(c m) for m examples.", "quantifier": "all data sets, parameters, rates and c > 0", "why_tests_cant": "arbitrary data and parameters", "anchors": ["crates/aether_ml/src/classification/svm.rs:train_epoch"]}
{"id": "C87", "title": "SVM epochs and SVM fit minimise the same objective", "statement": "The steps of train_epoch are subgradient steps of the same objective that fit minimises.", "quantifier": "all data sets, parameters and c > 0", "why_tests_cant": "arbitrary data sizes; the two penalties agree only for one data size", "anchors": ["crates/aether_ml/src/classification/svm.rs"]}
{"id": "C88", "title": "LDA and QDA return the most probable class", "statement": "Lda::predict and Qda::predict return the class with the largest prior times normal density (the first such class on ties) among the classes that have data, with class means, class covariances (pooled for LDA) and class frequencies estimated from the data.", "quantifier": "all data sets and queries", "why_tests_cant": "arbitrary data, dimension and number of classes", "anchors": ["crates/aether_ml/src/classification/lda_qda.rs"]}
{"id": "C89", "title": "Unit conversions are as precise as the scalar type", "statement": "Converting a quantity from a prefixed unit to its base unit multiplies by the SI power of ten to within the precision of the quantity's scalar type; for f64 the relative error is at most 2^-50.", "quantifier": "all quantities and all prefixed units of length, time and mass", "why_tests_cant": "all values times all prefixes; the tests use f32 only", "anchors": ["crates/aether_units/src/si/si_prefix.rs:si_prefixed_unit"]}
{"id": "C90", "title": "Pressure falls with altitude in the standard atmosphere", "statement": "In the ICAO standard atmosphere a greater altitude never has a greater pressure.", "quantifier": "all pairs of altitudes up to 80 km", "why_tests_cant": "pairs of points of a continuous domain, across layer boundaries", "anchors": ["crates/aether_models/src/terrestrial/atmospheres/isa.rs:ISA::pressure", "crates/aether_models/src/terrestrial/atmospheres/isa.rs:ISA::base_pressure"]}
{"id": "C91", "title": "Orbit camera angles as documented", "statement": "set_angles(yaw, pitch) points the camera at azimuth yaw and elevation pitch (Z up); yawing turns about the vertical and so keeps the elevation; apply_orbit_world_angles turns about the world's X and Y axes.", "quantifier": "all angles and all reachable cameras", "why_tests_cant": "continuous angles and histories of rotations that do not commute", "anchors": ["crates/aether_graphics/src/cameras/orbit_camera.rs:OrbitCamera::set_angles", "crates/aether_graphics/src/cameras/orbit_camera.rs:OrbitCamera::apply_orbit_angles", "crates/aether_graphics/src/cameras/orbit_camera.rs:OrbitCamera::apply_orbit_world_angles"]}
{"id": "C92", "title": "Perspective projection maps the frustum to the cube", "statement": "The projection of look_at_perspective applied after its view matrix maps the viewing frustum to the cube [-1,1]^3: near plane to -1, far plane to 1, depth order kept, edges of the field of view to plus and minus one.", "quantifier": "all fields of view in (0,pi), aspect ratios, near and far planes, points", "why_tests_cant": "continuous parameters and points", "anchors": ["crates/aether_graphics/src/graphics/transforms.rs:perspective", "crates/aether_graphics/src/graphics/transforms.rs:look_at_perspective"]}
{"id": "C93", "title": "translate composes with a translation", "statement": "translate(M, t) is M times the translation by t, for every 4x4 matrix M.", "quantifier": "all matrices and vectors", "why_tests_cant": "continuous inputs", "anchors": ["crates/aether_graphics/src/graphics/transforms.rs:translate"]}
{"id": "C95", "title": "Star velocity is the rate of change of star position", "statement": "icrs_sample(epoch) places the star in the direction of its catalogue coordinates moved by the proper motions, at the parallax distance (1 AU without one), and its velocity in AU per year is the derivative of that position with respect to the epoch.", "quantifier": "all catalogue records and epochs", "why_tests_cant": "a derivative over a continuum of epochs and records", "anchors": ["crates/aether_catalogs/src/star_catalogs/mod.rs:IcrsPropagator::icrs_sample"]}
{"id": "C96", "title": "Position uncertainties propagate as variances", "statement": "At every epoch the position uncertainties of a star are real numbers, equal the catalogue values at 2016, and grow with the time since the measurement (2016 for Gaia, 1991.25 otherwise) as the variance law says.", "quantifier": "all catalogue records and epochs", "why_tests_cant": "continuous domain; the failing region is an interval of epochs", "anchors": ["crates/aether_catalogs/src/star_catalogs/mod.rs:GncCatalogReader::propagated_uncertainty"]}
{"id": "C94", "title": "Embedded magnetic coefficients are those of the coefficient file", "statement": "For every coefficient file the build-time generator accepts, the generated records are the file's data lines in order, there are 90 of them with order <= degree <= 12, every pair (degree, order) of degree 1 to 12 occurs exactly once, and each generated table holds the value of its pair; and the data embedded in the repository are what the generator produces from the coefficient file in the repository.", "quantifier": "all file contents and number parsers", "why_tests_cant": "arbitrary files; only one file is ever tried", "anchors": ["crates/aether_catalogs/build.rs:render_wmm_include", "crates/aether_catalogs/build.rs:triangular_index", "crates/aether_catalogs/src/wmm/wmm_generated.rs", "crates/aether_catalogs/catalog/wmm/WMM2025COF/WMM.COF"]}
{"id": "C76", "title": "Vector-instruction entry points are memory safe and compute the same product everywhere", "statement": "Whatever crate features, target and CPU features a build has and runs on, and for every matrix size, the dot4/mul_vec4/mul_vec6/mul_mat3/mul_mat4/mul_mat6/mul_matrix *_simd functions execute only instructions the CPU has, never read or write outside the arrays they are given, and return the sums of products: exactly in exact arithmetic, and in rounded arithmetic with relative unit roundoff u within ((1+u)^d - 1) times the sum of absolute products, d being the number of terms (plus one for the loops); hence they never differ from the operator * by more than twice that. The dot-product kernel cached by the first call does not change this for any later call.", "quantifier": "all builds and CPUs compatible with each other, all sizes M, N, P, all entries, all rounding functions, all call histories", "why_tests_cant": "tests run one CPU and a few sizes; out-of-bounds access on an untried size or a kernel for another CPU is never executed", "anchors": ["crates/aether_core/src/math/arch/x86/matrix_simd.rs", "crates/aether_core/src/math/arch/x86/vector_simd.rs", "crates/aether_core/src/math/arch/arm/neon.rs", "crates/aether_core/src/math/arch/arm/m33_dsp.rs", "crates/aether_core/src/math/matrix.rs:mul_matrix_simd", "crates/aether_core/src/math/vector.rs:dot4_simd"]}
{"id": "C97", "title": "Closed-form geodetic conversion inverts the Earth-fixed conversion", "statement": "The closed-form conversion from Earth-fixed to geodetic coordinates returns, for every position outside the innermost part of the Earth, the longitude, latitude and altitude of that position: points of the reference ellipsoid get altitude zero, points in the equatorial plane and on the polar axis get their exact altitude, mirror images get opposite latitudes, and the answer commutes with rotations about the axis.", "quantifier": "all positions more than 43 km from the centre", "why_tests_cant": "continuous domain; the error of a wrong closed form is below a metre and vanishes on the equator and the poles, where examples are usually taken", "anchors": ["crates/aether_models/src/terrestrial/wgs84/transforms/mod.rs:ecef_to_geocentric_ferrari", "crates/aether_models/src/terrestrial/earth.rs:Earth::ecef_to_geocentric_ferrari"]}
{"id": "C98", "title": "Earth gravity is the gradient of the normal potential", "statement": "The gravity vector reported at any position is the gradient of the published potential of normal gravity: it lies in the meridian plane, its values at mirror images in the equatorial plane are mirror images, it commutes with rotations about the axis, and on the reference ellipsoid it is perpendicular to it.", "quantifier": "all positions off the polar axis with u > E (outside the innermost 522 km)", "why_tests_cant": "continuous domain; the only test prints a value", "anchors": ["crates/aether_models/src/terrestrial/wgs84/gravity/mod.rs:gravity_rectangular", "crates/aether_models/src/terrestrial/wgs84/gravity/mod.rs:gravity_ellipsoidal", "crates/aether_models/src/terrestrial/earth.rs:Earth::solve_gravitational_force"]}
{"id": "C99", "title": "Viewer lines carry the right name and points", "statement": "After any history of starting, polling, picking up new files and clicking boxes, every line the live viewer draws is labelled with its file and a selected column, its points are the values of that column against the x column in what has been read of the file, and every selected column of every file with data has a line.", "quantifier": "all file histories, sets of files and sequences of polls, refreshes and clicks", "why_tests_cant": "an unbounded history of file contents and user actions; there are no tests of the viewer", "anchors": ["crates/aether_viz/src/bin/csv_tail_egui.rs:CsvTailApp::update", "crates/aether_viz/src/bin/csv_tail_egui.rs:apply_selection", "crates/aether_viz/src/bin/csv_tail_egui.rs:refresh_sources_from_pattern", "crates/aether_viz/src/realtime.rs:set_y_columns"]}
{"id": "C100", "title": "Changing the columns of a live plot is a fresh load", "statement": "Changing the columns of a live plotter leaves it in the state of a new plotter configured with those columns that has just loaded the file: no point of the old columns remains, and each series holds the values of its own column.", "quantifier": "all plotter states, column lists and file contents", "why_tests_cant": "every prior state and every file content", "anchors": ["crates/aether_viz/src/realtime.rs:set_y_columns", "crates/aether_viz/src/realtime.rs:reset", "crates/aether_viz/src/realtime.rs:initialize"]}
{"id": "C101", "title": "Viewer scaling is faithful and units are not mixed", "statement": "When two groups of columns have different units the second is scaled to the range of the first: the range shown for a group encloses exactly its values, the scaling preserves order, and reading the scaled line against the two ranges gives back the file values. Columns of different units never share an axis.", "quantifier": "all sets of columns, values and histories of the viewer", "why_tests_cant": "all data sets; degenerate ranges and mixed units are rare in examples", "anchors": ["crates/aether_viz/src/bin/csv_tail_egui.rs:min_max_for_columns_multi", "crates/aether_viz/src/bin/csv_tail_egui.rs:map_range", "crates/aether_viz/src/bin/csv_tail_egui.rs:common_unit", "crates/aether_viz/src/bin/csv_tail_egui.rs:extract_unit"]}
{"id": "C102", "title": "The viewer shows its errors", "statement": "Whenever a file cannot be read or a new file cannot be loaded, the viewer shows a message naming it, and it shows no message otherwise.", "quantifier": "all viewer states and file contents at each step", "why_tests_cant": "any combination of failing and working files at any step", "anchors": ["crates/aether_viz/src/bin/csv_tail_egui.rs:CsvTailApp::update", "crates/aether_viz/src/bin/csv_tail_egui.rs:refresh_sources_from_pattern"]}
{"id": "C103", "title": "Viewer names tell files apart", "statement": "Files shown are named after their run directory, or else after the file without its extension, and different files get different names.", "quantifier": "all paths", "why_tests_cant": "all pairs of paths", "anchors": ["crates/aether_viz/src/bin/csv_tail_egui.rs:derive_run_label"]}
{"id": "C104", "title": "The viewer shows the columns ticked", "statement": "At any time the columns shown are exactly those whose box is ticked in one of the two lists; a click changes its box only.", "quantifier": "all histories of the viewer", "why_tests_cant": "unbounded sequences of clicks", "anchors": ["crates/aether_viz/src/bin/csv_tail_egui.rs:apply_selection", "crates/aether_viz/src/bin/csv_tail_egui.rs:classify_component", "crates/aether_viz/src/bin/csv_tail_egui.rs:CsvTailApp::update"]}
{"id": "C105", "title": "The viewer shows each matching file once", "statement": "A look at the file pattern keeps every file shown in its place and adds exactly the matching files that are not shown yet and can be loaded, none of them twice; polls and clicks neither add nor drop nor reorder files.", "quantifier": "all viewer states, lists of matches and file contents", "why_tests_cant": "unbounded sets of files", "anchors": ["crates/aether_viz/src/bin/csv_tail_egui.rs:refresh_sources_from_pattern", "crates/aether_viz/src/bin/csv_tail_egui.rs:create_source"]}
{"id": "C106", "title": "Decoding accounts for every value it makes", "statement": "Decoding a matrix or collecting a vector never reads memory that was not written, and every element produced on the way ends up in the result or is dropped exactly once, whether decoding succeeds, fails in the middle or finds the wrong number of elements.", "quantifier": "all sizes, element types and inputs, with a failure at any place", "why_tests_cant": "a failure can occur at every element; leaks and reads of unwritten memory are not visible in results", "anchors": ["crates/aether_core/src/math/matrix.rs:Decode for Matrix", "crates/aether_core/src/math/matrix.rs:BorrowDecode for Matrix", "crates/aether_core/src/math/matrix.rs:Deserialize for Matrix", "crates/aether_core/src/math/vector.rs:from_iter"]}
{"id": "C107", "title": "Same results with and without the standard library", "statement": "The elementary operations of the scalar types give the same results whether or not the library is built with the standard library.", "quantifier": "all numbers including infinities, signed zeros and not-a-number, all exponents", "why_tests_cant": "the two builds are never compared, and the inputs are all floating-point numbers", "anchors": ["crates/aether_core/src/real/no_std_impl.rs:signum", "crates/aether_core/src/real/no_std_impl.rs:min", "crates/aether_core/src/real/no_std_impl.rs:max", "crates/aether_core/src/real/no_std_impl.rs:powi", "crates/aether_core/src/real/no_std_impl.rs:to_degrees", "crates/aether_core/src/real/std_impl.rs"]}
{"id": "C108", "title": "The magnetic field table covers its range in equal steps", "statement": "The grid of the magnetic field table starts at the lower end of the range, goes up in exact equal steps, ends at the upper end with a last gap no larger than the step, and never leaves the range; its construction ends for every positive step.", "quantifier": "all ranges, positive steps and rounding errors of the repeated additions up to a bound", "why_tests_cant": "accumulated rounding and the handling of the last point depend on the number of steps", "anchors": ["crates/aether_catalogs/examples/wmm_grid_csv.rs:grid_values", "crates/aether_catalogs/examples/wmm_grid_csv.rs:parse_args"]}
{"id": "C109", "title": "The search for a power sensor ends and finds what is there", "statement": "On every file system, also with links that form cycles, the search for a power sensor ends, returns only an existing file of the right name below its root, and returns one if there is one.", "quantifier": "all file systems, cyclic or not", "why_tests_cant": "the outcome depends on the directory structure of the machine", "anchors": ["crates/aether_benchmark/src/performance/power.rs:CPUEnergy::autodetect", "crates/aether_benchmark/src/performance/power.rs:find_first", "crates/aether_benchmark/src/performance/power.rs:find_hwmon_cpu_power"]}
{"id": "C110", "title": "Test helpers do not let not-a-number pass", "statement": "A comparison helper passes only if everything it compares are numbers within the tolerance, and it passes whenever they are.", "quantifier": "all vectors, matrices and functions, with entries or values that are not numbers", "why_tests_cant": "the helpers are themselves what tests rest on; NaN can occur at any place", "anchors": ["crates/aether_test/src/assert/function.rs:assert_max_abs_error_on_grid", "crates/aether_test/src/assert/vector.rs:vector_approx_eq", "crates/aether_test/src/assert/vector.rs:vector_max_abs_diff", "crates/aether_test/src/assert/matrix.rs:matrix_approx_eq", "crates/aether_test/src/assert/matrix.rs:matrix_max_abs_diff", "crates/aether_test/src/assert/matrix.rs:assert_matrix_symmetric"]}
{"id": "C111", "title": "The linear solver is backward stable in floating-point arithmetic", "statement": "With every operation rounded, a vector returned by the linear solver solves exactly a system whose matrix differs from the given one by a fixed small multiple of its largest entry: for double precision and up to six unknowns, by at most 1e-12 of it. The computed triangular factors reproduce the row-exchanged matrix up to rounding, with bounded multipliers and growth, and the same holds for each column of a system with many right-hand sides.", "quantifier": "all square matrices of every size, right-hand sides, thresholds and rounding functions with relative error at most u, barring overflow and underflow", "why_tests_cant": "rounding errors depend on every entry and on the order of pivots; a test compares a few systems with a tolerance", "anchors": ["crates/aether_core/src/numerical_methods/solvers/lu.rs:lu_decompose", "crates/aether_core/src/numerical_methods/solvers/lu.rs:LuDecomp::solve", "crates/aether_core/src/numerical_methods/solvers/lu.rs:LuDecomp::solve_multi", "crates/aether_core/src/numerical_methods/solvers/lu.rs:Matrix::solve", "crates/aether_core/src/numerical_methods/solvers/lu.rs:Matrix::solve_multi"]}
{"id": "C112", "title": "The solver for symmetric positive definite systems is backward stable in floating-point arithmetic", "statement": "With every operation and the square root rounded, a vector returned by the Cholesky solver for a symmetric matrix solves exactly a system whose entries differ from the given ones by a small multiple of the geometric mean of the two diagonal entries: for double precision and up to a thousand unknowns, 1e-12 of it. The factor is lower triangular with a positive diagonal and reproduces the matrix up to rounding. A matrix that is positive definite by a margin above the rounding errors (1e-9 after scaling the diagonal to ones, in double precision up to a thousand unknowns) is never rejected.", "quantifier": "all symmetric matrices of every size, right-hand sides and rounding functions with relative error at most u, barring overflow and underflow", "why_tests_cant": "rounding errors depend on every entry; ill-conditioned matrices are as many as one likes", "anchors": ["crates/aether_core/src/numerical_methods/solvers/spd.rs:cholesky_lower", "crates/aether_core/src/numerical_methods/solvers/spd.rs:CholLower::solve", "crates/aether_core/src/numerical_methods/solvers/spd.rs:cholesky_solve"]}
{"id": "C113", "title": "The determinant in floating-point arithmetic is that of a nearby matrix", "statement": "With every operation rounded, and all pivots above the threshold, the returned determinant is within n roundings of the exact determinant of a matrix that differs from the given one by a small multiple of its largest entry; if a pivot is at or below the threshold, the result is zero.", "quantifier": "all square matrices of every size, thresholds and rounding functions with relative error at most u, barring overflow and underflow", "why_tests_cant": "rounding errors depend on every entry and on the order of pivots", "anchors": ["crates/aether_core/src/math/matrix.rs:determinant"]}
{"id": "C114", "title": "Angles computed in floating point are numbers", "statement": "The spherical coordinates of a Cartesian or cylindrical point, the angle between two vectors, the Euler angles of a quaternion and the geocentric latitude used by the magnetic model are never NaN or infinite: the argument of the inverse sine or cosine stays within [-1, 1] although every operation is rounded.", "quantifier": "all floating-point inputs (of any precision), dimensions, tie-breaking rules of rounding to nearest and mathematics libraries, barring overflow and underflow", "why_tests_cant": "whether a rounded quotient exceeds one by a last bit depends on the bits of every input", "anchors": ["crates/aether_core/src/coordinate/spherical.rs:From<&Cartesian> for Spherical", "crates/aether_core/src/coordinate/spherical.rs:From<&Cylindrical> for Spherical", "crates/aether_core/src/math/vector.rs:Vector::angle", "crates/aether_core/src/attitude/euler.rs:From<&Quaternion> for Euler", "crates/aether_catalogs/src/wmm/mod.rs:geodetic_to_geocentric"]}
{"id": "C115", "title": "Euler angles of a computed rotation matrix are numbers", "statement": "Converting a unit quaternion to a direction cosine matrix and that to Euler angles never gives NaN.", "quantifier": "all quaternions of unit length up to rounding", "why_tests_cant": "the entry passed to the inverse sine exceeds one only for particular last bits", "anchors": ["crates/aether_core/src/attitude/euler.rs:From<&DirectionCosineMatrix> for Euler", "crates/aether_core/src/attitude/dcm.rs:From<&Quaternion> for DirectionCosineMatrix"]}
{"id": "C116", "title": "The quaternion of a matrix in floating point", "statement": "Converting a matrix whose diagonal entries are at most two in size to a quaternion does not fail, and no component of the result is NaN or infinite.", "quantifier": "all such matrices, orthogonal or not, and all roundings to nearest with at least eight bits", "why_tests_cant": "the branch taken and the divisors depend on every diagonal entry", "anchors": ["crates/aether_core/src/attitude/quaternion.rs:TryFrom<&DirectionCosineMatrix> for Quaternion"]}
{"id": "C117", "title": "Linear interpolation in floating point", "statement": "With every operation rounded, interpolation at parameter 0 returns the first endpoint exactly, is monotone in the parameter, and differs from exact interpolation by at most a few units of rounding of the endpoints and their distance.", "quantifier": "all floating-point endpoints and parameters, all roundings to nearest", "why_tests_cant": "depends on the bits of every input", "anchors": ["crates/aether_interp/src/lerp.rs:lerp"]}
{"id": "C118", "title": "The interpolation parameter in floating point", "statement": "With every operation rounded, inverse_lerp gives exactly 0 at the first endpoint and exactly 1 at the second (unless they are within the tolerance), stays within [0, 1] for values between the endpoints and is monotone in the value; remap sends the start of the input range exactly to the start of the output range.", "quantifier": "all floating-point endpoints and values, all roundings to nearest", "why_tests_cant": "depends on the bits of every input", "anchors": ["crates/aether_interp/src/lerp.rs:inverse_lerp", "crates/aether_interp/src/lerp.rs:remap"]}
{"id": "C119", "title": "Interpolation in floating point ends at the second endpoint and stays in range", "statement": "With every operation rounded, interpolation at parameter 1 returns the second endpoint, as documented, and values for parameters in [0, 1] lie between the endpoints.", "quantifier": "all floating-point endpoints and parameters", "why_tests_cant": "depends on the bits of every input", "anchors": ["crates/aether_interp/src/lerp.rs:lerp"]}
{"id": "C120", "title": "The Taylor attitude update follows the rate equation", "statement": "The attitude given by the Taylor update has unit length (unless the sum to be normalised vanishes), and its derivative with respect to the step, at step zero, is half the product of the attitude and the angular velocity, whatever the angular acceleration.", "quantifier": "all unit attitudes, angular velocities and angular accelerations", "why_tests_cant": "a limit of vanishing step, for every attitude and rate", "anchors": ["crates/aether_core/src/attitude/quaternion.rs:Quaternion::integrate"]}
{"id": "C121", "title": "The Taylor attitude update is accurate beyond first order", "statement": "The Taylor update, which sums terms up to the third power of the step, agrees with the exact turn at constant rate up to an error of third order in the step.", "quantifier": "all small steps", "why_tests_cant": "the order of an error is a statement about every step size", "anchors": ["crates/aether_core/src/attitude/quaternion.rs:Quaternion::integrate"]}
{"id": "C122", "title": "The cubic spline is the smoothest interpolant", "statement": "Of all twice continuously differentiable functions through the given points the evaluated spline has the least integral of the squared second derivative between the first and last knot; it is the only function with so small an integral, and the only natural cubic spline through the points.", "quantifier": "all strictly increasing knots, all values, all competing functions", "why_tests_cant": "quantifies over a space of functions", "anchors": ["crates/aether_interp/src/spline.rs:CubicSpline::new", "crates/aether_interp/src/spline.rs:CubicSpline::evaluate"]}
{"id": "C123", "title": "Unit vectors and quaternions in floating point", "statement": "With every operation rounded, normalising a non-zero vector of n components gives each component with a relative error of at most n/2 + 3 roundings, so that the length is one up to as much; normalising a quaternion is accurate to five roundings.", "quantifier": "all dimensions, non-zero vectors and quaternions, all roundings with relative error u < 1, barring overflow and underflow", "why_tests_cant": "an error bound for every input and every rounding", "anchors": ["crates/aether_core/src/math/vector.rs:Vector::normalize", "crates/aether_core/src/attitude/quaternion.rs:Quaternion::normalized"]}
{"id": "C124", "title": "Rotating a vector in floating point", "statement": "With every operation rounded, rotating a vector by a non-zero quaternion gives the exactly rotated vector up to an error of seventeen roundings of four times its length; the length is kept up to as much.", "quantifier": "all quaternions (normalised or not), vectors and roundings with relative error u < 1, barring overflow and underflow", "why_tests_cant": "an error bound for every input and every rounding; terms cancel", "anchors": ["crates/aether_core/src/attitude/quaternion.rs:Quaternion::rotate_vector"]}
{"id": "C125", "title": "Rotation matrices in floating point are orthogonal up to rounding", "statement": "With every operation rounded, each entry of the matrix of a non-zero quaternion is exact up to fourteen roundings of one, and the rows are orthonormal up to about four times as much.", "quantifier": "all quaternions (normalised or not) and roundings with relative error u < 1, barring overflow and underflow", "why_tests_cant": "an error bound for every input and every rounding", "anchors": ["crates/aether_core/src/attitude/quaternion.rs:Quaternion::to_dcm"]}
{"id": "C126", "title": "Attitude integration in floating point", "statement": "With every operation rounded and sine and cosine from any library as accurate as m roundings, the attitude after any history of angular velocities and time steps is the exactly integrated one up to a relative error that grows by an explicit factor per step, about 1 + (18 + 2m + 10 h) u for a step turning by the angle 2h; the length of the quaternion drifts by no more.", "quantifier": "all initial attitudes, all histories of rates and time steps of any length, all roundings with relative error u < 1, barring overflow and underflow", "why_tests_cant": "histories of any length; drift is invisible in short tests", "anchors": ["crates/aether_core/src/attitude/rotation.rs:Rotation::integrate", "crates/aether_core/src/attitude/rotation.rs:Quaternion::from_angular_velocity"]}
{"id": "C127", "title": "The cubic spline in floating point", "statement": "With every operation rounded to nearest, a spline through at least two points with strictly increasing abscissas can be built and has a number as its value everywhere; at the knots the value is exactly the given one.", "quantifier": "all N >= 2, all strictly increasing knots and all values, all evaluation points, all roundings to nearest in any precision, barring overflow and underflow", "why_tests_cant": "a division by zero or a rounding error at a knot for some data of some size", "anchors": ["crates/aether_interp/src/spline.rs:CubicSpline::new", "crates/aether_interp/src/spline.rs:CubicSpline::evaluate"]}
{"id": "C128", "title": "Polynomial interpolation in floating point", "statement": "With every operation rounded to nearest, an interpolator that was built returns exactly the given value at each node and a number at every other point.", "quantifier": "all N, all nodes and values accepted by the constructor, all evaluation points, all roundings to nearest in any precision, barring overflow and underflow", "why_tests_cant": "cancellation in the denominator happens at particular points only", "anchors": ["crates/aether_interp/src/polynomial.rs:PolynomialInterpolator::evaluate", "crates/aether_interp/src/polynomial.rs:PolynomialInterpolator::new"]}
{"id": "C129", "title": "The interpolators reject samples that are not ordered or not separated", "statement": "A spline is built only from strictly increasing abscissas, and a polynomial interpolator only from nodes that differ by more than the tolerance, also if some samples are not numbers.", "quantifier": "all N and all floating-point samples, including NaN", "why_tests_cant": "all inputs, including the exceptional ones", "anchors": ["crates/aether_interp/src/spline.rs:CubicSpline::new", "crates/aether_interp/src/polynomial.rs:PolynomialInterpolator::new"]}
{"id": "C130", "title": "Rounding errors of the integrators", "statement": "N Runge-Kutta steps in rounded arithmetic, with a derivative evaluated up to some error, stay within an explicit bound of N steps in exact arithmetic; the bound grows linearly with N up to the usual exponential factor. The Euler and trapezoidal increments are accurate to one and four roundings.", "quantifier": "all dimensions, systems with a Lipschitz derivative, computed derivatives with bounded error, steps, numbers of steps and starts, all roundings with a bounded relative error", "why_tests_cant": "all systems and all lengths of runs", "anchors": ["crates/aether_core/src/numerical_methods/integration/rk4.rs:integrate_rk4", "crates/aether_core/src/numerical_methods/integration/euler.rs", "crates/aether_core/src/numerical_methods/integration/trapezoidal.rs"]}
{"id": "C131", "title": "The Runge-Kutta method has order four on every smooth system", "statement": "If the right-hand side is four times continuously differentiable on an open set and the solution stays in it up to time T, then for all small enough steps every state of the run up to T is within a constant times the fourth power of the step of the solution. In rounded arithmetic the total error is at most the sum of this, the propagated error of the start and the rounding errors.", "quantifier": "all dimensions, right-hand sides of class C4 on an open set, solutions on [0, T], steps below a threshold and numbers of steps", "why_tests_cant": "a statement about all systems and about the limit of small steps", "anchors": ["crates/aether_core/src/numerical_methods/integration/rk4.rs:integrate_rk4"]}
{"id": "C132", "title": "The orbital period is that of the two-body problem", "statement": "For every eccentricity below one there is a motion under the joint attraction of the two bodies along the ellipse with the given semi-major axis and a focus at the attracting body, and the times after which it repeats are exactly the multiples of the reported Keplerian period. The mean motion turns once in a sidereal period.", "quantifier": "all semi-major axes, gravitational constants with positive sum and eccentricities from zero up to one", "why_tests_cant": "a statement about solutions of a differential equation, for all orbits", "anchors": ["crates/aether_models/src/lunar/orbit.rs:keplerian_period_s", "crates/aether_models/src/lunar/orbit.rs:mean_motion_rad_s", "crates/aether_models/src/lunar/orbit.rs:mu_total_m3_s2"]}
{"id": "C133", "title": "Frame types can be trusted", "statement": "If the attitude values put into a program mean what their frame types say, then so does every value the program computes with the frame-typed API: a matrix, quaternion or set of Euler angles of type From, To takes the coordinates in From of every physical vector to its coordinates in To, and a vector of frame A holds the coordinates in A of the physical vector that the program denotes.", "quantifier": "all worlds of right-handed orthonormal frames, all well-typed programs of any size", "why_tests_cant": "all well-typed programs, by induction on the program", "anchors": ["crates/aether_core/src/attitude/dcm.rs:DirectionCosineMatrix", "crates/aether_core/src/attitude/quaternion.rs:Quaternion", "crates/aether_core/src/attitude/euler.rs:Euler", "crates/aether_core/src/attitude/rotation.rs:Rotation", "crates/aether_core/src/coordinate/cartesian.rs:Cartesian"]}
{"id": "C134", "title": "What is printed can be read back", "statement": "The printed form of a vector, matrix, quaternion, rotation or Cartesian vector determines every one of its components and their places: a reader who drops the heading and the brackets, ends rows at semicolons and separates numbers at blanks and commas gets back exactly the components, row by row.", "quantifier": "all lengths, all numbers of rows (at least one) and columns, all entries, every way of printing scalars that can be read back and avoids the characters of the layout", "why_tests_cant": "all sizes and entries; the last entry and last row are special cases of the loops", "anchors": ["crates/aether_core/src/math/vector.rs:Display", "crates/aether_core/src/math/matrix.rs:Display", "crates/aether_core/src/attitude/quaternion.rs:Display", "crates/aether_core/src/attitude/rotation.rs:Display", "crates/aether_core/src/coordinate/cartesian.rs:Display"]}
{"id": "C135", "title": "The live picture shows the current data", "statement": "While run_forever goes on, whatever happens to the file, the picture on disk shows at every sleep the current points of each selected column under its name; update_once answers no only if the series are as before, and answers yes without a reset only if points were added.", "quantifier": "all file contents and all sequences of polls (growth, truncation, replacement, absence, reads in the middle of a line), all column selections", "why_tests_cant": "all histories of the file and all interleavings of polls", "anchors": ["crates/aether_viz/src/realtime.rs:CsvRealtimePlotter::run_forever", "crates/aether_viz/src/realtime.rs:CsvRealtimePlotter::update_once", "crates/aether_viz/src/realtime.rs:CsvRealtimePlotter::render"]}
{"id": "C136", "title": "Plots show every finite point inside their axes", "statement": "plot_series draws a picture exactly if the lengths agree and some point is finite; it draws the series with a finite point in order, with their own label and style and exactly their finite points, all inside the axes, whose lengths are positive. The error plot has samples + 1 places from a to b in order, with the difference of the functions at each, inside the error axis.", "quantifier": "all lists of series of any lengths with any finite and non-finite values, all functions, intervals and sample counts; any precision and any rounding to nearest", "why_tests_cant": "all data and all roundings", "anchors": ["crates/aether_viz/src/lib.rs:plot_series", "crates/aether_viz/src/lib.rs:plot_error_on_grid"]}
{"id": "C137", "title": "Catalogue files are complete after a build, whatever happened to earlier builds", "statement": "After any history of builds with any features, some of them stopped at any point or failed, a build that succeeds leaves exactly the true catalogue files: the star catalogue, the archive, its extracted members and the generated coefficients. A build never changes a file that is there, and after a success the same build needs no network.", "quantifier": "all file contents, all histories of builds, all feature sets, all points at which a build is stopped, all behaviours of the network", "why_tests_cant": "every crash point of every history of builds", "anchors": ["crates/aether_catalogs/build.rs:main", "crates/aether_catalogs/build.rs:download_if_missing", "crates/aether_catalogs/build.rs:extract_zip_if_needed", "crates/aether_catalogs/build.rs:generate_embedded_wmm", "crates/aether_catalogs/build.rs:find_wmm_source_file"]}
{"id": "C138", "title": "The timing and power logs are whole under all schedules and crash points", "statement": "However threads that share a log are scheduled and wherever the program stops, the file is the header, complete rows with times that do not go back, and at most one incomplete row at the end; the rows of each thread are its entries in its order, and at the end every entry is there exactly once. The threads never block each other for good. Splitting at newlines and commas gives back the time and the cells; a missing value is an empty cell.", "quantifier": "any number of threads, all lists of entries, all schedules, all splits of a write, all clocks that do not go back, all moments", "why_tests_cant": "all interleavings and crash points", "anchors": ["crates/aether_benchmark/src/performance/performance.rs:TimingCsv::timing_ms", "crates/aether_benchmark/src/performance/performance.rs:PowerCsv::sample", "crates/aether_benchmark/src/performance/timer.rs:TimeSpan", "crates/aether_benchmark/src/performance/clock.rs:unix_nanos_now"]}
{"id": "C139", "title": "Settings of the stochastic optimisers are always valid", "statement": "After any chain of setter calls with any arguments the settings of both stochastic optimisers are in their ranges (learning rate, decay and tolerances not negative, momentum and averaging in [0, 1), at least one sample and one thread), an argument in range is stored as it is, setters do not disturb each other, the learning rate never grows, and every setting lets the tests for convergence succeed.", "quantifier": "all chains of setter calls, all arguments including infinities and \"not a number\", all iterations", "why_tests_cant": "all call histories with all arguments", "anchors": ["crates/aether_opt/src/gradient_descent/stochastic.rs:GDStochastic::learning_rate", "crates/aether_opt/src/gradient_descent/stochastic.rs:clamp", "crates/aether_opt/src/gradient_descent/stochastic_parallel.rs:GDStochasticParallel::ema", "crates/aether_opt/src/gradient_descent/stochastic_parallel.rs:lr_at"]}
{"id": "C140", "title": "Sums and products of numbers in IEEE arithmetic", "statement": "With subnormal numbers and overflow included: a difference of two finite numbers is zero only if they are equal; dot products, matrix-vector and matrix-matrix products are finite and right up to n roundings of the sum of the magnitudes plus n times the least positive number, whenever the magnitudes stay below an explicit bound (for f64: up to 2^20 components of magnitude up to 2^500).", "quantifier": "all binary formats, all ways to break ties, all sizes, all finite entries within the bound", "why_tests_cant": "all sizes and all floating-point entries, including those whose products underflow", "anchors": ["crates/aether_core/src/math/algorithms.rs:dot_generic", "crates/aether_core/src/math/matrix.rs:Mul", "crates/aether_core/src/math/vector.rs:Vector::dot"]}
{"id": "C141", "title": "Lengths and unit vectors in IEEE arithmetic", "statement": "The length of an f64 vector of up to 2^20 components is right to (n+2) 2^-52 of it, and each component of its unit vector is right to (n+4) 2^-52, whenever the length is between 2^-500 and 2^500, whatever the single components are. The components of a normalised quaternion are right to 2^-49.", "quantifier": "all vectors of up to 2^20 components and all quaternions of length between 2^-500 and 2^500, all ways to break ties", "why_tests_cant": "all floating-point vectors of all sizes, including components whose squares underflow", "anchors": ["crates/aether_core/src/math/algorithms.rs:norm_generic", "crates/aether_core/src/math/vector.rs:Vector::normalize", "crates/aether_core/src/attitude/quaternion.rs:Quaternion::normalized"]}
{"id": "C142", "title": "Every nonzero finite vector has a length and a unit vector", "statement": "The computed length of every nonzero finite vector is a positive finite number, and so are the components of its unit vector finite.", "quantifier": "all nonzero finite vectors", "why_tests_cant": "all floating-point vectors over the whole range of exponents", "anchors": ["crates/aether_core/src/math/algorithms.rs:norm_generic", "crates/aether_core/src/math/vector.rs:Vector::normalize", "crates/aether_core/src/attitude/quaternion.rs:Quaternion::normalized"]}
{"id": "C143", "title": "Normal draws are normally distributed", "statement": "From two independent uniform draws, a sample of a normal distribution is a number, and its distribution is the normal distribution of the given mean and standard deviation: every event has the probability that distribution gives it, which is also the integral of the density the library reports.", "quantifier": "all means, all standard deviations (positive for the density), all events (Borel sets)", "why_tests_cant": "equality of two distributions is a statement about all events; samples only give statistical evidence", "anchors": ["crates/aether_stats/src/distributions/gaussian.rs:Gaussian::sample", "crates/aether_stats/src/distributions/gaussian.rs:Gaussian::pdf", "crates/aether_rand/src/randomizers/xor_shift.rs:normal01_real"]}
{"id": "C144", "title": "Uniform draws are equidistributed over the period", "statement": "Over one period of the generator every value k/2^53 in [0,1) is drawn equally often (2048 times, zero 2047 times), and the share of draws below any x is x, up to 2^11 of the 2^64-1 draws.", "quantifier": "all seeds, all values, all thresholds", "why_tests_cant": "a period has 2^64-1 draws", "anchors": ["crates/aether_rand/src/randomizers/xor_shift.rs:XorShift64Star::next_u64", "crates/aether_rand/src/randomizers/xor_shift.rs:next_f64"]}
{"id": "C145", "title": "Fixed-step minimisation within bounds converges", "statement": "With a fixed step length, no momentum, and bounds or none: for an objective of curvature between mu and L, every iteration brings the point closer to the minimiser within the bounds by a fixed factor; a run that reports convergence is within the distance the tolerances ask for; a run with a sufficient iteration limit reports convergence. For a convex objective the value after K iterations exceeds that of any admissible point by at most its squared distance from the start over 2 lr K.", "quantifier": "all dimensions, all objectives of bounded curvature, all boxes, all starts, all step lengths below 2/L (1/L for convex objectives)", "why_tests_cant": "all objectives and starts; minimisers on the boundary need the projection to be right at every step", "anchors": ["crates/aether_opt/src/gradient_descent/basic.rs:GradientDescentGeneric::minimize", "crates/aether_opt/src/gradient_descent/basic.rs:GradientDescentGeneric::project"]}
{"id": "C146", "title": "Line search within bounds stops at the minimiser", "statement": "With bounds and the default line search, a run that reports convergence is near the minimiser within the bounds.", "quantifier": "all objectives of bounded curvature, all boxes and starts", "why_tests_cant": "only minimisers at the boundary with a steep slope across it are affected", "anchors": ["crates/aether_opt/src/gradient_descent/basic.rs:GradientDescentGeneric::minimize", "crates/aether_opt/src/gradient_descent/basic.rs:GradientDescentGeneric::set_bounds"]}
{"id": "C147", "title": "Training of regression models converges", "statement": "With a learning rate below an explicit bound from the data: after k epochs the loss of linear and logistic regression exceeds that of any parameters p by at most |p0 - p|^2 / (2 lr k); ridge regression has exactly one best parameter vector and approaches it by a fixed factor below one per epoch.", "quantifier": "all data sets, all dimensions, all starting parameters, all numbers of epochs, all competing parameters", "why_tests_cant": "a statement about the limit of training for all data", "anchors": ["crates/aether_ml/src/regression/linear.rs:LinearRegression::train_epoch", "crates/aether_ml/src/regression/ridge.rs:RidgeRegression::train_epoch", "crates/aether_ml/src/regression/logistic.rs:LogisticRegression::train_epoch"]}
{"id": "C148", "title": "Conversions between degrees and radians are accurate", "statement": "In f32 and f64 arithmetic, converting an angle of ordinary size, or an array, vector or set of attitude angles, gives finite numbers within three roundings of x pi / 180 or 180 x / pi; converting to radians and back changes an angle by at most five roundings; zero is converted to zero; a larger angle never converts to a smaller one.", "quantifier": "all angles between 2^-1000 and 2^1000 in magnitude (2^-100 and 2^100 for f32) and zero, all vector lengths, all ways to break ties in rounding", "why_tests_cant": "every floating-point number in the range; relative accuracy for very small and very large angles", "anchors": ["crates/aether_core/src/utils/angle_conversion.rs:ToRadians", "crates/aether_core/src/utils/angle_conversion.rs:ToDegrees", "crates/aether_core/src/math/vector.rs:to_radians", "crates/aether_core/src/attitude/euler.rs:from_degrees_vec", "crates/aether_core/src/attitude/euler.rs:to_degrees_vec", "crates/aether_core/src/real/no_std_impl.rs:to_radians", "crates/aether_core/src/real/no_std_impl.rs:to_degrees"]}
{"id": "C149", "title": "Conversions do not overflow needlessly", "statement": "When the true angle in the target unit is within the range of the scalar type, the conversion returns a finite number.", "quantifier": "all finite f64 angles", "why_tests_cant": "only angles near the ends of the range are affected", "anchors": ["crates/aether_core/src/utils/angle_conversion.rs:ToRadians", "crates/aether_core/src/utils/angle_conversion.rs:ToDegrees"]}
{"id": "C150", "title": "Training of the linear SVM approaches the best loss", "statement": "With a learning rate of at most c m / 2 and starting weights within an explicit bound (zero weights are), the weights stay within that bound for ever, and over the first k epochs the mean of the losses, hence the loss of some epoch, exceeds that of any parameters p by at most |p0 - p|^2 / (2 lr k) + 2 lr (mean |x|^2 + 1).", "quantifier": "all data sets, all dimensions, all numbers of epochs, all competing parameters", "why_tests_cant": "a statement about training on all data sets; the loss may rise in single epochs", "anchors": ["crates/aether_ml/src/classification/svm.rs:LinearSvm::train_epoch"]}
{"id": "C151", "title": "Minimisation with momentum reports convergence", "statement": "With a fixed step length lr, momentum, and bounds or none: for any objective, convex or not, of curvature at most L with 1/lr > momentum + L/2, bounded below within the bounds, a run from within the bounds reports convergence before an explicit number of iterations and ends within the bounds at a value no larger than the first.", "quantifier": "all dimensions, all objectives of curvature at most L, all boxes, all starts within them, all momentum factors and step lengths in the stated range", "why_tests_cant": "all objectives and starts; values may rise in single iterations", "anchors": ["crates/aether_opt/src/gradient_descent/basic.rs:GradientDescentGeneric::minimize", "crates/aether_opt/src/gradient_descent/basic.rs:GradientDescentGeneric::set_momentum"]}
{"id": "C152", "title": "With momentum, reported convergence means a small gradient", "statement": "With a fixed step length and momentum, a run that reports convergence has stopped where the gradient is small.", "quantifier": "all objectives of bounded curvature, all starts and settings", "why_tests_cant": "only runs that turn back between two points are affected", "anchors": ["crates/aether_opt/src/gradient_descent/basic.rs:GradientDescentGeneric::minimize"]}
{"id": "C153", "title": "Stochastic descent approaches the minimum", "statement": "Let the objective be the mean of finitely many convex losses, each sample a subgradient of a loss drawn uniformly and independently, with bounded mean square, and let momentum be off. On average over the draws, the excess of the objective over its value at any feasible point, weighted by the learning rates, is bounded by the distance of the start and the squares of the rates. With a decaying rate the best value met approaches the minimum, and if the objective grows quadratically the returned point approaches the minimiser in mean square.", "quantifier": "all dimensions, all finite families of convex losses, all batch sizes, all boxes or none, all starts within them, all learning rates and decays, all numbers of iterations; averages over all sequences of draws", "why_tests_cant": "a statement about the average over all sequences of draws and about the limit", "anchors": ["crates/aether_opt/src/gradient_descent/stochastic.rs:GDStochastic::minimize", "crates/aether_opt/src/gradient_descent/stochastic.rs:GDStochastic::lr_at"]}
{"id": "C154", "title": "Means and covariances are accurate in floating point", "statement": "Computed in floating point, the mean of N samples differs from the arithmetic mean by at most N+2 roundings of the mean absolute value, and each entry of the covariance and cross-covariance matrices differs from the textbook value by at most N+6 roundings of the product of the standard deviations, plus the product of the errors of the two means. The covariance matrix is exactly symmetric and no variance is negative.", "quantifier": "all numbers of samples from 1 (mean) or 2 (covariance), all dimensions, all sample values, all rounding functions of relative accuracy u below 1", "why_tests_cant": "rounding errors accumulate over any number of samples and depend on every value", "anchors": ["crates/aether_stats/src/covariance.rs:mean", "crates/aether_stats/src/covariance.rs:sample_covariance", "crates/aether_stats/src/covariance.rs:sample_cross_covariance"]}
{"id": "C155", "title": "Correlations in floating point have unit diagonal and lie between -1 and 1", "statement": "The matrix returned by correlation_from_covariance, computed in floating point with a correctly rounded square root, has ones on its diagonal and, for a symmetric positive semi-definite covariance, entries between -1 and 1; covariance_from_correlation restores the covariance up to rounding.", "quantifier": "all dimensions, all covariance matrices with variances above the threshold, all rounding functions of relative accuracy u below 1", "why_tests_cant": "depends on how square roots, products and quotients of every pair of values round", "anchors": ["crates/aether_stats/src/covariance.rs:correlation_from_covariance", "crates/aether_stats/src/covariance.rs:standard_deviations_from_covariance", "crates/aether_stats/src/covariance.rs:covariance_from_correlation"]}
{"id": "C156", "title": "Rotating frames turn with the Earth and the Moon", "statement": "The Earth-fixed frame returns to the same orientation after one period, which is within two milliseconds of the 86164.0989 s of one turn of the Earth against inertial space, and not before; the Moon-fixed frame after 27.321661 days. A point at rest in the frame moves in inertial space with the cross product of the reported angular velocity and its position.", "quantifier": "all epochs, times and positions", "why_tests_cant": "first return and velocity concern all times", "anchors": ["crates/aether_core/src/reference_frame/itrf.rs:RotatingFrame::orientation_at", "crates/aether_core/src/reference_frame/itrf.rs:RotatingFrame::angular_velocity", "crates/aether_core/src/reference_frame/transforms.rs:itrf_to_icrf", "crates/aether_models/src/lunar/transforms.rs:ltrf_to_lirf", "crates/aether_models/src/lunar/constants.rs:MOON_SIDEREAL_ROTATION_RATE_RAD_S"]}
{"id": "C157", "title": "Gradient descent reports convergence honestly in machine arithmetic", "statement": "In f64 or f32, whatever the objective and the gradient return, infinities and NaN included: minimize returns the objective at the point it returns and a count within the limit, and stops early only with convergence reported. If it reports convergence, then the gradient there, or the last step (from where the same run with one iteration less ends), consists of finite numbers within the tolerance up to rounding and underflow.", "quantifier": "all formats with rounding to nearest, optimizers, objectives, gradients and starts on vectors of IEEE numbers", "why_tests_cant": "overflow and NaN can come up in any call of the objective or the gradient", "anchors": ["crates/aether_opt/src/gradient_descent/basic.rs:GradientDescentGeneric::minimize", "crates/aether_opt/src/gradient_descent/basic.rs:GradientDescentGeneric::norm2"]}
{"id": "C158", "title": "The line search ends in machine arithmetic", "statement": "In f64 or f32, minimize returns for every objective and gradient, infinities and NaN included, and every configuration the setters accept; the number of passes of one line search has a bound that does not depend on the problem.", "quantifier": "all formats with rounding to nearest, sequences of configuration calls, objectives, gradients and starts", "why_tests_cant": "termination for all functions and configurations", "anchors": ["crates/aether_opt/src/gradient_descent/basic.rs:GradientDescentGeneric::minimize", "crates/aether_opt/src/gradient_descent/basic.rs:GradientDescentGeneric::learning_rate", "crates/aether_opt/src/gradient_descent/basic.rs:GradientDescentGeneric::armijo"]}
{"id": "C159", "title": "Gradient descent stays within its bounds in machine arithmetic", "statement": "In f64 or f32, with bounds in order, every component of the point minimize returns lies within its bounds, for every objective and gradient, if a step was made or the start lies within them.", "quantifier": "all formats with rounding to nearest, optimizers with bounds, objectives, gradients and starts on vectors of IEEE numbers", "why_tests_cant": "concerns all sequences of steps and all values, NaN included", "anchors": ["crates/aether_opt/src/gradient_descent/basic.rs:GradientDescentGeneric::minimize", "crates/aether_opt/src/gradient_descent/basic.rs:GradientDescentGeneric::project", "crates/aether_opt/src/gradient_descent/basic.rs:GradientDescentGeneric::set_bounds"]}
{"id": "C160", "title": "Cholesky factors consist of finite numbers", "statement": "In f64 or f32, cholesky_lower of a matrix of finite numbers returns None or a lower triangular matrix of finite numbers with a positive diagonal.", "quantifier": "all formats with rounding to nearest, sizes and matrices of finite numbers", "why_tests_cant": "overflow and underflow anywhere in the factorisation, for every matrix", "anchors": ["crates/aether_core/src/numerical_methods/solvers/spd.rs:Matrix::cholesky_lower"]}
{"id": "C161", "title": "Solutions of linear systems are finite", "statement": "In f64 or f32, solve of a square system of finite numbers returns None or a vector of finite numbers, which solves the system up to rounding.", "quantifier": "all formats with rounding to nearest, sizes, matrices and right sides of finite numbers", "why_tests_cant": "overflow and underflow anywhere in the elimination and the substitutions, for every system", "anchors": ["crates/aether_core/src/numerical_methods/solvers/lu.rs:Matrix::solve", "crates/aether_core/src/numerical_methods/solvers/lu.rs:Matrix::lu_decompose", "crates/aether_core/src/numerical_methods/solvers/lu.rs:LuDecomp::solve"]}
{"id": "C162", "title": "Newton iteration reports honestly in machine arithmetic", "statement": "In f64 or f32, whatever the functions return, infinities and NaN included, and for every tolerance, limit and start: a point returned by NewtonRaphson::solve is a finite number within the tolerance, up to rounding, of the last point at which the functions were called, and at that point the function is a finite number, at most the derivative times the tolerance up to rounding.", "quantifier": "all formats with rounding to nearest, functions on IEEE numbers, tolerances, limits and starts", "why_tests_cant": "overflow and NaN can come up in any call of the functions", "anchors": ["crates/aether_core/src/numerical_methods/solvers/newton.rs:NewtonRaphson::solve"]}
{"id": "C163", "title": "Scalar casts are exact upwards, accurate downwards and keep order", "statement": "Casting a scalar to a wider type is exact, and casting it back gives the same value, infinities and NaN included. Casting to any type keeps order; the result differs by at most half a unit in the last place, or half the least positive number, as long as it is below the overflow threshold, and above it is the infinity of the same sign. Casting a count to f32 or f64 is exact up to 2^24 and 2^53, and has a relative error of at most 2^-24 and 2^-53 above.", "quantifier": "all formats with rounding to nearest, all values, infinities and NaN; all 64-bit counts", "why_tests_cant": "the claim ranges over every number of the type", "anchors": ["crates/aether_core/src/real/real.rs:RealCast"]}
{"id": "C164", "title": "Every polling rate gives a valid polling interval", "statement": "Whatever polling rate is given, zero, negative, infinite or NaN included: run_forever and the viewer get a polling interval without a panic; the viewer polls at least every ten seconds, and looks for new files at most every second and at least every ten seconds; run_forever uses five polls a second if the rate is not above zero.", "quantifier": "all f64 rates, and all rounding functions to nearest", "why_tests_cant": "the interval must be valid for every f64, and a test uses a few rates", "anchors": ["crates/aether_viz/src/realtime.rs:run_forever", "crates/aether_viz/src/bin/csv_tail_egui.rs:main"]}
{"id": "C165", "title": "Naive Bayes predicts a class it has seen, in machine arithmetic", "statement": "In f64 arithmetic, for every training set with at least one example and every query: GaussianNB::predict returns a class that has an example in the training set, and no such class has a larger computed score.", "quantifier": "all data sets and queries of f64 numbers, and all rounding functions to nearest", "why_tests_cant": "sums, squares and quotients can overflow for some data; a test uses moderate data", "anchors": ["crates/aether_ml/src/classification/naive_bayes.rs:GaussianNB::fit", "crates/aether_ml/src/classification/naive_bayes.rs:GaussianNB::predict"]}
{"id": "C166", "title": "The perceptron learns separable data in machine arithmetic", "statement": "In floating-point arithmetic, for every linearly separable data set of finite numbers: after finitely many epochs of train_epoch from a new Perceptron, predict returns the label of every example, and further epochs change nothing.", "quantifier": "all separable data sets of floating-point numbers, all numbers of epochs, and all rounding functions to nearest", "why_tests_cant": "the convergence argument is over exact arithmetic; a test trains on one data set, for which no rounding or overflow matters", "anchors": ["crates/aether_ml/src/classification/perceptron.rs:Perceptron::train_epoch", "crates/aether_ml/src/classification/perceptron.rs:Perceptron::predict", "crates/aether_ml/src/classification/perceptron.rs:Perceptron::new"]}
{"id": "C167", "title": "Logistic probabilities are valid and accurate in machine arithmetic", "statement": "In f64 arithmetic, for every LogisticRegression and every query, infinities and NaN included: predict_probability is NaN exactly if the accumulated score is; otherwise it is a finite number in [0, 1], within 2^-50 of 1/(1+exp(-score)), equal to 1 and 0 for scores +infinity and -infinity, and never smaller for a larger score.", "quantifier": "all parameters and queries of f64 values, all rounding functions to nearest, and all exponentials accurate to 2^-52 (monotone ones for the last clause)", "why_tests_cant": "the exponential, the sum and the quotient are each rounded and can overflow or underflow; a test samples a few scores", "anchors": ["crates/aether_ml/src/regression/logistic.rs:LogisticRegression::predict_probability", "crates/aether_ml/src/regression/logistic.rs:LogisticRegression::sigmoid"]}
{"id": "C168", "title": "Logistic training keeps the parameters finite in machine arithmetic", "statement": "In f64 arithmetic, for every data set of finite numbers and every number of epochs of train_epoch: the weights and the bias stay finite numbers, and predict_probability of a query with finite features is a number in [0, 1].", "quantifier": "all data sets and queries of f64 numbers, all numbers of epochs, all rounding functions to nearest", "why_tests_cant": "whether sums overflow depends on the size of the data and grows with the number of epochs; a test uses moderate data and few epochs", "anchors": ["crates/aether_ml/src/regression/logistic.rs:LogisticRegression::train_epoch", "crates/aether_ml/src/regression/logistic.rs:LogisticRegression::predict_probability", "crates/aether_ml/src/regression/logistic.rs:LogisticRegression::new"]}
{"id": "C169", "title": "Logistic classes follow the sign of the score in machine arithmetic", "statement": "In f64 arithmetic, for every LogisticRegression and every query: predict returns 1 exactly if the accumulated score is positive.", "quantifier": "all parameters and queries of f64 values, all rounding functions to nearest, and all accurate monotone exponentials", "why_tests_cant": "the threshold is on the rounded probability, not on the score; a test does not try scores near zero", "anchors": ["crates/aether_ml/src/regression/logistic.rs:LogisticRegression::predict"]}
{"id": "C170", "title": "The encoding assertions accept faithful encodings and reject others", "statement": "assert_vector_equivalence and assert_quaternion_equivalence pass for every value without a NaN whose encoded bytes decode to the same value, and panic if decoding fails or gives a different value.", "quantifier": "all vector lengths, all values, all encodings of the numbers", "why_tests_cant": "a test uses vectors of one length and one encoding", "anchors": ["crates/aether_test/src/assert/coding.rs:assert_vector_equivalence", "crates/aether_test/src/assert/coding.rs:assert_quaternion_equivalence"]}
{"id": "C171", "title": "Stored attitudes, coordinates and body frames are read back unchanged", "statement": "Encoding and decoding a Cartesian, Quaternion, Euler, DirectionCosineMatrix, Body or Assembly (bincode where derived, and serde in formats with and without field names) returns the same numbers; a record is accepted as an attitude exactly if it has one data field and one marker for each frame, in any order.", "quantifier": "all values, all records, all bytes that follow", "why_tests_cant": "all values and all orders and multiplicities of fields", "anchors": ["crates/aether_core/src/attitude/quaternion.rs:Quaternion", "crates/aether_core/src/attitude/euler.rs:Euler", "crates/aether_core/src/attitude/dcm.rs:DirectionCosineMatrix", "crates/aether_core/src/coordinate/cartesian.rs:Serialize for Cartesian", "crates/aether_core/src/reference_frame/body.rs:Body", "crates/aether_core/src/reference_frame/asm.rs:Assembly"]}
{"id": "C172", "title": "A stored value is not read as a value of another kind", "statement": "The stored form of one of Cartesian, Euler, Quaternion and Body is rejected when it is read as another of them with a different number of components.", "quantifier": "all values and pairs of kinds", "why_tests_cant": "all values; tests read a value back as what was stored", "anchors": ["crates/aether_core/src/attitude/quaternion.rs:Quaternion", "crates/aether_core/src/attitude/euler.rs:Euler", "crates/aether_core/src/coordinate/cartesian.rs:Cartesian", "crates/aether_core/src/math/vector.rs:Deserialize for Vector"]}
{"id": "C173", "title": "Mass properties of combined parts are accurate in floating point, wherever the parts are", "statement": "Combining two parts in floating-point arithmetic gives volume, mass, density, centre of mass and inertia tensor close to those of exact arithmetic: each error is a few roundings of the quantity itself, wherever the origin of the assembly lies.", "quantifier": "all pairs of spheres, cylinders and blocks, all positive densities, axes and positions, all accurate roundings", "why_tests_cant": "tests place parts near the origin, where no digits cancel", "anchors": ["crates/aether_shapes/src/attributes.rs:Add for MassModel", "crates/aether_shapes/src/attributes.rs:SolidOps::add_with", "crates/aether_shapes/src/attributes.rs:parallel_axis", "crates/aether_shapes/src/prism.rs:RectangularPrism", "crates/aether_shapes/src/sphere.rs:Sphere", "crates/aether_shapes/src/cylinder.rs:Cylinder"]}
{"id": "C174", "title": "A release build tells the same time as a debug build", "statement": "Wherever the operations on durations, instants, time scales, mission clocks, timers and schedules return in a build with overflow checks, a release build returns the same. Moreover a release build adds, subtracts and converts exactly whenever the true answer can be represented, even if a debug build panics on the way, and its conversions between time scales undo each other for all instants.", "quantifier": "all durations, instants, leap counts, clocks, timers, schedules and numbers of loop iterations", "why_tests_cant": "tests run in one profile; overflow is at the edge of the range of 64-bit seconds", "anchors": ["crates/aether_time/src/time/duration.rs:Duration", "crates/aether_time/src/time/time.rs:Time", "crates/aether_time/src/time/mission.rs:TimeKeeper", "crates/aether_time/src/time/mission.rs:TimerEvent", "crates/aether_time/src/time/schedule.rs:UtcSchedule", "Cargo.toml:profile.release"]}
{"id": "C175", "title": "An alarm set too far ahead does not go off at once", "statement": "If an instant plus a duration cannot be represented, this is noticed in every build: an alarm or schedule computed from it does not go off before its time, and a poll returns.", "quantifier": "all instants, durations and periods, debug and release builds", "why_tests_cant": "the sums that wrap are at the edge of the range, and tests run in the debug profile", "anchors": ["crates/aether_time/src/time/duration.rs:Add<Duration> for Time", "crates/aether_time/src/time/schedule.rs:UtcAlarm::check", "crates/aether_time/src/time/schedule.rs:UtcSchedule::check"]}
{"id": "C176", "title": "Conversions are right while another thread counts a leap second", "statement": "A conversion between time scales that runs while other threads set the leap seconds gives the answer for the leap seconds in force at one moment of the call.", "quantifier": "all instants, all numbers of stores by other threads, all interleavings of the loads and stores of the atomic", "why_tests_cant": "the interleaving that goes wrong needs a store between two adjacent loads", "anchors": ["crates/aether_time/src/time/time.rs:set_leap_seconds", "crates/aether_time/src/time/time.rs:tai_minus_utc", "crates/aether_time/src/time/time.rs:Time<GPS>::to_tai", "crates/aether_time/src/time/time.rs:Time<TAI>::to_gps", "crates/aether_time/src/time/mission.rs:TimeKeeper<GPS>::now_gps"]}
{"id": "C177", "title": "The normal density is a number that falls away from the mean, in f64", "statement": "In f64, with rounding, overflow and underflow, the density of a normal distribution with a positive standard deviation, given or fitted to finite observations, is at every finite point a number that is not negative, and it never grows away from the mean.", "quantifier": "all finite means, positive finite standard deviations, finite points and lists of finite observations; all ways to break rounding ties; all monotone exponentials accurate to two units in the last place", "why_tests_cant": "the failing points need deviations whose square leaves the range of f64; monotonicity compares any two of 2^64 points", "anchors": ["crates/aether_stats/src/distributions/gaussian.rs:pdf", "crates/aether_stats/src/distributions/gaussian.rs:fit_mle", "crates/aether_stats/src/distributions/gaussian.rs:new"]}
{"id": "C178", "title": "The fitted mean lies within the observations, in f64", "statement": "In f64, the mean of a normal distribution fitted to a non-empty list of finite observations is a number between the least and the greatest observation.", "quantifier": "all non-empty lists of finite observations; all ways to break rounding ties", "why_tests_cant": "whether the rounded mean leaves the range depends on the bits of the observations and on their order", "anchors": ["crates/aether_stats/src/distributions/gaussian.rs:fit_mle"]}
{"id": "C179", "title": "Every accepted step gives a grid", "statement": "The program that tabulates the magnetic field accepts only steps that are positive numbers, and for every accepted step the grid is computed in a finite number of turns and both axes end at their upper ends.", "quantifier": "all f64 steps and largest latitudes, NaN and infinities included; all ways to break rounding ties", "why_tests_cant": "that a loop on floating-point values ends depends on the rounding of every addition; a hang cannot be observed by a test", "anchors": ["crates/aether_catalogs/examples/wmm_grid_csv.rs:parse_args", "crates/aether_catalogs/examples/wmm_grid_csv.rs:generate_csv", "crates/aether_catalogs/examples/wmm_grid_csv.rs:grid_values"]}
{"id": "C180", "title": "Interpolants approximate the smooth function they sample", "statement": "Sample a smooth function and interpolate. The polynomial interpolant of n samples of a function with n continuous derivatives errs, at any point of an interval that holds the nodes and more than the tolerance from each of them, by at most the bound of the n-th derivative over n! times the product of the distances to the nodes; within the tolerance of a node by at most the tolerance times the bound of the first derivative. Linear interpolation between two samples of a function with two continuous derivatives errs by at most the bound of the second derivative times the squared spacing over eight. The cubic spline errs, between its first and last knot, by at most the square root of h^3/4 times the integral of the squared second derivative, where h is the largest gap between knots.", "quantifier": "every function with that many continuous derivatives, every number and position of nodes accepted by construction, every query point in the interval", "why_tests_cant": "the error is over all smooth functions, all meshes and all query points; a test compares one function on one mesh.", "anchors": ["crates/aether_interp/src/polynomial.rs: PolynomialInterpolator::evaluate", "crates/aether_interp/src/spline.rs: CubicSpline::evaluate", "crates/aether_interp/src/lerp.rs: lerp"]}
{"id": "C181", "title": "Newton iteration finds the root it is started at", "statement": "Started close enough to a simple root (the derivative is bounded away from zero and varies slowly enough within the starting distance of the root) the solver returns an answer, after a number of iterations that grows like the logarithm of the logarithm of the precision, and every answer is within a constant times the squared tolerance of that root. Started anywhere to the right of the root of a convex increasing function it returns an answer once the iteration limit times the tolerance exceeds the distance, and every answer lies between the root and the start.", "quantifier": "all functions with the stated derivative, all starts in the stated region, all tolerances and iteration limits", "why_tests_cant": "convergence is a statement about all functions and all starting points of a region.", "anchors": ["crates/aether_core/src/numerical_methods/solvers/newton.rs: NewtonRaphson::solve"]}
{"id": "C182", "title": "Quaternion of a nearly orthogonal matrix is accurate in floating point", "statement": "In floating point with unit roundoff u, converting a matrix whose entries are within d <= 1/64 of a rotation matrix to a quaternion succeeds, and every component is within 15 d + 56 u of the unit quaternion of that rotation or of its negative. Converting a quaternion to a matrix makes an error of at most 6 u in every entry, so a quaternion whose squared length is within e <= 1/128 of one comes back from its matrix, up to the common sign, within 16 e + 146 u in every component.", "quantifier": "all unit quaternions, all perturbed matrices, all precisions of at least eleven bits (eight for the one-way statements), all round-to-nearest arithmetics without overflow and underflow", "why_tests_cant": "the choice of the pivot depends on the rounded diagonal; every rotation, including those at the boundary between two pivots, has to be covered.", "anchors": ["crates/aether_core/src/attitude/quaternion.rs: TryFrom<&DirectionCosineMatrix> for Quaternion", "crates/aether_core/src/attitude/dcm.rs: From<&Quaternion> for DirectionCosineMatrix"]}
{"id": "C183", "title": "Vector operators and in-place updates", "statement": "Adding, subtracting, negating, scaling and dividing vectors acts entry by entry; += and -= leave what + and - return; assigning to an entry succeeds exactly in bounds, is read back, and changes no other entry; iteration visits every entry once in index order; map and iter_mut call a closure, which may carry a state, once per entry in index order and put each result in its place.", "quantifier": "all vector lengths, all scalar types and operations (rounded or not), all entries, all closures", "why_tests_cant": "loops over an arbitrary length with an arbitrary scalar type.", "anchors": ["crates/aether_core/src/math/vector.rs: Add, AddAssign, Sub, SubAssign, Neg, Mul, Div, Index, IndexMut, iter, iter_mut, map", "crates/aether_core/src/coordinate/cartesian.rs: AddAssign, SubAssign", "crates/aether_core/src/attitude/euler.rs: AddAssign"]}
{"id": "C184", "title": "An epoch of training does not make the fit worse", "statement": "One call of train_epoch of linear, ridge or logistic regression does not raise the loss it descends on, and lowers it unless the parameters stay as they are.", "quantifier": "all data sets, all dimensions, all parameters, all positive learning rates, all numbers of epochs", "why_tests_cant": "tests use features of size one and a hand-picked learning rate.", "anchors": ["crates/aether_ml/src/regression/linear.rs: LinearRegression::train_epoch, LinearRegression::new", "crates/aether_ml/src/regression/ridge.rs: RidgeRegression::train_epoch", "crates/aether_ml/src/regression/logistic.rs: LogisticRegression::train_epoch, LogisticRegression::new"]}
{"id": "C185", "title": "A parallel run does not depend on the schedule, in any arithmetic, also when a sampler panics", "statement": "The result of minimize of the parallel stochastic optimiser with given settings, seed and number of threads is bit for bit that of drawing the shares of the threads one after the other, in whatever order the threads make progress; and the call panics exactly if some call of the gradient sampler does, never returning a result from part of a batch.", "quantifier": "all scalar types with whatever rounding, all samplers including ones that panic, all settings and seeds, all schedules of the threads under which each gets to its end", "why_tests_cant": "a test sees a few schedules of one machine.", "anchors": ["crates/aether_opt/src/gradient_descent/stochastic_parallel.rs: GDStochasticParallel::minimize, thread_seed, threads"]}
{"id": "C186", "title": "A seeded parallel run gives the same result on every machine", "statement": "minimize of the parallel stochastic optimiser, constructed with the same seed and the same settings, gives the same result on every machine.", "quantifier": "all settings and seeds, all numbers of threads the machine offers, all schedules", "why_tests_cant": "a test runs on one machine.", "anchors": ["crates/aether_opt/src/gradient_descent/stochastic_parallel.rs: GDStochasticParallel::minimize, thread_seed, threads"]}
{"id": "C187", "title": "A failed write to a log does not spoil other rows", "statement": "If a write to the timing or power log fails, the program goes on, and every row whose own write succeeds is in the file as a row of its own with its time and cells.", "quantifier": "all numbers of threads and entries, all schedules, all places at which writes fail", "why_tests_cant": "tests do not make writes fail, and the places and schedules are unbounded.", "anchors": ["crates/aether_benchmark/src/performance/performance.rs: TimingCsv::timing_ms, PowerCsv::sample, TimingCsv::new, PowerCsv::new"]}
{"id": "C188", "title": "Training in floating point ends near the best fit", "statement": "Training linear or ridge regression for any number of epochs in floating point, with a learning rate below the bound from the data, keeps the parameters near the exact best fit: with roundings of relative size u the distance from a least-squares solution grows at most at the pace of the roundings, and if the data (or the penalty) determine the fit, the parameters come geometrically within an explicit multiple of u of it and stay there.", "quantifier": "all numbers of features, data sets, labels, starting parameters, learning rates below the bound, numbers of epochs and roundings with relative error u", "why_tests_cant": "rounding errors of all epochs add up over unboundedly many epochs, and a test compares a few fits with a loose tolerance.", "anchors": ["crates/aether_ml/src/regression/linear.rs: LinearRegression::train_epoch", "crates/aether_ml/src/regression/ridge.rs: RidgeRegression::train_epoch"]}
{"id": "C189", "title": "Training linear regression keeps the parameters finite", "statement": "Training a linear regression on finite data with finite starting parameters keeps its weights and bias finite numbers in 64-bit arithmetic.", "quantifier": "all numbers of features, finite data sets and labels, starting parameters, learning rates, numbers of epochs and ways of rounding to nearest", "why_tests_cant": "overflow builds up over epochs; tests run a few epochs on tame data with a small rate set by hand.", "anchors": ["crates/aether_ml/src/regression/linear.rs: LinearRegression::new, train_epoch"]}
{"id": "C190", "title": "Coordinates converted to polar form and back in floating point", "statement": "A point converted to cylindrical coordinates and back in floating point keeps its height exactly and its other two coordinates to a few roundings of its distance from the axis. Converted to spherical coordinates and back it keeps its height to a few roundings of its distance from the origin, and the other two coordinates to the square root of a rounding, or to a few roundings over the sine of the inclination, whichever is better.", "quantifier": "all points with floating-point coordinates, precisions of at least 4 bits, ways of rounding to nearest and mathematics libraries of accuracy e", "why_tests_cant": "tests convert a few points away from the axis; the loss of digits depends on how near the axis the point is.", "anchors": ["crates/aether_core/src/coordinate/spherical.rs: From<&Cartesian> for Spherical", "crates/aether_core/src/coordinate/cylindrical.rs: From<&Cartesian> for Cylindrical", "crates/aether_core/src/coordinate/cartesian.rs: From<&Spherical> for Cartesian, From<&Cylindrical> for Cartesian"]}
{"id": "C191", "title": "Spherical coordinates keep a point to the accuracy of the arithmetic", "statement": "A point converted to spherical coordinates and back in floating point keeps every coordinate within a fixed, moderate number of roundings of its distance from the origin.", "quantifier": "all points with floating-point coordinates, precisions and ways of rounding to nearest", "why_tests_cant": "the loss is confined to a thin cone about the axis, which sampled points miss.", "anchors": ["crates/aether_core/src/coordinate/spherical.rs: From<&Cartesian> for Spherical", "crates/aether_core/src/coordinate/cylindrical.rs: From<&Cartesian> for Cylindrical", "crates/aether_core/src/coordinate/cartesian.rs: From<&Spherical> for Cartesian, From<&Cylindrical> for Cartesian"]}
{"id": "C192", "title": "Geodetic to Earth-fixed coordinates in floating point", "statement": "Every Earth-fixed coordinate computed from a geodetic latitude, longitude and altitude differs from the exact one by at most eight roundings and three library errors of the sum of the semi-major axis and the altitude.", "quantifier": "all latitudes, longitudes and altitudes, roundings of relative size up to a millionth and mathematics libraries of accuracy e", "why_tests_cant": "the claim is a bound over a continuum of positions, precisions and libraries.", "anchors": ["crates/aether_models/src/terrestrial/wgs84/transforms/mod.rs: geocentric_to_ecef, ecef_to_geocentric"]}
{"id": "C193", "title": "Earth-fixed to geodetic coordinates in floating point", "statement": "Converting a position at least six million metres from the centre to geodetic coordinates in floating point never gives a NaN, and the exact position of the result is within twenty roundings and three library errors, times the distance from the centre, of the given one, whether or not the iteration met its tolerance. Converting back in floating point returns every coordinate within forty roundings and ten library errors.", "quantifier": "all positions at least 6000 km from the centre, roundings of relative size between 1e-30 and 1e-6, tolerances up to 400 roundings and mathematics libraries of accuracy e", "why_tests_cant": "the tolerance of the iteration is below the spacing of floating-point numbers at this size, so whether it is met depends on the position; only a bound over all positions shows that the answer is accurate either way.", "anchors": ["crates/aether_models/src/terrestrial/wgs84/transforms/mod.rs: geocentric_to_ecef, ecef_to_geocentric"]}
{"id": "C194", "title": "Magnetic field in floating point", "statement": "Wherever the magnetic model evaluated in real numbers reports a field, the evaluation in floating point does not report the pole error, and the northward and downward components it computes are within 8e11 (u + e) / c^3 nanotesla of the exact ones and its eastward component within 1e11 (u + e) / c^2, where u is the relative size of a rounding, e the error of the library's sine, cosine and arcsine, and c the cosine of the geocentric latitude, as long as 70000 (u + e) is at most c^2. In double precision with an exact library that is below a ten-thousandth of a nanotesla at the equator.", "quantifier": "all dates within five years of 2025, all latitudes, longitudes and heights above -10 km away from the poles by the stated margin, roundings of relative size up to a millionth and mathematics libraries of accuracy e", "why_tests_cant": "the recursions for the Legendre functions and the harmonics amplify roundings by amounts that depend on the point; only a bound over all points rules out a bad one.", "anchors": ["crates/aether_catalogs/src/wmm/mod.rs: WorldMagneticModel::evaluate_with_coefficients, schmidt_semi_normalized_legendre, schmidt_factor, longitude_harmonics, geodetic_to_geocentric"]}
{"id": "C195", "title": "Intensities, angles and rates of the magnetic field in floating point", "statement": "Where the exact horizontal intensity is at least 104 times the bound B of the components (B = 8e11 (u + e) / c^3 nanotesla, as in C194), the evaluation in floating point succeeds. Its components and their rates are within B of the exact ones, the horizontal and total intensity within 2B and 4B, cosine and sine of declination and inclination within 3B and 5B divided by the intensity plus the error of the arctangent, and the rates of intensities and angles within a multiple of B times one plus the size of the rates over the horizontal intensity.", "quantifier": "all dates within five years of 2025, all latitudes, longitudes and heights above -10 km away from the poles by the margin of C194 and with enough horizontal field, roundings of relative size up to a millionth and mathematics libraries of accuracy e", "why_tests_cant": "near the magnetic poles the horizontal field vanishes and the declination amplifies every error; only a bound in terms of the field separates good points from bad ones.", "anchors": ["crates/aether_catalogs/src/wmm/mod.rs: WorldMagneticModel::evaluate, evaluate_with_coefficients, MagneticElements"]}
{"id": "C196", "title": "Positions between inertial and rotating axes in floating point", "statement": "A position turned into Earth-fixed or Moon-fixed axes, or back, in floating point differs from the exact one in the plane of the equator by at most (u |angle| + e + 6u) times the size of its in-plane coordinates, and along the axis by at most 5u times its height, where u is the rounding unit, e the error of sine and cosine and the angle is the one turned since time zero. There and back at the same time the error is at most 5e + 30u times the size, however large the time is. The orientation quaternion of the Earth-fixed axes is within e + 4u times half the angle.", "quantifier": "all rates, times, positions, roundings of relative size up to a millionth and libraries of accuracy e up to 0.2", "why_tests_cant": "the error grows with the time, which has no bound, and the round trip hides it: tests of the round trip pass at every time.", "anchors": ["crates/aether_models/src/terrestrial/wgs84/transforms/mod.rs: icrf_to_itrf, itrf_to_icrf", "crates/aether_core/src/reference_frame/transforms.rs: icrf_to_itrf, itrf_to_icrf", "crates/aether_models/src/lunar/transforms.rs: lirf_to_ltrf, ltrf_to_lirf", "crates/aether_core/src/reference_frame/itrf.rs: orientation_at", "crates/aether_core/src/attitude/dcm.rs: Mul<Cartesian>"]}
{"id": "C197", "title": "Earth-fixed positions stay accurate over the years", "statement": "A position within 200 000 km of the axis and of the equator, turned to Earth-fixed axes at any time within three centuries of the epoch, is correct to three centimetres, in whichever floating-point type the transform is used.", "quantifier": "all times up to 1e10 seconds, rates up to 0.0001 rad/s, positions up to 200 000 km, single and double precision", "why_tests_cant": "the loss depends on how the angle falls between two floating-point numbers and appears only after a long time; the functions are generic in the scalar type.", "anchors": ["crates/aether_models/src/terrestrial/wgs84/transforms/mod.rs: icrf_to_itrf, itrf_to_icrf", "crates/aether_core/src/reference_frame/transforms.rs: icrf_to_itrf, itrf_to_icrf"]}
{"id": "C198", "title": "The ICAO standard atmosphere in floating point", "statement": "Computed in floating point, the temperature at every altitude from -5 km to 80 km is within four roundings of the exact one, the pressure within 215 roundings and the density within 225 roundings plus the relative error of the library's power and exponential; exactly above 80 km an error is returned. Geometric and geopotential altitude are converted within four roundings, there and back within twelve, and gravity is within eight roundings plus the error of the power.", "quantifier": "all altitudes of the range, all roundings to nearest with at least 24 significant bits, all libraries with relative error e up to a millionth", "why_tests_cant": "the layer is chosen by comparing a rounded number with a table, and a power with exponent 34 amplifies every rounding of its base; which altitude is worst is not known.", "anchors": ["crates/aether_models/src/terrestrial/atmospheres/isa.rs: ISA::temperature, ISA::pressure, ISA::density, ISA::gravity, ISA::geopotential_altitude, ISA::geometric_altitude"]}
{"id": "C199", "title": "The view matrix in floating point", "statement": "Computed in floating point, the forward axis of the view matrix is right to ten rounding errors in every coordinate, and the right and up axes to 110 rounding errors over the sine of the angle between up direction and line of sight, wherever the eye is and however far it looks, as long as that sine is at least a thousand rounding errors; the translation column is right to the same multiples of the eye's coordinates, and the last row is exactly (0, 0, 0, 1).", "quantifier": "all eyes, look-at points and up directions of any length with a sine of at least a thousand rounding errors; all roundings of relative size at most a millionth", "why_tests_cant": "the error grows without bound as the up direction approaches the line of sight, so that no set of test cameras shows where it becomes visible.", "anchors": ["crates/aether_graphics/src/graphics/transforms.rs: look_at", "crates/aether_core/src/math/vector.rs: normalize, cross, dot"]}
{"id": "C200", "title": "The view matrix consists of numbers and orthonormal axes in floating point", "statement": "Whenever the up direction is not along the line of sight, the view matrix computed in floating point has only numbers, and its axes are unit vectors at right angles up to 750 rounding errors over the sine of the angle between them.", "quantifier": "all eyes, look-at points and up directions with a sine other than zero", "why_tests_cant": "the exceptional cameras are those at a few particular angles of the size of one rounding.", "anchors": ["crates/aether_graphics/src/graphics/transforms.rs: look_at", "crates/aether_core/src/math/vector.rs: normalize, cross, dot"]}
{"id": "C201", "title": "The orbit camera in floating point, however long it is dragged", "statement": "Computed in floating point, from the default camera and after any number of operations in any order, the orientation is a unit quaternion up to 6 rounding errors; the forward, right and up axes are numbers, of unit length up to 6 rounding errors and at right angles to each other up to 10; the right axis is exactly level unless the camera looks straight up or down, and the up axis never points down; the position is the target less the distance along the forward axis, up to 3 rounding errors; yaw and pitch are numbers. None of these errors grows with the number of operations.", "quantifier": "all finite sequences of set_angles, the four orbit operations and assignments of the public fields, with any finite numbers; all roundings of relative size at most a millionth; all libraries whose sine and cosine are within one half of the exact ones", "why_tests_cant": "the claim is that errors do not accumulate, over histories of any length.", "anchors": ["crates/aether_graphics/src/cameras/orbit_camera.rs: OrbitCamera, set_angles, apply_orbit_pixels, apply_orbit_angles, apply_orbit_world_angles, apply_orbit_world_pixels, forward, right, cam_up, position", "crates/aether_core/src/attitude/quaternion.rs: from_axis_angle, normalized, rotate_vector"]}
{"id": "C202", "title": "What one operation does to the orbit camera in floating point", "statement": "Computed in floating point, setting the angles, orbiting and world orbiting give the orientation of the exact product of turns, up to a bound that is linear in the error of the sine and cosine and in the rounding error times one plus the angles; orbiting turns about the vertical and then about the right axis of the camera so turned, for all directions of view, also straight up and down; dragging by pixels orbits by the rounded product with the sensitivity, with the sign changed.", "quantifier": "all orientations that a history can reach (C201), all angles and pixels; for set_angles all yaws of which the bound is at most a tenth", "why_tests_cant": "the direction of the right axis is discontinuous at the vertical, and the bound has to hold for all angles.", "anchors": ["crates/aether_graphics/src/cameras/orbit_camera.rs: OrbitCamera, set_angles, apply_orbit_pixels, apply_orbit_angles, apply_orbit_world_angles, apply_orbit_world_pixels, forward, right, cam_up, position", "crates/aether_core/src/attitude/quaternion.rs: from_axis_angle, normalized, rotate_vector"]}
{"id": "C203", "title": "Star positions and velocities in floating point", "statement": "Computed in floating point, every component of the position of a star is a number and equals the distance times the direction of the catalogue place moved by the proper motion, up to a bound proportional to the distance; in f64, for proper motions up to 11 arcseconds a year and epochs within ten thousand years of 2016, the error is below three billionths of an arcsecond. The velocity is the tangential velocity up to the same relative bound, at right angles to the position up to seven times that, and exactly zero without a positive parallax and both proper motions.", "quantifier": "all catalogue records of finite numbers and all epochs for which the bound is at most a tenth; all roundings of relative size at most a millionth; all libraries whose sine and cosine are within e of the exact ones", "why_tests_cant": "the error of the argument of sine and cosine grows with the angle and the epoch; a test sees one star at one epoch.", "anchors": ["crates/aether_catalogs/src/star_catalogs/mod.rs: icrs_sample, propagated_uncertainty, GncRecord, GncCatalogMotionSample"]}
{"id": "C204", "title": "Star position uncertainties in floating point", "statement": "Computed in floating point, both uncertainties of a Gaia star are numbers at every epoch, never below those of the catalogue, and follow the root-sum-square law up to eight roundings. For other stars the same holds from 2016 on and before the middle of 1966, with the variance right up to ten roundings of the variance added up from 1991.25. Rounding never makes an uncertainty decrease with the distance from 2016 on these ranges.", "quantifier": "all catalogue records of finite floating-point numbers, all epochs (for stars not from Gaia: from 2016 on or up to 1966.5), every rounding to nearest with at least 24 bits", "why_tests_cant": "monotonicity and the sign under the square root must survive the rounding of every operation for every epoch.", "anchors": ["crates/aether_catalogs/src/star_catalogs/mod.rs: icrs_sample, propagated_uncertainty, GncRecord, GncCatalogMotionSample"]}
{"id": "C205", "title": "Taking one part out of another is accurate in floating point up to the cancellation of their masses", "statement": "Let K be the ratio of the sum of the masses of two parts to their difference (and at least that of the volumes). As long as K times some hundred roundings stays below one hundredth, subtracting one part from the other in floating-point arithmetic succeeds, and gives volume, mass, density, centre of mass and inertia tensor of what is left up to a few times that fraction: of the quantity itself for volume, mass and density, of the distances from the origin for the centre of mass, and of the mass times their square, plus a few roundings of the moments of the parts, for the inertia.", "quantifier": "all pairs of spheres, cylinders and blocks, all positive densities, axes and positions, all accurate roundings", "why_tests_cant": "the cancellation depends on all sizes, densities and positions at once; tests use a few hollow bodies whose wall is thick.", "anchors": ["crates/aether_shapes/src/attributes.rs:Sub for MassModel", "crates/aether_shapes/src/attributes.rs:SolidOps::subtract_with", "crates/aether_shapes/src/attributes.rs:parallel_axis"]}
{"id": "C206", "title": "Inverting a 3 \u00d7 3 matrix in floating point", "statement": "If all entries of a 3 \u00d7 3 matrix are at most M in size and its determinant is at least 1400 roundings of M^3, then every entry of the matrix which inverse() returns, computed in floating point, is within 3000 roundings of M^5/det^2 of the true inverse, and the products with the matrix in both orders are within 9000 roundings of M^6/det^2 of the identity. inverse() returns None only if the elimination inside the determinant meets a pivot below the threshold, or if the determinant is at most twice the threshold.", "quantifier": "all 3 \u00d7 3 matrices so conditioned, all thresholds, all accurate roundings with at most one millionth relative error", "why_tests_cant": "the error depends on how the cofactors and the determinant cancel; tests invert a few well-conditioned matrices.", "anchors": ["crates/aether_core/src/math/matrix.rs:Matrix::inverse", "crates/aether_core/src/math/matrix.rs:Matrix::determinant"]}
{"id": "C207", "title": "The two inverses of a 3 \u00d7 3 matrix agree", "statement": "inverse() and inverse_gauss_jordan() give the same answer for every 3 \u00d7 3 matrix: both return None, or both return the same matrix.", "quantifier": "all 3 \u00d7 3 matrices", "why_tests_cant": "both are tested with a few matrices of entries near one; the disagreement needs small entries.", "anchors": ["crates/aether_core/src/math/matrix.rs:Matrix::inverse", "crates/aether_core/src/math/matrix.rs:Matrix::inverse_gauss_jordan"]}
{"id": "C208", "title": "Classifications depend neither on the order of the samples nor on the origin of the features", "statement": "LDA, QDA and naive Bayes give the same answer for every point if the labelled samples are given in another order, and if the same vector is added to all samples and to the point.", "quantifier": "all data sets and labels, all orders, all translations, all points, all thresholds", "why_tests_cant": "the claim compares two runs over all data sets; degenerate ones (empty classes, singular covariances, ties) must agree too.", "anchors": ["crates/aether_ml/src/classification/lda_qda.rs:Lda::fit", "crates/aether_ml/src/classification/lda_qda.rs:Lda::predict", "crates/aether_ml/src/classification/lda_qda.rs:Qda::fit", "crates/aether_ml/src/classification/lda_qda.rs:Qda::predict", "crates/aether_ml/src/classification/naive_bayes.rs:GaussianNB::fit", "crates/aether_ml/src/classification/naive_bayes.rs:GaussianNB::predict"]}
{"id": "C209", "title": "Classifications do not depend on the units of the features", "statement": "LDA and QDA give the same answer for every point if samples and point undergo an invertible linear change of coordinates; naive Bayes if each feature is given in another unit.", "quantifier": "all data sets and labels, all invertible changes of coordinates, all points", "why_tests_cant": "tests use features of size one; the disagreement shows with small units.", "anchors": ["crates/aether_ml/src/classification/lda_qda.rs:Lda::fit", "crates/aether_ml/src/classification/lda_qda.rs:Lda::predict", "crates/aether_ml/src/classification/lda_qda.rs:Qda::fit", "crates/aether_ml/src/classification/lda_qda.rs:Qda::predict", "crates/aether_ml/src/classification/naive_bayes.rs:GaussianNB::fit", "crates/aether_ml/src/classification/naive_bayes.rs:GaussianNB::predict"]}
{"id": "C210", "title": "The linear solver does not depend on the order and units of equations and unknowns", "statement": "Whether solve() returns a solution, and which, does not depend on the order in which the equations and the unknowns are given, nor on factors by which the equations are multiplied or the units of the unknowns: the solution of the rearranged system is the rearranged solution.", "quantifier": "all square systems over any ordered field, all orders of equations and unknowns, all nonzero factors", "why_tests_cant": "the claim compares the solver with itself on all rearrangements; the disagreements need nearly equal pivots close to the threshold.", "anchors": ["crates/aether_core/src/numerical_methods/solvers/lu.rs:lu_decompose", "crates/aether_core/src/numerical_methods/solvers/lu.rs:Matrix::solve"]}
{"id": "C211", "title": "Cubic splines do not depend on units and origin, and superpose", "statement": "If the data are given in other units and from other origins (abscissas with a positive factor), the spline can be built and gives the same curve in these units; the spline through a linear combination of data is the linear combination of the splines.", "quantifier": "all data sets of all sizes, all units, origins and combinations, all points", "why_tests_cant": "the claim relates two constructions for all data; tests compare with stored numbers.", "anchors": ["crates/aether_interp/src/spline.rs:CubicSpline::new", "crates/aether_interp/src/spline.rs:CubicSpline::evaluate"]}
{"id": "C212", "title": "Interpolating polynomials do not depend on the order and units of the data, and superpose", "statement": "If the samples are given in another order, in other units or from other origins, the interpolator can be built and gives the same curve in these units; the interpolator of a linear combination of data is the linear combination of the interpolators.", "quantifier": "all data sets of all sizes, all orders, units, origins and combinations, all points", "why_tests_cant": "the claim relates two constructions for all data; the disagreements need nodes close together.", "anchors": ["crates/aether_interp/src/polynomial.rs:PolynomialInterpolator::new", "crates/aether_interp/src/polynomial.rs:PolynomialInterpolator::evaluate"]}
{"id": "C213", "title": "Integrators and Newton iteration do not depend on coordinates and units", "statement": "Runge-Kutta runs commute with every affine map of the state and every change of the unit of time, so simulating in other coordinates or units gives the same trajectory; quantities linear in the state that the system conserves are conserved exactly, whatever the steps. The Euler and trapezoidal increments transform alike. Newton iteration in other units and from another origin, with the tolerance in the same unit as the unknown, visits the same points and ends with the same answer or error.", "quantifier": "all systems, maps, units, starts, step sizes and numbers of steps; all functions, tolerances and limits", "why_tests_cant": "the claim relates two runs for every system and every change of coordinates.", "anchors": ["crates/aether_core/src/numerical_methods/integration/rk4.rs:integrate_rk4", "crates/aether_core/src/numerical_methods/integration/euler.rs:integrate_euler", "crates/aether_core/src/numerical_methods/integration/trapezoidal.rs:integrate_trapezoidal", "crates/aether_core/src/numerical_methods/solvers/newton.rs:NewtonRaphson::solve"]}
{"id": "C214", "title": "Long runs of the integrators on oscillators and decays", "statement": "The energy of an oscillator simulated with Runge-Kutta steps never grows if and only if the product of angular frequency and step is at most the square root of eight: below it the energy dies out, at it it is constant, beyond it it grows without bound. With Euler increments it grows without bound for every step. A decaying quantity simulated with Runge-Kutta steps never changes sign; it dies out up to a product of rate and step of 2.785 and grows without bound from 2.786.", "quantifier": "all frequencies, rates, step sizes, initial states and numbers of steps", "why_tests_cant": "the behaviour after arbitrarily many steps, for every step size.", "anchors": ["crates/aether_core/src/numerical_methods/integration/rk4.rs:integrate_rk4", "crates/aether_core/src/numerical_methods/integration/euler.rs:integrate_euler"]}
{"id": "C215", "title": "Units that differ by powers of two give the same digits", "statement": "In floating point, if the inputs are given in units that differ from the original ones by powers of two, then inner products, lengths, directions, matrix products (with a unit for each row, column and inner index), Runge-Kutta runs (with a unit for each component and one for the time) and Newton iterations (with the tolerance in the unit of the unknown) give the same digits: the original results in the new units, without any rounding difference.", "quantifier": "all sizes, all inputs, all powers of two, all right-hand sides and functions that are themselves expressed in the new units, all numbers of steps, all roundings that look at the digits only", "why_tests_cant": "equality of every digit for all inputs and all powers of two.", "anchors": ["crates/aether_core/src/math/vector.rs:Vector::dot", "crates/aether_core/src/math/vector.rs:Vector::norm", "crates/aether_core/src/math/vector.rs:Vector::normalize", "crates/aether_core/src/math/algorithms.rs:mul_matrix_strided", "crates/aether_core/src/numerical_methods/integration/rk4.rs:integrate_rk4", "crates/aether_core/src/numerical_methods/solvers/newton.rs:NewtonRaphson::solve"]}
{"id": "C216", "title": "The linear solver in units that differ by powers of two", "statement": "In floating point, if the unknowns are given in units that differ by powers of two, one for each unknown, and the right-hand side in another such unit, the solver returns the same solution in these units, digit for digit, and the determinant is multiplied by the product of the factors.", "quantifier": "all systems of all sizes, all powers of two, all roundings that look at the digits only", "why_tests_cant": "equality of every digit for all systems; the disagreement needs a matrix with small entries.", "anchors": ["crates/aether_core/src/numerical_methods/solvers/lu.rs:Matrix::solve", "crates/aether_core/src/math/matrix.rs:Matrix::determinant"]}
{"id": "C217", "title": "Training does not depend on the order of the samples", "statement": "An epoch of linear, ridge or logistic regression or of the linear support vector machine, and fitting any of these models or the perceptron with an optimiser, give the same model if the samples (with their labels) are given in another order.", "quantifier": "all data sets of all sizes and dimensions, all orders, all models to start from, all settings of the optimiser", "why_tests_cant": "all permutations of all data sets, through all iterations of the optimiser.", "anchors": ["crates/aether_ml/src/regression/linear.rs:LinearRegression::train_epoch", "crates/aether_ml/src/regression/linear.rs:LinearRegression::fit_with_optimizer", "crates/aether_ml/src/regression/ridge.rs:RidgeRegression::train_epoch", "crates/aether_ml/src/regression/logistic.rs:LogisticRegression::train_epoch", "crates/aether_ml/src/classification/svm.rs:LinearSvm::train_epoch", "crates/aether_ml/src/classification/perceptron.rs:Perceptron::fit_with_optimizer"]}
{"id": "C218", "title": "Training does not depend on repeating all samples", "statement": "Training on all samples repeated k times gives the same model as training on the samples once.", "quantifier": "all data sets with as many labels as inputs, all k >= 1, all models to start from, all settings of the optimiser", "why_tests_cant": "all data sets and all k; the disagreement is in the scaling of one penalty.", "anchors": ["crates/aether_ml/src/regression/linear.rs:LinearRegression::train_epoch", "crates/aether_ml/src/regression/linear.rs:LinearRegression::fit_with_optimizer", "crates/aether_ml/src/regression/ridge.rs:RidgeRegression::train_epoch", "crates/aether_ml/src/regression/logistic.rs:LogisticRegression::train_epoch", "crates/aether_ml/src/classification/svm.rs:LinearSvm::train_epoch", "crates/aether_ml/src/classification/perceptron.rs:Perceptron::fit_with_optimizer"]}
{"id": "C219", "title": "Minimisers do not depend on the choice of rectangular coordinates", "statement": "If the coordinates are rotated, reflected, exchanged or moved to another origin, and the objective and its gradient are written in the new coordinates (the objective up to a constant for the deterministic version), gradient descent, plain, stochastic or with threads, follows the same path: the point returned is the original one in the new coordinates, with the same value, number of iterations and verdict. With bounds on the unknowns this holds for exchanges of coordinates and another origin.", "quantifier": "all rotations (and embeddings in more dimensions), all origins, all objectives, gradients and samplers, all settings, start points, seeds, numbers of threads and schedules", "why_tests_cant": "equality along the whole run for all rotations, objectives and schedules.", "anchors": ["crates/aether_opt/src/gradient_descent/basic.rs:GradientDescentGeneric::minimize", "crates/aether_opt/src/gradient_descent/stochastic.rs:GDStochastic::minimize", "crates/aether_opt/src/gradient_descent/stochastic_parallel.rs:GDStochasticParallel::minimize"]}
{"id": "C220", "title": "Training in rotated feature coordinates gives the rotated model", "statement": "If all inputs and the weights to start from are rotated (or reflected, or their components exchanged), then an epoch of training of any of the five linear models, and fitting it with an optimiser without bounds, give the rotated weights and the same bias; predictions for rotated inputs are the same.", "quantifier": "all rotations (and embeddings in more dimensions), all data sets, models to start from and settings of the optimiser without bounds", "why_tests_cant": "all rotations and data sets, through all iterations of the optimiser.", "anchors": ["crates/aether_ml/src/regression/linear.rs:LinearRegression::train_epoch", "crates/aether_ml/src/regression/linear.rs:LinearRegression::fit_with_optimizer", "crates/aether_ml/src/regression/ridge.rs:RidgeRegression::train_epoch", "crates/aether_ml/src/regression/logistic.rs:LogisticRegression::train_epoch", "crates/aether_ml/src/classification/svm.rs:LinearSvm::train_epoch", "crates/aether_ml/src/classification/perceptron.rs:Perceptron::fit_with_optimizer", "crates/aether_ml/src/classification/perceptron.rs:Perceptron::train_epoch"]}
{"id": "C221", "title": "Correlations do not depend on units and origin", "statement": "If every component of the data is given in another unit and from another origin, the correlation coefficients computed from the sample covariance are the same, with the sign changed where exactly one of two axes is reversed, and the standard deviations are those of the new units.", "quantifier": "all data sets in all dimensions, all nonzero factors and all origins for every component", "why_tests_cant": "all data sets and all units; the disagreement is at small units only.", "anchors": ["crates/aether_stats/src/covariance.rs:sample_covariance", "crates/aether_stats/src/covariance.rs:correlation_from_covariance", "crates/aether_stats/src/covariance.rs:standard_deviations_from_covariance"]}
{"id": "C222", "title": "Normal distributions do not depend on units and origin", "statement": "Fitting a normal distribution to data in other units and from another origin gives the fitted distribution in these units, whatever the order of the data; densities in the new units are the old ones divided by the size of the unit, and in several dimensions by the determinant of the change of coordinates.", "quantifier": "all samples, all nonzero factors and origins, all orders; in several dimensions all dimensions, covariances and affine changes of coordinates", "why_tests_cant": "all samples, covariances and changes of coordinates; the disagreement is at small units only.", "anchors": ["crates/aether_stats/src/distributions/gaussian.rs:fit_mle", "crates/aether_stats/src/distributions/gaussian.rs:pdf", "crates/aether_stats/src/distributions/multivariate.rs:pdf"]}
{"id": "C223", "title": "Views and forces do not depend on the choice of axes", "statement": "If a scene is turned and moved together with the eye, the point looked at and the up direction, every point keeps its coordinates in the view; in another unit of length the view is in this unit, and the length of the up direction does not matter. Lunar gravity, force and torque, and the Coriolis force, centrifugal force and gravity-gradient torque of the Earth, computed in turned axes (with a turned inertia tensor and angular velocity), are the turned vectors.", "quantifier": "all rotations, origins and units; all eyes, targets, up directions and points; all positions, velocities, masses and inertia tensors", "why_tests_cant": "all rotations of all scenes and states.", "anchors": ["crates/aether_graphics/src/graphics/transforms.rs:look_at", "crates/aether_models/src/lunar/moon.rs:gravitational_acceleration", "crates/aether_models/src/lunar/moon.rs:solve_gravitational_torque", "crates/aether_models/src/terrestrial/earth.rs:solve_coriolis_force", "crates/aether_models/src/terrestrial/earth.rs:solve_centrifugal_force", "crates/aether_models/src/terrestrial/earth.rs:solve_gravitational_torque"]}
{"id": "C224", "title": "Mass properties do not depend on the choice of axes", "statement": "If the attitudes and positions of two parts are given in other axes and from another origin, adding the parts and taking one out of the other give the same mass properties in these axes: the same volume, density and mass, the moved centre of mass and the turned inertia tensor. What is refused in one set of axes is refused in the other.", "quantifier": "all rotations and origins, all pairs of parts of any solid shape, density, attitude and position", "why_tests_cant": "all rotations, origins and pairs of parts.", "anchors": ["crates/aether_shapes/src/attributes.rs:Add for MassModel", "crates/aether_shapes/src/attributes.rs:Sub for MassModel", "crates/aether_shapes/src/attributes.rs:add_with", "crates/aether_shapes/src/attributes.rs:subtract_with"]}
{"id": "C225", "title": "When a sample covariance can be used", "statement": "The covariance matrix computed from samples has a Cholesky factor, and is regular, exactly when the samples do not lie in a common hyperplane. With at most as many samples as dimensions nothing can be done with it: the multivariate normal density panics at every point, Cholesky factorisation, solving and inversion refuse and the determinant is zero. Otherwise, where the density does not panic it is positive and integrates to one.", "quantifier": "all dimensions, all lists of samples, all points and right-hand sides", "why_tests_cant": "all sample sets of all sizes and dimensions; the degenerate ones are a set of measure zero that random tests do not hit.", "anchors": ["crates/aether_stats/src/covariance.rs:sample_covariance", "crates/aether_core/src/numerical_methods/solvers/spd.rs:cholesky_lower", "crates/aether_core/src/math/matrix.rs:determinant", "crates/aether_stats/src/distributions/multivariate.rs:pdf"]}
{"id": "C226", "title": "What the orbit camera sees", "statement": "After any turning, dragging and assigning of fields, if the camera's distance is positive, its position, target and up direction are valid arguments of look_at. In this view a point a to the right, b up and d ahead of the camera has the coordinates (a, b, -d); the target is on the axis at the set distance, and if the distance is between the near and far planes the projection puts it at the centre, within the depth range.", "quantifier": "all sequences of camera operations, all points, all fields of view and planes", "why_tests_cant": "all histories of camera operations and all points; the exception is a cone of 1e-8 about the vertical.", "anchors": ["crates/aether_graphics/src/cameras/orbit_camera.rs:position", "crates/aether_graphics/src/cameras/orbit_camera.rs:right", "crates/aether_graphics/src/cameras/orbit_camera.rs:cam_up", "crates/aether_graphics/src/graphics/transforms.rs:look_at", "crates/aether_graphics/src/graphics/transforms.rs:perspective"]}
{"id": "C227", "title": "Lunar gravity and the forces of rotating axes in floating point", "statement": "Farther than twice f64::EPSILON from the centre of the Moon, every component of the computed gravity has a relative error of at most 26 roundings and of the force 28; the gravity-gradient torque has an error of at most 50 roundings of the torque that the absolute values of all entries would give. For a rotation about the z axis the Coriolis and centrifugal forces have relative errors of at most 5 and 6 roundings in every component and no component along the axis.", "quantifier": "all positions, velocities, masses, gravitational constants, rates and inertia tensors; all rounding functions of at least about 20 bits", "why_tests_cant": "all positions and tensors, including those for which the products cancel.", "anchors": ["crates/aether_models/src/lunar/moon.rs:gravitational_acceleration", "crates/aether_models/src/lunar/moon.rs:solve_gravitational_force", "crates/aether_models/src/lunar/moon.rs:solve_gravitational_torque", "crates/aether_models/src/terrestrial/earth.rs:solve_coriolis_force", "crates/aether_models/src/terrestrial/earth.rs:solve_centrifugal_force"]}
{"id": "C228", "title": "The projection matrix in floating point", "statement": "For a positive aspect ratio, a field of view below 180 degrees and planes 0 < near < far, the computed projection consists of numbers. The homogeneous coordinate of a point is exactly its depth and greater depth goes to greater depth, without exception. The near and far planes go to -1 and 1 up to 5.1 roundings times (3 far + near)/(far - near) and (far + 3 near)/(far - near), and the edges of the field of view to 1 up to the error of the tangent and 2.1 and 1.1 roundings.", "quantifier": "all aspect ratios, fields of view and planes; all roundings to nearest with at least 24 bits; all tangent functions accurate to 40 roundings; all points and depths", "why_tests_cant": "all planes, also those close to each other; order of depth for all pairs of points.", "anchors": ["crates/aether_graphics/src/graphics/transforms.rs:perspective"]}
{"id": "C229", "title": "Timers, alarms and schedules on a hardware counter", "statement": "In a loop that reads a free-running 64-bit counter, an alarm and an interval, hourly or daily schedule checked with the UTC of the reading report in exactly the passes in which true time (ticks divided by the rate) first reaches the target or a new nominal instant or matching second, at any rate and across counter wraps. A periodic timer stepped with the durations between readings reports in exactly the passes in which true time reaches a multiple of the period.", "quantifier": "all counter rates, start values, gaps between readings (each below 2^64 ticks), numbers of passes, targets and periods within the i64 range of seconds", "why_tests_cant": "rounding of each duration accumulates over the whole history of the loop; counter wraps take years to reach.", "anchors": ["crates/aether_time/src/time/mission.rs:TimeKeeper::dt_from_ticks", "crates/aether_time/src/time/mission.rs:TimeKeeper::now_utc", "crates/aether_time/src/time/mission.rs:TimerEvent::step", "crates/aether_time/src/time/mission.rs:UtcAlarm::check", "crates/aether_time/src/time/mission.rs:UtcSchedule::check"]}
{"id": "C230", "title": "Volumes and moments of inertia of solids in floating point", "statement": "The computed volumes of a sphere, a cylinder and a block are those of the geometric regions up to 6.1, 4.1 and 2.1 roundings, and the computed principal moments are right up to 4.1, 5.1 and 4.1 roundings, relative to each moment; moments that are equal by symmetry are computed equal.", "quantifier": "all non-negative dimensions and masses; all roundings to nearest with at least 24 bits; every value of the constant pi that is right up to one rounding", "why_tests_cant": "all dimensions; bounds on accumulated rounding.", "anchors": ["crates/aether_shapes/src/sphere.rs", "crates/aether_shapes/src/cylinder.rs", "crates/aether_shapes/src/prism.rs"]}
{"id": "C231", "title": "Propellant tanks in IEEE arithmetic", "statement": "For every specification, also infinite or NaN, the geometric volume, usable volume and greatest mass of a tank are not negative and the usable volume does not exceed the geometric volume; the total mass of any tanks is not NaN, not negative, not less than the mass of any of them, and does not fall when a tank is added.", "quantifier": "all f64 values of radius, length, density, fill fraction and masses, including infinities and NaN; all lists of tanks; all roundings to nearest", "why_tests_cant": "all inputs including overflow; lists of any length.", "anchors": ["crates/aether_fluids/src/lib.rs:PropellantTankSpec::limits", "crates/aether_fluids/src/lib.rs:aggregate_tank_mass_kg"]}
{"id": "C232", "title": "What discriminant analysis predicts in machine arithmetic", "statement": "Trained on any examples and asked about any query, NaN and infinities included, LDA and QDA either return the first of the classes with the greatest computed score, which is above negative infinity, and that class has a training example; or no class has a computed score above negative infinity and they return 0.", "quantifier": "all lists of examples and labels, any number of classes and features, all queries, all f64 values including NaN and infinities; all roundings to nearest; every logarithm with ln 0 = -inf and ln NaN = NaN", "why_tests_cant": "all data sets and queries, including those whose scores overflow or are NaN.", "anchors": ["crates/aether_ml/src/classification/lda_qda.rs:Lda::predict", "crates/aether_ml/src/classification/lda_qda.rs:Qda::predict", "crates/aether_core/src/math/matrix.rs:inverse_gauss_jordan"]}
{"id": "C233", "title": "Discriminant analysis predicts a class it has seen, in machine arithmetic", "statement": "The class LDA and QDA predict has a training example.", "quantifier": "all finite data with at least one example and all finite queries", "why_tests_cant": "all data sets and queries; overflow.", "anchors": ["crates/aether_ml/src/classification/lda_qda.rs:Lda::predict", "crates/aether_ml/src/classification/lda_qda.rs:Qda::predict"]}
{"id": "C234", "title": "Training a support vector machine keeps the parameters finite", "statement": "In f64 arithmetic, for every data set of finite numbers, every finite learning rate and regularisation constant and every number of epochs of train_epoch of LinearSvm: the weights and the bias stay finite numbers.", "quantifier": "all lists of examples and labels, all initial parameters, rates and regularisation constants, all numbers of epochs; all roundings to nearest", "why_tests_cant": "all data sets and any number of epochs; overflow.", "anchors": ["crates/aether_ml/src/classification/svm.rs:LinearSvm::train_epoch"]}
{"id": "C235", "title": "Fitted discrete distributions are distributions in machine arithmetic", "statement": "In f32 and f64 arithmetic, for all counts whose sum is positive and fits usize: fit_mle of Categorical gives one finite probability in [0, 1] for each category, within a relative error of four roundings of its frequency, zero exactly where the count is zero and in the order of the counts; the probabilities sum to 1 up to four roundings, and pmf is zero outside the categories. For every non-empty list of zeros and ones fit_mle of Bernoulli gives probabilities of 0 and 1 in [0, 1] that sum to 1 up to two roundings, that of 1 within four roundings of its frequency, and pmf is zero for any other value.", "quantifier": "all lists of counts with a positive sum below 2^64; all non-empty lists of zeros and ones; all roundings to nearest in any format with at least 24 bits that holds the counts", "why_tests_cant": "all lists of counts, of any length; rounding of counts above 2^24 or 2^53.", "anchors": ["crates/aether_stats/src/distributions/categorical.rs:Categorical::fit_mle,pmf", "crates/aether_stats/src/distributions/bernoulli.rs:Bernoulli::fit_mle,pmf"]}
{"id": "C236", "title": "Uniform and normal draws are numbers in machine arithmetic", "statement": "In f32 and f64 arithmetic, for every state of the generator: next_real gives a finite number in [0, 1], the generator's multiple of 2^-53 within one rounding, zero only if that is zero (in f64 exactly that multiple, below 1); normal01_real gives a finite number of absolute value at most 8.625; sample of a Gaussian gives a finite number within nine standard deviations of the mean, up to the rounding of the mean, as long as mean and standard deviation are not within a factor of 64 of overflow. Both use two outputs of the generator.", "quantifier": "all generator states, all finite means and standard deviations up to 2^(emax-2) and 2^(emax-6); all roundings to nearest in any format with 24 to 53 bits that holds the counts; every logarithm within 1/1000 that is not positive on (0, 1] and every cosine with values in [-1, 1]", "why_tests_cant": "2^64 states; the extreme draws have probability 2^-53.", "anchors": ["crates/aether_rand/src/randomizers/xor_shift.rs:XorShift64Star::next_real,normal01_real", "crates/aether_stats/src/distributions/gaussian.rs:Gaussian::sample"]}
{"id": "C237", "title": "Unit conversions in machine arithmetic", "statement": "In f32 and f64 arithmetic, for every finite quantity and every prefixed unit of length, time and mass: converting to the unit or to the base unit gives a finite number within a relative error of 2^-21 of the SI value, converting there and back gives the quantity up to three roundings, and a larger quantity is not smaller after the conversion.", "quantifier": "all finite quantities, all prefixed units; all roundings to nearest in any format with at least the bits and range of f32", "why_tests_cant": "all values times all prefixes; overflow and underflow.", "anchors": ["crates/aether_units/src/si/si_prefix.rs:si_prefixed_unit", "crates/aether_units/src/base/units.rs:Quantity"]}
{"id": "C238", "title": "Sample covariances in machine arithmetic", "statement": "For two or more samples of any f32 or f64 values, also infinite ones and NaN, sample_covariance succeeds, its result is exactly symmetric and no variance is negative; the correlations computed from a symmetric matrix are exactly symmetric. For up to 2^53 samples of f64 numbers of size at most 2^480, mean and covariance consist of finite numbers.", "quantifier": "all lists of two or more samples of any dimension and any values; all roundings to nearest", "why_tests_cant": "any number of samples and any values; asymmetry by a rounding or a negative variance breaks a later factorisation.", "anchors": ["crates/aether_stats/src/covariance.rs:mean,sample_covariance,correlation_from_covariance"]}
{"id": "C239", "title": "Fit a normal distribution and draw from it, in machine arithmetic", "statement": "Fit a normal distribution to up to 2^53 f64 numbers of size at most 2^480 (also to none) and draw from it any number of times with any generator: every draw is a finite number within 9 fitted standard deviations of the fitted mean, up to a rounding, and the generator takes exactly two steps per draw.", "quantifier": "all such data; all generator states and numbers of draws; all roundings to nearest; any platform ln and cos of stated accuracy", "why_tests_cant": "any data, any generator state and any number of draws; one infinite or NaN draw in 2^64 states spoils a simulation.", "anchors": ["crates/aether_stats/src/distributions/gaussian.rs:fit_mle,sample"]}
{"id": "C240", "title": "Sample cross-covariances in machine arithmetic", "statement": "For series of any f32 or f64 values, also infinite ones and NaN, exchanging the two series given to sample_cross_covariance gives exactly the transposed matrix or the same error, and the cross-covariance of a series with itself is exactly its sample_covariance. For 2 to 2^53 pairs of f64 samples of size at most 2^480 the call succeeds and every entry is a finite number.", "quantifier": "all series of any lengths, dimensions and values; all roundings to nearest", "why_tests_cant": "any number of samples and any values; a filter assembles joint covariances from these blocks and needs them to agree to the last bit.", "anchors": ["crates/aether_stats/src/covariance.rs:sample_cross_covariance,sample_covariance"]}
{"id": "C241", "title": "Covariances from correlations are symmetric", "statement": "covariance_from_correlation of a symmetric matrix of correlations is exactly symmetric, in exact arithmetic and in f32 and f64.", "quantifier": "all dimensions, correlations and standard deviations; all roundings to nearest", "why_tests_cant": "whether two products rounded in different order agree depends on the last bits of all inputs; tests compare with a tolerance.", "anchors": ["crates/aether_stats/src/covariance.rs:covariance_from_correlation"]}
{"id": "C242", "title": "Transposes and symmetric products in machine arithmetic", "statement": "For matrices of any f32 or f64 values, also infinite ones and NaN, the transpose of a product is exactly the product of the transposes in the other order, the product of a matrix and its transpose is exactly symmetric, and scalar products do not depend on the order; an inertia tensor turned by R * I * R.transpose() is exactly symmetric.", "quantifier": "all sizes (also above the block size) and values; all roundings to nearest", "why_tests_cant": "any size and any values; whether rounded sums agree depends on the order in which every entry is accumulated.", "anchors": ["crates/aether_core/src/math/matrix.rs:mul,transpose", "crates/aether_core/src/math/vector.rs:dot", "crates/aether_shapes/src/attributes.rs:Sub,Add"]}
{"id": "C243", "title": "The vector product in machine arithmetic", "statement": "For vectors of any f32 or f64 values, also infinite ones and NaN, exchanging the factors of cross changes exactly the sign of the result. For finite f64 vectors every component of the product is a finite number within three roundings of the two products it is the difference of, and the product of a vector with itself is exactly zero.", "quantifier": "all vectors of three components; all roundings to nearest (that treat both signs alike, for the first clause)", "why_tests_cant": "any values; whether a difference of rounded products cancels exactly, overflows or becomes NaN depends on all bits of the factors.", "anchors": ["crates/aether_core/src/math/vector.rs:cross"]}
{"id": "C244", "title": "Linear interpolation in machine arithmetic", "statement": "For finite f64 end points and parameters from 0 to 1 lerp is a finite number, is exactly the first end point at 0, is monotone in the parameter, and is within 5 * 2^-53 of the sum of the sizes of the end points of the point it stands for (and 2^-1073 for underflow). The parameter that inverse_lerp gives for a value between the end points, in either order, is a number from 0 to 1. remap takes a value of the first range to a finite number, and the first end point of the first range exactly to that of the second.", "quantifier": "all finite end points, values between them and parameters from 0 to 1; all roundings to nearest", "why_tests_cant": "any end points; overflow of the difference and the rounding of the quotient depend on all bits of the inputs.", "anchors": ["crates/aether_interp/src/lerp.rs:lerp", "crates/aether_interp/src/lerp.rs:inverse_lerp", "crates/aether_interp/src/lerp.rs:remap"]}
{"id": "C245", "title": "Polynomial interpolation in machine arithmetic", "statement": "A polynomial interpolator over f64 samples is refused if there is no sample or two nodes are within 2^-52 of each other, and built if there is a sample and all nodes are at least 2^-51 apart, even when differences of nodes overflow. Whenever one is built, its value at each node is exactly the sample given for it, also if samples are infinite or NaN.", "quantifier": "all numbers of samples, all nodes and all sample values of f64; all roundings to nearest", "why_tests_cant": "any number and size of nodes and any samples, including those whose differences overflow.", "anchors": ["crates/aether_interp/src/polynomial.rs:new", "crates/aether_interp/src/polynomial.rs:evaluate"]}
{"id": "C246", "title": "Cubic splines in machine arithmetic", "statement": "A cubic spline over f64 samples is built exactly if there are at least two samples and the nodes are strictly increasing. Whenever one is built, from any values, it can be evaluated at any value, also infinite ones and NaN, without a panic. Its value at each finite node is the sample given for it.", "quantifier": "all numbers of samples, all nodes, samples and arguments of f64; all roundings to nearest", "why_tests_cant": "any number of samples and any values, including NaN, whose comparisons steer the binary search.", "anchors": ["crates/aether_interp/src/spline.rs:new", "crates/aether_interp/src/spline.rs:evaluate", "crates/aether_interp/src/spline.rs:segment_index"]}
