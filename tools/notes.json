{
 "C02": "from_secs/millis/micros proved for every i64. from_nanos is canonical only for non-negative input; refuted for negative input by C02_from_nanos_fails.",
 "C06": "Nearest-rollover correction proved for every non-negative GPS second where the corrected week is non-negative; refuted where the u32 cast wraps and for negative seconds.",
 "C09": "Positive periods; with a non-positive period a due step never returns (proved).",
 "C12": "Positive periods; with a zero period a due check never returns (proved).",
 "C13": "Proved from 1970 on, for single calls and for every poll history; refuted before 1970 (truncating division).",
 "C14": "Proved for every non-negative second whose year fits an i32; refuted before 1970.",
 "C15": "Both round trips proved from 1970 on; day counting and monotonicity from year 1 on; refuted for to_utc_datetime before 1970 and for 0000-02-29.",
 "C16": "Proved for month/day pairs that exist in every year, for single calls and every poll history; refuted for 29 February.",
 "C17": "Refuted: Once fires at every poll from its time on. Never firing early is proved.",
 "C07": "Proved for every tick rate from 2 Hz up; a zero rate panics (C07_zero_rate) and at 1 Hz a u64 difference beyond i64 wraps (C07_one_hertz_fails).",
 "C20": "f64 proved exactly. f32: only the closed interval [0,1] holds; refuted at 1 - 2^-53, which rounds to 1.0.",
 "C68": "Chunk invariance proved for every text and every split; polling proved for every history of growth, rotation, missing files and mid-line/mid-character polls, with Lean's UTF-8 decoder. Refuted: a mid-character poll returns Err, and a second initialize duplicates rows.",
 "C69": "Proved for every chunk list up to and including the first Err, and for every polling history of files with the selected columns; refuted when polling goes on after a missing-column Err.",
 "C25": "For symmetric input: success iff positive definite, L L^T = A, and the solve is correct. Refuted for non-symmetric input, which is accepted although the documentation says None.",
 "C26": "Exact arithmetic over any ordered field, any threshold eps >= 0; determinant, Gauss-Jordan and LU with one threshold succeed together. What the threshold costs is C84.",
 "C27": "Proved for in-bounds indices of every rank and shape. C27_release_alias_fails records that out-of-range indices alias in release builds (the checks are debug assertions).",
 "C73": "Bincode and serde round trips proved for all sizes and values; matrices reject every wrong shape. Refuted for vectors: the serde visitor accepts sequences that are too long.",
 "C24": "Exact arithmetic over any ordered field, any threshold eps >= 0.",
 "C21": "Entry formula and agreement of the direct and blocked paths for arbitrary (law-free) scalar arithmetic; equality with the mathematical product over any semiring.",
 "C29": "Proved for DirectionCosineMatrix::from(q) on unit quaternions; refuted for to_dcm, which is the inverse rotation (C29_to_dcm_inverse proves exactly that).",
 "C30": "Refuted for rotate_vector and Rotation::compose: the left factor acts first. The order that does hold is proved, and products do chain through to_dcm and for direction cosine matrices.",
 "C35": "All frame matrices are rotations and all pairs are inverse. Refuted: wind/flight-path/body matrices act opposite to their names, and the Moon object ignores its epoch in one of its transforms.",
 "C57": "The equatorial value holds, and every value is within 0.125 m/s² of the formula; symmetry and the polar values are refuted (sine of sine instead of squared sine, missing square root): the south pole gets 0.122 m/s² too little.",
 "C77": "Norm, composition, subdivision and the rate equation are proved for Rotation::integrate; refuted that the angular velocity is in body axes. The third-order Taylor update Quaternion::integrate is the subject of C120 and C121.",
 "C41": "Proved for runs that make a step or start in the box; a run that stops before its first step returns the start unprojected, so the full property is refuted.",
 "C44": "The exact stop rule is proved, for limits below 2^31. Refuted: with the default tol_f = 0, which was not requested, an objective value <= 0 stops the sequential version as converged; and a limit of 2^31 or more can panic.",
 "C78": "Without momentum the documented update is proved; with momentum the code scales the momentum term by the learning rate, so the property is refuted.",
 "C79": "Refuted: x_best/f_best are the last point and value.",
 "C80": "Proved for different workers of one iteration when no derived seed is 0. Refuted in general: with base seed 0 the first worker draws the same numbers in iterations 0 and 1.",
 "C51": "Proved for all data sets with at least one observation (and a total count that fits usize). Refuted for no observations: the fitted categorical distribution then has total mass zero.",
 "C84": "Refuted: a regular 1x1 matrix (eps) gives 0 (threshold 1e-12 in the code). What holds is C26.",
 "C46": "Epochs, predictions and optimum are proved for all data. The fit with the optimiser: the direction is the gradient of the cross-entropy, but the objective used by the line search adds 1/3 (not a small constant) inside the logarithms (C46_fit_fails).",
 "C87": "Refuted: the epoch uses penalty |w|^2/(c m), the fit |w|^2/(2c).",
 "C88": "Proved for every data set whose pooled covariance (LDA) or class covariances (QDA: those classes) can be inverted by the code. A singular pooled covariance makes LDA answer class 0, and QDA passes over classes with singular covariance (C88_fails).",
 "C89": "Refuted: the factors are f32 constants, so even exact arithmetic is wrong by more than 2^-25 for millimetres. What holds (2^-22) is C52.",
 "C60": "Below 1000 km: no panic, positivity, gas law, tables, exponential, Sutherland viscosity and the hydrostatic relation inside the layers below 91 km with the code's constant (C60_partial). Refuted: panics from 1000 km up (C60_top_fails), temperature jumps (C60_continuity_fails), speed of sound lacks the square root (C60_sound_fails), pressure above 91 km (C60_pressure_fails), gravity constant 9.80655 (C60_gravity_fails).",
 "C90": "Proved up to a relative error of 5 parts per million; base pressures derived from rounded table densities make the exact statement false (C90_fails).",
 "C62": "Everything but orientation is proved (C62_partial); the view matrix has determinant -1 for all inputs: it mirrors left and right (C62_fails).",
 "C91": "Only yaw zero gives the requested direction (C91_partial). Refuted: azimuth is mirrored, pitch has no effect at yaw 90 degrees (C91_set_fails), yaw does not turn about the vertical (C91_yaw_fails), world turns are not about world axes (C91_world_fails).",
 "C92": "Proved for points as row vectors (C92_partial); view matrix and projection matrix use opposite conventions (C92_fails).",
 "C93": "Proved for affine matrices, whose last row is (0,0,0,w) (C93_partial); the last row is not updated for others (C93_fails).",
 "C67": "C67_checksum: verification succeeds exactly when the expected string spells (either case) the digest of the whole file, for every chunking. C67_partial: records are returned exactly then if the file is the same for both opens. C67_fails: the file is reopened by path for parsing, so a file replaced in between is parsed unverified.",
 "C95": "C95_position and C95_tangential: direction, distance, tangency and size of the velocity for all records and epochs. C95_partial: the velocity is a constant multiple of the derivative for stars moving along the meridian or on the equator. C95_fails: the size is in km/s, not AU/yr. C95_direction_fails: right-ascension motion is treated as an angle rate in the position and as a sky rate in the velocity.",
 "C96": "C96_variance, C96_growth: the variance law and monotonicity wherever the values are numbers. C96_partial: they are numbers for Gaia stars, for stars with large enough catalogue uncertainty, and outside 1966.5-2016. C96_fails: otherwise the square root of a negative number (NaN) is returned.",
 "C94": "C94_embedded: the generator run on the repository's file gives exactly the embedded header, records and tables (kernel computation on the real data). C94_generator: for every accepted file the records are its data lines and each table slot holds the last record's value or zero. C94_fails: the asserts (90 records, maximum degree 12) accept a file with a duplicated and a missing pair; the statement's 'exactly once' is false.",
 "C97": "Proved for all positions: longitude, axial symmetry, mirror symmetry; exact on the whole equatorial plane and polar axis. Fails off them: the resolvent lacks a square root, so a point of the ellipsoid is reported more than half a metre above it (C97_fails). From 20 km below the ellipsoid upwards the altitude is within 2.5 m, the latitude within 2e-8 rad and the longitude exact (C97_error_partial). Missing: an error bound deeper than 20 km.",
 "C98": "Proved: the internal ellipsoidal coordinates are those of the position; the vector lies in the meridian plane and is axially symmetric; the force is mass times the vector. The gradient property fails on the whole equator (cosine of the cosine), on the whole ellipsoid off the equator and poles (missing square root), and the mirror symmetry fails there too (sine of the sine).",
 "C99": "Proved for all runs in which every file has the columns selected. Fails otherwise: if one file lacks a newly ticked column, the other files change columns but the labels stay, so lines carry wrong names (C99_fails).",
 "C101": "Proved: ranges, scaling, its inverse, units of groups and names. Fails: two groups without a common unit share one axis (C101_units_fails); a column ticked in both groups is scaled although it belongs to the first (C101_both_fails).",
 "C102": "Proved for the polls of the files shown. Fails for new files: the message is overwritten before it is drawn (C102_load_fails).",
 "C103": "Proved: the name is the last path component beginning with run_, or else the file stem. Fails: two files of one run have the same name (C103_fails).",
 "C104": "Proved after every changed selection in a run, and at the start with automatic columns (C104_auto). Fails at the start otherwise: columns asked for on the command line which are not named like x or y components are shown with unticked boxes and vanish at the next click (C104_start_fails).",
 "C106": "bincode proved in full (C106_bincode). For serde and from_iter: never a read of unwritten memory, every value accounted for as result, dropped or leaked, and nothing leaks on success. Fails: an element error in a later row of a serde matrix leaks the rows before it (C106_serde_fails); a wrong number of items leaks those already stored (C106_collect_fails).",
 "C107": "min and max meet the contract of the standard library for all inputs; f64 powi gets its exact exponent for all i32; f32 powi up to 2^24; signum off zero. Fails: signum of zeros (C107_signum_fails), f32 powi beyond 2^24 (C107_powi32_fails), f32 degrees (C107_degrees32_fails). Functions that are calls into libm on one side and std on the other are not compared.",
 "C108": "Proved for ranges and steps in whole millionths of a degree, with arbitrary rounding errors of the additions that add up to less than 1e-9 (C108_grid_partial). Fails otherwise: the rounding to six places moves points out of the range, onto the pole the program means to exclude (C108_fails), and out of order (C108_order_fails).",
 "C109": "Termination, the bound of 4097 directories and soundness hold for all file systems (C109_sound); the fallback search is sound and complete (C109_hwmon). Completeness of the first search holds up to 4097 directories (C109_complete_partial) and fails with a link to its own directory (C109_fails).",
 "C110": "Proved for the approximate comparisons and the symmetry assertion with NaN, and for the grid assertion without NaN. Fails: a function that gives only NaN passes the grid assertion (C110_grid_fails), and the largest difference passes over NaN (C110_max_fails).",
 "C111": "The model of the solver is the one of C24, run on reals with rounded operations. Backward error in the sense of Wilkinson: factorisation, both substitutions, a priori growth bound of partial pivoting, and numbers for f64. Overflow and underflow are outside the rounding model.",
 "C112": "The model of the solver is the one of C25, run on reals with rounded operations. The bounds need no growth factor: they are in terms of the diagonal of the given matrix. C112_accepts is the converse: a margin on the scaled smallest eigenvalue guarantees an answer.",
 "C113": "Proved by showing that the determinant loop and the LU loop choose the same pivots and compute the same upper triangle, rounding by rounding.",
 "C114": "Rounding is to a nearest p-bit number with unbounded exponent, ties broken in any way. The key lemma: the rounded root of a rounded square is at least the number squared. The library functions are arbitrary, except that the sine used for the latitude is at most one and does not vanish together with the cosine.",
 "C115": "Fails: for the quaternion (r, 0, r, 0) with r = FRAC_1_SQRT_2 the matrix has an entry of size 1 + 2^-52 and the pitch is NaN. Proved if the entry is within [-1, 1].",
 "C116": "The four candidate pivots sum to four, so that one of them passes the threshold in spite of rounding.",
 "C117": "Monotonicity holds because rounding to nearest is monotone. The documented value at parameter 1 is C119.",
 "C118": "That remap sends the end of the input range to the end of the output range fails with C119.",
 "C119": "Fails: from 2^60 to 1 the interpolation ends at 0, and from -2^54 to 3 it ends at 4. Proved for positive endpoints within a factor of two of each other, where the difference is exact.",
 "C120": "The quaternions built from the rates have scalar part 1 instead of 0; the spurious radial term of first order is removed by the normalisation. What remains of it at second order is C121.",
 "C121": "Fails: turning about the first axis at unit rate the tangent of half the angle is short by more than t^2/20 for every step up to 1/2, so that the error is of second order. The scalar part 1 of the rate quaternions and the coefficients 1/4 and 1/9 in place of 1/2 and 1/6 both contribute.",
 "C122": "Exact real arithmetic. The curvature of the spline is orthogonal to that of any function vanishing at the knots (two integrations by parts on every segment).",
 "C123": "k roundings stand for the relative error (1 - u)^-k - 1, which is about k u. The square root is taken to be rounded like the other operations.",
 "C124": "The error includes that of normalising the quaternion first. The exact rotation is the one of C31.",
 "C125": "The conversion that does not normalise first, From<&Quaternion> for DirectionCosineMatrix, is not covered; its entries can exceed one, see C115.",
 "C126": "The exact integration is that of C77. The update never normalises, so the bound is on the accumulated effect of all steps.",
 "C127": "The pivots of the sweep stay at least one in rounded arithmetic, by monotonicity of rounding.",
 "C128": "Exact at the nodes. Elsewhere the denominator can cancel to zero: the line through (0, 0) and (1, 1) has no value at 2^55 in double precision.",
 "C129": "Exact for numbers. A sample that is not a number passes both checks, because comparisons with it are false.",
 "C130": "The computed derivative needs to be accurate only where the stages of the run take it.",
 "C131": "Covers singular systems such as central gravity, and systems whose solutions blow up later; the constant is existential.",
 "C132": "Real arithmetic; existence of the motion is shown, its uniqueness for given initial values is not.",
 "C133": "Refuted for programs that use to_dcm, conjugate, products of quaternions or Rotation::compose; proved for all other programs (away from gimbal lock where Euler angles are extracted). Programs that read quaternions through to_dcm only are right as well (C133_active).",
 "C134": "How a float is printed is a parameter: any printing that reads back and does not use blanks, commas, semicolons or brackets. A matrix without rows prints as [] and cannot be told from one with an empty row, so it is left out.",
 "C135": "Refuted when the data becomes empty (render returns early and leaves the old picture); proved in all other cases, for every sequence of polls.",
 "C136": "Refuted in two corners: a single value of size 2^53 or more gives an axis of length zero, and rounding can put the last place of the error plot beyond the end of the x axis. The rest is proved in floating point without overflow.",
 "C137": "Refuted: a file left incomplete by a stopped or failed build is taken as complete by every later build (download, archive, extraction, generated source), and an error page of the server is stored as the catalogue. Proved for histories of builds that ran to their end with the true files, together with idempotence and no change of existing files for all histories. curl, unzip and the generator are parameters.",
 "C138": "Schedules, crash points, order and completeness are proved in full. The columns are refuted for names with a comma or a newline, which are written without quotes; proved for all other names. The clock is assumed not to go back; failing writes are C187.",
 "C139": "Refuted for arguments that are not numbers, which several setters store, and for averaging 1 in the parallel optimiser, with which the gradient test can never succeed. The rest is proved for all chains of calls with numbers and infinities.",
 "C140": "Proved for every binary format with subnormal numbers, infinities and NaN; signed zeros are identified.",
 "C141": "Proved; `C141_norm` is the statement for an arbitrary format.",
 "C142": "Refuted outside about 2^-500 to 2^500: squares overflow or underflow. Proved inside.",
 "C143": "Proved for ideal uniform draws and exact arithmetic; C144 says how the generator's own draws are distributed.",
 "C144": "Proved for `f64` draws over the whole period.",
 "C145": "Proved in exact arithmetic.",
 "C146": "Refuted with the default settings. Proved for runs that stop at a small gradient.",
 "C147": "Proved in exact arithmetic.",
 "C148": "Proved for IEEE arithmetic, with the values of the constants in the code.",
 "C149": "Refuted: the intermediate product overflows. Proved away from the upper end of the range.",
 "C150": "Proved in exact arithmetic, for the loss an epoch takes a subgradient of (see C86, C87).",
 "C151": "Proved in exact arithmetic.",
 "C152": "Refuted: a run that turns back is taken for one that has converged. Proved with a bound on the gradient that does not vanish with the tolerances.",
 "C153": "Proved in exact arithmetic, for runs with the number of iterations prescribed by min_iters = max_iters, so that no stopping test ends them. Draws are an independent uniform sequence; the generator itself is deterministic. Limits ignore that the iteration count is a 32-bit number; the bound for K iterations (C153_best) does not need a limit.",
 "C154": "Overflow, underflow and non-finite samples are outside the rounding model.",
 "C155": "Proved up to four roundings (C155_partial); the exact claim fails: in f64 a single variance of 3 gives a correlation of 1 + 2^-52 with itself (C155_fails).",
 "C156": "Exact arithmetic over the reals.",
 "C157": "IEEE arithmetic with subnormal numbers, infinities and NaN. Any nearest rounding.",
 "C158": "IEEE arithmetic with subnormal numbers, infinities and NaN. The setters accept a learning rate of NaN or infinity and a shrink factor of NaN; with these the search may not end.",
 "C159": "IEEE arithmetic with subnormal numbers, infinities and NaN. Within the bounds or NaN is proved; a NaN passes the projection.",
 "C160": "IEEE arithmetic with subnormal numbers, infinities and NaN. Proved: a row whose diagonal entry is not NaN consists of finite numbers, is zero above the diagonal and has a positive diagonal entry. A row with a NaN on its diagonal is not refused.",
 "C161": "IEEE arithmetic with subnormal numbers, infinities and NaN. Finite results are proved for systems whose numbers are not too large for the size of the system (three equations in f64: up to 2^190). Missing: the error of the solution with underflow (C111 has it without).",
 "C162": "IEEE arithmetic with subnormal numbers, infinities and NaN. The bound on the function is proved if the derivative never returns an infinity.",
 "C163": "IEEE arithmetic with subnormal numbers, infinities and NaN; `as` is modelled as the Rust reference describes it.",
 "C164": "The viewer is proved for every rate; run_forever for rates of at least 2^-63 or not above zero. The rounding of an interval to nanoseconds is not modelled.",
 "C165": "Proved for features and queries of size at most 2^480, at most 2^53 examples and fewer than 2^20 features, for every logarithm that maps positive finite numbers to numbers of size at most 1024; the exact one, rounded, is such.",
 "C166": "Proved for features that are multiples of 2^-s (integers for s = 0) of size at most X 2^-s, with (R/γ)²(4^s + N X²) ≤ 2^p: the machine then runs through exactly the parameters of exact arithmetic, and (R/γ)² epochs suffice. Missing: features on a finer grid.",
 "C168": "Proved for features of size at most 2^c, learning rate at most 2^l and initial parameters at most 2^(l+c) with l + 2c ≤ 940, fewer than 2^20 features, at most 2^53 examples and fewer than 2^53 epochs: the parameters are at most (T+1) 2^(l+c) after T epochs. Missing: larger numbers.",
 "C169": "Proved: class 1 implies a positive score, and a score of at least 2^-47 gives class 1, for every accurate monotone exponential. With the correctly rounded exponential the boundary is located: scores up to 2^-54 give class 0 (so the property fails for all positive ones among them), scores from 2^-51 on give class 1.",
 "C170": "Proved for every encoding: the assertion passes exactly if the bytes fit 1024 and decode to equal numbers without a NaN; so with the f64 encoding exactly up to 128 numbers. Longer vectors panic although they are decoded correctly (C170_fails), and a lost sign of zero is not noticed, since == takes the zeros as equal (C170_zero_fails).",
 "C171": "The derived serde and bincode code is modelled from its documented behaviour; the formats themselves (JSON text) are not modelled.",
 "C172": "Proved: kinds with more numbers than were stored are rejected. Refuted: a stored quaternion is read as Euler angles or coordinates.",
 "C173": "Standard model of rounding, without overflow and underflow. Volume, mass and density are proved to be right up to a few roundings; the centre of mass and the inertia tensor up to roundings of the distance from the origin and of the inertia about the origin. Refuted for the inertia itself: far from the origin all digits cancel. Differences of parts are C205.",
 "C174": "The release build is a second model with wrapping arithmetic (Verif/Time/Release.lean); conversions are exact for leap counts up to i32::MAX - 10 and undo each other for all.",
 "C175": "Holds in debug builds, and in release builds when the sum can be represented. Refuted for release builds: the sum wraps into the past.",
 "C176": "Proved for the conversions between UTC and TAI or GPS, which load the atomic once. Between GPS and TAI the atomic is loaded twice: the error is the difference of the two values, proved for all interleavings, so the claim is refuted there and for the GPS time of the mission clock.",
 "C177": "Proved for standard deviations from 2^-511 to 2^509 and for distributions fitted to at most 2^53 observations of size at most 2^480. Refuted beyond: NaN at the mean for a deviation of 2^-600, NaN one deviation off for 2^600, and NaN at an observation of the fitted data.",
 "C178": "Proved for two observations. For up to 2^53 observations of size at most 2^480, proved that the mean leaves the range by at most the rounding errors of the sum and the quotient. Refuted in general: three observations equal to 0.1.",
 "C179": "Proved for accepted finite steps of at least 2^-44 degrees. Refuted for a step of 2^-47 degrees (the loop never ends and memory fills up) and for a step that is NaN (accepted).",
 "C180": "Over the reals.",
 "C181": "Over the reals; C162 has the machine arithmetic.",
 "C182": "Arithmetic without overflow and underflow; the library square powf(x, 2) is assumed to be off by at most one rounding.",
 "C183": "A panic of the scalar operation itself (integer overflow in a debug build) is not modelled.",
 "C184": "True for learning rates below an explicit bound from the data. Above it one example is enough to make the error grow without bound; a new LinearRegression has the learning rate one, which is above the bound for every single nonzero input.",
 "C185": "The threads share nothing but the read-only point; a step of the model is one pass of one thread.",
 "C186": "True when the number of threads is configured. A new optimiser takes the number of threads from the machine and derives the random streams from it, so the same seed gives different points on machines with one and two threads.",
 "C187": "Proved: the file is a sequence of beginnings of lines in the order of the lock, a call whose write succeeds adds exactly its line, and no error blocks the other threads. Refuted: a line that is cut off has no newline, so the next row is joined to it; a write failing after the first digit makes the next row one with a wrong time.",
 "C188": "Proved for roundings of relative size u (no overflow or underflow). Overflow for larger learning rates is the subject of C189.",
 "C189": "Proved for a bounded number of epochs, depending on the sizes of data and rate. Refuted for a new model with its default rate of 1: on the single example x = 1024, y = 1 the weight is not finite after 58 or more epochs. Rates below the bound from the data are C188.",
 "C190": "Proved without overflow and underflow; the library functions sin, cos, acos and atan2 are assumed within e of the exact ones.",
 "C191": "Proved for points at least thirty degrees from the axis. Refuted near the axis: the inclination is taken from the inverse cosine of z over the radius, so in f64 the point (2^-27, 0, 1) comes back on the axis.",
 "C192": "Proved without overflow and underflow; sine and cosine are assumed within e of the exact ones, and the constant e2 is within one rounding.",
 "C193": "Proved without overflow and underflow; the library functions are assumed within e of the exact ones, and the constant e2 is within one rounding.",
 "C194": "Proved without overflow and underflow for the three field components of the 2025 model at its full degree; the other elements and the test for a vanishing horizontal field are in C195. The power function is assumed within as many roundings as its exponent.",
 "C195": "Proved without overflow and underflow for the 2025 model at its full degree. The power function is assumed within as many roundings as its exponent.",
 "C196": "Proved without overflow and underflow. The round trip of the Earth-fixed axes assumes rounding that treats both signs alike, as IEEE rounding does.",
 "C197": "True in double precision; false in single precision, where the rounding of the angle alone moves a point on the equator by 17 km at a Unix time in January 2001.",
 "C198": "Proved without overflow and underflow.",
 "C199": "Proved without overflow and underflow.",
 "C200": "Proved for a sine of at least a thousand rounding errors; below it the code can return NaN (single precision, eye at the origin, up (1, 1, 0), looking at (1, 1 - 2^-24, 0)).",
 "C201": "Proved without overflow and underflow; the constant 1e-16 is any number in (0, 1/100].",
 "C202": "Proved without overflow and underflow. What the exact product of turns looks at is C91, not C202.",
 "C203": "Proved without overflow and underflow. What the size of the velocity should be is C95.",
 "C204": "Proved without overflow and underflow. Between 1966.5 and 2016 the value for stars not from Gaia may be NaN (C96_fails).",
 "C205": "Proved without overflow and underflow. That each shape is computed with 18 roundings is C173_shapes.",
 "C206": "Standard model of rounding: without overflow and underflow.",
 "C207": "Exact arithmetic. Proved: whatever inverse() returns the other returns, and the other way round if the determinant is above the threshold. Refuted in general: inverse() compares the determinant with 1e-12, the other the pivots; every matrix divided by a large enough number is refused by inverse().",
 "C208": "Exact arithmetic.",
 "C209": "Exact arithmetic. Proved if the covariances can be inverted by the code in both units or in neither (LDA, QDA), and if the variances are above the floor in both units (naive Bayes). Refuted without: the thresholds 1e-12 are absolute.",
 "C210": "Exact arithmetic. Proved: if both systems are solved the solutions agree; without a threshold both are solved or neither. Refuted with the threshold of the code for the order of the equations, the order of the unknowns, and the units.",
 "C211": "Exact arithmetic.",
 "C212": "Exact arithmetic. Superposition is proved everywhere; order and units away from the nodes, if both interpolators are built. Refuted without: the tolerance for nodes, f64::EPSILON, is absolute, and between two close nodes the one given first wins.",
 "C213": "Exact arithmetic.",
 "C214": "Exact arithmetic; one step size per run.",
 "C215": "Barring overflow and underflow.",
 "C216": "Barring overflow and underflow. Proved if both systems are accepted; going to smaller units of the unknowns keeps a system accepted and a determinant nonzero. Refuted without: the thresholds are absolute, so a well-conditioned system is refused after going to large units.",
 "C217": "In real arithmetic. The epoch of the perceptron treats one sample after the other and is not included.",
 "C218": "In real arithmetic. Proved for the epochs of linear, ridge and logistic regression and for fitting all five models with the optimiser. Refuted for the epoch of the support vector machine, whose penalty is divided by the number of samples, and for the epoch of the perceptron, which treats one sample after the other.",
 "C219": "In real arithmetic.",
 "C220": "In real arithmetic.",
 "C221": "In real arithmetic. Proved where the variances are above the threshold in both units (C221_partial); refuted in general, since the threshold is absolute (C221_fails).",
 "C222": "In real arithmetic. Proved for the density and the order of the data (C222_pdf, C222_order), for fits with a spread above the floor in both units (C222_fit_partial) and for multivariate densities that are defined in both coordinates (C222_mvn_partial). Refuted for small units: the floor of the fitted deviation and the threshold of the inverse are absolute (C222_fit_fails, C222_mvn_fails).",
 "C223": "In real arithmetic. Gravity of the Earth is not central; its symmetry about the polar axis is C98_axisymmetric_partial.",
 "C224": "In real arithmetic.",
 "C225": "In real arithmetic; in floating point a singular covariance may have a nonzero computed determinant.",
 "C226": "With the side direction up × forward this holds for every camera; this is the camera's own right except within 1e-8 of the vertical, where right can be the opposite (C226_right_fails). In real arithmetic; the projection takes points as row vectors (see C92).",
 "C227": "Without overflow and underflow. powi is taken to be multiplication.",
 "C228": "The matrix is computed in floating point and applied to row vectors (see C92) in exact arithmetic. Without overflow and underflow.",
 "C229": "Alarm and interval schedule: proved; hourly and daily schedules: from 1970 on (false before, C13). Timer: proved for rates that divide 10^9; at other rates each pass loses part of a nanosecond (C229_drift bounds it), and a counter faster than 1 GHz read at every tick never makes the timer report (C229_fails).",
 "C230": "Relative to the volume of the region (C54) and the moments proved right in C54. Without overflow and underflow.",
 "C231": "C231_limits says exactly when a limit is NaN and proves the rest for all other inputs; C231_fails is an empty tank of finite but huge size. Signed zeros are one number.",
 "C232": "The scores are those the code computes, with the Gauss-Jordan inverse and determinant in the same arithmetic.",
 "C233": "Proved when some class has a computed score above negative infinity. C233_fails: two examples of class 1 with invertible covariance and a finite query whose score overflows.",
 "C234": "C234_partial: moderate numbers, and the rate times the regularisation factor 2/(C m) at most 3/2; then for every number of epochs below 2^53 - 1 the parameters are finite with a bound that grows linearly. A new() model with two or more examples is covered. C234_fails: C = 2^-1000, infinite after three epochs.",
 "C235": "C235_categorical, C235_bernoulli. The sum of the probabilities is the exact sum of the computed numbers, the crate does not compute it.",
 "C236": "C236_uniform, C236_normal01, C236_sample. The logarithm and cosine of the platform are parameters with the stated assumptions; an example shows that the exact functions, rounded, meet them.",
 "C237": "C237_order: all quantities, also when a result is infinite, and never NaN. C237_partial: quantities of size 2^-36 to 2^35. C237_fails: in f32, 2^40 kilograms in yoctograms are infinite.",
 "C238": "C238_symmetric, C238_correlation, C238_finite, on the same generic model as C49, C50 and C154.",
 "C239": "C239_draws: composition of C177 (fit) and C236 (one draw), by induction on the number of draws.",
 "C240": "C240_swap, C240_self, C240_finite, on the same generic model as C49 and C154. C240_self is the generic lemma self_gen at the IEEE type.",
 "C241": "Exact arithmetic: C241_exact. In f64 the property fails for the correlation 0.1 and the deviations 5 and 7 (C241_fails). C241_partial: in f32 and f64 entries across the diagonal agree up to six roundings, for correlations that are zero or of size 2^-40 to 1 and deviations of 2^-40 to 2^40.",
 "C242": "C242_transpose and C242_gram hold for all values (two NaN are not distinguished). The last clause fails: C242_fails turns an isotropic inertia by the 3-4-5 angle and gets different entries across the diagonal. C242_turned_partial bounds the error of the turned tensor and the difference across the diagonal in f64.",
 "C243": "C243_exchange for all values. C243_partial for components of size at most 2^510; larger finite components can give NaN (C243_fails).",
 "C244": "C244_partial, C244_error_partial, C244_parameter_partial and C244_remap_partial for end points of size at most 2^1022; beyond that the difference of the end points can overflow and give NaN (C244_fails, C244_parameter_fails).",
 "C245": "C245_built_partial and C245_nodes_partial for finite nodes and any samples; for infinite nodes the test for equal nodes compares NaN and both clauses fail (C245_fails).",
 "C246": "C246_total for all values. C246_built_partial for finite nodes; NaN nodes are accepted (C246_built_fails). C246_knots_partial: exact value at every node of any number of samples of size at most 2^200 whose nodes are at least 2^-200 apart; C246_line_partial for two points at most 2^511 apart. Other finite samples are missing, and for nodes 2^600 apart it fails (C246_fails)."
}