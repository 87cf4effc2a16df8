# Formal model of AtmoPierce/aether in Lean 4

## 1. Trusted base

* Lean 4.33.0's kernel (every constant is re-checked by `vcheck`).
* Axioms: only Lean's standard `propext`, `Classical.choice`, `Quot.sound`
  (Mathlib's real numbers need all three). No axioms of our own, no `sorry`,
  no `native_decide`, no `bv_decide`.
* The fidelity of the hand-written model to the Rust text in /repo. Every
  definition cites the file and lines it models and says where it simplifies.

### Modelling conventions

* **Fixed-width integers.** Rust `i64/i32/u64/u32/u16/u8` values are `Int`s (or
  `BitVec 64` in the random generator) with explicit range checks. Plain `+ - *`
  use debug-build semantics: a result outside the range is a *panic*, an
  explicit error value of the model (`none` of `Option`, read "panics").
  In a release build Rust wraps instead; theorems about successful results do
  not depend on this difference, because they only speak of runs without
  overflow. `Verif/Time/Release.lean` models the time crate as built for
  release (C174, C175). `as` casts wrap, as in Rust. `/` and `%` truncate towards zero
  (`Int.tdiv`, `Int.tmod`) and division by zero panics.
* **Floating point.** The generic numeric code (`T: Real`) is modelled over an
  arbitrary type with the operations used and *no laws* when the theorem needs
  none (operation-order theorems: these also hold for IEEE floats), and over
  the real numbers ℝ when the theorem is algebraic. **Rounding, NaN, infinities
  and signed zero are not modelled** except where a theorem says so (C20, C107; C76, C111–C113, C123–C126 and C130–C131 run the same models on reals with an
  arbitrary rounding function of bounded relative error (as do C154, C155, C173, C188, C192–C197, C199–C203, C205, C206, C227); C114–C119 and C127–C129, C136, C182, C190, C191, C197, C198, C204, C228, C230 and C200_fails round to a nearest number of `p` bits and treat NaN
  and infinity as an explicit value; both without overflow and underflow; C140–C142, C157–C169, C177, C178, C189 and C231–C246 use a
  binary format with subnormal numbers, infinities and NaN, in which only the sign of zero is not modelled. `Nearest.accurate` shows that rounding to
  nearest meets the assumption of bounded relative error, and `rnd_nearest` that it exists; C215 and C216 assume a rounding that commutes with multiplication by powers of two, which `rnd_digits` shows of the same one).
  Lean's `x / 0 = 0` and its roots of negative numbers are never used to make a theorem true: theorems carry a
  hypothesis that keeps such values away, or the model makes the case explicit. (Some of these hypotheses are not needed by the proof
  over ℝ and are named with a leading underscore, as `_hq : q ≠ 0` in `C28_linear`: they mark where the code would compute NaN.)
* **Phantom types** (time scales, reference frames, units) are erased.
* **Loops** that may not terminate are modelled with an inductive relation or
  with fuel plus a theorem on sufficient fuel.
* **Disagreements between code and property** are proved as theorems
  (`..._fails`, with a concrete witness); the part of the property that does hold is
  a `..._partial` theorem. They are listed in section 4.

### Not modelled

file-system changes during the search of C109, GUI drawing (widgets and rendering; of csv_tail_egui everything up to the list of lines handed to the plot is modelled, without its timers, argument parsing and glob expansion), benchmarks, thread
scheduling below one pass of a worker's loop (the workers of the parallel optimiser are modelled as a transition system
under arbitrary schedules), file-system
calls (observations of files are inputs), proc-macro/Cargo features, the hardware behaviour of SIMD intrinsics (their documented lane-wise meaning is assumed, C76),
`serde`/`bincode`/`csv` library internals, SHA-256 itself (a parameter),
`libm` and the numerical functions
of `std` (C107 compares only what the crate computes itself; what a theorem in machine arithmetic supposes of exp, ln or cos is a hypothesis defined beside it, such as `ExpOk`, `LnOk`,
`LnDraw` and `CosDraw`, with an example that the exact function, rounded, meets it), the unused
`terrestrial/atmospheres/layers`, and what is not compiled: `utils/parse.rs`, `utils/repl.rs` (commented out in `utils/mod.rs`) and `aether_units/src/standard`.

## 2. Layout

`lean/Verif/<Area>/Model.lean` – model; `Spec.lean` – small independent
specification; `Lemmas.lean` – helper lemmas; `Props.lean` – the property
theorems, each followed by an `example` showing that its hypotheses are met by
a concrete non-trivial case. MANIFEST.json maps properties to theorem names.

## 3. Plan per property

| id | model | proof |
|---|---|---|
| C01–C04 | `Duration`, `Time` as pairs of Ints with checked i64/i32 arithmetic; spec: total nanoseconds `sec*10^9+nano` and `0 ≤ nano < 10^9` | case split on carries, omega |
| C05 | conversions as functions of the leap-second cell | omega |
| C06 | `to_gps_week` with casts; spec: nearest congruent week | omega; negation for the unsigned wrap |
| C07–C08 | u64 wrapping subtraction, u128 product, poll sequence as list fold | Nat division lemmas, induction over polls |
| C09–C10 | `while acc >= period` loop as inductive run relation + fuel; spec: floor division of cumulative time | induction over steps |
| C11, C12, C17 | alarm/schedule state machine over list of polls | induction over the poll list; Once: negation |
| C13 | next_hourly/next_daily with truncating arithmetic; spec: least matching second after now | omega; negation before 1970 |
| C14–C16 | days_to_ymd, from_utc_datetime; spec: day-by-day successor of dates with leap rule | closed form of day counts, induction on days |
| C18–C19 | BitVec 64 state | linear algebra of xorshift via explicit inverse, odd multiplier inverse, induction on draws |
| C20 | exact rational value k/2^53; f32 rounding specified as nearest | arithmetic; negation for f32 |
| C21–C23 | law-free scalar operations, loops as folds | blocked loop = direct loop by induction |
| C24–C26 | loops as folds on functions Fin n → Fin n → ℝ | loop invariants |
| C27 | offset fold over shape | induction on rank |
| C28–C33 | quaternion/matrix formulas over ℝ | ring / field identities, case analysis |
| C34, C35 | formulas with Real.sin/cos/sqrt/arccos/atan2 = Complex.arg | trigonometric identities |
| C36–C39 | interpolation code | algebra, Lagrange in Mathlib, invariants of the tridiagonal sweep, binary-search invariant |
| C40–C44 | optimiser loops parameterised by arbitrary objective/gradient/sampler | invariants over iterations |
| C45–C48 | training loops as folds | finite sums, Novikoff potential argument |
| C49–C51 | folds over lists of samples | finite sums, Cauchy–Schwarz |
| C52, C89 | prefix constants rounded to 24 bits on ℚ, arithmetic with an arbitrary rounding function | relative error bounds; negation for double precision |
| C53–C55 | mass models over ℝ; spec: mass distributions are measures on ℝ³, mass/centre/inertia are integrals | moments (Steiner), Lebesgue integrals over ball, cylinder and block |
| C56–C61 | formulas, table look-up | algebra; negations for code bugs |
| C62–C63 | matrices; camera ops as state machine | algebra; induction over operations |
| C64, C65 | the whole of `wmm/mod.rs` over ℝ, the embedded records in tenths of a nanotesla; potential, Rodrigues polynomials and ellipsoid geometry as specification | induction over degree and order, derivatives of finite sums, chain rule |
| C66 | colour functions over ℝ | induction over the knots, monotonicity of powers and logarithms |
| C67 | digest as a parameter function with a streaming law | induction over reads |
| C68–C69 | parser state machine over characters | chunk-invariance by induction over chunks |
| C70, C73 | loops as list/Fin folds | induction |
| C71 | Newton loop over arbitrary scalar operations, with the trace of calls | induction on the iteration budget; Taylor bound from the fundamental theorem of calculus |
| C72 | RK4, Euler and trapezoidal steps over ℝ | stage-wise Lipschitz estimates, discrete Grönwall; Banach-algebra exponential remainder for the order-4 bound |
| C59, C90 | ISA tables and formulas over ℝ, index errors explicit | layer-by-layer evaluation, calculus, certified power bounds |
| C60 | USSA tables and formulas over ℝ, panics explicit | same; five refutations |
| C62, C92, C93 | `look_at`, `perspective`, `translate` as 4×4 real matrices | algebra |
| C63, C91 | camera state and operations over ℝ, program = list of operations | induction over operations, quaternion theorems of C28–C31 |
| C95, C96 | `icrs_sample`, `propagated_uncertainty` over ℝ, NaN as `none` | derivatives, algebra; negations by witness |
| C94 | `render_wmm_include` over lists of characters, number parser a parameter; the real file as data | invariant of the line loop; kernel evaluation of the real file |
| C76 | SIMD kernels and dispatchers | lanes as `Fin k → α`, memory and CPU faults as `none`; loop invariants for blocks and tail; rounding-error calculus |
| C97 | `ecef_to_geocentric_ferrari` over ℝ (`Frames/Ferrari`) | algebra; negation by an interval estimate at one point of the ellipsoid; an error bound at every point from 20 km below it upwards, by perturbing the quartic of the exact foot point |
| C98 | `gravity_rectangular` over ℝ (`Frames/Gravity`) | derivatives of the published potential in ellipsoidal coordinates; negations at every longitude |
| C99–C105 | the live viewer: sources, polling, selection, axis scaling, names, errors; `set_y_columns` | invariant over all runs of the viewer; refinement of "change columns" to a fresh load |
| C106 | the `MaybeUninit` buffers of decoding and collecting, with a ledger of drops | induction over the input, invariant: the prefix written is the prefix made |
| C107 | `Real` with and without `std`: signum, min, max, powi, degrees | case analysis over IEEE values; exactness of integer conversion |
| C108 | `grid_values` with a parameter addition | induction over the loop, error bound, exactness of the rounding |
| C109 | the directory search over an arbitrary file system | invariant: read and waiting directories are distinct and closed; counting |
| C110 | test helpers over numbers with NaN | loop invariants |
| C111, C112, C113 | LU, Cholesky and determinant models of C24–C26 on rounded reals | backward error: loop invariants on entrywise bounds, Oettli–Prager, growth of partial pivoting, simulation of the determinant by LU |
| C114–C119 | angle conversions and interpolation on rounded reals, rounding to a nearest p-bit number | laws of rounding to nearest (monotone, exact on floats, Sterbenz, root of a square), evaluation of checked expressions |
| C120, C121 | the Taylor update of an attitude over ℝ | derivative of a normalised curve, bounds for the tangent |
| C122 | cubic spline over ℝ | integration by parts on each segment, telescoping over the knots |
| C123–C126 | normalisation, rotation of vectors, rotation matrices and attitude integration in rounded arithmetic | a calculus of relative errors (`Rel`) and of errors relative to the size of the terms (`Near`), Cauchy–Schwarz, induction over the history |
| C127–C129 | spline and polynomial interpolation in floating point; acceptance of samples | monotone rounding bounds the pivots of the sweep; loop inductions; concrete witnesses |
| C130–C131 | rounding errors of the integrators; order four on smooth systems | perturbed stages and a discrete Gronwall bound; Taylor expansions about the middle of the step with a calculus of uniform orders; cutoff to a globally Lipschitz system |
| C132 | orbital period of the Moon | Kepler equation inverted smoothly, motion differentiated twice |
| C133 | soundness of the frame types | induction over well-typed programs, with a physical meaning of frames |
| C134 | printed forms read back | split/join induction over the text |
| C135 | picture on disk is current | invariant over all poll sequences |
| C136 | plot preparation | folds over lists, monotone rounding |
| C137 | build script, stopped anywhere | traces of file states, invariant over histories |
| C138 | timing log shared by threads | invariant of a transition system |
| C139 | setters of the optimisers | induction over call chains |
| C140 | dot and matrix products, IEEE | induction over the loop, relative and absolute error |
| C141, C142 | norm, normalize, IEEE | C140 and error propagation through root and quotient; witnesses |
| C143 | normal samples | change of variables to polar coordinates (Mathlib), law of the sample as a measure |
| C144 | uniform draws | counting outputs by C74 |
| C145, C146 | fixed-step and line-search descent within bounds | contraction by co-coercivity and the projection; telescoping; witness |
| C147 | training epochs | losses as smooth convex functions, C145 |
| C148, C149 | conversions between degrees and radians in IEEE arithmetic | error of two roundings and of the constant; monotone rounding; witnesses of overflow |
| C150 | SVM epochs | subgradient method: bounded steps, telescoping distances |
| C151, C152 | descent with momentum | energy: value plus squared displacement falls; witness of a turning point |
| C153 | mean convergence of stochastic descent | mean over all index sequences; energy of one step in the mean, induction on the iterations |
| C154 | mean and covariance in floating point | roundings as factors between (1-u)^d and its inverse; sums by induction; Cauchy-Schwarz |
| C155 | correlations in floating point | quotient as exact value times a factor of four roundings; witness on the grid of f64 |
| C156 | rotation rates of the frames | period of sine and cosine, bounds on pi, derivatives |
| C157, C158, C159 | gradient descent on IEEE numbers | invariant of the loop for any scalars; monotone rounding; geometric decrease of the step |
| C160 | Cholesky on IEEE numbers | recursion of the entries for any scalars; subtracting squares never yields +∞ |
| C161 | LU and solve on IEEE numbers | powers of two as bounds, kept by monotone rounding; multipliers at most one, pivots above the tolerance |
| C162 | Newton iteration on IEEE numbers | law-free outcome of the loop (C71); rounding errors of one step |
| C163 | scalar casts | grids of the two formats; neighbours of the overflow threshold |
| C164 | polling intervals | monotone rounding; the number next to 1/10 |
| C165 | Naive Bayes on IEEE numbers | bounds j·2^c on sums, kept by monotone rounding; search invariant |
| C166 | Perceptron on IEEE numbers | simulation: integer parameters stay exact; mistake bound of C47 |
| C167 | Logistic probability on IEEE numbers | case analysis of 1/(1+a) with monotone rounding; error of three roundings |
| C168 | Logistic training on IEEE numbers | invariant: parameters at most (T+1) 2^(l+c), errors in [-1, 1] |
| C169 | Logistic class on IEEE numbers | monotone probability, value 1/2 at zero, accuracy of C167 |
| C170 | Encoding assertions | length of the encoding, round trip of C73, `==` on bit patterns |
| C171 | Storage of attitudes and frames | round trips of C73; induction over the fields of a record |
| C172 | Kinds of stored values | length of the encoding; visitor without end check |
| C173 | Combining parts over `Fl fl` | running error analysis with the size of the terms of each sum; cancellation at one concrete assembly |
| C174 | Release builds of the time crate | second model with wrapping operations; simulation of the checked one; arithmetic modulo 2^64 |
| C175 | Sums that cannot be represented | the wrapped sum is 2^64 s earlier |
| C176 | Loads and stores of the leap seconds | executions as lists of loads and stores in modification order; induction over the list |
| C177 | Normal density in f64 | IEEE arithmetic with subnormals, infinities and NaN; monotone rounding from step to step |
| C178 | Fitted mean within the observations | rounding errors of sums by induction over the list; grid argument for the witness |
| C179 | Every accepted step gives a grid | IEEE arithmetic; progress of each turn by the relative error of sums, induction on the remaining distance |
| C180 | error of polynomial, linear and spline interpolation of smooth functions | iterated Rolle with the nodal polynomial; Rolle and Cauchy-Schwarz on each segment with the energy identity of C122 |
| C181 | Newton iteration finds the root it is started at | local Taylor remainder, errors square at every step; monotone iterates and a count of steps for convex functions |
| C182 | Quaternion of a nearly orthogonal matrix is accurate in floating point | pivot, square root and quotients each bounded; the four pivots cannot all be rejected near a rotation |
| C183 | Vector operators and in-place updates | loops over the index range with a loop invariant; closures with a state |
| C184 | An epoch of training does not make the fit worse | descent lemma from the curvature bounds of C147; one example solved in closed form |
| C185, C186 | Parallel runs reproduce | workers as a transition system under arbitrary schedules, any scalar type, samplers that panic; witness by evaluation |
| C187 | A failed write to a log does not spoil other rows | transition system of C138 with failing writes, invariant; witness run |
| C188 | Training in floating point ends near the best fit | rounding error of one epoch component by component, contraction of an exact epoch, induction over epochs |
| C189 | Training linear regression keeps the parameters finite | size bounds epoch by epoch; growth of the error by a constant factor until overflow |
| C190 | Coordinates converted to polar form and back in floating point | error of the radius, of the cosine of the inclination, of its sine (two bounds) and of the products |
| C191 | Spherical coordinates keep a point to the accuracy of the arithmetic | corollary of C190 away from the axis; witness near the axis for every precision |
| C192 | Geodetic to Earth-fixed coordinates in floating point | error of the radius of curvature from the error of the sine, then of the sums and products |
| C193 | Earth-fixed to geodetic coordinates in floating point | relative error of one pass, contraction of the exact iteration, invariant over the passes, error of the final angles and height |
| C194 | Magnetic field in floating point | running error analysis with majorants: Legendre tables, harmonics, coefficients, geocentric point, weighted sum and rotation |
| C195 | Intensities, angles and rates of the magnetic field in floating point | lengths and directions of close vectors, then running error analysis with the relative error of the horizontal field as the unit |
| C196 | Positions between inertial and rotating axes in floating point | running error analysis of the row products; one rounded angle shared by both directions |
| C197 | Earth-fixed positions over the years | bound of C196 with numbers; single precision: the angle lies between two floats, chord length |
| C198 | The ICAO standard atmosphere in floating point | relative error analysis layer by layer; logarithm for the power |
| C199, C200 | The view matrix in floating point | relative errors, then the direction of a perturbed vector; rounding collapse for the counterexample |
| C201, C202 | The orbit camera in floating point | invariant over histories (unit up to rounding), relative errors of products and normalisations |
| C203, C204 | Star samples in floating point | errors relative to a bound, sine and cosine are Lipschitz, monotone rounding |
| C205 | Subtracting parts over `Fl fl` | running error analysis relative to the size of each term, with the condition number of the subtraction |
| C206 | 3 × 3 inverse over `Fl fl` | backward error of the elimination for the determinant, forward error for the cofactors |
| C207 | Both inverses over any ordered field | uniqueness of the inverse; concrete matrix for the refutation |
| C208 | LDA, QDA and naive Bayes | permutation of the class lists; affine change of mean, covariance and density; uniqueness of the first maximum |
| C209 | the same | the same with a linear part; concrete data for the refutations |
| C210 | `solve` | uniqueness of the solution, determinants of permuted and scaled matrices; concrete systems for the refutations |
| C211 | cubic spline | simulation of the two loops under scaling and superposition |
| C212 | polynomial interpolation | uniqueness of the polynomial; concrete nodes for the refutations |
| C213 | integrators, Newton | stages transform; induction over steps |
| C214 | integrators | exact amplification factor; geometric sequences |
| C215 | vectors, matrices, integrators, Newton in floating point | the two runs side by side, related by the factors |
| C216 | LU solver, determinant in floating point | the two factorisations side by side: equal multipliers, scaled columns |
| C217 | training loops and fits | loops that add one term per sample do not depend on the order |
| C218 | training loops and fits | the sums are multiplied by k, and so is the number they are divided by |
| C219 | the three minimisers | the two runs side by side, related by the change of coordinates |
| C220 | training loops and fits | scores do not change, gradients are rotated; then C219 on the packed parameters |
| C221 | sample covariance and correlation | the covariance is rescaled entry by entry; the factors cancel in the quotient |
| C222 | normal fits and densities | sums and determinants under affine maps |
| C223 | `look_at`, forces and torques | rotations keep inner products, lengths and cross products |
| C224 | sums and differences of mass models | the combined tensor is a sum of tensors that do not depend on the origin |
| C225 | sample covariance into Cholesky, solve, inverse and density | the quadratic form of the covariance vanishes exactly on normals of hyperplanes |
| C226 | orbit camera into `look_at` and `perspective` | orthonormal axes of C63 through the rows of the view matrix |
| C227 | lunar gravity, torque; Coriolis and centrifugal force in floating point | relative errors for products and quotients, absolute ones for the torque |
| C228 | `perspective` in floating point | relative errors of the four entries; order of depth from the sign of one entry |
| C229 | counter loop with timer, alarm and schedule | composition of C07, C09, C11, C12; a floor of a quotient is at least a whole number exactly if the quotient is |
| C230 | solids in floating point | relative error calculus, compared with the regions of C54 |
| C231 | tanks in IEEE arithmetic | case analysis of products of non-negative IEEE values; monotone rounding |
| C232, C233 | discriminant analysis in IEEE arithmetic | invariant of the search; the prior of an unseen class is 0 or NaN |
| C234 | support vector machine in IEEE arithmetic | invariant |w| ≤ (T + 1) 2^(l+c): monotone rounding where the update points outward, error bound where it points inward |
| C235 | discrete distributions in IEEE arithmetic | monotone rounding for the bounds and the order; three roundings composed for the error |
| C236 | uniform and normal draws in IEEE arithmetic | exact division by 2^53; interval bounds kept by monotone rounding |
| C237 | unit conversions in IEEE arithmetic | the constants are numbers of both formats; range of the factors; two roundings composed |
| C238 | generic covariance model in IEEE arithmetic | commutativity of the product, closure of the values that are not negative, sums of bounded terms |
| C239 | fitted normal distribution and successive draws in IEEE arithmetic | composition of C177 and C236, induction on the draws |
| C240 | generic cross-covariance model in IEEE arithmetic | commutativity of the product, sums of bounded terms |
| C241 | generic covariance model in IEEE arithmetic | rounding to the only near number, relative errors of two products |
| C242 | generic matrix model in IEEE arithmetic | entry formula of C21 and commutativity of the rounded product; exact roundings for the witness |
| C243 | generic vector product in IEEE arithmetic | case analysis on infinities and NaN; relative errors of products and difference |
| C244 | generic interpolation in IEEE arithmetic | monotone rounding; bounds carried through the three operations |
| C245 | generic interpolation model in IEEE arithmetic | induction over both loops; monotone rounding |
| C246 | generic spline model in IEEE arithmetic | strong induction over the binary search; bounds carried through both sweeps; exact roundings |
| C74 | generator step as a 64×64 matrix over GF(2) | order of the matrix from the factorisation of 2^64 − 1, checked by kernel computation |
| C75 | vector operations over ℝ | algebra, Cauchy–Schwarz |
| C77, C78, C79, C80, C84, C87 | stronger variants split off from C28, C40, C43, C26, C86 | mostly refuted by witnesses, partial theorems for what holds |
| C81–C83 | normal densities, Box–Muller | calculus, matrix identities |
| C85, C86 | perceptron and SVM objectives and epochs | subgradient inequality |
| C88 | LDA, QDA | finite sums, matrix inverse |

## 4. Disagreements found (code vs property)

Each line is a theorem with a concrete witness.

| theorem | what the code does |
|---|---|
| `C02_from_nanos_fails` | `Duration::from_nanos(-1000)` is not canonical; it compares unequal to `from_micros(-1)` of the same length |
| `C06_wraps_fails`, `C06_negative_fails` | the corrected GPS week wraps through `u32` near week 0; before the GPS epoch the raw week and seconds-of-week are out of range |
| `C07_one_hertz_fails` | at 1 tick/s a tick difference of 2^63 or more becomes negative time |
| `C13_hourly_fails`, `C13_daily_fails` | before 1970 the next firing is an hour / a day late (truncating division) |
| `C14_negative_fails`, `C15_before_epoch_fails` | before 1970 the broken-down time has wrapped fields |
| `C15_year_zero_fails` | 0000-02-29 and 0000-03-01 map to the same second |
| `C16_feb29_fails` | a yearly schedule on 29 February fires on 1 March of common years |
| `C17_once_fails` | a one-shot schedule fires at every poll from its time on |
| `C20_f32_fails` | the `f32` uniform draw can be exactly 1.0 |
| `C68_mid_character_fails` | a poll inside a multi-byte character is an `Err`, which ends `run_forever` |
| `C68_initialize_twice_fails` | a second `initialize` duplicates all rows |
| `C69_after_error_fails` | polling on after a missing-column error gives series of different lengths |
| `C25_asymmetric_fails` | Cholesky reads only the lower triangle: a non-symmetric matrix is "solved", wrongly, where the documentation promises `None` |
| `C84_fails` | `determinant` returns 0 for a regular matrix whose pivot is under the threshold |
| `C27_release_alias_fails` | out-of-range tensor view indices read another element in release builds |
| `C73_vector_too_long_fails` | deserialising a `Vector` from a longer sequence silently drops the rest |
| `C29_to_dcm_fails` | `Quaternion::to_dcm` is the transpose of the matrix that `rotate_vector` applies |
| `C30_order_fails` | rotating by `p * q` applies `p` first, against the frame types and the documentation of `Rotation::compose` |
| `C35_direction_fails` | `body_to_ned` maps north-east-down to body axes; `aircraft_wind_to_body` maps body to wind axes (also the aeroballistic and flight-path matrices, `C35_direction_partial`) |
| `C35_moon_epoch_fails` | `Moon::lirf_to_ltrf` uses absolute time, `Moon::icrf_to_ltrf` time since the epoch |
| `C57_fails` | `gravity_normal` uses `sin(sin φ)` for `sin² φ`: north and south differ |
| `C77_body_rate_fails` | `Rotation::integrate` takes the angular velocity in inertial axes though documented in body axes |
| `C79_best_fails` | `x_best`/`f_best` of gradient descent are the last point and value, not the best seen |
| `C41_fails` | a start outside the box is returned as it is when no step is made |
| `C80_streams_fails` | base seed 0: the first worker draws the same numbers in iterations 0 and 1 |
| `C44_fails` | with the default `tol_f = 0` the sequential version reports convergence wherever the objective is ≤ 0 |
| `C44_overflow_fails` | `(k as i32) + 1` overflows in iteration 2^31 − 1 |
| `C78_momentum_fails` | the momentum term is scaled by the learning rate, against the documentation |
| `C51_no_data_fails` | a categorical fit without observations has total mass zero |
| `C46_fit_fails` | logistic fit: the objective takes logarithms of `p + 1/3`, the gradient is that of the cross-entropy without the offset |
| `C87_fails` | SVM: `train_epoch` penalises by ‖w‖²/(c m), `fit` by ‖w‖²/(2c) |
| `C88_fails` | LDA/QDA: with a singular covariance the answer is class 0, even if class 0 has no data |
| `C89_fails` | unit factors are `f32` constants: in `f64` a millimetre is 0.001 m only to about 7 digits |
| `C60_top_fails` | US standard atmosphere: every query from 1000 km up panics (index past the table) |
| `C60_continuity_fails` | US standard atmosphere: temperature drops by over 120 K at 91 km and jumps at the layer boundaries |
| `C60_sound_fails` | `speed_of_sound` returns the square of the speed of sound |
| `C60_pressure_fails` | above 110 km the lapse rate is used in kelvin per kilometre: pressure halves within a metre at 120 km |
| `C60_gravity_fails` | `USSA::g_0` is 9.80655, not 9.80665 |
| `C90_fails` | ISA: 1 mm above sea level the pressure exceeds that at sea level (base pressures come from rounded densities) |
| `C62_fails` | `look_at` has determinant −1 for all inputs: left and right are mirrored (`up × f` instead of `f × up`) |
| `C91_set_fails` | `set_angles`: azimuth mirrored; at yaw 90° the pitch has no effect (passive quaternion rotation, factors in the wrong order) |
| `C91_yaw_fails` | orbit yaw is not about the vertical: looking up becomes looking down after a yaw of 180° |
| `C91_world_fails` | `apply_orbit_world_angles` turns about camera axes, not world axes |
| `C92_fails` | `look_at` is for column vectors, `perspective` for row vectors: the pair of `look_at_perspective` cannot be composed |
| `C93_fails` | `translate` does not update the last row: wrong for projection matrices |
| `C67_fails` | from_csv_with_expected_sha256 opens the path twice; a file replaced between hashing and parsing is parsed although its digest differs |
| `C95_fails` | icrs_velocity_au_per_yr uses the factor 4.74047 and so is in km/s, 4.74 times the rate of change of icrs_position_au |
| `C95_direction_fails` | pmra is added to the right ascension without dividing by cos(dec), but used as a sky rate in the velocity; away from the equator position and velocity disagree in direction |
| `C96_fails` | for stars not from Gaia, between 1966.5 and 2016, a proper-motion error above e/24.75 gives the square root of a negative number |
| `C94_fails` | the generator only checks the number of records and the maximum degree; a file with one pair twice and another missing is accepted and the missing coefficients are zero |
| `C97_fails` | `ecef_to_geocentric_ferrari` computes `s` from `c² + 2c` instead of its square root; a point of the ellipsoid at distance 4a/5 from the axis is reported more than 0.5 m above it. |
| `C98_equator_fails` | `gravity_ellipsoidal` takes `cos(cos β)` for `cos² β`: on the equator gravity is too large by `ω² u (1 - cos 1)`, evaluated outside Lean: 0.0155 m/s² at u = b. The vector already contains the centrifugal term, so adding `solve_centrifugal_force` counts it twice. |
| `C98_surface_fails` | the attraction term of `g_b` is divided by `u² + E²` instead of its square root, so gravity is not perpendicular to the ellipsoid (evaluated outside Lean: 0.017 m/s² at β = 45°). |
| `C98_mirror_fails` | `sin(sin β)` for `sin² β` makes gravity differ between the hemispheres (evaluated outside Lean: 0.019 m/s² at β = 45°). |
| `C99_fails` | `apply_selection` changes the columns of each source one by one but updates `y_labels` only if all succeed; after a failure the lines of the successful sources are drawn under the old column names. |
| `C101_units_fails` | `common_unit` returns `None` both for "no unit" and for "mixed units", and the second axis is used only if the two results differ; two groups of mixed units share one axis. |
| `C101_both_fails` | A column ticked in both lists is scaled to the range of the first group, to which it belongs itself. |
| `C102_load_fails` | The message of a failed `create_source` is overwritten by the poll that follows in the same frame; it is never seen. |
| `C103_fails` | `derive_run_label` ignores the file name inside a run directory; two files of one run have the same name. |
| `C104_start_fails` | The boxes are initialised from the command line only for columns named like x or y components; the others are shown unticked and vanish at the next click. |
| `C106_serde_fails` | The serde visitor of `Matrix` drops the finished rows only when the sequence of rows is too short or too long; if a row itself cannot be read, `?` returns at once and the rows before it leak. The values are lost, not misused. |
| `C106_collect_fails` | `Vector::from_iter` panics on a wrong number of items without dropping those already stored in the `MaybeUninit` array. |
| `C107_signum_fails` | Without `std`, `signum` of a zero is that zero; with `std` it is 1 or -1 by the sign bit. |
| `C107_powi32_fails` | Without `std`, `powi` of `f32` casts the exponent to `f32`; (-1)^16777217 gives 1. |
| `C107_degrees32_fails` | Without `std`, `to_degrees` of `f32` uses 180/π divided in `f32`; with `std` a constant rounded once. |
| `C108_fails` | `grid_values` rounds to six decimals: with 89.9999996, accepted as less than 90, the first latitude is -90. |
| `C108_order_fails` | With a range or step finer than 1e-6 the points are not in increasing order. |
| `C109_fails` | `find_first` has no set of visited directories; in a directory with a link to itself it descends until its limit of 4096 and gives up, although the file sought is in another directory. |
| `C110_grid_fails` | `assert_max_abs_error_on_grid` compares with `>`; errors that are NaN are never larger. |
| `C110_max_fails` | `vector_max_abs_diff` (`f64::max`) and `matrix_max_abs_diff` (`>`) pass over NaN. |
| `C115_fails` | A turn by a right angle about the second axis as the quaternion `(FRAC_1_SQRT_2, 0, FRAC_1_SQRT_2, 0)` gives a matrix whose entry `m13` is `-(1 + 2⁻⁵²)`; `Euler::from(&dcm)` takes its inverse sine without clamping and returns NaN as pitch. The conversion straight from the quaternion is guarded and correct. |
| `C119_end_fails` | `lerp(a, b, 1.0)` is documented to return `b`. It computes `a + (b - a) * t`: from `2⁶⁰` to `1` the result is `0`. |
| `C119_range_fails` | `lerp` leaves the range of its endpoints: from `-2⁵⁴` to `3` the value at `t = 1` is `4`. |
| `C121_lag_fails` | `Quaternion::integrate` builds the rate quaternions with `from_parts(one, v)`, i.e. scalar part 1 instead of 0, and weights the second and third derivative by 1/4 and 1/9 instead of 1/2 and 1/6. Turning at unit rate about the first axis it falls behind the exact turn by a term of second order in the step. |
| `C121_order_fails` | So the update is of first order only: no bound by the third power of the step holds. |
| `C128_far_fails` | `PolynomialInterpolator::evaluate` divides by a sum that can cancel to zero: the line through (0, 0) and (1, 1) evaluated at 2^55 gives infinity. |
| `C129_spline_fails` | `CubicSpline::new` accepts a knot that is NaN, since `NaN <= x` is false; the value at a good knot is then NaN. |
| `C129_polynomial_fails` | `PolynomialInterpolator::new` accepts a node that is NaN. |
| `C133_fails` | A well-typed program can turn right attitudes into wrong ones: `to_dcm` and `conjugate` keep the frame types but invert the rotation, and the product of quaternions (hence `Rotation::compose`) applies the factors in the wrong order when vectors are rotated. |
| `C135_fails` | After a truncation or replacement that leaves no rows, `render` returns without drawing and the picture of the old file stays on disk. |
| `C136_axis_fails` | For data with a single value of size 2^53 or more, `x_min + 1.0` equals `x_min`, so the axis range is empty. |
| `C136_error_fails` | `a + (b - a) * 1.0` can exceed `b` after rounding, so the last place of the error plot is off the axis. |
| `C137_fails` | A build stopped during `curl`, `unzip` or `fs::write` leaves a truncated file; `path.exists()`, the non-empty directory and `is_file()` make every later build accept it. |
| `C137_page_fails` | `curl` is called without `--fail`, so an HTTP error page is stored as the catalogue and kept. |
| `C138_columns_fails` | A stage or source name with a comma or newline is written unquoted and breaks the columns. |
| `C139_nan_fails` | `decay`, `momentum`, `ema` and `tol_f` (and in the parallel optimiser all setters) store "not a number"; the two optimisers differ in this for the learning rate. |
| `C139_ema_one_fails` | The parallel `ema` clamps to [0, 1]; with 1 the bias correction divides 0 by 0 and the gradient test never succeeds. |
| `C142_large_fails` | The length is computed from squares without scaling: an `f64` vector with a component of 2^600 gets an infinite length and the zero vector as its unit vector. |
| `C142_small_fails` | Likewise a vector of length 2^-600 gets length 0 and infinite components. |
| `C142_quaternion_fails` | `normalized` of 2^-600 + 0 i + 0 j + 0 k is an infinity and three NaNs, although it is a multiple of the identity. |
| `C57_poles_fails` | `gravity_normal` is 0.122 m/s² too small at the south pole and 0.019 m/s² too large at the north pole: sine of sine for the squared sine, and no square root in the denominator. |
| `C146_fails` | With bounds, the sufficient-decrease test of the line search uses the slope of the unprojected direction. When a coordinate with a steep slope sits at its bound, no trial passes, the step shrinks to the cut-off, and the run is reported as converged although other coordinates are far from the minimum. Default settings, `1000 x + (x² + y²)/2` on the unit square from `(0, 1)`. |
| `C149_radians_fails, C149_degrees_fails` | `to_radians` multiplies by `PI` before it divides by 180, and `to_degrees` by 180 before it divides by `PI`, so both return an infinity for angles whose conversion is well within range: `2^1023` degrees, `2^1017` radians. |
| `C152_fails` | With momentum the step is short at a turning point as well as at a minimum, and the step test cannot tell them apart. `x²/2` from 1 with rate 4/3 and momentum 1/4 is reported as converged at `-1/3`, gradient `-1/3`, for all tolerances. |
| `C155_fails` | `correlation_from_covariance` (`crates/aether_stats/src/covariance.rs:100-114`) of the 1×1 covariance (3) in `f64` returns 1 + 2⁻⁵² on the diagonal, because the rounded √3, squared, rounds to below 3. So correlations can exceed one. |
| `C158_fails` | `learning_rate(NaN)` is stored as given. Every trial bound is then NaN and so is every step length, no comparison holds, and `minimize` never returns unless the first gradient is within the tolerance. |
| `C158_infinite_fails` | An infinite learning rate is stored as given. Minimising x² from 1/2 with it never returns: the step stays infinite and the trial value is infinite. |
| `C158_shrink_fails` | `armijo(c, NaN)` stores the NaN. After the first refused trial the step length is NaN and the search never ends. |
| `C159_fails` | `project` compares with both bounds, and both comparisons with NaN are false, so a NaN component is returned although bounds are set. |
| `C160_fails` | The test for a pivot that is not positive is `s <= 0`, which is false for NaN. A symmetric matrix of finite numbers that is not positive definite is accepted, with NaN in the factor, after an entry has overflowed. |
| `C161_fails` | Two equations with coefficients 1 and ±2¹⁰²³ and the solution (0, 1): an entry of the decomposition overflows, is accepted as pivot, and the solver returns NaN for both unknowns instead of None. |
| `C161_wrong_fails` | The same matrix with the right side (2¹⁰²², -2¹⁰²²) and the solution (0, 1/2): the solver returns (2¹⁰²², 0), finite numbers that do not solve the system. |
| `C162_fails` | Only a zero derivative is refused. For √x - 1 from 0 the derivative is infinite, the step is zero, and 0 is returned as a root in the first iteration. |
| `C164_fails` | run_forever only replaces rates that are not above zero. A rate of 2^-64 gives an interval of 2^64 seconds, and Duration::from_secs_f64 panics. |
| `C165_fails` | The best score starts at negative infinity and the class at 0. For a query far from the data the square overflows, every score is negative infinity, and class 0 is returned even if it has no example. |
| `C166_fails` | For features of size 2^600 the score is infinity minus infinity. NaN is not counted as a mistake, so training stops changing the weights, and the example stays misclassified for any number of epochs although the data are separable. |
| `C168_fails` | For features of size 2^600 one epoch gives weights 2^599, and a query with finite features has the score infinity minus infinity and the probability NaN. |
| `C169_fails` | For the score 2^-60 the rounded exponential is 1 and the probability exactly 1/2, so the class is 0 although the score is positive. |
| `C170_fails` | A vector of 129 numbers or more is encoded and decoded correctly, but the assertion panics: its buffer has 1024 bytes. |
| `C170_zero_fails` | An encoding that loses the sign of zero passes the assertion for exactly the same vectors as the correct one. |
| `C172_fails` | A stored quaternion is read as Euler angles or as coordinates without an error (bincode leaves eight bytes unread, the serde visitor passes over the last number). |
| `C173_fails` | The inertia of a combination is moved to the origin of the assembly and back: two unit cubes `2^30` from the origin get the moment of inertia 0 instead of 1/3 in f64. |
| `C175_fails` | In a release build, `now + Duration::from_secs(i64::MAX)` (an endless timeout) wraps into the past, and an alarm set to it goes off at the first poll. A debug build panics. |
| `C175_hangs_fails` | In a release build, a repeating schedule polled with the last representable instant as "now" never leaves its catch-up loop. |
| `C176_fails` | `Time<GPS>::to_tai` and `Time<TAI>::to_gps` go through UTC and read the leap seconds twice: a leap second counted in between makes the answer a second wrong, although the two scales differ by a constant. |
| `C176_clock_fails` | For the same reason `now_gps` of a mission clock can go back by half a second between two readings half a second apart. |
| `C177_fails` | `Gaussian::pdf` with a standard deviation whose square underflows (2^-600) is NaN at the mean: the guard `max(ZERO)` does not keep the variance away from zero. |
| `C177_large_fails` | With a standard deviation of 2^600 the density one deviation away from the mean is NaN (∞/∞). |
| `C177_fit_fails` | `Gaussian::fit_mle` of two finite observations ±2^600 has an infinite standard deviation, and its density at either observation is NaN. |
| `C178_fails` | `Gaussian::fit_mle` of three observations equal to the f64 number 0.1 has a mean different from 0.1, so outside the range of the observations, however ties are broken. |
| `C179_fails` | `wmm_grid_csv` accepts a step of 2^-47 degrees and never ends: -180 + 2^-47 rounds to -180, so the loop of `grid_values` pushes the same value for ever, after the output file has been truncated. |
| `C179_nan_fails` | `wmm_grid_csv` accepts a step that is NaN (`nan <= 0.0` is false): the axis is then just its two ends. |
| `C184_fails` | training with a learning rate above the bound makes the error of linear regression grow without bound |
| `C184_new_fails` | a new linear regression model (learning rate 1) diverges on every single example with nonzero input and target |
| `C186_threads_fails` | with the same seed the batch gradient depends on the number of threads |
| `C186_machine_fails` | a seeded parallel run without a configured number of threads gives different points on machines that offer one and two threads |
| `C187_fails` | after a failed write the next row is joined to the cut-off line: a row logged at time 8 is in the file with time 58 |
| `C189_fails` | a new linear regression (rate 1) trained on the single example x = 1024, y = 1 has no finite weight after 58 epochs |
| `C191_fails` | in f64 the point (2^-27, 0, 1) converted to spherical coordinates and back has lost its first coordinate: the inclination is the inverse cosine of z over the radius, which is 1 |
| `C197_single_fails` | `icrf_to_itrf` is generic in the scalar type. In single precision the product of rate and time is rounded to 1/128 radian once it exceeds 65536: with the stored Earth rate, time 978875072 s and a point on the equator, one coordinate is off by more than 17 km although rate, time and position are exact and sine and cosine may be exact. The round trip does not show it (C196). |
| `C200_fails` | `look_at` in single precision returns NaN for the right and up axes although the up direction is not along the line of sight: the eye at the origin, up (1, 1, 0), looking at (1, 1 - 2^-24, 0). |
| `C207_fails` | `inverse()` compares the determinant of a 3 × 3 matrix with 1e-12, which has the third power of the unit of its entries: 1e-4 times the identity, whose inverse is 1e4 times the identity, is refused; `inverse_gauss_jordan()` inverts it. |
| `C209_lda_fails` | LDA with classes at 0, 2 and at 10, 12 puts the point 11 into the second class, but with all numbers divided by 10^7 into the first: `inverse_gauss_jordan()` refuses a covariance of 2e-14, and `predict` then answers class 0. |
| `C209_qda_fails` | QDA with a narrow class at -1, 1 and a wide one at -10, 10 puts 8 into the wide class, but with all numbers divided by 10^10 into the narrow one, for the same reason. |
| `C209_bayes_fails` | Naive Bayes does the same with these classes: the floor of the variances, 1e-12, is absolute. |
| `C210_fails` | `lu_decompose` refuses a system when a pivot is at most the machine precision, an absolute number. Exchanging the first two of three equations, with equal first coefficients, changes the last pivot from 0.9 to 9/8 of it, and so decides whether the solver returns the solution. |
| `C210_unknowns_fails` | The same for the order of two unknowns: the last pivot is twice the threshold or a fifth of it. |
| `C210_units_fails` | One equation a x = b with a equal to the threshold is refused, although the same equation in other units is solved. |
| `C212_order_fails` | Between two nodes that differ by 1.5 f64::EPSILON the polynomial interpolator returns the value of the node that was given first, so exchanging the samples changes the value. |
| `C212_units_fails` | The polynomial interpolator refuses nodes that differ by at most f64::EPSILON, an absolute number: nodes 0 and 1 are accepted, 0 and 2^-52 are not. |
| `C216_fails` | The pivot threshold of the linear solver, T::EPSILON, is absolute: the equation x = 1 is solved, 2^-53 x = 2^-53 is refused. |
| `C218_fails` | The penalty on the weights in `LinearSvm::train_epoch` is divided by the number of samples: training on every sample twice is not training on every sample once, although `fit_with_optimizer` has this property. |
| `C218_fails_perceptron` | An epoch of the perceptron on every sample twice is not an epoch on every sample once; the updates follow one another. |
| `C221_fails` | `correlation_from_covariance` compares variances with the machine epsilon, whatever their unit: data with variance 2 have a correlation matrix, the same data in a unit 2^28 times larger are refused. |
| `C222_fit_fails` | `Gaussian::fit_mle` never returns a standard deviation below the machine epsilon, whatever the unit of the data. |
| `C222_mvn_fails` | The multivariate normal density panics for covariances with a pivot of at most 1e-12, whatever the unit of the data. |
| `C226_right_fails` | Nearly vertical views: `right()` falls back to a cross product with the x axis and `cam_up()` then flips the up vector into the upper half-space without flipping `right`; the view built from position, target and up has its side axis opposite to `right()`, so moving a point to the right moves it left in the picture. |
| `C229_fails` | `dt_from_ticks` rounds every duration down to a nanosecond and then starts the next one from the new reading, so the part that was cut off is lost. A timer stepped with these durations falls behind by up to one nanosecond per pass; with a counter faster than 1 GHz read at every tick it never reports. |
| `C231_fails` | `limits` multiplies the geometric volume by the fill fraction: when the volume overflows and the tank is empty (fill fraction 0 or negative), usable volume and greatest mass are NaN, not 0. A NaN fill fraction also passes through `clamp`. |
| `C233_fails` | LDA trained on the features 3 and 5 of class 1 only, asked about the finite query -2^1023, predicts class 0, which has no example: the score of class 1 overflows to negative infinity and the search never accepts it. C88 has the case of a singular covariance. |
| `C234_fails` | `train_epoch` takes the regularisation explicitly: with a rate times 2/(C m) above 2 the weights grow geometrically. With one example (feature 1), rate 1 and C = 2^-1000 the weight is infinite after three epochs. |
| `C237_fails` | In f32, 2^40 kg converted to yoctograms is infinite and stays so when converted back: the factor 1e-27 leaves too little of the range of f32. |
| `C241_fails` | `covariance_from_correlation` multiplies by the deviation of the row, then by that of the column, and rounds in between; in `f64` the correlation 0.1 and the deviations 5 and 7 give 3.5 above the diagonal and 3.5 + 2^-51 below it. |
| `C242_fails` | `R * I * R.transpose()` in `attributes.rs` rounds after the first product; in `f64` the rotation with cosine 0.6 and sine 0.8 turns nine times the identity into a tensor with -2^-50 above the diagonal and 2^-50 below it. |
| `C243_fails` | the vector product of the finite vector (2^600, 2^600, 0) with itself has NaN as third component: both products overflow before they are subtracted. |
| `C244_fails` | lerp between the finite numbers -2^1023 and 2^1023 is NaN at t = 0, where the documentation promises the first end point: the difference overflows and infinity times zero is NaN. |
| `C244_parameter_fails` | inverse_lerp between -2^1023 and 2^1023 is NaN at the second end point, not 1. |
| `C245_fails` | PolynomialInterpolator::new does not refuse an infinite node that occurs twice: the difference is NaN, and the comparison with EPSILON is false; the value at that node is then NaN. |
| `C246_built_fails` | CubicSpline::new accepts nodes that are NaN: the test xs[i + 1] <= xs[i] is false for them, although they are not strictly increasing. |
| `C246_fails` | the spline through (0, 0) and (2^600, 0) is NaN at its first node: h * h overflows and is multiplied by zero. |
