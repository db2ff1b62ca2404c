# Formal model of ANYbotics/kindr in Lean 4

## 1. What is modelled

kindr is a header-only C++ library: six parameterizations of 3-D rotations, their
time derivatives, quaternions, physical-quantity vectors, wrenches, twists, rigid
transformations and a few numeric helpers.  Everything is pure value semantics, so
every C++ method becomes a Lean function; a method that mutates `*this` becomes a
function returning the new value.  Exceptions (always-on asserts such as
`KINDR_ASSERT_TRUE`, debug-only asserts) become an explicit `Res.throws` outcome.

Scalars are **exact real numbers** (`ℝ`), not IEEE floats (see trusted base).  Scalar-type
dependent thresholds (`NumTraits::dummy_precision`, `epsilon`) are kept as
parameters `Prec` of the model, instantiated for `float` and `double`.

Layout of `/verif/lean/Verif`:

* `Model/*`     the model, one definition per C++ function, each citing file:lines
* `Spec/*`      the independent specification (textbook rotation matrices, Rodrigues,
                Mathlib's `Matrix`, `Quaternion`, `HasDerivAt`, SI dimensions ...)
* `Lemmas/*`    helper lemmas
* `Props/*`     the property theorems `Cxx_...`, with satisfiability examples beside them

The six rotation types are modelled as a family `Rep : Kind → Type` with
`conv : (d s : Kind) → Rep s → Rep d` following the `ConversionTraits` table entry by
entry, so that the generic code of `RotationBase.hpp`/`RotationImpl.hpp` is modelled once
and the theorems quantify over all kinds (all 36 pairs).

## 2. Plan per property

| id | model | proof |
|----|-------|-------|
| C01-C03 | `floatingPointModulo` with all branches; second version parameterised by the rounded intermediate `m` and rounding function | floor arithmetic; case analysis |
| C04 | skew/vee on 3x3 matrices | ring identities |
| C05-C06 | quaternion structures, Eigen product/inverse/normalize | ring, Mathlib `Quaternion` as spec; negation witness for `UnitQuaternion::setIdentity` |
| C07-C09 | `conv` for all pairs, Eigen Shoemake/eulerAngles/AngleAxis modelled | denotation to rotation matrix; trig with `Complex.arg` as atan2; Taylor bounds for small branches |
| C10-C13, C47 | `rotate`, `mult`, `inverted`, identity for each kind | corollaries of C07 and SO(3) algebra; induction on lists |
| C14-C18 | `getUnique` for each kind | case analysis; counterexamples where the code deviates |
| C19-C20 | disparity angle, isNear | trace formula, quaternion inner product, triangle inequality on the sphere |
| C21-C23 | exp/log/box/interpolate | corollaries of C07, C16 |
| C24 | Eigen setFromTwoVectors, throwing guard | vector identities |
| C25-C27 | fix, debug asserts, compareRelative | algebra; counterexamples |
| C28-C35 | derivative conversions, Euler mappings, exp Jacobian | `HasDerivAt` of the curves, matrix algebra |
| C36-C41 | vectors of any dimension, Wrench, Twist, physical types | `Fin n → ℝ`; finite tables decided by the kernel |
| C42-C43 | HomogeneousTransformation over any rotation kind | group action algebra |
| C44 | pseudoInverse given an SVD | Mathlib matrices, all sizes |
| C45 | Euler setters/getters | induction over setter histories |
| C46 | cross-type == | counterexample + partial |
| C48 | setRandom as function of the draws | corollary of C07/C09 |
| C49 | AngleAxis `==` with `compareRelative` | Lipschitz bound of Rodrigues' formula; transitivity refuted |
| C50-C52 | velocities of products and inverses, of every parameterization | `HasDerivAt` product rule, uniqueness of derivatives |
| C53 | Local + Global angular velocity as coded | characterization + refutation |
| C54-C55 | moving poses, chains of poses | `HasDerivAt`, induction on lists |
| C56-C58 | quaternion/matrix products, normalization, rotate, transform once more with every operation rounded (`FloatArith`) | forward error calculus, induction on histories |
| C59 | same model as C05-C23; `NearQ`/`Near`/`Close` perturbation calculus (Lemmas/Perturb, Lemmas/Near) | perturbation bounds of each conversion for almost-unit quaternions, composition, induction over histories |
| C60 | `mult` matrix × quaternion, `runHistory` | explicit two-parameter family (w,x,0,0); recurrence N'-1 = (N-1)x²/(1-x²); induction on the number of steps |
| C61 | `Model/Matlab` getRotationMatrix*, snap, mapEulerAngles* | entrywise; `Close` calculus for the snapped coefficients |
| C62 | getEulAng* | atan2 polar forms; explicit lock families |
| C63 | getMapEulAng* | `HasDerivAt` of products of elementary rotations; explicit counter-motion |
| C64 | isRotationMatrix, spectral norm as contract (shown satisfiable) | determinant of near-identity matrix |
| C65 | getAngleAxis..., mapAngleAxisToQuaternion | every rotation is Rodrigues of an angle in [0, pi] |
| C66 | quaternion/rotation-vector/skew maps | Rodrigues, `NormedSpace.exp`, perturbation bounds below eps |
| C67 | boxPlus/boxMinus, expm/logm as contracts (shown satisfiable) | uniqueness of rotation vectors shorter than pi; C++ exp/log theorems |
| C68 | numerical_jacobian and getTimeDerivative loops | fold invariant; third-order mean value estimate; chain rule |
| C69 | `Pose.eqSame`, `Pose.eqMixed` (Model/Pose), motion `move` (Spec/Pose) | a pose is determined by its motion (`move_eq_iff`), then C14/C16/C17/C18/C46 for the rotation part |
| C70 | `quatDisparity` (Model/Special) | half-angle trace formula for unit quaternions, then `disparity_eq` of C19 |
| C71 | `XR`, `XArith`, `compareRelative`, debug constructors over special values (Model/Special) | case analysis over IEEE special values, propagation of non-finiteness through norm, dot and det; agreement with the real model on finite values |
| C72 | conversions, `getUnique`, `logarithmicMap`, `boxMinus`, `isNear`, `==` over special values (Model/Special) | NaN propagation through every conversion, comparison chains of `getUnique` fall through to the identity branch; agreement with the real model on finite valid rotations |
| C73 | assertion macros over special values (Model/Special) | order embedding of non-NaN values into the extended reals |
| C74 | size checks and nested loops over dynamic matrices (`matCheck`, `loopRows`, `loopCols`, Model/Special) | induction over both loops |
| C75 | `boxPlus` loops over any list, motions as curves with `IsGlobalVelocity` | exponential step error by the fencing theorem applied to `(exp(sw)a)·(R(s)b)`, then induction with the `Near`/`Close` calculus |
| C76 | same motions, `boxMinus` | inverse Lipschitz bound of the logarithm from strong monotonicity of `a ↦ sin|a|/|a| a`; `rvGetUnique_small` for the dead zone |
| C77 | Spec/Program.lean: command language, library machine, ideal machine on Mathlib matrices | one-step simulation for each command, induction on the program |
| C78 | `FloatArith.quatMul`, `FloatArith.quatFix` (rounded arithmetic), the loop as a fold | one-step bound for normalizing nearby vectors, induction on the list |
| C79 | a while language over rotation, pose and vector variables, one control-flow semantics, two machines (`Spec/Machine.lean`): the library model, and Mathlib 3x3/4x4 matrices | lock-step simulation, induction on the number of steps |
| C80 | `floatingPointModulo<T>` with one rounding per operation in the type of that operation (`Model/Binary.lean`); floats as integers times powers of two, rounding = monotone, range and fixed points are floats (`Spec/Binary.lean`) | grid arguments (multiples of the ulp), relative error bounds, concrete rounding for the constants |
| C81 | `castRep`, `convTyped`, `Pose.ofPoseTyped` in `Model/Cast.lean`: the conversion table with a source and a destination scalar type and a rounding at each conversion of stored numbers; `castBound`, `Stored` in `Spec/Cast.lean` | perturbation bounds per class; Shoemake's formula on a perturbed matrix (`Lemmas/Stable.lean`) |
| C82 | debug constructors and the conversion table; tolerances in `Spec/Accepted.lean` | Gram-Schmidt on the accepted matrix gives the rotation; perturbation bounds for almost-unit quaternions (`NearQ`), Shoemake's formula on perturbed matrices |
| C83 | `ConventionTest` and `RotationConversion` as functions of an arbitrary library (`Model/Convention.lean`) | interval bounds for the two test rotations; the skew parts of the three elementary rotations determine the axes up to 1.5e-5; quaternion commutators bound the distance of the reversed products; a conjugated library passes three tests |
| C84 | the special-value model of `RotationVector(q)` (`Model/Special.lean`) | case analysis of the division; equality with the real-number model wherever the divisor is nonzero |
| C85 | the whole conversion table, `rotate`, `operator*`, `inverted` with rounding after every operation and an approximate `sin`/`cos`/`atan2` (`Model/FloatConv.lean`, bounds as fields of `FloatLib`) | forward error analysis relative to an exact representation (`Rounded`); stability lemmas for Shoemake's branches, for `atan2` and for the Euler-angle extraction including gimbal lock; equality with the exact table for `u = 0` |
| C86 | the boxPlus loop over an arbitrary list of increments, every operation rounded (`FloatLib.boxPlus`, `floatBoxPlusLoop`) | induction over the list; invariant per class: a quaternion/matrix near an exact one (error adds up), for the other classes `Rounded` with bounded angles; one step from C85, discretization from C75 |
| C87 | the unique forms of AngleAxis and RotationVector, the logarithmic map, box difference, disparity angle, isNear and interpolation with every operation rounded (`FloatWide`, Model/FloatLog.lean) | the rounded modulo is within a constant of a multiple-of-2π shift and lands in [0,2π] up to rounding; composition of the C85 bounds; `rotAngle` is 2-Lipschitz; interpolation is one step of the C86 loop |
| C88 | pose operations with every operation rounded (Model/FloatPose.lean), chains over an arbitrary list of poses of mixed classes | induction over the list; invariant: accumulated rotation error a, position error at most (a + constant) times the length of the chain so far; one step from C85 |
| C89 | rotation derivatives and the Jacobian of the exponential map with every operation rounded (Model/FloatDeriv.lean) | error of a rounded dot product of approximate vectors (`dot_close`), against the true velocity of the curve (C29-C32, C35); dead assertion: cosine of a rational is nonzero (pi is irrational); float Jacobian: `roundBinary 24` computed binade by binade |
| C90 | `getUnique()` of all classes with every operation rounded (Model/FloatUnique.lean) | case split on the code's branches with rounded band edges; each branch is an exact trigonometric identity (flip, gimbal lock) plus the Lipschitz constant 1 of an elementary rotation |
| C91 | the program language of C77 executed with every operation rounded (`floatRun`), a static error analysis (`boundStep`, `Fits`, `outErrs`) and a cost analysis for double (Spec/FloatProgram.lean) | simulation between the rounded run and the ideal run on rotation matrices, by induction on the program, one lemma per command from C85-C90; the cost analysis is an invariant `1 + off ≤ (1+U)^m`, `err + 102 U m ≤ 32000 U cost` preserved by every command |
| C92 | derivative rules of the cheat sheet for `getJacobianOfExponentialMap`, `logarithmicMap`, `boxPlus`, `boxMinus`, `operator*`, `inverted`, `rotate`, `interpolate` | polynomials in the skew matrix (Cayley-Hamilton) for the Jacobian identities and its inverse; the logarithm in closed form is differentiable below a half turn, its derivative is then identified through C35 and uniqueness of the angular velocity; R exp(d) = exp(R d) R for the perturbation identities |
| C93 | `getDisparityAngle`, `logarithmicMap`, `RotationQuaternion::getUnique`, the constructors of all classes | the cosine of the covered angle has derivative -w.axial/2 with |axial| = 2 sin, so a comparison (fencing) argument bounds it for all times; the Jacobian of the exponential map is a contraction, which turns the speed limit along a straight line into the bound for rotation vectors; triangle inequality and bi-invariance for Euler angles and angle-axis; spherical geometry of unit quaternions for the converse |
| C94 | `setRandom`, `getRandom`, `setUniformRandom` | product of three uniform laws, Lebesgue volume of balls and ellipsoids; rotations near the half turn about z come from an ellipsoid cut in two at opposite faces of the cube; C93 for the neighbourhoods; reflection x to -x for inverses |
| C95 | all functions of the interface, over numbers with infinities and NaN (`Model/SpecialOps.lean`) | the special-value version run on the embedded input equals the embedded real result, function by function; programs by induction over the command list |
| C96 | the interface of C95 under any monotone rounding without overflow | every division and root is guarded also for rounded values: the largest-diagonal branch of matrix to quaternion keeps the root argument at least 1 by monotonicity; programs by induction |
| C97 | `interpolate` as in C23 | the path is exp(t w) a for the unique w shorter than pi with exp(w) = b a^-1 (`rv_unique`); equivariance, reversal and subdivision follow from exp((s+t)w) = exp(sw)exp(tw) and R exp(w) R^T = exp(Rw); at a half turn both directions have the same logarithm |
| C98 | `fulldiff2.m`, `fulldMATdt.m` with names as strings (`Model/FullDiff.lean`) | rows written by the loops are exactly the admissible ones (`collect_spec`, `derivRows_ok`); with prefix-free names the removal of "duplicates" keeps one row per variable; chain rule by induction on the expression; termination because a text has finitely many infixes |
| C99 | `matlab/visualization/*.m`: arrows, labels, animation frames, linearizations (`Model/MatlabVis.lean`) | steady rotation unique by the zero-error case of `exp_step_error`; induction over frames for the Euler animation; product rule for the moving point; C64, C66, C68 for the rest |
| C100 | `operator<<` of all classes (`Model/Print.lean`), the number formatter a parameter | splitting the text at separators (`List.splitOnP`) recovers the numbers, induction over rows; perturbation bounds of C81 with a general precision |
| C101 | the mutating methods as sequences of loads and stores (`Model/Memory.lean`), value semantics of programs with references (`Spec/Memory.lean`) | a coefficient loop is a simultaneous assignment if each new coefficient depends on its old value and on cells outside the target (induction over the order); refinement of every statement, induction over the program |
| C102 | the calls of C101 as lists of single loads and stores (`Model/Threads.lean`), schedules and data races (`Spec/Threads.lean`) | footprint of every operation; a thread's view is unaffected by operations outside it (induction over the schedule); comparison with the sequential schedule and C101 |
| C103 | the rounded operations of C85-C90 with the representable numbers named (`Spec/Bits.lean`) | rounding fixes representable numbers and commutes with sign; each operation on a neutral or mirrored argument is rewritten to one without rounding |
| C104 | the typed `wrapPosNegPI<T>` of C80 and the typed `getUnique()` of C90 | integer grids: sums on a common grid within 2^p steps are exact; induction over the calls for the drift |
| C105 | `Format` (p, emin, emax), IEEE rounding with subnormals and overflow as an `XArith`, `norm()`, `normalized()` and `setFromVectors` of C95 on it | rounding lemmas (powers of two are fixed, zero exactly below half the smallest number, relative error plus eta), case analysis finite/infinite; scaling commutes with rounding of normal numbers |
| C106 | the `setFromVectors` of C105 and its debug build (`Model/Align.lean`): length check of the quaternion constructor | forward error analysis of `FromTwoVectors` (dot, cross, sqrt, division) with relative rounding plus underflow; exact evaluation of the float example |
| C107 | Eigen's `eulerAngles(0,1,2)` and `(2,1,0)`, conversions, `getUnique` (`Model/Eigen.lean`, `Model/Rotation.lean`) | exact evaluation of `atan2` at the entries of the Euler product; diagonal entries of a rotation bound the cosine of its angle; for the impossibility a continuous lift to unit quaternions and the intermediate value theorem |
| C108 | `XArith` operations `mult`, `fix`, `rotate`, `transform`, `posePosition`, `quatCtorDbg` over `Format.arith` (`Model/Range.lean`, `Model/SpecialOps.lean`) | rounding with error `u|x|+eta`; error propagation through every operation together with a bound of every intermediate result below the overflow threshold; induction over the loop; directions compared in the quaternion norm |
| C109 | `XArith.exponentialMap`, `boxPlus`, `fix`, `rotate` over `Format.arith` (`Model/Range.lean`, `Model/SpecialOps.lean`) | norm with underflow: absolute error `u^2`; both branches of the vector factor within 5.6u of `sin(N/2)/N`; one step by `fixed_step` of C108; left multiplication by unit quaternions is an isometry, so errors add up; stall by rounding near powers of two |
| C110 | `aaCall`, `quatCall`, `runCaught` (`Model/Throw.lean`): stored value and exception of every mutating call | case distinction per call; induction over the history |
| C111 | `Stmt`, `execAll`, `relBody`, `geLtBody`, `boolBody`, `matrixNearBody`, `finiteMacro` (`Model/Macro.lean`): expansions as statements | execution of the expansion; unique decomposition of the text at separators; loop lemmas of C71 |
| C112 | `NumType.cast`, `NVec` operators, `productType`, `quotientType` (`Model/Mixed.lean`): the factor is converted before the operation; undefined `int` arithmetic is `none` | case distinction on types; truncation lemmas; rounding lemmas of C105 |
| C113 | `Inst.*` (`Model/LogIeee.lean`): quaternion logarithm, difference, disparity, interpolation over `Format.arith` with `double` intermediates in the wrapping, both resolutions of `floor` | forward error analysis with an absolute term for underflow; perturbation of `atan2` and of Rodrigues' formula; exponential of C109 |
| C114 | `XArith.inverseTransform`, `transform`, `posePosition`, `mult` over `Format.arith`; the user's loop is `Spec.poseLoop` | invariant of the loop: distance of the stored quaternion from the exact product and of the stored position from the exact one; C108 per step |
| C115 | `Model/VecIeee.lean`: vectors as `Fin n → XR`, wrenches, reductions over an arbitrary binary tree of additions (`SumOrder`) | induction over the tree: sums of storable numbers have no underflow error, so each addition multiplies the error factor by `1+u`; loops are left combs; the stop of the integration is an invariant using ties-to-even at a power of two |
| C116 | the five `getUnique()` of `Model/Rotation.lean`; the sets of results are plain sets of numbers in `Spec/UniqueForm.lean` | case analysis of each branch for the inclusion, explicit preimages (the value itself, a full turn more, or the halved first angle) for the converse |
| C117 | pose composition and exponential map of `Model/Pose.lean`, `Model/Rotation.lean`; the program and the motion are in `Spec/Odometry.lean` | loop invariant (growth of the stored numbers, rotation error, position error); the error of one step by the mean-value inequality, the rotation part by transposing the world-frame estimate of C75 |
| C118 | `XArith.mult`, `XArith.inverted`, `XArith.matCtorDbg` (`Model/Special.lean`, `Model/Range.lean`; loops in `Spec/MatrixIeee.lean`) over any IEEE format | row-wise error bounds with a loop invariant on the distance to the exact product; the constructor's checks by bounding each row product and the determinant; the inverse identities by commutativity of rounded multiplication |
| C119 | `vIsSimilarTo`, `vProjectOn` in `Model/VecIeee2.lean` over any IEEE format, orders of reductions as arguments | `std::max` characterized case by case, induction over the order; monotonicity of rounding for the soundness of the comparison; error propagation through inner product, quotient and product for the projection |
| C120 | `XArith.xyzLocalToDiff`, `xyzGlobalToDiff`, `zyxLocalToDiff` (`Model/SpecialOps.lean`) over any IEEE format, compared with the real model of `Model/Deriv.lean` | distance of the grid of the format to pi/2 from 20 digits of pi, irrationality of pi; relative-error propagation through reciprocal and products |
| C121 | `XArith.xyzLocalToSecondDiff`, `xyzGlobalToSecondDiff` (`Model/SpecialOps.lean`), `XArith.xyzDiffOfLocal`, `zyxDiffOfLocal` (`Model/RatesIeee.lean`) over any IEEE format, compared with the real model of `Model/Deriv.lean` | compositional error predicate (units of a magnitude bound) closed under product, sum and reciprocal; the cosine bounds of C120 |
| C122 | `XArith.localOfXyzDiff`, `globalOfXyzDiff`, `localOfZyxDiff`, `xyzDiffOfLocal`, `zyxDiffOfLocal` (`Model/RatesIeee.lean`) over any IEEE format, compared with the real model | error predicate of C121; exact round trip of C31 and C32; the counterexample by exact evaluation of all roundings at the double nearest to pi/2 |

## 3. Trusted base

**Logic.** Lean 4.33.0's kernel (every module is replayed by `vcheck`), and the three standard axioms `propext`,
`Classical.choice`, `Quot.sound`, on which practically every theorem depends because the model uses Mathlib's real
numbers.  No axiom is added; no proof is left open; no compiled evaluation is used.

**Specification files** (`Spec/*`) have to be read and agreed with: sandwich product in Mathlib's `Quaternion`, Rodrigues'
formula, elementary rotations, Mathlib `Matrix`/`NormedSpace.exp`, `HasDerivAt`, Moore-Penrose equations, SI exponents.

**Matlab.** `matlab/core`, `dMATdt` and `numerical_jacobian` are modelled with exact reals; `expm`, `logm` and the spectral
`norm` are parameters with contracts in `Spec/Matlab.lean`, shown satisfiable.

**Faithfulness of the model** - what is assumed rather than proved:

1. *Exact reals.*  `PrimType_` is `ℝ`.  Rounding, overflow, NaN/Inf, `-0.0` are not modelled, except in C03, where the
   modulo is proved in range for arbitrary rounding functions, C26, where the accepted deviations are bounded, and C56-C58,
   where products, normalization and rotation are modelled with every operation rounded (relative error at most `u`, no
   overflow/underflow; `roundBinary` is the round-to-nearest instance), C80, C81 and C85-C91, which extend this
   to the modulo with the types of the code, to `cast`, to the whole conversion table and its operations, to the box operations,
   disparity, interpolation and to poses (`FloatLib`/`FloatWide`: relative error `u` per operation, library functions with
   stated error bounds, no overflow/underflow), and C71-C74, where `Model/Special.lean` repeats the
   comparison helpers, debug checks and the path conversion -> `getUnique` -> `logarithmicMap`/`boxMinus`/`==` on IEEE values
   (finite, infinite, NaN) with arbitrary rounding and overflow (the sign of zero is not modelled).
   `M_PI` is the real `π`.  `std::sqrt`, `sin`, `cos`, `acos`, `atan2`, `floor`, `abs` are the real functions
   (`atan2 y x = Complex.arg (x + i y)`; so `atan2(0, negative) = π`).
   Lean's total division (`x / 0 = 0`) and root (`sqrt x = 0` for `x < 0`) are never relied on for admissible inputs: C95 proves that
   the model agrees with arithmetic in which these operations give infinities and NaN (`Model/SpecialOps.lean`).
2. *Thresholds.*  `Eigen::NumTraits::dummy_precision()` and `numeric_limits::epsilon()` are the fields `dp`, `eps` of
   `Prec`; theorems hold for every `Prec` satisfying the two bounds stored in it, with `double` and `float` instances.
3. *Eigen.*  Eigen is not part of /repo.  The Eigen routines called by kindr (quaternion product, inverse, normalize,
   `toRotationMatrix`, matrix -> quaternion, `AngleAxis` conversions, `eulerAngles(0,1,2)` and `(2,1,0)`, `setFromTwoVectors`)
   are transcribed in `Model/Eigen.lean` from Eigen 3.3/3.4.  `JacobiSVD` is not transcribed: `pseudoInverse` and the
   antiparallel branch of `setFromTwoVectors` are proved for *every* decomposition satisfying the SVD contract
   (`IsSvd`, `IsSvdAxis`).
4. *Build mode.*  Release build (debug asserts off), except the `...Dbg` definitions used by C09 and C26.
5. *Value semantics.*  A mutating method is a function returning the new value; C101 proves that
   this is what the methods do in memory, also when arguments are the object itself or a part of it, for the calls listed there.

**Not modelled:** the formatting of a single number by a stream (a parameter of C100), `getRandom`'s pseudo-random generator (C48 quantifies over the draws, C94 over an ideal generator), ROS
glue, the drawing and timing of `matlab/visualization` (C99 has the numbers drawn), the
derivation script `rotations.m`, template plumbing (`get_scalar`, `get_matrix3X`), the
`*PD/*PF/*AD` typedefs.

**Code that exists but cannot be instantiated** (found while modelling, nothing proved about it): mixed `==` with an
`AngleAxis` on the left (no `Eigen::AngleAxis::operator==`); `EulerAnglesZyxDiff` from a `GlobalAngularVelocity` mapping
(missing `getMappingFromDiffToGlobalAngularVelocity`); `QuaternionDiff` sums; `Twist::getVector(rotation)` with a
`LocalAngularVelocity`; `projectOn` for vectors of different physical types.

## 4. Findings (statements of the library's contract that are false of the code; each refuted by a theorem)

| property | finding | theorem |
|----------|---------|---------|
| C06 | `UnitQuaternion::setIdentity` stores the zero quaternion | `C06_UnitQuaternion_setIdentity_broken` |
| C17, C18 | Euler `getUnique` changes the rotation in a band of 1e-3 around gimbal lock; for Zyx the two gimbal branches have the wrong sign | `C17_...`, `C18_...` counterexamples in `Props/EulerUnique`; exact set of inputs on which the claim holds: `C17_exact_iff`, `C18_exact_iff` in `Props/Exact` |
| C24 | `setFromVectors` inexact in a band around antiparallel vectors | `Props/Vectors2Rot`; exact characterization `C24_exact_iff` in `Props/Exact` |
| C25 | `RotationMatrix::fix` divides by the cube root of the determinant, which does not restore orthogonality | `Props/Fix` |
| C39 | Typeless times Mass/Inertia/Power/Energy is Typeless | `C39_typeless_counterexample` |
| C46 | `==` between different classes is neither complete nor symmetric | `C46_not_symmetric_counterexample`, `C46_xyz_counterexample` |
| C49 | `AngleAxis ==` is not transitive | `C49_not_transitive_counterexample` |
| C53 | Local + Global angular velocity adds coordinates of different frames | `C53_mixed_frame_sum_counterexample` |
| C60 | multiplying a stored rotation matrix by quaternions amplifies any deviation from orthogonality by tan² of half the angle per step; arbitrarily small errors grow past 0.4 | `C60_matrix_history_unstable` |
| C62 | Matlab Euler extraction loses an angle at gimbal lock | `Matlab.C62_lock`, `Matlab.C62_lock_not_reproduced` |
| C63 | Matlab ZYZ rate matrix is a copy of the ZYX one | `Matlab.C63_zyz_rates_wrong` |
| C63 | Matlab ZYX base-frame acceleration differentiates `R E` instead of `R' E` | `Matlab.C63_zyx_base_acceleration_wrong` |
| C64 | Matlab `isRotationMatrix` accepts reflections | `Matlab.C64_accepts_reflections` |
| C65 | Matlab angle-axis/quaternion extraction divides by zero at the identity and at half turns | `Matlab.C65_defined` |
| C69 | `==` of poses of the same motion is false for a Euler/quaternion pose on the left of another class | `C69_pose_mixed_counterexample` |
| C71 | the debug checks accept NaN, infinite and overflowing coefficients, because `compareRelative` is true for them | `C71_checks_accept_nonfinite` |
| C72 | `getUnique`, `logarithmicMap`, `boxMinus` silently turn a NaN rotation into the identity / zero, and `RotationVector`/`AngleAxis` `==` then call it equal to the identity | `C72_logarithmicMap_nan`, `C72_equals_identity`, `C72_quaternion_nan` |
| C73 | range assertions (`GE_LT`, `LT`, `GE`, `LE`, `GT`) accept NaN | `C73_macros_nan` |
| C74 | the relative matrix assertion accepts a matrix of NaNs | `C74_nan` |
| C76 | `logarithmicMap`/`boxMinus` return exactly zero for rotations by less than dp (1e-12 double / 1e-5 float), so finite differences have a dead zone | `C76_dead_zone` |
| C80 | `floatingPointModulo<float>` stores the remainder in a `double` and compares before narrowing: with the C function `floor(double)`, `wrapTwoPI<float>(-2^-40)` is `float(2 pi)` (> 2 pi), outside the documented `[0..2*PI)`. With a `float` overload of `floor` the range holds (`C80_wrapTwoPI_range`); the sandbox has no compiler run, so both readings are modelled | `C80_float_not_half_open` |
| C83 | The three convention tests listed in the header comment of `ConventionTest` (`Concatenation`, `Rotation`, `BoxPlus`) do not detect a foreign library whose axes are rotated: it passes all three and still rotates some unit vector to a point at distance at least 1. Only the fourth test (`testGeometricalInterpretation`), which the comment does not mention, rejects it (and pins the convention) | `C83_documented_tests_miss_axes`, `C83_matrix_pinned` |
| C84 | `RotationVector(q)` is NaN for `q = (c,0,0,0)` with `c*c <= 1-dp`, which the debug checks accept (0/0); `logarithmicMap` hides it because `getUnique` maps NaN to the identity | `C84_division_by_zero`, `C84_accepted_nan` |
| C38 | `a.projectOn(b)` is NaN in every coefficient if `b` is the zero vector (the orthogonal projection is zero) | `C38_projectOn_zero_nan` |
| C89 | The gimbal-lock assertion of the Euler rate mappings (`cos(pitch) != 0`) never fires: no representable pitch has a zero cosine, so rates near the singularity are returned, with errors growing like 1/cos², instead of being rejected | `C89_gimbal_check_dead` |
| C89 | In `float` (with the float overloads of sin/cos) `getJacobianOfExponentialMap(v)` is exactly the identity for every `v` with computed norm in [1e-4, 2^-12]: the first-order term that the branch below 1e-4 keeps is lost, and the angular velocity is off by 0.49·norm(v)·norm(w) for perpendicular w | `C89_jacobian_float_identity`, `C89_jacobian_float_error` |
| C90 | Rounding does not hide the Zyx `getUnique` band of C18: in double, `EulerAnglesZyx(0, 1.5707, 1.5).getUnique()` is turned by at least 2.9 rad away from the rotation it was computed from | `C90_zyx_band`, `C90_zyx_band_example` |
| C92 | Cheat sheet, section Derivatives: `Γ⁻¹(-v) = Γ(v) + v̂` is false for every `v` (it is `Γ⁻¹(v) + v̂`), and `∂(Φ1 ⊟ Φ2)/∂Φ2 = Γ⁻¹(-(Φ1 ⊟ Φ2))` has the wrong sign for every motion of `Φ2` | `C92_doc_inverse_identity_refuted`, `C92_doc_sign_refuted` |
| C94 | `setRandom()` / `getRandom()` do not sample rotations uniformly: a rotation within t of the identity is less likely than one within t of a half turn (`RotationImpl.hpp:230-238`: uniform rotation vector in a cube) | `C94_not_uniform` |
| C95 | `RotationVector` from a quaternion (w,0,0,0) of norm clearly below 1, or from a symmetric matrix of trace between 0 and 3, is three NaNs instead of the zero vector (division by zero length, `RotationVector.hpp` conversion constructors) | `C95_conversions`, `C95_example` |
| C95 | `RotationMatrix::fix()` makes every entry NaN if the determinant is negative (`pow` of a negative base), and leaves no finite entry if it is zero | `C95_fix` |
| C97 | between rotations exactly a half turn apart `a.interpolate(b,t)` and `b.interpolate(a,1-t)` take the two different shortest paths: half way they are a half turn apart | `C97_half_turn`, `C97_example_half_turn` |
| C98 | `fulldiff2.m:126` removes "duplicates" with `strmatch`, which compares beginnings: with ten or more joints `q10` is taken for a duplicate of `q1` and its part of the derivative is lost | `Matlab.C98_prefix`, `Matlab.C98_q10` |
| C99 | `animateAngularVelocityUsingEulerZYX.m:132` sets `angles = tk*anglesDot` (the integration step is commented out): wrong from the first frame unless the velocity is along an axis | `Matlab.C99_euler_axes`, `Matlab.C99_euler_wrong` |
| C99 | `visualizeHomogeneousTransform.m:65-71` places the labels at `A_u` instead of `A_r + A_u` | `Matlab.C99_transform` |
| C99 | `visualizeLinearization.m:71` evaluates the surface at time 0, the plane at `t0` | `Matlab.C99_linearization_time` |
| C100 | a rotation matrix printed with the default six digits and read back can be refused by the debug check of the constructor (tolerance 1e-6) | `C100_six_digits` |
| C103 | `wrapPosNegPI<float>` adds `float(M_PI)` and subtracts the `double` `M_PI`: `q.boxMinus(q)` is `(8.74e-8, 0, 0)` for every `float` unit quaternion, `isNear(q, q, 1e-8)` is false | `C103_float` |
| C104 | `wrapPosNegPI<float>` moves an angle in `[-2, 2-pi)` up by one unit in the last place per call although it is in range; repeated `setUnique()` drifts without bound on the tolerance scale | `C104_float_step`, `C104_float_drift` |
| C104 | in `float` the comparison with `-M_PI` in `AngleAxis::getUnique()` never succeeds: `setUnique()` flips the axis of a half turn at every call | `C104_half_turn_float`, `C104_rotation_vector` |
| C105 | nonzero vectors with coefficients up to about `1.57e-162` (`float`: `2.6e-23`) have `norm() == 0`, and `setFromVectors` reports "At least one vector has zero length" | `C105_norm_zero`, `C105_throws` |
| C105 | vectors of length above about `1.34e154` (`float`: `1.8e19`) have infinite norm and zero `normalized()`; `setFromVectors` returns `(0.707, 0, 0, 0)`, no rotation, without an exception, even if the other vector is zero (`inf * 0` is NaN and passes the check) | `C105_overflow`, `C105_huge` |
| C105 | just above the tiny vectors the normalized vector is not unit: `(3 * 2^-539, 0, 0)` in `double` gives `(0.75, 0, 0)` and a quaternion of length below 0.9 | `C105_between` |
| C106 | `float` vectors 179.55 degrees apart, outside the antiparallel band, give a quaternion of length above 1.0004; in a debug build `setFromVectors` throws "Input quaternion has not unit length" | `C106_float` |
| C107 | the Euler angles stored by a conversion jump at the identity: a turn by -eps about z (x) becomes `EulerAnglesZyx` (`Xyz`) (pi-eps, +-pi, +-pi); rotations with negative yaw (roll) all get a pitch beyond a quarter turn | `C107_identity_jump`, `C107_zyx_values`, `C107_xyz_values` |
| C108 | `rotate()` returns an infinity for a vector on the axis of a 60 degree rotation about (1,1,1) whose exact image, itself, is representable; `rotate()` returns the zero vector for `(2^emin, -2^emin, 0)` and a certain rotation | `C108_overflow`, `C108_underflow` |
| C109 | integration with `boxPlus` and `fix` stalls: at the rotation by 120 degrees about (1,1,1) increments below u/8 (1.3e-17 double, 7e-9 float) are lost, however many | `C109_stall` |
| C110 | a caught exception of `AngleAxis::setAxis(n)` leaves the refused axis in the object; `invert()`, `setUnique()` then throw for ever | `C110_stuck` |
| C110 | `RotationQuaternion::operator()(Quaternion)` checks with 1e-6 what the constructor checks with 1e-4 | `C110_tolerance` |
| C111 | a failing `KINDR_ASSERT_LT(x++, ..)` evaluates its operand again: the text can show a value that satisfies the relation | `C111_contradiction` |
| C111 | `if (c) KINDR_ASSERT_MATRIX_NEAR_DBG(..)`: columns and coefficients are compared also if `c` is false | `C111_if` |
| C111 | `if (c) KINDR_ASSERT_TRUE(..) else e`: dangling else | `C111_else` |
| C111 | `KINDR_ASSERT_MAT_IS_FINITE(E, -m, ..)` accepts every `m`; `0.5*m` is looked at in part; `2*m` reads out of range | `C111_finite` |
| C111 | the labels of `KINDR_ASSERT_MAT_IS_FINITE` and its `_DBG` version are interchanged | `C111_labels` |
| C111 | `KINDR_ASSERT_DBG_RE` refers to `KINDR_ASSERT_DBG`, which is not defined (assert_macros.hpp:220) | by reading |
| C112 | `int` vector `* 0.5` is zero, `/ 0.5` divides by zero: the factor is converted to the number type of the vector first | `C112_int_fraction` |
| C112 | `float` vector times a `double` factor outside the range of `float`: NaN/Inf or zero although the product is an ordinary number | `C112_float_factor_range` |
| C112 | `Scalar<float> * Vector<double>` does not compile, `Vector<double> * Scalar<float>` does | `C112_product_order` |
| C112 | `projectOn` of `int` vectors is zero whenever the projection is shorter than the target | `C112_int_projectOn` |
| C114 | a point one unit from the origin is lost by `inverseTransform(transform(x))` of a pose shifted by `2^(p+2)` | `C114_far` |
| C115 | `p += v * dt` stops: steps of at most `2^(k-p)` never lead beyond `2^k` (float, 1 m/s, 1 ms: 32768 m) | `C115_stall`, `C115_stall_float` |
| C115 | the sum of the same vectors in two orders is 0 and 1 | `C115_order_matters` |
| C116 | the manual's ranges for unique forms are wrong: half turns have the angle `π` (not below), Euler pitch can exceed `π/2`, the first Euler angle ranges over two turns near the gimbal lock, where `getUnique()` is not idempotent; nor is it for rotation vectors shorter than `dp` | `C116_half_turn`, `C116_manual_false`, `C116_rotation_vector_twice` |

## 5. Small-angle side conditions

Conversions from and to rotation vectors switch to a Taylor formula for tiny rotations.  Theorems about exact equality carry
the side condition `ExactBranch`/`Clear`/`RvClear` (the rotation is the identity or not tiny; vacuous unless a rotation
vector is involved).  C08 and C35 bound the error inside the approximation branches, and C59
bounds the deviation of the operations for all inputs, without side condition.

## 6. Testing the theorems

`seeded/LOG.jsonl` lists the wrong programs tried: an edit to a model definition, the claim it breaks, the theorems that
stopped proving.
