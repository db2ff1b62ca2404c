{"id": "C01", "title": "Modulo result lies in the divisor's half-open range and is congruent to the dividend", "statement": "floatingPointModulo(x,y) returns a value in [0,y) when y>0, in (y,0] when y<0, and x itself when y=0; the result always differs from x by an integer multiple of y.", "quantifier": "all scalars x and y", "why_tests_cant": "infinitely many pairs; the boundary branches only fire for particular pairs", "anchors": [{"file": "include/kindr/common/common.hpp", "symbols": ["floatingPointModulo"]}]}
{"id": "C02", "title": "Angle wrapping returns the unique representative of the angle", "statement": "wrapAngle(a,x1,x2) (x1<x2) lies in [x1,x2), wrapPosNegPI(a) in [-pi,pi), wrapTwoPI(a) in [0,2pi); each differs from a by a whole number of periods, is the only such value, is unchanged by adding whole periods to a, and wrapping twice equals wrapping once.", "quantifier": "all angles, all intervals x1<x2, all integers k", "why_tests_cant": "the claim is over every real angle and every integer multiple of the period", "anchors": [{"file": "include/kindr/common/common.hpp", "symbols": ["wrapAngle", "wrapPosNegPI", "wrapTwoPI"]}]}
{"id": "C03", "title": "The modulo range survives arbitrary rounding errors", "statement": "Whatever value m in [-y, +inf) the rounded evaluation of x - y*floor(x/y) produces, and whatever monotone rounding is used for the final y+m, the value returned for a positive representable divisor y is in [0,y): never negative, never equal to y.", "quantifier": "all rounding functions, all intermediate values m >= -y, all positive representable y", "why_tests_cant": "rounding errors are input-dependent; tests exercise only a handful of roundings", "anchors": [{"file": "include/kindr/common/common.hpp", "symbols": ["floatingPointModulo"]}]}
{"id": "C04", "title": "Skew-symmetric matrix and vector are inverse views of the same cross product", "statement": "getSkewMatrixFromVector(v)*u equals v x u, is antisymmetric and linear in v; getVectorFromSkewMatrix(getSkewMatrixFromVector(v)) = v; getSkewMatrixFromVector(getVectorFromSkewMatrix(M)) = M exactly for the antisymmetric M.", "quantifier": "all 3-vectors and all 3x3 matrices", "why_tests_cant": "universal over a 3-/9-dimensional continuum", "anchors": [{"file": "include/kindr/math/LinearAlgebra.hpp", "symbols": ["getSkewMatrixFromVector", "getVectorFromSkewMatrix"]}]}
{"id": "C05", "title": "Quaternion arithmetic is Hamilton's quaternion algebra", "statement": "Quaternion product is associative with identity (1,0,0,0), conjugation reverses products, the norm is multiplicative, every nonzero quaternion has inverted() as a two-sided inverse (zero maps to zero), and getQuaternionMatrix / getConjugateQuaternionMatrix applied to the coefficient vector give the left/right product.", "quantifier": "all quaternions", "why_tests_cant": "polynomial identities over all of R^4 x R^4 x R^4", "anchors": [{"file": "include/kindr/quaternions/Quaternion.hpp", "symbols": ["Quaternion::inverted", "Quaternion::conjugated", "getQuaternionMatrix", "getConjugateQuaternionMatrix"]}, {"file": "include/kindr/quaternions/QuaternionBase.hpp", "symbols": ["operator*"]}]}
{"id": "C06", "title": "Operations on unit quaternions keep unit length and yield group operations", "statement": "Products, inverted() and conjugated() of unit quaternions are unit quaternions; inverted() equals conjugated() and is a two-sided inverse; toUnitQuaternion()/normalized() of a nonzero quaternion has norm one and the same direction; the default constructor, setIdentity() and Identity() of UnitQuaternion and of RotationQuaternion all give the neutral element.", "quantifier": "all unit quaternions; all nonzero quaternions; all sequences of products and inversions", "why_tests_cant": "closure must hold along every history of operations", "anchors": [{"file": "include/kindr/quaternions/Quaternion.hpp", "symbols": ["UnitQuaternion", "Quaternion::normalized", "Quaternion::toUnitQuaternion"]}, {"file": "include/kindr/rotations/RotationQuaternion.hpp", "symbols": ["setIdentity", "Identity"]}]}
{"id": "C07", "title": "Converting between any two rotation parameterizations preserves the rotation", "statement": "For every ordered pair of the six parameterizations, constructing one from a valid instance of the other gives a representation of the same physical rotation (same textbook rotation matrix), outside the small-angle approximation branches.", "quantifier": "all 36 (destination, source) pairs and every valid source value, including gimbal lock, half turns and angles beyond 2 pi", "why_tests_cant": "branch structure (Shoemake, atan2 quadrants, gimbal lock) has measure-zero boundaries tests miss", "anchors": [{"file": "include/kindr/rotations/RotationQuaternion.hpp", "symbols": ["ConversionTraits"]}, {"file": "include/kindr/rotations/RotationMatrix.hpp", "symbols": ["ConversionTraits"]}, {"file": "include/kindr/rotations/AngleAxis.hpp", "symbols": ["ConversionTraits"]}, {"file": "include/kindr/rotations/RotationVector.hpp", "symbols": ["ConversionTraits"]}, {"file": "include/kindr/rotations/EulerAnglesXyz.hpp", "symbols": ["ConversionTraits"]}, {"file": "include/kindr/rotations/EulerAnglesZyx.hpp", "symbols": ["ConversionTraits"]}]}
{"id": "C08", "title": "Small-angle approximations in conversions have a uniformly bounded error", "statement": "In the approximation branches of RotationVector->RotationQuaternion, RotationQuaternion->RotationVector and RotationVector->AngleAxis the represented rotation differs from the exact one by at most an explicit bound determined by the scalar type's thresholds.", "quantifier": "every rotation vector / unit quaternion inside the approximation branch", "why_tests_cant": "the error bound is a supremum over a continuum of inputs", "anchors": [{"file": "include/kindr/rotations/RotationQuaternion.hpp", "symbols": ["isLessThenEpsilons4thRoot", "ConversionTraits<RotationQuaternion, RotationVector>"]}, {"file": "include/kindr/rotations/RotationVector.hpp", "symbols": ["ConversionTraits<RotationVector, RotationQuaternion>"]}, {"file": "include/kindr/rotations/AngleAxis.hpp", "symbols": ["ConversionTraits<AngleAxis, RotationVector>"]}]}
{"id": "C09", "title": "Conversions produce admissible values", "statement": "Conversion results satisfy the representation invariant of their type: unit quaternions, proper orthogonal matrices, unit axes with angle in [0,pi] when built from quaternions or matrices; so the debug-mode constructor assertions never fire on them.", "quantifier": "every valid source value outside the small-angle branches", "why_tests_cant": "an invariant over all inputs of every conversion", "anchors": [{"file": "include/kindr/rotations/RotationQuaternion.hpp", "symbols": ["RotationQuaternion"]}, {"file": "include/kindr/rotations/RotationMatrix.hpp", "symbols": ["RotationMatrix"]}, {"file": "include/kindr/rotations/AngleAxis.hpp", "symbols": ["AngleAxis"]}]}
{"id": "C10", "title": "rotate() is an orientation-preserving linear isometry undone by inverseRotate()", "statement": "For each parameterization, rotate() is linear, preserves dot products and norms and cross products, and inverseRotate(rotate(v)) = rotate(inverseRotate(v)) = v.", "quantifier": "all valid rotations of all six types, all vectors; exact outside the small-angle branch of rotation vectors, linear everywhere, and within eps/400 of exact inside that branch", "why_tests_cant": "quantifies over the whole rotation group and all vectors", "anchors": [{"file": "include/kindr/rotations/RotationBase.hpp", "symbols": ["rotate", "inverseRotate"]}, {"file": "include/kindr/rotations/RotationImpl.hpp", "symbols": ["RotationTraits"]}]}
{"id": "C11", "title": "Concatenation agrees with successive rotation and is associative", "statement": "(A*B).rotate(v) = A.rotate(B.rotate(v)) for any two parameterizations (the result taking the left one's type), and A*(B*C) and (A*B)*C represent the same rotation.", "quantifier": "all pairs/triples of types and values, all vectors (exactly, except that rotation vectors which are nonzero but below the small-angle thresholds are approximated by the code: there the deviation is bounded by C59)", "why_tests_cant": "36 type pairs times a 6-dimensional continuum", "anchors": [{"file": "include/kindr/rotations/RotationBase.hpp", "symbols": ["operator*"]}, {"file": "include/kindr/rotations/RotationImpl.hpp", "symbols": ["MultiplicationTraits"]}, {"file": "include/kindr/rotations/RotationMatrix.hpp", "symbols": ["MultiplicationTraits"]}]}
{"id": "C12", "title": "inverted() is the group inverse for every parameterization", "statement": "A*A.inverted() and A.inverted()*A represent the identity rotation, A.inverted().rotate undoes A.rotate, and inverting twice gives back the same rotation.", "quantifier": "all valid rotations of all six types (exactly, except that rotation vectors which are nonzero but below the small-angle thresholds are approximated by the code: there the deviation is bounded by C59)", "why_tests_cant": "universal over the rotation group", "anchors": [{"file": "include/kindr/rotations/RotationMatrix.hpp", "symbols": ["inverted"]}, {"file": "include/kindr/rotations/AngleAxis.hpp", "symbols": ["inverted"]}, {"file": "include/kindr/rotations/RotationVector.hpp", "symbols": ["inverted"]}, {"file": "include/kindr/rotations/EulerAnglesXyz.hpp", "symbols": ["inverted"]}, {"file": "include/kindr/rotations/EulerAnglesZyx.hpp", "symbols": ["inverted"]}, {"file": "include/kindr/rotations/RotationQuaternion.hpp", "symbols": ["inverted"]}]}
{"id": "C13", "title": "Default-constructed and setIdentity() rotations are neutral", "statement": "For every parameterization the default constructor, setIdentity() and Identity() give a rotation that leaves every vector unchanged and is neutral for concatenation on either side.", "quantifier": "all six types, all other rotations, all vectors (exactly, except that rotation vectors which are nonzero but below the small-angle thresholds are approximated by the code: there the deviation is bounded by C59)", "why_tests_cant": "neutrality is a statement about all other elements", "anchors": [{"file": "include/kindr/rotations/RotationBase.hpp", "symbols": ["operator*"]}, {"file": "include/kindr/rotations/EulerAnglesXyz.hpp", "symbols": ["setIdentity"]}, {"file": "include/kindr/rotations/AngleAxis.hpp", "symbols": ["setIdentity"]}]}
{"id": "C14", "title": "RotationQuaternion::getUnique is a canonical form and operator== decides equality of rotations", "statement": "getUnique() represents the same rotation, is idempotent, and two unit quaternions represent the same rotation iff their getUnique() are identical iff operator== returns true (in particular q == -q).", "quantifier": "all pairs of unit quaternions", "why_tests_cant": "iff over all pairs; the w=0, x=0, y=0 strata have measure zero", "anchors": [{"file": "include/kindr/rotations/RotationQuaternion.hpp", "symbols": ["getUnique", "ComparisonTraits"]}, {"file": "include/kindr/rotations/RotationBase.hpp", "symbols": ["operator=="]}]}
{"id": "C15", "title": "AngleAxis::getUnique is a canonical form", "statement": "getUnique() of a unit-axis angle-axis represents the same rotation, has angle in [0,pi], and two angle-axis values represent the same rotation iff their unique forms coincide.", "quantifier": "all angles and unit axes", "why_tests_cant": "the whole real line of angles times the sphere, with exceptional angles 0 and pi", "anchors": [{"file": "include/kindr/rotations/AngleAxis.hpp", "symbols": ["getUnique", "setUnique"]}]}
{"id": "C16", "title": "RotationVector::getUnique gives the shortest rotation vector", "statement": "getUnique() represents the same rotation and has norm at most pi, and equal rotations get equal unique vectors (outside the small-norm cut-off, where the result is the zero vector).", "quantifier": "all rotation vectors", "why_tests_cant": "all vectors of R^3 of arbitrary length", "anchors": [{"file": "include/kindr/rotations/RotationVector.hpp", "symbols": ["getUnique"]}]}
{"id": "C17", "title": "EulerAnglesXyz::getUnique preserves the rotation", "statement": "getUnique() represents the same rotation and has pitch in [-pi/2,pi/2] and roll, yaw in [-pi,pi).", "quantifier": "all triples of angles", "why_tests_cant": "the gimbal-lock band is thin and reached only by particular inputs", "anchors": [{"file": "include/kindr/rotations/EulerAnglesXyz.hpp", "symbols": ["getUnique", "setUnique"]}]}
{"id": "C18", "title": "EulerAnglesZyx::getUnique preserves the rotation", "statement": "getUnique() represents the same rotation and has pitch in [-pi/2,pi/2] and roll, yaw in [-pi,pi).", "quantifier": "all triples of angles", "why_tests_cant": "the gimbal-lock band is thin and reached only by particular inputs", "anchors": [{"file": "include/kindr/rotations/EulerAnglesZyx.hpp", "symbols": ["getUnique", "setUnique"]}]}
{"id": "C19", "title": "The disparity angle is a bi-invariant metric on rotations", "statement": "getDisparityAngle is in [0,pi], is the rotation angle of A*B^-1 (trace = 1+2cos), is zero iff A and B represent the same rotation, is symmetric, is unchanged when both arguments are multiplied by a common rotation on either side, and satisfies the triangle inequality.", "quantifier": "all pairs/triples of rotations of any parameterization (exactly, except that rotation vectors which are nonzero but below the small-angle thresholds are approximated by the code: there the deviation is bounded by C59)", "why_tests_cant": "metric axioms quantify over all pairs and triples", "anchors": [{"file": "include/kindr/rotations/RotationImpl.hpp", "symbols": ["DisparityAngleTraits"]}, {"file": "include/kindr/rotations/RotationBase.hpp", "symbols": ["getDisparityAngle"]}]}
{"id": "C20", "title": "isNear is the closed ball of the disparity metric", "statement": "isNear(other,tol) holds iff the disparity angle is at most tol: it is reflexive for tol>=0, symmetric, always true for tol>=pi, false for tol<0, monotone in tol, and with tol=0 means equality of rotations.", "quantifier": "all rotations and tolerances (exactly, except that rotation vectors which are nonzero but below the small-angle thresholds are approximated by the code: there the deviation is bounded by C59)", "why_tests_cant": "universal over rotations and tolerances", "anchors": [{"file": "include/kindr/rotations/RotationBase.hpp", "symbols": ["isNear"]}]}
{"id": "C21", "title": "Exponential and logarithmic maps are mutually inverse", "statement": "exponentialMap(R.logarithmicMap()) represents R; exponentialMap(v).logarithmicMap() = v whenever the small-angle thresholds are exceeded and |v| < pi; exponentialMap(v) is the matrix exponential of skew(v); the logarithm has norm at most pi.", "quantifier": "all rotations of all types, all vectors in the stated range; outside the small-angle branches, inside which C08 and C59 bound the error", "why_tests_cant": "universal over the group and its tangent space", "anchors": [{"file": "include/kindr/rotations/RotationImpl.hpp", "symbols": ["MapTraits"]}, {"file": "include/kindr/rotations/RotationBase.hpp", "symbols": ["exponentialMap", "logarithmicMap"]}]}
{"id": "C22", "title": "boxPlus and boxMinus are inverse to each other", "statement": "B.boxPlus(A.boxMinus(B)) represents A for all A,B; (A.boxPlus(v)).boxMinus(A) = v for |v| < pi; |A.boxMinus(B)| is the disparity angle; A.boxPlus(0) = A.", "quantifier": "all pairs of rotations and types, all tangent vectors; outside the small-angle branches, inside which C59 and C76 bound the error", "why_tests_cant": "universal over group and tangent space", "anchors": [{"file": "include/kindr/rotations/RotationImpl.hpp", "symbols": ["BoxOperationTraits"]}, {"file": "include/kindr/rotations/RotationBase.hpp", "symbols": ["boxPlus", "boxMinus"]}]}
{"id": "C23", "title": "interpolate follows the shortest geodesic between its end points", "statement": "interpolate(other,r) equals this for r<=0, equals other for r>=1, and for r in [0,1] the disparity angle to this is r times the disparity angle between the end points and to other is (1-r) times it.", "quantifier": "all pairs of rotations, all real ratios; outside the small-angle branches, inside which C59 bounds the error", "why_tests_cant": "universal over pairs and ratios", "anchors": [{"file": "include/kindr/rotations/RotationBase.hpp", "symbols": ["interpolate"]}]}
{"id": "C24", "title": "setFromVectors produces a rotation aligning the first vector with the second", "statement": "If either vector is zero an exception is thrown; otherwise the resulting rotation maps v1/|v1| to v2/|v2| (also when they are opposite).", "quantifier": "all pairs of 3-vectors", "why_tests_cant": "includes the measure-zero antiparallel case", "anchors": [{"file": "include/kindr/rotations/RotationImpl.hpp", "symbols": ["SetFromVectorsTraits"]}, {"file": "include/kindr/rotations/RotationBase.hpp", "symbols": ["setFromVectors"]}]}
{"id": "C25", "title": "fix() restores the representation invariant", "statement": "After fix(), a nonzero quaternion has unit norm, an angle-axis with nonzero axis has a unit axis, and a rotation matrix is a proper rotation; fix() leaves admissible values unchanged.", "quantifier": "all (drifted) values", "why_tests_cant": "quantifies over all drifted states reachable by accumulated error", "anchors": [{"file": "include/kindr/rotations/RotationQuaternion.hpp", "symbols": ["FixingTraits"]}, {"file": "include/kindr/rotations/AngleAxis.hpp", "symbols": ["FixingTraits"]}, {"file": "include/kindr/rotations/RotationMatrix.hpp", "symbols": ["FixingTraits"]}]}
{"id": "C26", "title": "Debug assertions accept every exact rotation and bound the deviation of whatever they accept", "statement": "In debug builds the constructors of RotationQuaternion, RotationMatrix and AngleAxis never throw on exact rotations, and anything they accept has norm within the documented relative tolerance of one.", "quantifier": "all constructor arguments", "why_tests_cant": "an iff over all inputs", "anchors": [{"file": "include/kindr/common/assert_macros_eigen.hpp", "symbols": ["compareRelative", "KINDR_ASSERT_SCALAR_NEAR_DBG", "KINDR_ASSERT_MATRIX_NEAR_DBG"]}, {"file": "include/kindr/rotations/RotationMatrix.hpp", "symbols": ["RotationMatrix"]}]}
{"id": "C27", "title": "Relative comparison is symmetric and reflexive; periodic comparison respects the period", "statement": "compareRelative(a,b,tol) is reflexive for tol>=0 and symmetric in a and b and monotone in tol; compareRelativePeriodic is unchanged by adding whole periods to either argument.", "quantifier": "all scalars, tolerances, periods", "why_tests_cant": "universal over scalars", "anchors": [{"file": "include/kindr/common/assert_macros_eigen.hpp", "symbols": ["compareRelative", "compareRelativePeriodic"]}]}
{"id": "C28", "title": "Local and global angular velocity convert into each other without loss", "statement": "LocalAngularVelocity(R, GlobalAngularVelocity(R, w)) = w and conversely; the two describe the same vector in different frames (global = R * local), norms agree.", "quantifier": "all rotations of all types, all angular velocities (exactly, except that rotation vectors which are nonzero but below the small-angle thresholds are approximated by the code: there the deviation is bounded by C59)", "why_tests_cant": "universal over rotations and vectors", "anchors": [{"file": "include/kindr/rotations/LocalAngularVelocity.hpp", "symbols": ["RotationDiffConversionTraits"]}, {"file": "include/kindr/rotations/GlobalAngularVelocity.hpp", "symbols": ["RotationDiffConversionTraits"]}]}
{"id": "C29", "title": "Quaternion derivatives and angular velocities correspond", "statement": "For any differentiable unit-quaternion curve the local/global angular velocity obtained from RotationQuaternionDiff satisfies R' = R*skew(w_local) = skew(w_global)*R; converting back gives exactly the curve's derivative, and angular velocity -> quaternion diff -> angular velocity is the identity.", "quantifier": "all differentiable curves, all unit quaternions, all angular velocities", "why_tests_cant": "quantifies over all smooth motions", "anchors": [{"file": "include/kindr/rotations/RotationQuaternionDiff.hpp", "symbols": ["RotationDiffConversionTraits"]}, {"file": "include/kindr/rotations/RotationQuaternion.hpp", "symbols": ["getLocalQuaternionDiffMatrix", "getGlobalQuaternionDiffMatrix"]}]}
{"id": "C30", "title": "Rotation-matrix derivatives and angular velocities correspond", "statement": "For any differentiable curve of rotation matrices, R' = R*skew(w_local) = skew(w_global)*R with the converted velocities, and velocity -> matrix diff -> velocity is the identity.", "quantifier": "all differentiable curves in SO(3)", "why_tests_cant": "quantifies over all smooth motions", "anchors": [{"file": "include/kindr/rotations/RotationMatrixDiff.hpp", "symbols": ["RotationDiffConversionTraits"]}]}
{"id": "C31", "title": "EulerAnglesXyz rate mappings are the true kinematics", "statement": "For any differentiable triple of angles, the local/global angular velocity computed from the rates satisfies R' = R*skew(w_local) = skew(w_global)*R; the inverse mappings are two-sided inverses and throw exactly when cos(pitch)=0.", "quantifier": "all differentiable angle curves, all angles", "why_tests_cant": "quantifies over all smooth motions and the singular set", "anchors": [{"file": "include/kindr/rotations/EulerAnglesXyz.hpp", "symbols": ["getMappingFromDiffToLocalAngularVelocity", "getMappingFromLocalAngularVelocityToDiff", "getMappingFromGlobalAngularVelocityToDiff", "getMappingFromDiffToGlobalAngularVelocity"]}]}
{"id": "C32", "title": "EulerAnglesZyx rate mappings are the true kinematics", "statement": "For any differentiable yaw/pitch/roll, the local angular velocity computed from the rates satisfies R' = R*skew(w_local); the inverse mapping is a two-sided inverse and throws exactly when cos(pitch)=0.", "quantifier": "all differentiable angle curves, all angles", "why_tests_cant": "quantifies over all smooth motions and the singular set", "anchors": [{"file": "include/kindr/rotations/EulerAnglesZyx.hpp", "symbols": ["getMappingFromDiffToLocalAngularVelocity", "getMappingFromLocalAngularVelocityToDiff"]}]}
{"id": "C33", "title": "Second-derivative mappings are the time derivatives of the first-derivative mappings", "statement": "Along any differentiable angle curve the EulerAnglesXyzDiff second-derivative mapping matrices equal the time derivative of the corresponding rate mapping matrices; hence they give the angular acceleration from the second derivatives of the angles, and the second derivatives of the angles from the angular acceleration, exactly.", "quantifier": "all differentiable angle curves", "why_tests_cant": "derivative identities along all curves", "anchors": [{"file": "include/kindr/rotations/EulerAnglesXyzDiff.hpp", "symbols": ["getMappingFromLocalAngularVelocityToSecondDiff", "getMappingFromSecondDiffToLocalAngularVelocity", "getMappingFromGlobalAngularVelocityToSecondDiff", "getMappingFromSecondDiffToGlobalAngularVelocity"]}]}
{"id": "C34", "title": "Rotation derivatives form a vector space and their conversions are linear", "statement": "Sum, difference and scaling of rotation derivatives of the same kind (local/global angular velocities, matrix, quaternion and Euler rates where the operators exist) are componentwise and obey the vector-space laws; converting a derivative into an angular velocity (or back) at a fixed rotation is linear, so it commutes with sums and scalings.", "quantifier": "all derivative values of all kinds, all scalars, all rotations at which they are taken", "why_tests_cant": "universal over vectors and rotations", "anchors": [{"file": "include/kindr/rotations/LocalAngularVelocity.hpp", "symbols": ["operator+"]}, {"file": "include/kindr/rotations/GlobalAngularVelocity.hpp", "symbols": ["operator+"]}, {"file": "include/kindr/rotations/RotationDiffBase.hpp", "symbols": ["AdditionTraits"]}]}
{"id": "C35", "title": "getJacobianOfExponentialMap is the derivative of the exponential map", "statement": "For every differentiable curve v(t) with |v|>=1e-4, d/dt exp(skew v) = skew(J(v) v') * exp(skew v); J(v) v = v; for |v|<1e-4 the returned matrix differs from the exact Jacobian by an explicit bound.", "quantifier": "all rotation-vector curves", "why_tests_cant": "derivative identity at every point of R^3", "anchors": [{"file": "include/kindr/rotations/RotationDiff.hpp", "symbols": ["getJacobianOfExponentialMap"]}]}
{"id": "C36", "title": "Vector segment access behaves like an array", "statement": "setHead/setTail/setSegment followed by the corresponding getter returns the written values and leaves all other components unchanged; Zero, UnitX/Y/Z and the constructors have the documented components; ==/!= are componentwise.", "quantifier": "all dimensions, all segment positions and lengths, all values", "why_tests_cant": "all dimensions and index ranges", "anchors": [{"file": "include/kindr/vectors/Vector.hpp", "symbols": ["getHead", "getTail", "getSegment", "setHead", "setTail", "setSegment", "operator=="]}]}
{"id": "C37", "title": "Vector arithmetic is a real inner-product space", "statement": "+,-,*,/ , unary minus and the compound assignments agree and form a vector space; dot is bilinear, symmetric and positive definite; norm/squaredNorm/normalized satisfy |v|^2 = v.v, |v.w|<=|v||w|, |v/|v||=1; cross is bilinear, antisymmetric, orthogonal to both arguments; max/min/sum/mean/abs satisfy their order and sum laws.", "quantifier": "all dimensions, all vectors and scalars", "why_tests_cant": "universal over dimension and components", "anchors": [{"file": "include/kindr/vectors/Vector.hpp", "symbols": ["operator+", "operator*", "dot", "cross", "norm", "normalized", "mean", "max", "min"]}]}
{"id": "C38", "title": "projectOn is orthogonal projection; isSimilarTo is a tolerance relation", "statement": "a.projectOn(b) (b nonzero) is a multiple of b with a - a.projectOn(b) orthogonal to b, idempotent and norm-decreasing; a.isSimilarTo(b,tol) holds iff every component differs by less than tol, is symmetric, and tolerances add along chains.", "quantifier": "all dimensions, vectors, tolerances", "why_tests_cant": "universal over dimension and components", "anchors": [{"file": "include/kindr/vectors/Vector.hpp", "symbols": ["projectOn", "isSimilarTo"]}]}
{"id": "C39", "title": "The physical-type product table is consistent", "statement": "The result type of multiplying vectors is symmetric in the operand types, dividing a product type by one factor gives back the other factor, multiplication by Typeless keeps the type, and every non-Typeless table entry agrees with SI dimensions; a product or quotient has a named type exactly if a law of mechanics (time integration, lever arm, Newton-Euler) or scaling by a number gives it.", "quantifier": "all pairs of the physical types", "why_tests_cant": "the table is a compile-time artefact that unit tests instantiate only in a few places", "anchors": [{"file": "include/kindr/vectors/Vector.hpp", "symbols": ["KINDR_SPECIALIZE_PHYS_QUANT_RETURN_TYPE_A", "MultiplicationReturnTypeTrait", "DivisionReturnTypeTrait"]}, {"file": "include/kindr/phys_quant/PhysicalType.hpp", "symbols": ["PhysicalType"]}]}
{"id": "C40", "title": "Wrench is a six-dimensional vector space with force and torque parts", "statement": "setVector/getVector round-trip; force occupies the first and torque the last three components; +,-,* and compound forms act componentwise; == holds iff both parts agree; setZero gives the neutral element.", "quantifier": "all wrenches and scalars", "why_tests_cant": "universal over R^6", "anchors": [{"file": "include/kindr/phys_quant/Wrench.hpp", "symbols": ["Wrench"]}]}
{"id": "C41", "title": "Twists pack translational and rotational velocity without loss", "statement": "TwistLinearVelocityLocalAngularVelocity / ...GlobalAngularVelocity getVector/setVector round-trip with translation first and leave nothing unset; the generic getVector(rotation) of a twist gives the translational velocity followed by the body-frame (local) angular velocity of the motion.", "quantifier": "all twists", "why_tests_cant": "universal over R^6", "anchors": [{"file": "include/kindr/poses/Twist.hpp", "symbols": ["getVector", "setVector"]}]}
{"id": "C42", "title": "HomogeneousTransformation acts as a rigid-motion group", "statement": "(A*B).transform(p) = A.transform(B.transform(p)); composition is associative; the identity is neutral; inverseTransform undoes transform and vice versa; distances between transformed points are preserved.", "quantifier": "all transformations over all rotation types, all points (exactly, except that rotation vectors which are nonzero but below the small-angle thresholds are approximated by the code: there the deviation is bounded by C59)", "why_tests_cant": "universal over SE(3)", "anchors": [{"file": "include/kindr/poses/HomogeneousTransformation.hpp", "symbols": ["transform", "inverseTransform", "MultiplicationTraits"]}, {"file": "include/kindr/poses/Pose.hpp", "symbols": ["MultiplicationTraits"]}]}
{"id": "C43", "title": "getTransformationMatrix is a faithful homomorphism", "statement": "The 4x4 matrix of A*B is the product of the matrices of A and B; applied to (p,1) it gives (A.transform(p),1); its last row is (0,0,0,1); equal matrices mean equal position and same rotation.", "quantifier": "all pairs of transformations and points (exactly, except that rotation vectors which are nonzero but below the small-angle thresholds are approximated by the code: there the deviation is bounded by C59)", "why_tests_cant": "universal over SE(3)", "anchors": [{"file": "include/kindr/poses/HomogeneousTransformation.hpp", "symbols": ["getTransformationMatrix"]}]}
{"id": "C44", "title": "pseudoInverse computes the Moore-Penrose inverse", "statement": "Whenever every nonzero singular value exceeds the tolerance, the result satisfies all four Penrose equations; otherwise it is the Moore-Penrose inverse of the matrix with the sub-tolerance singular values removed; invertible well-conditioned matrices give their inverse.", "quantifier": "all matrix sizes, all matrices and valid SVDs of them", "why_tests_cant": "all dimensions and matrices", "anchors": [{"file": "include/kindr/math/LinearAlgebra.hpp", "symbols": ["pseudoInverse"]}]}
{"id": "C45", "title": "Component accessors address disjoint components in the documented order", "statement": "roll/pitch/yaw (x/y/z) setters of EulerAnglesXyz and EulerAnglesZyx change exactly their own component, getters read it back, vector() returns the documented storage order, and setVector/vector round-trip; the same holds for the accessors of RotationVector, AngleAxis and RotationQuaternion.", "quantifier": "all values, all finite sequences of setter calls", "why_tests_cant": "must hold after any history of setter calls", "anchors": [{"file": "include/kindr/rotations/EulerAnglesXyz.hpp", "symbols": ["setRoll", "setPitch", "setYaw", "setX", "setY", "setZ", "vector"]}, {"file": "include/kindr/rotations/EulerAnglesZyx.hpp", "symbols": ["setRoll", "setPitch", "setYaw", "setX", "setY", "setZ", "vector"]}]}
{"id": "C46", "title": "operator== between rotations of different types is symmetric and decides equality of rotations", "statement": "A == B for rotations of different parameterizations returns true iff they represent the same rotation, and A == B iff B == A.", "quantifier": "all pairs of types and values", "why_tests_cant": "iff over all pairs", "anchors": [{"file": "include/kindr/rotations/RotationBase.hpp", "symbols": ["operator=="]}, {"file": "include/kindr/rotations/RotationImpl.hpp", "symbols": ["ComparisonTraits"]}]}
{"id": "C47", "title": "Long histories of concatenations and inversions stay rotations and equal the product of their factors", "statement": "Folding any finite list of rotations (each possibly inverted) of arbitrary parameterizations with * yields a valid rotation whose action equals the composition of the individual actions.", "quantifier": "all finite lists of rotations (exactly, except that rotation vectors which are nonzero but below the small-angle thresholds are approximated by the code: there the deviation is bounded by C59)", "why_tests_cant": "unbounded histories", "anchors": [{"file": "include/kindr/rotations/RotationBase.hpp", "symbols": ["operator*", "inverted"]}]}
{"id": "C48", "title": "setRandom / getRandom yields an admissible rotation for every draw", "statement": "For whatever three numbers in [-pi,pi] the generator draws, the resulting rotation is admissible for its type and has rotation angle determined by the drawn vector.", "quantifier": "all draws of the generator", "why_tests_cant": "random inputs cannot be enumerated", "anchors": [{"file": "include/kindr/rotations/RotationImpl.hpp", "symbols": ["RandomTraits"]}, {"file": "include/kindr/common/common.hpp", "symbols": ["setUniformRandom"]}]}
{"id": "C49", "title": "AngleAxis operator== is an equivalence that decides equality of rotations", "statement": "For angle-axis values operator== is reflexive and symmetric, returns true for any two values of the same rotation, returns true only for rotations whose unique forms agree up to the stated relative tolerance, and is transitive.", "quantifier": "all pairs and triples of angle-axis values", "why_tests_cant": "the tolerance makes transitivity fail only along chains of nearby values that no fixed test set contains", "anchors": [{"file": "include/kindr/rotations/AngleAxis.hpp", "symbols": ["ComparisonTraits"]}, {"file": "include/kindr/common/assert_macros_eigen.hpp", "symbols": ["compareRelative"]}]}
{"id": "C50", "title": "Angular velocities of products and inverses compose as in rigid-body kinematics", "statement": "If A(t), B(t) are differentiable rotation curves with global angular velocities wA, wB then A*B has global angular velocity wA + A wB and local velocity B^-1 wA_local + wB_local; the inverse has velocity -A^-1 wA (global) and -A wA_local (local).", "quantifier": "all differentiable rotation curves of all types (rotation vectors: outside the small-angle thresholds), all times", "why_tests_cant": "must hold at every instant of every motion; tests check single finite differences", "anchors": [{"file": "include/kindr/rotations/RotationBase.hpp", "symbols": ["operator*", "inverted"]}, {"file": "include/kindr/rotations/RotationMatrixDiff.hpp", "symbols": ["RotationDiffConversionTraits"]}]}
{"id": "C51", "title": "The angular velocity does not depend on the parameterization it was computed from", "statement": "If a motion is described simultaneously by any of quaternion, matrix, EulerAnglesXyz or EulerAnglesZyx curves, the angular velocities computed from each representation's derivative are equal.", "quantifier": "all motions, all pairs of parameterizations with derivative classes", "why_tests_cant": "must hold for every motion and every pair of representations", "anchors": [{"file": "include/kindr/rotations/LocalAngularVelocity.hpp", "symbols": ["RotationDiffConversionTraits"]}, {"file": "include/kindr/rotations/GlobalAngularVelocity.hpp", "symbols": ["RotationDiffConversionTraits"]}]}
{"id": "C52", "title": "Multiplying a quaternion derivative by a constant rotation differentiates the product", "statement": "For a differentiable quaternion curve q(t) and a constant rotation p, p*RotationQuaternionDiff is the derivative of p*q and the local angular velocity obtained is unchanged.", "quantifier": "all curves, all constant rotations", "why_tests_cant": "must hold for every curve and every instant", "anchors": [{"file": "include/kindr/rotations/RotationDiff.hpp", "symbols": ["operator*"]}, {"file": "include/kindr/rotations/RotationQuaternionDiff.hpp", "symbols": ["RotationQuaternionDiff"]}]}
{"id": "C53", "title": "Adding angular velocities given in different frames converts to a common frame", "statement": "Adding a GlobalAngularVelocity to a LocalAngularVelocity (or vice versa) yields the sum of the two physical vectors expressed in the frame of the left operand.", "quantifier": "all pairs of angular velocities and all rotations between the frames", "why_tests_cant": "needs all rotations; a test at the identity rotation cannot see a missing frame change", "anchors": [{"file": "include/kindr/rotations/LocalAngularVelocity.hpp", "symbols": ["operator+"]}, {"file": "include/kindr/rotations/GlobalAngularVelocity.hpp", "symbols": ["operator+"]}]}
{"id": "C54", "title": "A twist gives the velocity of every body-fixed point", "statement": "For a moving HomogeneousTransformation T(t) with position derivative v and angular velocity w, the point T(t).transform(p) has velocity v + w x (R p) with the global twist and v + R (w_local x p) with the local one.", "quantifier": "all differentiable motions, all body points, all instants", "why_tests_cant": "universally quantified over motions and points", "anchors": [{"file": "include/kindr/poses/Twist.hpp", "symbols": ["Twist"]}, {"file": "include/kindr/poses/HomogeneousTransformation.hpp", "symbols": ["transform"]}]}
{"id": "C55", "title": "Chains of pose compositions of any length equal the composed rigid motion", "statement": "Folding any finite list of homogeneous transformations with * acts on every point as the composition of the individual motions and has as 4x4 matrix the product of the individual matrices.", "quantifier": "all finite lists of transformations over all rotation types, all points; exact outside the small-angle branches of rotation vectors, with an explicit error bound for every list", "why_tests_cant": "unbounded chain length", "anchors": [{"file": "include/kindr/poses/HomogeneousTransformation.hpp", "symbols": ["MultiplicationTraits"]}, {"file": "include/kindr/poses/PoseBase.hpp", "symbols": ["operator*"]}]}
{"id": "C56", "title": "Long histories of rounded products stay valid rotations", "statement": "Accumulating any finite list of unit quaternions (or rotation matrices) with * in floating-point arithmetic, where every elementary operation has relative error at most u, deviates from the exact product by at most (1+c u)^n - 1; for n u <= 1.2e-5 (quaternions: 1e11 products in double, 200 in float) and n u <= 5e-8 (matrices: 4e8 products in double) the result still passes the debug-build constructor checks.", "quantifier": "all finite histories of rotations of any length, all rounding functions with relative error u", "why_tests_cant": "unbounded histories and every rounding behaviour", "anchors": [{"file": "include/kindr/rotations/RotationQuaternion.hpp", "symbols": ["operator*"]}, {"file": "include/kindr/rotations/RotationBase.hpp", "symbols": ["operator*"]}, {"file": "include/kindr/rotations/RotationMatrix.hpp", "symbols": ["MultiplicationTraits"]}]}
{"id": "C57", "title": "fix() restores unit norm in floating point", "statement": "For every nonzero quaternion, fix() evaluated in floating point returns a quaternion whose norm is one up to 5u and whose components are the exactly normalized ones up to relative error 5u; the debug constructor accepts it.", "quantifier": "all nonzero quaternions, all rounding functions", "why_tests_cant": "all magnitudes and all roundings", "anchors": [{"file": "include/kindr/rotations/RotationQuaternion.hpp", "symbols": ["FixingTraits", "fix"]}]}
{"id": "C58", "title": "Rotating a vector in floating point is accurate for every vector", "statement": "rotate() of a unit quaternion evaluated in floating point differs from the exact rotation by at most 36u times the length of the vector (6u for rotation matrices) and preserves the length up to that; transform() of a pose is accurate up to (45|p|+9|t|)u.", "quantifier": "all unit quaternions / rotation matrices, all vectors, all positions, all rounding functions", "why_tests_cant": "all vectors and all roundings", "anchors": [{"file": "include/kindr/rotations/RotationImpl.hpp", "symbols": ["RotationTraits::rotate"]}, {"file": "include/kindr/poses/HomogeneousTransformation.hpp", "symbols": ["transform"]}]}
{"id": "C59", "title": "Uniform accuracy of every rotation operation on all valid inputs", "statement": "For every valid rotation of any class - including the tiny nonzero rotation vectors for which the library switches to series approximations or cut-offs - conversions, rotate/inverseRotate, concatenation, disparity angle, isNear, logarithmic map, boxPlus, boxMinus, interpolation and pose transformation/composition differ from the exact result by at most an explicit small multiple of dummy_precision and machine epsilon (times the vector length); a chain of n concatenations is off by at most n times the single-step error (class AngleAxis, RotationVector, Euler angles), or n*eps/300 for a quaternion accumulator.", "quantifier": "all six classes (or pairs of classes), all valid values, all vectors, all interpolation parameters, both scalar precisions, concatenation histories of any length and class mix", "why_tests_cant": "the approximation branches are selected by magnitude; a uniform error bound, and its linear growth along histories of arbitrary length, is a statement about a continuum of inputs", "anchors": [{"file": "include/kindr/rotations/RotationQuaternion.hpp", "symbols": ["ConversionTraits"]}, {"file": "include/kindr/rotations/RotationVector.hpp", "symbols": ["ConversionTraits", "getUnique"]}, {"file": "include/kindr/rotations/AngleAxis.hpp", "symbols": ["ConversionTraits"]}, {"file": "include/kindr/rotations/RotationImpl.hpp", "symbols": ["MultiplicationTraits", "DisparityAngleTraits", "MapTraits", "BoxOperationTraits"]}, {"file": "include/kindr/poses/HomogeneousTransformation.hpp", "symbols": ["transform", "inverseTransform", "operator*"]}]}
{"id": "C60", "title": "Error amplification of RotationMatrix times another class (finding)", "statement": "Multiplying a RotationMatrix with a rotation of another class converts matrix -> quaternion -> matrix without normalization. Each multiplication, even with the identity quaternion, multiplies the matrix's deviation from orthogonality by tan^2 of half its rotation angle; consequently for every delta > 0 there is a matrix within delta of an exact rotation (accepted by the debug-build constructor) that is moved by more than 0.4 after finitely many multiplications with the identity.", "quantifier": "all perturbation sizes delta > 0, all (w,x) in the amplification law, number of multiplications unbounded", "why_tests_cant": "a unit test multiplies once or a few times and sees errors of rounding size; the divergence needs a long history and is a limit statement (for all delta there is an n)", "anchors": [{"file": "include/kindr/rotations/RotationImpl.hpp", "symbols": ["MultiplicationTraits"]}, {"file": "include/kindr/rotations/RotationQuaternion.hpp", "symbols": ["ConversionTraits"]}, {"file": "include/kindr/rotations/RotationMatrix.hpp", "symbols": ["ConversionTraits"]}]}
{"id": "C61", "title": "Matlab: elementary rotations and Euler maps are the rotations their names say", "statement": "For every angle and vector, getRotationMatrixX/Y/Z(a)*v is the vector v turned by a about that axis, and mapEulerAngles{XYZ,ZYX,ZYZ,ZXZ}ToRotationMatrix(angles)*v applies the three elementary rotations in the named order. Symbolic input is exact. Numeric input deviates by at most 2 eps |v| (elementary) and 7 eps |v| (Euler maps), because a cosine or sine within eps of an integer, and no other, is replaced by that integer.", "quantifier": "every angle (triple), every vector, symbolic or numeric input", "why_tests_cant": "The rounding of near-integer coefficients acts only in tiny intervals around multiples of pi/2; a test grid sees a handful of points.", "anchors": [{"file": "matlab/core/getRotationMatrixX.m", "symbols": ["getRotationMatrixX"]}, {"file": "matlab/core/getRotationMatrixY.m", "symbols": ["getRotationMatrixY"]}, {"file": "matlab/core/getRotationMatrixZ.m", "symbols": ["getRotationMatrixZ"]}, {"file": "matlab/core/mapEulerAnglesXYZToRotationMatrix.m", "symbols": ["mapEulerAnglesXYZToRotationMatrix"]}, {"file": "matlab/core/mapEulerAnglesZYXToRotationMatrix.m", "symbols": ["mapEulerAnglesZYXToRotationMatrix"]}, {"file": "matlab/core/mapEulerAnglesZYZToRotationMatrix.m", "symbols": ["mapEulerAnglesZYZToRotationMatrix"]}, {"file": "matlab/core/mapEulerAnglesZXZToRotationMatrix.m", "symbols": ["mapEulerAnglesZXZToRotationMatrix"]}]}
{"id": "C62", "title": "Matlab: Euler angles extracted from a rotation matrix reproduce it exactly off gimbal lock", "statement": "For every rotation matrix that is not in gimbal lock of the convention, mapping getEulAng{XYZ,ZYX,ZYZ,ZXZ}FromRotationMatrix(C) back gives C; angles in the open standard range are recovered from their matrix; all results lie in the documented ranges. At gimbal lock the extraction is constant along the whole circle of locked rotations, so for each convention there are rotation matrices that are not reproduced.", "quantifier": "every rotation matrix / every triple of angles in range", "why_tests_cant": "Needs every branch of atan2 over the whole rotation group, including the lock set of measure zero.", "anchors": [{"file": "matlab/core/getEulAngXYZFromRotationMatrix.m", "symbols": ["getEulAngXYZFromRotationMatrix"]}, {"file": "matlab/core/getEulAngZYXFromRotationMatrix.m", "symbols": ["getEulAngZYXFromRotationMatrix"]}, {"file": "matlab/core/getEulAngZYZFromRotationMatrix.m", "symbols": ["getEulAngZYZFromRotationMatrix"]}, {"file": "matlab/core/getEulAngZXZFromRotationMatrix.m", "symbols": ["getEulAngZXZFromRotationMatrix"]}]}
{"id": "C63", "title": "Matlab: Euler-rate matrices map angle rates to the angular velocity of the motion", "statement": "For every differentiable motion in ZYX angles, getMapEulAngZYXDiffToAngVelInWorldFrame / ...InBaseFrame times the rates is the angular velocity in world / body coordinates; likewise the ZXZ world-frame matrix; and getMapEulAngZYXDDiffToAngAccInWorldFrame supplies the missing term of the angular acceleration. Two functions do not: the ZYZ world-frame matrix gives a velocity off by exactly sqrt(2)|dz2| for every motion, and the ZYX base-frame acceleration matrix is not the derivative of the base-frame rate matrix even when handed the true angular velocity.", "quantifier": "every differentiable (twice differentiable) motion and time instant", "why_tests_cant": "The claim is about derivatives along arbitrary motions.", "anchors": [{"file": "matlab/core/getMapEulAngZYXDiffToAngVelInWorldFrame.m", "symbols": ["getMapEulAngZYXDiffToAngVelInWorldFrame"]}, {"file": "matlab/core/getMapEulAngZYXDiffToAngVelInBaseFrame.m", "symbols": ["getMapEulAngZYXDiffToAngVelInBaseFrame"]}, {"file": "matlab/core/getMapEulAngZXZDiffToAngVelInWorldFrame.m", "symbols": ["getMapEulAngZXZDiffToAngVelInWorldFrame"]}, {"file": "matlab/core/getMapEulAngZYZDiffToAngVelInWorldFrame.m", "symbols": ["getMapEulAngZYZDiffToAngVelInWorldFrame"]}, {"file": "matlab/core/getMapEulAngZYXDDiffToAngAccInWorldFrame.m", "symbols": ["getMapEulAngZYXDDiffToAngAccInWorldFrame"]}, {"file": "matlab/core/getMapEulAngZYXDDiffToAngAccInBaseFrame.m", "symbols": ["getMapEulAngZYXDDiffToAngAccInBaseFrame"]}]}
{"id": "C64", "title": "Matlab: isRotationMatrix accepts exactly near-orthogonal matrices, of either handedness", "statement": "isRotationMatrix accepts every rotation matrix; every accepted matrix is orthogonal up to 1e-10 in spectral norm and has determinant within 1e-9 of +1 or of -1. The one-sided determinant test also accepts every reflection (orthogonal, determinant -1).", "quantifier": "every 3x3 matrix, for any function satisfying the contract of the spectral norm", "why_tests_cant": "Acceptance must be bounded for every matrix, not only the sampled ones.", "anchors": [{"file": "matlab/core/isRotationMatrix.m", "symbols": ["isRotationMatrix"]}]}
{"id": "C65", "title": "Matlab: angle-axis and quaternion of a rotation matrix are correct, and undefined exactly at the identity and half turns", "statement": "For every rotation matrix C, getAngleAxisFromRotationMatrix(C) fails (division by zero) exactly if C is the identity or a half turn; otherwise it returns the rotation angle in (0, pi) and a unit axis whose Rodrigues rotation is C, and mapRotationMatrixToQuaternion(C) is a unit quaternion with positive real part representing C, failing on the same set.", "quantifier": "every rotation matrix", "why_tests_cant": "Requires all rotations, including the singular set on which random tests never land.", "anchors": [{"file": "matlab/core/getAngleAxisFromRotationMatrix.m", "symbols": ["getAngleAxisFromRotationMatrix"]}, {"file": "matlab/core/mapAngleAxisToQuaternion.m", "symbols": ["mapAngleAxisToQuaternion"]}, {"file": "matlab/core/mapRotationMatrixToQuaternion.m", "symbols": ["mapRotationMatrixToQuaternion"]}]}
{"id": "C66", "title": "Matlab: quaternion, rotation-vector and skew maps represent the same rotation", "statement": "rotateVectorUsingQuaternion(q,v) equals mapQuaternionToRotationMatrix(q)*v for every q, and for unit q it is the sandwich product and the matrix is in SO(3). mapRotationQuaternionToRotationVector of a unit quaternion represents the same rotation exactly unless the vector part is shorter than eps, then within eps^2, and has length at most 2 pi. mapRotationVectorToRotationMatrix(phi) is the matrix exponential of the cross-product matrix of phi unless |phi| < eps, then within eps^2. skew(v)*u = v x u, unskew inverts skew, and skew inverts unskew exactly on antisymmetric matrices.", "quantifier": "every quaternion, rotation vector, vector and matrix", "why_tests_cant": "The series branch acts only below eps and the sign of the real part matters everywhere.", "anchors": [{"file": "matlab/core/rotateVectorUsingQuaternion.m", "symbols": ["rotateVectorUsingQuaternion"]}, {"file": "matlab/core/mapQuaternionToRotationMatrix.m", "symbols": ["mapQuaternionToRotationMatrix"]}, {"file": "matlab/core/mapRotationQuaternionToRotationVector.m", "symbols": ["mapRotationQuaternionToRotationVector"]}, {"file": "matlab/core/mapRotationVectorToRotationMatrix.m", "symbols": ["mapRotationVectorToRotationMatrix"]}, {"file": "matlab/core/skew.m", "symbols": ["skew"]}, {"file": "matlab/core/unskew.m", "symbols": ["unskew"]}]}
{"id": "C67", "title": "Matlab: boxPlus and boxMinus invert each other and agree with the C++ library", "statement": "For rotation matrices, boxPlus(C, d) is a rotation at angular distance at most |d| from C, boxMinus(boxPlus(C,d),C) = d whenever |d| < pi, boxPlus(C2, boxMinus(C1,C2)) = C1 whenever the two are less than a half turn apart, |boxMinus(C1,C2)| is their angular distance, and both agree with the C++ boxPlus / boxMinus of every rotation class.", "quantifier": "every pair of rotations, every perturbation, for any expm / logm meeting the contract of the matrix exponential and principal logarithm", "why_tests_cant": "Inverse laws on a manifold with a cut locus, for arbitrary arguments, and agreement between two languages.", "anchors": [{"file": "matlab/core/boxPlus.m", "symbols": ["boxPlus"]}, {"file": "matlab/core/boxMinus.m", "symbols": ["boxMinus"]}, {"file": "matlab/core/mapRotationMatrixToRotationVector.m", "symbols": ["mapRotationMatrixToRotationVector"]}, {"file": "include/kindr/rotations/RotationBase.hpp", "symbols": ["boxPlus", "boxMinus"]}]}
{"id": "C68", "title": "Matlab: numerical_jacobian and getTimeDerivative compute derivatives", "statement": "numerical_jacobian returns exactly the matrix of central differences with one coordinate perturbed at a time; it is exact for functions at most quadratic in each coordinate, within M delta^2/6 of the true partial derivative when the third derivative is bounded by M, and converges to the partial derivative as delta goes to 0 whenever that exists. getTimeDerivative and dMATdt return the total time derivative of every entry along every differentiable motion.", "quantifier": "every function of any dimensions, point, step, motion", "why_tests_cant": "Ranges over all functions and dimensions; the loop must reset the perturbation for every size.", "anchors": [{"file": "matlab/finite_differences/numerical_jacobian.m", "symbols": ["numerical_jacobian"]}, {"file": "matlab/core/getTimeDerivative.m", "symbols": ["getTimeDerivative"]}, {"file": "matlab/utils/dMATdt.m", "symbols": ["dMATdt"]}]}
{"id": "C69", "title": "Pose comparison decides equality of motions", "statement": "Two homogeneous transformations whose rotations are stored in the same class (any class but AngleAxis) compare equal with == exactly when they move every point of space to the same place; with a RotationMatrix pose on the left this also holds for every class on the right; for every pair of classes, poses that compare equal move every point alike. (The converse fails for a quaternion or Euler pose on the left: there is a pair of poses of the same motion that compares unequal.)", "quantifier": "all positions, all valid rotations of all classes (Euler angles outside the 1e-3 gimbal bands of getUnique, rotation vectors not in the small-angle regime), all points", "why_tests_cant": "Equality of motions quantifies over all points, and both directions over all pairs of poses, including different representations of one rotation.", "anchors": [{"file": "include/kindr/poses/Pose.hpp", "symbols": ["ComparisonTraits::isEqual"]}, {"file": "include/kindr/poses/PoseBase.hpp", "symbols": ["operator=="]}, {"file": "include/kindr/rotations/RotationBase.hpp", "symbols": ["operator=="]}]}
{"id": "C70", "title": "Quaternion disparity helper of the test tools is the geodesic distance", "statement": "calcRotationQuatDisparityAngle(q1, q2) is the angle of the rotation between q1 and q2 and equals getDisparityAngle; it is symmetric, independent of the signs of the quaternions, and zero exactly if both represent the same rotation.", "quantifier": "all pairs of unit quaternions", "why_tests_cant": "A test samples pairs; agreement of the acos formula with the atan2-based library function holds for all pairs, including antipodal and half-turn ones.", "anchors": [{"file": "include/kindr/common/gtest_eigen.hpp", "symbols": ["calcRotationQuatDisparityAngle", "calcRotationQuatDisparityAngleToIdentity"]}, {"file": "include/kindr/rotations/RotationImpl.hpp", "symbols": ["DisparityAngleTraits"]}]}
{"id": "C71", "title": "Relative comparison and debug checks on non-finite and overflowing values", "statement": "compareRelative(a, b, tol) is true whenever a or b is infinite or NaN; hence in debug builds the constructors of RotationQuaternion, AngleAxis and RotationMatrix do not reject non-finite coefficients (matrix: one in each row), nor finite quaternions whose squared coefficients overflow. On finite values without rounding the checks are those of the real-number contract.", "quantifier": "all values including infinities and NaN, all tolerances, all rounding/overflow behaviours of the arithmetic", "why_tests_cant": "The claim covers every combination of finite and non-finite operands and every overflow threshold.", "anchors": [{"file": "include/kindr/common/assert_macros_eigen.hpp", "symbols": ["compareRelative", "KINDR_ASSERT_SCALAR_NEAR_DBG", "KINDR_ASSERT_MATRIX_NEAR_DBG"]}, {"file": "include/kindr/rotations/RotationQuaternion.hpp", "symbols": ["RotationQuaternion"]}]}
{"id": "C72", "title": "Rotations containing NaN in getUnique, logarithmicMap, boxMinus and comparison", "statement": "logarithmicMap() of a rotation of any class with a NaN coefficient is the zero vector; getUnique() maps every AngleAxis with non-finite angle and every RotationVector with a non-finite coefficient to the identity, and these compare equal (==) to the identity and to each other; for quaternions with a NaN, boxMinus is zero while isNear and == are false. On valid finite rotations without rounding the functions are those of the real-number contract.", "quantifier": "all six rotation classes, all coefficient values including infinities and NaN, all rounding/overflow behaviours", "why_tests_cant": "Which coefficient is NaN and what the others are ranges over an infinite set; every conversion path must be followed.", "anchors": [{"file": "include/kindr/rotations/AngleAxis.hpp", "symbols": ["getUnique"]}, {"file": "include/kindr/rotations/RotationVector.hpp", "symbols": ["getUnique"]}, {"file": "include/kindr/rotations/RotationImpl.hpp", "symbols": ["MapTraits", "BoxOperationTraits", "DisparityAngleTraits"]}]}
{"id": "C73", "title": "Assertion macros check the relation in their name", "statement": "KINDR_ASSERT_TRUE/FALSE/GE_LT/LT/GE/LE/GT/EQ/NE throw exactly if the named relation fails, for all values that are not NaN, infinities included; KINDR_ASSERT_NEAR passes exactly within |abs_error|. A NaN value passes GE_LT, LT, GE, LE, GT and NE, and fails EQ and NEAR.", "quantifier": "all values and bounds, finite, infinite and NaN", "why_tests_cant": "Boundary values, infinities and NaN in every argument position of every macro.", "anchors": [{"file": "include/kindr/common/assert_macros.hpp", "symbols": ["KINDR_ASSERT_GE_LT", "KINDR_ASSERT_LT", "KINDR_ASSERT_NEAR", "KINDR_ASSERT_EQ"]}]}
{"id": "C74", "title": "Matrix assertions examine every coefficient", "statement": "Each matrix assertion (assertEqual, assertNear, KINDR_ASSERT_DOUBLE_MX_EQ*, KINDR_ASSERT_MATRIX_NEAR_DBG, KINDR_ASSERT_MAT_IS_FINITE) passes exactly if the sizes agree and every coefficient meets the criterion; otherwise it reports the size mismatch or the first offending position in row-major order. NaNs are rejected by all of them except the relative check, which a matrix of NaNs always passes.", "quantifier": "all matrix sizes (including empty), all coefficients, all tolerances", "why_tests_cant": "Sizes are unbounded; the proof is by induction over both loops.", "anchors": [{"file": "include/kindr/common/gtest_eigen.hpp", "symbols": ["assertEqual", "assertNear", "KINDR_ASSERT_DOUBLE_MX_EQ"]}, {"file": "include/kindr/common/assert_macros_eigen.hpp", "symbols": ["KINDR_ASSERT_MATRIX_NEAR_DBG", "KINDR_ASSERT_MAT_IS_FINITE"]}]}
{"id": "C75", "title": "Integrating an angular velocity with boxPlus follows the true motion", "statement": "For every list of increments, the loop `r = r.boxPlus(w)` ends within n times a fixed tiny constant of the exact composition of the exponentials. If the increments are h*w(t0+i*h) for the global angular velocity w of an actual motion, Lipschitz with constant L, the loop ends within delta + n*(L*h^2/2 + 6*(2*dp+eps)) of the true orientation, delta being the initial error; a constant velocity is integrated without discretization error for every step size.", "quantifier": "all six classes for the integrated value and for the motion, all motions with Lipschitz velocity, all step sizes and numbers of steps (quaternion and matrix: n*(2*dp+eps) <= 1/200), all increments including the small-angle region", "why_tests_cant": "quantifies over all motions and unboundedly many steps; a test can only integrate a few trajectories and cannot separate discretization from representation error", "anchors": [{"file": "include/kindr/rotations/RotationImpl.hpp", "symbols": ["BoxOperationTraits::box_plus", "MapTraits::get_exponential_map"]}, {"file": "include/kindr/rotations/RotationBase.hpp", "symbols": ["boxPlus"]}]}
{"id": "C76", "title": "Angular velocity by finite differences of orientations; boxMinus of boxPlus for all inputs", "statement": "q(t+h).boxMinus(q(t))/h equals the global angular velocity w(t) up to L*h + (4*dp+eps)/h whenever h*|w(t)| + L*h^2 <= 1/2; A.boxPlus(w).boxMinus(A) equals w up to 6*dp+32*eps for every w with |w| <= 1/2. The step cannot be made arbitrarily small: the logarithm of a rotation vector shorter than dp, or of a quaternion rotating by less than dp, is exactly zero.", "quantifier": "all motions of all six classes with Lipschitz velocity and all steps; all valid rotations and all vectors of length at most 1/2, including those below the small-angle thresholds", "why_tests_cant": "the bound must hold for every motion and every step down to the dead zone", "anchors": [{"file": "include/kindr/rotations/RotationImpl.hpp", "symbols": ["BoxOperationTraits::box_minus", "MapTraits::get_logarithmic_map"]}, {"file": "include/kindr/rotations/AngleAxis.hpp", "symbols": ["ConversionTraits<AngleAxis, RotationVector>"]}]}
{"id": "C77", "title": "Every program over rotation variables computes what exact rotation matrices would", "statement": "A user program that declares rotation variables of arbitrary classes and then assigns/converts, multiplies, inverts, sets identities, applies exponential maps and boxPlus, canonicalizes (not Euler angles), rotates and inversely rotates vectors, prints disparity angles and isNear decisions, prints exactly what the same program prints when executed on 3x3 matrices with matrix product, inverse and exponential; and all variables stay admissible. Side conditions concern only tiny nonzero rotations passing through rotation vectors and are void for programs without them.", "quantifier": "all programs (finite command lists of any length), all class declarations, all admissible initial values", "why_tests_cant": "ranges over all programs, i.e. all interleavings of API calls on aliasing variables of mixed classes", "anchors": [{"file": "include/kindr/rotations/RotationBase.hpp", "symbols": ["operator*", "inverted", "rotate", "inverseRotate", "getDisparityAngle", "isNear", "setUnique"]}, {"file": "include/kindr/rotations/RotationImpl.hpp", "symbols": ["MultiplicationTraits", "RotationTraits", "DisparityAngleTraits"]}]}
{"id": "C78", "title": "A floating-point orientation renormalized with fix() never drifts off the unit sphere", "statement": "After the loop `q = q*qi; q.fix();` in rounded arithmetic, the stored quaternion's norm is within 5 units of rounding of one, however long the loop ran, the debug-mode constructor accepts it, and it is within (27*n+5) units of rounding of the exact product of the directions of the factors, even if the factors themselves are not normalized.", "quantifier": "all nonzero start quaternions, all finite lists of nonzero factors, every arithmetic whose elementary operations have relative error at most u <= 2^-24", "why_tests_cant": "unboundedly long histories and every possible sequence of rounding errors", "anchors": [{"file": "include/kindr/rotations/RotationQuaternion.hpp", "symbols": ["FixingTraits", "fix"]}, {"file": "include/kindr/rotations/RotationBase.hpp", "symbols": ["fix"]}]}
{"id": "C79", "title": "Programs with branches and loops over rotations, poses and vectors behave like matrix programs at every step", "statement": "Take any program built from assignments between rotation, pose and vector variables of any declared classes (conversion, product, inverse, identity, exponential map, boxPlus, pose construction and component assignment, rotate, inverseRotate, transform, inverseTransform, vector arithmetic), print statements, branches and loops whose conditions are isNear, == or a vector length test. Run it once with the library and once with 3x3 and 4x4 matrices. After every number of steps, whether or not the program terminates, both runs have taken the same branches, have printed the same values, and the library variables hold admissible values that act exactly as the matrices do. Rotation vectors and exponential maps require that the values are not tiny nonzero rotations; == is between two quaternions or two rotation matrices; otherwise there is no condition.", "quantifier": "all programs (any nesting of branches and loops), all class declarations, all initial values, every number of steps, all scalar types", "why_tests_cant": "unbounded programs and executions, data-dependent control flow over all real inputs", "anchors": [{"file": "include/kindr/poses/HomogeneousTransformation.hpp", "symbols": ["HomogeneousTransformation", "transform", "inverseTransform", "getTransformationMatrix"]}, {"file": "include/kindr/rotations/RotationBase.hpp", "symbols": ["operator*", "inverted", "rotate", "isNear", "operator=="]}, {"file": "include/kindr/rotations/RotationImpl.hpp", "symbols": ["MultiplicationTraits", "RotationTraits"]}, {"file": "include/kindr/poses/Pose.hpp", "symbols": ["MultiplicationTraits"]}]}
{"id": "C80", "title": "Angle wrapping in float and double, with the rounding and the mixed precisions of the C++ expressions", "statement": "floatingPointModulo<T>, wrapTwoPI<T> and wrapPosNegPI<T> for T = float and double, with every operation rounded in the type the expression has, under any rounding mode: the modulo of a representable divisor y > 0 is a T value in [0,y], and in [0,y) when the whole expression is computed in T; a value already in range is returned unchanged; the result differs from x - k y (from the angle minus a multiple of the true 2 pi) by at most a small multiple of the unit roundoff times the size of the input. wrapPosNegPI<double> stays in [-M_PI, M_PI) and wrapTwoPI<double> in [0, 2 pi). For float, if the unqualified floor is the C function on double, tiny negative angles are wrapped to float(2 pi) itself, outside the documented range; otherwise the range holds.", "quantifier": "all representable inputs up to a magnitude bound (2^51 for double, 2^22 for float), all rounding modes (ranges of the wrap functions: round to nearest even), both overloads of floor", "why_tests_cant": "the boundary cases are single representable numbers out of 2^64, and the claim is about all rounding modes and type combinations", "anchors": [{"file": "include/kindr/common/common.hpp", "symbols": ["floatingPointModulo", "wrapPosNegPI", "wrapTwoPI"]}]}
{"id": "C81", "title": "Converting rotations and poses between float and double", "statement": "Constructing a rotation or a pose from one with another scalar type and possibly another class preserves what it does: within one class a rotated vector moves by at most 3 rounding errors of the destination type for quaternions and matrices, and by a number of rounding errors proportional to the stored angles for the other classes; the debug-mode constructor accepts the converted value, also when the norm in the check is itself evaluated with rounding; widening changes no stored number, and narrow-widen-narrow is the same as narrow, bit by bit; between different classes and scalar types the error is bounded by the small-angle thresholds of the two types plus a multiple of the destination's rounding error; converting a pose adds one rounding error of the position. With equal scalar types the typed conversion is the ordinary one.", "quantifier": "all six classes as source and destination, all rotations satisfying the class invariant, all vectors, every destination arithmetic with relative rounding error at most 2^-24 (exactness: every rounding mode of binary floats with any precision)", "why_tests_cant": "tests convert a few rotations with EXPECT_NEAR; the bound must hold for every rotation including half turns and gimbal lock where the intermediate angles jump", "anchors": [{"file": "include/kindr/rotations/RotationQuaternion.hpp", "symbols": ["ConversionTraits"]}, {"file": "include/kindr/rotations/RotationVector.hpp", "symbols": ["ConversionTraits"]}, {"file": "include/kindr/rotations/EulerAnglesXyz.hpp", "symbols": ["ConversionTraits"]}, {"file": "include/kindr/rotations/EulerAnglesZyx.hpp", "symbols": ["ConversionTraits"]}, {"file": "include/kindr/poses/HomogeneousTransformation.hpp", "symbols": ["HomogeneousTransformation(const PoseBase&)"]}, {"file": "include/kindr/vectors/Vector.hpp", "symbols": ["Vector(const Vector<Other>&)"]}]}
{"id": "C82", "title": "Whatever a debug build accepts is a rotation, in every representation", "statement": "If the debug-mode constructor of a rotation class accepts a stored value (quaternion of norm within 1e-4 of one, matrix with R R^T and det within 1e-6 of the identity, axis of norm within 1e-6 of one; rotation vectors and Euler angles always), then there is a proper rotation R such that the value's own action is within 1e-3 (quaternion) or 2e-5 (matrix, angle-axis) of R, rotate() likewise, and the conversion to every one of the six classes (to a rotation vector: unless the code divides zero by zero, see C84) is within a stated tolerance of the same R: no accepted value changes its meaning when it is converted, also near half turns and gimbal lock.", "quantifier": "all values accepted by the debug-mode check, all destination classes, all vectors, float and double thresholds", "why_tests_cant": "the accepted set has interior: it contains values that no test constructs, and conversions branch discontinuously on it", "anchors": [{"file": "include/kindr/rotations/RotationQuaternion.hpp", "symbols": ["RotationQuaternion(const PrimType_&, ...)"]}, {"file": "include/kindr/rotations/RotationMatrix.hpp", "symbols": ["RotationMatrix"]}, {"file": "include/kindr/rotations/AngleAxis.hpp", "symbols": ["AngleAxis"]}, {"file": "include/kindr/rotations/Rotation.hpp", "symbols": ["ConversionTraits"]}]}
{"id": "C83", "title": "The convention tests accept exactly the libraries that share kindr's conventions", "statement": "ConventionTest is run against a user's RotationConversion. (1) A library that converts rotations faithfully, rotates actively, concatenates in the order rot2*rot1 and adds velocities from the left passes all four tests; in particular each of the six kindr classes does. (2) If a library's matrices (or its rotateVector) are those of kindr or their inverses in any fixed orthogonal axes, and testGeometricalInterpretation passes, then they are not inverted and agree with kindr to 1e-4 for every rotation and vector. (3) Reversed concatenation is rejected by testConcatenation, transposed matrices by testRotationMatrix, local-velocity box plus by testBoxPlus. (4) Finding: the three tests the header asks for do not detect a change of axes; a library with rotated axes passes them although it rotates some vector to a point at distance at least 1 from kindr's.", "quantifier": "all implementations of RotationConversion (arbitrary types and functions), all rotations and vectors, float and double thresholds, six classes", "why_tests_cant": "this is a statement about the test suite itself: soundness and completeness over all foreign libraries", "anchors": [{"file": "include/kindr/rotations/gtest_rotations.hpp", "symbols": ["ConventionTest"]}, {"file": "include/kindr/rotations/RotationConversion.hpp", "symbols": ["RotationConversion"]}, {"file": "include/kindr/common/gtest_eigen.hpp", "symbols": ["KINDR_ASSERT_DOUBLE_MX_EQ"]}, {"file": "test/rotations/ConventionTest.cpp", "symbols": ["RotationConversion"]}]}
{"id": "C84", "title": "When the rotation vector of a quaternion or matrix is NaN", "statement": "RotationVector(q) is finite exactly when the vector part of q is nonzero or 1-w*w is below the dummy precision, and then it is the value described by the other properties; RotationVector(R) likewise through the quaternion of R. A norm within dp/3 of one is sufficient. Finding: if the vector part is exactly zero and 1-w*w is not below the threshold, all three coefficients are NaN in every arithmetic, although the debug-mode constructor accepts such quaternions (c,0,0,0) with 1-1e-4 <= c and, for double, matrices c*I with c within 3e-7 of one; logarithmicMap() of the same values is zero, and q.boxMinus(q) is zero for every q, because getUnique() turns NaN into the identity.", "quantifier": "all quaternions and matrices (normalized or not), all rounding and overflow behaviours (finding), float and double thresholds", "why_tests_cant": "the failing set has measure zero (exactly zero vector part) and is never hit by tests that use normalized values", "anchors": [{"file": "include/kindr/rotations/RotationVector.hpp", "symbols": ["ConversionTraits<RotationVector, RotationQuaternion>"]}, {"file": "include/kindr/rotations/RotationImpl.hpp", "symbols": ["LogarithmicMapTraits", "BoxMinusTraits"]}]}
{"id": "C85", "title": "Floating-point accuracy of the conversion table", "statement": "Computed in floating point (every operation rounded with relative error at most u, sin/cos within 2u, atan2 within 8u), all 36 conversions, rotate(), inverseRotate(), operator* and inverted() return numbers that stand for the intended rotation up to an explicit error table that is linear in u, in the size of the stored angles, in the deviation of the input from an exact representation and in the branch thresholds. There is no blow-up at half turns, at gimbal lock, at branch switches of the matrix-to-quaternion conversion, or at the negative real axis of atan2 whatever the sign of the zero. For exactly represented rotations with angles up to a full turn the total error in every rotated vector is below 2e-12 (double) and 4e-4 (float), relative to the vector. With u = 0 the rounded table is the exact table.", "quantifier": "all rotations of all classes, exact or slightly off, all vectors, every rounding and every library within the stated error bounds (float and double in particular)", "why_tests_cant": "the error bound must hold for every input including the measure-zero neighbourhoods of branch switches and gimbal lock, and for every rounding; tests sample a few angles on one machine", "anchors": [{"file": "include/kindr/rotations/RotationQuaternion.hpp", "symbols": ["ConversionTraits"]}, {"file": "include/kindr/rotations/RotationMatrix.hpp", "symbols": ["ConversionTraits", "MultiplicationTraits"]}, {"file": "include/kindr/rotations/AngleAxis.hpp", "symbols": ["ConversionTraits"]}, {"file": "include/kindr/rotations/RotationVector.hpp", "symbols": ["ConversionTraits"]}, {"file": "include/kindr/rotations/EulerAnglesXyz.hpp", "symbols": ["ConversionTraits"]}, {"file": "include/kindr/rotations/EulerAnglesZyx.hpp", "symbols": ["ConversionTraits"]}, {"file": "include/kindr/rotations/RotationImpl.hpp", "symbols": ["MultiplicationTraits", "RotationTraits"]}]}
{"id": "C86", "title": "Integration with boxPlus in floating point", "statement": "The program `for (w : increments) r = r.boxPlus(w);` computed in floating point ends within n times an explicit per-step constant of the exact composition of the rotations, in every one of the six classes, through gimbal lock and half turns; for quaternions and matrices (which boxPlus never normalizes) as long as n times the constant is at most 1/200, for the other four classes without a limit on n. Integrating the sampled angular velocity of a motion with Lipschitz constant L and step h adds n*L*h^2/2. In double the per-step constant is at most 5e-12 (1e-13 for quaternions and matrices, for 1e10 steps).", "quantifier": "every class, every start value (exact or rounded), every list of increments of at most 4 radian each, every motion with Lipschitz angular velocity, every rounding and library within the stated error bounds", "why_tests_cant": "the number of steps and the path are unbounded; a test integrates one motion for a fixed number of steps", "anchors": [{"file": "include/kindr/rotations/RotationImpl.hpp", "symbols": ["BoxOperationTraits::box_plus", "MapTraits::get_exponential_map"]}, {"file": "include/kindr/rotations/RotationBase.hpp", "symbols": ["boxPlus"]}]}
{"id": "C87", "title": "logarithmicMap, boxMinus, disparity angle, isNear and interpolate in floating point", "statement": "Computed in floating point (including the mixed float/double arithmetic of wrapPosNegPI), for every pair of the six classes and through gimbal lock and half turns: logarithmicMap returns a rotation vector of length at most pi (plus rounding) that stands for the rotation up to an explicit constant; a.boxMinus(b) is such a vector that takes b to a; a.getDisparityAngle(b) is the angle between the two rotations up to an explicit constant, so isNear is true for all pairs closer than the tolerance minus the constant and false for all pairs farther apart than the tolerance plus the constant; a.interpolate(b,t) is a followed by the fraction t (clamped to [0,1]) of a shortest rotation vector that takes a to b. In double the constants are 1e-11 for the vectors and 2e-11 for the disparity angle.", "quantifier": "every pair of classes, every value (exact or rounded) with the stated angle sizes, every ratio and tolerance, every rounding and library within the stated error bounds", "why_tests_cant": "tests compare a few rotations with a loose tolerance; the error near half turns, near the identity and at the branch switches of the wrap and of the conversions must be bounded for every input", "anchors": [{"file": "include/kindr/rotations/RotationImpl.hpp", "symbols": ["MapTraits::get_logarithmic_map", "BoxOperationTraits::box_minus", "DisparityAngleTraits::get_disparity_angle"]}, {"file": "include/kindr/rotations/RotationBase.hpp", "symbols": ["boxMinus", "isNear", "getDisparityAngle", "interpolate"]}, {"file": "include/kindr/rotations/AngleAxis.hpp", "symbols": ["getUnique"]}, {"file": "include/kindr/rotations/RotationVector.hpp", "symbols": ["getUnique"]}, {"file": "include/kindr/common/common.hpp", "symbols": ["wrapPosNegPI", "floatingPointModulo"]}]}
{"id": "C88", "title": "Poses in floating point: transform, inverseTransform and kinematic chains", "statement": "Computed in floating point, for a HomogeneousTransformation with any of the six rotation classes: transform and inverseTransform of a point are within an explicit constant (relative to the distance of the point) of the exact rigid motion; the program `for (S : l) T = T * S;` over poses of any rotation classes (only matrices, if T stores a matrix) gives a pose that takes every point where the motions applied one after the other take it, up to (n times a per-step constant + another constant) times (distance of the point + total length of the chain); and inverseTransform undoes transform. In double the per-step constant is 6e-14 for quaternions, 2e-15 for matrices and 3e-12 for the other classes, for up to 1e9 poses; the round trip is accurate to 3e-12*|p| + 2e-16*|t|.", "quantifier": "every rotation class, every valid pose and point, every list of valid poses of mixed classes, every rounding and library within the stated error bounds", "why_tests_cant": "the length of the chain, the poses and the point are unbounded; errors of rotations are amplified by the lever arm", "anchors": [{"file": "include/kindr/poses/HomogeneousTransformation.hpp", "symbols": ["TransformationTraits::transform", "TransformationTraits::inverseTransform", "MultiplicationTraits::mult"]}, {"file": "include/kindr/poses/Pose.hpp", "symbols": ["MultiplicationTraits::mult"]}, {"file": "include/kindr/poses/PoseBase.hpp", "symbols": ["transform", "inverseTransform", "operator*"]}]}
{"id": "C89", "title": "Time derivatives of rotations in floating point", "statement": "Computed in floating point: the local and global angular velocity obtained from quaternion rates or rotation-matrix rates, and the rates obtained from an angular velocity, agree with the true velocity/derivative of the moving rotation up to a relative error of a few units of rounding plus the error of the stored values; the same for Euler-angle rates, where rates from velocities lose a factor 1/cos^2(pitch) and never throw while the cosine of the pitch is above 1000(3u+eta); changing the frame of an angular velocity is accurate for every rotation class; the Jacobian of the exponential map at v is accurate to (22/|v| + 213)u above its switch-over at 1e-4 and to |v|^2/5 + 3.1u below. Moreover the gimbal-lock assertion of the rate mappings never fires for a representable pitch; and in float the Jacobian is exactly the identity for every v with computed norm between 1e-4 and 2^-12, losing the first-order term.", "quantifier": "every differentiable curve of rotations, every time, every stored approximation within the stated distance, every rounding and library within the stated error bounds", "why_tests_cant": "quantifies over all curves and all rounding behaviours; cancellation and the singular pitch are hit on sets no sample meets", "anchors": [{"file": "include/kindr/rotations/RotationQuaternionDiff.hpp", "symbols": ["RotationQuaternionDiff"]}, {"file": "include/kindr/rotations/RotationMatrixDiff.hpp", "symbols": ["RotationMatrixDiff"]}, {"file": "include/kindr/rotations/EulerAnglesXyzDiff.hpp", "symbols": ["getMappingFromLocalAngularVelocityToDiff", "getMappingFromDiffToLocalAngularVelocity", "getMappingFromDiffToGlobalAngularVelocity", "getMappingFromGlobalAngularVelocityToDiff"]}, {"file": "include/kindr/rotations/EulerAnglesZyxDiff.hpp", "symbols": ["getMappingFromLocalAngularVelocityToDiff", "getMappingFromDiffToLocalAngularVelocity"]}, {"file": "include/kindr/rotations/LocalAngularVelocity.hpp", "symbols": ["LocalAngularVelocity"]}, {"file": "include/kindr/rotations/GlobalAngularVelocity.hpp", "symbols": ["GlobalAngularVelocity"]}, {"file": "include/kindr/rotations/RotationDiff.hpp", "symbols": ["getJacobianOfExponentialMap"]}]}
{"id": "C90", "title": "getUnique() in floating point", "statement": "Computed in floating point (for float with the mixture of float and double the code uses), getUnique()/setUnique() changes the rotation by rounding errors only: not at all for quaternions (whose first nonzero coefficient becomes positive) and matrices, by 450u for angle-axis (angle then in [0,pi] up to rounding), by 1500u plus the code's thresholds for rotation vectors (length then at most pi), and by 1350u for Euler angles whose pitch is outside the 1e-3 band around gimbal lock (angles then in the documented ranges up to rounding). Inside the band EulerAnglesXyz changes the rotation by at most 2e-3 plus rounding, whereas EulerAnglesZyx changes it by twice the roll angle: in double, yaw 0, pitch 1.5707, roll 1.5 is moved by more than 2.9 rad.", "quantifier": "all stored values with angles up to 29 rad in total, exact or slightly off, every rounding and library within the stated error bounds", "why_tests_cant": "wrapping and the branch on the pitch are discontinuous; a bound must hold on both sides of every branch for every rounding", "anchors": [{"file": "include/kindr/rotations/RotationQuaternion.hpp", "symbols": ["getUnique"]}, {"file": "include/kindr/rotations/AngleAxis.hpp", "symbols": ["getUnique"]}, {"file": "include/kindr/rotations/RotationVector.hpp", "symbols": ["getUnique"]}, {"file": "include/kindr/rotations/EulerAnglesXyz.hpp", "symbols": ["getUnique"]}, {"file": "include/kindr/rotations/EulerAnglesZyx.hpp", "symbols": ["getUnique"]}, {"file": "include/kindr/common/common.hpp", "symbols": ["floatingPointModulo"]}]}
{"id": "C91", "title": "Whole programs in floating point", "statement": "Any sequence of assignments between classes, products, inverses, setIdentity(), exponential maps, boxPlus, setUnique(), rotate, inverseRotate, getDisparityAngle and isNear over any number of rotation variables of any classes, executed in floating point, prints what the same program on ideal rotation matrices prints, up to an error that can be computed from the text of the program alone: a static analysis gives a bound for every printed value and for every variable at the end. In double, starting from exactly represented rotations, the error is at most 4e-12 times the number of operations that went into the value (a conversion of another class to a matrix multiplies that number by 80), as long as it stays below ten million; the truth value of isNear is right unless the angle is that close to the tolerance. logarithmicMap() and boxMinus() of such values are within a bound computed in the same way and have length at most pi up to rounding.", "quantifier": "all programs (any length, any variables, any order of operations), all initial values, every rounding and library within the stated error bounds", "why_tests_cant": "errors of different operations accumulate and are amplified differently along every path through the classes; a test runs one program on one input with one rounding", "anchors": [{"file": "include/kindr/rotations/RotationImpl.hpp", "symbols": ["ConversionTraits", "MultiplicationTraits", "BoxOperationTraits", "RotationTraits", "getDisparityAngle", "isNear"]}, {"file": "include/kindr/rotations/RotationQuaternion.hpp", "symbols": ["operator=", "ConversionTraits"]}, {"file": "include/kindr/rotations/RotationBase.hpp", "symbols": ["operator*", "rotate", "inverseRotate", "boxPlus"]}]}
{"id": "C92", "title": "The documented differential calculus holds for the library", "statement": "The rules the cheat sheet gives for differentiating rotation operations hold for the functions of the library, in every class: logarithmicMap() of a rotation that moves with global angular velocity w changes at the rate G w, where G is the inverse of getJacobianOfExponentialMap at the logarithm (below a half turn); A.boxMinus(B) of two moving rotations changes at the rate G(phi) wA - G(-phi) wB; (A.boxPlus(d)*B).boxMinus(A*B) is d, (A*B.boxPlus(d)).boxMinus(A*B) is A.rotate(d) and A.boxPlus(d).inverted().boxMinus(A.inverted()) is -A.inverseRotate(d), exactly, for |d| < pi; A.boxPlus(d).rotate(u) is A.rotate(u) + d x A.rotate(u) up to |d|^2/2 |u|; interpolate moves with the constant angular velocity B.boxMinus(A). The Jacobian J(v) (|v| >= 1e-4) is invertible exactly if |v| is no multiple of 2 pi; J(v)v = v, G(v)v = v, J(-v) = J(v)^T, G(-v) = G(v) + skew(v), G(v) C(v) = G(v) + skew(v), and G(v) is 1 - skew(v)/2 up to |v|^2/8. The cheat sheet's G(-v) = J(v) + skew(v) is false for every v, and its derivative of boxMinus by the second operand has the wrong sign for every motion.", "quantifier": "all differentiable motions of one or two rotations in any classes, all perturbations shorter than pi, all vectors, outside the small-angle thresholds of the conversions", "why_tests_cant": "a rate is a limit over all neighbouring motions; the identities range over all rotations and perturbations, and a finite-difference test cannot tell an exact identity from one that holds to first order", "anchors": [{"file": "include/kindr/rotations/RotationDiff.hpp", "symbols": ["getJacobianOfExponentialMap"]}, {"file": "include/kindr/rotations/RotationBase.hpp", "symbols": ["logarithmicMap", "exponentialMap", "boxPlus", "boxMinus", "interpolate", "inverted", "rotate"]}, {"file": "include/kindr/rotations/RotationImpl.hpp", "symbols": ["BoxOperationTraits", "MapTraits"]}, {"file": "doc/cheatsheet/cheatsheet_kindr1.tex", "symbols": ["Derivatives"]}]}
{"id": "C93", "title": "Nearby stored values represent nearby rotations", "statement": "A rotation object of any class that moves with an angular velocity of at most V (world or body frame) is after time T at most the angle V T away from where it was, as measured by getDisparityAngle. The angle between two rotations is at most the distance of two rotation vectors that represent them (of any length), at most the sum of the differences of their Euler angles (either order), and at most the difference of the angles plus min(|angle|, pi) times the distance of the axes for angle-axis; it is determined by the Frobenius distance of the matrices (8 sin^2(D/2)) and by the distance of the quaternions up to sign (2 sin(D/4)). Conversely getUnique() of quaternions and logarithmicMap() are continuous away from the half turns: if the angle of the first rotation plus D stays below pi, the unique quaternions are exactly 2 sin(D/4) apart and the logarithms at most pi/2 D (and at least D); across a half turn the logarithms are almost 2 pi apart however close the rotations.", "quantifier": "all differentiable motions of any class and duration, all pairs of stored values of each class", "why_tests_cant": "bounds over all pairs of values and all motions, including arbitrarily close pairs; a test sees finitely many", "anchors": [{"file": "include/kindr/rotations/RotationBase.hpp", "symbols": ["getDisparityAngle", "logarithmicMap"]}, {"file": "include/kindr/rotations/RotationQuaternion.hpp", "symbols": ["getUnique"]}, {"file": "include/kindr/rotations/RotationVector.hpp", "symbols": ["RotationVector"]}, {"file": "include/kindr/rotations/AngleAxis.hpp", "symbols": ["AngleAxis"]}, {"file": "include/kindr/rotations/EulerAnglesXyz.hpp", "symbols": ["EulerAnglesXyz"]}, {"file": "include/kindr/rotations/EulerAnglesZyx.hpp", "symbols": ["EulerAnglesZyx"]}, {"file": "include/kindr/rotations/RotationMatrix.hpp", "symbols": ["RotationMatrix"]}]}
{"id": "C94", "title": "The distribution of setRandom() / getRandom(): every rotation possible, inverses equally likely, but not uniform", "statement": "With an ideal generator, every rotation can come out of getRandom(), in every class: each neighbourhood of it has positive probability. A rotation and its inverse are equally likely. The law is not the uniform one: the angle of the rotation is below t with probability t^3/(6 pi^2) (for t up to 48 degrees), but the rotation is within t of the half turn about z with a strictly larger probability, so the law is not invariant under multiplication with a fixed rotation, which the uniform law is.", "quantifier": "all rotations, neighbourhoods and sets of rotations; the probability is over all draws of the generator", "why_tests_cant": "a distribution is a statement about all draws; samples can neither establish support nor exact probabilities", "anchors": [{"file": "include/kindr/rotations/RotationImpl.hpp", "symbols": ["RandomTraits"]}, {"file": "include/kindr/common/common.hpp", "symbols": ["setUniformRandom"]}, {"file": "include/kindr/rotations/RotationBase.hpp", "symbols": ["setRandom", "getRandom"]}]}
{"id": "C95", "title": "No division by zero, no root of a negative number: every call on admissible values is defined", "statement": "On admissible values no function of the rotation, differential or pose interface divides by zero, takes the root of a negative number or calls acos, asin or pow outside their domain: conversions between any two classes, products, inverses, getUnique, rotate, inverseRotate, the disparity angle, isNear, the exponential and logarithmic maps, boxPlus, boxMinus, interpolation, setFromVectors, the Euler-rate mappings, the Jacobian of the exponential map and pose transformations all return finite numbers, the same as in real arithmetic, and so does every program built from them. For arbitrary stored values the only conversions that divide by zero are those into RotationVector, from a quaternion (w,0,0,0) with 1-w^2 not below the threshold or from a symmetric matrix with trace in (0, 3-4*threshold]; these return three NaNs. RotationMatrix::fix() returns NaNs for a negative determinant and no finite entry for determinant 0.", "quantifier": "all admissible values of all classes, all vectors, parameters and tolerances, all programs; for conversions and fix() all stored values", "why_tests_cant": "a division by zero hides in isolated inputs and in branch thresholds; no finite sample of inputs rules it out", "anchors": [{"file": "include/kindr/rotations/RotationVector.hpp", "symbols": ["RotationVector(const RotationBase&)"]}, {"file": "include/kindr/rotations/RotationMatrix.hpp", "symbols": ["FixingTraits"]}, {"file": "include/kindr/rotations/EulerAnglesXyzDiff.hpp", "symbols": ["getMappingFromLocalAngularVelocityToDiff"]}, {"file": "include/kindr/rotations/RotationBase.hpp", "symbols": ["setFromVectors", "boxMinus"]}]}
{"id": "C96", "title": "Rounding alone never creates an infinity or NaN (except in RotationVector from quaternion or matrix)", "statement": "Under any rounding mode, as long as no operation overflows, every conversion except into RotationVector from a quaternion or matrix, every inverse, getUnique, rotation of a vector, product, exponential map, boxPlus, disparity angle, setFromVectors, Euler-rate mapping, Jacobian and pose transformation returns finite numbers, whatever finite numbers are stored: also if rounding or the user has destroyed the unit norm or the orthogonality. A program that never computes a rotation vector from a quaternion or a matrix keeps all variables finite for ever. The remaining conversion is finite exactly if the computed length of the vector part is not zero or the computed 1-w^2 is below the threshold.", "quantifier": "all monotone roundings (all IEEE modes and precisions), all finite stored values of all classes, all programs", "why_tests_cant": "it ranges over all stored values, rounding modes and histories; a NaN needs one bad branch on one bad value", "anchors": [{"file": "include/kindr/rotations/RotationQuaternion.hpp", "symbols": ["ConversionTraits"]}, {"file": "include/kindr/rotations/RotationVector.hpp", "symbols": ["ConversionTraits"]}, {"file": "include/kindr/rotations/AngleAxis.hpp", "symbols": ["ConversionTraits", "getUnique"]}, {"file": "include/kindr/common/common.hpp", "symbols": ["floatingPointModulo"]}, {"file": "include/kindr/rotations/RotationImpl.hpp", "symbols": ["setFromVectors"]}]}
{"id": "C97", "title": "Interpolated paths: independent of class and frame, reversible, subdividable, at constant speed", "statement": "Between rotations less than a half turn apart, a.interpolate(b,t) depends only on the rotations of a and b, not on their classes; rotating both end points by a common rotation, on the left or on the right, rotates every point of the path, and inverting both inverts it; b.interpolate(a,1-t) is the rotation a.interpolate(b,t); interpolating between two points of the path gives the point at the interpolated parameter; two points of the path at s1 and s2 are |s2-s1| times the distance of the end points apart. For end points exactly a half turn apart reversal fails: b.interpolate(a,1-t) and a.interpolate(b,t) are 2*pi*min(t,1-t) apart.", "quantifier": "all classes and admissible values of a and b, all t, s1, s2 and all common rotations (the rounding bands of the RotationVector conversions excluded)", "why_tests_cant": "it relates infinitely many pairs of end points, parameters and frames; a test fixes a few", "anchors": [{"file": "include/kindr/rotations/RotationBase.hpp", "symbols": ["interpolate", "boxPlus", "boxMinus"]}]}
{"id": "C98", "title": "fulldMATdt is the total time derivative, as long as no variable name begins with another one", "statement": "Matlab's fulldMATdt(A,n,q,dq,ddq) returns the n-th time derivative (n = 1, 2) of every entry of A along every trajectory of the variables, for every list q of variables in which no name among q and dq is the beginning of another one, none begins with a reserved name d2x, d3x, ..., and the other symbols of A are not of the form d...x. It returns nothing for n = 0, n > 2 or empty q, and its inner loop always terminates. If the first variable's name is the beginning of a later one's (q1 and q10), the later variable's contribution is lost: A = q10 gets the derivative 0.", "quantifier": "all matrices of expressions (+, *, -, division, sin, cos), all lists of variables and parameters, all trajectories; any Matlab whose char() text contains the names of the variables the expression depends on", "why_tests_cant": "the code compares names as strings; which names collide is only visible when the list of variables is quantified over (a test with q1..q9 passes)", "anchors": [{"file": "matlab/utils/fulldiff2.m", "symbols": ["fulldiff2", "findhigher"]}, {"file": "matlab/utils/fulldMATdt.m", "symbols": ["fulldMATdt"]}]}
{"id": "C99", "title": "The Matlab visualizations show the motion, frame or linearization they are given", "statement": "For every rotation, visualizeCoordinateSystem draws from the origin a right-handed orthonormal triple, the images of the unit vectors, with each label 0.1 from its arrow's tip; visualizeRotationFromRotationVector/FromAngleAxis draw the rotated frame for every vector (within eps^2) without ever reporting an invalid matrix; visualizeHomogeneousTransform draws axes of length 0.05 at the frame's position. For every angular velocity, animateAngularVelocityUsingExpMap shows at frame k the orientation at time k/updateFrequency of the unique motion that starts aligned and has that constant angular velocity; animateLinearVelocity's velocity formulas are the time derivatives of the point's inertial position and body coordinates. visualizeLinearization's line/plane passes through the base point with a perpendicular arrow. Findings: animateAngularVelocityUsingEulerZYX shows the steady rotation only for angular velocities along an axis (it sets angles = t*rate instead of integrating) and is wrong in the first frame for any other velocity in the x-y plane; the labels of visualizeHomogeneousTransform are placed as if the frame were at the origin; for two variables visualizeLinearization draws the surface at time 0 and the plane at time t0.", "quantifier": "all rotations, positions, rotation vectors, angular velocities, rates, update frequencies, frame numbers, motions and functions; any expm, matrix norm and linear solver meeting their contracts", "why_tests_cant": "a plot is looked at for a few inputs; that every frame of every animation lies on the motion it claims to show is a statement about all velocities and all times", "anchors": [{"file": "matlab/visualization/animateAngularVelocityUsingExpMap.m", "symbols": ["animateAngularVelocityUsingExpMap"]}, {"file": "matlab/visualization/animateAngularVelocityUsingEulerZYX.m", "symbols": ["animateAngularVelocityUsingEulerZYX"]}, {"file": "matlab/visualization/animateLinearVelocity.m", "symbols": ["animateLinearVelocity"]}, {"file": "matlab/visualization/visualizeCoordinateSystem.m", "symbols": ["visualizeCoordinateSystem"]}, {"file": "matlab/visualization/visualizeHomogeneousTransform.m", "symbols": ["visualizeHomogeneousTransform"]}, {"file": "matlab/visualization/visualizeRotationFromRotationVector.m", "symbols": ["visualizeRotationFromRotationVector"]}, {"file": "matlab/visualization/visualizeLinearization.m", "symbols": ["visualizeLinearization"]}]}
{"id": "C100", "title": "The printed text of an object determines the object", "statement": "For every stream format that writes a number as one non-empty word without blanks, commas or line breaks: the words of the text that operator<< writes for a rotation are its numbers in the documented order (w x y z; the matrix row by row, one row per line; angle, axis; rotation vector; roll pitch yaw; yaw pitch roll), and likewise for vectors, time derivatives, wrenches, twists and the 4x4 matrix of a pose. If the numbers are printed with enough digits, the text read back is exactly the printed object and two objects of one class with the same text are equal; if they are printed with relative error u, the rotation read back moves no vector by more than castBound*u. With the default six digits the quaternion and angle-axis constructors accept the numbers read back, but the rotation-matrix constructor can refuse them in debug builds (finding). The text does not tell a rotation vector from Euler angles. The text of a source position determines file, line and function when the first two contain no colon.", "quantifier": "all values of all rotation, vector, derivative, wrench, twist and pose types, all number formats and readers, all precisions u <= 1/2", "why_tests_cant": "a test prints a few objects; that nothing is lost or reordered holds for all values and all stream precisions, and the accuracy bound is over all rotations", "anchors": [{"file": "include/kindr/rotations/RotationQuaternion.hpp", "symbols": ["operator<<"]}, {"file": "include/kindr/rotations/RotationMatrix.hpp", "symbols": ["operator<<"]}, {"file": "include/kindr/rotations/AngleAxis.hpp", "symbols": ["operator<<"]}, {"file": "include/kindr/vectors/Vector.hpp", "symbols": ["operator<<"]}, {"file": "include/kindr/phys_quant/Wrench.hpp", "symbols": ["operator<<"]}, {"file": "include/kindr/poses/Twist.hpp", "symbols": ["operator<<"]}, {"file": "include/kindr/poses/HomogeneousTransformation.hpp", "symbols": ["operator<<"]}, {"file": "include/kindr/common/source_file_pos.hpp", "symbols": ["toString"]}]}
{"id": "C101", "title": "Mutating methods are safe when an argument is the object itself or part of it", "statement": "v += v, v -= v, v = v, v *= v(i), v /= v(i), w += w, w *= w.getForce()(i), w.getForce() += w.getTorque(), r.invert(), r.setUnique(), r = r * s, r = s * r, T = T * T, T.getPosition() = T.transform(T.getPosition()) and q(q) give the result computed from the values before the call, in whatever order the coefficients are processed, and change nothing but the target. A program of any length made of such calls, with any sharing of whole objects and parts, ends in the state computed by the value-based functions. (Memory that overlaps only in part, which the API cannot produce, would not be safe.)", "quantifier": "all memories, all layouts of separate objects, all vector dimensions, all orders of the coefficient loops, all programs of the listed calls", "why_tests_cant": "aliasing faults depend on the order of loads and stores chosen by Eigen and the compiler and on which objects are shared; a test fixes one order and one sharing", "anchors": [{"file": "include/kindr/vectors/Vector.hpp", "symbols": ["operator+=", "operator*=", "operator/=", "normalize"]}, {"file": "include/kindr/phys_quant/Wrench.hpp", "symbols": ["operator+=", "operator*=", "operator/="]}, {"file": "include/kindr/rotations/RotationMatrix.hpp", "symbols": ["invert", "transpose"]}, {"file": "include/kindr/quaternions/Quaternion.hpp", "symbols": ["operator()"]}, {"file": "include/kindr/poses/HomogeneousTransformation.hpp", "symbols": ["getPosition", "MultiplicationTraits"]}]}
{"id": "C102", "title": "Threads that share only what nobody changes do not interfere", "statement": "Several threads execute programs made of the calls of C101. If no number changed by one thread is read or changed by another one (two threads may use the force and the torque of one wrench, and all may read the same objects), then under every schedule of their single loads and stores the final values of all variables are those of the programs executed one after the other, and at every moment a thread finds in what it uses the values it would find running alone. Arguments passed by constant reference are never written, not even temporarily. Without the condition updates can be lost.", "quantifier": "all numbers of threads, all programs of the listed calls, all schedules at the granularity of single loads and stores, all memories, layouts and loop orders", "why_tests_cant": "the number of interleavings is exponential and the scheduler chooses; tests exercise a few", "anchors": [{"file": "include/kindr/vectors/Vector.hpp", "symbols": ["operator+=", "operator*=", "normalize"]}, {"file": "include/kindr/phys_quant/Wrench.hpp", "symbols": ["operator+=", "getForce", "getTorque"]}, {"file": "include/kindr/rotations/RotationBase.hpp", "symbols": ["operator*", "rotate"]}, {"file": "include/kindr/poses/PoseBase.hpp", "symbols": ["operator*", "transform"]}]}
{"id": "C103", "title": "Neutral, inverse and symmetric operations are exact to the last bit; in float a rotation is not at distance zero from itself", "statement": "In binary floating point: every conversion returns representable numbers and maps the identity to the identity; the product of a quaternion or matrix with the identity, and boxPlus of the zero vector or interpolate at t <= 0 on it, return it unchanged bit for bit; rotating maps zero to zero, opposite vectors to opposite vectors, the unit vectors to the columns of the rotation matrix, the identity leaves every vector unchanged and q and -q rotate every vector to the same bits; inverted() is an involution, its rotation matrix is the transpose and its quaternion the conjugate; vector sums commute and a difference is zero exactly for equal vectors; a pose maps the origin to its position and its position back to the origin, and the identity pose is neutral. In double r.boxMinus(r) is exactly zero, the disparity angle of r with itself is zero and r.isNear(r,tol) holds for all tol >= 0. In float this fails for every unit quaternion and angle-axis pair: q.boxMinus(q) = (d,0,0) and getDisparityAngle(q) = d with 8.7e-8 < d < 8.8e-8 (finding).", "quantifier": "all representable values of all rotation classes, vectors and poses, every rounding that commutes with the sign, the sine, cosine and arctangent functions arbitrary but for symmetry and the values at zero", "why_tests_cant": "equality of bits for all 2^64 values per number; a test that compares with a tolerance does not see the last bit at all", "anchors": [{"file": "include/kindr/rotations/RotationBase.hpp", "symbols": ["operator*", "rotate", "boxPlus", "boxMinus", "getDisparityAngle", "isNear"]}, {"file": "include/kindr/common/common.hpp", "symbols": ["wrapPosNegPI", "floatingPointModulo"]}, {"file": "include/kindr/rotations/AngleAxis.hpp", "symbols": ["getUnique", "inverted"]}, {"file": "include/kindr/poses/HomogeneousTransformation.hpp", "symbols": ["transform", "inverseTransform", "operator*"]}]}
{"id": "C104", "title": "Wrapping an angle twice and the unique form of a half turn, in double and in float", "statement": "wrapPosNegPI<double> applied to its own result returns it bit for bit (|angle| <= 2^50). AngleAxis<double>::getUnique returns an angle in [0, M_PI] and settles after at most two calls (one is not always enough); the two descriptions (M_PI, n) and (M_PI, -n) of a half turn have the same unique form, which is one of the two. In float the angle of a repeatedly wrapped value drifts: every float in [-2, 2-float(pi)) moves up by one unit in the last place per call although it is in range, 0.858 rad after 7.2 million calls (finding); and getUnique exchanges (float(pi), n) and (float(pi), -n), so that a half turn has no unique form and setUnique() flips the axis at every call, likewise for rotation vectors (finding).", "quantifier": "all angles representable or not up to 2^50, all axes, all numbers of repetitions, both overloads of floor", "why_tests_cant": "repetition count unbounded and all representable angles; the drift of one unit per call is below every test tolerance", "anchors": [{"file": "include/kindr/common/common.hpp", "symbols": ["wrapPosNegPI", "floatingPointModulo"]}, {"file": "include/kindr/rotations/AngleAxis.hpp", "symbols": ["getUnique", "setUnique"]}, {"file": "include/kindr/rotations/RotationVector.hpp", "symbols": ["getUnique", "setUnique"]}]}
{"id": "C105", "title": "Vectors of extreme magnitude: norm, normalized and setFromVectors with the exponent range of double and float", "statement": "With the bounded exponent range of double and float: v.norm() is zero exactly if the square of every coefficient is at most half the smallest positive number (also for nonzero v), and infinite if the square of a coefficient overflows; between 2^((emin+2p+2)/2) and 2^((emax-2)/2) norm() has relative error at most 4*2^-p and every coefficient of normalized() has error at most 6*2^-p. Multiplying v by a power of two multiplies norm() by it exactly and leaves normalized() and setFromVectors unchanged bit for bit as long as the squares of the coefficients stay in the range. setFromVectors(v,w) throws 'zero length' exactly if one vector is that tiny and the norm of the other is finite (finding: also for nonzero vectors, and not for a zero vector paired with a huge one); if the norm of one vector overflows, normalized() is the zero vector and setFromVectors returns a quaternion (q,0,0,0) with 0.70 <= q <= 0.72, which is no rotation (finding); for v = (3*2^-539,0,0) in double normalized() is (0.75,0,0) and setFromVectors(v,v) has length at most 0.9 (finding).", "quantifier": "all vectors of finite numbers, all formats with at least 8 significant bits and room in the exponent (double and float are instances), all scaling exponents, all six rotation classes, every axis the SVD may return", "why_tests_cant": "all exponents of six numbers; tests use vectors of length about one and never reach underflow or overflow of the squares", "anchors": [{"file": "include/kindr/rotations/RotationImpl.hpp", "symbols": ["SetFromVectorsTraits::setFromVectors"]}, {"file": "include/kindr/vectors/Vector.hpp", "symbols": ["norm", "normalized"]}, {"file": "include/kindr/rotations/RotationBase.hpp", "symbols": ["setFromVectors"]}]}
{"id": "C106", "title": "Accuracy of setFromVectors in float and double, and when its debug build throws", "statement": "For vectors v, w of moderate length (sum of squares inside the exponent range of the format) whose directions are outside the antiparallel band (1 + cos of the angle at least 1e-12 in double, 1e-5 in float, plus 25 roundings), setFromVectors(v,w) returns a quaternion every coefficient of which is within 50*2^-p/(1+cos) of the quaternion of the rotation of smallest angle that takes the direction of v to the direction of w. If 1+cos is at least 1.1e6*2^-p the debug build returns the same quaternion and does not throw; in double that is every pair outside 1+cos < 1.3e-10. Finding: in float, setFromVectors((1,0,0),(-1,2049/2^18,0)), vectors 179.55 degrees apart and outside the band, yields a quaternion (2^-8,0,0,z) with z >= 1.00045, and the debug build throws 'Input quaternion has not unit length' for every rotation class.", "quantifier": "all pairs of vectors with finite coefficients in the range, all formats with at least 24 significant bits (double and float are instances), every axis the SVD may return (finding: all six rotation classes)", "why_tests_cant": "all pairs of directions and lengths; the error grows without bound towards the antiparallel band, and tests try a few vectors far from it", "anchors": [{"file": "include/kindr/rotations/RotationImpl.hpp", "symbols": ["SetFromVectorsTraits::setFromVectors"]}, {"file": "include/kindr/rotations/RotationQuaternion.hpp", "symbols": ["RotationQuaternion(const Implementation&)"]}, {"file": "include/kindr/rotations/RotationBase.hpp", "symbols": ["setFromVectors"]}]}
{"id": "C107", "title": "Which Euler angles and angle-axis values conversions store, and how they vary with the rotation", "statement": "Let (yaw,pitch,roll) be the principal angles of a rotation (yaw, roll in half a turn, |pitch| below a quarter turn). EulerAnglesZyx constructed from any other class stores them if yaw >= 0; if yaw < 0 it stores (yaw+pi, +-pi-pitch, roll+-pi), a pitch beyond a quarter turn; EulerAnglesXyz likewise with roll in place of yaw; at gimbal lock the first stored angle is 0. The stored first angle is in [0,pi]. getUnique() of the result is the principal angles (outside the 1e-3 gimbal band). With pitch in +-pi/2 and D the angle between two rotations, the pitches differ by at most D and the other angles by at most pi/2*D/sqrt(cos pitch1 cos pitch2) up to full turns; the factor cannot be avoided. Angle-axis angles in [0,pi] differ by at most D. Finding: the stored Euler angles jump at the identity: a turn by -eps about z is stored as EulerAnglesZyx (pi-eps, +-pi, +-pi). No choice of quaternion, angle-axis, rotation vector or Euler angles depends continuously on the rotation, so every conversion from a matrix jumps somewhere in a full turn about z.", "quantifier": "all rotations, all source and target classes; all pairs of rotations for the moduli; every function from rotation matrices to values of a class for the impossibility", "why_tests_cant": "the claims are about all rotations and all nearby pairs, and about every possible choice of representative; tests sample isolated rotations", "anchors": [{"file": "include/kindr/rotations/EulerAnglesZyx.hpp", "symbols": ["ConversionTraits"]}, {"file": "include/kindr/rotations/EulerAnglesXyz.hpp", "symbols": ["ConversionTraits"]}, {"file": "include/kindr/rotations/EulerAnglesZyx.hpp", "symbols": ["getUnique"]}, {"file": "include/kindr/rotations/AngleAxis.hpp", "symbols": ["ConversionTraits"]}]}
{"id": "C108", "title": "Quaternion loops, rotation of vectors and poses in IEEE arithmetic with underflow and overflow", "statement": "In double and float (u=2^-p, smallest number 2^emin, overflow at 2^emax), for numbers of every magnitude: the product of two quaternions is finite and within 10u|a||b| + 16*2^(emin-1) of exact unless |a||b| is near the overflow threshold; fix() of a quaternion of length 2^-49..2^60 gives length 1 up to 6u. The loop q=q*qi; q.fix() with start value and factors of any length between 1e-6 and 1e6 never produces an infinity or NaN, keeps |q| within 6u of 1 for ever, is accepted by the debug build, and is within (33n+6)u of the exact product of the directions. Without fix(), for factors unit up to d and (n+1)(13u+d)<=1/4, the result is within 14nu of the exact product of the stored factors. rotate() with a quaternion within d of a unit quaternion errs by at most (24u+8.1d)|v| + 11*2^(emin-1) for |v| <= 2^(emax-3); from the smallest normal number on the error is relative and lengths are kept; after any renormalized loop lengths from 1e-307 to 1e307 are kept to 1e-14 in double (1e-37 to 1e37, 1e-5 in float). rotate() with a matrix, transform() and the position of a pose product obey similar bounds. Findings: rotate() can return an infinity although the exact image (a vector on the axis) is representable, and can send a nonzero (subnormal) vector to zero.", "quantifier": "all quaternions, vectors and positions of the stated magnitudes, all finite sequences of factors, every IEEE format with at least the precision and exponent range of float", "why_tests_cant": "a test sees a few magnitudes and a few loop lengths; freedom from overflow and loss by underflow is about all of them", "anchors": [{"file": "include/kindr/rotations/RotationQuaternion.hpp", "symbols": ["MultiplicationTraits", "FixingTraits", "RotationQuaternion"]}, {"file": "include/kindr/rotations/RotationImpl.hpp", "symbols": ["RotationTraits"]}, {"file": "include/kindr/rotations/RotationMatrix.hpp", "symbols": ["ConversionTraits"]}, {"file": "include/kindr/poses/HomogeneousTransformation.hpp", "symbols": ["transform", "operator*"]}]}
{"id": "C109", "title": "Exponential map and boxPlus integration in IEEE arithmetic, with underflow", "statement": "In double and float (u=2^-p), for every rotation vector r with |r| <= 2^20, however small: exponentialMap into a quaternion is finite, within (1.1+9|r|)u of the exact unit quaternion (cos(|r|/2), sin(|r|/2) r/|r|), and each coefficient of the vector part is accurate to 7u|r_i| plus half the smallest number, although the squared length of r may underflow to zero. The loop q=q.boxPlus(w_i); q.fix(), for a start value of length 1e-6..1e6 and any number of such increments, stays finite, keeps |q| within 6u of 1 for ever, is accepted by the debug build, and is within (36n+18A+6)u of the exact composition exp(w_n)...exp(w_1)q, A being the total angle. Rotating a vector of length 1e-307..1e307 by the result equals rotating it by q and then by every increment in turn up to (300n+150A+84)u|v|, and keeps its length to 84u. Finding: at the rotation by 120 degrees about (1,1,1), increments of at most u/8 (1.3e-17 rad in double, 7e-9 rad in float) change nothing, however many there are.", "quantifier": "all rotation vectors and increments up to 2^20 rad including those whose squares underflow, all start values, all numbers of steps, all vectors of the stated lengths, every IEEE format with at least the precision and exponents of float", "why_tests_cant": "covers every magnitude of increment down to the smallest number and unboundedly many steps", "anchors": [{"file": "include/kindr/rotations/RotationQuaternion.hpp", "symbols": ["ConversionTraits", "FixingTraits"]}, {"file": "include/kindr/rotations/RotationImpl.hpp", "symbols": ["MapTraits::set_exponential_map", "BoxOperationTraits::box_plus"]}, {"file": "include/kindr/rotations/RotationBase.hpp", "symbols": ["exponentialMap", "boxPlus"]}]}
{"id": "C110", "title": "Exceptions and the object they leave behind", "statement": "For AngleAxis and RotationQuaternion, for every call that changes the object: if it throws, the object keeps the value it had, except AngleAxis::setAxis/setVector and RotationQuaternion::operator()(Quaternion), which store first and check afterwards, so the object holds the argument whether or not they throw; they throw exactly in a debug build and exactly if the length of the argument is off by more than 1e-6 (relative; 1e-4 for UnitQuaternion). In any history of calls in which every exception is caught, the unit-length invariant survives as long as the calls that threw were not among those that store first. A history without exception in the debug build ends with the same object in the release build. Findings: after a caught exception of setAxis(n) the object holds the refused axis, and invert() and setUnique() throw for ever after, until fix() normalizes it to the direction of n; RotationQuaternion::operator()(Quaternion) refuses quaternions that its constructor accepts; RotationMatrix::setMatrix never checks.", "quantifier": "all objects, all calls with all arguments, all histories of calls, debug and release builds", "why_tests_cant": "ranges over every sequence of calls and every point at which an exception may be caught", "anchors": [{"file": "include/kindr/rotations/AngleAxis.hpp", "symbols": ["setAxis", "setVector", "setUnique", "invert"]}, {"file": "include/kindr/rotations/RotationQuaternion.hpp", "symbols": ["operator()", "setValues", "setUnique", "invert"]}, {"file": "include/kindr/rotations/RotationMatrix.hpp", "symbols": ["setMatrix"]}, {"file": "include/kindr/common/assert_macros_eigen.hpp", "symbols": ["KINDR_ASSERT_SCALAR_NEAR_DBG"]}]}
{"id": "C111", "title": "Assertion macros as program text: evaluations, messages, surrounding if/else, argument parentheses", "statement": "For the KINDR_ASSERT_* macros as pieces of program text: the text of an exception determines class, file, line, function and message. With operands without side effects a macro throws exactly if the relation fails, with a text that shows the operands; it evaluates each operand once if it passes (the value of GE_LT twice) and once more if it throws. A _DBG macro in a release build evaluates nothing. Behind an unbraced if, the scalar macros run exactly if the condition holds. Findings: because of the second evaluation the text may show values that satisfy the relation; KINDR_ASSERT_MATRIX_NEAR_DBG behind an unbraced if compares columns and coefficients also when the condition is false; in `if (c) KINDR_ASSERT_TRUE(..) else e` the else belongs to the macro, so e runs if c and the assertion hold and never if c is false; KINDR_ASSERT_MAT_IS_FINITE pastes its argument without parentheses, so it passes for -m whatever m contains, looks at part of 0.5*m only, and reads outside of the matrix for 2*m; the labels \"assert\" and \"debug assert\" of its two versions are interchanged.", "quantifier": "all operands (as expressions with side effects), all orders of evaluation, all states, all surrounding conditions and branches, all matrices of all sizes", "why_tests_cant": "ranges over every expression that may be written as an operand and every piece of code the macro may be pasted into", "anchors": [{"file": "include/kindr/common/assert_macros.hpp", "symbols": ["KINDR_ASSERT_TRUE", "KINDR_ASSERT_GE_LT", "KINDR_ASSERT_LT", "kindr_throw_exception"]}, {"file": "include/kindr/common/assert_macros_eigen.hpp", "symbols": ["KINDR_ASSERT_MATRIX_NEAR_DBG", "KINDR_ASSERT_MAT_IS_FINITE"]}, {"file": "include/kindr/common/source_file_pos.hpp", "symbols": ["source_file_pos"]}]}
{"id": "C112", "title": "Vectors of one number type with factors of another: types, spellings, and what the conversion of the factor does", "statement": "For vectors of int, float or double and factors of each of these types: v*f, f*v, v*=f, v*=F and v*F with the one-dimensional vector F=(f) give the same vector (or are all undefined), likewise the spellings of the quotient. A product of two vectors compiles exactly if the right one is one-dimensional, or the left one is and both have the same number type; it has the number type of the left factor. A quotient compiles exactly for a one-dimensional divisor of the same number type. A double vector times a float or int factor is the correctly rounded product. A float vector times a double factor has relative error at most 2u+u^2 while factor and product stay in the normal range. Findings: the factor is converted to the number type of the vector first, so an int vector times a double factor is exact only for integral factors, times 0.5 it is zero and divided by 0.5 it divides by zero; a float vector times a double factor of 2^128 or more has NaN for its zeros and infinities elsewhere, times a factor below 2^-150 it is zero, even if the exact product is an ordinary number; the int factor 2^24+1 acts on a float vector as 2^24; projectOn of int vectors gives only integral multiples of the target (idempotent, exact only if b.b divides a.b); mean of an int vector is cut off; Scalar<float> * Vector<double> does not compile although Vector<double> * Scalar<float> does.", "quantifier": "all number types, all dimensions, all vectors and factors", "why_tests_cant": "ranges over every pair of number types and every value, including values at which the conversion overflows, underflows or cuts off; the tests use one number type at a time", "anchors": [{"file": "include/kindr/vectors/Vector.hpp", "symbols": ["operator*", "operator/", "operator*=", "operator/=", "projectOn", "mean", "MultiplicationTraits", "MultiplicationDimensionTraits", "MultiplicationReturnTypeTraits", "DivisionReturnTypeTraits", "DivisionDimensionTraits"]}]}
{"id": "C113", "title": "Logarithm, difference, disparity angle, round trip and interpolation of quaternions in IEEE arithmetic", "statement": "For all stored quaternions a, b whose length is one up to a small drift (at least 6 units in the last place, what renormalisation leaves), with round-to-nearest-even, gradual underflow, overflow, and the mixture of float and double in the angle wrapping: logarithmicMap and boxMinus give a finite rotation vector not longer than a half turn (up to rounding) that turns every vector as the quaternion, resp. the quotient, does, up to a few hundred rounding units plus the code's own threshold, also half turns apart where the exact logarithm jumps and arbitrarily close to the identity where squares underflow; getDisparityAngle gives the angle between the rotations up to 1070 rounding units with no threshold; isNear decides correctly outside that band; b.boxPlus(a.boxMinus(b)) is a again; interpolate turns a by the clamped fraction of one rotation vector that takes a to b. For double: 1.2e-12 for the vectors, 1.2e-13 for the angle; for float, whichever floor overload is chosen, 5e-5 and 7e-5.", "quantifier": "all pairs of stored quaternions with length near one, all vectors, all tolerances, all interpolation ratios, all binary formats from float to double", "why_tests_cant": "worst case over all rotations including half turns, tiny angles and underflow; tests sample a few pairs and compare with a loose tolerance", "anchors": [{"file": "include/kindr/rotations/RotationImpl.hpp", "symbols": ["MapTraits::get_logarithmic_map", "BoxOperationTraits::box_minus", "BoxOperationTraits::box_plus", "DisparityAngleTraits::get_disparity_angle"]}, {"file": "include/kindr/rotations/RotationVector.hpp", "symbols": ["RotationVector::getUnique", "ConversionTraits"]}, {"file": "include/kindr/rotations/AngleAxis.hpp", "symbols": ["AngleAxis::getUnique"]}, {"file": "include/kindr/rotations/RotationBase.hpp", "symbols": ["RotationBase::isNear", "RotationBase::interpolate"]}, {"file": "include/kindr/common/common.hpp", "symbols": ["floatingPointModulo", "wrapPosNegPI"]}]}
{"id": "C114", "title": "Poses in IEEE arithmetic: inverse transform, round trip and long chains of products", "statement": "For every pose with finite position and a stored quaternion of length one up to a drift delta, with round-to-nearest-even, gradual underflow and overflow: inverseTransform(x) is finite and its error is proportional to the distance of x from the origin of the pose (plus a few subnormal units); inverseTransform(transform(x)) is x up to 54 rounding units (and 17 delta) of |x| and 3 rounding units of the length of the shift; a loop T = T * S over any list of poses gives a finite pose that maps every point as the exact composition does, with an error that grows linearly with the number of factors, in terms of |x| and the sum of the lengths of the shifts. For double a million products of renormalised poses stay within 3e-14 (|x| + L) per product, for float five hundred within 2e-5 per product. Finding: the term with the length of the shift is real: with a shift by 2^(p+2) the point (1,0,0) comes back from transform and inverseTransform as the zero vector.", "quantifier": "all poses, points, lists of poses of any length within the stated budget, all binary formats at least as precise as float", "why_tests_cant": "the worst case over all lists of poses and all points, including underflow and cancellation; tests compose two poses of moderate size", "anchors": [{"file": "include/kindr/poses/HomogeneousTransformation.hpp", "symbols": ["HomogeneousTransformation::transform", "HomogeneousTransformation::inverseTransform", "HomogeneousTransformation::operator*"]}, {"file": "include/kindr/poses/Pose.hpp", "symbols": ["MultiplicationTraits"]}, {"file": "include/kindr/rotations/RotationBase.hpp", "symbols": ["RotationBase::inverseRotate"]}]}
{"id": "C115", "title": "Vectors of any dimension and wrenches in IEEE arithmetic: sums, dot and cross products, accumulation loops, integration of positions", "statement": "With round-to-nearest-even, gradual underflow and overflow (u = 2^-p), for vectors of every dimension: sum() is within 1.01(n-1)u of the sum of absolute values, dot() within 1.02n(u*sum|a_i b_i| + half the smallest number), mean() within 1.02u*sum|a_i| plus half the smallest number, in whatever order and grouping Eigen adds; sums of whole multiples of 2^k whose absolute values add up to less than 2^(k+p) are exact in every order. A loop s += v over N vectors (of forces, of wrenches by force and torque) is finite and within 1.01Nu of the sum of absolute values per coefficient, and two orders differ by at most twice that. The difference of two vectors whose coefficients are within a factor of two is exact and adding it back gives the first vector exactly. The cross product is exactly antisymmetric (even if it overflows), exactly zero with itself, and accurate to 2.01u|a||b| plus about the smallest number per coefficient. The loop p += v*dt is within 1.02((N+1)u(|p|+sum|v dt|) + N*2^(emin-1)) of the exact position: for 10^12 steps in double, 10^5 in float. Findings: the order of a sum matters (0 instead of 1); if no step exceeds 2^(k-p), a position starting within 2^k never leaves it, however many steps follow: in float a point at 1 m/s with dt = 1 ms never gets beyond 32768 m; mean() of three equal coefficients can lie below min() (float: 11184814 gives 11184813).", "quantifier": "all dimensions, all vectors of storable numbers, all orders and groupings of a reduction, all finite sequences of vectors, wrenches and steps, all binary formats at least as precise as float", "why_tests_cant": "the order in which Eigen adds depends on compiler flags and vector width, and loops of millions of steps cannot be enumerated; that a position stops moving is a statement about every number of steps", "anchors": [{"file": "include/kindr/vectors/Vector.hpp", "symbols": ["Vector::operator+", "Vector::operator+=", "Vector::operator-", "Vector::operator*", "Vector::dot", "Vector::cross", "Vector::sum", "Vector::mean"]}, {"file": "include/kindr/phys_quant/Wrench.hpp", "symbols": ["Wrench::operator+", "Wrench::operator+="]}]}
{"id": "C116", "title": "Exactly which values getUnique() returns, and when a second call changes them", "statement": "The results of getUnique()/setUnique() are exactly: for unit quaternions, those whose first nonzero coefficient (w,x,y,z) is positive; for angle-axis values with unit axis, angle 0 with axis (1,0,0), angles in (0,pi) with any unit axis, and angle pi with an axis whose first nonzero coefficient is positive; for rotation vectors, those shorter than pi and those of length pi whose first nonzero coefficient is positive; for Euler angles, triples with both outer angles in [-pi,pi) and pitch strictly inside +-(pi/2-0.001), and triples whose last angle is 0, whose pitch is within 0.001 of +-pi/2 on either side and whose first angle ranges over two turns. Quaternion and angle-axis results are left unchanged by a second call; a rotation-vector result exactly if it is zero or at least dp long (else it becomes zero); an Euler result exactly if its first angle is in [-pi,pi), and a third call never changes anything. Findings against the manual: the angle of a half turn is pi (manual: [0,pi)); unique Euler angles can have a pitch above pi/2 and a first angle outside [-pi,pi).", "quantifier": "all unit quaternions, all angle-axis values with unit axis, all rotation vectors, all Euler angles", "why_tests_cant": "the set of all results over uncountably many inputs is a for-all-exists statement in both directions; samples show neither that a value is never returned nor where idempotence ends", "anchors": [{"file": "include/kindr/rotations/RotationQuaternion.hpp", "symbols": ["RotationQuaternion::getUnique"]}, {"file": "include/kindr/rotations/AngleAxis.hpp", "symbols": ["AngleAxis::getUnique"]}, {"file": "include/kindr/rotations/RotationVector.hpp", "symbols": ["RotationVector::getUnique"]}, {"file": "include/kindr/rotations/EulerAnglesXyz.hpp", "symbols": ["EulerAnglesXyz::getUnique"]}, {"file": "include/kindr/rotations/EulerAnglesZyx.hpp", "symbols": ["EulerAnglesZyx::getUnique"]}, {"file": "doc/doxygen/page_rotation.dox", "symbols": ["setUnique"]}]}
{"id": "C117", "title": "Dead reckoning: integrating velocities measured in the body frame, and measuring them by differences", "statement": "The loop T = T * Pose(Position(v*dt), Rotation().exponentialMap(w*dt)) over any list of body-frame displacements (each at most V long) and rotation vectors moves every point q to within n*6c*|q| + n^2*11c*V of where the exact displacements carried out in turn move it (c = 2*dp+eps, n*c <= 1/200), in every rotation class. For a body that moves with body-frame velocities v, w (w Lipschitz with constant L, speed at most V, acceleration at most A), starting within delta (rotation) and rho (position) of the truth, n steps of length h end with a rotation within delta + n(L h^2/2 + 6c) and a position within rho + n A h^2/2 + n h V (delta + n(L h^2/2 + 11c)). Conversely q(t).inverseRotate(q(t+h).boxMinus(q(t)))/h is the body-frame angular velocity up to L h + (4dp+2eps)/h, and T(t).rotation.inverseRotate(p(t+h)-p(t))/h the body-frame linear velocity up to A h/2 (1+eps/400) + eps/400 |v|. Numbers: one minute at 1 kHz in double with at most 1 m/s, 1 m/s^2, 1 rad/s^2: within 0.0301 rad and 1.84 m.", "quantifier": "all valid poses of all rotation classes, all lists of readings, all motions with bounded speed, acceleration and angular acceleration, all step sizes and numbers of steps with n*c <= 1/200", "why_tests_cant": "the error is bounded for every motion and every number of steps, an induction over the loop combined with a comparison of solutions of differential equations; tests can integrate only chosen trajectories", "anchors": [{"file": "include/kindr/poses/HomogeneousTransformation.hpp", "symbols": ["HomogeneousTransformation::operator*"]}, {"file": "include/kindr/rotations/RotationBase.hpp", "symbols": ["RotationBase::exponentialMap", "RotationBase::boxMinus", "RotationBase::inverseRotate", "RotationBase::operator*"]}]}
{"id": "C118", "title": "Long products of rotation matrices in IEEE arithmetic, and what the debug-build constructor makes of them", "statement": "With round-to-nearest-even, gradual underflow and overflow (u = 2^-p): the loop R *= M (or R *= M.inverted()) over n stored matrices, each within d of a rotation entrywise, with (n+1)(3d+13u) <= 1/100, gives finite entries within 3.1(n+1)d + 13.2nu of the exact product, and rotate() with the result moves a vector to within (3.1(n+1)d + (13.2n+8)u)|v| plus 11 times half the smallest number of where the exact product moves it. inverted() of a product is the product of the inverses in reverse order to the last bit, and R * R.inverted() is exactly symmetric, even for matrices with infinite or NaN entries. The debug-build constructor from an Eigen matrix, its checks carried out in the same arithmetic, accepts every matrix whose entries are within 6e-8 of those of a rotation: so every rotation matrix rounded to the format, and in double the result of every loop of up to 3*10^7 products of those. Finding: for every format from float on, diag(1+3*2^-23, 1-3*2^-23, 1) is accepted by that constructor, but the product of two such accepted rotations is rejected (the constructor throws in debug builds) when it is wrapped again.", "quantifier": "all rotations, all stored matrices near a rotation, all finite sequences of factors with arbitrary inversions, all vectors below a quarter of the overflow threshold, all binary formats at least as precise as float; for the inverse, all matrices of numbers, infinities and NaNs", "why_tests_cant": "bounds over all rotations and all lengths and contents of a loop, and bit-for-bit identities over all matrices including non-finite ones, cannot be enumerated", "anchors": [{"file": "include/kindr/rotations/RotationMatrix.hpp", "symbols": ["RotationMatrix::RotationMatrix", "RotationMatrix::inverted", "MultiplicationTraits", "RotationTraits"]}, {"file": "include/kindr/common/assert_macros_eigen.hpp", "symbols": ["KINDR_ASSERT_MATRIX_NEAR_DBG"]}]}
{"id": "C119", "title": "isSimilarTo and projectOn in IEEE arithmetic: rounding, NaN and the ends of the range", "statement": "isSimilarTo(other, tol) of stored vectors of any dimension never accepts a coefficient that deviates by tol or more, although the difference is rounded; it accepts every deviation up to the next smaller number of the format, and is exact if the differences are numbers of the format. It is symmetric for all vectors, also infinite and NaN ones, and as long as no difference is NaN it compares every coefficient in whatever order Eigen forms the maximum. projectOn of vectors inside the range is finite and within 5nu|a| + 2n(1+|b|+1/|b|) half smallest numbers of the exact projection of a on b. Findings: a NaN in the first coefficient makes vectors dissimilar, but in a Vector of dimension three a NaN in the second coefficient hides itself and the third coefficient: (0, NaN, 1000) is similar to zero up to 1; evaluated from left to right, a NaN anywhere but in the first place is ignored. If the squares of all coefficients of the vector projected on underflow, no coefficient of the projection is finite; if one overflows, the projection is zero, or NaN everywhere if the inner product overflows too.", "quantifier": "all dimensions, all vectors of finite numbers, infinities and NaNs, all tolerances of the format, all orders and groupings of the reductions, all binary formats at least as precise as float", "why_tests_cant": "the guarantee covers every pair of stored vectors, including differences that are rounded across the tolerance, every summation order the compiler may choose, and the whole exponent range", "anchors": [{"file": "include/kindr/vectors/Vector.hpp", "symbols": ["Vector::isSimilarTo", "Vector::projectOn", "Vector::abs", "Vector::max", "Vector::dot", "Vector::squaredNorm", "Vector::operator*"]}]}
{"id": "C120", "title": "The gimbal-lock check of the Euler-rate mappings never fires for stored angles", "statement": "No angle stored in a binary floating-point format has cosine zero; for angles up to 4 stored in double the cosine is at least 6e-17 in magnitude, in float at least 4e-8. In IEEE arithmetic (u = 2^-p, sin and cos correctly rounded) the mappings from local and global angular velocity to the rates of EulerAnglesXyz and from local angular velocity to those of EulerAnglesZyx return without exception a finite matrix, every entry of which is accurate to 7u relative (plus 2^(emin+63) for underflow), however close to the gimbal lock, as long as |cos y| >= 2^-60. Finding: hence the exception 'Gimbal lock: cos(y) is zero!' is never thrown for a second angle up to 4 stored in double or float; at the double nearest to pi/2 the mapping multiplies an angular velocity by more than 1.6e16 instead.", "quantifier": "all stored angles x, y, z with |y| <= 4 (and for cos y != 0 all stored angles and all binary formats); for the accuracy all binary formats at least as precise as float and all angles with |cos y| >= 2^-60", "why_tests_cant": "that an assertion can never fire is a statement about every one of the 2^64 stored angles, and rests on how well pi/2 can be approximated by numbers of the format", "anchors": [{"file": "include/kindr/rotations/EulerAnglesXyz.hpp", "symbols": ["EulerAnglesXyz::getMappingFromLocalAngularVelocityToDiff", "EulerAnglesXyz::getMappingFromGlobalAngularVelocityToDiff"]}, {"file": "include/kindr/rotations/EulerAnglesZyx.hpp", "symbols": ["EulerAnglesZyx::getMappingFromLocalAngularVelocityToDiff"]}]}
{"id": "C121", "title": "Second derivatives and rates of Euler angles near the gimbal lock in IEEE arithmetic", "statement": "In IEEE arithmetic (u = 2^-p, sin and cos correctly rounded) the mappings from local and global angular velocity to the second derivatives of EulerAnglesXyz return without exception a finite matrix, every entry of which is within 100 u D / cos(y)^2 of the exact one, D being the sum of the magnitudes of the two rates that enter plus 2^(emin+p); EulerAnglesXyzDiff and EulerAnglesZyxDiff constructed from a local angular velocity w have every component within 100 u W / |cos y| of the exact one, W being the sum of the magnitudes of w plus 2^(emin+p). The mappings from second derivatives to local and global angular acceleration, which have no singularity, are finite and within 30 u D for all angles. Finding: hence neither throws the exception 'Gimbal lock: cos(y) is zero!' for a second angle up to 4 stored in double or float and rates up to 2^(emax-2p-9) (2^71 in float, 2^909 in double).", "quantifier": "all angles with cos(y)^2 >= 2^(emin+p) and all rates with (|rates| + 1) / cos(y)^2 <= 2^(emax-5), in all binary formats at least as precise as float; all stored angles with |y| <= 4 in double and float", "why_tests_cant": "error bounds and the absence of an exception for every one of the stored angles, however close to pi/2", "anchors": [{"file": "include/kindr/rotations/EulerAnglesXyzDiff.hpp", "symbols": ["EulerAnglesXyzDiff::getMappingFromLocalAngularVelocityToSecondDiff", "EulerAnglesXyzDiff::getMappingFromGlobalAngularVelocityToSecondDiff", "RotationDiffConversionTraits"]}, {"file": "include/kindr/rotations/EulerAnglesZyxDiff.hpp", "symbols": ["RotationDiffConversionTraits"]}]}
{"id": "C122", "title": "Angular velocities from Euler-angle rates and back in IEEE arithmetic", "statement": "In IEEE arithmetic (u = 2^-p, sin and cos correctly rounded) LocalAngularVelocity and GlobalAngularVelocity constructed from EulerAnglesXyzDiff, and LocalAngularVelocity constructed from EulerAnglesZyxDiff, are finite and within 50 u D of the exact ones in every component for all angles, D being the sum of the magnitudes of the rates plus 2^(emin+p). A local angular velocity w converted to Euler-angle rates (of either class) and back is, in every component, within 400 u W / |cos y| of w, W being the sum of its magnitudes plus 2^(emin+p). Finding: the factor 1/|cos y| is real: at the double nearest to pi/2 the angular velocity (1, 0, 1) returns from EulerAnglesXyzDiff with the third component 0 or 2, without any exception.", "quantifier": "all binary formats at least as precise as float, all angles, all rates with sum of magnitudes at most 2^(emax-5); for the round trip all angles with cos(y)^2 >= 2^(emin+p) and angular velocities with (W + 1) / cos(y)^2 <= 2^(emax-7)", "why_tests_cant": "error bounds for all angles and rates and all formats, including the neighbourhood of the singularity", "anchors": [{"file": "include/kindr/rotations/LocalAngularVelocity.hpp", "symbols": ["RotationDiffConversionTraits"]}, {"file": "include/kindr/rotations/GlobalAngularVelocity.hpp", "symbols": ["RotationDiffConversionTraits"]}, {"file": "include/kindr/rotations/EulerAnglesXyzDiff.hpp", "symbols": ["RotationDiffConversionTraits"]}, {"file": "include/kindr/rotations/EulerAnglesZyxDiff.hpp", "symbols": ["RotationDiffConversionTraits"]}]}
