import Verif.Model.Pose

/-!
# Stream output (`operator<<`)

The text that the classes write to a `std::ostream`.  `fmt x` is what `out << x` writes for a number (it depends on the precision, the
flags and the locale of the stream, and is a parameter); the width of the stream is 0, as it is by default.  Eigen's own printing of a matrix
with the default `IOFormat` is transcribed from its documentation: columns are separated by one space and rows by a line break, and all
coefficients are padded on the left with spaces to the length of the longest one.
-/

set_option autoImplicit false

open Classical

noncomputable section
namespace Kindr

/-- A text, a sequence of characters (`std::string`, include/kindr/common/source_file_pos.hpp:43-45). -/
abbrev Text := List Char

/-- `std::setw(w)` with the default fill and adjustment: spaces on the left (used by Eigen's matrix output,
include/kindr/rotations/RotationMatrix.hpp:274). -/
def padLeft (w : ℕ) (t : Text) : Text := List.replicate (w - t.length) ' ' ++ t

/-- Texts joined with a separator, as Eigen's matrix output does within a row and between rows
(include/kindr/rotations/RotationMatrix.hpp:274). -/
def joinWith (sep : Char) : List Text → Text
  | [] => []
  | [t] => t
  | t :: t' :: ts => t ++ sep :: joinWith sep (t' :: ts)

/-- Eigen `out << matrix` with the default format, for a matrix given by its rows
(used at include/kindr/rotations/RotationMatrix.hpp:274, include/kindr/vectors/Vector.hpp:617). -/
def eigenPrint (fmt : ℝ → Text) (rows : List (List ℝ)) : Text :=
  let width := ((rows.flatten).map fun x => (fmt x).length).foldr max 0
  joinWith '\n' (rows.map fun row => joinWith ' ' (row.map fun x => padLeft width (fmt x)))

/-- The text of one row vector, as written by `out << v.transpose()` (include/kindr/vectors/Vector.hpp:617). -/
def printRow (fmt : ℝ → Text) (cs : List ℝ) : Text := eigenPrint fmt [cs]

/-- `operator<<` of a `Vector`, include/kindr/vectors/Vector.hpp:616-619 (also `LocalAngularVelocity` and `GlobalAngularVelocity`,
which are vectors). -/
def Vec.print (fmt : ℝ → Text) {t : PhysicalType} {n : ℕ} (v : Vec t n) : Text := printRow fmt (List.ofFn v.coeff)

/-- `operator<<` of a quaternion, include/kindr/quaternions/QuaternionBase.hpp:163-166. -/
def Quat.print (fmt : ℝ → Text) (q : Quat) : Text :=
  fmt q.w ++ [' '] ++ fmt q.x ++ [' '] ++ fmt q.y ++ [' '] ++ fmt q.z

/-- The rows of a 3x3 matrix, in the order in which Eigen prints them (include/kindr/rotations/RotationMatrix.hpp:274). -/
def M3.rowList (m : M3) : List (List ℝ) := [[m.m00, m.m01, m.m02], [m.m10, m.m11, m.m12], [m.m20, m.m21, m.m22]]

/-- `operator<<` of the rotation classes: include/kindr/rotations/RotationQuaternion.hpp:456-459,
include/kindr/rotations/RotationMatrix.hpp:273-276, include/kindr/rotations/AngleAxis.hpp:318-321,
include/kindr/rotations/RotationVector.hpp:267-270, include/kindr/rotations/EulerAnglesXyz.hpp:441-444,
include/kindr/rotations/EulerAnglesZyx.hpp:484-487. -/
def printRotation (fmt : ℝ → Text) : (k : Kind) → Rep k → Text
  | .quat => fun q => Quat.print fmt q
  | .mat => fun m => eigenPrint fmt (M3.rowList m)
  | .aa => fun a => fmt (AngAx.angle a) ++ [',', ' '] ++ printRow fmt [(AngAx.axis a).x, (AngAx.axis a).y, (AngAx.axis a).z]
  | .rv => fun r => printRow fmt [(RotVec.v r).x, (RotVec.v r).y, (RotVec.v r).z]
  | .xyz => fun e => printRow fmt [(EulXyz.v e).x, (EulXyz.v e).y, (EulXyz.v e).z]
  | .zyx => fun e => printRow fmt [(EulZyx.v e).x, (EulZyx.v e).y, (EulZyx.v e).z]

/-- `operator<<` of `RotationQuaternionDiff`, include/kindr/rotations/RotationQuaternionDiff.hpp:187-190. -/
def QuatDiff.print (fmt : ℝ → Text) (d : QuatDiff) : Text :=
  fmt d.q.w ++ [' '] ++ fmt d.q.x ++ [' '] ++ fmt d.q.y ++ [' '] ++ fmt d.q.z

/-- `operator<<` of `RotationMatrixDiff`, include/kindr/rotations/RotationMatrixDiff.hpp:165-168. -/
def MatDiff.print (fmt : ℝ → Text) (d : MatDiff) : Text := eigenPrint fmt d.m.rowList

/-- `operator<<` of `EulerAnglesXyzDiff`, include/kindr/rotations/EulerAnglesXyzDiff.hpp:344-347. -/
def XyzDiff.print (fmt : ℝ → Text) (d : XyzDiff) : Text := printRow fmt [d.v.x, d.v.y, d.v.z]

/-- `operator<<` of `EulerAnglesZyxDiff`, include/kindr/rotations/EulerAnglesZyxDiff.hpp:251-254. -/
def ZyxDiff.print (fmt : ℝ → Text) (d : ZyxDiff) : Text := printRow fmt [d.v.x, d.v.y, d.v.z]

/-- `operator<<` of `LocalAngularVelocity` (inherited from `Vector`), include/kindr/vectors/Vector.hpp:616-619. -/
def LocalAV.print (fmt : ℝ → Text) (w : LocalAV) : Text := printRow fmt [w.v.x, w.v.y, w.v.z]

/-- `operator<<` of `GlobalAngularVelocity` (inherited from `Vector`), include/kindr/vectors/Vector.hpp:616-619. -/
def GlobalAV.print (fmt : ℝ → Text) (w : GlobalAV) : Text := printRow fmt [w.v.x, w.v.y, w.v.z]

/-- `operator<<` of a wrench, include/kindr/phys_quant/Wrench.hpp:242-245. -/
def Wrench.print (fmt : ℝ → Text) (w : Wrench) : Text := w.force.print fmt ++ [' '] ++ w.torque.print fmt

/-- `operator<<` of a twist, include/kindr/poses/Twist.hpp:84-87; `printD` is the output of the rotational part. -/
def Twist.print {D : Type} (fmt : ℝ → Text) (printD : D → Text) (w : Twist D) : Text :=
  printRow fmt [w.linear.x, w.linear.y, w.linear.z] ++ [' '] ++ printD w.rotational

/-- `operator<<` of a pose, include/kindr/poses/HomogeneousTransformation.hpp:111-114. -/
def Pose.print (P : Prec) (fmt : ℝ → Text) (k : Kind) (T : Pose k) : Text :=
  let M := T.getTransformationMatrix P k
  let row := fun (r : V4) => [r.c0, r.c1, r.c2, r.c3]
  eigenPrint fmt [row M.r0, row M.r1, row M.r2, row M.r3]

/-- `source_file_pos`, include/kindr/common/source_file_pos.hpp:40-48; the line number is given by its decimal text. -/
structure SourceFilePos where
  function : Text
  file : Text
  line : Text

/-- `source_file_pos::toString()`, include/kindr/common/source_file_pos.hpp:55-60, and its `operator<<`, lines 66-70. -/
def SourceFilePos.toText (s : SourceFilePos) : Text := s.file ++ [':'] ++ s.line ++ [':', ' '] ++ s.function ++ ['(', ')']

end Kindr
