import Verif.Model.LinAlg
import Verif.Model.Scalar
import Verif.Model.Eigen
import Verif.Model.Quaternion
import Verif.Model.Rotation
import Verif.Spec.Rotation
import Verif.Lemmas.LinAlg
import Verif.Lemmas.SO3
import Verif.Lemmas.Shoemake
import Verif.Lemmas.Conv
import Verif.Lemmas.RotVec
import Verif.Lemmas.Group
import Verif.Props.Scalar
import Verif.Props.Quaternion
import Verif.Props.Conversion
import Verif.Props.Group
import Verif.Props.Unique
import Verif.Lemmas.Metric
import Verif.Props.Metric
import Verif.Lemmas.EulerUnique
import Verif.Props.EulerUnique
import Verif.Model.Math
import Verif.Spec.Matrix
import Verif.Props.Math
import Verif.Lemmas.MatrixExp
import Verif.Props.ExpLog
import Verif.Props.Vectors2Rot
import Verif.Lemmas.Norm
import Verif.Props.SmallAngle
import Verif.Props.Fix
import Verif.Model.Deriv
import Verif.Spec.Deriv
import Verif.Lemmas.Deriv
import Verif.Props.Deriv
import Verif.Props.EulerRates
import Verif.Props.Jacobian
import Verif.Props.Kinematics
import Verif.Model.Accessors
import Verif.Spec.Accessors
import Verif.Props.Accessors
import Verif.Model.PhysicalType
import Verif.Model.Vector
import Verif.Model.Pose
import Verif.Spec.PhysicalType
import Verif.Spec.Vector
import Verif.Spec.Pose
import Verif.Props.PhysicalType
import Verif.Props.Vector
import Verif.Props.Pose
import Verif.Props.MixedEq
import Verif.Props.AngleAxisEq
import Verif.Model.Float
import Verif.Props.Float
import Verif.Lemmas.Perturb
import Verif.Lemmas.Near
import Verif.Props.Uniform
import Verif.Props.MatDrift
import Verif.Model.Matlab
import Verif.Spec.Matlab
import Verif.Spec.Special
import Verif.Spec.Program
import Verif.Spec.Machine
import Verif.Props.MatlabEuler
import Verif.Props.MatlabRot
import Verif.Props.MatlabDiff
import Verif.Props.Exact
import Verif.Props.PoseEq
import Verif.Props.Special
import Verif.Props.SpecialFinite
import Verif.Props.Checks
import Verif.Props.Integrate
import Verif.Props.FiniteDiff
import Verif.Props.Program
import Verif.Props.Machine
import Verif.Model.Binary
import Verif.Spec.Binary
import Verif.Props.Binary
import Verif.Props.FloatFix
import Verif.Props.PoseHistory
import Verif.Props.Linear
import Verif.Model.Cast
import Verif.Spec.Cast
import Verif.Lemmas.Stable
import Verif.Props.Cast
import Verif.Spec.Accepted
import Verif.Props.Accepted
import Verif.Props.Convention
import Verif.Props.RvNaN
import Verif.Model.FloatConv
import Verif.Spec.FloatConv
import Verif.Props.FloatBasic
import Verif.Props.FloatQuat
import Verif.Props.FloatRv
import Verif.Props.FloatMat
import Verif.Props.FloatAa
import Verif.Props.FloatRv2
import Verif.Props.FloatEuler
import Verif.Props.FloatConv
import Verif.Props.FloatOps
import Verif.Props.FloatInst
import Verif.Props.FloatTrip
import Verif.Props.FloatLoop
import Verif.Model.FloatLog
import Verif.Props.FloatLog
import Verif.Model.FloatPose
import Verif.Spec.FloatPose
import Verif.Props.FloatPose
import Verif.Model.FloatDeriv
import Verif.Props.FloatDeriv
import Verif.Props.FloatJac
import Verif.Model.FloatUnique
import Verif.Props.FloatUnique
import Verif.Spec.FloatProgram
import Verif.Props.FloatProgram
import Verif.Props.FloatCost
import Verif.Props.Calculus
import Verif.Props.Lipschitz
import Verif.Spec.Random
import Verif.Props.Random
import Verif.Model.SpecialOps
import Verif.Spec.Defined
import Verif.Props.Defined
import Verif.Spec.Rounded
import Verif.Props.Rounded
import Verif.Props.Interpolate
import Verif.Props.MatlabFullDiff
import Verif.Model.MatlabVis
import Verif.Spec.MatlabVis
import Verif.Props.MatlabVis
import Verif.Model.Print
import Verif.Spec.Print
import Verif.Props.Print
import Verif.Model.Memory
import Verif.Spec.Memory
import Verif.Props.Memory
import Verif.Model.Threads
import Verif.Spec.Threads
import Verif.Props.Threads
import Verif.Spec.Bits
import Verif.Props.Bits
import Verif.Props.Rewrap
import Verif.Model.Range
import Verif.Spec.Range
import Verif.Props.Range1
import Verif.Props.Range2
import Verif.Props.Range3
import Verif.Props.Range4
import Verif.Props.Range5
import Verif.Model.Align
import Verif.Props.Align1
import Verif.Props.Align2
import Verif.Props.Align3
import Verif.Props.Align4
import Verif.Props.Align5
import Verif.Props.Angles1
import Verif.Props.Angles2
import Verif.Props.Angles3
import Verif.Spec.Under
import Verif.Props.Under1
import Verif.Props.Under2
import Verif.Props.Under3
import Verif.Props.Under4
import Verif.Props.Under5
import Verif.Spec.ExpIeee
import Verif.Props.Exp1
import Verif.Props.Exp2
import Verif.Props.Exp3
import Verif.Props.Exp4
import Verif.Model.Throw
import Verif.Spec.Throw
import Verif.Props.Throw
import Verif.Model.Macro
import Verif.Props.Macro
import Verif.Props.Accel
import Verif.Model.Mixed
import Verif.Props.Mixed
import Verif.Model.LogIeee
import Verif.Spec.LogIeee
import Verif.Props.Log1
import Verif.Props.Log2
import Verif.Props.Log3
import Verif.Props.Log4
import Verif.Props.Log5
import Verif.Spec.PoseIeee
import Verif.Props.PoseIeee
import Verif.Model.VecIeee
import Verif.Spec.VecIeee
import Verif.Props.VecIeee1
import Verif.Props.VecIeee2
import Verif.Props.VecIeee3
import Verif.Spec.UniqueForm
import Verif.Props.UniqueForm
import Verif.Spec.Odometry
import Verif.Props.Odometry
import Verif.Spec.MatrixIeee
import Verif.Props.MatrixIeee1
import Verif.Props.MatrixIeee2
import Verif.Props.VecIeee4
import Verif.Model.VecIeee2
import Verif.Spec.VecIeee2
import Verif.Props.VecIeee5
import Verif.Props.VecIeee6
import Verif.Spec.Gimbal
import Verif.Props.Gimbal
import Verif.Model.RatesIeee
import Verif.Spec.Gimbal2
import Verif.Props.Gimbal2
import Verif.Spec.RatesIeee
import Verif.Props.RatesIeee
