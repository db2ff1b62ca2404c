import Verif.Model.Matlab

/-!
# What the Matlab visualizations draw (matlab/visualization)

Only the numbers handed to the graphics functions (`quiver3`, `text`, `plot`, `surf`, `hgtransform`) are modelled, as exact reals; colours,
line widths, axis limits, figure handles, the drawing itself and the pauses between frames are not.  `rand` is a parameter.
-/

set_option autoImplicit false

open Classical

noncomputable section
namespace Kindr.Matlab

/-- The arrow drawn by `quiver3(x, y, z, u, v, w, 0, ..)`: foot and direction (matlab/visualization/visualizeCoordinateSystem.m:50). -/
structure Arrow where
  foot : V3
  dir : V3

/-- The end point of an arrow. -/
def Arrow.tip (a : Arrow) : V3 := a.foot + a.dir

/-- What one call draws: the arrows and the positions of the labels; `none` is a label at `NaN`. -/
structure Drawing where
  arrows : Fin 3 → Arrow
  labels : List (Option V3)

/-- `addLabelToVector(axisHandle, vec, str)`, matlab/visualization/addLabelToVector.m:1-17: the position of the text; `rand` is the result of
`rand(3,1)`. -/
def addLabelToVector (rand vec : V3) : Option V3 :=
  let deltaDisplacement := (2 : ℝ) • rand - ⟨1, 1, 1⟩
  if deltaDisplacement.norm = 0 then none
  else
    let delta := (1 / deltaDisplacement.norm) • ((1 / 10 : ℝ) • deltaDisplacement)
    some (vec + delta)

/-- The unit vectors `B_u_BX`, `B_u_BY`, `B_u_BZ`, matlab/visualization/visualizeCoordinateSystem.m:42-44. -/
def unitVector : Fin 3 → V3
  | 0 => ⟨1, 0, 0⟩
  | 1 => ⟨0, 1, 0⟩
  | 2 => ⟨0, 0, 1⟩

/-- `visualizeCoordinateSystem(C_AB, h, name, lineWidth)`, matlab/visualization/visualizeCoordinateSystem.m:1-64; `none` is the error of
lines 10-14, `useName` says whether a name was given (lines 16-39), `rnd i` is the random vector used for the `i`-th label. -/
def visualizeCoordinateSystem (norm2 : M3 → ℝ) (C_AB : M3) (useName : Bool) (rnd : Fin 3 → V3) : Option Drawing :=
  if isRotationMatrix norm2 C_AB then
    let A_u_BX := C_AB.mulVec (unitVector 0)
    let A_u_BY := C_AB.mulVec (unitVector 1)
    let A_u_BZ := C_AB.mulVec (unitVector 2)
    some {
      arrows := fun
        | 0 => ⟨0, A_u_BX⟩
        | 1 => ⟨0, A_u_BY⟩
        | 2 => ⟨0, A_u_BZ⟩
      labels := if useName then
        [addLabelToVector (rnd 0) A_u_BX, addLabelToVector (rnd 1) A_u_BY, addLabelToVector (rnd 2) A_u_BZ] else [] }
  else none

/-- `visualizeHomogeneousTransform(T_AB, h, name, lineWidth)`, matlab/visualization/visualizeHomogeneousTransform.m:1-74, for
`T_AB = [C_AB A_r_AB; 0 0 0 1]` (lines 10-11 read only these blocks). -/
def visualizeHomogeneousTransform (norm2 : M3 → ℝ) (C_AB : M3) (A_r_AB : V3) (useName : Bool) (rnd : Fin 3 → V3) : Option Drawing :=
  if isRotationMatrix norm2 C_AB then
    let line_length : ℝ := 5 / 100
    let A_u_BX := C_AB.mulVec (line_length • unitVector 0)
    let A_u_BY := C_AB.mulVec (line_length • unitVector 1)
    let A_u_BZ := C_AB.mulVec (line_length • unitVector 2)
    some {
      arrows := fun
        | 0 => ⟨A_r_AB, A_u_BX⟩
        | 1 => ⟨A_r_AB, A_u_BY⟩
        | 2 => ⟨A_r_AB, A_u_BZ⟩
      labels := if useName then
        [addLabelToVector (rnd 0) A_u_BX, addLabelToVector (rnd 1) A_u_BY, addLabelToVector (rnd 2) A_u_BZ] else [] }
  else none

/-- `visualizeRotationFromRotationVector(A_phi_AB)`, matlab/visualization/visualizeRotationFromRotationVector.m:1-25: the drawing of frame B
and the label of the rotation vector (the drawing of frame A, line 17, is that of the identity). -/
def visualizeRotationFromRotationVector (norm2 : M3 → ℝ) (A_phi_AB : V3) (rnd : Fin 3 → V3) (rndPhi : V3) :
    Option (Drawing × Arrow × Option V3) :=
  let C_AB := mapRotationVectorToRotationMatrix A_phi_AB
  (visualizeCoordinateSystem norm2 C_AB true rnd).map fun d => (d, ⟨0, A_phi_AB⟩, addLabelToVector rndPhi A_phi_AB)

/-- `visualizeRotationFromAngleAxis(A_k_AB, theta)`, matlab/visualization/visualizeRotationFromAngleAxis.m:1-13. -/
def visualizeRotationFromAngleAxis (norm2 : M3 → ℝ) (A_k_AB : V3) (theta : ℝ) (rnd : Fin 3 → V3) (rndPhi : V3) :
    Option (Drawing × Arrow × Option V3) :=
  visualizeRotationFromRotationVector norm2 (theta • A_k_AB) rnd rndPhi

/-- The orientation of the body drawn in frame `k` (`k = 1, 2, ...`) of `animateAngularVelocityUsingExpMap(I_w_IB, rate, updateFrequency)`,
matlab/visualization/animateAngularVelocityUsingExpMap.m:29, 110-120, 138 (with `traceMemory = 1`, line 38, only `g = 1` occurs, so
`tk = k / updateFrequency`). -/
def animateExpMapFrame (expm : M3 → M3) (I_w_IB : V3) (rate updateFrequency : ℝ) (k : ℕ) : M3 :=
  let I_w_IB := rate • I_w_IB
  let tk := (k : ℝ) / updateFrequency
  let phi_IB := tk • I_w_IB
  expm (skew phi_IB)

/-- One pass of the loop of `animateAngularVelocityUsingEulerZYX`, matlab/visualization/animateAngularVelocityUsingEulerZYX.m:121-132: the
new angles.  `solve E b` is Matlab's `E \ b`; the singularity message (lines 125-129) has no effect on the angles. -/
def animateEulerStep (solve : M3 → V3 → V3) (I_w_IB : V3) (updateFrequency : ℝ) (angles : V3) (k : ℕ) : V3 :=
  let tk := (k : ℝ) / updateFrequency
  let E := getMapEulAngZYXDiffToAngVelInWorldFrame angles
  let anglesDot := solve E I_w_IB
  tk • anglesDot

/-- The angles after frame `k`, starting at `[0;0;0]` (matlab/visualization/animateAngularVelocityUsingEulerZYX.m:28, 111-132). -/
def animateEulerAngles (solve : M3 → V3 → V3) (I_w_IB : V3) (rate updateFrequency : ℝ) : ℕ → V3
  | 0 => 0
  | k + 1 => animateEulerStep solve (rate • I_w_IB) updateFrequency (animateEulerAngles solve I_w_IB rate updateFrequency k) (k + 1)

/-- The orientation of the body drawn in frame `k`, matlab/visualization/animateAngularVelocityUsingEulerZYX.m:133, 152. -/
def animateEulerFrame (solve : M3 → V3 → V3) (I_w_IB : V3) (rate updateFrequency : ℝ) (k : ℕ) : M3 :=
  mapEulerAnglesZYXToRotationMatrix false (animateEulerAngles solve I_w_IB rate updateFrequency k)

/-- The variables that `animateLinearVelocity` carries from frame to frame, matlab/visualization/animateLinearVelocity.m:56-67. -/
structure LinearState where
  I_r_IB : V3
  ph_IB : V3
  B_r_BP : V3
  B_r_IP : V3

/-- `I_v_IP`, the velocity of the point P in the inertial frame, matlab/visualization/animateLinearVelocity.m:128, 131. -/
def pointVelocityInertial (I_v_IB I_w_IB : V3) (C_IB : M3) (B_r_BP B_dr_BP : V3) : V3 :=
  let I_r_BP := C_IB.mulVec B_r_BP
  I_v_IB + C_IB.mulVec B_dr_BP + I_w_IB.cross I_r_BP

/-- `B_v_IP`, the rate of change of the body coordinates of P, matlab/visualization/animateLinearVelocity.m:135-140. -/
def pointVelocityBody (I_v_IP I_w_IB : V3) (C_IB : M3) (B_r_IP : V3) : V3 :=
  let B_w_IB := C_IB.transpose.mulVec I_w_IB
  let B_w_BI := -B_w_IB
  C_IB.transpose.mulVec I_v_IP + B_w_BI.cross B_r_IP

/-- The initial state of `animateLinearVelocity`, matlab/visualization/animateLinearVelocity.m:56-67; `r` and `p` are the random numbers of
lines 56 and 57. -/
def linearInit (r : V3) (p : ℝ) : LinearState :=
  let I_r_IB := r
  let ph_IB : V3 := ⟨0, 0, p⟩
  let C_IB := mapRotationVectorToRotationMatrix ph_IB
  let sineA : ℝ := 4 / 10
  let B_r_BP := sineA • (⟨Real.cos 0, Real.sin 0, 0⟩ : V3)
  let I_r_IP := I_r_IB + C_IB.mulVec B_r_BP
  ⟨I_r_IB, ph_IB, B_r_BP, C_IB.transpose.mulVec I_r_IP⟩

/-- One pass of the loop of `animateLinearVelocity`, matlab/visualization/animateLinearVelocity.m:114-147 (`dt = 1/50`, `angVel = 0.5`). -/
def linearStep (s : LinearState) (k : ℕ) : LinearState :=
  let dt : ℝ := 1 / 50
  let sineFreq : ℝ := 1 / 10
  let sineA : ℝ := 4 / 10
  let sineParam := 2 * Real.pi * sineFreq * k * dt
  let I_w_IB : V3 := ⟨0, 0, 5 / 10⟩
  let ph_IB := s.ph_IB + dt • I_w_IB
  let C_IB := mapRotationVectorToRotationMatrix ph_IB
  let I_v_IB := (2 * Real.pi * sineFreq * sineA) • (⟨-Real.sin sineParam, Real.cos sineParam, 0⟩ : V3)
  let I_r_IB := s.I_r_IB + dt • I_v_IB
  let B_dr_BP := (2 * Real.pi * sineFreq * sineA) • (⟨-Real.sin sineParam, Real.cos sineParam, 0⟩ : V3)
  let B_r_BP := s.B_r_BP + dt • B_dr_BP
  let I_v_IP := pointVelocityInertial I_v_IB I_w_IB C_IB B_r_BP B_dr_BP
  let B_v_IP := pointVelocityBody I_v_IP I_w_IB C_IB s.B_r_IP
  ⟨I_r_IB, ph_IB, B_r_BP, s.B_r_IP + dt • B_v_IP⟩

/-- The state after frame `k`, matlab/visualization/animateLinearVelocity.m:103-147. -/
def linearState (r : V3) (p : ℝ) : ℕ → LinearState
  | 0 => linearInit r p
  | k + 1 => linearStep (linearState r p k) (k + 1)

/-- The orientation of frame B drawn in frame `k`, matlab/visualization/animateLinearVelocity.m:118, 172-173. -/
def linearFrame (r : V3) (p : ℝ) (k : ℕ) : M3 := mapRotationVectorToRotationMatrix (linearState r p k).ph_IB

/-- The line `ylin` of `visualizeLinearization` for a scalar domain, matlab/visualization/visualizeLinearization.m:9, 32. -/
def linearizationLine (fcn : ℝ → (Fin 1 → ℝ) → Fin 1 → ℝ) (t0 : ℝ) (x0 : Fin 1 → ℝ) (xlin : ℝ) : ℝ :=
  let dfdp := numericalJacobian fcn t0 x0 defaultDelta
  fcn t0 x0 0 + dfdp 0 0 * (xlin - x0 0)

/-- The curve `y` for a scalar domain, matlab/visualization/visualizeLinearization.m:31. -/
def linearizationCurve (fcn : ℝ → (Fin 1 → ℝ) → Fin 1 → ℝ) (t0 : ℝ) (x : ℝ) : ℝ := fcn t0 (fun _ => x) 0

/-- The arrow at the base point for a scalar domain, matlab/visualization/visualizeLinearization.m:37-38. -/
def linearizationArrow (fcn : ℝ → (Fin 1 → ℝ) → Fin 1 → ℝ) (t0 : ℝ) (x0 : Fin 1 → ℝ) : ℝ × ℝ :=
  let dfdp := numericalJacobian fcn t0 x0 defaultDelta
  let scale : ℝ := -5 / 10
  (scale * dfdp 0 0, -scale)

/-- The plane `Zlin` for a two-dimensional domain, matlab/visualization/visualizeLinearization.m:9, 72. -/
def linearizationPlane (fcn : ℝ → (Fin 2 → ℝ) → Fin 1 → ℝ) (t0 : ℝ) (x0 : Fin 2 → ℝ) (xlin ylin : ℝ) : ℝ :=
  let dfdp := numericalJacobian fcn t0 x0 defaultDelta
  fcn t0 x0 0 + (dfdp 0 0 * (xlin - x0 0) + dfdp 0 1 * (ylin - x0 1))

/-- The surface `Z` for a two-dimensional domain, matlab/visualization/visualizeLinearization.m:71 (`fcn(0, [x(h),y(k)])`; `t0` is an
argument of the function that this line does not use). -/
def linearizationSurface (fcn : ℝ → (Fin 2 → ℝ) → Fin 1 → ℝ) (_t0 : ℝ) (x y : ℝ) : ℝ := fcn 0 ![x, y] 0

/-- The arrow at the base point for a two-dimensional domain, matlab/visualization/visualizeLinearization.m:82-83. -/
def linearizationArrow2 (fcn : ℝ → (Fin 2 → ℝ) → Fin 1 → ℝ) (t0 : ℝ) (x0 : Fin 2 → ℝ) : V3 :=
  let dfdp := numericalJacobian fcn t0 x0 defaultDelta
  let scale : ℝ := -5 / 10
  ⟨scale * dfdp 0 0, scale * dfdp 0 1, -scale⟩

end Kindr.Matlab
