import Verif.Model.Pose

/-!
# Mutating methods in memory

The rest of the model is value-based: a mutating method is a function from the old value to the new one.  In C++ the object and the arguments
are references into memory, and they may be the same object or a part of it (`v += v`, `v *= v(0)`, `w.getForce() += w.getForce()`,
`m.invert()`, `T = T * T`).  Here the mutating methods are sequences of loads and stores of single numbers.  A memory cell holds one number;
Eigen evaluates a coefficient-wise assignment cell by cell, in an order that depends on vectorization and unrolling, so the order is a
parameter.  Temporaries live at an address of their own.  Simplifications: one number is one address, objects consist of numbers only (the
virtual-table pointer of `Wrench` is left out), the numbers are exact reals.
-/

set_option autoImplicit false

open Classical

noncomputable section
namespace Kindr

/-- The memory: a number at every address. -/
abbrev Mem := ℕ → ℝ

/-- Eigen's coefficient-wise assignment to the object at address `a` (as in include/kindr/vectors/Vector.hpp:406): the coefficients are
computed and stored one after the other, in the given order; `g i m` is the new coefficient `i`, computed from the current memory. -/
def coeffLoop (a : ℕ) (g : ℕ → Mem → ℝ) : List ℕ → Mem → Mem
  | [], m => m
  | i :: is, m => coeffLoop a g is (Function.update m (a + i) (g i m))

/-- `Vector::operator+=`, include/kindr/vectors/Vector.hpp:405-408 (also used by `LocalAngularVelocity` and `GlobalAngularVelocity`,
include/kindr/rotations/LocalAngularVelocity.hpp:167-170); the vector at `b` is added to the one at `a`. -/
def memAdd (a b : ℕ) (o : List ℕ) : Mem → Mem := coeffLoop a (fun i m => m (a + i) + m (b + i)) o

/-- `Vector::operator-=`, include/kindr/vectors/Vector.hpp:414-417. -/
def memSub (a b : ℕ) (o : List ℕ) : Mem → Mem := coeffLoop a (fun i m => m (a + i) - m (b + i)) o

/-- `Vector::operator*=`, include/kindr/vectors/Vector.hpp:423-427 and 433-437: the factor is passed by value. -/
def memMul (a : ℕ) (factor : ℝ) (o : List ℕ) : Mem → Mem := coeffLoop a (fun i m => m (a + i) * factor) o

/-- `Vector::operator/=`, include/kindr/vectors/Vector.hpp:443-447 and 453-457: the divisor is passed by value. -/
def memDiv (a : ℕ) (divisor : ℝ) (o : List ℕ) : Mem → Mem := coeffLoop a (fun i m => m (a + i) / divisor) o

/-- `v *= x` where the argument expression `x` is the number at address `c` (for instance `v *= v(0)`): the value parameter of
include/kindr/vectors/Vector.hpp:424 is initialized before the loop. -/
def memMulElem (a c : ℕ) (o : List ℕ) (m : Mem) : Mem := memMul a (m c) o m

/-- `v /= x` where the argument is the number at address `c`, include/kindr/vectors/Vector.hpp:444. -/
def memDivElem (a c : ℕ) (o : List ℕ) (m : Mem) : Mem := memDiv a (m c) o m

/-- Copy assignment of an object of which the coefficients are listed in `o` (`operator=` of all classes, for instance
include/kindr/vectors/Vector.hpp:342, include/kindr/phys_quant/Wrench.hpp:93-101, 146). -/
def memCopy (a b : ℕ) (o : List ℕ) : Mem → Mem := coeffLoop a (fun i m => m (b + i)) o

/-- `setZero()`, include/kindr/vectors/Vector.hpp:145-148. -/
def memZero (a : ℕ) (o : List ℕ) : Mem → Mem := coeffLoop a (fun _ _ => 0) o

/-- `Vector::normalize()`, include/kindr/vectors/Vector.hpp:512-515: Eigen computes the squared norm first and divides by its root if it is
positive; `n` is the dimension. -/
def memNormalize (n a : ℕ) (o : List ℕ) (m : Mem) : Mem :=
  let z := ∑ i : Fin n, m (a + i) * m (a + i)
  if 0 < z then memDiv a (Real.sqrt z) o m else m

/-- `Wrench::operator+=`, include/kindr/phys_quant/Wrench.hpp:186-190: the force (cells 0 to 2), then the torque (cells 3 to 5). -/
def memWrenchAdd (a b : ℕ) (o₁ o₂ : List ℕ) (m : Mem) : Mem := memAdd (a + 3) (b + 3) o₂ (memAdd a b o₁ m)

/-- `Wrench::operator-=`, include/kindr/phys_quant/Wrench.hpp:196-200. -/
def memWrenchSub (a b : ℕ) (o₁ o₂ : List ℕ) (m : Mem) : Mem := memSub (a + 3) (b + 3) o₂ (memSub a b o₁ m)

/-- `w *= x` where the argument is the number at address `c`, include/kindr/phys_quant/Wrench.hpp:207-211: the value parameter is
initialized before the force is changed. -/
def memWrenchMulElem (a c : ℕ) (o₁ o₂ : List ℕ) (m : Mem) : Mem :=
  let factor := m c
  memMul (a + 3) factor o₂ (memMul a factor o₁ m)

/-- `w /= x` where the argument is the number at address `c`, include/kindr/phys_quant/Wrench.hpp:218-222. -/
def memWrenchDivElem (a c : ℕ) (o₁ o₂ : List ℕ) (m : Mem) : Mem :=
  let divisor := m c
  memDiv (a + 3) divisor o₂ (memDiv a divisor o₁ m)

/-- Copy assignment of a wrench, include/kindr/phys_quant/Wrench.hpp:146: member by member. -/
def memWrenchCopy (a b : ℕ) (o₁ o₂ : List ℕ) (m : Mem) : Mem := memCopy (a + 3) (b + 3) o₂ (memCopy a b o₁ m)

/-! ## Rotations and poses -/

/-- The number of coefficients of a rotation object. -/
def repSize : Kind → ℕ
  | .quat => 4
  | .mat => 9
  | .aa => 4
  | _ => 3

/-- The coefficients in the order in which Eigen stores them: a quaternion as `x y z w`, a matrix column by column, an angle-axis rotation as
`axis angle` (members used at include/kindr/quaternions/Quaternion.hpp:186-200, include/kindr/rotations/RotationMatrix.hpp:185-194,
include/kindr/rotations/AngleAxis.hpp:191-206). -/
def repStore : (k : Kind) → Rep k → List ℝ
  | .quat => fun (q : Quat) => [q.x, q.y, q.z, q.w]
  | .mat => fun (m : M3) => [m.m00, m.m10, m.m20, m.m01, m.m11, m.m21, m.m02, m.m12, m.m22]
  | .aa => fun (a : AngAx) => [a.axis.x, a.axis.y, a.axis.z, a.angle]
  | .rv => fun (r : RotVec) => [r.v.x, r.v.y, r.v.z]
  | .xyz => fun (e : EulXyz) => [e.v.x, e.v.y, e.v.z]
  | .zyx => fun (e : EulZyx) => [e.v.x, e.v.y, e.v.z]

/-- Reading a 3-vector (member functions of include/kindr/vectors/Vector.hpp:186-193). -/
def loadV (m : Mem) (a : ℕ) : V3 := ⟨m a, m (a + 1), m (a + 2)⟩

/-- Reading a rotation object, the inverse of `repStore` (accessors as cited there). -/
def loadR (m : Mem) (a : ℕ) : (k : Kind) → Rep k
  | .quat => (⟨m (a + 3), m a, m (a + 1), m (a + 2)⟩ : Quat)
  | .mat => (⟨m a, m (a + 3), m (a + 6), m (a + 1), m (a + 4), m (a + 7), m (a + 2), m (a + 5), m (a + 8)⟩ : M3)
  | .aa => (⟨m (a + 3), loadV m a⟩ : AngAx)
  | .rv => (⟨loadV m a⟩ : RotVec)
  | .xyz => (⟨loadV m a⟩ : EulXyz)
  | .zyx => (⟨loadV m a⟩ : EulZyx)

/-- Reading a wrench, include/kindr/phys_quant/Wrench.hpp:74-91. -/
def loadW (m : Mem) (a : ℕ) : Wrench := ⟨⟨fun i => m (a + i)⟩, ⟨fun i => m (a + 3 + i)⟩⟩

/-- Reading a pose, include/kindr/poses/HomogeneousTransformation.hpp:78-92: position (cells 0 to 2), then rotation. -/
def loadP (m : Mem) (a : ℕ) (k : Kind) : Pose k := ⟨loadV m a, loadR m (a + 3) k⟩

/-- A temporary object with the given coefficients is constructed at address `t`. -/
def construct (t : ℕ) (l : List ℝ) (m : Mem) : Mem := fun x => if t ≤ x ∧ x < t + l.length then l.getD (x - t) 0 else m x

/-- `*this = f(..)` with a function that returns a temporary: the temporary is constructed at `t` and copied to `a`
(for instance include/kindr/rotations/RotationQuaternion.hpp:298-301, include/kindr/rotations/AngleAxis.hpp:169-172,
include/kindr/rotations/RotationVector.hpp:145-148, 253-256). -/
def memAssign (t a : ℕ) (l : List ℝ) (o : List ℕ) (m : Mem) : Mem := memCopy a t o (construct t l m)

/-- `RotationMatrix::invert()` and `transpose()`, include/kindr/rotations/RotationMatrix.hpp:144-174: the coefficients of the temporary are
filled from the transposed expression, one by one, and then copied; coefficient `i` is in row `i % 3`, column `i / 3`. -/
def memTranspose (t a : ℕ) (o₁ o₂ : List ℕ) (m : Mem) : Mem :=
  memCopy a t o₂ (coeffLoop t (fun i m => m (a + (3 * (i % 3) + i / 3))) o₁ m)

/-- `invert()` of the rotation classes, include/kindr/rotations/RotationQuaternion.hpp:298-301,
include/kindr/rotations/RotationMatrix.hpp:153-156, include/kindr/rotations/AngleAxis.hpp:169-172,
include/kindr/rotations/RotationVector.hpp:145-148, include/kindr/rotations/EulerAnglesXyz.hpp:140-143,
include/kindr/rotations/EulerAnglesZyx.hpp:159-162. -/
def memInvert (t a : ℕ) (k : Kind) (o₁ o₂ : List ℕ) (m : Mem) : Mem :=
  match k with
  | .mat => memTranspose t a o₁ o₂ m
  | k => memAssign t a (repStore k (inverted k (loadR m a k))) o₂ m

/-- `setUnique()`, include/kindr/rotations/RotationQuaternion.hpp:422-425, include/kindr/rotations/AngleAxis.hpp:304-307,
include/kindr/rotations/RotationVector.hpp:253-256, include/kindr/rotations/EulerAnglesXyz.hpp:325-328. -/
def memUnique (P : Prec) (t a : ℕ) (k : Kind) (o : List ℕ) (m : Mem) : Mem :=
  memAssign t a (repStore k (getUnique P k (loadR m a k))) o m

/-- `r = s` for rotations of any two classes, include/kindr/rotations/RotationQuaternion.hpp:241-244,
include/kindr/rotations/RotationMatrix.hpp:126-129, include/kindr/rotations/AngleAxis.hpp:141-144. -/
def memConvert (P : Prec) (t a b : ℕ) (d s : Kind) (o : List ℕ) (m : Mem) : Mem :=
  memAssign t a (repStore d (conv P d s (loadR m b s))) o m

/-- `r = (R)(s * u)`, include/kindr/rotations/RotationBase.hpp:256-259: the product is a temporary of the class of the left factor and is
converted to the class of `r`. -/
def memProduct (P : Prec) (t a b c : ℕ) (d k₁ k₂ : Kind) (o : List ℕ) (m : Mem) : Mem :=
  memAssign t a (repStore d (conv P d k₁ (mult P k₁ k₂ (loadR m b k₁) (loadR m c k₂)))) o m

/-- `x = r.rotate(y)`, include/kindr/rotations/RotationBase.hpp:318-320. -/
def memRotate (P : Prec) (t a b c : ℕ) (k : Kind) (o : List ℕ) (m : Mem) : Mem :=
  let v := rotate P k (loadR m b k) (loadV m c)
  memAssign t a [v.x, v.y, v.z] o m

/-- `x = T.transform(y)`, include/kindr/poses/PoseBase.hpp:123-125. -/
def memTransform (P : Prec) (t a b c : ℕ) (k : Kind) (o : List ℕ) (m : Mem) : Mem :=
  let v := (loadP m b k).transform P k (loadV m c)
  memAssign t a [v.x, v.y, v.z] o m

/-- The coefficients of a pose in memory. -/
def poseStore (k : Kind) (T : Pose k) : List ℝ := [T.position.x, T.position.y, T.position.z] ++ repStore k T.rotation

/-- `T = A * B`, include/kindr/poses/PoseBase.hpp:138-140, include/kindr/poses/HomogeneousTransformation.hpp:180-184. -/
def memPoseProduct (P : Prec) (t a b c : ℕ) (k : Kind) (o : List ℕ) (m : Mem) : Mem :=
  memAssign t a (poseStore k (Pose.mult P k k (loadP m b k) (loadP m c k))) o m

/-- `operator()(other)` of `Quaternion` and `UnitQuaternion`, include/kindr/quaternions/Quaternion.hpp:140-158, 359-379: four stores, `w` (cell 3)
first. -/
def memQuatCall (a b : ℕ) (m : Mem) : Mem :=
  let m := Function.update m (a + 3) (m (b + 3))
  let m := Function.update m a (m b)
  let m := Function.update m (a + 1) (m (b + 1))
  Function.update m (a + 2) (m (b + 2))

/-! ## Programs -/

/-- A variable of a program: a 3-vector, a wrench, a rotation or a pose; `tmp` is the place of temporaries.  (Not part of the library; it
names the objects of a user program.) -/
inductive Block where
  | vec (i : ℕ)
  | wrench (i : ℕ)
  | rot (i : ℕ)
  | pose (i : ℕ)
  | tmp

/-- A reference to a 3-vector: a variable, or a part of one, as returned by `getForce()`, `getTorque()`
(include/kindr/phys_quant/Wrench.hpp:74-91) and `getPosition()` (include/kindr/poses/HomogeneousTransformation.hpp:78-84). -/
inductive VRef where
  | var (i : ℕ)
  | force (i : ℕ)
  | torque (i : ℕ)
  | position (i : ℕ)

/-- A reference to a rotation: a variable or `getRotation()` of a pose (include/kindr/poses/HomogeneousTransformation.hpp:86-92). -/
inductive RRef where
  | var (i : ℕ)
  | ofPose (i : ℕ)

/-- A statement of a program, one call of a mutating method or one assignment (the methods are cited at the definitions above). -/
inductive Call where
  | addV (x y : VRef)
  | subV (x y : VRef)
  | mulV (x y : VRef) (i : Fin 3)
  | divV (x y : VRef) (i : Fin 3)
  | copyV (x y : VRef)
  | zeroV (x : VRef)
  | normalizeV (x : VRef)
  | addW (x y : ℕ)
  | subW (x y : ℕ)
  | mulW (x : ℕ) (y : VRef) (i : Fin 3)
  | divW (x : ℕ) (y : VRef) (i : Fin 3)
  | copyW (x y : ℕ)
  | invert (r : RRef)
  | setUnique (r : RRef)
  | convert (r s : RRef)
  | product (r s u : RRef)
  | rotate (x : VRef) (r : RRef) (y : VRef)
  | transform (x : VRef) (p : ℕ) (y : VRef)
  | productP (p q s : ℕ)

/-- The types of the variables and the addresses of the objects. -/
structure Layout where
  kind : ℕ → Kind
  poseKind : Kind
  base : Block → ℕ

/-- The number of cells of an object. -/
def Layout.size (L : Layout) : Block → ℕ
  | .vec _ => 3
  | .wrench _ => 6
  | .rot i => repSize (L.kind i)
  | .pose _ => 3 + repSize L.poseKind
  | .tmp => 36

/-- The address a vector reference stands for. -/
def Layout.vaddr (L : Layout) : VRef → ℕ
  | .var i => L.base (.vec i)
  | .force i => L.base (.wrench i)
  | .torque i => L.base (.wrench i) + 3
  | .position i => L.base (.pose i)

/-- The class of a referenced rotation. -/
def Layout.rkind (L : Layout) : RRef → Kind
  | .var i => L.kind i
  | .ofPose _ => L.poseKind

/-- The address a rotation reference stands for. -/
def Layout.raddr (L : Layout) : RRef → ℕ
  | .var i => L.base (.rot i)
  | .ofPose i => L.base (.pose i) + 3

/-- One statement in memory; `o j n` is the order in which the `j`-th loop of the statement visits `n` coefficients. -/
def Layout.exec (L : Layout) (P : Prec) (o : ℕ → ℕ → List ℕ) : Call → Mem → Mem
  | .addV x y => memAdd (L.vaddr x) (L.vaddr y) (o 0 3)
  | .subV x y => memSub (L.vaddr x) (L.vaddr y) (o 0 3)
  | .mulV x y i => memMulElem (L.vaddr x) (L.vaddr y + i) (o 0 3)
  | .divV x y i => memDivElem (L.vaddr x) (L.vaddr y + i) (o 0 3)
  | .copyV x y => memCopy (L.vaddr x) (L.vaddr y) (o 0 3)
  | .zeroV x => memZero (L.vaddr x) (o 0 3)
  | .normalizeV x => memNormalize 3 (L.vaddr x) (o 0 3)
  | .addW x y => memWrenchAdd (L.base (.wrench x)) (L.base (.wrench y)) (o 0 3) (o 1 3)
  | .subW x y => memWrenchSub (L.base (.wrench x)) (L.base (.wrench y)) (o 0 3) (o 1 3)
  | .mulW x y i => memWrenchMulElem (L.base (.wrench x)) (L.vaddr y + i) (o 0 3) (o 1 3)
  | .divW x y i => memWrenchDivElem (L.base (.wrench x)) (L.vaddr y + i) (o 0 3) (o 1 3)
  | .copyW x y => memWrenchCopy (L.base (.wrench x)) (L.base (.wrench y)) (o 0 3) (o 1 3)
  | .invert r => memInvert (L.base .tmp) (L.raddr r) (L.rkind r) (o 0 (repSize (L.rkind r))) (o 1 (repSize (L.rkind r)))
  | .setUnique r => memUnique P (L.base .tmp) (L.raddr r) (L.rkind r) (o 0 (repSize (L.rkind r)))
  | .convert r s => memConvert P (L.base .tmp) (L.raddr r) (L.raddr s) (L.rkind r) (L.rkind s) (o 0 (repSize (L.rkind r)))
  | .product r s u => memProduct P (L.base .tmp) (L.raddr r) (L.raddr s) (L.raddr u) (L.rkind r) (L.rkind s) (L.rkind u)
      (o 0 (repSize (L.rkind r)))
  | .rotate x r y => memRotate P (L.base .tmp) (L.vaddr x) (L.raddr r) (L.vaddr y) (L.rkind r) (o 0 3)
  | .transform x p y => memTransform P (L.base .tmp) (L.vaddr x) (L.base (.pose p)) (L.vaddr y) L.poseKind (o 0 3)
  | .productP p q s => memPoseProduct P (L.base .tmp) (L.base (.pose p)) (L.base (.pose q)) (L.base (.pose s)) L.poseKind
      (o 0 (3 + repSize L.poseKind))

/-- A program, a sequence of statements, each with the orders in which its loops run. -/
def Layout.execAll (L : Layout) (P : Prec) : List (Call × (ℕ → ℕ → List ℕ)) → Mem → Mem
  | [], m => m
  | c :: cs, m => L.execAll P cs (L.exec P c.2 c.1 m)

end Kindr
