import Mathlib.Algebra.Order.Field.Basic
import Mathlib.Analysis.SpecialFunctions.Trigonometric.Basic
import Mathlib.Analysis.Real.Sqrt
import Mathlib.Tactic.Ring
import Mathlib.Tactic.Linarith
import Mathlib.Tactic.FieldSimp

/-!
# Model of the small vector space library `amr-wind/core/vs` and of the rotations in
`utilities/sampling/SamplingUtils.cpp`

Vectors and tensors over a field `K`; the rotations use the real sine, cosine and square root.
-/

namespace AmrWind.Vs

variable {K : Type*} [Field K]

/-- core/vs/vector.H `VectorT`: three components. -/
@[ext] structure Vec (K : Type*) where
  x : K
  y : K
  z : K
  deriving DecidableEq

/-- core/vs/tensor.H:13-16 `TensorT`: nine components, row by row. -/
@[ext] structure Ten (K : Type*) where
  xx : K
  xy : K
  xz : K
  yx : K
  yy : K
  yz : K
  zx : K
  zy : K
  zz : K
  deriving DecidableEq

/-- vectorI.H:54-59 `operator+`. -/
instance : Add (Vec K) := ⟨fun a b => ⟨a.x + b.x, a.y + b.y, a.z + b.z⟩⟩
/-- vectorI.H:61-66 `operator-`. -/
instance : Sub (Vec K) := ⟨fun a b => ⟨a.x - b.x, a.y - b.y, a.z - b.z⟩⟩
/-- vectorI.H:10-15 unary `operator-`. -/
instance : Neg (Vec K) := ⟨fun a => ⟨-a.x, -a.y, -a.z⟩⟩
/-- vectorI.H:75-80 `operator*` with a scalar. -/
instance : SMul K (Vec K) := ⟨fun c a => ⟨a.x * c, a.y * c, a.z * c⟩⟩

@[simp] theorem add_x (a b : Vec K) : (a + b).x = a.x + b.x := rfl
@[simp] theorem add_y (a b : Vec K) : (a + b).y = a.y + b.y := rfl
@[simp] theorem add_z (a b : Vec K) : (a + b).z = a.z + b.z := rfl
@[simp] theorem sub_x (a b : Vec K) : (a - b).x = a.x - b.x := rfl
@[simp] theorem sub_y (a b : Vec K) : (a - b).y = a.y - b.y := rfl
@[simp] theorem sub_z (a b : Vec K) : (a - b).z = a.z - b.z := rfl
@[simp] theorem neg_x (a : Vec K) : (-a).x = -a.x := rfl
@[simp] theorem neg_y (a : Vec K) : (-a).y = -a.y := rfl
@[simp] theorem neg_z (a : Vec K) : (-a).z = -a.z := rfl
@[simp] theorem smul_x (c : K) (a : Vec K) : (c • a).x = a.x * c := rfl
@[simp] theorem smul_y (c : K) (a : Vec K) : (c • a).y = a.y * c := rfl
@[simp] theorem smul_z (c : K) (a : Vec K) : (c • a).z = a.z * c := rfl

/-- vectorI.H:89-94 `operator&`. -/
def dot (a b : Vec K) : K := a.x * b.x + a.y * b.y + a.z * b.z

/-- vectorI.H:96-104 `operator^`. -/
def cross (a b : Vec K) : Vec K :=
  ⟨a.y * b.z - a.z * b.y, a.z * b.x - a.x * b.z, a.x * b.y - a.y * b.x⟩

/-- vectorI.H:113-117 `mag_sqr`. -/
def magSqr (a : Vec K) : K := a.x * a.x + a.y * a.y + a.z * a.z

/-- vectorI.H:119-123 `mag`. -/
noncomputable def mag (a : Vec ℝ) : ℝ := Real.sqrt (magSqr a)

/-- tensorI.H:98-107 `operator&(tensor, vector)`. -/
def tmul (t : Ten K) (v : Vec K) : Vec K :=
  ⟨t.xx * v.x + t.xy * v.y + t.xz * v.z, t.yx * v.x + t.yy * v.y + t.yz * v.z,
    t.zx * v.x + t.zy * v.y + t.zz * v.z⟩

/-- tensorI.H:109-118 `operator&(vector, tensor)`. -/
def vmul (v : Vec K) (t : Ten K) : Vec K :=
  ⟨t.xx * v.x + t.yx * v.y + t.zx * v.z, t.xy * v.x + t.yy * v.y + t.zy * v.z,
    t.xz * v.x + t.yz * v.y + t.zz * v.z⟩

/-- tensorI.H:120-139 `operator&(tensor, tensor)`. -/
def tcomp (s t : Ten K) : Ten K where
  xx := s.xx * t.xx + s.xy * t.yx + s.xz * t.zx
  xy := s.xx * t.xy + s.xy * t.yy + s.xz * t.zy
  xz := s.xx * t.xz + s.xy * t.yz + s.xz * t.zz
  yx := s.yx * t.xx + s.yy * t.yx + s.yz * t.zx
  yy := s.yx * t.xy + s.yy * t.yy + s.yz * t.zy
  yz := s.yx * t.xz + s.yy * t.yz + s.yz * t.zz
  zx := s.zx * t.xx + s.zy * t.yx + s.zz * t.zx
  zy := s.zx * t.xy + s.zy * t.yy + s.zz * t.zy
  zz := s.zx * t.xz + s.zy * t.yz + s.zz * t.zz

/-- tensorI.H:141-149 `operator+`. -/
def tadd (s t : Ten K) : Ten K :=
  ⟨s.xx + t.xx, s.xy + t.xy, s.xz + t.xz, s.yx + t.yx, s.yy + t.yy, s.yz + t.yz, s.zx + t.zx, s.zy + t.zy,
    s.zz + t.zz⟩

/-- tensor.H:62-68 `identity`. -/
def tid : Ten K := ⟨1, 0, 0, 0, 1, 0, 0, 0, 1⟩

/-- trig_ops.H:31-35 `radians`. -/
noncomputable def radians (deg : ℝ) : ℝ := Real.pi * deg / 180

/-- tensorI.H:187-195 `xrot`. -/
noncomputable def xrot (angle : ℝ) : Ten ℝ :=
  let c := Real.cos (radians angle)
  let s := Real.sin (radians angle)
  ⟨1, 0, 0, 0, c, s, 0, -s, c⟩

/-- tensorI.H:197-205 `yrot`. -/
noncomputable def yrot (angle : ℝ) : Ten ℝ :=
  let c := Real.cos (radians angle)
  let s := Real.sin (radians angle)
  ⟨c, 0, -s, 0, 1, 0, s, 0, c⟩

/-- tensorI.H:207-215 `zrot`. -/
noncomputable def zrot (angle : ℝ) : Ten ℝ :=
  let c := Real.cos (radians angle)
  let s := Real.sin (radians angle)
  ⟨c, s, 0, -s, c, 0, 0, 0, 1⟩

/-- tensorI.H:228-244: the tensor of the quaternion `(q0,q1,q2,q3)`. -/
def quatTensor (q0 q1 q2 q3 : K) : Ten K where
  xx := q0 * q0 + q1 * q1 - q2 * q2 - q3 * q3
  xy := 2 * (q1 * q2 - q0 * q3)
  xz := 2 * (q0 * q2 + q1 * q3)
  yx := 2 * (q1 * q2 + q0 * q3)
  yy := q0 * q0 - q1 * q1 + q2 * q2 - q3 * q3
  yz := 2 * (q2 * q3 - q0 * q1)
  zx := 2 * (q1 * q3 - q0 * q2)
  zy := 2 * (q0 * q1 + q2 * q3)
  zz := q0 * q0 - q1 * q1 - q2 * q2 + q3 * q3

/-- tensorI.H:217-245 `quaternion`. -/
noncomputable def quaternion (axis : Vec ℝ) (angle : ℝ) : Ten ℝ :=
  let ang := -1 * radians angle
  let c := Real.cos (1 / 2 * ang)
  let s := Real.sin (1 / 2 * ang)
  quatTensor c (s * axis.x / mag axis) (s * axis.y / mag axis) (s * axis.z / mag axis)

/-- SamplingUtils.cpp:11-21 `reflect`. -/
def reflect (l v : Vec K) : Vec K :=
  vmul v ⟨1 - 2 * l.x * l.x, -2 * l.x * l.y, -2 * l.x * l.z, -2 * l.y * l.x, 1 - 2 * l.y * l.y,
    -2 * l.y * l.z, -2 * l.z * l.x, -2 * l.z * l.y, 1 - 2 * l.z * l.z⟩

/-- SamplingUtils.cpp:38-43 `rotation` (and 45-51 `canon_rotator`, the same body). -/
noncomputable def rotation (angles data : Vec ℝ) : Vec ℝ :=
  vmul data (tcomp (tcomp (xrot angles.x) (yrot angles.y)) (zrot angles.z))

/-- vectorI.H:125-136 `normalize`; `eps` is `numeric_limits<Real>::epsilon()`. -/
noncomputable def normalize (eps : ℝ) (a : Vec ℝ) : Vec ℝ :=
  if mag a < eps then ⟨0, 0, 0⟩ else ⟨a.x / mag a, a.y / mag a, a.z / mag a⟩

/-- SamplingUtils.cpp:23-28 `rotate_euler_vec`. -/
noncomputable def rotateEulerVec (eps : ℝ) (axis : Vec ℝ) (angle : ℝ) (v : Vec ℝ) : Vec ℝ :=
  vmul v (quaternion (normalize eps axis) angle)

/-- SamplingUtils.cpp:75-80 `skew_cross`. -/
def skewCross (a b : Vec K) : Ten K :=
  let c := cross b a
  ⟨0, -c.z, c.y, c.z, 0, -c.x, -c.y, c.x, 0⟩

/-- SamplingUtils.cpp:82-89 `scale`. -/
def tscale (t : Ten K) (a : K) : Ten K :=
  ⟨a * t.xx, a * t.xy, a * t.xz, a * t.yx, a * t.yy, a * t.yz, a * t.zx, a * t.zy, a * t.zz⟩

/-- SamplingUtils.cpp:59-73 `rotation_matrix`; `eps` is machine epsilon. -/
noncomputable def rotationMatrix (eps : ℝ) (dst src : Vec ℝ) : Ten ℝ :=
  let v := skewCross dst src
  let ang := dot dst src
  if |1 + ang| < eps * 100 * mag dst then tscale tid (-1)
  else tadd (tadd tid v) (tscale (tcomp v v) (1 / (1 + ang)))

/-- SamplingUtils.cpp:53-57 `unit_projection_matrix`. -/
def unitProjection (a : Vec K) : Ten K :=
  ⟨a.x * a.x, a.x * a.y, a.x * a.z, a.x * a.y, a.y * a.y, a.y * a.z, a.x * a.z, a.y * a.z, a.z * a.z⟩

end AmrWind.Vs
