import Verif.Vs.Model
import Mathlib.Tactic.LinearCombination
import Mathlib.Algebra.Order.Ring.Rat

/-! # Property C51: rotations are isometries and rotate by the stated angle -/

set_option linter.unusedSectionVars false

namespace AmrWind.Vs

variable {K : Type*} [Field K]

/-! ## Specification -/

/-- A linear map of vectors (applied as `v & t`, the way the code applies its rotations) that keeps dot
products, hence lengths and angles. -/
def Isometry (f : Vec K → Vec K) : Prop := ∀ v w, dot (f v) (f w) = dot v w

/-- It also keeps the handedness: cross products map to cross products. -/
def KeepsOrientation (f : Vec K → Vec K) : Prop := ∀ v w, f (cross v w) = cross (f v) (f w)

/-- Rodrigues' formula: the right-handed rotation of `v` by the angle `θ` about the unit axis `n`. -/
noncomputable def rodrigues (n : Vec ℝ) (θ : ℝ) (v : Vec ℝ) : Vec ℝ :=
  ⟨v.x * Real.cos θ + (cross n v).x * Real.sin θ + n.x * dot n v * (1 - Real.cos θ),
   v.y * Real.cos θ + (cross n v).y * Real.sin θ + n.y * dot n v * (1 - Real.cos θ),
   v.z * Real.cos θ + (cross n v).z * Real.sin θ + n.z * dot n v * (1 - Real.cos θ)⟩

/-! ## Quaternion tensors -/

theorem mag_pos {a : Vec ℝ} (h : a ≠ ⟨0, 0, 0⟩) : 0 < mag a := by
  unfold mag
  apply Real.sqrt_pos.mpr
  unfold magSqr
  by_contra hc
  push Not at hc
  have hx := mul_self_nonneg a.x
  have hy := mul_self_nonneg a.y
  have hz := mul_self_nonneg a.z
  apply h
  ext
  · exact mul_self_eq_zero.mp (by linarith)
  · exact mul_self_eq_zero.mp (by linarith)
  · exact mul_self_eq_zero.mp (by linarith)

theorem mag_sq (a : Vec ℝ) : mag a * mag a = a.x * a.x + a.y * a.y + a.z * a.z := by
  unfold mag
  apply Real.mul_self_sqrt
  unfold magSqr
  have hx := mul_self_nonneg a.x
  have hy := mul_self_nonneg a.y
  have hz := mul_self_nonneg a.z
  linarith

theorem quat_rodrigues {n : Vec ℝ} (hn : dot n n = 1) {c s : ℝ} (hcs : s ^ 2 + c ^ 2 = 1) (v : Vec ℝ) :
    vmul v (quatTensor c (-s * n.x) (-s * n.y) (-s * n.z)) =
      ⟨v.x * (2 * c ^ 2 - 1) + (cross n v).x * (2 * s * c) + n.x * dot n v * (1 - (2 * c ^ 2 - 1)),
       v.y * (2 * c ^ 2 - 1) + (cross n v).y * (2 * s * c) + n.y * dot n v * (1 - (2 * c ^ 2 - 1)),
       v.z * (2 * c ^ 2 - 1) + (cross n v).z * (2 * s * c) + n.z * dot n v * (1 - (2 * c ^ 2 - 1))⟩ := by
  unfold dot at hn
  ext <;> simp only [vmul, quatTensor, dot, cross]
  · linear_combination
      (2 * n.x * (n.x * v.x + n.y * v.y + n.z * v.z) - v.x) * hcs - s ^ 2 * v.x * hn
  · linear_combination
      (2 * n.y * (n.x * v.x + n.y * v.y + n.z * v.z) - v.y) * hcs - s ^ 2 * v.y * hn
  · linear_combination
      (2 * n.z * (n.x * v.x + n.y * v.y + n.z * v.z) - v.z) * hcs - s ^ 2 * v.z * hn

/-- The unit vector along a non-zero axis. -/
theorem unit_dot {a : Vec ℝ} (h : a ≠ ⟨0, 0, 0⟩) :
    dot (⟨a.x / mag a, a.y / mag a, a.z / mag a⟩ : Vec ℝ) ⟨a.x / mag a, a.y / mag a, a.z / mag a⟩ = 1 := by
  have hm := mag_pos h
  have hs := mag_sq a
  unfold dot
  field_simp
  nlinarith

/-- **C51.**  `v & quaternion(axis, angle)` is the right-handed rotation of `v` about the axis by `angle`
degrees, for any axis other than zero. -/
theorem quaternion_rotates {axis : Vec ℝ} (h : axis ≠ ⟨0, 0, 0⟩) (angle : ℝ) (v : Vec ℝ) :
    vmul v (quaternion axis angle) =
      rodrigues ⟨axis.x / mag axis, axis.y / mag axis, axis.z / mag axis⟩ (Real.pi * angle / 180) v := by
  have hn := unit_dot h
  set θ := Real.pi * angle / 180 with hθ
  have ec : Real.cos θ = 2 * Real.cos (θ / 2) ^ 2 - 1 := by
    rw [← Real.cos_two_mul]; congr 1; ring
  have es : Real.sin θ = 2 * Real.sin (θ / 2) * Real.cos (θ / 2) := by
    rw [← Real.sin_two_mul]; congr 1; ring
  have a1 : Real.cos (1 / 2 * (-1 * radians angle)) = Real.cos (θ / 2) := by
    rw [← Real.cos_neg (θ / 2)]; congr 1; unfold radians; rw [hθ]; ring
  have a2 : Real.sin (1 / 2 * (-1 * radians angle)) = -Real.sin (θ / 2) := by
    rw [← Real.sin_neg]; congr 1; unfold radians; rw [hθ]; ring
  unfold quaternion
  simp only [a1, a2, mul_div_assoc]
  rw [quat_rodrigues hn (Real.sin_sq_add_cos_sq (θ / 2)) v]
  unfold rodrigues
  rw [ec, es]

/-! ## Isometries -/

theorem quatTensor_isometry {q0 q1 q2 q3 : K} (h : q0 * q0 + q1 * q1 + q2 * q2 + q3 * q3 = 1) :
    Isometry (fun v => vmul v (quatTensor q0 q1 q2 q3)) := by
  intro v w
  simp only [vmul, quatTensor, dot]
  linear_combination
    (q0 * q0 + q1 * q1 + q2 * q2 + q3 * q3 + 1) * (v.x * w.x + v.y * w.y + v.z * w.z) * h

theorem quatTensor_orientation {q0 q1 q2 q3 : K} (h : q0 * q0 + q1 * q1 + q2 * q2 + q3 * q3 = 1) :
    KeepsOrientation (fun v => vmul v (quatTensor q0 q1 q2 q3)) := by
  intro v w
  have key : ∀ M : Ten K, M = quatTensor q0 q1 q2 q3 →
      cross (vmul v M) (vmul w M) =
        (q0 * q0 + q1 * q1 + q2 * q2 + q3 * q3) • vmul (cross v w) M := by
    intro M hM
    subst hM
    ext <;> simp only [vmul, quatTensor, cross, smul_x, smul_y, smul_z] <;> ring
  simp only [key _ rfl, h]
  ext <;> simp

theorem quaternion_unit {axis : Vec ℝ} (h : axis ≠ ⟨0, 0, 0⟩) (c s : ℝ) (hcs : s ^ 2 + c ^ 2 = 1) :
    c * c + s * axis.x / mag axis * (s * axis.x / mag axis) + s * axis.y / mag axis * (s * axis.y / mag axis) +
      s * axis.z / mag axis * (s * axis.z / mag axis) = 1 := by
  have hn := unit_dot h
  unfold dot at hn
  simp only [mul_div_assoc]
  linear_combination s ^ 2 * hn + hcs

/-- **C51.**  The quaternion rotation keeps dot products (so lengths and angles) and handedness. -/
theorem quaternion_isometry {axis : Vec ℝ} (h : axis ≠ ⟨0, 0, 0⟩) (angle : ℝ) :
    Isometry (fun v => vmul v (quaternion axis angle)) ∧
    KeepsOrientation (fun v => vmul v (quaternion axis angle)) := by
  have hu := quaternion_unit h (Real.cos (1 / 2 * (-1 * radians angle)))
    (Real.sin (1 / 2 * (-1 * radians angle))) (Real.sin_sq_add_cos_sq _)
  exact ⟨quatTensor_isometry hu, quatTensor_orientation hu⟩

theorem vmul_tcomp (v : Vec K) (s t : Ten K) : vmul v (tcomp s t) = vmul (vmul v s) t := by
  ext <;> simp only [vmul, tcomp] <;> ring

theorem mag_ex : mag (⟨1, 0, 0⟩ : Vec ℝ) = 1 := by unfold mag magSqr; norm_num
theorem mag_ey : mag (⟨0, 1, 0⟩ : Vec ℝ) = 1 := by unfold mag magSqr; norm_num
theorem mag_ez : mag (⟨0, 0, 1⟩ : Vec ℝ) = 1 := by unfold mag magSqr; norm_num

theorem half_angle (angle : ℝ) : radians angle = 2 * (1 / 2 * radians angle) := by ring

/-- **C51.**  The three axis rotations are the quaternion rotations about the coordinate axes. -/
theorem axis_rotations_are_quaternions (angle : ℝ) :
    xrot angle = quaternion ⟨1, 0, 0⟩ angle ∧ yrot angle = quaternion ⟨0, 1, 0⟩ angle ∧
    zrot angle = quaternion ⟨0, 0, 1⟩ angle := by
  have h1 : Real.cos (1 / 2 * (-1 * radians angle)) = Real.cos (1 / 2 * radians angle) := by
    rw [← Real.cos_neg]; congr 1; ring
  have h2 : Real.sin (1 / 2 * (-1 * radians angle)) = -Real.sin (1 / 2 * radians angle) := by
    rw [← Real.sin_neg]; congr 1; ring
  have ec : Real.cos (radians angle) = 2 * Real.cos (1 / 2 * radians angle) ^ 2 - 1 := by
    conv_lhs => rw [half_angle, Real.cos_two_mul]
  have es : Real.sin (radians angle) =
      2 * Real.sin (1 / 2 * radians angle) * Real.cos (1 / 2 * radians angle) := by
    conv_lhs => rw [half_angle, Real.sin_two_mul]
  have hcs := Real.sin_sq_add_cos_sq (1 / 2 * radians angle)
  unfold xrot yrot zrot quaternion quatTensor
  simp only [mag_ex, mag_ey, mag_ez, h1, h2, ec, es]
  refine ⟨?_, ?_, ?_⟩ <;> ext <;> simp only <;> (try ring1) <;>
    first
    | linear_combination hcs
    | linear_combination -hcs

/-- **C51.**  The composite rotation by three angles keeps dot products and handedness. -/
theorem rotation_isometry (angles : Vec ℝ) :
    Isometry (rotation angles) ∧ KeepsOrientation (rotation angles) := by
  have e : ∀ v, rotation angles v =
      vmul (vmul (vmul v (quaternion ⟨1, 0, 0⟩ angles.x)) (quaternion ⟨0, 1, 0⟩ angles.y))
        (quaternion ⟨0, 0, 1⟩ angles.z) := by
    intro v
    unfold rotation
    rw [vmul_tcomp, vmul_tcomp, (axis_rotations_are_quaternions _).1,
      (axis_rotations_are_quaternions _).2.1, (axis_rotations_are_quaternions _).2.2]
  have nx : (⟨1, 0, 0⟩ : Vec ℝ) ≠ ⟨0, 0, 0⟩ := by simp
  have ny : (⟨0, 1, 0⟩ : Vec ℝ) ≠ ⟨0, 0, 0⟩ := by simp
  have nz : (⟨0, 0, 1⟩ : Vec ℝ) ≠ ⟨0, 0, 0⟩ := by simp
  constructor
  · intro v w
    rw [e, e]
    rw [(quaternion_isometry nz angles.z).1, (quaternion_isometry ny angles.y).1,
      (quaternion_isometry nx angles.x).1]
  · intro v w
    rw [e, e, e]
    rw [← (quaternion_isometry nz angles.z).2, ← (quaternion_isometry ny angles.y).2,
      ← (quaternion_isometry nx angles.x).2]

/-- **C51.**  `rotate_euler_vec` (which normalises the axis first) is the same right-handed rotation for
every axis whose length is at least machine epsilon. -/
theorem rotate_euler_rotates {eps : ℝ} (he : 0 < eps) {axis : Vec ℝ} (h : eps ≤ mag axis) (angle : ℝ)
    (v : Vec ℝ) : rotateEulerVec eps axis angle v =
      rodrigues ⟨axis.x / mag axis, axis.y / mag axis, axis.z / mag axis⟩ (Real.pi * angle / 180) v := by
  have hm : 0 < mag axis := he.trans_le h
  have h0 : axis ≠ ⟨0, 0, 0⟩ := by
    intro hc
    rw [hc] at hm
    unfold mag magSqr at hm
    norm_num at hm
  have hd := unit_dot h0
  unfold rotateEulerVec normalize
  rw [if_neg (not_lt.mpr h)]
  set n : Vec ℝ := ⟨axis.x / mag axis, axis.y / mag axis, axis.z / mag axis⟩ with hn
  have hmn : mag n = 1 := by
    unfold mag
    rw [show magSqr n = 1 from hd, Real.sqrt_one]
  have hn0 : n ≠ ⟨0, 0, 0⟩ := by
    intro hc
    rw [hc] at hd
    simp [dot] at hd
  rw [quaternion_rotates hn0, hmn]
  simp

/-! ## Reflection -/

/-- **C51.**  Reflection in a unit direction: applied twice it is the identity, it keeps dot products, and
it turns the direction round and keeps everything orthogonal to it. -/
theorem reflect_spec {l : Vec K} (h : dot l l = 1) :
    (∀ v, reflect l (reflect l v) = v) ∧ Isometry (reflect l) ∧ reflect l l = -l ∧
    (∀ v, dot l v = 0 → reflect l v = v) := by
  unfold dot at h
  refine ⟨?_, ?_, ?_, ?_⟩
  · intro v
    ext <;> simp only [reflect, vmul]
    · linear_combination (4 * l.x * (l.x * v.x + l.y * v.y + l.z * v.z)) * h
    · linear_combination (4 * l.y * (l.x * v.x + l.y * v.y + l.z * v.z)) * h
    · linear_combination (4 * l.z * (l.x * v.x + l.y * v.y + l.z * v.z)) * h
  · intro v w
    simp only [reflect, vmul, dot]
    linear_combination
      (4 * (l.x * v.x + l.y * v.y + l.z * v.z) * (l.x * w.x + l.y * w.y + l.z * w.z)) * h
  · ext <;> simp only [reflect, vmul, neg_x, neg_y, neg_z]
    · linear_combination (-2 * l.x) * h
    · linear_combination (-2 * l.y) * h
    · linear_combination (-2 * l.z) * h
  · intro v hv
    unfold dot at hv
    ext <;> simp only [reflect, vmul]
    · linear_combination (-2 * l.x) * hv
    · linear_combination (-2 * l.y) * hv
    · linear_combination (-2 * l.z) * hv

/-! ## The rotation that takes one unit vector to another -/

/-- The closed form of the matrix: `g v + k × v + r (k·v) k` with `k = src × dst`, `g = dst·src`,
`r = 1/(1+g)`. -/
theorem rotationMatrix_apply {eps : ℝ} (he : 0 < eps) {dst src : Vec ℝ} (hd : dot dst dst = 1)
    (hs : dot src src = 1) (hfar : eps * 100 ≤ 1 + dot dst src) (v : Vec ℝ) :
    tmul (rotationMatrix eps dst src) v = (dot dst src) • v + cross (cross src dst) v +
      (1 / (1 + dot dst src) * dot (cross src dst) v) • cross src dst := by
  have hmd : mag dst = 1 := by
    unfold mag; rw [show magSqr dst = 1 from hd, Real.sqrt_one]
  have hpos : 0 < 1 + dot dst src := lt_of_lt_of_le (by positivity) hfar
  have hb : ¬ |1 + dot dst src| < eps * 100 * mag dst := by
    rw [hmd, mul_one, abs_of_pos hpos]; exact not_lt.mpr hfar
  unfold rotationMatrix
  simp only [if_neg hb]
  obtain ⟨r, hr⟩ : ∃ r, 1 / (1 + dot dst src) = r := ⟨_, rfl⟩
  have hr1 : r * (1 + dot dst src) = 1 := by rw [← hr]; field_simp
  rw [hr]
  unfold dot at hd hs hr1
  obtain ⟨a, b, c⟩ := dst
  obtain ⟨p, q, s⟩ := src
  simp only at hd hs hr1
  ext <;> simp only [tmul, tadd, tid, skewCross, tscale, tcomp, cross, add_x, add_y, add_z, smul_x,
    smul_y, smul_z, dot]
  · linear_combination -v.x * (1 - (a * p + b * q + c * s)) * hr1 -
      v.x * r * (p * p + q * q + s * s) * hd - v.x * r * hs
  · linear_combination -v.y * (1 - (a * p + b * q + c * s)) * hr1 -
      v.y * r * (p * p + q * q + s * s) * hd - v.y * r * hs
  · linear_combination -v.z * (1 - (a * p + b * q + c * s)) * hr1 -
      v.z * r * (p * p + q * q + s * s) * hd - v.z * r * hs

/-- **C51.**  `rotation_matrix(dst, src)` takes the unit vector `src` to the unit vector `dst` and keeps
dot products, unless the two are nearly opposite. -/
theorem rotationMatrix_maps {eps : ℝ} (he : 0 < eps) {dst src : Vec ℝ} (hd : dot dst dst = 1)
    (hs : dot src src = 1) (hfar : eps * 100 ≤ 1 + dot dst src) :
    tmul (rotationMatrix eps dst src) src = dst ∧ Isometry (tmul (rotationMatrix eps dst src)) := by
  have hpos : 0 < 1 + dot dst src := lt_of_lt_of_le (by positivity) hfar
  have hkk : dot (cross src dst) (cross src dst) = 1 - dot dst src ^ 2 := by
    have : dot (cross src dst) (cross src dst) = dot dst dst * dot src src - dot dst src ^ 2 := by
      simp only [dot, cross]; ring
    rw [this, hd, hs]; ring
  constructor
  · rw [rotationMatrix_apply he hd hs hfar]
    have h0 : dot (cross src dst) src = 0 := by simp only [dot, cross]; ring
    rw [h0, mul_zero]
    unfold dot at hs
    ext <;> simp only [add_x, add_y, add_z, smul_x, smul_y, smul_z, cross, dot]
    · linear_combination dst.x * hs
    · linear_combination dst.y * hs
    · linear_combination dst.z * hs
  · intro v w
    rw [rotationMatrix_apply he hd hs hfar, rotationMatrix_apply he hd hs hfar]
    obtain ⟨r, hr⟩ : ∃ r, 1 / (1 + dot dst src) = r := ⟨_, rfl⟩
    have hr1 : r * (1 + dot dst src) = 1 := by rw [← hr]; field_simp
    rw [hr]
    generalize dot dst src = g at *
    generalize cross src dst = k at *
    unfold dot at hkk
    simp only [dot, cross, add_x, add_y, add_z, smul_x, smul_y, smul_z]
    linear_combination
      ((v.x * w.x + v.y * w.y + v.z * w.z) + r ^ 2 * (k.x * v.x + k.y * v.y + k.z * v.z) *
        (k.x * w.x + k.y * w.y + k.z * w.z)) * hkk +
      (k.x * v.x + k.y * v.y + k.z * v.z) * (k.x * w.x + k.y * w.y + k.z * w.z) *
        (r * (1 - g) + 1) * hr1

/-- For opposite unit vectors the result is minus the identity: it takes `src` to `dst` and keeps dot
products, but it is a point inversion, not a rotation (it reverses handedness). -/
theorem rotationMatrix_opposite {eps : ℝ} (he : 0 < eps) {dst src : Vec ℝ} (hd : dot dst dst = 1)
    (hopp : src = -dst) :
    tmul (rotationMatrix eps dst src) src = dst ∧ Isometry (tmul (rotationMatrix eps dst src)) ∧
    ¬ KeepsOrientation (tmul (rotationMatrix eps dst src)) := by
  have hmd : mag dst = 1 := by
    unfold mag; rw [show magSqr dst = 1 from hd, Real.sqrt_one]
  have hds : dot dst src = -1 := by
    subst hopp; unfold dot at *; simp only [neg_x, neg_y, neg_z]; linarith
  have hR : rotationMatrix eps dst src = tscale tid (-1) := by
    unfold rotationMatrix
    rw [hds, hmd]
    have : |(1 : ℝ) + -1| < eps * 100 * 1 := by
      rw [show (1 : ℝ) + -1 = 0 by ring, abs_zero]; positivity
    simp only [if_pos this]
  rw [hR]
  refine ⟨?_, ?_, ?_⟩
  · subst hopp
    ext <;> simp [tmul, tscale, tid]
  · intro v w
    simp only [dot, tmul, tscale, tid]; ring
  · intro hk
    have := congrArg Vec.z (hk ⟨1, 0, 0⟩ ⟨0, 1, 0⟩)
    simp [tmul, tscale, tid, cross] at this
    norm_num at this

/-- **C51.**  `unit_projection_matrix(a)` with a unit `a` projects onto the line of `a`. -/
theorem unitProjection_spec {a : Vec K} (h : dot a a = 1) (v : Vec K) :
    tmul (unitProjection a) v = (dot a v) • a ∧
    tmul (unitProjection a) (tmul (unitProjection a) v) = tmul (unitProjection a) v := by
  have e : ∀ v, tmul (unitProjection a) v = (dot a v) • a := by
    intro v
    ext <;> simp only [tmul, unitProjection, dot, smul_x, smul_y, smul_z] <;> ring
  refine ⟨e v, ?_⟩
  rw [e (tmul (unitProjection a) v), e v]
  unfold dot at *
  ext <;> simp only [smul_x, smul_y, smul_z]
  · linear_combination (a.x * v.x + a.y * v.y + a.z * v.z) * a.x * h
  · linear_combination (a.x * v.x + a.y * v.y + a.z * v.z) * a.y * h
  · linear_combination (a.x * v.x + a.y * v.y + a.z * v.z) * a.z * h

/-- Concrete cases: a unit direction with rational components, a non-zero axis, non-opposite directions. -/
example : dot (⟨3/5, 4/5, 0⟩ : Vec ℚ) ⟨3/5, 4/5, 0⟩ = 1 ∧
    reflect (⟨3/5, 4/5, 0⟩ : Vec ℚ) ⟨1, 0, 2⟩ = ⟨7/25, -24/25, 2⟩ := by
  constructor <;> decide +kernel

example : (⟨1, 2, 3⟩ : Vec ℝ) ≠ ⟨0, 0, 0⟩ := by simp

example : dot (⟨1, 0, 0⟩ : Vec ℝ) ⟨1, 0, 0⟩ = 1 ∧ dot (⟨0, 1, 0⟩ : Vec ℝ) ⟨0, 1, 0⟩ = 1 ∧
    (1 / 1000 : ℝ) * 100 ≤ 1 + dot (⟨1, 0, 0⟩ : Vec ℝ) ⟨0, 1, 0⟩ := by
  unfold dot; norm_num

/-- Quarter turn about z takes x to y. -/
example : vmul ⟨1, 0, 0⟩ (zrot 90) = ⟨0, 1, 0⟩ := by
  have h : radians 90 = Real.pi / 2 := by unfold radians; ring
  ext <;> simp [vmul, zrot, h]

end AmrWind.Vs
