import Verif.Vs.Model
import Verif.Interp.Model
import Mathlib.Algebra.BigOperators.Group.Finset.Basic
import Mathlib.Analysis.SpecialFunctions.Trigonometric.Inverse
import Mathlib.Analysis.SpecialFunctions.Pow.Real

/-!
# Model of the actuator disks (`wind_energy/actuator/disk`)

Arithmetic is exact over the reals.  Loops that accumulate are finite sums; a square root of a negative number and a
division by zero are `none`.
-/

namespace AmrWind.Disk

open AmrWind.Vs
open AmrWind.Interp (linear)
open scoped BigOperators

/-- A sum of vectors, the accumulation `v = v + w` of disk_ops.H:160-167 and Joukowsky_ops.H:305. -/
noncomputable def vsum (n : ℕ) (f : ℕ → Vec ℝ) : Vec ℝ :=
  ⟨∑ i ∈ Finset.range n, (f i).x, ∑ i ∈ Finset.range n, (f i).y, ∑ i ∈ Finset.range n, (f i).z⟩

/-! ## Areas (disk_ops.cpp:105-123) -/

/-- disk_ops.cpp:105-118 `area_section`: the area of one of the `nt` sectors of ring `i`. -/
noncomputable def areaSection (R : ℝ) (nr nt i : ℕ) : ℝ :=
  R * R / nr / nr * Real.pi / nt * (((i : ℝ) + 1) ^ 2 - (i : ℝ) ^ 2)

/-- disk_ops.cpp:107, 120-123 `weight`. -/
noncomputable def weight (R : ℝ) (nr nt i : ℕ) : ℝ := areaSection R nr nt i / (Real.pi * R * R)

/-- disk_ops.H:145-168: the disk average of the values at the points `ofs + j + i nt`. -/
noncomputable def diskMean (R : ℝ) (nr nt ofs : ℕ) (v : ℕ → ℝ) : ℝ :=
  ∑ i ∈ Finset.range nr, ∑ j ∈ Finset.range nt, v (j + i * nt + ofs) * weight R nr nt i

/-! ## Points (disk_ops.cpp:322-411) -/

/-- vectorI.H:125-136 `normalize`; `meps` is the machine epsilon. -/
noncomputable def normalize (meps : ℝ) (v : Vec ℝ) : Vec ℝ := if mag v < meps then ⟨0, 0, 0⟩ else (1 / mag v) • v

/-- disk_ops.cpp:322-326 `compute_coplanar_vector`. -/
noncomputable def coplanar (meps : ℝ) (normal : Vec ℝ) : Vec ℝ := normalize meps (cross ⟨0, 0, 1⟩ normal)

/-- disk_ops.cpp:328-344 `compute_and_normalize_coplanar_vector`: the normalized normal and the vector in the plane of the
disk; `none` is the abort for a normal too close to the vertical. -/
noncomputable def coplanarChecked (meps : ℝ) (normal : Vec ℝ) : Option (Vec ℝ × Vec ℝ) :=
  if meps < magSqr (cross ⟨0, 0, 1⟩ (normalize meps normal)) then
    some (normalize meps normal, coplanar meps (normalize meps normal))
  else none

/-- trig_ops.H `degrees`. -/
noncomputable def degrees (rad : ℝ) : ℝ := 180 * rad / Real.pi

/-- disk_ops.cpp:373-411 `compute_disk_points`: the point of ring `i` and sector `j` of a disk with centre `cc`, diameter
`D` and axis `axis`, moved by `off` diameters along the axis. -/
noncomputable def diskPoint (meps : ℝ) (cc : Vec ℝ) (D : ℝ) (nr nt : ℕ) (axis : Vec ℝ) (off : ℝ) (i j : ℕ) : Vec ℝ :=
  let refVec := coplanar meps axis
  let dr := D * (1 / 2) / nr
  let dt := 2 * Real.pi / nt
  let du := off * D
  let shift : ℝ := if nr = 1 then 0 else 1 / 2
  let r := dr * (i + shift)
  let refPoint := r • refVec + du • axis
  vmul refPoint (quaternion axis (degrees (dt * j))) + cc

/-- uniform_ct_ops.cpp:77-83: the force points of a uniform Ct disk. -/
noncomputable def uniformPoint (cc cVec : Vec ℝ) (dr : ℝ) (i : ℕ) : Vec ℝ := cc + ((i + 1 / 2 : ℝ) * dr) • cVec

/-- disk_ops.cpp:352-371 `compute_bounding_box`: low and high corner. -/
noncomputable def boundBox (cc norm cVec : Vec ℝ) (eps D dr : ℝ) : Vec ℝ × Vec ℝ :=
  let nl := eps * 3
  let dl := D * (1 / 2) + dr * 2
  let dvec := nl • norm + dl • cVec + dl • (⟨0, 0, 1⟩ : Vec ℝ)
  let p1 := cc - dvec
  let p2 := cc + dvec
  (⟨min p1.x p2.x, min p1.y p2.y, min p1.z p2.z⟩, ⟨max p1.x p2.x, max p1.y p2.y, max p1.z p2.z⟩)

/-- disk_ops.cpp:197-232, 253 (`normal_vec`): the normal from yaw and tilt when no `disk_normal` is given; `north` and
`east` are the Coriolis vectors. -/
noncomputable def yawTilt (north east : Vec ℝ) (tilt yaw : Option ℝ) : Vec ℝ :=
  let op : Ten ℝ := tid
  let op := match tilt with
    | some t => tcomp op (quaternion east (-t))
    | none => op
  let op := match yaw with
    | some y => tcomp op (zrot (-y))
    | none => op
  vmul north op

/-! ## Forces -/

/-- disk_ops.H:116-124 `compute_reference_velocity_sqr`. -/
noncomputable def refSqr (vel normal : Vec ℝ) : ℝ := dot vel normal * dot vel normal

/-- disk_ops.H:126-134 `set_thrust_coefficient` and Joukowsky_ops.H:18-24 `set_current_angular_velocity`. -/
noncomputable def tableValue (speeds values : List ℝ) (uInfSqr : ℝ) : Option ℝ := linear speeds values (Real.sqrt uInfSqr) 1 0

/-- uniform_ct_ops.H:82-94: the force of ring `ip`. -/
noncomputable def uniformForce (normal : Vec ℝ) (uInfSqr rho ct dr : ℝ) (ip : ℕ) : Vec ℝ :=
  let aero := 1 / 2 * uInfSqr * rho * ct
  let r := (ip + 1 / 2 : ℝ) * dr
  let rp := r + dr * (1 / 2)
  let rm := r - dr * (1 / 2)
  let a := Real.pi * (rp * rp - rm * rm)
  (aero * a) • normal

/-- Joukowsky_ops.H:173-180: the tip correction at `x`. -/
noncomputable def tipCorrection (blades : ℕ) (lambda x : ℝ) : ℝ :=
  2 / Real.pi * Real.arccos (Real.exp (-(1 / 2) * blades * Real.sqrt (1 + lambda * lambda) * (1 - x)))

/-- Joukowsky_ops.H:101-119: the root correction of ring `i`; `core` is the size of the vortex core. -/
noncomputable def rootCorrection (meps a b core R : ℝ) (nr i : ℕ) : ℝ :=
  let dx := 1 / (nr : ℝ)
  let delta := max (core / R) meps
  1 - Real.exp (-a * ((i + 1 / 2 : ℝ) * (dx / delta)) ^ b)

/-- Joukowsky_ops.H:184-195: the solid body term. -/
noncomputable def solidBody (ct rated a1 a2 : ℝ) : ℝ :=
  if 0 < rated then
    if ct < rated then a1 * ((rated - ct) / rated) ^ 3 else a2 * (rated - ct) / rated
  else 0

/-- The data of the Joukowsky disk that the force depends on: numbers of rings and sectors, radius, centre, unit normal,
density, squared reference speed, reference speed, thrust coefficient, tip speed ratio, solid body term, tip and root
corrections, velocities at the disk and the active wake control factor of each sector. -/
structure Jk where
  nr : ℕ
  nt : ℕ
  R : ℝ
  center : Vec ℝ
  normal : Vec ℝ
  rho : ℝ
  uSqr : ℝ
  uRef : ℝ
  ct : ℝ
  lambda : ℝ
  s0 : ℝ
  F : ℕ → ℝ
  g : ℕ → ℝ
  vel : ℕ → Vec ℝ
  awc : ℕ → ℝ

/-- Joukowsky_ops.H:158 with Joukowsky_ops.cpp:62: the width of a ring over the radius. -/
noncomputable def Jk.dx (d : Jk) : ℝ := 1 / 2 * (2 * d.R) / d.nr / d.R

/-- Joukowsky_ops.H:206-207, 261-262. -/
noncomputable def Jk.x (meps : ℝ) (d : Jk) (i : ℕ) : ℝ := max ((i + 1 / 2 : ℝ) * d.dx) meps

/-- Joukowsky_ops.H:209-210. -/
noncomputable def Jk.a1 (meps : ℝ) (d : Jk) : ℝ := ∑ i ∈ Finset.range d.nr, d.F i ^ 2 * d.g i ^ 2 / d.x meps i * d.dx
/-- Joukowsky_ops.H:212. -/
noncomputable def Jk.a2 (meps : ℝ) (d : Jk) : ℝ := ∑ i ∈ Finset.range d.nr, d.F i * d.g i * d.x meps i * d.dx
/-- Joukowsky_ops.H:214-215. -/
noncomputable def Jk.a3 (meps : ℝ) (d : Jk) : ℝ := ∑ i ∈ Finset.range d.nr, d.F i ^ 2 * d.g i ^ 2 * d.x meps i * d.dx
/-- Joukowsky_ops.H:217-218. -/
noncomputable def Jk.a4 (meps : ℝ) (d : Jk) : ℝ := ∑ i ∈ Finset.range d.nr, d.F i * d.g i * d.x meps i ^ 3 * d.dx
/-- Joukowsky_ops.H:220-222. -/
noncomputable def Jk.a5 (meps : ℝ) (d : Jk) : ℝ := ∑ i ∈ Finset.range d.nr, d.F i ^ 2 * d.g i ^ 2 * d.x meps i ^ 3 * d.dx

/-- Joukowsky_ops.H:232-242: the circulation; `none` where the argument of the square root is negative. -/
noncomputable def Jk.q0 (meps : ℝ) (d : Jk) : Option ℝ :=
  let term1 := (d.a2 meps * d.lambda + d.a3 meps * d.s0) ^ 2
  let term2 := d.a1 meps * (1 / 2 * d.ct - 2 * d.a4 meps * d.lambda * d.s0 - d.a5 meps * d.s0 * d.s0)
  let term3 := d.a2 meps * d.lambda + d.a3 meps * d.s0
  if 0 ≤ term1 + term2 then some ((Real.sqrt (term1 + term2) - term3) / max (d.a1 meps) meps) else none

/-- Joukowsky_ops.H:264-266: the normal force of ring `i`. -/
noncomputable def Jk.fz (meps : ℝ) (d : Jk) (q0 : ℝ) (i : ℕ) : ℝ :=
  (q0 / d.x meps i + d.s0 * d.x meps i) * d.g i * d.F i *
    (d.lambda * d.x meps i + 1 / 2 * (q0 / d.x meps i + d.s0 * d.x meps i) * d.g i * d.F i)

/-- Joukowsky_ops.H:284-288: the azimuthal force of point `j` of ring `i`. -/
noncomputable def Jk.ft (meps : ℝ) (d : Jk) (q0 : ℝ) (i j : ℕ) : ℝ :=
  dot (-d.normal) (d.vel (j + i * d.nt)) / d.uRef * (q0 / d.x meps i + d.s0 * d.x meps i) * d.g i * d.F i

/-- actuator_utils.H:134-139 `compute_tangential_vector`. -/
noncomputable def tangential (meps : ℝ) (center normal point : Vec ℝ) : Vec ℝ :=
  tmul (quaternion normal 90) (normalize meps (point - center))

/-- Joukowsky_ops.cpp:77: the force points. -/
noncomputable def Jk.pos (meps : ℝ) (d : Jk) (i j : ℕ) : Vec ℝ :=
  diskPoint meps d.center (2 * d.R) d.nr d.nt d.normal 0 i j

/-- Joukowsky_ops.H:279-280, 301-303: the force at point `j` of ring `i`. -/
noncomputable def Jk.force (meps : ℝ) (d : Jk) (q0 : ℝ) (i j : ℕ) : Vec ℝ :=
  (d.rho * d.uSqr * areaSection d.R d.nr d.nt i) • (((1 + d.awc j) * d.fz meps q0 i) • d.normal +
    (d.ft meps q0 i j) • (-tangential meps d.center d.normal (d.pos meps i j)))

/-- Joukowsky_ops.H:149, 305 `disk_force`. -/
noncomputable def Jk.total (meps : ℝ) (d : Jk) (q0 : ℝ) : Vec ℝ :=
  vsum d.nr fun i => vsum d.nt fun j => d.force meps q0 i j

/-- Joukowsky_ops.H:250, 292 `moment`. -/
noncomputable def Jk.moment (meps : ℝ) (d : Jk) (q0 : ℝ) : ℝ :=
  ∑ i ∈ Finset.range d.nr, ∑ j ∈ Finset.range d.nt,
    d.x meps i * d.R * d.ft meps q0 i j * areaSection d.R d.nr d.nt i

/-- Joukowsky_ops.H:315-316 `current_power`; `omega` is the angular velocity. -/
noncomputable def Jk.power (meps : ℝ) (d : Jk) (q0 omega : ℝ) : ℝ := d.rho * d.uSqr * d.moment meps q0 * omega

/-- Joukowsky_ops.H:294-299 `f_awc`: amplitude, phase `omega t + clocking angle`, mode. -/
noncomputable def awcFactor (amp phase : ℝ) (mode : ℤ) (nt j : ℕ) : ℝ :=
  amp * Real.cos (phase - mode * (j * (2 * Real.pi / nt)))

/-! ## Input checks -/

/-- disk_ops.cpp:149-180: `p1` and `p2` together, or one without the other. -/
def conflict (has : String → Bool) (p1 p2 : String) : List String := if has p1 && has p2 then [p1] else []
@[inherit_doc conflict]
def oneWay (has : String → Bool) (independent dependent : String) : List String :=
  if has dependent && !has independent then [independent] else []

/-- disk_ops.cpp:281-320 `check_for_parse_conflicts`: the messages; `nct` and `nws` are the numbers of thrust coefficients
and wind speeds given. -/
def baseConflicts (has : String → Bool) (nct nws : ℕ) : List String :=
  conflict has "disk_normal" "yaw" ++ conflict has "disk_normal" "tilt" ++
  conflict has "sample_normal" "sample_yaw" ++ conflict has "sample_normal" "sample_tilt" ++
  conflict has "disk_center" "base_position" ++ conflict has "disk_center" "hub_height" ++
  (oneWay has "base_position" "hub_height" ++ oneWay has "hub_height" "base_position") ++
  (if 1 < nct then (if !has "wind_speed" then ["wind_speed"] else []) else []) ++
  (if has "wind_speed" then (if nws ≠ nct then ["wind_speed"] else []) else [])

/-- uniform_ct_ops.cpp:10-40: the further messages of a uniform Ct disk. -/
def uniformConflicts (has : String → Bool) (nct nws : ℕ) : List String :=
  baseConflicts has nct nws ++
  (["num_vel_points_r", "num_vel_points_t", "num_force_points", "num_theta_force_points"].filter has) ++
  oneWay has "num_points_t" "spreading"

/-- Joukowsky_ops.cpp:10-17. -/
def jkConflicts (has : String → Bool) (nct nws : ℕ) : List String :=
  baseConflicts has nct nws ++ (oneWay has "thrust_coeff" "rpm" ++ oneWay has "rpm" "thrust_coeff")

/-- uniform_ct_ops.cpp:53-63 `parse_and_gather_params` for the numbers of points `nr`, `nt` (ActuatorDisk.H:16: the number
of velocity points is 1 before it is computed; disk_ops.cpp:346-350 `final_checks` asserts that it is positive): the ring
width `D/2/nr` and the number of velocity points; `none` is the abort, the inner
`none` a division by zero. -/
def parseCounts (nr nt : ℕ) (D : ℚ) : Option (Option ℚ × ℕ) :=
  let numVelPts := 1
  if 0 < numVelPts then some (if nr = 0 then none else some (1 / 2 * D / nr), nr * nt * 2) else none

end AmrWind.Disk
