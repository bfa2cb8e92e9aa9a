import Mathlib.Analysis.SpecialFunctions.Complex.Arg
import Mathlib.Analysis.SpecialFunctions.Trigonometric.Inverse
import Verif.Interp.Model
import Verif.Vs.Model
import Verif.Sampling.Model

/-!
# Model of the moving samplers: `utilities/sampling/LidarSampler.cpp`, `DTUSpinnerSampler.cpp`, `RadarSampler.cpp` and
the quadrature of `SamplingUtils.cpp`

`amrex::Real` is `ℝ` where angles occur and an ordered field with a floor where only times are counted. Conversions to
`int` are taken to be in range. `none` is an abort, a value that is not a number, or a read outside a table.
Console output and the NetCDF calls are not modelled.
-/

namespace AmrWind.Beam

open Vs

/-- A position of a sampler as a vector. -/
def toPos (v : Vec ℝ) : Sampling.Pos ℝ
  | .x => v.x
  | .y => v.y
  | .z => v.z

/-! ## The lidar -/

/-- LidarSampler.cpp:15-63: the inputs of a lidar. -/
structure Lidar where
  origin : Vec ℝ
  npts : ℕ
  length : ℝ
  times : List ℝ
  azimuths : List ℝ
  elevations : List ℝ
  periodic : Bool

/-- LidarSampler.cpp:40-50: accepted inputs (`initialize` aborts otherwise); line 57 reads the last entry. -/
def Lidar.accepted (l : Lidar) : Bool :=
  decide (0 < l.times.length) && decide (l.azimuths.length = l.times.length) &&
    decide (l.elevations.length = l.times.length)

/-- LidarSampler.cpp:56-57. -/
def Lidar.period (l : Lidar) : Option ℝ :=
  match l.times[l.times.length - 1]?, l.times[0]? with
  | some b, some a => some (b - a)
  | _, _ => none

/-- `std::fmod`, which is not a number for a zero divisor. -/
noncomputable def fmod? (a b : ℝ) : Option ℝ := if b = 0 then none else some (Interp.fmod a b)

/-- LidarSampler.cpp:67-72: the time at which the tables are read (`none`: not a number). -/
noncomputable def Lidar.tableTime (l : Lidar) (time : ℝ) : Option ℝ :=
  if l.periodic then l.period.bind (fmod? time) else some time

/-- linear_interpolation.H:30-33 and 140-155: `linear` at a time that may not be a number; a table with fewer than two
entries is not searched. -/
noncomputable def lookup (x y : List ℝ) (t : Option ℝ) : Option ℝ :=
  if x.length < 2 then y[0]? else t.bind fun t => Interp.linear x y t 1 0

/-- LidarSampler.cpp:74-88: the end of the beam. -/
noncomputable def Lidar.stop (l : Lidar) (start : Vec ℝ) (time : ℝ) : Option (Vec ℝ) :=
  match lookup l.times l.azimuths (l.tableTime time), lookup l.times l.elevations (l.tableTime time) with
  | some az, some el =>
    let a := radians az
    let e := radians (90 - el)
    some ⟨start.x + l.length * Real.cos a * Real.sin e, start.y + l.length * Real.sin a * Real.sin e,
      start.z + l.length * Real.cos e⟩
  | _, _ => none

/-- LidarSampler.cpp:52-62 with LineSampler.cpp:25-55: the start after `initialize`. -/
noncomputable def Lidar.start (l : Lidar) (tol : ℝ) (g : Sampling.Geo ℝ) : Sampling.Pos ℝ :=
  Sampling.clampPos tol g (toPos l.origin)

/-- LidarSampler.cpp:65-91 `update_sampling_locations` and LineSampler.cpp:66-94: the points of the beam sampled in the
step from time `cur` to time `new` (the update reads `current_time()`). -/
noncomputable def Lidar.points (l : Lidar) (tol : ℝ) (g : Sampling.Geo ℝ) (cur _new : ℝ) :
    Option (List (Sampling.Pos ℝ)) :=
  let s := l.start tol g
  (l.stop ⟨s .x, s .y, s .z⟩ cur).map fun e => Sampling.linePoints l.npts s (toPos e)

/-! ## The clock of the scanning samplers -/

section clock
variable {K : Type*} [Field K] [LinearOrder K] [FloorRing K]

/-- DTUSpinnerSampler.cpp:335, RadarSampler.cpp:208: beams owed from earlier steps. -/
def timeCorr (diff dts : K) : ℤ := if dts < diff then Interp.trunc (diff / dts) else 0

/-- DTUSpinnerSampler.cpp:337, RadarSampler.cpp:210: `m_ns`; `diff` is the time less the time of the scanner. -/
def numBeams (dt dts diff : K) : ℤ := Interp.trunc (dt / dts) + timeCorr diff dts

/-- DTUSpinnerSampler.cpp:338, RadarSampler.cpp:88-91: `m_ntotal`, the places for beams in a step. -/
def numPlaces (dt dts : K) : ℤ := ⌈dt / dts⌉

/-- DTUSpinnerSampler.cpp:384-450, RadarSampler.cpp:230-310: the loop over the places; a place takes the beam of the
time of the scanner, or the fill value. -/
def scanLoop (dts : K) (ns : ℤ) : ℕ → ℕ → K → List (Option K) × K
  | 0, _, t => ([], t)
  | n + 1, k, t =>
    if (k : ℤ) < ns then
      let r := scanLoop dts ns n (k + 1) (t + dts)
      (some t :: r.1, r.2)
    else
      let r := scanLoop dts ns n (k + 1) t
      (none :: r.1, r.2)

/-- The beams of one update of a scanner whose time is `t`, and its time afterwards. -/
def scan (dt dts time : K) (places : ℤ) (t : K) : List (Option K) × K :=
  scanLoop dts (numBeams dt dts (time - t)) places.toNat 0 t

/-- DTUSpinnerSampler.cpp:320-338 with 384-450, RadarSampler.cpp:193-310: a history of updates at the given times, for
one step size. -/
def spin (dt dts : K) (places : ℤ) (t : K) : List K → List (List (Option K)) × K
  | [] => ([], t)
  | time :: l =>
    let r := scan dt dts time places t
    let q := spin dt dts places r.2 l
    (r.1 :: q.1, q.2)

end clock

/-! ## The spinner lidar -/

/-- SamplingUtils.H, DTUSpinnerSampler.H `PrismParameters`. -/
structure Prism where
  theta0 : ℝ
  rot : ℝ
  azimuth : ℝ

/-- DTUSpinnerSampler.cpp:114-140 `generate_lidar_pattern`. -/
noncomputable def pattern (eps : ℝ) (inner outer : Prism) (time : ℝ) : Vec ℝ :=
  let axis : Vec ℝ := ⟨1, 0, 0⟩
  let ground : Vec ℝ := ⟨0, 0, 1⟩
  let innerTheta := inner.theta0 + inner.rot * time * 360
  let outerTheta := outer.theta0 + outer.rot * time * 360
  let r1 := rotateEulerVec eps axis innerTheta (rotateEulerVec eps ground (-(inner.azimuth / 2 + 90)) axis)
  let r2 := rotateEulerVec eps axis outerTheta (rotateEulerVec eps ground (outer.azimuth / 2) axis)
  reflect r2 (reflect r1 axis)

/-- DTUSpinnerSampler.cpp:105-112 `adjust_lidar_pattern`. -/
noncomputable def adjust (v : Vec ℝ) (yaw pitch roll : ℝ) : Vec ℝ := rotation ⟨roll, pitch, yaw⟩ v

/-- The attitude of the hub, in radians, and its position. -/
structure Hub where
  yaw : ℝ
  tilt : ℝ
  roll : ℝ
  center : Vec ℝ

/-- DTUSpinnerSampler.cpp:303-311: the angles of the hub from the entries of its orientation matrix. -/
noncomputable def hubAngles (o : Fin 9 → ℝ) (c : Vec ℝ) : Hub where
  tilt := Complex.arg ⟨Real.sqrt (o 7 ^ 2 + o 8 ^ 2), -o 6⟩
  roll := Complex.arg ⟨o 8, o 7⟩
  yaw := Complex.arg ⟨o 0, o 3⟩
  center := c

/-- DTUSpinnerSampler.cpp:407-433: an angle on the way from the last to the present one. -/
noncomputable def wayAngle (last now srat : ℝ) : ℝ := last + Interp.angleDiff last now (2 * Real.pi) * srat

/-- The inputs of the spinner lidar, DTUSpinnerSampler.cpp:33-80. -/
structure Spinner where
  inner : Prism
  outer : Prism
  length : ℝ
  yaw : ℝ
  tilt : ℝ
  roll : ℝ

/-- DTUSpinnerSampler.cpp:390-449: start and end of beam `k` of `ns`; `moved` is the test of lines 392 and 397. -/
noncomputable def Spinner.beam (s : Spinner) (eps : ℝ) (moved : Bool) (last now : Hub) (ns : ℤ) (k : ℕ) (time : ℝ) :
    Vec ℝ × Vec ℝ :=
  let step : ℝ := if moved then (k : ℝ) else 0
  let srat : ℝ := if moved then step / ns else 0
  let deg := 180 / Real.pi
  let b := adjust (pattern eps s.inner s.outer time) (s.yaw + wayAngle last.yaw now.yaw srat * deg)
    (s.tilt + wayAngle last.tilt now.tilt srat * deg) (s.roll + wayAngle last.roll now.roll srat * deg)
  let c : Vec ℝ := ⟨step / ns * (now.center.x - last.center.x) + last.center.x,
    step / ns * (now.center.y - last.center.y) + last.center.y,
    step / ns * (now.center.z - last.center.z) + last.center.z⟩
  (c, ⟨c.x + b.x * s.length, c.y + b.y * s.length, c.z + b.z * s.length⟩)

/-- DTUSpinnerSampler.cpp:384-450: the beams of an update that is not the first (`none`: the fill value). -/
noncomputable def Spinner.beams (s : Spinner) (eps : ℝ) (moved : Bool) (last now : Hub) (dt dts time t : ℝ) :
    List (Option (Vec ℝ × Vec ℝ)) :=
  (scan dt dts time (numPlaces dt dts) t).1.zipIdx.map fun p =>
    p.1.map fun u => s.beam eps moved last now (numBeams dt dts (time - t)) p.2 u

/-! ## The radar -/

section sweep
variable {K : Type*} [Field K] [LinearOrder K] [FloorRing K]

/-- The inputs of the sweep, RadarSampler.cpp:43-60. -/
structure Sweep (K : Type*) where
  angle : K
  speed : K
  reset : K
  elevations : List K

/-- RadarSampler.cpp:134-137 `total_sweep_time`. -/
def Sweep.total (s : Sweep K) : K := 2 * (s.angle / s.speed + s.reset)

/-- RadarSampler.cpp:139-145 `periodic_time`. -/
def Sweep.periodic (s : Sweep K) (t : K) : K := t - (⌊t / s.total⌋ : K) * s.total

/-- RadarSampler.cpp:148-153 `sweep_count`. -/
def Sweep.count (s : Sweep K) (t : K) : ℤ := ⌊t / (s.angle / s.speed + s.reset)⌋

/-- RadarSampler.H:45-50. -/
inductive Phase | FORWARD | FORWARD_PAUSE | REVERSE | REVERSE_PAUSE
  deriving DecidableEq

/-- RadarSampler.cpp:155-172 `determine_operation_phase`, at the time `p` of the cycle. -/
def Sweep.phase (s : Sweep K) (p : K) : Phase :=
  let d := s.angle / s.speed
  if p < d then .FORWARD
  else if p < d + s.reset then .FORWARD_PAUSE
  else if p < 2 * d + s.reset then .REVERSE
  else .REVERSE_PAUSE

/-- RadarSampler.cpp:174-191 `determine_current_sweep_angle`, at the time `p` of the cycle. -/
def Sweep.atCycle (s : Sweep K) (p : K) : K :=
  match s.phase p with
  | .FORWARD => s.speed * p - s.angle / 2
  | .FORWARD_PAUSE => s.angle / 2
  | .REVERSE => 3 * s.angle / 2 - s.speed * (p - s.reset)
  | .REVERSE_PAUSE => -s.angle / 2

/-- RadarSampler.cpp:232-233: the sweep angle at radar time `t`. -/
def Sweep.at (s : Sweep K) (t : K) : K := s.atCycle (s.periodic t)

/-- RadarSampler.cpp:234-235: the elevation at radar time `t` (not before zero; `none`: the list is empty). -/
def Sweep.elevation (s : Sweep K) (t : K) : Option K := s.elevations[(s.count t).toNat % s.elevations.length]?

/-- RadarSampler.cpp:450-474 `line_average`: the value of line `n` of the cone `values`. -/
def lineAverage (w : List K) (values : ℕ → K) (n : ℕ) : K :=
  let sums := (w.zipIdx).foldl (fun (a : K × K) p => (a.1 + p.1, a.2 + p.1 * values (w.length * n + p.2))) (0, 0)
  if 0 < sums.1 then sums.2 / sums.1 else 0

/-- RadarSampler.cpp:395-406: the line-of-sight velocity of point `i` of cone `k`, for the unit vectors `unit` written by
the update (place `k * nquad + j` for ray `j` of cone `k`). -/
def losVelocity (nquad : ℕ) (unit : ℕ → Vec K) (_k i : ℕ) (v : Vec K) : K :=
  let c := i % nquad
  dot (vmul v (unitProjection (unit c))) (unit c)

/-- RadarSampler.cpp:383-419 `calc_lineofsight_velocity`: the value of line `n` of cone `k`, from the velocities at the
points of the cones. -/
def losLine (w : List K) (unit : ℕ → Vec K) (ncone : ℕ) (vel : ℕ → Vec K) (k n : ℕ) : K :=
  lineAverage w (fun i => losVelocity w.length unit k i (vel (i + k * ncone))) n

/-- RadarSampler.cpp:620-641 `output_netcdf_field`: the value written for line `n` of cone `k`. `unit` are the unit vectors
of the present update, `velPrior` the velocities now at the cones of the last update (Sampling.cpp:281-291), `prior` the
values of the last update at its own cones (RadarSampler.cpp:542-543). -/
def losOutput (w : List K) (unit : ℕ → Vec K) (ncone ntotal : ℕ) (velPrior : ℕ → Vec K) (prior : ℕ → ℕ → K) (k n : ℕ) :
    K :=
  let m : K := (k : K) / (ntotal : K)
  m * losLine w unit ncone velPrior k n + (1 - m) * prior k n

/-- RadarSampler.H:125-160: the numbers of points; `nquad` rays of `npts` points in each of `ntotal` cones. -/
def numPointsCone (npts nquad : ℕ) : ℕ := npts + (nquad - 1) * npts
def numPointsScan (ntotal npts nquad : ℕ) : ℕ := ntotal * (npts + (nquad - 1) * npts)
def numPointsAll (ntotal npts nquad : ℕ) : ℕ := 2 * ntotal * (npts + (nquad - 1) * npts)
def numOutput (ntotal npts : ℕ) : ℕ := ntotal * npts

/-- RadarSampler.cpp:601-611: with `output_cone_points`, the writing of `num_points()` positions from the list of the
`num_output_points()` positions on the axes (`none`: a read outside the list). -/
def writeConePoints {α : Type*} (axisLocs : List α) (ntotal npts nquad : ℕ) : Option (List α) :=
  if numPointsAll ntotal npts nquad ≤ axisLocs.length then some (axisLocs.take (numPointsAll ntotal npts nquad)) else none

/-- Sampling.cpp:241-260 `convert_velocity_lineofsight`: the look-up of the velocity among the sampled variables, made
before the samplers are looked at (`false`: abort). -/
def lineOfSightAccepts (fmt : String) (vars : List String) : Bool :=
  fmt != "netcdf" || ["velocityx", "velocityy", "velocityz"].all fun n => vars.contains n

end sweep

/-- SamplingUtils.cpp:101-110: an abscissa of the interval from -1 to 1 as the cosine of an angle to the axis. -/
noncomputable def capCos (gam s : ℝ) : ℝ := 1 / 2 * (1 - Real.cos gam) * (-s) + 1 / 2 * (1 + Real.cos gam)

/-- SamplingUtils.cpp:91-140 `spherical_cap_quadrature`: the rays and their weights. -/
noncomputable def capQuadrature (eps gam : ℝ) (ntheta : ℕ) (xs ws : List ℝ) : List (Vec ℝ × ℝ) :=
  let tw := 2 * Real.pi / (ntheta : ℝ)
  match xs.map (capCos gam), ws.map (fun w => w * (1 / 2) * (1 - Real.cos gam)) with
  | _ :: taus, w0 :: w1 =>
    (⟨0, 0, 1⟩, 2 * Real.pi * w0) :: (taus.zip w1).flatMap fun p => (List.range ntheta).map fun i : ℕ =>
      let th := 2 * Real.pi / (ntheta : ℝ) * (i : ℝ)
      (normalize eps ⟨Real.sqrt (1 - p.1 * p.1) * Real.cos th, Real.sqrt (1 - p.1 * p.1) * Real.sin th, p.1⟩, tw * p.2)
  | _, _ => []

/-- SamplingUtils.cpp:142-161 `spherical_cap_truncated_normal`, for the points and weights of a rule on the interval from
0 to 1. -/
noncomputable def capNormal (eps gam : ℝ) (ntheta : ℕ) (xs ws : List ℝ) : List (Vec ℝ × ℝ) :=
  capQuadrature eps gam ntheta (xs.map fun x => 2 * x - 1) (ws.map fun w => 4 * w)

/-- SamplingUtils.cpp:190-195: the rule `HALFPOWER`. -/
noncomputable def halfPower : List ℝ × List ℝ :=
  ([0, 0.315493297131259, 0.6016636608468, 0.8282105821126121, 0.9662550592631028],
   [0.197723576944154 / 2, 0.1761766447490471, 0.1255723775152601, 0.07163437433902098, 0.02775481492459504])

/-- RadarSampler.cpp:361-390: point `n` of the ray `ray`, of `npts`, in the cone of `new_cone`. -/
noncomputable def conePoint (eps : ℝ) (axis start : Vec ℝ) (length : ℝ) (npts n : ℕ) (ray : Vec ℝ) : Vec ℝ :=
  let r := 1 / (npts : ℝ) * (n : ℝ)
  let p : Vec ℝ := ⟨r * ray.x, r * ray.y, r * ray.z⟩
  let z : Vec ℝ := ⟨0, 0, 1⟩
  let q := rotateEulerVec eps (cross z axis) (Real.arccos (dot axis z) * 180 / Real.pi) p
  ⟨q.x * length + start.x, q.y * length + start.y, q.z * length + start.z⟩

/-- RadarSampler.cpp:248-277: a point of the cone at the sweep and elevation angles. -/
noncomputable def sweepPoint (eps : ℝ) (axis vertical start : Vec ℝ) (sweep elev : ℝ) (p : Vec ℝ) : Vec ℝ :=
  let swept := rotateEulerVec eps vertical sweep axis
  let ea := cross (-(normalize eps vertical)) swept
  let q := rotateEulerVec eps vertical sweep ⟨p.x - start.x, p.y - start.y, p.z - start.z⟩
  let r := rotateEulerVec eps ea elev q
  ⟨r.x + start.x, r.y + start.y, r.z + start.z⟩

/-- RadarSampler.cpp:280-287: the unit vector kept for a ray, from its last point. -/
noncomputable def losUnit (eps : ℝ) (start p : Vec ℝ) : Vec ℝ :=
  normalize eps ⟨p.x - start.x, p.y - start.y, p.z - start.z⟩

end AmrWind.Beam
