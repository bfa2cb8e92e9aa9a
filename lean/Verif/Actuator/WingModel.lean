import Verif.Actuator.DiskModel
import Verif.Actuator.SpreadModel
import Mathlib.Analysis.SpecialFunctions.Complex.Arg

/-!
# Model of wings: `wind_energy/actuator/wing`, `aero/AirfoilTable.cpp`

Arithmetic is exact over the reals.  `std::atan2(y, x)` is the argument of `x + i y`.  File reading, NetCDF output and the
airfoil loaders are not modelled; an airfoil is a pair of functions of the angle of attack.
-/

namespace AmrWind.Wing

open AmrWind.Vs
open AmrWind.Disk (vsum)
open AmrWind.Interp (linear linearAngle)
open scoped BigOperators

/-! ## Points (wing_ops.cpp:12-49) -/

/-- wing_ops.cpp:26-30: point `i` of `npts`.  `none`: one point, a division by zero. -/
noncomputable def point (start fin : Vec ℝ) (npts i : ℕ) : Option (Vec ℝ) :=
  if npts = 1 then none else some (start + (i : ℝ) • ((1 / ((npts : ℝ) - 1)) • (fin - start)))

/-- wing_ops.cpp:40-43: the widths of the segments.  `none`: `front()` of an empty list, or a division by zero. -/
noncomputable def widths (start fin : Vec ℝ) (npts : ℕ) : Option (List ℝ) :=
  if npts < 2 then none
  else some ((List.range npts).map fun i =>
    let d := mag ((1 / ((npts : ℝ) - 1)) • (fin - start))
    if i = 0 ∨ i = npts - 1 then d * (1 / 2) else d)

/-- wing_ops.cpp:18-20 and wing_ops.H:164-165: the orientation of the points. -/
noncomputable def tmat (start fin : Vec ℝ) (pitch : ℝ) : Ten ℝ := quaternion (fin - start) pitch

/-- fixed_wing_ops.H:213-217: the place on the span where the chord is looked up. -/
noncomputable def spanLoc (start fin : Vec ℝ) (npts i : ℕ) : Option ℝ :=
  (point start fin npts i).bind fun p => (point start fin npts 0).bind fun p0 =>
    (point start fin npts (npts - 1)).map fun pn => mag (p - p0) / mag (pn - p0)

/-- fixed_wing_ops.H:221-232 (and wing_ops.cpp:22-23): the width of the kernel of a point in the order chord, span,
thickness; the input is in the order chord, thickness, span. -/
noncomputable def epsilon (epsInp epsChord : Vec ℝ) (chord : ℝ) : Vec ℝ :=
  ⟨max epsInp.x (epsChord.x * chord), max epsInp.z (epsChord.z * chord), max epsInp.y (epsChord.y * chord)⟩

/-! ## Motion (wing_ops.cpp:163-215) -/

/-- fixed_wing_ops.H:76-91: the motion types; other names abort. -/
inductive Motion where
  | none
  | linear
  | sine
  deriving DecidableEq

/-- The wing on one rank: force points and translation velocity. -/
structure St where
  pos : List (Vec ℝ)
  vtr : Vec ℝ

/-- wing_ops.cpp:173-199: the displacement from `tn` to `tnp1`. -/
noncomputable def disp (m : Motion) (vtr svec : Vec ℝ) (period tn tnp1 : ℝ) : Vec ℝ :=
  match m with
  | .none => ⟨0, 0, 0⟩
  | .linear => (tnp1 - tn) • vtr
  | .sine => (Real.sin (2 * Real.pi * tnp1 / period) - Real.sin (2 * Real.pi * tn / period)) • svec

/-- wing_ops.cpp:163-215 `new_wing_position_velocity`; `meps` is the machine epsilon. -/
noncomputable def move (meps : ℝ) (m : Motion) (svec : Vec ℝ) (period : ℝ) (s : St) (tn tnp1 : ℝ) : St :=
  let d := disp m s.vtr svec period tn tnp1
  ⟨s.pos.map (· + d), if m = .sine then (1 / (tnp1 - tn + meps)) • d else s.vtr⟩

/-- Actuator.cpp:277-285, ActuatorModel.H:158-162: a step on a rank; only ranks where the actuator is active move it. -/
noncomputable def rankStep (meps : ℝ) (m : Motion) (svec : Vec ℝ) (period : ℝ) (active : Bool) (s : St) (tn tnp1 : ℝ) : St :=
  if active then move meps m svec period s tn tnp1 else s

/-- The steps of a rank: at each one, is it active and what is the new time. -/
noncomputable def run (meps : ℝ) (m : Motion) (svec : Vec ℝ) (period : ℝ) : St → ℝ → List (Bool × ℝ) → St
  | s, _, [] => s
  | s, t, (a, t') :: l => run meps m svec period (rankStep meps m svec period a s t t') t' l

/-! ## Forces (wing_ops.H:121-258) -/

/-- wing_ops.H:144-148: the frame of the wing. -/
noncomputable def bladeY (meps : ℝ) (start fin : Vec ℝ) : Vec ℝ := Disk.normalize meps (fin - start)
/-- wing_ops.H:149. -/
noncomputable def bladeZ (meps : ℝ) (start fin bx : Vec ℝ) : Vec ℝ :=
  Disk.normalize meps (cross (Disk.normalize meps bx) (bladeY meps start fin))
/-- wing_ops.H:151. -/
noncomputable def bladeX (meps : ℝ) (start fin bx : Vec ℝ) : Vec ℝ :=
  Disk.normalize meps (cross (bladeY meps start fin) (bladeZ meps start fin bx))

/-- wing_ops.H:180-183: the wind in the frame of the wing. -/
noncomputable def windVector (ex ez vel vtr : Vec ℝ) : Vec ℝ := ⟨dot (vel - vtr) ex, 0, dot (vel - vtr) ez⟩

/-- wing_ops.H:186-187: the angle of attack, in radians. -/
noncomputable def aoa (w : Vec ℝ) (pitch : ℝ) : ℝ := Complex.arg ⟨w.x, w.z⟩ + radians pitch

/-- wing_ops.H:195-215: the factor of the force; `two` is `gauss_2D && normalize_2D_spanwise`. -/
noncomputable def qfac (uinf vmag dx epsSpan : ℝ) (two : Bool) (npts : ℕ) : ℝ :=
  let q := if uinf < 0 then 1 / 2 * vmag * vmag else 1 / 2 * uinf * uinf
  if two then q / npts * (1 / Real.pi / 0.17958712212516656) * epsSpan else q * dx

/-- The parameters of a wing section. -/
structure Sect where
  uinf : ℝ
  dx : ℝ
  epsSpan : ℝ
  two : Bool
  npts : ℕ
  chord : ℝ
  pitch : ℝ
  cl : ℝ → ℝ
  cd : ℝ → ℝ
  flags : Vec ℝ

/-- wing_ops.H:217-218: the lift of a section in the wind `w`. -/
noncomputable def Sect.lift (s : Sect) (w : Vec ℝ) : ℝ :=
  qfac s.uinf (mag w) s.dx s.epsSpan s.two s.npts * s.chord * s.cl (aoa w s.pitch)
/-- wing_ops.H:219: the drag. -/
noncomputable def Sect.drag (s : Sect) (w : Vec ℝ) : ℝ :=
  qfac s.uinf (mag w) s.dx s.epsSpan s.two s.npts * s.chord * s.cd (aoa w s.pitch)

/-- wing_ops.H:222-224. -/
noncomputable def dragDir (meps : ℝ) (ex ez w : Vec ℝ) : Vec ℝ := Disk.normalize meps (w.x • ex + w.z • ez)
/-- wing_ops.H:225. -/
noncomputable def liftDir (meps : ℝ) (ex ey ez w : Vec ℝ) : Vec ℝ := Disk.normalize meps (cross (dragDir meps ex ez w) ey)

/-- wing_ops.H:228-231: the force of a section on the fluid. -/
noncomputable def Sect.force (meps : ℝ) (s : Sect) (ex ey ez w : Vec ℝ) : Vec ℝ :=
  let f := -((s.lift w) • liftDir meps ex ey ez w + (s.drag w) • dragDir meps ex ez w)
  ⟨f.x * s.flags.x, f.y * s.flags.y, f.z * s.flags.z⟩

/-- AirfoilTable.cpp:36-41 `ThinAirfoil`. -/
noncomputable def thinCl (aoa : ℝ) : ℝ := 2 * Real.pi * aoa
/-- AirfoilTable.cpp:40. -/
noncomputable def thinCd (factor aoa : ℝ) : ℝ := factor * Real.sin aoa

/-- AirfoilTable.cpp:14-21: a coefficient of the table `table` (angles in radians). -/
noncomputable def tableCoeff (angles vals : List ℝ) (a : ℝ) : Option ℝ := linear angles vals a 1 0

/-! ## Bounding boxes -/

/-- fixed_wing_ops.H:105-109 (and flat_plate_ops.H:38-39): the search radius. -/
def searchRadius (maxEps maxEpsc maxChord : ℝ) : ℝ := max maxEps maxEpsc * maxChord * 3

/-- fixed_wing_ops.H:113-118, 155-197: the box of a three-dimensional wing in one direction, from the end points `p1`, `p2`,
the radius, the limits of the domain, the velocity and the amplitude; `tiny` is the epsilon of `float`. -/
noncomputable def box1 (m : Motion) (p1 p2 rad plo phi v amp tiny : ℝ) : ℝ × ℝ :=
  match m with
  | .none => (min p1 p2 - rad, max p1 p2 + rad)
  | .linear => (if v < -tiny then plo else min p1 p2 - rad, if tiny < v then phi else max p1 p2 + rad)
  | .sine => (min p1 p2 - amp - rad, max p1 p2 + amp + rad)

end AmrWind.Wing
