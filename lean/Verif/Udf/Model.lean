import Mathlib.Analysis.SpecialFunctions.Pow.Real
import Mathlib.Analysis.SpecialFunctions.Sqrt
import Verif.Config.Model

/-!
# Model of the inflow profiles: `physics/udfs/LinearProfile`, `PowerLawProfile`, `TwoLayer`, `Rankine`, `BurggrafLid`

`none` is a division of zero by zero (NaN in the array).
-/

namespace AmrWind.Udf

section
variable {K : Type*} [Field K]

/-- The centre of cell `i` in one direction, e.g. LinearProfile.H:39. -/
def centre (problo dx : K) (i : ℤ) : K := problo + (i + 1 / 2) * dx

/-- LinearProfile.H:41-50: one component. -/
def linearProfile [LinearOrder K] (zmin zmax fmin fmax zco : K) : Option K :=
  if zco < zmin then some fmin
  else if zco > zmax then some fmax
  else if zmax - zmin = 0 then none
  else some (fmin + (fmax - fmin) * (zco - zmin) / (zmax - zmin))

/-- TwoLayer.H:36-52: the velocity at height `z`. -/
def twoLayer [LinearOrder K] (top bottom : K × K × K) (zPart perturb z time : K) : K × K × K :=
  let v := if z ≥ zPart then (top.1, top.2.1, (0 : K)) else (bottom.1, bottom.2.1, 0)
  if time = 0 then (v.1 * perturb, v.2.1 * perturb, v.2.2) else v

/-- BurggrafLid.H:35-41. -/
def burggrafLid (x : K) : K × K × K := (16 * (x ^ 4 - 2 * x ^ 3 + x ^ 2), 0, 0)

end

noncomputable section

/-- `vs::mag`. -/
def mag (v : ℝ × ℝ × ℝ) : ℝ := √(v.1 * v.1 + v.2.1 * v.2.1 + v.2.2 * v.2.2)

/-- PowerLawProfile.H:44-47 with PowerLawProfile.cpp:19-30: the factor at height `zco`; `none` if the reference velocity
is zero (0/0 for the default `umin`). -/
def powerFactor (zoffset zref shear umin umax uref zco : ℝ) : Option ℝ :=
  if uref = 0 then none
  else
    let zeff := zco - zoffset
    let pfac := if zeff > 0 then (zeff / zref) ^ shear else 0
    some (min (max pfac (umin / uref)) (umax / uref))

/-- PowerLawProfile.H:49-50: the velocity. -/
def powerLaw (zoffset zref shear umin umax : ℝ) (vel : ℝ × ℝ × ℝ) (zco : ℝ) : Option (ℝ × ℝ × ℝ) :=
  (powerFactor zoffset zref shear umin umax (mag vel) zco).map fun p => (vel.1 * p, vel.2.1 * p, vel.2.2 * p)

/-- Rankine.H:21-25 with Rankine.cpp:30-37: the start of the vortex for the values given by the user (the initialiser
uses the default radius, it runs before `Rmax` is read). -/
def rankineStart (given : List ℝ) : ℝ × ℝ × ℝ := (given.getD 0 (-10 * 125), given.getD 1 0, given.getD 2 0)

/-- Rankine.H:37-51. -/
def rankine (umax rmax : ℝ) (start vref : ℝ × ℝ × ℝ) (x y time : ℝ) : Option (ℝ × ℝ × ℝ) :=
  let xr := x - (start.1 + vref.1 * time)
  let yr := y - (start.2.1 + vref.2.1 * time)
  let r := √(xr * xr + yr * yr)
  let vazi := umax * (if r ≤ rmax then r / rmax else rmax / r)
  if r = 0 then none
  else some (vref.1 - vazi * (yr / r), vref.2.1 + vazi * (xr / r), vref.2.2 + 0)

end

end AmrWind.Udf
