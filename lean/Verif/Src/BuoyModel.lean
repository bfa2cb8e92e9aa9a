import Mathlib.Analysis.SpecialFunctions.Trigonometric.Basic
import Verif.Interp.Model
import Verif.Vs.Model

/-!
# Model of buoyancy, gravity, damping and nudging sources

`BoussinesqBuoyancy`, `ABLMeanBoussinesq`, `DensityBuoyancy`, `GravityForcing`, `RayleighDamping`, `VelocityFreeAtmosphereForcing`,
`MetMastForcing` of `equation_systems/icns/source_terms` and `TemperatureFreeAtmosphereForcing` of
`equation_systems/temperature/source_terms`.
-/

set_option linter.unusedSectionVars false

namespace AmrWind.Buoy

open AmrWind AmrWind.Vs

/-- The force `g * fac` of all the buoyancy terms (for instance BoussinesqBuoyancy.cpp:47-49). -/
noncomputable def scaled (g : Vec ℝ) (fac : ℝ) : Vec ℝ := ⟨g.x * fac, g.y * fac, g.z * fac⟩

/-- BoussinesqBuoyancy.cpp:43-49. -/
noncomputable def boussinesq (g : Vec ℝ) (beta T0 T : ℝ) : Vec ℝ := scaled g (beta * (T0 - T))

/-- ABLMeanBoussinesq.cpp:117-123; `Tm` is the mean profile at the height of the cell. -/
noncomputable def meanBoussinesq (g : Vec ℝ) (beta T0 Tm : ℝ) : Vec ℝ := scaled g (beta * (Tm - T0))

/-- DensityBuoyancy.cpp:60-66; `none`: division by zero. -/
noncomputable def densityBuoyancy (g : Vec ℝ) (rho0 rho : ℝ) : Option (Vec ℝ) :=
  if rho = 0 then none else some (scaled g (1 - rho0 / rho))

/-- GravityForcing.cpp:65-74; `ref` is the reference density field if there is one, `rho0` the constant density. -/
noncomputable def gravity (g : Vec ℝ) (perturb : Bool) (ref : Option ℝ) (rho0 rho : ℝ) : Option (Vec ℝ) :=
  if perturb then
    if rho = 0 then none else some (scaled g (1 - ref.getD rho0 / rho))
  else some (scaled g 1)

/-- Where the mean temperature comes from. -/
inductive MeanSource
  | planeAverage
  | fileNamed (name : String)
  deriving DecidableEq

/-- ABLMeanBoussinesq.cpp:76-81; `file` is the name of the profile file, empty when there is none. -/
def meanSource (readProfile : Bool) (file : String) : MeanSource :=
  if readProfile = true ∧ file = "" then .fileNamed file else .planeAverage

/-! ## Damping -/

/-- RayleighDamping.cpp:62-74: the coefficient at height `z` under the top `top`. -/
noncomputable def rayleighCoeff (top dRD dFull z : ℝ) : ℝ :=
  if dRD + dFull < top - z then 0
  else if dFull < top - z then 1 / 2 * Real.cos (Real.pi * (top - dFull - z) / dRD) + 1 / 2
  else 1

/-- RayleighDamping.cpp:75-80: a component of the source; `f` is the entry of `force_coord_directions`. -/
noncomputable def rayleigh (top dRD dFull tau f z ref v : ℝ) : Option ℝ :=
  if tau = 0 then none else some (f * rayleighCoeff top dRD dFull z * (ref - v) / tau)

/-- VelocityFreeAtmosphereForcing.cpp:91-118, TemperatureFreeAtmosphereForcing.cpp:81-95: the source of a component with time scale
`scale`, height above ground `z`, and its profile; `none`: a division by zero or a profile that cannot be interpolated. -/
noncomputable def nudge (scale start top : ℝ) (hts vals : List ℝ) (z v : ℝ) : Option ℝ :=
  if scale = 0 ∨ top = start then none
  else
    let zi := max ((z - start) / (top - start)) 0
    if 0 < zi ∧ hts ≠ [] then
      (Interp.linear hts vals z 1 0).map fun ref => -(1 / scale * (v - ref))
    else some (-(1 / scale * (v - v)))

/-- VelocityFreeAtmosphereForcing.cpp:39, 75: the time scale read, and the one used. -/
noncomputable def velocityNudge (_mesoTimescale dt start top : ℝ) (hts vals : List ℝ) (z v : ℝ) : Option ℝ :=
  nudge dt start top hts vals z v

/-- TemperatureFreeAtmosphereForcing.cpp:23, 67. -/
noncomputable def temperatureNudge (mesoTimescale _dt start top : ℝ) (hts vals : List ℝ) (z v : ℝ) : Option ℝ :=
  nudge mesoTimescale start top hts vals z v

/-- A row of the mast file: position and velocity. -/
structure Mast where
  pos : Vec ℝ
  vel : Vec ℝ

/-- MetMastForcing.cpp:111-118, 136-143: weight at a point (height above ground in `p.z`), for the mast at `q`. -/
noncomputable def mastWeight (terrain : Bool) (long vert damping : ℝ) (p q : Vec ℝ) : ℝ :=
  let ri2 := (p.x - q.x) * (p.x - q.x) / (long * long) + (p.y - q.y) * (p.y - q.y) / (long * long) +
    (p.z - q.z) * (p.z - q.z) / (vert * vert)
  if ri2 ≤ (if terrain then damping else 100) then Real.exp (-(1 / 4) * ri2) else 0

/-- MetMastForcing.cpp:109-127, 134-152: the source; the first row only; `none`: no row (out of range), or a division by zero. -/
noncomputable def metMast (terrain : Bool) (long vert damping scale : ℝ) (masts : List Mast) (p v : Vec ℝ) : Option (Vec ℝ) :=
  match masts[0]? with
  | none => none
  | some m =>
    if long = 0 ∨ vert = 0 ∨ scale = 0 then none
    else
      let w := mastWeight terrain long vert damping p m.pos / scale
      some ⟨-(w * (v.x - m.vel.x)), -(w * (v.y - m.vel.y)), -(w * (v.z - m.vel.z))⟩

end AmrWind.Buoy
