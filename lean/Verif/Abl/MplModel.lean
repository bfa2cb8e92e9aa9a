import Mathlib.Analysis.SpecialFunctions.Trigonometric.Basic
import Mathlib.Analysis.SpecialFunctions.Pow.Real
import Mathlib.Analysis.SpecialFunctions.Log.Basic
import Verif.Abl.InitModel

/-!
# Model of the modulated power law inflow: `wind_energy/ABLModulatedPowerLaw.cpp`

The offset of the height is zero and cannot be set (ABLModulatedPowerLaw.H: `m_zoffset`), so heights are coordinates.
-/

namespace AmrWind.Mpl

open AmrWind AmrWind.Vs

/-- The entries of the section `MPL`, ABLModulatedPowerLaw.cpp:26-36; `height` is the height of the domain. -/
structure Par where
  zref : ℝ
  a : ℝ
  umax : ℝ
  bulk : ℝ
  zc : ℝ
  smear : ℝ
  height : ℝ

/-- ABLModulatedPowerLaw.cpp:38-45, 96-101: the velocity at the reference height for a direction in degrees. -/
noncomputable def uvec (speed dir : ℝ) : Vec ℝ :=
  ⟨speed * Real.cos (Real.pi * (-dir + 270) / 180), speed * Real.sin (Real.pi * (-dir + 270) / 180), 0⟩

/-- ABLModulatedPowerLaw.cpp:92-95: the direction after the start of a step from `t` of length `dt`. -/
noncomputable def turn (start stop rate d : ℝ) (s : ℝ × ℝ) : ℝ := if start < s.1 ∧ s.1 < stop then d - rate * s.2 else d

/-- Direction after the starts of all steps, from the direction `d` of the input file. -/
noncomputable def direction (start stop rate d : ℝ) (steps : List (ℝ × ℝ)) : ℝ := steps.foldl (turn start stop rate) d

/-- ABLModulatedPowerLaw.cpp:128: `smear_coeff`. -/
noncomputable def Par.s (p : Par) : ℝ := 1 / p.smear

/-- ABLModulatedPowerLaw.cpp:129-132: the height where the power law reaches its maximum. -/
noncomputable def Par.z2 (p : Par) : ℝ := if |p.a| > 0 then p.zref * p.umax ^ (1 / p.a) else 0

/-- ABLModulatedPowerLaw.cpp:133. -/
noncomputable def Par.vmax (p : Par) (uref : ℝ) : ℝ := if p.z2 < p.zref then uref else uref * p.umax

/-- ABLModulatedPowerLaw.cpp:141-149. -/
noncomputable def Par.denom (p : Par) : ℝ :=
  1 / 2 * (Real.log (Real.cosh (-p.s * (p.height - p.zc))) / p.s - Real.log (Real.cosh (-p.s * (p.z2 - p.zc))) / p.s + (p.height - p.z2))

/-- ABLModulatedPowerLaw.cpp:141-152: `upper_coeff`. -/
noncomputable def Par.upper (p : Par) (uref : ℝ) : ℝ :=
  (p.bulk * p.height - uref * p.z2 ^ (p.a + 1) / (p.a + 1) / p.zref ^ p.a - p.vmax uref * (p.height - p.z2)) / p.denom

/-- ABLModulatedPowerLaw.cpp:193-198: the factor of the power law. -/
noncomputable def Par.pfac (p : Par) (z : ℝ) : ℝ := min (max (if z > 0 then (z / p.zref) ^ p.a else 0) 0) p.umax

/-- ABLModulatedPowerLaw.cpp:199-201. -/
noncomputable def Par.tanhterm (p : Par) (uref z : ℝ) : ℝ := 1 / 2 * p.upper uref * (Real.tanh (p.s * (z - p.zc)) + 1) / uref

/-- ABLModulatedPowerLaw.cpp:203-208: the velocity put in the ghost cells of inflow boundaries; `none` for the divisions by zero. -/
noncomputable def velocity (p : Par) (u : Vec ℝ) (z : ℝ) : Option (Vec ℝ) :=
  let uref := mag u
  if uref = 0 ∨ p.denom = 0 ∨ p.smear = 0 ∨ p.a + 1 = 0 ∨ p.zref = 0 then none
  else
    let f := p.pfac z + p.tanhterm uref z
    some ⟨u.x * f, u.y * f, u.z⟩

/-- ABLModulatedPowerLaw.cpp:292-310: the temperature of an inflow ghost cell. -/
noncomputable def temperature (tab : List (ℝ × ℝ)) (cutoff delta rnd z : ℝ) : Option ℝ :=
  (Init.table tab z).map fun T => if z < cutoff then T + delta * rnd else T

end AmrWind.Mpl
