import Mathlib.Analysis.SpecialFunctions.Pow.Real
import Mathlib.Analysis.SpecialFunctions.Trigonometric.Basic

/-!
# Model of the wave forcing utilities: `ocean_waves/utils/wave_utils_K.H` and the cell update of
`ocean_waves/relaxation_zones/relaxation_zones_ops.cpp`

Real numbers. A zone of length zero is a division by zero in the code; the quotient is then infinite and clamped, unless
the distance is zero too (`none`, NaN).
-/

namespace AmrWind.Waves

/-- wave_utils_K.H:16-33 `free_surface_to_vof`. -/
noncomputable def freeSurfaceToVof (eta z dz : ℝ) : ℝ :=
  if eta - z ≥ dz / 2 then 1
  else if eta - z ≤ -dz / 2 then 0
  else if |eta - z| < dz / 2 then
    if eta ≤ z then 1 - (z - eta + dz / 2) / dz else (eta - z + dz / 2) / dz
  else 0

/-- `1 - expm1(pow(t, 3.5)) / expm1(1)` (wave_utils_K.H:40-41, 54-55). -/
noncomputable def shape (t : ℝ) : ℝ := 1 - (Real.exp (t ^ (7 / 2 : ℝ)) - 1) / (Real.exp 1 - 1)

/-- `max(min(q, 1), 0)`. -/
noncomputable def clamp (q : ℝ) : ℝ := max (min q 1) 0

/-- wave_utils_K.H:35-42 `gamma_generate`. -/
noncomputable def gammaGenerate (x len : ℝ) : Option ℝ :=
  if len = 0 then
    if x = 0 then none else some (shape (if 0 < x then 0 else 1))
  else some (shape (clamp (1 - x / len)))

/-- wave_utils_K.H:44-56 `gamma_absorb`. -/
noncomputable def gammaAbsorb (x len factor : ℝ) : Option ℝ :=
  if len * factor = 0 then
    if x = 0 then none else some (shape (if 0 < x then 1 else 0))
  else some (shape (clamp (x / (len * factor))))

/-- wave_utils_K.H:58-68 `ramp`. -/
noncomputable def ramp (time period : ℝ) : ℝ :=
  if time < period then time / period - 1 / Real.pi * Real.sin (Real.pi * (time / period)) else 1

/-- wave_utils_K.H:70-76 `combine_linear`. -/
def combineLinear (factor target current : ℝ) : ℝ := (1 - factor) * target + factor * current

/-- `WaveVec`: velocity and level set. -/
abbrev WaveVec := Fin 4 → ℝ

/-- wave_utils_K.H:78-109 `harmonize_profiles_1d`; `tol` is `TIGHT_TOL`. -/
noncomputable def harmonize1 (tol x leftBdy leftLen rightBdy rightLen : ℝ) (left bulk right : WaveVec) :
    Option WaveVec :=
  if x ≤ leftBdy + leftLen then some left
  else if x + rightLen ≥ rightBdy then some right
  else do
    let gl ← gammaGenerate (x - (leftBdy + leftLen)) (1 / 2 * leftLen)
    let gr ← gammaAbsorb (x - (rightBdy - 3 / 2 * rightLen)) (1 / 2 * rightLen) 1
    some fun n => if gr > 1 - tol then combineLinear gl (left n) (bulk n) else combineLinear gr (right n) (bulk n)

/-- wave_utils_K.H:111-141 `harmonize_profiles_2d`; `eps` is `EPS`. -/
noncomputable def harmonize2 (tol eps x y leftBdy leftLen rightBdy rightLen loY hiY yLen : ℝ)
    (left bulk right : WaveVec) : Option WaveVec := do
  let forcing ← harmonize1 tol x leftBdy leftLen rightBdy rightLen left left right
  let init ← harmonize1 tol x leftBdy leftLen rightBdy rightLen left bulk right
  if yLen ≥ eps then harmonize1 tol y loY yLen hiY yLen forcing init forcing else some init

/-- The extent of the domain and of the zones (`RelaxZonesBaseData` and the geometry). -/
structure Zones where
  lox : ℝ
  hix : ℝ
  loy : ℝ
  hiy : ℝ
  gen : ℝ
  beach : ℝ
  beachFactor : ℝ
  lenY : ℝ
  hasBeach : Bool

/-- relaxation_zones_ops.cpp:199-235: the weights at the two lateral boundaries; `x`, `y` are already clamped. -/
noncomputable def lateralGamma (z : Zones) (eps x y : ℝ) : Option (ℝ × ℝ) :=
  if z.lenY > eps then do
    let lo ← gammaGenerate (y - z.loy) z.lenY
    let hi ← gammaAbsorb (y - (z.hiy - z.lenY)) z.lenY 1
    let toXhi ← gammaGenerate (x - (z.hix - 3 / 2 * z.beach)) (1 / 2 * z.beach)
    some (if z.hasBeach then (max lo toXhi, max hi toXhi) else (lo, hi))
  else some (1, 1)

/-- relaxation_zones_ops.cpp:183-238: the weight of the present solution at a point; `eps` is `EPS`. -/
noncomputable def zoneGamma (z : Zones) (eps x y : ℝ) : Option ℝ := do
  let x := min (max x z.lox) z.hix
  let y := min (max y z.loy) z.hiy
  let gxlo ← gammaGenerate (x - z.lox) z.gen
  let gxhi ← gammaAbsorb (x - (z.hix - z.beach)) z.beach z.beachFactor
  let gy ← lateralGamma z eps x y
  some (min (min gxhi gxlo) (min gy.2 gy.1))

/-- The state of one cell: volume fraction, one velocity component, density. -/
structure CellState where
  vof : ℝ
  vel : ℝ
  rho : ℝ

/-- relaxation_zones_ops.cpp:258-262: the volume fraction pulled to the target and snapped to 0 or 1. -/
noncomputable def nudgedVof (tiny gamma target vof : ℝ) : ℝ :=
  let v := combineLinear gamma target vof
  if v > 1 - tiny then 1 else if v < tiny then 0 else v

/-- relaxation_zones_ops.cpp:240-303: the update of a cell (one velocity component). `ramp` is the factor of line 156,
`fvel` says whether the liquid velocity is forced (266-269). -/
noncomputable def relaxCell (rho1 rho2 eps tiny rampf gamma : ℝ) (terrain inBeach : Bool) (tVof tVel : ℝ)
    (s : CellState) : CellState :=
  if gamma + eps ≥ 1 ∨ terrain = true then s
  else
    let dvf := nudgedVof tiny gamma tVof s.vof - s.vof
    let vof := s.vof + rampf * dvf
    let fvel : ℝ := if inBeach then 1 else if tVof > tiny then 1 else 0
    let rho := rho1 * vof + rho2 * (1 - vof)
    let dvel := combineLinear gamma tVel s.vel - s.vel
    let velLiq := s.vel + rampf * fvel * dvel
    let integrated := vof * velLiq + rampf * fvel * max 0 dvf * (tVel - s.vel)
    ⟨vof, (rho1 * integrated + rho2 * (1 - vof) * s.vel) / rho, rho⟩

end AmrWind.Waves
