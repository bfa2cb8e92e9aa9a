import Mathlib.Analysis.SpecialFunctions.Trigonometric.Basic
import Verif.Interp.Model
import Verif.Vs.Model

/-!
# Model of the background forces of the momentum equation

`CoriolisForcing`, `GeostrophicForcing`, `ABLForcing`, `HurricaneForcing`, `BodyForce` of `equation_systems/icns/source_terms`.
-/

set_option linter.unusedSectionVars false

namespace AmrWind.Force

open AmrWind AmrWind.Vs

/-- CoriolisForcing.cpp:35-46: the factor of a rotation period. -/
noncomputable def corFactor (period : ℝ) : ℝ := 2 * (2 * Real.pi / period)

/-- CoriolisForcing.cpp:42: the default period. -/
noncomputable def corPeriod : ℝ := 86164091 / 1000

/-- HurricaneForcing.cpp:26: the default period there. -/
noncomputable def hurPeriod : ℝ := 86400

/-- CoriolisForcing.cpp:52, 78-97; `east` and `north` after normalisation, `lat` in radians. -/
noncomputable def coriolis (corfac lat : ℝ) (horizontal : Bool) (east north vel : Vec ℝ) : Vec ℝ :=
  let up := cross east north
  let fac : ℝ := if horizontal then 0 else 1
  let ue := east.x * vel.x + east.y * vel.y + east.z * vel.z
  let un := north.x * vel.x + north.y * vel.y + north.z * vel.z
  let uu := up.x * vel.x + up.y * vel.y + up.z * vel.z
  let ae := corfac * (un * Real.sin lat - fac * uu * Real.cos lat)
  let an := -corfac * ue * Real.sin lat
  let au := fac * corfac * ue * Real.cos lat
  ⟨ae * east.x + an * north.x + au * up.x, ae * east.y + an * north.y + au * up.y, ae * east.z + an * north.z + au * up.z⟩

/-- GeostrophicForcing.cpp:44, 75-77, 134-136, 167-169: the source with the target `(u, v)`; `wfac` of `phaseRamp`. -/
noncomputable def geostrophic (corfac lat : ℝ) (horizontal : Bool) (wfac u v : ℝ) : Vec ℝ :=
  let f := corfac * Real.sin lat
  let hfac : ℝ := if horizontal then 0 else 1
  ⟨wfac * (-f * v), wfac * (f * u), wfac * hfac * 0⟩

/-- GeostrophicForcing.cpp:141-166, ABLForcing.cpp:111-136: the factor near water; `h` is the height above the water level, `liquid`
the test of `interface_band` and of the volume fraction. -/
noncomputable def phaseRamp (off ramp h : ℝ) (liquid : Bool) : ℝ :=
  let fac : ℝ :=
    if h < off + ramp then
      if h < off then 0 else 1 / 2 - 1 / 2 * Real.cos (Real.pi * (h - off) / ramp)
    else 1
  if liquid then 0 else fac

/-- GeostrophicForcing.cpp:124-132, ABLForcing.H:52-64: the target of a time table at a time. -/
noncomputable def target (times speeds dirs : List ℝ) (t : ℝ) : Option (ℝ × ℝ) := do
  let s ← Interp.linear times speeds t 1 0
  let d ← Interp.linearAngle times dirs t (2 * Real.pi)
  some (s * Real.cos d, s * Real.sin d)

/-- ABLForcing.H:66-67: the force for a component. -/
noncomputable def ablForce (tgt mean dt : ℝ) : ℝ := (tgt - mean) / dt

/-- ABLForcing.H:48, 69-79: the record written in a step: written?, time, force. -/
noncomputable def ablRecord (step outfreq : ℤ) (t0 t1 start fx fy : ℝ) : Option (Option (ℝ × ℝ × ℝ)) :=
  if outfreq = 0 then none
  else if step.tmod outfreq = 0 ∧ start ≤ t0 then some (some (1 / 2 * (t0 + t1), fx, fy)) else some none

/-- GeostrophicForcing.cpp:64-70, ABLForcing.cpp:40-46: rows of three numbers are read until the time cannot be read; when the stream ends
inside a row the numbers not read keep their last value, or none. -/
def readRows {K : Type*} : List K → Option K → Option K → List (K × Option K × Option K)
  | [], _, _ => []
  | [t], s, d => [(t, s, d)]
  | [t, s], _, d => [(t, some s, d)]
  | t :: s :: d :: r, _, _ => (t, some s, some d) :: readRows r (some s) (some d)

/-- HurricaneForcing.cpp:83-93: the source at height `ht` for the plane means `u`, `v`; `none`: division by zero. -/
noncomputable def hurricane (V dVdR Vzh R f ht u v : ℝ) : Option (Vec ℝ) :=
  if Vzh = 0 ∨ R = 0 then none
  else
    let Vz := V * (Vzh - ht) / Vzh
    let dV := dVdR * (Vzh - ht) / Vzh
    some ⟨u * u / R + v * Vz / R - (f * Vz + Vz * Vz / R), -u * dV - u * Vz / R, 0⟩

/-- HurricaneTempForcing.cpp:66-70. -/
noncomputable def hurricaneTemp (dTdR dTzh ht v : ℝ) : Option ℝ := if dTzh = 0 then none else some (-(v * (dTdR * (dTzh - ht) / dTzh)))

/-- The kinds of body force. -/
inductive BodyKind
  | height
  | table
  | oscillatory
  | constant
  deriving DecidableEq

/-- BodyForce.cpp:25-56: the kind; `type` is the entry in lower case (`none`: absent), `file` whether a time table is named; `none`: Abort. -/
def bodyKind (type : Option String) (file : Bool) : Option BodyKind :=
  let ty := type.getD "uniform_constant"
  if ty = "height_varying" ∨ ty = "height-varying" then some .height
  else if ty = "uniform_timetable" ∨ (type = none ∧ file = true) then some .table
  else if ty = "oscillatory" then some .oscillatory
  else if ty = "uniform_constant" then some .constant
  else none

/-- BodyForce.cpp:124-168: the source at height `ht` over the step from `t0` to `t1`. -/
noncomputable def bodyForce (kind : BodyKind) (mag : Vec ℝ) (omega : ℝ) (hts fxs fys : List ℝ) (times tx ty tz : List ℝ)
    (ht t0 t1 : ℝ) : Option (Vec ℝ) :=
  let nph := 1 / 2 * (t0 + t1)
  match kind with
  | .height => do
    let fx ← Interp.linear hts fxs ht 1 0
    let fy ← Interp.linear hts fys ht 1 0
    some ⟨fx, fy, 0⟩
  | .table => do
    let fx ← Interp.linear times tx nph 1 0
    let fy ← Interp.linear times ty nph 1 0
    let fz ← Interp.linear times tz nph 1 0
    some ⟨1 * fx, 1 * fy, 1 * fz⟩
  | .oscillatory => some ⟨Real.cos (omega * nph) * mag.x, Real.cos (omega * nph) * mag.y, Real.cos (omega * nph) * mag.z⟩
  | .constant => some ⟨1 * mag.x, 1 * mag.y, 1 * mag.z⟩

end AmrWind.Force
