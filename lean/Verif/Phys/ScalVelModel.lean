import Verif.Phys.CaseFlow
import Verif.Phys.ExactModel
import Verif.Mix.Model

/-!
# Model of the benchmark cases that carry a scalar in the velocity field

`physics/multiphase/ZalesakDiskScalarVel.cpp`, `physics/multiphase/VortexPatchScalarVel.cpp`.  The face velocities are those of the cases without the scalar
(`Case.zdU`, `Case.vpU`, …); here is the scalar, kept in the x-component of velocity, and the error that is reported.
-/

namespace AmrWind.Case

open Plane (Cell)
open Amr

/-- ZalesakDiskScalarVel.cpp:16-44: `SCexact`. -/
noncomputable def scExact (xc0 yc0 zc0 x y z radius alpha : ℝ) : ℝ :=
  let a := xc0 - 1 / 2
  let b := yc0 - 1 / 2
  let xc := 1 / 2 + Real.cos alpha * a - Real.sin alpha * b
  let yc := 1 / 2 + Real.sin alpha * a + Real.cos alpha * b
  let dnorm := Real.sqrt ((x - xc) * (x - xc) + (y - yc) * (y - yc) + (z - zc0) * (z - zc0)) / radius
  min 1 (max 0 (3 / 2 - dnorm))

/-- ZalesakDiskScalarVel.cpp:174-183: the initial x-component. -/
noncomputable def scInit (xc yc zc x y z radius : ℝ) : ℝ :=
  min 1 (max 0 (3 / 2 - Real.sqrt ((x - xc) * (x - xc) + (y - yc) * (y - yc) + (z - zc) * (z - zc)) / radius))

/-- ZalesakDiskScalarVel.cpp:316-318: the angle at a time. -/
noncomputable def scAngle (period time : ℝ) : ℝ := time * 2 * Real.pi / period

/-- VortexPatchScalarVel.cpp:60, 93-96, 111-126: the initial x-component. -/
noncomputable def vpScalar (radius factor xc yc zc x y z : ℝ) : ℝ := Mix.smoothHeaviside (radius * factor) (ball radius xc yc zc x y z)

/-- ZalesakDiskScalarVel.cpp:227-332: `compute_error`; `act` is false in the holes of an overset mesh. -/
noncomputable def scError (nproc : ℕ) (vol : ℕ → Cell → ℝ) (act : ℕ → Cell → Bool) (domVol : ℝ) (u ex : ℕ → Cell → ℝ) (levels : List Lev) : ℝ :=
  Real.sqrt (total nproc (Exact.errTerm vol act u ex) levels / domVol)

end AmrWind.Case
