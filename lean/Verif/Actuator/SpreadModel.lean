import Verif.Vs.Model
import Verif.Plane.Model
import Mathlib.Algebra.BigOperators.Group.Finset.Basic
import Mathlib.Analysis.SpecialFunctions.Trigonometric.Inverse

/-!
# Model of the spreading of actuator forces onto the mesh

`wind_energy/actuator/actuator_utils.H`, `ActSrcLineOp.H`, `disk/disk_spreading.H` and
`turbine/ActSrcDiskOp_Turbine.H`.  Arithmetic is exact over the reals.  One component of the force is modelled; the other
two are the same code.
-/

namespace AmrWind.Spread

open AmrWind.Vs
open AmrWind.Plane (Cell Bx)
open scoped BigOperators

/-! ## Kernels -/

/-- actuator_utils.H:43-59 `gaussian3d`. -/
noncomputable def gaussian3d (dist eps : Vec ℝ) : ℝ :=
  let rr : Vec ℝ := ⟨dist.x / eps.x, dist.y / eps.y, dist.z / eps.z⟩
  if magSqr rr < 16 then
    0.17958712212516656 / (eps.x * eps.y * eps.z) * Real.exp (-rr.x * rr.x - rr.y * rr.y - rr.z * rr.z)
  else 0

/-- actuator_utils.H:70-78 `gaussian1d`. -/
noncomputable def gaussian1d (dist eps : ℝ) : ℝ :=
  if 16 ≤ |dist / eps| then 0
  else 1 / Real.sqrt Real.pi / eps * Real.exp (-(dist * dist) / (eps * eps))

/-- actuator_utils.H:128-132 `linear_basis_1d`. -/
noncomputable def linearBasis (distance dX : ℝ) : ℝ := max 0 (1 - distance / dX) / dX

/-- actuator_utils.H:89-119 `delta_pnts_cyl`: differences in radius, angle and height. -/
noncomputable def deltaCyl (meps : ℝ) (origin normal point1 point2 : Vec ℝ) : Vec ℝ :=
  let d1 := point1 - origin
  let d2 := point2 - origin
  let n1 := dot d1 normal / dot normal normal
  let n2 := dot d2 normal / dot normal normal
  let v1 := d1 - n1 • normal
  let v2 := d2 - n2 • normal
  let r1 := mag v1
  let r2 := mag v2
  ⟨|r1 - r2|, Real.arccos (min (dot v1 v2 / (r1 * r2 + meps)) 1), n1 - n2⟩

/-! ## Weights of one force point at a cell centre -/

/-- disk_spreading.H:141-155 `linear_basis_spreading`: the weight at `cc` of a force point `p` of a disk. -/
noncomputable def ringWeight (meps : ℝ) (origin normal : Vec ℝ) (dR eps : ℝ) (p cc : Vec ℝ) : ℝ :=
  let R := (deltaCyl meps origin normal origin p).x
  let dist := deltaCyl meps origin normal cc p
  linearBasis dist.x dR * (1 / (2 * Real.pi * R)) * gaussian1d dist.z eps

/-- disk_spreading.H:203-223 `linear_basis_in_theta`. -/
noncomputable def sectorWeight (meps : ℝ) (origin normal : Vec ℝ) (dR : ℝ) (nt : ℕ) (eps : ℝ) (p cc : Vec ℝ) : ℝ :=
  let radius := (deltaCyl meps origin normal origin p).x
  let dArc := radius * (2 * Real.pi / nt)
  let dist := deltaCyl meps origin normal cc p
  linearBasis dist.x dR * linearBasis (dist.y * radius) dArc * gaussian1d dist.z eps

/-- disk_spreading.H:88-101 `uniform_gaussian_spreading`: the places where the `nForceTheta` parts of the force of point
`p` act. -/
noncomputable def gaussianPoint (normal p : Vec ℝ) (nForceTheta it : ℕ) : Vec ℝ :=
  vmul p (quaternion normal (180 * (it * (2 * Real.pi / nForceTheta)) / Real.pi))

/-- disk_spreading.H:83-110: the source of one point in a cell with centre `cc`. -/
noncomputable def gaussianSource (normal : Vec ℝ) (eps : ℝ) (nForceTheta : ℕ) (p : Vec ℝ) (force : ℝ) (cc : Vec ℝ) : ℝ :=
  ∑ it ∈ Finset.range nForceTheta,
    gaussian3d (gaussianPoint normal p nForceTheta it - cc) ⟨eps, eps, eps⟩ * (force / nForceTheta)

/-- A force point of an actuator line: new and old position, force (one component), epsilons and orientation. -/
structure LinePt where
  pos : Vec ℝ
  opos : Vec ℝ
  force : ℝ
  eps : Vec ℝ
  tmat : Ten ℝ

/-- ActSrcLineOp.H:120-139: the source of an actuator line in a cell with centre `cc`; `flags` are the `dcoord_flags`. -/
noncomputable def lineSource (flags : Vec ℝ) (pts : List LinePt) (cc : Vec ℝ) : ℝ :=
  (pts.map fun p =>
    let posIp := (1 / 2 : ℝ) • p.pos + (1 - 1 / 2 : ℝ) • p.opos
    let loc := tmul p.tmat (cc - posIp)
    gaussian3d ⟨loc.x * flags.x, loc.y * flags.y, loc.z * flags.z⟩ p.eps * p.force).sum

/-- ActSrcLineOp.H:57-88 `copy_to_device`: old and new positions after the call with the positions `grid`; `none` before
the first call. -/
def copyPos {α : Type*} (st : Option (α × α)) (grid : α) : α × α :=
  match st with
  | some (_, pos) => (pos, grid)
  | none => (grid, grid)

/-! ## Turbine disks -/

/-- A blade point of a turbine disk: position, force, epsilon (first component). -/
structure BladePt where
  pos : Vec ℝ
  force : ℝ
  eps : ℝ

/-- turbine/ActSrcDiskOp_Turbine.H:129-153: the source of a blade point. -/
noncomputable def bladeWeight (meps : ℝ) (origin normal : Vec ℝ) (dR : ℝ) (nBlades : ℕ) (p : BladePt) (cc : Vec ℝ) : ℝ :=
  let R := (deltaCyl meps origin normal origin p.pos).x
  let dist := deltaCyl meps origin normal cc p.pos
  let dT := 2 * Real.pi / nBlades
  linearBasis dist.x dR * linearBasis (R * dist.y) (dT * R) * gaussian1d dist.z p.eps * p.force

/-- turbine/ActSrcDiskOp_Turbine.H:109: the ring width. -/
noncomputable def turbineDR (p0 p1 : Vec ℝ) : ℝ := magSqr (p0 - p1)

/-- turbine/ActSrcDiskOp_Turbine.H:155-170, 172-184: the source of the tower points and of the hub. -/
noncomputable def fixedSource (pts : List LinePt) (cc : Vec ℝ) : ℝ :=
  (pts.map fun p => gaussian3d (tmul p.tmat (cc - p.pos)) p.eps * p.force).sum

/-- turbine/ActSrcDiskOp_Turbine.H:107-190: the source of a turbine disk in a cell with centre `cc`; `none` where the first
blade has fewer than two points. -/
noncomputable def turbineSource (meps : ℝ) (origin normal : Vec ℝ) (blades : List (List BladePt)) (tower : List LinePt)
    (hub : LinePt) (cc : Vec ℝ) : Option ℝ :=
  match blades with
  | (p0 :: p1 :: _) :: _ =>
    let dR := turbineDR p0.pos p1.pos
    some (blades.map fun blade =>
      (blade.map fun p => bladeWeight meps origin normal dR blades.length p cc).sum + fixedSource tower cc +
        fixedSource [hub] cc).sum
  | _ => none

/-! ## Tiles -/

/-- ActSrcLineOp.H:98-105, 120 (and the same lines of the disks): what is added in cell `c`; a tile that meets the box of
the actuator is treated whole. -/
def tiled (tiles : List Bx) (bxa : Bx) (src : Cell → ℝ) (c : Cell) : List ℝ :=
  tiles.filterMap fun t =>
    if t.lo.1 ≤ c.1 ∧ c.1 ≤ t.hi.1 ∧ t.lo.2.1 ≤ c.2.1 ∧ c.2.1 ≤ t.hi.2.1 ∧ t.lo.2.2 ≤ c.2.2 ∧ c.2.2 ≤ t.hi.2.2 ∧
        max t.lo.1 bxa.lo.1 ≤ min t.hi.1 bxa.hi.1 ∧ max t.lo.2.1 bxa.lo.2.1 ≤ min t.hi.2.1 bxa.hi.2.1 ∧
        max t.lo.2.2 bxa.lo.2.2 ≤ min t.hi.2.2 bxa.hi.2.2 then some (src c) else none

end AmrWind.Spread
