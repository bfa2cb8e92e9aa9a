import Mathlib.Algebra.Order.Ring.Defs
import Verif.Config.Model
/-!
# Prescribed velocities on the boundary: `core/FieldFillPatchOps.H` (`set_inflow`, `set_inflow_sibling_fields`),
`equation_systems/icns/icns_advection.cpp` (`set_inflow_velocity`), `projection/incflo_apply_nodal_projection.cpp`

`inflow f n c` is the value the inflow operator of the field gives for component `n` at index `c` outside or on face `f`
(a constant or a user-defined function, `Verif.Udf`), at a fixed time.
-/

set_option linter.unusedSectionVars false

namespace AmrWind.Inflow

open Plane Config

variable {K : Type*} [LT K] [DecidableLT K] [Zero K]

/-- The component normal to a face. -/
def comp : Axis → ℕ
  | .x => 0
  | .y => 1
  | .z => 2

/-- In a box, in one direction. -/
def inDir (b : Bx) (d : Axis) (c : Cell) : Bool := d.idx b.lo ≤ d.idx c ∧ d.idx c ≤ d.idx b.hi

/-- In a box, in the directions other than `d`. -/
def inTangent (b : Bx) (d : Axis) (c : Cell) : Bool :=
  (d = .x ∨ inDir b .x c) ∧ (d = .y ∨ inDir b .y c) ∧ (d = .z ∨ inDir b .z c)

/-- The faces in direction `d` of the cells of a box: `MFIter::validbox` of a face-centred array. -/
def faceBox (d : Axis) (b : Bx) (c : Cell) : Bool :=
  inTangent b d c ∧ d.idx b.lo ≤ d.idx c ∧ d.idx c ≤ d.idx b.hi + 1

/-- `amrex::bdryLo`, `amrex::bdryHi` (FieldFillPatchOps.H:433-434): the cell faces on a side of the domain. -/
def onBdry (dom : Bx) (f : Face) (c : Cell) : Bool :=
  inTangent dom f.1 c ∧ f.1.idx c = if f.2 then f.1.idx dom.hi + 1 else f.1.idx dom.lo

/-- FieldFillPatchOps.H:420-471: what one side of the domain does to the velocity `v` on the face `c` in direction `d`. -/
def setSide (dom : Bx) (bc : Face → BC) (inflow : Face → ℕ → Cell → K) (d : Axis) (c : Cell) (v : K) (f : Face) : K :=
  if bc f ≠ .mass_inflow ∧ bc f ≠ .mass_inflow_outflow ∧ bc f ≠ .wave_generation then v
  else if f.1 ≠ d then v
  else if onBdry dom f c = false then v
  else
    let t := inflow f (0 + comp d) c
    if bc f = .mass_inflow_outflow ∧ ((f.2 = false ∧ t < 0) ∨ (f.2 = true ∧ 0 < t)) then v else t

/-- FieldFillPatchOps.H:409-474 `set_inflow_sibling_fields` for the velocity in direction `d` on the grid `b`. -/
def setSibling (dom : Bx) (bc : Face → BC) (inflow : Face → ℕ → Cell → K) (d : Axis) (b : Bx) (u : Cell → K) : Cell → K :=
  fun c => if faceBox d b c then faces.foldl (setSide dom bc inflow d c) (u c) else u c

/-- The physics looked at by icns_advection.cpp:155-186. -/
structure Abl where
  planesIn : Bool
  mpl : Bool

/-- icns_advection.cpp:155-186 `MacProjOp::set_inflow_velocity` without ocean waves, for one grid and one direction. -/
def setMac (abl : Option Abl) (dom : Bx) (bc : Face → BC) (inflow : Face → ℕ → Cell → K) (d : Axis) (b : Bx) (u : Cell → K) :
    Cell → K :=
  match abl with
  | some a => if a.planesIn then u else if a.mpl then u else setSibling dom bc inflow d b u
  | none => setSibling dom bc inflow d b u

/-- `amrex::grow`. -/
def growBox (n : ℤ) (b : Bx) : Bx := ⟨(b.lo.1 - n, b.lo.2.1 - n, b.lo.2.2 - n), (b.hi.1 + n, b.hi.2.1 + n, b.hi.2.2 + n)⟩

/-- `Geometry::growPeriodicDomain`. -/
def growPeriodic (per : Axis → Bool) (n : ℤ) (b : Bx) : Bx :=
  let g (d : Axis) : ℤ := if per d then n else 0
  ⟨(b.lo.1 - g .x, b.lo.2.1 - g .y, b.lo.2.2 - g .z), (b.hi.1 + g .x, b.hi.2.1 + g .y, b.hi.2.2 + g .z)⟩

/-- In a box. -/
def inBox (b : Bx) (c : Cell) : Bool := inDir b .x c ∧ inDir b .y c ∧ inDir b .z c

/-- `amrex::adjCellLo`, `amrex::adjCellHi` (FieldFillPatchOps.H:384-386). -/
def adjCells (dom : Bx) (n : ℤ) (f : Face) (c : Cell) : Bool :=
  inTangent dom f.1 c ∧
    if f.2 then f.1.idx dom.hi + 1 ≤ f.1.idx c ∧ f.1.idx c ≤ f.1.idx dom.hi + n
    else f.1.idx dom.lo - n ≤ f.1.idx c ∧ f.1.idx c ≤ f.1.idx dom.lo - 1

/-- FieldFillPatchOps.H:362-407 `set_inflow` for component `m` on the grid `b`, `n` layers. -/
def setInflow (per : Axis → Bool) (dom : Bx) (bc : Face → BC) (inflow : Face → ℕ → Cell → K) (n : ℤ) (m : ℕ) (b : Bx) (u : Cell → K) :
    Cell → K := fun c =>
  faces.foldl (fun v f =>
    if bc f ≠ .mass_inflow ∧ bc f ≠ .mass_inflow_outflow then v
    else if inBox (growBox n b) c = false ∨ adjCells (growPeriodic per n dom) n f c = false then v
    else inflow f m c) (u c)

/-- incflo_apply_nodal_projection.cpp:310-322: the velocity on a grid before a nodal projection; `small` is
`proj_for_small_dt`. The exchange of ghost cells between grids and other physics are left out. -/
def nodalVel (small incremental : Bool) (per : Axis → Bool) (dom : Bx) (bc : Face → BC) (inflow : Face → ℕ → Cell → K) (m : ℕ) (b : Bx)
    (u : Cell → K) : Cell → K :=
  let z : Cell → K := fun c => if inBox b c then u c else 0
  if small = false ∧ incremental = false then setInflow per dom bc inflow 1 m b z else z

end AmrWind.Inflow
