import Mathlib.Algebra.Order.Field.Basic
import Verif.Config.Model

/-!
# Model of wave boundaries: `ocean_waves/boundary_ops/OceanWavesBoundary.cpp`, `OceanWavesFillInflow.cpp`,
`OceanWaves.cpp` (when the targets are updated), `equation_systems/vof/vof_bciface.H`,
`utilities/index_operations.H` (`face_aware_boundary_box_intersection`)

An index is a function of the direction, a box has inclusive bounds and says in which directions it is face centred. An
array is a function of index and component. One box of the level (one `mfi`) is modelled; the loop treats them alike.
-/

namespace AmrWind.Wbc

open Plane Config

/-- `amrex::IntVect`. -/
abbrev Idx := Axis → ℤ

/-- `amrex::Box` with its index type (`true`: face centred in the direction). -/
structure Box where
  lo : Idx
  hi : Idx
  loc : Axis → Bool

/-- `Box::contains`; `Box::ok` is that some index is contained. -/
def Box.Has (b : Box) (iv : Idx) : Prop := ∀ d, b.lo d ≤ iv d ∧ iv d ≤ b.hi d

/-- 0 or 1. -/
def bit (b : Bool) : ℤ := if b then 1 else 0

/-- `amrex::grow` by one. -/
def Box.grow (b : Box) : Box := ⟨fun d => b.lo d - 1, fun d => b.hi d + 1, b.loc⟩

/-- `Box::enclosedCells`. -/
def Box.enclosed (b : Box) : Box := ⟨b.lo, fun d => b.hi d - bit (b.loc d), fun _ => false⟩

/-- `operator&`. -/
def Box.inter (a b : Box) : Box := ⟨fun d => max (a.lo d) (b.lo d), fun d => min (a.hi d) (b.hi d), a.loc⟩

/-- `Geometry::growPeriodicDomain(1)` of the cell-centred domain `lo`, `hi`. -/
def growPeriodic (lo hi : Idx) (per : Axis → Bool) : Box :=
  ⟨fun d => lo d - bit (per d), fun d => hi d + bit (per d), fun _ => false⟩

/-- `adjCellLo`, `adjCellHi` with one layer. -/
def adjCell (b : Box) (o : Face) : Box :=
  let m := if o.2 then b.hi o.1 + 1 else b.lo o.1 - 1
  ⟨fun d => if d = o.1 then m else b.lo d, fun d => if d = o.1 then m else b.hi d, b.loc⟩

/-- `field_location_vector` as numbers. -/
def Box.locVec (b : Box) : Idx := fun d => bit (b.loc d)

/-- index_operations.H:63-84 `face_aware_boundary_box_intersection`: the box and `shift_to_cc`. (For an empty
intersection nothing is written, whatever the shift.) -/
def faceAware (gbx dbx : Box) (o : Face) : Box × Idx :=
  let bx := gbx.enclosed.inter dbx
  if o.2 = true ∧ gbx.loc o.1 = true then
    (⟨fun d => bx.lo d + gbx.locVec d, fun d => bx.hi d + gbx.locVec d, bx.loc⟩, fun d => -gbx.locVec d)
  else (bx, fun _ => 0)

/-- OceanWavesBoundary.cpp:83-85 (157-159, 209-211, 258-260): the faces the waves come through. -/
def waveFace (b : BC) : Bool := b = .mass_inflow ∨ b = .mass_inflow_outflow ∨ b = .wave_generation

/-- `shift_to_interior` (OceanWavesBoundary.cpp:93-94). -/
def inward (o : Face) : Idx := fun d => if d = o.1 then (if o.2 then -1 else 1) else 0

/-- What the functions read. `blank` is `terrain_blank` where terrain and vof both exist. -/
structure Env (K : Type*) where
  /-- The cell-centred domain of the level. -/
  domLo : Idx
  domHi : Idx
  per : Axis → Bool
  bc : Face → BC
  /-- `m_activate_ow_bndry`. -/
  active : Bool
  /-- `TIGHT_TOL`. -/
  tol : K
  /-- `ow_vof`, `ow_velocity`. -/
  owVof : Idx → K
  owVel : Idx → ℕ → K
  blank : Option (Idx → ℤ)
  /-- `m_rho1` (negative without `MultiPhase`). -/
  rho1 : K

section
variable {K : Type*} [Field K] [LinearOrder K] [IsStrictOrderedRing K]

open Classical in
/-- OceanWavesBoundary.cpp:81-132: one face of `set_velocity` for one box; `vbx` is the valid box, `nc` the components
of the array. -/
noncomputable def velFace (e : Env K) (vbx : Box) (nc dcomp orig : ℕ) (arr : Idx → ℕ → K) (o : Face) : Idx → ℕ → K :=
  if waveFace (e.bc o) = false then arr
  else
    let r := faceAware vbx.grow (adjCell (growPeriodic e.domLo e.domHi e.per) o) o
    fun iv c =>
      if r.1.Has iv ∧ dcomp ≤ c ∧ c < dcomp + nc then
        if e.blank.any (fun b => b (fun d => iv d + r.2 d + inward o d) = 1) then 0
        else if e.tol < e.owVof iv then e.owVel iv (orig + (c - dcomp)) else arr iv c
      else arr iv c

/-- OceanWavesBoundary.cpp:62-134 `set_velocity`. -/
noncomputable def setVelocity (e : Env K) (vbx : Box) (nc dcomp orig : ℕ) (arr : Idx → ℕ → K) : Idx → ℕ → K :=
  if e.active then faces.foldl (velFace e vbx nc dcomp orig) arr else arr

open Classical in
/-- OceanWavesBoundary.cpp:155-182, 207-236: one face of `set_vof` and `set_density`, `f` being the new value from target
volume fraction and old value. -/
noncomputable def scalFace (e : Env K) (vbx : Box) (f : K → K → K) (arr : Idx → K) (o : Face) : Idx → K :=
  if waveFace (e.bc o) = false then arr
  else
    let r := faceAware vbx.grow (adjCell (growPeriodic e.domLo e.domHi e.per) o) o
    fun iv => if r.1.Has iv then f (e.owVof iv) (arr iv) else arr iv

/-- OceanWavesBoundary.cpp:136-182 `set_vof`. -/
noncomputable def setVof (e : Env K) (vbx : Box) (arr : Idx → K) : Idx → K :=
  if e.active then faces.foldl (scalFace e vbx fun t _ => t) arr else arr

/-- OceanWavesBoundary.cpp:184-236 `set_density`. -/
noncomputable def setDensity (e : Env K) (vbx : Box) (arr : Idx → K) : Idx → K :=
  if e.active = false ∨ e.rho1 < 0 then arr
  else faces.foldl (scalFace e vbx fun t v => t * e.rho1 + (1 - t) * v) arr

open Classical in
/-- OceanWavesBoundary.cpp:256-323: one face of `set_inflow_sibling_velocity` for the velocity component on the faces of
direction `fdir`, `vbx` the (face-centred) valid box. -/
noncomputable def siblingFace (e : Env K) (vbx : Box) (fdir : Axis) (arr : Idx → K) (o : Face) : Idx → K :=
  if waveFace (e.bc o) = false ∨ o.1 ≠ fdir then arr
  else
    let cc (iv : Idx) : Idx := fun d => iv d + (if d = fdir ∧ o.2 = false then -1 else 0)
    fun iv =>
      if vbx.Has iv ∧ iv fdir = (if o.2 then e.domHi fdir + 1 else e.domLo fdir) ∧
          ∀ d, d ≠ fdir → e.domLo d ≤ iv d ∧ iv d ≤ e.domHi d then
        if e.blank.any (fun b => b (fun d => cc iv d + inward o d) = 1) then 0
        else if e.tol < e.owVof (cc iv) then e.owVel (cc iv) (normalComp fdir) else arr iv
      else arr iv

/-- OceanWavesBoundary.cpp:238-326 `set_inflow_sibling_velocity` for one direction. -/
noncomputable def setSibling (e : Env K) (vbx : Box) (fdir : Axis) (arr : Idx → K) : Idx → K :=
  if e.active then faces.foldl (siblingFace e vbx fdir) arr else arr

/-! ## Fills: OceanWavesFillInflow.cpp -/

/-- The operator that fills the ghost cells of the velocity: the one registered with the boundary conditions (with a
profile of the user, velocity_bcs.H:57-87), or the one of the waves. -/
inductive FillOp where
  | profile (p : Face → ℕ → Idx → ℚ)
  | waves

/-- OceanWavesBoundary.cpp:40-48 with Field.H:312-316: registering replaces the operator there was. -/
def registerWaves (active : Bool) (op : FillOp) : FillOp := if active then .waves else op

/-- FieldBCOps.H:96-109, 149-197 with OceanWavesFillInflow.cpp:13: the value given outside a Dirichlet face before the
waves are set. `vals` are the constants of the input file. -/
def baseValue (op : FillOp) (vals : Face → ℕ → ℚ) (o : Face) (n : ℕ) (iv : Idx) : ℚ :=
  match op with
  | .profile p => p o n iv
  | .waves => vals o n

/-- OceanWavesFillInflow.cpp:20-75 for the velocity (`fillpatch`, `fillpatch_from_coarse`, `fillphysbc`): `base` is
the array after `FieldFillPatchOps<FieldBCDirichlet>`. -/
noncomputable def fillVelocity (e : Env K) (vbx : Box) (base : Idx → ℕ → K) : Idx → ℕ → K :=
  setVelocity e vbx 3 0 0 base

/-! ## Times: OceanWaves.cpp and the order of a Godunov step -/

/-- OceanWavesFillInflow.cpp:89-90 `boundary_data_unchanged`. -/
def unchanged (tol bndryTime time : K) : Bool := bndryTime - time < tol

/-- The uses of the targets in a step. -/
inductive Use where
  /-- ghost cells of the fields at the middle of the step (PDEBase.cpp:115-135). -/
  | stateHalf
  /-- ghost faces of the advecting velocity before the step (PDEBase.cpp:138-148). -/
  | macGhostBefore
  /-- the advecting velocity on the boundary itself (icns_advection.H:214). -/
  | macFace
  /-- its ghost faces before the advection (icns_advection.H:219-224). -/
  | macGhost
  /-- ghost cells of the fields at the end of the step (icns_bcop.H, vof_bcop.H `apply_bcs`), and the projection
  (incflo_apply_nodal_projection.cpp:318). -/
  | stateNew
deriving DecidableEq

/-- The targets of ghost faces (OceanWavesFillInflow.cpp:88-133): the wave is set only if the data changed. -/
def macGhostUse (tol bndryTime time : K) : Option K := if unchanged tol bndryTime time then none else some bndryTime

/-- One step of the Godunov scheme from `cur` to `new`: each use, the time it is for, and the time of the wave set
there (`none`: no wave is set). OceanWaves.cpp:90-107, incflo_advance.cpp:21-39, PDE.H:139-146. -/
def stepUses (tol cur new : K) : List (Use × K × Option K) :=
  let half := (1 / 2) * (cur + new)
  -- pre_advance_work
  let b := half
  -- prepare_time_step: prepare_boundaries, then pre_predictor_work
  let prep := [(Use.stateHalf, half, some b), (Use.macGhostBefore, half, macGhostUse tol b half)]
  let b' := new
  prep ++ [(Use.macFace, half, some b'), (Use.macGhost, half, macGhostUse tol b' half), (Use.stateNew, new, some b')]

end

/-! ## Boundary types of volume fraction and density: vof_bciface.H -/

/-- vof_bciface.H:27-68: one face of `BCVOF::set_bcrec`. -/
def vofFace (bc : Face → BC) (r : Bcrec) (f : Face) : Option Bcrec :=
  match bc f with
  | .periodic => some (setBcrec 1 r f .int_dir)
  | .pressure_outflow | .zero_gradient | .no_slip_wall | .symmetric_wall | .slip_wall | .wall_model =>
    some (setBcrec 1 r f .foextrap)
  | .wave_generation | .mass_inflow | .mass_inflow_outflow => some (setBcrec 1 r f .ext_dir)
  | .fixed_gradient | .undefined => none

/-- vof_bciface.H:21-69 `BCVOF::set_bcrec`. -/
def vofBcrec (bc : Face → BC) (r : Bcrec) : Option Bcrec := faces.foldlM (vofFace bc) r

/-- vof_bciface.H:108-148: one face of `BCDensityMod::set_bcrec`. -/
def densityFace (bc : Face → BC) (r : Bcrec) (f : Face) : Option Bcrec :=
  match bc f with
  | .periodic => some (setBcrec 1 r f .int_dir)
  | .pressure_outflow | .zero_gradient | .no_slip_wall | .symmetric_wall | .slip_wall | .wall_model =>
    some (setBcrec 1 r f .foextrap)
  | .wave_generation | .mass_inflow | .mass_inflow_outflow => some (setBcrec 1 r f .ext_dir)
  | .fixed_gradient | .undefined => none

/-- vof_bciface.H:102-149 `BCDensityMod::set_bcrec`. -/
def densityBcrec (bc : Face → BC) (r : Bcrec) : Option Bcrec := faces.foldlM (densityFace bc) r

/-- vof_bciface.H:71-92, 150-171 `read_values` of volume fraction and density for one face; the defaults are 0 and 1
(vof.H:32-33, vof_bcop.H:23-27). -/
def vofValue {K : Type*} [Zero K] (p : Params K) (bc : Face → BC) (f : Face) : Option (List K) :=
  if bc f = .mass_inflow ∨ bc f = .mass_inflow_outflow then getarrN p (bcname f ++ ".vof") 1 [0]
  else queryarrN p (bcname f ++ ".vof") 1 [0]

/-- See `vofValue`. -/
def densityValue {K : Type*} [One K] (p : Params K) (bc : Face → BC) (f : Face) : Option (List K) :=
  if bc f = .mass_inflow ∨ bc f = .mass_inflow_outflow then getarrN p (bcname f ++ ".density") 1 [1]
  else queryarrN p (bcname f ++ ".density") 1 [1]

end AmrWind.Wbc
