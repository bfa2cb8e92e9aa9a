import Verif.Pde.NodalModel
import Mathlib.Analysis.SpecialFunctions.Sqrt

/-!
# Model of the immersed boundary method (`immersed_boundary/`)

Cells `C` and nodes `N` of all levels are arbitrary types with positions. Not modelled: reading the input (three components of `vel_bc` are given), ghost cells, the empty
operators (forces, motion, output), ghost cells.
-/

set_option linter.unusedSectionVars false

namespace AmrWind.Ib

open AmrWind.Nodal

/-- A point. -/
abbrev Pt := Fin 3 → ℝ

/-- Sphere.H, Cylinder.H, Box.H: the shapes with their input (`sphere_ops.H:25-26`, `cylinder_ops.H:26-28`, `box_ops.H:25-28`). -/
inductive Shape where
  | sphere (c : Pt) (radius : ℝ)
  | cylinder (c : Pt) (radius height : ℝ)
  | box (c : Pt) (size : Fin 3 → ℝ)

/-- BluffBody.H:18-30: a body with the velocity it prescribes. -/
structure Body where
  shape : Shape
  mms : Bool
  vel : Fin 3 → ℝ

/-- sphere_ops.H:75-86, cylinder_ops.H:73-82, box_ops.H:80-102: the level set of one shape. -/
noncomputable def Shape.phi : Shape → Pt → ℝ
  | .sphere c R, p => Real.sqrt ((p 0 - c 0) * (p 0 - c 0) + (p 1 - c 1) * (p 1 - c 1) + (p 2 - c 2) * (p 2 - c 2)) - R
  | .cylinder c R _, p => Real.sqrt ((p 0 - c 0) * (p 0 - c 0) + (p 1 - c 1) * (p 1 - c 1)) - R
  | .box c s, p =>
    if |p 0 - c 0| ≤ 1 / 2 * s 0 ∧ |p 1 - c 1| ≤ 1 / 2 * s 1 ∧ |p 2 - c 2| ≤ 1 / 2 * s 2 then
      max (|p 0 - c 0| - 1 / 2 * s 0) (max (|p 1 - c 1| - 1 / 2 * s 1) (|p 2 - c 2| - 1 / 2 * s 2))
    else min |(|p 0 - c 0| - 1 / 2 * s 0)| (min |(|p 1 - c 1| - 1 / 2 * s 1)| |(|p 2 - c 2| - 1 / 2 * s 2)|)

open Classical in
/-- sphere_ops.H:95-104, cylinder_ops.H:91-99, box_ops.H:109-120: nodes the shape masks; `dx` is the cell size. -/
noncomputable def Shape.masks : Shape → (Fin 3 → ℝ) → Pt → Bool
  | .sphere c R, _, p => decide (Real.sqrt ((p 0 - c 0) * (p 0 - c 0) + (p 1 - c 1) * (p 1 - c 1) + (p 2 - c 2) * (p 2 - c 2)) ≤ R)
  | .cylinder c R _, _, p => decide (Real.sqrt ((p 0 - c 0) * (p 0 - c 0) + (p 1 - c 1) * (p 1 - c 1)) ≤ R)
  | .box c s, dx, p => decide (|p 0 - c 0| ≤ 1 / 2 * s 0 + 1 / 2 * dx 0 ∧ |p 1 - c 1| ≤ 1 / 2 * s 1 + 1 / 2 * dx 1 ∧ |p 2 - c 2| ≤ 1 / 2 * s 2 + 1 / 2 * dx 2)

/-- The mesh: positions of cells and nodes, sizes of the cells at them, `band` the cube root of the cell volume. -/
structure Mesh (C N : Type*) where
  cell : C → Pt
  node : N → Pt
  dx : N → Fin 3 → ℝ
  band : C → ℝ

/-- Level set, node mask, normal of all bodies. -/
structure State (C N : Type*) where
  phi : C → ℝ
  mask : N → ℝ
  normal : VF C ℝ

variable {C N : Type*}

/-- incflo.cpp:104-115 (mask one), IB.cpp:58-66 (level set large, then each body in order). -/
noncomputable def init (m : Mesh C N) (bodies : List Body) : State C N where
  phi := fun c => bodies.foldl (fun v b => min (b.shape.phi (m.cell c)) v) (10 ^ 30)
  mask := fun n => bodies.foldl (fun v b => if b.shape.masks (m.dx n) (m.node n) then 0 else v) 1
  normal := fun _ _ => 0

/-- incflo.cpp:192-222 with IB.cpp:69: on a change of the mesh the cells of a level with the boxes it had keep level set and
normal (`kept` gives the old cell); on the other levels both are zero, as neither field is filled on a change of the mesh
(IB.cpp:17-21, core/Field.H:438, core/FieldRepo.cpp:45 and 69); the mask is one everywhere. -/
def regrid {C' N' : Type*} (kept : C' → Option C) (s : State C N) : State C' N' :=
  ⟨fun c => ((kept c).map s.phi).getD 0, fun _ => 1, fun c n => ((kept c).map (s.normal · n)).getD 0⟩

/-- field_ops.H:443-468: vectors with a square above `eps` are made unit vectors. -/
noncomputable def unit (eps : ℝ) (g : VF C ℝ) : VF C ℝ := fun c n =>
  let mag := g c 0 * g c 0 + g c 1 * g c 1 + g c 2 * g c 2
  if mag > eps then g c n / Real.sqrt mag else g c n

/-- bluff_body_ops.cpp:84-143 `apply_dirichlet_vel`: velocity and normal; `grad` is `fvm::gradient`. -/
noncomputable def applyDirichlet (m : Mesh C N) (grad : (C → ℝ) → VF C ℝ) (eps : ℝ) (bc : Fin 3 → ℝ) (s : State C N) (u : VF C ℝ) : State C N × VF C ℝ :=
  let nrm := unit eps (grad s.phi)
  ({ s with normal := fun c n => if s.phi c < -m.band c then 0 else if s.phi c < 0 ∧ s.phi c ≥ -m.band c then nrm c n else 0 },
    fun c n => if s.phi c < -m.band c then bc n else if s.phi c < 0 ∧ s.phi c ≥ -m.band c then bc n else u c n)

/-- bluff_body_ops.cpp:33-82 `apply_mms_vel`; `ex` is the velocity of the exact solution. -/
noncomputable def applyMms (ex : Pt → Fin 3 → ℝ) (m : Mesh C N) (s : State C N) (u : VF C ℝ) : State C N × VF C ℝ :=
  (s, fun c n => if s.phi c ≤ 0 then ex (m.cell c) n else u c n)

/-- IB.cpp:103-109 `update_velocities` with bluff_body_ops.H:68-85: each body in order. -/
noncomputable def updateVelocities (m : Mesh C N) (grad : (C → ℝ) → VF C ℝ) (eps : ℝ) (ex : Pt → Fin 3 → ℝ) (bodies : List Body) (s : State C N) (u : VF C ℝ) :
    State C N × VF C ℝ :=
  bodies.foldl (fun w b => if b.mms then applyMms ex m w.1 w.2 else applyDirichlet m grad eps b.vel w.1 w.2) (s, u)

/-- incflo_apply_nodal_projection.cpp:368-383: the right hand side is masked before the solution. -/
def masked {B : Type*} (mask : N → ℝ) (P : Projector C N B ℝ) : Projector C N B ℝ := { P with solve := fun σ r => P.solve σ fun n => r n * mask n }

/-- incflo_apply_nodal_projection.cpp:202-206 and on: the projection of a simulation with bodies; `post_pressure_correction_work` (IB.cpp:82-86) has no caller. -/
noncomputable def ibProject {B : Type*} (m : Mesh C N) (grad : (C → ℝ) → VF C ℝ) (eps : ℝ) (ex : Pt → Fin 3 → ℝ) (bodies : List Body) (s : State C N) (P : Projector C N B ℝ)
    (su : Setup C ℝ) (inflow zero : B) (w : Flow C N ℝ) : Flow C N ℝ :=
  project (masked s.mask P) su inflow zero { w with u := (updateVelocities m grad eps ex bodies s w.u).2 }

end AmrWind.Ib
