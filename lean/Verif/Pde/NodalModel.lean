import Mathlib.Algebra.Order.Field.Basic
import Mathlib.Algebra.BigOperators.Fin
import Mathlib.Tactic.FieldSimp
import Mathlib.Tactic.Ring
import Mathlib.Tactic.Linarith

/-!
# Model of `projection/incflo_apply_nodal_projection.cpp`

The velocity at cell centres is projected onto a divergence-free one with a pressure at nodes. Cells `C` and nodes `N` of all levels are arbitrary types; a
vector field gives three components per cell.

Not modelled: the solver (`Hydro::NodalProjector`) itself: `Projector` states what it computes; immersed boundaries, overset masks and their initial guess; averaging the pressure gradient
down to coarse cells that are covered; ghost cells (data at the boundary are one value `bc`: the normal flux,
for the anelastic equations after its multiplication with the reference density, 332-340).
-/

set_option linter.unusedSectionVars false

namespace AmrWind.Nodal

variable {K : Type*} [Field K] [LinearOrder K] [IsStrictOrderedRing K]

/-- A vector field at cell centres. -/
abbrev VF (C K : Type*) := C → Fin 3 → K

/-- `Hydro::NodalProjector`: `div bc v` is the divergence at nodes of `v` with velocities `bc` at the boundary, `solve` the solution of `∇·σ∇φ = r`, `grad` the gradient
of nodal values in cells. The projected velocity is `v - σ grad φ`. -/
structure Projector (C N B K : Type*) where
  div : B → VF C K → N → K
  solve : VF C K → (N → K) → (N → K)
  grad : (N → K) → VF C K

/-- What a call is made with: incflo_apply_nodal_projection.cpp:157-161, 169-207. -/
structure Setup (C K : Type*) where
  scale : K
  incremental : Bool
  small : Bool
  mapped : Bool
  anelastic : Bool
  varying : Bool
  rho : C → K
  fac : VF C K
  detJ : C → K
  rho0 : C → K
  rhoInput : K

/-- Velocity, old velocity, pressure gradient and pressure. -/
structure Flow (C N K : Type*) where
  u : VF C K
  old : VF C K
  gp : VF C K
  p : N → K

/-- incflo_apply_nodal_projection.cpp:169-170: the step is much smaller than the one before. -/
def smallStep (time dt dtOld : K) : Bool := decide (time > 0) && decide (dt < 1 / 10 * dtOld)

variable {C N B : Type*}

/-- incflo_apply_nodal_projection.cpp:227-232: 1 without mesh mapping. -/
def Setup.f (s : Setup C K) (c : C) (n : Fin 3) : K := if s.mapped then s.fac c n else 1

/-- incflo_apply_nodal_projection.cpp:289-292. -/
def Setup.j (s : Setup C K) (c : C) : K := if s.mapped then s.detJ c else 1

/-- incflo_apply_nodal_projection.cpp:213-243: the old pressure gradient is put back. -/
def addBack (s : Setup C K) (w : Flow C N K) : VF C K := fun c n =>
  if s.incremental then w.u c n else w.u c n + 1 / s.f c n * w.gp c n * (s.scale / s.rho c)

/-- incflo_apply_nodal_projection.cpp:250-259: the change since the old velocity, for small steps and increments. -/
def change (s : Setup C K) (w : Flow C N K) : VF C K := fun c n =>
  if s.small || s.incremental then addBack s w c n - w.old c n else addBack s w c n

/-- incflo_apply_nodal_projection.cpp:261-264 with Field.cpp:401-412, and 332-340: the vector that is projected: in uniform space, times the reference density. -/
def toProject (s : Setup C K) (w : Flow C N K) : VF C K := fun c n =>
  let v := if s.mapped then change s w c n * (s.detJ c / s.fac c n) else change s w c n
  if s.anelastic then v * s.rho0 c else v

/-- incflo_apply_nodal_projection.cpp:266-302, 350-362: the coefficient of the Poisson equation; a constant if neither density nor mesh vary. -/
def sigma (s : Setup C K) : VF C K := fun c n =>
  if s.varying || s.mapped then
    let v := (s.f c n ^ 2)⁻¹ * s.j c * s.scale / s.rho c
    if s.anelastic then v * s.rho0 c else v
  else s.scale / s.rhoInput

/-- incflo_apply_nodal_projection.cpp:313-324: the boundary data: the inflow, or zero if the change is projected. -/
def boundary (s : Setup C K) (inflow zero : B) : B := if s.small || s.incremental then zero else inflow

/-- incflo_apply_nodal_projection.cpp:364-405: the solution. -/
def phi (P : Projector C N B K) (s : Setup C K) (inflow zero : B) (w : Flow C N K) : N → K :=
  P.solve (sigma s) (P.div (boundary s inflow zero) (toProject s w))

/-- incflo_apply_nodal_projection.cpp:410-431: back to physical space, and the old velocity added again. -/
def velocity (P : Projector C N B K) (s : Setup C K) (inflow zero : B) (w : Flow C N K) : VF C K := fun c n =>
  let v := toProject s w c n - sigma s c n * P.grad (phi P s inflow zero w) c n
  let v := if s.anelastic then v / s.rho0 c else v
  let v := if s.mapped then v * (s.fac c n / s.detJ c) else v
  if s.small || s.incremental then v + w.old c n else v

/-- incflo_apply_nodal_projection.cpp:157-498 `ApplyProjection`, with the update of pressure and gradient at 433-474. -/
def project (P : Projector C N B K) (s : Setup C K) (inflow zero : B) (w : Flow C N K) : Flow C N K where
  u := velocity P s inflow zero w
  old := w.old
  gp := fun c n => if s.incremental then w.gp c n + P.grad (phi P s inflow zero w) c n else P.grad (phi P s inflow zero w) c n
  p := fun x => if s.incremental then w.p x + phi P s inflow zero w x else phi P s inflow zero w x

/-- incflo_apply_nodal_projection.cpp:477-483: the reference pressure is added for output. -/
def truePressure (reconstruct : Bool) (time : K) (p p0 : N → K) : N → K := fun x => if reconstruct && decide (time ≠ 0) then p x + p0 x else p x

/-- The boundary types of the code, and those of the linear solver. -/
inductive Kind where
  | periodic | pressureOutflow | massInflow | massInflowOutflow | waveGeneration | noSlip | slip | wallModel | zeroGradient | fixedGradient | symmetric | undefined
  deriving DecidableEq

inductive LinOp where
  | periodic | dirichlet | inflow | neumann
  deriving DecidableEq

/-- incflo_apply_nodal_projection.cpp:36-66 `get_projection_bc`, one direction and side. -/
def projectionBc (isPeriodic : Bool) (k : Kind) : LinOp :=
  if isPeriodic then .periodic
  else match k with
    | .pressureOutflow => .dirichlet
    | .massInflowOutflow => .inflow
    | .massInflow => .inflow
    | .waveGeneration => .inflow
    | _ => .neumann

end AmrWind.Nodal
