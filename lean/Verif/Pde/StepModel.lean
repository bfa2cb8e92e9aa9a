import Mathlib.Algebra.Order.Field.Basic
import Mathlib.Algebra.BigOperators.Group.Finset.Basic
import Mathlib.Data.Fintype.BigOperators

/-!
# Model of one step of a transport equation

`equation_systems/CompRHSOps.H`, `equation_systems/DiffusionOps.{H,cpp}`, `equation_systems/icns/icns_diffusion.H`,
`diffusion/incflo_diffusion.cpp`, and the order of calls in `incflo_advance.cpp` (ApplyPredictor, ApplyCorrector).

The cells of all levels are a finite type `ι`; one component of the field at a time.  The linear operators `∇·(b ∇ ·)` of AMReX are
functions of the field (`L`); a linear solve is taken to be exact: its result is any field that satisfies the equations.
-/

set_option linter.unusedSectionVars false

namespace AmrWind.Step

variable {K : Type*} [Field K] [LinearOrder K] [IsStrictOrderedRing K]

/-- incflo_enums.H:6-11 (`Invalid` aborts). -/
inductive Diff
  | explicit
  | cn
  | implicit
  deriving DecidableEq

/-- What `predictor_rhs` and `corrector_rhs` read in one cell: densities, determinant of the map (one without map), old field,
old and new rate of advection, source, old and new diffusion, mask. -/
structure Cel (K : Type*) where
  rhoO : K
  rho : K
  detJ : K
  fO : K
  convO : K
  conv : K
  src : K
  diffO : K
  diff : K
  mask : K

/-- CompRHSOps.H:36-51. -/
def factor : Diff → K
  | .explicit => 1
  | .cn => 1 / 2
  | .implicit => 0

/-- CompRHSOps.H:33-141: `predictor_rhs` in one cell; `mulRho` is `PDE::multiply_rho`. -/
def predictorRhs (mulRho : Bool) (k : Diff) (dt : K) (c : Cel K) : K :=
  let a := if mulRho then (c.rhoO * c.detJ * c.fO + c.mask * dt * (c.convO + c.detJ * c.src + factor k * c.diffO)) / c.rho
    else c.detJ * c.fO + c.mask * dt * (c.convO + c.detJ * c.src + factor k * c.diffO)
  if k = .explicit then a / c.detJ else a

/-- CompRHSOps.H:152-172: factors of old and new diffusion in the corrector. -/
def factors : Diff → K × K
  | .explicit => (1 / 2, 1 / 2)
  | .cn => (1 / 2, 0)
  | .implicit => (0, 0)

/-- CompRHSOps.H:149-268: `corrector_rhs` in one cell. -/
def correctorRhs (mulRho : Bool) (k : Diff) (dt : K) (c : Cel K) : K :=
  let s := 1 / 2 * (c.convO + c.conv) + (factors k).1 * c.diffO + (factors k).2 * c.diff + c.detJ * c.src
  let a := if mulRho then (c.rhoO * c.detJ * c.fO + c.mask * dt * s) / c.rho else c.detJ * c.fO + c.mask * dt * s
  if k = .explicit then a / c.detJ else a

/-- CompRHSOps.H:275-304: `explicit_rk2_post_hoc` in one cell; `dd` is the new minus the old diffusion term. -/
def rk2 (mulRho : Bool) (dt mask rho f dd : K) : K :=
  f + (if mulRho then 1 / 2 * dt * mask / rho else 1 / 2 * dt * mask) * dd

/-- incflo_advance.cpp:321-327, 376-381. -/
def dtDiff : Diff → K → K
  | .implicit, dt => dt
  | _, dt => 1 / 2 * dt

variable {ι : Type*} [Fintype ι]

/-- DiffusionOps.cpp:75-151, 153-160: `linsys_solve`: operator `1 * (ρ J) - dt ∇·b∇`, right-hand side `ρ f`. -/
def Solves (L : (ι → K) → ι → K) (rho detJ : ι → K) (dtd : K) (f g : ι → K) : Prop :=
  ∀ i, 1 * (rho i * detJ i) * g i - dtd * L g i = rho i * f i

/-- DiffusionOps.H:140-176, icns_diffusion.H:35-47 (tensor operator): the diffusion term, `0 - (-1) ∇·b∇`; no equation with diffusion
has `multiply_rho` false. -/
def diffTerm (L : (ι → K) → ι → K) (f : ι → K) : ι → K := fun i => 0 - (-1) * L f i

/-- icns_diffusion.H:109-175, 321-402 (the two scalar operators): for the old state the term is divided by the density. -/
def diffTermScalar (L : (ι → K) → ι → K) (old : Bool) (rho f : ι → K) : ι → K := fun i =>
  if old then (0 - (-1) * L f i) * (1 / rho i) else 0 - (-1) * L f i

/-- The data of a step of one component: old and new density, determinant, old field, advection (old and new), source, mask. -/
structure Data (ι K : Type*) where
  rhoO : ι → K
  rho : ι → K
  detJ : ι → K
  fO : ι → K
  convO : ι → K
  conv : ι → K
  src : ι → K
  mask : ι → K

def Data.cell (d : Data ι K) (diffO diff : ι → K) (i : ι) : Cel K :=
  ⟨d.rhoO i, d.rho i, d.detJ i, d.fO i, d.convO i, d.conv i, d.src i, diffO i, diff i, d.mask i⟩

/-- incflo_advance.cpp:309-345, 361-394: the step of a predictor (for the Godunov scheme the whole step) with diffusion term `diffO`,
before the improvement of explicit diffusion. -/
def Predicted (L : (ι → K) → ι → K) (k : Diff) (dt : K) (d : Data ι K) (diffO g : ι → K) : Prop :=
  let f := fun i => predictorRhs true k dt (d.cell diffO diffO i)
  if k = .explicit then g = f else Solves L d.rho d.detJ (dtDiff k dt) f g

/-- incflo_advance.cpp:330-342, 382-393: explicit diffusion with the Godunov scheme: `star` is the field after the predictor, `newTerm`
the diffusion term with it. -/
def improved (dt : K) (d : Data ι K) (diffO newTerm star : ι → K) : ι → K := fun i =>
  rk2 true dt (d.mask i) (d.rho i) (star i) (newTerm i - diffO i)

/-- incflo_advance.cpp:580-604, 614-634: the step of the corrector (not Godunov). -/
def Corrected (L : (ι → K) → ι → K) (k : Diff) (dt : K) (d : Data ι K) (diffO diff g : ι → K) : Prop :=
  let f := fun i => correctorRhs true k dt (d.cell diffO diff i)
  if k = .explicit then g = f else Solves L d.rho d.detJ (dtDiff k dt) f g

/-! ## Operator -/

/-- The type of the boundary of a face, incflo_enums.H:13-26. -/
inductive Bc
  | pressureOutflow | massInflow | massInflowOutflow | zeroGradient | noSlip | slip | wallModel | fixedGradient | periodic
  | waveGeneration | symmetric | undefined
  deriving DecidableEq, Repr

inductive LinBc
  | periodic | neumann | inhomogNeumann | dirichlet
  deriving DecidableEq, Repr

/-- incflo_diffusion.cpp:9-68: condition for velocity component `comp` on a face of direction `dir`; `none` aborts. -/
def tensorBc (isPeriodic : Bool) (b : Bc) (comp dir : Fin 3) : Option LinBc :=
  if isPeriodic then some .periodic else match b with
    | .pressureOutflow | .zeroGradient => some .neumann
    | .waveGeneration | .massInflow | .massInflowOutflow | .noSlip => some .dirichlet
    | .symmetric | .slip => if comp = dir then some .dirichlet else some .neumann
    | .wallModel => if comp = dir then some .dirichlet else some .inhomogNeumann
    | _ => none

/-- incflo_diffusion.cpp:70-103: condition for a scalar. -/
def scalarBc (isPeriodic : Bool) (b : Bc) : Option LinBc :=
  if isPeriodic then some .periodic else match b with
    | .pressureOutflow | .zeroGradient | .symmetric | .slip => some .neumann
    | .wallModel | .fixedGradient => some .inhomogNeumann
    | .waveGeneration | .massInflow | .massInflowOutflow | .noSlip => some .dirichlet
    | _ => none

/-- incflo_diffusion.cpp:105-208: viscosity on face `i` (between cells `i - 1` and `i`) of a row of cells `lo … hi`; AMReX averages
the two cells. -/
def faceEta (isPeriodic : Bool) (lo hi : ℤ) (eta : ℤ → K) (i : ℤ) : K :=
  if !isPeriodic && i == lo then eta i else if !isPeriodic && i == hi + 1 then eta (i - 1) else (eta (i - 1) + eta i) / 2

/-- incflo_diffusion.cpp:210-278: with a map. -/
def mapEta (eta detJ fac : K) : K := eta * detJ / fac ^ 2

/-- The operator of AMReX along a row of cells of size `dx`, with face coefficients `b`. -/
def row (b : ℤ → K) (dx : K) (g : ℤ → K) (i : ℤ) : K :=
  (b (i + 1) * (g (i + 1) - g i) - b i * (g i - g (i - 1))) / dx ^ 2

/-- The same on any set of cells with periodic or Neumann boundaries: `w i j` is the coefficient of the face between the two. -/
def lap (w : ι → ι → K) (g : ι → K) (i : ι) : K := ∑ j, w i j * (g j - g i)

end AmrWind.Step
