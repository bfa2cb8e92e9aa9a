/-
Explicit diffusion with the time step that the code chooses: amr-wind/incflo_compute_dt.cpp, core/SimTime.cpp,
equation_systems/DiffusionOps.H, equation_systems/CompRHSOps.H, diffusion/incflo_diffusion.cpp.
-/
import Verif.Pde.StepModel

set_option linter.unusedSectionVars false

namespace AmrWind.Expl

open Step (lap predictorRhs improved diffTerm Data)

variable {K : Type*} [Field K] [LinearOrder K]
variable {ι : Type*} [Fintype ι] [DecidableEq ι]

/-- The operator of the diffusion of a scalar on one level (`MLABecLaplacian` with scalars 0 and -1, DiffusionOps.H:140-176): the face
between two cells has the mean `b` of the two (incflo_diffusion.cpp:105-208), divided by the square of the width.  `nb c d s` is the cell
on side `s` of `c` in direction `d`, none at a boundary without flux; with a periodic direction it is the cell on the other end. -/
def weight (nb : ι → Fin 3 → Bool → Option ι) (dxinv : Fin 3 → K) (b : ι → K) (c j : ι) : K :=
  ∑ d, ∑ s, if nb c d s = some j then (b c + b j) / 2 * dxinv d ^ 2 else 0

/-- The same operator with sides on which the value is given, `σ` the places of the given values: with the order two of the boundary (MLMGOptions.H:53 `max_order`,
DiffusionOps.cpp:49-50) the gradient on such a side is that from the middle of the cell to the side, half a cell away, and the coefficient that of the cell
(incflo_diffusion.cpp:105-208).  Simplification: the given values stay as they are during the step; a place of `σ` is its own and takes part in no equation. -/
def weightGiven {σ : Type*} [DecidableEq σ] (nb : ι → Fin 3 → Bool → Option (ι ⊕ σ)) (dxinv : Fin 3 → K) (b : ι → K) : ι ⊕ σ → ι ⊕ σ → K
  | .inl c, .inl j => ∑ d, ∑ s, if nb c d s = some (.inl j) then (b c + b j) / 2 * dxinv d ^ 2 else 0
  | .inl c, .inr t => ∑ d, ∑ s, if nb c d s = some (.inr t) then b c / (1 / 2) * dxinv d ^ 2 else 0
  | .inr _, _ => 0

/-- The data of a step in which nothing but diffusion acts and no cell is blanked. -/
def onlyDiffusion (rho f : ι → K) : Data ι K := ⟨rho, rho, fun _ => 1, f, fun _ => 0, fun _ => 0, fun _ => 0, fun _ => 1⟩

/-- CompRHSOps.H:33-141, incflo_advance.cpp:309-327: explicit diffusion, predictor. -/
def euler (w : ι → ι → K) (dt : K) (rho f : ι → K) : ι → K := fun i =>
  predictorRhs true .explicit dt ((onlyDiffusion rho f).cell (diffTerm (lap w) f) (diffTerm (lap w) f) i)

/-- CompRHSOps.H:275-304, incflo_advance.cpp:330-342: the step of the Godunov scheme. -/
def godunov (w : ι → ι → K) (dt : K) (rho f : ι → K) : ι → K :=
  improved dt (onlyDiffusion rho f) (diffTerm (lap w) f) (diffTerm (lap w) (euler w dt rho f)) (euler w dt rho f)

/-- CompRHSOps.H:149-268, incflo_advance.cpp:580-604: the step of the method of lines, predictor and corrector. -/
def methodOfLines (w : ι → ι → K) (dt : K) (rho f : ι → K) : ι → K := fun i =>
  Step.correctorRhs true .explicit dt
    ((onlyDiffusion rho f).cell (diffTerm (lap w) f) (diffTerm (lap w) (euler w dt rho f)) i)

end AmrWind.Expl
