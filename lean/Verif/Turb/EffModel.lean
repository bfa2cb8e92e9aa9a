import Verif.Field.FillModel

/-!
# The coefficients with which the equations diffuse

`turbulence/LaminarModel.cpp`, `turbulence/TurbModelBase.H`, the functions `update_alphaeff` and `update_scalar_diff` of `turbulence/LES/*.cpp` and `turbulence/RANS/*.cpp`,
`PDEOps.H` (`TurbulenceOp`), `diffusion/incflo_diffusion.cpp` (coefficients on faces).  What the models compute in a single cell is data here (it is modelled in `LesModel`,
`AxellModel` and `SstModel`); the subject is which arrays are written where, ghost cells included.  Not modelled: the mapping of stretched meshes
(`viscosity_to_uniform_space`), `amrex::Abort` beyond the outcome `none`.
-/

set_option linter.unusedSectionVars false

namespace AmrWind.Eff

open FieldOps (Cell Box Layout Fld inside)
open Fill (Geo Mapper fillpatch bounds)

/-- The values of a field of one component by level, array and cell; the arrays have one ghost layer (PDEHelpers.H:59, TurbModelBase.H:98, TransportModel.H:72). -/
abbrev Arr (K : Type*) := ℕ → ℕ → Cell → K

/-- As a field. -/
def fld {K : Type*} (u : Arr K) : Fld K := ⟨1, 1, fun lev b c _ => u lev b c⟩

/-- The models of turbulence (`turbulence.model`). -/
inductive Turb where
  | laminar | smagorinsky | amd | amdNoTherm | m84 | s94 | kosovic | axell | sst | iddes
  deriving DecidableEq

/-- The equations with diffusion (`has_diffusion`): velocity, temperature, and scalars by name (`tke`, `sdr`, `passive_scalar`). -/
inductive Eqn where
  | velocity
  | temperature
  | scalar (name : String)
  deriving DecidableEq

variable {K : Type*} [Field K]

/-- What a step finds: laminar viscosity and thermal diffusivity (arrays with a ghost layer), Prandtl and Schmidt numbers, the turbulent viscosity that the model computes in the
cells of boxes, the factor from there to the diffusivity of heat (OneEqKsgs.cpp:192-195, Kosovic.cpp:213, 223-224, KLAxell.cpp:328-332), the diffusivity of heat of AMD
(AMD.cpp:145-149), the blended factors of the k-omega models (KOmegaSST.cpp:308-313, 329-335). -/
structure Data (K : Type*) where
  mu : Arr K
  alpha : Arr K
  prt : K
  sc : String → K
  sct : String → K
  visc : Arr K
  ratio : Arr K
  heat : Arr K
  blend : String → Arr K

/-- The mesh and the filling of ghost cells of the fields `mu_turb` and `…_mueff` (`set_default_fillpatch_bc`, PDEHelpers.H:75, TurbModelBase.H:111). -/
structure Mesh (K : Type*) where
  geo : Geo K
  map : Mapper K
  junk : K
  boxes : Layout

/-- `amrex::ParallelFor(mf, …)` without ghost cells. -/
def onBoxes (m : Mesh K) (old new : Arr K) : Arr K := fun lev b c => if inside m.boxes 0 lev b c then new lev b c else old lev b c

/-- `setVal`, `saxpy`, `lincomb`, `copy` with `num_grow`: all of the array. -/
def onArrays (m : Mesh K) (old new : Arr K) : Arr K := fun lev b c => if inside m.boxes 1 lev b c then new lev b c else old lev b c

/-- `Field::fillpatch`. -/
def fill (m : Mesh K) (u : Arr K) : Arr K := fun lev b c => (fillpatch m.geo m.map m.junk m.boxes 1 (fld u)).val lev b c 0

/-- The fields `mu_turb` and `…_mueff` of the equation. -/
structure State (K : Type*) where
  muT : Arr K
  eff : Arr K

/-- FieldRepo.cpp:430: fields are zero at first, ghost cells included. -/
def start : State K := ⟨fun _ _ _ => 0, fun _ _ _ => 0⟩

/-- `update_turbulent_viscosity`: nothing for Laminar (LaminarModel.cpp:77-81) and OneEqKsgsS94 (OneEqKsgs.cpp:288-295); the others compute cells and fill ghost cells
(Smagorinsky.cpp:61, AMD.cpp:114, AMDNoTherm.cpp:66, OneEqKsgs.cpp:163, Kosovic.cpp:202, KLAxell.cpp:283, KOmegaSST.cpp:284, KOmegaSSTIDDES.cpp:341). -/
def turbulent (t : Turb) (m : Mesh K) (x : Data K) (muT : Arr K) : Arr K := match t with
  | .laminar => muT
  | .s94 => muT
  | _ => fill m (onBoxes m muT x.visc)

/-- `update_mueff`: LaminarModel.cpp:18-30, TurbModelBase.H:18-25, 48-56. -/
def velocityEff (t : Turb) (m : Mesh K) (x : Data K) (muT old : Arr K) : Arr K := match t with
  | .laminar => onArrays m old x.mu
  | _ => onArrays m old fun lev b c => x.mu lev b c + 1 * muT lev b c

/-- `update_alphaeff`: LaminarModel.cpp:32-46, OneEqKsgs.cpp:167-202, Kosovic.cpp:206-229, KLAxell.cpp:287-338, AMD.cpp:119-152, TurbModelBase.H:27-35, 58-66. -/
def temperatureEff (t : Turb) (m : Mesh K) (x : Data K) (muT old : Arr K) : Arr K := match t with
  | .laminar => onArrays m old x.alpha
  | .m84 => fill m (onBoxes m old fun lev b c => x.alpha lev b c + muT lev b c * x.ratio lev b c)
  | .kosovic => fill m (onBoxes m old fun lev b c => x.alpha lev b c + x.ratio lev b c * muT lev b c)
  | .axell => fill m (onBoxes m old fun lev b c => x.alpha lev b c + muT lev b c * x.ratio lev b c)
  | .amd => onBoxes m old x.heat
  | _ => onArrays m old fun lev b c => x.alpha lev b c + 1 / x.prt * muT lev b c

/-- `update_scalar_diff`: LaminarModel.cpp:48-71, OneEqKsgs.cpp:205-222, 298-315, KLAxell.cpp:341-355, KOmegaSST.cpp:288-341, TurbModelBase.H:37-46, 68-78. -/
def scalarEff (t : Turb) (m : Mesh K) (x : Data K) (name : String) (muT old : Arr K) : Option (Arr K) :=
  let twice := if name = "tke" then some (onArrays m old fun lev b c => 0 + 2 * muT lev b c) else none
  let blended := if name = "tke" ∨ name = "sdr" then some (onBoxes m old fun lev b c => x.mu lev b c + x.blend name lev b c * muT lev b c) else none
  match t with
  | .laminar => some (onArrays m old fun lev b c => x.mu lev b c / x.sc name)
  | .m84 => twice
  | .s94 => twice
  | .axell => twice
  | .sst => blended
  | .iddes => blended
  | _ => some (onArrays m old fun lev b c => x.mu lev b c / x.sc name + 1 / x.sct name * muT lev b c)

/-- incflo_advance.cpp:220-225 for one equation (`TurbulenceOp`: icns_ops.H:149, temperature.H:59, PDEOps.H:182-185, tke_ops.H:22-26, sdr_ops.H:22-26). -/
def step (t : Turb) (e : Eqn) (m : Mesh K) (s : State K) (x : Data K) : Option (State K) :=
  let muT := turbulent t m x s.muT
  match e with
  | .velocity => some ⟨muT, velocityEff t m x muT s.eff⟩
  | .temperature => some ⟨muT, temperatureEff t m x muT s.eff⟩
  | .scalar name => (scalarEff t m x name muT s.eff).map fun u => ⟨muT, u⟩

/-- The steps of a run on an unchanged mesh. -/
def run (t : Turb) (e : Eqn) (m : Mesh K) (xs : List (Data K)) : Option (State K) := xs.foldlM (step t e m) start

/-- The cell below the face `c` across direction `d`; the one above has the index of the face. -/
def below (d : Fin 3) (c : Cell) : Cell := Function.update c d (c d - 1)

/-- incflo_diffusion.cpp:106-204: the coefficient on the face `c` across direction `d` in the array of box `b`: the mean of the two cells, on sides of the domain that are not
periodic the cell inside. -/
def onFace (m : Mesh K) (u : Arr K) (lev b : ℕ) (d : Fin 3) (c : Cell) : K :=
  let x := bounds m.boxes 0 lev b
  let mean := (u lev b (below d c) + u lev b c) / 2
  if m.geo.per d = false then
    if x.hi d = m.geo.hi lev d ∧ c d = x.hi d + 1 then u lev b (below d c)
    else if x.lo d = m.geo.lo lev d ∧ c d = x.lo d then u lev b c
    else mean
  else mean

end AmrWind.Eff
