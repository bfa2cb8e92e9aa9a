import Verif.Mix.Model
import Verif.Pde.StepModel

/-!
# The life of a two-phase run

`physics/multiphase/MultiPhase.cpp` (constructor, `post_init_actions`, `post_regrid_actions`, `post_advance_work`) together with the order in
which `incflo.cpp` and `PDE.H` call it, and the transport of density and level set (`equation_systems/density/density_ops.H`,
`equation_systems/levelset/levelset_ops.H`).

A field is a function on the places `ι` of the mesh. What other parts compute is a parameter: the volume fraction made of a level set
(`Mix`), integrals over the domain (`Amr`), and the fields after advection or interpolation to a new mesh.
-/

set_option linter.unusedSectionVars false

namespace AmrWind.Mph

variable {ι K : Type*} [Field K] [LinearOrder K] [IsStrictOrderedRing K]

/-- The end of a call: a value, `amrex::Abort`, or a null pointer that is dereferenced. -/
inductive Res (α : Type*) where
  | ok (a : α)
  | abort
  | null

def Res.bind {α β : Type*} : Res α → (α → Res β) → Res β
  | .ok a, f => f a
  | .abort, _ => .abort
  | .null, _ => .null

/-- MultiPhase.H:16. -/
inductive Method where
  | vof
  | ls
deriving DecidableEq

/-- MultiPhase.H:93-139: the inputs; `water` is `MultiPhase.water_level` if it is in the dictionary. -/
structure Cfg (K : Type*) where
  name : List Char
  rho1 : K
  rho2 : K
  perturb : Bool
  reconstruct : Bool
  initP : Bool
  water : Option K
  verbose : ℤ

/-- The fields of the run that matter here. -/
structure Flow (ι K : Type*) where
  vof : ι → K
  ls : ι → K
  rho : ι → K
  rhoOld : ι → K
  rhoNph : ι → K
  vel : ι → ℕ → K
  p : ι → K
  ref : Option (ι → K)

/-- What other parts compute. -/
structure Ops (ι K : Type*) where
  /-- MultiPhase.cpp:425-470 `levelset2vof` -/
  toVof : (ι → K) → ι → K
  /-- MultiPhase.cpp:297-336 -/
  lsDensity : (ι → K) → ι → K
  /-- MultiPhase.cpp:204-247 -/
  volume : (ι → K) → K
  /-- MultiPhase.cpp:249-295: of velocity, density and component -/
  momentum : (ι → ℕ → K) → (ι → K) → ℕ → K
  /-- hydrostatic_ops.H:12-38 -/
  rho0 : K → ι → K
  /-- hydrostatic_ops.H:40-72 -/
  p0 : K → ι → K
  domVol : K

/-- The members of the object: `hasVof` is false while `m_vof` is null. -/
structure Mp (K : Type*) where
  method : Method
  hasVof : Bool
  q : ℕ → K
  sum0 : K
  water0 : K

/-- `amrex::toLower`. -/
def lower (s : List Char) : List Char := s.map Char.toLower

/-- MultiPhase.cpp:30-57: the method of a name. -/
def methodOf (name : List Char) : Method :=
  if lower name = ['v', 'o', 'f'] then .vof else if lower name = ['l', 'e', 'v', 'e', 'l', 's', 'e', 't'] then .ls else .vof

/-- MultiPhase.cpp:18-83; `(*m_vof).num_grow()` in :67-68. -/
def construct (c : Cfg K) : Res (Mp K) :=
  let m : Mp K := ⟨methodOf c.name, methodOf c.name = .vof, fun _ => 0, 0, 0⟩
  if c.perturb && c.reconstruct && !m.hasVof then .null else .ok m

/-- MultiPhase.cpp:338-359. -/
def viaVof (c : Cfg K) (f : Flow ι K) : Flow ι K := { f with rho := fun i => Mix.mixDensity c.rho1 c.rho2 (f.vof i) }

def viaLs (o : Ops ι K) (f : Flow ι K) : Flow ι K := { f with rho := o.lsDensity f.ls }

/-- MultiPhase.cpp:90-151. -/
def postInit (c : Cfg K) (o : Ops ι K) (restart : Bool) (m : Mp K) (f : Flow ι K) : Res (Mp K × Flow ι K) :=
  let f := if restart then f else match m.method with
    | .vof => viaVof c { f with vof := o.toVof f.ls }
    | .ls => viaLs o f
  let m := { m with q := o.momentum f.vel f.rho }
  if m.hasVof = false then .null
  else
    let m := { m with sum0 := o.volume f.vof }
    if c.perturb && c.water.isNone then .abort
    else
      let m := { m with water0 := c.water.getD m.water0 }
      let f := if c.perturb && c.water.isSome then { f with ref := some (o.rho0 m.water0) } else f
      if c.initP && c.water.isNone then .abort
      else .ok (m, if c.initP && c.water.isSome then { f with p := o.p0 m.water0 } else f)

/-- vof_ops.H:71-82, levelset_ops.H:125-137: the actions after the solve of the equation of the interface. -/
def postSolve (c : Cfg K) (o : Ops ι K) (m : Mp K) (f : Flow ι K) : Flow ι K :=
  match m.method with
  | .vof =>
    let f := viaVof c f
    { f with rhoNph := fun i => Mix.nphDensity (f.rhoOld i) (f.rho i) }
  | .ls => viaLs o f

/-- incflo.cpp:98-125 with PDE.H:79-80: the physics in their order, `others` being those behind this one, then the equations. -/
def start (c : Cfg K) (o : Ops ι K) (restart : Bool) (others : Flow ι K → Flow ι K) (f : Flow ι K) : Res (Mp K × Flow ι K) :=
  (construct c).bind fun m => (postInit c o restart m f).bind fun r => .ok (r.1, postSolve c o r.1 (others r.2))

/-- What happens to a run: a step, with the interface and velocity that advection gives and the density that an equation for the density
gives (if there is one), or a new mesh with the fields interpolated to it. -/
inductive Ev (ι K : Type*) where
  | step (vof ls : ι → K) (rho : Option (ι → K)) (vel : ι → ℕ → K)
  | regrid (f : Flow ι K)

/-- MultiPhase.cpp:154-173 behind PDE.H:102. -/
def postRegrid (c : Cfg K) (o : Ops ι K) (m : Mp K) (f : Flow ι K) : Flow ι K :=
  let f := postSolve c o m f
  if c.perturb then { f with ref := some (o.rho0 m.water0) } else f

/-- incflo_advance.cpp:205-351 (density first, incflo.cpp:432-441), MultiPhase.cpp:177-202; incflo.cpp:226-232. -/
def ev (c : Cfg K) (o : Ops ι K) (m : Mp K) (f : Flow ι K) : Ev ι K → Flow ι K
  | .step v l r u =>
    let f := { f with rhoOld := f.rho }
    let f := { f with rho := r.getD f.rho }
    let f := postSolve c o m { f with vof := v, ls := l }
    let f := { f with vel := u }
    match m.method with
    | .vof => f
    | .ls => viaLs o f
  | .regrid g => postRegrid c o m { g with ref := none }

def run (c : Cfg K) (o : Ops ι K) (m : Mp K) (f : Flow ι K) (es : List (Ev ι K)) : Flow ι K := es.foldl (ev c o m) f

/-- MultiPhase.cpp:179-199: what is printed after a step: liquid, its change, gas, and the changes of momentum. -/
def report (c : Cfg K) (o : Ops ι K) (m : Mp K) (f : Flow ι K) : Option (K × K × K × (ℕ → K)) :=
  if m.method = .vof ∧ 0 < c.verbose then
    some (o.volume f.vof, o.volume f.vof - m.sum0, o.domVol - o.volume f.vof, fun n => o.momentum f.vel f.rho n - m.q n)
  else none

/-! ## Transport of density and level set -/

/-- density_ops.H:17-45, levelset_ops.H:52-83: one cell. -/
def ownPredictor (dt old conv : K) : K := old + dt * conv

/-- density_ops.H:47-74, levelset_ops.H:85-112. -/
def ownCorrector (dt old convO conv : K) : K := old + dt * (1 / 2) * (convO + conv)

end AmrWind.Mph
