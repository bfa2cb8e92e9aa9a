import Mathlib.Algebra.BigOperators.Group.Finset.Basic
import Verif.Pde.IterModel

/-!
# Model of a whole time step with its operators in the form they have in the code

The memory and the order of operations are those of `Pde/IterModel.lean` (`incflo_advance.cpp`); here the operators are given: advection as the
divergence of face fluxes (`AdvOp_Godunov.H`, `AdvOp_MOL.H`, `icns_advection.H`), sources as external force less pressure gradient
(`icns_ops.H`), right-hand sides (`CompRHSOps.H`), and the corrector of the method of lines (`incflo_advance.cpp:520-644`).  What comes from AMReX
and AMReX-Hydro (reconstruction at faces, both projections, linear solves) are parameters.  Density has no equation of its own
(`constant_density`); no mesh map.
-/

set_option linter.unusedSectionVars false

namespace AmrWind.Steady

open Step (Diff Cel predictorRhs correctorRhs rk2 dtDiff)
open Iter

variable {ι F K : Type*} [Fintype F] [Field K] [LinearOrder K] [IsStrictOrderedRing K]

/-- The rest of the memory: face velocities, pressure gradient, viscosity and diffusivities. -/
@[ext] structure Aux (ι F K : Type*) where
  u : F → K
  gp : Ve ι K
  mu : ι → K
  alpha : ℕ → ι → K

abbrev M (ι F K : Type*) := Mem ι K (Aux ι F K)

/-- Operators of the libraries and inputs of the run.  `s i f` is the area of face `f` over the volume of cell `i`, positive out of the cell. -/
structure Scheme (ι F K : Type*) where
  s : ι → F → K
  /-- value of a scalar at the faces from face velocities, force and cell values (HydroUtils::ComputeFluxesOnBoxFromState) -/
  face : (F → K) → Sc ι K → Sc ι K → F → K
  /-- velocity through the faces before the projection, from the cell values and the force per mass (HydroUtils::ExtrapVelToFaces) -/
  extrap : Ve ι K → Ve ι K → F → K
  /-- projection of the face velocities -/
  mac : Sc ι K → (F → K) → F → K
  /-- divergence of the stress, and of the flux of scalar `i` -/
  viscous : (ι → K) → Ve ι K → Ve ι K
  conduct : ℕ → (ι → K) → Sc ι K → Sc ι K
  /-- the linear solves: density, coefficient, time step, right-hand side -/
  solveV : Sc ι K → (ι → K) → K → Ve ι K → Ve ι K
  solve : ℕ → Sc ι K → (ι → K) → K → Sc ι K → Sc ι K
  /-- nodal projection: density, time step, velocity, pressure gradient -/
  project : Bool → Sc ι K → K → Ve ι K → Ve ι K → Ve ι K × Ve ι K
  /-- acceleration by all momentum sources but the pressure, at the velocity given -/
  accel : Ve ι K → Ve ι K
  /-- source of scalar `i` -/
  heat : ℕ → Sc ι K → Sc ι K
  /-- turbulence and transport model: viscosity and diffusivities from the whole memory -/
  visc : M ι F K → (ι → K) × (ℕ → ι → K)
  mask : ι → K

/-- A state of a field. -/
def at' {V : Type*} (st : St) (t : Tri V) : V := match st with
  | .old => t.old
  | .nph => t.nph
  | .new => t.new

/-- The field of scalar `i`; zero if there is none (never read). -/
def theScal (i : ℕ) (m : M ι F K) : Eqn (Sc ι K) := (m.scal[i]?).getD ⟨⟨0, 0, 0⟩, 0, 0, 0⟩

/-- icns_ops.H:84-134: acceleration less pressure gradient over density, then times density (`multiply_rho`); no mesh map. -/
def srcV (S : Scheme ι F K) (st : St) (m : M ι F K) : Ve ι K := fun e =>
  at' st m.rho e.1 * (-(1 * m.aux.gp e) * (1 / at' st m.rho e.1) + S.accel (at' st m.vel.fld) e)

/-- AdvOp_Godunov.H:200-245, AdvOp_MOL.H:104-112: the force that the extrapolation to faces sees: none with the method of lines. -/
def force {V : Type*} [Zero V] (c : Cfg) (f : V) : V := if c.godunov then f else 0

/-- icns_advection.H:120-235 (Godunov), 486-512 (method of lines). -/
def macOp (S : Scheme ι F K) (c : Cfg) (st : St) (m : M ι F K) : Aux ι F K :=
  { m.aux with u := S.mac (at' st m.rho) (S.extrap (at' st m.vel.fld) (force c m.vel.src)) }

/-- AdvOp_Godunov.H:147-300, AdvOp_MOL.H:72-120: minus the divergence of the flux of density times scalar; the product is reconstructed at the faces
(no vof field). -/
def advS (S : Scheme ι F K) (c : Cfg) (st : St) (i : ℕ) (m : M ι F K) : Sc ι K := fun x =>
  -∑ f, S.s x f * (m.aux.u f * S.face m.aux.u (force c (theScal i m).src) (fun y => at' st m.rho y * at' st (theScal i m).fld y) f)

/-- icns_advection.H:266-305 (velocity and force times density), 306-455, 514-585. -/
def advV (S : Scheme ι F K) (c : Cfg) (st : St) (m : M ι F K) : Ve ι K := fun e =>
  -∑ f, S.s e.1 f * (m.aux.u f *
    S.face m.aux.u (force c fun x => m.vel.src (x, e.2) * m.rho.old x) (fun x => at' st m.vel.fld (x, e.2) * at' st m.rho x) f)

/-- The cell that `predictor_rhs` and `corrector_rhs` read. -/
def cel (S : Scheme ι F K) (m : M ι F K) (i : ℕ) (conv diff : Sc ι K) (x : ι) : Cel K :=
  let q := theScal i m
  ⟨m.rho.old x, m.rho.new x, 1, q.fld.old x, q.conv x, conv x, q.src x, q.diff x, diff x, S.mask x⟩

/-- The operators that `Iter.step` composes; `dt` is the time step. -/
def ops (S : Scheme ι F K) (c : Cfg) (dt : K) : Ops ι K (Aux ι F K) where
  visc m := { m.aux with mu := (S.visc m).1, alpha := (S.visc m).2 }
  srcV := srcV S
  src i st m := S.heat i (at' st (theScal i m).fld)
  diffV m := S.viscous m.aux.mu m.vel.fld.new
  diff i m := S.conduct i (m.aux.alpha i) (theScal i m).fld.new
  mac := macOp S c
  advV := advV S c
  adv := advS S c .old
  rhs i m := fun x => predictorRhs true c.kind dt (cel S m i (theScal i m).conv (theScal i m).diff x)
  solveV τ m := S.solveV m.rho.new m.aux.mu τ m.vel.fld.new
  solve i τ m := S.solve i m.rho.new (m.aux.alpha i) τ (theScal i m).fld.new
  improve i m := fun x => rk2 true dt (S.mask x) (m.rho.new x) ((theScal i m).fld.new x)
    (S.conduct i (m.aux.alpha i) (theScal i m).fld.new x - (theScal i m).diff x)
  post i m := ((theScal i m).fld.new, (m.rho.new, m.rho.nph), m.aux)
  project b m := let r := S.project b m.rho.new dt m.vel.fld.new m.aux.gp; (r.1, { m.aux with gp := r.2 })
  predictor m := m.aux
  mask := S.mask

/-- incflo_advance.cpp:582-608: the corrector for one scalar; `conv` and `diff` are the new advection and diffusion term. -/
def correctScal (S : Scheme ι F K) (c : Cfg) (dt : K) (conv diff : ℕ → Sc ι K) (i : ℕ) (m : M ι F K) : M ι F K :=
  let o := ops S c dt
  let m := sourceScal o .new i m
  let m := setNew i (fun x => correctorRhs true c.kind dt (cel S m i (conv i) (diff i) x)) m
  let m := if c.kind ≠ .explicit then setNew i (o.solve i (dtDiff c.kind dt) m) m else m
  halfScal i (postSolve o i m)

/-- incflo_advance.cpp:610-643: the corrector for momentum. -/
def correctVel (S : Scheme ι F K) (c : Cfg) (dt : K) (conv diff : Ve ι K) (m : M ι F K) : M ι F K :=
  let o := ops S c dt
  let m := sourceVel o .new m
  let m := { m with vel := { m.vel with fld := { m.vel.fld with
    new := fun e => correctorRhs true c.kind dt ⟨m.rho.old e.1, m.rho.new e.1, 1, m.vel.fld.old e, m.vel.conv e, conv e,
      m.vel.src e, m.vel.diff e, diff e, S.mask e.1⟩ } } }
  let m := if c.kind ≠ .explicit then { m with vel := { m.vel with fld := { m.vel.fld with new := o.solveV (dtDiff c.kind dt) m } } } else m
  projection o false m

/-- incflo_advance.cpp:520-644 `ApplyCorrector`. -/
def correct (S : Scheme ι F K) (c : Cfg) (dt : K) (m : M ι F K) : M ι F K :=
  let o := ops S c dt
  let m := macVel o .new m
  let convS := fun i => advS S c .new i m
  let convV := advV S c .new m
  let m := viscosity o m
  let diffV := if c.kind = .explicit then o.diffV m else m.vel.diff
  let diffS := fun i => if c.kind = .explicit then o.diff i m else (theScal i m).diff
  let m := holdDensity c m
  correctVel S c dt convV diffV (each (correctScal S c dt convS diffS) m)

/-- incflo.cpp:290-345: a run of steps, each with its time step and its number of iterations. -/
def run (S : Scheme ι F K) (c : Cfg) : List (K × ℕ) → M ι F K → Option (M ι F K)
  | [], m => some m
  | (dt, n) :: r, m => (step c (ops S c dt) (correct S c dt) false dt n m).bind (run S c r)

end AmrWind.Steady
