import Verif.Pde.StepModel
import Mathlib.Analysis.Real.Sqrt
import Mathlib.Data.Rat.Defs

/-!
# Model of one time step as a whole: iterations of the step, initial iterations, steps with prescribed velocity

`incflo_advance.cpp` (prepare_time_step, advance, ApplyPredictor, prescribe_advance, ApplyPrescribeStep), `incflo.cpp` (Evolve, do_advance),
`setup/init.cpp` (InitialIterations), `equation_systems/PDEBase.cpp` (advance_states, prepare_boundaries),
`utilities/console_io.cpp` (print_nonlinear_residual).

The memory has the three states of velocity, density and every scalar, the stored terms of every equation and `aux`: everything else
(pressure, face velocities, viscosity, data of the physics modules).  The operators of the code (viscosity, sources, advection, linear solves,
projections) are arbitrary functions of the memory (`Ops`): they may read all of it, and what each writes is fixed by its type.  The cells of all
levels are a type `ι`.  Simplified: ghost cells are taken to be determined by the valid cells and by `aux`, so that filling them is no step of its own;
without mesh mapping; no overset.
-/

set_option linter.unusedSectionVars false

namespace AmrWind.Iter

open Step (Diff Cel predictorRhs rk2 dtDiff)

/-- core/FieldDescTypes.H: the states that the step uses. -/
inductive St
  | old | nph | new
  deriving DecidableEq

/-- A field with its states. -/
@[ext] structure Tri (V : Type*) where
  old : V
  nph : V
  new : V

/-- core/field_ops.H, equation_systems/PDEFields.H: the field of an equation with source, diffusion and advection term. -/
@[ext] structure Eqn (V : Type*) where
  fld : Tri V
  src : V
  diff : V
  conv : V

variable {ι K A : Type*} [Field K] [LinearOrder K] [IsStrictOrderedRing K]

/-- A scalar. -/
abbrev Sc (ι K : Type*) := ι → K
/-- A vector: one entry for each cell and component. -/
abbrev Ve (ι K : Type*) := ι × Fin 3 → K

@[ext] structure Mem (ι K A : Type*) where
  vel : Eqn (Ve ι K)
  rho : Tri (Sc ι K)
  scal : List (Eqn (Sc ι K))
  aux : A

/-- Inputs: Godunov scheme or method of lines, diffusion type, whether density has an equation of its own (then the first one,
incflo.cpp:436-441: `constant_density` false). -/
structure Cfg where
  godunov : Bool
  kind : Diff
  densPde : Bool
  deriving DecidableEq

/-- The operators of the code. -/
structure Ops (ι K A : Type*) where
  visc : Mem ι K A → A
  srcV : St → Mem ι K A → Ve ι K
  src : ℕ → St → Mem ι K A → Sc ι K
  diffV : Mem ι K A → Ve ι K
  diff : ℕ → Mem ι K A → Sc ι K
  mac : St → Mem ι K A → A
  advV : St → Mem ι K A → Ve ι K
  adv : ℕ → Mem ι K A → Sc ι K
  rhs : ℕ → Mem ι K A → Sc ι K
  solveV : K → Mem ι K A → Ve ι K
  solve : ℕ → K → Mem ι K A → Sc ι K
  improve : ℕ → Mem ι K A → Sc ι K
  post : ℕ → Mem ι K A → Sc ι K × (Sc ι K × Sc ι K) × A
  project : Bool → Mem ι K A → Ve ι K × A
  predictor : Mem ι K A → A
  mask : ι → K

/-- The density that the operators see: the field of the first scalar if it has an equation. -/
def density (c : Cfg) (m : Mem ι K A) : Tri (Sc ι K) :=
  match c.densPde, m.scal with
  | true, s :: _ => s.fld
  | _, _ => m.rho

/-- core/field_ops.H:116-200 with the coefficients ½ and ½ of incflo_advance.cpp:209-213, 346-350. -/
def half {V : Type*} [Add V] [SMul K V] (t : Tri V) : Tri V := { t with nph := (1 / 2 : K) • t.old + (1 / 2 : K) • t.new }

/-- Change of one scalar. -/
def atScal (i : ℕ) (f : Eqn (Sc ι K) → Eqn (Sc ι K)) (m : Mem ι K A) : Mem ι K A := { m with scal := m.scal.modify i f }

/-- Writes to the new state, the source, the diffusion and the advection term of a scalar. -/
def setNew (i : ℕ) (v : Sc ι K) (m : Mem ι K A) : Mem ι K A := atScal i (fun e => { e with fld := { e.fld with new := v } }) m

def setSrc (i : ℕ) (v : Sc ι K) (m : Mem ι K A) : Mem ι K A := atScal i (fun e => { e with src := v }) m

def setDiff (i : ℕ) (v : Sc ι K) (m : Mem ι K A) : Mem ι K A := atScal i (fun e => { e with diff := v }) m

def setConv (i : ℕ) (v : Sc ι K) (m : Mem ι K A) : Mem ι K A := atScal i (fun e => { e with conv := v }) m

/-- incflo_advance.cpp:267-269: the new state is a buffer for the old one. -/
def buffer (i : ℕ) (m : Mem ι K A) : Mem ι K A := atScal i (fun e => { e with fld := { e.fld with new := e.fld.old } }) m

/-- incflo_advance.cpp:273-277. -/
def addDiff (i : ℕ) (m : Mem ι K A) : Mem ι K A := atScal i (fun e => { e with src := e.src + e.diff }) m

/-- incflo_advance.cpp:346-350. -/
def halfScal (i : ℕ) (m : Mem ι K A) : Mem ι K A := atScal i (fun e => { e with fld := half (K := K) e.fld }) m

/-- incflo_advance.cpp:223-226, 237-239, 259-278, 309-351: loop over the scalar equations. -/
def each (f : ℕ → Mem ι K A → Mem ι K A) (m : Mem ι K A) : Mem ι K A := (List.range m.scal.length).foldl (fun s i => f i s) m

/-- incflo_advance.cpp:205-214. -/
def midpoint (it : ℕ) (m : Mem ι K A) : Mem ι K A :=
  if it > 0 then { m with vel := { m.vel with fld := half (K := K) m.vel.fld } } else m

/-- incflo_advance.cpp:221-226. -/
def viscosity (o : Ops ι K A) (m : Mem ι K A) : Mem ι K A := { m with aux := o.visc m }

/-- incflo_advance.cpp:233-240. -/
def sourceScal (o : Ops ι K A) (st : St) (i : ℕ) (m : Mem ι K A) : Mem ι K A := setSrc i (o.src i st m) m

def sourceVel (o : Ops ι K A) (st : St) (m : Mem ι K A) : Mem ι K A := { m with vel := { m.vel with src := o.srcV st m } }

/-- incflo.H:208-211. -/
def needDivtau (c : Cfg) : Bool := c.godunov || c.kind != .implicit

/-- incflo_advance.cpp:249-260: the new state is a buffer for the old one; the viscous term is a function of the new state. -/
def divtauVel (c : Cfg) (o : Ops ι K A) (m : Mem ι K A) : Mem ι K A :=
  let m := { m with vel := { m.vel with fld := { m.vel.fld with new := m.vel.fld.old } } }
  let m := { m with vel := { m.vel with diff := o.diffV m } }
  if c.godunov then { m with vel := { m.vel with src := m.vel.src + m.vel.diff } } else m

/-- incflo_advance.cpp:264-278. -/
def divtauScal (c : Cfg) (o : Ops ι K A) (i : ℕ) (m : Mem ι K A) : Mem ι K A :=
  let m := buffer i m
  let m := setDiff i (o.diff i m) m
  if c.godunov then addDiff i m else m

/-- incflo_advance.cpp:281-286. -/
def perMass (c : Cfg) (m : Mem ι K A) : Mem ι K A :=
  { m with vel := { m.vel with src := fun e => m.vel.src e / (density c m).old e.1 } }

/-- incflo_advance.cpp:233-293. -/
def forces (c : Cfg) (o : Ops ι K A) (m : Mem ι K A) : Mem ι K A :=
  let m := if c.godunov then each (sourceScal o .old) (sourceVel o .old m) else m
  let m := if needDivtau c then each (divtauScal c o) (divtauVel c o m) else m
  if c.godunov then perMass c m else m

/-- incflo_advance.cpp:296-299, 354-356: the state that advection starts from. -/
def advState (it : ℕ) : St := if it = 0 then .old else .nph

def macVel (o : Ops ι K A) (st : St) (m : Mem ι K A) : Mem ι K A := { m with aux := o.mac st m }

/-- incflo_advance.cpp:304-306. -/
def holdDensity (c : Cfg) (m : Mem ι K A) : Mem ι K A :=
  if c.densPde then m else { m with rho := { m.rho with nph := m.rho.old } }

/-- PDE.H:171-178, MultiPhase.cpp: actions after the solve of a scalar may change its new state, the density at new and half time and `aux`. -/
def postSolve (o : Ops ι K A) (i : ℕ) (m : Mem ι K A) : Mem ι K A :=
  let r := o.post i m
  { setNew i r.1 m with
    rho := { m.rho with new := r.2.1.1, nph := r.2.1.2 }
    aux := r.2.2 }

/-- incflo_advance.cpp:310-351, one scalar. -/
def scalar (c : Cfg) (o : Ops ι K A) (dt : K) (i : ℕ) (m : Mem ι K A) : Mem ι K A :=
  let m := setConv i (o.adv i m) m
  let m := sourceScal o .nph i m
  let m := setNew i (o.rhs i m) m
  let m := if c.kind ≠ .explicit then setNew i (o.solve i (dtDiff c.kind dt) m) m
    else if c.godunov then setNew i (o.improve i m) m else m
  halfScal i (postSolve o i m)

/-- CompRHSOps.H:33-141 for the velocity (`Step.predictorRhs`), in every cell and component. -/
def rhsVel (c : Cfg) (o : Ops ι K A) (k : Diff) (dt : K) (m : Mem ι K A) : Mem ι K A :=
  { m with vel := { m.vel with fld := { m.vel.fld with
      new := fun e => predictorRhs true k dt ⟨(density c m).old e.1, (density c m).new e.1, 1, m.vel.fld.old e, m.vel.conv e, m.vel.conv e,
        m.vel.src e, m.vel.diff e, m.vel.diff e, o.mask e.1⟩ } } }

/-- incflo_advance.cpp:374-395; CompRHSOps.H:275-304. -/
def solveVel (c : Cfg) (o : Ops ι K A) (dt : K) (m : Mem ι K A) : Mem ι K A :=
  if c.kind ≠ .explicit then { m with vel := { m.vel with fld := { m.vel.fld with new := o.solveV (dtDiff c.kind dt) m } } }
  else if c.godunov then
    let d := o.diffV m
    { m with vel := { m.vel with
        diff := d - m.vel.diff
        fld := { m.vel.fld with
          new := fun e => rk2 true dt (o.mask e.1) ((density c m).new e.1) (m.vel.fld.new e) (d e - m.vel.diff e) } } }
  else m

/-- incflo_advance.cpp:408-410. -/
def projection (o : Ops ι K A) (incremental : Bool) (m : Mem ι K A) : Mem ι K A :=
  let r := o.project incremental m
  { m with vel := { m.vel with fld := { m.vel.fld with new := r.1 } }, aux := r.2 }

/-- incflo_advance.cpp:205-351: everything before the momentum equation. -/
def before (c : Cfg) (o : Ops ι K A) (dt : K) (it : ℕ) (m : Mem ι K A) : Mem ι K A :=
  each (scalar c o dt) (holdDensity c (macVel o (advState it) (forces c o (viscosity o (midpoint it m)))))

/-- incflo_advance.cpp:357: advection of momentum. -/
def advectVel (o : Ops ι K A) (st : St) (m : Mem ι K A) : Mem ι K A := { m with vel := { m.vel with conv := o.advV st m } }

/-- incflo_advance.cpp:364. -/
def viscousVel (o : Ops ι K A) (m : Mem ι K A) : Mem ι K A := { m with vel := { m.vel with diff := o.diffV m } }

/-- incflo_advance.cpp:354-369: the right-hand side of momentum. -/
def momentum (c : Cfg) (o : Ops ι K A) (dt : K) (it : ℕ) (m : Mem ι K A) : Mem ι K A :=
  rhsVel c o c.kind dt (viscousVel o (sourceVel o .nph (advectVel o (advState it) m)))

/-- incflo_advance.cpp:181-431: `ApplyPredictor` (for the Godunov scheme this is the whole step). -/
def predict (c : Cfg) (o : Ops ι K A) (dt : K) (incremental : Bool) (it : ℕ) (m : Mem ι K A) : Mem ι K A :=
  projection o incremental (solveVel c o dt (momentum c o dt it (before c o dt it m)))

/-- PDEBase.cpp:87-97, 99-137; incflo_advance.cpp:30-37. -/
def prepare (c : Cfg) (o : Ops ι K A) (m : Mem ι K A) : Mem ι K A :=
  let m := { m with
    vel := { m.vel with fld := ⟨m.vel.fld.new, m.vel.fld.new, m.vel.fld.new⟩ }
    rho := if c.densPde then m.rho else ⟨m.rho.new, m.rho.new, m.rho.new⟩
    scal := m.scal.map fun e : Eqn (Sc ι K) => { e with fld := ⟨e.fld.new, e.fld.new, e.fld.new⟩ } }
  { m with aux := o.predictor m }

/-- incflo_advance.cpp:55-73: `advance` for the Godunov scheme; for the method of lines `correct` is ApplyCorrector, and the run aborts in
a later iteration (`none`). -/
def advance (c : Cfg) (o : Ops ι K A) (correct : Mem ι K A → Mem ι K A) (dt : K) (it : ℕ) (m : Mem ι K A) : Option (Mem ι K A) :=
  let m := predict c o dt false it (if it = 0 then prepare c o m else m)
  if c.godunov then some m else if it = 0 then some (correct m) else none

/-- incflo_advance.cpp:655-770: `ApplyPrescribeStep`, one scalar in the last loop (no improvement of explicit diffusion). -/
def scalarP (c : Cfg) (o : Ops ι K A) (dt : K) (i : ℕ) (m : Mem ι K A) : Mem ι K A :=
  let m := sourceScal o .nph i m
  let m := setNew i (o.rhs i m) m
  let m := if c.kind ≠ .explicit then setNew i (o.solve i (dtDiff c.kind dt) m) m else m
  halfScal i (postSolve o i m)

/-- incflo_advance.cpp:655-770. -/
def prescribe (c : Cfg) (o : Ops ι K A) (dt : K) (m : Mem ι K A) : Mem ι K A :=
  let m := viscosity o m
  let m := if c.godunov then each (sourceScal o .old) m else m
  let m := if needDivtau c then each (divtauScal c o) m else m
  let m := each (fun i m => setConv i (o.adv i m) m) m
  let m := holdDensity c m
  let m := each (scalarP c o dt) m
  rhsVel c o .explicit dt (advectVel o .old m)

/-- incflo.cpp:352-372: `do_advance`. -/
def doAdvance (c : Cfg) (o : Ops ι K A) (correct : Mem ι K A → Mem ι K A) (prescribed : Bool) (dt : K) (it : ℕ) (m : Mem ι K A) :
    Option (Mem ι K A) :=
  if prescribed && it == 0 then some (prescribe c o dt (prepare c o m)) else advance c o correct dt it m

/-- incflo.cpp:309-313: the iterations of one step, for `n` of them. -/
def step (c : Cfg) (o : Ops ι K A) (correct : Mem ι K A → Mem ι K A) (prescribed : Bool) (dt : K) (n : ℕ) (m : Mem ι K A) : Option (Mem ι K A) :=
  (List.range n).foldlM (fun s it => doAdvance c o correct prescribed dt it s) m

/-- init.cpp:113-131. -/
def beginInit (c : Cfg) (m : Mem ι K A) : Mem ι K A :=
  { m with
    vel := { m.vel with fld := { m.vel.fld with old := m.vel.fld.new } }
    rho := if c.densPde then m.rho else { m.rho with old := m.rho.new }
    scal := m.scal.map fun e : Eqn (Sc ι K) => { e with fld := { e.fld with old := e.fld.new } } }

/-- init.cpp:159-180. -/
def restoreInit (c : Cfg) (m : Mem ι K A) : Mem ι K A :=
  { m with
    vel := { m.vel with fld := { m.vel.fld with new := m.vel.fld.old } }
    rho := if c.densPde then m.rho else { m.rho with new := m.rho.old }
    scal := m.scal.map fun e : Eqn (Sc ι K) => { e with fld := { e.fld with new := e.fld.old } } }

/-- init.cpp:105-181: `InitialIterations` (without the true pressure). -/
def initialIterations (c : Cfg) (o : Ops ι K A) (dt : K) (n : ℕ) (m : Mem ι K A) : Mem ι K A :=
  (List.range n).foldl (fun s _ => restoreInit c (predict c o dt true 0 s)) (beginInit c m)

/-- incflo_advance.cpp:424-428: the velocity of the previous iteration, rebuilt. -/
def previous (m : Mem ι K A) : Ve ι K := (-1 : K) • m.vel.fld.old + (2 : K) • m.vel.fld.nph

/-- console_io.cpp:231-260: the change in a cell that counts; `fine` is the level mask, `mask` the one of overset. -/
def change (o : Ops ι K A) (fine : ι → K) (m : Mem ι K A) (e : ι × Fin 3) : K :=
  if o.mask e.1 = 0 then 0 else (m.vel.fld.new e - previous m e) * fine e.1

/-- console_io.cpp:262-274: the number reported for a component; `levels` are the cells of each level. -/
noncomputable def reported {A : Type*} (o : Ops ι ℝ A) (fine : ι → ℝ) (levels : List (List ι)) (m : Mem ι ℝ A) (d : Fin 3) : ℝ :=
  (levels.map fun l => Real.sqrt (l.map fun i => change o fine m (i, d) ^ 2).sum).sum

end AmrWind.Iter
