import Mathlib.Data.Rat.Defs
import Mathlib.Algebra.Order.Ring.Rat
import Mathlib.Logic.Function.Basic

/-!
# Options of the linear solvers

`core/MLMGOptions` and the places that use it: the diffusion of a field (`equation_systems/DiffusionOps.cpp`,
`icns/icns_diffusion.H`), the projection of the faces (`icns/icns_advection.cpp`) and the nodal projection
(`projection/incflo_apply_nodal_projection.cpp`).
-/

namespace AmrWind.Solver

/-- The members `MLMGOptions::parse_options` reads (MLMGOptions.cpp:17-57), in the order of the code. -/
inductive Opt
  | doAgglomeration | doConsolidation | doSemicoarsening | aggGridSize | conGridSize | maxCoarseningLevel
  | maxSemicoarseningLevel | deterministic | maxOrder | verbose | bottomVerbose | maxIter | relTol | absTol | maxFmgIters
  | numPreSmooth | numPostSmooth | numFinalSmooth | numBottomSmooth | doFixedIters | bottomMaxIter | bottomRelTol
  | bottomAbsTol | bottomSolver | hypreNamespace | hypreInterface | doNsolve | nsolveGridSize
  deriving DecidableEq, Repr

/-- The key of a member (MLMGOptions.cpp:22-56). -/
def Opt.key : Opt → String
  | .doAgglomeration => "do_agglomeration"
  | .doConsolidation => "do_consolidation"
  | .doSemicoarsening => "do_semicoarsening"
  | .aggGridSize => "agg_grid_size"
  | .conGridSize => "con_grid_size"
  | .maxCoarseningLevel => "max_coarsening_level"
  | .maxSemicoarseningLevel => "max_semicoarsening_level"
  | .deterministic => "deterministic"
  | .maxOrder => "max_order"
  | .verbose => "verbose"
  | .bottomVerbose => "bottom_verbose"
  | .maxIter => "maxiter"
  | .relTol => "mg_rtol"
  | .absTol => "mg_atol"
  | .maxFmgIters => "fmg_maxiter"
  | .numPreSmooth => "num_pre_smooth"
  | .numPostSmooth => "num_post_smooth"
  | .numFinalSmooth => "num_final_smooth"
  | .numBottomSmooth => "num_bottom_smooth"
  | .doFixedIters => "do_fixed_iters"
  | .bottomMaxIter => "bottom_maxiter"
  | .bottomRelTol => "bottom_rtol"
  | .bottomAbsTol => "bottom_atol"
  | .bottomSolver => "bottom_solver"
  | .hypreNamespace => "hypre_namespace"
  | .hypreInterface => "hypre_interface"
  | .doNsolve => "do_nsolve"
  | .nsolveGridSize => "nsolve_grid_size"

/-- All of them in the order of the code. -/
def Opt.all : List Opt :=
  [.doAgglomeration, .doConsolidation, .doSemicoarsening, .aggGridSize, .conGridSize, .maxCoarseningLevel,
   .maxSemicoarseningLevel, .deterministic, .maxOrder, .verbose, .bottomVerbose, .maxIter, .relTol, .absTol, .maxFmgIters,
   .numPreSmooth, .numPostSmooth, .numFinalSmooth, .numBottomSmooth, .doFixedIters, .bottomMaxIter, .bottomRelTol,
   .bottomAbsTol, .bottomSolver, .hypreNamespace, .hypreInterface, .doNsolve, .nsolveGridSize]

/-- A value of the inputs. Whether a text can be read as the type of a member is the parser's business and left out. -/
inductive Val
  | num (q : ℚ)
  | str (s : String)
  | bool (b : Bool)
  deriving DecidableEq

/-- `std::numeric_limits<double>::epsilon()`. -/
def epsilon : ℚ := 1 / 4503599627370496

/-- MLMGOptions.H:52-140: the values of the members before the inputs are read, for double precision on processors; those of the
operator's own settings (`LPInfo`) are the library's, `lp`. -/
def defaults (lp : Opt → Val) : Opt → Val
  | .maxOrder => .num 2
  | .relTol => .num (epsilon * 100000)
  | .absTol => .num (epsilon * 100)
  | .bottomSolver => .str "bicgstab"
  | .hypreNamespace => .str "hypre"
  | .hypreInterface => .str "ij"
  | .bottomRelTol => .num (epsilon * 1000000000000)
  | .bottomAbsTol => .num (epsilon * 10000)
  | .verbose => .num 0
  | .maxIter => .num 200
  | .maxFmgIters => .num 0
  | .numPreSmooth => .num 2
  | .numPostSmooth => .num 2
  | .numFinalSmooth => .num 8
  | .numBottomSmooth => .num 0
  | .bottomVerbose => .num 0
  | .bottomMaxIter => .num 200
  | .doFixedIters => .bool true
  | .doNsolve => .bool false
  | .nsolveGridSize => .num 16
  | o => lp o

/-- MLMGOptions.cpp:17-57: `query` leaves a member as it is when the key is not in the inputs. -/
def parseOptions (q : String → Option Val) (pre : String) (o : Opt → Val) : Opt → Val :=
  Opt.all.foldl (fun o k => match q (pre ++ "." ++ k.key) with
    | some v => Function.update o k v
    | none => o) o

/-- MLMGOptions.cpp:8. -/
def options1 (q : String → Option Val) (lp : Opt → Val) (pre : String) : Opt → Val := parseOptions q pre (defaults lp)

/-- MLMGOptions.cpp:10-15. -/
def options2 (q : String → Option Val) (lp : Opt → Val) (pre custom : String) : Opt → Val :=
  parseOptions q custom (parseOptions q pre (defaults lp))

/-- What `amrex::MLMG` is told. -/
structure Mlmg where
  verbose : Val
  maxIter : Val
  maxFmgIter : Val
  /-- the fixed number of iterations, `none` when it is to stop the program at the largest number -/
  fixedIter : Option Val
  nSolve : Val
  nSolveGridSize : Val
  preSmooth : Val
  postSmooth : Val
  finalSmooth : Val
  bottomSmooth : Val
  bottomVerbose : Val
  bottomTolerance : Val
  bottomToleranceAbs : Val
  bottomMaxIter : Val
  bottomSolver : String
  hypreNamespace : Val
  hypreInterface : String
  deriving DecidableEq

/-- MLMGOptions.cpp:92-99. `none` is the `Abort`. -/
def interfaceOf (v : Val) : Option String :=
  if v = .str "ij" then some "ij"
  else if v = .str "semi_structured" then some "semi_structed"
  else if v = .str "structured" then some "structed"
  else none

/-- MLMGOptions.cpp:59-109: the settings of the solver `m` after the options; `hypre` says whether the program was built with it.
`none` is an `Abort`. -/
def apply (hypre : Bool) (o : Opt → Val) (m : Mlmg) : Option Mlmg :=
  let m := { m with verbose := o .verbose, maxIter := o .maxIter, maxFmgIter := o .maxFmgIters }
  let m := if o .doFixedIters = .bool true then { m with fixedIter := some (o .maxIter) } else m
  let m := { m with nSolve := o .doNsolve, nSolveGridSize := o .nsolveGridSize, preSmooth := o .numPreSmooth }
  let m := { m with postSmooth := o .numPostSmooth, finalSmooth := o .numFinalSmooth, bottomSmooth := o .numBottomSmooth }
  let m := { m with bottomVerbose := o .bottomVerbose, bottomTolerance := o .bottomRelTol, bottomToleranceAbs := o .bottomAbsTol }
  if o .bottomSolver = .str "smoother" then some { m with bottomSolver := "smoother" }
  else if o .bottomSolver = .str "bicg" then some { m with bottomSolver := "bicgstab" }
  else if o .bottomSolver = .str "cg" then some { m with bottomSolver := "cg" }
  else if o .bottomSolver = .str "bicgcg" then some { m with bottomSolver := "bicgcg" }
  else if o .bottomSolver = .str "cgbicg" then some { m with bottomSolver := "cgbicg" }
  else if o .bottomSolver = .str "hypre" then
    if hypre then (interfaceOf (o .hypreInterface)).map fun i =>
      { m with bottomSolver := "hypre", hypreNamespace := o .hypreNamespace, hypreInterface := i }
    else none
  else some m

/-- The three kinds of solves. -/
inductive Kind
  | diffusion (field : String)
  | mac
  | nodal

/-- What a solve runs with: the solver, its tolerances, the settings of its operator and the order of its boundary stencil (`none`
where the operator has none). -/
structure Setup where
  mlmg : Mlmg
  relTol : Val
  absTol : Val
  operator : Opt → Val
  maxOrder : Option Val

/-- The options a solve reads: DiffusionOps.cpp:19, icns_diffusion.H:61, 278 (`prefix` is "diffusion"), icns_advection.cpp:52,
incflo_apply_nodal_projection.cpp:348, and for the nodal projector the interface is set (MLMGOptions.cpp:119). -/
def kindOptions (q : String → Option Val) (lp : Opt → Val) : Kind → Opt → Val
  | .diffusion f => options2 q lp "diffusion" (f ++ "_" ++ "diffusion")
  | .mac => options1 q lp "mac_proj"
  | .nodal => Function.update (options1 q lp "nodal_proj") .hypreInterface (.str "ij")

/-- DiffusionOps.cpp:22-50, 108, 147-148, icns_diffusion.H:64, 110, 250-253; icns_advection.cpp:89-93, 344-353;
incflo_apply_nodal_projection.cpp:348-404. `order` is the library's order, which the projection of the faces keeps. The settings of
the operator are the whole `LPInfo` of the options. The coarsening strategy of the nodal operator (MLMGOptions.cpp:121-125) is left
out. -/
def setup (hypre : Bool) (q : String → Option Val) (lp : Opt → Val) (order : Val) (m : Mlmg) (k : Kind) : Option Setup :=
  let o := kindOptions q lp k
  (apply hypre o m).map fun s =>
    { mlmg := s, relTol := o .relTol, absTol := o .absTol, operator := o
      maxOrder := match k with
        | .diffusion _ => some (o .maxOrder)
        | .mac => some order
        | .nodal => none }

end AmrWind.Solver
