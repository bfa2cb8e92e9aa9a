import Verif.SimTime.Parse
/-!
# The start of a run, and a run as a whole

`setup/init.cpp` and `incflo.cpp`: dry runs, what is done before the first step, and the files written by a run. The time
manager is that of `Verif.SimTime`; the flow solver enters by the numbers it gives to it, and in the initial iterations by
what a step does to the fields. Post-processing, and runs controlled from outside (overset), are not modelled here.
-/

set_option linter.unusedSectionVars false

namespace AmrWind.Start

open SimTime

/-! ## Input -/

/-- What the user gives: a table of integers and flags (a flag is 0 or 1) in the order of the input file and command line,
the other options of the time manager, the prefix of plot files, and index and time of the checkpoint a run is restarted
from. -/
structure Inp (K : Type*) where
  tab : List (String × ℤ)
  base : Cfg K
  over : StartOverrides K
  plotFile : String
  restart : Option (ℤ × K)

/-- `ParmParse::query`: the last value given counts. -/
def query (tab : List (String × ℤ)) (k : String) (d : ℤ) : ℤ := ((tab.filter fun e => e.1 = k).getLast?.map (·.2)).getD d

variable {K : Type*} [Field K] [LinearOrder K] [FloorRing K]

/-- init.cpp:18-19, incflo.H:186: a dry run is asked for. -/
def Inp.dry (i : Inp K) : Bool := query i.tab "incflo.dry_run" 0 ≠ 0

/-- init.cpp:14-43 `CheckAndSetUpDryRun`; `ParmParse::add` appends. -/
def setUpDryRun (i : Inp K) : Inp K :=
  if i.dry then
    { i with
      tab := i.tab ++ [("incflo.initial_iterations", 0), ("incflo.do_initial_proj", 0), ("time.max_step", 0),
        ("time.plot_interval", 1), ("time.checkpoint_inteval", -1)]
      plotFile := "dry_run_" ++ i.plotFile }
  else i

/-- SimTime.cpp:21, 34, 39: the options of the time manager that a dry run is about; the others are in `base`. -/
def Inp.cfg (i : Inp K) : Cfg K :=
  { i.base with
    stopIndex := query i.tab "time.max_step" (-1)
    pltInterval := query i.tab "time.plot_interval" (-1)
    chkptInterval := query i.tab "time.checkpoint_interval" (-1) }

/-- init.cpp:54, incflo.H:178. -/
def Inp.iterations (i : Inp K) : ℕ := (query i.tab "incflo.initial_iterations" 3).toNat

/-- init.cpp:55, incflo.H:177. -/
def Inp.project (i : Inp K) : Bool := query i.tab "incflo.do_initial_proj" 1 ≠ 0

/-- init.cpp:58-88 in `ReadParameters`: options that are accepted; `0`, `1`, `2` are explicit, Crank-Nicolson and implicit
diffusion. -/
def accepted (godunov : Bool) (diffusion : ℤ) (cfl : K) : Bool :=
  if diffusion = 0 ∨ diffusion = 1 ∨ diffusion = 2 then
    if godunov = false ∧ cfl > 1 / 2 then false
    else if godunov = true ∧ cfl > 1 then false
    else true
  else false

/-! ## A run -/

/-- What a run does. -/
inductive Ev where
  /-- ghost cells are filled. -/
  | boundaries
  /-- the initial projection. -/
  | projection
  /-- an initial iteration. -/
  | iteration
  /-- a plot file: prefix and index. -/
  | plot (file : String) (idx : ℤ)
  /-- a checkpoint. -/
  | chk (idx : ℤ)
  /-- a step, which ends with this index. -/
  | step (idx : ℤ)
  deriving DecidableEq

/-- incflo.cpp:35-46 (construction) and 51-87: the configuration and state of the time manager; `none`: the input is
refused. -/
def begin (i : Inp K) : Option (Cfg K × State K) :=
  match parseParameters i.cfg
      (i.over.regridStart.getD 0, i.over.plotStart.getD 0, i.over.checkpointStart.getD 0, i.over.plotStartTime.getD 0,
        i.over.checkpointStartTime.getD 0) with
  | .error _ => none
  | .ok (c, s) =>
    match i.restart with
    | none => some (c, s)
    | some (n, t) => some (c, setRestartTime i.over n t s)

/-- incflo.cpp:134-163 `prepare_for_time_integration`; `x` is what `compute_dt` finds in the initial flow
(init.cpp:107). `none`: the code aborts. -/
def prepare (N : Num K) (i : Inp K) (c : Cfg K) (s : State K) (x : CflIn K) : Option (State K × List Ev) :=
  if i.restart.isSome && !i.dry then some (s, [])
  else
    let first := if i.iterations > 0 then [Ev.boundaries] else []
    let proj := if i.project then [Ev.projection] else []
    let s' : Option (State K) := if i.iterations > 0 then (setCurrentCfl N c s x.conv x.diff x.src).toOption else some s
    s'.map fun s' =>
      (s', first ++ proj ++ List.replicate i.iterations Ev.iteration ++
        (if writePlotFile c s' then [Ev.plot i.plotFile s'.timeIndex] else []) ++
        if writeCheckpoint c s' then [Ev.chk s'.timeIndex] else [])

/-- incflo.cpp:250-278 `post_advance_work`: the files after a step. -/
def stepEvents (file : String) (c : Cfg K) (t : State K) : List Ev :=
  [Ev.step t.timeIndex] ++ (if writePlotFile c t then [Ev.plot file t.timeIndex] else []) ++
    if writeCheckpoint c t then [Ev.chk t.timeIndex] else []

/-- incflo.cpp:342-351: the files at the end. -/
def lastEvents (file : String) (c : Cfg K) (o : Outcome K) : List Ev :=
  match o with
  | .stopped t =>
    (if writeLastPlotFile c t then [Ev.plot file t.timeIndex] else []) ++ if writeLastCheckpoint c t then [Ev.chk t.timeIndex] else []
  | _ => []

/-- main.cpp:80-94 with incflo.cpp:23-47, 171-178, 283-352: a run; `x` and `xs` are what the flow gives to the time manager, at
the start and in the steps. `none`: the input is refused, or the code aborts before the first step. -/
def run (N : Num K) (inp : Inp K) (x : CflIn K) (xs : List (CflIn K)) : Option (List Ev × Outcome K) :=
  let i := setUpDryRun inp
  (begin i).bind fun cs =>
    (prepare N i cs.1 cs.2 x).map fun se =>
      let o := evolve N cs.1 se.1 xs
      (se.2 ++ (trace N cs.1 se.1 xs).flatMap (stepEvents i.plotFile cs.1) ++ lastEvents i.plotFile cs.1 o, o)

/-! ## Initial iterations -/

/-- The fields of an equation at the two times, in the cells. -/
structure Two (F : Type*) where
  old : F
  new : F

/-- The fields: velocity, density, scalars, and pressure and its gradient. -/
structure Flow (ι P F : Type*) where
  vel : Two F
  rho : Two F
  scal : ι → Two F
  p : P → K
  gp : F

variable {ι P F : Type*}

/-- `Field::copy_state(Old, New)`. -/
def Two.save (t : Two F) : Two F := ⟨t.new, t.new⟩

/-- `Field::copy_state(New, Old)`. -/
def Two.restore (t : Two F) : Two F := ⟨t.old, t.old⟩

/-- init.cpp:109-131: the fields are kept. `cd` is `constant_density`; without it density is one of the scalars
(incflo.cpp:434-441), and the field of that name is not touched here. -/
def keep (cd : Bool) (w : Flow (K := K) ι P F) : Flow (K := K) ι P F :=
  { w with vel := w.vel.save, rho := if cd then w.rho.save else w.rho, scal := fun n => (w.scal n).save }

/-- init.cpp:158-180: the fields are put back after an iteration. -/
def putBack (cd : Bool) (w : Flow (K := K) ι P F) : Flow (K := K) ι P F :=
  { w with vel := w.vel.restore, rho := if cd then w.rho.restore else w.rho, scal := fun n => (w.scal n).restore }

/-- init.cpp:133-149: the reference pressure is taken off if the pressure has been set; `maxP` is the largest magnitude,
`tol` is `LOOSE_TOL`. -/
def takeOff (tol : K) (maxP : (P → K) → K) (true_ : Bool) (p0 p : P → K) : P → K :=
  if true_ then (if |maxP p| > tol then fun x => p x - p0 x else p) else p

/-- init.cpp:185-194. -/
def addOn (true_ : Bool) (p0 p : P → K) : P → K := if true_ then fun x => p x + p0 x else p

/-- init.cpp:151-183: the iterations; `pred` is `ApplyPredictor(true, 0)`. -/
def iterate (cd : Bool) (pred : Flow (K := K) ι P F → Flow (K := K) ι P F) : ℕ → Flow (K := K) ι P F → Flow (K := K) ι P F
  | 0, w => w
  | n + 1, w => iterate cd pred n (putBack cd (pred w))

/-- init.cpp:101-196 `InitialIterations`. -/
def initialIterations (cd : Bool) (tol : K) (maxP : (P → K) → K) (true_ : Bool) (p0 : P → K)
    (pred : Flow (K := K) ι P F → Flow (K := K) ι P F) (n : ℕ) (w : Flow (K := K) ι P F) : Flow (K := K) ι P F :=
  let w1 := keep cd w
  let w2 := iterate cd pred n { w1 with p := takeOff tol maxP true_ p0 w1.p }
  { w2 with p := addOn true_ p0 w2.p }

end AmrWind.Start
