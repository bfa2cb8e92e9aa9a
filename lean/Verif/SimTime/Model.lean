import Mathlib.Algebra.Order.Floor.Ring
import Mathlib.Algebra.Order.Field.Basic

/-!
# Model of the time manager: `amr-wind/core/SimTime.{H,cpp}`

`amrex::Real` is modelled by an arbitrary ordered field `K` with a floor function (so both `ℚ`, on
which the model is executable, and `ℝ` are instances).  `std::numeric_limits<Real>::epsilon()` and
`std::sqrt` are the fields of `Num`.  Print statements and the CFL values that are only printed
(`m_conv_cfl`, `m_diff_cfl`, `m_src_cfl`) are not modelled; `m_current_cfl` is.
-/

namespace AmrWind.SimTime

/-- Platform numerics used by SimTime.cpp: `std::numeric_limits<amrex::Real>::epsilon()`
(SimTime.cpp:167,169,189,324) and `std::sqrt` (SimTime.cpp:165). -/
structure Num (K : Type*) where
  eps : K
  sqrt : K → K

/-- Time-step considerations of one post-processing instance,
SimTime.H:159-169 (`add_postproc_dt_parameters`) and SimTime.H:329-332. -/
structure PostDt (K : Type*) where
  enforce : Bool
  tol : K
  interval : K
  delay : K

/-- User options held by the time manager, SimTime.H:198-332 (the members that do not change during
a run).  `regridInterval` … are step counts. -/
structure Cfg (K : Type*) where
  stopTime : K
  delayTime : K
  maxCfl : K
  fixedDt : K
  initialDt : K
  maxDt : K
  minDt : K
  initShrink : K
  dtGrowth : K
  chkptTInterval : K
  chkptTDelay : K
  chkptTTol : K
  forceChkptTol : K
  pltTInterval : K
  pltTDelay : K
  pltTTol : K
  forcePltTol : K
  stopIndex : Int
  chkptInterval : Int
  chkptDelay : Int
  pltInterval : Int
  pltDelay : Int
  regridInterval : Int
  adaptive : Bool
  forceChkptDt : Bool
  forcePltDt : Bool
  /-- `m_postprocess_*`, in registration order -/
  post : List (PostDt K)
  /-- `m_force_dt_abs_tol` after `calculate_minimum_enforce_dt_abs_tol` -/
  forceDtAbsTol : K

/-- Mutable part of the time manager, SimTime.H:187-192, 222, 230, 268-286, 317. -/
structure State (K : Type*) where
  /-- `m_dt[0]`, `m_dt[1]`, `m_dt[2]` -/
  dt0 : K
  dt1 : K
  dt2 : K
  curTime : K
  newTime : K
  startTime : K
  timeIndex : Int
  startIndex : Int
  pltStartIndex : Int
  chkptStartIndex : Int
  regridStartIndex : Int
  pltStartTime : K
  chkptStartTime : K
  isInit : Bool
  currentCfl : K
  dtCalc : K
  deriving DecidableEq

/-- The `amrex::Abort` calls of `set_current_cfl`, SimTime.cpp:173, 179, 208. -/
inductive Err where
  | cflZeroNoInitialDt
  | cflZero
  | belowMinDt
  deriving DecidableEq, Repr

variable {K : Type*} [Field K] [LinearOrder K] [FloorRing K]

/-- SimTime.H:14-25 `get_enforced_dt_for_output`. -/
def enforcedDt (dt cur interval tol : K) : K :=
  min dt (((⌊cur / interval + tol⌋ : K) + 1) * interval - cur)

/-- SimTime.cpp:163-165: `cfl_unit_time`. -/
def cflUnitTime (N : Num K) (conv diff src : K) : K :=
  (conv + diff) + N.sqrt ((conv + diff) * (conv + diff) + 4 * src)

/-- SimTime.cpp:222-226 / 235-240 / 243-250: one "shorten timestep to hit output frequency" block. -/
def shortenFor (cur interval delay tol : K) (force : Bool) (dt : K) : K :=
  if 0 < interval ∧ force = true ∧ 0 ≤ cur + dt - delay then enforcedDt dt cur interval tol else dt

/-- SimTime.cpp:242-251: the loop over post-processing instances. -/
def shortenPost (cur : K) : List (PostDt K) → K → K
  | [], dt => dt
  | p :: ps, dt => shortenPost cur ps (shortenFor cur p.interval p.delay p.tol p.enforce dt)

/-- SimTime.cpp:215-251: stop-time clip followed by all output shortenings. -/
def shortenAll (c : Cfg K) (cur dt : K) : K :=
  let dt := if 0 < c.stopTime ∧ c.stopTime < cur + dt then c.stopTime - cur else dt
  let dt := shortenFor cur c.chkptTInterval c.chkptTDelay c.forceChkptTol c.forceChkptDt dt
  let dt := shortenFor cur c.pltTInterval c.pltTDelay c.forcePltTol c.forcePltDt dt
  shortenPost cur c.post dt

/-- SimTime.cpp:257-259 and 265-267: are we still in the delay window? -/
def inDelay (c : Cfg K) (cur : K) : Prop := cur < c.delayTime - (1 / 10) * max c.initialDt 0

instance (c : Cfg K) (cur : K) : Decidable (inDelay c cur) := by unfold inDelay; infer_instance

/-- SimTime.cpp:162-194: the CFL-based step, before any limiter (the abort on a vanishing CFL
included). -/
def cflDt (N : Num K) (c : Cfg K) (s : State K) (u : K) : Except Err K :=
  let shrink (dt : K) : K := if s.isInit then dt * c.initShrink else dt
  if c.adaptive = true ∧ s.isInit = false ∧ u < N.eps then
    if s.curTime < N.eps then
      if 0 < c.initialDt then .ok (shrink c.initialDt) else .error .cflZeroNoInitialDt
    else .error .cflZero
  else .ok (shrink (2 * c.maxCfl / max u N.eps))

/-- SimTime.cpp:196-205: growth limit and `max_dt`. -/
def limitDt (c : Cfg K) (s : State K) (dt : K) : K :=
  let dt := if 0 < s.dt0 ∧ c.adaptive = true then min dt ((1 + c.dtGrowth) * s.dt0) else dt
  if c.adaptive = true ∧ 0 < c.maxDt then min dt c.maxDt else dt

/-- SimTime.cpp:157-275 `set_current_cfl`. -/
def setCurrentCfl (N : Num K) (c : Cfg K) (s : State K) (conv diff src : K) :
    Except Err (State K) :=
  let u := cflUnitTime N conv diff src
  match cflDt N c s u with
  | .error e => .error e
  | .ok dtCfl =>
    let dt := limitDt c s dtCfl
    if c.adaptive = true then
      if 0 < c.minDt ∧ dt < c.minDt then .error .belowMinDt
      else
        let dt := shortenAll c s.curTime dt
        let dt := if s.isInit = true ∧ 0 < c.initialDt then min dt c.initialDt else dt
        let dt0 := if inDelay c s.curTime then c.initialDt else dt
        .ok { s with dt0 := dt0, currentCfl := (1 / 2) * u * dt0, dtCalc := dt }
    else
      let dt0 := if inDelay c s.curTime then c.initialDt else c.fixedDt
      .ok { s with dt0 := dt0, currentCfl := (1 / 2) * u * dt0, dtCalc := dt }

/-- SimTime.cpp:321-340 `continue_simulation` (the tolerance is `epsilon()*1.0e4`). -/
def continueSim (N : Num K) (c : Cfg K) (s : State K) : Bool :=
  if c.stopIndex = 0 then false
  else if 0 < c.stopTime ∧ c.stopTime ≤ s.newTime + N.eps * 10000 then false
  else if 0 < c.stopIndex ∧ c.stopIndex ≤ s.timeIndex then false
  else true

/-- SimTime.cpp:108-155 `new_timestep`: returns the continue flag and the new state. -/
def newTimestep (N : Num K) (c : Cfg K) (s : State K) : Bool × State K :=
  if continueSim N c s then
    (true, { s with isInit := false, dt2 := s.dt1, dt1 := s.dt0,
                    timeIndex := s.timeIndex + 1, curTime := s.newTime })
  else (false, { s with isInit := false, curTime := s.newTime })

/-- SimTime.cpp:288-290 `advance_time` (the rest of the function prints). -/
def advanceTime (s : State K) : State K := { s with newTime := s.curTime + s.dt0 }

/-- SimTime.cpp:342-348 `do_regrid`. -/
def doRegrid (c : Cfg K) (s : State K) : Bool :=
  decide (0 < c.regridInterval ∧ 0 < s.timeIndex - s.regridStartIndex ∧
    Int.tmod (s.timeIndex - s.regridStartIndex) c.regridInterval = 0)

/-- The step-based half of SimTime.cpp:357-358 and 373-374. -/
def stepDue (interval delay start idx : Int) : Bool :=
  decide (0 < interval ∧ 0 ≤ idx - delay ∧ Int.tmod (idx - start) interval = 0)

/-- The fractional-part test of SimTime.cpp:361-364, 377-381. -/
def fracDue (interval start new dt tol : K) : Prop :=
  (new - start + tol) / interval - (⌊(new - start + tol) / interval⌋ : K) < dt / interval

instance (interval start new dt tol : K) : Decidable (fracDue interval start new dt tol) := by
  unfold fracDue; infer_instance

/-- The time-based half of SimTime.cpp:359-364 and 375-381. -/
def timeDue (interval delay start new dt tol : K) : Bool :=
  decide (0 < interval ∧ 0 ≤ new + tol - delay ∧ fracDue interval start new dt tol)

/-- SimTime.cpp:354-355: the tolerance used for plot output. -/
def pltTol (c : Cfg K) (s : State K) : K := min (c.pltTTol * s.dt0) c.forceDtAbsTol

/-- SimTime.cpp:370-371: the tolerance used for checkpoint output. -/
def chkptTol (c : Cfg K) (s : State K) : K := min (c.chkptTTol * s.dt0) c.forceDtAbsTol

/-- SimTime.cpp:350-365 `write_plot_file`. -/
def writePlotFile (c : Cfg K) (s : State K) : Bool :=
  stepDue c.pltInterval c.pltDelay s.pltStartIndex s.timeIndex ||
  timeDue c.pltTInterval c.pltTDelay s.pltStartTime s.newTime s.dt0 (pltTol c s)

/-- SimTime.cpp:367-382 `write_checkpoint`. -/
def writeCheckpoint (c : Cfg K) (s : State K) : Bool :=
  stepDue c.chkptInterval c.chkptDelay s.chkptStartIndex s.timeIndex ||
  timeDue c.chkptTInterval c.chkptTDelay s.chkptStartTime s.newTime s.dt0 (chkptTol c s)

/-- SimTime.cpp:384-396 `write_last_plot_file`. -/
def writeLastPlotFile (c : Cfg K) (s : State K) : Bool :=
  decide (0 < c.pltInterval ∧ Int.tmod (s.timeIndex - s.pltStartIndex) c.pltInterval ≠ 0) ||
  decide (0 < c.pltTInterval ∧
    s.dt0 / c.pltTInterval ≤ (s.newTime - s.pltStartTime + pltTol c s) / c.pltTInterval -
      (⌊(s.newTime - s.pltStartTime + pltTol c s) / c.pltTInterval⌋ : K))

/-- SimTime.cpp:398-411 `write_last_checkpoint`. -/
def writeLastCheckpoint (c : Cfg K) (s : State K) : Bool :=
  decide (0 < c.chkptInterval ∧ Int.tmod (s.timeIndex - s.chkptStartIndex) c.chkptInterval ≠ 0) ||
  decide (0 < c.chkptTInterval ∧
    s.dt0 / c.chkptTInterval ≤ (s.newTime - s.chkptStartTime + chkptTol c s) / c.chkptTInterval -
      (⌊(s.newTime - s.chkptStartTime + chkptTol c s) / c.chkptTInterval⌋ : K))

/-- User-set start values that `set_restart_time` re-reads, SimTime.cpp:424-429. -/
structure StartOverrides (K : Type*) where
  regridStart : Option Int
  plotStart : Option Int
  checkpointStart : Option Int
  plotStartTime : Option K
  checkpointStartTime : Option K

/-- SimTime.cpp:413-434 `set_restart_time`. -/
def setRestartTime (o : StartOverrides K) (tidx : Int) (time : K) (s : State K) : State K :=
  { s with
    timeIndex := tidx, startIndex := tidx,
    regridStartIndex := o.regridStart.getD tidx,
    pltStartIndex := o.plotStart.getD tidx,
    chkptStartIndex := o.checkpointStart.getD tidx,
    pltStartTime := o.plotStartTime.getD time,
    chkptStartTime := o.checkpointStartTime.getD time,
    newTime := time, curTime := time, startTime := time }

/-- SimTime.cpp:448-455: fold over the post-processing instances. -/
def minPostTol : List (PostDt K) → K → K
  | [], t => t
  | p :: ps, t => minPostTol ps (if p.enforce then min t (p.tol * p.interval) else t)

/-- SimTime.cpp:436-456 `calculate_minimum_enforce_dt_abs_tol`. -/
def calcMinEnforceTol (c : Cfg K) : Cfg K :=
  let t := c.forceDtAbsTol
  let t := if c.forceChkptDt then min t (c.forceChkptTol * c.chkptTInterval) else t
  let t := if c.forcePltDt then min t (c.forcePltTol * c.pltTInterval) else t
  { c with forceDtAbsTol := minPostTol c.post t }

/-- `incflo::Evolve` (incflo.cpp:283-338) seen by the time manager.  One pass of the `while` loop:
`new_timestep`, then `compute_dt` → `set_current_cfl` (incflo_compute_dt.cpp) with the CFL numbers of
the present flow, then `advance_time`.  The flow solver enters only through those three numbers, so a
run is driven by a list of them.  Overset runs, where an external driver may overwrite `delta_t`, are
not modelled. -/
structure CflIn (K : Type*) where
  conv : K
  diff : K
  src : K

/-- Outcome of a run over a list of CFL inputs. -/
inductive Outcome (K : Type*) where
  /-- `new_timestep` returned false -/
  | stopped (s : State K)
  /-- inputs exhausted, the loop would go on -/
  | running (s : State K)
  | aborted (e : Err) (s : State K)
  deriving DecidableEq

/-- One successful pass through the loop body. -/
def stepBody (N : Num K) (c : Cfg K) (s : State K) (i : CflIn K) : Except Err (State K) :=
  match setCurrentCfl N c s i.conv i.diff i.src with
  | .error e => .error e
  | .ok s' => .ok (advanceTime s')

/-- `while (m_time.new_timestep()) { … }`, incflo.cpp:290-338. -/
def evolve (N : Num K) (c : Cfg K) : State K → List (CflIn K) → Outcome K
  | s, [] => .running s
  | s, i :: is =>
    match newTimestep N c s with
    | (false, s') => .stopped s'
    | (true, s') =>
      match stepBody N c s' i with
      | .error e => .aborted e s'
      | .ok s'' => evolve N c s'' is

/-- The states at the end of each pass of the loop (where `post_advance_work` runs and output is
written, incflo.cpp:315), in order. -/
def trace (N : Num K) (c : Cfg K) : State K → List (CflIn K) → List (State K)
  | _, [] => []
  | s, i :: is =>
    match newTimestep N c s with
    | (false, _) => []
    | (true, s') =>
      match stepBody N c s' i with
      | .error _ => []
      | .ok s'' => s'' :: trace N c s'' is

/-- Time indices of the plot files of a run, in the order written: those written by
`post_advance_work` (incflo.cpp:267-269) after each step, then, if the loop stopped, the one written
after it (incflo.cpp:344-346).  The name of a plot file is a function of the time index. -/
def plotIndices (N : Num K) (c : Cfg K) (s : State K) (is : List (CflIn K)) : List Int :=
  ((trace N c s is).filter (fun t => writePlotFile c t)).map (·.timeIndex) ++
  match evolve N c s is with
  | .stopped t => if writeLastPlotFile c t then [t.timeIndex] else []
  | _ => []

/-- Time indices of the checkpoint files of a run: incflo.cpp:271-273 and 347-349. -/
def chkptIndices (N : Num K) (c : Cfg K) (s : State K) (is : List (CflIn K)) : List Int :=
  ((trace N c s is).filter (fun t => writeCheckpoint c t)).map (·.timeIndex) ++
  match evolve N c s is with
  | .stopped t => if writeLastCheckpoint c t then [t.timeIndex] else []
  | _ => []

end AmrWind.SimTime
