import Verif.SimTime.Model

/-!
# Model of the post-processing output control: `amr-wind/utilities/PostProcessing.{H,cpp}`
-/

namespace AmrWind.PostProc

open AmrWind.SimTime (State Cfg Num CflIn trace evolve Outcome)

/-- Output parameters of one post-processing object, PostProcessing.H:188-210. -/
structure PostCfg (K : Type*) where
  interval : Int
  timeInterval : K
  delay : Int
  timeDelay : K
  fromRestart : Bool
  startIndex : Int
  startTime : K
  timeTol : K
  enforceTol : K
  enforce : Bool
  doFinal : Bool

/-- What the user may give in the input file, PostProcessing.H:61-76 (`none`: not given). -/
structure PostIn (K : Type*) where
  interval : Option Int
  frequency : Option Int
  timeInterval : Option K
  delay : Option Int
  timeDelay : Option K
  fromRestart : Option Bool
  start : Option Int
  startTime : Option K
  enforce : Option Bool
  enforceTol : Option K
  doFinal : Option Bool

/-- The `amrex::Abort` calls of `populate_output_parameters`, in source order. -/
inductive PostErr where
  | restartConflict
  | noneValid
  | bothIntervals
  | enforceNoInterval
  deriving DecidableEq, Repr

variable {K : Type*} [Field K] [LinearOrder K] [FloorRing K]

/-- PostProcessing.H:59-139 `populate_output_parameters` (defaults from 188-210; the printed warnings
are not modelled). -/
def populate (p : PostIn K) : Except PostErr (PostCfg K) :=
  let m_interval : Int := p.interval.getD 10
  let m_time : K := p.timeInterval.getD (-1)
  let m_restart : Bool := p.fromRestart.getD false
  let m_enforce : Bool := p.enforce.getD false
  let has_interval := p.interval.isSome
  let has_time_int := p.timeInterval.isSome
  let has_frequency := p.frequency.isSome
  let m_interval : Int := match p.frequency with
    | some f => if has_interval then m_interval else f
    | none => m_interval
  if m_restart = true ∧ (p.start.isSome = true ∨ p.startTime.isSome = true) then
    .error .restartConflict
  else
    let valid : Bool := if has_interval || has_frequency then decide (0 < m_interval) else true
    let validPresent : Bool :=
      if has_interval || has_frequency then decide (0 < m_interval) else false
    let validTime : Bool := if has_time_int then decide (0 < m_time) else false
    if !(valid || validTime) then .error .noneValid
    else if validPresent && validTime then .error .bothIntervals
    else if !validTime && m_enforce then .error .enforceNoInterval
    else
      let m_interval := if validTime && !(has_interval || has_frequency) then -1 else m_interval
      .ok { interval := m_interval, timeInterval := m_time, delay := p.delay.getD 0,
            timeDelay := p.timeDelay.getD 0, fromRestart := m_restart,
            startIndex := p.start.getD (-1), startTime := p.startTime.getD (-1),
            timeTol := 1 / 100, enforceTol := p.enforceTol.getD (1 / 1000),
            enforce := m_enforce, doFinal := p.doFinal.getD false }

/-- PostProcessing.H:153-157: the index the step-based schedule counts from. -/
def ntime0 (p : PostCfg K) (ntime0_in : Int) : Int :=
  if 0 ≤ p.startIndex then p.startIndex else if p.fromRestart then ntime0_in else 0

/-- PostProcessing.H:154-158: the time the time-based schedule counts from. -/
def time0 (p : PostCfg K) (time0_in : K) : K :=
  if -(1 / 2) < p.startTime then p.startTime else if p.fromRestart then time0_in else 0

/-- PostProcessing.H:142-172 `do_output_now`. -/
def doOutputNow (p : PostCfg K) (ntime ntime0_in : Int) (time time0_in dt tol : K) : Bool :=
  let tol := min tol (p.timeTol * dt)
  let n0 := ntime0 p ntime0_in
  let t0 := time0 p time0_in
  decide (0 < p.interval ∧ 0 ≤ ntime - p.delay ∧ Int.tmod (ntime - n0) p.interval = 0) ||
  decide (0 < p.timeInterval ∧ 0 ≤ time + tol - p.timeDelay ∧
    time - t0 + tol - (⌊(time - t0 + tol) / p.timeInterval⌋ : K) * p.timeInterval < dt)

/-- The call of `do_output_now` made by the manager, PostProcessing.cpp:59-63, 75-78, 90-94. -/
def outputNow (c : Cfg K) (p : PostCfg K) (s : State K) : Bool :=
  doOutputNow p s.timeIndex s.startIndex s.newTime s.startTime s.dt0 c.forceDtAbsTol

/-- Time indices at which one post-processing object calls `output_actions` in a run: once in
`post_init_actions` (PostProcessing.cpp:58-66, state `s0`), after every step in `post_advance_work`
(69-82), and in `final_output` after the loop stopped (84-98).  `s0` is the state before the initial
pressure iterations, `s` the one the time loop starts from; they differ in `dt` only. -/
def outputIndices (N : Num K) (c : Cfg K) (p : PostCfg K) (s0 s : State K) (is : List (CflIn K)) :
    List Int :=
  (if outputNow c p s0 then [s0.timeIndex] else []) ++
  ((trace N c s is).filter (fun t => outputNow c p t)).map (·.timeIndex) ++
  match evolve N c s is with
  | .stopped t => if p.doFinal && !outputNow c p t then [t.timeIndex] else []
  | _ => []

end AmrWind.PostProc
