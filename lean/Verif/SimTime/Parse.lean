import Verif.SimTime.Model

/-! # Model of `SimTime::parse_parameters` (SimTime.cpp:11-106) -/

namespace AmrWind.SimTime

/-- The `amrex::Abort` calls of `parse_parameters`, in source order (SimTime.cpp:62-92). -/
inductive ParseErr where
  | plotBothIntervals
  | chkptBothIntervals
  | enforcePlotNoInterval
  | enforceChkptNoInterval
  | enforceNotAdaptive
  deriving DecidableEq, Repr

variable {K : Type*} [Field K] [LinearOrder K] [FloorRing K]

/-- SimTime.cpp:56-105.  `c` holds the values after all `pp.query` calls (defaults where the user gave
nothing), so `c.adaptive` is the default `false` and `c.forceDtAbsTol` the default `1e8`.  Returns the
configuration and the initial state (all three steps `-1`, SimTime.cpp:14-16, or `fixed_dt` for the
first, line 57).  `starts` are `regrid_start`, `plot_start`, `checkpoint_start`, `plot_start_time`,
`checkpoint_start_time`.  Simplification: the text parsing done by `ParmParse` and the printed warning
(lines 94-103) are not modelled. -/
def parseParameters (c : Cfg K) (starts : Int × Int × Int × K × K) :
    Except ParseErr (Cfg K × State K) :=
  let adaptive : Bool := if 0 < c.fixedDt then c.adaptive else true
  let dt0 : K := if 0 < c.fixedDt then c.fixedDt else -1
  if 0 < c.pltInterval ∧ 0 < c.pltTInterval then .error .plotBothIntervals
  else if 0 < c.chkptInterval ∧ 0 < c.chkptTInterval then .error .chkptBothIntervals
  else if c.pltTInterval ≤ 0 ∧ c.forcePltDt = true then .error .enforcePlotNoInterval
  else if c.chkptTInterval ≤ 0 ∧ c.forceChkptDt = true then .error .enforceChkptNoInterval
  else if adaptive = false ∧ (c.forcePltDt = true ∨ c.forceChkptDt = true) then
    .error .enforceNotAdaptive
  else
    .ok (calcMinEnforceTol { c with adaptive := adaptive },
      { dt0 := dt0, dt1 := -1, dt2 := -1, curTime := 0, newTime := 0, startTime := 0,
        timeIndex := 0, startIndex := 0, pltStartIndex := starts.2.1,
        chkptStartIndex := starts.2.2.1, regridStartIndex := starts.1,
        pltStartTime := starts.2.2.2.1, chkptStartTime := starts.2.2.2.2,
        isInit := true, currentCfl := 0, dtCalc := 0 })

end AmrWind.SimTime
