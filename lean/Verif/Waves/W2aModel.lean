import Mathlib.Algebra.Order.Field.Basic
import Mathlib.Algebra.Order.Floor.Ring
import Mathlib.Data.Finset.Lattice.Fold
import Mathlib.Data.Fintype.Basic

/-!
# Model of recorded waves: `ocean_waves/relaxation_zones/waves2amr_ops.H`, `W2AWaves.H`

A spectral wave code (HOS) writes records of the sea at steps `0, 1, 2, ...`, `dt` apart. The code keeps two fields: the
newest record read (`cur`, the fields `w2a_levelset` and `w2a_velocity`) and what was interpolated last (`old`, their old
states). One value (the level set or a velocity component) in one cell is modelled, on a rank that interpolates there; the
cell is not covered by a finer level, so averaging down does not touch it. What `ReadModes` and the spatial interpolation
give for a record is the function `hos`, `none` after the end of the file.
-/

set_option linter.unusedSectionVars false

namespace AmrWind.W2a

variable {K : Type*} [Field K] [LinearOrder K]

/-- What the input file and the header of the modes file give, W2AWaves.H:34-59, waves2amr_ops.H:228-385; `tol` is the
tolerance `1.0e-10`, `eps` the machine epsilon; `step` is `ReadModes::time2step`, of the library Waves2AMR. -/
structure Cfg (K : Type*) where
  dt : K
  tInit : K
  eps : K
  tol : K
  nInit : ℤ
  nStop : ℤ
  step : K → ℤ → ℤ
  hos : ℤ → Option K

/-- The part of `W2AWavesData` that changes during a run, W2AWaves.H:46-63, and the two fields at one cell. -/
structure St (K : Type*) where
  ntime : ℤ
  nOffset : ℤ
  tLast : K
  t : K
  old : K
  cur : K

/-- What `evaluate_read_resize` sets and returns. -/
structure Eval (K : Type*) where
  ntime : ℤ
  read : Bool
  resize : Bool
  wtime : K
  tLast : K
  double : ℕ

/-- waves2amr_ops.H:20-81 `evaluate_read_resize`. -/
def evaluate (tol : K) (ntime : ℤ) (read resize : Bool) (wtime tLast : K) (newN : ℤ) (wtinit wdt time : K) : Eval K :=
  let wt : K := if newN ≠ ntime then (newN : K) * wdt - wtinit else wtime
  let dd : ℕ :=
    if newN ≠ ntime then (if newN > ntime + 1 then (if |wt - time| ≤ tol then 2 else 1) else 0) else 0
  if tLast < -tol then ⟨newN, true, true, wt, time, if |wt - time| > tol then 1 else 2⟩
  else if |tLast| < tol then ⟨newN, true, true, wt, time, dd⟩
  else ⟨newN, read || decide (newN ≠ ntime), resize, wt, time, dd⟩

/-- waves2amr_ops.H:83-90 `update_offset_timestep`. -/
def resetOffset (ntime n0 : ℤ) : ℤ := -ntime + n0

/-- waves2amr_ops.H:92-134 `populate_fields_all_levels`, the reading: the record and the offset afterwards; `none` when the
code aborts. -/
def readAt (c : Cfg K) (ntime off shift : ℤ) : Option (K × ℤ) :=
  match c.hos (ntime + off + shift) with
  | some v => some (v, off)
  | none =>
    match c.hos (ntime + resetOffset ntime c.nInit + shift) with
    | some v => some (v, resetOffset ntime c.nInit)
    | none => none

/-- waves2amr_ops.H:180-200 `time_interpolate_wave_fields`: the value that goes to the old field. -/
def interp (eps old future tOld tNew tFuture : K) : K :=
  let b := (tNew - tOld) / (tFuture - tOld + eps)
  (1 - b) * old + b * future

/-- waves2amr_ops.H:764-981 `UpdateTargetFieldsOp<W2AWaves>` for one rank; the target field (`ow_levelset`, `ow_velocity`)
is a copy of `old` afterwards. `none` when the code aborts. -/
def update (c : Cfg K) (s : St K) (time : K) : Option (St K) :=
  let n := c.step (time + c.tInit) s.ntime
  let e := evaluate c.tol s.ntime false false s.t s.tLast n c.tInit c.dt time
  if e.read then
    let off := if e.ntime + s.nOffset > c.nStop then resetOffset e.ntime c.nInit else s.nOffset
    let tOld : K := ((e.ntime - 1 : ℤ) : K) * c.dt
    let prev : Option (K × ℤ) :=
      if e.double = 0 then some (s.cur, off)
      else if e.double = 1 then readAt c e.ntime off (-1)
      else some (s.old, off)
    match prev with
    | none => none
    | some (p, off1) =>
      match readAt c e.ntime off1 0 with
      | none => none
      | some (v, off2) =>
        some ⟨e.ntime, off2, e.tLast, e.wtime, interp c.eps p v tOld time e.wtime, v⟩
  else
    some ⟨e.ntime, s.nOffset, e.tLast, e.wtime, interp c.eps s.old s.cur s.tLast time e.wtime, s.cur⟩

/-- waves2amr_ops.H:232-235,276-295: the first record and the time of it; `none` for an input that is not given. -/
def startStep (step : K → ℤ → ℤ) (dt : K) (initStep : Option ℤ) (initTime : Option K) : ℤ × K :=
  let ntime := initStep.getD 0
  let t : K := if initStep.isSome then -1 else initTime.getD (-1)
  let n := if t > 0 then step t ntime else ntime
  (n, dt * (n : K))

/-- waves2amr_ops.H:626,690-702 `InitDataOp<W2AWaves>` after `ReadInputsOp`: a new simulation; `wave` is the record of the
first step, `quiet` the value of still water. -/
def start (c : Cfg K) (wave quiet : K) : St K := ⟨c.nInit, 0, 0, 0, wave, quiet⟩

/-- W2AWaves.H:46-63, FieldRepo: a simulation restarted from a checkpoint; `InitDataOp` is not called, the fields are as
allocated. -/
def restart (c : Cfg K) : St K := ⟨c.nInit, 0, -1, 0, 0, 0⟩

/-- The updates of a run: `OceanWaves.cpp:72-108`. -/
def run (c : Cfg K) (s : St K) : List K → Option (St K)
  | [] => some s
  | t :: ts => (update c s t).bind fun s' => run c s' ts

/-- `OceanWaves.cpp:72-108`: the times at which the targets are updated when the time levels of the simulation after the
first are `ts`: the middle and the end of each step. -/
def updateTimes (t0 : K) : List K → List K
  | [] => []
  | t1 :: ts => (t0 + t1) / 2 :: t1 :: updateTimes t1 ts

/-! ### Ranks -/

/-- waves2amr_ops.H:806-815,910,92-134 on all ranks at a step at which records are read: the offset of each rank afterwards
and the step it reads (`none` for a rank without cells in the zones). `none` when a rank aborts. -/
def rankRead {m : ℕ} (nInit nStop : ℤ) (avail : ℤ → Bool) (doInterp : Fin (m + 1) → Bool) (n : ℤ)
    (off : Fin (m + 1) → ℤ) : Option (Fin (m + 1) → ℤ × Option ℤ) :=
  let off1 : Fin (m + 1) → ℤ := fun r => if n + off r > nStop then resetOffset n nInit else off r
  let o := Finset.univ.sup' Finset.univ_nonempty off1
  if (∃ r, doInterp r = true) ∧ avail (n + o) = false ∧ avail (n + resetOffset n nInit) = false then none
  else some fun r =>
    if doInterp r then
      (if avail (n + o) then (o, some (n + o)) else (resetOffset n nInit, some (n + resetOffset n nInit)))
    else (o, none)

/-- The steps read by the ranks when the steps `ns` are wanted one after the other. -/
def rankRun {m : ℕ} (nInit nStop : ℤ) (avail : ℤ → Bool) (doInterp : Fin (m + 1) → Bool) (off : Fin (m + 1) → ℤ) :
    List ℤ → Option (List (Fin (m + 1) → Option ℤ))
  | [] => some []
  | n :: ns =>
    match rankRead nInit nStop avail doInterp n off with
    | none => none
    | some f => (rankRun nInit nStop avail doInterp (fun r => (f r).1) ns).map fun l => (fun r => (f r).2) :: l

/-! ### The initial velocity -/

/-- waves2amr_ops.H:726-757: the velocity of a cell at the start, from the liquid volume fraction `vof`, the wave velocity
`v` of the cell and `below` of the cell below; `z` is the height of the cell centre. `none`: the velocity is not set. -/
def initVelocity (tight small eps vof v below z dz : K) : Option K :=
  if vof > 1 - tight then some v
  else if vof > small then
    let zBelow := z - dz
    let zBottom := z - 1 / 2 * dz
    let zLiq := zBottom + 1 / 2 * vof * dz
    some (below + (v - below) * ((zLiq - zBelow) / (z - zBelow + eps)))
  else none

end AmrWind.W2a
