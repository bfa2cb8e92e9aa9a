import Mathlib.Analysis.Real.Sqrt
import Mathlib.Analysis.SpecialFunctions.Trigonometric.Basic
import Mathlib.Algebra.Order.Floor.Ring
import Verif.Vs.Model
import Verif.SimTime.Model
/-!
# Turbines of an external solver

`amr-wind/wind_energy/actuator/turbine/external`, `turbine/fast` and `turbine/turbine_utils.cpp`: what is exchanged with
the solver of the turbine, and when it is called. Numbers are exact (the exchange uses `float`). The solver is known by
the calls it gets; its own steps, its files and messages between ranks are not modelled.
-/

set_option linter.unusedSectionVars false

namespace AmrWind.Ext

open Vs

/-! ## The points of a turbine -/

/-- turbine_external_utils.H:41-64: force points of blade `b`, first and number. -/
def bladePts (np b : ℕ) : ℕ × ℕ := (b * np + 1, np)

/-- turbine_external_utils.H:42, 60-63: velocity points of blade `b`, first and number. -/
def bladeVel (nv b : ℕ) : ℕ × ℕ := (b * nv, nv)

/-- turbine_external_utils.H:68-83: points of the tower. -/
def towerPts (nb np nt : ℕ) : ℕ × ℕ := (nb * np + 1, nt)

/-- turbine_external_utils.H:84-91: point of the hub. -/
def hubPts : ℕ × ℕ := (0, 1)

/-- MultiParser.H and `utils::slice`: point `i` belongs to a slice. -/
def In (s : ℕ × ℕ) (i : ℕ) : Prop := s.1 ≤ i ∧ i < s.1 + s.2

/-- FastIface.cpp:318-333: number of tower points after the start of the solver, which gave `npts` force points. -/
def towerCount (nb np nt npts : ℕ) : Option ℕ :=
  let rotor := nb * np + 1
  let nt' := if rotor = npts then 0 else nt
  if npts = rotor + nt' then some nt' else none

section field
variable {K : Type*} [Field K] [LinearOrder K]

/-- turbine_utils.cpp:49-58: the box of a turbine with base `bp`. -/
def boundBox (bp : Vec K) (diameter hh : K) : Vec K × Vec K :=
  let rad := 1 / 2 * diameter
  (⟨bp.x - 5 / 4 * rad, bp.y - 5 / 4 * rad, bp.z - 5 / 4 * rad⟩, ⟨bp.x + 5 / 4 * rad, bp.y + 5 / 4 * rad, bp.z + 5 / 4 * rad + hh⟩)

/-- turbine_external_utils.H:17-23 `swap_epsilon`. -/
def swapEps (e : Vec K) : Vec K := ⟨e.y, e.x, e.z⟩

/-- turbine_external_utils.H:121-132: widths at a blade point with chord `c`; inputs in the order of the input file. -/
def bladeEps (emin einp echord : Vec K) (c : K) : Vec K :=
  let m := swapEps emin
  let i := swapEps einp
  let e := swapEps echord
  ⟨max (max m.x i.x) (e.x * c), max (max m.y i.y) (e.y * c), max (max m.z i.z) (e.z * c)⟩

/-- turbine_external_utils.H:133-141: widths of the tower. -/
def towerEps (emin einp etower : Vec K) : Vec K :=
  let m := swapEps emin
  let i := swapEps einp
  let e := swapEps etower
  ⟨max (max m.x i.x) e.x, max (max m.y i.y) e.y, max (max m.z i.z) e.z⟩

/-! ## What the other ranks get -/

/-- What the solver gives for one force point. -/
structure Node (K : Type*) where
  force : Vec K
  pos : Vec K
  ori : Fin 9 → K

/-- turbine_external_utils.H:224-255: the buffer sent: forces, positions, matrices. -/
def pack (ns : List (Node K)) : List K :=
  ns.map (fun n => n.force.x) ++ ns.map (fun n => n.force.y) ++ ns.map (fun n => n.force.z) ++
    ns.map (fun n => n.pos.x) ++ ns.map (fun n => n.pos.y) ++ ns.map (fun n => n.pos.z) ++ ns.flatMap fun n => List.ofFn n.ori

/-- A force point of the flow solver. -/
structure Pt (K : Type*) where
  force : Vec K
  pos : Vec K
  ori : Ten K

/-- turbine_external_utils.H:278-322: point `i` of `npts` from the buffer; `none` is a read outside of it. -/
def unpack (rho : K) (bp : Vec K) (npts : ℕ) (buf : List K) (i : ℕ) : Option (Pt K) := do
  let fx ← buf[i]?
  let fy ← buf[npts + i]?
  let fz ← buf[npts + npts + i]?
  let px ← buf[npts + npts + npts + i]?
  let py ← buf[npts + npts + npts + npts + i]?
  let pz ← buf[npts + npts + npts + npts + npts + i]?
  let off := npts + npts + npts + npts + npts + npts + i * 3 * 3
  let xx ← buf[off + 0 + 0 * 3]?
  let xy ← buf[off + 0 + 1 * 3]?
  let xz ← buf[off + 0 + 2 * 3]?
  let yx ← buf[off + 1 + 0 * 3]?
  let yy ← buf[off + 1 + 1 * 3]?
  let yz ← buf[off + 1 + 2 * 3]?
  let zx ← buf[off + 2 + 0 * 3]?
  let zy ← buf[off + 2 + 1 * 3]?
  let zz ← buf[off + 2 + 2 * 3]?
  return ⟨⟨-fx / rho, -fy / rho, -fz / rho⟩, ⟨px + bp.x, py + bp.y, pz + bp.z⟩, ⟨xx, xy, xz, yx, yy, yz, zx, zy, zz⟩⟩

/-- icns_ops.H:115-134: the source is multiplied by the density of the flow. -/
def momentumRate (rho f : K) : K := rho * f

/-- turbine_external_ops.H:178-203, the relative velocities for the correction: `u` is the buffer of fluid velocities of the
solver, not yet overwritten, `xdot` the velocities of the force points; `none` is a read outside `u`. -/
def velRel (u xdot : List (Vec K)) : List (Option (Vec K)) :=
  xdot.zipIdx.map fun p => (u[p.2]?).map fun v => ⟨v.x - p.1.x, v.y - p.1.y, v.z - p.1.z⟩

/-- turbine_external_ops.H:160-210 `update_vel_op` with the correction: `corr` is its action on the sampled velocities, given the
relative ones. Returned: relative velocities, new buffer. -/
def updateVel (corr : List (Option (Vec K)) → List (Vec K) → List (Vec K)) (u xdot vel : List (Vec K)) : List (Option (Vec K)) × List (Vec K) :=
  let r := velRel u xdot
  (r, corr r vel)

/-- turbine_fast_ops.H:76-150: one density check; `other` is the density in the input, if any. -/
def densityOk (tiny rho : K) (noCheck : Bool) (other : Option K) : Bool :=
  match other with
  | none => true
  | some r => !decide (|r - rho| > tiny) || noCheck

/-- turbine_fast_ops.H:76-150 with read_ops. -/
def densityAccepts (tiny rho : K) (noCheck : Bool) (incflo cst : Option K) : Bool := densityOk tiny rho noCheck incflo && densityOk tiny rho noCheck cst

end field

/-- turbine_external_utils.H:323-334: the frame of the rotor, rows downwind, lateral, up. -/
noncomputable def rotorFrame (eps : ℝ) (ori : Ten ℝ) : Ten ℝ :=
  let x := Vs.normalize eps ⟨ori.xx, ori.xy, ori.xz⟩
  let y := cross ⟨0, 0, 1⟩ x
  let z := cross x y
  let y' := Vs.normalize eps y
  let z' := Vs.normalize eps z
  ⟨x.x, x.y, x.z, y'.x, y'.y, y'.z, z'.x, z'.y, z'.z⟩

/-- turbine_external_utils.H:109-119: width at the nacelle. -/
noncomputable def nacelleEps (emin : Vec ℝ) (cd area : ℝ) : Vec ℝ :=
  let e := Real.sqrt (2 / Real.pi * cd * area)
  let m := swapEps emin
  ⟨max e m.x, max e m.y, max e m.z⟩

/-- turbine_external_utils.H:163-170: the factor from the velocity sampled to the one without the nacelle. -/
noncomputable def nacelleCorrection (cdA eps : ℝ) : ℝ :=
  if eps > 0 then 1 / (1 - cdA / (2 * (2 * Real.pi) * eps * eps)) else 0

/-- turbine_external_utils.H:145-177 `compute_nacelle_force`: the force given to the buffer. -/
noncomputable def nacelleForce (rho cd area eps : ℝ) (vel : Vec ℝ) : Vec ℝ :=
  let corr := nacelleCorrection (cd * area) eps
  let coeff := 1 / 2 * rho * (cd * area) * mag vel * corr * corr
  ⟨coeff * vel.x, coeff * vel.y, coeff * vel.z⟩

/-! ## The clock of the solver -/

section clock
variable {K : Type*} [Field K] [LinearOrder K] [FloorRing K]

/-- FastIface.cpp:335-349 (`tol` 1e-12) and 437-451 (`tol` 1e-4): steps of the solver in a step of the flow. -/
def substeps (tol dtCfd dtExt : K) : Option ℕ :=
  let n := ⌊dtCfd / dtExt⌋
  if n > 0 then
    if dtCfd / ((n : K) * dtExt) - 1 > tol then none else some n.toNat
  else none

/-- turbine_fast_ops.H:189-213 `check_fast_sim_time`; `big` is the largest number. -/
def simTimeOk (big stopTime : K) (stopIndex : ℤ) (dt cur fastStart fastStop : K) : Bool :=
  let stop1 := if stopTime > 0 then stopTime else big
  let stop2 := if stopIndex > -1 then (stopIndex : K) * dt else big
  decide (fastStop - fastStart > min stop1 stop2 - cur - 1 / 1000000)

end clock

/-- A call of the solver, with the velocities it is given. -/
inductive Call (V : Type*) where
  | restore
  | solution0 (v : V)
  | step (v : V)
  deriving DecidableEq

/-- The interface to one turbine: calls made, velocities in the buffer, step index, whether the initial solution is due, records in
the velocity file, indices of the checkpoints. -/
structure Iface (V : Type*) where
  calls : List (Call V)
  vel : V
  index : ℕ
  fresh : Bool
  file : List V
  chk : List ℕ

variable {V : Type*}

/-- ExtTurbIface.H:141-176 `advance_turbine` with FastIface.cpp:211-232: the velocities are appended to the file, `N` steps, a checkpoint. -/
def advance (N : ℕ) (ci : ℤ) (s : Iface V) : Iface V :=
  let idx := s.index + N
  { s with
    file := s.file ++ [s.vel]
    calls := s.calls ++ List.replicate N (.step s.vel)
    index := idx
    chk := if ci > 0 ∧ ((idx / N : ℕ) : ℤ).tmod ci = 0 then s.chk ++ [idx] else s.chk }

/-- turbine_external_utils.H:180-202 `ext_step` with FastIface.cpp:120-133. -/
def extStep (N : ℕ) (ci : ℤ) (s : Iface V) : Iface V :=
  if s.fresh then { s with calls := s.calls ++ [.solution0 s.vel], fresh := false } else advance N ci s

/-- turbine_external_ops.H:204-208 and 213-217, called from Actuator.cpp:123-126 at the start and 172-175 in every step. -/
def work (N : ℕ) (ci : ℤ) (s : Iface V) (v : V) : Iface V := extStep N ci { s with vel := v }

/-- ExtTurbIface.H:115-119, FastIface.cpp:150-170: a start; `file` is the velocity file found, which is kept. -/
def startInit (v : V) (file : Option (List V)) : Iface V := ⟨[], v, 0, true, file.getD [], []⟩

/-- FastIface.cpp:392-461 with external_base_types.H:66, 81: a start from a checkpoint of the solver with step index `idx`. -/
def startRestart (v : V) (idx : ℕ) (file : Option (List V)) : Iface V := ⟨[.restore], v, idx, true, file.getD [], []⟩

/-- FastIface.cpp:352-390 `ext_replay_turbine`: `numSteps` steps with the velocities of the file; `none`: stop. -/
def startReplay (N numSteps : ℕ) (file : Option (List V)) : Option (Iface V) :=
  match file with
  | none => none
  | some l =>
    let n := numSteps / N
    if l.length ≥ n then
      match l with
      | [] => none
      | v :: _ =>
        if n * N = numSteps then
          some ⟨.solution0 v :: (l.take n).flatMap fun u => List.replicate N (.step u), (l.take n).getLastD v, n * N, false, l, []⟩
        else none
    else none

/-- Actuator.cpp:93-128, 167-177: a start and the steps after it; the first velocities are those at the start. -/
def run (N : ℕ) (ci : ℤ) (s : Iface V) (vs : List V) : Iface V := vs.foldl (work N ci) s

/-- turbine_fast_ops.H:273-280: output is written in this step. -/
def writesOutput (freq idx : ℤ) : Bool := !(decide (freq > 0) && decide (idx.tmod freq ≠ 0))

end AmrWind.Ext
