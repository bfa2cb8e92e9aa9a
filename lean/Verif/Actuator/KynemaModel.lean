import Mathlib.Analysis.SpecialFunctions.Trigonometric.Basic
import Mathlib.Algebra.BigOperators.Group.List.Basic
import Mathlib.Algebra.BigOperators.Fin
import Mathlib.Tactic.FinCases
/-!
# Turbines solved by Kynema: `turbine/kynema/kynema_types.H`, `KynemaIface.cpp`, `turbine_kynema_ops.H`

The structural solver is a parameter. What all external solvers share is in `Verif.Actuator.ExtModel`.
-/

set_option linter.unusedSectionVars false

namespace AmrWind.Kyn

/-! ## Points and nodes, kynema_types.H -/

/-- kynema_types.H:224-232 `length_force`: the hub and all nodes; `sizes` are the numbers of nodes of the bodies. -/
def numPts (sizes : List ℕ) : ℕ := 1 + sizes.sum

/-- kynema_types.H:154-169 the loop of `body_index`, from body `b` on. -/
def bodyLoop : ℕ → List ℕ → ℤ → ℕ
  | _, [], _ => 0
  | b, s :: rest, d => if d - s < 0 then b else bodyLoop (b + 1) rest (d - s)

/-- kynema_types.H:154-169 `body_index`. -/
def bodyIndex (sizes : List ℕ) (id : ℕ) : ℕ := bodyLoop 0 sizes ((id : ℤ) - 1)

/-- kynema_types.H:171-186 the loop of `node_index`. -/
def nodeLoop : List ℕ → ℤ → ℤ
  | [], _ => 0
  | s :: rest, d => if d - s < 0 then d - s + s else nodeLoop rest (d - s)

/-- kynema_types.H:171-186 `node_index`. -/
def nodeIndex (sizes : List ℕ) (id : ℕ) : ℤ := nodeLoop sizes ((id : ℤ) - 1)

/-- kynema_types.H:76-95, 135-140: the inner loop over the points `1 .. N - 1` in direction `dir`, from place `idx` of the
buffer and point `n` on, `k` points left: places, directions and points. -/
def inner (dir : ℕ) : ℕ → ℕ → ℕ → List (ℕ × ℕ × ℕ)
  | 0, _, _ => []
  | k + 1, idx, n => (idx, dir, n) :: inner dir k (idx + 1) (n + 1)

/-- kynema_types.H:71-96, 131-141: the outer loop over the directions, the place of the hub skipped. -/
def outer (N : ℕ) : List ℕ → ℕ → List (ℕ × ℕ × ℕ)
  | [], _ => []
  | dir :: rest, idx => inner dir (N - 1) (idx + 1) 1 ++ outer N rest (idx + 1 + (N - 1))

/-- All places visited, in order. -/
def places (N : ℕ) : List (ℕ × ℕ × ℕ) := outer N [0, 1, 2] 0

/-- kynema_types.H:71-96: a buffer after the loop; `get b k dir` is what the solver has at a node. -/
def fill {V : Type*} (sizes : List ℕ) (get : ℕ → ℤ → ℕ → V) (buf : ℕ → V) : ℕ → V :=
  (places (numPts sizes)).foldl (fun b p => fun i => if i = p.1 then get (bodyIndex sizes p.2.2) (nodeIndex sizes p.2.2) p.2.1 else b i) buf

/-- kynema_types.H:130-141: the inflow at the nodes of the solver after the loop. -/
def passVel {V : Type*} (sizes : List ℕ) (fv : ℕ → V) (inflow : ℕ → ℤ → ℕ → V) : ℕ → ℤ → ℕ → V :=
  (places (numPts sizes)).foldl (fun w p => fun b k d =>
    if b = bodyIndex sizes p.2.2 ∧ k = nodeIndex sizes p.2.2 ∧ d = p.2.1 then fv p.1 else w b k d) inflow

/-- kynema_types.H:191-214: where the rest of the code looks for point `n` in direction `dir`. -/
def slot (sizes : List ℕ) (dir n : ℕ) : ℕ := dir * numPts sizes + n

/-! ## Orientation, kynema_types.H:97-123 -/

section field
variable {K : Type*} [CommRing K]

/-- kynema_types.H:111-123: the matrix of a quaternion. -/
def rotMat (q0 q1 q2 q3 : K) : Matrix (Fin 3) (Fin 3) K := fun i j =>
  match i, j with
  | 0, 0 => q0 * q0 + q1 * q1 - q2 * q2 - q3 * q3
  | 0, 1 => 2 * (q1 * q2 - q0 * q3)
  | 0, 2 => 2 * (q1 * q3 + q0 * q2)
  | 1, 0 => 2 * (q1 * q2 + q0 * q3)
  | 1, 1 => q0 * q0 - q1 * q1 + q2 * q2 - q3 * q3
  | 1, 2 => 2 * (q2 * q3 - q0 * q1)
  | 2, 0 => 2 * (q1 * q3 - q0 * q2)
  | 2, 1 => 2 * (q2 * q3 + q0 * q1)
  | 2, 2 => q0 * q0 - q1 * q1 - q2 * q2 + q3 * q3

/-- KynemaIface.cpp:160-166: the mass matrix of a section of a blade. -/
def massMat (m cx cy iedge iflap icp iplr : K) : Matrix (Fin 6) (Fin 6) K := fun i j =>
  (![![m, 0, 0, 0, 0, -m * cy],
     ![0, m, 0, 0, 0, m * cx],
     ![0, 0, m, m * cy, -m * cx, 0],
     ![0, 0, m * cy, iedge, -icp, 0],
     ![0, 0, -m * cx, -icp, iflap, 0],
     ![-m * cy, m * cx, 0, 0, 0, iplr]] i) j

/-- KynemaIface.cpp:167-174: the stiffness matrix of a section; `k i j` is the entry `Kij` of the file for `i ≤ j`, from 1 on. -/
def stiffMat (k : ℕ → ℕ → K) : Matrix (Fin 6) (Fin 6) K := fun i j =>
  (![![k 1 1, k 1 2, k 1 3, k 1 4, k 1 5, k 1 6],
     ![k 1 2, k 2 2, k 2 3, k 2 4, k 2 5, k 2 6],
     ![k 1 3, k 2 3, k 3 3, k 3 4, k 3 5, k 3 6],
     ![k 1 4, k 2 4, k 3 4, k 4 4, k 4 5, k 4 6],
     ![k 1 5, k 2 5, k 3 5, k 4 5, k 5 5, k 5 6],
     ![k 1 6, k 2 6, k 3 6, k 4 6, k 5 6, k 6 6]] i) j

/-- KynemaIface.cpp:325-334: the inertia matrix of the hub with the generator behind a gearbox; the order in the file is
xx, yy, zz, xy, xz, yz. -/
def hubMat (m : K) (i : ℕ → K) (igen ratio : K) : Matrix (Fin 6) (Fin 6) K := fun a b =>
  (![![m, 0, 0, 0, 0, 0],
     ![0, m, 0, 0, 0, 0],
     ![0, 0, m, 0, 0, 0],
     ![0, 0, 0, i 0 + igen * ratio * ratio, i 3, i 4],
     ![0, 0, 0, i 3, i 1, i 5],
     ![0, 0, 0, i 4, i 5, i 2]] a) b

end field

/-! ## Steps, KynemaIface.cpp:400-441 -/

/-- What the structural solver does. `S`: structure, `V`: velocities and hub load, `L`: loads. -/
structure Solver (S V L : Type*) where
  /-- the loads for the motion of a structure and an inflow -/
  aero : S → V → L
  /-- `Step`; `none`: it did not converge -/
  step : S → L → Option S
  /-- `ApplyController` at a time given as a number of steps -/
  control : ℕ → S → S

/-- The turbine. `motion` is the structure at the last `CalculateMotion`; `out` is what the flow solver sees (`populate_buffers`):
motion and loads; `written` counts the outputs; `passed` lists the velocities given to the solver. -/
structure Turb (S V L : Type*) where
  counter : ℕ
  x : S
  motion : S
  load : L
  out : S × L
  written : ℕ
  passed : List V

variable {S V L : Type*}

/-- KynemaIface.cpp:404-413: what is done in the first substep only. -/
def first (sol : Solver S V L) (v : V) (t : Turb S V L) : Turb S V L :=
  if t.counter = 1 then { t with motion := t.x, load := sol.aero t.x v, passed := t.passed ++ [v] } else t

/-- KynemaIface.cpp:414-424: the step of the solver and of its controller. -/
def move (sol : Solver S V L) (ctl advance : Bool) (idx : ℕ) (t : Turb S V L) : Option (Turb S V L) :=
  if advance then (sol.step t.x t.load).map fun x' => { t with x := if ctl then sol.control idx x' else x' } else some t

/-- KynemaIface.cpp:426-432: the motion after the last substep and the counter. -/
def wrap (N : ℕ) (advance : Bool) (t : Turb S V L) : Turb S V L :=
  if t.counter = N then { t with motion := t.x, counter := 0 } else if advance = false then { t with counter := 0 } else t

/-- KynemaIface.cpp:434-441: output and buffers. -/
def publish (t : Turb S V L) : Turb S V L :=
  if t.counter = 0 then { t with out := (t.motion, t.load), written := t.written + 1 } else t

/-- KynemaIface.cpp:400-441 `update_turbine`; `N` substeps, `ctl`: there is a controller, `idx`: `time_index`, `v`: the buffer with the
velocities. `none`: abort. -/
def update (sol : Solver S V L) (N : ℕ) (ctl advance : Bool) (idx : ℕ) (v : V) (t : Turb S V L) : Option (Turb S V L) :=
  (move sol ctl advance idx (first sol v { t with counter := t.counter + 1 })).map fun t3 => publish (wrap N advance t3)

/-- ExtTurbIface.H:168-171: the substeps of a step of the flow, `k` left. -/
def substeps (sol : Solver S V L) (N : ℕ) (ctl : Bool) (v : V) : ℕ → ℕ → Turb S V L → Option (Turb S V L)
  | 0, _, t => some t
  | k + 1, idx, t => (update sol N ctl true idx v t).bind fun t' => substeps sol N ctl v k (idx + 1) t'

/-- A run of steps of the flow with the velocities `vs`, from `time_index` on. -/
def runSteps (sol : Solver S V L) (N : ℕ) (ctl : Bool) : List V → ℕ → Turb S V L → Option (Turb S V L)
  | [], _, t => some t
  | v :: vs, idx, t => (substeps sol N ctl v N idx t).bind fun t' => runSteps sol N ctl vs (idx + N) t'

/-- KynemaIface.cpp:735 `ext_init_turbine` and 491-500 `init_solution`: the two calls before the first step. -/
def begin_ (sol : Solver S V L) (N : ℕ) (ctl : Bool) (x0 : S) (l0 : L) (v0 v1 : V) : Option (Turb S V L) :=
  (update sol N ctl false 0 v0 ⟨0, x0, x0, l0, (x0, l0), 0, []⟩).bind fun t => update sol N ctl false 0 v1 t

/-- turbine_kynema_ops.H:17-19: the mode of a turbine, whatever the run is. -/
inductive Mode where
  | init | replay | restart
deriving DecidableEq

/-- turbine_kynema_ops.H:17-32: `restarted` tells whether the flow is restarted. -/
def mode (_restarted : Bool) : Mode := .init

/-! ## Inputs, turbine_kynema_ops.H -/

/-- turbine_kynema_ops.H:80-86: rotor speed in radians per second. -/
noncomputable def rotorSpeed (radps rpm : Option ℝ) : ℝ :=
  match radps with
  | some w => w
  | none => rpm.getD 0 * (2 * Real.pi / 60)

/-- turbine_kynema_ops.H:97-101: yaw in radians. -/
noncomputable def yawAngle (rad deg : Option ℝ) : ℝ :=
  match rad with
  | some a => a
  | none => deg.getD 0 * (Real.pi / 180)

/-- turbine_kynema_ops.H:53-58: the diameter of the rotor from the axis of a blade. -/
def diameter {K : Type*} [CommRing K] (z : List K) : Option K := z.getLast?.map fun r => 2 * r

end AmrWind.Kyn
