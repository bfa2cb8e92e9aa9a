import Mathlib.Algebra.Order.Floor.Ring
import Mathlib.Analysis.SpecialFunctions.Pow.Real
import Mathlib.Analysis.SpecialFunctions.Exp
import Mathlib.Analysis.Real.Pi.Bounds
import Verif.Vs.Model

/-!
# Model of `physics/SyntheticTurbulence.cpp` and of its source term

A box of turbulence is read from a file and swept through a plane in the flow; a force on the fluid near the plane
stands for it. Not modelled: reading the input and the NetCDF library (a read outside of the variable aborts), GPU copies.
-/

set_option linter.unusedSectionVars false

namespace AmrWind.Syn

open Vs

section index
variable {K : Type*} [Field K] [LinearOrder K] [IsStrictOrderedRing K] [FloorRing K]

/-- SyntheticTurbulence.H:132-136 `InterpWeights`, one direction. -/
structure LR (K : Type*) where
  l : ℤ
  r : ℤ
  wl : K
  wr : K

/-- SyntheticTurbulence.cpp:236-251, 266-288 `get_lr_indices`. -/
def lr (n : ℤ) (len dx x : K) : LR K :=
  let xbox := x - (⌊x / len⌋ : K) * len
  let il := ⌊xbox / dx⌋
  let ir := il + 1
  let ir := if ir ≥ n then ir - n else ir
  let rxr := (xbox - dx * (il : K)) / dx
  ⟨il, ir, 1 - rxr, rxr⟩

/-- SyntheticTurbulence.cpp:316-362 `interp_perturb_vel`, one component; `buf` holds the two planes. -/
def interp (ny nz : ℤ) (buf : ℤ → K) (x y z : LR K) : K :=
  let q0 := y.l * nz + z.l
  let q1 := y.r * nz + z.l
  let q2 := y.r * nz + z.r
  let q3 := y.l * nz + z.r
  let quad := fun o => y.wl * z.wl * buf (q0 + o) + y.wr * z.wl * buf (q1 + o) + y.wr * z.wr * buf (q2 + o) + y.wl * z.wr * buf (q3 + o)
  x.wl * quad 0 + x.wr * quad (ny * nz)

/-- SyntheticTurbulence.cpp:19-34 `LinearShearOp`. -/
def linearShear (hmin hmax vstart vstop ht : K) : K :=
  let vel := vstart + (vstop - vstart) * (ht - hmin) / (hmax - hmin)
  max vstart (min vel vstop)

end index

/-- SyntheticTurbulence.cpp:71-79 `PowerLawOp`. -/
noncomputable def powerLaw (refVel refHeight alpha hoff umin umax height : ℝ) : ℝ :=
  let heff := height - hoff
  let pfac := if heff > 0 then Real.rpow (heff / refHeight) alpha else 0
  refVel * min (max pfac umin) umax

/-- SyntheticTurbulence.H:55-82: the box of the file; `file` are the three velocity components at plane, row and column (in the file in that order). -/
structure Box where
  nx : ℤ
  ny : ℤ
  nz : ℤ
  len : Vec ℝ
  dx : Vec ℝ
  file : Fin 3 → ℤ → ℤ → ℤ → ℝ

/-- The variable of the file, in the order in which it is stored. -/
def Box.flat (b : Box) (n : Fin 3) (q : ℤ) : ℝ := b.file n (q / (b.ny * b.nz)) (q % (b.ny * b.nz) / b.nz) (q % b.nz)

/-- SyntheticTurbulence.H:74-86: the planes that are in memory. -/
structure Loaded where
  buf : Fin 3 → ℤ → ℝ
  ileft : ℤ
  iright : ℤ

/-- SyntheticTurbulence.cpp:166-222 `load_turb_plane_data`; `none`: the read is outside of the variable. -/
def load (b : Box) (il ir : ℤ) : Option Loaded :=
  let nynz := b.ny * b.nz
  if ir - il = 1 then
    if 0 ≤ il ∧ il + 2 ≤ b.nx then some ⟨fun n q => b.flat n (il * nynz + q), il, ir⟩ else none
  else
    if (0 ≤ il ∧ il + 1 ≤ b.nx) ∧ (0 ≤ ir ∧ ir + 1 ≤ b.nx) then
      some ⟨fun n q => if q < nynz then b.flat n (il * nynz + q) else b.flat n (ir * nynz + (q - nynz)), il, ir⟩
    else none

/-- SyntheticTurbulence.cpp:377-471: what is read from the input; `vf`: the mean wind at a height. -/
structure Input where
  refVel : ℝ
  offset : ℝ
  duration : ℝ
  epsilon : ℝ
  windDir : ℝ
  origin : Vec ℝ
  vf : ℝ → ℝ
  sdir : Fin 3

/-- SyntheticTurbulence.cpp:471. -/
noncomputable def Input.tr (p : Input) : Ten ℝ := zrot (270 - p.windDir)

/-- SyntheticTurbulence.cpp:610. -/
noncomputable def Input.loc (p : Input) (x : Vec ℝ) : Vec ℝ := tmul p.tr ⟨x.x - p.origin.x, x.y - p.origin.y, x.z - p.origin.z⟩

/-- SyntheticTurbulence.cpp:451-452, 639-641: the weight of a point at the distance `x` from the plane. -/
noncomputable def eta (eps x : ℝ) : ℝ := Real.exp (-(x / eps * (x / eps))) * (1 / (eps * Real.sqrt Real.pi))

/-- SyntheticTurbulence.cpp:296-312 `find_point_in_box`; `none`: outside. -/
noncomputable def inBox (b : Box) (pt : Vec ℝ) : Option (LR ℝ × LR ℝ) :=
  let yy := pt.y + b.len.y * (1 / 2)
  let zz := pt.z + b.len.z * (1 / 2)
  if yy ≥ 0 ∧ yy ≤ b.len.y ∧ zz ≥ 0 ∧ zz ≤ b.len.z then some (lr b.ny b.len.y b.dx.y yy, lr b.nz b.len.z b.dx.z zz) else none

/-- The component of a vector by its number. -/
def _root_.AmrWind.Vs.Vec.at {K : Type*} (v : Vec K) (n : Fin 3) : K := if n = 0 then v.x else if n = 1 then v.y else v.z

/-- SyntheticTurbulence.cpp:620-649: the force at a point in the box; `vel` is the perturbation in the frame of the box. -/
noncomputable def pointForce (p : Input) (rho : ℝ) (x vel : Vec ℝ) : Vec ℝ :=
  let vg := vmul vel p.tr
  let vmag := mag vg
  let total := p.vf (x.at p.sdir) + 1 / 2 * vmag
  let factor := total * eta p.epsilon (p.loc x).x
  ⟨rho * vg.x * factor, rho * vg.y * factor, rho * vg.z * factor⟩

/-- SyntheticTurbulence.cpp:566-654 `update_impl`: the force in a cell with centre `x`, where it was `old`. -/
noncomputable def cellForce (b : Box) (p : Input) (d : Loaded) (wx : LR ℝ) (rho : ℝ) (x old : Vec ℝ) : Vec ℝ :=
  match inBox b (p.loc x) with
  | some (wy, wz) => pointForce p rho x ⟨interp b.ny b.nz (d.buf 0) wx wy wz, interp b.ny b.nz (d.buf 1) wx wy wz, interp b.ny b.nz (d.buf 2) wx wy wz⟩
  | none => old

/-- The state: planes in memory (`none` before the first step) and the force in each cell. -/
structure State (C : Type*) where
  data : Option Loaded
  force : C → Vec ℝ

/-- SyntheticTurbulence.cpp:496-563 `pre_advance_work`, `initialize` and `update`, at the end `t` of the step; `pos`: cell centres. -/
noncomputable def advance {C : Type*} (b : Box) (p : Input) (pos : C → Vec ℝ) (t : ℝ) (rho : C → ℝ) (s : State C) : Option (State C) :=
  let cur := t - p.offset
  let w := lr b.nx b.len.x b.dx.x (p.refVel * cur)
  match s.data.elim (load b w.l w.r) some with
  | none => none
  | some d =>
    if p.duration > 0 ∧ cur > p.duration then some ⟨some d, fun _ => ⟨0, 0, 0⟩⟩
    else
      match (if w.l ≠ d.ileft then load b w.l w.r else some d) with
      | none => none
      | some d => some ⟨some d, fun c => cellForce b p d w (rho c) (pos c) (s.force c)⟩

/-- What happens to the forces: a step, or a new mesh, for which fields are allocated and set to zero. -/
inductive Event (C : Type*) where
  | step (t : ℝ) (rho : C → ℝ)
  | regrid

/-- One event. -/
noncomputable def event {C : Type*} (b : Box) (p : Input) (pos : C → Vec ℝ) (s : State C) : Event C → Option (State C)
  | .step t rho => advance b p pos t rho s
  | .regrid => some ⟨s.data, fun _ => ⟨0, 0, 0⟩⟩

/-- A history, from the start of the program. -/
noncomputable def run {C : Type*} (b : Box) (p : Input) (pos : C → Vec ℝ) (h : List (Event C)) : Option (State C) :=
  h.foldlM (event b p pos) ⟨none, fun _ => ⟨0, 0, 0⟩⟩

/-- SynthTurbForcing.cpp:24-36 with PDEOps.H:94-145 and icns_ops.H:115-134: the source adds the force, and the sum of all sources is multiplied with the density: the rate
of change of momentum. -/
def momentumRate (rho force : ℝ) : ℝ := rho * force

end AmrWind.Syn
