import Mathlib.Data.Nat.Digits.Defs
import Mathlib.Data.List.Basic
import Verif.IO.NcModel

/-!
# Histories of actuators: `prepare_netcdf_file`, `write_netcdf`, `prepare_outputs`, `write_outputs`

`wind_energy/actuator/Actuator.cpp`, `turbine/turbine_utils.cpp`, `wing/wing_ops.{H,cpp}`, `disk/disk_ops.cpp`, `disk/uniform_ct_ops.H`, `disk/Joukowsky_ops.{H,cpp}`,
`turbine/fast/turbine_fast_ops.H`, `turbine/kynema/turbine_kynema_ops.H`; also `ocean_waves/relaxation_zones` and `immersed_boundary/bluff_body`, whose writers are empty.
A build with NetCDF is assumed.  Attributes of the files are left out.
-/

set_option linter.unusedSectionVars false

namespace AmrWind.ActOut

/-- The kinds of actuators with a history. -/
inductive Kind where
  | wing
  | uniformCt
  | joukowsky
  | turbine
deriving DecidableEq

/-- wing_ops.H:294-297, uniform_ct_ops.H:165-168, Joukowsky_ops.H:378-381; turbine_fast_ops.H:276-279, turbine_kynema_ops.H:198-201: is a record written at the
step?  `none` is a division by zero. -/
def due (k : Kind) (freq : ℤ) (tidx : ℕ) : Option Bool :=
  match k with
  | .turbine => some !(decide (0 < freq) && decide ((tidx : ℤ).tmod freq ≠ 0))
  | _ => if freq = 0 then none else some !decide ((tidx : ℤ).tmod freq ≠ 0)

/-- The dimensions of the files. -/
inductive Dm where
  | time
  | ndim
  | mat
  | pts
  | vpts
  | rad
deriving DecidableEq

/-- Numbers of force points, of velocity points and of points along the radius. -/
structure Sizes where
  np : ℕ
  nv : ℕ
  nr : ℕ

/-- `def_dim`: turbine_utils.cpp:84-87, 101-104, wing_ops.cpp:72-73, 81, disk_ops.cpp:31-32, 44-45, Joukowsky_ops.cpp:108-110, 122-123. The time dimension grows. -/
def Dm.len (z : Sizes) : Dm → ℕ
  | .time => 0
  | .ndim => 3
  | .mat => 9
  | .pts => z.np
  | .vpts => z.nv
  | .rad => z.nr

/-- `def_var`: turbine_utils.cpp:105-114, wing_ops.cpp:82-94, disk_ops.cpp:46-52, Joukowsky_ops.cpp:124-137. -/
def defined : Kind → List (String × List Dm)
  | .turbine => [("time", [.time]), ("chord", [.pts]), ("epsilon", [.pts, .ndim]), ("rot_center", [.time, .ndim]), ("rotor_frame", [.time, .mat]),
      ("xyz", [.time, .pts, .ndim]), ("force", [.time, .pts, .ndim]), ("orientation", [.time, .pts, .mat]), ("vel_xyz", [.time, .vpts, .ndim]), ("vel", [.time, .vpts, .ndim])]
  | .wing => [("time", [.time]), ("pitch", [.time]), ("integrated_lift", [.time]), ("integrated_drag", [.time]), ("xyz", [.pts, .ndim]), ("chord", [.pts]), ("dx", [.pts]),
      ("veff", [.time, .pts, .ndim]), ("vrel", [.time, .pts, .ndim]), ("body_force", [.time, .pts, .ndim]), ("aoa", [.time, .pts]), ("cl", [.time, .pts]), ("cd", [.time, .pts])]
  | .uniformCt => [("time", [.time]), ("xyz", [.pts, .ndim]), ("xyz_v", [.vpts, .ndim]), ("vref", [.time, .ndim]), ("vdisk", [.time, .ndim]), ("ct", [.time]), ("density", [.time])]
  | .joukowsky => [("time", [.time]), ("xyz", [.pts, .ndim]), ("xyz_v", [.vpts, .ndim]), ("vref", [.time, .ndim]), ("vdisk", [.time, .ndim]), ("tsr", [.time]), ("ct", [.time]),
      ("cp", [.time]), ("power", [.time]), ("density", [.time]), ("total_disk_force", [.time, .ndim]), ("angular_velocity", [.time]), ("f_normal", [.time, .rad]), ("f_theta", [.time, .pts])]

/-- `put` at preparation: turbine_utils.cpp:118-123, wing_ops.cpp:97-107, disk_ops.cpp:55-68, Joukowsky_ops.cpp:140-153: counts of all dimensions. -/
def once : Kind → Sizes → List (String × List ℕ)
  | .turbine, z => [("chord", [z.np]), ("epsilon", [z.np, 3])]
  | .wing, z => [("xyz", [z.np, 3]), ("chord", [z.np]), ("dx", [z.np])]
  | .uniformCt, z => [("xyz", [z.np, 3]), ("xyz_v", [z.nv, 3])]
  | .joukowsky, z => [("xyz", [z.np, 3]), ("xyz_v", [z.nv, 3])]

/-- `put` of a record: turbine_utils.cpp:151-163, wing_ops.cpp:135-147, disk_ops.cpp:91-97, Joukowsky_ops.cpp:178-192: counts after the row number. -/
def each : Kind → Sizes → List (String × List ℕ)
  | .turbine, z => [("time", []), ("rot_center", [3]), ("rotor_frame", [9]), ("xyz", [z.np, 3]), ("force", [z.np, 3]), ("orientation", [z.np, 9]), ("vel_xyz", [z.nv, 3]),
      ("vel", [z.nv, 3])]
  | .wing, z => [("time", []), ("pitch", []), ("integrated_lift", []), ("integrated_drag", []), ("vrel", [z.np, 3]), ("veff", [z.np, 3]), ("body_force", [z.np, 3]),
      ("aoa", [z.np]), ("cl", [z.np]), ("cd", [z.np])]
  | .uniformCt, _ => [("time", []), ("vref", [3]), ("vdisk", [3]), ("ct", []), ("density", [])]
  | .joukowsky, z => [("time", []), ("vref", [3]), ("vdisk", [3]), ("tsr", []), ("ct", []), ("cp", []), ("power", []), ("density", []), ("total_disk_force", [3]),
      ("angular_velocity", []), ("f_normal", [z.nr]), ("f_theta", [z.np])]

/-- A part of a record: number of the variable, counts after the row number, values. -/
structure Part (V : Type) where
  var : ℕ
  rest : List ℕ
  vals : List V

/-- The calls of `put` one after the other, all at row `nt`. -/
def putParts {V : Type} (g nt : ℕ) : List (Part V) → Nc.File V → Nc.Res (Nc.File V)
  | [], f => .ok f
  | p :: ps, f => match Nc.put f g p.var (⟨nt, 1, 1⟩ :: p.rest.map fun c => ⟨0, c, 1⟩) p.vals with
    | .ok f' => putParts g nt ps f'
    | .abort => .abort
    | .ub => .ub

/-- turbine_utils.cpp:131-164, wing_ops.cpp:113-148, disk_ops.cpp:74-98, Joukowsky_ops.cpp:159-193: the row number is the length of the time dimension `t`, read once. -/
def writeRecord {V : Type} (f : Nc.File V) (g t : ℕ) (ps : List (Part V)) : Nc.Res (Nc.File V) :=
  match Nc.ncInqDimlen f t with
  | none => .abort
  | some nt => putParts g nt ps f

/-- Records one after the other. -/
def writeRecords {V : Type} (g t : ℕ) : List (List (Part V)) → Nc.File V → Nc.Res (Nc.File V)
  | [], f => .ok f
  | r :: rs, f => match writeRecord f g t r with
    | .ok f' => writeRecords g t rs f'
    | .abort => .abort
    | .ub => .ub

/-! ## Runs -/

variable {K S D : Type}

/-- `amrex::Concatenate(prefix, index)`: at least five digits. -/
def stamp (index : ℕ) : List ℕ := List.replicate (5 - (Nat.digits 10 index).length) 0 ++ (Nat.digits 10 index).reverse

/-- Actuator.cpp:318-321 and wing_ops.H:286 (the same in the others): directory of the step at which the run starts, label. -/
structure Path where
  dir : List ℕ
  label : String
deriving DecidableEq

/-- The files of the post-processing directory: the records of each. -/
abbrev Files (K D : Type) := Path → Option (List (K × D))

/-- The flow: `flow i` is the state after step `i`, `time i` its time.  `measure` is what `pre_advance_work` (Actuator.cpp:148-158) leaves in the actuator: values
sampled from the state before the step, at the positions of the new time. -/
structure World (K S D : Type) where
  flow : ℕ → S
  time : ℕ → K
  measure : S → K → D

/-- The record that step `i` would write (`time.new_time()`, wing_ops.H:299-301). -/
def World.record (w : World K S D) (i : ℕ) : K × D := (w.time i, w.measure (w.flow (i - 1)) (w.time i))

/-- Actuator.cpp:333-343 `post_advance_work` of step `i` for one actuator: its file gets a record. -/
def post (w : World K S D) (k : Kind) (freq : ℤ) (p : Path) (F : Files K D) (i : ℕ) : Option (Files K D) :=
  match due k freq i with
  | none => none
  | some false => some F
  | some true => match F p with
    | none => none
    | some l => some (Function.update F p (some (l ++ [w.record i])))

/-- Actuator.cpp:314-331 `prepare_outputs` (`NC_CLOBBER`) at step `start`, then `n` steps. -/
def launch (w : World K S D) (k : Kind) (freq : ℤ) (label : String) (start n : ℕ) (F : Files K D) : Option (Files K D) :=
  (List.range' (start + 1) n).foldlM (post w k freq ⟨stamp start, label⟩) (Function.update F ⟨stamp start, label⟩ (some []))

/-- What other models do with their `output_frequency`: relaxation_zones_ops.H:139-149 is never called (OceanWaves.cpp:109-116), relaxation_zones_ops.cpp:304-319 and
bluff_body_ops.cpp:144-159 are empty; IB.cpp:136-144 and bluff_body_ops.H:124-134 take the remainder all the same: `none` is a division by zero. -/
def bodyPost (freq : ℤ) (F : Files K D) : Option (Files K D) := if freq = 0 then none else some F

end AmrWind.ActOut
