import Verif.Regrid.Model
import Mathlib.Data.List.Indexes

/-!
# Model of the life of the arrays: start, checkpoint, restart, change of the mesh

`incflo.cpp:43-125` (`init_mesh`, `init_amr_wind_modules`), `incflo.cpp:184-233` (`regrid_and_update`),
`incflo.cpp:377-404` (`MakeNewLevelFromScratch`), `utilities/io.cpp:12-214` (`ReadCheckpointFile`) and
`utilities/IOManager.cpp:192-302` (`write_checkpoint_file`, `read_checkpoint_fields`), on the levels of
`Regrid/Model.lean`. Ghost cells, boxes and processes are not modelled (a level is its set of cells), nor is replication
of the domain (C28). What the physics write is a parameter, one level at a time; time and step sizes are C27.
-/

namespace AmrWind.Hist

open Plane (Cell Axis)
open Regrid

/-- What runs when arrays are made: the mesh map (`create_map`), and of all physics in their order `initialize_fields`,
`post_regrid_actions` and `post_init_actions` (the flag says whether the run is a restart, `io_mgr.is_restart()`, which
MultiPhase.cpp:93 asks, or `time_index() > 0`, which VortexRing.cpp:116 and ScalarAdvection.cpp:188 ask). Each gets the
number and the arrays of a level. `saved` are the fields registered for checkpoints (`m_chk_fields`). -/
structure Hooks (K : Type*) where
  createMap : ℕ → Data K → Data K
  initFields : ℕ → Data K → Data K
  postRegrid : ℕ → Data K → Data K
  postInit : Bool → ℕ → Data K → Data K
  saved : List ℕ

variable {K : Type*}

/-- A loop over all levels. -/
def mapLev (g : ℕ → Data K → Data K) (s : State K) : State K :=
  ⟨s.cells, g 0 s.base, s.fine.mapIdx fun i L => ⟨L.refined, g (i + 1) L.data⟩⟩

/-- The arrays of level `lev`. -/
def level (s : State K) : ℕ → Option (Data K)
  | 0 => some s.base
  | l + 1 => s.fine[l]?.map (·.data)

/-- A checkpoint: the cells of the levels and, for every level and field, the values if there is a file with them. -/
structure File (K : Type*) where
  cells : Finset Cell
  fine : List (Finset Cell)
  val : ℕ → ℕ → Option (Cell → K)

/-- IOManager.cpp:192-222 `write_checkpoint_file` of all levels. -/
def write (saved : List ℕ) (s : State K) : File K :=
  ⟨s.cells, s.fine.map (·.refined), fun lev fld => if fld ∈ saved then (level s lev).map (·.val fld) else none⟩

/-- IOManager.cpp:245-248: a registered field has no file on some level. -/
def missing (saved : List ℕ) (f : File K) : Bool :=
  (List.range (f.fine.length + 1)).any fun lev => saved.any fun fld => (f.val lev fld).isNone

/-- IOManager.cpp:238-283: registered fields with a file get the values in it, the others keep what they have. -/
def restore (saved : List ℕ) (f : File K) (lev : ℕ) (d : Data K) : Data K :=
  ⟨fun fld => if fld ∈ saved then (f.val lev fld).getD (d.val fld) else d.val fld, d.ival⟩

variable [Zero K]

/-- incflo.cpp:394-403 with FieldRepo.cpp:15-31: the arrays of a level made from scratch. -/
def scratch (h : Hooks K) (lev : ℕ) : Data K := h.initFields lev (h.createMap lev blank)

/-- incflo.cpp:377-404 `MakeNewLevelFromScratch` for every level. -/
def fromScratch (h : Hooks K) (cells : Finset Cell) (fine : List (Finset Cell)) : State K :=
  ⟨cells, scratch h 0, fine.mapIdx fun i m => ⟨m, scratch h (i + 1)⟩⟩

/-- incflo.cpp:53-69 and 114-116: a run that starts on a given mesh. -/
def start (h : Hooks K) (cells : Finset Cell) (fine : List (Finset Cell)) : State K :=
  mapLev (h.postInit false) (fromScratch h cells fine)

/-- io.cpp:149-213 and IOManager.cpp:224-302: the levels of the file are made from scratch and the fields read; no state
is an abort (IOManager.cpp:297-299). -/
def readCheckpoint (h : Hooks K) (allow : Bool) (f : File K) : Option (State K) :=
  if missing h.saved f && !allow then none
  else some (mapLev (restore h.saved f) (fromScratch h f.cells f.fine))

/-- incflo.cpp:70-86 and 114-116: a restart. `added` are the levels that the changes of the mesh from the finest level on
(lines 73-75) add above those of the file. The actions after a change of the mesh run always, as the finest level is never
above the highest one (lines 78-82). The mesh map is not computed for levels that are added. -/
def restart (o : Ops K) (h : Hooks K) (allow : Bool) (f : File K) (added : List (Finset Cell)) : Option (State K) :=
  (readCheckpoint h allow f).map fun s =>
    mapLev (h.postInit true)
      (mapLev h.postRegrid (regrid o s (List.replicate s.fine.length none ++ added.map some)))

/-- incflo.cpp:184-233 `regrid_and_update`. -/
def regridUpdate (o : Ops K) (h : Hooks K) (s : State K) (news : List (Option (Finset Cell))) : State K :=
  mapLev h.postRegrid (mapLev h.createMap (regrid o s news))

/-- What happens to a run: a time step, a change of the mesh, or a checkpoint from which a new run starts. -/
inductive Ev (K : Type*) where
  | step (g : State K → State K)
  | regrid (news : List (Option (Finset Cell)))
  | restart (allow : Bool) (added : List (Finset Cell))

/-- One event. -/
def ev (o : Ops K) (h : Hooks K) (s : State K) : Ev K → Option (State K)
  | .step g => some (g s)
  | .regrid news => some (regridUpdate o h s news)
  | .restart allow added => restart o h allow (write h.saved s) added

/-- A history. -/
def run (o : Ops K) (h : Hooks K) : State K → List (Ev K) → Option (State K)
  | s, [] => some s
  | s, e :: es => (ev o h s e).bind fun t => run o h t es

end AmrWind.Hist
