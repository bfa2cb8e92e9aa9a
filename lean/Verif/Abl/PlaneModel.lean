import Mathlib.Algebra.Order.Field.Basic
import Mathlib.Data.Fin.Basic
import Mathlib.Data.List.Basic
import Mathlib.Tactic.Linarith

/-!
# Model of recorded boundary planes in the native format: files, headers, boxes and components

`wind_energy/ABLBoundaryPlane.cpp`, `ABLBoundaryPlane.H`.  Not modelled here: the text of the headers (their contents are),
the interpolation in time and the NetCDF format (namespace `Bndry`), the split of a box over tiles, GPU copies.
AMReX: a `BndryRegister` of a box with `in_rad = out_rad = 1`, `extent_rad = 0` holds for each face the two layers of cells on
either side of that face, and `copyFrom` with no ghost cells of the source takes values from cells of the level only, also
through the periodic images.
-/

set_option linter.unusedSectionVars false

namespace AmrWind.Bplane

abbrev Cell := Fin 3 → ℤ

/-- `amrex::Box`. -/
structure Box where
  lo : Cell
  hi : Cell

def Box.has (b : Box) (c : Cell) : Bool := decide (∀ d, b.lo d ≤ c d ∧ c d ≤ b.hi d)

/-- `amrex::Orientation`. -/
structure Face where
  dir : Fin 3
  high : Bool
  deriving DecidableEq, Repr

/-- The box of one face of a `BndryRegister`: ABLBoundaryPlane.H:259-261 with ABLBoundaryPlane.cpp:706-708. -/
def slab (b : Box) (f : Face) : Box :=
  if f.high then ⟨Function.update b.lo f.dir (b.hi f.dir), Function.update b.hi f.dir (b.hi f.dir + 1)⟩
  else ⟨Function.update b.lo f.dir (b.lo f.dir - 1), Function.update b.hi f.dir (b.lo f.dir)⟩

/-- ABLBoundaryPlane.cpp:1126-1130: the outer layer is taken off the box found in the file (`growLo` or `growHi` by -1). -/
def strip (b : Box) (f : Face) : Box :=
  if f.high then ⟨b.lo, Function.update b.hi f.dir (b.hi f.dir - 1)⟩
  else ⟨Function.update b.lo f.dir (b.lo f.dir + 1), b.hi⟩

/-- `BoxArray::minimalBox`: the smallest box around a list of boxes. -/
def hull : List Box → Option Box
  | [] => none
  | b :: bs => some (bs.foldl (fun a c => ⟨fun d => min (a.lo d) (c.lo d), fun d => max (a.hi d) (c.hi d)⟩) b)

/-- ABLBoundaryPlane.cpp:1013-1144, the boxes: for each face read the box of the file, less its outer layer; then the smallest
box around them. `w` is the smallest box around the level that was recorded. -/
def readBox (w : Box) (faces : List Face) : Option Box := hull (faces.map fun f => strip (slab w f) f)

section record
variable {K : Type*} [Field K]

/-- The shifts of one direction: `p` cells when periodic, and none when `p = 0`. -/
def shifts (p : ℤ) : List ℤ := if p = 0 then [0] else [0, -p, p]

/-- The periodic images of a cell, `per d` the number of cells in direction `d` or zero. -/
def images (per : Cell) (c : Cell) : List Cell :=
  (shifts (per 0)).flatMap fun a => (shifts (per 1)).flatMap fun b => (shifts (per 2)).map fun e =>
    (fun d : Fin 3 => c d + (if d = 0 then a else if d = 1 then b else e))

/-- ABLBoundaryPlane.cpp:710-714: the register starts at 1.0e13 and takes the values of cells of the level. -/
def recordCell (valid : Cell → Bool) (per : Cell) (f : Cell → K) (c : Cell) : K :=
  match (images per c).find? valid with
  | some c' => f c'
  | none => 10000000000000

/-- The neighbour of a plane cell inside the domain: ABLBoundaryPlane.cpp:19-28 `offset`. -/
def inner (f : Face) (c : Cell) : Cell := Function.update c f.dir (c f.dir + if f.high then -1 else 1)

/-- ABLBoundaryPlane.cpp:889-907: the plane of a level of the replay, `r` the smallest box around that level. -/
def plane (r : Box) (f : Face) : Box :=
  let x := if f.high then r.hi f.dir + 1 else -1;
  ⟨Function.update r.lo f.dir x, Function.update r.hi f.dir x⟩

/-- ABLBoundaryPlane.cpp:193-230 `read_data_native` for one record: on the part of the plane of this level that lies in the box
of the file, the mean of the two layers; elsewhere the plane keeps what it held, here nothing. -/
def replayCell (w : Box) (r : Box) (file : Cell → K) (f : Face) (c : Cell) : Option K :=
  if (plane r f).has c && (slab w f).has c then some (1 / 2 * (file c + file (inner f c))) else none

end record

/-! ## Headers -/

section header
variable {K : Type*} [Field K] [LinearOrder K]


/-- A mesh: the levels, coarsest first; all share the physical bounds. -/
structure Mesh (K : Type*) where
  plo : Fin 3 → K
  phi : Fin 3 → K
  domains : List Box

/-- What a header of one face and one field says: ABLBoundaryPlane.cpp:563-617. -/
structure Header (K : Type*) where
  ncomp : ℕ
  plo : Fin 3 → K
  phi : Fin 3 → K
  domains : List Box

/-- Cell size of the coarsest level, `Geometry::CellSize`. -/
def cellSize (m : Mesh K) (d : Box) (k : Fin 3) : K := (m.phi k - m.plo k) / ((d.hi k - d.lo k + 1 : ℤ) : K)

/-- ABLBoundaryPlane.cpp:573-593: the domain of a level next to a face. -/
def bndryDomain (d : Box) (f : Face) : Box := slab d f

/-- ABLBoundaryPlane.cpp:531-619 `write_bndry_native_header`; the physical bounds written are those of level 0. -/
def writeHeader (m : Mesh K) (f : Face) (ncomp : ℕ) : Header K :=
  match m.domains with
  | [] => ⟨ncomp, m.plo, m.phi, []⟩
  | d :: _ =>
    let dx := cellSize m d f.dir;
    let lo := if f.high then m.phi f.dir - dx else m.plo f.dir - 1 * dx;
    let hi := if f.high then m.phi f.dir + 1 * dx else m.plo f.dir + dx;
    ⟨ncomp, Function.update m.plo f.dir lo, Function.update m.phi f.dir hi, m.domains.map fun b => bndryDomain b f⟩

/-- utilities/index_operations.H:35-48 `perpendicular_idx`. -/
def perp : Fin 3 → Fin 3 × Fin 3
  | 0 => (1, 2)
  | 1 => (0, 2)
  | 2 => (0, 1)

/-- `constants::is_close`, with its tolerance `tol` as a parameter. -/
def isClose (tol a b : K) : Bool := decide (|a - b| < tol)

def sameSpan (a b : Box) (k : Fin 3) : Bool := decide (a.lo k = b.lo k) && decide (a.hi k = b.hi k)

/-- ABLBoundaryPlane.cpp:1031-1096: the checks on a header; `levels` is the number of levels of the files. `none` is an abort. -/
def checkHeader (tol : K) (m : Mesh K) (f : Face) (ncomp levels : ℕ) (h : Header K) : Option Unit :=
  let p := perp f.dir;
  if h.ncomp = ncomp ∧ h.domains.length ≤ levels ∧ 0 < h.domains.length ∧ h.domains.length ≤ m.domains.length ∧
      isClose tol (h.plo p.1) (m.plo p.1) ∧ isClose tol (h.plo p.2) (m.plo p.2) ∧
      isClose tol (h.phi p.1) (m.phi p.1) ∧ isClose tol (h.phi p.2) (m.phi p.2) ∧
      ((h.domains.zip m.domains).all fun q => sameSpan q.1 q.2 p.1 && sameSpan q.1 q.2 p.2) = true
  then some () else none

end header

/-- ABLBoundaryPlane.cpp:1547-1562 `boundary_native_file_levels`, `active` levels, `exist` the levels found. -/
def fileLevels (active : ℕ) (found : ℕ → Bool) : ℕ :=
  match (List.range active).find? (fun l => !found l) with
  | some l => l
  | none => active

/-! ## Components -/

/-- ABLBoundaryPlane.cpp:872-876: the first component of each field, and the number of components in all. -/
def layout (fields : List (ℕ × ℕ)) : (ℕ → Option ℕ) × ℕ :=
  fields.foldl (fun s f => (Function.update s.1 f.1 (some s.2), s.2 + f.2)) (fun _ => none, 0)

/-- ABLBoundaryPlane.cpp:1257-1299 with 167-230: the fields are read one after the other, each to its components. -/
def readAll {V : Type*} (lay : ℕ → Option ℕ) (fields : List (ℕ × ℕ)) (v : ℕ → ℕ → V) : ℕ → Option V :=
  fields.foldl (fun m f => match lay f.1 with
    | some s => fun q => if s ≤ q ∧ q < s + f.2 then some (v f.1 (q - s)) else m q
    | none => m) fun _ => none

/-- ABLBoundaryPlane.cpp:1386-1394: component `n` of the destination, for a field filled from component `orig` on. -/
def populateComp {V : Type*} (lay : ℕ → Option ℕ) (data : ℕ → Option V) (fld orig n : ℕ) : Option V :=
  match lay fld with
  | some s => data (n + s + orig)
  | none => none

/-! ## The life of the files -/

inductive Mode | output | input | undefined
  deriving DecidableEq, Repr

/-- ABLBoundaryPlane.cpp:294-308, `ABL.bndry_io_mode`. -/
def modeOf (m : ℤ) : Mode := if m = 0 then .output else if m = 1 then .input else .undefined

inductive Fmt | native | netcdf | erf
  deriving DecidableEq, Repr

/-- ABLBoundaryPlane.cpp:317-335: the format used, `nc` whether the NetCDF library is there; 'none' is a name not known. -/
def fmtOf (nc : Bool) : Option Fmt → Fmt
  | some .native => .native
  | some .netcdf => if nc then .netcdf else .native
  | some .erf => .erf
  | none => .native

/-- The directory of the records: the lines of `time.dat`, the records by step, and what earlier runs left under other names
(`UtilCreateCleanDirectory` renames). -/
structure Dir (K V : Type*) where
  lines : List (ℕ × K)
  recs : ℕ → Option V
  aside : List (List (ℕ × K) × (ℕ → Option V))

/-- ABLBoundaryPlane.cpp:522-528: a run that records begins with an empty directory. -/
def startRun {K V : Type*} (d : Dir K V) : Dir K V := ⟨[], fun _ => none, (d.lines, d.recs) :: d.aside⟩

/-- ABLBoundaryPlane.cpp:671-733: one record. -/
def addRecord {K V : Type*} (d : Dir K V) (r : ℕ × K × V) : Dir K V :=
  ⟨d.lines ++ [(r.1, r.2.1)], Function.update d.recs r.1 (some r.2.2), d.aside⟩

/-- One run in a mode and with the records it is due: ABLBoundaryPlane.cpp:342-375. -/
def run {K V : Type*} (d : Dir K V) (m : Mode) (rs : List (ℕ × K × V)) : Dir K V :=
  if m = .output then rs.foldl addRecord (startRun d) else d

end AmrWind.Bplane
