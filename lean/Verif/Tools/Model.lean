import Mathlib.Algebra.Order.Field.Basic
import Mathlib.Algebra.BigOperators.Group.Finset.Basic
import Mathlib.Algebra.BigOperators.Group.List.Basic
import Mathlib.Data.Fintype.Basic
import Mathlib.Data.Int.Order.Basic

/-!
# Programs that work on files of a run: `tools/utilities`

`coarsen-chkpt`, `refine-chkpt`, `compareMultilevelToReference`, `CheckpointToCSV`, `PlotfileToCSV`. Not modelled: the format of the files,
processes (each program is run by one), the fields at nodes when a checkpoint is refined, the making of boxes by AMReX (a parameter).
-/

set_option linter.unusedSectionVars false

namespace AmrWind.Tools

/-- A cell of a level. -/
abbrev I := ℤ × ℤ × ℤ

variable {K : Type*} [Field K] [LinearOrder K] [IsStrictOrderedRing K]

/-- `amrex::average_down` for cells, `CoarsenCheckpt.cpp:272-277`, `compareMultilevelToReference.cpp:120`: the mean of the `r³` finer
cells. -/
def avgDown (r : ℕ) (f : I → K) (c : I) : K :=
  (∑ k ∈ Finset.range r, ∑ j ∈ Finset.range r, ∑ i ∈ Finset.range r, f (r * c.1 + i, r * c.2.1 + j, r * c.2.2 + k)) * (1 / (r * r * r))

/-- `amrex::average_down` for nodes, `CoarsenCheckpt.cpp:272-277`: the value at the node of the finer level in the same place. -/
def nodeDown (f : I → K) (c : I) : K := f (2 * c.1, 2 * c.2.1, 2 * c.2.2)

/-- A level of a checkpoint: its cells and a field. -/
structure Lvl (K : Type*) where
  has : I → Bool
  cell : I → K

/-- A checkpoint: header and levels, `IOManager.cpp:332-353`. -/
structure Chk (K : Type*) where
  step : ℤ
  time : K
  dt : K
  dt1 : K
  dt2 : K
  levels : List (Lvl K)

/-- `coarsen_chkpt.cpp:32-52`: the checks of `n_cell` (`n`) and `target_n_cell` (`t`); the new `n_cell`, `none` an abort. -/
def checkCells (n t : Fin 3 → ℤ) : Option (Fin 3 → ℤ) :=
  if ∃ d, ((n d).tmod 2).tmod 8 ≠ 0 then none
  else if ∃ d, (n d).tdiv 2 ≠ t d then none
  else some fun d => (n d).tdiv 2

/-- Cells of a domain that starts at zero. -/
def inDom (n : Fin 3 → ℤ) (c : I) : Bool :=
  decide (0 ≤ c.1 ∧ c.1 < n 0 ∧ 0 ≤ c.2.1 ∧ c.2.1 < n 1 ∧ 0 ≤ c.2.2 ∧ c.2.2 < n 2)

/-- `IOManager.cpp:192-220` `write_checkpoint_file`: the levels from `start` on, numbered anew; `none`: a level that does not exist. -/
def writeLevels (levels : List (Lvl K)) (start endIn : ℤ) : Option (List (Lvl K)) :=
  let finest := (levels.length : ℤ) - 1
  let e := max (if endIn = -1 then finest else endIn) start
  (List.range (e + 1 - start).toNat).mapM fun i : ℕ => levels[(start + (i : ℤ)).toNat]?

/-- `coarsen_chkpt.cpp:23-56` and `CoarsenCheckpt.cpp:19-29, 54-177, 268-278`: the levels of the file get numbers one higher, the new
level 0 covers the domain and takes means. The step of the header is read and dropped (`:103`): the one written is that of the inputs, `dt0`. -/
def coarsen (dt0 : K) (n t : Fin 3 → ℤ) (c : Chk K) : Option (Chk K) :=
  (checkCells n t).bind fun half => (c.levels[0]?).bind fun fine =>
    let levels := ⟨inDom half, avgDown 2 fine.cell⟩ :: c.levels
    (writeLevels levels 0 (min 0 ((levels.length : ℤ) - 1 - 1))).map fun out => ⟨c.step, c.time, dt0, c.dt1, c.dt2, out⟩

/-- What a level of the old mesh has at a cell. -/
def oldAt (levels : List (Lvl K)) (l : ℕ) (f : I) : Option K :=
  (levels[l]?).bind fun L => if L.has f then some (L.cell f) else none

/-- `RefineCheckpt.cpp:47` `regrid`: values of the new level `l`, those of the old one where it was, else interpolated from the new level
below. -/
def newVal (interp : (I → K) → I → K) (levels : List (Lvl K)) : ℕ → I → K
  | 0, f => (oldAt levels 0 f).getD 0
  | l + 1, f => (oldAt levels (l + 1) f).getD (interp (newVal interp levels l) f)

/-- `RefineCheckpt.cpp:9-18`: the cells of level `l` that are tagged; all of the old level, for a level that was not there all. -/
def tagged (levels : List (Lvl K)) (l : ℕ) (c : I) : Bool :=
  match levels[l]? with
  | some L => L.has c
  | none => true

/-- `RefineCheckpt.cpp:58-80`: `some none` nothing is written, `none` a level is written that does not exist. `grid l` are the cells of the
new level `l` (AMReX); the base level stays. -/
def refine (dt0 : K) (maxLevel : ℤ) (maxRefined : Option ℤ) (interp : (I → K) → I → K) (grid : ℕ → I → Bool) (c : Chk K) :
    Option (Option (Chk K)) :=
  if maxLevel - ((c.levels.length : ℤ) - 1) ≠ 1 then some none
  else
    let levels := (List.range (c.levels.length + 1)).map fun l => (⟨grid l, newVal interp c.levels l⟩ : Lvl K)
    (writeLevels levels 1 (maxRefined.getD ((levels.length : ℤ) - 1))).map fun out => some ⟨c.step, c.time, dt0, c.dt1, c.dt2, out⟩

/-! ## Comparison with a reference -/

/-- A level of a plotfile: its cells and its variables. -/
structure PLvl (K : Type*) where
  cells : List I
  val : ℕ → I → K

/-- `amrex::coarsen` of a cell. -/
def coarsenI (r : ℤ) (f : I) : I := (f.1 / r, f.2.1 / r, f.2.2 / r)

/-- `compareMultilevelToReference.cpp:129-145`: 0 below the next level, which is taken to be finer by two. -/
def mask (next : Option (PLvl K)) (c : I) : K :=
  match next with
  | some F => if c ∈ F.cells.map (coarsenI 2) then 0 else 1
  | none => 1

/-- `compareMultilevelToReference.cpp:99, 120`: the reference on a level. -/
def refOn (ref : ℕ → I → K) (ratio refRatio finest lev : ℕ) : I → K := avgDown (ratio ^ (finest - lev) * refRatio) (ref 0)

/-- `compareMultilevelToReference.cpp:150-164`: the differences of all cells, the first variable only (`:126`). -/
def diffs (ref : ℕ → I → K) (ratio refRatio : ℕ) (levels : List (PLvl K)) : List K :=
  (List.range levels.length).flatMap fun lev =>
    match levels[lev]? with
    | some L => L.cells.map fun c => mask levels[lev + 1]? c * (L.val 0 c - refOn ref ratio refRatio (levels.length - 1) lev c)
    | none => []

/-- `compareMultilevelToReference.cpp:165`: the square of `L2error`. -/
def l2sq (ds : List K) : K := (ds.map fun d => d ^ 2).sum

/-- `compareMultilevelToReference.cpp:169-171`. -/
def linf (ds : List K) : K := ds.foldl (fun m d => if |d| > m then |d| else m) 0

/-! ## Tables of numbers -/

/-- A box. -/
structure Bx where
  lo : I
  hi : I

/-- The integers from `a` to `b`. -/
def rangeZ (a b : ℤ) : List ℤ := (List.range (b + 1 - a).toNat).map fun i : ℕ => a + (i : ℤ)

/-- `PlotfileToCSV.cpp:122-144`, `CheckpointToCSV.cpp:130-152`: the rows, box after box, `x` fastest. -/
def csvRows {V : Type*} (boxes : List Bx) (data : I → V) : List (I × V) :=
  boxes.flatMap fun b => (rangeZ b.lo.2.2 b.hi.2.2).flatMap fun z => (rangeZ b.lo.2.1 b.hi.2.1).flatMap fun y =>
    (rangeZ b.lo.1 b.hi.1).map fun x => ((x, y, z), data (x, y, z))

/-- `CheckpointFileUtil.cpp:146-172` `get(0)`: the fields of all levels are read one after the other into the same array, on cells of the same
numbers; `none`: a cell the file read has no value for. -/
def chkGet {V : Type*} (files : ℕ → I → Option V) (nlevels : ℕ) (c : I) : Option V :=
  (List.range nlevels).foldl (fun _ lev => files lev c) none

/-- `CheckpointFileUtil.H:86-90`, `CheckpointFileUtil.cpp:25-34`: fields and their components. -/
def fields (extra : List String) : List (String × ℕ) :=
  [("density", 1), ("gp", 3), ("p", 1), ("velocity", 3)] ++ extra.map fun n => (n, 1)

/-- `CheckpointFileUtil.H:87-89`, `CheckpointFileUtil.cpp:28`: the names of the columns. -/
def header (extra : List String) : List String :=
  ["density", "gpx", "gpy", "gpz", "p", "velocityx", "velocityy", "velocityz"] ++ extra

/-- `CheckpointFileUtil.cpp:151-170`: the components put side by side. -/
def row {V : Type*} (extra : List String) (read : String → ℕ → V) : List V :=
  (fields extra).flatMap fun f => (List.range f.2).map fun n => read f.1 n

/-- `CheckpointFileUtil.cpp:111-123`: the size of the cells of a level; `n` the number of cells of the base level. -/
def cellSize (lo hi : K) (n : ℤ) : ℕ → K
  | 0 => (hi - lo) / n
  | l + 1 => cellSize lo hi n l

end AmrWind.Tools
