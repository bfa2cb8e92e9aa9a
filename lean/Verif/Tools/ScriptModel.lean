import Verif.Abl.PlaneModel
import Mathlib.Algebra.BigOperators.Group.List.Basic
import Mathlib.Algebra.Field.Rat
import Mathlib.Data.Fin.VecNotation

/-!
# Scripts that make and refine boundary planes

`tools/native_boundary_plane.py`, `tools/amrex_plotfile.py`, `tools/amrex_utils.py`, used by `generate_native_boundary_plane.py` and
`refine_native_boundary_plane.py`. Boxes, faces, headers and the reading of planes by a run are those of `AmrWind.Bplane`. Not modelled:
the parsing of inputs, the text of files, more than one grid of a level (files with planes have one), fields with more than one component
(each is treated alike). A box taken from `pyamrex` is a copy. Reals are elements of a field.
-/

set_option linter.unusedSectionVars false

namespace AmrWind.Bscript

open AmrWind.Bplane

variable {K : Type*} [Field K] [LinearOrder K] [IsStrictOrderedRing K]

/-- What is read from the inputs, `native_boundary_plane.py:15-45`; `ref` are the ratios, level `l` to `l + 1`. -/
structure Inp (K : Type*) where
  plo : Fin 3 → K
  phi : Fin 3 → K
  ncell : Fin 3 → ℤ
  ref : List ℕ

/-- `native_boundary_plane.py:38-45`: the ratios given, or two for each level when none are given. -/
def refOf (given : List ℕ) (nlevels : ℕ) : List ℕ := if given = [] then List.replicate (nlevels - 1) 2 else given

/-- `native_boundary_plane.py:46-51`: sizes of cells of a level; `none` when no ratio is given for it. -/
def cellSizes (p : Inp K) (l : ℕ) (d : Fin 3) : Option K :=
  let cs := (p.phi d - p.plo d) / (p.ncell d : K)
  if 0 < l then (p.ref[l - 1]?).map fun r : ℕ => cs / (r : K) ^ l else some cs

/-- `native_boundary_plane.py:55-68` `adjust_plane`: bounds and cells with two layers at the face. -/
def adjust (p : Inp K) (f : Face) : Inp K :=
  let dx := (p.phi f.dir - p.plo f.dir) / (p.ncell f.dir : K)
  { p with
    ncell := Function.update p.ncell f.dir 2
    plo := Function.update p.plo f.dir (if f.high then p.phi f.dir - dx else p.plo f.dir - dx)
    phi := Function.update p.phi f.dir (if f.high then p.phi f.dir + dx else p.plo f.dir + dx) }

/-- `native_boundary_plane.py:87-91`: the box of level 0. -/
def firstBox (n : Fin 3 → ℤ) (f : Face) : Box :=
  ⟨Function.update (fun _ => 0) f.dir (if f.high then n f.dir - 1 else -1),
   Function.update (fun d => n d - 1) f.dir (if f.high then n f.dir - 1 + 1 else 0)⟩

/-- `native_boundary_plane.py:97-106`: the box of the next level, finer by `r`. -/
def nextBox (f : Face) (r : ℕ) (b : Box) : Box :=
  let small : Cell := fun d => if d = f.dir then (if f.high then b.lo d * r + 1 else b.lo d) else b.lo d * r
  ⟨small, fun d => if d = f.dir then (if f.high then small d + 1 else b.hi d) else (b.hi d + 1) * r - 1⟩

/-- `native_boundary_plane.py:95-109`: the boxes of the levels. -/
def boxes (n : Fin 3 → ℤ) (f : Face) (ref : List ℕ) : ℕ → Option Box
  | 0 => some (firstBox n f)
  | l + 1 => (boxes n f ref l).bind fun b => (ref[l]?).map fun r => nextBox f r b

/-- `native_boundary_plane.py:118-135`: bounds of the grid of a level. -/
def gridBounds (p : Inp K) (f : Face) (l : ℕ) (d : Fin 3) : Option (K × K) :=
  let q := adjust p f
  if d = f.dir then (cellSizes p l d).map fun h => ((q.plo d + q.phi d) / 2 - h, (q.plo d + q.phi d) / 2 + h)
  else some (q.plo d, q.phi d)

/-- `amrex_plotfile.py:234-243`, cell sizes in the file, from the bounds and the box of level 0. -/
def fileSizes (p : Inp K) (f : Face) (l : ℕ) (d : Fin 3) : Option K :=
  let q := adjust p f
  let b := firstBox p.ncell f
  let cs := (q.phi d - q.plo d) / ((b.hi d - b.lo d + 1 : ℤ) : K)
  if 0 < l then (p.ref[l - 1]?).map fun r : ℕ => cs / (r : K) ^ l else some cs

/-- `np.linspace(a, b, n)[i]`. -/
def linspace (a b : K) (n : ℤ) (i : ℤ) : K := if n = 1 then a else a + (i : K) * ((b - a) / ((n - 1 : ℤ) : K))

/-- `amrex_plotfile.py:264-273` `coordinates`, in one direction. -/
def coord (lohi : K × K) (dx : K) (n : ℤ) (i : ℤ) : K := linspace (lohi.1 + 1 / 2 * dx) (lohi.2 - 1 / 2 * dx) n i

/-- The place given to a cell of the grid of a level. -/
def place (p : Inp K) (f : Face) (l : ℕ) (c : Cell) (d : Fin 3) : Option K :=
  (boxes p.ncell f p.ref l).bind fun b => (gridBounds p f l d).bind fun g => (fileSizes p f l d).map fun h =>
    coord g h (b.hi d - b.lo d + 1) (c d - b.lo d)

/-- `amrex_plotfile.py:250-262` `evaluate`: the values of the cells of a level. -/
def evaluate (p : Inp K) (f : Face) (l : ℕ) (u : K → K → K → K) (c : Cell) : Option K :=
  (place p f l c 0).bind fun x => (place p f l c 1).bind fun y => (place p f l c 2).map fun z => u x y z

/-! ## Refinement of planes -/

/-- A plane in a file: cell sizes, bounds and boxes of the levels, bounds of the grids, values. -/
structure Level (K : Type*) where
  dx : Fin 3 → K
  dom : Box
  grid : Box
  glo : Fin 3 → K
  ghi : Fin 3 → K
  val : Cell → K

structure Plt (K : Type*) where
  plo : Fin 3 → K
  phi : Fin 3 → K
  levels : List (Level K)

/-- `native_boundary_plane.py:237-242`, and `BoxArray::refine` with ratio one across the face, 252-255. -/
def refineBox (f : Face) (k : ℕ) (b : Box) : Box :=
  ⟨fun d => if d = f.dir then b.lo d else b.lo d * k, fun d => if d = f.dir then b.hi d else (b.hi d + 1) * k - 1⟩

/-- One direction of `RegularGridInterpolator` with `fill_value=None`: `n` points `xs`, the interval `x` lies in or the nearest one. -/
def interval (xs : ℕ → K) (n : ℕ) (x : K) : ℕ := ((List.range (n - 2)).filter fun i => decide (xs (i + 1) ≤ x)).length

/-- Linear interpolation in one direction. -/
def lin (xs : ℕ → K) (n : ℕ) (v : ℕ → K) (x : K) : K :=
  let i := interval xs n x
  let t := (x - xs i) / (xs (i + 1) - xs i)
  v i * (1 - t) + v (i + 1) * t

/-- Coordinates of the cells of a level, `amrex_plotfile.py:264-273`. -/
def Level.x (L : Level K) (d : Fin 3) (i : ℤ) : K := coord (L.glo d, L.ghi d) (L.dx d) (L.grid.hi d - L.grid.lo d + 1) i

/-- Cells along a direction. -/
def Level.n (L : Level K) (d : Fin 3) : ℕ := (L.grid.hi d - L.grid.lo d + 1).toNat

/-- `RegularGridInterpolator` in three directions on the values of a level. -/
def Level.interp (L : Level K) (q : Fin 3 → K) : K :=
  lin (fun i : ℕ => L.x 0 i) (L.n 0) (fun i => lin (fun j : ℕ => L.x 1 j) (L.n 1) (fun j => lin (fun k : ℕ => L.x 2 k) (L.n 2) (fun k =>
    L.val ![L.grid.lo 0 + (i : ℤ), L.grid.lo 1 + (j : ℤ), L.grid.lo 2 + (k : ℤ)]) (q 2)) (q 1)) (q 0)

/-- `native_boundary_plane.py:221-260` `refine` for one level, then `amrex_utils.py:60-82` `interpolate`. -/
def refineLevel (f : Face) (k : ℕ) (L : Level K) : Level K :=
  let dx : Fin 3 → K := fun d => L.dx d / (k : K)
  let mid := (L.ghi f.dir + L.glo f.dir) / 2
  let M : Level K := {
    dx := dx
    dom := refineBox f k L.dom
    grid := refineBox f k L.grid
    glo := Function.update L.glo f.dir (mid - dx f.dir)
    ghi := Function.update L.ghi f.dir (mid + dx f.dir)
    val := fun _ => 0 }
  { M with val := fun c => L.interp fun d => M.x d (c d - M.grid.lo d) }

/-- `native_boundary_plane.py:221-260` `refine`. -/
def refine (f : Face) (k : ℕ) (p : Plt K) : Plt K :=
  let mid := (p.phi f.dir + p.plo f.dir) / 2
  let dx0 := match p.levels with
    | [] => 0
    | L :: _ => L.dx f.dir / (k : K)
  ⟨Function.update p.plo f.dir (mid - dx0), Function.update p.phi f.dir (mid + dx0), p.levels.map (refineLevel f k)⟩

/-- The part of a plane in a file that a run checks. -/
def Plt.header (p : Plt K) (ncomp : ℕ) : Header K := ⟨ncomp, p.plo, p.phi, p.levels.map fun L => L.dom⟩

end AmrWind.Bscript
