import Verif.Plane.Model

/-!
# Model of plane averages over a refined mesh: `utilities/FieldPlaneAveragingFine.cpp`

`h d` is the cell size of the finest possible level in direction `d`; a level with ratio `r d` has cells of size
`r d * h d` (exact arithmetic: the code divides the domain by the number of cells of the level). The mask of a level is
given per cell. Arrays are functions of their index.
-/

namespace AmrWind.Plane

/-- DirectionSelector.H:14-44: the two other directions. -/
def Axis.odir : Axis → Axis × Axis
  | .x => (.y, .z)
  | .y => (.x, .z)
  | .z => (.x, .y)

/-- `iv[dir] += d`. -/
def Axis.shift : Axis → Cell → ℤ → Cell
  | .x, (i, j, k), d => (i + d, j, k)
  | .y, (i, j, k), d => (i, j + d, k)
  | .z, (i, j, k), d => (i, j, k + d)

section
variable {K : Type*} [Field K] [LinearOrder K] [FloorRing K]

/-- `static_cast<int>`: rounding towards zero. -/
def truncInt (x : K) : ℤ := if 0 ≤ x then ⌊x⌋ else ⌈x⌉

/-- What the averaging object knows: axis, domain at the finest possible level (FieldPlaneAveragingFine.cpp:26-46), cell
sizes there, position of the lower end, periodicity along the axis. -/
structure FGeom (K : Type*) where
  ax : Axis
  dom : Bx
  h : Axis → K
  xlo : K
  periodic : Bool

/-- One level: refinement ratio to the finest possible level, the boxes of each rank, the mask (one where no finer level
covers the cell, 234-245), and the field. -/
structure FLevel (K : Type*) where
  r : Axis → ℕ
  boxes : ℕ → List Bx
  mask : Cell → Bool
  f : Cell → ℕ → K

/-- FieldPlaneAveragingFine.cpp:279-303 and 556-580: the line indices a cell with index `i` along the axis touches; the
tolerance is `TIGHT_TOL` for the averages of the field and zero for the horizontal speed. -/
def FGeom.lines (g : FGeom K) (dx tol : K) (i : ℤ) : List ℤ :=
  let n := ncellLine g.ax g.dom
  let cellLo := g.xlo + i * dx
  let cellHi := cellLo + dx
  irange (min (max (truncInt ((cellLo - g.xlo) / g.h g.ax)) 0) (n - 1))
    (min (max (truncInt ((cellHi - tol - g.xlo) / g.h g.ax)) 0) (n - 1))

/-- FieldPlaneAveragingFine.cpp:308-323 and 585-600: the length of the overlap of a cell with a line interval. -/
def FGeom.deltax (g : FGeom K) (dx : K) (i ind : ℤ) : K :=
  let cellLo := g.xlo + i * dx
  let cellHi := cellLo + dx
  let lineLo := g.xlo + ind * g.h g.ax
  let lineHi := lineLo + g.h g.ax
  min (if lineLo ≤ cellLo then lineHi - cellLo else if lineHi ≥ cellHi then cellHi - lineLo else g.h g.ax) dx

/-- FieldPlaneAveragingFine.cpp:214-217: one over the volume of a plane. -/
def FGeom.denom (g : FGeom K) : K :=
  (ncellLine g.ax g.dom : K) / ((g.h .x * ncellLine .x g.dom) * (g.h .y * ncellLine .y g.dom) *
    (g.h .z * ncellLine .z g.dom))

/-- FieldPlaneAveragingFine.cpp:326-367: linear interpolation from the cell and its nearer neighbour along the axis to the
centre of line interval `ind`. -/
def interpVal (g : FGeom K) (L : FLevel K) (c : Cell) (ind : ℤ) (n : ℕ) : K :=
  let dx := L.r g.ax * g.h g.ax
  let lineLo := g.xlo + ind * g.h g.ax
  let lineHi := lineLo + g.h g.ax
  let xhi := g.xlo + g.h g.ax * ncellLine g.ax g.dom
  let xTarg := 1 / 2 * (lineLo + lineHi)
  let xCell := g.xlo + (g.ax.idx c + 1 / 2) * dx
  let xUp := if g.periodic then xCell + dx else min xhi (xCell + dx)
  let xDown := if g.periodic then xCell - dx else max g.xlo (xCell - dx)
  let nb : K × Cell :=
    if |xUp - xTarg| < |xDown - xTarg| then (xUp, g.ax.shift c 1) else (xDown, g.ax.shift c (-1))
  L.f c n + (L.f nb.2 n - L.f c n) * ((xTarg - xCell) / (nb.1 - xCell))

/-- FieldPlaneAveragingFine.cpp:300-376: everything one cell adds; `val` gives the value for a line interval and
component. -/
def fineWrites (g : FGeom K) (tol : K) (ncomp : ℕ) (val : FLevel K → Cell → ℤ → ℕ → K) (L : FLevel K) (c : Cell) :
    List (ℤ × K) :=
  let dx := L.r g.ax * g.h g.ax
  let dy := L.r g.ax.odir.1 * g.h g.ax.odir.1
  let dz := L.r g.ax.odir.2 * g.h g.ax.odir.2
  (g.lines dx tol (g.ax.idx c)).flatMap fun ind => (List.range ncomp).map fun n : ℕ =>
    ((ncomp : ℤ) * ind + n, (if L.mask c then 1 else 0) * val L c ind n * (g.deltax dx (g.ax.idx c) ind * dy * dz) * g.denom)

/-- FieldPlaneAveragingFine.cpp:181-182, 224-381: one rank, all levels, all its boxes. -/
def fineRank (g : FGeom K) (tol : K) (ncomp : ℕ) (val : FLevel K → Cell → ℤ → ℕ → K) (levels : List (FLevel K))
    (p : ℕ) : ℤ → K :=
  levels.foldl (fun m L => (L.boxes p).foldl (fun m b => (visits g.ax b).foldl (fun m c =>
    (fineWrites g tol ncomp val L c).foldl (fun m w => add m w.1 w.2) m) m) m) fun _ => 0

/-- FieldPlaneAveragingFine.cpp:383-386: the sum over ranks. -/
def fineAverage (g : FGeom K) (tol : K) (ncomp : ℕ) (val : FLevel K → Cell → ℤ → ℕ → K) (levels : List (FLevel K))
    (nproc : ℕ) : ℤ → K :=
  fun i => ((List.range nproc).map fun p => fineRank g tol ncomp val levels p i).sum

end

/-- FieldPlaneAveragingFine.cpp:606-630: horizontal speed and its products with the two horizontal components, in the
order of the three arrays (which are written here as one array with three components). -/
noncomputable def speedVal (g : FGeom ℝ) (L : FLevel ℝ) (c : Cell) (_ : ℤ) (n : ℕ) : ℝ :=
  let comp : Axis → ℕ := fun a => match a with | .x => 0 | .y => 1 | .z => 2
  let u := L.f c (comp g.ax.odir.1)
  let v := L.f c (comp g.ax.odir.2)
  let s := √(u * u + v * v)
  if n = 0 then s else if n = 1 then s * u else s * v

end AmrWind.Plane
