import Mathlib.Algebra.Order.Floor.Ring
import Mathlib.Algebra.BigOperators.Group.List.Basic
import Mathlib.Data.Real.Sqrt

/-!
# Model of plane averages and moments: `utilities/FieldPlaneAveraging.cpp`, `SecondMomentAveraging.cpp`,
`ThirdMomentAveraging.cpp`, `DirectionSelector.H`, and `utilities/index_operations.H` (`closest_index`)

A level is a list of ranks, each with a list of (tile) boxes. `amrex::Real` is an ordered field (ℝ for the horizontal
speed). An array is a function of its index; that every index used is within the array is a theorem. `none` is a
failed assertion or a read outside an array.
-/

namespace AmrWind.Plane

/-- A cell. -/
abbrev Cell := ℤ × ℤ × ℤ

/-- `XDir`, `YDir`, `ZDir` (DirectionSelector.H:46-48). -/
inductive Axis where
  | x | y | z
deriving DecidableEq

/-- DirectionSelector.H:14-44: `idxOp(i, j, k)`. -/
def Axis.idx : Axis → Cell → ℤ
  | .x, (i, _, _) => i
  | .y, (_, j, _) => j
  | .z, (_, _, k) => k

/-- `amrex::Box`, cell centred, bounds inclusive. -/
structure Bx where
  lo : Cell
  hi : Cell

/-- `lo, lo+1, …, hi` (empty if `hi < lo`). -/
def irange (lo hi : ℤ) : List ℤ := (List.range (hi - lo + 1).toNat).map fun n : ℕ => lo + (n : ℤ)

/-- The loops over a box, e.g. FieldPlaneAveraging.cpp:292-294: k outermost. -/
def cells (b : Bx) : List Cell :=
  (irange b.lo.2.2 b.hi.2.2).flatMap fun k => (irange b.lo.2.1 b.hi.2.1).flatMap fun j =>
    (irange b.lo.1 b.hi.1).map fun i => (i, j, k)

/-- DirectionSelector.H:53-74 `perpendicular_box`. -/
def perpBox (ax : Axis) (b : Bx) (iv : Cell) : Bx :=
  match ax with
  | .x => ⟨(iv.1, b.lo.2.1, b.lo.2.2), (iv.1, b.hi.2.1, b.hi.2.2)⟩
  | .y => ⟨(b.lo.1, iv.2.1, b.lo.2.2), (b.hi.1, iv.2.1, b.hi.2.2)⟩
  | .z => ⟨(b.lo.1, b.lo.2.1, iv.2.2), (b.hi.1, b.hi.2.1, iv.2.2)⟩

/-- DirectionSelector.H:80-101 `parallel_box`. -/
def parBox (ax : Axis) (b : Bx) (iv : Cell) : Bx :=
  match ax with
  | .x => ⟨(b.lo.1, iv.2.1, iv.2.2), (b.hi.1, iv.2.1, iv.2.2)⟩
  | .y => ⟨(iv.1, b.lo.2.1, iv.2.2), (iv.1, b.hi.2.1, iv.2.2)⟩
  | .z => ⟨(iv.1, iv.2.1, b.lo.2.2), (iv.1, iv.2.1, b.hi.2.2)⟩

/-- FieldPlaneAveraging.cpp:276-310: the cells of a box in the order they are visited: one line along the axis for each
point of the perpendicular box. -/
def visits (ax : Axis) (b : Bx) : List Cell :=
  (cells (perpBox ax b (0, 0, 0))).flatMap fun p => cells (parBox ax b p)

section accum
variable {K : Type*} [Field K]

/-- `line_avg[i] += v` (`deviceReduceSum`). -/
def add (m : ℤ → K) (i : ℤ) (v : K) : ℤ → K := Function.update m i (m i + v)

/-- The inner loop of one cell: value number `n` of the list is added at `stride * ind + n`
(FieldPlaneAveraging.cpp:296-302, SecondMomentAveraging.cpp:170-188, ThirdMomentAveraging.cpp:199-224). -/
def addCell (ax : Axis) (stride : ℕ) (vals : Cell → List K) (m : ℤ → K) (c : Cell) : ℤ → K :=
  (vals c).zipIdx.foldl (fun m p => add m (stride * ax.idx c + p.2) p.1) m

/-- All boxes of one rank, from zero (FieldPlaneAveraging.cpp:229 and 267-310). -/
def rankSum (ax : Axis) (stride : ℕ) (vals : Cell → List K) (boxes : List Bx) : ℤ → K :=
  boxes.foldl (fun m b => (visits ax b).foldl (addCell ax stride vals) m) fun _ => 0

/-- All ranks (`ReduceRealSum`, FieldPlaneAveraging.cpp:312-314). -/
def accum (ax : Axis) (stride : ℕ) (vals : Cell → List K) (ranks : List (List Bx)) : ℤ → K :=
  fun i => (ranks.map fun bs => rankSum ax stride vals bs i).sum

/-- FieldPlaneAveraging.cpp:36-42: cells in a plane of the domain. -/
def ncellPlane (ax : Axis) (dom : Bx) : ℤ :=
  match ax with
  | .x => (dom.hi.2.1 - dom.lo.2.1 + 1) * (dom.hi.2.2 - dom.lo.2.2 + 1)
  | .y => (dom.hi.1 - dom.lo.1 + 1) * (dom.hi.2.2 - dom.lo.2.2 + 1)
  | .z => (dom.hi.1 - dom.lo.1 + 1) * (dom.hi.2.1 - dom.lo.2.1 + 1)

/-- FieldPlaneAveraging.cpp:34: cells along the axis. -/
def ncellLine (ax : Axis) (dom : Bx) : ℤ := ax.idx dom.hi - ax.idx dom.lo + 1

/-- FieldPlaneAveraging.cpp:249-318 `compute_averages`: `f c n` is component `n` of the field in cell `c`. -/
def lineAverage (ax : Axis) (dom : Bx) (ncomp : ℕ) (f : Cell → ℕ → K) (ranks : List (List Bx)) : ℤ → K :=
  accum ax ncomp (fun c => (List.range ncomp).map fun n => f c n * (1 / (ncellPlane ax dom : K))) ranks

/-- SecondMomentAveraging.cpp:121-203 `compute_average`: products of fluctuations about the given line averages. -/
def secondMoments (ax : Axis) (dom : Bx) (n1 n2 : ℕ) (f1 f2 : Cell → ℕ → K) (avg1 avg2 : ℤ → K)
    (ranks : List (List Bx)) : ℤ → K :=
  accum ax (n1 * n2) (fun c => (List.range n1).flatMap fun m => (List.range n2).map fun n =>
    (f1 c m - avg1 (n1 * ax.idx c + m)) * (f2 c n - avg2 (n2 * ax.idx c + n)) * (1 / (ncellPlane ax dom : K))) ranks

/-- ThirdMomentAveraging.cpp:142-237 `compute_average`. -/
def thirdMoments (ax : Axis) (dom : Bx) (n1 n2 n3 : ℕ) (f1 f2 f3 : Cell → ℕ → K) (avg1 avg2 avg3 : ℤ → K)
    (ranks : List (List Bx)) : ℤ → K :=
  accum ax (n1 * n2 * n3) (fun c => (List.range n1).flatMap fun m => (List.range n2).flatMap fun n =>
    (List.range n3).map fun p =>
    (f1 c m - avg1 (n1 * ax.idx c + m)) * (f2 c n - avg2 (n2 * ax.idx c + n)) * (f3 c p - avg3 (n3 * ax.idx c + p)) *
      (1 / (ncellPlane ax dom : K))) ranks

end accum

/-- FieldPlaneAveraging.cpp:356-425 `compute_hvelmag_averages` with the components 336-344: averages of the horizontal
speed. -/
noncomputable def hvelmagAverage (ax : Axis) (dom : Bx) (f : Cell → ℕ → ℝ) (ranks : List (List Bx)) : ℤ → ℝ :=
  let h : ℕ × ℕ := match ax with | .x => (1, 2) | .y => (0, 2) | .z => (0, 1)
  accum ax 1 (fun c => [√(f c h.1 * f c h.1 + f c h.2 * f c h.2) * (1 / (ncellPlane ax dom : ℝ))]) ranks

/-! ## Accessors -/

section access
variable {K : Type*} [Field K] [LinearOrder K] [FloorRing K]

/-- The state of a plane averaging object after an update. -/
structure Line (K : Type*) where
  ncomp : ℕ
  ncell : ℤ
  xlo : K
  dx : K
  avg : ℤ → K

/-- FieldPlaneAveraging.cpp:148-157 `line_average_cell`. -/
def Line.cell (l : Line K) (ind comp : ℤ) : Option K :=
  if 0 ≤ comp ∧ comp < l.ncomp ∧ 0 ≤ ind ∧ ind < l.ncell then some (l.avg (l.ncomp * ind + comp)) else none

/-- FieldPlaneAveraging.cpp:114-128: index and weight of a position. -/
def Line.locate (l : Line K) (x : K) : Option (ℤ × K) :=
  let p : ℤ × K := if l.xlo + 1 / 2 * l.dx < x then
      let ind : ℤ := ⌊(x - l.xlo) / l.dx - 1 / 2⌋
      (ind, (x - (l.xlo + (ind + 1 / 2) * l.dx)) / l.dx)
    else (0, 0)
  let p : ℤ × K := if l.ncell ≤ p.1 + 1 then (l.ncell - 2, 1) else p
  if 0 ≤ p.1 ∧ p.1 + 1 < l.ncell then some p else none

/-- FieldPlaneAveraging.cpp:105-132 `line_average_interpolated`. -/
def Line.interp (l : Line K) (x : K) (comp : ℤ) : Option K :=
  if 0 ≤ comp ∧ comp < l.ncomp then
    (l.locate x).map fun p => l.avg (l.ncomp * p.1 + comp) * (1 - p.2) + l.avg (l.ncomp * (p.1 + 1) + comp) * p.2
  else none

/-- FieldPlaneAveraging.cpp:172-200 `line_derivative_of_average_cell`; a read past the end of the array is `none`. -/
def Line.deriv (l : Line K) (ind comp : ℤ) : Option K :=
  if 0 ≤ comp ∧ comp < l.ncomp ∧ 0 ≤ ind ∧ ind < l.ncell then
    if ind = 0 then
      if ind + 1 < l.ncell then
        some ((l.avg (l.ncomp * (ind + 1) + comp) - l.avg (l.ncomp * ind + comp)) / l.dx)
      else none
    else if ind = l.ncell - 1 then
      some ((l.avg (l.ncomp * ind + comp) - l.avg (l.ncomp * (ind - 1) + comp)) / l.dx)
    else some (1 / 2 * (l.avg (l.ncomp * (ind + 1) + comp) - l.avg (l.ncomp * (ind - 1) + comp)) / l.dx)
  else none

/-- A velocity averaging object: the base class and the averages of the horizontal speed. -/
structure VelLine (K : Type*) extends Line K where
  hvelmag : ℤ → K

/-- FieldPlaneAveraging.cpp:487-494 `line_hvelmag_average_cell`. -/
def VelLine.hvelmagCell (l : VelLine K) (ind : ℤ) : Option K :=
  if 0 ≤ ind ∧ ind < l.ncell then some (l.avg ind) else none

/-- FieldPlaneAveraging.cpp:460-485 `line_hvelmag_average_interpolated`. -/
def VelLine.hvelmagInterp (l : VelLine K) (x : K) : Option K :=
  (l.locate x).map fun p => l.hvelmag p.1 * (1 - p.2) + l.hvelmag (p.1 + 1) * p.2

/-- SecondMomentAveraging.cpp:257-265 `line_average_cell(ind, comp)`; `moments` is the array, `nm` the number of
moments. -/
def moment2Cell (moments : ℤ → K) (ncell : ℤ) (nm : ℕ) (ind comp : ℤ) : Option K :=
  if 0 ≤ comp ∧ comp < nm ∧ 0 ≤ ind ∧ ind + 1 < ncell then some (moments (nm * ind + comp)) else none

/-- SecondMomentAveraging.cpp:267-277 `line_average_cell(ind, comp1, comp2)`. -/
def moment2CellPair (moments : ℤ → K) (ncell : ℤ) (n1 n2 : ℕ) (ind c1 c2 : ℤ) : Option K :=
  if 0 ≤ c1 ∧ c1 < n1 ∧ 0 ≤ c2 ∧ c2 < n2 then moment2Cell moments ncell (n1 * n2) ind (n1 * c1 + c2) else none

/-- ThirdMomentAveraging.cpp:287-311 `line_average_cell` with three components. -/
def moment3CellTriple (moments : ℤ → K) (ncell : ℤ) (n1 n2 n3 : ℕ) (ind c1 c2 c3 : ℤ) : Option K :=
  if 0 ≤ c1 ∧ c1 < n1 ∧ 0 ≤ c2 ∧ c2 < n2 ∧ 0 ≤ c3 ∧ c3 < n3 then
    moment2Cell moments ncell (n1 * n2 * n3) ind (n1 * n2 * c1 + n2 * c2 + c3)
  else none

/-- index_operations.H:17-31 `closest_index`. `upper_bound` in a sorted vector is the first element greater than the
value; its position is the size if there is none. -/
def closestIndex (v : List K) (value tol : K) : Option ℕ :=
  let it := v.findIdx (fun y => decide (value < y))
  let it := if it = v.length then v.findIdx (fun y => decide (value - tol < y)) else it
  if it = v.length then none else some (it - 1)

end access

end AmrWind.Plane
