import Verif.Plane.Model

/-!
# Model of recorded inflow planes: `wind_energy/ABLBoundaryPlane.cpp`, `ABLFillInflow.cpp`

Modelled: which steps are recorded (638-640), the value recorded for a cell of the plane in both formats (177-229 native,
1521-1547 NetCDF), the layout of the NetCDF variable when written (1430-1544) and read (105-149), the reading and
interpolation in time (85-92, 171-200, 256-280, 1155-1290) with its state, and the checks before the data are used
(1295-1332).  Not modelled: file formats, box arrays and headers of the native format, `erf-multiblock`, the fill of the
ghost cells before the planes are recorded.
-/

set_option linter.unusedSectionVars false

namespace AmrWind.Bndry

open Plane

section time
variable {K : Type*} [Field K] [LinearOrder K]

/-- The planes read: the times of the records and the value of one component in one cell of a plane in each record. -/
structure File (K : Type*) where
  times : List K
  value : ℕ → K

/-- ABLBoundaryPlane.H:90-102: the two planes held, their times and the result of the last interpolation. -/
structure St (K : Type*) where
  tn : K
  tnp1 : K
  tinterp : K
  n : K
  np1 : K
  interp : K

/-- ABLBoundaryPlane.H:96-102: initial times; the data are arbitrary. -/
def St.init (a b c : K) : St K := ⟨-1, -1, -1, a, b, c⟩

/-- AMReX `FArrayBox::linInterp` for two different times. -/
def lin (t1 t2 v1 v2 t : K) : K := (t2 - t) / (t2 - t1) * v1 + (t - t1) / (t2 - t1) * v2

/-- ABLBoundaryPlane.cpp:258-280 `InletData::interpolate`. -/
def St.interpolate (s : St K) (time : K) : St K :=
  { s with tinterp := time, interp := lin s.tn s.tnp1 s.n s.np1 time }

/-- ABLBoundaryPlane.cpp:1149-1290 `read_file` at the target time; `none` is an abort or a read behind the end of the
record times. -/
def readFile (f : File K) (tol : K) (s : St K) (time : K) : Option (St K) :=
  match f.times.head?, f.times.getLast? with
  | some t0, some tl =>
    if ¬ t0 ≤ time + tol ∨ ¬ time < tl + tol then none
    else if s.tn ≤ time ∧ time < s.tnp1 then some (s.interpolate time)
    else
      match closestIndex f.times time tol with
      | none => none
      | some idx =>
        match f.times[idx]?, f.times[idx + 1]? with
        | some t1, some t2 =>
          if ¬ t1 ≤ time + tol ∨ ¬ time ≤ t2 + tol then none
          else some (({ s with tn := t1, tnp1 := t2, n := f.value idx, np1 := f.value (idx + 1) } : St K).interpolate time)
        | _, _ => none
  | _, _ => none

/-- ABLBoundaryPlane.cpp:1307-1343: the value a boundary cell takes; `none` is an abort.  The first check needs both of its
conditions to fail. -/
def populate (tol : K) (s : St K) (time : K) : Option K :=
  if ¬ s.tn ≤ time + tol ∧ ¬ time ≤ s.tnp1 + tol then none
  else if ¬ |time - s.tinterp| < tol then none
  else some s.interp

/-- ABLBoundaryPlane.cpp:632-642 with 726-729: the record times after the given steps (index and time); `freq = 0` divides
by zero. -/
def recorded (freq : ℤ) (start tol : K) (steps : List (ℤ × K)) : Option (List K) :=
  if freq = 0 then none
  else some ((steps.filter fun s => decide (Int.tmod s.1 freq = 0) && decide (¬ s.2 < start - tol)).map Prod.snd)

end time

section space
variable {K : Type*} [Field K]

inductive Side | low | high
  deriving DecidableEq, Repr

/-- ABLBoundaryPlane.cpp:19-28 `offset`, along the normal. -/
def offset : Side → ℤ
  | .low => 1
  | .high => -1

/-- ABLBoundaryPlane.cpp:903-907 and 204-212 (native): `f` is the field along the normal, `nn` the number of cells; the
plane lies at `-1` or `nn`. -/
def nativeFace (f : ℤ → K) (nn : ℤ) (s : Side) : K :=
  let i := match s with | .low => -1 | .high => nn;
  1 / 2 * (f i + f (i + offset s))

/-- ABLBoundaryPlane.cpp:1477-1478 and 1504-1506 with 1541-1544 (NetCDF). -/
def netcdfFace (f : ℤ → K) (nn : ℤ) (s : Side) : K :=
  let i := match s with | .low => 0 | .high => nn;
  1 / 2 * (f i + f (i - offset s))

/-- The part of a box in the two directions of the plane. -/
structure Patch where
  lo0 : ℤ
  hi0 : ℤ
  lo1 : ℤ
  hi1 : ℤ

/-- Assignments in order. -/
def assign {α β : Type*} [DecidableEq α] (l : List (α × β)) (m : α → Option β) : α → Option β :=
  l.foldl (fun m w => Function.update m w.1 (some w.2)) m

/-- ABLBoundaryPlane.cpp:1451-1456: `min_lo`, the least corner of the patches on the boundary, from the largest integer. -/
def minLo (big : ℤ) (ps : List Patch) : ℤ × ℤ :=
  (ps.foldl (fun m p => min m p.lo0) big, ps.foldl (fun m p => min m p.lo1) big)

/-- ABLBoundaryPlane.cpp:1536-1544 `impl_buffer_field`. -/
def bufferOf (p : Patch) (nc : ℕ) (v : ℤ → ℤ → ℕ → K) : ℤ → Option K :=
  assign ((irange p.lo0 p.hi0).flatMap fun i => (irange p.lo1 p.hi1).flatMap fun j => (List.range nc).map fun n : ℕ =>
    (((i - p.lo0) * (p.hi1 - p.lo1 + 1) + (j - p.lo1)) * nc + n, v i j n)) fun _ => none

/-- NetCDF `put` of a block at `start` (row major), here of one record. -/
def putBlock (file : ℤ × ℤ × ℕ → Option K) (buf : ℤ → Option K) (s0 s1 c0 c1 : ℤ) (nc : ℕ) : ℤ × ℤ × ℕ → Option K :=
  fun q => if s0 ≤ q.1 ∧ q.1 < s0 + c0 ∧ s1 ≤ q.2.1 ∧ q.2.1 < s1 + c1 ∧ q.2.2 < nc then
    buf (((q.1 - s0) * c1 + (q.2.1 - s1)) * nc + q.2.2) else file q

/-- ABLBoundaryPlane.cpp:1458-1524 `write_data`: the patches on the boundary, each at its corner less `min_lo`. -/
def writeData (big : ℤ) (ps : List Patch) (nc : ℕ) (v : ℤ → ℤ → ℕ → K) : ℤ × ℤ × ℕ → Option K :=
  ps.foldl (fun file p => putBlock file (bufferOf p nc v) (p.lo0 - (minLo big ps).1) (p.lo1 - (minLo big ps).2)
    (p.hi0 - p.lo0 + 1) (p.hi1 - p.lo1 + 1) nc) fun _ => none

/-- ABLBoundaryPlane.cpp:110-131 `read_data`: the block of the size of the plane of the level, from position zero; `b` is
the part of the smallest box around the level in the plane, and the value is that of cell `(i, j)`. -/
def readData (file : ℤ × ℤ × ℕ → Option K) (b : Patch) (i j : ℤ) (n : ℕ) : Option K :=
  file (i - b.lo0, j - b.lo1, n)

end space

end AmrWind.Bndry
