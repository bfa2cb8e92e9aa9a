import Verif.Vof.Intercept
import Mathlib.Algebra.BigOperators.Intervals
import Mathlib.Algebra.BigOperators.Group.Finset.Sigma
import Mathlib.Data.Int.Interval

/-!
# Model of the split advection: `equation_systems/vof/SplitAdvection.cpp`, `split_advection.H`, `vof_advection.H`

One level. A field is a function on all cells, ghost cells included; faces carry the index of the cell to their
right. `none` is a NaN.
-/

namespace AmrWind.Vof

/-- A cell (or a face in one direction). -/
abbrev Cell := ℤ × ℤ × ℤ

/-- The direction of a sweep: x, y, z. -/
inductive Dir where
  | x | y | z
deriving DecidableEq

/-- The cell `n` further in direction `d`. -/
def Dir.move : Dir → ℤ → Cell → Cell
  | .x, n, (i, j, k) => (i + n, j, k)
  | .y, n, (i, j, k) => (i, j + n, k)
  | .z, n, (i, j, k) => (i, j, k + n)

/-- The index in direction `d`. -/
def Dir.idx : Dir → Cell → ℤ
  | .x, (i, _, _) => i
  | .y, (_, j, _) => j
  | .z, (_, _, k) => k

/-! ## Normals -/

section normals
variable {K : Type*} [Field K] [LinearOrder K]

/-- volume_fractions.H:24-70 `youngs_finite_difference_normal`. -/
def youngs (c : Cell → K) : Cell → K × K × K
  | (i, j, k) =>
    let mm1 := c (i - 1, j - 1, k - 1) + c (i - 1, j - 1, k + 1) + c (i - 1, j + 1, k - 1) + c (i - 1, j + 1, k + 1) +
      2 * (c (i - 1, j - 1, k) + c (i - 1, j + 1, k) + c (i - 1, j, k - 1) + c (i - 1, j, k + 1)) + 4 * c (i - 1, j, k)
    let mm2 := c (i + 1, j - 1, k - 1) + c (i + 1, j - 1, k + 1) + c (i + 1, j + 1, k - 1) + c (i + 1, j + 1, k + 1) +
      2 * (c (i + 1, j - 1, k) + c (i + 1, j + 1, k) + c (i + 1, j, k - 1) + c (i + 1, j, k + 1)) + 4 * c (i + 1, j, k)
    let mx := mm1 - mm2
    let mm1 := c (i - 1, j - 1, k - 1) + c (i - 1, j - 1, k + 1) + c (i + 1, j - 1, k - 1) + c (i + 1, j - 1, k + 1) +
      2 * (c (i - 1, j - 1, k) + c (i + 1, j - 1, k) + c (i, j - 1, k - 1) + c (i, j - 1, k + 1)) + 4 * c (i, j - 1, k)
    let mm2 := c (i - 1, j + 1, k - 1) + c (i - 1, j + 1, k + 1) + c (i + 1, j + 1, k - 1) + c (i + 1, j + 1, k + 1) +
      2 * (c (i - 1, j + 1, k) + c (i + 1, j + 1, k) + c (i, j + 1, k - 1) + c (i, j + 1, k + 1)) + 4 * c (i, j + 1, k)
    let my := mm1 - mm2
    let mm1 := c (i - 1, j - 1, k - 1) + c (i - 1, j + 1, k - 1) + c (i + 1, j - 1, k - 1) + c (i + 1, j + 1, k - 1) +
      2 * (c (i - 1, j, k - 1) + c (i + 1, j, k - 1) + c (i, j - 1, k - 1) + c (i, j + 1, k - 1)) + 4 * c (i, j, k - 1)
    let mm2 := c (i - 1, j - 1, k + 1) + c (i - 1, j + 1, k + 1) + c (i + 1, j - 1, k + 1) + c (i + 1, j + 1, k + 1) +
      2 * (c (i - 1, j, k + 1) + c (i + 1, j, k + 1) + c (i, j - 1, k + 1) + c (i, j + 1, k + 1)) + 4 * c (i, j, k + 1)
    let mz := mm1 - mm2
    (mx, my, mz)

/-- volume_fractions.H:211-227: divide by the sum of the magnitudes (and the epsilon in the fourth set, 247-252). -/
def normalise (tiny : K) (m : K × K × K) : K × K × K :=
  let t0 := |m.1| + |m.2.1| + |m.2.2| + tiny
  (m.1 / t0, m.2.1 / t0, m.2.2 / t0)

/-- volume_fractions.H:140-161: the plane written for X. -/
def centralX (c : Cell → K) : Cell → K × K × K
  | (i, j, k) =>
    let m1 := c (i - 1, j, k - 1) + c (i - 1, j, k + 1) + c (i - 1, j - 1, k) + c (i - 1, j + 1, k) + c (i - 1, j, k)
    let m2 := c (i + 1, j, k - 1) + c (i + 1, j, k + 1) + c (i + 1, j - 1, k) + c (i + 1, j + 1, k) + c (i + 1, j, k)
    let m00 : K := if m2 < m1 then 1 else -1
    let m1 := c (i - 1, j - 1, k) + c (i + 1, j - 1, k) + c (i, j - 1, k)
    let m2 := c (i - 1, j + 1, k) + c (i + 1, j + 1, k) + c (i, j + 1, k)
    let m01 := 1 / 2 * (m1 - m2)
    let m1 := c (i - 1, j, k - 1) + c (i + 1, j, k - 1) + c (i, j, k - 1)
    let m2 := c (i - 1, j, k + 1) + c (i + 1, j, k + 1) + c (i, j, k + 1)
    let m02 := 1 / 2 * (m1 - m2)
    (m00, m01, m02)

/-- volume_fractions.H:163-185: the plane written for Y. -/
def centralY (c : Cell → K) : Cell → K × K × K
  | (i, j, k) =>
    let m1 := c (i - 1, j - 1, k) + c (i - 1, j + 1, k) + c (i - 1, j, k)
    let m2 := c (i + 1, j - 1, k) + c (i + 1, j + 1, k) + c (i + 1, j, k)
    let m10 := 1 / 2 * (m1 - m2)
    let m1 := c (i, j - 1, k - 1) + c (i, j - 1, k + 1) + c (i + 1, j - 1, k) + c (i - 1, j - 1, k) + c (i, j - 1, k)
    let m2 := c (i, j + 1, k - 1) + c (i, j + 1, k + 1) + c (i + 1, j + 1, k) + c (i - 1, j + 1, k) + c (i, j + 1, k)
    let m11 : K := if m2 < m1 then 1 else -1
    let m1 := c (i, j - 1, k - 1) + c (i, j, k - 1) + c (i, j + 1, k - 1)
    let m2 := c (i, j - 1, k + 1) + c (i, j, k + 1) + c (i, j + 1, k + 1)
    let m12 := 1 / 2 * (m1 - m2)
    (m10, m11, m12)

/-- volume_fractions.H:187-209: the plane written for Z. -/
def centralZ (c : Cell → K) : Cell → K × K × K
  | (i, j, k) =>
    let m1 := c (i - 1, j, k - 1) + c (i - 1, j, k + 1) + c (i - 1, j, k)
    let m2 := c (i + 1, j, k - 1) + c (i + 1, j, k + 1) + c (i + 1, j, k)
    let m20 := 1 / 2 * (m1 - m2)
    let m1 := c (i, j - 1, k - 1) + c (i, j - 1, k + 1) + c (i, j - 1, k)
    let m2 := c (i, j + 1, k - 1) + c (i, j + 1, k + 1) + c (i, j + 1, k)
    let m21 := 1 / 2 * (m1 - m2)
    let m1 := c (i - 1, j, k - 1) + c (i + 1, j, k - 1) + c (i, j - 1, k - 1) + c (i, j + 1, k - 1) + c (i, j, k - 1)
    let m2 := c (i - 1, j, k + 1) + c (i + 1, j, k + 1) + c (i, j - 1, k + 1) + c (i, j + 1, k + 1) + c (i, j, k + 1)
    let m22 : K := if m2 < m1 then 1 else -1
    (m20, m21, m22)

/-- volume_fractions.H:130-270 `mixed_youngs_central_normal`. -/
def mixedYoungs (tiny : K) (c : Cell → K) (a : Cell) : K × K × K :=
  let mX := normalise 0 (centralX c a)
  let mY := normalise 0 (centralY c a)
  let mZ := normalise 0 (centralZ c a)
  -- choose among the three central schemes
  let t0 := |mX.1|
  let t1 := |mY.2.1|
  let t2 := |mZ.2.2|
  let cY := t0 < t1
  let t0 := if t0 < t1 then t1 else t0
  let central : K × K × K := if t0 < t2 then mZ else if cY then mY else mX
  let diag : K := if t0 < t2 then mZ.2.2 else if cY then mY.2.1 else mX.1
  -- choose between the previous choice and Youngs-CIAM
  let m3 := normalise tiny (youngs c a)
  let t0 := max (|m3.2.2|) (max (|m3.2.1|) (|m3.1|))
  if t0 < |diag| ∧ 0 < t0 then m3 else central

end normals

/-! ## One sweep -/

/-- Constants of the scheme: machine epsilon and the threshold `tiny` of split_advection.H:26-27. -/
structure Tol where
  eps : ℝ
  thr : ℝ

/-- split_advection.H:14-79 `eulerian_implicit`: the fractions (left, right) of the volumes swept out of cell `a`
through its two faces. The normal is rotated so that the sweep direction comes first. -/
noncomputable def eulerianImplicit (tol : Tol) (dir : Dir) (aL aR : ℝ) (c : Cell → ℝ) (a : Cell) : Option (ℝ × ℝ) :=
  if |c a - 1| ≤ tol.thr then some (if aL < 0 then 1 else 0, if 0 < aR then 1 else 0)
  else if tol.thr < c a then
    let m := mixedYoungs tol.eps c a
    match fitPlane tol.eps tol.eps m.1 m.2.1 m.2.2 (c a) with
    | none => none
    | some (mx, my, mz, alpha) =>
      let cut (x0 deltax : ℝ) : Option ℝ :=
        match dir with
        | .x => cutVolume tol.eps mx my mz alpha x0 deltax
        | .y => cutVolume tol.eps my mz mx alpha x0 deltax
        | .z => cutVolume tol.eps mz mx my alpha x0 deltax
      match (if aL < 0 then cut 0 (-aL) else some 0), (if 0 < aR then cut (1 - aR) aR else some 0) with
      | some l, some r => some (l, r)
      | _, _ => none
  else some (0, 0)

/-- The domain box (first index and number of cells in each direction) and which sides are walls (no_slip_wall,
slip_wall, wall_model or symmetric_wall). -/
structure Domain where
  lo : Dir → ℤ
  n : Dir → ℕ
  wallLo : Dir → Bool
  wallHi : Dir → Bool

/-- `geom.Domain().bigEnd`. -/
def Domain.hi (D : Domain) (d : Dir) : ℤ := D.lo d + D.n d - 1

/-- The valid cells. -/
def Domain.Mem (D : Domain) (a : Cell) : Prop := ∀ d : Dir, D.lo d ≤ d.idx a ∧ d.idx a ≤ D.hi d

/-- Sum of a field over the valid cells. -/
noncomputable def Domain.total (D : Domain) (f : Cell → ℝ) : ℝ :=
  ∑ i ∈ Finset.range (D.n .x), ∑ j ∈ Finset.range (D.n .y), ∑ k ∈ Finset.range (D.n .z),
    f (D.lo .x + i, D.lo .y + j, D.lo .z + k)

/-- SplitAdvection.cpp:216-240 `sweep_fluxes` and split_advection.H:109-184 `fluxes_bc_save`: the volume fraction
carried through face `f` (`advalpha_f`). -/
noncomputable def faceVof (tol : Tol) (D : Domain) (dir : Dir) (dtdx : ℝ) (u : Cell → ℝ) (c : Cell → ℝ) (f : Cell) :
    Option ℝ :=
  let left := dir.move (-1) f
  match eulerianImplicit tol dir (u left * dtdx) (u f * dtdx) c left,
    eulerianImplicit tol dir (u f * dtdx) (u (dir.move 1 f) * dtdx) c f with
  | some (_, vofR), some (vofL, _) =>
    let wall := (D.wallLo dir && (dir.idx f == D.lo dir)) || (D.wallHi dir && (dir.idx f == D.hi dir + 1))
    let vofR := if wall then 0 else vofR
    let vofL := if wall then 0 else vofL
    some (vofR + vofL)
  | _, _ => none

/-- split_advection.H:81-103 `balance_eulerian_fluxes` before clipping, with the displacement `dt * u` of
SplitAdvection.cpp:147 and the Courant numbers of 260-261; `g` is the compression coefficient. -/
noncomputable def sweepRaw (tol : Tol) (D : Domain) (dir : Dir) (dt dx : ℝ) (g u c : Cell → ℝ) (a : Cell) : Option ℝ :=
  let dxi := 1 / dx
  match faceVof tol D dir (dt / dx) u c a, faceVof tol D dir (dt / dx) u c (dir.move 1 a) with
  | some vL, some vR =>
    let fL := vL * (dt * u a)
    let fR := vR * (dt * u (dir.move 1 a))
    let velL := u a * dt * dxi
    let velR := u (dir.move 1 a) * dt * dxi
    some (c a + ((fL - fR) * dxi + g a * (velR - velL)))
  | _, _ => none

/-- split_advection.H:104-106: clipping. -/
noncomputable def clip (v : ℝ) : ℝ := max 0 (min 1 v)

/-- split_advection.H:186-198 `c_mask`. -/
noncomputable def cmask (c : Cell → ℝ) (a : Cell) : ℝ := if 1 / 2 < c a then 1 else 0

/-- SplitAdvection.cpp:242-265 and 82-99: `c'` is the field after one sweep of `c`: valid cells are advanced and
clipped. Ghost cells are not constrained here (they are filled at 102). -/
def IsSweep (tol : Tol) (D : Domain) (dir : Dir) (dt dx : ℝ) (g u c c' : Cell → ℝ) : Prop :=
  ∀ a, D.Mem a →
    ∃ v, sweepRaw tol D dir dt dx g u c a = some v ∧ c' a = clip v

/-! ## Order of the sweeps -/

/-- vof_advection.H:88-91: the counter of the next step. -/
def nextSweep (isweep : ℕ) : ℕ := if 3 < isweep + 1 then 1 else isweep + 1

/-- The counter in step `n = 0, 1, …` of a run; it starts at 0 (vof_advection.H:147). -/
def sweepAt : ℕ → ℕ
  | 0 => nextSweep 0
  | n + 1 => nextSweep (sweepAt n)

/-- SplitAdvection.cpp:142-166 and 188-194: the direction of stage `iorder` of a step. -/
def sweepDir (isweep iorder : ℕ) : Dir :=
  if (isweep + iorder) % 3 = 0 then .z else if (isweep + iorder) % 3 = 1 then .y else .x

/-- SplitAdvection.cpp:64: the direction whose fluxes are averaged down in that stage. -/
def averageDir (isweep iorder : ℕ) : ℤ := 2 - (((isweep + iorder : ℕ) : ℤ).tmod 3)

/-! ## Debris -/

section debris
variable {K : Type*} [Field K] [LinearOrder K]

/-- The six neighbours. -/
def neighbours : Cell → List Cell
  | (i, j, k) => [(i - 1, j, k), (i + 1, j, k), (i, j - 1, k), (i, j + 1, k), (i, j, k - 1), (i, j, k + 1)]

/-- split_advection.H:200-219 `remove_vof_debris`, in place; `get` reads the six neighbours. -/
def removeDebris (small : K) (get : Cell → K) (c : Cell → K) (a : Cell) : Cell → K :=
  if 0 < c a ∧ (∀ b ∈ neighbours a, get b < small) then Function.update c a 0 else c

/-- SplitAdvection.cpp:207-214 `debris_loop`: the cells of a box in the order `l` in which they are processed. -/
def debrisLoop (small : K) (l : List Cell) (c : Cell → K) : Cell → K :=
  l.foldl (fun c a => removeDebris small c c a) c

/-- SplitAdvection.cpp:82-99: each box is advanced and cleaned before ghost cells are exchanged (102), so cells
outside the box are read from the ghost cells filled before the sweep. -/
def debrisBox (small : K) (old : Cell → K) (l : List Cell) (c : Cell → K) : Cell → K :=
  l.foldl (fun c a => removeDebris small (fun b => if b ∈ l then c b else old b) c a) c

end debris

end AmrWind.Vof
