import Verif.Vof.LayerProps
import Verif.Plane.Lemmas

/-!
# The free surface sampler

utilities/sampling/FreeSurfaceSampler.cpp on one level (cells covered by a finer level carry no points, `makeFineMask`),
without overset and without `linear_interp_extent_from_xhi`. Reals are exact; `eps`, `tol`, `feps` and `tiny` stand for
the machine constants of the code.
-/

set_option linter.unusedSectionVars false

namespace AmrWind.FreeSurface

open AmrWind.Vof (Dir fitPlane mixedYoungs)
open AmrWind.Plane (irange)

abbrev Cell := ℤ × ℤ × ℤ

section
variable {K : Type*} [Field K] [LinearOrder K] [IsStrictOrderedRing K] [FloorRing K]

/-- The geometry of a level: the ends of the domain, the cell sizes and the numbers of cells. -/
structure Grid (K : Type*) where
  plo : Dir → K
  phi : Dir → K
  dx : Dir → K
  n : Dir → ℕ

/-- The inputs of the sampler (FreeSurfaceSampler.cpp:26-33). -/
structure Input (K : Type*) where
  start : Dir → K
  stop : Dir → K
  npts0 : ℕ
  npts1 : ℕ
  dir : Dir
  ninst : ℕ
  ncmax : ℕ

/-- FreeSurfaceSampler.cpp:42-63: the first grid direction. -/
def gc0 : Dir → Dir
  | .x => .y
  | .y => .x
  | .z => .x

/-- FreeSurfaceSampler.cpp:42-63: the second grid direction. -/
def gc1 : Dir → Dir
  | .x => .z
  | .y => .z
  | .z => .y

/-- FreeSurfaceSampler.cpp:343-358 `check_bounds`, one coordinate. -/
def checkBound (tol plo phi s : K) : K :=
  let s1 := if s < plo + tol then plo + 10 * tol else s
  if phi - tol < s1 then phi - 10 * tol else s1

/-- FreeSurfaceSampler.cpp:75-79: the spacing of the sampling grid. -/
def spacing (N : ℕ) (s e : K) : K := (e - s) / (max (N - 1) 1 : ℕ)

/-- FreeSurfaceSampler.cpp:82-97: the place of grid line `n`. -/
def gridLoc (N : ℕ) (s e : K) (n : ℤ) : K := s + spacing N s e * n

/-- FreeSurfaceSampler.cpp:150-181 (also 182-208, 248-299 and `post_regrid_actions`): the first grid line in cell `i` and
the one after the last. -/
def axisRange (eps : K) (N : ℕ) (s e plo phi dx : K) (i : ℤ) : ℤ × ℤ :=
  let xm := plo + ((i : K) + 1 / 2) * dx
  if N = 1 then
    (0, if |phi - s| < eps ∨ (xm - s ≤ 1 / 2 * dx ∧ s - xm < 1 / 2 * dx) then 1 else 0)
  else
    let dxs := spacing N s e
    let f := ⌈(xm - 1 / 2 * dx - s) / dxs⌉
    let a0 := ⌈(xm + 1 / 2 * dx - s) / dxs⌉
    let a1 := if |xm + 1 / 2 * dx - phi| < eps ∧ |s + (a0 : K) * dxs - phi| < eps then a0 + 1 else a0
    let a2 := min (N : ℤ) a1
    let f2 := max (min 0 a2) f
    (f2, if (N : ℤ) ≤ f2 ∨ f2 < 0 then f2 else a2)

/-- The range of a cell in direction `d` of the plane. -/
def cellRange (eps : K) (g : Grid K) (inp : Input K) (d : Dir) (N : ℕ) (a : Cell) : ℤ × ℤ :=
  axisRange eps N (inp.start d) (inp.stop d) (g.plo d) (g.phi d) (g.dx d) (d.idx a)

/-- FreeSurfaceSampler.cpp:209-211: the number of grid points in a cell. -/
def count (eps : K) (g : Grid K) (inp : Input K) (a : Cell) : ℤ :=
  let r0 := cellRange eps g inp (gc0 inp.dir) inp.npts0 a
  let r1 := cellRange eps g inp (gc1 inp.dir) inp.npts1 a
  (r0.2 - r0.1) * (r1.2 - r1.1)

/-- All cells of the level. -/
def allCells (g : Grid K) : List Cell :=
  AmrWind.Plane.cells ⟨(0, 0, 0), ((g.n .x : ℤ) - 1, (g.n .y : ℤ) - 1, (g.n .z : ℤ) - 1)⟩

/-- FreeSurfaceSampler.cpp:112-222: the number of places reserved in each cell. -/
def ncomp (eps : K) (g : Grid K) (inp : Input K) : ℤ :=
  min ((allCells g).foldl (fun m a => max m (count eps g inp a)) 0) inp.ncmax

/-- FreeSurfaceSampler.cpp:301-330: the grid points stored in a cell, in order: index and place. -/
def cellPoints (eps : K) (g : Grid K) (inp : Input K) (nc : ℤ) (a : Cell) : List (ℤ × K × K) :=
  let r0 := cellRange eps g inp (gc0 inp.dir) inp.npts0 a
  let r1 := cellRange eps g inp (gc1 inp.dir) inp.npts1 a
  ((irange r0.1 (r0.2 - 1)).flatMap fun n0 => (irange r1.1 (r1.2 - 1)).map fun n1 =>
    (n1 * (inp.npts0 : ℤ) + n0, gridLoc inp.npts0 (inp.start (gc0 inp.dir)) (inp.stop (gc0 inp.dir)) n0,
      gridLoc inp.npts1 (inp.start (gc1 inp.dir)) (inp.stop (gc1 inp.dir)) n1)).take nc.toNat

/-- The centre of a cell. -/
def xm (g : Grid K) (a : Cell) (d : Dir) : K := g.plo d + ((d.idx a : K) + 1 / 2) * g.dx d

/-- The component of a vector. -/
def pick (m : K × K × K) : Dir → K
  | .x => m.1
  | .y => m.2.1
  | .z => m.2.2

/-- FreeSurfaceSampler.cpp:588-625: the height of the plane `m, alpha` (in units of the cell) at a grid point. -/
def planeHeight (g : Grid K) (dir : Dir) (m : K × K × K) (alpha : K) (a : Cell) (loc0 loc1 : K) : K :=
  if pick m dir = 0 then xm g a dir
  else xm g a dir - 1 / 2 * g.dx dir +
    (alpha - pick m (gc0 dir) * (1 / g.dx (gc0 dir)) * (loc0 - (xm g a (gc0 dir) - 1 / 2 * g.dx (gc0 dir))) -
      pick m (gc1 dir) * (1 / g.dx (gc1 dir)) * (loc1 - (xm g a (gc1 dir) - 1 / 2 * g.dx (gc1 dir)))) /
    (pick m dir * (1 / g.dx dir))

/-- FreeSurfaceSampler.cpp:684-703: the height is taken into the cell. -/
def limitHeight (feps : K) (g : Grid K) (dir : Dir) (a : Cell) (ht : K) : K :=
  let h1 := if ht < xm g a dir - 1 / 2 * g.dx dir then g.plo dir else ht
  if xm g a dir + 1 / 2 * g.dx dir * (1 + feps) < h1 then xm g a dir + 1 / 2 * g.dx dir else h1

/-- FreeSurfaceSampler.cpp:711-715 and 405: `m_out` after the loop over the instances and the entry read for instance
`ni` of grid point `idx`; `h ni idx` is the height found. -/
def outEntry (h : ℕ → ℕ → K) (npts ninst : ℕ) (idx ni : ℕ) : Option K :=
  ((List.range ninst).flatMap fun n => (List.range npts).map (h n))[idx * ninst + ni]?

end

/-- FreeSurfaceSampler.cpp:491-590: the plane of a cell in instance `ni`: `none` undefined (0/0 in `fit_plane`),
`some none` no plane. `tol` is `1e4 eps`. -/
noncomputable def cellPlane (tiny tol : ℝ) (dir : Dir) (ni : ℕ) (c : Cell → ℝ) (a : Cell) :
    Option (Option ((ℝ × ℝ × ℝ) × ℝ)) :=
  if c a < 1 - tol ∧ tol < c a then
    let m := mixedYoungs tiny c a
    (fitPlane tiny tiny m.1 m.2.1 m.2.2 (c a)).map fun p => some ((p.1, p.2.1, p.2.2.1), p.2.2.2)
  else if (ni % 2 = 0 ∧ 1 - tol ≤ c a) ∨ (ni % 2 ≠ 0 ∧ c a ≤ tol) then
    let s : ℝ := if ni % 2 ≠ 0 then -1 else 1
    some (some (dir.vec s, s))
  else some none

/-- FreeSurfaceSampler.cpp:588-705: the heights a cell reports for a grid point (none or one). -/
noncomputable def cellHeight (tiny tol feps : ℝ) (g : Grid ℝ) (dir : Dir) (ni : ℕ) (c : Cell → ℝ) (a : Cell)
    (loc0 loc1 : ℝ) : Option (List ℝ) :=
  (cellPlane tiny tol dir ni c a).map fun p => match p with
    | none => []
    | some (m, alpha) => [limitHeight feps g dir a (planeHeight g dir m alpha a loc0 loc1)]

/-- FreeSurfaceSampler.cpp:453-709: the heights reported for grid point `idx` in instance `ni`; `last` is the height of
the previous instance. -/
noncomputable def reports (tiny tol feps eps : ℝ) (g : Grid ℝ) (inp : Input ℝ) (c : Cell → ℝ) (ni : ℕ) (last : ℝ)
    (idx : ℤ) : Option (List ℝ) :=
  ((allCells g).mapM fun a =>
    (((cellPoints eps g inp (ncomp eps g inp) a).filter fun q => q.1 = idx).mapM fun q =>
      if last > xm g a inp.dir + 1 / 2 * g.dx inp.dir then cellHeight tiny tol feps g inp.dir ni c a q.2.1 q.2.2
      else some []).map List.flatten).map List.flatten

/-- FreeSurfaceSampler.cpp:425-430, 452, 705, 711-727: the heights of the instances from `ni` on. -/
noncomputable def heightsFrom (tiny tol feps eps : ℝ) (g : Grid ℝ) (inp : Input ℝ) (c : Cell → ℝ) (idx : ℤ) :
    ℕ → ℕ → ℝ → Option (List ℝ)
  | 0, _, _ => some []
  | n + 1, ni, last =>
    (reports tiny tol feps eps g inp c ni last idx).bind fun l =>
      let h := l.foldl max (g.plo inp.dir)
      (heightsFrom tiny tol feps eps g inp c idx n (ni + 1) h).map (h :: ·)

/-- FreeSurfaceSampler.cpp:415-731 `update_sampling_locations`: the heights of all instances of a grid point. -/
noncomputable def heights (tiny tol feps eps : ℝ) (g : Grid ℝ) (inp : Input ℝ) (c : Cell → ℝ) (idx : ℤ) :
    Option (List ℝ) :=
  heightsFrom tiny tol feps eps g inp c idx inp.ninst 0 (g.phi inp.dir + 1)

end AmrWind.FreeSurface
