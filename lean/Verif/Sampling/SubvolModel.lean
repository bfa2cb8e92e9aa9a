import Mathlib.Algebra.Order.Floor.Ring
import Mathlib.Algebra.Order.Field.Basic
import Verif.Config.Model
/-!
# Where a subvolume is: `utilities/subvolume/RectangularSubvolume.cpp`, `Subvolume.cpp`, `SubvolumeBase.H`

Sizes, corners and indices are functions of the direction. A level is known by its cell size and by the cells its grids
cover. The columns of the files are those of `Verif.IO`.
-/

set_option linter.unusedSectionVars false

namespace AmrWind.Subvol

open Plane

variable {K : Type*} [Field K] [LinearOrder K] [FloorRing K]

/-- An index. -/
abbrev Idx := Axis → ℤ

/-- A box with inclusive bounds. -/
structure Box where
  lo : Idx
  hi : Idx

/-- `Box::contains`. -/
def Box.Has (b : Box) (c : Idx) : Prop := ∀ d, b.lo d ≤ c d ∧ c d ≤ b.hi d

/-- A level of the mesh: cell size, the cells of its grids, largest size of a grid, and a field. -/
structure Level (K : Type*) where
  dx : Axis → K
  covers : Idx → Prop
  maxGrid : Idx
  data : Idx → K

/-- What the user gives, RectangularSubvolume.cpp:13-33; `dx` is `dx_vec`, or `dx` three times. -/
structure Inp (K : Type*) where
  origin : Axis → K
  npts : Idx
  dx : Axis → K
  chunk : Option Idx

/-- RectangularSubvolume.cpp:18-29: the sizes, from `dx` and `dx_vec`; `none`: stop. -/
def sizes (dx : Option K) (dxVec : Option (Axis → K)) : Option (Axis → K) :=
  match dx with
  | some h => some fun _ => h
  | none => dxVec

/-- `std::lround`. -/
def lround (x : K) : ℤ := if 0 ≤ x then ⌊x + 1 / 2⌋ else ⌈x - 1 / 2⌉

/-- RectangularSubvolume.cpp:41-43, 78-86: closer than 1e-4 in all directions. -/
def close (a b : Axis → K) : Prop := ∀ d, |a d - b d| < 1 / 10000

open Classical in
/-- RectangularSubvolume.cpp:37-61: the level. -/
noncomputable def findLevel (i : Inp K) (levels : List (Level K)) : Option ℕ := levels.findIdx? fun l => close i.dx l.dx

/-- RectangularSubvolume.cpp:67-75: the cell of the origin. -/
def corner (lo : Axis → K) (i : Inp K) (l : Level K) : Idx := fun d => lround ((i.origin d - lo d) / l.dx d)

/-- RectangularSubvolume.cpp:99-104: the box. -/
def region (lo : Axis → K) (i : Inp K) (l : Level K) : Box := ⟨corner lo i l, fun d => corner lo i l d + i.npts d - 1⟩

/-- The state: level, box and size of chunks. -/
structure St where
  lev : ℕ
  box : Box
  chunk : Idx

open Classical in
/-- RectangularSubvolume.cpp:35-136 `evaluate_inputs`; `old` is the size of chunks of an earlier call. `none`: stop. -/
noncomputable def evaluate (lo : Axis → K) (i : Inp K) (old : Option Idx) (levels : List (Level K)) : Option St :=
  match findLevel i levels with
  | none => none
  | some n =>
    match levels[n]? with
    | none => none
    | some l =>
      if close (fun d => lo d + (corner lo i l d : K) * l.dx d) i.origin then
        if ∀ c, (region lo i l).Has c → l.covers c then
          some ⟨n, region lo i l, (i.chunk.orElse fun _ => old).getD l.maxGrid⟩
        else none
      else none

/-- SubvolumeBase.H (`post_init_actions`, `post_regrid_actions`): evaluated at the start and after every regrid; `hist` are
the levels from the start on. -/
noncomputable def history (lo : Axis → K) (i : Inp K) : Option Idx → List (List (Level K)) → Option (List St)
  | _, [] => some []
  | old, ls :: rest =>
    match evaluate lo i old ls with
    | none => none
    | some s => (history lo i (some s.chunk) rest).map fun l => s :: l

open Classical in
/-- Subvolume.cpp:160-189: the value written for a cell of the file; `none`: the cell is not in it. -/
noncomputable def written (s : St) (levels : List (Level K)) (c : Idx) : Option K :=
  if s.box.Has c then (levels[s.lev]?).map fun l => l.data c else none

end AmrWind.Subvol
