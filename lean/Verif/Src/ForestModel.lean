import Mathlib.Analysis.SpecialFunctions.Exp
import Mathlib.Analysis.SpecialFunctions.Sqrt
import Verif.Tag.Model
import Verif.Vs.Model

/-!
# Model of forests: `ForestDrag` and `ForestForcing`

`physics/ForestDrag.H`, `physics/ForestDrag.cpp`, `utilities/integrals.H`,
`equation_systems/icns/source_terms/ForestForcing.cpp`.  Real arithmetic; `none` is a number that is not finite.
-/

set_option linter.unusedSectionVars false

namespace AmrWind.Forest

open AmrWind AmrWind.Vs AmrWind.Tag
open scoped Classical

/-- ForestDrag.H:16-26: a forest of the file; `kind` is the first column. -/
structure Tree where
  id : ℕ
  kind : ℝ
  x : ℝ
  y : ℝ
  height : ℝ
  diameter : ℝ
  cd : ℝ
  lai : ℝ
  laimax : ℝ

/-- integrals.H:14-27 `trapz`; every value of the integrand must be a number. -/
noncomputable def trapz (xa xb : ℝ) (n : ℕ) (f : ℝ → Option ℝ) : Option ℝ := do
  let dx := (xb - xa) / n
  let a ← f xa
  let b ← f xb
  let v ← (List.range' 1 (n - 1)).mapM fun i : ℕ => f (xa + (i : ℝ) * dx)
  return dx * (1 / 2 * (a + b) + v.sum)

/-- ForestDrag.H:37-43, 57-62: the leaf area density relative to its maximum; at the top the ratio is infinite (infinity times
zero), above the maximum a negative ratio has no square root. -/
noncomputable def shape (h zm z : ℝ) : Option ℝ :=
  if h - z = 0 then none else
    let r := (h - zm) / (h - z)
    if z < zm then some (r ^ 6 * Real.exp (6 * (1 - r)))
    else if r < 0 then none else some (√r * Real.exp (1 / 2 * (1 - r)))

/-- ForestDrag.H:28-48 `lm`: the largest leaf area density; `tol` is `TIGHT_TOL`. -/
noncomputable def lm (tol : ℝ) (t : Tree) : Option ℝ :=
  if t.kind = 2 then do
    let i ← trapz 0 (t.height - tol) 100 (shape t.height (t.laimax * t.height))
    if i = 0 then none else some (t.lai / i)
  else some 0

/-- ForestDrag.H:50-65 `area_fraction`. -/
noncomputable def areaFraction (t : Tree) (z treelaimax : ℝ) : Option ℝ :=
  if t.kind = 1 then (if t.height = 0 then none else some (t.lai / t.height))
  else if t.kind = 2 then (shape t.height (t.laimax * t.height) z).map (treelaimax * ·)
  else some 0

/-- ForestDrag.H:67-80 `real_bounding_box`; the geometry gives the lower end. -/
noncomputable def bound (g : Geom ℝ) (t : Tree) : RBox ℝ :=
  let r := 1 / 2 * 1.1 * t.diameter
  ⟨![t.x - r, t.y - r, g.lo 2], ![t.x + r, t.y + r, t.height]⟩

/-- ForestDrag.cpp:66-71: is the point in the forest? -/
noncomputable def inside (t : Tree) (p : Fin 3 → ℝ) : Prop :=
  p 2 ≤ t.height ∧ √((p 0 - t.x) * (p 0 - t.x) + (p 1 - t.y) * (p 1 - t.y)) ≤ 1 / 2 * t.diameter

/-- ForestDrag.cpp:54-76: what one forest does to the identifier and the drag of a cell. -/
noncomputable def plant (tol : ℝ) (g : Geom ℝ) (c : Fin 3 → ℤ) (s : ℝ × ℝ) (t : Tree) : Option (ℝ × ℝ) :=
  if (realboxToBox (bound g t) g).has c ∧ inside t (center g c) then do
    let l ← lm tol t
    let a ← areaFraction t (center g c 2) l
    return ((t.id : ℝ), s.2 + t.cd * a)
  else some s

/-- ForestDrag.cpp:33-81, 83-89 `initialize_fields`, also after regridding: identifier and drag of a cell of the level, all
forests in the order of the file.  The list of forests is `read_forest` without those that miss the level, whose boxes do
not contain the cell either. -/
noncomputable def cell (tol : ℝ) (g : Geom ℝ) (ts : List Tree) (c : Fin 3 → ℤ) : Option (ℝ × ℝ) :=
  ts.foldlM (plant tol g c) (-1, 0)

/-- ForestDrag.cpp:104-127: the records of the file; a token is a number or not.  Reading stops at the first record that is
not complete. -/
def readFrom : ℕ → List (Option ℝ) → List Tree
  | n, some a :: some b :: some c :: some d :: some e :: some f :: some g :: some h :: rest =>
    ⟨n, a, b, c, d, e, f, g, h⟩ :: readFrom (n + 1) rest
  | _, _ => []

/-- ForestDrag.cpp:91-129 `read_forest`. -/
def read (tokens : List (Option ℝ)) : List Tree := readFrom 0 tokens

/-- ForestForcing.cpp:31-40. -/
noncomputable def source (drag : ℝ) (u : Vec ℝ) : Vec ℝ :=
  let w := √(u.x * u.x + u.y * u.y + u.z * u.z)
  ⟨-(drag * u.x * w), -(drag * u.y * w), -(drag * u.z * w)⟩

end AmrWind.Forest
