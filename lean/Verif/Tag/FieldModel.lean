import Verif.Tag.Model
import Mathlib.Analysis.SpecialFunctions.Pow.Real

/-!
# Model of refinement by field values

`utilities/tagging/{FieldRefinement,GradientMagRefinement,CurvatureRefinement,QCriterionRefinement,VorticityMagRefinement,OversetRefinement,RefinementCriteria}`.

Fields are functions on the cells of one level and its ghost cells, filled before the criterion looks at them (`fillpatch`). Numbers are real.
-/

set_option linter.unusedSectionVars false

namespace AmrWind.Tag

/-- A cell. -/
abbrev Cl := Fin 3 → ℤ

/-- The cell `n` further along axis `d`. -/
def sh (c : Cl) (d : Fin 3) (n : ℤ) : Cl := fun e => if e = d then c e + n else c e

/-- FieldRefinement.cpp:60-77, GradientMagRefinement.cpp:37-45 and the like in CurvatureRefinement.cpp, QCriterionRefinement.cpp, VorticityMagRefinement.cpp: the number of levels with a value,
`m_max_lev_field + 1`. -/
def count (maxLevel : ℕ) (vals : List ℝ) : ℕ := min vals.length (maxLevel + 1)

/-- As `count`, with FieldRefinement.cpp:14-17: the value of a level, `big` (`numeric_limits::max`) if none is given. -/
def valueAt (big : ℝ) (maxLevel : ℕ) (vals : List ℝ) (level : ℕ) : ℝ := if level < count maxLevel vals then vals.getD level big else big

/-- FieldRefinement.H:78-90: the largest difference to the six neighbours. -/
noncomputable def maxJump (f : Cl → ℝ) (c : Cl) : ℝ :=
  max (max (max |f (sh c 0 1) - f c| |f (sh c 0 (-1)) - f c|) (max |f (sh c 1 1) - f c| |f (sh c 1 (-1)) - f c|)) (max |f (sh c 2 1) - f c| |f (sh c 2 (-1)) - f c|)

/-- `RealBox::contains`: strictly inside. -/
def RBox.has (b : RBox ℝ) (p : Fin 3 → ℝ) : Prop := ∀ d, b.lo d < p d ∧ p d < b.hi d

/-- FieldRefinement.cpp:80-103 with FieldRefinement.H:43-98. -/
def fieldTag (big : ℝ) (maxLevel : ℕ) (fieldErr gradErr : List ℝ) (box : RBox ℝ) (level : ℕ) (g : Geom ℝ) (f : Cl → ℝ) (c : Cl) : Prop :=
  (level < count maxLevel fieldErr ∧ f c > valueAt big maxLevel fieldErr level ∧ box.has (center g c)) ∨
  (level < count maxLevel gradErr ∧ maxJump f c ≥ valueAt big maxLevel gradErr level ∧ box.has (center g c))

/-- FieldRefinement.cpp:21-59: refused without any value. -/
def fieldAccepts (fieldErr gradErr : List ℝ) : Bool := !(fieldErr.isEmpty && gradErr.isEmpty)

/-- GradientMagRefinement.cpp:68-76 and the like: the central difference along axis `d`, with `idx = 1/dx`. -/
noncomputable def cd (g : Geom ℝ) (f : Cl → ℝ) (d : Fin 3) (c : Cl) : ℝ := 1 / 2 * (f (sh c d 1) - f (sh c d (-1))) * (1 / g.dx d)

/-- GradientMagRefinement.cpp:48-81; `level` only chooses the value. -/
def gradMagTag (big : ℝ) (maxLevel : ℕ) (vals : List ℝ) (level : ℕ) (g : Geom ℝ) (f : Cl → ℝ) (c : Cl) : Prop :=
  Real.sqrt (cd g f 0 c * cd g f 0 c + cd g f 1 c * cd g f 1 c + cd g f 2 c * cd g f 2 c) > valueAt big maxLevel vals level

/-- CurvatureRefinement.cpp:67-78: a second difference; all three are scaled with the cell size along the first axis. -/
noncomputable def cd2 (g : Geom ℝ) (f : Cl → ℝ) (d : Fin 3) (c : Cl) : ℝ := (f (sh c d 1) - 2 * f c + f (sh c d (-1))) * (1 / g.dx 0) * (1 / g.dx 0)

/-- CurvatureRefinement.cpp:119-125: the numerator. -/
noncomputable def curvNum (g : Geom ℝ) (f : Cl → ℝ) (c : Cl) : ℝ :=
  let px := cd g f 0 c
  let py := cd g f 1 c
  let pz := cd g f 2 c
  let pxy := cd g (cd g f 1) 0 c
  let pxz := cd g (cd g f 2) 0 c
  let pyz := cd g (cd g f 2) 1 c
  (px * px * cd2 g f 1 c) - (2 * px * py * pxy) + (py * py * cd2 g f 0 c) + (px * px * cd2 g f 2 c) - (2 * px * pz * pxz) + (pz * pz * cd2 g f 0 c) +
    (py * py * cd2 g f 2 c) - (2 * py * pz * pyz) + (pz * pz * cd2 g f 1 c)

/-- CurvatureRefinement.cpp:80-126: the curvature; without a gradient the quotient is not a number. -/
noncomputable def curv (g : Geom ℝ) (f : Cl → ℝ) (c : Cl) : Option ℝ :=
  let q := cd g f 0 c * cd g f 0 c + cd g f 1 c * cd g f 1 c + cd g f 2 c * cd g f 2 c
  if q = 0 then none else some (|curvNum g f c| / q ^ (3 / 2 : ℝ))

/-- CurvatureRefinement.cpp:127-131: a comparison with a number that is none is false. -/
def curvTag (big : ℝ) (maxLevel : ℕ) (vals : List ℝ) (level : ℕ) (g : Geom ℝ) (f : Cl → ℝ) (c : Cl) : Prop :=
  ∃ k, curv g f c = some k ∧ k > min (valueAt big maxLevel vals level) ((1 / g.dx 0 * (1 / g.dx 1) * (1 / g.dx 2)) ^ (1 / 3 : ℝ))

/-- QCriterionRefinement.cpp:73-110: derivative of component `i` along axis `d`. -/
noncomputable def velGrad (g : Geom ℝ) (u : Fin 3 → Cl → ℝ) (c : Cl) (i d : Fin 3) : ℝ := cd g (u i) d c

/-- QCriterionRefinement.cpp:112-115. -/
noncomputable def strain2 (G : Fin 3 → Fin 3 → ℝ) : ℝ :=
  G 0 0 * G 0 0 + G 1 1 * G 1 1 + G 2 2 * G 2 2 + 1 / 2 * (G 0 1 + G 1 0) ^ 2 + 1 / 2 * (G 1 2 + G 2 1) ^ 2 + 1 / 2 * (G 2 0 + G 0 2) ^ 2

/-- QCriterionRefinement.cpp:117-119. -/
noncomputable def rot2 (G : Fin 3 → Fin 3 → ℝ) : ℝ := 1 / 2 * (G 0 1 - G 1 0) ^ 2 + 1 / 2 * (G 1 2 - G 2 1) ^ 2 + 1 / 2 * (G 2 0 - G 0 2) ^ 2

/-- QCriterionRefinement.cpp:50-133; `eps` is the guard. -/
def qTag (eps big : ℝ) (nondim : Bool) (maxLevel : ℕ) (vals : List ℝ) (level : ℕ) (g : Geom ℝ) (u : Fin 3 → Cl → ℝ) (c : Cl) : Prop :=
  let G := velGrad g u c
  level < count maxLevel vals ∧
    ((nondim = true ∧ 1 / 2 * (rot2 G / max (strain2 G) eps - 1) > valueAt big maxLevel vals level) ∨
      (nondim = false ∧ |1 / 2 * (rot2 G - strain2 G)| > valueAt big maxLevel vals level))

/-- VorticityMagRefinement.cpp:49-104. -/
def vortTag (big : ℝ) (maxLevel : ℕ) (vals : List ℝ) (level : ℕ) (g : Geom ℝ) (u : Fin 3 → Cl → ℝ) (c : Cl) : Prop :=
  let G := velGrad g u c
  level < count maxLevel vals ∧ Real.sqrt ((G 0 1 - G 1 0) ^ 2 + (G 1 2 - G 2 1) ^ 2 + (G 2 0 - G 0 2) ^ 2) > valueAt big maxLevel vals level

/-- OversetRefinement.cpp:21-59. -/
def oversetTag (maxLev level : ℤ) (fringe hole : Bool) (ib : Cl → ℤ) (c : Cl) : Prop :=
  ¬ level > maxLev ∧
    (max (max (max |ib (sh c 0 1) - ib c| |ib (sh c 0 (-1)) - ib c|) (max |ib (sh c 1 1) - ib c| |ib (sh c 1 (-1)) - ib c|))
        (max |ib (sh c 2 1) - ib c| |ib (sh c 2 (-1)) - ib c|) > 1 ∨ (fringe = true ∧ ib c = -1) ∨ (hole = true ∧ ib c = 0))

/-- RefinementCriteria.cpp:32-40 `tag_cells`: each criterion in order sets tags and clears none. -/
def tagCells (criteria : List (Cl → Prop)) (tags : Cl → Prop) : Cl → Prop := criteria.foldl (fun t r c => t c ∨ r c) tags

end AmrWind.Tag
