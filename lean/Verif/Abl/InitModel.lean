import Mathlib.Analysis.SpecialFunctions.Trigonometric.Basic
import Mathlib.Analysis.SpecialFunctions.Pow.Real
import Verif.Interp.Model
import Verif.Vs.Model

/-!
# Model of the initial state of an atmospheric run: `wind_energy/ABLFieldInit.cpp`, `ABLFieldInitFile.cpp`

One cell at a time; `z` is the coordinate of the cell centre (`problo + (k + 1/2) dz`).  `none`: an array is read outside its
bounds or a value is used that was never set.  Random numbers are arbitrary values.
-/

set_option linter.unusedSectionVars false

namespace AmrWind.Init

open AmrWind AmrWind.Vs

variable {K : Type*} [Field K] [LinearOrder K] [IsStrictOrderedRing K]

/-- ABLFieldInit.cpp:325-332 (ABLModulatedPowerLaw.cpp:295-302 has the same loop): pairs of height and value; later intervals
overwrite earlier ones. -/
def tableLoop (z : K) : List (K × K) → K → K
  | a :: b :: r, acc =>
    tableLoop z (b :: r) (if a.1 < z ∧ z ≤ b.1 then a.2 + (z - a.1) * ((b.2 - a.2) / (b.1 - a.1)) else acc)
  | _, acc => acc

/-- ABLFieldInit.cpp:324-332: the initial temperature of a height. -/
def table : List (K × K) → K → Option K
  | [], _ => none
  | a :: r, z => some (tableLoop z (a :: r) a.2)

/-- ABLFieldInit.cpp:336-346: a component of the linear profile. -/
def linearProfile (lo hi bottom top z : K) : K := bottom + z * (top - bottom) / (hi - lo)

/-- ABLFieldInit.cpp:267-275: the height used with the given profile; `terrain` is the height of the terrain below, if the
profile is to follow it. -/
def profileHeight (dz : K) (terrain : Option K) (z : K) : K := max (1 / 2 * dz) (z - terrain.getD 0)

/-- ABLFieldInit.cpp:277-284: a component of a given profile; `uu[0]` of an empty array when there is no profile. -/
def profileAt (hts vals : List K) (z : K) : Option K :=
  if 0 < hts.length then Interp.linear hts vals z 1 0 else vals[0]?

/-- ABLFieldInit.cpp:358-382: the perturbation of the first component (`x` is replaced by the other direction for the second):
`delta`, number of periods, length of the domain, distance from its lower end, height. -/
noncomputable def perturb (delta ref periods len y z : ℝ) : ℝ :=
  delta * Real.exp (1 / 2) / ref * Real.exp (-(1 / 2) * (z / ref) * (z / ref)) * z *
    Real.cos (periods * 2 * Real.pi / len * y)

/-- ABLFieldInit.cpp:386-424, ABL.cpp:107-111: the temperature before the profile is added; `prev` is what the field holds. -/
noncomputable def preTemp (on : Bool) (cutoff delta rnd prev z : ℝ) : ℝ :=
  if on then (if z < cutoff then delta * rnd else prev) else 0

/-- ABLFieldInit.cpp:287, 334: the temperature. -/
noncomputable def temp (on : Bool) (cutoff delta rnd prev : ℝ) (tab : List (ℝ × ℝ)) (z : ℝ) : Option ℝ :=
  (table tab z).map (preTemp on cutoff delta rnd prev z + ·)

/-- What the constructor reads of the entries; `netcdf`: `ABL.init_profile` is given. -/
structure Given where
  netcdf : Bool
  density : ℝ
  perturbVelocity : Option Bool

/-- ABLFieldInit.cpp:18-26, 104-112, 158-216: the density, which is read for input files only (`m_rho` has no initial value). -/
def Given.rho (g : Given) : Option ℝ := if g.netcdf then none else some g.density

/-- ABLFieldInit.cpp:80, ABLFieldInit.H (default true): are perturbations added? -/
def Given.perturbs (g : Given) : Bool := if g.netcdf then true else g.perturbVelocity.getD true

/-- ABLFieldInit.cpp:114-132, 300-306: the mean wind; `row` is the first row (time, speed, angle) of the table after its header. -/
noncomputable def meanWind (vel : Vec ℝ) : Option (ℝ × ℝ × ℝ) → Vec ℝ
  | none => vel
  | some (_, s, a) => ⟨s * Real.cos (Real.pi * a / 180), s * Real.sin (Real.pi * a / 180), 0⟩

/-- ABLFieldInit.cpp:427-493: the initial energy of a cell: constant, given profile, or the profile of Beare et al.; `tiny` is the
machine epsilon. -/
noncomputable def tke (const : ℝ) (windProfile beare : Bool) (factor cutoff tiny : ℝ) (hts vals : List ℝ) (dz : ℝ)
    (terrain : Option ℝ) (z : ℝ) : Option ℝ :=
  if windProfile then
    if 0 < hts.length then Interp.linear hts vals (profileHeight dz terrain z) 1 0 else some tiny
  else if beare then
    some (if z < cutoff then factor * (1 - z / cutoff) ^ (3 : ℝ) else tiny)
  else some const

/-! ## Velocity from a file (ABLFieldInitFile.cpp) -/

/-- A block of a NetCDF variable as `get(data, start, count)` puts it into a vector: the last index runs fastest. -/
def block (file : ℕ → ℕ → ℕ → K) (start count : ℕ × ℕ × ℕ) (n : ℕ) : Option K :=
  if n < count.1 * count.2.1 * count.2.2 then
    some (file (start.1 + n / (count.2.1 * count.2.2)) (start.2.1 + n / count.2.2 % count.2.1) (start.2.2 + n % count.2.2))
  else none

/-- ABLFieldInitFile.cpp:44-124 on level 0: the value of cell `(i, j, k)` of a box from `lo` to `hi` inside a domain that starts at
zero. -/
def fromFile (file : ℕ → ℕ → ℕ → K) (lo hi : ℕ × ℕ × ℕ) (i j k : ℕ) : Option K :=
  let count := (hi.1 - lo.1 + 1, hi.2.1 - lo.2.1 + 1, hi.2.2 - lo.2.2 + 1)
  block file lo count ((i - lo.1) * count.2.2 * count.2.1 + (j - lo.2.1) * count.2.2 + (k - lo.2.2))

/-- ABL.cpp:113-135: does a rank with `boxes` boxes of the level call the (collective) fill from the coarse level?  The flag is set in
the loop over its boxes. -/
def callsFill (level boxes : ℕ) : Bool := decide (0 < boxes) && decide (level ≠ 0)

end AmrWind.Init
