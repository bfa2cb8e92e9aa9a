import Verif.Actuator.KynemaModel
import Mathlib.Algebra.Order.Field.Basic
import Mathlib.Analysis.Real.Pi.Bounds
import Mathlib.LinearAlgebra.Matrix.Notation

/-!
# Structure of a turbine from its description

`KynemaIface.cpp:66-382`: the axes, twists, sections, polars and masses handed to the structural solver, from the tables of a WindIO file.
The YAML reader and the solver are outside the model.
-/

set_option linter.unusedSectionVars false

namespace AmrWind.Wio

variable {K : Type*} [Field K] [LinearOrder K] [IsStrictOrderedRing K]

/-- A property along a beam or an angle in the file: places and values, two lists read apart, `KynemaIface.cpp:81-88`. -/
structure Tab (K : Type*) where
  grid : List K
  values : List K

/-- Points of the axis of a blade, `KynemaIface.cpp:81-93`, and of the tower, `:195-207`: as many as the places of `x`. `none`: a list is
read beyond its end, which is undefined. -/
def axisPoints (x y z : Tab K) : Option (List (K × K × K × K)) :=
  (List.range x.grid.length).mapM fun i => do
    let g ← x.grid[i]?
    let a ← x.values[i]?
    let b ← y.values[i]?
    let c ← z.values[i]?
    some (g, a, b, c)

/-- Place of the foot of the tower, `KynemaIface.cpp:210-211`: the first values. -/
def towerBase (x y z : Tab K) : Option (K × K × K) := do
  let a ← x.values[0]?
  let b ← y.values[0]?
  let c ← z.values[0]?
  some (a, b, c)

/-- Twist of a blade, `KynemaIface.cpp:97-105`: in radians, sign turned. -/
noncomputable def twistPoints (t : Tab ℝ) : Option (List (ℝ × ℝ)) :=
  (List.range t.grid.length).mapM fun i => do
    let g ← t.grid[i]?
    let v ← t.values[i]?
    some (g, -v * Real.pi / 180)

/-- Sections of the tower, `KynemaIface.cpp:242-260`: place, diameter and thickness of the wall handed to the solver. The places of the
thickness are not read. -/
def towerRows (dia thick : Tab K) : Option (List (K × K × K)) :=
  (List.range dia.grid.length).mapM fun i => do
    let g ← dia.grid[i]?
    let d ← dia.values[i]?
    let t ← thick.values[i]?
    some (g, d, t)

/-- Polars of an airfoil, `KynemaIface.cpp:362-375`: angles of `cl` in radians, the values of all three. -/
noncomputable def polars (cl cd cm : Tab ℝ) : List ℝ × List ℝ × List ℝ × List ℝ :=
  (cl.grid.map fun d => d * Real.pi / 180, cl.values, cd.values, cm.values)

/-- Inertia of a section of a blade, `KynemaIface.cpp:127-133`. -/
structure Inertia (K : Type*) where
  mass : K
  cx : K
  cy : K
  cp : K
  edge : K
  flap : K
  plr : K

/-- The mass matrix of a section, `KynemaIface.cpp:159-166`, with the numbers of the file in their places. -/
def Inertia.mat (s : Inertia K) : Matrix (Fin 6) (Fin 6) K := Kyn.massMat s.mass s.cx s.cy s.edge s.flap s.cp s.plr

/-- Sections of a blade, `KynemaIface.cpp:113-176`; `none`: an exception. The lists of the file with one number per section are taken together
as one list of `Inertia` and one of entries; an entry that is missing in one of them raises an exception of the reader. `tol` is `1e-8`. -/
def bladeSections (tol : K) (kg mg : List K) (ms : List (Inertia K)) (ks : List (ℕ → ℕ → K)) :
    Option (List (K × Matrix (Fin 6) (Fin 6) K × Matrix (Fin 6) (Fin 6) K)) :=
  if mg.length ≠ kg.length then none
  else (List.range kg.length).mapM fun i => do
    let b ← mg[i]?
    let a ← kg[i]?
    if tol < |b - a| then none
    else do
      let m ← ms[i]?
      let k ← ks[i]?
      some (b, m.mat, Kyn.stiffMat k)

/-- Mass matrix of the nacelle, `KynemaIface.cpp:279-288`; `I` are the six numbers of the file. -/
def nacelleMass (m : K) (I : ℕ → K) : Matrix (Fin 6) (Fin 6) K :=
  !![m, 0, 0, 0, 0, 0;
     0, m, 0, 0, 0, 0;
     0, 0, m, 0, 0, 0;
     0, 0, 0, I 0, I 3, I 4;
     0, 0, 0, I 3, I 1, I 5;
     0, 0, 0, I 4, I 5, I 2]

/-- Mass matrix of the yaw bearing, `KynemaIface.cpp:302-308`. -/
def yawMass (m : K) (I : ℕ → K) : Matrix (Fin 6) (Fin 6) K :=
  !![m, 0, 0, 0, 0, 0;
     0, m, 0, 0, 0, 0;
     0, 0, m, 0, 0, 0;
     0, 0, 0, I 0, 0, 0;
     0, 0, 0, 0, I 1, 0;
     0, 0, 0, 0, 0, I 2]

end AmrWind.Wio
