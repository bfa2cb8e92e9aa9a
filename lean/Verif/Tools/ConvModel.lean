import Mathlib.Analysis.Real.Sqrt
import Mathlib.Data.List.Sort
import Mathlib.Algebra.BigOperators.Group.List.Basic

/-!
# Scripts that compare particle files and convert HDF5 plotfiles

`tools/fcompare_particles.py`, `tools/convert_amrex_hdf5_plotfile.py`. Not modelled: the formats of files (HDF5 data is the array the
script slices), rounding.
-/

set_option linter.unusedSectionVars false

namespace AmrWind.Cscript

/-! ## Comparison of particles -/

/-- A particle: its number and its other columns; `none` is not a number. -/
structure Prt (w : ℕ) where
  uid : ℕ
  col : Fin w → Option ℝ

/-- `fcompare_particles.py:38-39`: sorted by number. -/
def byUid {w : ℕ} (l : List (Prt w)) : List (Prt w) := l.mergeSort fun a b => decide (a.uid ≤ b.uid)

/-- Columns of a data frame, the number is the first one: `fcompare_particles.py:34-35`. -/
def Prt.at {w : ℕ} (p : Prt w) (j : Option (Fin w)) : Option ℝ := match j with
  | none => some (p.uid : ℝ)
  | some j => p.col j

/-- `fcompare_particles.py:41`, `np.square(p0df - p1df).sum(axis=0)`: sums of a data frame leave out what is not a number. -/
def sqDiff {w : ℕ} (a b : List (Prt w)) (j : Option (Fin w)) : ℝ :=
  ((a.zip b).map fun q => match q.1.at j, q.2.at j with
    | some x, some y => (x - y) ^ 2
    | _, _ => 0).sum

/-- `fcompare_particles.py:42-44`, `np.square(p0df).sum(axis=0)`. -/
def sqNorm {w : ℕ} (a : List (Prt w)) (j : Option (Fin w)) : ℝ :=
  (a.map fun p => match p.at j with
    | some x => x ^ 2
    | none => 0).sum

/-- `fcompare_particles.py:36-51`; `0 / 0` is filled with zero, a number over zero is more than every tolerance. -/
noncomputable def accept {w : ℕ} (atol rtol t0 t1 : ℝ) (f0 f1 : List (Prt w)) : Prop :=
  |t0 - t1| ≤ atol ∧ f0.length = f1.length ∧ ∀ j : Option (Fin w),
    √(sqDiff (byUid f0) (byUid f1) j) ≤ atol ∧
    (if √(sqNorm (byUid f0) j) = 0 then √(sqDiff (byUid f0) (byUid f1) j) = 0 ∧ 0 ≤ rtol
      else √(sqDiff (byUid f0) (byUid f1) j) / √(sqNorm (byUid f0) j) ≤ rtol)

/-! ## HDF5 -/

variable {K : Type*} [Zero K]

/-- A box of the level, a row of `boxes`: `convert_amrex_hdf5_plotfile.py:39,64-66`. -/
structure Bx where
  lo : Fin 3 → ℤ
  hi : Fin 3 → ℤ

/-- `convert_amrex_hdf5_plotfile.py:40-42`. -/
def Bx.len (b : Bx) (d : Fin 3) : ℤ := b.hi d - b.lo d + 1

/-- Cells of a box: `convert_amrex_hdf5_plotfile.py:43`. -/
def Bx.vol (b : Bx) : ℕ := (b.len 0 * b.len 1 * b.len 2).toNat

/-- `lo_i:hi_i, lo_j:hi_j, lo_k:hi_k` of `convert_amrex_hdf5_plotfile.py:81`. Simplified: boxes have no negative index, which a slice would
read from the end. -/
def Bx.has (b : Bx) (c : Fin 3 → ℤ) : Bool := decide (∀ d, b.lo d ≤ c d ∧ c d ≤ b.hi d)

/-- `convert_amrex_hdf5_plotfile.py:75-78`, `order="F"` in a box: the first direction is the fastest. -/
def Bx.at (b : Bx) (c : Fin 3 → ℤ) : ℕ := (c 0 - b.lo 0 + b.len 0 * (c 1 - b.lo 1 + b.len 1 * (c 2 - b.lo 2))).toNat

/-- `convert_amrex_hdf5_plotfile.py:47-51`: all boxes have the size of the first one; `none` an exception. -/
def checkBoxes (boxes : List Bx) : Option Bx := match boxes with
  | [] => none
  | b :: _ => if ∀ a ∈ boxes, ∀ d, a.lo d + b.len d - 1 = a.hi d then some b else none

/-- `convert_amrex_hdf5_plotfile.py:60-81`: one variable of the array saved, `comp` its component. -/
def convertFrom (b : Bx) (nvars comp : ℕ) (file : ℕ → K) (c : Fin 3 → ℤ) : List Bx → ℕ → K → K
  | [], _, o => o
  | a :: t, lb, o => convertFrom b nvars comp file c t (lb + 1)
      (if a.has c then file (comp * b.vol + lb * (b.vol * nvars) + a.at c) else o)

/-- `convert_amrex_hdf5_plotfile.py:30-81`: `comps` the components in the order of the attributes. -/
def convert (boxes : List Bx) (comps : List ℕ) (file : ℕ → K) : Option (List ((Fin 3 → ℤ) → K)) :=
  (checkBoxes boxes).map fun b => comps.map fun comp c => convertFrom b comps.length comp file c boxes 0 0

/-- Digits of a number as text, as in the names of attributes: `convert_amrex_hdf5_plotfile.py:32-34`. -/
def digs (n : ℕ) : List ℕ := if n < 10 then [n] else digs (n / 10) ++ [n % 10]

/-- The components in the order of their attributes `component_0`, ..., which is that of text
for files that do not track the order of creation: `convert_amrex_hdf5_plotfile.py:31-36`. -/
def attrOrder (nvars : ℕ) : List ℕ := (List.range nvars).mergeSort fun a b => decide (digs a ≤ digs b)

end AmrWind.Cscript
