import Verif.Amr.Model
import Mathlib.Algebra.Order.Field.Basic
import Mathlib.Algebra.BigOperators.Group.Finset.Basic
import Mathlib.Algebra.BigOperators.Ring.Finset
import Mathlib.Data.Finset.Prod

/-!
# Model of a change of the mesh

`incflo_regrid.cpp`, the level operations of `core/FieldRepo.cpp:33-85`, their allocation of arrays
(`core/FieldRepo.cpp:414-475`), the fill operators they call (`core/FieldFillPatchOps.H`) and the part of
`incflo.cpp:184-233` that follows. A level above the coarsest is given by the set of cells of the level below that it
refines: AMReX makes the boxes of a level from whole cells of the level below. Only the cells of the levels are
modelled, not the ghost cells (the operators are called with none, FieldRepo.cpp:49 and 73). The order of the level
operations is that of `amrex::AmrCore::regrid`, taken from its documentation: from coarse to fine, a level with the same
boxes as before is not touched, surplus levels are cleared. Interpolation between levels is a parameter.
-/

namespace AmrWind.Regrid

open Plane (Cell Axis)
open Amr (coarsen)

/-- The arrays of one level: real fields and integer fields, numbered as in the repository; an integer that was never
set is `none`. -/
structure Data (K : Type*) where
  val : ℕ → Cell → K
  ival : ℕ → Cell → Option ℤ

/-- A level above the coarsest: the cells of the level below that it refines, and its arrays
(`m_leveldata[lev]`). -/
structure Level (K : Type*) where
  refined : Finset Cell
  data : Data K

/-- All levels: the cells of level 0, its arrays and the levels above it. -/
structure State (K : Type*) where
  cells : Finset Cell
  base : Data K
  fine : List (Level K)

/-- What the operators are given: `ratio lev` is `refRatio(lev)`; `interp lev fld cov u c` is the value that the mapper
of field `fld` gives to cell `c` of level `lev + 1` from the values `u` on the cells `cov` of level `lev`
(FieldFillPatchOps.H:262-267 with `m_mapper`, boundary conditions included); `flagged` is `fillpatch_on_regrid()`
(Field.H:163-167). -/
structure Ops (K : Type*) where
  ratio : ℕ → Axis → ℕ
  interp : ℕ → ℕ → Finset Cell → (Cell → K) → Cell → K
  flagged : ℕ → Bool

/-- The cells of the finer level in a cell (`amrex::refine` of a box of one cell). -/
def children (r : Axis → ℕ) (p : Cell) : Finset Cell :=
  (Finset.range (r .x) ×ˢ Finset.range (r .y) ×ˢ Finset.range (r .z)).image fun i =>
    (p.1 * r .x + i.1, p.2.1 * r .y + i.2.1, p.2.2 * r .z + i.2.2)

/-- The cells of a level that refines the cells `P` of the level below. -/
def cellsOf (r : Axis → ℕ) (P : Finset Cell) : Finset Cell := P.biUnion (children r)

variable {K : Type*} [Zero K]

/-- FieldRepo.cpp:414-432 and 459-475 `allocate_field_data`: real arrays are set to zero, integer arrays are not set. -/
def blank : Data K := ⟨fun _ _ => 0, fun _ _ => none⟩

/-- FieldRepo.cpp:33-55 `make_new_level_from_coarse` (incflo_regrid.cpp:8-19): new arrays; fields with the flag are
filled from the level below, number `lev`, with `InterpFromCoarseLevel` (FieldFillPatchOps.H:344-376). -/
def fromCoarse (o : Ops K) (lev : ℕ) (cov : Finset Cell) (coarse : Data K) (new : Finset Cell) : Level K :=
  ⟨new, { (blank : Data K) with
    val := fun fld c =>
      if o.flagged fld then o.interp lev fld cov (coarse.val fld) c else (blank : Data K).val fld c }⟩

/-- FieldRepo.cpp:57-79 `remake_level` (incflo_regrid.cpp:24-38): new arrays; fields with the flag are filled with
`FillPatchTwoLevels` (FieldFillPatchOps.H:256-269): from the old array of the level where it has the cell, else from the
level below. -/
def remake (o : Ops K) (lev : ℕ) (cov : Finset Cell) (coarse : Data K) (old : Level K) (new : Finset Cell) : Level K :=
  ⟨new, { (blank : Data K) with
    val := fun fld c =>
      if o.flagged fld then
        if coarsen (o.ratio lev) c ∈ old.refined then old.data.val fld c
        else o.interp lev fld cov (coarse.val fld) c
      else (blank : Data K).val fld c }⟩

/-- `AmrCore::regrid` from level `lev + 1` on; `coarse` with cells `cov` is level `lev`, already up to date. For each level
of the new mesh: `none` where the boxes have not changed, else the new cells. Levels that the new mesh does not have are
cleared (FieldRepo.cpp:81-85). A level that is new cannot have the boxes it had before. -/
def regridFrom (o : Ops K) (lev : ℕ) (cov : Finset Cell) (coarse : Data K) :
    List (Level K) → List (Option (Finset Cell)) → List (Level K)
  | _, [] => []
  | old :: olds, none :: news =>
    old :: regridFrom o (lev + 1) (cellsOf (o.ratio lev) old.refined) old.data olds news
  | old :: olds, some m :: news =>
    let L := remake o lev cov coarse old m
    L :: regridFrom o (lev + 1) (cellsOf (o.ratio lev) m) L.data olds news
  | [], some m :: news =>
    let L := fromCoarse o lev cov coarse m
    L :: regridFrom o (lev + 1) (cellsOf (o.ratio lev) m) L.data [] news
  | [], none :: _ => []

/-- incflo.cpp:192 `regrid(0, time)`: the coarsest level is not touched. -/
def regrid (o : Ops K) (s : State K) (news : List (Option (Finset Cell))) : State K :=
  { s with fine := regridFrom o 0 s.cells s.base s.fine news }

/-- Changes of the arrays of every level. -/
def State.mapData (g : Data K → Data K) (s : State K) : State K :=
  { s with base := g s.base, fine := s.fine.map fun L => { L with data := g L.data } }

/-- incflo.cpp:218-221: without overset meshes the two masks, `mc` and `mn`, are set to one on every level. -/
def setMasks (mc mn : ℕ) (s : State K) : State K :=
  s.mapData fun d => { d with ival := fun n c => if n = mc ∨ n = mn then some 1 else d.ival n c }

/-- Field.cpp:300-317 `advance_states` of a field with two states: the old one, `old`, gets the values of the new one,
`new`, on every level. -/
def advanceState (new old : ℕ) (s : State K) : State K :=
  s.mapData fun d => { d with val := fun n c => if n = old then d.val new c else d.val n c }

end AmrWind.Regrid
