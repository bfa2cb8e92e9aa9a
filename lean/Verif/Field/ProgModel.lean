import Verif.Field.FillModel

/-!
# Sequences of loops over cells, fills and reductions

The solver is a sequence of loops over levels, boxes and cells (`amrex::MFIter`, `ParallelFor`), fills of ghost cells (`Field::fillpatch`) and reductions over all cells and
ranks (`ReduceSum`, `ReduceMax`, `ParallelDescriptor::ReduceReal…`).  Here this shape is a small language, with a run on given boxes and a distribution to ranks, and a
check which ghost cells are known at each point.  Fields are cell-centred; a field on faces is one whose value in a cell is that of its lower face, computed with the box
grown by one.  A linear solve gives its solution, a function of the values of all cells and of the scalars.  Arithmetic is exact: the order of the additions of a sum does
not matter, solves have no error.
-/

set_option linter.unusedSectionVars false

namespace AmrWind.Prog

open FieldOps (Cell Box Layout Fld boxes inside)
open Fill (Geo Side Mapper)

variable {K : Type*}

/-- The mesh apart from its boxes, and per field what lies beyond the sides (it may depend on scalars, as inflow on the time) and how it is interpolated. -/
structure Setup (K : Type*) where
  dom : Box
  ratio : ℤ
  per : Fin 3 → Bool
  side : (ℕ → K) → ℕ → Fin 3 → Bool → Side K
  mp : ℕ → Mapper K
  junk : K

/-- The geometry for the field `n`. -/
def Setup.geo (S : Setup K) (sc : ℕ → K) (n : ℕ) : Geo K := ⟨S.dom, S.ratio, S.per, S.side sc n, none⟩

/-- Fields (`FieldRepo`) and scalars (time step, averages). -/
structure St (K : Type*) where
  fld : ℕ → Fld K
  sc : ℕ → K

/-- The body of a loop: scalars, level, cell, is the cell not refined, and the values of fields in cells. -/
abbrev Kern (K R : Type*) := (ℕ → K) → ℕ → Cell → Bool → (ℕ → Cell → ℕ → K) → R

/-- `amrex::ReduceSum`, `ReduceMax`: operation and value to begin with. -/
structure Red (K : Type*) where
  op : K → K → K
  e : K
  comm : ∀ a b, op a b = op b a
  assoc : ∀ a b c, op (op a b) c = op a (op b c)
  start : op e e = e

/-- One statement.  A body names the fields it reads, each with the distance of the cells it reads. -/
inductive Instr (K : Type*) where
  /-- Field.cpp:197-211 `fillpatch` with `ng` ghost cells -/
  | fill (n : ℕ) (ng : ℤ)
  /-- a loop over all boxes, grown by `grow` cells (`mfi.tilebox()`, `mfi.growntilebox(grow)`) -/
  | loop (dst : ℕ) (grow : ℤ) (reads : List (ℕ × ℤ)) (body : Kern K (ℕ → K))
  /-- a reduction over all cells -/
  | reduce (s : ℕ) (r : Red K) (reads : List (ℕ × ℤ)) (body : Kern K K)
  /-- a linear solve (`NodalProjector`, `MacProjector`, `MLMG`, called in incflo_apply_nodal_projection.cpp, icns_advection.H, icns_diffusion.H, diffusion.H): the solution
  in every cell from the values of all cells of the fields `reads` -/
  | solve (dst : ℕ) (reads : List ℕ) (F : (ℕ → K) → (ℕ → ℕ → Cell → Option (ℕ → K)) → ℕ → Cell → ℕ → K)
  /-- arithmetic with scalars -/
  | scalar (s : ℕ) (f : (ℕ → K) → K)

/-- `amrex::makeFineMask` with value 1 where no box of the next level lies (KineticEnergy.cpp:43-56). -/
def leaf (S : Setup K) (L : Layout) (lev : ℕ) (c : Cell) : Bool :=
  !(boxes L (lev + 1)).any fun x => decide (∀ d, x.lo d / S.ratio ≤ c d ∧ c d ≤ x.hi d / S.ratio)

/-- What a body sees in cell `c` of box `b`: values of the array of the box. -/
def look [Field K] (s : St K) (lev b : ℕ) (reads : List (ℕ × ℤ)) (c : Cell) : ℕ → Cell → ℕ → K := fun n c' k =>
  if k < (s.fld n).ncomp ∧ ∃ r ∈ reads, r.1 = n ∧ ∀ d, c d - r.2 ≤ c' d ∧ c' d ≤ c d + r.2 then (s.fld n).val lev b c' k else 0

/-- The values that the boxes `own` of a rank contribute (KineticEnergy.cpp:61-82). -/
def contributions [Field K] (S : Setup K) (L : Layout) (s : St K) (reads : List (ℕ × ℤ)) (body : Kern K K) (own : ℕ → List ℕ) : List K :=
  (List.range L.length).flatMap fun lev => (own lev).flatMap fun b => match (boxes L lev)[b]? with
    | none => []
    | some x => x.cells.map fun c => body s.sc lev c (leaf S L lev c) (look s lev b reads c)

/-- One statement on boxes `L` whose arrays are held by `ranks` (for each rank the numbers of its boxes on each level). -/
def step [Field K] (S : Setup K) (L : Layout) (ranks : List (ℕ → List ℕ)) (s : St K) : Instr K → St K
  | .fill n ng => ⟨Function.update s.fld n (Fill.fillpatch (S.geo s.sc n) (S.mp n) S.junk L (fun _ => ng) (s.fld n)), s.sc⟩
  | .loop dst grow reads body => ⟨Function.update s.fld dst ⟨(s.fld dst).ncomp, (s.fld dst).ngrow, fun lev b c k =>
      if inside L (fun _ => grow) lev b c ∧ k < (s.fld dst).ncomp then body s.sc lev c (leaf S L lev c) (look s lev b reads c) k else (s.fld dst).val lev b c k⟩, s.sc⟩
  | .reduce n r reads body => ⟨s.fld, Function.update s.sc n
      (ranks.foldr (fun own acc => r.op ((contributions S L s reads body own).foldr r.op r.e) acc) r.e)⟩
  | .solve dst reads F => ⟨Function.update s.fld dst ⟨(s.fld dst).ncomp, (s.fld dst).ngrow, fun lev b c k =>
      if inside L 0 lev b c ∧ k < (s.fld dst).ncomp then F s.sc (fun n l c => if n ∈ reads then Fill.own L (s.fld n) l c else none) lev c k else (s.fld dst).val lev b c k⟩, s.sc⟩
  | .scalar n f => ⟨s.fld, Function.update s.sc n (f s.sc)⟩

/-- A sequence of statements. -/
def run [Field K] (S : Setup K) (L : Layout) (ranks : List (ℕ → List ℕ)) (p : List (Instr K)) (s : St K) : St K := p.foldl (step S L ranks) s

/-- How many layers of ghost cells of each field are known after a statement, if all it reads is known before; a body must not read its own field in other cells, since
the order of the cells of a loop is not given. -/
def known (A : ℕ → ℤ) : Instr K → Option (ℕ → ℤ)
  | .fill n ng => if 0 ≤ ng then some (Function.update A n ng) else none
  | .loop dst grow reads _ => if 0 ≤ grow ∧ ∀ r ∈ reads, 0 ≤ r.2 ∧ r.2 + grow ≤ A r.1 ∧ (r.1 = dst → r.2 = 0) then some (Function.update A dst grow) else none
  | .reduce _ _ reads _ => if ∀ r ∈ reads, 0 ≤ r.2 ∧ r.2 ≤ A r.1 then some A else none
  | .solve dst _ _ => some (Function.update A dst 0)
  | .scalar _ _ => some A

/-- The check of a sequence. -/
def check : (ℕ → ℤ) → List (Instr K) → Option (ℕ → ℤ)
  | A, [] => some A
  | A, i :: p => (known A i).bind fun A => check A p

/-! ## Parts of the solver in this language: field 0 is velocity, 1 density, 2 turbulent viscosity, 3 and 4 tensor and its divergence -/

/-- Smagorinsky.cpp:36-61: strain rate (strainrate.H:34-110) into the viscosity, scaled by density and filter width, ghost cells filled. -/
def smagorinsky [Mul K] (strain : Kern K (ℕ → K)) (factor : ℕ → K) : List (Instr K) :=
  [.loop 2 0 [(0, 1)] strain, .loop 2 0 [(2, 0), (1, 0)] fun _ lev c _ at' _ => at' 2 c 0 * (at' 1 c 0 * factor lev), .fill 2 1]

/-- KineticEnergy.cpp:30-95: sum over the cells that are not refined, then the factor. -/
def kineticEnergy [Field K] (vol : ℕ → K) (total : K) : List (Instr K) :=
  [.reduce 0 ⟨(· + ·), 0, add_comm, add_assoc, add_zero 0⟩ [(1, 0), (0, 0)] fun _ lev c m at' =>
      vol lev * (if m then 1 else 0) * at' 1 c 0 * (at' 0 c 0 * at' 0 c 0 + at' 0 c 1 * at' 0 c 1 + at' 0 c 2 * at' 0 c 2),
    .scalar 0 fun sc => sc 0 * (1 / 2 / total)]

/-- Kosovic.cpp:85-86: a tensor of velocity gradients, then its divergence. -/
def kosovic (tensor divergence : Kern K (ℕ → K)) : List (Instr K) := [.loop 3 0 [(0, 1)] tensor, .loop 4 0 [(3, 1)] divergence]

/-- diffusion.H / incflo_diffusion.cpp and the projections in one step: a right-hand side from neighbours, a solve, the ghost cells of its solution, a correction by its
gradient (incflo_apply_nodal_projection.cpp:357-444 in outline; field 5 is the pressure increment, 6 the right-hand side). -/
def project (rhs grad : Kern K (ℕ → K)) (F : (ℕ → K) → (ℕ → ℕ → Cell → Option (ℕ → K)) → ℕ → Cell → ℕ → K) : List (Instr K) :=
  [.fill 0 1, .loop 6 0 [(0, 1), (1, 0)] rhs, .solve 5 [6, 1] F, .fill 5 1, .loop 0 0 [(0, 0), (1, 0), (5, 1)] grad]

/-- Convection of a field: values on faces from two cells on either side, then their differences (incflo_mol_fluxes.cpp:8-132 in outline; field 7 holds fluxes on lower
faces, field 8 the scalar). -/
def convect (flux diff : Kern K (ℕ → K)) : List (Instr K) := [.fill 0 3, .fill 8 3, .loop 7 1 [(0, 2), (8, 2)] flux, .loop 8 0 [(8, 0), (7, 1)] diff]

end AmrWind.Prog
