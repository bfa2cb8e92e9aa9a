import Mathlib.Algebra.Order.Field.Basic
import Verif.Field.OpsModel

/-!
# Filling ghost cells: `core/Field.cpp` (`fillpatch`, `fillphysbc`), `core/FieldFillPatchOps.H`

The work on one level is done by AMReX (`FillPatchSingleLevel`, `FillPatchTwoLevels`, `PhysBCFunct`); it is modelled by its contract: first the cells of the grown box that
are held by boxes of the level, also shifted by periods, are copied, then the others inside the domain are interpolated from the level below, then the cells
beyond the sides of the domain are set in the array itself.  Fields are cell-centred or hold values on the faces across one direction; the interpolation is a parameter.
Not modelled: reflecting sides (no field of amr-wind has them), the time of the data (all data is of the time asked for, FieldFillPatchOps.H:253-255, 263-266), node-centred
fields.
-/

set_option linter.unusedSectionVars false

namespace AmrWind.Fill

open FieldOps (Cell Box Layout Fld boxes inside)

variable {K : Type*}

/-- What a side of the domain does to the cells beyond it: BCType::foextrap, BCType::hoextrap (BCInterface.cpp:240-245, 341-343, ScratchField.cpp:37, the default of
Field.H:237), or ext_dir with the functor of the field (`v` of level, cell and component). -/
inductive Side (K : Type*) where
  | extrap
  | slope
  | given (v : ℕ → Cell → ℕ → K)

/-- `amrex::Geometry` of all levels (`ratio` is `refRatio`) and the boundary conditions of a field (`m_field.bcrec()`, `bc_functor()`); `face` is the direction of the
faces on which it has its values (`m_face_dir`), none for cells. -/
structure Geo (K : Type*) where
  dom : Box
  ratio : ℤ
  per : Fin 3 → Bool
  side : Fin 3 → Bool → Side K
  face : Option (Fin 3)

/-- `Geom(lev).Domain()`. -/
def Geo.lo (g : Geo K) (lev : ℕ) (d : Fin 3) : ℤ := g.dom.lo d * g.ratio ^ lev

/-- `Geom(lev).Domain()`, upper end; there is one more face than cells (`big_end`, FieldBCOps.H:178-179). -/
def Geo.hi (g : Geo K) (lev : ℕ) (d : Fin 3) : ℤ := (g.dom.hi d + 1) * g.ratio ^ lev - 1 + (if g.face = some d then 1 else 0)

/-- `Geometry::period`. -/
def Geo.period (g : Geo K) (lev : ℕ) (d : Fin 3) : ℤ := (g.dom.hi d + 1 - g.dom.lo d) * g.ratio ^ lev

/-- The image inside the domain of a cell beyond a periodic side. -/
def Geo.wrap (g : Geo K) (lev : ℕ) (c : Cell) : Cell := fun d =>
  if g.per d then g.lo lev d + (c d - g.lo lev d) % g.period lev d else c d

/-- The first and the last face of a periodic direction are images of each other: the image that is the last one, if the other is the first. -/
def Geo.top (g : Geo K) (lev : ℕ) (c : Cell) : Cell := fun d =>
  if g.face = some d ∧ g.per d = true ∧ g.wrap lev c d = g.lo lev d then g.hi lev d else g.wrap lev c d

/-- FieldBCOps.H:177-185: is the cell beyond a side that is not periodic? -/
def Geo.beyond (g : Geo K) (lev : ℕ) (s : Fin 3 × Bool) (c : Cell) : Bool :=
  !g.per s.1 && (if s.2 then decide (g.hi lev s.1 < c s.1) else decide (c s.1 < g.lo lev s.1))

/-- `amrex::OrientationIter`. -/
def sides : List (Fin 3 × Bool) := [(0, false), (1, false), (2, false), (0, true), (1, true), (2, true)]

/-- The cells beyond the sides are the business of `PhysBCFunct`. -/
def Geo.out (g : Geo K) (lev : ℕ) (c : Cell) : Bool := sides.any fun s => g.beyond lev s c

/-- The domain of a level as a box. -/
def Geo.domain (g : Geo K) (lev : ℕ) : Box := ⟨g.lo lev, g.hi lev⟩

/-- The number of a box of the level that holds the cell. -/
def holder (L : Layout) (lev : ℕ) (c : Cell) : Option ℕ := (List.range (boxes L lev).length).find? fun b => inside L 0 lev b c

/-- The data of the level in a cell, if there is any. -/
def own (L : Layout) (f : Fld K) (lev : ℕ) (c : Cell) : Option (ℕ → K) := (holder L lev c).map fun b => f.val lev b c

/-- The data of the level in a cell or in an image of it a period away, if there is any; cells of the level itself come first, since they are not written. -/
def held (g : Geo K) (L : Layout) (f : Fld K) (lev : ℕ) (c : Cell) : Option (ℕ → K) :=
  ((own L f lev c).or (own L f lev (g.wrap lev c))).or (own L f lev (g.top lev c))

/-- Interpolation from the level below (`m_mapper`): the coarse values and the fine cell. -/
abbrev Mapper (K : Type*) := (Cell → ℕ → K) → Cell → ℕ → K

/-- The bounds of the array of a box with `ng` ghost cells. -/
def bounds (L : Layout) (ng : Fin 3 → ℤ) (lev b : ℕ) : Box := match (boxes L lev)[b]? with
  | some x => ⟨fun d => x.lo d - ng d, fun d => x.hi d + ng d⟩
  | none => ⟨0, 0⟩

section
variable [Field K]

/-- `filcc_cell` of AMReX in one direction, in an array with the bounds `a`.  foextrap: the first cell inside; hoextrap: in the ghost cell next to the side a combination
of three cells inside, or of two if the array or the domain has no third one, farther out the first cell inside. -/
def Geo.extend (g : Geo K) (lev : ℕ) (a : Box) (d : Fin 3) (v : Cell → K) (c : Cell) : K :=
  let at_ : ℤ → K := fun i => v (Function.update c d i)
  if g.beyond lev (d, false) c then
    let i := g.lo lev d
    match g.side d false with
    | .slope => if c d < i - 1 then at_ i else
        if i + 2 ≤ min (a.hi d) (g.hi lev d) then (15 * at_ i - 10 * at_ (i + 1) + 3 * at_ (i + 2)) / 8 else (3 * at_ i - at_ (i + 1)) / 2
    | _ => at_ i
  else if g.beyond lev (d, true) c then
    let i := g.hi lev d
    match g.side d true with
    | .slope => if i + 1 < c d then at_ i else
        if max (a.lo d) (g.lo lev d) ≤ i - 2 then (15 * at_ i - 10 * at_ (i - 1) + 3 * at_ (i - 2)) / 8 else (3 * at_ i - at_ (i - 1)) / 2
    | _ => at_ i
  else v c

/-- FieldBCOps.H:149-197: the sides with given values, one after another. -/
def Geo.give (g : Geo K) (lev : ℕ) (v : K) (c : Cell) (k : ℕ) : K :=
  sides.foldl (fun v s => if g.beyond lev s c then match g.side s.1 s.2 with
    | .given w => w lev c k
    | _ => v else v) v

/-- `GpuBndryFuncFab` on the values `v` of an array with the bounds `a`: extrapolation (the ghost cells beyond one side first, then those beyond two and three; there the
last direction is applied to cells already extrapolated in the others), then the sides with given values. -/
def Geo.bc (g : Geo K) (lev : ℕ) (a : Box) (v : Cell → K) (c : Cell) (k : ℕ) : K :=
  g.give lev (g.extend lev a 2 (g.extend lev a 1 (g.extend lev a 0 v)) c) c k

/-- The coarse patch of `FillPatchTwoLevels` (FieldFillPatchOps.H:257-258, 263-267): data of the coarse level and its boundary conditions; `junk` is what memory holds
where there is none.  Simplification: the patch is taken to hold the three cells next to a side that it touches (patches are coarsened pieces of blocking factor). -/
def coarse (g : Geo K) (junk : K) (L : Layout) (f : Fld K) (lev : ℕ) (c : Cell) (k : ℕ) : K :=
  g.bc lev (g.domain lev) (fun c => match held g L f lev c with
    | some v => v k
    | none => junk) c k

/-- The array of box `b` after copies and interpolation. -/
def copied (g : Geo K) (mp : Mapper K) (junk : K) (L : Layout) (ng : Fin 3 → ℤ) (f : Fld K) (lev b : ℕ) : Cell → ℕ → K := fun c k =>
  if inside L ng lev b c ∧ g.out lev c = false then
    match held g L f lev c with
    | some v => v k
    | none => match lev with
      | 0 => f.val lev b c k
      | l + 1 => mp (coarse g junk L f l) c k
  else f.val lev b c k

/-- `PhysBCFunct::FillBoundary` on one array `v`. -/
def physBox (g : Geo K) (L : Layout) (ng : Fin 3 → ℤ) (ncomp lev b : ℕ) (v : Cell → ℕ → K) : Cell → ℕ → K := fun c k =>
  if inside L ng lev b c ∧ g.out lev c ∧ k < ncomp then g.bc lev (bounds L ng lev b) (fun c => v c k) c k else v c k

/-- FieldFillPatchOps.H:242-269 `fillpatch` of one level with the field itself as destination (Field.cpp:205-206). -/
def fillLevel (g : Geo K) (mp : Mapper K) (junk : K) (L : Layout) (ng : Fin 3 → ℤ) (f : Fld K) (lev : ℕ) : Fld K :=
  ⟨f.ncomp, f.ngrow, fun lev' b => if lev' = lev then
      physBox g L ng f.ncomp lev b fun c k => if k < f.ncomp then copied g mp junk L ng f lev b c k else f.val lev b c k
    else f.val lev' b⟩

/-- Field.cpp:197-211 `Field::fillpatch`: the levels one after another. -/
def fillpatch (g : Geo K) (mp : Mapper K) (junk : K) (L : Layout) (ng : Fin 3 → ℤ) (f : Fld K) : Fld K :=
  (List.range L.length).foldl (fillLevel g mp junk L ng) f

/-- The faces across direction `d` of the boxes (`amrex::convert(ba, IntVect::TheDimensionVector(d))`). -/
def nodal (d : Fin 3) (L : Layout) : Layout := L.map fun l => l.map fun x => ⟨x.lo, fun e => if e = d then x.hi e + 1 else x.hi e⟩

/-- Interpolation of faces (`m_face_mapper`, FaceDivFree): the coarse values of the three fields, the known fine ones, the direction and the fine face. -/
abbrev FaceMapper (K : Type*) := (Fin 3 → Cell → K) → (Fin 3 → Cell → Option K) → Fin 3 → Cell → K

/-- What the interpolation of level `lev` reads (FieldFillPatchOps.H:323-327). -/
def faceMap (G : Fin 3 → Geo K) (mp : FaceMapper K) (junk : K) (L : Layout) (f : Fin 3 → Fld K) (lev : ℕ) (i : Fin 3) : Mapper K := fun _ c _ =>
  mp (fun j c => coarse (G j) junk (nodal j L) (f j) (lev - 1) c 0) (fun j c => (held (G j) (nodal j L) (f j) lev c).map fun v => v 0) i c

/-- FieldFillPatchOps.H:272-329 `fillpatch_sibling_fields` of one level: three fields of one component, on the faces across the three directions, filled together with
the boundary conditions of the components of one field (`physbc_bcrec`, `bc_functor_face(i)`, component `i`). -/
def siblingLevel (G : Fin 3 → Geo K) (mp : FaceMapper K) (junk : K) (L : Layout) (ng : Fin 3 → ℤ) (f : Fin 3 → Fld K) (lev : ℕ) : Fin 3 → Fld K := fun i =>
  fillLevel (G i) (faceMap G mp junk L f lev i) junk (nodal i L) ng (f i) lev

/-- Field.cpp:212-237 `Field::fillpatch_sibling_fields`. -/
def siblings (G : Fin 3 → Geo K) (mp : FaceMapper K) (junk : K) (L : Layout) (ng : Fin 3 → ℤ) (f : Fin 3 → Fld K) : Fin 3 → Fld K :=
  (List.range L.length).foldl (siblingLevel G mp junk L ng) f

/-- ABLFillInflow.cpp:71-103 (`ph_bcrec`), ABLFillMPL.cpp:81-106: sides with inflow (`mass_inflow`, `mass_inflow_outflow`) are extrapolated at order zero. -/
def Geo.released (g : Geo K) (inflow : Fin 3 → Bool → Bool) : Geo K := { g with side := fun d hi => if inflow d hi then .extrap else g.side d hi }

/-- ABLFillInflow.cpp:58-115 for one level: `tinterp` is the time for which the planes hold data, `put` writes them to the faces (ABLBoundaryPlane.cpp:1304-1401), unless they are
newer than `time` by more than `tol` (ABLBoundaryPlane.H:173-178).  `fp_bcrec` matters to the interpolation only, which is a parameter. -/
def planeLevel [LinearOrder K] (tol tinterp time : K) (put : ℕ → Fin 3 → Fld K → Fld K) (inflow : Fin 3 → Bool → Bool) (G : Fin 3 → Geo K) (mp : FaceMapper K) (junk : K)
    (L : Layout) (ng : Fin 3 → ℤ) (f : Fin 3 → Fld K) (lev : ℕ) : Fin 3 → Fld K :=
  let F := siblingLevel (fun i => (G i).released inflow) mp junk L ng f lev
  if tol < tinterp - time then F else fun i => put lev i (F i)

/-- Field.cpp:212-237 with the fill of recorded planes. -/
def planeSiblings [LinearOrder K] (tol tinterp time : K) (put : ℕ → Fin 3 → Fld K → Fld K) (inflow : Fin 3 → Bool → Bool) (G : Fin 3 → Geo K) (mp : FaceMapper K) (junk : K)
    (L : Layout) (ng : Fin 3 → ℤ) (f : Fin 3 → Fld K) : Fin 3 → Fld K :=
  (List.range L.length).foldl (planeLevel tol tinterp time put inflow G mp junk L ng) f

/-- The velocities on faces in a step with recorded planes: the planes are read for the middle of the step and the faces filled (ABL.cpp:247-249, PDEBase.cpp:139-148), the planes
are read for its end (ABL.cpp:257), the faces computed anew (`solve`), and filled again for the middle of the step (PDE.H:143-145, icns_advection.H:219-224). -/
def planeStep [LinearOrder K] (tol t dt : K) (put : K → ℕ → Fin 3 → Fld K → Fld K) (inflow : Fin 3 → Bool → Bool) (G : Fin 3 → Geo K) (mp : FaceMapper K) (junk : K) (L : Layout)
    (ng : Fin 3 → ℤ) (solve : (Fin 3 → Fld K) → Fin 3 → Fld K) (f : Fin 3 → Fld K) : (Fin 3 → Fld K) × (Fin 3 → Fld K) :=
  let mid := t + 1 / 2 * dt
  let a := planeSiblings tol mid mid (put mid) inflow G mp junk L ng f
  (a, planeSiblings tol (t + dt) mid (put (t + dt)) inflow G mp junk L ng (solve a))

/-- FieldFillPatchOps.H:351-361 `fillphysbc` of one level. -/
def physLevel (g : Geo K) (L : Layout) (ng : Fin 3 → ℤ) (f : Fld K) (lev : ℕ) : Fld K :=
  ⟨f.ncomp, f.ngrow, fun lev' b => if lev' = lev then physBox g L ng f.ncomp lev b (f.val lev b) else f.val lev' b⟩

/-- Field.cpp:252-265 `Field::fillphysbc`. -/
def fillphysbc (g : Geo K) (L : Layout) (ng : Fin 3 → ℤ) (f : Fld K) : Fld K :=
  (List.range L.length).foldl (physLevel g L ng) f

end

/-- FieldFillPatchOps.H:102-118 `FieldFillConstScalar::fillpatch` (and 145-153 `fillphysbc`): the whole array. -/
def constLevel (v : K) (L : Layout) (f : Fld K) (lev : ℕ) : Fld K :=
  ⟨f.ncomp, f.ngrow, fun lev' b c k => if lev' = lev ∧ inside L f.ngrow lev b c ∧ k < f.ncomp then v else f.val lev' b c k⟩

end AmrWind.Fill
