import Verif.Vs.Model
import Mathlib.Algebra.Order.Floor.Ring

/-!
# Model of index operations and static/geometric mesh refinement

`utilities/index_operations.{H,cpp}`, `utilities/tagging/{CartBoxRefinement,GeometryRefinement,
CylinderRefiner,BoxRefiner,UDFRefiner}.cpp`.  `amrex::Real` is an ordered field with a floor function; the
cylinder's bounding box uses the real square root.  Conversion to `int` is exact (no overflow).
-/

namespace AmrWind.Tag

open AmrWind.Vs

variable {K : Type*} [Field K] [LinearOrder K] [IsStrictOrderedRing K] [FloorRing K]

/-- `amrex::Geometry` of one level: lower corner, cell size, number of cells.  `ProbHi` is
`lo + n dx`; the domain box is `0 .. n-1`. -/
structure Geom (K : Type*) where
  lo : Fin 3 → K
  dx : Fin 3 → K
  n : Fin 3 → ℕ

/-- `ProbHi`. -/
def Geom.hi (g : Geom K) (d : Fin 3) : K := g.lo d + g.n d * g.dx d

/-- A physical box (`amrex::RealBox`). -/
structure RBox (K : Type*) where
  lo : Fin 3 → K
  hi : Fin 3 → K

/-- A cell-centred index box (`amrex::Box`), bounds inclusive. -/
structure IBox where
  lo : Fin 3 → ℤ
  hi : Fin 3 → ℤ

/-- `Box::contains(IntVect)`. -/
def IBox.has (b : IBox) (c : Fin 3 → ℤ) : Prop := ∀ d, b.lo d ≤ c d ∧ c d ≤ b.hi d

/-- The domain box of a geometry. -/
def Geom.domain (g : Geom K) : IBox := ⟨fun _ => 0, fun d => g.n d - 1⟩

/-- `operator&` of two boxes. -/
def IBox.inter (a b : IBox) : IBox := ⟨fun d => max (a.lo d) (b.lo d), fun d => min (a.hi d) (b.hi d)⟩

/-- `Box::isEmpty()` (= not ok): some upper bound below the lower bound. -/
def IBox.empty (a : IBox) : Prop := ∃ d, a.hi d < a.lo d

/-- index_operations.cpp:4-24 `realbox_to_box` (`dxi` is `1/dx`). -/
def realboxToBox (r : RBox K) (g : Geom K) : IBox where
  lo := fun d => ⌊(max (r.lo d) (g.lo d) - g.lo d) * (1 / g.dx d)⌋
  hi := fun d => ⌈(min (r.hi d) (g.hi d) - g.lo d) * (1 / g.dx d)⌉

/-- index_operations.H:97-110 `contains`: is the cell holding a point in the box? -/
def contains (b : IBox) (pos : Fin 3 → K) (g : Geom K) : Prop :=
  b.has (fun d => ⌊(pos d - g.lo d) * (1 / g.dx d)⌋)

/-- Centre of a cell, e.g. CylinderRefiner.cpp:70-72. -/
def center (g : Geom K) (c : Fin 3 → ℤ) (d : Fin 3) : K := g.lo d + (c d + 1 / 2) * g.dx d

/-- A point as a vector. -/
def toVec (p : Fin 3 → K) : Vec K := ⟨p 0, p 1, p 2⟩

/-- Component of a vector. -/
def comp (v : Vec K) (d : Fin 3) : K := if d = 0 then v.x else if d = 1 then v.y else v.z

/-! ### Static boxes (CartBoxRefinement) -/

/-- CartBoxRefinement.cpp:50-73 `realbox_to_boxarray`: one index box per region, with a division in place
of the product with the inverse. -/
def realboxToBoxArray (rs : List (RBox K)) (g : Geom K) : List IBox :=
  rs.map fun r =>
    { lo := fun d => ⌊(max (r.lo d) (g.lo d) - g.lo d) / g.dx d⌋
      hi := fun d => ⌈(min (r.hi d) (g.hi d) - g.lo d) / g.dx d⌉ }

/-- CartBoxRefinement.cpp:95-128 `read_inputs`: regions per level in the file, geometry per level of the
mesh; the number of levels is the smaller one. -/
def cartBoxArrays (regions : List (List (RBox K))) (geoms : List (Geom K)) : List (List IBox) :=
  (regions.zip geoms).map fun p => realboxToBoxArray p.1 p.2

/-- CartBoxRefinement.cpp:130-136 `operator()`: `tags.setVal(boxarray, SET)` tags the cells of the tag
array (here: the given boxes of the level) that lie in one of the boxes. -/
def cartTagged (arrays : List (List IBox)) (level : ℕ) (boxes : List IBox) (c : Fin 3 → ℤ) : Prop :=
  (∃ b ∈ boxes, b.has c) ∧ ∃ ba, arrays[level]? = some ba ∧ ∃ b ∈ ba, b.has c

/-! ### Geometric refinement -/

/-- A `GeometryType`: bounding box and test of a cell centre. -/
structure Shape (K : Type*) where
  bound : RBox K
  inside : (Fin 3 → K) → Prop

/-- GeometryRefinement.cpp:34-71 `operator()`.  `tiles` are the boxes visited by `MFIter`; a shape is
applied to the *whole* tile if its index box meets the tile.  `setLevel = -1` means not set. -/
def geomTagged (shapes : List (Shape K)) (setLevel minLevel maxLevel level : ℤ) (g : Geom K)
    (tiles : List IBox) (c : Fin 3 → ℤ) : Prop :=
  ¬ (setLevel > -1 ∧ level ≠ setLevel) ∧ ¬ (level < minLevel ∨ level > maxLevel) ∧
  ∃ bx ∈ tiles, bx.has c ∧ ∃ s ∈ shapes, ¬ (bx.inter (realboxToBox s.bound g)).empty ∧
    s.inside (center g c)

/-- CylinderRefiner.cpp:61-90: the test of a point. -/
def cylInside (start stop : Vec K) (outer inner : K) (p : Fin 3 → K) : Prop :=
  let axis := stop - start
  let magax := magSqr axis
  let pvec := toVec p - start
  let daxis := dot pvec axis
  0 ≤ daxis ∧ daxis ≤ magax ∧
    dot pvec pvec - daxis * daxis / magax ≤ outer * outer ∧
    inner * inner ≤ dot pvec pvec - daxis * daxis / magax

/-- CylinderRefiner.cpp:38-53: the bounding box. -/
noncomputable def cylBound (start stop : Vec ℝ) (outer : ℝ) : RBox ℝ :=
  let axis := stop - start
  let proj := fun d => outer * Real.sqrt (1 - comp axis d * comp axis d / magSqr axis)
  let rad := fun d => (1 + 1 / 20) * proj d
  { lo := fun d => min (comp start d - rad d) (comp stop d - rad d)
    hi := fun d => max (comp start d + rad d) (comp stop d + rad d) }

/-- The cylinder refiner. -/
noncomputable def cylinder (start stop : Vec ℝ) (outer inner : ℝ) : Shape ℝ :=
  ⟨cylBound start stop outer, cylInside start stop outer inner⟩

/-- BoxRefiner.cpp:27-45 `compute_hex_corners`. -/
def hexCorners (o x y z : Vec K) : List (Vec K) :=
  [o, o + x, o + x + y, o + y, o + z, o + z + x, o + z + x + y, o + z + y]

/-- BoxRefiner.cpp:52-76 `compute_face_normals` and line 91 `face_origin`: for each face the corner the
distance is measured from and the normal `v1 ^ v2`, `v1 = node[fids[1]] - node[fids[0]]`,
`v2 = node[fids[3]] - node[fids[0]]`. -/
def faces (o x y z : Vec K) : List (Vec K × Vec K) :=
  let n0 := o
  let n1 := o + x
  let n2 := o + x + y
  let n3 := o + y
  let n4 := o + z
  let n5 := o + z + x
  let n6 := o + z + x + y
  let n7 := o + z + y
  [ (n0, cross (n4 - n0) (n3 - n0)),   -- {0,4,7,3} xmin
    (n1, cross (n2 - n1) (n5 - n1)),   -- {1,2,6,5} xmax
    (n0, cross (n1 - n0) (n4 - n0)),   -- {0,1,5,4} ymin
    (n2, cross (n3 - n2) (n6 - n2)),   -- {2,3,7,6} ymax
    (n0, cross (n3 - n0) (n1 - n0)),   -- {0,3,2,1} zmin
    (n4, cross (n5 - n4) (n7 - n4)) ]  -- {4,5,6,7} zmax

/-- BoxRefiner.cpp:145-170: the test of a point. -/
def boxInside (o x y z : Vec K) (p : Fin 3 → K) : Prop :=
  ∀ f ∈ faces o x y z, ¬ 0 < dot (toVec p - f.1) f.2

/-- BoxRefiner.cpp:94-107: minimum and maximum corner.  `big` is `numeric_limits::max()`, `tiny` is
`numeric_limits::min()`, which for floating point is the smallest *positive* number. -/
def minCorner (big : K) (cs : List (Vec K)) (d : Fin 3) : K :=
  cs.foldl (fun m c => if comp c d < m then comp c d else m) big
def maxCorner (tiny : K) (cs : List (Vec K)) (d : Fin 3) : K :=
  cs.foldl (fun m c => if m < comp c d then comp c d else m) tiny

/-- BoxRefiner.cpp:108-117: the bounding box, 5% larger. -/
def boxBound (big tiny : K) (o x y z : Vec K) : RBox K :=
  let cs := hexCorners o x y z
  let rad := fun d => 1 / 20 * (maxCorner tiny cs d - minCorner big cs d)
  { lo := fun d => minCorner big cs d - rad d
    hi := fun d => maxCorner tiny cs d + rad d }

/-- The hexahedron refiner. -/
def hexahedron (big tiny : K) (o x y z : Vec K) : Shape K :=
  ⟨boxBound big tiny o x y z, boxInside o x y z⟩

/-- UDFRefiner.cpp:9-48 (at a fixed time): the user function decides; the bounding box is the domain of level 0 unless
`box_lo`/`box_hi` are given. -/
def udf (bound : RBox K) (f : (Fin 3 → K) → K) : Shape K := ⟨bound, fun p => f p ≠ 0⟩

end AmrWind.Tag
