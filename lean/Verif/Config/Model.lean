import Mathlib.Data.List.Basic
import Verif.Plane.Model

/-!
# Model of input handling: `core/MultiParser.H`, `core/CollMgr.H`, `core/Factory.H`,
`boundary_conditions/BCInterface.cpp`, `core/FieldBCOps.H`, `MassInflowOutflowBC.cpp`, `FixedGradientBC.cpp`

`amrex::ParmParse` is not part of /repo. It is modelled as a table from full names to the list of values given for the
name; a name that is absent has no values (AMReX refuses definitions without values). Values are already decoded.
`none` is an abort.
-/

namespace AmrWind.Config

open Plane

/-! ## ParmParse (AMReX, trusted) -/

/-- The input: full name to values. -/
abbrev Params (V : Type*) := String → List V

section
variable {V : Type*}

/-- `ParmParse::contains`. -/
def has (p : Params V) (k : String) : Bool := !(p k).isEmpty

/-- `ParmParse::query` of a scalar: the first value if there is one, otherwise the variable keeps its value. -/
def query (p : Params V) (k : String) (v : V) : V := (p k).headD v

/-- `ParmParse::get` of a scalar: aborts if absent. -/
def get (p : Params V) (k : String) : Option V := (p k).head?

/-- `ParmParse::queryarr` with all values: the vector is enlarged if it is too short and its first entries are
overwritten; it is never shortened. -/
def queryarr (p : Params V) (k : String) (ref : List V) : List V := p k ++ ref.drop (p k).length

/-- `ParmParse::getarr` with all values: as `queryarr`, aborts if absent. -/
def getarr (p : Params V) (k : String) (ref : List V) : Option (List V) :=
  if has p k then some (queryarr p k ref) else none

/-- `ParmParse::queryarr(name, ref, 0, n)`: aborts if fewer than `n` values are given. -/
def queryarrN (p : Params V) (k : String) (n : ℕ) (ref : List V) : Option (List V) :=
  if has p k then if n ≤ (p k).length then some ((p k).take n ++ ref.drop n) else none else some ref

/-- `ParmParse::getarr(name, ref, 0, n)`. -/
def getarrN (p : Params V) (k : String) (n : ℕ) (ref : List V) : Option (List V) :=
  if has p k then queryarrN p k n ref else none

/-! ## MultiParser.H -/

/-- MultiParser.H:17-22, 155-157: the two namespaces. -/
structure MultiParser (V : Type*) where
  dflt : Params V
  spec : Params V

/-- MultiParser.H:34-37. -/
def MultiParser.contains (m : MultiParser V) (k : String) : Bool := has m.spec k || has m.dflt k

/-- MultiParser.H:117-125. -/
def MultiParser.get (m : MultiParser V) (k : String) : Option V :=
  if has m.spec k then Config.get m.spec k else Config.get m.dflt k

/-- MultiParser.H:128-136. -/
def MultiParser.getarr (m : MultiParser V) (k : String) (v : List V) : Option (List V) :=
  if has m.spec k then Config.getarr m.spec k v else Config.getarr m.dflt k v

/-- MultiParser.H:139-144. -/
def MultiParser.query (m : MultiParser V) (k : String) (v : V) : V :=
  Config.query m.spec k (Config.query m.dflt k v)

/-- MultiParser.H:148-153. -/
def MultiParser.queryarr (m : MultiParser V) (k : String) (v : List V) : List V :=
  Config.queryarr m.spec k (Config.queryarr m.dflt k v)

/-- MultiParser.H:43-51: `get` of a `vs::Vector`. -/
def MultiParser.getVec (m : MultiParser V) (k : String) : Option (V × V × V) :=
  (m.getarr k []).bind fun val => match val with
    | [a, b, c] => some (a, b, c)
    | _ => none

/-- MultiParser.H:58-68: `query` of a `vs::Vector`. -/
def MultiParser.queryVec (m : MultiParser V) (k : String) (v : V × V × V) : Option (V × V × V) :=
  match m.queryarr k [] with
  | [] => some v
  | [a, b, c] => some (a, b, c)
  | _ => none

/-- MultiParser.H:75-90. -/
def MultiParser.getEither (m : MultiParser V) (k : String) : Option (V × V × V) :=
  (m.getarr k []).bind fun val => match val with
    | [a] => some (a, a, a)
    | [a, b, c] => some (a, b, c)
    | _ => none

/-- MultiParser.H:97-114. -/
def MultiParser.queryEither (m : MultiParser V) (k : String) (v : V × V × V) : Option (V × V × V) :=
  match m.queryarr k [] with
  | [] => some v
  | [a] => some (a, a, a)
  | [a, b, c] => some (a, b, c)
  | _ => none

end

/-! ## Factory.H and CollMgr.H -/

section
variable {C : Type*}

/-- Factory.H:125-127, 149-153: the lookup table; a class `C` stands for its constructor. -/
abbrev Factory (C : Type*) := String → Option C

/-- Factory.H:100-109 `add_sub_type`. -/
def register (t : Factory C) (r : String × C) : Factory C := fun k => if k = r.1 then some r.2 else t k

/-- Factory.H:158-161: the static registrations, in the order the program happens to run them. -/
def registerAll (rs : List (String × C)) : Factory C := rs.foldl register fun _ => none

/-- CollMgr.H:82-86: the objects (key and class of each; the position in the vector is the identity of the object) and
the map. -/
structure Coll (C : Type*) where
  objs : List (String × C)
  map : String → Option ℕ

/-- An empty collection. -/
def Coll.empty : Coll C := ⟨[], fun _ => none⟩

/-- CollMgr.H:57-61. -/
def Coll.contains (s : Coll C) (k : String) : Bool := (s.map k).isSome

/-- CollMgr.H:64-72: the object found for a key (`none`: `at` throws). -/
def Coll.at (s : Coll C) (k : String) : Option ℕ := s.map k

/-- CollMgr.H:40-50 (with Factory.H:71-78, 131-146): the new collection and the object returned. -/
def Coll.create (dup : Bool) (t : Factory C) (s : Coll C) (k : String) : Option (Coll C × ℕ) :=
  if !dup && s.contains k then (s.at k).map fun n => (s, n)
  else (t k).map fun c =>
    (⟨s.objs ++ [(k, c)], fun k' => if k' = k then some s.objs.length else s.map k'⟩, s.objs.length)

/-- A sequence of creations, with the objects returned. -/
def Coll.run (dup : Bool) (t : Factory C) : Coll C → List String → Option (Coll C × List ℕ)
  | s, [] => some (s, [])
  | s, k :: ks => (s.create dup t k).bind fun r => (Coll.run dup t r.1 ks).map fun q => (q.1, r.2 :: q.2)

end

/-! ## Boundary types: BCInterface.cpp -/

/-- incflo_enums.H:13-26. -/
inductive BC where
  | pressure_outflow | mass_inflow | mass_inflow_outflow | zero_gradient | no_slip_wall | slip_wall | wall_model
  | fixed_gradient | periodic | wave_generation | symmetric_wall | undefined
deriving DecidableEq

/-- `amrex::Orientation`: a direction and a side (`true` is the high side). -/
abbrev Face := Axis × Bool

/-- The order of `amrex::OrientationIter`. -/
def faces : List Face := [(.x, false), (.y, false), (.z, false), (.x, true), (.y, true), (.z, true)]

/-- BCInterface.H:33 `bcnames`. -/
def bcname : Face → String
  | (.x, false) => "xlo"
  | (.y, false) => "ylo"
  | (.z, false) => "zlo"
  | (.x, true) => "xhi"
  | (.y, true) => "yhi"
  | (.z, true) => "zhi"

/-- BCInterface.cpp:44-48: the name given for a face, lower case. -/
def bcString (p : Params String) (field : String) (f : Face) : String :=
  (query p (bcname f ++ "." ++ (field ++ "_type")) (query p (bcname f ++ ".type") "null")).toLower

/-- BCInterface.cpp:65-87. -/
def bcOfName (s : String) : BC :=
  if s = "pressure_outflow" ∨ s = "po" then .pressure_outflow
  else if s = "mass_inflow" ∨ s = "mi" then .mass_inflow
  else if s = "mass_inflow_outflow" ∨ s = "mio" then .mass_inflow_outflow
  else if s = "no_slip_wall" ∨ s = "nsw" then .no_slip_wall
  else if s = "slip_wall" ∨ s = "sw" then .slip_wall
  else if s = "wall_model" ∨ s = "wm" then .wall_model
  else if s = "zero_gradient" ∨ s = "zg" then .zero_gradient
  else if s = "fixed_gradient" ∨ s = "fg" then .fixed_gradient
  else if s = "wave_generation" ∨ s = "wg" then .wave_generation
  else if s = "symmetric_wall" ∨ s = "symw" then .symmetric_wall
  else .undefined

/-- BCInterface.cpp:52-93: one face. -/
def bcOfFace (periodic : Bool) (s : String) : Option BC :=
  if periodic = true ∧ s ≠ "null" ∧ s ≠ "periodic" then none
  else if periodic = true then some .periodic
  else if bcOfName s = .undefined then none
  else some (bcOfName s)

/-- BCInterface.cpp:37-96 `read_bctype`: the loop over the faces, writing `ibctype`. -/
def readBCType (per : Axis → Bool) (p : Params String) (field : String) (t0 : Face → BC) : Option (Face → BC) :=
  faces.foldlM (fun t f => (bcOfFace (per f.1) (bcString p field f)).map fun b =>
    fun g => if g = f then b else t g) t0

/-- `amrex::BCType::mathematicalBndryTypes` used by the code. -/
inductive MathBC where
  | bogus | int_dir | foextrap | hoextrap | ext_dir | direction_dependent
deriving DecidableEq

/-- `bcrec`: component, direction, side. -/
abbrev Bcrec := ℕ → Axis → Bool → MathBC

/-- The component of a vector normal to a direction. -/
def normalComp : Axis → ℕ
  | .x => 0
  | .y => 1
  | .z => 2

/-- BCInterface.H:73-89 `set_bcrec_lo`, `set_bcrec_hi` for a field with `ncomp` components. -/
def setBcrec (ncomp : ℕ) (r : Bcrec) (f : Face) (t : MathBC) : Bcrec :=
  fun n d s => if n < ncomp ∧ (d, s) = f then t else r n d s

/-- `bcrec[n].setLo(dir, t)` or `setHi`. -/
def setOne (r : Bcrec) (m : ℕ) (f : Face) (t : MathBC) : Bcrec :=
  fun n d s => if n = m ∧ (d, s) = f then t else r n d s

/-- BCInterface.cpp:193-267: one face of `BCVelocity::set_bcrec`; the flag is `set_inout_bndry`. -/
def velFace (ncomp : ℕ) (bc : Face → BC) (r : Bcrec × Bool) (f : Face) : Option (Bcrec × Bool) :=
  match bc f with
  | .periodic => some (setBcrec ncomp r.1 f .int_dir, r.2)
  | .pressure_outflow | .zero_gradient => some (setBcrec ncomp r.1 f .foextrap, r.2)
  | .wave_generation | .mass_inflow | .no_slip_wall => some (setBcrec ncomp r.1 f .ext_dir, r.2)
  | .mass_inflow_outflow => some (setBcrec ncomp r.1 f .direction_dependent, true)
  | .slip_wall | .wall_model => some (setOne (setBcrec ncomp r.1 f .hoextrap) (normalComp f.1) f .ext_dir, r.2)
  | .symmetric_wall => some (setOne (setBcrec ncomp r.1 f .foextrap) (normalComp f.1) f .ext_dir, r.2)
  | .fixed_gradient | .undefined => none

/-- BCInterface.cpp:188-268 `BCVelocity::set_bcrec`. -/
def velBcrec (ncomp : ℕ) (bc : Face → BC) (r : Bcrec × Bool) : Option (Bcrec × Bool) :=
  faces.foldlM (velFace ncomp bc) r

/-- BCInterface.cpp:293-350: one face of `BCScalar::set_bcrec` (also pressure). -/
def scalarFace (ncomp : ℕ) (bc : Face → BC) (r : Bcrec × Bool) (f : Face) : Option (Bcrec × Bool) :=
  match bc f with
  | .periodic => some (setBcrec ncomp r.1 f .int_dir, r.2)
  | .pressure_outflow | .zero_gradient | .symmetric_wall => some (setBcrec ncomp r.1 f .foextrap, r.2)
  | .wave_generation | .mass_inflow | .no_slip_wall => some (setBcrec ncomp r.1 f .ext_dir, r.2)
  | .mass_inflow_outflow => some (setBcrec ncomp r.1 f .direction_dependent, true)
  | .slip_wall | .wall_model | .fixed_gradient => some (setBcrec ncomp r.1 f .hoextrap, r.2)
  | .undefined => none

/-- BCInterface.cpp:290-351 `BCScalar::set_bcrec`. -/
def scalarBcrec (ncomp : ℕ) (bc : Face → BC) (r : Bcrec × Bool) : Option (Bcrec × Bool) :=
  faces.foldlM (scalarFace ncomp bc) r

/-- BCInterface.cpp:397-445 `BCSrcTerm::set_bcrec` (`t` first-order extrapolation) and
`BCFillPatchExtrap::set_bcrec` (`t` the extrapolation asked for). -/
def extrapBcrec (t : MathBC) (ncomp : ℕ) (bc : Face → BC) (r : Bcrec) : Bcrec :=
  faces.foldl (fun r f => if bc f = .periodic then setBcrec ncomp r f .int_dir else setBcrec ncomp r f t) r

/-! ## User-defined functions: BCInterface.cpp:118-186 -/

/-- The name found so far and whether one was found (`inflow_udf`, `has_inflow_udf`). -/
abbrev Udf := String × Bool

/-- BCInterface.cpp:138-150 (and 154-167, 170-182): one face of one kind. -/
def udfStep (given : List String) (u : Udf) : Option Udf :=
  match given with
  | [] => some u
  | v :: _ => if u.2 = true ∧ u.1 ≠ v then none else some (v, true)

/-- BCInterface.cpp:132-183: the names for inflow, inflow-outflow and (slip) wall faces. -/
def udfFace (bc : Face → BC) (p : Params String) (field : String) (u : Udf × Udf × Udf) (f : Face) :
    Option (Udf × Udf × Udf) :=
  let key (s : String) := p (bcname f ++ "." ++ (field ++ s))
  let a := if bc f = .mass_inflow then udfStep (key ".inflow_type") u.1 else some u.1
  let b := if bc f = .mass_inflow_outflow then udfStep (key ".inflow_outflow_type") u.2.1 else some u.2.1
  let c := if bc f = .slip_wall then udfStep (key ".wall_type") u.2.2 else some u.2.2
  a.bind fun a => b.bind fun b => c.map fun c => (a, b, c)

/-- BCInterface.cpp:118-186 `get_dirichlet_udfs`. -/
def dirichletUdfs (bc : Face → BC) (p : Params String) (field : String) : Option (String × String × String) :=
  (faces.foldlM (udfFace bc p field)
    (("ConstDirichlet", false), ("ConstDirichlet", false), ("ConstDirichlet", false))).map
    fun u => (u.1.1, u.2.1.1, u.2.2.1)

/-- velocity_bcs.H:57-87 and scalar_bcs.cpp:5-31: the inflow operator finally registered on the field
(`register_fill_patch_op` replaces the one before, Field.H:312-316). `known` is the list of profile names that exist for
the field (velocity_bcs.H:20-54, scalar_bcs.H:14-27). -/
def registerUdf (known : List String) (u : String × String × String) : Option String :=
  if u.1 = "ConstDirichlet" ∧ u.2.1 = "ConstDirichlet" ∧ u.2.2 = "ConstDirichlet" then some "ConstDirichlet"
  else if u.2.2 ≠ "ConstDirichlet" then none
  else
    let r : Option String := if u.1 ≠ "ConstDirichlet" then if u.1 ∈ known then some u.1 else none
      else some "ConstDirichlet"
    r.bind fun r => if u.2.1 ≠ "ConstDirichlet" then if u.2.1 ∈ known then some u.2.1 else none else some r

/-- velocity_bcs.H:27-50. -/
def velocityProfiles : List String :=
  ["LinearProfile", "PowerLawProfile", "BurggrafLid", "Rankine", "CustomVelocity", "TwoLayer"]

/-! ## Values -/

section
variable {K : Type*}

/-- BCInterface.cpp:270-288 `BCVelocity::read_values` for one face: `v0` is the default. -/
def velValues [Zero K] (p : Params K) (field : String) (bc : Face → BC) (f : Face) (v0 : List K) : Option (List K) :=
  (queryarrN p (bcname f ++ "." ++ field) 3 v0).map fun v =>
    if bc f = .no_slip_wall then v.set (normalComp f.1) 0 else v

/-- BCInterface.cpp:353-377 `BCScalar::read_values` for one face. -/
def scalarValues (p : Params K) (field : String) (bc : Face → BC) (udfs : String × String × String) (ncomp : ℕ)
    (f : Face) (v0 : List K) : Option (List K) :=
  if (bc f = .mass_inflow ∧ udfs.1 = "ConstDirichlet") ∨ (bc f = .mass_inflow_outflow ∧ udfs.2.1 = "ConstDirichlet")
  then getarrN p (bcname f ++ "." ++ field) ncomp v0
  else queryarrN p (bcname f ++ "." ++ field) ncomp v0

/-- BCInterface.cpp:379-395 `BCPressure::read_values` for one face. -/
def pressureValues (p : Params K) (field : String) (bc : Face → BC) (ncomp : ℕ) (f : Face) (v0 : List K) :
    Option (List K) :=
  if bc f = .pressure_outflow then queryarrN p (bcname f ++ "." ++ field) ncomp v0 else some v0

/-- FieldBCOps.H:177-182: is the index beyond the face? `faceDir` is the direction of a face-centred field. -/
def beyond (dom : Bx) (faceDir : Option Axis) (iv : Cell) (f : Face) : Bool :=
  if f.2 then f.1.idx iv > f.1.idx dom.hi + (if faceDir = some f.1 then 1 else 0)
  else f.1.idx iv < f.1.idx dom.lo

/-- FieldBCOps.H:149-197 `DirichletOp::operator()` for one component `n` at one index: `v` is the value in the array.
`inflow` and `wall` are the operators for the two kinds of faces. -/
def dirichletOp (dom : Bx) (faceDir : Option Axis) (bc : Face → BC) (r : Bcrec) (inflow wall : Face → ℕ → Cell → K)
    (n : ℕ) (iv : Cell) (v : K) : K :=
  faces.foldl (fun v f =>
    if r n f.1 f.2 ≠ .ext_dir ∧ r n f.1 f.2 ≠ .direction_dependent then v
    else if beyond dom faceDir iv f = false then v
    else if bc f = .mass_inflow ∨ bc f = .mass_inflow_outflow then inflow f n iv
    else wall f n iv) v

/-- FieldBCOps.H:96-109 `ConstDirichlet`. -/
def constDirichlet (vals : Face → ℕ → K) : Face → ℕ → Cell → K := fun f n _ => vals f n

/-- The cell next to `c` in a direction. -/
def step (d : Axis) (s : ℤ) (c : Cell) : Cell :=
  match d with
  | .x => (c.1 + s, c.2.1, c.2.2)
  | .y => (c.1, c.2.1 + s, c.2.2)
  | .z => (c.1, c.2.1, c.2.2 + s)

/-- `amrex::grow` in the directions other than `d` (MassInflowOutflowBC.cpp:33-36). -/
def growTangent (d : Axis) (b : Bx) : Bx :=
  match d with
  | .x => ⟨(b.lo.1, b.lo.2.1 - 1, b.lo.2.2 - 1), (b.hi.1, b.hi.2.1 + 1, b.hi.2.2 + 1)⟩
  | .y => ⟨(b.lo.1 - 1, b.lo.2.1, b.lo.2.2 - 1), (b.hi.1 + 1, b.hi.2.1, b.hi.2.2 + 1)⟩
  | .z => ⟨(b.lo.1 - 1, b.lo.2.1 - 1, b.lo.2.2), (b.hi.1 + 1, b.hi.2.1 + 1, b.hi.2.2)⟩

/-- The index `m` in direction `d`, the others of `c`. -/
def withIdx (d : Axis) (m : ℤ) (c : Cell) : Cell :=
  match d with
  | .x => (m, c.2.1, c.2.2)
  | .y => (c.1, m, c.2.2)
  | .z => (c.1, c.2.1, m)

/-- The ghost cells of one box written by the loops over `bdryLo` and `bdryHi`: for the low face the loop index is the
first interior layer and the ghost cell is one below (MassInflowOutflowBC.cpp:41-47), for the high face the loop index is
one above the box (`bdryHi` of a cell-centred box, MassInflowOutflowBC.cpp:57-61). -/
def ghostLayer (f : Face) (b : Bx) : Bx :=
  let m := if f.2 then f.1.idx b.hi + 1 else f.1.idx b.lo - 1
  ⟨withIdx f.1 m b.lo, withIdx f.1 m b.hi⟩

/-- MassInflowOutflowBC.cpp:9-75 for one box, one component: the new value of the array at every index. `vel` is the
velocity component normal to the face. Simplification: the array of the field and `vel` are those before the call (for
the velocity itself the test of a ghost cell is made before that cell is written, and no interior cell is written). -/
def inflowOutflow [LT K] [Zero K] [DecidableLT K] (dom : Bx) (f : Face) (b : Bx) (vel phi : Cell → K) (c : Cell) : K :=
  let bx := growTangent f.1 b
  let inner := step f.1 (if f.2 then -1 else 1) c
  let atEdge := if f.2 then f.1.idx bx.hi = f.1.idx dom.hi else f.1.idx bx.lo = f.1.idx dom.lo
  let out := if f.2 then vel c > 0 else vel c < 0
  if atEdge ∧ c ∈ cells (ghostLayer f bx) ∧ out then phi inner else phi c

/-- FixedGradientBC.cpp:6-72 for one box, one component. -/
def fixedGradient (dom : Bx) (f : Face) (b : Bx) (g : K) (phi : Cell → K) (c : Cell) : K :=
  let atEdge := if f.2 then f.1.idx b.hi = f.1.idx dom.hi else f.1.idx b.lo = f.1.idx dom.lo
  if atEdge ∧ c ∈ cells (ghostLayer f b) then g else phi c

end

end AmrWind.Config
