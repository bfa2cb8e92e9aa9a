import Mathlib.Data.List.Basic
import Mathlib.Data.List.Range

/-!
# The interface to NetCDF files (amr-wind/utilities/ncutils/nc_interface.{H,cpp})

The NetCDF library is not part of the repository.  `File` and the functions `nc…` are a model of what its documentation says about
NetCDF-4 files: dimensions are numbered through the whole file and seen from the groups below, variables are numbered in their group,
names are unique in a group, writing extends unlimited dimensions.  Errors of the library are `none`.  Left out: types and conversion
between them, attributes, parallel access, define mode, the buffer `recname`.
-/

set_option linter.unusedSectionVars false

namespace AmrWind.Nc

/-! ## The library -/

/-- A dimension of a file. -/
structure Dim where
  name : String
  unlim : Bool
  len : ℕ
deriving DecidableEq

/-- A variable: its name, the numbers of its dimensions, its values by index. -/
structure Var (V : Type) where
  name : String
  dims : List ℕ
  data : List ℕ → V

/-- A group: its name, the number of the group it is in (none for the file), the numbers of the dimensions defined in it, its variables. -/
structure Grp (V : Type) where
  name : String
  parent : Option ℕ
  dims : List ℕ
  vars : List (Var V)

/-- A file: all dimensions, all groups; number 0 is the file itself. -/
structure File (V : Type) where
  dims : List Dim
  grps : List (Grp V)

variable {V : Type}

/-- The groups from `g` up to the file; `n` bounds the depth. -/
def chain (f : File V) : ℕ → ℕ → List ℕ
  | 0, _ => []
  | n + 1, g => match f.grps[g]? with
    | none => []
    | some G => g :: match G.parent with
      | none => []
      | some p => chain f n p

/-- The dimension of the name that is defined in group `g` itself. -/
def ownDim (f : File V) (name : String) (g : ℕ) : Option ℕ :=
  match f.grps[g]? with
  | none => none
  | some G => G.dims.find? fun d => (f.dims[d]?.map Dim.name) == some name

/-- `nc_inq_dimid`: the nearest dimension of the name. -/
def ncInqDimid (f : File V) (g : ℕ) (name : String) : Option ℕ :=
  (chain f f.grps.length g).findSome? (ownDim f name)

/-- `nc_inq_dimlen`: the present length. -/
def ncInqDimlen (f : File V) (d : ℕ) : Option ℕ := f.dims[d]?.map Dim.len

/-- `nc_def_dim`; length 0 is `NC_UNLIMITED`. -/
def ncDefDim (f : File V) (g : ℕ) (name : String) (len : ℕ) : Option (File V × ℕ) :=
  match f.grps[g]? with
  | none => none
  | some _ =>
    if (ownDim f name g).isSome then none
    else some (⟨f.dims ++ [⟨name, len = 0, len⟩], f.grps.modify g fun G => { G with dims := G.dims ++ [f.dims.length] }⟩, f.dims.length)

/-- The number of the variable of the name in a group. -/
def ncInqVarid (f : File V) (g : ℕ) (name : String) : Option ℕ :=
  match f.grps[g]? with
  | none => none
  | some G => G.vars.findIdx? fun v => v.name == name

/-- The number of the group of the name in a group. -/
def ncInqNcid (f : File V) (g : ℕ) (name : String) : Option ℕ :=
  f.grps.findIdx? fun G => G.parent == some g && G.name == name

/-- `nc_def_var`: variables and groups share their names. -/
def ncDefVar (fill : V) (f : File V) (g : ℕ) (name : String) (dims : List ℕ) : Option (File V × ℕ) :=
  match f.grps[g]? with
  | none => none
  | some G =>
    if (ncInqVarid f g name).isSome || (ncInqNcid f g name).isSome then none
    else some (⟨f.dims, f.grps.modify g fun G => { G with vars := G.vars ++ [⟨name, dims, fun _ => fill⟩] }⟩, G.vars.length)

/-- `nc_def_grp`. -/
def ncDefGrp (f : File V) (g : ℕ) (name : String) : Option (File V × ℕ) :=
  match f.grps[g]? with
  | none => none
  | some _ =>
    if (ncInqVarid f g name).isSome || (ncInqNcid f g name).isSome then none
    else some (⟨f.dims, f.grps ++ [⟨name, some g, [], []⟩]⟩, f.grps.length)

/-- What a call ends with: a value, an abort with a message, or undefined behaviour. -/
inductive Res (α : Type) where
  | ok (a : α)
  | abort
  | ub
deriving DecidableEq

/-- nc_interface.cpp:16-23 `check_nc_error`. -/
def check {α : Type} : Option α → Res α
  | some a => .ok a
  | none => .abort

/-! ## Names -/

/-- nc_interface.cpp:403-407 `NCGroup::has_dim`. -/
def hasDim (f : File V) (g : ℕ) (name : String) : Bool := (ncInqDimid f g name).isSome

/-- nc_interface.cpp:323-328 `NCGroup::dim`. -/
def dim (f : File V) (g : ℕ) (name : String) : Res ℕ := check (ncInqDimid f g name)

/-- nc_interface.cpp:33-38 `NCDim::len`. -/
def len (f : File V) (d : ℕ) : Res ℕ := check (ncInqDimlen f d)

/-- nc_interface.cpp:330-335 `NCGroup::def_dim`. -/
def defDim (f : File V) (g : ℕ) (name : String) (n : ℕ) : Res (File V × ℕ) := check (ncDefDim f g name n)

/-- nc_interface.cpp:409-414 `NCGroup::has_var`. -/
def hasVar (f : File V) (g : ℕ) (name : String) : Bool := (ncInqVarid f g name).isSome

/-- nc_interface.cpp:362-367 `NCGroup::var`. -/
def var (f : File V) (g : ℕ) (name : String) : Res ℕ := check (ncInqVarid f g name)

/-- nc_interface.cpp:397-401 `NCGroup::has_group`. -/
def hasGroup (f : File V) (g : ℕ) (name : String) : Bool := (ncInqNcid f g name).isSome

/-- nc_interface.cpp:316-321 `NCGroup::group`. -/
def group (f : File V) (g : ℕ) (name : String) : Res ℕ := check (ncInqNcid f g name)

/-- nc_interface.cpp:309-314 `NCGroup::def_group`. -/
def defGroup (f : File V) (g : ℕ) (name : String) : Res (File V × ℕ) := check (ncDefGrp f g name)

/-- nc_interface.cpp:349-354 `NCGroup::def_array`: the names of the dimensions are looked up one by one. -/
def lookDims (f : File V) (g : ℕ) : List String → Res (List ℕ)
  | [] => .ok []
  | n :: r => match dim f g n with
    | .ok d => match lookDims f g r with
      | .ok ds => .ok (d :: ds)
      | .abort => .abort
      | .ub => .ub
    | .abort => .abort
    | .ub => .ub

/-- nc_interface.cpp:337-360, nc_interface.H `NCGroup::def_array`, `def_var`, and with no dimension `def_scalar`. -/
def defArray (fill : V) (f : File V) (g : ℕ) (name : String) (dnames : List String) : Res (File V × ℕ) :=
  match lookDims f g dnames with
  | .ok ds => check (ncDefVar fill f g name ds)
  | .abort => .abort
  | .ub => .ub

/-- The variable with number `v` of group `g`. -/
def theVar (f : File V) (g v : ℕ) : Option (Var V) :=
  match f.grps[g]? with
  | none => none
  | some G => G.vars[v]?

/-- The present lengths of dimensions. -/
def lens (f : File V) : List ℕ → Option (List ℕ)
  | [] => some []
  | d :: r => match ncInqDimlen f d, lens f r with
    | some n, some l => some (n :: l)
    | _, _ => none

/-- nc_interface.cpp:53-68 `NCVar::shape`. -/
def shape (f : File V) (g v : ℕ) : Option (List ℕ) :=
  match theVar f g v with
  | none => none
  | some x => lens f x.dims

/-- nc_interface.cpp:376-381 `NCGroup::num_dimensions`, `nc_inq`: the dimensions defined in the group. -/
def numDims (f : File V) (g : ℕ) : ℕ := match f.grps[g]? with
  | none => 0
  | some G => G.dims.length

/-- nc_interface.cpp:508-517 `NCGroup::all_dims`: the numbers from 0 on. -/
def allDims (f : File V) (g : ℕ) : List ℕ := (List.range (numDims f g)).map fun i => i

/-- nc_interface.cpp:390-395 `NCGroup::num_variables`. -/
def numVars (f : File V) (g : ℕ) : ℕ := match f.grps[g]? with
  | none => 0
  | some G => G.vars.length

/-- nc_interface.cpp:519-528 `NCGroup::all_vars`: the numbers from 0 on. -/
def allVars (f : File V) (g : ℕ) : List ℕ := (List.range (numVars f g)).map fun i => i

/-! ## Objects -/

/-- `NCGroup`: the number and the pointer to the object it was made from, null for a file. -/
inductive Handle where
  | mk (ncid : ℕ) (parent : Option Handle)

/-- The number of the group. -/
def Handle.ncid : Handle → ℕ
  | .mk n _ => n

/-- The pointer to the parent. -/
def Handle.up : Handle → Option Handle
  | .mk _ p => p

/-- nc_interface.H:168: `is_root`. -/
def isRoot (h : Handle) : Bool := h.up.isSome

/-- nc_interface.H:171: `parent`; a null pointer is dereferenced: `ub`. -/
def parent (h : Handle) : Res Handle :=
  if isRoot h then .ok h
  else match h.up with
    | some p => .ok p
    | none => .ub

/-- nc_interface.H:174-177: `root`. -/
def root : Handle → Res Handle
  | .mk n (some p) => if isRoot (.mk n (some p)) then .ok (.mk n (some p)) else root p
  | .mk n none => if isRoot (.mk n none) then .ok (.mk n none) else .ub

/-- nc_interface.cpp:289-297 `NCGroup::name`: the library tells the length of the full name; a buffer of zeros one longer gets the name
and becomes, as a whole, the string. -/
def groupName (full name : List Char) : List Char := name ++ List.replicate (full.length + 1 - name.length) '\x00'

/-- nc_interface.cpp:299-307 `NCGroup::full_name`: bytes the library writes into the buffer of `nlen` bytes: the name and its end mark. -/
def fullNameWritten (full : List Char) : ℕ := (full ++ ['\x00']).length

/-- nc_interface.cpp:299-307 `NCGroup::full_name`: undefined if the library writes beyond the buffer. -/
def fullName (full : List Char) : Res (List Char) :=
  if fullNameWritten full ≤ full.length then .ok full else .ub

/-- `NCFile`: whether the library has the file open, and the flag of the object. -/
structure Open where
  lib : Bool
  flag : Bool
deriving DecidableEq

/-- nc_interface.cpp:545-573 `NCFile::create`, `open` and their parallel forms, with success. -/
def opened : Open := ⟨true, true⟩

/-- nc_interface.cpp:582-586 `NCFile::close`: closing a file that is not open is an error of the library. -/
def close (o : Open) : Res Open := if o.lib then .ok ⟨false, false⟩ else .abort

/-- nc_interface.cpp:575-580 `NCFile::~NCFile`. -/
def destroy (o : Open) : Res Open := if o.flag then (if o.lib then .ok ⟨false, o.flag⟩ else .abort) else .ok o

/-! ## Values -/

/-- Start, count and stride of one dimension. -/
structure Sl where
  start : ℕ
  count : ℕ
  stride : ℕ
deriving DecidableEq

/-- The indices of a part of an array in the order of memory, last index fastest. -/
def indices : List Sl → List (List ℕ)
  | [] => [[]]
  | s :: r => (List.range s.count).flatMap fun i => (indices r).map fun q => (s.start + i * s.stride) :: q

/-- One past the last index along a dimension. -/
def Sl.stop (s : Sl) : ℕ := if s.count = 0 then 0 else s.start + (s.count - 1) * s.stride + 1

/-- Whether the part fits: `NC_EEDGE`, `NC_EINVALCOORDS`, `NC_ESTRIDE`.  `grow`: unlimited dimensions may grow. -/
def fits (grow : Bool) (d : Dim) (s : Sl) : Bool := decide (0 < s.stride) && ((grow && d.unlim) || (decide (s.start ≤ d.len) && decide (s.stop ≤ d.len)))

/-- Whether the part fits along all dimensions. -/
def fitsAll (grow : Bool) : List Dim → List Sl → Bool
  | d :: ds, s :: sl => fits grow d s && fitsAll grow ds sl
  | _, _ => true

/-- The dimensions of a variable. -/
def dimsOf (D : List Dim) : List ℕ → Option (List Dim)
  | [] => some []
  | d :: r => match D[d]?, dimsOf D r with
    | some x, some l => some (x :: l)
    | _, _ => none

/-- Values written one after the other. -/
def store (m : List ℕ → V) : List (List ℕ) → List V → List ℕ → V
  | i :: is, v :: vs => store (Function.update m i v) is vs
  | _, _ => m

/-- An unlimited dimension becomes long enough. -/
def growDims (ds : List Dim) : List ℕ → List Sl → List Dim
  | d :: r, s :: t => growDims (ds.modify d fun x => if x.unlim then { x with len := max x.len s.stop } else x) r t
  | _, _ => ds

/-- nc_interface.cpp:85-140 `NCVar::put` with start, count and stride; `vals` is what the pointer points to.  Shorter lists than the variable has dimensions, or
fewer values than the part has, are read beyond their end. -/
def put (f : File V) (g v : ℕ) (sl : List Sl) (vals : List V) : Res (File V) :=
  match theVar f g v with
  | none => .abort
  | some x => match dimsOf f.dims x.dims with
    | none => .abort
    | some ds =>
      if sl.length < ds.length then .ub
      else if !fitsAll true ds sl then .abort
      else if vals.length < (indices (sl.take ds.length)).length then .ub
      else .ok ⟨growDims f.dims x.dims sl,
        f.grps.modify g fun G => { G with vars := G.vars.modify v fun x => { x with data := store x.data (indices (sl.take ds.length)) vals } }⟩

/-- nc_interface.cpp:157-212 `NCVar::get` with start, count and stride. -/
def get (f : File V) (g v : ℕ) (sl : List Sl) : Res (List V) :=
  match theVar f g v with
  | none => .abort
  | some x => match dimsOf f.dims x.dims with
    | none => .abort
    | some ds =>
      if sl.length < ds.length then .ub
      else if !fitsAll false ds sl then .abort
      else .ok ((indices (sl.take ds.length)).map x.data)

/-- The whole of a variable: from 0, as many as it is long now. -/
def whole (f : File V) (g v : ℕ) : List Sl := ((shape f g v).getD []).map fun n => ⟨0, n, 1⟩

/-- nc_interface.cpp:70-83 `NCVar::put` of a whole variable. -/
def putAll (f : File V) (g v : ℕ) (vals : List V) : Res (File V) := put f g v (whole f g v) vals

/-- nc_interface.cpp:142-155 `NCVar::get` of a whole variable. -/
def getAll (f : File V) (g v : ℕ) : Res (List V) := get f g v (whole f g v)

/-- One more row of a series, as Sampling.cpp:566-601 `write_netcdf` and the other writers do it: the row number is the present length of the
time dimension `t`, then `rest` are the counts of the other dimensions. -/
def appendRow (f : File V) (g v t : ℕ) (rest : List ℕ) (vals : List V) : Res (File V) :=
  match ncInqDimlen f t with
  | none => .abort
  | some nt => put f g v (⟨nt, 1, 1⟩ :: rest.map fun c => ⟨0, c, 1⟩) vals

/-- All rows. -/
def appendRows (g v t : ℕ) (rest : List ℕ) : List (List V) → File V → Res (File V)
  | [], f => .ok f
  | r :: rs, f => match appendRow f g v t rest r with
    | .ok f' => appendRows g v t rest rs f'
    | .abort => .abort
    | .ub => .ub

end AmrWind.Nc
