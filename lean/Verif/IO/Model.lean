import Mathlib.Data.List.Dedup
import Mathlib.Tactic.Common

/-!
# Model of the output lists: plot files, subvolumes, derived quantities

`utilities/{IOManager,DerivedQuantity,DerivedQtyDefs}.cpp`, `utilities/io_utils.H`,
`utilities/subvolume/Subvolume.cpp`.  A data column is modelled by its provenance (which component of which
field it holds), so what is proved is which data end up in which column.
-/

namespace AmrWind.IO

/-- A field (or int field) as far as output is concerned. -/
structure Fld where
  name : String
  ncomp : ℕ
  deriving DecidableEq, Repr

/-- Where the data of one output column come from. -/
inductive Src
  | field (f : Fld) (comp : ℕ)
  | intField (f : Fld) (comp : ℕ)
  | derived (name : String) (ncomp comp : ℕ)
  deriving DecidableEq, Repr

/-- io_utils.H:41-64 `add_var_names` (the names pushed). -/
def addVarNames (fname : String) (ncomp : ℕ) : List String :=
  match ncomp with
  | 1 => [fname]
  | 3 => [fname ++ "x", fname ++ "y", fname ++ "z"]
  | n => (List.range n).map fun i => fname ++ toString i

/-- A derived quantity: either one with its own name and number of components (vorticity magnitude,
Q-criterion, strain rate, gradient, divergence, Laplacian; DerivedQtyDefs.H:8-130), or selected components of
a field (DerivedQtyDefs.H:137-158). -/
inductive Qty
  | plain (name : String) (ncomp : ℕ)
  | components (f : Fld) (comps : List ℕ)
  deriving DecidableEq, Repr

/-- `name()`; DerivedQtyDefs.H:144 for field components. -/
def Qty.name : Qty → String
  | .plain n _ => n
  | .components f _ => f.name

/-- `num_comp()`; DerivedQtyDefs.H:146, DerivedQtyDefs.cpp:122 for field components. -/
def Qty.numComp : Qty → ℕ
  | .plain _ n => n
  | .components _ cs => cs.length

/-- DerivedQuantity.cpp:58-61 `var_names`, DerivedQtyDefs.cpp:131-138 for field components (`names[ic]`,
empty string standing for an invalid read, excluded by the assertion of DerivedQtyDefs.cpp:126). -/
def Qty.varNames : Qty → List String
  | .plain n k => addVarNames n k
  | .components f cs => cs.map fun ic => (addVarNames f.name f.ncomp)[ic]?.getD ""

/-- DerivedQtyDefs.cpp:126-127: the selected components exist. -/
def Qty.Valid : Qty → Prop
  | .plain _ _ => True
  | .components f cs => ∀ c ∈ cs, c < f.ncomp

/-- A scratch field: what each component holds (`none`: nothing written yet). -/
abbrev Cols := ℕ → Option Src

/-- `MultiFab::Copy(mf, src, 0, icomp, n, 0)`: components `0..n-1` of a source to `icomp..`. -/
def copyCols (out : Cols) (src : ℕ → Src) (icomp n : ℕ) : Cols :=
  fun k => if icomp ≤ k ∧ k < icomp + n then some (src (k - icomp)) else out k

/-- DerivedQtyDefs.cpp:140-148: the loop over the selected components. -/
def writeComps (f : Fld) : List ℕ → ℕ → Cols → Cols
  | [], _, out => out
  | c :: cs, dst, out => writeComps f cs (dst + 1) (copyCols out (fun _ => .field f c) dst 1)

/-- `operator()(fld, scomp)` of a derived quantity. -/
def Qty.write (q : Qty) (out : Cols) (scomp : ℕ) : Cols :=
  match q with
  | .plain n k => copyCols out (fun i => .derived n k i) scomp k
  | .components f cs => writeComps f cs scomp out

/-- DerivedQuantity.cpp:101-108 `num_comp`. -/
def mgrNumComp (qs : List Qty) : ℕ := qs.foldl (fun n q => n + q.numComp) 0

/-- DerivedQuantity.cpp:116-121 `var_names`. -/
def mgrVarNames (qs : List Qty) : List String := qs.flatMap Qty.varNames

/-- DerivedQuantity.cpp:93-97: the loop of `operator()`. -/
def mgrWrite : List Qty → Cols → ℕ → Cols
  | [], out, _ => out
  | q :: qs, out, icomp => mgrWrite qs (q.write out icomp) (icomp + q.numComp)

/-! ### The derived-quantity manager -/

/-- `m_derived_vec` and `m_obj_map`, DerivedQuantity.H:58-60 (the map as an association list). -/
structure Mgr where
  vec : List Qty
  map : List (String × ℕ)
  deriving DecidableEq

/-- `m_obj_map[key]`. -/
def Mgr.find (m : Mgr) (key : String) : Option ℕ := (m.map.find? (fun p => p.1 = key)).map Prod.snd

/-- DerivedQuantity.cpp:12-20 `strip_spaces`. -/
def stripSpaces (s : String) : String := String.ofList (s.toList.filter (· ≠ ' '))

/-- DerivedQuantity.cpp:65-80 `create`: the returned object (`none`: read beyond the vector) and the new
state.  `mk` makes the object for a key (parsing and factory, DerivedQuantity.cpp:74-76). -/
def Mgr.create (mk : String → Qty) (m : Mgr) (key : String) : Option Qty × Mgr :=
  let name := stripSpaces key
  match m.find name with
  | some i => (m.vec[i]?, m)
  | none => (some (mk name), ⟨m.vec ++ [mk name], (name, m.vec.length) :: m.map⟩)

/-- DerivedQuantity.cpp:82-87 `create` for a list of keys. -/
def Mgr.createAll (mk : String → Qty) (m : Mgr) (keys : List String) : Mgr :=
  keys.foldl (fun m k => (m.create mk k).2) m

/-- DerivedQuantity.cpp:110-114 `contains`. -/
def Mgr.contains (m : Mgr) (key : String) : Bool := (m.find key).isSome

/-- DerivedQuantity.cpp:132-139: the keys to erase; `none` when an erased object has no key (then
`it->first` reads the end iterator). -/
def keysToErase (map : List (String × ℕ)) (erase : List String) : List Qty → ℕ → Option (List String)
  | [], _ => some []
  | q :: qs, i =>
    if q.name ∈ erase then
      match map.find? (fun p => p.2 = i) with
      | none => none
      | some p => (keysToErase map erase qs (i + 1)).map (p.1 :: ·)
    else keysToErase map erase qs (i + 1)

/-- DerivedQuantity.cpp:129-152 `filter`: the indices stored in the map are not adjusted. -/
def Mgr.filter (m : Mgr) (erase : List String) : Option Mgr :=
  (keysToErase m.map erase m.vec 0).map fun ks =>
    ⟨m.vec.filter (fun q => q.name ∉ erase), m.map.filter (fun p => p.1 ∉ ks)⟩

/-! ### Plot files -/

/-- The part of `IOManager` set up by `initialize_io`. -/
structure Plot where
  numComp : ℕ
  fields : List Fld
  intFields : List Fld
  names : List String
  mgr : Mgr

/-- IOManager.cpp:65-89: the names to write.  A `std::set` removes duplicates; it also sorts, which is not
modelled (the order is the same for names and data). -/
def outputNames (requested skip defaults : List String) (useDefaults : Bool) : List String :=
  (requested ++ if useDefaults then defaults.filter (· ∉ skip) else []).dedup

/-- IOManager.cpp:93-118: names without a field are skipped with a message. -/
def addFields (lookup : String → Option Fld) (names : List String) : List Fld := names.filterMap lookup

/-- IOManager.cpp:93-125.  `lookup`/`lookupInt` are the field registry. -/
def initPlot (lookup lookupInt : String → Option Fld) (mk : String → Qty)
    (outputs intOutputs derivedVars : List String) : Option Plot :=
  let fs := addFields lookup outputs
  let is := addFields lookupInt intOutputs
  let n := (fs.map Fld.ncomp).sum + (is.map Fld.ncomp).sum
  let names := fs.flatMap (fun f => addVarNames f.name f.ncomp) ++
    is.flatMap (fun f => addVarNames f.name f.ncomp)
  if derivedVars = [] then some ⟨n, fs, is, names, ⟨[], []⟩⟩
  else match ((⟨[], []⟩ : Mgr).createAll mk derivedVars).filter outputs with
    | none => none
    | some mgr => some ⟨n + mgrNumComp mgr.vec, fs, is, names ++ mgrVarNames mgr.vec, mgr⟩

/-- IOManager.cpp:150-154: the loop over the fields. -/
def writeFields : List Fld → Cols → ℕ → Cols × ℕ
  | [], out, icomp => (out, icomp)
  | f :: fs, out, icomp => writeFields fs (copyCols out (fun i => .field f i) icomp f.ncomp) (icomp + f.ncomp)

/-- IOManager.cpp:156-161: the loop over the int fields. -/
def writeIntFields : List Fld → Cols → ℕ → Cols × ℕ
  | [], out, icomp => (out, icomp)
  | f :: fs, out, icomp =>
    writeIntFields fs (copyCols out (fun i => .intField f i) icomp f.ncomp) (icomp + f.ncomp)

/-- IOManager.cpp:135-164 `write_plot_file`: the columns written. -/
def Plot.write (p : Plot) : Cols :=
  let start := p.numComp - mgrNumComp p.mgr.vec
  let r := writeFields p.fields (fun _ => none) 0
  let r := writeIntFields p.intFields r.1 r.2
  mgrWrite p.mgr.vec r.1 start

/-! ### Subvolumes -/

/-- What `Subvolume::initialize` sets up, Subvolume.cpp:62-106. -/
structure Subvol where
  fields : List Fld
  intFields : List Fld
  qtys : List Qty

/-- Subvolume.cpp:75-106: the variable names. -/
def Subvol.names (s : Subvol) : List String :=
  s.fields.flatMap (fun f => addVarNames f.name f.ncomp) ++
    s.intFields.flatMap (fun f => addVarNames f.name f.ncomp) ++ mgrVarNames s.qtys

/-- Subvolume.cpp:142 `n_out`. -/
def Subvol.numOut (s : Subvol) : ℕ :=
  (s.fields.map Fld.ncomp).sum + (s.intFields.map Fld.ncomp).sum + mgrNumComp s.qtys

/-- Subvolume.cpp:175-177: the loop over the fields; `icomp` is not advanced. -/
def svWriteFields : List Fld → Cols → ℕ → Cols
  | [], out, _ => out
  | f :: fs, out, icomp => svWriteFields fs (copyCols out (fun i => .field f i) icomp f.ncomp) icomp

/-- Subvolume.cpp:144-186: the columns written.  The derived quantities are computed in a scratch field
first (lines 145-149) and then copied. -/
def Subvol.write (s : Subvol) : Cols :=
  let scr := mgrWrite s.qtys (fun _ => none) 0
  let out := svWriteFields s.fields (fun _ => none) 0
  let r := writeIntFields s.intFields out 0
  fun k => if r.2 ≤ k ∧ k < r.2 + mgrNumComp s.qtys then scr (k - r.2) else r.1 k

/-! ### Parsing of derived-quantity keys -/

/-- Result of parsing. -/
inductive Parsed
  | ok (dname : List Char) (args : List (List Char))
  /-- `amrex::Abort`, DerivedQuantity.cpp:33 -/
  | abort
  /-- `std::string::back()` of an empty string, DerivedQuantity.cpp:42 -/
  | undefined
  deriving DecidableEq

/-- DerivedQuantity.cpp:45-51: split a string that ends in a comma. -/
def splitArgs : List Char → List Char → List (List Char)
  | [], _ => []
  | c :: cs, cur => if c = ',' then cur :: splitArgs cs [] else splitArgs cs (cur ++ [c])

/-- DerivedQuantity.cpp:22-54 `parse_derived_qty` (on a list of characters). -/
def parseQty (key : List Char) : Parsed :=
  if '(' ∈ key then
    if ')' ∈ key then
      let popen := key.idxOf '('
      let pclose := key.idxOf ')'
      let dname := (key.take popen).filter (· ≠ ' ')
      -- `substr(popen + 1, pclose - popen - 1)`; the count wraps around to a huge number if `pclose < popen`
      let body := if pclose < popen then key.drop (popen + 1)
        else (key.drop (popen + 1)).take (pclose - popen - 1)
      let fargs := body.filter (· ≠ ' ')
      match fargs.getLast? with
      | none => .undefined
      | some c => .ok dname (splitArgs (if c = ',' then fargs else fargs ++ [',']) [])
    else .abort
  else .ok key []

end AmrWind.IO
