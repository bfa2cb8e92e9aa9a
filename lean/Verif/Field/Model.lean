import Mathlib.Logic.Function.Basic
import Mathlib.Algebra.Group.Defs
import Mathlib.Data.List.Infix

/-!
# Model of the field registry: `amr-wind/core/FieldRepo.{H,cpp}`, `Field.cpp`, `FieldUtils.H`

A `std::string` is a list of characters.  The contents of a `MultiFab` (all components and ghost cells
on one level) is one value of an arbitrary type `V`; the box array of a level is not modelled.  A
`Field*`/`Field&` is the position of the field in `m_field_vec` (fields are never removed).
`std::shared_ptr<FieldInfo>` is an index into `groups`.  The fill-patch operators are not modelled:
what they put into a freshly made level is an arbitrary function `fill`.
-/

namespace AmrWind.FieldRepo

/-- `std::string` -/
abbrev Name := List Char

/-- FieldDescTypes.H:18-26 `FieldState`. -/
inductive FState where
  | NP1 | N | NM1 | NPH | NMH
  deriving DecidableEq, Repr

/-- FieldDescTypes.H:31-37 `FieldLoc`. -/
inductive Loc where
  | cell | node | xface | yface | zface
  deriving DecidableEq, Repr

/-- FieldUtils.H:41-62: the suffix `field_name_with_state` appends. -/
def suffix : FState → Name
  | .NP1 => []
  | .N => ['_', '_', 'F', 'S', '_', 'O', 'l', 'd']
  | .NM1 => ['_', '_', 'F', 'S', '_', 'N', 'M', '1']
  | .NPH => ['_', '_', 'F', 'S', '_', 'N', 'P', 'H']
  | .NMH => ['_', '_', 'F', 'S', '_', 'N', 'M', 'H']

/-- FieldUtils.H:40-62 `field_name_with_state`. -/
def nameWithState (base : Name) (st : FState) : Name := base ++ suffix st

/-- The guard `"__FS_"` of FieldUtils.H:76. -/
def guard : Name := ['_', '_', 'F', 'S', '_']

/-- FieldUtils.H:73-78 `is_valid_field_name`: `name.rfind("__FS_") == npos`. -/
def isValidName (name : Name) : Prop := ¬ guard <:+: name

instance (name : Name) : Decidable (isValidName name) := by unfold isValidName; infer_instance

/-- A `Field` together with the constant part of its shared `FieldInfo`
(Field.cpp:16-36 and 98-110). -/
structure Field where
  name : Name
  base : Name
  ncomp : Int
  ngrow : Int
  nstates : Int
  loc : Loc
  id : ℕ
  state : FState
  /-- which `FieldInfo` object -/
  group : ℕ
  deriving DecidableEq

/-- A `MultiFab` of one level. -/
structure Arr (V : Type*) where
  ncomp : Int
  ngrow : Int
  loc : Loc
  data : V
  deriving DecidableEq

/-- `FieldRepo` data members, FieldRepo.H (bottom of the class). -/
structure Repo (V : Type*) where
  /-- `m_field_vec` -/
  fields : List Field
  /-- `m_fid_map` -/
  fidMap : Name → Option ℕ
  /-- `m_states` of every `FieldInfo` -/
  groups : List (FState → Option ℕ)
  /-- `m_leveldata[lev]->m_mfabs` for `lev = 0 .. finestLevel` -/
  levels : List (List (Arr V))
  /-- `m_is_initialized` -/
  initialized : Bool

/-- Outcomes other than success. -/
inductive Err where
  /-- `amrex::Abort("Attempt to reregister field with inconsistent parameters")` -/
  | inconsistent
  /-- `amrex::Abort("Invalid number of states specified")` -/
  | invalidStates
  /-- `amrex::Abort("Attempt to use reserved field name")` -/
  | reservedName
  /-- `amrex::Abort("Cannot find field")` -/
  | notFound
  /-- undefined behaviour (out-of-range access, null pointer) -/
  | ub
  deriving DecidableEq, Repr

variable {V : Type*} [Zero V]

/-- The empty repository. -/
def empty : Repo V := ⟨[], fun _ => none, [], [], false⟩

/-- FieldRepo.cpp:123-143 (one pass of the loop) and 501-519 (`create_state`): make one field instance
for state `st` of the `FieldInfo` with index `g`, allocate it on the active levels if the mesh exists
(FieldRepo.cpp:428-452, `setVal(0)`), and register it. -/
def addField (r : Repo V) (base : Name) (ncomp ngrow nstates : Int) (loc : Loc) (g : ℕ)
    (st : FState) : Repo V :=
  let fid := r.fields.length
  let fname := nameWithState base st
  { fields := r.fields ++ [⟨fname, base, ncomp, ngrow, nstates, loc, fid, st, g⟩]
    fidMap := Function.update r.fidMap fname (some fid)
    groups := r.groups.modify g (fun m => Function.update m st (some fid))
    levels := if r.initialized then r.levels.map (· ++ [⟨ncomp, ngrow, loc, 0⟩]) else r.levels
    initialized := r.initialized }

/-- FieldRepo.cpp:120-143: the loop over states. -/
def addStates (r : Repo V) (base : Name) (ncomp ngrow nstates : Int) (loc : Loc) (g : ℕ) :
    List FState → Repo V
  | [] => r
  | st :: sts => addStates (addField r base ncomp ngrow nstates loc g st) base ncomp ngrow nstates loc g sts

/-- The states `static_cast<FieldState>(i)`, `i = 0 .. n-1`, for `n ≤ 3`. -/
def firstStates (n : ℕ) : List FState := [FState.NP1, .N, .NM1].take n

/-- FieldRepo.cpp:85-147 `declare_field`.  Returns the new repository and the position of the
returned field.  With `nstates ≤ 0` the loop does not run and `m_fid_map[name]` (line 146) inserts
the default value 0. -/
def declare (r : Repo V) (name : Name) (ncomp ngrow nstates : Int) (loc : Loc) :
    Except Err (Repo V × ℕ) :=
  match r.fidMap name with
  | some id =>
    match r.fields[id]? with
    | none => .error .ub
    | some f =>
      if ncomp ≠ f.ncomp ∨ f.nstates ≠ nstates ∨ loc ≠ f.loc then .error .inconsistent
      else .ok (r, id)
  | none =>
    if 3 < nstates then .error .invalidStates
    else if ¬ isValidName name then .error .reservedName
    else
      let g := r.groups.length
      let r1 := { r with groups := r.groups ++ [fun _ => none] }
      let r2 := addStates r1 name ncomp ngrow nstates loc g (firstStates nstates.toNat)
      match r2.fidMap name with
      | some id => .ok (r2, id)
      | none =>
        if r2.fields = [] then .error .ub
        else .ok ({ r2 with fidMap := Function.update r2.fidMap name (some 0) }, 0)

/-- FieldRepo.cpp:149-165 `get_field` by name and state. -/
def getField (r : Repo V) (name : Name) (st : FState) : Except Err ℕ :=
  match r.fidMap (nameWithState name st) with
  | none => .error .notFound
  | some id => if id < r.fields.length then .ok id else .error .notFound

/-- FieldRepo.cpp:217-223 `field_exists`. -/
def fieldExists (r : Repo V) (name : Name) (st : FState) : Bool :=
  (r.fidMap (nameWithState name st)).isSome

/-- Field.cpp:113-127 `Field::state`: the pointer stored for the state (`nullptr`: undefined
behaviour, only asserted in debug builds). -/
def stateOf (r : Repo V) (fid : ℕ) (st : FState) : Except Err ℕ :=
  match r.fields[fid]? with
  | none => .error .ub
  | some f =>
    match r.groups[f.group]? with
    | none => .error .ub
    | some m => match m st with
      | none => .error .ub
      | some id => .ok id

/-- Field.cpp:327-335 `Field::create_state` with FieldRepo.cpp:493-521 `FieldRepo::create_state`. -/
def createState (r : Repo V) (fid : ℕ) (st : FState) : Except Err (Repo V × ℕ) :=
  match r.fields[fid]? with
  | none => .error .ub
  | some f =>
    match r.groups[f.group]? with
    | none => .error .ub
    | some m =>
      match m st with
      | some id => .ok (r, id)
      | none =>
        .ok (addField r f.base f.ncomp f.ngrow f.nstates f.loc f.group st, r.fields.length)

/-- FieldRepo.cpp:410-426 `allocate_field_data(ba, dm, level_data, factory)` followed by whatever the
caller fills in (FieldRepo.cpp:41-48, 66-73): one array per field in the order of `m_field_vec`. -/
def freshLevel (r : Repo V) (fill : ℕ → V) : List (Arr V) :=
  r.fields.map (fun f => ⟨f.ncomp, f.ngrow, f.loc, fill f.id⟩)

/-- FieldRepo.cpp:15-53 `make_new_level_from_scratch` / `make_new_level_from_coarse` for the level
`finestLevel+1` that AMReX is adding. -/
def newLevel (r : Repo V) (fill : ℕ → V) : Repo V :=
  { r with levels := r.levels ++ [freshLevel r fill], initialized := true }

/-- FieldRepo.cpp:55-78 `remake_level` for an existing level. -/
def remakeLevel (r : Repo V) (lev : ℕ) (fill : ℕ → V) : Repo V :=
  { r with levels := r.levels.set lev (freshLevel r fill), initialized := true }

/-- FieldRepo.cpp:80-84 `clear_level` for the finest level, which AMReX removes. -/
def clearFinest (r : Repo V) : Repo V := { r with levels := r.levels.dropLast }

/-- FieldRepo.H `get_multifab(fid, lev)`. -/
def getArr (r : Repo V) (lev fid : ℕ) : Option (Arr V) := (r.levels[lev]?).bind (·[fid]?)

/-- Overwrite the data of one array (what a solver writes into `field(lev)`). -/
def setData (r : Repo V) (lev fid : ℕ) (v : V) : Repo V :=
  { r with levels := r.levels.modify lev (fun l => l.modify fid (fun a => { a with data := v })) }

/-- `MultiFab::Copy(dst, src, 0, 0, ncomp, ngrow)` on one level for fields of one group:
Field.cpp:306-309. -/
def copyArr (l : List (Arr V)) (dst src : ℕ) : List (Arr V) :=
  match l[src]? with
  | none => l
  | some a => l.modify dst (fun b => { b with data := a.data })

/-- Field.cpp:303-311: `copy states[dst] <- states[src]` on all levels. -/
def copyField (r : Repo V) (dst src : ℕ) : Repo V :=
  { r with levels := r.levels.map (fun l => copyArr l dst src) }

/-- The pairs (old, new) in the order Field.cpp:301-302 visits them, `i = nstates-1 .. 1`. -/
def shiftPairs : Int → List (FState × FState)
  | 2 => [(.N, .NP1)]
  | 3 => [(.NM1, .N), (.N, .NP1)]
  | _ => []

/-- Field.cpp:301-311: the copies, one after the other. -/
def copyStates (r : Repo V) (fid : ℕ) : List (FState × FState) → Except Err (Repo V)
  | [] => .ok r
  | p :: ps =>
    match stateOf r fid p.1, stateOf r fid p.2 with
    | .ok dst, .ok src => copyStates (copyField r dst src) fid ps
    | .error e, _ => .error e
    | _, .error e => .error e

/-- Field.cpp:294-312 `Field::advance_states` for field `fid`.  State counts outside 1..3 cannot be
declared (FieldRepo.cpp:112). -/
def advanceField (r : Repo V) (fid : ℕ) : Except Err (Repo V) :=
  match r.fields[fid]? with
  | none => .error .ub
  | some f => copyStates r fid (shiftPairs f.nstates)

/-- The loop of FieldRepo.cpp:402-407. -/
def advanceList (r : Repo V) : List ℕ → Except Err (Repo V)
  | [] => .ok r
  | fid :: l =>
    match advanceField r fid with
    | .error e => .error e
    | .ok r' => advanceList r' l

/-- FieldRepo.cpp:400-408 `FieldRepo::advance_states`. -/
def advanceStates (r : Repo V) : Except Err (Repo V) :=
  advanceList r ((r.fields.filter (fun f => f.state = .NP1)).map (·.id))

/-- The operations by which the registry changes. -/
inductive Op (V : Type*) where
  | declare (name : Name) (ncomp ngrow nstates : Int) (loc : Loc)
  | createState (fid : ℕ) (st : FState)
  | newLevel (fill : ℕ → V)
  | remakeLevel (lev : ℕ) (fill : ℕ → V)
  | clearFinest
  | setData (lev fid : ℕ) (v : V)
  | advance

/-- One operation; an abort ends the run. -/
def step (r : Repo V) : Op V → Except Err (Repo V)
  | .declare name ncomp ngrow nstates loc => (declare r name ncomp ngrow nstates loc).map (·.1)
  | .createState fid st => (createState r fid st).map (·.1)
  | .newLevel fill => .ok (newLevel r fill)
  | .remakeLevel lev fill => .ok (remakeLevel r lev fill)
  | .clearFinest => .ok (clearFinest r)
  | .setData lev fid v => .ok (setData r lev fid v)
  | .advance => advanceStates r

/-- A history of operations. -/
def run (r : Repo V) : List (Op V) → Except Err (Repo V)
  | [] => .ok r
  | o :: os => match step r o with
    | .error e => .error e
    | .ok r' => run r' os

end AmrWind.FieldRepo
