import Verif.IO.Model

/-!
# Fields handed to Ascent

`utilities/ascent/ascent.cpp`. Columns are modelled by what they hold, as for plot files. Not modelled: the conversion of the mesh
(`MultiLevelToBlueprint`) and Ascent itself.
-/

namespace AmrWind.IO

/-- What is kept between steps (ascent.cpp:47-48). -/
structure Asc where
  fields : List Fld
  names : List String

/-- ascent.cpp:39-49: fields that do not exist are left out with a warning. -/
def ascLoop (lookup : String → Option Fld) : List String → Asc → Asc
  | [], a => a
  | n :: ns, a => match lookup n with
    | none => ascLoop lookup ns a
    | some f => ascLoop lookup ns ⟨a.fields ++ [f], a.names ++ addVarNames f.name f.ncomp⟩

/-- ascent.cpp:22-50 with io_utils.H:66-78: `none` is the abort for names that come twice. -/
def ascInit (lookup : String → Option Fld) (request : List String) : Option Asc :=
  if request.dedup.length = request.length then some (ascLoop lookup request ⟨[], []⟩) else none

/-- ascent.cpp:59-62. -/
def ascComps (a : Asc) : ℕ := a.fields.foldl (fun n f => n + f.ncomp) 0

/-- ascent.cpp:68-77: columns of one level. -/
def ascLevel : List Fld → ℕ → Cols → Cols
  | [], _, out => out
  | f :: fs, icomp, out => ascLevel fs (icomp + f.ncomp) (copyCols out (fun i => .field f i) icomp f.ncomp)

/-- ascent.cpp:52-86: columns of every level and the steps of the levels, for `finest` and the step. -/
def ascWrite (a : Asc) (finest : ℕ) (step : ℤ) : ℕ × List Cols × List ℤ :=
  (ascComps a, (List.range (finest + 1)).map fun _ => ascLevel a.fields 0 fun _ => none, List.replicate (finest + 1) step)

end AmrWind.IO
