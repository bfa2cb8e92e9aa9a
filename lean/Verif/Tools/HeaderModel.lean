import Mathlib.Data.List.Dedup
import Mathlib.Data.List.Infix
import Mathlib.Data.List.ProdSigma
import Mathlib.Tactic.Common

/-!
# The script that writes the headers of boundary planes

`tools/generate_native_boundary_plane_header.py`. Not modelled: the content of a header (`Bscript`), the files of data (`data` gives what is
read for a field and a side, `none` if it cannot be read).
-/

set_option linter.unusedSectionVars false

namespace AmrWind.Hscript

/-- `str.split("_")`: generate_native_boundary_plane_header.py:71-72. -/
def splitU : List Char → List (List Char)
  | [] => [[]]
  | c :: t => if c = '_' then [] :: splitU t else match splitU t with
    | [] => [[c]]
    | p :: ps => (c :: p) :: ps

/-- `int(...)`: generate_native_boundary_plane_header.py:61,72. Simplified: signs, blanks and underscores, which Python takes, are refused. -/
def num? (l : List Char) : Option ℕ :=
  if l ≠ [] ∧ ∀ c ∈ l, c.isDigit = true then some (l.foldl (fun n c => 10 * n + (c.toNat - 48)) 0) else none

/-- generate_native_boundary_plane_header.py:71-72: field and side of a name; `none` an exception. -/
def parse (name : List Char) : Option (List Char × ℕ) := match splitU name with
  | f :: o :: _ => (num? o).map fun n => (f, n)
  | _ => none

/-- `str.replace("_H", "")`: generate_native_boundary_plane_header.py:85. -/
def replaceH : List Char → List Char
  | '_' :: 'H' :: t => replaceH t
  | c :: t => c :: replaceH t
  | [] => []

variable {D : Type*}

/-- generate_native_boundary_plane_header.py:76-90: the loop over fields and sides. -/
def loop (there : List Char × ℕ → Bool) (overwrite : Bool) (data : List Char × ℕ → Option D) : List (List Char × ℕ) → Option (List ((List Char × ℕ) × D))
  | [] => some []
  | x :: t => if there x && !overwrite then loop there overwrite data t
    else (data x).bind fun d => (loop there overwrite data t).map fun w => (x, d) :: w

/-- generate_native_boundary_plane_header.py:66-90: headers written for one step. Simplified: `list(set(...))` has no order of its own, here
the order of names; each header is a file of its own. -/
def headers (there : List Char × ℕ → Bool) (overwrite : Bool) (data : List Char × ℕ → Option D) (names : List (List Char)) :
    Option (List ((List Char × ℕ) × D)) :=
  (names.mapM parse).bind fun l => loop there overwrite data ((l.map Prod.fst).dedup ×ˢ (l.map Prod.snd).dedup)

/-- generate_native_boundary_plane_header.py:62: the time of a step in the table `time.dat`; `none` an exception. -/
def timeOf {T : Type*} (table : List (ℕ × T)) (step : ℕ) : Option T := ((table.filter fun r => r.1 = step).map Prod.snd).head?

end AmrWind.Hscript
