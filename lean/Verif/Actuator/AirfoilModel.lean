import Verif.Actuator.WingModel
/-!
# Model of airfoil tables: `wind_energy/actuator/aero/AirfoilTable.cpp`, `AirfoilTableI.H`

A file is a list of lines, each ended by a line break, and a line is a list of words separated by blanks. A word is a number as a whole or
no number at all (simplification: `>>` also takes the number at the beginning of a word and leaves the rest).
-/

set_option linter.unusedSectionVars false

namespace AmrWind.Airfoil
open AmrWind.Wing

variable {K : Type*} [Zero K]

/-- A row of a table: angle of attack, lift, drag and moment coefficient. -/
structure Row (K : Type*) where
  aoa : K
  cl : K
  cd : K
  cm : K
  deriving DecidableEq

/-- `stream >> x` for a number; the stream is the words to come, `none` after a failure. A failed stream and one at its end leave the number
as it was (`old`), a word that is no number makes it zero; both fail the stream. -/
def getNum (num : String → Option K) (old : K) : Option (List String) → K × Option (List String)
  | none => (old, none)
  | some [] => (old, none)
  | some (t :: ts) => match num t with
    | some v => (v, some ts)
    | none => (0, none)

/-- AirfoilTableI.H:18-21, 49-52: the rows; the arrays hold zeros before (AirfoilTable.cpp:8-10). -/
def rows (num : String → Option K) : ℕ → Option (List String) → List (Row K)
  | 0, _ => []
  | n + 1, s =>
    let (a, s) := getNum num 0 s
    let (l, s) := getNum num 0 s
    let (d, s) := getNum num 0 s
    let (m, s) := getNum num 0 s
    ⟨a, l, d, m⟩ :: rows num n s

/-- AirfoilTable.cpp:43-48 `convert_aoa_to_radians`; `rad` is `utils::radians`. -/
def convert (rad : K → K) (t : List (Row K)) : List (Row K) := t.map fun r => { r with aoa := rad r.aoa }

/-- AirfoilTableI.H:10-25 `load_text_file`; `int` reads a whole number; the number of rows of a file that does not begin with one is
zero; `none`: a vector of negative size throws. -/
def loadText (int : String → Option ℤ) (num : String → Option K) (rad : K → K) (file : List (List String)) : Option (List (Row K)) :=
  match file.flatten with
  | [] => some []
  | t :: ts => match int t with
    | none => some []
    | some n => if n < 0 then none else some (convert rad (rows num n.toNat (some ts)))

/-- `buf.find("NumAlf")`: no blank is in the text looked for, so it is in one of the words. -/
def mentions (l : List String) : Bool := l.any fun t => decide ("NumAlf".toList <:+: t.toList)

/-- AirfoilTableI.H:31-44: the number of rows and the lines that follow; `none`: the end of the file (abort). -/
def scan (int : String → Option ℤ) : List (List String) → Option (ℕ × List (List String))
  | [] => none
  | l :: ls =>
    if mentions l then
      match l with
      | [] => scan int ls
      | t :: _ => let n := (int t).getD 0; if n < 0 then scan int ls else some (n.toNat, ls)
    else scan int ls

/-- AirfoilTableI.H:27-56 `load_openfast_airfoil`. -/
def loadOpenfast (int : String → Option ℤ) (num : String → Option K) (rad : K → K) (file : List (List String)) : Option (List (Row K)) :=
  (scan int file).map fun (n, ls) => convert rad (rows num n (some (ls.drop 2).flatten))

/-- AirfoilTable.cpp:72-87 `load_airfoil`, FixedWing.H:17, fixed_wing_ops.H:32-33: `lower` is `amrex::toLower`, `kind` the entry
`airfoil_type`, if any. -/
def load (lower : String → String) (int : String → Option ℤ) (num : String → Option K) (rad : K → K) (kind : Option String)
    (file : List (List String)) : Option (List (Row K)) :=
  let k := lower (kind.getD "openfast")
  if k = "openfast" then loadOpenfast int num rad file else if k = "text" then loadText int num rad file else none

/-- AirfoilTable.cpp:14-34: lift, drag and moment at an angle in radians; `none`: beyond the arrays. -/
noncomputable def polar (t : List (Row ℝ)) (a : ℝ) : Option (ℝ × ℝ × ℝ) :=
  (tableCoeff (t.map Row.aoa) (t.map Row.cl) a).bind fun l => (tableCoeff (t.map Row.aoa) (t.map Row.cd) a).bind fun d =>
    (tableCoeff (t.map Row.aoa) (t.map Row.cm) a).map fun m => (l, d, m)

end AmrWind.Airfoil
