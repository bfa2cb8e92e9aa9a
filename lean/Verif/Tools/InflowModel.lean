import Verif.Src.BuoyModel
import Mathlib.Algebra.BigOperators.Group.List.Basic
import Mathlib.Algebra.Order.Field.Basic

/-!
# The script that prepares a run with inflow and outflow from statistics of an earlier one

`tools/calc_inflowoutflow_stats.py`. Not modelled: the netCDF file (a record is its time and its values), the text of numbers (values are
written so that they are read back), warnings that are printed.
-/

set_option linter.unusedSectionVars false

namespace AmrWind.Iscript

section avg
variable {K : Type*} [Field K] [LinearOrder K]

/-- A record of the statistics: time, the two forces, and at the lowest height wind speed, both components and temperature, and the profile
of temperature: `calc_inflowoutflow_stats.py:41,56-66`. -/
structure Rec (K : Type*) where
  time : K
  fx : K
  fy : K
  hvelmag : K
  u : K
  v : K
  theta : List K

/-- `calc_inflowoutflow_stats.py:42`: the records between both times. -/
def window (ts te : K) (l : List (Rec K)) : List (Rec K) := l.filter fun r => decide (ts < r.time) && decide (r.time < te)

/-- `np.average`. -/
def average (l : List K) : K := l.sum / (l.length : K)

/-- What the script finds. -/
structure Found (K : Type*) where
  fx : K
  fy : K
  hvelmag : K
  u : K
  v : K
  theta : K
  profile : List (K × K)

/-- `calc_inflowoutflow_stats.py:38-70`: `h` the heights; `none` the exit of line 47. Profiles have a value for each height. -/
def found (ts te : K) (h : List K) (l : List (Rec K)) : Option (Found K) :=
  let w := window ts te l
  if w = [] then none
  else some ⟨average (w.map Rec.fx), average (w.map Rec.fy), average (w.map Rec.hvelmag), average (w.map Rec.u), average (w.map Rec.v),
    average (w.map fun r => r.theta.getD 0 0), (List.range h.length).map fun i => (h.getD i 0, average (w.map fun r => r.theta.getD i 0))⟩

/-- `calc_inflowoutflow_stats.py:67-70`: the numbers of the file of the profile. -/
def profileFile (p : List (K × K)) : ℕ × List K := (p.length, p.flatMap fun q => [q.1, q.2])

end avg

/-- ABLMeanBoussinesq.cpp:157-170: the solver reads a number of heights and so many pairs; what is missing is read as zero. -/
def readProfile {K : Type*} [Zero K] (f : ℕ × List K) : List (K × K) :=
  (List.range f.1).map fun i => (f.2.getD (2 * i) 0, f.2.getD (2 * i + 1) 0)

/-! ## Input file -/

/-- A line of the input file: whether its text has `ICNS.source_terms`, and the name and value it sets, if it sets one. -/
structure Line (V : Type*) where
  terms : Bool
  sets : Option (String × V)

variable {V : Type*}

/-- `calc_inflowoutflow_stats.py:135-156`: `add` the lines added, after the first line with source terms. -/
def update (add : List (Line V)) : Bool → List (Line V) → List (Line V)
  | _, [] => []
  | written, a :: t => if !a.terms || written then a :: update add written t else a :: (add ++ update add true t)

/-- `calc_inflowoutflow_stats.py:123-132`: lines added for values `wf_velocity`, `wf_vmag`, `wf_theta` and `magnitude`; `text` the value of a
word. -/
def additions (text : String → V) (vel vmag theta force : V) : List (Line V) :=
  [⟨false, none⟩, ⟨false, some ("ABL.wall_shear_stress_type", text "local")⟩, ⟨false, some ("ABL.inflow_outflow_mode", text "true")⟩,
    ⟨false, some ("ABL.wf_velocity", vel)⟩, ⟨false, some ("ABL.wf_vmag", vmag)⟩, ⟨false, some ("ABL.wf_theta", theta)⟩,
    ⟨false, some ("BodyForce.magnitude", force)⟩, ⟨false, some ("ABLMeanBoussinesq.read_temperature_profile", text "true")⟩,
    ⟨false, some ("ABLMeanBoussinesq.temperature_profile_filename", text "avg_theta.dat")⟩, ⟨false, none⟩]

/-- The value the solver reads for a name: the last one in the file, as `ParmParse::query` does (external; ABLWallFunction.cpp:125-132). -/
def value (name : String) : List (Line V) → Option V
  | [] => none
  | a :: t => (value name t).or (a.sets.bind fun s => if s.1 = name then some s.2 else none)

end AmrWind.Iscript
