import Verif.Phys.ExactModel
import Verif.Config.Model

/-!
# Manufactured solutions: `physics/mms/MMS.{H,cpp}`, `physics/mms/MMSForcing.cpp`

The library of manufactured solutions is a parameter: the exact velocity and the source that belongs to it, as functions of the parameters and
of the place.
-/

set_option linter.unusedSectionVars false

namespace AmrWind.Mms

open Plane (Cell Axis)
open Amr (Lev)

/-- The parameters of a manufactured solution, by name. -/
abbrev Pars := String → ℝ

/-- The library: exact velocity and source in a place, per component. -/
structure Masa where
  exact : Pars → ℝ × ℝ × ℝ → Fin 3 → ℝ
  source : Pars → ℝ × ℝ × ℝ → Fin 3 → ℝ

/-- MMS.H:57-60: names and values without input. -/
noncomputable def defaults : List (String × ℝ) :=
  [("a", 1.05), ("b", 2.15), ("c", -3.2), ("d", 10.1), ("beta", 2.2), ("gamma", 2.4), ("delta", 2), ("kx", 1), ("ky", 1), ("kz", 1), ("nu", 1)]

/-- MMS.cpp:25-27: `query` of every name of the map. -/
noncomputable def queried (mms : Config.Params ℝ) : List (String × ℝ) := defaults.map fun e => (e.1, Config.query mms e.1 e.2)

/-- MMS.cpp:28-29: `transport.viscosity` into the entry `nu`. -/
noncomputable def withViscosity (tr : Config.Params ℝ) (l : List (String × ℝ)) : List (String × ℝ) :=
  l.map fun e => if e.1 = "nu" then (e.1, Config.query tr "viscosity" e.2) else e

/-- MMS.cpp:30-32: the parameters set in the library; `lib` are those it has by itself for other names. -/
noncomputable def pars (mms tr : Config.Params ℝ) (lib : Pars) : Pars := fun n => ((withViscosity tr (queried mms)).lookup n).getD (lib n)

/-- MMS.cpp:69-71, 107-109, 163-165: the place of a cell. -/
noncomputable def centre (lo : Axis → ℝ) (dx : ℕ → Axis → ℝ) (lev : ℕ) (c : Cell) : ℝ × ℝ × ℝ :=
  (lo .x + (c.1 + 1 / 2) * dx lev .x, lo .y + (c.2.1 + 1 / 2) * dx lev .y, lo .z + (c.2.2 + 1 / 2) * dx lev .z)

/-- The case: library, parameters and mesh spacing. -/
structure Case where
  masa : Masa
  par : Pars
  lo : Axis → ℝ
  dx : ℕ → Axis → ℝ

/-- The fields in the cells of the levels; undefined values are `none`. -/
structure Fields where
  levels : List Lev
  vel : ℕ → Cell → Fin 3 → ℝ
  src : ℕ → Cell → Option (Fin 3 → ℝ)

/-- MMS.cpp:49-84: the initial velocity (the density is one). -/
noncomputable def initial (s : Case) (lev : ℕ) (c : Cell) : Fin 3 → ℝ := s.masa.exact s.par (centre s.lo s.dx lev c)

/-- The box array of a level has the cell, on some rank. -/
def Has (levels : List Lev) (nproc : ℕ) (lev : ℕ) (c : Cell) : Bool :=
  match levels[lev]? with
  | none => false
  | some l => (List.range nproc).any fun p => (l.boxes p).any fun b => decide (c ∈ Plane.cells b)

/-- MMS.cpp:88-122 `fill_src`: all cells of all active levels. -/
noncomputable def fillSrc (s : Case) (nproc : ℕ) (f : Fields) : Fields :=
  { f with src := fun lev c => if Has f.levels nproc lev c then some (s.masa.source s.par (centre s.lo s.dx lev c)) else f.src lev c }

/-- What happens: a step gives a new velocity, a new mesh has a field of sources that is not filled (it is made anew with the mesh), then
MMS.cpp:126. -/
inductive Ev where
  | step (vel : ℕ → Cell → Fin 3 → ℝ)
  | regrid (levels : List Lev) (vel : ℕ → Cell → Fin 3 → ℝ)

noncomputable def ev (s : Case) (nproc : ℕ) (f : Fields) : Ev → Fields
  | .step v => { f with vel := v }
  | .regrid l v => fillSrc s nproc ⟨l, v, fun _ _ => none⟩

/-- MMSForcing.cpp:27-31: added to the other sources. -/
def added (f : Fields) (other : ℕ → Cell → Fin 3 → ℝ) (lev : ℕ) (c : Cell) : Option (Fin 3 → ℝ) :=
  (f.src lev c).map fun q i => other lev c i + q i

/-- MMS.cpp:128-186 `compute_error`. -/
noncomputable def error (s : Case) (nproc : ℕ) (domVol : ℝ) (f : Fields) (i : Fin 3) : ℝ :=
  Exact.rmsDomain nproc (fun lev _ => Amr.cellVol s.dx lev) domVol (fun lev c => f.vel lev c i)
    (fun lev c => s.masa.exact s.par (centre s.lo s.dx lev c) i) f.levels

/-! ## The log -/

/-- The clock of the run and the lines of `mms.log`: time and the errors; `cur` and `new` are `current_time` and `new_time`. -/
structure Log where
  cur : ℝ
  new : ℝ
  lines : List (ℝ × (Fin 3 → ℝ))

/-- MMS.cpp:33-41: the file is begun anew in every run. -/
def open_ (t : ℝ) (_old : List (ℝ × (Fin 3 → ℝ))) : Log := ⟨t, t, []⟩

/-- SimTime.cpp `new_timestep` and MMS.cpp:188-208 behind the advance. -/
def logStep (l : Log) (dt : ℝ) (err : Fin 3 → ℝ) : Log :=
  let l := { l with cur := l.new, new := l.new + dt }
  { l with lines := l.lines ++ [(l.cur, err)] }

end AmrWind.Mms
