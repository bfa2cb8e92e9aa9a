import Mathlib.Algebra.Order.Field.Basic
import Mathlib.Data.Int.DivMod
import Mathlib.Tactic.Ring
import Verif.Turb.LesModel

/-!
# Small modules of a run

The tracer that marks turbines (`physics/ActuatorSourceTagging`), the random perturbations of temperature
(`equation_systems/temperature/source_terms/PerturbationForcing`), the list of source terms a turbulence model asks for
(`turbulence/turb_utils`), the fields a free stream initialises (`physics/FreeStream`) and the dissipation rate of hybrid runs (`physics/HybridRANSLESABL`).
-/

set_option linter.unusedSectionVars false

namespace AmrWind.Small

/-! ## Names in a set and in the input dictionary -/

section Names
variable {α : Type*} [LinearOrder α]

/-- `std::set::insert` on the ascending list of the members. -/
def setInsert (x : α) : List α → List α
  | [] => [x]
  | y :: t => if x < y then x :: y :: t else if x = y then y :: t else y :: setInsert x t

/-- turb_utils.cpp:22-28: members inserted one after the other. -/
def insertAll (l s : List α) : List α := l.foldl (fun s x => setInsert x s) s

/-- The entries of the input dictionary in the order they were added; `queryarr` reads the last of a name and leaves its
argument empty when there is none. -/
def queryarr (d : List (String × List α)) (key : String) : List α :=
  ((d.reverse.find? (fun e => e.1 = key)).map Prod.snd).getD []

/-- turb_utils.cpp:9-40: `inject_turbulence_src_terms`; `addarr` appends an entry. -/
def inject (key : String) (terms : List α) (d : List (String × List α)) : List (String × List α) :=
  let srcin := queryarr d key
  if srcin = [] then d ++ [(key, terms)] else d ++ [(key, insertAll terms (insertAll srcin []))]

/-- FreeStream.cpp:25-54: the names of the fields with a function, `m_field_funcs` being a `std::map` whose keys are the names.
`none` is the `Abort` for a field the repository does not have. -/
def freeStream (density velocity : α) (scalars listed : List α) (exist : α → Bool) : Option (List α) :=
  listed.foldl
    (fun s n => s.bind fun s => if n ∈ s then some s else if exist n then some (setInsert n s) else none)
    (some (insertAll scalars (setInsert velocity (setInsert density []))))

end Names

section Cells
variable {K : Type*} [Field K] [LinearOrder K] [IsStrictOrderedRing K]

/-- FreeStream.cpp:59-64: one function per name, applied in the order of the keys to the fields of a level. -/
def initialise {α V : Type*} [DecidableEq α] (udf : α → V) (names : List α) (f : α → V) : α → V :=
  names.foldl (fun f n => Function.update f n (udf n)) f

/-! ## The tracer that marks turbines -/

/-- The fields of the repository by name: `m_fid_map` and `m_int_fid_map` (FieldRepo.cpp:218-224, 296-303). -/
structure Repo where
  real : List String
  int : List String

/-- FieldRepo.cpp:218-224: the map of real fields alone. -/
def Repo.fieldExists (r : Repo) (n : String) : Bool := n ∈ r.real

/-- FieldRepo.cpp:296-303. -/
def Repo.intFieldExists (r : Repo) (n : String) : Bool := n ∈ r.int

/-- FieldRepo.cpp:281-294: `none` is the `Abort`. -/
def Repo.getIntField (r : Repo) (n : String) : Option Unit := if r.intFieldExists n then some () else none

/-- ActuatorSourceTagging.H:40-42. -/
structure TagCfg (K : Type*) where
  threshold : K
  fringe : Bool
  hole : Bool

/-- ActuatorSourceTagging.cpp:26-39: which of the two fields were found; `none` is the `Abort` of `get_int_field`. The assertions
on the number of ghost cells are left out. -/
def tagInit (r : Repo) : Option (Bool × Bool) :=
  let src := r.fieldExists "actuator_src_term"
  let ib := r.fieldExists "iblank_cell"
  if ib then (r.getIntField "iblank_cell").map fun _ => (src, ib) else some (src, ib)

/-- ActuatorSourceTagging.cpp:41-86: the tracer of one cell with source `s` and blanking `ib`. The comparison
`sqrt (s·s) > threshold` is written without the root, which is the same for every sign of the threshold. -/
def tagCell (c : TagCfg K) (has : Bool × Bool) (s : Fin 3 → K) (ib : ℤ) (tracer : K) : K :=
  if !has.1 && !has.2 then tracer
  else
    let t := if has.1 ∧ (c.threshold < 0 ∨ c.threshold * c.threshold < s 0 * s 0 + s 1 * s 1 + s 2 * s 2) then 1 else tracer
    if has.2 ∧ ((c.fringe ∧ ib = -1) ∨ (c.hole ∧ ib = 0)) then 1 else t

/-! ## Random perturbations of temperature -/

/-- PerturbationForcing.H:32-40. The box has no default: `none` stands for vectors left empty. -/
structure Pert (K : Type*) where
  box : Option ((Fin 3 → K) × (Fin 3 → K))
  steps : ℤ
  startLevel : ℤ
  amplitude : K

/-- What the source reads in a cell: the low corner of the domain, spacing, index, and with terrain its height and blanking. -/
structure PCell (K : Type*) where
  lev : ℤ
  lo : Fin 3 → K
  dx : Fin 3 → K
  idx : Fin 3 → ℤ
  terrain : Option (K × ℤ)

/-- PerturbationForcing.cpp:34: whether the step perturbs; `none` is the division by zero. -/
def active (p : Pert K) (index : ℤ) : Option Bool :=
  if p.steps = 0 then none else some (index.tmod p.steps = 0 && 0 < index)

/-- PerturbationForcing.cpp:60-69: the point of a cell, with the height above the terrain and not lower than half a cell. -/
def point (c : PCell K) : Fin 3 → K := ![c.lo 0 + (c.idx 0 + 1 / 2) * c.dx 0, c.lo 1 + (c.idx 1 + 1 / 2) * c.dx 1,
  max (c.lo 2 + (c.idx 2 + 1 / 2) * c.dx 2 - (c.terrain.map Prod.fst).getD 0) (1 / 2 * c.dx 2)]

/-- `RealBox::contains` with no tolerance. -/
def inBox (b : (Fin 3 → K) × (Fin 3 → K)) (x : Fin 3 → K) : Bool := decide (∀ d, b.1 d ≤ x d ∧ x d ≤ b.2 d)

/-- PerturbationForcing.cpp:26-77 for one cell; `none` also when the vectors of an absent box are read. `draw` is the standard normal number the generator hands out for this cell at this
call, so `RandomNormal(0, a)` is `a * draw`. -/
def perturb (p : Pert K) (index : ℤ) (c : PCell K) (draw src : K) : Option K :=
  (active p index).bind fun a =>
    if a then p.box.map fun b =>
      if inBox b (point c) then src + (1 - (((c.terrain.map Prod.snd).getD 0 : ℤ) : K)) * (p.amplitude * draw) else src
    else some src

/-- The two calls of a time step (incflo_advance.cpp: sources at the old time for the prediction of the faces, and at the
half time for the update): the generator goes on between them. -/
def twoCalls (p : Pert K) (index : ℤ) (c : PCell K) (draws : ℕ → K) (src : K) : Option (K × K) := do
  let a ← perturb p index c (draws 0) src
  let b ← perturb p index c (draws 1) src
  pure (a, b)

end Cells

/-! ## Hybrid runs -/

/-- HybridRANSLESABL.cpp:30-104: the dissipation rate stored in a cell, after initialisation and after every step. -/
noncomputable def hybridRate (Ce tke dx dy dz : ℝ) : ℝ := Real.sqrt tke / (Ce * (dx * dy * dz) ^ ((1 : ℝ) / 3))

end AmrWind.Small
