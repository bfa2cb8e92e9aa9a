import Verif.Regrid.HistModel

/-!
# What users rely on through start, change of the mesh and restart
-/

namespace AmrWind.Hist

open Plane (Cell Axis)
open Regrid

variable {K : Type*}

/-- Field `fld` has in every cell of every level the value `exact level cell`. -/
def Holds (r : ℕ → Axis → ℕ) (fld : ℕ) (exact : ℕ → Cell → K) (s : State K) : Prop :=
  (∀ c ∈ s.cells, s.base.val fld c = exact 0 c) ∧
    ∀ (l : ℕ) (L : Level K), s.fine[l]? = some L → ∀ c ∈ cellsOf (r l) L.refined, L.data.val fld c = exact (l + 1) c

/-- The action sets the field to its value. -/
def Sets (fld : ℕ) (exact : ℕ → Cell → K) (g : ℕ → Data K → Data K) : Prop := ∀ lev d, (g lev d).val fld = exact lev

/-- The action does not touch the field. -/
def Leaves (fld : ℕ) (g : ℕ → Data K → Data K) : Prop := ∀ lev d, (g lev d).val fld = d.val fld

/-- Two sets of arrays agree on the fields `D` in the cells `P`. -/
def AgreeOn (D : ℕ → Prop) (P : Finset Cell) (d e : Data K) : Prop := ∀ fld, D fld → ∀ c ∈ P, d.val fld c = e.val fld c

/-- The levels from `lev + 1` on are the same and agree on the fields `D`. -/
def AgreeFrom (r : ℕ → Axis → ℕ) (D : ℕ → Prop) : ℕ → List (Level K) → List (Level K) → Prop
  | _, [], [] => True
  | lev, L :: a, M :: b =>
    L.refined = M.refined ∧ AgreeOn D (cellsOf (r lev) L.refined) L.data M.data ∧ AgreeFrom r D (lev + 1) a b
  | _, _, _ => False

/-- Two states have the same mesh and the same values of the fields `D`. -/
def Agree (r : ℕ → Axis → ℕ) (D : ℕ → Prop) (s t : State K) : Prop :=
  s.cells = t.cells ∧ AgreeOn D s.cells s.base t.base ∧ AgreeFrom r D 0 s.fine t.fine

/-- What an action makes of the fields `D` depends on the fields `D` only. -/
def Respects (D : ℕ → Prop) (g : ℕ → Data K → Data K) : Prop :=
  ∀ lev P d e, AgreeOn D P d e → AgreeOn D P (g lev d) (g lev e)

/-- The same mesh, and field `fld` as it was. -/
def KeepsField (fld : ℕ) (g : State K → State K) : Prop :=
  ∀ s, (g s).cells = s.cells ∧ (g s).fine.map (·.refined) = s.fine.map (·.refined) ∧
    (g s).base.val fld = s.base.val fld ∧ (g s).fine.map (·.data.val fld) = s.fine.map (·.data.val fld)

/-- Time steps do not touch the field. -/
def StepsKeep (fld : ℕ) (es : List (Ev K)) : Prop := ∀ g, Ev.step g ∈ es → KeepsField fld g

/-- An event that leaves a mesh with `n` refined levels as it is: a step, a change that changes no level, a restart that adds
none. -/
def Ev.SameMesh (n : ℕ) : Ev K → Prop
  | .step _ => True
  | .regrid news => news = List.replicate n none
  | .restart _ added => added = []

/-- The interpolation uses only values in the cells that are there. -/
def Local (o : Ops K) : Prop := ∀ lev fld cov u v c, (∀ p ∈ cov, u p = v p) → o.interp lev fld cov u c = o.interp lev fld cov v c

end AmrWind.Hist
