import Verif.Regrid.Model

/-!
# What a change of the mesh must keep

The levels of a state as a list; meshes that are nested; the integral of a field over the domain, each place counted once
on the finest level there; states in which every refined cell holds the mean of the cells in it.
-/

namespace AmrWind.Regrid

open Plane (Cell Axis)

/-- The number of cells in a cell of level `lev`. -/
def volRatio (r : Axis → ℕ) : ℕ := r .x * r .y * r .z

variable {K : Type*}

/-- From level `lev` on: each level refines only cells of the level below. -/
def NestedFrom (r : ℕ → Axis → ℕ) : ℕ → Finset Cell → List (Level K) → Prop
  | _, _, [] => True
  | lev, cells, L :: rest => L.refined ⊆ cells ∧ NestedFrom r (lev + 1) (cellsOf (r lev) L.refined) rest

/-- Each level refines only cells of the level below. -/
def Nested (r : ℕ → Axis → ℕ) (s : State K) : Prop := NestedFrom r 0 s.cells s.fine

/-- All values of field `fld` on the levels from `lev` on satisfy `P`. -/
def AllFrom (r : ℕ → Axis → ℕ) (P : K → Prop) (fld : ℕ) : ℕ → List (Level K) → Prop
  | _, [] => True
  | lev, L :: rest => (∀ c ∈ cellsOf (r lev) L.refined, P (L.data.val fld c)) ∧ AllFrom r P fld (lev + 1) rest

/-- All values of field `fld`, in every cell of every level, satisfy `P`. -/
def AllValues (r : ℕ → Axis → ℕ) (P : K → Prop) (fld : ℕ) (s : State K) : Prop :=
  (∀ c ∈ s.cells, P (s.base.val fld c)) ∧ AllFrom r P fld 0 s.fine

/-- The cells and arrays of the level below the `l`-th of the levels `lev + 1`, `lev + 2`, …; the first argument is level
`lev`. -/
def belowFrom (r : ℕ → Axis → ℕ) : ℕ → Finset Cell × Data K → List (Level K) → ℕ → Finset Cell × Data K
  | _, b, _, 0 => b
  | _, b, [], _ + 1 => b
  | lev, _, L :: rest, l + 1 => belowFrom r (lev + 1) (cellsOf (r lev) L.refined, L.data) rest l

/-- Level `l` as a whole: its cells and arrays; it is the one below the `l`-th refined level. -/
def below (r : ℕ → Axis → ℕ) (s : State K) (l : ℕ) : Finset Cell × Data K := belowFrom r 0 (s.cells, s.base) s.fine l

/-- The states that changes of the mesh can lead to from `s`, each new mesh nested. -/
inductive Regrids [Zero K] (o : Ops K) (s : State K) : State K → Prop
  | refl : Regrids o s s
  | step {t : State K} (news : List (Option (Finset Cell))) (h : Regrids o s t)
      (hn : Nested o.ratio (regrid o t news)) : Regrids o s (regrid o t news)

section field
variable [Field K]

/-- The integral over the cells `cells` of level `lev`, of volume `vol`: where there is a finer level, its values
count. -/
def integralFrom (r : ℕ → Axis → ℕ) (fld : ℕ) : ℕ → K → Finset Cell → (Cell → K) → List (Level K) → K
  | _, vol, cells, v, [] => vol * ∑ c ∈ cells, v c
  | lev, vol, cells, v, L :: rest =>
    vol * ∑ c ∈ cells \ L.refined, v c +
      integralFrom r fld (lev + 1) (vol / volRatio (r lev)) (cellsOf (r lev) L.refined) (L.data.val fld) rest

/-- The integral of a field over the domain; `vol` is the volume of a cell of level 0. -/
def integral (r : ℕ → Axis → ℕ) (fld : ℕ) (vol : K) (s : State K) : K :=
  integralFrom r fld 0 vol s.cells (s.base.val fld) s.fine

/-- From level `lev` on, with values `v`, every refined cell holds the mean of the cells in it. -/
def MeansFrom (r : ℕ → Axis → ℕ) (fld : ℕ) : ℕ → (Cell → K) → List (Level K) → Prop
  | _, _, [] => True
  | lev, v, L :: rest =>
    (∀ p ∈ L.refined, v p = (∑ c ∈ children (r lev) p, L.data.val fld c) / volRatio (r lev)) ∧
      MeansFrom r fld (lev + 1) (L.data.val fld) rest

/-- Every refined cell holds the mean of the cells in it. -/
def Means (r : ℕ → Axis → ℕ) (fld : ℕ) (s : State K) : Prop := MeansFrom r fld 0 (s.base.val fld) s.fine

/-- The interpolation of a field is conservative: the mean of the values it gives to the cells in a cell is the value of
that cell. -/
def Conservative (o : Ops K) (fld : ℕ) : Prop :=
  ∀ lev cov u p, p ∈ cov → u p = (∑ c ∈ children (o.ratio lev) p, o.interp lev fld cov u c) / volRatio (o.ratio lev)

end field

/-- The interpolation of a field makes no new extrema: what all values on the level below satisfy, `P` an interval, its
values satisfy. -/
def NoNewExtrema [LE K] (o : Ops K) (fld : ℕ) : Prop :=
  ∀ lev cov u lo hi c, Amr.coarsen (o.ratio lev) c ∈ cov → (∀ p ∈ cov, lo ≤ u p ∧ u p ≤ hi) →
    lo ≤ o.interp lev fld cov u c ∧ o.interp lev fld cov u c ≤ hi

end AmrWind.Regrid
