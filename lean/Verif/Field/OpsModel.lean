import Mathlib.Data.Real.Sqrt
import Mathlib.Data.Fin.VecNotation
import Mathlib.Algebra.Order.Field.Basic

/-!
# Model of the operations on whole fields (`core/field_ops.H`)

A field has on each level one array per box, which extends by the ghost cells of the field beyond the box, and several components.  The operations of
AMReX go through the boxes, the cells of each box grown by the number of ghost cells asked for, and the components in increasing order.  Source and
destination may be the same field (`self`).
-/

set_option linter.unusedSectionVars false

namespace AmrWind.FieldOps

abbrev Cell := Fin 3 → ℤ

/-- The cells of a box. -/
structure Box where
  lo : Cell
  hi : Cell

/-- `amrex::grow`, `Box::contains`: is the cell in the box grown by `g` cells? -/
def Box.has (b : Box) (g : Fin 3 → ℤ) (c : Cell) : Bool := decide (∀ d, b.lo d - g d ≤ c d ∧ c d ≤ b.hi d + g d)

/-- The boxes of the active levels (`num_active_levels`, `boxArray`). -/
abbrev Layout := List (List Box)

/-- The boxes of a level. -/
def boxes (L : Layout) (lev : ℕ) : List Box := (L[lev]?).getD []

/-- Is `c` in the part of array `b` of level `lev` that an operation with `g` ghost cells goes through? -/
def inside (L : Layout) (g : Fin 3 → ℤ) (lev b : ℕ) (c : Cell) : Bool := match (boxes L lev)[b]? with
  | none => false
  | some x => x.has g c

/-- core/Field.H, core/ScratchField.H: number of components, ghost cells, values by level, array, cell and component. -/
structure Fld (K : Type*) where
  ncomp : ℕ
  ngrow : Fin 3 → ℤ
  val : ℕ → ℕ → Cell → ℕ → K

variable {K : Type*} [Field K] [LinearOrder K] [IsStrictOrderedRing K]

/-- The loop over the components at one cell: `g` combines the value of the destination and that of the source. -/
def comps (self : Bool) (g : K → K → K) (sc dc nc : ℕ) (d s : ℕ → K) : ℕ → K :=
  (List.range nc).foldl (fun d n => Function.update d (dc + n) (g (d (dc + n)) (if self then d (sc + n) else s (sc + n)))) d

/-- Within the arrays: neither components nor ghost cells beyond what a field has (an assertion of AMReX in builds for debugging, undefined otherwise). -/
def fits (f : Fld K) (c nc : ℕ) (ng : Fin 3 → ℤ) : Prop := c + nc ≤ f.ncomp ∧ ∀ d, 0 ≤ ng d ∧ ng d ≤ f.ngrow d

instance (f : Fld K) (c nc : ℕ) (ng : Fin 3 → ℤ) : Decidable (fits f c nc ng) := by unfold fits; infer_instance

/-- `MultiFab::Add`, `Copy`, `Saxpy`, `Xpay`, `Divide` on all levels; `none`: outside an array. -/
def pointwise (g : K → K → K) (L : Layout) (self : Bool) (dst src : Fld K) (sc dc nc : ℕ) (ng : Fin 3 → ℤ) : Option (Fld K) :=
  if fits dst dc nc ng ∧ fits (if self then dst else src) sc nc ng then
    some { dst with val := fun lev b c => if inside L ng lev b c then comps self g sc dc nc (dst.val lev b c) (src.val lev b c) else dst.val lev b c }
  else none

/-- field_ops.H:38-72. -/
def add (L : Layout) := pointwise (K := K) (fun d s => d + s) L

/-- field_ops.H:156-188. -/
def copy (L : Layout) := pointwise (K := K) (fun _ s => s) L

/-- field_ops.H:204-245. -/
def saxpy (a : K) (L : Layout) := pointwise (fun d s => d + a * s) L

/-- field_ops.H:260-301. -/
def xpay (a : K) (L : Layout) := pointwise (fun d s => s + a * d) L

/-- `MultiFab::Divide`. -/
def quot (L : Layout) := pointwise (K := K) (fun d s => d / s) L

/-- Which case of the branches a division takes. -/
inductive Outcome (K : Type*)
  | done (f : Fld K)
  | aborts
  | undefined

/-- field_ops.H:87-141: numbers of components equal, or one divisor for all; otherwise the run aborts (at the first level). -/
def divide (L : Layout) (self : Bool) (dst src : Fld K) (sc dc ns nd : ℕ) (ng : Fin 3 → ℤ) : Outcome K :=
  let of : Option (Fld K) → Outcome K := fun r => match r with
    | some f => .done f
    | none => .undefined
  if nd = ns then of (quot L self dst src sc dc nd ng)
  else if ns = 1 then of ((List.range nd).foldlM (fun d n => quot L self d src sc (dc + n) ns ng) dst)
  else if L.length = 0 then .done dst
  else .aborts

/-- field_ops.H:319-372: `alx`, `aly`: is the operand the destination itself? -/
def lincomb (L : Layout) (alx aly : Bool) (dst : Fld K) (a : K) (x : Fld K) (xc : ℕ) (b : K) (y : Fld K) (yc dc nc : ℕ) (ng : Fin 3 → ℤ) : Option (Fld K) :=
  if fits dst dc nc ng ∧ fits (if alx then dst else x) xc nc ng ∧ fits (if aly then dst else y) yc nc ng then
    some ⟨dst.ncomp, dst.ngrow, fun lev i c =>
      if inside L ng lev i c then
        (List.range nc).foldl (fun d n => Function.update d (dc + n)
          (a * (if alx then d (xc + n) else x.val lev i c (xc + n)) + b * (if aly then d (yc + n) else y.val lev i c (yc + n)))) (dst.val lev i c)
      else dst.val lev i c⟩
  else none

/-- field_ops.H:381-395: cells of the boxes only. -/
def lowerBound (L : Layout) (f : Fld K) (m : K) (comp : ℕ) : Fld K :=
  { f with val := fun lev b c => if inside L 0 lev b c then Function.update (f.val lev b c) comp (max m (f.val lev b c comp)) else f.val lev b c }

/-- field_ops.H:419-424, 457-461: the square of the magnitude. -/
def square (ncomp : ℕ) (v : ℕ → K) : K := (List.range ncomp).foldl (fun m n => m + v n * v n) 0

/-- `amrex::Loop`: the cells of a box. -/
def span (lo hi : ℤ) : List ℤ := (List.range (hi + 1 - lo).toNat).map fun n : ℕ => lo + (n : ℤ)

def Box.cells (b : Box) : List Cell :=
  (span (b.lo 2) (b.hi 2)).flatMap fun k => (span (b.lo 1) (b.hi 1)).flatMap fun j => (span (b.lo 0) (b.hi 0)).map fun i => ![i, j, k]

/-- field_ops.H:402-436 on one rank, which holds the arrays `own` of each level. -/
noncomputable def rankMax (L : Layout) (own : ℕ → List ℕ) (f : Fld ℝ) : ℝ :=
  (List.range L.length).foldl (fun m lev => max m ((own lev).foldl (fun r b => max r (match (boxes L lev)[b]? with
    | none => 0
    | some x => x.cells.foldl (fun mx c => max (Real.sqrt (square f.ncomp (f.val lev b c))) mx) 0)) 0)) 0

/-- field_ops.H:431-433: the greatest over the ranks (`ParallelAllReduce::Max`). -/
noncomputable def globalMax (L : Layout) (ranks : List (ℕ → List ℕ)) (f : Fld ℝ) : ℝ :=
  match ranks with
  | [] => 0
  | r :: rs => rs.foldl (fun m o => max m (rankMax L o f)) (rankMax L r f)

/-- field_ops.H:442-472; `eps` is `1e4` times the machine epsilon. -/
noncomputable def normalize (eps : ℝ) (L : Layout) (f : Fld ℝ) : Fld ℝ :=
  ⟨f.ncomp, f.ngrow, fun lev b c =>
    let v := f.val lev b c
    if inside L 0 lev b c ∧ square f.ncomp v > eps then
      (List.range f.ncomp).foldl (fun w n => Function.update w n (w n / Real.sqrt (square f.ncomp v))) v
    else v⟩

end AmrWind.FieldOps
