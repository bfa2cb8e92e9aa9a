import Mathlib.Algebra.Order.Field.Basic
import Mathlib.Algebra.Order.Floor.Ring
import Mathlib.Tactic.Linarith

/-!
# Model of table look-up and interpolation: `amr-wind/utilities/linear_interpolation.H`

A table `[xbegin, xend)` is a list; every read is `l[i]?`, and a read outside the table makes the whole
computation `none`.  `amrex::Real` is an ordered field `K`.
-/

namespace AmrWind.Interp

variable {K : Type*} [Field K] [LinearOrder K] [IsStrictOrderedRing K]

/-- linear_interpolation.H:12-16 `Limits`. -/
inductive Limits | LOWLIM | UPLIM | VALID
  deriving DecidableEq, Repr

/-- linear_interpolation.H:18-22 `Index`. -/
structure Index where
  idx : ℕ
  lim : Limits
  deriving DecidableEq, Repr

/-- linear_interpolation.H:24-38 `check_bounds`. -/
def checkBounds (x : List K) (q : K) : Option Index :=
  if x.length < 2 then some ⟨0, .LOWLIM⟩
  else match x[0]? with
    | none => none
    | some x0 =>
      if q < x0 then some ⟨0, .LOWLIM⟩
      else match x[x.length - 1]? with
        | none => none
        | some xn => if xn < q then some ⟨x.length - 1, .UPLIM⟩ else some ⟨0, .VALID⟩

/-- linear_interpolation.H:53-62: the bisection loop (`mid = (il + ir) >> 1`). -/
def bisectLoop (x : List K) (q xl : K) (il ir : ℕ) : Option ℕ :=
  if _h : ir - il > 1 then
    match x[(il + ir) / 2]? with
    | none => none
    | some xmid =>
      if (q - xmid) * (q - xl) ≤ 0 then bisectLoop x q xl il ((il + ir) / 2)
      else bisectLoop x q xl ((il + ir) / 2) ir
  else some il
  termination_by ir - il
  decreasing_by all_goals omega

/-- linear_interpolation.H:40-65 `bisection_search`. -/
def bisectionSearch (x : List K) (q : K) : Option Index :=
  match checkBounds x q with
  | none => none
  | some r =>
    if r.lim = .LOWLIM ∨ r.lim = .UPLIM then some r
    else match x[0]? with
      | none => none
      | some xl => (bisectLoop x q xl 0 x.length).map (fun il => ⟨il, r.lim⟩)

/-- linear_interpolation.H:67-82 `nearest_search`. -/
def nearestSearch (x : List K) (q : K) : Option Index :=
  match bisectionSearch x q with
  | none => none
  | some r =>
    if r.lim = .LOWLIM ∨ r.lim = .UPLIM then some r
    else match x[r.idx]?, x[r.idx + 1]? with
      | some a, some b => if b - q < q - a then some { r with idx := r.idx + 1 } else some r
      | _, _ => none

/-- linear_interpolation.H:93-98: the forward scan from `it`; 0 (the value set by `check_bounds`)
when it runs off the end. -/
def scanFrom (x : List K) (q : K) (it : ℕ) : ℕ :=
  if h : it < x.length then
    if q ≤ x[it] then it - 1 else scanFrom x q (it + 1)
  else 0
  termination_by x.length - it

/-- linear_interpolation.H:84-100 `find_index`. -/
def findIndex (x : List K) (q : K) (hint : ℕ) : Option Index :=
  match checkBounds x q with
  | none => none
  | some r =>
    if r.lim = .LOWLIM ∨ r.lim = .UPLIM then some r
    else some { r with idx := scanFrom x q hint }

/-- `std::numeric_limits<float>::epsilon()` = 2⁻²³. -/
def eps : K := 1 / 8388608

/-- linear_interpolation.H:118-124 (and 178-186): the interpolation in cell `j`. -/
def interpCell (x y : List K) (q : K) (j ncomp comp : ℕ) : Option K :=
  match x[j + 1]?, x[j]?, y[ncomp * j + comp]?, y[ncomp * (j + 1) + comp]? with
  | some xr, some xl, some yl, some yr =>
    let denom := xr - xl
    let facR := if eps < denom then (q - xl) / denom else 1
    let facL := 1 - facR
    some (facL * yl + facR * yr)
  | _, _, _, _ => none

/-- linear_interpolation.H:102-125 `linear_impl`. -/
def linearImpl (x y : List K) (q : K) (r : Index) (ncomp comp : ℕ) : Option K :=
  if r.lim = .LOWLIM ∨ r.lim = .UPLIM then y[ncomp * r.idx + comp]?
  else interpCell x y q r.idx ncomp comp

/-- linear_interpolation.H:127-153 `linear`. -/
def linear (x y : List K) (q : K) (ncomp comp : ℕ) : Option K :=
  match bisectionSearch x q with
  | none => none
  | some r => linearImpl x y q r ncomp comp

/-- linear_interpolation.H:192-212: `linear` for a vector of queries. -/
def linearVec (x y : List K) (qs : List K) (ncomp comp : ℕ) : List (Option K) :=
  qs.map (fun q => linear x y q ncomp comp)

/-- linear_interpolation.H:169-189: the loop of `linear_monotonic`, from `hint`.  The asserts of
lines 166-167 are debug only. -/
def monotonicFrom (x y : List K) (ncomp comp : ℕ) : List K → ℕ → List (Option K)
  | [], _ => []
  | q :: qs, hint =>
    match findIndex x q hint with
    | none => none :: []
    | some r => linearImpl x y q r ncomp comp :: monotonicFrom x y ncomp comp qs (r.idx + 1)

/-- linear_interpolation.H:155-190 `linear_monotonic`. -/
def linearMonotonic (x y : List K) (qs : List K) (ncomp comp : ℕ) : List (Option K) :=
  monotonicFrom x y ncomp comp qs 1

/-- Truncation towards zero. -/
def trunc [FloorRing K] (a : K) : ℤ := if 0 ≤ a then ⌊a⌋ else ⌈a⌉

/-- `std::fmod(a, b) = a - b * trunc(a / b)`. -/
def fmod [FloorRing K] (a b : K) : K := a - b * (trunc (a / b) : K)

/-- linear_interpolation.H:238-243: the wrapped difference of two angles. -/
def angleDiff [FloorRing K] (ya yb ub : K) : K :=
  fmod (fmod (yb - ya) ub + 3 / 2 * ub) ub - 1 / 2 * ub

/-- linear_interpolation.H:214-244 `linear_angle`. -/
def linearAngle [FloorRing K] (x y : List K) (q ub : K) : Option K :=
  match bisectionSearch x q with
  | none => none
  | some r =>
    if r.lim = .LOWLIM ∨ r.lim = .UPLIM then y[r.idx]?
    else match x[r.idx + 1]?, x[r.idx]?, y[r.idx]?, y[r.idx + 1]? with
      | some xr, some xl, some yl, some yr =>
        let denom := xr - xl
        let R := if eps < denom then (q - xl) / denom else 0
        some (yl + angleDiff yl yr ub * R)
      | _, _, _, _ => none

/-- linear_interpolation.H:279-317 `bilinear_impl`; `z` is stored row by row, `ny` values per row. -/
def bilinearImpl (x y : List K) (z : List K) (qx qy : K) (rx ry : Index) : Option K :=
  let ny := y.length
  if rx.lim = .LOWLIM ∨ rx.lim = .UPLIM ∨ ry.lim = .LOWLIM ∨ ry.lim = .UPLIM then
    z[rx.idx * ny + ry.idx]?
  else
    let i := rx.idx
    let j := ry.idx
    match x[i]?, x[i + 1]?, y[j]?, y[j + 1]? with
    | some xl, some xr, some yl, some yr =>
      let xdenom := xr - xl
      let xfacR := if eps < xdenom then (qx - xl) / xdenom else 1
      let xfacL := 1 - xfacR
      let ydenom := yr - yl
      let yfacR := if eps < ydenom then (qy - yl) / ydenom else 1
      let yfacL := 1 - yfacR
      match z[i * ny + j]?, z[(i + 1) * ny + j]?, z[i * ny + (j + 1)]?, z[(i + 1) * ny + (j + 1)]? with
      | some z00, some z10, some z01, some z11 =>
        some (z00 * xfacL * yfacL + z10 * xfacR * yfacL + z01 * xfacL * yfacR + z11 * xfacR * yfacR)
      | _, _, _, _ => none
    | _, _, _, _ => none

/-- linear_interpolation.H:319-350 `bilinear`; `none` also for the `AMREX_ALWAYS_ASSERT` of line 346. -/
def bilinear (x y z : List K) (qx qy : K) : Option K :=
  if x.length * y.length ≠ z.length then none
  else match bisectionSearch x qx, bisectionSearch y qy with
    | some rx, some ry => bilinearImpl x y z qx qy rx ry
    | _, _ => none

end AmrWind.Interp
