import Verif.Interp.Props
import Verif.Vs.Model
import Mathlib.Analysis.SpecialFunctions.Exp

/-!
# Model of the filtered lifting line correction: `wind_energy/actuator/FLLC.cpp`, `FLLCOp.H`

`interp::linear` is the one of `Verif.Interp`.  Positions and forces are vectors over the reals; the loop that makes the
non-uniform points is over any ordered field `K`.
-/

set_option linter.unusedSectionVars false

namespace AmrWind.Fllc

open AmrWind.Interp (linear)
open AmrWind.Vs

variable {K : Type*} [Field K] [LinearOrder K] [IsStrictOrderedRing K]

/-- FLLC.cpp:70-87: the spacing at `cur`; `r`, `e` are the radii and optimal epsilons, `ratio` is `fllc_epsilon_dr_ratio`
and `meps` the machine epsilon of the assertion.  `none`: a table of fewer than two points, a zero ratio, or the
assertion fails (abort). -/
def stepDr (r e : List K) (ratio meps cur : K) : Option K :=
  if ratio = 0 then none
  else (linear r e cur 1 0).bind fun eps1 => (linear r e (cur + eps1 / ratio) 1 0).bind fun eps2 =>
    let dr := min (eps1 / ratio) (eps2 / ratio)
    if meps < dr then some dr else none

/-- What the loop does within a number of rounds. -/
inductive Out (K : Type*) where
  /-- the list of points -/
  | done (l : List K)
  /-- abort -/
  | abort
  /-- still running -/
  | more

/-- A point in front. -/
def Out.cons (a : K) : Out K → Out K
  | .done l => .done (a :: l)
  | .abort => .abort
  | .more => .more

/-- FLLC.cpp:63-93: the loop from the point `cur`, for at most `n` rounds; `tip` is `data.r.back()`. -/
def grow (r e : List K) (ratio meps tip : K) : ℕ → K → Out K
  | 0, cur => if cur < tip then .more else .done [cur]
  | n + 1, cur =>
    if cur < tip then
      match stepDr r e ratio meps cur with
      | none => .abort
      | some dr => (grow r e ratio meps tip n (min (cur + dr) tip)).cons cur
    else .done [cur]

/-- FLLC.cpp:45-49, 102-113: half the distance of the neighbours, half the distance to the neighbour at the ends.  `none`:
fewer than two points (the code reads outside the list).  Every read is inside the list. -/
def weights (x : List K) : Option (List K) :=
  if x.length < 2 then none
  else some ((List.range x.length).map fun i =>
    if i = 0 then |x.getD 1 0 - x.getD 0 0| / 2
    else if i = x.length - 1 then |x.getD i 0 - x.getD (i - 1) 0| / 2
    else |x.getD (i + 1) 0 - x.getD (i - 1) 0| / 2)

/-! ## The correction -/

/-- FLLCOp.H:76-87, 185-196: the lift per length of a point; `meps` is the machine epsilon. -/
noncomputable def lift (meps : ℝ) (force vel : Vec ℝ) (dr : ℝ) : Vec ℝ :=
  let vmag := max (mag vel) meps
  (1 / dr) • (force - (dot force vel / (vmag * vmag)) • vel)

/-- FLLCOp.H:253-275: the kernel at distance `d`. -/
noncomputable def kernel (d eps : ℝ) : ℝ :=
  if d = 0 then 1 / 2 / (eps * eps)
  else Real.exp (-d * d / (eps * eps)) / (eps * eps) + 1 / (2 * d * d) * (Real.exp (-d * d / (eps * eps)) - 1)

/-- A source point of the variable chord correction: radius, lift, relative velocity, optimal epsilon, width. -/
structure Src where
  r : ℝ
  g : Vec ℝ
  vel : Vec ℝ
  eps : ℝ
  dr : ℝ

/-- FLLCOp.H:277-280: the velocity induced at radius `r` by the points `s`, with the epsilon `e s`. -/
noncomputable def induced (meps : ℝ) (e : Src → ℝ) (r : ℝ) (s : List Src) : Vec ℝ :=
  s.foldl (fun u p => u + (1 / (2 * Real.pi) / max (mag p.vel) meps * kernel |r - p.r| (e p) * p.dr) • p.g) ⟨0, 0, 0⟩

/-- FLLCOp.H:283-285: the relaxed correction; `f` is the relaxation factor, `les` the simulation's epsilon. -/
noncomputable def relax (meps f les : ℝ) (r : ℝ) (s : List Src) (du : Vec ℝ) : Vec ℝ :=
  (1 - f) • du + f • (induced meps Src.eps r s - induced meps (fun _ => les) r s)

/-- The correction velocity after `n` calls with the same forces, from zero (FLLC.cpp:38). -/
noncomputable def history (meps f les r : ℝ) (s : List Src) : ℕ → Vec ℝ
  | 0 => ⟨0, 0, 0⟩
  | n + 1 => relax meps f les r s (history meps f les r s n)

/-- FLLC.cpp:20-26: the coordinate along which velocities are interpolated between velocity and force points when their
numbers differ: the distance of the point from the origin of the domain. -/
noncomputable def spanDistance (p : Vec ℝ) : ℝ := mag p

/-- FLLC.cpp:41: the radius used for everything else: the distance from the first point. -/
noncomputable def radius (p0 p : Vec ℝ) : ℝ := mag (p - p0)

/-- FLLCOp.H:61-65 for one velocity component: the velocity at a force point; `vp`, `v` are the velocity points and
values. -/
noncomputable def atForcePoint (vp : List (Vec ℝ)) (v : List ℝ) (p : Vec ℝ) : Option ℝ :=
  linear (vp.map spanDistance) v (spanDistance p) 1 0

end AmrWind.Fllc
