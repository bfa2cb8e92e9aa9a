import Mathlib.Analysis.SpecialFunctions.Pow.Real
import Mathlib.Analysis.SpecialFunctions.Trigonometric.Basic
import Verif.Src.ForceModel
import Verif.Amr.Model

/-!
# Model of the exact solutions and error logs of the verification cases

`physics/ConvectingTaylorVortex.cpp`, `physics/EkmanSpiral.cpp`, `physics/BurggrafFlow.cpp`, `physics/ChannelFlow.{H,cpp}`.

Real arithmetic; `std::pow` with an integer exponent is a power. The viscosity is the input `transport.viscosity`, which the
Taylor vortex and the Burggraf flow leave undefined when the input has none: it is an argument here. Coordinates are arguments: the
centres and nodes of the cells, or the coordinates of a mapped mesh.
-/

set_option linter.unusedSectionVars false

namespace AmrWind.Exact

open Plane (Cell)
open Amr (Lev total)

/-! ## Convecting Taylor vortex -/

/-- ConvectingTaylorVortex.cpp:112-117: the damping from `transport.viscosity`. -/
noncomputable def ctvOmega (nu : ℝ) : ℝ := Real.pi * Real.pi * nu

/-- ConvectingTaylorVortex.cpp:17-28. -/
noncomputable def ctvU (u0 v0 omega x y t : ℝ) : ℝ :=
  u0 - Real.cos (Real.pi * (x - u0 * t)) * Real.sin (Real.pi * (y - v0 * t)) * Real.exp (-2 * omega * t)

/-- ConvectingTaylorVortex.cpp:30-41. -/
noncomputable def ctvV (u0 v0 omega x y t : ℝ) : ℝ :=
  v0 + Real.sin (Real.pi * (x - u0 * t)) * Real.cos (Real.pi * (y - v0 * t)) * Real.exp (-2 * omega * t)

/-- ConvectingTaylorVortex.cpp:54-65. -/
noncomputable def ctvGpx (u0 omega x t : ℝ) : ℝ :=
  5 / 10 * Real.pi * Real.sin (2 * Real.pi * (x - u0 * t)) * Real.exp (-4 * omega * t)

/-- ConvectingTaylorVortex.cpp:67-78. -/
noncomputable def ctvGpy (v0 omega y t : ℝ) : ℝ :=
  5 / 10 * Real.pi * Real.sin (2 * Real.pi * (y - v0 * t)) * Real.exp (-4 * omega * t)

/-- ConvectingTaylorVortex.cpp:206-209: the initial pressure. -/
noncomputable def ctvP0 (x y : ℝ) : ℝ := -(25 / 100) * (Real.cos (2 * Real.pi * x) + Real.cos (2 * Real.pi * y))

/-! ## Ekman spiral -/

/-- EkmanSpiral.cpp:61, 92, 113: one over the depth, from viscosity and rotation period. -/
noncomputable def ekA (az period : ℝ) : ℝ := 1 / Real.sqrt (2 * az / (2 * (2 * Real.pi) / period))

/-- EkmanSpiral.cpp:22-26. -/
noncomputable def ekU (v0 a z : ℝ) : ℝ := v0 * (1 - Real.exp (-a * z) * Real.cos (-a * z))

/-- EkmanSpiral.cpp:35-39. -/
noncomputable def ekV (v0 a z : ℝ) : ℝ := -v0 * Real.exp (-a * z) * Real.sin (-a * z)

/-! ## Burggraf flow -/

/-- BurggrafFlow.cpp:16-23. -/
def bU (x y : ℝ) : ℝ := 8 * (x ^ 4 - 2 * x ^ 3 + x ^ 2) * (4 * y ^ 3 - 2 * y)

/-- BurggrafFlow.cpp:25-32. -/
def bV (x y : ℝ) : ℝ := -8 * (4 * x ^ 3 - 6 * x ^ 2 + 2 * x) * (y ^ 4 - y ^ 2)

/-- BurggrafFlow.cpp:65, 84-112: the second component of the source; the others are zero (:109, :113). -/
noncomputable def bSrc (nu x y : ℝ) : ℝ :=
  let Re := 1 / nu
  let f := x ^ 4 - 2 * x ^ 3 + x ^ 2
  let f1 := 4 * x ^ 3 - 6 * x ^ 2 + 2 * x
  let f3 := 24 * x - 12
  let g := y ^ 4 - y ^ 2
  let g1 := 4 * y ^ 3 - 2 * y
  let g2 := 12 * y ^ 2 - 2
  let F := x ^ 5 / 5 - x ^ 4 / 2 + x ^ 3 / 3
  let F1 := -4 * x ^ 6 + 12 * x ^ 5 - 14 * x ^ 4 + 8 * x ^ 3 - 2 * x ^ 2
  let F2 := f * f / 2
  let G1 := -24 * y ^ 5 + 8 * y ^ 3 - 4 * y
  8 / Re * (24 * F + 2 * f1 * g2 + f3 * g) + 64 * (F2 * G1 - g * g1 * F1)

/-! ## Channel flow -/

/-- ChannelFlow.cpp:248-263: the height of the channel. -/
def chanHeight (half : Bool) (lo hi : ℝ) : ℝ := if half then (hi - lo) * 2 else hi - lo

/-- ChannelFlow.cpp:322-323; `force` is the component of `BodyForce.magnitude` along the flow (:239-245), `y` the coordinate normal to
the walls (:307-311). -/
noncomputable def chanU (mu force ht y : ℝ) : ℝ := 1 / (2 * mu) * -force * (y * y - y * ht)

/-- `analytical_smagorinsky_profile`, ChannelFlow.H:13-33; `dpdx` is minus the body force (ChannelFlow.cpp:61). -/
noncomputable def smagU (h Cs dx rho mu dpdx C0 C1 : ℝ) : ℝ :=
  let c := Cs * Cs * (dx * dx);
  -mu / (rho * c) * h +
    c / (3 * dpdx) * (2 / c * dpdx * h + mu / (rho * c) * (mu / (rho * c)) + C1) ^ ((3 : ℝ) / 2) + C0

/-- Which exact solution the error log of the channel compares with, ChannelFlow.cpp:404-427 with :433, :461: nothing is logged, the run
stops, the parabola, the profile for the Smagorinsky model, or zero is logged. -/
inductive ChanError where
  | none
  | abort
  | parabola
  | smagorinsky
  | zero
deriving DecidableEq

/-- ChannelFlow.cpp:404-427, 433, 461. -/
def chanError (laminar smag : Bool) (normDir : ℤ) : ChanError :=
  if laminar || smag then
    if normDir = 0 then .parabola
    else if normDir = 1 then .parabola
    else if normDir = 2 then (if laminar then .parabola else if smag then .smagorinsky else .zero)
    else .abort
  else .none

/-! ## Error logs -/

/-- The addend of a cell (ConvectingTaylorVortex.cpp:289-305, EkmanSpiral.cpp:171-177, BurggrafFlow.cpp:150-160, ChannelFlow.cpp:318-330):
volume, mask and square of the difference. `act` is false where overset sets the mask to zero (ConvectingTaylorVortex.cpp:248-261). -/
def errTerm (vol : ℕ → Cell → ℝ) (act : ℕ → Cell → Bool) (u ex : ℕ → Cell → ℝ) (lev : ℕ) (c : Cell) (m : ℤ) : ℝ :=
  vol lev c * ((if act lev c then m else 0 : ℤ) : ℝ) * (u lev c - ex lev c) * (u lev c - ex lev c)

/-- The volume that ConvectingTaylorVortex.cpp:304 adds up. -/
def volTerm (vol : ℕ → Cell → ℝ) (act : ℕ → Cell → Bool) (lev : ℕ) (c : Cell) (m : ℤ) : ℝ :=
  vol lev c * ((if act lev c then m else 0 : ℤ) : ℝ)

/-- `ConvectingTaylorVortex::compute_error`, :215-314. -/
noncomputable def rmsActive (nproc : ℕ) (vol : ℕ → Cell → ℝ) (act : ℕ → Cell → Bool) (u ex : ℕ → Cell → ℝ) (levels : List Lev) : ℝ :=
  Real.sqrt (total nproc (errTerm vol act u ex) levels / total nproc (volTerm vol act) levels)

/-- `compute_error` of the others, which divide by the volume of the computational domain: EkmanSpiral.cpp:185-186,
BurggrafFlow.cpp:168-169, ChannelFlow.cpp:335-336, 400-401. -/
noncomputable def rmsDomain (nproc : ℕ) (vol : ℕ → Cell → ℝ) (domVol : ℝ) (u ex : ℕ → Cell → ℝ) (levels : List Lev) : ℝ :=
  Real.sqrt (total nproc (errTerm vol (fun _ _ => true) u ex) levels / domVol)

/-- ConvectingTaylorVortex.cpp:299-300, ChannelFlow.cpp:325-326: the volume of a cell, with the factors of a mapped mesh. -/
def mappedVol (dx : ℕ → Plane.Axis → ℝ) (fac : ℕ → Cell → Plane.Axis → ℝ) (lev : ℕ) (c : Cell) : ℝ :=
  dx lev .x * fac lev c .x * (dx lev .y) * fac lev c .y * (dx lev .z) * fac lev c .z

end AmrWind.Exact
