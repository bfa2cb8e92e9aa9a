import Mathlib.Analysis.SpecialFunctions.Log.Basic
import Mathlib.Analysis.SpecialFunctions.Trigonometric.Basic
import Mathlib.Analysis.SpecialFunctions.Pow.Real
import Mathlib.Algebra.Order.Floor.Ring
import Mathlib.Algebra.Order.Round

/-!
# Model of the wall functions of channels

`boundary_conditions/wall_models/{LogLaw.H,MOSD.H,ShearStressSimple.H,WallFunction.cpp}`.  Real arithmetic; divisions by zero and
logarithms of numbers that are not positive (NaN or infinity in the code) are `none`.
-/

set_option linter.unusedSectionVars false

namespace AmrWind.Wall

/-! ## Logarithmic law -/

/-- LogLaw.H:23-33. -/
structure Law where
  B : ℝ
  kappa : ℝ
  maxIters : ℕ
  zref : ℝ
  nu : ℝ

/-- LogLaw.H:48-49: wind speed at `zref` for a friction velocity. -/
noncomputable def Law.speed (c : Law) (u : ℝ) : ℝ := u * (Real.log (c.zref * u / c.nu) / c.kappa + c.B)

/-- LogLaw.H:50-51. -/
noncomputable def Law.deriv (c : Law) (u : ℝ) : ℝ := (1 + Real.log (c.zref * u / c.nu)) / c.kappa + c.B

/-- State of the loop of `get_utau`: number of passes, last and present value. -/
structure It where
  n : ℕ
  prev : ℝ
  u : ℝ

/-- LogLaw.H:45-55: the loop; `fuel` bounds the passes left and is more than enough. -/
noncomputable def Law.loop (c : Law) (w : ℝ) : ℕ → It → Option It
  | 0, s => some s
  | fuel + 1, s =>
    if 1 / 10 ^ 5 < |s.prev - s.u| ∧ s.n ≤ c.maxIters then
      if c.zref * s.u / c.nu ≤ 0 ∨ c.deriv s.u = 0 then none
      else c.loop w fuel ⟨s.n + 1, s.u, s.u - (c.speed s.u - w) / c.deriv s.u⟩
    else some s

/-- What `get_utau` ends with. -/
inductive Out
  | ok (u : ℝ)
  | abort
  | nan

/-- LogLaw.H:37-61, from the mean friction velocity. -/
noncomputable def Law.run (c : Law) (mean w : ℝ) : Option It := c.loop w (c.maxIters + 2) ⟨0, -1, mean⟩

noncomputable def Law.utau (c : Law) (mean w : ℝ) : Out :=
  match c.run mean w with
  | none => .nan
  | some s => if s.n = c.maxIters then .abort else .ok s.u

/-! ## Stress -/

/-- ShearStressSimple.H:12-33. -/
noncomputable def schumann (utau wmean u : ℝ) : Option ℝ := if wmean = 0 then none else some (u / wmean * (utau * utau))

/-- ShearStressSimple.H:34-52, for a friction velocity already found. -/
noncomputable def logShear (utau wspd u : ℝ) : Option ℝ := if wspd = 0 then none else some (utau * utau * u / wspd)

/-- The wave of MOSD.H:16-27. -/
structure Wave where
  amp : ℝ
  k : ℝ
  omega : ℝ

/-- MOSD.H:30-62: component of the wave stress; `none` where the slope or the sign argument is zero (0/0). -/
noncomputable def Wave.stress (m : Wave) (time u v x : ℝ) (comp : Fin 2) : Option ℝ :=
  let dx := -m.amp * m.k * Real.sin (m.k * x - m.omega * time)
  let dy : ℝ := 0
  let dtE := m.amp * m.omega * Real.sin (m.k * x - m.omega * time)
  let grad := Real.sqrt (dx * dx + dy * dy)
  if grad = 0 then none
  else
    let cx := -dtE * dx * (1 / (grad * grad))
    let cy := -dtE * dy * (1 / (grad * grad))
    let nx := dx / grad
    let ny := dy / grad
    let ur := u - cx
    let vr := v - cy
    let mag := Real.sqrt (ur * ur * nx * nx + vr * vr * ny * ny)
    let arg := ur * dx + vr * dy
    if arg = 0 then none
    else
      let heavi := (arg + |arg|) / (2 * arg)
      some (1 / Real.pi * mag * mag * grad * grad * heavi * (if comp = 0 then nx else ny))

/-! ## Boundary condition -/

/-- WallFunction.cpp:150-155, 193-198 (low), 225-230 (high): gradient put in the ghost cell for a stress per density `tau`. -/
noncomputable def ghostLow (tau mu rho : ℝ) : ℝ := tau / mu * rho
noncomputable def ghostHigh (tau mu rho : ℝ) : ℝ := -tau / mu * rho

/-- WallFunction.cpp:277-306: the constant stress: both components at the low and at the high wall. -/
noncomputable def constLow (utau mu rho : ℝ) : ℝ × ℝ := (utau * utau / mu * rho, 0)
noncomputable def constHigh (utau mu rho : ℝ) : ℝ × ℝ := (utau * utau / mu * rho, 0)

/-- WallFunction.cpp:24-33: friction velocity from the body force. -/
noncomputable def utauForce (fx fy : ℝ) : ℝ := Real.sqrt (Real.sqrt (fx * fx + fy * fy))

/-- WallFunction.cpp:48-52. -/
noncomputable def zref (lo dz : ℝ) (idx : ℤ) : ℝ := lo + (idx + 1 / 2) * dz

/-- Where the velocity of the wave model is read: a cell, the line between two cells with weight, WallFunction.cpp:138-205; `has k` says
whether cell `k` of the column is in the box. -/
inductive Read
  | cell (k : ℤ)
  | between (k : ℤ) (weight : ℝ)

noncomputable def readAt (dx dz : ℝ) (has : ℤ → Bool) : Read :=
  if dx ≤ dz then .cell (round (dx / dz))
  else
    let klo := ⌊dx / dz - 1 / 2⌋
    if has klo && has (klo + 1) then
      .between klo ((dx - ((klo : ℝ) + 1 / 2) * dz) / (((klo : ℝ) + 1 + 1 / 2) * dz - ((klo : ℝ) + 1 / 2) * dz))
    else .cell 0

/-- The value read from a column of cell values. -/
noncomputable def Read.value (f : ℤ → ℝ) : Read → ℝ
  | .cell k => f k
  | .between k w => f k + (f (k + 1) - f k) * w

end AmrWind.Wall
