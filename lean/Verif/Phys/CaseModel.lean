import Mathlib.Analysis.SpecialFunctions.Exp
import Mathlib.Analysis.SpecialFunctions.Log.Basic
import Mathlib.Analysis.SpecialFunctions.Trigonometric.Basic
import Mathlib.MeasureTheory.Integral.IntervalIntegral.Basic
import Verif.Mix.Model

/-!
# Model of the initial and prescribed states of the test cases

`physics/TaylorGreenVortex.cpp`, `VortexDipole.cpp`, `VortexRing.cpp`, `ChannelFlow.cpp` (initial state), `RayleighTaylorFieldInit.cpp`,
`BoussinesqBubbleFieldInit.cpp`, `ScalarAdvection.cpp` and, in `physics/multiphase`, `VortexPatch.cpp`, `ZalesakDisk.cpp`, `BreakingWaves.cpp`,
`DamBreak.cpp`, `SloshingTank.cpp`, `RainDrop.cpp`. A field is modelled as the function of the position that the code evaluates at the centre of a
cell, of a face or at a node. The lines of the initial state and of the state in each step of `VortexPatch` and `ZalesakDisk` are the same formula.
-/

set_option linter.unusedSectionVars false

namespace AmrWind.Case

/-! ## Taylor-Green vortex -/

/-- TaylorGreenVortex.cpp:45-47. -/
noncomputable def tgU (Lx Ly Lz x y z : ℝ) : ℝ :=
  Real.sin (2 * Real.pi * x / Lx) * Real.cos (2 * Real.pi * y / Ly) * Real.cos (2 * Real.pi * z / Lz)

/-- TaylorGreenVortex.cpp:48-50; the third component is zero (:51). -/
noncomputable def tgV (Lx Ly Lz x y z : ℝ) : ℝ :=
  -Real.cos (2 * Real.pi * x / Lx) * Real.sin (2 * Real.pi * y / Ly) * Real.cos (2 * Real.pi * z / Lz)

/-! ## Vortex dipole -/

/-- The inputs of VortexDipole.cpp:18-24, 44-55: centres in the plane of `x` and `z`, core radius, strength, background velocity. -/
structure Dipole where
  x1 : ℝ
  z1 : ℝ
  x2 : ℝ
  z2 : ℝ
  r0 : ℝ
  om : ℝ
  ub : ℝ
  vb : ℝ
  wb : ℝ

/-- VortexDipole.cpp:62-66, 70, 72: the factor that decays with the distance from a centre. -/
noncomputable def core (r0 x z x1 z1 : ℝ) : ℝ :=
  let r := Real.sqrt ((x - x1) * (x - x1) + (z - z1) * (z - z1))
  Real.exp (-(r / r0) * (r / r0))

/-- VortexDipole.cpp:68-72. -/
noncomputable def Dipole.u (d : Dipole) (x z : ℝ) : ℝ :=
  d.ub + -(1 / 2) * d.om * (z - d.z1) * core d.r0 x z d.x1 d.z1 + 1 / 2 * d.om * (z - d.z2) * core d.r0 x z d.x2 d.z2

/-- VortexDipole.cpp:74-78; the second component is the background velocity (:73). -/
noncomputable def Dipole.w (d : Dipole) (x z : ℝ) : ℝ :=
  d.wb + 1 / 2 * d.om * (x - d.x1) * core d.r0 x z d.x1 d.z1 + -(1 / 2) * d.om * (x - d.x2) * core d.r0 x z d.x2 d.z2

/-! ## Turbulent channel -/

/-- ChannelFlow.cpp:85. -/
noncomputable def uTau (mu rho reTau : ℝ) : ℝ := mu * reTau / (rho * 1)

/-- ChannelFlow.cpp:86. -/
noncomputable def yTau (mu rho utau : ℝ) : ℝ := mu / (utau * rho)

/-- ChannelFlow.cpp:194-199: the distance from the wall, of a coordinate normal to the walls. -/
noncomputable def wallDist (h : ℝ) : ℝ := if h > 1 then 2 - h else h

/-- ChannelFlow.cpp:200-205: the first component of the velocity at a distance from the wall. -/
noncomputable def reichardt (utau kappa ytau h : ℝ) : ℝ :=
  let hp := h / ytau
  utau * (1 / kappa * Real.log (1 + kappa * hp) + 78 / 10 * (1 - Real.exp (-hp / 11) - hp / 11 * Real.exp (-hp / 3)))

/-- ChannelFlow.cpp:145-146: wave number for a number of periods. -/
noncomputable def waveNo (periods len : ℝ) : ℝ := periods * 2 * Real.pi / len

/-- ChannelFlow.cpp:209-211 (with :138 for the amplitude). -/
noncomputable def pertV (ky kz amp y z : ℝ) : ℝ := kz * amp * Real.sin (ky * y) * Real.cos (kz * z)

/-- ChannelFlow.cpp:212-214. -/
noncomputable def pertW (ky kz amp y z : ℝ) : ℝ := -ky * amp * Real.cos (ky * y) * Real.sin (kz * z)

/-! ## Vortex rings -/

/-- VortexRing.cpp:16-36. -/
noncomputable def fatCore (r z R G : ℝ) : ℝ :=
  let Rsq := R ^ 2
  let ssq := z ^ 2 + (r - R) ^ 2
  if ssq < Rsq then 0.54857674 * G / Rsq * Real.exp (-4 * ssq / (Rsq - ssq)) else 0

/-- VortexRing.cpp:52-63: the relative displacement of a ring at an angle; `modes` lists wave numbers and phases. -/
noncomputable def wobble (amp : ℝ) (modes : List (ℤ × ℝ)) (theta : ℝ) : ℝ :=
  modes.foldl (fun s m => s + amp * Real.cos (m.1 * theta - m.2)) 0

/-- VortexRing.cpp:64-69 and 70-75: one of the rings, at height `z0`, of circulation `G`. -/
noncomputable def ringVort (r z z0 R G delta dr : ℝ) : ℝ :=
  G / (Real.pi * delta ^ 2) * Real.exp (-((z - z0) ^ 2 + (r * (1 + dr) - R) ^ 2) / delta ^ 2)

/-- VortexRing.cpp:38-77. -/
noncomputable def colliding (r theta z R G delta dz amp : ℝ) (m1 m2 : List (ℤ × ℝ)) : ℝ :=
  ringVort r z (-(dz / 2)) R (-G) delta (wobble amp m1 theta) + ringVort r z (dz / 2) R G delta (wobble amp m2 theta)

/-- VortexRing.cpp:189-191: the right hand side of the equation for the vector potential, from angle and azimuthal vorticity. -/
noncomputable def ringRhs (theta w : ℝ) : ℝ × ℝ × ℝ := (Real.sin theta * w, -Real.cos theta * w, 0)

section stencil
variable {K : Type*} [Field K]

/-- A field at the nodes or in the cells of a level. -/
abbrev Grid (K : Type*) := ℤ → ℤ → ℤ → K

/-- VortexRing.cpp:267-320: derivatives in a cell of a field at its eight nodes; `f` is one quarter over the cell size (:261-263). -/
def gradX (f : K) (p : Grid K) (i j k : ℤ) : K :=
  f * (-p i j k + p (i + 1) j k - p i (j + 1) k + p (i + 1) (j + 1) k - p i j (k + 1) + p (i + 1) j (k + 1) -
    p i (j + 1) (k + 1) + p (i + 1) (j + 1) (k + 1))
def gradY (f : K) (p : Grid K) (i j k : ℤ) : K :=
  f * (-p i j k - p (i + 1) j k + p i (j + 1) k + p (i + 1) (j + 1) k - p i j (k + 1) - p (i + 1) j (k + 1) +
    p i (j + 1) (k + 1) + p (i + 1) (j + 1) (k + 1))
def gradZ (f : K) (p : Grid K) (i j k : ℤ) : K :=
  f * (-p i j k - p (i + 1) j k - p i (j + 1) k - p (i + 1) (j + 1) k + p i j (k + 1) + p (i + 1) j (k + 1) +
    p i (j + 1) (k + 1) + p (i + 1) (j + 1) (k + 1))

/-- VortexRing.cpp:322-324: the velocity of a cell from the vector potential `(px, py, pz)`. -/
def ringU (fy fz : K) (py pz : Grid K) : Grid K := fun i j k => -(gradY fy pz i j k - gradZ fz py i j k)
def ringV (fx fz : K) (px pz : Grid K) : Grid K := fun i j k => -(gradZ fz px i j k - gradX fx pz i j k)
def ringW (fx fy : K) (px py : Grid K) : Grid K := fun i j k => -(gradX fx py i j k - gradY fy px i j k)

end stencil

/-! ## Rayleigh-Taylor instability and Boussinesq bubble -/

/-- RayleighTaylorFieldInit.cpp:39-44: the height of the perturbed interface above a point; `len` is the extent of the domain in `x`, `cx` and `cy` its
centre (:31-33). -/
noncomputable def rtHeight (len cx cy x y : ℝ) : ℝ :=
  let r := min (Real.sqrt ((x - cx) ^ 2 + (y - cy) ^ 2)) (1 / 2 * len)
  1 / 2 - 1 / 100 * Real.cos (2 * Real.pi * r / len)

/-- RayleighTaylorFieldInit.cpp:46-48. -/
noncomputable def rtDensity (rhoLo rhoHi height z : ℝ) : ℝ :=
  rhoLo + (rhoHi - rhoLo) / 2 * (1 + Real.tanh ((z - height) / (5 / 1000)))

/-- BoussinesqBubbleFieldInit.cpp:53-61: the temperature. -/
noncomputable def bubble (inner outer radius xc yc zc x y z : ℝ) : ℝ :=
  let r := Real.sqrt ((x - xc) * (x - xc) + (y - yc) * (y - yc) + (z - zc) * (z - zc))
  if r < radius then inner else outer

/-! ## Vortex patch -/

/-- VortexPatch.cpp:68-72, 84-88, 151-156, 196-201: the first velocity component at a point (centre of a cell or of a face), without the factor in time. -/
noncomputable def vpU (x y z : ℝ) : ℝ :=
  2 * Real.sin (Real.pi * x) * Real.sin (Real.pi * x) * Real.sin (2 * Real.pi * y) * Real.sin (2 * Real.pi * z)

/-- VortexPatch.cpp:73-77, 89-93, 157-162, 202-207. -/
noncomputable def vpV (x y z : ℝ) : ℝ :=
  -Real.sin (Real.pi * y) * Real.sin (Real.pi * y) * Real.sin (2 * Real.pi * x) * Real.sin (2 * Real.pi * z)

/-- VortexPatch.cpp:78-82, 94-98, 163-168, 208-213. -/
noncomputable def vpW (x y z : ℝ) : ℝ :=
  -Real.sin (Real.pi * z) * Real.sin (Real.pi * z) * Real.sin (2 * Real.pi * x) * Real.sin (2 * Real.pi * y)

/-- VortexPatch.cpp:156, 162, 168: the factor in time. -/
noncomputable def vpTime (period t : ℝ) : ℝ := Real.cos (Real.pi * t / period)

/-- VortexPatch.cpp:125-126 `pre_advance_work`: the time for which the face velocities of a step are prescribed: incflo.cpp:296-299 calls it before the
step size is computed, so `dtPrev` is that of the step before. -/
noncomputable def vpFaceTime (cur dtPrev : ℝ) : ℝ := cur + 1 / 2 * dtPrev

/-- VortexPatch.cpp:178 `post_advance_work`: the time for which the cell velocities are set after the step from `cur` to `cur + dt`. -/
noncomputable def vpCellTime (cur _dt : ℝ) : ℝ := cur

/-- VortexPatch.cpp:100-103, RainDrop.cpp:47-50: distance from a sphere, positive inside. -/
noncomputable def ball (radius xc yc zc x y z : ℝ) : ℝ :=
  radius - Real.sqrt ((x - xc) * (x - xc) + (y - yc) * (y - yc) + (z - zc) * (z - zc))

/-! ## Zalesak's disk -/

/-- ZalesakDisk.cpp:70-71, 76-77, 171-173, 204-206. -/
noncomputable def zdU (period y : ℝ) : ℝ := 2 * Real.pi / period * (1 / 2 - y)

/-- ZalesakDisk.cpp:72-73, 78-79, 174-176, 207-209; the third component is zero. -/
noncomputable def zdV (period x : ℝ) : ℝ := 2 * Real.pi / period * (x - 1 / 2)

/-- ZalesakDisk.cpp:83-122: the level set; `hw` and `depth` are half width and depth of the slot. -/
noncomputable def zdPhi (radius hw depth xc yc zc x y z : ℝ) : ℝ :=
  let phi := ball radius xc yc zc x y z
  let sdx := max (-hw + (x - xc)) (-hw - (x - xc))
  let sdy := radius - depth - (y - yc)
  let m := max sdx sdy
  let red := Real.sqrt (radius * radius - hw * hw)
  let r2 := Real.sqrt ((y - yc) ^ 2 + (z - zc) ^ 2)
  let sdr := -Real.sqrt ((r2 - red) ^ 2 + sdx ^ 2)
  if y - yc > radius - depth ∧ |x - xc| < hw then (if r2 < red then m else sdr) else min phi m

/-! ## Breaking waves -/

/-- BreakingWaves.cpp:84-94: the elevation of the surface. -/
noncomputable def bwEta (level a k x : ℝ) : ℝ :=
  let e := a * k
  level + a * ((1 - 1 / 16 * e * e) * Real.cos (k * x) + 1 / 2 * e * Real.cos (2 * k * x) + 3 / 8 * e * e * Real.cos (3 * k * x))

/-- BreakingWaves.cpp:97-99. -/
noncomputable def bwOmega (a k : ℝ) : ℝ := Real.sqrt (981 / 100 * k * (1 + a * k * (a * k)))

/-- BreakingWaves.cpp:101-104: below the surface. -/
noncomputable def bwU (a k x z : ℝ) : ℝ := bwOmega a k * a * Real.exp (k * z) * Real.cos (k * x)
noncomputable def bwW (a k x z : ℝ) : ℝ := bwOmega a k * a * Real.exp (k * z) * Real.sin (k * x)

/-! ## Dam break, sloshing tank, rain drop -/

/-- DamBreak.cpp:58-67: the level set of a column of water. -/
noncomputable def damPhi (width height xc zc x z : ℝ) : ℝ :=
  if x - xc < width ∧ z - zc < height then min (width - x) (height - z)
  else if x - xc < width ∧ z - zc > height then height - (z - zc)
  else if x - xc > width ∧ z - zc < height then width - (x - xc)
  else min (width - (x - xc)) (height - (z - zc))

/-- SloshingTank.cpp:61-66, 78-84: the height of the surface; `cx`, `cy`: centre of the tank. -/
noncomputable def sloshZ (level amp kappa cx cy x y : ℝ) : ℝ :=
  level + amp * Real.exp (-kappa * ((x - cx) ^ 2 + (y - cy) ^ 2))

/-- SloshingTank.cpp:86-95: the pressure at a node of height `z` below or above a surface at `z0`, in a tank from `lo` to `hi`. -/
noncomputable def sloshP (rho1 rho2 g lo hi z0 z : ℝ) : ℝ :=
  let ihg := max 0 (min (hi - z0) (hi - z))
  let ihl := max 0 (min (z0 - z) (z0 - lo));
  -(rho1 * ihl + rho2 * ihg) * g

/-- RainDrop.cpp:98-101: a velocity component of a cell with volume fraction `vof`; `v` is that of the drop. -/
noncomputable def dropVel (rhol rhog vof v : ℝ) : ℝ := vof * rhol * v / ((1 - vof) * rhog + vof * rhol)

/-! ## Scalar advection -/

/-- `std::erf`. -/
noncomputable def erf (x : ℝ) : ℝ := 2 / Real.sqrt Real.pi * ∫ t in (0 : ℝ)..x, Real.exp (-t ^ 2)

/-- ScalarAdvection.cpp:12-35 `GaussianPulseFV`. -/
noncomputable def gaussPulse (x dx x0 amp w : ℝ) : ℝ :=
  if |x - x0| < 6 * w then
    Real.sqrt (Real.pi / 2) * amp * w * (erf ((x - x0 + dx / 2) / (Real.sqrt 2 * w)) - erf ((x - x0 - dx / 2) / (Real.sqrt 2 * w))) / dx
  else 0

/-- ScalarAdvection.cpp:37-63 `TwoDimGaussianPulseFV`. -/
noncomputable def gaussPulse2 (x y dx dy x0 y0 amp w v : ℝ) : ℝ :=
  if |x - x0| < 6 * w ∧ |y - y0| < 6 * v then
    Real.pi / 2 * amp * w * v * (erf ((x - x0 + dx / 2) / (Real.sqrt 2 * w)) - erf ((x - x0 - dx / 2) / (Real.sqrt 2 * w))) *
      (erf ((y - y0 + dy / 2) / (Real.sqrt 2 * v)) - erf ((y - y0 - dy / 2) / (Real.sqrt 2 * v))) / dx / dy
  else 0

/-- ScalarAdvection.cpp:66-87 `SquarePulseFV`. -/
noncomputable def squarePulse (x dx x0 amp w : ℝ) : ℝ :=
  if abs (|x - x0| - w / 2) < dx / 2 then amp * (w / 2 - |x - x0| + dx / 2) / dx
  else if |x - x0| < w / 2 then amp else 0

/-- ScalarAdvection.cpp:119-135 `GaussianWavePacket`: at a point. -/
noncomputable def packet (x x0 amp w k : ℝ) : ℝ :=
  if |x - x0| < 6 * w then amp * Real.cos (k * x) * Real.exp (-(x - x0) ^ 2 / (2 * w ^ 2)) else 0

/-- ScalarAdvection.cpp:89-115 `GaussianWavePacketFV`: the quadrature over a cell, for any function of a point. -/
noncomputable def quad3 (f : ℝ → ℝ) (x dx : ℝ) : ℝ :=
  (0.5555555556 * f (x + -0.7745966692 * (1 / 2) * dx) + 0.8888888889 * f (x + 0 * (1 / 2) * dx) + 0.5555555556 * f (x + 0.7745966692 * (1 / 2) * dx)) / 2

/-- ScalarAdvection.cpp:249-251, 296-298: the exact value of a shape in a cell at time `t`. -/
def exactAt (shape : ℝ → ℝ) (u t x : ℝ) : ℝ := shape (x - u * t)

end AmrWind.Case
