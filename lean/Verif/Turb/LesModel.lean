import Mathlib.Analysis.SpecialFunctions.Pow.Real
import Mathlib.Analysis.SpecialFunctions.Sqrt
import Verif.Fvm.Model

/-!
# Model of the subgrid models: Smagorinsky, one-equation (Moeng 1984), AMD, Kosovic

`turbulence/LES/Smagorinsky.cpp`, `OneEqKsgs.cpp`, `AMD.H`, `AMD.cpp`, `AMDNoTherm.H`, `Kosovic.cpp`,
`turbulence/TurbModelBase.H`, `equation_systems/tke/source_terms/KsgsM84Src.{H,cpp}`, `equation_systems/tke/tke_ops.H` and
the part of `equation_systems/PDEOps.H` and `CompRHSOps.H` that turns a source into a change of the field.

Real arithmetic.  Square roots of negative numbers and 0/0 are `none`.  The fields are modelled cell by cell: the
gradients that the functions take come from the finite volume operators (C79).  Filling of ghost cells, the linear solver
and mesh mapping are not modelled.
-/

set_option linter.unusedSectionVars false

namespace AmrWind.Les

open AmrWind.Fvm

/-- `std::cbrt(dx * dy * dz)`, Smagorinsky.cpp:43 and the same line of the other models. -/
noncomputable def width (dx dy dz : ℝ) : ℝ := (dx * dy * dz) ^ (1 / 3 : ℝ)

/-! ## Smagorinsky -/

/-- Smagorinsky.cpp:32-56: the strain rate times density times `Cs² ds²`. -/
noncomputable def smagMu (Cs rho ds : ℝ) (L : Grad ℝ) : ℝ := L.strain * (rho * (Cs * Cs * (ds * ds)))

/-! ## What every model hands to the equations (TurbModelBase.H:17-78) -/

/-- TurbModelBase.H:19-25, 48-56: effective viscosity. -/
noncomputable def muEff (mu muT : ℝ) : ℝ := mu + 1 * muT

/-- TurbModelBase.H:27-35, 58-66: effective thermal diffusivity. -/
noncomputable def alphaEff (alpha prt muT : ℝ) : ℝ := alpha + 1 / prt * muT

/-- TurbModelBase.H:37-46, 68-78: effective diffusivity of a scalar with Schmidt numbers `sc`, `sct`. -/
noncomputable def scalarEff (mu sc sct muT : ℝ) : ℝ := mu / sc + 1 / sct * muT

/-! ## One equation for the subgrid energy -/

/-- The values in one cell that `OneEqKsgsM84::update_turbulent_viscosity` reads (OneEqKsgs.cpp:97-130). -/
structure Cell84 where
  rho : ℝ
  Ce : ℝ
  beta : ℝ
  /-- gravity -/
  g : Fin 3 → ℝ
  /-- gradient of temperature -/
  dT : Fin 3 → ℝ
  /-- subgrid energy -/
  tke : ℝ
  /-- filter width -/
  ds : ℝ
  /-- gradient of velocity -/
  L : Grad ℝ

/-- OneEqKsgs.cpp:133-137. -/
noncomputable def Cell84.strat (c : Cell84) : ℝ := -((c.dT 0 * c.g 0) + (c.dT 1 * c.g 1) + (c.dT 2 * c.g 2)) * c.beta

/-- `std::numeric_limits<Real>::epsilon()`: any positive number here. -/
abbrev Eps := { e : ℝ // 0 < e }

/-- OneEqKsgs.cpp:138-146 for `0 ≤ tke`. -/
noncomputable def Cell84.lscale (eps : Eps) (c : Cell84) : ℝ :=
  if c.strat > eps.1 * 1000000 then min c.ds (76 / 100 * Real.sqrt (c.tke / c.strat)) else c.ds

/-- OneEqKsgs.cpp:148-150. -/
noncomputable def Cell84.muT (eps : Eps) (c : Cell84) : ℝ := c.rho * c.Ce * c.lscale eps * Real.sqrt c.tke

/-- OneEqKsgs.cpp:152-155. -/
noncomputable def Cell84.buoy (eps : Eps) (c : Cell84) : ℝ :=
  -c.muT eps * (1 + 2 * c.lscale eps / c.ds) * c.strat

/-- OneEqKsgs.cpp:102, 157-158. -/
noncomputable def Cell84.shear (eps : Eps) (c : Cell84) : ℝ := c.L.strain * (c.L.strain * c.muT eps)

/-- OneEqKsgs.cpp:191-197. -/
noncomputable def Cell84.alphaEff (eps : Eps) (alpha : ℝ) (c : Cell84) : ℝ :=
  alpha + c.muT eps * (1 + 2 * c.lscale eps / c.ds)

/-- OneEqKsgs.cpp:211-215: the diffusivity of the subgrid energy. -/
noncomputable def Cell84.tkeEff (eps : Eps) (c : Cell84) : ℝ := 0 + 2 * c.muT eps

/-- OneEqKsgs.cpp:253-257: dissipation rate handed to a RANS model in hybrid runs. -/
noncomputable def Cell84.sdr (c : Cell84) : ℝ := Real.sqrt c.tke / (c.Ce * c.ds)

/-- KsgsM84Src.H:41-45. -/
noncomputable def cepsLocal (Ceps l ds : ℝ) : ℝ := (Ceps / (93 / 100)) * (19 / 100 + (74 / 100 * l / ds))

/-- KsgsM84Src.H:47-51. -/
noncomputable def calcDissip (Ceps tke l : ℝ) : Option ℝ :=
  if tke < 0 ∨ l = 0 then none else some (Ceps * Real.sqrt tke * tke / l)

/-- KsgsM84Src.cpp:20-22. -/
noncomputable def cepsGround (Ceps : ℝ) : ℝ := (39 / 10 / (93 / 100)) * Ceps

/-- Where a cell lies: per direction, whether the low (high) face of the domain is a wall model, whether the tile starts
(ends) at that face and the index of the cell in that direction relative to the tile (KsgsM84Src.cpp:58-82). -/
structure Wall where
  modelLo : Bool
  modelHi : Bool
  /-- first cell of the tile is the first cell of the domain -/
  tileLo : Bool
  tileHi : Bool
  /-- the cell lies in the first layer of the tile -/
  first : Bool

/-- KsgsM84Src.cpp:59-98 in one direction: `(source, dissipation)` of the cell; `none` is `Abort`. -/
noncomputable def wallPass (Ceps tke l : ℝ) (w : Wall) (s : ℝ × ℝ) : Option (ℝ × ℝ) := do
  let s ← if w.modelLo && w.tileLo && w.first then do
      let d ← calcDissip (cepsGround Ceps) tke l
      pure (s.1 + s.2 - d, d)
    else pure s
  if w.modelHi && w.tileHi then none else pure s

/-- KsgsM84Src.cpp:50-99: the source in one cell, `walls` the three directions. -/
noncomputable def src84 (Ceps shear buoy tke l ds : ℝ) (walls : List Wall) (src0 : ℝ) : Option (ℝ × ℝ) := do
  let d ← calcDissip (cepsLocal Ceps l ds) tke l
  walls.foldlM (fun s w => wallPass Ceps tke l w s) (src0 + (shear + buoy - d), d)

/-- tke_ops.H:50-68: clipping after the solve (`blank` false without terrain). -/
noncomputable def tkeClip (clip : ℝ) (blank : Bool) (k : ℝ) : ℝ :=
  let k1 := if k < 0 then clip else k
  if blank then clip else k1

/-- PDEOps.H:115-147 (the sources are multiplied by density) and CompRHSOps.H:93-117 (explicit step without advection,
diffusion and mapping): the new value of a field from the sum `src` of its source terms. -/
noncomputable def explicitStep (rhoOld rhoNph rhoNew dt src phi : ℝ) : ℝ := (rhoOld * phi + dt * (rhoNph * src)) / rhoNew

/-- One explicit step of the subgrid energy in a cell away from walls with constant density. -/
noncomputable def step84 (eps : Eps) (Ceps dt : ℝ) (c : Cell84) : Option ℝ := do
  let s ← src84 Ceps (c.shear eps) (c.buoy eps) c.tke (c.lscale eps) c.ds [] 0
  pure (explicitStep c.rho c.rho c.rho dt s.1 c.tke)

/-! ## AMD -/

section amd
variable {K : Type*} [Field K] [LinearOrder K] [IsStrictOrderedRing K]

/-- AMDNoTherm.H:66-81 and AMD.H:96-110: `G i j` is component `3 i + j` of the gradient, `∂ⱼ uᵢ`. -/
def amdShear (dx : Fin 3 → K) (G : Fin 3 → Fin 3 → K) : K :=
  ∑ i, ∑ j, ∑ k, G i k * G j k * dx k * dx k * (1 / 2 * (G i j + G j i))

/-- AMD.H:101. -/
def amdDenom (G : Fin 3 → Fin 3 → K) : K := ∑ i, ∑ j, G i j * G i j

/-- AMDNoTherm.H:57-89: viscosity without temperature. -/
def amdBase (eps C : K) (dx : Fin 3 → K) (G : Fin 3 → Fin 3 → K) : K :=
  max (eps * 10) (-C * amdShear dx G / max (eps * 10) (amdDenom G))

/-- AMD.H:89-94: `n` is the wall-normal direction, `dTm` the derivative of the mean temperature at the cell. -/
def amdBuoy (dx : Fin 3 → K) (G : Fin 3 → Fin 3 → K) (dT : Fin 3 → K) (n : Fin 3) (dTm : K) : K :=
  ∑ i, G n i * (dT i - if i = n then dTm else 0) * dx i * dx i

/-- AMD.H:66-119. -/
def amdMu (eps C beta : K) (g dx : Fin 3 → K) (G : Fin 3 → Fin 3 → K) (dT : Fin 3 → K) (n : Fin 3) (dTm : K) : K :=
  max (eps * 10) ((amdShear dx G * -C + amdBuoy dx G dT n dTm * (C * beta * |g n|)) / max (eps * 10) (amdDenom G))

/-- AMD.H:130-142. -/
def amdHeat (dx : Fin 3 → K) (G : Fin 3 → Fin 3 → K) (dT : Fin 3 → K) : K :=
  ∑ i, ∑ k, G i k * dT i * dT k * dx k * dx k

/-- AMD.H:121-148. -/
def amdThermal (eps C : K) (dx : Fin 3 → K) (G : Fin 3 → Fin 3 → K) (dT : Fin 3 → K) : K :=
  max (eps * 10) (amdHeat dx G dT * -C / max (eps * 10) (∑ i, dT i * dT i))

/-- AMD.cpp:118-151: the effective thermal diffusivity; the molecular one is not read. -/
def amdAlphaEff (eps C rho : K) (_alpha : K) (dx : Fin 3 → K) (G : Fin 3 → Fin 3 → K) (dT : Fin 3 → K) : K :=
  rho * amdThermal eps C dx G dT

end amd

/-! ## Kosovic -/

/-- Kosovic.cpp:27-33: `(Cs², C1)` from the backscatter coefficient, `sk` the skewness. -/
noncomputable def kosCoeffs (Cb sk : ℝ) : ℝ × ℝ :=
  (Real.sqrt (8 * (1 + Cb) / (27 * Real.pi * Real.pi)) ^ 2, Real.sqrt 960 * Cb / (7 * (1 + Cb) * sk))

/-- Kosovic.cpp:129-133: height of the cell centre above the ground, `ht` the terrain height. -/
noncomputable def kosHeight (lo dz : ℝ) (terrain : Bool) (ht : ℝ) (k : ℤ) : ℝ :=
  let x3 := lo + (k + 1 / 2) * dz
  if terrain then max (x3 - ht) (1 / 2 * dz) else x3

/-- Kosovic.cpp:141-145. -/
noncomputable def kosWallDist (dz : ℝ) (terrain : Bool) (ht : ℝ) (k : ℤ) : ℝ :=
  if terrain then max ((k + 1) * dz - ht) dz else (k + 1) * dz

/-- Kosovic.cpp:135-140: the stability function; the length is never zero. -/
noncomputable def kosPhi (L x3 : ℝ) : ℝ := if L < 0 then (1 - 16 * x3 / L) ^ (-(1 / 4) : ℝ) else 1 + 5 * x3 / L

/-- Kosovic.cpp:146-147. -/
noncomputable def kosRansL (dist phiM : ℝ) : ℝ := (41 / 100 * dist / phiM) ^ 2

/-- Kosovic.cpp:149-153; `f` is `exp (-x3 / switchLoc)`, `p` the exponent. -/
noncomputable def kosScale (surf : Bool) (f p smag rans : ℝ) : ℝ :=
  let s : ℝ := if surf then 1 else 0;
  (s * ((1 - f) ^ p * smag + f ^ p * rans)) + ((1 - s) * smag)

/-- Kosovic.cpp:166-181: the viscosity of a drag cell: `m` speed above, `m0` here, `mm1` below; `none` when the
logarithm equals the stability correction. -/
noncomputable def kosLogMu (kappa dz z0 psi rho m m0 mm1 : ℝ) : Option ℝ :=
  if Real.log (3 / 2 * dz / z0) - psi = 0 then none
  else
    let us := m * kappa / (Real.log (3 / 2 * dz / z0) - psi);
    some (2 * us * us * rho / max ((m0 - mm1) / dz) (1 / 100))

/-- Kosovic.cpp:156-157, 182-184: `blank` and `drag` are 0 or 1. -/
noncomputable def kosMu (strain rho scale turnOff : ℝ) (blank drag : Bool) (muLog : ℝ) : ℝ :=
  strain * (rho * scale * turnOff * (1 - if blank then 1 else 0)) * (1 - if drag then 1 else 0) + (if drag then 1 else 0) * muLog

/-- Kosovic.cpp:219-224. -/
noncomputable def kosAlphaEff (mol alpha muT : ℝ) : ℝ := alpha + (if mol < 0 then 3 else 1) * muT

/-- Kosovic.cpp:185-191: the factor of the nonlinear stress. -/
noncomputable def kosStressScale (surf : Bool) (f p smag C1 rans : ℝ) : ℝ :=
  let s : ℝ := if surf then 1 else 0;
  (s * ((1 - f) ^ p * smag * (1 / 4) * C1 + f ^ p * rans)) + ((1 - s) * smag * (1 / 4) * C1)

/-- Kosovic.cpp:192-197, NonLinearSGSTerm.cpp:24-28, icns_ops.H:131-133: the change of momentum per time from the
divergence `d` of the nonlinear sum. -/
noncomputable def kosMomentum (rho scale turnOff d : ℝ) : ℝ := rho * (d * (rho * scale * turnOff))

end AmrWind.Les
