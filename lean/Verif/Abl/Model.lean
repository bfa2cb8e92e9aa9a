import Mathlib.Analysis.SpecialFunctions.Log.Deriv
import Mathlib.Analysis.SpecialFunctions.Trigonometric.ArctanDeriv
import Mathlib.Analysis.SpecialFunctions.Sqrt

/-!
# Model of `wind_energy/MOData.H/.cpp`, `wind_energy/ShearStress.H` and the wall functions of
`wind_energy/ABLWallFunction.cpp`

`amrex::Real` is ℝ. A division by zero is `none`. `numeric_limits<Real>::max()` and `epsilon()` are the parameters `big` and
`eps`.
-/

namespace AmrWind.Abl

/-- MOData.H:30-34 `ThetaCalcType`. -/
inductive AlgType where
  | heatFlux
  | surfaceTemperature
  deriving DecidableEq

/-- MOData.H:36-63, the members. -/
structure MO where
  zref : ℝ
  z0 : ℝ
  z0t : ℝ
  utau : ℝ
  kappa : ℝ
  gravity : ℝ
  obukhovLen : ℝ
  uMean : ℝ
  vMean : ℝ
  vmagMean : ℝ
  thetaMean : ℝ
  surfTempFlux : ℝ
  surfTemp : ℝ
  gammaM : ℝ
  gammaH : ℝ
  betaM : ℝ
  betaH : ℝ
  alg : AlgType

/-- MOData.cpp:20-30 `calc_psi_m` (for `beta ≥ 0` the argument of the root is positive). -/
noncomputable def psiM (beta gamma zeta : ℝ) : ℝ :=
  if 0 < zeta then -gamma * zeta
  else
    let x := √(√(1 - beta * zeta))
    2 * Real.log (1 / 2 * (1 + x)) + Real.log (1 / 2 * (1 + x * x)) - 2 * Real.arctan x + Real.pi / 2

/-- MOData.cpp:37-45 `calc_psi_h`. -/
noncomputable def psiH (beta gamma zeta : ℝ) : ℝ :=
  if 0 < zeta then -gamma * zeta
  else
    let x := √(1 - beta * zeta)
    2 * Real.log (1 / 2 * (1 + x))

/-- Division as the program does it; a zero denominator gives no number. -/
noncomputable def div? (a b : ℝ) : Option ℝ := if b = 0 then none else some (a / b)

/-- MOData.H:67-85 `phi_m(z)`. -/
noncomputable def phiM (m : MO) (z : ℝ) : ℝ := Real.log (z / m.z0) - psiM m.betaM m.gammaM (z / m.obukhovLen)

/-- MOData.H:67-85 `phi_h(z)`. -/
noncomputable def phiH (m : MO) (z : ℝ) : ℝ := Real.log (z / m.z0t) - psiH m.betaH m.gammaH (z / m.obukhovLen)

/-- MOData.cpp:66-78: the surface temperature or the flux of one iteration. -/
noncomputable def surface (m : MO) (ph : ℝ) : Option MO :=
  match m.alg with
  | .heatFlux =>
    (div? (m.surfTempFlux * (Real.log (m.zref / m.z0t) - ph)) (m.utau * m.kappa)).map fun t =>
      { m with surfTemp := t + m.thetaMean }
  | .surfaceTemperature =>
    (div? (-(m.thetaMean - m.surfTemp) * m.utau * m.kappa) (Real.log (m.zref / m.z0t) - ph)).map fun q =>
      { m with surfTempFlux := q }

/-- MOData.cpp:80-88: the Obukhov length and `zeta`. -/
noncomputable def obukhov (eps big : ℝ) (m : MO) : Option (ℝ × ℝ) :=
  if eps < |m.surfTempFlux| then
    (div? (-m.utau * m.utau * m.utau * m.thetaMean) (m.kappa * m.gravity * m.surfTempFlux)).bind fun l =>
      (div? m.zref l).map fun z => (l, z)
  else some (big, 0)

/-- MOData.cpp:64-92: one iteration; `ph` is `psi_h` of the previous one. Returns the state, `psi_h` and `utau_iter`. -/
noncomputable def iterate (eps big : ℝ) (m : MO) (ph : ℝ) : Option (MO × ℝ × ℝ) :=
  (surface m ph).bind fun m1 => (obukhov eps big m1).bind fun lz =>
    (div? (m1.kappa * m1.vmagMean) (Real.log (m1.zref / m1.z0) - psiM m1.betaM m1.gammaM lz.2)).map fun u =>
      ({ m1 with obukhovLen := lz.1, utau := u }, psiH m1.betaH m1.gammaH lz.2, m.utau)

/-- The result of the loop: state, `utau` of the iteration before, number of iterations. -/
structure Result where
  mo : MO
  utauIter : ℝ
  iters : ℕ

/-- MOData.cpp:62-93: the loop, after `iter` iterations, from state `m` and `psi_h = ph`. -/
noncomputable def fluxLoop (eps big : ℝ) (maxIters : ℕ) (iter : ℕ) (m : MO) (ph : ℝ) : Option Result :=
  (iterate eps big m ph).bind fun r =>
    if |r.2.2 - r.1.utau| > 1 / 10 ^ 5 ∧ iter + 1 ≤ maxIters then
      fluxLoop eps big maxIters (iter + 1) r.1 r.2.1
    else some ⟨r.1, r.2.2, iter + 1⟩
termination_by maxIters - iter

/-- MOData.cpp:52-103 `update_fluxes`. -/
noncomputable def updateFluxes (eps big : ℝ) (maxIters : ℕ) (m : MO) : Option Result :=
  (div? (m.kappa * m.vmagMean) (Real.log (m.zref / m.z0))).bind fun u =>
    fluxLoop eps big maxIters 0 { m with utau := u } 0

/-- MOData.cpp:95: the message "Convergence criteria not met" is printed. -/
def warns (maxIters : ℕ) (r : Result) : Bool := decide (maxIters ≤ r.iters)

/-! ## The wall models -/

/-- `ABL.wall_shear_stress_type`. -/
inductive Wall where
  | constant
  | localModel
  | schumann
  | moeng
  | donelan

/-- ShearStress.H:190-199: the drag coefficient of Donelan's model. -/
noncomputable def donelanCd (s : ℝ) : ℝ :=
  if s ≤ 5 then 1 / 1000
  else if s < 25 ∧ 5 < s then 1 / 1000 + 7 / 10 ^ 5 * (s - 5)
  else 24 / 10 ^ 4

/-- ShearStress.H `calc_vel_x` of each model (`calc_vel_y` with `v` and the mean of `v`): the stress for a wind component
`u` with plane mean `um` and wind speed `s`. -/
noncomputable def calcVel (w : Wall) (m : MO) (um u s : ℝ) : Option ℝ :=
  let utau2 := m.utau * m.utau
  match w with
  | .constant => (div? um m.vmagMean).map (· * utau2)
  | .localModel => (div? u (max s (1 / 10 ^ 6))).map (· * utau2)
  | .schumann => (div? u m.vmagMean).map (· * utau2)
  | .moeng => (div? ((u - um) * m.vmagMean + s * um) (m.vmagMean * m.vmagMean)).map (· * utau2)
  | .donelan => some (donelanCd m.vmagMean * u * s)

/-- ShearStress.H `calc_theta` of each model. -/
noncomputable def calcTheta (w : Wall) (m : MO) (s theta : ℝ) : Option ℝ :=
  match w with
  | .constant => (div? (m.utau * m.kappa) (phiH m m.zref)).map (· * (m.thetaMean - m.surfTemp))
  | .localModel | .schumann => (div? (m.utau * m.kappa) (phiH m m.zref)).map (· * (theta - m.surfTemp))
  | .moeng => (div? (m.utau * m.kappa) (m.vmagMean * phiH m m.zref)).map
      (· * ((theta - m.thetaMean) * m.vmagMean + (m.thetaMean - m.surfTemp) * s))
  | .donelan => match m.alg with
    | .heatFlux => some m.surfTempFlux
    | .surfaceTemperature => some (12 / 10 ^ 4 * m.vmagMean * (m.surfTemp - m.thetaMean))

/-- ABLWallFunction.cpp:303-327: the wall gradient of a velocity component put in the ghost cell; `blank` is the terrain
blanking (0 or 1), `rho` the density, `mu` the viscosity. -/
noncomputable def velGhost (w : Wall) (m : MO) (um : ℝ) (blank rho mu u v : ℝ) (isX : Bool) : Option ℝ :=
  (calcVel w m um (if isX then u else v) (√(u * u + v * v))).bind fun t => div? ((1 - blank) * t * rho) mu

/-- ABLWallFunction.cpp:464-481: the wall gradient of the temperature put in the ghost cell. -/
noncomputable def tempGhost (w : Wall) (m : MO) (blank rho alpha u v theta : ℝ) : Option ℝ :=
  (calcTheta w m (√(u * u + v * v)) theta).bind fun t => div? ((1 - blank) * rho * t) alpha

/-- ABLWallFunction.cpp:277-300: the stress of the "mol" model at height `z` (half the cell), for the user's Obukhov
length. -/
noncomputable def molStress (m : MO) (z len : ℝ) (u v : ℝ) (isX : Bool) : Option ℝ :=
  (div? z len).bind fun zeta =>
    (div? (√(u * u + v * v) * m.kappa) (Real.log (z / m.z0) - psiM m.betaM m.gammaM zeta)).bind fun ustar =>
      div? (ustar * ustar * (if isX then u else v)) (√(u * u + v * v))

/-- ABLWallFunction.cpp:437-462: the temperature flux of the "mol" model. -/
noncomputable def molTheta (m : MO) (z len : ℝ) (u v theta : ℝ) : Option ℝ :=
  (div? z len).bind fun zeta =>
    (div? (√(u * u + v * v) * m.kappa) (Real.log (z / m.z0) - psiM m.betaM m.gammaM zeta)).bind fun ustar =>
      (div? (theta * ustar * ustar) (m.kappa * (981 / 100) * len)).map (ustar * ·)

/-- The roughness entries of the input file (ABLWallFunction.cpp:36-54): `none` is an abort; the result is `z0` and `z0t`.
The default of both is 0.1 (MOData.H:37-38). -/
noncomputable def roughness (same aero therm : Option ℝ) : Option (ℝ × ℝ) :=
  match same with
  | none => some (aero.getD (1 / 10), therm.getD (1 / 10))
  | some z => if aero.isSome || therm.isSome then none else some (z, z)

/-- ABLWallFunction.cpp:149-158: the surface temperature of the rate mode. -/
noncomputable def surfTempRate (init rate tstart t : ℝ) : ℝ := init + rate * max (t - tstart) 0 / 3600

end AmrWind.Abl
