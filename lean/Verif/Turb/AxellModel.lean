import Mathlib.Analysis.SpecialFunctions.Pow.Real
import Mathlib.Analysis.SpecialFunctions.Log.Basic
import Mathlib.Analysis.SpecialFunctions.Sqrt
import Verif.Interp.Model

/-!
# Model of the RANS model of Axell and Liungman

`turbulence/RANS/KLAxell.cpp` and its source `equation_systems/tke/source_terms/KransAxell.cpp`.  Real arithmetic; 0/0 is
`none`.  The fields are modelled cell by cell; the gradients come from the finite volume operators (C79), the stability
correction `psi` from the wall model (C70).
-/

set_option linter.unusedSectionVars false

namespace AmrWind.Axell

open AmrWind

/-- The constants of the model (KLAxell.H:56-65, KLAxell.cpp:97-103). `Cmu_prime` and `prandtl` are parsed but not used
by any function (KLAxell.cpp:56, 59). -/
structure Coef where
  Cmu : ℝ
  cmuPrime : ℝ
  CbStable : ℝ
  CbUnstable : ℝ
  prandtl : ℝ
  surfFlux : ℝ
  /-- `meso_sponge_start` -/
  switch : ℝ
  /-- `std::numeric_limits<Real>::epsilon()` -/
  tiny : ℝ

/-- The values of a cell: density, energy, stratification `N²`, height `z`, length scale of the last update, strain rate
and whether the cell is blanked (false without terrain). -/
structure Cell where
  rho : ℝ
  tke : ℝ
  strat : ℝ
  z : ℝ
  old : ℝ
  strain : ℝ
  blank : Bool

/-- KLAxell.cpp:131-135, 209-213. -/
noncomputable def stratification (dT g : Fin 3 → ℝ) (beta : ℝ) : ℝ := -((dT 0 * g 0) + (dT 1 * g 1) + (dT 2 * g 2)) * beta

/-- KLAxell.cpp:136-138, 214: the height of a cell. -/
noncomputable def height (lo dz : ℝ) (terrain : Option ℝ) (k : ℤ) : ℝ :=
  match terrain with
  | none => lo + (k + 1 / 2) * dz
  | some ht => max (lo + (k + 1 / 2) * dz - ht) (1 / 2 * dz)

/-- KLAxell.cpp:139-140 with `lambda` 30 and `kappa` 0.41. -/
noncomputable def lsShear (z : ℝ) : ℝ := (30 * (41 / 100) * z) / (30 + 41 / 100 * z)

/-- KLAxell.cpp:141-145. -/
noncomputable def lsBuoy (c : Coef) (x : Cell) : ℝ := c.CbStable * Real.sqrt (x.tke / max x.strat c.tiny)

/-- KLAxell.cpp:146-157, 318-327 from a length `l` and `0 < tke`; the turbulent Richardson number before clipping. -/
noncomputable def rtRaw (Cmu tke strat l : ℝ) : ℝ :=
  (tke / (Cmu ^ (3 : ℝ) * tke ^ (3 / 2 : ℝ) / l)) ^ (2 : ℝ) * strat

/-- KLAxell.cpp:153-157 with `Rtc` -1 and `Rtmin` -3. -/
noncomputable def rtClip (rt : ℝ) : ℝ :=
  if rt > -1 then rt else max rt (rt - ((rt - -1) ^ (2 : ℝ) / (rt + -3 - 2 * -1)))

/-- KLAxell.cpp:158-176. -/
noncomputable def lsTurb (c : Coef) (x : Cell) (rt : ℝ) : ℝ :=
  if x.strat > 0 then
    min (Real.sqrt ((lsShear x.z * lsBuoy c x) ^ (2 : ℝ) / (lsShear x.z ^ (2 : ℝ) + lsBuoy c x ^ (2 : ℝ)))) (Real.sqrt (c.Cmu * x.tke / x.strat))
  else lsShear x.z * Real.sqrt (1 - (c.Cmu ^ (6 : ℝ) * c.CbUnstable ^ (-2 : ℝ) * rt))

/-- KLAxell.cpp:177-185: the test that replaces the length scale near neutral ground. -/
noncomputable def neutral (c : Coef) (x : Cell) : Prop := |c.surfFlux| < 1 / 100000 ∧ x.z ≤ c.switch

/-- KLAxell.cpp:186-189. -/
noncomputable def cmuRt (Cmu rt : ℝ) : ℝ := (Cmu + 108 / 1000 * rt) / (1 + 308 / 1000 * rt + 837 / 100000 * rt ^ (2 : ℝ))

/-- KLAxell.cpp:194-195. -/
noncomputable def cmuPrimeRt (Cmu rt : ℝ) : ℝ := Cmu / (1 + 277 / 1000 * rt)

/-- KLAxell.cpp:328-329. -/
noncomputable def prandtlRt (rt : ℝ) : ℝ := (1 + 193 / 1000 * rt) / (1 + 302 / 10000 * rt)

/-- What an update leaves in a cell. -/
structure Out where
  len : ℝ
  mu : ℝ
  buoy : ℝ
  shear : ℝ

open Classical in
/-- KLAxell.cpp:128-204, 206-278: the update of a cell.  `none`: the energy is negative, or zero where the Richardson
number (0/0) is used. -/
noncomputable def update (c : Coef) (x : Cell) : Option Out :=
  if x.tke < 0 ∨ (x.tke = 0 ∧ ¬ neutral c x) then none
  else
    let rt0 := rtClip (rtRaw c.Cmu x.tke x.strat (x.old + c.tiny))
    let len := if neutral c x then lsShear x.z else lsTurb c x rt0
    let rt := if neutral c x then 0 else rt0
    let free : ℝ := if x.blank then 0 else 1
    let mu := x.rho * cmuRt c.Cmu rt * len * Real.sqrt x.tke * free
    let muPrime := x.rho * cmuPrimeRt c.Cmu rt * len * Real.sqrt x.tke * free
    some ⟨len, mu, -muPrime * x.strat, x.strain * (x.strain * mu)⟩

/-- KLAxell.cpp:311-333: effective diffusivity of heat from the stored viscosity and length. -/
noncomputable def alphaEff (Cmu alpha tke strat len mu : ℝ) : ℝ :=
  alpha + mu / prandtlRt (rtClip (rtRaw Cmu tke strat len))

/-- KLAxell.cpp:345-349: diffusivity of the energy. -/
noncomputable def tkeEff (mu : ℝ) : ℝ := 0 + 2 * mu

/-! ## Source of the energy (KransAxell.cpp) -/

/-- What the source reads: KransAxell.cpp:28-61.  `Cmu` is `ABL.Cmu`, not the coefficient of the turbulence model. -/
structure SrcCoef where
  Cmu : ℝ
  kappa : ℝ
  z0 : ℝ
  /-- `ABL.meso_sponge_start` -/
  start : ℝ
  /-- upper end of the domain -/
  top : ℝ
  dt : ℝ
  heights : List ℝ
  values : List ℝ
  eps : ℝ
  /-- stability correction -/
  psi : ℝ
  /-- `|g| / T0 * heat_flux` -/
  hf : ℝ

/-- KransAxell.cpp:124-136, 176-190: the value the lowest layer is pulled to, from the speed `m` of the cell above and
height `z`; `none` is a division by zero. -/
noncomputable def wallTke (c : SrcCoef) (z0 z m : ℝ) : Option ℝ :=
  if Real.log (3 * z / z0) - c.psi = 0 then none
  else
    let us := m * c.kappa / (Real.log (3 * z / z0) - c.psi)
    some (us * us / (c.Cmu * c.Cmu) + (max c.hf 0 * c.kappa * z / c.Cmu ^ (3 : ℝ)) ^ (2 / 3 : ℝ))

/-- KransAxell.cpp:138-148, 206-217: the sponge, `1/dt (k - ref)`. -/
noncomputable def sponge (c : SrcCoef) (z tke : ℝ) : Option ℝ :=
  let zi := max ((z - c.start) / (c.top - c.start)) 0
  if 0 < zi ∧ c.heights ≠ [] then (Interp.linear c.heights c.values z 1 0).map fun ref => 1 / c.dt * (tke - ref)
  else some (1 / c.dt * (tke - tke))

/-- KransAxell.cpp:149-151. -/
noncomputable def dissip (c : SrcCoef) (tke len : ℝ) : ℝ := c.Cmu ^ (3 : ℝ) * tke ^ (3 / 2 : ℝ) / (len + c.eps)

/-- KransAxell.cpp:120-156 without terrain: the source in the cell `k` at height `z`. -/
noncomputable def srcFlat (c : SrcCoef) (k : ℤ) (z m tke len shear buoy src0 : ℝ) : Option ℝ := do
  let bc ← if k = 0 then (wallTke c c.z0 z m).map fun w => (w - tke) / c.dt else some 0
  let sp ← sponge c z tke
  pure (src0 + (shear + buoy - dissip c tke len - (1 - 0) * (sp - bc)))

/-- KransAxell.cpp:199-202: the drag in blanked cells, `m` the speed of the cell. -/
noncomputable def blankDrag (eps dz m tke : ℝ) : ℝ := -(min (10 / (dz * m + eps)) (100 / dz)) * m * tke

/-- KransAxell.cpp:120-156 and 170-223 with terrain: `ht` is the height above terrain used by the sponge, `m1` the speed of
the cell above, `m` that of the cell. -/
noncomputable def srcTerrain (c : SrcCoef) (k : ℤ) (blank drag : Bool) (terrainZ0 dz ht m1 m tke len shear buoy src0 : ℝ) : Option ℝ := do
  let s1 := src0 + (shear + buoy - dissip c tke len - 0)
  let d : ℝ := if drag then 1 else 0
  let b : ℝ := if blank then 1 else 0
  let z0 := d * max terrainZ0 (1 / 10000) + (1 - d) * c.z0
  let w ← wallTke c z0 (1 / 2 * dz) m1
  let forcing := (w - tke) / c.dt
  let bc := if k = 0 then (1 - b) * forcing else 0
  let sp ← sponge c ht tke
  pure ((1 - b) * s1 + d * forcing + b * blankDrag c.eps dz m tke - 1 * (sp - bc))

/-- KransAxell.cpp:242-264: one side of the horizontal sponge: `on` 0 or 1, `xi` the coordinate. -/
noncomputable def sideDamp (eps strength on xi : ℝ) : ℝ :=
  let a := on * max xi 0
  let b := a / (a + eps)
  strength * b * b

/-- KransAxell.cpp:265-277: the horizontal sponge from the four sides. -/
noncomputable def sideSponge (eps dt : ℝ) (sides : List ℝ) (tke ref : ℝ) : ℝ :=
  sides.sum / ((sides.sum + eps) * dt) * (tke - ref)

/-- One explicit step with constant density (PDEOps.H:144-146 multiplies by it, CompRHSOps.H:112 divides). -/
noncomputable def step (rho dt src tke : ℝ) : ℝ := (rho * tke + dt * (rho * src)) / rho

end AmrWind.Axell
