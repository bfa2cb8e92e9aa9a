import Mathlib.Analysis.SpecialFunctions.Pow.Real
import Mathlib.Analysis.SpecialFunctions.Pow.Deriv
import Verif.Mix.Model

/-!
# Model of the equation of state, the anelastic reference state and the transport models

`eos_models/EOSModel.H`, `utilities/constants.H`, `wind_energy/ABLAnelastic.{H,cpp}`, `utilities/MultiLevelVector.cpp`,
`transport_models/ConstTransport.H`, `transport_models/TwoPhaseTransport.H`.

Real arithmetic.  A density that is not positive makes `std::pow` give NaN, on which the iteration never converges and the run
aborts: this is `none`.  The same holds for a temperature that is not positive, which the theorems exclude.
-/

set_option linter.unusedSectionVars false

namespace AmrWind.Ref

/-! ## Equation of state -/

/-- constants.H:50. -/
noncomputable def gam : ℝ := 14 / 10

/-- constants.H:39-56, EOSModel.H:84-85: gas constant of air, `R / M`. -/
noncomputable def Rd : ℝ := 602214076 / 10 ^ 8 * 10 ^ 23 * (1380649 / 10 ^ 6 / 10 ^ 23) / (2896492 / 10 ^ 8)

/-- constants.H:39-56, EOSModel.H:86-87: gas constant of water vapour. -/
noncomputable def Rv : ℝ := 602214076 / 10 ^ 8 * 10 ^ 23 * (1380649 / 10 ^ 6 / 10 ^ 23) / (1801528 / 10 ^ 8)

/-- `GammaLaw::p_rth`, EOSModel.H:33-47; `ip0` is set to `1 / p0` (:78). -/
noncomputable def pEos (p0 rho theta qv : ℝ) : ℝ :=
  p0 * (Rd * (rho * theta) * (1 + Rv / Rd * qv) * (1 / p0)) ^ gam

/-- `GammaLaw::dp_constanttheta`, EOSModel.H:57-72. -/
noncomputable def dpEos (p0 rho theta qv : ℝ) : ℝ :=
  gam * p0 * (Rd * theta * (1 + Rv / Rd * qv) * (1 / p0)) ^ gam * rho ^ (gam - 1)

/-- The default argument of the constructor, EOSModel.H:75. -/
noncomputable def defaultP0 : ℝ := 1 / 10 ^ 5

/-- The default of the member, EOSModel.H:80-81, which the constructor always replaces. -/
noncomputable def memberP0 : ℝ := 10 ^ 5

/-! ## Anelastic reference state -/

/-- The inputs of `initialize_isentropic_hse`, ABLAnelastic.cpp:88-94: bottom pressure, reference temperature, guess of the density,
gravity along z, cell size, `LOOSE_TOL`. -/
structure Col where
  pbot : ℝ
  theta : ℝ
  guess : ℝ
  g : ℝ
  dx : ℝ
  tol : ℝ

/-- One of the two loops, ABLAnelastic.cpp:117-135 and 146-166: at most `n` corrections of the density `d`, each the difference between
hydrostatic pressure `hse` and pressure of state over the slope; stops once the correction is below `tol`. -/
noncomputable def newton (c : Col) (hse : ℝ → ℝ) (w tol : ℝ) : ℕ → ℝ → Option ℝ
  | 0, _ => none
  | n + 1, d =>
    if d ≤ 0 then none
    else
      let dd := (hse d - pEos c.pbot d c.theta 0) / (dpEos c.pbot d c.theta 0 - w)
      if d + dd ≤ 0 then none
      else if |dd| < tol then some (d + dd) else newton c hse w tol n (d + dd)

/-- Density and pressure of the cells from the bottom up, ABLAnelastic.cpp:106-172. -/
noncomputable def cell (c : Col) : ℕ → Option (ℝ × ℝ)
  | 0 => do
    let d ← newton c (fun d => c.pbot + 1 / 2 * c.dx * d * c.g) (1 / 2 * c.dx * c.g) c.tol 10 c.guess
    pure (d, pEos c.pbot d c.theta 0)
  | k + 1 => do
    let (a, p) ← cell c k
    let d ← newton c (fun d => p + c.dx * (1 / 2 * (a + d)) * c.g) (c.dx * c.g) (c.tol * a) 10 a
    pure (d, pEos c.pbot d c.theta 0)

/-- The reference density of a column of `n` cells; MultiLevelVector.cpp:7-24, 36-53: indices are cells. -/
noncomputable def refDensity (c : Col) (n k : ℕ) : Option ℝ := if k < n then (cell c k).map Prod.fst else none

/-- The reference pressure: the vector has `n + 1` entries, zero at first (MultiLevelVector.cpp:15-20), the loops write the first `n`,
and the entries are copied to the nodes (ABLAnelastic.cpp:36, 78; MultiLevelVector.cpp:36-53). -/
noncomputable def refPressure (c : Col) (n k : ℕ) : Option ℝ :=
  if k < n then (cell c k).map Prod.snd else if k = n then some 0 else none

/-! ## Transport -/

/-- The entries that choose thermal expansion and reference temperature, in the three sections that may hold them. -/
structure Entries where
  transport : Option ℝ
  boussinesq : Option ℝ
  abl : Option ℝ

/-- ConstTransport.H:32-52, TwoPhaseTransport.H:49-69: default 0. -/
def expansion (e : Entries) : ℝ → ℝ := fun dflt => e.transport.getD (e.boussinesq.getD dflt)

/-- ConstTransport.H:54-89, TwoPhaseTransport.H:71-106: default -1. -/
def refTemp (e : Entries) : ℝ → ℝ := fun dflt => e.transport.getD (e.boussinesq.getD (e.abl.getD dflt))

/-- How the interface is captured. -/
inductive Phase
  | none
  | vof (f : ℝ)
  | ls (eps phi : ℝ)

/-- TwoPhaseTransport.H:134-200: viscosity of a cell (fluid one where the fraction is one). -/
noncomputable def mu2 (mu1 mu2 : ℝ) : Phase → Option ℝ
  | .none => none
  | .vof f => some (mu1 * f + mu2 * (1 - f))
  | .ls eps phi => some (mu1 * Mix.smoothHeaviside eps phi + mu2 * (1 - Mix.smoothHeaviside eps phi))

/-- TwoPhaseTransport.H:202-269: thermal diffusivity of a cell. -/
noncomputable def alpha2 (m1 m2 pr1 pr2 : ℝ) (ph : Phase) : Option ℝ := mu2 (m1 / pr1) (m2 / pr2) ph

/-- ConstTransport.H:134-142. -/
noncomputable def alpha1 (mu pr : ℝ) : ℝ := mu * (1 / pr)

/-- ConstTransport.H:144-156, TwoPhaseTransport.H:271-283. -/
noncomputable def scalarDiff (mu sc : ℝ) : ℝ := mu * (1 / sc)

/-- ConstTransport.H:175-210, TwoPhaseTransport.H:302-360: coefficient of thermal expansion of a cell; `field` is the value of the
field `reference_temperature` if there is one. -/
noncomputable def beta (const tref : ℝ) (field : Option ℝ) (tight : ℝ) (ph : Phase) : ℝ :=
  let b := if const > 0 then const else match field with
    | some t => 1 / t
    | none => 1 / tref
  match ph with
  | .none => b
  | .vof f => if f > tight then 0 else b
  | .ls eps phi => b * (1 - Mix.smoothHeaviside eps phi)

/-- ConstTransport.H:238-261, TwoPhaseTransport.H:388-411. -/
noncomputable def refTheta (tref : ℝ) (field : Option ℝ) : Option ℝ :=
  if tref < 0 then none else some (field.getD tref)

end AmrWind.Ref
