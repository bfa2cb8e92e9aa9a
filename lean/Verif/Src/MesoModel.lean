import Mathlib.Algebra.Order.Field.Basic
import Mathlib.Data.Matrix.Mul
import Mathlib.Algebra.BigOperators.Fin
import Verif.Interp.Model

/-!
# Model of the mesoscale profile assimilation (`wind_energy/ABLMesoscaleForcing`, `ABLMesoForcingMom`, `ABLMesoForcingTemp`)

`n` averaging heights; profiles are functions of the height index.  `std::pow` with small integer exponents is the power.
-/

set_option linter.unusedSectionVars false

namespace AmrWind.Meso

open AmrWind Finset

variable {K : Type*} [Field K] [LinearOrder K] [IsStrictOrderedRing K]

/-- A 4 by 4 array. -/
abbrev Mat (K : Type*) := Matrix (Fin 4) (Fin 4) K

/-- ABLMesoscaleForcing.cpp:151-169: `ZᵀWZ`. -/
def gram {n : ℕ} (W z : Fin n → K) (s : K) : Mat K := fun r c => ∑ h, W h * (z h * s) ^ ((c : ℕ) + (r : ℕ))

/-- ABLMesoscaleForcing.cpp:198-202. -/
def detC (m : Mat K) : K :=
  let A2323 := m 2 2 * m 3 3 - m 2 3 * m 3 2
  let A1323 := m 2 1 * m 3 3 - m 2 3 * m 3 1
  let A1223 := m 2 1 * m 3 2 - m 2 2 * m 3 1
  let A0323 := m 2 0 * m 3 3 - m 2 3 * m 3 0
  let A0223 := m 2 0 * m 3 2 - m 2 2 * m 3 0
  let A0123 := m 2 0 * m 3 1 - m 2 1 * m 3 0
  (m 0 0 * (m 1 1 * A2323 - m 1 2 * A1323 + m 1 3 * A1223)) - (m 0 1 * (m 1 0 * A2323 - m 1 2 * A0323 + m 1 3 * A0223)) +
    (m 0 2 * (m 1 0 * A1323 - m 1 1 * A0323 + m 1 3 * A0123)) - (m 0 3 * (m 1 0 * A1223 - m 1 1 * A0223 + m 1 2 * A0123))

/-- ABLMesoscaleForcing.cpp:179-196, 205-228: the entries of the inverse, `det` is the reciprocal of the determinant. -/
def invEntries (m : Mat K) (det : K) : Mat K :=
  let A2323 := m 2 2 * m 3 3 - m 2 3 * m 3 2
  let A1323 := m 2 1 * m 3 3 - m 2 3 * m 3 1
  let A1223 := m 2 1 * m 3 2 - m 2 2 * m 3 1
  let A0323 := m 2 0 * m 3 3 - m 2 3 * m 3 0
  let A0223 := m 2 0 * m 3 2 - m 2 2 * m 3 0
  let A0123 := m 2 0 * m 3 1 - m 2 1 * m 3 0
  let A2313 := m 1 2 * m 3 3 - m 1 3 * m 3 2
  let A1313 := m 1 1 * m 3 3 - m 1 3 * m 3 1
  let A1213 := m 1 1 * m 3 2 - m 1 2 * m 3 1
  let A2312 := m 1 2 * m 2 3 - m 1 3 * m 2 2
  let A1312 := m 1 1 * m 2 3 - m 1 3 * m 2 1
  let A1212 := m 1 1 * m 2 2 - m 1 2 * m 2 1
  let A0313 := m 1 0 * m 3 3 - m 1 3 * m 3 0
  let A0213 := m 1 0 * m 3 2 - m 1 2 * m 3 0
  let A0312 := m 1 0 * m 2 3 - m 1 3 * m 2 0
  let A0212 := m 1 0 * m 2 2 - m 1 2 * m 2 0
  let A0113 := m 1 0 * m 3 1 - m 1 1 * m 3 0
  let A0112 := m 1 0 * m 2 1 - m 1 1 * m 2 0
  fun r c => match r, c with
      | 0, 0 => det * (m 1 1 * A2323 - m 1 2 * A1323 + m 1 3 * A1223)
      | 0, 1 => det * -(m 0 1 * A2323 - m 0 2 * A1323 + m 0 3 * A1223)
      | 0, 2 => det * (m 0 1 * A2313 - m 0 2 * A1313 + m 0 3 * A1213)
      | 0, 3 => det * -(m 0 1 * A2312 - m 0 2 * A1312 + m 0 3 * A1212)
      | 1, 0 => det * -(m 1 0 * A2323 - m 1 2 * A0323 + m 1 3 * A0223)
      | 1, 1 => det * (m 0 0 * A2323 - m 0 2 * A0323 + m 0 3 * A0223)
      | 1, 2 => det * -(m 0 0 * A2313 - m 0 2 * A0313 + m 0 3 * A0213)
      | 1, 3 => det * (m 0 0 * A2312 - m 0 2 * A0312 + m 0 3 * A0212)
      | 2, 0 => det * (m 1 0 * A1323 - m 1 1 * A0323 + m 1 3 * A0123)
      | 2, 1 => det * -(m 0 0 * A1323 - m 0 1 * A0323 + m 0 3 * A0123)
      | 2, 2 => det * (m 0 0 * A1313 - m 0 1 * A0313 + m 0 3 * A0113)
      | 2, 3 => det * -(m 0 0 * A1312 - m 0 1 * A0312 + m 0 3 * A0112)
      | 3, 0 => det * -(m 1 0 * A1223 - m 1 1 * A0223 + m 1 2 * A0123)
      | 3, 1 => det * (m 0 0 * A1223 - m 0 1 * A0223 + m 0 2 * A0123)
      | 3, 2 => det * -(m 0 0 * A1213 - m 0 1 * A0213 + m 0 2 * A0113)
      | 3, 3 => det * (m 0 0 * A1212 - m 0 1 * A0212 + m 0 2 * A0112)

/-- ABLMesoscaleForcing.cpp:174-229 `invert_mat`; `none` when the determinant is zero (line 203, division by zero). -/
def invertMat (m : Mat K) : Option (Mat K) := if detC m = 0 then none else some (invEntries m (1 / detC m))

/-- ABLMesoForcingTemp.cpp:163-173: `ZᵀWy`. -/
def rhsTemp {n : ℕ} (W z : Fin n → K) (s : K) (err : Fin n → K) (i : Fin 4) : K := ∑ h, err h * W h * (z h * s) ^ (i : ℕ)

/-- ABLMesoForcingMom.cpp:171-186: the weight is read with the index of the coefficient. -/
def rhsMom {n : ℕ} (W z : Fin n → K) (s : K) (err : Fin n → K) (i : Fin 4) : Option K :=
  if hi : (i : ℕ) < n then some (∑ h, err h * W ⟨i, hi⟩ * (z h * s) ^ (i : ℕ)) else none

/-- ABLMesoForcingMom.cpp:188-219, ABLMesoForcingTemp.cpp:175-196: coefficients, and the polynomial at the heights. -/
def polyFit {n : ℕ} (im : Mat K) (rhs : Fin 4 → K) (z : Fin n → K) (s : K) : Fin n → K :=
  fun h => ∑ j : Fin 4, (∑ l : Fin 4, im j l * rhs l) * (z h * s) ^ (j : ℕ)

/-- ABLMesoForcingTemp.cpp:145-202: indirect assimilation of temperature. -/
def indirectTemp {n : ℕ} (W z : Fin n → K) (s : K) (err : Fin n → K) : Option (Fin n → K) :=
  (invertMat (gram W z s)).map fun im => polyFit im (rhsTemp W z s err) z s

/-- ABLMesoForcingMom.cpp:155-226: indirect assimilation of a velocity component. -/
def indirectMom {n : ℕ} (W z : Fin n → K) (s : K) (err : Fin n → K) : Option (Fin n → K) := do
  let im ← invertMat (gram W z s)
  let r0 ← rhsMom W z s err 0
  let r1 ← rhsMom W z s err 1
  let r2 ← rhsMom W z s err 2
  let r3 ← rhsMom W z s err 3
  some (polyFit im ![r0, r1, r2, r3] z s)

/-- ABLMesoscaleForcing.cpp:287-297 `blend_forcings`. -/
def blend {n : ℕ} (b lower upper : Fin n → K) : Fin n → K := fun h => b h * lower h + (1 - b h) * upper h

/-- ABLMesoscaleForcing.cpp:88-108: the blending profile. -/
def transHeights (zmin zmax ht th : K) : List K := [zmin, ht, ht + th, zmax]

@[inherit_doc transHeights]
def transValues : List K := [1, 1, 0, 0]

/-- ABLMesoscaleForcing.cpp:110-127: the weight of a height. -/
def weightAt (zmin zmax ht th z : K) : Option K := Interp.linear (transHeights zmin zmax ht th) transValues z 1 0

/-- ABLMesoForcingMom.cpp:253-258, ABLMesoForcingTemp.cpp:225-228: the source. -/
def gained (gain dt e : K) : K := e * gain / dt

/-! ## Transition to a constant -/

/-- ABLMesoscaleForcing.cpp:236-248: the search for the levels: first level at or above the transition height, then first one at or above
its top. -/
def scanLevels (z : ℕ → K) (ht th : K) : List ℕ → Option ℕ → Option ℕ × Option ℕ
  | [], b => (b, none)
  | i :: is, b =>
    if b = none ∧ ht ≤ z i then scanLevels z ht th is (some i)
    else if ht + th ≤ z i then (b, some i)
    else scanLevels z ht th is b

/-- ABLMesoscaleForcing.cpp:275-279: one level of the march. -/
def marchStep (z : ℕ → K) (slope0 dslope : K) (b1 : ℕ) (e : ℕ → K) (i : ℕ) : ℕ → K :=
  Function.update e i (e (i - 1) + (slope0 + dslope * (z i - z b1)) * (z i - z (i - 1)))

/-- ABLMesoscaleForcing.cpp:231-285 `constant_forcing_transition`; `none`: a division by zero (bottom of the layer not found: the two
levels of the slope are the same; bottom found at the last level) or a read before the first level. -/
def constTransition (n : ℕ) (z : ℕ → K) (ht th : K) (e : ℕ → K) : Option (ℕ → K) :=
  match scanLevels z ht th (List.range n) none with
  | (none, _) => none
  | (some b1, top) =>
    let bmax := top.getD (n - 1)
    if b1 = 0 ∨ bmax = b1 then none
    else
      let slope0 := (e b1 - e (b1 - 1)) / (z b1 - z (b1 - 1))
      let dslope := -slope0 / (z bmax - z b1)
      let e1 := (List.range' b1 (bmax + 1 - b1)).foldl (marchStep z slope0 dslope b1) e
      some (fun i => if bmax < i then e1 bmax else e1 i)

/-! ## Configuration -/

/-- The entries that matter here. -/
structure Cfg (K : Type*) where
  /-- `forcing_scheme` in lower case: `none` when absent. -/
  indirect : Option Bool
  /-- `forcing_transition` ends with `Constant`. -/
  toConstant : Bool
  /-- `forcing_transition` is given and is not `none`. -/
  transition : Bool
  /-- `constant_transition_height` -/
  height : Option K
  /-- `transition_height` of the data file at the current time. -/
  fileHeight : Option K
  /-- `ABL.tendency_forcing` -/
  tendency : Bool

/-- ABLMesoscaleForcing.cpp:27-86, ABLMesoForcingMom.cpp:155-166: the transition height used; it is set for the indirect scheme only. -/
def Cfg.usedHeight (c : Cfg K) : Option K :=
  if c.indirect = some true ∧ c.transition = true then
    match c.height with
    | some h => some h
    | none => c.fileHeight
  else none

/-- ABLMesoForcingMom.cpp:241-251: is the transition to a constant run, and with which height? -/
def Cfg.constantRun (c : Cfg K) : Bool × Option K := (c.indirect.isSome && c.toConstant && !c.tendency, c.usedHeight)

/-- ABLMesoForcingMom.cpp:89-123, 276-278: the source of tendency forcing. -/
def Cfg.tendencySource (c : Cfg K) (fromFile : K) : K := if c.indirect = none then 0 else fromFile

end AmrWind.Meso
