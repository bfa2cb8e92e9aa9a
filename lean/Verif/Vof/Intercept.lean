import Verif.Vof.Plic
import Mathlib.Analysis.SpecialFunctions.Trigonometric.Inverse
import Mathlib.Analysis.SpecialFunctions.Pow.Real

/-!
# Model of `volume_intercept` and `fit_plane`: `equation_systems/vof/volume_fractions.H`

`amrex::Real` is ℝ. A NaN (square root of a negative number, arc cosine outside [-1,1], division by zero) is
`none`. The machine epsilon appears twice in the code: `tp` is the one in `pr`, `ta` the one next to `acos`; the
code has `tp = ta`.
-/

namespace AmrWind.Vof

/-- `std::cbrt`. -/
noncomputable def cbrt (x : ℝ) : ℝ := if 0 ≤ x then x ^ ((1 : ℝ) / 3) else -(-x) ^ ((1 : ℝ) / 3)

/-- volume_fractions.H:329-335 and 341-347: the root of the depressed cubic, relative to the centre. -/
noncomputable def cubicRoot (ta p q : ℝ) : Option ℝ :=
  if p < 0 then none
  else
    let p12 := √p
    if p * p12 + ta = 0 then none
    else
      let s := q / (p * p12 + ta)
      if s < -1 ∨ 1 < s then none
      else
        let cs := Real.cos (Real.arccos s / 3)
        some (p12 * (√(3 * (1 - cs * cs)) - cs))

/-- volume_fractions.H:302-348: the intercept for ordered coefficients and `ch ≤ 1/2`. -/
noncomputable def interceptOrdered (tp ta m1 m2 m3 ch : ℝ) : Option ℝ :=
  let m12 := m1 + m2
  let pr := max (6 * m1 * m2 * m3) tp
  if pr = 0 ∨ m3 = 0 then none
  else
    let V1 := m1 * m1 * m1 / pr
    let V2 := V1 + 1 / 2 * (m2 - m1) / m3
    let mm := if m3 < m12 then m3 else m12
    let V3 := if m3 < m12 then
        (m3 * m3 * (3 * m12 - m3) + m1 * m1 * (m1 - 3 * m3) + m2 * m2 * (m2 - 3 * m3)) / pr
      else 1 / 2 * mm / m3
    if ch < V1 then some (cbrt (pr * ch))
    else if ch < V2 then some (1 / 2 * (m1 + √(m1 * m1 + 8 * m2 * m3 * (ch - V1))))
    else if ch < V3 then
      (cubicRoot ta (2 * m1 * m2) (3 / 2 * m1 * m2 * (m12 - 2 * m3 * ch))).map (· + m12)
    else if m12 < m3 then some (m3 * ch + 1 / 2 * mm)
    else
      (cubicRoot ta (m1 * (m2 + m3) + m2 * m3 - 1 / 4) (3 / 2 * m1 * m2 * m3 * (1 / 2 - ch))).map (· + 1 / 2)

/-- volume_fractions.H:275-355 `volume_intercept`. -/
noncomputable def volumeIntercept (tp ta b1 b2 b3 volF : ℝ) : Option ℝ :=
  let m := order3 b1 b2 b3
  let ch := min volF (1 - volF)
  (interceptOrdered tp ta m.1 m.2.1 m.2.2 ch).map fun alpha => if 1 / 2 < volF then 1 - alpha else alpha

/-- volume_fractions.H:455-499 `fit_plane`, from the normal `mixed_youngs_central_normal` returned: the normal
with its signs and the intercept. -/
noncomputable def fitPlane (tp ta mx my mz volF : ℝ) : Option (ℝ × ℝ × ℝ × ℝ) :=
  let invx : ℝ := if mx < 0 then -1 else 1
  let ax := if mx < 0 then -mx else mx
  let invy : ℝ := if my < 0 then -1 else 1
  let ay := if my < 0 then -my else my
  let invz : ℝ := if mz < 0 then -1 else 1
  let az := if mz < 0 then -mz else mz
  let mm2 := ax + ay + az
  if mm2 = 0 then none
  else
    let nx := ax / mm2
    let ny := ay / mm2
    let nz := az / mm2
    (volumeIntercept tp ta nx ny nz volF).map fun alpha =>
      let nx := invx * nx
      let ny := invy * ny
      let nz := invz * nz
      (nx, ny, nz, alpha + min 0 nx + min 0 ny + min 0 nz)

end AmrWind.Vof
