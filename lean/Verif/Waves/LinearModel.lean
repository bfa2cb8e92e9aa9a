import Verif.Waves.Model
import Mathlib.Analysis.SpecialFunctions.Trigonometric.DerivHyp
import Mathlib.Algebra.BigOperators.Group.Finset.Basic

/-!
# Model of the regular waves: `relaxation_zones/linear_waves_ops.H` and `relaxation_zones/stokes_waves_K.H`
-/

namespace AmrWind.Waves

/-- The inputs of a linear wave (`LinearWavesData`, `RelaxZonesBaseData`). -/
structure LinWave where
  length : ℝ
  height : ℝ
  offset : ℝ
  depth : ℝ
  zsl : ℝ
  g : ℝ
  current : ℝ

namespace LinWave
variable (v : LinWave)

/-- linear_waves_ops.H:94-95, 178-179. -/
noncomputable def wavenumber : ℝ := 2 * Real.pi / v.length

/-- linear_waves_ops.H:96-98, 180-182; `pow(·, 0.5)` of a positive number. -/
noncomputable def omega : ℝ := Real.sqrt (v.wavenumber * v.g * Real.tanh (v.wavenumber * v.depth))

/-- linear_waves_ops.H:183-185. -/
noncomputable def phase (x t : ℝ) : ℝ := v.wavenumber * (x - v.current * t) - v.omega * t - v.offset

/-- linear_waves_ops.H:187-189. -/
noncomputable def eta (x t : ℝ) : ℝ := v.height / 2 * Real.cos (v.phase x t) + v.zsl

/-- linear_waves_ops.H:196-203. -/
noncomputable def u (x z t : ℝ) : ℝ :=
  v.omega * v.height / 2 * Real.cosh (v.wavenumber * (z - v.zsl + v.depth)) / Real.sinh (v.wavenumber * v.depth) *
    Real.cos (v.phase x t) + v.current

/-- linear_waves_ops.H:205-211. -/
noncomputable def w (x z t : ℝ) : ℝ :=
  v.omega * v.height / 2 * Real.sinh (v.wavenumber * (z - v.zsl + v.depth)) / Real.sinh (v.wavenumber * v.depth) *
    Real.sin (v.phase x t)

/-- linear_waves_ops.H:166-218: target velocity and level set at a point; `cell` is the diagonal of a cell and `xlo` the
low end of the domain. -/
noncomputable def target (cell xlo x z t : ℝ) : WaveVec :=
  let x := max xlo x
  let phi := v.eta x t - z
  if phi + cell ≥ 0 then ![v.u x z t, 0, v.w x z t, phi] else ![0, 0, 0, phi]

/-- linear_waves_ops.H:100-119: the wave profile of the initial state, without the current. -/
noncomputable def initProfile (x z : ℝ) : WaveVec :=
  let phase := v.wavenumber * x - v.offset
  ![v.omega * v.height / 2 * Real.cosh (v.wavenumber * (z - v.zsl + v.depth)) / Real.sinh (v.wavenumber * v.depth) *
      Real.cos phase, 0,
    v.omega * v.height / 2 * Real.sinh (v.wavenumber * (z - v.zsl + v.depth)) / Real.sinh (v.wavenumber * v.depth) *
      Real.sin phase, v.height / 2 * Real.cos phase + v.zsl]

/-- linear_waves_ops.H:121-145: initial velocity and level set of a cell; `old` is the velocity before. -/
noncomputable def init (tol cell xlo xhi gen beach : ℝ) (initWaves hasBeach : Bool) (old : Fin 3 → ℝ) (x z : ℝ) :
    Option WaveVec := do
  let wave := v.initProfile x z
  let quiescent : WaveVec := ![0, 0, 0, v.zsl]
  let p ← harmonize1 tol x xlo gen xhi beach wave (if initWaves then wave else quiescent)
    (if hasBeach then quiescent else wave)
  let phi := p 3 - z
  some (if phi + cell ≥ 0 then ![v.current + p 0, p 1, p 2, phi] else ![old 0, old 1, old 2, phi])

/-- relaxation_zones_ops.cpp:72-129 `modify_target_fields_for_beach`, one cell; `x` inside the domain. -/
noncomputable def beachTarget (tol cell xlo xhi gen beach x z t : ℝ) : Option WaveVec :=
  let wave := v.target cell xlo x z t
  harmonize1 tol x xlo gen xhi beach wave wave ![v.current, 0, 0, v.zsl - z]

end LinWave

/-- stokes_waves_K.H:181-185: the largest argument of the hyperbolic functions. -/
noncomputable def cap : ℝ := 50 * Real.pi

/-- The coefficients of `stokes_coefficients`. -/
structure Coeffs where
  c0 : ℝ
  a11 : ℝ
  a22 : ℝ := 0
  b22 : ℝ := 0
  c2 : ℝ := 0
  a31 : ℝ := 0
  a33 : ℝ := 0
  b31 : ℝ := 0
  a42 : ℝ := 0
  a44 : ℝ := 0
  b42 : ℝ := 0
  b44 : ℝ := 0
  c4 : ℝ := 0
  a51 : ℝ := 0
  a53 : ℝ := 0
  a55 : ℝ := 0
  b53 : ℝ := 0
  b55 : ℝ := 0

/-- `S = sech(2 kd)` by exponentials, stokes_waves_K.H:54-55, 188-189. -/
noncomputable def sech2 (kd : ℝ) : ℝ := 2 * Real.exp (2 * kd) / (Real.exp (4 * kd) + 1)

/-- stokes_waves_K.H:159-302 `stokes_coefficients`; `none` for an order outside 2..5 (abort). -/
noncomputable def stokesCoeffs (order : ℕ) (wavenumber depth : ℝ) : Option Coeffs :=
  let kd := min (wavenumber * depth) cap
  let S := sech2 kd
  let C := 1 - S
  let Sh := Real.sinh kd
  let Th := Real.tanh kd
  let CTh := (1 + Real.exp (-2 * kd)) / (1 - Real.exp (-2 * kd))
  let k2 : Coeffs :=
    { c0 := Real.sqrt Th, a11 := 1 / Real.sinh kd, a22 := 3 * S ^ 2 / (2 * C ^ 2), b22 := CTh * (1 + 2 * S) / (2 * C),
      c2 := Real.sqrt Th * (2 + 7 * S ^ 2) / (4 * C ^ 2) }
  let k3 : Coeffs :=
    { k2 with
      a31 := (-4 - 20 * S + 10 * S ^ 2 - 13 * S ^ 3) / (8 * Sh * C ^ 3),
      a33 := (-2 * S ^ 2 + 11 * S ^ 3) / (8 * Sh * C ^ 3),
      b31 := -3 * (1 + 3 * S + 3 * S ^ 2 + 2 * S ^ 3) / (8 * C ^ 3) }
  let k4 : Coeffs :=
    { k3 with
      a42 := (12 * S - 14 * S ^ 2 - 264 * S ^ 3 - 45 * S ^ 4 - 13 * S ^ 5) / (24 * C ^ 5),
      a44 := (10 * S ^ 3 - 174 * S ^ 4 + 291 * S ^ 5 + 278 * S ^ 6) / (48 * (3 + 2 * S) * C ^ 5),
      b42 := CTh * (6 - 26 * S - 182 * S ^ 2 - 204 * S ^ 3 - 25 * S ^ 4 + 26 * S ^ 5) / (6 * (3 + 2 * S) * C ^ 4),
      b44 := CTh * (24 + 92 * S + 122 * S ^ 2 + 66 * S ^ 3 + 67 * S ^ 4 + 34 * S ^ 5) / (24 * (3 + 2 * S) * C ^ 4),
      c4 := Real.sqrt Th * (4 + 32 * S - 116 * S ^ 2 - 400 * S ^ 3 - 71 * S ^ 4 + 146 * S ^ 5) / (32 * C ^ 5) }
  let k5 : Coeffs :=
    { k4 with
      a51 := (-1184 + 32 * S + 13232 * S ^ 2 + 21712 * S ^ 3 + 20940 * S ^ 4 + 12554 * S ^ 5 - 500 * S ^ 6 -
        3341 * S ^ 7 - 670 * S ^ 8) / (64 * Sh * (3 + 2 * S) * (4 + S) * C ^ 6),
      a53 := (4 * S + 105 * S ^ 2 + 198 * S ^ 3 - 1376 * S ^ 4 - 1302 * S ^ 5 - 117 * S ^ 6 + 58 * S ^ 7) /
        (32 * Sh * (3 + 2 * S) * C ^ 6),
      a55 := (-6 * S ^ 3 + 272 * S ^ 4 - 1552 * S ^ 5 + 852 * S ^ 6 + 2029 * S ^ 7 + 430 * S ^ 8) /
        (64 * Sh * (3 + 2 * S) * (4 + S) * C ^ 6),
      b53 := 9 * (132 + 17 * S - 2216 * S ^ 2 - 5897 * S ^ 3 - 6292 * S ^ 4 - 2687 * S ^ 5 + 194 * S ^ 6 +
        467 * S ^ 7 + 82 * S ^ 8) / (128 * (3 + 2 * S) * (4 + S) * C ^ 6),
      b55 := 5 * (300 + 1579 * S + 3176 * S ^ 2 + 2949 * S ^ 3 + 1188 * S ^ 4 + 675 * S ^ 5 + 1326 * S ^ 6 +
        827 * S ^ 7 + 130 * S ^ 8) / (384 * (3 + 2 * S) * (4 + S) * C ^ 6) }
  match order with
  | 2 => some k2
  | 3 => some k3
  | 4 => some k4
  | 5 => some k5
  | _ => none

/-- The inputs of `stokes_waves`. -/
structure StWave where
  order : ℕ
  length : ℝ
  depth : ℝ
  height : ℝ
  zsl : ℝ
  g : ℝ
  offset : ℝ

namespace StWave
variable (v : StWave)

/-- stokes_waves_K.H:321-322. -/
noncomputable def wavenumber : ℝ := 2 * Real.pi / v.length

/-- stokes_waves_K.H:335 (steepness). -/
noncomputable def eps : ℝ := v.wavenumber * v.height / 2

/-- stokes_waves_K.H:336-340. -/
noncomputable def omega (c : Coeffs) : ℝ :=
  (c.c0 + v.eps ^ 2 * c.c2 + v.eps ^ 4 * c.c4) * Real.sqrt (v.g / v.wavenumber) * v.wavenumber

/-- stokes_waves_K.H:341. -/
noncomputable def phase (c : Coeffs) (x t : ℝ) : ℝ := v.wavenumber * x - v.omega c * t - v.offset

/-- stokes_waves_K.H:343-357. -/
noncomputable def eta (c : Coeffs) (x t : ℝ) : ℝ :=
  let p := v.phase c x t
  (v.eps * Real.cos p + v.eps ^ 2 * c.b22 * Real.cos (2 * p) + v.eps ^ 3 * c.b31 * (Real.cos p - Real.cos (3 * p)) +
    v.eps ^ 4 * (c.b42 * Real.cos (2 * p) + c.b44 * Real.cos (4 * p)) +
    v.eps ^ 5 * (-(c.b53 + c.b55) * Real.cos p + c.b53 * Real.cos (3 * p) + c.b55 * Real.cos (5 * p))) / v.wavenumber +
    v.zsl

/-- stokes_waves_K.H:363-388: the amplitude of harmonic `n + 1`. -/
noncomputable def amp (c : Coeffs) (n : ℕ) : ℝ :=
  let e := v.eps
  match v.order, n with
  | 2, 0 => c.a11
  | 2, 1 => c.a22
  | 3, 0 => c.a11 + e * e * c.a31
  | 3, 1 => c.a22
  | 3, 2 => c.a33
  | 4, 0 => c.a11 + e * e * c.a31
  | 4, 1 => c.a22 + e * e * c.a42
  | 4, 2 => c.a33
  | 4, 3 => c.a44
  | 5, 0 => c.a11 + e * e * c.a31 + e ^ 4 * c.a51
  | 5, 1 => c.a22 + e * e * c.a42
  | 5, 2 => c.a33 + e * e * c.a53
  | 5, 3 => c.a44
  | 5, 4 => c.a55
  | _, _ => 0

/-- stokes_waves_K.H:396-398: the argument of the hyperbolic functions of harmonic `n + 1`. -/
noncomputable def arg (n : ℕ) (z : ℝ) : ℝ := min ((n + 1 : ℝ) * v.wavenumber * (v.depth + (z - v.zsl))) cap

/-- stokes_waves_K.H:390-407: horizontal velocity. -/
noncomputable def u (c : Coeffs) (x z t : ℝ) : ℝ :=
  (∑ n ∈ Finset.range v.order, v.eps ^ (n + 1) * (n + 1 : ℝ) * v.amp c n * Real.cosh (v.arg n z) *
    Real.cos ((n + 1 : ℝ) * v.phase c x t)) * (c.c0 * Real.sqrt (v.g / v.wavenumber))

/-- stokes_waves_K.H:390-408: vertical velocity. -/
noncomputable def w (c : Coeffs) (x z t : ℝ) : ℝ :=
  (∑ n ∈ Finset.range v.order, v.eps ^ (n + 1) * (n + 1 : ℝ) * v.amp c n * Real.sinh (v.arg n z) *
    Real.sin ((n + 1 : ℝ) * v.phase c x t)) * (c.c0 * Real.sqrt (v.g / v.wavenumber))

end StWave

/-- The constants of one Newton step: `S`, `C`, `eps`, `C0`, `C2`, `C4` and their derivatives (stokes_waves_K.H:52-92).
The last term of the derivative of `C4` lacks the factor `dSdk` in the code and here. -/
structure Newton where
  eps : ℝ
  c0 : ℝ
  c2 : ℝ
  c4 : ℝ
  dc0 : ℝ
  dc2 : ℝ
  dc4 : ℝ

/-- stokes_waves_K.H:52-92. -/
noncomputable def newtonConsts (d height k : ℝ) : Newton :=
  let S := sech2 (k * d)
  let C := 1 - S
  let C0 := Real.sqrt (Real.tanh (k * d))
  let num := 4 + 32 * S - 116 * S ^ 2 - 400 * S ^ 3 - 71 * S ^ 4 + 146 * S ^ 5
  let dS := -2 * d * Real.sinh (2 * k * d) / Real.cosh (2 * k * d) ^ 2
  let dC := -dS
  let dC0 := d / (2 * C0 * Real.cosh (k * d) ^ 2)
  { eps := k * height / 2, c0 := C0, c2 := C0 * (2 + 7 * S * S) / (4 * C * C), c4 := C0 * num / (32 * C ^ 5), dc0 := dC0,
    dc2 := (4 * C ^ 2 * (dC0 * (2 + 7 * S ^ 2) + C0 * 14 * S * dS) - C0 * (2 + 7 * S ^ 2) * 8 * C * dC) / (16 * C ^ 4),
    dc4 := (32 * C ^ 5 * (dC0 * num + C0 * (32 * dS - 232 * S * dS - 1200 * S ^ 2 * dS - 284 * S ^ 3 * dS + 730 * S ^ 4)) -
      C0 * num * 160 * C ^ 4 * dC) / (1024 * C ^ 10) }

/-- stokes_waves_K.H:94-127: the slope used by the step. -/
noncomputable def dispersionSlope (order : ℕ) (g height k : ℝ) (q : Newton) : ℝ :=
  let de := height / 2
  g * q.c0 ^ 2 + g * k * 2 * q.c0 * q.dc0 +
    (if order ≥ 2 then
      g * (2 * q.c0 * q.eps ^ 2 * q.c2 + q.eps ^ 4 * q.c2 ^ 2) +
        g * k * (2 * q.dc0 * q.eps ^ 2 * q.c2 + 2 * q.c0 * (2 * q.eps * de * q.c2 + q.eps ^ 2 * q.dc2) +
          4 * q.eps ^ 3 * q.c2 ^ 2 * de + q.eps ^ 4 * 2 * q.c2 * q.dc2) else 0) +
    (if order ≥ 4 then
      g * (2 * q.eps ^ 4 * q.c0 * q.c4 + 2 * q.eps ^ 6 * q.c2 * q.c4 + q.eps ^ 8 * q.c4 ^ 2) +
        g * k * (8 * q.eps ^ 3 * de * q.c0 * q.c4 + 2 * q.eps ^ 4 * (q.c0 * q.dc4 + q.c4 * q.dc0) +
          12 * q.eps ^ 5 * de * q.c2 * q.c4 + 2 * q.eps ^ 6 * (q.c2 * q.dc4 + q.c4 * q.dc2) +
          8 * q.eps ^ 7 * de * q.c4 ^ 2 + q.eps ^ 8 * 2 * q.c4 * q.dc4) else 0)

/-- stokes_waves_K.H:131-146: the squared frequency of wavenumber `k`, with the constants `q`. -/
noncomputable def dispersion (order : ℕ) (g k : ℝ) (q : Newton) : ℝ :=
  g * k * q.c0 ^ 2 +
    (if order ≥ 2 then g * k * (2 * q.c0 * q.eps ^ 2 * q.c2 + q.eps ^ 4 * q.c2 ^ 2) else 0) +
    (if order ≥ 4 then
      g * k * (2 * q.eps ^ 4 * q.c0 * q.c4 + 2 * q.eps ^ 6 * q.c2 * q.c4 + q.eps ^ 8 * q.c4 ^ 2) else 0)

/-- stokes_waves_K.H:48-149: the loop. The constants of the new residual are those of the old wavenumber. `none` is NaN: a
square root of a negative number, or a division by zero. -/
noncomputable def newtonLoop (order : ℕ) (omega d height g tol : ℝ) : ℕ → ℝ → ℝ → Option (ℝ × ℕ)
  | 0, k, _ => some (k, 0)
  | fuel + 1, k, f =>
    if |f| > tol then
      let q := newtonConsts d height k
      let slope := dispersionSlope order g height k q
      if Real.tanh (k * d) ≤ 0 ∨ slope = 0 then none
      else
        let k' := k - f / slope
        newtonLoop order omega d height g tol fuel k' (dispersion order g k' q - omega * omega)
    else some (k, fuel + 1)

/-- stokes_waves_K.H:28-157 `stokes_wave_length` and the check in stokes_waves_ops.H:60-79: `none` is an abort (the
wavenumber is below the tolerance, NaN, or all iterations are used). -/
noncomputable def stokesWaveLength (period d height : ℝ) (order : ℕ) (g tol : ℝ) (iterMax : ℕ) : Option ℝ :=
  let omega := 2 * Real.pi / period
  match newtonLoop order omega d height g tol iterMax (omega * omega / g) (tol + 1) with
  | none => none
  | some (k, left) => if k < tol then none else if left = 0 then none else some (2 * Real.pi / k)

end AmrWind.Waves
