import Mathlib.Algebra.Order.Field.Basic

/-!
# Model of plane cuts: `equation_systems/vof/volume_fractions.H`

`amrex::Real` is an ordered field; the machine epsilon the code adds to a denominator is the parameter `tiny`.
-/

namespace AmrWind.Vof

variable {K : Type*} [Field K] [LinearOrder K]

/-- volume_fractions.H:397-410 (and 287-300): order three coefficients. -/
def order3 (x y z : K) : K × K × K :=
  let b1 := min x y
  let b3 := max x y
  if z < b1 then (z, b1, b3) else if b3 < z then (b1, b3, z) else (b1, z, b3)

/-- volume_fractions.H:412-442: the volume for ordered coefficients and `0 ≤ a ≤ 1/2`. -/
def plic (tiny b1 b2 b3 a : K) : K :=
  let b12 := b1 + b2
  if 0 < a then
    if a < b1 then a * a * a / (6 * b1 * b2 * b3)
    else if a < b2 then a * (a - b1) / (2 * b2 * b3) + b1 * b1 / (6 * b2 * b3 + tiny)
    else if a < min b12 b3 then
      (a * a * (3 * b12 - a) + b1 * b1 * (b1 - 3 * a) + b2 * b2 * (b2 - 3 * a)) / (6 * b1 * b2 * b3)
    else if b3 < b12 then
      (a * a * (3 - 2 * a) + b1 * b1 * (b1 - 3 * a) + b2 * b2 * (b2 - 3 * a) + b3 * b3 * (b3 - 3 * a)) /
        (6 * b1 * b2 * b3)
    else (a - (1 / 2) * b12) / b3
  else 0

/-- volume_fractions.H:365-453 `cut_volume`; `none` if all coefficients vanish (0/0). -/
def cutVolume (tiny m1 m2 m3 alpha r0 dr0 : K) : Option K :=
  let al := alpha - m1 * r0
  let al := al + max 0 (-m1 * dr0) + max 0 (-m2) + max 0 (-m3)
  let tmp := |m1| * dr0 + |m2| + |m3|
  if tmp = 0 then none
  else
    let n1 := |m1| / tmp
    let n2 := |m2| / tmp
    let n3 := |m3| / tmp
    let al := max 0 (min 1 (al / tmp))
    let al0 := min al (1 - al)
    let b := order3 (n1 * dr0) n2 n3
    let v := plic tiny b.1 b.2.1 b.2.2 al0
    some (if al ≤ 1 / 2 then v else 1 - v)

end AmrWind.Vof
