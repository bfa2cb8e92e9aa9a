import Mathlib.Analysis.SpecialFunctions.Trigonometric.Bounds
import Mathlib.Analysis.Real.Pi.Bounds
import Mathlib.Analysis.SpecialFunctions.Trigonometric.DerivHyp
import Verif.Phys.CaseModel

/-! # Initial states with two fluids (property C105) -/

set_option linter.unusedSectionVars false

namespace AmrWind.Case

/-! ## Zalesak's disk -/

/-- Specification: points of the sphere of radius `radius` with a slot of half width `hw` cut from above down to `depth` below the top. -/
def Slotted (radius hw depth xc yc zc x y z : ℝ) : Prop :=
  (x - xc) ^ 2 + (y - yc) ^ 2 + (z - zc) ^ 2 < radius ^ 2 ∧ ¬ (|x - xc| ≤ hw ∧ radius - depth ≤ y - yc)

theorem ball_pos {radius : ℝ} (hr : 0 < radius) (xc yc zc x y z : ℝ) :
    (0 < ball radius xc yc zc x y z ↔ (x - xc) ^ 2 + (y - yc) ^ 2 + (z - zc) ^ 2 < radius ^ 2) ∧
    (ball radius xc yc zc x y z < 0 ↔ radius ^ 2 < (x - xc) ^ 2 + (y - yc) ^ 2 + (z - zc) ^ 2) := by
  unfold ball
  rw [sub_pos, sub_neg, Real.sqrt_lt' hr, Real.lt_sqrt hr.le]
  constructor <;> ring_nf

/-- **C105**: the level set of a sphere is the distance from its surface: it is zero on it, positive inside, and changes by no more than the distance between
two points. -/
theorem ball_distance (radius xc yc zc x y z x' y' z' : ℝ) :
    |ball radius xc yc zc x y z - ball radius xc yc zc x' y' z'| ≤ Real.sqrt ((x - x') ^ 2 + (y - y') ^ 2 + (z - z') ^ 2) := by
  have tri : ∀ a b c a' b' c' : ℝ, Real.sqrt (a * a + b * b + c * c) ≤
      Real.sqrt (a' * a' + b' * b' + c' * c') + Real.sqrt ((a - a') ^ 2 + (b - b') ^ 2 + (c - c') ^ 2) := by
    intro a b c a' b' c'
    rw [Real.sqrt_le_left (by positivity)]
    have hp := Real.sq_sqrt (show 0 ≤ a' * a' + b' * b' + c' * c' by nlinarith [mul_self_nonneg a', mul_self_nonneg b', mul_self_nonneg c'])
    have hq := Real.sq_sqrt (show 0 ≤ (a - a') ^ 2 + (b - b') ^ 2 + (c - c') ^ 2 by positivity)
    set p := Real.sqrt (a' * a' + b' * b' + c' * c')
    set q := Real.sqrt ((a - a') ^ 2 + (b - b') ^ 2 + (c - c') ^ 2)
    have hp0 : 0 ≤ p := Real.sqrt_nonneg _
    have hq0 : 0 ≤ q := Real.sqrt_nonneg _
    have cs : a' * (a - a') + b' * (b - b') + c' * (c - c') ≤ p * q := by
      apply le_of_sq_le_sq _ (mul_nonneg hp0 hq0)
      rw [mul_pow, hp, hq]
      nlinarith [sq_nonneg (a' * (b - b') - b' * (a - a')), sq_nonneg (a' * (c - c') - c' * (a - a')), sq_nonneg (b' * (c - c') - c' * (b - b'))]
    nlinarith
  unfold ball
  have t1 := tri (x - xc) (y - yc) (z - zc) (x' - xc) (y' - yc) (z' - zc)
  have t2 := tri (x' - xc) (y' - yc) (z' - zc) (x - xc) (y - yc) (z - zc)
  have e1 : (x - xc - (x' - xc)) ^ 2 + (y - yc - (y' - yc)) ^ 2 + (z - zc - (z' - zc)) ^ 2 = (x - x') ^ 2 + (y - y') ^ 2 + (z - z') ^ 2 := by ring
  have e2 : (x' - xc - (x - xc)) ^ 2 + (y' - yc - (y - yc)) ^ 2 + (z' - zc - (z - zc)) ^ 2 = (x - x') ^ 2 + (y - y') ^ 2 + (z - z') ^ 2 := by ring
  rw [e1] at t1
  rw [e2] at t2
  rw [abs_le]
  constructor <;> linarith

/-- **C105**: the level set of the slotted disk is positive exactly in the slotted sphere, whenever the slot is narrower than the sphere. -/
theorem disk_sign {radius hw depth : ℝ} (hr : 0 < radius) (hh : 0 < hw) (hlt : hw < radius) (xc yc zc x y z : ℝ) :
    0 < zdPhi radius hw depth xc yc zc x y z ↔ Slotted radius hw depth xc yc zc x y z := by
  unfold zdPhi Slotted
  dsimp only
  have hb := (ball_pos hr xc yc zc x y z).1
  by_cases h1 : y - yc > radius - depth ∧ |x - xc| < hw
  · rw [if_pos h1]
    have hx := abs_lt.mp h1.2
    have n : ¬ (0 < (if Real.sqrt ((y - yc) ^ 2 + (z - zc) ^ 2) < Real.sqrt (radius * radius - hw * hw) then
        max (max (-hw + (x - xc)) (-hw - (x - xc))) (radius - depth - (y - yc))
        else -Real.sqrt ((Real.sqrt ((y - yc) ^ 2 + (z - zc) ^ 2) - Real.sqrt (radius * radius - hw * hw)) ^ 2 +
          max (-hw + (x - xc)) (-hw - (x - xc)) ^ 2))) := by
      split_ifs
      · rw [not_lt]
        exact max_le (max_le (by linarith [hx.2]) (by linarith [hx.1])) (by linarith [h1.1])
      · rw [not_lt, neg_nonpos]
        exact Real.sqrt_nonneg _
    refine ⟨fun h => absurd h n, fun h => absurd ⟨h1.2.le, h1.1.le⟩ h.2⟩
  · rw [if_neg h1, lt_min_iff, hb, lt_max_iff, lt_max_iff]
    apply and_congr Iff.rfl
    rw [not_and_or, not_le, not_le]
    constructor
    · rintro ((h | h) | h)
      · exact Or.inl (lt_abs.mpr (Or.inl (by linarith)))
      · exact Or.inl (lt_abs.mpr (Or.inr (by linarith)))
      · exact Or.inr (by linarith)
    · rintro (h | h)
      · rcases lt_abs.mp h with h | h
        · exact Or.inl (Or.inl (by linarith))
        · exact Or.inl (Or.inr (by linarith))
      · exact Or.inr (by linarith)

/-! ## Dam break -/

/-- **C105**: the water of the dam break lies at `x < width`, `z < height`, when the location is zero.

Partial (C105). Missing: other locations than zero, where it is false (`dam_location`). -/
theorem dam_sign_partial (width height x z : ℝ) : 0 < damPhi width height 0 0 x z ↔ x < width ∧ z < height := by
  unfold damPhi
  simp only [sub_zero]
  split_ifs with h1 h2 h3
  · rw [lt_min_iff, sub_pos, sub_pos]
  · rw [sub_pos]
    constructor
    · intro h; exact absurd h (not_lt.mpr h2.2.le)
    · intro h; exact h.2
  · rw [sub_pos]
    constructor
    · intro h; exact absurd h (not_lt.mpr h3.1.le)
    · intro h; exact h.1
  · rw [lt_min_iff, sub_pos, sub_pos]

/-- **C105**, disagreement: with another location the level set has the wrong sign inside the column, at every point of the column at or beyond `width`:
there is no water where the column is asked for. -/
theorem dam_location {width height xc zc x z : ℝ} (hx : x - xc < width) (hz : z - zc < height) (hb : width ≤ x) : damPhi width height xc zc x z ≤ 0 := by
  unfold damPhi
  rw [if_pos ⟨hx, hz⟩]
  exact (min_le_left _ _).trans (by linarith)

example : damPhi 0.2 0.3 1 0 1.1 0.1 < 0 := by
  unfold damPhi
  norm_num

/-! ## Sloshing tank -/

/-- **C105**: the pressure of the sloshing tank is that of the fluid at rest above each point: zero at the top; it grows downwards with the weight of the gas above the surface and of the
liquid below it; at the surface both agree. `g` is the vertical gravity, negative downwards. -/
theorem slosh_pressure {lo hi z0 : ℝ} (h1 : z0 ≤ hi) (rho1 rho2 g z : ℝ) (hz : lo ≤ z) (hz1 : z ≤ hi) :
    (z0 ≤ z → sloshP rho1 rho2 g lo hi z0 z = -g * rho2 * (hi - z)) ∧
    (z ≤ z0 → sloshP rho1 rho2 g lo hi z0 z = -g * (rho2 * (hi - z0) + rho1 * (z0 - z))) := by
  unfold sloshP
  dsimp only
  constructor
  · intro h
    rw [min_eq_right (show hi - z ≤ hi - z0 by linarith), min_eq_left (show z0 - z ≤ z0 - lo by linarith), max_eq_right (show 0 ≤ hi - z by linarith),
      max_eq_left (show z0 - z ≤ 0 by linarith)]
    ring
  · intro h
    rw [min_eq_left (show hi - z0 ≤ hi - z by linarith), min_eq_left (show z0 - z ≤ z0 - lo by linarith), max_eq_right (show 0 ≤ hi - z0 by linarith),
      max_eq_right (show 0 ≤ z0 - z by linarith)]
    ring

/-- **C105**, disagreement: the pressure does not know a surface above the tank: from the surface to the top it counts liquid that is outside the tank. -/
theorem slosh_overfull {lo hi z0 : ℝ} (h1 : hi < z0) (hl : lo ≤ hi) (rho1 rho2 g : ℝ) : sloshP rho1 rho2 g lo hi z0 hi = -g * rho1 * (z0 - hi) := by
  unfold sloshP
  dsimp only
  rw [min_eq_left (show hi - z0 ≤ hi - hi by linarith), min_eq_left (show z0 - hi ≤ z0 - lo by linarith), max_eq_left (show hi - z0 ≤ 0 by linarith),
    max_eq_right (show 0 ≤ z0 - hi by linarith)]
  ring

/-- **C105**: the surface of the tank is highest at the centre, where it is `level + amp`, and tends to the level away from it. -/
theorem slosh_surface {amp kappa : ℝ} (ha : 0 ≤ amp) (hk : 0 ≤ kappa) (level cx cy x y : ℝ) :
    level ≤ sloshZ level amp kappa cx cy x y ∧ sloshZ level amp kappa cx cy x y ≤ level + amp ∧ sloshZ level amp kappa cx cy cx cy = level + amp := by
  unfold sloshZ
  refine ⟨?_, ?_, ?_⟩
  · have := mul_nonneg ha (Real.exp_pos (-kappa * ((x - cx) ^ 2 + (y - cy) ^ 2))).le
    linarith
  · have h : Real.exp (-kappa * ((x - cx) ^ 2 + (y - cy) ^ 2)) ≤ 1 := by
      rw [Real.exp_le_one_iff]
      have : 0 ≤ kappa * ((x - cx) ^ 2 + (y - cy) ^ 2) := by positivity
      linarith
    nlinarith
  · simp

/-! ## Rain drop -/

/-- **C105**: the momentum of a cell of the rain drop is that of the liquid in it; a full cell moves with the drop, an empty one rests, and no cell is faster than
the drop. -/
theorem drop_momentum {rhol rhog vof : ℝ} (hl : 0 < rhol) (hg : 0 < rhog) (h0 : 0 ≤ vof) (h1 : vof ≤ 1) (v : ℝ) :
    ((1 - vof) * rhog + vof * rhol) * dropVel rhol rhog vof v = vof * (rhol * v) ∧ dropVel rhol rhog 1 v = v ∧ dropVel rhol rhog 0 v = 0 ∧
      |dropVel rhol rhog vof v| ≤ |v| := by
  have hd : 0 < (1 - vof) * rhog + vof * rhol := by
    rcases h0.lt_or_eq with h | h
    · nlinarith [mul_pos h hl, mul_nonneg (sub_nonneg.mpr h1) hg.le]
    · rw [← h]; linarith
  unfold dropVel
  refine ⟨by field_simp, by field_simp; ring, by simp, ?_⟩
  rw [abs_div, abs_of_pos hd, div_le_iff₀ hd, abs_mul, abs_of_nonneg (by positivity : 0 ≤ vof * rhol)]
  have : 0 ≤ (1 - vof) * rhog := mul_nonneg (sub_nonneg.mpr h1) hg.le
  nlinarith [abs_nonneg v]

/-! ## Rayleigh-Taylor instability and bubble -/

theorem tanh_lt {a b : ℝ} (h : a < b) : Real.tanh a < Real.tanh b := by
  rw [Real.tanh_eq_sinh_div_cosh, Real.tanh_eq_sinh_div_cosh, div_lt_div_iff₀ (Real.cosh_pos a) (Real.cosh_pos b)]
  have := Real.sinh_pos_iff.mpr (sub_pos.mpr h)
  rw [Real.sinh_sub] at this
  linarith

/-- **C105**: the density of the Rayleigh-Taylor case lies strictly between those of the two fluids, is their mean at the interface, and grows with height: the heavy fluid is above. -/
theorem rt_density {rhoLo rhoHi : ℝ} (h : rhoLo < rhoHi) (height z z' : ℝ) :
    rhoLo < rtDensity rhoLo rhoHi height z ∧ rtDensity rhoLo rhoHi height z < rhoHi ∧
      rtDensity rhoLo rhoHi height height = (rhoLo + rhoHi) / 2 ∧ (z < z' → rtDensity rhoLo rhoHi height z < rtDensity rhoLo rhoHi height z') := by
  have tr : ∀ s : ℝ, -1 < Real.tanh s ∧ Real.tanh s < 1 := fun s => ⟨Real.neg_one_lt_tanh s, Real.tanh_lt_one s⟩
  unfold rtDensity
  refine ⟨?_, ?_, ?_, ?_⟩
  · have := (tr ((z - height) / (5 / 1000))).1
    nlinarith
  · have := (tr ((z - height) / (5 / 1000))).2
    nlinarith
  · simp
    ring
  · intro hz
    have hm : Real.tanh ((z - height) / (5 / 1000)) < Real.tanh ((z' - height) / (5 / 1000)) := by
      apply tanh_lt
      apply div_lt_div_of_pos_right _ (by norm_num)
      linarith
    nlinarith

/-- **C105**: the interface lies between 0.49 and 0.51, lowest on the axis and highest at half a domain length from it and beyond. These are absolute heights: the case needs a domain around
them. -/
theorem rt_interface {len : ℝ} (hl : 0 < len) (cx cy x y : ℝ) :
    49 / 100 ≤ rtHeight len cx cy x y ∧ rtHeight len cx cy x y ≤ 51 / 100 ∧ rtHeight len cx cy cx cy = 49 / 100 ∧
      (len / 2 ≤ Real.sqrt ((x - cx) ^ 2 + (y - cy) ^ 2) → rtHeight len cx cy x y = 51 / 100) := by
  unfold rtHeight
  dsimp only
  refine ⟨?_, ?_, ?_, ?_⟩
  · linarith [Real.cos_le_one (2 * Real.pi * min (Real.sqrt ((x - cx) ^ 2 + (y - cy) ^ 2)) (1 / 2 * len) / len)]
  · linarith [Real.neg_one_le_cos (2 * Real.pi * min (Real.sqrt ((x - cx) ^ 2 + (y - cy) ^ 2)) (1 / 2 * len) / len)]
  · have : min (Real.sqrt ((cx - cx) ^ 2 + (cy - cy) ^ 2)) (1 / 2 * len) = 0 := by
      simp only [sub_self]
      norm_num
      linarith
    rw [this]
    simp
    norm_num
  · intro h
    rw [min_eq_right (by linarith)]
    have : 2 * Real.pi * (1 / 2 * len) / len = Real.pi := by field_simp
    rw [this, Real.cos_pi]
    norm_num

/-- **C105**: the bubble has its temperature inside the sphere and the other outside. -/
theorem bubble_spec {radius : ℝ} (hr : 0 < radius) (inner outer xc yc zc x y z : ℝ) :
    ((x - xc) ^ 2 + (y - yc) ^ 2 + (z - zc) ^ 2 < radius ^ 2 → bubble inner outer radius xc yc zc x y z = inner) ∧
    (radius ^ 2 ≤ (x - xc) ^ 2 + (y - yc) ^ 2 + (z - zc) ^ 2 → bubble inner outer radius xc yc zc x y z = outer) := by
  have e : (x - xc) * (x - xc) + (y - yc) * (y - yc) + (z - zc) * (z - zc) = (x - xc) ^ 2 + (y - yc) ^ 2 + (z - zc) ^ 2 := by ring
  unfold bubble
  dsimp only
  rw [e]
  constructor
  · intro h
    rw [if_pos ((Real.sqrt_lt' hr).mpr h)]
  · intro h
    rw [if_neg (not_lt.mpr (Real.le_sqrt_of_sq_le h))]

example : Slotted 0.15 0.025 0.2 0.5 0.75 0.5 0.4 0.75 0.5 ∧ ¬ Slotted 0.15 0.025 0.2 0.5 0.75 0.5 0.5 0.75 0.5 := by
  unfold Slotted
  norm_num [abs_of_nonneg, abs_of_nonpos]

/-- **C105**: with location zero the level set is the smaller of the two distances from the sides in the water, and the larger excess is
never hidden: it is minus the height above the water, minus the distance beside it, or the lower of the two. -/
theorem dam_value (width height x z : ℝ) :
    (x < width → z < height → damPhi width height 0 0 x z = min (width - x) (height - z)) ∧
    (x < width → height < z → damPhi width height 0 0 x z = -(z - height)) ∧
    (width < x → z < height → damPhi width height 0 0 x z = -(x - width)) ∧
    (width ≤ x → height ≤ z → damPhi width height 0 0 x z = -max (x - width) (z - height)) ∧
    (x < width → damPhi width height 0 0 x height = 0) ∧ (z < height → damPhi width height 0 0 width z = 0) := by
  unfold damPhi
  simp only [sub_zero]
  refine ⟨fun a b => by rw [if_pos ⟨a, b⟩], fun a b => ?_, fun a b => ?_, fun a b => ?_, fun a => ?_, fun a => ?_⟩
  · rw [if_neg (by rintro ⟨-, h⟩; linarith), if_pos ⟨a, b⟩]; ring
  · rw [if_neg (by rintro ⟨h, -⟩; linarith), if_neg (by rintro ⟨h, -⟩; linarith), if_pos ⟨a, b⟩]; ring
  · rw [if_neg (by rintro ⟨h, -⟩; linarith), if_neg (by rintro ⟨h, -⟩; linarith), if_neg (by rintro ⟨-, h⟩; linarith)]
    rcases le_total (x - width) (z - height) with h | h
    · rw [max_eq_right h, min_eq_right (by linarith)]; ring
    · rw [max_eq_left h, min_eq_left (by linarith)]; ring
  · rw [if_neg (by rintro ⟨-, h⟩; linarith), if_neg (by rintro ⟨-, h⟩; linarith), if_neg (by rintro ⟨h, -⟩; linarith), sub_self]
    exact min_eq_right (by linarith)
  · rw [if_neg (by rintro ⟨h, -⟩; linarith), if_neg (by rintro ⟨h, -⟩; linarith), if_neg (by rintro ⟨h, -⟩; linarith), sub_self]
    exact min_eq_left (by linarith)

/-- **C105**: below and beside the column the location is honoured. -/
theorem dam_outside (width height xc zc x z : ℝ) :
    (x - xc < width → height < z - zc → damPhi width height xc zc x z = -(z - zc - height)) ∧
    (width < x - xc → z - zc < height → damPhi width height xc zc x z = -(x - xc - width)) := by
  unfold damPhi
  refine ⟨fun a b => ?_, fun a b => ?_⟩
  · rw [if_neg (by rintro ⟨-, h⟩; linarith), if_pos ⟨a, b⟩]; ring
  · rw [if_neg (by rintro ⟨h, -⟩; linarith), if_neg (by rintro ⟨h, -⟩; linarith), if_pos ⟨a, b⟩]; ring

end AmrWind.Case
