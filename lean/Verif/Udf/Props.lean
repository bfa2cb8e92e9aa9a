import Verif.Udf.Model
import Mathlib.Tactic.FieldSimp
import Mathlib.Tactic.Linarith
import Mathlib.Tactic.NormNum
import Mathlib.Tactic.Positivity
import Mathlib.Tactic.LinearCombination

/-!
# Properties of the inflow profiles (C69)
-/

namespace AmrWind.Udf

section
variable {K : Type*} [Field K] [LinearOrder K] [IsStrictOrderedRing K]

/-- **C69** The linear profile is defined everywhere, equals the start value up to the start, the stop value from the
stop on, and is linear between. -/
theorem linear_profile_spec (zmin zmax fmin fmax z : K) (h : zmin < zmax) :
    ∃ v, linearProfile zmin zmax fmin fmax z = some v ∧ (z ≤ zmin → v = fmin) ∧ (zmax ≤ z → v = fmax) ∧
      (zmin ≤ z → z ≤ zmax → (v - fmin) * (zmax - zmin) = (fmax - fmin) * (z - zmin)) ∧
      min fmin fmax ≤ v ∧ v ≤ max fmin fmax := by
  have hd : 0 < zmax - zmin := sub_pos.2 h
  unfold linearProfile
  by_cases h1 : z < zmin
  · rw [if_pos h1]
    exact ⟨fmin, rfl, fun _ => rfl, fun h' => absurd (h1.trans (h.trans_le h')) (lt_irrefl _),
      fun h' => absurd h1 (not_lt.2 h'), min_le_left _ _, le_max_left _ _⟩
  · rw [if_neg h1]
    push Not at h1
    by_cases h2 : z > zmax
    · rw [if_pos h2]
      exact ⟨fmax, rfl, fun h' => absurd (h.trans h2) (not_lt.2 h'), fun _ => rfl,
        fun _ h' => absurd h2 (not_lt.2 h'), min_le_right _ _, le_max_right _ _⟩
    · rw [if_neg h2, if_neg hd.ne']
      push Not at h2
      refine ⟨_, rfl, ?_, ?_, ?_, ?_, ?_⟩
      · intro h'
        rw [le_antisymm h' h1]; simp
      · intro h'
        rw [le_antisymm h2 h']; field_simp; ring
      · intro _ _
        field_simp; ring
      all_goals
        have t0 : 0 ≤ (z - zmin) / (zmax - zmin) := div_nonneg (sub_nonneg.2 h1) hd.le
        have t1 : (z - zmin) / (zmax - zmin) ≤ 1 := (div_le_one hd).2 (by linarith)
        have e : (fmax - fmin) * (z - zmin) / (zmax - zmin) = (fmax - fmin) * ((z - zmin) / (zmax - zmin)) := by ring
        rw [e]
        generalize (z - zmin) / (zmax - zmin) = t at *
        rcases le_total fmin fmax with hf | hf
        · simp only [min_eq_left hf, max_eq_right hf]; nlinarith
        · simp only [min_eq_right hf, max_eq_left hf]; nlinarith

/-- **C69** The linear profile has no jumps: its slope is bounded everywhere. -/
theorem linear_profile_continuous (zmin zmax fmin fmax z z' v v' : K) (h : zmin < zmax)
    (hv : linearProfile zmin zmax fmin fmax z = some v) (hv' : linearProfile zmin zmax fmin fmax z' = some v') :
    |v - v'| * (zmax - zmin) ≤ |fmax - fmin| * |z - z'| := by
  have hd : 0 < zmax - zmin := sub_pos.2 h
  have key : ∀ z v, linearProfile zmin zmax fmin fmax z = some v →
      (v - fmin) * (zmax - zmin) = (fmax - fmin) * (max zmin (min z zmax) - zmin) := by
    intro z v hv
    obtain ⟨w, hw, w1, w2, w3, _⟩ := linear_profile_spec zmin zmax fmin fmax z h
    rw [hv] at hw
    simp only [Option.some.injEq] at hw
    subst hw
    rcases le_total z zmin with hz | hz
    · rw [w1 hz, min_eq_left (hz.trans h.le), max_eq_left hz]; ring
    · rcases le_total z zmax with hz' | hz'
      · rw [min_eq_left hz', max_eq_right hz]; exact w3 hz hz'
      · rw [w2 hz', min_eq_right hz', max_eq_right h.le]
  have e : (v - v') * (zmax - zmin) = (fmax - fmin) * (max zmin (min z zmax) - max zmin (min z' zmax)) := by
    linear_combination key z v hv - key z' v' hv'
  have : |v - v'| * (zmax - zmin) = |fmax - fmin| * |max zmin (min z zmax) - max zmin (min z' zmax)| := by
    rw [← abs_mul, ← e, abs_mul, abs_of_pos hd]
  rw [this]
  apply mul_le_mul_of_nonneg_left _ (abs_nonneg _)
  calc |max zmin (min z zmax) - max zmin (min z' zmax)| ≤ |min z zmax - min z' zmax| := by
        have := abs_max_sub_max_le_abs (min z zmax) (min z' zmax) zmin
        rwa [max_comm, max_comm (min z' zmax)] at this
    _ ≤ |z - z'| := abs_min_sub_min_le_max z zmax z' zmax |>.trans (by simp)

/-- **C69** With the same start and stop the profile is a jump, undefined (0/0) exactly there. -/
theorem linear_profile_degenerate (z0 fmin fmax z : K) :
    linearProfile z0 z0 fmin fmax z = none ↔ z = z0 := by
  unfold linearProfile
  rcases lt_trichotomy z z0 with h | h | h
  · simp [h, h.ne]
  · subst h; simp
  · simp [h, not_lt.2 h.le, h.ne']

/-- **C69** Two layers: horizontal velocity of the layer the cell centre is in, scaled at time zero only; the vertical
component is always zero.

Partial (C69). Missing: the vertical velocity of the layers, which is dropped (`two_layer_ignores_vertical`). -/
theorem two_layer_spec_partial (top bottom : K × K × K) (zPart perturb z time : K) (ht : time ≠ 0) :
    (zPart ≤ z → twoLayer top bottom zPart perturb z time = (top.1, top.2.1, 0)) ∧
    (z < zPart → twoLayer top bottom zPart perturb z time = (bottom.1, bottom.2.1, 0)) ∧
    (twoLayer top bottom zPart perturb z 0).1 = (twoLayer top bottom zPart perturb z time).1 * perturb ∧
    (twoLayer top bottom zPart perturb z 0).2.1 = (twoLayer top bottom zPart perturb z time).2.1 * perturb := by
  unfold twoLayer
  refine ⟨fun h => ?_, fun h => ?_, ?_, ?_⟩
  · simp [ht, h]
  · simp [ht, not_le.2 h]
  all_goals by_cases h : zPart ≤ z <;> simp [ht, h]

/-- **C69** The vertical velocity the user gives for a layer has no effect. -/
theorem two_layer_ignores_vertical (top bottom : K × K × K) (w w' zPart perturb z time : K) :
    twoLayer (top.1, top.2.1, w) (bottom.1, bottom.2.1, w') zPart perturb z time =
      twoLayer top bottom zPart perturb z time := rfl

/-- **C69** The lid velocity is between 0 and 1, vanishes exactly at the ends of the lid, is 1 exactly in the middle and
symmetric. -/
theorem burggraf_lid_spec (x : K) (h0 : 0 ≤ x) (h1 : x ≤ 1) :
    0 ≤ (burggrafLid x).1 ∧ (burggrafLid x).1 ≤ 1 ∧ ((burggrafLid x).1 = 0 ↔ x = 0 ∨ x = 1) ∧
    ((burggrafLid x).1 = 1 ↔ x = 1 / 2) ∧ (burggrafLid (1 - x)).1 = (burggrafLid x).1 ∧
    (burggrafLid x).2 = (0, 0) := by
  have e : (burggrafLid x).1 = (4 * (x * (1 - x))) ^ 2 := by simp only [burggrafLid]; ring
  have p : 0 ≤ x * (1 - x) := mul_nonneg h0 (by linarith)
  have q : 4 * (x * (1 - x)) = 1 - (2 * x - 1) ^ 2 := by ring
  have q1 : 4 * (x * (1 - x)) ≤ 1 := by rw [q]; nlinarith [sq_nonneg (2 * x - 1)]
  refine ⟨?_, ?_, ?_, ?_, ?_, rfl⟩
  · rw [e]; positivity
  · rw [e]; nlinarith
  · rw [e]
    constructor
    · intro h
      have := pow_eq_zero_iff (two_ne_zero) |>.1 h
      rcases mul_eq_zero.1 this with h | h
      · norm_num at h
      · rcases mul_eq_zero.1 h with h | h
        · exact Or.inl h
        · exact Or.inr (by linarith)
    · rintro (rfl | rfl) <;> ring
  · rw [e]
    constructor
    · intro h
      have h4 : (4 * (x * (1 - x)) - 1) * (4 * (x * (1 - x)) + 1) = 0 := by linear_combination h
      rcases mul_eq_zero.1 h4 with h | h
      · have : (2 * x - 1) ^ 2 = 0 := by linear_combination q - h
        have := pow_eq_zero_iff (two_ne_zero) |>.1 this
        linarith
      · exfalso; linarith
    · rintro rfl; norm_num
  · simp only [burggrafLid]; ring

end

/-! ## Power law -/

theorem mag_smul (v : ℝ × ℝ × ℝ) (p : ℝ) (hp : 0 ≤ p) : mag (v.1 * p, v.2.1 * p, v.2.2 * p) = mag v * p := by
  unfold mag
  have : v.1 * p * (v.1 * p) + v.2.1 * p * (v.2.1 * p) + v.2.2 * p * (v.2.2 * p) =
      (v.1 * v.1 + v.2.1 * v.2.1 + v.2.2 * v.2.2) * p ^ 2 := by ring
  simp only
  rw [this, Real.sqrt_mul' _ (sq_nonneg p), Real.sqrt_sq hp]

/-- **C69** The speed of the power law is the documented one: `uref (z/zref)^s` limited to `[umin, umax]`, along the
reference direction, and `umin` at and below the offset. -/
theorem power_law_spec (zoffset zref shear umin umax : ℝ) (vel : ℝ × ℝ × ℝ) (z : ℝ) (hv : 0 < mag vel)
    (hmin : 0 ≤ umin) (hmax : umin ≤ umax) :
    ∃ v, powerLaw zoffset zref shear umin umax vel z = some v ∧
      (zoffset < z → mag v = min (max (mag vel * ((z - zoffset) / zref) ^ shear) umin) umax) ∧
      (z ≤ zoffset → mag v = umin) ∧
      umin ≤ mag v ∧ mag v ≤ umax ∧
      (v.1 * mag vel = vel.1 * mag v ∧ v.2.1 * mag vel = vel.2.1 * mag v ∧ v.2.2 * mag vel = vel.2.2 * mag v) := by
  unfold powerLaw powerFactor
  rw [if_neg hv.ne']
  simp only [Option.map_some]
  set p0 : ℝ := if z - zoffset > 0 then ((z - zoffset) / zref) ^ shear else 0 with hp0
  have hq : 0 ≤ min (max p0 (umin / mag vel)) (umax / mag vel) :=
    le_min (le_max_of_le_right (div_nonneg hmin hv.le)) (div_nonneg (hmin.trans hmax) hv.le)
  have hm : mag (vel.1 * min (max p0 (umin / mag vel)) (umax / mag vel),
      vel.2.1 * min (max p0 (umin / mag vel)) (umax / mag vel),
      vel.2.2 * min (max p0 (umin / mag vel)) (umax / mag vel)) = min (max (mag vel * p0) umin) umax := by
    rw [mag_smul vel _ hq, mul_min_of_nonneg _ _ hv.le, mul_max_of_nonneg _ _ hv.le, mul_div_cancel₀ _ hv.ne',
      mul_div_cancel₀ _ hv.ne']
  refine ⟨_, rfl, ?_, ?_, ?_, ?_, ?_⟩
  · intro hz
    rw [hm, hp0, if_pos (sub_pos.2 hz)]
  · intro hz
    rw [hm, hp0, if_neg (by linarith)]
    rw [mul_zero, max_eq_right hmin, min_eq_left hmax]
  · rw [hm]; exact le_min (le_max_right _ _) hmax
  · rw [hm]; exact min_le_right _ _
  · have hm' := hm
    rw [mag_smul vel _ hq] at hm'
    rw [hm, ← hm']
    refine ⟨?_, ?_, ?_⟩ <;> simp only <;> ring

/-- **C69** The power law has the reference velocity at the reference height, and speed does not decrease with height. -/
theorem power_law_reference (zoffset zref shear umin umax : ℝ) (vel : ℝ × ℝ × ℝ) (hv : 0 < mag vel) (hz : 0 < zref)
    (hmin : umin ≤ mag vel) (hmax : mag vel ≤ umax) :
    powerLaw zoffset zref shear umin umax vel (zoffset + zref) = some vel := by
  unfold powerLaw powerFactor
  rw [if_neg hv.ne']
  simp only [Option.map_some, add_sub_cancel_left]
  rw [if_pos hz, div_self hz.ne', Real.one_rpow, max_eq_left ((div_le_one hv).2 hmin),
    min_eq_left ((one_le_div hv).2 hmax)]
  simp

theorem power_law_monotone (zoffset zref shear umin umax : ℝ) (vel v v' : ℝ × ℝ × ℝ) (z z' : ℝ) (hv : 0 < mag vel)
    (hz : 0 < zref) (hs : 0 ≤ shear) (hmin : 0 ≤ umin) (hmax : umin ≤ umax) (hzz : z ≤ z')
    (h : powerLaw zoffset zref shear umin umax vel z = some v)
    (h' : powerLaw zoffset zref shear umin umax vel z' = some v') : mag v ≤ mag v' := by
  obtain ⟨w, hw, w1, w2, w3, _⟩ := power_law_spec zoffset zref shear umin umax vel z hv hmin hmax
  obtain ⟨w', hw', w1', w2', w3', _⟩ := power_law_spec zoffset zref shear umin umax vel z' hv hmin hmax
  rw [h] at hw; rw [h'] at hw'
  simp only [Option.some.injEq] at hw hw'
  subst hw; subst hw'
  rcases le_or_gt z zoffset with h1 | h1
  · rw [w2 h1]; exact w3'
  · rw [w1 h1, w1' (h1.trans_le hzz)]
    apply min_le_min_right
    apply max_le_max_right
    apply mul_le_mul_of_nonneg_left _ hv.le
    apply Real.rpow_le_rpow (div_nonneg (by linarith) hz.le) _ hs
    exact div_le_div_of_nonneg_right (by linarith) hz.le

/-! ## Rankine vortex -/

/-- **C69** Around the moving centre the velocity of the vortex is perpendicular to the radius, counter-clockwise, of
size `Umax r/Rmax` inside and `Umax Rmax/r` outside the core: at most `Umax`, which is reached at `Rmax`.

Partial (C69). Missing: cells centred on the vortex, where the profile is 0/0. -/
theorem rankine_spec_partial (umax rmax : ℝ) (start vref v : ℝ × ℝ × ℝ) (x y time r : ℝ) (hu : 0 ≤ umax) (hr : 0 < rmax)
    (h : rankine umax rmax start vref x y time = some v)
    (hdist : r = √((x - (start.1 + vref.1 * time)) ^ 2 + (y - (start.2.1 + vref.2.1 * time)) ^ 2)) :
    (v.1 - vref.1) * (x - (start.1 + vref.1 * time)) + (v.2.1 - vref.2.1) * (y - (start.2.1 + vref.2.1 * time)) = 0 ∧
    0 ≤ (x - (start.1 + vref.1 * time)) * (v.2.1 - vref.2.1) - (y - (start.2.1 + vref.2.1 * time)) * (v.1 - vref.1) ∧
    √((v.1 - vref.1) ^ 2 + (v.2.1 - vref.2.1) ^ 2) = umax * min (r / rmax) (rmax / r) ∧
    √((v.1 - vref.1) ^ 2 + (v.2.1 - vref.2.1) ^ 2) ≤ umax ∧
    (r = rmax → √((v.1 - vref.1) ^ 2 + (v.2.1 - vref.2.1) ^ 2) = umax) ∧ v.2.2 = vref.2.2 := by
  unfold rankine at h
  simp only at h
  set xr := x - (start.1 + vref.1 * time)
  set yr := y - (start.2.1 + vref.2.1 * time)
  have er : √(xr * xr + yr * yr) = r := by rw [hdist]; congr 1; ring
  rw [er] at h
  by_cases h0 : r = 0
  · rw [if_pos h0] at h; simp at h
  rw [if_neg h0] at h
  have hr0 : 0 < r := lt_of_le_of_ne (by rw [← er]; exact Real.sqrt_nonneg _) (Ne.symm h0)
  have hsq : xr ^ 2 + yr ^ 2 = r ^ 2 := by
    rw [← er, Real.sq_sqrt (add_nonneg (mul_self_nonneg _) (mul_self_nonneg _))]; ring
  have hmin : (if r ≤ rmax then r / rmax else rmax / r) = min (r / rmax) (rmax / r) := by
    by_cases hc : r ≤ rmax
    · rw [if_pos hc, min_eq_left]
      exact ((div_le_one hr).2 hc).trans ((one_le_div hr0).2 hc)
    · push Not at hc
      rw [if_neg (not_le.2 hc), min_eq_right]
      exact ((div_le_one hr0).2 hc.le).trans ((one_le_div hr).2 hc.le)
  rw [hmin] at h
  set a := umax * min (r / rmax) (rmax / r) with ha
  have ha0 : 0 ≤ a := mul_nonneg hu (le_min (by positivity) (by positivity))
  have ha1 : a ≤ umax := by
    rw [ha]
    apply mul_le_of_le_one_right hu
    rcases le_total r rmax with hc | hc
    · exact (min_le_left _ _).trans ((div_le_one hr).2 hc)
    · exact (min_le_right _ _).trans ((div_le_one hr0).2 hc)
  simp only [Option.some.injEq] at h
  subst h
  simp only
  have e1 : vref.1 - a * (yr / r) - vref.1 = -(a * (yr / r)) := by ring
  have e2 : vref.2.1 + a * (xr / r) - vref.2.1 = a * (xr / r) := by ring
  have e3 : (-(a * (yr / r))) ^ 2 + (a * (xr / r)) ^ 2 = a ^ 2 := by
    have : (-(a * (yr / r))) ^ 2 + (a * (xr / r)) ^ 2 = a ^ 2 * ((xr ^ 2 + yr ^ 2) / r ^ 2) := by
      field_simp; ring
    rw [this, hsq, div_self (by positivity), mul_one]
  rw [e1, e2, e3, Real.sqrt_sq ha0]
  refine ⟨by ring, ?_, rfl, ha1, ?_, by ring⟩
  · have : xr * (a * (xr / r)) - yr * -(a * (yr / r)) = a * ((xr ^ 2 + yr ^ 2) / r) := by ring
    rw [this]
    positivity
  · intro e
    rw [ha, e, div_self hr.ne', min_self, mul_one]

/-- **C69** The Rankine profile is undefined (0/0) exactly in a cell centred on the vortex. -/
theorem rankine_undefined (umax rmax : ℝ) (start vref : ℝ × ℝ × ℝ) (x y time : ℝ) :
    rankine umax rmax start vref x y time = none ↔ x = start.1 + vref.1 * time ∧ y = start.2.1 + vref.2.1 * time := by
  unfold rankine
  simp only
  set xr := x - (start.1 + vref.1 * time) with hx
  set yr := y - (start.2.1 + vref.2.1 * time) with hy
  have hz : √(xr * xr + yr * yr) = 0 ↔ xr = 0 ∧ yr = 0 := by
    rw [Real.sqrt_eq_zero (add_nonneg (mul_self_nonneg _) (mul_self_nonneg _))]
    constructor
    · intro h
      have hx0 := mul_self_nonneg xr
      have hy0 := mul_self_nonneg yr
      exact ⟨mul_self_eq_zero.1 (by linarith), mul_self_eq_zero.1 (by linarith)⟩
    · rintro ⟨a, b⟩; rw [a, b]; ring
  by_cases h : √(xr * xr + yr * yr) = 0
  · rw [if_pos h]
    have := hz.1 h
    constructor
    · intro _
      exact ⟨sub_eq_zero.1 this.1, sub_eq_zero.1 this.2⟩
    · intro _; rfl
  · rw [if_neg h]
    constructor
    · intro h'; simp at h'
    · rintro ⟨a, b⟩
      exact absurd (hz.2 ⟨sub_eq_zero.2 a, sub_eq_zero.2 b⟩) h

/-- **C69** is false of the Rankine profile in ordinary input: a vortex starting at the centre of cell (0, 0). -/
theorem rankine_centre_cell :
    rankine 15 125 (1 / 2, 1 / 2, 0) (0, 0, 0) (centre 0 1 0) (centre 0 1 0) 0 = none := by
  rw [rankine_undefined]
  norm_num [centre]

/-- **C69** disagrees with the documentation of the default start, "[-10 * Rmax, 0, 0]": it is computed from the default
radius, whatever the user gives. -/
theorem rankine_default_start (rmax : ℝ) : (rankineStart []).1 = -10 * rmax ↔ rmax = 125 := by
  simp only [rankineStart]
  constructor <;> intro h <;> norm_num at h ⊢ <;> linarith

/-- Concrete cases. -/
example : linearProfile (0 : ℚ) 100 5 10 50 = some (15 / 2) := by norm_num [linearProfile]
example : linearProfile (0 : ℚ) 100 5 10 (-3) = some 5 := by norm_num [linearProfile]
example : ∃ v, powerLaw 0 90 (1 / 7) 0 100 (10, 0, 0) 45 = some v ∧ 0 ≤ mag v ∧ mag v ≤ 100 := by
  have hm : mag (10, 0, 0) = 10 := by
    unfold mag
    have : ((10 : ℝ), (0 : ℝ), (0 : ℝ)).1 * ((10 : ℝ), (0 : ℝ), (0 : ℝ)).1 + ((10 : ℝ), (0 : ℝ), (0 : ℝ)).2.1 * ((10 : ℝ), (0 : ℝ), (0 : ℝ)).2.1 +
        ((10 : ℝ), (0 : ℝ), (0 : ℝ)).2.2 * ((10 : ℝ), (0 : ℝ), (0 : ℝ)).2.2 = 10 ^ 2 := by norm_num
    rw [this, Real.sqrt_sq (by norm_num)]
  obtain ⟨v, h, _, _, h3, h4, _⟩ := power_law_spec 0 90 (1 / 7) 0 100 (10, 0, 0) 45 (by rw [hm]; norm_num) le_rfl
    (by norm_num)
  exact ⟨v, h, h3, h4⟩
example : twoLayer ((1 : ℚ), 0, 3) (-1, 0, 0) (1 / 2) (9 / 10) 1 2 = (1, 0, 0) := by norm_num [twoLayer]

/-- **C69**: a start given by the user is used. -/
theorem rankine_given_start (a b c : ℝ) : rankineStart [a, b, c] = (a, b, c) ∧ (rankineStart []).2 = (0, 0) := ⟨rfl, rfl⟩

end AmrWind.Udf
