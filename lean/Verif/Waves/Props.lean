import Verif.Waves.Model
import Mathlib.Analysis.SpecialFunctions.Trigonometric.Bounds
import Mathlib.Analysis.SpecialFunctions.Pow.Continuity
import Mathlib.Tactic.Linarith
import Mathlib.Tactic.FieldSimp

/-!
# C41, C58: relaxation weights and the relaxation of a cell
-/

namespace AmrWind.Waves

/-! ## The weights -/

theorem expm1_pos : 0 < Real.exp 1 - 1 := by
  have := Real.add_one_lt_exp (x := 1) one_ne_zero
  linarith

theorem shape_zero : shape 0 = 1 := by
  unfold shape
  rw [Real.zero_rpow (by norm_num)]
  simp

theorem shape_one : shape 1 = 0 := by
  unfold shape
  rw [Real.one_rpow, div_self expm1_pos.ne', sub_self]

theorem shape_anti {s t : ℝ} (h0 : 0 ≤ s) (h : s ≤ t) : shape t ≤ shape s := by
  unfold shape
  have h1 : s ^ (7 / 2 : ℝ) ≤ t ^ (7 / 2 : ℝ) := Real.rpow_le_rpow h0 h (by norm_num)
  have h2 := Real.exp_le_exp.mpr h1
  have h3 := div_le_div_of_nonneg_right (sub_le_sub_right h2 1) expm1_pos.le
  linarith

theorem shape_strict {s t : ℝ} (h0 : 0 ≤ s) (h : s < t) : shape t < shape s := by
  unfold shape
  have h1 : s ^ (7 / 2 : ℝ) < t ^ (7 / 2 : ℝ) := Real.rpow_lt_rpow h0 h (by norm_num)
  have h2 := Real.exp_lt_exp.mpr h1
  have h3 := div_lt_div_of_pos_right (sub_lt_sub_right h2 1) expm1_pos
  linarith

theorem shape_mem {t : ℝ} (h0 : 0 ≤ t) (h1 : t ≤ 1) : 0 ≤ shape t ∧ shape t ≤ 1 := by
  have a := shape_anti h0 h1
  have b := shape_anti le_rfl h0
  rw [shape_one] at a
  rw [shape_zero] at b
  exact ⟨a, b⟩

theorem clamp_mem (q : ℝ) : 0 ≤ clamp q ∧ clamp q ≤ 1 := by
  unfold clamp
  exact ⟨le_max_right _ _, max_le (min_le_right _ _) zero_le_one⟩

theorem clamp_mono {p q : ℝ} (h : p ≤ q) : clamp p ≤ clamp q := max_le_max (min_le_min_right _ h) le_rfl

theorem shape_clamp_continuous : Continuous fun q => shape (clamp q) := by
  unfold shape clamp
  have h1 : Continuous fun q : ℝ => (max (min q 1) 0) ^ (7 / 2 : ℝ) :=
    (by fun_prop : Continuous fun q : ℝ => max (min q 1) 0).rpow_const fun _ => Or.inr (by norm_num)
  have h2 : Continuous fun q : ℝ => Real.exp ((max (min q 1) 0) ^ (7 / 2 : ℝ)) := Real.continuous_exp.comp h1
  fun_prop

/-- C41. The generation weight exists, is in [0,1], is 0 up to the boundary and 1 beyond the zone, grows with the distance
(strictly inside the zone) and depends continuously on it. -/
theorem generate_weight {len : ℝ} (hl : 0 < len) : ∃ g : ℝ → ℝ, (∀ x, gammaGenerate x len = some (g x)) ∧
    (∀ x, 0 ≤ g x ∧ g x ≤ 1) ∧ (∀ x ≤ 0, g x = 0) ∧ (∀ x ≥ len, g x = 1) ∧ Monotone g ∧
    (∀ x y, 0 ≤ x → x < y → y ≤ len → g x < g y) ∧ Continuous g := by
  refine ⟨fun x => shape (clamp (1 - x / len)), ?_, ?_, ?_, ?_, ?_, ?_, ?_⟩
  · intro x
    unfold gammaGenerate
    rw [if_neg hl.ne']
  · intro x
    exact shape_mem (clamp_mem _).1 (clamp_mem _).2
  · intro x hx
    have : x / len ≤ 0 := div_nonpos_of_nonpos_of_nonneg hx hl.le
    have e : clamp (1 - x / len) = 1 := by
      unfold clamp
      rw [min_eq_right (by linarith), max_eq_left zero_le_one]
    show shape (clamp (1 - x / len)) = 0
    rw [e, shape_one]
  · intro x hx
    have : 1 ≤ x / len := by rw [le_div_iff₀ hl]; linarith
    have e : clamp (1 - x / len) = 0 := by
      unfold clamp
      rw [min_eq_left (by linarith), max_eq_right (by linarith)]
    show shape (clamp (1 - x / len)) = 1
    rw [e, shape_zero]
  · intro x y hxy
    apply shape_anti (clamp_mem _).1
    apply clamp_mono
    have := div_le_div_of_nonneg_right hxy hl.le
    linarith
  · intro x y h0 hxy hy
    have a : 0 ≤ x / len := div_nonneg h0 hl.le
    have b : x / len < y / len := div_lt_div_of_pos_right hxy hl
    have c : y / len ≤ 1 := by rw [div_le_one hl]; exact hy
    have e1 : clamp (1 - x / len) = 1 - x / len := by
      unfold clamp
      rw [min_eq_left (by linarith), max_eq_left (by linarith)]
    have e2 : clamp (1 - y / len) = 1 - y / len := by
      unfold clamp
      rw [min_eq_left (by linarith), max_eq_left (by linarith)]
    show shape (clamp (1 - x / len)) < shape (clamp (1 - y / len))
    rw [e1, e2]
    exact shape_strict (by linarith) (by linarith)
  · exact shape_clamp_continuous.comp (by fun_prop : Continuous fun x : ℝ => 1 - x / len)

/-- C41. The absorption weight exists, is in [0,1], is 1 up to the start of the zone and 0 from `len * factor` on, falls with
the distance and depends continuously on it. -/
theorem absorb_weight {len factor : ℝ} (hl : 0 < len) (hf : 0 < factor) :
    ∃ g : ℝ → ℝ, (∀ x, gammaAbsorb x len factor = some (g x)) ∧
    (∀ x, 0 ≤ g x ∧ g x ≤ 1) ∧ (∀ x ≤ 0, g x = 1) ∧ (∀ x ≥ len * factor, g x = 0) ∧ Antitone g ∧ Continuous g := by
  have hp : 0 < len * factor := mul_pos hl hf
  refine ⟨fun x => shape (clamp (x / (len * factor))), ?_, ?_, ?_, ?_, ?_, ?_⟩
  · intro x
    unfold gammaAbsorb
    rw [if_neg hp.ne']
  · intro x
    exact shape_mem (clamp_mem _).1 (clamp_mem _).2
  · intro x hx
    have : x / (len * factor) ≤ 0 := div_nonpos_of_nonpos_of_nonneg hx hp.le
    have e : clamp (x / (len * factor)) = 0 := by
      unfold clamp
      rw [min_eq_left (by linarith), max_eq_right this]
    show shape (clamp (x / (len * factor))) = 1
    rw [e, shape_zero]
  · intro x hx
    have : 1 ≤ x / (len * factor) := by rw [le_div_iff₀ hp]; linarith
    have e : clamp (x / (len * factor)) = 1 := by
      unfold clamp
      rw [min_eq_right this, max_eq_left zero_le_one]
    show shape (clamp (x / (len * factor))) = 0
    rw [e, shape_one]
  · intro x y hxy
    exact shape_anti (clamp_mem _).1 (clamp_mono (div_le_div_of_nonneg_right hxy hp.le))
  · exact shape_clamp_continuous.comp (by fun_prop : Continuous fun x : ℝ => x / (len * factor))

theorem generate_mem {x len g : ℝ} (h : gammaGenerate x len = some g) : 0 ≤ g ∧ g ≤ 1 := by
  unfold gammaGenerate at h
  split at h
  · split at h
    · cases h
    · cases h
      split
      · exact shape_mem le_rfl zero_le_one
      · exact shape_mem zero_le_one le_rfl
  · cases h
    exact shape_mem (clamp_mem _).1 (clamp_mem _).2

theorem absorb_mem {x len f g : ℝ} (h : gammaAbsorb x len f = some g) : 0 ≤ g ∧ g ≤ 1 := by
  unfold gammaAbsorb at h
  split at h
  · split at h
    · cases h
    · cases h
      split
      · exact shape_mem zero_le_one le_rfl
      · exact shape_mem le_rfl zero_le_one
  · cases h
    exact shape_mem (clamp_mem _).1 (clamp_mem _).2

/-- C41. Combining stays between the two values, at the ends reaches them. -/
theorem combine_between {g a b : ℝ} (h0 : 0 ≤ g) (h1 : g ≤ 1) :
    min a b ≤ combineLinear g a b ∧ combineLinear g a b ≤ max a b ∧ combineLinear 0 a b = a ∧ combineLinear 1 a b = b := by
  unfold combineLinear
  refine ⟨?_, ?_, by ring, by ring⟩
  · nlinarith [min_le_left a b, min_le_right a b]
  · nlinarith [le_max_left a b, le_max_right a b]

/-- C41. The ramp starts at 0, ends at 1, stays in [0,1] and grows. -/
theorem ramp_spec {period : ℝ} (hp : 0 < period) : ramp 0 period = 0 ∧ (∀ t ≥ period, ramp t period = 1) ∧
    (∀ t ≥ 0, 0 ≤ ramp t period ∧ ramp t period ≤ 1) ∧
    (∀ s t, 0 ≤ s → s ≤ t → ramp s period ≤ ramp t period) := by
  have hpi := Real.pi_pos
  -- the shape of the ramp grows
  have key : ∀ a b : ℝ, a ≤ b → a - 1 / Real.pi * Real.sin (Real.pi * a) ≤ b - 1 / Real.pi * Real.sin (Real.pi * b) := by
    intro a b hab
    have h1 : Real.sin (Real.pi * b) - Real.sin (Real.pi * a) ≤ Real.pi * b - Real.pi * a := by
      have h2 : Real.sin (Real.pi * b) - Real.sin (Real.pi * a) =
          2 * Real.sin ((Real.pi * b - Real.pi * a) / 2) * Real.cos ((Real.pi * b + Real.pi * a) / 2) :=
        Real.sin_sub_sin _ _
      have hx : 0 ≤ (Real.pi * b - Real.pi * a) / 2 := by nlinarith
      have h3 : |2 * Real.sin ((Real.pi * b - Real.pi * a) / 2) * Real.cos ((Real.pi * b + Real.pi * a) / 2)| ≤
          2 * ((Real.pi * b - Real.pi * a) / 2) := by
        rw [abs_mul, abs_mul, abs_two]
        have h4 : |Real.sin ((Real.pi * b - Real.pi * a) / 2)| ≤ (Real.pi * b - Real.pi * a) / 2 := by
          have := Real.abs_sin_le_abs (x := (Real.pi * b - Real.pi * a) / 2)
          rwa [abs_of_nonneg hx] at this
        have h5 := Real.abs_cos_le_one ((Real.pi * b + Real.pi * a) / 2)
        have h6 := abs_nonneg (Real.sin ((Real.pi * b - Real.pi * a) / 2))
        have h7 := abs_nonneg (Real.cos ((Real.pi * b + Real.pi * a) / 2))
        nlinarith
      rw [h2]
      have := le_trans (le_abs_self _) h3
      linarith
    have h8 : 1 / Real.pi * (Real.sin (Real.pi * b) - Real.sin (Real.pi * a)) ≤ 1 / Real.pi * (Real.pi * b - Real.pi * a) :=
      mul_le_mul_of_nonneg_left h1 (by positivity)
    have h9 : 1 / Real.pi * (Real.pi * b - Real.pi * a) = b - a := by field_simp
    linarith
  have hz : ramp 0 period = 0 := by
    unfold ramp
    rw [if_pos hp]
    simp
  have hend : ∀ t ≥ period, ramp t period = 1 := by
    intro t ht
    unfold ramp
    rw [if_neg (not_lt.mpr ht)]
  have hle : ∀ t < period, ramp t period ≤ 1 := by
    intro t ht
    unfold ramp
    rw [if_pos ht]
    have h1 : t / period ≤ 1 := by rw [div_le_one hp]; exact ht.le
    have := key _ _ h1
    rw [mul_one, Real.sin_pi] at this
    linarith
  have hmono : ∀ s t, 0 ≤ s → s ≤ t → ramp s period ≤ ramp t period := by
    intro s t _ hst
    by_cases ht : t < period
    · unfold ramp
      rw [if_pos ht, if_pos (lt_of_le_of_lt hst ht)]
      exact key _ _ (div_le_div_of_nonneg_right hst hp.le)
    · push Not at ht
      rw [hend t ht]
      by_cases hs : s < period
      · exact hle s hs
      · exact (hend s (not_lt.mp hs)).le
  refine ⟨hz, hend, ?_, hmono⟩
  intro t ht
  constructor
  · have := hmono 0 t le_rfl ht
    rwa [hz] at this
  · by_cases h : t < period
    · exact hle t h
    · exact (hend t (not_lt.mp h)).le

/-- C41. The volume fraction of a cell below a free surface is the submerged share of its height. -/
theorem free_surface_vof {eta z dz : ℝ} (h : 0 < dz) :
    freeSurfaceToVof eta z dz = max 0 (min (z + dz / 2) eta - (z - dz / 2)) / dz := by
  unfold freeSurfaceToVof
  by_cases h1 : eta - z ≥ dz / 2
  · rw [if_pos h1, min_eq_left (by linarith), max_eq_right (by linarith)]
    rw [eq_div_iff h.ne']
    ring
  · rw [if_neg h1]
    push Not at h1
    by_cases h2 : eta - z ≤ -dz / 2
    · rw [if_pos h2, min_eq_right (by linarith), max_eq_left (by linarith), zero_div]
    · rw [if_neg h2]
      push Not at h2
      rw [if_pos (abs_lt.mpr ⟨by linarith, h1⟩), min_eq_right (by linarith), max_eq_right (by linarith)]
      split
      · field_simp
        ring
      · congr 1
        ring

/-- C41. It is in [0,1] and grows with the elevation. -/
theorem free_surface_vof_mono {eta eta' z dz : ℝ} (h : 0 < dz) (he : eta ≤ eta') :
    0 ≤ freeSurfaceToVof eta z dz ∧ freeSurfaceToVof eta z dz ≤ 1 ∧
      freeSurfaceToVof eta z dz ≤ freeSurfaceToVof eta' z dz := by
  rw [free_surface_vof h, free_surface_vof h]
  refine ⟨by positivity, ?_, ?_⟩
  · rw [div_le_one h]
    exact max_le h.le (by linarith [min_le_left (z + dz / 2) eta])
  · apply div_le_div_of_nonneg_right _ h.le
    exact max_le_max le_rfl (sub_le_sub_right (min_le_min_left _ he) _)

/-! ## Harmonised profiles -/

/-- A value is a weighted mean of three profiles, with the same weights for every component. -/
def Mixes (p left bulk right : WaveVec) : Prop :=
  ∃ a b c : ℝ, 0 ≤ a ∧ 0 ≤ b ∧ 0 ≤ c ∧ a + b + c = 1 ∧ ∀ n, p n = a * left n + b * bulk n + c * right n

/-- C41. Wherever the harmonised profile is defined it is a weighted mean of the left, bulk and right profiles. -/
theorem harmonize_mixes {tol x lb ll rb rl : ℝ} {left bulk right p : WaveVec}
    (h : harmonize1 tol x lb ll rb rl left bulk right = some p) : Mixes p left bulk right := by
  unfold harmonize1 at h
  by_cases h1 : x ≤ lb + ll
  · rw [if_pos h1] at h
    cases h
    exact ⟨1, 0, 0, by norm_num, le_rfl, le_rfl, by norm_num, fun n => by ring⟩
  · rw [if_neg h1] at h
    by_cases h2 : x + rl ≥ rb
    · rw [if_pos h2] at h
      cases h
      exact ⟨0, 0, 1, le_rfl, le_rfl, by norm_num, by norm_num, fun n => by ring⟩
    · rw [if_neg h2] at h
      rcases hg : gammaGenerate (x - (lb + ll)) (1 / 2 * ll) with _ | gl
      · rw [hg] at h; cases h
      · rcases ha : gammaAbsorb (x - (rb - 3 / 2 * rl)) (1 / 2 * rl) 1 with _ | gr
        · rw [hg, ha] at h; cases h
        · rw [hg, ha] at h
          cases h
          obtain ⟨a1, a2⟩ := generate_mem hg
          obtain ⟨b1, b2⟩ := absorb_mem ha
          by_cases hr : gr > 1 - tol
          · refine ⟨1 - gl, gl, 0, by linarith, a1, le_rfl, by ring, fun n => ?_⟩
            simp only [if_pos hr, combineLinear]
            ring
          · refine ⟨0, gr, 1 - gr, le_rfl, b1, by linarith, by ring, fun n => ?_⟩
            simp only [if_neg hr, combineLinear]
            ring

/-- C41. With positive lengths the profile is defined everywhere: the left profile in the left zone, the right one in the
right zone, the bulk profile at half a zone length and more from both, and in between a weighted mean of the zone's
profile and the bulk. -/
theorem harmonize_zones {tol x lb ll rb rl : ℝ} (hl : 0 < ll) (hr : 0 < rl) (ht : 0 < tol) (left bulk right : WaveVec) :
    (x ≤ lb + ll → harmonize1 tol x lb ll rb rl left bulk right = some left) ∧
    (lb + ll < x → rb - rl ≤ x → harmonize1 tol x lb ll rb rl left bulk right = some right) ∧
    (lb + 3 / 2 * ll ≤ x → x ≤ rb - 3 / 2 * rl → harmonize1 tol x lb ll rb rl left bulk right = some bulk) ∧
    (lb + ll < x → x ≤ rb - 3 / 2 * rl → ∃ g, gammaGenerate (x - (lb + ll)) (ll / 2) = some g ∧
      harmonize1 tol x lb ll rb rl left bulk right = some fun n => combineLinear g (left n) (bulk n)) := by
  obtain ⟨gg, g1, g2, g3, g4, g5, _⟩ := generate_weight (len := 1 / 2 * ll) (by linarith)
  obtain ⟨ga, a1, a2, a3, a4, a5, _⟩ := absorb_weight (len := 1 / 2 * rl) (factor := 1) (by linarith) one_pos
  have c4 : lb + ll < x → x ≤ rb - 3 / 2 * rl → ∃ g, gammaGenerate (x - (lb + ll)) (ll / 2) = some g ∧
      harmonize1 tol x lb ll rb rl left bulk right = some fun n => combineLinear g (left n) (bulk n) := by
    intro h1 h2
    refine ⟨gg (x - (lb + ll)), by rw [← g1]; congr 1; ring, ?_⟩
    unfold harmonize1
    rw [if_neg (not_le.mpr h1), if_neg (by linarith), g1, a1, a3 _ (by linarith)]
    show some _ = some _
    simp only [if_pos (by linarith : (1 : ℝ) > 1 - tol)]
  refine ⟨?_, ?_, ?_, c4⟩
  · intro h
    unfold harmonize1
    rw [if_pos h]
  · intro h1 h2
    unfold harmonize1
    rw [if_neg (not_le.mpr h1), if_pos (by linarith)]
  · intro h1 h2
    obtain ⟨g, hg, hh⟩ := c4 (by linarith) h2
    rw [hh]
    have : g = 1 := by
      have e := g1 (x - (lb + ll))
      have e2 : (1 : ℝ) / 2 * ll = ll / 2 := by ring
      rw [e2] at e g4
      rw [hg] at e
      have e3 := Option.some.inj e
      rw [e3]
      exact g4 _ (by linarith)
    rw [this]
    congr 1
    funext n
    simp [combineLinear]

/-- C41. In two directions the result is still a weighted mean of the three profiles. -/
theorem harmonize2_mixes {tol eps x y lb ll rb rl ly hy yl : ℝ} {left bulk right p : WaveVec}
    (h : harmonize2 tol eps x y lb ll rb rl ly hy yl left bulk right = some p) : Mixes p left bulk right := by
  unfold harmonize2 at h
  rcases hf : harmonize1 tol x lb ll rb rl left left right with _ | f
  · rw [hf] at h; cases h
  · rcases hi : harmonize1 tol x lb ll rb rl left bulk right with _ | i
    · rw [hf, hi] at h; cases h
    · rw [hf, hi] at h
      simp only [Option.bind_eq_bind, Option.bind_some] at h
      obtain ⟨a, b, c, a0, b0, c0, s, hp⟩ := harmonize_mixes hf
      obtain ⟨a', b', c', a0', b0', c0', s', hp'⟩ := harmonize_mixes hi
      by_cases hy' : yl ≥ eps
      · rw [if_pos hy'] at h
        obtain ⟨u, v, w, u0, v0, w0, s2, hp2⟩ := harmonize_mixes h
        refine ⟨(u + w) * (a + b) + v * a', v * b', (u + w) * c + v * c', by positivity, by positivity, by positivity, ?_, ?_⟩
        · have e1 : (u + w) * (a + b) + v * a' + v * b' + ((u + w) * c + v * c') =
              (u + w) * (a + b + c) + v * (a' + b' + c') := by ring
          rw [e1, s, s']
          linarith
        · intro n
          rw [hp2, hp, hp']
          ring
      · rw [if_neg hy'] at h
        cases h
        exact ⟨a', b', c', a0', b0', c0', s', hp'⟩

/-! ## The relaxation of a cell (C58) -/

/-- C58. The weight of the present solution is in [0,1] wherever it is defined. -/
theorem zone_gamma_mem {z : Zones} {eps x y g : ℝ} (h : zoneGamma z eps x y = some g) : 0 ≤ g ∧ g ≤ 1 := by
  unfold zoneGamma at h
  simp only [Option.bind_eq_bind] at h
  obtain ⟨a, ha, h⟩ := Option.bind_eq_some_iff.mp h
  obtain ⟨b, hb, h⟩ := Option.bind_eq_some_iff.mp h
  obtain ⟨c, hc, h⟩ := Option.bind_eq_some_iff.mp h
  have m1 := generate_mem ha
  have m2 := absorb_mem hb
  have m3 : (0 ≤ c.1 ∧ c.1 ≤ 1) ∧ (0 ≤ c.2 ∧ c.2 ≤ 1) := by
    unfold lateralGamma at hc
    simp only [Option.bind_eq_bind] at hc
    by_cases hl : z.lenY > eps
    · rw [if_pos hl] at hc
      obtain ⟨p, hp, hc⟩ := Option.bind_eq_some_iff.mp hc
      obtain ⟨q, hq, hc⟩ := Option.bind_eq_some_iff.mp hc
      obtain ⟨r, hr, hc⟩ := Option.bind_eq_some_iff.mp hc
      have n1 := generate_mem hp
      have n2 := absorb_mem hq
      have n3 := generate_mem hr
      cases hb : z.hasBeach
      · rw [hb] at hc; cases hc; exact ⟨n1, n2⟩
      · rw [hb] at hc; cases hc
        exact ⟨⟨le_max_of_le_left n1.1, max_le n1.2 n3.2⟩, ⟨le_max_of_le_left n2.1, max_le n2.2 n3.2⟩⟩
    · rw [if_neg hl] at hc
      cases hc
      exact ⟨⟨zero_le_one, le_rfl⟩, ⟨zero_le_one, le_rfl⟩⟩
  cases h
  exact ⟨le_min (le_min m2.1 m1.1) (le_min m3.2.1 m3.1.1), min_le_of_left_le (min_le_of_left_le m2.2)⟩

theorem generate_low {x len : ℝ} (hl : 0 < len) (h : x ≤ 0) : gammaGenerate x len = some 0 := by
  obtain ⟨g, h1, -, h2, -⟩ := generate_weight hl
  rw [h1, h2 x h]

theorem generate_high {x len : ℝ} (hl : 0 < len) (h : len ≤ x) : gammaGenerate x len = some 1 := by
  obtain ⟨g, h1, -, -, h2, -⟩ := generate_weight hl
  rw [h1, h2 x h]

theorem absorb_low {x len f : ℝ} (hl : 0 < len) (hf : 0 < f) (h : x ≤ 0) : gammaAbsorb x len f = some 1 := by
  obtain ⟨g, h1, -, h2, -⟩ := absorb_weight hl hf
  rw [h1, h2 x h]

theorem absorb_high {x len f : ℝ} (hl : 0 < len) (hf : 0 < f) (h : len * f ≤ x) : gammaAbsorb x len f = some 0 := by
  obtain ⟨g, h1, -, -, h2, -⟩ := absorb_weight hl hf
  rw [h1, h2 x h]

theorem generate_some {len : ℝ} (hl : 0 < len) (x : ℝ) : ∃ g, gammaGenerate x len = some g ∧ 0 ≤ g ∧ g ≤ 1 := by
  obtain ⟨g, h1, h2, -⟩ := generate_weight hl
  exact ⟨g x, h1 x, h2 x⟩

theorem absorb_some {len f : ℝ} (hl : 0 < len) (hf : 0 < f) (x : ℝ) : ∃ g, gammaAbsorb x len f = some g ∧ 0 ≤ g ∧ g ≤ 1 := by
  obtain ⟨g, h1, h2, -⟩ := absorb_weight hl hf
  exact ⟨g x, h1 x, h2 x⟩

/-- C41. A zone of no length is a step: all of the target on the side of the boundary and none on the other; on the spot itself the weight is 0/0. -/
theorem zero_length (x len factor : ℝ) (h : len * factor = 0) :
    (x < 0 → gammaGenerate x 0 = some 0 ∧ gammaAbsorb x len factor = some 1) ∧
    (0 < x → gammaGenerate x 0 = some 1 ∧ gammaAbsorb x len factor = some 0) ∧
    (gammaGenerate x 0 = none ↔ x = 0) ∧ (gammaAbsorb x len factor = none ↔ x = 0) := by
  unfold gammaGenerate gammaAbsorb
  simp only [if_pos h, if_true]
  refine ⟨fun hx => ?_, fun hx => ?_, ?_, ?_⟩
  · rw [if_neg hx.ne, if_neg hx.ne, if_neg (not_lt.mpr hx.le), if_neg (not_lt.mpr hx.le), shape_zero, shape_one]
    exact ⟨rfl, rfl⟩
  · rw [if_neg hx.ne', if_neg hx.ne', if_pos hx, if_pos hx, shape_zero, shape_one]
    exact ⟨rfl, rfl⟩
  · by_cases e : x = 0 <;> simp [e]
  · by_cases e : x = 0 <;> simp [e]

/-- The zones of a run: generation zone and beach have positive lengths and the domain is not empty. -/
structure Zones.Ok (z : Zones) : Prop where
  gen : 0 < z.gen
  beach : 0 < z.beach
  factor : 0 < z.beachFactor
  wide : z.lox ≤ z.hix
  deep : z.loy ≤ z.hiy

theorem lateral_some {z : Zones} (hz : z.Ok) {eps : ℝ} (he : 0 ≤ eps) (x y : ℝ) :
    ∃ g, lateralGamma z eps x y = some g ∧ (0 ≤ g.1 ∧ g.1 ≤ 1) ∧ 0 ≤ g.2 ∧ g.2 ≤ 1 := by
  unfold lateralGamma
  by_cases h : z.lenY > eps
  · have hl : 0 < z.lenY := lt_of_le_of_lt he h
    obtain ⟨a, ha, a0, a1⟩ := generate_some hl (y - z.loy)
    obtain ⟨b, hb, b0, b1⟩ := absorb_some hl one_pos (y - (z.hiy - z.lenY))
    obtain ⟨c, hc, c0, c1⟩ := generate_some (half_pos hz.beach) (x - (z.hix - 3 / 2 * z.beach))
    rw [show z.beach / 2 = 1 / 2 * z.beach by ring] at hc
    simp only [if_pos h, ha, hb, hc, Option.bind_eq_bind, Option.bind_some]
    refine ⟨_, rfl, ?_⟩
    cases z.hasBeach
    · exact ⟨⟨a0, a1⟩, b0, b1⟩
    · exact ⟨⟨le_max_of_le_left a0, max_le a1 c1⟩, le_max_of_le_left b0, max_le b1 c1⟩
  · rw [if_neg h]
    exact ⟨_, rfl, ⟨zero_le_one, le_rfl⟩, zero_le_one, le_rfl⟩

/-- C58. The weights beside the lateral boundaries: none of the target in the middle; all of it at the boundaries up to half a beach in front of the
beach (everywhere if there is no beach); no forcing from the sides in the beach. -/
theorem lateral_weights {z : Zones} (hz : z.Ok) {eps : ℝ} (he : 0 ≤ eps) (hy : eps < z.lenY) (x y : ℝ) :
    (z.loy + z.lenY ≤ y → y ≤ z.hiy - z.lenY → lateralGamma z eps x y = some (1, 1)) ∧
    (z.hasBeach = true → z.hix - z.beach ≤ x → lateralGamma z eps x y = some (1, 1)) ∧
    (z.hasBeach = false ∨ x ≤ z.hix - 3 / 2 * z.beach →
      (y ≤ z.loy → ∃ g, lateralGamma z eps x y = some (0, g)) ∧ (z.hiy ≤ y → ∃ g, lateralGamma z eps x y = some (g, 0))) := by
  have hl : 0 < z.lenY := lt_of_le_of_lt he hy
  have hb : 0 < 1 / 2 * z.beach := by have := hz.beach; linarith
  unfold lateralGamma
  obtain ⟨a, ha, a0, a1⟩ := generate_some hl (y - z.loy)
  obtain ⟨b, hb', b0, b1⟩ := absorb_some hl one_pos (y - (z.hiy - z.lenY))
  obtain ⟨c, hc, c0, c1⟩ := generate_some hb (x - (z.hix - 3 / 2 * z.beach))
  refine ⟨fun h1 h2 => ?_, fun h1 h2 => ?_, fun h => ⟨fun h1 => ?_, fun h1 => ?_⟩⟩
  · rw [if_pos hy, generate_high hl (by linarith), absorb_low hl one_pos (by linarith), hc]
    simp only [Option.bind_eq_bind, Option.bind_some]
    cases z.hasBeach
    · rfl
    · simp only [if_true, max_eq_left c1]
  · rw [if_pos hy, ha, hb', generate_high hb (by linarith)]
    simp only [Option.bind_eq_bind, Option.bind_some, h1, if_true, max_eq_right a1, max_eq_right b1]
  · rw [if_pos hy, generate_low hl (by linarith), hb']
    rcases h with h | h
    · simp only [hc, Option.bind_eq_bind, Option.bind_some, h]
      exact ⟨b, rfl⟩
    · rw [generate_low hb (by linarith)]
      simp only [Option.bind_eq_bind, Option.bind_some]
      cases z.hasBeach
      · exact ⟨b, rfl⟩
      · exact ⟨b, by simp only [if_true, max_self, max_eq_left b0]⟩
  · rw [if_pos hy, ha, absorb_high hl one_pos (by linarith)]
    rcases h with h | h
    · simp only [hc, Option.bind_eq_bind, Option.bind_some, h]
      exact ⟨a, rfl⟩
    · rw [generate_low hb (by linarith)]
      simp only [Option.bind_eq_bind, Option.bind_some]
      cases z.hasBeach
      · exact ⟨a, rfl⟩
      · exact ⟨a, by simp only [if_true, max_self, max_eq_left a0]⟩

/-- C58. Where the zones act: the present solution is left alone between the zones; the target is taken whole at the inflow, at the end of the beach
and at the lateral boundaries in front of the beach; in the beach the place across the channel does not matter. -/
theorem zone_weights {z : Zones} (hz : z.Ok) {eps : ℝ} (he : 0 ≤ eps) (x y : ℝ) :
    (z.lox + z.gen ≤ x → x ≤ z.hix - z.beach → (z.lenY ≤ eps ∨ z.loy + z.lenY ≤ y ∧ y ≤ z.hiy - z.lenY) → zoneGamma z eps x y = some 1) ∧
    (x ≤ z.lox → zoneGamma z eps x y = some 0) ∧
    (z.beachFactor ≤ 1 → z.hix - z.beach + z.beach * z.beachFactor ≤ x → z.lox ≤ x → zoneGamma z eps x y = some 0) ∧
    (eps < z.lenY → (z.hasBeach = false ∨ x ≤ z.hix - 3 / 2 * z.beach ∧ z.lox ≤ x) → (y ≤ z.loy ∨ z.hiy ≤ y) → zoneGamma z eps x y = some 0) ∧
    (z.hasBeach = true → z.hix - z.beach ≤ x → ∀ y', zoneGamma z eps x y = zoneGamma z eps x y') := by
  have hg := hz.gen
  have hb := hz.beach
  have hw := hz.wide
  have hd := hz.deep
  set X := min (max x z.lox) z.hix with hX
  set Y := min (max y z.loy) z.hiy with hY
  obtain ⟨a, ha, a0, a1⟩ := generate_some hg (X - z.lox)
  obtain ⟨b, hb', b0, b1⟩ := absorb_some hb hz.factor (X - (z.hix - z.beach))
  obtain ⟨c, hc, ⟨c0, c1⟩, c2, c3⟩ := lateral_some hz he X Y
  unfold zoneGamma
  simp only [Option.bind_eq_bind, ← hX, ← hY]
  refine ⟨fun h1 h2 h3 => ?_, fun h1 => ?_, fun h0 h1 h2 => ?_, fun h1 h2 h3 => ?_, fun h1 h2 y' => ?_⟩
  · have e : X = x := by rw [hX, max_eq_left (by linarith), min_eq_left (by linarith)]
    have hl : lateralGamma z eps X Y = some (1, 1) := by
      by_cases h : eps < z.lenY
      · rcases h3 with h3 | h3
        · exact absurd h (not_lt.mpr h3)
        · have hl : 0 < z.lenY := lt_of_le_of_lt he h
          have e' : Y = y := by rw [hY, max_eq_left (by linarith), min_eq_left (by linarith)]
          rw [e']
          exact (lateral_weights hz he h X y).1 h3.1 h3.2
      · unfold lateralGamma
        rw [if_neg h]
    rw [hl, e, generate_high hg (by linarith), absorb_low hb hz.factor (by linarith)]
    simp
  · have e : X = z.lox := by rw [hX, max_eq_right h1, min_eq_left hw]
    rw [hc, hb', generate_low hg (by rw [e, sub_self])]
    simp only [Option.bind_some, min_eq_right b0]
    rw [min_eq_left (le_min c2 c0)]
  · have e : X = min x z.hix := by rw [hX, max_eq_left h2]
    have : z.hix - z.beach + z.beach * z.beachFactor ≤ X := by
      rw [e]
      refine le_min h1 ?_
      nlinarith
    rw [hc, ha, absorb_high hb hz.factor (by linarith)]
    simp only [Option.bind_some, min_eq_left a0]
    rw [min_eq_left (le_min c2 c0)]
  · have hx : z.hasBeach = false ∨ X ≤ z.hix - 3 / 2 * z.beach := by
      rcases h2 with h2 | h2
      · exact Or.inl h2
      · right
        rw [hX, max_eq_left h2.2]
        exact le_trans (min_le_left _ _) h2.1
    have hl := (lateral_weights hz he h1 X Y).2.2 hx
    rcases h3 with h3 | h3
    · have e : Y = z.loy := by rw [hY, max_eq_right h3, min_eq_left hd]
      obtain ⟨g, h⟩ := hl.1 e.le
      rw [h] at hc
      cases hc
      rw [h, ha, hb']
      simp only [Option.bind_some]
      rw [min_eq_right c2, min_eq_right (le_min b0 a0)]
    · have e : Y = z.hiy := by rw [hY, min_eq_right (le_trans h3 (le_max_left _ _))]
      obtain ⟨g, h⟩ := hl.2 e.ge
      rw [h] at hc
      cases hc
      rw [h, ha, hb']
      simp only [Option.bind_some]
      rw [min_eq_left c0, min_eq_right (le_min b0 a0)]
  · have hx : z.hix - z.beach ≤ X := by
      rw [hX]
      exact le_min (le_trans h2 (le_max_left _ _)) (by linarith)
    have : ∀ Y', lateralGamma z eps X Y' = lateralGamma z eps X Y := by
      intro Y'
      by_cases h : eps < z.lenY
      · rw [(lateral_weights hz he h X Y').2.1 h1 hx, (lateral_weights hz he h X Y).2.1 h1 hx]
      · unfold lateralGamma
        rw [if_neg h, if_neg h]
    rw [this (min (max y' z.loy) z.hiy)]

/-- A channel with zones on all sides. -/
example : Zones.Ok ⟨0, 100, 0, 20, 10, 20, 1, 4, true⟩ ∧ zoneGamma ⟨0, 100, 0, 20, 10, 20, 1, 4, true⟩ (1 / 10 ^ 12) 50 10 = some 1 ∧
    zoneGamma ⟨0, 100, 0, 20, 10, 20, 1, 4, true⟩ (1 / 10 ^ 12) 50 20 = some 0 ∧
    zoneGamma ⟨0, 100, 0, 20, 10, 20, 1, 4, true⟩ (1 / 10 ^ 12) 100 10 = some 0 := by
  have h : Zones.Ok ⟨0, 100, 0, 20, 10, 20, 1, 4, true⟩ := ⟨by norm_num, by norm_num, by norm_num, by norm_num, by norm_num⟩
  refine ⟨h, (zone_weights h (by norm_num) 50 10).1 (by norm_num) (by norm_num) (Or.inr (by norm_num)), ?_, ?_⟩
  · exact (zone_weights h (by norm_num) 50 20).2.2.2.1 (by norm_num) (Or.inr (by norm_num)) (Or.inr (by norm_num))
  · exact (zone_weights h (by norm_num) 100 10).2.2.1 (by norm_num) (by norm_num) (by norm_num)

theorem nudged_mem {tiny g t v : ℝ} (ht : 0 ≤ t ∧ t ≤ 1) (hv : 0 ≤ v ∧ v ≤ 1) (hg : 0 ≤ g ∧ g ≤ 1) :
    0 ≤ nudgedVof tiny g t v ∧ nudgedVof tiny g t v ≤ 1 := by
  have hc : 0 ≤ combineLinear g t v ∧ combineLinear g t v ≤ 1 := by
    obtain ⟨a, b, _⟩ := combine_between (a := t) (b := v) hg.1 hg.2
    exact ⟨le_trans (le_min ht.1 hv.1) a, le_trans b (max_le ht.2 hv.2)⟩
  unfold nudgedVof
  simp only
  split
  · exact ⟨zero_le_one, le_rfl⟩
  · split
    · exact ⟨le_rfl, zero_le_one⟩
    · exact hc

/-- C58. The volume fraction stays in [0,1]. -/
theorem relax_vof_mem {rho1 rho2 eps tiny r g : ℝ} {terrain inBeach : Bool} {tVof tVel : ℝ} {s : CellState}
    (hr : 0 ≤ r ∧ r ≤ 1) (hg : 0 ≤ g ∧ g ≤ 1) (ht : 0 ≤ tVof ∧ tVof ≤ 1) (hv : 0 ≤ s.vof ∧ s.vof ≤ 1) :
    0 ≤ (relaxCell rho1 rho2 eps tiny r g terrain inBeach tVof tVel s).vof ∧
      (relaxCell rho1 rho2 eps tiny r g terrain inBeach tVof tVel s).vof ≤ 1 := by
  unfold relaxCell
  split
  · exact hv
  · have hn := nudged_mem (tiny := tiny) ht hv hg
    simp only
    generalize nudgedVof tiny g tVof s.vof = n at *
    have e : s.vof + r * (n - s.vof) = (1 - r) * s.vof + r * n := by ring
    rw [e]
    constructor
    · have := mul_nonneg (sub_nonneg.mpr hr.2) hv.1
      have := mul_nonneg hr.1 hn.1
      linarith
    · nlinarith [mul_nonneg (sub_nonneg.mpr hr.2) (sub_nonneg.mpr hv.2), mul_nonneg hr.1 (sub_nonneg.mpr hn.2)]

/-- C58. Outside the zones and near terrain nothing changes; elsewhere the density is that of the new volume fraction. -/
theorem relax_density {rho1 rho2 eps tiny r g : ℝ} {terrain inBeach : Bool} {tVof tVel : ℝ} {s : CellState} :
    ((g ≥ 1 - eps ∨ terrain = true) → relaxCell rho1 rho2 eps tiny r g terrain inBeach tVof tVel s = s) ∧
    (¬ (g ≥ 1 - eps ∨ terrain = true) → (relaxCell rho1 rho2 eps tiny r g terrain inBeach tVof tVel s).rho =
      rho1 * (relaxCell rho1 rho2 eps tiny r g terrain inBeach tVof tVel s).vof +
        rho2 * (1 - (relaxCell rho1 rho2 eps tiny r g terrain inBeach tVof tVel s).vof)) := by
  have e : (g ≥ 1 - eps ∨ terrain = true) ↔ (g + eps ≥ 1 ∨ terrain = true) := by
    constructor <;> rintro (h | h) <;> first | exact Or.inr h | exact Or.inl (by linarith)
  rw [e]
  unfold relaxCell
  constructor
  · intro h; rw [if_pos h]
  · intro h; rw [if_neg h]

/-- C58, the part that holds: where no liquid is added the velocity moves towards the target and not beyond. Missing: cells
that gain liquid, see `relax_overshoots`. -/
theorem relax_velocity_partial {rho1 rho2 eps tiny r g : ℝ} {terrain inBeach : Bool} {tVof tVel : ℝ} {s : CellState}
    (h1 : 0 < rho1) (h2 : 0 < rho2) (hr : 0 ≤ r ∧ r ≤ 1) (hg : 0 ≤ g ∧ g ≤ 1) (ht : 0 ≤ tVof ∧ tVof ≤ 1)
    (hv : 0 ≤ s.vof ∧ s.vof ≤ 1) (hd : nudgedVof tiny g tVof s.vof ≤ s.vof) :
    ∃ w, 0 ≤ w ∧ w ≤ 1 ∧
      (relaxCell rho1 rho2 eps tiny r g terrain inBeach tVof tVel s).vel = (1 - w) * s.vel + w * tVel := by
  have hm := relax_vof_mem (rho1 := rho1) (rho2 := rho2) (eps := eps) (tiny := tiny) (terrain := terrain)
    (inBeach := inBeach) (tVel := tVel) (s := s) hr hg ht hv
  unfold relaxCell at hm ⊢
  split
  · exact ⟨0, le_rfl, zero_le_one, by ring⟩
  · rename_i hz
    rw [if_neg hz] at hm
    simp only at hm ⊢
    rw [max_eq_left (by linarith : nudgedVof tiny g tVof s.vof - s.vof ≤ 0)]
    generalize nudgedVof tiny g tVof s.vof = n at *
    generalize s.vof + r * (n - s.vof) = a at *
    have hf : ∀ f : ℝ, 0 ≤ f → f ≤ 1 → ∃ w, 0 ≤ w ∧ w ≤ 1 ∧
        (rho1 * (a * (s.vel + r * f * (combineLinear g tVel s.vel - s.vel)) + r * f * 0 * (tVel - s.vel)) +
          rho2 * (1 - a) * s.vel) / (rho1 * a + rho2 * (1 - a)) = (1 - w) * s.vel + w * tVel := by
      intro f f0 f1
      have hden : 0 < rho1 * a + rho2 * (1 - a) := by
        rcases hm.1.lt_or_eq with h | h
        · have := mul_pos h1 h
          have := mul_nonneg h2.le (sub_nonneg.mpr hm.2)
          linarith
        · rw [← h]; linarith
      have hq : 0 ≤ r * f * (1 - g) ∧ r * f * (1 - g) ≤ 1 := by
        have g0 := sub_nonneg.mpr hg.2
        have := mul_nonneg hr.1 f0
        refine ⟨mul_nonneg this g0, ?_⟩
        have k1 : r * f ≤ 1 := mul_le_one₀ hr.2 f0 f1
        exact mul_le_one₀ k1 g0 (by linarith [hg.1])
      have hra : 0 ≤ rho1 * a := mul_nonneg h1.le hm.1
      refine ⟨rho1 * a * (r * f * (1 - g)) / (rho1 * a + rho2 * (1 - a)), ?_, ?_, ?_⟩
      · exact div_nonneg (mul_nonneg hra hq.1) hden.le
      · rw [div_le_one hden]
        have k1 := mul_le_mul_of_nonneg_left hq.2 hra
        have k2 := mul_nonneg h2.le (sub_nonneg.mpr hm.2)
        linarith
      · unfold combineLinear
        field_simp
        ring
    cases inBeach
    · simp only [Bool.false_eq_true, if_false]
      split
      · exact hf 1 zero_le_one le_rfl
      · exact hf 0 le_rfl zero_le_one
    · exact hf 1 zero_le_one le_rfl

/-- C58 is false of the code: a dry cell at rest at the start of the zone (weight 0) whose target is full of liquid moving
with velocity 1 gets velocity 2: the added liquid is counted twice. -/
theorem relax_overshoots :
    (relaxCell 1000 1 (1 / 10 ^ 15) (1 / 10 ^ 12) 1 0 false false 1 1 ⟨0, 0, 1⟩).vel = 2 := by
  norm_num [relaxCell, nudgedVof, combineLinear]

/-- Inside the zone as well: weight 1/2, half of the target volume added, density ratio 1000: about 1.5 of the target. -/
theorem relax_overshoots_inside :
    (relaxCell 1000 1 (1 / 10 ^ 15) (1 / 10 ^ 12) 1 (1 / 2) false false 1 1 ⟨0, 0, 1⟩).vel = 1500 / 1001 := by
  norm_num [relaxCell, nudgedVof, combineLinear]

/-! ## Examples -/

example : ∃ g, gammaGenerate 1 2 = some g ∧ 0 < g ∧ g < 1 := by
  obtain ⟨g, h1, h2, h3, h4, _, h6, _⟩ := generate_weight (len := 2) (by norm_num)
  refine ⟨g 1, h1 1, ?_, ?_⟩
  · have := h6 0 1 le_rfl one_pos (by norm_num)
    rwa [h3 0 le_rfl] at this
  · have := h6 1 2 zero_le_one (by norm_num) le_rfl
    rwa [h4 2 le_rfl] at this

example : freeSurfaceToVof (1 / 4) 0 1 = 3 / 4 := by
  rw [free_surface_vof one_pos]
  norm_num

/-- A cell that loses liquid: the hypotheses of `relax_velocity_partial` are met and the cell changes. -/
example : nudgedVof (1 / 10 ^ 12) (1 / 2) (1 / 2) 1 ≤ 1 ∧
    (relaxCell 1000 1 (1 / 10 ^ 15) (1 / 10 ^ 12) 1 (1 / 2) false false (1 / 2) 1 ⟨1, 0, 1000⟩).vel = 1500 / 3001 * 1 := by
  norm_num [relaxCell, nudgedVof, combineLinear]

end AmrWind.Waves
