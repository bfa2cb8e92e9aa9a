import Mathlib.Tactic.Positivity
import Mathlib.Tactic.LinearCombination
import Verif.Turb.AxellModel

/-!
# C86: the RANS model of Axell and Liungman
-/

set_option linter.unusedSectionVars false

namespace AmrWind.Axell

open AmrWind

/-! ## Richardson number and stability functions -/

/-- C86: the turbulent Richardson number is `N² l² / (Cmu⁶ k)`. -/
theorem rt_spec {Cmu tke l : ℝ} (hC : 0 < Cmu) (hk : 0 < tke) (hl : 0 < l) (strat : ℝ) :
    rtRaw Cmu tke strat l = strat * l ^ 2 / (Cmu ^ 6 * tke) := by
  unfold rtRaw
  have e1 : Cmu ^ (3 : ℝ) = Cmu ^ 3 := by exact_mod_cast Real.rpow_natCast Cmu 3
  have e2 : (tke ^ (3 / 2 : ℝ)) ^ 2 = tke ^ 3 := by
    rw [← Real.rpow_natCast, ← Real.rpow_mul hk.le]; norm_num
  have p : 0 < tke ^ (3 / 2 : ℝ) := Real.rpow_pos_of_pos hk _
  rw [Real.rpow_two, e1, div_pow, div_pow, mul_pow, e2]
  field_simp

theorem rtClip_eq (rt : ℝ) : rtClip rt = if rt > -1 then rt else (3 * rt + 1) / (1 - rt) := by
  unfold rtClip
  by_cases h : rt > -1
  · rw [if_pos h, if_pos h]
  · rw [if_neg h, if_neg h]
    have h1 : rt ≤ -1 := not_lt.mp h
    have hd : 1 - rt ≠ 0 := by linarith
    have hd2 : rt + -3 - 2 * -1 ≠ 0 := by linarith
    have e : rt - ((rt - -1) ^ (2 : ℝ) / (rt + -3 - 2 * -1)) = (3 * rt + 1) / (1 - rt) := by
      rw [Real.rpow_two, eq_div_iff hd]
      have q : (rt - -1) ^ 2 / (rt + -3 - 2 * -1) * (1 - rt) = -(rt + 1) ^ 2 := by
        rw [div_mul_eq_mul_div, div_eq_iff hd2]; ring
      rw [sub_mul, q]; ring
    rw [e]
    apply max_eq_right
    rw [le_div_iff₀ (by linarith)]
    nlinarith [sq_nonneg (rt + 1)]

/-- C86: the clipped number stays above -3, is not changed above -1, and is a monotone function of the raw one. -/
theorem clip_spec (rt : ℝ) : -3 < rtClip rt ∧ rt ≤ rtClip rt ∧ (-1 ≤ rt → rtClip rt = rt) ∧ (rt ≤ 0 → rtClip rt ≤ 0) ∧
    ∀ rt', rt ≤ rt' → rtClip rt ≤ rtClip rt' := by
  have base : ∀ r : ℝ, r ≤ -1 → (-3 < (3 * r + 1) / (1 - r) ∧ r ≤ (3 * r + 1) / (1 - r) ∧ (3 * r + 1) / (1 - r) ≤ -1) := by
    intro r hr
    have hd : 0 < 1 - r := by linarith
    refine ⟨?_, ?_, ?_⟩
    · rw [lt_div_iff₀ hd]; linarith
    · rw [le_div_iff₀ hd]; nlinarith [sq_nonneg (r + 1)]
    · rw [div_le_iff₀ hd]; linarith
  rw [rtClip_eq]
  by_cases h : rt > -1
  · rw [if_pos h]
    refine ⟨by linarith, le_rfl, fun _ => rfl, fun h => h, fun rt' h' => ?_⟩
    rw [rtClip_eq, if_pos (by linarith)]; exact h'
  · rw [if_neg h]
    have h1 : rt ≤ -1 := not_lt.mp h
    obtain ⟨a, b, c⟩ := base rt h1
    refine ⟨a, b, fun h2 => ?_, fun _ => by linarith, fun rt' h' => ?_⟩
    · have : rt = -1 := le_antisymm h1 h2
      rw [this]; norm_num
    · rw [rtClip_eq]
      by_cases h2 : rt' > -1
      · rw [if_pos h2]; linarith
      · rw [if_neg h2]
        have h3 : rt' ≤ -1 := not_lt.mp h2
        rw [div_le_div_iff₀ (by linarith) (by linarith)]
        nlinarith

/-- C86: for every clipped Richardson number the two stability functions and the Prandtl number are positive; stable air
mixes momentum better than heat (Prandtl number above one), unstable air heat better; and the Prandtl number never exceeds
`0.193/0.0302`. -/
theorem stability_spec {Cmu rt : ℝ} (hC : 324 / 1000 ≤ Cmu) (h : -3 < rt) : 0 < cmuRt Cmu rt ∧ 0 < cmuPrimeRt Cmu rt ∧
    0 < prandtlRt rt ∧ (0 ≤ rt → 1 ≤ prandtlRt rt) ∧ (rt ≤ 0 → prandtlRt rt ≤ 1) ∧ prandtlRt rt ≤ 193 / 1000 / (302 / 10000) ∧
    (cmuRt Cmu 0 = Cmu ∧ cmuPrimeRt Cmu 0 = Cmu ∧ prandtlRt 0 = 1) := by
  have d1 : 0 < 1 + 302 / 10000 * rt := by linarith
  have d2 : 0 < 1 + 277 / 1000 * rt := by linarith
  have d3 : 0 < 1 + 308 / 1000 * rt + 837 / 100000 * rt ^ 2 := by nlinarith [sq_nonneg (rt + 3)]
  refine ⟨?_, ?_, ?_, ?_, ?_, ?_, ?_, ?_, ?_⟩
  · unfold cmuRt; rw [Real.rpow_two]; exact div_pos (by linarith) d3
  · unfold cmuPrimeRt; exact div_pos (by linarith) d2
  · unfold prandtlRt; exact div_pos (by linarith) d1
  · intro h0; unfold prandtlRt; rw [le_div_iff₀ d1]; linarith
  · intro h0; unfold prandtlRt; rw [div_le_iff₀ d1]; linarith
  · unfold prandtlRt; rw [div_le_iff₀ d1]; linarith
  · unfold cmuRt; simp
  · unfold cmuPrimeRt; simp
  · unfold prandtlRt; simp

/-- C86 (part): the buoyancy production uses a diffusivity that matches the heat flux: the ratio of the two functions is the
Prandtl number up to 1 % between -1 and 5 (the constants are rounded), for the default coefficient. -/
theorem buoyancy_heat_partial {rt : ℝ} (h1 : -1 ≤ rt) (h2 : rt ≤ 5) :
    |cmuRt (556 / 1000) rt / cmuPrimeRt (556 / 1000) rt - prandtlRt rt| ≤ 1 / 100 := by
  have d1 : 0 < 1 + 302 / 10000 * rt := by linarith
  have d2 : 0 < 1 + 277 / 1000 * rt := by linarith
  have d3 : 0 < 1 + 308 / 1000 * rt + 837 / 100000 * rt ^ 2 := by nlinarith [sq_nonneg (rt + 1)]
  have e : cmuRt (556 / 1000) rt / cmuPrimeRt (556 / 1000) rt - prandtlRt rt =
      ((1 + 108 / 556 * rt) * (1 + 277 / 1000 * rt) * (1 + 302 / 10000 * rt) -
        (1 + 193 / 1000 * rt) * (1 + 308 / 1000 * rt + 837 / 100000 * rt ^ 2)) /
      ((1 + 308 / 1000 * rt + 837 / 100000 * rt ^ 2) * (1 + 302 / 10000 * rt)) := by
    unfold cmuRt cmuPrimeRt prandtlRt
    rw [Real.rpow_two, div_div_eq_mul_div, div_mul_eq_mul_div, div_div, div_sub_div _ _ (by positivity) d1.ne',
      div_eq_div_iff (by positivity) (by positivity)]
    ring
  rw [e, abs_div, abs_of_pos (mul_pos d3 d1), div_le_iff₀ (mul_pos d3 d1), abs_le]
  constructor <;> nlinarith [mul_nonneg (by linarith : 0 ≤ rt + 1) (by linarith : 0 ≤ 5 - rt), sq_nonneg (rt + 1), sq_nonneg (rt - 5),
    mul_nonneg (mul_nonneg (by linarith : 0 ≤ rt + 1) (by linarith : 0 ≤ 5 - rt)) (by linarith : 0 ≤ rt + 1)]

/-! ## Length scales -/

/-- C86: the length scale of the surface layer grows like `0.41 z` from the ground and stays below 30 m. -/
theorem shear_length_spec {z : ℝ} (hz : 0 < z) : 0 < lsShear z ∧ lsShear z < 41 / 100 * z ∧ lsShear z < 30 ∧
    (1 / lsShear z = 1 / 30 + 1 / (41 / 100 * z)) ∧ ∀ z', z ≤ z' → lsShear z ≤ lsShear z' := by
  have d : 0 < 30 + 41 / 100 * z := by positivity
  unfold lsShear
  refine ⟨by positivity, ?_, ?_, ?_, fun z' h => ?_⟩
  · rw [div_lt_iff₀ d]; nlinarith [sq_nonneg z, mul_pos hz hz]
  · rw [div_lt_iff₀ d]; nlinarith
  · field_simp; ring
  · rw [div_le_div_iff₀ d (by linarith)]; nlinarith

/-- The coefficients a user may choose. -/
structure Coef.Ok (c : Coef) : Prop where
  Cmu : 324 / 1000 ≤ c.Cmu
  stable : 0 < c.CbStable
  unstable : 0 < c.CbUnstable
  tiny : 0 < c.tiny

/-- A cell of the flow. -/
structure Cell.Ok (x : Cell) : Prop where
  rho : 0 < x.rho
  tke : 0 < x.tke
  z : 0 < x.z
  old : 0 ≤ x.old
  strain : 0 ≤ x.strain

/-- The default coefficients. -/
noncomputable def dflt : Coef := ⟨556 / 1000, 556 / 1000, 1 / 4, 35 / 100, 1, 0, 2000, 1 / 2 ^ 52⟩

theorem dflt_ok : dflt.Ok := ⟨by norm_num [dflt], by norm_num [dflt], by norm_num [dflt], by norm_num [dflt]⟩

theorem lsBuoy_pos {c : Coef} (hc : c.Ok) {x : Cell} (hx : x.Ok) : 0 < lsBuoy c x := by
  have := hc.stable
  have := hx.tke
  have h : 0 < max x.strat c.tiny := lt_max_of_lt_right hc.tiny
  unfold lsBuoy
  have := Real.sqrt_pos.mpr (div_pos hx.tke h)
  positivity

/-- C86: in stable air the length scale is at most that of the surface layer, at most `Cb √k / N` and at most
`√(Cmu k) / N`; in unstable air it is at least that of the surface layer and at most `√(1 + 3 Cmu⁶/Cb²)` times it; it is
always positive. -/
theorem length_spec {c : Coef} (hc : c.Ok) {x : Cell} (hx : x.Ok) {rt : ℝ} (hr : -3 < rt) (hs : x.strat ≤ 0 → rt ≤ 0) :
    0 < lsTurb c x rt ∧
    (0 < x.strat → lsTurb c x rt ≤ lsShear x.z ∧ lsTurb c x rt ≤ Real.sqrt (c.Cmu * x.tke / x.strat) ∧
      (c.tiny ≤ x.strat → lsTurb c x rt ≤ c.CbStable * Real.sqrt (x.tke / x.strat))) ∧
    (x.strat ≤ 0 → lsShear x.z ≤ lsTurb c x rt ∧ lsTurb c x rt ≤ lsShear x.z * Real.sqrt (1 + 3 * c.Cmu ^ 6 / c.CbUnstable ^ 2)) := by
  obtain ⟨s0, _⟩ := shear_length_spec hx.z
  have b0 := lsBuoy_pos hc hx
  have hC : 0 < c.Cmu := by have := hc.Cmu; linarith
  have hk := hx.tke
  have hu := hc.unstable
  set s := lsShear x.z
  set b := lsBuoy c x with hb
  unfold lsTurb
  by_cases h : x.strat > 0
  · rw [if_pos h]
    have e : Real.sqrt ((s * b) ^ (2 : ℝ) / (s ^ (2 : ℝ) + b ^ (2 : ℝ))) = Real.sqrt ((s * b) ^ 2 / (s ^ 2 + b ^ 2)) := by
      simp only [Real.rpow_two]
    rw [e]
    have hd : 0 < s ^ 2 + b ^ 2 := by positivity
    have l1 : Real.sqrt ((s * b) ^ 2 / (s ^ 2 + b ^ 2)) ≤ s := by
      apply Real.sqrt_le_iff.mpr ⟨s0.le, ?_⟩
      rw [div_le_iff₀ hd]; nlinarith [sq_nonneg (s ^ 2)]
    have l2 : Real.sqrt ((s * b) ^ 2 / (s ^ 2 + b ^ 2)) ≤ b := by
      apply Real.sqrt_le_iff.mpr ⟨b0.le, ?_⟩
      rw [div_le_iff₀ hd]; nlinarith [sq_nonneg (b ^ 2)]
    refine ⟨?_, fun _ => ⟨le_trans (min_le_left _ _) l1, min_le_right _ _, fun ht => ?_⟩, fun h' => absurd h (not_lt.mpr h')⟩
    · apply lt_min
      · apply Real.sqrt_pos.mpr; positivity
      · apply Real.sqrt_pos.mpr; positivity
    · refine le_trans (min_le_left _ _) (le_trans l2 (le_of_eq ?_))
      rw [hb]; unfold lsBuoy; rw [max_eq_left ht]
  · rw [if_neg h]
    have h' : x.strat ≤ 0 := not_lt.mp h
    have r0 := hs h'
    have e1 : c.Cmu ^ (6 : ℝ) = c.Cmu ^ 6 := by exact_mod_cast Real.rpow_natCast c.Cmu 6
    have e2 : c.CbUnstable ^ (-2 : ℝ) = 1 / c.CbUnstable ^ 2 := by
      rw [Real.rpow_neg hu.le, Real.rpow_two, one_div]
    rw [e1, e2]
    have q : 0 < c.Cmu ^ 6 * (1 / c.CbUnstable ^ 2) := by positivity
    have g1 : 1 ≤ 1 - c.Cmu ^ 6 * (1 / c.CbUnstable ^ 2) * rt := by nlinarith
    have g2 : 1 - c.Cmu ^ 6 * (1 / c.CbUnstable ^ 2) * rt ≤ 1 + 3 * c.Cmu ^ 6 / c.CbUnstable ^ 2 := by
      have : 3 * c.Cmu ^ 6 / c.CbUnstable ^ 2 = 3 * (c.Cmu ^ 6 * (1 / c.CbUnstable ^ 2)) := by ring
      rw [this]; nlinarith
    have g3 : 1 ≤ Real.sqrt (1 - c.Cmu ^ 6 * (1 / c.CbUnstable ^ 2) * rt) := Real.one_le_sqrt.mpr g1
    refine ⟨by positivity, fun h2 => absurd h2 h, fun _ => ⟨?_, ?_⟩⟩
    · nlinarith
    · exact mul_le_mul_of_nonneg_left (Real.sqrt_le_sqrt g2) s0.le

/-! ## The update -/

/-- C86: a cell with positive energy gets a positive length scale, a non-negative viscosity (zero in terrain), a buoyancy
production that takes energy in stable and gives it in unstable air, and a shear production `μₜ |S|²`. -/
theorem update_spec {c : Coef} (hc : c.Ok) {x : Cell} (hx : x.Ok) : ∃ o, update c x = some o ∧ 0 < o.len ∧ 0 ≤ o.mu ∧
    (x.blank = true → o.mu = 0 ∧ o.buoy = 0) ∧ (x.blank = false → 0 < o.mu) ∧ (0 ≤ x.strat → o.buoy ≤ 0) ∧ (x.strat ≤ 0 → 0 ≤ o.buoy) ∧
    o.shear = o.mu * x.strain ^ 2 := by
  have hC : 0 < c.Cmu := by have := hc.Cmu; linarith
  have hl : 0 < x.old + c.tiny := by have := hx.old; have := hc.tiny; linarith
  have hn : ¬ (x.tke < 0 ∨ (x.tke = 0 ∧ ¬ neutral c x)) := by
    rintro (h | ⟨h, _⟩)
    · exact absurd hx.tke (not_lt.mpr h.le)
    · exact hx.tke.ne' h
  set rt0 := rtClip (rtRaw c.Cmu x.tke x.strat (x.old + c.tiny)) with hrt
  have r3 : -3 < rt0 := (clip_spec _).1
  have rs : x.strat ≤ 0 → rt0 ≤ 0 := by
    intro h
    apply (clip_spec _).2.2.2.1
    rw [rt_spec hC hx.tke hl]
    have := hx.tke
    apply div_nonpos_of_nonpos_of_nonneg _ (by positivity)
    exact mul_nonpos_of_nonpos_of_nonneg h (by positivity)
  have L := length_spec hc hx r3 rs
  have S := shear_length_spec hx.z
  have sk := Real.sqrt_pos.mpr hx.tke
  have hρ := hx.rho
  have key : ∀ (len rt : ℝ), 0 < len → -3 < rt → 0 < x.rho * cmuRt c.Cmu rt * len * Real.sqrt x.tke ∧
      0 < x.rho * cmuPrimeRt c.Cmu rt * len * Real.sqrt x.tke := by
    intro len rt h1 h2
    obtain ⟨a, b, _⟩ := stability_spec hc.Cmu h2
    exact ⟨by positivity, by positivity⟩
  have fin : ∀ (len rt : ℝ), 0 < len → -3 < rt → ∃ o, (some (⟨len, x.rho * cmuRt c.Cmu rt * len * Real.sqrt x.tke * (if x.blank then 0 else 1),
      -(x.rho * cmuPrimeRt c.Cmu rt * len * Real.sqrt x.tke * (if x.blank then 0 else 1)) * x.strat,
      x.strain * (x.strain * (x.rho * cmuRt c.Cmu rt * len * Real.sqrt x.tke * (if x.blank then 0 else 1)))⟩ : Out)) = some o ∧ 0 < o.len ∧ 0 ≤ o.mu ∧
      (x.blank = true → o.mu = 0 ∧ o.buoy = 0) ∧ (x.blank = false → 0 < o.mu) ∧ (0 ≤ x.strat → o.buoy ≤ 0) ∧ (x.strat ≤ 0 → 0 ≤ o.buoy) ∧
      o.shear = o.mu * x.strain ^ 2 := by
    intro len rt h1 h2
    obtain ⟨a, b⟩ := key len rt h1 h2
    refine ⟨_, rfl, h1, ?_, ?_, ?_, ?_, ?_, ?_⟩
    · cases x.blank <;> simp [a.le]
    · intro hb; simp [hb]
    · intro hb; simpa [hb] using a
    · intro hs
      cases x.blank
      · simp only [Bool.false_eq_true, if_false, mul_one]
        have := mul_nonneg b.le hs; linarith
      · simp
    · intro hs
      cases x.blank
      · simp only [Bool.false_eq_true, if_false, mul_one]
        have := mul_nonneg b.le (neg_nonneg.mpr hs); linarith
      · simp
    · ring
  unfold update
  rw [if_neg hn]
  by_cases hN : neutral c x
  · simp only [if_pos hN]
    exact fin _ _ S.1 (by norm_num)
  · simp only [if_neg hN]
    exact fin _ _ L.1 r3

/-- A stable cell 100 m above ground: the hypotheses can be met, and it is not in the neutral branch with a heat flux. -/
example : (⟨1, 1 / 2, 1 / 10000, 100, 10, 1 / 10, false⟩ : Cell).Ok ∧ ¬ neutral { dflt with surfFlux := 1 / 10 } ⟨1, 1 / 2, 1 / 10000, 100, 10, 1 / 10, false⟩ := by
  refine ⟨⟨by norm_num, by norm_num, by norm_num, by norm_num, by norm_num⟩, ?_⟩
  rintro ⟨h, _⟩
  norm_num [abs_of_pos] at h

/-- C86: the effective diffusivity of heat is the molecular one plus the viscosity over the Prandtl number, never less. -/
theorem heat_spec {Cmu alpha tke strat len mu : ℝ} (hC : 324 / 1000 ≤ Cmu) (hm : 0 ≤ mu) :
    alpha ≤ alphaEff Cmu alpha tke strat len mu ∧ (strat = 0 → alphaEff Cmu alpha tke strat len mu = alpha + mu) := by
  unfold alphaEff
  have := (stability_spec hC (clip_spec (rtRaw Cmu tke strat len)).1).2.2.1
  refine ⟨by have := div_nonneg hm this.le; linarith, fun h => ?_⟩
  have e : rtRaw Cmu tke strat len = 0 := by unfold rtRaw; rw [h, mul_zero]
  rw [e, rtClip_eq, if_pos (by norm_num), (stability_spec hC (by norm_num : (-3 : ℝ) < 0)).2.2.2.2.2.2.2.2, div_one]

/-- C86 fails for cells without energy: 0/0 unless the neutral branch replaces the result. -/
theorem zero_energy_undefined {c : Coef} {x : Cell} (h : x.tke = 0) (hn : ¬ neutral c x) : update c x = none := by
  unfold update; rw [if_pos (Or.inr ⟨h, hn⟩)]

/-- C86: exactly which cells without energy have an update: those below the switching height while the surface flux is smaller than
1e-5 in size. -/
theorem zero_energy_iff {c : Coef} {x : Cell} (h : x.tke = 0) :
    (update c x).isSome ↔ |c.surfFlux| < 1 / 100000 ∧ x.z ≤ c.switch := by
  have hn : neutral c x ↔ |c.surfFlux| < 1 / 100000 ∧ x.z ≤ c.switch := Iff.rfl
  rw [← hn]
  by_cases q : neutral c x
  · have : ¬ (x.tke < 0 ∨ (x.tke = 0 ∧ ¬ neutral c x)) := by
      rintro (h' | ⟨_, h'⟩)
      · linarith
      · exact h' q
    unfold update
    rw [if_neg this]
    simpa using q
  · rw [zero_energy_undefined h q]
    simpa using q

/-- C86 fails for two inputs: `Cmu_prime` and `prandtl` change nothing. -/
theorem inputs_ignored (c : Coef) (a b : ℝ) (x : Cell) : update { c with cmuPrime := a, prandtl := b } x = update c x := by
  rfl

/-- C86 fails for the stable layer above a boundary layer without surface heat flux: the energy equation then treats the air
as neutral (Prandtl number one, viscosity without damping), while the heat equation uses the Prandtl number of the stratified
air, so the energy taken out by buoyancy is not the work of the heat flux. -/
theorem neutral_mismatch {c : Coef} (hc : c.Ok) {x : Cell} (hx : x.Ok) (hb : x.blank = false) (hn : neutral c x) (hs : 0 < x.strat) (alpha : ℝ) :
    ∃ o, update c x = some o ∧ o.len = lsShear x.z ∧ o.buoy = -o.mu * x.strat ∧
    o.buoy < -(alphaEff c.Cmu alpha x.tke x.strat o.len o.mu - alpha) * x.strat := by
  have hC : 0 < c.Cmu := by have := hc.Cmu; linarith
  have hnn : ¬ (x.tke < 0 ∨ (x.tke = 0 ∧ ¬ neutral c x)) := by
    rintro (h | ⟨h, _⟩)
    · exact absurd hx.tke (not_lt.mpr h.le)
    · exact hx.tke.ne' h
  obtain ⟨s0, _⟩ := shear_length_spec hx.z
  have sk := Real.sqrt_pos.mpr hx.tke
  have hρ := hx.rho
  obtain ⟨_, _, _, _, _, _, z1, z2, _⟩ := stability_spec hc.Cmu (by norm_num : (-3 : ℝ) < 0)
  have hm : 0 < x.rho * c.Cmu * lsShear x.z * Real.sqrt x.tke := by positivity
  refine ⟨⟨lsShear x.z, x.rho * c.Cmu * lsShear x.z * Real.sqrt x.tke, -(x.rho * c.Cmu * lsShear x.z * Real.sqrt x.tke) * x.strat,
    x.strain * (x.strain * (x.rho * c.Cmu * lsShear x.z * Real.sqrt x.tke))⟩, ?_, rfl, rfl, ?_⟩
  · unfold update
    rw [if_neg hnn]
    simp only [if_pos hn, z1, z2, hb, Bool.false_eq_true, if_false, mul_one]
  · dsimp only
    set mu := x.rho * c.Cmu * lsShear x.z * Real.sqrt x.tke
    have hr : 0 < rtRaw c.Cmu x.tke x.strat (lsShear x.z) := by
      rw [rt_spec hC hx.tke s0]; have := hx.tke; positivity
    have e : rtClip (rtRaw c.Cmu x.tke x.strat (lsShear x.z)) = rtRaw c.Cmu x.tke x.strat (lsShear x.z) := by
      rw [rtClip_eq, if_pos (by linarith)]
    unfold alphaEff
    rw [e]
    set r := rtRaw c.Cmu x.tke x.strat (lsShear x.z)
    have hp : 1 < prandtlRt r := by
      unfold prandtlRt
      rw [lt_div_iff₀ (by linarith)]; linarith
    have : mu / prandtlRt r < mu := div_lt_self hm hp
    nlinarith

/-- The default run: no heat flux, a cell at 800 m in an inversion. -/
example : neutral dflt ⟨1, 1 / 10, 1 / 1000, 800, 10, 0, false⟩ := by
  refine ⟨?_, ?_⟩ <;> norm_num [dflt]

/-- C86 fails for the first update and the first after a regrid: in unstable air the new length depends on the value in the
array, which is then zero instead of the length of the step before. -/
theorem first_length_depends {c : Coef} (hc : c.Ok) {x : Cell} (hx : x.Ok) (hn : ¬ neutral c x) (hs : x.strat < 0) {y : ℝ} (hy : x.old < y)
    (hc1 : -1 < rtRaw c.Cmu x.tke x.strat (y + c.tiny)) : ∃ o o', update c x = some o ∧ update c { x with old := y } = some o' ∧ o.len < o'.len := by
  have hC : 0 < c.Cmu := by have := hc.Cmu; linarith
  have hk := hx.tke
  have ht := hc.tiny
  have ho := hx.old
  have hnn : ¬ (x.tke < 0 ∨ (x.tke = 0 ∧ ¬ neutral c x)) := by
    rintro (h | ⟨h, _⟩)
    · exact absurd hx.tke (not_lt.mpr h.le)
    · exact hx.tke.ne' h
  have hn' : ¬ neutral c { x with old := y } := hn
  have hnn' : ¬ (({ x with old := y } : Cell).tke < 0 ∨ (({ x with old := y } : Cell).tke = 0 ∧ ¬ neutral c { x with old := y })) := hnn
  have r : rtRaw c.Cmu x.tke x.strat (y + c.tiny) < rtRaw c.Cmu x.tke x.strat (x.old + c.tiny) := by
    rw [rt_spec hC hk (by linarith), rt_spec hC hk (by linarith)]
    apply div_lt_div_of_pos_right _ (by positivity)
    apply mul_lt_mul_of_neg_left _ hs
    exact pow_lt_pow_left₀ (by linarith) (by linarith) two_ne_zero
  have e1 : rtClip (rtRaw c.Cmu x.tke x.strat (y + c.tiny)) = rtRaw c.Cmu x.tke x.strat (y + c.tiny) := by rw [rtClip_eq, if_pos hc1]
  have e2 : rtClip (rtRaw c.Cmu x.tke x.strat (x.old + c.tiny)) = rtRaw c.Cmu x.tke x.strat (x.old + c.tiny) := by
    rw [rtClip_eq, if_pos (by linarith)]
  refine ⟨_, _, by unfold update; rw [if_neg hnn], by unfold update; rw [if_neg hnn'], ?_⟩
  simp only [if_neg hn, if_neg hn']
  unfold lsTurb
  have s1 : ¬ (x.strat > 0) := not_lt.mpr hs.le
  simp only [if_neg s1]
  rw [e1, e2]
  have s0 := (shear_length_spec hx.z).1
  apply mul_lt_mul_of_pos_left _ s0
  have q : 0 < c.Cmu ^ (6 : ℝ) * c.CbUnstable ^ (-2 : ℝ) := mul_pos (Real.rpow_pos_of_pos hC _) (Real.rpow_pos_of_pos hc.unstable _)
  have rn : rtRaw c.Cmu x.tke x.strat (x.old + c.tiny) ≤ 0 := by
    rw [rt_spec hC hk (by linarith)]
    apply div_nonpos_of_nonpos_of_nonneg _ (by positivity)
    exact mul_nonpos_of_nonpos_of_nonneg hs.le (by positivity)
  apply Real.sqrt_lt_sqrt
  · nlinarith
  · nlinarith

/-- C86: the height is that of the cell centre; over terrain that above the ground, at least half a cell. -/
theorem height_spec (lo dz ht : ℝ) (k : ℤ) : height lo dz none k = lo + (k + 1 / 2) * dz ∧ 1 / 2 * dz ≤ height lo dz (some ht) k ∧
    (1 / 2 * dz ≤ lo + (k + 1 / 2) * dz - ht → height lo dz (some ht) k = lo + (k + 1 / 2) * dz - ht) :=
  ⟨rfl, le_max_right _ _, fun h => max_eq_left h⟩

/-- C86 fails when the domain does not start at zero: without terrain the height above ground counts from zero, so the first
cell above ground at `lo` is given the height `lo + dz/2` instead of `dz/2`. -/
theorem height_absolute {lo : ℝ} (h : lo ≠ 0) (dz : ℝ) : height lo dz none 0 ≠ 1 / 2 * dz := by
  unfold height
  intro e
  push_cast at e
  exact h (by linarith)

/-! ## Source -/

/-- C86: below the sponge the source away from the ground is production minus dissipation. -/
theorem source_spec {c : SrcCoef} (hd : c.start < c.top) {k : ℤ} (hk : k ≠ 0) {z m tke len shear buoy src0 : ℝ} (hz : z ≤ c.start) :
    srcFlat c k z m tke len shear buoy src0 = some (src0 + shear + buoy - c.Cmu ^ (3 : ℝ) * tke ^ (3 / 2 : ℝ) / (len + c.eps)) := by
  have hzi : max ((z - c.start) / (c.top - c.start)) 0 = 0 :=
    max_eq_right (div_nonpos_of_nonpos_of_nonneg (by linarith) (by linarith))
  unfold srcFlat sponge
  simp only [if_neg hk, hzi, lt_irrefl, false_and, if_false, dissip, Option.bind_eq_bind, Option.bind_some, Option.pure_def]
  congr 1; ring

/-- C86: above the start of the sponge one step brings the energy to the profile, plus what production and dissipation do in
the step. -/
theorem sponge_spec {c : SrcCoef} (hd : c.start < c.top) (hdt : c.dt ≠ 0) (hne : c.heights ≠ []) {k : ℤ} (hk : k ≠ 0)
    {z m tke len shear buoy ref rho : ℝ} (hr : rho ≠ 0) (hz : c.start < z) (hi : Interp.linear c.heights c.values z 1 0 = some ref) :
    ∃ s, srcFlat c k z m tke len shear buoy 0 = some s ∧ step rho c.dt s tke = ref + c.dt * (shear + buoy - dissip c tke len) := by
  have hzi : 0 < max ((z - c.start) / (c.top - c.start)) 0 := lt_max_of_lt_left (div_pos (by linarith) (by linarith))
  unfold srcFlat sponge
  simp only [if_neg hk, hzi, true_and, if_pos hne, hi, Option.map_some, Option.bind_eq_bind, Option.bind_some, Option.pure_def]
  refine ⟨_, rfl, ?_⟩
  unfold step
  field_simp
  ring

/-- C86 fails when the sponge starts above the domain (the default is 600 m): instead of nowhere it acts everywhere, down to
the ground. -/
theorem sponge_start_above {c : SrcCoef} (hd : c.top < c.start) (hne : c.heights ≠ []) {z : ℝ} (hz : z ≤ c.top) (tke : ℝ) :
    sponge c z tke = (Interp.linear c.heights c.values z 1 0).map fun ref => 1 / c.dt * (tke - ref) := by
  have hzi : 0 < max ((z - c.start) / (c.top - c.start)) 0 :=
    lt_max_of_lt_left (div_pos_of_neg_of_neg (by linarith) (by linarith))
  unfold sponge
  simp only [hzi, true_and, if_pos hne]

/-- C86: the first layer is brought to `u*²/Cmu²` (plus the part of convection), `u*` from the logarithmic law through the
cell above, plus what production and dissipation do in the step. -/
theorem ground_spec {c : SrcCoef} (hd : c.start < c.top) (hdt : c.dt ≠ 0) (hC : c.Cmu ≠ 0) {z m tke len shear buoy rho : ℝ} (hr : rho ≠ 0) (hz : z ≤ c.start)
    (hlog : Real.log (3 * z / c.z0) - c.psi ≠ 0) (hhf : c.hf ≤ 0) :
    ∃ s us, srcFlat c 0 z m tke len shear buoy 0 = some s ∧ us * (Real.log (3 * z / c.z0) - c.psi) = m * c.kappa ∧
      step rho c.dt s tke = (us / c.Cmu) ^ 2 + c.dt * (shear + buoy - dissip c tke len) := by
  have hzi : max ((z - c.start) / (c.top - c.start)) 0 = 0 :=
    max_eq_right (div_nonpos_of_nonpos_of_nonneg (by linarith) (by linarith))
  refine ⟨0 + (shear + buoy - dissip c tke len - (1 - 0) * (1 / c.dt * (tke - tke) -
    ((m * c.kappa / (Real.log (3 * z / c.z0) - c.psi)) * (m * c.kappa / (Real.log (3 * z / c.z0) - c.psi)) / (c.Cmu * c.Cmu) + 0 - tke) / c.dt)),
    m * c.kappa / (Real.log (3 * z / c.z0) - c.psi), ?_, div_mul_cancel₀ _ hlog, ?_⟩
  · unfold srcFlat sponge wallTke
    simp only [if_true, if_neg hlog, max_eq_right hhf, zero_mul, zero_div, hzi, lt_irrefl, false_and, if_false, Option.map_some,
      Option.bind_eq_bind, Option.bind_some, Option.pure_def]
    rw [Real.zero_rpow (by norm_num)]
  · unfold step
    field_simp
    ring

/-- C86 fails for the logarithmic law when the domain does not start at zero: it should be taken at the height `3/2 dz` of the
second cell above the ground, the code takes three times the absolute height of the first centre. -/
theorem ground_height_wrong (lo dz : ℝ) : 3 * height lo dz none 0 - 3 / 2 * dz = 3 * lo := by
  unfold height; push_cast; ring

/-- C86: in terrain the energy decays at the rate `min (10/(dz m + ε)) (100/dz) m ≤ 10/dz`; nothing else acts below the
sponge. -/
theorem terrain_decay {c : SrcCoef} (hd : c.start < c.top) {k : ℤ} {tz0 dz ht m1 m tke len shear buoy w : ℝ} (hz : ht ≤ c.start)
    (hw : wallTke c (0 * max tz0 (1 / 10000) + (1 - 0) * c.z0) (1 / 2 * dz) m1 = some w) (hdz : 0 < dz) (he : 0 < c.eps) (hm : 0 ≤ m) :
    ∃ r, srcTerrain c k true false tz0 dz ht m1 m tke len shear buoy 0 = some (-r * tke) ∧ 0 ≤ r ∧ r ≤ 10 / dz := by
  have hzi : max ((ht - c.start) / (c.top - c.start)) 0 = 0 :=
    max_eq_right (div_nonpos_of_nonpos_of_nonneg (by linarith) (by linarith))
  refine ⟨min (10 / (dz * m + c.eps)) (100 / dz) * m, ?_, by positivity, ?_⟩
  · unfold srcTerrain sponge
    simp only [if_true, Bool.false_eq_true, if_false, hw, hzi, lt_irrefl, false_and, Option.bind_eq_bind, Option.bind_some, Option.pure_def]
    congr 1
    unfold blankDrag
    split_ifs <;> ring
  · have h1 : min (10 / (dz * m + c.eps)) (100 / dz) * m ≤ 10 / (dz * m + c.eps) * m :=
      mul_le_mul_of_nonneg_right (min_le_left _ _) hm
    refine le_trans h1 ?_
    have : 0 < dz * m + c.eps := by positivity
    rw [div_mul_eq_mul_div, div_le_div_iff₀ this hdz]
    nlinarith

/-- C86: a drag cell is brought to the value of the law of the wall with the roughness of the terrain (at least 0.1 mm). -/
theorem terrain_drag {c : SrcCoef} (hd : c.start < c.top) (hdt : c.dt ≠ 0) {k : ℤ} (hk : k ≠ 0) {tz0 dz ht m1 m tke len shear buoy w rho : ℝ}
    (hr : rho ≠ 0) (hz : ht ≤ c.start) (hw : wallTke c (max tz0 (1 / 10000)) (1 / 2 * dz) m1 = some w) :
    ∃ s, srcTerrain c k false true tz0 dz ht m1 m tke len shear buoy 0 = some s ∧
      step rho c.dt s tke = w + c.dt * (shear + buoy - dissip c tke len) := by
  have hzi : max ((ht - c.start) / (c.top - c.start)) 0 = 0 :=
    max_eq_right (div_nonpos_of_nonpos_of_nonneg (by linarith) (by linarith))
  have e : (1 : ℝ) * max tz0 (1 / 10000) + (1 - 1) * c.z0 = max tz0 (1 / 10000) := by ring
  unfold srcTerrain sponge
  simp only [if_true, Bool.false_eq_true, if_false, e, hw, hzi, lt_irrefl, false_and, Option.bind_eq_bind, Option.bind_some, Option.pure_def,
    if_neg hk]
  refine ⟨_, rfl, ?_⟩
  unfold step
  field_simp
  ring

/-- C86: a side of the horizontal sponge that is off, or a point outside it, is not damped. -/
theorem side_off (eps strength xi : ℝ) : sideDamp eps strength 0 xi = 0 ∧ (xi ≤ 0 → sideDamp eps strength 1 xi = 0) := by
  unfold sideDamp
  refine ⟨by simp, fun h => ?_⟩
  simp [max_eq_right h]

/-- C86 fails for the strength of the horizontal sponge: wherever the sponge acts the energy is brought to the profile within
a step; the forcing differs from `(k - ref)/dt` by less than the fraction `ε/Σ`, whatever the strength. -/
theorem side_strength_ignored {eps dt : ℝ} (he : 0 < eps) (hdt : 0 < dt) {sides : List ℝ} (hs : 0 < sides.sum) (tke ref : ℝ) :
    |sideSponge eps dt sides tke ref - (tke - ref) / dt| ≤ eps / sides.sum * (|tke - ref| / dt) := by
  have e : sideSponge eps dt sides tke ref - (tke - ref) / dt = -(eps / (sides.sum + eps)) * ((tke - ref) / dt) := by
    unfold sideSponge
    have : sides.sum + eps ≠ 0 := by positivity
    field_simp
    ring
  rw [e, abs_mul, abs_neg, abs_div, abs_div, abs_of_pos he, abs_of_pos hdt, abs_of_pos (by positivity : 0 < sides.sum + eps)]
  apply mul_le_mul_of_nonneg_right _ (by positivity)
  exact div_le_div_of_nonneg_left he.le hs (by linarith)

/-- C86: the stratification is the squared buoyancy frequency `β |g| ∂T/∂n`, `n` pointing up: positive where warm air lies on top. -/
theorem stratification_spec (dT g : Fin 3 → ℝ) (beta gm : ℝ) (up : Fin 3 → ℝ) (hg : ∀ i, g i = -gm * up i) :
    stratification dT g beta = beta * gm * ∑ i, up i * dT i := by
  simp only [stratification, Fin.sum_univ_three, hg]; ring

example : stratification ![0, 0, 3 / 1000] ![0, 0, -10] (1 / 300) = 1 / 10000 := by
  simp [stratification, Matrix.cons_val_two]; norm_num

/-- C86: at the depth `xi` into a side of the horizontal sponge the damping is the strength times `(xi/(xi + ε))²`: full strength almost at
once. -/
theorem side_on {eps strength xi : ℝ} (he : 0 < eps) (hs : 0 < strength) (hx : 0 < xi) :
    sideDamp eps strength 1 xi * (xi + eps) ^ 2 = strength * xi ^ 2 ∧ 0 < sideDamp eps strength 1 xi ∧ sideDamp eps strength 1 xi < strength := by
  have e : sideDamp eps strength 1 xi = strength * (xi / (xi + eps)) ^ 2 := by
    unfold sideDamp; simp only [one_mul, max_eq_left hx.le]; ring
  have l : xi / (xi + eps) < 1 := by rw [div_lt_one (by positivity)]; linarith
  have p : 0 < xi / (xi + eps) := by positivity
  refine ⟨by rw [e]; field_simp, by rw [e]; positivity, ?_⟩
  rw [e]
  have q : (xi / (xi + eps)) ^ 2 < 1 := pow_lt_one₀ p.le l (by norm_num)
  calc strength * (xi / (xi + eps)) ^ 2 < strength * 1 := mul_lt_mul_of_pos_left q hs
    _ = strength := mul_one _

/-- C86: the energy diffuses twice as fast as momentum. -/
theorem tke_diffusivity (mu : ℝ) : tkeEff mu = mu + mu := by unfold tkeEff; ring

end AmrWind.Axell
