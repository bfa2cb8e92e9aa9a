import Verif.Vof.InterceptLemmas

/-! # C36: the intercept for ordered coefficients -/

namespace AmrWind.Vof

theorem third {d m : ℝ} (hd : 0 ≤ d) (hm : 1 / 3 ≤ m) : d ≤ 3 * d * m := by
  have := mul_le_mul_of_nonneg_left hm hd
  linarith

/-- Third branch: the root of the first cubic. -/
theorem branch3 {ta m1 m2 m3 ch : ℝ} (hta : 0 ≤ ta) (h1 : 0 < m1) (h12 : m1 ≤ m2) (h23 : m2 ≤ m3)
    (hs : m1 + m2 + m3 = 1) (hlo : m1 * m1 / (6 * m2 * m3) + 1 / 2 * (m2 - m1) / m3 ≤ ch)
    (hq0 : 0 ≤ m1 + m2 - 2 * m3 * ch)
    (hhi : m3 < m1 + m2 → ch ≤ cubeVolume m1 m2 m3 m3) :
    ∃ t, cubicRoot ta (2 * m1 * m2) (3 / 2 * m1 * m2 * (m1 + m2 - 2 * m3 * ch)) = some t ∧
      ch ≤ cubeVolume m1 m2 m3 (t + (m1 + m2)) ∧
      ∃ x D, 0 ≤ x ∧ x ^ 3 ≤ D ∧ 0 < D + ta ∧ cubeVolume m1 m2 m3 (t + (m1 + m2)) ≤ ch + 3 * (x * (ta / (D + ta))) := by
  have h2 : 0 < m2 := by linarith
  have h3 : 0 < m3 := by linarith
  have h3' : 1 / 3 ≤ m3 := by linarith
  have hp : 0 < 2 * m1 * m2 := by positivity
  have hsp : 0 < √(2 * m1 * m2) := Real.sqrt_pos.mpr hp
  have hsq : √(2 * m1 * m2) ^ 2 = 2 * m1 * m2 := Real.sq_sqrt (le_of_lt hp)
  have hDp : 0 < 2 * m1 * m2 * √(2 * m1 * m2) + ta := by positivity
  have hx : m1 ≤ √(2 * m1 * m2) := Real.le_sqrt_of_sq_le (by nlinarith)
  -- `ch` is at least the volume at `m2`
  have hlo' : m1 * m1 / m2 / 3 + (m2 - m1) ≤ 2 * m3 * ch := by
    have : m1 * m1 / (6 * m2 * m3) + 1 / 2 * (m2 - m1) / m3 = (m1 * m1 / m2 / 3 + (m2 - m1)) / (2 * m3) := by
      field_simp
      ring
    rw [this, div_le_iff₀ (by positivity)] at hlo
    linarith
  have hq : 2 * (3 / 2 * m1 * m2 * (m1 + m2 - 2 * m3 * ch)) ≤ 3 * (2 * m1 * m2) * m1 - m1 ^ 3 := by
    have e : 3 * (2 * m1 * m2) * m1 - m1 ^ 3 = 3 * m1 * m2 * (m1 + m2 - (m1 * m1 / m2 / 3 + (m2 - m1))) := by
      field_simp
      ring
    rw [e]
    have : 3 * m1 * m2 * (m1 + m2 - 2 * m3 * ch) ≤ 3 * m1 * m2 * (m1 + m2 - (m1 * m1 / m2 / 3 + (m2 - m1))) :=
      mul_le_mul_of_nonneg_left (by linarith) (by positivity)
    linarith
  have hqq : 0 ≤ 3 / 2 * m1 * m2 * (m1 + m2 - 2 * m3 * ch) := by positivity
  have hq1 : 3 / 2 * m1 * m2 * (m1 + m2 - 2 * m3 * ch) ≤ 2 * m1 * m2 * √(2 * m1 * m2) := by
    have := cubic_max (le_of_lt hp) (le_of_lt h1)
    linarith
  obtain ⟨t, ht, htl, htu, hteq⟩ := cubicRoot_spec (le_of_lt hp) hta (ne_of_gt hDp) hqq (by linarith)
  refine ⟨t, ht, ?_⟩
  generalize hqd : 3 / 2 * m1 * m2 * (m1 + m2 - 2 * m3 * ch) = q at *
  generalize hDd : 2 * m1 * m2 * √(2 * m1 * m2) = D at *
  have hD0 : 0 ≤ D := by rw [← hDd]; positivity
  -- the root seen by the code
  have hqs : q / (D + ta) * D = q - q * (ta / (D + ta)) := by
    field_simp
    ring
  have hg0 : 0 ≤ q * (ta / (D + ta)) := by positivity
  rw [hqs] at hteq
  have htm : -m1 ≤ t := cubic_cmp hp htl htu (le_of_lt h1) hx (by linarith)
  have hle := vol_r3_le (le_of_lt h1) h12 h23 h1 (a := t + (m1 + m2)) (by linarith) (by linarith)
  -- the polynomial at the root
  have hF : ((t + (m1 + m2)) * (t + (m1 + m2)) * (3 * (m1 + m2) - (t + (m1 + m2))) +
      m1 * m1 * (m1 - 3 * (t + (m1 + m2))) + m2 * m2 * (m2 - 3 * (t + (m1 + m2)))) / (6 * m1 * m2 * m3) =
      ch + q * (ta / (D + ta)) / (3 * m1 * m2 * m3) := by
    have e : (t + (m1 + m2)) * (t + (m1 + m2)) * (3 * (m1 + m2) - (t + (m1 + m2))) +
      m1 * m1 * (m1 - 3 * (t + (m1 + m2))) + m2 * m2 * (m2 - 3 * (t + (m1 + m2))) =
        3 * m1 * m2 * (m1 + m2) - (t ^ 3 - 3 * (2 * m1 * m2) * t) := by ring
    rw [e, hteq, div_eq_iff (by positivity), add_mul, div_mul_eq_mul_div, eq_comm]
    rw [show q * (ta / (D + ta)) * (6 * m1 * m2 * m3) / (3 * m1 * m2 * m3) = 2 * (q * (ta / (D + ta))) by
      field_simp; ring]
    rw [← hqd]
    ring
  rw [hF] at hle
  constructor
  · by_cases hc : t + (m1 + m2) ≤ m3
    · rw [vol_r3 (le_of_lt h1) h12 h23 h1 (by linarith) (by linarith) hc, hF]
      have : 0 ≤ q * (ta / (D + ta)) / (3 * m1 * m2 * m3) := by positivity
      linarith
    · have hc := not_le.mp hc
      exact le_trans (hhi (by linarith)) (cubeVolume_mono _ _ _ (le_of_lt hc))
  · refine ⟨m1, D, le_of_lt h1, ?_, hDp, ?_⟩
    · rw [← hDd]
      have : m1 ^ 2 ≤ 2 * m1 * m2 := by nlinarith
      calc m1 ^ 3 = m1 ^ 2 * m1 := by ring
        _ ≤ 2 * m1 * m2 * √(2 * m1 * m2) := mul_le_mul this hx (le_of_lt h1) (le_of_lt hp)
    · refine le_trans hle ?_
      have hr : 0 ≤ ta / (D + ta) := by positivity
      have hm1 : m1 + m2 - 2 * m3 * ch ≤ 2 * m1 := by
        have : 0 ≤ m1 * m1 / m2 / 3 := by positivity
        linarith
      have e : q * (ta / (D + ta)) / (3 * m1 * m2 * m3) =
          (m1 + m2 - 2 * m3 * ch) / (2 * m3) * (ta / (D + ta)) := by
        rw [← hqd]
        field_simp
      rw [e]
      have : (m1 + m2 - 2 * m3 * ch) / (2 * m3) ≤ 3 * m1 := by
        rw [div_le_iff₀ (by positivity)]
        nlinarith
      have := mul_le_mul_of_nonneg_right this hr
      linarith

/-- The second moment of the last branch. -/
theorem p5_ge {m1 m2 m3 : ℝ} (h12 : m1 ≤ m2) (h23 : m2 ≤ m3) (hs : m1 + m2 + m3 = 1)
    (hc : m3 ≤ m1 + m2) :
    (1 / 2 - m3) ^ 2 ≤ m1 * (m2 + m3) + m2 * m3 - 1 / 4 ∧ m1 * (m2 + m3) + m2 * m3 - 1 / 4 ≤ m1 * m2 := by
  have hd : 0 ≤ 1 / 2 - m3 := by linarith
  generalize hdd : 1 / 2 - m3 = d at *
  have e3 : m3 = 1 / 2 - d := by linarith
  have h1' : 2 * d ≤ m1 := by linarith
  have h2' : 2 * d ≤ m2 := by linarith
  have e : m1 * (m2 + m3) + m2 * m3 - 1 / 4 = m1 * m2 - d ^ 2 := by
    have : m1 + m2 = 1 / 2 + d := by linarith
    have : m1 * (m2 + m3) + m2 * m3 - 1 / 4 = m1 * m2 + m3 * (m1 + m2) - 1 / 4 := by ring
    rw [this, ‹m1 + m2 = 1 / 2 + d›, e3]
    ring
  rw [e]
  have : (2 * d) * (2 * d) ≤ m1 * m2 := mul_le_mul h1' h2' (by linarith) (by linarith)
  constructor <;> nlinarith [sq_nonneg d]

/-- Last branch: the root of the second cubic. -/
theorem branch5 {ta m1 m2 m3 ch : ℝ} (hta : 0 ≤ ta) (h1 : 0 < m1) (h12 : m1 ≤ m2) (h23 : m2 ≤ m3)
    (hs : m1 + m2 + m3 = 1) (hc : m3 ≤ m1 + m2) (hlo : cubeVolume m1 m2 m3 m3 ≤ ch) (hhi : ch ≤ 1 / 2) :
    ∃ t, cubicRoot ta (m1 * (m2 + m3) + m2 * m3 - 1 / 4) (3 / 2 * m1 * m2 * m3 * (1 / 2 - ch)) = some t ∧
      ch ≤ cubeVolume m1 m2 m3 (t + 1 / 2) ∧
      ∃ x D, 0 ≤ x ∧ x ^ 3 ≤ D ∧ 0 < D + ta ∧ cubeVolume m1 m2 m3 (t + 1 / 2) = ch + (1 / 2 - ch) * (ta / (D + ta)) ∧
        1 / 2 - ch ≤ 3 * x ∧
        D = (m1 * (m2 + m3) + m2 * m3 - 1 / 4) * √(m1 * (m2 + m3) + m2 * m3 - 1 / 4) := by
  have h2 : 0 < m2 := by linarith
  have h3 : 0 < m3 := by linarith
  have h3' : 1 / 3 ≤ m3 := by linarith
  have hd : 0 ≤ 1 / 2 - m3 := by linarith
  obtain ⟨hpd, -⟩ := p5_ge h12 h23 hs hc
  have hp : 0 < m1 * (m2 + m3) + m2 * m3 - 1 / 4 := by
    rcases eq_or_lt_of_le hd with e | h
    · have e3 : m3 = 1 / 2 := by linarith
      have e2 : m1 + m2 = 1 / 2 := by linarith
      have : m1 * (m2 + m3) + m2 * m3 - 1 / 4 = m1 * m2 := by
        have : m1 * (m2 + m3) + m2 * m3 - 1 / 4 = m1 * m2 + m3 * (m1 + m2) - 1 / 4 := by ring
        rw [this, e2, e3]; ring
      rw [this]; positivity
    · exact lt_of_lt_of_le (by positivity) hpd
  have hv3 := vol_r5 (le_of_lt h1) h12 h23 h1 hs (a := m3) le_rfl hc
  have hsum : m1 ^ 2 + m2 ^ 2 + m3 ^ 2 = 1 - 2 * (m1 * (m2 + m3) + m2 * m3) := by
    have : (m1 + m2 + m3) ^ 2 = 1 := by rw [hs]; ring
    linear_combination this
  have hcub : m1 ^ 3 + m2 ^ 3 + m3 ^ 3 = 1 - 3 * (m1 * (m2 + m3) + m2 * m3) + 3 * (m1 * m2 * m3) := by
    have e3 : m3 = 1 - m1 - m2 := by linarith
    rw [e3]; ring
  generalize hpe : m1 * (m2 + m3) + m2 * m3 - 1 / 4 = p at *
  have hsum' : m1 ^ 2 + m2 ^ 2 + m3 ^ 2 = 1 / 2 - 2 * p := by linarith
  have hcub' : m1 ^ 3 + m2 ^ 3 + m3 ^ 3 = 1 / 4 - 3 * p + 3 * (m1 * m2 * m3) := by linarith
  have hpoly : ∀ t : ℝ, (t + 1 / 2) * (t + 1 / 2) * (3 - 2 * (t + 1 / 2)) + m1 * m1 * (m1 - 3 * (t + 1 / 2)) +
      m2 * m2 * (m2 - 3 * (t + 1 / 2)) + m3 * m3 * (m3 - 3 * (t + 1 / 2)) =
      3 * (m1 * m2 * m3) - 2 * (t ^ 3 - 3 * p * t) := by
    intro t
    linear_combination hcub' - 3 * (t + 1 / 2) * hsum'
  have hsp : 0 < √p := Real.sqrt_pos.mpr hp
  have hDp : 0 < p * √p + ta := by positivity
  have hx : 1 / 2 - m3 ≤ √p := Real.le_sqrt_of_sq_le hpd
  have hpos : 0 < m1 * m2 * m3 := by positivity
  have hq : 2 * (3 / 2 * m1 * m2 * m3 * (1 / 2 - ch)) ≤ 3 * p * (1 / 2 - m3) - (1 / 2 - m3) ^ 3 := by
    have e := hpoly (m3 - 1 / 2)
    rw [show m3 - 1 / 2 + 1 / 2 = m3 by ring] at e
    rw [hv3, e, div_le_iff₀ (by positivity)] at hlo
    nlinarith
  have hqq : 0 ≤ 3 / 2 * m1 * m2 * m3 * (1 / 2 - ch) := by
    have : 0 ≤ 1 / 2 - ch := by linarith
    positivity
  have hq1 : 3 / 2 * m1 * m2 * m3 * (1 / 2 - ch) ≤ p * √p := by
    have := cubic_max (le_of_lt hp) hd
    linarith
  obtain ⟨t, ht, htl, htu, hteq⟩ := cubicRoot_spec (le_of_lt hp) hta (ne_of_gt hDp) hqq (by linarith)
  refine ⟨t, ht, ?_⟩
  generalize hqd : 3 / 2 * m1 * m2 * m3 * (1 / 2 - ch) = q at *
  have hD0 : 0 ≤ p * √p := by positivity
  have hD3 : (1 / 2 - m3) ^ 3 ≤ p * √p :=
    calc (1 / 2 - m3) ^ 3 = (1 / 2 - m3) ^ 2 * (1 / 2 - m3) := by ring
      _ ≤ p * √p := mul_le_mul hpd hx hd (le_of_lt hp)
  generalize hDd : p * √p = D at *
  have hqs : q / (D + ta) * D = q - q * (ta / (D + ta)) := by
    field_simp
    ring
  have hg0 : 0 ≤ q * (ta / (D + ta)) := by positivity
  rw [hqs] at hteq
  have htm : -(1 / 2 - m3) ≤ t := cubic_cmp hp htl htu hd hx (by linarith)
  have hV : cubeVolume m1 m2 m3 (t + 1 / 2) = ch + (1 / 2 - ch) * (ta / (D + ta)) := by
    rw [vol_r5 (le_of_lt h1) h12 h23 h1 hs (by linarith) (by linarith), hpoly, hteq, div_eq_iff (by positivity), ← hqd]
    ring
  refine ⟨?_, 1 / 2 - m3, D, hd, hD3, hDp, hV, ?_, rfl⟩
  · rw [hV]
    have : 0 ≤ (1 / 2 - ch) * (ta / (D + ta)) := mul_nonneg (by linarith) (by positivity)
    linarith
  · have hl := cubeVolume_lip h3 m1 m2 (show m3 ≤ 1 / 2 by linarith)
    rw [vol_half h3 hs] at hl
    have : (1 / 2 - m3) / m3 ≤ 3 * (1 / 2 - m3) := by
      rw [div_le_iff₀ h3]
      exact third hd h3'
    linarith

/-- The regular case: the epsilon in `pr` is not felt. -/
theorem intercept_regular {tp ta m1 m2 m3 ch : ℝ} (htp : 0 < tp) (hta : 0 ≤ ta) (h1 : 0 ≤ m1) (h12 : m1 ≤ m2)
    (h23 : m2 ≤ m3) (hs : m1 + m2 + m3 = 1) (hc0 : 0 ≤ ch) (hc1 : ch ≤ 1 / 2)
    (hreg : m1 = 0 ∨ tp ≤ 6 * m1 * m2 * m3) (hz : 0 < ta ∨ m1 ≠ 0 ∨ ch ≠ 1 / 2 ∨ m2 ≠ m3) :
    ∃ al, interceptOrdered tp ta m1 m2 m3 ch = some al ∧ ch ≤ cubeVolume m1 m2 m3 al ∧
      ∃ x D, 0 ≤ x ∧ x ^ 3 ≤ D ∧ 0 < D + ta ∧ cubeVolume m1 m2 m3 al ≤ ch + 3 * (x * (ta / (D + ta))) := by
  have h3 : 0 < m3 := by linarith
  have hex : ∀ v : ℝ, v = ch → ch ≤ v ∧ ∃ x D : ℝ, 0 ≤ x ∧ x ^ 3 ≤ D ∧ 0 < D + ta ∧
      v ≤ ch + 3 * (x * (ta / (D + ta))) := fun v hv =>
    ⟨le_of_eq hv.symm, 0, 1, le_rfl, by norm_num, by linarith, by rw [hv]; simp⟩
  unfold interceptOrdered
  simp only
  rcases eq_or_lt_of_le h1 with e1 | hp1
  · -- two-dimensional cases
    subst e1
    have epr : max (6 * 0 * m2 * m3) tp = tp := by
      rw [show (6 * 0 * m2 * m3 : ℝ) = 0 by ring]; exact max_eq_right (le_of_lt htp)
    rw [epr, if_neg (by push Not; exact ⟨ne_of_gt htp, ne_of_gt h3⟩)]
    have ev1 : (0 : ℝ) * 0 * 0 / tp = 0 := by simp
    simp only [ev1, zero_add, sub_zero]
    rw [if_neg (not_lt.mpr hc0), if_neg (not_lt.mpr h23), if_neg (not_lt.mpr h23)]
    by_cases c2 : ch < 1 / 2 * m2 / m3
    · rw [if_pos c2]
      refine ⟨_, rfl, hex _ ?_⟩
      have hm2 : 0 < m2 := by
        by_contra h
        have : m2 = 0 := by linarith
        rw [this] at c2
        simp at c2
        linarith
      rw [lt_div_iff₀ h3] at c2
      have hr0 := Real.sqrt_nonneg (0 * 0 + 8 * m2 * m3 * ch)
      have hrs : √(0 * 0 + 8 * m2 * m3 * ch) ^ 2 = 8 * m2 * m3 * ch := by
        rw [Real.sq_sqrt (by positivity)]; ring
      generalize √(0 * 0 + 8 * m2 * m3 * ch) = r at *
      have hra : 1 / 2 * r ≤ m2 := by
        by_contra h
        have h := not_le.mp h
        nlinarith
      rw [vol_r2 le_rfl h12 h23 hm2 (by linarith) hra]
      rw [sub_zero, zero_mul, zero_div, add_zero, div_eq_iff (by positivity)]
      nlinarith
    · rw [if_neg c2, if_neg c2]
      have c2' := not_lt.mp c2
      rw [div_le_iff₀ h3] at c2'
      by_cases c4 : m2 < m3
      · rw [if_pos c4]
        refine ⟨_, rfl, hex _ ?_⟩
        rw [vol_r4 le_rfl h12 h23 h3 (by linarith) (by nlinarith)]
        field_simp
        ring
      · rw [if_neg c4]
        have e2 : m2 = m3 := le_antisymm h23 (not_lt.mp c4)
        subst e2
        have e3 : m2 = 1 / 2 := by linarith
        subst e3
        have ech : ch = 1 / 2 := by linarith
        subst ech
        have hta' : 0 < ta := by
          rcases hz with h | h | h | h
          · exact h
          · exact absurd rfl h
          · exact absurd rfl h
          · exact absurd rfl h
        have ep : (0 : ℝ) * (1 / 2 + 1 / 2) + 1 / 2 * (1 / 2) - 1 / 4 = 0 := by norm_num
        have eq0 : (3 / 2 * 0 * (1 / 2) * (1 / 2) * (1 / 2 - 1 / 2) : ℝ) = 0 := by norm_num
        rw [ep, eq0]
        unfold cubicRoot
        simp only
        rw [if_neg (lt_irrefl _), if_neg (by simp; exact ne_of_gt hta'), if_neg (by simp)]
        refine ⟨_, rfl, hex _ ?_⟩
        rw [Real.sqrt_zero, zero_mul]
        show cubeVolume 0 (1 / 2) (1 / 2) (0 + 1 / 2) = 1 / 2
        rw [zero_add]
        exact vol_half h3 hs
  · have hp2 : 0 < m2 := by linarith
    have hpr : tp ≤ 6 * m1 * m2 * m3 := by
      rcases hreg with h | h
      · exact absurd h (ne_of_gt hp1)
      · exact h
    have hppos : 0 < 6 * m1 * m2 * m3 := by positivity
    rw [max_eq_left hpr, if_neg (by push Not; exact ⟨ne_of_gt hppos, ne_of_gt h3⟩)]
    have ev1 : m1 * m1 * m1 / (6 * m1 * m2 * m3) = m1 * m1 / (6 * m2 * m3) := by field_simp
    by_cases c1 : ch < m1 * m1 * m1 / (6 * m1 * m2 * m3)
    · rw [if_pos c1]
      refine ⟨_, rfl, hex _ ?_⟩
      obtain ⟨r0, r3⟩ := cbrt_spec (x := 6 * m1 * m2 * m3 * ch) (by positivity)
      generalize cbrt (6 * m1 * m2 * m3 * ch) = r at *
      rw [lt_div_iff₀ hppos] at c1
      have hr1 : r ≤ m1 := by
        by_contra h
        have h := not_le.mp h
        have : m1 * m1 * m1 < r * r * r := by
          have h' : m1 * m1 ≤ r * r := mul_le_mul (le_of_lt h) (le_of_lt h) h1 r0
          nlinarith [mul_pos hp1 hp1]
        linarith
      rw [vol_r1 h1 h12 h23 hp1 r0 hr1, r3]
      field_simp
    · rw [if_neg c1]
      have c1' := not_lt.mp c1
      by_cases c2 : ch < m1 * m1 * m1 / (6 * m1 * m2 * m3) + 1 / 2 * (m2 - m1) / m3
      · rw [if_pos c2]
        refine ⟨_, rfl, hex _ ?_⟩
        rw [ev1] at c1' c2 ⊢
        have hV := sub_nonneg.mpr c1'
        have hW : ch - m1 * m1 / (6 * m2 * m3) < 1 / 2 * (m2 - m1) / m3 := by linarith
        generalize hVd : ch - m1 * m1 / (6 * m2 * m3) = V at *
        have ech : ch = V + m1 * m1 / (6 * m2 * m3) := by linarith
        have hr0 := Real.sqrt_nonneg (m1 * m1 + 8 * m2 * m3 * V)
        have hrs : √(m1 * m1 + 8 * m2 * m3 * V) ^ 2 = m1 * m1 + 8 * m2 * m3 * V := Real.sq_sqrt (by positivity)
        generalize √(m1 * m1 + 8 * m2 * m3 * V) = r at *
        rw [lt_div_iff₀ h3] at hW
        have hr1 : m1 ≤ r := by
          by_contra h
          have h := not_le.mp h
          have : 0 ≤ 8 * m2 * m3 * V := by positivity
          nlinarith
        have hr2 : r ≤ 2 * m2 - m1 := by
          by_contra h
          have h := not_le.mp h
          have : (2 * m2 - m1) ^ 2 < r ^ 2 := by nlinarith
          nlinarith
        rw [vol_r2 h1 h12 h23 hp2 (by linarith) (by linarith), ech]
        congr 1
        rw [div_eq_iff (by positivity)]
        nlinarith
      · rw [if_neg c2]
        have c2' := not_lt.mp c2
        rw [ev1] at c2'
        have em3 : m3 < m1 + m2 →
            (m3 * m3 * (3 * (m1 + m2) - m3) + m1 * m1 * (m1 - 3 * m3) + m2 * m2 * (m2 - 3 * m3)) /
              (6 * m1 * m2 * m3) = cubeVolume m1 m2 m3 m3 := fun h =>
          (vol_r3 h1 h12 h23 hp1 h23 (le_of_lt h) le_rfl).symm
        by_cases c4 : m3 < m1 + m2
        · rw [if_pos c4, if_pos c4, em3 c4]
          by_cases c3 : ch < cubeVolume m1 m2 m3 m3
          · rw [if_pos c3]
            obtain ⟨t, ht, hb, hx⟩ := branch3 hta hp1 h12 h23 hs c2' (by nlinarith) (fun _ => le_of_lt c3)
            exact ⟨_, by rw [ht]; rfl, hb, hx⟩
          · rw [if_neg c3, if_neg (not_lt.mpr (le_of_lt c4))]
            obtain ⟨t, ht, hb, x, D, hx0, hx3, hD, hV, h3x, -⟩ :=
              branch5 hta hp1 h12 h23 hs (le_of_lt c4) (not_lt.mp c3) hc1
            refine ⟨_, by rw [ht]; rfl, hb, x, D, hx0, hx3, hD, ?_⟩
            rw [hV]
            have : 0 ≤ ta / (D + ta) := by positivity
            have := mul_le_mul_of_nonneg_right h3x this
            linarith
        · rw [if_neg c4, if_neg c4]
          have c4' := not_lt.mp c4
          by_cases c3 : ch < 1 / 2 * (m1 + m2) / m3
          · rw [if_pos c3]
            rw [lt_div_iff₀ h3] at c3
            obtain ⟨t, ht, hb, hx⟩ := branch3 hta hp1 h12 h23 hs c2' (by nlinarith) (fun h => absurd h c4)
            exact ⟨_, by rw [ht]; rfl, hb, hx⟩
          · rw [if_neg c3]
            have c3' := not_lt.mp c3
            rw [div_le_iff₀ h3] at c3'
            by_cases c5 : m1 + m2 < m3
            · rw [if_pos c5]
              refine ⟨_, rfl, hex _ ?_⟩
              rw [vol_r4 h1 h12 h23 h3 (by linarith) (by nlinarith)]
              field_simp
              ring
            · rw [if_neg c5]
              have em : m3 = m1 + m2 := le_antisymm (not_lt.mp c5) c4'
              have em3 : m3 = 1 / 2 := by linarith
              have hV3 : cubeVolume m1 m2 m3 m3 ≤ ch := by
                rw [vol_r4 h1 h12 h23 h3 (by linarith) le_rfl, div_le_iff₀ h3]
                linarith
              obtain ⟨t, ht, hb, x, D, hx0, hx3, hD, hV, h3x, -⟩ := branch5 hta hp1 h12 h23 hs (le_of_eq em) hV3 hc1
              refine ⟨_, by rw [ht]; rfl, hb, x, D, hx0, hx3, hD, ?_⟩
              rw [hV]
              have : 0 ≤ ta / (D + ta) := by positivity
              have := mul_le_mul_of_nonneg_right h3x this
              linarith

end AmrWind.Vof
