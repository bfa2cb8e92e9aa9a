import Verif.Vof.InterceptMain
import Verif.Vof.CutProps

/-!
# C36: the plane found for a volume fraction cuts off that volume

Exactly, without the epsilon next to `acos` (`ta = 0`) and when the product of the coefficients is not below the
epsilon in `pr`. With both epsilons the volume differs by at most four times the cube root of the epsilon, for every
normal and volume fraction, and it does differ.
-/

namespace AmrWind.Vof
open MeasureTheory

/-! ## Products below the epsilon -/

theorem sqrt_branch {m1 m2 m3 V r : ℝ} (h1 : 0 ≤ m1) (h12 : m1 ≤ m2) (h2 : 0 < m2) (h3 : 0 < m3) (hV : 0 ≤ V)
    (hW : V * m3 ≤ 1 / 2 * (m2 - m1)) (hr : 0 ≤ r) (hrs : r ^ 2 = m1 * m1 + 8 * m2 * m3 * V) :
    m1 ≤ r ∧ r ≤ 2 * m2 - m1 := by
  have h8 : 0 ≤ 8 * m2 * m3 * V := by positivity
  constructor
  · refine (sq_le_sq₀ h1 hr).mp ?_
    rw [hrs]; nlinarith
  · refine (sq_le_sq₀ hr (by linarith)).mp ?_
    have := mul_le_mul_of_nonneg_left hW (by positivity : 0 ≤ 8 * m2)
    rw [hrs]; nlinarith

theorem q3_nonneg {m1 m2 m3 ch : ℝ} (h3 : 0 < m3) (hc1 : ch ≤ 1 / 2) (c4 : m3 ≤ m1 + m2) :
    0 ≤ m1 + m2 - 2 * m3 * ch := by
  have := mul_le_mul_of_nonneg_left hc1 (le_of_lt h3)
  linarith

theorem intercept_irregular {e m1 m2 m3 ch : ℝ} (he : 0 < e) (he1 : e ≤ 1) (h1 : 0 < m1) (h12 : m1 ≤ m2)
    (h23 : m2 ≤ m3) (hs : m1 + m2 + m3 = 1) (hc0 : 0 ≤ ch) (hc1 : ch ≤ 1 / 2) (hirr : 6 * m1 * m2 * m3 < e ^ 3) :
    ∃ al, interceptOrdered (e ^ 3) (e ^ 3) m1 m2 m3 ch = some al ∧ |cubeVolume m1 m2 m3 al - ch| ≤ 4 * e := by
  have h2 : 0 < m2 := by linarith
  have h3 : 0 < m3 := by linarith
  have h3' : 1 / 3 ≤ m3 := by linarith
  have he3 : 0 < e ^ 3 := by positivity
  have hE : e ^ 3 ≤ e ^ 2 := by nlinarith [sq_nonneg e]
  -- sizes
  have hm12 : 2 * (m1 * m2) ≤ e ^ 3 := by
    have := mul_le_mul_of_nonneg_left h3' (by positivity : 0 ≤ 6 * m1 * m2)
    linarith
  have hm1 : m1 ≤ e := by
    by_contra h
    have h := not_le.mp h
    have : e ^ 2 < m1 * m2 := by nlinarith
    nlinarith [mul_pos h1 h2]
  have hpos : 0 < 6 * m1 * m2 * m3 := by positivity
  have hV1 : m1 * m1 / (6 * m2 * m3) ≤ e / 2 := by
    rw [div_le_iff₀ (by positivity)]
    have k1 : m1 * m1 ≤ e * m2 := mul_le_mul hm1 h12 (le_of_lt h1) (le_of_lt he)
    have k2 := mul_le_mul_of_nonneg_left h3' (by positivity : 0 ≤ 3 * (e * m2))
    linarith
  have hV10 : 0 ≤ m1 * m1 / (6 * m2 * m3) := by positivity
  have hv1 : m1 * m1 * m1 / e ^ 3 ≤ m1 * m1 / (6 * m2 * m3) := by
    rw [div_le_div_iff₀ he3 (by positivity)]
    have := mul_le_mul_of_nonneg_left (le_of_lt hirr) (by positivity : 0 ≤ m1 * m1)
    linarith
  have hv10 : 0 ≤ m1 * m1 * m1 / e ^ 3 := by positivity
  have hp12 : √(2 * m1 * m2) ≤ e := by
    rw [Real.sqrt_le_left (le_of_lt he)]
    linarith
  have hvm2 := vol_r2 (le_of_lt h1) h12 h23 h2 h12 le_rfl
  have hvm2' : cubeVolume m1 m2 m3 m2 = 1 / 2 * (m2 - m1) / m3 + m1 * m1 / (6 * m2 * m3) := by
    rw [hvm2]
    congr 1
    field_simp
  have lip3 : ∀ x y : ℝ, x ≤ y → cubeVolume m1 m2 m3 y - cubeVolume m1 m2 m3 x ≤ 3 * (y - x) := by
    intro x y hxy
    refine le_trans (cubeVolume_lip h3 m1 m2 hxy) ?_
    rw [div_le_iff₀ h3]
    exact third (by linarith) h3'
  -- third branch
  have b3 : m1 * m1 * m1 / e ^ 3 + 1 / 2 * (m2 - m1) / m3 ≤ ch → 0 ≤ m1 + m2 - 2 * m3 * ch →
      ch ≤ cubeVolume m1 m2 m3 (m1 + m2) →
      ∃ t, cubicRoot (e ^ 3) (2 * m1 * m2) (3 / 2 * m1 * m2 * (m1 + m2 - 2 * m3 * ch)) = some t ∧
        |cubeVolume m1 m2 m3 (t + (m1 + m2)) - ch| ≤ 4 * e := by
    intro hlo hq hhi
    have hq1 : 3 / 2 * m1 * m2 * (m1 + m2 - 2 * m3 * ch) ≤ 2 * m1 * m2 * √(2 * m1 * m2) + e ^ 3 := by
      have k0 : 0 ≤ 2 * m1 * m2 * √(2 * m1 * m2) := by positivity
      have k1 : m1 + m2 - 2 * m3 * ch ≤ 1 := by
        have : 0 ≤ 2 * m3 * ch := by positivity
        linarith
      have k2 := mul_le_mul_of_nonneg_left k1 (by positivity : 0 ≤ 3 / 2 * m1 * m2)
      linarith
    obtain ⟨t, ht, htl, htu, -⟩ := cubicRoot_spec (ta := e ^ 3) (p := 2 * m1 * m2) (by positivity) (le_of_lt he3)
      (by positivity) (by positivity) hq1
    refine ⟨t, ht, ?_⟩
    have l1 := lip3 (t + (m1 + m2)) (m1 + m2) (by linarith)
    have l2 := cubeVolume_mono m1 m2 m3 (show t + (m1 + m2) ≤ m1 + m2 by linarith)
    have l3 := lip3 m2 (m1 + m2) (by linarith)
    rw [abs_le]
    constructor <;> linarith
  unfold interceptOrdered
  simp only
  rw [max_eq_right (le_of_lt hirr), if_neg (by push Not; exact ⟨ne_of_gt he3, ne_of_gt h3⟩)]
  by_cases c1 : ch < m1 * m1 * m1 / e ^ 3
  · rw [if_pos c1]
    refine ⟨_, rfl, ?_⟩
    obtain ⟨r0, r3⟩ := cbrt_spec (x := e ^ 3 * ch) (by positivity)
    generalize cbrt (e ^ 3 * ch) = r at *
    have c1' := c1
    rw [lt_div_iff₀ he3] at c1'
    have hr1 : r ≤ m1 := by
      by_contra h
      have h := not_le.mp h
      have : m1 * m1 * m1 < r * r * r := by
        have h' : m1 * m1 ≤ r * r := mul_le_mul (le_of_lt h) (le_of_lt h) (le_of_lt h1) r0
        nlinarith [mul_pos h1 h1]
      linarith
    have l1 := cubeVolume_mono m1 m2 m3 hr1
    rw [vol_r1 (le_of_lt h1) h12 h23 h1 (le_of_lt h1) le_rfl,
      show m1 * m1 * m1 / (6 * m1 * m2 * m3) = m1 * m1 / (6 * m2 * m3) by field_simp] at l1
    have l2 := (cubeVolume_mem m1 m2 m3 r).1
    rw [abs_le]
    constructor <;> linarith
  rw [if_neg c1]
  have c1' := not_lt.mp c1
  by_cases c2 : ch < m1 * m1 * m1 / e ^ 3 + 1 / 2 * (m2 - m1) / m3
  · rw [if_pos c2]
    refine ⟨_, rfl, ?_⟩
    have hV := sub_nonneg.mpr c1'
    have hW : ch - m1 * m1 * m1 / e ^ 3 < 1 / 2 * (m2 - m1) / m3 := by linarith
    generalize hVd : ch - m1 * m1 * m1 / e ^ 3 = V at *
    have hr0 := Real.sqrt_nonneg (m1 * m1 + 8 * m2 * m3 * V)
    have hrs : √(m1 * m1 + 8 * m2 * m3 * V) ^ 2 = m1 * m1 + 8 * m2 * m3 * V := Real.sq_sqrt (by positivity)
    generalize √(m1 * m1 + 8 * m2 * m3 * V) = r at *
    rw [lt_div_iff₀ h3] at hW
    obtain ⟨hr1, hr2⟩ := sqrt_branch (le_of_lt h1) h12 h2 h3 hV (le_of_lt hW) hr0 hrs
    rw [vol_r2 (le_of_lt h1) h12 h23 h2 (by linarith) (by linarith)]
    have eV : 1 / 2 * (m1 + r) * (1 / 2 * (m1 + r) - m1) / (2 * m2 * m3) = V := by
      rw [div_eq_iff (by positivity)]
      linear_combination (1 / 4) * hrs
    rw [eV, abs_le]
    constructor <;> linarith
  rw [if_neg c2]
  have c2' := not_lt.mp c2
  by_cases c4 : m3 < m1 + m2
  · rw [if_pos c4, if_pos c4]
    have hF0 := vol_r3 (le_of_lt h1) h12 h23 h1 h23 (le_of_lt c4) le_rfl
    generalize m3 * m3 * (3 * (m1 + m2) - m3) + m1 * m1 * (m1 - 3 * m3) + m2 * m2 * (m2 - 3 * m3) = F at *
    have hF : F / e ^ 3 ≤ cubeVolume m1 m2 m3 m3 := by
      rw [hF0]
      have hFn : 0 ≤ F := by
        have := (cubeVolume_mem m1 m2 m3 m3).1
        rw [hF0] at this
        by_contra h
        have := div_neg_of_neg_of_pos (not_le.mp h) hpos
        linarith
      exact div_le_div_of_nonneg_left hFn hpos (le_of_lt hirr)
    by_cases c3 : ch < F / e ^ 3
    · rw [if_pos c3]
      obtain ⟨t, ht, hb⟩ := b3 c2' (q3_nonneg h3 hc1 (le_of_lt c4))
        (le_trans (le_of_lt c3) (le_trans hF (cubeVolume_mono m1 m2 m3 (le_of_lt c4))))
      exact ⟨_, by rw [ht]; rfl, hb⟩
    · rw [if_neg c3, if_neg (not_lt.mpr (le_of_lt c4))]
      obtain ⟨hpl, hpu⟩ := p5_ge h12 h23 hs (le_of_lt c4)
      have hp0 : 0 ≤ m1 * (m2 + m3) + m2 * m3 - 1 / 4 := le_trans (sq_nonneg _) hpl
      generalize m1 * (m2 + m3) + m2 * m3 - 1 / 4 = p at *
      have hp12' : √p ≤ e := by
        rw [Real.sqrt_le_left (le_of_lt he)]
        linarith [mul_pos h1 h2]
      have hch : 0 ≤ 1 / 2 - ch := by linarith
      have hq1 : 3 / 2 * m1 * m2 * m3 * (1 / 2 - ch) ≤ p * √p + e ^ 3 := by
        have k0 : 0 ≤ p * √p := by positivity
        have k2 := mul_le_mul_of_nonneg_left (show 1 / 2 - ch ≤ 1 by linarith) (by positivity : 0 ≤ 3 / 2 * m1 * m2 * m3)
        linarith
      obtain ⟨t, ht, htl, htu, -⟩ := cubicRoot_spec (ta := e ^ 3) hp0 (le_of_lt he3) (by positivity) (by positivity) hq1
      refine ⟨_, by rw [ht]; rfl, ?_⟩
      have l1 := lip3 (t + 1 / 2) (1 / 2) (by linarith)
      have l2 := cubeVolume_mono m1 m2 m3 (show t + 1 / 2 ≤ 1 / 2 by linarith)
      have l3 := lip3 m2 (1 / 2) (by linarith)
      rw [vol_half h3 hs] at l1 l2 l3
      show |cubeVolume m1 m2 m3 (t + 1 / 2) - ch| ≤ 4 * e
      rw [abs_le]
      constructor <;> linarith
  · rw [if_neg c4, if_neg c4]
    have c4' := not_lt.mp c4
    have hvm := vol_r4 (le_of_lt h1) h12 h23 h3 (le_refl (m1 + m2)) c4'
    by_cases c3 : ch < 1 / 2 * (m1 + m2) / m3
    · rw [if_pos c3]
      have c3' := c3
      rw [lt_div_iff₀ h3] at c3'
      obtain ⟨t, ht, hb⟩ := b3 c2' (by linarith) (by
        rw [hvm, show m1 + m2 - 1 / 2 * (m1 + m2) = 1 / 2 * (m1 + m2) by ring]
        exact le_of_lt c3)
      exact ⟨_, by rw [ht]; rfl, hb⟩
    · rw [if_neg c3]
      have c3' := not_lt.mp c3
      rw [div_le_iff₀ h3] at c3'
      by_cases c5 : m1 + m2 < m3
      · rw [if_pos c5]
        refine ⟨_, rfl, ?_⟩
        rw [vol_r4 (le_of_lt h1) h12 h23 h3 (by linarith) (by
          have := mul_le_mul_of_nonneg_left hc1 (le_of_lt h3)
          linarith)]
        rw [show (m3 * ch + 1 / 2 * (m1 + m2) - 1 / 2 * (m1 + m2)) / m3 - ch = 0 by field_simp; ring, abs_zero]
        positivity
      · rw [if_neg c5]
        have em : m3 = m1 + m2 := le_antisymm (not_lt.mp c5) c4'
        have hV3 : cubeVolume m1 m2 m3 m3 ≤ ch := by
          rw [vol_r4 (le_of_lt h1) h12 h23 h3 (by linarith) le_rfl, div_le_iff₀ h3]
          linarith
        obtain ⟨t, ht, hb, x, D, hx0, hx3, hD, hV, h3x, -⟩ :=
          branch5 (le_of_lt he3) h1 h12 h23 hs (le_of_eq em) hV3 hc1
        refine ⟨_, by rw [ht]; rfl, ?_⟩
        show |cubeVolume m1 m2 m3 (t + 1 / 2) - ch| ≤ 4 * e
        have hr : 0 ≤ e ^ 3 / (D + e ^ 3) := by positivity
        have g := guard_bound hx0 he hx3
        have g2 := mul_le_mul_of_nonneg_right h3x hr
        rw [abs_le]
        constructor <;> linarith

/-! ## C36 -/

/-- The whole function: what is proved for ordered coefficients and the smaller of the two phases carries over. -/
theorem volumeIntercept_of {tp ta b1 b2 b3 c B : ℝ} (h1 : 0 ≤ b1) (h2 : 0 ≤ b2) (h3 : 0 ≤ b3) (hs : b1 + b2 + b3 = 1)
    (h : ∃ al, interceptOrdered tp ta (order3 b1 b2 b3).1 (order3 b1 b2 b3).2.1 (order3 b1 b2 b3).2.2 (min c (1 - c)) =
      some al ∧ |cubeVolume (order3 b1 b2 b3).1 (order3 b1 b2 b3).2.1 (order3 b1 b2 b3).2.2 al - min c (1 - c)| ≤ B) :
    ∃ al, volumeIntercept tp ta b1 b2 b3 c = some al ∧ |cubeVolume b1 b2 b3 al - c| ≤ B := by
  obtain ⟨al, hal, hb⟩ := h
  obtain ⟨o12, o23, osum, opos, ovol⟩ := order3_spec b1 b2 b3
  unfold volumeIntercept
  simp only
  rw [hal]
  refine ⟨_, rfl, ?_⟩
  rw [← ovol]
  have h0 := opos h1 h2 h3
  generalize order3 b1 b2 b3 = b at *
  show |cubeVolume b.1 b.2.1 b.2.2 (if 1 / 2 < c then 1 - al else al) - c| ≤ B
  by_cases hc : 1 / 2 < c
  · rw [if_pos hc]
    rw [min_eq_right (by linarith)] at hb
    have hb3 : 0 < b.2.2 := by linarith
    have hsym := cubeVolume_sym hb3 b.1 b.2.1 al
    rw [osum, hs] at hsym
    rw [show cubeVolume b.1 b.2.1 b.2.2 (1 - al) - c = -(cubeVolume b.1 b.2.1 b.2.2 al - (1 - c)) by linarith, abs_neg]
    exact hb
  · rw [if_neg hc]
    rw [min_eq_left (by linarith)] at hb
    exact hb

theorem order3_mem (x y z : ℝ) : (order3 x y z).1 * (order3 x y z).2.1 * (order3 x y z).2.2 = x * y * z ∧
    ((order3 x y z).1 = 0 → x = 0 ∨ y = 0 ∨ z = 0) := by
  unfold order3
  simp only
  rcases le_total x y with h | h
  · rw [min_eq_left h, max_eq_right h]
    split_ifs <;> exact ⟨by ring, fun h => by simp at h; tauto⟩
  · rw [min_eq_right h, max_eq_left h]
    split_ifs <;> exact ⟨by ring, fun h => by simp at h; tauto⟩

/-- C36 (without the epsilon next to `acos`). For every normalised non-negative normal and every volume fraction,
an intercept is returned and the volume under that plane is exactly the volume fraction. The product of the
coefficients must not lie strictly between 0 and the epsilon in `pr`; the one case in which the code would divide 0
by 0 without the epsilon is excluded. -/
theorem volume_intercept_exact {tp b1 b2 b3 c : ℝ} (htp : 0 < tp) (h1 : 0 ≤ b1) (h2 : 0 ≤ b2) (h3 : 0 ≤ b3)
    (hs : b1 + b2 + b3 = 1) (hc0 : 0 ≤ c) (hc1 : c ≤ 1) (hreg : b1 * b2 * b3 = 0 ∨ tp ≤ 6 * (b1 * b2 * b3))
    (hhalf : b1 * b2 * b3 ≠ 0 ∨ c ≠ 1 / 2) :
    ∃ al, volumeIntercept tp 0 b1 b2 b3 c = some al ∧
      volume.real (slabPart b1 b2 b3 al 0 1) = c := by
  obtain ⟨o12, o23, osum, opos, ovol⟩ := order3_spec b1 b2 b3
  obtain ⟨oprod, ozero⟩ := order3_mem b1 b2 b3
  have h0 := opos h1 h2 h3
  have key := volumeIntercept_of (tp := tp) (ta := 0) (c := c) (B := 0) h1 h2 h3 hs (by
    generalize order3 b1 b2 b3 = b at *
    have hb3 : 0 < b.2.2 := by linarith
    obtain ⟨al, hal, hlo, x, D, hx0, hx3, hD, hhi⟩ := intercept_regular (tp := tp) (ta := 0) (ch := min c (1 - c))
      htp le_rfl h0 o12 o23 (by linarith) (le_min hc0 (by linarith)) (by
        rcases le_total c (1 / 2) with h | h
        · exact le_trans (min_le_left _ _) h
        · exact le_trans (min_le_right _ _) (by linarith)) (by
        rcases hreg with h | h
        · rw [h, mul_assoc] at oprod
          rcases mul_eq_zero.mp oprod with h | h
          · exact Or.inl h
          · rcases mul_eq_zero.mp h with h | h
            · exact Or.inl (le_antisymm (by linarith) h0)
            · linarith
        · right; linarith) (by
        rcases hhalf with h | h
        · right; left
          intro h'
          rw [h'] at oprod
          rw [zero_mul, zero_mul] at oprod
          exact h oprod.symm
        · right; right; left
          intro h'
          apply h
          rcases le_total c (1 - c) with h2 | h2
          · rw [min_eq_left h2] at h'; exact h'
          · rw [min_eq_right h2] at h'; linarith)
    refine ⟨al, hal, ?_⟩
    rw [zero_div, mul_zero, mul_zero, add_zero] at hhi
    rw [le_antisymm hhi hlo, sub_self, abs_zero])
  obtain ⟨al, hal, hv⟩ := key
  refine ⟨al, hal, ?_⟩
  rw [slab_volume one_pos, mul_one, mul_zero, sub_zero, one_mul]
  have := abs_eq_zero.mp (le_antisymm hv (abs_nonneg _))
  linarith

/-- C36, for the code as it is, with epsilon `e^3`: for every normalised non-negative normal and every volume
fraction an intercept is returned (no NaN), and the volume under the plane differs from the volume fraction by at
most `4 e`. The full property asks for equality. -/
theorem volume_intercept_partial {e b1 b2 b3 c : ℝ} (he : 0 < e) (he1 : e ≤ 1) (h1 : 0 ≤ b1) (h2 : 0 ≤ b2)
    (h3 : 0 ≤ b3) (hs : b1 + b2 + b3 = 1) (hc0 : 0 ≤ c) (hc1 : c ≤ 1) :
    ∃ al, volumeIntercept (e ^ 3) (e ^ 3) b1 b2 b3 c = some al ∧
      |volume.real (slabPart b1 b2 b3 al 0 1) - c| ≤ 4 * e := by
  obtain ⟨o12, o23, osum, opos, ovol⟩ := order3_spec b1 b2 b3
  have h0 := opos h1 h2 h3
  have he3 : 0 < e ^ 3 := by positivity
  have hch : min c (1 - c) ≤ 1 / 2 := by
    rcases le_total c (1 / 2) with h | h
    · exact le_trans (min_le_left _ _) h
    · exact le_trans (min_le_right _ _) (by linarith)
  have key := volumeIntercept_of (tp := e ^ 3) (ta := e ^ 3) (c := c) (B := 4 * e) h1 h2 h3 hs (by
    generalize order3 b1 b2 b3 = b at *
    by_cases hreg : b.1 = 0 ∨ e ^ 3 ≤ 6 * b.1 * b.2.1 * b.2.2
    · obtain ⟨al, hal, hlo, x, D, hx0, hx3, hD, hhi⟩ := intercept_regular (ta := e ^ 3) (ch := min c (1 - c))
        he3 (le_of_lt he3) h0 o12 o23 (by linarith) (le_min hc0 (by linarith)) hch hreg (Or.inl he3)
      refine ⟨al, hal, ?_⟩
      have g := guard_bound hx0 he hx3
      rw [abs_le]
      constructor <;> linarith
    · push Not at hreg
      exact intercept_irregular he he1 (lt_of_le_of_ne h0 (Ne.symm hreg.1)) o12 o23 (by linarith)
        (le_min hc0 (by linarith)) hch hreg.2)
  obtain ⟨al, hal, hv⟩ := key
  refine ⟨al, hal, ?_⟩
  rw [slab_volume one_pos, mul_one, mul_zero, sub_zero, one_mul]
  exact hv

/-- The volume does differ, for every positive epsilon: the diagonal plane and `c = 1/2 - d`. -/
theorem volume_intercept_inexact {ta : ℝ} (hta : 0 < ta) :
    ∃ c al : ℝ, 0 < c ∧ c < 1 ∧ interceptOrdered (1 / 100) ta (1 / 3) (1 / 3) (1 / 3) c = some al ∧
      c < volume.real (slabPart (1 / 3) (1 / 3) (1 / 3) al 0 1) := by
  have hV3 : cubeVolume (1 / 3 : ℝ) (1 / 3) (1 / 3) (1 / 3) = 1 / 6 := by
    rw [vol_r1 (by norm_num) le_rfl le_rfl (by norm_num) (by norm_num) le_rfl]; norm_num
  obtain ⟨t, ht, -, x, D, hx0, hx3, hD, hV, -, hDe⟩ := branch5 (ta := ta) (m1 := 1 / 3) (m2 := 1 / 3) (m3 := 1 / 3)
    (ch := 1 / 3) (le_of_lt hta) (by norm_num) le_rfl le_rfl (by norm_num) (by norm_num) (by rw [hV3]; norm_num)
    (by norm_num)
  refine ⟨1 / 3, t + 1 / 2, by norm_num, by norm_num, ?_, ?_⟩
  · unfold interceptOrdered
    simp only
    rw [max_eq_left (by norm_num), if_neg (by norm_num), if_neg (by norm_num), if_neg (by norm_num),
      if_pos (by norm_num : (1 / 3 : ℝ) < 1 / 3 + 1 / 3), if_neg (by norm_num), if_neg (by norm_num), ht]
    rfl
  · rw [slab_volume one_pos, mul_one, mul_zero, sub_zero, one_mul, hV]
    have : 0 < ta / (D + ta) := div_pos hta hD
    linarith

/-- C36 for `fit_plane`: for every non-zero normal of any signs and every volume fraction, the plane it returns has
a volume within `4 e` of the volume fraction under it. -/
theorem fit_plane_partial {e mx my mz c : ℝ} (he : 0 < e) (he1 : e ≤ 1) (hm : mx ≠ 0 ∨ my ≠ 0 ∨ mz ≠ 0)
    (hc0 : 0 ≤ c) (hc1 : c ≤ 1) :
    ∃ nx ny nz al, fitPlane (e ^ 3) (e ^ 3) mx my mz c = some (nx, ny, nz, al) ∧ |nx| + |ny| + |nz| = 1 ∧
      |volume.real (slabPart nx ny nz al 0 1) - c| ≤ 4 * e := by
  have habs : ∀ x : ℝ, (if x < 0 then -x else x) = |x| := fun x => by
    by_cases h : x < 0
    · rw [if_pos h, abs_of_neg h]
    · rw [if_neg h, abs_of_nonneg (not_lt.mp h)]
  have hsum : 0 < |mx| + |my| + |mz| := by
    have a1 := abs_nonneg mx
    have a2 := abs_nonneg my
    have a3 := abs_nonneg mz
    rcases hm with h | h | h <;> have := abs_pos.mpr h <;> linarith
  unfold fitPlane
  simp only [habs]
  rw [if_neg (ne_of_gt hsum)]
  obtain ⟨al, hal, hv⟩ := volume_intercept_partial (b1 := |mx| / (|mx| + |my| + |mz|))
    (b2 := |my| / (|mx| + |my| + |mz|)) (b3 := |mz| / (|mx| + |my| + |mz|)) he he1 (by positivity) (by positivity)
    (by positivity) (by field_simp) hc0 hc1
  rw [hal]
  generalize hT : |mx| + |my| + |mz| = T at *
  have h : ∀ x : ℝ, |(if x < 0 then (-1 : ℝ) else 1) * (|x| / T)| = |x| / T := fun x => by
    rw [abs_mul, abs_of_nonneg (by positivity : 0 ≤ |x| / T)]
    split <;> simp
  refine ⟨_, _, _, _, rfl, ?_, ?_⟩
  · rw [h, h, h, ← add_div, ← add_div, hT]
    exact div_self (ne_of_gt hsum)
  · rw [slab_volume one_pos, mul_one, mul_zero, sub_zero, one_mul] at hv ⊢
    rw [cubeVolume_abs, h, h, h]
    convert hv using 4
    have hmm : ∀ x : ℝ, min 0 x + max 0 (-x) = 0 := fun x => by
      rcases le_total 0 x with h | h
      · rw [max_eq_left (by linarith), min_eq_left h]; simp
      · rw [max_eq_right (by linarith), min_eq_right h]; ring
    have e1 := hmm ((if mx < 0 then (-1 : ℝ) else 1) * (|mx| / T))
    have e2 := hmm ((if my < 0 then (-1 : ℝ) else 1) * (|my| / T))
    have e3 := hmm ((if mz < 0 then (-1 : ℝ) else 1) * (|mz| / T))
    linarith

/-- Double precision: the epsilon is below `(2^-17)^3`, so any `e` down to that works. A normal with mixed signs. -/
example : ∃ nx ny nz al, fitPlane (((1 : ℝ) / 2 ^ 17) ^ 3) ((1 / 2 ^ 17) ^ 3) (-1) 0 3 (1 / 3) = some (nx, ny, nz, al) ∧
    |nx| + |ny| + |nz| = 1 ∧ |volume.real (slabPart nx ny nz al 0 1) - 1 / 3| ≤ 4 * (1 / 2 ^ 17) :=
  fit_plane_partial (by norm_num) (by norm_num) (Or.inl (by norm_num)) (by norm_num) (by norm_num)

example : ∃ al, volumeIntercept (1 / 10 ^ 15) 0 (1 / 2) (1 / 6) (1 / 3) (2 / 3) = some al ∧
    volume.real (slabPart (1 / 2) (1 / 6) (1 / 3) al 0 1) = 2 / 3 :=
  volume_intercept_exact (by norm_num) (by norm_num) (by norm_num) (by norm_num) (by norm_num) (by norm_num)
    (by norm_num) (Or.inr (by norm_num)) (Or.inr (by norm_num))

end AmrWind.Vof
