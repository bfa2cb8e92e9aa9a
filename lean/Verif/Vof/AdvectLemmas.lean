import Verif.Vof.Advect
import Verif.Vof.InterceptProps

/-! # Lemmas for C32, C33 -/

namespace AmrWind.Vof
open MeasureTheory intervalIntegral

/-! ## Normals -/

theorem normalise_ne {m : ℝ × ℝ × ℝ} (h : m.1 ≠ 0 ∨ m.2.1 ≠ 0 ∨ m.2.2 ≠ 0) :
    (normalise 0 m).1 ≠ 0 ∨ (normalise 0 m).2.1 ≠ 0 ∨ (normalise 0 m).2.2 ≠ 0 := by
  unfold normalise
  simp only [add_zero]
  have hs : |m.1| + |m.2.1| + |m.2.2| ≠ 0 := by
    have a1 := abs_nonneg m.1
    have a2 := abs_nonneg m.2.1
    have a3 := abs_nonneg m.2.2
    rcases h with h | h | h <;> have := abs_pos.mpr h <;> linarith
  rcases h with h | h | h
  · exact Or.inl (div_ne_zero h hs)
  · exact Or.inr (Or.inl (div_ne_zero h hs))
  · exact Or.inr (Or.inr (div_ne_zero h hs))

/-- The reconstructed normal is never zero, whatever the field. -/
theorem mixedYoungs_ne (tiny : ℝ) (c : Cell → ℝ) (a : Cell) :
    (mixedYoungs tiny c a).1 ≠ 0 ∨ (mixedYoungs tiny c a).2.1 ≠ 0 ∨ (mixedYoungs tiny c a).2.2 ≠ 0 := by
  have pm : ∀ p : Prop, ∀ [Decidable p], (if p then (1 : ℝ) else -1) ≠ 0 := fun p _ => by split <;> norm_num
  have hX := normalise_ne (m := centralX c a) (Or.inl (by unfold centralX; exact pm _))
  have hY := normalise_ne (m := centralY c a) (Or.inr (Or.inl (by unfold centralY; exact pm _)))
  have hZ := normalise_ne (m := centralZ c a) (Or.inr (Or.inr (by unfold centralZ; exact pm _)))
  unfold mixedYoungs
  simp only
  generalize normalise 0 (centralX c a) = mX at *
  generalize normalise 0 (centralY c a) = mY at *
  generalize normalise 0 (centralZ c a) = mZ at *
  generalize normalise tiny (youngs c a) = m3
  generalize (if |mX.1| < |mY.2.1| then |mY.2.1| else |mX.1|) = t0
  by_cases h : max |m3.2.2| (max |m3.2.1| |m3.1|) <
      |if t0 < |mZ.2.2| then mZ.2.2 else if |mX.1| < |mY.2.1| then mY.2.1 else mX.1| ∧
      0 < max |m3.2.2| (max |m3.2.1| |m3.1|)
  · rw [if_pos h]
    rcases lt_max_iff.mp h.2 with h | h
    · exact Or.inr (Or.inr (abs_pos.mp h))
    · rcases lt_max_iff.mp h with h | h
      · exact Or.inr (Or.inl (abs_pos.mp h))
      · exact Or.inl (abs_pos.mp h)
  · rw [if_neg h]
    by_cases h1 : t0 < |mZ.2.2|
    · rw [if_pos h1]; exact hZ
    · rw [if_neg h1]
      by_cases h2 : |mX.1| < |mY.2.1|
      · rw [if_pos h2]; exact hY
      · rw [if_neg h2]; exact hX

/-! ## Strips of a cell -/

theorem Nice.integrable_on {g : ℝ → ℝ} (hg : Nice g) (t b p q : ℝ) :
    IntervalIntegrable (fun x => g (t - b * x)) volume p q := by
  rw [intervalIntegrable_iff]
  refine Measure.integrableOn_of_bounded (M := 1) (by simp) ?_ ?_
  · exact (hg.1.comp (by fun_prop)).aestronglyMeasurable
  · refine Filter.Eventually.of_forall fun x => ?_
    rw [Real.norm_eq_abs, abs_le]
    exact ⟨by linarith [(hg.2 (t - b * x)).1], (hg.2 _).2⟩

theorem strip_eq (G : ℝ → ℝ) (m t r d : ℝ) : d * avg (m * d) G (t - m * r) = ∫ x in r..r + d, G (t - m * x) := by
  have h := intervalIntegral.smul_integral_comp_add_mul (fun x => G (t - m * x)) (a := 0) (b := 1) d r
  simp only [mul_zero, add_zero, mul_one, smul_eq_mul] at h
  rw [← h]
  unfold avg
  congr 1
  refine integral_congr fun x _ => ?_
  show G _ = G _
  congr 1
  ring

/-- Two strips at the ends of the cell: not more than the whole, and what is left out is at most its width. -/
theorem strips {G : ℝ → ℝ} (hG : Nice G) (m t : ℝ) {a b : ℝ} (hab : a + b ≤ 1) :
    a * avg (m * a) G (t - m * 0) + b * avg (m * b) G (t - m * (1 - b)) ≤ avg m G t ∧
    avg m G t - (1 - a - b) ≤ a * avg (m * a) G (t - m * 0) + b * avg (m * b) G (t - m * (1 - b)) := by
  have e0 : avg m G t = ∫ x in (0 : ℝ)..1, G (t - m * x) := rfl
  have e1 := strip_eq G m t 0 a
  have e2 := strip_eq G m t (1 - b) b
  rw [zero_add] at e1
  rw [show 1 - b + b = 1 by ring] at e2
  have hsplit : (∫ x in (0 : ℝ)..a, G (t - m * x)) + (∫ x in a..(1 - b), G (t - m * x)) +
      (∫ x in (1 - b)..1, G (t - m * x)) = ∫ x in (0 : ℝ)..1, G (t - m * x) := by
    rw [integral_add_adjacent_intervals (hG.integrable_on t m 0 a) (hG.integrable_on t m a (1 - b)),
      integral_add_adjacent_intervals (hG.integrable_on t m 0 (1 - b)) (hG.integrable_on t m (1 - b) 1)]
  have hmid0 : 0 ≤ ∫ x in a..(1 - b), G (t - m * x) :=
    integral_nonneg (by linarith) fun x _ => (hG.2 _).1
  have hmid1 : (∫ x in a..(1 - b), G (t - m * x)) ≤ 1 - a - b := by
    have := integral_mono (μ := volume) (a := a) (b := 1 - b) (by linarith) (hG.integrable_on t m a (1 - b))
      (intervalIntegrable_const (c := (1 : ℝ))) (fun x => (hG.2 _).2)
    simp at this
    linarith
  rw [e0, e1, e2]
  constructor <;> linarith

/-! ## One cell -/

/-- The rotated plane and the whole cell. -/
theorem cube_rot (a b c t : ℝ) : cubeVolume b c a t = cubeVolume a b c t ∧ cubeVolume c a b t = cubeVolume a b c t :=
  ⟨by rw [cubeVolume_swap23, cubeVolume_swap12], by rw [cubeVolume_swap12, cubeVolume_swap23]⟩

/-- The two cuts of one reconstructed cell. -/
theorem cut_pair {eps m1 m2 m3 al p q : ℝ} (he : 0 ≤ eps) (hm : |m1| + |m2| + |m3| = 1) (hp : 0 ≤ p) (hq : 0 ≤ q)
    (hpq : p + q ≤ 1) :
    ∃ l r, (if 0 < p then cutVolume eps m1 m2 m3 al 0 p else some 0) = some l ∧
      (if 0 < q then cutVolume eps m1 m2 m3 al (1 - q) q else some 0) = some r ∧
      0 ≤ l ∧ l ≤ 1 ∧ 0 ≤ r ∧ r ≤ 1 ∧ (p = 0 → l = 0) ∧ (q = 0 → r = 0) ∧
      p * l + q * r ≤ cubeVolume m1 m2 m3 al + eps / 4 ∧
      p * (1 - l) + q * (1 - r) ≤ 1 - cubeVolume m1 m2 m3 al + eps / 4 := by
  have hne : m1 ≠ 0 ∨ m2 ≠ 0 ∨ m3 ≠ 0 := by
    by_contra h
    push Not at h
    rw [h.1, h.2.1, h.2.2] at hm
    norm_num at hm
  have one : ∀ r0 d : ℝ, 0 ≤ d → ∃ l, (if 0 < d then cutVolume eps m1 m2 m3 al r0 d else some 0) = some l ∧
      0 ≤ l ∧ l ≤ 1 ∧ (d = 0 → l = 0) ∧
      |d * l - d * cubeVolume (m1 * d) m2 m3 (al - m1 * r0)| ≤ d * (eps / 4) := by
    intro r0 d hd
    by_cases h : 0 < d
    · rw [if_pos h]
      obtain ⟨v, hv, h0, h1, hb⟩ := cutVolume_near (alpha := al) (r0 := r0) he hd (denom_ne h hne)
      refine ⟨v, hv, h0, h1, fun h' => absurd h' (ne_of_gt h), ?_⟩
      rw [← mul_sub, abs_mul, abs_of_nonneg hd]
      exact mul_le_mul_of_nonneg_left hb hd
    · rw [if_neg h]
      have : d = 0 := le_antisymm (not_lt.mp h) hd
      subst this
      exact ⟨0, rfl, le_rfl, zero_le_one, fun _ => rfl, by simp⟩
  obtain ⟨l, hl, l0, l1, lz, lb⟩ := one 0 p hp
  obtain ⟨r, hr, r0, r1, rz, rb⟩ := one (1 - q) q hq
  refine ⟨l, r, hl, hr, l0, l1, r0, r1, lz, rz, ?_⟩
  have hG : Nice (avg m2 (avg m3 under)) := nice_avg (nice_avg nice_under m3) m2
  obtain ⟨s1, s2⟩ := strips hG m1 al hpq
  rw [cubeVolume_eq] at lb rb ⊢
  rw [abs_le] at lb rb
  have : (p + q) * (eps / 4) ≤ 1 * (eps / 4) := mul_le_mul_of_nonneg_right hpq (by positivity)
  constructor <;> linarith [lb.1, lb.2, rb.1, rb.2]

/-- C32, one cell: with at most one cell width leaving through both faces, the amounts of both phases that leave are
not more than what the cell holds, up to the tolerances. No NaN appears. -/
theorem eulerian_bounds {e thr : ℝ} (he : 0 < e) (he1 : e ≤ 1) (ht : 0 ≤ thr) (dir : Dir) {aL aR : ℝ}
    (hcfl : max 0 (-aL) + max 0 aR ≤ 1) (c : Cell → ℝ) (a : Cell) (h0 : 0 ≤ c a) (h1 : c a ≤ 1) :
    ∃ l r, eulerianImplicit ⟨e ^ 3, thr⟩ dir aL aR c a = some (l, r) ∧ 0 ≤ l ∧ l ≤ 1 ∧ 0 ≤ r ∧ r ≤ 1 ∧
      (0 ≤ aL → l = 0) ∧ (aR ≤ 0 → r = 0) ∧
      max 0 (-aL) * l + max 0 aR * r ≤ c a + (5 * e + thr) ∧
      max 0 (-aL) * (1 - l) + max 0 aR * (1 - r) ≤ 1 - c a + (5 * e + thr) := by
  have hp0 : 0 ≤ max 0 (-aL) := le_max_left _ _
  have hq0 : 0 ≤ max 0 aR := le_max_left _ _
  unfold eulerianImplicit
  simp only
  by_cases hf : |c a - 1| ≤ thr
  · rw [if_pos hf]
    rw [abs_le] at hf
    refine ⟨_, _, rfl, by split <;> norm_num, by split <;> norm_num, by split <;> norm_num, by split <;> norm_num,
      fun h => if_neg (not_lt.mpr h), fun h => if_neg (not_lt.mpr h), ?_, ?_⟩
    · have k1 : max 0 (-aL) * (if aL < 0 then 1 else 0) ≤ max 0 (-aL) := by split <;> simp
      have k2 : max 0 aR * (if 0 < aR then 1 else 0) ≤ max 0 aR := by split <;> simp
      linarith
    · have k1 : max 0 (-aL) * (1 - (if aL < 0 then 1 else 0)) = 0 := by
        by_cases h : aL < 0
        · rw [if_pos h]; ring
        · rw [max_eq_left (by linarith)]; ring
      have k2 : max 0 aR * (1 - (if 0 < aR then 1 else 0)) = 0 := by
        by_cases h : 0 < aR
        · rw [if_pos h]; ring
        · rw [max_eq_left (by linarith)]; ring
      rw [k1, k2]
      linarith
  rw [if_neg hf]
  by_cases hm : thr < c a
  swap
  · rw [if_neg hm]
    refine ⟨0, 0, rfl, le_rfl, zero_le_one, le_rfl, zero_le_one, fun _ => rfl, fun _ => rfl, ?_, ?_⟩
    · linarith
    · have := not_lt.mp hm
      linarith
  rw [if_pos hm]
  obtain ⟨nx, ny, nz, al, hfit, hsum, hvol⟩ := fit_plane_partial he he1 (mixedYoungs_ne (e ^ 3) c a) h0 h1
  rw [slab_volume one_pos, mul_one, mul_zero, sub_zero, one_mul, abs_le] at hvol
  rw [hfit]
  simp only
  have hE : e ^ 3 / 4 ≤ e := by
    have k : e ^ 2 ≤ 1 := by nlinarith
    have : e ^ 3 = e * e ^ 2 := by ring
    rw [this]
    nlinarith
  have key : ∀ m1 m2 m3 : ℝ, |m1| + |m2| + |m3| = 1 → cubeVolume m1 m2 m3 al = cubeVolume nx ny nz al →
      ∃ l r, (if aL < 0 then cutVolume (e ^ 3) m1 m2 m3 al 0 (-aL) else some 0) = some l ∧
      (if 0 < aR then cutVolume (e ^ 3) m1 m2 m3 al (1 - aR) aR else some 0) = some r ∧
      0 ≤ l ∧ l ≤ 1 ∧ 0 ≤ r ∧ r ≤ 1 ∧ (0 ≤ aL → l = 0) ∧ (aR ≤ 0 → r = 0) ∧
      max 0 (-aL) * l + max 0 aR * r ≤ c a + (5 * e + thr) ∧
      max 0 (-aL) * (1 - l) + max 0 aR * (1 - r) ≤ 1 - c a + (5 * e + thr) := by
    intro m1 m2 m3 hs hV
    obtain ⟨l, r, hl, hr, l0, l1, r0, r1, lz, rz, b1, b2⟩ := cut_pair (eps := e ^ 3) (al := al) (by positivity) hs hp0 hq0 hcfl
    rw [hV] at b1 b2
    have hl' : (if aL < 0 then cutVolume (e ^ 3) m1 m2 m3 al 0 (-aL) else some 0) = some l := by
      by_cases h : aL < 0
      · rw [if_pos h]
        rw [if_pos (lt_max_of_lt_right (by linarith)), max_eq_right (by linarith)] at hl
        exact hl
      · rw [if_neg h]
        rw [if_neg (by rw [max_eq_left (by linarith)]; exact lt_irrefl _)] at hl
        exact hl
    have hr' : (if 0 < aR then cutVolume (e ^ 3) m1 m2 m3 al (1 - aR) aR else some 0) = some r := by
      by_cases h : 0 < aR
      · rw [if_pos h]
        rw [if_pos (lt_max_of_lt_right h), max_eq_right (le_of_lt h)] at hr
        exact hr
      · rw [if_neg h]
        rw [if_neg (by rw [max_eq_left (by linarith)]; exact lt_irrefl _)] at hr
        exact hr
    refine ⟨l, r, hl', hr', l0, l1, r0, r1, fun h => lz (max_eq_left (by linarith)), fun h => rz (max_eq_left h), ?_, ?_⟩ <;>
      linarith [hvol.1, hvol.2]
  cases dir
  · obtain ⟨l, r, hl, hr, rest⟩ := key nx ny nz hsum rfl
    exact ⟨l, r, by simp only [hl, hr], rest⟩
  · obtain ⟨l, r, hl, hr, rest⟩ := key ny nz nx (by linarith) (cube_rot _ _ _ _).1
    exact ⟨l, r, by simp only [hl, hr], rest⟩
  · obtain ⟨l, r, hl, hr, rest⟩ := key nz nx ny (by linarith) (cube_rot _ _ _ _).2
    exact ⟨l, r, by simp only [hl, hr], rest⟩

end AmrWind.Vof
