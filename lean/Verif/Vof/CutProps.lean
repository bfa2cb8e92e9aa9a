import Verif.Vof.Cut
import Mathlib.MeasureTheory.Integral.Prod
import Mathlib.Topology.MetricSpace.Bounded

/-!
# C35: the volume `cut_volume` returns is a volume

The specification is Lebesgue measure: the part of a slab of the unit cell that lies under the plane, divided by
the volume of the slab.
-/

namespace AmrWind.Vof
open MeasureTheory intervalIntegral

/-- The part of the slab `r0 ≤ x ≤ r0 + dr0`, `0 ≤ y ≤ 1`, `0 ≤ z ≤ 1` that lies under the plane. -/
def slabPart (m1 m2 m3 alpha r0 dr0 : ℝ) : Set (ℝ × ℝ × ℝ) :=
  {p | p.1 ∈ Set.Icc r0 (r0 + dr0) ∧ p.2.1 ∈ Set.Icc (0 : ℝ) 1 ∧ p.2.2 ∈ Set.Icc (0 : ℝ) 1 ∧
    m1 * p.1 + m2 * p.2.1 + m3 * p.2.2 ≤ alpha}

theorem slabPart_measurable (m1 m2 m3 alpha r0 dr0 : ℝ) : MeasurableSet (slabPart m1 m2 m3 alpha r0 dr0) := by
  have h1 : MeasurableSet {p : ℝ × ℝ × ℝ | p.1 ∈ Set.Icc r0 (r0 + dr0)} := measurable_fst measurableSet_Icc
  have h2 : MeasurableSet {p : ℝ × ℝ × ℝ | p.2.1 ∈ Set.Icc (0 : ℝ) 1} :=
    (measurable_fst.comp measurable_snd) measurableSet_Icc
  have h3 : MeasurableSet {p : ℝ × ℝ × ℝ | p.2.2 ∈ Set.Icc (0 : ℝ) 1} :=
    (measurable_snd.comp measurable_snd) measurableSet_Icc
  have h4 : MeasurableSet {p : ℝ × ℝ × ℝ | m1 * p.1 + m2 * p.2.1 + m3 * p.2.2 ≤ alpha} :=
    measurableSet_le (by fun_prop) measurable_const
  exact h1.inter (h2.inter (h3.inter h4))

/-- The triple integral is Lebesgue measure. -/
theorem slab_volume {dr0 : ℝ} (hd : 0 < dr0) (m1 m2 m3 alpha r0 : ℝ) :
    volume.real (slabPart m1 m2 m3 alpha r0 dr0) = dr0 * cubeVolume (m1 * dr0) m2 m3 (alpha - m1 * r0) := by
  have hS := slabPart_measurable m1 m2 m3 alpha r0 dr0
  have hfin : volume (slabPart m1 m2 m3 alpha r0 dr0) ≠ ⊤ := by
    have hsub : slabPart m1 m2 m3 alpha r0 dr0 ⊆
        Set.Icc r0 (r0 + dr0) ×ˢ (Set.Icc (0 : ℝ) 1 ×ˢ Set.Icc (0 : ℝ) 1) := by
      intro p hp
      exact ⟨hp.1, hp.2.1, hp.2.2.1⟩
    have hK : IsCompact (Set.Icc r0 (r0 + dr0) ×ˢ (Set.Icc (0 : ℝ) 1 ×ˢ Set.Icc (0 : ℝ) 1)) :=
      isCompact_Icc.prod (isCompact_Icc.prod isCompact_Icc)
    exact ne_top_of_le_ne_top hK.measure_lt_top.ne (measure_mono hsub)
  have hint : Integrable ((slabPart m1 m2 m3 alpha r0 dr0).indicator (1 : ℝ × ℝ × ℝ → ℝ)) volume :=
    (integrable_indicator_iff hS).mpr (integrableOn_const (C := (1 : ℝ)) (hs := hfin))
  have hI : ∀ (a b : ℝ), a ≤ b → ∀ f : ℝ → ℝ,
      ∫ x, (Set.Icc a b).indicator f x = ∫ x in a..b, f x := by
    intro a b hab f
    rw [MeasureTheory.integral_indicator measurableSet_Icc, integral_Icc_eq_integral_Ioc, integral_of_le hab]
  have h0 : volume.real (slabPart m1 m2 m3 alpha r0 dr0) =
      ∫ x, ∫ y, ∫ z, (slabPart m1 m2 m3 alpha r0 dr0).indicator (1 : ℝ × ℝ × ℝ → ℝ) (x, y, z) := by
    rw [← integral_indicator_one hS]
    rw [show (volume : Measure (ℝ × ℝ × ℝ)) = (volume : Measure ℝ).prod (volume : Measure (ℝ × ℝ)) from rfl] at hint ⊢
    rw [integral_prod _ hint]
    refine integral_congr_ae ?_
    filter_upwards [hint.prod_right_ae] with x hx
    rw [show (volume : Measure (ℝ × ℝ)) = (volume : Measure ℝ).prod (volume : Measure ℝ) from rfl] at hx ⊢
    exact integral_prod _ hx
  have h1 : ∀ x y z : ℝ, (slabPart m1 m2 m3 alpha r0 dr0).indicator (1 : ℝ × ℝ × ℝ → ℝ) (x, y, z) =
      (Set.Icc r0 (r0 + dr0)).indicator (fun x => (Set.Icc (0 : ℝ) 1).indicator
        (fun y => (Set.Icc (0 : ℝ) 1).indicator (fun z => under (alpha - (m1 * x + m2 * y + m3 * z))) z) y) x := by
    intro x y z
    unfold under slabPart
    simp only [Set.indicator_apply, Set.mem_ofPred_eq, Pi.one_apply, sub_nonneg]
    by_cases hx : x ∈ Set.Icc r0 (r0 + dr0) <;> by_cases hy : y ∈ Set.Icc (0 : ℝ) 1 <;>
      by_cases hz : z ∈ Set.Icc (0 : ℝ) 1 <;> simp [hx, hy, hz]
  have h2 : ∀ x y : ℝ, ∫ z, (slabPart m1 m2 m3 alpha r0 dr0).indicator (1 : ℝ × ℝ × ℝ → ℝ) (x, y, z) =
      (Set.Icc r0 (r0 + dr0)).indicator (fun x => (Set.Icc (0 : ℝ) 1).indicator
        (fun y => ∫ z in (0 : ℝ)..1, under (alpha - (m1 * x + m2 * y + m3 * z))) y) x := by
    intro x y
    simp only [h1]
    by_cases hx : x ∈ Set.Icc r0 (r0 + dr0) <;> by_cases hy : y ∈ Set.Icc (0 : ℝ) 1 <;>
      simp only [Set.indicator_of_mem, Set.indicator_of_notMem, hx, hy, not_false_eq_true, MeasureTheory.integral_zero]
    exact hI 0 1 zero_le_one _
  have h3 : ∀ x : ℝ, ∫ y, ∫ z, (slabPart m1 m2 m3 alpha r0 dr0).indicator (1 : ℝ × ℝ × ℝ → ℝ) (x, y, z) =
      (Set.Icc r0 (r0 + dr0)).indicator (fun x => ∫ y in (0 : ℝ)..1, ∫ z in (0 : ℝ)..1,
        under (alpha - (m1 * x + m2 * y + m3 * z))) x := by
    intro x
    simp only [h2]
    by_cases hx : x ∈ Set.Icc r0 (r0 + dr0)
    · simp only [Set.indicator_of_mem, hx]
      exact hI 0 1 zero_le_one _
    · simp only [Set.indicator_of_notMem, hx, not_false_eq_true, MeasureTheory.integral_zero]
  rw [h0]
  simp only [h3]
  rw [hI _ _ (by linarith)]
  have h4 := intervalIntegral.smul_integral_comp_add_mul (fun x => ∫ y in (0 : ℝ)..1, ∫ z in (0 : ℝ)..1,
        under (alpha - (m1 * x + m2 * y + m3 * z))) (a := 0) (b := 1) dr0 r0
  simp only [mul_zero, add_zero, mul_one, smul_eq_mul] at h4
  rw [← h4]
  congr 1
  unfold cubeVolume
  refine integral_congr fun x _ => integral_congr fun y _ => integral_congr fun z _ => ?_
  show under _ = under _
  congr 1
  ring

/-! ## C35 -/

theorem denom_ne {m1 m2 m3 dr0 : ℝ} (hd : 0 < dr0) (hm : m1 ≠ 0 ∨ m2 ≠ 0 ∨ m3 ≠ 0) :
    |m1| * dr0 + |m2| + |m3| ≠ 0 := by
  have h1 : 0 ≤ |m1| * dr0 := by positivity
  have h2 := abs_nonneg m2
  have h3 := abs_nonneg m3
  rcases hm with h | h | h
  · have : 0 < |m1| * dr0 := mul_pos (abs_pos.mpr h) hd
    linarith
  · have := abs_pos.mpr h
    linarith
  · have := abs_pos.mpr h
    linarith

/-- C35. For every plane that is not degenerate and every slab, the value returned is the fraction of the slab
that lies under the plane, up to a quarter of the machine epsilon added to one denominator. -/
theorem cut_volume_is_volume {tiny m1 m2 m3 alpha r0 dr0 : ℝ} (ht : 0 ≤ tiny) (hd : 0 < dr0)
    (hm : m1 ≠ 0 ∨ m2 ≠ 0 ∨ m3 ≠ 0) :
    ∃ v, cutVolume tiny m1 m2 m3 alpha r0 dr0 = some v ∧ 0 ≤ v ∧ v ≤ 1 ∧
      |v - volume.real (slabPart m1 m2 m3 alpha r0 dr0) / dr0| ≤ tiny / 4 := by
  obtain ⟨v, hv, h0, h1, h⟩ := cutVolume_near (alpha := alpha) (r0 := r0) ht (le_of_lt hd) (denom_ne hd hm)
  refine ⟨v, hv, h0, h1, ?_⟩
  rw [slab_volume hd, mul_div_cancel_left₀ _ (ne_of_gt hd)]
  exact h

/-- C35. Without that epsilon it is the fraction exactly. -/
theorem cut_volume_exact {m1 m2 m3 alpha r0 dr0 : ℝ} (hd : 0 < dr0) (hm : m1 ≠ 0 ∨ m2 ≠ 0 ∨ m3 ≠ 0) :
    cutVolume 0 m1 m2 m3 alpha r0 dr0 = some (volume.real (slabPart m1 m2 m3 alpha r0 dr0) / dr0) := by
  rw [cutVolume_exact (le_of_lt hd) (denom_ne hd hm), slab_volume hd, mul_div_cancel_left₀ _ (ne_of_gt hd)]

/-- C35. Raising the plane never lowers the volume (without the epsilon). -/
theorem cut_volume_mono {m1 m2 m3 alpha beta r0 dr0 v w : ℝ} (hd : 0 < dr0) (hab : alpha ≤ beta)
    (hv : cutVolume 0 m1 m2 m3 alpha r0 dr0 = some v) (hw : cutVolume 0 m1 m2 m3 beta r0 dr0 = some w) : v ≤ w := by
  by_cases hm : |m1| * dr0 + |m2| + |m3| = 0
  · unfold cutVolume at hv
    simp [hm] at hv
  rw [cutVolume_exact (le_of_lt hd) hm] at hv hw
  injection hv with hv
  injection hw with hw
  rw [← hv, ← hw]
  exact cubeVolume_mono _ _ _ (by linarith)

/-- C35. With the epsilon the volume can drop when the plane is raised, but by at most half the epsilon. -/
theorem cut_volume_mono_partial {tiny m1 m2 m3 alpha beta r0 dr0 v w : ℝ} (ht : 0 ≤ tiny) (hd : 0 < dr0)
    (hab : alpha ≤ beta) (hv : cutVolume tiny m1 m2 m3 alpha r0 dr0 = some v)
    (hw : cutVolume tiny m1 m2 m3 beta r0 dr0 = some w) : v ≤ w + tiny / 2 := by
  by_cases hm : |m1| * dr0 + |m2| + |m3| = 0
  · unfold cutVolume at hv
    simp [hm] at hv
  obtain ⟨v', hv', -, -, h1⟩ := cutVolume_near (alpha := alpha) (r0 := r0) ht (le_of_lt hd) hm
  obtain ⟨w', hw', -, -, h2⟩ := cutVolume_near (alpha := beta) (r0 := r0) ht (le_of_lt hd) hm
  rw [hv] at hv'
  rw [hw] at hw'
  injection hv' with hv'
  injection hw' with hw'
  subst hv' hw'
  have h3 := cubeVolume_mono (m1 * dr0) m2 m3 (show alpha - m1 * r0 ≤ beta - m1 * r0 by linarith)
  rw [abs_le] at h1 h2
  linarith [h1.2, h2.1]

/-- For every positive epsilon the volume does drop somewhere. -/
theorem cut_volume_not_mono {tiny : ℝ} (ht : 0 < tiny) : ∃ alpha beta v w : ℝ, alpha < beta ∧
    cutVolume tiny (1 / 6) (1 / 3) (1 / 2) alpha 0 1 = some v ∧
    cutVolume tiny (1 / 6) (1 / 3) (1 / 2) beta 0 1 = some w ∧ w < v := by
  have hform : ∀ a : ℝ, 0 < a → a ≤ 1 / 6 → cutVolume tiny (1 / 6) (1 / 3) (1 / 2) a 0 1 =
      some (plic tiny (1 / 6) (1 / 3) (1 / 2) a) := by
    intro a h0 h1
    unfold cutVolume order3
    have e1 : |(1 / 6 : ℝ)| = 1 / 6 := abs_of_pos (by norm_num)
    have e2 : |(1 / 3 : ℝ)| = 1 / 3 := abs_of_pos (by norm_num)
    have e3 : |(1 / 2 : ℝ)| = 1 / 2 := abs_of_pos (by norm_num)
    simp only [e1, e2, e3]
    norm_num
    have e4 : min 1 a = a := min_eq_right (by linarith)
    have e5 : max 0 a = a := max_eq_right (by linarith)
    have e6 : min a (1 - a) = a := min_eq_left (by linarith)
    rw [e4, e5, e6, if_pos (by linarith)]
  obtain ⟨d, hd0, hd1, hd⟩ : ∃ d : ℝ, 0 < d ∧ d < 1 ∧ (1 - 3 * d) * (1 + tiny) > 1 := by
    refine ⟨tiny / (4 * (1 + tiny)), by positivity, ?_, ?_⟩
    · rw [div_lt_one (by positivity)]; linarith
    · have : (1 - 3 * (tiny / (4 * (1 + tiny)))) * (1 + tiny) = 1 + tiny / 4 := by
        field_simp
        ring
      rw [this]
      linarith
  refine ⟨1 / 6 * (1 - d), 1 / 6, _, _, by linarith, hform _ ?_ ?_, hform _ (by norm_num) le_rfl, ?_⟩
  · apply mul_pos (by norm_num) (by linarith)
  · linarith
  · unfold plic
    simp only
    rw [if_pos (by norm_num : (0 : ℝ) < 1 / 6), if_neg (lt_irrefl _), if_pos (by norm_num : (1 / 6 : ℝ) < 1 / 3),
      if_pos (by apply mul_pos (by norm_num) (by linarith)), if_pos (by linarith)]
    have hc : 1 - 3 * d ≤ (1 - d) * (1 - d) * (1 - d) := by nlinarith [mul_pos hd0 hd0]
    have hk : 1 / (1 + tiny) < 1 - 3 * d := by
      rw [div_lt_iff₀ (by linarith)]; linarith
    have e1 : (1 / 6 : ℝ) * (1 / 6 - 1 / 6) / (2 * (1 / 3) * (1 / 2)) + 1 / 6 * (1 / 6) / (6 * (1 / 3) * (1 / 2) + tiny) =
        1 / 36 * (1 / (1 + tiny)) := by
      norm_num
      ring
    have e2 : 1 / 6 * (1 - d) * (1 / 6 * (1 - d)) * (1 / 6 * (1 - d)) / (6 * (1 / 6) * (1 / 3) * (1 / 2)) =
        1 / 36 * ((1 - d) * (1 - d) * (1 - d)) := by
      ring
    rw [e1, e2]
    linarith

/-- C35. At and below the lowest corner the volume is 0, at and above the highest corner it is 1, exactly. -/
theorem cut_volume_limits {tiny m1 m2 m3 alpha r0 dr0 : ℝ} (hm : 0 < |m1| * dr0 + |m2| + |m3|) :
    (alpha ≤ m1 * r0 + min 0 (m1 * dr0) + min 0 m2 + min 0 m3 → cutVolume tiny m1 m2 m3 alpha r0 dr0 = some 0) ∧
    (0 ≤ dr0 → m1 * r0 + max 0 (m1 * dr0) + max 0 m2 + max 0 m3 ≤ alpha →
      cutVolume tiny m1 m2 m3 alpha r0 dr0 = some 1) := by
  have hmm : ∀ x : ℝ, max 0 (-x) = - min 0 x := fun x => by
    rcases le_total 0 x with h | h
    · rw [max_eq_left (by linarith), min_eq_left h]; simp
    · rw [max_eq_right (by linarith), min_eq_right h]
  have habs : ∀ x : ℝ, |x| = max 0 x + max 0 (-x) := fun x => by
    rcases le_total 0 x with h | h
    · rw [abs_of_nonneg h, max_eq_right h, max_eq_left (by linarith)]; ring
    · rw [abs_of_nonpos h, max_eq_left h, max_eq_right (by linarith)]; ring
  constructor
  · intro h
    unfold cutVolume
    simp only
    rw [if_neg (ne_of_gt hm)]
    have h0 : (alpha - m1 * r0 + max 0 (-m1 * dr0) + max 0 (-m2) + max 0 (-m3)) /
        (|m1| * dr0 + |m2| + |m3|) ≤ 0 := by
      apply div_nonpos_of_nonpos_of_nonneg _ (le_of_lt hm)
      rw [show -m1 * dr0 = -(m1 * dr0) by ring, hmm, hmm, hmm]
      linarith
    rw [min_eq_right (by linarith : _ ≤ (1 : ℝ)), max_eq_left h0]
    unfold plic
    norm_num
  · intro hd h
    unfold cutVolume
    simp only
    rw [if_neg (ne_of_gt hm)]
    have h0 : 1 ≤ (alpha - m1 * r0 + max 0 (-m1 * dr0) + max 0 (-m2) + max 0 (-m3)) /
        (|m1| * dr0 + |m2| + |m3|) := by
      rw [le_div_iff₀ hm, one_mul, show |m1| * dr0 = |m1 * dr0| by rw [abs_mul, abs_of_nonneg hd],
        habs (m1 * dr0), habs m2, habs m3, show -m1 * dr0 = -(m1 * dr0) by ring]
      linarith
    rw [min_eq_left h0, max_eq_right zero_le_one]
    unfold plic
    norm_num

/-- `order3` does not depend on the order of its arguments. -/
theorem order3_perm (x y z : ℝ) : order3 x y z = order3 y x z ∧ order3 x y z = order3 x z y := by
  unfold order3
  simp only
  refine ⟨by rw [min_comm, max_comm], ?_⟩
  rcases le_total x y with h1 | h1 <;> rcases le_total x z with h2 | h2 <;> rcases le_total y z with h3 | h3 <;>
    simp only [h1, h2, h3, min_eq_left, min_eq_right, max_eq_left, max_eq_right] <;>
    split_ifs <;> refine Prod.ext ?_ (Prod.ext ?_ ?_) <;> dsimp only <;> linarith

/-- C35. For the whole cell the value does not depend on the order of the normal components, epsilon or not. -/
theorem cut_volume_perm (tiny m1 m2 m3 alpha : ℝ) :
    cutVolume tiny m1 m2 m3 alpha 0 1 = cutVolume tiny m2 m1 m3 alpha 0 1 ∧
    cutVolume tiny m1 m2 m3 alpha 0 1 = cutVolume tiny m1 m3 m2 alpha 0 1 := by
  unfold cutVolume
  simp only [mul_one, mul_zero, sub_zero]
  constructor
  · rw [show |m2| + |m1| + |m3| = |m1| + |m2| + |m3| by ring,
      show alpha + max 0 (-m2) + max 0 (-m1) + max 0 (-m3) = alpha + max 0 (-m1) + max 0 (-m2) + max 0 (-m3) by ring,
      (order3_perm (|m2| / _) _ _).1]
  · rw [show |m1| + |m3| + |m2| = |m1| + |m2| + |m3| by ring,
      show alpha + max 0 (-m1) + max 0 (-m3) + max 0 (-m2) = alpha + max 0 (-m1) + max 0 (-m2) + max 0 (-m3) by ring,
      (order3_perm (|m1| / _) _ _).2]

/-- A slab of a tilted cell with a negative component: the hypotheses are met and the value is not trivial. -/
example : (0 : ℝ) < 1 / 2 ∧ ((1 : ℝ) ≠ 0 ∨ (-1 : ℝ) ≠ 0 ∨ (2 : ℝ) ≠ 0) := ⟨by norm_num, Or.inl (by norm_num)⟩

example : cutVolume (0 : ℚ) 1 (-1) 2 (1 / 2) (1 / 4) (1 / 2) = some (97 / 384) := by
  norm_num [cutVolume, order3, plic]

end AmrWind.Vof
