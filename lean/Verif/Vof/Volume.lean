import Verif.Vof.Plic
import Mathlib.MeasureTheory.Integral.IntervalIntegral.FundThmCalculus
import Mathlib.MeasureTheory.Integral.IntervalIntegral.IntegrationByParts
import Mathlib.MeasureTheory.Integral.DominatedConvergence
import Mathlib.MeasureTheory.Integral.Prod
import Mathlib.MeasureTheory.Integral.DivergenceTheorem
import Mathlib.MeasureTheory.Constructions.BorelSpace.Order
import Mathlib.Analysis.Calculus.Deriv.Pow
import Mathlib.Analysis.Calculus.Deriv.Add
import Mathlib.Analysis.Calculus.Deriv.Mul
import Mathlib.Tactic.Linarith
import Mathlib.Tactic.FieldSimp
import Mathlib.Tactic.Ring

/-! # The volume under a plane in the unit cube, and `plic` -/

namespace AmrWind.Vof
open MeasureTheory intervalIntegral

/-! ## Specification -/

/-- 1 below the plane and on it, 0 above. -/
noncomputable def under (t : ℝ) : ℝ := if 0 ≤ t then 1 else 0

/-- Volume of the part `m1 x + m2 y + m3 z ≤ t` of the unit cube, as a triple integral. -/
noncomputable def cubeVolume (m1 m2 m3 t : ℝ) : ℝ :=
  ∫ x in (0 : ℝ)..1, ∫ y in (0 : ℝ)..1, ∫ z in (0 : ℝ)..1, under (t - (m1 * x + m2 * y + m3 * z))

/-! ## Averages along one direction -/

/-- Average of `g(t - b x)` over `0 ≤ x ≤ 1`. -/
noncomputable def avg (b : ℝ) (g : ℝ → ℝ) (t : ℝ) : ℝ := ∫ x in (0 : ℝ)..1, g (t - b * x)

theorem cubeVolume_eq (m1 m2 m3 t : ℝ) : cubeVolume m1 m2 m3 t = avg m1 (avg m2 (avg m3 under)) t := by
  unfold cubeVolume avg
  refine integral_congr fun x _ => integral_congr fun y _ => integral_congr fun z _ => ?_
  show under _ = under _
  congr 1
  ring

theorem avg_zero (g : ℝ → ℝ) : avg 0 g = g := by
  funext t
  unfold avg
  simp

theorem avg_neg (b : ℝ) (g : ℝ → ℝ) (t : ℝ) : avg (-b) g t = avg b g (t + b) := by
  unfold avg
  have := integral_comp_sub_left (fun x => g (t + b - b * x)) (a := 0) (b := 1) 1
  simp only [sub_self, sub_zero] at this
  rw [← this]
  refine integral_congr fun x _ => ?_
  show g _ = g _
  congr 1
  ring

theorem avg_scale (s b : ℝ) (g : ℝ → ℝ) (t : ℝ) : avg b (fun u => g (u / s)) t = avg (b / s) g (t / s) := by
  unfold avg
  refine integral_congr fun x _ => ?_
  show g _ = g _
  congr 1
  ring

/-- A bounded measurable function. -/
def Nice (g : ℝ → ℝ) : Prop := Measurable g ∧ ∀ t, 0 ≤ g t ∧ g t ≤ 1

theorem nice_under : Nice under := by
  constructor
  · unfold under
    exact Measurable.ite measurableSet_Ici measurable_const measurable_const
  · intro t; unfold under; split <;> norm_num

theorem Nice.comp_integrable {g : ℝ → ℝ} (hg : Nice g) (t b : ℝ) :
    IntervalIntegrable (fun x => g (t - b * x)) volume 0 1 := by
  rw [intervalIntegrable_iff]
  refine Measure.integrableOn_of_bounded (M := 1) (by simp) ?_ ?_
  · exact (hg.1.comp (by fun_prop)).aestronglyMeasurable
  · refine Filter.Eventually.of_forall fun x => ?_
    rw [Real.norm_eq_abs, abs_le]
    exact ⟨by linarith [(hg.2 (t - b * x)).1], (hg.2 _).2⟩

theorem nice_avg {g : ℝ → ℝ} (hg : Nice g) (b : ℝ) : Nice (avg b g) := by
  constructor
  · have : avg b g = fun t => ∫ x in Set.Ioc (0 : ℝ) 1, g (t - b * x) := by
      funext t; unfold avg; rw [integral_of_le zero_le_one]
    rw [this]
    have hm : StronglyMeasurable (Function.uncurry fun t x => g (t - b * x)) :=
      (hg.1.comp (by fun_prop)).stronglyMeasurable
    exact (hm.integral_prod_right (ν := volume.restrict (Set.Ioc (0 : ℝ) 1))).measurable
  · intro t
    unfold avg
    constructor
    · exact integral_nonneg zero_le_one fun x _ => (hg.2 _).1
    · have := integral_mono (μ := volume) zero_le_one (hg.comp_integrable t b)
        (intervalIntegrable_const (c := (1 : ℝ))) (fun x => (hg.2 _).2)
      simpa using this

theorem avg_comm {g : ℝ → ℝ} (hg : Nice g) (b c : ℝ) : avg b (avg c g) = avg c (avg b g) := by
  funext t
  unfold avg
  simp only [integral_of_le zero_le_one]
  have hi : Integrable (Function.uncurry fun x y => g (t - b * x - c * y))
      ((volume.restrict (Set.Ioc (0 : ℝ) 1)).prod (volume.restrict (Set.Ioc (0 : ℝ) 1))) := by
    refine Integrable.of_bound (C := 1) ?_ ?_
    · exact (hg.1.comp (by fun_prop)).aestronglyMeasurable
    · refine Filter.Eventually.of_forall fun p => ?_
      rw [Real.norm_eq_abs, abs_le]
      exact ⟨le_trans (by norm_num) (hg.2 (t - b * p.1 - c * p.2)).1, (hg.2 _).2⟩
  have := MeasureTheory.integral_integral_swap hi
  rw [this]
  refine integral_congr_ae (Filter.Eventually.of_forall fun y => ?_)
  refine integral_congr_ae (Filter.Eventually.of_forall fun x => ?_)
  show g _ = g _
  congr 1
  ring

/-! ## Truncated powers -/

/-- `max(t,0)^n/n!` for n = 1, 2, 3. -/
noncomputable def P1 (t : ℝ) : ℝ := max t 0
noncomputable def P2 (t : ℝ) : ℝ := max t 0 ^ 2 / 2
noncomputable def P3 (t : ℝ) : ℝ := max t 0 ^ 3 / 6

theorem P1_pos {t : ℝ} (h : 0 ≤ t) : P1 t = t := max_eq_left h
theorem P1_neg {t : ℝ} (h : t ≤ 0) : P1 t = 0 := max_eq_right h
theorem P2_pos {t : ℝ} (h : 0 ≤ t) : P2 t = t ^ 2 / 2 := by unfold P2; rw [max_eq_left h]
theorem P2_neg {t : ℝ} (h : t ≤ 0) : P2 t = 0 := by unfold P2; rw [max_eq_right h]; simp
theorem P3_pos {t : ℝ} (h : 0 ≤ t) : P3 t = t ^ 3 / 6 := by unfold P3; rw [max_eq_left h]
theorem P3_neg {t : ℝ} (h : t ≤ 0) : P3 t = 0 := by unfold P3; rw [max_eq_right h]; simp

theorem cont_P1 : Continuous P1 := by unfold P1; fun_prop
theorem cont_P2 : Continuous P2 := by unfold P2; fun_prop
theorem cont_P3 : Continuous P3 := by unfold P3; fun_prop

theorem deriv_of_cases {F f q : ℝ → ℝ} (hq : ∀ t, HasDerivAt q (f t) t ∨ t ≤ 0)
    (hF : ∀ t, 0 < t → F t = q t) (hF0 : ∀ t, t < 0 → F t = 0) (hf0 : ∀ t, t < 0 → f t = 0) {t : ℝ} (ht : t ≠ 0) :
    HasDerivAt F (f t) t := by
  rcases lt_or_gt_of_ne ht with h | h
  · rw [hf0 t h]
    refine (hasDerivAt_const t (0 : ℝ)).congr_of_eventuallyEq ?_
    filter_upwards [Iio_mem_nhds h] with x hx using hF0 x hx
  · rcases hq t with hd | hd
    · refine hd.congr_of_eventuallyEq ?_
      filter_upwards [Ioi_mem_nhds h] with x hx using hF x hx
    · exact absurd h (not_lt.mpr hd)

theorem deriv_P1 {t : ℝ} (ht : t ≠ 0) : HasDerivAt P1 (under t) t := by
  refine deriv_of_cases (q := fun t => t) (f := under) (fun t => ?_) (fun t h => P1_pos (le_of_lt h))
    (fun t h => P1_neg (le_of_lt h)) (fun t h => by unfold under; rw [if_neg (not_le.mpr h)]) ht
  by_cases h : t ≤ 0
  · exact Or.inr h
  · left
    have : under t = 1 := by unfold under; rw [if_pos (le_of_lt (not_le.mp h))]
    rw [this]
    exact hasDerivAt_id t

theorem deriv_P2 {t : ℝ} (ht : t ≠ 0) : HasDerivAt P2 (P1 t) t := by
  refine deriv_of_cases (q := fun t => t ^ 2 / 2) (f := P1) (fun t => ?_) (fun t h => P2_pos (le_of_lt h))
    (fun t h => P2_neg (le_of_lt h)) (fun t h => P1_neg (le_of_lt h)) ht
  by_cases h : t ≤ 0
  · exact Or.inr h
  · left
    rw [P1_pos (le_of_lt (not_le.mp h))]
    exact ((hasDerivAt_pow 2 t).div_const 2).congr_deriv (by push_cast; norm_num)

theorem deriv_P3 {t : ℝ} (ht : t ≠ 0) : HasDerivAt P3 (P2 t) t := by
  refine deriv_of_cases (q := fun t => t ^ 3 / 6) (f := P2) (fun t => ?_) (fun t h => P3_pos (le_of_lt h))
    (fun t h => P3_neg (le_of_lt h)) (fun t h => P2_neg (le_of_lt h)) ht
  by_cases h : t ≤ 0
  · exact Or.inr h
  · left
    rw [P2_pos (le_of_lt (not_le.mp h))]
    exact ((hasDerivAt_pow 3 t).div_const 6).congr_deriv (by push_cast; norm_num; ring)

/-- Fundamental theorem for a function with one kink. -/
theorem avg_of_deriv {F f : ℝ → ℝ} (hF : Continuous F) (hd : ∀ t, t ≠ 0 → HasDerivAt F (f t) t) {b : ℝ}
    (hb : b ≠ 0) (t : ℝ) (hi : IntervalIntegrable (fun x => f (t - b * x)) volume 0 1) :
    avg b f t = (F t - F (t - b)) / b := by
  have := integral_eq_of_hasDerivAt_off_countable (fun x => -(F (t - b * x)) / b)
    (fun x => f (t - b * x)) (a := 0) (b := 1) (s := {t / b}) (Set.countable_singleton _)
    (by fun_prop) (fun x hx => ?_) hi
  · unfold avg
    rw [this]
    simp only [mul_one, mul_zero, sub_zero]
    ring
  · have hne : t - b * x ≠ 0 := by
      intro h
      apply hx.2
      rw [Set.mem_singleton_iff, eq_div_iff hb]
      linarith
    have h1 : HasDerivAt (fun x => t - b * x) (-b) x := by
      have := ((hasDerivAt_id x).const_mul b).const_sub t
      simpa using this
    have h2 := ((hd _ hne).comp x h1).neg.div_const b
    refine HasDerivAt.congr_deriv h2 ?_
    field_simp

theorem avg_under {b : ℝ} (hb : b ≠ 0) (t : ℝ) : avg b under t = (P1 t - P1 (t - b)) / b :=
  avg_of_deriv cont_P1 (fun _ h => deriv_P1 h) hb t (nice_under.comp_integrable t b)

theorem avg_P1 {b : ℝ} (hb : b ≠ 0) (t : ℝ) : avg b P1 t = (P2 t - P2 (t - b)) / b :=
  avg_of_deriv cont_P2 (fun _ h => deriv_P2 h) hb t
    ((cont_P1.comp (by fun_prop : Continuous fun x => t - b * x)).intervalIntegrable 0 1)

theorem avg_P2 {b : ℝ} (hb : b ≠ 0) (t : ℝ) : avg b P2 t = (P3 t - P3 (t - b)) / b :=
  avg_of_deriv cont_P3 (fun _ h => deriv_P3 h) hb t
    ((cont_P2.comp (by fun_prop : Continuous fun x => t - b * x)).intervalIntegrable 0 1)

theorem avg_lin {g : ℝ → ℝ} (hg : Continuous g) (b c d t : ℝ) :
    avg b (fun u => (g u - g (u - c)) / d) t = (avg b g t - avg b g (t - c)) / d := by
  unfold avg
  have h1 : IntervalIntegrable (fun x => g (t - b * x)) volume 0 1 :=
    (hg.comp (by fun_prop : Continuous fun x => t - b * x)).intervalIntegrable 0 1
  have h2 : IntervalIntegrable (fun x => g (t - c - b * x)) volume 0 1 :=
    (hg.comp (by fun_prop : Continuous fun x => t - c - b * x)).intervalIntegrable 0 1
  rw [← integral_sub h1 h2, ← intervalIntegral.integral_div]
  refine integral_congr fun x _ => ?_
  show (g (t - b * x) - g (t - b * x - c)) / d = _
  rw [show t - b * x - c = t - c - b * x by ring]

/-! ## Closed formulas -/

theorem area_eq {b c : ℝ} (hb : b ≠ 0) (hc : c ≠ 0) (t : ℝ) :
    avg b (avg c under) t = (P2 t - P2 (t - b) - P2 (t - c) + P2 (t - c - b)) / (b * c) := by
  have e : avg c under = fun u => (P1 u - P1 (u - c)) / c := funext fun u => avg_under hc u
  rw [e, avg_lin cont_P1, avg_P1 hb, avg_P1 hb]
  field_simp
  ring

theorem volume_eq {b c d : ℝ} (hb : b ≠ 0) (hc : c ≠ 0) (hd : d ≠ 0) (t : ℝ) :
    avg b (avg c (avg d under)) t =
      (P3 t - P3 (t - b) - P3 (t - c) - P3 (t - d) + P3 (t - c - b) + P3 (t - d - b) + P3 (t - d - c) -
        P3 (t - d - c - b)) / (b * c * d) := by
  have e : avg c (avg d under) = fun u =>
      ((fun v => (P2 v - P2 (v - c)) / c) u - (fun v => (P2 v - P2 (v - c)) / c) (u - d)) / d := by
    funext u
    rw [area_eq hc hd]
    field_simp
    ring
  have hcont : Continuous fun v => (P2 v - P2 (v - c)) / c := by
    have := cont_P2
    fun_prop
  rw [e, avg_lin hcont, avg_lin cont_P2, avg_lin cont_P2, avg_P2 hb, avg_P2 hb, avg_P2 hb, avg_P2 hb]
  field_simp
  ring

/-- The volume is 0 at and below 0. -/
theorem cubeVolume_zero {b1 b2 b3 a : ℝ} (h1 : 0 ≤ b1) (h12 : b1 ≤ b2) (h23 : b2 ≤ b3) (h3 : 0 < b3)
    (ha : a ≤ 0) : cubeVolume b1 b2 b3 a = 0 := by
  rw [cubeVolume_eq]
  rcases eq_or_lt_of_le h1 with e1 | h1
  · rw [← e1, avg_zero]
    rcases eq_or_lt_of_le (e1 ▸ h12 : 0 ≤ b2) with e2 | h2
    · rw [← e2, avg_zero, avg_under (ne_of_gt h3), P1_neg ha, P1_neg (by linarith)]; simp
    · rw [area_eq (ne_of_gt h2) (ne_of_gt h3), P2_neg ha, P2_neg (by linarith), P2_neg (by linarith),
        P2_neg (by linarith)]; simp
  · have h2 : 0 < b2 := lt_of_lt_of_le h1 h12
    rw [volume_eq (ne_of_gt h1) (ne_of_gt h2) (ne_of_gt h3)]
    repeat rw [P3_neg (by linarith)]
    simp

/-- The five branches of the code compute the volume (with `tiny = 0`). -/
theorem plic_exact {b1 b2 b3 a : ℝ} (h1 : 0 ≤ b1) (h12 : b1 ≤ b2) (h23 : b2 ≤ b3) (hs : b1 + b2 + b3 = 1)
    (ha : a ≤ 1 / 2) : plic 0 b1 b2 b3 a = cubeVolume b1 b2 b3 a := by
  have h3 : 0 < b3 := by linarith
  unfold plic
  simp only
  by_cases ha0 : 0 < a
  swap
  · rw [if_neg ha0, cubeVolume_zero h1 h12 h23 h3 (not_lt.mp ha0)]
  rw [if_pos ha0, cubeVolume_eq]
  rcases eq_or_lt_of_le h1 with e1 | h1
  · -- the smallest coefficient vanishes
    subst e1
    rw [avg_zero, if_neg (not_lt.mpr (le_of_lt ha0))]
    rcases eq_or_lt_of_le h12 with e2 | h2
    · subst e2
      rw [avg_zero, if_neg (not_lt.mpr (le_of_lt ha0)), if_neg (by
        rw [not_lt]; exact le_trans (min_le_left _ _) (by linarith)), if_neg (by linarith),
        avg_under (ne_of_gt h3), P1_pos (le_of_lt ha0), P1_neg (by linarith)]
      ring
    · rw [area_eq (ne_of_gt h2) (ne_of_gt h3)]
      by_cases c2 : a < b2
      · rw [if_pos c2, P2_pos (le_of_lt ha0), P2_neg (by linarith), P2_neg (by linarith), P2_neg (by linarith)]
        field_simp
        ring
      · have c2' : b2 ≤ a := not_lt.mp c2
        rw [if_neg c2, if_neg (by
          rw [not_lt]; exact le_trans (min_le_left _ _) (by linarith)), if_neg (by linarith),
          P2_pos (le_of_lt ha0), P2_pos (by linarith), P2_neg (by linarith), P2_neg (by linarith)]
        field_simp
        ring
  · have h2 : 0 < b2 := lt_of_lt_of_le h1 h12
    rw [volume_eq (ne_of_gt h1) (ne_of_gt h2) (ne_of_gt h3)]
    by_cases c1 : a < b1
    · rw [if_pos c1, P3_pos (le_of_lt ha0)]
      repeat rw [P3_neg (by linarith)]
      field_simp
      ring
    · have c1' : b1 ≤ a := not_lt.mp c1
      rw [if_neg c1]
      by_cases c2 : a < b2
      · rw [if_pos c2, P3_pos (le_of_lt ha0), P3_pos (t := a - b1) (by linarith)]
        repeat rw [P3_neg (by linarith)]
        field_simp
        ring
      · have c2' : b2 ≤ a := not_lt.mp c2
        rw [if_neg c2]
        by_cases c3 : a < min (b1 + b2) b3
        · obtain ⟨c3a, c3b⟩ := lt_min_iff.mp c3
          rw [if_pos c3, P3_pos (le_of_lt ha0), P3_pos (t := a - b1) (by linarith),
            P3_pos (t := a - b2) (by linarith)]
          repeat rw [P3_neg (by linarith)]
          field_simp
          ring
        · rw [if_neg c3]
          by_cases c4 : b3 < b1 + b2
          · have hb3 : b3 ≤ a := by
              rw [min_eq_right (le_of_lt c4)] at c3; exact not_lt.mp c3
            rw [if_pos c4, P3_pos (le_of_lt ha0), P3_pos (t := a - b1) (by linarith),
              P3_pos (t := a - b2) (by linarith), P3_pos (t := a - b3) (by linarith)]
            repeat rw [P3_neg (by linarith)]
            have e3 : b3 = 1 - b1 - b2 := by linarith
            field_simp
            rw [e3]
            ring
          · have hb12 : b1 + b2 ≤ a := by
              rw [min_eq_left (not_lt.mp c4)] at c3; exact not_lt.mp c3
            rw [if_neg c4, P3_pos (le_of_lt ha0), P3_pos (t := a - b1) (by linarith),
              P3_pos (t := a - b2) (by linarith), P3_pos (t := a - b2 - b1) (by linarith)]
            repeat rw [P3_neg (by linarith)]
            field_simp
            ring

end AmrWind.Vof
