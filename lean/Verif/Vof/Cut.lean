import Verif.Vof.Volume

/-! # `cut_volume` computes the volume under the plane: lemmas -/

namespace AmrWind.Vof
open MeasureTheory intervalIntegral

/-! ## Averages: shifts, signs, scale, symmetry, monotonicity -/

theorem avg_shift (b s : ℝ) (g : ℝ → ℝ) (t : ℝ) : avg b (fun u => g (u + s)) t = avg b g (t + s) := by
  unfold avg
  refine integral_congr fun x _ => ?_
  show g _ = g _
  congr 1
  ring

theorem avg_abs (b : ℝ) (g : ℝ → ℝ) (t : ℝ) : avg b g t = avg |b| g (t + max 0 (-b)) := by
  rcases le_total 0 b with h | h
  · rw [abs_of_nonneg h, max_eq_left (by linarith), add_zero]
  · rw [abs_of_nonpos h, max_eq_right (by linarith), avg_neg]
    congr 1
    ring

theorem cubeVolume_abs (m1 m2 m3 t : ℝ) :
    cubeVolume m1 m2 m3 t = cubeVolume |m1| |m2| |m3| (t + max 0 (-m1) + max 0 (-m2) + max 0 (-m3)) := by
  rw [cubeVolume_eq, cubeVolume_eq]
  have e3 : avg m3 under = fun u => avg |m3| under (u + max 0 (-m3)) := funext fun u => avg_abs m3 under u
  have e2 : avg m2 (avg m3 under) = fun u => avg |m2| (avg |m3| under) (u + (max 0 (-m2) + max 0 (-m3))) := by
    funext u
    rw [avg_abs m2, e3, avg_shift, add_assoc]
  rw [e2, avg_abs m1, avg_shift]
  congr 1
  ring

theorem under_scale {s : ℝ} (hs : 0 < s) : under = fun u => under (u / s) := by
  funext u
  unfold under
  by_cases h : 0 ≤ u
  · rw [if_pos h, if_pos (div_nonneg h (le_of_lt hs))]
  · rw [if_neg h, if_neg (by rw [not_le]; exact div_neg_of_neg_of_pos (not_le.mp h) hs)]

theorem cubeVolume_scale {s : ℝ} (hs : 0 < s) (m1 m2 m3 t : ℝ) :
    cubeVolume m1 m2 m3 t = cubeVolume (m1 / s) (m2 / s) (m3 / s) (t / s) := by
  rw [cubeVolume_eq, cubeVolume_eq]
  have e3 : avg m3 under = fun u => avg (m3 / s) under (u / s) := by
    funext u
    conv_lhs => rw [under_scale hs]
    exact avg_scale s m3 under u
  have e2 : avg m2 (avg m3 under) = fun u => avg (m2 / s) (avg (m3 / s) under) (u / s) := by
    funext u
    rw [e3]
    exact avg_scale s m2 _ u
  rw [e2]
  exact avg_scale s m1 _ t

theorem cubeVolume_swap12 (a b c t : ℝ) : cubeVolume a b c t = cubeVolume b a c t := by
  rw [cubeVolume_eq, cubeVolume_eq, avg_comm (nice_avg nice_under c)]

theorem cubeVolume_swap23 (a b c t : ℝ) : cubeVolume a b c t = cubeVolume a c b t := by
  rw [cubeVolume_eq, cubeVolume_eq, avg_comm nice_under]

theorem nice_cube (a b c : ℝ) : Nice (avg a (avg b (avg c under))) :=
  nice_avg (nice_avg (nice_avg nice_under c) b) a

theorem cubeVolume_mem (a b c t : ℝ) : 0 ≤ cubeVolume a b c t ∧ cubeVolume a b c t ≤ 1 := by
  rw [cubeVolume_eq]; exact (nice_cube a b c).2 t

theorem under_mono : Monotone under := by
  intro s t h
  unfold under
  split_ifs with h1 h2 <;> norm_num
  exact h2 (le_trans h1 h)

theorem avg_mono {g : ℝ → ℝ} (hg : Nice g) (hm : Monotone g) (b : ℝ) : Monotone (avg b g) := by
  intro s t h
  unfold avg
  refine integral_mono zero_le_one (hg.comp_integrable s b) (hg.comp_integrable t b) fun x => ?_
  exact hm (by linarith)

theorem cubeVolume_mono (a b c : ℝ) : Monotone (cubeVolume a b c) := by
  have : cubeVolume a b c = avg a (avg b (avg c under)) := funext (cubeVolume_eq a b c)
  rw [this]
  exact avg_mono (nice_avg (nice_avg nice_under c) b)
    (avg_mono (nice_avg nice_under c) (avg_mono nice_under under_mono c) b) a

theorem clamp_sym {b : ℝ} (hb : 0 < b) (t : ℝ) : avg b under t + avg b under (b - t) = 1 := by
  rw [avg_under (ne_of_gt hb), avg_under (ne_of_gt hb), ← add_div, div_eq_one_iff_eq (ne_of_gt hb)]
  rw [show b - t - b = -t by ring]
  rcases le_total t 0 with h | h
  · rw [P1_neg h, P1_neg (by linarith), P1_pos (by linarith), P1_pos (by linarith)]; ring
  · rcases le_total t b with h2 | h2
    · rw [P1_pos h, P1_neg (by linarith), P1_pos (by linarith), P1_neg (by linarith)]; ring
    · rw [P1_pos h, P1_pos (by linarith), P1_neg (by linarith), P1_neg (by linarith)]; ring

theorem avg_sym {g : ℝ → ℝ} (hg : Nice g) {s : ℝ} (h : ∀ t, g t + g (s - t) = 1) (b t : ℝ) :
    avg b g t + avg b g (s + b - t) = 1 := by
  have e : avg b g (s + b - t) = ∫ x in (0 : ℝ)..1, (1 - g (t - b * x)) := by
    rw [show s + b - t = (s - t) + b by ring, ← avg_neg]
    unfold avg
    refine integral_congr fun x _ => ?_
    have := h (t - b * x)
    show g _ = _
    rw [show s - t - -b * x = s - (t - b * x) by ring]
    linarith
  rw [e, integral_sub (by simp) (hg.comp_integrable t b)]
  unfold avg
  simp

theorem cubeVolume_sym {b3 : ℝ} (h3 : 0 < b3) (b1 b2 t : ℝ) :
    cubeVolume b1 b2 b3 t + cubeVolume b1 b2 b3 (b1 + b2 + b3 - t) = 1 := by
  rw [cubeVolume_eq, cubeVolume_eq, show b1 + b2 + b3 - t = b3 + b2 + b1 - t by ring]
  exact avg_sym (nice_avg (nice_avg nice_under b3) b2)
    (fun t => avg_sym (nice_avg nice_under b3) (fun t => clamp_sym h3 t) b2 t) b1 t

/-- Inside the limits the function changes at most at rate `1/b`. -/
theorem clamp_lip {b : ℝ} (hb : 0 < b) {s t : ℝ} (h : s ≤ t) : avg b under t - avg b under s ≤ (t - s) / b := by
  rw [avg_under (ne_of_gt hb), avg_under (ne_of_gt hb), ← sub_div]
  refine div_le_div_of_nonneg_right ?_ (le_of_lt hb)
  have h1 : P1 t - P1 s ≤ t - s := by
    unfold P1
    rcases le_total s 0 with h1 | h1 <;> rcases le_total t 0 with h2 | h2 <;>
      simp only [max_eq_left, max_eq_right, h1, h2] <;> linarith
  have h2 : P1 (s - b) ≤ P1 (t - b) := max_le_max (by linarith) (le_refl _)
  linarith

theorem avg_lip {g : ℝ → ℝ} (hg : Nice g) {L : ℝ} (h : ∀ s t, s ≤ t → g t - g s ≤ (t - s) / L) (b : ℝ) {s t : ℝ}
    (hst : s ≤ t) : avg b g t - avg b g s ≤ (t - s) / L := by
  unfold avg
  rw [← integral_sub (hg.comp_integrable t b) (hg.comp_integrable s b)]
  have := integral_mono (μ := volume) zero_le_one ((hg.comp_integrable t b).sub (hg.comp_integrable s b))
    (intervalIntegrable_const (c := (t - s) / L)) (fun x => by
      have := h (s - b * x) (t - b * x) (by linarith)
      rwa [show t - b * x - (s - b * x) = t - s by ring] at this)
  simpa using this

theorem cubeVolume_lip {b3 : ℝ} (h3 : 0 < b3) (b1 b2 : ℝ) {s t : ℝ} (h : s ≤ t) :
    cubeVolume b1 b2 b3 t - cubeVolume b1 b2 b3 s ≤ (t - s) / b3 := by
  rw [cubeVolume_eq, cubeVolume_eq]
  exact avg_lip (nice_avg (nice_avg nice_under b3) b2)
    (fun s t h => avg_lip (nice_avg nice_under b3) (fun s t h => clamp_lip h3 h) b2 h) b1 h

/-! ## Ordering -/

theorem order3_spec (x y z : ℝ) :
    (order3 x y z).1 ≤ (order3 x y z).2.1 ∧ (order3 x y z).2.1 ≤ (order3 x y z).2.2 ∧
    (order3 x y z).1 + (order3 x y z).2.1 + (order3 x y z).2.2 = x + y + z ∧
    (0 ≤ x → 0 ≤ y → 0 ≤ z → 0 ≤ (order3 x y z).1) ∧
    ∀ t, cubeVolume (order3 x y z).1 (order3 x y z).2.1 (order3 x y z).2.2 t = cubeVolume x y z t := by
  unfold order3
  simp only
  rcases le_total x y with h | h
  · rw [min_eq_left h, max_eq_right h]
    by_cases h1 : z < x
    · rw [if_pos h1]
      exact ⟨le_of_lt h1, h, by ring, fun _ _ h => h, fun t => by
        show cubeVolume z x y t = _
        rw [cubeVolume_swap12, cubeVolume_swap23]⟩
    · rw [if_neg h1]
      by_cases h2 : y < z
      · rw [if_pos h2]
        exact ⟨h, le_of_lt h2, rfl, fun h _ _ => h, fun t => rfl⟩
      · rw [if_neg h2]
        exact ⟨not_lt.mp h1, not_lt.mp h2, by ring, fun h _ _ => h, fun t => cubeVolume_swap23 _ _ _ _⟩
  · rw [min_eq_right h, max_eq_left h]
    by_cases h1 : z < y
    · rw [if_pos h1]
      exact ⟨le_of_lt h1, h, by ring, fun _ _ h => h, fun t => by
        show cubeVolume z y x t = _
        rw [cubeVolume_swap12, cubeVolume_swap23, cubeVolume_swap12]⟩
    · rw [if_neg h1]
      by_cases h2 : x < z
      · rw [if_pos h2]
        exact ⟨h, le_of_lt h2, by ring, fun _ h _ => h, fun t => cubeVolume_swap12 _ _ _ _⟩
      · rw [if_neg h2]
        exact ⟨not_lt.mp h1, not_lt.mp h2, by ring, fun _ h _ => h, fun t => by
          show cubeVolume y z x t = _
          rw [cubeVolume_swap23, cubeVolume_swap12]⟩

/-! ## Clamping and reflection -/

theorem cubeVolume_one {b1 b2 b3 a : ℝ} (h1 : 0 ≤ b1) (h12 : b1 ≤ b2) (h3 : 0 < b3) (h23 : b2 ≤ b3)
    (ha : b1 + b2 + b3 ≤ a) : cubeVolume b1 b2 b3 a = 1 := by
  have := cubeVolume_sym h3 b1 b2 a
  rw [cubeVolume_zero (a := b1 + b2 + b3 - a) h1 h12 h23 h3 (by linarith)] at this
  linarith

theorem cubeVolume_clamp {b1 b2 b3 : ℝ} (h1 : 0 ≤ b1) (h12 : b1 ≤ b2) (h23 : b2 ≤ b3) (hs : b1 + b2 + b3 = 1)
    (a : ℝ) : cubeVolume b1 b2 b3 (max 0 (min 1 a)) = cubeVolume b1 b2 b3 a := by
  have h3 : 0 < b3 := by linarith
  rcases le_total a 0 with h | h
  · rw [min_eq_right (by linarith), max_eq_left h, cubeVolume_zero h1 h12 h23 h3 le_rfl,
      cubeVolume_zero h1 h12 h23 h3 h]
  · rcases le_total a 1 with h' | h'
    · rw [min_eq_right h', max_eq_right h]
    · rw [min_eq_left h', max_eq_right zero_le_one, cubeVolume_one h1 h12 h3 h23 (by linarith),
        cubeVolume_one h1 h12 h3 h23 (by linarith)]

/-! ## The guard in the second branch -/

theorem plic_guard {tiny b1 b2 b3 a : ℝ} (ht : 0 ≤ tiny) (h1 : 0 ≤ b1) (h12 : b1 ≤ b2) (h23 : b2 ≤ b3)
    (hs : b1 + b2 + b3 = 1) : plic tiny b1 b2 b3 a ≤ plic 0 b1 b2 b3 a ∧
      plic 0 b1 b2 b3 a - plic tiny b1 b2 b3 a ≤ tiny / 4 ∧ (0 ≤ plic 0 b1 b2 b3 a → 0 ≤ plic tiny b1 b2 b3 a) := by
  unfold plic
  simp only
  have triv : ∀ v : ℝ, v ≤ v ∧ v - v ≤ tiny / 4 ∧ (0 ≤ v → 0 ≤ v) := fun v =>
    ⟨le_rfl, by rw [sub_self]; positivity, id⟩
  by_cases h0 : 0 < a
  swap
  · rw [if_neg h0, if_neg h0]; exact triv 0
  rw [if_pos h0, if_pos h0]
  by_cases c1 : a < b1
  · rw [if_pos c1, if_pos c1]; exact triv _
  rw [if_neg c1, if_neg c1]
  by_cases c2 : a < b2
  swap
  · rw [if_neg c2, if_neg c2]; exact triv _
  rw [if_pos c2, if_pos c2, add_zero]
  have hb2 : 0 < b2 := lt_trans h0 c2
  have hb3 : 1 / 3 ≤ b3 := by linarith
  have hb3' : 0 < b3 := by linarith
  have hD : 0 < 6 * b2 * b3 := by positivity
  have hle : b1 * b1 / (6 * b2 * b3 + tiny) ≤ b1 * b1 / (6 * b2 * b3) := by
    apply div_le_div_of_nonneg_left (by positivity) hD (by linarith)
  refine ⟨by linarith, ?_, fun _ => ?_⟩
  · have e : b1 * b1 / (6 * b2 * b3) - b1 * b1 / (6 * b2 * b3 + tiny) =
        b1 * b1 * tiny / ((6 * b2 * b3) * (6 * b2 * b3 + tiny)) := by
      have : 6 * b2 * b3 + tiny ≠ 0 := by positivity
      field_simp
      ring
    have hb : b1 * b1 / (6 * b2 * b3) - b1 * b1 / (6 * b2 * b3 + tiny) ≤ tiny / 4 := by
      rw [e, div_le_div_iff₀ (by positivity) (by norm_num)]
      have k1 : b1 * b1 ≤ b2 * b2 := mul_le_mul h12 h12 h1 (le_of_lt hb2)
      have k2 : b2 * b2 * 4 ≤ (6 * b2 * b3) * (6 * b2 * b3) := by
        have : (1 / 3 : ℝ) * (1 / 3) ≤ b3 * b3 := mul_le_mul hb3 hb3 (by norm_num) (by linarith)
        nlinarith [mul_pos hb2 hb2]
      have k3 : (6 * b2 * b3) * (6 * b2 * b3) ≤ (6 * b2 * b3) * (6 * b2 * b3 + tiny) :=
        mul_le_mul_of_nonneg_left (by linarith) (le_of_lt hD)
      have k4 : b1 * b1 * 4 ≤ (6 * b2 * b3) * (6 * b2 * b3 + tiny) := by linarith
      have := mul_le_mul_of_nonneg_left k4 ht
      linarith
    linarith
  · have : 0 ≤ a * (a - b1) / (2 * b2 * b3) := by
      apply div_nonneg (mul_nonneg (le_of_lt h0) (by linarith)) (by positivity)
    have : 0 ≤ b1 * b1 / (6 * b2 * b3 + tiny) := by positivity
    linarith

/-! ## The whole function -/

/-- The volume the code computes differs from the volume under the plane by at most `tiny/4`. -/
theorem cutVolume_near {tiny m1 m2 m3 alpha r0 dr0 : ℝ} (ht : 0 ≤ tiny) (hd : 0 ≤ dr0)
    (hm : |m1| * dr0 + |m2| + |m3| ≠ 0) :
    ∃ v, cutVolume tiny m1 m2 m3 alpha r0 dr0 = some v ∧ 0 ≤ v ∧ v ≤ 1 ∧
      |v - cubeVolume (m1 * dr0) m2 m3 (alpha - m1 * r0)| ≤ tiny / 4 := by
  have hpos : 0 < |m1| * dr0 + |m2| + |m3| := lt_of_le_of_ne (by positivity) (Ne.symm hm)
  unfold cutVolume
  simp only
  rw [if_neg hm]
  generalize hT : |m1| * dr0 + |m2| + |m3| = T at *
  have e : cubeVolume (m1 * dr0) m2 m3 (alpha - m1 * r0) =
      cubeVolume (|m1| / T * dr0) (|m2| / T) (|m3| / T)
        ((alpha - m1 * r0 + max 0 (-m1 * dr0) + max 0 (-m2) + max 0 (-m3)) / T) := by
    rw [cubeVolume_abs, cubeVolume_scale hpos, abs_mul, abs_of_nonneg hd,
      show -(m1 * dr0) = -m1 * dr0 by ring, show |m1| * dr0 / T = |m1| / T * dr0 by ring]
  rw [e]
  generalize (alpha - m1 * r0 + max 0 (-m1 * dr0) + max 0 (-m2) + max 0 (-m3)) / T = t
  obtain ⟨o12, o23, osum, opos, ovol⟩ := order3_spec (|m1| / T * dr0) (|m2| / T) (|m3| / T)
  generalize order3 (|m1| / T * dr0) (|m2| / T) (|m3| / T) = b at *
  have hb1 : 0 ≤ b.1 := opos (by positivity) (by positivity) (by positivity)
  have hs : b.1 + b.2.1 + b.2.2 = 1 := by
    rw [osum, show |m1| / T * dr0 + |m2| / T + |m3| / T = (|m1| * dr0 + |m2| + |m3|) / T by ring, hT]
    exact div_self hm
  rw [← ovol, ← cubeVolume_clamp hb1 o12 o23 hs]
  have hc0 : 0 ≤ max 0 (min 1 t) := le_max_left _ _
  have hc1 : max 0 (min 1 t) ≤ 1 := max_le zero_le_one (min_le_left _ _)
  generalize max 0 (min 1 t) = a at *
  refine ⟨_, rfl, ?_⟩
  have hb3 : 0 < b.2.2 := by linarith
  by_cases h : a ≤ 1 / 2
  · rw [if_pos h, min_eq_left (by linarith)]
    obtain ⟨g1, g2, g3⟩ := plic_guard (a := a) ht hb1 o12 o23 hs
    rw [plic_exact hb1 o12 o23 hs h] at g1 g2 g3
    obtain ⟨v0, v1⟩ := cubeVolume_mem b.1 b.2.1 b.2.2 a
    refine ⟨g3 v0, by linarith, ?_⟩
    rw [abs_le]
    constructor <;> linarith
  · rw [if_neg h, min_eq_right (by linarith)]
    obtain ⟨g1, g2, g3⟩ := plic_guard (a := 1 - a) ht hb1 o12 o23 hs
    rw [plic_exact hb1 o12 o23 hs (by linarith)] at g1 g2 g3
    obtain ⟨v0, v1⟩ := cubeVolume_mem b.1 b.2.1 b.2.2 (1 - a)
    have hsym := cubeVolume_sym hb3 b.1 b.2.1 a
    rw [hs] at hsym
    refine ⟨by linarith, by linarith [g3 v0], ?_⟩
    rw [abs_le]
    constructor <;> linarith

theorem cutVolume_exact {m1 m2 m3 alpha r0 dr0 : ℝ} (hd : 0 ≤ dr0) (hm : |m1| * dr0 + |m2| + |m3| ≠ 0) :
    cutVolume 0 m1 m2 m3 alpha r0 dr0 = some (cubeVolume (m1 * dr0) m2 m3 (alpha - m1 * r0)) := by
  obtain ⟨v, hv, -, -, h⟩ := cutVolume_near (alpha := alpha) (r0 := r0) le_rfl hd hm
  rw [hv]
  have h0 : |v - cubeVolume (m1 * dr0) m2 m3 (alpha - m1 * r0)| = 0 :=
    le_antisymm (by linarith) (abs_nonneg _)
  rw [abs_eq_zero] at h0
  congr 1
  linarith

end AmrWind.Vof
