import Mathlib.Tactic.LinearCombination
import Mathlib.Tactic.Positivity
import Mathlib.Algebra.BigOperators.Group.Finset.Basic
import Mathlib.Analysis.SpecialFunctions.Log.Deriv
import Verif.Phys.WallModel

/-!
# C90: wall functions of channels
-/

set_option linter.unusedSectionVars false

namespace AmrWind.Wall

/-- Positive constants. -/
structure Law.Ok (c : Law) : Prop where
  kappa : 0 < c.kappa
  zref : 0 < c.zref
  nu : 0 < c.nu

/-- C90: the function used as derivative is that of the law of the wall. -/
theorem law_deriv {c : Law} (hc : c.Ok) {u : ℝ} (hu : 0 < u) : HasDerivAt c.speed (c.deriv u) u := by
  have hz := hc.zref
  have hn := hc.nu
  have hk := hc.kappa
  have h1 : HasDerivAt (fun x : ℝ => c.zref * x / c.nu) (c.zref / c.nu) u := by
    have := ((hasDerivAt_id u).const_mul c.zref).div_const c.nu
    simpa using this
  have h2 := h1.log (by positivity)
  have h3 := ((h2.div_const c.kappa).add_const c.B)
  have h4 := (hasDerivAt_id u).mul h3
  refine (h4.congr_deriv ?_)
  unfold Law.deriv
  simp only [id]
  have : c.zref * u / c.nu ≠ 0 := by positivity
  field_simp
  ring

/-- The law of the wall lies above its tangents and its slope grows. -/
theorem law_convex {c : Law} (hc : c.Ok) {a b : ℝ} (ha : 0 < a) (hb : 0 < b) :
    c.speed a + c.deriv a * (b - a) ≤ c.speed b ∧ c.speed b - (c.speed a + c.deriv a * (b - a)) ≤ (b - a) ^ 2 / (c.kappa * a) := by
  have hz := hc.zref
  have hn := hc.nu
  have hk := hc.kappa
  have e : Real.log (c.zref * b / c.nu) = Real.log (c.zref * a / c.nu) + Real.log (b / a) := by
    rw [← Real.log_mul (by positivity) (by positivity)]
    congr 1
    field_simp
  have d : c.speed b - (c.speed a + c.deriv a * (b - a)) = (b * Real.log (b / a) - (b - a)) / c.kappa := by
    unfold Law.speed Law.deriv
    rw [e]
    field_simp
    ring
  have l1 : Real.log (b / a) ≤ b / a - 1 := Real.log_le_sub_one_of_pos (by positivity)
  have l2 : 1 - a / b ≤ Real.log (b / a) := by
    have := Real.log_le_sub_one_of_pos (x := a / b) (by positivity)
    have e2 : Real.log (a / b) = -Real.log (b / a) := by rw [← Real.log_inv, inv_div]
    linarith
  constructor
  · have : 0 ≤ (b * Real.log (b / a) - (b - a)) / c.kappa := by
      apply div_nonneg _ hk.le
      have := mul_le_mul_of_nonneg_left l2 hb.le
      have e3 : b * (1 - a / b) = b - a := by field_simp
      linarith
    linarith
  · rw [d, div_le_div_iff₀ hk (by positivity)]
    have := mul_le_mul_of_nonneg_left l1 hb.le
    have e3 : b * (b / a - 1) * a = b * (b - a) := by field_simp
    have : b * Real.log (b / a) * a ≤ b * (b - a) := by
      rw [← e3]; exact mul_le_mul_of_nonneg_right this ha.le
    nlinarith

/-- Every state the loop leaves is the first or comes from a pass. -/
theorem loop_last {c : Law} {w : ℝ} {fuel : ℕ} {s t : It} (h : c.loop w fuel s = some t) :
    t = s ∨ (0 < c.zref * t.prev / c.nu ∧ c.deriv t.prev ≠ 0 ∧ t.u = t.prev - (c.speed t.prev - w) / c.deriv t.prev) := by
  induction fuel generalizing s with
  | zero => left; exact (Option.some.inj h).symm
  | succ n ih =>
    unfold Law.loop at h
    by_cases h1 : 1 / 10 ^ 5 < |s.prev - s.u| ∧ s.n ≤ c.maxIters
    · rw [if_pos h1] at h
      by_cases h2 : c.zref * s.u / c.nu ≤ 0 ∨ c.deriv s.u = 0
      · rw [if_pos h2] at h; exact absurd h (by simp)
      · rw [if_neg h2] at h
        push Not at h2
        rcases ih h with e | e
        · right; rw [e]; exact ⟨h2.1, h2.2, rfl⟩
        · right; exact e
    · rw [if_neg h1] at h
      left; exact (Option.some.inj h).symm

/-- Why the loop ends: converged, or more passes than allowed. -/
theorem loop_stops {c : Law} {w : ℝ} {fuel : ℕ} {s t : It} (hf : c.maxIters + 1 < s.n + fuel) (hs : s.n ≤ c.maxIters + 1)
    (h : c.loop w fuel s = some t) : (|t.prev - t.u| ≤ 1 / 10 ^ 5 ∧ t.n ≤ c.maxIters + 1) ∨ t.n = c.maxIters + 1 := by
  induction fuel generalizing s with
  | zero => omega
  | succ n ih =>
    unfold Law.loop at h
    by_cases h1 : 1 / 10 ^ 5 < |s.prev - s.u| ∧ s.n ≤ c.maxIters
    · rw [if_pos h1] at h
      by_cases h2 : c.zref * s.u / c.nu ≤ 0 ∨ c.deriv s.u = 0
      · rw [if_pos h2] at h; exact absurd h (by simp)
      · rw [if_neg h2] at h
        exact ih (by dsimp only; omega) (by dsimp only; omega) h
    · rw [if_neg h1] at h
      rw [← Option.some.inj h]
      by_cases h3 : 1 / 10 ^ 5 < |s.prev - s.u|
      · right
        have : ¬ s.n ≤ c.maxIters := fun h4 => h1 ⟨h3, h4⟩
        omega
      · left; exact ⟨not_lt.mp h3, hs⟩

/-- C90: a friction velocity at which the iteration has settled satisfies the law of the wall: the wind speed it stands for is not below
the given one and above it by at most the squared last change over `κ` times the velocity. -/
theorem utau_spec_partial {c : Law} (hc : c.Ok) {mean w : ℝ} (hm : 0 < mean) {t : It} (h : c.run mean w = some t) (hu : 0 < t.u)
    (hconv : |t.prev - t.u| ≤ 1 / 10 ^ 5) :
    0 < t.prev ∧ 0 ≤ c.speed t.u - w ∧ c.speed t.u - w ≤ (1 / 10 ^ 5) ^ 2 / (c.kappa * t.prev) := by
  rcases loop_last h with e | ⟨e1, e2, e3⟩
  · exfalso
    rw [e] at hconv
    dsimp only at hconv
    rw [abs_le] at hconv
    have := hconv.1
    norm_num at this
    linarith
  · have hp : 0 < t.prev := by
      by_contra hn
      have : c.zref * t.prev / c.nu ≤ 0 := div_nonpos_of_nonpos_of_nonneg
        (mul_nonpos_of_nonneg_of_nonpos hc.zref.le (not_lt.mp hn)) hc.nu.le
      linarith
    have cv := law_convex hc hp hu
    have e4 : c.deriv t.prev * (t.u - t.prev) = w - c.speed t.prev := by
      rw [e3]
      have : t.prev - (c.speed t.prev - w) / c.deriv t.prev - t.prev = (w - c.speed t.prev) / c.deriv t.prev := by ring
      rw [this, mul_div_cancel₀ _ e2]
    refine ⟨hp, by linarith [cv.1], ?_⟩
    have sq : (t.u - t.prev) ^ 2 ≤ (1 / 10 ^ 5) ^ 2 := by
      rw [← sq_abs, abs_sub_comm]
      exact pow_le_pow_left₀ (abs_nonneg _) hconv 2
    have := cv.2
    have k : (t.u - t.prev) ^ 2 / (c.kappa * t.prev) ≤ (1 / 10 ^ 5) ^ 2 / (c.kappa * t.prev) :=
      div_le_div_of_nonneg_right sq (mul_pos hc.kappa hp).le
    linarith

/-- C90: the friction velocity that satisfies the law is found at once when it is the mean one. -/
theorem utau_fixed {c : Law} (hc : c.Ok) {s : ℝ} (hs : 0 < s) (hd : c.deriv s ≠ 0) (hi : 2 ≤ c.maxIters) : c.utau s (c.speed s) = .ok s := by
  have run : c.run s (c.speed s) = some ⟨1, s, s⟩ := by
    unfold Law.run
    obtain ⟨n, hn⟩ : ∃ n, c.maxIters + 2 = n + 1 + 1 := ⟨c.maxIters, rfl⟩
    rw [hn]
    unfold Law.loop
    have a : 1 / 10 ^ 5 < |(-1 : ℝ) - s| := by
      rw [abs_of_neg (by linarith)]; norm_num; linarith
    have b : ¬ (c.zref * s / c.nu ≤ 0 ∨ c.deriv s = 0) := by
      push Not
      exact ⟨div_pos (mul_pos hc.zref hs) hc.nu, hd⟩
    dsimp only
    rw [if_pos ⟨a, Nat.zero_le _⟩, if_neg b]
    unfold Law.loop
    have e : s - (c.speed s - c.speed s) / c.deriv s = s := by simp
    rw [e]
    dsimp only
    rw [if_neg (by rintro ⟨h, _⟩; rw [sub_self, abs_zero] at h; norm_num at h)]
  unfold Law.utau
  rw [run]
  dsimp only
  rw [if_neg (by omega)]

/-- The hypotheses of the last two theorems are met: `zref = ν = κ = 1`, `B = 0`, unit friction velocity. -/
example : (⟨0, 1, 25, 1, 1⟩ : Law).Ok ∧ (⟨0, 1, 25, 1, 1⟩ : Law).deriv 1 ≠ 0 ∧ (2 : ℕ) ≤ (⟨0, 1, 25, 1, 1⟩ : Law).maxIters := by
  refine ⟨⟨one_pos, one_pos, one_pos⟩, ?_, by norm_num⟩
  simp [Law.deriv]

/-- C90 fails for the check of the iteration: it aborts only runs that have settled (in the last pass allowed) … -/
theorem abort_only_settled {c : Law} {mean w : ℝ} (h : c.utau mean w = .abort) :
    ∃ t, c.run mean w = some t ∧ t.n = c.maxIters ∧ |t.prev - t.u| ≤ 1 / 10 ^ 5 := by
  unfold Law.utau at h
  cases hr : c.run mean w with
  | none => rw [hr] at h; simp at h
  | some t =>
    rw [hr] at h
    dsimp only at h
    by_cases hn : t.n = c.maxIters
    · refine ⟨t, rfl, hn, ?_⟩
      rcases loop_stops (by dsimp only; omega) (by dsimp only; omega) hr with a | a
      · exact a.1
      · omega
    · rw [if_neg hn] at h; simp at h

/-- … and returns the last value of those that have not. -/
theorem unsettled_returned {c : Law} {mean w : ℝ} {t : It} (h : c.run mean w = some t) (hn : 1 / 10 ^ 5 < |t.prev - t.u|) :
    c.utau mean w = .ok t.u := by
  have : t.n = c.maxIters + 1 := by
    rcases loop_stops (by dsimp only; omega) (by dsimp only; omega) h with a | a
    · exact absurd a.1 (not_le.mpr hn)
    · exact a
  unfold Law.utau
  rw [h]
  dsimp only
  rw [if_neg (by omega)]

/-- Such a run: with one pass allowed a wind of 3 from a mean of 1 stops at 4 after one pass, far from the solution (`x log x = 3` has
`x < 3`), and is returned. -/
example : (⟨0, 1, 0, 1, 1⟩ : Law).utau 1 3 = .ok 4 := by
  have : (⟨0, 1, 0, 1, 1⟩ : Law).run 1 3 = some ⟨1, 1, 4⟩ := by
    unfold Law.run Law.loop
    norm_num [Law.deriv, Law.speed]
    unfold Law.loop
    norm_num
  exact unsettled_returned this (by norm_num)

/-! ## Stress -/

/-- C90: the stress of the logarithmic law is along the velocity and has the size of the squared friction velocity; in still air it is
undefined. -/
theorem log_stress {ut u v : ℝ} (h : u ≠ 0 ∨ v ≠ 0) : ∃ tx ty, logShear ut (Real.sqrt (u * u + v * v)) u = some tx ∧
    logShear ut (Real.sqrt (u * u + v * v)) v = some ty ∧ tx * v = ty * u ∧ 0 ≤ tx * u + ty * v ∧ tx ^ 2 + ty ^ 2 = (ut ^ 2) ^ 2 := by
  have hp : 0 < u * u + v * v := by
    rcases h with h | h
    · nlinarith [mul_self_pos.mpr h, mul_self_nonneg v]
    · nlinarith [mul_self_pos.mpr h, mul_self_nonneg u]
  have hs := Real.sqrt_pos.mpr hp
  have sq := Real.mul_self_sqrt hp.le
  set s := Real.sqrt (u * u + v * v) with hsd
  refine ⟨ut * ut * u / s, ut * ut * v / s, by unfold logShear; rw [if_neg hs.ne'], by unfold logShear; rw [if_neg hs.ne'], by ring, ?_, ?_⟩
  · have : ut * ut * u / s * u + ut * ut * v / s * v = ut * ut * (u * u + v * v) / s := by ring
    rw [this]
    exact div_nonneg (mul_nonneg (mul_self_nonneg _) hp.le) hs.le
  · have e : (ut * ut * u / s) ^ 2 + (ut * ut * v / s) ^ 2 = (ut ^ 2) ^ 2 * ((u * u + v * v) / (s * s)) := by
      field_simp
    rw [e, sq, div_self hp.ne', mul_one]

theorem still_undefined (ut : ℝ) : logShear ut (Real.sqrt (0 * 0 + 0 * 0)) 0 = none := by
  unfold logShear; simp

/-- C90: the Schumann model keeps the mean size of the stress at the squared friction velocity: over any set of wall faces whose mean
speed is the one given. -/
theorem schumann_mean {n : ℕ} (hn : 0 < n) {ut wm : ℝ} (hw : 0 < wm) (u v : Fin n → ℝ)
    (hmean : (∑ i, Real.sqrt (u i * u i + v i * v i)) / n = wm) : ∃ tx ty : Fin n → ℝ, (∀ i, schumann ut wm (u i) = some (tx i)) ∧
      (∀ i, schumann ut wm (v i) = some (ty i)) ∧ (∑ i, Real.sqrt (tx i * tx i + ty i * ty i)) / n = ut ^ 2 := by
  refine ⟨fun i => u i / wm * (ut * ut), fun i => v i / wm * (ut * ut), fun i => by unfold schumann; rw [if_neg hw.ne'],
    fun i => by unfold schumann; rw [if_neg hw.ne'], ?_⟩
  have e : ∀ i, Real.sqrt (u i / wm * (ut * ut) * (u i / wm * (ut * ut)) + v i / wm * (ut * ut) * (v i / wm * (ut * ut))) =
      ut ^ 2 / wm * Real.sqrt (u i * u i + v i * v i) := by
    intro i
    have : u i / wm * (ut * ut) * (u i / wm * (ut * ut)) + v i / wm * (ut * ut) * (v i / wm * (ut * ut)) =
        (ut ^ 2 / wm) ^ 2 * (u i * u i + v i * v i) := by ring
    rw [this, Real.sqrt_mul (sq_nonneg _), Real.sqrt_sq (by positivity)]
  rw [Finset.sum_congr rfl fun i _ => e i, ← Finset.mul_sum, mul_div_assoc, hmean]
  field_simp

/-- Phase speed of a wave. -/
noncomputable def Wave.speed (m : Wave) : ℝ := m.omega / m.k

/-- C90: the stress of moving waves: none across the waves; along them it acts on the side of the wave facing the relative wind, in the
direction of the relative wind, and is `(1/π) (slope · relative wind)²`. -/
theorem wave_stress {m : Wave} (hA : 0 < m.amp) (hk : 0 < m.k) {time u v x : ℝ} (hs : Real.sin (m.k * x - m.omega * time) ≠ 0)
    (hr : u ≠ m.speed) : m.stress time u v x 1 = some 0 ∧ ∃ t, m.stress time u v x 0 = some t ∧ 0 ≤ t * (u - m.speed) ∧
      (0 < (u - m.speed) * (-m.amp * m.k * Real.sin (m.k * x - m.omega * time)) →
        |t| = 1 / Real.pi * (m.amp * m.k * Real.sin (m.k * x - m.omega * time) * (u - m.speed)) ^ 2) ∧
      ((u - m.speed) * (-m.amp * m.k * Real.sin (m.k * x - m.omega * time)) < 0 → t = 0) := by
  set s := Real.sin (m.k * x - m.omega * time) with hsd
  set dx := -m.amp * m.k * s with hdx
  have hdx0 : dx ≠ 0 := by rw [hdx]; exact mul_ne_zero (mul_ne_zero (neg_ne_zero.mpr hA.ne') hk.ne') hs
  have g1 : Real.sqrt (dx * dx + 0 * 0) = |dx| := by rw [mul_zero, add_zero, Real.sqrt_mul_self_eq_abs]
  have g0 : |dx| ≠ 0 := abs_ne_zero.mpr hdx0
  have gg : |dx| * |dx| = dx * dx := abs_mul_abs_self dx
  have cx : -(m.amp * m.omega * s) * dx * (1 / (|dx| * |dx|)) = m.speed := by
    rw [gg]
    unfold Wave.speed
    rw [hdx]
    have := hA.ne'
    have := hk.ne'
    field_simp
  set ur := u - m.speed with hur
  have hur0 : ur ≠ 0 := sub_ne_zero.mpr hr
  have harg : ur * dx ≠ 0 := mul_ne_zero hur0 hdx0
  have nn : (dx / |dx|) * (dx / |dx|) = 1 := by rw [div_mul_div_comm, gg, div_self (mul_ne_zero hdx0 hdx0)]
  have mg : Real.sqrt (ur * ur * (dx / |dx|) * (dx / |dx|) + (v - -(m.amp * m.omega * s) * 0 * (1 / (|dx| * |dx|))) * (v - -(m.amp * m.omega * s) * 0 * (1 / (|dx| * |dx|))) * (0 / |dx|) * (0 / |dx|)) = |ur| := by
    have : ur * ur * (dx / |dx|) * (dx / |dx|) = ur * ur := by rw [mul_assoc (ur * ur), nn, mul_one]
    rw [this]; simp [Real.sqrt_mul_self_eq_abs]
  have key : ∀ comp : Fin 2, m.stress time u v x comp = some (1 / Real.pi * |ur| * |ur| * |dx| * |dx| * ((ur * dx + |ur * dx|) / (2 * (ur * dx))) *
      (if comp = 0 then dx / |dx| else 0)) := by
    intro comp
    unfold Wave.stress
    dsimp only
    rw [← hsd, ← hdx, g1, if_neg g0, cx, ← hur, mg]
    have a1 : ur * dx + (v - -(m.amp * m.omega * s) * 0 * (1 / (|dx| * |dx|))) * 0 = ur * dx := by ring
    rw [a1, if_neg harg, zero_div]
  refine ⟨by rw [key 1]; simp, _, key 0, ?_, ?_, ?_⟩
  · simp only [if_true]
    rcases lt_or_gt_of_ne harg with h | h
    · rw [abs_of_neg h]; simp
    · rw [abs_of_pos h]
      have : (ur * dx + ur * dx) / (2 * (ur * dx)) = 1 := by rw [← two_mul, div_self (by linarith [h.ne'] : 2 * (ur * dx) ≠ 0)]
      rw [this, mul_one]
      have p : 0 < dx / |dx| * ur := by rw [div_mul_eq_mul_div, mul_comm]; exact div_pos h (abs_pos.mpr hdx0)
      have q : 0 ≤ 1 / Real.pi * |ur| * |ur| * |dx| * |dx| := by have := Real.pi_pos; positivity
      have := mul_nonneg q p.le
      linarith
  · intro h
    simp only [if_true]
    rw [abs_of_pos h]
    have : (ur * dx + ur * dx) / (2 * (ur * dx)) = 1 := by rw [← two_mul, div_self (by linarith [h.ne'] : 2 * (ur * dx) ≠ 0)]
    rw [this, mul_one, abs_mul, abs_div, abs_abs, div_self g0, mul_one]
    have e : 1 / Real.pi * |ur| * |ur| * |dx| * |dx| = 1 / Real.pi * (ur * ur) * (dx * dx) := by
      have uu := abs_mul_abs_self ur
      linear_combination 1 / Real.pi * |dx| * |dx| * uu + 1 / Real.pi * ur * ur * gg
    rw [e, abs_of_nonneg (by have := Real.pi_pos; have := mul_self_nonneg ur; have := mul_self_nonneg dx; positivity), hdx]
    ring
  · intro h
    simp only [if_true]
    rw [abs_of_neg h]; simp

/-- C90 fails on crests and in troughs and where the wind moves with the wave: the stress is 0/0 there. -/
theorem wave_undefined (m : Wave) {time u v x : ℝ} (comp : Fin 2) :
    (Real.sin (m.k * x - m.omega * time) = 0 → m.stress time u v x comp = none) ∧
    (0 < m.amp → 0 < m.k → Real.sin (m.k * x - m.omega * time) ≠ 0 → u = m.speed → m.stress time u v x comp = none) := by
  refine ⟨fun h => ?_, fun hA hk hs hu => ?_⟩
  · unfold Wave.stress
    dsimp only
    rw [if_pos (by rw [h]; simp)]
  · unfold Wave.stress
    dsimp only
    set s := Real.sin (m.k * x - m.omega * time)
    set dx := -m.amp * m.k * s with hdx
    have hdx0 : dx ≠ 0 := by rw [hdx]; exact mul_ne_zero (mul_ne_zero (neg_ne_zero.mpr hA.ne') hk.ne') hs
    have g1 : Real.sqrt (dx * dx + 0 * 0) = |dx| := by rw [mul_zero, add_zero, Real.sqrt_mul_self_eq_abs]
    have gg : |dx| * |dx| = dx * dx := abs_mul_abs_self dx
    rw [g1, if_neg (abs_ne_zero.mpr hdx0)]
    have cx : -(m.amp * m.omega * s) * dx * (1 / (|dx| * |dx|)) = m.speed := by
      rw [gg]
      unfold Wave.speed
      rw [hdx]
      have := hA.ne'
      have := hk.ne'
      field_simp
    rw [if_pos (by rw [cx, hu]; ring)]

/-! ## Boundary condition -/

/-- C90: viscosity times the gradient put at a wall is density times the stress, against the flow at both walls. -/
theorem ghost_spec {tau mu rho : ℝ} (h : mu ≠ 0) : mu * ghostLow tau mu rho = rho * tau ∧ mu * ghostHigh tau mu rho = -(rho * tau) := by
  unfold ghostLow ghostHigh
  constructor <;> field_simp

/-- C90 fails for the constant stress at the upper wall: it drives the flow instead of holding it; the force of the two walls on the
flow (difference of the two fluxes) is zero instead of twice the stress. -/
theorem constant_upper_wrong {ut mu rho : ℝ} (h : mu ≠ 0) :
    mu * (constHigh ut mu rho).1 = rho * ut ^ 2 ∧ mu * (constHigh ut mu rho).1 - mu * (constLow ut mu rho).1 = 0 ∧
    (constHigh ut mu rho).2 = 0 ∧ (constLow ut mu rho).2 = 0 ∧ mu * ghostHigh (ut ^ 2) mu rho - mu * ghostLow (ut ^ 2) mu rho = -(2 * (rho * ut ^ 2)) := by
  unfold constHigh constLow ghostHigh ghostLow
  refine ⟨by field_simp, by ring, rfl, rfl, by field_simp; ring⟩

/-- C90 (part): the constant stress at the lower wall balances a force along x over a height of one. -/
theorem constant_balance_partial {fx mu rho : ℝ} (hf : 0 ≤ fx) (h : mu ≠ 0) :
    mu * (constLow (utauForce fx 0) mu rho).1 = rho * fx ∧ (constLow (utauForce fx 0) mu rho).2 = 0 := by
  unfold constLow utauForce
  rw [mul_zero, add_zero, Real.sqrt_mul_self hf, Real.mul_self_sqrt hf]
  exact ⟨by field_simp, rfl⟩

/-- C90 fails for any other direction of the force: the stress is always along x, with the sign of a flow along x. -/
theorem constant_direction_wrong {f mu rho : ℝ} (hf : 0 < f) (h : mu ≠ 0) :
    (mu * (constLow (utauForce 0 f) mu rho).1 = rho * f ∧ (constLow (utauForce 0 f) mu rho).2 = 0) ∧
    mu * (constLow (utauForce (-f) 0) mu rho).1 = rho * f := by
  unfold constLow utauForce
  have e : ((-f) * (-f) + 0 * 0 : ℝ) = f * f := by ring
  have e2 : ((0 : ℝ) * 0 + f * f) = f * f := by ring
  rw [e, e2, Real.sqrt_mul_self hf.le, Real.mul_self_sqrt hf.le]
  exact ⟨⟨by field_simp, rfl⟩, by field_simp⟩

/-- C90 fails in a domain that does not start at zero: the height used in the law of the wall is the coordinate, off by the position of
the wall (here below zero: the logarithm is undefined at once). -/
theorem zref_absolute (lo dz : ℝ) (idx : ℤ) : zref lo dz idx - (idx + 1 / 2) * dz = lo ∧ zref (-1) (1 / 10) 0 < 0 := by
  unfold zref
  constructor
  · ring
  · norm_num

theorem zref_negative_undefined {c : Law} (hz : c.zref ≤ 0) (hn : 0 < c.nu) {mean w : ℝ} (hm : 0 < mean) : c.utau mean w = .nan := by
  have run : c.run mean w = none := by
    unfold Law.run
    unfold Law.loop
    have a : 1 / 10 ^ 5 < |(-1 : ℝ) - mean| := by
      rw [abs_of_neg (by linarith)]; norm_num; linarith
    dsimp only
    rw [if_pos ⟨a, Nat.zero_le _⟩, if_pos (Or.inl (div_nonpos_of_nonpos_of_nonneg (mul_nonpos_of_nonpos_of_nonneg hz hm.le) hn.le))]
  unfold Law.utau
  rw [run]

/-- C90: where the cells are flat enough, the wave model reads the velocity at the height of the grid size along x by linear
interpolation, exact for linear profiles. -/
theorem read_linear {dx dz : ℝ} (hz : 0 < dz) (h : dz < dx) {has : ℤ → Bool} (hb : has ⌊dx / dz - 1 / 2⌋ = true)
    (hb2 : has (⌊dx / dz - 1 / 2⌋ + 1) = true) (a b : ℝ) :
    (readAt dx dz has).value (fun k => a + b * (((k : ℝ) + 1 / 2) * dz)) = a + b * dx := by
  unfold readAt
  rw [if_neg (not_le.mpr h)]
  dsimp only
  rw [hb, hb2]
  simp only [Bool.and_self, if_true, Read.value]
  push_cast
  set k : ℝ := (⌊dx / dz - 1 / 2⌋ : ℝ)
  have e : (k + 1 + 1 / 2) * dz - (k + 1 / 2) * dz = dz := by ring
  rw [e]
  field_simp
  ring

/-- C90 fails when boxes end below that height: the cell at the wall is read instead, so the result depends on how the domain is
divided. -/
theorem read_depends_on_boxes : ∃ f : ℤ → ℝ, (readAt 4 1 (fun _ => true)).value f ≠ (readAt 4 1 (fun k => decide (k ≤ 3))).value f := by
  have fl : ⌊(4 : ℝ) / 1 - 1 / 2⌋ = 3 := by rw [Int.floor_eq_iff]; norm_num
  refine ⟨fun k => k, ?_⟩
  unfold readAt
  rw [fl]
  norm_num [Read.value]

/-- C90 fails for cells taller than long: the cell read is not the nearest. -/
theorem read_not_nearest : readAt (3 / 5) 1 (fun _ => true) = .cell 1 ∧ |((0 : ℝ) + 1 / 2) * 1 - 3 / 5| < |((1 : ℝ) + 1 / 2) * 1 - 3 / 5| := by
  refine ⟨?_, by norm_num [abs_of_neg, abs_of_pos]⟩
  unfold readAt
  rw [if_pos (by norm_num)]
  congr 1
  rw [round_eq, Int.floor_eq_iff]
  norm_num

end AmrWind.Wall
