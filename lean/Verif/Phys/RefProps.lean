import Mathlib.Analysis.Convex.SpecificFunctions.Basic
import Mathlib.Tactic.Positivity
import Mathlib.Tactic.LinearCombination
import Verif.Phys.RefModel
import Verif.Mix.Props

/-!
# C88: the reference state and the properties of the fluids
-/

set_option linter.unusedSectionVars false

namespace AmrWind.Ref

theorem Rd_pos : 0 < Rd := by unfold Rd; positivity
theorem Rv_pos : 0 < Rv := by unfold Rv; positivity

/-- C88: the gas constant of dry air is between 287.0 and 287.1 J/(kg K), that of vapour between 461.5 and 461.6. -/
theorem gas_constants : 287 < Rd ∧ Rd < 2871 / 10 ∧ 4615 / 10 < Rv ∧ Rv < 4616 / 10 := by
  unfold Rd Rv; norm_num

/-- C88: the equation of state is the ideal gas law `p = ρ R T` with `T = θ (p/p0)^((γ-1)/γ)`, with the gas constant of moist air. -/
theorem eos_ideal {p0 rho theta qv : ℝ} (h0 : 0 < p0) (hr : 0 < rho) (ht : 0 < theta) (hq : 0 ≤ qv) :
    pEos p0 rho theta qv = rho * (Rd + Rv * qv) * (theta * (pEos p0 rho theta qv / p0) ^ ((gam - 1) / gam)) := by
  have hR := Rd_pos
  have hV := Rv_pos
  unfold pEos
  set x := Rd * (rho * theta) * (1 + Rv / Rd * qv) * (1 / p0) with hx
  have hxp : 0 < x := by rw [hx]; positivity
  have e1 : p0 * x ^ gam / p0 = x ^ gam := by field_simp
  rw [e1, ← Real.rpow_mul hxp.le]
  have e2 : gam * ((gam - 1) / gam) = gam - 1 := by unfold gam; norm_num
  rw [e2, Real.rpow_sub_one hxp.ne']
  have e3 : rho * (Rd + Rv * qv) * theta = p0 * x := by rw [hx]; field_simp
  have e4 : rho * (Rd + Rv * qv) * (theta * (x ^ gam / x)) = rho * (Rd + Rv * qv) * theta * (x ^ gam / x) := by ring
  rw [e4, e3, mul_assoc, mul_div_cancel₀ _ hxp.ne']

theorem eos_scale {p0 rho theta qv : ℝ} (h0 : 0 < p0) (hr : 0 ≤ rho) (ht : 0 ≤ theta) (hq : 0 ≤ qv) :
    pEos p0 rho theta qv = p0 * (Rd * theta * (1 + Rv / Rd * qv) * (1 / p0)) ^ gam * rho ^ gam := by
  have hR := Rd_pos
  have hV := Rv_pos
  unfold pEos
  have e : Rd * (rho * theta) * (1 + Rv / Rd * qv) * (1 / p0) = Rd * theta * (1 + Rv / Rd * qv) * (1 / p0) * rho := by ring
  rw [e, Real.mul_rpow (by positivity) hr, ← mul_assoc p0]

/-- C88: the function given as derivative of the pressure is its derivative with respect to density at constant temperature. -/
theorem eos_deriv {p0 rho theta qv : ℝ} (h0 : 0 < p0) (hr : 0 < rho) (ht : 0 < theta) (hq : 0 ≤ qv) :
    HasDerivAt (fun r => pEos p0 r theta qv) (dpEos p0 rho theta qv) rho := by
  have h : HasDerivAt (fun r : ℝ => p0 * (Rd * theta * (1 + Rv / Rd * qv) * (1 / p0)) ^ gam * r ^ gam) (dpEos p0 rho theta qv) rho := by
    have := ((Real.hasDerivAt_rpow_const (x := rho) (p := gam) (Or.inl hr.ne')).const_mul
      (p0 * (Rd * theta * (1 + Rv / Rd * qv) * (1 / p0)) ^ gam))
    refine this.congr_deriv ?_
    unfold dpEos; ring
  apply h.congr_of_eventuallyEq
  filter_upwards [lt_mem_nhds hr] with r hr'
  exact eos_scale h0 hr'.le ht.le hq

/-- C88: pressure is positive and strictly increasing in density and temperature, and the derivative positive. -/
theorem eos_monotone {p0 rho theta qv : ℝ} (h0 : 0 < p0) (hr : 0 < rho) (ht : 0 < theta) (hq : 0 ≤ qv) :
    0 < pEos p0 rho theta qv ∧ 0 < dpEos p0 rho theta qv ∧ (∀ r, rho < r → pEos p0 rho theta qv < pEos p0 r theta qv) ∧
    (∀ t, theta < t → pEos p0 rho theta qv < pEos p0 rho t qv) := by
  have hR := Rd_pos
  have hV := Rv_pos
  have hg : (0 : ℝ) < gam := by unfold gam; norm_num
  refine ⟨by unfold pEos; positivity, by unfold dpEos; positivity, fun r h => ?_, fun t h => ?_⟩
  · unfold pEos
    apply mul_lt_mul_of_pos_left _ h0
    apply Real.rpow_lt_rpow (by positivity) _ hg
    gcongr
  · unfold pEos
    apply mul_lt_mul_of_pos_left _ h0
    apply Real.rpow_lt_rpow (by positivity) _ hg
    gcongr

/-- C88 fails for an equation of state made without a reference pressure: the default argument is `1e-5` where the member says
`1e5`, and all pressures come out ten thousand times too large. -/
theorem default_pressure_wrong {rho theta : ℝ} (hr : 0 < rho) (ht : 0 < theta) :
    pEos defaultP0 rho theta 0 = 10 ^ 4 * pEos memberP0 rho theta 0 := by
  have hR := Rd_pos
  rw [eos_scale (by unfold defaultP0; norm_num) hr.le ht.le le_rfl, eos_scale (by unfold memberP0; norm_num) hr.le ht.le le_rfl]
  have e1 : Rd * theta * (1 + Rv / Rd * 0) * (1 / defaultP0) = Rd * theta * (1 + Rv / Rd * 0) * (1 / memberP0) * 10 ^ 10 := by
    unfold defaultP0 memberP0; ring
  rw [e1, Real.mul_rpow (by unfold memberP0; simp only [mul_zero, add_zero, mul_one]; positivity) (by positivity)]
  have e2 : ((10 : ℝ) ^ 10) ^ gam = 10 ^ 14 := by
    have : ((10 : ℝ) ^ 10) = (10 : ℝ) ^ (10 : ℝ) := by norm_cast
    rw [this, ← Real.rpow_mul (by norm_num)]
    unfold gam
    have : (10 : ℝ) * (14 / 10) = (14 : ℕ) := by norm_num
    rw [this, Real.rpow_natCast]
  rw [e2]
  unfold defaultP0 memberP0
  ring

/-! ## Anelastic reference state -/

/-- An atmosphere: positive pressure and temperature, gravity downward, positive cell size and tolerance. -/
structure Col.Ok (c : Col) : Prop where
  pbot : 0 < c.pbot
  theta : 0 < c.theta
  g : c.g < 0
  dx : 0 < c.dx
  tol : 0 < c.tol

/-- The tangent of the equation of state lies below it. -/
theorem eos_tangent {c : Col} (hc : c.Ok) {a b : ℝ} (ha : 0 < a) (hb : 0 < b) :
    pEos c.pbot a c.theta 0 + dpEos c.pbot a c.theta 0 * (b - a) ≤ pEos c.pbot b c.theta 0 := by
  have hR := Rd_pos
  rw [eos_scale hc.pbot ha.le hc.theta.le le_rfl, eos_scale hc.pbot hb.le hc.theta.le le_rfl]
  unfold dpEos
  have hp := hc.pbot
  have ht := hc.theta
  set K := c.pbot * (Rd * c.theta * (1 + Rv / Rd * 0) * (1 / c.pbot)) ^ gam with hK
  have hK0 : 0 < K := by
    rw [hK]
    simp only [mul_zero, add_zero, mul_one]
    positivity
  have bern := one_add_mul_self_le_rpow_one_add (s := b / a - 1) (by have := div_pos hb ha; linarith) (p := gam) (by unfold gam; norm_num)
  have e1 : 1 + (b / a - 1) = b / a := by ring
  rw [e1, Real.div_rpow hb.le ha.le] at bern
  have hag : 0 < a ^ gam := Real.rpow_pos_of_pos ha _
  rw [le_div_iff₀ hag] at bern
  rw [Real.rpow_sub_one ha.ne']
  have e2 : K * a ^ gam + gam * c.pbot * (Rd * c.theta * (1 + Rv / Rd * 0) * (1 / c.pbot)) ^ gam * (a ^ gam / a) * (b - a) =
      K * ((1 + gam * (b / a - 1)) * a ^ gam) := by
    rw [hK]; field_simp
  rw [e2]
  exact mul_le_mul_of_nonneg_left bern hK0.le

theorem dp_mono {c : Col} (hc : c.Ok) {a b : ℝ} (ha : 0 < a) (hab : a ≤ b) : dpEos c.pbot a c.theta 0 ≤ dpEos c.pbot b c.theta 0 := by
  have hR := Rd_pos
  have hp := hc.pbot
  have ht := hc.theta
  unfold dpEos
  apply mul_le_mul_of_nonneg_left _ (by simp only [mul_zero, add_zero, mul_one]; unfold gam; positivity)
  exact Real.rpow_le_rpow ha.le hab (by unfold gam; norm_num)

/-- C88: whatever the loop returns was reached by a correction smaller than the tolerance, from a positive density. -/
theorem newton_converged {c : Col} {hse : ℝ → ℝ} {w tol : ℝ} {n : ℕ} {d r : ℝ} (h : newton c hse w tol n d = some r) :
    ∃ e, 0 < e ∧ 0 < r ∧ |r - e| < tol ∧ r = e + (hse e - pEos c.pbot e c.theta 0) / (dpEos c.pbot e c.theta 0 - w) := by
  induction n generalizing d with
  | zero => simp [newton] at h
  | succ n ih =>
    unfold newton at h
    by_cases h1 : d ≤ 0
    · rw [if_pos h1] at h; exact absurd h (by simp)
    · rw [if_neg h1] at h
      dsimp only at h
      set dd := (hse d - pEos c.pbot d c.theta 0) / (dpEos c.pbot d c.theta 0 - w) with hdd
      by_cases h2 : d + dd ≤ 0
      · rw [if_pos h2] at h; exact absurd h (by simp)
      · rw [if_neg h2] at h
        by_cases h3 : |dd| < tol
        · rw [if_pos h3] at h
          have := Option.some.inj h
          refine ⟨d, not_le.mp h1, by rw [← this]; exact not_le.mp h2, ?_, by rw [← this]⟩
          rw [← this, add_sub_cancel_left]; exact h3
        · rw [if_neg h3] at h
          exact ih h

/-- What every pass of the upper loop keeps: from a density above the solution and not above that of the cell below it comes to a
smaller one, still above the solution. -/
theorem newton_upper {c : Col} (hc : c.Ok) {a p : ℝ} (ha : 0 < a) (n : ℕ) {d r : ℝ} (hd : 0 < d) (hda : d ≤ a)
    (hF : p + c.dx * (1 / 2 * (a + d)) * c.g < pEos c.pbot d c.theta 0)
    (h : newton c (fun d => p + c.dx * (1 / 2 * (a + d)) * c.g) (c.dx * c.g) (c.tol * a) n d = some r) :
    0 < r ∧ r < d ∧ p + c.dx * (1 / 2 * (a + r)) * c.g ≤ pEos c.pbot r c.theta 0 ∧
      pEos c.pbot r c.theta 0 - (p + c.dx * (1 / 2 * (a + r)) * c.g) ≤ c.tol * a * (dpEos c.pbot a c.theta 0 - c.dx * c.g) := by
  have hg := hc.g
  have hx := hc.dx
  have gx : c.dx * c.g < 0 := mul_neg_of_pos_of_neg hx hg
  induction n generalizing d with
  | zero => simp [newton] at h
  | succ n ih =>
    unfold newton at h
    rw [if_neg (not_le.mpr hd)] at h
    dsimp only at h
    have hdp := (eos_monotone (qv := 0) hc.pbot hd hc.theta le_rfl).2.1
    have hs : 0 < dpEos c.pbot d c.theta 0 - c.dx * c.g := by linarith
    set s := dpEos c.pbot d c.theta 0 - c.dx * c.g with hsd
    set dd := (p + c.dx * (1 / 2 * (a + d)) * c.g - pEos c.pbot d c.theta 0) / s with hdd
    have hneg : dd < 0 := div_neg_of_neg_of_pos (by linarith) hs
    have hmul : dd * s = p + c.dx * (1 / 2 * (a + d)) * c.g - pEos c.pbot d c.theta 0 := div_mul_cancel₀ _ hs.ne'
    by_cases h2 : d + dd ≤ 0
    · rw [if_pos h2] at h; exact absurd h (by simp)
    · rw [if_neg h2] at h
      have hpos : 0 < d + dd := not_le.mp h2
      have tan := eos_tangent hc hd hpos
      have hnew : p + c.dx * (1 / 2 * (a + (d + dd))) * c.g < pEos c.pbot (d + dd) c.theta 0 := by
        have e : d + dd - d = dd := by ring
        rw [e] at tan
        have e3 : dpEos c.pbot d c.theta 0 = s + c.dx * c.g := by rw [hsd]; ring
        rw [e3] at tan
        have : 0 < c.dx * c.g * dd := mul_pos_of_neg_of_neg gx hneg
        nlinarith
      by_cases h3 : |dd| < c.tol * a
      · rw [if_pos h3] at h
        have hr := Option.some.inj h
        rw [← hr]
        refine ⟨hpos, by linarith, hnew.le, ?_⟩
        have mono : pEos c.pbot (d + dd) c.theta 0 ≤ pEos c.pbot d c.theta 0 :=
          ((eos_monotone (qv := 0) hc.pbot hpos hc.theta le_rfl).2.2.1 d (by linarith)).le
        have sm : s ≤ dpEos c.pbot a c.theta 0 - c.dx * c.g := by
          have := dp_mono hc hd hda; rw [hsd]; linarith
        rw [abs_of_neg hneg] at h3
        have k1 : pEos c.pbot d c.theta 0 - (p + c.dx * (1 / 2 * (a + d)) * c.g) = -dd * s := by linarith
        have k2 : -dd * s ≤ c.tol * a * (dpEos c.pbot a c.theta 0 - c.dx * c.g) :=
          mul_le_mul h3.le sm hs.le (by linarith)
        have k3 : p + c.dx * (1 / 2 * (a + d)) * c.g ≤ p + c.dx * (1 / 2 * (a + (d + dd))) * c.g := by
          nlinarith [mul_pos_of_neg_of_neg gx hneg]
        linarith
      · rw [if_neg h3] at h
        obtain ⟨q1, q2, q3⟩ := ih hpos (by linarith) hnew h
        exact ⟨q1, by linarith, q3⟩

/-- C88: every cell of the reference column obeys the equation of state exactly. -/
theorem column_eos {c : Col} {k : ℕ} {b : ℝ × ℝ} (h : cell c k = some b) : 0 < b.1 ∧ b.2 = pEos c.pbot b.1 c.theta 0 := by
  cases k with
  | zero =>
    unfold cell at h
    cases hn : newton c (fun d => c.pbot + 1 / 2 * c.dx * d * c.g) (1 / 2 * c.dx * c.g) c.tol 10 c.guess with
    | none => simp only [hn, Option.bind_eq_bind, Option.bind_none] at h; exact absurd h (by simp)
    | some d =>
      simp only [hn, Option.bind_eq_bind, Option.bind_some, Option.pure_def, Option.some.injEq] at h
      obtain ⟨e, _, q, _⟩ := newton_converged hn
      rw [← h]; exact ⟨q, rfl⟩
  | succ k =>
    unfold cell at h
    cases ha : cell c k with
    | none => simp [ha] at h
    | some a =>
      simp only [ha, Option.bind_eq_bind, Option.bind_some] at h
      cases hn : newton c (fun d => a.2 + c.dx * (1 / 2 * (a.1 + d)) * c.g) (c.dx * c.g) (c.tol * a.1) 10 a.1 with
      | none => simp only [hn, Option.bind_eq_bind, Option.bind_none] at h; exact absurd h (by simp)
      | some d =>
        simp only [hn, Option.bind_some, Option.pure_def, Option.some.injEq] at h
        obtain ⟨e, _, q, _⟩ := newton_converged hn
        rw [← h]; exact ⟨q, rfl⟩

/-- C88: the column is in hydrostatic balance to within the tolerance, for every number of cells: between two cells the pressure falls
by the weight of the air between their centres, up to `tol ρ (∂p/∂ρ + |g| dx)`; density and pressure fall strictly with height. -/
theorem column_hydrostatic {c : Col} (hc : c.Ok) {k : ℕ} {a b : ℝ × ℝ} (ha : cell c k = some a) (hb : cell c (k + 1) = some b) :
    b.1 < a.1 ∧ b.2 < a.2 ∧ 0 ≤ b.2 - (a.2 + c.dx * ((a.1 + b.1) / 2) * c.g) ∧
      b.2 - (a.2 + c.dx * ((a.1 + b.1) / 2) * c.g) ≤ c.tol * a.1 * (dpEos c.pbot a.1 c.theta 0 - c.dx * c.g) := by
  obtain ⟨a0, ap⟩ := column_eos ha
  have hb' := hb
  unfold cell at hb'
  simp only [ha, Option.bind_eq_bind, Option.bind_some] at hb'
  cases hn : newton c (fun d => a.2 + c.dx * (1 / 2 * (a.1 + d)) * c.g) (c.dx * c.g) (c.tol * a.1) 10 a.1 with
  | none => simp only [hn, Option.bind_none] at hb'; exact absurd hb' (by simp)
  | some d =>
    simp only [hn, Option.bind_some, Option.pure_def, Option.some.injEq] at hb'
    have hF : a.2 + c.dx * (1 / 2 * (a.1 + a.1)) * c.g < pEos c.pbot a.1 c.theta 0 := by
      rw [← ap]
      have : c.dx * (1 / 2 * (a.1 + a.1)) * c.g < 0 := mul_neg_of_pos_of_neg (mul_pos hc.dx (by linarith)) hc.g
      linarith
    obtain ⟨q1, q2, q3, q4⟩ := newton_upper hc a0 10 a0 le_rfl hF hn
    rw [← hb']
    dsimp only
    have e : (a.1 + d) / 2 = 1 / 2 * (a.1 + d) := by ring
    rw [e]
    refine ⟨q2, ?_, by linarith, q4⟩
    rw [ap]
    exact (eos_monotone (qv := 0) hc.pbot q1 hc.theta le_rfl).2.2.1 a.1 q2

/-- C88: so density and pressure fall with height over the whole column. -/
theorem column_monotone {c : Col} (hc : c.Ok) {j k : ℕ} (hjk : j < k) {a b : ℝ × ℝ} (ha : cell c j = some a) (hb : cell c k = some b) :
    b.1 < a.1 ∧ b.2 < a.2 := by
  induction k generalizing b with
  | zero => omega
  | succ k ih =>
    cases hm : cell c k with
    | none => unfold cell at hb; simp [hm] at hb
    | some m =>
      obtain ⟨h1, h2, _⟩ := column_hydrostatic hc hm hb
      rcases Nat.lt_succ_iff_lt_or_eq.mp hjk with h | h
      · obtain ⟨h3, h4⟩ := ih h hm
        exact ⟨by linarith, by linarith⟩
      · rw [h] at ha
        rw [ha] at hm
        have := Option.some.inj hm
        rw [this]; exact ⟨h1, h2⟩

/-- C88: the first cell is in balance with the pressure at the bottom, half a cell below its centre: the error is not negative and at
most the tolerance times the change of slope in the last correction. -/
theorem bottom_hydrostatic {c : Col} (hc : c.Ok) {b : ℝ × ℝ} (hb : cell c 0 = some b) :
    ∃ e, |b.1 - e| < c.tol ∧ 0 < e ∧ 0 ≤ b.2 - (c.pbot + 1 / 2 * c.dx * b.1 * c.g) ∧
      b.2 - (c.pbot + 1 / 2 * c.dx * b.1 * c.g) ≤ c.tol * |dpEos c.pbot b.1 c.theta 0 - dpEos c.pbot e c.theta 0| := by
  have gx : 1 / 2 * c.dx * c.g < 0 := mul_neg_of_pos_of_neg (by have := hc.dx; positivity) hc.g
  unfold cell at hb
  cases hn : newton c (fun d => c.pbot + 1 / 2 * c.dx * d * c.g) (1 / 2 * c.dx * c.g) c.tol 10 c.guess with
  | none => simp only [hn, Option.bind_eq_bind, Option.bind_none] at hb; exact absurd hb (by simp)
  | some d =>
    simp only [hn, Option.bind_eq_bind, Option.bind_some, Option.pure_def, Option.some.injEq] at hb
    obtain ⟨e, e0, d0, dt, de⟩ := newton_converged hn
    have hdp := (eos_monotone (qv := 0) hc.pbot e0 hc.theta le_rfl).2.1
    have hs : 0 < dpEos c.pbot e c.theta 0 - 1 / 2 * c.dx * c.g := by linarith
    have hmul : (d - e) * (dpEos c.pbot e c.theta 0 - 1 / 2 * c.dx * c.g) = c.pbot + 1 / 2 * c.dx * e * c.g - pEos c.pbot e c.theta 0 := by
      have : d - e = (c.pbot + 1 / 2 * c.dx * e * c.g - pEos c.pbot e c.theta 0) / (dpEos c.pbot e c.theta 0 - 1 / 2 * c.dx * c.g) := by
        linarith
      rw [this]; exact div_mul_cancel₀ _ hs.ne'
    have t1 := eos_tangent hc e0 d0
    have t2 := eos_tangent hc d0 e0
    rw [← hb]
    refine ⟨e, dt, e0, ?_, ?_⟩
    · dsimp only; nlinarith
    · dsimp only
      have k : pEos c.pbot d c.theta 0 - (c.pbot + 1 / 2 * c.dx * d * c.g) ≤
          (dpEos c.pbot d c.theta 0 - dpEos c.pbot e c.theta 0) * (d - e) := by nlinarith
      refine le_trans k (le_trans (le_abs_self _) ?_)
      rw [abs_mul, mul_comm]
      exact mul_le_mul_of_nonneg_right dt.le (abs_nonneg _)

/-- A column in which the first cell is solved by the guess. -/
noncomputable def sample : Col := ⟨101 / 100, 101 / 100 * (100 / 101) ^ (1 / gam) / Rd, 1, -1, 1 / 50, 1 / 10⟩

theorem sample_ok : sample.Ok := by
  have := Rd_pos
  refine ⟨?_, ?_, ?_, ?_, ?_⟩ <;> simp only [sample] <;> first | positivity | norm_num

theorem sample_eos : pEos sample.pbot 1 sample.theta 0 = 1 ∧ dpEos sample.pbot 1 sample.theta 0 = 14 / 10 := by
  have hR := Rd_pos
  have e : Rd * sample.theta * (1 + Rv / Rd * 0) * (1 / sample.pbot) = (100 / 101 : ℝ) ^ (1 / gam) := by
    simp only [sample]; field_simp; ring
  have e2 : ((100 / 101 : ℝ) ^ (1 / gam)) ^ gam = 100 / 101 := by
    rw [← Real.rpow_mul (by norm_num), one_div_mul_cancel (by unfold gam; norm_num), Real.rpow_one]
  constructor
  · rw [eos_scale sample_ok.pbot (by norm_num) sample_ok.theta.le le_rfl, e, e2, Real.one_rpow]
    simp only [sample]; norm_num
  · unfold dpEos
    rw [e, e2, Real.one_rpow]
    simp only [sample, gam]; norm_num

/-- The hypotheses of the theorems on the column are met: two cells of this one are found. -/
example : sample.Ok ∧ cell sample 0 = some (1, 1) ∧ ∃ b, cell sample 1 = some b := by
  obtain ⟨h1, h2⟩ := sample_eos
  have c0 : cell sample 0 = some (1, 1) := by
    have : newton sample (fun d => sample.pbot + 1 / 2 * sample.dx * d * sample.g) (1 / 2 * sample.dx * sample.g) sample.tol 10 sample.guess
        = some 1 := by
      have eg : sample.guess = 1 := rfl
      rw [eg]
      unfold newton
      rw [h1, h2]
      simp only [sample]; norm_num
    unfold cell
    simp only [this, Option.bind_eq_bind, Option.bind_some, h1, Option.pure_def]
  refine ⟨sample_ok, c0, ?_⟩
  have : newton sample (fun d => 1 + sample.dx * (1 / 2 * (1 + d)) * sample.g) (sample.dx * sample.g) (sample.tol * 1) 10 1
      = some (1 + (-(1 / 50)) / (14 / 10 + 1 / 50)) := by
    unfold newton
    rw [h1, h2]
    simp only [sample]; norm_num [abs_of_neg]
  refine ⟨(1 + (-(1 / 50)) / (14 / 10 + 1 / 50), pEos sample.pbot (1 + (-(1 / 50)) / (14 / 10 + 1 / 50)) sample.theta 0), ?_⟩
  unfold cell
  simp only [c0, Option.bind_eq_bind, Option.bind_some, Option.pure_def, this]

/-- C88 fails for the reference pressure, which is a field of nodes: node `k` gets the pressure of the centre of cell `k`, half a cell
above it, and the node at the top of the domain gets zero. -/
theorem reference_pressure_nodes (c : Col) (n k : ℕ) : (k < n → refPressure c n k = (cell c k).map Prod.snd) ∧ refPressure c n n = some 0 := by
  unfold refPressure
  exact ⟨fun h => if_pos h, by rw [if_neg (lt_irrefl n), if_pos rfl]⟩

/-- So across the top cell the reference pressure falls by all of the pressure of the air there instead of the weight of the cell. -/
theorem top_pressure_jump {c : Col} (hc : c.Ok) {n : ℕ} {b : ℝ × ℝ} (hb : cell c n = some b) :
    refPressure c (n + 1) n = some b.2 ∧ refPressure c (n + 1) (n + 1) = some 0 ∧ 0 < b.2 := by
  refine ⟨by unfold refPressure; rw [if_pos (Nat.lt_succ_self n), hb]; rfl, (reference_pressure_nodes c (n + 1) 0).2, ?_⟩
  obtain ⟨h0, h1⟩ := column_eos hb
  rw [h1]
  exact (eos_monotone (qv := 0) hc.pbot h0 hc.theta le_rfl).1

/-- C88: a first guess of the density that is not positive is refused. -/
theorem bad_guess_refused {c : Col} (h : c.guess ≤ 0) : cell c 0 = none := by
  unfold cell newton
  rw [if_pos h]; rfl

/-! ## Transport -/

/-- C88: the section `transport` decides over the older sections, and the boundary layer comes last. -/
theorem precedence (e : Entries) (d : ℝ) : (∀ v, e.transport = some v → expansion e d = v ∧ refTemp e d = v) ∧
    (e.transport = none → ∀ v, e.boussinesq = some v → expansion e d = v ∧ refTemp e d = v) ∧
    (e.transport = none → e.boussinesq = none → ∀ v, e.abl = some v → expansion e d = d ∧ refTemp e d = v) := by
  unfold expansion refTemp
  refine ⟨fun v h => by simp [h], fun h v h2 => by simp [h, h2], fun h h2 v h3 => by simp [h, h2, h3]⟩

/-- The fraction of fluid one that a cell counts with. -/
noncomputable def fraction : Phase → Option ℝ
  | .none => none
  | .vof f => some f
  | .ls eps phi => some (Mix.smoothHeaviside eps phi)

/-- C88: viscosity and thermal diffusivity of a two-phase cell are the averages of those of the fluids with the volume fraction (or
smoothed level set) as weight: within their range and those of the fluid alone away from the interface. -/
theorem mixture_spec {m1 m2 : ℝ} {ph : Phase} {f : ℝ} (hf : fraction ph = some f) :
    mu2 m1 m2 ph = some (f * m1 + (1 - f) * m2) ∧ (0 ≤ f → f ≤ 1 → min m1 m2 ≤ f * m1 + (1 - f) * m2 ∧ f * m1 + (1 - f) * m2 ≤ max m1 m2) := by
  refine ⟨?_, fun h0 h1 => ?_⟩
  · cases ph with
    | none => simp [fraction] at hf
    | vof g => simp only [fraction, Option.some.injEq] at hf; rw [← hf]; simp only [mu2, Option.some.injEq]; ring
    | ls eps phi => simp only [fraction, Option.some.injEq] at hf; rw [← hf]; simp only [mu2, Option.some.injEq]; ring
  · rcases le_total m1 m2 with h | h
    · rw [min_eq_left h, max_eq_right h]; constructor <;> nlinarith
    · rw [min_eq_right h, max_eq_left h]; constructor <;> nlinarith

/-- C88: with a level set the weight is in `[0, 1]`, one on the side of fluid one and zero on the other beyond the band. -/
theorem levelset_fraction {eps phi : ℝ} (he : 0 < eps) : ∃ f, fraction (.ls eps phi) = some f ∧ 0 ≤ f ∧ f ≤ 1 ∧ (eps ≤ phi → f = 1) ∧ (phi ≤ -eps → f = 0) := by
  obtain ⟨h1, _, h2, h3, _⟩ := Mix.smooth_heaviside he
  exact ⟨_, rfl, (h1 phi).1, (h1 phi).2, h2 phi, h3 phi⟩

/-- C88: thermal and scalar diffusivities are viscosity over Prandtl and Schmidt number. -/
theorem diffusivity_spec {mu pr : ℝ} (h : pr ≠ 0) : alpha1 mu pr * pr = mu ∧ scalarDiff mu pr * pr = mu ∧
    (∀ m1 m2 pr1 pr2 f, alpha2 m1 m2 pr1 pr2 (.vof f) = some (f * (m1 / pr1) + (1 - f) * (m2 / pr2))) := by
  unfold alpha1 scalarDiff
  refine ⟨by field_simp, by field_simp, fun m1 m2 pr1 pr2 f => ?_⟩
  simp only [alpha2, mu2, Option.some.injEq]; ring

/-- C88 (part): thermal expansion is the constant given if positive, else one over the local reference temperature; none in the liquid. -/
theorem expansion_spec_partial {const tref tight : ℝ} {field : Option ℝ} :
    (0 < const → beta const tref field tight .none = const) ∧
    (const ≤ 0 → ∀ t, field = some t → beta const tref field tight .none = 1 / t) ∧
    (const ≤ 0 → field = none → beta const tref field tight .none = 1 / tref) ∧
    (∀ f, tight < f → beta const tref field tight (.vof f) = 0) ∧
    (∀ f, f ≤ tight → beta const tref field tight (.vof f) = beta const tref field tight .none) ∧
    (∀ eps phi, 0 < eps → eps ≤ phi → beta const tref field tight (.ls eps phi) = 0) ∧
    (∀ eps phi, 0 < eps → phi ≤ -eps → beta const tref field tight (.ls eps phi) = beta const tref field tight .none) := by
  unfold beta
  refine ⟨fun h => by simp [h], fun h t ht => by simp [not_lt.mpr h, ht], fun h ht => by simp [not_lt.mpr h, ht], fun f h => by simp [h],
    fun f h => by simp [not_lt.mpr h], fun eps phi he h => ?_, fun eps phi he h => ?_⟩
  · have := (Mix.smooth_heaviside he).2.2.1 phi h
    simp [this]
  · have := (Mix.smooth_heaviside he).2.2.2.1 phi h
    simp [this]

/-- C88: with a reference temperature that is not negative, the reference temperature of a cell is the field of that name if there is one, else
the given temperature; the expansion coefficient that is not given is one over the same. -/
theorem reference_theta {tref : ℝ} (h : 0 ≤ tref) (tight : ℝ) :
    (∀ t, refTheta tref (some t) = some t ∧ beta 0 tref (some t) tight .none = 1 / t) ∧
    refTheta tref none = some tref ∧ beta 0 tref none tight .none = 1 / tref := by
  unfold refTheta
  rw [if_neg (not_lt.mpr h), ]
  exact ⟨fun t => ⟨by rw [if_neg (not_lt.mpr h)]; rfl, by simp [beta]⟩, rfl, by simp [beta]⟩

example : refTheta 300 (some 290) = some 290 := (reference_theta (by norm_num) 1).1 290 |>.1

/-- C88 fails when no reference temperature is given (default -1): the reference temperature is refused, but the coefficient of thermal
expansion is -1 and callers that need only it (the one-equation models) go on with it. -/
theorem unset_temperature (tight : ℝ) (field : Option ℝ) : refTheta (-1) field = none ∧ beta 0 (-1) none tight .none = -1 := by
  refine ⟨by unfold refTheta; rw [if_pos (by norm_num)], by unfold beta; norm_num⟩

/-- C88 fails for a given coefficient of zero (no expansion): it is ignored and one over the temperature used. -/
theorem zero_expansion_ignored {tref : ℝ} (h : 0 < tref) (tight : ℝ) : beta 0 tref none tight .none = 1 / tref ∧ 0 < beta 0 tref none tight .none := by
  have : beta 0 tref none tight .none = 1 / tref := by unfold beta; simp
  exact ⟨this, by rw [this]; positivity⟩

/-- C88: the reference density of the cells of the column is that of the column, and there is none beyond it. -/
theorem reference_density_cells (c : Col) (n k : ℕ) : (k < n → refDensity c n k = (cell c k).map Prod.fst) ∧ (n ≤ k → refDensity c n k = none) := by
  unfold refDensity
  exact ⟨fun h => if_pos h, fun h => if_neg (not_lt.mpr h)⟩

end AmrWind.Ref
