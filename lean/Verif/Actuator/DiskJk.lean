import Verif.Interp.Props
import Verif.Actuator.Disk

/-!
# C75: the Joukowsky disk
-/

namespace AmrWind.Disk

open AmrWind.Vs
open AmrWind.Interp (linear)
open scoped BigOperators

/-! ## The tangential vector -/

theorem tmul_quaternion (a : Vec ℝ) (θ : ℝ) (v : Vec ℝ) : tmul (quaternion a θ) v = vmul v (quaternion a (-θ)) := by
  unfold quaternion
  have e : (1 / 2 * (-1 * radians (-θ)) : ℝ) = -(1 / 2 * (-1 * radians θ)) := by unfold radians; ring
  simp only [e, Real.cos_neg, Real.sin_neg]
  ext <;> simp only [tmul, vmul, quatTensor] <;> ring

theorem perp_normalize {meps : ℝ} {n v : Vec ℝ} (h : dot n v = 0) : dot n (normalize meps v) = 0 := by
  unfold normalize
  by_cases hv : mag v < meps
  · rw [if_pos hv]; unfold dot; simp
  · rw [if_neg hv]
    have : dot n ((1 / mag v) • v) = 1 / mag v * dot n v := by
      simp only [dot, smul_x, smul_y, smul_z]; ring
    rw [this, h, mul_zero]

/-- The azimuthal force points along `n × b` where `b` is the direction from the centre to the point. -/
theorem theta_vec {meps : ℝ} {n : Vec ℝ} (hn : dot n n = 1) {c p : Vec ℝ} (hp : dot n (p - c) = 0) :
    -tangential meps c n p = cross n (normalize meps (p - c)) := by
  unfold tangential
  have h0 := perp_normalize (meps := meps) hp
  rw [tmul_quaternion, quaternion_rotates (ne_zero_of_dot hn), mag_of_dot hn]
  have e : Real.pi * -90 / 180 = -(Real.pi / 2) := by ring
  rw [e]
  unfold rodrigues
  simp only [div_one, Real.cos_neg, Real.cos_pi_div_two, Real.sin_neg, Real.sin_pi_div_two]
  have hd : dot (⟨n.x, n.y, n.z⟩ : Vec ℝ) (normalize meps (p - c)) = 0 := h0
  rw [hd]
  ext <;> simp only [neg_x, neg_y, neg_z, cross] <;> ring

theorem dot_cross_self (a b : Vec ℝ) : dot (cross a b) a = 0 := by simp only [dot, cross]; ring

/-! ## Sums -/

theorem dot_vsum (m : ℕ) (f : ℕ → Vec ℝ) (n : Vec ℝ) : dot (vsum m f) n = ∑ i ∈ Finset.range m, dot (f i) n := by
  unfold vsum dot
  simp only [Finset.sum_mul, Finset.sum_add_distrib]

/-- Sums of cosines at equally spaced angles. -/
theorem cos_sum (A : ℝ) {nt : ℕ} (ht : 0 < nt) {m : ℤ} (hm : ¬ ((nt : ℤ) ∣ m)) :
    ∑ j ∈ Finset.range nt, Real.cos (A - m * (j * (2 * Real.pi / nt))) = 0 := by
  have hnt : (nt : ℝ) ≠ 0 := by positivity
  set h := (m : ℝ) * (2 * Real.pi / nt) with hh
  have tele : ∀ n : ℕ, 2 * Real.sin (h / 2) * ∑ j ∈ Finset.range n, Real.cos (A - m * (j * (2 * Real.pi / nt))) =
      Real.sin (A + h / 2) - Real.sin (A + h / 2 - n * h) := by
    intro n
    induction n with
    | zero => simp
    | succ n ih =>
      rw [Finset.sum_range_succ, mul_add, ih]
      have e1 : A - (m : ℝ) * ((n : ℝ) * (2 * Real.pi / nt)) = A - n * h := by rw [hh]; ring
      rw [e1]
      have e2 : A + h / 2 - n * h = (A - n * h) + h / 2 := by ring
      have e3 : A + h / 2 - ((n + 1 : ℕ) : ℝ) * h = (A - n * h) - h / 2 := by push_cast; ring
      rw [e2, e3, Real.sin_add (A - n * h), Real.sin_sub (A - n * h)]
      ring
  have hs : Real.sin (h / 2) ≠ 0 := by
    intro hz
    rw [Real.sin_eq_zero_iff] at hz
    obtain ⟨k, hk⟩ := hz
    apply hm
    refine ⟨k, ?_⟩
    have hp := Real.pi_ne_zero
    have : (k : ℝ) * Real.pi * nt = m * Real.pi := by
      rw [hk, hh]; field_simp
    have h2 : ((nt : ℝ) * k) = m := by
      have := mul_right_cancel₀ hp (show (nt : ℝ) * k * Real.pi = m * Real.pi by linarith)
      exact this
    exact_mod_cast h2.symm
  have hz := tele nt
  have e : A + h / 2 - nt * h = A + h / 2 - m * (2 * Real.pi) := by rw [hh]; field_simp
  rw [e, Real.sin_sub_int_mul_two_pi, sub_self] at hz
  rcases mul_eq_zero.mp hz with h1 | h1
  · rcases mul_eq_zero.mp h1 with h2 | h2
    · norm_num at h2
    · exact absurd h2 hs
  · exact h1

/-! ## Thrust -/

/-- A Joukowsky disk that the input checks and the assertion on the normal accept. -/
structure Jk.Ok (meps : ℝ) (d : Jk) : Prop where
  eps : 0 < meps
  nr : 0 < d.nr
  nt : 0 < d.nt
  R : 0 < d.R
  unit : dot d.normal d.normal = 1
  level : meps ≤ mag (cross ⟨0, 0, 1⟩ d.normal)
  fine : 2 * meps * d.nr ≤ 1

theorem dx_eq {meps : ℝ} {d : Jk} (h : d.Ok meps) : d.dx = 1 / d.nr := by
  have h1 : (d.nr : ℝ) ≠ 0 := by have := h.nr; positivity
  have h2 := h.R.ne'
  unfold Jk.dx
  field_simp

theorem x_eq {meps : ℝ} {d : Jk} (h : d.Ok meps) (i : ℕ) : d.x meps i = (i + 1 / 2) / d.nr := by
  have h1 : (0 : ℝ) < d.nr := by have := h.nr; positivity
  unfold Jk.x
  rw [dx_eq h]
  have : meps ≤ ((i : ℝ) + 1 / 2) * (1 / d.nr) := by
    rw [mul_one_div, le_div_iff₀ h1]
    have : (0 : ℝ) ≤ i := by positivity
    have := h.fine
    linarith
  rw [max_eq_left this]
  ring

theorem section_eq {meps : ℝ} {d : Jk} (h : d.Ok meps) (i : ℕ) :
    d.nt * areaSection d.R d.nr d.nt i = Real.pi * d.R ^ 2 * (2 * d.x meps i * d.dx) := by
  have h1 : (d.nr : ℝ) ≠ 0 := by have := h.nr; positivity
  rw [area_is_area _ h.nr h.nt, x_eq h, dx_eq h]
  field_simp
  ring

/-- The equation for the circulation (Sørensen 2022, eq. 18). -/
theorem q0_root {meps : ℝ} (hm : 0 < meps) {d : Jk} (ha : meps ≤ d.a1 meps) {q : ℝ} (hq : d.q0 meps = some q) :
    d.a1 meps * q ^ 2 + 2 * (d.a2 meps * d.lambda + d.a3 meps * d.s0) * q + 2 * d.a4 meps * d.lambda * d.s0 +
      d.a5 meps * d.s0 ^ 2 = 1 / 2 * d.ct := by
  have ha0 : 0 < d.a1 meps := lt_of_lt_of_le hm ha
  unfold Jk.q0 at hq
  generalize d.a1 meps = A at *
  generalize d.a2 meps * d.lambda + d.a3 meps * d.s0 = T at *
  simp only [] at hq
  by_cases hd : 0 ≤ T ^ 2 + A * (1 / 2 * d.ct - 2 * d.a4 meps * d.lambda * d.s0 - d.a5 meps * d.s0 * d.s0)
  · rw [if_pos hd, max_eq_left ha] at hq
    have hs := Real.mul_self_sqrt hd
    generalize Real.sqrt (T ^ 2 + A * (1 / 2 * d.ct - 2 * d.a4 meps * d.lambda * d.s0 - d.a5 meps * d.s0 * d.s0)) = s at *
    have hq' : q * A = s - T := by
      have := Option.some.inj hq
      rw [← this, div_mul_cancel₀ _ ha0.ne']
    have key : A * (A * q ^ 2 + 2 * T * q + 2 * d.a4 meps * d.lambda * d.s0 + d.a5 meps * d.s0 ^ 2) = A * (1 / 2 * d.ct) := by
      have : s = q * A + T := by linarith
      subst this
      linear_combination hs
    exact mul_left_cancel₀ ha0.ne' key
  · rw [if_neg hd] at hq
    cases hq

/-- The ring sum of the normal force. -/
theorem fz_sum {meps : ℝ} {d : Jk} (h : d.Ok meps) (q : ℝ) :
    ∑ i ∈ Finset.range d.nr, d.fz meps q i * (2 * d.x meps i * d.dx) =
      d.a1 meps * q ^ 2 + 2 * (d.a2 meps * d.lambda + d.a3 meps * d.s0) * q + 2 * d.a4 meps * d.lambda * d.s0 +
      d.a5 meps * d.s0 ^ 2 := by
  unfold Jk.a1 Jk.a2 Jk.a3 Jk.a4 Jk.a5
  simp only [Finset.sum_mul, Finset.mul_sum, ← Finset.sum_add_distrib]
  refine Finset.sum_congr rfl fun i _ => ?_
  have hx : d.x meps i ≠ 0 := by
    rw [x_eq h]
    have := h.nr
    positivity
  unfold Jk.fz
  field_simp
  ring

theorem pos_perp {meps : ℝ} {d : Jk} (h : d.Ok meps) (i j : ℕ) : dot d.normal (d.pos meps i j - d.center) = 0 := by
  obtain ⟨_, hp, _⟩ := coplanar_spec h.eps h.level
  unfold Jk.pos
  rw [disk_point_spec h.eps h.unit h.level]
  generalize coplanar meps d.normal = e at *
  have : ∀ r c s : ℝ, dot d.normal (d.center + (0 * (2 * d.R)) • d.normal + r • (c • e + s • cross d.normal e) - d.center) =
      r * c * dot e d.normal := by
    intro r c s
    simp only [dot, cross, add_x, add_y, add_z, sub_x, sub_y, sub_z, smul_x, smul_y, smul_z]
    ring
  rw [this, hp, mul_zero]

/-- C75: whatever the tip and root corrections, the normal component of the force of a Joukowsky disk is
`½ ρ U² Ct π R²`, times one plus the mean of the active wake control factor. -/
theorem joukowsky_thrust {meps : ℝ} {d : Jk} (h : d.Ok meps) (ha : meps ≤ d.a1 meps) {q : ℝ} (hq : d.q0 meps = some q) :
    dot (d.total meps q) d.normal = 1 / 2 * d.rho * d.uSqr * d.ct * (Real.pi * d.R ^ 2) *
      (1 + (∑ j ∈ Finset.range d.nt, d.awc j) / d.nt) := by
  have hnt : (d.nt : ℝ) ≠ 0 := by have := h.nt; positivity
  have e : ∀ i j, dot (d.force meps q i j) d.normal =
      d.rho * d.uSqr * areaSection d.R d.nr d.nt i * d.fz meps q i * (1 + d.awc j) := by
    intro i j
    unfold Jk.force
    rw [theta_vec h.unit (pos_perp h i j)]
    have hd : ∀ (A B C : ℝ) (w : Vec ℝ), dot (A • (B • d.normal + C • cross d.normal w)) d.normal =
        A * B * dot d.normal d.normal := by
      intro A B C w
      simp only [dot, cross, add_x, add_y, add_z, smul_x, smul_y, smul_z]
      ring
    rw [hd, h.unit]
    ring
  unfold Jk.total
  rw [dot_vsum]
  have e2 : ∀ i, dot (vsum d.nt fun j => d.force meps q i j) d.normal =
      d.rho * d.uSqr * (Real.pi * d.R ^ 2) * (1 + (∑ j ∈ Finset.range d.nt, d.awc j) / d.nt) *
        (d.fz meps q i * (2 * d.x meps i * d.dx)) := by
    intro i
    rw [dot_vsum]
    simp only [e]
    rw [← Finset.mul_sum, Finset.sum_add_distrib, Finset.sum_const, Finset.card_range, nsmul_eq_mul, mul_one]
    have hs := section_eq h i
    have : (d.nt : ℝ) + ∑ j ∈ Finset.range d.nt, d.awc j = d.nt * (1 + (∑ j ∈ Finset.range d.nt, d.awc j) / d.nt) := by
      field_simp
    rw [this]
    linear_combination (d.rho * d.uSqr * d.fz meps q i * (1 + (∑ j ∈ Finset.range d.nt, d.awc j) / d.nt)) * hs
  simp only [e2]
  rw [← Finset.mul_sum, fz_sum h, q0_root h.eps ha hq]
  ring

/-- C75: an azimuthal mode of active wake control does not change the thrust; the pulsing mode 0 does. -/
theorem awc_mean (amp phase : ℝ) {nt : ℕ} (ht : 0 < nt) (mode : ℤ) :
    (∑ j ∈ Finset.range nt, awcFactor amp phase mode nt j) / nt =
      if (nt : ℤ) ∣ mode then amp * Real.cos phase else 0 := by
  have hnt : (nt : ℝ) ≠ 0 := by positivity
  unfold awcFactor
  rw [← Finset.mul_sum]
  by_cases hd : (nt : ℤ) ∣ mode
  · rw [if_pos hd]
    obtain ⟨k, rfl⟩ := hd
    have e : ∀ j : ℕ, Real.cos (phase - ((nt : ℤ) * k : ℤ) * (j * (2 * Real.pi / nt))) = Real.cos phase := by
      intro j
      have : phase - (((nt : ℤ) * k : ℤ) : ℝ) * (j * (2 * Real.pi / nt)) = phase - ((k * j : ℤ) : ℝ) * (2 * Real.pi) := by
        push_cast; field_simp
      rw [this, Real.cos_sub_int_mul_two_pi]
    simp only [e, Finset.sum_const, Finset.card_range, nsmul_eq_mul]
    field_simp
  · rw [if_neg hd, cos_sum _ ht hd]
    simp

/-- C75: without the solid body term (`ct_region2` not given) and for a thrust coefficient that is not negative the
circulation is defined. -/
theorem default_defined {meps : ℝ} {d : Jk} (h : d.Ok meps) (hs : d.s0 = 0) (hct : 0 ≤ d.ct) :
    ∃ q, d.q0 meps = some q := by
  unfold Jk.q0
  have ha : 0 ≤ d.a1 meps := by
    unfold Jk.a1
    refine Finset.sum_nonneg fun i _ => ?_
    have hx := x_eq h i
    have hd := dx_eq h
    rw [hx, hd]
    have := h.nr
    positivity
  have : 0 ≤ (d.a2 meps * d.lambda + d.a3 meps * d.s0) ^ 2 +
      d.a1 meps * (1 / 2 * d.ct - 2 * d.a4 meps * d.lambda * d.s0 - d.a5 meps * d.s0 * d.s0) := by
    rw [hs]
    have : 0 ≤ d.a1 meps * (1 / 2 * d.ct - 2 * d.a4 meps * d.lambda * 0 - d.a5 meps * 0 * 0) :=
      mul_nonneg ha (by linarith)
    positivity
  exact ⟨_, if_pos this⟩

theorem solidBody_default (ct a1 a2 : ℝ) : solidBody ct 0 a1 a2 = 0 := by unfold solidBody; simp

/-! ## Torque -/

/-- The unit vector from the centre to a force point. -/
noncomputable def spoke (meps : ℝ) (d : Jk) (j : ℕ) : Vec ℝ :=
  Real.cos (2 * Real.pi * j / d.nt) • coplanar meps d.normal +
    Real.sin (2 * Real.pi * j / d.nt) • cross d.normal (coplanar meps d.normal)

theorem spoke_unit {meps : ℝ} {d : Jk} (h : d.Ok meps) (j : ℕ) :
    dot (spoke meps d j) (spoke meps d j) = 1 ∧ dot d.normal (spoke meps d j) = 0 := by
  obtain ⟨h1, h2, _⟩ := coplanar_spec h.eps h.level
  have hn := h.unit
  unfold spoke
  generalize coplanar meps d.normal = e at *
  have ht := Real.sin_sq_add_cos_sq (2 * Real.pi * j / d.nt)
  generalize Real.cos (2 * Real.pi * j / d.nt) = c at *
  generalize Real.sin (2 * Real.pi * j / d.nt) = s at *
  generalize d.normal = n at *
  constructor
  · have : dot (c • e + s • cross n e) (c • e + s • cross n e) =
        c ^ 2 * dot e e + s ^ 2 * (dot n n * dot e e - dot e n ^ 2) := by
      simp only [dot, cross, add_x, add_y, add_z, smul_x, smul_y, smul_z]; ring
    rw [this, h1, h2, hn]; linarith
  · have : dot n (c • e + s • cross n e) = c * dot e n := by
      simp only [dot, cross, add_x, add_y, add_z, smul_x, smul_y, smul_z]; ring
    rw [this, h2, mul_zero]

theorem pos_eq {meps : ℝ} {d : Jk} (h : d.Ok meps) (h2 : d.nr ≠ 1) (i j : ℕ) :
    d.pos meps i j - d.center = (d.x meps i * d.R) • spoke meps d j := by
  unfold Jk.pos spoke
  rw [disk_point_spec h.eps h.unit h.level, if_neg h2, x_eq h]
  have h1 : (d.nr : ℝ) ≠ 0 := by have := h.nr; positivity
  have e : 2 * d.R / 2 / d.nr * ((i : ℝ) + 1 / 2) = ((i : ℝ) + 1 / 2) / d.nr * d.R := by field_simp
  rw [e]
  ext
  · simp only [add_x, sub_x, smul_x]; ring
  · simp only [add_y, sub_y, smul_y]; ring
  · simp only [add_z, sub_z, smul_z]; ring

theorem normalize_spoke {meps : ℝ} {d : Jk} (h : d.Ok meps) {r : ℝ} (hr : meps ≤ r) (j : ℕ) :
    normalize meps (r • spoke meps d j) = spoke meps d j := by
  have hu := (spoke_unit h j).1
  generalize spoke meps d j = b at *
  have hr0 : 0 < r := lt_of_lt_of_le h.eps hr
  have hm : mag (r • b) = r := by
    unfold mag
    have : magSqr (r • b) = r * r * dot b b := by simp only [magSqr, dot, smul_x, smul_y, smul_z]; ring
    rw [this, hu, mul_one, Real.sqrt_mul_self hr0.le]
  unfold normalize
  rw [hm, if_neg (not_lt.mpr hr)]
  ext <;> simp only [smul_x, smul_y, smul_z] <;> field_simp

/-- C75: with more than one ring, the reported power is the torque of the forces about the axis times the angular velocity
(`meps ≤ R/(2 nr)` keeps the innermost ring apart from the centre). -/
theorem joukowsky_power {meps : ℝ} {d : Jk} (h : d.Ok meps) (h2 : d.nr ≠ 1) (hR : 2 * meps * d.nr ≤ d.R) (q omega : ℝ) :
    d.power meps q omega = omega * ∑ i ∈ Finset.range d.nr, ∑ j ∈ Finset.range d.nt,
      dot (cross (d.pos meps i j - d.center) (d.force meps q i j)) d.normal := by
  have h1 : (0 : ℝ) < d.nr := by have := h.nr; positivity
  have e : ∀ i j, dot (cross (d.pos meps i j - d.center) (d.force meps q i j)) d.normal =
      d.rho * d.uSqr * (d.x meps i * d.R * d.ft meps q i j * areaSection d.R d.nr d.nt i) := by
    intro i j
    have hx : meps ≤ d.x meps i * d.R := by
      rw [x_eq h, div_mul_eq_mul_div, le_div_iff₀ h1]
      have : (0 : ℝ) ≤ i := by positivity
      nlinarith [h.R]
    unfold Jk.force
    rw [theta_vec h.unit (pos_perp h i j), pos_eq h h2, normalize_spoke h hx]
    obtain ⟨hb, hnb⟩ := spoke_unit h j
    have hn := h.unit
    generalize spoke meps d j = b at *
    generalize d.normal = n at *
    have : ∀ r A B C : ℝ, dot (cross (r • b) (A • (B • n + C • cross n b))) n =
        r * A * C * (dot n n * dot b b - dot n b ^ 2) := by
      intro r A B C
      simp only [dot, cross, add_x, add_y, add_z, smul_x, smul_y, smul_z]; ring
    rw [this, hb, hnb, hn]
    ring
  simp only [e]
  unfold Jk.power Jk.moment
  simp only [Finset.mul_sum, Finset.sum_mul]
  refine Finset.sum_congr rfl fun i _ => Finset.sum_congr rfl fun j _ => ?_
  ring

/-- C75: a turbine in a wind that blows against its normal takes power out of the flow: with non-negative circulation,
corrections and angular velocity the reported power is not negative. -/
theorem joukowsky_power_nonneg {meps : ℝ} {d : Jk} (h : d.Ok meps) {q omega : ℝ} (hq : 0 ≤ q) (hs : 0 ≤ d.s0) (ho : 0 ≤ omega)
    (hrho : 0 ≤ d.rho) (hu : 0 ≤ d.uSqr) (hur : 0 ≤ d.uRef) (hg : ∀ i, 0 ≤ d.g i) (hF : ∀ i, 0 ≤ d.F i)
    (hv : ∀ k, dot d.normal (d.vel k) ≤ 0) : 0 ≤ d.power meps q omega := by
  unfold Jk.power Jk.moment
  refine mul_nonneg (mul_nonneg (mul_nonneg hrho hu) (Finset.sum_nonneg fun i _ => Finset.sum_nonneg fun j _ => ?_)) ho
  have hx : 0 ≤ d.x meps i := by rw [x_eq h]; positivity
  have hd : 0 ≤ dot (-d.normal) (d.vel (j + i * d.nt)) := by
    have := hv (j + i * d.nt)
    have e : dot (-d.normal) (d.vel (j + i * d.nt)) = -dot d.normal (d.vel (j + i * d.nt)) := by
      simp only [dot, neg_x, neg_y, neg_z]; ring
    rw [e]; linarith
  have ha : 0 ≤ areaSection d.R d.nr d.nt i := by
    have hnt : (0 : ℝ) < d.nt := by have := h.nt; positivity
    have e := section_eq h i
    have : 0 ≤ (d.nt : ℝ) * areaSection d.R d.nr d.nt i := by
      rw [e, dx_eq h]
      have := h.R
      positivity
    exact nonneg_of_mul_nonneg_right this hnt
  have hft : 0 ≤ d.ft meps q i j := by
    unfold Jk.ft
    exact mul_nonneg (mul_nonneg (mul_nonneg (div_nonneg hd hur) (add_nonneg (div_nonneg hq hx) (mul_nonneg hs hx))) (hg i)) (hF i)
  exact mul_nonneg (mul_nonneg (mul_nonneg hx h.R.le) hft) ha

/-- C75: the reference speed is the wind speed along the normal; a cross wind does not change it. -/
theorem ref_spec {n t : Vec ℝ} (hn : dot n n = 1) (ht : dot t n = 0) (a : ℝ) : refSqr (a • n + t) n = a ^ 2 := by
  have e : dot (a • n + t) n = a * dot n n + dot t n := by
    simp only [dot, add_x, add_y, add_z, smul_x, smul_y, smul_z]; ring
  unfold refSqr
  rw [e, hn, ht]; ring

example : refSqr (⟨3, 4, 0⟩ : Vec ℝ) ⟨1, 0, 0⟩ = 9 := by norm_num [refSqr, dot]

/-- A disagreement: with one ring every force point is the centre. -/
theorem one_ring_at_centre {meps : ℝ} {d : Jk} (h : d.Ok meps) (h1 : d.nr = 1) (j : ℕ) : d.pos meps 0 j = d.center := by
  unfold Jk.pos
  rw [disk_point_spec h.eps h.unit h.level, if_pos h1]
  ext
  · simp only [add_x, smul_x]; push_cast; ring
  · simp only [add_y, smul_y]; push_cast; ring
  · simp only [add_z, smul_z]; push_cast; ring

/-! ## Corrections -/

/-- C75: the tip correction lies between 0 and 1 on the disk and vanishes at the tip. -/
theorem tip_range (blades : ℕ) (lambda : ℝ) {x : ℝ} (hx : x ≤ 1) :
    0 ≤ tipCorrection blades lambda x ∧ tipCorrection blades lambda x ≤ 1 ∧ tipCorrection blades lambda 1 = 0 := by
  have hp := Real.pi_pos
  refine ⟨?_, ?_, ?_⟩
  · unfold tipCorrection
    exact mul_nonneg (by positivity) (Real.arccos_nonneg _)
  · unfold tipCorrection
    have h : Real.arccos (Real.exp (-(1 / 2) * blades * Real.sqrt (1 + lambda * lambda) * (1 - x))) ≤ Real.pi / 2 :=
      Real.arccos_le_pi_div_two.mpr (Real.exp_pos _).le
    calc _ ≤ 2 / Real.pi * (Real.pi / 2) := mul_le_mul_of_nonneg_left h (by positivity)
      _ = 1 := by field_simp
  · unfold tipCorrection
    simp

/-- C75: the tip correction falls towards the tip. -/
theorem tip_antitone (blades : ℕ) (lambda : ℝ) {x y : ℝ} (hxy : x ≤ y) :
    tipCorrection blades lambda y ≤ tipCorrection blades lambda x := by
  have hp := Real.pi_pos
  unfold tipCorrection
  refine mul_le_mul_of_nonneg_left (Real.arccos_le_arccos (Real.exp_le_exp.mpr ?_)) (by positivity)
  have : 0 ≤ (blades : ℝ) * Real.sqrt (1 + lambda * lambda) := by positivity
  nlinarith

/-- C75: the root correction lies between 0 and 1. -/
theorem root_range {meps a b core R : ℝ} (hm : 0 < meps) (ha : 0 ≤ a) (nr i : ℕ) :
    0 ≤ rootCorrection meps a b core R nr i ∧ rootCorrection meps a b core R nr i < 1 := by
  unfold rootCorrection
  have hd : 0 < max (core / R) meps := lt_max_of_lt_right hm
  have hb : 0 ≤ (((i : ℝ) + 1 / 2) * (1 / (nr : ℝ) / max (core / R) meps)) ^ b := Real.rpow_nonneg (by positivity) _
  constructor
  · have : Real.exp (-a * (((i : ℝ) + 1 / 2) * (1 / (nr : ℝ) / max (core / R) meps)) ^ b) ≤ 1 :=
      Real.exp_le_one_iff.mpr (by nlinarith)
    simp only []
    linarith
  · have := Real.exp_pos (-a * (((i : ℝ) + 1 / 2) * (1 / (nr : ℝ) / max (core / R) meps)) ^ b)
    simp only []
    linarith

/-! ## The bounding box -/

/-- A point in a box given by its corners. -/
def InBox (b : Vec ℝ × Vec ℝ) (p : Vec ℝ) : Prop :=
  b.1.x ≤ p.x ∧ p.x ≤ b.2.x ∧ b.1.y ≤ p.y ∧ p.y ≤ b.2.y ∧ b.1.z ≤ p.z ∧ p.z ≤ b.2.z

theorem in_range {c d p : ℝ} (h : |p - c| ≤ |d|) : min (c - d) (c + d) ≤ p ∧ p ≤ max (c - d) (c + d) := by
  rcases abs_cases (p - c) with ⟨e, _⟩ | ⟨e, _⟩ <;> rcases abs_cases d with ⟨e', _⟩ | ⟨e', _⟩ <;> rw [e, e'] at h
  all_goals
    constructor
    · first
      | exact (min_le_left _ _).trans (by linarith)
      | exact (min_le_right _ _).trans (by linarith)
    · first
      | exact le_trans (by linarith) (le_max_left _ _)
      | exact le_trans (by linarith) (le_max_right _ _)

theorem axis_coplanar_x {meps s : ℝ} (hm1 : meps ≤ 1) (hs : s = 1 ∨ s = -1) :
    coplanar meps ⟨s, 0, 0⟩ = ⟨0, s, 0⟩ := by
  have hm : mag (cross ⟨0, 0, 1⟩ (⟨s, 0, 0⟩ : Vec ℝ)) = 1 := by
    apply mag_of_dot
    rcases hs with rfl | rfl <;> simp [dot, cross]
  unfold coplanar normalize
  rw [hm, if_neg (not_lt.mpr hm1)]
  ext <;> simp [cross]

/-- C75 in part: for a disk facing along `x` every point of the disk is in the box that selects the cells. -/
theorem box_partial {meps s : ℝ} (hm : 0 < meps) (hm1 : meps ≤ 1) (hs : s = 1 ∨ s = -1) (cc : Vec ℝ) {eps D dr : ℝ}
    (hd : 0 ≤ dr) {r θ : ℝ} (hr0 : 0 ≤ r) (hr : r ≤ D / 2) :
    InBox (boundBox cc ⟨s, 0, 0⟩ (coplanar meps ⟨s, 0, 0⟩) eps D dr)
      (cc + r • (Real.cos θ • coplanar meps ⟨s, 0, 0⟩ + Real.sin θ • cross ⟨s, 0, 0⟩ (coplanar meps ⟨s, 0, 0⟩))) := by
  rw [axis_coplanar_x hm1 hs]
  have hss : s * s = 1 := by rcases hs with rfl | rfl <;> norm_num
  have hc := Real.abs_cos_le_one θ
  have hsn := Real.abs_sin_le_one θ
  have habs : |s| = 1 := by rcases hs with rfl | rfl <;> simp
  have hdl : |D * (1 / 2) + dr * 2| = D * (1 / 2) + dr * 2 := abs_of_nonneg (by linarith)
  unfold InBox boundBox
  simp only [add_x, add_y, add_z, sub_x, sub_y, sub_z, smul_x, smul_y, smul_z, cross]
  refine ⟨?_, ?_, ?_, ?_, ?_, ?_⟩
  · refine (in_range ?_).1; simp; positivity
  · refine (in_range ?_).2; simp; positivity
  · refine (in_range ?_).1
    simp only [mul_zero, zero_mul, zero_add, add_zero, sub_zero, add_sub_cancel_left, abs_mul, habs, hdl, abs_of_nonneg hr0]
    nlinarith [abs_nonneg (Real.cos θ)]
  · refine (in_range ?_).2
    simp only [mul_zero, zero_mul, zero_add, add_zero, sub_zero, add_sub_cancel_left, abs_mul, habs, hdl, abs_of_nonneg hr0]
    nlinarith [abs_nonneg (Real.cos θ)]
  · refine (in_range ?_).1
    simp only [mul_zero, zero_mul, zero_add, add_zero, sub_zero, add_sub_cancel_left, abs_mul, habs, hdl, abs_of_nonneg hr0, hss, one_mul]
    nlinarith [abs_nonneg (Real.sin θ)]
  · refine (in_range ?_).2
    simp only [mul_zero, zero_mul, zero_add, add_zero, sub_zero, add_sub_cancel_left, abs_mul, habs, hdl, abs_of_nonneg hr0, hss, one_mul]
    nlinarith [abs_nonneg (Real.sin θ)]

/-- A disagreement: for a disk yawed by 45 degrees whose `3 ε` is the radius plus two ring widths the box has no extent
in `x`, and every force point is outside. -/
theorem yawed_box_empty {meps : ℝ} (hm1 : meps ≤ 1) (cc : Vec ℝ) {eps D dr : ℝ} (hdr : 0 < dr)
    (he : eps * 3 = D * (1 / 2) + dr * 2) (i : ℕ) :
    ¬ InBox (boundBox cc ⟨Real.sqrt (1 / 2), Real.sqrt (1 / 2), 0⟩
        (coplanar meps ⟨Real.sqrt (1 / 2), Real.sqrt (1 / 2), 0⟩) eps D dr)
      (uniformPoint cc (coplanar meps ⟨Real.sqrt (1 / 2), Real.sqrt (1 / 2), 0⟩) dr i) := by
  have hs : Real.sqrt (1 / 2) * Real.sqrt (1 / 2) = 1 / 2 := Real.mul_self_sqrt (by norm_num)
  have hpos : 0 < Real.sqrt (1 / 2) := Real.sqrt_pos.mpr (by norm_num)
  generalize Real.sqrt (1 / 2) = s at *
  have hm : mag (cross ⟨0, 0, 1⟩ (⟨s, s, 0⟩ : Vec ℝ)) = 1 := by
    apply mag_of_dot
    simp only [dot, cross]
    linarith
  have hc : coplanar meps ⟨s, s, 0⟩ = ⟨-s, s, 0⟩ := by
    unfold coplanar normalize
    rw [hm, if_neg (not_lt.mpr hm1)]
    ext <;> simp [cross]
  rw [hc]
  rintro ⟨h, -⟩
  unfold boundBox uniformPoint at h
  simp only [add_x, sub_x, smul_x, he] at h
  have e : s * (D * (1 / 2) + dr * 2) + -s * (D * (1 / 2) + dr * 2) + 0 * (D * (1 / 2) + dr * 2) = 0 := by ring
  rw [e, sub_zero, add_zero, min_self] at h
  have : 0 < s * (((i : ℝ) + 1 / 2) * dr) := by positivity
  linarith

/-! ## Yaw and tilt -/

/-- C75: with the default north and east, the normal points to the compass direction `yaw` and dips by `tilt`. -/
theorem yaw_tilt_normal (tilt yaw : ℝ) :
    yawTilt ⟨0, 1, 0⟩ ⟨1, 0, 0⟩ (some tilt) (some yaw) =
      ⟨Real.cos (Real.pi * tilt / 180) * Real.sin (Real.pi * yaw / 180),
        Real.cos (Real.pi * tilt / 180) * Real.cos (Real.pi * yaw / 180), -Real.sin (Real.pi * tilt / 180)⟩ := by
  unfold yawTilt
  simp only [vmul_tcomp]
  rw [(axis_rotations_are_quaternions (-yaw)).2.2, quaternion_rotates (by simp), quaternion_rotates (by simp), mag_ez, mag_ex]
  have e1 : Real.pi * -yaw / 180 = -(Real.pi * yaw / 180) := by ring
  have e2 : Real.pi * -tilt / 180 = -(Real.pi * tilt / 180) := by ring
  rw [e1, e2]
  unfold rodrigues
  simp only [Real.cos_neg, Real.sin_neg, vmul, tid, cross, dot]
  ext <;> simp <;> ring

/-! ## Input checks -/

/-- C75: the inputs of a disk are accepted exactly if they are consistent. -/
theorem base_accepted (has : String → Bool) (nct nws : ℕ) : baseConflicts has nct nws = [] ↔
    ¬ (has "disk_normal" = true ∧ (has "yaw" = true ∨ has "tilt" = true)) ∧
    ¬ (has "sample_normal" = true ∧ (has "sample_yaw" = true ∨ has "sample_tilt" = true)) ∧
    ¬ (has "disk_center" = true ∧ (has "base_position" = true ∨ has "hub_height" = true)) ∧
    (has "base_position" = true ↔ has "hub_height" = true) ∧
    (1 < nct → has "wind_speed" = true) ∧ (has "wind_speed" = true → nws = nct) := by
  unfold baseConflicts conflict oneWay
  simp only [List.append_eq_nil_iff, ite_eq_right_iff, List.cons_ne_nil, imp_false, Bool.and_eq_true, Bool.not_eq_true',
    ne_eq, not_not]
  cases has "disk_normal" <;> cases has "yaw" <;> cases has "tilt" <;> cases has "sample_normal" <;>
    cases has "sample_yaw" <;> cases has "sample_tilt" <;> cases has "disk_center" <;> cases has "base_position" <;>
    cases has "hub_height" <;> cases has "wind_speed" <;> simp

/-- A disagreement: `spreading_type` without `num_points_t` is accepted, because the check looks for `spreading`. -/
theorem spreading_unchecked : uniformConflicts (fun k => k == "spreading_type") 1 0 = [] := by decide +kernel

/-- A disagreement: the assertion that the numbers of points are positive never fails, and the ring width is a division by
zero. -/
theorem zero_points_accepted (nt : ℕ) (D : ℚ) : parseCounts 0 nt D = some (none, 0) := by
  unfold parseCounts; simp

/-- A disagreement: a list of rotational speeds shorter than the list of wind speeds is accepted, and the table look-up
reads past its end. -/
theorem rpm_unchecked : jkConflicts (fun k => k == "rpm" || k == "thrust_coeff" || k == "wind_speed") 3 3 = [] ∧
    tableValue [5, 10, 15] [8] 81 = none := by
  refine ⟨by decide +kernel, ?_⟩
  unfold tableValue
  have : Real.sqrt 81 = 9 := by rw [show (81 : ℝ) = 9 * 9 by norm_num, Real.sqrt_mul_self (by norm_num)]
  rw [this]
  have hb : Interp.bisectLoop [(5 : ℝ), 10, 15] 9 5 0 3 = some 0 := by
    rw [Interp.bisectLoop]
    norm_num
    rw [Interp.bisectLoop]
    norm_num
  unfold linear Interp.bisectionSearch Interp.checkBounds
  norm_num [hb, Interp.linearImpl, Interp.interpCell]
  rintro (h | h) <;> exact absurd h (by decide)

/-! ## An example -/

/-- Two rings of three points, no corrections, wind along `x`. -/
noncomputable def exJk : Jk where
  nr := 2
  nt := 3
  R := 50
  center := ⟨0, 0, 90⟩
  normal := ⟨-1, 0, 0⟩
  rho := 1
  uSqr := 64
  uRef := 8
  ct := 3 / 4
  lambda := 7
  s0 := 0
  F := fun _ => 1
  g := fun _ => 1
  vel := fun _ => ⟨6, 0, 0⟩
  awc := fun _ => 0

theorem exJk_ok : exJk.Ok (1 / 10 ^ 15) where
  eps := by norm_num
  nr := by norm_num [exJk]
  nt := by norm_num [exJk]
  R := by norm_num [exJk]
  unit := by norm_num [exJk, dot]
  level := by
    have : mag (cross ⟨0, 0, 1⟩ exJk.normal) = 1 := mag_of_dot (by norm_num [exJk, dot, cross])
    rw [this]; norm_num
  fine := by norm_num [exJk]

example : ∃ q, exJk.q0 (1 / 10 ^ 15) = some q ∧
    dot (exJk.total (1 / 10 ^ 15) q) exJk.normal = 1 / 2 * 1 * 64 * (3 / 4) * (Real.pi * 50 ^ 2) := by
  obtain ⟨q, hq⟩ := default_defined exJk_ok (d := exJk) rfl (by norm_num [exJk])
  refine ⟨q, hq, ?_⟩
  rw [joukowsky_thrust exJk_ok ?_ hq]
  · simp [exJk]
  · unfold Jk.a1
    simp only [x_eq exJk_ok, dx_eq exJk_ok]
    norm_num [exJk, Finset.sum_range_succ]

/-- C75: below the rated thrust the solid body term is `a₁ (1 - ct/ct_rated)³`, above it `a₂ (1 - ct/ct_rated)`; both vanish at the
rated thrust. -/
theorem solidBody_spec {rated : ℝ} (h : 0 < rated) (ct a1 a2 : ℝ) :
    (ct < rated → solidBody ct rated a1 a2 = a1 * (1 - ct / rated) ^ 3) ∧
    (rated ≤ ct → solidBody ct rated a1 a2 = a2 * (1 - ct / rated)) ∧ solidBody rated rated a1 a2 = 0 := by
  unfold solidBody
  rw [if_pos h, if_pos h]
  refine ⟨fun hc => ?_, fun hc => ?_, ?_⟩
  · rw [if_pos hc, sub_div, div_self h.ne']
  · rw [if_neg (not_lt.mpr hc), mul_div_assoc, sub_div, div_self h.ne']
  · simp

/-- The disk has one ring of width `D/(2 nr)` after another from the centre to the rim, and two velocity points, one in front and one
behind, for each pair of ring and sector. -/
theorem counts_spec {nr : ℕ} (h : 0 < nr) (nt : ℕ) (D : ℚ) : ∃ dr, parseCounts nr nt D = some (some dr, 2 * (nr * nt)) ∧
    nr * dr = D / 2 := by
  have : (nr : ℚ) ≠ 0 := by exact_mod_cast h.ne'
  refine ⟨1 / 2 * D / nr, ?_, by field_simp⟩
  simp [parseCounts, h.ne', Nat.mul_comm]

/-- C75: at a wind speed of the table the thrust coefficient (or the rotational speed) is that of the table; at every speed it is between
the least and the largest of the table. -/
theorem table_value {speeds values : List ℝ} (hs : Interp.StrictSorted speeds) (hsp : Interp.Spaced speeds) (hl : values.length = speeds.length)
    (h2 : 2 ≤ speeds.length) : (∀ (k : ℕ) (u v : ℝ), 0 ≤ u → speeds[k]? = some u → values[k]? = some v → tableValue speeds values (u ^ 2) = some v) ∧
    ∀ U lo hi, (∀ v ∈ values, lo ≤ v ∧ v ≤ hi) → ∃ v, tableValue speeds values U = some v ∧ lo ≤ v ∧ v ≤ hi := by
  have hm : Interp.Matches speeds values 1 0 := ⟨by rw [hl]; simp, by norm_num⟩
  refine ⟨fun k u v hu h1 h3 => ?_, fun U lo hi hb => ?_⟩
  · unfold tableValue
    rw [Real.sqrt_sq hu]
    exact Interp.linear_at_node speeds values hs hsp 1 0 hm h2 h1 (by rw [Nat.one_mul, Nat.add_zero]; exact h3)
  · unfold tableValue
    have inb : ∀ (j : ℕ) (y : ℝ), values[j]? = some y → lo ≤ y ∧ y ≤ hi := fun j y hj => hb y (List.mem_of_getElem? hj)
    obtain ⟨x0, xn, y0, yn, h0, hn, hy0, hyn, hc⟩ := Interp.linear_cases speeds values hs.sorted 1 0 hm h2 (Real.sqrt U)
    rcases hc with ⟨a, e⟩ | ⟨a, e⟩ | ⟨a, b, r, xl, xr, yl, yr, g1, g2, g3, g4, k1, k2, k3, e⟩
    · exact ⟨y0, e, inb _ _ hy0⟩
    · exact ⟨yn, e, inb _ _ hyn⟩
    · refine ⟨_, e, ?_⟩
      obtain ⟨l, u⟩ := Interp.convex_between (a := yl) (b := yr) (Interp.wR_nonneg k1) (Interp.wR_le_one (xl := xl) k2)
      have p1 := inb _ _ g3
      have p2 := inb _ _ g4
      exact ⟨(le_min p1.1 p2.1).trans l, u.trans (max_le p1.2 p2.2)⟩

end AmrWind.Disk
