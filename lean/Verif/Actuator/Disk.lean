import Verif.Actuator.DiskModel
import Verif.Vs.Props
import Mathlib.Algebra.BigOperators.Field
import Mathlib.Algebra.Order.BigOperators.Group.Finset
import Mathlib.Tactic.Positivity
import Mathlib.Tactic.FinCases

/-!
# C75: the actuator disks apply the thrust of their coefficient
-/

namespace AmrWind.Disk

open AmrWind.Vs
open AmrWind.Interp (linear)
open scoped BigOperators

/-! ## Areas and means -/

/-- C75: the section of ring `i` is the `nt`-th part of the area between its two circles. -/
theorem area_is_area (R : ℝ) {nr nt : ℕ} (hr : 0 < nr) (ht : 0 < nt) (i : ℕ) :
    nt * areaSection R nr nt i = Real.pi * ((i + 1) * (R / nr)) ^ 2 - Real.pi * (i * (R / nr)) ^ 2 := by
  have h1 : (nr : ℝ) ≠ 0 := by positivity
  have h2 : (nt : ℝ) ≠ 0 := by positivity
  unfold areaSection
  field_simp

theorem ring_sum : ∀ n : ℕ, ∑ i ∈ Finset.range n, (((i : ℝ) + 1) ^ 2 - (i : ℝ) ^ 2) = (n : ℝ) ^ 2
  | 0 => by simp
  | n + 1 => by rw [Finset.sum_range_succ, ring_sum n]; push_cast; ring

/-- C75: the weights of all points add up to one. -/
theorem weight_sum {R : ℝ} (hR : R ≠ 0) {nr nt : ℕ} (hr : 0 < nr) (ht : 0 < nt) :
    ∑ i ∈ Finset.range nr, ∑ _j ∈ Finset.range nt, weight R nr nt i = 1 := by
  have h1 : (nr : ℝ) ≠ 0 := by positivity
  have h2 : (nt : ℝ) ≠ 0 := by positivity
  have hp := Real.pi_ne_zero
  have e : ∀ i : ℕ, ∑ _j ∈ Finset.range nt, weight R nr nt i = 1 / (nr : ℝ) ^ 2 * (((i : ℝ) + 1) ^ 2 - (i : ℝ) ^ 2) := by
    intro i
    rw [Finset.sum_const, Finset.card_range, nsmul_eq_mul]
    unfold weight areaSection
    field_simp
  rw [Finset.sum_congr rfl fun i _ => e i, ← Finset.mul_sum, ring_sum]
  field_simp

theorem weight_nonneg (R : ℝ) (nr nt i : ℕ) : 0 ≤ weight R nr nt i := by
  have hp := Real.pi_pos
  unfold weight areaSection
  have : (0 : ℝ) ≤ ((i : ℝ) + 1) ^ 2 - (i : ℝ) ^ 2 := by
    have : (0 : ℝ) ≤ (i : ℝ) := by positivity
    nlinarith
  have hq : 0 ≤ R * R / nr / nr * Real.pi / nt := by have := mul_self_nonneg R; positivity
  have hd : 0 ≤ Real.pi * R * R := by nlinarith [mul_self_nonneg R]
  exact div_nonneg (mul_nonneg hq this) hd

/-- C75: the reference velocity, disk velocity and density lie between the extreme sampled values; they are exact for
uniform flow. -/
theorem mean_bounds {R : ℝ} (hR : R ≠ 0) {nr nt : ℕ} (hr : 0 < nr) (ht : 0 < nt) {ofs : ℕ} {v : ℕ → ℝ} {lo hi : ℝ}
    (h : ∀ k, ofs ≤ k → k < ofs + nr * nt → lo ≤ v k ∧ v k ≤ hi) :
    lo ≤ diskMean R nr nt ofs v ∧ diskMean R nr nt ofs v ≤ hi := by
  have hk : ∀ i ∈ Finset.range nr, ∀ j ∈ Finset.range nt, lo ≤ v (j + i * nt + ofs) ∧ v (j + i * nt + ofs) ≤ hi := by
    intro i hi' j hj
    have hi' := Finset.mem_range.mp hi'
    have hj := Finset.mem_range.mp hj
    apply h _ (by omega)
    have : (i + 1) * nt ≤ nr * nt := Nat.mul_le_mul_right _ hi'
    rw [Nat.add_mul] at this
    omega
  have e : ∀ c : ℝ, c = ∑ i ∈ Finset.range nr, ∑ _j ∈ Finset.range nt, c * weight R nr nt i := by
    intro c
    have := weight_sum hR hr ht
    simp only [← Finset.mul_sum]
    rw [this, mul_one]
  unfold diskMean
  constructor
  · rw [e lo]
    exact Finset.sum_le_sum fun i hi' => Finset.sum_le_sum fun j hj =>
      mul_le_mul_of_nonneg_right (hk i hi' j hj).1 (weight_nonneg _ _ _ _)
  · rw [e hi]
    exact Finset.sum_le_sum fun i hi' => Finset.sum_le_sum fun j hj =>
      mul_le_mul_of_nonneg_right (hk i hi' j hj).2 (weight_nonneg _ _ _ _)

theorem mean_uniform {R : ℝ} (hR : R ≠ 0) {nr nt : ℕ} (hr : 0 < nr) (ht : 0 < nt) (ofs : ℕ) (c : ℝ) :
    diskMean R nr nt ofs (fun _ => c) = c := by
  have := mean_bounds hR hr ht (ofs := ofs) (v := fun _ => c) (lo := c) (hi := c) fun _ _ _ => ⟨le_rfl, le_rfl⟩
  exact le_antisymm this.2 this.1

/-! ## Uniform Ct -/

/-- C75: the forces of a uniform Ct disk add up to the thrust `½ ρ U² Ct π R²` along the normal. -/
theorem uniform_ct_thrust (normal : Vec ℝ) (uSqr rho ct R : ℝ) {nr : ℕ} (hr : 0 < nr) :
    vsum nr (uniformForce normal uSqr rho ct (1 / 2 * (2 * R) / nr)) =
      (1 / 2 * rho * uSqr * ct * (Real.pi * R ^ 2)) • normal := by
  have h1 : (nr : ℝ) ≠ 0 := by positivity
  have e : ∀ i : ℕ, uniformForce normal uSqr rho ct (1 / 2 * (2 * R) / nr) i =
      (1 / 2 * rho * uSqr * ct * (Real.pi * R ^ 2) / (nr : ℝ) ^ 2 * (((i : ℝ) + 1) ^ 2 - (i : ℝ) ^ 2)) • normal := by
    intro i
    unfold uniformForce
    have : (1 / 2 * uSqr * rho * ct * (Real.pi * (((i + 1 / 2 : ℝ) * (1 / 2 * (2 * R) / nr) + 1 / 2 * (2 * R) / nr * (1 / 2)) *
        ((i + 1 / 2 : ℝ) * (1 / 2 * (2 * R) / nr) + 1 / 2 * (2 * R) / nr * (1 / 2)) -
        ((i + 1 / 2 : ℝ) * (1 / 2 * (2 * R) / nr) - 1 / 2 * (2 * R) / nr * (1 / 2)) *
        ((i + 1 / 2 : ℝ) * (1 / 2 * (2 * R) / nr) - 1 / 2 * (2 * R) / nr * (1 / 2))))) =
        1 / 2 * rho * uSqr * ct * (Real.pi * R ^ 2) / (nr : ℝ) ^ 2 * (((i : ℝ) + 1) ^ 2 - (i : ℝ) ^ 2) := by
      field_simp
      ring
    simp only [this]
  have hs := ring_sum nr
  unfold vsum
  ext
  · simp only [e, smul_x]
    rw [← Finset.mul_sum, ← Finset.mul_sum, hs]; field_simp
  · simp only [e, smul_y]
    rw [← Finset.mul_sum, ← Finset.mul_sum, hs]; field_simp
  · simp only [e, smul_z]
    rw [← Finset.mul_sum, ← Finset.mul_sum, hs]; field_simp

/-! ## Points -/

theorem normalize_unit {meps : ℝ} (hm : 0 < meps) {v : Vec ℝ} (h : meps ≤ mag v) :
    dot (normalize meps v) (normalize meps v) = 1 ∧ v = mag v • normalize meps v := by
  have hp : 0 < mag v := lt_of_lt_of_le hm h
  have hs := mag_sq v
  have e : normalize meps v = (1 / mag v) • v := if_neg (not_lt.mpr h)
  rw [e]
  constructor
  · simp only [dot, smul_x, smul_y, smul_z]
    field_simp
    nlinarith
  · ext <;> simp only [smul_x, smul_y, smul_z] <;> field_simp

theorem mag_of_dot {a : Vec ℝ} (h : dot a a = 1) : mag a = 1 := by
  unfold mag magSqr
  unfold dot at h
  rw [h, Real.sqrt_one]

theorem ne_zero_of_dot {a : Vec ℝ} (h : dot a a = 1) : a ≠ ⟨0, 0, 0⟩ := by
  rintro rfl
  simp [dot] at h

/-- C75: the vector in the plane of the disk is horizontal, of length one and perpendicular to the axis. -/
theorem coplanar_spec {meps : ℝ} (hm : 0 < meps) {n : Vec ℝ} (h : meps ≤ mag (cross ⟨0, 0, 1⟩ n)) :
    dot (coplanar meps n) (coplanar meps n) = 1 ∧ dot (coplanar meps n) n = 0 ∧ (coplanar meps n).z = 0 := by
  have hu := normalize_unit hm h
  have e : coplanar meps n = (1 / mag (cross ⟨0, 0, 1⟩ n)) • cross ⟨0, 0, 1⟩ n := if_neg (not_lt.mpr h)
  refine ⟨hu.1, ?_, ?_⟩
  · rw [e]; simp only [dot, cross, smul_x, smul_y, smul_z]; ring
  · rw [e]; simp only [cross, smul_z]; ring

/-- C75: the point of ring `i` and sector `j` lies at angle `2πj/nt` on the circle of radius `r` about the axis. -/
theorem disk_point_spec {meps : ℝ} (hm : 0 < meps) {n : Vec ℝ} (hn : dot n n = 1) (h : meps ≤ mag (cross ⟨0, 0, 1⟩ n))
    (cc : Vec ℝ) (D : ℝ) {nr nt : ℕ} (off : ℝ) (i j : ℕ) :
    diskPoint meps cc D nr nt n off i j = cc + (off * D) • n +
      (D / 2 / nr * (i + if nr = 1 then 0 else 1 / 2)) •
        (Real.cos (2 * Real.pi * j / nt) • coplanar meps n + Real.sin (2 * Real.pi * j / nt) • cross n (coplanar meps n)) := by
  obtain ⟨_, hp, _⟩ := coplanar_spec hm h
  have hp' : dot n (coplanar meps n) = 0 := by rw [← hp]; unfold dot; ring
  have h1 := mag_of_dot hn
  unfold diskPoint
  simp only [quaternion_rotates (ne_zero_of_dot hn), h1, div_one]
  have ha : Real.pi * degrees (2 * Real.pi / nt * j) / 180 = 2 * Real.pi * j / nt := by
    unfold degrees
    have := Real.pi_ne_zero
    field_simp
  rw [ha]
  generalize coplanar meps n = e at hp hp'
  generalize 2 * Real.pi * j / nt = θ
  generalize hs : ((if nr = 1 then 0 else 1 / 2 : ℝ)) = s
  have hr : D * (1 / 2) / nr = D / 2 / nr := by ring
  rw [hr]
  generalize D / 2 / nr * (i + s) = r
  generalize off * D = u
  have hd : dot n (r • e + u • n) = u := by
    have : dot n (r • e + u • n) = r * dot n e + u * dot n n := by
      simp only [dot, add_x, add_y, add_z, smul_x, smul_y, smul_z]; ring
    rw [this, hp', hn]; ring
  have hn' : (⟨n.x, n.y, n.z⟩ : Vec ℝ) = n := rfl
  rw [hn']
  unfold rodrigues
  rw [hd]
  ext <;> simp only [add_x, add_y, add_z, smul_x, smul_y, smul_z, cross] <;> ring

theorem magSqr_nn (a : Vec ℝ) : 0 ≤ magSqr a := by
  unfold magSqr
  have := mul_self_nonneg a.x; have := mul_self_nonneg a.y; have := mul_self_nonneg a.z
  linarith

/-- C75: the normal of the disk is made a unit vector and the vector in its plane is a level unit vector normal to it; a disk that
is level or nearly so is refused. -/
theorem coplanar_checked {meps : ℝ} (hm : 0 < meps) (h1 : meps ≤ 1) {n : Vec ℝ} (hn : meps ≤ mag n) :
    (∀ a b, coplanarChecked meps n = some (a, b) → dot a a = 1 ∧ mag n • a = n ∧ dot b b = 1 ∧ dot a b = 0 ∧ b.z = 0 ∧
      meps < a.x ^ 2 + a.y ^ 2) ∧
    (coplanarChecked meps n = none ↔ n.x ^ 2 + n.y ^ 2 ≤ meps * mag n ^ 2) := by
  have hp : 0 < mag n := lt_of_lt_of_le hm hn
  have ea : normalize meps n = (1 / mag n) • n := if_neg (not_lt.mpr hn)
  have hsq : mag n ^ 2 = n.x ^ 2 + n.y ^ 2 + n.z ^ 2 := by
    unfold mag
    rw [Real.sq_sqrt (magSqr_nn _)]
    unfold magSqr; ring
  have hc : magSqr (cross ⟨0, 0, 1⟩ (normalize meps n)) = (n.x ^ 2 + n.y ^ 2) / mag n ^ 2 := by
    rw [ea]; simp only [magSqr, cross, smul_x, smul_y, smul_z]; field_simp; ring
  constructor
  · intro a b h
    unfold coplanarChecked at h
    split_ifs at h with hq
    obtain ⟨rfl, rfl⟩ := Prod.mk.inj (Option.some.inj h)
    have hle : meps ≤ mag (cross ⟨0, 0, 1⟩ (normalize meps n)) := by
      have q0 : 0 ≤ mag (cross ⟨0, 0, 1⟩ (normalize meps n)) := Real.sqrt_nonneg _
      have : mag (cross ⟨0, 0, 1⟩ (normalize meps n)) ^ 2 = magSqr (cross ⟨0, 0, 1⟩ (normalize meps n)) :=
        Real.sq_sqrt (magSqr_nn _)
      by_contra hlt
      push Not at hlt
      nlinarith
    obtain ⟨c1, c2, c3⟩ := coplanar_spec hm hle
    refine ⟨?_, ?_, c1, ?_, c3, ?_⟩
    · rw [ea]; simp only [dot, smul_x, smul_y, smul_z]; field_simp; linarith
    · rw [ea]; ext <;> simp <;> field_simp
    · rw [← c2]; unfold dot; ring
    · have : (normalize meps n).x ^ 2 + (normalize meps n).y ^ 2 = (n.x ^ 2 + n.y ^ 2) / mag n ^ 2 := by
        rw [ea]; simp only [smul_x, smul_y]; field_simp
      rw [this, ← hc]; exact hq
  · unfold coplanarChecked
    rw [hc]
    split_ifs with hq
    · rw [lt_div_iff₀ (by positivity)] at hq
      simp; exact hq
    · rw [lt_div_iff₀ (by positivity)] at hq
      simp; linarith

end AmrWind.Disk
