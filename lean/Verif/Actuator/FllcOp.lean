import Verif.Actuator.Fllc
import Mathlib.Analysis.SpecialFunctions.ExpDeriv
import Mathlib.Tactic.FieldSimp

/-!
# C74: the filtered lifting line correction
-/

namespace AmrWind.Fllc

open AmrWind.Interp (linear Sorted StrictSorted Spaced linear_at_node Matches)
open AmrWind.Vs
open Filter Topology

/-- C74: the lift is perpendicular to the relative velocity, and with the part of the force along the velocity it makes up
the force. -/
theorem lift_perp {meps : ℝ} (hm : 0 < meps) {force vel : Vec ℝ} {dr : ℝ} (hd : dr ≠ 0) (hv : meps ≤ mag vel) :
    dot (lift meps force vel dr) vel = 0 ∧ ∃ c : ℝ, force = dr • lift meps force vel dr + c • vel := by
  have hpos : 0 < mag vel := lt_of_lt_of_le hm hv
  have hsq : mag vel * mag vel = magSqr vel := Real.mul_self_sqrt (by
    unfold magSqr; nlinarith [mul_self_nonneg vel.x, mul_self_nonneg vel.y, mul_self_nonneg vel.z])
  have hne : magSqr vel ≠ 0 := by rw [← hsq]; positivity
  have hl : lift meps force vel dr = (1 / dr) • (force - (dot force vel / magSqr vel) • vel) := by
    unfold lift
    simp only [max_eq_left hv, hsq]
  constructor
  · rw [hl]
    have e : dot ((1 / dr) • (force - (dot force vel / magSqr vel) • vel)) vel =
        1 / dr * (dot force vel - dot force vel / magSqr vel * magSqr vel) := by
      simp only [dot, magSqr, smul_x, smul_y, smul_z, sub_x, sub_y, sub_z]
      ring
    rw [e, div_mul_cancel₀ _ hne, sub_self, mul_zero]
  · refine ⟨dot force vel / magSqr vel, ?_⟩
    rw [hl]
    ext
    · simp only [add_x, smul_x, sub_x]; field_simp; ring
    · simp only [add_y, smul_y, sub_y]; field_simp; ring
    · simp only [add_z, smul_z, sub_z]; field_simp; ring

/-- C74: the kernel is continuous in the distance: its value at a coincident point is the limit. -/
theorem kernel_continuous {eps : ℝ} (he : eps ≠ 0) : Continuous fun d => kernel d eps := by
  have hc : eps * eps ≠ 0 := mul_ne_zero he he
  rw [continuous_iff_continuousAt]
  intro d0
  by_cases h0 : d0 = 0
  · subst h0
    rw [continuousAt_iff_punctured_nhds]
    have hk0 : kernel 0 eps = 1 / (eps * eps) + 1 / 2 * (-1 / (eps * eps)) := by
      unfold kernel; rw [if_pos rfl]; ring
    rw [hk0]
    have e : (fun d => kernel d eps) =ᶠ[𝓝[≠] 0] fun d => Real.exp (-d * d / (eps * eps)) / (eps * eps) +
        1 / 2 * ((d * d)⁻¹ * (Real.exp (-(d * d) / (eps * eps)) - Real.exp (-0 / (eps * eps)))) := by
      filter_upwards [self_mem_nhdsWithin] with d hd
      have hd : d ≠ 0 := hd
      unfold kernel
      rw [if_neg hd]
      simp only [neg_zero, zero_div, Real.exp_zero]
      rw [show -d * d = -(d * d) by ring]
      field_simp
    rw [tendsto_congr' e]
    apply Tendsto.add
    · have : Continuous fun d : ℝ => Real.exp (-d * d / (eps * eps)) / (eps * eps) := by fun_prop
      have h := (this.tendsto 0).mono_left (nhdsWithin_le_nhds (s := {0}ᶜ))
      simpa using h
    · apply Tendsto.const_mul
      have hder : HasDerivAt (fun t : ℝ => Real.exp (-t / (eps * eps))) (-1 / (eps * eps)) 0 := by
        have h1 : HasDerivAt (fun t : ℝ => -t / (eps * eps)) (-1 / (eps * eps)) 0 :=
          ((hasDerivAt_id (0 : ℝ)).neg).div_const _
        have h2 := h1.exp
        simpa using h2
      have hs := hasDerivAt_iff_tendsto_slope.mp hder
      have hsq : Tendsto (fun d : ℝ => d * d) (𝓝[≠] 0) (𝓝[≠] 0) := by
        apply tendsto_nhdsWithin_of_tendsto_nhds_of_eventually_within
        · have : Continuous fun d : ℝ => d * d := by fun_prop
          have h := (this.tendsto 0).mono_left (nhdsWithin_le_nhds (s := {0}ᶜ))
          simpa using h
        · filter_upwards [self_mem_nhdsWithin] with d hd
          exact mul_ne_zero hd hd
      have := hs.comp hsq
      refine this.congr fun d => ?_
      simp only [Function.comp, slope, vsub_eq_sub, smul_eq_mul, sub_zero]
  · have e : (fun d => kernel d eps) =ᶠ[𝓝 d0] fun d => Real.exp (-d * d / (eps * eps)) / (eps * eps) +
        1 / (2 * d * d) * (Real.exp (-d * d / (eps * eps)) - 1) := by
      filter_upwards [isOpen_ne.mem_nhds h0] with d hd
      unfold kernel
      rw [if_neg hd]
    rw [continuousAt_congr e]
    have h2 : 2 * d0 * d0 ≠ 0 := by positivity
    fun_prop (disch := assumption)

theorem foldl_add (c : Src → ℝ) : ∀ (s : List Src) (u : Vec ℝ),
    s.foldl (fun u p => u + c p • p.g) u = u + s.foldl (fun u p => u + c p • p.g) ⟨0, 0, 0⟩
  | [], u => by ext <;> simp
  | p :: s, u => by
    simp only [List.foldl_cons]
    rw [foldl_add c s (u + c p • p.g), foldl_add c s (⟨0, 0, 0⟩ + c p • p.g)]
    ext <;> simp [add_assoc]

/-- C74: without lift there is no correction. -/
theorem no_lift_no_velocity {meps r : ℝ} {e : Src → ℝ} : ∀ {s : List Src}, (∀ p ∈ s, p.g = ⟨0, 0, 0⟩) →
    induced meps e r s = ⟨0, 0, 0⟩
  | [], _ => rfl
  | p :: s, h => by
    unfold induced
    rw [List.foldl_cons]
    have hp : p.g = ⟨0, 0, 0⟩ := h p (by simp)
    have e0 : (⟨0, 0, 0⟩ : Vec ℝ) + (1 / (2 * Real.pi) / max (mag p.vel) meps * kernel |r - p.r| (e p) * p.dr) • p.g = ⟨0, 0, 0⟩ := by
      rw [hp]; ext <;> simp
    rw [e0]
    exact no_lift_no_velocity fun q hq => h q (by simp [hq])

/-- C74: where the simulation already uses the optimal epsilon there is no correction. -/
theorem resolved_no_correction {meps les r : ℝ} : ∀ {s : List Src}, (∀ p ∈ s, p.eps = les) →
    induced meps Src.eps r s = induced meps (fun _ => les) r s := by
  intro s h
  unfold induced
  have : ∀ (s : List Src) (u : Vec ℝ), (∀ p ∈ s, p.eps = les) →
      s.foldl (fun u p => u + (1 / (2 * Real.pi) / max (mag p.vel) meps * kernel |r - p.r| p.eps * p.dr) • p.g) u =
      s.foldl (fun u p => u + (1 / (2 * Real.pi) / max (mag p.vel) meps * kernel |r - p.r| les * p.dr) • p.g) u := by
    intro s
    induction s with
    | nil => intro u _; rfl
    | cons p s ih =>
      intro u hs
      simp only [List.foldl_cons]
      rw [hs p (by simp)]
      exact ih _ fun q hq => hs q (by simp [hq])
  exact this s _ h

/-- C74: with steady forces the correction after `n` steps is the fraction `1 − (1 − f)^n` of the velocity difference. -/
theorem relaxation (meps f les r : ℝ) (s : List Src) : ∀ n : ℕ, history meps f les r s n =
    (1 - (1 - f) ^ n) • (induced meps Src.eps r s - induced meps (fun _ => les) r s)
  | 0 => by
    unfold history
    ext <;> simp
  | n + 1 => by
    have e : history meps f les r s (n + 1) = relax meps f les r s (history meps f les r s n) := rfl
    rw [e, relaxation meps f les r s n]
    unfold relax
    ext
    · simp only [add_x, smul_x]; ring
    · simp only [add_y, smul_y]; ring
    · simp only [add_z, smul_z]; ring

/-- C74 in part: when the distances from the origin of the domain increase along the velocity points, a force point at a
velocity point gets the velocity there. -/
theorem force_point_velocity_partial {vp : List (Vec ℝ)} {v : List ℝ} (hs : StrictSorted (vp.map spanDistance))
    (hsp : Spaced (vp.map spanDistance)) (h2 : 2 ≤ vp.length) (hl : v.length = vp.length) {k : ℕ} {p : Vec ℝ} {a : ℝ}
    (hp : vp[k]? = some p) (ha : v[k]? = some a) : atForcePoint vp v p = some a := by
  unfold atForcePoint
  refine linear_at_node _ _ hs hsp 1 0 ⟨by simp [hl], Nat.one_pos⟩ (by simpa using h2) (k := k) ?_ (by simpa using ha)
  rw [List.getElem?_map, hp]
  rfl

theorem mag_z {a : ℝ} (ha : 0 ≤ a) : mag (⟨0, 0, a⟩ : Vec ℝ) = a := by
  unfold mag magSqr
  simp only [mul_zero, zero_add]
  exact Real.sqrt_mul_self ha

/-- A disagreement: for a blade pointing down from a hub at height 90 the distances from the origin decrease, and every
force point gets the velocity of the root: here 1 instead of 2. -/
theorem blade_down_wrong : atForcePoint [⟨0, 0, 90⟩, ⟨0, 0, 60⟩, ⟨0, 0, 30⟩] [1, 2, 3] ⟨0, 0, 60⟩ = some 1 := by
  unfold atForcePoint spanDistance
  simp only [List.map_cons, List.map_nil]
  rw [mag_z (by norm_num), mag_z (by norm_num), mag_z (by norm_num)]
  unfold linear Interp.bisectionSearch Interp.checkBounds
  norm_num
  rfl

/-- Two points of lift: a concrete correction. -/
example : history (1 / 10 ^ 15) (1 / 10) 1 0 [⟨0, ⟨0, 0, 1⟩, ⟨1, 0, 0⟩, 1 / 2, 1⟩] 2 =
    (1 - (1 - (1 / 10 : ℝ)) ^ 2) • (induced (1 / 10 ^ 15) Src.eps 0 [⟨0, ⟨0, 0, 1⟩, ⟨1, 0, 0⟩, 1 / 2, 1⟩] -
      induced (1 / 10 ^ 15) (fun _ => 1) 0 [⟨0, ⟨0, 0, 1⟩, ⟨1, 0, 0⟩, 1 / 2, 1⟩]) := relaxation _ _ _ _ _ 2

example : dot (lift (1 / 10 ^ 15) ⟨1, 2, 3⟩ ⟨0, 0, 1⟩ 2) ⟨0, 0, 1⟩ = 0 :=
  (lift_perp (by norm_num) (by norm_num) (by rw [mag_z (by norm_num)]; norm_num)).1

/-- C74: the radius of a point is its distance from the first point: zero there, and the same wherever the wing stands. -/
theorem radius_spec (p0 p v : Vec ℝ) : radius p0 p ^ 2 = (p.x - p0.x) ^ 2 + (p.y - p0.y) ^ 2 + (p.z - p0.z) ^ 2 ∧ 0 ≤ radius p0 p ∧
    radius (p0 + v) (p + v) = radius p0 p := by
  refine ⟨?_, Real.sqrt_nonneg _, ?_⟩
  · unfold radius mag magSqr
    rw [Real.sq_sqrt (by nlinarith [mul_self_nonneg (p - p0).x, mul_self_nonneg (p - p0).y, mul_self_nonneg (p - p0).z])]
    simp only [sub_x, sub_y, sub_z]
    ring
  · unfold radius
    congr 1
    ext <;> simp

end AmrWind.Fllc
