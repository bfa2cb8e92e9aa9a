import Verif.Abl.MplModel
import Verif.Abl.InitProps
import Mathlib.Analysis.SpecialFunctions.Integrals.Basic
import Mathlib.Analysis.SpecialFunctions.Trigonometric.DerivHyp
import Mathlib.Tactic.FieldSimp
import Mathlib.Tactic.LinearCombination
import Mathlib.Tactic.NormNum
import Mathlib.Tactic.Ring

/-!
# C92: the modulated power law
-/

namespace AmrWind.Mpl

open AmrWind AmrWind.Vs

/-! ## Direction -/

/-- **C92.**  The direction is where the wind comes from, clockwise from north (y): speed `v` from direction `d` is
`-v (sin d, cos d)`. -/
theorem wind_comes_from (v d : ℝ) :
    uvec v d = ⟨-(v * Real.sin (Real.pi * d / 180)), -(v * Real.cos (Real.pi * d / 180)), 0⟩ := by
  unfold uvec
  have e : Real.pi * (-d + 270) / 180 = -(Real.pi * d / 180) + Real.pi + Real.pi / 2 := by ring
  rw [e, Real.cos_add_pi_div_two, Real.sin_add_pi_div_two, Real.sin_add_pi, Real.cos_add_pi, Real.sin_neg, Real.cos_neg]
  congr 1 <;> ring

/-- Wind from the west blows along x. -/
example (v : ℝ) : uvec v 270 = ⟨v, 0, 0⟩ := by
  unfold uvec; norm_num

theorem turn_prefix (start stop rate d : ℝ) (t : ℕ → ℝ) (n : ℕ) :
    direction start stop rate d ((List.range (n + 1)).map fun i => (t i, t (i + 1) - t i)) =
      turn start stop rate (direction start stop rate d ((List.range n).map fun i => (t i, t (i + 1) - t i))) (t n, t (n + 1) - t n) := by
  unfold direction
  rw [List.range_succ, List.map_append, List.foldl_append]
  rfl

/-- **C92.**  The wind turns at the given rate from the first step that starts after `start` (step `l`) until the first step that does
not start before `stop` (step `m`). -/
theorem turn_total (start stop rate d : ℝ) (t : ℕ → ℝ) (ht : StrictMono t) (l m : ℕ) (hl : start < t l)
    (hl' : ∀ i, i < l → t i ≤ start) (hm : stop ≤ t m) (hm' : ∀ i, i < m → t i < stop) (n : ℕ) :
    direction start stop rate d ((List.range n).map fun i => (t i, t (i + 1) - t i)) =
      d - rate * (t (max l (min n m)) - t l) := by
  induction n with
  | zero => simp [direction]
  | succ n ih =>
    rw [turn_prefix, ih]
    unfold turn
    by_cases h1 : n < l
    · rw [if_neg (by simp only [not_and]; intro h; linarith [hl' n h1])]
      rw [max_eq_left (by omega), max_eq_left (by omega)]
    · by_cases h2 : n < m
      · have : start < t n := lt_of_lt_of_le hl (ht.monotone (by omega))
        rw [if_pos ⟨this, hm' n h2⟩, min_eq_left (by omega), min_eq_left (by omega), max_eq_right (by omega), max_eq_right (by omega)]
        simp only
        ring
      · have : stop ≤ t n := le_trans hm (ht.monotone (by omega))
        rw [if_neg (by simp only [not_and, not_lt]; intro _; exact this), min_eq_right (by omega), min_eq_right (by omega)]

/-- **C92, what is lost.**  A run that begins at the start of the turn does not turn in its first step: after `n` steps of `dt` the
wind has turned by `n - 1` of them. -/
theorem turn_misses_first (rate d dt stop : ℝ) (hdt : 0 < dt) (n : ℕ) (hn : (n : ℝ) * dt < stop) :
    direction 0 stop rate d ((List.range n).map fun i : ℕ => ((i : ℝ) * dt, ((i + 1 : ℕ) : ℝ) * dt - (i : ℝ) * dt)) =
      d - rate * (((n - 1 : ℕ) : ℝ) * dt) := by
  induction n with
  | zero => simp [direction]
  | succ n ih =>
    have hlt : (n : ℝ) * dt < stop := by push_cast at hn; nlinarith
    have := turn_prefix 0 stop rate d (fun i => (i : ℝ) * dt) n
    rw [this, ih hlt]
    unfold turn
    cases n with
    | zero => simp
    | succ n =>
      have hpos : (0 : ℝ) < ((n + 1 : ℕ) : ℝ) * dt := by positivity
      rw [if_pos ⟨hpos, hlt⟩]
      rw [Nat.add_sub_cancel, Nat.add_sub_cancel]
      push_cast
      ring

/-- **C92 is false of a restarted run**: the direction is not part of a checkpoint; a run stopped and restarted after `steps1` begins
its turn again from the direction of the input file, and differs from the run that went on by the turn already made. -/
theorem restart_forgets (start stop rate d : ℝ) (steps1 steps2 : List (ℝ × ℝ)) :
    direction start stop rate d (steps1 ++ steps2) - direction start stop rate d steps2 = direction start stop rate d steps1 - d := by
  have key : ∀ (s : List (ℝ × ℝ)) (x y : ℝ), direction start stop rate x s - direction start stop rate y s = x - y := by
    intro s
    induction s with
    | nil => intro x y; rfl
    | cons a r ih =>
      intro x y
      have : ∀ w, direction start stop rate w (a :: r) = direction start stop rate (turn start stop rate w a) r := fun _ => rfl
      rw [this, this, ih]
      unfold turn
      split_ifs <;> ring
  have h1 : direction start stop rate d (steps1 ++ steps2) = direction start stop rate (direction start stop rate d steps1) steps2 := by
    unfold direction; rw [List.foldl_append]
  rw [h1, key]

/-- Ten degrees per second, two steps of one second, restart, one more: the wind jumps back by ten degrees. -/
example : direction 0 100 10 270 ([(0, 1), (1, 1)] ++ [(2, 1)]) = 250 ∧ direction 0 100 10 270 [(2, 1)] = 260 := by
  unfold direction turn; norm_num

/-! ## Profile -/

/-- **C92.**  The velocity is along the wind, horizontal, with the speed of the power law and the upper layer, when that is positive. -/
theorem velocity_along (p : Par) (v d z : ℝ) (w : Vec ℝ) (h : velocity p (uvec v d) z = some w) :
    w.z = 0 ∧ ∃ f, f = p.pfac z + p.tanhterm (mag (uvec v d)) z ∧ w.x = (uvec v d).x * f ∧ w.y = (uvec v d).y * f := by
  unfold velocity at h
  simp only at h
  split_ifs at h with hc
  simp only [Option.some.injEq] at h
  subst h
  exact ⟨rfl, _, rfl, rfl, rfl⟩

/-- **C92.**  A velocity is defined exactly if the wind moves and none of the divisors vanishes. -/
theorem velocity_defined (p : Par) (u : Vec ℝ) (z : ℝ) :
    (∃ w, velocity p u z = some w) ↔ mag u ≠ 0 ∧ p.denom ≠ 0 ∧ p.smear ≠ 0 ∧ p.a + 1 ≠ 0 ∧ p.zref ≠ 0 := by
  unfold velocity
  simp only
  split_ifs with h
  · simp only [reduceCtorEq, exists_false, false_iff]
    tauto
  · simp only [Option.some.injEq, exists_eq', true_iff]
    tauto

/-- **C92.**  No velocity is defined for still air. -/
theorem still_undefined (p : Par) (d z : ℝ) : velocity p (uvec 0 d) z = none := by
  unfold velocity
  simp only
  rw [if_pos]
  left
  unfold uvec mag
  simp [magSqr]

/-- **C92.**  The factor of the power law is between zero and its maximum, one at the reference height, zero below the ground and
nondecreasing. -/
theorem power_law (p : Par) (hz : 0 < p.zref) (ha : 0 ≤ p.a) (hu : 1 ≤ p.umax) :
    (∀ z, 0 ≤ p.pfac z ∧ p.pfac z ≤ p.umax) ∧ p.pfac p.zref = 1 ∧ (∀ z, z ≤ 0 → p.pfac z = 0) ∧ Monotone p.pfac ∧
      ∀ z, 0 < z → (z / p.zref) ^ p.a ≤ p.umax → p.pfac z = (z / p.zref) ^ p.a := by
  have hu0 : (0 : ℝ) ≤ p.umax := by linarith
  refine ⟨fun z => ⟨le_min (le_max_right _ _) hu0, min_le_right _ _⟩, ?_, ?_, ?_, ?_⟩
  · unfold Par.pfac
    rw [if_pos hz, div_self hz.ne', Real.one_rpow, max_eq_left (by norm_num), min_eq_left hu]
  · intro z h
    unfold Par.pfac
    rw [if_neg (not_lt.mpr h), max_self, min_eq_left hu0]
  · intro x y hxy
    unfold Par.pfac
    apply min_le_min_right
    apply max_le_max_right
    by_cases hx : x > 0
    · have hy : y > 0 := lt_of_lt_of_le hx hxy
      rw [if_pos hx, if_pos hy]
      exact Real.rpow_le_rpow (div_nonneg hx.le hz.le) (div_le_div_of_nonneg_right hxy hz.le) ha
    · rw [if_neg hx]
      split_ifs with hy
      · exact Real.rpow_nonneg (div_nonneg hy.le hz.le) _
      · exact le_rfl
  · intro z h h2
    unfold Par.pfac
    rw [if_pos h, max_eq_left (Real.rpow_nonneg (div_nonneg h.le hz.le) _), min_eq_left h2]

/-! ## Mean over the height -/

theorem tanh_cont : Continuous Real.tanh := by
  have : Real.tanh = fun x => Real.sinh x / Real.cosh x := by
    funext x; exact Real.tanh_eq_sinh_div_cosh x
  rw [this]
  exact Real.continuous_sinh.div Real.continuous_cosh (fun x => (Real.cosh_pos x).ne')

theorem log_cosh_deriv (s c z : ℝ) (hs : s ≠ 0) :
    HasDerivAt (fun z => Real.log (Real.cosh (s * (z - c))) / s) (Real.tanh (s * (z - c))) z := by
  have h1 : HasDerivAt (fun z : ℝ => s * (z - c)) s z := by
    simpa using ((hasDerivAt_id z).sub_const c).const_mul s
  have h2 := (Real.hasDerivAt_cosh (s * (z - c))).comp z h1
  have h3 := (h2.log (Real.cosh_pos _).ne').div_const s
  refine h3.congr_deriv ?_
  rw [Real.tanh_eq_sinh_div_cosh]
  simp only [Function.comp]
  field_simp

theorem tanh_int (s c x y : ℝ) (hs : s ≠ 0) :
    ∫ z in x..y, (Real.tanh (s * (z - c)) + 1) =
      Real.log (Real.cosh (s * (y - c))) / s - Real.log (Real.cosh (s * (x - c))) / s + (y - x) := by
  have hc : Continuous fun z => Real.tanh (s * (z - c)) := tanh_cont.comp (by fun_prop)
  rw [intervalIntegral.integral_add (hc.intervalIntegrable _ _) (by simp),
    intervalIntegral.integral_eq_sub_of_hasDerivAt (fun z _ => log_cosh_deriv s c z hs) (hc.intervalIntegrable _ _)]
  simp

theorem pfac_cont (p : Par) (ha : 0 < p.a) : Continuous p.pfac := by
  have e : p.pfac = fun z => min (max ((max z 0 / p.zref) ^ p.a) 0) p.umax := by
    funext z
    unfold Par.pfac
    by_cases h : z > 0
    · rw [if_pos h, max_eq_left h.le]
    · rw [if_neg h, max_eq_right (not_lt.mp h), zero_div, Real.zero_rpow ha.ne']
  rw [e]
  have : Continuous fun z : ℝ => (max z 0 / p.zref) ^ p.a :=
    Continuous.rpow_const (by fun_prop) (fun _ => Or.inr ha.le)
  exact (this.max continuous_const).min continuous_const

/-- The integral of the power law up to the height where it is cut off, and above. -/
theorem power_int (p : Par) (hz : 0 < p.zref) (ha : 0 < p.a) (hu : 1 ≤ p.umax) (hH : p.z2 ≤ p.height) :
    ∫ z in (0 : ℝ)..p.height, p.pfac z = p.z2 ^ (p.a + 1) / (p.a + 1) / p.zref ^ p.a + p.umax * (p.height - p.z2) := by
  have hu0 : (0 : ℝ) < p.umax := by linarith
  have hz2 : p.z2 = p.zref * p.umax ^ (1 / p.a) := by
    unfold Par.z2; rw [if_pos (abs_pos.mpr ha.ne')]
  have hz2p : 0 < p.z2 := by rw [hz2]; exact mul_pos hz (Real.rpow_pos_of_pos hu0 _)
  have hc := pfac_cont p ha
  have hat : (p.z2 / p.zref) ^ p.a = p.umax := by
    rw [hz2, mul_div_cancel_left₀ _ hz.ne', ← Real.rpow_mul hu0.le, one_div, inv_mul_cancel₀ ha.ne', Real.rpow_one]
  rw [← intervalIntegral.integral_add_adjacent_intervals (hc.intervalIntegrable 0 p.z2) (hc.intervalIntegrable p.z2 p.height)]
  congr 1
  · have e : Set.EqOn p.pfac (fun z => z ^ p.a / p.zref ^ p.a) (Set.uIcc 0 p.z2) := by
      intro z hzm
      rw [Set.uIcc_of_le hz2p.le] at hzm
      rcases eq_or_lt_of_le hzm.1 with h0 | h0
      · subst h0
        rw [(power_law p hz ha.le hu).2.2.1 0 le_rfl]
        simp [Real.zero_rpow ha.ne']
      · rw [(power_law p hz ha.le hu).2.2.2.2 z h0, Real.div_rpow h0.le hz.le]
        rw [← hat]
        exact Real.rpow_le_rpow (div_nonneg h0.le hz.le) (div_le_div_of_nonneg_right hzm.2 hz.le) ha.le
    rw [intervalIntegral.integral_congr e, intervalIntegral.integral_div, integral_rpow (Or.inl (by linarith)),
      Real.zero_rpow (by linarith), sub_zero]
  · have e : Set.EqOn p.pfac (fun _ => p.umax) (Set.uIcc p.z2 p.height) := by
      intro z hzm
      rw [Set.uIcc_of_le hH] at hzm
      have h0 : 0 < z := lt_of_lt_of_le hz2p hzm.1
      unfold Par.pfac
      rw [if_pos h0]
      apply min_eq_right
      apply le_max_of_le_left
      rw [← hat]
      exact Real.rpow_le_rpow (div_nonneg hz2p.le hz.le) (div_le_div_of_nonneg_right hzm.1 hz.le) ha.le
    rw [intervalIntegral.integral_congr e]
    simp [mul_comm]

/-- **C92, in part.**  The speed of the profile, integrated over a domain that starts at zero, is the bulk velocity times the height,
plus a rest: the part of the upper layer below the height where the power law ends, which the code leaves out of the balance. -/
theorem bulk_partial (p : Par) (uref : ℝ) (hz : 0 < p.zref) (ha : 0 < p.a) (hu : 1 ≤ p.umax) (hH : p.z2 ≤ p.height)
    (hs : 0 < p.smear) (hr : 0 < uref) (hd : p.denom ≠ 0) :
    ∫ z in (0 : ℝ)..p.height, uref * (p.pfac z + p.tanhterm uref z) =
      p.bulk * p.height + 1 / 2 * p.upper uref * ∫ z in (0 : ℝ)..p.z2, (Real.tanh (p.s * (z - p.zc)) + 1) := by
  have hs0 : p.s ≠ 0 := by unfold Par.s; exact one_div_ne_zero hs.ne'
  have hu0 : (0 : ℝ) < p.umax := by linarith
  have hz2 : p.z2 = p.zref * p.umax ^ (1 / p.a) := by
    unfold Par.z2; rw [if_pos (abs_pos.mpr ha.ne')]
  have hvmax : p.vmax uref = uref * p.umax := by
    unfold Par.vmax
    rw [if_neg]
    rw [hz2, not_lt]
    have : 1 ≤ p.umax ^ (1 / p.a) := Real.one_le_rpow hu (by positivity)
    nlinarith
  have hc := pfac_cont p ha
  have ht : Continuous fun z => Real.tanh (p.s * (z - p.zc)) + 1 := (tanh_cont.comp (by fun_prop)).add continuous_const
  have e : ∀ z, uref * (p.pfac z + p.tanhterm uref z) = uref * p.pfac z + 1 / 2 * p.upper uref * (Real.tanh (p.s * (z - p.zc)) + 1) := by
    intro z
    unfold Par.tanhterm
    have := hr.ne'
    field_simp
  simp only [e]
  have hi1 : IntervalIntegrable (fun z => uref * p.pfac z) MeasureTheory.volume 0 p.height :=
    Continuous.intervalIntegrable (continuous_const.mul hc) _ _
  have hi2 : IntervalIntegrable (fun z => 1 / 2 * p.upper uref * (Real.tanh (p.s * (z - p.zc)) + 1)) MeasureTheory.volume 0 p.height :=
    Continuous.intervalIntegrable (continuous_const.mul ht) _ _
  rw [intervalIntegral.integral_add hi1 hi2,
    intervalIntegral.integral_const_mul, intervalIntegral.integral_const_mul, power_int p hz ha hu hH,
    ← intervalIntegral.integral_add_adjacent_intervals (ht.intervalIntegrable 0 p.z2) (ht.intervalIntegrable p.z2 p.height)]
  have hden : 1 / 2 * ∫ z in p.z2..p.height, (Real.tanh (p.s * (z - p.zc)) + 1) = p.denom := by
    rw [tanh_int _ _ _ _ hs0]
    unfold Par.denom
    rw [show -p.s * (p.height - p.zc) = -(p.s * (p.height - p.zc)) by ring, show -p.s * (p.z2 - p.zc) = -(p.s * (p.z2 - p.zc)) by ring,
      Real.cosh_neg, Real.cosh_neg]
  have hup : p.upper uref * p.denom = p.bulk * p.height - uref * p.z2 ^ (p.a + 1) / (p.a + 1) / p.zref ^ p.a -
      uref * p.umax * (p.height - p.z2) := by
    unfold Par.upper
    rw [div_mul_cancel₀ _ hd, hvmax]
  have hr2 : uref * (p.z2 ^ (p.a + 1) / (p.a + 1) / p.zref ^ p.a) = uref * p.z2 ^ (p.a + 1) / (p.a + 1) / p.zref ^ p.a := by ring
  rw [mul_add, hr2]
  linear_combination p.upper uref * hden + hup

/-- **C92 is false of the code**: the rest is not zero unless the upper layer vanishes; the profile carries more than the bulk velocity
when the upper layer adds to the flow and less when it takes from it. -/
theorem bulk_wrong (p : Par) (uref : ℝ) (hz : 0 < p.zref) (ha : 0 < p.a) (hu : 1 ≤ p.umax) (hH : p.z2 ≤ p.height)
    (hs : 0 < p.smear) (hr : 0 < uref) (hd : p.denom ≠ 0) :
    (0 < p.upper uref → p.bulk * p.height < ∫ z in (0 : ℝ)..p.height, uref * (p.pfac z + p.tanhterm uref z)) ∧
      (p.upper uref < 0 → ∫ z in (0 : ℝ)..p.height, uref * (p.pfac z + p.tanhterm uref z) < p.bulk * p.height) := by
  rw [bulk_partial p uref hz ha hu hH hs hr hd]
  have hz2 : p.z2 = p.zref * p.umax ^ (1 / p.a) := by
    unfold Par.z2; rw [if_pos (abs_pos.mpr ha.ne')]
  have hz2p : 0 < p.z2 := by rw [hz2]; exact mul_pos hz (Real.rpow_pos_of_pos (by linarith) _)
  have ht : Continuous fun z => Real.tanh (p.s * (z - p.zc)) + 1 := (tanh_cont.comp (by fun_prop)).add continuous_const
  have hpos : 0 < ∫ z in (0 : ℝ)..p.z2, (Real.tanh (p.s * (z - p.zc)) + 1) := by
    apply intervalIntegral.intervalIntegral_pos_of_pos (ht.intervalIntegrable _ _) _ hz2p
    intro z
    rw [Real.tanh_eq_sinh_div_cosh]
    have hcp := Real.cosh_pos (p.s * (z - p.zc))
    have h1 : Real.cosh (p.s * (z - p.zc)) + Real.sinh (p.s * (z - p.zc)) = Real.exp (p.s * (z - p.zc)) := Real.cosh_add_sinh _
    rw [div_add_one hcp.ne', add_comm, h1]
    exact div_pos (Real.exp_pos _) hcp
  constructor <;> intro h <;> nlinarith

/-- **C92.**  Without shear the balance is exact. -/
theorem bulk_uniform (p : Par) (uref : ℝ) (hz : 0 < p.zref) (ha : p.a = 0) (hu : 1 ≤ p.umax) (hH : 0 < p.height)
    (hs : 0 < p.smear) (hr : 0 < uref) (hd : p.denom ≠ 0) :
    ∫ z in (0 : ℝ)..p.height, uref * (p.pfac z + p.tanhterm uref z) = p.bulk * p.height := by
  have hs0 : p.s ≠ 0 := by unfold Par.s; exact one_div_ne_zero hs.ne'
  have hz2 : p.z2 = 0 := by unfold Par.z2; rw [if_neg]; rw [ha, abs_zero]; exact lt_irrefl _
  have ht : Continuous fun z => Real.tanh (p.s * (z - p.zc)) + 1 := (tanh_cont.comp (by fun_prop)).add continuous_const
  have hvmax : p.vmax uref = uref := by unfold Par.vmax; rw [hz2, if_pos hz]
  have e : ∫ z in (0 : ℝ)..p.height, uref * (p.pfac z + p.tanhterm uref z) =
      ∫ z in (0 : ℝ)..p.height, (uref + 1 / 2 * p.upper uref * (Real.tanh (p.s * (z - p.zc)) + 1)) := by
    apply intervalIntegral.integral_congr_ae
    refine Filter.Eventually.of_forall fun z hzm => ?_
    rw [Set.uIoc_of_le hH.le] at hzm
    unfold Par.pfac Par.tanhterm
    rw [if_pos hzm.1, ha, Real.rpow_zero, max_eq_left (by norm_num), min_eq_left hu]
    have := hr.ne'
    field_simp
  have hi2 : IntervalIntegrable (fun z => 1 / 2 * p.upper uref * (Real.tanh (p.s * (z - p.zc)) + 1)) MeasureTheory.volume 0 p.height :=
    Continuous.intervalIntegrable (continuous_const.mul ht) _ _
  rw [e, intervalIntegral.integral_add (by simp) hi2, intervalIntegral.integral_const_mul]
  have hden : 1 / 2 * ∫ z in (0 : ℝ)..p.height, (Real.tanh (p.s * (z - p.zc)) + 1) = p.denom := by
    rw [tanh_int _ _ _ _ hs0]
    unfold Par.denom
    rw [hz2, show -p.s * (p.height - p.zc) = -(p.s * (p.height - p.zc)) by ring, show -p.s * (0 - p.zc) = -(p.s * (0 - p.zc)) by ring,
      Real.cosh_neg, Real.cosh_neg]
  have hup : p.upper uref * p.denom = p.bulk * p.height - uref * p.height := by
    unfold Par.upper
    rw [div_mul_cancel₀ _ hd, hvmax, hz2, ha]
    norm_num
  simp only [intervalIntegral.integral_const, smul_eq_mul, sub_zero]
  linear_combination p.upper uref * hden + hup

/-- The hypotheses are met by: no shear, 1000 m, a layer of 30 m at 600 m; the balance coefficient is positive. -/
example : ({ zref := 90, a := 0, umax := 12 / 10, bulk := 15, zc := 600, smear := 30, height := 1000 } : Par).denom ≠ 0 := by
  have hz2 : ({ zref := 90, a := 0, umax := 12 / 10, bulk := 15, zc := 600, smear := 30, height := 1000 } : Par).z2 = 0 := by
    unfold Par.z2; simp
  unfold Par.denom Par.s
  rw [hz2]
  simp only
  have h1 : Real.log (Real.cosh (-(1 / 30) * (0 - 600))) ≤ 20 := by
    rw [show (-(1 / 30 : ℝ)) * (0 - 600) = 20 by norm_num]
    have h0 : Real.cosh 20 ≤ Real.exp 20 := by
      rw [Real.cosh_eq]
      have : Real.exp (-20) ≤ Real.exp 20 := Real.exp_le_exp.mpr (by norm_num)
      linarith
    calc Real.log (Real.cosh 20) ≤ Real.log (Real.exp 20) := Real.log_le_log (Real.cosh_pos _) h0
      _ = 20 := Real.log_exp 20
  have h2 : 0 ≤ Real.log (Real.cosh (-(1 / 30) * (1000 - 600))) := Real.log_nonneg (Real.one_le_cosh _)
  have : (0 : ℝ) < 1 / 2 * (Real.log (Real.cosh (-(1 / 30) * (1000 - 600))) / (1 / 30) -
      Real.log (Real.cosh (-(1 / 30) * (0 - 600))) / (1 / 30) + (1000 - 0)) := by
    rw [div_div_eq_mul_div, div_div_eq_mul_div, div_one, div_one]
    linarith
  exact this.ne'

/-- **C92.**  At the reference height the speed is the wind speed plus the upper layer there. -/
theorem speed_at_zref (p : Par) (uref : ℝ) (hz : 0 < p.zref) (ha : 0 ≤ p.a) (hu : 1 ≤ p.umax) (hr : 0 < uref) :
    uref * (p.pfac p.zref + p.tanhterm uref p.zref) = uref + 1 / 2 * p.upper uref * (Real.tanh (p.s * (p.zref - p.zc)) + 1) := by
  rw [(power_law p hz ha hu).2.1]
  unfold Par.tanhterm
  have := hr.ne'
  field_simp

/-! ## Temperature -/

/-- **C92.**  The temperature of the inflow is that of the table (with its flaw above the last height), plus the amplitude times a random
number below the cutoff. -/
theorem temperature_spec (tab : List (ℝ × ℝ)) (cutoff delta rnd z : ℝ) :
    temperature tab cutoff delta rnd z = (Init.table tab z).map fun T => T + if z < cutoff then delta * rnd else 0 := by
  unfold temperature
  cases Init.table tab z with
  | none => rfl
  | some T => by_cases h : z < cutoff <;> simp [h]

/-- **C92.**  Above the table the inflow has the temperature of the ground. -/
theorem temperature_above_wrong (tab : List (ℝ × ℝ)) (first last : ℝ × ℝ) (cutoff delta rnd z : ℝ)
    (hs : Interp.StrictSorted (tab.map Prod.fst)) (h0 : tab[0]? = some first) (hl : tab[tab.length - 1]? = some last)
    (hz : last.1 < z) (hc : cutoff ≤ z) : temperature tab cutoff delta rnd z = some first.2 := by
  unfold temperature
  rw [Init.table_above_wrong tab first last hs h0 hl z hz]
  simp [not_lt.mpr hc]

end AmrWind.Mpl
