import Mathlib.Algebra.BigOperators.Group.Finset.Basic
import Mathlib.Tactic.FieldSimp
import Mathlib.Tactic.Ring
import Mathlib.Tactic.Linarith
import Verif.Interp.Props
import Verif.Src.BuoyModel

/-! # Theorems about buoyancy, gravity, damping and nudging sources (property C82) -/

set_option linter.unusedSectionVars false

namespace AmrWind.Buoy

open AmrWind AmrWind.Vs

/-! ## Buoyancy -/

/-- **C82**: fluid warmer than the reference is pushed against gravity, colder fluid along it. -/
theorem warm_rises {g : Vec ℝ} {beta T0 T : ℝ} (hg : dot g g ≠ 0) (hb : 0 < beta) :
    (T0 < T → dot (boussinesq g beta T0 T) g < 0) ∧ (T < T0 → 0 < dot (boussinesq g beta T0 T) g) ∧
    (T = T0 → boussinesq g beta T0 T = ⟨0, 0, 0⟩) := by
  have hp : 0 < dot g g := lt_of_le_of_ne (by simp only [dot]; nlinarith [mul_self_nonneg g.x, mul_self_nonneg g.y, mul_self_nonneg g.z]) hg.symm
  have e : dot (boussinesq g beta T0 T) g = beta * (T0 - T) * dot g g := by simp only [boussinesq, scaled, dot]; ring
  rw [e]
  refine ⟨fun h => ?_, fun h => ?_, fun h => ?_⟩
  · exact mul_neg_of_neg_of_pos (mul_neg_of_pos_of_neg hb (by linarith)) hp
  · exact mul_pos (mul_pos hb (by linarith)) hp
  · subst h; ext <;> simp [boussinesq, scaled]

/-- **C82**: with the mean term the reference temperature drops out, only the deviation from the mean profile acts. -/
theorem reference_free (g : Vec ℝ) (beta T0 T Tm : ℝ) :
    boussinesq g beta T0 T + meanBoussinesq g beta T0 Tm = boussinesq g beta Tm T := by
  ext <;> simp [boussinesq, meanBoussinesq, scaled] <;> ring

/-- **C82**: when the mean is the average over the cells of a plane, the two terms together add nothing to the plane. -/
theorem mean_zero {ι : Type*} (s : Finset ι) (g : Vec ℝ) (beta T0 : ℝ) (T : ι → ℝ) (Tm : ℝ) (hm : (s.card : ℝ) * Tm = ∑ i ∈ s, T i) :
    (∑ i ∈ s, (boussinesq g beta T0 (T i) + meanBoussinesq g beta T0 Tm).x = 0) ∧
    (∑ i ∈ s, (boussinesq g beta T0 (T i) + meanBoussinesq g beta T0 Tm).y = 0) ∧
    ∑ i ∈ s, (boussinesq g beta T0 (T i) + meanBoussinesq g beta T0 Tm).z = 0 := by
  have key : ∀ c : ℝ, ∑ i ∈ s, c * (beta * (Tm - T i)) = 0 := by
    intro c
    rw [← Finset.mul_sum, ← Finset.mul_sum, Finset.sum_sub_distrib, Finset.sum_const, nsmul_eq_mul, hm]
    ring
  simp only [reference_free]
  exact ⟨key g.x, key g.y, key g.z⟩

example : boussinesq (⟨0, 0, -10⟩ : Vec ℝ) (1 / 300) 300 303 = ⟨0, 0, 1 / 10⟩ := by
  ext <;> norm_num [boussinesq, scaled]

/-- **C82**: force per volume is the density difference times gravity. -/
theorem density_buoyancy_spec {g : Vec ℝ} {rho0 rho : ℝ} (h : rho ≠ 0) :
    ∃ v, densityBuoyancy g rho0 rho = some v ∧ scaled v rho = scaled g (rho - rho0) := by
  refine ⟨_, if_neg h, ?_⟩
  ext <;> simp only [scaled] <;> field_simp

/-- **C82**: gravity acts in full, or, with perturbational pressure, only on the difference from the reference density (the field if there
is one, else the constant); the two differ by the weight of the reference, that is by a hydrostatic pressure gradient. -/
theorem gravity_spec {g : Vec ℝ} {ref : Option ℝ} {rho0 rho : ℝ} (h : rho ≠ 0) :
    ∃ f p, gravity g false ref rho0 rho = some f ∧ gravity g true ref rho0 rho = some p ∧ f = g ∧
      scaled p rho = scaled g (rho - ref.getD rho0) ∧ scaled (f - p) rho = scaled g (ref.getD rho0) := by
  refine ⟨scaled g 1, scaled g (1 - ref.getD rho0 / rho), rfl, ?_, ?_, ?_, ?_⟩
  · unfold gravity; simp [h]
  · ext <;> simp [scaled]
  · ext <;> simp only [scaled] <;> field_simp
  · ext <;> simp only [scaled, sub_x, sub_y, sub_z] <;> field_simp <;> ring

/-- **C82**: perturbational gravity without reference field is density buoyancy. -/
theorem gravity_density (g : Vec ℝ) (rho0 rho : ℝ) : gravity g true none rho0 rho = densityBuoyancy g rho0 rho := rfl

/-- A disagreement: the profile file of `ABLMeanBoussinesq` is used only if it has no name. -/
theorem profile_file_ignored (name : String) (h : name ≠ "") : meanSource true name = .planeAverage ∧ meanSource true "" = .fileNamed "" := by
  unfold meanSource
  simp [h]

/-! ## Damping -/

/-- **C82**: the damping coefficient is 1 in the top layer, 0 below the sloped layer, in [0,1] everywhere and grows with height. -/
theorem rayleigh_coeff {top dRD dFull : ℝ} (hr : 0 ≤ dRD) (z : ℝ) :
    0 ≤ rayleighCoeff top dRD dFull z ∧ rayleighCoeff top dRD dFull z ≤ 1 ∧ (top - dFull ≤ z → rayleighCoeff top dRD dFull z = 1) ∧
    (z < top - dFull - dRD → rayleighCoeff top dRD dFull z = 0) ∧
    ∀ z', z ≤ z' → rayleighCoeff top dRD dFull z ≤ rayleighCoeff top dRD dFull z' := by
  have hb : ∀ z, 0 ≤ rayleighCoeff top dRD dFull z ∧ rayleighCoeff top dRD dFull z ≤ 1 := by
    intro z
    unfold rayleighCoeff
    have c1 := Real.cos_le_one (Real.pi * (top - dFull - z) / dRD)
    have c2 := Real.neg_one_le_cos (Real.pi * (top - dFull - z) / dRD)
    split_ifs <;> constructor <;> linarith
  have h1 : ∀ z, top - dFull ≤ z → rayleighCoeff top dRD dFull z = 1 := by
    intro z h; unfold rayleighCoeff; rw [if_neg (by linarith), if_neg (by linarith)]
  have h0 : ∀ z, z < top - dFull - dRD → rayleighCoeff top dRD dFull z = 0 := by
    intro z h; unfold rayleighCoeff; rw [if_pos (by linarith)]
  refine ⟨(hb z).1, (hb z).2, h1 z, h0 z, fun z' hz => ?_⟩
  by_cases a : z < top - dFull - dRD
  · rw [h0 z a]; exact (hb z').1
  · by_cases b : top - dFull ≤ z'
    · rw [h1 z' b]; exact (hb z).2
    · push Not at a b
      have hp : 0 < dRD := by linarith
      unfold rayleighCoeff
      rw [if_neg (by linarith), if_pos (by linarith), if_neg (by linarith), if_pos (by linarith)]
      have : Real.cos (Real.pi * (top - dFull - z) / dRD) ≤ Real.cos (Real.pi * (top - dFull - z') / dRD) := by
        have pp := Real.pi_pos
        apply Real.cos_le_cos_of_nonneg_of_le_pi
        · exact div_nonneg (mul_nonneg pp.le (by linarith)) hr
        · rw [div_le_iff₀ hp]; nlinarith
        · rw [div_le_div_iff_of_pos_right hp]; nlinarith
      linarith

/-- **C82**: there is no jump at either end of the sloped layer. -/
theorem rayleigh_continuous {top dRD dFull : ℝ} (hr : 0 < dRD) :
    rayleighCoeff top dRD dFull (top - dFull - dRD) = 0 ∧
    1 / 2 * Real.cos (Real.pi * (top - dFull - (top - dFull)) / dRD) + 1 / 2 = 1 := by
  constructor
  · unfold rayleighCoeff
    rw [if_neg (by linarith), if_pos (by linarith)]
    have : Real.pi * (top - dFull - (top - dFull - dRD)) / dRD = Real.pi := by field_simp; ring
    rw [this, Real.cos_pi]; norm_num
  · simp; norm_num

/-- **C82**: damping pulls a component towards its reference and, for a step no longer than the time scale, never past it. -/
theorem rayleigh_relaxes {top dRD dFull tau f z ref v dt : ℝ} (hr : 0 ≤ dRD) (ht : 0 < tau) (hf0 : 0 ≤ f) (hf1 : f ≤ 1) (hd0 : 0 ≤ dt)
    (hd : dt ≤ tau) :
    ∃ s, rayleigh top dRD dFull tau f z ref v = some s ∧ s * (v - ref) ≤ 0 ∧ |v + dt * s - ref| ≤ |v - ref| ∧
      0 ≤ (v + dt * s - ref) * (v - ref) := by
  obtain ⟨c0, c1, _⟩ := rayleigh_coeff (top := top) (dFull := dFull) hr z
  refine ⟨_, if_neg ht.ne', ?_⟩
  generalize rayleighCoeff top dRD dFull z = c at *
  have hk0 : 0 ≤ f * c / tau := by positivity
  have e1 : f * c * (ref - v) / tau = -(f * c / tau) * (v - ref) := by ring
  have e2 : v + dt * (f * c * (ref - v) / tau) - ref = (1 - dt * (f * c / tau)) * (v - ref) := by ring
  have hk1 : dt * (f * c / tau) ≤ 1 := by
    have : f * c ≤ 1 := by nlinarith
    rw [← mul_div_assoc, div_le_one ht]
    nlinarith [mul_nonneg hf0 c0]
  have hk2 : 0 ≤ dt * (f * c / tau) := by positivity
  rw [e2, e1, abs_mul]
  refine ⟨?_, ?_, ?_⟩
  · have := mul_nonneg hk0 (mul_self_nonneg (v - ref)); nlinarith
  · exact mul_le_of_le_one_left (abs_nonneg _) (abs_le.mpr ⟨by linarith, by linarith⟩)
  · have := mul_nonneg (show 0 ≤ 1 - dt * (f * c / tau) by linarith) (mul_self_nonneg (v - ref)); nlinarith

example : rayleighCoeff 1000 200 100 950 = 1 := by unfold rayleighCoeff; norm_num

/-! ## Nudging -/

/-- **C82**: below the start of the layer there is no source, above it the source relaxes to the profile over the time scale. -/
theorem nudge_spec {scale start top : ℝ} (hs : scale ≠ 0) (ht : start < top) {hts vals : List ℝ} (hne : hts ≠ []) (z v : ℝ) :
    (z ≤ start → nudge scale start top hts vals z v = some 0) ∧
    (start < z → nudge scale start top hts vals z v = (Interp.linear hts vals z 1 0).map fun ref => (ref - v) / scale) := by
  have hd : 0 < top - start := by linarith
  unfold nudge
  rw [if_neg (by simp [hs, ht.ne'])]
  constructor
  · intro h
    have : max ((z - start) / (top - start)) 0 = 0 := max_eq_right (div_nonpos_of_nonpos_of_nonneg (by linarith) hd.le)
    simp only [this, lt_irrefl, false_and, if_false, sub_self, mul_zero, neg_zero]
  · intro h
    have : 0 < max ((z - start) / (top - start)) 0 := lt_max_of_lt_left (div_pos (by linarith) hd)
    simp only [this, true_and]
    rw [if_pos hne]
    congr 1
    funext ref
    ring

/-- C82 fails when the damping starts above the domain (as with the default and a low domain): both the numerator and the
denominator of the height fraction are negative, so instead of nowhere the forcing acts at every height. -/
theorem nudge_start_above {scale start top : ℝ} (hs : scale ≠ 0) {hts vals : List ℝ} (hne : hts ≠ []) {z : ℝ} (v : ℝ) (hz : z ≤ top)
    (ht : top < start) : nudge scale start top hts vals z v = (Interp.linear hts vals z 1 0).map fun ref => -(1 / scale * (v - ref)) := by
  unfold nudge
  rw [if_neg (by simp [hs, ht.ne])]
  have : 0 < max ((z - start) / (top - start)) 0 := lt_max_of_lt_left (div_pos_of_neg_of_neg (by linarith) (by linarith))
  simp only [this, true_and]
  rw [if_pos hne]

/-- A disagreement: the velocity is nudged with the time step, whatever time scale is given: a step takes it all the way to the
profile. -/
theorem velocity_timescale_ignored {dt start top : ℝ} (hdt : dt ≠ 0) (ht : start < top) {hts vals : List ℝ} (hne : hts ≠ []) {z v ref : ℝ}
    (hz : start < z) (hr : Interp.linear hts vals z 1 0 = some ref) (ts : ℝ) :
    ∃ s, velocityNudge ts dt start top hts vals z v = some s ∧ v + dt * s = ref := by
  refine ⟨(ref - v) / dt, ?_, by field_simp; ring⟩
  unfold velocityNudge
  rw [(nudge_spec hdt ht hne z v).2 hz, hr]; rfl

/-- **C82**: the temperature is nudged with the time scale given. -/
theorem temperature_timescale {ts dt start top : ℝ} (hts : ts ≠ 0) (ht : start < top) {h vals : List ℝ} (hne : h ≠ []) {z v ref : ℝ}
    (hz : start < z) (hr : Interp.linear h vals z 1 0 = some ref) : temperatureNudge ts dt start top h vals z v = some ((ref - v) / ts) := by
  unfold temperatureNudge
  rw [(nudge_spec hts ht hne z v).2 hz, hr]; rfl

example : nudge 10 500 1000 [0, 1000] [0, 10] 800 3 = some (1 / 2) := by
  have e : Interp.linear ([0, 1000] : List ℝ) [0, 10] 800 1 0 = some (1 / 100 * 800 + 0) :=
    Interp.linear_affine _ _ (by simp [Interp.StrictSorted]) (by
      intro i a b h1 h2
      match i with
      | 0 => simp at h1 h2; subst h1 h2; norm_num [Interp.eps]
      | i + 1 => simp at h2) 1 0 ⟨rfl, by norm_num⟩ (by simp) (1 / 100) 0 (by
      intro i u hu
      match i with
      | 0 => simp at hu; subst hu; simp
      | 1 => simp at hu; subst hu; norm_num
      | i + 2 => simp at hu) (x0 := 0) (xn := 1000) rfl rfl (by norm_num) (by norm_num)
  rw [(nudge_spec (by norm_num) (by norm_num) (by simp) 800 3).2 (by norm_num), e]
  norm_num

/-- **C82**: the weight of a mast is 1 at the mast, in [0,1] everywhere, and depends on the position through the scaled distance only. -/
theorem mast_weight {terrain : Bool} {long vert damping : ℝ} (hd : 0 ≤ damping) (p q : Vec ℝ) :
    0 ≤ mastWeight terrain long vert damping p q ∧ mastWeight terrain long vert damping p q ≤ 1 ∧
    mastWeight terrain long vert damping q q = 1 := by
  refine ⟨?_, ?_, ?_⟩
  · unfold mastWeight
    have hc : ∀ (c : Prop) [Decidable c] (x : ℝ), (0 : ℝ) ≤ if c then Real.exp x else 0 := by
      intro c _ x
      split_ifs
      · exact (Real.exp_pos _).le
      · exact le_refl _
    exact hc _ _
  · unfold mastWeight
    have hn : 0 ≤ (p.x - q.x) * (p.x - q.x) / (long * long) + (p.y - q.y) * (p.y - q.y) / (long * long) +
        (p.z - q.z) * (p.z - q.z) / (vert * vert) :=
      add_nonneg (add_nonneg (div_nonneg (mul_self_nonneg _) (mul_self_nonneg _)) (div_nonneg (mul_self_nonneg _) (mul_self_nonneg _)))
        (div_nonneg (mul_self_nonneg _) (mul_self_nonneg _))
    have hc : ∀ c : Prop, [Decidable c] → (if c then Real.exp (-(1 / 4) * ((p.x - q.x) * (p.x - q.x) / (long * long) +
        (p.y - q.y) * (p.y - q.y) / (long * long) + (p.z - q.z) * (p.z - q.z) / (vert * vert))) else 0) ≤ 1 := by
      intro c _
      split_ifs
      · exact Real.exp_le_one_iff.mpr (by linarith)
      · exact zero_le_one
    exact hc _
  · unfold mastWeight
    cases terrain <;> simp [hd]

/-- **C82** in part: at the first mast the velocity relaxes to the velocity measured there. -/
theorem mast_partial {terrain : Bool} {long vert damping scale : ℝ} (hd : 0 ≤ damping) (hl : long ≠ 0) (hv : vert ≠ 0) (hs : scale ≠ 0)
    (m : Mast) (rest : List Mast) (v : Vec ℝ) :
    metMast terrain long vert damping scale (m :: rest) m.pos v =
      some ⟨(m.vel.x - v.x) / scale, (m.vel.y - v.y) / scale, (m.vel.z - v.z) / scale⟩ := by
  unfold metMast
  simp only [List.getElem?_cons_zero]
  rw [if_neg (by simp [hl, hv, hs]), (mast_weight hd m.pos m.pos).2.2]
  congr 1
  ext <;> simp only <;> field_simp <;> ring

/-- A disagreement: rows after the first one do nothing. -/
theorem other_masts_ignored (terrain : Bool) (long vert damping scale : ℝ) (m : Mast) (rest : List Mast) (p v : Vec ℝ) :
    metMast terrain long vert damping scale (m :: rest) p v = metMast terrain long vert damping scale [m] p v := rfl

/-- A disagreement: the damping radius is compared with the square of the scaled distance, and without terrain it is not used at all. -/
theorem damping_radius_wrong : (∀ long vert d d' : ℝ, ∀ p q : Vec ℝ, mastWeight false long vert d p q = mastWeight false long vert d' p q) ∧
    mastWeight true 1 1 4 ⟨3, 0, 0⟩ ⟨0, 0, 0⟩ = 0 ∧ mastWeight true 1 1 9 ⟨3, 0, 0⟩ ⟨0, 0, 0⟩ ≠ 0 := by
  refine ⟨fun _ _ _ _ _ _ => rfl, ?_, ?_⟩
  · unfold mastWeight; norm_num
  · unfold mastWeight; norm_num

/-- **C82**: the mast gives a force unless there is no row or one of the three scales is zero; the force points from the velocity to
the measured one and is at most their difference over the time scale. -/
theorem mast_defined (terrain : Bool) (long vert damping scale : ℝ) (masts : List Mast) (p v : Vec ℝ) :
    (metMast terrain long vert damping scale masts p v = none ↔ masts = [] ∨ long = 0 ∨ vert = 0 ∨ scale = 0) ∧
    ∀ m rest, masts = m :: rest → 0 < scale → ∀ s, metMast terrain long vert damping scale masts p v = some s →
      ∃ w, 0 ≤ w ∧ w ≤ 1 / scale ∧ s.x = w * (m.vel.x - v.x) ∧ s.y = w * (m.vel.y - v.y) ∧ s.z = w * (m.vel.z - v.z) := by
  have hw : ∀ q, 0 ≤ mastWeight terrain long vert damping p q ∧ mastWeight terrain long vert damping p q ≤ 1 := by
    intro q
    unfold mastWeight
    dsimp only
    have n : 0 ≤ (p.x - q.x) * (p.x - q.x) / (long * long) + (p.y - q.y) * (p.y - q.y) / (long * long) +
        (p.z - q.z) * (p.z - q.z) / (vert * vert) := by
      have a := div_nonneg (mul_self_nonneg (p.x - q.x)) (mul_self_nonneg long)
      have b := div_nonneg (mul_self_nonneg (p.y - q.y)) (mul_self_nonneg long)
      have c := div_nonneg (mul_self_nonneg (p.z - q.z)) (mul_self_nonneg vert)
      linarith
    split_ifs
    · exact ⟨(Real.exp_pos _).le, Real.exp_le_one_iff.mpr (by linarith)⟩
    · exact ⟨le_rfl, zero_le_one⟩
    · exact ⟨(Real.exp_pos _).le, Real.exp_le_one_iff.mpr (by linarith)⟩
    · exact ⟨le_rfl, zero_le_one⟩
  constructor
  · unfold metMast
    cases masts with
    | nil => simp
    | cons m rest => simp only [List.getElem?_cons_zero]; simp; tauto
  · rintro m rest rfl hs s h
    unfold metMast at h
    simp only [List.getElem?_cons_zero] at h
    split_ifs at h
    have h := Option.some.inj h
    refine ⟨mastWeight terrain long vert damping p m.pos / scale, div_nonneg (hw _).1 hs.le,
      div_le_div_of_nonneg_right (hw _).2 hs.le, ?_, ?_, ?_⟩ <;> rw [← h] <;> dsimp only <;> ring

end AmrWind.Buoy
