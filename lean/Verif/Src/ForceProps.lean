import Mathlib.Tactic.FieldSimp
import Mathlib.Tactic.Ring
import Mathlib.Tactic.Linarith
import Mathlib.Tactic.LinearCombination
import Verif.Interp.Props
import Verif.Src.ForceModel

/-! # Theorems about the background forces (property C81) -/

set_option linter.unusedSectionVars false

namespace AmrWind.Force

open AmrWind AmrWind.Vs

/-! ## Coriolis and geostrophic forcing -/

/-- Orthogonal unit vectors. -/
structure Frame (e n : Vec ℝ) : Prop where
  ee : dot e e = 1
  nn : dot n n = 1
  en : dot e n = 0

/-- **C81**: the Coriolis force does no work, for any velocity and whatever the two directions given. -/
theorem coriolis_no_work (corfac lat : ℝ) (hz : Bool) (e n v : Vec ℝ) : dot (coriolis corfac lat hz e n v) v = 0 := by
  simp only [coriolis, dot, cross]
  cases hz <;> simp <;> ring

/-- **C81**: for orthogonal east and north it is `-2 Ω × v` with the rotation axis `Ω` at the latitude above the northern horizon. -/
theorem coriolis_spec (period lat : ℝ) {e n : Vec ℝ} (h : Frame e n) (v : Vec ℝ) :
    let axis : Vec ℝ := (Real.cos lat) • n + (Real.sin lat) • cross e n
    coriolis (corFactor period) lat false e n v = (-2 * (2 * Real.pi / period)) • cross axis v := by
  obtain ⟨hee, hnn, hen⟩ := h
  obtain ⟨ex, ey, ez⟩ := e
  obtain ⟨nx, ny, nz⟩ := n
  obtain ⟨vx, vy, vz⟩ := v
  simp only [dot] at hee hnn hen
  simp only [coriolis, corFactor, cross]
  generalize 2 * Real.pi / period = w
  generalize Real.sin lat = s
  generalize Real.cos lat = c
  ext
  · simp only [smul_x, add_x, smul_y, add_y, smul_z, add_z, Bool.false_eq_true, if_false]
    linear_combination (2 * w * c) * ((nz * vy - ny * vz) * hee + (ey * vz - ez * vy) * hen + 0 * hnn)
  · simp only [smul_x, add_x, smul_y, add_y, smul_z, add_z, Bool.false_eq_true, if_false]
    linear_combination (2 * w * c) * ((nx * vz - nz * vx) * hee + (ez * vx - ex * vz) * hen + 0 * hnn)
  · simp only [smul_x, add_x, smul_y, add_y, smul_z, add_z, Bool.false_eq_true, if_false]
    linear_combination (2 * w * c) * ((ny * vx - nx * vy) * hee + (ex * vy - ey * vx) * hen + 0 * hnn)

/-- East and north of a domain with the third axis upwards. -/
theorem frame_z {e n : Vec ℝ} (h : Frame e n) (hup : cross e n = ⟨0, 0, 1⟩) : e.z = 0 ∧ n.z = 0 ∧ n.x = -e.y ∧ n.y = e.x := by
  obtain ⟨hee, hnn, hen⟩ := h
  obtain ⟨ex, ey, ez⟩ := e
  obtain ⟨nx, ny, nz⟩ := n
  simp only [cross, dot, Vec.mk.injEq] at *
  obtain ⟨h1, h2, h3⟩ := hup
  have a : ez = 0 := by linear_combination (-ez) * h3 + (-ey) * h2 + (-ex) * h1
  have b : nz = 0 := by linear_combination (-nz) * h3 + (-ny) * h2 + (-nx) * h1
  subst a b
  refine ⟨rfl, rfl, ?_, ?_⟩
  · linear_combination (-nx) * hee + ex * hen + (-ey) * h3
  · linear_combination (-ny) * hee + ey * hen + ex * h3

/-- **C81**: in a domain whose third axis points up, whichever way east lies, the wind equal to the geostrophic wind feels no net force
from Coriolis and geostrophic forcing together, except, unless `is_horizontal` is set, the vertical part of the Coriolis force.

Partial (C81). Missing: the vertical part of the Coriolis force, which stays (`vertical_residual`). -/
theorem geostrophic_balance_partial (corfac lat : ℝ) (hz : Bool) {e n : Vec ℝ} (h : Frame e n) (hup : cross e n = ⟨0, 0, 1⟩) (u v : ℝ) :
    coriolis corfac lat hz e n ⟨u, v, 0⟩ + geostrophic corfac lat hz 1 u v =
      ⟨0, 0, if hz then 0 else corfac * (e.x * u + e.y * v) * Real.cos lat⟩ := by
  obtain ⟨h1, h2, h3, h4⟩ := frame_z h hup
  have hee := h.ee
  obtain ⟨ex, ey, ez⟩ := e
  obtain ⟨nx, ny, nz⟩ := n
  simp only at h1 h2 h3 h4
  subst h1 h2 h3 h4
  simp only [dot] at hee
  simp only [coriolis, geostrophic, cross]
  generalize Real.sin lat = s
  generalize Real.cos lat = c
  cases hz <;> ext <;> simp <;>
    first
      | linear_combination corfac * s * v * hee
      | linear_combination (-(corfac * s * u)) * hee
      | (rw [show ∀ a b : ℝ, a * a + b * b = a * a + b * b + 0 * 0 from fun a b => by ring, hee, mul_one])
      | skip

example : Frame (⟨3 / 5, 4 / 5, 0⟩ : Vec ℝ) ⟨-4 / 5, 3 / 5, 0⟩ ∧ cross (⟨3 / 5, 4 / 5, 0⟩ : Vec ℝ) ⟨-4 / 5, 3 / 5, 0⟩ = ⟨0, 0, 1⟩ :=
  ⟨⟨by norm_num [dot], by norm_num [dot], by norm_num [dot]⟩, by norm_num [cross]⟩

/-- A disagreement: without `is_horizontal` the geostrophic wind is pushed upwards. -/
theorem vertical_residual (lat u : ℝ) (hu : 0 < u) (hl : 0 < Real.cos lat) :
    0 < (coriolis (corFactor corPeriod) lat false ⟨1, 0, 0⟩ ⟨0, 1, 0⟩ ⟨u, 0, 0⟩ + geostrophic (corFactor corPeriod) lat false 1 u 0).z := by
  rw [geostrophic_balance_partial _ _ _ ⟨by norm_num [dot], by norm_num [dot], by norm_num [dot]⟩ (by norm_num [cross])]
  have : 0 < corFactor corPeriod := by unfold corFactor corPeriod; have := Real.pi_pos; positivity
  simp only [Bool.false_eq_true, if_false]
  have h1 : (1 : ℝ) * u + 0 * 0 = u := by ring
  rw [h1]
  positivity

/-- A disagreement: `east` and `north` are normalised but not checked to be orthogonal; at the pole, with a north vector halfway between
the two axes, a wind along `x` is not turned at right angles to the vertical as `-2Ω × v` is. -/
theorem skew_wrong : ∃ n : Vec ℝ, dot n n = 1 ∧ coriolis 2 (Real.pi / 2) false ⟨1, 0, 0⟩ n ⟨1, 0, 0⟩ ≠
    (-2 : ℝ) • cross ⟨0, 0, 1⟩ ⟨1, 0, 0⟩ := by
  refine ⟨⟨3 / 5, 4 / 5, 0⟩, by norm_num [dot], fun h => ?_⟩
  have := congrArg Vec.y h
  simp [coriolis, cross, smul_y] at this
  norm_num at this

/-- **C81**: the factor near water is in [0,1], is 0 in liquid and below the ramp, 1 above the ramp, and grows with height. -/
theorem ramp_spec {off ramp : ℝ} (hr : 0 ≤ ramp) (h : ℝ) :
    (∀ l, 0 ≤ phaseRamp off ramp h l ∧ phaseRamp off ramp h l ≤ 1) ∧ phaseRamp off ramp h true = 0 ∧
    (h < off → phaseRamp off ramp h false = 0) ∧ (off + ramp ≤ h → phaseRamp off ramp h false = 1) ∧
    ∀ h', h ≤ h' → phaseRamp off ramp h false ≤ phaseRamp off ramp h' false := by
  have hb : ∀ h, 0 ≤ phaseRamp off ramp h false ∧ phaseRamp off ramp h false ≤ 1 := by
    intro h
    unfold phaseRamp
    simp only [Bool.false_eq_true, if_false]
    have c1 := Real.cos_le_one (Real.pi * (h - off) / ramp)
    have c2 := Real.neg_one_le_cos (Real.pi * (h - off) / ramp)
    split_ifs <;> constructor <;> linarith
  have h0 : phaseRamp off ramp h true = 0 := by unfold phaseRamp; simp
  refine ⟨fun l => ?_, h0, fun hh => ?_, fun hh => ?_, fun h' hh => ?_⟩
  · cases l
    · exact hb h
    · rw [h0]; exact ⟨le_refl _, zero_le_one⟩
  · unfold phaseRamp; simp only [Bool.false_eq_true, if_false]
    rw [if_pos (by linarith), if_pos hh]
  · unfold phaseRamp; simp only [Bool.false_eq_true, if_false]
    rw [if_neg (not_lt.mpr hh)]
  · by_cases a : h < off
    · have : phaseRamp off ramp h false = 0 := by
        unfold phaseRamp; simp only [Bool.false_eq_true, if_false]
        rw [if_pos (by linarith), if_pos a]
      rw [this]; exact (hb h').1
    · by_cases b : off + ramp ≤ h'
      · have : phaseRamp off ramp h' false = 1 := by
          unfold phaseRamp; simp only [Bool.false_eq_true, if_false]
          rw [if_neg (not_lt.mpr b)]
        rw [this]; exact (hb h).2
      · push Not at a b
        have hp : 0 < ramp := by linarith
        unfold phaseRamp; simp only [Bool.false_eq_true, if_false]
        rw [if_pos (by linarith), if_neg (not_lt.mpr a), if_pos b, if_neg (by linarith)]
        have : Real.cos (Real.pi * (h' - off) / ramp) ≤ Real.cos (Real.pi * (h - off) / ramp) := by
          have pp := Real.pi_pos
          apply Real.cos_le_cos_of_nonneg_of_le_pi
          · exact div_nonneg (mul_nonneg pp.le (by linarith)) hr
          · rw [div_le_iff₀ hp]; nlinarith
          · rw [div_le_div_iff_of_pos_right hp]; nlinarith
        linarith

/-! ## Time tables -/

/-- **C81**: at a time of the table the target is the wind of that row. -/
theorem target_at_node {times speeds dirs : List ℝ} (hs : Interp.StrictSorted times) (hsp : Interp.Spaced times)
    (h1 : speeds.length = times.length) (h2 : dirs.length = times.length) (h3 : 2 ≤ times.length) {k : ℕ} {t s d : ℝ}
    (ht : times[k]? = some t) (hk : speeds[k]? = some s) (hd : dirs[k]? = some d) :
    target times speeds dirs t = some (s * Real.cos d, s * Real.sin d) := by
  have e1 := Interp.linear_at_node times speeds hs hsp 1 0 ⟨by omega, by norm_num⟩ h3 ht (v := s) (by simpa using hk)
  obtain ⟨m, e2⟩ := Interp.linear_angle_at_node times dirs hs hsp h2 h3 (ub := 2 * Real.pi) (by have := Real.pi_pos; positivity) ht hd
  unfold target
  rw [e1, e2]
  simp only [Option.bind_eq_bind, Option.bind_some, Real.cos_add_int_mul_two_pi, Real.sin_add_int_mul_two_pi]

/-- **C81**: the speed of the target is the speed interpolated in the table, whatever the direction. -/
theorem target_speed {times speeds dirs : List ℝ} {t u v : ℝ} (h : target times speeds dirs t = some (u, v)) :
    ∃ s, Interp.linear times speeds t 1 0 = some s ∧ u ^ 2 + v ^ 2 = s ^ 2 := by
  unfold target at h
  cases hs : Interp.linear times speeds t 1 0 with
  | none => rw [hs] at h; exact absurd h (by simp)
  | some s =>
    rw [hs] at h
    cases hd : Interp.linearAngle times dirs t (2 * Real.pi) with
    | none => rw [hd] at h; exact absurd h (by simp)
    | some d =>
      rw [hd] at h
      simp only [Option.bind_eq_bind, Option.bind_some, Option.some.injEq, Prod.mk.injEq] at h
      refine ⟨s, rfl, ?_⟩
      rw [← h.1, ← h.2]
      linear_combination s ^ 2 * Real.sin_sq_add_cos_sq d

/-- **C81**: a file with complete rows is read row by row. -/
theorem rows_complete {K : Type*} (rows : List (K × K × K)) (s d : Option K) :
    readRows (rows.flatMap fun r => [r.1, r.2.1, r.2.2]) s d = rows.map fun r => (r.1, some r.2.1, some r.2.2) := by
  induction rows generalizing s d with
  | nil => rfl
  | cons r rs ih =>
    obtain ⟨a, b, c⟩ := r
    simp only [List.flatMap_cons, List.cons_append, List.nil_append, List.map_cons, readRows, ih]

/-- A disagreement: a last row with the time alone is accepted and takes speed and direction from the row before it. -/
theorem rows_truncated {K : Type*} (t0 s d t1 : K) : readRows [t0, s, d, t1] none none = [(t0, some s, some d), (t1, some s, some d)] := rfl

/-! ## Mean velocity control -/

/-- **C81**: a step with the force of `ABLForcing` alone takes the mean velocity to the target, whatever the step size. -/
theorem abl_reaches {tgt mean dt : ℝ} (hdt : dt ≠ 0) : mean + dt * ablForce tgt mean dt = tgt := by
  unfold ablForce; field_simp; ring

/-- **C81**: near water only the fraction `phaseRamp` of the distance is covered. -/
theorem abl_ramped {tgt mean dt fac : ℝ} (hdt : dt ≠ 0) : tgt - (mean + dt * (fac * ablForce tgt mean dt)) = (1 - fac) * (tgt - mean) := by
  unfold ablForce; field_simp; ring

/-- **C81**: the forces recorded in every step, given to `BodyForce` as a time table, are applied again in the same steps.  `ts` are the
times of the steps, more than single precision epsilon apart; the table has at least two rows. -/
theorem record_replay {ts : List ℝ} (hs : ∀ (i : ℕ) (a b : ℝ), ts[i]? = some a → ts[i + 1]? = some b → 2 * Interp.eps < b - a)
    {fx fy : List ℝ} (hx : fx.length + 1 = ts.length) (hy : fy.length + 1 = ts.length) (hl : 3 ≤ ts.length)
    {times : List ℝ} (htl : times.length + 1 = ts.length)
    (hrec : ∀ (i : ℕ) (a b u v : ℝ), ts[i]? = some a → ts[i + 1]? = some b → fx[i]? = some u → fy[i]? = some v →
      ∃ w, ablRecord i 1 a b a u v = some (some (w, u, v)) ∧ times[i]? = some w)
    (i : ℕ) (a b u v : ℝ) (ha : ts[i]? = some a) (hb : ts[i + 1]? = some b) (hu : fx[i]? = some u) (hv : fy[i]? = some v)
    (mag : Vec ℝ) (om ht : ℝ) (p q r : List ℝ) :
    bodyForce .table mag om p q r times fx fy (List.replicate times.length 0) ht a b = some ⟨u, v, 0⟩ := by
  have hget : ∀ j a b, ts[j]? = some a → ts[j + 1]? = some b → times[j]? = some (1 / 2 * (a + b)) := by
    intro j a b ga gb
    have hj := (List.getElem?_eq_some_iff.mp gb).1
    obtain ⟨w, e, ew⟩ := hrec j a b _ _ ga gb (List.getElem?_eq_getElem (by omega)) (List.getElem?_eq_getElem (by omega))
    unfold ablRecord at e
    rw [if_neg (by norm_num), if_pos ⟨by simp, le_refl _⟩] at e
    simp only [Option.some.injEq, Prod.mk.injEq] at e
    rw [ew, e.1]
  have hep : (0 : ℝ) < Interp.eps := Interp.eps_pos
  have hstep : ∀ j a b, times[j]? = some a → times[j + 1]? = some b → Interp.eps < b - a := by
    intro j a b ga gb
    have hj := (List.getElem?_eq_some_iff.mp gb).1
    have t0 := List.getElem?_eq_getElem (l := ts) (i := j) (by omega)
    have t1 := List.getElem?_eq_getElem (l := ts) (i := j + 1) (by omega)
    have t2 := List.getElem?_eq_getElem (l := ts) (i := j + 1 + 1) (by omega)
    have e1 := hget j _ _ t0 t1
    have e2 := hget (j + 1) _ _ t1 t2
    rw [ga] at e1; rw [gb] at e2
    simp only [Option.some.injEq] at e1 e2
    have d1 := hs j _ _ t0 t1
    have d2 := hs (j + 1) _ _ t1 t2
    rw [e1, e2]; linarith
  have hsort : Interp.StrictSorted times := by
    unfold Interp.StrictSorted
    refine List.isChain_iff_pairwise.mp ?_
    rw [List.isChain_iff_getElem]
    intro j hj
    have := hstep j _ _ (List.getElem?_eq_getElem (by omega)) (List.getElem?_eq_getElem hj)
    linarith
  have hn := hget i a b ha hb
  have hi := (List.getElem?_eq_some_iff.mp hb).1
  have hlen : 2 ≤ times.length := by omega
  have mm : ∀ l : List ℝ, l.length = times.length → Interp.Matches times l 1 0 := fun l h => ⟨by omega, by norm_num⟩
  have lx := Interp.linear_at_node times fx hsort hstep 1 0 (mm _ (by omega)) hlen hn (v := u) (by simpa using hu)
  have ly := Interp.linear_at_node times fy hsort hstep 1 0 (mm _ (by omega)) hlen hn (v := v) (by simpa using hv)
  have lz := Interp.linear_at_node times (List.replicate times.length 0) hsort hstep 1 0 (mm _ (by simp)) hlen hn (v := 0)
    (by rw [one_mul, add_zero, List.getElem?_replicate, if_pos (by omega)])
  unfold bodyForce
  simp only [lx, ly, lz, Option.bind_eq_bind, Option.bind_some, one_mul]

/-- A disagreement: an output frequency of zero is accepted, and divides by zero. -/
theorem record_zero (step : ℤ) (t0 t1 start fx fy : ℝ) : ablRecord step 0 t0 t1 start fx fy = none := if_pos rfl

/-! ## Hurricane -/

/-- **C81**: with the same Coriolis factor, the gradient wind profile with no radial flow feels no net force (horizontal Coriolis force
included), and below the zero height with no vertical force. -/
theorem gradient_balance {V dVdR Vzh R f ht : ℝ} (hz : Vzh ≠ 0) (hR : R ≠ 0) :
    ∃ s, hurricane V dVdR Vzh R f ht 0 (V * (Vzh - ht) / Vzh) = some s ∧
      s + (⟨f * (V * (Vzh - ht) / Vzh), -(f * 0), 0⟩ : Vec ℝ) = ⟨0, 0, 0⟩ := by
  refine ⟨_, if_neg (by simp [hz, hR]), ?_⟩
  ext <;> simp <;> ring

/-- A disagreement: the default rotation periods of `HurricaneForcing` and `CoriolisForcing` differ, so by default the gradient wind is
not in balance. -/
theorem hurricane_default_period {V ht Vzh R : ℝ} (hV : V * (Vzh - ht) / Vzh ≠ 0) (hz : Vzh ≠ 0) (hR : R ≠ 0) :
    ∃ s, hurricane V 0 Vzh R (corFactor hurPeriod) ht 0 (V * (Vzh - ht) / Vzh) = some s ∧
      (s + coriolis (corFactor corPeriod) (Real.pi / 2) true ⟨1, 0, 0⟩ ⟨0, 1, 0⟩ ⟨0, V * (Vzh - ht) / Vzh, 0⟩).x ≠ 0 := by
  refine ⟨_, if_neg (by simp [hz, hR]), ?_⟩
  generalize V * (Vzh - ht) / Vzh = W at *
  have hne : corFactor corPeriod - corFactor hurPeriod ≠ 0 := by
    have : corFactor corPeriod - corFactor hurPeriod = Real.pi * (4 / (86164091 / 1000) - 4 / 86400) := by
      unfold corFactor corPeriod hurPeriod; ring
    rw [this]
    exact mul_ne_zero Real.pi_ne_zero (by norm_num)
  have : ∀ c f : ℝ, ((⟨0 * 0 / R + W * W / R - (f * W + W * W / R), -0 * (0 * (Vzh - ht) / Vzh) - 0 * W / R, 0⟩ : Vec ℝ) +
      coriolis c (Real.pi / 2) true ⟨1, 0, 0⟩ ⟨0, 1, 0⟩ ⟨0, W, 0⟩).x = (c - f) * W := by
    intro c f
    simp [coriolis, cross]; ring
  rw [this]
  exact mul_ne_zero hne hV

/-- A disagreement: the temperature forcing carries the radial gradient with the tangential mean velocity: with no radial flow there is a
source. -/
theorem temp_tangential : ∃ s : ℝ, hurricaneTemp (1 / 1000) 18000 0 30 = some s ∧ s ≠ 0 :=
  ⟨_, if_neg (by norm_num), by norm_num⟩

/-! ## Body force -/

/-- **C81**: which kind of body force an input selects. -/
theorem body_kind (file : Bool) : bodyKind none file = some (if file then .table else .constant) ∧
    bodyKind (some "uniform_constant") file = some .constant ∧ bodyKind (some "oscillatory") file = some .oscillatory ∧
    bodyKind (some "uniform_timetable") file = some .table ∧ bodyKind (some "height_varying") file = some .height ∧
    bodyKind (some "height-varying") file = some .height := by
  cases file <;> decide +kernel

/-- **C81**: any other type is refused. -/
theorem body_refused {ty : String} (h1 : ty ≠ "uniform_constant") (h2 : ty ≠ "oscillatory") (h3 : ty ≠ "uniform_timetable")
    (h4 : ty ≠ "height_varying") (h5 : ty ≠ "height-varying") (file : Bool) : bodyKind (some ty) file = none := by
  unfold bodyKind
  simp [h1, h2, h3, h4, h5]

/-- **C81**: an oscillating body force of angular frequency `om` is never larger than its magnitude and repeats after `2π/om`. -/
theorem oscillation {mag : Vec ℝ} {om : ℝ} (hom : om ≠ 0) (hts a b times c d e : List ℝ) (ht t0 t1 : ℝ) :
    ∃ v, bodyForce .oscillatory mag om hts a b times c d e ht t0 t1 = some v ∧ |v.x| ≤ |mag.x| ∧ |v.y| ≤ |mag.y| ∧ |v.z| ≤ |mag.z| ∧
      bodyForce .oscillatory mag om hts a b times c d e ht (t0 + 2 * Real.pi / om) (t1 + 2 * Real.pi / om) = some v := by
  refine ⟨_, rfl, ?_, ?_, ?_, ?_⟩
  · rw [abs_mul]; exact mul_le_of_le_one_left (abs_nonneg _) (Real.abs_cos_le_one _)
  · rw [abs_mul]; exact mul_le_of_le_one_left (abs_nonneg _) (Real.abs_cos_le_one _)
  · rw [abs_mul]; exact mul_le_of_le_one_left (abs_nonneg _) (Real.abs_cos_le_one _)
  · have : om * (1 / 2 * (t0 + 2 * Real.pi / om + (t1 + 2 * Real.pi / om))) = om * (1 / 2 * (t0 + t1)) + 2 * Real.pi := by
      field_simp; ring
    unfold bodyForce
    simp only [this, Real.cos_add_two_pi]

/-- **C81**: a height-varying body force takes the values of its table at the heights of the table, and has no vertical component. -/
theorem height_force {hts fxs fys : List ℝ} (hs : Interp.StrictSorted hts)
    (hgap : ∀ (i : ℕ) (a b : ℝ), hts[i]? = some a → hts[i + 1]? = some b → Interp.eps < b - a)
    (hlen : 2 ≤ hts.length) (hx : fxs.length = hts.length) (hy : fys.length = hts.length) {i : ℕ} {z u v : ℝ}
    (hz : hts[i]? = some z) (hu : fxs[i]? = some u) (hv : fys[i]? = some v) (mag : Vec ℝ) (om t0 t1 : ℝ) (times c d e : List ℝ) :
    bodyForce .height mag om hts fxs fys times c d e z t0 t1 = some ⟨u, v, 0⟩ := by
  have mm : ∀ l : List ℝ, l.length = hts.length → Interp.Matches hts l 1 0 := fun l h => ⟨by omega, by norm_num⟩
  have lx := Interp.linear_at_node hts fxs hs hgap 1 0 (mm _ hx) hlen hz (v := u) (by simpa using hu)
  have ly := Interp.linear_at_node hts fys hs hgap 1 0 (mm _ hy) hlen hz (v := v) (by simpa using hv)
  unfold bodyForce
  simp only [lx, ly, Option.bind_eq_bind, Option.bind_some]

/-- **C81**: a constant body force is its magnitude, everywhere and always. -/
theorem constant_force (mag : Vec ℝ) (om ht t0 t1 : ℝ) (hts a b times c d e : List ℝ) :
    bodyForce .constant mag om hts a b times c d e ht t0 t1 = some mag := by
  unfold bodyForce
  simp only [one_mul]

/-- C81: the temperature source of a hurricane falls linearly from the surface to zero at the height of the gradient. -/
theorem hurricane_temp_spec {dTdR dTzh : ℝ} (h : dTzh ≠ 0) (v : ℝ) : (∀ ht, ∃ s, hurricaneTemp dTdR dTzh ht v = some s ∧ s * dTzh = -(v * dTdR * (dTzh - ht))) ∧
    hurricaneTemp dTdR dTzh 0 v = some (-(v * dTdR)) ∧ hurricaneTemp dTdR dTzh dTzh v = some 0 := by
  unfold hurricaneTemp
  rw [if_neg h]
  refine ⟨fun ht => ⟨_, if_neg h, ?_⟩, ?_, ?_⟩
  · field_simp
  · congr 1; field_simp; ring
  · simp [h]

end AmrWind.Force
