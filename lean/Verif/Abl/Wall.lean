import Verif.Abl.Props
import Mathlib.Analysis.Complex.ExponentialBounds

/-!
# C73: the wall models
-/

namespace AmrWind.Abl

open Real

theorem mapM_affine {α : Type*} {f : α → Option ℝ} {g : α → ℝ} : ∀ (l : List α), (∀ a ∈ l, f a = some (g a)) →
    l.mapM f = some (l.map g)
  | [], _ => rfl
  | a :: l, h => by
    rw [List.mapM_cons, h a (by simp), mapM_affine l fun b hb => h b (by simp [hb])]
    rfl

theorem sum_map_lin {α : Type*} (a b c : ℝ) (f g : α → ℝ) : ∀ l : List α,
    (l.map fun x => a * f x + b * g x + c).sum = a * (l.map f).sum + b * (l.map g).sum + c * l.length
  | [] => by simp
  | x :: l => by
    simp only [List.map_cons, List.sum_cons, List.length_cons, sum_map_lin a b c f g l]
    push_cast
    ring

/-- C73: over a plane of cells (wind component and wind speed) whose means are the ones the model was given, the mean
stress of the constant, Schumann and Moeng models is `utau²` times the mean wind direction. -/
theorem mean_stress (w : Wall) (hw : w = .constant ∨ w = .schumann ∨ w = .moeng) {m : MO} {um : ℝ} (hm : m.vmagMean ≠ 0)
    {cells : List (ℝ × ℝ)} (hu : (cells.map Prod.fst).sum = um * cells.length)
    (hs : (cells.map Prod.snd).sum = m.vmagMean * cells.length) :
    ∃ ts, cells.mapM (fun c => calcVel w m um c.1 c.2) = some ts ∧ ts.length = cells.length ∧
      ts.sum = m.utau ^ 2 * (um / m.vmagMean) * cells.length := by
  rcases hw with rfl | rfl | rfl
  · refine ⟨_, mapM_affine (g := fun c => 0 * c.1 + 0 * c.2 + um / m.vmagMean * (m.utau * m.utau)) cells fun c _ => ?_,
      List.length_map _, ?_⟩
    · unfold calcVel
      simp only
      rw [div?_some.mpr ⟨hm, rfl⟩, Option.map_some]
      congr 1
      ring
    · rw [sum_map_lin 0 0 _ Prod.fst Prod.snd]
      ring
  · refine ⟨_, mapM_affine (g := fun c => m.utau * m.utau / m.vmagMean * c.1 + 0 * c.2 + 0) cells fun c _ => ?_,
      List.length_map _, ?_⟩
    · unfold calcVel
      simp only
      rw [div?_some.mpr ⟨hm, rfl⟩, Option.map_some]
      congr 1
      ring
    · rw [sum_map_lin _ 0 0 Prod.fst Prod.snd, hu]
      field_simp
      ring
  · refine ⟨_, mapM_affine (g := fun c => m.utau * m.utau / m.vmagMean * c.1 +
        um * (m.utau * m.utau) / (m.vmagMean * m.vmagMean) * c.2 + -(um * (m.utau * m.utau) / m.vmagMean)) cells
        fun c _ => ?_, List.length_map _, ?_⟩
    · unfold calcVel
      simp only
      rw [div?_some.mpr ⟨mul_ne_zero hm hm, rfl⟩, Option.map_some]
      congr 1
      field_simp
      ring
    · rw [sum_map_lin _ _ _ Prod.fst Prod.snd, hu, hs]
      field_simp
      ring

/-- C73: the local model has the stress `utau²` in the direction of the wind of the cell, wherever the wind is at least
1e-6. -/
theorem local_stress {m : MO} {u v um vm : ℝ} (hs : 1 / 10 ^ 6 ≤ √(u * u + v * v)) :
    ∃ tx ty, calcVel .localModel m um u (√(u * u + v * v)) = some tx ∧ calcVel .localModel m vm v (√(u * u + v * v)) = some ty ∧
      √(tx ^ 2 + ty ^ 2) = m.utau ^ 2 ∧ tx * v = ty * u ∧ 0 ≤ tx * u + ty * v := by
  set s := √(u * u + v * v) with hsd
  have hpos : 0 < s := lt_of_lt_of_le (by norm_num) hs
  have hsq : s ^ 2 = u * u + v * v := Real.sq_sqrt (by nlinarith [mul_self_nonneg u, mul_self_nonneg v])
  have e : ∀ a b : ℝ, calcVel .localModel m a b s = some (b / s * (m.utau * m.utau)) := by
    intro a b
    unfold calcVel
    simp only
    rw [max_eq_left hs, div?_some.mpr ⟨hpos.ne', rfl⟩, Option.map_some]
  refine ⟨_, _, e um u, e vm v, ?_, ?_, ?_⟩
  · have : (u / s * (m.utau * m.utau)) ^ 2 + (v / s * (m.utau * m.utau)) ^ 2 = (m.utau ^ 2) ^ 2 := by
      have : u ^ 2 + v ^ 2 = s ^ 2 := by rw [hsq]; ring
      field_simp
      linear_combination (m.utau ^ 4) * this
    rw [this, Real.sqrt_sq (by positivity)]
  · ring
  · have : u / s * (m.utau * m.utau) * u + v / s * (m.utau * m.utau) * v = m.utau ^ 2 * s := by
      have : u ^ 2 + v ^ 2 = s ^ 2 := by rw [hsq]; ring
      field_simp
      linear_combination (m.utau ^ 2) * this
    rw [this]
    positivity

/-- C73: the stress always opposes the wind of the cell for the Schumann and Donelan models. -/
theorem stress_opposes {m : MO} {um vm u v : ℝ} (hm : 0 < m.vmagMean) (w : Wall) (hw : w = .schumann ∨ w = .donelan) :
    ∃ tx ty, calcVel w m um u (√(u * u + v * v)) = some tx ∧ calcVel w m vm v (√(u * u + v * v)) = some ty ∧
      tx * v = ty * u ∧ 0 ≤ tx * u + ty * v := by
  rcases hw with rfl | rfl
  · unfold calcVel
    simp only
    rw [div?_some.mpr ⟨hm.ne', rfl⟩, div?_some.mpr ⟨hm.ne', rfl⟩]
    refine ⟨_, _, rfl, rfl, ?_, ?_⟩
    · ring
    · have : u / m.vmagMean * (m.utau * m.utau) * u + v / m.vmagMean * (m.utau * m.utau) * v =
        m.utau ^ 2 * (u ^ 2 + v ^ 2) / m.vmagMean := by ring
      rw [this]
      positivity
  · unfold calcVel
    refine ⟨_, _, rfl, rfl, by ring, ?_⟩
    have h1 : 0 ≤ donelanCd m.vmagMean := by
      unfold donelanCd
      split_ifs with h1 h2
      · norm_num
      · have := h2.2; nlinarith
      · norm_num
    have h2 := Real.sqrt_nonneg (u * u + v * v)
    have : donelanCd m.vmagMean * u * √(u * u + v * v) * u + donelanCd m.vmagMean * v * √(u * u + v * v) * v =
      donelanCd m.vmagMean * √(u * u + v * v) * (u ^ 2 + v ^ 2) := by ring
    rw [this]
    positivity

/-- C73: the Donelan drag coefficient runs from 0.001 to 0.0024, without jumps and without decreasing. -/
theorem donelan_coefficient : (∀ s, 1 / 1000 ≤ donelanCd s ∧ donelanCd s ≤ 24 / 10 ^ 4) ∧ Monotone donelanCd ∧
    Continuous donelanCd ∧ (∀ s ≤ 5, donelanCd s = 1 / 1000) ∧ (∀ s ≥ 25, donelanCd s = 24 / 10 ^ 4) := by
  have e : donelanCd = fun s => 1 / 1000 + 7 / 10 ^ 5 * (min (max s 5) 25 - 5) := by
    funext s
    unfold donelanCd
    by_cases h1 : s ≤ 5
    · rw [if_pos h1, max_eq_right h1]; norm_num
    · have h1' := not_le.mp h1
      rw [if_neg h1, max_eq_left h1'.le]
      by_cases h2 : s < 25
      · rw [if_pos ⟨h2, h1'⟩, min_eq_left h2.le]
      · rw [if_neg (fun h => h2 h.1), min_eq_right (not_lt.mp h2)]; norm_num
  refine ⟨fun s => ?_, ?_, ?_, fun s hs => ?_, fun s hs => ?_⟩
  · rw [e]
    have h1 : (5 : ℝ) ≤ min (max s 5) 25 := le_min (le_max_right _ _) (by norm_num)
    have h2 : min (max s 5) 25 ≤ (25 : ℝ) := min_le_right _ _
    simp only
    constructor <;> linarith
  · rw [e]
    intro a b hab
    have : min (max a 5) 25 ≤ min (max b 5) (25 : ℝ) := min_le_min (max_le_max hab (le_refl _)) (le_refl _)
    simp only
    linarith
  · rw [e]; fun_prop
  · unfold donelanCd; rw [if_pos hs]
  · unfold donelanCd
    rw [if_neg (by linarith), if_neg (by intro h; linarith [h.1])]

/-- C73: over a plane of cells (wind speed and temperature) whose means are the ones the model was given, the mean
temperature gradient flux of the constant, local, Schumann and Moeng models is the similarity flux
`utau κ (θ_mean − θ_surface) / phi_h`.

Partial (C73). Missing: Donelan's type, whose flux has the opposite sign (`donelan_theta_sign`). -/
theorem mean_theta_partial (w : Wall) (hw : w ≠ .donelan) {m : MO} (hm : m.vmagMean ≠ 0) (hph : phiH m m.zref ≠ 0)
    {cells : List (ℝ × ℝ)} (hs : (cells.map Prod.fst).sum = m.vmagMean * cells.length)
    (ht : (cells.map Prod.snd).sum = m.thetaMean * cells.length) :
    ∃ ts, cells.mapM (fun c => calcTheta w m c.1 c.2) = some ts ∧ ts.length = cells.length ∧
      ts.sum = m.utau * m.kappa * (m.thetaMean - m.surfTemp) / phiH m m.zref * cells.length := by
  have hloc : ∀ c : ℝ × ℝ, (div? (m.utau * m.kappa) (phiH m m.zref)).map (· * (c.2 - m.surfTemp)) =
      some (0 * c.1 + m.utau * m.kappa / phiH m m.zref * c.2 + -(m.utau * m.kappa / phiH m m.zref * m.surfTemp)) := by
    intro c
    rw [div?_some.mpr ⟨hph, rfl⟩, Option.map_some]
    congr 1
    ring
  have hsum : (cells.map fun c : ℝ × ℝ => 0 * c.1 + m.utau * m.kappa / phiH m m.zref * c.2 +
      -(m.utau * m.kappa / phiH m m.zref * m.surfTemp)).sum =
      m.utau * m.kappa * (m.thetaMean - m.surfTemp) / phiH m m.zref * cells.length := by
    rw [sum_map_lin 0 _ _ Prod.fst Prod.snd, ht]
    ring
  cases w with
  | donelan => exact absurd rfl hw
  | constant =>
    refine ⟨_, mapM_affine (g := fun c => 0 * c.1 + 0 * c.2 + m.utau * m.kappa / phiH m m.zref * (m.thetaMean - m.surfTemp))
      cells fun c _ => ?_, List.length_map _, ?_⟩
    · unfold calcTheta
      simp only
      rw [div?_some.mpr ⟨hph, rfl⟩, Option.map_some]
      congr 1
      ring
    · rw [sum_map_lin 0 0 _ Prod.fst Prod.snd]
      ring
  | localModel => exact ⟨_, mapM_affine cells fun c _ => hloc c, List.length_map _, hsum⟩
  | schumann => exact ⟨_, mapM_affine cells fun c _ => hloc c, List.length_map _, hsum⟩
  | moeng =>
    refine ⟨_, mapM_affine (g := fun c => m.utau * m.kappa * (m.thetaMean - m.surfTemp) / (m.vmagMean * phiH m m.zref) * c.1 +
      m.utau * m.kappa / phiH m m.zref * c.2 + -(m.utau * m.kappa / phiH m m.zref * m.thetaMean))
      cells fun c _ => ?_, List.length_map _, ?_⟩
    · unfold calcTheta
      simp only
      rw [div?_some.mpr ⟨mul_ne_zero hm hph, rfl⟩, Option.map_some]
      congr 1
      field_simp
      ring
    · rw [sum_map_lin _ _ _ Prod.fst Prod.snd, hs, ht]
      field_simp
      ring

/-- C73: at a fixed point of the similarity iteration that similarity flux is minus the surface temperature flux, and the
mean stress squared is the drag law: a heated surface (positive flux) has a negative temperature gradient. -/
theorem fixed_point_flux {eps big : ℝ} {m : MO} {ph : ℝ} (h : iterate eps big m ph = some (m, ph, m.utau))
    (hq : eps < |m.surfTempFlux|) (hph : phiH m m.zref ≠ 0) :
    m.utau * m.kappa * (m.thetaMean - m.surfTemp) / phiH m m.zref = -m.surfTempFlux ∧
      m.utau * phiM m m.zref = m.kappa * m.vmagMean := by
  obtain ⟨-, -, hd, h1, h2, h3, -⟩ := iterate_spec h
  have hp : ph = psiH m.betaH m.gammaH (m.zref / m.obukhovLen) := h3 hq
  have hf : m.surfTempFlux * phiH m m.zref = (m.surfTemp - m.thetaMean) * (m.utau * m.kappa) := by
    unfold phiH
    rw [← hp]
    cases ha : m.alg with
    | heatFlux => exact (h1 ha).1.symm
    | surfaceTemperature => exact (h2 ha).1
  refine ⟨?_, ?_⟩
  · rw [div_eq_iff hph]
    linarith
  · exact (hd.1 hq).2

/-- A disagreement: Donelan's model has the opposite sign. With a heated surface in air of uniform temperature the four
other models give a negative gradient, Donelan's a positive one. -/
theorem donelan_theta_sign {m : MO} (hu : 0 < m.utau) (hk : 0 < m.kappa) (hph : 0 < phiH m m.zref) (hv : 0 < m.vmagMean)
    (ht : m.thetaMean < m.surfTemp) (hq : 0 < m.surfTempFlux) :
    (∀ w : Wall, w ≠ .donelan → ∃ t, calcTheta w m m.vmagMean m.thetaMean = some t ∧ t < 0) ∧
      ∀ s theta, ∃ t, calcTheta .donelan m s theta = some t ∧ 0 < t := by
  have hneg : m.utau * m.kappa / phiH m m.zref * (m.thetaMean - m.surfTemp) < 0 :=
    mul_neg_of_pos_of_neg (div_pos (mul_pos hu hk) hph) (by linarith)
  constructor
  · intro w hw
    cases w with
    | donelan => exact absurd rfl hw
    | constant => exact ⟨_, by unfold calcTheta; simp only; rw [div?_some.mpr ⟨hph.ne', rfl⟩, Option.map_some], hneg⟩
    | localModel => exact ⟨_, by unfold calcTheta; simp only; rw [div?_some.mpr ⟨hph.ne', rfl⟩, Option.map_some], hneg⟩
    | schumann => exact ⟨_, by unfold calcTheta; simp only; rw [div?_some.mpr ⟨hph.ne', rfl⟩, Option.map_some], hneg⟩
    | moeng =>
      refine ⟨_, by unfold calcTheta; simp only; rw [div?_some.mpr ⟨(mul_pos hv hph).ne', rfl⟩, Option.map_some], ?_⟩
      rw [sub_self, zero_mul, zero_add]
      exact mul_neg_of_pos_of_neg (div_pos (mul_pos hu hk) (mul_pos hv hph)) (mul_neg_of_neg_of_pos (by linarith) hv)
  · intro s theta
    unfold calcTheta
    cases m.alg with
    | heatFlux => exact ⟨_, rfl, hq⟩
    | surfaceTemperature => exact ⟨_, rfl, mul_pos (mul_pos (by norm_num) hv) (by linarith)⟩

/-- C73: the gradient put in the ghost cell is the stress times density over viscosity in open cells and zero below
terrain. -/
theorem ghost_spec {w : Wall} {m : MO} {um rho mu u v : ℝ} {isX : Bool} {t : ℝ} (hmu : mu ≠ 0)
    (ht : calcVel w m um (if isX then u else v) (√(u * u + v * v)) = some t) :
    velGhost w m um 0 rho mu u v isX = some (t * rho / mu) ∧ velGhost w m um 1 rho mu u v isX = some 0 := by
  unfold velGhost
  rw [ht, Option.bind_some, Option.bind_some, div?_some.mpr ⟨hmu, rfl⟩, div?_some.mpr ⟨hmu, rfl⟩]
  constructor
  · congr 1; ring
  · congr 1; ring

/-- C73: the same for the temperature. -/
theorem temp_ghost_spec {w : Wall} {m : MO} {rho alpha u v theta t : ℝ} (ha : alpha ≠ 0)
    (ht : calcTheta w m (√(u * u + v * v)) theta = some t) :
    tempGhost w m 0 rho alpha u v theta = some (t * rho / alpha) ∧ tempGhost w m 1 rho alpha u v theta = some 0 := by
  unfold tempGhost
  rw [ht, Option.bind_some, Option.bind_some, div?_some.mpr ⟨ha, rfl⟩, div?_some.mpr ⟨ha, rfl⟩]
  constructor
  · congr 1; ring
  · congr 1; ring

/-- The "mol" model: the stress has the friction velocity of the profile with the user's Obukhov length, in the direction
of the wind of the cell.

Partial (C73). Missing: cells without wind, where the stress is 0/0 (`mol_no_wind`). -/
theorem mol_stress_partial {m : MO} {z len u v : ℝ} (hl : len ≠ 0) (hs : 0 < √(u * u + v * v))
    (hd : Real.log (z / m.z0) - psiM m.betaM m.gammaM (z / len) ≠ 0) :
    ∃ tx ty, molStress m z len u v true = some tx ∧ molStress m z len u v false = some ty ∧ tx * v = ty * u ∧
      √(tx ^ 2 + ty ^ 2) = (√(u * u + v * v) * m.kappa / (Real.log (z / m.z0) - psiM m.betaM m.gammaM (z / len))) ^ 2 := by
  set s := √(u * u + v * v) with hsd
  have hsq : u ^ 2 + v ^ 2 = s ^ 2 := by
    rw [Real.sq_sqrt (by nlinarith [mul_self_nonneg u, mul_self_nonneg v])]; ring
  have e : ∀ b, molStress m z len u v b = some
      ((s * m.kappa / (Real.log (z / m.z0) - psiM m.betaM m.gammaM (z / len))) *
        (s * m.kappa / (Real.log (z / m.z0) - psiM m.betaM m.gammaM (z / len))) * (if b then u else v) / s) := by
    intro b
    unfold molStress
    rw [div?_some.mpr ⟨hl, rfl⟩, Option.bind_some, div?_some.mpr ⟨hd, rfl⟩, Option.bind_some, ← hsd,
      div?_some.mpr ⟨hs.ne', rfl⟩]
  refine ⟨_, _, e true, e false, ?_, ?_⟩
  · simp only [if_true, Bool.false_eq_true, if_false]; ring
  · simp only [if_true, Bool.false_eq_true, if_false]
    set c := s * m.kappa / (Real.log (z / m.z0) - psiM m.betaM m.gammaM (z / len)) with hc
    have : (c * c * u / s) ^ 2 + (c * c * v / s) ^ 2 = (c ^ 2) ^ 2 := by
      field_simp
      linear_combination c ^ 4 * hsq
    rw [this, Real.sqrt_sq (by positivity)]

/-- A disagreement: with the "mol" model a cell without wind is `0/0`. -/
theorem mol_no_wind (m : MO) (z len : ℝ) (b : Bool) : molStress m z len 0 0 b = none := by
  unfold molStress
  cases h : div? z len with
  | none => rfl
  | some a =>
    rw [Option.bind_some]
    cases h2 : div? (√(0 * 0 + 0 * 0) * m.kappa) (Real.log (z / m.z0) - psiM m.betaM m.gammaM a) with
    | none => rfl
    | some c =>
      rw [Option.bind_some]
      unfold div?
      rw [if_pos (by norm_num)]

/-- C73: the roughness lengths: one entry sets both, separate entries set each, and mixing them aborts. -/
theorem roughness_spec (z a t : ℝ) : roughness (some z) none none = some (z, z) ∧ roughness none (some a) (some t) = some (a, t) ∧
    roughness (some z) (some a) none = none ∧ roughness (some z) none (some t) = none ∧
    roughness none none none = some (1 / 10, 1 / 10) := by
  refine ⟨rfl, rfl, rfl, rfl, rfl⟩

/-- C73: the roughness lengths for every input: it aborts just if the common entry is there beside another one; else each length is its own
entry, or the common one, or a tenth of a metre. -/
theorem roughness_iff (same aero therm : Option ℝ) : (roughness same aero therm = none ↔ same.isSome ∧ (aero.isSome ∨ therm.isSome)) ∧
    ∀ z zt, roughness same aero therm = some (z, zt) → z = (aero.or same).getD (1 / 10) ∧ zt = (therm.or same).getD (1 / 10) := by
  cases same <;> cases aero <;> cases therm <;> simp [roughness] <;> (try (intro z zt h1 h2; exact ⟨h1.symm, h2.symm⟩))

/-- C73: the surface temperature is the initial one until the start time and then changes at the given rate per hour. -/
theorem surf_temp_rate (init rate tstart t : ℝ) : (t ≤ tstart → surfTempRate init rate tstart t = init) ∧
    (tstart ≤ t → surfTempRate init rate tstart t = init + rate * ((t - tstart) / 3600)) := by
  unfold surfTempRate
  constructor
  · intro h; rw [max_eq_right (by linarith)]; ring
  · intro h; rw [max_eq_left (by linarith)]; ring

/-- A fixed point of the iteration with a cooled surface: all of the quantities are of order one. -/
noncomputable def exFixed : MO :=
  ⟨1, Real.exp (-1), Real.exp (-1), 1, 1, 1, 1, 2, 0, 2, 1, -1, -1, 1, 1, 16, 16, .heatFlux⟩

example : iterate (1 / 10 ^ 15) 0 exFixed (-1) = some (exFixed, -1, 1) := by
  have e : Real.log (1 / Real.exp (-1)) = 1 := by
    rw [Real.log_div (by norm_num) (Real.exp_ne_zero _), Real.log_one, Real.log_exp]; norm_num
  have hs : surface exFixed (-1) = some exFixed := by
    unfold surface exFixed
    simp only [e]
    rw [div?_some.mpr ⟨by norm_num, rfl⟩, Option.map_some]
    norm_num
  have ho : obukhov (1 / 10 ^ 15) 0 exFixed = some (1, 1) := by
    unfold obukhov exFixed
    simp only
    rw [if_pos (by norm_num), div?_some.mpr ⟨by norm_num, rfl⟩, Option.bind_some, div?_some.mpr ⟨by norm_num, rfl⟩]
    norm_num
  unfold iterate
  rw [hs, Option.bind_some, ho, Option.bind_some]
  have hm : psiM exFixed.betaM exFixed.gammaM 1 = -1 := by unfold psiM exFixed; norm_num
  have hh : psiH exFixed.betaH exFixed.gammaH 1 = -1 := by unfold psiH exFixed; norm_num
  simp only [hm, hh]
  have hd : div? (exFixed.kappa * exFixed.vmagMean) (Real.log (exFixed.zref / exFixed.z0) - -1) = some 1 := by
    unfold exFixed
    simp only [e]
    exact div?_some.mpr ⟨by norm_num, by norm_num⟩
  rw [hd, Option.map_some]
  rfl

/-- A heated surface. -/
example : ∃ t, calcTheta .donelan { exMO with utau := 1, surfTempFlux := 1, surfTemp := 301 } 8 300 = some t ∧ 0 < t := by
  refine (donelan_theta_sign (m := { exMO with utau := 1, surfTempFlux := 1, surfTemp := 301 }) (by norm_num)
    (by norm_num [exMO]) ?_ (by norm_num [exMO]) (by norm_num [exMO]) (by norm_num)).2 8 300
  have h1 : 4 < Real.log 100 := by
    rw [Real.lt_log_iff_exp_lt (by norm_num)]
    have := Real.exp_one_lt_d9
    have e4 : Real.exp 4 = Real.exp 1 ^ 4 := by rw [← Real.exp_nat_mul]; norm_num
    rw [e4]
    calc Real.exp 1 ^ 4 < 2.7182818286 ^ 4 := pow_lt_pow_left₀ this (Real.exp_pos _).le (by norm_num)
      _ < 100 := by norm_num
  have h2 : psiH 16 5 10 < 0 := by unfold psiH; norm_num
  have h3 : psiH 16 5 (10 / 1) = psiH 16 5 10 := by norm_num
  unfold phiH
  simp only [exMO]
  rw [h3, show (10 : ℝ) / (1 / 10) = 100 by norm_num]
  linarith

example : ∃ q > 0, ∃ r, iterate (1 / 10 ^ 15) 0 { { exMO with utau := 1 } with surfTempFlux := q } 0 = some r ∧ r.1.utau < 0 :=
  unstable_iteration_negative (m := { exMO with utau := 1 }) (by constructor <;> norm_num [exMO]) (by norm_num [exMO]) rfl
    (by norm_num) 0

/-- Two cells with winds 1 and 3 and mean 2 meet the hypotheses of `mean_stress`. -/
example : ∃ ts, [((1 : ℝ), (1 : ℝ)), (3, 3)].mapM (fun c => calcVel .moeng { exFixed with vmagMean := 2 } 2 c.1 c.2) = some ts ∧
    ts.sum = 2 := by
  obtain ⟨ts, h1, -, h2⟩ := mean_stress .moeng (Or.inr (Or.inr rfl)) (m := { exFixed with vmagMean := 2 }) (um := 2)
    (by norm_num) (cells := [((1 : ℝ), (1 : ℝ)), (3, 3)]) (by norm_num) (by norm_num)
  refine ⟨ts, h1, ?_⟩
  rw [h2]
  norm_num [exFixed]

/-- The "mol" model: the heat flux is the one for which the user's length is the Obukhov length, `L = θ u*² / (κ g θ*)` with
`g = 9.81`, for the friction velocity of the stress; it has the sign of the length. -/
theorem mol_flux {m : MO} {z len u v theta : ℝ} (hl : len ≠ 0) (hk : 0 < m.kappa) (hs : 0 < √(u * u + v * v))
    (hd : 0 < Real.log (z / m.z0) - psiM m.betaM m.gammaM (z / len)) (ht : 0 < theta) :
    ∃ us q tx ty, 0 < us ∧ molTheta m z len u v theta = some q ∧ molStress m z len u v true = some tx ∧
      molStress m z len u v false = some ty ∧ tx ^ 2 + ty ^ 2 = us ^ 4 ∧
      us * (Real.log (z / m.z0) - psiM m.betaM m.gammaM (z / len)) = √(u * u + v * v) * m.kappa ∧
      q * (m.kappa * 9.81 * len) = theta * us ^ 3 ∧ (0 < q ↔ 0 < len) := by
  set d := Real.log (z / m.z0) - psiM m.betaM m.gammaM (z / len) with hdd
  set sp := √(u * u + v * v) with hsp
  have hsq : sp ^ 2 = u ^ 2 + v ^ 2 := by
    rw [hsp, Real.sq_sqrt (by have := mul_self_nonneg u; have := mul_self_nonneg v; linarith)]; ring
  have hkl : m.kappa * (981 / 100) * len ≠ 0 := mul_ne_zero (by positivity) hl
  have us0 : 0 < sp * m.kappa / d := by positivity
  refine ⟨sp * m.kappa / d, sp * m.kappa / d * (theta * (sp * m.kappa / d) * (sp * m.kappa / d) / (m.kappa * (981 / 100) * len)),
    sp * m.kappa / d * (sp * m.kappa / d) * u / sp, sp * m.kappa / d * (sp * m.kappa / d) * v / sp, us0, ?_, ?_, ?_, ?_, ?_, ?_, ?_⟩
  · unfold molTheta div?
    simp only [if_neg hl, Option.bind_some]
    rw [← hdd, ← hsp, if_neg hd.ne', Option.bind_some, if_neg hkl, Option.map_some]
  · unfold molStress div?
    simp only [if_neg hl, Option.bind_some]
    rw [← hdd, ← hsp, if_neg hd.ne', Option.bind_some, if_neg hs.ne', if_pos trivial]
  · unfold molStress div?
    simp only [if_neg hl, Option.bind_some]
    rw [← hdd, ← hsp, if_neg hd.ne', Option.bind_some, if_neg hs.ne']
    simp
  · have e : (sp * m.kappa / d * (sp * m.kappa / d) * u / sp) ^ 2 + (sp * m.kappa / d * (sp * m.kappa / d) * v / sp) ^ 2 =
        (sp * m.kappa / d) ^ 4 * ((u ^ 2 + v ^ 2) / sp ^ 2) := by field_simp
    rw [e, ← hsq, div_self (by positivity), mul_one]
  · field_simp
  · have : (m.kappa * 9.81 * len) = m.kappa * (981 / 100) * len := by norm_num
    rw [this]; field_simp
  · rw [mul_pos_iff_of_pos_left us0, div_pos_iff_of_pos_left (by positivity)]
    exact ⟨fun h => (mul_pos_iff_of_pos_left (by positivity)).mp h, fun h => by positivity⟩

end AmrWind.Abl
