import Mathlib.Analysis.ODE.ExistUnique
import Verif.Phys.CaseVel

/-! # In the vortex patch every particle is back after one period (property C103) -/

set_option linter.unusedSectionVars false

namespace AmrWind.Case

abbrev Pt := ℝ × ℝ × ℝ

/-- The prescribed velocity at a point and time. -/
noncomputable def vpVel (T t : ℝ) (p : Pt) : Pt :=
  (vpU p.1 p.2.1 p.2.2 * vpTime T t, vpV p.1 p.2.1 p.2.2 * vpTime T t, vpW p.1 p.2.1 p.2.2 * vpTime T t)

/-- Path of a particle over one period: it moves with the prescribed velocity. -/
def Path (T : ℝ) (P : ℝ → Pt) : Prop := ∀ t ∈ Set.Icc 0 T, HasDerivWithinAt P (vpVel T t (P t)) (Set.Icc 0 T) t

/-- Bounded by `M`, Lipschitz with constant `C`. -/
structure BL (M C : ℝ) (f : Pt → ℝ) : Prop where
  bd : ∀ p, |f p| ≤ M
  lip : ∀ p q, |f p - f q| ≤ C * ‖p - q‖

theorem BL.mul {M C N D : ℝ} {f g : Pt → ℝ} (hf : BL M C f) (hg : BL N D g) (hM : 0 ≤ M) (hN : 0 ≤ N) (hC : 0 ≤ C) :
    BL (M * N) (M * D + N * C) (fun p => f p * g p) where
  bd := fun p => by
    rw [abs_mul]
    exact mul_le_mul (hf.bd p) (hg.bd p) (abs_nonneg _) hM
  lip := fun p q => by
    have e : f p * g p - f q * g q = f p * (g p - g q) + (f p - f q) * g q := by ring
    rw [e]
    calc |f p * (g p - g q) + (f p - f q) * g q| ≤ |f p * (g p - g q)| + |(f p - f q) * g q| := abs_add_le _ _
      _ = |f p| * |g p - g q| + |f p - f q| * |g q| := by rw [abs_mul, abs_mul]
      _ ≤ M * (D * ‖p - q‖) + C * ‖p - q‖ * N :=
        add_le_add (mul_le_mul (hf.bd p) (hg.lip p q) (abs_nonneg _) hM)
          (mul_le_mul (hf.lip p q) (hg.bd q) (abs_nonneg _) (mul_nonneg hC (norm_nonneg _)))
      _ = (M * D + N * C) * ‖p - q‖ := by ring

theorem sin_lip (a b : ℝ) : |Real.sin a - Real.sin b| ≤ |a - b| := by
  have := Real.lipschitzWith_sin.dist_le_mul a b
  simpa [Real.dist_eq] using this

theorem bl_sin {c : ℝ} (hc : 0 ≤ c) (l : Pt → ℝ) (hl : ∀ p q, |l p - l q| ≤ ‖p - q‖) : BL 1 c (fun p => Real.sin (c * l p)) where
  bd := fun p => Real.abs_sin_le_one _
  lip := fun p q => by
    refine (sin_lip _ _).trans ?_
    rw [← mul_sub, abs_mul, abs_of_nonneg hc]
    exact mul_le_mul_of_nonneg_left (hl p q) hc

theorem px (p q : Pt) : |p.1 - q.1| ≤ ‖p - q‖ := norm_fst_le (p - q)
theorem py (p q : Pt) : |p.2.1 - q.2.1| ≤ ‖p - q‖ := (norm_fst_le (p - q).2).trans (norm_snd_le (p - q))
theorem pz (p q : Pt) : |p.2.2 - q.2.2| ≤ ‖p - q‖ := (norm_snd_le (p - q).2).trans (norm_snd_le (p - q))

/-- A product of four such sines. -/
theorem bl_four (f g h : Pt → ℝ) (hf : ∀ p q, |f p - f q| ≤ ‖p - q‖) (hg : ∀ p q, |g p - g q| ≤ ‖p - q‖) (hh : ∀ p q, |h p - h q| ≤ ‖p - q‖) :
    BL 1 (6 * Real.pi) (fun p => Real.sin (Real.pi * f p) * Real.sin (Real.pi * f p) * Real.sin (2 * Real.pi * g p) * Real.sin (2 * Real.pi * h p)) := by
  have h0 := Real.pi_pos.le
  have a := bl_sin h0 f hf
  have b := bl_sin (c := 2 * Real.pi) (by positivity) g hg
  have c := bl_sin (c := 2 * Real.pi) (by positivity) h hh
  have := ((a.mul a zero_le_one zero_le_one h0).mul b (by norm_num) zero_le_one (by positivity)).mul c (by norm_num) zero_le_one (by positivity)
  refine ⟨fun p => (this.bd p).trans (by norm_num), fun p q => (this.lip p q).trans (le_of_eq ?_)⟩
  ring

theorem time_le (T t : ℝ) : |vpTime T t| ≤ 1 := Real.abs_cos_le_one _

theorem vp_bl : BL 2 (12 * Real.pi) (fun p => vpU p.1 p.2.1 p.2.2) ∧ BL 2 (12 * Real.pi) (fun p => vpV p.1 p.2.1 p.2.2) ∧
    BL 2 (12 * Real.pi) (fun p => vpW p.1 p.2.1 p.2.2) := by
  have h0 := Real.pi_pos
  refine ⟨?_, ?_, ?_⟩
  · have := bl_four (fun p => p.1) (fun p => p.2.1) (fun p => p.2.2) px py pz
    constructor
    · intro p
      have e : vpU p.1 p.2.1 p.2.2 = 2 * (Real.sin (Real.pi * p.1) * Real.sin (Real.pi * p.1) * Real.sin (2 * Real.pi * p.2.1) * Real.sin (2 * Real.pi * p.2.2)) := by
        unfold vpU; ring
      rw [e, abs_mul, abs_two]
      have := this.bd p
      linarith
    · intro p q
      have e : vpU p.1 p.2.1 p.2.2 - vpU q.1 q.2.1 q.2.2 =
          2 * (Real.sin (Real.pi * p.1) * Real.sin (Real.pi * p.1) * Real.sin (2 * Real.pi * p.2.1) * Real.sin (2 * Real.pi * p.2.2) -
            Real.sin (Real.pi * q.1) * Real.sin (Real.pi * q.1) * Real.sin (2 * Real.pi * q.2.1) * Real.sin (2 * Real.pi * q.2.2)) := by
        unfold vpU; ring
      rw [e, abs_mul, abs_two]
      have := this.lip p q
      linarith
  · have := bl_four (fun p => p.2.1) (fun p => p.1) (fun p => p.2.2) py px pz
    constructor
    · intro p
      have e : vpV p.1 p.2.1 p.2.2 = -(Real.sin (Real.pi * p.2.1) * Real.sin (Real.pi * p.2.1) * Real.sin (2 * Real.pi * p.1) * Real.sin (2 * Real.pi * p.2.2)) := by
        unfold vpV; ring
      rw [e, abs_neg]
      exact (this.bd p).trans (by norm_num)
    · intro p q
      have e : vpV p.1 p.2.1 p.2.2 - vpV q.1 q.2.1 q.2.2 =
          -(Real.sin (Real.pi * p.2.1) * Real.sin (Real.pi * p.2.1) * Real.sin (2 * Real.pi * p.1) * Real.sin (2 * Real.pi * p.2.2) -
            Real.sin (Real.pi * q.2.1) * Real.sin (Real.pi * q.2.1) * Real.sin (2 * Real.pi * q.1) * Real.sin (2 * Real.pi * q.2.2)) := by
        unfold vpV; ring
      rw [e, abs_neg]
      refine (this.lip p q).trans ?_
      have := norm_nonneg (p - q)
      nlinarith
  · have := bl_four (fun p => p.2.2) (fun p => p.1) (fun p => p.2.1) pz px py
    constructor
    · intro p
      have e : vpW p.1 p.2.1 p.2.2 = -(Real.sin (Real.pi * p.2.2) * Real.sin (Real.pi * p.2.2) * Real.sin (2 * Real.pi * p.1) * Real.sin (2 * Real.pi * p.2.1)) := by
        unfold vpW; ring
      rw [e, abs_neg]
      exact (this.bd p).trans (by norm_num)
    · intro p q
      have e : vpW p.1 p.2.1 p.2.2 - vpW q.1 q.2.1 q.2.2 =
          -(Real.sin (Real.pi * p.2.2) * Real.sin (Real.pi * p.2.2) * Real.sin (2 * Real.pi * p.1) * Real.sin (2 * Real.pi * p.2.1) -
            Real.sin (Real.pi * q.2.2) * Real.sin (Real.pi * q.2.2) * Real.sin (2 * Real.pi * q.1) * Real.sin (2 * Real.pi * q.2.1)) := by
        unfold vpW; ring
      rw [e, abs_neg]
      refine (this.lip p q).trans ?_
      have := norm_nonneg (p - q)
      nlinarith

theorem scaled {M C a : ℝ} {f : Pt → ℝ} (h : BL M C f) (ha : |a| ≤ 1) (p q : Pt) : |f p * a| ≤ M ∧ |f p * a - f q * a| ≤ C * ‖p - q‖ := by
  constructor
  · rw [abs_mul]
    have := mul_le_mul (h.bd p) ha (abs_nonneg _) ((abs_nonneg _).trans (h.bd p))
    linarith
  · rw [← sub_mul, abs_mul]
    have := mul_le_mul (h.lip p q) ha (abs_nonneg _) ((abs_nonneg _).trans (h.lip p q))
    linarith

theorem vel_norm (T t : ℝ) (p : Pt) : ‖vpVel T t p‖ ≤ 2 := by
  obtain ⟨h1, h2, h3⟩ := vp_bl
  rw [Prod.norm_def, Prod.norm_def]
  exact max_le (scaled h1 (time_le T t) p p).1 (max_le (scaled h2 (time_le T t) p p).1 (scaled h3 (time_le T t) p p).1)

/-- A bound of the rate at which the velocity changes in space. -/
noncomputable def vpK : NNReal := ⟨12 * Real.pi, by positivity⟩

theorem vel_lip (T t : ℝ) : LipschitzWith vpK (vpVel T t) := by
  obtain ⟨h1, h2, h3⟩ := vp_bl
  refine LipschitzWith.of_dist_le_mul fun p q => ?_
  rw [dist_eq_norm, dist_eq_norm, Prod.norm_def, Prod.norm_def]
  exact max_le (scaled h1 (time_le T t) p q).2 (max_le (scaled h2 (time_le T t) p q).2 (scaled h3 (time_le T t) p q).2)

theorem time_reverse {T : ℝ} (hT : T ≠ 0) (t : ℝ) : vpTime T (T - t) = -vpTime T t := by
  unfold vpTime
  rw [show Real.pi * (T - t) / T = Real.pi - Real.pi * t / T by field_simp, Real.cos_pi_sub]

/-- The prescribed velocity runs backwards in the second half of the period. -/
theorem vel_reverse {T : ℝ} (hT : T ≠ 0) (t : ℝ) (p : Pt) : vpVel T (T - t) p = -vpVel T t p := by
  unfold vpVel
  rw [time_reverse hT]
  simp

/-- **C103**: through every point there is a path, and every path is at time `T - t` where it was at time `t`; in particular every particle is back
where it started after one period, so that the initial state is the exact solution then. -/
theorem vp_returns {T : ℝ} (hT : 0 < T) :
    (∀ p, ∃ P, P 0 = p ∧ Path T P) ∧ ∀ P, Path T P → (∀ t ∈ Set.Icc 0 T, P t = P (T - t)) ∧ P T = P 0 := by
  constructor
  · intro p
    have hPL : IsPicardLindelof (vpVel T) (tmin := 0) (tmax := T) ⟨0, le_rfl, hT.le⟩ p ⟨2 * T, by positivity⟩ 0 2 vpK := by
      refine ⟨fun t _ => (vel_lip T t).lipschitzOnWith, fun x _ => ?_, fun t _ x _ => vel_norm T t x, ?_⟩
      · apply Continuous.continuousOn
        unfold vpVel vpTime
        fun_prop
      · simp only [sub_zero, sub_self, NNReal.coe_zero, max_eq_left hT.le]
        exact le_rfl
    obtain ⟨P, h0, hP⟩ := hPL.exists_eq_forall_mem_Icc_hasDerivWithinAt₀
    exact ⟨P, h0, hP⟩
  · intro P hP
    have hc : ContinuousOn P (Set.Icc 0 T) := fun t ht => (hP t ht).continuousWithinAt
    have hd : ∀ t ∈ Set.Ioo 0 T, HasDerivAt P (vpVel T t (P t)) t := fun t ht =>
      (hP t ⟨ht.1.le, ht.2.le⟩).hasDerivAt (Icc_mem_nhds ht.1 ht.2)
    have hmap : ∀ t ∈ Set.Icc 0 T, T - t ∈ Set.Icc 0 T := fun t ht => ⟨by linarith [ht.2], by linarith [ht.1]⟩
    have key : Set.EqOn P (fun t => P (T - t)) (Set.Icc 0 T) := by
      refine ODE_solution_unique_of_mem_Icc (v := vpVel T) (s := fun _ => Set.univ) (K := vpK) (t₀ := T / 2)
        (fun t _ => (vel_lip T t).lipschitzOnWith) ⟨by linarith, by linarith⟩ hc hd (fun _ _ => Set.mem_univ _) ?_ ?_ (fun _ _ => Set.mem_univ _) ?_
      · exact hc.comp (continuous_const.sub continuous_id).continuousOn hmap
      · intro t ht
        have h1 := hd (T - t) ⟨by linarith [ht.2], by linarith [ht.1]⟩
        have h2 : HasDerivAt (fun s => T - s) (-1) t := by simpa using (hasDerivAt_id' t).const_sub T
        have := h1.scomp t h2
        refine this.congr_deriv ?_
        rw [vel_reverse hT.ne']
        simp
      · show P (T / 2) = P (T - T / 2)
        congr 1
        ring
    refine ⟨fun t ht => key ht, ?_⟩
    have := key (⟨hT.le, le_rfl⟩ : T ∈ Set.Icc 0 T)
    simpa using this

/-- The flow is not at rest. -/
example : (vpVel 4 0 (1 / 2, 1 / 4, 1 / 4)).1 = 2 := by
  unfold vpVel vpU vpTime
  rw [show Real.pi * (1 / 2) = Real.pi / 2 by ring, show 2 * Real.pi * (1 / 4) = Real.pi / 2 by ring]
  simp

/-- **C103**: with equal steps the velocity at the faces is prescribed for the middle of each step, from the second on; **disagreement**: otherwise, as the
previous step is used, for another time; and the velocity in the cells is that of the start of the step that has been made. -/
theorem vp_times (cur dt dtPrev : ℝ) : (vpFaceTime cur dtPrev = cur + dt / 2 ↔ dtPrev = dt) ∧ (vpCellTime cur dt = cur + dt ↔ dt = 0) := by
  unfold vpFaceTime vpCellTime
  exact ⟨⟨fun h => by linarith, fun h => by rw [h]; ring⟩, ⟨fun h => by linarith, fun h => by rw [h]; ring⟩⟩

end AmrWind.Case
