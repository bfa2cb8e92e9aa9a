import Mathlib.LinearAlgebra.Matrix.Trace
import Mathlib.Algebra.Order.BigOperators.Ring.Finset
import Mathlib.Tactic.FinCases
import Verif.Fvm.Props
import Verif.Turb.LesModel

/-!
# C85: the subgrid models
-/

set_option linter.unusedSectionVars false

namespace AmrWind.Les

open AmrWind.Fvm Matrix

/-! ## Smagorinsky -/

theorem width_pos {dx dy dz : ℝ} (h1 : 0 < dx) (h2 : 0 < dy) (h3 : 0 < dz) : 0 < width dx dy dz := by
  unfold width; positivity

/-- C85: the filter width is the side of the cube with the volume of the cell. -/
theorem width_cubed {dx dy dz : ℝ} (h1 : 0 < dx) (h2 : 0 < dy) (h3 : 0 < dz) : width dx dy dz ^ 3 = dx * dy * dz := by
  unfold width
  rw [← Real.rpow_natCast, ← Real.rpow_mul (by positivity)]
  norm_num

/-- The Frobenius norm does not see rotations. -/
theorem frob_rotate {A Q : Matrix (Fin 3) (Fin 3) ℝ} (hQ : Qᵀ * Q = 1) : frob (Q * A * Qᵀ) = frob A := by
  have e : ∀ B : Matrix (Fin 3) (Fin 3) ℝ, frob B = trace (Bᵀ * B) := by
    intro B
    simp only [frob, trace, diag_apply, mul_apply, transpose_apply]
    rw [Finset.sum_comm]
    simp only [sq]
  rw [e, e, transpose_mul, transpose_mul, transpose_transpose]
  have : Q * (Aᵀ * Qᵀ) * (Q * A * Qᵀ) = Q * (Aᵀ * A * Qᵀ) := by
    have : Q * (Aᵀ * Qᵀ) * (Q * A * Qᵀ) = Q * (Aᵀ * (Qᵀ * Q) * A * Qᵀ) := by simp only [Matrix.mul_assoc]
    rw [this, hQ, Matrix.mul_one]
  rw [this, Matrix.trace_mul_comm]
  rw [Matrix.mul_assoc, hQ, Matrix.mul_one]

theorem S_rotate {L L' : Grad ℝ} {Q : Matrix (Fin 3) (Fin 3) ℝ} (h : L'.mat = Q * L.mat * Qᵀ) : L'.S = Q * L.S * Qᵀ := by
  simp only [Grad.S, h, transpose_mul, transpose_transpose, Matrix.mul_smul, Matrix.smul_mul, Matrix.mul_add, Matrix.add_mul,
    Matrix.mul_assoc]

/-- C85: the viscosity of Smagorinsky's model is `ρ (Cs ds)² √(2 S:S)`: never negative, zero just for rigid motions, and
the same in every rotated frame. -/
theorem smag_spec {Cs rho ds : ℝ} (hC : Cs ≠ 0) (hr : 0 < rho) (hd : 0 < ds) (L : Grad ℝ) :
    smagMu Cs rho ds L = rho * (Cs * ds) ^ 2 * Real.sqrt (2 * frob L.S) ∧ 0 ≤ smagMu Cs rho ds L ∧
    (smagMu Cs rho ds L = 0 ↔ L.S = 0) ∧
    ∀ (L' : Grad ℝ) (Q : Matrix (Fin 3) (Fin 3) ℝ), Qᵀ * Q = 1 → L'.mat = Q * L.mat * Qᵀ → smagMu Cs rho ds L' = smagMu Cs rho ds L := by
  have key : ∀ M : Grad ℝ, smagMu Cs rho ds M = rho * (Cs * ds) ^ 2 * Real.sqrt (2 * frob M.S) := by
    intro M
    obtain ⟨a, b, _⟩ := strain_spec M
    rw [← a, Real.sqrt_sq b]; unfold smagMu; ring
  obtain ⟨_, b, c⟩ := strain_spec L
  have p : 0 < rho * (Cs * Cs * (ds * ds)) := by
    have : 0 < Cs * Cs := mul_self_pos.mpr hC
    positivity
  refine ⟨key L, by unfold smagMu; positivity, ?_, ?_⟩
  · rw [← c]; unfold smagMu
    constructor
    · intro h; rcases mul_eq_zero.mp h with h | h
      · exact h
      · exact absurd h p.ne'
    · intro h; rw [h, zero_mul]
  · intro L' Q hQ h
    rw [key, key, S_rotate h, frob_rotate hQ]

/-- A quarter turn about the third axis: the hypotheses of `smag_spec` can be met. -/
example : (!![0, -1, 0; 1, 0, 0; 0, 0, 1] : Matrix (Fin 3) (Fin 3) ℝ)ᵀ * !![0, -1, 0; 1, 0, 0; 0, 0, 1] = 1 := by
  ext a b; fin_cases a <;> fin_cases b <;> simp [Matrix.mul_apply, Fin.sum_univ_three]

/-- C85: a model never reduces the molecular values, and for equal numbers the diffusivities are in the given ratios. -/
theorem eff_spec {mu alpha prt sc sct muT : ℝ} (hm : 0 ≤ muT) (hp : 0 < prt) (hs : 0 < sct) :
    muEff mu muT = mu + muT ∧ mu ≤ muEff mu muT ∧ alphaEff alpha prt muT = alpha + muT / prt ∧ alpha ≤ alphaEff alpha prt muT ∧
    scalarEff mu sc sct muT = mu / sc + muT / sct ∧ mu / sc ≤ scalarEff mu sc sct muT := by
  unfold muEff alphaEff scalarEff
  have h1 : 0 ≤ 1 / prt * muT := by positivity
  have h2 : 0 ≤ 1 / sct * muT := by positivity
  refine ⟨by ring, by linarith, by ring, by linarith, by ring, by linarith⟩

/-! ## One equation -/

/-- A cell as the code meets it: positive density, filter width, constant, and energy. -/
structure Cell84.Ok (c : Cell84) : Prop where
  rho : 0 < c.rho
  Ce : 0 < c.Ce
  ds : 0 < c.ds
  tke : 0 < c.tke

/-- C85: the length scale is positive, at most the filter width, equal to it without stable stratification, and under
stable stratification at most `0.76 √(k)/N`. -/
theorem length_spec {eps : Eps} {c : Cell84} (h : c.Ok) : 0 < c.lscale eps ∧ c.lscale eps ≤ c.ds ∧
    (c.strat ≤ 0 → c.lscale eps = c.ds) ∧
    (eps.1 * 1000000 < c.strat → c.lscale eps ≤ 76 / 100 * Real.sqrt c.tke / Real.sqrt c.strat) := by
  have he := eps.2
  have ht := h.tke
  have hds := h.ds
  unfold Cell84.lscale
  by_cases hs : c.strat > eps.1 * 1000000
  · have sp : 0 < c.strat := by nlinarith
    have := Real.sqrt_pos.mpr (div_pos ht sp)
    rw [if_pos hs]
    refine ⟨lt_min hds (by positivity), min_le_left _ _, fun h0 => absurd sp (not_lt.mpr h0), fun _ => ?_⟩
    refine le_trans (min_le_right _ _) (le_of_eq ?_)
    rw [Real.sqrt_div ht.le]; ring
  · rw [if_neg hs]
    exact ⟨hds, le_rfl, fun _ => rfl, fun h1 => absurd h1 hs⟩

/-- C85: stronger stable stratification never lengthens the scale. -/
theorem length_antitone {eps : Eps} {c c' : Cell84} (h : c.Ok) (e1 : c'.tke = c.tke) (e2 : c'.ds = c.ds) (hs : c.strat ≤ c'.strat) :
    c'.lscale eps ≤ c.lscale eps := by
  have he := eps.2
  unfold Cell84.lscale
  rw [e1, e2]
  by_cases h1 : c.strat > eps.1 * 1000000
  · have h2 : c'.strat > eps.1 * 1000000 := lt_of_lt_of_le h1 hs
    rw [if_pos h1, if_pos h2]
    apply min_le_min le_rfl
    have sp : 0 < c.strat := by nlinarith
    apply mul_le_mul_of_nonneg_left _ (by norm_num)
    exact Real.sqrt_le_sqrt (div_le_div_of_nonneg_left h.tke.le sp hs)
  · rw [if_neg h1]
    split_ifs
    · exact min_le_left _ _
    · exact le_rfl

theorem mut_pos {eps : Eps} {c : Cell84} (h : c.Ok) : 0 < c.muT eps := by
  obtain ⟨a, _⟩ := length_spec (eps := eps) h
  have := h.rho; have := h.Ce; have := Real.sqrt_pos.mpr h.tke
  unfold Cell84.muT; positivity

/-- C85: buoyancy production is the work of the subgrid heat flux `q = -(αₑ - α) ∇T` against gravity: exactly
`-β g·q`, so that the energy the closure of the temperature equation moves is the energy the subgrid equation gains; it
is a loss under stable stratification and a gain under unstable stratification; shear production is `μₜ |S|²`. -/
theorem production_spec {eps : Eps} {c : Cell84} (h : c.Ok) (alpha : ℝ) :
    (c.buoy eps = -c.beta * ∑ i, c.g i * (-(c.alphaEff eps alpha - alpha) * c.dT i)) ∧
    (0 ≤ c.strat → c.buoy eps ≤ 0) ∧ (c.strat ≤ 0 → 0 ≤ c.buoy eps) ∧
    c.shear eps = c.muT eps * (2 * frob c.L.S) ∧ 0 ≤ c.shear eps := by
  obtain ⟨a, b, _⟩ := length_spec (eps := eps) h
  have m := mut_pos (eps := eps) h
  have hds := h.ds
  have p : 0 < c.muT eps * (1 + 2 * c.lscale eps / c.ds) := by positivity
  refine ⟨?_, ?_, ?_, ?_, ?_⟩
  · unfold Cell84.buoy Cell84.alphaEff Cell84.strat
    rw [Fin.sum_univ_three]; ring
  · intro hs; unfold Cell84.buoy
    have := mul_nonneg p.le hs; linarith
  · intro hs; unfold Cell84.buoy
    have := mul_nonneg p.le (neg_nonneg.mpr hs); linarith
  · rw [← (strain_spec c.L).1]; unfold Cell84.shear; ring
  · have := (strain_spec c.L).2.1
    unfold Cell84.shear; positivity

/-- C85: the turbulent Prandtl number lies between 1/3 (neutral and unstable) and 1 (very stable). -/
theorem prandtl_spec {eps : Eps} {c : Cell84} (h : c.Ok) (alpha : ℝ) :
    c.muT eps ≤ c.alphaEff eps alpha - alpha ∧ c.alphaEff eps alpha - alpha ≤ 3 * c.muT eps ∧
    (c.strat ≤ 0 → c.alphaEff eps alpha - alpha = 3 * c.muT eps) := by
  obtain ⟨a, b, n, _⟩ := length_spec (eps := eps) h
  have m := mut_pos (eps := eps) h
  have hds := h.ds
  have r0 : 0 ≤ c.lscale eps / c.ds := by positivity
  have r1 : c.lscale eps / c.ds ≤ 1 := (div_le_one hds).mpr b
  have e : c.alphaEff eps alpha - alpha = c.muT eps * (1 + 2 * (c.lscale eps / c.ds)) := by unfold Cell84.alphaEff; ring
  rw [e]
  refine ⟨by nlinarith, by nlinarith, fun hs => ?_⟩
  rw [n hs, div_self hds.ne']; ring

/-- C85: the dissipation is positive; its coefficient lies between `0.19/0.93` of the given one and the given one, which it
equals when the length scale is the filter width. -/
theorem dissip_spec {eps : Eps} {c : Cell84} (h : c.Ok) {Ceps : ℝ} (hC : 0 < Ceps) :
    (∃ d, calcDissip (cepsLocal Ceps (c.lscale eps) c.ds) c.tke (c.lscale eps) = some d ∧ 0 < d) ∧
    19 / 93 * Ceps ≤ cepsLocal Ceps (c.lscale eps) c.ds ∧ cepsLocal Ceps (c.lscale eps) c.ds ≤ Ceps ∧
    (c.strat ≤ 0 → cepsLocal Ceps (c.lscale eps) c.ds = Ceps) := by
  obtain ⟨a, b, n, _⟩ := length_spec (eps := eps) h
  have hds := h.ds
  have ht := h.tke
  have r0 : 0 ≤ c.lscale eps / c.ds := by positivity
  have r1 : c.lscale eps / c.ds ≤ 1 := (div_le_one hds).mpr b
  have e : cepsLocal Ceps (c.lscale eps) c.ds = Ceps * (19 / 93 + 74 / 93 * (c.lscale eps / c.ds)) := by
    unfold cepsLocal; ring
  refine ⟨?_, by rw [e]; nlinarith, by rw [e]; nlinarith, fun hs => ?_⟩
  · refine ⟨_, if_neg (not_or.mpr ⟨not_lt.mpr ht.le, a.ne'⟩), ?_⟩
    have := Real.sqrt_pos.mpr ht
    have : 0 < cepsLocal Ceps (c.lscale eps) c.ds := by rw [e]; positivity
    positivity
  · rw [e, n hs, div_self hds.ne']; ring

/-- A cell is next to a wall model in some direction. -/
def AtWall (ws : List Wall) : Prop := ∃ w ∈ ws, w.modelLo = true ∧ w.tileLo = true ∧ w.first = true

/-- No wall model at an upper face of the tile. -/
def NoUpper (ws : List Wall) : Prop := ∀ w ∈ ws, ¬ (w.modelHi = true ∧ w.tileHi = true)

theorem fold_walls {Ceps tke l dg : ℝ} (hd : calcDissip (cepsGround Ceps) tke l = some dg) : ∀ (ws : List Wall) (s d : ℝ), NoUpper ws →
    (AtWall ws → ws.foldlM (fun s w => wallPass Ceps tke l w s) (s, d) = some (s + d - dg, dg)) ∧
    (¬ AtWall ws → ws.foldlM (fun s w => wallPass Ceps tke l w s) (s, d) = some (s, d))
  | [], s, d, _ => by
    refine ⟨fun h => ?_, fun _ => rfl⟩
    obtain ⟨w, hw, _⟩ := h; simp at hw
  | w :: ws, s, d, hu => by
    have hw : ¬ (w.modelHi = true ∧ w.tileHi = true) := hu w (by simp)
    have hus : NoUpper ws := fun x hx => hu x (by simp [hx])
    have hb : (w.modelHi && w.tileHi) = false := by
      rw [Bool.eq_false_iff]; intro h; exact hw (by simpa using h)
    by_cases h1 : w.modelLo = true ∧ w.tileLo = true ∧ w.first = true
    · have e : wallPass Ceps tke l w (s, d) = some (s + d - dg, dg) := by
        obtain ⟨a, b, c⟩ := h1
        simp [wallPass, a, b, c, hd, hb]
      have ih := fold_walls hd ws (s + d - dg) dg hus
      refine ⟨fun _ => ?_, fun h => absurd ⟨w, by simp, h1⟩ h⟩
      rw [List.foldlM_cons, e]
      by_cases h2 : AtWall ws
      · simpa using ih.1 h2
      · simpa using ih.2 h2
    · have e : wallPass Ceps tke l w (s, d) = some (s, d) := by
        have hb2 : (w.modelLo && w.tileLo && w.first) = false := by
          rw [Bool.eq_false_iff]; intro h; simp only [Bool.and_eq_true] at h; exact h1 ⟨h.1.1, h.1.2, h.2⟩
        simp [wallPass, hb2, hb]
      have ih := fold_walls hd ws s d hus
      rw [List.foldlM_cons, e]
      refine ⟨fun h => ih.1 ?_, fun h => ih.2 ?_⟩
      · obtain ⟨x, hx, h3⟩ := h
        rcases List.mem_cons.mp hx with rfl | hx
        · exact absurd h3 h1
        · exact ⟨x, hx, h3⟩
      · rintro ⟨x, hx, h3⟩; exact h ⟨x, by simp [hx], h3⟩

/-- C85: the source of the subgrid energy is shear plus buoyancy minus dissipation; in the first layer at a wall model,
whatever the number of walls that meet there, the dissipation uses the ground coefficient `3.9/0.93 Ceps` instead. -/
theorem source_spec {Ceps sh bu tke l ds src0 : ℝ} (hl : 0 < l) (ht : 0 ≤ tke) {ws : List Wall} (hu : NoUpper ws) :
    ∃ d, src84 Ceps sh bu tke l ds ws src0 = some (src0 + sh + bu - d, d) ∧
      (AtWall ws → d = 39 / 10 / (93 / 100) * Ceps * (Real.sqrt tke * tke / l)) ∧
      (¬ AtWall ws → d = cepsLocal Ceps l ds * (Real.sqrt tke * tke / l)) := by
  have hc : ∀ C, calcDissip C tke l = some (C * Real.sqrt tke * tke / l) := fun C =>
    if_neg (not_or.mpr ⟨not_lt.mpr ht, hl.ne'⟩)
  have hf := fold_walls (hc (cepsGround Ceps)) ws
    (src0 + (sh + bu - cepsLocal Ceps l ds * Real.sqrt tke * tke / l)) (cepsLocal Ceps l ds * Real.sqrt tke * tke / l) hu
  unfold src84
  rw [hc]
  by_cases hw : AtWall ws
  · refine ⟨cepsGround Ceps * Real.sqrt tke * tke / l, ?_, fun _ => ?_, fun h => absurd hw h⟩
    · simp only [Option.bind_eq_bind, Option.bind_some]
      rw [hf.1 hw]
      congr 2; ring
    · unfold cepsGround; ring
  · refine ⟨cepsLocal Ceps l ds * Real.sqrt tke * tke / l, ?_, fun h => absurd h hw, fun _ => by ring⟩
    simp only [Option.bind_eq_bind, Option.bind_some]
    rw [hf.2 hw]
    congr 2; ring

/-- A corner between two wall models. -/
example : AtWall [⟨true, false, true, false, true⟩, ⟨true, false, true, false, true⟩, ⟨false, false, true, true, true⟩] ∧
    NoUpper [⟨true, false, true, false, true⟩, ⟨true, false, true, false, true⟩, ⟨false, false, true, true, true⟩] := by
  refine ⟨⟨_, List.mem_cons_self, rfl, rfl, rfl⟩, ?_⟩
  simp [NoUpper]

/-- C85: a wall model on an upper face stops the run. -/
theorem upper_refused {Ceps sh bu tke l ds src0 : ℝ} {ws : List Wall} (h : ∃ w ∈ ws, w.modelHi = true ∧ w.tileHi = true) :
    src84 Ceps sh bu tke l ds ws src0 = none := by
  have key : ∀ (ws : List Wall), (∃ w ∈ ws, w.modelHi = true ∧ w.tileHi = true) → ∀ s : ℝ × ℝ,
      ws.foldlM (fun s w => wallPass Ceps tke l w s) s = none := by
    intro ws
    induction ws with
    | nil => rintro ⟨w, hw, _⟩; simp at hw
    | cons w ws ih =>
      rintro ⟨x, hx, h1, h2⟩ s
      rw [List.foldlM_cons]
      rcases List.mem_cons.mp hx with rfl | hx
      · have e : wallPass Ceps tke l x s = none := by
          unfold wallPass
          simp only [h1, h2, Bool.and_true, if_true]
          split_ifs <;> simp
        rw [e]; rfl
      · cases e : wallPass Ceps tke l w s with
        | none => rfl
        | some s' => simpa using ih ⟨x, hx, h1, h2⟩ s'
  unfold src84
  cases calcDissip (cepsLocal Ceps l ds) tke l with
  | none => rfl
  | some d => simpa using key ws h _

/-- C85: after the solve the energy is not negative, a positive value is kept and blanked cells hold the clip value. -/
theorem clip_spec {clip k : ℝ} (hc : 0 < clip) (b : Bool) : 0 ≤ tkeClip clip b k ∧ (0 ≤ k → tkeClip clip false k = k) ∧
    tkeClip clip true k = clip ∧ (k < 0 → tkeClip clip b k = clip) := by
  refine ⟨?_, fun h => ?_, rfl, fun h => ?_⟩
  · unfold tkeClip; dsimp only; split_ifs <;> linarith
  · simp [tkeClip, not_lt.mpr h]
  · cases b <;> simp [tkeClip, h]

/-- C85 fails for a cell without subgrid energy in stable stratification: zero is not clipped, the length scale vanishes and
the dissipation is 0/0. -/
theorem zero_energy_undefined {eps : Eps} {c : Cell84} (ht : c.tke = 0) (hd : 0 < c.ds) (hs : eps.1 * 1000000 < c.strat) (Ceps dt clip : ℝ) :
    tkeClip clip false c.tke = 0 ∧ c.lscale eps = 0 ∧ step84 eps Ceps dt c = none := by
  have hl : c.lscale eps = 0 := by
    unfold Cell84.lscale
    rw [if_pos hs, ht, zero_div, Real.sqrt_zero, mul_zero, min_eq_right hd.le]
  refine ⟨by simp [tkeClip, ht], hl, ?_⟩
  unfold step84 src84
  rw [hl]
  simp [calcDissip]

/-- A stable cell at rest: the hypotheses of `zero_energy_undefined` can be met. -/
example : ∃ (eps : Eps) (c : Cell84), c.tke = 0 ∧ 0 < c.ds ∧ eps.1 * 1000000 < c.strat :=
  ⟨⟨1 / 10 ^ 12, by norm_num⟩, ⟨1, 1 / 10, 1 / 300, ![0, 0, -9.81], ![0, 0, 0.01], 0, 10, ⟨0, 0, 0, 0, 0, 0, 0, 0, 0⟩⟩, rfl, by norm_num,
    by simp [Cell84.strat]; norm_num⟩

/-- What one step should do: the energy per mass changes by kinematic production `(μₜ/ρ)(|S|² - Prₜ⁻¹ N²)` minus
dissipation; nothing in it depends on the density. -/
noncomputable def kinematicStep (eps : Eps) (Ceps dt : ℝ) (c : Cell84) : ℝ :=
  c.tke + dt * (c.Ce * c.lscale eps * Real.sqrt c.tke * (2 * frob c.L.S - (1 + 2 * c.lscale eps / c.ds) * c.strat) -
    cepsLocal Ceps (c.lscale eps) c.ds * (Real.sqrt c.tke * c.tke / c.lscale eps))

theorem step84_eq {eps : Eps} {c : Cell84} (h : c.Ok) (Ceps dt : ℝ) : step84 eps Ceps dt c =
    some (c.tke + dt * (c.rho * (c.Ce * c.lscale eps * Real.sqrt c.tke * (2 * frob c.L.S - (1 + 2 * c.lscale eps / c.ds) * c.strat)) -
    cepsLocal Ceps (c.lscale eps) c.ds * (Real.sqrt c.tke * c.tke / c.lscale eps))) := by
  obtain ⟨a, b, _⟩ := length_spec (eps := eps) h
  obtain ⟨d, h1, _, h2⟩ := source_spec (Ceps := Ceps) (sh := c.shear eps) (bu := c.buoy eps) (ds := c.ds) (src0 := 0) a h.tke.le
    (ws := []) (by simp [NoUpper])
  have h3 := h2 (by simp [AtWall])
  unfold step84
  rw [h1]
  simp only [Option.bind_eq_bind, Option.bind_some, Option.pure_def]
  congr 1
  rw [(production_spec h 0).2.2.2.1, h3]
  unfold explicitStep Cell84.buoy Cell84.muT
  have := h.rho.ne'
  field_simp
  ring

/-- C85 (part): with unit density one step changes the energy by production minus dissipation. -/
theorem energy_step_partial {eps : Eps} {c : Cell84} (h : c.Ok) (h1 : c.rho = 1) (Ceps dt : ℝ) :
    step84 eps Ceps dt c = some (kinematicStep eps Ceps dt c) := by
  rw [step84_eq h, h1, one_mul]; rfl

/-- A sheared neutral cell of unit density. -/
noncomputable def demo84 (rho : ℝ) : Cell84 :=
  ⟨rho, 1 / 10, 1 / 300, ![0, 0, -9.81], ![0, 0, 0], 1, 10, ⟨0, 0, 1, 0, 0, 0, 0, 0, 0⟩⟩

theorem demo84_ok {rho : ℝ} (h : 0 < rho) : (demo84 rho).Ok := ⟨h, by norm_num [demo84], by norm_num [demo84], by norm_num [demo84]⟩

/-- C85 fails for other densities: the production holds the density and is multiplied by it again, so it grows with the
density while the dissipation does not: in a neutral sheared flow the code makes `ρ` times too much energy. -/
theorem density_wrong {eps : Eps} {Ceps dt rho : ℝ} (hr : 0 < rho) (h1 : rho ≠ 1) (hd : 0 < dt) :
    ∃ c : Cell84, c.Ok ∧ c.rho = rho ∧ step84 eps Ceps dt c ≠ some (kinematicStep eps Ceps dt c) := by
  refine ⟨demo84 rho, demo84_ok hr, rfl, ?_⟩
  rw [step84_eq (demo84_ok hr)]
  have hst : (demo84 rho).strat = 0 := by simp [demo84, Cell84.strat]
  have hl : (demo84 rho).lscale eps = 10 := by
    rw [((length_spec (eps := eps) (demo84_ok hr)).2.2.1) hst.le]; rfl
  have hf : frob (demo84 rho).L.S = 1 / 2 := by
    simp [frob, Grad.S, Grad.mat, demo84, Fin.sum_univ_three]; norm_num
  intro h
  have h := Option.some.inj h
  unfold kinematicStep at h
  rw [hst, hl, hf] at h
  have e1 : (demo84 rho).Ce = 1 / 10 := rfl
  have e2 : (demo84 rho).tke = 1 := rfl
  have e3 : (demo84 rho).rho = rho := rfl
  rw [e1, e2, e3, Real.sqrt_one] at h
  have : dt * (rho - 1) = 0 := by linarith
  rcases mul_eq_zero.mp this with h | h
  · exact hd.ne' h
  · exact h1 (by linarith)

/-- C85: where production balances dissipation in a neutral flow of unit density, the one-equation model is Smagorinsky's
with `Cs² = Ce √(Ce/Ceps)`. -/
theorem equilibrium {eps : Eps} {c : Cell84} (h : c.Ok) (h1 : c.rho = 1) (hs : c.strat = 0) {Ceps dt : ℝ} (hC : 0 < Ceps) (hdt : 0 < dt)
    (he : step84 eps Ceps dt c = some c.tke) : c.muT eps = smagMu (Real.sqrt (c.Ce * Real.sqrt (c.Ce / Ceps))) 1 c.ds c.L := by
  obtain ⟨_, _, n, _⟩ := length_spec (eps := eps) h
  have hl := n hs.le
  have hce := ((dissip_spec (eps := eps) h hC).2.2.2) hs.le
  rw [energy_step_partial h h1] at he
  have he := Option.some.inj he
  unfold kinematicStep at he
  rw [hce, hl, hs, mul_zero, sub_zero, ← (strain_spec c.L).1] at he
  have hds := h.ds
  have ht := h.tke
  have hCe := h.Ce
  have sk := Real.sqrt_pos.mpr ht
  set S := c.L.strain with hS
  have hSn : 0 ≤ S := (strain_spec c.L).2.1
  set s := Real.sqrt c.tke with hsdef
  have hss : s ^ 2 = c.tke := Real.sq_sqrt ht.le
  have e0 : dt * (c.Ce * c.ds * s * S ^ 2 - Ceps * (s * c.tke / c.ds)) = 0 := by linarith
  have e1 : c.Ce * c.ds * s * S ^ 2 - Ceps * (s * c.tke / c.ds) = 0 := by
    rcases mul_eq_zero.mp e0 with h | h
    · exact absurd h hdt.ne'
    · exact h
  have e2 : c.tke = c.Ce / Ceps * (c.ds * S) ^ 2 := by
    have : s * (c.Ce * c.ds * S ^ 2 - Ceps * c.tke / c.ds) = 0 := by rw [← e1]; ring
    rcases mul_eq_zero.mp this with h | h
    · exact absurd h sk.ne'
    · field_simp at h ⊢; linarith
  have e3 : s = Real.sqrt (c.Ce / Ceps) * (c.ds * S) := by
    rw [hsdef, e2, Real.sqrt_mul (by positivity), Real.sqrt_sq (by positivity)]
  unfold Cell84.muT smagMu
  rw [hl, h1, ← hsdef, e3, Real.mul_self_sqrt (by positivity), ← hS]
  ring

/-! ## AMD -/

section amd
variable {K : Type*} [Field K] [LinearOrder K] [IsStrictOrderedRing K]

/-- C85: the numerator is `tr (G D² Gᵀ S)` with `D` the cell sizes and `S` the rate of strain. -/
theorem amd_shear_spec (dx : Fin 3 → K) (G : Matrix (Fin 3) (Fin 3) K) :
    amdShear dx G = trace (G * diagonal (fun k => dx k ^ 2) * Gᵀ * ((1 / 2 : K) • (G + Gᵀ))) := by
  simp only [amdShear, trace, Fin.sum_univ_three, mul_apply, diag_apply, diagonal_apply, transpose_apply, Matrix.smul_apply, Matrix.add_apply, smul_eq_mul]
  simp
  ring

/-- C85: the viscosity is positive and just the floor for a uniform flow, a rigid rotation and any parallel shear flow (one
velocity component varying across itself), where there is nothing to dissipate. -/
theorem amd_quiet {eps C : K} (he : 0 < eps) (dx : Fin 3 → K) (G : Fin 3 → Fin 3 → K)
    (h : (∀ i j, G i j = -G j i) ∨ ∃ a b, a ≠ b ∧ ∀ i j, ¬ (i = a ∧ j = b) → G i j = 0) :
    amdBase eps C dx G = eps * 10 := by
  have key : amdShear dx G = 0 := by
    rcases h with h | ⟨a, b, hab, h⟩
    · unfold amdShear
      apply Finset.sum_eq_zero; intro i _; apply Finset.sum_eq_zero; intro j _; apply Finset.sum_eq_zero; intro k _
      rw [h i j]; ring
    · unfold amdShear
      apply Finset.sum_eq_zero; intro i _; apply Finset.sum_eq_zero; intro j _; apply Finset.sum_eq_zero; intro k _
      by_cases hi : i = a ∧ k = b
      · by_cases hj : j = a ∧ k = b
        · have e1 : G i j = 0 := h i j (fun hh => hab (hj.1.symm.trans hh.2))
          have e2 : G j i = 0 := h j i (fun hh => hab (hi.1.symm.trans hh.2))
          rw [e1, e2]; ring
        · rw [h j k hj]; ring
      · rw [h i k hi]; ring
  unfold amdBase
  rw [key, mul_zero, zero_div]
  exact max_eq_left (by positivity)

/-- The temperature acts on the viscosity only through its departure from the horizontal mean. -/
theorem amd_mean_stratification (eps C beta : K) (g dx : Fin 3 → K) (G : Fin 3 → Fin 3 → K) (n : Fin 3) (dTm : K) (dT : Fin 3 → K)
    (h : ∀ i, dT i = if i = n then dTm else 0) : amdMu eps C beta g dx G dT n dTm = amdBase eps C dx G := by
  have : amdBuoy dx G dT n dTm = 0 := by
    unfold amdBuoy
    apply Finset.sum_eq_zero; intro i _
    rw [h i]; ring
  unfold amdMu amdBase
  rw [this, zero_mul, add_zero, mul_comm (amdShear dx G)]

/-- C85: the viscosity and the diffusivity are positive. -/
theorem amd_positive {eps : K} (he : 0 < eps) (C beta rho : K) (hr : 0 < rho) (g dx : Fin 3 → K) (G : Fin 3 → Fin 3 → K) (n : Fin 3)
    (dTm : K) (dT : Fin 3 → K) (alpha : K) : 0 < amdMu eps C beta g dx G dT n dTm ∧ 0 < amdBase eps C dx G ∧
    0 < amdAlphaEff eps C rho alpha dx G dT := by
  refine ⟨lt_of_lt_of_le (by positivity) (le_max_left _ _), lt_of_lt_of_le (by positivity) (le_max_left _ _), ?_⟩
  exact mul_pos hr (lt_of_lt_of_le (by positivity) (le_max_left _ _))

/-- C85: the diffusivity of heat is the rate at which the flow steepens the temperature gradient, relative to it:
`-C Σ (∂ₖuᵢ)(∂ᵢT)(∂ₖT)dxₖ² / |∇T|²`, unchanged when the temperature is measured in other units, and at its floor where
the gradient is not steepened. -/
theorem amd_heat_spec {eps C : K} (he : 0 < eps) (dx : Fin 3 → K) (G : Fin 3 → Fin 3 → K) (dT : Fin 3 → K) :
    (eps * 10 ≤ ∑ i, dT i ^ 2 → amdThermal eps C dx G dT =
      max (eps * 10) (-C * (∑ i, ∑ k, dT i * (G i k * (dx k ^ 2 * dT k))) / ∑ i, dT i ^ 2)) ∧
    (∀ a : K, eps * 10 ≤ ∑ i, dT i ^ 2 → eps * 10 ≤ ∑ i, (a * dT i) ^ 2 → amdThermal eps C dx G (fun i => a * dT i) = amdThermal eps C dx G dT) ∧
    ((∀ i, dT i = 0) → amdThermal eps C dx G dT = eps * 10) := by
  have first : ∀ dT : Fin 3 → K, eps * 10 ≤ ∑ i, dT i ^ 2 → amdThermal eps C dx G dT =
      max (eps * 10) (-C * (∑ i, ∑ k, dT i * (G i k * (dx k ^ 2 * dT k))) / ∑ i, dT i ^ 2) := by
    intro dT h
    have e : (∑ i, dT i * dT i) = ∑ i, dT i ^ 2 := by simp only [sq]
    have e2 : amdHeat dx G dT = ∑ i, ∑ k, dT i * (G i k * (dx k ^ 2 * dT k)) := by
      unfold amdHeat
      refine Finset.sum_congr rfl fun i _ => Finset.sum_congr rfl fun k _ => by ring
    unfold amdThermal
    rw [e, max_eq_right h, e2, mul_comm (∑ i, ∑ k, dT i * (G i k * (dx k ^ 2 * dT k)))]
  refine ⟨first dT, ?_, ?_⟩
  · intro a h1 h2
    rw [first _ h2, first _ h1]
    have e1 : (∑ i, (a * dT i) ^ 2) = a ^ 2 * ∑ i, dT i ^ 2 := by
      rw [Finset.mul_sum]; exact Finset.sum_congr rfl fun i _ => by ring
    have e2 : (∑ i, ∑ k, a * dT i * (G i k * (dx k ^ 2 * (a * dT k)))) = a ^ 2 * ∑ i, ∑ k, dT i * (G i k * (dx k ^ 2 * dT k)) := by
      rw [Finset.mul_sum]; refine Finset.sum_congr rfl fun i _ => ?_
      rw [Finset.mul_sum]; exact Finset.sum_congr rfl fun k _ => by ring
    rw [e1, e2]
    have ha : a ^ 2 ≠ 0 := by
      intro h
      rw [e1, h, zero_mul] at h2
      have : 0 < eps * 10 := by positivity
      exact absurd h2 (not_le.mpr this)
    congr 1
    rw [show -C * (a ^ 2 * ∑ i, ∑ k, dT i * (G i k * (dx k ^ 2 * dT k))) = a ^ 2 * (-C * ∑ i, ∑ k, dT i * (G i k * (dx k ^ 2 * dT k))) by ring,
      mul_div_mul_left _ _ ha]
  · intro h
    unfold amdThermal amdHeat
    simp only [h]
    simp [he.le]

/-- C85 fails for the heat equation of AMD: the molecular diffusivity is not part of the effective one; air at rest
conducts at the floor, which is below the molecular value whenever that exceeds `10 ε ρ`. -/
theorem amd_no_conduction {eps C rho alpha : K} (he : 0 < eps) (ha : rho * (eps * 10) < alpha) (dx : Fin 3 → K)
    (dT : Fin 3 → K) : amdAlphaEff eps C rho alpha dx (fun _ _ => 0) dT < alpha := by
  have : amdThermal eps C dx (fun _ _ => 0) dT = eps * 10 := by
    unfold amdThermal amdHeat
    simp [he.le]
  unfold amdAlphaEff; rw [this]; exact ha

/-- C85: with a temperature the production of the viscosity is that of the shear plus that of the buoyancy: the flux of the
departure from the mean temperature along the vertical, weighed by the squared sizes of the cell and by `C β |g|`. -/
theorem amd_formula {eps C beta : K} (he : 0 < eps) (g dx : Fin 3 → K) (G : Fin 3 → Fin 3 → K) (dT : Fin 3 → K) (n : Fin 3) (dTm : K)
    (hd : eps * 10 ≤ ∑ i, ∑ j, G i j ^ 2)
    (hp : eps * 10 * (∑ i, ∑ j, G i j ^ 2) ≤ C * beta * |g n| * (∑ i, G n i * (dT i - if i = n then dTm else 0) * dx i ^ 2)
      - C * ∑ i, ∑ j, ∑ k, G i k * G j k * dx k ^ 2 * ((G i j + G j i) / 2)) :
    amdMu eps C beta g dx G dT n dTm * (∑ i, ∑ j, G i j ^ 2) =
      C * beta * |g n| * (∑ i, G n i * (dT i - if i = n then dTm else 0) * dx i ^ 2)
      - C * ∑ i, ∑ j, ∑ k, G i k * G j k * dx k ^ 2 * ((G i j + G j i) / 2) := by
  have e1 : amdDenom G = ∑ i, ∑ j, G i j ^ 2 := by simp only [amdDenom, sq]
  have e2 : amdShear dx G = ∑ i, ∑ j, ∑ k, G i k * G j k * dx k ^ 2 * ((G i j + G j i) / 2) := by
    unfold amdShear
    refine Finset.sum_congr rfl fun i _ => Finset.sum_congr rfl fun j _ => Finset.sum_congr rfl fun k _ => by ring
  have e3 : amdBuoy dx G dT n dTm = ∑ i, G n i * (dT i - if i = n then dTm else 0) * dx i ^ 2 := by
    unfold amdBuoy
    refine Finset.sum_congr rfl fun i _ => by ring
  rw [← e1, ← e2, ← e3] at hp ⊢
  rw [← e1] at hd
  have pos : 0 < amdDenom G := lt_of_lt_of_le (by positivity) hd
  unfold amdMu
  rw [max_eq_right hd, max_eq_right]
  · rw [div_mul_cancel₀ _ pos.ne']; ring
  · rw [le_div_iff₀ pos]
    refine hp.trans (le_of_eq ?_)
    ring

/-- A column of air sinking through a departure of the temperature. -/
example : (1 / 2 ^ 52 * 10 : ℚ) ≤ ∑ i : Fin 3, ∑ j : Fin 3, (if i = 2 ∧ j = 0 then (1 : ℚ) else 0) ^ 2 ∧
    (1 / 2 ^ 52 * 10 : ℚ) * (∑ i : Fin 3, ∑ j : Fin 3, (if i = 2 ∧ j = 0 then (1 : ℚ) else 0) ^ 2) ≤
      1 / 3 * (1 / 300) * |(![0, 0, -10] : Fin 3 → ℚ) 2| *
        (∑ i : Fin 3, (if (2 : Fin 3) = 2 ∧ i = 0 then (1 : ℚ) else 0) * ((![1, 0, 0] : Fin 3 → ℚ) i - if i = 2 then 0 else 0) * (2 : ℚ) ^ 2)
      - 1 / 3 * ∑ i : Fin 3, ∑ j : Fin 3, ∑ k : Fin 3, (if i = 2 ∧ k = 0 then (1 : ℚ) else 0) * (if j = 2 ∧ k = 0 then (1 : ℚ) else 0) * 2 ^ 2 *
        (((if i = 2 ∧ j = 0 then (1 : ℚ) else 0) + (if j = 2 ∧ i = 0 then (1 : ℚ) else 0)) / 2) := by decide +kernel

/-- Air with a Prandtl number of 0.7. -/
example : (1 : ℚ) * (1 / 2 ^ 52 * 10) < 1 / 10 ^ 5 := by norm_num

end amd

/-- C85: in a grid of cubes the viscosity does not depend on the orientation of the axes. -/
theorem amd_rotation {eps C h : ℝ} (G Q : Matrix (Fin 3) (Fin 3) ℝ) (hQ : Qᵀ * Q = 1) :
    amdBase eps C (fun _ => h) (Q * G * Qᵀ) = amdBase eps C (fun _ => h) G := by
  have d : ∀ A : Matrix (Fin 3) (Fin 3) ℝ, amdDenom A = frob A := by intro A; simp only [amdDenom, frob, sq]
  have s : ∀ A : Matrix (Fin 3) (Fin 3) ℝ, amdShear (fun _ => h) A = h ^ 2 * trace (A * Aᵀ * ((1 / 2 : ℝ) • (A + Aᵀ))) := by
    intro A
    rw [amd_shear_spec]
    have : diagonal (fun _ : Fin 3 => h ^ 2) = (h ^ 2) • (1 : Matrix (Fin 3) (Fin 3) ℝ) := by
      ext i j; simp [diagonal_apply, one_apply]
    rw [this, Matrix.mul_smul A, Matrix.mul_one, Matrix.smul_mul, Matrix.smul_mul, trace_smul, smul_eq_mul]
  have t : trace ((Q * G * Qᵀ) * (Q * G * Qᵀ)ᵀ * ((1 / 2 : ℝ) • ((Q * G * Qᵀ) + (Q * G * Qᵀ)ᵀ))) =
      trace (G * Gᵀ * ((1 / 2 : ℝ) • (G + Gᵀ))) := by
    have e1 : (Q * G * Qᵀ)ᵀ = Q * Gᵀ * Qᵀ := by
      rw [transpose_mul, transpose_mul, transpose_transpose, Matrix.mul_assoc]
    have c : ∀ A B : Matrix (Fin 3) (Fin 3) ℝ, (Q * A * Qᵀ) * (Q * B * Qᵀ) = Q * (A * B) * Qᵀ := by
      intro A B
      have : (Q * A * Qᵀ) * (Q * B * Qᵀ) = Q * A * (Qᵀ * Q) * B * Qᵀ := by simp only [Matrix.mul_assoc]
      rw [this, hQ, Matrix.mul_one, Matrix.mul_assoc Q A B]
    have e2 : (1 / 2 : ℝ) • (Q * G * Qᵀ + Q * Gᵀ * Qᵀ) = Q * ((1 / 2 : ℝ) • (G + Gᵀ)) * Qᵀ := by
      rw [Matrix.mul_smul, Matrix.smul_mul, Matrix.mul_add, Matrix.add_mul]
    rw [e1, e2, c, c, Matrix.trace_mul_comm, ← Matrix.mul_assoc, hQ, Matrix.one_mul]
  unfold amdBase
  rw [d, d, s, s, t, frob_rotate hQ]

/-- For every direction: `Σ gᵢ gⱼ Sᵢⱼ ≤ |g|² |S|`. -/
theorem quad_le (g : Fin 3 → ℝ) (S : Matrix (Fin 3) (Fin 3) ℝ) :
    |∑ i, ∑ j, g i * g j * S i j| ≤ (∑ i, g i ^ 2) * Real.sqrt (frob S) := by
  have h := Finset.sum_mul_sq_le_sq_mul_sq (Finset.univ : Finset (Fin 3 × Fin 3)) (fun p => g p.1 * g p.2) (fun p => S p.1 p.2)
  have e1 : (∑ p : Fin 3 × Fin 3, g p.1 * g p.2 * S p.1 p.2) = ∑ i, ∑ j, g i * g j * S i j := by
    rw [Fintype.sum_prod_type]
  have e2 : (∑ p : Fin 3 × Fin 3, (g p.1 * g p.2) ^ 2) = (∑ i, g i ^ 2) ^ 2 := by
    rw [Fintype.sum_prod_type, sq, Finset.sum_mul_sum]
    exact Finset.sum_congr rfl fun i _ => Finset.sum_congr rfl fun j _ => by ring
  have e3 : (∑ p : Fin 3 × Fin 3, S p.1 p.2 ^ 2) = frob S := by rw [Fintype.sum_prod_type]; rfl
  rw [e1, e2, e3] at h
  have n : 0 ≤ ∑ i, g i ^ 2 := Finset.sum_nonneg fun i _ => sq_nonneg _
  have := Real.sqrt_le_sqrt h
  rwa [Real.sqrt_sq_eq_abs, Real.sqrt_mul (sq_nonneg _), Real.sqrt_sq n] at this

/-- C85: the viscosity of AMD is at most `C h² |S|`, `h` the largest cell size: like Smagorinsky's it is bounded by the
strain of the resolved flow, so a smooth flow on a fine grid is not smeared. -/
theorem amd_bounded {eps C h : ℝ} (he : 0 < eps) (hC : 0 ≤ C) (dx : Fin 3 → ℝ) (hd : ∀ k, |dx k| ≤ h) (G : Matrix (Fin 3) (Fin 3) ℝ) :
    amdBase eps C dx G ≤ max (eps * 10) (C * h ^ 2 * Real.sqrt (frob ((1 / 2 : ℝ) • (G + Gᵀ)))) := by
  set S : Matrix (Fin 3) (Fin 3) ℝ := (1 / 2 : ℝ) • (G + Gᵀ) with hS
  have hs : amdShear dx G = ∑ k, dx k ^ 2 * ∑ i, ∑ j, G i k * G j k * S i j := by
    simp only [amdShear, Fin.sum_univ_three, hS, Matrix.smul_apply, Matrix.add_apply, transpose_apply, smul_eq_mul]
    ring
  have hden : amdDenom G = ∑ k, ∑ i, G i k ^ 2 := by
    unfold amdDenom; rw [Finset.sum_comm]; simp only [sq]
  have hb : |amdShear dx G| ≤ h ^ 2 * (amdDenom G * Real.sqrt (frob S)) := by
    rw [hs, hden]
    refine le_trans (Finset.abs_sum_le_sum_abs _ _) ?_
    rw [Finset.sum_mul, Finset.mul_sum]
    refine Finset.sum_le_sum fun k _ => ?_
    rw [abs_mul, abs_of_nonneg (sq_nonneg (dx k))]
    have h1 : dx k ^ 2 ≤ h ^ 2 := by
      rw [← sq_abs (dx k)]; exact pow_le_pow_left₀ (abs_nonneg _) (hd k) 2
    exact mul_le_mul h1 (quad_le _ _) (abs_nonneg _) (sq_nonneg _)
  unfold amdBase
  apply max_le_max le_rfl
  have hpos : 0 < max (eps * 10) (amdDenom G) := lt_of_lt_of_le (by positivity) (le_max_left _ _)
  rw [div_le_iff₀ hpos]
  have h2 : -C * amdShear dx G ≤ C * |amdShear dx G| := by
    have := neg_abs_le (amdShear dx G)
    nlinarith
  refine le_trans h2 (le_trans (mul_le_mul_of_nonneg_left hb hC) ?_)
  have h3 : amdDenom G ≤ max (eps * 10) (amdDenom G) := le_max_right _ _
  have h4 : 0 ≤ C * h ^ 2 * Real.sqrt (frob S) := by positivity
  calc C * (h ^ 2 * (amdDenom G * Real.sqrt (frob S))) = C * h ^ 2 * Real.sqrt (frob S) * amdDenom G := by ring
    _ ≤ _ := mul_le_mul_of_nonneg_left h3 h4

/-- A compressive strain: the model acts (the bound and the floor are not the only cases). -/
example : amdBase (1 / 10 ^ 6 : ℚ) (1 / 3) (fun _ => 1) (fun i j => if i = j then (if i = 0 then -1 else 1 / 2) else 0) = 1 / 6 := by
  decide +kernel

/-! ## Kosovic -/

/-- C85: the viscosity scale lies between 0 and the larger of the subgrid and the surface layer scales, and is the subgrid
scale when the surface model is off. -/
theorem kos_scale_spec {f p smag rans : ℝ} (h0 : 0 ≤ f) (h1 : f ≤ 1) (hp : 1 ≤ p) (hs : 0 ≤ smag) (hr : 0 ≤ rans) :
    kosScale false f p smag rans = smag ∧ 0 ≤ kosScale true f p smag rans ∧ kosScale true f p smag rans ≤ max smag rans := by
  have a0 : 0 ≤ (1 - f) ^ p := Real.rpow_nonneg (by linarith) p
  have b0 : 0 ≤ f ^ p := Real.rpow_nonneg h0 p
  have a1 : (1 - f) ^ p ≤ 1 - f := by
    simpa using Real.rpow_le_rpow_of_exponent_ge' (by linarith : (0 : ℝ) ≤ 1 - f) (by linarith) zero_le_one hp
  have b1 : f ^ p ≤ f := by
    simpa using Real.rpow_le_rpow_of_exponent_ge' h0 h1 zero_le_one hp
  have m1 := le_max_left smag rans
  have m2 := le_max_right smag rans
  have m0 : 0 ≤ max smag rans := le_trans hs m1
  refine ⟨by simp [kosScale], ?_, ?_⟩
  · simp only [kosScale, if_true]; have := mul_nonneg a0 hs; have := mul_nonneg b0 hr; linarith
  · simp only [kosScale, if_true]
    have := mul_le_mul_of_nonneg_left m1 a0
    have := mul_le_mul_of_nonneg_left m2 b0
    nlinarith

/-- C85: blanked cells get no viscosity, drag cells the one of the law of the wall; with it the mean of a drag cell and the
blanked cell below, times the shear between them, is the wall stress `ρ u*²` of the logarithmic law of the cell above. -/
theorem kos_wall_stress {kappa dz z0 psi rho m m0 mm1 strain scale off : ℝ} (hk : kappa ≠ 0) (hl : Real.log (3 / 2 * dz / z0) - psi ≠ 0)
    (hs : 1 / 100 ≤ (m0 - mm1) / dz) : ∃ mu us, kosLogMu kappa dz z0 psi rho m m0 mm1 = some mu ∧
    m = us / kappa * (Real.log (3 / 2 * dz / z0) - psi) ∧
    (kosMu strain rho scale off false true mu + kosMu strain rho scale off true false mu) / 2 * ((m0 - mm1) / dz) = rho * us ^ 2 := by
  refine ⟨2 * (m * kappa / (Real.log (3 / 2 * dz / z0) - psi)) * (m * kappa / (Real.log (3 / 2 * dz / z0) - psi)) * rho /
    max ((m0 - mm1) / dz) (1 / 100), m * kappa / (Real.log (3 / 2 * dz / z0) - psi), ?_, ?_, ?_⟩
  · unfold kosLogMu; rw [if_neg hl]
  · rw [div_mul_eq_mul_div, div_mul_cancel₀ _ hl, mul_div_assoc, div_self hk, mul_one]
  · rw [max_eq_left hs]
    have hp : 0 < (m0 - mm1) / dz := lt_of_lt_of_le (by norm_num) hs
    simp only [kosMu]
    simp only [if_true, Bool.false_eq_true, if_false]
    generalize (m0 - mm1) / dz = q at hp
    field_simp
    ring

/-- C85: the height used above flat ground is that of the cell centre, above terrain at least half a cell. -/
theorem kos_height_spec {lo dz ht : ℝ} (k : ℤ) : kosHeight lo dz false ht k = lo + (k + 1 / 2) * dz ∧
    1 / 2 * dz ≤ kosHeight lo dz true ht k ∧
    (1 / 2 * dz ≤ lo + (k + 1 / 2) * dz - ht → kosHeight lo dz true ht k = lo + (k + 1 / 2) * dz - ht) := by
  refine ⟨by simp [kosHeight], by simp [kosHeight], fun h => ?_⟩
  simp only [kosHeight, if_true]
  exact max_eq_left h

/-- C85 fails for the wall distance of the surface model: it is the top of the cell instead of its centre, and it leaves
out the lower end of the domain; in a domain starting at 100 m it is wrong by 100 m. -/
theorem kos_wall_distance_wrong (lo dz : ℝ) (k : ℤ) :
    kosWallDist dz false 0 k - kosHeight lo dz false 0 k = dz / 2 - lo := by
  simp only [kosWallDist, kosHeight, Bool.false_eq_true, if_false]
  ring

/-- C85: above terrain the distance to the wall is that of the top of the cell from the ground, at least one cell. -/
theorem kos_wall_distance_terrain {dz ht : ℝ} (k : ℤ) : kosWallDist dz false ht k = (k + 1) * dz ∧
    dz ≤ kosWallDist dz true ht k ∧ (dz + ht ≤ (k + 1) * dz → kosWallDist dz true ht k = (k + 1) * dz - ht) := by
  refine ⟨by simp [kosWallDist], by simp [kosWallDist], fun h => ?_⟩
  simp only [kosWallDist, if_true]
  exact max_eq_left (by linarith)

example : (2 : ℝ) + 3 ≤ ((4 : ℤ) + 1) * 2 := by norm_num

/-- C85: the mixing length of the surface layer is `κ d / φ`, with `φ = 1 + 5 z/L` in stable air and `φ⁴ (1 - 16 z/L) = 1` in
unstable air; stable air mixes less than neutral air, unstable air more. -/
theorem kos_surface_length {L x3 d : ℝ} (hx : 0 < x3) (hd : 0 < d) :
    (0 < L → kosPhi L x3 * L = L + 5 * x3 ∧ kosRansL d (kosPhi L x3) < (41 / 100 * d) ^ 2) ∧
    (L < 0 → kosPhi L x3 ^ 4 * (1 - 16 * x3 / L) = 1 ∧ (41 / 100 * d) ^ 2 < kosRansL d (kosPhi L x3)) ∧
    (∀ phi, 0 < phi → ∃ l, 0 < l ∧ l * phi = 41 / 100 * d ∧ kosRansL d phi = l ^ 2) := by
  have hd' : (0 : ℝ) < 41 / 100 * d := by positivity
  refine ⟨fun h => ?_, fun h => ?_, fun phi hp => ⟨41 / 100 * d / phi, by positivity, by field_simp, rfl⟩⟩
  · have e : kosPhi L x3 = 1 + 5 * x3 / L := by unfold kosPhi; rw [if_neg (not_lt.mpr h.le)]
    have : 1 < kosPhi L x3 := by rw [e]; have : 0 < 5 * x3 / L := by positivity
                                 linarith
    refine ⟨by rw [e]; field_simp, ?_⟩
    unfold kosRansL
    have p0 : 0 ≤ 41 / 100 * d / kosPhi L x3 := by positivity
    exact pow_lt_pow_left₀ (div_lt_self hd' this) p0 (by norm_num)
  · have e : kosPhi L x3 = (1 - 16 * x3 / L) ^ (-(1 / 4) : ℝ) := by unfold kosPhi; rw [if_pos h]
    have hb : 1 < 1 - 16 * x3 / L := by
      have : 16 * x3 / L < 0 := div_neg_of_pos_of_neg (by positivity) h
      linarith
    have h0 : 0 < 1 - 16 * x3 / L := by linarith
    have p0 : 0 < kosPhi L x3 := by rw [e]; exact Real.rpow_pos_of_pos h0 _
    have lt1 : kosPhi L x3 < 1 := by rw [e]; exact Real.rpow_lt_one_of_one_lt_of_neg hb (by norm_num)
    refine ⟨?_, ?_⟩
    · rw [e, ← Real.rpow_natCast, ← Real.rpow_mul h0.le]
      norm_num
      rw [Real.rpow_neg_one]
      exact inv_mul_cancel₀ h0.ne'
    · unfold kosRansL
      have : 41 / 100 * d < 41 / 100 * d / kosPhi L x3 := by rw [lt_div_iff₀ p0]; nlinarith
      exact pow_lt_pow_left₀ this hd'.le (by norm_num)

/-- C85: without the surface layer the nonlinear stress is `C1/4` times the linear one everywhere; with it, the two are the
same at the ground, where the factor `C1/4` is left out of the length of the surface layer. -/
theorem kos_stress_spec {f p smag C1 rans : ℝ} (hp : 0 < p) :
    kosStressScale false f p smag C1 rans = C1 / 4 * kosScale false f p smag rans ∧
    kosStressScale true 1 p smag C1 rans = kosScale true 1 p smag rans ∧ kosStressScale true 1 p smag C1 rans = rans ∧
    kosStressScale true f p smag C1 rans - C1 / 4 * kosScale true f p smag rans = (1 - C1 / 4) * (f ^ p * rans) ∧
    kosStressScale true 0 p smag C1 rans = C1 / 4 * smag := by
  have z : (0 : ℝ) ^ p = 0 := Real.zero_rpow hp.ne'
  refine ⟨?_, ?_, ?_, ?_, ?_⟩
  · simp only [kosStressScale, kosScale, Bool.false_eq_true, if_false]; ring
  · simp only [kosStressScale, kosScale, if_true, sub_self, z, Real.one_rpow]; ring
  · simp only [kosStressScale, if_true, sub_self, z, Real.one_rpow]; ring
  · simp only [kosStressScale, kosScale, if_true]; ring
  · simp only [kosStressScale, if_true, sub_zero, z, Real.one_rpow]; ring

/-- C85: heat and momentum diffuse alike in neutral and stable air, heat three times faster in unstable air; the molecular
part is kept. -/
theorem kos_alpha_spec {mol alpha muT : ℝ} (hm : 0 ≤ muT) : alpha ≤ kosAlphaEff mol alpha muT ∧
    (0 ≤ mol → kosAlphaEff mol alpha muT = alpha + muT) ∧ (mol < 0 → kosAlphaEff mol alpha muT = alpha + 3 * muT) := by
  unfold kosAlphaEff
  refine ⟨?_, fun h => by rw [if_neg (not_lt.mpr h), one_mul], fun h => by rw [if_pos h]⟩
  split_ifs <;> linarith

/-- C85 fails for the nonlinear stress when the density is not one: the force per volume should be `ρ` times the scaled
divergence, the code multiplies by the density twice. -/
theorem kos_density_wrong {rho scale off d : ℝ} (hr : 0 < rho) (h1 : rho ≠ 1) (hd : d * scale * off ≠ 0) :
    kosMomentum rho scale off d ≠ rho * (scale * off * d) := by
  unfold kosMomentum
  intro h
  have e : rho * (rho - 1) * (d * scale * off) = 0 := by linarith
  rcases mul_eq_zero.mp e with h2 | h2
  · rcases mul_eq_zero.mp h2 with h3 | h3
    · exact hr.ne' h3
    · exact h1 (by linarith)
  · exact hd h2

/-- C85: `Cs²` and `C1` for the default coefficients of Kosovic's model. -/
theorem kos_coeffs_spec {Cb sk : ℝ} (hb : 0 ≤ Cb) (hs : 0 < sk) : (kosCoeffs Cb sk).1 = 8 * (1 + Cb) / (27 * Real.pi ^ 2) ∧
    0 ≤ (kosCoeffs Cb sk).2 ∧ ((kosCoeffs Cb sk).2 * (7 * (1 + Cb) * sk)) ^ 2 = 960 * Cb ^ 2 := by
  unfold kosCoeffs
  refine ⟨?_, by positivity, ?_⟩
  · rw [Real.sq_sqrt (by positivity)]; ring
  · have : (7 * (1 + Cb) * sk) ≠ 0 := by positivity
    rw [div_mul_cancel₀ _ this, mul_pow, Real.sq_sqrt (by norm_num)]

/-- C85: the specific dissipation handed to the RANS model is the velocity scale over the length `Ce Δ`. -/
theorem sdr_spec (c : Cell84) (hk : 0 ≤ c.tke) (hC : 0 < c.Ce) (hd : 0 < c.ds) : 0 ≤ c.sdr ∧ (c.sdr * (c.Ce * c.ds)) ^ 2 = c.tke := by
  unfold Cell84.sdr
  refine ⟨by positivity, ?_⟩
  rw [div_mul_cancel₀ _ (by positivity), Real.sq_sqrt hk]

/-- C85: the subgrid energy diffuses with twice the eddy viscosity, without a molecular part. -/
theorem subgrid_energy_diffusivity {eps : Eps} {c : Cell84} (h : c.Ok) : c.tkeEff eps = c.muT eps + c.muT eps ∧ 0 < c.tkeEff eps := by
  have m := mut_pos (eps := eps) h
  have e : c.tkeEff eps = c.muT eps + c.muT eps := by unfold Cell84.tkeEff; ring
  exact ⟨e, by rw [e]; linarith⟩

end AmrWind.Les
