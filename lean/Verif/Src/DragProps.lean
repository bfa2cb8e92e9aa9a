import Mathlib.Tactic.Linarith
import Mathlib.Tactic.FieldSimp
import Mathlib.Tactic.Positivity
import Verif.Src.DragModel

/-!
# Properties of terrain drag (C83)
-/

set_option linter.unusedSectionVars false

namespace AmrWind.Drag

open AmrWind AmrWind.Vs

/-! ## Terrain -/

/-- Cell centres increase with the index. -/
theorem zc_lt {lo dz : ℝ} (hd : 0 < dz) {k l : ℤ} (h : k < l) : zc lo dz k < zc lo dz l := by
  unfold zc
  have : (k : ℝ) < l := by exact_mod_cast h
  nlinarith

/-- C83: the blanked cells of a column are those of the domain whose centre is not above the terrain; without holes. -/
theorem blank_spec {lo dz ht : ℝ} (hd : 0 < dz) (k : ℤ) :
    (blankAt lo dz ht k = true ↔ 0 ≤ k ∧ zc lo dz k ≤ ht) ∧
      (∀ l, 0 ≤ l → l ≤ k → blankAt lo dz ht k = true → blankAt lo dz ht l = true) := by
  have h1 : ∀ k : ℤ, blankAt lo dz ht k = true ↔ 0 ≤ k ∧ zc lo dz k ≤ ht := by
    intro k
    unfold blankAt
    rw [decide_eq_true_iff, and_comm]
    refine and_congr_left fun _ => ?_
    unfold zc
    constructor
    · intro h
      by_contra hk
      have : k ≤ -1 := by omega
      have : (k : ℝ) ≤ -1 := by exact_mod_cast this
      nlinarith
    · intro h
      have : (0 : ℝ) ≤ k := by exact_mod_cast h
      nlinarith
  refine ⟨h1 k, fun l h0 hl hb => (h1 l).mpr ⟨h0, ?_⟩⟩
  rcases hl.lt_or_eq with h | h
  · exact (zc_lt hd h).le.trans ((h1 k).mp hb).2
  · exact h ▸ ((h1 k).mp hb).2

/-- C83: the drag cell is the first free cell above the terrain, so there is at most one in a column, and it is never
blanked. -/
theorem drag_spec {lo dz ht : ℝ} (hd : 0 < dz) (k : ℤ) :
    (dragAt (blankAt lo dz ht) k = true ↔ 0 < k ∧ zc lo dz (k - 1) ≤ ht ∧ ht < zc lo dz k) ∧
      (∀ l, dragAt (blankAt lo dz ht) k = true → dragAt (blankAt lo dz ht) l = true → k = l) := by
  have h1 : ∀ k : ℤ, dragAt (blankAt lo dz ht) k = true ↔ 0 < k ∧ zc lo dz (k - 1) ≤ ht ∧ ht < zc lo dz k := by
    intro k
    unfold dragAt
    rw [Bool.and_eq_true, Bool.and_eq_true, decide_eq_true_iff, (blank_spec hd (k - 1)).1]
    have : (!blankAt lo dz ht k) = true ↔ ¬(0 ≤ k ∧ zc lo dz k ≤ ht) := by
      rw [← (blank_spec hd k).1]; simp
    rw [this]
    constructor
    · rintro ⟨⟨a, b⟩, c, d⟩
      exact ⟨b, d, not_le.mp fun h => a ⟨b.le, h⟩⟩
    · rintro ⟨a, b, c⟩
      exact ⟨⟨fun h => absurd h.2 (not_le.mpr c), a⟩, by omega, b⟩
  refine ⟨h1 k, fun l hk hl => ?_⟩
  obtain ⟨_, a1, a2⟩ := (h1 k).mp hk
  obtain ⟨_, b1, b2⟩ := (h1 l).mp hl
  by_contra hne
  rcases lt_or_gt_of_ne hne with h | h
  · have : zc lo dz k ≤ zc lo dz (l - 1) := by
      rcases (show k ≤ l - 1 by omega).lt_or_eq with h | h
      · exact (zc_lt hd h).le
      · rw [h]
    linarith
  · have : zc lo dz l ≤ zc lo dz (k - 1) := by
      rcases (show l ≤ k - 1 by omega).lt_or_eq with h | h
      · exact (zc_lt hd h).le
      · rw [h]
    linarith

/-- C83: a column whose lowest centre is under the terrain and whose highest is free has a drag cell. -/
theorem drag_exists {lo dz ht : ℝ} (hd : 0 < dz) {n : ℕ} (h0 : zc lo dz 0 ≤ ht) (hn : ht < zc lo dz n) :
    ∃ k : ℤ, 0 < k ∧ k ≤ n ∧ dragAt (blankAt lo dz ht) k = true := by
  induction n with
  | zero => exact absurd h0 (not_le.mpr (by simpa using hn))
  | succ n ih =>
    by_cases h : ht < zc lo dz n
    · obtain ⟨k, a, b, c⟩ := ih h
      exact ⟨k, a, b.trans (by push_cast; omega), c⟩
    · refine ⟨(n + 1 : ℕ), by push_cast; omega, le_rfl, ((drag_spec hd _).1).mpr ⟨by push_cast; omega, ?_, hn⟩⟩
      have : (((n + 1 : ℕ) : ℤ) - 1) = (n : ℤ) := by push_cast; omega
      rw [this]; exact not_lt.mp h

/-- A disagreement: terrain lower than half a cell above the bottom leaves its column without a drag cell. -/
theorem low_terrain_no_drag {lo dz ht : ℝ} (hd : 0 < dz) (h : ht < zc lo dz 0) (k : ℤ) : dragAt (blankAt lo dz ht) k = false := by
  by_contra hk
  rw [Bool.not_eq_false, (drag_spec hd k).1] at hk
  obtain ⟨a, b, _⟩ := hk
  have : zc lo dz 0 ≤ zc lo dz (k - 1) := by
    rcases (show (0 : ℤ) ≤ k - 1 by omega).lt_or_eq with h | h
    · exact (zc_lt hd h).le
    · rw [← h]
  linarith

example : dragAt (blankAt 0 10 33) 3 = true := by
  rw [(drag_spec (by norm_num) 3).1]; norm_num [zc]

/-! ## The sponge -/

/-- C83: the east sponge of thickness `L` is zero up to its start, between 0 and 1, increases towards the boundary and is 1
there. -/
theorem east_spec {hi L : ℝ} (hL : 0 < L) (x : ℝ) : ∃ v, xiEnd 1 hi L x = some v ∧ 0 ≤ v ∧ (x ≤ hi - L → v = 0) ∧
    (x ≤ hi → v ≤ 1) ∧ (x = hi → v = 1) ∧ (∀ y w, x ≤ y → xiEnd 1 hi L y = some w → v ≤ w) ∧ (hi - L < x → 0 < v) := by
  have e : ∀ x, xiEnd 1 hi L x = some (max ((x - (hi - L)) / L) 0) := by
    intro x
    unfold xiEnd ratio0
    have h : hi - (hi - L) = L := by ring
    rw [h, if_neg hL.ne', Option.map_some]; simp
  refine ⟨_, e x, le_max_right _ _, fun h => max_eq_right ?_, fun h => ?_, fun h => ?_, fun y w hy hw => ?_, fun h => ?_⟩
  · exact div_nonpos_of_nonpos_of_nonneg (by linarith) hL.le
  · exact max_le ((div_le_one hL).mpr (by linarith)) zero_le_one
  · rw [h, show (hi - (hi - L)) / L = 1 by rw [show hi - (hi - L) = L by ring, div_self hL.ne']]; norm_num
  · rw [e y, Option.some_inj] at hw
    rw [← hw]
    exact max_le_max (div_le_div_of_nonneg_right (by linarith) hL.le) le_rfl
  · exact lt_max_of_lt_left (div_pos (by linarith) hL)

/-- C83: with the documented sign, a negative distance `-L`, the west sponge is the mirror image of the east sponge. -/
theorem west_mirror (lo hi : ℝ) {L : ℝ} (hL : 0 < L) (x : ℝ) (f : ℤ) : xiStart f lo (-L) x = xiEnd f hi L (lo + hi - x) := by
  unfold xiStart xiEnd ratio0
  have h1 : lo - -L - lo = L := by ring
  have h2 : hi - (hi - L) = L := by ring
  rw [h1, h2, if_neg hL.ne', if_neg hL.ne']
  congr 3
  ring_nf

/-- C83: a sponge that is switched off or has no thickness does nothing inside the domain. -/
theorem sponge_off {hi lo x : ℝ} (hx : lo < x) (hx' : x < hi) (d : ℝ) (f : ℤ) :
    (d ≠ 0 → xiEnd 0 hi d x = some 0 ∧ xiStart 0 lo d x = some 0) ∧ xiEnd f hi 0 x = some 0 ∧ xiStart f lo 0 x = some 0 := by
  refine ⟨fun hd => ?_, ?_, ?_⟩
  · unfold xiEnd xiStart ratio0
    have h1 : hi - (hi - d) ≠ 0 := by simpa using hd
    have h2 : lo - d - lo ≠ 0 := by
      rw [show lo - d - lo = -d by ring]; exact neg_ne_zero.mpr hd
    rw [if_neg h1, if_neg h2]; simp
  · unfold xiEnd ratio0
    rw [if_pos (by ring), if_pos (by linarith)]; simp
  · unfold xiStart ratio0
    rw [if_pos (by ring), if_pos (by linarith)]; simp

/-- C83: with flags 0 or 1, thicknesses in the documented signs and a strength that is not negative, the damping at a point
of the domain is between 0 and four strengths, and zero where no sponge reaches. -/
theorem damping_spec {s : Sponge} {lox hix loy hiy x y : ℝ} (hs : 0 ≤ s.strength)
    (hW : s.dW < 0) (hE : 0 < s.dE) (hS : s.dS < 0) (hN : 0 < s.dN) (f1 : s.fW = 0 ∨ s.fW = 1) (f2 : s.fE = 0 ∨ s.fE = 1)
    (f3 : s.fS = 0 ∨ s.fS = 1) (f4 : s.fN = 0 ∨ s.fN = 1) (hx : lox ≤ x) (hx' : x ≤ hix) (hy : loy ≤ y) (hy' : y ≤ hiy) :
    ∃ v, damping s lox hix loy hiy x y = some v ∧ 0 ≤ v ∧ v ≤ 4 * s.strength ∧
      (lox - s.dW ≤ x → x ≤ hix - s.dE → loy - s.dS ≤ y → y ≤ hiy - s.dN → v = 0) := by
  have key : ∀ (f : ℤ) (hi L x : ℝ), f = 0 ∨ f = 1 → 0 < L → x ≤ hi →
      ∃ v, xiEnd f hi L x = some v ∧ 0 ≤ v ∧ v ≤ 1 ∧ (x ≤ hi - L → v = 0) := by
    intro f hi L x hf hL hx
    rcases hf with rfl | rfl
    · refine ⟨0, ?_, le_rfl, zero_le_one, fun _ => rfl⟩
      unfold xiEnd ratio0
      rw [if_neg (by simpa using hL.ne')]; simp
    · obtain ⟨v, a, b, c, d, _⟩ := east_spec (hi := hi) hL x
      exact ⟨v, a, b, d hx, c⟩
  obtain ⟨a, ha, a0, a1, az⟩ := key s.fW hix (-s.dW) (lox + hix - x) f1 (by linarith) (by linarith)
  obtain ⟨b, hb, b0, b1, bz⟩ := key s.fE hix s.dE x f2 hE hx'
  obtain ⟨c, hc, c0, c1, cz⟩ := key s.fS hiy (-s.dS) (loy + hiy - y) f3 (by linarith) (by linarith)
  obtain ⟨d, hd, d0, d1, dz⟩ := key s.fN hiy s.dN y f4 hN hy'
  have ha' : xiStart s.fW lox s.dW x = some a := by
    have := west_mirror lox hix (L := -s.dW) (by linarith) x s.fW
    rw [neg_neg] at this; rw [this, ha]
  have hc' : xiStart s.fS loy s.dS y = some c := by
    have := west_mirror loy hiy (L := -s.dS) (by linarith) y s.fS
    rw [neg_neg] at this; rw [this, hc]
  have sq : ∀ t : ℝ, 0 ≤ t → t ≤ 1 → 0 ≤ s.strength * t * t ∧ s.strength * t * t ≤ s.strength := by
    intro t h0 h1
    refine ⟨mul_nonneg (mul_nonneg hs h0) h0, ?_⟩
    have : t * t ≤ 1 := mul_le_one₀ h1 h0 h1
    calc s.strength * t * t = s.strength * (t * t) := by ring
      _ ≤ s.strength * 1 := mul_le_mul_of_nonneg_left this hs
      _ = s.strength := mul_one _
  have fl : ∀ f : ℤ, f = 0 ∨ f = 1 → (0 : ℝ) ≤ f ∧ (f : ℝ) ≤ 1 := by
    intro f hf; rcases hf with rfl | rfl <;> norm_num
  have fm : ∀ f : ℤ, f = 0 ∨ f = 1 → ∀ t : ℝ, 0 ≤ t → t ≤ 1 →
      0 ≤ f * s.strength * t * t ∧ f * s.strength * t * t ≤ s.strength := by
    intro f hf t h0 h1
    obtain ⟨p, q⟩ := sq t h0 h1
    rw [show (f : ℝ) * s.strength * t * t = f * (s.strength * t * t) by ring]
    exact ⟨mul_nonneg (fl f hf).1 p, (mul_le_of_le_one_left p (fl f hf).2).trans q⟩
  refine ⟨s.fW * s.strength * a * a + s.fE * s.strength * b * b + s.strength * c * c + s.strength * d * d, ?_, ?_, ?_, ?_⟩
  · unfold damping; rw [ha', hb, hc', hd]; rfl
  · have := (fm _ f1 a a0 a1).1; have := (fm _ f2 b b0 b1).1; have := (sq c c0 c1).1; have := (sq d d0 d1).1
    linarith
  · have := (fm _ f1 a a0 a1).2; have := (fm _ f2 b b0 b1).2; have := (sq c c0 c1).2; have := (sq d d0 d1).2
    linarith
  · intro h1 h2 h3 h4
    rw [az (by linarith), bz h2, cz (by linarith), dz h4]; ring

/-- A disagreement: a positive west distance is accepted and damps the whole domain, at least with the strength itself and the
more the farther the point is from the west boundary. -/
theorem west_positive_wrong {lo L x : ℝ} (hL : 0 < L) (hx : lo ≤ x) : ∃ v, xiStart 1 lo L x = some v ∧ 1 ≤ v ∧ v = 1 + (x - lo) / L := by
  have h : lo - L - lo ≠ 0 := by rw [show lo - L - lo = -L by ring]; exact neg_ne_zero.mpr hL.ne'
  have e : (lo - L - x) / (lo - L - lo) = 1 + (x - lo) / L := by
    rw [show lo - L - lo = -L by ring]; field_simp; ring
  have h1 : 0 ≤ (x - lo) / L := div_nonneg (by linarith) hL.le
  refine ⟨1 + (x - lo) / L, ?_, by linarith, rfl⟩
  unfold xiStart ratio0
  rw [if_neg h, e, max_eq_left (by linarith)]; simp

/-! ## The source -/

theorem wallTerms_off {p : Par} {c : Cell} (h : c.drag = false ∨ p.laminar = true) : wallTerms p c = some (0, 0) := by
  unfold wallTerms
  rw [if_neg]
  rcases h with h | h <;> simp [h]

/-- C83: a cell away from terrain and sponges is not forced. -/
theorem free_cell {p : Par} {c : Cell} (hb : c.blank = false) (hd : c.drag = false) : source p 0 c = some ⟨0, 0, 0⟩ := by
  unfold source
  rw [wallTerms_off (Or.inl hd), hb, hd]
  show some _ = some _
  congr 1
  ext <;> simp [ind]

/-- The rate of the blanked cells is between 0 and the coefficient over the cell height. -/
theorem cdm_bounds {p : Par} (hc : 0 ≤ p.coef) (hz : 0 < p.dz) (he : 0 < p.eps) {m : ℝ} (hm : 0 ≤ m) :
    0 ≤ cdm p m ∧ cdm p m ≤ (if p.laminar && decide (p.dz < 1) then p.coef else p.coef / p.dz) := by
  unfold cdm
  set cd := (if p.laminar && decide (p.dz < 1) then p.coef else p.coef / p.dz) with hcd
  have hcd0 : 0 ≤ cd := by
    rw [hcd]; split_ifs
    · exact hc
    · exact div_nonneg hc hz.le
  have hs : (0 : ℝ) < if p.dz < 1 then 1 else 1 / p.dz := by split_ifs <;> positivity
  refine ⟨mul_nonneg (le_min (by positivity) (by positivity)) hm, ?_⟩
  calc min (cd / (m + p.eps)) (1000 / if p.dz < 1 then 1 else 1 / p.dz) * m ≤ cd / (m + p.eps) * m :=
        mul_le_mul_of_nonneg_right (min_le_left _ _) hm
    _ = cd * (m / (m + p.eps)) := by ring
    _ ≤ cd * 1 := mul_le_mul_of_nonneg_left ((div_le_one (by positivity)).mpr (by linarith)) hcd0
    _ = cd := mul_one _

/-- C83: inside terrain the velocity is relaxed towards the velocity of the terrain (zero, or the waves'), with a rate that is
not negative and not more than the coefficient over the cell height (just the coefficient for laminar runs on cells below
one metre). -/
theorem blanked_relaxes {p : Par} (hc : 0 ≤ p.coef) (hz : 0 < p.dz) (he : 0 < p.eps) {c : Cell} (hb : c.blank = true)
    (hd : c.drag = false) : ∃ k, 0 ≤ k ∧ k ≤ (if p.laminar && decide (p.dz < 1) then p.coef else p.coef / p.dz) ∧
      source p 0 c = some ((-k) • (c.u - c.tgt)) := by
  have hm : 0 ≤ mag c.u := Real.sqrt_nonneg _
  refine ⟨cdm p (mag c.u), (cdm_bounds hc hz he hm).1, (cdm_bounds hc hz he hm).2, ?_⟩
  unfold source
  rw [wallTerms_off (Or.inl hd), hb, hd]
  show some _ = some _
  congr 1
  ext <;> simp [ind] <;> ring

/-- C83: for a moving cell the rate is the coefficient over the height up to the regularisation, unless it is capped. -/
theorem blanked_rate {p : Par} (hc : 0 < p.coef) (hz : 1 ≤ p.dz) {m : ℝ} (hm : p.coef / p.dz ≤ 1000 * p.dz * (m + p.eps))
    (hp : 0 < m + p.eps) : cdm p m = p.coef / p.dz * (m / (m + p.eps)) := by
  unfold cdm
  have h1 : ¬ p.dz < 1 := not_lt.mpr hz
  have h0 : 0 < p.dz := by linarith
  simp only [h1, decide_false, Bool.and_false, if_false, Bool.false_eq_true]
  rw [min_eq_left]
  · ring
  · rw [div_le_iff₀ hp]
    calc p.coef / p.dz ≤ 1000 * p.dz * (m + p.eps) := hm
      _ = 1000 / (1 / p.dz) * (m + p.eps) := by field_simp

/-- C83: the sponge takes energy out of the deviation from the mean profile. -/
theorem sponge_relaxes {p : Par} {c : Cell} (hb : c.blank = false) (hd : c.drag = false) (h1 : p.density = 1) {damp : ℝ} :
    source p damp c = some ((-damp) • (c.u - c.ref)) := by
  unfold source
  rw [wallTerms_off (Or.inl hd), hb, hd, h1]
  show some _ = some _
  congr 1
  ext <;> simp [ind] <;> ring

/-- C83: without ABL physics there is no sponge. -/
theorem no_abl_no_sponge (given : Option ℝ) (s : Sponge) (hs : s.strength = strengthUsed false given) (lox hix loy hiy x y : ℝ)
    {v : ℝ} (h : damping s lox hix loy hiy x y = some v) : v = 0 := by
  unfold damping at h
  simp only [Option.bind_eq_bind, Option.bind_eq_some_iff] at h
  obtain ⟨a, -, b, -, c, -, d, -, e⟩ := h
  have := Option.some_inj.mp e
  rw [← this, hs]
  simp [strengthUsed]

/-- A disagreement with the user guide: `is_laminar` does not turn off the sponge, it turns off the wall model. -/
theorem laminar_keeps_sponge : ∃ (p : Par) (c : Cell), p.laminar = true ∧ source p 1 c = some ⟨-1, 0, 0⟩ :=
  ⟨⟨10, true, 1, 1, 0, 0, 1, 1⟩, ⟨⟨1, 0, 0⟩, ⟨0, 0, 0⟩, ⟨0, 0, 0⟩, ⟨0, 0, 0⟩, ⟨0, 0, 0⟩, none, false, false, 1⟩, rfl, by
    rw [sponge_relaxes rfl rfl rfl]
    congr 1
    ext <;> simp⟩

/-! ## The wall model -/

/-- The log law: speed at height `z` over a rough wall. -/
noncomputable def logLaw (us z0 z psi : ℝ) : ℝ := us / kappa * (Real.log (z / z0) - psi)

theorem kappa_pos : 0 < kappa := by norm_num [kappa]

/-- C83: if the cell above moves (relative to the wall) with the speed of the log law at 1.5 cell heights, the friction
velocity is that of the log law. -/
theorem ustar_spec {us z0 dz psi ux uy : ℝ} (hd : Real.log (1.5 * dz / z0) - psi ≠ 0)
    (h : hmag ux uy = logLaw us z0 (1.5 * dz) psi) : ustar z0 dz psi ux uy = some us := by
  unfold ustar
  rw [if_neg hd, h, Option.some_inj]
  unfold logLaw
  have := kappa_pos.ne'
  field_simp

/-- C83: the target of the first cell points along the flow above and has the speed of the log law at half a cell height, up
to the regularisation of the direction. -/
theorem target_spec {eps us z0 dz psi ux uy : ℝ} (he : 0 < eps) :
    let t := wallTarget eps us z0 dz psi ux uy
    t.1 * uy = t.2 * ux ∧ t.1 = logLaw us z0 (0.5 * dz) psi * (ux / (eps + hmag ux uy)) ∧
      hmag t.1 t.2 = |logLaw us z0 (0.5 * dz) psi| * (hmag ux uy / (eps + hmag ux uy)) := by
  intro t
  have hh : 0 ≤ hmag ux uy := Real.sqrt_nonneg _
  have hp : 0 < eps + hmag ux uy := by linarith
  have e1 : t.1 = logLaw us z0 (0.5 * dz) psi * (ux / (eps + hmag ux uy)) := by
    simp only [t, wallTarget, logLaw]; ring
  have e2 : t.2 = logLaw us z0 (0.5 * dz) psi * (uy / (eps + hmag ux uy)) := by
    simp only [t, wallTarget, logLaw]; ring
  refine ⟨by rw [e1, e2]; ring, e1, ?_⟩
  rw [e1, e2]
  have : ∀ a b c : ℝ, 0 < c → hmag (a * (ux / c)) (a * (uy / c)) = |a| * (hmag ux uy / c) := by
    intro a b c hc
    unfold hmag
    rw [show a * (ux / c) * (a * (ux / c)) + a * (uy / c) * (a * (uy / c)) = (|a| / c) ^ 2 * (ux * ux + uy * uy) by
      rw [div_pow, sq_abs]; field_simp, Real.sqrt_mul (sq_nonneg _), Real.sqrt_sq (by positivity)]
    ring
  exact this _ 0 _ hp

/-- C83 in part: what a step adds to the horizontal velocity of a drag cell over land.  Missing: that the stress slows the flow
(`stress_accelerates`). -/
theorem wall_step_partial {p : Par} {c : Cell} (hdt : p.dt ≠ 0) (hl : p.laminar = false) (hd : c.drag = true) (hb : c.blank = false)
    (hw : c.wall = ⟨0, 0, 0⟩) (hs : c.slope = none) {us : ℝ}
    (hu : ustar (rough c.z0) p.dz p.psiN c.up.x c.up.y = some us) :
    ∃ s, source p 0 c = some s ∧
      c.u.x + p.dt * s.x = (wallTarget p.eps us (rough c.z0) p.dz p.psiC c.up.x c.up.y).1
        - p.dt * (stress p.eps us p.dz c.u.x c.u.y).1 ∧
      c.u.y + p.dt * s.y = (wallTarget p.eps us (rough c.z0) p.dz p.psiC c.up.x c.up.y).2
        - p.dt * (stress p.eps us p.dz c.u.x c.u.y).2 ∧ s.z = 0 := by
  have hwt : wallTerms p c = some ((stress p.eps us p.dz c.u.x c.u.y).1 + 0 +
      -((wallTarget p.eps us (rough c.z0) p.dz p.psiC c.up.x c.up.y).1 - c.u.x) / p.dt,
      (stress p.eps us p.dz c.u.x c.u.y).2 + 0 +
      -((wallTarget p.eps us (rough c.z0) p.dz p.psiC c.up.x c.up.y).2 - c.u.y) / p.dt) := by
    unfold wallTerms
    rw [hd, hl, hs, hw]
    simp only [sub_zero, hu]
    rfl
  refine ⟨_, by unfold source; rw [hwt]; rfl, ?_, ?_, ?_⟩
  · simp only [hb, hd, ind]; simp; field_simp; ring
  · simp only [hb, hd, ind]; simp; field_simp; ring
  · simp only [hb, ind]; simp

/-- C83 in part: the same over waves, with or without form drag: stress and form drag are those of the velocity relative to the waves, the target that of
the relative velocity above.  Missing: that the target is relative to the waves (`wave_frame_wrong`). -/
theorem wall_step_moving_partial {p : Par} {c : Cell} (hdt : p.dt ≠ 0) (hl : p.laminar = false) (hd : c.drag = true) (hb : c.blank = false) {us : ℝ} {fd : ℝ × ℝ}
    (hu : ustar (rough c.z0) p.dz p.psiN (c.up.x - c.wall.x) (c.up.y - c.wall.y) = some us)
    (hf : (c.slope = none ∧ fd = (0, 0)) ∨ ∃ g, c.slope = some g ∧ formDrag g.1 g.2 p.dz (c.u.x - c.wall.x) (c.u.y - c.wall.y) = some fd) :
    ∃ s, source p 0 c = some s ∧
      c.u.x + p.dt * s.x = (wallTarget p.eps us (rough c.z0) p.dz p.psiC (c.up.x - c.wall.x) (c.up.y - c.wall.y)).1
        - p.dt * ((stress p.eps us p.dz (c.u.x - c.wall.x) (c.u.y - c.wall.y)).1 + fd.1) ∧
      c.u.y + p.dt * s.y = (wallTarget p.eps us (rough c.z0) p.dz p.psiC (c.up.x - c.wall.x) (c.up.y - c.wall.y)).2
        - p.dt * ((stress p.eps us p.dz (c.u.x - c.wall.x) (c.u.y - c.wall.y)).2 + fd.2) ∧ s.z = 0 := by
  have hwt : wallTerms p c = some ((stress p.eps us p.dz (c.u.x - c.wall.x) (c.u.y - c.wall.y)).1 + fd.1 +
      -((wallTarget p.eps us (rough c.z0) p.dz p.psiC (c.up.x - c.wall.x) (c.up.y - c.wall.y)).1 - c.u.x) / p.dt,
      (stress p.eps us p.dz (c.u.x - c.wall.x) (c.u.y - c.wall.y)).2 + fd.2 +
      -((wallTarget p.eps us (rough c.z0) p.dz p.psiC (c.up.x - c.wall.x) (c.up.y - c.wall.y)).2 - c.u.y) / p.dt) := by
    unfold wallTerms
    rcases hf with ⟨hs, rfl⟩ | ⟨g, hs, hg⟩
    · rw [hd, hl, hs]
      simp only [hu]
      rfl
    · rw [hd, hl, hs]
      simp only [hu, hg]
      rfl
  refine ⟨_, by unfold source; rw [hwt]; rfl, ?_, ?_, ?_⟩
  · simp only [hb, hd, ind]; simp; field_simp; ring
  · simp only [hb, hd, ind]; simp; field_simp; ring
  · simp only [hb, ind]; simp

/-- A disagreement: the stress has the wrong sign.  Its contribution to the source is not against but along the velocity
relative to the wall. -/
theorem stress_accelerates {eps us dz ux uy : ℝ} (he : 0 < eps) (hd : 0 < dz) (hus : us ≠ 0) (hu : 0 < hmag ux uy) :
    0 < -(stress eps us dz ux uy).1 * ux + -(stress eps us dz ux uy).2 * uy := by
  have hh : hmag ux uy * hmag ux uy = ux * ux + uy * uy :=
    Real.mul_self_sqrt (add_nonneg (mul_self_nonneg _) (mul_self_nonneg _))
  have hp : 0 < eps + hmag ux uy := by linarith
  have e : -(stress eps us dz ux uy).1 * ux + -(stress eps us dz ux uy).2 * uy
      = us * us * (hmag ux uy * hmag ux uy) / ((eps + hmag ux uy) * dz) := by
    rw [hh]; simp only [stress]; field_simp
  rw [e]
  have : 0 < us * us := mul_self_pos.mpr hus
  positivity

/-- A disagreement: the form drag pushes air that runs up a wave further up. -/
theorem form_drag_accelerates {gx gy dz ux uy : ℝ} (hd : 0 < dz) (ha : 0 < ux * gx + uy * gy) :
    ∃ f, formDrag gx gy dz ux uy = some f ∧ 0 ≤ -f.1 * ux + -f.2 * uy := by
  have hg0 : 0 < gx * gx + gy * gy := by
    by_contra h
    have h1 : gx * gx + gy * gy = 0 := le_antisymm (not_lt.mp h) (add_nonneg (mul_self_nonneg _) (mul_self_nonneg _))
    have h2 : gx = 0 := mul_self_eq_zero.mp (by nlinarith [mul_self_nonneg gx, mul_self_nonneg gy])
    have h3 : gy = 0 := mul_self_eq_zero.mp (by nlinarith [mul_self_nonneg gx, mul_self_nonneg gy])
    rw [h2, h3] at ha; simp at ha
  have hg : 0 < hmag gx gy := Real.sqrt_pos.mpr hg0
  unfold formDrag
  simp only
  rw [if_neg (by push Not; exact ⟨hg.ne', ha.ne'⟩)]
  refine ⟨_, rfl, ?_⟩
  simp only
  set g := hmag gx gy
  set ur := √(ux * ux * (gx / g) * (gx / g) + uy * uy * (gy / g) * (gy / g))
  set a := ux * gx + uy * gy with hadef
  have hh : (a + |a|) / (2 * a) = 1 := by rw [abs_of_pos ha]; field_simp; ring
  rw [hh]
  have hpi := Real.pi_pos
  have e : -(-(1 / Real.pi * ur * ur * g * g * 1 * (gx / g)) / dz) * ux + -(-(1 / Real.pi * ur * ur * g * g * 1 * (gy / g)) / dz) * uy
      = ur * ur * g * a / (Real.pi * dz) := by
    rw [hadef]; field_simp
  rw [e]
  have := mul_self_nonneg ur
  positivity

/-- A disagreement: over flat water, or with the wind along the crests, the form drag is 0/0. -/
theorem form_drag_undefined (gx gy dz ux uy : ℝ) : formDrag 0 0 dz ux uy = none ∧ (ux * gx + uy * gy = 0 → formDrag gx gy dz ux uy = none) := by
  constructor
  · unfold formDrag; simp
  · intro h; unfold formDrag; simp [h]

/-- A disagreement: over terrain rougher than half a cell height (and below 1.5) the target points against the flow above. -/
theorem rough_reverses {eps z0 dz ux uy us : ℝ} (he : 0 < eps) (hz : 0 < dz) (h1 : 0.5 * dz < z0) (h2 : z0 < 1.5 * dz)
    (hu : 0 < hmag ux uy) (hus : ustar z0 dz 0 ux uy = some us) :
    (wallTarget eps us z0 dz 0 ux uy).1 * ux + (wallTarget eps us z0 dz 0 ux uy).2 * uy < 0 := by
  have hz0 : 0 < z0 := by nlinarith
  have hl1 : 0 < Real.log (1.5 * dz / z0) := Real.log_pos ((one_lt_div hz0).mpr h2)
  have hl2 : Real.log (0.5 * dz / z0) < 0 := Real.log_neg (by positivity) ((div_lt_one hz0).mpr h1)
  have husp : 0 < us := by
    unfold ustar at hus
    simp only [sub_zero] at hus
    rw [if_neg hl1.ne', Option.some_inj] at hus
    rw [← hus]
    exact div_pos (mul_pos hu kappa_pos) hl1
  have hh : hmag ux uy * hmag ux uy = ux * ux + uy * uy :=
    Real.mul_self_sqrt (add_nonneg (mul_self_nonneg _) (mul_self_nonneg _))
  have e : (wallTarget eps us z0 dz 0 ux uy).1 * ux + (wallTarget eps us z0 dz 0 ux uy).2 * uy
      = us / kappa * (hmag ux uy * hmag ux uy) / (eps + hmag ux uy) * Real.log (0.5 * dz / z0) := by
    rw [hh]; simp only [wallTarget]; ring
  rw [e]
  have := kappa_pos
  exact mul_neg_of_pos_of_neg (by positivity) hl2

/-- A disagreement: over terrain with a roughness of 1.5 cell heights the friction velocity is a division by zero. -/
theorem rough_undefined {dz : ℝ} (hz : 0 < dz) (ux uy : ℝ) : ustar (1.5 * dz) dz 0 ux uy = none := by
  unfold ustar
  rw [div_self (by positivity), Real.log_one]; simp

/-- A disagreement: air at rest relative to the waves, in the cell and above, is brought to rest relative to the ground. -/
theorem wave_frame_wrong {p : Par} {c : Cell} (hdt : p.dt ≠ 0) (hl : p.laminar = false) (hd : c.drag = true) (hb : c.blank = false)
    (hs : c.slope = none) (hu : c.u = c.wall) (hup : c.up = c.wall) (hlog : Real.log (1.5 * p.dz / rough c.z0) - p.psiN ≠ 0) :
    ∃ s, source p 0 c = some s ∧ c.u.x + p.dt * s.x = 0 ∧ c.u.y + p.dt * s.y = 0 := by
  have h0 : ustar (rough c.z0) p.dz p.psiN 0 0 = some 0 := by
    unfold ustar; simp only; rw [if_neg hlog]; simp [hmag]
  have hwt : wallTerms p c = some (c.u.x / p.dt, c.u.y / p.dt) := by
    unfold wallTerms
    rw [hd, hl, hs, hup, hu]
    simp only [sub_self, h0]
    show some _ = some _
    simp [stress, wallTarget]
  refine ⟨_, by unfold source; rw [hwt]; rfl, ?_, ?_⟩ <;> simp [hb, hd, ind] <;> field_simp <;> ring

/-! ## Temperature -/

/-- C83: the temperature target is on the profile through the cell above with the temperature scale used, whatever the
roughness. -/
theorem temp_target_spec {kap z0 dz psiN psiC ts th : ℝ} (hz : 0 < dz) (h0 : 0 < z0) :
    tempTarget kap z0 dz psiN psiC ts th = th - ts / kap * (Real.log 3 - (psiN - psiC)) := by
  have e : Real.log (1.5 * dz / z0) = Real.log 3 + Real.log (0.5 * dz / z0) := by
    rw [← Real.log_mul (by norm_num) (by positivity)]; congr 1; ring
  simp only [tempTarget]
  rw [e]; ring

/-- C83: a step brings the temperature of a drag cell to its target and does not touch a free cell. -/
theorem temp_step {coef dz tiny dt T0 target theta m : ℝ} (hdt : dt ≠ 0) :
    theta + dt * tempSource coef dz tiny dt T0 target theta m false true = target ∧
      tempSource coef dz tiny dt T0 target theta m false false = 0 := by
  constructor
  · simp [tempSource, ind]; field_simp; ring
  · simp [tempSource, ind]

/-- C83: inside terrain the temperature relaxes to the soil temperature, with a rate between 0 and ten over the cell height. -/
theorem soil_relaxes {coef dz tiny dt T0 target theta m : ℝ} (hc : 0 ≤ coef) (hz : 0 < dz) (ht : 0 < tiny) (hm : 0 ≤ m) :
    ∃ k, 0 ≤ k ∧ k ≤ 10 / dz ∧ k * (m + tiny) ≤ coef / dz ∧
      tempSource coef dz tiny dt T0 target theta m true false = -k * (theta - T0) := by
  refine ⟨min (coef / dz / (m + tiny)) (10 / dz), le_min (by positivity) (by positivity), min_le_right _ _, ?_, ?_⟩
  · have : 0 < m + tiny := by linarith
    calc min (coef / dz / (m + tiny)) (10 / dz) * (m + tiny) ≤ coef / dz / (m + tiny) * (m + tiny) :=
          mul_le_mul_of_nonneg_right (min_le_left _ _) this.le
      _ = coef / dz := by field_simp
  · simp [tempSource, ind]

/-- C83: the horizontal sponge relaxes the temperature to the profile, with the default density 1. -/
theorem temp_sponge_relaxes (damp T ref : ℝ) : tempSponge 1 damp T ref = -damp * (T - ref) := by
  unfold tempSponge; ring

/-- A disagreement: the constants of the stability function of heat are those given for momentum; entries for heat are not
read. -/
theorem heat_constants_ignored (inp : String → Option ℝ) (g b : ℝ) :
    heatConstants (fun k => if k = "mo_gamma_h" then some g else if k = "mo_beta_h" then some b else inp k) = heatConstants inp ∧
      heatConstants (fun k => if k = "mo_gamma_m" then some 4 else none) = (4, 16) := by
  constructor <;> unfold heatConstants <;> simp

/-- A disagreement: in a neutral log layer the friction velocity of the temperature is too small: it divides the speed at half a
cell height by the logarithm of 1.5. -/
theorem temp_ustar_wrong {us z0 dz ux uy : ℝ} (hus : 0 < us) (h0 : 0 < z0) (hz : z0 < 0.5 * dz)
    (h : hmag ux uy = logLaw us z0 (0.5 * dz) 0) : ∃ v, tempUstar kappa z0 dz 0 ux uy = some v ∧ v < us := by
  have hd : 0 < dz := by nlinarith
  have h1 : 0 < Real.log (0.5 * dz / z0) := Real.log_pos ((one_lt_div h0).mpr hz)
  have h2 : Real.log (0.5 * dz / z0) < Real.log (1.5 * dz / z0) :=
    Real.log_lt_log (by positivity) (div_lt_div_of_pos_right (by nlinarith) h0)
  have h3 : 0 < Real.log (1.5 * dz / z0) := h1.trans h2
  refine ⟨_, by unfold tempUstar; simp only [sub_zero]; rw [if_neg h3.ne'], ?_⟩
  rw [h]
  unfold logLaw
  have := kappa_pos
  rw [sub_zero, show us / kappa * Real.log (0.5 * dz / z0) * kappa / Real.log (1.5 * dz / z0)
    = us * (Real.log (0.5 * dz / z0) / Real.log (1.5 * dz / z0)) by field_simp]
  have : Real.log (0.5 * dz / z0) / Real.log (1.5 * dz / z0) < 1 := (div_lt_one h3).mpr h2
  nlinarith

/-! Concrete cases. -/

/-- A drag cell over smooth terrain. -/
example : ∃ us, ustar (rough 0.1) 10 0 5 0 = some us := by
  refine ⟨hmag 5 0 * kappa / (Real.log (1.5 * 10 / rough 0.1) - 0), ?_⟩
  unfold ustar
  rw [if_neg]
  have : 0 < Real.log (1.5 * 10 / rough 0.1) := Real.log_pos (by unfold rough; norm_num)
  simp only [sub_zero]
  exact this.ne'

example : ∃ v, damping ⟨1, 1, -1000, 1000, -1000, 1000, 0, 1, 0, 1⟩ 0 5000 0 5000 2500 2500 = some v ∧ 0 ≤ v ∧ v ≤ 4 * 1 ∧
    ((0 : ℝ) - -1000 ≤ 2500 → (2500 : ℝ) ≤ 5000 - 1000 → (0 : ℝ) - -1000 ≤ 2500 → (2500 : ℝ) ≤ 5000 - 1000 → v = 0) :=
  damping_spec (s := ⟨1, 1, -1000, 1000, -1000, 1000, 0, 1, 0, 1⟩) (by norm_num) (by norm_num) (by norm_num) (by norm_num)
    (by norm_num) (Or.inl rfl) (Or.inr rfl) (Or.inl rfl) (Or.inr rfl) (by norm_num) (by norm_num) (by norm_num) (by norm_num)

/-- C83: under waves a cell of the domain is blanked exactly when at least half of it is water; the cells below the domain are not. -/
theorem wave_blank_spec {lo dz : ℝ} (hd : 0 < dz) (vof : ℤ → ℝ) (k : ℤ) : waveBlankAt lo dz vof k = true ↔ 0 ≤ k ∧ 0.5 ≤ vof k := by
  unfold waveBlankAt zc
  rw [decide_eq_true_iff]
  have e : lo < lo + ((k : ℝ) + 1 / 2) * dz ↔ 0 ≤ k := by
    rw [lt_add_iff_pos_right, mul_pos_iff_of_pos_right hd]
    constructor
    · intro h
      by_contra hk
      have : k ≤ -1 := by omega
      have : (k : ℝ) ≤ -1 := by exact_mod_cast this
      linarith
    · intro h
      have : (0 : ℝ) ≤ k := by exact_mod_cast h
      linarith
  rw [e]
  norm_num
  exact and_comm

example : waveBlankAt 0 1 (fun k => if k < 3 then 1 else 0) 2 = true := (wave_blank_spec one_pos _ _).mpr (by norm_num)

/-- C83: the logarithmic law is corrected for stability only with the model "mol". -/
theorem psi_used_spec (L beta gamma z : ℝ) : psiUsed false L beta gamma z = 0 ∧ psiUsed true L beta gamma z = Abl.psiM beta gamma (z / L) :=
  ⟨rfl, rfl⟩

/-- C83: the temperature scale is the one for which `L` is the Obukhov length, `L = θ u*² / (κ g θ*)`. -/
theorem theta_star_spec {kap g L theta us : ℝ} (h : kap * g * L ≠ 0) : ∃ ts, thetaStar kap g L theta us = some ts ∧
    ts * kap * g * L = theta * us ^ 2 := by
  refine ⟨theta * us * us / (kap * g * L), if_neg h, ?_⟩
  have : kap ≠ 0 ∧ g ≠ 0 ∧ L ≠ 0 := by
    refine ⟨?_, ?_, ?_⟩ <;> rintro rfl <;> simp at h
  obtain ⟨h1, h2, h3⟩ := this
  field_simp

example : (0.4 : ℝ) * 9.81 * 100 ≠ 0 := by norm_num

/-- C83: the strength of the sponge is the one given, one if none is given, zero without the boundary layer physics. -/
theorem sponge_strength (abl : Bool) (given : Option ℝ) : strengthUsed abl given =
    if abl then (match given with | some s => s | none => 1) else 0 := by
  unfold strengthUsed
  cases given <;> rfl

/-- C83: the height of a cell is that of its centre, midway between its lower and its upper side. -/
theorem zc_centre (lo dz : ℝ) (k : ℤ) : zc lo dz k - (lo + k * dz) = dz / 2 ∧ (lo + (k + 1 : ℤ) * dz) - zc lo dz k = dz / 2 := by
  unfold zc
  push_cast
  constructor <;> ring

/-- C83: the roughness used is the one given, but at least a tenth of a millimetre. -/
theorem rough_spec (z0 : ℝ) : (1 / 10000 ≤ z0 → rough z0 = z0) ∧ (z0 ≤ 1 / 10000 → rough z0 = 1 / 10000) := by
  unfold rough
  norm_num

end AmrWind.Drag
