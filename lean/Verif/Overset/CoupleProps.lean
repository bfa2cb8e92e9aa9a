/-
C96 (distance, normal and pressure source) and C97 (pressure gradient after the solve, patches and exchanged fields).
-/
import Mathlib.Tactic.Linarith
import Mathlib.Tactic.Ring
import Mathlib.Tactic.NormNum
import Mathlib.Tactic.Positivity
import Verif.Overset.SharpenProps

namespace AmrWind.Overset

set_option linter.unusedSectionVars false

/-! ### Distance, normal, pressure source -/

/-- C96: the distance is zero at a volume fraction of one half, odd about it and strictly increasing, so positive exactly in cells that
are more than half full. -/
theorem asdf_spec (ith tiny : ℝ) (hi : 0 < ith) (ht : 0 < tiny) : asdf (1 / 2) ith tiny = 0 ∧ (∀ v, asdf (1 - v) ith tiny = -asdf v ith tiny) ∧
    (∀ v w, 0 ≤ v → v < w → w ≤ 1 → asdf v ith tiny < asdf w ith tiny) ∧
    ∀ v, 0 ≤ v → v ≤ 1 → (0 < asdf v ith tiny ↔ 1 / 2 < v) := by
  have zero : asdf (1 / 2) ith tiny = 0 := by
    unfold asdf
    have : (1 / 2 + tiny) / (1 - 1 / 2 + tiny) = 1 := by
      rw [div_eq_one_iff_eq (by linarith)]; ring
    rw [this, Real.log_one, mul_zero]
  have mono : ∀ v w, 0 ≤ v → v < w → w ≤ 1 → asdf v ith tiny < asdf w ith tiny := by
    intro v w h1 h2 h3
    unfold asdf
    apply mul_lt_mul_of_pos_left _ hi
    apply Real.log_lt_log
    · exact div_pos (by linarith) (by linarith)
    · rw [div_lt_div_iff₀ (by linarith) (by linarith)]
      nlinarith
  refine ⟨zero, ?_, mono, ?_⟩
  · intro v
    unfold asdf
    have : (1 - v + tiny) / (1 - (1 - v) + tiny) = ((v + tiny) / (1 - v + tiny))⁻¹ := by
      rw [inv_div]; congr 1; ring
    rw [this, Real.log_inv]; ring
  · intro v h1 h2
    rcases lt_trichotomy v (1 / 2) with h | h | h
    · have := mono v (1 / 2) h1 h (by norm_num)
      rw [zero] at this
      exact ⟨fun q => by linarith, fun q => by linarith⟩
    · subst h
      rw [zero]; simp
    · have := mono (1 / 2) v (by norm_num) h h2
      rw [zero] at this
      exact ⟨fun _ => h, fun _ => this⟩

/-- C96: the stored normal is shorter than one, so each of its components is at most one. -/
theorem normal_short (eps : ℝ) (he : 0 < eps) (ib : Cell → ℤ) (vof : Cell → ℝ) (c : Cell) :
    normalVec eps ib vof 0 c ^ 2 + normalVec eps ib vof 1 c ^ 2 + normalVec eps ib vof 2 c ^ 2 < 1 ∧ ∀ d, |normalVec eps ib vof d c| ≤ 1 := by
  rcases hm : Mix.youngsNeumann vof (Mix.bdy ib c) c with ⟨m1, m2, m3⟩
  have hp : 0 < m1 * m1 + m2 * m2 + m3 * m3 + eps := by nlinarith [mul_self_nonneg m1, mul_self_nonneg m2, mul_self_nonneg m3]
  have e0 : normalVec eps ib vof 0 c = m1 / Real.sqrt (m1 * m1 + m2 * m2 + m3 * m3 + eps) := by unfold normalVec; simp only [hm]
  have e1 : normalVec eps ib vof 1 c = m2 / Real.sqrt (m1 * m1 + m2 * m2 + m3 * m3 + eps) := by unfold normalVec; simp only [hm]
  have e2 : normalVec eps ib vof 2 c = m3 / Real.sqrt (m1 * m1 + m2 * m2 + m3 * m3 + eps) := by unfold normalVec; simp only [hm]
  have main : normalVec eps ib vof 0 c ^ 2 + normalVec eps ib vof 1 c ^ 2 + normalVec eps ib vof 2 c ^ 2 < 1 := by
    rw [e0, e1, e2, div_pow, div_pow, div_pow, Real.sq_sqrt hp.le, ← add_div, ← add_div, div_lt_one hp]
    nlinarith
  refine ⟨main, fun d => ?_⟩
  rw [abs_le_one_iff_mul_self_le_one]
  fin_cases d
  · show normalVec eps ib vof 0 c * normalVec eps ib vof 0 c ≤ 1
    nlinarith [sq_nonneg (normalVec eps ib vof 1 c), sq_nonneg (normalVec eps ib vof 2 c)]
  · show normalVec eps ib vof 1 c * normalVec eps ib vof 1 c ≤ 1
    nlinarith [sq_nonneg (normalVec eps ib vof 0 c), sq_nonneg (normalVec eps ib vof 2 c)]
  · show normalVec eps ib vof 2 c * normalVec eps ib vof 2 c ≤ 1
    nlinarith [sq_nonneg (normalVec eps ib vof 0 c), sq_nonneg (normalVec eps ib vof 1 c)]

/-- C96: at a flat edge of the received region the normal does not look across it: here an edge between `i` and `i + 1`. -/
theorem normal_one_sided (eps : ℝ) (ib : Cell → ℤ) (vof vof' : Cell → ℝ) (i j k : ℤ) (h : ib (i, j, k) ≠ ib (i + 1, j, k))
    (hv : ∀ d : Cell, d.1 ≤ i → vof d = vof' d) (d : Fin 3) : normalVec eps ib vof d (i, j, k) = normalVec eps ib vof' d (i, j, k) := by
  have hb : (Mix.bdy ib (i, j, k)).1 = 1 := by unfold Mix.bdy; simp [h]
  have key : Mix.youngsNeumann vof (Mix.bdy ib (i, j, k)) (i, j, k) = Mix.youngsNeumann vof' (Mix.bdy ib (i, j, k)) (i, j, k) := by
    unfold Mix.youngsNeumann
    dsimp only
    rw [hb]
    have a : ∀ y z, vof (i, y, z) = vof' (i, y, z) := fun y z => hv (i, y, z) (le_refl _)
    have b : ∀ y z, vof (i - 1, y, z) = vof' (i - 1, y, z) := fun y z => hv (i - 1, y, z) (by dsimp only; omega)
    have n1 : ((1 : ℤ) = -1) = False := by simp
    simp only [n1, if_false, if_true, a, b]
  unfold normalVec
  rw [key]

/-- C96: the pressure source is the contraction of the averaged pressure gradient flux with the unit normal on both sides. -/
theorem p_source_spec (tiny : ℝ) (f : Fin 3 → Flux ℝ) (vof : Cell → ℝ) (c : Cell) :
    pSource tiny f vof c = ∑ a, ∑ b, unitZeta tiny f vof c a * fluxTensor tiny f c a b * unitZeta tiny f vof c b := by
  simp only [Fin.sum_univ_three, pSource]
  ring

/-- C96: the normal of the pressure source has length one and the direction of the averaged differences, unless these are tiny, and then it is zero. -/
theorem unit_zeta_spec (tiny : ℝ) (ht : 0 < tiny) (f : Fin 3 → Flux ℝ) (vof : Cell → ℝ) (c : Cell) :
    let z := zeta tiny f vof c
    let m := Real.sqrt (z 0 * z 0 + z 1 * z 1 + z 2 * z 2)
    (m < tiny → ∀ a, unitZeta tiny f vof c a = 0) ∧
      (tiny ≤ m → (∑ a, unitZeta tiny f vof c a ^ 2 = 1) ∧ ∀ a, z a = m * unitZeta tiny f vof c a) := by
  intro z m
  refine ⟨fun h a => ?_, fun h => ?_⟩
  · unfold unitZeta
    exact if_pos h
  · have hm : 0 < m := lt_of_lt_of_le ht h
    have e : ∀ a, unitZeta tiny f vof c a = z a / m := fun a => by
      unfold unitZeta
      exact if_neg (not_lt.mpr h)
    have sq : m ^ 2 = z 0 * z 0 + z 1 * z 1 + z 2 * z 2 := Real.sq_sqrt (by nlinarith [mul_self_nonneg (z 0), mul_self_nonneg (z 1), mul_self_nonneg (z 2)])
    refine ⟨?_, fun a => ?_⟩
    · simp only [Fin.sum_univ_three, e]
      field_simp
      rw [sq]
      ring
    · rw [e]
      field_simp

/-- C96: the pressure at a node with no face inside the received region is not changed. -/
theorem p_source_outside (tiny : ℝ) (ib : Cell → ℤ) (f : Fin 3 → Flux ℝ) (hf : Confined ib f) (vof : Cell → ℝ) (c : Cell)
    (h : ∀ a, ∀ e ∈ ring a c, ib e ≠ -1 ∨ ib (dn a e) ≠ -1) : pSource tiny f vof c = 0 := by
  have z : ∀ a b, fluxTensor tiny f c a b = 0 := by
    intro a b
    unfold fluxTensor
    have : (ring a c).map ((f a).gp b) = (ring a c).map (fun _ => 0) := by
      apply List.map_congr_left
      intro e he
      exact (hf a e (h a e he)).2.2.2.1 b
    rw [this]
    simp
  unfold pSource
  simp [z]

/-- C96: with fluxes and volume fractions that change with height only, the pressure is changed so that its vertical difference is the change of the
stored pressure gradient, up to the small number. -/
theorem flat_pressure_gradient {tiny : ℝ} (ht : 0 < tiny) (dx : Fin 3 → ℝ) (hdz : dx 2 ≠ 0) (pt : ℝ) (f : Fin 3 → Flux ℝ) (s : St ℝ) (F v : ℤ → ℝ) (c : Cell)
    (hF : ∀ e, (f 2).gp 2 e = F e.2.2) (hH : ∀ d : Fin 3, d ≠ 2 → ∀ e, (f d).gp 2 (up d e) = (f d).gp 2 e) (hn : ∀ e, (f 2).flag e = 1)
    (hv : ∀ e, s.vof e = v e.2.2) (h0 : tiny ≤ |v c.2.2 - v (c.2.2 - 1)| * (4 / (4 + tiny))) (h1 : tiny ≤ |v (c.2.2 + 1) - v c.2.2| * (4 / (4 + tiny))) :
    (((applyRaw dx pt f (pSource tiny f s.vof) s).p (up 2 c) - s.p (up 2 c)) - ((applyRaw dx pt f (pSource tiny f s.vof) s).p c - s.p c)) / dx 2 =
      4 / (4 + tiny) * ((applyRaw dx pt f (pSource tiny f s.vof) s).gp 2 c - s.gp 2 c) := by
  have src : ∀ e : Cell, tiny ≤ |v e.2.2 - v (e.2.2 - 1)| * (4 / (4 + tiny)) → pSource tiny f s.vof e = F e.2.2 * (4 / (4 + tiny)) := by
    intro e he
    have z0 : zeta tiny f s.vof e 0 = 0 := by
      unfold zeta; simp [ring, hv, dn]
    have z1 : zeta tiny f s.vof e 1 = 0 := by
      unfold zeta; simp [ring, hv, dn]
    have z2 : zeta tiny f s.vof e 2 = (v e.2.2 - v (e.2.2 - 1)) * (4 / (4 + tiny)) := by
      unfold zeta
      simp only [ring, hv, dn, hn, List.map_cons, List.map_nil, List.sum_cons, List.sum_nil]
      ring
    have hm : Real.sqrt (zeta tiny f s.vof e 0 * zeta tiny f s.vof e 0 + zeta tiny f s.vof e 1 * zeta tiny f s.vof e 1 +
        zeta tiny f s.vof e 2 * zeta tiny f s.vof e 2) = |v e.2.2 - v (e.2.2 - 1)| * (4 / (4 + tiny)) := by
      rw [z0, z1, z2, mul_zero, zero_add, zero_add, Real.sqrt_mul_self_eq_abs, abs_mul, abs_of_pos (by positivity : (0 : ℝ) < 4 / (4 + tiny))]
    have us := (unit_zeta_spec tiny ht f s.vof e).2 (by rw [hm]; exact he)
    have hpos : (0 : ℝ) < |v e.2.2 - v (e.2.2 - 1)| * (4 / (4 + tiny)) := lt_of_lt_of_le ht he
    have n0 : unitZeta tiny f s.vof e 0 = 0 := by
      have := us.2 0
      rw [hm, z0] at this
      rcases mul_eq_zero.mp this.symm with h | h
      · exact absurd h hpos.ne'
      · exact h
    have n1 : unitZeta tiny f s.vof e 1 = 0 := by
      have := us.2 1
      rw [hm, z1] at this
      rcases mul_eq_zero.mp this.symm with h | h
      · exact absurd h hpos.ne'
      · exact h
    have n2 : unitZeta tiny f s.vof e 2 * unitZeta tiny f s.vof e 2 = 1 := by
      have := us.1
      rw [Fin.sum_univ_three, n0, n1] at this
      linarith [this]
    have t2 : fluxTensor tiny f e 2 2 = F e.2.2 * (4 / (4 + tiny)) := by
      unfold fluxTensor
      simp only [ring, hF, dn, hn, List.map_cons, List.map_nil, List.sum_cons, List.sum_nil]
      ring
    unfold pSource
    simp only [n0, n1, n2, t2, mul_zero, zero_mul, add_zero, zero_add, mul_one]
  have s0 := src c h0
  have s1 := src (up 2 c) (by simpa [up] using h1)
  have e2 : (up 2 c).2.2 = c.2.2 + 1 := rfl
  unfold applyRaw divergence
  dsimp only
  rw [s0, s1, hH 0 (by decide), hH 1 (by decide), hF, hF, e2]
  field_simp
  ring

/-- A linear profile between the two fluids with a flux that grows upwards. -/
example : ∃ (f : Fin 3 → Flux ℝ) (F v : ℤ → ℝ), (∀ e, (f 2).gp 2 e = F e.2.2) ∧ (∀ d : Fin 3, d ≠ 2 → ∀ e, (f d).gp 2 (up d e) = (f d).gp 2 e) ∧
    (∀ e, (f 2).flag e = 1) ∧ (1 / 100 : ℝ) ≤ |v 2 - v (2 - 1)| * (4 / (4 + 1 / 100)) ∧ (1 / 100 : ℝ) ≤ |v (2 + 1) - v 2| * (4 / (4 + 1 / 100)) ∧
    F 3 - F 2 = 1 := by
  refine ⟨fun d => ⟨fun _ => 0, fun _ => 0, fun _ _ => 0, fun _ e => if d = 2 then (e.2.2 : ℝ) else 0, fun _ => 1⟩, fun k => (k : ℝ), fun k => 1 - (k : ℝ) / 10,
    fun e => rfl, fun d hd e => ?_, fun _ => rfl, ?_, ?_, ?_⟩
  · simp [hd]
  · norm_num [abs_of_neg]
  · norm_num [abs_of_neg]
  · norm_num

/-- C96: with all faces on and the same gradient flux at each, the average is that flux up to the small number. -/
theorem flux_tensor_uniform (tiny g : ℝ) (f : Fin 3 → Flux ℝ) (c : Cell) (a b : Fin 3) (hg : ∀ e ∈ ring a c, (f a).gp b e = g)
    (hn : ∀ e ∈ ring a c, (f a).flag e = 1) : fluxTensor tiny f c a b = g * (4 / (4 + tiny)) := by
  unfold fluxTensor
  have e1 : (ring a c).map ((f a).gp b) = (ring a c).map (fun _ => g) := List.map_congr_left fun e he => hg e he
  have e2 : (ring a c).map (f a).flag = (ring a c).map (fun _ => 1) := List.map_congr_left fun e he => hn e he
  rw [e1, e2]
  fin_cases a <;> simp [ring] <;> ring_nf

/-- The nodes of the four faces: the corners of each face of axis `a` around node `c` include the node. -/
theorem ring_spec (a : Fin 3) (c e : Cell) : e ∈ ring a c ↔ ∃ i j k : ℤ, (i = 0 ∨ i = 1 ∧ a ≠ 0) ∧ (j = 0 ∨ j = 1 ∧ a ≠ 1) ∧ (k = 0 ∨ k = 1 ∧ a ≠ 2) ∧
    e = (c.1 - i, c.2.1 - j, c.2.2 - k) := by
  obtain ⟨x, y, z⟩ := c
  obtain ⟨p, q, r⟩ := e
  fin_cases a
  · simp only [ring, dn, List.mem_cons, Prod.mk.injEq, List.not_mem_nil, or_false]
    constructor
    · rintro (⟨rfl, rfl, rfl⟩ | ⟨rfl, rfl, rfl⟩ | ⟨rfl, rfl, rfl⟩ | ⟨rfl, rfl, rfl⟩)
      · exact ⟨0, 0, 0, by simp⟩
      · exact ⟨0, 0, 1, by simp⟩
      · exact ⟨0, 1, 0, by simp⟩
      · exact ⟨0, 1, 1, by simp⟩
    · rintro ⟨i, j, k, hi, hj, hk, rfl, rfl, rfl⟩
      rcases hi with rfl | ⟨_, w⟩
      · rcases hj with rfl | ⟨rfl, _⟩ <;> rcases hk with rfl | ⟨rfl, _⟩ <;> simp
      · exact absurd rfl w
  · simp only [ring, dn, List.mem_cons, Prod.mk.injEq, List.not_mem_nil, or_false]
    constructor
    · rintro (⟨rfl, rfl, rfl⟩ | ⟨rfl, rfl, rfl⟩ | ⟨rfl, rfl, rfl⟩ | ⟨rfl, rfl, rfl⟩)
      · exact ⟨0, 0, 0, by simp⟩
      · exact ⟨1, 0, 0, by simp⟩
      · exact ⟨0, 0, 1, by simp⟩
      · exact ⟨1, 0, 1, by simp⟩
    · rintro ⟨i, j, k, hi, hj, hk, rfl, rfl, rfl⟩
      rcases hj with rfl | ⟨_, w⟩
      · rcases hi with rfl | ⟨rfl, _⟩ <;> rcases hk with rfl | ⟨rfl, _⟩ <;> simp
      · exact absurd rfl w
  · simp only [ring, dn, List.mem_cons, Prod.mk.injEq, List.not_mem_nil, or_false]
    constructor
    · rintro (⟨rfl, rfl, rfl⟩ | ⟨rfl, rfl, rfl⟩ | ⟨rfl, rfl, rfl⟩ | ⟨rfl, rfl, rfl⟩)
      · exact ⟨0, 0, 0, by simp⟩
      · exact ⟨1, 0, 0, by simp⟩
      · exact ⟨0, 1, 0, by simp⟩
      · exact ⟨1, 1, 0, by simp⟩
    · rintro ⟨i, j, k, hi, hj, hk, rfl, rfl, rfl⟩
      rcases hk with rfl | ⟨_, w⟩
      · rcases hi with rfl | ⟨rfl, _⟩ <;> rcases hj with rfl | ⟨rfl, _⟩ <;> simp
      · exact absurd rfl w

/-- C96 does not hold in full: the level set field holds the speed after the sharpening, at every point of the domain. -/
theorem levelset_is_speed (vel : Fin 3 → Cell → ℝ) (c : Cell) : 0 ≤ equateField vel c ∧
    equateField vel c ^ 2 = vel 0 c ^ 2 + vel 1 c ^ 2 + vel 2 c ^ 2 := by
  unfold equateField
  refine ⟨Real.sqrt_nonneg _, ?_⟩
  rw [Real.sq_sqrt (by nlinarith [mul_self_nonneg (vel 0 c), mul_self_nonneg (vel 1 c), mul_self_nonneg (vel 2 c)])]
  ring

section field
variable {K : Type*} [Field K] [LinearOrder K] [IsStrictOrderedRing K]

/-! ### After the solve -/

/-- C97: in the cells solved here nothing changes; in the others the pressure gradient from before the step takes the place of the new one,
and the velocity is what the step would have given with it. -/
theorem replace_masked_spec (ib : Cell → ℤ) (rho gp0 gp vel : Cell → K) (dt : K) (c : Cell) (hr : rho c ≠ 0) :
    (0 < ib c → (replaceMasked ib rho gp0 gp vel dt).1 c = vel c ∧ (replaceMasked ib rho gp0 gp vel dt).2 c = gp c) ∧
    (ib c ≤ 0 → (replaceMasked ib rho gp0 gp vel dt).2 c = gp0 c ∧
      ∀ star, vel c = star - dt * gp c / rho c → (replaceMasked ib rho gp0 gp vel dt).1 c = star - dt * gp0 c / rho c) := by
  unfold replaceMasked applyGradient replaceGradient
  dsimp only
  refine ⟨fun h => ?_, fun h => ?_⟩
  · rw [if_neg (not_le.2 h)]
    refine ⟨?_, rfl⟩
    ring
  · rw [if_pos h]
    refine ⟨rfl, fun star e => ?_⟩
    rw [e]; ring

/-- C97: perturbation pressure needs the reconstruction of the true pressure, when there is a free surface. -/
theorem options_spec (v p r : Bool) : checkOptions v p r = none ↔ v = true ∧ p = true ∧ r = false := by
  cases v <;> cases p <;> cases r <;> simp [checkOptions]

end field

/-! ### Patches -/

theorem local_ids_length (rs : List ℕ) (cnt : ℕ → ℕ) : (localIds rs cnt).length = rs.length := by
  induction rs generalizing cnt with
  | nil => rfl
  | cons r rs ih => simp [localIds, ih]

/-- C97: the local number of a box is the number of earlier boxes of its rank. -/
theorem local_id_spec (rs : List ℕ) (cnt : ℕ → ℕ) (g r : ℕ) (h : rs[g]? = some r) : (localIds rs cnt)[g]? = some (cnt r + (rs.take g).count r) := by
  induction rs generalizing cnt g with
  | nil => simp at h
  | cons x xs ih =>
    cases g with
    | zero => simp at h; subst h; simp [localIds]
    | succ g =>
      simp only [List.getElem?_cons_succ] at h
      simp only [localIds, List.getElem?_cons_succ, List.take_succ_cons]
      rw [ih _ g h, List.count_cons]
      by_cases e : r = x
      · subst e; simp; omega
      · simp [e, Ne.symm e]

/-- C97: the list of a rank's boxes holds each of them at its local number, in order, and nothing else. -/
theorem global_id_spec (me : ℕ) (rs : List ℕ) (igp l g : ℕ) :
    (globalIds me rs igp)[l]? = some g ↔ igp ≤ g ∧ rs[g - igp]? = some me ∧ (rs.take (g - igp)).count me = l := by
  induction rs generalizing igp l with
  | nil => simp [globalIds]
  | cons x xs ih =>
    unfold globalIds
    by_cases hx : me = x
    · rw [if_pos hx]
      subst hx
      cases l with
      | zero =>
        simp only [List.getElem?_cons_zero, Option.some.injEq]
        constructor
        · rintro rfl; simp
        · rintro ⟨h1, h2, h3⟩
          rcases Nat.eq_or_lt_of_le h1 with e | e
          · exact e
          · exfalso
            obtain ⟨t, ht⟩ : ∃ t, g - igp = t + 1 := ⟨g - igp - 1, by omega⟩
            rw [ht, List.take_succ_cons, List.count_cons] at h3
            simp at h3
      | succ l =>
        rw [List.getElem?_cons_succ, ih]
        constructor
        · rintro ⟨h1, h2, h3⟩
          have e : g - igp = (g - (igp + 1)) + 1 := by omega
          refine ⟨by omega, ?_, ?_⟩
          · rw [e, List.getElem?_cons_succ]; exact h2
          · rw [e, List.take_succ_cons, List.count_cons]; simp [h3]
        · rintro ⟨h1, h2, h3⟩
          rcases Nat.eq_or_lt_of_le h1 with e | e
          · subst e; simp at h3
          · have e' : g - igp = (g - (igp + 1)) + 1 := by omega
            rw [e', List.getElem?_cons_succ] at h2
            rw [e', List.take_succ_cons, List.count_cons] at h3
            simp at h3
            exact ⟨by omega, h2, h3⟩
    · rw [if_neg hx, ih]
      constructor
      · rintro ⟨h1, h2, h3⟩
        have e : g - igp = (g - (igp + 1)) + 1 := by omega
        refine ⟨by omega, ?_, ?_⟩
        · rw [e, List.getElem?_cons_succ]; exact h2
        · rw [e, List.take_succ_cons, List.count_cons]; simp [Ne.symm hx, h3]
      · rintro ⟨h1, h2, h3⟩
        rcases Nat.eq_or_lt_of_le h1 with e | e
        · subst e; simp at h2; exact absurd h2.symm hx
        · have e' : g - igp = (g - (igp + 1)) + 1 := by omega
          rw [e', List.getElem?_cons_succ] at h2
          rw [e', List.take_succ_cons, List.count_cons] at h3
          simp [Ne.symm hx] at h3
          exact ⟨by omega, h2, h3⟩

/-- C97: for every rank, local and global numbers of its boxes are inverse to one another. -/
theorem patch_ids (rs : List ℕ) (me g l : ℕ) (hg : rs[g]? = some me) :
    (localIds rs fun _ => 0)[g]? = some l ↔ (globalIds me rs 0)[l]? = some g := by
  rw [local_id_spec rs _ g me hg, global_id_spec]
  simp only [Nat.zero_add, Option.some.injEq, Nat.sub_zero, Nat.zero_le, true_and, hg]

/-- C97: the arrays of a rank are as long as its number of boxes. -/
theorem patch_count (me : ℕ) (rs : List ℕ) (igp : ℕ) : (globalIds me rs igp).length = nLocal me rs := by
  have aux : ∀ (rs : List ℕ) (n igp : ℕ), rs.foldl (fun n r => if r = me then n + 1 else n) n = n + (globalIds me rs igp).length := by
    intro rs
    induction rs with
    | nil => intro n igp; rfl
    | cons x xs ih =>
      intro n igp
      rw [List.foldl_cons, ih _ (igp + 1)]
      have un : globalIds me (x :: xs) igp = if me = x then igp :: globalIds me xs (igp + 1) else globalIds me xs (igp + 1) := rfl
      rw [un]
      by_cases h : x = me
      · rw [if_pos h, if_pos h.symm, List.length_cons]; omega
      · rw [if_neg h, if_neg (Ne.symm h)]
  unfold nLocal
  rw [aux rs 0 igp]; omega

example : localIds [0, 1, 0, 1, 1] (fun _ => 0) = [0, 0, 1, 1, 2] ∧ globalIds 1 [0, 1, 0, 1, 1] 0 = [1, 3, 4] := by decide

/-! ### Exchanged fields -/

theorem offsets_get (ns : List ℕ) (a : ℕ) (v : ℕ) (h : v < ns.length) : (offsets ns a)[v]? = some (a + (ns.take v).sum) := by
  induction ns generalizing a v with
  | nil => simp at h
  | cons n ns ih =>
    cases v with
    | zero => simp [offsets]
    | succ v =>
      simp only [List.length_cons] at h
      simp only [offsets, List.getElem?_cons_succ, List.take_succ_cons, List.sum_cons]
      rw [ih _ v (by omega)]
      congr 1; omega

/-- C97: no two components of the registered fields share a place in the exchanged array, and all fit. -/
theorem slots_disjoint (ns : List ℕ) (v w c d ov ow : ℕ) (nv nw : ℕ) (hv : ns[v]? = some nv) (hw : ns[w]? = some nw) (hc : c < nv) (hd : d < nw)
    (ev : (offsets ns 0)[v]? = some ov) (ew : (offsets ns 0)[w]? = some ow) :
    (ov + c = ow + d → v = w ∧ c = d) ∧ ov + c < ns.sum := by
  have lv : v < ns.length := by
    by_contra q; rw [List.getElem?_eq_none (by omega)] at hv; cases hv
  have lw : w < ns.length := by
    by_contra q; rw [List.getElem?_eq_none (by omega)] at hw; cases hw
  rw [offsets_get ns 0 v lv] at ev
  rw [offsets_get ns 0 w lw] at ew
  simp only [Nat.zero_add, Option.some.injEq] at ev ew
  have step : ∀ (a b na : ℕ), a < b → ns[a]? = some na → (ns.take a).sum + na ≤ (ns.take b).sum := by
    intro a b na hab ha
    have la : a < ns.length := by
      by_contra q; rw [List.getElem?_eq_none (by omega)] at ha; cases ha
    have e : ns.take (a + 1) = ns.take a ++ [na] := by
      rw [List.take_add_one, ha]; rfl
    have : (ns.take (a + 1)).sum = (ns.take a).sum + na := by rw [e]; simp
    rw [← this]
    have e2 : ns.take (a + 1) = (ns.take b).take (a + 1) := by rw [List.take_take]; congr 1; omega
    rw [e2]
    conv_rhs => rw [← List.take_append_drop (a + 1) (ns.take b), List.sum_append]
    omega
  constructor
  · intro h
    rcases lt_trichotomy v w with g | g | g
    · have := step v w nv g hv; omega
    · subst g; exact ⟨rfl, by omega⟩
    · have := step w v nw g hw; omega
  · have e : ns.take ns.length = ns := List.take_length
    have := step v ns.length nv lv hv
    rw [e] at this
    omega

example : offsets [3, 1, 2] 0 = [0, 3, 4] := rfl

/-! ### The host copies of the blanking -/

theorem run_snoc (cs : List Call) (c : Call) : runCalls (cs ++ [c]) = (runCalls cs).bind fun b => hostAfter b c := by
  unfold runCalls; rw [List.foldl_append]; rfl

/-- C97: a connectivity update, repeated any number of times, is safe and leaves no host copy.

Partial (C97). Missing: changes of the mesh outside an update, which fail (`regrid_null`). -/
theorem updates_safe_partial (n : ℕ) : runCalls (List.replicate n [Call.preConn, Call.postConn]).flatten = some false := by
  induction n with
  | zero => rfl
  | succ n ih =>
    rw [List.replicate_succ', List.flatten_append]
    have : ([[Call.preConn, Call.postConn]] : List (List Call)).flatten = [Call.preConn] ++ [Call.postConn] := rfl
    rw [this, ← List.append_assoc, run_snoc, run_snoc, ih]
    rfl

/-- C97 does not hold in full: a regrid that follows any number of complete connectivity updates uses the host copy that the update
released. -/
theorem regrid_null (n : ℕ) : runCalls ((List.replicate n [Call.preConn, Call.postConn]).flatten ++ [Call.regrid]) = none := by
  rw [run_snoc, updates_safe_partial]; rfl

/-- C96: the difference of the volume fraction across the faces of an axis is averaged over those of the four faces that
are on: where it is the same across each of them it is that difference, and with no face on it is zero. -/
theorem zeta_mean (tiny : ℝ) (ht : 0 < tiny) (f : Fin 3 → Flux ℝ) (hf : ∀ a e, (f a).flag e = 0 ∨ (f a).flag e = 1)
    (vof : Cell → ℝ) (c : Cell) (a : Fin 3) (s : ℝ) (hs : ∀ e ∈ ring a c, vof e - vof (dn a e) = s) :
    ∃ n : ℕ, n = ((ring a c).filter fun e => (f a).flag e = 1).length ∧ zeta tiny f vof c a * (n + tiny) = n * s := by
  have key : ∀ l : List Cell, (∀ e ∈ l, vof e - vof (dn a e) = s) →
      (l.map (f a).flag).sum = ((l.filter fun e => (f a).flag e = 1).length : ℝ) ∧
      (l.map fun e => (vof e - vof (dn a e)) * (f a).flag e).sum = s * ((l.filter fun e => (f a).flag e = 1).length : ℝ) := by
    intro l
    induction l with
    | nil => intro _; simp
    | cons e l ih =>
      intro h
      obtain ⟨i1, i2⟩ := ih fun x hx => h x (by simp [hx])
      have he := h e (by simp)
      simp only [List.map_cons, List.sum_cons, i1, i2, he]
      rcases hf a e with h0 | h1
      · simp [List.filter_cons, h0]
      · simp [List.filter_cons, h1]; constructor <;> ring
  obtain ⟨k1, k2⟩ := key (ring a c) hs
  refine ⟨_, rfl, ?_⟩
  unfold zeta
  rw [k1, k2]
  have : ((((ring a c).filter fun e => (f a).flag e = 1).length : ℕ) : ℝ) + tiny ≠ 0 := by positivity
  rw [div_mul_cancel₀ _ this]; ring

end AmrWind.Overset
