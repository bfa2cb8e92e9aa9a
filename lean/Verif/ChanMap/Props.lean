import Verif.ChanMap.Model
import Mathlib.Analysis.Calculus.Deriv.MeanValue
import Mathlib.Tactic.FinCases

/-!
# C42: the mesh maps
-/

set_option linter.unusedSectionVars false

namespace AmrWind.ChanMap

open Real

theorem hasDerivAt_tanh' (x : ℝ) : HasDerivAt tanh (1 - tanh x ^ 2) x := by
  have hc : cosh x ≠ 0 := (cosh_pos x).ne'
  have h := (hasDerivAt_sinh x).div (hasDerivAt_cosh x) hc
  have e : (fun y => sinh y / cosh y) = tanh := by
    funext y
    rw [tanh_eq_sinh_div_cosh]
  have e' : (sinh / cosh : ℝ → ℝ) = tanh := by
    rw [← e]; rfl
  rw [e'] at h
  refine h.congr_deriv ?_
  rw [tanh_eq_sinh_div_cosh]
  field_simp

theorem tanh_pos' {x : ℝ} (h : 0 < x) : 0 < tanh x := by
  rw [tanh_eq_sinh_div_cosh]
  exact div_pos (sinh_pos_iff.mpr h) (cosh_pos x)

theorem beta_div_tanh {b : ℝ} (h : b ≠ 0) : 0 < b / tanh b := by
  rcases lt_or_gt_of_ne h with h | h
  · have := tanh_pos' (x := -b) (by linarith)
    rw [tanh_neg] at this
    exact div_pos_of_neg_of_neg h (by linarith)
  · exact div_pos h (tanh_pos' h)

theorem tanh_ne {b : ℝ} (h : b ≠ 0) : tanh b ≠ 0 := by
  intro h0
  have := beta_div_tanh h
  rw [h0] at this
  simp at this

/-- C42: the scale factor is the derivative of the coordinate map, for every stretching (of either sign), length and
point. -/
theorem coord_deriv (beta lo : ℝ) {len : ℝ} (hl : len ≠ 0) (x : ℝ) :
    HasDerivAt (fun y => evalCoord y beta lo len) (evalFac x beta lo len) x := by
  unfold evalCoord evalFac
  by_cases hb : beta = 0
  · simp only [hb, if_true]
    exact hasDerivAt_id x
  · simp only [if_neg hb]
    have h1 : HasDerivAt (fun y : ℝ => beta * (1 - 2 * (y - lo) / len)) (beta * (-(2 / len))) x := by
      have h0 : HasDerivAt (fun y : ℝ => y - lo) 1 x := (hasDerivAt_id x).sub_const lo
      have h2 := (((h0.const_mul 2).div_const len).const_sub 1).const_mul beta
      refine h2.congr_deriv ?_
      ring
    have h2 := (hasDerivAt_tanh' (beta * (1 - 2 * (x - lo) / len))).comp x h1
    have h3 := (((h2.div_const (tanh beta)).const_sub 1).const_mul (len / 2)).const_add lo
    refine h3.congr_deriv ?_
    have := tanh_ne hb
    field_simp

/-- C42: the scale factor is positive. -/
theorem fac_pos (x beta lo len : ℝ) : 0 < evalFac x beta lo len := by
  unfold evalFac
  split
  · norm_num
  · rename_i hb
    have h1 := beta_div_tanh hb
    have h2 := tanh_sq_lt_one (beta * (1 - 2 * (x - lo) / len))
    rw [mul_div_right_comm]
    exact mul_pos h1 (by linarith)

/-- C42: the coordinate map is strictly increasing. -/
theorem coord_strictMono (beta lo : ℝ) {len : ℝ} (hl : len ≠ 0) : StrictMono fun x => evalCoord x beta lo len :=
  strictMono_of_hasDerivAt_pos (fun x => coord_deriv beta lo hl x) fun x => fac_pos x beta lo len

/-- C42: the coordinate map fixes both ends and the middle. -/
theorem coord_ends (beta lo : ℝ) {len : ℝ} (hl : len ≠ 0) :
    evalCoord lo beta lo len = lo ∧ evalCoord (lo + len) beta lo len = lo + len ∧
      evalCoord (lo + len / 2) beta lo len = lo + len / 2 := by
  unfold evalCoord
  by_cases hb : beta = 0
  · simp [hb]
  · simp only [if_neg hb]
    have := tanh_ne hb
    refine ⟨?_, ?_, ?_⟩
    · simp [div_self this]
    · have e : beta * (1 - 2 * (lo + len - lo) / len) = -beta := by field_simp; ring
      rw [e, tanh_neg, neg_div, div_self this]; ring
    · have e : beta * (1 - 2 * (lo + len / 2 - lo) / len) = 0 := by field_simp; ring
      rw [e, tanh_zero]; ring

/-! ## On a mesh -/

/-- A level of a mesh of `n` cells per direction, with the physical domain as the domain. -/
structure Geom.Ok (g : Geom) (n : Fin 3 → ℕ) : Prop where
  n_pos : ∀ d, 0 < n d
  lt : ∀ d, g.lo d < g.hi d
  dx : ∀ d, g.dx d * n d = g.hi d - g.lo d
  eps0 : 0 ≤ g.eps
  eps1 : ∀ d, g.eps < g.dx d
  phys : g.physHi = none ∨ g.physHi = some g.hi

/-- The indices of a field that lie in the domain: cells `0 … n-1`, nodes `0 … n`. -/
def Inside (n : Fin 3 → ℕ) (s : Loc) (c : Fin 3 → ℤ) : Prop :=
  ∀ d, 0 ≤ c d ∧ if s d then c d ≤ n d else c d < n d

section
variable {g : Geom} {n : Fin 3 → ℕ}

theorem Geom.Ok.dx_pos (h : g.Ok n) (d : Fin 3) : 0 < g.dx d := lt_of_le_of_lt h.eps0 (h.eps1 d)

theorem Geom.Ok.phys_eq (h : g.Ok n) : g.physHi.getD g.hi = g.hi := by
  rcases h.phys with h | h <;> simp [h]

/-- The domain test accepts exactly the indices inside. -/
theorem inDomain_iff (h : g.Ok n) (s : Loc) (c : Fin 3 → ℤ) : g.inDomain s c ↔ Inside n s c := by
  unfold Geom.inDomain Inside
  refine forall_congr' fun d => ?_
  have hd := h.dx_pos d
  have he := h.eps1 d
  have h0 := h.eps0
  have hn := h.dx d
  unfold Geom.pos
  have hhi : g.hi d = g.lo d + g.dx d * n d := by linarith
  rw [hhi]
  have key : ∀ (a : ℤ) (t : ℝ), t < g.dx d → -t ≤ a * g.dx d → 0 ≤ a := by
    intro a t ht h1
    by_contra hc
    push Not at hc
    have : (a : ℝ) ≤ -1 := by exact_mod_cast (by omega : a ≤ -1)
    nlinarith
  by_cases hs : s d
  · simp only [hs, if_true]
    constructor
    · rintro ⟨h1, h2⟩
      refine ⟨key _ _ he (by linarith), ?_⟩
      have := key (n d - c d) g.eps he (by push_cast; nlinarith)
      omega
    · rintro ⟨h1, h2⟩
      have k1 : (0 : ℝ) ≤ c d := by exact_mod_cast h1
      have k2 : (c d : ℝ) ≤ n d := by exact_mod_cast h2
      constructor <;> nlinarith
  · simp only [hs, if_false, Bool.false_eq_true]
    constructor
    · rintro ⟨h1, h2⟩
      have k1 : -1 < (c d : ℝ) := by
        by_contra hc
        push Not at hc
        nlinarith
      have k2 : (c d : ℝ) < n d := by
        by_contra hc
        push Not at hc
        nlinarith
      have k1' : (-1 : ℤ) < c d := by exact_mod_cast k1
      exact ⟨by omega, by exact_mod_cast k2⟩
    · rintro ⟨h1, h2⟩
      have k1 : (0 : ℝ) ≤ c d := by exact_mod_cast h1
      have k2 : (c d : ℝ) + 1 ≤ n d := by exact_mod_cast h2
      constructor <;> nlinarith

/-- C42: every stored scale factor and determinant is positive; inside the domain the factor of a direction is the
derivative of the map that the stored coordinates evaluate at that position, and outside it is one.

Partial (C42). Missing: other physical lengths, with which factors and coordinates differ (`physical_length_factor`). -/
theorem mesh_factors_partial (h : g.Ok n) (s : Loc) (c : Fin 3 → ℤ) (d : Fin 3) :
    0 < g.fac s c d ∧ 0 < g.detJ s c ∧ g.detJ s c = ∏ e, g.fac s c e ∧
    (Inside n s c → ∃ m : ℝ → ℝ, StrictMono m ∧ m (g.lo d) = g.lo d ∧ m (g.hi d) = g.hi d ∧
      g.coord s c d = m (g.pos s c d) ∧ HasDerivAt m (g.fac s c d) (g.pos s c d)) ∧
    (¬ Inside n s c → g.coord s c d = g.pos s c d ∧ g.fac s c d = 1) := by
  have hp : ∀ e, 0 < g.fac s c e := by
    intro e
    unfold Geom.fac
    split
    · exact fac_pos _ _ _ _
    · norm_num
  refine ⟨hp d, mul_pos (mul_pos (hp 0) (hp 1)) (hp 2), ?_, ?_, ?_⟩
  · rw [Fin.prod_univ_three]; rfl
  · intro hi
    have hl : g.hi d - g.lo d ≠ 0 := by have := h.lt d; linarith
    refine ⟨fun y => evalCoord y (g.beta d) (g.lo d) (g.hi d - g.lo d), coord_strictMono _ _ hl, (coord_ends _ _ hl).1, ?_,
      ?_, ?_⟩
    · have := (coord_ends (g.beta d) (g.lo d) hl).2.1
      simpa using this
    · unfold Geom.coord
      rw [if_pos ((inDomain_iff h s c).mpr hi), h.phys_eq]
    · unfold Geom.fac
      rw [if_pos ((inDomain_iff h s c).mpr hi)]
      exact coord_deriv _ _ hl _
  · intro hi
    unfold Geom.coord Geom.fac
    rw [if_neg (fun hd => hi ((inDomain_iff h s c).mp hd)), if_neg (fun hd => hi ((inDomain_iff h s c).mp hd))]
    exact ⟨rfl, rfl⟩

/-- Where the map leaves a position in the closed domain. -/
theorem coord_mem {beta lo hi x : ℝ} (hl : lo < hi) (h1 : lo ≤ x) (h2 : x ≤ hi) :
    lo ≤ evalCoord x beta lo (hi - lo) ∧ evalCoord x beta lo (hi - lo) ≤ hi := by
  have hne : hi - lo ≠ 0 := by linarith
  have hm := (coord_strictMono beta lo hne).monotone
  obtain ⟨e1, e2, _⟩ := coord_ends beta lo hne
  have k1 := hm h1
  have k2 := hm h2
  simp only at k1 k2
  rw [e1] at k1
  rw [show hi = lo + (hi - lo) by ring] at k2
  rw [show lo + (hi - lo) - lo = hi - lo by ring, e2] at k2
  exact ⟨k1, by linarith⟩

/-- C42: on a line of cells (or of nodes) that passes through the domain, the coordinates of all indices, the ones beyond
the ends included, are strictly increasing. -/
theorem mesh_increasing (h : g.Ok n) (s : Loc) (c : Fin 3 → ℤ) (d : Fin 3)
    (hc : ∀ e, e ≠ d → 0 ≤ c e ∧ if s e then c e ≤ n e else c e < n e) :
    StrictMono fun i : ℤ => g.coord s (Function.update c d i) d := by
  intro i j hij
  simp only
  have hd := h.dx_pos d
  have hl := h.lt d
  have hne : g.hi d - g.lo d ≠ 0 := by linarith
  have hin : ∀ i : ℤ, Inside n s (Function.update c d i) ↔ (0 ≤ i ∧ if s d then i ≤ n d else i < n d) := by
    intro i
    unfold Inside
    constructor
    · intro hh
      have := hh d
      simpa using this
    · intro hh e
      by_cases he : e = d
      · subst he; simpa using hh
      · simpa [Function.update_of_ne he] using hc e he
  have hpos : ∀ i : ℤ, g.pos s (Function.update c d i) d = if s d then g.lo d + i * g.dx d else g.lo d + (i + 1 / 2) * g.dx d := by
    intro i; unfold Geom.pos; simp
  have hlt : g.pos s (Function.update c d i) d < g.pos s (Function.update c d j) d := by
    rw [hpos, hpos]
    have : (i : ℝ) < j := by exact_mod_cast hij
    split <;> nlinarith
  have hhi : g.hi d = g.lo d + g.dx d * n d := by have := h.dx d; linarith
  have hmem : ∀ i : ℤ, (0 ≤ i ∧ if s d then i ≤ n d else i < n d) →
      g.lo d ≤ g.pos s (Function.update c d i) d ∧ g.pos s (Function.update c d i) d ≤ g.hi d := by
    intro i hi
    rw [hpos, hhi]
    have k1 : (0 : ℝ) ≤ i := by exact_mod_cast hi.1
    by_cases hs : s d
    · simp only [hs, if_true] at hi ⊢
      have k2 : (i : ℝ) ≤ n d := by exact_mod_cast hi.2
      constructor <;> nlinarith
    · simp only [hs, if_false, Bool.false_eq_true] at hi ⊢
      have k2 : (i : ℝ) + 1 ≤ n d := by exact_mod_cast hi.2
      constructor <;> nlinarith
  have hout : ∀ i : ℤ, ¬ (0 ≤ i ∧ if s d then i ≤ n d else i < n d) →
      g.pos s (Function.update c d i) d < g.lo d ∨ g.hi d < g.pos s (Function.update c d i) d := by
    intro i hi
    rw [hpos, hhi]
    by_cases hi0 : 0 ≤ i
    · right
      by_cases hs : s d
      · simp only [hs, if_true] at hi ⊢
        have k2 : (n d : ℝ) + 1 ≤ i := by exact_mod_cast (by omega : (n d : ℤ) + 1 ≤ i)
        nlinarith
      · simp only [hs, if_false, Bool.false_eq_true] at hi ⊢
        have k2 : (n d : ℝ) ≤ i := by exact_mod_cast (by omega : (n d : ℤ) ≤ i)
        nlinarith
    · left
      have k2 : (i : ℝ) ≤ -1 := by exact_mod_cast (by omega : i ≤ -1)
      split <;> nlinarith
  have hval : ∀ i : ℤ, g.coord s (Function.update c d i) d = if (0 ≤ i ∧ if s d then i ≤ n d else i < n d) then
      evalCoord (g.pos s (Function.update c d i) d) (g.beta d) (g.lo d) (g.hi d - g.lo d)
      else g.pos s (Function.update c d i) d := by
    intro i
    unfold Geom.coord
    rw [h.phys_eq]
    by_cases hi : (0 ≤ i ∧ if s d then i ≤ n d else i < n d)
    · rw [if_pos ((inDomain_iff h s _).mpr ((hin i).mpr hi)), if_pos hi]
    · rw [if_neg (fun hx => hi ((hin i).mp ((inDomain_iff h s _).mp hx))), if_neg hi]
  rw [hval, hval]
  by_cases hi : (0 ≤ i ∧ if s d then i ≤ n d else i < n d) <;>
    by_cases hj : (0 ≤ j ∧ if s d then j ≤ n d else j < n d)
  · rw [if_pos hi, if_pos hj]
    exact coord_strictMono _ _ hne hlt
  · rw [if_pos hi, if_neg hj]
    have m := (coord_mem (beta := g.beta d) hl (hmem i hi).1 (hmem i hi).2).2
    have := (hmem i hi).1
    rcases hout j hj with k | k <;> linarith
  · rw [if_neg hi, if_pos hj]
    have m := (coord_mem (beta := g.beta d) hl (hmem j hj).1 (hmem j hj).2).1
    have := (hmem j hj).2
    rcases hout i hi with k | k <;> linarith
  · rw [if_neg hi, if_neg hj]
    exact hlt

/-- C42: the first and last nodes are the ends of the domain, and a cell centre lies strictly between the two nodes of
its cell, for every cell of the domain. -/
theorem mesh_cells (h : g.Ok n) (c : Fin 3 → ℤ) (d : Fin 3) (hc : Inside n (fun _ => false) c) :
    g.coord (fun _ => true) (Function.update c d 0) d = g.lo d ∧
    g.coord (fun _ => true) (Function.update c d (n d)) d = g.hi d ∧
    g.coord (fun _ => true) c d < g.coord (fun _ => false) c d ∧
    g.coord (fun _ => false) c d < g.coord (fun _ => true) (Function.update c d (c d + 1)) d := by
  have hl := h.lt d
  have hne : g.hi d - g.lo d ≠ 0 := by linarith
  have hdx := h.dx_pos d
  have hc' : ∀ d, 0 ≤ c d ∧ c d < n d := fun d => by simpa [Inside] using hc d
  have hin : ∀ i : ℤ, 0 ≤ i → i ≤ n d → Inside n (fun _ => true) (Function.update c d i) := by
    intro i h1 h2 e
    by_cases he : e = d
    · subst he; simp [h1, h2]
    · have := hc' e
      rw [Function.update_of_ne he]
      exact ⟨this.1, by simp; omega⟩
  have hval : ∀ i : ℤ, 0 ≤ i → i ≤ n d → g.coord (fun _ => true) (Function.update c d i) d =
      evalCoord (g.lo d + i * g.dx d) (g.beta d) (g.lo d) (g.hi d - g.lo d) := by
    intro i h1 h2
    unfold Geom.coord
    rw [if_pos ((inDomain_iff h _ _).mpr (hin i h1 h2)), h.phys_eq]
    simp [Geom.pos]
  obtain ⟨e1, e2, _⟩ := coord_ends (g.beta d) (g.lo d) hne
  have hcc : g.coord (fun _ => false) c d =
      evalCoord (g.lo d + (c d + 1 / 2) * g.dx d) (g.beta d) (g.lo d) (g.hi d - g.lo d) := by
    unfold Geom.coord
    rw [if_pos ((inDomain_iff h _ _).mpr hc), h.phys_eq]
    simp [Geom.pos]
  have hcn := hval (c d) (hc' d).1 (hc' d).2.le
  rw [Function.update_eq_self] at hcn
  refine ⟨?_, ?_, ?_, ?_⟩
  · rw [hval 0 le_rfl (by positivity)]
    simpa using e1
  · rw [hval (n d) (by positivity) le_rfl]
    have : g.lo d + ((n d : ℤ) : ℝ) * g.dx d = g.lo d + (g.hi d - g.lo d) := by
      rw [← h.dx d]; push_cast; ring
    rw [this, e2]; ring
  · rw [hcn, hcc]
    apply coord_strictMono _ _ hne
    linarith
  · rw [hcc, hval (c d + 1) (by have := hc' d; omega) (by have := hc' d; omega)]
    apply coord_strictMono _ _ hne
    push_cast
    linarith

end

/-- C42, the constant map: with positive factors coordinates are affine with the factor as slope, hence increasing, and
the determinant is positive. -/
theorem const_map (lo dx fac : Fin 3 → ℝ) (hdx : ∀ d, 0 < dx d) (hf : ∀ d, 0 < fac d) (s : Loc) (d : Fin 3) :
    (∀ c : Fin 3 → ℤ, constCoord lo dx fac s c d =
      lo d + fac d * ((if s d then (c d : ℝ) * dx d else (c d + 1 / 2) * dx d))) ∧
    (∀ c : Fin 3 → ℤ, StrictMono fun i : ℤ => constCoord lo dx fac s (Function.update c d i) d) ∧
    0 < constDetJ fac ∧ constDetJ fac = ∏ e, fac e := by
  refine ⟨?_, ?_, mul_pos (mul_pos (hf 0) (hf 1)) (hf 2), ?_⟩
  · intro c
    unfold constCoord
    split <;> ring
  · intro c i j hij
    unfold constCoord
    have : (i : ℝ) < j := by exact_mod_cast hij
    have hp := mul_pos (hdx d) (hf d)
    simp only [Function.update_self]
    split <;> nlinarith
  · rw [Fin.prod_univ_three]; rfl

/-! ## Examples -/

/-- A channel stretched in z: 4 × 4 × 8 cells. -/
noncomputable def chan : Geom where
  lo := fun _ => 0
  hi := fun _ => 2
  dx := ![1 / 2, 1 / 2, 1 / 4]
  beta := ![0, 0, 3]
  eps := 1 / 1000
  physHi := none

theorem chan_ok : chan.Ok ![4, 4, 8] where
  n_pos := by intro d; fin_cases d <;> simp
  lt := by intro d; norm_num [chan]
  dx := by intro d; fin_cases d <;> norm_num [chan]
  eps0 := by norm_num [chan]
  eps1 := by intro d; fin_cases d <;> norm_num [chan]
  phys := Or.inl rfl

/-- The hypotheses are met by a channel, and a cell of it is inside. -/
example : Inside ![4, 4, 8] (fun _ => false) (![1, 2, 7] : Fin 3 → ℤ) := by
  intro d; fin_cases d <;> simp

/-- The stretched map is not the identity: near the wall cells are thinner. -/
example : evalFac 0 1 0 2 < 1 := by
  unfold evalFac
  rw [if_neg (by norm_num)]
  norm_num
  have h1 := tanh_pos' (x := 1) (by norm_num)
  rw [div_lt_one h1]
  have e1 := sinh_eq 1
  have e2 := cosh_eq 1
  have hs : 0 < sinh 1 := sinh_pos_iff.mpr (by norm_num)
  have hc : 1 < cosh 1 := one_lt_cosh.mpr (by norm_num)
  have hsq := cosh_sq 1
  have hsc : 1 < sinh 1 := self_lt_sinh_iff.mpr one_pos
  have e : tanh 1 = sinh 1 / cosh 1 := tanh_eq_sinh_div_cosh 1
  rw [e]
  have k : (1 : ℝ) - (sinh 1 / cosh 1) ^ 2 = 1 / cosh 1 ^ 2 := by
    field_simp; linarith
  rw [k, div_lt_div_iff₀ (by positivity) (by linarith)]
  nlinarith

/-! ## What does not hold -/

/-- With `geometry.prob_hi_physical` twice as far as `prob_hi`, the last node of the stretched direction is at the middle
of the physical domain (for every stretching), and the factor there is not the derivative of the coordinates in
general: the factors use the length of the computational domain. -/
theorem physical_length_not_reached (beta lo len : ℝ) (hl : len ≠ 0) :
    evalCoord (lo + len) beta lo (2 * len) = lo + len := by
  have := (coord_ends beta lo (len := 2 * len) (by simpa using hl)).2.2
  rw [show lo + 2 * len / 2 = lo + len by ring] at this
  exact this

/-- ... and the factor stored for the middle of the channel is that of the full stretching although the map there has
another slope: at the upper end the stored factor is below one while the coordinates spread by a factor above one. -/
theorem physical_length_factor (lo len : ℝ) (hl : 0 < len) :
    HasDerivAt (fun y => evalCoord y 1 lo (2 * len)) (evalFac (lo + len) 1 lo (2 * len)) (lo + len) ∧
    1 < evalFac (lo + len) 1 lo (2 * len) ∧ evalFac (lo + len) 1 lo len < 1 := by
  refine ⟨coord_deriv _ _ (by linarith) _, ?_, ?_⟩
  · unfold evalFac
    rw [if_neg one_ne_zero]
    have e : 1 * (1 - 2 * (lo + len - lo) / (2 * len)) = (0 : ℝ) := by field_simp; ring
    rw [e, tanh_zero]
    norm_num
    exact one_lt_inv_iff₀.mpr ⟨tanh_pos' one_pos, tanh_lt_one 1⟩
  · unfold evalFac
    rw [if_neg one_ne_zero]
    have e : 1 * (1 - 2 * (lo + len - lo) / len) = (-1 : ℝ) := by field_simp; ring
    rw [e, tanh_neg]
    have h1 := tanh_pos' (x := 1) (by norm_num)
    rw [div_lt_one h1]
    have hsc : 1 < sinh 1 := self_lt_sinh_iff.mpr one_pos
    have hc : 1 < cosh 1 := one_lt_cosh.mpr (by norm_num)
    have hsq := cosh_sq 1
    have e : tanh 1 = sinh 1 / cosh 1 := tanh_eq_sinh_div_cosh 1
    rw [e]
    have k : 1 * (1 - (-(sinh 1 / cosh 1)) ^ 2) = 1 / cosh 1 ^ 2 := by
      field_simp; linarith
    rw [k, div_lt_div_iff₀ (by positivity) (by linarith)]
    nlinarith

/-- Beyond the end of a periodic direction the factors are not those of the periodic image: in a ghost cell outside in
x the factor of the stretched direction z is one. -/
theorem ghost_not_periodic : chan.fac (fun _ => false) ![4, 0, 0] 2 = 1 ∧ chan.fac (fun _ => false) ![0, 0, 0] 2 ≠ 1 := by
  constructor
  · refine ((mesh_factors_partial chan_ok _ _ 2).2.2.2.2 ?_).2
    intro h
    have := (h 0).2
    simp at this
  · have hin : Inside ![4, 4, 8] (fun _ => false) (![0, 0, 0] : Fin 3 → ℤ) := by
      intro d; fin_cases d <;> simp
    unfold Geom.fac
    rw [if_pos ((inDomain_iff chan_ok _ _).mpr hin)]
    have hx : chan.pos (fun _ => false) ![0, 0, 0] 2 = 1 / 8 := by
      simp [Geom.pos, chan]
      norm_num
    rw [hx]
    have : chan.beta 2 = 3 ∧ chan.lo 2 = 0 ∧ chan.hi 2 = 2 := by simp [chan]
    rw [this.1, this.2.1, this.2.2]
    unfold evalFac
    rw [if_neg (by norm_num)]
    have e : (3 : ℝ) * (1 - 2 * (1 / 8 - 0) / (2 - 0)) = 21 / 8 := by norm_num
    rw [e]
    intro h
    have h3 := tanh_pos' (x := 3) (by norm_num)
    rw [div_eq_one_iff_eq h3.ne'] at h
    -- 1 - tanh² < 1/5 while tanh 3 > 3/5
    have hs : 21 / 8 < sinh (21 / 8) := self_lt_sinh_iff.mpr (by norm_num)
    have hs3 : 3 < sinh 3 := self_lt_sinh_iff.mpr (by norm_num)
    have hc := cosh_sq (21 / 8)
    have hc3 := cosh_sq 3
    have k : 1 - tanh (21 / 8) ^ 2 = 1 / cosh (21 / 8) ^ 2 := by
      have := cosh_pos (21 / 8)
      rw [tanh_eq_sinh_div_cosh]; field_simp; linarith
    have k1 : 1 / cosh (21 / 8) ^ 2 < 1 / 5 := by
      apply one_div_lt_one_div_of_lt (by norm_num)
      nlinarith
    have k2 : 9 / 10 < tanh 3 ^ 2 - 0 := by
      have := cosh_pos 3
      rw [tanh_eq_sinh_div_cosh, div_pow, sub_zero, hc3, lt_div_iff₀ (by positivity)]
      nlinarith
    have k3 : tanh 3 < 3 / 5 := by rw [← h, k]; linarith
    nlinarith

end AmrWind.ChanMap
