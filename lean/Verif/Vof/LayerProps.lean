import Verif.Vof.OrderProps

/-!
# C54: a flat interface is reconstructed and swept exactly
-/

namespace AmrWind.Vof

/-- The field depends only on the index in direction `d`. -/
def Layered (d : Dir) (φ : ℤ → ℝ) (c : Cell → ℝ) : Prop := ∀ a, c a = φ (d.idx a)

/-- The vector with `s` in direction `d` and zero elsewhere. -/
def Dir.vec : Dir → ℝ → ℝ × ℝ × ℝ
  | .x, s => (s, 0, 0)
  | .y, s => (0, s, 0)
  | .z, s => (0, 0, s)

theorem sgn_abs (p : Prop) [Decidable p] : |if p then (1 : ℝ) else -1| = 1 := by
  by_cases h : p <;> simp [h]

theorem ratio_lt {D t : ℝ} (hD : D ≠ 0) (ht : 0 < t) : |16 * D / (|16 * D| + t)| < 1 ∧ 0 < |16 * D / (|16 * D| + t)| := by
  have hp : 0 < |16 * D| := abs_pos.mpr (by positivity)
  rw [abs_div, abs_of_pos (by linarith : 0 < |16 * D| + t)]
  exact ⟨(div_lt_one (by linarith)).mpr (by linarith), div_pos hp (by linarith)⟩

/-- The normal of a layered field points along the layers' direction, from fluid to void, in all six orientations. -/
theorem layered_normal {tiny : ℝ} (ht : 0 < tiny) {d : Dir} {φ : ℤ → ℝ} {c : Cell → ℝ} (hl : Layered d φ c) (a : Cell)
    (hD : φ (d.idx a - 1) ≠ φ (d.idx a + 1)) :
    ∃ q : ℝ, 0 < q ∧ mixedYoungs tiny c a = d.vec (q * (φ (d.idx a - 1) - φ (d.idx a + 1))) := by
  obtain ⟨i, j, k⟩ := a
  have hc : c = fun a => φ (d.idx a) := funext hl
  subst hc
  have one : |(-1 : ℝ)| = 1 := by norm_num
  generalize hDv : φ (d.idx (i, j, k) - 1) - φ (d.idx (i, j, k) + 1) = D
  have hD0 : D ≠ 0 := by rw [← hDv]; exact sub_ne_zero.mpr hD
  obtain ⟨r1, r2⟩ := ratio_lt hD0 ht
  have hpos : 0 < |16 * D| + tiny := by positivity
  refine ⟨16 / (|16 * D| + tiny), by positivity, ?_⟩
  have hfin : 16 / (|16 * D| + tiny) * D = 16 * D / (|16 * D| + tiny) := by ring
  rw [hfin]
  have small : ∀ s : ℝ, |s| = 1 → |s / (|3 / 2 * D| + 1)| < 1 := by
    intro s hs
    have : 0 < |3 / 2 * D| := abs_pos.mpr (by positivity)
    rw [abs_div, hs, abs_of_pos (by linarith : 0 < |3 / 2 * D| + 1)]
    exact (div_lt_one (by linarith)).mpr (by linarith)
  have hs1 := small (-1) one
  cases d
  · simp only [Dir.idx] at hDv
    have hY : youngs (fun a => φ (Dir.x.idx a)) (i, j, k) = (16 * D, 0, 0) := by
      simp only [youngs, Dir.idx, Prod.mk.injEq]
      refine ⟨?_, ?_, ?_⟩ <;> (try rw [← hDv]) <;> ring
    have hX : ∃ s : ℝ, |s| = 1 ∧ centralX (fun a => φ (Dir.x.idx a)) (i, j, k) = (s, 0, 0) := by
      simp only [centralX, Dir.idx]
      refine ⟨_, ?_, Prod.ext rfl (Prod.ext ?_ ?_)⟩
      · exact sgn_abs _
      · ring
      · ring
    have hYY : centralY (fun a => φ (Dir.x.idx a)) (i, j, k) = (3 / 2 * D, -1, 0) := by
      simp only [centralY, Dir.idx, Prod.mk.injEq]
      refine ⟨by rw [← hDv]; ring, if_neg (by simp), by ring⟩
    have hZZ : centralZ (fun a => φ (Dir.x.idx a)) (i, j, k) = (3 / 2 * D, 0, -1) := by
      simp only [centralZ, Dir.idx, Prod.mk.injEq]
      refine ⟨by rw [← hDv]; ring, by ring, if_neg (by simp)⟩
    obtain ⟨s, hs, hX⟩ := hX
    unfold mixedYoungs
    rw [hX, hYY, hZZ, hY]
    simp only [normalise, abs_zero, add_zero, zero_add, hs, one, div_one, zero_div]
    rw [if_neg (by linarith : ¬ (1 : ℝ) < |(-1 : ℝ) / (|3 / 2 * D| + 1)|),
      if_neg (by linarith : ¬ (1 : ℝ) < |(-1 : ℝ) / (|3 / 2 * D| + 1)|),
      if_neg (by linarith : ¬ (1 : ℝ) < |(-1 : ℝ) / (|3 / 2 * D| + 1)|)]
    rw [max_eq_right r2.le, max_eq_right r2.le, hs, if_pos ⟨r1, r2⟩]
    rfl
  · simp only [Dir.idx] at hDv
    have hY : youngs (fun a => φ (Dir.y.idx a)) (i, j, k) = (0, 16 * D, 0) := by
      simp only [youngs, Dir.idx, Prod.mk.injEq]
      refine ⟨?_, ?_, ?_⟩ <;> (try rw [← hDv]) <;> ring
    have hX : ∃ s : ℝ, |s| = 1 ∧ centralY (fun a => φ (Dir.y.idx a)) (i, j, k) = (0, s, 0) := by
      simp only [centralY, Dir.idx]
      refine ⟨_, ?_, Prod.ext ?_ (Prod.ext rfl ?_)⟩
      · exact sgn_abs _
      · ring
      · ring
    have hYY : centralX (fun a => φ (Dir.y.idx a)) (i, j, k) = (-1, 3 / 2 * D, 0) := by
      simp only [centralX, Dir.idx, Prod.mk.injEq]
      refine ⟨if_neg (by simp), by rw [← hDv]; ring, by ring⟩
    have hZZ : centralZ (fun a => φ (Dir.y.idx a)) (i, j, k) = (0, 3 / 2 * D, -1) := by
      simp only [centralZ, Dir.idx, Prod.mk.injEq]
      refine ⟨by ring, by rw [← hDv]; ring, if_neg (by simp)⟩
    obtain ⟨s, hs, hX⟩ := hX
    unfold mixedYoungs
    rw [hX, hYY, hZZ, hY]
    simp only [normalise, abs_zero, add_zero, zero_add, hs, one, div_one, zero_div]
    rw [add_comm 1 |3 / 2 * D|]
    rw [if_pos hs1, if_neg (by linarith : ¬ (1 : ℝ) < |(-1 : ℝ) / (|3 / 2 * D| + 1)|),
      if_neg (by linarith : ¬ (1 : ℝ) < |(-1 : ℝ) / (|3 / 2 * D| + 1)|), if_pos hs1]
    rw [max_eq_left r2.le, max_eq_right r2.le, hs, if_pos ⟨r1, r2⟩]
    rfl
  · simp only [Dir.idx] at hDv
    have hY : youngs (fun a => φ (Dir.z.idx a)) (i, j, k) = (0, 0, 16 * D) := by
      simp only [youngs, Dir.idx, Prod.mk.injEq]
      refine ⟨?_, ?_, ?_⟩ <;> (try rw [← hDv]) <;> ring
    have hX : ∃ s : ℝ, |s| = 1 ∧ centralZ (fun a => φ (Dir.z.idx a)) (i, j, k) = (0, 0, s) := by
      simp only [centralZ, Dir.idx]
      refine ⟨_, ?_, Prod.ext ?_ (Prod.ext ?_ rfl)⟩
      · exact sgn_abs _
      · ring
      · ring
    have hYY : centralX (fun a => φ (Dir.z.idx a)) (i, j, k) = (-1, 0, 3 / 2 * D) := by
      simp only [centralX, Dir.idx, Prod.mk.injEq]
      refine ⟨if_neg (by simp), by ring, by rw [← hDv]; ring⟩
    have hZZ : centralY (fun a => φ (Dir.z.idx a)) (i, j, k) = (0, -1, 3 / 2 * D) := by
      simp only [centralY, Dir.idx, Prod.mk.injEq]
      refine ⟨by ring, if_neg (by simp), by rw [← hDv]; ring⟩
    obtain ⟨s, hs, hX⟩ := hX
    unfold mixedYoungs
    rw [hX, hYY, hZZ, hY]
    simp only [normalise, abs_zero, add_zero, zero_add, hs, one, div_one, zero_div]
    rw [add_comm 1 |3 / 2 * D|]
    rw [if_neg (lt_irrefl _), if_pos hs1, if_pos hs1]
    rw [max_self, max_eq_left r2.le, hs, if_pos ⟨r1, r2⟩]
    rfl

/-- Volume and intercept agree for a plane normal to an axis. -/
theorem intercept_axis {t v : ℝ} (ht : 0 < t) (h0 : 0 ≤ v) (h1 : v ≤ 1) {b1 b2 b3 : ℝ}
    (hb : (b1, b2, b3) = (1, 0, 0) ∨ (b1, b2, b3) = (0, 1, 0) ∨ (b1, b2, b3) = (0, 0, 1)) :
    volumeIntercept t t b1 b2 b3 v = some v := by
  have ho : order3 b1 b2 b3 = (0, 0, 1) := by
    rcases hb with h | h | h <;> simp only [Prod.mk.injEq] at h <;> obtain ⟨rfl, rfl, rfl⟩ := h <;> norm_num [order3]
  unfold volumeIntercept
  rw [ho]
  have hi : ∀ ch : ℝ, 0 ≤ ch → interceptOrdered t t 0 0 1 ch = some ch := by
    intro ch hch
    unfold interceptOrdered
    have hp : max (6 * 0 * 0 * 1 : ℝ) t = t := max_eq_right (by norm_num; exact ht.le)
    simp only [hp, ht.ne', one_ne_zero, or_self, if_false]
    norm_num
    rw [if_neg (not_lt.mpr hch), if_neg (not_lt.mpr hch), if_neg (not_lt.mpr hch)]
  simp only
  rw [hi _ (le_min h0 (by linarith)), Option.map_some]
  congr 1
  rcases le_or_gt v (1 / 2) with h | h
  · rw [if_neg (not_lt.mpr h), min_eq_left (by linarith)]
  · rw [if_pos h, min_eq_right (by linarith)]; ring

/-- Fluid on the low side of the cell up to height `v`: the share of a slab `[x0, x0 + δ]` of the cell that is fluid. -/
noncomputable def share (v x0 δ : ℝ) : ℝ := max 0 (min 1 ((v - x0) / δ))

/-- The sign of the normal. -/
noncomputable def sgn (D : ℝ) : ℝ := if D < 0 then -1 else 1

/-- C54. The plane fitted to a layered field: the normal is the unit vector from fluid to void, and the plane is at the
height given by the volume fraction, from the low face or from the high face. -/
theorem layered_fit {tiny v : ℝ} (ht : 0 < tiny) (h0 : 0 ≤ v) (h1 : v ≤ 1) (d : Dir) {D : ℝ} (hD : D ≠ 0) :
    fitPlane tiny tiny (d.vec D).1 (d.vec D).2.1 (d.vec D).2.2 v =
      some ((d.vec (sgn D)).1, (d.vec (sgn D)).2.1, (d.vec (sgn D)).2.2, if D < 0 then v - 1 else v) := by
  have hv1 := intercept_axis ht h0 h1 (b1 := 1) (b2 := 0) (b3 := 0) (Or.inl rfl)
  have hv2 := intercept_axis ht h0 h1 (b1 := 0) (b2 := 1) (b3 := 0) (Or.inr (Or.inl rfl))
  have hv3 := intercept_axis ht h0 h1 (b1 := 0) (b2 := 0) (b3 := 1) (Or.inr (Or.inr rfl))
  rcases lt_or_gt_of_ne hD with h | h
  · have hn : -D ≠ 0 := by simpa using hD
    cases d <;> unfold fitPlane sgn Dir.vec <;>
      simp only [h, if_true, lt_irrefl, if_false, add_zero, zero_add, hn, div_self hn, zero_div, hv1, hv2, hv3,
        Option.map_some, mul_one, mul_zero] <;> norm_num <;> ring
  · have hn : ¬ D < 0 := by linarith
    cases d <;> unfold fitPlane sgn Dir.vec <;>
      simp only [hn, if_true, lt_irrefl, if_false, add_zero, zero_add, hD, div_self hD, zero_div, hv1, hv2, hv3,
        Option.map_some, mul_one, mul_zero] <;> norm_num

theorem plic_axis {tiny a : ℝ} (h0 : 0 ≤ a) : plic tiny 0 0 1 a = a := by
  unfold plic
  rcases lt_or_eq_of_le h0 with h | h
  · norm_num [h, not_lt.mpr h0]
  · subst h; norm_num

theorem half_fold {w : ℝ} (f : ℝ → ℝ) (hf : ∀ a, 0 ≤ a → f a = a) (h0 : 0 ≤ w) (h1 : w ≤ 1) :
    (if w ≤ 1 / 2 then f (min w (1 - w)) else 1 - f (min w (1 - w))) = w := by
  rw [hf _ (le_min h0 (by linarith))]
  split
  · rw [min_eq_left (by linarith)]
  · rw [min_eq_right (by linarith)]; ring

/-- Sweeping along the normal. -/
theorem cut_axis_first {tiny s v x0 δ : ℝ} (hδ : 0 < δ) (hs : s = 1 ∨ s = -1) :
    cutVolume tiny s 0 0 (if s < 0 then v - 1 else v) x0 δ =
      some (if s < 0 then share v (1 - x0 - δ) δ else share v x0 δ) := by
  have ho : order3 (1 / δ * δ) 0 0 = (0, 0, 1) := by
    rw [one_div_mul_cancel hδ.ne']; norm_num [order3]
  unfold cutVolume
  have hm : |s| = 1 := by rcases hs with rfl | rfl <;> norm_num
  simp only [hm, abs_zero, one_mul, add_zero, hδ.ne', if_false, zero_div, neg_zero, max_self, ho]
  rw [half_fold (fun a => plic tiny 0 0 1 a) (fun a => plic_axis) (le_max_left _ _)
    (max_le zero_le_one (min_le_left _ _))]
  congr 1
  unfold share
  rcases hs with rfl | rfl
  · rw [if_neg (by norm_num), if_neg (by norm_num), max_eq_left (by linarith : -1 * δ ≤ 0)]
    ring_nf
  · rw [if_pos (by norm_num), if_pos (by norm_num), max_eq_right (by linarith : (0 : ℝ) ≤ - -1 * δ)]
    ring_nf

/-- Sweeping across the normal: every slab holds the fraction of the cell. -/
theorem cut_axis_other {tiny s v x0 δ : ℝ} (h0 : 0 ≤ v) (h1 : v ≤ 1) (hs : s = 1 ∨ s = -1) :
    cutVolume tiny 0 s 0 (if s < 0 then v - 1 else v) x0 δ = some v ∧
    cutVolume tiny 0 0 s (if s < 0 then v - 1 else v) x0 δ = some v := by
  have o1 : order3 (0 : ℝ) 1 0 = (0, 0, 1) := by norm_num [order3]
  have o2 : order3 (0 : ℝ) 0 1 = (0, 0, 1) := by norm_num [order3]
  have hm : |s| = 1 := by rcases hs with rfl | rfl <;> norm_num
  have key : (if max 0 (min 1 v) ≤ 1 / 2 then plic tiny 0 0 1 (min (max 0 (min 1 v)) (1 - max 0 (min 1 v)))
      else 1 - plic tiny 0 0 1 (min (max 0 (min 1 v)) (1 - max 0 (min 1 v)))) = v := by
    rw [min_eq_right h1, max_eq_right h0]
    exact half_fold (fun a => plic tiny 0 0 1 a) (fun a => plic_axis) h0 h1
  have hal : (if s < 0 then v - 1 else v) + max 0 (-s) = v := by
    rcases hs with rfl | rfl
    · norm_num
    · norm_num
  constructor
  · unfold cutVolume
    simp only [hm, abs_zero, zero_mul, zero_add, add_zero, one_ne_zero, if_false, zero_div, div_one, neg_zero,
      max_self, o1, sub_zero, hal]
    rw [key]
  · unfold cutVolume
    simp only [hm, abs_zero, zero_mul, zero_add, add_zero, one_ne_zero, if_false, zero_div, div_one, neg_zero,
      max_self, o2, sub_zero, hal]
    rw [key]

/-- C54. A sweep of a partly filled cell of a layered field carries exactly what geometry says: across the layers every
swept slab holds the fraction `v` of the cell; along them the slab holds the part of it between the low face and height
`v` (or between the high face and depth `v` if the fluid is on the high side). No guard constant enters. -/
theorem layered_sweep {e thr : ℝ} (he : 0 < e) {d dir : Dir} {φ : ℤ → ℝ} {c : Cell → ℝ} (hl : Layered d φ c)
    (a : Cell) (hD : φ (d.idx a - 1) ≠ φ (d.idx a + 1)) (h0 : 0 ≤ c a) (h1 : c a ≤ 1)
    (hfull : thr < |c a - 1|) (hempty : thr < c a) (aL aR : ℝ) :
    eulerianImplicit ⟨e, thr⟩ dir aL aR c a = some (
      if aL < 0 then
        (if dir = d then
          (if φ (d.idx a + 1) < φ (d.idx a - 1) then share (c a) 0 (-aL) else share (c a) (1 + aL) (-aL))
        else c a) else 0,
      if 0 < aR then
        (if dir = d then
          (if φ (d.idx a + 1) < φ (d.idx a - 1) then share (c a) (1 - aR) aR else share (c a) 0 aR)
        else c a) else 0) := by
  obtain ⟨q, hq, hn⟩ := layered_normal he hl a hD
  unfold eulerianImplicit
  simp only
  rw [if_neg (not_le.mpr hfull), if_pos hempty, hn]
  have hD' : q * (φ (d.idx a - 1) - φ (d.idx a + 1)) ≠ 0 := mul_ne_zero hq.ne' (sub_ne_zero.mpr hD)
  rw [layered_fit he h0 h1 d hD']
  have hneg : q * (φ (d.idx a - 1) - φ (d.idx a + 1)) < 0 ↔ ¬ φ (d.idx a + 1) < φ (d.idx a - 1) := by
    constructor
    · intro h h'
      have := mul_pos hq (sub_pos.mpr h')
      linarith
    · intro h
      have h2 := lt_of_le_of_ne (not_lt.mp h) hD
      exact mul_neg_of_pos_of_neg hq (by linarith)
  generalize q * (φ (d.idx a - 1) - φ (d.idx a + 1)) = D at *
  have hs : sgn D = 1 ∨ sgn D = -1 := by
    unfold sgn; split
    · exact Or.inr rfl
    · exact Or.inl rfl
  have hsD : (if D < 0 then c a - 1 else c a) = if sgn D < 0 then c a - 1 else c a := by
    unfold sgn
    by_cases h : D < 0
    · rw [if_pos h, if_pos h, if_pos (by norm_num)]
    · rw [if_neg h, if_neg h, if_neg (by norm_num)]
  have hsn : sgn D < 0 ↔ ¬ φ (d.idx a + 1) < φ (d.idx a - 1) := by
    rw [← hneg]
    unfold sgn
    by_cases h : D < 0
    · rw [if_pos h]; simp [h]
    · rw [if_neg h]; simp [h]
  rw [hsD]
  have first : ∀ x0 δ, 0 < δ → cutVolume e (sgn D) 0 0 (if sgn D < 0 then c a - 1 else c a) x0 δ =
      some (if φ (d.idx a + 1) < φ (d.idx a - 1) then share (c a) x0 δ else share (c a) (1 - x0 - δ) δ) := by
    intro x0 δ hδ
    rw [cut_axis_first hδ hs]
    by_cases h : sgn D < 0
    · rw [if_pos h, if_neg (hsn.mp h)]
    · rw [if_neg h, if_pos (by by_contra h'; exact h (hsn.mpr h'))]
  have other : ∀ x0 δ, cutVolume e 0 (sgn D) 0 (if sgn D < 0 then c a - 1 else c a) x0 δ = some (c a) ∧
      cutVolume e 0 0 (sgn D) (if sgn D < 0 then c a - 1 else c a) x0 δ = some (c a) :=
    fun x0 δ => cut_axis_other h0 h1 hs
  have e1 : ∀ x : ℝ, 1 - 0 - -x = 1 + x := fun x => by ring
  have e2 : ∀ x : ℝ, 1 - (1 - x) - x = 0 := fun x => by ring
  by_cases hL : aL < 0 <;> by_cases hR : 0 < aR <;> cases d <;> cases dir <;>
    simp [hL, hR, Dir.vec, first, other, e1, e2] 

/-- Water one third up the cell: an upward sweep by half a cell takes nothing, a downward one two thirds of the slab, a
sideways one one third. -/
example (e : ℝ) (he : 0 < e) :
    let φ : ℤ → ℝ := fun k => if k < 0 then 1 else if k = 0 then 1 / 3 else 0
    let c : Cell → ℝ := fun a => φ (Dir.z.idx a)
    eulerianImplicit ⟨e, 1 / 10⟩ .z (-1 / 2) (1 / 2) c (0, 0, 0) = some (2 / 3, 0) ∧
    eulerianImplicit ⟨e, 1 / 10⟩ .x 0 (1 / 2) c (0, 0, 0) = some (0, 1 / 3) := by
  intro φ c
  have hl : Layered .z φ c := fun _ => rfl
  have hv : c (0, 0, 0) = 1 / 3 := by norm_num [c, φ, Dir.idx]
  have hm : φ (Dir.z.idx (0, 0, 0) - 1) = 1 := by norm_num [φ, Dir.idx]
  have hp : φ (Dir.z.idx (0, 0, 0) + 1) = 0 := by norm_num [φ, Dir.idx]
  constructor
  · rw [layered_sweep he hl (0, 0, 0) (by rw [hm, hp]; norm_num) (by rw [hv]; norm_num) (by rw [hv]; norm_num)
      (by rw [hv]; norm_num [abs_of_neg]) (by rw [hv]; norm_num), hm, hp, hv]
    norm_num [share]
  · rw [layered_sweep he hl (0, 0, 0) (by rw [hm, hp]; norm_num) (by rw [hv]; norm_num) (by rw [hv]; norm_num)
      (by rw [hv]; norm_num [abs_of_neg]) (by rw [hv]; norm_num), hm, hp, hv]
    norm_num
    intro h
    cases h

end AmrWind.Vof
