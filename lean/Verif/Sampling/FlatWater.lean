import Verif.Sampling.FreeSurfaceProps

/-!
# C72: the height of flat water

Specification: `FlatWater` is still water up to the height `h`; the value of a cell is the part of its height below `h`.
-/

set_option linter.unusedSectionVars false

namespace AmrWind.FreeSurface

open AmrWind.Vof (Dir fitPlane mixedYoungs Layered layered_normal layered_fit)
open AmrWind.Plane (irange mem_irange cells mem_cells)

/-- The geometry of a level. -/
structure Grid.Ok (g : Grid ℝ) : Prop where
  dx : ∀ d, 0 < g.dx d
  phi : ∀ d, g.phi d = g.plo d + g.n d * g.dx d

/-- Still water up to height `h` in direction `d`; the ghost cells below hold at least as much as the lowest cell and the
ghost cells above at most as much as the highest (as constant extrapolation or the exact values do). -/
structure FlatWater (g : Grid ℝ) (d : Dir) (h : ℝ) (φ : ℤ → ℝ) : Prop where
  inside : ∀ k : ℤ, 0 ≤ k → k < g.n d → φ k = max 0 (min 1 ((h - (g.plo d + k * g.dx d)) / g.dx d))
  below : φ 0 ≤ φ (-1)
  above : φ (g.n d) ≤ φ (g.n d - 1)

theorem mapM_some {α β : Type*} {f : α → Option β} {g : α → β} : ∀ {l : List α}, (∀ a ∈ l, f a = some (g a)) →
    l.mapM f = some (l.map g)
  | [], _ => rfl
  | a :: l, h => by
    rw [List.mapM_cons, h a (by simp), mapM_some fun b hb => h b (by simp [hb])]
    rfl

theorem xm_lo (g : Grid ℝ) (a : Cell) (d : Dir) : xm g a d - 1 / 2 * g.dx d = g.plo d + d.idx a * g.dx d := by
  unfold xm; ring

theorem xm_hi (g : Grid ℝ) (a : Cell) (d : Dir) : xm g a d + 1 / 2 * g.dx d = g.plo d + (d.idx a + 1) * g.dx d := by
  unfold xm; ring

/-- The height of a level plane, in every direction. -/
theorem planeHeight_level {g : Grid ℝ} (hg : g.Ok) (d : Dir) (a : Cell) (v l0 l1 : ℝ) :
    planeHeight g d (d.vec 1) v a l0 l1 = g.plo d + (d.idx a + v) * g.dx d := by
  have h1 : pick (d.vec 1) d = (1 : ℝ) := by cases d <;> rfl
  have h2 : pick (d.vec (1 : ℝ)) (gc0 d) = 0 := by cases d <;> rfl
  have h3 : pick (d.vec (1 : ℝ)) (gc1 d) = 0 := by cases d <;> rfl
  unfold planeHeight
  rw [h1, h2, h3, if_neg one_ne_zero, xm_lo]
  have := (hg.dx d).ne'
  field_simp
  ring

theorem limitHeight_id {feps : ℝ} (hf : 0 ≤ feps) {g : Grid ℝ} (hg : g.Ok) (d : Dir) (a : Cell) {ht : ℝ}
    (h1 : g.plo d + d.idx a * g.dx d ≤ ht) (h2 : ht ≤ g.plo d + (d.idx a + 1) * g.dx d) : limitHeight feps g d a ht = ht := by
  unfold limitHeight
  simp only
  rw [xm_lo, if_neg (not_lt.mpr h1), if_neg]
  rw [not_lt]
  have := xm_hi g a d
  have := hg.dx d
  nlinarith

/-- What a cell reports in flat water. -/
noncomputable def flatReport (tol : ℝ) (g : Grid ℝ) (d : Dir) (h : ℝ) (φ : ℤ → ℝ) (k : ℤ) : List ℝ :=
  if 1 - tol ≤ φ k then [g.plo d + (k + 1) * g.dx d] else if tol < φ k then [h] else []

theorem flat_value {g : Grid ℝ} (hg : g.Ok) {d : Dir} {h : ℝ} {φ : ℤ → ℝ} (hw : FlatWater g d h φ) {k : ℤ} (h0 : 0 ≤ k)
    (h1 : k < g.n d) : (0 ≤ φ k ∧ φ k ≤ 1) ∧ (φ k < 1 → h ≤ g.plo d + k * g.dx d + φ k * g.dx d) ∧
      (0 < φ k → g.plo d + k * g.dx d + φ k * g.dx d ≤ h) := by
  have hd := hg.dx d
  rw [hw.inside k h0 h1]
  refine ⟨⟨le_max_left _ _, max_le (by norm_num) (min_le_left _ _)⟩, fun hlt => ?_, fun hgt => ?_⟩
  · have h2 : (h - (g.plo d + k * g.dx d)) / g.dx d < 1 := by
      by_contra hc
      rw [min_eq_left (not_lt.mp hc)] at hlt
      norm_num at hlt
    rw [min_eq_right h2.le]
    have h3 : (h - (g.plo d + k * g.dx d)) / g.dx d * g.dx d = h - (g.plo d + k * g.dx d) := div_mul_cancel₀ _ hd.ne'
    have h4 := le_max_right 0 ((h - (g.plo d + k * g.dx d)) / g.dx d)
    nlinarith
  · have h2 : 0 < (h - (g.plo d + k * g.dx d)) / g.dx d := by
      by_contra hc
      rw [max_eq_left (le_trans (min_le_right _ _) (not_lt.mp hc))] at hgt
      exact lt_irrefl _ hgt
    have h3 : (h - (g.plo d + k * g.dx d)) / g.dx d * g.dx d = h - (g.plo d + k * g.dx d) := div_mul_cancel₀ _ hd.ne'
    rw [max_eq_right (le_min (by norm_num) h2.le)]
    have h4 := min_le_right 1 ((h - (g.plo d + k * g.dx d)) / g.dx d)
    nlinarith

/-- The drop from the cell below to the cell above a surface cell. -/
theorem flat_drop {g : Grid ℝ} (hg : g.Ok) {d : Dir} (hn : 2 ≤ g.n d) {h : ℝ} {φ : ℤ → ℝ} (hw : FlatWater g d h φ) {k : ℤ}
    (h0 : 0 ≤ k) (h1 : k < g.n d) (hp : 0 < φ k) (hq : φ k < 1) : φ (k + 1) < φ (k - 1) := by
  have hd := hg.dx d
  obtain ⟨-, ha, hb⟩ := flat_value hg hw h0 h1
  have ha := ha hq
  have hb := hb hp
  have below : φ k ≤ φ (k - 1) ∧ (0 < k → φ (k - 1) = 1) := by
    by_cases hk : k = 0
    · subst hk; exact ⟨hw.below, fun h => absurd h (lt_irrefl _)⟩
    · have : φ (k - 1) = 1 := by
        rw [hw.inside (k - 1) (by omega) (by omega)]
        have : 1 ≤ (h - (g.plo d + ((k - 1 : ℤ) : ℝ) * g.dx d)) / g.dx d := by
          rw [le_div_iff₀ hd]; push_cast; nlinarith
        rw [min_eq_left this]; norm_num
      exact ⟨by rw [this]; exact hq.le, fun _ => this⟩
  have above : φ (k + 1) ≤ φ k ∧ (k + 1 < g.n d → φ (k + 1) = 0) := by
    by_cases hk : k + 1 < g.n d
    · have : φ (k + 1) = 0 := by
        rw [hw.inside (k + 1) (by omega) hk]
        have : (h - (g.plo d + ((k + 1 : ℤ) : ℝ) * g.dx d)) / g.dx d ≤ 0 := by
          rw [div_le_iff₀ hd]; push_cast; nlinarith
        rw [max_eq_left (le_trans (min_le_right _ _) this)]
      exact ⟨by rw [this]; exact hp.le, fun _ => this⟩
    · have hk' : k + 1 = g.n d := by omega
      refine ⟨?_, fun h => absurd h hk⟩
      have := hw.above
      rw [← hk'] at this
      simpa using this
  by_cases hk : k = 0
  · rw [above.2 (by omega)]; linarith [below.1]
  · rw [below.2 (by omega)]; linarith [above.1]

/-- The report of a cell, for every grid point of the cell. -/
theorem cellHeight_flat {tiny tol feps : ℝ} (ht : 0 < tiny) (htol : 0 ≤ tol) (hf : 0 ≤ feps)
    {g : Grid ℝ} (hg : g.Ok) {d : Dir} (hn : 2 ≤ g.n d) {h : ℝ} {φ : ℤ → ℝ} (hw : FlatWater g d h φ) {c : Cell → ℝ}
    (hc : Layered d φ c) {a : Cell} (h0 : 0 ≤ d.idx a) (h1 : d.idx a < g.n d) (l0 l1 : ℝ) :
    cellHeight tiny tol feps g d 0 c a l0 l1 = some (flatReport tol g d h φ (d.idx a)) := by
  have hd := hg.dx d
  obtain ⟨⟨hv0, hv1⟩, hva, hvb⟩ := flat_value hg hw h0 h1
  unfold cellHeight cellPlane flatReport
  rw [hc a]
  by_cases hful : 1 - tol ≤ φ (d.idx a)
  · rw [if_neg (fun hh => absurd hh.1 (not_lt.mpr hful)), if_pos (Or.inl ⟨by norm_num, hful⟩), if_pos hful]
    simp only [Nat.zero_mod, ne_eq, not_true_eq_false, if_false, Option.map_some]
    rw [planeHeight_level hg, limitHeight_id hf hg] <;> nlinarith
  · rw [if_neg hful]
    by_cases hm : tol < φ (d.idx a)
    · rw [if_pos ⟨not_le.mp hful, hm⟩, if_pos hm]
      have hp : 0 < φ (d.idx a) := lt_of_le_of_lt htol hm
      have hq : φ (d.idx a) < 1 := by linarith [not_le.mp hful]
      have hdrop := flat_drop hg hn hw h0 h1 hp hq
      obtain ⟨q, hq0, hmy⟩ := layered_normal ht hc a (by linarith [hdrop] : φ (d.idx a - 1) ≠ φ (d.idx a + 1)) 
      have hD : 0 < q * (φ (d.idx a - 1) - φ (d.idx a + 1)) := mul_pos hq0 (by linarith)
      have hfit := layered_fit ht hv0 hv1 d hD.ne'
      simp only [hmy]
      rw [hfit]
      have hs : AmrWind.Vof.sgn (q * (φ (d.idx a - 1) - φ (d.idx a + 1))) = 1 := if_neg (not_lt.mpr hD.le)
      rw [hs, if_neg (not_lt.mpr hD.le)]
      simp only [Option.map_some]
      have hht : g.plo d + (d.idx a + φ (d.idx a)) * g.dx d = h := by
        have := hva hq
        have := hvb hp
        nlinarith
      have e := planeHeight_level hg d a (φ (d.idx a)) l0 l1
      rw [show ((d.vec 1).1, (d.vec 1).2.1, (d.vec (1 : ℝ)).2.2) = d.vec 1 from rfl, e, limitHeight_id hf hg, hht] <;>
        nlinarith
    · rw [if_neg (fun hh => hm hh.2), if_neg (by
        rintro (hh | hh)
        · exact hful hh.2
        · exact hh.1 (by norm_num)), if_neg hm]
      rfl

theorem foldl_max_spec (l : List ℝ) (p : ℝ) : (p ≤ l.foldl max p ∧ ∀ x ∈ l, x ≤ l.foldl max p) ∧
    (l.foldl max p = p ∨ l.foldl max p ∈ l) := by
  induction l generalizing p with
  | nil => simp
  | cons a l ih =>
    obtain ⟨⟨h1, h2⟩, h3⟩ := ih (max p a)
    simp only [List.foldl_cons, List.mem_cons, forall_eq_or_imp]
    refine ⟨⟨le_trans (le_max_left _ _) h1, le_trans (le_max_right _ _) h1, h2⟩, ?_⟩
    rcases h3 with h3 | h3
    · rcases le_total p a with hpa | hpa
      · right; left; rw [h3, max_eq_right hpa]
      · left; rw [h3, max_eq_left hpa]
    · right; right; exact h3

theorem length_points {α : Type*} (f a f' a' : ℤ) (p : ℤ → ℤ → α) :
    (((irange f (a - 1)).flatMap fun n0 => (irange f' (a' - 1)).map fun n1 => p n0 n1).length : ℤ) =
      (a - f).toNat * (a' - f').toNat := by
  have h : ∀ f a : ℤ, (irange f (a - 1)).length = (a - f).toNat := by
    intro f a
    unfold irange
    rw [List.length_map, List.length_range]
    congr 1
    ring
  rw [List.length_flatMap]
  simp only [List.length_map, h, List.map_const', List.sum_replicate, smul_eq_mul]
  push_cast
  ring

theorem foldl_max_int {α : Type*} (f : α → ℤ) : ∀ (l : List α) (m : ℤ), m ≤ l.foldl (fun m a => max m (f a)) m ∧
    ∀ a ∈ l, f a ≤ l.foldl (fun m a => max m (f a)) m
  | [], m => by simp
  | b :: l, m => by
    obtain ⟨h1, h2⟩ := foldl_max_int f l (max m (f b))
    simp only [List.foldl_cons, List.mem_cons, forall_eq_or_imp]
    exact ⟨le_trans (le_max_left _ _) h1, le_trans (le_max_right _ _) h1, h2⟩

/-- C72: if no cell holds more grid points than `max_sample_points_per_cell`, the points stored in a cell are exactly
those that lie in it. -/
theorem cellPoints_spec {K : Type*} [Field K] [LinearOrder K] [IsStrictOrderedRing K] [FloorRing K] {eps : K} {g : Grid K}
    {inp : Input K} (hdx : ∀ d, 0 < g.dx d)
    (h0 : LineOk eps inp.npts0 (inp.start (gc0 inp.dir)) (inp.stop (gc0 inp.dir)) (g.plo (gc0 inp.dir)) (g.phi (gc0 inp.dir)))
    (h1 : LineOk eps inp.npts1 (inp.start (gc1 inp.dir)) (inp.stop (gc1 inp.dir)) (g.plo (gc1 inp.dir)) (g.phi (gc1 inp.dir)))
    {a : Cell} (ha : a ∈ allCells g) (hcap : count eps g inp a ≤ inp.ncmax) {n0 n1 : ℤ} (hn0 : 0 ≤ n0 ∧ n0 < inp.npts0)
    (hn1 : 0 ≤ n1 ∧ n1 < inp.npts1) :
    (∃ q ∈ cellPoints eps g inp (ncomp eps g inp) a, q.1 = n1 * inp.npts0 + n0) ↔
      InCell (g.plo (gc0 inp.dir)) (g.dx (gc0 inp.dir)) ((gc0 inp.dir).idx a)
        (gridLoc inp.npts0 (inp.start (gc0 inp.dir)) (inp.stop (gc0 inp.dir)) n0) ∧
      InCell (g.plo (gc1 inp.dir)) (g.dx (gc1 inp.dir)) ((gc1 inp.dir).idx a)
        (gridLoc inp.npts1 (inp.start (gc1 inp.dir)) (inp.stop (gc1 inp.dir)) n1) := by
  have s0 := fun n => axis_range_spec h0 (hdx (gc0 inp.dir)) ((gc0 inp.dir).idx a) n
  have s1 := fun n => axis_range_spec h1 (hdx (gc1 inp.dir)) ((gc1 inp.dir).idx a) n
  have hnc : count eps g inp a ≤ ncomp eps g inp := by
    unfold ncomp
    exact le_min ((foldl_max_int _ _ _).2 a ha) hcap
  have hnc0 : 0 ≤ ncomp eps g inp := le_min (foldl_max_int _ _ _).1 (by exact_mod_cast Nat.zero_le _)
  unfold cellPoints
  simp only
  unfold count at hnc
  simp only at hnc
  rw [List.take_of_length_le]
  · simp only [List.mem_flatMap, List.mem_map, mem_irange]
    have e0 := s0 n0
    have e1 := s1 n1
    unfold cellRange
    constructor
    · rintro ⟨q, ⟨m0, hm0, m1, hm1, rfl⟩, hq⟩
      have t0 := (s0 m0).mp ⟨hm0.1, by omega⟩
      have t1 := (s1 m1).mp ⟨hm1.1, by omega⟩
      simp only at hq
      have hm : m0 = n0 ∧ m1 = n1 := by
        obtain ⟨hn0a, hn0b⟩ := hn0
        obtain ⟨⟨ha, hb⟩, -⟩ := t0
        have hN : (0 : ℤ) < inp.npts0 := by omega
        have hmod : (m1 * (inp.npts0 : ℤ) + m0) % inp.npts0 = (n1 * (inp.npts0 : ℤ) + n0) % inp.npts0 := by rw [hq]
        rw [Int.add_emod, Int.mul_emod_left, zero_add, Int.emod_emod_of_dvd _ (dvd_refl _), Int.emod_eq_of_lt ha hb,
          Int.add_emod, Int.mul_emod_left, zero_add, Int.emod_emod_of_dvd _ (dvd_refl _), Int.emod_eq_of_lt hn0a hn0b] at hmod
        refine ⟨hmod, ?_⟩
        rw [hmod] at hq
        exact mul_right_cancel₀ hN.ne' (by linarith : m1 * (inp.npts0 : ℤ) = n1 * inp.npts0)
      rw [← hm.1, ← hm.2]
      exact ⟨t0.2, t1.2⟩
    · rintro ⟨i0, i1⟩
      have t0 := e0.mpr ⟨hn0, i0⟩
      have t1 := e1.mpr ⟨hn1, i1⟩
      exact ⟨_, ⟨n0, ⟨t0.1, by omega⟩, n1, ⟨t1.1, by omega⟩, rfl⟩, rfl⟩
  · have hl := length_points (cellRange eps g inp (gc0 inp.dir) inp.npts0 a).1
      (cellRange eps g inp (gc0 inp.dir) inp.npts0 a).2 (cellRange eps g inp (gc1 inp.dir) inp.npts1 a).1
      (cellRange eps g inp (gc1 inp.dir) inp.npts1 a).2 (fun n0 n1 => (n1 * (inp.npts0 : ℤ) + n0,
        gridLoc inp.npts0 (inp.start (gc0 inp.dir)) (inp.stop (gc0 inp.dir)) n0,
        gridLoc inp.npts1 (inp.start (gc1 inp.dir)) (inp.stop (gc1 inp.dir)) n1))
    have key : (((cellRange eps g inp (gc0 inp.dir) inp.npts0 a).2 - (cellRange eps g inp (gc0 inp.dir) inp.npts0 a).1).toNat : ℤ) *
        (((cellRange eps g inp (gc1 inp.dir) inp.npts1 a).2 - (cellRange eps g inp (gc1 inp.dir) inp.npts1 a).1).toNat : ℤ) ≤
        ncomp eps g inp := by
      generalize (cellRange eps g inp (gc0 inp.dir) inp.npts0 a).2 - (cellRange eps g inp (gc0 inp.dir) inp.npts0 a).1 = u at *
      generalize (cellRange eps g inp (gc1 inp.dir) inp.npts1 a).2 - (cellRange eps g inp (gc1 inp.dir) inp.npts1 a).1 = v at *
      rcases le_or_gt u 0 with hu | hu
      · rw [Int.toNat_of_nonpos hu]; simpa using hnc0
      rcases le_or_gt v 0 with hv | hv
      · rw [Int.toNat_of_nonpos hv]; simpa using hnc0
      rw [Int.toNat_of_nonneg hu.le, Int.toNat_of_nonneg hv.le]
      exact hnc
    rw [← hl] at key
    omega

/-- The cell with given indices in the two directions of the plane and the search direction. -/
def mkCell (d : Dir) (i j k : ℤ) : Cell :=
  match d with
  | .x => (k, i, j)
  | .y => (i, k, j)
  | .z => (i, j, k)

theorem mkCell_idx (d : Dir) (i j k : ℤ) :
    (gc0 d).idx (mkCell d i j k) = i ∧ (gc1 d).idx (mkCell d i j k) = j ∧ d.idx (mkCell d i j k) = k := by
  cases d <;> exact ⟨rfl, rfl, rfl⟩

theorem mem_allCells {g : Grid ℝ} {a : Cell} : a ∈ allCells g ↔ ∀ d : Dir, 0 ≤ d.idx a ∧ d.idx a < g.n d := by
  obtain ⟨i, j, k⟩ := a
  unfold allCells
  rw [mem_cells]
  unfold AmrWind.Plane.Bx.Has
  simp only
  constructor
  · rintro ⟨⟨h1, h2⟩, ⟨h3, h4⟩, h5, h6⟩ d
    cases d <;> simp only [Dir.idx] <;> omega
  · intro h
    have hx := h .x
    have hy := h .y
    have hz := h .z
    simp only [Dir.idx] at hx hy hz
    omega

theorem flatten_mem {α β : Type*} {l : List α} {f : α → List β} {x : β} :
    x ∈ (l.map f).flatten ↔ ∃ a ∈ l, x ∈ f a := by
  simp

/-- C72: still water. For every search direction, mesh, sampling grid inside the domain and going up, and cap that is not
exceeded, the height found at every grid point differs from the water level by at most `tol` cells, and is the water level
if the surface cell is not within `tol` of being full or empty.

Partial (C72). Missing: reversed planes, more points than the cap and several instances, where it is false. -/
theorem flat_water_height_partial {tiny tol feps eps : ℝ} (ht : 0 < tiny) (htol : 0 ≤ tol) (htol' : tol < 1 / 2) (hf : 0 ≤ feps)
    (heps : 0 < eps) {g : Grid ℝ} (hg : g.Ok) {inp : Input ℝ} (hn : 2 ≤ g.n inp.dir)
    (h0 : LineOk eps inp.npts0 (inp.start (gc0 inp.dir)) (inp.stop (gc0 inp.dir)) (g.plo (gc0 inp.dir)) (g.phi (gc0 inp.dir)))
    (h1 : LineOk eps inp.npts1 (inp.start (gc1 inp.dir)) (inp.stop (gc1 inp.dir)) (g.plo (gc1 inp.dir)) (g.phi (gc1 inp.dir)))
    (hcap : ∀ a ∈ allCells g, count eps g inp a ≤ inp.ncmax) (hinst : inp.ninst = 1) {h : ℝ}
    (hlo : g.plo inp.dir ≤ h) (hhi : h ≤ g.phi inp.dir) {φ : ℤ → ℝ} (hw : FlatWater g inp.dir h φ) {c : Cell → ℝ}
    (hc : Layered inp.dir φ c) {n0 n1 : ℤ} (hn0 : 0 ≤ n0 ∧ n0 < inp.npts0) (hn1 : 0 ≤ n1 ∧ n1 < inp.npts1) :
    ∃ r, heights tiny tol feps eps g inp c (n1 * inp.npts0 + n0) = some [r] ∧ |r - h| ≤ tol * g.dx inp.dir ∧
      (∀ k : ℤ, 0 ≤ k → k < g.n inp.dir → tol < φ k → φ k < 1 - tol → r = h) ∧
      (g.plo inp.dir ≤ r ∧ r ≤ g.phi inp.dir) ∧
      ∀ k : ℤ, 0 ≤ k → k < g.n inp.dir → 1 - tol ≤ φ k → g.plo inp.dir + (k + 1) * g.dx inp.dir ≤ r := by
  set d := inp.dir with hdir
  have hd := hg.dx d
  set idx := n1 * (inp.npts0 : ℤ) + n0 with hidx
  set L := ((allCells g).map fun a => (((cellPoints eps g inp (ncomp eps g inp) a).filter fun q => q.1 = idx).map fun _ =>
    flatReport tol g d h φ (d.idx a)).flatten).flatten with hL
  have hrep : reports tiny tol feps eps g inp c 0 (g.phi d + 1) idx = some L := by
    unfold reports
    rw [mapM_some (g := fun a => (((cellPoints eps g inp (ncomp eps g inp) a).filter fun q => q.1 = idx).map fun _ =>
      flatReport tol g d h φ (d.idx a)).flatten)]
    · rfl
    · intro a ha
      have hk := mem_allCells.mp ha d
      rw [mapM_some (g := fun _ => flatReport tol g d h φ (d.idx a))]
      · rfl
      · intro q _
        rw [if_pos, ← hdir]
        · exact cellHeight_flat ht htol hf hg hn hw hc hk.1 hk.2 _ _
        · rw [← hdir, xm_hi, hg.phi d]
          have : (d.idx a : ℝ) + 1 ≤ g.n d := by exact_mod_cast hk.2
          nlinarith
  have hmem : ∀ x, x ∈ L ↔ ∃ k : ℤ, (0 ≤ k ∧ k < g.n d) ∧ x ∈ flatReport tol g d h φ k := by
    intro x
    rw [hL, flatten_mem]
    constructor
    · rintro ⟨a, ha, hx⟩
      obtain ⟨q, -, hx⟩ := flatten_mem.mp hx
      exact ⟨d.idx a, mem_allCells.mp ha d, hx⟩
    · rintro ⟨k, hk, hx⟩
      obtain ⟨i, ⟨hi0, hi1, hi⟩, -⟩ := one_cell (hg.dx (gc0 d)) (M := g.n (gc0 d)) (by
        have := gridLoc_inside heps h0 hn0.1 hn0.2
        rwa [hg.phi] at this)
      obtain ⟨j, ⟨hj0, hj1, hj⟩, -⟩ := one_cell (hg.dx (gc1 d)) (M := g.n (gc1 d)) (by
        have := gridLoc_inside heps h1 hn1.1 hn1.2
        rwa [hg.phi] at this)
      obtain ⟨e0, e1, ek⟩ := mkCell_idx d i j k
      have hin : mkCell d i j k ∈ allCells g := by
        rw [mem_allCells]
        intro d'
        cases hdd : d <;> cases d' <;> simp only [hdd, mkCell, Dir.idx, gc0, gc1] at * <;> omega
      refine ⟨mkCell d i j k, hin, ?_⟩
      obtain ⟨q, hq, hqi⟩ := (cellPoints_spec hg.dx h0 h1 hin (hcap _ hin) hn0 hn1).mpr
        ⟨by rw [← hdir, e0]; exact hi, by rw [← hdir, e1]; exact hj⟩
      refine flatten_mem.mpr ⟨q, List.mem_filter.mpr ⟨hq, by simpa using hqi⟩, ?_⟩
      rw [ek]
      exact hx
  have hH : heights tiny tol feps eps g inp c idx = some [L.foldl max (g.plo d)] := by
    unfold heights
    rw [hinst]
    unfold heightsFrom
    rw [← hdir, hrep, Option.bind_some]
    rfl
  obtain ⟨⟨hp, hmax⟩, hor⟩ := foldl_max_spec L (g.plo d)
  set r := L.foldl max (g.plo d) with hr
  have hval : ∀ x ∈ L, ∃ k : ℤ, (0 ≤ k ∧ k < g.n d) ∧
      ((1 - tol ≤ φ k ∧ x = g.plo d + (k + 1) * g.dx d) ∨ (tol < φ k ∧ φ k < 1 - tol ∧ x = h)) := by
    intro x hx
    obtain ⟨k, hk, hx⟩ := (hmem x).mp hx
    refine ⟨k, hk, ?_⟩
    unfold flatReport at hx
    by_cases hful : 1 - tol ≤ φ k
    · rw [if_pos hful] at hx; exact Or.inl ⟨hful, by simpa using hx⟩
    · rw [if_neg hful] at hx
      by_cases hm : tol < φ k
      · rw [if_pos hm] at hx; exact Or.inr ⟨hm, not_le.mp hful, by simpa using hx⟩
      · rw [if_neg hm] at hx; simp at hx
  -- the surface cell
  obtain ⟨k, hk0, hk1, hka, hkb⟩ : ∃ k : ℤ, 0 ≤ k ∧ k < g.n d ∧ g.plo d + k * g.dx d ≤ h ∧
      h ≤ g.plo d + (k + 1) * g.dx d := by
    by_cases hlt : h < g.phi d
    · obtain ⟨k, ⟨a, b, c1, c2⟩, -⟩ := one_cell (plo := g.plo d) (x := h) hd (M := g.n d) ⟨hlo, by rw [← hg.phi]; exact hlt⟩
      exact ⟨k, a, b, c1, c2.le⟩
    · refine ⟨(g.n d : ℤ) - 1, by omega, by omega, ?_, ?_⟩
      · have := hg.phi d
        push_cast
        nlinarith
      · have := hg.phi d
        push_cast
        linarith
  have hφk : φ k * g.dx d = h - (g.plo d + k * g.dx d) := by
    rw [hw.inside k hk0 hk1, min_eq_right, max_eq_right]
    · exact div_mul_cancel₀ _ hd.ne'
    · exact div_nonneg (by linarith) hd.le
    · rw [div_le_one hd]; linarith
  have hup : r ≤ h + tol * g.dx d := by
    rcases hor with e | e
    · rw [e]; nlinarith
    · obtain ⟨k', hk', ⟨hful, e⟩ | ⟨-, -, e⟩⟩ := hval _ e
      · have hv := flat_value hg hw hk'.1 hk'.2
        have := hv.2.2 (by linarith)
        rw [e]
        nlinarith
      · rw [e]; nlinarith
  have hdown : h - tol * g.dx d ≤ r := by
    by_cases hful : 1 - tol ≤ φ k
    · have := hmax (g.plo d + (k + 1) * g.dx d) ((hmem _).mpr ⟨k, ⟨hk0, hk1⟩, by
        unfold flatReport; rw [if_pos hful]; simp⟩)
      nlinarith
    · by_cases hm : tol < φ k
      · have := hmax h ((hmem _).mpr ⟨k, ⟨hk0, hk1⟩, by
          unfold flatReport; rw [if_neg hful, if_pos hm]; simp⟩)
        nlinarith
      · have hsmall : h - (g.plo d + k * g.dx d) ≤ tol * g.dx d := by
          rw [← hφk]; exact mul_le_mul_of_nonneg_right (not_lt.mp hm) hd.le
        by_cases hz : k = 0
        · rw [hz] at hsmall
          simp only [Int.cast_zero, zero_mul, add_zero] at hsmall
          linarith
        · have h1 : φ (k - 1) = 1 := by
            rw [hw.inside (k - 1) (by omega) (by omega)]
            have : 1 ≤ (h - (g.plo d + ((k - 1 : ℤ) : ℝ) * g.dx d)) / g.dx d := by
              rw [le_div_iff₀ hd]; push_cast; nlinarith
            rw [min_eq_left this]; norm_num
          have := hmax (g.plo d + (((k - 1 : ℤ) : ℝ) + 1) * g.dx d) ((hmem _).mpr ⟨k - 1, ⟨by omega, by omega⟩, by
            unfold flatReport; rw [h1, if_pos (by linarith)]; simp⟩)
          push_cast at this
          nlinarith
  refine ⟨r, hH, abs_le.mpr ⟨by linarith, by linarith⟩, ?_, ⟨hp, ?_⟩, fun k hk0 hk1 hful => hmax _ ((hmem _).mpr ⟨k, ⟨hk0, hk1⟩, by
    unfold flatReport; rw [if_pos hful]; simp⟩)⟩
  swap
  · rcases hor with e | e
    · rw [e]; linarith
    · obtain ⟨k', hk', ⟨-, e⟩ | ⟨-, -, e⟩⟩ := hval _ e
      · rw [e, hg.phi d]
        have : (k' : ℝ) + 1 ≤ g.n d := by exact_mod_cast hk'.2
        nlinarith
      · rw [e]; exact hhi
  intro m hm0 hm1 hma hmb
  obtain ⟨-, hva, hvb⟩ := flat_value hg hw hm0 hm1
  have hva := hva (by linarith)
  have hvb := hvb (by linarith)
  apply le_antisymm
  · rcases hor with e | e
    · rw [e]; exact hlo
    · obtain ⟨k', hk', ⟨hful, e⟩ | ⟨-, -, e⟩⟩ := hval _ e
      · have hv := (flat_value hg hw hk'.1 hk'.2).2.2 (by linarith)
        -- a full cell lies below the surface cell
        have hlt : k' < m := by
          by_contra hc
          rcases eq_or_lt_of_le (not_lt.mp hc) with e1 | e1
          · rw [← e1] at hful; linarith
          · have : (m : ℝ) + 1 ≤ k' := by exact_mod_cast e1
            nlinarith
        have : (k' : ℝ) + 1 ≤ m := by exact_mod_cast hlt
        rw [e]
        nlinarith
      · rw [e]
  · exact hmax h ((hmem _).mpr ⟨m, ⟨hm0, hm1⟩, by
      unfold flatReport; rw [if_neg (not_le.mpr hmb), if_pos hma]; simp⟩)

/-- A grid point stored in no cell gets the low end of the domain as its height, whatever the water. -/
theorem lost_point {tiny tol feps eps : ℝ} {g : Grid ℝ} {inp : Input ℝ} (c : Cell → ℝ) {idx : ℤ}
    (h : ∀ a ∈ allCells g, ∀ q ∈ cellPoints eps g inp (ncomp eps g inp) a, q.1 ≠ idx) :
    heights tiny tol feps eps g inp c idx = some (List.replicate inp.ninst (g.plo inp.dir)) := by
  have hr : ∀ ni last, reports tiny tol feps eps g inp c ni last idx = some [] := by
    intro ni last
    unfold reports
    rw [mapM_some (g := fun _ => [])]
    · simp
    · intro a ha
      have : (cellPoints eps g inp (ncomp eps g inp) a).filter (fun q => q.1 = idx) = [] :=
        List.filter_eq_nil_iff.mpr fun q hq => by simpa using h a ha q hq
      rw [this]
      rfl
  have hf : ∀ n ni last, heightsFrom tiny tol feps eps g inp c idx n ni last =
      some (List.replicate n (g.plo inp.dir)) := by
    intro n
    induction n with
    | zero => intro ni last; rfl
    | succ n ih =>
      intro ni last
      unfold heightsFrom
      rw [hr, Option.bind_some]
      simp only [List.foldl_nil]
      rw [ih]
      rfl
  exact hf _ _ _

/-- C72: still water has one surface. However many surfaces are asked for, the first is the water level and there are no
others below it: the low end of the domain is given instead. -/
theorem flat_water_instances {tiny tol feps eps : ℝ} (ht : 0 < tiny) (htol : 0 ≤ tol) (htol' : tol < 1 / 2) (hf : 0 ≤ feps)
    (heps : 0 < eps) {g : Grid ℝ} (hg : g.Ok) {inp : Input ℝ} (hn : 2 ≤ g.n inp.dir)
    (h0 : LineOk eps inp.npts0 (inp.start (gc0 inp.dir)) (inp.stop (gc0 inp.dir)) (g.plo (gc0 inp.dir)) (g.phi (gc0 inp.dir)))
    (h1 : LineOk eps inp.npts1 (inp.start (gc1 inp.dir)) (inp.stop (gc1 inp.dir)) (g.plo (gc1 inp.dir)) (g.phi (gc1 inp.dir)))
    (hcap : ∀ a ∈ allCells g, count eps g inp a ≤ inp.ncmax) {n : ℕ} (hinst : inp.ninst = n + 1) {h : ℝ}
    (hlo : g.plo inp.dir ≤ h) (hhi : h ≤ g.phi inp.dir) {φ : ℤ → ℝ} (hw : FlatWater g inp.dir h φ) {c : Cell → ℝ}
    (hc : Layered inp.dir φ c) {k : ℤ} (hk0 : 0 ≤ k) (hk1 : k < g.n inp.dir) (hka : tol < φ k) (hkb : φ k < 1 - tol)
    {n0 n1 : ℤ} (hn0 : 0 ≤ n0 ∧ n0 < inp.npts0) (hn1 : 0 ≤ n1 ∧ n1 < inp.npts1) :
    heights tiny tol feps eps g inp c (n1 * inp.npts0 + n0) = some (h :: List.replicate n (g.plo inp.dir)) := by
  have hd := hg.dx inp.dir
  obtain ⟨r, hr, -, hrh, -⟩ := flat_water_height_partial (inp := { inp with ninst := 1 }) ht htol htol' hf heps hg hn h0 h1 hcap rfl
    hlo hhi hw hc hn0 hn1
  obtain rfl := hrh k hk0 hk1 hka hkb
  -- the first search does not depend on the number of instances
  set idx := n1 * (inp.npts0 : ℤ) + n0 with hidx
  have hr' : (reports tiny tol feps eps g inp c 0 (g.phi inp.dir + 1) idx).bind
      (fun l => some [l.foldl max (g.plo inp.dir)]) = some [r] := hr
  obtain ⟨l, hl, hl2⟩ := Option.bind_eq_some_iff.mp hr'
  have hl3 : l.foldl max (g.plo inp.dir) = r := by simpa using hl2
  -- later searches find nothing
  have later : ∀ ni last, ni % 2 = 1 ∧ last ≤ r ∨ last ≤ g.plo inp.dir →
      reports tiny tol feps eps g inp c ni last idx = some [] := by
    intro ni last hcase
    unfold reports
    rw [mapM_some (g := fun _ => [])]
    · simp
    · intro a ha
      rw [mapM_some (g := fun _ => [])]
      · simp
      · intro q _
        have hka := mem_allCells.mp ha inp.dir
        have hia : (0 : ℝ) ≤ inp.dir.idx a := by exact_mod_cast hka.1
        split_ifs with hgt
        · rw [xm_hi] at hgt
          rcases hcase with ⟨hodd, hle⟩ | hle
          · have hone : φ (inp.dir.idx a) = 1 := by
              rw [hw.inside _ hka.1 hka.2, min_eq_left, max_eq_right zero_le_one]
              rw [le_div_iff₀ hd]
              linarith
            unfold cellHeight cellPlane
            rw [hc a, hone, if_neg (by intro h; linarith [h.1]), if_neg]
            · rfl
            · rintro (⟨h, -⟩ | ⟨-, h⟩)
              · omega
              · linarith
          · nlinarith
        · rfl
  have rest : ∀ m ni last, last ≤ g.plo inp.dir → heightsFrom tiny tol feps eps g inp c idx m ni last =
      some (List.replicate m (g.plo inp.dir)) := by
    intro m
    induction m with
    | zero => intro ni last _; rfl
    | succ m ih =>
      intro ni last hle
      unfold heightsFrom
      rw [later ni last (Or.inr hle), Option.bind_some]
      simp only [List.foldl_nil]
      rw [ih _ _ le_rfl]
      rfl
  unfold heights
  rw [hinst]
  unfold heightsFrom
  rw [hl, Option.bind_some]
  simp only [hl3]
  cases n with
  | zero => rfl
  | succ n =>
    unfold heightsFrom
    rw [later (0 + 1) r (Or.inl ⟨rfl, le_rfl⟩), Option.bind_some]
    simp only [List.foldl_nil]
    rw [rest _ _ _ le_rfl]
    rfl

/-- A disagreement: for a plane given from high to low in its first direction every height is the low end of the domain,
whatever the water. -/
theorem reversed_plane {tiny tol feps eps : ℝ} {g : Grid ℝ} (hg : g.Ok) {inp : Input ℝ} (hN : 2 ≤ inp.npts0)
    (hrev : inp.stop (gc0 inp.dir) < inp.start (gc0 inp.dir))
    (hin : inp.start (gc0 inp.dir) ≤ g.phi (gc0 inp.dir) - eps) (c : Cell → ℝ) (idx : ℤ) :
    heights tiny tol feps eps g inp c idx = some (List.replicate inp.ninst (g.plo inp.dir)) := by
  refine lost_point c fun a _ q hq => ?_
  unfold cellPoints at hq
  simp only at hq
  obtain ⟨n0, hn0, -⟩ := List.mem_flatMap.mp (List.mem_of_mem_take hq)
  have := mem_irange.mp hn0
  exact absurd ⟨this.1, by unfold cellRange at this; omega⟩
    (reversed_no_lines hN hrev (hg.dx (gc0 inp.dir)) hin ((gc0 inp.dir).idx a) n0)

/-- A disagreement: a column full of water has its surface at the high end of the domain, which is outside the domain:
the point is in no cell. -/
theorem full_column {tiny tol feps eps : ℝ} (ht : 0 < tiny) (htol : 0 ≤ tol) (htol' : tol < 1 / 2) (hf : 0 ≤ feps)
    (heps : 0 < eps) {g : Grid ℝ} (hg : g.Ok) {inp : Input ℝ} (hn : 2 ≤ g.n inp.dir)
    (h0 : LineOk eps inp.npts0 (inp.start (gc0 inp.dir)) (inp.stop (gc0 inp.dir)) (g.plo (gc0 inp.dir)) (g.phi (gc0 inp.dir)))
    (h1 : LineOk eps inp.npts1 (inp.start (gc1 inp.dir)) (inp.stop (gc1 inp.dir)) (g.plo (gc1 inp.dir)) (g.phi (gc1 inp.dir)))
    (hcap : ∀ a ∈ allCells g, count eps g inp a ≤ inp.ncmax) (hinst : inp.ninst = 1) {n0 n1 : ℤ}
    (hn0 : 0 ≤ n0 ∧ n0 < inp.npts0) (hn1 : 0 ≤ n1 ∧ n1 < inp.npts1) :
    heights tiny tol feps eps g inp (fun _ => 1) (n1 * inp.npts0 + n0) = some [g.phi inp.dir] := by
  have hd := hg.dx inp.dir
  have hphi := hg.phi inp.dir
  have hw : FlatWater g inp.dir (g.phi inp.dir) fun _ => 1 := by
    refine ⟨fun k h0 h1 => ?_, le_refl _, le_refl _⟩
    have h2 : (k : ℝ) + 1 ≤ g.n inp.dir := by exact_mod_cast h1
    have : 1 ≤ (g.phi inp.dir - (g.plo inp.dir + (k : ℝ) * g.dx inp.dir)) / g.dx inp.dir := by
      rw [le_div_iff₀ hd, hphi]; nlinarith
    rw [min_eq_left this]; norm_num
  have hle : g.plo inp.dir ≤ g.phi inp.dir := by
    rw [hphi]
    have : (0 : ℝ) ≤ g.n inp.dir := by exact_mod_cast Nat.zero_le _
    nlinarith
  obtain ⟨r, hr, -, -, ⟨-, hup⟩, hfull⟩ := flat_water_height_partial ht htol htol' hf heps hg hn h0 h1 hcap hinst hle (le_refl _) hw
    (c := fun _ => 1) (fun _ => rfl) hn0 hn1
  rw [hr]
  have := hfull ((g.n inp.dir : ℤ) - 1) (by omega) (by omega) (by linarith)
  push_cast at this
  have e : r = g.phi inp.dir := by
    apply le_antisymm hup
    rw [hphi]
    linarith
  rw [e]

/-! ## Examples -/

/-- A domain of 2 by 2 by 4 unit cells. -/
def exGrid : Grid ℝ := ⟨fun _ => 0, fun d => match d with | .x => 2 | .y => 2 | .z => 4, fun _ => 1,
  fun d => match d with | .x => 2 | .y => 2 | .z => 4⟩

/-- One point per cell column in x, one row in y. -/
noncomputable def exInput : Input ℝ := ⟨fun _ => 1 / 2, fun _ => 3 / 2, 2, 1, .z, 1, 8⟩

theorem exGrid_ok : exGrid.Ok :=
  ⟨fun _ => one_pos, fun d => by cases d <;> norm_num [exGrid]⟩

theorem exInput_ok0 : LineOk (1 / 1000 : ℝ) exInput.npts0 (exInput.start (gc0 exInput.dir)) (exInput.stop (gc0 exInput.dir))
    (exGrid.plo (gc0 exInput.dir)) (exGrid.phi (gc0 exInput.dir)) := by
  refine ⟨?_, ?_, ?_, fun _ => ?_⟩ <;> norm_num [exInput, exGrid, gc0]

theorem exInput_ok1 : LineOk (1 / 1000 : ℝ) exInput.npts1 (exInput.start (gc1 exInput.dir)) (exInput.stop (gc1 exInput.dir))
    (exGrid.plo (gc1 exInput.dir)) (exGrid.phi (gc1 exInput.dir)) := by
  refine ⟨?_, ?_, ?_, fun h => ?_⟩ <;> norm_num [exInput, exGrid, gc1] at *

/-- The range of a cell is never negative and never holds more than all lines. -/
theorem range_size {K : Type*} [Field K] [LinearOrder K] [IsStrictOrderedRing K] [FloorRing K] {eps : K} {N : ℕ}
    {s e plo phi dx : K} (hl : LineOk eps N s e plo phi) (hdx : 0 < dx) (i : ℤ) :
    0 ≤ (axisRange eps N s e plo phi dx i).2 - (axisRange eps N s e plo phi dx i).1 ∧
    (axisRange eps N s e plo phi dx i).2 - (axisRange eps N s e plo phi dx i).1 ≤ N := by
  have h := axis_range_spec hl hdx i
  have hpos := hl.pos
  have hle : (axisRange eps N s e plo phi dx i).1 ≤ (axisRange eps N s e plo phi dx i).2 := by
    unfold axisRange
    simp only
    by_cases h1 : N = 1
    · rw [if_pos h1]
      simp only
      exact ite_nonneg (by norm_num) (le_refl _)
    · rw [if_neg h1]
      have hN : 2 ≤ N := by omega
      have hd : 0 < spacing N s e := by
        by_contra hc
        have hN' : (2 : K) ≤ N := by exact_mod_cast hN
        have := mul_nonpos_of_nonpos_of_nonneg (not_lt.mp hc) (by linarith : (0 : K) ≤ (N : K) - 1)
        have := spacing_mul hN s e
        linarith [(hl.up hN).1]
      have hfa : ⌈(plo + ((i : K) + 1 / 2) * dx - 1 / 2 * dx - s) / spacing N s e⌉ ≤
          ⌈(plo + ((i : K) + 1 / 2) * dx + 1 / 2 * dx - s) / spacing N s e⌉ := by
        apply Int.ceil_mono
        apply div_le_div_of_nonneg_right _ hd.le
        linarith
      generalize ⌈(plo + ((i : K) + 1 / 2) * dx - 1 / 2 * dx - s) / spacing N s e⌉ = f at *
      generalize ⌈(plo + ((i : K) + 1 / 2) * dx + 1 / 2 * dx - s) / spacing N s e⌉ = a0 at *
      have h3 : ∀ a1, (if |plo + ((i : K) + 1 / 2) * dx + 1 / 2 * dx - phi| < eps ∧
          |s + (a0 : K) * spacing N s e - phi| < eps then a0 + 1 else a0) = a1 → a1 = a0 ∨ a1 = a0 + 1 := by
        intro a1 h
        by_cases hc : |plo + ((i : K) + 1 / 2) * dx + 1 / 2 * dx - phi| < eps ∧ |s + (a0 : K) * spacing N s e - phi| < eps
        · rw [if_pos hc] at h; exact Or.inr h.symm
        · rw [if_neg hc] at h; exact Or.inl h.symm
      generalize hB : (if |plo + ((i : K) + 1 / 2) * dx + 1 / 2 * dx - phi| < eps ∧
          |s + (a0 : K) * spacing N s e - phi| < eps then a0 + 1 else a0) = a1
      have h4 := h3 a1 hB
      by_cases hc : (N : ℤ) ≤ max (min 0 (min (N : ℤ) a1)) f ∨ max (min 0 (min (N : ℤ) a1)) f < 0
      · rw [if_pos hc]
      · rw [if_neg hc]; simp only; omega
  generalize (axisRange eps N s e plo phi dx i).1 = f at *
  generalize (axisRange eps N s e plo phi dx i).2 = a at *
  refine ⟨by omega, ?_⟩
  by_contra hc
  have h1 := ((h f).mp ⟨le_refl _, by omega⟩).1
  have h2 := ((h (f + N)).mp ⟨by omega, by omega⟩).1
  omega

/-- If the cap is not below the number of grid points it is never exceeded. -/
theorem cap_enough {K : Type*} [Field K] [LinearOrder K] [IsStrictOrderedRing K] [FloorRing K] {eps : K} {g : Grid K}
    {inp : Input K} (hdx : ∀ d, 0 < g.dx d)
    (h0 : LineOk eps inp.npts0 (inp.start (gc0 inp.dir)) (inp.stop (gc0 inp.dir)) (g.plo (gc0 inp.dir)) (g.phi (gc0 inp.dir)))
    (h1 : LineOk eps inp.npts1 (inp.start (gc1 inp.dir)) (inp.stop (gc1 inp.dir)) (g.plo (gc1 inp.dir)) (g.phi (gc1 inp.dir)))
    (hcap : inp.npts0 * inp.npts1 ≤ inp.ncmax) (a : Cell) : count eps g inp a ≤ inp.ncmax := by
  unfold count
  simp only
  have r0 := range_size h0 (hdx (gc0 inp.dir)) ((gc0 inp.dir).idx a)
  have r1 := range_size h1 (hdx (gc1 inp.dir)) ((gc1 inp.dir).idx a)
  have hcap' : (inp.npts0 : ℤ) * inp.npts1 ≤ inp.ncmax := by exact_mod_cast hcap
  exact le_trans (mul_le_mul r0.2 r1.2 r1.1 (by exact_mod_cast Nat.zero_le _)) hcap'

/-- Water at 7/4 in this domain. -/
noncomputable def exPhi (k : ℤ) : ℝ := max 0 (min 1 (7 / 4 - k))

theorem exFlat : FlatWater exGrid .z (7 / 4) exPhi := by
  refine ⟨fun k _ _ => ?_, ?_, ?_⟩
  · norm_num [exPhi, exGrid]
  · norm_num [exPhi]
  · norm_num [exPhi, exGrid]

/-- Both points of the grid find the height 7/4. -/
example : heights (1 / 10 ^ 15) (1 / 10 ^ 11) (1 / 10 ^ 7) (1 / 1000) exGrid exInput (fun a => exPhi a.2.2) 1 =
    some [7 / 4] := by
  obtain ⟨r, hr, -, he, -⟩ := flat_water_height_partial (tiny := 1 / 10 ^ 15) (tol := 1 / 10 ^ 11) (feps := 1 / 10 ^ 7)
    (eps := 1 / 1000) (by norm_num) (by norm_num) (by norm_num) (by norm_num) (by norm_num) exGrid_ok (inp := exInput)
    (by norm_num [exGrid, exInput]) exInput_ok0 exInput_ok1
    (fun a _ => cap_enough exGrid_ok.dx exInput_ok0 exInput_ok1 (by norm_num [exInput]) a) rfl
    (h := 7 / 4) (by norm_num [exGrid]) (by norm_num [exGrid, exInput]) exFlat (c := fun a => exPhi a.2.2)
    (fun a => rfl) (n0 := 1) (n1 := 0) (by norm_num [exInput]) (by norm_num [exInput])
  have h1 : r = 7 / 4 := he 1 (by norm_num) (by norm_num [exGrid, exInput]) (by norm_num [exPhi]) (by norm_num [exPhi])
  rw [h1] at hr
  simpa using hr

/-- Asked for three surfaces, the point finds the height 7/4 and twice the bottom. -/
example : heights (1 / 10 ^ 15) (1 / 10 ^ 11) (1 / 10 ^ 7) (1 / 1000) exGrid { exInput with ninst := 3 } (fun a => exPhi a.2.2) 1 =
    some [7 / 4, 0, 0] := by
  have := flat_water_instances (tiny := 1 / 10 ^ 15) (tol := 1 / 10 ^ 11) (feps := 1 / 10 ^ 7)
    (eps := 1 / 1000) (by norm_num) (by norm_num) (by norm_num) (by norm_num) (by norm_num) exGrid_ok
    (inp := { exInput with ninst := 3 }) (by norm_num [exGrid, exInput]) exInput_ok0 exInput_ok1
    (fun a _ => cap_enough exGrid_ok.dx exInput_ok0 exInput_ok1 (by norm_num [exInput]) a) (n := 2) rfl
    (h := 7 / 4) (by norm_num [exGrid]) (by norm_num [exGrid, exInput]) exFlat (c := fun a => exPhi a.2.2)
    (fun a => rfl) (k := 1) (by norm_num) (by norm_num [exGrid, exInput]) (by norm_num [exPhi]) (by norm_num [exPhi])
    (n0 := 1) (n1 := 0) (by norm_num [exInput]) (by norm_num [exInput])
  simpa [List.replicate, exGrid] using this

/-- A disagreement: with three points in a cell and a cap of two, the third point is stored in no cell. -/
theorem cap_drops_points : ∃ (g : Grid ℚ) (inp : Input ℚ) (eps : ℚ), inp.npts0 = 3 ∧ inp.npts1 = 1 ∧ inp.ncmax = 2 ∧
    LineOk eps inp.npts0 (inp.start (gc0 inp.dir)) (inp.stop (gc0 inp.dir)) (g.plo (gc0 inp.dir)) (g.phi (gc0 inp.dir)) ∧
    ∀ a ∈ allCells g, ∀ q ∈ cellPoints eps g inp (ncomp eps g inp) a, q.1 ≠ 2 := by
  refine ⟨⟨fun _ => 0, fun _ => 2, fun _ => 1, fun _ => 2⟩, ⟨fun _ => 1 / 4, fun _ => 3 / 4, 3, 1, .z, 1, 2⟩, 1 / 1000,
    rfl, rfl, rfl, ⟨by norm_num, by norm_num, by norm_num, fun _ => by norm_num⟩, ?_⟩
  have h : (allCells (⟨fun _ => 0, fun _ => 2, fun _ => 1, fun _ => 2⟩ : Grid ℚ)).all (fun a =>
      (cellPoints (1 / 1000) (⟨fun _ => 0, fun _ => 2, fun _ => 1, fun _ => 2⟩ : Grid ℚ)
        ⟨fun _ => 1 / 4, fun _ => 3 / 4, 3, 1, .z, 1, 2⟩ (ncomp (1 / 1000 : ℚ) ⟨fun _ => 0, fun _ => 2, fun _ => 1, fun _ => 2⟩
          ⟨fun _ => 1 / 4, fun _ => 3 / 4, 3, 1, .z, 1, 2⟩) a).all fun q => q.1 != 2) = true := by
    decide +kernel
  intro a ha q hq
  have := List.all_eq_true.mp (List.all_eq_true.mp h a ha) q hq
  simpa using this

end AmrWind.FreeSurface
