import Verif.Tag.Model
import Mathlib.Tactic.LinearCombination
import Mathlib.Algebra.Order.Ring.Rat
import Mathlib.Data.Rat.Floor
import Mathlib.Tactic.NormNum

/-! # Properties C23, C37, C38: index boxes and mesh refinement -/

set_option linter.unusedSectionVars false

namespace AmrWind.Tag

open AmrWind.Vs

variable {K : Type*} [Field K] [LinearOrder K] [IsStrictOrderedRing K] [FloorRing K]

/-! ## Specification -/

/-- A usable geometry: positive cell sizes. -/
def Geom.Ok (g : Geom K) : Prop := ∀ d, 0 < g.dx d

/-- The point `p` lies in the interior of cell `c`. -/
def InCell (g : Geom K) (c : Fin 3 → ℤ) (p : Fin 3 → K) : Prop :=
  ∀ d, g.lo d + c d * g.dx d < p d ∧ p d < g.lo d + (c d + 1) * g.dx d

/-- The point lies in the physical box. -/
def InRBox (r : RBox K) (p : Fin 3 → K) : Prop := ∀ d, r.lo d ≤ p d ∧ p d ≤ r.hi d

/-- Cell `c`, as a closed box, comes within one cell size of the physical box `r` cut to the domain. -/
def Near (g : Geom K) (r : RBox K) (c : Fin 3 → ℤ) : Prop :=
  ∀ d, max (r.lo d) (g.lo d) < g.lo d + (c d + 1) * g.dx d ∧
    g.lo d + c d * g.dx d < min (r.hi d) (g.hi d) + g.dx d

/-! ## C23 -/

theorem covers_1d {lo dx a b p : K} {n : ℕ} {c : ℤ} (hdx : 0 < dx) (hc0 : 0 ≤ c) (hcn : c < n)
    (h1 : lo + c * dx < p) (h2 : p < lo + (c + 1) * dx) (ha : a ≤ p) (hb : p ≤ b) :
    ⌊(max a lo - lo) / dx⌋ ≤ c ∧ c + 1 ≤ ⌈(min b (lo + n * dx) - lo) / dx⌉ := by
  have hlop : lo ≤ p := by
    have : (0 : K) ≤ c := by exact_mod_cast hc0
    nlinarith [mul_nonneg this hdx.le]
  have hphi : p ≤ lo + n * dx := by
    have : (c : K) + 1 ≤ n := by exact_mod_cast hcn
    nlinarith
  constructor
  · have : (max a lo - lo) / dx < c + 1 := by
      rw [div_lt_iff₀ hdx]
      have := max_le ha hlop
      linarith
    have h3 := Int.floor_le ((max a lo - lo) / dx)
    have h4 : (⌊(max a lo - lo) / dx⌋ : K) < c + 1 := lt_of_le_of_lt h3 this
    have h5 : ⌊(max a lo - lo) / dx⌋ < c + 1 := by exact_mod_cast h4
    omega
  · have : (c : K) < (min b (lo + n * dx) - lo) / dx := by
      rw [lt_div_iff₀ hdx]
      have := le_min hb hphi
      linarith
    have h3 := Int.le_ceil ((min b (lo + n * dx) - lo) / dx)
    have h4 : (c : K) < (⌈(min b (lo + n * dx) - lo) / dx⌉ : K) := lt_of_lt_of_le this h3
    have h5 : c < ⌈(min b (lo + n * dx) - lo) / dx⌉ := by exact_mod_cast h4
    omega

/-- **C23.**  Every cell of the domain whose interior meets the physical box is in the index box. -/
theorem realbox_covers {g : Geom K} (hg : g.Ok) (r : RBox K) {c : Fin 3 → ℤ} (hc : g.domain.has c)
    {p : Fin 3 → K} (hp : InCell g c p) (hr : InRBox r p) : (realboxToBox r g).has c := by
  intro d
  have h := hc d
  simp only [Geom.domain] at h
  have := covers_1d (n := g.n d) (hg d) h.1 (by omega) (hp d).1 (hp d).2 (hr d).1 (hr d).2
  simp only [realboxToBox, Geom.hi, mul_one_div]
  exact ⟨this.1, by omega⟩

/-- **C23.**  No cell further than one cell away is in the index box. -/
theorem realbox_near {g : Geom K} (hg : g.Ok) (r : RBox K) {c : Fin 3 → ℤ}
    (hc : (realboxToBox r g).has c) : Near g r c := by
  intro d
  have h := hc d
  simp only [realboxToBox, mul_one_div] at h
  constructor
  · have h1 := Int.lt_floor_add_one ((max (r.lo d) (g.lo d) - g.lo d) / g.dx d)
    have h2 : ((⌊(max (r.lo d) (g.lo d) - g.lo d) / g.dx d⌋ : ℤ) : K) ≤ c d := by exact_mod_cast h.1
    have h3 : (max (r.lo d) (g.lo d) - g.lo d) / g.dx d < c d + 1 := by linarith
    rw [div_lt_iff₀ (hg d)] at h3
    linarith
  · have h1 := Int.ceil_lt_add_one ((min (r.hi d) (g.hi d) - g.lo d) / g.dx d)
    have h2 : (c d : K) ≤ ((⌈(min (r.hi d) (g.hi d) - g.lo d) / g.dx d⌉ : ℤ) : K) := by
      exact_mod_cast h.2
    have h3 : (c d : K) - 1 < (min (r.hi d) (g.hi d) - g.lo d) / g.dx d := by linarith
    rw [lt_div_iff₀ (hg d)] at h3
    linarith

/-- The index box can leave the domain by one cell: for the physical box equal to a domain of 4 cells in
each direction the index box is `0 .. 4`. -/
theorem realbox_leaves_domain :
    ∃ (g : Geom ℚ) (r : RBox ℚ), g.Ok ∧ (∀ d, r.lo d = g.lo d ∧ r.hi d = g.hi d) ∧
      (realboxToBox r g).has (fun _ => 4) ∧ ¬ g.domain.has (fun _ => 4) := by
  refine ⟨⟨fun _ => 0, fun _ => 1, fun _ => 4⟩, ⟨fun _ => 0, fun _ => 4⟩, ?_, ?_, ?_, ?_⟩
  · intro d; norm_num
  · intro d; simp [Geom.hi]
  · intro d; simp [realboxToBox, Geom.hi]
  · intro h; have := h 0; simp [Geom.domain] at this

/-- ... but never by more: for any physical box that meets the domain the index box is within `0 .. n`. -/
theorem realbox_within {g : Geom K} (hg : g.Ok) (r : RBox K) {c : Fin 3 → ℤ}
    (hc : (realboxToBox r g).has c) (d : Fin 3) : 0 ≤ c d ∧ c d ≤ g.n d := by
  have h := hc d
  simp only [realboxToBox, mul_one_div] at h
  constructor
  · refine le_trans (Int.floor_nonneg.mpr (div_nonneg ?_ (hg d).le)) h.1
    exact sub_nonneg.mpr (le_max_right _ _)
  · refine le_trans h.2 ?_
    rw [Int.ceil_le]
    rw [div_le_iff₀ (hg d)]
    have := min_le_right (r.hi d) (g.hi d)
    unfold Geom.hi at *
    push_cast
    linarith

/-- **C23.**  `contains(box, pos)` is true exactly when the cell holding the point is in the box. -/
theorem contains_iff {g : Geom K} (hg : g.Ok) (b : IBox) (pos : Fin 3 → K) :
    contains b pos g ↔ ∃ c, b.has c ∧
      ∀ d, g.lo d + c d * g.dx d ≤ pos d ∧ pos d < g.lo d + (c d + 1) * g.dx d := by
  constructor
  · intro h
    refine ⟨_, h, fun d => ?_⟩
    have h1 := Int.floor_le ((pos d - g.lo d) * (1 / g.dx d))
    have h2 := Int.lt_floor_add_one ((pos d - g.lo d) * (1 / g.dx d))
    rw [mul_one_div, le_div_iff₀ (hg d)] at h1
    rw [mul_one_div, div_lt_iff₀ (hg d)] at h2
    rw [mul_one_div]
    constructor <;> linarith
  · rintro ⟨c, hb, hc⟩
    unfold contains
    convert hb using 2 with d
    rw [Int.floor_eq_iff, mul_one_div, le_div_iff₀ (hg d), div_lt_iff₀ (hg d)]
    have := hc d
    constructor <;> linarith [this.1, this.2]

/-! ## C37 -/

/-- **C37.**  Every cell of the level whose interior meets a region requested for this level is tagged. -/
theorem static_refinement_complete (regions : List (List (RBox K))) (geoms : List (Geom K)) (level : ℕ)
    {g : Geom K} (hgl : geoms[level]? = some g) (hg : g.Ok) {rs : List (RBox K)}
    (hrs : regions[level]? = some rs) {r : RBox K} (hr : r ∈ rs) (boxes : List IBox) {c : Fin 3 → ℤ}
    (hb : ∃ b ∈ boxes, b.has c) (hc : g.domain.has c) {p : Fin 3 → K} (hp : InCell g c p)
    (hpr : InRBox r p) : cartTagged (cartBoxArrays regions geoms) level boxes c := by
  refine ⟨hb, realboxToBoxArray rs g, ?_, _, List.mem_map.mpr ⟨r, hr, rfl⟩, ?_⟩
  · unfold cartBoxArrays
    have hz : (regions.zip geoms)[level]? = some (rs, g) := List.getElem?_zip_eq_some.mpr ⟨hrs, hgl⟩
    rw [List.getElem?_map, hz]
    rfl
  · intro d
    have h := hc d
    simp only [Geom.domain] at h
    have := covers_1d (n := g.n d) (hg d) h.1 (by omega) (hp d).1 (hp d).2 (hpr d).1 (hpr d).2
    simp only [Geom.hi]
    exact ⟨this.1, by omega⟩

/-- **C37.**  Only cells within one cell size of a region requested for this level are tagged. -/
theorem static_refinement_near (regions : List (List (RBox K))) (geoms : List (Geom K)) (level : ℕ)
    (boxes : List IBox) {c : Fin 3 → ℤ} (h : cartTagged (cartBoxArrays regions geoms) level boxes c)
    (hg : ∀ g ∈ geoms, g.Ok) :
    ∃ g rs, geoms[level]? = some g ∧ regions[level]? = some rs ∧ ∃ r ∈ rs, Near g r c := by
  obtain ⟨_, ba, hba, b, hb, hbc⟩ := h
  unfold cartBoxArrays at hba
  rw [List.getElem?_map] at hba
  obtain ⟨⟨rs, g⟩, hz, rfl⟩ := Option.map_eq_some_iff.mp hba
  obtain ⟨h1, h2⟩ := List.getElem?_zip_eq_some.mp hz
  obtain ⟨r, hr, rfl⟩ := List.mem_map.mp hb
  refine ⟨g, rs, h2, h1, r, hr, ?_⟩
  refine realbox_near (hg g (List.mem_of_getElem? h2)) r ?_
  intro d
  have := hbc d
  simp only [realboxToBox, mul_one_div]
  exact this

/-- Levels beyond those of the file or of the mesh tag nothing. -/
theorem static_refinement_other_levels (regions : List (List (RBox K))) (geoms : List (Geom K)) (level : ℕ)
    (boxes : List IBox) (c : Fin 3 → ℤ) (h : regions.length ≤ level ∨ geoms.length ≤ level) :
    ¬ cartTagged (cartBoxArrays regions geoms) level boxes c := by
  rintro ⟨_, ba, hba, _⟩
  have hl := (List.getElem?_eq_some_iff.mp hba).1
  unfold cartBoxArrays at hl
  rw [List.length_map, List.length_zip] at hl
  omega

/-! ## C38 -/

/-- The bounding box of a shape contains every point of the shape. -/
def Shape.Bounded (s : Shape K) : Prop := ∀ p, s.inside p → InRBox s.bound p

/-- The boxes visited are exactly a cover of the domain (any decomposition, any tiling). -/
def Covers (g : Geom K) (tiles : List IBox) : Prop := ∀ c, g.domain.has c ↔ ∃ b ∈ tiles, b.has c

theorem center_inCell {g : Geom K} (hg : g.Ok) (c : Fin 3 → ℤ) : InCell g c (center g c) := by
  intro d
  have := hg d
  unfold center
  constructor <;> nlinarith

theorem not_empty_of_has {a b : IBox} {c : Fin 3 → ℤ} (ha : a.has c) (hb : b.has c) :
    ¬ (a.inter b).empty := by
  rintro ⟨d, hd⟩
  have h1 := ha d
  have h2 := hb d
  simp only [IBox.inter] at hd
  omega

/-- **C38.**  For shapes inside their bounding boxes, on the levels asked for, a cell is tagged iff it is
in the domain and its centre lies in one of the shapes, whatever the decomposition of the domain. -/
theorem geometric_refinement_exact {g : Geom K} (hg : g.Ok) (shapes : List (Shape K))
    (hb : ∀ s ∈ shapes, s.Bounded) (setLevel minLevel maxLevel level : ℤ)
    (hl1 : setLevel ≤ -1 ∨ level = setLevel) (hl2 : minLevel ≤ level) (hl3 : level ≤ maxLevel)
    (tiles : List IBox) (ht : Covers g tiles) (c : Fin 3 → ℤ) :
    geomTagged shapes setLevel minLevel maxLevel level g tiles c ↔
      g.domain.has c ∧ ∃ s ∈ shapes, s.inside (center g c) := by
  constructor
  · rintro ⟨_, _, bx, hbx, hc, s, hs, _, hin⟩
    exact ⟨(ht c).mpr ⟨bx, hbx, hc⟩, s, hs, hin⟩
  · rintro ⟨hd, s, hs, hin⟩
    obtain ⟨bx, hbx, hc⟩ := (ht c).mp hd
    refine ⟨?_, ?_, bx, hbx, hc, s, hs, not_empty_of_has hc ?_, hin⟩
    · rintro ⟨h1, h2⟩
      rcases hl1 with h | h
      · omega
      · exact h2 h
    · omega
    · exact realbox_covers hg s.bound hd (center_inCell hg c) (hb s hs _ hin)

/-- **C38.**  On other levels nothing is tagged. -/
theorem geometric_refinement_other_levels (g : Geom K) (shapes : List (Shape K))
    (setLevel minLevel maxLevel level : ℤ)
    (h : (-1 < setLevel ∧ level ≠ setLevel) ∨ level < minLevel ∨ maxLevel < level)
    (tiles : List IBox) (c : Fin 3 → ℤ) :
    ¬ geomTagged shapes setLevel minLevel maxLevel level g tiles c := by
  rintro ⟨h1, h2, _⟩
  rcases h with h | h | h
  · exact h1 h
  · exact h2 (Or.inl h)
  · exact h2 (Or.inr h)

/-! ### Cylinder -/

/-- Points of an annular cylinder: along the axis between the two ends, at a distance from the axis
between the two radii. -/
def InCylinder (start stop : Vec K) (outer inner : K) (q : Vec K) : Prop :=
  ∃ (t : K) (r : Vec K), 0 ≤ t ∧ t ≤ 1 ∧ dot r (stop - start) = 0 ∧
    q = start + t • (stop - start) + r ∧ inner * inner ≤ dot r r ∧ dot r r ≤ outer * outer

theorem magSqr_pos {a : Vec K} (h : a ≠ ⟨0, 0, 0⟩) : 0 < magSqr a := by
  unfold magSqr
  by_contra hc
  push Not at hc
  have hx := mul_self_nonneg a.x
  have hy := mul_self_nonneg a.y
  have hz := mul_self_nonneg a.z
  apply h
  ext
  · exact mul_self_eq_zero.mp (by linarith)
  · exact mul_self_eq_zero.mp (by linarith)
  · exact mul_self_eq_zero.mp (by linarith)

/-- **C38.**  The cylinder test is true exactly for the points of the (annular) cylinder. -/
theorem cylInside_iff {start stop : Vec K} (h : stop - start ≠ ⟨0, 0, 0⟩) (outer inner : K)
    (p : Fin 3 → K) : cylInside start stop outer inner p ↔ InCylinder start stop outer inner (toVec p) := by
  have hm := magSqr_pos h
  unfold cylInside
  simp only
  obtain ⟨a, ha⟩ : ∃ a, stop - start = a := ⟨_, rfl⟩
  unfold InCylinder
  rw [ha] at hm ⊢
  generalize toVec p = q
  have hdot : dot a a = magSqr a := rfl
  constructor
  · rintro ⟨h1, h2, h3, h4⟩
    have hd2 : ∀ t : K, t * magSqr a = dot (q - start) a →
        dot (q - start - t • a) (q - start - t • a) =
          dot (q - start) (q - start) - dot (q - start) a * dot (q - start) a / magSqr a := by
      intro t ht
      rw [← ht]
      field_simp
      unfold dot magSqr at *
      simp only [sub_x, sub_y, sub_z, smul_x, smul_y, smul_z] at *
      linear_combination (-2 * t) * (-ht)
    have ht : dot (q - start) a / magSqr a * magSqr a = dot (q - start) a := div_mul_cancel₀ _ hm.ne'
    refine ⟨dot (q - start) a / magSqr a, q - start - (dot (q - start) a / magSqr a) • a,
      div_nonneg h1 hm.le, (div_le_one hm).mpr h2, ?_, ?_, ?_, ?_⟩
    · generalize dot (q - start) a / magSqr a = t at *
      unfold dot magSqr at *
      simp only [sub_x, sub_y, sub_z, smul_x, smul_y, smul_z] at *
      linear_combination -ht
    · ext <;> simp
    · rw [hd2 _ ht]; exact h4
    · rw [hd2 _ ht]; exact h3
  · rintro ⟨t, r, t0, t1, hr, hq, h1, h2⟩
    have e1 : dot (q - start) a = t * magSqr a := by
      rw [hq]
      unfold dot magSqr at *
      simp only [sub_x, sub_y, sub_z, add_x, add_y, add_z, smul_x, smul_y, smul_z] at *
      linear_combination hr
    have e2 : dot (q - start) (q - start) = t * t * magSqr a + dot r r := by
      rw [hq]
      unfold dot magSqr at *
      simp only [sub_x, sub_y, sub_z, add_x, add_y, add_z, smul_x, smul_y, smul_z] at *
      linear_combination 2 * t * hr
    have e3 : dot (q - start) (q - start) - dot (q - start) a * dot (q - start) a / magSqr a = dot r r := by
      rw [e1, e2]; field_simp; ring
    rw [e3, e1]
    exact ⟨mul_nonneg t0 hm.le, by nlinarith, h2, h1⟩

/-- One component of a vector orthogonal to `a` is at most `|r| sqrt(1 - a_d²/|a|²)`. -/
theorem comp_sq_le {a r : Vec ℝ} (hm : 0 < magSqr a) (hr : dot r a = 0) (d : Fin 3) :
    comp r d * comp r d * magSqr a ≤ dot r r * (magSqr a - comp a d * comp a d) := by
  unfold dot magSqr comp at *
  obtain ⟨a1, a2, a3⟩ := a
  obtain ⟨r1, r2, r3⟩ := r
  simp only at *
  fin_cases d
  · simp
    have h1 : r1 * a1 = -(r2 * a2 + r3 * a3) := by linarith
    have h2 : (r1 * a1) ^ 2 = (r2 * a2 + r3 * a3) ^ 2 := by rw [h1]; ring
    nlinarith [sq_nonneg (r2 * a3 - r3 * a2)]
  · simp
    have h1 : r2 * a2 = -(r1 * a1 + r3 * a3) := by linarith
    have h2 : (r2 * a2) ^ 2 = (r1 * a1 + r3 * a3) ^ 2 := by rw [h1]; ring
    nlinarith [sq_nonneg (r1 * a3 - r3 * a1)]
  · simp
    have h1 : r3 * a3 = -(r1 * a1 + r2 * a2) := by linarith
    have h2 : (r3 * a3) ^ 2 = (r1 * a1 + r2 * a2) ^ 2 := by rw [h1]; ring
    nlinarith [sq_nonneg (r1 * a2 - r2 * a1)]

theorem comp_add (v w : Vec K) (d : Fin 3) : comp (v + w) d = comp v d + comp w d := by
  unfold comp; split_ifs <;> rfl
theorem comp_sub (v w : Vec K) (d : Fin 3) : comp (v - w) d = comp v d - comp w d := by
  unfold comp; split_ifs <;> rfl
theorem comp_smul (t : K) (v : Vec K) (d : Fin 3) : comp (t • v) d = comp v d * t := by
  unfold comp; split_ifs <;> rfl
theorem comp_toVec (p : Fin 3 → K) (d : Fin 3) : comp (toVec p) d = p d := by
  unfold comp toVec
  fin_cases d <;> rfl

/-- **C38.**  The cylinder lies in its bounding box. -/
theorem cylinder_bounded {start stop : Vec ℝ} (h : stop - start ≠ ⟨0, 0, 0⟩) {outer : ℝ} (ho : 0 ≤ outer)
    (inner : ℝ) : (cylinder start stop outer inner).Bounded := by
  intro p hp
  obtain ⟨t, r, t0, t1, hr, hq, _, h2⟩ := (cylInside_iff h outer inner p).mp hp
  have hm := magSqr_pos h
  intro d
  have hcs := comp_sq_le hm hr d
  set a := stop - start with ha
  set w := Real.sqrt (1 - comp a d * comp a d / magSqr a) with hw
  have hw0 : 0 ≤ w := Real.sqrt_nonneg _
  have had : comp a d * comp a d ≤ magSqr a := by
    unfold comp magSqr
    have hx := mul_self_nonneg a.x
    have hy := mul_self_nonneg a.y
    have hz := mul_self_nonneg a.z
    split_ifs <;> linarith
  have hrad : 0 ≤ 1 - comp a d * comp a d / magSqr a := by
    rw [sub_nonneg, div_le_one hm]; exact had
  have hw2 : w * w = 1 - comp a d * comp a d / magSqr a := Real.mul_self_sqrt hrad
  have hrr : |comp r d| ≤ outer * w := by
    apply abs_le_of_sq_le_sq _ (mul_nonneg ho hw0)
    have e : (outer * w) ^ 2 = outer * outer * (w * w) := by ring
    rw [e, hw2, sq]
    have : comp r d * comp r d ≤ dot r r * (1 - comp a d * comp a d / magSqr a) := by
      rw [show dot r r * (1 - comp a d * comp a d / magSqr a) =
        dot r r * (magSqr a - comp a d * comp a d) / magSqr a by field_simp]
      rw [le_div_iff₀ hm]; exact hcs
    exact this.trans (mul_le_mul_of_nonneg_right h2 hrad)
  obtain ⟨l, u⟩ := abs_le.mp hrr
  have hpd : p d = comp start d + comp a d * t + comp r d := by
    rw [← comp_toVec p d, hq, comp_add, comp_add, comp_smul]
  have had' : comp a d = comp stop d - comp start d := by rw [ha, comp_sub]
  simp only [cylinder, cylBound]
  rw [← ha, ← hw]
  have hgrow : outer * w ≤ (1 + 1 / 20) * (outer * w) := by nlinarith [mul_nonneg ho hw0]
  constructor
  · rw [min_sub_sub_right]
    have : min (comp start d) (comp stop d) ≤ comp start d + comp a d * t := by
      rw [had']
      rcases le_total (comp start d) (comp stop d) with h5 | h5
      · rw [min_eq_left h5]; nlinarith
      · rw [min_eq_right h5]; nlinarith
    linarith
  · rw [max_add_add_right]
    have : comp start d + comp a d * t ≤ max (comp start d) (comp stop d) := by
      rw [had']
      rcases le_total (comp start d) (comp stop d) with h5 | h5
      · rw [max_eq_right h5]; nlinarith
      · rw [max_eq_left h5]; nlinarith
    linarith

/-! ### Hexahedron -/

/-- Triple product, positive for right-handed axes. -/
def det (x y z : Vec K) : K := dot x (cross y z)

/-- Points of the parallelepiped with corner `o` and edges `x`, `y`, `z`. -/
def InHex (o x y z q : Vec K) : Prop :=
  ∃ u v w : K, 0 ≤ u ∧ u ≤ 1 ∧ 0 ≤ v ∧ v ≤ 1 ∧ 0 ≤ w ∧ w ≤ 1 ∧ q = o + u • x + v • y + w • z

/-- Coordinates of a point in the basis (Cramer's rule). -/
theorem hex_coords {x y z : Vec K} (hd : det x y z ≠ 0) (o q : Vec K) :
    ∃ u v w : K, q = o + u • x + v • y + w • z := by
  refine ⟨dot (q - o) (cross y z) / det x y z, dot (q - o) (cross z x) / det x y z,
    dot (q - o) (cross x y) / det x y z, ?_⟩
  ext <;> simp only [add_x, add_y, add_z, smul_x, smul_y, smul_z] <;> field_simp <;>
    simp only [det, dot, cross, sub_x, sub_y, sub_z] <;> ring

theorem boxInside_coords (o x y z : Vec K) (p : Fin 3 → K) {u v w : K}
    (hp : toVec p = o + u • x + v • y + w • z) :
    boxInside o x y z p ↔ (0 ≤ u * det x y z ∧ (u - 1) * det x y z ≤ 0) ∧
      (0 ≤ v * det x y z ∧ (v - 1) * det x y z ≤ 0) ∧ (0 ≤ w * det x y z ∧ (w - 1) * det x y z ≤ 0) := by
  unfold boxInside faces
  rw [hp]
  simp only [List.mem_cons, List.not_mem_nil, or_false, forall_eq_or_imp, forall_eq, not_lt]
  have e1 : dot (o + u • x + v • y + w • z - o) (cross (o + z - o) (o + y - o)) = -(u * det x y z) := by
    simp only [det, dot, cross, sub_x, sub_y, sub_z, add_x, add_y, add_z, smul_x, smul_y, smul_z]; ring
  have e2 : dot (o + u • x + v • y + w • z - (o + x)) (cross (o + x + y - (o + x)) (o + z + x - (o + x))) =
      (u - 1) * det x y z := by
    simp only [det, dot, cross, sub_x, sub_y, sub_z, add_x, add_y, add_z, smul_x, smul_y, smul_z]; ring
  have e3 : dot (o + u • x + v • y + w • z - o) (cross (o + x - o) (o + z - o)) = -(v * det x y z) := by
    simp only [det, dot, cross, sub_x, sub_y, sub_z, add_x, add_y, add_z, smul_x, smul_y, smul_z]; ring
  have e4 : dot (o + u • x + v • y + w • z - (o + x + y))
      (cross (o + y - (o + x + y)) (o + z + x + y - (o + x + y))) = (v - 1) * det x y z := by
    simp only [det, dot, cross, sub_x, sub_y, sub_z, add_x, add_y, add_z, smul_x, smul_y, smul_z]; ring
  have e5 : dot (o + u • x + v • y + w • z - o) (cross (o + y - o) (o + x - o)) = -(w * det x y z) := by
    simp only [det, dot, cross, sub_x, sub_y, sub_z, add_x, add_y, add_z, smul_x, smul_y, smul_z]; ring
  have e6 : dot (o + u • x + v • y + w • z - (o + z)) (cross (o + z + x - (o + z)) (o + z + y - (o + z))) =
      (w - 1) * det x y z := by
    simp only [det, dot, cross, sub_x, sub_y, sub_z, add_x, add_y, add_z, smul_x, smul_y, smul_z]; ring
  rw [e1, e2, e3, e4, e5, e6]
  simp only [neg_nonpos]
  tauto

/-- **C38.**  For right-handed axes the test is true exactly for the points of the box. -/
theorem boxInside_iff {x y z : Vec K} (hd : 0 < det x y z) (o : Vec K) (p : Fin 3 → K) :
    boxInside o x y z p ↔ InHex o x y z (toVec p) := by
  constructor
  · intro h
    obtain ⟨u, v, w, e⟩ := hex_coords hd.ne' o (toVec p)
    obtain ⟨⟨h1, h2⟩, ⟨h3, h4⟩, ⟨h5, h6⟩⟩ := (boxInside_coords o x y z p e).mp h
    refine ⟨u, v, w, ?_, ?_, ?_, ?_, ?_, ?_, e⟩
    · exact nonneg_of_mul_nonneg_left h1 hd
    · have := nonpos_of_mul_nonpos_left h2 hd; linarith
    · exact nonneg_of_mul_nonneg_left h3 hd
    · have := nonpos_of_mul_nonpos_left h4 hd; linarith
    · exact nonneg_of_mul_nonneg_left h5 hd
    · have := nonpos_of_mul_nonpos_left h6 hd; linarith
  · rintro ⟨u, v, w, u0, u1, v0, v1, w0, w1, e⟩
    refine (boxInside_coords o x y z p e).mpr ⟨⟨?_, ?_⟩, ⟨?_, ?_⟩, ⟨?_, ?_⟩⟩ <;> nlinarith

/-- For left-handed axes (any odd permutation of a right-handed triple) no point passes the test, so
nothing is refined. -/
theorem boxInside_left_handed {x y z : Vec K} (hd : det x y z < 0) (o : Vec K) (p : Fin 3 → K) :
    ¬ boxInside o x y z p := by
  intro h
  obtain ⟨u, v, w, e⟩ := hex_coords hd.ne o (toVec p)
  obtain ⟨⟨h1, h2⟩, _⟩ := (boxInside_coords o x y z p e).mp h
  nlinarith

theorem foldl_min_le (big : K) (d : Fin 3) (cs : List (Vec K)) :
    (∀ c ∈ cs, minCorner big cs d ≤ comp c d) ∧ minCorner big cs d ≤ big := by
  unfold minCorner
  induction cs generalizing big with
  | nil => simp
  | cons a cs ih =>
    simp only [List.foldl_cons]
    obtain ⟨h1, h2⟩ := ih (if comp a d < big then comp a d else big)
    have h3 : (if comp a d < big then comp a d else big) ≤ comp a d := by
      split
      · exact le_rfl
      · rename_i h; exact not_lt.mp h
    have h4 : (if comp a d < big then comp a d else big) ≤ big := by
      split
      · rename_i h; exact h.le
      · exact le_rfl
    refine ⟨?_, h2.trans h4⟩
    intro c hc
    rcases List.mem_cons.mp hc with rfl | hc
    · exact h2.trans h3
    · exact h1 c hc

theorem le_foldl_max (tiny : K) (d : Fin 3) (cs : List (Vec K)) :
    (∀ c ∈ cs, comp c d ≤ maxCorner tiny cs d) ∧ tiny ≤ maxCorner tiny cs d := by
  unfold maxCorner
  induction cs generalizing tiny with
  | nil => simp
  | cons a cs ih =>
    simp only [List.foldl_cons]
    obtain ⟨h1, h2⟩ := ih (if tiny < comp a d then comp a d else tiny)
    have h3 : comp a d ≤ (if tiny < comp a d then comp a d else tiny) := by
      split
      · exact le_rfl
      · rename_i h; exact not_lt.mp h
    have h4 : tiny ≤ (if tiny < comp a d then comp a d else tiny) := by
      split
      · rename_i h; exact h.le
      · exact le_rfl
    refine ⟨?_, h4.trans h2⟩
    intro c hc
    rcases List.mem_cons.mp hc with rfl | hc
    · exact h3.trans h2
    · exact h1 c hc

theorem lerp_le {m a b t : K} (t0 : 0 ≤ t) (t1 : t ≤ 1) (h1 : m ≤ a) (h2 : m ≤ a + b) : m ≤ a + b * t := by
  nlinarith [mul_nonneg t0 (sub_nonneg.mpr h2), mul_nonneg (sub_nonneg.mpr t1) (sub_nonneg.mpr h1)]

theorem trilinear_le {m o x y z u v w : K} (u0 : 0 ≤ u) (u1 : u ≤ 1) (v0 : 0 ≤ v) (v1 : v ≤ 1)
    (w0 : 0 ≤ w) (w1 : w ≤ 1) (a1 : m ≤ o) (a2 : m ≤ o + x) (a3 : m ≤ o + x + y) (a4 : m ≤ o + y)
    (a5 : m ≤ o + z) (a6 : m ≤ o + z + x) (a7 : m ≤ o + z + x + y) (a8 : m ≤ o + z + y) :
    m ≤ o + x * u + y * v + z * w := by
  have q1 : m ≤ o + x * u := lerp_le u0 u1 a1 a2
  have q2 : m ≤ o + y + x * u := lerp_le u0 u1 a4 (by linarith)
  have q3 : m ≤ o + z + x * u := lerp_le u0 u1 a5 a6
  have q4 : m ≤ o + z + y + x * u := lerp_le u0 u1 a8 (by linarith)
  have r1 : m ≤ o + x * u + y * v := lerp_le v0 v1 q1 (by linarith)
  have r2 : m ≤ o + z + x * u + y * v := lerp_le v0 v1 q3 (by linarith)
  exact lerp_le w0 w1 r1 (by linarith)

/-- **C38.**  The hexahedron lies in its bounding box (whatever the two start values). -/
theorem hexahedron_bounded (big tiny : K) {x y z : Vec K} (hd : det x y z ≠ 0) (o : Vec K) :
    (hexahedron big tiny o x y z).Bounded := by
  rcases lt_or_gt_of_ne hd with hneg | hpos
  · intro p hp; exact absurd hp (boxInside_left_handed hneg o p)
  · intro p hp
    obtain ⟨u, v, w, u0, u1, v0, v1, w0, w1, e⟩ := (boxInside_iff hpos o p).mp hp
    intro d
    have hm := (foldl_min_le big d (hexCorners o x y z)).1
    have hM := (le_foldl_max tiny d (hexCorners o x y z)).1
    have hpd : p d = comp o d + comp x d * u + comp y d * v + comp z d * w := by
      rw [← comp_toVec p d, e, comp_add, comp_add, comp_add, comp_smul, comp_smul, comp_smul]
    unfold hexCorners at hm hM
    simp only [List.mem_cons, List.not_mem_nil, or_false, forall_eq_or_imp, forall_eq, comp_add] at hm hM
    simp only [hexahedron, boxBound]
    unfold hexCorners
    generalize minCorner big _ d = m at *
    generalize maxCorner tiny _ d = M at *
    obtain ⟨a1, a2, a3, a4, a5, a6, a7, a8⟩ := hm
    obtain ⟨b1, b2, b3, b4, b5, b6, b7, b8⟩ := hM
    generalize comp o d = o' at *
    generalize comp x d = x' at *
    generalize comp y d = y' at *
    generalize comp z d = z' at *
    have hlo : m ≤ p d := by
      rw [hpd]
      exact trilinear_le u0 u1 v0 v1 w0 w1 a1 a2 a3 a4 a5 a6 a7 a8
    have hhi : p d ≤ M := by
      rw [hpd]
      have := trilinear_le (m := -M) (o := -o') (x := -x') (y := -y') (z := -z') u0 u1 v0 v1 w0 w1
        (by linarith) (by linarith) (by linarith) (by linarith) (by linarith) (by linarith) (by linarith)
        (by linarith)
      linarith
    constructor <;> linarith

/-- **C38.**  Cylinder refinement: a cell is tagged iff it is in the domain and its centre lies in the
(annular) cylinder, whatever the decomposition. -/
theorem cylinder_refinement_exact {g : Geom ℝ} (hg : g.Ok) {start stop : Vec ℝ}
    (h : stop - start ≠ ⟨0, 0, 0⟩) {outer : ℝ} (ho : 0 ≤ outer) (inner : ℝ) (maxLevel level : ℤ)
    (h0 : 0 ≤ level) (h1 : level ≤ maxLevel) (tiles : List IBox) (ht : Covers g tiles) (c : Fin 3 → ℤ) :
    geomTagged [cylinder start stop outer inner] (-1) 0 maxLevel level g tiles c ↔
      g.domain.has c ∧ InCylinder start stop outer inner (toVec (center g c)) := by
  rw [geometric_refinement_exact hg _ _ _ _ _ _ (Or.inl le_rfl) h0 h1 tiles ht]
  · simp only [List.mem_singleton, exists_eq_left]
    exact and_congr Iff.rfl (cylInside_iff h outer inner _)
  · intro s hs
    rw [List.mem_singleton] at hs
    subst hs
    exact cylinder_bounded h ho inner

/-- **C38, part.**  Box refinement with right-handed axes: a cell is tagged iff it is in the domain and its
centre lies in the box, whatever the decomposition.  Missing: with left-handed axes nothing is tagged
(`boxInside_left_handed`). -/
theorem hexahedron_refinement_partial {g : Geom K} (hg : g.Ok) (big tiny : K) (o : Vec K) {x y z : Vec K}
    (hd : 0 < det x y z) (maxLevel level : ℤ) (h0 : 0 ≤ level) (h1 : level ≤ maxLevel) (tiles : List IBox)
    (ht : Covers g tiles) (c : Fin 3 → ℤ) :
    geomTagged [hexahedron big tiny o x y z] (-1) 0 maxLevel level g tiles c ↔
      g.domain.has c ∧ InHex o x y z (toVec (center g c)) := by
  rw [geometric_refinement_exact hg _ _ _ _ _ _ (Or.inl le_rfl) h0 h1 tiles ht]
  · simp only [List.mem_singleton, exists_eq_left]
    exact and_congr Iff.rfl (boxInside_iff hd o _)
  · intro s hs
    rw [List.mem_singleton] at hs
    subst hs
    exact hexahedron_bounded big tiny hd.ne' o

/-- With left-handed axes the box is never refined. -/
theorem hexahedron_left_handed_untagged {g : Geom K} (big tiny : K) (o : Vec K) {x y z : Vec K}
    (hd : det x y z < 0) (setLevel minLevel maxLevel level : ℤ) (tiles : List IBox) (c : Fin 3 → ℤ) :
    ¬ geomTagged [hexahedron big tiny o x y z] setLevel minLevel maxLevel level g tiles c := by
  rintro ⟨_, _, bx, _, _, s, hs, _, hin⟩
  rw [List.mem_singleton] at hs
  subst hs
  exact boxInside_left_handed hd o _ hin

/-! ### User-defined function -/

/-- **C38, part.**  With the default bounding box (the problem domain) the user function decides alone.
Missing: with `box_lo`/`box_hi` the claim is false, see `udf_box_depends_on_tiles`. -/
theorem udf_refinement_partial {g : Geom K} (hg : g.Ok) (f : (Fin 3 → K) → K) (tiles : List IBox)
    (ht : Covers g tiles) (c : Fin 3 → ℤ) :
    geomTagged [udf ⟨g.lo, g.hi⟩ f] (-1) 0 0 0 g tiles c ↔ g.domain.has c ∧ f (center g c) ≠ 0 := by
  constructor
  · rintro ⟨_, _, bx, hbx, hc, s, hs, _, hin⟩
    rw [List.mem_singleton] at hs
    subst hs
    exact ⟨(ht c).mpr ⟨bx, hbx, hc⟩, hin⟩
  · rintro ⟨hd, hf⟩
    obtain ⟨bx, hbx, hc⟩ := (ht c).mp hd
    refine ⟨by omega, by omega, bx, hbx, hc, _, List.mem_singleton.mpr rfl, not_empty_of_has hc ?_, hf⟩
    refine realbox_covers hg _ hd (center_inCell hg c) ?_
    intro d
    have h := hd d
    simp only [Geom.domain] at h
    have h0 : (0 : K) ≤ c d := by exact_mod_cast h.1
    have h1 : (c d : K) + 1 ≤ g.n d := by exact_mod_cast (by omega : c d + 1 ≤ g.n d)
    have := hg d
    simp only [udf, center, Geom.hi]
    constructor <;> nlinarith [mul_nonneg h0 this.le]

/-- With a user-given box the set of tagged cells depends on the decomposition: the same function, box and
mesh give different tags for one tile and for two. -/
theorem udf_box_depends_on_tiles :
    ∃ (g : Geom ℚ) (s : Shape ℚ) (t1 t2 : List IBox) (c : Fin 3 → ℤ), g.Ok ∧ Covers g t1 ∧ Covers g t2 ∧
      geomTagged [s] (-1) 0 0 0 g t1 c ∧ ¬ geomTagged [s] (-1) 0 0 0 g t2 c := by
  refine ⟨⟨fun _ => 0, fun _ => 1, fun _ => 8⟩, udf ⟨fun _ => 0, fun _ => 2⟩ (fun _ => 1),
    [⟨fun _ => 0, fun _ => 7⟩],
    [⟨fun _ => 0, fun d => if d = 0 then 3 else 7⟩, ⟨fun d => if d = 0 then 4 else 0, fun _ => 7⟩],
    fun _ => 5, ?_, ?_, ?_, ?_, ?_⟩
  · intro d; norm_num
  · intro c; simp [Geom.domain, IBox.has]
  · intro c
    simp only [Geom.domain, IBox.has, List.mem_cons, List.not_mem_nil, or_false, exists_eq_or_imp,
      exists_eq_left]
    constructor
    · intro h
      by_cases hc : c 0 ≤ 3
      · left
        intro d
        have := h d
        by_cases hd : d = 0
        · subst hd; simp only [if_true]; exact ⟨this.1, hc⟩
        · simp only [if_neg hd]; simpa using this
      · right
        intro d
        have := h d
        by_cases hd : d = 0
        · subst hd; simp only [if_true]; push_cast at this; omega
        · simp only [if_neg hd]; simpa using this
    · rintro (h | h)
      · intro d
        have := h d
        by_cases hd : d = 0
        · subst hd; simp only [if_true] at this; push_cast; omega
        · simp only [if_neg hd] at this; simpa using this
      · intro d
        have := h d
        by_cases hd : d = 0
        · subst hd; simp only [if_true] at this; push_cast; omega
        · simp only [if_neg hd] at this; simpa using this
  · refine ⟨by omega, by omega, _, List.mem_singleton.mpr rfl, ?_, _, List.mem_singleton.mpr rfl, ?_, ?_⟩
    · intro d; simp
    · rintro ⟨d, hd⟩
      simp [IBox.inter, realboxToBox, udf, Geom.hi] at hd
      norm_num at hd
    · simp [udf]
  · rintro ⟨_, _, bx, hbx, hc, s, hs, hne, _⟩
    rw [List.mem_singleton] at hs
    subst hs
    simp only [List.mem_cons, List.not_mem_nil, or_false] at hbx
    rcases hbx with rfl | rfl
    · have := (hc 0).2
      simp at this
    · apply hne
      refine ⟨0, ?_⟩
      simp [IBox.inter, realboxToBox, udf, Geom.hi]
      norm_num

/-- A concrete geometry, region, cell and point meeting the hypotheses of C23 and C37. -/
example : ∃ (g : Geom ℚ) (r : RBox ℚ) (c : Fin 3 → ℤ) (p : Fin 3 → ℚ), g.Ok ∧ g.domain.has c ∧
    InCell g c p ∧ InRBox r p := by
  refine ⟨⟨fun _ => -1, fun _ => 1 / 2, fun _ => 8⟩, ⟨fun _ => 0, fun _ => 1⟩, fun _ => 2,
    fun _ => 1 / 5, ?_, ?_, ?_, ?_⟩
  · intro d; norm_num
  · intro d; simp [Geom.domain]
  · intro d; norm_num
  · intro d; norm_num

/-- Right-handed and left-handed axes, a proper cylinder axis. -/
example : 0 < det (⟨1, 0, 0⟩ : Vec ℚ) ⟨1, 2, 0⟩ ⟨0, 0, 3⟩ ∧ det (⟨1, 2, 0⟩ : Vec ℚ) ⟨1, 0, 0⟩ ⟨0, 0, 3⟩ < 0 ∧
    (⟨0, 0, 1⟩ - ⟨1, 0, 0⟩ : Vec ℚ) ≠ ⟨0, 0, 0⟩ := by
  refine ⟨?_, ?_, ?_⟩ <;> decide +kernel

end AmrWind.Tag
