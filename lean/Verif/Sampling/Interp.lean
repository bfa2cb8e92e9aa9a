import Verif.Sampling.Points

/-!
# C71: the value of a field at a sampling point

Specification: `DataPoint g off c` is the place of the value with index `c` of a field whose values sit at the offset
`off` in the cell; `Near g off p c` says that this place is less than one cell away from `p` in every direction.
-/

set_option linter.unusedSectionVars false

namespace AmrWind.Sampling

open AmrWind.Plane

section
variable {K : Type*} [Field K] [LinearOrder K] [IsStrictOrderedRing K] [FloorRing K]

/-- The index of a cell in a direction. -/
def comp (c : Cell) : Axis → ℤ
  | .x => c.1
  | .y => c.2.1
  | .z => c.2.2

/-- The place of value `c`. -/
def DataPoint (g : Geo K) (off : Axis → K) (c : Cell) : Pos K :=
  fun d => g.plo d + ((comp c d : K) + off d) * g.dx d

/-- The value `c` is less than one cell away from `p`. -/
def Near (g : Geo K) (off : Axis → K) (p : Pos K) (c : Cell) : Prop :=
  ∀ d, |DataPoint g off c d - p d| < g.dx d

theorem near_axis {plo dx off p : K} (hdx : 0 < dx) (b : ℤ) (hb : b = 0 ∨ b = 1)
    (hw : b = 1 → (p - plo - off * dx) * (1 / dx) - ⌊(p - plo - off * dx) * (1 / dx)⌋ ≠ 0) :
    |plo + (((⌊(p - plo - off * dx) * (1 / dx)⌋ + b : ℤ) : K) + off) * dx - p| < dx := by
  set x := (p - plo - off * dx) * (1 / dx) with hx
  have hp : p = plo + (x + off) * dx := by rw [hx]; field_simp; ring
  have e : plo + (((⌊x⌋ + b : ℤ) : K) + off) * dx - p = (⌊x⌋ + b - x) * dx := by
    conv_lhs => rw [hp]
    push_cast
    ring
  rw [e, abs_mul, abs_of_pos hdx]
  have h1 := Int.floor_le x
  have h2 := Int.lt_floor_add_one x
  have : |(⌊x⌋ : K) + b - x| < 1 := by
    rcases hb with rfl | rfl
    · rw [abs_lt]; constructor <;> push_cast <;> linarith
    · have h3 : (0 : K) < x - ⌊x⌋ := lt_of_le_of_ne (by linarith) (Ne.symm (hw rfl))
      rw [abs_lt]; constructor <;> push_cast <;> linarith
  nlinarith

/-- The value is a combination with weights `≥ 0` and sum 1 of the values near the point. -/
theorem interp_convex {g : Geo K} (hdx : ∀ d, 0 < g.dx d) (off : Axis → K) (p : Pos K) :
    ∃ w : List (K × Cell), (∀ q ∈ w, 0 ≤ q.1 ∧ (q.1 ≠ 0 → Near g off p q.2)) ∧ (w.map Prod.fst).sum = 1 ∧
      ∀ f : Cell → K, interpolate g off f p = (w.map fun q => q.1 * f q.2).sum := by
  set x := (p .x - g.plo .x - off .x * g.dx .x) * (1 / g.dx .x) with hx
  set y := (p .y - g.plo .y - off .y * g.dx .y) * (1 / g.dx .y) with hy
  set z := (p .z - g.plo .z - off .z * g.dx .z) * (1 / g.dx .z) with hz
  let wt : ℤ → K → K := fun b t => if b = 1 then t - ⌊t⌋ else 1 - (t - ⌊t⌋)
  let idx : List (ℤ × ℤ × ℤ) := [(0, 0, 0), (0, 0, 1), (0, 1, 0), (0, 1, 1), (1, 0, 0), (1, 0, 1), (1, 1, 0), (1, 1, 1)]
  have hwt : ∀ b t, 0 ≤ wt b t := by
    intro b t
    have h1 := Int.floor_le t
    have h2 := Int.lt_floor_add_one t
    simp only [wt]
    by_cases hb : b = 1
    · rw [if_pos hb]; linarith
    · rw [if_neg hb]; linarith
  refine ⟨idx.map fun q => (wt q.1 x * wt q.2.1 y * wt q.2.2 z, (⌊x⌋ + q.1, ⌊y⌋ + q.2.1, ⌊z⌋ + q.2.2)), ?_, ?_, ?_⟩
  · intro q hq
    obtain ⟨r, hr, rfl⟩ := List.mem_map.mp hq
    refine ⟨mul_nonneg (mul_nonneg (hwt _ _) (hwt _ _)) (hwt _ _), fun hne d => ?_⟩
    have hb : (r.1 = 0 ∨ r.1 = 1) ∧ (r.2.1 = 0 ∨ r.2.1 = 1) ∧ (r.2.2 = 0 ∨ r.2.2 = 1) := by
      simp only [idx, List.mem_cons, List.not_mem_nil, or_false] at hr
      rcases hr with rfl | rfl | rfl | rfl | rfl | rfl | rfl | rfl <;> simp
    have hx0 : wt r.1 x ≠ 0 := fun h => hne (by simp [h])
    have hy0 : wt r.2.1 y ≠ 0 := fun h => hne (by simp [h])
    have hz0 : wt r.2.2 z ≠ 0 := fun h => hne (by simp [h])
    have hw : ∀ b t, wt b t ≠ 0 → b = 1 → t - (⌊t⌋ : K) ≠ 0 := by
      intro b t h hb
      simpa only [wt, if_pos hb] using h
    cases d
    · exact near_axis (hdx .x) r.1 hb.1 (hw _ _ hx0)
    · exact near_axis (hdx .y) r.2.1 hb.2.1 (hw _ _ hy0)
    · exact near_axis (hdx .z) r.2.2 hb.2.2 (hw _ _ hz0)
  · simp only [idx, wt, List.map_cons, List.map_nil, List.sum_cons, List.sum_nil, if_true,
      if_neg (show (0 : ℤ) ≠ 1 by decide)]
    ring
  · intro f
    simp only [idx, wt, List.map_cons, List.map_nil, List.sum_cons, List.sum_nil, if_true,
      if_neg (show (0 : ℤ) ≠ 1 by decide), interpolate, add_zero]
    rw [← hx, ← hy, ← hz]
    ring

theorem sum_bounds {w : List (K × Cell)} {f : Cell → K} {m M : K} (h : ∀ q ∈ w, 0 ≤ q.1 ∧ (q.1 ≠ 0 → m ≤ f q.2 ∧ f q.2 ≤ M)) :
    m * (w.map Prod.fst).sum ≤ (w.map fun q => q.1 * f q.2).sum ∧
      (w.map fun q => q.1 * f q.2).sum ≤ M * (w.map Prod.fst).sum := by
  induction w with
  | nil => simp
  | cons a w ih =>
    obtain ⟨h1, h2⟩ := ih fun q hq => h q (by simp [hq])
    obtain ⟨ha, hb⟩ := h a (by simp)
    simp only [List.map_cons, List.sum_cons]
    by_cases h0 : a.1 = 0
    · rw [h0]; constructor <;> linarith
    · obtain ⟨h3, h4⟩ := hb h0
      constructor <;> nlinarith

/-- C71: the sampled value lies between bounds of the field's values less than one cell away. -/
theorem interp_bounded {g : Geo K} (hdx : ∀ d, 0 < g.dx d) {off : Axis → K} {p : Pos K} {f : Cell → K} {m M : K}
    (h : ∀ c, Near g off p c → m ≤ f c ∧ f c ≤ M) :
    m ≤ interpolate g off f p ∧ interpolate g off f p ≤ M := by
  obtain ⟨w, hw, h1, he⟩ := interp_convex hdx off p
  have := sum_bounds (f := f) (m := m) (M := M) fun q hq => ⟨(hw q hq).1, fun h0 => h _ ((hw q hq).2 h0)⟩
  rw [h1, mul_one, mul_one, ← he f] at this
  exact this

/-- C71: only the field's values less than one cell away matter. -/
theorem interp_local {g : Geo K} (hdx : ∀ d, 0 < g.dx d) {off : Axis → K} {p : Pos K} {f f' : Cell → K}
    (h : ∀ c, Near g off p c → f c = f' c) : interpolate g off f p = interpolate g off f' p := by
  obtain ⟨w, hw, h1, he⟩ := interp_convex hdx off p
  rw [he, he]
  congr 1
  refine List.map_congr_left fun q hq => ?_
  by_cases h0 : q.1 = 0
  · simp [h0]
  · rw [h _ ((hw q hq).2 h0)]

/-- C71: at a point where the field has a value the sample is that value. -/
theorem interp_at_data {g : Geo K} (hdx : ∀ d, 0 < g.dx d) {off : Axis → K} (c : Cell) (f : Cell → K) :
    interpolate g off f (DataPoint g off c) = f c := by
  have key : ∀ c', Near g off (DataPoint g off c) c' → c' = c := by
    intro c' h
    have hd : ∀ d, comp c' d = comp c d := by
      intro d
      have h1 := h d
      simp only [DataPoint] at h1
      rw [show g.plo d + ((comp c' d : K) + off d) * g.dx d - (g.plo d + ((comp c d : K) + off d) * g.dx d) =
        ((comp c' d - comp c d : ℤ) : K) * g.dx d by push_cast; ring, abs_mul, abs_of_pos (hdx d)] at h1
      have h2 : |((comp c' d - comp c d : ℤ) : K)| < 1 := by
        by_contra hc
        have := hdx d
        nlinarith [not_lt.mp hc]
      rw [← Int.cast_abs] at h2
      have h3 : |comp c' d - comp c d| < 1 := by exact_mod_cast h2
      have := Int.abs_lt_one_iff.mp h3
      omega
    have hx := hd .x
    have hy := hd .y
    have hz := hd .z
    simp only [comp] at hx hy hz
    exact Prod.ext hx (Prod.ext hy hz)
  obtain ⟨h1, h2⟩ := interp_bounded (f := f) (m := f c) (M := f c) hdx fun c' h => by rw [key c' h]; simp
  exact le_antisymm h2 h1

theorem trilinear_alg (X Y Z hx hy hz u v w a0 ax ay az axy axz ayz axyz : K) :
    (1 - u) * (1 - v) * (1 - w) * (a0 + ax * X + ay * Y + az * Z + axy * (X * Y) + axz * (X * Z) + ayz * (Y * Z) +
        axyz * (X * Y * Z)) +
      (1 - u) * (1 - v) * w * (a0 + ax * X + ay * Y + az * (Z + hz) + axy * (X * Y) + axz * (X * (Z + hz)) +
        ayz * (Y * (Z + hz)) + axyz * (X * Y * (Z + hz))) +
      (1 - u) * v * (1 - w) * (a0 + ax * X + ay * (Y + hy) + az * Z + axy * (X * (Y + hy)) + axz * (X * Z) +
        ayz * ((Y + hy) * Z) + axyz * (X * (Y + hy) * Z)) +
      (1 - u) * v * w * (a0 + ax * X + ay * (Y + hy) + az * (Z + hz) + axy * (X * (Y + hy)) + axz * (X * (Z + hz)) +
        ayz * ((Y + hy) * (Z + hz)) + axyz * (X * (Y + hy) * (Z + hz))) +
      u * (1 - v) * (1 - w) * (a0 + ax * (X + hx) + ay * Y + az * Z + axy * ((X + hx) * Y) + axz * ((X + hx) * Z) +
        ayz * (Y * Z) + axyz * ((X + hx) * Y * Z)) +
      u * (1 - v) * w * (a0 + ax * (X + hx) + ay * Y + az * (Z + hz) + axy * ((X + hx) * Y) +
        axz * ((X + hx) * (Z + hz)) + ayz * (Y * (Z + hz)) + axyz * ((X + hx) * Y * (Z + hz))) +
      u * v * (1 - w) * (a0 + ax * (X + hx) + ay * (Y + hy) + az * Z + axy * ((X + hx) * (Y + hy)) +
        axz * ((X + hx) * Z) + ayz * ((Y + hy) * Z) + axyz * ((X + hx) * (Y + hy) * Z)) +
      u * v * w * (a0 + ax * (X + hx) + ay * (Y + hy) + az * (Z + hz) + axy * ((X + hx) * (Y + hy)) +
        axz * ((X + hx) * (Z + hz)) + ayz * ((Y + hy) * (Z + hz)) + axyz * ((X + hx) * (Y + hy) * (Z + hz))) =
    a0 + ax * (X + u * hx) + ay * (Y + v * hy) + az * (Z + w * hz) + axy * ((X + u * hx) * (Y + v * hy)) +
      axz * ((X + u * hx) * (Z + w * hz)) + ayz * ((Y + v * hy) * (Z + w * hz)) +
      axyz * ((X + u * hx) * (Y + v * hy) * (Z + w * hz)) := by
  ring

/-- C71: a trilinear function of the position is sampled exactly. -/
theorem interp_trilinear {g : Geo K} (hdx : ∀ d, 0 < g.dx d) {off : Axis → K} (p : Pos K)
    (a0 ax ay az axy axz ayz axyz : K) :
    let T : Pos K → K := fun q => a0 + ax * q .x + ay * q .y + az * q .z + axy * (q .x * q .y) + axz * (q .x * q .z) +
      ayz * (q .y * q .z) + axyz * (q .x * q .y * q .z)
    interpolate g off (fun c => T (DataPoint g off c)) p = T p := by
  intro T
  set x := (p .x - g.plo .x - off .x * g.dx .x) * (1 / g.dx .x) with hx
  set y := (p .y - g.plo .y - off .y * g.dx .y) * (1 / g.dx .y) with hy
  set z := (p .z - g.plo .z - off .z * g.dx .z) * (1 / g.dx .z) with hz
  have hp : ∀ d (t : K), t = (p d - g.plo d - off d * g.dx d) * (1 / g.dx d) →
      p d = g.plo d + ((⌊t⌋ : K) + off d) * g.dx d + (t - ⌊t⌋) * g.dx d := by
    intro d t ht
    rw [ht]; have := (hdx d).ne'; field_simp; ring
  have hs : ∀ (i : ℤ) (a o h : K), a + (((i + 1 : ℤ) : K) + o) * h = a + ((i : K) + o) * h + h := by
    intro i a o h; push_cast; ring
  simp only [interpolate]
  rw [← hx, ← hy, ← hz]
  simp only [T, DataPoint, comp]
  rw [hp .x x hx, hp .y y hy, hp .z z hz]
  simp only [hs]
  exact trilinear_alg _ _ _ _ _ _ _ _ _ _ _ _ _ _ _ _ _

/-- C71: with offsets between 0 and 1 only values of the particle's cell and of its neighbours are read: one layer of
ghost cells is enough for every particle of a box. -/
theorem interp_one_ghost {g : Geo K} (hdx : ∀ d, 0 < g.dx d) {off : Axis → K} (ho : ∀ d, 0 ≤ off d ∧ off d ≤ 1)
    {p : Pos K} {b : Bx} (hb : contains g b p = true) {f f' : Cell → K}
    (h : ∀ c, (b.lo.1 - 1 ≤ c.1 ∧ c.1 ≤ b.hi.1 + 1) → (b.lo.2.1 - 1 ≤ c.2.1 ∧ c.2.1 ≤ b.hi.2.1 + 1) →
      (b.lo.2.2 - 1 ≤ c.2.2 ∧ c.2.2 ≤ b.hi.2.2 + 1) → f c = f' c) :
    interpolate g off f p = interpolate g off f' p := by
  refine interp_local hdx fun c hc => ?_
  have hax : ∀ d, ⌊(p d - g.plo d) * (1 / g.dx d)⌋ - 1 ≤ comp c d ∧
      comp c d ≤ ⌊(p d - g.plo d) * (1 / g.dx d)⌋ + 1 := by
    intro d
    set x := (p d - g.plo d) * (1 / g.dx d) with hx
    have hd := hdx d
    have hp : p d = g.plo d + x * g.dx d := by rw [hx]; field_simp; ring
    have h1 := hc d
    simp only [DataPoint] at h1
    rw [show g.plo d + ((comp c d : K) + off d) * g.dx d - p d = ((comp c d : K) + off d - x) * g.dx d by
      rw [hp]; ring, abs_mul, abs_of_pos hd] at h1
    have h2 : |(comp c d : K) + off d - x| < 1 := by
      by_contra hcn
      nlinarith [not_lt.mp hcn]
    obtain ⟨h3, h4⟩ := abs_lt.mp h2
    have h5 := Int.floor_le x
    have h6 := Int.lt_floor_add_one x
    obtain ⟨h7, h8⟩ := ho d
    constructor
    · have : (⌊x⌋ : K) < comp c d + 2 := by linarith
      have : ⌊x⌋ < comp c d + 2 := by exact_mod_cast this
      omega
    · have : (comp c d : K) < ⌊x⌋ + 2 := by linarith
      have : comp c d < ⌊x⌋ + 2 := by exact_mod_cast this
      omega
  have hin := boxContains_iff.mp hb
  have hX := hax .x
  have hY := hax .y
  have hZ := hax .z
  simp only [comp] at hX hY hZ
  simp only [Bx.Has, cellOf] at hin
  exact h c (by omega) (by omega) (by omega)

end

/-- A cell field with the values `x + 10 y` of the cell centres, sampled off the centres. -/
example : interpolate exGeo (fun _ => 1 / 2) (fun c => (c.1 : ℚ) + 1 / 2 + 10 * ((c.2.1 : ℚ) + 1 / 2) / 2)
    (fun _ => 3 / 4) = 33 / 4 := by decide +kernel

/-- Between two values, 0 and 1, the sample is 1/4. -/
example : interpolate exGeo (fun _ => 1 / 2) (fun c => if c.1 = 0 then (0 : ℚ) else 1) (fun _ => 3 / 4) = 1 / 4 ∧
    contains exGeo ⟨(0, 0, 0), (1, 3, 1)⟩ (fun _ => (3 : ℚ) / 4) = true := by decide +kernel

end AmrWind.Sampling
