import Verif.Tools.ScriptProps

/-!
# Planes refined by a script
-/

set_option linter.unusedSectionVars false

namespace AmrWind.Bscript

open AmrWind.Bplane

variable {K : Type*} [Field K] [LinearOrder K] [IsStrictOrderedRing K]

/-! ## Specification -/

/-- The mesh that has `k` times the cells. -/
def finer (k : ℕ) (p : Inp K) : Inp K := { p with ncell := fun d => p.ncell d * k }

/-- The sizes and bounds in a file with a plane are those of a mesh. -/
structure Bounds (m : Inp K) (f : Face) (p : Plt K) : Prop where
  len : p.levels.length = m.ref.length + 1
  side : ∀ d, d ≠ f.dir → p.plo d = m.plo d ∧ p.phi d = m.phi d
  across : p.plo f.dir = faceAt m f - size m 0 f.dir ∧ p.phi f.dir = faceAt m f + size m 0 f.dir
  dx : ∀ (l : ℕ) (L : Level K), p.levels[l]? = some L → ∀ d, L.dx d = size m l d
  gside : ∀ (l : ℕ) (L : Level K), p.levels[l]? = some L → ∀ d, d ≠ f.dir → L.glo d = m.plo d ∧ L.ghi d = m.phi d
  gacross : ∀ (l : ℕ) (L : Level K), p.levels[l]? = some L → L.glo f.dir = faceAt m f - size m l f.dir ∧ L.ghi f.dir = faceAt m f + size m l f.dir

/-- The boxes in a file with a plane are the two layers of cells at a face of a mesh. -/
def Boxes (m : Inp K) (f : Face) (p : Plt K) : Prop :=
  ∀ (l : ℕ) (L : Level K), p.levels[l]? = some L → L.dom = slab (meshBox m.ncell m.ref l) f ∧ L.grid = slab (meshBox m.ncell m.ref l) f

/-! ## Headers -/

theorem cells_finer (n : ℤ) (k : ℕ) (ref : List ℕ) (l : ℕ) : cells (n * k) ref l = cells n ref l * k := by unfold cells; ring

theorem size_finer {k : ℕ} (m : Inp K) (l : ℕ) (d : Fin 3) : size (finer k m) l d = size m l d / (k : K) := by
  unfold size finer
  simp only [cells_finer]
  push_cast
  rw [div_div]

theorem valid_finer {k : ℕ} {m : Inp K} (hk : 0 < k) (hm : Valid m) : Valid (finer k m) := by
  refine ⟨fun d => ?_, hm.span, hm.ratio⟩
  have := hm.cell d
  have : (0 : ℤ) < k := by exact_mod_cast hk
  simp only [finer]
  positivity

theorem refine_get {f : Face} {k : ℕ} {p : Plt K} {l : ℕ} {M : Level K} (h : (refine f k p).levels[l]? = some M) :
    ∃ L, p.levels[l]? = some L ∧ M = refineLevel f k L := by
  change (p.levels.map (refineLevel f k))[l]? = some M at h
  rw [List.getElem?_map, Option.map_eq_some_iff] at h
  obtain ⟨L, hL, rfl⟩ := h
  exact ⟨L, hL, rfl⟩

/-- C147. **Sizes and bounds of a refined plane** are those of the mesh with `k` times the cells, at all faces. -/
theorem refine_bounds {k : ℕ} {m : Inp K} {f : Face} {p : Plt K} (h : Bounds m f p) : Bounds (finer k m) f (refine f k p) := by
  have hface : faceAt (finer k m) f = faceAt m f := rfl
  have hlev : ∃ L, p.levels[0]? = some L := ⟨_, List.getElem?_eq_getElem (by rw [h.len]; omega)⟩
  obtain ⟨L0, h0⟩ := hlev
  constructor
  · simp [refine, h.len, finer]
  · intro d hd
    simp only [refine, Function.update_of_ne hd]
    exact h.side d hd
  · cases hp : p.levels with
    | nil => rw [hp] at h0; simp at h0
    | cons a t =>
      rw [hp] at h0
      simp only [List.getElem?_cons_zero, Option.some.injEq] at h0
      have hdx := h.dx 0 a (by rw [hp]; rfl) f.dir
      simp only [refine, hp, Function.update_self, hdx, h.across.1, h.across.2, size_finer, hface]
      constructor <;> ring
  · intro l M hM d
    obtain ⟨L, hL, rfl⟩ := refine_get hM
    simp only [refineLevel, h.dx l L hL, size_finer]
  · intro l M hM d hd
    obtain ⟨L, hL, rfl⟩ := refine_get hM
    simp only [refineLevel, Function.update_of_ne hd]
    exact h.gside l L hL d hd
  · intro l M hM
    obtain ⟨L, hL, rfl⟩ := refine_get hM
    simp only [refineLevel, Function.update_self, h.dx l L hL, size_finer, hface, (h.gacross l L hL).1, (h.gacross l L hL).2]
    constructor <;> ring

theorem refineBox_low {k : ℕ} {m : Inp K} {f : Face} (hf : f.high = false) (l : ℕ) :
    refineBox f k (slab (meshBox m.ncell m.ref l) f) = slab (meshBox (finer k m).ncell (finer k m).ref l) f := by
  apply box_ext <;> intro d <;> by_cases hd : d = f.dir
  · subst hd; simp [refineBox, slab, hf, meshBox]
  · simp [refineBox, slab, hf, meshBox, hd]
  · subst hd; simp [refineBox, slab, hf, meshBox]
  · simp [refineBox, slab, hf, meshBox, hd, finer, cells_finer]

/-- C147. **A plane at a low face refined** has the boxes of the plane of the mesh with `k` times the cells. -/
theorem refine_boxes_partial {k : ℕ} {m : Inp K} {f : Face} {p : Plt K} (hf : f.high = false) (h : Boxes m f p) :
    Boxes (finer k m) f (refine f k p) := by
  intro l M hM
  obtain ⟨L, hL, rfl⟩ := refine_get hM
  obtain ⟨h1, h2⟩ := h l L hL
  simp only [refineLevel, h1, h2, refineBox_low hf]
  trivial

/-- C147. **A plane at a high face refined is not read**: no cell of the plane of the finer run is in the box of the file, on any level. -/
theorem refine_high_unread {k : ℕ} {m : Inp K} {f : Face} {p : Plt K} (hm : Valid m) (hk : 2 ≤ k) (hf : f.high = true) (h : Boxes m f p)
    {l : ℕ} {M : Level K} (hM : (refine f k p).levels[l]? = some M) {w : Box} (hw : slab w f = M.grid) (file : Cell → K) (c : Cell) :
    replayCell w (meshBox (finer k m).ncell (finer k m).ref l) file f c = none := by
  obtain ⟨L, hL, rfl⟩ := refine_get hM
  obtain ⟨h1, h2⟩ := h l L hL
  unfold replayCell
  rw [hw]
  simp only [refineLevel, h2]
  rw [if_neg]
  intro hh
  rw [Bool.and_eq_true] at hh
  have a := has_iff.mp hh.1 f.dir
  have b := has_iff.mp hh.2 f.dir
  have hp := cells_pos (hm.cell f.dir) hm.ratio l
  have hk' : (2 : ℤ) ≤ k := by exact_mod_cast hk
  simp only [plane, hf, if_true, Function.update_self, meshBox, finer, cells_finer] at a
  simp only [refineBox, slab, hf, if_true, Function.update_self, meshBox] at b
  nlinarith

/-- C147. **And the run accepts it**: the checks of the header pass at all faces, as they do not look across the face. -/
theorem refine_accepted {tol : K} (ht : 0 < tol) {k : ℕ} {m : Inp K} {f : Face} {p : Plt K} (hb : Bounds m f p) (h : Boxes m f p)
    (ncomp levels : ℕ) (hl : m.ref.length + 1 ≤ levels) :
    checkHeader tol ⟨m.plo, m.phi, (List.range (m.ref.length + 1)).map (meshBox (finer k m).ncell (finer k m).ref)⟩ f ncomp levels
      ((refine f k p).header ncomp) = some () := by
  have hr := refine_bounds (k := k) hb
  obtain ⟨p1, p2, -⟩ := perp_ne f.dir
  have hlen : (refine f k p).levels.length = m.ref.length + 1 := hr.len
  unfold checkHeader
  rw [if_pos]
  have s1 := hr.side _ p1
  have s2 := hr.side _ p2
  have hz : ∀ x y : K, x = y → isClose tol x y = true := by rintro x y rfl; simp [isClose, ht]
  refine ⟨rfl, by simp [Plt.header, hlen, hl], by simp [Plt.header, hlen], by simp [Plt.header, hlen], hz _ _ s1.1, hz _ _ s2.1, hz _ _ s1.2,
    hz _ _ s2.2, ?_⟩
  rw [List.all_eq_true]
  intro q hq
  obtain ⟨i, hi⟩ := List.mem_iff_getElem?.mp hq
  rw [List.getElem?_zip_eq_some] at hi
  obtain ⟨hi1, hi2⟩ := hi
  simp only [Plt.header, List.getElem?_map, Option.map_eq_some_iff] at hi1 hi2
  obtain ⟨M, hM, e1⟩ := hi1
  obtain ⟨j, hj, e2⟩ := hi2
  obtain ⟨L, hL, rfl⟩ := refine_get hM
  have hji : j = i := by
    have := List.getElem?_eq_some_iff.mp hj
    obtain ⟨h1, h2⟩ := this
    simpa using h2.symm
  subst hji
  have key : ∀ d, d ≠ f.dir → sameSpan q.1 q.2 d = true := by
    intro d hd
    rw [← e1, ← e2]
    simp only [refineLevel, (h j L hL).1, sameSpan, refineBox, hd, if_false, Bool.and_eq_true, decide_eq_true_eq]
    cases hf : f.high <;> simp [slab, hf, meshBox, hd, finer, cells_finer]
  rw [key _ p1, key _ p2]; rfl

/-! ## Values -/

theorem lin_add (xs : ℕ → K) (n : ℕ) (v w : ℕ → K) (x : K) : lin xs n v x + lin xs n w x = lin xs n (fun i => v i + w i) x := by
  unfold lin; ring

theorem lin_half (xs : ℕ → K) (n : ℕ) (v : ℕ → K) (x : K) : lin xs n v x / 2 = lin xs n (fun i => v i / 2) x := by unfold lin; ring

theorem lin_const (xs : ℕ → K) (n : ℕ) (a : K) (x : K) : lin xs n (fun _ => a) x = a := by unfold lin; ring

theorem interval_lt (xs : ℕ → K) {n : ℕ} (hn : 2 ≤ n) (x : K) : interval xs n x + 1 < n := by
  unfold interval
  have := List.length_filter_le (fun i => decide (xs (i + 1) ≤ x)) (List.range (n - 2))
  rw [List.length_range] at this
  omega

theorem lin_congr (xs : ℕ → K) {n : ℕ} (hn : 2 ≤ n) {v w : ℕ → K} (h : ∀ i < n, v i = w i) (x : K) : lin xs n v x = lin xs n w x := by
  have := interval_lt xs hn x
  unfold lin
  simp only [h _ (by omega : interval xs n x < n), h _ this]

theorem lin_affine (xs : ℕ → K) {n : ℕ} (hn : 2 ≤ n) (hx : ∀ i, i + 1 < n → xs i < xs (i + 1)) (a b : K) (x : K) :
    lin xs n (fun i => a + b * xs i) x = a + b * x := by
  have := sub_pos.mpr (hx _ (interval_lt xs hn x))
  unfold lin
  field_simp
  ring

theorem lin_two (xs v : ℕ → K) (x y : K) (hne : xs 1 - xs 0 ≠ 0) (h : x + y = xs 0 + xs 1) :
    lin xs 2 v x + lin xs 2 v y = v 0 + v 1 := by
  have hi : ∀ z, interval xs 2 z = 0 := by intro z; simp [interval]
  unfold lin
  simp only [hi]
  have e : (x - xs 0) / (xs (0 + 1) - xs 0) + (y - xs 0) / (xs (0 + 1) - xs 0) = 1 := by
    rw [← add_div, div_eq_one_iff_eq (by simpa using hne)]; simp; linear_combination h
  linear_combination (v (0 + 1) - v 0) * e

/-- A level with the mean of the two layers in both. -/
def meanLayers (f : Face) (L : Level K) : Level K :=
  { L with val := fun c => (L.val (Function.update c f.dir (L.grid.lo f.dir)) + L.val (Function.update c f.dir (L.grid.lo f.dir + 1))) / 2 }

/-- A level of a plane: two layers across the face, its bounds those of its cells. -/
structure Regular (f : Face) (L : Level K) : Prop where
  two : L.grid.hi f.dir = L.grid.lo f.dir + 1
  wide : ∀ d, L.grid.lo d < L.grid.hi d
  pos : ∀ d, 0 < L.dx d
  span : ∀ d, L.ghi d - L.glo d = ((L.grid.hi d - L.grid.lo d + 1 : ℤ) : K) * L.dx d

theorem Regular.x_eq {f : Face} {L : Level K} (h : Regular f L) (d : Fin 3) {i : ℤ} (h0 : 0 ≤ i) (h1 : i < L.grid.hi d - L.grid.lo d + 1) :
    L.x d i = L.glo d + ((i : K) + 1 / 2) * L.dx d := by
  unfold Level.x
  exact coord_uniform (h.span d) h0 h1

theorem Regular.refine {f : Face} {L : Level K} (h : Regular f L) {k : ℕ} (hk : 0 < k) : Regular f (refineLevel f k L) := by
  have hk' : (0 : K) < (k : K) := by exact_mod_cast hk
  have hkz : (1 : ℤ) ≤ (k : ℤ) := by exact_mod_cast hk
  constructor
  · simp [refineLevel, refineBox, h.two]
  · intro d
    have := h.wide d
    simp only [refineLevel, refineBox]
    split_ifs
    · exact this
    · nlinarith
  · intro d
    have := h.pos d
    simp only [refineLevel]; positivity
  · intro d
    by_cases hd : d = f.dir
    · subst hd
      simp only [refineLevel, refineBox, Function.update_self, if_true, h.two]
      push_cast; ring
    · simp only [refineLevel, refineBox, Function.update_of_ne hd, hd, if_false, h.span d]
      push_cast
      field_simp
      ring

theorem refine_val (f : Face) (k : ℕ) (L : Level K) (c : Cell) :
    (refineLevel f k L).val c = L.interp fun d => (refineLevel f k L).x d (c d - (refineLevel f k L).grid.lo d) := rfl

theorem interp_linear {f : Face} {L : Level K} (h : Regular f L) (a b0 b1 b2 : K)
    (hv : ∀ c, L.grid.has c = true → L.val c = a + b0 * L.x 0 (c 0 - L.grid.lo 0) + b1 * L.x 1 (c 1 - L.grid.lo 1) + b2 * L.x 2 (c 2 - L.grid.lo 2))
    (q : Fin 3 → K) : L.interp q = a + b0 * q 0 + b1 * q 1 + b2 * q 2 := by
  have hn : ∀ d, 2 ≤ L.n d := by intro d; have := h.wide d; unfold Level.n; omega
  have hx : ∀ d, ∀ i : ℕ, i + 1 < L.n d → L.x d (i : ℤ) < L.x d ((i + 1 : ℕ) : ℤ) := by
    intro d i hi
    have := h.wide d
    unfold Level.n at hi
    rw [h.x_eq d (by omega) (by omega), h.x_eq d (by omega) (by omega)]
    have := h.pos d
    push_cast
    nlinarith
  unfold Level.interp
  rw [lin_congr _ (hn 0) (w := fun i : ℕ => (a + b1 * q 1 + b2 * q 2) + b0 * L.x 0 (i : ℤ)), lin_affine _ (hn 0) (hx 0)]
  · ring
  intro i hi
  rw [lin_congr _ (hn 1) (w := fun j : ℕ => (a + b0 * L.x 0 (i : ℤ) + b2 * q 2) + b1 * L.x 1 (j : ℤ)), lin_affine _ (hn 1) (hx 1)]
  · ring
  intro j hj
  rw [lin_congr _ (hn 2) (w := fun e : ℕ => (a + b0 * L.x 0 (i : ℤ) + b1 * L.x 1 (j : ℤ)) + b2 * L.x 2 (e : ℤ)), lin_affine _ (hn 2) (hx 2)]
  · ring
  intro e he
  have hin : L.grid.has ![L.grid.lo 0 + (i : ℤ), L.grid.lo 1 + (j : ℤ), L.grid.lo 2 + (e : ℤ)] = true := by
    refine has_iff.mpr fun d => ?_
    unfold Level.n at hi hj he
    match d with
    | 0 => change L.grid.lo 0 ≤ L.grid.lo 0 + (i : ℤ) ∧ L.grid.lo 0 + (i : ℤ) ≤ L.grid.hi 0; omega
    | 1 => change L.grid.lo 1 ≤ L.grid.lo 1 + (j : ℤ) ∧ L.grid.lo 1 + (j : ℤ) ≤ L.grid.hi 1; omega
    | 2 => change L.grid.lo 2 ≤ L.grid.lo 2 + (e : ℤ) ∧ L.grid.lo 2 + (e : ℤ) ≤ L.grid.hi 2; omega
  rw [hv _ hin]
  change a + b0 * L.x 0 (L.grid.lo 0 + (i : ℤ) - L.grid.lo 0) + b1 * L.x 1 (L.grid.lo 1 + (j : ℤ) - L.grid.lo 1) +
    b2 * L.x 2 (L.grid.lo 2 + (e : ℤ) - L.grid.lo 2) = _
  simp only [add_sub_cancel_left]

/-- C147. **Linear fields are kept**: if the values of a level are those of a linear function at the centres of its cells, so are those of
the refined level. -/
theorem refine_linear {f : Face} {k : ℕ} {L : Level K} (h : Regular f L) (a b0 b1 b2 : K)
    (hv : ∀ c, L.grid.has c = true → L.val c = a + b0 * L.x 0 (c 0 - L.grid.lo 0) + b1 * L.x 1 (c 1 - L.grid.lo 1) + b2 * L.x 2 (c 2 - L.grid.lo 2))
    (c : Cell) : (refineLevel f k L).val c = a + b0 * (refineLevel f k L).x 0 (c 0 - (refineLevel f k L).grid.lo 0) +
      b1 * (refineLevel f k L).x 1 (c 1 - (refineLevel f k L).grid.lo 1) + b2 * (refineLevel f k L).x 2 (c 2 - (refineLevel f k L).grid.lo 2) := by
  rw [refine_val, interp_linear h a b0 b1 b2 hv]

theorem upd0 (a b c x : ℤ) : Function.update ![a, b, c] 0 x = ![x, b, c] := by
  funext d; match d with
  | 0 => rfl
  | 1 => rfl
  | 2 => rfl

theorem upd1 (a b c x : ℤ) : Function.update ![a, b, c] 1 x = ![a, x, c] := by
  funext d; match d with
  | 0 => rfl
  | 1 => rfl
  | 2 => rfl

theorem upd2 (a b c x : ℤ) : Function.update ![a, b, c] 2 x = ![a, b, x] := by
  funext d; match d with
  | 0 => rfl
  | 1 => rfl
  | 2 => rfl

theorem interp_mean (L : Level K) (f : Face) (q : Fin 3 → K) (x y : K) (n2 : L.n f.dir = 2) (hne : L.x f.dir 1 - L.x f.dir 0 ≠ 0)
    (h : x + y = L.x f.dir 0 + L.x f.dir 1) :
    (L.interp (Function.update q f.dir x) + L.interp (Function.update q f.dir y)) / 2 = (meanLayers f L).interp q := by
  obtain ⟨dir, high⟩ := f
  simp only at n2 hne h
  have hx : ∀ d i, (meanLayers ⟨dir, high⟩ L).x d i = L.x d i := fun _ _ => rfl
  have hn : ∀ d, (meanLayers ⟨dir, high⟩ L).n d = L.n d := fun _ => rfl
  have hg : (meanLayers ⟨dir, high⟩ L).grid = L.grid := rfl
  have hval : ∀ c, (meanLayers ⟨dir, high⟩ L).val c =
    (L.val (Function.update c dir (L.grid.lo dir)) + L.val (Function.update c dir (L.grid.lo dir + 1))) / 2 := fun _ => rfl
  unfold Level.interp
  simp only [hx, hn, hg, hval]
  match dir with
  | 0 =>
    have e0 : ∀ x : K, Function.update q 0 x 0 = x ∧ Function.update q 0 x 1 = q 1 ∧ Function.update q 0 x 2 = q 2 := fun _ => ⟨rfl, rfl, rfl⟩
    simp only [upd0, (e0 _).1, (e0 _).2.1, (e0 _).2.2, n2, lin_const]
    rw [lin_two _ _ _ _ (by simpa using hne) (by simpa using h)]
    simp only [lin_add, lin_half, Nat.cast_zero, Nat.cast_one, add_zero]
  | 1 =>
    have t2 : ∀ v, lin (fun i : ℕ => L.x 1 (i : ℤ)) 2 v x + lin (fun i : ℕ => L.x 1 (i : ℤ)) 2 v y = v 0 + v 1 := fun v =>
      lin_two _ v x y (by simpa using hne) (by simpa using h)
    have e0 : ∀ x : K, Function.update q 1 x 0 = q 0 ∧ Function.update q 1 x 1 = x ∧ Function.update q 1 x 2 = q 2 := fun _ => ⟨rfl, rfl, rfl⟩
    simp only [upd1, (e0 _).1, (e0 _).2.1, (e0 _).2.2, n2, lin_const]
    rw [lin_add, lin_half]
    simp only [t2]
    simp only [lin_add, lin_half, Nat.cast_zero, Nat.cast_one, add_zero]
  | 2 =>
    have t2 : ∀ v, lin (fun i : ℕ => L.x 2 (i : ℤ)) 2 v x + lin (fun i : ℕ => L.x 2 (i : ℤ)) 2 v y = v 0 + v 1 := fun v =>
      lin_two _ v x y (by simpa using hne) (by simpa using h)
    have e0 : ∀ x : K, Function.update q 2 x 0 = q 0 ∧ Function.update q 2 x 1 = q 1 ∧ Function.update q 2 x 2 = x := fun _ => ⟨rfl, rfl, rfl⟩
    simp only [upd2, (e0 _).1, (e0 _).2.1, (e0 _).2.2, n2, lin_const]
    rw [lin_add, lin_half]
    simp only [lin_add, lin_half]
    simp only [t2]
    simp only [Nat.cast_zero, Nat.cast_one, add_zero]

/-- C147. **What is read from a refined plane**: the mean of the two layers of the refined plane is, in each of its cells, the mean of the
layers of the given plane interpolated to the centre of the cell. -/
theorem refine_mean {f : Face} {k : ℕ} (hk : 0 < k) {L : Level K} (h : Regular f L) (c : Cell) :
    ((refineLevel f k L).val (Function.update c f.dir ((refineLevel f k L).grid.lo f.dir)) +
      (refineLevel f k L).val (Function.update c f.dir ((refineLevel f k L).grid.lo f.dir + 1))) / 2 =
      (meanLayers f L).interp fun d => (refineLevel f k L).x d (c d - (refineLevel f k L).grid.lo d) := by
  have hM := h.refine hk
  have e2 : (refineLevel f k L).glo f.dir = (L.ghi f.dir + L.glo f.dir) / 2 - (refineLevel f k L).dx f.dir := by simp [refineLevel]
  have hv := refine_val f k L
  generalize refineLevel f k L = M at hM e2 hv ⊢
  have n2 : L.n f.dir = 2 := by unfold Level.n; rw [h.two]; simp
  have hd0 := h.pos f.dir
  have hx0 : L.x f.dir 0 = L.glo f.dir + 1 / 2 * L.dx f.dir := by
    rw [h.x_eq f.dir (le_refl 0) (by have := h.two; omega)]; simp
  have hx1 : L.x f.dir 1 = L.glo f.dir + 3 / 2 * L.dx f.dir := by
    rw [h.x_eq f.dir (by norm_num) (by have := h.two; omega)]; norm_num
  have hs := h.span f.dir
  rw [h.two] at hs
  have hy : M.x f.dir 0 + M.x f.dir 1 = L.x f.dir 0 + L.x f.dir 1 := by
    have e0 : M.x f.dir 0 = M.glo f.dir + 1 / 2 * M.dx f.dir := by
      rw [hM.x_eq f.dir (le_refl 0) (by have := hM.two; omega)]; simp
    have e1 : M.x f.dir 1 = M.glo f.dir + 3 / 2 * M.dx f.dir := by
      rw [hM.x_eq f.dir (by norm_num) (by have := hM.two; omega)]; norm_num
    rw [e0, e1, e2, hx0, hx1]
    push_cast at hs
    linear_combination hs
  have hne : L.x f.dir 1 - L.x f.dir 0 ≠ 0 := by rw [hx0, hx1]; intro h; apply hd0.ne'; linarith
  rw [← interp_mean L f _ _ _ n2 hne hy, hv, hv]
  have hu : ∀ i : ℤ, (fun d => M.x d (Function.update c f.dir (M.grid.lo f.dir + i) d - M.grid.lo d)) =
      Function.update (fun d => M.x d (c d - M.grid.lo d)) f.dir (M.x f.dir i) := by
    intro i; funext d
    by_cases hd : d = f.dir
    · subst hd; simp
    · simp [hd]
  have h0 := hu 0
  rw [add_zero] at h0
  rw [h0, hu 1]

/-! ## Planes of runs -/

theorem regular_of {m : Inp K} {f : Face} {p : Plt K} (hm : Valid m) (h2 : ∀ d, 2 ≤ m.ncell d) (hb : Bounds m f p) (h : Boxes m f p) {l : ℕ}
    {L : Level K} (hL : p.levels[l]? = some L) : Regular f L := by
  have hg := (h l L hL).2
  have hP : ∀ d, 2 ≤ cells (m.ncell d) m.ref l := by
    intro d
    have h1 : 0 < (m.ref.take l).prod := prod_pos' fun r hr => hm.ratio r (List.mem_of_mem_take hr)
    have h1' : (1 : ℤ) ≤ ((m.ref.take l).prod : ℕ) := by exact_mod_cast h1
    have := h2 d
    unfold cells
    nlinarith
  have hsz : ∀ d, 0 < size m l d := by
    intro d
    have : (0 : K) < (cells (m.ncell d) m.ref l : K) := by exact_mod_cast (by have := hP d; omega : 0 < cells (m.ncell d) m.ref l)
    exact div_pos (sub_pos.mpr (hm.span d)) this
  constructor
  · rw [hg]; cases hf : f.high <;> simp [slab, hf]
  · intro d
    have := hP d
    rw [hg]
    by_cases hd : d = f.dir
    · subst hd; cases hf : f.high <;> simp [slab, hf]
    · cases hf : f.high <;> simp [slab, hf, hd, meshBox] <;> omega
  · intro d; rw [hb.dx l L hL]; exact hsz d
  · intro d
    rw [hb.dx l L hL, hg]
    by_cases hd : d = f.dir
    · subst hd
      rw [(hb.gacross l L hL).1, (hb.gacross l L hL).2]
      cases hf : f.high <;> simp [slab, hf] <;> ring
    · rw [(hb.gside l L hL d hd).1, (hb.gside l L hL d hd).2, ← size_mul hm l d]
      cases hf : f.high <;> simp [slab, hf, hd, meshBox]

theorem x_centre {m : Inp K} {f : Face} {p : Plt K} (hm : Valid m) (h2 : ∀ d, 2 ≤ m.ncell d) (hb : Bounds m f p) (h : Boxes m f p) {l : ℕ}
    {L : Level K} (hL : p.levels[l]? = some L) {c : Cell} (hc : L.grid.has c = true) (d : Fin 3) :
    L.x d (c d - L.grid.lo d) = centre m l c d := by
  have hr := regular_of hm h2 hb h hL
  have hcd := has_iff.mp hc d
  have hz := size_mul hm l d
  rw [hr.x_eq d (by omega) (by omega), hb.dx l L hL]
  have hg := (h l L hL).2
  unfold centre
  by_cases hd : d = f.dir
  · subst hd
    rw [(hb.gacross l L hL).1, hg]
    unfold faceAt
    cases hf : f.high
    · simp [slab, hf, meshBox]; ring
    · simp [slab, hf, meshBox]; linear_combination (-1 : K) * hz
  · rw [(hb.gside l L hL d hd).1, hg]
    cases hf : f.high <;> simp [slab, hf, meshBox, hd]

/-- C147. **A refined plane at a low face as the finer run reads it**: in each cell of the plane of each level, the mean of the two layers
of the given plane, interpolated to the centre of the cell. -/
theorem refined_read_partial {k : ℕ} (hk : 0 < k) {m : Inp K} {f : Face} {p : Plt K} (hf : f.high = false) (hm : Valid m)
    (h2 : ∀ d, 2 ≤ m.ncell d) (hb : Bounds m f p) (h : Boxes m f p) {l : ℕ} {L M : Level K} (hL : p.levels[l]? = some L)
    (hM : (refine f k p).levels[l]? = some M) {c : Cell} (hc : (plane (meshBox (finer k m).ncell m.ref l) f).has c = true) :
    replayCell (meshBox (finer k m).ncell m.ref l) (meshBox (finer k m).ncell m.ref l) M.val f c =
      some ((meanLayers f L).interp (centre (finer k m) l c)) := by
  have hr := regular_of hm h2 hb h hL
  have hb' := refine_bounds (k := k) hb
  have h' := refine_boxes_partial (k := k) hf h
  have hm' := valid_finer hk hm
  have hkz : (1 : ℤ) ≤ k := by exact_mod_cast hk
  have h2' : ∀ d, 2 ≤ (finer k m).ncell d := by intro d; have := h2 d; simp only [finer]; nlinarith
  have hc' := has_iff.mp hc
  have hgM : M.grid = slab (meshBox (finer k m).ncell m.ref l) f := (h' l M hM).2
  have hcl : c f.dir = -1 := by have := hc' f.dir; simp [plane, hf] at this; omega
  have hlo : M.grid.lo f.dir = -1 := by rw [hgM]; simp [slab, hf, meshBox]
  have hin : M.grid.has c = true := by
    refine has_iff.mpr fun d => ?_
    have := hc' d
    rw [hgM]
    by_cases hd : d = f.dir
    · subst hd; simp [plane, slab, meshBox, hf] at this ⊢; omega
    · simp [plane, slab, meshBox, hf, hd] at this ⊢; omega
  have hrep := (replay_spec (w := meshBox (finer k m).ncell m.ref l) (r := meshBox (finer k m).ncell m.ref l) M.val (f := f) (c := c)
    (by simp [hf, meshBox]) hc).1 (fun d hd => by
      have := hc' d
      simp [plane, meshBox, hf, hd] at this ⊢; omega)
  rw [hrep]
  have hx : (fun d => M.x d (c d - M.grid.lo d)) = centre (finer k m) l c := funext fun d => x_centre hm' h2' hb' h' hM hin d
  obtain ⟨L', hL', rfl⟩ := refine_get hM
  have : L' = L := by rw [hL] at hL'; exact (Option.some.inj hL').symm
  subst this
  have key := refine_mean hk hr c
  rw [hx] at key
  rw [← key, hlo]
  congr 3
  · congr 1; funext d
    by_cases hd : d = f.dir
    · subst hd; simp [hcl]
    · simp [hd]
  · congr 1; funext d
    by_cases hd : d = f.dir
    · subst hd; simp [inner, hf, hcl]
    · simp [inner, hd]

/-! ## Cases -/

/-- The file a run writes for a plane, with values `u`. -/
def recorded (m : Inp K) (f : Face) (u : ℕ → Cell → K) : Plt K :=
  ⟨Function.update m.plo f.dir (faceAt m f - size m 0 f.dir), Function.update m.phi f.dir (faceAt m f + size m 0 f.dir),
   (List.range (m.ref.length + 1)).map fun l => ⟨size m l, slab (meshBox m.ncell m.ref l) f, slab (meshBox m.ncell m.ref l) f,
     Function.update m.plo f.dir (faceAt m f - size m l f.dir), Function.update m.phi f.dir (faceAt m f + size m l f.dir), u l⟩⟩

/-- Files that runs write meet the hypotheses, for every mesh, face and field. -/
theorem recorded_bounds (m : Inp K) (f : Face) (u : ℕ → Cell → K) : Bounds m f (recorded m f u) ∧ Boxes m f (recorded m f u) := by
  have get : ∀ (l : ℕ) (L : Level K), (recorded m f u).levels[l]? = some L → L = ⟨size m l, slab (meshBox m.ncell m.ref l) f, slab (meshBox m.ncell m.ref l) f,
     Function.update m.plo f.dir (faceAt m f - size m l f.dir), Function.update m.phi f.dir (faceAt m f + size m l f.dir), u l⟩ := by
    intro l L hL
    simp only [recorded, List.getElem?_map, Option.map_eq_some_iff] at hL
    obtain ⟨j, hj, rfl⟩ := hL
    have : j = l := by
      obtain ⟨h1, h2⟩ := List.getElem?_eq_some_iff.mp hj
      simpa using h2.symm
    subst this; rfl
  refine ⟨⟨by simp [recorded], fun d hd => by simp [recorded, hd], by simp [recorded], ?_, ?_, ?_⟩, ?_⟩
  · intro l L hL d; rw [get l L hL]
  · intro l L hL d hd; rw [get l L hL]; simp [hd]
  · intro l L hL; rw [get l L hL]; simp
  · intro l L hL; rw [get l L hL]; exact ⟨rfl, rfl⟩

/-- The mesh `ex2` refined by two: the plane of level 1 at the low face has cell `(-1, 3, 5)`, that of the high face is at 16. -/
example : (∀ d, 2 ≤ ex2.ncell d) ∧ (recorded ex2 ⟨0, false⟩ fun _ _ => 0).levels.length = 3 ∧
    (plane (meshBox (finer 2 ex2).ncell ex2.ref 1) ⟨0, false⟩).has ![-1, 3, 5] = true ∧
    (plane (meshBox (finer 2 ex2).ncell ex2.ref 1) ⟨0, true⟩).has ![16, 3, 5] = true := by
  refine ⟨by simp [ex2], by simp [recorded, ex2], by decide +kernel, by decide +kernel⟩

end AmrWind.Bscript
