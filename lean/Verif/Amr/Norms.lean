import Verif.Amr.Props
import Mathlib.Analysis.SpecialFunctions.Sqrt

/-!
# C65: field norms

Model of `utilities/sampling/FieldNorms.cpp` and its properties.
-/

set_option linter.unusedSectionVars false

namespace AmrWind.Amr

open Plane (Cell Bx Axis cells irange mem_cells nodup_cells fineBox mem_irange length_irange)

/-! ## Model -/

/-- Where the values of a field sit: cell centres, faces of one direction, nodes. -/
inductive Where
  | cell
  | face (d : Axis)
  | node
deriving DecidableEq

/-- `index_type[nn] == 1` (FieldNorms.cpp:80-86). -/
def Where.nodal : Where → Axis → Bool
  | .cell, _ => false
  | .face d, a => decide (d = a)
  | .node, _ => true

/-- FieldNorms.cpp:120-123: `fbx`, the points of the field around the cells of a box. -/
def Where.fbx (w : Where) (b : Bx) : Bx :=
  ⟨b.lo, (b.hi.1 + (if w.nodal .x then 1 else 0), b.hi.2.1 + (if w.nodal .y then 1 else 0),
    b.hi.2.2 + (if w.nodal .z then 1 else 0))⟩

section
variable {K : Type*} [Field K] [LinearOrder K]

/-- FieldNorms.cpp:131-135: half a cell at the ends of the box. -/
def endWeight (nodal : Bool) (lo hi i : ℤ) : K := if nodal && (decide (i = hi) || decide (i = lo)) then 1 / 2 else 1

/-- FieldNorms.cpp:137-139. -/
def clampIx (lo hi i : ℤ) : ℤ := min hi (max lo i)

/-- FieldNorms.cpp:125-151: one box; `val` is the power of the magnitude at a point. -/
def boxNorm (w : Where) (vol : K) (mask : Cell → ℤ) (val : Cell → K) (b : Bx) : K :=
  let f := w.fbx b
  ((cells f).map fun c =>
    vol * endWeight (w.nodal .x) f.lo.1 f.hi.1 c.1 * endWeight (w.nodal .y) f.lo.2.1 f.hi.2.1 c.2.1 *
      endWeight (w.nodal .z) f.lo.2.2 f.hi.2.2 c.2.2 * val c *
      (mask (clampIx b.lo.1 b.hi.1 c.1, clampIx b.lo.2.1 b.hi.2.1 c.2.1, clampIx b.lo.2.2 b.hi.2.2 c.2.2) : K)).sum

/-- FieldNorms.cpp:76-154 on rank `p`, `norm_type > 0`; without `use_mask` the mask is one everywhere (102-108). -/
def rankNorm (nproc p : ℕ) (useMask : Bool) (w : Where) (dx : ℕ → Axis → K) (val : ℕ → Cell → K) : ℕ → List Lev → K
  | _, [] => 0
  | lev, L :: rest =>
    ((L.boxes p).map fun b => boxNorm w (cellVol dx lev)
      (fun c => if useMask then levelMask nproc L rest c else 1) (val lev) b).sum +
      rankNorm nproc p useMask w dx val (lev + 1) rest

/-- FieldNorms.cpp:186-190: the sum over ranks over the volume of the domain. -/
def normMean (nproc : ℕ) (useMask : Bool) (w : Where) (dx : ℕ → Axis → K) (totalVol : K) (val : ℕ → Cell → K)
    (levels : List Lev) : K :=
  ((List.range nproc).map fun p => rankNorm nproc p useMask w dx val 0 levels).sum / totalVol

/-- FieldNorms.cpp:157-181: one box for the infinity norm, with the loop over the box of the field; the mask has the
cells of the box and nothing else, reading it elsewhere is undefined (`none`). -/
def boxMax (w : Where) (mask : Cell → ℤ) (val : Cell → K) (b : Bx) : Option K :=
  (cells (w.fbx b)).foldl (fun acc c => acc.bind fun m =>
    if contains b c then some (if mask c = 1 then max m (val c) else m) else none) (some 0)

/-- FieldNorms.cpp:76-183 on rank `p`, infinity norm. -/
def rankMaxNorm (nproc p : ℕ) (useMask : Bool) (w : Where) (val : ℕ → Cell → K) : ℕ → List Lev → K → Option K
  | _, [], nrm => some nrm
  | lev, L :: rest, nrm =>
    ((L.boxes p).foldl (fun acc b => acc.bind fun m =>
      (boxMax w (fun c => if useMask then levelMask nproc L rest c else 1) (val lev) b).map fun v => max m v) (some nrm)).bind
      fun m => rankMaxNorm nproc p useMask w val (lev + 1) rest m

/-- FieldNorms.cpp:191-193: the maximum over ranks. -/
def maxNorm (nproc : ℕ) (useMask : Bool) (w : Where) (val : ℕ → Cell → K) (levels : List Lev) : Option K :=
  (List.range nproc).foldl (fun acc p => acc.bind fun m =>
    (rankMaxNorm nproc p useMask w val 0 levels 0).map fun v => max m v) (some 0)

end

/-- FieldNorms.cpp:140-147: the magnitude of the components `comp, 1, …, ncomp - 1`. -/
noncomputable def magnitude (f : ℕ → ℝ) (comp ncomp : ℕ) : ℝ :=
  ((List.range (ncomp - 1)).map (· + 1)).foldl (fun v n => √(v * v + f n * f n)) |f comp|

/-- FieldNorms.cpp:59-195 `get_norm` for `norm_type` 1 and 2. -/
noncomputable def getNorm (nproc : ℕ) (useMask : Bool) (w : Where) (dx : ℕ → Axis → ℝ) (totalVol : ℝ)
    (f : ℕ → Cell → ℕ → ℝ) (comp ncomp : ℕ) (two : Bool) (levels : List Lev) : ℝ :=
  let m := normMean nproc useMask w dx totalVol (fun lev c =>
    magnitude (f lev c) comp ncomp * (if two then magnitude (f lev c) comp ncomp else 1)) levels
  if two then √m else m

/-! ## Magnitude -/

theorem foldl_sq (f : ℕ → ℝ) (l : List ℕ) (v : ℝ) (hv : 0 ≤ v) :
    0 ≤ l.foldl (fun v n => √(v * v + f n * f n)) v ∧
      (l.foldl (fun v n => √(v * v + f n * f n)) v) ^ 2 = v ^ 2 + (l.map fun n => f n ^ 2).sum := by
  induction l generalizing v with
  | nil => simp [hv]
  | cons a l ih =>
    rw [List.foldl_cons]
    obtain ⟨h1, h2⟩ := ih (√(v * v + f a * f a)) (Real.sqrt_nonneg _)
    refine ⟨h1, ?_⟩
    rw [h2, Real.sq_sqrt (by nlinarith [sq_nonneg v, sq_nonneg (f a)]), List.map_cons, List.sum_cons]
    ring

/-- C65: with one component the magnitude is the absolute value, with all components it is the Euclidean length. -/
theorem magnitude_spec (f : ℕ → ℝ) (comp ncomp : ℕ) : magnitude f comp 1 = |f comp| ∧ 0 ≤ magnitude f 0 ncomp ∧
    (1 ≤ ncomp → magnitude f 0 ncomp ^ 2 = ((List.range ncomp).map fun n => f n ^ 2).sum) := by
  refine ⟨by simp [magnitude], (foldl_sq f _ _ (abs_nonneg _)).1, ?_⟩
  intro h
  unfold magnitude
  rw [(foldl_sq f _ _ (abs_nonneg _)).2, sq_abs, List.map_map]
  obtain ⟨m, rfl⟩ : ∃ m, ncomp = m + 1 := ⟨ncomp - 1, by omega⟩
  rw [List.range_succ_eq_map, List.map_cons, List.sum_cons, List.map_map]
  rfl

/-! ## Cell-centred fields -/

section
variable {K : Type*} [Field K] [LinearOrder K]

theorem boxNorm_cell (vol : K) (mask : Cell → ℤ) (val : Cell → K) (b : Bx) :
    boxNorm .cell vol mask val b = ((cells b).map fun c => vol * (mask c : K) * val c).sum := by
  unfold boxNorm
  have e : (Where.cell).fbx b = b := by simp [Where.fbx, Where.nodal]
  simp only [e]
  congr 1
  apply List.map_congr_left
  rintro ⟨i, j, k⟩ hc
  rw [mem_cells] at hc
  obtain ⟨⟨a1, a2⟩, ⟨b1, b2⟩, ⟨c1, c2⟩⟩ := hc
  simp only at a1 a2 b1 b2 c1 c2
  have cl : ∀ lo hi i : ℤ, lo ≤ i → i ≤ hi → clampIx lo hi i = i := by
    intro lo hi i h1 h2
    unfold clampIx
    omega
  simp only [cl _ _ _ a1 a2, cl _ _ _ b1 b2, cl _ _ _ c1 c2, Where.nodal, endWeight, Bool.false_and, Bool.false_eq_true,
    if_false]
  ring

theorem rankNorm_cell (nproc p : ℕ) (dx : ℕ → Axis → K) (val : ℕ → Cell → K) (levels : List Lev) (lev : ℕ) :
    rankNorm nproc p true .cell dx val lev levels =
      rankSum nproc p (fun lev c m => cellVol dx lev * (m : K) * val lev c) lev levels := by
  induction levels generalizing lev with
  | nil => rfl
  | cons L rest ih =>
    simp only [rankNorm, rankSum, ih, boxNorm_cell, if_true]

end

/-- C65: the masked norms of a cell-centred component are the mean absolute value and the root mean square over the
domain, every point counted once, for every hierarchy and distribution. -/
theorem norm_component {nproc : ℕ} {dom : Bx} {levels : List Lev} (hn : Nested nproc levels)
    (hc : Covers nproc dom levels) {dx : ℕ → Axis → ℝ} {h : Axis → ℝ} (hdx : Spacing dx h levels)
    {f : ℕ → Cell → ℕ → ℝ} {F : Cell → ℕ → ℝ} (hF : Represents nproc levels f F) (totalVol : ℝ) (comp : ℕ) :
    getNorm nproc true .cell dx totalVol f comp 1 false levels =
        h .x * h .y * h .z * ((cells (refineBox (refine levels) dom)).map fun x => |F x comp|).sum / totalVol ∧
      getNorm nproc true .cell dx totalVol f comp 1 true levels =
        √(h .x * h .y * h .z * ((cells (refineBox (refine levels) dom)).map fun x => F x comp ^ 2).sum / totalVol) := by
  have key : ∀ (g : ℕ → Cell → ℝ) (G : Cell → ℝ), Represents nproc levels g G →
      normMean nproc true .cell dx totalVol g levels =
        h .x * h .y * h .z * ((cells (refineBox (refine levels) dom)).map G).sum / totalVol := by
    intro g G hG
    unfold normMean
    simp only [rankNorm_cell]
    rw [← composite_integral hn hc hdx hG]
    rfl
  unfold getNorm
  simp only [(magnitude_spec _ _ 1).1]
  constructor
  · simp only [Bool.false_eq_true, if_false, mul_one]
    exact key _ _ fun lev c x hu hx => by simp only [hF lev c x hu hx]
  · simp only [if_true]
    rw [key _ (fun x => F x comp ^ 2) fun lev c x hu hx => by simp only [hF lev c x hu hx, abs_mul_abs_self]; ring]

/-- C65: with vector magnitudes the 2-norm is the root of the mean of the squared length. -/
theorem norm_vector {nproc : ℕ} {dom : Bx} {levels : List Lev} (hn : Nested nproc levels)
    (hc : Covers nproc dom levels) {dx : ℕ → Axis → ℝ} {h : Axis → ℝ} (hdx : Spacing dx h levels)
    {f : ℕ → Cell → ℕ → ℝ} {F : Cell → ℕ → ℝ} (hF : Represents nproc levels f F) (totalVol : ℝ) {ncomp : ℕ}
    (h1 : 1 ≤ ncomp) :
    getNorm nproc true .cell dx totalVol f 0 ncomp true levels =
        √(h .x * h .y * h .z * ((cells (refineBox (refine levels) dom)).map fun x =>
          ((List.range ncomp).map fun n => F x n ^ 2).sum).sum / totalVol) := by
  unfold getNorm
  simp only [if_true]
  congr 1
  unfold normMean
  simp only [rankNorm_cell]
  rw [← composite_integral hn hc hdx (f := fun lev c => magnitude (f lev c) 0 ncomp * magnitude (f lev c) 0 ncomp)]
  · rfl
  · intro lev c x hu hx
    simp only [← pow_two]
    rw [(magnitude_spec (f lev c) 0 ncomp).2.2 h1, hF lev c x hu hx]

/-! ## The infinity norm -/

section
variable {K : Type*} [Field K] [LinearOrder K]

/-- Folding a maximum: at least the start and every value, and one of them. -/
theorem foldl_max {α : Type*} (l : List α) (v : α → K) (m : K) :
    m ≤ l.foldl (fun m a => max m (v a)) m ∧ (∀ a ∈ l, v a ≤ l.foldl (fun m a => max m (v a)) m) ∧
      (l.foldl (fun m a => max m (v a)) m = m ∨ ∃ a ∈ l, l.foldl (fun m a => max m (v a)) m = v a) := by
  induction l generalizing m with
  | nil => simp
  | cons a l ih =>
    obtain ⟨h1, h2, h3⟩ := ih (max m (v a))
    rw [List.foldl_cons]
    refine ⟨le_trans (le_max_left _ _) h1, ?_, ?_⟩
    · intro b hb
      rcases List.mem_cons.mp hb with rfl | hb
      · exact le_trans (le_max_right _ _) h1
      · exact h2 b hb
    · rcases h3 with h3 | ⟨b, hb, h3⟩
      · rcases max_choice m (v a) with h4 | h4
        · left; rw [h3, h4]
        · right; exact ⟨a, List.mem_cons_self, by rw [h3, h4]⟩
      · right; exact ⟨b, List.mem_cons_of_mem _ hb, h3⟩

theorem foldl_opt_max {α : Type*} (l : List α) (g : α → Option K) (v : α → K) (hg : ∀ a ∈ l, g a = some (v a)) (m : K) :
    l.foldl (fun acc a => acc.bind fun m => (g a).map fun x => max m x) (some m) =
      some (l.foldl (fun m a => max m (v a)) m) := by
  induction l generalizing m with
  | nil => rfl
  | cons a l ih =>
    rw [List.foldl_cons, List.foldl_cons, ← ih (fun b hb => hg b (List.mem_cons_of_mem _ hb)), Option.bind_some,
      hg a List.mem_cons_self, Option.map_some]

theorem boxMax_cell (mask : Cell → ℤ) (val : Cell → K) (b : Bx) :
    boxMax .cell mask val b = some (((cells b).filter fun c => mask c = 1).foldl (fun m c => max m (val c)) 0) := by
  have e : (Where.cell).fbx b = b := by simp [Where.fbx, Where.nodal]
  unfold boxMax
  rw [e]
  have hin : ∀ c ∈ cells b, contains b c = true := fun c hc => contains_iff.mpr (mem_cells.mp hc)
  generalize (0 : K) = m
  generalize cells b = l at hin
  induction l generalizing m with
  | nil => rfl
  | cons c l ih =>
    rw [List.foldl_cons, Option.bind_some, if_pos (hin c List.mem_cons_self)]
    by_cases hm : mask c = 1
    · rw [if_pos hm, ih _ fun d hd => hin d (List.mem_cons_of_mem _ hd), List.filter_cons_of_pos (by simpa using hm),
        List.foldl_cons]
    · rw [if_neg hm, ih _ fun d hd => hin d (List.mem_cons_of_mem _ hd), List.filter_cons_of_neg (by simpa using hm)]

/-- The infinity norm on one rank. -/
theorem rankMax_spec {nproc : ℕ} {val : ℕ → Cell → K} (p : ℕ) (levels : List Lev) (lev : ℕ) (m : K) (h0 : 0 ≤ m) :
    ∃ v, rankMaxNorm nproc p true .cell val lev levels m = some v ∧ m ≤ v ∧
      (∀ n L rest c, levels.drop n = L :: rest → (∃ b ∈ L.boxes p, b.Has c) → levelMask nproc L rest c = 1 →
        val (lev + n) c ≤ v) ∧
      (v = m ∨ v = 0 ∨ ∃ n L rest c, levels.drop n = L :: rest ∧ (∃ b ∈ L.boxes p, b.Has c) ∧
        levelMask nproc L rest c = 1 ∧ v = val (lev + n) c) := by
  induction levels generalizing lev m with
  | nil => exact ⟨m, rfl, le_rfl, by simp, Or.inl rfl⟩
  | cons L rest ih =>
    unfold rankMaxNorm
    simp only [if_true]
    set w : Bx → K := fun b => ((cells b).filter fun c => levelMask nproc L rest c = 1).foldl
      (fun m c => max m (val lev c)) 0 with hw
    rw [foldl_opt_max _ _ w (fun b _ => boxMax_cell _ _ b), Option.bind_some]
    obtain ⟨a1, a2, a3⟩ := foldl_max (L.boxes p) w m
    set m' := (L.boxes p).foldl (fun m a => max m (w a)) m
    obtain ⟨v, hv, b1, b2, b3⟩ := ih (lev + 1) m' (h0.trans a1)
    refine ⟨v, hv, a1.trans b1, ?_, ?_⟩
    · intro n M rest' c hd hb hm
      cases n with
      | zero =>
        simp only [List.drop_zero, List.cons.injEq] at hd
        obtain ⟨rfl, rfl⟩ := hd
        obtain ⟨b, hb, hc⟩ := hb
        refine le_trans ?_ ((a2 b hb).trans b1)
        exact (foldl_max _ _ _).2.1 c (List.mem_filter.mpr ⟨mem_cells.mpr hc, by simpa using hm⟩)
      | succ n =>
        have := b2 n M rest' c (by simpa using hd) hb hm
        rwa [show lev + (n + 1) = lev + 1 + n by omega]
    · rcases b3 with b3 | b3 | ⟨n, M, rest', c, h1, h2, h3, h4⟩
      · rcases a3 with a3 | ⟨b, hb, a3⟩
        · left; rw [b3, a3]
        · rcases (foldl_max ((cells b).filter fun c => levelMask nproc L rest c = 1) (val lev) 0).2.2 with h | ⟨c, hc, h⟩
          · right; left; rw [b3, a3]; exact h
          · right; right
            rw [List.mem_filter] at hc
            exact ⟨0, L, rest, c, rfl, ⟨b, hb, mem_cells.mp hc.1⟩, by simpa using hc.2, by rw [b3, a3]; exact h⟩
      · right; left; exact b3
      · right; right
        exact ⟨n + 1, M, rest', c, by simpa using h1, h2, h3, by rw [h4]; congr 1; omega⟩

/-- An uncovered cell belongs to a box of some rank and its mask is one. -/
theorem uncovered_iff_mask {nproc : ℕ} {levels : List Lev} (hn : Nested nproc levels) {lev : ℕ} {c : Cell} :
    Uncovered nproc levels lev c ↔ ∃ L rest, levels.drop lev = L :: rest ∧
      (∃ p < nproc, ∃ b ∈ L.boxes p, b.Has c) ∧ levelMask nproc L rest c = 1 := by
  have h := nested_drop hn lev
  have hget : ∀ n, levels[lev + n]? = (levels.drop lev)[n]? := fun n => by rw [List.getElem?_drop]
  have h0 := hget 0
  have h1 := hget 1
  rw [add_zero] at h0
  have hHas : ∀ L : Lev, L.Has nproc c ↔ ∃ p < nproc, ∃ b ∈ L.boxes p, b.Has c := by
    intro L
    unfold Lev.Has Lev.all
    simp only [List.mem_flatMap, List.mem_range]
    constructor
    · rintro ⟨b, ⟨p, hp, hb⟩, hc⟩; exact ⟨p, hp, b, hb, hc⟩
    · rintro ⟨p, hp, b, hb, hc⟩; exact ⟨b, ⟨p, hp, hb⟩, hc⟩
  unfold Uncovered
  rw [h0, h1]
  generalize levels.drop lev = s at h
  cases s with
  | nil => simp
  | cons L rest =>
    cases rest with
    | nil =>
      simp only [List.getElem?_cons_zero, Option.some.injEq, List.getElem?_cons_succ, List.getElem?_nil, reduceCtorEq,
        false_implies, implies_true, and_true, exists_eq_left', levelMask, List.cons.injEq, exists_eq_left]
      rw [hHas]
      constructor
      · intro hh; exact ⟨L, [], ⟨rfl, rfl⟩, hh, rfl⟩
      · rintro ⟨L', r, ⟨rfl, rfl⟩, hh, -⟩; exact hh
    | cons L' rest =>
      constructor
      · rintro ⟨M, hM, h2, h3⟩
        simp only [List.getElem?_cons_zero, Option.some.injEq] at hM
        subst hM
        exact ⟨L, L' :: rest, rfl, (hHas L).mp h2, ((fineMask_eq h.1 h.2.2.1 c).2).mpr (h3 L' rfl)⟩
      · rintro ⟨M, r, hM, h2, h3⟩
        simp only [List.cons.injEq] at hM
        obtain ⟨rfl, rfl⟩ := hM
        refine ⟨L, rfl, (hHas L).mpr h2, ?_⟩
        intro M hM
        simp only [List.getElem?_cons_succ, List.getElem?_cons_zero, Option.some.injEq] at hM
        subst hM
        exact ((fineMask_eq h.1 h.2.2.1 c).2).mp h3

/-- C65: the masked infinity norm of a cell-centred field is the largest value over the uncovered cells. -/
theorem max_norm_partial {nproc : ℕ} {levels : List Lev} (hn : Nested nproc levels) {val : ℕ → Cell → K}
    (hval : ∀ lev c, 0 ≤ val lev c) :
    ∃ v, maxNorm nproc true .cell val levels = some v ∧ (∀ lev c, Uncovered nproc levels lev c → val lev c ≤ v) ∧
      ((v = 0 ∧ ∀ lev c, Uncovered nproc levels lev c → val lev c = 0) ∨
        ∃ lev c, Uncovered nproc levels lev c ∧ v = val lev c) := by
  choose r hr h1 h2 h3 using fun p => rankMax_spec (nproc := nproc) (val := val) p levels 0 0 le_rfl
  unfold maxNorm
  rw [foldl_opt_max _ _ r fun p _ => hr p]
  obtain ⟨a1, a2, a3⟩ := foldl_max (List.range nproc) r 0
  set v := (List.range nproc).foldl (fun m a => max m (r a)) 0
  have hle : ∀ lev c, Uncovered nproc levels lev c → val lev c ≤ v := by
    intro lev c hu
    obtain ⟨L, rest, hd, ⟨p, hp, hb⟩, hm⟩ := (uncovered_iff_mask hn).mp hu
    have := h2 p lev L rest c hd hb hm
    rw [zero_add] at this
    exact this.trans (a2 p (List.mem_range.mpr hp))
  have hz : v = 0 → ∀ lev c, Uncovered nproc levels lev c → val lev c = 0 :=
    fun e lev c hu => le_antisymm (e ▸ hle lev c hu) (hval lev c)
  refine ⟨v, rfl, hle, ?_⟩
  rcases a3 with a3 | ⟨p, hp, a3⟩
  · exact Or.inl ⟨a3, hz a3⟩
  · rcases h3 p with h | h | ⟨n, L, rest, c, hd, hb, hm, h⟩
    · exact Or.inl ⟨a3.trans h, hz (a3.trans h)⟩
    · exact Or.inl ⟨a3.trans h, hz (a3.trans h)⟩
    · right
      rw [zero_add] at h
      exact ⟨n, c, (uncovered_iff_mask hn).mpr ⟨L, rest, hd, ⟨p, List.mem_range.mp hp, hb⟩, hm⟩, a3.trans h⟩

/-- C65, disagreement: for a field on faces or nodes the infinity norm reads the mask outside the cells of the box. -/
theorem max_norm_face_undefined (d : Axis) (mask : Cell → ℤ) (val : Cell → K) {b : Bx} (hb : b.Ok) :
    boxMax (.face d) mask val b = none ∧ boxMax .node mask val b = none := by
  have key : ∀ w : Where, (∃ c, (w.fbx b).Has c ∧ ¬ b.Has c) → boxMax w mask val b = none := by
    rintro w ⟨c, hc, hnc⟩
    unfold boxMax
    have hmem := mem_cells.mpr hc
    generalize cells (w.fbx b) = l at hmem
    have hnone : ∀ l : List Cell, l.foldl (fun acc c => acc.bind fun m =>
        if contains b c then some (if mask c = 1 then max m (val c) else m) else none) (none : Option K) = none := by
      intro l
      induction l with
      | nil => rfl
      | cons a l ih => rw [List.foldl_cons, Option.bind_none, ih]
    generalize some (0 : K) = m
    induction l generalizing m with
    | nil => simp at hmem
    | cons a l ih =>
      rw [List.foldl_cons]
      rcases List.mem_cons.mp hmem with rfl | hmem
      · have : ¬ contains b c = true := fun h => hnc (contains_iff.mp h)
        have e : (m.bind fun m => if contains b c then some (if mask c = 1 then max m (val c) else m) else none) = none := by
          cases m with
          | none => rfl
          | some x => rw [Option.bind_some, if_neg this]
        rw [e, hnone]
      · exact ih hmem _
  obtain ⟨h1, h2, h3⟩ := hb
  constructor
  · apply key
    cases d
    · refine ⟨(b.hi.1 + 1, b.lo.2.1, b.lo.2.2), ?_, ?_⟩ <;> simp [Bx.Has, Where.fbx, Where.nodal] <;> omega
    · refine ⟨(b.lo.1, b.hi.2.1 + 1, b.lo.2.2), ?_, ?_⟩ <;> simp [Bx.Has, Where.fbx, Where.nodal] <;> omega
    · refine ⟨(b.lo.1, b.lo.2.1, b.hi.2.2 + 1), ?_, ?_⟩ <;> simp [Bx.Has, Where.fbx, Where.nodal] <;> omega
  · apply key
    refine ⟨(b.hi.1 + 1, b.hi.2.1 + 1, b.hi.2.2 + 1), ?_, ?_⟩ <;> simp [Bx.Has, Where.fbx, Where.nodal] <;> omega

end

/-! ## Fields on faces and nodes -/

section
variable {K : Type*} [Field K] [LinearOrder K] [IsStrictOrderedRing K]

/-- The mean of the two ends of a cell in a direction in which the field sits on the ends. -/
def ends (nodal : Bool) (g : ℤ → K) (i : ℤ) : K := if nodal then (g i + g (i + 1)) / 2 else g i

/-- The mean of a field over the points of a cell: its value, the mean of two faces, or the mean of eight nodes. -/
def cellMean (w : Where) (g : Cell → K) : Cell → K
  | (i, j, k) => ends (w.nodal .z) (fun k => ends (w.nodal .y) (fun j => ends (w.nodal .x) (fun i => g (i, j, k)) i) j) k

theorem irange_succ {lo hi : ℤ} (h : lo ≤ hi + 1) : irange lo (hi + 1) = irange lo hi ++ [hi + 1] := by
  unfold irange
  rw [show (hi + 1 - lo + 1).toNat = (hi - lo + 1).toNat + 1 by omega, List.range_succ, List.map_append]
  congr 1
  simp
  omega

theorem irange_cons {lo hi : ℤ} (h : lo ≤ hi) : irange lo hi = lo :: irange (lo + 1) hi := by
  unfold irange
  rw [show (hi - lo + 1).toNat = (hi - (lo + 1) + 1).toNat + 1 by omega, List.range_succ_eq_map, List.map_cons,
    List.map_map]
  congr 1
  · simp
  · apply List.map_congr_left
    intro n _
    simp only [Function.comp]
    push_cast
    ring

/-- The trapezoidal rule: weights one half at the ends. -/
theorem trapezoid (nodal : Bool) {lo hi : ℤ} (h : lo ≤ hi) (g : ℤ → K) :
    ((irange lo (hi + (if nodal then 1 else 0))).map fun i =>
      endWeight nodal lo (hi + (if nodal then 1 else 0)) i * g i).sum = ((irange lo hi).map (ends nodal g)).sum := by
  cases nodal with
  | false =>
    have : ends false g = g := by funext i; simp [ends]
    rw [this]
    simp [endWeight]
  | true =>
    have hE : ends true g = fun i => (g i + g (i + 1)) / 2 := by funext i; simp [ends]
    rw [hE]
    simp only [if_true, endWeight, Bool.true_and]
    rw [irange_succ (by omega), irange_cons h, List.map_append, List.sum_append, List.map_cons, List.sum_cons]
    have hmid : ((irange (lo + 1) hi).map fun i =>
        (if decide (i = hi + 1) || decide (i = lo) then (1 / 2 : K) else 1) * g i) = (irange (lo + 1) hi).map g := by
      apply List.map_congr_left
      intro i hi'
      rw [mem_irange] at hi'
      have : (decide (i = hi + 1) || decide (i = lo)) = false := by simp; omega
      rw [this]
      simp
    rw [hmid]
    simp only [List.map_cons, List.map_nil, List.sum_cons, List.sum_nil, decide_true, Bool.or_true, Bool.true_or,
      if_true]
    -- the right-hand side: split the two halves
    obtain ⟨n, hn⟩ : ∃ n : ℕ, hi = lo + n := ⟨(hi - lo).toNat, by omega⟩
    subst hn
    clear h hmid hE
    induction n with
    | zero =>
      simp [irange]
      ring
    | succ n ih =>
      rw [show lo + ((n + 1 : ℕ) : ℤ) = lo + (n : ℤ) + 1 by push_cast; ring, irange_succ (by omega), List.map_append,
        List.map_append, List.sum_append, List.sum_append]
      simp only [List.map_cons, List.map_nil, List.sum_cons, List.sum_nil]
      linear_combination ih

theorem ends_sum {α : Type*} (nodal : Bool) (l : List α) (g : ℤ → α → K) (k : ℤ) :
    ends nodal (fun k => (l.map (g k)).sum) k = (l.map fun a => ends nodal (fun k => g k a) k).sum := by
  unfold ends
  cases nodal with
  | false => simp
  | true =>
    simp only [if_true]
    rw [← List.sum_map_add, div_eq_mul_inv, ← List.sum_map_mul_right]
    simp only [div_eq_mul_inv]

theorem sum_cells (b : Bx) (g : Cell → K) : ((cells b).map g).sum =
    ((irange b.lo.2.2 b.hi.2.2).map fun k => ((irange b.lo.2.1 b.hi.2.1).map fun j =>
      ((irange b.lo.1 b.hi.1).map fun i => g (i, j, k)).sum).sum).sum := by
  unfold cells
  rw [sum_flatMap]
  congr 1
  apply List.map_congr_left
  intro k _
  rw [sum_flatMap]
  congr 1
  apply List.map_congr_left
  intro j _
  rw [List.map_map]
  rfl

/-- C65: where nothing is masked the sum over the points of a box is the sum over its cells of the mean over the points
of the cell. -/
theorem box_norm_unmasked (w : Where) (vol : K) (val : Cell → K) {b : Bx} (hb : b.Ok) :
    boxNorm w vol (fun _ => 1) val b = ((cells b).map fun c => vol * cellMean w val c).sum := by
  obtain ⟨h1, h2, h3⟩ := hb
  unfold boxNorm
  simp only [Int.cast_one, mul_one]
  rw [sum_cells, sum_cells]
  simp only [Where.fbx]
  have e1 : ∀ j k, ((irange b.lo.1 (b.hi.1 + (if w.nodal .x then 1 else 0))).map fun i =>
      vol * endWeight (w.nodal .x) b.lo.1 (b.hi.1 + (if w.nodal .x then 1 else 0)) i *
        endWeight (w.nodal .y) b.lo.2.1 (b.hi.2.1 + (if w.nodal .y then 1 else 0)) j *
        endWeight (w.nodal .z) b.lo.2.2 (b.hi.2.2 + (if w.nodal .z then 1 else 0)) k * val (i, j, k)).sum =
      vol * endWeight (w.nodal .z) b.lo.2.2 (b.hi.2.2 + (if w.nodal .z then 1 else 0)) k *
        (endWeight (w.nodal .y) b.lo.2.1 (b.hi.2.1 + (if w.nodal .y then 1 else 0)) j *
        ((irange b.lo.1 b.hi.1).map fun i => ends (w.nodal .x) (fun i => val (i, j, k)) i).sum) := by
    intro j k
    rw [← trapezoid (w.nodal .x) h1 fun i => val (i, j, k), ← mul_assoc, ← List.sum_map_mul_left]
    congr 1
    apply List.map_congr_left
    intro i _
    ring
  simp only [e1]
  have e2 : ∀ k, ((irange b.lo.2.1 (b.hi.2.1 + (if w.nodal .y then 1 else 0))).map fun j =>
      vol * endWeight (w.nodal .z) b.lo.2.2 (b.hi.2.2 + (if w.nodal .z then 1 else 0)) k *
        (endWeight (w.nodal .y) b.lo.2.1 (b.hi.2.1 + (if w.nodal .y then 1 else 0)) j *
        ((irange b.lo.1 b.hi.1).map fun i => ends (w.nodal .x) (fun i => val (i, j, k)) i).sum)).sum =
      vol * (endWeight (w.nodal .z) b.lo.2.2 (b.hi.2.2 + (if w.nodal .z then 1 else 0)) k *
        ((irange b.lo.2.1 b.hi.2.1).map fun j => ((irange b.lo.1 b.hi.1).map fun i =>
          ends (w.nodal .y) (fun j => ends (w.nodal .x) (fun i => val (i, j, k)) i) j).sum).sum) := by
    intro k
    rw [List.sum_map_mul_left, trapezoid (w.nodal .y) h2 fun j => ((irange b.lo.1 b.hi.1).map fun i =>
      ends (w.nodal .x) (fun i => val (i, j, k)) i).sum, mul_assoc]
    congr 3
    apply List.map_congr_left
    intro j _
    exact ends_sum (w.nodal .y) (irange b.lo.1 b.hi.1) (fun j i => ends (w.nodal .x) (fun i => val (i, j, k)) i) j
  simp only [e2]
  rw [List.sum_map_mul_left, trapezoid (w.nodal .z) h3 fun k => ((irange b.lo.2.1 b.hi.2.1).map fun j =>
    ((irange b.lo.1 b.hi.1).map fun i => ends (w.nodal .y) (fun j => ends (w.nodal .x) (fun i => val (i, j, k)) i) j).sum).sum]
  rw [← List.sum_map_mul_left]
  congr 1
  apply List.map_congr_left
  intro k _
  rw [ends_sum, ← List.sum_map_mul_left]
  congr 1
  apply List.map_congr_left
  intro j _
  rw [ends_sum, ← List.sum_map_mul_left]
  rfl

/-- C65: on a mesh with one level the mean of a field on faces or nodes is the mean over cells, for every set of boxes and
every distribution. -/
theorem norm_one_level_partial {nproc : ℕ} {dom : Bx} {L : Lev} (hb : ∀ p < nproc, ∀ b ∈ L.boxes p, b.Ok)
    (hc : (L.cells nproc).Perm (cells dom)) (useMask : Bool) (w : Where) (dx : ℕ → Axis → K) (totalVol : K)
    (val : ℕ → Cell → K) :
    normMean nproc useMask w dx totalVol val [L] =
      cellVol dx 0 * ((cells dom).map (cellMean w (val 0))).sum / totalVol := by
  unfold normMean
  congr 1
  rw [← (hc.map _).sum_eq, ← List.sum_map_mul_left]
  unfold Lev.cells Lev.all
  rw [sum_flatMap, sum_flatMap]
  congr 1
  apply List.map_congr_left
  intro p hp
  simp only [rankNorm, add_zero]
  congr 1
  apply List.map_congr_left
  intro b hbx
  have : (fun c => if useMask = true then levelMask nproc L [] c else 1) = fun _ => 1 := by
    funext c
    simp [levelMask]
  rw [this, box_norm_unmasked w _ _ (hb p (List.mem_range.mp hp) b hbx)]

end

/-- C65, disagreement: a field on faces that is one everywhere. The mesh has two coarse cells and the right one is
refined. With the coarse level in one box the norm is 3/4, with two boxes it is 1. -/
theorem face_norm_depends_on_boxes :
    normMean 1 true (.face .x) (fun lev d => if lev = 0 then (1 : ℚ) else if d = .x then 1 / 2 else 1) 2 (fun _ _ => 1)
      [⟨fun _ => [⟨(0, 0, 0), (1, 0, 0)⟩], fun d => if d = .x then 2 else 1⟩, ⟨fun _ => [⟨(2, 0, 0), (3, 0, 0)⟩], fun _ => 1⟩] =
        3 / 4 ∧
    normMean 1 true (.face .x) (fun lev d => if lev = 0 then (1 : ℚ) else if d = .x then 1 / 2 else 1) 2 (fun _ _ => 1)
      [⟨fun _ => [⟨(0, 0, 0), (0, 0, 0)⟩, ⟨(1, 0, 0), (1, 0, 0)⟩], fun d => if d = .x then 2 else 1⟩,
        ⟨fun _ => [⟨(2, 0, 0), (3, 0, 0)⟩], fun _ => 1⟩] = 1 := by
  decide +kernel

example : maxNorm 2 true .cell (fun lev c => (lev : ℚ) + c.1) exLevels = some 2 := by decide +kernel

example : normMean 2 true .cell (fun lev _ => if lev = 0 then (1 : ℚ) else 1 / 2) 4 (fun _ _ => 3) exLevels = 3 := by
  decide +kernel

end AmrWind.Amr
