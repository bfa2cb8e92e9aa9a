import Verif.Tools.Model
import Mathlib.Algebra.Order.BigOperators.Group.List
import Mathlib.Data.List.Nodup
import Mathlib.Tactic.Ring
import Mathlib.Tactic.Linarith
import Mathlib.Tactic.FieldSimp
import Mathlib.Tactic.NormNum

/-!
# Comparison with a reference, tables of numbers
-/

set_option linter.unusedSectionVars false

namespace AmrWind.Tools

variable {K : Type*} [Field K] [LinearOrder K] [IsStrictOrderedRing K]

/-! ## Comparison -/

/-- The cell `c` of level `lev` lies below a cell of the next level, which is finer by `ratio`. -/
def Covered (ratio : ℤ) (levels : List (PLvl K)) (lev : ℕ) (c : I) : Prop :=
  ∃ F, levels[lev + 1]? = some F ∧ ∃ f ∈ F.cells, coarsenI ratio f = c

/-- The file agrees with the reference: in every cell with no finer one above, the first variable is the mean of the reference over the
cell. -/
def Agree (ref : ℕ → I → K) (ratio refRatio : ℕ) (levels : List (PLvl K)) : Prop :=
  ∀ (lev : ℕ) (L : PLvl K), levels[lev]? = some L → ∀ c ∈ L.cells, ¬ Covered ratio levels lev c →
    L.val 0 c = avgDown (ratio ^ (levels.length - 1 - lev) * refRatio) (ref 0) c

theorem mask_covered {levels : List (PLvl K)} {lev : ℕ} {c : I} :
    (Covered 2 levels lev c → mask levels[lev + 1]? c = (0 : K)) ∧ (¬ Covered 2 levels lev c → mask levels[lev + 1]? c = (1 : K)) := by
  unfold mask Covered
  cases h : levels[lev + 1]? with
  | none => simp
  | some F =>
    simp only [Option.some.injEq, exists_eq_left', List.mem_map]
    constructor
    · intro hc; rw [if_pos hc]
    · intro hc; rw [if_neg hc]

theorem mem_diffs {ref : ℕ → I → K} {ratio refRatio : ℕ} {levels : List (PLvl K)} {d : K} : d ∈ diffs ref ratio refRatio levels ↔
    ∃ lev L, levels[lev]? = some L ∧ ∃ c ∈ L.cells,
      mask levels[lev + 1]? c * (L.val 0 c - refOn ref ratio refRatio (levels.length - 1) lev c) = d := by
  simp only [diffs, List.mem_flatMap, List.mem_range]
  constructor
  · rintro ⟨lev, hl, h⟩
    cases hL : levels[lev]? with
    | none => rw [hL] at h; simp at h
    | some L =>
      rw [hL] at h
      exact ⟨lev, L, hL, List.mem_map.mp h⟩
  · rintro ⟨lev, L, hL, h⟩
    refine ⟨lev, (List.getElem?_eq_some_iff.mp hL).1, ?_⟩
    rw [hL]
    exact List.mem_map.mpr h

theorem zero_diffs {ref : ℕ → I → K} {refRatio : ℕ} {levels : List (PLvl K)} :
    (∀ d ∈ diffs ref 2 refRatio levels, d = 0) ↔ Agree ref 2 refRatio levels := by
  constructor
  · intro h lev L hL c hc hn
    have := h _ (mem_diffs.mpr ⟨lev, L, hL, c, hc, rfl⟩)
    rw [mask_covered.2 (by exact_mod_cast hn), one_mul, sub_eq_zero] at this
    exact this
  · intro h d hd
    obtain ⟨lev, L, hL, c, hc, rfl⟩ := mem_diffs.mp hd
    by_cases hn : Covered 2 levels lev c
    · rw [mask_covered.1 hn, zero_mul]
    · rw [h lev L hL c hc (by exact_mod_cast hn)]
      simp [refOn]

theorem linf_aux (ds : List K) : ∀ m : K, m ≤ ds.foldl (fun m d => if |d| > m then |d| else m) m ∧
    (∀ d ∈ ds, |d| ≤ ds.foldl (fun m d => if |d| > m then |d| else m) m) ∧
    (ds.foldl (fun m d => if |d| > m then |d| else m) m = m ∨ ∃ d ∈ ds, ds.foldl (fun m d => if |d| > m then |d| else m) m = |d|) := by
  induction ds with
  | nil => intro m; simp
  | cons d ds ih =>
    intro m
    rw [List.foldl_cons]
    obtain ⟨h1, h2, h3⟩ := ih (if |d| > m then |d| else m)
    have hm : m ≤ (if |d| > m then |d| else m) ∧ |d| ≤ (if |d| > m then |d| else m) := by
      by_cases h : |d| > m
      · rw [if_pos h]; exact ⟨h.le, le_rfl⟩
      · rw [if_neg h]; exact ⟨le_rfl, not_lt.mp h⟩
    refine ⟨hm.1.trans h1, fun e he => ?_, ?_⟩
    · rcases List.mem_cons.mp he with rfl | he
      · exact hm.2.trans h1
      · exact h2 e he
    · rcases h3 with h3 | ⟨e, he, h3⟩
      · rw [h3]
        by_cases h : |d| > m
        · right; exact ⟨d, by simp, if_pos h⟩
        · left; exact if_neg h
      · right; exact ⟨e, List.mem_cons_of_mem _ he, h3⟩

/-- The maximum reported is the largest difference, and zero if there is none. -/
theorem linf_largest (ds : List K) : 0 ≤ linf ds ∧ (∀ d ∈ ds, |d| ≤ linf ds) ∧ (linf ds = 0 ∨ ∃ d ∈ ds, linf ds = |d|) := linf_aux ds 0

theorem l2sq_zero (ds : List K) : l2sq ds = 0 ↔ ∀ d ∈ ds, d = 0 := by
  induction ds with
  | nil => simp [l2sq]
  | cons d ds ih =>
    have hn : 0 ≤ l2sq ds := List.sum_nonneg fun a ha => by
      obtain ⟨e, _, rfl⟩ := List.mem_map.mp ha
      exact sq_nonneg e
    have e : l2sq (d :: ds) = d ^ 2 + l2sq ds := by simp [l2sq]
    rw [e]
    constructor
    · intro h f hf
      have h1 : d ^ 2 = 0 := by linarith [sq_nonneg d]
      have h2 : l2sq ds = 0 := by linarith [sq_nonneg d]
      rcases List.mem_cons.mp hf with rfl | hf
      · exact pow_eq_zero_iff (two_ne_zero) |>.mp h1
      · exact ih.mp h2 f hf
    · intro h
      rw [h d (by simp), ih.mpr fun f hf => h f (List.mem_cons_of_mem _ hf)]
      ring

/-- Where levels are finer by two, the program reports no error, by either measure, just if the file agrees with the reference in every
cell that is not covered. Missing: other ratios (`ratio_four_masks`), further variables (`first_variable_only`) and the weight of cells
(`cells_unweighted`). -/
theorem compare_partial (ref : ℕ → I → K) (refRatio : ℕ) (levels : List (PLvl K)) :
    (linf (diffs ref 2 refRatio levels) = 0 ↔ Agree ref 2 refRatio levels) ∧
    (l2sq (diffs ref 2 refRatio levels) = 0 ↔ Agree ref 2 refRatio levels) := by
  rw [← zero_diffs, l2sq_zero]
  refine ⟨?_, Iff.rfl⟩
  obtain ⟨_, h2, h3⟩ := linf_largest (diffs ref 2 refRatio levels)
  constructor
  · intro h d hd
    exact abs_eq_zero.mp (le_antisymm (h ▸ h2 d hd) (abs_nonneg d))
  · intro h
    rcases h3 with h3 | ⟨d, hd, h3⟩
    · exact h3
    · rw [h3, h d hd, abs_zero]

/-- False of the code: "all variables are compared" when none is named. Files that differ in others than the first give the same
result. -/
theorem first_variable_only (ref ref' : ℕ → I → K) (ratio refRatio : ℕ) (levels levels' : List (PLvl K)) (hr : ref 0 = ref' 0)
    (hl : List.Forall₂ (fun L L' => L.cells = L'.cells ∧ L.val 0 = L'.val 0) levels levels') :
    diffs ref ratio refRatio levels = diffs ref' ratio refRatio levels' := by
  have hlen := hl.length_eq
  have get : ∀ i : ℕ, (levels[i]? = none ∧ levels'[i]? = none) ∨
      ∃ L L', levels[i]? = some L ∧ levels'[i]? = some L' ∧ L.cells = L'.cells ∧ L.val 0 = L'.val 0 := by
    intro i
    by_cases hi : i < levels.length
    · right
      refine ⟨levels[i], levels'[i], List.getElem?_eq_getElem hi, List.getElem?_eq_getElem (hlen ▸ hi), ?_⟩
      simpa using (List.forall₂_iff_get.mp hl).2 i hi (hlen ▸ hi)
    · left
      exact ⟨List.getElem?_eq_none (by omega), List.getElem?_eq_none (by omega)⟩
  unfold diffs
  rw [hlen]
  congr 1
  funext lev
  rcases get lev with ⟨h1, h2⟩ | ⟨L, L', h1, h2, h3, h4⟩
  · rw [h1, h2]
  · rw [h1, h2]
    simp only [h3, h4, refOn, hr]
    refine List.map_congr_left fun c _ => ?_
    congr 1
    rcases get (lev + 1) with ⟨g1, g2⟩ | ⟨M, M', g1, g2, g3, _⟩
    · rw [g1, g2]
    · rw [g1, g2]
      simp only [mask, g3]

/-- A block of cells with sides of `n`. -/
def block (n : ℕ) : List I :=
  (List.range n).flatMap fun k => (List.range n).flatMap fun j => (List.range n).map fun i => ((i : ℤ), (j : ℤ), (k : ℤ))

/-- False of the code: "the error is counted in every cell that is not covered" for levels finer by four, although the program takes such a
ratio: with the first cell refined, the cells beside it are left out. -/
theorem ratio_four_masks (v w : ℕ → I → K) (cells : List I) : mask (some (⟨block 4, w⟩ : PLvl K)) (1, 0, 0) = (0 : K) ∧
    ¬ Covered 4 [⟨cells, v⟩, (⟨block 4, w⟩ : PLvl K)] 0 (1, 0, 0) := by
  constructor
  · have : ((1, 0, 0) : I) ∈ (block 4).map (coarsenI 2) := by decide +kernel
    simp [mask, this]
  · rintro ⟨F, hF, f, hf, e⟩
    simp only [zero_add, List.getElem?_cons_succ, List.getElem?_cons_zero, Option.some.injEq] at hF
    subst hF
    have : ∀ f ∈ block 4, coarsenI 4 f ≠ (1, 0, 0) := by decide +kernel
    exact this f hf e

/-- Two cells, the first of them refined. The error is `a` in the coarse cell and `b` in the fine ones; the reference is zero. -/
def twoCells (a b : K) : List (PLvl K) := [⟨[(0, 0, 0), (1, 0, 0)], fun _ _ => a⟩, ⟨block 2, fun _ _ => b⟩]

/-- False of the code: "L2error is, up to one factor for a mesh, the root of the integral of the squared error". The coarse cell has eight times
the volume of a fine one and counts as one of them. -/
theorem cells_unweighted : (∀ a b : K, l2sq (diffs (fun _ _ => 0) 2 2 (twoCells a b)) = a ^ 2 + 8 * b ^ 2) ∧
    ¬ ∃ k : K, ∀ a b : K, l2sq (diffs (fun _ _ => 0) 2 2 (twoCells a b)) = k * (8 * a ^ 2 + 8 * b ^ 2) := by
  have key : ∀ a b : K, l2sq (diffs (fun _ _ => 0) 2 2 (twoCells a b)) = a ^ 2 + 8 * b ^ 2 := by
    intro a b
    have hb : block 2 = [(0, 0, 0), (1, 0, 0), (0, 1, 0), (1, 1, 0), (0, 0, 1), (1, 0, 1), (0, 1, 1), (1, 1, 1)] := by decide +kernel
    have m0 : ((0, 0, 0) : I) ∈ [((0, 0, 0) : I), (1, 0, 0), (0, 1, 0), (1, 1, 0), (0, 0, 1), (1, 0, 1), (0, 1, 1), (1, 1, 1)].map (coarsenI 2) := by
      decide +kernel
    have m1 : ((1, 0, 0) : I) ∉ [((0, 0, 0) : I), (1, 0, 0), (0, 1, 0), (1, 1, 0), (0, 0, 1), (1, 0, 1), (0, 1, 1), (1, 1, 1)].map (coarsenI 2) := by
      decide +kernel
    have z : ∀ r c, avgDown r (fun _ => (0 : K)) c = 0 := by intro r c; simp [avgDown]
    have e : diffs (fun _ _ => 0) 2 2 (twoCells a b) = [0, a, b, b, b, b, b, b, b, b] := by
      simp only [diffs, twoCells, hb, List.length_cons, List.length_nil, List.range_succ, List.range_zero, List.nil_append, List.cons_append,
        List.flatMap_cons, List.flatMap_nil, List.getElem?_cons_zero, List.getElem?_cons_succ, List.getElem?_nil, List.map_cons, List.map_nil,
        refOn, z, List.append_nil, zero_add]
      simp only [List.map_cons, List.map_nil] at m0 m1
      simp [mask, m0, m1]
    rw [e]
    simp [l2sq]
    ring
  refine ⟨key, ?_⟩
  rintro ⟨k, hk⟩
  have h1 := hk 1 0
  have h2 := hk 0 1
  rw [key] at h1 h2
  norm_num at h1 h2
  linarith

/-- Levels finer by two that agree with a reference that is constant, and that do not. -/
example : linf (diffs (fun _ _ => (3 : ℚ)) 2 2 (twoCells 3 3)) = 0 ∧ linf (diffs (fun _ _ => (3 : ℚ)) 2 2 (twoCells 3 4)) = 1 ∧
    l2sq (diffs (fun _ _ => (3 : ℚ)) 2 2 (twoCells 5 3)) = 4 := by decide +kernel

/-! ## Tables -/

/-- The box has the cell. -/
def Bx.Has (b : Bx) (c : I) : Prop :=
  b.lo.1 ≤ c.1 ∧ c.1 ≤ b.hi.1 ∧ b.lo.2.1 ≤ c.2.1 ∧ c.2.1 ≤ b.hi.2.1 ∧ b.lo.2.2 ≤ c.2.2 ∧ c.2.2 ≤ b.hi.2.2

theorem mem_rangeZ {a b x : ℤ} : x ∈ rangeZ a b ↔ a ≤ x ∧ x ≤ b := by
  simp only [rangeZ, List.mem_map, List.mem_range]
  constructor
  · rintro ⟨i, hi, rfl⟩; omega
  · rintro ⟨h1, h2⟩; exact ⟨(x - a).toNat, by omega, by omega⟩

theorem nodup_rangeZ (a b : ℤ) : (rangeZ a b).Nodup :=
  List.Nodup.map (fun i j h => by simpa using h) List.nodup_range

theorem mem_csvRows {V : Type*} {boxes : List Bx} {data : I → V} {r : I × V} :
    r ∈ csvRows boxes data ↔ (∃ b ∈ boxes, b.Has r.1) ∧ r.2 = data r.1 := by
  obtain ⟨⟨x, y, z⟩, v⟩ := r
  simp only [csvRows, List.mem_flatMap, List.mem_map, mem_rangeZ, Bx.Has, Prod.mk.injEq]
  constructor
  · rintro ⟨b, hb, z', hz, y', hy, x', hx, ⟨rfl, rfl, rfl⟩, rfl⟩
    exact ⟨⟨b, hb, hx.1, hx.2, hy.1, hy.2, hz.1, hz.2⟩, rfl⟩
  · rintro ⟨⟨b, hb, h1, h2, h3, h4, h5, h6⟩, rfl⟩
    exact ⟨b, hb, z, ⟨h5, h6⟩, y, ⟨h3, h4⟩, x, ⟨h1, h2⟩, ⟨rfl, rfl, rfl⟩, rfl⟩

/-- A table has a row for every cell of the base level, one and no more, with the values of the cell. -/
theorem table_rows {V : Type*} {boxes : List Bx} (hb : boxes.Pairwise fun a b => ∀ c, ¬ (a.Has c ∧ b.Has c)) (data : I → V) :
    (∀ c v, (c, v) ∈ csvRows boxes data ↔ (∃ b ∈ boxes, b.Has c) ∧ v = data c) ∧ ((csvRows boxes data).map Prod.fst).Nodup := by
  refine ⟨fun c v => mem_csvRows, ?_⟩
  have e : (csvRows boxes data).map Prod.fst = boxes.flatMap fun b => (rangeZ b.lo.2.2 b.hi.2.2).flatMap fun z =>
      (rangeZ b.lo.2.1 b.hi.2.1).flatMap fun y => (rangeZ b.lo.1 b.hi.1).map fun x => ((x, y, z) : I) := by
    simp [csvRows, List.map_flatMap, Function.comp_def]
  rw [e, List.nodup_flatMap]
  refine ⟨fun b _ => ?_, hb.imp fun {a b} h => ?_⟩
  · rw [List.nodup_flatMap]
    refine ⟨fun z _ => ?_, (nodup_rangeZ _ _).imp fun {z z'} hz => ?_⟩
    · rw [List.nodup_flatMap]
      refine ⟨fun y _ => (nodup_rangeZ _ _).map fun x x' h => (Prod.mk.inj h).1, (nodup_rangeZ _ _).imp fun {y y'} hy => ?_⟩
      intro c h1 h2
      obtain ⟨x, _, rfl⟩ := List.mem_map.mp h1
      obtain ⟨x', _, h3⟩ := List.mem_map.mp h2
      exact hy (Prod.mk.inj (Prod.mk.inj h3).2).1.symm
    · intro c h1 h2
      obtain ⟨y, _, h1⟩ := List.mem_flatMap.mp h1
      obtain ⟨x, _, rfl⟩ := List.mem_map.mp h1
      obtain ⟨y', _, h2⟩ := List.mem_flatMap.mp h2
      obtain ⟨x', _, h3⟩ := List.mem_map.mp h2
      exact hz (Prod.mk.inj (Prod.mk.inj h3).2).2.symm
  · have has : ∀ (b : Bx) (c : I), (c ∈ (rangeZ b.lo.2.2 b.hi.2.2).flatMap fun z =>
        (rangeZ b.lo.2.1 b.hi.2.1).flatMap fun y => (rangeZ b.lo.1 b.hi.1).map fun x => ((x, y, z) : I)) → b.Has c := by
      intro b c hc
      obtain ⟨z, hz, hc⟩ := List.mem_flatMap.mp hc
      obtain ⟨y, hy, hc⟩ := List.mem_flatMap.mp hc
      obtain ⟨x, hx, rfl⟩ := List.mem_map.mp hc
      rw [mem_rangeZ] at hx hy hz
      exact ⟨hx.1, hx.2, hy.1, hy.2, hz.1, hz.2⟩
    intro c h1 h2
    exact h c ⟨has a c h1, has b c h2⟩

example : csvRows [⟨(0, 0, 0), (1, 0, 0)⟩, ⟨(0, 1, 0), (1, 1, 0)⟩] (fun c => c.1 + 10 * c.2.1) =
    [((0, 0, 0), 0), ((1, 0, 0), 1), ((0, 1, 0), 10), ((1, 1, 0), 11)] := by decide +kernel

/-- The values put into the table of a checkpoint are those of its last level, at the numbers of the cells of the base level. -/
theorem last_level_read {V : Type*} (files : ℕ → I → Option V) (n : ℕ) (c : I) : chkGet files (n + 1) c = files n c := by
  simp [chkGet, List.range_succ]

/-- The table of a checkpoint with one level has the values of the base level. Missing: checkpoints with more levels. -/
theorem checkpoint_table_partial {V : Type*} (files : ℕ → I → Option V) (boxes : List Bx) (c : I) (v : Option V) :
    (c, v) ∈ csvRows boxes (chkGet files 1) ↔ (∃ b ∈ boxes, b.Has c) ∧ v = files 0 c := by
  rw [mem_csvRows, last_level_read]

/-- False of the code: "the table of a checkpoint has the values of its base level". With a finer level the row of a cell has the value the finer
level has at the cell of the same numbers, elsewhere in the domain, and where there is none the read is undefined. -/
theorem checkpoint_table_levels {V : Type*} (files : ℕ → I → Option V) (n : ℕ) (boxes : List Bx) (b : Bx) (hb : b ∈ boxes) (c : I)
    (hc : b.Has c) : (c, files (n + 1) c) ∈ csvRows boxes (chkGet files (n + 2)) ∧
      (files (n + 1) c ≠ files 0 c → (c, files 0 c) ∉ csvRows boxes (chkGet files (n + 2))) := by
  refine ⟨mem_csvRows.mpr ⟨⟨b, hb, hc⟩, (last_level_read files (n + 1) c).symm⟩, fun h hm => ?_⟩
  have := (mem_csvRows.mp hm).2
  rw [last_level_read] at this
  exact h this.symm

/-- The name of a column: a field, for vectors with the direction. -/
def title (f : String) (n : ℕ) : String := if f = "gp" ∨ f = "velocity" then f ++ (["x", "y", "z"][n]?).getD "" else f

/-- Every value stands under the name of its field and direction: the eight columns that are always there, then the first component of each
field asked for, under its name. -/
theorem columns {V : Type*} (extra : List String) (read : String → ℕ → V) : ∃ always : List (String × ℕ),
    always = [("density", 0), ("gp", 0), ("gp", 1), ("gp", 2), ("p", 0), ("velocity", 0), ("velocity", 1), ("velocity", 2)] ∧
    header extra = (always.map fun q => title q.1 q.2) ++ extra ∧
    row extra read = (always.map fun q => read q.1 q.2) ++ extra.map fun f => read f 0 := by
  refine ⟨_, rfl, ?_, ?_⟩
  · simp [header, title]
  · simp only [row, fields, List.flatMap_append, List.flatMap_map]
    congr 1
    induction extra with
    | nil => rfl
    | cons f l ih => rw [List.flatMap_cons, ih]; rfl

/-- False of the code: "the size of the cells of a level". All levels have that of the base level. -/
theorem cell_size_levels (lo hi : K) (n : ℤ) (h : lo < hi) (hn : 0 < n) (l : ℕ) :
    cellSize lo hi n l = (hi - lo) / n ∧ (0 < l → cellSize lo hi n l ≠ (hi - lo) / (n * 2 ^ l)) := by
  have e : cellSize lo hi n l = (hi - lo) / n := by
    induction l with
    | zero => rfl
    | succ l ih => exact ih
  refine ⟨e, fun hl he => ?_⟩
  rw [e] at he
  have hn' : (0 : K) < n := by exact_mod_cast hn
  have h2 : (1 : K) < 2 ^ l := one_lt_pow₀ (by norm_num) hl.ne'
  have h3 : (hi - lo) / (n * 2 ^ l) < (hi - lo) / n := by
    apply div_lt_div_of_pos_left (by linarith) hn'
    nlinarith
  exact absurd he h3.ne'

example : (row ["tke"] fun f n => (f, n)).length = (header ["tke"]).length ∧ (row ["tke"] fun f n => (f, n))[6]? = some ("velocity", 1) ∧
    (header ["tke"])[6]? = some "velocityy" := by decide +kernel

end AmrWind.Tools
