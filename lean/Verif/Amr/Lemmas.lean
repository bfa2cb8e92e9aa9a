import Verif.Amr.Model

/-!
# Refinement hierarchies: the uncovered cells tile the domain
-/

set_option linter.unusedSectionVars false

namespace AmrWind.Amr

open Plane (Cell Bx Axis cells irange mem_cells nodup_cells fineBox)

/-! ## Specification -/

/-- A cell belongs to a level. -/
def Lev.Has (nproc : ℕ) (L : Lev) (c : Cell) : Prop := ∃ b ∈ L.all nproc, b.Has c

/-- The product of the ratios of a list of levels: how many cells of the reference mesh fit into a cell of the first of
them. -/
def refine : List Lev → Axis → ℕ
  | [], _ => 1
  | L :: rest, d => L.ratio d * refine rest d

/-- A box whose faces are faces of the next coarser level. -/
def Aligned (r : Axis → ℕ) (b : Bx) : Prop :=
  ((r .x : ℤ) ∣ b.lo.1 ∧ (r .x : ℤ) ∣ b.hi.1 + 1) ∧ ((r .y : ℤ) ∣ b.lo.2.1 ∧ (r .y : ℤ) ∣ b.hi.2.1 + 1) ∧
    ((r .z : ℤ) ∣ b.lo.2.2 ∧ (r .z : ℤ) ∣ b.hi.2.2 + 1)

/-- What AMReX guarantees for the levels of a mesh: boxes of a level do not overlap, boxes of a finer level are aligned
with the coarser one and lie inside it, ratios are positive. -/
def Nested (nproc : ℕ) : List Lev → Prop
  | [] => True
  | [L] => (∀ d, 0 < L.ratio d) ∧ ((L.all nproc).flatMap cells).Nodup
  | L :: L' :: rest => (∀ d, 0 < L.ratio d) ∧ ((L.all nproc).flatMap cells).Nodup ∧
      (∀ b ∈ L'.all nproc, Aligned L.ratio b) ∧ (∀ x, L'.Has nproc x → L.Has nproc (coarsen L.ratio x)) ∧
      Nested nproc (L' :: rest)

/-- A cell of level `lev` that no cell of the next level lies in. -/
def Uncovered (nproc : ℕ) (levels : List Lev) (lev : ℕ) (c : Cell) : Prop :=
  ∃ L, levels[lev]? = some L ∧ L.Has nproc c ∧
    ∀ L', levels[lev + 1]? = some L' → ¬ ∃ x, L'.Has nproc x ∧ coarsen L.ratio x = c

/-! ## Indices -/

theorem ediv_eq_iff' {r : ℕ} (hr : 0 < r) {x c : ℤ} : x / (r : ℤ) = c ↔ (r : ℤ) * c ≤ x ∧ x ≤ r * c + (r - 1) := by
  have hr' : (0 : ℤ) < r := by exact_mod_cast hr
  rw [Int.ediv_eq_iff_of_pos hr']
  constructor
  · rintro ⟨h1, h2⟩
    constructor <;> nlinarith
  · rintro ⟨h1, h2⟩
    constructor <;> nlinarith

theorem mem_fineBox {r : Axis → ℕ} (hr : ∀ d, 0 < r d) {c x : Cell} : x ∈ cells (fineBox r c) ↔ coarsen r x = c := by
  rw [mem_cells]
  obtain ⟨i, j, k⟩ := c
  obtain ⟨a, b, e⟩ := x
  unfold Bx.Has fineBox coarsen
  simp only [Prod.mk.injEq]
  rw [ediv_eq_iff' (hr .x), ediv_eq_iff' (hr .y), ediv_eq_iff' (hr .z)]

theorem coarsen_coarsen (r s : Axis → ℕ) (x : Cell) : coarsen r (coarsen s x) = coarsen (fun d => r d * s d) x := by
  unfold coarsen
  push_cast
  rw [Int.ediv_ediv_of_nonneg (by positivity), Int.ediv_ediv_of_nonneg (by positivity),
    Int.ediv_ediv_of_nonneg (by positivity), mul_comm (s .x : ℤ), mul_comm (s .y : ℤ), mul_comm (s .z : ℤ)]

theorem coarsen_fst {r : ℕ} (hr : 0 < r) {lo hi x : ℤ} (h1 : (r : ℤ) ∣ lo) (h2 : (r : ℤ) ∣ hi + 1) :
    (lo / r ≤ x / r ∧ x / r ≤ hi / r) ↔ (lo ≤ x ∧ x ≤ hi) := by
  have hr' : (0 : ℤ) < r := by exact_mod_cast hr
  obtain ⟨a, rfl⟩ := h1
  obtain ⟨b, hb⟩ := h2
  obtain rfl : hi = r * b - 1 := by omega
  rw [Int.mul_ediv_cancel_left _ hr'.ne']
  have hq : (r * b - 1) / (r : ℤ) = b - 1 := by
    rw [ediv_eq_iff' hr]
    constructor <;> nlinarith
  rw [hq, Int.le_ediv_iff_mul_le hr', mul_comm]
  have : x / (r : ℤ) ≤ b - 1 ↔ x ≤ r * b - 1 := by
    constructor
    · intro h
      have := (Int.ediv_lt_iff_lt_mul hr').mp (Int.le_sub_one_iff.mp h)
      nlinarith
    · intro h
      have h' : x < b * r := by nlinarith
      exact Int.le_sub_one_iff.mpr ((Int.ediv_lt_iff_lt_mul hr').mpr h')
  rw [this]

/-- For an aligned box: a fine cell is in the box if and only if its coarse cell is in the coarsened box. -/
theorem has_coarsen {r : Axis → ℕ} (hr : ∀ d, 0 < r d) {b : Bx} (ha : Aligned r b) (x : Cell) :
    (coarsenBox r b).Has (coarsen r x) ↔ b.Has x := by
  obtain ⟨⟨h1, h2⟩, ⟨h3, h4⟩, ⟨h5, h6⟩⟩ := ha
  unfold Bx.Has coarsenBox coarsen
  rw [coarsen_fst (hr .x) h1 h2, coarsen_fst (hr .y) h3 h4, coarsen_fst (hr .z) h5 h6]

theorem contains_iff {b : Bx} {c : Cell} : contains b c = true ↔ b.Has c := by
  unfold contains Bx.Has
  simp only [Bool.and_eq_true, decide_eq_true_eq]
  tauto

/-- Every cell contains a finer cell. -/
theorem exists_fine {r : Axis → ℕ} (hr : ∀ d, 0 < r d) (c : Cell) : ∃ x, coarsen r x = c := by
  refine ⟨(r .x * c.1, r .y * c.2.1, r .z * c.2.2), ?_⟩
  unfold coarsen
  have h : ∀ d, (r d : ℤ) ≠ 0 := fun d => by have := hr d; positivity
  rw [Int.mul_ediv_cancel_left _ (h _), Int.mul_ediv_cancel_left _ (h _), Int.mul_ediv_cancel_left _ (h _)]

/-- The fine mask is zero exactly in the cells in which a cell of the next level lies. -/
theorem fineMask_eq {nproc : ℕ} {L next : Lev} (hr : ∀ d, 0 < L.ratio d) (ha : ∀ b ∈ next.all nproc, Aligned L.ratio b)
    (c : Cell) : (fineMask nproc L next c = 0 ↔ ∃ x, next.Has nproc x ∧ coarsen L.ratio x = c) ∧
      (fineMask nproc L next c = 1 ↔ ¬ ∃ x, next.Has nproc x ∧ coarsen L.ratio x = c) := by
  have key : ((next.all nproc).any fun b => contains (coarsenBox L.ratio b) c) = true ↔
      ∃ x, next.Has nproc x ∧ coarsen L.ratio x = c := by
    rw [List.any_eq_true]
    constructor
    · rintro ⟨b, hb, hc⟩
      rw [contains_iff] at hc
      obtain ⟨x, rfl⟩ := exists_fine hr c
      exact ⟨x, ⟨b, hb, (has_coarsen hr (ha b hb) x).mp hc⟩, rfl⟩
    · rintro ⟨x, ⟨b, hb, hx⟩, rfl⟩
      exact ⟨b, hb, contains_iff.mpr ((has_coarsen hr (ha b hb) x).mpr hx)⟩
  unfold fineMask
  by_cases h : ((next.all nproc).any fun b => contains (coarsenBox L.ratio b) c) = true
  · rw [if_pos h]
    have := key.mp h
    simp [this]
  · rw [if_neg h]
    have h' : ¬ ∃ x, next.Has nproc x ∧ coarsen L.ratio x = c := fun h' => h (key.mpr h')
    exact ⟨⟨fun e => absurd e one_ne_zero, fun e => absurd e h'⟩, ⟨fun _ => h', fun _ => rfl⟩⟩

/-! ## Leaves -/

/-- The cells of a level. -/
def Lev.cells (nproc : ℕ) (L : Lev) : List Cell := (L.all nproc).flatMap Plane.cells

theorem Lev.mem_cells {nproc : ℕ} {L : Lev} {c : Cell} : c ∈ L.cells nproc ↔ L.Has nproc c := by
  unfold Lev.cells Lev.Has
  simp only [List.mem_flatMap, Plane.mem_cells]

/-- The uncovered cells with their level. -/
def leavesFrom (nproc : ℕ) : ℕ → List Lev → List (ℕ × List Lev × Cell)
  | _, [] => []
  | lev, L :: rest => (((L.cells nproc).filter fun c => levelMask nproc L rest c = 1).map fun c => (lev, L :: rest, c)) ++
      leavesFrom nproc (lev + 1) rest

section sums
variable {K : Type*} [AddCommMonoid K]

theorem sum_flatMap {α β : Type*} (l : List α) (g : α → List β) (w : β → K) :
    ((l.flatMap g).map w).sum = (l.map fun a => ((g a).map w).sum).sum := by
  induction l with
  | nil => rfl
  | cons a l ih => simp [List.flatMap_cons, ih]

theorem levelMask_cases (nproc : ℕ) (L : Lev) (rest : List Lev) (c : Cell) :
    levelMask nproc L rest c = 1 ∨ levelMask nproc L rest c = 0 := by
  cases rest with
  | nil => exact Or.inl rfl
  | cons L' rest =>
    show fineMask nproc L L' c = 1 ∨ fineMask nproc L L' c = 0
    unfold fineMask
    by_cases h : ((L'.all nproc).any fun b => contains (coarsenBox L.ratio b) c) = true
    · rw [if_pos h]; exact Or.inr rfl
    · rw [if_neg h]; exact Or.inl rfl

/-- The sum over ranks, levels and boxes is the sum over uncovered cells, in any distribution. -/
theorem total_from {nproc : ℕ} {term : ℕ → Cell → ℤ → K} (h0 : ∀ lev c, term lev c 0 = 0) (levels : List Lev) (lev : ℕ) :
    ((List.range nproc).map fun p => rankSum nproc p term lev levels).sum =
      ((leavesFrom nproc lev levels).map fun l => term l.1 l.2.2 1).sum := by
  induction levels generalizing lev with
  | nil => simp [rankSum, leavesFrom]
  | cons L rest ih =>
    unfold leavesFrom
    simp only [rankSum]
    rw [List.sum_map_add, ih, List.map_append, List.sum_append]
    congr 1
    rw [List.map_map]
    have : ((List.range nproc).map fun p => ((L.boxes p).map fun b =>
        ((Plane.cells b).map fun c => term lev c (levelMask nproc L rest c)).sum).sum).sum =
        ((L.cells nproc).map fun c => term lev c (levelMask nproc L rest c)).sum := by
      unfold Lev.cells Lev.all
      rw [sum_flatMap, sum_flatMap]
    rw [this]
    induction L.cells nproc with
    | nil => rfl
    | cons c cs ih =>
      rw [List.map_cons, List.sum_cons, ih]
      rcases levelMask_cases nproc L rest c with hm | hm
      · rw [hm, List.filter_cons_of_pos (by simp [hm])]
        simp
      · rw [hm, h0, List.filter_cons_of_neg (by simp [hm])]
        simp

end sums

/-! ## Tiling -/

theorem refine_pos {nproc : ℕ} {levels : List Lev} (h : Nested nproc levels) (d : Axis) : 0 < refine levels d := by
  induction levels with
  | nil => exact one_pos
  | cons L rest ih =>
    cases rest with
    | nil => simpa [refine] using h.1 d
    | cons L' rest => exact Nat.mul_pos (h.1 d) (ih h.2.2.2.2)

/-- Refining all cells of a list by positive ratios keeps them distinct. -/
theorem nodup_refine {r : Axis → ℕ} (hr : ∀ d, 0 < r d) {l : List Cell} (hl : l.Nodup) :
    (l.flatMap fun c => cells (fineBox r c)).Nodup := by
  rw [List.nodup_flatMap]
  refine ⟨fun c _ => nodup_cells _, ?_⟩
  refine hl.imp_of_mem ?_
  intro a b _ _ hab
  unfold Function.onFun List.Disjoint
  intro x h1 h2
  rw [mem_fineBox hr] at h1 h2
  exact hab (h1.symm.trans h2)

/-- Refining twice. -/
theorem refine_twice {r s : Axis → ℕ} (hr : ∀ d, 0 < r d) (hs : ∀ d, 0 < s d) {l : List Cell} (hl : l.Nodup) :
    ((l.flatMap fun c => cells (fineBox r c)).flatMap fun c => cells (fineBox s c)).Perm
      (l.flatMap fun c => cells (fineBox (fun d => r d * s d) c)) := by
  have hrs : ∀ d, 0 < r d * s d := fun d => Nat.mul_pos (hr d) (hs d)
  rw [List.perm_ext_iff_of_nodup (nodup_refine hs (nodup_refine hr hl)) (nodup_refine hrs hl)]
  intro x
  simp only [List.mem_flatMap, mem_fineBox hr, mem_fineBox hs, mem_fineBox hrs]
  constructor
  · rintro ⟨y, ⟨c, hc, rfl⟩, rfl⟩
    exact ⟨_, hc, (coarsen_coarsen r s x).symm⟩
  · rintro ⟨c, hc, hx⟩
    exact ⟨coarsen s x, ⟨c, hc, by rw [coarsen_coarsen, hx]⟩, rfl⟩

/-- The uncovered cells of a nested hierarchy, refined to the reference mesh, are the refined cells of the coarsest level,
each once. -/
theorem leaves_tile {nproc : ℕ} {L : Lev} {rest : List Lev} (h : Nested nproc (L :: rest)) (lev : ℕ) :
    ((leavesFrom nproc lev (L :: rest)).flatMap fun l => cells (fineBox (refine l.2.1) l.2.2)).Perm
      ((L.cells nproc).flatMap fun c => cells (fineBox (refine (L :: rest)) c)) := by
  induction rest generalizing L lev with
  | nil =>
    unfold leavesFrom
    simp only [leavesFrom, List.append_nil, levelMask]
    rw [List.flatMap_map]
    simp
  | cons L' rest ih =>
    obtain ⟨hr, hnd, ha, hn, hrest⟩ := h
    have hs := refine_pos hrest
    unfold leavesFrom
    rw [List.flatMap_append, List.flatMap_map]
    have h1 := ih hrest (lev + 1)
    have hnd' : (L'.cells nproc).Nodup := by
      cases rest with
      | nil => exact hrest.2
      | cons L'' rest => exact hrest.2.1
    have hndL : (L.cells nproc).Nodup := hnd
    -- the covered cells, refined once, are the cells of the next level
    have hcov : (((L.cells nproc).filter fun c => ¬ levelMask nproc L (L' :: rest) c = 1).flatMap
        fun c => cells (fineBox L.ratio c)).Perm (L'.cells nproc) := by
      rw [List.perm_ext_iff_of_nodup (nodup_refine hr (hndL.filter _)) hnd']
      intro x
      simp only [List.mem_flatMap, List.mem_filter, decide_eq_true_eq, mem_fineBox hr, Lev.mem_cells]
      have hm := fun c => (fineMask_eq hr ha c).2
      constructor
      · rintro ⟨c, ⟨hc, hmask⟩, rfl⟩
        have : ∃ y, L'.Has nproc y ∧ coarsen L.ratio y = coarsen L.ratio x := by
          by_contra hcon
          exact hmask ((hm _).mpr hcon)
        obtain ⟨y, ⟨b, hb, hy⟩, hxy⟩ := this
        refine ⟨b, hb, ?_⟩
        rw [← has_coarsen hr (ha b hb), ← hxy, has_coarsen hr (ha b hb)]
        exact hy
      · intro hx
        refine ⟨coarsen L.ratio x, ⟨hn x hx, ?_⟩, rfl⟩
        intro hmask
        exact (hm _).mp hmask ⟨x, hx, rfl⟩
    have h2 : ((L'.cells nproc).flatMap fun c => cells (fineBox (refine (L' :: rest)) c)).Perm
        (((L.cells nproc).filter fun c => ¬ levelMask nproc L (L' :: rest) c = 1).flatMap fun c =>
          cells (fineBox (refine (L :: L' :: rest)) c)) :=
      ((hcov.flatMap_right _).symm.trans (refine_twice hr hs (hndL.filter _)))
    refine (List.Perm.append_left _ (h1.trans h2)).trans ?_
    rw [← List.flatMap_append]
    apply List.Perm.flatMap_right
    have := List.filter_append_perm (fun c => decide (levelMask nproc L (L' :: rest) c = 1)) (L.cells nproc)
    simpa using this

theorem mem_leavesFrom {nproc : ℕ} {levels : List Lev} (h : Nested nproc levels) (n0 : ℕ) {lev : ℕ} {suf : List Lev}
    {c : Cell} : (lev, suf, c) ∈ leavesFrom nproc n0 levels ↔
      n0 ≤ lev ∧ suf = levels.drop (lev - n0) ∧ Uncovered nproc levels (lev - n0) c := by
  induction levels generalizing n0 with
  | nil => simp [leavesFrom, Uncovered]
  | cons L rest ih =>
    have hrest : Nested nproc rest := by
      cases rest with
      | nil => trivial
      | cons L' rest => exact h.2.2.2.2
    have hmask : ∀ c, levelMask nproc L rest c = 1 ↔ ∀ L', rest[0]? = some L' → ¬ ∃ x, L'.Has nproc x ∧ coarsen L.ratio x = c := by
      intro c
      cases rest with
      | nil => simp [levelMask]
      | cons L' rest =>
        unfold levelMask
        rw [(fineMask_eq h.1 h.2.2.1 c).2]
        simp
    unfold leavesFrom
    rw [List.mem_append, List.mem_map, ih hrest (n0 + 1)]
    constructor
    · rintro (⟨c', hc', he⟩ | ⟨h1, h2, h3⟩)
      · simp only [Prod.mk.injEq] at he
        obtain ⟨rfl, rfl, rfl⟩ := he
        rw [List.mem_filter, Lev.mem_cells, decide_eq_true_eq, hmask] at hc'
        refine ⟨le_rfl, by simp, L, by simp, hc'.1, ?_⟩
        simpa using hc'.2
      · have e : lev - n0 = (lev - (n0 + 1)) + 1 := by omega
        refine ⟨by omega, by rw [e, List.drop_succ_cons, h2], ?_⟩
        rw [e]
        obtain ⟨M, hM, h4⟩ := h3
        exact ⟨M, by simpa using hM, by simpa using h4⟩
    · rintro ⟨h1, h2, h3⟩
      rcases Nat.eq_or_lt_of_le h1 with he | hlt
      · subst he
        left
        simp only [Nat.sub_self, List.drop_zero] at h2 h3
        obtain ⟨M, hM, h4, h5⟩ := h3
        simp only [List.getElem?_cons_zero, Option.some.injEq] at hM
        subst hM
        refine ⟨c, ?_, by rw [h2]⟩
        rw [List.mem_filter, Lev.mem_cells, decide_eq_true_eq, hmask]
        exact ⟨h4, by simpa using h5⟩
      · right
        have e : lev - n0 = (lev - (n0 + 1)) + 1 := by omega
        rw [e] at h2 h3
        refine ⟨hlt, by simpa using h2, ?_⟩
        obtain ⟨M, hM, h4⟩ := h3
        exact ⟨M, by simpa using hM, by simpa using h4⟩

end AmrWind.Amr
