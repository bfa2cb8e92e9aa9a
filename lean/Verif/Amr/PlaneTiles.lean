import Verif.Amr.Props

/-!
# C56: the averages over a refined mesh, for every nested hierarchy

`Plane.fine_average` asks that the uncovered cells tile the domain. Here that is derived from what AMReX guarantees about
the levels.
-/

set_option linter.unusedSectionVars false

namespace AmrWind.Amr

open Plane (Cell Bx Axis cells fineBox FLevel FGeom Tiles)

/-- The levels as FieldPlaneAveragingFine.cpp:220-262 sees them: ratio to the finest possible level, boxes of each rank,
fine mask, field. -/
def fLevels {K : Type*} (nproc : ℕ) (f : ℕ → Cell → ℕ → K) : ℕ → List Lev → List (FLevel K)
  | _, [] => []
  | lev, L :: rest => ⟨refine (L :: rest), L.boxes, fun c => decide (levelMask nproc L rest c = 1), f lev⟩ ::
      fLevels nproc f (lev + 1) rest

theorem leaves_perm {K : Type*} (nproc : ℕ) (f : ℕ → Cell → ℕ → K) (lev : ℕ) (levels : List Lev) :
    ((Plane.leaves (fLevels nproc f lev levels) nproc).flatMap fun l => cells (fineBox l.1.r l.2)).Perm
      ((leavesFrom nproc lev levels).flatMap fun l => cells (fineBox (refine l.2.1) l.2.2)) := by
  induction levels generalizing lev with
  | nil => simp [Plane.leaves, fLevels, leavesFrom]
  | cons L rest ih =>
    have h1 : (Plane.leaves (fLevels nproc f lev (L :: rest)) nproc).Perm
        (((L.cells nproc).filter fun c => levelMask nproc L rest c = 1).map (fun c =>
          ((⟨refine (L :: rest), L.boxes, fun c => decide (levelMask nproc L rest c = 1), f lev⟩ : FLevel K), c)) ++
          Plane.leaves (fLevels nproc f (lev + 1) rest) nproc) := by
      have e : fLevels nproc f lev (L :: rest) = ⟨refine (L :: rest), L.boxes,
          fun c => decide (levelMask nproc L rest c = 1), f lev⟩ :: fLevels nproc f (lev + 1) rest := rfl
      rw [e]
      unfold Plane.leaves
      simp only [List.flatMap_cons]
      refine (List.flatMap_append_perm _ _ _).symm.trans ?_
      apply List.Perm.append_right
      unfold Lev.cells Lev.all
      rw [List.filter_flatMap, List.map_flatMap, List.flatMap_assoc]
    refine (h1.flatMap_right _).trans ?_
    unfold leavesFrom
    rw [List.flatMap_append, List.flatMap_append]
    refine List.Perm.append ?_ (ih (lev + 1))
    rw [List.flatMap_map, List.flatMap_map]

/-- C56: the uncovered cells of every nested hierarchy over the domain tile the domain at the finest possible level. -/
theorem nested_tiles {K : Type*} {nproc : ℕ} {dom : Bx} {levels : List Lev} (hn : Nested nproc levels)
    (hc : Covers nproc dom levels) (f : ℕ → Cell → ℕ → K) :
    Tiles (refineBox (refine levels) dom) (fLevels nproc f 0 levels) nproc :=
  (leaves_perm nproc f 0 levels).trans (tiles hn hc)

theorem fLevels_pos {K : Type*} {nproc : ℕ} {levels : List Lev} (hn : Nested nproc levels) (f : ℕ → Cell → ℕ → K) (lev : ℕ) :
    ∀ L ∈ fLevels nproc f lev levels, ∀ d, 0 < L.r d := by
  induction levels generalizing lev with
  | nil => simp [fLevels]
  | cons L rest ih =>
    intro M hM d
    unfold fLevels at hM
    rcases List.mem_cons.mp hM with rfl | hM
    · exact refine_pos hn d
    · exact ih (by simpa using nested_drop hn 1) (lev + 1) M hM d

section
variable {K : Type*} [Field K] [LinearOrder K] [IsStrictOrderedRing K] [FloorRing K]

/-- C56, for every nested hierarchy: with piecewise constant values the average at a line interval is the mean, over the
cells of that plane at the finest possible level, of the value of the uncovered cell each of them lies in. -/
theorem nested_average {g : FGeom K} {nproc : ℕ} {dom : Bx} {levels : List Lev} (hn : Nested nproc levels)
    (hc : Covers nproc dom levels) (f : ℕ → Cell → ℕ → K) (hdom : g.dom = refineBox (refine levels) dom)
    (ok : g.Ok (fLevels nproc f 0 levels)) {tol : K} (ht0 : 0 ≤ tol) (ht1 : tol ≤ g.h g.ax) {ncomp n : ℕ} (hlt : n < ncomp)
    {F : Cell → ℕ → K} (hF : Represents nproc levels f F) {ind : ℤ} (hi : g.dom.HasPlane g.ax ind) :
    Plane.fineAverage g tol ncomp (fun L c _ m => L.f c m) (fLevels nproc f 0 levels) nproc (ncomp * ind + n) =
      Plane.mean (Plane.planeCells g.ax g.dom ind) fun x => F x n := by
  apply Plane.fine_average ok (hdom ▸ nested_tiles hn hc f) ht0 ht1 hlt _ _ _ hi
  intro L c hl x hx
  have key : ∀ (lv : List Lev) (lev : ℕ), (L, c) ∈ Plane.leaves (fLevels nproc f lev lv) nproc →
      ∃ l ∈ leavesFrom nproc lev lv, L.r = refine l.2.1 ∧ L.f = f l.1 ∧ l.2.2 = c := by
    intro lv
    induction lv with
    | nil => intro lev h; simp [Plane.leaves, fLevels] at h
    | cons M rest ih =>
      intro lev h
      unfold Plane.leaves fLevels at h
      simp only [List.flatMap_cons, List.mem_flatMap, List.mem_append] at h
      obtain ⟨p, hp, h | h⟩ := h
      · obtain ⟨b, hb, h⟩ := h
        simp only [List.mem_map, List.mem_filter, decide_eq_true_eq, Prod.mk.injEq] at h
        obtain ⟨c', ⟨hc', hm⟩, rfl, rfl⟩ := h
        refine ⟨(lev, M :: rest, c'), ?_, rfl, rfl, rfl⟩
        unfold leavesFrom
        rw [List.mem_append]
        left
        rw [List.mem_map]
        refine ⟨c', ?_, rfl⟩
        rw [List.mem_filter, Lev.mem_cells]
        refine ⟨⟨b, ?_, Plane.mem_cells.mp hc'⟩, by simpa using hm⟩
        unfold Lev.all
        rw [List.mem_flatMap]
        exact ⟨p, hp, hb⟩
      · obtain ⟨l, hl, h1, h2, h3⟩ := ih (lev + 1) (by
          unfold Plane.leaves
          rw [List.mem_flatMap]
          exact ⟨p, hp, by simpa using h⟩)
        refine ⟨l, ?_, h1, h2, h3⟩
        unfold leavesFrom
        rw [List.mem_append]
        exact Or.inr hl
  obtain ⟨⟨lev, suf, c'⟩, hl', h1, h2, rfl⟩ := key levels 0 hl
  have hl'' := (mem_leavesFrom hn 0).mp hl'
  simp only [Nat.sub_zero] at hl''
  obtain ⟨-, rfl, hu⟩ := hl''
  simp only at h1 h2 ⊢
  rw [h2]
  have hx' : coarsen (refine (levels.drop lev)) x = c' := by
    rw [← mem_fineBox (fun d => refine_pos (nested_drop hn lev) d), Plane.mem_cells, ← h1]
    exact hx
  rw [hF lev c' x hu hx']

end

/-- The hypotheses are met by the two-level example. -/
example : ∃ g : FGeom ℚ, g.Ok (fLevels 2 (fun _ _ _ => 0) 0 exLevels) ∧ g.dom = refineBox (refine exLevels) exDom :=
  ⟨⟨.z, refineBox (refine exLevels) exDom, fun _ => 1, 0, true⟩,
    ⟨fun _ => one_pos, by unfold Bx.Ok; simp [refineBox, exDom, refine, exLevels], by simp [refineBox, exDom],
      fLevels_pos exNested _ _⟩, rfl⟩

end AmrWind.Amr
