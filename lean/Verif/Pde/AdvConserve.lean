import Mathlib.Tactic.FieldSimp
import Verif.Amr.Norms
import Verif.Pde.AdvModel

/-! # Conservation by the advection terms on refined meshes (property C98) -/

set_option linter.unusedSectionVars false

namespace AmrWind.Adv

open Plane (Cell Bx Axis cells fineBox irange mem_cells mem_irange)
open Amr (Lev coarsenBox contains Nested Covers Spacing sum_flatMap sum_cells telescope leavesFrom levelMask fineMask_eq
  mem_fineBox has_coarsen nodup_refine contains_iff refine total cellVol)

variable {K : Type*} [Field K] [LinearOrder K] [IsStrictOrderedRing K]

/-- A sum of differences over a box is what passes through its two ends. -/
theorem box_ends (d : Axis) {b : Bx} (hb : d.idx b.lo ≤ d.idx b.hi + 1) (F : Cell → K) :
    ((cells b).map fun c => F (d.shift c 1) - F c).sum = ((cells (hiFace d b)).map F).sum - ((cells (loFace d b)).map F).sum := by
  have one : ∀ i : ℤ, irange i i = [i] := fun i => by unfold irange; simp
  have sub : ∀ (l : List ℤ) (f g : ℤ → K), (l.map f).sum - (l.map g).sum = (l.map fun i => f i - g i).sum := by
    intro l f g
    induction l with
    | nil => simp
    | cons a l ih => simp only [List.map_cons, List.sum_cons, ← ih]; ring
  obtain ⟨⟨x0, y0, z0⟩, x1, y1, z1⟩ := b
  rw [sum_cells, sum_cells, sum_cells]
  cases d
  · simp only [loFace, hiFace, Axis.shift, Axis.idx, one, List.map_cons, List.map_nil, List.sum_cons, List.sum_nil, add_zero] at hb ⊢
    rw [sub]
    congr 1; apply List.map_congr_left; intro k _
    rw [sub]
    congr 1; apply List.map_congr_left; intro j _
    exact telescope x0 x1 hb fun i => F (i, j, k)
  · simp only [loFace, hiFace, Axis.shift, Axis.idx, one, List.map_cons, List.map_nil, List.sum_cons, List.sum_nil, add_zero] at hb ⊢
    rw [sub]
    congr 1; apply List.map_congr_left; intro k _
    rw [← telescope y0 y1 hb fun j => ((irange x0 x1).map fun i => F (i, j, k)).sum]
    congr 1; apply List.map_congr_left; intro j _
    rw [sub]
  · simp only [loFace, hiFace, Axis.shift, Axis.idx, one, List.map_cons, List.map_nil, List.sum_cons, List.sum_nil, add_zero] at hb ⊢
    rw [← telescope z0 z1 hb fun k => ((irange y0 y1).map fun j => ((irange x0 x1).map fun i => F (i, j, k)).sum).sum]
    congr 1; apply List.map_congr_left; intro k _
    rw [sub]
    congr 1; apply List.map_congr_left; intro j _
    rw [sub]

/-- The area of a face across `d`. -/
def area (dx : Axis → K) : Axis → K
  | .x => dx .y * dx .z
  | .y => dx .x * dx .z
  | .z => dx .x * dx .y

/-- **C98**: what flows out of a box: the sum over its cells of volume times convective rate is the inflow minus the outflow through its
six sides, whatever the fluxes. -/
theorem box_rate {dx : Axis → K} (hdx : ∀ d, dx d ≠ 0) {b : Bx} (hb : ∀ d : Axis, d.idx b.lo ≤ d.idx b.hi + 1) (F : Axis → Cell → K) :
    ((cells b).map fun c => dx .x * dx .y * dx .z * rate dx F c).sum =
      area dx .x * (((cells (loFace .x b)).map (F .x)).sum - ((cells (hiFace .x b)).map (F .x)).sum) +
      area dx .y * (((cells (loFace .y b)).map (F .y)).sum - ((cells (hiFace .y b)).map (F .y)).sum) +
      area dx .z * (((cells (loFace .z b)).map (F .z)).sum - ((cells (hiFace .z b)).map (F .z)).sum) := by
  have e : ∀ c, dx .x * dx .y * dx .z * rate dx F c = -area dx .x * (F .x (Axis.x.shift c 1) - F .x c) +
      -area dx .y * (F .y (Axis.y.shift c 1) - F .y c) + -area dx .z * (F .z (Axis.z.shift c 1) - F .z c) := by
    intro c
    have := hdx .x; have := hdx .y; have := hdx .z
    unfold rate area
    simp only
    field_simp
    ring
  simp only [e]
  rw [List.sum_map_add, List.sum_map_add, List.sum_map_mul_left, List.sum_map_mul_left, List.sum_map_mul_left,
    box_ends .x (hb .x), box_ends .y (hb .y), box_ends .z (hb .z)]
  ring

theorem hiFace_fine (r : Axis → ℕ) (d : Axis) (c : Cell) : hiFace d (fineBox r c) = loFace d (fineBox r (d.shift c 1)) := by
  obtain ⟨i, j, k⟩ := c
  have e : ∀ r i : ℤ, r * i + (r - 1) + 1 = r * (i + 1) := fun r i => by ring
  cases d <;> simp only [hiFace, loFace, fineBox, Axis.shift, e]

theorem length_loFace (r : Axis → ℕ) (d : Axis) (c : Cell) : (cells (loFace d (fineBox r c))).length =
    match d with | .x => r .y * r .z | .y => r .x * r .z | .z => r .x * r .y := by
  rw [Plane.length_cells]
  cases d <;> simp [loFace, fineBox] <;> ring

/-- A coarse cell whose six faces carry the means of the fine fluxes has the rate of the fine cells in it. -/
theorem cell_rate {r : Axis → ℕ} (hr : ∀ d, 0 < r d) (hK : ∀ d, (r d : K) ≠ 0) {dxf dxc : Axis → K} (hdx : ∀ d, dxf d ≠ 0)
    (hc : ∀ d, dxc d = r d * dxf d) {F G : Axis → Cell → K} {c : Cell}
    (hl : ∀ d, G d c = faceMean r d (F d) c) (hh : ∀ d, G d (d.shift c 1) = faceMean r d (F d) (d.shift c 1)) :
    dxc .x * dxc .y * dxc .z * rate dxc G c = ((cells (fineBox r c)).map fun x => dxf .x * dxf .y * dxf .z * rate dxf F x).sum := by
  have hb : ∀ d : Axis, d.idx (fineBox r c).lo ≤ d.idx (fineBox r c).hi + 1 := by
    intro d
    have := hr .x; have := hr .y; have := hr .z
    cases d <;> simp only [fineBox, Axis.idx] <;> omega
  rw [box_rate hdx hb]
  simp only [hiFace_fine]
  have hx := hl .x; have hy := hl .y; have hz := hl .z
  have gx := hh .x; have gy := hh .y; have gz := hh .z
  unfold faceMean at hx hy hz gx gy gz
  rw [length_loFace] at hx hy hz gx gy gz
  unfold rate
  rw [hx, hy, hz, gx, gy, gz, hc, hc, hc]
  have := hK .x; have := hK .y; have := hK .z
  have := hdx .x; have := hdx .y; have := hdx .z
  unfold area
  simp only
  push_cast
  field_simp

theorem averageDown_below (nproc : ℕ) (levels : List Lev) (F : ℕ → Axis → Cell → K) (lev : ℕ) {l : ℕ} (hl : l < lev) :
    averageDown nproc lev levels F l = F l := by
  induction levels generalizing lev with
  | nil => rfl
  | cons L rest ih =>
    cases rest with
    | nil => rfl
    | cons L' rest =>
      have un : averageDown nproc lev (L :: L' :: rest) F = fun l d c => if l = lev ∧ ((L'.all nproc).any fun b =>
        contains (faces d (coarsenBox L.ratio b)) c) = true then
          faceMean L.ratio d (averageDown nproc (lev + 1) (L' :: rest) F (lev + 1) d) c
          else averageDown nproc (lev + 1) (L' :: rest) F l d c := rfl
      rw [un]
      funext d c
      beta_reduce
      rw [if_neg (by omega), ih (lev + 1) (by omega)]

/-- Levels above the first see only what the recursion does. -/
theorem averageDown_above {nproc : ℕ} {L L' : Lev} {rest : List Lev} {F : ℕ → Axis → Cell → K} {lev l : ℕ} (hl : lev < l) :
    averageDown nproc lev (L :: L' :: rest) F l = averageDown nproc (lev + 1) (L' :: rest) F l := by
  have un : averageDown nproc lev (L :: L' :: rest) F = fun l d c => if l = lev ∧ ((L'.all nproc).any fun b =>
    contains (faces d (coarsenBox L.ratio b)) c) = true then
      faceMean L.ratio d (averageDown nproc (lev + 1) (L' :: rest) F (lev + 1) d) c
      else averageDown nproc (lev + 1) (L' :: rest) F l d c := rfl
  rw [un]
  funext d c
  beta_reduce
  rw [if_neg (by omega)]

/-- The spacings of consecutive levels are in the ratio of the levels. -/
def Ratios (dx : ℕ → Axis → K) : ℕ → List Lev → Prop
  | lev, L :: L' :: rest => (∀ d, dx lev d = L.ratio d * dx (lev + 1) d) ∧ Ratios dx (lev + 1) (L' :: rest)
  | _, _ => True

/-- The sum over the uncovered cells of a hierarchy is the sum over the coarsest level, once the fluxes are averaged down. -/
theorem leaves_rate {nproc : ℕ} {L : Lev} {rest : List Lev} (hn : Nested nproc (L :: rest)) {dx : ℕ → Axis → K}
    (h0 : ∀ l d, dx l d ≠ 0) (lev : ℕ) (hd : Ratios dx lev (L :: rest)) (F : ℕ → Axis → Cell → K) :
    ((leavesFrom nproc lev (L :: rest)).map fun l => cellVol dx l.1 * rate (dx l.1) (averageDown nproc lev (L :: rest) F l.1) l.2.2).sum =
      ((L.cells nproc).map fun c => cellVol dx lev * rate (dx lev) (averageDown nproc lev (L :: rest) F lev) c).sum := by
  induction rest generalizing L lev with
  | nil =>
    unfold leavesFrom
    simp only [leavesFrom, List.append_nil, levelMask]
    rw [List.map_map]
    simp [Function.comp_def]
  | cons L' rest ih =>
    obtain ⟨hr, hnd, ha, hin, hrest⟩ := hn
    obtain ⟨hdx, hd'⟩ := hd
    have h1 := ih hrest (lev + 1) hd'
    have hnd' : (L'.cells nproc).Nodup := by
      cases rest with
      | nil => exact hrest.2
      | cons L'' rest => exact hrest.2.1
    have hndL : (L.cells nproc).Nodup := hnd
    have hm := fun c => (fineMask_eq hr ha c).2
    -- the covered cells, refined once, are the cells of the next level
    have hcov : (((L.cells nproc).filter fun c => ¬ levelMask nproc L (L' :: rest) c = 1).flatMap
        fun c => cells (fineBox L.ratio c)).Perm (L'.cells nproc) := by
      rw [List.perm_ext_iff_of_nodup (nodup_refine hr (hndL.filter _)) hnd']
      intro x
      simp only [List.mem_flatMap, List.mem_filter, decide_eq_true_eq, mem_fineBox hr, Lev.mem_cells]
      constructor
      · rintro ⟨c, ⟨hc, hmask⟩, rfl⟩
        have : ∃ y, L'.Has nproc y ∧ Amr.coarsen L.ratio y = Amr.coarsen L.ratio x := by
          by_contra hcon
          exact hmask ((hm _).mpr hcon)
        obtain ⟨y, ⟨b, hb, hy⟩, hxy⟩ := this
        refine ⟨b, hb, ?_⟩
        rw [← has_coarsen hr (ha b hb), ← hxy, has_coarsen hr (ha b hb)]
        exact hy
      · intro hx
        refine ⟨Amr.coarsen L.ratio x, ⟨hin x hx, ?_⟩, rfl⟩
        intro hmask
        exact (hm _).mp hmask ⟨x, hx, rfl⟩
    unfold leavesFrom
    rw [List.map_append, List.sum_append, List.map_map]
    -- the finer levels
    have h2 : ((leavesFrom nproc (lev + 1) (L' :: rest)).map fun l => cellVol dx l.1 *
        rate (dx l.1) (averageDown nproc lev (L :: L' :: rest) F l.1) l.2.2).sum =
        (((L.cells nproc).filter fun c => ¬ levelMask nproc L (L' :: rest) c = 1).map fun c =>
          cellVol dx lev * rate (dx lev) (averageDown nproc lev (L :: L' :: rest) F lev) c).sum := by
      have e : ((leavesFrom nproc (lev + 1) (L' :: rest)).map fun l => cellVol dx l.1 *
          rate (dx l.1) (averageDown nproc lev (L :: L' :: rest) F l.1) l.2.2) =
          ((leavesFrom nproc (lev + 1) (L' :: rest)).map fun l => cellVol dx l.1 *
          rate (dx l.1) (averageDown nproc (lev + 1) (L' :: rest) F l.1) l.2.2) := by
        apply List.map_congr_left
        rintro ⟨l, suf, c⟩ hl
        have := ((Amr.mem_leavesFrom hrest (lev + 1)).mp hl).1
        rw [averageDown_above (by simpa using this)]
      rw [e, h1, ← (hcov.map _).sum_eq, sum_flatMap]
      congr 1
      apply List.map_congr_left
      intro c hc
      simp only [List.mem_filter, decide_eq_true_eq] at hc
      have hex : ∃ y, L'.Has nproc y ∧ Amr.coarsen L.ratio y = c := by
        by_contra hcon
        exact hc.2 ((hm _).mpr hcon)
      obtain ⟨y, ⟨b, hb, hy⟩, rfl⟩ := hex
      have hbc := (has_coarsen hr (ha b hb) y).mpr hy
      symm
      refine cell_rate hr (fun d => by have := hr d; exact_mod_cast this.ne') (h0 (lev + 1)) hdx ?_ ?_
      · intro d
        have un : averageDown nproc lev (L :: L' :: rest) F lev d (Amr.coarsen L.ratio y) =
          if lev = lev ∧ ((L'.all nproc).any fun b => contains (faces d (coarsenBox L.ratio b)) (Amr.coarsen L.ratio y)) = true then
          faceMean L.ratio d (averageDown nproc (lev + 1) (L' :: rest) F (lev + 1) d) (Amr.coarsen L.ratio y)
          else averageDown nproc (lev + 1) (L' :: rest) F lev d (Amr.coarsen L.ratio y) := rfl
        rw [un, if_pos]
        refine ⟨rfl, List.any_eq_true.mpr ⟨b, hb, contains_iff.mpr ?_⟩⟩
        revert hbc
        generalize coarsenBox L.ratio b = B
        generalize Amr.coarsen L.ratio y = e
        obtain ⟨⟨x0, y0, z0⟩, x1, y1, z1⟩ := B
        obtain ⟨i, j, k⟩ := e
        cases d <;> simp only [Bx.Has, faces, Axis.shift] <;> omega
      · intro d
        have un : averageDown nproc lev (L :: L' :: rest) F lev d (d.shift (Amr.coarsen L.ratio y) 1) =
          if lev = lev ∧ ((L'.all nproc).any fun b => contains (faces d (coarsenBox L.ratio b))
            (d.shift (Amr.coarsen L.ratio y) 1)) = true then
          faceMean L.ratio d (averageDown nproc (lev + 1) (L' :: rest) F (lev + 1) d) (d.shift (Amr.coarsen L.ratio y) 1)
          else averageDown nproc (lev + 1) (L' :: rest) F lev d (d.shift (Amr.coarsen L.ratio y) 1) := rfl
        rw [un, if_pos]
        refine ⟨rfl, List.any_eq_true.mpr ⟨b, hb, contains_iff.mpr ?_⟩⟩
        revert hbc
        generalize coarsenBox L.ratio b = B
        generalize Amr.coarsen L.ratio y = e
        obtain ⟨⟨x0, y0, z0⟩, x1, y1, z1⟩ := B
        obtain ⟨i, j, k⟩ := e
        cases d <;> simp only [Bx.Has, faces, Axis.shift] <;> omega
    rw [h2]
    have := List.filter_append_perm (fun c => decide (levelMask nproc L (L' :: rest) c = 1)) (L.cells nproc)
    rw [← (this.map _).sum_eq, List.map_append, List.sum_append]
    congr 1
    simp

/-- The sum over ranks, levels and boxes, covered cells left out, of cell volume times rate: how fast the total amount in the domain
changes. -/
def totalRate (nproc : ℕ) (dx : ℕ → Axis → K) (R : ℕ → Cell → K) (levels : List Lev) : K :=
  total nproc (fun lev c m => cellVol dx lev * (m : K) * R lev c) levels

/-- The amount that enters the domain per time through its six sides, given the fluxes on the coarsest level. -/
def inflow (dx : Axis → K) (dom : Bx) (F : Axis → Cell → K) : K :=
  area dx .x * (((cells (loFace .x dom)).map (F .x)).sum - ((cells (hiFace .x dom)).map (F .x)).sum) +
  area dx .y * (((cells (loFace .y dom)).map (F .y)).sum - ((cells (hiFace .y dom)).map (F .y)).sum) +
  area dx .z * (((cells (loFace .z dom)).map (F .z)).sum - ((cells (hiFace .z dom)).map (F .z)).sum)

/-- **C98**: with the Godunov schemes the total amount changes only by what passes the boundary of the domain, for any fluxes, any number of
levels, ratios, boxes and ranks. -/
theorem godunov_conserves {nproc : ℕ} {dom : Bx} {levels : List Lev} (hn : Nested nproc levels) (hc : Covers nproc dom levels)
    (hb : ∀ d : Axis, d.idx dom.lo ≤ d.idx dom.hi + 1) {dx : ℕ → Axis → K} (h0 : ∀ l d, dx l d ≠ 0)
    (hd : Ratios dx 0 levels) (F : ℕ → Axis → Cell → K) :
    totalRate nproc dx (godunovRate nproc levels dx F) levels = inflow (dx 0) dom (averageDown nproc 0 levels F 0) := by
  obtain ⟨L, rest, rfl, hp⟩ := hc
  unfold totalRate total
  rw [Amr.total_from (by simp)]
  have := leaves_rate hn h0 0 hd F
  simp only [Int.cast_one, mul_one]
  unfold godunovRate
  rw [this, (hp.map _).sum_eq]
  exact box_rate (h0 0) hb _

/-- **C98**: so in a periodic domain, where the fluxes at the two ends agree, nothing is gained or lost. -/
theorem godunov_periodic {nproc : ℕ} {dom : Bx} {levels : List Lev} (hn : Nested nproc levels) (hc : Covers nproc dom levels)
    (hb : ∀ d : Axis, d.idx dom.lo ≤ d.idx dom.hi + 1) {dx : ℕ → Axis → K} (h0 : ∀ l d, dx l d ≠ 0)
    (hd : Ratios dx 0 levels) (F : ℕ → Axis → Cell → K)
    (hper : ∀ d, ((cells (loFace d dom)).map (averageDown nproc 0 levels F 0 d)).sum =
      ((cells (hiFace d dom)).map (averageDown nproc 0 levels F 0 d)).sum) :
    totalRate nproc dx (godunovRate nproc levels dx F) levels = 0 := by
  rw [godunov_conserves hn hc hb h0 hd]
  unfold inflow
  rw [hper, hper, hper]
  ring

/-- **C98**: on a mesh of one level the method of lines conserves as well.

Partial (C98). Missing: refined meshes, where it is false (`mol_refined_not_conserved`). -/
theorem mol_conserves_one_level_partial {nproc : ℕ} {dom : Bx} {L : Lev} (hn : Nested nproc [L]) (hc : Covers nproc dom [L])
    (hb : ∀ d : Axis, d.idx dom.lo ≤ d.idx dom.hi + 1) {dx : ℕ → Axis → K} (h0 : ∀ l d, dx l d ≠ 0)
    (F : ℕ → Axis → Cell → K) : totalRate nproc dx (molRate dx F) [L] = inflow (dx 0) dom (F 0) :=
  godunov_conserves hn hc hb h0 trivial F

/-! ## Examples -/

/-- The spacings of the two-level mesh of `Amr.exLevels`. -/
def exDx : ℕ → Axis → ℚ := fun lev _ => if lev = 0 then 1 else 1 / 2

/-- Fluxes with a different value on every face of the fine level. -/
def exFlux : ℕ → Axis → Cell → ℚ := fun lev d c => match lev, d with
  | 0, .x => 3 + c.1 * c.2.2
  | 0, _ => 0
  | _, .x => 1 + c.1 + 2 * c.2.1
  | _, .y => c.2.1 * c.1
  | _, .z => 5 - c.2.2

example : Nested 2 Amr.exLevels ∧ Covers 2 Amr.exDom Amr.exLevels ∧ Ratios exDx 0 Amr.exLevels ∧
    (∀ d : Axis, d.idx Amr.exDom.lo ≤ d.idx Amr.exDom.hi + 1) ∧
    totalRate 2 exDx (godunovRate 2 Amr.exLevels exDx exFlux) Amr.exLevels =
      inflow (exDx 0) Amr.exDom (averageDown 2 0 Amr.exLevels exFlux 0) ∧
    averageDown 2 0 Amr.exLevels exFlux 0 .x (1, 0, 0) = 4 ∧ exFlux 0 .x (1, 0, 0) = 3 := by
  have hb : ∀ d : Axis, d.idx Amr.exDom.lo ≤ d.idx Amr.exDom.hi + 1 := by intro d; cases d <;> decide
  have hr : Ratios exDx 0 Amr.exLevels := ⟨fun d => by simp [exDx], trivial⟩
  refine ⟨Amr.exNested, Amr.exCovers, hr, hb, ?_, by decide +kernel, by decide +kernel⟩
  exact godunov_conserves Amr.exNested Amr.exCovers hb (fun l d => by unfold exDx; split <;> norm_num) hr _

/-- A disagreement: the method of lines does not average the fluxes down, so on a refined mesh the total amount changes although no face
of the boundary of the domain carries a flux. -/
theorem mol_refined_not_conserved : ∃ F : ℕ → Axis → Cell → ℚ,
    (∀ d, ∀ c ∈ cells (loFace d Amr.exDom) ++ cells (hiFace d Amr.exDom), F 0 d c = 0) ∧
    (∀ d, ∀ c ∈ cells (loFace d ⟨(0, 0, 0), (1, 1, 1)⟩), F 1 d c = 0) ∧
    inflow (exDx 0) Amr.exDom (F 0) = 0 ∧ totalRate 2 exDx (molRate exDx F) Amr.exLevels ≠ 0 := by
  refine ⟨fun lev d c => if d = .x ∧ lev = 1 ∧ c.1 = 2 then 1 else 0, ?_, ?_, by decide +kernel, by decide +kernel⟩
  · intro d c _
    simp
  · intro d
    cases d <;> decide +kernel

end AmrWind.Adv
