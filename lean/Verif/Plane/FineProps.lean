import Verif.Plane.Fine
import Verif.Plane.Props

/-!
# C56: plane averages over a refined mesh
-/

set_option linter.unusedSectionVars false

namespace AmrWind.Plane

/-! ## Specification -/

/-- The cells of the finest possible level that a cell of a level with ratio `r` covers. -/
def fineBox (r : Axis → ℕ) (c : Cell) : Bx :=
  ⟨(r .x * c.1, r .y * c.2.1, r .z * c.2.2),
    (r .x * c.1 + (r .x - 1), r .y * c.2.1 + (r .y - 1), r .z * c.2.2 + (r .z - 1))⟩

/-- The cells that no finer level covers, over all ranks and levels. -/
def leaves {K : Type*} (levels : List (FLevel K)) (nproc : ℕ) : List (FLevel K × Cell) :=
  (List.range nproc).flatMap fun p => levels.flatMap fun L => (L.boxes p).flatMap fun b =>
    ((cells b).filter L.mask).map fun c => (L, c)

/-- The uncovered cells fill the domain without overlap. -/
def Tiles {K : Type*} (dom : Bx) (levels : List (FLevel K)) (nproc : ℕ) : Prop :=
  ((leaves levels nproc).flatMap fun l => cells (fineBox l.1.r l.2)).Perm (cells dom)

section
variable {K : Type*} [Field K] [LinearOrder K] [IsStrictOrderedRing K] [FloorRing K]

/-- A mesh: positive cell sizes, a domain with cells that starts at zero, positive ratios. -/
structure FGeom.Ok (g : FGeom K) (levels : List (FLevel K)) : Prop where
  h : ∀ d, 0 < g.h d
  dom : g.dom.Ok
  lo : g.dom.lo = (0, 0, 0)
  r : ∀ L ∈ levels, ∀ d, 0 < L.r d

theorem truncInt_int {z : ℤ} : truncInt (z : K) = z := by
  unfold truncInt
  split <;> simp

theorem filter_single {α : Type*} [DecidableEq α] {l : List α} (hnd : l.Nodup) {a : α} (h : a ∈ l) :
    (l.filter fun j => j = a) = [a] := by
  induction l with
  | nil => simp at h
  | cons b l ih =>
    rw [List.nodup_cons] at hnd
    rcases List.mem_cons.mp h with rfl | h
    · have : (l.filter fun j => j = a) = [] := by
        rw [List.filter_eq_nil_iff]
        intro x hx
        simp only [decide_eq_true_eq]
        rintro rfl
        exact hnd.1 hx
      simp [this]
    · have hne : b ≠ a := by rintro rfl; exact hnd.1 h
      simp [hne, ih hnd.2 h]

/-- What a cell adds to one line interval: its overlap is the interval itself for the intervals inside the cell and zero
for all others. -/
theorem lines_sum {g : FGeom K} (hh : 0 < g.h g.ax) {tol : K} (ht0 : 0 ≤ tol) (ht1 : tol ≤ g.h g.ax) {R : ℕ} (hR : 0 < R)
    {i : ℤ} (hi : 0 ≤ i) (hn : R * i + R ≤ ncellLine g.ax g.dom) (v : ℤ → K) (ind : ℤ) :
    (((g.lines (R * g.h g.ax) tol i).filter fun j => j = ind).map fun j => g.deltax (R * g.h g.ax) i j * v j).sum =
      if R * i ≤ ind ∧ ind ≤ R * i + (R - 1) then g.h g.ax * v ind else 0 := by
  have hRi : (0 : ℤ) ≤ R * i := by positivity
  have e1 : (g.xlo + i * (R * g.h g.ax) - g.xlo) / g.h g.ax = ((R * i : ℤ) : K) := by
    push_cast; field_simp; ring
  have e2 : (g.xlo + i * (R * g.h g.ax) + R * g.h g.ax - tol - g.xlo) / g.h g.ax =
      ((R * i + R : ℤ) : K) - tol / g.h g.ax := by
    push_cast; field_simp; ring
  have hq0 : 0 ≤ tol / g.h g.ax := by positivity
  have hq1 : tol / g.h g.ax ≤ 1 := by rw [div_le_one hh]; exact ht1
  -- the last index
  have hlo : g.lines (R * g.h g.ax) tol i = irange (R * i)
      (min (max (truncInt (((R * i + R : ℤ) : K) - tol / g.h g.ax)) 0) (ncellLine g.ax g.dom - 1)) := by
    unfold FGeom.lines
    simp only [e1, e2]
    rw [truncInt_int, max_eq_left hRi, min_eq_left (by omega)]
  have hhi : R * i + R - 1 ≤ truncInt (((R * i + R : ℤ) : K) - tol / g.h g.ax) ∧
      truncInt (((R * i + R : ℤ) : K) - tol / g.h g.ax) ≤ R * i + R := by
    unfold truncInt
    have hge : (0 : K) ≤ ((R * i + R : ℤ) : K) - tol / g.h g.ax := by
      have : (1 : K) ≤ ((R * i + R : ℤ) : K) := by
        have : (1 : ℤ) ≤ R * i + R := by omega
        exact_mod_cast this
      linarith
    rw [if_pos hge]
    constructor
    · rw [Int.le_floor]; push_cast; linarith
    · have := Int.floor_le (((R * i + R : ℤ) : K) - tol / g.h g.ax)
      have h2 : ((⌊((R * i + R : ℤ) : K) - tol / g.h g.ax⌋ : ℤ) : K) ≤ ((R * i + R : ℤ) : K) := by linarith
      exact_mod_cast h2
  have hRK : (1 : K) ≤ R := by exact_mod_cast hR
  -- overlaps
  have hd : ∀ j : ℤ, R * i ≤ j → j ≤ R * i + (R - 1) → g.deltax (R * g.h g.ax) i j = g.h g.ax := by
    intro j h1 h2
    unfold FGeom.deltax
    have k1 : ((R : K) * i) ≤ j := by exact_mod_cast h1
    have k2 : (j : K) ≤ R * i + (R - 1) := by exact_mod_cast h2
    simp only
    have m : g.h g.ax ≤ R * g.h g.ax := by nlinarith
    by_cases c1 : g.xlo + j * g.h g.ax ≤ g.xlo + i * (R * g.h g.ax)
    · rw [if_pos c1]
      have : (j : K) = R * i := by
        apply le_antisymm _ k1
        by_contra hcon
        push Not at hcon
        have := mul_lt_mul_of_pos_right hcon hh
        nlinarith
      rw [this]
      have : g.xlo + (R : K) * i * g.h g.ax + g.h g.ax - (g.xlo + i * (R * g.h g.ax)) = g.h g.ax := by ring
      rw [this, min_eq_left m]
    · rw [if_neg c1]
      by_cases c2 : g.xlo + j * g.h g.ax + g.h g.ax ≥ g.xlo + i * (R * g.h g.ax) + R * g.h g.ax
      · rw [if_pos c2]
        have : (j : K) = R * i + (R - 1) := by
          apply le_antisymm k2
          by_contra hcon
          push Not at hcon
          have := mul_lt_mul_of_pos_right hcon hh
          nlinarith
        rw [this]
        have : g.xlo + i * (R * g.h g.ax) + R * g.h g.ax - (g.xlo + ((R : K) * i + (R - 1)) * g.h g.ax) = g.h g.ax := by
          ring
        rw [this, min_eq_left m]
      · rw [if_neg c2, min_eq_left m]
  have hd0 : g.deltax (R * g.h g.ax) i (R * i + R) = 0 := by
    unfold FGeom.deltax
    simp only
    have m : 0 < R * g.h g.ax := by positivity
    rw [if_neg (by push_cast; nlinarith), if_pos (by push_cast; nlinarith)]
    have : g.xlo + (i : K) * (R * g.h g.ax) + R * g.h g.ax - (g.xlo + ((R * i + R : ℤ) : K) * g.h g.ax) = 0 := by
      push_cast; ring
    rw [this, min_eq_left m.le]
  rw [hlo]
  generalize truncInt (((R * i + R : ℤ) : K) - tol / g.h g.ax) = T at hhi
  have hT : max T 0 = T := max_eq_left (by omega)
  rw [hT]
  have hfil : ∀ lo hi : ℤ, ((irange lo hi).filter fun j => j = ind) = if lo ≤ ind ∧ ind ≤ hi then [ind] else [] := by
    intro lo hi
    have hnd := (nodup_irange lo hi)
    split
    · rename_i hm
      exact filter_single hnd (mem_irange.mpr hm)
    · rename_i hm
      rw [List.filter_eq_nil_iff]
      intro a ha
      rw [mem_irange] at ha
      simp only [decide_eq_true_eq]
      rintro rfl
      exact hm ha
  rw [hfil]
  by_cases h1 : R * i ≤ ind ∧ ind ≤ R * i + (R - 1)
  · rw [if_pos h1, if_pos ⟨h1.1, by omega⟩]
    simp [hd ind h1.1 h1.2]
  · rw [if_neg h1]
    by_cases h2 : R * i ≤ ind ∧ ind ≤ min T (ncellLine g.ax g.dom - 1)
    · rw [if_pos h2]
      have : ind = R * i + R := by omega
      rw [this]
      simp [hd0]
    · rw [if_neg h2]
      rfl

/-- What a cell adds at one place of the array. -/
theorem fineWrites_sum {g : FGeom K} {tol : K} (hh : 0 < g.h g.ax) (ht0 : 0 ≤ tol) (ht1 : tol ≤ g.h g.ax) {ncomp : ℕ}
    (val : FLevel K → Cell → ℤ → ℕ → K) {L : FLevel K} (hR : 0 < L.r g.ax) {c : Cell} (hi : 0 ≤ g.ax.idx c)
    (hn : L.r g.ax * g.ax.idx c + L.r g.ax ≤ ncellLine g.ax g.dom) (ind : ℤ) {n : ℕ} (hnc : n < ncomp) :
    (((fineWrites g tol ncomp val L c).filter fun w => w.1 = (ncomp : ℤ) * ind + n).map Prod.snd).sum =
      if L.r g.ax * g.ax.idx c ≤ ind ∧ ind ≤ L.r g.ax * g.ax.idx c + (L.r g.ax - 1) then
        (if L.mask c then 1 else 0) * val L c ind n *
          (g.h g.ax * (L.r g.ax.odir.1 * g.h g.ax.odir.1) * (L.r g.ax.odir.2 * g.h g.ax.odir.2)) * g.denom
      else 0 := by
  unfold fineWrites
  simp only
  rw [flat_sum]
  have hinner : ∀ j : ℤ, ((((List.range ncomp).map fun n : ℕ => ((ncomp : ℤ) * j + n,
        (if L.mask c then (1 : K) else 0) * val L c j n * (g.deltax (L.r g.ax * g.h g.ax) (g.ax.idx c) j *
          (L.r g.ax.odir.1 * g.h g.ax.odir.1) * (L.r g.ax.odir.2 * g.h g.ax.odir.2)) * g.denom)).filter
        fun w => w.1 = (ncomp : ℤ) * ind + n).map Prod.snd).sum =
      if j = ind then g.deltax (L.r g.ax * g.h g.ax) (g.ax.idx c) j * ((if L.mask c then (1 : K) else 0) * val L c j n *
          (L.r g.ax.odir.1 * g.h g.ax.odir.1) * (L.r g.ax.odir.2 * g.h g.ax.odir.2) * g.denom) else 0 := by
    intro j
    rw [List.filter_map, List.map_map]
    by_cases hj : j = ind
    · subst hj
      rw [if_pos rfl]
      have : (List.range ncomp).filter ((fun w : ℤ × K => decide (w.1 = (ncomp : ℤ) * j + n)) ∘ fun n : ℕ =>
          ((ncomp : ℤ) * j + n, (if L.mask c then (1 : K) else 0) * val L c j n *
            (g.deltax (L.r g.ax * g.h g.ax) (g.ax.idx c) j * (L.r g.ax.odir.1 * g.h g.ax.odir.1) *
            (L.r g.ax.odir.2 * g.h g.ax.odir.2)) * g.denom)) = [n] := by
        have h1 : (List.range ncomp).filter ((fun w : ℤ × K => decide (w.1 = (ncomp : ℤ) * j + n)) ∘ fun n : ℕ =>
          ((ncomp : ℤ) * j + n, (if L.mask c then (1 : K) else 0) * val L c j n *
            (g.deltax (L.r g.ax * g.h g.ax) (g.ax.idx c) j * (L.r g.ax.odir.1 * g.h g.ax.odir.1) *
            (L.r g.ax.odir.2 * g.h g.ax.odir.2)) * g.denom)) = (List.range ncomp).filter fun m => m = n := by
          apply List.filter_congr
          intro m _
          simp [Function.comp]
        rw [h1]
        exact filter_single List.nodup_range (List.mem_range.mpr hnc)
      rw [this]
      simp only [List.map_cons, List.map_nil, List.sum_cons, List.sum_nil, Function.comp, add_zero]
      ring
    · rw [if_neg hj]
      have : (List.range ncomp).filter ((fun w : ℤ × K => decide (w.1 = (ncomp : ℤ) * ind + n)) ∘ fun n : ℕ =>
          ((ncomp : ℤ) * j + n, (if L.mask c then (1 : K) else 0) * val L c j n *
            (g.deltax (L.r g.ax * g.h g.ax) (g.ax.idx c) j * (L.r g.ax.odir.1 * g.h g.ax.odir.1) *
            (L.r g.ax.odir.2 * g.h g.ax.odir.2)) * g.denom)) = [] := by
        rw [List.filter_eq_nil_iff]
        intro m hm
        rw [List.mem_range] at hm
        simp only [Function.comp, decide_eq_true_eq]
        intro he
        apply hj
        have h1 : (ncomp : ℤ) * (j - ind) = n - m := by linear_combination he
        by_contra hne
        rcases lt_or_gt_of_ne hne with hlt | hgt
        · have : (ncomp : ℤ) * (j - ind) ≤ ncomp * (-1) := mul_le_mul_of_nonneg_left (by omega) (by positivity)
          omega
        · have : (ncomp : ℤ) * 1 ≤ ncomp * (j - ind) := mul_le_mul_of_nonneg_left (by omega) (by positivity)
          omega
      rw [this]
      rfl
  simp only [hinner]
  have hsf : ∀ (l : List ℤ) (w : ℤ → K), (l.map fun j => if j = ind then w j else 0).sum =
      ((l.filter fun j => j = ind).map w).sum := by
    intro l w
    induction l with
    | nil => rfl
    | cons j l ih => by_cases hj : j = ind <;> simp [hj, ih]
  rw [hsf, lines_sum hh ht0 ht1 hR hi hn]
  split
  · ring
  · rfl

theorem fineRank_eq {g : FGeom K} {tol : K} {ncomp : ℕ} {val : FLevel K → Cell → ℤ → ℕ → K} (levels : List (FLevel K))
    (p : ℕ) (i : ℤ) : fineRank g tol ncomp val levels p i =
      (levels.map fun L => ((L.boxes p).map fun b => ((visits g.ax b).map fun c =>
        (((fineWrites g tol ncomp val L c).filter fun w => w.1 = i).map Prod.snd).sum).sum).sum).sum := by
  unfold fineRank
  have h1 : ∀ (L : FLevel K) (cs : List Cell) (m : ℤ → K), (cs.foldl (fun m c =>
      (fineWrites g tol ncomp val L c).foldl (fun m w => add m w.1 w.2) m) m) i =
      m i + (cs.map fun c => (((fineWrites g tol ncomp val L c).filter fun w => w.1 = i).map Prod.snd).sum).sum := by
    intro L cs
    induction cs with
    | nil => intro m; simp
    | cons c cs ih => intro m; rw [List.foldl_cons, ih, foldl_add, List.map_cons, List.sum_cons, add_assoc]
  have h2 : ∀ (L : FLevel K) (bs : List Bx) (m : ℤ → K), (bs.foldl (fun m b => (visits g.ax b).foldl (fun m c =>
      (fineWrites g tol ncomp val L c).foldl (fun m w => add m w.1 w.2) m) m) m) i =
      m i + (bs.map fun b => ((visits g.ax b).map fun c =>
        (((fineWrites g tol ncomp val L c).filter fun w => w.1 = i).map Prod.snd).sum).sum).sum := by
    intro L bs
    induction bs with
    | nil => intro m; simp
    | cons b bs ih => intro m; rw [List.foldl_cons, ih, h1, List.map_cons, List.sum_cons, add_assoc]
  have h3 : ∀ (ls : List (FLevel K)) (m : ℤ → K), (ls.foldl (fun m L => (L.boxes p).foldl (fun m b =>
      (visits g.ax b).foldl (fun m c => (fineWrites g tol ncomp val L c).foldl (fun m w => add m w.1 w.2) m) m) m) m) i =
      m i + (ls.map fun L => ((L.boxes p).map fun b => ((visits g.ax b).map fun c =>
        (((fineWrites g tol ncomp val L c).filter fun w => w.1 = i).map Prod.snd).sum).sum).sum).sum := by
    intro ls
    induction ls with
    | nil => intro m; simp
    | cons L ls ih => intro m; rw [List.foldl_cons, ih, h2, List.map_cons, List.sum_cons, add_assoc]
  rw [h3, zero_add]

theorem sum_flatMap_map {α β : Type*} (l : List α) (g : α → List β) (w : β → K) :
    ((l.flatMap g).map w).sum = (l.map fun a => ((g a).map w).sum).sum := by
  induction l with
  | nil => rfl
  | cons a l ih => simp [List.flatMap_cons, ih]

theorem ncellLine_pos {dom : Bx} (hd : dom.Ok) (ax : Axis) : 0 < ncellLine ax dom := by
  obtain ⟨⟨l1, l2, l3⟩, ⟨u1, u2, u3⟩⟩ := dom
  obtain ⟨a, b, c⟩ := hd
  unfold ncellLine
  cases ax <;> simp only [Axis.idx] at * <;> omega

/-- A cell's share of a plane: the number of fine cells of the plane inside it, over the number in the plane. -/
theorem weight_eq {g : FGeom K} (hh : ∀ d, 0 < g.h d) (hd : g.dom.Ok) (r : Axis → ℕ) :
    g.h g.ax * (r g.ax.odir.1 * g.h g.ax.odir.1) * (r g.ax.odir.2 * g.h g.ax.odir.2) * g.denom =
      (r g.ax.odir.1 * r g.ax.odir.2 : ℕ) / (ncellPlane g.ax g.dom : K) := by
  have n1 : (0 : K) < (ncellLine .x g.dom : K) := by
    have : 0 < ncellLine .x g.dom := ncellLine_pos hd .x
    exact_mod_cast this
  have n2 : (0 : K) < (ncellLine .y g.dom : K) := by
    have : 0 < ncellLine .y g.dom := ncellLine_pos hd .y
    exact_mod_cast this
  have n3 : (0 : K) < (ncellLine .z g.dom : K) := by
    have : 0 < ncellLine .z g.dom := ncellLine_pos hd .z
    exact_mod_cast this
  have hx := (hh .x).ne'
  have hy := (hh .y).ne'
  have hz := (hh .z).ne'
  have np : ∀ ax, ncellPlane ax g.dom = ncellLine ax.odir.1 g.dom * ncellLine ax.odir.2 g.dom := by
    intro ax; cases ax <;> rfl
  rw [np]
  unfold FGeom.denom
  obtain ⟨ax, dom, h, xlo, per⟩ := g
  cases ax <;> simp only [Axis.odir] at * <;> push_cast <;> field_simp

theorem fine_count {ax : Axis} {r : Axis → ℕ} (hr : ∀ d, 0 < r d) {c : Cell} {ind : ℤ} :
    (((cells (fineBox r c)).filter fun c' => ax.idx c' = ind).length : ℕ) =
      if r ax * ax.idx c ≤ ind ∧ ind ≤ r ax * ax.idx c + (r ax - 1) then r ax.odir.1 * r ax.odir.2 else 0 := by
  have hlo : ax.idx (fineBox r c).lo = r ax * ax.idx c := by cases ax <;> rfl
  have hhi : ax.idx (fineBox r c).hi = r ax * ax.idx c + (r ax - 1) := by cases ax <;> rfl
  split
  · rename_i h
    rw [(plane_perm (dom := fineBox r c) (by rw [hlo]; exact h.1) (by rw [hhi]; exact h.2)).length_eq]
    have hx := hr .x
    have hy := hr .y
    have hz := hr .z
    have := length_plane (ax := ax) (dom := fineBox r c) (ind := ind)
      ⟨by simp only [fineBox]; omega, by simp only [fineBox]; omega, by simp only [fineBox]; omega⟩
    have e : ncellPlane ax (fineBox r c) = (r ax.odir.1 * r ax.odir.2 : ℕ) := by
      cases ax <;> simp only [ncellPlane, fineBox, Axis.odir] <;> push_cast <;> ring
    rw [e] at this
    exact_mod_cast this
  · rename_i h
    rw [List.length_eq_zero_iff, List.filter_eq_nil_iff]
    intro c' hc'
    rw [mem_cells] at hc'
    simp only [decide_eq_true_eq]
    intro he
    apply h
    rw [← hhi, ← hlo, ← he]
    obtain ⟨i, j, k⟩ := c'
    cases ax
    · exact hc'.1
    · exact hc'.2.1
    · exact hc'.2.2

/-- C56. For every refinement hierarchy whose uncovered cells tile the domain, every distribution over ranks and every
order of visits, the average at line interval `ind` is the arithmetic mean over the cells of that plane of the finest
possible level, where each such cell takes the value its covering cell has for that interval. -/
theorem fine_average {g : FGeom K} {levels : List (FLevel K)} {nproc : ℕ} (ok : g.Ok levels)
    (ht : Tiles g.dom levels nproc) {tol : K} (ht0 : 0 ≤ tol) (ht1 : tol ≤ g.h g.ax) {ncomp n : ℕ} (hn : n < ncomp)
    (val : FLevel K → Cell → ℤ → ℕ → K) (composite : Cell → K)
    (hc : ∀ L c, (L, c) ∈ leaves levels nproc → ∀ c', (fineBox L.r c).Has c' → composite c' = val L c (g.ax.idx c') n)
    {ind : ℤ} (hi : g.dom.HasPlane g.ax ind) :
    fineAverage g tol ncomp val levels nproc (ncomp * ind + n) = mean (planeCells g.ax g.dom ind) composite := by
  -- contribution of a leaf
  have hleafmem : ∀ p < nproc, ∀ L ∈ levels, ∀ b ∈ L.boxes p, ∀ c ∈ cells b, L.mask c = true →
      (L, c) ∈ leaves levels nproc := by
    intro p hp L hL b hb c hc hm
    unfold leaves
    simp only [List.mem_flatMap, List.mem_map, List.mem_filter, List.mem_range]
    exact ⟨p, hp, L, hL, b, hb, c, ⟨hc, hm⟩, rfl⟩
  have hleafdom : ∀ l ∈ leaves levels nproc, (∀ d, 0 < l.1.r d) ∧ ∀ c', (fineBox l.1.r l.2).Has c' → g.dom.Has c' := by
    intro l hl
    constructor
    · unfold leaves at hl
      simp only [List.mem_flatMap, List.mem_map] at hl
      obtain ⟨p, _, L, hL, b, _, c, _, rfl⟩ := hl
      exact ok.r L hL
    · intro c' hc'
      have : c' ∈ (leaves levels nproc).flatMap fun l => cells (fineBox l.1.r l.2) :=
        List.mem_flatMap.mpr ⟨l, hl, mem_cells.mpr hc'⟩
      exact mem_cells.mp ((ht.mem_iff).mp this)
  let adds : FLevel K × Cell → K := fun l =>
    (((fineWrites g tol ncomp val l.1 l.2).filter fun w => w.1 = (ncomp : ℤ) * ind + n).map Prod.snd).sum
  have hleaf : ∀ l ∈ leaves levels nproc, l.1.mask l.2 = true → adds l =
      (((cells (fineBox l.1.r l.2)).filter fun c' => g.ax.idx c' = ind).map fun c' =>
        composite c' * (1 / (ncellPlane g.ax g.dom : K))).sum := by
    rintro ⟨L, c⟩ hl hm
    obtain ⟨hr, hdom⟩ := hleafdom _ hl
    have hcor : g.dom.Has (fineBox L.r c).lo ∧ g.dom.Has (fineBox L.r c).hi := by
      have hx := hr .x
      have hy := hr .y
      have hz := hr .z
      simp only at hx hy hz
      constructor <;> apply hdom <;> unfold Bx.Has fineBox <;> simp only <;> omega
    have hidx : 0 ≤ g.ax.idx c ∧ L.r g.ax * g.ax.idx c + L.r g.ax ≤ ncellLine g.ax g.dom := by
      have hp := hr g.ax
      have k1 : 0 ≤ L.r g.ax * g.ax.idx c ∧ L.r g.ax * g.ax.idx c + L.r g.ax ≤ ncellLine g.ax g.dom := by
        have hlo := ok.lo
        obtain ⟨c1, c2⟩ := hcor
        unfold Bx.Has fineBox at c1 c2
        unfold ncellLine
        clear hdom hl hc adds
        generalize g.dom = dom at *
        generalize g.ax = ax at *
        obtain ⟨⟨l1, l2, l3⟩, ⟨u1, u2, u3⟩⟩ := dom
        obtain ⟨i, j, k⟩ := c
        simp only [Prod.mk.injEq] at hlo
        obtain ⟨rfl, rfl, rfl⟩ := hlo
        simp only at c1 c2
        cases ax <;> simp only [Axis.idx] at * <;> omega
      refine ⟨?_, k1.2⟩
      by_contra hneg
      push Not at hneg
      have : (L.r g.ax : ℤ) * g.ax.idx c < 0 := mul_neg_of_pos_of_neg (by exact_mod_cast hp) hneg
      omega
    show (((fineWrites g tol ncomp val L c).filter fun w => w.1 = (ncomp : ℤ) * ind + n).map Prod.snd).sum = _
    rw [fineWrites_sum (ok.h _) ht0 ht1 val (hr _) hidx.1 hidx.2 ind hn, if_pos hm, one_mul]
    have hconst : (((cells (fineBox L.r c)).filter fun c' => g.ax.idx c' = ind).map fun c' =>
        composite c' * (1 / (ncellPlane g.ax g.dom : K))) =
        List.replicate ((cells (fineBox L.r c)).filter fun c' => g.ax.idx c' = ind).length
          (val L c ind n * (1 / (ncellPlane g.ax g.dom : K))) := by
      rw [List.eq_replicate_iff]
      refine ⟨by simp, ?_⟩
      intro b hb
      obtain ⟨c', hc', rfl⟩ := List.mem_map.mp hb
      rw [List.mem_filter, mem_cells, decide_eq_true_eq] at hc'
      rw [hc L c hl c' hc'.1, hc'.2]
    show _ = (((cells (fineBox L.r c)).filter fun c' => g.ax.idx c' = ind).map fun c' =>
        composite c' * (1 / (ncellPlane g.ax g.dom : K))).sum
    rw [hconst, List.sum_replicate, fine_count hr, nsmul_eq_mul]
    split
    · rw [mul_assoc, weight_eq ok.h ok.dom]
      ring
    · simp
  have hzero : ∀ L ∈ levels, ∀ c, L.mask c = false → adds (L, c) = 0 := by
    intro L _ c hm
    have : ∀ w ∈ fineWrites g tol ncomp val L c, w.2 = 0 := by
      intro w hw
      unfold fineWrites at hw
      simp only [List.mem_flatMap, List.mem_map] at hw
      obtain ⟨j, _, m, _, rfl⟩ := hw
      simp [hm]
    apply List.sum_eq_zero
    intro x hx
    obtain ⟨w, hw, rfl⟩ := List.mem_map.mp hx
    exact this w (List.mem_filter.mp hw).1
  have hbox : ∀ L ∈ levels, ∀ b, ((visits g.ax b).map fun c => adds (L, c)).sum =
      ((((cells b).filter L.mask).map fun c => (L, c)).map adds).sum := by
    intro L hL b
    rw [((visits_perm g.ax b).map _).sum_eq, List.map_map]
    induction cells b with
    | nil => rfl
    | cons c cs ih =>
      by_cases hm : L.mask c = true
      · simp [hm, ih]
      · simp [hm, ih, hzero L hL c (by simpa using hm)]
  have hsum : fineAverage g tol ncomp val levels nproc (ncomp * ind + n) = ((leaves levels nproc).map adds).sum := by
    unfold fineAverage leaves
    rw [sum_flatMap_map]
    congr 1
    apply List.map_congr_left
    intro p _
    rw [fineRank_eq, sum_flatMap_map]
    congr 1
    apply List.map_congr_left
    intro L hL
    rw [sum_flatMap_map]
    congr 1
    apply List.map_congr_left
    intro b _
    exact hbox L hL b
  rw [hsum]
  have hmask : ∀ l ∈ leaves levels nproc, l.1.mask l.2 = true := by
    intro l hl
    unfold leaves at hl
    simp only [List.mem_flatMap, List.mem_map, List.mem_filter] at hl
    obtain ⟨p, _, L, _, b, _, c, hc, rfl⟩ := hl
    exact hc.2
  have : (leaves levels nproc).map adds = (leaves levels nproc).map fun l =>
      (((cells (fineBox l.1.r l.2)).filter fun c' => g.ax.idx c' = ind).map fun c' =>
        composite c' * (1 / (ncellPlane g.ax g.dom : K))).sum :=
    List.map_congr_left fun l hl => hleaf l hl (hmask l hl)
  rw [this, ← sum_flatMap_map (g := fun l : FLevel K × Cell => (cells (fineBox l.1.r l.2)).filter fun c' => g.ax.idx c' = ind)
    (w := fun c' => composite c' * (1 / (ncellPlane g.ax g.dom : K)))]
  have hperm : ((leaves levels nproc).flatMap fun l : FLevel K × Cell =>
      (cells (fineBox l.1.r l.2)).filter fun c' => g.ax.idx c' = ind).Perm (planeCells g.ax g.dom ind) := by
    rw [← List.filter_flatMap]
    exact (ht.filter _).trans (plane_perm hi.1 hi.2)
  rw [(hperm.map _).sum_eq, List.sum_map_mul_right, ncell_cast ok.dom ind]
  unfold mean
  rw [mul_one_div]

/-- C56. Consequence: the average lies between bounds on the values of the uncovered cells (weights are non-negative and
add up to one); in particular a constant is reproduced. -/
theorem fine_average_bounds {g : FGeom K} {levels : List (FLevel K)} {nproc : ℕ} (ok : g.Ok levels)
    (ht : Tiles g.dom levels nproc) {tol : K} (ht0 : 0 ≤ tol) (ht1 : tol ≤ g.h g.ax) {ncomp n : ℕ} (hn : n < ncomp)
    (val : FLevel K → Cell → ℤ → ℕ → K) {ind : ℤ} (hi : g.dom.HasPlane g.ax ind) {a b : K}
    (hv : ∀ L c, (L, c) ∈ leaves levels nproc → L.r g.ax * g.ax.idx c ≤ ind →
      ind ≤ L.r g.ax * g.ax.idx c + (L.r g.ax - 1) → a ≤ val L c ind n ∧ val L c ind n ≤ b) :
    a ≤ fineAverage g tol ncomp val levels nproc (ncomp * ind + n) ∧
      fineAverage g tol ncomp val levels nproc (ncomp * ind + n) ≤ b := by
  classical
  -- the composite function
  have hnd : ((leaves levels nproc).flatMap fun l => cells (fineBox l.1.r l.2)).Nodup :=
    ht.nodup_iff.mpr (nodup_cells _)
  let composite : Cell → K := fun c' =>
    match (leaves levels nproc).find? fun l => c' ∈ cells (fineBox l.1.r l.2) with
    | some l => val l.1 l.2 (g.ax.idx c') n
    | none => 0
  have huniq : ∀ l ∈ leaves levels nproc, ∀ l' ∈ leaves levels nproc, ∀ c', c' ∈ cells (fineBox l.1.r l.2) →
      c' ∈ cells (fineBox l'.1.r l'.2) → l = l' := by
    rw [List.nodup_flatMap] at hnd
    intro l hl l' hl' c' h1 h2
    by_contra hne
    have := hnd.2
    have hs : Std.Symm (Function.onFun (List.Disjoint (α := Cell)) fun l : FLevel K × Cell => cells (fineBox l.1.r l.2)) :=
      ⟨fun _ _ h => h.symm⟩
    exact (List.Pairwise.forall this hl hl' hne) h1 h2
  have hcomp : ∀ L c, (L, c) ∈ leaves levels nproc → ∀ c', (fineBox L.r c).Has c' →
      composite c' = val L c (g.ax.idx c') n := by
    intro L c hl c' hc'
    have hmem := mem_cells.mpr hc'
    show (match (leaves levels nproc).find? fun l => c' ∈ cells (fineBox l.1.r l.2) with
      | some l => val l.1 l.2 (g.ax.idx c') n | none => 0) = _
    cases hf : (leaves levels nproc).find? fun l => decide (c' ∈ cells (fineBox l.1.r l.2)) with
    | none =>
      rw [List.find?_eq_none] at hf
      exact absurd (by simpa using hmem) (hf _ hl)
    | some l =>
      have h1 := List.find?_some hf
      have h2 := List.mem_of_find?_eq_some hf
      have := huniq l h2 _ hl c' (by simpa using h1) hmem
      subst this
      rfl
  rw [fine_average ok ht ht0 ht1 hn val composite hcomp hi]
  apply mean_mem
  · intro he
    have h1 := length_plane (ax := g.ax) (dom := g.dom) (ind := ind)
      ⟨by have := ok.dom.1; omega, by have := ok.dom.2.1; omega, by have := ok.dom.2.2; omega⟩
    rw [he] at h1
    obtain ⟨a1, a2, a3⟩ := ok.dom
    have p1 : 0 < g.dom.hi.1 - g.dom.lo.1 + 1 := by omega
    have p2 : 0 < g.dom.hi.2.1 - g.dom.lo.2.1 + 1 := by omega
    have p3 : 0 < g.dom.hi.2.2 - g.dom.lo.2.2 + 1 := by omega
    unfold ncellPlane at h1
    have q1 := mul_pos p2 p3
    have q2 := mul_pos p1 p3
    have q3 := mul_pos p1 p2
    simp only [List.length_nil, Nat.cast_zero] at h1
    split at h1 <;> omega
  · intro c' hc'
    obtain ⟨hd', hidx⟩ := (mem_planeCells hi.1 hi.2).mp hc'
    have hm : c' ∈ (leaves levels nproc).flatMap fun l => cells (fineBox l.1.r l.2) :=
      ht.mem_iff.mpr (mem_cells.mpr hd')
    obtain ⟨⟨L, c⟩, hl, hin⟩ := List.mem_flatMap.mp hm
    have hin' : (fineBox L.r c).Has c' := mem_cells.mp hin
    rw [hcomp L c hl c' hin', hidx]
    apply hv L c hl
    · rw [← hidx]
      cases hax : g.ax
      · exact hin'.1.1
      · exact hin'.2.1.1
      · exact hin'.2.2.1
    · rw [← hidx]
      cases hax : g.ax
      · exact hin'.1.2
      · exact hin'.2.1.2
      · exact hin'.2.2.2

/-! ## The interpolation to the line -/

/-- Centre of line interval `ind`. -/
def FGeom.lineCentre (g : FGeom K) (ind : ℤ) : K := g.xlo + (ind + 1 / 2) * g.h g.ax

/-- Position of a neighbouring value along the axis: the centre of the cell, or the boundary of a non-periodic domain where
that is nearer. -/
def FGeom.position (g : FGeom K) (L : FLevel K) (i : ℤ) : K :=
  let x := g.xlo + (i + 1 / 2) * (L.r g.ax * g.h g.ax)
  if g.periodic then x else max g.xlo (min (g.xlo + g.h g.ax * ncellLine g.ax g.dom) x)

/-- C56. A field that is linear along the axis at the cell and its two neighbours (boundary values sit on the boundary) is
reproduced at the centre of every line interval of the cell. -/
theorem interp_linear {g : FGeom K} {L : FLevel K} (hh : 0 < g.h g.ax) (hr : 0 < L.r g.ax) {c : Cell} {n : ℕ}
    (hi : 0 ≤ g.ax.idx c) (hn : L.r g.ax * g.ax.idx c + L.r g.ax ≤ ncellLine g.ax g.dom) {a b : K}
    (h0 : L.f c n = a + b * g.position L (g.ax.idx c))
    (hu : L.f (g.ax.shift c 1) n = a + b * g.position L (g.ax.idx c + 1))
    (hd : L.f (g.ax.shift c (-1)) n = a + b * g.position L (g.ax.idx c - 1)) (ind : ℤ) :
    interpVal g L c ind n = a + b * g.lineCentre ind := by
  have hiK : (0 : K) ≤ (g.ax.idx c : K) := by exact_mod_cast hi
  have hdx : 0 < (L.r g.ax : K) * g.h g.ax := by
    have : (0 : K) < L.r g.ax := by exact_mod_cast hr
    positivity
  have hnK : (L.r g.ax : K) * g.ax.idx c + L.r g.ax ≤ ncellLine g.ax g.dom := by exact_mod_cast hn
  have hhiK : g.xlo + (g.ax.idx c + 1) * (L.r g.ax * g.h g.ax) ≤ g.xlo + g.h g.ax * ncellLine g.ax g.dom := by
    have := mul_le_mul_of_nonneg_left hnK hh.le
    linarith
  have key : ∀ x xn t : K, xn ≠ x → a + b * x + (a + b * xn - (a + b * x)) * ((t - x) / (xn - x)) = a + b * t := by
    intro x xn t hne
    have := sub_ne_zero.mpr hne
    field_simp
    ring
  have hpos : ∀ x : K, g.xlo ≤ x → x ≤ g.xlo + g.h g.ax * ncellLine g.ax g.dom →
      max g.xlo (min (g.xlo + g.h g.ax * ncellLine g.ax g.dom) x) = x := by
    intro x h1 h2
    rw [min_eq_right h2, max_eq_right h1]
  unfold interpVal FGeom.lineCentre
  unfold FGeom.position at h0 hu hd
  simp only at h0 hu hd ⊢
  push_cast at hu hd
  have e1 : g.xlo + ((g.ax.idx c : K) + 1 + 1 / 2) * (L.r g.ax * g.h g.ax) =
      g.xlo + ((g.ax.idx c : K) + 1 / 2) * (L.r g.ax * g.h g.ax) + L.r g.ax * g.h g.ax := by ring
  have e2 : g.xlo + ((g.ax.idx c : K) - 1 + 1 / 2) * (L.r g.ax * g.h g.ax) =
      g.xlo + ((g.ax.idx c : K) + 1 / 2) * (L.r g.ax * g.h g.ax) - L.r g.ax * g.h g.ax := by ring
  have e3 : 1 / 2 * (g.xlo + (ind : K) * g.h g.ax + (g.xlo + ind * g.h g.ax + g.h g.ax)) =
      g.xlo + (ind + 1 / 2) * g.h g.ax := by ring
  rw [e1] at hu
  rw [e2] at hd
  rw [e3]
  have hx1 : g.xlo < g.xlo + ((g.ax.idx c : K) + 1 / 2) * (L.r g.ax * g.h g.ax) := by
    have : 0 < ((g.ax.idx c : K) + 1 / 2) * (L.r g.ax * g.h g.ax) := mul_pos (by linarith) hdx
    linarith
  have hx2 : g.xlo + ((g.ax.idx c : K) + 1 / 2) * (L.r g.ax * g.h g.ax) <
      g.xlo + g.h g.ax * ncellLine g.ax g.dom := by
    have : ((g.ax.idx c : K) + 1 / 2) * (L.r g.ax * g.h g.ax) < (g.ax.idx c + 1) * (L.r g.ax * g.h g.ax) :=
      mul_lt_mul_of_pos_right (by linarith) hdx
    linarith
  generalize g.xlo + ((g.ax.idx c : K) + 1 / 2) * (L.r g.ax * g.h g.ax) = x at *
  generalize g.xlo + g.h g.ax * (ncellLine g.ax g.dom : K) = xhi at *
  generalize (L.r g.ax : K) * g.h g.ax = dx at *
  generalize g.xlo + ((ind : K) + 1 / 2) * g.h g.ax = t at *
  cases hp : g.periodic
  · simp only [hp, Bool.false_eq_true, if_false] at h0 hu hd ⊢
    rw [min_eq_right hx2.le, max_eq_right hx1.le] at h0
    rw [max_eq_right (le_min (by linarith) (by linarith))] at hu
    rw [min_eq_right (by linarith)] at hd
    split
    · simp only
      rw [h0, hu]
      exact key _ _ _ (lt_min hx2 (by linarith)).ne'
    · simp only
      rw [h0, hd]
      exact key _ _ _ (max_lt hx1 (by linarith)).ne
  · simp only [hp, if_true] at h0 hu hd ⊢
    split
    · simp only
      rw [h0, hu]
      exact key _ _ _ (by linarith : x < x + dx).ne'
    · simp only
      rw [h0, hd]
      exact key _ _ _ (by linarith : x - dx < x).ne

/-- C56, the part of the bound that holds: in a periodic direction the value used for a line interval inside the cell lies
between the cell value and one neighbour value. Missing: a cell at a boundary of a non-periodic direction, see
`interp_overshoot`. -/
theorem interp_bounds_partial {g : FGeom K} {L : FLevel K} (hh : 0 < g.h g.ax) (hr : 0 < L.r g.ax) {c : Cell} {n : ℕ}
    (hper : g.periodic = true) {ind : ℤ} (hl : L.r g.ax * g.ax.idx c ≤ ind)
    (hu : ind ≤ L.r g.ax * g.ax.idx c + (L.r g.ax - 1)) {a b : K} (h0 : a ≤ L.f c n ∧ L.f c n ≤ b)
    (h1 : a ≤ L.f (g.ax.shift c 1) n ∧ L.f (g.ax.shift c 1) n ≤ b)
    (h2 : a ≤ L.f (g.ax.shift c (-1)) n ∧ L.f (g.ax.shift c (-1)) n ≤ b) :
    a ≤ interpVal g L c ind n ∧ interpVal g L c ind n ≤ b := by
  have hdx : 0 < (L.r g.ax : K) * g.h g.ax := by
    have : (0 : K) < L.r g.ax := by exact_mod_cast hr
    positivity
  have l1 : (L.r g.ax : K) * g.ax.idx c ≤ ind := by exact_mod_cast hl
  have l2 : (ind : K) ≤ L.r g.ax * g.ax.idx c + (L.r g.ax - 1) := by exact_mod_cast hu
  have key : ∀ f fn s : K, (a ≤ f ∧ f ≤ b) → (a ≤ fn ∧ fn ≤ b) → 0 ≤ s → s ≤ 1 →
      a ≤ f + (fn - f) * s ∧ f + (fn - f) * s ≤ b := by
    intro f fn s p q s0 s1
    have e : f + (fn - f) * s = (1 - s) * f + s * fn := by ring
    rw [e]
    constructor
    · nlinarith [mul_nonneg (sub_nonneg.mpr s1) (sub_nonneg.mpr p.1), mul_nonneg s0 (sub_nonneg.mpr q.1)]
    · nlinarith [mul_nonneg (sub_nonneg.mpr s1) (sub_nonneg.mpr p.2), mul_nonneg s0 (sub_nonneg.mpr q.2)]
  unfold interpVal
  simp only [hper, if_true]
  have e3 : 1 / 2 * (g.xlo + (ind : K) * g.h g.ax + (g.xlo + ind * g.h g.ax + g.h g.ax)) =
      g.xlo + (ind + 1 / 2) * g.h g.ax := by ring
  rw [e3]
  have m1 := mul_le_mul_of_nonneg_right l1 hh.le
  have m2 := mul_le_mul_of_nonneg_right l2 hh.le
  have t1 : -(1 / 2 * (L.r g.ax * g.h g.ax)) ≤ g.xlo + (ind + 1 / 2) * g.h g.ax -
      (g.xlo + ((g.ax.idx c : K) + 1 / 2) * (L.r g.ax * g.h g.ax)) := by nlinarith
  have t2 : g.xlo + (ind + 1 / 2) * g.h g.ax -
      (g.xlo + ((g.ax.idx c : K) + 1 / 2) * (L.r g.ax * g.h g.ax)) ≤ 1 / 2 * (L.r g.ax * g.h g.ax) := by nlinarith
  generalize g.xlo + ((g.ax.idx c : K) + 1 / 2) * (L.r g.ax * g.h g.ax) = x at *
  generalize (L.r g.ax : K) * g.h g.ax = dx at *
  generalize g.xlo + ((ind : K) + 1 / 2) * g.h g.ax = t at *
  have q1 : |x + dx - t| = x + dx - t := abs_of_nonneg (by linarith)
  have q2 : |x - dx - t| = -(x - dx - t) := abs_of_nonpos (by linarith)
  rw [q1, q2]
  split
  · rename_i hlt
    simp only
    apply key _ _ _ h0 h1
    · apply div_nonneg <;> linarith
    · rw [div_le_one (by linarith)]; linarith
  · rename_i hlt
    simp only
    apply key _ _ _ h0 h2
    · apply div_nonneg_of_nonpos <;> linarith
    · rw [div_le_one_of_neg (by linarith)]; linarith

/-- The bound is false of the code at a wall: a coarse cell of two line intervals on the lower boundary holds 1, the wall
value is 0 and the cell above holds 1. For the upper interval the wall, half a cell away, counts as the nearer neighbour,
and the value is extrapolated to 3/2. -/
theorem interp_overshoot :
    interpVal (K := ℚ) ⟨.z, ⟨(0, 0, 0), (3, 3, 3)⟩, fun _ => 1, 0, false⟩
      ⟨fun _ => 2, fun _ => [⟨(0, 0, 0), (1, 1, 1)⟩], fun _ => true, fun c _ => if c.2.2 < 0 then 0 else 1⟩ (0, 0, 0) 1 0 =
      3 / 2 := by decide +kernel

end

/-! ## The horizontal speed -/

/-- C56. The average of the horizontal speed (`n = 0`) over a refined mesh is its mean over the fine cells of the plane;
the code uses no tolerance here. -/
theorem fine_speed_average {g : FGeom ℝ} {levels : List (FLevel ℝ)} {nproc : ℕ} (ok : g.Ok levels) (hz : g.ax = .z)
    (ht : Tiles g.dom levels nproc) (speed : Cell → ℝ)
    (hs : ∀ L c, (L, c) ∈ leaves levels nproc → ∀ c', (fineBox L.r c).Has c' →
      speed c' = √(L.f c 0 ^ 2 + L.f c 1 ^ 2))
    {ind : ℤ} (hi : g.dom.HasPlane g.ax ind) :
    fineAverage g 0 3 (speedVal g) levels nproc (3 * ind) = mean (planeCells g.ax g.dom ind) speed := by
  have := fine_average ok ht le_rfl (ok.h _).le (ncomp := 3) (n := 0) (by norm_num) (speedVal g) speed (fun L c hl c' hc' => by
    rw [hs L c hl c' hc']
    simp [speedVal, hz, Axis.odir, pow_two]) hi
  simpa using this

/-- C56. So are the averages of the products of the speed with the two horizontal components. -/
theorem fine_speed_products {g : FGeom ℝ} {levels : List (FLevel ℝ)} {nproc : ℕ} (ok : g.Ok levels) (hz : g.ax = .z)
    (ht : Tiles g.dom levels nproc) (n : ℕ) (hn : n < 2) (prod : Cell → ℝ)
    (hs : ∀ L c, (L, c) ∈ leaves levels nproc → ∀ c', (fineBox L.r c).Has c' →
      prod c' = √(L.f c 0 ^ 2 + L.f c 1 ^ 2) * L.f c n)
    {ind : ℤ} (hi : g.dom.HasPlane g.ax ind) :
    fineAverage g 0 3 (speedVal g) levels nproc (3 * ind + (n + 1)) = mean (planeCells g.ax g.dom ind) prod := by
  have := fine_average ok ht le_rfl (ok.h _).le (ncomp := 3) (n := n + 1) (by omega) (speedVal g) prod (fun L c hl c' hc' => by
    rw [hs L c hl c' hc']
    have : n = 0 ∨ n = 1 := by omega
    rcases this with rfl | rfl <;> simp [speedVal, hz, Axis.odir, pow_two]) hi
  simpa using this

/-! ## Examples -/

/-- A coarse level of 2 × 2 × 2 cells whose cell (0, 0, 0) is refined by two: the fine level has one box on another rank. -/
def exLevels : List (FLevel ℚ) :=
  [⟨fun _ => 2, fun p => if p = 0 then [⟨(0, 0, 0), (1, 1, 1)⟩] else [], fun c => c ≠ (0, 0, 0),
      fun c _ => c.2.2⟩,
    ⟨fun _ => 1, fun p => if p = 1 then [⟨(0, 0, 0), (1, 1, 1)⟩] else [], fun _ => true, fun c _ => c.1 + 10⟩]

def exGeom : FGeom ℚ := ⟨.z, ⟨(0, 0, 0), (3, 3, 3)⟩, fun _ => 1, 0, true⟩

example : Tiles exGeom.dom exLevels 2 := by unfold Tiles; decide

example : exGeom.Ok exLevels where
  h := by intro d; show (0 : ℚ) < 1; norm_num
  dom := by unfold Bx.Ok; decide
  lo := rfl
  r := by
    intro L hL d
    simp only [exLevels, List.mem_cons, List.not_mem_nil, or_false] at hL
    rcases hL with rfl | rfl <;> simp

example : fineAverage exGeom (1 / 1000) 1 (fun L c _ n => L.f c n) exLevels 2 0 = 21 / 8 := by decide +kernel

end AmrWind.Plane
