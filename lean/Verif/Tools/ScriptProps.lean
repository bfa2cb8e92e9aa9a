import Verif.Tools.ScriptModel
import Verif.Abl.PlaneProps
import Mathlib.Tactic.Ring
import Mathlib.Tactic.LinearCombination
import Mathlib.Tactic.Linarith
import Mathlib.Tactic.FieldSimp
import Mathlib.Tactic.NormNum
import Mathlib.Tactic.FinCases

/-!
# Planes made and refined by scripts are where a run reads them
-/

set_option linter.unusedSectionVars false

namespace AmrWind.Bscript

open AmrWind.Bplane

variable {K : Type*} [Field K] [LinearOrder K] [IsStrictOrderedRing K]

/-! ## Specification -/

/-- Cells of level `l` in a direction with `n` cells on level 0. -/
def cells (n : ℤ) (ref : List ℕ) (l : ℕ) : ℤ := n * ((ref.take l).prod : ℕ)

/-- The box of level `l` of a mesh whose levels cover the domain. -/
def meshBox (n : Fin 3 → ℤ) (ref : List ℕ) (l : ℕ) : Box := ⟨fun _ => 0, fun d => cells (n d) ref l - 1⟩

/-- The size of cells of level `l`. -/
def size (p : Inp K) (l : ℕ) (d : Fin 3) : K := (p.phi d - p.plo d) / (cells (p.ncell d) p.ref l : K)

/-- The centre of a cell of level `l`, also outside of the domain. -/
def centre (p : Inp K) (l : ℕ) (c : Cell) (d : Fin 3) : K := p.plo d + ((c d : K) + 1 / 2) * size p l d

/-- The coordinate of a face of the domain. -/
def faceAt (p : Inp K) (f : Face) : K := if f.high then p.phi f.dir else p.plo f.dir

/-- Inputs of a mesh. -/
structure Valid (p : Inp K) : Prop where
  cell : ∀ d, 0 < p.ncell d
  span : ∀ d, p.plo d < p.phi d
  ratio : ∀ r ∈ p.ref, 2 ≤ r

/-! ## Boxes -/

theorem prod_pos' : ∀ {ref : List ℕ}, (∀ r ∈ ref, 2 ≤ r) → 0 < ref.prod
  | [], _ => by simp
  | a :: t, h => by
    have := prod_pos' fun r hr => h r (List.mem_cons_of_mem a hr)
    have := h a (List.mem_cons_self ..)
    rw [List.prod_cons]
    positivity

theorem take_succ_prod {ref : List ℕ} {l r : ℕ} (h : ref[l]? = some r) : (ref.take (l + 1)).prod = (ref.take l).prod * r := by
  rw [List.take_add_one, h]; simp

theorem cells_succ {n : ℤ} {ref : List ℕ} {l r : ℕ} (h : ref[l]? = some r) : cells n ref (l + 1) = cells n ref l * r := by
  unfold cells; rw [take_succ_prod h]; push_cast; ring

theorem cells_pos {n : ℤ} {ref : List ℕ} (hn : 0 < n) (hr : ∀ r ∈ ref, 2 ≤ r) (l : ℕ) : 0 < cells n ref l := by
  unfold cells
  have : 0 < (ref.take l).prod := prod_pos' fun r h => hr r (List.mem_of_mem_take h)
  positivity

/-- C146. A box is made for just the levels that have a ratio. -/
theorem boxes_defined_iff (n : Fin 3 → ℤ) (f : Face) (ref : List ℕ) (l : ℕ) : (boxes n f ref l).isSome ↔ l ≤ ref.length := by
  induction l with
  | zero => simp [boxes]
  | succ l ih =>
    unfold boxes
    cases hb : boxes n f ref l with
    | none => rw [hb] at ih; simp at ih ⊢; omega
    | some b =>
      rw [hb] at ih
      cases hr : ref[l]? with
      | none => rw [List.getElem?_eq_none_iff] at hr; simp; omega
      | some r => have := (List.getElem?_eq_some_iff.mp hr).1; simp; omega

/-- C146. **Planes at low faces**: the boxes made are, on every level, the two layers of cells at the face. -/
theorem boxes_low (n : Fin 3 → ℤ) {f : Face} (ref : List ℕ) {l : ℕ} (hf : f.high = false) (hl : l ≤ ref.length) :
    boxes n f ref l = some (slab (meshBox n ref l) f) := by
  induction l with
  | zero =>
    unfold boxes firstBox slab meshBox cells
    simp [hf]
  | succ l ih =>
    unfold boxes
    rw [ih (by omega)]
    have hr : ref[l]? = some ref[l] := List.getElem?_eq_getElem (by omega)
    rw [hr]
    simp only [Option.bind_some, Option.map_some, Option.some.injEq]
    apply box_ext <;> intro d <;> by_cases hd : d = f.dir
    · subst hd; simp [nextBox, slab, meshBox, hf]
    · simp [nextBox, slab, meshBox, hf, hd]
    · subst hd; simp [nextBox, slab, meshBox, hf]
    · simp [nextBox, slab, meshBox, hf, hd, cells_succ hr]

theorem boxes_high_form (n : Fin 3 → ℤ) {f : Face} (ref : List ℕ) {l : ℕ} (hf : f.high = true) (hr : ∀ r ∈ ref, 2 ≤ r) (hl : l ≤ ref.length) :
    ∃ e : ℤ, 0 ≤ e ∧ (e = 0 ↔ ∀ r ∈ ref.take l, r = 2) ∧ boxes n f ref l = some
      ⟨Function.update (fun _ => 0) f.dir (cells (n f.dir) ref l - 1 - e),
       Function.update (fun d => cells (n d) ref l - 1) f.dir (cells (n f.dir) ref l - e)⟩ := by
  induction l with
  | zero =>
    refine ⟨0, le_refl 0, by simp, ?_⟩
    unfold boxes firstBox cells
    simp [hf]
  | succ l ih =>
    obtain ⟨e, he, hz, hb⟩ := ih (by omega)
    have hl' : l < ref.length := by omega
    have hg : ref[l]? = some ref[l] := List.getElem?_eq_getElem hl'
    have h2 : 2 ≤ ref[l] := hr _ (List.getElem_mem hl')
    have h2' : (2 : ℤ) ≤ (ref[l] : ℤ) := by exact_mod_cast h2
    refine ⟨e * ref[l] + (ref[l] - 2), by nlinarith, ?_, ?_⟩
    · rw [List.take_add_one, hg]
      simp only [List.mem_append, Option.toList_some, List.mem_singleton]
      constructor
      · intro h
        have h0 : e = 0 := by nlinarith
        have h1 : ref[l] = 2 := by subst h0; omega
        rintro r (hr' | rfl)
        · exact hz.mp h0 r hr'
        · exact h1
      · intro h
        have h0 : e = 0 := hz.mpr fun r hr' => h r (Or.inl hr')
        have h1 := h _ (Or.inr rfl)
        rw [h0, h1]; norm_num
    · unfold boxes
      rw [hb, hg]
      simp only [Option.bind_some, Option.map_some, Option.some.injEq]
      apply box_ext <;> intro d <;> by_cases hd : d = f.dir
      · subst hd; simp [nextBox, hf, cells_succ hg]; ring
      · simp [nextBox, hf, hd]
      · subst hd; simp [nextBox, hf, cells_succ hg]; ring
      · simp [nextBox, hf, hd, cells_succ hg]

/-- C146. **Planes at high faces**: the boxes made are the two layers of cells at the face just on the levels below which every ratio is
two. -/
theorem boxes_high_iff (n : Fin 3 → ℤ) {f : Face} (ref : List ℕ) {l : ℕ} (hf : f.high = true) (hr : ∀ r ∈ ref, 2 ≤ r) (hl : l ≤ ref.length) :
    boxes n f ref l = some (slab (meshBox n ref l) f) ↔ ∀ r ∈ ref.take l, r = 2 := by
  obtain ⟨e, he, hz, hb⟩ := boxes_high_form n ref hf hr hl
  rw [← hz, hb]
  constructor
  · intro h
    have := congrArg (fun b : Option Box => b.map fun b => b.lo f.dir) h
    simp [slab, hf, meshBox] at this
    exact this
  · rintro rfl
    congr 1
    apply box_ext <;> intro d <;> by_cases hd : d = f.dir
    · subst hd; simp [slab, hf, meshBox]
    · simp [slab, hf, meshBox, hd]
    · subst hd; simp [slab, hf, meshBox]
    · simp [slab, hf, meshBox, hd]

/-- C146. **A plane at a high face beyond a ratio of more than two is not read**: the run finds no cell of its plane in the box made. -/
theorem high_ratio_unread {p : Inp K} (f : Face) {l : ℕ} {b : Box} (hp : Valid p) (hf : f.high = true)
    (hb : boxes p.ncell f p.ref l = some b) (hx : ∃ r ∈ p.ref.take l, r ≠ 2) (c : Cell) (hc : (plane (meshBox p.ncell p.ref l) f).has c = true) :
    b.has c = false := by
  have hl : l ≤ p.ref.length := (boxes_defined_iff p.ncell f p.ref l).mp (by rw [hb]; rfl)
  obtain ⟨e, he, hz, hb'⟩ := boxes_high_form p.ncell p.ref hf hp.ratio hl
  rw [hb] at hb'
  simp only [Option.some.injEq] at hb'
  have he' : e ≠ 0 := by
    intro h; obtain ⟨r, hr, h2⟩ := hx; exact h2 (hz.mp h r hr)
  have h1 := has_iff.mp hc f.dir
  simp only [plane, hf, if_true, Function.update_self, meshBox] at h1
  by_contra hh
  have h2 := has_iff.mp (by simpa using hh : b.has c = true) f.dir
  rw [hb'] at h2
  simp only [Function.update_self] at h2
  omega

/-! ## Sizes -/

/-- C146. **Sizes of cells**: those of level `l` are right just if the last ratio to the power `l` is the product of all of them. -/
theorem sizes_iff {p : Inp K} (hp : Valid p) {l r : ℕ} (hr : p.ref[l]? = some r) (d : Fin 3) :
    cellSizes p (l + 1) d = some (size p (l + 1) d) ↔ r ^ (l + 1) = (p.ref.take (l + 1)).prod := by
  have hs := sub_pos.mpr (hp.span d)
  have hn : (0 : K) < (p.ncell d : K) := by exact_mod_cast hp.cell d
  have hr2 : 2 ≤ r := hp.ratio r (List.mem_of_getElem? hr)
  have hr0 : (0 : K) < (r : K) := by exact_mod_cast (by omega : 0 < r)
  have hP : (0 : K) < (((p.ref.take (l + 1)).prod : ℕ) : K) := by
    exact_mod_cast prod_pos' fun r h => hp.ratio r (List.mem_of_mem_take h)
  unfold cellSizes size cells
  simp only [Nat.add_sub_cancel, hr, Option.map_some, Nat.succ_pos, if_true, Option.some.injEq]
  push_cast
  rw [div_div, div_eq_div_iff (by positivity) (by positivity), mul_right_inj' hs.ne', mul_right_inj' hn.ne', eq_comm]
  constructor
  · intro h; exact_mod_cast h
  · intro h; exact_mod_cast h

/-- C146. Sizes are right when all ratios are the same. -/
theorem sizes_same_ratios {p : Inp K} (hp : Valid p) {r l : ℕ} (hr : ∀ x ∈ p.ref, x = r) (hl : l ≤ p.ref.length) (d : Fin 3) :
    cellSizes p l d = some (size p l d) := by
  cases l with
  | zero => simp [cellSizes, size, cells]
  | succ l =>
    have hg : p.ref[l]? = some p.ref[l] := List.getElem?_eq_getElem (by omega)
    rw [sizes_iff hp hg, hr _ (List.getElem_mem _)]
    have : p.ref.take (l + 1) = List.replicate (l + 1) r := by
      rw [List.eq_replicate_iff]
      exact ⟨by simp; omega, fun x hx => hr x (List.mem_of_mem_take hx)⟩
    rw [this, List.prod_replicate]

/-- C146. **With ratios two and then four the cells of level 2 are taken for half their size.** -/
theorem sizes_mixed (p : Inp K) (hr : p.ref = [2, 4]) (d : Fin 3) : cellSizes p 2 d = some (size p 2 d / 2) := by
  unfold cellSizes size cells
  simp only [hr]
  norm_num
  rw [div_div, div_div, mul_assoc]
  norm_num

/-- The sizes in the file are the sizes found from the inputs. -/
theorem file_sizes {p : Inp K} (hp : Valid p) (f : Face) (l : ℕ) (d : Fin 3) : fileSizes p f l d = cellSizes p l d := by
  have hn : (p.ncell f.dir : K) ≠ 0 := by exact_mod_cast (hp.cell f.dir).ne'
  unfold fileSizes cellSizes adjust firstBox
  by_cases hd : d = f.dir
  · subst hd
    cases f.high <;> simp
  · simp [hd]

/-! ## Places -/

theorem coord_uniform {lo hi dx : K} {n i : ℤ} (h : hi - lo = n * dx) (hi0 : 0 ≤ i) (hi1 : i < n) :
    coord (lo, hi) dx n i = lo + ((i : K) + 1 / 2) * dx := by
  unfold coord linspace
  by_cases h1 : n = 1
  · have : i = 0 := by omega
    subst this; simp [h1]
  · have hn1 : ((n - 1 : ℤ) : K) ≠ 0 := by exact_mod_cast (by omega : n - 1 ≠ 0)
    rw [if_neg h1]
    have : (hi - 1 / 2 * dx - (lo + 1 / 2 * dx)) = ((n - 1 : ℤ) : K) * dx := by push_cast; linarith
    simp only [this]
    rw [mul_div_cancel_left₀ _ hn1]
    ring

theorem size_mul {p : Inp K} (hp : Valid p) (l : ℕ) (d : Fin 3) : (cells (p.ncell d) p.ref l : K) * size p l d = p.phi d - p.plo d := by
  have : (cells (p.ncell d) p.ref l : K) ≠ 0 := by exact_mod_cast (cells_pos (hp.cell d) hp.ratio l).ne'
  unfold size; field_simp

theorem adjust_mid (p : Inp K) (f : Face) : ((adjust p f).plo f.dir + (adjust p f).phi f.dir) / 2 = faceAt p f := by
  unfold adjust faceAt
  cases f.high <;> simp

/-- C146. **Values are taken at the centres of the cells** on every level on which the box and the sizes are right. -/
theorem place_partial {p : Inp K} (hp : Valid p) {f : Face} {l : ℕ} (hb : boxes p.ncell f p.ref l = some (slab (meshBox p.ncell p.ref l) f))
    (hs : ∀ d, cellSizes p l d = some (size p l d)) {c : Cell} (hc : (slab (meshBox p.ncell p.ref l) f).has c = true) (d : Fin 3) :
    place p f l c d = some (centre p l c d) := by
  have h := has_iff.mp hc d
  have hm := size_mul hp l d
  have hpos := cells_pos (hp.cell d) hp.ratio l
  unfold place
  rw [hb, file_sizes hp, hs]
  unfold gridBounds
  by_cases hd : d = f.dir
  · subst hd
    rw [hs]
    simp only [if_true, Option.bind_some, Option.map_some, Option.some.injEq, adjust_mid]
    rw [coord_uniform]
    · unfold centre faceAt
      cases hf : f.high
      · simp [slab, hf, meshBox]; ring
      · simp [slab, hf, meshBox]; linear_combination (-1 : K) * hm
    · cases hf : f.high <;> simp [slab, hf, meshBox] <;> ring
    · omega
    · omega
  · simp only [hd, if_false, Option.bind_some, Option.map_some, Option.some.injEq]
    have hlo : (slab (meshBox p.ncell p.ref l) f).lo d = 0 := by cases hf : f.high <;> simp [slab, hf, meshBox, hd]
    have hhi : (slab (meshBox p.ncell p.ref l) f).hi d = cells (p.ncell d) p.ref l - 1 := by
      cases hf : f.high <;> simp [slab, hf, meshBox, hd]
    rw [hlo, hhi] at h ⊢
    have ha : (adjust p f).plo d = p.plo d ∧ (adjust p f).phi d = p.phi d := by unfold adjust; simp [hd]
    rw [ha.1, ha.2, coord_uniform (by push_cast; linarith) (by omega) (by omega)]
    unfold centre; simp

/-- C146. **What the run reads from a plane made by the script**: in each cell of its plane the mean of the function at the centres of
the cells on both sides of the face, for low faces and for ratios two, if the ratios are all the same. -/
theorem generated_read_partial {p : Inp K} (hp : Valid p) {f : Face} {r l : ℕ} (hr : ∀ x ∈ p.ref, x = r) (hf : f.high = true → r = 2)
    (hl : l ≤ p.ref.length) (u : K → K → K → K) {file : Cell → K}
    (hfile : ∀ c, (slab (meshBox p.ncell p.ref l) f).has c = true → evaluate p f l u c = some (file c)) {c : Cell}
    (hc : (plane (meshBox p.ncell p.ref l) f).has c = true) :
    let m := centre p l
    replayCell (meshBox p.ncell p.ref l) (meshBox p.ncell p.ref l) file f c =
      some ((u (m c 0) (m c 1) (m c 2) + u (m (inner f c) 0) (m (inner f c) 1) (m (inner f c) 2)) / 2) := by
  intro m
  have hb : boxes p.ncell f p.ref l = some (slab (meshBox p.ncell p.ref l) f) := by
    cases h : f.high
    · exact boxes_low _ _ h hl
    · exact (boxes_high_iff _ _ h hp.ratio hl).mpr fun x hx => by rw [hr x (List.mem_of_mem_take hx), hf h]
  have hs := sizes_same_ratios hp hr hl
  have key : ∀ e, (slab (meshBox p.ncell p.ref l) f).has e = true → file e = u (m e 0) (m e 1) (m e 2) := by
    intro e he
    have := hfile e he
    unfold evaluate at this
    simp only [place_partial hp hb hs he, Option.bind_some, Option.map_some, Option.some.injEq] at this
    exact this.symm
  have hc' := has_iff.mp hc
  have in1 : (slab (meshBox p.ncell p.ref l) f).has c = true := by
    refine has_iff.mpr fun d => ?_
    have := hc' d
    by_cases hd : d = f.dir
    · subst hd; cases h : f.high <;> simp [plane, slab, meshBox, h] at this ⊢ <;> omega
    · cases h : f.high <;> simp [plane, slab, meshBox, h, hd] at this ⊢ <;> omega
  have in2 : (slab (meshBox p.ncell p.ref l) f).has (inner f c) = true := by
    refine has_iff.mpr fun d => ?_
    have := hc' d
    by_cases hd : d = f.dir
    · subst hd; cases h : f.high <;> simp [plane, slab, meshBox, h, inner] at this ⊢ <;> omega
    · cases h : f.high <;> simp [plane, slab, meshBox, h, hd, inner] at this ⊢ <;> omega
  have hrep := (replay_spec (w := meshBox p.ncell p.ref l) (r := meshBox p.ncell p.ref l) file (f := f) (c := c)
    (by cases f.high <;> simp [meshBox]) hc).1 (fun d hd => by
      have := hc' d
      cases h : f.high <;> simp [plane, meshBox, h, hd] at this ⊢ <;> omega)
  rw [hrep, key c in1, key _ in2]

/-! ## Cases -/

/-- A mesh with two ratios of two. -/
def ex2 : Inp ℚ := ⟨fun _ => 0, fun _ => 8, fun _ => 4, [2, 2]⟩

theorem ex2_valid : Valid ex2 := ⟨by simp [ex2], by simp [ex2], by simp [ex2]⟩

/-- A mesh with ratios two and four. -/
def ex4 : Inp ℚ := ⟨fun _ => 0, fun _ => 8, fun _ => 4, [2, 4]⟩

theorem ex4_valid : Valid ex4 := ⟨by simp [ex4], by simp [ex4], by simp [ex4]⟩

/-- The hypotheses of `generated_read_partial` at a high face of level 2: the plane of the run has the cell `(16, 3, 5)`. -/
example : (∀ x ∈ ex2.ref, x = 2) ∧ 2 ≤ ex2.ref.length ∧ (plane (meshBox ex2.ncell ex2.ref 2) ⟨0, true⟩).has ![16, 3, 5] = true ∧
    evaluate ex2 ⟨0, true⟩ 2 (fun x y z => x + y + z) ![16, 3, 5] = some (51 / 4) := by
  refine ⟨by decide +kernel, by decide +kernel, by decide +kernel, ?_⟩
  norm_num [evaluate, place, boxes, firstBox, nextBox, gridBounds, fileSizes, cellSizes, adjust, ex2, coord, linspace,
    Function.update_apply, (by decide : (2 : Fin 3) ≠ 0), (by decide : (1 : Fin 3) ≠ 0)]
  change (10 : ℚ) + (1 / 4 + ((5 : ℤ) : ℚ) * (1 / 2)) = 51 / 4
  norm_num

/-- `high_ratio_unread`: level 2 beyond a ratio of four. -/
example : (boxes ex4.ncell ⟨0, true⟩ ex4.ref 2).map (fun b => (b.lo 0, b.hi 0)) = some (29, 30) ∧ cells (ex4.ncell 0) ex4.ref 2 = 32 ∧
    (plane (meshBox ex4.ncell ex4.ref 2) ⟨0, true⟩).has ![32, 0, 0] = true := by
  decide +kernel

/-- C146. **With ratios two and four the values of level 2 are not taken at the centres**: that of the first cell is taken too near to
the side. -/
theorem place_mixed : place ex4 ⟨0, false⟩ 2 ![0, 0, 0] 1 = some (1 / 16) ∧ centre ex4 2 ![0, 0, 0] 1 = 1 / 8 := by
  constructor
  · norm_num [place, boxes, firstBox, nextBox, gridBounds, fileSizes, cellSizes, adjust, ex4, coord, linspace,
      Function.update_apply, (by decide : (1 : Fin 3) ≠ 0)]
  · norm_num [centre, size, cells, ex4]

/-- `refOf`, `boxes_defined_iff`: with no ratios given there is one for every level. -/
theorem default_ratios (nlevels : ℕ) (l : ℕ) (hl : l < nlevels) : l ≤ (refOf [] nlevels).length ∧ ∀ r ∈ refOf [] nlevels, r = 2 := by
  unfold refOf
  simp
  omega

end AmrWind.Bscript
