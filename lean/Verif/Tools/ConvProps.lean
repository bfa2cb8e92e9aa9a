import Verif.Tools.ConvModel
import Mathlib.Algebra.Order.BigOperators.Group.List
import Mathlib.Tactic.Ring
import Mathlib.Tactic.Linarith
import Mathlib.Tactic.NormNum
import Mathlib.Tactic.Positivity
import Mathlib.Tactic.FinCases
import Mathlib.Tactic.IntervalCases

/-!
# Comparison of particle files, conversion of HDF5 plotfiles
-/

set_option linter.unusedSectionVars false

namespace AmrWind.Cscript

/-! ## Comparison of particles -/

variable {w : ℕ}

/-- No value of a file is not a number. -/
def Numbers (f : List (Prt w)) : Prop := ∀ p ∈ f, ∀ j, (p.col j).isSome

/-- One difference squared, zero when one of both is not a number. -/
noncomputable def term (p q : Prt w) (j : Option (Fin w)) : ℝ := match p.at j, q.at j with
  | some x, some y => (x - y) ^ 2
  | _, _ => 0

theorem term_nonneg (p q : Prt w) (j : Option (Fin w)) : 0 ≤ term p q j := by
  unfold term; split
  · positivity
  · exact le_refl 0

theorem sqDiff_eq (a b : List (Prt w)) (j : Option (Fin w)) : sqDiff a b j = ((a.zip b).map fun q => term q.1 q.2 j).sum := rfl

theorem sqDiff_nonneg (a b : List (Prt w)) (j : Option (Fin w)) : 0 ≤ sqDiff a b j := by
  rw [sqDiff_eq]
  refine List.sum_nonneg fun x hx => ?_
  obtain ⟨q, -, rfl⟩ := List.mem_map.mp hx
  exact term_nonneg _ _ _

theorem term_le {a b : List (Prt w)} {p q : Prt w} (h : (p, q) ∈ a.zip b) (j : Option (Fin w)) : term p q j ≤ sqDiff a b j := by
  rw [sqDiff_eq]
  refine List.single_le_sum (fun x hx => ?_) _ (List.mem_map.mpr ⟨(p, q), h, rfl⟩)
  obtain ⟨q, -, rfl⟩ := List.mem_map.mp hx
  exact term_nonneg _ _ _

theorem sqDiff_zero {a b : List (Prt w)} {j : Option (Fin w)} (h : ∀ q ∈ a.zip b, term q.1 q.2 j = 0) : sqDiff a b j = 0 := by
  rw [sqDiff_eq, List.sum_eq_zero]
  intro x hx
  obtain ⟨q, hq, rfl⟩ := List.mem_map.mp hx
  exact h q hq

/-- C149. **Files that are accepted agree within the tolerance**: particles at the same place of both files sorted by number differ in no
column by more, where both have a number. -/
theorem compare_within {atol rtol t0 t1 : ℝ} {f0 f1 : List (Prt w)} (h : accept atol rtol t0 t1 f0 f1) {i : ℕ} {p q : Prt w}
    (hp : (byUid f0)[i]? = some p) (hq : (byUid f1)[i]? = some q) {j : Option (Fin w)} {x y : ℝ} (hx : p.at j = some x) (hy : q.at j = some y) :
    |x - y| ≤ atol := by
  obtain ⟨-, -, h3⟩ := h
  have hm : (p, q) ∈ (byUid f0).zip (byUid f1) := List.mem_iff_getElem?.mpr ⟨i, by rw [List.getElem?_zip_eq_some]; exact ⟨hp, hq⟩⟩
  have h1 := term_le hm j
  have h2 := (h3 j).1
  unfold term at h1
  rw [hx, hy] at h1
  simp only at h1
  calc |x - y| = √((x - y) ^ 2) := (Real.sqrt_sq_eq_abs _).symm
    _ ≤ √(sqDiff (byUid f0) (byUid f1) j) := Real.sqrt_le_sqrt h1
    _ ≤ atol := h2

/-- The values of a column, as numbers. -/
noncomputable def num (p : Prt w) (j : Option (Fin w)) : ℝ := match j with
  | none => p.uid
  | some j => (p.col j).getD 0

theorem at_num {p : Prt w} {f : List (Prt w)} (h : Numbers f) (hp : p ∈ f) (j : Option (Fin w)) : p.at j = some (num p j) := by
  cases j with
  | none => rfl
  | some j =>
    obtain ⟨x, hx⟩ := Option.isSome_iff_exists.mp (h p hp j)
    simp [Prt.at, num, hx]

theorem byUid_mem {f : List (Prt w)} {p : Prt w} : p ∈ byUid f ↔ p ∈ f := (List.mergeSort_perm _ _).mem_iff

/-- C149. **What is accepted, for files of numbers**: times agree, there are as many particles, and in every column the differences squared,
of particles sorted by number, add up to no more than the square of the absolute tolerance, nor than the square of the relative one times the
squares of the first file. -/
theorem compare_iff {atol rtol t0 t1 : ℝ} (ha : 0 ≤ atol) (hr : 0 ≤ rtol) {f0 f1 : List (Prt w)} (h0 : Numbers f0) (h1 : Numbers f1) :
    accept atol rtol t0 t1 f0 f1 ↔ |t0 - t1| ≤ atol ∧ f0.length = f1.length ∧ ∀ j,
      (((byUid f0).zip (byUid f1)).map fun q => (num q.1 j - num q.2 j) ^ 2).sum ≤ atol ^ 2 ∧
      (((byUid f0).zip (byUid f1)).map fun q => (num q.1 j - num q.2 j) ^ 2).sum ≤ rtol ^ 2 * (f0.map fun p => num p j ^ 2).sum := by
  have hd : ∀ j, sqDiff (byUid f0) (byUid f1) j = (((byUid f0).zip (byUid f1)).map fun q => (num q.1 j - num q.2 j) ^ 2).sum := by
    intro j
    rw [sqDiff_eq]
    congr 1
    refine List.map_congr_left fun q hq => ?_
    have hm := List.of_mem_zip hq
    rw [term, at_num h0 (byUid_mem.mp hm.1), at_num h1 (byUid_mem.mp hm.2)]
  have hn : ∀ j, sqNorm (byUid f0) j = (f0.map fun p => num p j ^ 2).sum := by
    intro j
    rw [← ((List.mergeSort_perm f0 _).map fun p => num p j ^ 2).sum_eq]
    unfold sqNorm
    congr 1
    refine List.map_congr_left fun p hp => ?_
    rw [at_num h0 (byUid_mem.mp hp)]
  unfold accept
  refine and_congr_right fun _ => and_congr_right fun _ => forall_congr' fun j => ?_
  rw [← hd j, ← hn j]
  have d0 := sqDiff_nonneg (byUid f0) (byUid f1) j
  have n0 : 0 ≤ sqNorm (byUid f0) j := by
    rw [hn j]
    refine List.sum_nonneg fun x hx => ?_
    obtain ⟨q, -, rfl⟩ := List.mem_map.mp hx
    positivity
  generalize sqDiff (byUid f0) (byUid f1) j = D at *
  generalize sqNorm (byUid f0) j = N at *
  refine and_congr (Real.sqrt_le_left ha) ?_
  split_ifs with hN
  · rw [Real.sqrt_eq_zero n0] at hN
    subst hN
    rw [Real.sqrt_eq_zero d0, mul_zero]
    exact ⟨fun h => h.1.le, fun h => ⟨le_antisymm h d0, hr⟩⟩
  · have hpos : 0 < √N := lt_of_le_of_ne (Real.sqrt_nonneg _) (Ne.symm hN)
    rw [div_le_iff₀ hpos, Real.sqrt_le_left (by positivity), mul_pow, Real.sq_sqrt n0]

theorem prt_ext {p q : Prt w} (h : ∀ j, p.at j = q.at j) : p = q := by
  obtain ⟨u, c⟩ := p
  obtain ⟨v, d⟩ := q
  have h0 := h none
  simp only [Prt.at, Option.some.injEq, Nat.cast_inj] at h0
  have h1 : c = d := funext fun j => h (some j)
  rw [h0, h1]

theorem byUid_perm (f : List (Prt w)) : (byUid f).Perm f := List.mergeSort_perm _ _

theorem byUid_sorted (f : List (Prt w)) : (byUid f).Pairwise fun a b => a.uid ≤ b.uid := by
  have := List.pairwise_mergeSort (le := fun a b : Prt w => decide (a.uid ≤ b.uid))
    (fun a b c h1 h2 => by simp only [decide_eq_true_eq] at *; omega) (fun a b => by simp; omega) f
  exact this.imp fun h => by simpa using h

theorem byUid_unique {f g : List (Prt w)} (h : f.Perm g) (hd : (f.map Prt.uid).Nodup) : byUid f = byUid g := by
  have hp : (byUid f).Perm (byUid g) := (byUid_perm f).trans (h.trans (byUid_perm g).symm)
  refine hp.eq_of_pairwise (le := fun a b => a.uid ≤ b.uid) ?_ (byUid_sorted f) (byUid_sorted g)
  intro a b ha hb h1 h2
  have ha' := (byUid_perm f).mem_iff.mp ha
  have hb' := h.mem_iff.mpr ((byUid_perm g).mem_iff.mp hb)
  exact List.inj_on_of_nodup_map hd ha' hb' (by omega)

theorem accept_same {t : ℝ} {f0 f1 : List (Prt w)} (hl : f0.length = f1.length) (h : ∀ j, sqDiff (byUid f0) (byUid f1) j = 0) :
    accept 0 0 t t f0 f1 := by
  refine ⟨by simp, hl, fun j => ?_⟩
  rw [h j]
  simp

/-- C149. **With no tolerance, files with numbers only are accepted just if they have the same time and the same particles**, in whatever
order. -/
theorem compare_exact {t0 t1 : ℝ} {f0 f1 : List (Prt w)} (h0 : Numbers f0) (h1 : Numbers f1) (hd : (f0.map Prt.uid).Nodup) :
    accept 0 0 t0 t1 f0 f1 ↔ t0 = t1 ∧ f0.Perm f1 := by
  constructor
  · intro h
    refine ⟨by have := h.1; rw [abs_nonpos_iff, sub_eq_zero] at this; exact this, ?_⟩
    have hlen : (byUid f0).length = (byUid f1).length := by
      rw [(byUid_perm f0).length_eq, (byUid_perm f1).length_eq]; exact h.2.1
    have : byUid f0 = byUid f1 := by
      refine List.ext_getElem hlen fun i hi hi' => prt_ext fun j => ?_
      have some0 : ((byUid f0)[i].at j).isSome := by
        cases j with
        | none => rfl
        | some j => exact h0 _ ((byUid_perm f0).mem_iff.mp (List.getElem_mem hi)) j
      have some1 : ((byUid f1)[i].at j).isSome := by
        cases j with
        | none => rfl
        | some j => exact h1 _ ((byUid_perm f1).mem_iff.mp (List.getElem_mem hi')) j
      obtain ⟨x, hx⟩ := Option.isSome_iff_exists.mp some0
      obtain ⟨y, hy⟩ := Option.isSome_iff_exists.mp some1
      have := compare_within h (List.getElem?_eq_getElem hi) (List.getElem?_eq_getElem hi') hx hy
      rw [abs_nonpos_iff, sub_eq_zero] at this
      rw [hx, hy, this]
    exact (byUid_perm f0).symm.trans (this ▸ byUid_perm f1)
  · rintro ⟨rfl, hp⟩
    refine accept_same hp.length_eq fun j => sqDiff_zero ?_
    rw [byUid_unique hp hd]
    intro q hq
    have : q.1 = q.2 := by
      obtain ⟨i, hi⟩ := List.mem_iff_getElem?.mp hq
      rw [List.getElem?_zip_eq_some] at hi
      rw [hi.1] at hi
      exact Option.some.inj hi.2
    unfold term
    rw [this]
    split
    · rename_i x y hx hy
      rw [hx] at hy
      rw [Option.some.inj hy]; simp
    · rfl

/-- C149. **A file in which any values were replaced by what is not a number is accepted**, with no tolerance. -/
theorem nan_accepted (t : ℝ) (f : List (Prt w)) (bad : Prt w → Fin w → Prop) [∀ p j, Decidable (bad p j)] :
    accept 0 0 t t f (f.map fun p => { p with col := fun j => if bad p j then none else p.col j }) := by
  refine accept_same (by simp) fun j => ?_
  have hb : byUid (f.map fun p => { p with col := fun j => if bad p j then none else p.col j }) =
      (byUid f).map fun p => { p with col := fun j => if bad p j then none else p.col j } := by
    unfold byUid
    rw [List.map_mergeSort]
    intro a _ b _; rfl
  rw [hb]
  refine sqDiff_zero fun q hq => ?_
  have : q.2 = { q.1 with col := fun j => if bad q.1 j then none else q.1.col j } := by
    obtain ⟨i, hi⟩ := List.mem_iff_getElem?.mp hq
    rw [List.getElem?_zip_eq_some] at hi
    rw [List.getElem?_map, hi.1] at hi
    exact (Option.some.inj hi.2).symm
  rw [term, this]
  cases j with
  | none => simp [Prt.at]
  | some j =>
    simp only [Prt.at]
    by_cases hbad : bad q.1 j
    · simp [hbad]
    · simp only [hbad, if_false]
      cases q.1.col j <;> simp

/-- Two files with the same particles in another order. -/
example : Numbers [(⟨1, fun _ => some 3⟩ : Prt 2), ⟨0, fun _ => some 5⟩] ∧ ([(⟨1, fun _ => some 3⟩ : Prt 2), ⟨0, fun _ => some 5⟩].map Prt.uid).Nodup ∧
    [(⟨1, fun _ => some 3⟩ : Prt 2), ⟨0, fun _ => some 5⟩].Perm [⟨0, fun _ => some 5⟩, ⟨1, fun _ => some 3⟩] := by
  refine ⟨by simp [Numbers], by simp, List.Perm.swap ..⟩

/-! ## HDF5 -/

section
variable {K : Type*} [Zero K]

/-- Cells of a box. -/
def In (b : Bx) (c : Fin 3 → ℤ) : Prop := ∀ d, b.lo d ≤ c d ∧ c d ≤ b.hi d

/-- How many cells a box has. -/
def cells (b : Bx) : ℕ := ((b.hi 0 - b.lo 0 + 1) * (b.hi 1 - b.lo 1 + 1) * (b.hi 2 - b.lo 2 + 1)).toNat

/-- Place of a cell in a box, the first direction being the fastest. -/
def place (b : Bx) (c : Fin 3 → ℤ) : ℕ :=
  (c 0 - b.lo 0 + (b.hi 0 - b.lo 0 + 1) * (c 1 - b.lo 1 + (b.hi 1 - b.lo 1 + 1) * (c 2 - b.lo 2))).toNat

/-- How AMReX writes the boxes of a level: box after box, in each the variables, in each the cells. -/
def Written (boxes : List Bx) (nvars : ℕ) (u : ℕ → (Fin 3 → ℤ) → K) (file : ℕ → K) : Prop :=
  ∀ (lb : ℕ) (b : Bx), boxes[lb]? = some b → ∀ comp < nvars, ∀ c, In b c →
    file ((((boxes.take lb).map fun a => cells a * nvars).sum) + comp * cells b + place b c) = u comp c

/-- Boxes of a level do not overlap. -/
def Apart (boxes : List Bx) : Prop :=
  ∀ (i j : ℕ) (a b : Bx) (c : Fin 3 → ℤ), boxes[i]? = some a → boxes[j]? = some b → In a c → In b c → i = j

theorem has_iff (b : Bx) (c : Fin 3 → ℤ) : b.has c = true ↔ In b c := by simp [Bx.has, In]

theorem vol_cells (b : Bx) : b.vol = cells b := rfl

theorem at_place (b : Bx) (c : Fin 3 → ℤ) : b.at c = place b c := rfl

theorem check_spec {boxes : List Bx} {b : Bx} (h : checkBoxes boxes = some b) : ∀ a ∈ boxes, ∀ d, a.len d = b.len d := by
  unfold checkBoxes at h
  cases boxes with
  | nil => simp at h
  | cons x t =>
    simp only at h
    split_ifs at h with hc
    rw [Option.some.injEq] at h
    subst h
    intro a ha d
    have := hc a ha d
    unfold Bx.len at *
    omega

/-- C150. The script goes on just if there are boxes and all have the same size. -/
theorem convert_defined_iff (boxes : List Bx) (comps : List ℕ) (file : ℕ → K) :
    (convert boxes comps file).isSome ↔ boxes ≠ [] ∧ ∀ a ∈ boxes, ∀ b ∈ boxes, ∀ d, a.hi d - a.lo d = b.hi d - b.lo d := by
  have hlen : (∀ a ∈ boxes, ∀ b ∈ boxes, ∀ d, a.hi d - a.lo d = b.hi d - b.lo d) ↔ ∀ a ∈ boxes, ∀ b ∈ boxes, ∀ d, a.len d = b.len d := by
    unfold Bx.len
    constructor <;> intro h a ha b hb d <;> have := h a ha b hb d <;> omega
  rw [hlen]
  unfold convert
  rw [Option.isSome_map]
  constructor
  · intro h
    obtain ⟨b, hb⟩ := Option.isSome_iff_exists.mp h
    refine ⟨by rintro rfl; simp [checkBoxes] at hb, fun x hx y hy d => ?_⟩
    rw [check_spec hb x hx, check_spec hb y hy]
  · rintro ⟨hne, h⟩
    cases boxes with
    | nil => exact absurd rfl hne
    | cons x t =>
      unfold checkBoxes
      simp only
      rw [if_pos]
      · rfl
      · intro a ha d
        have := h a ha x (List.mem_cons_self ..) d
        unfold Bx.len at *
        omega

theorem vol_eq {a b : Bx} (h : ∀ d, a.len d = b.len d) : a.vol = b.vol := by unfold Bx.vol; rw [h, h, h]

theorem convertFrom_none {b : Bx} {nvars comp : ℕ} {file : ℕ → K} {c : Fin 3 → ℤ} : ∀ {t : List Bx} {lb : ℕ} {o : K},
    (∀ a ∈ t, a.has c = false) → convertFrom b nvars comp file c t lb o = o
  | [], _, _, _ => rfl
  | a :: t, lb, o, h => by
    rw [convertFrom, h a (List.mem_cons_self ..)]
    exact convertFrom_none fun x hx => h x (List.mem_cons_of_mem _ hx)

theorem convertFrom_some {b : Bx} {nvars comp : ℕ} {file : ℕ → K} {c : Fin 3 → ℤ} : ∀ {t : List Bx} {lb i : ℕ} {o : K} {a : Bx},
    t[i]? = some a → a.has c = true → (∀ j a', t[j]? = some a' → a'.has c = true → j = i) →
    convertFrom b nvars comp file c t lb o = file (comp * b.vol + (lb + i) * (b.vol * nvars) + a.at c)
  | [], _, _, _, _, h, _, _ => by simp at h
  | x :: t, lb, 0, o, a, h, hc, hu => by
    simp only [List.getElem?_cons_zero, Option.some.injEq] at h
    subst h
    rw [convertFrom, hc, convertFrom_none]
    · rfl
    · intro y hy
      by_contra hh
      obtain ⟨j, hj⟩ := List.mem_iff_getElem?.mp hy
      have := hu (j + 1) y (by simpa using hj) (by simpa using hh)
      omega
  | x :: t, lb, i + 1, o, a, h, hc, hu => by
    rw [convertFrom, convertFrom_some (i := i) (a := a) (by simpa using h) hc]
    · rw [show lb + 1 + i = lb + (i + 1) by omega]
    · intro j a' hj ha
      have := hu (j + 1) a' (by simpa using hj) ha
      omega

/-- C150. **Every cell has its value**: row `r` of the array saved is, in each cell of a box, the variable whose attribute is at place
`r`, and zero in the other cells. -/
theorem convert_values {boxes : List Bx} {comps : List ℕ} {u : ℕ → (Fin 3 → ℤ) → K} {file : ℕ → K} (hw : Written boxes comps.length u file)
    (ha : Apart boxes) {out : List ((Fin 3 → ℤ) → K)} (ho : convert boxes comps file = some out) {r comp : ℕ} (hr : comps[r]? = some comp)
    (hcomp : comp < comps.length) : ∃ g, out[r]? = some g ∧
      (∀ b ∈ boxes, ∀ c, In b c → g c = u comp c) ∧ ∀ c, (∀ b ∈ boxes, ¬ In b c) → g c = 0 := by
  unfold convert at ho
  obtain ⟨b, hb, rfl⟩ := Option.map_eq_some_iff.mp ho
  have hlen := check_spec hb
  refine ⟨_, by rw [List.getElem?_map, hr]; rfl, ?_, fun c hc => convertFrom_none fun a ha => ?_⟩
  swap
  · have := hc a ha
    rw [← has_iff] at this
    simpa using this
  intro a hab c hc
  obtain ⟨i, hi⟩ := List.mem_iff_getElem?.mp hab
  rw [convertFrom_some hi ((has_iff a c).mpr hc) fun j a' hj hc' => ha j i a' a c hj hi ((has_iff a' c).mp hc') hc, ← hw i a hi comp hcomp c hc]
  simp only [← vol_cells, ← at_place]
  have hva : a.vol = b.vol := vol_eq (hlen a hab)
  have hsum : ((boxes.take i).map fun a => a.vol * comps.length).sum = i * (b.vol * comps.length) := by
    have : (boxes.take i).map (fun a => a.vol * comps.length) = List.replicate i (b.vol * comps.length) := by
      rw [List.eq_replicate_iff]
      refine ⟨by have := (List.getElem?_eq_some_iff.mp hi).1; simp; omega, fun x hx => ?_⟩
      obtain ⟨y, hy, rfl⟩ := List.mem_map.mp hx
      rw [vol_eq (hlen y (List.mem_of_mem_take hy))]
    rw [this, List.sum_replicate, smul_eq_mul]
  rw [hsum, hva]
  congr 1
  ring

end

/-- C150. **With up to ten variables row `r` is variable `r`.** -/
theorem rows_in_order_partial {nvars : ℕ} (h : nvars ≤ 10) : attrOrder nvars = List.range nvars := by
  unfold attrOrder
  apply List.mergeSort_of_pairwise
  refine List.pairwise_lt_range.imp_of_mem fun {a b} ha hb hab => ?_
  rw [List.mem_range] at ha hb
  have e : ∀ n, n < 10 → digs n = [n] := by intro n hn; rw [digs]; simp [hn]
  rw [e a (by omega), e b (by omega)]
  simp only [decide_eq_true_eq]
  exact le_of_lt (List.Lex.rel hab)

/-- C150. **With eleven variables row 2 is variable 10**, as attributes are in the order of text. -/
theorem rows_eleven_wrong : attrOrder 11 = [0, 1, 10, 2, 3, 4, 5, 6, 7, 8, 9] := by
  have e : ∀ n, n < 10 → digs n = [n] := by intro n hn; rw [digs]; simp [hn]
  have e10 : digs 10 = [1, 0] := by rw [digs]; norm_num [e]
  have hp : ([0, 1, 10, 2, 3, 4, 5, 6, 7, 8, 9] : List ℕ).Perm (attrOrder 11) :=
    (by decide : ([0, 1, 10, 2, 3, 4, 5, 6, 7, 8, 9] : List ℕ).Perm (List.range 11)).trans (List.mergeSort_perm _ _).symm
  have hs : (attrOrder 11).Pairwise fun a b => digs a ≤ digs b :=
    (List.pairwise_mergeSort (le := fun a b : ℕ => decide (digs a ≤ digs b))
      (fun a b c h1 h2 => by simp only [decide_eq_true_eq] at *; exact le_trans h1 h2)
      (fun a b => by simpa using le_total (digs a) (digs b)) _).imp fun h => by simpa using h
  refine (hp.eq_of_pairwise (le := fun a b => digs a ≤ digs b) ?_ ?_ hs).symm
  · intro a b ha hb h1 h2
    have hd := le_antisymm h1 h2
    have hb' := hp.mem_iff.mpr hb
    simp only [List.mem_cons, List.not_mem_nil, or_false] at ha hb'
    rcases ha with rfl | rfl | rfl | rfl | rfl | rfl | rfl | rfl | rfl | rfl | rfl <;>
      rcases hb' with rfl | rfl | rfl | rfl | rfl | rfl | rfl | rfl | rfl | rfl | rfl <;> simp [e, e10] at hd ⊢
  · simp only [List.pairwise_cons, List.mem_cons, List.not_mem_nil, or_false, forall_eq_or_imp, forall_eq, e10]
    simp only [e _ (by norm_num : (0:ℕ) < 10), e _ (by norm_num : (1:ℕ) < 10), e _ (by norm_num : (2:ℕ) < 10), e _ (by norm_num : (3:ℕ) < 10),
      e _ (by norm_num : (4:ℕ) < 10), e _ (by norm_num : (5:ℕ) < 10), e _ (by norm_num : (6:ℕ) < 10), e _ (by norm_num : (7:ℕ) < 10),
      e _ (by norm_num : (8:ℕ) < 10), e _ (by norm_num : (9:ℕ) < 10)]
    simp
    decide

/-- Two boxes beside each other. -/
def twoBoxes : List Bx := [⟨fun _ => 0, fun _ => 1⟩, ⟨fun d => if d = 0 then 2 else 0, fun d => if d = 0 then 3 else 1⟩]

/-- A file of two variables. -/
def twoFile (n : ℕ) : ℤ := if n < 8 then 5 else if n < 16 then 6 else if n < 24 then 7 else 8

example : Apart twoBoxes ∧ Written twoBoxes 2 (fun comp c => if c 0 < 2 then 5 + (comp : ℤ) else 7 + comp) twoFile ∧
    (convert twoBoxes [0, 1] twoFile).isSome := by
  refine ⟨?_, ?_, ?_⟩
  · intro i j a b c ha hb h1 h2
    rcases i with _ | _ | i <;> rcases j with _ | _ | j <;>
      simp only [twoBoxes, List.getElem?_cons_zero, List.getElem?_cons_succ, List.getElem?_nil, Option.some.injEq, reduceCtorEq, zero_add] at ha hb ⊢ <;>
      subst ha hb <;> simp only [In] at h1 h2 <;>
      (have h3 := h1 0; have h4 := h2 0; simp at h3 h4; omega)
  · intro lb b hb comp hcomp c hc
    simp only [In] at hc
    have c0 := hc 0
    have c1 := hc 1
    have c2 := hc 2
    rcases lb with _ | _ | lb <;>
      simp only [twoBoxes, List.getElem?_cons_zero, List.getElem?_cons_succ, List.getElem?_nil, Option.some.injEq, reduceCtorEq, zero_add] at hb <;>
      subst hb <;> simp at c0 c1 c2 <;>
      simp [twoBoxes, cells, place, twoFile] <;> interval_cases comp <;> split_ifs <;> omega
  · rw [convert_defined_iff]
    refine ⟨by simp [twoBoxes], ?_⟩
    intro a ha b hb d
    simp only [twoBoxes, List.mem_cons, List.not_mem_nil, or_false] at ha hb
    rcases ha with rfl | rfl <;> rcases hb with rfl | rfl <;> fin_cases d <;> simp

end AmrWind.Cscript
