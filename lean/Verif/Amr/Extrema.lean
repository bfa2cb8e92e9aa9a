import Verif.Amr.Norms
import Mathlib.Order.Bounds.Basic
import Mathlib.Tactic.Linarith

/-!
# C47, C57: extrema of fields, the density check, largest velocities and where they are

Model of `utilities/diagnostics.cpp` and `PDEMgr::density_check` (`equation_systems/PDEBase.cpp`).
-/

set_option linter.unusedSectionVars false

namespace AmrWind.Amr

open Plane (Cell Bx Axis cells irange mem_cells)

section
variable {K : Type*} [Field K] [LinearOrder K]

/-! ## Model: masked extrema -/

/-- The numbers of constants.H:13-30 and the limits of the type of numbers. -/
structure Consts (K : Type*) where
  lowest : K
  highest : K
  low : K
  large : K
  tight : K
  loose : K

/-- A cell (or ghost cell): the components of the field and the mask field. -/
structure Pt (K : Type*) where
  f : ℕ → K
  m : K

/-- `MultiFab::max(comp, nghost)`: the maximum over the cells of all ranks; `pts p` are the cells of rank `p`. -/
def mfMax (c : Consts K) (nproc : ℕ) (pts : ℕ → List (Pt K)) (g : Pt K → K) : K :=
  (List.range nproc).foldl (fun m p => max m ((pts p).foldl (fun m a => max m (g a)) c.lowest)) c.lowest

/-- `MultiFab::min(comp, nghost)`. -/
def mfMin (c : Consts K) (nproc : ℕ) (pts : ℕ → List (Pt K)) (g : Pt K → K) : K :=
  (List.range nproc).foldl (fun m p => min m ((pts p).foldl (fun m a => min m (g a)) c.highest)) c.highest

/-- `ParallelDescriptor::ReduceRealMax` and `ReduceRealMin` of a value that each rank `p` holds. -/
def reduceMax (nproc : ℕ) (v : ℕ → K) : K := (List.range nproc).foldl (fun m p => max m (v p)) (v 0)
def reduceMin (nproc : ℕ) (v : ℕ → K) : K := (List.range nproc).foldl (fun m p => min m (v p)) (v 0)

/-- diagnostics.cpp:8-24 `make_mask_addend`. -/
def maskAddend (c : Consts K) (maskVal setVal : K) (a : Pt K) : K := if |a.m - maskVal| < c.tight then 0 else setVal

/-- diagnostics.cpp:53-103 `get_field_extrema` with a mask: maximum, minimum, found. -/
def extremaMasked (c : Consts K) (nproc : ℕ) (levels : List (ℕ → List (Pt K))) (maskVal : K) (comp ncomp : ℕ) :
    K × K × Bool :=
  let maskMin := levels.foldl (fun m pts => min m (mfMin c nproc pts (maskAddend c maskVal c.large))) c.large
  let fmin := levels.foldl (fun m pts => (List.range ncomp).foldl (fun m n =>
    min m (mfMin c nproc pts fun a => maskAddend c maskVal c.large a + a.f (comp + n))) m) c.large
  let fmax := levels.foldl (fun m pts => (List.range ncomp).foldl (fun m n =>
    max m (mfMax c nproc pts fun a => maskAddend c maskVal c.low a + a.f (comp + n))) m) c.low
  (reduceMax nproc fun _ => fmax, reduceMin nproc fun _ => fmin, decide (reduceMax nproc (fun _ => maskMin) < c.tight))

/-- diagnostics.cpp:26-51 `get_field_extrema` without a mask. -/
def extrema (c : Consts K) (nproc : ℕ) (levels : List (ℕ → List (Pt K))) (comp ncomp : ℕ) : K × K :=
  let fmin := levels.foldl (fun m pts => (List.range ncomp).foldl (fun m n =>
    min m (mfMin c nproc pts fun a => a.f (comp + n))) m) c.large
  let fmax := levels.foldl (fun m pts => (List.range ncomp).foldl (fun m n =>
    max m (mfMax c nproc pts fun a => a.f (comp + n))) m) c.low
  (reduceMax nproc fun _ => fmax, reduceMin nproc fun _ => fmin)

/-- PDEBase.cpp:151-213 `density_check`: false is an abort; `f 0` is the density, `m` the volume fraction. -/
def densityCheck (c : Consts K) (nproc : ℕ) (hasVof constant : Bool) (levels : List (ℕ → List (Pt K))) : Bool :=
  if hasVof then
    let l := extremaMasked c nproc levels 1 0 1
    let g := extremaMasked c nproc levels 0 0 1
    if l.2.2 && decide (|l.1 - l.2.1| > c.loose) then false
    else if g.2.2 && decide (|g.1 - g.2.1| > c.loose) then false
    else true
  else if constant then
    let e := extrema c nproc levels 0 1
    if |e.1 - e.2| > c.loose then false else true
  else true

/-! ## Lemmas -/

theorem foldl_min {α : Type*} (l : List α) (v : α → K) (m : K) :
    l.foldl (fun m a => min m (v a)) m ≤ m ∧ (∀ a ∈ l, l.foldl (fun m a => min m (v a)) m ≤ v a) ∧
      (l.foldl (fun m a => min m (v a)) m = m ∨ ∃ a ∈ l, l.foldl (fun m a => min m (v a)) m = v a) := by
  induction l generalizing m with
  | nil => simp
  | cons a l ih =>
    obtain ⟨h1, h2, h3⟩ := ih (min m (v a))
    rw [List.foldl_cons]
    refine ⟨h1.trans (min_le_left _ _), ?_, ?_⟩
    · intro b hb
      rcases List.mem_cons.mp hb with rfl | hb
      · exact h1.trans (min_le_right _ _)
      · exact h2 b hb
    · rcases h3 with h3 | ⟨b, hb, h3⟩
      · rcases min_choice m (v a) with h4 | h4
        · left; rw [h3, h4]
        · right; exact ⟨a, List.mem_cons_self, by rw [h3, h4]⟩
      · right; exact ⟨b, List.mem_cons_of_mem _ hb, h3⟩

theorem reduceMax_const {nproc : ℕ} (v : K) : reduceMax nproc (fun _ => v) = v := by
  unfold reduceMax
  rcases (foldl_max (List.range nproc) (fun _ => v) v).2.2 with h | ⟨_, _, h⟩ <;> exact h

theorem reduceMin_const {nproc : ℕ} (v : K) : reduceMin nproc (fun _ => v) = v := by
  unfold reduceMin
  rcases (foldl_min (List.range nproc) (fun _ => v) v).2.2 with h | ⟨_, _, h⟩ <;> exact h

/-- A cell of some rank and level. -/
def Somewhere (nproc : ℕ) (levels : List (ℕ → List (Pt K))) (a : Pt K) : Prop := ∃ pts ∈ levels, ∃ p < nproc, a ∈ pts p

theorem mfMax_spec (c : Consts K) (nproc : ℕ) (pts : ℕ → List (Pt K)) (g : Pt K → K) :
    (∀ p < nproc, ∀ a ∈ pts p, g a ≤ mfMax c nproc pts g) ∧
      (mfMax c nproc pts g = c.lowest ∨ ∃ p < nproc, ∃ a ∈ pts p, mfMax c nproc pts g = g a) := by
  unfold mfMax
  obtain ⟨h1, h2, h3⟩ := foldl_max (List.range nproc) (fun p => (pts p).foldl (fun m a => max m (g a)) c.lowest) c.lowest
  refine ⟨fun p hp a ha => le_trans ?_ (h2 p (List.mem_range.mpr hp)), ?_⟩
  · exact (foldl_max (pts p) g c.lowest).2.1 a ha
  · rcases h3 with h3 | ⟨p, hp, h3⟩
    · exact Or.inl h3
    · rcases (foldl_max (pts p) g c.lowest).2.2 with h4 | ⟨a, ha, h4⟩
      · exact Or.inl (h3.trans h4)
      · exact Or.inr ⟨p, List.mem_range.mp hp, a, ha, h3.trans h4⟩

theorem mfMin_spec (c : Consts K) (nproc : ℕ) (pts : ℕ → List (Pt K)) (g : Pt K → K) :
    (∀ p < nproc, ∀ a ∈ pts p, mfMin c nproc pts g ≤ g a) ∧
      (mfMin c nproc pts g = c.highest ∨ ∃ p < nproc, ∃ a ∈ pts p, mfMin c nproc pts g = g a) := by
  unfold mfMin
  obtain ⟨h1, h2, h3⟩ := foldl_min (List.range nproc) (fun p => (pts p).foldl (fun m a => min m (g a)) c.highest) c.highest
  refine ⟨fun p hp a ha => le_trans (h2 p (List.mem_range.mpr hp)) ?_, ?_⟩
  · exact (foldl_min (pts p) g c.highest).2.1 a ha
  · rcases h3 with h3 | ⟨p, hp, h3⟩
    · exact Or.inl h3
    · rcases (foldl_min (pts p) g c.highest).2.2 with h4 | ⟨a, ha, h4⟩
      · exact Or.inl (h3.trans h4)
      · exact Or.inr ⟨p, List.mem_range.mp hp, a, ha, h3.trans h4⟩

theorem nested_max {α β : Type*} (l : List α) (r : List β) (v : α → β → K) (m : K) :
    l.foldl (fun m a => r.foldl (fun m b => max m (v a b)) m) m =
      (l.flatMap fun a => r.map fun b => (a, b)).foldl (fun m x => max m (v x.1 x.2)) m := by
  induction l generalizing m with
  | nil => rfl
  | cons a l ih =>
    rw [List.foldl_cons, ih, List.flatMap_cons, List.foldl_append, List.foldl_map]

theorem nested_min {α β : Type*} (l : List α) (r : List β) (v : α → β → K) (m : K) :
    l.foldl (fun m a => r.foldl (fun m b => min m (v a b)) m) m =
      (l.flatMap fun a => r.map fun b => (a, b)).foldl (fun m x => min m (v x.1 x.2)) m := by
  induction l generalizing m with
  | nil => rfl
  | cons a l ih =>
    rw [List.foldl_cons, ih, List.flatMap_cons, List.foldl_append, List.foldl_map]

/-- The maximum over levels and components. -/
theorem levels_max (c : Consts K) (nproc : ℕ) (levels : List (ℕ → List (Pt K))) (ncomp : ℕ) (g : ℕ → Pt K → K) (m0 : K) :
    let v := levels.foldl (fun m pts => (List.range ncomp).foldl (fun m n => max m (mfMax c nproc pts (g n))) m) m0
    m0 ≤ v ∧ (∀ a n, Somewhere nproc levels a → n < ncomp → g n a ≤ v) ∧
      (v = m0 ∨ v = c.lowest ∨ ∃ a n, Somewhere nproc levels a ∧ n < ncomp ∧ v = g n a) := by
  intro v
  have hv : v = _ := nested_max levels (List.range ncomp) (fun pts n => mfMax c nproc pts (g n)) m0
  obtain ⟨h1, h2, h3⟩ := foldl_max (levels.flatMap fun a => (List.range ncomp).map fun b => (a, b))
    (fun x => mfMax c nproc x.1 (g x.2)) m0
  rw [← hv] at h1 h2 h3
  refine ⟨h1, ?_, ?_⟩
  · rintro a n ⟨pts, hp, p, hlt, ha⟩ hn
    refine le_trans ((mfMax_spec c nproc pts (g n)).1 p hlt a ha) (h2 (pts, n) ?_)
    rw [List.mem_flatMap]
    exact ⟨pts, hp, List.mem_map.mpr ⟨n, List.mem_range.mpr hn, rfl⟩⟩
  · rcases h3 with h3 | ⟨⟨pts, n⟩, hm, h3⟩
    · exact Or.inl h3
    · rw [List.mem_flatMap] at hm
      obtain ⟨pts', hp, hm⟩ := hm
      obtain ⟨n', hn, he⟩ := List.mem_map.mp hm
      simp only [Prod.mk.injEq] at he
      obtain ⟨rfl, rfl⟩ := he
      rcases (mfMax_spec c nproc pts' (g n')).2 with h4 | ⟨p, hlt, a, ha, h4⟩
      · exact Or.inr (Or.inl (h3.trans h4))
      · exact Or.inr (Or.inr ⟨a, n', ⟨pts', hp, p, hlt, ha⟩, List.mem_range.mp hn, h3.trans h4⟩)

theorem levels_min (c : Consts K) (nproc : ℕ) (levels : List (ℕ → List (Pt K))) (ncomp : ℕ) (g : ℕ → Pt K → K) (m0 : K) :
    let v := levels.foldl (fun m pts => (List.range ncomp).foldl (fun m n => min m (mfMin c nproc pts (g n))) m) m0
    v ≤ m0 ∧ (∀ a n, Somewhere nproc levels a → n < ncomp → v ≤ g n a) ∧
      (v = m0 ∨ v = c.highest ∨ ∃ a n, Somewhere nproc levels a ∧ n < ncomp ∧ v = g n a) := by
  intro v
  have hv : v = _ := nested_min levels (List.range ncomp) (fun pts n => mfMin c nproc pts (g n)) m0
  obtain ⟨h1, h2, h3⟩ := foldl_min (levels.flatMap fun a => (List.range ncomp).map fun b => (a, b))
    (fun x => mfMin c nproc x.1 (g x.2)) m0
  rw [← hv] at h1 h2 h3
  refine ⟨h1, ?_, ?_⟩
  · rintro a n ⟨pts, hp, p, hlt, ha⟩ hn
    refine le_trans (h2 (pts, n) ?_) ((mfMin_spec c nproc pts (g n)).1 p hlt a ha)
    rw [List.mem_flatMap]
    exact ⟨pts, hp, List.mem_map.mpr ⟨n, List.mem_range.mpr hn, rfl⟩⟩
  · rcases h3 with h3 | ⟨⟨pts, n⟩, hm, h3⟩
    · exact Or.inl h3
    · rw [List.mem_flatMap] at hm
      obtain ⟨pts', hp, hm⟩ := hm
      obtain ⟨n', hn, he⟩ := List.mem_map.mp hm
      simp only [Prod.mk.injEq] at he
      obtain ⟨rfl, rfl⟩ := he
      rcases (mfMin_spec c nproc pts' (g n')).2 with h4 | ⟨p, hlt, a, ha, h4⟩
      · exact Or.inr (Or.inl (h3.trans h4))
      · exact Or.inr (Or.inr ⟨a, n', ⟨pts', hp, p, hlt, ha⟩, List.mem_range.mp hn, h3.trans h4⟩)

variable [IsStrictOrderedRing K]

/-- The numbers of constants.H: far apart. -/
structure Consts.Ok (c : Consts K) : Prop where
  tight : 0 < c.tight
  large : c.tight < c.large
  low : c.low = -c.large
  lowest : c.lowest ≤ 2 * c.low
  highest : 2 * c.large ≤ c.highest

/-- A cell with the wanted mask value. -/
def Masked (c : Consts K) (nproc : ℕ) (levels : List (ℕ → List (Pt K))) (maskVal : K) (a : Pt K) : Prop :=
  Somewhere nproc levels a ∧ |a.m - maskVal| < c.tight

/-- C47: the masked extrema are found if and only if a cell on some rank and level has the mask value, and then they are
the largest and the smallest value over all of them, for every distribution over ranks. -/
theorem extrema_masked {c : Consts K} (hc : c.Ok) {nproc : ℕ} {levels : List (ℕ → List (Pt K))} (maskVal : K)
    {comp ncomp : ℕ} (hn : 0 < ncomp)
    (hb : ∀ a, Somewhere nproc levels a → ∀ n, |a.f n| < c.large / 2) :
    ((extremaMasked c nproc levels maskVal comp ncomp).2.2 = true ↔ ∃ a, Masked c nproc levels maskVal a) ∧
      ((∃ a, Masked c nproc levels maskVal a) →
        IsGreatest {v | ∃ a n, Masked c nproc levels maskVal a ∧ n < ncomp ∧ v = a.f (comp + n)}
          (extremaMasked c nproc levels maskVal comp ncomp).1 ∧
        IsLeast {v | ∃ a n, Masked c nproc levels maskVal a ∧ n < ncomp ∧ v = a.f (comp + n)}
          (extremaMasked c nproc levels maskVal comp ncomp).2.1) := by
  obtain ⟨ht, hl, hlow, hlowest, hhighest⟩ := hc
  have hlarge : 0 < c.large := ht.trans hl
  unfold extremaMasked
  simp only [reduceMax_const, reduceMin_const]
  constructor
  · rw [decide_eq_true_eq]
    obtain ⟨h1, h2, h3⟩ := levels_min c nproc levels 1 (fun _ => maskAddend c maskVal c.large) c.large
    simp only [List.range_one, List.foldl_cons, List.foldl_nil] at h1 h2 h3
    set v := levels.foldl (fun m pts => min m (mfMin c nproc pts (maskAddend c maskVal c.large))) c.large
    constructor
    · intro hv
      rcases h3 with h3 | h3 | ⟨a, n, ha, -, h3⟩
      · exact absurd hv (not_lt.mpr (h3 ▸ hl.le))
      · exact absurd hv (not_lt.mpr (h3 ▸ by linarith))
      · refine ⟨a, ha, ?_⟩
        by_contra hcon
        unfold maskAddend at h3
        rw [if_neg hcon] at h3
        exact absurd hv (not_lt.mpr (h3 ▸ hl.le))
    · rintro ⟨a, ha, hm⟩
      have := h2 a 0 ha one_pos
      unfold maskAddend at this
      rw [if_pos hm] at this
      exact lt_of_le_of_lt this ht
  · rintro ⟨a0, ha0, hm0⟩
    have hb0 := abs_lt.mp (hb a0 ha0 (comp + 0))
    constructor
    · obtain ⟨h1, h2, h3⟩ := levels_max c nproc levels ncomp (fun n a => maskAddend c maskVal c.low a + a.f (comp + n)) c.low
      set v := levels.foldl (fun m pts => (List.range ncomp).foldl (fun m n =>
        max m (mfMax c nproc pts fun a => maskAddend c maskVal c.low a + a.f (comp + n))) m) c.low
      have hge := h2 a0 0 ha0 hn
      simp only [maskAddend, if_pos hm0, zero_add] at hge
      constructor
      · rcases h3 with h3 | h3 | ⟨a, n, ha, hn', h3⟩
        · exfalso; rw [h3] at hge; linarith
        · exfalso; rw [h3] at hge; linarith
        · by_cases hm : |a.m - maskVal| < c.tight
          · simp only [maskAddend, if_pos hm, zero_add] at h3
            exact ⟨a, n, ⟨ha, hm⟩, hn', h3⟩
          · exfalso
            simp only [maskAddend, if_neg hm] at h3
            rw [h3] at hge
            have := abs_lt.mp (hb a ha (comp + n))
            linarith
      · rintro x ⟨a, n, ⟨ha, hm⟩, hn', rfl⟩
        have := h2 a n ha hn'
        simpa only [maskAddend, if_pos hm, zero_add] using this
    · obtain ⟨h1, h2, h3⟩ := levels_min c nproc levels ncomp (fun n a => maskAddend c maskVal c.large a + a.f (comp + n))
        c.large
      set v := levels.foldl (fun m pts => (List.range ncomp).foldl (fun m n =>
        min m (mfMin c nproc pts fun a => maskAddend c maskVal c.large a + a.f (comp + n))) m) c.large
      have hge := h2 a0 0 ha0 hn
      simp only [maskAddend, if_pos hm0, zero_add] at hge
      constructor
      · rcases h3 with h3 | h3 | ⟨a, n, ha, hn', h3⟩
        · exfalso; rw [h3] at hge; linarith
        · exfalso; rw [h3] at hge; linarith
        · by_cases hm : |a.m - maskVal| < c.tight
          · simp only [maskAddend, if_pos hm, zero_add] at h3
            exact ⟨a, n, ⟨ha, hm⟩, hn', h3⟩
          · exfalso
            simp only [maskAddend, if_neg hm] at h3
            rw [h3] at hge
            have := abs_lt.mp (hb a ha (comp + n))
            linarith
      · rintro x ⟨a, n, ⟨ha, hm⟩, hn', rfl⟩
        have := h2 a n ha hn'
        simpa only [maskAddend, if_pos hm, zero_add] using this

/-- C47: the extrema without a mask. -/
theorem extrema_plain {c : Consts K} (hc : c.Ok) {nproc : ℕ} {levels : List (ℕ → List (Pt K))}
    {comp ncomp : ℕ} (hn : 0 < ncomp)
    (hb : ∀ a, Somewhere nproc levels a → ∀ n, |a.f n| < c.large / 2) (hne : ∃ a, Somewhere nproc levels a) :
    IsGreatest {v | ∃ a n, Somewhere nproc levels a ∧ n < ncomp ∧ v = a.f (comp + n)} (extrema c nproc levels comp ncomp).1 ∧
      IsLeast {v | ∃ a n, Somewhere nproc levels a ∧ n < ncomp ∧ v = a.f (comp + n)} (extrema c nproc levels comp ncomp).2 := by
  obtain ⟨ht, hl, hlow, hlowest, hhighest⟩ := hc
  have hlarge : 0 < c.large := ht.trans hl
  obtain ⟨a0, ha0⟩ := hne
  have hb0 := abs_lt.mp (hb a0 ha0 (comp + 0))
  unfold extrema
  simp only [reduceMax_const, reduceMin_const]
  constructor
  · obtain ⟨h1, h2, h3⟩ := levels_max c nproc levels ncomp (fun n a => a.f (comp + n)) c.low
    refine ⟨?_, ?_⟩
    · have hge := h2 a0 0 ha0 hn
      rcases h3 with h3 | h3 | ⟨a, n, ha, hn', h3⟩
      · exfalso; rw [h3] at hge; linarith
      · exfalso; rw [h3] at hge; linarith
      · exact ⟨a, n, ha, hn', h3⟩
    · rintro x ⟨a, n, ha, hn', rfl⟩
      exact h2 a n ha hn'
  · obtain ⟨h1, h2, h3⟩ := levels_min c nproc levels ncomp (fun n a => a.f (comp + n)) c.large
    refine ⟨?_, ?_⟩
    · have hge := h2 a0 0 ha0 hn
      rcases h3 with h3 | h3 | ⟨a, n, ha, hn', h3⟩
      · exfalso; rw [h3] at hge; linarith
      · exfalso; rw [h3] at hge; linarith
      · exact ⟨a, n, ha, hn', h3⟩
    · rintro x ⟨a, n, ha, hn', rfl⟩
      exact h2 a n ha hn'

theorem spread {S : Set K} {a b t : K} (ha : IsGreatest S a) (hb : IsLeast S b) (ht : 0 ≤ t) :
    ¬ |a - b| > t ↔ ∀ x ∈ S, ∀ y ∈ S, |x - y| ≤ t := by
  rw [not_lt]
  constructor
  · intro h x hx y hy
    have h1 := ha.2 hx
    have h2 := ha.2 hy
    have h3 := hb.2 hx
    have h4 := hb.2 hy
    rw [abs_le] at h ⊢
    constructor <;> linarith [h.2]
  · intro h
    exact h a ha.1 b hb.1

/-- C47: a multiphase simulation passes the density check if and only if any two liquid cells and any two gas cells, on
whatever ranks and levels, agree in density up to the tolerance. -/
theorem density_check_multiphase {c : Consts K} (hc : c.Ok) (hlo : 0 ≤ c.loose) {nproc : ℕ}
    {levels : List (ℕ → List (Pt K))} (constant : Bool)
    (hb : ∀ a, Somewhere nproc levels a → ∀ n, |a.f n| < c.large / 2) :
    densityCheck c nproc true constant levels = true ↔
      (∀ a b, Masked c nproc levels 1 a → Masked c nproc levels 1 b → |a.f 0 - b.f 0| ≤ c.loose) ∧
      (∀ a b, Masked c nproc levels 0 a → Masked c nproc levels 0 b → |a.f 0 - b.f 0| ≤ c.loose) := by
  have key : ∀ mv : K, (((extremaMasked c nproc levels mv 0 1).2.2 && decide (|(extremaMasked c nproc levels mv 0 1).1 -
      (extremaMasked c nproc levels mv 0 1).2.1| > c.loose)) = true) ↔
      ¬ ∀ a b, Masked c nproc levels mv a → Masked c nproc levels mv b → |a.f 0 - b.f 0| ≤ c.loose := by
    intro mv
    obtain ⟨h1, h2⟩ := extrema_masked hc mv (comp := 0) (ncomp := 1) one_pos hb
    rw [Bool.and_eq_true, h1, decide_eq_true_eq]
    constructor
    · rintro ⟨hex, hgt⟩ hall
      obtain ⟨g1, g2⟩ := h2 hex
      refine absurd hgt ((spread g1 g2 hlo).mpr ?_)
      rintro x ⟨a, n, ha, hn, rfl⟩ y ⟨b, m, hb', hm, rfl⟩
      obtain rfl : n = 0 := by omega
      obtain rfl : m = 0 := by omega
      exact hall a b ha hb'
    · intro hn
      have hex : ∃ a, Masked c nproc levels mv a := by
        by_contra hcon
        exact hn fun a b ha _ => absurd ⟨a, ha⟩ hcon
      obtain ⟨g1, g2⟩ := h2 hex
      refine ⟨hex, ?_⟩
      by_contra hgt
      apply hn
      intro a b ha hb'
      exact (spread g1 g2 hlo).mp hgt _ ⟨a, 0, ha, one_pos, rfl⟩ _ ⟨b, 0, hb', one_pos, rfl⟩
  unfold densityCheck
  simp only [if_true]
  by_cases h1 : ((extremaMasked c nproc levels 1 0 1).2.2 && decide (|(extremaMasked c nproc levels 1 0 1).1 -
      (extremaMasked c nproc levels 1 0 1).2.1| > c.loose)) = true
  · rw [if_pos h1]
    exact ⟨fun h => absurd h (by simp), fun h => absurd h.1 ((key 1).mp h1)⟩
  · rw [if_neg h1]
    have p1 := not_not.mp (fun hn => h1 ((key 1).mpr hn))
    by_cases h0 : ((extremaMasked c nproc levels 0 0 1).2.2 && decide (|(extremaMasked c nproc levels 0 0 1).1 -
        (extremaMasked c nproc levels 0 0 1).2.1| > c.loose)) = true
    · rw [if_pos h0]
      exact ⟨fun h => absurd h (by simp), fun h => absurd h.2 ((key 0).mp h0)⟩
    · rw [if_neg h0]
      exact ⟨fun _ => ⟨p1, not_not.mp (fun hn => h0 ((key 0).mpr hn))⟩, fun _ => rfl⟩

/-- C47: a simulation with constant density passes if and only if any two cells agree in density up to the tolerance. -/
theorem density_check_constant {c : Consts K} (hc : c.Ok) (hlo : 0 ≤ c.loose) {nproc : ℕ}
    {levels : List (ℕ → List (Pt K))} (hb : ∀ a, Somewhere nproc levels a → ∀ n, |a.f n| < c.large / 2)
    (hne : ∃ a, Somewhere nproc levels a) :
    densityCheck c nproc false true levels = true ↔
      ∀ a b, Somewhere nproc levels a → Somewhere nproc levels b → |a.f 0 - b.f 0| ≤ c.loose := by
  obtain ⟨g1, g2⟩ := extrema_plain hc (comp := 0) (ncomp := 1) one_pos hb hne
  unfold densityCheck
  simp only [Bool.false_eq_true, if_false, if_true]
  constructor
  · intro h a b ha hb'
    by_cases hgt : |(extrema c nproc levels 0 1).1 - (extrema c nproc levels 0 1).2| > c.loose
    · rw [if_pos hgt] at h
      exact absurd h (by simp)
    · exact (spread g1 g2 hlo).mp hgt _ ⟨a, 0, ha, one_pos, rfl⟩ _ ⟨b, 0, hb', one_pos, rfl⟩
  · intro h
    rw [if_neg ((spread g1 g2 hlo).mpr ?_)]
    rintro x ⟨a, n, ha, hn, rfl⟩ y ⟨b, m, hb', hm, rfl⟩
    obtain rfl : n = 0 := by omega
    obtain rfl : m = 0 := by omega
    exact h a b ha hb'

end

/-! ## Examples -/

/-- Numbers to run the functions on. -/
def exConsts : Consts ℚ := ⟨-4000000, 4000000, -1000000, 1000000, 1 / 1000000, 1 / 100⟩

example : exConsts.Ok := by constructor <;> norm_num [exConsts]

/-- Two ranks; the only liquid cells are on rank 1 and differ in density. -/
def exPts : List (ℕ → List (Pt ℚ)) :=
  [fun p => if p = 0 then [⟨fun _ => 1, 0⟩] else [⟨fun _ => 1000, 1⟩, ⟨fun _ => 998, 1⟩, ⟨fun _ => 500, 1 / 2⟩]]

example : extremaMasked exConsts 2 exPts 1 0 1 = (1000, 998, true) ∧ densityCheck exConsts 2 true false exPts = false ∧
    (extremaMasked exConsts 2 exPts (1 / 3) 0 1).2.2 = false ∧ extrema exConsts 2 exPts 0 1 = (1000, 1) := by
  decide +kernel

/-- The reductions over the ranks give the largest and the least of the values that the ranks hold. -/
theorem reduce_spec {K : Type*} [Field K] [LinearOrder K] [IsStrictOrderedRing K] {nproc : ℕ} (hp : 0 < nproc) (v : ℕ → K) :
    ((∀ p < nproc, v p ≤ reduceMax nproc v) ∧ ∃ p < nproc, reduceMax nproc v = v p) ∧
    (∀ p < nproc, reduceMin nproc v ≤ v p) ∧ ∃ p < nproc, reduceMin nproc v = v p := by
  have a := foldl_max (List.range nproc) v (v 0)
  have b := foldl_min (List.range nproc) v (v 0)
  refine ⟨⟨fun p h => a.2.1 p (List.mem_range.mpr h), ?_⟩, fun p h => b.2.1 p (List.mem_range.mpr h), ?_⟩
  · rcases a.2.2 with h | ⟨p, hm, h⟩
    · exact ⟨0, hp, h⟩
    · exact ⟨p, List.mem_range.mp hm, h⟩
  · rcases b.2.2 with h | ⟨p, hm, h⟩
    · exact ⟨0, hp, h⟩
    · exact ⟨p, List.mem_range.mp hm, h⟩

end AmrWind.Amr
