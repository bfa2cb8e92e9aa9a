import Verif.Regrid.Spec
import Mathlib.Algebra.BigOperators.Field
import Mathlib.Tactic.Ring
import Mathlib.Tactic.FieldSimp
import Mathlib.Tactic.Linarith
import Mathlib.Tactic.NormNum

/-!
# A change of the mesh keeps the solution
-/

namespace AmrWind.Regrid

set_option linter.unusedSectionVars false

open Plane (Cell Axis)
open Amr (coarsen)

/-! ## Cells in cells -/

theorem ediv_iff {a p : ℤ} {r : ℕ} (hr : 0 < r) : a / r = p ↔ ∃ i < r, p * r + (i : ℕ) = a := by
  have hr' : (0 : ℤ) < r := by exact_mod_cast hr
  constructor
  · rintro rfl
    have h1 := Int.emod_nonneg a hr'.ne'
    have h2 := Int.emod_lt_of_pos a hr'
    refine ⟨(a % r).toNat, by omega, ?_⟩
    have := Int.mul_ediv_add_emod a r
    rw [Int.toNat_of_nonneg h1]; linarith [mul_comm (r : ℤ) (a / r)]
  · rintro ⟨i, hi, rfl⟩
    rw [add_comm, Int.add_mul_ediv_right _ _ hr'.ne', Int.ediv_eq_zero_of_lt (by omega) (by omega), zero_add]

theorem mem_children {r : Axis → ℕ} (hr : ∀ d, 0 < r d) {p c : Cell} : c ∈ children r p ↔ coarsen r c = p := by
  obtain ⟨a, b, e⟩ := c
  obtain ⟨p, q, w⟩ := p
  simp only [children, coarsen, Finset.mem_image, Finset.mem_product, Finset.mem_range, Prod.exists, Prod.mk.injEq,
    ediv_iff (hr _)]
  constructor
  · rintro ⟨i, j, k, ⟨hi, hj, hk⟩, h1, h2, h3⟩
    exact ⟨⟨i, hi, h1⟩, ⟨j, hj, h2⟩, k, hk, h3⟩
  · rintro ⟨⟨i, hi, h1⟩, ⟨j, hj, h2⟩, k, hk, h3⟩
    exact ⟨i, j, k, ⟨hi, hj, hk⟩, h1, h2, h3⟩

theorem mem_cellsOf {r : Axis → ℕ} (hr : ∀ d, 0 < r d) {P : Finset Cell} {c : Cell} :
    c ∈ cellsOf r P ↔ coarsen r c ∈ P := by
  simp [cellsOf, mem_children hr]

theorem sum_cellsOf {K : Type*} [AddCommMonoid K] {r : Axis → ℕ} (hr : ∀ d, 0 < r d) (P : Finset Cell) (v : Cell → K) :
    ∑ c ∈ cellsOf r P, v c = ∑ p ∈ P, ∑ c ∈ children r p, v c := by
  refine Finset.sum_biUnion ?_
  intro p _ q _ hpq
  refine Finset.disjoint_left.mpr fun c h1 h2 => hpq ?_
  exact ((mem_children hr).mp h1).symm.trans ((mem_children hr).mp h2)

theorem sum_children {K : Type*} [AddCommMonoid K] (r : Axis → ℕ) (p : Cell) (v : Cell → K) :
    ∑ c ∈ children r p, v c = ∑ i ∈ Finset.range (r .x), ∑ j ∈ Finset.range (r .y), ∑ k ∈ Finset.range (r .z),
      v (p.1 * r .x + i, p.2.1 * r .y + j, p.2.2 * r .z + k) := by
  rw [children, Finset.sum_image, Finset.sum_product]
  · exact Finset.sum_congr rfl fun i _ => Finset.sum_product ..
  · rintro ⟨a, b, c⟩ _ ⟨a', b', c'⟩ _ h
    simp only [Prod.mk.injEq] at h ⊢
    omega

theorem card_children (r : Axis → ℕ) (p : Cell) : (children r p).card = volRatio r := by
  have h := sum_children (K := ℕ) r p (fun _ => 1)
  simp only [Finset.sum_const, smul_eq_mul, mul_one, Finset.card_range] at h
  rw [h, volRatio]; ring

/-! ## Values after a change of the mesh -/

section values
variable {K : Type*} [Zero K] {o : Ops K}

theorem from_kept {lev : ℕ} {cov : Finset Cell} {co : Data K} {olds : List (Level K)}
    {news : List (Option (Finset Cell))} {l : ℕ} {old new : Level K} (ho : olds[l]? = some old)
    (hn : (regridFrom o lev cov co olds news)[l]? = some new) {fld : ℕ} (hf : o.flagged fld = true) {c : Cell}
    (hc : coarsen (o.ratio (lev + l)) c ∈ old.refined) : new.data.val fld c = old.data.val fld c := by
  induction l generalizing lev cov co olds news with
  | zero =>
    cases olds with
    | nil => simp at ho
    | cons a olds =>
      cases news with
      | nil => simp [regridFrom] at hn
      | cons m news =>
        simp only [List.getElem?_cons_zero, Option.some.injEq] at ho
        subst ho
        cases m with
        | none => simp [regridFrom] at hn; rw [← hn]
        | some m =>
          simp only [regridFrom, List.getElem?_cons_zero, Option.some.injEq] at hn
          rw [← hn]
          simp only [remake, hf, if_true]
          rw [if_pos (by simpa using hc)]
  | succ l ih =>
    cases olds with
    | nil => simp at ho
    | cons a olds =>
      cases news with
      | nil => simp [regridFrom] at hn
      | cons m news =>
        have hc' : coarsen (o.ratio (lev + 1 + l)) c ∈ old.refined := by
          rw [show lev + 1 + l = lev + (l + 1) by omega]; exact hc
        cases m with
        | none => simp only [regridFrom, List.getElem?_cons_succ] at hn ho; exact ih ho hn hc'
        | some m => simp only [regridFrom, List.getElem?_cons_succ] at hn ho; exact ih ho hn hc'

theorem from_fresh {lev : ℕ} {cov : Finset Cell} {co : Data K} {olds : List (Level K)}
    {news : List (Option (Finset Cell))} {l : ℕ} {m : Finset Cell} {new : Level K} (hm : news[l]? = some (some m))
    (hn : (regridFrom o lev cov co olds news)[l]? = some new) {fld : ℕ} (hf : o.flagged fld = true) {c : Cell}
    (hc : ∀ old, olds[l]? = some old → coarsen (o.ratio (lev + l)) c ∉ old.refined) :
    new.data.val fld c = o.interp (lev + l) fld
      (belowFrom o.ratio lev (cov, co) (regridFrom o lev cov co olds news) l).1
      ((belowFrom o.ratio lev (cov, co) (regridFrom o lev cov co olds news) l).2.val fld) c := by
  induction l generalizing lev cov co olds news with
  | zero =>
    cases news with
    | nil => simp at hm
    | cons a news =>
      simp only [List.getElem?_cons_zero, Option.some.injEq] at hm
      subst hm
      cases olds with
      | nil =>
        simp only [regridFrom, List.getElem?_cons_zero, Option.some.injEq] at hn
        rw [← hn]
        simp [fromCoarse, hf, belowFrom]
      | cons a olds =>
        simp only [regridFrom, List.getElem?_cons_zero, Option.some.injEq] at hn
        rw [← hn]
        have := hc a (by simp)
        simp only [remake, hf, if_true, belowFrom, add_zero]
        rw [if_neg (by simpa using this)]
  | succ l ih =>
    cases news with
    | nil => simp at hm
    | cons a news =>
      simp only [List.getElem?_cons_succ] at hm
      cases olds with
      | nil =>
        cases a with
        | none => simp [regridFrom] at hn
        | some a =>
          simp only [regridFrom, List.getElem?_cons_succ] at hn
          have := ih hm hn (by simp)
          rw [this, show lev + 1 + l = lev + (l + 1) by omega]
          rfl
      | cons b olds =>
        have hc' : ∀ old, olds[l]? = some old → coarsen (o.ratio (lev + 1 + l)) c ∉ old.refined := by
          intro old h
          rw [show lev + 1 + l = lev + (l + 1) by omega]
          exact hc old (by simpa using h)
        cases a with
        | none =>
          simp only [regridFrom, List.getElem?_cons_succ] at hn
          rw [ih hm hn hc', show lev + 1 + l = lev + (l + 1) by omega]
          rfl
        | some a =>
          simp only [regridFrom, List.getElem?_cons_succ] at hn
          rw [ih hm hn hc', show lev + 1 + l = lev + (l + 1) by omega]
          rfl

theorem from_dropped {lev : ℕ} {cov : Finset Cell} {co : Data K} {olds : List (Level K)}
    {news : List (Option (Finset Cell))} {l : ℕ} {m : Finset Cell} {new : Level K} (hm : news[l]? = some (some m))
    (hn : (regridFrom o lev cov co olds news)[l]? = some new) :
    new.refined = m ∧ (∀ fld c, o.flagged fld = false → new.data.val fld c = 0) ∧ ∀ fld c, new.data.ival fld c = none := by
  induction l generalizing lev cov co olds news with
  | zero =>
    cases news with
    | nil => simp at hm
    | cons a news =>
      simp only [List.getElem?_cons_zero, Option.some.injEq] at hm
      subst hm
      cases olds with
      | nil =>
        simp only [regridFrom, List.getElem?_cons_zero, Option.some.injEq] at hn
        rw [← hn]
        refine ⟨rfl, fun fld c h => ?_, fun _ _ => rfl⟩
        simp [fromCoarse, h, blank]
      | cons a olds =>
        simp only [regridFrom, List.getElem?_cons_zero, Option.some.injEq] at hn
        rw [← hn]
        refine ⟨rfl, fun fld c h => ?_, fun _ _ => rfl⟩
        simp [remake, h, blank]
  | succ l ih =>
    cases news with
    | nil => simp at hm
    | cons a news =>
      simp only [List.getElem?_cons_succ] at hm
      cases olds with
      | nil =>
        cases a with
        | none => simp [regridFrom] at hn
        | some a => simp only [regridFrom, List.getElem?_cons_succ] at hn; exact ih hm hn
      | cons b olds =>
        cases a with
        | none => simp only [regridFrom, List.getElem?_cons_succ] at hn; exact ih hm hn
        | some a => simp only [regridFrom, List.getElem?_cons_succ] at hn; exact ih hm hn

theorem from_untouched {lev : ℕ} {cov : Finset Cell} {co : Data K} {olds : List (Level K)}
    {news : List (Option (Finset Cell))} {l : ℕ} {new : Level K} (hm : news[l]? = some none)
    (hn : (regridFrom o lev cov co olds news)[l]? = some new) : olds[l]? = some new := by
  induction l generalizing lev cov co olds news with
  | zero =>
    cases news with
    | nil => simp at hm
    | cons a news =>
      simp only [List.getElem?_cons_zero, Option.some.injEq] at hm
      subst hm
      cases olds with
      | nil => simp [regridFrom] at hn
      | cons a olds => simpa [regridFrom] using hn
  | succ l ih =>
    cases news with
    | nil => simp at hm
    | cons a news =>
      simp only [List.getElem?_cons_succ] at hm
      cases olds with
      | nil =>
        cases a with
        | none => simp [regridFrom] at hn
        | some a =>
          simp only [regridFrom, List.getElem?_cons_succ] at hn
          have := ih hm hn
          simp at this
      | cons b olds =>
        cases a with
        | none => simp only [regridFrom, List.getElem?_cons_succ] at hn ⊢; exact ih hm hn
        | some a => simp only [regridFrom, List.getElem?_cons_succ] at hn ⊢; exact ih hm hn

theorem from_length {lev : ℕ} {cov : Finset Cell} {co : Data K} {olds : List (Level K)}
    {news : List (Option (Finset Cell))} (h : ∀ l, news[l]? = some none → l < olds.length) :
    (regridFrom o lev cov co olds news).length = news.length := by
  induction news generalizing lev cov co olds with
  | nil => cases olds <;> simp [regridFrom]
  | cons a news ih =>
    cases olds with
    | nil =>
      cases a with
      | none => have := h 0 (by simp); simp at this
      | some a =>
        simp only [regridFrom, List.length_cons, Nat.add_right_cancel_iff]
        refine ih fun l hl => ?_
        have := h (l + 1) (by simpa using hl)
        simp at this
    | cons b olds =>
      have h' : ∀ l, news[l]? = some none → l < olds.length := fun l hl => by
        have := h (l + 1) (by simpa using hl)
        simpa using this
      cases a with
      | none => simp only [regridFrom, List.length_cons, Nat.add_right_cancel_iff]; exact ih h'
      | some a => simp only [regridFrom, List.length_cons, Nat.add_right_cancel_iff]; exact ih h'

/-- **C133, the mesh.** The levels after a change of the mesh are those asked for: as many as there are in the new mesh,
with the cells asked for where they change and as they were where they do not; level 0 is as it was. -/
theorem regrid_mesh (o : Ops K) (s : State K) (news : List (Option (Finset Cell)))
    (h : ∀ l, news[l]? = some none → l < s.fine.length) :
    (regrid o s news).cells = s.cells ∧ (regrid o s news).base = s.base ∧
      (regrid o s news).fine.length = news.length ∧
      ∀ (l : ℕ) (new : Level K), (regrid o s news).fine[l]? = some new →
        (∀ m, news[l]? = some (some m) → new.refined = m) ∧ (news[l]? = some none → s.fine[l]? = some new) :=
  ⟨rfl, rfl, from_length h, fun _ _ hn =>
    ⟨fun _ hm => (from_dropped hm hn).1, fun hm => from_untouched hm hn⟩⟩

/-- **C133, cells that stay.** A cell that level `l + 1` had before and has after keeps the values of all fields that are
to be filled. -/
theorem regrid_keeps (hr : ∀ lev d, 0 < o.ratio lev d) (s : State K) (news : List (Option (Finset Cell))) {l : ℕ}
    {old new : Level K} (ho : s.fine[l]? = some old) (hn : (regrid o s news).fine[l]? = some new) {c : Cell}
    (hc : c ∈ cellsOf (o.ratio l) old.refined) (_hc' : c ∈ cellsOf (o.ratio l) new.refined) {fld : ℕ}
    (hf : o.flagged fld = true) : new.data.val fld c = old.data.val fld c := by
  refine from_kept ho hn hf ?_
  rw [Nat.zero_add]
  exact (mem_cellsOf (hr l)).mp hc

/-- **C133, new cells.** A cell that level `l + 1` did not have gets, for all fields that are to be filled, what the
interpolation makes of the level below as it is after the change. -/
theorem regrid_fresh (hr : ∀ lev d, 0 < o.ratio lev d) (s : State K) (news : List (Option (Finset Cell))) {l : ℕ}
    {m : Finset Cell} {new : Level K} (hm : news[l]? = some (some m)) (hn : (regrid o s news).fine[l]? = some new)
    {c : Cell} (hc : ∀ old, s.fine[l]? = some old → c ∉ cellsOf (o.ratio l) old.refined) {fld : ℕ}
    (hf : o.flagged fld = true) :
    new.data.val fld c = o.interp l fld (below o.ratio (regrid o s news) l).1
      ((below o.ratio (regrid o s news) l).2.val fld) c := by
  have := from_fresh (o := o) (lev := 0) (cov := s.cells) (co := s.base) hm hn hf (c := c) (by
    intro old h
    rw [Nat.zero_add]
    exact fun hh => hc old h ((mem_cellsOf (hr l)).mpr hh))
  rw [Nat.zero_add] at this
  exact this

/-- **C133, what is lost.** On a level that changes, all real fields that are not to be filled are zero in every cell,
also where the level had them before, and no integer field has a value. -/
theorem regrid_loses (o : Ops K) (s : State K) (news : List (Option (Finset Cell))) {l : ℕ} {m : Finset Cell}
    {new : Level K} (hm : news[l]? = some (some m)) (hn : (regrid o s news).fine[l]? = some new) :
    (∀ fld c, o.flagged fld = false → new.data.val fld c = 0) ∧ ∀ fld c, new.data.ival fld c = none :=
  (from_dropped hm hn).2

/-- **C133, masks.** After the masks are set they are one in every cell of every level and everything else is as it
was. -/
theorem masks_one (mc mn : ℕ) (s : State K) :
    (∀ c, (setMasks mc mn s).base.ival mc c = some 1 ∧ (setMasks mc mn s).base.ival mn c = some 1) ∧
      (∀ L ∈ (setMasks mc mn s).fine, ∀ c, L.data.ival mc c = some 1 ∧ L.data.ival mn c = some 1) ∧
      (setMasks mc mn s).fine.map (fun L => (L.refined, L.data.val)) = s.fine.map (fun L => (L.refined, L.data.val)) ∧
      (setMasks mc mn s).base.val = s.base.val ∧
      ∀ n, n ≠ mc → n ≠ mn → (setMasks mc mn s).base.ival n = s.base.ival n ∧
        (setMasks mc mn s).fine.map (fun L => L.data.ival n) = s.fine.map (fun L => L.data.ival n) := by
  refine ⟨fun c => by simp [setMasks, State.mapData], ?_, ?_, rfl, ?_⟩
  · intro L hL c
    simp only [setMasks, State.mapData, List.mem_map] at hL
    obtain ⟨L', _, rfl⟩ := hL
    simp
  · simp [setMasks, State.mapData, Function.comp_def]
  · intro n h1 h2
    simp [setMasks, State.mapData, h1, h2, Function.comp_def]

/-- **C133, old states.** When the states are shifted at the start of the step, the old state of a field has the values
of its new one on every level, whatever a change of the mesh left there; the new one is as it was. -/
theorem old_state_restored (new old : ℕ) (hne : new ≠ old) (s : State K) :
    (advanceState new old s).base.val old = s.base.val new ∧ (advanceState new old s).base.val new = s.base.val new ∧
      (advanceState new old s).fine.map (fun L => (L.refined, L.data.val old)) =
        s.fine.map (fun L => (L.refined, L.data.val new)) ∧
      (advanceState new old s).fine.map (fun L => (L.refined, L.data.val new)) =
        s.fine.map (fun L => (L.refined, L.data.val new)) := by
  refine ⟨?_, ?_, ?_, ?_⟩
  · funext c; simp [advanceState, State.mapData]
  · funext c; simp [advanceState, State.mapData, hne]
  · simp [advanceState, State.mapData, Function.comp_def]
  · simp [advanceState, State.mapData, Function.comp_def, hne]

end values

/-! ## No new extrema -/

section range
variable {K : Type*} [Zero K] [LE K] {o : Ops K}

theorem from_range (hr : ∀ lev d, 0 < o.ratio lev d) {fld : ℕ} (hf : o.flagged fld = true) (hi : NoNewExtrema o fld)
    {a b : K} {lev : ℕ} {cov : Finset Cell} {co : Data K} {olds : List (Level K)} {news : List (Option (Finset Cell))}
    (hco : ∀ c ∈ cov, a ≤ co.val fld c ∧ co.val fld c ≤ b)
    (hol : AllFrom o.ratio (fun x => a ≤ x ∧ x ≤ b) fld lev olds)
    (hne : NestedFrom o.ratio lev cov (regridFrom o lev cov co olds news)) :
    AllFrom o.ratio (fun x => a ≤ x ∧ x ≤ b) fld lev (regridFrom o lev cov co olds news) := by
  induction news generalizing lev cov co olds with
  | nil => cases olds <;> simp [regridFrom, AllFrom]
  | cons m news ih =>
    cases olds with
    | nil =>
      cases m with
      | none => simp [regridFrom, AllFrom]
      | some m =>
        simp only [regridFrom, NestedFrom] at hne ⊢
        have h1 : ∀ c ∈ cellsOf (o.ratio lev) m, a ≤ (fromCoarse o lev cov co m).data.val fld c ∧
            (fromCoarse o lev cov co m).data.val fld c ≤ b := by
          intro c hc
          simp only [fromCoarse, hf, if_true]
          exact hi lev cov _ a b c (hne.1 ((mem_cellsOf (hr lev)).mp hc)) hco
        exact ⟨h1, ih h1 (by simp [AllFrom]) hne.2⟩
    | cons old olds =>
      cases m with
      | none =>
        simp only [regridFrom, NestedFrom] at hne ⊢
        exact ⟨hol.1, ih hol.1 hol.2 hne.2⟩
      | some m =>
        simp only [regridFrom, NestedFrom] at hne ⊢
        have h1 : ∀ c ∈ cellsOf (o.ratio lev) m, a ≤ (remake o lev cov co old m).data.val fld c ∧
            (remake o lev cov co old m).data.val fld c ≤ b := by
          intro c hc
          simp only [remake, hf, if_true]
          by_cases h : coarsen (o.ratio lev) c ∈ old.refined
          · rw [if_pos h]; exact hol.1 c ((mem_cellsOf (hr lev)).mpr h)
          · rw [if_neg h]; exact hi lev cov _ a b c (hne.1 ((mem_cellsOf (hr lev)).mp hc)) hco
        exact ⟨h1, ih h1 hol.2 hne.2⟩

/-- **C133, range.** Through any sequence of changes of the mesh the values of a field that is to be filled, in all cells
of all levels, stay within the bounds they had. -/
theorem regrids_range (hr : ∀ lev d, 0 < o.ratio lev d) {fld : ℕ} (hf : o.flagged fld = true)
    (hi : NoNewExtrema o fld) {a b : K} {s t : State K} (h : AllValues o.ratio (fun x => a ≤ x ∧ x ≤ b) fld s)
    (ht : Regrids o s t) : AllValues o.ratio (fun x => a ≤ x ∧ x ≤ b) fld t := by
  induction ht with
  | refl => exact h
  | step news _ hn ih => exact ⟨ih.1, from_range hr hf hi ih.1 ih.2 hn⟩

end range

/-! ## Conservation -/

section conserve
variable {K : Type*} [Field K] [CharZero K] {o : Ops K}

theorem volRatio_ne {r : Axis → ℕ} (hr : ∀ d, 0 < r d) : (volRatio r : K) ≠ 0 := by
  have : volRatio r ≠ 0 := by
    have := hr .x; have := hr .y; have := hr .z
    simp only [volRatio]; positivity
  exact_mod_cast this

theorem integralFrom_means {r : ℕ → Axis → ℕ} (hr : ∀ lev d, 0 < r lev d) (fld : ℕ) {lev : ℕ} {vol : K}
    {cells : Finset Cell} {v : Cell → K} {ls : List (Level K)} (hn : NestedFrom r lev cells ls)
    (hm : MeansFrom r fld lev v ls) : integralFrom r fld lev vol cells v ls = vol * ∑ c ∈ cells, v c := by
  induction ls generalizing lev vol cells v with
  | nil => rfl
  | cons L rest ih =>
    have h0 := volRatio_ne (K := K) (hr lev)
    rw [integralFrom, ih hn.2 hm.2, sum_cellsOf (hr lev)]
    have : ∑ p ∈ L.refined, ∑ c ∈ children (r lev) p, L.data.val fld c = volRatio (r lev) * ∑ p ∈ L.refined, v p := by
      rw [Finset.mul_sum]
      refine Finset.sum_congr rfl fun p hp => ?_
      rw [hm.1 p hp]; field_simp
    rw [this, ← Finset.sum_sdiff hn.1]
    field_simp

theorem from_means (hr : ∀ lev d, 0 < o.ratio lev d) {fld : ℕ} (hf : o.flagged fld = true) (hc : Conservative o fld)
    {lev : ℕ} {cov cov' : Finset Cell} {co co' : Data K} {olds : List (Level K)} {news : List (Option (Finset Cell))}
    (hag : ∀ c ∈ cov, c ∈ cov' → co'.val fld c = co.val fld c)
    (hol : NestedFrom o.ratio lev cov olds) (hm : MeansFrom o.ratio fld lev (co.val fld) olds)
    (hne : NestedFrom o.ratio lev cov' (regridFrom o lev cov' co' olds news)) :
    MeansFrom o.ratio fld lev (co'.val fld) (regridFrom o lev cov' co' olds news) := by
  induction news generalizing lev cov cov' co co' olds with
  | nil => cases olds <;> simp [regridFrom, MeansFrom]
  | cons m news ih =>
    cases olds with
    | nil =>
      cases m with
      | none => simp [regridFrom, MeansFrom]
      | some m =>
        simp only [regridFrom, NestedFrom] at hne ⊢
        refine ⟨fun p hp => ?_, ih (cov := ∅) (co := co) (by simp) (by simp [NestedFrom]) (by simp [MeansFrom]) hne.2⟩
        rw [hc lev cov' (co'.val fld) p (hne.1 hp)]
        simp [fromCoarse, hf]
    | cons old olds =>
      cases m with
      | none =>
        simp only [regridFrom, NestedFrom] at hne ⊢
        refine ⟨fun p hp => ?_, ih (fun c _ _ => rfl) hol.2 hm.2 hne.2⟩
        rw [hag p (hol.1 hp) (hne.1 hp)]
        exact hm.1 p hp
      | some m =>
        simp only [regridFrom, NestedFrom] at hne ⊢
        refine ⟨fun p hp => ?_, ih (cov := cellsOf (o.ratio lev) old.refined) (co := old.data) ?_ hol.2 hm.2 hne.2⟩
        · by_cases h : p ∈ old.refined
          · rw [hag p (hol.1 h) (hne.1 hp), hm.1 p h]
            congr 1
            refine Finset.sum_congr rfl fun c hcc => ?_
            simp only [remake, hf, if_true]
            rw [if_pos (by rw [(mem_children (hr lev)).mp hcc]; exact h)]
          · rw [hc lev cov' (co'.val fld) p (hne.1 hp)]
            congr 1
            refine Finset.sum_congr rfl fun c hcc => ?_
            simp only [remake, hf, if_true]
            rw [if_neg (by rw [(mem_children (hr lev)).mp hcc]; exact h)]
        · intro c h1 _
          simp only [remake, hf, if_true]
          rw [if_pos ((mem_cellsOf (hr lev)).mp h1)]

/-- **C133, conservation.** From a state where each refined cell holds the mean of the cells in it, any sequence of
changes of the mesh leads to states of the same kind, and the integral over the domain of a field that is to be filled
stays the same.

Partial (C133). Missing: fields without the flag, where it is false (`regrid_loses`). -/
theorem regrids_conserve_partial (hr : ∀ lev d, 0 < o.ratio lev d) {fld : ℕ} (hf : o.flagged fld = true)
    (hc : Conservative o fld) (vol : K) {s t : State K} (hn : Nested o.ratio s) (hm : Means o.ratio fld s)
    (ht : Regrids o s t) :
    Means o.ratio fld t ∧ integral o.ratio fld vol t = integral o.ratio fld vol s := by
  have key : t.cells = s.cells ∧ t.base = s.base ∧ Nested o.ratio t ∧ Means o.ratio fld t := by
    induction ht with
    | refl => exact ⟨rfl, rfl, hn, hm⟩
    | step news _ hn' ih =>
      exact ⟨ih.1, ih.2.1, hn', from_means hr hf hc (fun _ _ _ => rfl) ih.2.2.1 ih.2.2.2 hn'⟩
  refine ⟨key.2.2.2, ?_⟩
  rw [integral, integral, integralFrom_means hr fld key.2.2.1 key.2.2.2, integralFrom_means hr fld hn hm, key.1,
    key.2.1]

/-- **C133, conservation fails otherwise.** When the only refined level is given up the integral changes by exactly the
difference between the refined cells and the means of the cells in them. -/
theorem coarsening_changes_integral (hr : ∀ lev d, 0 < o.ratio lev d) (fld : ℕ) (vol : K) (s : State K) (L : Level K)
    (hs : s.fine = [L]) (hn : Nested o.ratio s) :
    integral o.ratio fld vol (regrid o s []) - integral o.ratio fld vol s =
      vol * ∑ p ∈ L.refined, (s.base.val fld p -
        (∑ c ∈ children (o.ratio 0) p, L.data.val fld c) / volRatio (o.ratio 0)) := by
  have h0 := volRatio_ne (K := K) (hr 0)
  simp only [Nested, hs, NestedFrom] at hn
  simp only [integral, regrid, hs, regridFrom, integralFrom]
  rw [sum_cellsOf (hr 0), ← Finset.sum_sdiff hn.1, Finset.sum_sub_distrib, ← Finset.sum_div]
  field_simp
  ring

end conserve

/-! ## Interpolation -/

section interp
variable {K : Type*} [Field K]

/-- Interpolation that gives every cell the value of the cell it is in (`amrex::pc_interp`). -/
def constantInterp (r : ℕ → Axis → ℕ) : ℕ → ℕ → Finset Cell → (Cell → K) → Cell → K :=
  fun lev _ _ u c => u (coarsen (r lev) c)

/-- The distance of the centre of a cell from the centre of the cell it is in, in widths of the latter. -/
def offset (r : ℕ) (i : ℤ) : K := (((i % r : ℤ) : K) + 1 / 2) / r - 1 / 2

/-- Linear interpolation (`amrex::cell_cons_interp`) with any slopes, however limited: `sl lev fld cov u d p` is the slope
in direction `d` in cell `p`. -/
def linearInterp (r : ℕ → Axis → ℕ) (sl : ℕ → ℕ → Finset Cell → (Cell → K) → Axis → Cell → K) :
    ℕ → ℕ → Finset Cell → (Cell → K) → Cell → K :=
  fun lev fld cov u c =>
    let p := coarsen (r lev) c
    u p + sl lev fld cov u .x p * offset (r lev .x) c.1 + sl lev fld cov u .y p * offset (r lev .y) c.2.1 +
      sl lev fld cov u .z p * offset (r lev .z) c.2.2

theorem offset_add {r : ℕ} (hr : 0 < r) (p : ℤ) {i : ℕ} (hi : i < r) :
    (offset r (p * r + i) : K) = ((i : K) + 1 / 2) / r - 1 / 2 := by
  have : (p * r + i) % (r : ℤ) = i := by
    rw [add_comm, Int.add_mul_emod_self_right, Int.emod_eq_of_lt (by omega) (by omega)]
  rw [offset, this]; simp

theorem sum_offset [CharZero K] {r : ℕ} (hr : 0 < r) (p : ℤ) :
    ∑ i ∈ Finset.range r, (offset r (p * r + (i : ℕ)) : K) = 0 := by
  have h : ∀ n : ℕ, ∑ i ∈ Finset.range n, (((i : ℕ) : K) + 1 / 2) = (n : K) * n / 2 := by
    intro n
    induction n with
    | zero => simp
    | succ n ih => rw [Finset.sum_range_succ, ih]; push_cast; ring
  have h0 : (r : K) ≠ 0 := by exact_mod_cast hr.ne'
  rw [Finset.sum_congr rfl fun i hi => offset_add (K := K) hr p (Finset.mem_range.mp hi), Finset.sum_sub_distrib,
    ← Finset.sum_div, h]
  simp only [Finset.sum_const, Finset.card_range, nsmul_eq_mul]
  field_simp
  ring

/-- **C133, linear interpolation conserves,** whatever the slopes. -/
theorem linear_conservative [CharZero K] (o : Ops K) (hr : ∀ lev d, 0 < o.ratio lev d)
    (sl : ℕ → ℕ → Finset Cell → (Cell → K) → Axis → Cell → K) (fld : ℕ)
    (ho : ∀ lev, o.interp lev fld = linearInterp o.ratio sl lev fld) : Conservative o fld := by
  intro lev cov u p _
  have h0 := volRatio_ne (K := K) (hr lev)
  rw [eq_div_iff h0, ho]
  have h1 : ∀ c ∈ children (o.ratio lev) p, linearInterp o.ratio sl lev fld cov u c =
      u p + sl lev fld cov u .x p * offset (o.ratio lev .x) c.1 + sl lev fld cov u .y p * offset (o.ratio lev .y) c.2.1 +
        sl lev fld cov u .z p * offset (o.ratio lev .z) c.2.2 := by
    intro c hc
    simp only [linearInterp, (mem_children (hr lev)).mp hc]
  rw [Finset.sum_congr rfl h1, Finset.sum_add_distrib, Finset.sum_add_distrib, Finset.sum_add_distrib,
    ← Finset.mul_sum, ← Finset.mul_sum, ← Finset.mul_sum]
  have hx : ∑ c ∈ children (o.ratio lev) p, (offset (o.ratio lev .x) c.1 : K) = 0 := by
    rw [sum_children]
    simp only [Finset.sum_const, ← Finset.smul_sum]
    rw [sum_offset (hr lev .x), smul_zero, smul_zero]
  have hy : ∑ c ∈ children (o.ratio lev) p, (offset (o.ratio lev .y) c.2.1 : K) = 0 := by
    rw [sum_children]
    simp only [Finset.sum_const, ← Finset.smul_sum]
    rw [sum_offset (hr lev .y), smul_zero, smul_zero]
  have hz : ∑ c ∈ children (o.ratio lev) p, (offset (o.ratio lev .z) c.2.2 : K) = 0 := by
    rw [sum_children]
    simp only [Finset.sum_const]
    rw [sum_offset (hr lev .z), smul_zero, smul_zero]
  rw [hx, hy, hz, Finset.sum_const, card_children, nsmul_eq_mul]
  ring

/-- Constant interpolation conserves. -/
theorem constant_conservative [CharZero K] (o : Ops K) (hr : ∀ lev d, 0 < o.ratio lev d) (fld : ℕ)
    (ho : ∀ lev, o.interp lev fld = constantInterp o.ratio lev fld) : Conservative o fld :=
  linear_conservative o hr (fun _ _ _ _ _ _ => 0) fld fun lev => by
    rw [ho]; funext cov u c; simp [constantInterp, linearInterp]

/-- Constant interpolation makes no new extrema. -/
theorem constant_range [LE K] (o : Ops K) (fld : ℕ) (ho : ∀ lev, o.interp lev fld = constantInterp o.ratio lev fld) :
    NoNewExtrema o fld := by
  intro lev cov u a b c hc h
  rw [ho]
  exact h _ hc

/-! ## Examples -/

/-- Two cells, refined by two in each direction, constant interpolation; field 0 is to be filled, field 1 not. -/
def exOps : Ops ℚ := ⟨fun _ _ => 2, constantInterp fun _ _ => 2, fun f => f == 0⟩

/-- Two cells with values 3 and 5, the first refined; its cells hold 3 + z, z = ±1. -/
def exState : State ℚ :=
  ⟨{(0, 0, 0), (1, 0, 0)}, ⟨fun _ c => if c.1 = 0 then 3 else 5, fun _ _ => some 1⟩,
    [⟨{(0, 0, 0)}, ⟨fun _ c => if c.2.2 = 0 then 2 else 4, fun _ _ => some 1⟩⟩]⟩

example : Nested exOps.ratio exState := by
  simp [Nested, NestedFrom, exState]

example : Means exOps.ratio 0 exState := by
  simp only [Means, MeansFrom, exState, exOps]
  decide +kernel

/-- Refining the second cell too keeps the cells of the first and copies the second. -/
example : ((regrid exOps exState [some {(0, 0, 0), (1, 0, 0)}]).fine.map fun L =>
    (L.data.val 0 (0, 0, 0), L.data.val 0 (1, 1, 1), L.data.val 0 (2, 1, 1), L.data.val 1 (0, 0, 0),
      L.data.ival 0 (0, 0, 0))) = [(2, 4, 5, 0, none)] := by decide +kernel

/-- It keeps the integral; and so does giving up the level. -/
example : integral exOps.ratio 0 1 exState = 8 ∧
    integral exOps.ratio 0 1 (regrid exOps exState [some {(0, 0, 0), (1, 0, 0)}]) = 8 ∧
    integral exOps.ratio 0 1 (regrid exOps exState []) = 8 := by decide +kernel

example : Regrids exOps exState (regrid exOps exState [some {(0, 0, 0), (1, 0, 0)}]) :=
  .step _ .refl (by simp [Nested, NestedFrom, regrid, regridFrom, exState, remake])

end interp

end AmrWind.Regrid
