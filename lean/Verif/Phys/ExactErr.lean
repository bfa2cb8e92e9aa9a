import Mathlib.Analysis.SpecialFunctions.Pow.Real
import Mathlib.Tactic.FieldSimp
import Verif.Phys.ExactModel
import Verif.Amr.Props

/-! # The error logs are root mean squares over the domain (property C102) -/

set_option linter.unusedSectionVars false

namespace AmrWind.Exact

open Plane (Cell Bx Axis cells)
open Amr

variable {nproc : ℕ} {dom : Bx} {levels : List Lev}

theorem total_err (vol : ℕ → Cell → ℝ) (act : ℕ → Cell → Bool) (u ex : ℕ → Cell → ℝ) :
    total nproc (errTerm vol act u ex) levels = ((leavesFrom nproc 0 levels).map fun l =>
      vol l.1 l.2.2 * (if act l.1 l.2.2 then 1 else 0) * (u l.1 l.2.2 - ex l.1 l.2.2) ^ 2).sum := by
  unfold total
  rw [total_from (fun lev c => by simp [errTerm])]
  congr 1
  apply List.map_congr_left
  intro l _
  unfold errTerm
  split_ifs <;> push_cast <;> ring

theorem total_vol (vol : ℕ → Cell → ℝ) (act : ℕ → Cell → Bool) :
    total nproc (volTerm vol act) levels = ((leavesFrom nproc 0 levels).map fun l =>
      vol l.1 l.2.2 * (if act l.1 l.2.2 then 1 else 0)).sum := by
  unfold total
  rw [total_from (fun lev c => by simp [volTerm])]
  congr 1
  apply List.map_congr_left
  intro l _
  unfold volTerm
  split_ifs <;> simp

theorem leaf_uncovered (hn : Nested nproc levels) {l : ℕ × List Lev × Cell} (hl : l ∈ leavesFrom nproc 0 levels) :
    Uncovered nproc levels l.1 l.2.2 := by
  obtain ⟨a, b, c⟩ := l
  simpa using ((mem_leavesFrom hn 0).mp hl).2.2

theorem uncovered_leaf (hn : Nested nproc levels) {lev : ℕ} {c : Cell} (hu : Uncovered nproc levels lev c) :
    (lev, levels.drop lev, c) ∈ leavesFrom nproc 0 levels := by
  rw [mem_leavesFrom hn 0]
  exact ⟨Nat.zero_le _, by simp, by simpa using hu⟩

theorem sum_le {α : Type*} (l : List α) (f g : α → ℝ) (h : ∀ a ∈ l, f a ≤ g a) : (l.map f).sum ≤ (l.map g).sum := by
  induction l with
  | nil => simp
  | cons a l ih =>
    simp only [List.map_cons, List.sum_cons]
    exact add_le_add (h a (by simp)) (ih fun b hb => h b (by simp [hb]))

theorem sum_pos {α : Type*} (l : List α) (f : α → ℝ) (h0 : ∀ a ∈ l, 0 ≤ f a) {a : α} (ha : a ∈ l) (hp : 0 < f a) : 0 < (l.map f).sum := by
  induction l with
  | nil => simp at ha
  | cons b l ih =>
    simp only [List.map_cons, List.sum_cons]
    have h1 : 0 ≤ (l.map f).sum := List.sum_nonneg (by
      intro x hx
      obtain ⟨c, hc, rfl⟩ := List.mem_map.mp hx
      exact h0 c (by simp [hc]))
    rcases List.mem_cons.mp ha with rfl | ha
    · linarith
    · have := ih (fun c hc => h0 c (by simp [hc])) ha
      have := h0 b (by simp)
      linarith

/-- The volume that is compared is positive if some uncovered cell is active. -/
theorem total_vol_pos (hn : Nested nproc levels) {vol : ℕ → Cell → ℝ} {act : ℕ → Cell → Bool}
    (hv : ∀ lev c, Uncovered nproc levels lev c → 0 < vol lev c) {lev : ℕ} {c : Cell} (hu : Uncovered nproc levels lev c)
    (ha : act lev c = true) : 0 < total nproc (volTerm vol act) levels := by
  rw [total_vol]
  refine sum_pos _ _ ?_ (uncovered_leaf hn hu) ?_
  · intro l hl
    have := hv _ _ (leaf_uncovered hn hl)
    split_ifs <;> simp [this.le]
  · simp [ha, hv _ _ hu]

/-- **C102**: the reported error is at most the largest and at least the smallest deviation in an uncovered, active cell; covered and blanked
cells do not count. In particular a deviation by the same amount everywhere is reported as its size. -/
theorem rms_bounds (hn : Nested nproc levels) {vol : ℕ → Cell → ℝ} {act : ℕ → Cell → Bool} {u ex : ℕ → Cell → ℝ}
    (hv : ∀ lev c, Uncovered nproc levels lev c → 0 < vol lev c)
    (hex : ∃ lev c, Uncovered nproc levels lev c ∧ act lev c = true) {m M : ℝ} (hm : 0 ≤ m)
    (hb : ∀ lev c, Uncovered nproc levels lev c → act lev c = true → m ≤ |u lev c - ex lev c| ∧ |u lev c - ex lev c| ≤ M) :
    m ≤ rmsActive nproc vol act u ex levels ∧ rmsActive nproc vol act u ex levels ≤ M := by
  obtain ⟨lev, c, hu, ha⟩ := hex
  have hpos := total_vol_pos hn hv hu ha
  have hM : 0 ≤ M := (abs_nonneg _).trans (hb lev c hu ha).2
  unfold rmsActive
  rw [total_err]
  constructor
  · apply Real.le_sqrt_of_sq_le
    rw [le_div_iff₀ hpos, total_vol, ← List.sum_map_mul_left]
    apply sum_le
    intro l hl
    have hu' := leaf_uncovered hn hl
    by_cases ha' : act l.1 l.2.2 = true
    · simp only [ha', if_true, mul_one]
      have := pow_le_pow_left₀ hm (hb _ _ hu' ha').1 2
      rw [sq_abs] at this
      rw [mul_comm]
      exact mul_le_mul_of_nonneg_left this (hv _ _ hu').le
    · simp [ha']
  · rw [Real.sqrt_le_left hM, div_le_iff₀ hpos, total_vol, ← List.sum_map_mul_left]
    apply sum_le
    intro l hl
    have hu' := leaf_uncovered hn hl
    by_cases ha' : act l.1 l.2.2 = true
    · simp only [ha', if_true, mul_one]
      have := pow_le_pow_left₀ (abs_nonneg _) (hb _ _ hu' ha').2 2
      rw [sq_abs] at this
      rw [mul_comm (M ^ 2)]
      exact mul_le_mul_of_nonneg_left this (hv _ _ hu').le
    · simp [ha']

/-- **C102**: the reported error is zero just if the field has the exact value in every uncovered, active cell. -/
theorem rms_zero (hn : Nested nproc levels) {vol : ℕ → Cell → ℝ} {act : ℕ → Cell → Bool} {u ex : ℕ → Cell → ℝ}
    (hv : ∀ lev c, Uncovered nproc levels lev c → 0 < vol lev c)
    (hex : ∃ lev c, Uncovered nproc levels lev c ∧ act lev c = true) :
    rmsActive nproc vol act u ex levels = 0 ↔ ∀ lev c, Uncovered nproc levels lev c → act lev c = true → u lev c = ex lev c := by
  constructor
  · intro h lev c hu ha
    by_contra hne
    obtain ⟨lev0, c0, hu0, ha0⟩ := hex
    have hpos := total_vol_pos hn hv hu0 ha0
    have : 0 < total nproc (errTerm vol act u ex) levels := by
      rw [total_err]
      refine sum_pos _ _ ?_ (uncovered_leaf hn hu) ?_
      · intro l hl
        have := hv _ _ (leaf_uncovered hn hl)
        split_ifs
        · positivity
        · simp
      · simp only [ha, if_true, mul_one]
        have h1 : 0 < (u lev c - ex lev c) ^ 2 := by
          have := sub_ne_zero.mpr hne
          positivity
        exact mul_pos (hv _ _ hu) h1
    have h2 : 0 < rmsActive nproc vol act u ex levels := Real.sqrt_pos.mpr (div_pos this hpos)
    exact absurd h h2.ne'
  · intro h
    have := rms_bounds hn hv hex (m := 0) (M := 0) (u := u) (ex := ex) le_rfl (fun lev c hu ha => by simp [h lev c hu ha])
    exact le_antisymm this.2 this.1

/-- **C102**: without mesh mapping the error divided by the volume of the domain is the same mean, for any levels, ratios, boxes and ranks;
its square times the volume is the integral of the squared deviation.

Partial (C102). Missing: the channel on mapped meshes, where it is false (`rms_mapped`). -/
theorem rms_domain_partial (hn : Nested nproc levels) (hc : Covers nproc dom levels) {dx : ℕ → Axis → ℝ} {h : Axis → ℝ}
    (hdx : Spacing dx h levels) {u ex : ℕ → Cell → ℝ} {F : Cell → ℝ} (hF : Represents nproc levels (fun lev c => u lev c - ex lev c) F) :
    let V := Amr.volume h (refineBox (refine levels) dom)
    total nproc (volTerm (fun lev _ => cellVol dx lev) fun _ _ => true) levels = V ∧
    rmsDomain nproc (fun lev _ => cellVol dx lev) V u ex levels = rmsActive nproc (fun lev _ => cellVol dx lev) (fun _ _ => true) u ex levels ∧
    (0 < V → rmsDomain nproc (fun lev _ => cellVol dx lev) V u ex levels ^ 2 * V =
      h .x * h .y * h .z * ((cells (refineBox (refine levels) dom)).map fun x => F x ^ 2).sum) := by
  intro V
  have hV : total nproc (volTerm (fun lev _ => cellVol dx lev) fun _ _ => true) levels = V := by
    have := composite_integral (nproc := nproc) hn hc hdx (f := fun _ _ => (1 : ℝ)) (F := fun _ => 1) (fun _ _ _ _ _ => rfl)
    have e : (fun (lev : ℕ) (_ : Cell) (m : ℤ) => cellVol dx lev * (m : ℝ) * 1) = volTerm (fun lev _ => cellVol dx lev) fun _ _ => true := by
      funext lev c m
      simp [volTerm]
    rw [e] at this
    rw [this]
    simp [V, Amr.volume]
  refine ⟨hV, ?_, ?_⟩
  · unfold rmsDomain rmsActive
    rw [hV]
  · intro hpos
    have := composite_integral (nproc := nproc) hn hc hdx (f := fun lev c => (u lev c - ex lev c) ^ 2) (F := fun x => F x ^ 2)
      (fun lev c x hu hx => by show F x ^ 2 = _; rw [hF lev c x hu hx])
    have e : (fun (lev : ℕ) (c : Cell) (m : ℤ) => cellVol dx lev * (m : ℝ) * (u lev c - ex lev c) ^ 2) =
        errTerm (fun lev _ => cellVol dx lev) (fun _ _ => true) u ex := by
      funext lev c m
      simp [errTerm]
      ring
    rw [e] at this
    unfold rmsDomain
    rw [Real.sq_sqrt, this, div_mul_cancel₀ _ hpos.ne']
    apply div_nonneg _ hpos.le
    rw [this]
    have h0 : 0 ≤ h .x * h .y * h .z := by
      by_contra hneg
      rw [not_le] at hneg
      have : V ≤ 0 := mul_nonpos_of_nonpos_of_nonneg hneg.le (by positivity)
      linarith
    refine mul_nonneg h0 (List.sum_nonneg ?_)
    intro x hx
    obtain ⟨c, -, rfl⟩ := List.mem_map.mp hx
    positivity

/-- **C102**: the case of a uniform deviation, on a mesh of two levels. -/
example : Real.sqrt 4 = 2 ∧ (∃ lev c, Uncovered 2 exLevels lev c ∧ (fun (_ : ℕ) (_ : Cell) => true) lev c = true) := by
  refine ⟨by rw [show (4 : ℝ) = 2 ^ 2 by norm_num]; exact Real.sqrt_sq (by norm_num), 0, (1, 0, 1), ?_, rfl⟩
  have h := fun lev c => (mem_leavesFrom exNested 0 (lev := lev) (suf := exLevels.drop lev) (c := c))
  simp only [Nat.zero_le, Nat.sub_zero, true_and] at h
  rw [← h]; simp [leavesFrom, exLevels, levelMask]; decide

/-- A mesh of one cell on one rank. -/
def oneCell : List Lev := [⟨fun _ => [⟨(0, 0, 0), (0, 0, 0)⟩], fun _ => 1⟩]

/-- **C102**, disagreement: on a mapped mesh the channel adds up physical volumes and divides by the volume of the computational domain: where
the map stretches by 4, a deviation by one everywhere is reported as two; dividing by the volumes that were added, as the Taylor vortex
does, gives one. -/
theorem rms_mapped : rmsDomain 1 (mappedVol (fun _ _ => 1) fun _ _ d => if d = .z then 4 else 1) 1 (fun _ _ => 1) (fun _ _ => 0) oneCell = 2 ∧
    rmsActive 1 (mappedVol (fun _ _ => 1) fun _ _ d => if d = .z then 4 else 1) (fun _ _ => true) (fun _ _ => 1) (fun _ _ => 0) oneCell = 1 := by
  have h1 : leavesFrom 1 0 oneCell = [(0, oneCell, (0, 0, 0))] := by
    simp [leavesFrom, oneCell, levelMask]
    decide
  unfold rmsDomain rmsActive
  rw [total_err, total_vol, h1]
  simp [mappedVol]
  rw [show (4 : ℝ) = 2 ^ 2 by norm_num]
  exact Real.sqrt_sq (by norm_num)

end AmrWind.Exact
