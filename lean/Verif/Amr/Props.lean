import Verif.Amr.Lemmas
import Mathlib.Tactic.Ring
import Mathlib.Tactic.NormNum
import Mathlib.Tactic.FieldSimp
import Mathlib.Tactic.LinearCombination

/-!
# C64, C66: sums over a refined mesh are integrals over the domain

Specification: `Nested` (what AMReX guarantees about the levels), `Uncovered` (a cell in which no finer cell lies),
`refine` (how many cells of the reference mesh fit into a cell), all in `Lemmas.lean`, and `Covers` below.
-/

set_option linter.unusedSectionVars false

namespace AmrWind.Amr

open Plane (Cell Bx Axis cells irange mem_cells nodup_cells fineBox mem_irange length_irange)

/-- The coarsest level covers the domain: the boxes of all ranks hold every cell of the domain once. -/
def Covers (nproc : ℕ) (dom : Bx) (levels : List Lev) : Prop :=
  ∃ L rest, levels = L :: rest ∧ (L.cells nproc).Perm (cells dom)

/-- The cells of the reference mesh in a box. -/
def refineBox (r : Axis → ℕ) (b : Bx) : Bx :=
  ⟨(r .x * b.lo.1, r .y * b.lo.2.1, r .z * b.lo.2.2),
    (r .x * (b.hi.1 + 1) - 1, r .y * (b.hi.2.1 + 1) - 1, r .z * (b.hi.2.2 + 1) - 1)⟩

theorem refine_cells {r : Axis → ℕ} (hr : ∀ d, 0 < r d) (b : Bx) :
    ((cells b).flatMap fun c => cells (fineBox r c)).Perm (cells (refineBox r b)) := by
  rw [List.perm_ext_iff_of_nodup (nodup_refine hr (nodup_cells _)) (nodup_cells _)]
  intro x
  simp only [List.mem_flatMap, mem_fineBox hr, mem_cells]
  obtain ⟨x1, x2, x3⟩ := x
  have key : ∀ (d : Axis) (lo hi x : ℤ), (lo ≤ x / (r d : ℤ) ∧ x / (r d : ℤ) ≤ hi) ↔
      (r d * lo ≤ x ∧ x ≤ r d * (hi + 1) - 1) := by
    intro d lo hi x
    have hd : (0 : ℤ) < r d := by exact_mod_cast hr d
    have h1 := @coarsen_fst (r d) (hr d) (r d * lo) (r d * (hi + 1) - 1) x (Dvd.intro _ rfl) ⟨hi + 1, by ring⟩
    rw [Int.mul_ediv_cancel_left _ hd.ne'] at h1
    have h2 : ((r d : ℤ) * (hi + 1) - 1) / (r d : ℤ) = hi := by
      rw [ediv_eq_iff' (hr d)]
      constructor <;> nlinarith
    rwa [h2] at h1
  unfold refineBox Bx.Has coarsen
  simp only
  rw [← key, ← key, ← key]
  constructor
  · rintro ⟨c, hc, rfl⟩
    exact hc
  · intro h
    exact ⟨_, h, rfl⟩

/-- The uncovered cells tile the domain. -/
theorem tiles {nproc : ℕ} {dom : Bx} {levels : List Lev} (h : Nested nproc levels) (hc : Covers nproc dom levels) :
    ((leavesFrom nproc 0 levels).flatMap fun l => cells (fineBox (refine l.2.1) l.2.2)).Perm
      (cells (refineBox (refine levels) dom)) := by
  obtain ⟨L, rest, rfl, hp⟩ := hc
  exact ((leaves_tile h 0).trans (hp.flatMap_right _)).trans (refine_cells (refine_pos h) dom)

theorem nested_drop {nproc : ℕ} {levels : List Lev} (h : Nested nproc levels) (n : ℕ) : Nested nproc (levels.drop n) := by
  induction n generalizing levels with
  | zero => simpa using h
  | succ n ih =>
    cases levels with
    | nil => trivial
    | cons L rest =>
      rw [List.drop_succ_cons]
      apply ih
      cases rest with
      | nil => trivial
      | cons L' rest => exact h.2.2.2.2

/-- C64: every cell of the reference mesh lies in exactly one uncovered cell of the hierarchy. -/
theorem unique_leaf {nproc : ℕ} {dom : Bx} {levels : List Lev} (h : Nested nproc levels) (hc : Covers nproc dom levels)
    {x : Cell} (hx : (refineBox (refine levels) dom).Has x) :
    ∃! l : ℕ × Cell, Uncovered nproc levels l.1 l.2 ∧ coarsen (refine (levels.drop l.1)) x = l.2 := by
  have ht := tiles h hc
  have hnd := (ht.nodup_iff.mpr (nodup_cells _))
  have hm := ht.mem_iff.mpr (mem_cells.mpr hx)
  rw [List.mem_flatMap] at hm
  obtain ⟨⟨lev, suf, c⟩, hl, hxc⟩ := hm
  have hl' := (mem_leavesFrom h 0).mp hl
  simp only [Nat.sub_zero] at hl'
  obtain ⟨-, hs, hu⟩ := hl'
  have hpos : ∀ n d, 0 < refine (levels.drop n) d := fun n d => refine_pos (nested_drop h n) d
  simp only at hxc
  rw [hs, mem_fineBox (hpos lev)] at hxc
  refine ⟨(lev, c), ⟨hu, hxc⟩, ?_⟩
  rintro ⟨lev', c'⟩ ⟨hu', hx'⟩
  simp only at hu' hx'
  by_contra hne
  have hl'' : (lev', levels.drop lev', c') ∈ leavesFrom nproc 0 levels :=
    (mem_leavesFrom h 0).mpr ⟨Nat.zero_le _, by simp, by simpa using hu'⟩
  rw [List.nodup_flatMap] at hnd
  have hpw := hnd.2
  haveI : Std.Symm (Function.onFun List.Disjoint (fun l : ℕ × List Lev × Cell => cells (fineBox (refine l.2.1) l.2.2))) :=
    ⟨fun a b hab => hab.symm⟩
  have hd := hpw.forall hl hl'' (by
    intro he
    apply hne
    simp only [Prod.mk.injEq] at he
    rw [he.1, he.2.2])
  have h1 : x ∈ cells (fineBox (refine suf) c) := by rw [hs, mem_fineBox (hpos lev)]; exact hxc
  have h2 : x ∈ cells (fineBox (refine (levels.drop lev')) c') := by rw [mem_fineBox (hpos lev')]; exact hx'
  exact hd h1 h2

section sums
variable {K : Type*} [AddCommMonoid K]

/-- The loops over ranks, levels and boxes with a mask give the sum of a fine cell function over the domain, if every
uncovered cell contributes the sum over its fine cells. -/
theorem total_spec {nproc : ℕ} {dom : Bx} {levels : List Lev} (h : Nested nproc levels) (hc : Covers nproc dom levels)
    {term : ℕ → Cell → ℤ → K} (h0 : ∀ lev c, term lev c 0 = 0) (F : Cell → K)
    (hF : ∀ lev c, Uncovered nproc levels lev c →
      term lev c 1 = ((cells (fineBox (refine (levels.drop lev)) c)).map F).sum) :
    total nproc term levels = ((cells (refineBox (refine levels) dom)).map F).sum := by
  unfold total
  rw [total_from h0, ← ((tiles h hc).map F).sum_eq, sum_flatMap]
  congr 1
  apply List.map_congr_left
  rintro ⟨lev, suf, c⟩ hl
  have hl' := (mem_leavesFrom h 0).mp hl
  simp only [Nat.sub_zero] at hl'
  obtain ⟨-, rfl, hu⟩ := hl'
  exact hF lev c hu

end sums

section integrals
variable {K : Type*} [Field K]

/-- The grid spacings of the levels belong together: spacing `h` on the reference mesh. -/
def Spacing (dx : ℕ → Axis → K) (h : Axis → K) (levels : List Lev) : Prop :=
  ∀ lev, lev < levels.length → ∀ d, dx lev d = (refine (levels.drop lev) d : K) * h d

/-- `F` on the reference mesh is the field `f` of the uncovered cells. -/
def Represents {α : Type*} (nproc : ℕ) (levels : List Lev) (f : ℕ → Cell → α) (F : Cell → α) : Prop :=
  ∀ lev c x, Uncovered nproc levels lev c → coarsen (refine (levels.drop lev)) x = c → F x = f lev c

theorem length_fineBox (r : Axis → ℕ) (c : Cell) : (cells (fineBox r c)).length = r .x * r .y * r .z := by
  rw [Plane.length_cells]
  unfold fineBox
  simp only [add_sub_cancel_left, sub_add_cancel, Int.toNat_natCast]
  ring

theorem uncovered_lt {nproc : ℕ} {levels : List Lev} {lev : ℕ} {c : Cell} (hu : Uncovered nproc levels lev c) :
    lev < levels.length := by
  obtain ⟨L, hL, -⟩ := hu
  exact (List.getElem?_eq_some_iff.mp hL).1

/-- C64: a sum of `cell volume × mask × value` over all ranks, levels and boxes is the integral over the domain, for any
number of levels, any ratios, any boxes and any distribution over ranks. -/
theorem composite_integral {nproc : ℕ} {dom : Bx} {levels : List Lev} (hn : Nested nproc levels)
    (hc : Covers nproc dom levels) {dx : ℕ → Axis → K} {h : Axis → K} (hdx : Spacing dx h levels)
    {f : ℕ → Cell → K} {F : Cell → K} (hF : Represents nproc levels f F) :
    total nproc (fun lev c m => cellVol dx lev * (m : K) * f lev c) levels =
      h .x * h .y * h .z * ((cells (refineBox (refine levels) dom)).map F).sum := by
  rw [← List.sum_map_mul_left]
  apply total_spec hn hc (by simp)
  intro lev c hu
  have : ((cells (fineBox (refine (levels.drop lev)) c)).map fun x => h .x * h .y * h .z * F x) =
      (cells (fineBox (refine (levels.drop lev)) c)).map fun _ => h .x * h .y * h .z * f lev c := by
    apply List.map_congr_left
    intro x hx
    rw [mem_fineBox (fun d => refine_pos (nested_drop hn lev) d)] at hx
    rw [hF lev c x hu hx]
  rw [this, List.map_const', List.sum_replicate, length_fineBox, nsmul_eq_mul]
  unfold cellVol
  rw [hdx lev (uncovered_lt hu), hdx lev (uncovered_lt hu), hdx lev (uncovered_lt hu)]
  push_cast
  ring

/-- C64: the liquid volume. -/
theorem volume_fraction_sum {nproc : ℕ} {dom : Bx} {levels : List Lev} (hn : Nested nproc levels)
    (hc : Covers nproc dom levels) {dx : ℕ → Axis → K} {h : Axis → K} (hdx : Spacing dx h levels)
    {vof : ℕ → Cell → K} {F : Cell → K} (hF : Represents nproc levels vof F) :
    volumeFractionSum nproc dx vof levels =
      h .x * h .y * h .z * ((cells (refineBox (refine levels) dom)).map F).sum := by
  rw [← composite_integral hn hc hdx hF]
  unfold volumeFractionSum
  congr 1
  funext lev c m
  ring

/-- C64: the momentum. -/
theorem momentum_sum {nproc : ℕ} {dom : Bx} {levels : List Lev} (hn : Nested nproc levels)
    (hc : Covers nproc dom levels) {dx : ℕ → Axis → K} {h : Axis → K} (hdx : Spacing dx h levels)
    {vel : ℕ → Cell → ℕ → K} {dens : ℕ → Cell → K} {V : Cell → ℕ → K} {D : Cell → K}
    (hV : Represents nproc levels vel V) (hD : Represents nproc levels dens D) (n : ℕ) :
    momentumSum nproc dx vel dens n levels =
      h .x * h .y * h .z * ((cells (refineBox (refine levels) dom)).map fun x => D x * V x n).sum := by
  rw [← composite_integral hn hc hdx (f := fun lev c => dens lev c * vel lev c n)]
  · unfold momentumSum
    congr 1
    funext lev c m
    ring
  · intro lev c x hu hx
    simp only [hV lev c x hu hx, hD lev c x hu hx]

/-- The volume of a box with spacing `h`. -/
def volume (h : Axis → K) (b : Bx) : K := h .x * h .y * h .z * ((cells b).length : K)

/-- C64: the reported kinetic energy is the volume average of `ρ |u|² / 2`. -/
theorem kinetic_energy {nproc : ℕ} {dom : Bx} {levels : List Lev} (hn : Nested nproc levels)
    (hc : Covers nproc dom levels) {dx : ℕ → Axis → K} {h : Axis → K} (hdx : Spacing dx h levels)
    {vel : ℕ → Cell → ℕ → K} {den : ℕ → Cell → K} {V : Cell → ℕ → K} {D : Cell → K}
    (hV : Represents nproc levels vel V) (hD : Represents nproc levels den D) (totalVol : K) :
    kineticEnergy nproc dx totalVol den vel levels =
      (h .x * h .y * h .z * ((cells (refineBox (refine levels) dom)).map fun x =>
        1 / 2 * D x * (V x 0 ^ 2 + V x 1 ^ 2 + V x 2 ^ 2)).sum) / totalVol := by
  unfold kineticEnergy
  rw [List.sum_map_mul_right]
  have h1 := composite_integral hn hc hdx (f := fun lev c => den lev c * (vel lev c 0 * vel lev c 0 +
    vel lev c 1 * vel lev c 1 + vel lev c 2 * vel lev c 2)) (F := fun x => D x * (V x 0 * V x 0 +
    V x 1 * V x 1 + V x 2 * V x 2)) (by
      intro lev c x hu hx
      simp only [hV lev c x hu hx, hD lev c x hu hx])
  unfold total at h1
  have e : (fun lev c (m : ℤ) => cellVol dx lev * (m : K) * den lev c * (vel lev c 0 * vel lev c 0 +
      vel lev c 1 * vel lev c 1 + vel lev c 2 * vel lev c 2)) = (fun lev c (m : ℤ) => cellVol dx lev * (m : K) *
      (den lev c * (vel lev c 0 * vel lev c 0 + vel lev c 1 * vel lev c 1 + vel lev c 2 * vel lev c 2))) := by
    funext lev c m
    ring
  rw [e, h1]
  have e2 : ((cells (refineBox (refine levels) dom)).map fun x =>
      1 / 2 * D x * (V x 0 ^ 2 + V x 1 ^ 2 + V x 2 ^ 2)) = ((cells (refineBox (refine levels) dom)).map fun x =>
      (1 / 2) * (D x * (V x 0 * V x 0 + V x 1 * V x 1 + V x 2 * V x 2))) := by
    apply List.map_congr_left
    intro x _
    ring
  rw [e2, List.sum_map_mul_left]
  ring

/-- C64: the reported enstrophy is the volume average of `ρ |ω|² / 2`. -/
theorem enstrophy_mean {nproc : ℕ} {dom : Bx} {levels : List Lev} (hn : Nested nproc levels)
    (hc : Covers nproc dom levels) {dx : ℕ → Axis → K} {h : Axis → K} (hdx : Spacing dx h levels)
    {den vort : ℕ → Cell → K} {D W : Cell → K}
    (hD : Represents nproc levels den D) (hW : Represents nproc levels vort W) (totalVol : K) :
    enstrophy nproc dx totalVol den vort levels =
      (h .x * h .y * h .z * ((cells (refineBox (refine levels) dom)).map fun x => 1 / 2 * D x * W x ^ 2).sum) /
        totalVol := by
  unfold enstrophy
  rw [List.sum_map_mul_right]
  have h1 := composite_integral hn hc hdx (f := fun lev c => den lev c * (vort lev c * vort lev c))
    (F := fun x => D x * (W x * W x)) (by
      intro lev c x hu hx
      simp only [hD lev c x hu hx, hW lev c x hu hx])
  unfold total at h1
  have e : (fun lev c (m : ℤ) => cellVol dx lev * (m : K) * den lev c * (vort lev c * vort lev c)) =
      (fun lev c (m : ℤ) => cellVol dx lev * (m : K) * (den lev c * (vort lev c * vort lev c))) := by
    funext lev c m
    ring
  rw [e, h1]
  have e2 : ((cells (refineBox (refine levels) dom)).map fun x => 1 / 2 * D x * W x ^ 2) =
      ((cells (refineBox (refine levels) dom)).map fun x => (1 / 2) * (D x * (W x * W x))) := by
    apply List.map_congr_left
    intro x _
    ring
  rw [e2, List.sum_map_mul_left]
  ring

/-- C66: the kinetic energy of the liquid is the integral of `vof |u|² / 2`. -/
theorem wave_kinetic {nproc : ℕ} {dom : Bx} {levels : List Lev} (hn : Nested nproc levels)
    (hc : Covers nproc dom levels) {dx : ℕ → Axis → K} {h : Axis → K} (hdx : Spacing dx h levels)
    {vel : ℕ → Cell → ℕ → K} {vof : ℕ → Cell → K} {V : Cell → ℕ → K} {D : Cell → K}
    (hV : Represents nproc levels vel V) (hD : Represents nproc levels vof D) :
    waveKinetic nproc dx vof vel levels =
      h .x * h .y * h .z * ((cells (refineBox (refine levels) dom)).map fun x =>
        1 / 2 * D x * (V x 0 ^ 2 + V x 1 ^ 2 + V x 2 ^ 2)).sum := by
  rw [← composite_integral hn hc hdx (f := fun lev c => 1 / 2 * vof lev c * (vel lev c 0 ^ 2 + vel lev c 1 ^ 2 +
    vel lev c 2 ^ 2))]
  · unfold waveKinetic
    congr 1
    funext lev c m
    ring
  · intro lev c x hu hx
    simp only [hV lev c x hu hx, hD lev c x hu hx]

/-- C64: a hierarchy with other boxes, another distribution or another refinement reports the same integral, as long as
both hold the same field. -/
theorem integral_mesh_independent {nproc nproc' : ℕ} {dom dom' : Bx} {levels levels' : List Lev} (hn : Nested nproc levels)
    (hn' : Nested nproc' levels') (hc : Covers nproc dom levels) (hc' : Covers nproc' dom' levels')
    (hd : refineBox (refine levels) dom = refineBox (refine levels') dom') {dx dx' : ℕ → Axis → K} {h : Axis → K}
    (hdx : Spacing dx h levels) (hdx' : Spacing dx' h levels') {vof vof' : ℕ → Cell → K} {F : Cell → K}
    (hF : Represents nproc levels vof F) (hF' : Represents nproc' levels' vof' F) :
    volumeFractionSum nproc dx vof levels = volumeFractionSum nproc' dx' vof' levels' := by
  rw [volume_fraction_sum hn hc hdx hF, volume_fraction_sum hn' hc' hdx' hF', hd]

/-- Every field of the hierarchy is represented by a function on the reference mesh. -/
theorem represents_exists {α : Type*} [Inhabited α] {nproc : ℕ} {dom : Bx} {levels : List Lev} (hn : Nested nproc levels)
    (hc : Covers nproc dom levels) (f : ℕ → Cell → α) : ∃ F, Represents nproc levels f F := by
  classical
  refine ⟨fun x => if hx : ∃ l : ℕ × Cell, Uncovered nproc levels l.1 l.2 ∧ coarsen (refine (levels.drop l.1)) x = l.2 then
    f hx.choose.1 hx.choose.2 else default, ?_⟩
  intro lev c x hu hx
  have hex : ∃ l : ℕ × Cell, Uncovered nproc levels l.1 l.2 ∧ coarsen (refine (levels.drop l.1)) x = l.2 := ⟨(lev, c), hu, hx⟩
  have hin : (refineBox (refine levels) dom).Has x := by
    rw [← mem_cells, ← (tiles hn hc).mem_iff, List.mem_flatMap]
    refine ⟨(lev, levels.drop lev, c), (mem_leavesFrom hn 0).mpr ⟨Nat.zero_le _, by simp, by simpa using hu⟩, ?_⟩
    exact (mem_fineBox (fun d => refine_pos (nested_drop hn lev) d)).mpr hx
  have huniq := (unique_leaf hn hc hin).unique (y₂ := (lev, c)) hex.choose_spec ⟨hu, hx⟩
  show (if hx : _ then _ else _) = _
  rw [dif_pos hex, huniq]

section order
variable [LinearOrder K] [IsStrictOrderedRing K]

/-- C64: with volume fractions between zero and one the reported liquid volume is between zero and the volume of the
domain. -/
theorem volume_fraction_bounds {nproc : ℕ} {dom : Bx} {levels : List Lev} (hn : Nested nproc levels)
    (hc : Covers nproc dom levels) {dx : ℕ → Axis → K} {h : Axis → K} (hh : ∀ d, 0 < h d) (hdx : Spacing dx h levels)
    {vof : ℕ → Cell → K} (hv : ∀ lev c, Uncovered nproc levels lev c → 0 ≤ vof lev c ∧ vof lev c ≤ 1) :
    0 ≤ volumeFractionSum nproc dx vof levels ∧
      volumeFractionSum nproc dx vof levels ≤ volume h (refineBox (refine levels) dom) := by
  haveI : Inhabited K := ⟨0⟩
  obtain ⟨F, hF⟩ := represents_exists hn hc vof
  rw [volume_fraction_sum hn hc hdx hF]
  have hvol : 0 < h .x * h .y * h .z := mul_pos (mul_pos (hh _) (hh _)) (hh _)
  have hb : ∀ x ∈ cells (refineBox (refine levels) dom), 0 ≤ F x ∧ F x ≤ 1 := by
    intro x hx
    obtain ⟨⟨lev, c⟩, ⟨hu, hxc⟩, -⟩ := unique_leaf hn hc (mem_cells.mp hx)
    rw [hF lev c x hu hxc]
    exact hv lev c hu
  constructor
  · apply mul_nonneg hvol.le
    apply List.sum_nonneg
    intro y hy
    obtain ⟨x, hx, rfl⟩ := List.mem_map.mp hy
    exact (hb x hx).1
  · unfold volume
    apply mul_le_mul_of_nonneg_left _ hvol.le
    have := List.sum_le_card_nsmul ((cells (refineBox (refine levels) dom)).map F) 1 (by
      intro y hy
      obtain ⟨x, hx, rfl⟩ := List.mem_map.mp hy
      exact (hb x hx).2)
    simpa using this

/-! ## Potential energy of waves -/

/-- C66: the height given to the liquid of a cell lies inside the cell. -/
theorem liquid_height_in_cell {zlo dz : K} (hz : 0 < dz) {vof : Cell → K} {i j k : ℤ}
    (h0 : 0 ≤ vof (i, j, k)) (h1 : vof (i, j, k) ≤ 1) :
    zlo + k * dz ≤ liquidHeight zlo dz vof (i, j, k) ∧ liquidHeight zlo dz vof (i, j, k) ≤ zlo + (k + 1) * dz := by
  simp only [liquidHeight]
  have a := mul_nonneg h0 hz.le
  have b := mul_nonneg (sub_nonneg.mpr h1) hz.le
  split <;> constructor <;> nlinarith

/-- The volume fraction of a cell when the liquid stands still at height `w`: the part of the cell below `w`. -/
def stillVof (zlo dz w : K) (c : Cell) : K := max 0 (min 1 ((w - zlo) / dz - (c.2.2 : K)))

theorem telescope (lo hi : ℤ) (hle : lo ≤ hi + 1) (g : ℤ → K) :
    ((irange lo hi).map fun k => g (k + 1) - g k).sum = g (hi + 1) - g lo := by
  unfold irange
  obtain ⟨n, hn⟩ : ∃ n : ℕ, hi + 1 = lo + n := ⟨(hi + 1 - lo).toNat, by omega⟩
  have e : (hi - lo + 1).toNat = n := by omega
  rw [e, hn, List.map_map]
  clear hn e hle hi
  induction n with
  | zero => simp
  | succ n ih =>
    rw [List.range_succ, List.map_append, List.sum_append, ih]
    simp only [Function.comp, List.map_cons, List.map_nil, List.sum_cons, List.sum_nil]
    push_cast
    rw [add_assoc lo (n : ℤ) 1]
    ring

/-- A sum over a box of differences in the third direction. -/
theorem box_telescope {b : Bx} (h1 : b.lo.1 ≤ b.hi.1 + 1) (h2 : b.lo.2.1 ≤ b.hi.2.1 + 1) (h3 : b.lo.2.2 ≤ b.hi.2.2 + 1)
    (g : ℤ → K) : ((cells b).map fun c => g (c.2.2 + 1) - g c.2.2).sum =
      ((b.hi.1 + 1 - b.lo.1 : ℤ) : K) * ((b.hi.2.1 + 1 - b.lo.2.1 : ℤ) : K) * (g (b.hi.2.2 + 1) - g b.lo.2.2) := by
  unfold cells
  rw [sum_flatMap]
  have : ∀ k : ℤ, (((irange b.lo.2.1 b.hi.2.1).flatMap fun j => (irange b.lo.1 b.hi.1).map fun i => ((i, j, k) : Cell)).map
      fun c => g (c.2.2 + 1) - g c.2.2).sum =
      (((b.hi.1 + 1 - b.lo.1 : ℤ) : K) * ((b.hi.2.1 + 1 - b.lo.2.1 : ℤ) : K)) * (g (k + 1) - g k) := by
    intro k
    rw [sum_flatMap]
    simp only [List.map_map, Function.comp_def, List.map_const', List.sum_replicate, length_irange, nsmul_eq_mul]
    have e1 : (((b.hi.1 - b.lo.1 + 1).toNat : ℕ) : K) = ((b.hi.1 + 1 - b.lo.1 : ℤ) : K) := by
      rw [← Int.cast_natCast, Int.toNat_of_nonneg (by omega)]
      congr 1
      ring
    have e2 : (((b.hi.2.1 - b.lo.2.1 + 1).toNat : ℕ) : K) = ((b.hi.2.1 + 1 - b.lo.2.1 : ℤ) : K) := by
      rw [← Int.cast_natCast, Int.toNat_of_nonneg (by omega)]
      congr 1
      ring
    rw [e1, e2]
    ring
  simp only [this]
  rw [List.sum_map_mul_left, telescope _ _ h3]

/-- The liquid of a cell standing still: its volume fraction times its height is the integral of the height. -/
theorem still_cell {zlo dz w : K} (hz : 0 < dz) (c : Cell) :
    dz * stillVof zlo dz w c * liquidHeight zlo dz (stillVof zlo dz w) c =
      min (zlo + ((c.2.2 : K) + 1) * dz) w ^ 2 / 2 - min (zlo + (c.2.2 : K) * dz) w ^ 2 / 2 := by
  obtain ⟨i, j, k⟩ := c
  have hmono : ¬ stillVof zlo dz w (i, j, k + 1) > stillVof zlo dz w (i, j, k) := by
    unfold stillVof
    push_cast
    rw [not_lt]
    apply max_le_max le_rfl
    apply min_le_min le_rfl
    linarith
  simp only [liquidHeight]
  rw [if_neg hmono]
  unfold stillVof
  simp only
  have hw : (w - zlo) / dz - (k : K) = (w - (zlo + k * dz)) / dz := by
    field_simp
    ring
  rw [hw]
  rcases le_total w (zlo + (k : K) * dz) with h1 | h1
  · have e1 : (w - (zlo + k * dz)) / dz ≤ 0 := div_nonpos_of_nonpos_of_nonneg (by linarith) hz.le
    have e2 : min 1 ((w - (zlo + k * dz)) / dz) ≤ 0 := (min_le_right _ _).trans e1
    rw [max_eq_left e2, min_eq_right h1, min_eq_right (by nlinarith : w ≤ zlo + ((k : K) + 1) * dz)]
    ring
  · have e1 : 0 ≤ (w - (zlo + k * dz)) / dz := div_nonneg (by linarith) hz.le
    rw [max_eq_right (le_min zero_le_one e1), min_eq_left h1]
    rcases le_total w (zlo + ((k : K) + 1) * dz) with h2 | h2
    · have e3 : (w - (zlo + k * dz)) / dz ≤ 1 := by
        rw [div_le_one hz]
        linarith
      rw [min_eq_right e3, min_eq_right h2]
      field_simp
      ring
    · have e3 : 1 ≤ (w - (zlo + k * dz)) / dz := by
        rw [le_div_iff₀ hz]
        linarith
      rw [min_eq_left e3, min_eq_left h2]
      ring

/-- C66: with the liquid at rest at height `w` the potential energy summed over the hierarchy is the exact integral of
`g z` over the liquid, for every refinement and every position of the surface in its cells.

Partial (C66). Missing: the reported value is not zero for every water level (`still_water_not_zero`). -/
theorem still_water_potential_partial {nproc : ℕ} {dom : Bx} {levels : List Lev} (hn : Nested nproc levels)
    (hc : Covers nproc dom levels) (hd : dom.Ok) (h0 : dom.lo.2.2 = 0) {dx : ℕ → Axis → K} {h : Axis → K} (hh : ∀ d, 0 < h d)
    (hdx : Spacing dx h levels) (zlo gz w : K) (hw0 : zlo ≤ w)
    (hw1 : w ≤ zlo + ((dom.hi.2.2 : K) + 1) * (refine levels .z * h .z)) :
    wavePotential nproc dx zlo gz (fun lev => stillVof zlo (dx lev .z) w) levels =
      (refine levels .x * h .x * ((dom.hi.1 + 1 - dom.lo.1 : ℤ) : K)) *
        (refine levels .y * h .y * ((dom.hi.2.1 + 1 - dom.lo.2.1 : ℤ) : K)) * (-gz) * (w ^ 2 / 2 - zlo ^ 2 / 2) := by
  have hpos : ∀ n d, 0 < refine (levels.drop n) d := fun n d => refine_pos (nested_drop hn n) d
  set G : ℤ → K := fun k => min (zlo + (k : K) * h .z) w ^ 2 / 2 with hG
  unfold wavePotential
  rw [total_spec hn hc (by simp) (F := fun x => h .x * h .y * (-gz) * (G (x.2.2 + 1) - G x.2.2))]
  · rw [List.sum_map_mul_left, box_telescope]
    · have hR := fun d => (hpos 0 d)
      simp only [List.drop_zero] at hR
      have hz0 : (refineBox (refine levels) dom).lo.2.2 = 0 := by simp [refineBox, h0]
      have hz1 : (refineBox (refine levels) dom).hi.2.2 + 1 = refine levels .z * (dom.hi.2.2 + 1) := by simp [refineBox]
      rw [hz0, hz1]
      have hGlo : G 0 = zlo ^ 2 / 2 := by simp [hG, hw0]
      have hGhi : G (refine levels .z * (dom.hi.2.2 + 1)) = w ^ 2 / 2 := by
        simp only [hG]
        push_cast
        rw [min_eq_right]
        nlinarith
      rw [hGlo, hGhi]
      simp only [refineBox]
      push_cast
      ring
    all_goals
      have hR := fun d => (hpos 0 d)
      simp only [List.drop_zero] at hR
      simp only [refineBox, sub_add_cancel]
      apply mul_le_mul_of_nonneg_left _ (Int.natCast_nonneg _)
      obtain ⟨q1, q2, q3⟩ := hd
      omega
  · rintro lev ⟨i, j, k⟩ hu
    have hlt := uncovered_lt hu
    rw [List.sum_map_mul_left, box_telescope]
    · have hz : 0 < dx lev .z := by
        rw [hdx lev hlt]
        exact mul_pos (by exact_mod_cast hpos lev .z) (hh _)
      have hs := still_cell (w := w) (zlo := zlo) hz (i, j, k)
      have e1 : G ((fineBox (refine (levels.drop lev)) (i, j, k)).hi.2.2 + 1) =
          min (zlo + ((k : K) + 1) * dx lev .z) w ^ 2 / 2 := by
        simp only [hG, fineBox]
        rw [hdx lev hlt]
        push_cast
        ring_nf
      have e2 : G ((fineBox (refine (levels.drop lev)) (i, j, k)).lo.2.2) =
          min (zlo + (k : K) * dx lev .z) w ^ 2 / 2 := by
        simp only [hG, fineBox]
        rw [hdx lev hlt]
        push_cast
        ring_nf
      rw [e1, e2, ← hs]
      unfold cellVol
      rw [hdx lev hlt .x, hdx lev hlt .y]
      simp only [fineBox]
      push_cast
      ring
    all_goals
      simp only [fineBox]
      have := hpos lev
      have hx := this .x
      have hy := this .y
      have hz := this .z
      omega

/-- C66: for still water at the water level `w` given by the user the reported potential energy is `g w`. -/
theorem still_water_reported {nproc : ℕ} {dom : Bx} {levels : List Lev} (hn : Nested nproc levels)
    (hc : Covers nproc dom levels) (hd : dom.Ok)
    (h0 : dom.lo.2.2 = 0) {dx : ℕ → Axis → K} {h : Axis → K} (hh : ∀ d, 0 < h d)
    (hdx : Spacing dx h levels) (zlo gz w : K) (hw0 : zlo < w)
    (hw1 : w ≤ zlo + ((dom.hi.2.2 : K) + 1) * (refine levels .z * h .z)) :
    reportedPotential nproc dx ((refine levels .x * h .x * ((dom.hi.1 + 1 - dom.lo.1 : ℤ) : K)) *
        (refine levels .y * h .y * ((dom.hi.2.1 + 1 - dom.lo.2.1 : ℤ) : K))) zlo gz w
        (fun lev => stillVof zlo (dx lev .z) w) levels = -gz * w := by
  unfold reportedPotential
  simp only
  rw [still_water_potential_partial hn hc hd h0 hh hdx zlo gz w hw0.le hw1]
  have hR : ∀ d, (0 : K) < refine levels d := fun d => by exact_mod_cast refine_pos hn d
  have a1 : (0 : K) < ((dom.hi.1 + 1 - dom.lo.1 : ℤ) : K) := by have := hd.1; exact_mod_cast (by omega : 0 < dom.hi.1 + 1 - dom.lo.1)
  have a2 : (0 : K) < ((dom.hi.2.1 + 1 - dom.lo.2.1 : ℤ) : K) := by have := hd.2.1; exact_mod_cast (by omega : 0 < dom.hi.2.1 + 1 - dom.lo.2.1)
  have b1 := mul_pos (mul_pos (hR .x) (hh .x)) a1
  have b2 := mul_pos (mul_pos (hR .y) (hh .y)) a2
  set A := (refine levels .x : K) * h .x * ((dom.hi.1 + 1 - dom.lo.1 : ℤ) : K)
  set B := (refine levels .y : K) * h .y * ((dom.hi.2.1 + 1 - dom.lo.2.1 : ℤ) : K)
  have hwz : w - zlo ≠ 0 := (sub_pos.mpr hw0).ne'
  field_simp
  ring

end order
end integrals

/-! ## Examples -/

/-- A two-level mesh: a domain of 2×1×2 cells on two ranks, the lower left cell refined by two in each direction. -/
def exLevels : List Lev :=
  [⟨fun p => if p = 0 then [⟨(0, 0, 0), (0, 0, 1)⟩] else if p = 1 then [⟨(1, 0, 0), (1, 0, 1)⟩] else [], fun _ => 2⟩,
   ⟨fun p => if p = 1 then [⟨(0, 0, 0), (1, 1, 1)⟩] else [], fun _ => 1⟩]

def exDom : Bx := ⟨(0, 0, 0), (1, 0, 1)⟩

theorem exNested : Nested 2 exLevels := by
  have hall0 : (⟨fun p => if p = 0 then [⟨(0, 0, 0), (0, 0, 1)⟩] else if p = 1 then [⟨(1, 0, 0), (1, 0, 1)⟩] else [],
    fun _ => 2⟩ : Lev).all 2 = [⟨(0, 0, 0), (0, 0, 1)⟩, ⟨(1, 0, 0), (1, 0, 1)⟩] := rfl
  have hall1 : (⟨fun p => if p = 1 then [⟨(0, 0, 0), (1, 1, 1)⟩] else [], fun _ => 1⟩ : Lev).all 2 =
      [⟨(0, 0, 0), (1, 1, 1)⟩] := rfl
  refine ⟨fun d => by simp, ?_, ?_, ?_, fun d => by simp, ?_⟩
  · rw [hall0]; decide
  · rw [hall1]
    intro b hb
    simp only [List.mem_singleton] at hb
    subst hb
    unfold Aligned
    norm_num
  · intro x hx
    unfold Lev.Has at hx ⊢
    rw [hall1] at hx
    rw [hall0]
    simp only [List.mem_singleton, exists_eq_left] at hx
    refine ⟨⟨(0, 0, 0), (0, 0, 1)⟩, by simp, ?_⟩
    unfold Bx.Has coarsen at *
    simp only at *
    push_cast
    omega
  · rw [hall1]; decide

theorem exCovers : Covers 2 exDom exLevels := ⟨_, _, rfl, by decide⟩

example : Uncovered 2 exLevels 0 (1, 0, 1) ∧ Uncovered 2 exLevels 1 (1, 0, 1) ∧ ¬ Uncovered 2 exLevels 0 (0, 0, 0) := by
  have h := fun lev c => (mem_leavesFrom exNested 0 (lev := lev) (suf := exLevels.drop lev) (c := c))
  simp only [Nat.zero_le, Nat.sub_zero, true_and] at h
  refine ⟨?_, ?_, ?_⟩
  · rw [← h]; simp [leavesFrom, exLevels, levelMask]; decide
  · rw [← h]; simp [leavesFrom, exLevels, levelMask]; decide
  · rw [← h]; simp [leavesFrom, exLevels, levelMask]; decide

example : Spacing (fun lev _ => if lev = 0 then (1 : ℚ) else 1 / 2) (fun _ => 1 / 2) exLevels := by
  intro lev hlev d
  have : lev = 0 ∨ lev = 1 := by simp [exLevels] at hlev; omega
  rcases this with rfl | rfl <;> simp [exLevels, refine]

example : volumeFractionSum 2 (fun lev _ => if lev = 0 then (1 : ℚ) else 1 / 2) (fun lev c => lev + c.2.2) exLevels = 7 / 2 := by
  decide +kernel

/-- Still water with the surface inside a cell at height 3/4: the energy is `9.81 · A · (3/4)² / 2`. -/
example : wavePotential 2 (fun lev _ => if lev = 0 then (1 : ℚ) else 1 / 2) 0 (-10)
    (fun lev => stillVof 0 (if lev = 0 then (1 : ℚ) else 1 / 2) (3 / 4)) exLevels = 2 * 10 * ((3 / 4) ^ 2 / 2) := by
  decide +kernel

/-- C66, disagreement: still water at the level 1/2 above the datum does not report zero energy. -/
theorem still_water_not_zero : reportedPotential 2 (fun lev _ => if lev = 0 then (1 : ℚ) else 1 / 2) 2 0 (-10) (1 / 2)
    (fun lev => stillVof 0 (if lev = 0 then (1 : ℚ) else 1 / 2) (1 / 2)) exLevels = 5 := by
  decide +kernel

end AmrWind.Amr
