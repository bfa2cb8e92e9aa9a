import Mathlib.Tactic.Linarith
import Mathlib.Tactic.Ring
import Mathlib.Tactic.FieldSimp
import Mathlib.Tactic.NormNum
import Mathlib.Tactic.Positivity
import Verif.Sampling.SubvolModel
/-!
# C118: a subvolume is the part of the mesh asked for
-/

set_option linter.unusedSectionVars false

namespace AmrWind.Subvol

open Plane

variable {K : Type*} [Field K] [LinearOrder K] [IsStrictOrderedRing K] [FloorRing K]

/-- `lround` gives a closest integer. -/
theorem lround_close (x : K) : |(lround x : K) - x| ≤ 1 / 2 := by
  unfold lround
  by_cases h : 0 ≤ x
  · rw [if_pos h, abs_le]
    have h1 := Int.floor_le (x + 1 / 2)
    have h2 := Int.lt_floor_add_one (x + 1 / 2)
    constructor <;> linarith
  · rw [if_neg h, abs_le]
    have h1 := Int.le_ceil (x - 1 / 2)
    have h2 := Int.ceil_lt_add_one (x - 1 / 2)
    constructor <;> linarith

/-- An integer is its own. -/
theorem lround_int (n : ℤ) : lround (n : K) = n := by
  have h := lround_close (n : K)
  rw [abs_le] at h
  have h1 : ((lround (n : K) - n : ℤ) : K) < 1 := by push_cast; linarith [h.2]
  have h2 : (-1 : K) < ((lround (n : K) - n : ℤ) : K) := by push_cast; linarith [h.1]
  have h1' : lround (n : K) - n < 1 := by exact_mod_cast h1
  have h2' : -1 < lround (n : K) - n := by exact_mod_cast h2
  omega

theorem findLevel_spec (i : Inp K) (levels : List (Level K)) (n : ℕ) (l : Level K) (hl : levels[n]? = some l) :
    findLevel i levels = some n ↔ close i.dx l.dx ∧ ∀ k l', k < n → levels[k]? = some l' → ¬close i.dx l'.dx := by
  classical
  have hn : n < levels.length := (List.getElem?_eq_some_iff.mp hl).1
  have hl' : levels[n] = l := (List.getElem?_eq_some_iff.mp hl).2
  unfold findLevel
  rw [List.findIdx?_eq_some_iff_getElem]
  constructor
  · rintro ⟨h, h1, h2⟩
    refine ⟨by simpa [hl'] using h1, ?_⟩
    intro k l' hk hkl
    obtain ⟨hk', hkl'⟩ := List.getElem?_eq_some_iff.mp hkl
    have := h2 k hk
    simpa [hkl'] using this
  · rintro ⟨h1, h2⟩
    refine ⟨hn, by simpa [hl'] using h1, ?_⟩
    intro k hk
    have := h2 k levels[k] hk (List.getElem?_eq_getElem _)
    simpa using this

/-- What is known of an accepted subvolume. -/
theorem evaluate_spec (lo : Axis → K) (i : Inp K) (old : Option Idx) (levels : List (Level K)) (s : St) :
    evaluate lo i old levels = some s ↔ ∃ l, levels[s.lev]? = some l ∧ findLevel i levels = some s.lev ∧ s.box = region lo i l ∧
      close (fun d => lo d + (corner lo i l d : K) * l.dx d) i.origin ∧ (∀ c, s.box.Has c → l.covers c) ∧
      s.chunk = (i.chunk.orElse fun _ => old).getD l.maxGrid := by
  classical
  unfold evaluate
  cases hf : findLevel i levels with
  | none => simp
  | some n =>
    dsimp only
    cases hl : levels[n]? with
    | none =>
      simp only [reduceCtorEq, false_iff, not_exists]
      rintro l ⟨h1, h2, -⟩
      simp only [Option.some.injEq] at h2
      rw [← h2, hl] at h1
      simp at h1
    | some l =>
      dsimp only
      by_cases h1 : close (fun d => lo d + (corner lo i l d : K) * l.dx d) i.origin
      · rw [if_pos h1]
        by_cases h2 : ∀ c, (region lo i l).Has c → l.covers c
        · rw [if_pos h2, Option.some.injEq]
          constructor
          · rintro rfl
            exact ⟨l, hl, rfl, rfl, h1, h2, rfl⟩
          · rintro ⟨l', e1, e2, e3, -, -, e6⟩
            simp only [Option.some.injEq] at e2
            rw [← e2, hl, Option.some.injEq] at e1
            subst e1
            cases s
            simp_all
        · rw [if_neg h2]
          simp only [reduceCtorEq, false_iff, not_exists]
          rintro l' ⟨e1, e2, e3, -, e5, -⟩
          simp only [Option.some.injEq] at e2
          rw [← e2, hl, Option.some.injEq] at e1
          subst e1
          rw [e3] at e5
          exact h2 e5
      · rw [if_neg h1]
        simp only [reduceCtorEq, false_iff, not_exists]
        rintro l' ⟨e1, e2, -, e4, -⟩
        simp only [Option.some.injEq] at e2
        rw [← e2, hl, Option.some.injEq] at e1
        subst e1
        exact h1 e4

/-- C118: an accepted subvolume has, in every direction, the number of cells asked for; its lower corner is within 1e-4 of the
origin asked for, its upper corner within 1e-4, and as much for every cell, of the end of what was asked for; its cells have the
size asked for within 1e-4; and its level covers all of it. -/
theorem placed (lo : Axis → K) (i : Inp K) (old : Option Idx) (levels : List (Level K)) (s : St) (hn : ∀ d, 0 < i.npts d)
    (h : evaluate lo i old levels = some s) :
    ∃ l, levels[s.lev]? = some l ∧ (∀ c, s.box.Has c → l.covers c) ∧ ∀ d,
      s.box.hi d + 1 - s.box.lo d = i.npts d ∧ |l.dx d - i.dx d| < 1 / 10000 ∧
      |(lo d + (s.box.lo d : K) * l.dx d) - i.origin d| < 1 / 10000 ∧
      |(lo d + ((s.box.hi d + 1 : ℤ) : K) * l.dx d) - (i.origin d + i.npts d * i.dx d)| < 1 / 10000 * (1 + i.npts d) := by
  obtain ⟨l, h1, h2, h3, h4, h5, -⟩ := (evaluate_spec lo i old levels s).mp h
  obtain ⟨hc, -⟩ := (findLevel_spec i levels s.lev l h1).mp h2
  refine ⟨l, h1, h5, fun d => ?_⟩
  have e1 : s.box.lo d = corner lo i l d := by rw [h3]; rfl
  have e2 : s.box.hi d + 1 = corner lo i l d + i.npts d := by
    rw [h3]
    show corner lo i l d + i.npts d - 1 + 1 = _
    omega
  have hnp : (0 : K) < i.npts d := by exact_mod_cast hn d
  have hd : |l.dx d - i.dx d| < 1 / 10000 := by rw [abs_sub_comm]; exact hc d
  have ho := h4 d
  dsimp only at ho
  refine ⟨by omega, hd, by rw [e1]; exact ho, ?_⟩
  rw [e2]
  push_cast
  have e : lo d + ((corner lo i l d : K) + (i.npts d : K)) * l.dx d - (i.origin d + (i.npts d : K) * i.dx d) =
      (lo d + (corner lo i l d : K) * l.dx d - i.origin d) + (i.npts d : K) * (l.dx d - i.dx d) := by ring
  rw [e]
  calc |lo d + (corner lo i l d : K) * l.dx d - i.origin d + (i.npts d : K) * (l.dx d - i.dx d)|
      ≤ |lo d + (corner lo i l d : K) * l.dx d - i.origin d| + |(i.npts d : K) * (l.dx d - i.dx d)| := abs_add_le _ _
    _ = |lo d + (corner lo i l d : K) * l.dx d - i.origin d| + (i.npts d : K) * |l.dx d - i.dx d| := by rw [abs_mul, abs_of_pos hnp]
    _ < 1 / 10000 + (i.npts d : K) * (1 / 10000) := add_lt_add ho (mul_lt_mul_of_pos_left hd hnp)
    _ = 1 / 10000 * (1 + i.npts d) := by ring

/-- C118: a part of a level that is named exactly (the size of its cells, a node of it as origin), and that no coarser level is
mistaken for, is accepted and is what is written, if the level covers it. -/
theorem exact_accepted (lo : Axis → K) (i : Inp K) (old : Option Idx) (levels : List (Level K)) (n : ℕ) (l : Level K) (m : Idx)
    (hl : levels[n]? = some l) (hpos : ∀ d, 0 < l.dx d) (hdx : i.dx = l.dx) (ho : ∀ d, i.origin d = lo d + (m d : K) * l.dx d)
    (hco : ∀ k l', k < n → levels[k]? = some l' → ∃ d, 1 / 10000 ≤ |l.dx d - l'.dx d|)
    (hcov : ∀ c, (∀ d, m d ≤ c d ∧ c d < m d + i.npts d) → l.covers c) :
    ∃ s, evaluate lo i old levels = some s ∧ s.lev = n ∧ (∀ c, s.box.Has c ↔ ∀ d, m d ≤ c d ∧ c d < m d + i.npts d) ∧
      ∀ c, (∀ d, m d ≤ c d ∧ c d < m d + i.npts d) → written s levels c = some (l.data c) := by
  classical
  have hcorner : corner lo i l = m := by
    funext d
    unfold corner
    have : (i.origin d - lo d) / l.dx d = (m d : K) := by
      rw [ho d]
      have := (hpos d).ne'
      field_simp
      ring
    rw [this, lround_int]
  have hbox : ∀ c, (region lo i l).Has c ↔ ∀ d, m d ≤ c d ∧ c d < m d + i.npts d := by
    intro c
    unfold Box.Has region
    dsimp only
    rw [hcorner]
    refine forall_congr' fun d => ?_
    omega
  have hfind : findLevel i levels = some n := by
    rw [findLevel_spec i levels n l hl]
    refine ⟨fun d => by rw [hdx]; simp, ?_⟩
    intro k l' hk hkl hc
    obtain ⟨d, hd⟩ := hco k l' hk hkl
    have := hc d
    rw [hdx] at this
    exact absurd this (not_lt.mpr hd)
  have hev : evaluate lo i old levels = some ⟨n, region lo i l, (i.chunk.orElse fun _ => old).getD l.maxGrid⟩ := by
    rw [evaluate_spec]
    refine ⟨l, hl, hfind, rfl, ?_, ?_, rfl⟩
    · intro d
      dsimp only
      rw [hcorner, ho d]
      simp
    · intro c hc
      exact hcov c ((hbox c).mp hc)
  refine ⟨_, hev, rfl, hbox, ?_⟩
  intro c hc
  unfold written
  rw [if_pos ((hbox c).mpr hc)]
  dsimp only
  rw [hl]
  rfl

/-- In a mesh refined by two the coarser levels are told apart if the cells asked for are at least 1e-4 wide in some direction.

Partial (C118). Missing: cells smaller than the tolerance, where it is false (`small_cells_wrong`). -/
theorem levels_distinguished_partial (i : Inp K) (levels : List (Level K)) (n : ℕ) (l : Level K) (hl : levels[n]? = some l) (hdx : i.dx = l.dx)
    (href : ∀ k l', k < n → levels[k]? = some l' → ∀ d, 2 * l.dx d ≤ l'.dx d) (d : Axis) (hd : 1 / 10000 ≤ l.dx d) :
    findLevel i levels = some n := by
  rw [findLevel_spec i levels n l hl]
  refine ⟨fun d => by rw [hdx]; simp, ?_⟩
  intro k l' hk hkl hc
  have h1 := href k l' hk hkl d
  have h2 := hc d
  rw [hdx, abs_lt] at h2
  linarith [h2.1]

/-- Counterexample: the tolerance is a length. With cells of 1e-4 or less on the coarsest level, that level is taken whatever size is asked
for, and the part written begins and ends elsewhere. -/
theorem small_cells_wrong (i : Inp K) (levels : List (Level K)) (l0 : Level K) (h0 : levels[0]? = some l0) (l : Level K)
    (hdx : i.dx = l.dx) (hpos : ∀ d, 0 < l.dx d) (hle : ∀ d, l.dx d ≤ l0.dx d) (hsmall : ∀ d, l0.dx d ≤ 1 / 10000) :
    findLevel i levels = some 0 := by
  rw [findLevel_spec i levels 0 l0 h0]
  refine ⟨fun d => ?_, fun k l' hk => absurd hk (by omega)⟩
  rw [hdx, abs_lt]
  constructor <;> linarith [hpos d, hle d, hsmall d]

/-- After a regrid that leaves the part asked for uncovered the run stops. -/
theorem regrid_lost (lo : Axis → K) (i : Inp K) (old : Option Idx) (ls : List (Level K)) (rest : List (List (Level K))) (n : ℕ) (l : Level K)
    (hl : ls[n]? = some l) (hf : findLevel i ls = some n) (c : Idx) (hc : (region lo i l).Has c) (hu : ¬l.covers c) :
    history lo i old (ls :: rest) = none := by
  have : evaluate lo i old ls = none := by
    cases he : evaluate lo i old ls with
    | none => rfl
    | some s =>
      obtain ⟨l', e1, e2, e3, -, e5, -⟩ := (evaluate_spec lo i old ls s).mp he
      rw [hf, Option.some.injEq] at e2
      rw [← e2, hl, Option.some.injEq] at e1
      subst e1
      exact absurd (e5 c (by rw [e3]; exact hc)) hu
  unfold history
  rw [this]

/-- The part written is the same after every regrid of a run, as long as the level has the same cells. -/
theorem history_same (lo : Axis → K) (i : Inp K) (old : Option Idx) (hist : List (List (Level K))) (ss : List St) (h : history lo i old hist = some ss)
    (n : ℕ) (hlev : ∀ ls ∈ hist, findLevel i ls = some n) (dx : Axis → K) (hdx : ∀ ls ∈ hist, ∀ l, ls[n]? = some l → l.dx = dx) :
    ∀ s ∈ ss, ∀ s' ∈ ss, s.lev = s'.lev ∧ s.box = s'.box := by
  have key : ∀ (hist : List (List (Level K))) old ss, history lo i old hist = some ss → (∀ ls ∈ hist, findLevel i ls = some n) →
      (∀ ls ∈ hist, ∀ l, ls[n]? = some l → l.dx = dx) →
      ∀ s ∈ ss, s.lev = n ∧ s.box = region lo i ⟨dx, fun _ => True, fun _ => 0, fun _ => 0⟩ := by
    intro hist
    induction hist with
    | nil =>
      intro old ss h _ _ s hs
      simp only [history, Option.some.injEq] at h
      subst h
      simp at hs
    | cons ls rest ih =>
      intro old ss h hlev hdx s hs
      unfold history at h
      cases he : evaluate lo i old ls with
      | none => rw [he] at h; simp at h
      | some s0 =>
        rw [he] at h
        obtain ⟨tl, htl, rfl⟩ := Option.map_eq_some_iff.mp h
        rcases List.mem_cons.mp hs with rfl | hs
        · obtain ⟨l, e1, e2, e3, -⟩ := (evaluate_spec lo i old ls s).mp he
          rw [hlev ls (by simp), Option.some.injEq] at e2
          refine ⟨e2.symm, ?_⟩
          rw [e3]
          have := hdx ls (by simp) l (by rw [e2]; exact e1)
          unfold region corner
          simp only [this]
        · exact ih _ tl htl (fun x hx => hlev x (by simp [hx])) (fun x hx => hdx x (by simp [hx])) s hs
  intro s hs s' hs'
  obtain ⟨a1, a2⟩ := key hist old ss h hlev hdx s hs
  obtain ⟨b1, b2⟩ := key hist old ss h hlev hdx s' hs'
  exact ⟨by rw [a1, b1], by rw [a2, b2]⟩

/-- Without a size of chunks in the input all files of a run have the one found first: the largest grid of the level at the start. -/
theorem history_chunk (lo : Axis → K) (i : Inp K) (hi : i.chunk = none) (old : Option Idx) (ls : List (Level K)) (rest : List (List (Level K)))
    (s : St) (ss : List St) (h : history lo i old (ls :: rest) = some (s :: ss)) : ∀ t ∈ ss, t.chunk = s.chunk := by
  have key : ∀ (hist : List (List (Level K))) o ss, history lo i (some o) hist = some ss → ∀ t ∈ ss, t.chunk = o := by
    intro hist
    induction hist with
    | nil =>
      intro o ss h t ht
      simp only [history, Option.some.injEq] at h
      subst h
      simp at ht
    | cons ls rest ih =>
      intro o ss h t ht
      unfold history at h
      cases he : evaluate lo i (some o) ls with
      | none => rw [he] at h; simp at h
      | some s0 =>
        rw [he] at h
        obtain ⟨tl, htl, rfl⟩ := Option.map_eq_some_iff.mp h
        obtain ⟨l, -, -, -, -, -, e6⟩ := (evaluate_spec lo i (some o) ls s0).mp he
        have e : s0.chunk = o := by rw [e6, hi]; rfl
        rcases List.mem_cons.mp ht with rfl | ht
        · exact e
        · rw [e] at htl; exact ih o tl htl t ht
  unfold history at h
  cases he : evaluate lo i old ls with
  | none => rw [he] at h; simp at h
  | some s0 =>
    rw [he] at h
    obtain ⟨tl, htl, hs⟩ := Option.map_eq_some_iff.mp h
    simp only [List.cons.injEq] at hs
    obtain ⟨rfl, rfl⟩ := hs
    exact key rest s0.chunk tl htl

/-- A size given once holds in all directions, whatever else is given; without either size the input is refused. -/
theorem sizes_spec (dx : Option K) (dxVec : Option (Axis → K)) :
    (∀ h, dx = some h → sizes dx dxVec = some fun _ => h) ∧ (dx = none → sizes dx dxVec = dxVec) ∧
      (sizes dx dxVec = none ↔ dx = none ∧ dxVec = none) := by
  cases dx <;> cases dxVec <;> simp [sizes]

/-! ## A case -/

/-- Two levels: cells of 2 on [0, 16), cells of 1 on [4, 8). -/
def exLevels : List (Level ℚ) :=
  [⟨fun _ => 2, fun c => ∀ d, 0 ≤ c d ∧ c d < 8, fun _ => 8, fun _ => 1⟩, ⟨fun _ => 1, fun c => ∀ d, 4 ≤ c d ∧ c d < 8, fun _ => 4, fun _ => 2⟩]

/-- Two cells of the finer level from (5, 5, 5). -/
example : ∃ s, evaluate (fun _ => 0) ⟨fun _ => 5, fun _ => 2, fun _ => 1, none⟩ none exLevels = some s ∧ s.lev = 1 ∧
    written s exLevels (fun _ => 6) = some 2 := by
  obtain ⟨s, h1, h2, -, h4⟩ := exact_accepted (fun _ => 0) ⟨fun _ => 5, fun _ => 2, fun _ => 1, none⟩ none exLevels 1
    ⟨fun _ => 1, fun c => ∀ d, 4 ≤ c d ∧ c d < 8, fun _ => 4, fun _ => 2⟩ (fun _ => 5) rfl (fun _ => by norm_num) rfl (fun _ => by norm_num)
    (by
      intro k l' hk hkl
      have : k = 0 := by omega
      subst this
      simp only [exLevels, List.getElem?_cons_zero, Option.some.injEq] at hkl
      refine ⟨.x, ?_⟩
      rw [← hkl]
      norm_num)
    (by
      intro c hc d
      have := hc d
      dsimp only at this
      omega)
  refine ⟨s, h1, h2, ?_⟩
  rw [h4 (fun _ => 6) (fun d => by norm_num)]

/-- The mesh of the example scaled by 2e-5: the coarser level is taken. -/
example : findLevel (K := ℚ) ⟨fun _ => 5 / 50000, fun _ => 2, fun _ => 1 / 50000, none⟩
    [⟨fun _ => 2 / 50000, fun _ => True, fun _ => 8, fun _ => 1⟩, ⟨fun _ => 1 / 50000, fun _ => True, fun _ => 4, fun _ => 2⟩] = some 0 :=
  small_cells_wrong _ _ ⟨fun _ => 2 / 50000, fun _ => True, fun _ => 8, fun _ => 1⟩ rfl ⟨fun _ => 1 / 50000, fun _ => True, fun _ => 4, fun _ => 2⟩ rfl
    (fun _ => by norm_num) (fun _ => by norm_num) (fun _ => by norm_num)

end AmrWind.Subvol
