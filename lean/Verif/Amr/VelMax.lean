import Verif.Amr.Extrema

/-!
# C57: the largest and smallest velocities and where they are

Model of `utilities/diagnostics.cpp:105-600` (`get_vel_max` … `PrintMaxMACVelLocations`).
-/

set_option linter.unusedSectionVars false

namespace AmrWind.Amr

open Plane (Cell Bx Axis cells irange mem_cells)

section
variable {K : Type*} [Field K] [LinearOrder K]

/-! ## Model -/

/-- The loop over levels on rank `p`: `amrex::max(m, ReduceMax(…))`; `pts` are the points the loop over a box visits,
`init` the start value in each box, `lowest` the start of `ReduceMax`. -/
def rankMax (p : ℕ) (pts : Bx → List Cell) (lowest init : K) (term : ℕ → Lev → List Lev → Bx → Cell → K) :
    ℕ → List Lev → K → K
  | _, [], m => m
  | lev, L :: rest, m => rankMax p pts lowest init term (lev + 1) rest
      (max m ((L.boxes p).foldl (fun m b => max m ((pts b).foldl (fun m c => max m (term lev L rest b c)) init)) lowest))

/-- The loop over levels from the start value `init`, then `ReduceRealMax`. -/
def globalMax (nproc : ℕ) (pts : Bx → List Cell) (lowest init : K) (term : ℕ → Lev → List Lev → Bx → Cell → K)
    (levels : List Lev) : K :=
  reduceMax nproc fun p => rankMax p pts lowest init term 0 levels init

/-- diagnostics.cpp:105-128 `get_vel_max` in PrintMaxVelLocations (265-303); `low` is -1e8. -/
def velMax (nproc : ℕ) (lowest low factor : K) (vel : ℕ → Cell → K) (levels : List Lev) : K :=
  globalMax nproc cells lowest low (fun lev L rest _ c =>
    if levelMask nproc L rest c > 0 then factor * vel lev c else lowest) levels

/-- diagnostics.cpp:137-142 and 314-316: the minimum is the negated maximum of the negative. -/
def velMin (nproc : ℕ) (lowest low : K) (vel : ℕ → Cell → K) (levels : List Lev) : K :=
  velMax nproc lowest low (-1) vel levels * -1

/-- diagnostics.cpp:144-173 `get_vel_loc` in PrintMaxVelLocations (319-379): one coordinate of the place. -/
def velLoc (nproc : ℕ) (lowest eps problo : K) (d : Axis) (dx : ℕ → Axis → K) (vel : ℕ → Cell → K) (vmax : K)
    (levels : List Lev) : K :=
  globalMax nproc cells lowest problo (fun lev L rest _ c =>
    if levelMask nproc L rest c > 0 ∧ |vmax - vel lev c| < eps then problo + ((d.idx c : K) + 1 / 2) * dx lev d
    else problo) levels

/-- The mask with one ghost cell (diagnostics.cpp:449-473): zero in the ghost cells of coarser levels, one everywhere on
the finest level. -/
def ghostMask (nproc : ℕ) (L : Lev) (rest : List Lev) (b : Bx) (c : Cell) : ℤ :=
  match rest with
  | [] => 1
  | next :: _ => if contains b c then fineMask nproc L next c else 0

/-- diagnostics.cpp:175-214 `get_macvel_max`, `get_macvel_min` in PrintMaxMACVelLocations. -/
def macMax (nproc : ℕ) (lowest low factor : K) (v : Axis) (mac : ℕ → Cell → K) (levels : List Lev) : K :=
  globalMax nproc (fun b => cells ((Where.face v).fbx b)) lowest low (fun lev L rest b c =>
    if ghostMask nproc L rest b c + ghostMask nproc L rest b (v.shift c (-1)) > 0 then factor * mac lev c else lowest) levels

/-! ## Maxima -/

theorem rankMax_bound (p : ℕ) (pts : Bx → List Cell) (lowest init : K) (term : ℕ → Lev → List Lev → Bx → Cell → K)
    (levels : List Lev) (lev : ℕ) (m : K) :
    let v := rankMax p pts lowest init term lev levels m
    m ≤ v ∧
      (∀ n L rest b c, levels.drop n = L :: rest → b ∈ L.boxes p → c ∈ pts b → term (lev + n) L rest b c ≤ v) ∧
      (v = m ∨ v = init ∨ v = lowest ∨ ∃ n L rest b c, levels.drop n = L :: rest ∧ b ∈ L.boxes p ∧ c ∈ pts b ∧
        v = term (lev + n) L rest b c) := by
  induction levels generalizing lev m with
  | nil => exact ⟨le_rfl, by simp, Or.inl rfl⟩
  | cons L rest ih =>
    intro v
    set w : Bx → K := fun b => (pts b).foldl (fun m c => max m (term lev L rest b c)) init with hw
    obtain ⟨a1, a2, a3⟩ := foldl_max (L.boxes p) w lowest
    set u := (L.boxes p).foldl (fun m b => max m (w b)) lowest
    obtain ⟨b1, b2, b3⟩ := ih (lev + 1) (max m u)
    have hv : v = rankMax p pts lowest init term (lev + 1) rest (max m u) := rfl
    rw [← hv] at b1 b2 b3
    refine ⟨le_trans (le_max_left _ _) b1, ?_, ?_⟩
    · intro n M rest' b c hd hb hc
      cases n with
      | zero =>
        simp only [List.drop_zero, List.cons.injEq] at hd
        obtain ⟨rfl, rfl⟩ := hd
        exact le_trans ((foldl_max (pts b) (term lev L rest b) init).2.1 c hc)
          ((a2 b hb).trans ((le_max_right m u).trans b1))
      | succ n =>
        have := b2 n M rest' b c (by simpa using hd) hb hc
        rwa [show lev + (n + 1) = lev + 1 + n by omega]
    · rcases b3 with b3 | b3 | b3 | ⟨n, M, rest', b, c, h1, h2, h3, h4⟩
      · rcases max_choice m u with h | h
        · exact Or.inl (b3.trans h)
        · rcases a3 with a3 | ⟨b, hb, a3⟩
          · exact Or.inr (Or.inr (Or.inl (b3.trans (h.trans a3))))
          · rcases (foldl_max (pts b) (term lev L rest b) init).2.2 with g | ⟨c, hc, g⟩
            · exact Or.inr (Or.inl (b3.trans (h.trans (a3.trans g))))
            · exact Or.inr (Or.inr (Or.inr ⟨0, L, rest, b, c, rfl, hb, hc, b3.trans (h.trans (a3.trans g))⟩))
      · exact Or.inr (Or.inl b3)
      · exact Or.inr (Or.inr (Or.inl b3))
      · exact Or.inr (Or.inr (Or.inr ⟨n + 1, M, rest', b, c, by simpa using h1, h2, h3, by rw [h4]; congr 1; omega⟩))

theorem globalMax_bound {nproc : ℕ} (hp : 0 < nproc) (pts : Bx → List Cell) (lowest init : K)
    (term : ℕ → Lev → List Lev → Bx → Cell → K) (levels : List Lev) :
    let v := globalMax nproc pts lowest init term levels
    init ≤ v ∧
      (∀ p < nproc, ∀ n L rest b c, levels.drop n = L :: rest → b ∈ L.boxes p → c ∈ pts b → term n L rest b c ≤ v) ∧
      (v = init ∨ v = lowest ∨ ∃ p < nproc, ∃ n L rest b c, levels.drop n = L :: rest ∧ b ∈ L.boxes p ∧ c ∈ pts b ∧
        v = term n L rest b c) := by
  intro v
  have key := fun p => rankMax_bound p pts lowest init term levels 0 init
  simp only [zero_add] at key
  obtain ⟨a1, a2, a3⟩ := foldl_max (List.range nproc) (fun p => rankMax p pts lowest init term 0 levels init)
    (rankMax 0 pts lowest init term 0 levels init)
  refine ⟨(key 0).1.trans a1, fun p hp' n L rest b c h1 h2 h3 =>
    ((key p).2.1 n L rest b c h1 h2 h3).trans (a2 p (List.mem_range.mpr hp')), ?_⟩
  have hres : ∃ p < nproc, v = rankMax p pts lowest init term 0 levels init := by
    rcases a3 with a3 | ⟨p, hp', a3⟩
    · exact ⟨0, hp, a3⟩
    · exact ⟨p, List.mem_range.mp hp', a3⟩
  obtain ⟨p, hp', hv⟩ := hres
  rcases (key p).2.2 with h | h | h | ⟨n, L, rest, b, c, h1, h2, h3, h4⟩
  · exact Or.inl (hv.trans h)
  · exact Or.inl (hv.trans h)
  · exact Or.inr (Or.inl (hv.trans h))
  · exact Or.inr (Or.inr ⟨p, hp', n, L, rest, b, c, h1, h2, h3, hv.trans h4⟩)

variable [IsStrictOrderedRing K]

theorem vel_max_factor {nproc : ℕ} (hp : 0 < nproc) {levels : List Lev} (hn : Nested nproc levels) {lowest low factor : K}
    (hl : lowest ≤ low) {vel : ℕ → Cell → K} (hex : ∃ lev c, Uncovered nproc levels lev c)
    (hlow : ∀ lev c, Uncovered nproc levels lev c → low < factor * vel lev c) :
    IsGreatest {v | ∃ lev c, Uncovered nproc levels lev c ∧ v = factor * vel lev c}
      (velMax nproc lowest low factor vel levels) := by
  obtain ⟨h1, h2, h3⟩ := globalMax_bound hp cells lowest low (fun lev L rest _ c =>
    if levelMask nproc L rest c > 0 then factor * vel lev c else lowest) levels
  have hle : ∀ lev c, Uncovered nproc levels lev c → factor * vel lev c ≤ velMax nproc lowest low factor vel levels := by
    intro lev c hu
    obtain ⟨L, rest, hd, ⟨p, hp', b, hb, hc⟩, hm⟩ := (uncovered_iff_mask hn).mp hu
    have := h2 p hp' lev L rest b c hd hb (mem_cells.mpr hc)
    rw [if_pos (by rw [hm]; norm_num)] at this
    exact this
  obtain ⟨lev0, c0, hu0⟩ := hex
  have hgt := lt_of_lt_of_le (hlow lev0 c0 hu0) (hle lev0 c0 hu0)
  refine ⟨?_, ?_⟩
  · rcases h3 with h | h | ⟨p, hp', n, L, rest, b, c, hd, hb, hc, h⟩
    · exact absurd h (ne_of_gt hgt)
    · exact absurd h (ne_of_gt (lt_of_le_of_lt hl hgt))
    · by_cases hm : levelMask nproc L rest c > 0
      · rw [if_pos hm] at h
        refine ⟨n, c, (uncovered_iff_mask hn).mpr ⟨L, rest, hd, ⟨p, hp', b, hb, mem_cells.mp hc⟩, ?_⟩, h⟩
        rcases levelMask_cases nproc L rest c with h' | h' <;> omega
      · rw [if_neg hm] at h
        exact absurd h (ne_of_gt (lt_of_le_of_lt hl hgt))
  · rintro x ⟨lev, c, hu, rfl⟩
    exact hle lev c hu

/-- C57: the reported largest and smallest values are those over the uncovered cells of all levels and ranks, as long as
velocities stay below 1e8 in magnitude. -/
theorem vel_extrema {nproc : ℕ} (hp : 0 < nproc) {levels : List Lev} (hn : Nested nproc levels) {lowest low : K}
    (hl : lowest ≤ low) {vel : ℕ → Cell → K} (hex : ∃ lev c, Uncovered nproc levels lev c)
    (hb : ∀ lev c, Uncovered nproc levels lev c → |vel lev c| < -low) :
    IsGreatest {v | ∃ lev c, Uncovered nproc levels lev c ∧ v = vel lev c} (velMax nproc lowest low 1 vel levels) ∧
      IsLeast {v | ∃ lev c, Uncovered nproc levels lev c ∧ v = vel lev c} (velMin nproc lowest low vel levels) := by
  constructor
  · have := vel_max_factor hp hn hl (factor := 1) hex fun lev c hu => by
      have := (abs_lt.mp (hb lev c hu)).1
      linarith
    simpa using this
  · obtain ⟨⟨lev, c, hu, h1⟩, h2⟩ := vel_max_factor hp hn hl (factor := -1) hex fun lev c hu => by
      have := (abs_lt.mp (hb lev c hu)).2
      linarith
    unfold velMin
    refine ⟨⟨lev, c, hu, by rw [h1]; ring⟩, ?_⟩
    rintro x ⟨lev', c', hu', rfl⟩
    have := h2 ⟨lev', c', hu', rfl⟩
    linarith

/-- C57: each coordinate of the reported place is that coordinate of the centre of an uncovered cell with the extreme
value, the largest such coordinate. -/
theorem vel_loc_coordinate {nproc : ℕ} (hp : 0 < nproc) {levels : List Lev} (hn : Nested nproc levels)
    {lowest eps problo : K} (hl : lowest ≤ problo) {d : Axis} {dx : ℕ → Axis → K} (hdx : ∀ lev, 0 < dx lev d)
    {vel : ℕ → Cell → K} {vmax : K} (hpos : ∀ lev c, Uncovered nproc levels lev c → 0 ≤ d.idx c)
    (hex : ∃ lev c, Uncovered nproc levels lev c ∧ |vmax - vel lev c| < eps) :
    IsGreatest {x | ∃ lev c, Uncovered nproc levels lev c ∧ |vmax - vel lev c| < eps ∧
      x = problo + ((d.idx c : K) + 1 / 2) * dx lev d} (velLoc nproc lowest eps problo d dx vel vmax levels) := by
  obtain ⟨h1, h2, h3⟩ := globalMax_bound hp cells lowest problo (fun lev L rest _ c =>
    if levelMask nproc L rest c > 0 ∧ |vmax - vel lev c| < eps then problo + ((d.idx c : K) + 1 / 2) * dx lev d
    else problo) levels
  have hle : ∀ lev c, Uncovered nproc levels lev c → |vmax - vel lev c| < eps →
      problo + ((d.idx c : K) + 1 / 2) * dx lev d ≤ velLoc nproc lowest eps problo d dx vel vmax levels := by
    intro lev c hu he
    obtain ⟨L, rest, hd, ⟨p, hp', b, hb, hc⟩, hm⟩ := (uncovered_iff_mask hn).mp hu
    have := h2 p hp' lev L rest b c hd hb (mem_cells.mpr hc)
    rw [if_pos ⟨by rw [hm]; norm_num, he⟩] at this
    exact this
  obtain ⟨lev0, c0, hu0, he0⟩ := hex
  have hgt : problo < velLoc nproc lowest eps problo d dx vel vmax levels := by
    refine lt_of_lt_of_le ?_ (hle lev0 c0 hu0 he0)
    have : (0 : K) ≤ (d.idx c0 : K) := by exact_mod_cast hpos lev0 c0 hu0
    have := mul_pos (by linarith : (0 : K) < (d.idx c0 : K) + 1 / 2) (hdx lev0)
    linarith
  refine ⟨?_, ?_⟩
  · rcases h3 with h | h | ⟨p, hp', n, L, rest, b, c, hd, hb, hc, h⟩
    · exact absurd h (ne_of_gt hgt)
    · exact absurd h (ne_of_gt (lt_of_le_of_lt hl hgt))
    · by_cases hm : levelMask nproc L rest c > 0 ∧ |vmax - vel n c| < eps
      · rw [if_pos hm] at h
        refine ⟨n, c, (uncovered_iff_mask hn).mpr ⟨L, rest, hd, ⟨p, hp', b, hb, mem_cells.mp hc⟩, ?_⟩, hm.2, h⟩
        have := hm.1
        rcases levelMask_cases nproc L rest c with h' | h' <;> omega
      · rw [if_neg hm] at h
        exact absurd h (ne_of_gt hgt)
  · rintro x ⟨lev, c, hu, he, rfl⟩
    exact hle lev c hu he

/-- C57: if one uncovered cell alone has the extreme value, the reported place is its centre. Missing: with several such
cells the three coordinates may come from different cells (`vel_loc_mixed`). -/
theorem vel_loc_partial {nproc : ℕ} (hp : 0 < nproc) {levels : List Lev} (hn : Nested nproc levels)
    {lowest eps : K} {problo : Axis → K} (hl : ∀ d, lowest ≤ problo d) {dx : ℕ → Axis → K} (hdx : ∀ lev d, 0 < dx lev d)
    {vel : ℕ → Cell → K} {vmax : K} (hpos : ∀ lev c, Uncovered nproc levels lev c → ∀ d : Axis, 0 ≤ d.idx c)
    {lev : ℕ} {c : Cell} (hu : Uncovered nproc levels lev c) (he : |vmax - vel lev c| < eps)
    (honly : ∀ lev' c', Uncovered nproc levels lev' c' → |vmax - vel lev' c'| < eps → lev' = lev ∧ c' = c) (d : Axis) :
    velLoc nproc lowest eps (problo d) d dx vel vmax levels = problo d + ((d.idx c : K) + 1 / 2) * dx lev d := by
  obtain ⟨⟨lev', c', hu', he', h⟩, -⟩ := vel_loc_coordinate hp hn (hl d) (d := d) (fun l => hdx l d)
    (fun l c h => hpos l c h d) ⟨lev, c, hu, he⟩
  obtain ⟨rfl, rfl⟩ := honly lev' c' hu' he'
  exact h

/-! ## Face velocities -/

theorem has_fbx {v : Axis} {b : Bx} {c : Cell} (h : b.Has c) :
    ((Where.face v).fbx b).Has c ∧ ((Where.face v).fbx b).Has (v.shift c 1) := by
  obtain ⟨⟨h1, h2⟩, ⟨h3, h4⟩, ⟨h5, h6⟩⟩ := h
  obtain ⟨i, j, k⟩ := c
  simp only at h1 h2 h3 h4 h5 h6
  cases v <;> simp [Bx.Has, Where.fbx, Where.nodal, Axis.shift] <;> omega

theorem shift_shift (v : Axis) (c : Cell) : v.shift (v.shift c 1) (-1) = c ∧ v.shift (v.shift c (-1)) 1 = c := by
  obtain ⟨i, j, k⟩ := c
  cases v <;> simp [Axis.shift]

/-- A face of the box is a face of one of its cells. -/
theorem of_fbx {v : Axis} {b : Bx} {c : Cell} (hb : b.Ok) (h : ((Where.face v).fbx b).Has c) :
    b.Has c ∨ b.Has (v.shift c (-1)) := by
  obtain ⟨i, j, k⟩ := c
  obtain ⟨o1, o2, o3⟩ := hb
  cases v <;> simp [Bx.Has, Where.fbx, Where.nodal, Axis.shift] at h ⊢ <;> omega

theorem mac_max_factor {nproc : ℕ} (hp : 0 < nproc) {levels : List Lev} (hn : Nested nproc levels)
    (hok : ∀ L ∈ levels, ∀ p < nproc, ∀ b ∈ L.boxes p, b.Ok) {lowest low factor : K}
    (hl : lowest ≤ low) {v : Axis} {mac : ℕ → Cell → K} (hex : ∃ lev c, Uncovered nproc levels lev c)
    (hlow : ∀ lev c, Uncovered nproc levels lev c ∨ Uncovered nproc levels lev (v.shift c (-1)) → low < factor * mac lev c) :
    IsGreatest {x | ∃ lev c, (Uncovered nproc levels lev c ∨ Uncovered nproc levels lev (v.shift c (-1))) ∧
      x = factor * mac lev c} (macMax nproc lowest low factor v mac levels) := by
  obtain ⟨h1, h2, h3⟩ := globalMax_bound hp (fun b => cells ((Where.face v).fbx b)) lowest low (fun lev L rest b c =>
    if ghostMask nproc L rest b c + ghostMask nproc L rest b (v.shift c (-1)) > 0 then factor * mac lev c else lowest) levels
  have hg0 : ∀ L rest b c, 0 ≤ ghostMask nproc L rest b c := by
    intro L rest b c
    unfold ghostMask
    cases rest with
    | nil => norm_num
    | cons next rest =>
      simp only
      split
      · rcases levelMask_cases nproc L (next :: rest) c with h' | h' <;> (change fineMask nproc L next c = _ at h'; omega)
      · exact le_rfl
  have hg1 : ∀ L rest b c, b.Has c → levelMask nproc L rest c = 1 → ghostMask nproc L rest b c = 1 := by
    intro L rest b c hb hm
    unfold ghostMask
    cases rest with
    | nil => rfl
    | cons next rest =>
      simp only
      rw [if_pos (contains_iff.mpr hb)]
      exact hm
  have hle : ∀ lev c, (Uncovered nproc levels lev c ∨ Uncovered nproc levels lev (v.shift c (-1))) →
      factor * mac lev c ≤ macMax nproc lowest low factor v mac levels := by
    rintro lev c (hu | hu)
    · obtain ⟨L, rest, hd, ⟨p, hp', b, hb, hc⟩, hm⟩ := (uncovered_iff_mask hn).mp hu
      have := h2 p hp' lev L rest b c hd hb (mem_cells.mpr (has_fbx hc).1)
      rw [if_pos (by have := hg0 L rest b (v.shift c (-1)); rw [hg1 L rest b c hc hm]; omega)] at this
      exact this
    · obtain ⟨L, rest, hd, ⟨p, hp', b, hb, hc⟩, hm⟩ := (uncovered_iff_mask hn).mp hu
      have hmem := (has_fbx (v := v) hc).2
      rw [(shift_shift v c).2] at hmem
      have := h2 p hp' lev L rest b c hd hb (mem_cells.mpr hmem)
      rw [if_pos (by have := hg0 L rest b c; rw [hg1 L rest b _ hc hm]; omega)] at this
      exact this
  obtain ⟨lev0, c0, hu0⟩ := hex
  have hgt := lt_of_lt_of_le (hlow lev0 c0 (Or.inl hu0)) (hle lev0 c0 (Or.inl hu0))
  refine ⟨?_, ?_⟩
  · rcases h3 with h | h | ⟨p, hp', n, L, rest, b, c, hd, hb, hc, h⟩
    · exact absurd h (ne_of_gt hgt)
    · exact absurd h (ne_of_gt (lt_of_le_of_lt hl hgt))
    · by_cases hm : ghostMask nproc L rest b c + ghostMask nproc L rest b (v.shift c (-1)) > 0
      · rw [if_pos hm] at h
        refine ⟨n, c, ?_, h⟩
        cases rest with
        | nil =>
          have hbok : b.Ok := hok L (List.mem_of_mem_drop (by rw [hd]; exact List.mem_cons_self)) p hp' b hb
          rcases of_fbx hbok (mem_cells.mp hc) with hh | hh
          · exact Or.inl ((uncovered_iff_mask hn).mpr ⟨L, [], hd, ⟨p, hp', b, hb, hh⟩, rfl⟩)
          · exact Or.inr ((uncovered_iff_mask hn).mpr ⟨L, [], hd, ⟨p, hp', b, hb, hh⟩, rfl⟩)
        | cons next rest =>
          have key : ∀ a, ghostMask nproc L (next :: rest) b a > 0 → Uncovered nproc levels n a := by
            intro a ha
            unfold ghostMask at ha
            simp only at ha
            by_cases hca : contains b a = true
            · rw [if_pos hca] at ha
              refine (uncovered_iff_mask hn).mpr ⟨L, next :: rest, hd, ⟨p, hp', b, hb, contains_iff.mp hca⟩, ?_⟩
              rcases levelMask_cases nproc L (next :: rest) a with h' | h'
              · exact h'
              · change fineMask nproc L next a = _ at h'
                omega
            · rw [if_neg hca] at ha
              exact absurd ha (lt_irrefl _)
          by_cases hpos : ghostMask nproc L (next :: rest) b c > 0
          · exact Or.inl (key c hpos)
          · exact Or.inr (key _ (by omega))
      · rw [if_neg hm] at h
        exact absurd h (ne_of_gt (lt_of_le_of_lt hl hgt))
  · rintro x ⟨lev, c, hu, rfl⟩
    exact hle lev c hu

/-- C57: the reported largest and smallest face velocities are those over all faces of uncovered cells. -/
theorem mac_extrema {nproc : ℕ} (hp : 0 < nproc) {levels : List Lev} (hn : Nested nproc levels)
    (hok : ∀ L ∈ levels, ∀ p < nproc, ∀ b ∈ L.boxes p, b.Ok) {lowest low : K}
    (hl : lowest ≤ low) {v : Axis} {mac : ℕ → Cell → K} (hex : ∃ lev c, Uncovered nproc levels lev c)
    (hb : ∀ lev c, Uncovered nproc levels lev c ∨ Uncovered nproc levels lev (v.shift c (-1)) → |mac lev c| < -low) :
    IsGreatest {x | ∃ lev c, (Uncovered nproc levels lev c ∨ Uncovered nproc levels lev (v.shift c (-1))) ∧
        x = mac lev c} (macMax nproc lowest low 1 v mac levels) ∧
      IsLeast {x | ∃ lev c, (Uncovered nproc levels lev c ∨ Uncovered nproc levels lev (v.shift c (-1))) ∧
        x = mac lev c} (macMax nproc lowest low (-1) v mac levels * -1) := by
  constructor
  · have := mac_max_factor hp hn hok hl (v := v) (mac := mac) (factor := 1) hex fun lev c hu => by
      have := (abs_lt.mp (hb lev c hu)).1
      linarith
    simpa using this
  · obtain ⟨⟨lev, c, hu, h1⟩, h2⟩ := mac_max_factor hp hn hok hl (v := v) (mac := mac) (factor := -1) hex fun lev c hu => by
      have := (abs_lt.mp (hb lev c hu)).2
      linarith
    refine ⟨⟨lev, c, hu, by rw [h1]; ring⟩, ?_⟩
    rintro x ⟨lev', c', hu', rfl⟩
    have := h2 ⟨lev', c', hu', rfl⟩
    linarith

end

/-! ## Examples and the counterexample -/

/-- Two by two cells, largest velocity 5 in two opposite cells. -/
def tieVel : ℕ → Cell → ℚ := fun _ c => if c = (0, 1, 0) ∨ c = (1, 0, 0) then 5 else 0

def tieLevels : List Lev := [⟨fun _ => [⟨(0, 0, 0), (1, 1, 0)⟩], fun _ => 1⟩]

/-- C57, disagreement: with the largest velocity in the cells with centres (0.5, 1.5) and (1.5, 0.5) the place reported is
(1.5, 1.5), where the velocity is zero. -/
theorem vel_loc_mixed : velMax 1 (-1000000000) (-100000000) 1 tieVel tieLevels = 5 ∧
    velLoc 1 (-1000000000) (1 / 1000000) 0 .x (fun _ _ => 1) tieVel 5 tieLevels = 3 / 2 ∧
    velLoc 1 (-1000000000) (1 / 1000000) 0 .y (fun _ _ => 1) tieVel 5 tieLevels = 3 / 2 ∧ tieVel 0 (1, 1, 0) = 0 := by
  decide +kernel

example : velMax 2 (-1000000000) (-100000000) 1 (fun lev c => (lev : ℚ) + c.1) exLevels = 2 ∧
    velMin 2 (-1000000000) (-100000000) (fun lev c => (lev : ℚ) + c.1) exLevels = 0 := by decide +kernel

example : macMax 2 (-1000000000) (-100000000) 1 .x (fun lev c => (lev : ℚ) + c.1) exLevels = 3 := by decide +kernel

end AmrWind.Amr
