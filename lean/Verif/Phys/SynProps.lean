import Mathlib.Analysis.SpecialFunctions.Gaussian.GaussianIntegral
import Mathlib.MeasureTheory.Integral.IntegralEqImproper
import Verif.Phys.SynModel

/-! # Synthetic turbulence (property C106) -/

set_option linter.unusedSectionVars false

namespace AmrWind.Syn

open Vs

section index
variable {K : Type*} [Field K] [LinearOrder K] [IsStrictOrderedRing K] [FloorRing K]

/-- Specification: the periodic piecewise linear function with the value `f (i mod n)` at `i dx`. -/
def lin (n : ℤ) (dx : K) (f : ℤ → K) (s : K) : K :=
  (1 - Int.fract (s / dx)) * f (⌊s / dx⌋ % n) + Int.fract (s / dx) * f ((⌊s / dx⌋ + 1) % n)

/-- **C106**: in a box of `n` cells the left and right neighbour of any position, however many lengths away, are those of the periodic grid, and the weights the fractions
between them. -/
theorem lr_periodic {n : ℤ} (hn : 0 < n) {dx : K} (hdx : 0 < dx) (x : K) :
    (lr n (n * dx) dx x).l = ⌊x / dx⌋ % n ∧ (lr n (n * dx) dx x).r = (⌊x / dx⌋ + 1) % n ∧
      (lr n (n * dx) dx x).wr = Int.fract (x / dx) ∧ (lr n (n * dx) dx x).wl = 1 - Int.fract (x / dx) := by
  have hnK : (0 : K) < n := by exact_mod_cast hn
  set y := x / dx with hy
  have e1 : x / (n * dx) = y / n := by rw [hy]; field_simp
  set q := ⌊y / n⌋ with hq
  have eb : (x - (q : K) * (n * dx)) / dx = y - ((q * n : ℤ) : K) := by
    rw [hy]; push_cast; field_simp
  have ef : ⌊(x - (q : K) * (n * dx)) / dx⌋ = ⌊y⌋ - q * n := by rw [eb, Int.floor_sub_intCast]
  have q1 : (q : K) * n ≤ y := by
    have := Int.floor_le (y / n)
    rw [← hq] at this
    exact (le_div_iff₀ hnK).mp this
  have q2 : y < ((q : K) + 1) * n := by
    have := Int.lt_floor_add_one (y / n)
    rw [← hq] at this
    exact (div_lt_iff₀ hnK).mp this
  have q3 : q * n ≤ ⌊y⌋ := Int.le_floor.mpr (by push_cast; exact q1)
  have q4 : ⌊y⌋ < (q + 1) * n := Int.floor_lt.mpr (by push_cast; exact q2)
  have em : ⌊y⌋ % n = ⌊y⌋ - q * n := by
    have : ⌊y⌋ = (⌊y⌋ - q * n) + q * n := by ring
    rw [this, Int.add_mul_emod_self_right, Int.emod_eq_of_lt (by linarith) (by linarith)]
    ring
  unfold lr
  dsimp only
  rw [e1, ← hq, ef, em]
  have wr : (x - (q : K) * (n * dx) - dx * ((⌊y⌋ - q * n : ℤ) : K)) / dx = Int.fract y := by
    unfold Int.fract
    rw [hy]
    push_cast
    field_simp
    ring
  refine ⟨rfl, ?_, wr, by rw [wr]⟩
  have : ⌊y⌋ + 1 = (⌊y⌋ - q * n + 1) + q * n := by ring
  rw [this, Int.add_mul_emod_self_right]
  split_ifs with h
  · have : ⌊y⌋ - q * n + 1 = n := by linarith
    rw [this, Int.emod_self]
    ring
  · rw [Int.emod_eq_of_lt (by linarith) (by linarith)]

/-- So they are in range, and the weights make a mean.

Partial (C106). Missing: longer lengths in the file, which read out of range (`lr_overflow`). -/
theorem lr_range_partial {n : ℤ} (hn : 0 < n) {dx : K} (hdx : 0 < dx) (x : K) :
    let w := lr n (n * dx) dx x
    (0 ≤ w.l ∧ w.l < n) ∧ (0 ≤ w.r ∧ w.r < n) ∧ 0 ≤ w.wr ∧ 0 < w.wl ∧ w.wl + w.wr = 1 ∧ w.r = (w.l + 1) % n := by
  obtain ⟨h1, h2, h3, h4⟩ := lr_periodic hn hdx x
  dsimp only
  rw [h1, h2, h3, h4]
  refine ⟨⟨Int.emod_nonneg _ hn.ne', Int.emod_lt_of_pos _ hn⟩, ⟨Int.emod_nonneg _ hn.ne', Int.emod_lt_of_pos _ hn⟩, Int.fract_nonneg _, ?_, by ring, ?_⟩
  · have := Int.fract_lt_one (x / dx)
    linarith
  · rw [Int.emod_add_emod]

/-- **C106**, disagreement: with a length in the file that is larger than the number of points times their distance the index goes out of range: for positions beyond the last cell. -/
theorem lr_overflow {n : ℤ} (hn : 0 < n) {dx len : K} (hdx : 0 < dx) (h : n * dx < len) : (lr n len dx (n * dx)).l = n := by
  have hnK : (0 : K) < n := by exact_mod_cast hn
  have : ⌊(n * dx : K) / len⌋ = 0 := by
    rw [Int.floor_eq_zero_iff]
    have hl : 0 < len := (mul_pos hnK hdx).trans h
    exact ⟨(div_pos (mul_pos hnK hdx) hl).le, (div_lt_one hl).mpr h⟩
  unfold lr
  dsimp only
  rw [this]
  simp [hdx.ne']

/-- The values between which `lin` interpolates bound it. -/
theorem lin_bounds (n : ℤ) (dx s a b : K) (f : ℤ → K) (h : ∀ i, a ≤ f i ∧ f i ≤ b) : a ≤ lin n dx f s ∧ lin n dx f s ≤ b := by
  unfold lin
  have h0 := Int.fract_nonneg (s / dx)
  have h1 := (Int.fract_lt_one (s / dx)).le
  set t := Int.fract (s / dx)
  have p := h (⌊s / dx⌋ % n)
  have q := h ((⌊s / dx⌋ + 1) % n)
  constructor
  · nlinarith [mul_le_mul_of_nonneg_left p.1 (sub_nonneg.mpr h1), mul_le_mul_of_nonneg_left q.1 h0]
  · nlinarith [mul_le_mul_of_nonneg_left p.2 (sub_nonneg.mpr h1), mul_le_mul_of_nonneg_left q.2 h0]

/-- It has the values of the grid, and repeats with the length of the box. -/
theorem lin_nodes {n : ℤ} {dx : K} (hdx : 0 < dx) (f : ℤ → K) (i : ℤ) (s : K) :
    lin n dx f (i * dx) = f (i % n) ∧ lin n dx f (s + n * dx) = lin n dx f s := by
  unfold lin
  constructor
  · rw [mul_div_cancel_right₀ _ hdx.ne']
    simp
  · have : (s + n * dx) / dx = s / dx + n := by field_simp
    rw [this, Int.floor_add_intCast, Int.fract_add_intCast, Int.add_emod_right, show ⌊s / dx⌋ + n + 1 = ⌊s / dx⌋ + 1 + n by ring, Int.add_emod_right]

end index

/-! ## Planes -/

/-- The file is read in the order in which it is stored. -/
theorem flat_at (b : Box) (n : Fin 3) (i : ℤ) {j k : ℤ} (hj : 0 ≤ j ∧ j < b.ny) (hk : 0 ≤ k ∧ k < b.nz) :
    b.flat n (i * (b.ny * b.nz) + (j * b.nz + k)) = b.file n i j k := by
  have hz : 0 < b.nz := lt_of_le_of_lt hk.1 hk.2
  have hy : 0 < b.ny := lt_of_le_of_lt hj.1 hj.2
  have hyz : 0 < b.ny * b.nz := mul_pos hy hz
  have r0 : 0 ≤ j * b.nz + k := by nlinarith [mul_nonneg hj.1 hz.le]
  have r1 : j * b.nz + k < b.ny * b.nz := by nlinarith
  have d1 : (i * (b.ny * b.nz) + (j * b.nz + k)) / (b.ny * b.nz) = i := by
    rw [add_comm, Int.add_mul_ediv_right _ _ hyz.ne', Int.ediv_eq_zero_of_lt r0 r1, zero_add]
  have d2 : (i * (b.ny * b.nz) + (j * b.nz + k)) % (b.ny * b.nz) = j * b.nz + k := by
    rw [add_comm, Int.add_mul_emod_self_right, Int.emod_eq_of_lt r0 r1]
  have d3 : (j * b.nz + k) / b.nz = j := by
    rw [add_comm, Int.add_mul_ediv_right _ _ hz.ne', Int.ediv_eq_zero_of_lt hk.1 hk.2, zero_add]
  have d4 : (i * (b.ny * b.nz) + (j * b.nz + k)) % b.nz = k := by
    have : i * (b.ny * b.nz) + (j * b.nz + k) = k + (i * b.ny + j) * b.nz := by ring
    rw [this, Int.add_mul_emod_self_right, Int.emod_eq_of_lt hk.1 hk.2]
  unfold Box.flat
  rw [d1, d2, d3, d4]

/-- The planes in memory are the planes `il` and `ir` of the file. -/
def Holds (b : Box) (d : Loaded) (il ir : ℤ) : Prop :=
  d.ileft = il ∧ d.iright = ir ∧ ∀ n j k, (0 ≤ j ∧ j < b.ny) → (0 ≤ k ∧ k < b.nz) →
    d.buf n (j * b.nz + k) = b.file n il j k ∧ d.buf n (j * b.nz + k + b.ny * b.nz) = b.file n ir j k

theorem load_holds (b : Box) {il ir : ℤ} (h1 : 0 ≤ il ∧ il < b.nx) (h2 : 0 ≤ ir ∧ ir < b.nx) : ∃ d, load b il ir = some d ∧ Holds b d il ir := by
  unfold load
  dsimp only
  by_cases h : ir - il = 1
  · rw [if_pos h, if_pos ⟨h1.1, by omega⟩]
    refine ⟨_, rfl, rfl, rfl, fun n j k hj hk => ⟨flat_at b n il hj hk, ?_⟩⟩
    have : il * (b.ny * b.nz) + (j * b.nz + k + b.ny * b.nz) = (il + 1) * (b.ny * b.nz) + (j * b.nz + k) := by ring
    show b.flat n (il * (b.ny * b.nz) + (j * b.nz + k + b.ny * b.nz)) = _
    rw [this, flat_at b n _ hj hk, show il + 1 = ir by omega]
  · rw [if_neg h, if_pos ⟨⟨h1.1, by omega⟩, ⟨h2.1, by omega⟩⟩]
    refine ⟨_, rfl, rfl, rfl, fun n j k hj hk => ⟨?_, ?_⟩⟩
    · show (if j * b.nz + k < b.ny * b.nz then _ else _) = _
      rw [if_pos (by nlinarith), flat_at b n il hj hk]
    · show (if j * b.nz + k + b.ny * b.nz < b.ny * b.nz then _ else _) = _
      have hz : 0 < b.nz := lt_of_le_of_lt hk.1 hk.2
      rw [if_neg (by nlinarith [mul_nonneg hj.1 hz.le]), add_sub_cancel_right, flat_at b n ir hj hk]

/-- C106. Planes are read exactly when both are in the file. -/
theorem load_defined (b : Box) (il ir : ℤ) : (load b il ir).isSome ↔ (0 ≤ il ∧ il < b.nx) ∧ (0 ≤ ir ∧ ir < b.nx) := by
  unfold load
  dsimp only
  split_ifs with h1 h2 h2 <;> simp <;> omega

/-- A box whose lengths are the numbers of points times their distances. -/
structure Box.Ok (b : Box) : Prop where
  nx : 0 < b.nx
  ny : 0 < b.ny
  nz : 0 < b.nz
  dx : 0 < b.dx.x
  dy : 0 < b.dx.y
  dz : 0 < b.dx.z
  lx : b.len.x = b.nx * b.dx.x
  ly : b.len.y = b.ny * b.dx.y
  lz : b.len.z = b.nz * b.dx.z

/-- Specification: the turbulence of the box at a position in it: linear in each direction between the points of the file, and periodic. -/
noncomputable def field (b : Box) (n : Fin 3) (x y z : ℝ) : ℝ :=
  lin b.nx b.dx.x (fun i => lin b.ny b.dx.y (fun j => lin b.nz b.dx.z (fun k => b.file n i j k) z) y) x

theorem interp_field {b : Box} (h : b.Ok) {d : Loaded} (n : Fin 3) (x y z : ℝ)
    (hd : Holds b d (lr b.nx b.len.x b.dx.x x).l (lr b.nx b.len.x b.dx.x x).r) :
    interp b.ny b.nz (d.buf n) (lr b.nx b.len.x b.dx.x x) (lr b.ny b.len.y b.dx.y y) (lr b.nz b.len.z b.dx.z z) = field b n x y z := by
  obtain ⟨_, _, hb⟩ := hd
  rw [h.lx] at *
  rw [h.ly, h.lz]
  obtain ⟨x1, x2, x3, x4⟩ := lr_periodic h.nx h.dx x
  obtain ⟨y1, y2, y3, y4⟩ := lr_periodic h.ny h.dy y
  obtain ⟨z1, z2, z3, z4⟩ := lr_periodic h.nz h.dz z
  have ry := lr_range_partial h.ny h.dy y
  have rz := lr_range_partial h.nz h.dz z
  dsimp only at ry rz
  unfold interp
  dsimp only
  simp only [add_zero]
  rw [(hb n _ _ ry.1 rz.1).1, (hb n _ _ ry.2.1 rz.1).1, (hb n _ _ ry.2.1 rz.2.1).1, (hb n _ _ ry.1 rz.2.1).1,
    (hb n _ _ ry.1 rz.1).2, (hb n _ _ ry.2.1 rz.1).2, (hb n _ _ ry.2.1 rz.2.1).2, (hb n _ _ ry.1 rz.2.1).2]
  rw [x1, x2, x3, x4, y1, y2, y3, y4, z1, z2, z3, z4]
  unfold field lin
  ring

/-- Specification: the force at `x` and time `t`: nothing after the duration and outside of the box, else that of the turbulence that passes the plane at the time. -/
noncomputable def wanted (b : Box) (p : Input) (t rho : ℝ) (x : Vec ℝ) : Vec ℝ :=
  if 0 < p.duration ∧ p.duration < t - p.offset then ⟨0, 0, 0⟩
  else
    let r := p.loc x
    if |r.y| ≤ b.len.y / 2 ∧ |r.z| ≤ b.len.z / 2 then
      let v := fun n => field b n (p.refVel * (t - p.offset)) (r.y + b.len.y / 2) (r.z + b.len.z / 2)
      pointForce p rho x ⟨v 0, v 1, v 2⟩
    else ⟨0, 0, 0⟩

/-- Invariant: what is in memory is what the indices say, and there is no force outside of the box. -/
def Inv {C : Type*} (b : Box) (p : Input) (pos : C → Vec ℝ) (s : State C) : Prop :=
  (∀ d, s.data = some d → ∃ x, d.ileft = (lr b.nx b.len.x b.dx.x x).l ∧ Holds b d (lr b.nx b.len.x b.dx.x x).l (lr b.nx b.len.x b.dx.x x).r) ∧
  ∀ c, inBox b (p.loc (pos c)) = none → s.force c = ⟨0, 0, 0⟩

theorem advance_spec {C : Type*} {b : Box} (hb : b.Ok) (p : Input) (pos : C → Vec ℝ) (t : ℝ) (rho : C → ℝ) {s : State C} (hs : Inv b p pos s) :
    ∃ s', advance b p pos t rho s = some s' ∧ Inv b p pos s' ∧ ∀ c, s'.force c = wanted b p t (rho c) (pos c) := by
  have rng : ∀ x, (0 ≤ (lr b.nx b.len.x b.dx.x x).l ∧ (lr b.nx b.len.x b.dx.x x).l < b.nx) ∧ (0 ≤ (lr b.nx b.len.x b.dx.x x).r ∧ (lr b.nx b.len.x b.dx.x x).r < b.nx) ∧
      (lr b.nx b.len.x b.dx.x x).r = ((lr b.nx b.len.x b.dx.x x).l + 1) % b.nx := by
    intro x
    rw [hb.lx]
    have := lr_range_partial hb.nx hb.dx x
    exact ⟨this.1, this.2.1, this.2.2.2.2.2⟩
  obtain ⟨hdat, hout⟩ := hs
  set X := p.refVel * (t - p.offset) with hX
  obtain ⟨d0, hd0, hold0⟩ := load_holds b (rng X).1 (rng X).2.1
  have start : ∃ d x, s.data.elim (load b (lr b.nx b.len.x b.dx.x X).l (lr b.nx b.len.x b.dx.x X).r) some = some d ∧
      Holds b d (lr b.nx b.len.x b.dx.x x).l (lr b.nx b.len.x b.dx.x x).r := by
    cases hsd : s.data with
    | none => exact ⟨d0, X, hd0, hold0⟩
    | some d =>
      obtain ⟨x, _, hx⟩ := hdat d hsd
      exact ⟨d, x, rfl, hx⟩
  obtain ⟨d, x, hd, hold⟩ := start
  unfold advance
  dsimp only
  rw [← hX, hd]
  dsimp only
  by_cases hdur : p.duration > 0 ∧ t - p.offset > p.duration
  · rw [if_pos hdur]
    refine ⟨_, rfl, ⟨?_, fun c _ => rfl⟩, fun c => ?_⟩
    · intro d' hd'
      simp only [Option.some.injEq] at hd'
      subst hd'
      exact ⟨x, hold.1, hold⟩
    · unfold wanted
      rw [if_pos hdur]
  · rw [if_neg hdur]
    have step : ∃ d', (if (lr b.nx b.len.x b.dx.x X).l ≠ d.ileft then load b (lr b.nx b.len.x b.dx.x X).l (lr b.nx b.len.x b.dx.x X).r else some d) = some d' ∧
        Holds b d' (lr b.nx b.len.x b.dx.x X).l (lr b.nx b.len.x b.dx.x X).r := by
      by_cases hl : (lr b.nx b.len.x b.dx.x X).l ≠ d.ileft
      · rw [if_pos hl]
        exact ⟨d0, hd0, hold0⟩
      · rw [if_neg hl]
        rw [not_not] at hl
        refine ⟨d, rfl, ?_⟩
        have e1 : (lr b.nx b.len.x b.dx.x x).l = (lr b.nx b.len.x b.dx.x X).l := by rw [hl, hold.1]
        have e2 : (lr b.nx b.len.x b.dx.x x).r = (lr b.nx b.len.x b.dx.x X).r := by rw [(rng x).2.2, (rng X).2.2, e1]
        rw [e1, e2] at hold
        exact hold
    obtain ⟨d', hd', hold'⟩ := step
    rw [hd']
    refine ⟨_, rfl, ⟨?_, ?_⟩, fun c => ?_⟩
    · intro d'' h''
      simp only [Option.some.injEq] at h''
      subst h''
      exact ⟨X, hold'.1, hold'⟩
    · intro c hc
      show cellForce b p d' _ (rho c) (pos c) (s.force c) = _
      unfold cellForce
      rw [hc]
      exact hout c hc
    · show cellForce b p d' _ (rho c) (pos c) (s.force c) = _
      unfold wanted
      rw [if_neg hdur]
      dsimp only
      have eq : inBox b (p.loc (pos c)) = if |(p.loc (pos c)).y| ≤ b.len.y / 2 ∧ |(p.loc (pos c)).z| ≤ b.len.z / 2 then
          some (lr b.ny b.len.y b.dx.y ((p.loc (pos c)).y + b.len.y / 2), lr b.nz b.len.z b.dx.z ((p.loc (pos c)).z + b.len.z / 2)) else none := by
        unfold inBox
        dsimp only
        have g1 : (p.loc (pos c)).y + b.len.y * (1 / 2) = (p.loc (pos c)).y + b.len.y / 2 := by ring
        have g2 : (p.loc (pos c)).z + b.len.z * (1 / 2) = (p.loc (pos c)).z + b.len.z / 2 := by ring
        rw [g1, g2]
        apply if_congr _ rfl rfl
        rw [abs_le, abs_le]
        constructor
        · rintro ⟨a1, a2, a3, a4⟩
          exact ⟨⟨by linarith, by linarith⟩, ⟨by linarith, by linarith⟩⟩
        · rintro ⟨⟨a1, a2⟩, a3, a4⟩
          exact ⟨by linarith, by linarith, by linarith, by linarith⟩
      by_cases hin : |(p.loc (pos c)).y| ≤ b.len.y / 2 ∧ |(p.loc (pos c)).z| ≤ b.len.z / 2
      · rw [if_pos hin] at eq ⊢
        unfold cellForce
        rw [eq]
        dsimp only
        rw [interp_field hb 0 _ _ _ hold', interp_field hb 1 _ _ _ hold', interp_field hb 2 _ _ _ hold']
      · rw [if_neg hin] at eq ⊢
        unfold cellForce
        rw [eq]
        exact hout c eq

/-- **C106**: after any history of steps, in any order of times, with any changes of the mesh between them, reading never fails and the force in every cell is the one that belongs
to the time of the last step: it does not depend on the history, so a restarted run has the same forces.

Partial (C106). Missing: files whose lengths are not points times distance. -/
theorem force_history_partial {C : Type*} {b : Box} (hb : b.Ok) (p : Input) (pos : C → Vec ℝ) (h : List (Event C)) (t : ℝ) (rho : C → ℝ) :
    ∃ s, run b p pos (h ++ [.step t rho]) = some s ∧ ∀ c, s.force c = wanted b p t (rho c) (pos c) := by
  have key : ∀ (h : List (Event C)) (s : State C), Inv b p pos s → ∃ s', h.foldlM (event b p pos) s = some s' ∧ Inv b p pos s' := by
    intro h
    induction h with
    | nil => exact fun s hs => ⟨s, rfl, hs⟩
    | cons e h ih =>
      intro s hs
      rw [List.foldlM_cons]
      cases e with
      | step t rho =>
        obtain ⟨s1, e1, i1, _⟩ := advance_spec hb p pos t rho hs
        obtain ⟨s2, e2, i2⟩ := ih s1 i1
        refine ⟨s2, ?_, i2⟩
        show (advance b p pos t rho s >>= fun s => _) = _
        rw [e1]
        exact e2
      | regrid =>
        obtain ⟨s2, e2, i2⟩ := ih ⟨s.data, fun _ => ⟨0, 0, 0⟩⟩ ⟨hs.1, fun c _ => rfl⟩
        exact ⟨s2, e2, i2⟩
  obtain ⟨s1, e1, i1⟩ := key h ⟨none, fun _ => ⟨0, 0, 0⟩⟩ ⟨fun d hd => by simp at hd, fun c _ => rfl⟩
  obtain ⟨s2, e2, _, f2⟩ := advance_spec hb p pos t rho i1
  refine ⟨s2, ?_, f2⟩
  unfold run
  rw [List.foldlM_append, e1]
  show (List.foldlM (event b p pos) s1 [.step t rho]) = _
  rw [List.foldlM_cons]
  show (advance b p pos t rho s1 >>= fun s => _) = _
  rw [e2]
  rfl

/-- **C106**: the turbulence lies within the range of the file, has its values at the points of the file, and repeats when the box has passed. -/
theorem field_spec {b : Box} (hb : b.Ok) (n : Fin 3) :
    (∀ i j k : ℤ, (0 ≤ i ∧ i < b.nx) → (0 ≤ j ∧ j < b.ny) → (0 ≤ k ∧ k < b.nz) → field b n (i * b.dx.x) (j * b.dx.y) (k * b.dx.z) = b.file n i j k) ∧
    (∀ x y z, field b n (x + b.len.x) y z = field b n x y z) ∧
    ∀ lo hi, (∀ i j k, lo ≤ b.file n i j k ∧ b.file n i j k ≤ hi) → ∀ x y z, lo ≤ field b n x y z ∧ field b n x y z ≤ hi := by
  refine ⟨?_, ?_, ?_⟩
  · intro i j k hi hj hk
    unfold field
    rw [(lin_nodes hb.dx _ i 0).1, (lin_nodes hb.dy _ j 0).1, (lin_nodes hb.dz _ k 0).1, Int.emod_eq_of_lt hi.1 hi.2, Int.emod_eq_of_lt hj.1 hj.2,
      Int.emod_eq_of_lt hk.1 hk.2]
  · intro x y z
    unfold field
    rw [hb.lx, (lin_nodes hb.dx _ 0 x).2]
  · intro lo hi h x y z
    exact lin_bounds _ _ _ _ _ _ fun i => lin_bounds _ _ _ _ _ _ fun j => lin_bounds _ _ _ _ _ _ fun k => h i j k

/-! ## Frame and weight -/

/-- **C106**: the box stands across the wind: the first direction of its frame is the one in which the wind with that compass direction blows, up is up, and turning a velocity into the frame and back
changes nothing. -/
theorem frame_spec (p : Input) (s : ℝ) (v : Vec ℝ) :
    p.loc ⟨p.origin.x - s * Real.sin (radians p.windDir), p.origin.y - s * Real.cos (radians p.windDir), p.origin.z⟩ = ⟨s, 0, 0⟩ ∧
    p.loc ⟨p.origin.x, p.origin.y, p.origin.z + s⟩ = ⟨0, 0, s⟩ ∧ vmul (tmul p.tr v) p.tr = v ∧ mag (vmul v p.tr) = mag v := by
  have c : Real.cos (radians (270 - p.windDir)) = -Real.sin (radians p.windDir) := by
    have : radians (270 - p.windDir) = (Real.pi / 2 - radians p.windDir) + Real.pi := by unfold radians; ring
    rw [this, Real.cos_add_pi, Real.cos_pi_div_two_sub]
  have s' : Real.sin (radians (270 - p.windDir)) = -Real.cos (radians p.windDir) := by
    have : radians (270 - p.windDir) = (Real.pi / 2 - radians p.windDir) + Real.pi := by unfold radians; ring
    rw [this, Real.sin_add_pi, Real.sin_pi_div_two_sub]
  have one := Real.sin_sq_add_cos_sq (radians p.windDir)
  unfold Input.loc Input.tr tmul vmul zrot
  simp only [c, s']
  refine ⟨?_, ?_, ?_, ?_⟩
  · ext
    · simp only; linear_combination s * one
    · simp only; ring
    · simp only; ring
  · ext <;> simp
  · ext
    · simp only; linear_combination v.x * one
    · simp only; linear_combination v.y * one
    · simp only; ring
  · unfold mag magSqr
    congr 1
    simp only
    linear_combination (v.x * v.x + v.y * v.y) * one

/-- **C106**: the force in the box: the perturbation, with its first component downwind, its second to the left of it and its third upwards, times density,
the wind speed at the point plus half the perturbation, and a Gaussian of the distance from the plane. -/
theorem force_at_point (p : Input) (rho : ℝ) (x vel : Vec ℝ) :
    let a := radians p.windDir
    let f := rho * (p.vf (![x.x, x.y, x.z] p.sdir) + mag vel / 2) * eta p.epsilon (p.loc x).x
    pointForce p rho x vel = ⟨f * (vel.x * -Real.sin a + vel.y * Real.cos a), f * (vel.x * -Real.cos a + vel.y * -Real.sin a), f * vel.z⟩ := by
  have c : Real.cos (radians (270 - p.windDir)) = -Real.sin (radians p.windDir) := by
    have : radians (270 - p.windDir) = (Real.pi / 2 - radians p.windDir) + Real.pi := by unfold radians; ring
    rw [this, Real.cos_add_pi, Real.cos_pi_div_two_sub]
  have s' : Real.sin (radians (270 - p.windDir)) = -Real.cos (radians p.windDir) := by
    have : radians (270 - p.windDir) = (Real.pi / 2 - radians p.windDir) + Real.pi := by unfold radians; ring
    rw [this, Real.sin_add_pi, Real.sin_pi_div_two_sub]
  have m : mag (vmul vel p.tr) = mag vel := (frame_spec p 0 vel).2.2.2
  have e : vmul vel p.tr = ⟨vel.x * -Real.sin (radians p.windDir) + vel.y * Real.cos (radians p.windDir),
      vel.x * -Real.cos (radians p.windDir) + vel.y * -Real.sin (radians p.windDir), vel.z⟩ := by
    unfold Input.tr vmul zrot
    simp only [c, s']
    ext <;> simp only <;> ring
  have ha : x.at p.sdir = ![x.x, x.y, x.z] p.sdir := by
    unfold Vec.at; generalize p.sdir = n; fin_cases n <;> rfl
  intro a f
  unfold pointForce
  dsimp only
  rw [m, e, ha]
  ext <;> simp only [a, f] <;> ring

/-- **C106**: the weights across the plane add up to one. -/
theorem eta_integral {eps : ℝ} (h : 0 < eps) : ∫ x, eta eps x = 1 ∧ ∀ x, 0 < eta eps x := by
  have hp : 0 < Real.sqrt Real.pi := Real.sqrt_pos.mpr Real.pi_pos
  constructor
  · have e : (fun x => eta eps x) = fun x => Real.exp (-(1 / eps ^ 2) * x ^ 2) * (1 / (eps * Real.sqrt Real.pi)) := by
      funext x
      unfold eta
      congr 2
      ring
    rw [e, MeasureTheory.integral_mul_const, integral_gaussian]
    have : Real.sqrt (Real.pi / (1 / eps ^ 2)) = eps * Real.sqrt Real.pi := by
      rw [show Real.pi / (1 / eps ^ 2) = eps ^ 2 * Real.pi by field_simp, Real.sqrt_mul (by positivity), Real.sqrt_sq h.le]
    rw [this]
    field_simp
  · intro x
    unfold eta
    positivity

theorem eta_integrable {eps : ℝ} (h : 0 < eps) : MeasureTheory.Integrable (eta eps) := by
  have e : eta eps = fun x => Real.exp (-(1 / eps ^ 2) * x ^ 2) * (1 / (eps * Real.sqrt Real.pi)) := by
    funext x
    unfold eta
    congr 2
    ring
  rw [e]
  exact (integrable_exp_neg_mul_sq (by positivity)).mul_const _

/-- **C106**: what the force does: in a steady stream that arrives with the mean wind `V` and feels the force of a gust `v` along the stream, with unit density and nothing else, the squared speed behind the plane is
`V² + 2 v V + v |v|`. -/
theorem gust_behind {eps V v U : ℝ} (he : 0 < eps) (u u' : ℝ → ℝ) (hu : ∀ x, HasDerivAt u (u' x) x)
    (eq : ∀ x, u x * u' x = v * ((V + 1 / 2 * |v|) * eta eps x))
    (up : Filter.Tendsto u Filter.atBot (nhds V)) (down : Filter.Tendsto u Filter.atTop (nhds U)) :
    U ^ 2 = V ^ 2 + 2 * v * V + v * |v| := by
  have hd : ∀ x, HasDerivAt (fun x => u x ^ 2) (2 * (v * ((V + 1 / 2 * |v|) * eta eps x))) x := by
    intro x
    have := (hu x).pow 2
    refine this.congr_deriv ?_
    rw [← eq x]
    push_cast
    ring
  have hi : MeasureTheory.Integrable (fun x => 2 * (v * ((V + 1 / 2 * |v|) * eta eps x))) :=
    (((eta_integrable he).const_mul _).const_mul _).const_mul _
  have := MeasureTheory.integral_of_hasDerivAt_of_tendsto hd hi (up.pow 2) (down.pow 2)
  rw [MeasureTheory.integral_const_mul, MeasureTheory.integral_const_mul, MeasureTheory.integral_const_mul, (eta_integral he).1] at this
  linarith

/-- **C106**: so a gust forward adds exactly its velocity; disagreement: a lull of size `v` does not take off exactly that, the stream behind the plane is slower than `V - v`. The published equation has
the component along the stream where the program has the size of the vector. -/
theorem gust_exact {V v U : ℝ} (h : U ^ 2 = V ^ 2 + 2 * v * V + v * |v|) (hU : 0 ≤ U) (hV : 0 < V) :
    (0 ≤ v → U = V + v) ∧ (v < 0 → -V ≤ v → U < V + v) := by
  constructor
  · intro hv
    rw [abs_of_nonneg hv] at h
    have : U ^ 2 = (V + v) ^ 2 := by rw [h]; ring
    exact (sq_eq_sq₀ hU (by linarith)).mp this
  · intro hv hV'
    rw [abs_of_neg hv] at h
    by_contra hc
    rw [not_lt] at hc
    have : (V + v) ^ 2 ≤ U ^ 2 := by apply pow_le_pow_left₀ (by linarith) hc
    nlinarith

/-- **C106**, disagreement: the force holds the density, and the sources are multiplied by it again: the acceleration of the fluid, momentum over density, grows with the density. -/
theorem force_density (p : Input) {rho : ℝ} (h : rho ≠ 0) (x vel : Vec ℝ) :
    momentumRate rho (pointForce p rho x vel).x / rho = rho * (pointForce p 1 x vel).x := by
  unfold momentumRate pointForce
  field_simp

/-! ## Mean wind -/

/-- **C106**: the linear profile runs from the first value at `hmin` to the second at `hmax`, and stays at them outside; disagreement: when the wind decreases with height, the profile has
the first value at every height. -/
theorem linear_spec {K : Type*} [Field K] [LinearOrder K] [IsStrictOrderedRing K] {hmin hmax v0 v1 : K} (h : hmin < hmax) :
    (v0 ≤ v1 → (∀ z ≤ hmin, linearShear hmin hmax v0 v1 z = v0) ∧ (∀ z, hmax ≤ z → linearShear hmin hmax v0 v1 z = v1) ∧
      ∀ z, hmin ≤ z → z ≤ hmax → linearShear hmin hmax v0 v1 z = v0 + (v1 - v0) * ((z - hmin) / (hmax - hmin))) ∧
    (v1 < v0 → ∀ z, linearShear hmin hmax v0 v1 z = v0) := by
  have hd : 0 < hmax - hmin := sub_pos.mpr h
  unfold linearShear
  dsimp only
  constructor
  · intro hv
    have hv' : 0 ≤ v1 - v0 := sub_nonneg.mpr hv
    refine ⟨fun z hz => ?_, fun z hz => ?_, fun z h0 h1 => ?_⟩
    · have : (v1 - v0) * (z - hmin) / (hmax - hmin) ≤ 0 := div_nonpos_of_nonpos_of_nonneg (mul_nonpos_of_nonneg_of_nonpos hv' (by linarith)) hd.le
      exact max_eq_left ((min_le_left _ _).trans (by linarith))
    · have : v1 - v0 ≤ (v1 - v0) * (z - hmin) / (hmax - hmin) := by
        rw [le_div_iff₀ hd]
        exact mul_le_mul_of_nonneg_left (by linarith) hv'
      rw [min_eq_right (by linarith), max_eq_right hv]
    · have a0 : 0 ≤ (z - hmin) / (hmax - hmin) := div_nonneg (by linarith) hd.le
      have a1 : (z - hmin) / (hmax - hmin) ≤ 1 := (div_le_one hd).mpr (by linarith)
      rw [mul_div_assoc, min_eq_left, max_eq_right]
      · have := mul_nonneg hv' a0
        linarith
      · have := mul_le_mul_of_nonneg_left a1 hv'
        linarith
  · intro hv z
    exact max_eq_left ((min_le_right _ _).trans hv.le)

/-- **C106**: the power law has the reference wind at the reference height above its offset, lies between the bounds, does not decrease with height, and below the offset is at the lower bound. -/
theorem power_spec {refVel refHeight alpha hoff umin umax : ℝ} (hv : 0 < refVel) (hh : 0 < refHeight) (ha : 0 ≤ alpha) (hm : 0 ≤ umin) (h1 : umin ≤ 1) (h2 : 1 ≤ umax) :
    powerLaw refVel refHeight alpha hoff umin umax (hoff + refHeight) = refVel ∧
    (∀ z, refVel * umin ≤ powerLaw refVel refHeight alpha hoff umin umax z ∧ powerLaw refVel refHeight alpha hoff umin umax z ≤ refVel * umax) ∧
    (∀ z ≤ hoff, powerLaw refVel refHeight alpha hoff umin umax z = refVel * umin) ∧
    ∀ z z', z ≤ z' → powerLaw refVel refHeight alpha hoff umin umax z ≤ powerLaw refVel refHeight alpha hoff umin umax z' := by
  have hmm : umin ≤ umax := h1.trans h2
  unfold powerLaw
  dsimp only
  refine ⟨?_, fun z => ⟨?_, ?_⟩, fun z hz => ?_, fun z z' hzz => ?_⟩
  · rw [if_pos (by linarith), add_sub_cancel_left, div_self hh.ne']
    have : Real.rpow 1 alpha = 1 := Real.one_rpow alpha
    rw [this, max_eq_left h1, min_eq_left h2, mul_one]
  · exact mul_le_mul_of_nonneg_left (le_min (le_max_right _ _) hmm) hv.le
  · exact mul_le_mul_of_nonneg_left (min_le_right _ _) hv.le
  · rw [if_neg (by linarith), max_eq_right hm, min_eq_left hmm]
  · apply mul_le_mul_of_nonneg_left _ hv.le
    apply min_le_min_right
    apply max_le_max_right
    split_ifs with g1 g2 g2
    · exact Real.rpow_le_rpow (div_pos g1 hh).le (div_le_div_of_nonneg_right (by linarith) hh.le) ha
    · exact absurd g1 (by linarith)
    · exact Real.rpow_nonneg (div_pos g2 hh).le alpha
    · exact le_rfl

/-! ## A case -/

/-- A box of 4 by 2 by 2 points. -/
def exBox : Box := ⟨4, 2, 2, ⟨4, 4, 4⟩, ⟨1, 2, 2⟩, fun n i j k => (n : ℕ) + i + j * k⟩

theorem exOk : exBox.Ok := by
  constructor <;> norm_num [exBox]

example : (lr 4 4 1 (11 / 2) : LR ℚ).l = 1 ∧ (lr 4 4 1 (-1 / 4) : LR ℚ).r = 0 ∧ (lr 4 4 1 (-1 / 4) : LR ℚ).wr = 3 / 4 := by decide +kernel

example : field exBox 0 (1 * 1) (1 * 2) (1 * 2) = 2 := by
  have := (field_spec exOk 0).1 1 1 1 (by decide) (by decide) (by decide)
  simp only [exBox, Int.cast_one] at this ⊢
  rw [this]
  norm_num

example : ∃ v, (0 : ℝ) < v ∧ ∃ U, 0 ≤ U ∧ U ^ 2 = (1 : ℝ) ^ 2 + 2 * v * 1 + v * |v| := ⟨1, by norm_num, 2, by norm_num, by norm_num⟩

end AmrWind.Syn
