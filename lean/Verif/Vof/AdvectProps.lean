import Verif.Vof.AdvectLemmas

/-!
# C32, C33, C34: range, conservation and order of the split advection
-/

namespace AmrWind.Vof

/-! ## Moving around -/

theorem move_neg_one (d : Dir) (a : Cell) : d.move (-1) (d.move 1 a) = a := by
  obtain ⟨i, j, k⟩ := a
  cases d <;> simp [Dir.move]

theorem move_one_neg (d : Dir) (a : Cell) : d.move 1 (d.move (-1) a) = a := by
  obtain ⟨i, j, k⟩ := a
  cases d <;> simp [Dir.move]

/-! ## One sweep in terms of swept volumes -/

/-- For every field in [0,1] and every velocity the swept fractions exist (no NaN) and lie in [0,1]; only a face
with outflow carries anything. -/
theorem eulerian_some {e thr : ℝ} (he : 0 < e) (he1 : e ≤ 1) (dir : Dir) (aL aR : ℝ)
    (c : Cell → ℝ) (a : Cell) (h0 : 0 ≤ c a) (h1 : c a ≤ 1) :
    ∃ l r, eulerianImplicit ⟨e ^ 3, thr⟩ dir aL aR c a = some (l, r) ∧ 0 ≤ l ∧ l ≤ 1 ∧ 0 ≤ r ∧ r ≤ 1 ∧
      (0 ≤ aL → l = 0) ∧ (aR ≤ 0 → r = 0) := by
  unfold eulerianImplicit
  simp only
  by_cases hf : |c a - 1| ≤ thr
  · rw [if_pos hf]
    exact ⟨_, _, rfl, by split <;> norm_num, by split <;> norm_num, by split <;> norm_num, by split <;> norm_num,
      fun h => if_neg (not_lt.mpr h), fun h => if_neg (not_lt.mpr h)⟩
  rw [if_neg hf]
  by_cases hm : thr < c a
  swap
  · rw [if_neg hm]
    exact ⟨0, 0, rfl, le_rfl, zero_le_one, le_rfl, zero_le_one, fun _ => rfl, fun _ => rfl⟩
  rw [if_pos hm]
  obtain ⟨nx, ny, nz, al, hfit, hsum, -⟩ := fit_plane_partial he he1 (mixedYoungs_ne (e ^ 3) c a) h0 h1
  rw [hfit]
  simp only
  have key : ∀ m1 m2 m3 : ℝ, |m1| + |m2| + |m3| = 1 →
      ∃ l r, (if aL < 0 then cutVolume (e ^ 3) m1 m2 m3 al 0 (-aL) else some 0) = some l ∧
      (if 0 < aR then cutVolume (e ^ 3) m1 m2 m3 al (1 - aR) aR else some 0) = some r ∧
      0 ≤ l ∧ l ≤ 1 ∧ 0 ≤ r ∧ r ≤ 1 ∧ (0 ≤ aL → l = 0) ∧ (aR ≤ 0 → r = 0) := by
    intro m1 m2 m3 hs
    have hne : m1 ≠ 0 ∨ m2 ≠ 0 ∨ m3 ≠ 0 := by
      by_contra h
      push Not at h
      rw [h.1, h.2.1, h.2.2] at hs
      norm_num at hs
    have one : ∀ (r0 d : ℝ) (p : Prop) [Decidable p], (p → 0 < d) →
        ∃ l, (if p then cutVolume (e ^ 3) m1 m2 m3 al r0 d else some 0) = some l ∧ 0 ≤ l ∧ l ≤ 1 ∧ (¬p → l = 0) := by
      intro r0 d p _ hd
      by_cases h : p
      · rw [if_pos h]
        obtain ⟨v, hv, v0, v1, -⟩ := cutVolume_near (tiny := e ^ 3) (alpha := al) (r0 := r0) (by positivity)
          (le_of_lt (hd h)) (denom_ne (hd h) hne)
        exact ⟨v, hv, v0, v1, fun h' => absurd h h'⟩
      · rw [if_neg h]
        exact ⟨0, rfl, le_rfl, zero_le_one, fun _ => rfl⟩
    obtain ⟨l, hl, l0, l1, lz⟩ := one 0 (-aL) (aL < 0) (fun h => by linarith)
    obtain ⟨r, hr, r0, r1, rz⟩ := one (1 - aR) aR (0 < aR) id
    exact ⟨l, r, hl, hr, l0, l1, r0, r1, fun h => lz (not_lt.mpr h), fun h => rz (not_lt.mpr h)⟩
  cases dir
  · obtain ⟨l, r, hl, hr, rest⟩ := key nx ny nz hsum
    exact ⟨l, r, by simp only [hl, hr], rest⟩
  · obtain ⟨l, r, hl, hr, rest⟩ := key ny nz nx (by linarith)
    exact ⟨l, r, by simp only [hl, hr], rest⟩
  · obtain ⟨l, r, hl, hr, rest⟩ := key nz nx ny (by linarith)
    exact ⟨l, r, by simp only [hl, hr], rest⟩

/-- A face of a wall in direction `d`. -/
def Domain.WallFace (D : Domain) (d : Dir) (f : Cell) : Prop :=
  (D.wallLo d = true ∧ d.idx f = D.lo d) ∨ (D.wallHi d = true ∧ d.idx f = D.hi d + 1)

/-- The flux through a face, as Courant number times carried fraction. -/
theorem face_flux {e thr dt dx : ℝ} (he : 0 < e) (he1 : e ≤ 1) (D : Domain) (dir : Dir) (u c : Cell → ℝ)
    (hc : ∀ a, 0 ≤ c a ∧ c a ≤ 1) (f : Cell) (hw : D.WallFace dir f → u f = 0) :
    ∃ v r l lx rx, faceVof ⟨e ^ 3, thr⟩ D dir (dt / dx) u c f = some v ∧
      eulerianImplicit ⟨e ^ 3, thr⟩ dir (u (dir.move (-1) f) * (dt / dx)) (u f * (dt / dx)) c (dir.move (-1) f) =
        some (lx, r) ∧
      eulerianImplicit ⟨e ^ 3, thr⟩ dir (u f * (dt / dx)) (u (dir.move 1 f) * (dt / dx)) c f = some (l, rx) ∧
      0 ≤ r ∧ r ≤ 1 ∧ 0 ≤ l ∧ l ≤ 1 ∧
      v * (dt * u f) * (1 / dx) = max 0 (u f * (dt / dx)) * r - max 0 (-(u f * (dt / dx))) * l := by
  obtain ⟨lx, r, h1, -, -, r0, r1, -, rz⟩ := eulerian_some (thr := thr) he he1 dir (u (dir.move (-1) f) * (dt / dx))
    (u f * (dt / dx)) c (dir.move (-1) f) (hc _).1 (hc _).2
  obtain ⟨l, rx, h2, l0, l1, -, -, lz, -⟩ := eulerian_some (thr := thr) he he1 dir (u f * (dt / dx))
    (u (dir.move 1 f) * (dt / dx)) c f (hc _).1 (hc _).2
  have hv : ∃ w : Bool, (w = true → u f = 0) ∧ faceVof ⟨e ^ 3, thr⟩ D dir (dt / dx) u c f =
      some ((if w then 0 else r) + (if w then 0 else l)) := by
    refine ⟨(D.wallLo dir && (dir.idx f == D.lo dir)) || (D.wallHi dir && (dir.idx f == D.hi dir + 1)), ?_, ?_⟩
    · intro h
      apply hw
      unfold Domain.WallFace
      simpa using h
    · unfold faceVof
      simp only [h1, h2]
  obtain ⟨w, hw0, hv⟩ := hv
  refine ⟨_, r, l, lx, rx, hv, h1, h2, r0, r1, l0, l1, ?_⟩
  cases w with
  | true =>
    rw [hw0 rfl]
    simp
  | false =>
    simp only [Bool.false_eq_true, if_false]
    have e1 : (r + l) * (dt * u f) * (1 / dx) = (r + l) * (u f * (dt / dx)) := by ring
    rw [e1]
    generalize u f * (dt / dx) = A at *
    rcases le_total 0 A with h | h
    · rw [lz h, max_eq_right h]; ring
    · rw [rz h, max_eq_right (by linarith : 0 ≤ -A)]; ring

/-- One sweep of one cell. `A` are the Courant numbers of the two faces, `l`, `r` the fractions leaving the cell,
`rL`, `lR` the fractions entering from the two neighbours. -/
theorem raw_eq {e thr dt dx : ℝ} (he : 0 < e) (he1 : e ≤ 1) (D : Domain) (dir : Dir) (g u c : Cell → ℝ)
    (hc : ∀ a, 0 ≤ c a ∧ c a ≤ 1) (hw : ∀ f, D.WallFace dir f → u f = 0) (a : Cell) :
    ∃ v l r rL lR, sweepRaw ⟨e ^ 3, thr⟩ D dir dt dx g u c a = some v ∧
      eulerianImplicit ⟨e ^ 3, thr⟩ dir (u a * (dt / dx)) (u (dir.move 1 a) * (dt / dx)) c a = some (l, r) ∧
      0 ≤ rL ∧ rL ≤ 1 ∧ 0 ≤ lR ∧ lR ≤ 1 ∧
      v = c a + (max 0 (u a * (dt / dx)) * rL - max 0 (-(u a * (dt / dx))) * l -
        max 0 (u (dir.move 1 a) * (dt / dx)) * r + max 0 (-(u (dir.move 1 a) * (dt / dx))) * lR) +
        g a * (u (dir.move 1 a) * (dt / dx) - u a * (dt / dx)) := by
  obtain ⟨v1, rL, l, -, r, f1, -, h1, rL0, rL1, -, -, e1⟩ := face_flux (thr := thr) (dt := dt) (dx := dx) he he1 D dir u c
    hc a (hw a)
  obtain ⟨v2, r', lR, l', -, f2, h2, -, -, -, lR0, lR1, e2⟩ := face_flux (thr := thr) (dt := dt) (dx := dx) he he1 D dir u c
    hc (dir.move 1 a) (hw _)
  rw [move_neg_one, h1] at h2
  simp only [Option.some.injEq, Prod.mk.injEq] at h2
  obtain ⟨-, hr⟩ := h2
  subst hr
  refine ⟨_, l, r, rL, lR, ?_, h1, rL0, rL1, lR0, lR1, rfl⟩
  unfold sweepRaw
  simp only [f1, f2]
  congr 1
  have e3 : (v1 * (dt * u a) - v2 * (dt * u (dir.move 1 a))) * (1 / dx) =
      v1 * (dt * u a) * (1 / dx) - v2 * (dt * u (dir.move 1 a)) * (1 / dx) := by ring
  rw [e3, e1, e2]
  ring

/-! ## C32: range -/

theorem clip_mem (v : ℝ) : 0 ≤ clip v ∧ clip v ≤ 1 :=
  ⟨le_max_left _ _, max_le zero_le_one (min_le_left _ _)⟩

theorem debrisLoop_cases (small : ℝ) (l : List Cell) (c : Cell → ℝ) (a : Cell) :
    debrisLoop small l c a = c a ∨ debrisLoop small l c a = 0 := by
  unfold debrisLoop
  induction l generalizing c with
  | nil => left; rfl
  | cons b l ih =>
    rw [List.foldl_cons]
    rcases ih (removeDebris small c c b) with h | h
    · rw [h]
      unfold removeDebris
      split
      · by_cases hab : a = b
        · subst hab; right; simp
        · left; rw [Function.update_of_ne hab]
      · left; rfl
    · right; exact h

/-- A history of the advected field: every entry after the first is a sweep of the one before, in any direction, with
any velocity, time step and compression coefficient, or a debris removal with the cells in any order. -/
def History (tol : Tol) (D : Domain) (f : ℕ → Cell → ℝ) : Prop :=
  ∀ n, (∃ dir dt dx g u, IsSweep tol D dir dt dx g u (f n) (f (n + 1))) ∨
    ∃ l, ∀ a, D.Mem a → f (n + 1) a = debrisLoop (1 / 10 ^ 6) l (f n) a

/-- C32 (first half). In every history that starts in [0,1] every volume fraction stays in [0,1]. -/
theorem vof_range {tol : Tol} {D : Domain} {f : ℕ → Cell → ℝ} (h : History tol D f)
    (h0 : ∀ a, D.Mem a → 0 ≤ f 0 a ∧ f 0 a ≤ 1) (n : ℕ) : ∀ a, D.Mem a → 0 ≤ f n a ∧ f n a ≤ 1 := by
  induction n with
  | zero => exact h0
  | succ n ih =>
    intro a ha
    rcases h n with ⟨dir, dt, dx, g, u, hs⟩ | ⟨l, hl⟩
    · obtain ⟨v, -, hv⟩ := hs a ha
      rw [hv]
      exact clip_mem v
    · rw [hl a ha]
      rcases debrisLoop_cases (1 / 10 ^ 6) l (f n) a with h | h
      · rw [h]; exact ih a ha
      · rw [h]; exact ⟨le_rfl, zero_le_one⟩

/-- C32. Every sweep of a field in [0,1] has a result (no NaN), whatever the velocity. -/
theorem sweep_exists {e thr dt dx : ℝ} (he : 0 < e) (he1 : e ≤ 1) (D : Domain) (dir : Dir) (g u c : Cell → ℝ)
    (hc : ∀ a, 0 ≤ c a ∧ c a ≤ 1) : ∃ c', IsSweep ⟨e ^ 3, thr⟩ D dir dt dx g u c c' := by
  have hf : ∀ f, ∃ v, faceVof ⟨e ^ 3, thr⟩ D dir (dt / dx) u c f = some v := by
    intro f
    obtain ⟨lx, r, h1, -⟩ := eulerian_some (thr := thr) he he1 dir (u (dir.move (-1) f) * (dt / dx))
      (u f * (dt / dx)) c (dir.move (-1) f) (hc _).1 (hc _).2
    obtain ⟨l, rx, h2, -⟩ := eulerian_some (thr := thr) he he1 dir (u f * (dt / dx))
      (u (dir.move 1 f) * (dt / dx)) c f (hc _).1 (hc _).2
    unfold faceVof
    simp only [h1, h2]
    exact ⟨_, rfl⟩
  have hr : ∀ a, ∃ v, sweepRaw ⟨e ^ 3, thr⟩ D dir dt dx g u c a = some v := by
    intro a
    obtain ⟨v1, h1⟩ := hf a
    obtain ⟨v2, h2⟩ := hf (dir.move 1 a)
    unfold sweepRaw
    simp only [h1, h2]
    exact ⟨_, rfl⟩
  choose v hv using hr
  exact ⟨fun a => clip (v a), fun a _ => ⟨v a, hv a, rfl⟩⟩

/-- One sweep under the Courant conditions, light cell (`g = 0`): the value before clipping is at least `-B` and at most
the old value plus what flows in. -/
theorem raw_light {e thr dt dx : ℝ} (he : 0 < e) (he1 : e ≤ 1) (ht : 0 ≤ thr) (D : Domain) (dir : Dir)
    (g u c : Cell → ℝ) (hc : ∀ a, 0 ≤ c a ∧ c a ≤ 1) (hw : ∀ f, D.WallFace dir f → u f = 0) (a : Cell) (hg : g a = 0)
    (hcfl : max 0 (-(u a * (dt / dx))) + max 0 (u (dir.move 1 a) * (dt / dx)) ≤ 1) {v : ℝ}
    (hv : sweepRaw ⟨e ^ 3, thr⟩ D dir dt dx g u c a = some v) :
    -(5 * e + thr) ≤ v ∧
      v ≤ c a + (max 0 (u a * (dt / dx)) + max 0 (-(u (dir.move 1 a) * (dt / dx)))) := by
  obtain ⟨v', l, r, rL, lR, hv', hE, rL0, rL1, lR0, lR1, eq⟩ := raw_eq (thr := thr) (dt := dt) (dx := dx) he he1 D dir g u c
    hc hw a
  rw [hv] at hv'
  injection hv' with hv'
  subst hv'
  obtain ⟨l', r', hE', l0, l1, r0, r1, -, -, b1, b2⟩ := eulerian_bounds he he1 ht dir hcfl c a (hc a).1 (hc a).2
  rw [hE] at hE'
  simp only [Option.some.injEq, Prod.mk.injEq] at hE'
  obtain ⟨rfl, rfl⟩ := hE'
  rw [hg, zero_mul, add_zero] at eq
  generalize u a * (dt / dx) = A at *
  generalize u (dir.move 1 a) * (dt / dx) = B at *
  have k1 : 0 ≤ max 0 A := le_max_left _ _
  have k2 : 0 ≤ max 0 (-A) := le_max_left _ _
  have k3 : 0 ≤ max 0 B := le_max_left _ _
  have k4 : 0 ≤ max 0 (-B) := le_max_left _ _
  have p1 := mul_nonneg k1 rL0
  have p2 := mul_nonneg k4 lR0
  have p3 := mul_nonneg k2 l0
  have p4 := mul_nonneg k3 r0
  have p5 := mul_le_mul_of_nonneg_left rL1 k1
  have p6 := mul_le_mul_of_nonneg_left lR1 k4
  rw [mul_one] at p5 p6
  constructor <;> linarith

/-- The same for a heavy cell (`g = 1`) and the other phase. -/
theorem raw_heavy {e thr dt dx : ℝ} (he : 0 < e) (he1 : e ≤ 1) (ht : 0 ≤ thr) (D : Domain) (dir : Dir)
    (g u c : Cell → ℝ) (hc : ∀ a, 0 ≤ c a ∧ c a ≤ 1) (hw : ∀ f, D.WallFace dir f → u f = 0) (a : Cell) (hg : g a = 1)
    (hcfl : max 0 (-(u a * (dt / dx))) + max 0 (u (dir.move 1 a) * (dt / dx)) ≤ 1) {v : ℝ}
    (hv : sweepRaw ⟨e ^ 3, thr⟩ D dir dt dx g u c a = some v) :
    -(5 * e + thr) ≤ 1 - v ∧
      1 - v ≤ 1 - c a + (max 0 (u a * (dt / dx)) + max 0 (-(u (dir.move 1 a) * (dt / dx)))) := by
  obtain ⟨v', l, r, rL, lR, hv', hE, rL0, rL1, lR0, lR1, eq⟩ := raw_eq (thr := thr) (dt := dt) (dx := dx) he he1 D dir g u c
    hc hw a
  rw [hv] at hv'
  injection hv' with hv'
  subst hv'
  obtain ⟨l', r', hE', l0, l1, r0, r1, -, -, b1, b2⟩ := eulerian_bounds he he1 ht dir hcfl c a (hc a).1 (hc a).2
  rw [hE] at hE'
  simp only [Option.some.injEq, Prod.mk.injEq] at hE'
  obtain ⟨rfl, rfl⟩ := hE'
  rw [hg, one_mul] at eq
  generalize u a * (dt / dx) = A at *
  generalize u (dir.move 1 a) * (dt / dx) = B at *
  have k1 : 0 ≤ max 0 A := le_max_left _ _
  have k2 : 0 ≤ max 0 (-A) := le_max_left _ _
  have k3 : 0 ≤ max 0 B := le_max_left _ _
  have k4 : 0 ≤ max 0 (-B) := le_max_left _ _
  have dA : A = max 0 A - max 0 (-A) := by
    rcases le_total 0 A with h | h
    · rw [max_eq_right h, max_eq_left (by linarith)]; ring
    · rw [max_eq_left h, max_eq_right (by linarith)]; ring
  have dB : B = max 0 B - max 0 (-B) := by
    rcases le_total 0 B with h | h
    · rw [max_eq_right h, max_eq_left (by linarith)]; ring
    · rw [max_eq_left h, max_eq_right (by linarith)]; ring
  have p1 := mul_nonneg k1 (sub_nonneg.mpr rL1)
  have p2 := mul_nonneg k4 (sub_nonneg.mpr lR1)
  have p3 := mul_nonneg k2 (sub_nonneg.mpr l1)
  have p4 := mul_nonneg k3 (sub_nonneg.mpr r1)
  have p5 := mul_nonneg k1 rL0
  have p6 := mul_nonneg k4 lR0
  constructor <;> nlinarith

/-! ## A full step -/

/-- Time step, cell sizes and face velocities of one level. -/
structure Flow where
  dt : ℝ
  dx : Dir → ℝ
  u : Dir → Cell → ℝ

/-- The Courant number of a face, signed. -/
noncomputable def Flow.cour (F : Flow) (d : Dir) (f : Cell) : ℝ := F.u d f * (F.dt / F.dx d)

/-- The part of a cell flushed out through its two faces in direction `d`. -/
noncomputable def Flow.outflow (F : Flow) (d : Dir) (a : Cell) : ℝ :=
  max 0 (-F.cour d a) + max 0 (F.cour d (d.move 1 a))

/-- The part of a cell flowing in through its two faces in direction `d`. -/
noncomputable def Flow.inflow (F : Flow) (d : Dir) (a : Cell) : ℝ :=
  max 0 (F.cour d a) + max 0 (-F.cour d (d.move 1 a))

/-- vof_advection.H:106-122: the fields `c 0, …, c 3` of the three sweeps of one step (without debris removal). The
compression coefficient is set from the field before the first sweep. -/
def IsStep (tol : Tol) (D : Domain) (F : Flow) (isweep : ℕ) (c : ℕ → Cell → ℝ) : Prop :=
  ∀ k < 3, IsSweep tol D (sweepDir isweep k) F.dt (F.dx (sweepDir isweep k)) (cmask (c 0)) (F.u (sweepDir isweep k))
    (c k) (c (k + 1))

/-- The value of cell `a` after stage `k`, before clipping. -/
noncomputable def rawAt (tol : Tol) (D : Domain) (F : Flow) (isweep : ℕ) (c : ℕ → Cell → ℝ) (k : ℕ) (a : Cell) :
    Option ℝ :=
  sweepRaw tol D (sweepDir isweep k) F.dt (F.dx (sweepDir isweep k)) (cmask (c 0)) (F.u (sweepDir isweep k)) (c k) a

theorem sweepDir_perm (isweep : ℕ) (φ : Dir → ℝ) :
    φ (sweepDir isweep 0) + φ (sweepDir isweep 1) + φ (sweepDir isweep 2) = φ .x + φ .y + φ .z := by
  unfold sweepDir
  have h : isweep % 3 = 0 ∨ isweep % 3 = 1 ∨ isweep % 3 = 2 := by omega
  rcases h with h | h | h
  · have h1 : (isweep + 1) % 3 = 1 := by omega
    have h2 : (isweep + 2) % 3 = 2 := by omega
    simp only [add_zero, h, h1, h2]
    norm_num
    ring
  · have h1 : (isweep + 1) % 3 = 2 := by omega
    have h2 : (isweep + 2) % 3 = 0 := by omega
    simp only [add_zero, h, h1, h2]
    norm_num
    ring
  · have h1 : (isweep + 1) % 3 = 0 := by omega
    have h2 : (isweep + 2) % 3 = 1 := by omega
    simp only [add_zero, h, h1, h2]
    norm_num
    ring

/-- C32 (second half). With a time step that flushes at most a whole cell per direction and lets in at most half a cell
in all, nothing is clipped in any of the three sweeps, up to the accuracy `5 e + thr` of the reconstruction (`e` the
cube root of the machine epsilon): the clipped value differs from the transported one by no more. -/
theorem step_no_clip {e thr : ℝ} (he : 0 < e) (he1 : e ≤ 1) (ht : 0 ≤ thr) {D : Domain} {F : Flow} {isweep : ℕ}
    {c : ℕ → Cell → ℝ} (hs : IsStep ⟨e ^ 3, thr⟩ D F isweep c) (hc : ∀ k < 3, ∀ a, 0 ≤ c k a ∧ c k a ≤ 1)
    (hw : ∀ d f, D.WallFace d f → F.u d f = 0)
    (hout : ∀ d a, D.Mem a → F.outflow d a ≤ 1)
    (hin : ∀ a, D.Mem a → F.inflow .x a + F.inflow .y a + F.inflow .z a ≤ 1 / 2)
    (k : ℕ) (hk : k < 3) (a : Cell) (ha : D.Mem a) :
    ∃ v, rawAt ⟨e ^ 3, thr⟩ D F isweep c k a = some v ∧ |c (k + 1) a - v| ≤ 5 * e + thr := by
  have inn : ∀ d, 0 ≤ F.inflow d a := fun d => add_nonneg (le_max_left _ _) (le_max_left _ _)
  have hsum := hin a ha
  rw [← sweepDir_perm isweep (fun d => F.inflow d a)] at hsum
  have i0 := inn (sweepDir isweep 0)
  have i1 := inn (sweepDir isweep 1)
  have i2 := inn (sweepDir isweep 2)
  have B0 : 0 ≤ 5 * e + thr := by positivity
  choose v hv hcv using fun k hk => hs k hk a ha
  by_cases hh : 1 / 2 < c 0 a
  · have hg : cmask (c 0) a = 1 := if_pos hh
    have st : ∀ k (hk : k < 3), -(5 * e + thr) ≤ 1 - v k hk ∧
        1 - v k hk ≤ 1 - c k a + F.inflow (sweepDir isweep k) a := fun k hk =>
      raw_heavy he he1 ht D _ _ _ _ (hc k hk) (hw _) a hg (hout _ a ha) (hv k hk)
    have up : ∀ k (hk : k < 3), 1 - c (k + 1) a ≤ max 0 (1 - v k hk) := by
      intro k hk
      rw [hcv k hk]
      unfold clip
      rcases le_total (v k hk) 1 with h | h
      · have := le_max_right 0 (min 1 (v k hk))
        rw [min_eq_right h] at this ⊢
        exact le_trans (by linarith) (le_max_right _ _)
      · rw [min_eq_left h]
        simp
    have low : ∀ k (hk : k < 3), 1 - v k hk ≤ 1 → |c (k + 1) a - v k hk| ≤ 5 * e + thr := by
      intro k hk h
      rw [hcv k hk]
      unfold clip
      have h2 := (st k hk).1
      rcases le_total (v k hk) 1 with h1 | h1
      · rw [min_eq_right h1, max_eq_right (by linarith), sub_self, abs_zero]; exact B0
      · rw [min_eq_left h1, max_eq_right zero_le_one, abs_of_nonpos (by linarith)]; linarith
    have b0 := (st 0 (by norm_num)).2
    have b1 := (st 1 (by norm_num)).2
    have b2 := (st 2 (by norm_num)).2
    have n0 : 1 - c 1 a ≤ 1 - c 0 a + F.inflow (sweepDir isweep 0) a :=
      (up 0 (by norm_num)).trans (max_le (by linarith [(hc 0 (by norm_num) a).2]) b0)
    have n1 : 1 - c 2 a ≤ 1 - c 1 a + F.inflow (sweepDir isweep 1) a :=
      (up 1 (by norm_num)).trans (max_le (by linarith [(hc 1 (by norm_num) a).2]) b1)
    refine ⟨v k hk, hv k hk, low k hk ?_⟩
    interval_cases k <;> linarith
  · have hg : cmask (c 0) a = 0 := if_neg hh
    rw [not_lt] at hh
    have st : ∀ k (hk : k < 3), -(5 * e + thr) ≤ v k hk ∧
        v k hk ≤ c k a + F.inflow (sweepDir isweep k) a := fun k hk =>
      raw_light he he1 ht D _ _ _ _ (hc k hk) (hw _) a hg (hout _ a ha) (hv k hk)
    have up : ∀ k (hk : k < 3), c (k + 1) a ≤ max 0 (v k hk) := by
      intro k hk
      rw [hcv k hk]
      exact max_le_max le_rfl (min_le_right _ _)
    have low : ∀ k (hk : k < 3), v k hk ≤ 1 → |c (k + 1) a - v k hk| ≤ 5 * e + thr := by
      intro k hk h
      rw [hcv k hk]
      unfold clip
      rw [min_eq_right h]
      have h2 := (st k hk).1
      rcases le_total 0 (v k hk) with h1 | h1
      · rw [max_eq_right h1, sub_self, abs_zero]; exact B0
      · rw [max_eq_left h1, abs_of_nonneg (by linarith)]; linarith
    have b0 := (st 0 (by norm_num)).2
    have b1 := (st 1 (by norm_num)).2
    have b2 := (st 2 (by norm_num)).2
    have n0 : c 1 a ≤ c 0 a + F.inflow (sweepDir isweep 0) a :=
      (up 0 (by norm_num)).trans (max_le (by linarith [(hc 0 (by norm_num) a).1]) b0)
    have n1 : c 2 a ≤ c 1 a + F.inflow (sweepDir isweep 1) a :=
      (up 1 (by norm_num)).trans (max_le (by linarith [(hc 1 (by norm_num) a).1]) b1)
    refine ⟨v k hk, hv k hk, low k hk ?_⟩
    interval_cases k <;> linarith

/-! ## C33: conservation -/

/-- Sums over the domain telescope in every direction. -/
theorem total_telescope (D : Domain) (d : Dir) (φ : Cell → ℝ)
    (hb : ∀ a, d.idx a = D.lo d → φ a = φ (d.move (D.n d) a)) :
    D.total (fun a => φ a - φ (d.move 1 a)) = 0 := by
  unfold Domain.total
  cases d
  · rw [Finset.sum_comm]
    apply Finset.sum_eq_zero
    intro j _
    rw [Finset.sum_comm]
    apply Finset.sum_eq_zero
    intro k _
    have := Finset.sum_range_sub' (fun i : ℕ => φ (D.lo .x + i, D.lo .y + j, D.lo .z + k)) (D.n .x)
    simp only [Dir.move]
    push_cast at this
    simp only [add_assoc] at this ⊢
    rw [this, add_zero]
    have h := hb (D.lo .x, D.lo .y + j, D.lo .z + k) rfl
    simp only [Dir.move] at h
    rw [h, sub_self]
  · apply Finset.sum_eq_zero
    intro i _
    rw [Finset.sum_comm]
    apply Finset.sum_eq_zero
    intro k _
    have := Finset.sum_range_sub' (fun j : ℕ => φ (D.lo .x + i, D.lo .y + j, D.lo .z + k)) (D.n .y)
    simp only [Dir.move]
    push_cast at this
    simp only [add_assoc] at this ⊢
    rw [this, add_zero]
    have h := hb (D.lo .x + i, D.lo .y, D.lo .z + k) rfl
    simp only [Dir.move] at h
    rw [h, sub_self]
  · apply Finset.sum_eq_zero
    intro i _
    apply Finset.sum_eq_zero
    intro j _
    have := Finset.sum_range_sub' (fun k : ℕ => φ (D.lo .x + i, D.lo .y + j, D.lo .z + k)) (D.n .z)
    simp only [Dir.move]
    push_cast at this
    simp only [add_assoc] at this ⊢
    rw [this, add_zero]
    have h := hb (D.lo .x + i, D.lo .y + j, D.lo .z) rfl
    simp only [Dir.move] at h
    rw [h, sub_self]

theorem total_congr (D : Domain) {φ ψ : Cell → ℝ} (h : ∀ a, D.Mem a → φ a = ψ a) : D.total φ = D.total ψ := by
  unfold Domain.total
  refine Finset.sum_congr rfl fun i hi => Finset.sum_congr rfl fun j hj => Finset.sum_congr rfl fun k hk => h _ ?_
  rw [Finset.mem_range] at hi hj hk
  intro d
  cases d <;> simp only [Dir.idx, Domain.hi] <;> omega

theorem total_add (D : Domain) (φ ψ : Cell → ℝ) : D.total (fun a => φ a + ψ a) = D.total φ + D.total ψ := by
  simp only [Domain.total, Finset.sum_add_distrib]

theorem total_sub (D : Domain) (φ ψ : Cell → ℝ) : D.total (fun a => φ a - ψ a) = D.total φ - D.total ψ := by
  simp only [Domain.total, Finset.sum_sub_distrib]

theorem total_le (D : Domain) {φ ψ : Cell → ℝ} (h : ∀ a, D.Mem a → φ a ≤ ψ a) : D.total φ ≤ D.total ψ := by
  unfold Domain.total
  refine Finset.sum_le_sum fun i hi => Finset.sum_le_sum fun j hj => Finset.sum_le_sum fun k hk => h _ ?_
  rw [Finset.mem_range] at hi hj hk
  intro d
  cases d <;> simp only [Dir.idx, Domain.hi] <;> omega

theorem total_const (D : Domain) (b : ℝ) : D.total (fun _ => b) = (D.n .x * D.n .y * D.n .z : ℕ) * b := by
  simp only [Domain.total, Finset.sum_const, Finset.card_range, nsmul_eq_mul]
  push_cast
  ring

/-- A field that repeats with the size of the domain in direction `d`. -/
def Domain.Repeats (D : Domain) (d : Dir) (φ : Cell → ℝ) : Prop := ∀ a, φ (d.move (D.n d) a) = φ a

theorem youngs_repeats {d : Dir} {n : ℤ} {c : Cell → ℝ} (h : ∀ a, c (d.move n a) = c a) (a : Cell) :
    youngs c (d.move n a) = youngs c a := by
  obtain ⟨i, j, k⟩ := a
  have h' : ∀ i j k : ℤ, c (d.move n (i, j, k)) = c (i, j, k) := fun i j k => h _
  cases d <;> simp only [Dir.move] at h' ⊢ <;>
    simp only [youngs, add_sub_right_comm _ n 1, add_right_comm _ n 1, h']

theorem centralX_repeats {d : Dir} {n : ℤ} {c : Cell → ℝ} (h : ∀ a, c (d.move n a) = c a) (a : Cell) :
    centralX c (d.move n a) = centralX c a := by
  obtain ⟨i, j, k⟩ := a
  have h' : ∀ i j k : ℤ, c (d.move n (i, j, k)) = c (i, j, k) := fun i j k => h _
  cases d <;> simp only [Dir.move] at h' ⊢ <;>
    simp only [centralX, add_sub_right_comm _ n 1, add_right_comm _ n 1, h']

theorem centralY_repeats {d : Dir} {n : ℤ} {c : Cell → ℝ} (h : ∀ a, c (d.move n a) = c a) (a : Cell) :
    centralY c (d.move n a) = centralY c a := by
  obtain ⟨i, j, k⟩ := a
  have h' : ∀ i j k : ℤ, c (d.move n (i, j, k)) = c (i, j, k) := fun i j k => h _
  cases d <;> simp only [Dir.move] at h' ⊢ <;>
    simp only [centralY, add_sub_right_comm _ n 1, add_right_comm _ n 1, h']

theorem centralZ_repeats {d : Dir} {n : ℤ} {c : Cell → ℝ} (h : ∀ a, c (d.move n a) = c a) (a : Cell) :
    centralZ c (d.move n a) = centralZ c a := by
  obtain ⟨i, j, k⟩ := a
  have h' : ∀ i j k : ℤ, c (d.move n (i, j, k)) = c (i, j, k) := fun i j k => h _
  cases d <;> simp only [Dir.move] at h' ⊢ <;>
    simp only [centralZ, add_sub_right_comm _ n 1, add_right_comm _ n 1, h']

theorem eulerian_repeats {tol : Tol} {d dir : Dir} {n : ℤ} {c : Cell → ℝ} (h : ∀ a, c (d.move n a) = c a) (a : Cell)
    (aL aR : ℝ) : eulerianImplicit tol dir aL aR c (d.move n a) = eulerianImplicit tol dir aL aR c a := by
  have hm : mixedYoungs tol.eps c (d.move n a) = mixedYoungs tol.eps c a := by
    unfold mixedYoungs
    rw [youngs_repeats h, centralX_repeats h, centralY_repeats h, centralZ_repeats h]
  unfold eulerianImplicit
  rw [h, hm]

theorem move_comm (d : Dir) (m n : ℤ) (a : Cell) : d.move m (d.move n a) = d.move n (d.move m a) := by
  obtain ⟨i, j, k⟩ := a
  cases d <;> simp only [Dir.move, add_right_comm]

/-- A direction in which nothing leaves: walls on both sides, or no walls and everything repeats. -/
def Domain.Closed (D : Domain) (d : Dir) (u : Cell → ℝ) (c : Cell → ℝ) : Prop :=
  (D.wallLo d = true ∧ D.wallHi d = true) ∨
  (D.wallLo d = false ∧ D.wallHi d = false ∧ D.Repeats d u ∧ D.Repeats d c)

theorem face_closed {tol : Tol} {D : Domain} {d : Dir} {q : ℝ} {u c : Cell → ℝ} (hcl : D.Closed d u c) {a : Cell}
    (ha : d.idx a = D.lo d) :
    ((faceVof tol D d q u c a).getD 0) * u a =
      ((faceVof tol D d q u c (d.move (D.n d) a)).getD 0) * u (d.move (D.n d) a) := by
  have hidx : d.idx (d.move (D.n d) a) = D.hi d + 1 := by
    obtain ⟨i, j, k⟩ := a
    cases d <;> simp only [Dir.idx, Dir.move, Domain.hi] at ha ⊢ <;> omega
  rcases hcl with ⟨wl, wh⟩ | ⟨wl, wh, hu, hcp⟩
  · have z : ∀ f, (d.idx f = D.lo d ∨ d.idx f = D.hi d + 1) → (faceVof tol D d q u c f).getD 0 = 0 := by
      intro f hf
      unfold faceVof
      have : ((D.wallLo d && (d.idx f == D.lo d)) || (D.wallHi d && (d.idx f == D.hi d + 1))) = true := by
        rcases hf with h | h <;> simp [wl, wh, h]
      simp only [this, if_true]
      split <;> simp
    rw [z _ (Or.inl ha), z _ (Or.inr hidx), zero_mul, zero_mul]
  · have hf : faceVof tol D d q u c (d.move (D.n d) a) = faceVof tol D d q u c a := by
      unfold faceVof
      simp only [wl, wh, Bool.false_and, Bool.or_false]
      rw [move_comm d (-1), move_comm d 1, eulerian_repeats hcp, eulerian_repeats hcp, hu, hu, hu]
    rw [hf, hu]

/-- Before clipping a sweep changes the total only by the compression term. -/
theorem sweep_total {tol : Tol} {D : Domain} {d : Dir} {dt dx : ℝ} {g u c r : Cell → ℝ} (hcl : D.Closed d u c)
    (hr : ∀ a, D.Mem a → sweepRaw tol D d dt dx g u c a = some (r a)) :
    D.total r = D.total c + D.total (fun a => g a * ((u (d.move 1 a) - u a) * (dt / dx))) := by
  let φ : Cell → ℝ := fun f => ((faceVof tol D d (dt / dx) u c f).getD 0) * u f * (dt / dx)
  have hφ : D.total (fun a => φ a - φ (d.move 1 a)) = 0 := by
    apply total_telescope
    intro a ha
    show _ * _ * _ = _ * _ * _
    rw [face_closed hcl ha]
  have h : D.total r =
      D.total (fun a => (c a + (φ a - φ (d.move 1 a))) + g a * ((u (d.move 1 a) - u a) * (dt / dx))) := by
    apply total_congr
    intro a ha
    have h1 := hr a ha
    unfold sweepRaw at h1
    show r a = _ + ((faceVof tol D d (dt / dx) u c a).getD 0 * u a * (dt / dx) -
      (faceVof tol D d (dt / dx) u c (d.move 1 a)).getD 0 * u (d.move 1 a) * (dt / dx)) + _
    simp only at h1
    generalize faceVof tol D d (dt / dx) u c a = o1 at *
    generalize faceVof tol D d (dt / dx) u c (d.move 1 a) = o2 at *
    cases o1 with
    | none => simp at h1
    | some v1 =>
      cases o2 with
      | none => simp at h1
      | some v2 =>
        simp only [Option.some.injEq] at h1
        rw [← h1]
        simp only [Option.getD_some]
        ring
  rw [h, total_add, total_add, hφ, add_zero]

/-- The discrete divergence of a cell. -/
noncomputable def Flow.div (F : Flow) (a : Cell) : ℝ :=
  (F.u .x (Dir.x.move 1 a) - F.u .x a) / F.dx .x + (F.u .y (Dir.y.move 1 a) - F.u .y a) / F.dx .y +
    (F.u .z (Dir.z.move 1 a) - F.u .z a) / F.dx .z

theorem step_total {tol : Tol} {D : Domain} {F : Flow} {isweep : ℕ} {c : ℕ → Cell → ℝ}
    (hcl : ∀ k < 3, D.Closed (sweepDir isweep k) (F.u (sweepDir isweep k)) (c k))
    (hdiv : ∀ a, D.Mem a → F.div a = 0) {r : ℕ → Cell → ℝ}
    (hr : ∀ k < 3, ∀ a, D.Mem a → rawAt tol D F isweep c k a = some (r k a)) :
    D.total (r 0) - D.total (c 0) + (D.total (r 1) - D.total (c 1)) + (D.total (r 2) - D.total (c 2)) = 0 := by
  have t : ∀ k < 3, D.total (r k) - D.total (c k) = D.total (fun a => cmask (c 0) a *
      ((F.u (sweepDir isweep k) ((sweepDir isweep k).move 1 a) - F.u (sweepDir isweep k) a) *
        (F.dt / F.dx (sweepDir isweep k)))) := by
    intro k hk
    rw [sweep_total (hcl k hk) (hr k hk)]
    ring
  rw [t 0 (by norm_num), t 1 (by norm_num), t 2 (by norm_num),
    sweepDir_perm isweep (fun d => D.total (fun a => cmask (c 0) a *
      ((F.u d (d.move 1 a) - F.u d a) * (F.dt / F.dx d)))), ← total_add, ← total_add]
  rw [total_congr D (ψ := fun _ => 0), total_const, mul_zero]
  intro a ha
  have : ∀ x y z : ℝ, cmask (c 0) a * (x * (F.dt / F.dx .x)) + cmask (c 0) a * (y * (F.dt / F.dx .y)) +
      cmask (c 0) a * (z * (F.dt / F.dx .z)) =
      cmask (c 0) a * F.dt * (x / F.dx .x + y / F.dx .y + z / F.dx .z) := by intro x y z; ring
  rw [this]
  have h := hdiv a ha
  unfold Flow.div at h
  rw [h, mul_zero]

/-- C33. On a domain that is closed or periodic in each direction, with a discretely divergence-free velocity, a full
step leaves the total volume fraction unchanged if no value is clipped, for every sweep order. -/
theorem volume_conserved {tol : Tol} {D : Domain} {F : Flow} {isweep : ℕ} {c : ℕ → Cell → ℝ}
    (hs : IsStep tol D F isweep c)
    (hcl : ∀ k < 3, D.Closed (sweepDir isweep k) (F.u (sweepDir isweep k)) (c k))
    (hdiv : ∀ a, D.Mem a → F.div a = 0)
    (hnc : ∀ k < 3, ∀ a, D.Mem a → ∀ v, rawAt tol D F isweep c k a = some v → 0 ≤ v ∧ v ≤ 1) :
    D.total (c 3) = D.total (c 0) := by
  have hr : ∀ k < 3, ∀ a, D.Mem a → rawAt tol D F isweep c k a = some (c (k + 1) a) := by
    intro k hk a ha
    obtain ⟨v, hv, hcv⟩ := hs k hk a ha
    obtain ⟨h0, h1⟩ := hnc k hk a ha v hv
    rw [hcv]
    unfold clip
    rw [min_eq_right h1, max_eq_right h0]
    exact hv
  have h := step_total (r := fun k => c (k + 1)) hcl hdiv hr
  simp only [zero_add, Nat.reduceAdd] at h
  linarith

/-- C33, quantitatively. Under the Courant conditions the total changes by at most `3 (5 e + thr)` per cell. -/
theorem volume_drift {e thr : ℝ} (he : 0 < e) (he1 : e ≤ 1) (ht : 0 ≤ thr) {D : Domain} {F : Flow} {isweep : ℕ}
    {c : ℕ → Cell → ℝ} (hs : IsStep ⟨e ^ 3, thr⟩ D F isweep c) (hc : ∀ k < 3, ∀ a, 0 ≤ c k a ∧ c k a ≤ 1)
    (hcl : ∀ k < 3, D.Closed (sweepDir isweep k) (F.u (sweepDir isweep k)) (c k))
    (hdiv : ∀ a, D.Mem a → F.div a = 0)
    (hw : ∀ d f, D.WallFace d f → F.u d f = 0)
    (hout : ∀ d a, D.Mem a → F.outflow d a ≤ 1)
    (hin : ∀ a, D.Mem a → F.inflow .x a + F.inflow .y a + F.inflow .z a ≤ 1 / 2) :
    |D.total (c 3) - D.total (c 0)| ≤ (D.n .x * D.n .y * D.n .z : ℕ) * (3 * (5 * e + thr)) := by
  have nc := step_no_clip he he1 ht hs hc hw hout hin
  classical
  let r : ℕ → Cell → ℝ := fun k a => (rawAt ⟨e ^ 3, thr⟩ D F isweep c k a).getD 0
  have hr : ∀ k < 3, ∀ a, D.Mem a → rawAt ⟨e ^ 3, thr⟩ D F isweep c k a = some (r k a) ∧
      |c (k + 1) a - r k a| ≤ 5 * e + thr := by
    intro k hk a ha
    obtain ⟨v, hv, hb⟩ := nc k hk a ha
    have : r k a = v := by show (rawAt ⟨e ^ 3, thr⟩ D F isweep c k a).getD 0 = v; rw [hv]; rfl
    rw [this]
    exact ⟨hv, hb⟩
  have h := step_total (r := r) hcl hdiv (fun k hk a ha => (hr k hk a ha).1)
  have b : ∀ k < 3, |D.total (c (k + 1)) - D.total (r k)| ≤ (D.n .x * D.n .y * D.n .z : ℕ) * (5 * e + thr) := by
    intro k hk
    rw [← total_sub, abs_le]
    constructor
    · rw [← mul_neg, ← total_const]
      exact total_le D fun a ha => (abs_le.mp (hr k hk a ha).2).1
    · rw [← total_const]
      exact total_le D fun a ha => (abs_le.mp (hr k hk a ha).2).2
  have b0 := abs_le.mp (b 0 (by norm_num))
  have b1 := abs_le.mp (b 1 (by norm_num))
  have b2 := abs_le.mp (b 2 (by norm_num))
  simp only [zero_add, Nat.reduceAdd] at b0 b1 b2
  rw [abs_le]
  constructor <;> linarith [b0.1, b0.2, b1.1, b1.2, b2.1, b2.2]

/-- C33. Removing debris never adds volume. -/
theorem debris_total {D : Domain} {small : ℝ} {l : List Cell} {c : Cell → ℝ} (hc : ∀ a, D.Mem a → 0 ≤ c a) :
    D.total (debrisLoop small l c) ≤ D.total c := by
  apply total_le
  intro a ha
  rcases debrisLoop_cases small l c a with h | h
  · rw [h]
  · rw [h]; exact hc a ha

/-- C33: the three sets of slopes for a volume fraction that grows linearly with the index: each column of three cells
grows by three times the slope per cell, and the set of a direction has the sign of the decrease in that direction. -/
theorem central_linear (a b g c0 : ℝ) (at' : Cell) :
    let c : Cell → ℝ := fun x => c0 + a * x.1 + b * x.2.1 + g * x.2.2
    centralX c at' = (if 0 < -a then 1 else -1, -3 * b, -3 * g) ∧
    centralY c at' = (-3 * a, if 0 < -b then 1 else -1, -3 * g) ∧
    centralZ c at' = (-3 * a, -3 * b, if 0 < -g then 1 else -1) := by
  obtain ⟨i, j, k⟩ := at'
  dsimp only
  refine ⟨?_, ?_, ?_⟩
  · simp only [centralX]
    push_cast
    refine Prod.ext ?_ (Prod.ext ?_ ?_)
    · dsimp only; congr 1; rw [← sub_pos, eq_iff_iff]; ring_nf; constructor <;> intro h <;> linarith
    · dsimp only; ring
    · dsimp only; ring
  · simp only [centralY]
    push_cast
    refine Prod.ext ?_ (Prod.ext ?_ ?_)
    · dsimp only; ring
    · dsimp only; congr 1; rw [← sub_pos, eq_iff_iff]; ring_nf; constructor <;> intro h <;> linarith
    · dsimp only; ring
  · simp only [centralZ]
    push_cast
    refine Prod.ext ?_ (Prod.ext ?_ ?_)
    · dsimp only; ring
    · dsimp only; ring
    · dsimp only; congr 1; rw [← sub_pos, eq_iff_iff]; ring_nf; constructor <;> intro h <;> linarith

end AmrWind.Vof
