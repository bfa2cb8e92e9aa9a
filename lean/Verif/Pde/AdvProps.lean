import Mathlib.Tactic.Linarith
import Mathlib.Algebra.Order.Field.Basic
import Verif.Amr.VelMax
import Verif.Pde.AdvConserve

/-! # Fluxes, schemes and the projection of the face velocities (properties C98, C99 and C100) -/

set_option linter.unusedSectionVars false

namespace AmrWind.Adv

open Plane (Cell Bx Axis cells)

/-! ## Schemes -/

/-- **C99**: which scheme an input selects; every other entry and the old options are refused. -/
theorem scheme_spec (t : Option String) : scheme true t = none ∧ scheme false none = some .wenoZ ∧
    scheme false (some "plm") = some .plm ∧ scheme false (some "ppm") = some .ppm ∧ scheme false (some "ppm_nolim") = some .ppmNolim ∧
    scheme false (some "bds") = some .bds ∧ scheme false (some "weno") = some .wenoJs ∧ scheme false (some "weno_js") = some .wenoJs ∧
    scheme false (some "weno_z") = some .wenoZ ∧
    (∀ s, s ∉ ["plm", "ppm", "ppm_nolim", "bds", "weno", "weno_js", "weno_z"] → scheme false (some s) = none) := by
  refine ⟨rfl, ?_, ?_, ?_, ?_, ?_, ?_, ?_, ?_, ?_⟩
  all_goals try decide +kernel
  intro s hs
  simp only [List.mem_cons, List.not_mem_nil, or_false, not_or] at hs
  obtain ⟨h1, h2, h3, h4, h5, h6, h7⟩ := hs
  simp [scheme, h1, h2, h3, h4, h5, h6, h7]

/-- **C99**: momentum and transported scalars are reconstructed alike, and so are the face velocities unless the scheme is BDS. -/
theorem same_reconstruction (s : Scheme) : scalarRecon s = momentumRecon s ∧ (s ≠ .bds → faceRecon s = momentumRecon s) := by
  cases s <;> decide

/-- **C99**: different schemes are reconstructed differently. -/
theorem recon_injective (s t : Scheme) (h : momentumRecon s = momentumRecon t) : s = t := by
  cases s <;> cases t <;> revert h <;> decide

section time
variable {K : Type*} [Field K] [LinearOrder K] [IsStrictOrderedRing K]

/-- **C99**: from the old state as from the half-step state of a later fixed point iteration, the values at the faces stand for the middle of
the step.

Partial (C99). Missing: later iterations in the interface band (`band_late`). -/
theorem time_centred_partial (s : State) (dt : K) : faceTime s dt (dtExtrap s dt) = 1 / 2 * dt := by
  unfold faceTime dtExtrap
  cases s <;> simp

/-- A disagreement: in the interface band a later fixed point iteration extrapolates the half-step state over half a step more: its values
stand for the end of the step. -/
theorem band_late (dt : K) : faceTime .nph dt (bandExtrap .nph dt) = dt ∧ (dt ≠ 0 → faceTime .nph dt (bandExtrap .nph dt) ≠ 1 / 2 * dt) := by
  have e : faceTime .nph dt (bandExtrap .nph dt) = dt := by
    unfold faceTime bandExtrap
    simp only [if_pos]
    ring
  refine ⟨e, fun h => ?_⟩
  rw [e]
  intro h2
  apply h
  linarith

end time

/-! ## Free surface -/

section hybrid
variable {K : Type*} [Field K] [LinearOrder K] [IsStrictOrderedRing K]

/-- **C99**: the advected density lies between those of the two fluids; where only the first fluid passes (`a = 1`) it is that of
the first, where only the second passes that of the second. -/
theorem face_density_range {r1 r2 a : K} (h : r2 ≤ r1) (h0 : 0 ≤ a) (h1 : a ≤ 1) :
    r2 ≤ faceDensity r1 r2 a ∧ faceDensity r1 r2 a ≤ r1 ∧ faceDensity r1 r2 1 = r1 ∧ faceDensity r1 r2 0 = r2 := by
  unfold faceDensity
  refine ⟨?_, ?_, by ring, by ring⟩
  · nlinarith [mul_nonneg h0 (sub_nonneg.mpr h)]
  · nlinarith [mul_nonneg (sub_nonneg.mpr h1) (sub_nonneg.mpr h)]

/-- **C99**: near a free surface a uniform velocity `U` is carried with exactly the mass flux: `u` is the face velocity; in the band the
reconstruction of `ρ U` is `U` times that of `ρ`, elsewhere that of `U` is `U`. -/
theorem mass_consistent (band : Bool) {U u r ar m f : K} (hr : band = true → r ≠ 0 ∧ m = U * r * u) (hf : band = false → f = U * u) :
    hybridFlux 1 band m r ar f = some (U * (ar * u)) := by
  unfold hybridFlux
  cases band
  · simp [List.range_succ, tileFlux, hf rfl]; ring
  · obtain ⟨h0, hm⟩ := hr rfl
    simp only [List.range_succ, List.range_zero, List.nil_append, List.foldl_cons, List.foldl_nil, Option.bind_some, tileFlux, if_true,
      if_neg h0, hm, Option.some.injEq]
    field_simp

/-- The rate is linear in the fluxes. -/
theorem rate_scale (dx : Axis → K) (U : K) (F : Axis → Cell → K) (c : Cell) :
    rate dx (fun d c => U * F d c) c = U * rate dx F c := by
  unfold rate
  ring

/-- **C99**: so a uniform velocity stays uniform, across any jump of density: if the density changes by the rate of the mass fluxes, momentum
divided by density is still `U`. -/
theorem uniform_velocity_kept {dx : Axis → K} {U dt rho rho' : K} {G F : Axis → Cell → K} (hF : ∀ d c, F d c = U * G d c) (c : Cell)
    (hrho : rho' = rho + dt * rate dx G c) (h0 : rho' ≠ 0) : (rho * U + dt * rate dx F c) / rho' = U := by
  have : F = fun d c => U * G d c := by funext d c; exact hF d c
  rw [this, rate_scale, div_eq_iff h0, hrho]
  ring

/-- **C99**: a face is treated once if no two tiles of its box have it, which holds for boxes of at most as many cells as a tile. -/
theorem tiles_one {size lo hi i : ℤ} (hs : 0 < size) (hw : hi - lo + 1 ≤ size) : tilesOf size lo hi i = 1 := by
  unfold tilesOf
  rw [if_neg]
  rintro ⟨h1, h2, k, hk⟩
  have : 0 < k := by
    by_contra h
    have : size * k ≤ 0 := mul_nonpos_of_nonneg_of_nonpos hs.le (by omega)
    omega
  nlinarith

/-- A disagreement: in a box of more than 1024 cells the flux of a face between two tiles is multiplied by the advected density twice, unless
it is in the interface band. -/
theorem shared_face_twice (m r ar f : K) :
    hybridFlux (tilesOf 1024 0 2047 1024) false m r ar f = some (f * ar * ar) ∧
    hybridFlux (tilesOf 1024 0 2047 1023) false m r ar f = some (f * ar) ∧
    (r ≠ 0 → hybridFlux (tilesOf 1024 0 2047 1024) true m r ar f = some (m / r * ar)) := by
  have h2 : tilesOf 1024 0 2047 1024 = 2 := by decide
  have h1 : tilesOf 1024 0 2047 1023 = 1 := by decide
  rw [h2, h1]
  unfold hybridFlux
  refine ⟨by simp [List.range_succ, tileFlux], by simp [List.range_succ, tileFlux], fun h => by simp [List.range_succ, tileFlux, h]⟩

example : hybridFlux 1 true (2 * 500 * 3 : ℚ) 500 800 7 = some (2 * (800 * 3)) :=
  mass_consistent true (fun _ => ⟨by norm_num, rfl⟩) (fun h => by cases h)

end hybrid

/-! ## Method of lines -/

section mol
variable {K : Type*} [Field K] [LinearOrder K] [IsStrictOrderedRing K]

/-- What the fluxes need of the slopes: near a boundary with given values only the slope of the cell at that boundary is special, a uniform
state has no slope, and a slope does not carry the value at a face past the value of the neighbour there. -/
structure Slopes.Ok (S : Slopes K) : Prop where
  inside : ∀ d lo hi dlo dhi q c, (lo = true → d.idx c ≠ dlo) → (hi = true → d.idx c ≠ dhi) → S.ext d lo hi dlo dhi q c = S.plain d q c
  uniform : ∀ d lo hi dlo dhi (q : Cell → K) v, (∀ c, q c = v) → ∀ c, S.ext d lo hi dlo dhi q c = 0
  up : ∀ d q c, min (q c) (q (d.shift c 1)) ≤ q c + 1 / 2 * S.plain d q c ∧ q c + 1 / 2 * S.plain d q c ≤ max (q c) (q (d.shift c 1))
  down : ∀ d q c, min (q c) (q (d.shift c (-1))) ≤ q c - 1 / 2 * S.plain d q c ∧
    q c - 1 / 2 * S.plain d q c ≤ max (q c) (q (d.shift c (-1)))

theorem hasExt_get {bcs : List BcType} (h : hasExt bcs = false) {n : ℕ} {b : BcType} (hb : bcs[n]? = some b) : b = .other := by
  unfold hasExt at h
  rw [List.any_eq_false] at h
  have := h b (List.mem_of_getElem? hb)
  cases b <;> simp_all

theorem idx_shift (d : Axis) (c : Cell) (n : ℤ) : d.idx (d.shift c n) = d.idx c + n := by
  obtain ⟨i, j, k⟩ := c
  cases d <;> rfl

/-- **C99**: the flux through a face does not depend on the tile that computes it, nor on the boundary conditions of other components. -/
theorem mol_tile_independent {S : Slopes K} (hS : S.Ok) (small : K) (d : Axis) (dlo dhi : ℤ) {bcs : List (BcType × BcType)} {bx : Bx}
    {n : ℕ} {blo bhi : BcType} (hn : bcs[n]? = some (blo, bhi)) (q u : Cell → K) {c : Cell}
    (hc : d.idx bx.lo ≤ d.idx c ∧ d.idx c ≤ d.idx bx.hi + 1) :
    molFlux S small d dlo dhi bcs bx n q u c = some (extValue S small d dlo dhi blo bhi q (u c) c * u c) := by
  unfold molFlux
  rw [hn]
  dsimp only
  by_cases h : ((hasExt (bcs.map Prod.fst) && decide (dlo ≥ d.idx bx.lo - 1)) ||
    (hasExt (bcs.map Prod.snd) && decide (dhi ≤ d.idx bx.hi + 1))) = true
  · rw [if_pos h]
  rw [if_neg h]
  have h' := eq_false_of_ne_true h
  rw [Bool.or_eq_false_iff, Bool.and_eq_false_iff, Bool.and_eq_false_iff, decide_eq_false_iff_not, decide_eq_false_iff_not] at h'
  obtain ⟨h1, h2⟩ := h'
  have lo : blo = .other ∨ d.idx c > dlo + 1 := by
    rcases h1 with h1 | h1
    · exact Or.inl (hasExt_get (n := n) h1 (by rw [List.getElem?_map, hn]; rfl))
    · exact Or.inr (by omega)
  have hi : bhi = .other ∨ d.idx c < dhi := by
    rcases h2 with h2 | h2
    · exact Or.inl (hasExt_get (n := n) h2 (by rw [List.getElem?_map, hn]; rfl))
    · exact Or.inr (by omega)
  unfold extValue
  dsimp only
  rw [if_neg, if_neg]
  · unfold plainValue
    dsimp only
    rw [hS.inside, hS.inside]
    · intro hb
      rcases lo with rfl | h
      · simp at hb
      · omega
    · intro hb
      rcases hi with rfl | h
      · simp at hb
      · omega
    · intro hb
      rw [idx_shift]
      rcases lo with rfl | h
      · simp at hb
      · omega
    · intro hb
      rw [idx_shift]
      rcases hi with rfl | h
      · simp at hb
      · omega
  · rintro ⟨h, rfl⟩
    rcases hi with h' | h'
    · cases h'
    · omega
  · rintro ⟨h, rfl⟩
    rcases lo with h' | h'
    · cases h'
    · omega

/-- **C99**: the fluxes at a boundary with given values carry these values. -/
theorem mol_boundary (S : Slopes K) (small : K) (d : Axis) {dlo dhi : ℤ} (hlh : dlo ≤ dhi) (blo bhi : BcType) (q : Cell → K) (u : K) (c : Cell) :
    (d.idx c = dlo → extValue S small d dlo dhi .extDir bhi q u c = q (d.shift c (-1))) ∧
    (d.idx c = dhi + 1 → extValue S small d dlo dhi blo .extDir q u c = q c) := by
  constructor
  · intro h
    unfold extValue
    dsimp only
    rw [if_pos ⟨h.le, rfl⟩, h]
    congr 2
    omega
  · intro h
    unfold extValue
    dsimp only
    rw [if_neg (by omega), if_pos ⟨h.ge, rfl⟩, h, sub_self]
    obtain ⟨i, j, k⟩ := c
    cases d <;> simp [Axis.shift]

/-- **C99**: inside, the flux comes from the cell upwind with the slope that knows, at each end of the domain on its own, whether the values beyond
the boundary are values on it (given or extrapolated to the boundary). -/
theorem mol_inner (S : Slopes K) {small : K} (h0 : 0 ≤ small) (d : Axis) {dlo dhi : ℤ} (blo bhi : BcType) (q : Cell → K) {u : K} (c : Cell)
    (hc : dlo < d.idx c ∧ d.idx c ≤ dhi) (glo ghi : Bool) (hlo : glo = true ↔ blo ∈ [BcType.extDir, .hoExtrap])
    (hhi : ghi = true ↔ bhi ∈ [BcType.extDir, .hoExtrap]) :
    (small < u → extValue S small d dlo dhi blo bhi q u c = q (d.shift c (-1)) + 1 / 2 * S.ext d glo ghi dlo dhi q (d.shift c (-1))) ∧
    (u < -small → extValue S small d dlo dhi blo bhi q u c = q c - 1 / 2 * S.ext d glo ghi dlo dhi q c) := by
  have e1 : (decide (blo = .extDir) || decide (blo = .hoExtrap)) = glo := by
    rw [Bool.eq_iff_iff, hlo]; simp
  have e2 : (decide (bhi = .extDir) || decide (bhi = .hoExtrap)) = ghi := by
    rw [Bool.eq_iff_iff, hhi]; simp
  unfold extValue
  dsimp only
  rw [e1, e2, if_neg (by omega), if_neg (by omega)]
  unfold upwind
  refine ⟨fun h => if_pos h, fun h => ?_⟩
  rw [if_neg (by linarith), if_pos h]

theorem upwind_between {small u a b lo hi : K} (ha : lo ≤ a ∧ a ≤ hi) (hb : lo ≤ b ∧ b ≤ hi) :
    lo ≤ upwind small u a b ∧ upwind small u a b ≤ hi := by
  unfold upwind
  split
  · exact ha
  split
  · exact hb
  · constructor <;> linarith [ha.1, ha.2, hb.1, hb.2]

/-- **C99**: away from the boundary the value carried through a face lies between the values of the two cells of the face. -/
theorem mol_between {S : Slopes K} (hS : S.Ok) (small : K) (d : Axis) (q : Cell → K) (u : K) (c : Cell) :
    min (q (d.shift c (-1))) (q c) ≤ plainValue S small d q u c ∧ plainValue S small d q u c ≤ max (q (d.shift c (-1))) (q c) := by
  unfold plainValue
  dsimp only
  have hu := hS.up d q (d.shift c (-1))
  have hd := hS.down d q c
  rw [(Amr.shift_shift d c).2] at hu
  rw [min_comm, max_comm] at hd
  exact upwind_between hu hd

/-- **C99**: and it comes from the side the flow comes from: it does not depend on the state beyond the neighbours of that cell. -/
theorem mol_upwind {S : Slopes K} {small : K} (h0 : 0 ≤ small) (d : Axis) (q : Cell → K) {u : K} (c : Cell) :
    (small < u → plainValue S small d q u c = q (d.shift c (-1)) + 1 / 2 * S.plain d q (d.shift c (-1))) ∧
    (u < -small → plainValue S small d q u c = q c - 1 / 2 * S.plain d q c) := by
  unfold plainValue upwind
  refine ⟨fun h => if_pos h, fun h => ?_⟩
  dsimp only
  rw [if_neg (by linarith), if_pos h]

/-- **C99**: a uniform state, boundary values included, is carried unchanged: the flux is the value times the face velocity. -/
theorem mol_uniform {S : Slopes K} (hS : S.Ok) (small : K) (d : Axis) (dlo dhi : ℤ) (blo bhi : BcType) {q : Cell → K} {v : K}
    (hq : ∀ c, q c = v) (u : K) (c : Cell) : extValue S small d dlo dhi blo bhi q u c = v := by
  unfold extValue
  dsimp only
  rw [hS.uniform d _ _ _ _ q v hq, hS.uniform d _ _ _ _ q v hq, hq, hq, hq, hq]
  split
  · rfl
  split
  · rfl
  · unfold upwind
    split
    · ring
    split
    · ring
    · ring

/-- **C98**: so a uniform quantity changes only by the divergence of the face velocities, and not at all if that vanishes. -/
theorem uniform_rate (dx : Axis → K) (v : K) {u : Axis → Cell → K} {c : Cell} (hdiv : rate dx u c = 0) :
    rate dx (fun d c => v * u d c) c = 0 := by
  rw [rate_scale, hdiv, mul_zero]

/-- Slopes that meet the requirements: differences limited to zero unless both have the same sign, else to the smaller of the two. -/
def minmod : Slopes K :=
  let s : Axis → (Cell → K) → Cell → K := fun d q c =>
    let a := q (d.shift c 1) - q c
    let b := q c - q (d.shift c (-1))
    if 0 < a ∧ 0 < b then min a b else if a < 0 ∧ b < 0 then max a b else 0
  ⟨s, fun d _ _ _ _ q c => s d q c⟩

theorem minmod_ok : (minmod (K := K)).Ok where
  inside := fun d lo hi dlo dhi q c _ _ => rfl
  uniform := by
    intro d lo hi dlo dhi q v h c
    show (if 0 < q (d.shift c 1) - q c ∧ 0 < q c - q (d.shift c (-1)) then _ else _) = (0 : K)
    rw [h, h, h]
    simp
  up := by
    intro d q c
    show min (q c) (q (d.shift c 1)) ≤ q c + 1 / 2 * (if 0 < q (d.shift c 1) - q c ∧ 0 < q c - q (d.shift c (-1)) then
        min (q (d.shift c 1) - q c) (q c - q (d.shift c (-1))) else if q (d.shift c 1) - q c < 0 ∧ q c - q (d.shift c (-1)) < 0 then
        max (q (d.shift c 1) - q c) (q c - q (d.shift c (-1))) else 0) ∧
      q c + 1 / 2 * (if 0 < q (d.shift c 1) - q c ∧ 0 < q c - q (d.shift c (-1)) then
        min (q (d.shift c 1) - q c) (q c - q (d.shift c (-1))) else if q (d.shift c 1) - q c < 0 ∧ q c - q (d.shift c (-1)) < 0 then
        max (q (d.shift c 1) - q c) (q c - q (d.shift c (-1))) else 0) ≤ max (q c) (q (d.shift c 1))
    generalize q (d.shift c 1) = x
    generalize q (d.shift c (-1)) = y
    generalize q c = z
    split_ifs with h1 h2
    · have a := min_le_left (x - z) (z - y)
      have b : 0 < min (x - z) (z - y) := lt_min h1.1 h1.2
      exact ⟨(min_le_left _ _).trans (by linarith), le_trans (by linarith) (le_max_right z x)⟩
    · have a := le_max_left (x - z) (z - y)
      have b : max (x - z) (z - y) < 0 := max_lt h2.1 h2.2
      exact ⟨(min_le_right _ _).trans (by linarith), le_trans (by linarith) (le_max_left z x)⟩
    · simp
  down := by
    intro d q c
    show min (q c) (q (d.shift c (-1))) ≤ q c - 1 / 2 * (if 0 < q (d.shift c 1) - q c ∧ 0 < q c - q (d.shift c (-1)) then
        min (q (d.shift c 1) - q c) (q c - q (d.shift c (-1))) else if q (d.shift c 1) - q c < 0 ∧ q c - q (d.shift c (-1)) < 0 then
        max (q (d.shift c 1) - q c) (q c - q (d.shift c (-1))) else 0) ∧
      q c - 1 / 2 * (if 0 < q (d.shift c 1) - q c ∧ 0 < q c - q (d.shift c (-1)) then
        min (q (d.shift c 1) - q c) (q c - q (d.shift c (-1))) else if q (d.shift c 1) - q c < 0 ∧ q c - q (d.shift c (-1)) < 0 then
        max (q (d.shift c 1) - q c) (q c - q (d.shift c (-1))) else 0) ≤ max (q c) (q (d.shift c (-1)))
    generalize q (d.shift c 1) = x
    generalize q (d.shift c (-1)) = y
    generalize q c = z
    split_ifs with h1 h2
    · have a := min_le_right (x - z) (z - y)
      have b : 0 < min (x - z) (z - y) := lt_min h1.1 h1.2
      exact ⟨(min_le_right _ _).trans (by linarith), le_trans (by linarith) (le_max_left z y)⟩
    · have a := le_max_right (x - z) (z - y)
      have b : max (x - z) (z - y) < 0 := max_lt h2.1 h2.2
      exact ⟨(min_le_left _ _).trans (by linarith), le_trans (by linarith) (le_max_right z y)⟩
    · simp

example : molFlux (minmod (K := ℚ)) (1 / 1000000) .x 0 7 [(.extDir, .other)] ⟨(4, 0, 0), (7, 3, 3)⟩ 0 (fun c => c.1 * c.1) (fun _ => 2) (5, 0, 0) =
    some ((16 + 7 / 2) * 2) := by
  norm_num [molFlux, hasExt, plainValue, extValue, minmod, upwind, Axis.shift, Axis.idx]

end mol

/-! ## Projection of the face velocities -/

section mac
variable {K : Type*} [Field K] [LinearOrder K] [IsStrictOrderedRing K]

/-- Positive densities and scale factors. -/
structure Face.Ok (f : Face K) : Prop where
  rho : 0 < f.rho
  ref : 0 < f.ref
  fac : 0 < f.fac
  detJ : 0 < f.detJ

/-- **C100**: what the projection does to a face velocity, in physical terms: if the solver subtracts `beta` times the difference quotient
`g` of its potential, then the physical velocity (contravariant velocity times `fac / J` on a mapped mesh) loses `factor / ρ` times the physical
gradient `g / fac`, with `ρ` the density of the fluid at the face; in a run of constant density, the density of the input. -/
theorem projection_correction (o : Mac) (dt rho0 g u : K) {f : Face K} (hf : f.Ok) :
    let phys := fun v => if o.mapping then v * (f.fac / f.detJ) else v
    phys (o.after f (o.before f u - o.beta dt rho0 f * g)) =
      u - o.factor dt / (if o.variableDensity || o.overset || o.mapping || o.anelastic then f.rho else rho0) *
        (if o.mapping then g / f.fac else g) := by
  obtain ⟨h1, h2, h3, h4⟩ := hf
  have := h1.ne'; have := h2.ne'; have := h3.ne'; have := h4.ne'
  obtain ⟨a, b, c, d⟩ := o
  unfold Mac.after Mac.before Mac.beta
  generalize Mac.factor _ dt = w
  cases a <;> cases b <;> cases c <;> cases d <;> simp only [Bool.or_false, Bool.or_true, Bool.false_or, Bool.true_or, if_true, if_false,
    Bool.false_eq_true] <;> field_simp

/-- **C100**: what becomes free of divergence is the velocity, times the density of the reference state in an anelastic run, in the
contravariant form `J / fac` on a mapped mesh: that is what the solver is given and what it returns. -/
theorem projection_unknown (o : Mac) {f : Face K} (hf : f.Ok) (u v : K) :
    o.before f u = u * (if o.mapping then f.detJ / f.fac else 1) * (if o.anelastic then f.ref else 1) ∧
    o.after f v * (if o.anelastic then f.ref else 1) = v := by
  have := hf.ref.ne'
  obtain ⟨a, b, c, d⟩ := o
  unfold Mac.before Mac.after
  cases c <;> cases d <;> simp [this]

/-- **C100**: so after the projection the divergence vanishes of exactly that quantity. -/
theorem projection_divergence (o : Mac) {F : Axis → Cell → Face K} (hF : ∀ d c, (F d c).Ok) {dx : Axis → K} {v : Axis → Cell → K} {c : Cell}
    (hdiv : rate dx v c = 0) :
    rate dx (fun d c => (o.after (F d c) (v d c)) * (if o.anelastic then (F d c).ref else 1)) c = 0 := by
  have : (fun d c => (o.after (F d c) (v d c)) * (if o.anelastic then (F d c).ref else 1)) = v := by
    funext d c
    exact (projection_unknown o (hF d c) 0 (v d c)).2
  rw [this]
  exact hdiv

/-- **C100**: the coefficient is positive, so the equation for the potential is elliptic. -/
theorem beta_pos (o : Mac) {dt rho0 : K} (hdt : 0 < dt) (h0 : 0 < rho0) {f : Face K} (hf : f.Ok) : 0 < o.beta dt rho0 f := by
  obtain ⟨h1, h2, h3, h4⟩ := hf
  have hw : 0 < o.factor dt := by unfold Mac.factor; split <;> linarith
  unfold Mac.beta
  split
  · dsimp only
    split <;> split <;> positivity
  · positivity

/-- **C100**: the potential is fixed at pressure outflows only; everywhere else the velocity through the boundary is kept. -/
theorem projection_bc (p o : Bool) : (projBc p o = .dirichlet ↔ p = false ∧ o = true) ∧ (projBc p o = .neumann ↔ p = false ∧ o = false) ∧
    (projBc p o = .periodic ↔ p = true) := by
  cases p <;> cases o <;> decide

/-- **C100**: in a run of constant density without overset meshes, mapping or a reference state the coefficient is the inverse of the density
of the input, whatever the density field holds. -/
theorem constant_density_input (dt rho0 : K) (f : Face K) : (⟨false, false, false, false⟩ : Mac).beta dt rho0 f = 1 / rho0 := by
  simp [Mac.beta, Mac.factor]

example : (⟨12 / 10, 11 / 10, 2, 3⟩ : Face ℚ).Ok := ⟨by norm_num, by norm_num, by norm_num, by norm_num⟩

end mac

end AmrWind.Adv
