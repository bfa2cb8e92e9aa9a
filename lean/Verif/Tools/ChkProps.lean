import Verif.Tools.Model
import Verif.Actuator.WindIOProps
import Mathlib.Algebra.BigOperators.Ring.Finset
import Mathlib.Tactic.Ring
import Mathlib.Tactic.Linarith
import Mathlib.Tactic.FieldSimp
import Mathlib.Tactic.NormNum
import Mathlib.Tactic.FinCases

/-!
# Checkpoints made coarser and finer
-/

set_option linter.unusedSectionVars false

namespace AmrWind.Tools

variable {K : Type*} [Field K] [LinearOrder K] [IsStrictOrderedRing K]

/-! ## Specification -/

/-- Sum over the cells of a domain with `nx` times `ny` times `nz` cells. -/
def domSum (nx ny nz : ℕ) (f : I → K) : K :=
  ∑ k ∈ Finset.range nz, ∑ j ∈ Finset.range ny, ∑ i ∈ Finset.range nx, f (i, j, k)

/-- The eight cells of the next level in a cell. -/
def eight (c : I) : List I :=
  [(2 * c.1, 2 * c.2.1, 2 * c.2.2), (2 * c.1 + 1, 2 * c.2.1, 2 * c.2.2), (2 * c.1, 2 * c.2.1 + 1, 2 * c.2.2),
    (2 * c.1 + 1, 2 * c.2.1 + 1, 2 * c.2.2), (2 * c.1, 2 * c.2.1, 2 * c.2.2 + 1), (2 * c.1 + 1, 2 * c.2.1, 2 * c.2.2 + 1),
    (2 * c.1, 2 * c.2.1 + 1, 2 * c.2.2 + 1), (2 * c.1 + 1, 2 * c.2.1 + 1, 2 * c.2.2 + 1)]

/-- The mean over the eight cells. -/
def Mean8 (f : I → K) (c : I) (m : K) : Prop := 8 * m = ((eight c).map f).sum

/-- Centre of a cell along one direction. -/
def centre (lo dx : K) (i : ℤ) : K := lo + (i + 1 / 2) * dx

/-- A checkpoint as runs write it: a finer level covers whole cells of the one below, which has the cell and holds the mean of the eight. -/
def Consistent (levels : List (Lvl K)) : Prop :=
  ∀ (l : ℕ) (L M : Lvl K), levels[l]? = some L → levels[l + 1]? = some M → ∀ c,
    (∀ f ∈ eight c, M.has f = false) ∨ ((∀ f ∈ eight c, M.has f = true) ∧ L.has c = true ∧ Mean8 M.cell c (L.cell c))

/-- An interpolation that keeps the mean of each cell. -/
def KeepsMean (interp : (I → K) → I → K) : Prop := ∀ g c, Mean8 (interp g) c (g c)

/-! ## Means -/

theorem mean8_iff (f : I → K) (c : I) (m : K) : Mean8 f c m ↔ avgDown 2 f c = m := by
  have h : avgDown 2 f c * 8 = ((eight c).map f).sum := by
    simp only [avgDown, Finset.sum_range_succ, Finset.sum_range_zero, eight, List.map_cons, List.map_nil, List.sum_cons, List.sum_nil]
    push_cast
    simp only [add_zero, zero_add]
    ring
  rw [Mean8, ← h]
  constructor
  · intro e; linarith
  · intro e; rw [e]; ring

theorem sum_blocks (r n : ℕ) (f : ℤ → K) :
    ∑ c ∈ Finset.range n, ∑ i ∈ Finset.range r, f (r * c + i) = ∑ i ∈ Finset.range (r * n), f i := by
  induction n with
  | zero => simp
  | succ n ih =>
    rw [Finset.sum_range_succ, ih, Nat.mul_succ, Finset.sum_range_add]
    simp

/-- Averaging keeps the total over the domain, for any ratio, and with it the mean of the field. -/
theorem average_keeps_total (r : ℕ) (hr : 0 < r) (nx ny nz : ℕ) (f : I → K) :
    domSum nx ny nz (fun c => (r : K) ^ 3 * avgDown r f c) = domSum (r * nx) (r * ny) (r * nz) f := by
  have hr' : (r : K) ≠ 0 := by exact_mod_cast hr.ne'
  have e : ∀ c, (r : K) ^ 3 * avgDown r f c =
      ∑ k ∈ Finset.range r, ∑ j ∈ Finset.range r, ∑ i ∈ Finset.range r, f (r * c.1 + i, r * c.2.1 + j, r * c.2.2 + k) := by
    intro c
    rw [avgDown, mul_comm, mul_assoc]
    have : (1 / ((r : K) * r * r)) * (r : K) ^ 3 = 1 := by field_simp
    rw [this, mul_one]
  simp only [domSum, e]
  rw [← sum_blocks r nz (fun k => ∑ j ∈ Finset.range (r * ny), ∑ i ∈ Finset.range (r * nx), f (i, j, k))]
  refine Finset.sum_congr rfl fun K _ => ?_
  rw [Finset.sum_congr rfl fun J _ => Finset.sum_comm, Finset.sum_comm]
  refine Finset.sum_congr rfl fun k _ => ?_
  rw [← sum_blocks r ny (fun j => ∑ i ∈ Finset.range (r * nx), f (i, j, _))]
  refine Finset.sum_congr rfl fun J _ => ?_
  rw [Finset.sum_comm]
  refine Finset.sum_congr rfl fun j _ => ?_
  rw [← sum_blocks r nx (fun i => f (i, _, _))]

/-- Averaging stays within the bounds of the field and is exact where the field is linear in the place: the value at the centre of the
coarser cell. A value at a node is kept at its place. -/
theorem average_accurate (f : I → K) (c : I) :
    (∀ lo hi, (∀ e ∈ eight c, lo ≤ f e ∧ f e ≤ hi) → lo ≤ avgDown 2 f c ∧ avgDown 2 f c ≤ hi) ∧
    (∀ a b1 b2 b3 x y z dx dy dz : K, (∀ e, f e = a + b1 * centre x dx e.1 + b2 * centre y dy e.2.1 + b3 * centre z dz e.2.2) →
      avgDown 2 f c = a + b1 * centre x (2 * dx) c.1 + b2 * centre y (2 * dy) c.2.1 + b3 * centre z (2 * dz) c.2.2) ∧
    (∀ (h : K → K → K → K) (x y z dx dy dz : K), (∀ e : I, f e = h (x + e.1 * dx) (y + e.2.1 * dy) (z + e.2.2 * dz)) →
      nodeDown f c = h (x + c.1 * (2 * dx)) (y + c.2.1 * (2 * dy)) (z + c.2.2 * (2 * dz))) := by
  have key := (mean8_iff f c _).mpr rfl
  refine ⟨fun lo hi h => ?_, fun a b1 b2 b3 x y z dx dy dz h => ?_, fun h x y z dx dy dz hf => ?_⟩
  · simp only [Mean8, eight, List.map_cons, List.map_nil, List.sum_cons, List.sum_nil] at key
    simp only [eight, List.forall_mem_cons] at h
    obtain ⟨⟨a1, a2⟩, ⟨b1, b2⟩, ⟨c1, c2⟩, ⟨d1, d2⟩, ⟨e1, e2⟩, ⟨f1, f2⟩, ⟨g1, g2⟩, ⟨h1, h2⟩, _⟩ := h
    constructor <;> linarith
  · refine (mean8_iff f c _).mp ?_
    simp only [Mean8, eight, List.map_cons, List.map_nil, List.sum_cons, List.sum_nil, h, centre]
    push_cast
    ring
  · rw [nodeDown, hf]
    push_cast
    congr 1 <;> ring

/-! ## Levels written -/

theorem write_spec {levels : List (Lvl K)} {s e : ℕ} (hs : s ≤ e) (he : e < levels.length) :
    ∃ out, writeLevels levels s e = some out ∧ out.length = e + 1 - s ∧ ∀ i < e + 1 - s, out[i]? = levels[s + i]? := by
  have h1 : (max (if (e : ℤ) = -1 then (levels.length : ℤ) - 1 else e) s + 1 - s).toNat = e + 1 - s := by
    rw [if_neg (by omega)]; omega
  have h2 : ∀ i : ℕ, ((s : ℤ) + i).toNat = s + i := fun i => by omega
  obtain ⟨out, ho⟩ : ∃ out, writeLevels levels s e = some out := by
    simp only [writeLevels, h1, h2]
    exact Wio.mapM_range_total fun i hi => ⟨_, List.getElem?_eq_getElem (by omega)⟩
  refine ⟨out, ho, ?_⟩
  simp only [writeLevels, h1, h2] at ho
  obtain ⟨k1, k2⟩ := Wio.mapM_range_iff.mp ho
  exact ⟨k1, fun i hi => (k2 i hi).symm⟩

/-- Cells are accepted just if there are twice as many as wanted. -/
theorem cells_accepted {n t h : Fin 3 → ℤ} : checkCells n t = some h ↔ (∀ d, n d = 2 * t d) ∧ h = t := by
  have key : (∀ d, n d = 2 * t d) ↔ (¬ ∃ d, ((n d).tmod 2).tmod 8 ≠ 0) ∧ ¬ ∃ d, (n d).tdiv 2 ≠ t d := by
    simp only [not_exists, not_not, ← forall_and]
    refine forall_congr' fun d => ?_
    constructor
    · intro e
      rw [e]
      exact ⟨by rw [Int.mul_tmod_right]; rfl, Int.mul_tdiv_cancel_left _ (by norm_num)⟩
    · rintro ⟨e1, e2⟩
      have e3 := Int.mul_tdiv_add_tmod (n d) 2
      rcases Int.tmod_two_eq (n d) with h | h | h
      · rw [h] at e1; exact absurd e1 (by decide)
      · rw [h, e2] at e3; omega
      · rw [h] at e1; exact absurd e1 (by decide)
  rw [key, checkCells]
  by_cases h1 : ∃ d, ((n d).tmod 2).tmod 8 ≠ 0
  · simp [h1]
  · rw [if_neg h1]
    by_cases h2 : ∃ d, (n d).tdiv 2 ≠ t d
    · simp [h2]
    · rw [if_neg h2]
      have e : (fun d => (n d).tdiv 2) = t := by
        funext d
        by_contra hd
        exact h2 ⟨d, hd⟩
      rw [e]
      simp only [Option.some.injEq, h1, h2, not_false_eq_true, and_self, true_and]
      exact eq_comm

/-- False of the code: "meshes that are too small for boxes of eight cells are refused". Any even number of cells is taken, also two, which
leaves one. -/
theorem small_mesh_accepted (m : ℤ) : checkCells (fun _ => 2 * m) (fun _ => m) = some fun _ => m :=
  cells_accepted.mpr ⟨fun _ => rfl, rfl⟩

/-- A checkpoint made coarser: for every checkpoint and twice as many cells as wanted, the file written has a base level on the coarser
domain whose every cell is the mean of the eight of the old base level, with step, time and the last steps kept. Missing: the existing
levels, `coarsen_drops_levels`, and the time step, which is that of the inputs. -/
theorem coarsen_partial (dt0 : K) {n t : Fin 3 → ℤ} (hn : ∀ d, n d = 2 * t d) {ck : Chk K} {base : Lvl K} {fine : List (Lvl K)}
    (hl : ck.levels = base :: fine) : ∃ out new, coarsen dt0 n t ck = some out ∧ out.levels[0]? = some new ∧
      (∀ c, new.has c = true ↔ 0 ≤ c.1 ∧ c.1 < t 0 ∧ 0 ≤ c.2.1 ∧ c.2.1 < t 1 ∧ 0 ≤ c.2.2 ∧ c.2.2 < t 2) ∧
      (∀ c, Mean8 base.cell c (new.cell c)) ∧ out.step = ck.step ∧ out.time = ck.time ∧ out.dt = dt0 ∧ out.dt1 = ck.dt1 ∧ out.dt2 = ck.dt2 := by
  have hc : checkCells n t = some t := cells_accepted.mpr ⟨hn, rfl⟩
  obtain ⟨out, h1, _, h3⟩ := write_spec (levels := (⟨inDom t, avgDown 2 base.cell⟩ : Lvl K) :: ck.levels) (s := 0) (e := 0) le_rfl (by simp)
  have h4 : min (0 : ℤ) ((((⟨inDom t, avgDown 2 base.cell⟩ : Lvl K) :: ck.levels).length : ℤ) - 1 - 1) = 0 := by
    rw [hl]; simp only [List.length_cons]; push_cast; omega
  refine ⟨⟨ck.step, ck.time, dt0, ck.dt1, ck.dt2, out⟩, ⟨inDom t, avgDown 2 base.cell⟩, ?_, ?_, fun c => by simp [inDom], fun c =>
    (mean8_iff _ _ _).mpr rfl, rfl, rfl, rfl, rfl, rfl⟩
  · simp only [coarsen, hc, hl, Option.bind_some, List.getElem?_cons_zero]
    rw [hl] at h4 h1
    simp only [Nat.cast_zero] at h1
    rw [h4, h1]
    rfl
  · exact h3 0 (by omega)

/-- False of the code: "adds a coarser base level to the existing grid". The file written has one level, whatever levels the checkpoint
had. -/
theorem coarsen_drops_levels (dt0 : K) {n t : Fin 3 → ℤ} {ck out : Chk K} (h : coarsen dt0 n t ck = some out) : out.levels.length = 1 := by
  simp only [coarsen, Option.bind_eq_some_iff, Option.map_eq_some_iff] at h
  obtain ⟨half, _, base, hb, o, ho, rfl⟩ := h
  have hpos : 0 < ck.levels.length := (List.getElem?_eq_some_iff.mp hb).1
  have h4 : min (0 : ℤ) ((((⟨inDom half, avgDown 2 base.cell⟩ : Lvl K) :: ck.levels).length : ℤ) - 1 - 1) = 0 := by
    simp only [List.length_cons]; push_cast; omega
  rw [h4] at ho
  obtain ⟨o', h1, h2, _⟩ := write_spec (levels := (⟨inDom half, avgDown 2 base.cell⟩ : Lvl K) :: ck.levels) (s := 0) (e := 0) le_rfl (by simp)
  simp only [Nat.cast_zero] at h1
  rw [h1] at ho
  injection ho with ho
  rw [← ho, h2]

/-! ## Refinement -/

/-- A checkpoint is refined only by one level; otherwise nothing is written. -/
theorem refine_only_one (dt0 : K) (maxLevel : ℤ) (mr : Option ℤ) (interp : (I → K) → I → K) (grid : ℕ → I → Bool) (ck : Chk K)
    (h : maxLevel ≠ ck.levels.length) : refine dt0 maxLevel mr interp grid ck = some none := if_pos (by omega)

theorem newVal_mean {interp : (I → K) → I → K} (hi : KeepsMean interp) {levels : List (Lvl K)} (hc : Consistent levels) (l : ℕ) (c : I) :
    Mean8 (newVal interp levels (l + 1)) c (newVal interp levels l c) := by
  have old : ∀ (l : ℕ) (f : I) (v : K), oldAt levels l f = some v → newVal interp levels l f = v := by
    intro l f v h
    cases l <;> simp [newVal, h]
  have congr : ∀ g : I → K, (∀ f ∈ eight c, newVal interp levels (l + 1) f = g f) →
      Mean8 g c (newVal interp levels l c) → Mean8 (newVal interp levels (l + 1)) c (newVal interp levels l c) := by
    intro g hg hm
    rw [Mean8] at hm ⊢
    rw [hm, List.map_congr_left hg]
  cases hM : levels[l + 1]? with
  | none =>
    refine congr _ (fun f _ => ?_) (hi _ c)
    simp [newVal, oldAt, hM]
  | some M =>
    have hlt : l + 1 < levels.length := (List.getElem?_eq_some_iff.mp hM).1
    have hL : levels[l]? = some levels[l] := List.getElem?_eq_getElem (by omega)
    rcases hc l _ M hL hM c with h | ⟨h, hh, hm⟩
    · refine congr _ (fun f hf => ?_) (hi _ c)
      simp [newVal, oldAt, hM, h f hf]
    · have e : newVal interp levels l c = (levels[l]).cell c := old l c _ (by simp [oldAt, hL, hh])
      rw [e]
      rw [e] at congr
      refine congr M.cell (fun f hf => old _ _ _ (by simp [oldAt, hM, h f hf])) hm

/-- A checkpoint made finer: with one more level asked for than the checkpoint has, as many levels are written as it had. The new level `l`
covers every cell of the old level `l`, provided the mesh made covers the cells tagged; it has the values of the old level above where that was; and
the eight new values in a cell of the old base level have the old value as their mean, as those of each finer level written have that of the
level below. -/
theorem refine_spec (dt0 : K) (interp : (I → K) → I → K) (hi : KeepsMean interp) (grid : ℕ → I → Bool) (ck : Chk K)
    (hc : Consistent ck.levels) (h0 : ck.levels ≠ [])
    (hg : ∀ l c, tagged ck.levels l c = true → ∀ f ∈ eight c, grid (l + 1) f = true) :
    ∃ out, refine dt0 ck.levels.length none interp grid ck = some (some out) ∧ out.levels.length = ck.levels.length ∧
      out.step = ck.step ∧ out.time = ck.time ∧ out.dt1 = ck.dt1 ∧ out.dt2 = ck.dt2 ∧
      (∀ (l : ℕ) (L N : Lvl K), ck.levels[l]? = some L → out.levels[l]? = some N → ∀ c, L.has c = true → ∀ f ∈ eight c, N.has f = true) ∧
      (∀ (l : ℕ) (M N : Lvl K), ck.levels[l + 1]? = some M → out.levels[l]? = some N → ∀ f, M.has f = true → N.cell f = M.cell f) ∧
      (∀ B N : Lvl K, ck.levels[0]? = some B → out.levels[0]? = some N → ∀ c, B.has c = true → Mean8 N.cell c (B.cell c)) ∧
      (∀ (l : ℕ) (N M : Lvl K), out.levels[l]? = some N → out.levels[l + 1]? = some M → ∀ c, Mean8 M.cell c (N.cell c)) := by
  have hpos : 0 < ck.levels.length := List.length_pos_iff.mpr h0
  set new : List (Lvl K) := (List.range (ck.levels.length + 1)).map fun l => (⟨grid l, newVal interp ck.levels l⟩ : Lvl K) with hnew
  have hlen : new.length = ck.levels.length + 1 := by simp [hnew]
  have hget : ∀ l, l < ck.levels.length + 1 → new[l]? = some ⟨grid l, newVal interp ck.levels l⟩ := by
    intro l hl
    simp [hnew, hl]
  obtain ⟨out, h1, h2, h3⟩ := write_spec (levels := new) (s := 1) (e := ck.levels.length) (by omega) (by omega)
  have h2' : out.length = ck.levels.length := by omega
  have hout : ∀ l, l < ck.levels.length → out[l]? = some ⟨grid (l + 1), newVal interp ck.levels (l + 1)⟩ := by
    intro l hl
    rw [h3 l (by omega), Nat.add_comm 1 l, hget (l + 1) (by omega)]
  have hlt : ∀ l N, out[l]? = some N → l < ck.levels.length := fun l N h => h2' ▸ (List.getElem?_eq_some_iff.mp h).1
  refine ⟨⟨ck.step, ck.time, dt0, ck.dt1, ck.dt2, out⟩, ?_, h2', rfl, rfl, rfl, rfl, ?_, ?_, ?_, ?_⟩
  · rw [refine, if_neg (by omega)]
    have e : (none : Option ℤ).getD ((new.length : ℤ) - 1) = (ck.levels.length : ℤ) := by
      rw [Option.getD_none, hlen]; push_cast; omega
    simp only [← hnew]
    rw [e]
    simp only [Nat.cast_one] at h1
    rw [h1]
    rfl
  · intro l L N hL hN c hcL f hf
    change out[l]? = some N at hN
    rw [hout l (hlt l N hN)] at hN
    injection hN with hN
    rw [← hN]
    exact hg l c (by simp [tagged, hL, hcL]) f hf
  · intro l M N hM hN f hf
    change out[l]? = some N at hN
    rw [hout l (hlt l N hN)] at hN
    injection hN with hN
    rw [← hN]
    simp [newVal, oldAt, hM, hf]
  · intro B N hB hN c hcB
    change out[0]? = some N at hN
    rw [hout 0 hpos] at hN
    injection hN with hN
    rw [← hN]
    have := newVal_mean hi hc 0 c
    have e : newVal interp ck.levels 0 c = B.cell c := by simp [newVal, oldAt, hB, hcB]
    rwa [e] at this
  · intro l N M hN hM c
    change out[l]? = some N at hN
    change out[l + 1]? = some M at hM
    have hl := hlt _ _ hM
    rw [hout l (by omega)] at hN
    rw [hout (l + 1) hl] at hM
    injection hN with hN
    injection hM with hM
    rw [← hN, ← hM]
    exact newVal_mean hi hc (l + 1) c

/-- A checkpoint that is made finer and then coarser has its base level back. -/
theorem refine_coarsen (dt0 dt1 : K) (interp : (I → K) → I → K) (hi : KeepsMean interp) (grid : ℕ → I → Bool) (ck mid out : Chk K)
    (n t : Fin 3 → ℤ) (base : Lvl K) (hc : Consistent ck.levels) (hb : ck.levels[0]? = some base)
    (hg : ∀ l c, tagged ck.levels l c = true → ∀ f ∈ eight c, grid (l + 1) f = true)
    (h1 : refine dt0 ck.levels.length none interp grid ck = some (some mid)) (h2 : coarsen dt1 n t mid = some out) :
    ∃ back, out.levels[0]? = some back ∧ ∀ c, base.has c = true → back.cell c = base.cell c := by
  have h0 : ck.levels ≠ [] := by
    intro h; rw [h] at hb; cases hb
  obtain ⟨mid', e, hl, _, _, _, _, _, _, hm, _⟩ := refine_spec dt0 interp hi grid ck hc h0 hg
  rw [h1] at e
  injection e with e
  injection e with e
  subst e
  have hn : ∀ d, n d = 2 * t d := by
    simp only [coarsen, Option.bind_eq_some_iff] at h2
    obtain ⟨half, hh, _⟩ := h2
    obtain ⟨_, rfl⟩ := cells_accepted.mp (show checkCells n t = some half from hh)
    exact (cells_accepted.mp hh).1
  cases hlev : mid.levels with
  | nil =>
    rw [hlev] at hl
    exact absurd (List.length_eq_zero_iff.mp hl.symm) h0
  | cons b r =>
    obtain ⟨out', new, g1, g2, _, g3, _⟩ := coarsen_partial dt1 hn hlev
    rw [h2] at g1
    injection g1 with g1
    subst g1
    refine ⟨new, g2, fun c hcb => ?_⟩
    have a := hm base b hb (by rw [hlev]; rfl) c hcb
    exact ((mean8_iff _ _ _).mp (g3 c)).symm.trans ((mean8_iff _ _ _).mp a)

/-! ## Cases -/

/-- Piecewise constant interpolation keeps means. -/
theorem constant_keeps : KeepsMean (fun (g : I → K) f => g (coarsenI 2 f)) := by
  intro g c
  obtain ⟨x, y, z⟩ := c
  have e0 : ∀ a : ℤ, 2 * a / 2 = a := fun a => by omega
  have e1 : ∀ a : ℤ, (2 * a + 1) / 2 = a := fun a => by omega
  simp only [Mean8, eight, coarsenI, List.map_cons, List.map_nil, List.sum_cons, List.sum_nil, e0, e1]
  ring

/-- Two levels: a base of 4 times 2 times 2 cells with the value of `x`, its first cell refined. -/
def two : Chk ℚ :=
  ⟨7, 1, 1 / 10, 1 / 10, 1 / 10, [⟨inDom ![4, 2, 2], fun c => c.1⟩, ⟨inDom ![2, 2, 2], fun c => if c.1 = 0 then -1 else 1⟩]⟩

theorem two_consistent : Consistent two.levels := by
  intro l L M hL hM c
  match l, hL, hM with
  | 0, hL, hM =>
    simp only [two, List.getElem?_cons_zero, List.getElem?_cons_succ, Option.some.injEq] at hL hM
    subst hL hM
    obtain ⟨x, y, z⟩ := c
    by_cases h : x = 0 ∧ y = 0 ∧ z = 0
    · obtain ⟨rfl, rfl, rfl⟩ := h
      right
      refine ⟨by decide, by decide, by norm_num [Mean8, eight]⟩
    · left
      intro f hf
      simp only [eight, List.mem_cons, List.not_mem_nil, or_false] at hf
      simp only [inDom, decide_eq_false_iff_not]
      rcases hf with rfl | rfl | rfl | rfl | rfl | rfl | rfl | rfl <;> simp <;> omega
  | 1, _, hM => simp [two] at hM
  | l + 2, hL, _ => simp [two] at hL

example : (coarsen (1 / 5) ![4, 2, 2] ![2, 1, 1] two).map (fun o => (o.levels.length, o.step, o.levels.map fun L => (L.cell (0, 0, 0), L.cell (1, 0, 0)))) =
    some (1, 7, [(1 / 2, 5 / 2)]) := by decide +kernel

example : ∃ out, refine (1 / 5) 2 none (fun (g : I → ℚ) f => g (coarsenI 2 f)) (fun _ _ => true) two = some (some out) ∧ out.levels.length = 2 := by
  obtain ⟨out, h1, h2, _⟩ := refine_spec (1 / 5) _ constant_keeps (fun _ _ => true) two two_consistent (by simp [two]) (fun _ _ _ _ _ => rfl)
  exact ⟨out, h1, h2⟩

end AmrWind.Tools
