import Mathlib.Algebra.Order.Ring.Rat
import Mathlib.Tactic.NormNum
import Verif.Config.InflowModel
import Verif.Config.BCLemmas
/-!
# C119: the velocity given on an inflow boundary is the velocity through it
-/

set_option linter.unusedSectionVars false

namespace AmrWind.Inflow

open Plane Config

variable {K : Type*} [LinearOrder K] [Zero K]

/-! ## Specification -/

/-- The domain is not empty. -/
def NonEmpty (dom : Bx) : Prop := ∀ d : Axis, d.idx dom.lo ≤ d.idx dom.hi

/-- The face lies on the side of the domain. -/
def OnSide (dom : Bx) (f : Face) (c : Cell) : Prop :=
  (∀ d, d ≠ f.1 → d.idx dom.lo ≤ d.idx c ∧ d.idx c ≤ d.idx dom.hi) ∧
    (f.2 = false → f.1.idx c = f.1.idx dom.lo) ∧ (f.2 = true → f.1.idx c = f.1.idx dom.hi + 1)

/-- A velocity normal to a side carries fluid out of the domain. -/
def Outward (f : Face) (v : K) : Prop := (f.2 = false ∧ v < 0) ∨ (f.2 = true ∧ 0 < v)

/-- Sides where a velocity is given. -/
def Given (t : BC) : Prop := t = .mass_inflow ∨ t = .mass_inflow_outflow ∨ t = .wave_generation

/-- A cell outside the domain next to a side, not beyond another one. -/
def Beside (per : Axis → Bool) (dom : Bx) (f : Face) (c : Cell) : Prop :=
  (∀ d, d ≠ f.1 → d.idx dom.lo - (if per d then 1 else 0) ≤ d.idx c ∧ d.idx c ≤ d.idx dom.hi + (if per d then 1 else 0)) ∧
    (f.2 = false → f.1.idx c = f.1.idx dom.lo - 1) ∧ (f.2 = true → f.1.idx c = f.1.idx dom.hi + 1)

/-- A face in direction `d` of a cell of the grid. -/
def FaceOf (b : Bx) (d : Axis) (c : Cell) : Prop :=
  ∀ d', d'.idx b.lo ≤ d'.idx c ∧ d'.idx c ≤ d'.idx b.hi + (if d' = d then 1 else 0)

/-- A cell of the grid or next to it. -/
def Near (b : Bx) (c : Cell) : Prop := ∀ d : Axis, d.idx b.lo - 1 ≤ d.idx c ∧ d.idx c ≤ d.idx b.hi + 1

/-- A cell of the grid. -/
def Within (b : Bx) (c : Cell) : Prop := ∀ d : Axis, d.idx b.lo ≤ d.idx c ∧ d.idx c ≤ d.idx b.hi

/-- The component of the velocity along an axis: the first, second and third. -/
def Along (d : Axis) (n : ℕ) : Prop := (d = .x ∧ n = 0) ∨ (d = .y ∧ n = 1) ∨ (d = .z ∧ n = 2)

/-! ## Proofs -/

theorem faceBox_of {d : Axis} {b : Bx} {c : Cell} (h : FaceOf b d c) : faceBox d b c = true := by
  have hx := h .x
  have hy := h .y
  have hz := h .z
  unfold faceBox inTangent inDir
  cases d <;> simp at hx hy hz ⊢ <;> omega

theorem near_of {b : Bx} {c : Cell} (h : Near b c) : inBox (growBox 1 b) c = true := by
  have hx := h .x
  have hy := h .y
  have hz := h .z
  obtain ⟨⟨_, _, _⟩, _, _, _⟩ := b
  obtain ⟨_, _, _⟩ := c
  unfold inBox inDir growBox
  simp [Axis.idx] at hx hy hz ⊢
  omega

theorem inBox_iff {b : Bx} {c : Cell} : inBox b c = true ↔ Within b c := by
  unfold inBox inDir Within
  constructor
  · intro h d
    simp at h
    cases d <;> omega
  · intro h
    have hx := h .x
    have hy := h .y
    have hz := h .z
    simp
    omega

theorem along {d : Axis} {n : ℕ} (h : Along d n) : n = comp d := by
  rcases h with ⟨rfl, rfl⟩ | ⟨rfl, rfl⟩ | ⟨rfl, rfl⟩ <;> rfl

theorem onBdry_iff (dom : Bx) (f : Face) (c : Cell) : onBdry dom f c = true ↔ OnSide dom f c := by
  obtain ⟨d, s⟩ := f
  unfold onBdry OnSide inTangent inDir
  have e : (∀ d', d' ≠ d → d'.idx dom.lo ≤ d'.idx c ∧ d'.idx c ≤ d'.idx dom.hi) ↔
      (d = .x ∨ (Axis.x.idx dom.lo ≤ Axis.x.idx c ∧ Axis.x.idx c ≤ Axis.x.idx dom.hi)) ∧
      (d = .y ∨ (Axis.y.idx dom.lo ≤ Axis.y.idx c ∧ Axis.y.idx c ≤ Axis.y.idx dom.hi)) ∧
      (d = .z ∨ (Axis.z.idx dom.lo ≤ Axis.z.idx c ∧ Axis.z.idx c ≤ Axis.z.idx dom.hi)) := by
    constructor
    · intro h
      refine ⟨?_, ?_, ?_⟩
      · by_cases hd : d = .x
        · exact Or.inl hd
        · exact Or.inr (h .x (Ne.symm hd))
      · by_cases hd : d = .y
        · exact Or.inl hd
        · exact Or.inr (h .y (Ne.symm hd))
      · by_cases hd : d = .z
        · exact Or.inl hd
        · exact Or.inr (h .z (Ne.symm hd))
    · rintro ⟨h1, h2, h3⟩ d' hd'
      cases d'
      · exact h1.resolve_left (fun e => hd' e.symm)
      · exact h2.resolve_left (fun e => hd' e.symm)
      · exact h3.resolve_left (fun e => hd' e.symm)
  dsimp only
  rw [e]
  cases s <;> simp

theorem two_sides (dom : Bx) (hd : NonEmpty dom) (d : Axis) (s s' : Bool) (c : Cell) (h : OnSide dom (d, s) c) (h' : OnSide dom (d, s') c) :
    s = s' := by
  have := hd d
  cases s <;> cases s'
  · rfl
  · have a := h.2.1 rfl; have b := h'.2.2 rfl; dsimp only at a b; omega
  · have a := h.2.2 rfl; have b := h'.2.1 rfl; dsimp only at a b; omega
  · rfl

/-- A loop over the sides of which only one changes the value. -/
theorem foldl_one_side (g : K → Face → K) (f : Face) (hg : ∀ v f', f' ≠ f → g v f' = v) (v : K) : faces.foldl g v = g v f := by
  have key : ∀ (L : List Face), L.Nodup → ∀ v, L.foldl g v = if f ∈ L then g v f else v := by
    intro L
    induction L with
    | nil => intro _ v; simp
    | cons a L ih =>
      intro nd v
      rw [List.nodup_cons] at nd
      rw [List.foldl_cons, ih nd.2]
      by_cases e : a = f
      · subst e
        rw [if_neg nd.1, if_pos (by simp)]
      · rw [hg v a e]
        have : f ∈ a :: L ↔ f ∈ L := by simp [Ne.symm e]
        simp only [this]
  rw [key faces nodup_faces, if_pos (mem_faces f)]

theorem foldl_no_side (g : K → Face → K) (hg : ∀ v f', g v f' = v) (v : K) : faces.foldl g v = v := by
  rw [foldl_one_side g (.x, false) (fun v f' _ => hg v f')]
  exact hg _ _

theorem setSide_off (dom : Bx) (bc : Face → BC) (inflow : Face → ℕ → Cell → K) (d : Axis) (c : Cell) (v : K) (f : Face)
    (h : ¬(f.1 = d ∧ Given (bc f) ∧ OnSide dom f c)) : setSide dom bc inflow d c v f = v := by
  unfold setSide
  by_cases h1 : bc f ≠ .mass_inflow ∧ bc f ≠ .mass_inflow_outflow ∧ bc f ≠ .wave_generation
  · rw [if_pos h1]
  · rw [if_neg h1]
    by_cases h2 : f.1 ≠ d
    · rw [if_pos h2]
    · rw [if_neg h2]
      have h3 : onBdry dom f c = false := by
        by_contra h3
        rw [Bool.not_eq_false, onBdry_iff] at h3
        refine h ⟨not_not.mp h2, ?_, h3⟩
        unfold Given
        tauto
      rw [if_pos h3]

theorem setSide_on (dom : Bx) (bc : Face → BC) (inflow : Face → ℕ → Cell → K) (c : Cell) (v : K) (f : Face) (h : Given (bc f)) (hs : OnSide dom f c) :
    (bc f = .mass_inflow_outflow ∧ Outward f (inflow f (comp f.1) c) → setSide dom bc inflow f.1 c v f = v) ∧
    (¬(bc f = .mass_inflow_outflow ∧ Outward f (inflow f (comp f.1) c)) → setSide dom bc inflow f.1 c v f = inflow f (comp f.1) c) := by
  have h1 : ¬(bc f ≠ .mass_inflow ∧ bc f ≠ .mass_inflow_outflow ∧ bc f ≠ .wave_generation) := by
    unfold Given at h; tauto
  have h3 : ¬(onBdry dom f c = false) := by rw [Bool.not_eq_false, onBdry_iff]; exact hs
  unfold setSide
  rw [if_neg h1, if_neg (by simp), if_neg h3]
  dsimp only
  rw [Nat.zero_add]
  exact ⟨fun k => if_pos k, fun k => if_neg k⟩

theorem sibling_on (dom : Bx) (hd : NonEmpty dom) (bc : Face → BC) (inflow : Face → ℕ → Cell → K) (b : Bx) (u : Cell → K) (f : Face) (c : Cell)
    (hb : faceBox f.1 b c = true) (hs : OnSide dom f c) : setSibling dom bc inflow f.1 b u c = setSide dom bc inflow f.1 c (u c) f := by
  unfold setSibling
  rw [if_pos hb]
  refine foldl_one_side _ f ?_ _
  intro v f' hf
  refine setSide_off dom bc inflow f.1 c v f' ?_
  rintro ⟨e, -, h'⟩
  apply hf
  obtain ⟨d, s⟩ := f
  obtain ⟨d', s'⟩ := f'
  dsimp only at e
  subst e
  rw [two_sides dom hd d' s s' c hs h']

/-- C119: on a side where a velocity is given, the velocity through every cell face is the given one; only where a side
may let fluid out and the given velocity points outwards is what the solver found kept.

Partial (C119). Missing: sides that let fluid in and out (`inout_enters_unprescribed`) and inflow from files (`abl_leaves_faces`). -/
theorem boundary_faces_partial (dom : Bx) (hd : NonEmpty dom) (bc : Face → BC) (inflow : Face → ℕ → Cell → K) (b : Bx) (u : Cell → K) (f : Face)
    (c : Cell) (hb : FaceOf b f.1 c) (hs : OnSide dom f c) (n : ℕ) (hn : Along f.1 n) :
    (bc f = .mass_inflow ∨ bc f = .wave_generation → setMac none dom bc inflow f.1 b u c = inflow f n c) ∧
    (bc f = .mass_inflow_outflow → ¬Outward f (inflow f n c) → setMac none dom bc inflow f.1 b u c = inflow f n c) ∧
    (bc f = .mass_inflow_outflow → Outward f (inflow f n c) → setMac none dom bc inflow f.1 b u c = u c) ∧
    (¬Given (bc f) → setMac none dom bc inflow f.1 b u c = u c) := by
  replace hb := faceBox_of hb
  subst_vars
  obtain rfl := along hn
  show (_ → setSibling dom bc inflow f.1 b u c = _) ∧ (_ → _ → setSibling dom bc inflow f.1 b u c = _) ∧
    (_ → _ → setSibling dom bc inflow f.1 b u c = _) ∧ (_ → setSibling dom bc inflow f.1 b u c = _)
  rw [sibling_on dom hd bc inflow b u f c hb hs]
  refine ⟨fun h => ?_, fun h k => ?_, fun h k => ?_, fun h => ?_⟩
  · refine (setSide_on dom bc inflow c (u c) f (h.elim Or.inl fun h => Or.inr (Or.inr h)) hs).2 ?_
    rintro ⟨e, -⟩
    rcases h with h | h <;> rw [h] at e <;> simp at e
  · exact (setSide_on dom bc inflow c (u c) f (Or.inr (Or.inl h)) hs).2 fun e => k e.2
  · exact (setSide_on dom bc inflow c (u c) f (Or.inr (Or.inl h)) hs).1 ⟨h, k⟩
  · exact setSide_off dom bc inflow f.1 c (u c) f fun e => h e.2.1

/-- C119: the velocity on no other face is changed, whatever the input. -/
theorem other_faces (abl : Option Abl) (dom : Bx) (bc : Face → BC) (inflow : Face → ℕ → Cell → K) (d : Axis) (b : Bx) (u : Cell → K) (c : Cell)
    (h : ∀ s, ¬OnSide dom (d, s) c) : setMac abl dom bc inflow d b u c = u c := by
  have e : setSibling dom bc inflow d b u c = u c := by
    unfold setSibling
    by_cases hb : faceBox d b c = true
    · rw [if_pos hb]
      refine foldl_no_side _ ?_ _
      intro v f'
      refine setSide_off dom bc inflow d c v f' ?_
      rintro ⟨e, -, h'⟩
      obtain ⟨d', s'⟩ := f'
      dsimp only at e
      subst e
      exact h s' h'
    · rw [if_neg hb]
  unfold setMac
  cases abl with
  | none => exact e
  | some a =>
    dsimp only
    by_cases h1 : a.planesIn = true
    · rw [if_pos h1]
    · rw [if_neg h1]
      by_cases h2 : a.mpl = true
      · rw [if_pos h2]
      · rw [if_neg h2, e]

/-- C119: two grids that share a face of the boundary agree on the velocity through it if they did before. -/
theorem grids_agree (abl : Option Abl) (dom : Bx) (bc : Face → BC) (inflow : Face → ℕ → Cell → K) (d : Axis) (b b' : Bx) (u u' : Cell → K) (c : Cell)
    (hb : FaceOf b d c) (hb' : FaceOf b' d c) (h : u c = u' c) :
    setMac abl dom bc inflow d b u c = setMac abl dom bc inflow d b' u' c := by
  replace hb := faceBox_of hb
  replace hb' := faceBox_of hb'
  have e : setSibling dom bc inflow d b u c = setSibling dom bc inflow d b' u' c := by
    unfold setSibling
    rw [if_pos hb, if_pos hb', h]
  unfold setMac
  cases abl with
  | none => exact e
  | some a =>
    dsimp only
    by_cases h1 : a.planesIn = true
    · rw [if_pos h1, if_pos h1, h]
    · rw [if_neg h1, if_neg h1]
      by_cases h2 : a.mpl = true
      · rw [if_pos h2, if_pos h2, h]
      · rw [if_neg h2, if_neg h2, e]

/-- With inflow from files, or a modulated power law, the velocity on the faces is left as the solver extrapolated it, also on sides that
have nothing to do with either. -/
theorem abl_leaves_faces (a : Abl) (h : a.planesIn = true ∨ a.mpl = true) (dom : Bx) (bc : Face → BC) (inflow : Face → ℕ → Cell → K) (d : Axis)
    (b : Bx) (u : Cell → K) : setMac (some a) dom bc inflow d b u = u := by
  unfold setMac
  dsimp only
  by_cases h1 : a.planesIn = true
  · rw [if_pos h1]
  · rw [if_neg h1, if_pos (h.resolve_left h1)]

/-- Without either, an atmospheric run sets the faces as any other. -/
theorem abl_sets_faces (dom : Bx) (bc : Face → BC) (inflow : Face → ℕ → Cell → K) (d : Axis) (b : Bx) (u : Cell → K) :
    setMac (some ⟨false, false⟩) dom bc inflow d b u = setMac none dom bc inflow d b u := rfl

/-- Counterexample: on a side that lets fluid both in and out fluid can enter with a velocity nobody gave: where the given one points
outwards and the solver's inwards, the solver's stays. -/
theorem inout_enters_unprescribed (dom : Bx) (hd : NonEmpty dom) (bc : Face → BC) (inflow : Face → ℕ → Cell → K) (b : Bx) (u : Cell → K) (f : Face)
    (c : Cell) (hb : FaceOf b f.1 c) (hs : OnSide dom f c) (n : ℕ) (hn : Along f.1 n) (hbc : bc f = .mass_inflow_outflow)
    (ho : Outward f (inflow f n c)) (hu : ¬Outward f (u c) ∧ u c ≠ 0) :
    setMac none dom bc inflow f.1 b u c ≠ inflow f n c ∧ ¬Outward f (setMac none dom bc inflow f.1 b u c) ∧
      setMac none dom bc inflow f.1 b u c ≠ 0 := by
  rw [(boundary_faces_partial dom hd bc inflow b u f c hb hs n hn).2.2.1 hbc ho]
  refine ⟨fun e => hu.1 ?_, hu.1, hu.2⟩
  rw [e]
  exact ho

/-! ## Ghost cells of the nodal projection -/

theorem adj_iff (per : Axis → Bool) (dom : Bx) (f : Face) (hper : per f.1 = false) (c : Cell) :
    adjCells (growPeriodic per 1 dom) 1 f c = true ↔ Beside per dom f c := by
  obtain ⟨d, s⟩ := f
  obtain ⟨⟨lx, ly, lz⟩, hx, hy, hz⟩ := dom
  obtain ⟨i, j, k⟩ := c
  dsimp only at hper
  unfold adjCells Beside inTangent inDir growPeriodic
  have e : (∀ d', d' ≠ d → d'.idx (lx, ly, lz) - (if per d' then 1 else 0) ≤ d'.idx (i, j, k) ∧ d'.idx (i, j, k) ≤ d'.idx (hx, hy, hz) + (if per d' then 1 else 0)) ↔
      (d = .x ∨ (Axis.x.idx (lx, ly, lz) - (if per .x then 1 else 0) ≤ Axis.x.idx (i, j, k) ∧ Axis.x.idx (i, j, k) ≤ Axis.x.idx (hx, hy, hz) + (if per .x then 1 else 0))) ∧
      (d = .y ∨ (Axis.y.idx (lx, ly, lz) - (if per .y then 1 else 0) ≤ Axis.y.idx (i, j, k) ∧ Axis.y.idx (i, j, k) ≤ Axis.y.idx (hx, hy, hz) + (if per .y then 1 else 0))) ∧
      (d = .z ∨ (Axis.z.idx (lx, ly, lz) - (if per .z then 1 else 0) ≤ Axis.z.idx (i, j, k) ∧ Axis.z.idx (i, j, k) ≤ Axis.z.idx (hx, hy, hz) + (if per .z then 1 else 0))) := by
    constructor
    · intro h
      refine ⟨?_, ?_, ?_⟩
      · by_cases hd : d = .x
        · exact Or.inl hd
        · exact Or.inr (h .x (Ne.symm hd))
      · by_cases hd : d = .y
        · exact Or.inl hd
        · exact Or.inr (h .y (Ne.symm hd))
      · by_cases hd : d = .z
        · exact Or.inl hd
        · exact Or.inr (h .z (Ne.symm hd))
    · rintro ⟨h1, h2, h3⟩ d' hd'
      cases d'
      · exact h1.resolve_left (fun e => hd' e.symm)
      · exact h2.resolve_left (fun e => hd' e.symm)
      · exact h3.resolve_left (fun e => hd' e.symm)
  dsimp only
  rw [e]
  cases d <;> cases s <;> simp [Axis.idx, hper] <;> intros <;> omega

theorem beside_two (per : Axis → Bool) (dom : Bx) (hd : NonEmpty dom) (f f' : Face) (hf : per f.1 = false) (hf' : per f'.1 = false) (c : Cell)
    (h : Beside per dom f c) (h' : Beside per dom f' c) : f' = f := by
  obtain ⟨d, s⟩ := f
  obtain ⟨d', s'⟩ := f'
  dsimp only at hf hf'
  by_cases e : d' = d
  · subst e
    have := hd d'
    cases s <;> cases s'
    · rfl
    · have a := h.2.1 rfl; have b := h'.2.2 rfl; dsimp only at a b; omega
    · have a := h.2.2 rfl; have b := h'.2.1 rfl; dsimp only at a b; omega
    · rfl
  · exfalso
    have a := h.1 d' e
    rw [hf'] at a
    simp only [Bool.false_eq_true, if_false, sub_zero, add_zero] at a
    cases s'
    · have b := h'.2.1 rfl; dsimp only at b; omega
    · have b := h'.2.2 rfl; dsimp only at b; omega

/-- The sides on which `set_inflow` does something. -/
def Entry (t : BC) : Prop := t = .mass_inflow ∨ t = .mass_inflow_outflow

/-- C119: for the projection a cell beside a side with a given velocity holds that velocity, in all components. -/
theorem projection_ghosts (per : Axis → Bool) (dom : Bx) (hd : NonEmpty dom) (bc : Face → BC)
    (hper : ∀ f, Entry (bc f) → per f.1 = false) (inflow : Face → ℕ → Cell → K) (m : ℕ) (b : Bx) (u : Cell → K) (f : Face) (c : Cell)
    (hbc : Entry (bc f)) (hb : Near b c) (hs : Beside per dom f c) :
    nodalVel false false per dom bc inflow m b u c = inflow f m c := by
  replace hb := near_of hb
  unfold nodalVel
  rw [if_pos ⟨rfl, rfl⟩]
  unfold setInflow
  rw [foldl_one_side _ f]
  · rw [if_neg (by unfold Entry at hbc; tauto), if_neg]
    rintro (h | h)
    · rw [hb] at h; exact absurd h (by simp)
    · rw [(adj_iff per dom f (hper f hbc) c).mpr hs] at h
      exact absurd h (by simp)
  · intro v f' hf
    by_cases h1 : bc f' ≠ .mass_inflow ∧ bc f' ≠ .mass_inflow_outflow
    · rw [if_pos h1]
    · rw [if_neg h1, if_pos]
      right
      by_contra h2
      rw [Bool.not_eq_false] at h2
      have he : Entry (bc f') := by unfold Entry; tauto
      rw [adj_iff per dom f' (hper f' he) c] at h2
      exact hf (beside_two per dom hd f f' (hper f hbc) (hper f' he) c hs h2)

/-- Beyond the other sides, and beyond the edges and corners of the domain, the projection sees zero, and its own cells are untouched. -/
theorem projection_rest (per : Axis → Bool) (dom : Bx) (bc : Face → BC)
    (hper : ∀ f, Entry (bc f) → per f.1 = false) (inflow : Face → ℕ → Cell → K) (m : ℕ) (b : Bx) (u : Cell → K) (c : Cell)
    (hs : ∀ f, Entry (bc f) → ¬Beside per dom f c) :
    (Within b c → nodalVel false false per dom bc inflow m b u c = u c) ∧ (¬Within b c → nodalVel false false per dom bc inflow m b u c = 0) := by
  suffices e : nodalVel false false per dom bc inflow m b u c = if inBox b c then u c else 0 by
    rw [e]
    exact ⟨fun h => if_pos (inBox_iff.mpr h), fun h => if_neg (mt inBox_iff.mp h)⟩
  unfold nodalVel
  rw [if_pos ⟨rfl, rfl⟩]
  unfold setInflow
  rw [foldl_no_side]
  intro v f'
  by_cases h1 : bc f' ≠ .mass_inflow ∧ bc f' ≠ .mass_inflow_outflow
  · rw [if_pos h1]
  · rw [if_neg h1, if_pos]
    right
    by_contra h2
    rw [Bool.not_eq_false] at h2
    have he : Entry (bc f') := by unfold Entry; tauto
    rw [adj_iff per dom f' (hper f' he) c] at h2
    exact hs f' he h2

/-- A projection of a change of velocity (incremental, or for a small step) has no flow through any side. -/
theorem projection_increment (small incremental : Bool) (h : small = true ∨ incremental = true) (per : Axis → Bool) (dom : Bx) (bc : Face → BC)
    (inflow : Face → ℕ → Cell → K) (m : ℕ) (b : Bx) (u : Cell → K) (c : Cell) :
    (Within b c → nodalVel small incremental per dom bc inflow m b u c = u c) ∧ (¬Within b c → nodalVel small incremental per dom bc inflow m b u c = 0) := by
  suffices e : nodalVel small incremental per dom bc inflow m b u c = if inBox b c then u c else 0 by
    rw [e]
    exact ⟨fun h => if_pos (inBox_iff.mpr h), fun h => if_neg (mt inBox_iff.mp h)⟩
  unfold nodalVel
  rw [if_neg]
  rintro ⟨h1, h2⟩
  rcases h with h | h <;> simp_all

/-! ## A case -/

/-- A domain of 4 cells in each direction. -/
def exDom : Bx := ⟨(0, 0, 0), (3, 3, 3)⟩

/-- Inflow at low x, both ways at high x, walls elsewhere. -/
def exBC : Face → BC
  | (.x, false) => .mass_inflow
  | (.x, true) => .mass_inflow_outflow
  | _ => .slip_wall

/-- 10 in x, 1 in y. -/
def exInflow : Face → ℕ → Cell → ℚ := fun _ n _ => if n = 0 then 10 else 1

theorem ex_nonEmpty : NonEmpty exDom := by intro d; cases d <;> decide

example : setMac none exDom exBC exInflow .x exDom (fun _ => -3) (0, 1, 2) = 10 ∧
    setMac none exDom exBC exInflow .x exDom (fun _ => -3) (4, 1, 2) = -3 ∧
    setMac none exDom exBC exInflow .x exDom (fun _ => -3) (2, 1, 2) = -3 ∧
    setMac none exDom exBC exInflow .y exDom (fun _ => -3) (0, 0, 2) = -3 := by decide +kernel

example : FaceOf exDom .x (0, 1, 2) ∧ Along .x 0 ∧ Near exDom (-1, 0, 3) ∧ OnSide exDom (.x, false) (0, 1, 2) ∧ OnSide exDom (.x, true) (4, 1, 2) := by
  refine ⟨fun d => by cases d <;> decide, Or.inl ⟨rfl, rfl⟩, fun d => by cases d <;> decide, ?_, ?_⟩ <;> rw [← onBdry_iff] <;> decide

example : nodalVel false false (fun _ => false) exDom exBC exInflow 1 exDom (fun _ => 5) (-1, 0, 3) = 1 ∧
    nodalVel false false (fun _ => false) exDom exBC exInflow 1 exDom (fun _ => 5) (-1, -1, 3) = 0 ∧
    nodalVel false false (fun _ => false) exDom exBC exInflow 1 exDom (fun _ => 5) (0, 0, 3) = 5 ∧
    nodalVel false true (fun _ => false) exDom exBC exInflow 1 exDom (fun _ => 5) (-1, 0, 3) = 0 := by decide +kernel

end AmrWind.Inflow
