import Verif.Waves.BdyModel
import Verif.Config.BCLemmas
import Verif.Mix.Model
import Mathlib.Tactic.Linarith
import Mathlib.Tactic.FieldSimp
import Mathlib.Tactic.Ring
import Mathlib.Tactic.NormNum

/-!
# C115: wave boundaries

Specification: `Outside`, `Env.Ok`, `Blanked`; the mixture density is `Mix.mixDensity`.
-/

set_option linter.unusedSectionVars false

namespace AmrWind.Wbc

open Plane Config

section
variable {K : Type*} [Field K] [LinearOrder K] [IsStrictOrderedRing K]

/-! ## Specification -/

/-- The cell lies just outside face `o` of the domain: one layer beyond it, and beside it inside the domain (or in the
periodic images next to it). -/
def Outside (e : Env K) (o : Face) (iv : Idx) : Prop :=
  iv o.1 = (if o.2 then e.domHi o.1 + 1 else e.domLo o.1 - 1) ∧
  ∀ d, d ≠ o.1 → e.domLo d - bit (e.per d) ≤ iv d ∧ iv d ≤ e.domHi d + bit (e.per d)

/-- A set up that boundary types allow (C44): the domain has cells, and faces in periodic directions are periodic. -/
structure Env.Ok (e : Env K) : Prop where
  dom : ∀ d, e.domLo d ≤ e.domHi d
  per : ∀ o, waveFace (e.bc o) = true → e.per o.1 = false

/-- The cell of the domain next to `iv` through face `o` is blanked by terrain. -/
def Blanked (e : Env K) (o : Face) (iv : Idx) : Prop := ∃ b, e.blank = some b ∧ b (fun d => iv d + inward o d) = 1

/-! ## Lemmas -/

theorem foldl_one {β : Type*} (F : (Idx → β) → Face → Idx → β) (iv : Idx) (o : Face)
    (h : ∀ g, g ≠ o → ∀ arr, F arr g iv = arr iv) (hl : ∀ a a', a iv = a' iv → F a o iv = F a' o iv) (arr : Idx → β) :
    faces.foldl F arr iv = F arr o iv := by
  have gen : ∀ (L : List Face) (arr : Idx → β), L.Nodup →
      L.foldl F arr iv = if o ∈ L then F arr o iv else arr iv := by
    intro L
    induction L with
    | nil => intro arr _; simp
    | cons g L ih =>
      intro arr nd
      rw [List.nodup_cons] at nd
      rw [List.foldl_cons, ih _ nd.2]
      by_cases hg : g = o
      · subst hg
        rw [if_neg nd.1, if_pos List.mem_cons_self]
      · by_cases hm : o ∈ L
        · rw [if_pos hm, if_pos (List.mem_cons_of_mem _ hm)]
          exact hl _ _ (h g hg arr)
        · rw [if_neg hm, if_neg (by simp [hm, Ne.symm hg])]
          exact h g hg arr
  rw [gen faces arr nodup_faces, if_pos (mem_faces o)]

theorem foldl_none {β : Type*} (F : (Idx → β) → Face → Idx → β) (iv : Idx)
    (h : ∀ g arr, F arr g iv = arr iv) (L : List Face) (arr : Idx → β) : L.foldl F arr iv = arr iv := by
  induction L generalizing arr with
  | nil => rfl
  | cons g L ih => rw [List.foldl_cons, ih, h]

theorem bit_nonneg (b : Bool) : 0 ≤ bit b := by cases b <;> simp [bit]

/-- Cell-centred arrays. -/
theorem has_cell (e : Env K) (vbx : Box) (hl : ∀ d, vbx.loc d = false) (o : Face) (ho : e.per o.1 = false) (iv : Idx) :
    (faceAware vbx.grow (adjCell (growPeriodic e.domLo e.domHi e.per) o) o).1.Has iv ↔
      vbx.grow.Has iv ∧ Outside e o iv := by
  have hg : vbx.grow.loc o.1 = false := hl o.1
  unfold faceAware
  simp only [hg, Bool.false_eq_true, and_false, if_false]
  unfold Box.Has Box.inter Box.enclosed adjCell growPeriodic Outside
  have hb : ∀ d, bit (vbx.grow.loc d) = 0 := fun d => by rw [show vbx.grow.loc d = false from hl d]; rfl
  have h0 : bit (e.per o.1) = 0 := by rw [ho]; rfl
  simp only [hb, sub_zero]
  constructor
  · intro h
    refine ⟨fun d => ⟨(le_max_left _ _).trans (h d).1, (h d).2.trans (min_le_left _ _)⟩, ?_, ?_⟩
    · have h1 := (le_max_right _ _).trans (h o.1).1
      have h2 := (h o.1).2.trans (min_le_right _ _)
      simp only [if_true, h0, add_zero, sub_zero] at h1 h2
      split_ifs at h1 h2 ⊢ <;> omega
    · intro d hd
      have h1 := (le_max_right _ _).trans (h d).1
      have h2 := (h d).2.trans (min_le_right _ _)
      simp only [if_neg hd] at h1 h2
      exact ⟨h1, h2⟩
  · rintro ⟨h1, h2, h3⟩ d
    by_cases hd : d = o.1
    · subst hd
      simp only [if_true, h0, add_zero, sub_zero]
      rw [h2]
      refine ⟨max_le (by rw [← h2]; exact (h1 _).1) le_rfl, le_min (by rw [← h2]; exact (h1 _).2) le_rfl⟩
    · simp only [if_neg hd]
      exact ⟨max_le (h1 d).1 (h3 d hd).1, le_min (h1 d).2 (h3 d hd).2⟩

theorem outside_unique (e : Env K) (h : e.Ok) {o g : Face} (hg : waveFace (e.bc g) = true)
    (ho : waveFace (e.bc o) = true) {iv : Idx} (h1 : Outside e o iv) (h2 : Outside e g iv) : g = o := by
  have p1 := h.per o ho
  have p2 := h.per g hg
  obtain ⟨a1, a2⟩ := h1
  obtain ⟨b1, b2⟩ := h2
  by_cases hd : g.1 = o.1
  · obtain ⟨gd, gs⟩ := g
    obtain ⟨od, os⟩ := o
    simp only at hd
    subst hd
    have := h.dom gd
    simp only at a1 b1
    rw [a1] at b1
    cases gs <;> cases os <;> simp at b1 ⊢ <;> omega
  · have := b2 o.1 (Ne.symm hd)
    rw [p1] at this
    simp only [bit, Bool.false_eq_true, if_false, add_zero, sub_zero] at this
    exfalso
    split_ifs at a1 <;> omega

theorem blank_any (e : Env K) (o : Face) (iv : Idx) :
    e.blank.any (fun b => decide (b (fun d => iv d + inward o d) = 1)) = true ↔ Blanked e o iv := by
  unfold Blanked
  cases e.blank <;> simp

/-! ## Ghost cells -/

/-- **C115** Velocity. In every ghost cell just outside a face the waves come through, the velocity is that of the
wave where there is water, the one given before (the wind) where there is none, and zero next to terrain. No other
value of the array changes. -/
theorem velocity_ghosts (e : Env K) (h : e.Ok) (ha : e.active = true) (vbx : Box) (hl : ∀ d, vbx.loc d = false)
    (base : Idx → ℕ → K) :
    (∀ o iv c, waveFace (e.bc o) = true → Outside e o iv → vbx.grow.Has iv → c < 3 →
      (Blanked e o iv → fillVelocity e vbx base iv c = 0) ∧
      (¬ Blanked e o iv → e.tol < e.owVof iv → fillVelocity e vbx base iv c = e.owVel iv c) ∧
      (¬ Blanked e o iv → e.owVof iv ≤ e.tol → fillVelocity e vbx base iv c = base iv c)) ∧
    ∀ iv c, (3 ≤ c ∨ ¬ vbx.grow.Has iv ∨ ∀ o, waveFace (e.bc o) = true → ¬ Outside e o iv) →
      fillVelocity e vbx base iv c = base iv c := by
  unfold fillVelocity setVelocity
  rw [if_pos ha]
  constructor
  · intro o iv c ho hout hv hc
    have step : faces.foldl (velFace e vbx 3 0 0) base iv = velFace e vbx 3 0 0 base o iv := by
      refine foldl_one (velFace e vbx 3 0 0) iv o ?_ ?_ base
      · intro g hg arr
        unfold velFace
        by_cases hw : waveFace (e.bc g) = false
        · rw [if_pos hw]
        · rw [if_neg hw]
          funext c
          have hw' : waveFace (e.bc g) = true := by simpa using hw
          have : ¬ Outside e g iv := fun hgo => hg (outside_unique e h hw' ho hout hgo)
          rw [if_neg]
          rintro ⟨hh, _⟩
          exact this ((has_cell e vbx hl g (h.per g hw') iv).1 hh).2
      · intro a a' haa
        funext c
        unfold velFace
        split_ifs with hw
        · rw [haa]
        · dsimp only
          rw [haa]
    rw [step]
    unfold velFace
    rw [if_neg (by simp [ho])]
    rw [if_pos ⟨(has_cell e vbx hl o (h.per o ho) iv).2 ⟨hv, hout⟩, by omega, by omega⟩]
    have sh : (faceAware vbx.grow (adjCell (growPeriodic e.domLo e.domHi e.per) o) o).2 = fun _ => 0 := by
      unfold faceAware
      rw [if_neg]
      rintro ⟨_, hh⟩
      have : vbx.grow.loc o.1 = false := hl o.1
      rw [this] at hh; simp at hh
    simp only [sh, add_zero, Nat.sub_zero, zero_add]
    refine ⟨fun hb => ?_, fun hb ht => ?_, fun hb ht => ?_⟩
    · rw [if_pos ((blank_any e o iv).2 hb)]
    · rw [if_neg fun hx => hb ((blank_any e o iv).1 hx), if_pos ht]
    · rw [if_neg fun hx => hb ((blank_any e o iv).1 hx), if_neg (not_lt.2 ht)]
  · intro iv c hcond
    have : ∀ g (arr : Idx → ℕ → K), velFace e vbx 3 0 0 arr g iv c = arr iv c := by
      intro g arr
      unfold velFace
      by_cases hw : waveFace (e.bc g) = false
      · rw [if_pos hw]
      · rw [if_neg hw]
        have hw' : waveFace (e.bc g) = true := by simpa using hw
        rw [if_neg]
        rintro ⟨hh, h1, h2⟩
        have hh := (has_cell e vbx hl g (h.per g hw') iv).1 hh
        rcases hcond with h3 | h3 | h3
        · omega
        · exact h3 hh.1
        · exact h3 g hw' hh.2
    have gen : ∀ (L : List Face) (arr : Idx → ℕ → K), L.foldl (velFace e vbx 3 0 0) arr iv c = arr iv c := by
      intro L
      induction L with
      | nil => intro arr; rfl
      | cons g L ih => intro arr; rw [List.foldl_cons, ih, this]
    exact gen faces base

theorem scal_ghosts (e : Env K) (h : e.Ok) (vbx : Box) (hl : ∀ d, vbx.loc d = false) (f : K → K → K) (base : Idx → K) :
    (∀ o iv, waveFace (e.bc o) = true → Outside e o iv → vbx.grow.Has iv →
      faces.foldl (scalFace e vbx f) base iv = f (e.owVof iv) (base iv)) ∧
    ∀ iv, (¬ vbx.grow.Has iv ∨ ∀ o, waveFace (e.bc o) = true → ¬ Outside e o iv) →
      faces.foldl (scalFace e vbx f) base iv = base iv := by
  constructor
  · intro o iv ho hout hv
    have step : faces.foldl (scalFace e vbx f) base iv = scalFace e vbx f base o iv := by
      refine foldl_one (scalFace e vbx f) iv o ?_ ?_ base
      · intro g hg arr
        unfold scalFace
        by_cases hw : waveFace (e.bc g) = false
        · rw [if_pos hw]
        · rw [if_neg hw]
          have hw' : waveFace (e.bc g) = true := by simpa using hw
          have : ¬ Outside e g iv := fun hgo => hg (outside_unique e h hw' ho hout hgo)
          rw [if_neg]
          intro hh
          exact this ((has_cell e vbx hl g (h.per g hw') iv).1 hh).2
      · intro a a' haa
        unfold scalFace
        split_ifs with hw
        · exact haa
        · dsimp only
          rw [haa]
    rw [step]
    unfold scalFace
    rw [if_neg (by simp [ho])]
    rw [if_pos ((has_cell e vbx hl o (h.per o ho) iv).2 ⟨hv, hout⟩)]
  · intro iv hcond
    refine foldl_none _ iv ?_ faces base
    intro g arr
    unfold scalFace
    by_cases hw : waveFace (e.bc g) = false
    · rw [if_pos hw]
    · rw [if_neg hw]
      have hw' : waveFace (e.bc g) = true := by simpa using hw
      rw [if_neg]
      intro hh
      have hh := (has_cell e vbx hl g (h.per g hw') iv).1 hh
      rcases hcond with h3 | h3
      · exact h3 hh.1
      · exact h3 g hw' hh.2

/-- **C115** Volume fraction: in every ghost cell just outside a face the waves come through it is that of the wave,
and nothing else changes. -/
theorem vof_ghosts (e : Env K) (h : e.Ok) (ha : e.active = true) (vbx : Box) (hl : ∀ d, vbx.loc d = false)
    (base : Idx → K) :
    (∀ o iv, waveFace (e.bc o) = true → Outside e o iv → vbx.grow.Has iv → setVof e vbx base iv = e.owVof iv) ∧
    ∀ iv, (¬ vbx.grow.Has iv ∨ ∀ o, waveFace (e.bc o) = true → ¬ Outside e o iv) → setVof e vbx base iv = base iv := by
  unfold setVof
  rw [if_pos ha]
  exact scal_ghosts e h vbx hl _ base

/-- **C115** Density: there it is the mixture of liquid and of the density given for the face, so it is the mixture
density of that cell exactly if the face was given the density of the gas (or there is no gas in the cell). Nothing
else changes.

Partial (C115). Missing: the advecting velocity, which gets the wave half a step late (`mac_half_step_late`). -/
theorem density_ghosts_partial (e : Env K) (h : e.Ok) (ha : e.active = true) (hr : 0 ≤ e.rho1) (vbx : Box)
    (hl : ∀ d, vbx.loc d = false) (base : Idx → K) :
    (∀ o iv, waveFace (e.bc o) = true → Outside e o iv → vbx.grow.Has iv →
      setDensity e vbx base iv = Mix.mixDensity e.rho1 (base iv) (e.owVof iv) ∧
      ∀ rho2, (setDensity e vbx base iv = Mix.mixDensity e.rho1 rho2 (e.owVof iv) ↔ base iv = rho2 ∨ e.owVof iv = 1)) ∧
    ∀ iv, (¬ vbx.grow.Has iv ∨ ∀ o, waveFace (e.bc o) = true → ¬ Outside e o iv) →
      setDensity e vbx base iv = base iv := by
  unfold setDensity
  rw [if_neg (by simp [ha, hr])]
  obtain ⟨s1, s2⟩ := scal_ghosts e h vbx hl (fun t v => t * e.rho1 + (1 - t) * v) base
  refine ⟨fun o iv ho hout hv => ?_, s2⟩
  rw [s1 o iv ho hout hv]
  refine ⟨by unfold Mix.mixDensity; ring, fun rho2 => ?_⟩
  unfold Mix.mixDensity
  constructor
  · intro hh
    have : (1 - e.owVof iv) * (base iv - rho2) = 0 := by linear_combination hh
    rcases mul_eq_zero.1 this with h1 | h1
    · exact Or.inr (by linarith)
    · exact Or.inl (by linarith)
  · rintro (hh | hh)
    · rw [hh]; ring
    · rw [hh]; ring

/-- **C115** With recorded inflow planes the waves change nothing. -/
theorem inactive (e : Env K) (ha : e.active = false) (vbx : Box) (nc dcomp orig : ℕ) (a : Idx → ℕ → K) (s : Idx → K)
    (d : Axis) : setVelocity e vbx nc dcomp orig a = a ∧ setVof e vbx s = s ∧ setDensity e vbx s = s ∧
      setSibling e vbx d s = s := by
  unfold setVelocity setVof setDensity setSibling
  simp [ha]

/-- **C115** Without two phases (no density of a liquid) the density is left alone. -/
theorem density_single_phase (e : Env K) (hr : e.rho1 < 0) (vbx : Box) (s : Idx → K) : setDensity e vbx s = s := by
  unfold setDensity
  rw [if_pos (Or.inr hr)]

/-! ## The advecting velocity -/

/-- **C115** On the boundary itself, every valid face gets the wave velocity of the ghost cell just outside it where
there is water there, zero next to terrain, and keeps its value otherwise; faces elsewhere keep theirs. -/
theorem mac_faces (e : Env K) (h : e.Ok) (ha : e.active = true) (vbx : Box) (m : Axis) (arr : Idx → K) :
    (∀ s iv cell, waveFace (e.bc (m, s)) = true → vbx.Has iv →
      iv m = (if s then e.domHi m + 1 else e.domLo m) → (∀ d, d ≠ m → e.domLo d ≤ iv d ∧ iv d ≤ e.domHi d) →
      Outside e (m, s) cell → (∀ d, d ≠ m → cell d = iv d) →
      (Blanked e (m, s) cell → setSibling e vbx m arr iv = 0) ∧
      (¬ Blanked e (m, s) cell → e.tol < e.owVof cell → setSibling e vbx m arr iv = e.owVel cell (normalComp m)) ∧
      (¬ Blanked e (m, s) cell → e.owVof cell ≤ e.tol → setSibling e vbx m arr iv = arr iv)) ∧
    ∀ iv, iv m ≠ e.domLo m → iv m ≠ e.domHi m + 1 → setSibling e vbx m arr iv = arr iv := by
  unfold setSibling
  rw [if_pos ha]
  constructor
  · intro s iv cell hw hv hm hin hout hcell
    have step : faces.foldl (siblingFace e vbx m) arr iv = siblingFace e vbx m arr (m, s) iv := by
      refine foldl_one (siblingFace e vbx m) iv (m, s) ?_ ?_ arr
      · intro g hg a
        unfold siblingFace
        by_cases hc : waveFace (e.bc g) = false ∨ g.1 ≠ m
        · rw [if_pos hc]
        · rw [if_neg hc]
          push Not at hc
          dsimp only
          rw [if_neg]
          rintro ⟨_, h2, _⟩
          obtain ⟨gd, gs⟩ := g
          obtain ⟨_, rfl⟩ := hc
          have := h.dom gd
          dsimp only at h2 hm
          rw [hm] at h2
          apply hg
          cases gs <;> cases s <;> simp at h2 ⊢ <;> omega
      · intro a a' haa
        unfold siblingFace
        by_cases hc : waveFace (e.bc (m, s)) = false ∨ m ≠ m
        · rw [if_pos hc, if_pos hc]; exact haa
        · rw [if_neg hc, if_neg hc]
          dsimp only
          rw [haa]
    rw [step]
    unfold siblingFace
    rw [if_neg (by simp [hw])]
    dsimp only
    rw [if_pos ⟨hv, hm, hin⟩]
    have hcc : (fun d => iv d + (if d = m ∧ s = false then (-1 : ℤ) else 0)) = cell := by
      funext d
      by_cases hd : d = m
      · subst hd
        have := hout.1
        dsimp only at this
        rw [this, hm]
        cases s <;> simp <;> omega
      · simp [hd, hcell d hd]
    have hcc' : ∀ d, iv d + (if d = m ∧ s = false then (-1 : ℤ) else 0) = cell d := fun d => congrFun hcc d
    simp only [hcc, hcc']
    refine ⟨fun hb => ?_, fun hb ht => ?_, fun hb ht => ?_⟩
    · rw [if_pos ((blank_any e _ cell).2 hb)]
    · rw [if_neg fun hx => hb ((blank_any e _ cell).1 hx), if_pos ht]
    · rw [if_neg fun hx => hb ((blank_any e _ cell).1 hx), if_neg (not_lt.2 ht)]
  · intro iv h1 h2
    refine foldl_none _ iv ?_ faces arr
    intro g a
    unfold siblingFace
    by_cases hc : waveFace (e.bc g) = false ∨ g.1 ≠ m
    · rw [if_pos hc]
    · rw [if_neg hc]
      dsimp only
      rw [if_neg]
      rintro ⟨_, h3, _⟩
      cases hs : g.2 <;> rw [hs] at h3 <;> simp at h3
      · exact h1 h3
      · exact h2 h3

/-- Face-centred boxes of direction `m`. -/
theorem has_mac (e : Env K) (vbx : Box) (m : Axis) (hl : ∀ d, vbx.loc d = decide (d = m)) (o : Face)
    (ho : e.per o.1 = false) (iv : Idx)
    (hh : (faceAware vbx.grow (adjCell (growPeriodic e.domLo e.domHi e.per) o) o).1.Has iv) :
    (o.1 ≠ m → iv m ≤ e.domHi m + bit (e.per m)) ∧
    (o.1 = m → iv m = if o.2 then e.domHi m + 2 else e.domLo m - 1) := by
  have h0 : bit (e.per o.1) = 0 := by rw [ho]; rfl
  constructor
  · intro hd
    have hm := (hh m).2
    unfold faceAware at hm
    rw [if_neg] at hm
    · have := hm.trans (min_le_right _ _)
      unfold adjCell growPeriodic at this
      simpa [Ne.symm hd] using this
    · rintro ⟨_, h2⟩
      rw [show vbx.grow.loc o.1 = decide (o.1 = m) from hl o.1] at h2
      exact hd (by simpa using h2)
  · intro hd
    obtain ⟨od, os⟩ := o
    dsimp only at hd ho h0
    subst hd
    have hlm : vbx.grow.loc od = true := by rw [show vbx.grow.loc od = decide (od = od) from hl od]; simp
    cases os
    · have h1 := (hh od).1
      have h2 := (hh od).2
      unfold faceAware at h1 h2
      rw [if_neg (by simp)] at h1 h2
      have h1 := (le_max_right _ _).trans h1
      have h2 := h2.trans (min_le_right _ _)
      simp [adjCell, growPeriodic, h0] at h1 h2 ⊢
      omega
    · have h1 := (hh od).1
      have h2 := (hh od).2
      unfold faceAware at h1 h2
      rw [if_pos ⟨rfl, hlm⟩] at h1 h2
      dsimp only [Box.inter] at h1 h2
      have h1 := (add_le_add_left (le_max_right _ _) _).trans h1
      have h2 := h2.trans (add_le_add_left (min_le_right _ _) _)
      have hv : vbx.grow.locVec od = 1 := by unfold Box.locVec; rw [hlm]; rfl
      simp [adjCell, growPeriodic, h0, hv] at h1 h2 ⊢
      omega

/-- The cell of the domain next to face `o` in line with `iv`. -/
def firstCell (e : Env K) (o : Face) (iv : Idx) : Idx := fun d => if d = o.1 then (if o.2 then e.domHi d else e.domLo d) else iv d

/-- For a ghost cell just outside a face, the cell looked at for terrain is the cell of the domain next to it. -/
theorem blanked_iff (e : Env K) (o : Face) (iv : Idx) (ho : Outside e o iv) :
    Blanked e o iv ↔ ∃ b, e.blank = some b ∧ b (firstCell e o iv) = 1 := by
  have hc : (fun d => iv d + inward o d) = firstCell e o iv := by
    funext d
    obtain ⟨m, s⟩ := o
    have h1 := ho.1
    unfold inward firstCell
    dsimp only at h1 ⊢
    by_cases hd : d = m
    · subst hd; cases s <;> simp at h1 ⊢ <;> omega
    · simp [hd]
  unfold Blanked
  rw [hc]

open Classical in
theorem mac_ghost_value (e : Env K) (h : e.Ok) (ha : e.active = true) (vbx : Box) (m : Axis)
    (hl : ∀ d, vbx.loc d = decide (d = m)) (arr : Idx → ℕ → K) (n : ℕ) (s : Bool) (iv : Idx)
    (hw : waveFace (e.bc (m, s)) = true) (him : iv m = if s then e.domHi m + 2 else e.domLo m - 1)
    (hin : ∀ d, d ≠ m → e.domLo d ≤ iv d ∧ iv d ≤ e.domHi d) (hv : ∀ d, d ≠ m → vbx.lo d - 1 ≤ iv d ∧ iv d ≤ vbx.hi d + 1)
    (hvm : vbx.lo m ≤ vbx.hi m) (hvs : if s then vbx.hi m = e.domHi m + 1 else vbx.lo m = e.domLo m) :
    setVelocity e vbx 1 0 n arr iv 0 = if ∃ b, e.blank = some b ∧ b (firstCell e (m, s) iv) = 1 then 0
      else if e.tol < e.owVof iv then e.owVel iv n else arr iv 0 := by
  have hper := h.per _ hw
  have h0 : bit (e.per m) = 0 := by rw [show e.per m = false from hper]; rfl
  have hdom := h.dom m
  · unfold setVelocity
    rw [if_pos ha]
    have step : faces.foldl (velFace e vbx 1 0 n) arr iv = velFace e vbx 1 0 n arr (m, s) iv := by
      refine foldl_one (velFace e vbx 1 0 n) iv (m, s) ?_ ?_ arr
      · intro g hg a
        unfold velFace
        by_cases hw' : waveFace (e.bc g) = false
        · rw [if_pos hw']
        · rw [if_neg hw']
          have hw'' : waveFace (e.bc g) = true := by simpa using hw'
          funext c
          rw [if_neg]
          rintro ⟨hh, _⟩
          have k := has_mac e vbx m hl g (h.per g hw'') iv hh
          by_cases hd : g.1 = m
          · have k2 := k.2 hd
            obtain ⟨gd, gs⟩ := g
            dsimp only at hd
            subst hd
            rw [him] at k2
            apply hg
            cases gs <;> cases s <;> simp at k2 ⊢ <;> omega
          · have k1 := (hh g.1)
            -- beside the face the other faces lie outside the domain
            have k3 := h.per g hw''
            have hgl : vbx.grow.loc g.1 = false := by
              rw [show vbx.grow.loc g.1 = decide (g.1 = m) from hl g.1]; simp [hd]
            unfold faceAware at k1
            rw [if_neg (by simp [hgl])] at k1
            have k4 := (le_max_right _ _).trans k1.1
            have k5 := k1.2.trans (min_le_right _ _)
            have hz : bit (e.per g.1) = 0 := by rw [k3]; rfl
            have hi := hin g.1 hd
            unfold adjCell growPeriodic at k4 k5
            simp only [if_true, hz, add_zero, sub_zero] at k4 k5
            split_ifs at k4 k5 <;> omega
      · intro a a' haa
        funext c
        unfold velFace
        split_ifs with hw'
        · rw [haa]
        · dsimp only
          rw [haa]
    rw [step]
    unfold velFace
    rw [if_neg (by simp [hw])]
    have hcell : (fun d => iv d + (faceAware vbx.grow (adjCell (growPeriodic e.domLo e.domHi e.per) (m, s)) (m, s)).2 d + inward (m, s) d) =
        firstCell e (m, s) iv := by
      funext d
      unfold faceAware firstCell inward
      have hloc : ∀ d, vbx.grow.loc d = decide (d = m) := hl
      by_cases hd : d = m
      · subst hd
        cases s
        · simp at him ⊢; omega
        · simp [hloc, Box.locVec, bit] at him ⊢; omega
      · cases s <;> simp [hloc, Box.locVec, bit, hd]
    rw [if_pos, hcell, Nat.sub_self, add_zero]
    · refine if_congr ?_ rfl rfl
      cases e.blank <;> simp
    · refine ⟨?_, by omega, by omega⟩
      intro d
      unfold faceAware
      by_cases hs : s = true
      · subst hs
        rw [if_pos ⟨rfl, by rw [show vbx.grow.loc m = decide (m = m) from hl m]; simp⟩]
        dsimp only [Box.inter, Box.enclosed, Box.grow, adjCell, growPeriodic, Box.locVec]
        rw [hl d]
        by_cases hd : d = m
        · subst hd
          simp only [if_true, h0, add_zero] at him ⊢
          simp only [decide_true, bit, if_true]
          simp only [if_true] at hvs
          rw [him]
          omega
        · have := hin d hd
          have hvd := hv d hd
          have hbn := bit_nonneg (e.per d)
          simp only [hd, if_false, decide_false, bit, Bool.false_eq_true, add_zero, sub_zero] at hbn ⊢
          exact ⟨max_le hvd.1 (by split_ifs <;> omega), le_min (by omega) (by split_ifs <;> omega)⟩
      · have hs' : s = false := by simpa using hs
        subst hs'
        rw [if_neg (by simp)]
        dsimp only [Box.inter, Box.enclosed, Box.grow, adjCell, growPeriodic]
        rw [hl d]
        by_cases hd : d = m
        · subst hd
          simp only [if_true, h0, sub_zero, Bool.false_eq_true, if_false] at him ⊢
          simp only [decide_true, bit, if_true]
          simp only [Bool.false_eq_true, if_false] at hvs
          rw [him]
          omega
        · have := hin d hd
          have hvd := hv d hd
          simp only [hd, if_false, decide_false, bit, Bool.false_eq_true, sub_zero]
          exact ⟨max_le hvd.1 (by split_ifs <;> omega), le_min (by omega) (by split_ifs <;> omega)⟩

/-- **C115, not as stated** The ghost faces beyond a face of the domain take the wave at the index of the face: below
the domain that is the ghost cell just outside, but above it is the cell one further out. -/
theorem mac_high_reads_second_ghost (e : Env K) (h : e.Ok) (ha : e.active = true) (vbx : Box) (m : Axis)
    (hl : ∀ d, vbx.loc d = decide (d = m)) (arr : Idx → ℕ → K) (n : ℕ) (s : Bool) (iv : Idx)
    (hw : waveFace (e.bc (m, s)) = true) (him : iv m = if s then e.domHi m + 2 else e.domLo m - 1)
    (hin : ∀ d, d ≠ m → e.domLo d ≤ iv d ∧ iv d ≤ e.domHi d) (hv : ∀ d, d ≠ m → vbx.lo d - 1 ≤ iv d ∧ iv d ≤ vbx.hi d + 1)
    (hvm : vbx.lo m ≤ vbx.hi m) (hvs : if s then vbx.hi m = e.domHi m + 1 else vbx.lo m = e.domLo m)
    (hb : ∀ b, e.blank = some b → b (firstCell e (m, s) iv) ≠ 1) (ht : e.tol < e.owVof iv) :
    setVelocity e vbx 1 0 n arr iv 0 = e.owVel iv n ∧ (Outside e (m, s) iv ↔ s = false) := by
  have hmac := mac_ghost_value e h ha vbx m hl arr n s iv hw him hin hv hvm hvs
  refine ⟨?_, ?_⟩
  · rw [hmac, if_neg, if_pos ht]
    rintro ⟨b, h1, h2⟩
    exact hb b h1 h2
  · unfold Outside
    dsimp only
    rw [him]
    cases s
    · simp only [Bool.false_eq_true, if_false, true_and, iff_true]
      intro d hd
      have := hin d hd
      have := bit_nonneg (e.per d)
      omega
    · simp

/-- **C115** Next to terrain the ghost faces are zero. -/
theorem mac_ghost_terrain (e : Env K) (h : e.Ok) (ha : e.active = true) (vbx : Box) (m : Axis)
    (hl : ∀ d, vbx.loc d = decide (d = m)) (arr : Idx → ℕ → K) (n : ℕ) (s : Bool) (iv : Idx)
    (hw : waveFace (e.bc (m, s)) = true) (him : iv m = if s then e.domHi m + 2 else e.domLo m - 1)
    (hin : ∀ d, d ≠ m → e.domLo d ≤ iv d ∧ iv d ≤ e.domHi d) (hv : ∀ d, d ≠ m → vbx.lo d - 1 ≤ iv d ∧ iv d ≤ vbx.hi d + 1)
    (hvm : vbx.lo m ≤ vbx.hi m) (hvs : if s then vbx.hi m = e.domHi m + 1 else vbx.lo m = e.domLo m) (b : Idx → ℤ)
    (hb : e.blank = some b) (h1 : b (firstCell e (m, s) iv) = 1) : setVelocity e vbx 1 0 n arr iv 0 = 0 := by
  rw [mac_ghost_value e h ha vbx m hl arr n s iv hw him hin hv hvm hvs, if_pos ⟨b, hb, h1⟩]


/-- **C115, not as stated** Of the ghost faces beside the domain, those in line with the last face of the domain get no
wave, whatever the boundary types (unless the direction is periodic). -/
theorem mac_last_tangential_unset (e : Env K) (h : e.Ok) (vbx : Box) (m : Axis)
    (hl : ∀ d, vbx.loc d = decide (d = m)) (hp : e.per m = false) (arr : Idx → ℕ → K) (nc dcomp orig : ℕ) (iv : Idx)
    (him : iv m = e.domHi m + 1) : setVelocity e vbx nc dcomp orig arr iv = arr iv := by
  unfold setVelocity
  split_ifs
  · refine foldl_none _ iv ?_ faces arr
    intro g a
    unfold velFace
    by_cases hw : waveFace (e.bc g) = false
    · rw [if_pos hw]
    · rw [if_neg hw]
      have hw' : waveFace (e.bc g) = true := by simpa using hw
      funext c
      rw [if_neg]
      rintro ⟨hh, _⟩
      have k := has_mac e vbx m hl g (h.per g hw') iv hh
      have hb : bit (e.per m) = 0 := by rw [hp]; rfl
      have hd := h.dom m
      by_cases hg : g.1 = m
      · have k2 := k.2 hg
        rw [him] at k2
        split_ifs at k2 <;> omega
      · have k1 := k.1 hg
        omega
  · rfl

/-! ## Times -/

/-- **C115** In every step the ghost cells of the fields at the middle and at the end of the step get the wave of that
time. -/
theorem state_times (tol cur new : K) :
    ∀ u ∈ stepUses tol cur new, (u.1 = .stateHalf → u.2.1 = (cur + new) / 2 ∧ u.2.2 = some u.2.1) ∧
      (u.1 = .stateNew → u.2.1 = new ∧ u.2.2 = some u.2.1) := by
  intro u hu
  simp only [stepUses, List.cons_append, List.nil_append, List.mem_cons, List.not_mem_nil, or_false] at hu
  rcases hu with rfl | rfl | rfl | rfl | rfl <;> simp <;> ring

/-- **C115, not as stated** The advecting velocity, wanted at the middle of the step, gets the wave of the end of the
step on the boundary and in the ghost faces beyond it; at the only moment when the targets are those of the middle of
the step, none is set. The test for new data has the sense opposite to that of recorded planes. -/
theorem mac_half_step_late (tol cur new : K) (ht : 0 < tol) (hdt : 2 * tol ≤ new - cur) :
    ∀ u ∈ stepUses tol cur new,
      (u.1 = .macGhostBefore → u.2.1 = (cur + new) / 2 ∧ u.2.2 = none) ∧
      (u.1 = .macFace ∨ u.1 = .macGhost → u.2.1 = (cur + new) / 2 ∧
        ∃ w, u.2.2 = some w ∧ w - u.2.1 = (new - cur) / 2) := by
  have h1 : macGhostUse tol ((1 / 2) * (cur + new)) ((1 / 2) * (cur + new)) = none := by
    unfold macGhostUse unchanged
    simp [ht]
  have h2 : macGhostUse tol new ((1 / 2) * (cur + new)) = some new := by
    unfold macGhostUse unchanged
    rw [if_neg]
    simp only [decide_eq_true_eq, not_lt]
    linarith
  intro u hu
  simp only [stepUses, List.cons_append, List.nil_append, List.mem_cons, List.not_mem_nil, or_false, h1, h2] at hu
  rcases hu with rfl | rfl | rfl | rfl | rfl <;> simp <;> first | done | exact ⟨by ring, by ring⟩ | ring

/-- **C115, not as stated** A step shorter than twice the tolerance sets no wave in the ghost faces at all. -/
theorem mac_short_step (tol cur new : K) (ht : 0 < tol) (hdt : new - cur < 2 * tol) :
    ∀ u ∈ stepUses tol cur new, u.1 = .macGhost ∨ u.1 = .macGhostBefore → u.2.2 = none := by
  have h1 : macGhostUse tol ((1 / 2) * (cur + new)) ((1 / 2) * (cur + new)) = none := by
    unfold macGhostUse unchanged
    simp [ht]
  have h2 : macGhostUse tol new ((1 / 2) * (cur + new)) = none := by
    unfold macGhostUse unchanged
    rw [if_pos]
    simp only [decide_eq_true_eq]
    linarith
  intro u hu
  simp only [stepUses, List.cons_append, List.nil_append, List.mem_cons, List.not_mem_nil, or_false, h1, h2] at hu
  rcases hu with rfl | rfl | rfl | rfl | rfl <;> simp

example : ∃ w, (Use.macGhost, (1 / 2 : ℚ), some w) ∈ stepUses (1 / 1000000) (0 : ℚ) 1 ∧ w = 1 :=
  ⟨1, by norm_num [stepUses, macGhostUse, unchanged], rfl⟩

end

/-! ## What was given for the air -/

/-- **C115, not as stated** A wind profile chosen for the inflow is dropped when the waves register: the air gets the
constants of the input file (zero if there are none), whatever the profile. -/
theorem profile_dropped (p : Face → ℕ → Idx → ℚ) (vals : Face → ℕ → ℚ) (o : Face) (n : ℕ) (iv : Idx) :
    baseValue (registerWaves true (.profile p)) vals o n iv = vals o n ∧
    baseValue (registerWaves false (.profile p)) vals o n iv = p o n iv := by
  simp [registerWaves, baseValue]

/-- **C115** Volume fraction and density have the same type on every face, for all boundary types; a fixed gradient is
refused for both. -/
theorem vof_density_types (bc : Face → BC) (r : Bcrec) :
    (vofBcrec bc r = none ↔ ∃ f, bc f = .fixed_gradient ∨ bc f = .undefined) ∧
    (densityBcrec bc r = none ↔ ∃ f, bc f = .fixed_gradient ∨ bc f = .undefined) ∧
    ∀ rv rd, vofBcrec bc r = some rv → densityBcrec bc r = some rd → ∀ d s,
      rv 0 d s = rd 0 d s ∧ (rv 0 d s = .int_dir ↔ bc (d, s) = .periodic) ∧
      (rv 0 d s = .ext_dir ↔ waveFace (bc (d, s)) = true) ∧
      (rv 0 d s = .foextrap ↔ bc (d, s) ≠ .periodic ∧ waveFace (bc (d, s)) = false) := by
  let tab : BC → MathBC := fun b => if b = .periodic then .int_dir else if waveFace b then .ext_dir else .foextrap
  have gen : ∀ (F : Bcrec → Face → Option Bcrec),
      (∀ r f, (F r f = none ↔ bc f = .fixed_gradient ∨ bc f = .undefined) ∧
        ∀ r', F r f = some r' → ∀ d s, r' 0 d s = if (d, s) = f then tab (bc f) else r 0 d s) →
      ∀ (L : List Face) (r : Bcrec), (L.foldlM F r = none ↔ ∃ f ∈ L, bc f = .fixed_gradient ∨ bc f = .undefined) ∧
        ∀ r', L.foldlM F r = some r' → ∀ d s, r' 0 d s = if (d, s) ∈ L then tab (bc (d, s)) else r 0 d s := by
    intro F hF L
    induction L with
    | nil =>
      intro r
      constructor
      · simp
      · intro r' h
        simp only [List.foldlM_nil] at h
        obtain rfl : r = r' := Option.some.inj h
        intro d s; simp
    | cons f L ih =>
      intro r
      rw [List.foldlM_cons]
      cases hf : F r f with
      | none =>
        have := (hF r f).1.1 hf
        constructor
        · exact ⟨fun _ => ⟨f, List.mem_cons_self, this⟩, fun _ => rfl⟩
        · intro r' h; exact absurd h (by simp)
      | some r1 =>
        have hn : ¬ (bc f = .fixed_gradient ∨ bc f = .undefined) := fun hc => by
          rw [(hF r f).1.2 hc] at hf; simp at hf
        obtain ⟨i1, i2⟩ := ih r1
        constructor
        · show L.foldlM F r1 = none ↔ _
          rw [i1]
          constructor
          · rintro ⟨g, hg, h⟩; exact ⟨g, List.mem_cons_of_mem _ hg, h⟩
          · rintro ⟨g, hg, h⟩
            rcases List.mem_cons.1 hg with rfl | hg
            · exact absurd h hn
            · exact ⟨g, hg, h⟩
        · intro r' h d s
          rw [i2 r' h d s, (hF r f).2 r1 hf d s]
          by_cases hL : (d, s) ∈ L
          · simp [hL]
          · by_cases he : (d, s) = f
            · simp [hL, he]
            · simp [hL, he]
  have hv := gen (vofFace bc) (by
    intro r f
    constructor
    · unfold vofFace; cases bc f <;> simp
    · intro r' h d s
      unfold vofFace at h
      cases hb : bc f <;> rw [hb] at h <;> simp only [Option.some.injEq, reduceCtorEq] at h <;> subst h <;>
        simp [setBcrec, tab, waveFace]) faces r
  have hd := gen (densityFace bc) (by
    intro r f
    constructor
    · unfold densityFace; cases bc f <;> simp
    · intro r' h d s
      unfold densityFace at h
      cases hb : bc f <;> rw [hb] at h <;> simp only [Option.some.injEq, reduceCtorEq] at h <;> subst h <;>
        simp [setBcrec, tab, waveFace]) faces r
  have ex : (∃ f ∈ faces, bc f = .fixed_gradient ∨ bc f = .undefined) ↔
      ∃ f, bc f = .fixed_gradient ∨ bc f = .undefined :=
    ⟨fun ⟨f, _, h⟩ => ⟨f, h⟩, fun ⟨f, h⟩ => ⟨f, mem_faces f, h⟩⟩
  refine ⟨hv.1.trans ex, hd.1.trans ex, ?_⟩
  intro rv rd h1 h2 d s
  have e1 := hv.2 rv h1 d s
  have e2 := hd.2 rd h2 d s
  rw [if_pos (mem_faces _)] at e1 e2
  have hn : ¬ (bc (d, s) = .fixed_gradient ∨ bc (d, s) = .undefined) := fun hc => by
    have : vofBcrec bc r = none := hv.1.2 ⟨(d, s), mem_faces _, hc⟩
    rw [h1] at this; simp at this
  rw [e1, e2]
  refine ⟨rfl, ?_⟩
  cases hb : bc (d, s) <;> rw [hb] at hn <;> simp [tab, waveFace] at hn ⊢

/-- **C115** An inflow face must be given volume fraction and density. A face that only generates waves need not: it
then has no liquid and density one, whatever the density of the gas. -/
theorem face_values {K : Type*} [Zero K] [One K] (p : Params K) (bc : Face → BC) (f : Face) :
    (bc f = .mass_inflow ∨ bc f = .mass_inflow_outflow → p (bcname f ++ ".density") = [] → densityValue p bc f = none) ∧
    (bc f = .mass_inflow ∨ bc f = .mass_inflow_outflow → p (bcname f ++ ".vof") = [] → vofValue p bc f = none) ∧
    (bc f = .wave_generation → p (bcname f ++ ".density") = [] → densityValue p bc f = some [1]) ∧
    (bc f = .wave_generation → p (bcname f ++ ".vof") = [] → vofValue p bc f = some [0]) ∧
    (∀ v, p (bcname f ++ ".density") = [v] → densityValue p bc f = some [v]) ∧
    ∀ v, p (bcname f ++ ".vof") = [v] → vofValue p bc f = some [v] := by
  unfold densityValue vofValue getarrN queryarrN has
  refine ⟨fun h1 h2 => ?_, fun h1 h2 => ?_, fun h1 h2 => ?_, fun h1 h2 => ?_, fun v h => ?_, fun v h => ?_⟩
  · simp [h1, h2]
  · simp [h1, h2]
  · simp [h1, h2]
  · simp [h1, h2]
  · simp [h]
  · simp [h]

/-! ## A case -/

/-- Four cells in each direction, waves enter at both ends of `x`, the other directions are walls; the target wave
depends on the cell. -/
def exEnv : Env ℚ where
  domLo := fun _ => 0
  domHi := fun _ => 3
  per := fun d => d = .y
  bc := fun o => match o with
    | (.x, false) => .wave_generation
    | (.x, true) => .mass_inflow
    | (.y, _) => .periodic
    | (.z, _) => .slip_wall
  active := true
  tol := 1 / 1000000
  owVof := fun iv => if iv .z < 2 then 1 else 0
  owVel := fun iv n => iv .x + n
  blank := none
  rho1 := 1000

theorem exEnv_ok : exEnv.Ok where
  dom := fun _ => by show (0 : ℤ) ≤ 3; decide
  per := by
    rintro ⟨d, s⟩ h
    cases d <;> cases s <;> simp [exEnv, waveFace] at h ⊢

/-- The cells of the domain. -/
def exBox : Box := ⟨fun _ => 0, fun _ => 3, fun _ => false⟩

example : fillVelocity exEnv exBox (fun _ _ => 7) (fun d => if d = .x then -1 else 0) 2 = 1 ∧
    fillVelocity exEnv exBox (fun _ _ => 7) (fun d => if d = .x then -1 else 3) 2 = 7 := by
  have h := (velocity_ghosts exEnv exEnv_ok rfl exBox (fun _ => rfl) (fun _ _ => 7)).1
  constructor
  · refine ((h (.x, false) _ 2 rfl ?_ ?_ (by decide)).2.1 ?_ ?_).trans ?_
    · refine ⟨by simp [exEnv], ?_⟩
      intro d hd
      cases d <;> simp [exEnv, bit] at hd ⊢
    · intro d; cases d <;> simp [exBox, Box.grow]
    · rintro ⟨b, hb, _⟩; simp [exEnv] at hb
    · show (1 / 1000000 : ℚ) < 1; norm_num
    · norm_num [exEnv]
  · refine ((h (.x, false) _ 2 rfl ?_ ?_ (by decide)).2.2 ?_ ?_)
    · refine ⟨by simp [exEnv], ?_⟩
      intro d hd
      cases d <;> simp [exEnv, bit] at hd ⊢
    · intro d; cases d <;> simp [exBox, Box.grow]
    · rintro ⟨b, hb, _⟩; simp [exEnv] at hb
    · show (0 : ℚ) ≤ 1 / 1000000; norm_num

/-- The faces of direction `x` of the domain. -/
def exFaces : Box := ⟨fun _ => 0, fun d => if d = .x then 4 else 3, fun d => d = .x⟩

/-- The ghost faces below and above get the waves at −1 and 5; the cells just outside are −1 and 4. -/
example : setVelocity exEnv exFaces 1 0 0 (fun _ _ => 7) (fun d => if d = .x then -1 else 0) 0 = -1 ∧
    setVelocity exEnv exFaces 1 0 0 (fun _ _ => 7) (fun d => if d = .x then 5 else 0) 0 = 5 := by
  constructor
  · refine (mac_high_reads_second_ghost exEnv exEnv_ok rfl exFaces .x (fun _ => rfl) _ 0 false _ rfl ?_ ?_ ?_ ?_ ?_ (fun _ hb => by cases hb)
      ?_).1.trans ?_
    · simp [exEnv]
    · intro d hd; simp [exEnv, hd]
    · intro d hd; simp [exFaces, hd]
    · simp [exFaces]
    · simp [exFaces, exEnv]
    · show (1 / 1000000 : ℚ) < 1; norm_num
    · norm_num [exEnv]
  · refine (mac_high_reads_second_ghost exEnv exEnv_ok rfl exFaces .x (fun _ => rfl) _ 0 true _ rfl ?_ ?_ ?_ ?_ ?_ (fun _ hb => by cases hb)
      ?_).1.trans ?_
    · simp [exEnv]
    · intro d hd; simp [exEnv, hd]
    · intro d hd; simp [exFaces, hd]
    · simp [exFaces]
    · simp [exFaces, exEnv]
    · show (1 / 1000000 : ℚ) < 1; norm_num
    · norm_num [exEnv]

end AmrWind.Wbc
