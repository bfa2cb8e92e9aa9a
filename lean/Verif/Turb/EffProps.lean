import Verif.Turb.EffModel
import Verif.Field.FillProps

/-!
# C141: diffusion acts with the laminar plus the turbulent coefficient on every face
-/

set_option linter.unusedSectionVars false

namespace AmrWind.Eff

open FieldOps (Cell Box Layout Fld inside Valid inside_iff inside_valid)
open Fill (Geo Mapper fillpatch bounds Ok Covers Image InArray)

variable {K : Type*} [Field K]

/-! ### Specification -/

/-- The turbulent viscosity of a cell: none in a laminar run. -/
def viscosity (t : Turb) (x : Data K) : Arr K := fun lev b c => if t = .laminar then 0 else x.visc lev b c

/-- The coefficient with which an equation should diffuse in a cell: laminar plus turbulent for velocity, temperature and scalars; the subgrid energy of the one-equation models
diffuses with twice the turbulent viscosity, `tke` and `sdr` of the k-omega models with blended factors. -/
def coefficient (t : Turb) (e : Eqn) (x : Data K) : Arr K := fun lev b c =>
  let v := viscosity t x lev b c
  match e with
  | .velocity => x.mu lev b c + v
  | .temperature => x.alpha lev b c + (if t = .amd then x.heat lev b c else if t = .m84 ∨ t = .kosovic ∨ t = .axell then x.ratio lev b c * v else v / x.prt)
  | .scalar n =>
    if t = .m84 ∨ t = .s94 ∨ t = .axell then 2 * v
    else if t = .sst ∨ t = .iddes then x.mu lev b c + x.blend n lev b c * v
    else x.mu lev b c / x.sc n + v / x.sct n

/-- The values of a place are the same in all boxes that hold it, and in all arrays that have it as a ghost cell. -/
def Settled (m : Mesh K) (u : Arr K) : Prop := ∀ lev b b' c c', InArray m.boxes 1 lev b c → Valid m.boxes lev b' c' → Image m.geo lev c c' → u lev b c = u lev b' c'

/-- The values of a place are the same in all boxes that hold it. -/
def Agree (m : Mesh K) (u : Arr K) : Prop := ∀ lev b b' c c', Valid m.boxes lev b c → Valid m.boxes lev b' c' → Image m.geo lev c c' → u lev b c = u lev b' c'

/-- A mesh: nested boxes in the domain, the coarsest level covering it, fields in cells. -/
structure Mesh.Ok (m : Mesh K) : Prop where
  ok : Fill.Ok m.geo m.boxes
  covers : Covers m.geo m.boxes
  cells : m.geo.face = none

/-- The data of a step belong to places, not to boxes; laminar properties are known in ghost cells. -/
structure Data.Ok (m : Mesh K) (x : Data K) : Prop where
  mu : Settled m x.mu
  alpha : Settled m x.alpha
  visc : Agree m x.visc
  ratio : Agree m x.ratio

/-- The face is one of box `b`: one of the two cells beside it is in the box. -/
def FaceOf (m : Mesh K) (lev b : ℕ) (d : Fin 3) (c : Cell) : Prop := Valid m.boxes lev b c ∨ Valid m.boxes lev b (below d c)

/-- The cases in which the code forgets the ghost cells. -/
def Forgets (t : Turb) (e : Eqn) : Prop := (t = .amd ∧ e = .temperature) ∨ ((t = .sst ∨ t = .iddes) ∧ ∃ n, e = .scalar n)

/-! ### Lemmas -/

theorem valid_in {m : Mesh K} {lev b : ℕ} {c : Cell} (h : Valid m.boxes lev b c) : InArray m.boxes 1 lev b c := Fill.valid_array (by intro d; simp) h

theorem settled_agree {m : Mesh K} {u : Arr K} (h : Settled m u) : Agree m u := fun lev b b' c c' hv hv' hi => h lev b b' c c' (valid_in hv) hv' hi

theorem onArrays_in {m : Mesh K} {old new : Arr K} {lev b : ℕ} {c : Cell} (h : InArray m.boxes 1 lev b c) : onArrays m old new lev b c = new lev b c := by
  unfold onArrays
  rw [if_pos ((inside_iff _ _ _ _ _).mpr h)]

theorem onBoxes_in {m : Mesh K} {old new : Arr K} {lev b : ℕ} {c : Cell} (h : Valid m.boxes lev b c) : onBoxes m old new lev b c = new lev b c := by
  unfold onBoxes
  rw [if_pos ((inside_valid _ _ _ _).mpr h)]

theorem onBoxes_out {m : Mesh K} {old new : Arr K} {lev b : ℕ} {c : Cell} (h : ¬ Valid m.boxes lev b c) : onBoxes m old new lev b c = old lev b c := by
  unfold onBoxes
  rw [if_neg fun x => h ((inside_valid _ _ _ _).mp x)]

theorem onBoxes_agree {m : Mesh K} {old new : Arr K} (h : Agree m new) : Agree m (onBoxes m old new) := by
  intro lev b b' c c' hv hv' hi
  rw [onBoxes_in hv, onBoxes_in hv']
  exact h lev b b' c c' hv hv' hi

theorem agree_same {m : Mesh K} {u : Arr K} (h : Agree m u) : Fill.Same m.boxes (fld u) m.boxes (fld u) :=
  ⟨rfl, fun lev c => ⟨Iff.rfl, fun b b' hv hv' => funext fun _ => h lev b b' c c hv hv' (Fill.image_refl _ _ _)⟩⟩

theorem fill_valid {m : Mesh K} (hm : m.Ok) {u : Arr K} (h : Agree m u) {lev b : ℕ} {c : Cell} (hv : Valid m.boxes lev b c) : fill m u lev b c = u lev b c :=
  Fill.fill_keeps hm.ok hm.covers (agree_same h) (by intro d; simp) lev b c 0 (Or.inl hv)

theorem fill_settled {m : Mesh K} (hm : m.Ok) {u : Arr K} (h : Agree m u) : Settled m (fill m u) := by
  intro lev b b' c c' ha hv ⟨n, hn⟩
  rw [fill_valid hm h hv]
  exact Fill.ghost_is_neighbour (f := fld u) hm.ok hm.covers (agree_same h) (fun lev b b' c c' hv hv' hi => funext fun _ => h lev b b' c c' hv hv' hi) (by intro d; simp) ha
    (by simp [fld]) hv n hn

/-- Filled arrays depend on the cells of boxes only. -/
theorem fill_memory {m : Mesh K} (hm : m.Ok) {u u' : Arr K} (h : Agree m u) (he : ∀ lev b c, Valid m.boxes lev b c → u lev b c = u' lev b c) {lev b : ℕ} {c : Cell}
    (ha : InArray m.boxes 1 lev b c) : fill m u lev b c = fill m u' lev b c := by
  have h' : Agree m u' := fun lev b b' c c' hv hv' hi => by rw [← he _ _ _ hv, ← he _ _ _ hv']; exact h lev b b' c c' hv hv' hi
  refine Fill.decomposition_free_partial (f := fld u) (f' := fld u') hm.ok hm.ok hm.covers (agree_same h) (agree_same h') ⟨rfl, fun lev c => ⟨Iff.rfl, fun b b' hv hv' => ?_⟩⟩
    (by intro d; simp) (by intro d; simp) ha ha (by simp [fld])
  funext _
  show u lev b c = u' lev b' c
  rw [h lev b b' c c hv hv' (Fill.image_refl _ _ _), he _ _ _ hv']

/-- The turbulent viscosity of a run: settled, in cells of boxes what the model computes last (nothing for Laminar and OneEqKsgsS94), without memory. -/
theorem turbulent_settled {t : Turb} {m : Mesh K} (hm : m.Ok) {x : Data K} (hx : x.Ok m) {v : Arr K} (hv : (t = .laminar ∨ t = .s94) → v = fun _ _ _ => 0) :
    Settled m (turbulent t m x v) ∧ (∀ lev b c, Valid m.boxes lev b c → turbulent t m x v lev b c = if t = .laminar ∨ t = .s94 then 0 else x.visc lev b c) ∧
    ((t = .laminar ∨ t = .s94) → turbulent t m x v = fun _ _ _ => 0) := by
  by_cases ht : t = .laminar ∨ t = .s94
  · have e : turbulent t m x v = fun _ _ _ => 0 := by rcases ht with rfl | rfl <;> exact hv (by simp)
    rw [e]
    exact ⟨fun _ _ _ _ _ _ _ _ => rfl, fun _ _ _ _ => by rw [if_pos ht], fun _ => rfl⟩
  · have e : turbulent t m x v = fill m (onBoxes m v x.visc) := by cases t <;> first | rfl | exact absurd (by simp) ht
    rw [e]
    have ha := onBoxes_agree (m := m) (old := v) hx.visc
    exact ⟨fill_settled hm ha, fun lev b c hc => by rw [fill_valid hm ha hc, onBoxes_in hc, if_neg ht], fun h => absurd h ht⟩

theorem turbulent_memory {t : Turb} {m : Mesh K} (hm : m.Ok) {x : Data K} (hx : x.Ok m) {v v' : Arr K} (hv : (t = .laminar ∨ t = .s94) → v = v') {lev b : ℕ} {c : Cell}
    (ha : InArray m.boxes 1 lev b c) : turbulent t m x v lev b c = turbulent t m x v' lev b c := by
  by_cases ht : t = .laminar ∨ t = .s94
  · rw [hv ht]
  · have e : ∀ v, turbulent t m x v = fill m (onBoxes m v x.visc) := by intro v; cases t <;> first | rfl | exact absurd (by simp) ht
    rw [e, e]
    exact fill_memory hm (onBoxes_agree hx.visc) (fun lev b c hc => by rw [onBoxes_in hc, onBoxes_in hc]) ha

/-- In a run the turbulent viscosity of Laminar and OneEqKsgsS94 stays zero. -/
theorem run_muT {t : Turb} {e : Eqn} {m : Mesh K} (xs : List (Data K)) : ∀ {s : State K}, run t e m xs = some s → (t = .laminar ∨ t = .s94) → s.muT = fun _ _ _ => 0 := by
  have key : ∀ (xs : List (Data K)) (s0 s : State K), xs.foldlM (step t e m) s0 = some s → (t = .laminar ∨ t = .s94) → s0.muT = (fun _ _ _ => 0) → s.muT = fun _ _ _ => 0 := by
    intro xs
    induction xs with
    | nil => intro s0 s h _ h0; simp only [List.foldlM_nil] at h; cases h; exact h0
    | cons x xs ih =>
      intro s0 s h ht h0
      rw [List.foldlM_cons] at h
      obtain ⟨s1, h1, h2⟩ := Option.bind_eq_some_iff.mp h
      refine ih s1 s h2 ht ?_
      have e1 : s1.muT = turbulent t m x s0.muT := by
        unfold step at h1
        cases e with
        | velocity => cases h1; rfl
        | temperature => cases h1; rfl
        | scalar n =>
          obtain ⟨u, -, rfl⟩ := Option.map_eq_some_iff.mp h1
          rfl
      rw [e1]
      rcases ht with rfl | rfl <;> exact h0
  intro s h ht
  exact key xs start s h ht rfl

theorem run_snoc {t : Turb} {e : Eqn} {m : Mesh K} {xs : List (Data K)} {x : Data K} {s : State K} (h : run t e m (xs ++ [x]) = some s) :
    ∃ s0, run t e m xs = some s0 ∧ step t e m s0 x = some s := by
  unfold run at *
  rw [List.foldlM_append] at h
  obtain ⟨s0, h0, h1⟩ := Option.bind_eq_some_iff.mp h
  refine ⟨s0, h0, ?_⟩
  rw [List.foldlM_cons] at h1
  obtain ⟨s1, h1, h2⟩ := Option.bind_eq_some_iff.mp h1
  simp only [List.foldlM_nil] at h2
  cases h2
  exact h1

theorem onArrays_settled {m : Mesh K} {old new : Arr K} (h : Settled m new) : Settled m (onArrays m old new) := by
  intro lev b b' c c' ha hv hi
  rw [onArrays_in ha, onArrays_in (valid_in hv)]
  exact h lev b b' c c' ha hv hi

/-- One step: the array of coefficients is settled and holds the coefficients. -/
theorem step_settled {t : Turb} {e : Eqn} {m : Mesh K} (hm : m.Ok) {x : Data K} (hx : x.Ok m) {s0 s : State K} (h0 : (t = .laminar ∨ t = .s94) → s0.muT = fun _ _ _ => 0)
    (hf : ¬ Forgets t e) (ht : t ≠ .s94) (h : step t e m s0 x = some s) :
    Settled m s.eff ∧ ∀ lev b c, Valid m.boxes lev b c → s.eff lev b c = coefficient t e x lev b c := by
  obtain ⟨hs, hv, -⟩ := turbulent_settled hm hx h0
  have hv' : ∀ lev b c, Valid m.boxes lev b c → turbulent t m x s0.muT lev b c = viscosity t x lev b c := by
    intro lev b c hc
    rw [hv lev b c hc]
    unfold viscosity
    simp only [ht, or_false]
  unfold step at h
  generalize turbulent t m x s0.muT = w at *
  have hall : ∀ (F : Arr K), Settled m F → (∀ lev b c, Valid m.boxes lev b c → F lev b c = coefficient t e x lev b c) →
      Settled m (onArrays m s0.eff F) ∧ ∀ lev b c, Valid m.boxes lev b c → onArrays m s0.eff F lev b c = coefficient t e x lev b c :=
    fun F hF hFv => ⟨onArrays_settled hF, fun lev b c hc => by rw [onArrays_in (valid_in hc)]; exact hFv lev b c hc⟩
  have hbox : ∀ (F : Arr K), Agree m F → (∀ lev b c, Valid m.boxes lev b c → F lev b c = coefficient t e x lev b c) →
      Settled m (fill m (onBoxes m s0.eff F)) ∧ ∀ lev b c, Valid m.boxes lev b c → fill m (onBoxes m s0.eff F) lev b c = coefficient t e x lev b c :=
    fun F hF hFv => ⟨fill_settled hm (onBoxes_agree hF), fun lev b c hc => by rw [fill_valid hm (onBoxes_agree hF) hc, onBoxes_in hc]; exact hFv lev b c hc⟩
  have two : ∀ (F : K → K → K) (u : Arr K), Settled m u → Settled m fun lev b c => F (u lev b c) (w lev b c) := by
    intro F u hu lev b b' c c' ha hb hi
    show F _ _ = F _ _
    rw [hu lev b b' c c' ha hb hi, hs lev b b' c c' ha hb hi]
  have three : ∀ (F : K → K → K → K), Agree m fun lev b c => F (x.alpha lev b c) (w lev b c) (x.ratio lev b c) := by
    intro F lev b b' c c' ha hb hi
    show F _ _ _ = F _ _ _
    rw [hx.alpha lev b b' c c' (valid_in ha) hb hi, hs lev b b' c c' (valid_in ha) hb hi, hx.ratio lev b b' c c' ha hb hi]
  cases e with
  | velocity =>
    cases h
    cases t <;> first
      | exact absurd rfl ht
      | exact hall _ hx.mu fun lev b c _ => by simp [coefficient, viscosity]
      | exact hall _ (two (fun a v => a + 1 * v) _ hx.mu) fun lev b c hc => by rw [hv' lev b c hc]; simp [coefficient]
  | temperature =>
    cases h
    cases t <;> first
      | exact absurd rfl ht
      | exact absurd (Or.inl ⟨rfl, rfl⟩) hf
      | exact hall _ hx.alpha fun lev b c _ => by simp [coefficient, viscosity]
      | exact hall _ (two (fun a v => a + 1 / x.prt * v) _ hx.alpha) fun lev b c hc => by rw [hv' lev b c hc]; simp [coefficient, div_eq_inv_mul]
      | exact hbox _ (three fun a v r => a + v * r) fun lev b c hc => by rw [hv' lev b c hc]; simp [coefficient, mul_comm]
      | exact hbox _ (three fun a v r => a + r * v) fun lev b c hc => by rw [hv' lev b c hc]; simp [coefficient]
  | scalar n =>
    obtain ⟨u, hu, rfl⟩ := Option.map_eq_some_iff.mp h
    show Settled m u ∧ _
    unfold scalarEff at hu
    have htw : (if n = "tke" then some (onArrays m s0.eff fun lev b c => 0 + 2 * w lev b c) else none) = some u → (t = .m84 ∨ t = .s94 ∨ t = .axell) →
        Settled m u ∧ ∀ lev b c, Valid m.boxes lev b c → u lev b c = coefficient t (.scalar n) x lev b c := by
      intro hu h3
      split_ifs at hu
      cases hu
      exact hall _ (two (fun _ v => 0 + 2 * v) _ hs) fun lev b c hc => by
        rw [hv' lev b c hc]; unfold coefficient; dsimp only; rw [if_pos h3, zero_add]
    have hsc : some (onArrays m s0.eff fun lev b c => x.mu lev b c / x.sc n + 1 / x.sct n * w lev b c) = some u →
        (∀ lev b c, coefficient t (.scalar n) x lev b c = x.mu lev b c / x.sc n + viscosity t x lev b c / x.sct n) →
        Settled m u ∧ ∀ lev b c, Valid m.boxes lev b c → u lev b c = coefficient t (.scalar n) x lev b c := by
      intro hu h3
      cases hu
      exact hall _ (two (fun a v => a / x.sc n + 1 / x.sct n * v) _ hx.mu) fun lev b c hc => by rw [hv' lev b c hc, h3]; ring
    cases t with
    | laminar =>
      cases hu
      exact hall _ (two (fun a _ => a / x.sc n) _ hx.mu) fun lev b c _ => by simp [coefficient, viscosity]
    | smagorinsky => exact hsc hu fun _ _ _ => by simp [coefficient]
    | amd => exact hsc hu fun _ _ _ => by simp [coefficient]
    | amdNoTherm => exact hsc hu fun _ _ _ => by simp [coefficient]
    | m84 => exact htw hu (by simp)
    | s94 => exact absurd rfl ht
    | kosovic => exact hsc hu fun _ _ _ => by simp [coefficient]
    | axell => exact htw hu (by simp)
    | sst => exact absurd (Or.inr ⟨by simp, n, rfl⟩) hf
    | iddes => exact absurd (Or.inr ⟨by simp, n, rfl⟩) hf

theorem below_image {g : Geo K} {lev : ℕ} {d : Fin 3} {c c' : Cell} (h : Image g lev c c') : Image g lev (below d c) (below d c') := by
  obtain ⟨n, hn⟩ := h
  refine ⟨n, fun e => ?_⟩
  unfold below
  by_cases he : e = d
  · subst he
    rw [Function.update_self, Function.update_self, hn e]
    ring
  · rw [Function.update_of_ne he, Function.update_of_ne he, hn e]

theorem below_at (d : Fin 3) (c : Cell) : below d c d = c d - 1 := Function.update_self ..

theorem below_else {d e : Fin 3} (h : e ≠ d) (c : Cell) : below d c e = c e := Function.update_of_ne h ..

/-- Both cells beside a face of a box are in its array. -/
theorem face_array {m : Mesh K} {lev b : ℕ} {d : Fin 3} {c : Cell} (h : FaceOf m lev b d c) : InArray m.boxes 1 lev b c ∧ InArray m.boxes 1 lev b (below d c) := by
  rcases h with ⟨l, x, h1, h2, h3⟩ | ⟨l, x, h1, h2, h3⟩
  · refine ⟨⟨l, x, h1, h2, fun e => by have := h3 e; simp only [Pi.one_apply]; omega⟩, l, x, h1, h2, fun e => ?_⟩
    have := h3 e
    simp only [Pi.one_apply]
    by_cases he : e = d
    · subst he; rw [below_at]; omega
    · rw [below_else he]; omega
  · refine ⟨⟨l, x, h1, h2, fun e => ?_⟩, l, x, h1, h2, fun e => by have := h3 e; simp only [Pi.one_apply]; omega⟩
    have := h3 e
    simp only [Pi.one_apply]
    by_cases he : e = d
    · subst he; rw [below_at] at this; omega
    · rw [below_else he] at this; omega

theorem bounds_box {m : Mesh K} {lev b : ℕ} {l : List Box} {x : Box} (h1 : m.boxes[lev]? = some l) (h2 : l[b]? = some x) : bounds m.boxes 0 lev b = x := by
  rw [Fill.bounds_eq h1 h2]
  cases x
  simp

/-- The coefficient on a face with cells of the domain, or periodic images, on both sides. -/
theorem onFace_inner {m : Mesh K} {u : Arr K} {lev b : ℕ} {d : Fin 3} {c : Cell} (h : m.geo.per d = true ∨ (m.geo.lo lev d < c d ∧ c d ≤ m.geo.hi lev d)) :
    onFace m u lev b d c = (u lev b (below d c) + u lev b c) / 2 := by
  unfold onFace
  dsimp only
  rcases h with h | h
  · rw [h]; simp
  · by_cases hp : m.geo.per d = false
    · rw [if_pos hp, if_neg (by omega), if_neg (by omega)]
    · rw [if_neg hp]

theorem onFace_lo {m : Mesh K} (hm : m.Ok) {u : Arr K} {lev b : ℕ} {d : Fin 3} {c : Cell} (hp : m.geo.per d = false) (hv : Valid m.boxes lev b c) (hc : c d = m.geo.lo lev d) :
    onFace m u lev b d c = u lev b c := by
  obtain ⟨l, x, h1, h2, h3⟩ := hv
  have hb := hm.ok.box lev l x h1 (List.mem_of_getElem? h2) d
  have := h3 d
  unfold onFace
  rw [bounds_box h1 h2]
  dsimp only
  rw [if_pos hp, if_neg (by omega), if_pos (by omega)]

theorem onFace_hi {m : Mesh K} (hm : m.Ok) {u : Arr K} {lev b : ℕ} {d : Fin 3} {c : Cell} (hp : m.geo.per d = false) (hv : Valid m.boxes lev b (below d c))
    (hc : c d = m.geo.hi lev d + 1) : onFace m u lev b d c = u lev b (below d c) := by
  obtain ⟨l, x, h1, h2, h3⟩ := hv
  have hb := hm.ok.box lev l x h1 (List.mem_of_getElem? h2) d
  have := h3 d
  rw [below_at] at this
  unfold onFace
  rw [bounds_box h1 h2]
  dsimp only
  rw [if_pos hp, if_pos (by omega)]

/-- An image of a cell of a box is within the sides that are not periodic. -/
theorem image_within {m : Mesh K} (hm : m.Ok) {lev b : ℕ} {d : Fin 3} {c c' : Cell} (hv : Valid m.boxes lev b c') (hi : Image m.geo lev c c') (hp : m.geo.per d = false) :
    m.geo.lo lev d ≤ c d ∧ c d ≤ m.geo.hi lev d := by
  obtain ⟨n, hn⟩ := hi
  have h := hn d
  rw [hp] at h
  simp only [Bool.false_eq_true, if_false, add_zero] at h
  rw [h]
  exact Fill.valid_dom hm.ok hv d

/-! ### C141 -/

/-- **C141**: after any number of steps the coefficient on a face between two cells of a level is the mean of the coefficients of these cells, whichever boxes hold them (also a
number of periods away) and whichever box is asked; on a side of the domain that is not periodic it is that of the cell inside.

Partial (C141). Missing: for temperature with AMD and for the scalars of the k-omega models (`Forgets`) and with OneEqKsgsS94 it is false (`half_at_box_faces`, `s94_laminar`). -/
theorem faces_mean_partial {t : Turb} {e : Eqn} {m : Mesh K} (hm : m.Ok) (hf : ¬ Forgets t e) (ht : t ≠ .s94) {xs : List (Data K)} {x : Data K} (hx : x.Ok m) {s : State K}
    (hr : run t e m (xs ++ [x]) = some s) {lev b : ℕ} {d : Fin 3} {c : Cell} (hc : FaceOf m lev b d c) :
    (∀ b₁ c₁ b₂ c₂, Valid m.boxes lev b₁ c₁ → Valid m.boxes lev b₂ c₂ → Image m.geo lev (below d c) c₁ → Image m.geo lev c c₂ →
      onFace m s.eff lev b d c = (coefficient t e x lev b₁ c₁ + coefficient t e x lev b₂ c₂) / 2) ∧
    (m.geo.per d = false → c d = m.geo.lo lev d → onFace m s.eff lev b d c = coefficient t e x lev b c) ∧
    (m.geo.per d = false → c d = m.geo.hi lev d + 1 → onFace m s.eff lev b d c = coefficient t e x lev b (below d c)) := by
  obtain ⟨s0, h0, h1⟩ := run_snoc hr
  obtain ⟨hs, hv⟩ := step_settled hm hx (run_muT xs h0) hf ht h1
  obtain ⟨ha, hb⟩ := face_array hc
  refine ⟨fun b₁ c₁ b₂ c₂ v₁ v₂ i₁ i₂ => ?_, fun hp hd => ?_, fun hp hd => ?_⟩
  · rw [onFace_inner, hs lev b b₁ _ c₁ hb v₁ i₁, hs lev b b₂ _ c₂ ha v₂ i₂, hv _ _ _ v₁, hv _ _ _ v₂]
    by_cases hp : m.geo.per d = true
    · exact Or.inl hp
    · have hp' : m.geo.per d = false := by simpa using hp
      have q1 := image_within hm v₁ i₁ hp'
      have q2 := image_within hm v₂ i₂ hp'
      rw [below_at] at q1
      exact Or.inr ⟨by omega, q2.2⟩
  · have hvc : Valid m.boxes lev b c := by
      rcases hc with h | h
      · exact h
      · have := (Fill.valid_dom hm.ok h d).1
        rw [below_at] at this
        omega
    rw [onFace_lo hm hp hvc hd, hv _ _ _ hvc]
  · have hvc : Valid m.boxes lev b (below d c) := by
      rcases hc with h | h
      · have := (Fill.valid_dom hm.ok h d).2
        omega
      · exact h
    rw [onFace_hi hm hp hvc hd, hv _ _ _ hvc]

/-- **C141**: what one box loses through a face the other gains: boxes that share a face, also across a periodic side, have the same coefficient on it.

Partial (C141). Missing: for temperature with AMD and the scalars of the k-omega models it is false (`half_at_box_faces`). -/
theorem shared_faces_partial {t : Turb} {e : Eqn} {m : Mesh K} (hm : m.Ok) (hf : ¬ Forgets t e) (ht : t ≠ .s94) {xs : List (Data K)} {x : Data K} (hx : x.Ok m) {s : State K}
    (hr : run t e m (xs ++ [x]) = some s) {lev b b' : ℕ} {d : Fin 3} {c c' : Cell} (hi : Image m.geo lev c c') (hb : Valid m.boxes lev b c)
    (hb' : Valid m.boxes lev b' (below d c')) : onFace m s.eff lev b d c = onFace m s.eff lev b' d c' := by
  rw [(faces_mean_partial hm hf ht hx hr (Or.inl hb)).1 b' (below d c') b c hb' hb (below_image hi) (Fill.image_refl _ _ _),
    (faces_mean_partial hm hf ht hx hr (Or.inr hb')).1 b' (below d c') b c hb' hb (Fill.image_refl _ _ _) (Fill.image_symm hi)]

/-- **C141**: the coefficients do not remember earlier steps: two runs whose last steps find the same have the same coefficients on all faces, those beside coarser levels
included.

Partial (C141). Missing: for temperature with AMD and the scalars of the k-omega models the ghost cells are those of the start (`half_at_box_faces`). -/
theorem no_memory_partial {t : Turb} {e : Eqn} {m : Mesh K} (hm : m.Ok) (hf : ¬ Forgets t e) {xs xs' : List (Data K)} {x : Data K} (hx : x.Ok m) {s s' : State K}
    (hr : run t e m (xs ++ [x]) = some s) (hr' : run t e m (xs' ++ [x]) = some s') {lev b : ℕ} {d : Fin 3} {c : Cell} (hc : FaceOf m lev b d c) :
    onFace m s.eff lev b d c = onFace m s'.eff lev b d c := by
  have key : ∀ c, InArray m.boxes 1 lev b c → s.eff lev b c = s'.eff lev b c := by
    obtain ⟨s0, h0, h1⟩ := run_snoc hr
    obtain ⟨s0', h0', h1'⟩ := run_snoc hr'
    have hz : (t = .laminar ∨ t = .s94) → s0.muT = s0'.muT := fun h => by rw [run_muT xs h0 h, run_muT xs' h0' h]
    obtain ⟨hs, -, -⟩ := turbulent_settled hm hx (run_muT xs h0)
    have hw : ∀ lev b c, InArray m.boxes 1 lev b c → turbulent t m x s0.muT lev b c = turbulent t m x s0'.muT lev b c := fun _ _ _ ha => turbulent_memory hm hx hz ha
    unfold step at h1 h1'
    generalize turbulent t m x s0.muT = w at *
    generalize turbulent t m x s0'.muT = w' at *
    have one : ∀ F F' : Arr K, (∀ lev b c, InArray m.boxes 1 lev b c → F lev b c = F' lev b c) → ∀ c, InArray m.boxes 1 lev b c →
        onArrays m s0.eff F lev b c = onArrays m s0'.eff F' lev b c := fun F F' h c ha => by rw [onArrays_in ha, onArrays_in ha]; exact h lev b c ha
    have box : ∀ F F' : Arr K, Agree m F → (∀ lev b c, InArray m.boxes 1 lev b c → F lev b c = F' lev b c) → ∀ c, InArray m.boxes 1 lev b c →
        fill m (onBoxes m s0.eff F) lev b c = fill m (onBoxes m s0'.eff F') lev b c := fun F F' hF h c ha =>
      fill_memory hm (onBoxes_agree hF) (fun lev b c hv => by rw [onBoxes_in hv, onBoxes_in hv]; exact h lev b c (valid_in hv)) ha
    have three : ∀ (F : K → K → K → K), Agree m fun lev b c => F (x.alpha lev b c) (w lev b c) (x.ratio lev b c) := by
      intro F lev b b' c c' ha hb hi
      show F _ _ _ = F _ _ _
      rw [hx.alpha lev b b' c c' (valid_in ha) hb hi, hs lev b b' c c' (valid_in ha) hb hi, hx.ratio lev b b' c c' ha hb hi]
    have oneW : ∀ G : ℕ → ℕ → Cell → K → K, ∀ c, InArray m.boxes 1 lev b c → onArrays m s0.eff (fun lev b c => G lev b c (w lev b c)) lev b c =
        onArrays m s0'.eff (fun lev b c => G lev b c (w' lev b c)) lev b c := fun G => one _ _ fun lev b c ha => by rw [hw lev b c ha]
    have boxW : ∀ F : K → K → K → K, ∀ c, InArray m.boxes 1 lev b c → fill m (onBoxes m s0.eff fun lev b c => F (x.alpha lev b c) (w lev b c) (x.ratio lev b c)) lev b c =
        fill m (onBoxes m s0'.eff fun lev b c => F (x.alpha lev b c) (w' lev b c) (x.ratio lev b c)) lev b c :=
      fun F => box _ _ (three F) fun lev b c ha => by rw [hw lev b c ha]
    cases e with
    | velocity =>
      cases h1; cases h1'
      cases t <;> first
        | exact one _ _ fun _ _ _ _ => rfl
        | exact oneW fun lev b c v => x.mu lev b c + 1 * v
    | temperature =>
      cases h1; cases h1'
      cases t <;> first
        | exact absurd (Or.inl ⟨rfl, rfl⟩) hf
        | exact one _ _ fun _ _ _ _ => rfl
        | exact oneW fun lev b c v => x.alpha lev b c + 1 / x.prt * v
        | exact boxW fun a v r => a + v * r
        | exact boxW fun a v r => a + r * v
    | scalar n =>
      obtain ⟨u, hu, rfl⟩ := Option.map_eq_some_iff.mp h1
      obtain ⟨u', hu', rfl⟩ := Option.map_eq_some_iff.mp h1'
      show ∀ c, _ → u lev b c = u' lev b c
      unfold scalarEff at hu hu'
      have htw : (if n = "tke" then some (onArrays m s0.eff fun lev b c => 0 + 2 * w lev b c) else none) = some u →
          (if n = "tke" then some (onArrays m s0'.eff fun lev b c => 0 + 2 * w' lev b c) else none) = some u' → ∀ c, InArray m.boxes 1 lev b c → u lev b c = u' lev b c := by
        intro hu hu'
        split_ifs at hu hu'
        cases hu; cases hu'
        exact oneW fun _ _ _ v => 0 + 2 * v
      have hsc : some (onArrays m s0.eff fun lev b c => x.mu lev b c / x.sc n + 1 / x.sct n * w lev b c) = some u →
          some (onArrays m s0'.eff fun lev b c => x.mu lev b c / x.sc n + 1 / x.sct n * w' lev b c) = some u' → ∀ c, InArray m.boxes 1 lev b c → u lev b c = u' lev b c := by
        intro hu hu'
        cases hu; cases hu'
        exact oneW fun lev b c v => x.mu lev b c / x.sc n + 1 / x.sct n * v
      cases t with
      | laminar =>
        cases hu; cases hu'
        exact one _ _ fun _ _ _ _ => rfl
      | smagorinsky => exact hsc hu hu'
      | amd => exact hsc hu hu'
      | amdNoTherm => exact hsc hu hu'
      | m84 => exact htw hu hu'
      | s94 => exact htw hu hu'
      | kosovic => exact hsc hu hu'
      | axell => exact htw hu hu'
      | sst => exact absurd (Or.inr ⟨by simp, n, rfl⟩) hf
      | iddes => exact absurd (Or.inr ⟨by simp, n, rfl⟩) hf
  obtain ⟨ha, hb⟩ := face_array hc
  unfold onFace
  dsimp only
  rw [key c ha, key _ hb]

/-- What is computed in a cell of a box in the cases with forgotten ghost cells: for AMD without the laminar part. -/
def forgotten (t : Turb) (e : Eqn) (x : Data K) : Arr K := if t = .amd then x.heat else coefficient t e x

/-- The coefficients in the cases with forgotten ghost cells: computed in the cells of boxes, zero elsewhere. -/
theorem forgets_eff {t : Turb} {e : Eqn} {m : Mesh K} (hm : m.Ok) (hf : Forgets t e) {xs : List (Data K)} {x : Data K} (hx : x.Ok m) {s : State K}
    (hr : run t e m (xs ++ [x]) = some s) (lev b : ℕ) (c : Cell) :
    (Valid m.boxes lev b c → s.eff lev b c = forgotten t e x lev b c) ∧ (¬ Valid m.boxes lev b c → s.eff lev b c = 0) := by
  have hstep : ∀ (s0 s : State K) (y : Data K), step t e m s0 y = some s → ∃ F : Arr K, s.eff = onBoxes m s0.eff F ∧
      F = if t = .amd then y.heat else match e with
        | .scalar n => fun lev b c => y.mu lev b c + y.blend n lev b c * turbulent t m y s0.muT lev b c
        | _ => F := by
    intro s0 s y h
    rcases hf with ⟨rfl, rfl⟩ | ⟨ht, n, rfl⟩
    · cases h
      exact ⟨y.heat, rfl, by simp⟩
    · unfold step at h
      obtain ⟨u, hu, rfl⟩ := Option.map_eq_some_iff.mp h
      rcases ht with rfl | rfl <;>
      · unfold scalarEff at hu
        dsimp only at hu
        split_ifs at hu
        cases hu
        exact ⟨_, rfl, by simp⟩
  have hzero : ∀ (xs : List (Data K)) (s0 s : State K), xs.foldlM (step t e m) s0 = some s → (∀ lev b c, ¬ Valid m.boxes lev b c → s0.eff lev b c = 0) →
      ∀ lev b c, ¬ Valid m.boxes lev b c → s.eff lev b c = 0 := by
    intro xs
    induction xs with
    | nil => intro s0 s h h0; simp only [List.foldlM_nil] at h; cases h; exact h0
    | cons y ys ih =>
      intro s0 s h h0
      rw [List.foldlM_cons] at h
      obtain ⟨s1, h1, h2⟩ := Option.bind_eq_some_iff.mp h
      refine ih s1 s h2 fun lev b c hc => ?_
      obtain ⟨F, e1, -⟩ := hstep s0 s1 y h1
      rw [e1, onBoxes_out hc]
      exact h0 lev b c hc
  refine ⟨fun hc => ?_, fun hc => hzero (xs ++ [x]) start s hr (fun _ _ _ _ => rfl) lev b c hc⟩
  obtain ⟨s0, h0, h1⟩ := run_snoc hr
  obtain ⟨F, e1, e2⟩ := hstep s0 s x h1
  rw [e1, onBoxes_in hc, e2]
  unfold forgotten
  rcases hf with ⟨rfl, rfl⟩ | ⟨ht, n, rfl⟩
  · simp
  · have hn : t ≠ .amd := by rcases ht with rfl | rfl <;> simp
    have hl : ¬ (t = .laminar ∨ t = .s94) := by rcases ht with rfl | rfl <;> simp
    have hv := (turbulent_settled hm hx (run_muT xs h0)).2.1 lev b c hc
    rw [if_neg hl] at hv
    rw [if_neg hn, if_neg hn]
    dsimp only
    rw [hv]
    rcases ht with rfl | rfl <;> simp [coefficient, viscosity]

/-- **C141**, false of the code: for temperature with AMD and for `tke` and `sdr` with the k-omega models the ghost cells of the coefficient are never set.  On a face between
two boxes each of them has half the coefficient of its own cell, so the mean is missed and what leaves one box is not what enters the other. -/
theorem half_at_box_faces {t : Turb} {e : Eqn} {m : Mesh K} (hm : m.Ok) (hf : Forgets t e) {xs : List (Data K)} {x : Data K} (hx : x.Ok m) {s : State K}
    (hr : run t e m (xs ++ [x]) = some s) {lev b b' : ℕ} {d : Fin 3} {c : Cell} (hb : Valid m.boxes lev b c) (hn : ¬ Valid m.boxes lev b (below d c))
    (hb' : Valid m.boxes lev b' (below d c)) (hn' : ¬ Valid m.boxes lev b' c) :
    onFace m s.eff lev b d c = forgotten t e x lev b c / 2 ∧ onFace m s.eff lev b' d c = forgotten t e x lev b' (below d c) / 2 := by
  have hin : m.geo.per d = true ∨ (m.geo.lo lev d < c d ∧ c d ≤ m.geo.hi lev d) := by
    have q1 := (Fill.valid_dom hm.ok hb' d).1
    have q2 := (Fill.valid_dom hm.ok hb d).2
    rw [below_at] at q1
    exact Or.inr ⟨by omega, q2⟩
  have z := fun b c => forgets_eff hm hf hx hr lev b c
  rw [onFace_inner hin, onFace_inner hin, (z b c).1 hb, (z b _).2 hn, (z b' _).1 hb', (z b' c).2 hn', zero_add, add_zero]
  exact ⟨rfl, rfl⟩

/-- **C141**, false of the code: with AMD heat is not conducted by the fluid: the laminar diffusivity has no influence on the equation of temperature. -/
theorem amd_without_conduction {m : Mesh K} {xs : List (Data K)} {x : Data K} (a : Arr K) (hm : m.Ok) (hx : x.Ok m) {s : State K}
    (hr : run .amd .temperature m (xs ++ [x]) = some s) :
    ∃ s', run .amd .temperature m (xs ++ [{ x with alpha := a }]) = some s' ∧ s'.eff = s.eff ∧ ∀ lev b c, Valid m.boxes lev b c → s.eff lev b c = x.heat lev b c := by
  have h := fun lev b c => (forgets_eff hm (Or.inl ⟨rfl, rfl⟩) hx hr lev b c).1
  obtain ⟨s0, h0, h1⟩ := run_snoc hr
  cases h1
  refine ⟨⟨turbulent .amd m x s0.muT, temperatureEff .amd m x (turbulent .amd m x s0.muT) s0.eff⟩, ?_, rfl, h⟩
  unfold run at *
  rw [List.foldlM_append, h0]
  rfl

/-- **C141**, false of the code: OneEqKsgsS94 computes no turbulent viscosity; velocity diffuses with the laminar one, the subgrid energy not at all. -/
theorem s94_laminar {m : Mesh K} {xs : List (Data K)} {x : Data K} {s s' : State K} (hr : run .s94 .velocity m (xs ++ [x]) = some s)
    (hr' : run .s94 (.scalar "tke") m (xs ++ [x]) = some s') {lev b : ℕ} {c : Cell} (hc : Valid m.boxes lev b c) :
    s.eff lev b c = x.mu lev b c ∧ s'.eff lev b c = 0 := by
  obtain ⟨s0, h0, h1⟩ := run_snoc hr
  obtain ⟨s0', h0', h1'⟩ := run_snoc hr'
  have z := run_muT xs h0 (by simp)
  have z' := run_muT xs h0' (by simp)
  cases h1
  unfold step at h1'
  obtain ⟨u, hu, rfl⟩ := Option.map_eq_some_iff.mp h1'
  simp only [scalarEff, if_true, Option.some.injEq] at hu
  subst hu
  refine ⟨?_, ?_⟩
  · simp only [velocityEff, turbulent, z]
    rw [onArrays_in (valid_in hc)]
    simp
  · simp only [turbulent, z']
    rw [onArrays_in (valid_in hc)]
    simp

/-- **C141**: a run stops exactly for scalars for which its model has no rule: all but `tke` with the one-equation models, all but `tke` and `sdr` with the k-omega models. -/
theorem stops_iff {t : Turb} {e : Eqn} {m : Mesh K} {xs : List (Data K)} (h : xs ≠ []) :
    run t e m xs = none ↔ ∃ n, e = .scalar n ∧ (((t = .m84 ∨ t = .s94 ∨ t = .axell) ∧ n ≠ "tke") ∨ ((t = .sst ∨ t = .iddes) ∧ n ≠ "tke" ∧ n ≠ "sdr")) := by
  have hstep : ∀ (s : State K) (x : Data K), step t e m s x = none ↔
      ∃ n, e = .scalar n ∧ (((t = .m84 ∨ t = .s94 ∨ t = .axell) ∧ n ≠ "tke") ∨ ((t = .sst ∨ t = .iddes) ∧ n ≠ "tke" ∧ n ≠ "sdr")) := by
    intro s x
    unfold step
    cases e with
    | velocity => simp
    | temperature => simp
    | scalar n =>
      simp only [Option.map_eq_none_iff, Eqn.scalar.injEq, exists_eq_left']
      cases t <;> simp [scalarEff]
  generalize hP : (∃ n, e = Eqn.scalar n ∧ (((t = .m84 ∨ t = .s94 ∨ t = .axell) ∧ n ≠ "tke") ∨ ((t = .sst ∨ t = .iddes) ∧ n ≠ "tke" ∧ n ≠ "sdr"))) = P at *
  unfold run
  generalize (start : State K) = s
  obtain ⟨x, xs, rfl⟩ := List.exists_cons_of_ne_nil h
  clear h
  induction xs generalizing x s with
  | nil =>
    rw [List.foldlM_cons, ← hstep s x]
    cases step t e m s x <;> simp
  | cons y ys ih =>
    rw [List.foldlM_cons]
    cases hs : step t e m s x with
    | none =>
      have := (hstep s x).mp hs
      simpa using this
    | some s1 => exact ih s1 y

/-! ### A case: the channel of C138 -/

def chanMesh : Mesh ℚ := ⟨Fill.chan, Fill.flatMap, 7, Fill.chanBoxes⟩

theorem chanMesh_ok : chanMesh.Ok := ⟨Fill.chan_ok, Fill.chan_covers, rfl⟩

/-- Viscosity one, a turbulent viscosity that varies along the channel, factors one half. -/
def chanStep (a : ℚ) : Data ℚ :=
  ⟨fun _ _ _ => 1, fun _ _ _ => 2, 1 / 3, fun _ => 2, fun _ => 4, fun lev _ c => a + (c 0 : ℚ) / 2 ^ lev, fun _ _ _ => 3, fun lev _ c => 5 + (c 0 : ℚ) / 2 ^ lev, fun _ _ _ _ => 1 / 2⟩

theorem chanStep_ok (a : ℚ) : (chanStep a).Ok chanMesh := by
  refine ⟨fun _ _ _ _ _ _ _ _ => rfl, fun _ _ _ _ _ _ _ _ => rfl, ?_, fun _ _ _ _ _ _ _ _ => rfl⟩
  intro lev b b' c c' _ _ ⟨n, hn⟩
  have h := hn 0
  simp [chanMesh, Fill.chan] at h
  show a + (c 0 : ℚ) / 2 ^ lev = a + (c' 0 : ℚ) / 2 ^ lev
  rw [h]

/-- Between the two boxes (cells 3 and 4 along the channel) both have the mean of 14 and 15 for velocity with Smagorinsky; with the k-omega model they have the halves of 15/2 and 8
for `tke`, with AMD those of 8 and 9 for temperature. -/
example : (let v := fun t e b => (run t e chanMesh [chanStep 2, chanStep 10]).map fun s => onFace chanMesh s.eff 0 b 0 ![4, 2, 1]
    [v .smagorinsky .velocity 0, v .smagorinsky .velocity 1, v .sst (.scalar "tke") 0, v .sst (.scalar "tke") 1, v .amd .temperature 0, v .amd .temperature 1,
      v .m84 .temperature 0, v .axell (.scalar "tke") 1, v .m84 (.scalar "passive_scalar") 0]) =
    [some (29 / 2), some (29 / 2), some (15 / 4), some 4, some 4, some (9 / 2), some (85 / 2), some 27, none] := by decide +kernel

end AmrWind.Eff
