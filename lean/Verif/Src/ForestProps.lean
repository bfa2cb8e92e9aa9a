import Mathlib.Analysis.SpecialFunctions.Integrals.Basic
import Mathlib.Tactic.Linarith
import Mathlib.Tactic.FieldSimp
import Mathlib.Tactic.Positivity
import Verif.Tag.Props
import Verif.Src.ForestModel

/-!
# Properties of forests (C84)
-/

set_option linter.unusedSectionVars false

namespace AmrWind.Forest

open AmrWind AmrWind.Vs AmrWind.Tag
open scoped Classical

/-! ## The leaf area density -/

theorem peak_le {r : ℝ} (e : ℝ) (he : 0 ≤ e) : Real.exp (e * (1 - r)) ≤ 1 ∨ r < 1 := by
  by_cases h : r < 1
  · exact Or.inr h
  · exact Or.inl (Real.exp_le_one_iff.mpr (mul_nonpos_of_nonneg_of_nonpos he (by linarith [not_lt.mp h])))

/-- The function `r exp (1 - r)` is at most 1. -/
theorem rexp_le (r : ℝ) : r * Real.exp (1 - r) ≤ 1 := by
  have h := Real.add_one_le_exp (r - 1)
  have h2 : r ≤ Real.exp (r - 1) := by linarith
  calc r * Real.exp (1 - r) ≤ Real.exp (r - 1) * Real.exp (1 - r) := mul_le_mul_of_nonneg_right h2 (Real.exp_pos _).le
    _ = 1 := by rw [← Real.exp_add]; simp

/-- C84: below the top of a forest whose densest height is inside it, the density is between 0 and its maximum, and is the
maximum at the densest height. -/
theorem shape_spec {h zm z : ℝ} (hzm : zm < h) (hz : z < h) :
    ∃ v, shape h zm z = some v ∧ 0 < v ∧ v ≤ 1 ∧ (z = zm → v = 1) := by
  have hd : h - z ≠ 0 := by linarith [sub_pos.mpr hz]
  have hr : 0 < (h - zm) / (h - z) := div_pos (by linarith) (by linarith)
  set r := (h - zm) / (h - z) with hrdef
  have hk : 0 ≤ r * Real.exp (1 - r) := mul_nonneg hr.le (Real.exp_pos _).le
  have hone : z = zm → r = 1 := by
    intro e; rw [hrdef, e]; exact div_self (by linarith [sub_pos.mpr hzm])
  by_cases hlt : z < zm
  · refine ⟨r ^ 6 * Real.exp (6 * (1 - r)), ?_, by positivity, ?_, fun e => absurd e hlt.ne⟩
    · unfold shape; rw [if_neg hd, if_pos hlt]
    · have : r ^ 6 * Real.exp (6 * (1 - r)) = (r * Real.exp (1 - r)) ^ 6 := by
        rw [mul_pow, ← Real.exp_nat_mul]; norm_num
      rw [this]; exact pow_le_one₀ hk (rexp_le r)
  · refine ⟨√r * Real.exp (1 / 2 * (1 - r)), ?_, by positivity, ?_, fun e => by rw [hone e]; simp⟩
    · unfold shape; rw [if_neg hd, if_neg hlt, if_neg (not_lt.mpr hr.le)]
    · have : √r * Real.exp (1 / 2 * (1 - r)) = √(r * Real.exp (1 - r)) := by
        rw [Real.sqrt_mul hr.le]
        congr 1
        rw [eq_comm, Real.sqrt_eq_iff_eq_sq (Real.exp_pos _).le (Real.exp_pos _).le, sq, ← Real.exp_add]
        congr 1; ring
      rw [this]
      exact Real.sqrt_le_one.mpr (rexp_le r)

theorem mapM_some {α β : Type} {f : α → Option β} : ∀ {l : List α}, (∀ a ∈ l, ∃ b, f a = some b) → ∃ v, l.mapM f = some v
  | [], _ => ⟨[], by simp⟩
  | a :: l, h => by
    obtain ⟨b, hb⟩ := h a (by simp)
    obtain ⟨v, hv⟩ := mapM_some (l := l) fun x hx => h x (by simp [hx])
    exact ⟨b :: v, by simp [List.mapM_cons, hb, hv]⟩

theorem mapM_nonneg {α : Type} {f : α → Option ℝ} : ∀ {l : List α} {v : List ℝ}, (∀ a ∈ l, ∀ b, f a = some b → 0 ≤ b) →
    l.mapM f = some v → 0 ≤ v.sum
  | [], v, _, h => by
    simp only [List.mapM_nil] at h
    have : [] = v := Option.some_inj.mp h
    rw [← this]; simp
  | a :: l, v, hp, h => by
    simp only [List.mapM_cons, Option.bind_eq_bind, Option.bind_eq_some_iff] at h
    obtain ⟨b, hb, w, hw, e⟩ := h
    have : b :: w = v := Option.some_inj.mp e
    rw [← this, List.sum_cons]
    exact add_nonneg (hp a (by simp) b hb) (mapM_nonneg (fun x hx => hp x (by simp [hx])) hw)

theorem mapM_scale {α : Type} {f : α → Option ℝ} (k : ℝ) : ∀ {l : List α} {v : List ℝ}, l.mapM f = some v →
    l.mapM (fun a => (f a).map (k * ·)) = some (v.map (k * ·))
  | [], v, h => by
    simp only [List.mapM_nil] at h
    have : [] = v := Option.some_inj.mp h
    rw [← this]; simp
  | a :: l, v, h => by
    simp only [List.mapM_cons, Option.bind_eq_bind, Option.bind_eq_some_iff] at h
    obtain ⟨b, hb, w, hw, e⟩ := h
    have : b :: w = v := Option.some_inj.mp e
    rw [← this, List.mapM_cons, hb, mapM_scale k hw]
    rfl

/-- Scaling the integrand scales the integral. -/
theorem trapz_scale {xa xb : ℝ} {n : ℕ} {f : ℝ → Option ℝ} {v : ℝ} (k : ℝ) (h : trapz xa xb n f = some v) :
    trapz xa xb n (fun x => (f x).map (k * ·)) = some (k * v) := by
  unfold trapz at h ⊢
  simp only [Option.bind_eq_bind, Option.bind_eq_some_iff] at h
  obtain ⟨a, ha, b, hb, w, hw, e⟩ := h
  have e' := Option.some_inj.mp e
  have hs : (w.map (k * ·)).sum = k * w.sum := by
    rw [List.sum_map_mul_left]; simp
  simp only [ha, hb, Option.map_some, mapM_scale k hw]
  show some _ = some _
  rw [Option.some_inj, hs, ← e']
  ring

/-- The density profile has a positive quadrature for every forest with its densest height inside. -/
theorem quad_pos {h zm tol : ℝ} (hz : 0 < zm) (hzm : zm < h) (ht : 0 < tol) (hth : tol < h) :
    ∃ i, trapz 0 (h - tol) 100 (shape h zm) = some i ∧ 0 < i := by
  have key : ∀ z, z < h → ∃ v, shape h zm z = some v ∧ 0 < v := fun z hz' => by
    obtain ⟨v, a, b, _⟩ := shape_spec hzm hz'; exact ⟨v, a, b⟩
  obtain ⟨a, ha, a0⟩ := key 0 (by linarith)
  obtain ⟨b, hb, b0⟩ := key (h - tol) (by linarith)
  have hpt : ∀ i ∈ List.range' 1 (100 - 1), (0 : ℝ) + i * ((h - tol - 0) / (100 : ℕ)) < h := by
    intro i hi
    have : i < 100 := by have := List.mem_range'_1.mp hi; omega
    have : (i : ℝ) ≤ 100 := by exact_mod_cast this.le
    have h2 : (0 : ℝ) + i * ((h - tol - 0) / (100 : ℕ)) = (i / 100) * (h - tol) := by push_cast; ring
    rw [h2]
    have : (i : ℝ) / 100 ≤ 1 := by rw [div_le_one (by norm_num)]; exact this
    nlinarith
  obtain ⟨w, hw⟩ := mapM_some (f := fun i : ℕ => shape h zm (0 + i * ((h - tol - 0) / (100 : ℕ)))) (l := List.range' 1 (100 - 1))
    fun i hi => by obtain ⟨v, hv, _⟩ := key _ (hpt i hi); exact ⟨v, hv⟩
  have hw0 := mapM_nonneg (fun i hi b hb => by
    obtain ⟨v, hv, hp⟩ := key _ (hpt i hi)
    rw [hv] at hb; rw [← Option.some_inj.mp hb]; exact hp.le) hw
  refine ⟨(h - tol - 0) / (100 : ℕ) * (1 / 2 * (a + b) + w.sum), ?_, ?_⟩
  · unfold trapz; simp only [ha, hb, hw]; rfl
  · have : 0 < (h - tol - 0) / ((100 : ℕ) : ℝ) := by
      push_cast; exact div_pos (by linarith) (by norm_num)
    exact mul_pos this (by linarith)

/-- C84: a uniform forest (kind 1) spreads its leaf area index evenly: the density integrates to the index over the height. -/
theorem uniform_total {t : Tree} (hk : t.kind = 1) (hh : 0 < t.height) (l : ℝ) :
    ∃ a, (∀ z, areaFraction t z l = some a) ∧ ∫ _z in (0 : ℝ)..t.height, a = t.lai := by
  refine ⟨t.lai / t.height, fun z => ?_, ?_⟩
  · unfold areaFraction; rw [if_pos hk, if_neg hh.ne']
  · rw [intervalIntegral.integral_const, sub_zero, smul_eq_mul]; field_simp

/-- C84: a forest of kind 2 has the leaf area index of the file: the same trapezoidal rule, applied to the density that the
drag uses, gives the index; the density is nowhere negative and largest at the densest height. -/
theorem profile_total {t : Tree} {tol : ℝ} (hk : t.kind = 2) (hm : 0 < t.laimax) (hm1 : t.laimax < 1) (ht : 0 < tol)
    (hth : tol < t.height) (hl : 0 ≤ t.lai) :
    ∃ l, lm tol t = some l ∧ 0 ≤ l ∧ trapz 0 (t.height - tol) 100 (fun z => areaFraction t z l) = some t.lai ∧
      (∀ z, z < t.height → ∃ a, areaFraction t z l = some a ∧ 0 ≤ a ∧ a ≤ l) ∧
      areaFraction t (t.laimax * t.height) l = some l := by
  have hh : 0 < t.height := by linarith
  have hzm : t.laimax * t.height < t.height := by nlinarith
  obtain ⟨i, hi, i0⟩ := quad_pos (mul_pos hm hh) hzm ht hth
  have hk1 : ¬ t.kind = 1 := by rw [hk]; norm_num
  have haf : ∀ z l, areaFraction t z l = (shape t.height (t.laimax * t.height) z).map (l * ·) := by
    intro z l; unfold areaFraction; rw [if_neg hk1, if_pos hk]
  have l0 : 0 ≤ t.lai / i := div_nonneg hl i0.le
  refine ⟨t.lai / i, ?_, l0, ?_, fun z hz => ?_, ?_⟩
  · unfold lm; rw [if_pos hk, hi]
    show (if i = 0 then none else some (t.lai / i)) = _
    rw [if_neg i0.ne']
  · have := trapz_scale (t.lai / i) hi
    simp only [haf]
    rw [this, Option.some_inj]; field_simp
  · obtain ⟨v, a, b, c, _⟩ := shape_spec hzm hz
    exact ⟨t.lai / i * v, by rw [haf, a]; rfl, mul_nonneg l0 b.le, mul_le_of_le_one_right l0 c⟩
  · obtain ⟨v, a, _, _, d⟩ := shape_spec hzm hzm
    rw [haf, a, d rfl]; simp

/-! ## The cells of a forest -/

/-- The centre of a cell in a forest is in its bounding box, so the box never hides a cell of the forest. -/
theorem box_complete {g : Geom ℝ} (hg : g.Ok) {c : Fin 3 → ℤ} (hc : g.domain.has c) {t : Tree} (hd : 0 ≤ t.diameter)
    (h : inside t (center g c)) : (realboxToBox (bound g t) g).has c := by
  obtain ⟨h1, h2⟩ := h
  have hx : |center g c 0 - t.x| ≤ 1 / 2 * t.diameter := by
    refine le_trans (Real.abs_le_sqrt ?_) h2
    rw [sq]; linarith [mul_self_nonneg (center g c 1 - t.y)]
  have hy : |center g c 1 - t.y| ≤ 1 / 2 * t.diameter := by
    refine le_trans (Real.abs_le_sqrt ?_) h2
    rw [sq]; linarith [mul_self_nonneg (center g c 0 - t.x)]
  rw [abs_le] at hx hy
  refine realbox_covers hg (bound g t) hc (p := center g c) ?_ ?_
  · intro d
    have := hg d
    unfold center
    constructor <;> nlinarith
  · intro d
    have h2c := (hc 2).1
    fin_cases d
    · simp [bound]; constructor <;> linarith
    · simp [bound]; constructor <;> linarith
    · simp only [bound]
      refine ⟨?_, by simpa using h1⟩
      have h3 := hg 2
      have : (0 : ℝ) ≤ c 2 := by exact_mod_cast h2c
      simp only [center]
      show g.lo 2 ≤ g.lo 2 + ((c 2 : ℝ) + 1 / 2) * g.dx 2
      nlinarith

/-- C84: the drag of a cell is the sum over the forests that contain its centre of drag coefficient times leaf area density,
whatever the order of the file; the identifier is that of the last of them, and `-1` without any. -/
theorem cell_spec {g : Geom ℝ} (hg : g.Ok) {c : Fin 3 → ℤ} (hc : g.domain.has c) {tol : ℝ} {af : Tree → ℝ} :
    ∀ {ts : List Tree}, (∀ t ∈ ts, 0 ≤ t.diameter) →
      (∀ t ∈ ts, inside t (center g c) → ∃ l, lm tol t = some l ∧ areaFraction t (center g c 2) l = some (af t)) →
      cell tol g ts c = some (((ts.filter fun t => inside t (center g c)).getLast?.map fun t => (t.id : ℝ)).getD (-1),
        ((ts.filter fun t => inside t (center g c)).map fun t => t.cd * af t).sum) := by
  intro ts
  induction ts using List.reverseRecOn with
  | nil => intro _ _; simp [cell]
  | append_singleton ts t ih =>
    intro hd ha
    have ih' := ih (fun t ht => hd t (by simp [ht])) (fun t ht => ha t (by simp [ht]))
    unfold cell at ih' ⊢
    rw [List.foldlM_append, ih']
    simp only [Option.bind_eq_bind, Option.bind_some, List.foldlM_cons, List.foldlM_nil]
    by_cases hin : inside t (center g c)
    · obtain ⟨l, hl, hal⟩ := ha t (by simp) hin
      have hb := box_complete hg hc (hd t (by simp)) hin
      have : plant tol g c (((ts.filter fun t => inside t (center g c)).getLast?.map fun t => (t.id : ℝ)).getD (-1),
          ((ts.filter fun t => inside t (center g c)).map fun t => t.cd * af t).sum) t
          = some ((t.id : ℝ), ((ts.filter fun t => inside t (center g c)).map fun t => t.cd * af t).sum + t.cd * af t) := by
        unfold plant; rw [if_pos ⟨hb, hin⟩, hl]
        simp only [Option.bind_eq_bind, Option.bind_some, hal]; rfl
      rw [this, List.filter_append]
      simp [hin]
    · have : ∀ s, plant tol g c s t = some s := by
        intro s; unfold plant; rw [if_neg fun h => hin h.2]
      rw [this, List.filter_append]
      simp [hin]

/-- C84: the force of a forest is opposite to the wind and takes the power `drag |u|^3`. -/
theorem forest_power (drag : ℝ) (u : Vec ℝ) : dot (source drag u) u = -(drag * mag u ^ 3) ∧ source drag u = (-(drag * mag u)) • u := by
  have hm : mag u = √(u.x * u.x + u.y * u.y + u.z * u.z) := rfl
  have hs : mag u ^ 2 = u.x * u.x + u.y * u.y + u.z * u.z := by
    rw [hm, Real.sq_sqrt]; nlinarith [mul_self_nonneg u.x, mul_self_nonneg u.y, mul_self_nonneg u.z]
  constructor
  · rw [show mag u ^ 3 = mag u ^ 2 * mag u by ring, hs]
    simp only [source, dot, ← hm]; ring
  · ext <;> simp only [source, ← hm, smul_x, smul_y, smul_z] <;> ring

/-! ## The file -/

/-- The tokens of a record. -/
def record (t : Tree) : List (Option ℝ) :=
  [some t.kind, some t.x, some t.y, some t.height, some t.diameter, some t.cd, some t.lai, some t.laimax]

theorem readFrom_spec (rest : List (Option ℝ)) : ∀ (ts : List Tree) (n : ℕ), (∀ (i : ℕ) (t : Tree), ts[i]? = some t → t.id = n + i) →
    readFrom n (ts.flatMap record ++ rest) = ts ++ readFrom (n + ts.length) rest
  | [], n, _ => by simp
  | t :: ts, n, h => by
    have h0 := h 0 t (by simp)
    have ih := readFrom_spec rest ts (n + 1) fun i s hs => by have := h (i + 1) s (by simpa using hs); omega
    have e : (t :: ts).flatMap record ++ rest = some t.kind :: some t.x :: some t.y :: some t.height :: some t.diameter :: some t.cd ::
        some t.lai :: some t.laimax :: (ts.flatMap record ++ rest) := by simp [record]
    rw [e]
    have e2 : readFrom n (some t.kind :: some t.x :: some t.y :: some t.height :: some t.diameter :: some t.cd ::
        some t.lai :: some t.laimax :: (ts.flatMap record ++ rest))
        = ⟨n, t.kind, t.x, t.y, t.height, t.diameter, t.cd, t.lai, t.laimax⟩ :: readFrom (n + 1) (ts.flatMap record ++ rest) := rfl
    rw [e2, ih, List.length_cons, show n + 1 + ts.length = n + (ts.length + 1) by omega]
    have h0' : n = t.id := by omega
    rw [List.cons_append]
    congr 1
    cases t; simp_all

/-- C84: a file of complete records gives the forests it lists, numbered in order.

Partial (C84). Missing: files with a header line, which give no forest (`header_no_forest`). -/
theorem read_spec_partial {ts : List Tree} (h : ∀ (i : ℕ) (t : Tree), ts[i]? = some t → t.id = i) : read (ts.flatMap record) = ts := by
  have := readFrom_spec [] ts 0 (fun i t ht => by rw [h i t ht]; omega)
  simpa [read, readFrom] using this

/-- A disagreement: a header line, or any word, silently ends the list of forests; with a header there are none. -/
theorem header_no_forest {ts : List Tree} (h : ∀ (i : ℕ) (t : Tree), ts[i]? = some t → t.id = i) (rest : List (Option ℝ)) :
    read (none :: rest) = [] ∧ read (ts.flatMap record ++ none :: rest) = ts := by
  have h0 : ∀ n, readFrom n (none :: rest) = [] := fun n => rfl
  refine ⟨h0 0, ?_⟩
  have := readFrom_spec (none :: rest) ts 0 (fun i t ht => by rw [h i t ht]; omega)
  rw [read, this, h0]; simp

/-! ## Disagreements of the drag -/

/-- A disagreement: at the height of the forest itself, which counts as inside, a forest of kind 2 has no number. -/
theorem top_undefined {t : Tree} (hk : t.kind = 2) (l : ℝ) : areaFraction t t.height l = none := by
  unfold areaFraction shape
  rw [if_neg (by rw [hk]; norm_num), if_pos hk]; simp

/-- A disagreement: heights are absolute.  In a domain that starts at -100 a uniform forest of height 20 fills the air below 0
too, with six times the leaf area index of the file. -/
theorem height_absolute : ∃ t : Tree, t.kind = 1 ∧ t.height = 20 ∧ (∀ z, z ≤ 20 → inside t ![0, 0, z]) ∧
    ∀ z l, ∃ a, areaFraction t z l = some a ∧ ∫ _z in (-100 : ℝ)..t.height, a = 6 * t.lai := by
  refine ⟨⟨0, 1, 0, 0, 20, 10, 1, 2, 1⟩, rfl, rfl, fun z hz => ⟨by simpa using hz, by simp⟩, fun z l => ⟨2 / 20, ?_, ?_⟩⟩
  · unfold areaFraction; norm_num
  · rw [intervalIntegral.integral_const, smul_eq_mul]; norm_num

/-- A disagreement: a forest of an unknown kind is accepted and has no drag. -/
theorem unknown_kind {t : Tree} (h1 : t.kind ≠ 1) (h2 : t.kind ≠ 2) (tol z : ℝ) : lm tol t = some 0 ∧ areaFraction t z 0 = some 0 := by
  unfold lm areaFraction
  rw [if_neg h2, if_neg h1, if_neg h2]; simp

/-! Concrete cases. -/

example : ∃ l, lm (1 / 10 ^ 12) ⟨0, 2, 0, 0, 20, 10, 0.2, 6, 0.8⟩ = some l ∧ 0 ≤ l := by
  obtain ⟨l, a, b, _⟩ := profile_total (t := ⟨0, 2, 0, 0, 20, 10, 0.2, 6, 0.8⟩) (tol := 1 / 10 ^ 12) rfl (by norm_num) (by norm_num)
    (by norm_num) (by norm_num) (by norm_num)
  exact ⟨l, a, b⟩

example : read [some 1, some 1024, some 512, some 45, some 200, some 0.2, some 6, some 0.8]
    = [⟨0, 1, 1024, 512, 45, 200, 0.2, 6, 0.8⟩] := rfl

end AmrWind.Forest
