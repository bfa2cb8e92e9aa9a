import Verif.Fvm.Model
import Mathlib.Data.Matrix.Mul
import Mathlib.LinearAlgebra.Matrix.Trace
import Mathlib.LinearAlgebra.Matrix.Notation
import Mathlib.Tactic.Ring
import Mathlib.Tactic.Linarith
import Mathlib.Tactic.FieldSimp
import Mathlib.Tactic.FinCases

/-!
# C79: derivatives, strain rate, vorticity, Q-criterion, filter and curvature
-/

set_option linter.unusedSectionVars false

namespace AmrWind.Fvm

variable {K : Type*} [Field K] [LinearOrder K] [IsStrictOrderedRing K]

/-! ## Which stencil a cell gets -/

/-- Next to which boundary is index `i` of a direction? -/
def kindAt (per : Bool) (dlo dhi i : ℤ) : Kind :=
  if per then .mid else if i = dlo then .lo else if i = dhi then .hi else .mid

/-- The stencil a cell should get. -/
def stenAt (g : Geom K) (i j k : ℤ) : Sten :=
  ⟨kindAt g.perx g.dom.ilo g.dom.ihi i, kindAt g.pery g.dom.jlo g.dom.jhi j, kindAt g.perz g.dom.klo g.dom.khi k⟩

/-- A tile of the domain; the domain has two cells or more in every direction that is not periodic. -/
structure TileOk (g : Geom K) (t : Box) : Prop where
  ilo : g.dom.ilo ≤ t.ilo
  ihi : t.ihi ≤ g.dom.ihi
  jlo : g.dom.jlo ≤ t.jlo
  jhi : t.jhi ≤ g.dom.jhi
  klo : g.dom.klo ≤ t.klo
  khi : t.khi ≤ g.dom.khi
  tx : g.perx = false → g.dom.ilo < g.dom.ihi
  ty : g.pery = false → g.dom.jlo < g.dom.jhi
  tz : g.perz = false → g.dom.klo < g.dom.khi

theorem layer_iff {k : Kind} {per : Bool} {dlo dhi tlo thi i : ℤ} (h1 : dlo ≤ tlo) (h2 : thi ≤ dhi) (h3 : tlo ≤ i) (h4 : i ≤ thi)
    (h5 : per = false → dlo < dhi) : layer k per dlo dhi tlo thi i ↔ k = .mid ∨ k = kindAt per dlo dhi i := by
  cases per with
  | true => cases k <;> simp [layer, kindAt]
  | false =>
    have h6 := h5 rfl
    cases k with
    | mid => simp [layer]
    | lo =>
      by_cases e : i = dlo
      · simp only [layer, kindAt, e, true_and, if_true]
        have : tlo = dlo := by omega
        simp [this]
      · have : ¬(tlo = dlo ∧ i = tlo) := by omega
        by_cases e2 : i = dhi
        · have e3 : ¬ dhi = dlo := by omega
          simp only [layer, kindAt]
          subst e2
          simp [this, e3]
        · simp only [layer, kindAt]
          simp [this, e, e2]
    | hi =>
      by_cases e : i = dlo
      · have : ¬(thi = dhi ∧ i = thi) := by omega
        simp only [layer, kindAt]
        simp [e]
        omega
      · by_cases e2 : i = dhi
        · have : thi = dhi ∧ i = thi := by omega
          simp only [layer, kindAt]
          simp [this, e, e2]
          omega
        · have : ¬(thi = dhi ∧ i = thi) := by omega
          simp only [layer, kindAt]
          simp [this, e, e2]

/-- Does a stencil apply to a cell of kind `q`? -/
def fits (q s : Sten) : Bool :=
  (s.x = .mid ∨ s.x = q.x) ∧ (s.y = .mid ∨ s.y = q.y) ∧ (s.z = .mid ∨ s.z = q.z)

theorem inBox_iff {g : Geom K} {t : Box} (ht : TileOk g t) {i j k : ℤ} (hc : t.has i j k) (s : Sten) :
    inBox g t s i j k ↔ fits (stenAt g i j k) s = true := by
  obtain ⟨h1, h2, h3, h4, h5, h6⟩ := hc
  unfold inBox
  rw [layer_iff ht.ilo ht.ihi h1 h2 ht.tx, layer_iff ht.jlo ht.jhi h3 h4 ht.ty, layer_iff ht.klo ht.khi h5 h6 ht.tz]
  unfold fits stenAt
  rw [decide_eq_true_iff]
  simp [Box.has, h1, h2, h3, h4, h5, h6]

/-- Of the stencils that apply, the last is the right one. -/
theorem last_fits (q : Sten) : order.foldl (fun acc s => if fits q s then s else acc) ⟨.mid, .mid, .mid⟩ = q := by
  rcases q with ⟨x, y, z⟩
  cases x <;> cases y <;> cases z <;> decide

theorem foldl_write {V : Type*} {g : Geom K} {t : Box} (op : Sten → ℤ → ℤ → ℤ → V) {i j k : ℤ} {q : Sten}
    (h : ∀ s, inBox g t s i j k ↔ fits q s = true) : ∀ (l : List Sten) (out : ℤ → ℤ → ℤ → V) (s0 : Sten),
    out i j k = op s0 i j k →
    (l.foldl (write g t op) out) i j k = op (l.foldl (fun acc s => if fits q s then s else acc) s0) i j k
  | [], _, _, e => e
  | s :: l, out, s0, e => by
    rw [List.foldl_cons, List.foldl_cons]
    apply foldl_write op h
    unfold write
    by_cases hf : fits q s = true
    · rw [if_pos ((h s).mpr hf), if_pos hf]
    · rw [if_neg (fun hh => hf ((h s).mp hh)), if_neg hf, e]

theorem write_outside {V : Type*} {g : Geom K} {t : Box} (op : Sten → ℤ → ℤ → ℤ → V) {i j k : ℤ} (h : ¬ t.has i j k) :
    ∀ (l : List Sten) (out : ℤ → ℤ → ℤ → V), (l.foldl (write g t op) out) i j k = out i j k
  | [], _ => rfl
  | s :: l, out => by
    rw [List.foldl_cons, write_outside op h l]
    unfold write
    rw [if_neg (fun hh => h hh.1)]

theorem applyTile_spec {V : Type*} {g : Geom K} {t : Box} (ht : TileOk g t) (op : Sten → ℤ → ℤ → ℤ → V)
    (out : ℤ → ℤ → ℤ → V) (i j k : ℤ) :
    applyTile g op out t i j k = if t.has i j k then op (stenAt g i j k) i j k else out i j k := by
  unfold applyTile
  by_cases hc : t.has i j k
  · rw [if_pos hc]
    have h0 : write g t op out ⟨.mid, .mid, .mid⟩ i j k = op ⟨.mid, .mid, .mid⟩ i j k := by
      unfold write
      rw [if_pos ((inBox_iff ht hc _).mpr (by simp [fits]))]
    by_cases hs : g.dom.strictly t
    · have e : stenAt g i j k = ⟨.mid, .mid, .mid⟩ := by
        obtain ⟨s1, s2, s3, s4, s5, s6⟩ := hs
        obtain ⟨h1, h2, h3, h4, h5, h6⟩ := hc
        have a1 : ¬ i = g.dom.ilo := by omega
        have a2 : ¬ i = g.dom.ihi := by omega
        have a3 : ¬ j = g.dom.jlo := by omega
        have a4 : ¬ j = g.dom.jhi := by omega
        have a5 : ¬ k = g.dom.klo := by omega
        have a6 : ¬ k = g.dom.khi := by omega
        simp [stenAt, kindAt, a1, a2, a3, a4, a5, a6]
      simp only [if_pos hs, h0, e]
    · simp only [if_neg hs]
      rw [foldl_write op (fun s => inBox_iff ht hc s) order _ _ h0, last_fits]
  · rw [if_neg hc]
    have h0 : write g t op out ⟨.mid, .mid, .mid⟩ i j k = out i j k := by
      unfold write
      rw [if_neg (fun hh => hc hh.1)]
    by_cases hs : g.dom.strictly t
    · simp only [if_pos hs, h0]
    · simp only [if_neg hs]
      rw [write_outside op hc, h0]

/-- C79: whatever the boxes and tiles, every cell they cover gets the operator with the stencil of its place in the domain
(one-sided exactly next to boundaries that are not periodic), and no other cell is written. -/
theorem apply_spec {V : Type*} {g : Geom K} (op : Sten → ℤ → ℤ → ℤ → V) : ∀ (tiles : List Box) (out : ℤ → ℤ → ℤ → V),
    (∀ t ∈ tiles, TileOk g t) → ∀ i j k,
    apply g op tiles out i j k = if ∃ t ∈ tiles, t.has i j k then op (stenAt g i j k) i j k else out i j k
  | [], out, _, i, j, k => by simp [apply]
  | t :: ts, out, ht, i, j, k => by
    have ih := apply_spec op ts (applyTile g op out t) (fun t h => ht t (by simp [h])) i j k
    have e : apply g op (t :: ts) out = apply g op ts (applyTile g op out t) := rfl
    rw [e, ih, applyTile_spec (ht t (by simp))]
    by_cases h1 : ∃ t ∈ ts, t.has i j k
    · have h2 : ∃ t' ∈ t :: ts, t'.has i j k := by
        obtain ⟨t', h, h'⟩ := h1
        exact ⟨t', by simp [h], h'⟩
      rw [if_pos h1, if_pos h2]
    · by_cases h2 : t.has i j k
      · rw [if_neg h1, if_pos h2, if_pos ⟨t, by simp, h2⟩]
      · have h3 : ¬ ∃ t' ∈ t :: ts, t'.has i j k := by
          rintro ⟨t', h, h'⟩
          rcases List.mem_cons.mp h with rfl | h
          · exact h2 h'
          · exact h1 ⟨t', h, h'⟩
        rw [if_neg h1, if_neg h2, if_neg h3]

/-! ## Exactness -/

/-- Where the value with index `i` of a direction is: the cell centre; beyond a boundary that is not periodic, the
boundary. -/
def coord (per : Bool) (dlo dhi : ℤ) (plo h : K) (i : ℤ) : K :=
  if per = false ∧ i < dlo then plo + (dlo : K) * h
  else if per = false ∧ dhi < i then plo + ((dhi : K) + 1) * h
  else plo + ((i : K) + 1 / 2) * h

/-- The three coordinates. -/
def Geom.px (g : Geom K) (i : ℤ) : K := coord g.perx g.dom.ilo g.dom.ihi g.plox g.dx i

@[inherit_doc Geom.px]
def Geom.py (g : Geom K) (j : ℤ) : K := coord g.pery g.dom.jlo g.dom.jhi g.ploy g.dy j

@[inherit_doc Geom.px]
def Geom.pz (g : Geom K) (k : ℤ) : K := coord g.perz g.dom.klo g.dom.khi g.ploz g.dz k

theorem coord_steps {per : Bool} {dlo dhi : ℤ} {plo h : K} {i : ℤ} (h1 : dlo ≤ i) (h2 : i ≤ dhi) (h3 : per = false → dlo < dhi) :
    coord per dlo dhi plo h (i + 1) = coord per dlo dhi plo h i + (if kindAt per dlo dhi i = .hi then h / 2 else h) ∧
    coord per dlo dhi plo h (i - 1) = coord per dlo dhi plo h i - (if kindAt per dlo dhi i = .lo then h / 2 else h) := by
  have n1 : ¬(per = false ∧ i < dlo) := by omega
  have n2 : ¬(per = false ∧ dhi < i) := by omega
  have n3 : ¬(per = false ∧ i + 1 < dlo) := by omega
  have n4 : ¬(per = false ∧ dhi < i - 1) := by omega
  unfold coord
  rw [if_neg n1, if_neg n2, if_neg n3, if_neg n4]
  cases per with
  | true =>
    have e : kindAt true dlo dhi i = .mid := by simp [kindAt]
    rw [e]
    simp only [Bool.true_eq_false, false_and, if_false, reduceCtorEq]
    push_cast
    constructor <;> ring
  | false =>
    have h4 := h3 rfl
    simp only [true_and]
    by_cases e1 : i = dlo
    · have e2 : ¬ dhi < i + 1 := by omega
      have e3 : i - 1 < dlo := by omega
      have ek : kindAt false dlo dhi i = .lo := by simp [kindAt, e1]
      rw [ek, if_neg e2, if_pos e3, e1]
      simp only [reduceCtorEq, if_false, if_true]
      push_cast
      constructor <;> ring
    · have e3 : ¬ i - 1 < dlo := by omega
      by_cases e4 : i = dhi
      · have e2 : dhi < i + 1 := by omega
        have ek : kindAt false dlo dhi i = .hi := by
          unfold kindAt
          simp only [Bool.false_eq_true, if_false]
          rw [if_neg e1, if_pos e4]
        rw [ek, if_pos e2, if_neg e3, e4]
        simp only [reduceCtorEq, if_false, if_true]
        push_cast
        constructor <;> ring
      · have e2 : ¬ dhi < i + 1 := by omega
        have ek : kindAt false dlo dhi i = .mid := by
          unfold kindAt
          simp only [Bool.false_eq_true, if_false]
          rw [if_neg e1, if_neg e4]
        rw [ek, if_neg e2, if_neg e3]
        simp only [reduceCtorEq, if_false]
        push_cast
        constructor <;> ring

/-- The coefficients are exact for quadratics. -/
theorem first_exact (q : Kind) {h : K} (hh : h ≠ 0) (a b c x : K) :
    q.first.sum (a + b * (x + if q = .hi then h / 2 else h) + c * (x + if q = .hi then h / 2 else h) ^ 2) (a + b * x + c * x ^ 2)
      (a + b * (x - if q = .lo then h / 2 else h) + c * (x - if q = .lo then h / 2 else h) ^ 2) * (1 / h) = b + 2 * c * x := by
  cases q <;> simp only [Kind.first, Coef.sum, reduceCtorEq, if_true, if_false] <;> field_simp <;> ring

@[inherit_doc first_exact]
theorem second_exact (q : Kind) {h : K} (hh : h ≠ 0) (a b c x : K) :
    q.second.sum (a + b * (x + if q = .hi then h / 2 else h) + c * (x + if q = .hi then h / 2 else h) ^ 2) (a + b * x + c * x ^ 2)
      (a + b * (x - if q = .lo then h / 2 else h) + c * (x - if q = .lo then h / 2 else h) ^ 2) * (1 / h) * (1 / h) = 2 * c := by
  cases q <;> simp only [Kind.second, Coef.sum, reduceCtorEq, if_true, if_false] <;> field_simp <;> ring

/-- A quadratic function of three variables. -/
structure Quad (K : Type*) where
  a : K
  bx : K
  bY : K
  bz : K
  cxx : K
  cyy : K
  czz : K
  cxy : K
  cxz : K
  cyz : K

/-- Its value. -/
def Quad.val (q : Quad K) (x y z : K) : K :=
  q.a + q.bx * x + q.bY * y + q.bz * z + q.cxx * x ^ 2 + q.cyy * y ^ 2 + q.czz * z ^ 2 + q.cxy * x * y + q.cxz * x * z + q.cyz * y * z

/-- Its partial derivatives. -/
def Quad.dx (q : Quad K) (x y z : K) : K := q.bx + 2 * q.cxx * x + q.cxy * y + q.cxz * z

@[inherit_doc Quad.dx]
def Quad.dy (q : Quad K) (x y z : K) : K := q.bY + 2 * q.cyy * y + q.cxy * x + q.cyz * z

@[inherit_doc Quad.dx]
def Quad.dz (q : Quad K) (x y z : K) : K := q.bz + 2 * q.czz * z + q.cxz * x + q.cyz * y

/-- A cell of a proper domain. -/
structure CellOk (g : Geom K) (i j k : ℤ) : Prop where
  cell : g.dom.has i j k
  tx : g.perx = false → g.dom.ilo < g.dom.ihi
  ty : g.pery = false → g.dom.jlo < g.dom.jhi
  tz : g.perz = false → g.dom.klo < g.dom.khi
  dx : g.dx ≠ 0
  dy : g.dy ≠ 0
  dz : g.dz ≠ 0

/-- Around the cell the data are the values of the function: at cell centres, and at the boundary for ghost cells. -/
def Samples (g : Geom K) (f : ℤ → ℤ → ℤ → K) (u : K → K → K → K) (i j k : ℤ) : Prop :=
  ∀ a b c : ℤ, |a - i| ≤ 1 → |b - j| ≤ 1 → |c - k| ≤ 1 → f a b c = u (g.px a) (g.py b) (g.pz c)

theorem ddx_exact {g : Geom K} {f : ℤ → ℤ → ℤ → K} {q : Quad K} {i j k : ℤ} (hc : CellOk g i j k) {J L : ℤ}
    (h : ∀ a : ℤ, |a - i| ≤ 1 → f a J L = q.val (g.px a) (g.py J) (g.pz L)) :
    ddx g (stenAt g i j k) f i J L = q.dx (g.px i) (g.py J) (g.pz L) := by
  obtain ⟨hcell, tx, ty, tz, hdx, hdy, hdz⟩ := hc
  have st := coord_steps (plo := g.plox) (h := g.dx) hcell.1 hcell.2.1 tx
  have e := first_exact (stenAt g i j k).x hdx (q.a + q.bY * g.py J + q.bz * g.pz L + q.cyy * g.py J ^ 2 + q.czz * g.pz L ^ 2 + q.cyz * g.py J * g.pz L)
    (q.bx + q.cxy * g.py J + q.cxz * g.pz L) q.cxx (g.px i)
  unfold ddx
  rw [h (i + 1) (by simp), h i (by simp), h (i - 1) (by simp)]
  have e1 : g.px (i + 1) = g.px i + if (stenAt g i j k).x = .hi then g.dx / 2 else g.dx := st.1
  have e2 : g.px (i - 1) = g.px i - if (stenAt g i j k).x = .lo then g.dx / 2 else g.dx := st.2
  rw [e1, e2]
  refine Eq.trans ?_ (e.trans ?_)
  · congr 1
    skip
    unfold Coef.sum Quad.val
    ring
  · unfold Quad.dx
    ring

theorem d2x_exact {g : Geom K} {f : ℤ → ℤ → ℤ → K} {q : Quad K} {i j k : ℤ} (hc : CellOk g i j k) {J L : ℤ}
    (h : ∀ a : ℤ, |a - i| ≤ 1 → f a J L = q.val (g.px a) (g.py J) (g.pz L)) :
    d2x g (stenAt g i j k) f i J L = 2 * q.cxx := by
  obtain ⟨hcell, tx, ty, tz, hdx, hdy, hdz⟩ := hc
  have st := coord_steps (plo := g.plox) (h := g.dx) hcell.1 hcell.2.1 tx
  have e := second_exact (stenAt g i j k).x hdx (q.a + q.bY * g.py J + q.bz * g.pz L + q.cyy * g.py J ^ 2 + q.czz * g.pz L ^ 2 + q.cyz * g.py J * g.pz L)
    (q.bx + q.cxy * g.py J + q.cxz * g.pz L) q.cxx (g.px i)
  unfold d2x
  rw [h (i + 1) (by simp), h i (by simp), h (i - 1) (by simp)]
  have e1 : g.px (i + 1) = g.px i + if (stenAt g i j k).x = .hi then g.dx / 2 else g.dx := st.1
  have e2 : g.px (i - 1) = g.px i - if (stenAt g i j k).x = .lo then g.dx / 2 else g.dx := st.2
  rw [e1, e2]
  refine Eq.trans ?_ (e.trans ?_)
  · congr 1
    congr 1
    unfold Coef.sum Quad.val
    ring
  · rfl

theorem ddy_exact {g : Geom K} {f : ℤ → ℤ → ℤ → K} {q : Quad K} {i j k : ℤ} (hc : CellOk g i j k) {J L : ℤ}
    (h : ∀ a : ℤ, |a - j| ≤ 1 → f J a L = q.val (g.px J) (g.py a) (g.pz L)) :
    ddy g (stenAt g i j k) f J j L = q.dy (g.px J) (g.py j) (g.pz L) := by
  obtain ⟨hcell, tx, ty, tz, hdx, hdy, hdz⟩ := hc
  have st := coord_steps (plo := g.ploy) (h := g.dy) hcell.2.2.1 hcell.2.2.2.1 ty
  have e := first_exact (stenAt g i j k).y hdy (q.a + q.bx * g.px J + q.bz * g.pz L + q.cxx * g.px J ^ 2 + q.czz * g.pz L ^ 2 + q.cxz * g.px J * g.pz L)
    (q.bY + q.cxy * g.px J + q.cyz * g.pz L) q.cyy (g.py j)
  unfold ddy
  rw [h (j + 1) (by simp), h j (by simp), h (j - 1) (by simp)]
  have e1 : g.py (j + 1) = g.py j + if (stenAt g i j k).y = .hi then g.dy / 2 else g.dy := st.1
  have e2 : g.py (j - 1) = g.py j - if (stenAt g i j k).y = .lo then g.dy / 2 else g.dy := st.2
  rw [e1, e2]
  refine Eq.trans ?_ (e.trans ?_)
  · congr 1
    skip
    unfold Coef.sum Quad.val
    ring
  · unfold Quad.dy
    ring

theorem d2y_exact {g : Geom K} {f : ℤ → ℤ → ℤ → K} {q : Quad K} {i j k : ℤ} (hc : CellOk g i j k) {J L : ℤ}
    (h : ∀ a : ℤ, |a - j| ≤ 1 → f J a L = q.val (g.px J) (g.py a) (g.pz L)) :
    d2y g (stenAt g i j k) f J j L = 2 * q.cyy := by
  obtain ⟨hcell, tx, ty, tz, hdx, hdy, hdz⟩ := hc
  have st := coord_steps (plo := g.ploy) (h := g.dy) hcell.2.2.1 hcell.2.2.2.1 ty
  have e := second_exact (stenAt g i j k).y hdy (q.a + q.bx * g.px J + q.bz * g.pz L + q.cxx * g.px J ^ 2 + q.czz * g.pz L ^ 2 + q.cxz * g.px J * g.pz L)
    (q.bY + q.cxy * g.px J + q.cyz * g.pz L) q.cyy (g.py j)
  unfold d2y
  rw [h (j + 1) (by simp), h j (by simp), h (j - 1) (by simp)]
  have e1 : g.py (j + 1) = g.py j + if (stenAt g i j k).y = .hi then g.dy / 2 else g.dy := st.1
  have e2 : g.py (j - 1) = g.py j - if (stenAt g i j k).y = .lo then g.dy / 2 else g.dy := st.2
  rw [e1, e2]
  refine Eq.trans ?_ (e.trans ?_)
  · congr 1
    congr 1
    unfold Coef.sum Quad.val
    ring
  · rfl

theorem ddz_exact {g : Geom K} {f : ℤ → ℤ → ℤ → K} {q : Quad K} {i j k : ℤ} (hc : CellOk g i j k) {J L : ℤ}
    (h : ∀ a : ℤ, |a - k| ≤ 1 → f J L a = q.val (g.px J) (g.py L) (g.pz a)) :
    ddz g (stenAt g i j k) f J L k = q.dz (g.px J) (g.py L) (g.pz k) := by
  obtain ⟨hcell, tx, ty, tz, hdx, hdy, hdz⟩ := hc
  have st := coord_steps (plo := g.ploz) (h := g.dz) hcell.2.2.2.2.1 hcell.2.2.2.2.2 tz
  have e := first_exact (stenAt g i j k).z hdz (q.a + q.bx * g.px J + q.bY * g.py L + q.cxx * g.px J ^ 2 + q.cyy * g.py L ^ 2 + q.cxy * g.px J * g.py L)
    (q.bz + q.cxz * g.px J + q.cyz * g.py L) q.czz (g.pz k)
  unfold ddz
  rw [h (k + 1) (by simp), h k (by simp), h (k - 1) (by simp)]
  have e1 : g.pz (k + 1) = g.pz k + if (stenAt g i j k).z = .hi then g.dz / 2 else g.dz := st.1
  have e2 : g.pz (k - 1) = g.pz k - if (stenAt g i j k).z = .lo then g.dz / 2 else g.dz := st.2
  rw [e1, e2]
  refine Eq.trans ?_ (e.trans ?_)
  · congr 1
    skip
    unfold Coef.sum Quad.val
    ring
  · unfold Quad.dz
    ring

theorem d2z_exact {g : Geom K} {f : ℤ → ℤ → ℤ → K} {q : Quad K} {i j k : ℤ} (hc : CellOk g i j k) {J L : ℤ}
    (h : ∀ a : ℤ, |a - k| ≤ 1 → f J L a = q.val (g.px J) (g.py L) (g.pz a)) :
    d2z g (stenAt g i j k) f J L k = 2 * q.czz := by
  obtain ⟨hcell, tx, ty, tz, hdx, hdy, hdz⟩ := hc
  have st := coord_steps (plo := g.ploz) (h := g.dz) hcell.2.2.2.2.1 hcell.2.2.2.2.2 tz
  have e := second_exact (stenAt g i j k).z hdz (q.a + q.bx * g.px J + q.bY * g.py L + q.cxx * g.px J ^ 2 + q.cyy * g.py L ^ 2 + q.cxy * g.px J * g.py L)
    (q.bz + q.cxz * g.px J + q.cyz * g.py L) q.czz (g.pz k)
  unfold d2z
  rw [h (k + 1) (by simp), h k (by simp), h (k - 1) (by simp)]
  have e1 : g.pz (k + 1) = g.pz k + if (stenAt g i j k).z = .hi then g.dz / 2 else g.dz := st.1
  have e2 : g.pz (k - 1) = g.pz k - if (stenAt g i j k).z = .lo then g.dz / 2 else g.dz := st.2
  rw [e1, e2]
  refine Eq.trans ?_ (e.trans ?_)
  · congr 1
    congr 1
    unfold Coef.sum Quad.val
    ring
  · rfl

/-- The mixed derivatives. -/
theorem dxy_exact {g : Geom K} {f : ℤ → ℤ → ℤ → K} {q : Quad K} {i j k : ℤ} (hc : CellOk g i j k)
    (h : Samples g f q.val i j k) : dxy g (stenAt g i j k) f i j k = q.cxy := by
  have e : ∀ a : ℤ, |a - i| ≤ 1 → ddy g (stenAt g i j k) f a j k = q.dy (g.px a) (g.py j) (g.pz k) := fun a ha =>
    ddy_exact hc (fun b hb => h a b k ha hb (by simp))
  have := ddx_exact (f := ddy g (stenAt g i j k) f) (q := ⟨q.bY, q.cxy, 2 * q.cyy, q.cyz, 0, 0, 0, 0, 0, 0⟩) hc (J := j) (L := k)
    (fun a ha => by rw [e a ha]; unfold Quad.dy Quad.val; ring)
  refine Eq.trans this ?_
  unfold Quad.dx
  ring

@[inherit_doc dxy_exact]
theorem dxz_exact {g : Geom K} {f : ℤ → ℤ → ℤ → K} {q : Quad K} {i j k : ℤ} (hc : CellOk g i j k)
    (h : Samples g f q.val i j k) : dxz g (stenAt g i j k) f i j k = q.cxz := by
  have e : ∀ a : ℤ, |a - i| ≤ 1 → ddz g (stenAt g i j k) f a j k = q.dz (g.px a) (g.py j) (g.pz k) := fun a ha =>
    ddz_exact hc (fun b hb => h a j b ha (by simp) hb)
  have := ddx_exact (f := ddz g (stenAt g i j k) f) (q := ⟨q.bz, q.cxz, q.cyz, 2 * q.czz, 0, 0, 0, 0, 0, 0⟩) hc (J := j) (L := k)
    (fun a ha => by rw [e a ha]; unfold Quad.dz Quad.val; ring)
  refine Eq.trans this ?_
  unfold Quad.dx
  ring

@[inherit_doc dxy_exact]
theorem dyz_exact {g : Geom K} {f : ℤ → ℤ → ℤ → K} {q : Quad K} {i j k : ℤ} (hc : CellOk g i j k)
    (h : Samples g f q.val i j k) : dyz g (stenAt g i j k) f i j k = q.cyz := by
  have e : ∀ a : ℤ, |a - j| ≤ 1 → ddz g (stenAt g i j k) f i a k = q.dz (g.px i) (g.py a) (g.pz k) := fun a ha =>
    ddz_exact hc (fun b hb => h i a b (by simp) ha hb)
  have := ddy_exact (f := ddz g (stenAt g i j k) f) (q := ⟨q.bz, q.cxz, q.cyz, 2 * q.czz, 0, 0, 0, 0, 0, 0⟩) hc (J := i) (L := k)
    (fun a ha => by rw [e a ha]; unfold Quad.dz Quad.val; ring)
  refine Eq.trans this ?_
  unfold Quad.dy
  ring

/-! ## C79 -/

/-- The velocity gradient of three quadratics. -/
def exactGrad (U V W : Quad K) (x y z : K) : Grad K :=
  ⟨U.dx x y z, U.dy x y z, U.dz x y z, V.dx x y z, V.dy x y z, V.dz x y z, W.dx x y z, W.dy x y z, W.dz x y z⟩

/-- The tiles are good and cover the cell. -/
structure Covered (g : Geom K) (tiles : List Box) (i j k : ℤ) : Prop where
  good : ∀ t ∈ tiles, TileOk g t
  cell : ∃ t ∈ tiles, t.has i j k
  dx : g.dx ≠ 0
  dy : g.dy ≠ 0
  dz : g.dz ≠ 0

theorem Covered.ok {g : Geom K} {tiles : List Box} {i j k : ℤ} (h : Covered g tiles i j k) : CellOk g i j k := by
  obtain ⟨ht, ⟨t, hm, hc⟩, h1, h2, h3⟩ := h
  have := ht t hm
  obtain ⟨c1, c2, c3, c4, c5, c6⟩ := hc
  exact ⟨⟨this.ilo.trans c1, c2.trans this.ihi, this.jlo.trans c3, c4.trans this.jhi, this.klo.trans c5, c6.trans this.khi⟩,
    this.tx, this.ty, this.tz, h1, h2, h3⟩

theorem Samples.grad {g : Geom K} {f : ℤ → ℤ → ℤ → K} {q : Quad K} {i j k : ℤ} (hc : CellOk g i j k) (h : Samples g f q.val i j k) :
    ddx g (stenAt g i j k) f i j k = q.dx (g.px i) (g.py j) (g.pz k) ∧
    ddy g (stenAt g i j k) f i j k = q.dy (g.px i) (g.py j) (g.pz k) ∧
    ddz g (stenAt g i j k) f i j k = q.dz (g.px i) (g.py j) (g.pz k) :=
  ⟨ddx_exact hc (fun a ha => h a j k ha (by simp) (by simp)), ddy_exact hc (fun a ha => h i a k (by simp) ha (by simp)),
    ddz_exact hc (fun a ha => h i j a (by simp) (by simp) ha)⟩

/-- C79: the gradient of a quadratic field is exact in every cell of every level, also next to boundaries (where ghost cells
hold the boundary value) and whatever the boxes. -/
theorem gradient_exact {g : Geom K} {f : ℤ → ℤ → ℤ → K} {q : Quad K} {tiles : List Box} {i j k : ℤ} (out : ℤ → ℤ → ℤ → K × K × K)
    (hc : Covered g tiles i j k) (h : Samples g f q.val i j k) :
    apply g (fun s i j k => (ddx g s f i j k, ddy g s f i j k, ddz g s f i j k)) tiles out i j k =
      (q.dx (g.px i) (g.py j) (g.pz k), q.dy (g.px i) (g.py j) (g.pz k), q.dz (g.px i) (g.py j) (g.pz k)) := by
  rw [apply_spec _ _ _ hc.good, if_pos hc.cell]
  obtain ⟨e1, e2, e3⟩ := h.grad hc.ok
  rw [e1, e2, e3]

/-- C79: the same for the divergence. -/
theorem divergence_exact {g : Geom K} {u v w : ℤ → ℤ → ℤ → K} {U V W : Quad K} {tiles : List Box} {i j k : ℤ} (out : ℤ → ℤ → ℤ → K)
    (hc : Covered g tiles i j k) (hu : Samples g u U.val i j k) (hv : Samples g v V.val i j k) (hw : Samples g w W.val i j k) :
    apply g (divergence g u v w) tiles out i j k =
      U.dx (g.px i) (g.py j) (g.pz k) + V.dy (g.px i) (g.py j) (g.pz k) + W.dz (g.px i) (g.py j) (g.pz k) := by
  rw [apply_spec _ _ _ hc.good, if_pos hc.cell]
  unfold divergence
  rw [(hu.grad hc.ok).1, (hv.grad hc.ok).2.1, (hw.grad hc.ok).2.2]

/-- C79: the velocity gradient from which strain rate, vorticity, Q-criterion are computed. -/
theorem velGrad_exact {g : Geom K} {u v w : ℤ → ℤ → ℤ → K} {U V W : Quad K} {i j k : ℤ} (hc : CellOk g i j k)
    (hu : Samples g u U.val i j k) (hv : Samples g v V.val i j k) (hw : Samples g w W.val i j k) :
    velGrad g u v w (stenAt g i j k) i j k = exactGrad U V W (g.px i) (g.py j) (g.pz k) := by
  unfold velGrad exactGrad
  rw [(hu.grad hc).1, (hu.grad hc).2.1, (hu.grad hc).2.2, (hv.grad hc).1, (hv.grad hc).2.1, (hv.grad hc).2.2,
    (hw.grad hc).1, (hw.grad hc).2.1, (hw.grad hc).2.2]

/-- C79: any quantity derived from the velocity gradient is that of the exact gradient. -/
theorem derived_exact {V' : Type*} {g : Geom K} {u v w : ℤ → ℤ → ℤ → K} {U V W : Quad K} {tiles : List Box} {i j k : ℤ}
    (F : Grad K → V') (out : ℤ → ℤ → ℤ → V') (hc : Covered g tiles i j k) (hu : Samples g u U.val i j k)
    (hv : Samples g v V.val i j k) (hw : Samples g w W.val i j k) :
    apply g (fun s i j k => F (velGrad g u v w s i j k)) tiles out i j k = F (exactGrad U V W (g.px i) (g.py j) (g.pz k)) := by
  rw [apply_spec _ _ _ hc.good, if_pos hc.cell, velGrad_exact hc.ok hu hv hw]

/-- C79 (part: not the Laplacian of a field): the Laplacian operator adds the second derivative in `x` of the first component, in
`y` of the second and in `z` of the third. -/
theorem laplacian_partial {g : Geom K} {u v w : ℤ → ℤ → ℤ → K} {U V W : Quad K} {tiles : List Box} {i j k : ℤ} (out : ℤ → ℤ → ℤ → K)
    (hc : Covered g tiles i j k) (hu : Samples g u U.val i j k) (hv : Samples g v V.val i j k) (hw : Samples g w W.val i j k) :
    apply g (laplacian g u v w) tiles out i j k = 2 * U.cxx + 2 * V.cyy + 2 * W.czz := by
  rw [apply_spec _ _ _ hc.good, if_pos hc.cell]
  unfold laplacian
  rw [d2x_exact hc.ok (fun a ha => hu a j k ha (by simp) (by simp)), d2y_exact hc.ok (fun a ha => hv i a k (by simp) ha (by simp)),
    d2z_exact hc.ok (fun a ha => hw i j a (by simp) (by simp) ha)]

/-! ### The invariants -/

open Matrix

/-- The gradient as a matrix `∂uᵢ/∂xⱼ`. -/
def Grad.mat (L : Grad K) : Matrix (Fin 3) (Fin 3) K := !![L.ux, L.uy, L.uz; L.vx, L.vy, L.vz; L.wx, L.wy, L.wz]

/-- The rate of strain. -/
def Grad.S (L : Grad K) : Matrix (Fin 3) (Fin 3) K := (1 / 2 : K) • (L.mat + L.matᵀ)

/-- The rate of rotation. -/
def Grad.W (L : Grad K) : Matrix (Fin 3) (Fin 3) K := (1 / 2 : K) • (L.mat - L.matᵀ)

/-- `A : A`. -/
def frob (A : Matrix (Fin 3) (Fin 3) K) : K := ∑ a, ∑ b, A a b ^ 2

/-- C79: the strain rate is `√(2 S:S)`, a non-negative number; it vanishes just for rigid motions. -/
theorem strain_spec (L : Grad ℝ) : L.strain ^ 2 = 2 * frob L.S ∧ 0 ≤ L.strain ∧ (L.strain = 0 ↔ L.S = 0) := by
  have e : L.strainSqr = 2 * frob L.S := by
    simp [Grad.strainSqr, frob, Grad.S, Grad.mat, Fin.sum_univ_three]
    ring
  have p : 0 ≤ L.strainSqr := by unfold Grad.strainSqr; positivity
  refine ⟨by rw [Grad.strain, Real.sq_sqrt p, e], Real.sqrt_nonneg _, ?_⟩
  constructor
  · intro h
    have h1 : L.strainSqr = 0 := (Real.sqrt_eq_zero p).mp h
    rw [e] at h1
    have h2 : frob L.S = 0 := by linarith
    unfold frob at h2
    have h3 := (Finset.sum_eq_zero_iff_of_nonneg (fun a _ => Finset.sum_nonneg (fun b _ => sq_nonneg _))).mp h2
    ext a b
    have h4 := (Finset.sum_eq_zero_iff_of_nonneg (fun b _ => sq_nonneg _)).mp (h3 a (Finset.mem_univ a)) b (Finset.mem_univ b)
    simpa using h4
  · intro h
    rw [Grad.strain, e, h]
    simp [frob]

/-- C79: the vorticity is the curl (twice the angular velocity of the rotation), its magnitude the length of it. -/
theorem vort_spec (L : Grad K) (v : Fin 3 → K) :
    (2 : K) • L.W.mulVec v = ![L.vort.2.1 * v 2 - L.vort.2.2 * v 1, L.vort.2.2 * v 0 - L.vort.1 * v 2, L.vort.1 * v 1 - L.vort.2.1 * v 0] := by
  ext a
  fin_cases a <;> simp [Grad.W, Grad.mat, Grad.vort, Matrix.mulVec, dotProduct, Fin.sum_univ_three] <;> ring

@[inherit_doc vort_spec]
theorem vortMag_spec (L : Grad ℝ) :
    0 ≤ L.vortMag ∧ L.vortMag ^ 2 = L.vort.1 ^ 2 + L.vort.2.1 ^ 2 + L.vort.2.2 ^ 2 ∧ L.vortMag ^ 2 = 2 * frob L.W := by
  have p : 0 ≤ (L.uy - L.vx) ^ 2 + (L.vz - L.wy) ^ 2 + (L.wx - L.uz) ^ 2 := by positivity
  refine ⟨Real.sqrt_nonneg _, ?_, ?_⟩ <;> rw [Grad.vortMag, Real.sq_sqrt p]
  · simp only [Grad.vort]
    ring
  · simp [frob, Grad.W, Grad.mat, Fin.sum_univ_three]
    ring

/-- C79: the Q-criterion is `½(|Ω|² - |S|²)`, the second invariant of the velocity gradient. -/
theorem qcrit_spec (meps : K) (L : Grad K) :
    L.qcrit meps false = 1 / 2 * (frob L.W - frob L.S) ∧ L.qcrit meps false = -(1 / 2) * (L.mat * L.mat).trace := by
  constructor
  · simp [Grad.qcrit, Grad.w2, Grad.s2, frob, Grad.W, Grad.S, Grad.mat, Fin.sum_univ_three]
    ring
  · simp [Grad.qcrit, Grad.w2, Grad.s2, Grad.mat, Matrix.trace, Fin.sum_univ_three, Matrix.mul_apply]
    ring

/-- C79: the non-dimensional Q-criterion is at least `-½`, is positive just where rotation beats strain, and is `Q/|S|²` where the
strain is not tiny. -/
theorem qcrit_nondim_spec {meps : K} (hm : 0 < meps) (L : Grad K) :
    -(1 / 2) ≤ L.qcrit meps true ∧ (0 < L.qcrit meps true ↔ max (meps * 100) (frob L.S) < frob L.W) ∧
    (meps * 100 ≤ frob L.S → L.qcrit meps true = L.qcrit meps false / frob L.S) := by
  have e1 : L.w2 = frob L.W := by
    simp [Grad.w2, frob, Grad.W, Grad.mat, Fin.sum_univ_three]
    ring
  have e2 : L.s2 = frob L.S := by
    simp [Grad.s2, frob, Grad.S, Grad.mat, Fin.sum_univ_three]
    ring
  have p1 : 0 ≤ frob L.W := Finset.sum_nonneg (fun a _ => Finset.sum_nonneg (fun b _ => sq_nonneg _))
  have p3 : 0 < meps * 100 := by linarith
  have p2 : 0 < max (meps * 100) (frob L.S) := lt_max_of_lt_left p3
  simp only [Grad.qcrit, if_true, Bool.false_eq_true, if_false, e1, e2]
  refine ⟨?_, ?_, ?_⟩
  · have := div_nonneg p1 p2.le
    linarith
  · have : 1 < frob L.W / max (meps * 100) (frob L.S) ↔ max (meps * 100) (frob L.S) < frob L.W := one_lt_div p2
    rw [← this]
    constructor <;> intro h <;> linarith
  · intro h
    have : 0 < frob L.S := lt_of_lt_of_le p3 h
    rw [max_eq_right h]
    field_simp

/-- C79: filtering stays between the smallest and the largest of the seven values and keeps linear functions. -/
theorem filter_bounded (s : Sten) (f : ℤ → ℤ → ℤ → K) (i j k : ℤ) {lo hi : K}
    (h : ∀ a b c : ℤ, |a - i| + |b - j| + |c - k| ≤ 1 → lo ≤ f a b c ∧ f a b c ≤ hi) :
    lo ≤ filterOp s f i j k ∧ filterOp s f i j k ≤ hi := by
  have aux : ∀ (q : Kind) (p c m : K), lo ≤ p ∧ p ≤ hi → lo ≤ c ∧ c ≤ hi → lo ≤ m ∧ m ≤ hi →
      lo ≤ q.filter.sum p c m ∧ q.filter.sum p c m ≤ hi := by
    intro q p c m h1 h2 h3
    obtain ⟨a1, a2⟩ := h1
    obtain ⟨b1, b2⟩ := h2
    obtain ⟨c1, c2⟩ := h3
    cases q <;> simp only [Kind.filter, Coef.sum] <;> constructor <;> linarith
  have h0 := h i j k (by simp)
  obtain ⟨x1, x2⟩ := aux s.x _ _ _ (h (i + 1) j k (by simp)) h0 (h (i - 1) j k (by simp))
  obtain ⟨y1, y2⟩ := aux s.y _ _ _ (h i (j + 1) k (by simp)) h0 (h i (j - 1) k (by simp))
  obtain ⟨z1, z2⟩ := aux s.z _ _ _ (h i j (k + 1) (by simp)) h0 (h i j (k - 1) (by simp))
  unfold filterOp
  constructor <;> linarith

@[inherit_doc filter_bounded]
theorem filter_affine {g : Geom K} {f : ℤ → ℤ → ℤ → K} {q : Quad K} {tiles : List Box} {i j k : ℤ} (out : ℤ → ℤ → ℤ → K)
    (hc : Covered g tiles i j k) (h : Samples g f q.val i j k) (h1 : q.cxx = 0) (h2 : q.cyy = 0) (h3 : q.czz = 0) :
    apply g (fun s => filterOp s f) tiles out i j k = f i j k := by
  rw [apply_spec _ _ _ hc.good, if_pos hc.cell]
  obtain ⟨hcell, tx, ty, tz, -, -, -⟩ := hc.ok
  have sx := coord_steps (plo := g.plox) (h := g.dx) hcell.1 hcell.2.1 tx
  have sy := coord_steps (plo := g.ploy) (h := g.dy) hcell.2.2.1 hcell.2.2.2.1 ty
  have sz := coord_steps (plo := g.ploz) (h := g.dz) hcell.2.2.2.2.1 hcell.2.2.2.2.2 tz
  have x1 : g.px (i + 1) = g.px i + if (stenAt g i j k).x = .hi then g.dx / 2 else g.dx := sx.1
  have x2 : g.px (i - 1) = g.px i - if (stenAt g i j k).x = .lo then g.dx / 2 else g.dx := sx.2
  have y1 : g.py (j + 1) = g.py j + if (stenAt g i j k).y = .hi then g.dy / 2 else g.dy := sy.1
  have y2 : g.py (j - 1) = g.py j - if (stenAt g i j k).y = .lo then g.dy / 2 else g.dy := sy.2
  have z1 : g.pz (k + 1) = g.pz k + if (stenAt g i j k).z = .hi then g.dz / 2 else g.dz := sz.1
  have z2 : g.pz (k - 1) = g.pz k - if (stenAt g i j k).z = .lo then g.dz / 2 else g.dz := sz.2
  have aux : ∀ (q : Kind) (a b x d : K), q.filter.sum (a + b * (x + if q = .hi then d / 2 else d)) (a + b * x)
      (a + b * (x - if q = .lo then d / 2 else d)) = a + b * x := by
    intro q a b x d
    cases q <;> simp only [Kind.filter, Coef.sum, reduceCtorEq, if_true, if_false] <;> ring
  have lx : ∀ y z x : K, q.val x y z = (q.a + q.bY * y + q.bz * z + q.cyz * y * z) + (q.bx + q.cxy * y + q.cxz * z) * x := by
    intro y z x; unfold Quad.val; rw [h1, h2, h3]; ring
  have ly : ∀ x z y : K, q.val x y z = (q.a + q.bx * x + q.bz * z + q.cxz * x * z) + (q.bY + q.cxy * x + q.cyz * z) * y := by
    intro x z y; unfold Quad.val; rw [h1, h2, h3]; ring
  have lz : ∀ x y z : K, q.val x y z = (q.a + q.bx * x + q.bY * y + q.cxy * x * y) + (q.bz + q.cxz * x + q.cyz * y) * z := by
    intro x y z; unfold Quad.val; rw [h1, h2, h3]; ring
  unfold filterOp
  rw [h (i + 1) j k (by simp) (by simp) (by simp), h (i - 1) j k (by simp) (by simp) (by simp), h i (j + 1) k (by simp) (by simp) (by simp),
    h i (j - 1) k (by simp) (by simp) (by simp), h i j (k + 1) (by simp) (by simp) (by simp), h i j (k - 1) (by simp) (by simp) (by simp),
    h i j k (by simp) (by simp) (by simp), x1, x2, y1, y2, z1, z2]
  have ex := aux (stenAt g i j k).x (q.a + q.bY * g.py j + q.bz * g.pz k + q.cyz * g.py j * g.pz k)
    (q.bx + q.cxy * g.py j + q.cxz * g.pz k) (g.px i) g.dx
  have ey := aux (stenAt g i j k).y (q.a + q.bx * g.px i + q.bz * g.pz k + q.cxz * g.px i * g.pz k)
    (q.bY + q.cxy * g.px i + q.cyz * g.pz k) (g.py j) g.dy
  have ez := aux (stenAt g i j k).z (q.a + q.bx * g.px i + q.bY * g.py j + q.cxy * g.px i * g.py j)
    (q.bz + q.cxz * g.px i + q.cyz * g.py j) (g.pz k) g.dz
  rw [← lx, ← lx, ← lx] at ex
  rw [← ly, ← ly, ← ly] at ey
  rw [← lz, ← lz, ← lz] at ez
  rw [ex, ey, ez]
  ring

/-! ### Curvature -/

/-- The curvature `-div (∇φ/|∇φ|)` of a quadratic: `-(|∇φ|² Δφ - ∇φᵀ H ∇φ)/|∇φ|³`. -/
noncomputable def Quad.curv (q : Quad ℝ) (x y z : ℝ) : ℝ :=
  let n := ![q.dx x y z, q.dy x y z, q.dz x y z]
  let H : Matrix (Fin 3) (Fin 3) ℝ := !![2 * q.cxx, q.cxy, q.cxz; q.cxy, 2 * q.cyy, q.cyz; q.cxz, q.cyz, 2 * q.czz];
  -((n ⬝ᵥ n) * H.trace - n ⬝ᵥ H.mulVec n) / Real.sqrt (n ⬝ᵥ n) ^ 3

/-- C79 (part: where the gradient does not vanish; elsewhere the code divides zero by zero): the curvature of a quadratic field is
exact. -/
theorem curvature_partial {g : Geom ℝ} {f : ℤ → ℤ → ℤ → ℝ} {q : Quad ℝ} {tiles : List Box} {i j k : ℤ}
    (out : ℤ → ℤ → ℤ → Option ℝ) (hc : Covered g tiles i j k) (h : Samples g f q.val i j k)
    (hn : ¬(q.dx (g.px i) (g.py j) (g.pz k) = 0 ∧ q.dy (g.px i) (g.py j) (g.pz k) = 0 ∧ q.dz (g.px i) (g.py j) (g.pz k) = 0)) :
    apply g (curvature g f) tiles out i j k = some (q.curv (g.px i) (g.py j) (g.pz k)) := by
  rw [apply_spec _ _ _ hc.good, if_pos hc.cell]
  unfold curvature Quad.curv
  rw [(h.grad hc.ok).1, (h.grad hc.ok).2.1, (h.grad hc.ok).2.2, d2x_exact hc.ok (fun a ha => h a j k ha (by simp) (by simp)),
    d2y_exact hc.ok (fun a ha => h i a k (by simp) ha (by simp)), d2z_exact hc.ok (fun a ha => h i j a (by simp) (by simp) ha),
    dxy_exact hc.ok h, dxz_exact hc.ok h, dyz_exact hc.ok h]
  generalize q.dx (g.px i) (g.py j) (g.pz k) = a at hn ⊢
  generalize q.dy (g.px i) (g.py j) (g.pz k) = b at hn ⊢
  generalize q.dz (g.px i) (g.py j) (g.pz k) = c at hn ⊢
  have hp : 0 ≤ a * a + b * b + c * c := by
    nlinarith [mul_self_nonneg a, mul_self_nonneg b, mul_self_nonneg c]
  have h0 : a * a + b * b + c * c ≠ 0 := by
    intro h0
    refine hn ⟨?_, ?_, ?_⟩ <;> nlinarith [mul_self_nonneg a, mul_self_nonneg b, mul_self_nonneg c]
  have e3 : Real.sqrt (a * a + b * b + c * c) ^ 3 = (a * a + b * b + c * c) * Real.sqrt (a * a + b * b + c * c) := by
    rw [pow_succ, Real.sq_sqrt hp]
  simp only [if_neg h0, Option.some.injEq]
  simp only [dotProduct, Fin.sum_univ_three, Matrix.mulVec, Matrix.trace, Matrix.diag, Matrix.cons_val_zero, Matrix.cons_val_one,
      Matrix.cons_val, Matrix.of_apply]
  rw [e3]
  congr 1
  ring

/-- The squared distance to a point, scaled. -/
def Quad.sphere (c x0 y0 z0 e : ℝ) : Quad ℝ :=
  ⟨c * (x0 ^ 2 + y0 ^ 2 + z0 ^ 2) + e, -2 * c * x0, -2 * c * y0, -2 * c * z0, c, c, c, 0, 0, 0⟩

/-- C79: around a centre at distance `r` the curvature is `-2/r` (a check of the formula against geometry). -/
theorem sphere_curvature {c x0 y0 z0 e x y z r : ℝ} (hc : 0 < c) (hr : 0 < r)
    (h : (x - x0) ^ 2 + (y - y0) ^ 2 + (z - z0) ^ 2 = r ^ 2) :
    (Quad.sphere c x0 y0 z0 e).val x y z = c * r ^ 2 + e ∧ (Quad.sphere c x0 y0 z0 e).curv x y z = -2 / r := by
  constructor
  · unfold Quad.sphere Quad.val
    rw [← h]
    ring
  · unfold Quad.curv Quad.sphere Quad.dx Quad.dy Quad.dz
    simp only [dotProduct, Fin.sum_univ_three, Matrix.mulVec, Matrix.trace, Matrix.diag, Matrix.cons_val_zero, Matrix.cons_val_one,
      Matrix.cons_val, Matrix.of_apply]
    have e1 : (-2 * c * x0 + 2 * c * x + 0 * y + 0 * z) * (-2 * c * x0 + 2 * c * x + 0 * y + 0 * z) +
        (-2 * c * y0 + 2 * c * y + 0 * x + 0 * z) * (-2 * c * y0 + 2 * c * y + 0 * x + 0 * z) +
        (-2 * c * z0 + 2 * c * z + 0 * x + 0 * y) * (-2 * c * z0 + 2 * c * z + 0 * x + 0 * y) = (2 * c * r) ^ 2 := by
      rw [mul_pow (2 * c) r, ← h]
      ring
    have p : 0 < 2 * c * r := by positivity
    rw [e1, Real.sqrt_sq p.le]
    rw [div_eq_div_iff (by positivity) hr.ne']
    have e2 : ∀ a b d : ℝ, a * (2 * c * a + 0 * b + 0 * d) + b * (0 * a + 2 * c * b + 0 * d) + d * (0 * a + 0 * b + 2 * c * d) =
        2 * c * (a * a + b * b + d * d) := fun a b d => by ring
    rw [e2, e1]
    ring

/-! ### What does not hold -/

/-- The non-linear term `L L - L Lᵀ + 3 Lᵀ L + Lᵀ Lᵀ` that nonLinearSum.H spells out. -/
def Grad.N (L : Grad K) : Matrix (Fin 3) (Fin 3) K := L.mat * L.mat - L.mat * L.matᵀ + (3 : K) • (L.matᵀ * L.mat) + L.matᵀ * L.matᵀ

/-- It is `4 (S S + S Ω - Ω S)` and so symmetric. -/
theorem N_eq (L : Grad K) : L.N = (4 : K) • (L.S * L.S + (L.S * L.W - L.W * L.S)) ∧ L.Nᵀ = L.N := by
  constructor
  · ext a b
    fin_cases a <;> fin_cases b <;>
      simp only [Grad.N, Grad.S, Grad.W, Matrix.add_apply, Matrix.sub_apply, Matrix.smul_apply, Matrix.mul_apply, Fin.sum_univ_three,
        Matrix.transpose_apply] <;> simp [Grad.mat] <;> ring
  · ext a b
    fin_cases a <;> fin_cases b <;>
      simp only [Grad.N, Matrix.add_apply, Matrix.sub_apply, Matrix.smul_apply, Matrix.mul_apply, Fin.sum_univ_three,
        Matrix.transpose_apply] <;> simp [Grad.mat] <;> ring

/-- C79 (part: seven of the nine components): the non-linear term of the subgrid model. -/
theorem nonlinear_partial (L : Grad K) (a b : Fin 3) (h : ¬(a = 1 ∧ b = 1) ∧ ¬(a = 1 ∧ b = 2)) : L.nonlinear a b = L.N a b := by
  fin_cases a <;> fin_cases b <;> first
    | (exfalso; revert h; decide)
    | (simp only [Grad.N, Matrix.add_apply, Matrix.sub_apply, Matrix.smul_apply, Matrix.mul_apply, Fin.sum_univ_three,
        Matrix.transpose_apply]; simp [Grad.nonlinear, Grad.mat] <;> ring)

/-- C79 does not hold in full: the other two use a wrong derivative, so the tensor is not
symmetric. -/
theorem nonlinear_wrong : ∃ L : Grad ℚ, L.nonlinear 1 1 ≠ L.N 1 1 ∧ L.nonlinear 1 2 ≠ L.N 1 2 ∧ L.nonlinear 1 2 ≠ L.nonlinear 2 1 := by
  exact ⟨⟨0, 1, 1, 0, 0, 0, 0, 0, 0⟩, by decide +kernel, by decide +kernel, by decide +kernel⟩

/-- By how much: in each the derivative `u_y` is multiplied by a wrong partner. -/
theorem nonlinear_error (L : Grad K) : L.nonlinear 1 1 = L.N 1 1 + 3 * L.uy * (L.vx - L.uy) ∧ L.nonlinear 1 2 = L.N 1 2 + 3 * L.uy * (L.wx - L.uz) := by
  constructor <;>
  · simp only [Grad.N, Matrix.add_apply, Matrix.sub_apply, Matrix.smul_apply, Matrix.mul_apply, Fin.sum_univ_three, Matrix.transpose_apply]
    simp [Grad.nonlinear, Grad.mat]
    ring

/-- A unit grid of eight cells a side, one box, walls in `z`. -/
def demo : Geom ℚ := ⟨⟨0, 0, 0, 7, 7, 7⟩, true, true, false, 0, 0, 0, 1, 1, 1⟩

/-- C79 does not hold in full: the Laplacian of a field that does depend on position in a direction other than that of its component
is zero. -/
theorem laplacian_wrong : ∃ (u v w : ℤ → ℤ → ℤ → ℚ) (U V W : Quad ℚ), (∀ i j k, Samples demo u U.val i j k ∧ Samples demo v V.val i j k ∧
    Samples demo w W.val i j k) ∧ 2 * U.cxx + 2 * U.cyy + 2 * U.czz = 2 ∧
    apply demo (laplacian demo u v w) [demo.dom] (fun _ _ _ => 5) 3 3 3 = 0 := by
  refine ⟨fun i j k => (demo.py j) ^ 2, fun _ _ _ => 0, fun _ _ _ => 0, ⟨0, 0, 0, 0, 0, 1, 0, 0, 0, 0⟩, ⟨0, 0, 0, 0, 0, 0, 0, 0, 0, 0⟩,
    ⟨0, 0, 0, 0, 0, 0, 0, 0, 0, 0⟩, ?_, ?_, by decide +kernel⟩
  · intro i j k
    refine ⟨?_, ?_, ?_⟩ <;> intro a b c _ _ _ <;> simp [Quad.val]
  · norm_num

/-- C79 does not hold in full: in a domain one cell thick between two walls the derivative of a linear field is wrong (the hypothesis
on the thickness is needed). -/
theorem thin_wrong : ∃ (g : Geom ℚ) (q : Quad ℚ) (f : ℤ → ℤ → ℤ → ℚ), g.dom.klo = g.dom.khi ∧ (∀ i j k, Samples g f q.val i j k) ∧
    q.dz (g.px 0) (g.py 0) (g.pz 0) = 1 ∧ apply g (fun s => ddz g s f) [g.dom] (fun _ _ _ => 0) 0 0 0 = 5 / 6 := by
  refine ⟨⟨⟨0, 0, 0, 7, 7, 0⟩, true, true, false, 0, 0, 0, 1, 1, 1⟩, ⟨0, 0, 0, 1, 0, 0, 0, 0, 0, 0⟩,
    fun _ _ k => coord false 0 0 0 1 k, rfl, ?_, by norm_num [Quad.dz], by decide +kernel⟩
  intro i j k a b c _ _ _
  simp [Quad.val, Geom.pz]

/-- C79 does not hold in full: the divergence of the non-linear stress is taken with ghost cells nobody filled: for a stress that is the
same everywhere the result is not zero and depends on the boxes. -/
theorem nonlinear_stress_ghosts : ∃ (n ghost : ℤ → ℤ → ℤ → ℚ) (b b' : Box), (∀ i j k, n i j k = 1) ∧ b.has 3 3 3 ∧ b'.has 3 3 3 ∧
    divN demo n n n ghost b' ⟨.mid, .mid, .mid⟩ 3 3 3 = 0 ∧ divN demo n n n ghost b ⟨.mid, .mid, .mid⟩ 3 3 3 ≠ 0 :=
  ⟨fun _ _ _ => 1, fun _ _ _ => 0, ⟨0, 0, 0, 3, 7, 7⟩, ⟨0, 0, 0, 7, 7, 7⟩, fun _ _ _ => rfl, by decide, by decide, by decide +kernel,
    by decide +kernel⟩

/-! ### Instances -/

/-- Two boxes cover the demonstration domain. -/
def demoTiles : List Box := [⟨0, 0, 0, 3, 7, 7⟩, ⟨4, 0, 0, 7, 7, 7⟩]

theorem demo_covered {i j k : ℤ} (h : demo.dom.has i j k) : Covered demo demoTiles i j k := by
  refine ⟨?_, ?_, by decide +kernel, by decide +kernel, by decide +kernel⟩
  · intro t ht
    rcases List.mem_cons.mp ht with rfl | ht
    · constructor <;> decide
    · rcases List.mem_cons.mp ht with rfl | ht
      · constructor <;> decide
      · cases ht
  · obtain ⟨h1, h2, h3, h4, h5, h6⟩ := h
    simp only [demo] at h1 h2 h3 h4 h5 h6
    by_cases h : i ≤ 3
    · exact ⟨_, List.mem_cons_self, h1, h, h3, h4, h5, h6⟩
    · exact ⟨⟨4, 0, 0, 7, 7, 7⟩, by simp [demoTiles], by simp only; omega, h2, h3, h4, h5, h6⟩

/-- A field with all terms, next to the wall. -/
def demoQuad : Quad ℚ := ⟨1, 2, 3, 4, 5, 6, 7, 8, 9, 10⟩

/-- Its samples. -/
def demoField : ℤ → ℤ → ℤ → ℚ := fun i j k => demoQuad.val (demo.px i) (demo.py j) (demo.pz k)

theorem demo_samples (i j k : ℤ) : Samples demo demoField demoQuad.val i j k := fun _ _ _ _ _ _ => rfl

example : apply demo (fun s i j k => (ddx demo s demoField i j k, ddy demo s demoField i j k, ddz demo s demoField i j k)) demoTiles
    (fun _ _ _ => (0, 0, 0)) 4 2 0 = (2 + 10 * (9 / 2) + 8 * (5 / 2) + 9 * (1 / 2), 3 + 12 * (5 / 2) + 8 * (9 / 2) + 10 * (1 / 2),
      4 + 14 * (1 / 2) + 9 * (9 / 2) + 10 * (5 / 2)) := by
  rw [gradient_exact _ (demo_covered (by decide)) (demo_samples 4 2 0)]
  norm_num [Quad.dx, Quad.dy, Quad.dz, Geom.px, Geom.py, Geom.pz, coord, demo, demoQuad]

example : stenAt demo 4 2 0 = ⟨.mid, .mid, .lo⟩ ∧ stenAt demo 0 7 7 = ⟨.mid, .mid, .hi⟩ := by decide +kernel

example : apply demo (divergence demo demoField demoField demoField) demoTiles (fun _ _ _ => 0) 4 2 0 ≠ 0 := by
  rw [divergence_exact _ (demo_covered (by decide)) (demo_samples 4 2 0) (demo_samples 4 2 0) (demo_samples 4 2 0)]
  norm_num [Quad.dx, Quad.dy, Quad.dz, Geom.px, Geom.py, Geom.pz, coord, demo, demoQuad]

example : apply demo (laplacian demo demoField demoField demoField) demoTiles (fun _ _ _ => 0) 4 2 7 = 36 := by
  rw [laplacian_partial _ (demo_covered (by decide)) (demo_samples 4 2 7) (demo_samples 4 2 7) (demo_samples 4 2 7)]
  norm_num [demoQuad]

example : (⟨0, -1, 0, 1, 0, 0, 0, 0, 0⟩ : Grad ℚ).qcrit 0 false = 1 ∧ (⟨0, -1, 0, 1, 0, 0, 0, 0, 0⟩ : Grad ℚ).vort = (0, 0, 2) := by
  decide +kernel

example : (⟨0, -1, 0, 1, 0, 0, 0, 0, 0⟩ : Grad ℝ).strain = 0 := by
  rw [(strain_spec _).2.2]
  ext a b
  fin_cases a <;> fin_cases b <;> norm_num [Grad.S, Grad.mat]

example : filterOp ⟨.mid, .lo, .hi⟩ (fun i j k => if i = 0 ∧ j = 0 ∧ k = 0 then (1 : ℚ) else 0) 0 0 0 = 7 / 12 := by decide +kernel

example : (Quad.sphere 1 0 0 0 0).curv 3 0 4 = -2 / 5 := (sphere_curvature (by norm_num) (by norm_num) (by norm_num)).2

end AmrWind.Fvm
