import Mathlib.Tactic.LinearCombination
import Mathlib.Tactic.FieldSimp
import Mathlib.Tactic.Positivity
import Verif.Sampling.Model
import Verif.Plane.Lemmas

/-!
# C48: samplers place the requested points, and every point belongs to one box
-/

set_option linter.unusedSectionVars false

namespace AmrWind.Sampling

open Plane

theorem boxContains_iff {b : Bx} {c : Cell} : boxContains b c = true ↔ b.Has c := by
  unfold boxContains Bx.Has
  simp only [Bool.and_eq_true, decide_eq_true_eq]
  tauto

/-- Entry `q*m + r` of a concatenation of lists of length `m`. -/
theorem getElem?_flatMap {α β : Type*} (f : α → List β) (m : ℕ) : ∀ (l : List α), (∀ a ∈ l, (f a).length = m) →
    ∀ (q r : ℕ), r < m → (l.flatMap f)[q * m + r]? = (l[q]?).bind fun a => (f a)[r]?
  | [], _, q, r, _ => by simp
  | a :: l, h, 0, r, hr => by
    have ha := h a (by simp)
    simp only [List.flatMap_cons, Nat.zero_mul, Nat.zero_add, List.getElem?_cons_zero, Option.bind_some]
    rw [List.getElem?_append_left (by omega)]
  | a :: l, h, q + 1, r, hr => by
    have ha := h a (by simp)
    simp only [List.flatMap_cons, List.getElem?_cons_succ]
    rw [List.getElem?_append_right (by rw [ha, Nat.add_mul]; omega), ha]
    rw [show (q + 1) * m + r - m = q * m + r by rw [Nat.add_mul]; omega]
    exact getElem?_flatMap f m l (fun b hb => h b (by simp [hb])) q r hr

section
variable {K : Type*} [Field K] [LinearOrder K] [IsStrictOrderedRing K] [FloorRing K]

/-- A domain whose index box starts at zero and matches its extent. -/
structure Geo.Ok (g : Geo K) : Prop where
  dx : ∀ d, 0 < g.dx d
  lo : g.dom.lo = (0, 0, 0)
  phi : ∀ d, g.phi d = g.plo d + (d.idx g.dom.hi + 1) * g.dx d

/-- The boxes of a level: every cell of the domain is in exactly one of them. -/
def Partition (dom : Bx) (boxes : List Bx) : Prop := (boxes.flatMap cells).Perm (cells dom)

/-- Inside the domain, low sides included, high sides excluded. -/
def Inside (g : Geo K) (p : Pos K) : Prop := ∀ d, g.plo d ≤ p d ∧ p d < g.phi d

theorem floor_range {x dx : K} (hdx : 0 < dx) (n : ℤ) : (0 ≤ ⌊x * (1 / dx)⌋ ∧ ⌊x * (1 / dx)⌋ ≤ n) ↔ 0 ≤ x ∧ x < (n + 1) * dx := by
  rw [Int.floor_nonneg, ← Int.lt_add_one_iff, Int.floor_lt, mul_one_div, div_lt_iff₀ hdx]
  have : 0 ≤ x / dx ↔ 0 ≤ x := ⟨fun h => by
    have := mul_nonneg h hdx.le
    rwa [div_mul_cancel₀ _ hdx.ne'] at this, fun h => div_nonneg h hdx.le⟩
  rw [this]
  push_cast
  exact Iff.rfl

theorem domain_cell {g : Geo K} (hg : g.Ok) (p : Pos K) : contains g g.dom p = true ↔ Inside g p := by
  unfold contains
  rw [boxContains_iff]
  unfold Bx.Has cellOf
  rw [hg.lo]
  simp only
  rw [floor_range (hg.dx _), floor_range (hg.dx _), floor_range (hg.dx _)]
  have e : ∀ d : Axis, (0 ≤ p d - g.plo d ∧ p d - g.plo d < ((d.idx g.dom.hi : ℤ) + 1) * g.dx d) ↔
      (g.plo d ≤ p d ∧ p d < g.phi d) := by
    intro d
    rw [hg.phi d]
    constructor
    · rintro ⟨h1, h2⟩; exact ⟨by linarith, by linarith⟩
    · rintro ⟨h1, h2⟩; exact ⟨by linarith, by linarith⟩
  have ex := e .x
  have ey := e .y
  have ez := e .z
  simp only [Axis.idx] at ex ey ez
  constructor
  · rintro ⟨h1, h2, h3⟩ d
    cases d
    · exact ex.mp h1
    · exact ey.mp h2
    · exact ez.mp h3
  · intro h
    exact ⟨ex.mpr (h .x), ey.mpr (h .y), ez.mpr (h .z)⟩

/-- C48: for every partition of the domain, the lists of points of the boxes together are all the points with their
numbers, each once. -/
theorem each_point_one_box {g : Geo K} (hg : g.Ok) {boxes : List Bx} (hp : Partition g.dom boxes) {pts : List (Pos K)}
    (hin : ∀ p ∈ pts, Inside g p) : (boxes.flatMap fun b => located g b pts).Perm pts.zipIdx := by
  have hnd : pts.zipIdx.Nodup := by
    have : (pts.zipIdx.map Prod.snd).Nodup := by
      rw [List.zipIdx_map_snd]
      exact List.nodup_range'
    exact List.Nodup.of_map _ this
  have hcn : (boxes.flatMap cells).Nodup := hp.nodup_iff.mpr (nodup_cells _)
  rw [List.nodup_flatMap] at hcn
  refine (List.perm_ext_iff_of_nodup ?_ hnd).mpr fun q => ?_
  · rw [List.nodup_flatMap]
    refine ⟨fun b _ => hnd.filter _, hcn.2.imp ?_⟩
    intro b b' hd q h1 h2
    simp only [located, List.mem_filter, contains, boxContains_iff] at h1 h2
    exact hd (mem_cells.mpr h1.2) (mem_cells.mpr h2.2)
  · simp only [List.mem_flatMap, located, List.mem_filter]
    constructor
    · rintro ⟨b, -, h, -⟩; exact h
    · intro h
      have hq : q.1 ∈ pts := by
        rw [List.mem_iff_getElem?]
        exact ⟨q.2, by simpa using List.mem_zipIdx_iff_getElem?.mp h⟩
      have hc : contains g g.dom q.1 = true := (domain_cell hg _).mpr (hin _ hq)
      have : cellOf g q.1 ∈ boxes.flatMap cells := hp.mem_iff.mpr (mem_cells.mpr (boxContains_iff.mp hc))
      obtain ⟨b, hb, hbc⟩ := List.mem_flatMap.mp this
      exact ⟨b, hb, h, boxContains_iff.mpr (mem_cells.mp hbc)⟩

/-! ## Moving points inside -/

theorem clampBound_id {tol lo hi x : K} (h1 : lo + tol ≤ x) (h2 : x ≤ hi - tol) : clampBound tol lo hi x = x := by
  unfold clampBound
  simp only [if_neg (not_lt.mpr h1), if_neg (not_lt.mpr h2)]

theorem clampBound_mem {tol lo hi : K} (ht : 0 < tol) (hw : lo + 11 * tol ≤ hi) (x : K) :
    lo + tol ≤ clampBound tol lo hi x ∧ clampBound tol lo hi x ≤ hi - tol := by
  unfold clampBound
  by_cases h1 : x < lo + tol
  · simp only [if_pos h1, if_neg (show ¬ lo + 10 * tol > hi - tol by rw [not_lt]; linarith)]
    constructor <;> linarith
  · simp only [if_neg h1]
    by_cases h2 : x > hi - tol
    · simp only [if_pos h2]
      constructor <;> linarith
    · simp only [if_neg h2]
      constructor <;> linarith

/-- The domain is wider than the tolerance. -/
def Geo.Wide (tol : K) (g : Geo K) : Prop := 0 < tol ∧ ∀ d, g.plo d + 11 * tol ≤ g.phi d

theorem clampPos_inside {tol : K} {g : Geo K} (hw : g.Wide tol) (p : Pos K) : Inside g (clampPos tol g p) := by
  intro d
  have := clampBound_mem hw.1 (hw.2 d) (p d)
  have := hw.1
  unfold clampPos
  constructor <;> linarith [this, hw.1]

/-! ## Lines -/

/-- C48: the points of a line. -/
theorem line_points {n : ℕ} (hn : 2 ≤ n) (s e : Pos K) : (linePoints n s e).length = n ∧
    (∀ i : ℕ, i < n → (linePoints n s e)[i]? = some fun d => s d + i * (e d - s d) / (n - 1)) ∧
    (linePoints n s e).head? = some s ∧ (linePoints n s e).getLast? = some e := by
  have hlen : (linePoints n s e).length = n := by simp [linePoints]
  have hne : (n : K) - 1 ≠ 0 := by
    have : (2 : K) ≤ n := by exact_mod_cast hn
    linarith
  have hm : ((max (n - 1) 1 : ℕ) : K) = n - 1 := by
    rw [max_eq_left (by omega), Nat.cast_sub (by omega)]; simp
  have hget : ∀ i : ℕ, i < n → (linePoints n s e)[i]? = some fun d => s d + i * (e d - s d) / (n - 1) := by
    intro i hi
    unfold linePoints
    rw [List.getElem?_map, List.getElem?_range hi, Option.map_some, hm]
    congr 1
    funext d
    ring
  refine ⟨hlen, hget, ?_, ?_⟩
  · rw [List.head?_eq_getElem?, hget 0 (by omega)]
    congr 1; funext d; simp
  · rw [List.getLast?_eq_getElem?, hlen, hget (n - 1) (by omega)]
    congr 1; funext d
    rw [Nat.cast_sub (by omega), Nat.cast_one]
    field_simp
    ring

/-- C48: a line with one point is its start. -/
theorem line_one (s e : Pos K) : linePoints 1 s e = [s] := by
  unfold linePoints
  simp

theorem between {a b t : K} (h0 : 0 ≤ t) (h1 : t ≤ 1) {lo hi : K} (ha : lo ≤ a ∧ a < hi) (hb : lo ≤ b ∧ b < hi) :
    lo ≤ a + t * (b - a) ∧ a + t * (b - a) < hi := by
  have e1 : a + t * (b - a) - lo = (1 - t) * (a - lo) + t * (b - lo) := by ring
  have e2 : hi - (a + t * (b - a)) = (1 - t) * (hi - a) + t * (hi - b) := by ring
  constructor
  · have := add_nonneg (mul_nonneg (sub_nonneg.mpr h1) (sub_nonneg.mpr ha.1)) (mul_nonneg h0 (sub_nonneg.mpr hb.1))
    linarith
  · rcases h0.eq_or_lt with h | h
    · rw [← h]; simpa using ha.2
    · have := add_pos_of_nonneg_of_pos (mul_nonneg (sub_nonneg.mpr h1) (sub_nonneg.mpr ha.2.le))
        (mul_pos h (sub_pos.mpr hb.2))
      linarith

theorem frac_mem {i m : ℕ} (hm : 0 < m) (hi : i ≤ m) : (0 : K) ≤ i / m ∧ (i : K) / m ≤ 1 := by
  have hm' : (0 : K) < m := by exact_mod_cast hm
  exact ⟨by positivity, by rw [div_le_one hm']; exact_mod_cast hi⟩

/-- C48: a line between two points of the domain stays in the domain. -/
theorem line_inside {g : Geo K} {s e : Pos K} (hs : Inside g s) (he : Inside g e) (n : ℕ) :
    ∀ p ∈ linePoints n s e, Inside g p := by
  intro p hp d
  unfold linePoints at hp
  simp only [List.mem_map, List.mem_range] at hp
  obtain ⟨i, hi, rfl⟩ := hp
  have hf := frac_mem (K := K) (i := i) (m := max (n - 1) 1) (by omega) (by omega)
  have := between hf.1 hf.2 (hs d) (he d)
  beta_reduce
  rw [show (i : K) * ((e d - s d) / ((max (n - 1) 1 : ℕ) : K)) = i / ((max (n - 1) 1 : ℕ) : K) * (e d - s d) by ring]
  exact this

/-- C48: the line sampler for any input. The ends are moved into the domain only if they are outside or within the
tolerance of its sides, all points are inside, and every partition of the domain holds each point once. -/
theorem line_sampler {g : Geo K} (hg : g.Ok) {tol : K} (hw : g.Wide tol) (n : ℕ) (s e : Pos K) :
    ((∀ d, g.plo d + tol ≤ s d ∧ s d ≤ g.phi d - tol) → clampPos tol g s = s) ∧
    (∀ p ∈ linePoints n (clampPos tol g s) (clampPos tol g e), Inside g p) ∧
    ∀ boxes, Partition g.dom boxes →
      (boxes.flatMap fun b => located g b (linePoints n (clampPos tol g s) (clampPos tol g e))).Perm
        (linePoints n (clampPos tol g s) (clampPos tol g e)).zipIdx := by
  have hin := line_inside (clampPos_inside hw s) (clampPos_inside hw e) n
  refine ⟨fun h => ?_, hin, fun boxes hp => each_point_one_box hg hp hin⟩
  funext d
  exact clampBound_id (h d).1 (h d).2

/-! ## Planes -/

/-- C48: the points of the planes, numbered along `axis1`, then `axis2`, then the offsets. -/
theorem plane_points {n1 n2 : ℕ} (h1 : 2 ≤ n1) (h2 : 2 ≤ n2) (o a1 a2 : Pos K) (offs : List K) (v : Pos K) :
    (planePoints n1 n2 o a1 a2 offs v).length = offs.length * (n2 * n1) ∧
    ∀ (k j i : ℕ) (w : K), offs[k]? = some w → j < n2 → i < n1 →
      (planePoints n1 n2 o a1 a2 offs v)[k * (n2 * n1) + (j * n1 + i)]? =
        some fun d => o d + i * a1 d / (n1 - 1) + j * a2 d / (n2 - 1) + w * v d := by
  have hm1 : ((max (n1 - 1) 1 : ℕ) : K) = n1 - 1 := by
    rw [max_eq_left (by omega), Nat.cast_sub (by omega)]; simp
  have hm2 : ((max (n2 - 1) 1 : ℕ) : K) = n2 - 1 := by
    rw [max_eq_left (by omega), Nat.cast_sub (by omega)]; simp
  have hlen : ∀ w : K, ((List.range n2).flatMap fun j : ℕ => (List.range n1).map fun i : ℕ => fun d =>
      o d + a1 d / (max (n1 - 1) 1 : ℕ) * i + a2 d / (max (n2 - 1) 1 : ℕ) * j + w * v d).length = n2 * n1 := by
    intro w; simp [List.length_flatMap]
  constructor
  · unfold planePoints
    rw [List.length_flatMap]
    simp
  · intro k j i w hk hj hi
    unfold planePoints
    rw [getElem?_flatMap _ (n2 * n1) _ (fun w _ => hlen w) k _ (by nlinarith), hk, Option.bind_some,
      getElem?_flatMap _ n1 _ (fun j _ => by simp) j i hi, List.getElem?_range hj, Option.bind_some, List.getElem?_map,
      List.getElem?_range hi, Option.map_some, hm1, hm2]
    congr 1
    funext d
    ring

theorem inDomain_iff {g : Geo K} {p : Pos K} : inDomain g p = true ↔ Inside g p := by
  unfold inDomain Inside
  simp only [List.all_cons, List.all_nil, Bool.and_true, Bool.and_eq_true, Bool.not_eq_true', Bool.or_eq_false_iff,
    decide_eq_false_iff_not, not_lt, ge_iff_le, not_le]
  constructor
  · rintro ⟨h1, h2, h3⟩ d; cases d <;> assumption
  · intro h; exact ⟨h _, h _, h _⟩

/-- C48: all points of the planes are inside the domain if and only if the four corners of every plane are. -/
theorem plane_inside_iff {g : Geo K} {n1 n2 : ℕ} (h1 : 2 ≤ n1) (h2 : 2 ≤ n2) (o a1 a2 : Pos K) (offs : List K)
    (v : Pos K) : (∀ p ∈ planePoints n1 n2 o a1 a2 offs v, Inside g p) ↔
      ∀ w ∈ offs, Inside g (fun d => o d + w * v d) ∧ Inside g (fun d => o d + w * v d + a1 d) ∧
        Inside g (fun d => o d + w * v d + a2 d) ∧ Inside g (fun d => o d + w * v d + a1 d + a2 d) := by
  have c1 : (1 : K) ≤ (n1 : K) - 1 := by
    have : (2 : K) ≤ n1 := by exact_mod_cast h1
    linarith
  have c2 : (1 : K) ≤ (n2 : K) - 1 := by
    have : (2 : K) ≤ n2 := by exact_mod_cast h2
    linarith
  constructor
  · intro h w hw
    obtain ⟨k, hk⟩ := List.mem_iff_getElem?.mp hw
    have q := fun (j i : ℕ) hj hi => h _ (List.mem_of_getElem? ((plane_points h1 h2 o a1 a2 offs v).2 k j i w hk hj hi))
    have e1 : ((n1 - 1 : ℕ) : K) = n1 - 1 := by rw [Nat.cast_sub (by omega)]; simp
    have e2 : ((n2 - 1 : ℕ) : K) = n2 - 1 := by rw [Nat.cast_sub (by omega)]; simp
    have f1 : ∀ a : K, ((n1 - 1 : ℕ) : K) * a / (n1 - 1) = a := fun a => by
      rw [e1, mul_div_assoc, mul_div_cancel₀ _ (by linarith)]
    have f2 : ∀ a : K, ((n2 - 1 : ℕ) : K) * a / (n2 - 1) = a := fun a => by
      rw [e2, mul_div_assoc, mul_div_cancel₀ _ (by linarith)]
    refine ⟨?_, ?_, ?_, ?_⟩
    · have := q 0 0 (by omega) (by omega)
      intro d; have := this d; simpa using this
    · have := q 0 (n1 - 1) (by omega) (by omega)
      intro d; have := this d
      simp only [f1, Nat.cast_zero, zero_mul, zero_div, add_zero] at this
      beta_reduce
      rw [show o d + w * v d + a1 d = o d + a1 d + w * v d by ring]
      exact this
    · have := q (n2 - 1) 0 (by omega) (by omega)
      intro d; have := this d
      simp only [f2, Nat.cast_zero, zero_mul, zero_div, add_zero] at this
      beta_reduce
      rw [show o d + w * v d + a2 d = o d + a2 d + w * v d by ring]
      exact this
    · have := q (n2 - 1) (n1 - 1) (by omega) (by omega)
      intro d; have := this d
      simp only [f1, f2] at this
      beta_reduce
      rw [show o d + w * v d + a1 d + a2 d = o d + a1 d + a2 d + w * v d by ring]
      exact this
  · intro h p hp
    unfold planePoints at hp
    simp only [List.mem_flatMap, List.mem_map, List.mem_range] at hp
    obtain ⟨w, hw, j, hj, i, hi, rfl⟩ := hp
    obtain ⟨q0, q1, q2, q3⟩ := h w hw
    intro d
    have hf := frac_mem (K := K) (i := i) (m := max (n1 - 1) 1) (by omega) (by omega)
    have hf' := frac_mem (K := K) (i := j) (m := max (n2 - 1) 1) (by omega) (by omega)
    have b1 := between hf.1 hf.2 (q0 d) (q1 d)
    have b2 := between hf.1 hf.2 (q2 d) (q3 d)
    have b3 := between hf'.1 hf'.2 b1 b2
    generalize ((max (n1 - 1) 1 : ℕ) : K) = m1 at *
    generalize ((max (n2 - 1) 1 : ℕ) : K) = m2 at *
    have e : o d + a1 d / m1 * (i : K) + a2 d / m2 * j + w * v d =
        o d + w * v d + i / m1 * (o d + w * v d + a1 d - (o d + w * v d)) +
        j / m2 * (o d + w * v d + a2 d + i / m1 * (o d + w * v d + a1 d + a2 d - (o d + w * v d + a2 d)) -
          (o d + w * v d + i / m1 * (o d + w * v d + a1 d - (o d + w * v d)))) := by ring
    beta_reduce
    rw [e]
    exact b3

/-- C48: the plane sampler. It accepts the planes for which three corners of each (after the corrections) are inside; if
the fourth is inside as well, every partition of the domain holds each point once. -/
theorem plane_sampler_partial {g : Geo K} (hg : g.Ok) {tol : K} {n1 n2 : ℕ} (h1 : 2 ≤ n1) (h2 : 2 ≤ n2)
    (o a1 a2 : Pos K) (offs : List K) (v : Pos K) {pts : List (Pos K)}
    (h : planeSampler tol g n1 n2 o a1 a2 offs v = some pts) :
    ∃ o' a1' a2' : Pos K, pts = planePoints n1 n2 o' a1' a2' offs v ∧
      (∀ w ∈ offs, Inside g (fun d => o' d + w * v d) ∧ Inside g (fun d => o' d + w * v d + a1' d) ∧
        Inside g (fun d => o' d + w * v d + a2' d)) ∧
      ((∀ w ∈ offs, Inside g (fun d => o' d + w * v d + a1' d + a2' d)) →
        ∀ boxes, Partition g.dom boxes → (boxes.flatMap fun b => located g b pts).Perm pts.zipIdx) := by
  unfold planeSampler at h
  simp only at h
  set o' : Pos K := fun d => fixOrigin tol (g.plo d) (g.phi d) (o d)
  set a1' : Pos K := fun d => fixAxis tol (g.plo d) (g.phi d) (o' d) (a1 d)
  set a2' : Pos K := fun d => fixAxis tol (g.plo d) (g.phi d) (o' d) (a2 d)
  by_cases hc : (planeCorners o' a1' a2' offs v).all (inDomain g) = true
  · rw [if_pos hc] at h
    have h := (Option.some.inj h).symm
    have hc' : ∀ w ∈ offs, Inside g (fun d => o' d + w * v d) ∧ Inside g (fun d => o' d + w * v d + a1' d) ∧
        Inside g (fun d => o' d + w * v d + a2' d) := by
      intro w hw
      have := List.all_eq_true.mp hc
      unfold planeCorners at this
      simp only [List.mem_flatMap, List.mem_cons, List.not_mem_nil, or_false] at this
      exact ⟨inDomain_iff.mp (this _ ⟨w, hw, Or.inl rfl⟩), inDomain_iff.mp (this _ ⟨w, hw, Or.inr (Or.inl rfl)⟩),
        inDomain_iff.mp (this _ ⟨w, hw, Or.inr (Or.inr rfl)⟩)⟩
    refine ⟨o', a1', a2', h, hc', fun h4 boxes hp => ?_⟩
    refine each_point_one_box hg hp ?_
    rw [h, plane_inside_iff h1 h2]
    exact fun w hw => ⟨(hc' w hw).1, (hc' w hw).2.1, (hc' w hw).2.2, h4 w hw⟩
  · rw [if_neg hc] at h
    exact absurd h (by simp)

/-- C48: a plane whose corners keep a distance from the sides of the domain is sampled as given. -/
theorem plane_unchanged {tol lo hi o a : K} (h1 : 2 * tol ≤ |o - lo|) (h2 : 2 * tol ≤ |o - hi|) (ht : 0 ≤ tol)
    (h3 : 2 * tol ≤ |o + a - lo|) (h4 : 2 * tol ≤ |o + a - hi|) :
    fixOrigin tol lo hi o = o ∧ fixAxis tol lo hi o a = a := by
  unfold fixOrigin fixAxis
  simp only [if_neg (show ¬ |o - lo| < tol by rw [not_lt]; linarith),
    if_neg (show ¬ |o - hi| < tol by rw [not_lt]; linarith), if_neg (not_lt.mpr h3), if_neg (not_lt.mpr h4), and_self]

/-- C48: corners on the sides of the domain are moved inside by at most a few tolerances. -/
theorem plane_corrected {tol lo hi o a : K} (ht : 0 < tol) (hw : lo + 8 * tol ≤ hi) (ho : lo ≤ o ∧ o ≤ hi)
    (ha : lo ≤ o + a ∧ o + a ≤ hi) :
    let o' := fixOrigin tol lo hi o
    let a' := fixAxis tol lo hi o' a
    (lo ≤ o' ∧ o' < hi) ∧ (lo ≤ o' + a' ∧ o' + a' < hi) ∧ |o' - o| ≤ tol ∧ |o' + a' - (o + a)| ≤ 3 * tol := by
  intro o' a'
  have hO : (o < lo + tol ∧ o' = lo + tol) ∨ (lo + tol ≤ o ∧ o ≤ hi - tol ∧ o' = o) ∨
      (hi - tol < o ∧ o' = hi - tol) := by
    by_cases c1 : o < lo + tol
    · left
      refine ⟨c1, ?_⟩
      have : |o - lo| < tol := by rw [abs_lt]; constructor <;> linarith
      have n2 : ¬ |lo + tol - hi| < tol := by
        rw [not_lt, abs_of_nonpos (by linarith)]; linarith
      show fixOrigin tol lo hi o = lo + tol
      unfold fixOrigin
      simp only [if_pos this, if_neg n2]
    · have n1 : ¬ |o - lo| < tol := by rw [not_lt, abs_of_nonneg (by linarith)]; linarith
      by_cases c2 : hi - tol < o
      · right; right
        refine ⟨c2, ?_⟩
        have : |o - hi| < tol := by rw [abs_lt]; constructor <;> linarith
        show fixOrigin tol lo hi o = hi - tol
        unfold fixOrigin
        simp only [if_neg n1, if_pos this]
      · right; left
        have n2 : ¬ |o - hi| < tol := by
          rw [not_lt, abs_of_nonpos (by linarith)]; linarith
        refine ⟨by linarith, by linarith, ?_⟩
        show fixOrigin tol lo hi o = o
        unfold fixOrigin
        simp only [if_neg n1, if_neg n2]
  have hd : |o' - o| ≤ tol := by
    rw [abs_le]
    rcases hO with ⟨c, e⟩ | ⟨c, c', e⟩ | ⟨c, e⟩ <;> rw [e] <;> constructor <;> linarith [ho.1, ho.2]
  have hd' := abs_le.mp hd
  have hA : (o' + a' = lo + 2 * tol ∧ |o' + a - lo| < 2 * tol) ∨ (o' + a' = hi - 2 * tol ∧ |o' + a - hi| < 2 * tol) ∨
      (o' + a' = o' + a ∧ 2 * tol ≤ |o' + a - lo| ∧ 2 * tol ≤ |o' + a - hi|) := by
    by_cases c1 : |o' + a - lo| < 2 * tol
    · left
      have n2 : ¬ |o' + (lo - o' + 2 * tol) - hi| < 2 * tol := by
        rw [not_lt, abs_of_nonpos (by linarith)]; linarith
      refine ⟨?_, c1⟩
      show o' + fixAxis tol lo hi o' a = _
      unfold fixAxis
      simp only [if_pos c1, if_neg n2]
      ring
    · by_cases c2 : |o' + a - hi| < 2 * tol
      · right; left
        refine ⟨?_, c2⟩
        show o' + fixAxis tol lo hi o' a = _
        unfold fixAxis
        simp only [if_neg c1, if_pos c2]
        ring
      · right; right
        refine ⟨?_, not_lt.mp c1, not_lt.mp c2⟩
        show o' + fixAxis tol lo hi o' a = _
        unfold fixAxis
        simp only [if_neg c1, if_neg c2]
  refine ⟨?_, ?_, hd, ?_⟩
  · rcases hO with ⟨c, e⟩ | ⟨c, c', e⟩ | ⟨c, e⟩ <;> rw [e] <;> constructor <;> linarith
  · rcases hA with ⟨e, -⟩ | ⟨e, -⟩ | ⟨e, n1, n2⟩
    · rw [e]; constructor <;> linarith
    · rw [e]; constructor <;> linarith
    · rw [e]
      constructor
      · rcases le_abs.mp n1 with h | h <;> linarith
      · rcases le_abs.mp n2 with h | h <;> linarith
  · rcases hA with ⟨e, q⟩ | ⟨e, q⟩ | ⟨e, -, -⟩
    · have := abs_lt.mp q
      rw [e, abs_le]; constructor <;> linarith
    · have := abs_lt.mp q
      rw [e, abs_le]; constructor <;> linarith
    · rw [e, abs_le]; constructor <;> linarith

/-! ## Volumes and probes -/

/-- C48: the points of a volume: `num_points` intervals, the low corner is the first point. -/
theorem volume_points (n : Axis → ℕ) (lo hi : Pos K) : (volumePoints n lo hi).length = n .z * (n .y * n .x) ∧
    ∀ i j k : ℕ, i < n .x → j < n .y → k < n .z →
      (volumePoints n lo hi)[k * (n .y * n .x) + (j * n .x + i)]? = some fun d =>
        match d with
        | .x => lo .x + i * (hi .x - lo .x) / n .x
        | .y => lo .y + j * (hi .y - lo .y) / n .y
        | .z => lo .z + k * (hi .z - lo .z) / n .z := by
  constructor
  · unfold volumePoints
    simp [List.length_flatMap]
  · intro i j k hi' hj hk
    unfold volumePoints
    rw [getElem?_flatMap _ (n .y * n .x) _ (fun k _ => by simp [List.length_flatMap]) k _ (by nlinarith),
      List.getElem?_range hk, Option.bind_some, getElem?_flatMap _ (n .x) _ (fun j _ => by simp) j i hi',
      List.getElem?_range hj, Option.bind_some, List.getElem?_map, List.getElem?_range hi', Option.map_some]
    congr 1
    funext d
    cases d <;> simp only <;> ring

theorem volume_form {n : Axis → ℕ} {lo hi p : Pos K} (hp : p ∈ volumePoints n lo hi) (d : Axis) :
    ∃ m : ℕ, m < n d ∧ p d = lo d + m / n d * (hi d - lo d) := by
  unfold volumePoints at hp
  simp only [List.mem_flatMap, List.mem_map, List.mem_range] at hp
  obtain ⟨k, hk, j, hj, i, hi', rfl⟩ := hp
  cases d
  · exact ⟨i, hi', by simp only; ring⟩
  · exact ⟨j, hj, by simp only; ring⟩
  · exact ⟨k, hk, by simp only; ring⟩

/-- C48: the volume sampler for any input. -/
theorem volume_sampler {g : Geo K} (hg : g.Ok) {tol : K} (hw : g.Wide tol) (n : Axis → ℕ) (lo hi : Pos K) :
    (∀ p ∈ volumePoints n (clampPos tol g lo) (clampPos tol g hi), Inside g p) ∧
    ∀ boxes, Partition g.dom boxes →
      (boxes.flatMap fun b => located g b (volumePoints n (clampPos tol g lo) (clampPos tol g hi))).Perm
        (volumePoints n (clampPos tol g lo) (clampPos tol g hi)).zipIdx := by
  have hin : ∀ p ∈ volumePoints n (clampPos tol g lo) (clampPos tol g hi), Inside g p := by
    intro p hp d
    obtain ⟨m, hm, e⟩ := volume_form hp d
    have hf := frac_mem (K := K) (i := m) (m := n d) (by omega) hm.le
    rw [e]
    exact between hf.1 hf.2 (clampPos_inside hw lo d) (clampPos_inside hw hi d)
  exact ⟨hin, fun boxes hp => each_point_one_box hg hp hin⟩

/-- The English claim "the volume extends to `hi`" is false: no point reaches the high side, whatever the number of
points. -/
theorem volume_misses_hi (n : Axis → ℕ) {lo hi : Pos K} (h : ∀ d, lo d < hi d) :
    ∀ p ∈ volumePoints n lo hi, ∀ d, p d < hi d := by
  intro p hp d
  obtain ⟨m, hm, e⟩ := volume_form hp d
  have hn : (0 : K) < n d := by exact_mod_cast (by omega : 0 < n d)
  have : (m : K) / n d < 1 := by rw [div_lt_one hn]; exact_mod_cast hm
  have := mul_lt_mul_of_pos_right this (sub_pos.mpr (h d))
  rw [e]; linarith

/-- C48: the probe sampler for any file and offsets. -/
theorem probe_sampler {g : Geo K} (hg : g.Ok) {tol : K} (hw : g.Wide tol) (file : List (Pos K)) (offs : List K)
    (v : Pos K) :
    (∀ (k i : ℕ) (w : K) (q : Pos K), offs[k]? = some w → file[i]? = some q →
      (∀ d, g.plo d + tol ≤ q d + w * v d ∧ q d + w * v d ≤ g.phi d - tol) →
      (probePoints tol g file offs v)[k * file.length + i]? = some fun d => q d + w * v d) ∧
    (probePoints tol g file offs v).length = offs.length * file.length ∧
    ∀ boxes, Partition g.dom boxes → (boxes.flatMap fun b => located g b (probePoints tol g file offs v)).Perm
        (probePoints tol g file offs v).zipIdx := by
  refine ⟨fun k i w q hk hi hq => ?_, ?_, fun boxes hp => each_point_one_box hg hp ?_⟩
  · have hi' : i < file.length := (List.getElem?_eq_some_iff.mp hi).1
    unfold probePoints
    rw [getElem?_flatMap _ file.length _ (fun w _ => by simp) k i hi', hk, Option.bind_some, List.getElem?_map, hi,
      Option.map_some]
    congr 1
    funext d
    exact clampBound_id (hq d).1 (hq d).2
  · unfold probePoints
    simp [List.length_flatMap]
  · intro p hp
    unfold probePoints at hp
    simp only [List.mem_flatMap, List.mem_map] at hp
    obtain ⟨w, -, q, -, rfl⟩ := hp
    exact clampPos_inside hw _

end

/-! ## Examples -/

/-- A domain of 4 by 4 by 2 cells. -/
def exGeo : Geo ℚ := ⟨fun _ => 0, fun d => match d with | .x => 4 | .y => 2 | .z => 2,
  fun d => match d with | .x => 1 | .y => 1 / 2 | .z => 1, ⟨(0, 0, 0), (3, 3, 1)⟩⟩

theorem exGeo_ok : exGeo.Ok := by
  refine ⟨fun d => ?_, rfl, fun d => ?_⟩ <;> cases d <;> norm_num [exGeo, Axis.idx]

/-- Two boxes of it. -/
def exBoxes : List Bx := [⟨(0, 0, 0), (1, 3, 1)⟩, ⟨(2, 0, 0), (3, 3, 1)⟩]

theorem exBoxes_partition : Partition exGeo.dom exBoxes := by
  unfold Partition
  decide +kernel

theorem exGeo_wide : exGeo.Wide (1 / 100) := by
  refine ⟨by norm_num, fun d => ?_⟩
  cases d <;> norm_num [exGeo]

example : (linePoints 3 (fun _ => (1 : ℚ) / 2) fun _ => 3 / 2).length = 3 ∧
    (located exGeo ⟨(0, 0, 0), (1, 3, 1)⟩ (linePoints 3 (fun _ => (1 : ℚ) / 2) fun d => if d = .x then 7 / 2 else 1 / 2)).map
      Prod.snd = [0] ∧
    (located exGeo ⟨(2, 0, 0), (3, 3, 1)⟩ (linePoints 3 (fun _ => (1 : ℚ) / 2) fun d => if d = .x then 7 / 2 else 1 / 2)).map
      Prod.snd = [1, 2] := by
  decide +kernel

/-- The claim that an accepted plane lies in the domain is false: the fourth corner is not tested. Here it is outside;
the program stops later, when the number of particles is compared with the number of points. -/
theorem plane_fourth_corner : ∃ (o a1 a2 : Pos ℚ) (pts : List (Pos ℚ)),
    planeSampler (1 / 1000) exGeo 2 2 o a1 a2 [0] (fun _ => 0) = some pts ∧ (∃ p ∈ pts, ¬ Inside exGeo p) ∧
    initParticles exGeo [pts] exBoxes = none := by
  let o : Pos ℚ := fun _ => 1
  let a1 : Pos ℚ := fun d => match d with | .x => 2 | .y => 1 / 2 | .z => 1 / 2
  let a2 : Pos ℚ := fun d => match d with | .x => 2 | .y => 1 / 4 | .z => 0
  have h : (planeSampler (1 / 1000) exGeo 2 2 o a1 a2 [0] fun _ => 0).any (fun pts =>
      pts.any (fun p => !inDomain exGeo p) && (initParticles exGeo [pts] exBoxes).isNone) = true := by
    decide +kernel
  cases hpts : planeSampler (1 / 1000) exGeo 2 2 o a1 a2 [0] fun _ => 0 with
  | none => rw [hpts] at h; exact absurd h (by simp)
  | some pts =>
  rw [hpts] at h
  have hq := h
  simp only [Option.any_some] at hq
  simp only [Bool.and_eq_true, List.any_eq_true, Option.isNone_iff_eq_none] at hq
  obtain ⟨⟨p, hp, hn⟩, hnone⟩ := hq
  exact ⟨o, a1, a2, pts, hpts, ⟨p, hp, fun hin => by simp [inDomain_iff.mpr hin] at hn⟩, hnone⟩

/-- The samplers' theorems apply to this domain and this partition. -/
example := (volume_sampler exGeo_ok exGeo_wide (fun _ => 2) (fun _ => 1 / 2) fun _ => 3 / 2).2 exBoxes exBoxes_partition
example := (line_sampler exGeo_ok exGeo_wide 5 (fun _ => -1) fun _ => 3 / 2).2.2 exBoxes exBoxes_partition
example := (probe_sampler exGeo_ok exGeo_wide [fun _ => (1 : ℚ), fun _ => 3 / 2] [0, 1 / 4]
  fun d => if d = .z then 1 else 0).2.2 exBoxes exBoxes_partition

/-- An accepted plane with two offsets: eight points, four in each box. -/
example : (planeSampler (1 / 1000) exGeo 2 2 (fun _ => 1) (fun d => if d = .x then 1 else 0)
    (fun d => if d = .y then 1 / 2 else 0) [0, 1 / 2] (fun d => if d = .z then 1 else 0)).any (fun pts =>
      decide (pts.length = 8) && decide ((located exGeo ⟨(0, 0, 0), (1, 3, 1)⟩ pts).map Prod.snd = [0, 2, 4, 6]) &&
      decide ((located exGeo ⟨(2, 0, 0), (3, 3, 1)⟩ pts).map Prod.snd = [1, 3, 5, 7])) = true := by
  decide +kernel

end AmrWind.Sampling
