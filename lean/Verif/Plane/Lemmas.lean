import Verif.Plane.Model
import Mathlib.Data.List.ProdSigma
import Mathlib.Data.List.NodupEquivFin
import Mathlib.Tactic.LinearCombination
import Mathlib.Tactic.FieldSimp
import Mathlib.Tactic.Positivity

/-!
# Helper lemmas for plane averages
-/

namespace AmrWind.Plane

theorem mem_irange {lo hi i : ℤ} : i ∈ irange lo hi ↔ lo ≤ i ∧ i ≤ hi := by
  unfold irange
  simp only [List.mem_map, List.mem_range]
  constructor
  · rintro ⟨n, hn, rfl⟩
    omega
  · rintro ⟨h1, h2⟩
    exact ⟨(i - lo).toNat, by omega, by omega⟩

theorem nodup_irange (lo hi : ℤ) : (irange lo hi).Nodup := by
  unfold irange
  refine List.Nodup.map ?_ List.nodup_range
  intro a b h
  simpa using h

theorem length_irange (lo hi : ℤ) : (irange lo hi).length = (hi - lo + 1).toNat := by
  simp [irange]

/-- A box holds the cells between its corners. -/
def Bx.Has (b : Bx) (c : Cell) : Prop :=
  (b.lo.1 ≤ c.1 ∧ c.1 ≤ b.hi.1) ∧ (b.lo.2.1 ≤ c.2.1 ∧ c.2.1 ≤ b.hi.2.1) ∧ (b.lo.2.2 ≤ c.2.2 ∧ c.2.2 ≤ b.hi.2.2)

theorem mem_cells {b : Bx} {c : Cell} : c ∈ cells b ↔ b.Has c := by
  obtain ⟨i, j, k⟩ := c
  unfold cells Bx.Has
  simp only [List.mem_flatMap, List.mem_map, mem_irange, Prod.mk.injEq]
  constructor
  · rintro ⟨k', hk, j', hj, i', hi, rfl, rfl, rfl⟩
    exact ⟨hi, hj, hk⟩
  · rintro ⟨hi, hj, hk⟩
    exact ⟨k, hk, j, hj, i, hi, rfl, rfl, rfl⟩

theorem nodup_cells (b : Bx) : (cells b).Nodup := by
  unfold cells
  rw [List.nodup_flatMap]
  refine ⟨fun k _ => ?_, ?_⟩
  · rw [List.nodup_flatMap]
    refine ⟨fun j _ => ?_, ?_⟩
    · exact (nodup_irange _ _).map fun a b h => by simpa using h
    · refine (nodup_irange _ _).imp ?_
      intro j j' hne x h1 h2
      simp only [List.mem_map] at h1 h2
      obtain ⟨_, -, rfl⟩ := h1
      obtain ⟨_, -, h⟩ := h2
      simp only [Prod.mk.injEq] at h
      exact hne h.2.1.symm
  · refine (nodup_irange _ _).imp ?_
    intro k k' hne x h1 h2
    simp only [List.mem_flatMap, List.mem_map] at h1 h2
    obtain ⟨_, -, _, -, rfl⟩ := h1
    obtain ⟨_, -, _, -, h⟩ := h2
    simp only [Prod.mk.injEq] at h
    exact hne h.2.2.symm

theorem length_cells (b : Bx) : (cells b).length =
    (b.hi.2.2 - b.lo.2.2 + 1).toNat * ((b.hi.2.1 - b.lo.2.1 + 1).toNat * (b.hi.1 - b.lo.1 + 1).toNat) := by
  simp [cells, length_irange]

theorem mem_visits {ax : Axis} {b : Bx} {c : Cell} : c ∈ visits ax b ↔ b.Has c := by
  obtain ⟨i, j, k⟩ := c
  unfold visits
  simp only [List.mem_flatMap, mem_cells]
  cases ax
  · simp only [perpBox, parBox, Bx.Has]
    constructor
    · rintro ⟨⟨i', j', k'⟩, h1, h2⟩; simp only at h1 h2 ⊢; omega
    · intro h; exact ⟨(0, j, k), by simp only at h ⊢; omega, by simp only at h ⊢; omega⟩
  · simp only [perpBox, parBox, Bx.Has]
    constructor
    · rintro ⟨⟨i', j', k'⟩, h1, h2⟩; simp only at h1 h2 ⊢; omega
    · intro h; exact ⟨(i, 0, k), by simp only at h ⊢; omega, by simp only at h ⊢; omega⟩
  · simp only [perpBox, parBox, Bx.Has]
    constructor
    · rintro ⟨⟨i', j', k'⟩, h1, h2⟩; simp only at h1 h2 ⊢; omega
    · intro h; exact ⟨(i, j, 0), by simp only at h ⊢; omega, by simp only at h ⊢; omega⟩

theorem nodup_visits (ax : Axis) (b : Bx) : (visits ax b).Nodup := by
  unfold visits
  rw [List.nodup_flatMap]
  refine ⟨fun p _ => nodup_cells _, ?_⟩
  refine List.Pairwise.imp_of_mem ?_ (nodup_cells _)
  rintro ⟨i, j, k⟩ ⟨i', j', k'⟩ h1 h2 hne ⟨a, b', c⟩ m1 m2
  rw [mem_cells] at h1 h2 m1 m2
  apply hne
  cases ax <;> simp only [perpBox, parBox, Bx.Has] at h1 h2 m1 m2 <;>
    (simp only [Prod.mk.injEq]; omega)

theorem visits_perm (ax : Axis) (b : Bx) : (visits ax b).Perm (cells b) :=
  (List.perm_ext_iff_of_nodup (nodup_visits ax b) (nodup_cells b)).mpr fun c => by rw [mem_visits, mem_cells]

section accum
variable {K : Type*} [Field K]

theorem foldl_add (l : List (ℤ × K)) (m : ℤ → K) (i : ℤ) :
    (l.foldl (fun m p => add m p.1 p.2) m) i = m i + ((l.filter fun p => p.1 = i).map Prod.snd).sum := by
  induction l generalizing m with
  | nil => simp
  | cons p l ih =>
    rw [List.foldl_cons, ih]
    by_cases h : p.1 = i
    · subst h
      simp [add, add_assoc]
    · simp [add, h, Function.update_of_ne (Ne.symm h)]

/-- All additions of one cell. -/
def writes (ax : Axis) (stride : ℕ) (vals : Cell → List K) (c : Cell) : List (ℤ × K) :=
  (vals c).zipIdx.map fun p => (stride * ax.idx c + p.2, p.1)

theorem addCell_eq (ax : Axis) (stride : ℕ) (vals : Cell → List K) (m : ℤ → K) (c : Cell) :
    addCell ax stride vals m c = (writes ax stride vals c).foldl (fun m p => add m p.1 p.2) m := by
  unfold addCell writes
  rw [List.foldl_map]

theorem rankSum_eq (ax : Axis) (stride : ℕ) (vals : Cell → List K) (boxes : List Bx) (i : ℤ) :
    rankSum ax stride vals boxes i =
      ((((boxes.flatMap (visits ax)).flatMap (writes ax stride vals)).filter fun p => p.1 = i).map Prod.snd).sum := by
  unfold rankSum
  have h : ∀ (cs : List Cell) (m : ℤ → K), cs.foldl (addCell ax stride vals) m =
      (cs.flatMap (writes ax stride vals)).foldl (fun m p => add m p.1 p.2) m := by
    intro cs
    induction cs with
    | nil => intro m; rfl
    | cons c cs ih => intro m; rw [List.foldl_cons, ih, addCell_eq, List.flatMap_cons, List.foldl_append]
  have h2 : ∀ (bs : List Bx) (m : ℤ → K), bs.foldl (fun m b => (visits ax b).foldl (addCell ax stride vals) m) m =
      ((bs.flatMap (visits ax)).flatMap (writes ax stride vals)).foldl (fun m p => add m p.1 p.2) m := by
    intro bs
    induction bs with
    | nil => intro m; rfl
    | cons b bs ih =>
      intro m
      rw [List.foldl_cons, ih, h, List.flatMap_cons, List.flatMap_append, List.foldl_append]
  rw [h2, foldl_add, zero_add]

/-- What one cell adds at one index. -/
def cellAdds (ax : Axis) (stride : ℕ) (vals : Cell → List K) (i : ℤ) (c : Cell) : K :=
  (((writes ax stride vals c).filter fun p => p.1 = i).map Prod.snd).sum

theorem flat_sum {α : Type*} (cs : List α) (g : α → List (ℤ × K)) (i : ℤ) :
    (((cs.flatMap g).filter fun p => p.1 = i).map Prod.snd).sum =
      (cs.map fun c => (((g c).filter fun p => p.1 = i).map Prod.snd).sum).sum := by
  induction cs with
  | nil => rfl
  | cons c cs ih => simp [List.flatMap_cons, ih]

theorem accum_eq (ax : Axis) (stride : ℕ) (vals : Cell → List K) (ranks : List (List Bx)) (dom : Bx)
    (hp : (ranks.flatten.flatMap cells).Perm (cells dom)) (i : ℤ) :
    accum ax stride vals ranks i = ((cells dom).map (cellAdds ax stride vals i)).sum := by
  have h1 : accum ax stride vals ranks i =
      ((ranks.flatten.flatMap (visits ax)).map (cellAdds ax stride vals i)).sum := by
    unfold accum
    clear hp
    induction ranks with
    | nil => rfl
    | cons bs ranks ih =>
      rw [List.map_cons, List.sum_cons, ih, List.flatten_cons, List.flatMap_append, List.map_append, List.sum_append,
        rankSum_eq, flat_sum]
      rfl
  rw [h1]
  have h2 : (ranks.flatten.flatMap (visits ax)).Perm (ranks.flatten.flatMap cells) :=
    List.Perm.flatMap (List.Perm.refl _) fun b _ => visits_perm ax b
  exact ((h2.trans hp).map _).sum_eq

theorem zip_filter (l : List K) (s : ℕ) (n : ℕ) (hn : s ≤ n) :
    (((l.zipIdx s).filter fun p => p.2 = n).map Prod.fst).sum = (l[n - s]?).getD 0 := by
  induction l generalizing s with
  | nil => simp
  | cons v l ih =>
    rw [List.zipIdx_cons, List.filter_cons]
    by_cases h : s = n
    · subst h
      have : (l.zipIdx (s + 1)).filter (fun p => p.2 = s) = [] := by
        rw [List.filter_eq_nil_iff]
        intro p hp
        have := List.le_snd_of_mem_zipIdx hp
        simp only [decide_eq_true_eq]
        omega
      simp [this]
    · have h2 : n - s = (n - (s + 1)) + 1 := by omega
      simp only [h, decide_false, Bool.false_eq_true, if_false]
      rw [ih (s + 1) (by omega), h2, List.getElem?_cons_succ]

theorem cellAdds_eq (ax : Axis) (stride : ℕ) (vals : Cell → List K) (hl : ∀ c, (vals c).length = stride) (ind : ℤ)
    (n : ℕ) (hn : n < stride) (c : Cell) :
    cellAdds ax stride vals (stride * ind + n) c = if ax.idx c = ind then ((vals c)[n]?).getD 0 else 0 := by
  unfold cellAdds writes
  rw [List.filter_map, List.map_map]
  have key : ∀ p ∈ (vals c).zipIdx, ((stride : ℤ) * ax.idx c + p.2 = stride * ind + n) ↔ (ax.idx c = ind ∧ p.2 = n) := by
    intro p hp
    have hlt : p.2 < stride := by
      have := List.snd_lt_of_mem_zipIdx hp
      rw [hl] at this
      omega
    constructor
    · intro h
      have h1 : (stride : ℤ) * (ax.idx c - ind) = n - p.2 := by linear_combination h
      have h2 : ax.idx c - ind = 0 := by
        by_contra hne
        rcases lt_or_gt_of_ne hne with hlt' | hgt
        · have : (stride : ℤ) * (ax.idx c - ind) ≤ stride * (-1) :=
            mul_le_mul_of_nonneg_left (by omega) (by positivity)
          omega
        · have : (stride : ℤ) * 1 ≤ stride * (ax.idx c - ind) :=
            mul_le_mul_of_nonneg_left (by omega) (by positivity)
          omega
      rw [h2, mul_zero] at h1
      omega
    · rintro ⟨h1, h2⟩
      rw [h1, h2]
  by_cases hc : ax.idx c = ind
  · have hz := zip_filter (vals c) 0 n (by omega)
    rw [Nat.sub_zero] at hz
    rw [if_pos hc, ← hz]
    congr 1
    have : ((vals c).zipIdx).filter ((fun p : ℤ × K => decide (p.1 = (stride : ℤ) * ind + n)) ∘
        fun p => ((stride : ℤ) * ax.idx c + p.2, p.1)) = ((vals c).zipIdx).filter (fun p => decide (p.2 = n)) := by
      apply List.filter_congr
      intro p hp
      simp only [Function.comp, decide_eq_decide]
      rw [key p hp]
      simp [hc]
    rw [this]
    rfl
  · rw [if_neg hc]
    have : ((vals c).zipIdx).filter ((fun p : ℤ × K => decide (p.1 = (stride : ℤ) * ind + n)) ∘
        fun p => ((stride : ℤ) * ax.idx c + p.2, p.1)) = [] := by
      rw [List.filter_eq_nil_iff]
      intro p hp
      simp only [Function.comp, decide_eq_true_eq]
      rw [key p hp]
      exact fun h => hc h.1
    rw [this]
    rfl

/-- The cells of plane `ind`. -/
def planeCells (ax : Axis) (dom : Bx) (ind : ℤ) : List Cell := cells (perpBox ax dom (ind, ind, ind))

theorem mem_planeCells {ax : Axis} {dom : Bx} {ind : ℤ} (h1 : ax.idx dom.lo ≤ ind) (h2 : ind ≤ ax.idx dom.hi)
    {c : Cell} : c ∈ planeCells ax dom ind ↔ dom.Has c ∧ ax.idx c = ind := by
  obtain ⟨i, j, k⟩ := c
  obtain ⟨⟨l1, l2, l3⟩, ⟨u1, u2, u3⟩⟩ := dom
  unfold planeCells
  rw [mem_cells]
  cases ax <;> simp only [perpBox, Bx.Has, Axis.idx] at h1 h2 ⊢ <;> omega

theorem plane_perm {ax : Axis} {dom : Bx} {ind : ℤ} (h1 : ax.idx dom.lo ≤ ind) (h2 : ind ≤ ax.idx dom.hi) :
    ((cells dom).filter fun c => ax.idx c = ind).Perm (planeCells ax dom ind) := by
  refine (List.perm_ext_iff_of_nodup ((nodup_cells dom).filter _)
    (nodup_cells _ : (planeCells ax dom ind).Nodup)).mpr fun c => ?_
  show _ ↔ c ∈ planeCells ax dom ind
  rw [mem_planeCells h1 h2, List.mem_filter, mem_cells, decide_eq_true_eq]

theorem sum_filter (l : List Cell) (p : Cell → Prop) [DecidablePred p] (g : Cell → K) :
    (l.map fun c => if p c then g c else 0).sum = ((l.filter fun c => p c).map g).sum := by
  induction l with
  | nil => rfl
  | cons c l ih =>
    by_cases h : p c <;> simp [h, ih]

/-- The array after accumulation, for every distribution of the domain over boxes and ranks. -/
theorem accum_spec {ax : Axis} {stride : ℕ} {vals : Cell → List K} (hl : ∀ c, (vals c).length = stride)
    {ranks : List (List Bx)} {dom : Bx} (hp : (ranks.flatten.flatMap cells).Perm (cells dom)) {ind : ℤ}
    (h1 : ax.idx dom.lo ≤ ind) (h2 : ind ≤ ax.idx dom.hi) {n : ℕ} (hn : n < stride) :
    accum ax stride vals ranks (stride * ind + n) =
      ((planeCells ax dom ind).map fun c => ((vals c)[n]?).getD 0).sum := by
  rw [accum_eq ax stride vals ranks dom hp]
  have : (cellAdds ax stride vals (stride * ind + n)) =
      fun c => if ax.idx c = ind then ((vals c)[n]?).getD 0 else 0 := by
    funext c
    exact cellAdds_eq ax stride vals hl ind n hn c
  rw [this, sum_filter]
  exact ((plane_perm h1 h2).map _).sum_eq

theorem length_plane {ax : Axis} {dom : Bx} {ind : ℤ} (hd : dom.lo.1 ≤ dom.hi.1 + 1 ∧ dom.lo.2.1 ≤ dom.hi.2.1 + 1 ∧
    dom.lo.2.2 ≤ dom.hi.2.2 + 1) : ((planeCells ax dom ind).length : ℤ) = ncellPlane ax dom := by
  unfold planeCells ncellPlane
  rw [length_cells]
  obtain ⟨a, b, c⟩ := hd
  have e1 : ((dom.hi.1 - dom.lo.1 + 1).toNat : ℤ) = dom.hi.1 - dom.lo.1 + 1 := by omega
  have e2 : ((dom.hi.2.1 - dom.lo.2.1 + 1).toNat : ℤ) = dom.hi.2.1 - dom.lo.2.1 + 1 := by omega
  have e3 : ((dom.hi.2.2 - dom.lo.2.2 + 1).toNat : ℤ) = dom.hi.2.2 - dom.lo.2.2 + 1 := by omega
  cases ax <;> simp only [perpBox] <;> push_cast [e1, e2, e3] <;> simp <;> ring

end accum

end AmrWind.Plane
