import Verif.Actuator.ProcModel
import Verif.Sampling.Interp
import Verif.Sampling.Output
import Verif.Tag.Props

/-!
# C78: an actuator acts on every rank it should, with the velocity at its own points
-/

set_option linter.unusedSectionVars false

namespace AmrWind.Proc

open AmrWind.Tag (Geom RBox IBox realboxToBox)
open AmrWind.Sampling (Geo Pos interpolate)
open AmrWind.Plane (Cell Axis)

variable {K : Type*} [Field K] [LinearOrder K] [IsStrictOrderedRing K] [FloorRing K]

/-! ## Ranks -/

/-- A box within another. -/
def Within (a b : IBox) : Prop := ∀ d, b.lo d ≤ a.lo d ∧ a.hi d ≤ b.hi d

/-- The geometry of the level refined by `r`. -/
def fineGeom (g : Geom K) (r : ℕ) : Geom K := ⟨g.lo, fun d => g.dx d / r, fun d => g.n d * r⟩

theorem refine_covers {g : Geom K} {rbx : RBox K} {bx : IBox} {r : ℕ} (hr : 0 < r)
    (h : Within (realboxToBox rbx g) bx) : Within (realboxToBox rbx (fineGeom g r)) (refine bx r) := by
  have hr' : (0 : K) < r := by exact_mod_cast hr
  have hz : (1 : ℤ) ≤ r := by exact_mod_cast hr
  intro d
  obtain ⟨h1, h2⟩ := h d
  have hhi : (fineGeom g r).hi d = g.hi d := by
    simp only [Geom.hi, fineGeom]
    push_cast
    field_simp
  have hlo : (fineGeom g r).lo d = g.lo d := rfl
  have hdx : (1 : K) / (fineGeom g r).dx d = r * (1 / g.dx d) := by
    simp only [fineGeom]
    rw [one_div_div, mul_one_div]
  simp only [realboxToBox, refine, hlo, hhi, hdx] at *
  constructor
  · have e : (max (rbx.lo d) (g.lo d) - g.lo d) * (r * (1 / g.dx d)) = r * ((max (rbx.lo d) (g.lo d) - g.lo d) * (1 / g.dx d)) := by ring
    rw [e, Int.le_floor]
    have h3 : (bx.lo d : K) ≤ (max (rbx.lo d) (g.lo d) - g.lo d) * (1 / g.dx d) := Int.le_floor.mp h1
    push_cast
    rw [mul_comm]
    exact mul_le_mul_of_nonneg_left h3 hr'.le
  · have e : (min (rbx.hi d) (g.hi d) - g.lo d) * (r * (1 / g.dx d)) = r * ((min (rbx.hi d) (g.hi d) - g.lo d) * (1 / g.dx d)) := by ring
    rw [e]
    have h3 : (min (rbx.hi d) (g.hi d) - g.lo d) * (1 / g.dx d) ≤ (bx.hi d : K) := Int.ceil_le.mp h2
    have h4 : ⌈(r : K) * ((min (rbx.hi d) (g.hi d) - g.lo d) * (1 / g.dx d))⌉ ≤ r * bx.hi d := by
      rw [Int.ceil_le]
      push_cast
      exact mul_le_mul_of_nonneg_left h3 hr'.le
    have e2 : (bx.hi d + 1) * (r : ℤ) - 1 = r * bx.hi d + (r - 1) := by ring
    rw [e2]
    omega

/-- The geometry of each level of a mesh: refined by the ratio of the level below. -/
def levelGeom (g : Geom K) : List Level → ℕ → Geom K
  | [], _ => g
  | _ :: _, 0 => g
  | l :: ls, n + 1 => levelGeom (fineGeom g l.ratio) ls n

theorem meets_mono {b a c : IBox} (h : Within a c) (hm : meets b a) : meets b c := fun d =>
  le_trans (max_le_max le_rfl (h d).1) (le_trans (hm d) (min_le_min le_rfl (h d).2))

theorem influencedFrom_complete {rbx : RBox K} : ∀ (levels : List Level) (g : Geom K) (bx : IBox),
    Within (realboxToBox rbx g) bx → (∀ l ∈ levels, 0 < l.ratio) →
    ∀ (n : ℕ) (l : Level), levels[n]? = some l → ∀ b p, (b, p) ∈ l.boxes → meets b (realboxToBox rbx (levelGeom g levels n)) →
      p ∈ influencedFrom levels bx
  | [], _, _, _, _, n, l, hl => by simp at hl
  | l0 :: ls, g, bx, hw, hr, 0, l, hl => by
    intro b p hb hm
    simp only [List.getElem?_cons_zero, Option.some.injEq] at hl
    subst hl
    simp only [influencedFrom, Finset.mem_union, List.mem_toFinset, List.mem_map]
    left
    refine ⟨(b, p), ?_, rfl⟩
    rw [List.mem_filter]
    exact ⟨hb, by simpa using meets_mono hw hm⟩
  | l0 :: ls, g, bx, hw, hr, n + 1, l, hl => by
    intro b p hb hm
    simp only [List.getElem?_cons_succ] at hl
    simp only [influencedFrom, Finset.mem_union]
    right
    exact influencedFrom_complete ls (fineGeom g l0.ratio) (refine bx l0.ratio) (refine_covers (hr l0 (by simp)) hw)
      (fun l h => hr l (by simp [h])) n l hl b p hb hm

/-- C78: on every level, the owner of a box that meets the bounding box of the actuator there is among the ranks the
actuator acts on. -/
theorem influenced_complete {rbx : RBox K} {g : Geom K} {levels : List Level} (hr : ∀ l ∈ levels, 0 < l.ratio) {n : ℕ} {l : Level}
    (hl : levels[n]? = some l) {b : IBox} {p : ℕ} (hb : (b, p) ∈ l.boxes)
    (hm : meets b (realboxToBox rbx (levelGeom g levels n))) :
    p ∈ influenced levels rbx g ∧ ∀ root, p ∈ influencedRegrid levels rbx g root := by
  have := influencedFrom_complete levels g _ (fun d => ⟨le_rfl, le_rfl⟩) hr n l hl b p hb hm
  exact ⟨this, fun root => Finset.mem_insert_of_mem this⟩

/-- C78: whatever the owners of the boxes, a tile of a box receives the source of the actuator exactly if it meets the
bounding box of the actuator, as on a single rank. -/
theorem source_any_owner {rbx : RBox K} {g : Geom K} {levels : List Level} (hr : ∀ l ∈ levels, 0 < l.ratio) {n : ℕ} {l : Level}
    (hl : levels[n]? = some l) {b : IBox} {p : ℕ} (hb : (b, p) ∈ l.boxes) {tile : IBox} (ht : Within tile b) :
    (p ∈ influenced levels rbx g ∧ meets tile (realboxToBox rbx (levelGeom g levels n))) ↔
      meets tile (realboxToBox rbx (levelGeom g levels n)) := by
  refine ⟨fun h => h.2, fun h => ⟨?_, h⟩⟩
  refine (influenced_complete hr hl hb ?_).1
  intro d
  have h1 := h d
  have h2 := ht d
  exact le_trans (max_le_max h2.1 le_rfl) (le_trans h1 (min_le_min h2.2 le_rfl))

/-! ## Roots -/

theorem minIdx_spec {count : List ℕ} (h : count ≠ []) : ∃ c, count[minIdx count]? = some c ∧ ∀ d ∈ count, c ≤ d := by
  have hex : ∃ c ∈ count, (count.all fun d => c ≤ d) = true := by
    obtain ⟨c, hc⟩ := Option.isSome_iff_exists.mp (List.isSome_min?_of_ne_nil h)
    have := List.min?_eq_some_iff.mp hc
    exact ⟨c, this.1, by simpa using this.2⟩
  have hlt : minIdx count < count.length := List.findIdx_lt_length.mpr hex
  refine ⟨count[minIdx count], List.getElem?_eq_getElem hlt, ?_⟩
  have := List.findIdx_getElem (w := hlt)
  intro d hd
  have h2 := List.all_eq_true.mp this d hd
  exact of_decide_eq_true h2

/-- C78: the root of an actuator is one of the ranks it acts on, has the fewest actuators of all ranks, and is a rank that
the actuator's box touches whenever one of these is free; no rank the box touches is dropped. -/
theorem root_spec {procs : Finset ℕ} {count : List ℕ} (hc : count ≠ []) (hp : ∀ p ∈ procs, p < count.length) :
    (∃ c, count[(rootProc procs count).1]? = some c ∧ ∀ d ∈ count, c ≤ d) ∧
    (rootProc procs count).2.1 = insert (rootProc procs count).1 procs ∧
    ((∃ p ∈ procs, count[p]? = some 0) → (rootProc procs count).1 ∈ procs) ∧
    (rootProc procs count).2.2 = count.modify (rootProc procs count).1 (· + 1) := by
  unfold rootProc
  cases hh : ((procs.filter fun ip => count.getD ip 0 < 1).sort (· ≤ ·)).head? with
  | some ip =>
    have hm := List.mem_of_head? hh
    rw [Finset.mem_sort, Finset.mem_filter] at hm
    have hlt := hp ip hm.1
    have h0 : count[ip]? = some 0 := by
      have := hm.2
      rw [List.getD_eq_getElem?_getD, List.getElem?_eq_getElem hlt] at this
      rw [List.getElem?_eq_getElem hlt]
      simpa using this
    exact ⟨⟨0, h0, fun _ _ => Nat.zero_le _⟩, (Finset.insert_eq_of_mem hm.1).symm, fun _ => hm.1, rfl⟩
  | none =>
    refine ⟨minIdx_spec hc, rfl, ?_, rfl⟩
    rintro ⟨p, hpm, h0⟩
    have he := List.head?_eq_none_iff.mp hh
    have : p ∈ (procs.filter fun ip => count.getD ip 0 < 1).sort (· ≤ ·) := by
      rw [Finset.mem_sort, Finset.mem_filter]
      exact ⟨hpm, by simp [List.getD_eq_getElem?_getD, h0]⟩
    rw [he] at this
    exact absurd this (by simp)

/-- Any two ranks differ by at most one actuator. -/
def Balanced (count : List ℕ) : Prop := ∀ a ∈ count, ∀ b ∈ count, a ≤ b + 1

theorem balanced_modify {count : List ℕ} {i c : ℕ} (h : Balanced count) (hi : count[i]? = some c) (hm : ∀ d ∈ count, c ≤ d) :
    Balanced (count.modify i (· + 1)) := by
  have key : ∀ a ∈ count.modify i (· + 1), a ∈ count ∨ a = c + 1 := by
    intro a ha
    obtain ⟨j, hj⟩ := List.mem_iff_getElem?.mp ha
    rw [List.getElem?_modify] at hj
    by_cases e : i = j
    · subst e
      rw [hi] at hj
      right
      simpa using hj.symm
    · left
      simp only [e, if_false, id_map'] at hj
      cases hc : count[j]? with
      | none => simp [hc] at hj
      | some x =>
        simp only [hc] at hj
        exact List.mem_iff_getElem?.mpr ⟨j, by rw [hc]; simpa using hj⟩
  have hcm : c ∈ count := List.mem_iff_getElem?.mpr ⟨i, hi⟩
  intro a ha b hb
  rcases key a ha with h1 | h1 <;> rcases key b hb with h2 | h2
  · exact h a h1 b h2
  · have := h a h1 c hcm
    omega
  · have := hm b h2
    omega
  · omega

theorem getElem?_modify_add {count : List ℕ} {i j : ℕ} :
    (count.modify i (· + 1))[j]? = count[j]?.map (· + if i = j then 1 else 0) := by
  rw [List.getElem?_modify]
  by_cases e : i = j
  · simp [e]
  · simp [e]

/-- C78: after any number of actuators every rank's count is the number of actuators it is the root of, and the counts of two
ranks differ by at most one. -/
theorem assign_spec : ∀ (ps : List (Finset ℕ)) (count : List ℕ), count ≠ [] → (∀ p ∈ ps, ∀ i ∈ p, i < count.length) →
    Balanced count →
    (assign ps count).2.length = count.length ∧ (assign ps count).1.length = ps.length ∧
    (∀ r ∈ (assign ps count).1, r.1 < count.length ∧ r.1 ∈ r.2) ∧
    (∀ i, (assign ps count).2[i]? = count[i]?.map (· + (((assign ps count).1.map Prod.fst).count i))) ∧
    Balanced (assign ps count).2
  | [], count, _, _, hb => by
    refine ⟨rfl, rfl, by simp [assign], fun i => by simp [assign], hb⟩
  | p :: ps, count, hc, hp, hb => by
    obtain ⟨⟨c, h1, h2⟩, h3, -, h5⟩ := root_spec hc (hp p (by simp))
    have hlen : (rootProc p count).2.2.length = count.length := by rw [h5]; simp
    have ih := assign_spec ps (rootProc p count).2.2 (by
        intro e
        rw [e] at hlen
        exact hc (List.length_eq_zero_iff.mp hlen.symm))
      (fun q hq i hi => by rw [hlen]; exact hp q (by simp [hq]) i hi)
      (by rw [h5]; exact balanced_modify hb h1 h2)
    obtain ⟨i1, i2, i3, i4, i5⟩ := ih
    have e1 : (assign (p :: ps) count).1 = ((rootProc p count).1, (rootProc p count).2.1) :: (assign ps (rootProc p count).2.2).1 := rfl
    have e2 : (assign (p :: ps) count).2 = (assign ps (rootProc p count).2.2).2 := rfl
    rw [e1, e2]
    refine ⟨i1.trans hlen, by simp [i2], ?_, ?_, i5⟩
    · intro r hr
      rcases List.mem_cons.mp hr with rfl | hr
      · exact ⟨(List.getElem?_eq_some_iff.mp h1).1, by rw [h3]; exact Finset.mem_insert_self _ _⟩
      · rw [← hlen]
        exact i3 r hr
    · intro i
      rw [i4 i, h5, getElem?_modify_add, Option.map_map]
      congr 1
      funext x
      simp only [Function.comp, List.map_cons, List.count_cons, beq_iff_eq]
      omega

/-- Number of actuators per rank, over all ranks. -/
theorem assign_total {ps : List (Finset ℕ)} {nproc : ℕ} (hn : 0 < nproc) (hp : ∀ p ∈ ps, ∀ i ∈ p, i < nproc) :
    (assign ps (List.replicate nproc 0)).2.sum = ps.length := by
  have hb : Balanced (List.replicate nproc 0) := by
    intro a ha b hb
    rw [List.eq_of_mem_replicate ha]
    omega
  obtain ⟨h1, h2, h3, h4, -⟩ := assign_spec ps (List.replicate nproc 0) (by simp; omega) (by simpa using hp) hb
  rw [List.length_replicate] at h1
  set A := assign ps (List.replicate nproc 0)
  have hA : A.2 = (List.range nproc).map fun i => (A.1.map Prod.fst).count i := by
    apply List.ext_getElem?
    intro i
    rw [h4 i]
    by_cases hi : i < nproc
    · simp [hi]
    · simp [hi]
  rw [hA, ← h2]
  have key : ∀ l : List ℕ, (∀ x ∈ l, x < nproc) → ((List.range nproc).map fun i => l.count i).sum = l.length := by
    intro l
    induction l with
    | nil => intro _; simp
    | cons x l ih =>
      intro hx
      have e : (fun i => (x :: l).count i) = fun i => l.count i + if x = i then 1 else 0 := by
        funext i
        simp [List.count_cons]
      rw [e, List.sum_map_add, ih fun y hy => hx y (by simp [hy])]
      have : ((List.range nproc).map fun i => if x = i then 1 else 0).sum = 1 := by
        have h := hx x (by simp)
        rw [← List.sum_toFinset _ List.nodup_range]
        simp [h]
      simp [this]
  have := key (A.1.map Prod.fst) (by
    intro x hx
    obtain ⟨r, hr, rfl⟩ := List.mem_map.mp hx
    simpa using (h3 r hr).1)
  simpa using this

/-- C78: if there are no more actuators than ranks, no two actuators share a root. -/
theorem own_rank {ps : List (Finset ℕ)} {nproc : ℕ} (hn : 0 < nproc) (hp : ∀ p ∈ ps, ∀ i ∈ p, i < nproc)
    (hle : ps.length ≤ nproc) : ((assign ps (List.replicate nproc 0)).1.map Prod.fst).Nodup := by
  have hb : Balanced (List.replicate nproc 0) := by
    intro a ha b hb
    rw [List.eq_of_mem_replicate ha]
    omega
  have hsum := assign_total hn hp
  obtain ⟨h1, h2, h3, h4, h5⟩ := assign_spec ps (List.replicate nproc 0) (by simp; omega) (by simpa using hp) hb
  rw [List.length_replicate] at h1
  set A := assign ps (List.replicate nproc 0)
  have hone : ∀ a ∈ A.2, a ≤ 1 := by
    intro a ha
    by_contra hgt
    have hall : ∀ b ∈ A.2, 1 ≤ b := fun b hb => by
      have := h5 a ha b hb
      omega
    have hlt : A.2.length < A.2.sum := by
      have key : ∀ l : List ℕ, (∀ b ∈ l, 1 ≤ b) → l.length ≤ l.sum := by
        intro l
        induction l with
        | nil => simp
        | cons x l ih =>
          intro h
          have := ih fun b hb => h b (by simp [hb])
          have := h x (by simp)
          simp only [List.length_cons, List.sum_cons]
          omega
      obtain ⟨s, t, e⟩ := List.append_of_mem ha
      have k1 := key s fun b hb => hall b (by rw [e]; simp [hb])
      have k2 := key t fun b hb => hall b (by rw [e]; simp [hb])
      rw [e]
      simp only [List.length_append, List.length_cons, List.sum_append, List.sum_cons]
      omega
    omega
  rw [List.nodup_iff_count_le_one]
  intro i
  by_cases hi : i < nproc
  · have := h4 i
    simp only [List.getElem?_replicate, hi, if_true, Option.map_some, Nat.zero_add] at this
    exact hone _ (List.mem_iff_getElem?.mpr ⟨i, this⟩)
  · rw [List.count_eq_zero_of_not_mem]
    · omega
    · intro hm
      obtain ⟨r, hr, rfl⟩ := List.mem_map.mp hm
      exact hi (by simpa using (h3 r hr).1)

/-! ## Sampling -/

/-- The particle of every point of every rank. -/
def allParts (pts : List (List (Pos K))) : List (Part K) :=
  pts.zipIdx.flatMap fun r => r.1.zipIdx.map fun p => ⟨r.2, p.2, p.1⟩

/-- Where a particle's values go. -/
def slot (pts : List (List (Pos K))) (p : Part K) : ℕ := offset pts p.cpu + p.num

theorem particles_eq (owns : ℕ → Bool) (pts : List (List (Pos K))) :
    particles owns pts = (allParts pts).filter fun p => owns p.cpu := by
  unfold particles allParts
  rw [List.filter_flatMap]
  congr 1
  funext r
  rw [List.filter_map]
  cases h : owns r.2
  · simp [h, Function.comp_def]
  · simp [h, Function.comp_def]

theorem slots_aux : ∀ (b a : List (List (Pos K))),
    ((b.zipIdx a.length).flatMap fun r => r.1.zipIdx.map fun p => offset (a ++ b) r.2 + p.2) =
      List.range' ((a.map List.length).sum) ((b.map List.length).sum)
  | [], a => by simp
  | x :: b, a => by
    have ih := slots_aux b (a ++ [x])
    simp only [List.length_append, List.length_singleton, List.append_assoc, List.singleton_append, List.map_append,
      List.sum_append, List.map_cons, List.map_nil, List.sum_cons, List.sum_nil, Nat.add_zero] at ih
    rw [List.zipIdx_cons, List.flatMap_cons, ih, List.map_cons, List.sum_cons, ← List.range'_append_1]
    congr 1
    have : offset (a ++ x :: b) a.length = (a.map List.length).sum := by simp [offset]
    simp only [this]
    have e : (fun p : Pos K × ℕ => (a.map List.length).sum + p.2) = (fun n => (a.map List.length).sum + n) ∘ Prod.snd := rfl
    rw [e, ← List.map_map, List.zipIdx_map_snd]
    simp [List.range'_eq_map_range]

theorem slots_nodup (pts : List (List (Pos K))) : ((allParts pts).map (slot pts)).Nodup := by
  have h := slots_aux pts []
  simp only [List.length_nil, List.nil_append, List.map_nil, List.sum_nil] at h
  have e : (allParts pts).map (slot pts) = pts.zipIdx.flatMap fun r => r.1.zipIdx.map fun p => offset pts r.2 + p.2 := by
    unfold allParts
    rw [List.map_flatMap]
    simp only [List.map_map]
    rfl
  rw [e, h]
  exact List.nodup_range'

theorem mem_allParts {pts : List (List (Pos K))} {r i : ℕ} {l : List (Pos K)} {p : Pos K} (hl : pts[r]? = some l)
    (hp : l[i]? = some p) : (⟨r, i, p⟩ : Part K) ∈ allParts pts := by
  unfold allParts
  rw [List.mem_flatMap]
  refine ⟨(l, r), List.mem_zipIdx_iff_getElem?.mpr hl, List.mem_map.mpr ⟨(p, i), List.mem_zipIdx_iff_getElem?.mpr hp, rfl⟩⟩

theorem keys_nodup {pts : List (List (Pos K))} {nc : ℕ} {val : ℕ → Pos K → K} {ps : List (Part K)}
    (h : (ps.map (slot pts)).Nodup) : ((writes pts nc val ps).map Prod.fst).Nodup := by
  unfold writes
  rw [List.map_flatMap, List.nodup_flatMap]
  refine ⟨fun p _ => ?_, ?_⟩
  · rw [List.map_map]
    exact List.nodup_range.map fun a b h => by simpa using h
  · rw [List.nodup_iff_pairwise_ne, List.pairwise_map] at h
    refine h.imp ?_
    intro a b hne x h1 h2
    simp only [List.map_map, List.mem_map, List.mem_range, Function.comp] at h1 h2
    obtain ⟨n, hn, rfl⟩ := h1
    obtain ⟨m, hm, e⟩ := h2
    apply hne
    have ea : ((slot pts a) * nc + n) / nc = slot pts a := by
      rw [Nat.mul_comm, Nat.mul_add_div (by omega), Nat.div_eq_of_lt hn, add_zero]
    have eb : ((slot pts b) * nc + m) / nc = slot pts b := by
      rw [Nat.mul_comm, Nat.mul_add_div (by omega), Nat.div_eq_of_lt hm, add_zero]
    rw [← ea, ← eb]
    exact congrArg (· / nc) e.symm

theorem sum_keys {ws : List (ℕ × K)} (h : (ws.map Prod.fst).Nodup) {k : ℕ} {v : K} (hm : (k, v) ∈ ws) :
    (ws.map fun w => if k = w.1 then w.2 else 0).sum = v := by
  induction ws with
  | nil => simp at hm
  | cons w ws ih =>
    simp only [List.map_cons, List.nodup_cons] at h
    simp only [List.map_cons, List.sum_cons]
    rcases List.mem_cons.mp hm with rfl | hm
    · have hz : (ws.map fun w => if k = w.1 then w.2 else 0).sum = 0 := by
        apply List.sum_eq_zero
        intro x hx
        obtain ⟨q, hq, rfl⟩ := List.mem_map.mp hx
        rw [if_neg]
        intro e
        exact h.1 (List.mem_map.mpr ⟨q, hq, e.symm⟩)
      rw [hz]
      simp
    · rw [ih h.2 hm, if_neg, zero_add]
      intro e
      exact h.1 (List.mem_map.mpr ⟨(k, v), hm, e⟩)

theorem sum_no_keys {ws : List (ℕ × K)} {k : ℕ} (h : k ∉ ws.map Prod.fst) :
    (ws.map fun w => if k = w.1 then w.2 else 0).sum = 0 := by
  apply List.sum_eq_zero
  intro x hx
  obtain ⟨q, hq, rfl⟩ := List.mem_map.mp hx
  rw [if_neg]
  intro e
  exact h (List.mem_map.mpr ⟨q, hq, e.symm⟩)

/-- The particles are distributed over the ranks: those inside the domain are each on one rank, the others nowhere. -/
def Distributed (inside : Pos K → Bool) (ps : List (Part K)) (ranks : List (List (Part K))) : Prop :=
  ranks.flatten.Perm (ps.filter fun p => inside p.pos)

theorem buffer_eq {pts : List (List (Pos K))} {nc : ℕ} {val : ℕ → Pos K → K} {ranks : List (List (Part K))}
    {ps : List (Part K)} (hp : ranks.flatten.Perm ps) (hn : (ps.map (slot pts)).Nodup) (k : ℕ) :
    buffer pts nc val ranks k = ((writes pts nc val ps).map fun w => if k = w.1 then w.2 else 0).sum := by
  have hn' : (ranks.flatten.map (slot pts)).Nodup := (hp.map _).nodup_iff.mpr hn
  have h1 : ∀ r ∈ ranks, rankBuffer pts nc val r k = ((writes pts nc val r).map fun w => if k = w.1 then w.2 else 0).sum := by
    intro r hr
    apply Sampling.foldl_writes_zero
    apply keys_nodup
    rw [List.map_flatten] at hn'
    exact (List.nodup_flatten.mp hn').1 _ (List.mem_map.mpr ⟨r, hr, rfl⟩)
  unfold buffer
  rw [List.map_congr_left h1]
  have h2 : ∀ rs : List (List (Part K)), (rs.map fun r => ((writes pts nc val r).map fun w => if k = w.1 then w.2 else 0).sum).sum =
      ((writes pts nc val rs.flatten).map fun w => if k = w.1 then w.2 else 0).sum := by
    intro rs
    induction rs with
    | nil => simp [writes]
    | cons r rs ih =>
      rw [List.map_cons, List.sum_cons, ih, List.flatten_cons]
      simp [writes, List.flatMap_append]
  rw [h2]
  exact ((hp.flatMap_right _).map _).sum_eq

/-- C78: however the particles are distributed, point `i` of rank `r` receives the value at its own position, provided the
rank owns a box and the point lies inside the domain; otherwise it receives zero.

Partial (C78). Missing: points outside the domain and ranks without boxes, which get zero (`outside_zero`). -/
theorem received_spec_partial {pts : List (List (Pos K))} {nc : ℕ} {val : ℕ → Pos K → K} {owns : ℕ → Bool} {inside : Pos K → Bool}
    {ranks : List (List (Part K))} (hd : Distributed inside (particles owns pts) ranks) {r i n : ℕ} {l : List (Pos K)}
    {p : Pos K} (hl : pts[r]? = some l) (hp : l[i]? = some p) (hn : n < nc) :
    received pts nc val ranks r i n = if owns r ∧ inside p then val n p else 0 := by
  have hs : ((((particles owns pts).filter fun p => inside p.pos)).map (slot pts)).Nodup := by
    rw [particles_eq]
    exact (slots_nodup pts).sublist ((List.filter_sublist.trans List.filter_sublist).map _)
  unfold received
  rw [buffer_eq hd hs]
  have hmem := mem_allParts hl hp
  by_cases h : owns r ∧ inside p
  · rw [if_pos h]
    apply sum_keys (keys_nodup hs)
    unfold writes
    rw [List.mem_flatMap]
    refine ⟨⟨r, i, p⟩, ?_, List.mem_map.mpr ⟨n, by simpa using hn, rfl⟩⟩
    rw [particles_eq, List.mem_filter, List.mem_filter]
    exact ⟨⟨hmem, h.1⟩, h.2⟩
  · rw [if_neg h]
    apply sum_no_keys
    intro hk
    unfold writes at hk
    rw [List.mem_map] at hk
    obtain ⟨w, hw, e⟩ := hk
    rw [List.mem_flatMap] at hw
    obtain ⟨q, hq, hw⟩ := hw
    obtain ⟨m, hm, rfl⟩ := List.mem_map.mp hw
    rw [List.mem_range] at hm
    rw [particles_eq, List.mem_filter, List.mem_filter] at hq
    have e1 : (slot pts q * nc + m) / nc = slot pts q := by
      rw [Nat.mul_comm, Nat.mul_add_div (by omega), Nat.div_eq_of_lt hm, add_zero]
    have e2 : ((offset pts r + i) * nc + n) / nc = offset pts r + i := by
      rw [Nat.mul_comm, Nat.mul_add_div (by omega), Nat.div_eq_of_lt hn, add_zero]
    have e3 : slot pts q = slot pts ⟨r, i, p⟩ := by
      rw [← e1]
      exact (congrArg (· / nc) e).trans e2
    have e4 := List.inj_on_of_nodup_map (slots_nodup pts) hq.1.1 hmem e3
    rw [e4] at hq
    exact h ⟨hq.1.2, hq.2⟩

theorem flatten_slice : ∀ (al : List (List (Pos K))) (a j : ℕ) (pl : List (Pos K)) (p : Pos K), al[a]? = some pl → pl[j]? = some p →
    al.flatten[((al.take a).map List.length).sum + j]? = some p
  | [], a, j, pl, p, h, _ => by simp at h
  | x :: al, 0, j, pl, p, h, hp => by
    simp only [List.getElem?_cons_zero, Option.some.injEq] at h
    subst h
    have := (List.getElem?_eq_some_iff.mp hp).1
    simp [List.getElem?_append_left this, hp]
  | x :: al, a + 1, j, pl, p, h, hp => by
    simp only [List.getElem?_cons_succ] at h
    have ih := flatten_slice al a j pl p h hp
    simp only [List.take_succ_cons, List.map_cons, List.sum_cons, List.flatten_cons]
    rw [Nat.add_assoc, List.getElem?_append_right (by omega)]
    simpa using ih

/-- C78: every actuator receives, for each of its points, the velocity and density interpolated at that point.

Partial (C78). Missing: points outside the domain and ranks without boxes, which get zero (`root_without_boxes`). -/
theorem actuator_velocity_partial {acts : List (List (List (Pos K)))} {nc : ℕ} {owns : ℕ → Bool} {inside : Pos K → Bool}
    {ranks : List (List (Part K))} {geo : ℕ → Geo K} {fld : ℕ → ℕ → Cell → K} {lev : Pos K → ℕ}
    (hd : Distributed inside (particles owns (acts.map rankPoints)) ranks) {r a j n : ℕ} {al : List (List (Pos K))}
    {pl : List (Pos K)} {p : Pos K} (hr : acts[r]? = some al) (ha : al[a]? = some pl) (hj : pl[j]? = some p) (hn : n < nc)
    (ho : owns r = true) (hi : inside p = true) :
    actuatorValue acts nc (sampleAt geo fld lev) ranks r a j n = interpolate (geo (lev p)) (fun _ => 1 / 2) (fld (lev p) n) p := by
  unfold actuatorValue
  have e : acts.getD r [] = al := by simp [List.getD_eq_getElem?_getD, hr]
  rw [e]
  have h1 : (acts.map rankPoints)[r]? = some al.flatten := by simp [hr, rankPoints]
  rw [received_spec_partial hd h1 (flatten_slice al a j pl p ha hj) hn, if_pos ⟨ho, hi⟩]
  rfl

/-! ## Labels -/

theorem byLabel_aux (l : String) : ∀ (ls : List String) (s id : ℕ), ls.Nodup → l ∈ ls →
    ∃ i, (ls.zipIdx s).foldl (fun id p => if p.1 = l then p.2 else id) id = s + i ∧ ls[i]? = some l
  | [], _, _, _, h => by simp at h
  | x :: ls, s, id, hn, h => by
    rw [List.nodup_cons] at hn
    rw [List.zipIdx_cons, List.foldl_cons]
    by_cases e : x = l
    · subst e
      refine ⟨0, ?_, by simp⟩
      have key : ∀ (ls : List String) (s : ℕ), x ∉ ls → ∀ id, (ls.zipIdx s).foldl (fun id p => if p.1 = x then p.2 else id) id = id := by
        intro ls
        induction ls with
        | nil => intros; rfl
        | cons y ls ih =>
          intro s hx id
          rw [List.zipIdx_cons, List.foldl_cons, if_neg (fun e : y = x => hx (by simp [e])), ih _ (fun h => hx (by simp [h]))]
      rw [if_pos rfl, key ls _ hn.1]
      rfl
    · have hm : l ∈ ls := by
        rcases List.mem_cons.mp h with h | h
        · exact absurd h.symm e
        · exact h
      rw [if_neg e]
      obtain ⟨i, h1, h2⟩ := byLabel_aux l ls (s + 1) id hn.2 hm
      exact ⟨i + 1, by rw [h1]; omega, by simpa using h2⟩

/-- C78: among actuators with distinct labels, the one returned for a label has this label. -/
theorem byLabel_spec {labels : List String} {l : String} (hn : labels.Nodup) (h : l ∈ labels) :
    labels[byLabel labels l]? = some l := by
  obtain ⟨i, h1, h2⟩ := byLabel_aux l labels 0 0 hn h
  unfold byLabel
  rw [h1, Nat.zero_add]
  exact h2

/-! ## Disagreements -/

/-- C78 fails: for a label no actuator has, the first actuator is returned. -/
theorem unknown_label : byLabel ["T1", "T2"] "T3" = 0 ∧ "T3" ∉ ["T1", "T2"] := by
  constructor
  · simp [byLabel]
  · decide

/-- C78 fails: a point outside the domain silently receives zero velocity and density, whatever the flow. -/
theorem outside_zero {pts : List (List (Pos K))} {nc : ℕ} {val : ℕ → Pos K → K} {owns : ℕ → Bool} {inside : Pos K → Bool}
    {ranks : List (List (Part K))} (hd : Distributed inside (particles owns pts) ranks) {r i n : ℕ} {l : List (Pos K)}
    {p : Pos K} (hl : pts[r]? = some l) (hp : l[i]? = some p) (hn : n < nc) (ho : inside p = false) :
    received pts nc val ranks r i n = 0 := by
  rw [received_spec_partial hd hl hp hn, if_neg (by simp [ho])]

/-- C78 fails: with two actuators on the same rank, the second has a root its box does not touch; if that rank owns no box at
all, it receives zero for every point, inside the domain or not, and this rank writes the output of the actuator. -/
theorem root_without_boxes : (assign [{0}, {0}] [0, 0]).1 = [(0, {0}), (1, {1, 0})] ∧
    ∀ (p q : Pos ℚ) (val : ℕ → Pos ℚ → ℚ) (ranks : List (List (Part ℚ))),
      Distributed (fun _ => true) (particles (fun r => r == 0) [[p, q], [q]]) ranks →
      received [[p, q], [q]] 4 val ranks 0 1 0 = val 0 q ∧ received [[p, q], [q]] 4 val ranks 1 0 0 = 0 := by
  constructor
  · have e1 : rootProc {0} [0, 0] = (0, {0}, [1, 0]) := by
      have : ((({0} : Finset ℕ).filter fun ip => ([0, 0] : List ℕ).getD ip 0 < 1)) = {0} := by decide
      unfold rootProc
      rw [this]
      simp
    have e2 : rootProc {0} [1, 0] = (1, {1, 0}, [1, 1]) := by
      have : ((({0} : Finset ℕ).filter fun ip => ([1, 0] : List ℕ).getD ip 0 < 1)) = ∅ := by decide
      have hm : minIdx [1, 0] = 1 := by decide
      unfold rootProc
      rw [this]
      simp [hm]
    simp only [assign, e1, e2]
  · intro p q val ranks hd
    constructor
    · rw [received_spec_partial hd (l := [p, q]) (p := q) rfl rfl (by omega)]
      simp
    · rw [received_spec_partial hd (l := [q]) (p := q) rfl rfl (by omega)]
      simp

/-! ## Concrete cases -/

/-- Two levels, four ranks. -/
def exLevels : List Level :=
  [⟨[(⟨fun _ => 0, fun _ => 3⟩, 0), (⟨fun _ => 4, fun _ => 7⟩, 1)], 2⟩,
   ⟨[(⟨fun _ => 0, fun _ => 7⟩, 2), (⟨fun _ => 8, fun _ => 15⟩, 3)], 2⟩]

/-- The hypotheses of `influenced_complete`: the second fine box meets the actuator. -/
example : 3 ∈ influenced exLevels (⟨fun _ => 9 / 2, fun _ => 5⟩ : RBox ℚ) ⟨fun _ => 0, fun _ => 1, fun _ => 8⟩ :=
  (influenced_complete (n := 1) (b := ⟨fun _ => 8, fun _ => 15⟩) (p := 3) (by decide) rfl (by simp [exLevels]) (by
    intro d
    have h1 : ⌊((9 : ℚ) / 2 - 0) * (1 / (1 / 2))⌋ = 9 := by norm_num
    have h2 : ⌈((5 : ℚ) - 0) * (1 / (1 / 2))⌉ = 10 := by norm_num
    simp only [realboxToBox, levelGeom, fineGeom, exLevels, Geom.hi]
    norm_num)).1

/-- The hypotheses of `own_rank`: three actuators that all touch rank 2 only, on three ranks. -/
example : ((assign [{2}, {2}, {2}] (List.replicate 3 0)).1.map Prod.fst).Nodup :=
  own_rank (by omega) (by simp) (by simp)

/-- The hypotheses of `received_spec_partial`: particles scattered in another order. -/
example (p q s : Pos ℚ) (val : ℕ → Pos ℚ → ℚ) :
    received [[p, q], [s]] 4 val [[⟨1, 0, s⟩, ⟨0, 1, q⟩], [⟨0, 0, p⟩]] 1 0 2 = val 2 s := by
  have hd : Distributed (fun _ => true) (particles (fun _ => true) [[p, q], [s]]) [[⟨1, 0, s⟩, ⟨0, 1, q⟩], [⟨0, 0, p⟩]] := by
    simp only [Distributed, particles, List.zipIdx_cons, List.zipIdx_nil, List.flatMap_cons, List.flatMap_nil, if_true,
      List.map_cons, List.map_nil, List.flatten_cons, List.flatten_nil, List.append_nil, List.cons_append, List.nil_append,
      List.filter_true]
    exact List.Perm.trans (List.reverse_perm _).symm (List.Perm.refl _)
  rw [received_spec_partial hd (l := [s]) (p := s) rfl rfl (by omega)]
  simp

end AmrWind.Proc
