import Verif.Abl.StatsModel
import Mathlib.Tactic.FieldSimp
import Mathlib.Tactic.Linarith
import Mathlib.Tactic.Positivity
import Mathlib.Tactic.NormNum

/-!
# Statistics of the boundary layer (C93)
-/

set_option linter.unusedSectionVars false

namespace AmrWind.Stats

open Plane

section height
variable {K : Type*} [Field K] [LinearOrder K] [IsStrictOrderedRing K]

/-! ## Specification -/

/-- The boxes hold every column of the domain exactly once. -/
def ColumnPartition (dom : Bx) (boxes : List Bx) : Prop := (boxes.flatMap columns).Perm (columns dom)

/-- `k` is a cell of the column where the gradient is strongest. -/
def Strongest (v : ℤ → K) (zhi k : ℤ) : Prop := 0 ≤ k ∧ k ≤ zhi ∧ ∀ k', 0 ≤ k' → k' ≤ zhi → v k' ≤ v k

/-! ## Lemmas -/

theorem columns_length (b : Bx) (hx : b.lo.1 ≤ b.hi.1) (hy : b.lo.2.1 ≤ b.hi.2.1) :
    ((columns b).length : ℤ) = (b.hi.1 - b.lo.1 + 1) * (b.hi.2.1 - b.lo.2.1 + 1) := by
  unfold columns
  rw [List.length_flatMap]
  simp only [List.length_map, irange, List.map_const', List.sum_replicate, List.length_range, smul_eq_mul]
  push_cast
  rw [Int.toNat_of_nonneg (by omega), Int.toNat_of_nonneg (by omega), mul_comm]

theorem zi_perm (index : ℤ → ℤ → ℤ) (dn : K) {dom : Bx} {boxes : List Bx} (hp : ColumnPartition dom boxes)
    (hx : dom.lo.1 ≤ dom.hi.1) (hy : dom.lo.2.1 ≤ dom.hi.2.1) :
    zi index dn dom boxes =
      ((columns dom).map fun c => ((index c.1 c.2 : K) + 1 / 2) * dn).sum / ((columns dom).length : K) := by
  unfold zi
  have e : (((dom.hi.1 - dom.lo.1 + 1) * (dom.hi.2.1 - dom.lo.2.1 + 1) : ℤ) : K) = ((columns dom).length : K) := by
    rw [← columns_length dom hx hy]; push_cast; rfl
  rw [e]
  congr 1
  have h : ((boxes.flatMap columns).map fun c : ℤ × ℤ => ((index c.1 c.2 : K) + 1 / 2) * dn).sum =
      ((columns dom).map fun c => ((index c.1 c.2 : K) + 1 / 2) * dn).sum := (hp.map _).sum_eq
  rw [← h, List.map_flatMap, List.flatMap_def, List.sum_flatten, List.map_map]
  rfl

theorem scanCpu_idx (i : ℤ) (v : ℤ → K) : ∀ (l : List ℤ) (s : K × ℤ),
    (l.foldl (fun s k => if v k > s.1 then (v k, i) else s) s).2 = i ∨
      (l.foldl (fun s k => if v k > s.1 then (v k, i) else s) s = s ∧ ∀ k ∈ l, v k ≤ s.1) := by
  intro l
  induction l with
  | nil => intro s; right; simp
  | cons k l ih =>
    intro s
    rw [List.foldl_cons]
    by_cases h : v k > s.1
    · rw [if_pos h]
      rcases ih (v k, i) with h' | ⟨h', _⟩
      · left; exact h'
      · left; rw [h']
    · rw [if_neg h]
      rcases ih s with h' | ⟨h', h''⟩
      · left; exact h'
      · right
        refine ⟨h', fun k' hk' => ?_⟩
        rcases List.mem_cons.mp hk' with rfl | hk'
        · exact not_lt.mp h
        · exact h'' k' hk'

theorem columnCpu_eq {lowest : K} {a : ℤ → ℤ → ℤ → K} {zlo zhi i j : ℤ} (hz : zlo ≤ zhi)
    (hl : ∀ k, lowest < a i j k) : columnCpu lowest a zlo zhi i j = i := by
  unfold columnCpu
  rcases scanCpu_idx i (a i j) (irange zlo zhi) (lowest, 0) with h | ⟨_, h⟩
  · exact h
  · have : zlo ∈ irange zlo zhi := by
      unfold irange
      exact List.mem_map.mpr ⟨0, List.mem_range.mpr (by omega), by simp⟩
    exact absurd (h _ this) (not_le.mpr (hl zlo))

/-- Invariant of a scan: the pair is the initial one or a visited entry, and no visited value exceeds the first entry. -/
theorem scan_inv (v : ℕ → K) : ∀ (l : List ℕ) (r : K × ℕ),
    let q := l.foldl (fun r k => if v k > r.1 then (v k, k) else r) r
    (q = r ∨ ∃ k ∈ l, q = (v k, k)) ∧ r.1 ≤ q.1 ∧ ∀ k ∈ l, v k ≤ q.1 := by
  intro l
  induction l with
  | nil => intro r; simp
  | cons k l ih =>
    intro r
    simp only [List.foldl_cons]
    by_cases h : v k > r.1
    · rw [if_pos h]
      obtain ⟨h1, h2, h3⟩ := ih (v k, k)
      refine ⟨Or.inr ?_, h.le.trans h2, ?_⟩
      · rcases h1 with h1 | ⟨k', hk', e⟩
        · exact ⟨k, List.mem_cons_self, h1⟩
        · exact ⟨k', List.mem_cons_of_mem _ hk', e⟩
      · intro k' hk'
        rcases List.mem_cons.mp hk' with rfl | hk'
        · exact h2
        · exact h3 k' hk'
    · rw [if_neg h]
      obtain ⟨h1, h2, h3⟩ := ih r
      refine ⟨?_, h2, ?_⟩
      · rcases h1 with h1 | ⟨k', hk', e⟩
        · exact Or.inl h1
        · exact Or.inr ⟨k', List.mem_cons_of_mem _ hk', e⟩
      · intro k' hk'
        rcases List.mem_cons.mp hk' with rfl | hk'
        · exact (not_lt.mp h).trans h2
        · exact h3 k' hk'

theorem best_inv {α : Type*} (p : α → K × ℕ) : ∀ (l : List α) (r : K × ℕ),
    let q := l.foldl (fun r t => if r.1 < (p t).1 then p t else r) r
    (q = r ∨ ∃ t ∈ l, q = p t) ∧ r.1 ≤ q.1 ∧ ∀ t ∈ l, (p t).1 ≤ q.1 := by
  intro l
  induction l with
  | nil => intro r; simp
  | cons k l ih =>
    intro r
    simp only [List.foldl_cons]
    by_cases h : r.1 < (p k).1
    · rw [if_pos h]
      obtain ⟨h1, h2, h3⟩ := ih (p k)
      refine ⟨Or.inr ?_, h.le.trans h2, ?_⟩
      · rcases h1 with h1 | ⟨k', hk', e⟩
        · exact ⟨k, List.mem_cons_self, h1⟩
        · exact ⟨k', List.mem_cons_of_mem _ hk', e⟩
      · intro k' hk'
        rcases List.mem_cons.mp hk' with rfl | hk'
        · exact h2
        · exact h3 k' hk'
    · rw [if_neg h]
      obtain ⟨h1, h2, h3⟩ := ih r
      refine ⟨?_, h2, ?_⟩
      · rcases h1 with h1 | ⟨k', hk', e⟩
        · exact Or.inl h1
        · exact Or.inr ⟨k', List.mem_cons_of_mem _ hk', e⟩
      · intro k' hk'
        rcases List.mem_cons.mp hk' with rfl | hk'
        · exact (not_lt.mp h).trans h2
        · exact h3 k' hk'

/-- The reduction finds a place of the largest value, for every length of the column. -/
theorem columnGpu_spec {lowest : K} {v : ℕ → K} {len : ℕ} (hlen : 0 < len) (hl : ∀ k, lowest < v k) :
    columnGpu lowest v len < len ∧ ∀ k < len, v k ≤ v (columnGpu lowest v len) := by
  have key : ∃ k < len, (List.range 128).foldl (fun r t => if r.1 < (threadScan lowest v len t).1 then
      threadScan lowest v len t else r) (lowest, 0) = (v k, k) ∧ ∀ k' < len, v k' ≤ v k := by
    obtain ⟨h1, h2, h3⟩ := best_inv (threadScan lowest v len) (List.range 128) (lowest, 0)
    set q := (List.range 128).foldl (fun r t => if r.1 < (threadScan lowest v len t).1 then
      threadScan lowest v len t else r) (lowest, 0) with hq
    have hall : ∀ k' < len, v k' ≤ q.1 := by
      intro k' hk'
      have hm : k' % 128 ∈ List.range 128 := List.mem_range.mpr (Nat.mod_lt _ (by norm_num))
      have h4 := (scan_inv v ((List.range len).filter fun k => k % 128 == k' % 128) (lowest, 0)).2.2 k'
        (List.mem_filter.mpr ⟨List.mem_range.mpr hk', by simp⟩)
      exact h4.trans (h3 _ hm)
    have hne : q ≠ (lowest, 0) := by
      intro e
      have := hall 0 hlen
      rw [e] at this
      exact absurd this (not_le.mpr (hl 0))
    rcases h1 with h1 | ⟨t, _, ht⟩
    · exact absurd h1 hne
    · rcases (scan_inv v ((List.range len).filter fun k => k % 128 == t) (lowest, 0)).1 with h5 | ⟨k, hk, h5⟩
      · exact absurd (ht.trans h5) hne
      · refine ⟨k, List.mem_range.mp (List.mem_filter.mp hk).1, ht.trans h5, fun k' hk' => ?_⟩
        have h6 := hall k' hk'
        have h7 : q = (v k, k) := ht.trans h5
        rw [h7] at h6
        exact h6
  obtain ⟨k, hk, e, hall⟩ := key
  have e' : columnGpu lowest v len = k := by unfold columnGpu; rw [e]
  rw [e']
  exact ⟨hk, hall⟩

theorem sum_irange (n : ℕ) : ((irange 0 ((n : ℤ) - 1)).map fun i : ℤ => ((i : K) + 1 / 2)).sum = (n : K) ^ 2 / 2 := by
  have h : irange 0 ((n : ℤ) - 1) = (List.range n).map fun m : ℕ => (m : ℤ) := by
    unfold irange
    have : ((n : ℤ) - 1 - 0 + 1).toNat = n := by omega
    rw [this]
    simp
  rw [h, List.map_map]
  clear h
  induction n with
  | zero => simp
  | succ n ih =>
    rw [List.range_succ, List.map_append, List.sum_append, ih]
    simp only [List.map_cons, List.map_nil, List.sum_cons, List.sum_nil, Function.comp, add_zero]
    push_cast
    ring

/-! ## C93: the height of the boundary layer -/

/-- C93 (accelerators). The height is the mean over the columns of the height above the lower boundary of the cell centre
where the vertical gradient of the temperature is strongest, for every distribution of the columns over the ranks.
Partial: on processors it is not (`zi_cpu`); the height is counted from cell 0, not in the coordinate. -/
theorem zi_gpu_partial {lowest dn : K} {a : ℤ → ℤ → ℤ → K} {dom : Bx} {boxes : List Bx} (h0 : dom.lo.2.2 = 0)
    (hd : dom.Ok) (hp : ColumnPartition dom boxes) (hl : ∀ i j k, lowest < a i j k) :
    ∃ h : ℤ → ℤ → ℤ, (∀ i j, Strongest (a i j) dom.hi.2.2 (h i j)) ∧
      ziGpu lowest dn a dom boxes =
        ((columns dom).map fun c => ((h c.1 c.2 : K) + 1 / 2) * dn).sum / ((columns dom).length : K) := by
  have hz := hd.2.2
  rw [h0] at hz
  refine ⟨fun i j => columnGpu lowest (fun k => a i j k) (dom.hi.2.2 - dom.lo.2.2 + 1).toNat, fun i j => ?_,
    zi_perm _ dn hp hd.1 hd.2.1⟩
  have := columnGpu_spec (lowest := lowest) (v := fun k : ℕ => a i j k) (len := (dom.hi.2.2 - dom.lo.2.2 + 1).toNat)
    (by omega) fun k => hl i j k
  refine ⟨by positivity, ?_, fun k' h1 h2 => ?_⟩
  · have h4 := this.1
    beta_reduce
    omega
  have h3 := this.2 k'.toNat (by omega)
  rwa [Int.toNat_of_nonneg h1] at h3

/-- C93. On processors the reported height is half the number of cells in the first horizontal direction times the
vertical cell size, whatever the temperature. -/
theorem zi_cpu {lowest dn : K} {a : ℤ → ℤ → ℤ → K} {dom : Bx} {boxes : List Bx} (h0 : dom.lo.1 = 0) (hd : dom.Ok)
    (hp : ColumnPartition dom boxes) (hl : ∀ i j k, lowest < a i j k) :
    ziCpu lowest dn a dom boxes = ((dom.hi.1 + 1 : ℤ) : K) / 2 * dn := by
  obtain ⟨hx, hy, hz⟩ := hd
  unfold ziCpu
  rw [zi_perm _ dn hp hx hy]
  have e : (columns dom).map (fun c => ((columnCpu lowest a dom.lo.2.2 dom.hi.2.2 c.1 c.2 : K) + 1 / 2) * dn) =
      (columns dom).map fun c => ((c.1 : K) + 1 / 2) * dn := by
    apply List.map_congr_left
    intro c _
    rw [columnCpu_eq hz (hl c.1 c.2)]
  rw [e]
  have hlen := columns_length dom hx hy
  have hlenK : ((columns dom).length : K) =
      ((dom.hi.1 + 1 : ℤ) : K) * ((dom.hi.2.1 - dom.lo.2.1 + 1 : ℤ) : K) := by
    have := congrArg (fun z : ℤ => (z : K)) hlen
    rw [h0] at this
    push_cast at this ⊢
    rw [this]; ring
  obtain ⟨n, hn⟩ : ∃ n : ℕ, dom.hi.1 + 1 = n := ⟨(dom.hi.1 + 1).toNat, by omega⟩
  have hs : ((columns dom).map fun c : ℤ × ℤ => ((c.1 : K) + 1 / 2) * dn).sum =
      ((dom.hi.2.1 - dom.lo.2.1 + 1 : ℤ) : K) * ((n : K) ^ 2 / 2 * dn) := by
    unfold columns
    rw [List.map_flatMap, List.flatMap_def, List.sum_flatten, List.map_map]
    have e2 : ∀ j : ℤ, (List.sum ∘ fun j : ℤ => ((irange dom.lo.1 dom.hi.1).map fun i => (i, j)).map
        fun c : ℤ × ℤ => ((c.1 : K) + 1 / 2) * dn) j = (n : K) ^ 2 / 2 * dn := by
      intro j
      simp only [Function.comp, List.map_map]
      rw [h0, show dom.hi.1 = (n : ℤ) - 1 by omega, ← sum_irange (K := K) n, ← List.sum_map_mul_right]
      rfl
    rw [List.map_congr_left (g := fun _ => (n : K) ^ 2 / 2 * dn) fun j _ => e2 j, List.map_const', List.sum_replicate]
    unfold irange
    rw [List.length_map, List.length_range, nsmul_eq_mul]
    congr 1
    have : (((dom.hi.2.1 - dom.lo.2.1 + 1).toNat : ℤ) : K) = ((dom.hi.2.1 - dom.lo.2.1 + 1 : ℤ) : K) := by
      rw [Int.toNat_of_nonneg (by omega)]
    rw [← this]; push_cast; rfl
  rw [hs, hlenK, hn]
  have hnpos : (n : K) ≠ 0 := by
    have : 0 < n := by omega
    exact_mod_cast this.ne'
  have hm : ((dom.hi.2.1 - dom.lo.2.1 + 1 : ℤ) : K) ≠ 0 := by
    have : (dom.hi.2.1 - dom.lo.2.1 + 1 : ℤ) ≠ 0 := by omega
    exact_mod_cast this
  push_cast at hm ⊢
  field_simp

/-- C93 is false on processors: a column of eight cells with the strongest gradient in the top cell has its inversion at
15/2 cells, the code reports 1/2. -/
theorem zi_cpu_wrong :
    let dom : Bx := ⟨(0, 0, 0), (0, 0, 7)⟩
    let a : ℤ → ℤ → ℤ → ℚ := fun _ _ k => if k = 7 then 1 else 0
    ziCpu (-1000) 1 a dom [dom] = 1 / 2 ∧ ziGpu (-1000) 1 a dom [dom] = 15 / 2 ∧
      ∀ k, Strongest (a 0 0) 7 k ↔ k = 7 := by
  refine ⟨by decide +kernel, by decide +kernel, fun k => ⟨fun h => ?_, fun h => ?_⟩⟩
  · by_contra hk
    have := h.2.2 7 (by norm_num) le_rfl
    simp only [if_true, if_neg hk] at this
    exact absurd this (by norm_num)
  · subst h
    refine ⟨by norm_num, le_rfl, fun k' _ _ => ?_⟩
    show (if k' = 7 then (1 : ℚ) else 0) ≤ 1
    split_ifs <;> norm_num

/-- The hypotheses of both theorems are met: two boxes side by side. -/
example : ColumnPartition ⟨(0, 0, 0), (3, 1, 7)⟩ [⟨(0, 0, 0), (1, 1, 7)⟩, ⟨(2, 0, 0), (3, 1, 7)⟩] := by
  unfold ColumnPartition
  decide +kernel

end height

/-! ## C93: the convective velocity scale -/

/-- C93. The convective velocity is zero without an upward heat flux and otherwise the positive number whose cube is
`g Q zi / θ`. -/
theorem wstar_spec {eps g Q z theta : ℝ} (he : 0 ≤ eps) (hg : 0 < g) (hz : 0 < z) (ht : 0 < theta) :
    (Q ≤ eps * 1.0e6 → wstar eps g Q z theta = 0) ∧
      (eps * 1.0e6 < Q → 0 < wstar eps g Q z theta ∧ wstar eps g Q z theta ^ 3 = g * Q * z / theta) := by
  unfold wstar
  refine ⟨fun h => if_neg (not_lt.mpr h), fun h => ?_⟩
  rw [if_pos h]
  have hQ : 0 < Q := lt_of_le_of_lt (by positivity) h
  have hp : 0 < g * Q * z / theta := by positivity
  refine ⟨Real.rpow_pos_of_pos hp _, ?_⟩
  rw [← Real.rpow_natCast, ← Real.rpow_mul hp.le]
  norm_num

example : wstar 0 10 1 100 1 = 10 := by
  have h := (wstar_spec (eps := 0) (g := 10) (Q := 1) (z := 100) (theta := 1) le_rfl (by norm_num) (by norm_num)
    (by norm_num)).2 (by norm_num)
  have h2 : wstar 0 10 1 100 1 ^ 3 = (10 : ℝ) ^ 3 := by rw [h.2]; norm_num
  exact (pow_left_inj₀ h.1.le (by norm_num) (by norm_num)).mp h2

/-! ## C93: output steps -/

/-- C93. With a positive interval a row is written just at the steps it divides. -/
theorem output_steps {freq tidx : ℤ} (hf : 0 < freq) : stepWork freq tidx = some .output ↔ freq ∣ tidx := by
  unfold stepWork
  rw [if_neg hf.ne']
  by_cases h : Int.tmod tidx freq = 0
  · rw [if_neg (not_not.mpr h), if_pos hf]
    exact ⟨fun _ => Int.dvd_of_tmod_eq_zero h, fun _ => rfl⟩
  · rw [if_pos h]
    exact ⟨fun h' => by simp at h', fun h' => absurd (Int.tmod_eq_zero_of_dvd h') h⟩

/-- C93. A negative interval, which turns the output off, still runs the moments at the steps it divides; the interval zero
divides by zero. -/
theorem output_off {freq tidx : ℤ} (hf : freq < 0) :
    stepWork freq tidx ≠ some .output ∧ (freq ∣ tidx → stepWork freq tidx = some .moments) ∧ stepWork 0 tidx = none := by
  unfold stepWork
  rw [if_neg hf.ne]
  refine ⟨?_, fun h => ?_, if_pos rfl⟩
  · by_cases h : Int.tmod tidx freq = 0
    · rw [if_neg (not_not.mpr h), if_neg (by omega)]; simp
    · rw [if_pos h]; simp
  · rw [if_neg (not_not.mpr (Int.tmod_eq_zero_of_dvd h)), if_neg (by omega)]

example : stepWork 100 200 = some .output ∧ stepWork 100 250 = some .skip := by decide

/-! ## C93: subgrid stresses and the energy budget -/

section stress
variable {K : Type*} [Field K] [LinearOrder K] [IsStrictOrderedRing K]

/-- C93. The subgrid stresses are `-2 ν S` off the diagonal, with `S` the rate of strain. -/
theorem sfs_stress (mu : K) (L : Fvm.Grad K) :
    sfs mu L = (-2 * mu * L.S 0 1, -2 * mu * L.S 0 2, -2 * mu * L.S 1 2) := by
  unfold sfs
  simp only [Fvm.Grad.S, Fvm.Grad.mat, Matrix.smul_apply, Matrix.add_apply, Matrix.transpose_apply, smul_eq_mul,
    Prod.mk.injEq]
  refine ⟨?_, ?_, ?_⟩ <;> simp <;> ring

/-- C93. No subgrid stress in a rigid rotation, and a heat flux down the gradient. -/
theorem sfs_rigid (mu a b c : K) : sfs mu ⟨0, -c, b, c, 0, -a, -b, a, 0⟩ = (0, 0, 0) := by
  unfold sfs; simp

theorem heat_flux_down {alpha : K} (ha : 0 ≤ alpha) (g : K × K × K) :
    (tsfs alpha g).1 * g.1 ≤ 0 ∧ (tsfs alpha g).2.1 * g.2.1 ≤ 0 ∧ (tsfs alpha g).2.2 * g.2.2 ≤ 0 := by
  have h : ∀ x : K, -alpha * x * x ≤ 0 := fun x => by
    have := mul_nonneg ha (mul_self_nonneg x)
    linarith [this, show -alpha * x * x = -(alpha * (x * x)) by ring]
  exact ⟨h _, h _, h _⟩

/-- C93. The residual closes the budget in every cell. -/
theorem budget_cell (k kold dt conv shear buoy dissip : K) :
    (k - kold) / dt = conv + shear + buoy - dissip + tkeDiffusion k kold dt conv shear buoy dissip := by
  unfold tkeDiffusion; ring

/-- C93. **Over any steps the terms of the budget add up to the change of the energy**, whatever the sizes of the steps. -/
theorem budget_steps (k dt conv shear buoy dissip : ℕ → K) (hdt : ∀ i, dt i ≠ 0) : ∀ n : ℕ,
    ((List.range n).map fun i => dt i * (conv i + shear i + buoy i - dissip i +
      tkeDiffusion (k (i + 1)) (k i) (dt i) (conv i) (shear i) (buoy i) (dissip i))).sum = k n - k 0
  | 0 => by simp
  | n + 1 => by
    rw [List.range_succ, List.map_append, List.sum_append, budget_steps k dt conv shear buoy dissip hdt n, List.map_singleton, List.sum_singleton,
      ← budget_cell, mul_div_cancel₀ _ (hdt n)]
    ring

example : ∀ i : ℕ, ((fun j : ℕ => (j : ℚ) + 1) i) ≠ 0 := fun i => by positivity

end stress

/-! ## C93: the row of profiles -/

/-- What each variable of the file is to hold at plane `k`: means over the plane and means of products of fluctuations. -/
noncomputable def wantedRow (s : Fields) (budget : Bool) (k : ℤ) : List (String × ℝ) :=
  let m : (Cell → ℝ) → ℝ := mean (planeCells .z s.dom k)
  let u : Fin 3 → Cell → ℝ := fun d c => s.vel c d
  let th : Cell → ℝ := fun c => s.temp c 0
  let flu : (Cell → ℝ) → Cell → ℝ := fun f c => f c - m f
  [("u", m (u 0)), ("v", m (u 1)), ("w", m (u 2)),
   ("hvelmag", m fun c => Real.sqrt (u 0 c ^ 2 + u 1 c ^ 2)),
   ("theta", m th),
   ("mueff", m fun c => s.mueff c 0),
   ("theta'theta'_r", m fun c => flu th c * flu th c),
   ("u'theta'_r", m fun c => flu (u 0) c * flu th c),
   ("v'theta'_r", m fun c => flu (u 1) c * flu th c),
   ("w'theta'_r", m fun c => flu (u 2) c * flu th c),
   ("u'u'_r", m fun c => flu (u 0) c * flu (u 0) c),
   ("u'v'_r", m fun c => flu (u 0) c * flu (u 1) c),
   ("u'w'_r", m fun c => flu (u 0) c * flu (u 2) c),
   ("v'v'_r", m fun c => flu (u 1) c * flu (u 1) c),
   ("v'w'_r", m fun c => flu (u 1) c * flu (u 2) c),
   ("w'w'_r", m fun c => flu (u 2) c * flu (u 2) c),
   ("u'u'u'_r", m fun c => flu (u 0) c * flu (u 0) c * flu (u 0) c),
   ("v'v'v'_r", m fun c => flu (u 1) c * flu (u 1) c * flu (u 1) c),
   ("w'w'w'_r", m fun c => flu (u 2) c * flu (u 2) c * flu (u 2) c),
   ("u'v'_sfs", m fun c => s.sfs c 0), ("u'w'_sfs", m fun c => s.sfs c 1), ("v'w'_sfs", m fun c => s.sfs c 2),
   ("u'theta'_sfs", m fun c => s.tsfs c 0), ("v'theta'_sfs", m fun c => s.tsfs c 1),
   ("w'theta'_sfs", m fun c => s.tsfs c 2)] ++
  (if budget then
    [("tke_buoy", m fun c => s.buoy c 0), ("tke_shear", m fun c => s.shear c 0), ("tke_dissip", m fun c => s.dissip c 0),
     ("tke_diff", m fun c => s.diff c 0)]
  else [])

section rows
variable {s : Fields} (hd : s.dom.Ok) (hp : Partition s.dom s.ranks) {k : ℤ} (hk : s.dom.HasPlane .z k)
include hd hp hk

theorem avg_eq {n : ℕ} (f : Cell → ℕ → ℝ) {c : ℕ} (hc : c < n) :
    s.avg n f c k = mean (planeCells .z s.dom k) fun x => f x c := plane_average hd f hp hk hc

theorem moment2_eq {n1 n2 : ℕ} (f1 f2 : Cell → ℕ → ℝ) {a b c : ℕ} (ha : a < n1) (hb : b < n2) (hc : c = n2 * a + b) :
    s.moment2 n1 n2 f1 f2 c k = mean (planeCells .z s.dom k) fun x =>
      (f1 x a - mean (planeCells .z s.dom k) fun y => f1 y a) *
        (f2 x b - mean (planeCells .z s.dom k) fun y => f2 y b) := by
  subst hc
  exact second_moment hd f1 f2 hp hk ha hb

theorem moment3_eq {a b c d : ℕ} (ha : a < 3) (hb : b < 3) (hc : c < 3) (hd' : d = 9 * a + (3 * b + c)) :
    s.moment3 d k = mean (planeCells .z s.dom k) fun x =>
      (s.vel x a - mean (planeCells .z s.dom k) fun y => s.vel y a) *
        (s.vel x b - mean (planeCells .z s.dom k) fun y => s.vel y b) *
        (s.vel x c - mean (planeCells .z s.dom k) fun y => s.vel y c) := by
  subst hd'
  exact third_moment hd s.vel s.vel s.vel hp hk ha hb hc

/-- The row as the code writes it is the wanted one with the buoyancy field replaced by the dissipation. -/
theorem row_eq (budget : Bool) : row s budget k = wantedRow { s with buoy := s.dissip } budget k := by
  unfold row wantedRow
  simp only [List.map_cons, List.map_nil, List.zip_cons_cons, List.zip_nil_right]
  rw [avg_eq hd hp hk s.vel (n := 3) (c := 0) (by norm_num), avg_eq hd hp hk s.vel (n := 3) (c := 1) (by norm_num),
    avg_eq hd hp hk s.vel (n := 3) (c := 2) (by norm_num), hvelmag_average hd s.vel hp hk,
    avg_eq hd hp hk s.temp (n := 1) (c := 0) (by norm_num), avg_eq hd hp hk s.mueff (n := 1) (c := 0) (by norm_num),
    moment2_eq hd hp hk s.temp s.temp (n1 := 1) (n2 := 1) (a := 0) (b := 0) (c := 0) (by norm_num) (by norm_num) rfl,
    moment2_eq hd hp hk s.vel s.temp (n1 := 3) (n2 := 1) (a := 0) (b := 0) (c := 0) (by norm_num) (by norm_num) rfl,
    moment2_eq hd hp hk s.vel s.temp (n1 := 3) (n2 := 1) (a := 1) (b := 0) (c := 1) (by norm_num) (by norm_num) rfl,
    moment2_eq hd hp hk s.vel s.temp (n1 := 3) (n2 := 1) (a := 2) (b := 0) (c := 2) (by norm_num) (by norm_num) rfl,
    moment2_eq hd hp hk s.vel s.vel (n1 := 3) (n2 := 3) (a := 0) (b := 0) (c := 0) (by norm_num) (by norm_num) rfl,
    moment2_eq hd hp hk s.vel s.vel (n1 := 3) (n2 := 3) (a := 0) (b := 1) (c := 1) (by norm_num) (by norm_num) rfl,
    moment2_eq hd hp hk s.vel s.vel (n1 := 3) (n2 := 3) (a := 0) (b := 2) (c := 2) (by norm_num) (by norm_num) rfl,
    moment2_eq hd hp hk s.vel s.vel (n1 := 3) (n2 := 3) (a := 1) (b := 1) (c := 4) (by norm_num) (by norm_num) rfl,
    moment2_eq hd hp hk s.vel s.vel (n1 := 3) (n2 := 3) (a := 1) (b := 2) (c := 5) (by norm_num) (by norm_num) rfl,
    moment2_eq hd hp hk s.vel s.vel (n1 := 3) (n2 := 3) (a := 2) (b := 2) (c := 8) (by norm_num) (by norm_num) rfl,
    moment3_eq hd hp hk (a := 0) (b := 0) (c := 0) (d := 0) (by norm_num) (by norm_num) (by norm_num) rfl,
    moment3_eq hd hp hk (a := 1) (b := 1) (c := 1) (d := 13) (by norm_num) (by norm_num) (by norm_num) rfl,
    moment3_eq hd hp hk (a := 2) (b := 2) (c := 2) (d := 26) (by norm_num) (by norm_num) (by norm_num) rfl,
    avg_eq hd hp hk s.sfs (n := 3) (c := 0) (by norm_num), avg_eq hd hp hk s.sfs (n := 3) (c := 1) (by norm_num),
    avg_eq hd hp hk s.sfs (n := 3) (c := 2) (by norm_num),
    avg_eq hd hp hk s.tsfs (n := 3) (c := 0) (by norm_num), avg_eq hd hp hk s.tsfs (n := 3) (c := 1) (by norm_num),
    avg_eq hd hp hk s.tsfs (n := 3) (c := 2) (by norm_num),
    avg_eq hd hp hk s.dissip (n := 1) (c := 0) (by norm_num), avg_eq hd hp hk s.shear (n := 1) (c := 0) (by norm_num),
    avg_eq hd hp hk s.diff (n := 1) (c := 0) (by norm_num)]
  rfl

/-- C93. Without the energy budget every variable of the row holds the mean its name says, on every plane and for every
partition of the domain over the ranks.  Partial: with the budget see `row_budget_partial`, `tke_buoy_wrong`. -/
theorem row_partial : row s false k = wantedRow s false k := by
  rw [row_eq hd hp hk false]; rfl

/-- C93. With the energy budget every variable but `tke_buoy` holds the mean its name says. -/
theorem row_budget_partial :
    (row s true k).filter (fun p => p.1 != "tke_buoy") = (wantedRow s true k).filter fun p => p.1 != "tke_buoy" := by
  rw [row_eq hd hp hk true]
  unfold wantedRow
  simp

/-- C93 is false of `tke_buoy`: it always holds the dissipation. -/
theorem tke_buoy_wrong :
    (row s true k).lookup "tke_buoy" = (row s true k).lookup "tke_dissip" ∧
      (row s true k).lookup "tke_buoy" = some (mean (planeCells .z s.dom k) fun c => s.dissip c 0) ∧
      (wantedRow s true k).lookup "tke_buoy" = some (mean (planeCells .z s.dom k) fun c => s.buoy c 0) := by
  rw [row_eq hd hp hk true]
  unfold wantedRow
  simp [List.lookup]

/-- C93. The written residual closes the budget of the plane with the true terms: rate of change = convection + shear
production + buoyancy production - dissipation + `tke_diff`. -/
theorem budget_plane {tke tkeOld conv : Cell → ℝ} {dt : ℝ}
    (hdiff : ∀ c, s.diff c 0 = tkeDiffusion (tke c) (tkeOld c) dt (conv c) (s.shear c 0) (s.buoy c 0) (s.dissip c 0)) :
    let m : (Cell → ℝ) → ℝ := mean (planeCells .z s.dom k)
    ∃ d, (row s true k).lookup "tke_diff" = some d ∧
      m (fun c => (tke c - tkeOld c) / dt) =
        m conv + m (fun c => s.shear c 0) + m (fun c => s.buoy c 0) - m (fun c => s.dissip c 0) + d := by
  intro m
  refine ⟨m fun c => s.diff c 0, ?_, ?_⟩
  · rw [row_eq hd hp hk true]
    unfold wantedRow
    simp [List.lookup, m]
  · have hm : ∀ f g : Cell → ℝ, m (fun c => f c + g c) = m f + m g := by
      intro f g
      show mean _ _ = mean _ _ + mean _ _
      unfold mean
      rw [List.sum_map_add, add_div]
    have hn : ∀ f g : Cell → ℝ, m (fun c => f c - g c) = m f - m g := by
      intro f g
      have := hm (fun c => f c - g c) g
      simp only [sub_add_cancel] at this
      linarith
    rw [← hm, ← hm, ← hn, ← hm]
    congr 1
    funext c
    rw [hdiff c]
    exact budget_cell _ _ _ _ _ _ _

end rows

theorem row_names (s : Fields) (budget : Bool) (k : ℤ) : (row s budget k).map Prod.fst =
    ["u", "v", "w", "hvelmag", "theta", "mueff", "theta'theta'_r", "u'theta'_r", "v'theta'_r", "w'theta'_r", "u'u'_r",
      "u'v'_r", "u'w'_r", "v'v'_r", "v'w'_r", "w'w'_r", "u'u'u'_r", "v'v'v'_r", "w'w'w'_r", "u'v'_sfs", "u'w'_sfs",
      "v'w'_sfs", "u'theta'_sfs", "v'theta'_sfs", "w'theta'_sfs"] ++
    (if budget then ["tke_buoy", "tke_shear", "tke_dissip", "tke_diff"] else []) := by
  cases budget <;> rfl

/-- Every value of the row goes to a declared variable. -/
theorem written_declared (s : Fields) (tke budget : Bool) (k : ℤ) :
    ∀ p ∈ row s budget k, p.1 ∈ declared tke budget := by
  intro p hp
  have h : p.1 ∈ (row s budget k).map Prod.fst := List.mem_map_of_mem hp
  rw [row_names] at h
  revert h
  generalize p.1 = n
  revert n
  cases budget <;> cases tke <;> decide +kernel

/-- C93. The only declared variable never written is the subgrid energy `k_sgs`, declared when there is a field `tke`. -/
theorem declared_written (s : Fields) (tke budget : Bool) (k : ℤ) :
    ((declared tke budget).filter fun n => !((row s budget k).map Prod.fst).contains n) =
      if tke then ["k_sgs"] else [] := by
  rw [row_names]
  cases budget <;> cases tke <;> decide +kernel

/-- The hypotheses of the row theorems are met by a domain of two planes of two cells on one rank. -/
example : let dom : Bx := ⟨(0, 0, 0), (1, 0, 1)⟩
    dom.Ok ∧ Partition dom [[dom]] ∧ dom.HasPlane .z 1 := by
  refine ⟨by unfold Bx.Ok; decide, ?_, by unfold Bx.HasPlane; decide⟩
  unfold Partition
  decide +kernel

/-! ## C93: text files of profiles -/

theorem writeProfile_mem {ncell : ℕ} {file : List Line} {step n : ℤ} {i : ℕ} (hs : step ≠ 1) :
    Line.data n i ∈ writeProfile ncell file step ↔ Line.data n i ∈ file ∨ (n = step ∧ i < ncell) := by
  unfold writeProfile
  rw [if_neg hs, List.mem_append, List.mem_map]
  constructor
  · rintro (h | ⟨a, ha, e⟩)
    · exact Or.inl h
    · injection e with e1 e2
      exact Or.inr ⟨e1.symm, by rw [← e2]; exact List.mem_range.mp ha⟩
  · rintro (h | ⟨rfl, h⟩)
    · exact Or.inl h
    · exact Or.inr ⟨i, List.mem_range.mpr h, rfl⟩

/-- C93. A run from the start writes the rows of all planes at just the steps the interval divides. -/
theorem profile_rows {freq : ℤ} (hf : 0 < freq) (ncell n : ℕ) (m : ℤ) (i : ℕ) :
    Line.data m i ∈ profileFile freq ncell 0 [] n ↔ 1 ≤ m ∧ m ≤ n ∧ freq ∣ m ∧ i < ncell := by
  induction n with
  | zero =>
    constructor
    · intro h; cases h
    · rintro ⟨h1, h2, _⟩; push_cast at h2; omega
  | succ n ih =>
    have e : profileFile freq ncell 0 [] (n + 1) =
        if stepWork freq (0 + (n + 1 : ℕ)) = some .output then
          writeProfile ncell (profileFile freq ncell 0 [] n) (0 + (n + 1 : ℕ)) else profileFile freq ncell 0 [] n := rfl
    rw [e, zero_add]
    by_cases hdv : freq ∣ ((n + 1 : ℕ) : ℤ)
    · rw [if_pos ((output_steps hf).mpr hdv)]
      by_cases h1 : ((n + 1 : ℕ) : ℤ) = 1
      · have hn : n = 0 := by push_cast at h1; omega
        subst hn
        unfold writeProfile
        rw [if_pos h1, List.mem_append, List.mem_map]
        constructor
        · rintro (h | ⟨a, ha, e'⟩)
          · simp at h
          · injection e' with e1 e2
            subst e1
            exact ⟨by norm_num, le_rfl, hdv, by rw [← e2]; exact List.mem_range.mp ha⟩
        · rintro ⟨h2, h3, _, h4⟩
          right
          refine ⟨i, List.mem_range.mpr h4, ?_⟩
          congr 1
          push_cast at h3 ⊢; omega
      · rw [writeProfile_mem h1, ih]
        constructor
        · rintro (⟨h2, h3, h4, h5⟩ | ⟨rfl, h5⟩)
          · exact ⟨h2, by push_cast; omega, h4, h5⟩
          · exact ⟨by push_cast; omega, le_rfl, hdv, h5⟩
        · rintro ⟨h2, h3, h4, h5⟩
          by_cases h6 : m = ((n + 1 : ℕ) : ℤ)
          · exact Or.inr ⟨h6, h5⟩
          · exact Or.inl ⟨h2, by push_cast at h3 h6; omega, h4, h5⟩
    · rw [if_neg fun h => hdv ((output_steps hf).mp h), ih]
      constructor
      · rintro ⟨h2, h3, h4, h5⟩
        exact ⟨h2, by push_cast; omega, h4, h5⟩
      · rintro ⟨h2, h3, h4, h5⟩
        refine ⟨h2, ?_, h4, h5⟩
        by_contra h6
        apply hdv
        have : m = ((n + 1 : ℕ) : ℤ) := by push_cast at h3 ⊢; omega
        rwa [this] at h4

/-- C93. With output at every step the file of a new run starts with the head, whatever was in it before. -/
theorem profile_head_partial (ncell : ℕ) (old : List Line) (n : ℕ) :
    (profileFile 1 ncell 0 old (n + 1)).head? = some .head := by
  have step : ∀ n, profileFile 1 ncell 0 old (n + 1) =
      writeProfile ncell (profileFile 1 ncell 0 old n) (0 + (n + 1 : ℕ)) := by
    intro n
    have e : profileFile 1 ncell 0 old (n + 1) =
        if stepWork 1 (0 + (n + 1 : ℕ)) = some .output then
          writeProfile ncell (profileFile 1 ncell 0 old n) (0 + (n + 1 : ℕ)) else profileFile 1 ncell 0 old n := rfl
    rw [e, if_pos ((output_steps one_pos).mpr (one_dvd _))]
  induction n with
  | zero =>
    rw [step 0]
    unfold writeProfile
    simp
  | succ n ih =>
    rw [step (n + 1)]
    unfold writeProfile
    rw [if_neg (by push_cast; omega)]
    rw [List.head?_append, ih]
    rfl

/-- C93 is false of the head: with any larger interval (the default is 100) a run from the start never writes it, and what
a file of the same name held before stays in front. -/
theorem profile_no_head {freq : ℤ} (hf : 1 < freq) (ncell : ℕ) (old : List Line) (n : ℕ) :
    ∃ rows, profileFile freq ncell 0 old n = old ++ rows ∧ Line.head ∉ rows := by
  induction n with
  | zero => exact ⟨[], by simp [profileFile], by simp⟩
  | succ n ih =>
    obtain ⟨rows, e, h⟩ := ih
    have e' : profileFile freq ncell 0 old (n + 1) =
        if stepWork freq (0 + (n + 1 : ℕ)) = some .output then
          writeProfile ncell (profileFile freq ncell 0 old n) (0 + (n + 1 : ℕ)) else profileFile freq ncell 0 old n := rfl
    rw [e', e]
    by_cases hw : stepWork freq (0 + (n + 1 : ℕ)) = some .output
    · rw [if_pos hw]
      have hdv := (output_steps (by omega)).mp hw
      have hne : (0 + (n + 1 : ℕ) : ℤ) ≠ 1 := by
        intro h1
        rw [h1] at hdv
        have := Int.le_of_dvd one_pos hdv
        omega
      unfold writeProfile
      rw [if_neg hne, List.append_assoc]
      refine ⟨_, rfl, ?_⟩
      rw [List.mem_append, List.mem_map]
      rintro (h' | ⟨a, _, h'⟩)
      · exact h h'
      · cases h'
    · rw [if_neg hw]
      exact ⟨rows, rfl, h⟩

example : profileFile 100 1 0 [] 200 = [.data 100 0, .data 200 0] := by decide +kernel

end AmrWind.Stats
