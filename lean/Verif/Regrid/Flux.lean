import Verif.Regrid.Props

/-!
# Between changes of the mesh: refined cells and the cells in them

A change of the mesh conserves a field if every refined cell holds the mean of the cells in it (`regrids_conserve_partial`). The
code never averages its solution down; this file shows what keeps the means: fluxes that are averaged down before their
divergence is taken (`AdvOp_Godunov.H:261-293`), and what can destroy them: sources that are not linear.
`amrex::average_down_faces` and `HydroUtils::ComputeDivergence` are modelled from their documentation, for fluxes per
area on uniform meshes.
-/

namespace AmrWind.Regrid

set_option linter.unusedSectionVars false

open Plane (Cell Axis)
open Amr (coarsen)

variable {K : Type*} [Field K]

/-- Fluxes through the low faces of cells. -/
abbrev Flux (K : Type*) := Axis → Cell → K

/-- The next cell in a direction. -/
def next : Axis → Cell → Cell
  | .x, (i, j, k) => (i + 1, j, k)
  | .y, (i, j, k) => (i, j + 1, k)
  | .z, (i, j, k) => (i, j, k + 1)

/-- The previous cell in a direction. -/
def prev : Axis → Cell → Cell
  | .x, (i, j, k) => (i - 1, j, k)
  | .y, (i, j, k) => (i, j - 1, k)
  | .z, (i, j, k) => (i, j, k - 1)

/-- The mean flux through the fine faces that make up a coarse face (`amrex::average_down_faces`). -/
def faceMean (r : Axis → ℕ) (G : Flux K) : Flux K
  | .x, (i, j, k) => (∑ b ∈ Finset.range (r .y), ∑ c ∈ Finset.range (r .z),
      G .x (i * r .x, j * r .y + (b : ℕ), k * r .z + (c : ℕ))) / ((r .y * r .z : ℕ) : K)
  | .y, (i, j, k) => (∑ a ∈ Finset.range (r .x), ∑ c ∈ Finset.range (r .z),
      G .y (i * r .x + (a : ℕ), j * r .y, k * r .z + (c : ℕ))) / ((r .x * r .z : ℕ) : K)
  | .z, (i, j, k) => (∑ a ∈ Finset.range (r .x), ∑ b ∈ Finset.range (r .y),
      G .z (i * r .x + (a : ℕ), j * r .y + (b : ℕ), k * r .z)) / ((r .x * r .y : ℕ) : K)

/-- AdvOp_Godunov.H:274-276: the fluxes of a level through faces of refined cells become the means of those of the level
above. -/
def averageDown (r : Axis → ℕ) (P : Finset Cell) (F G : Flux K) : Flux K := fun d p =>
  if p ∈ P ∨ prev d p ∈ P then faceMean r G d p else F d p

/-- AdvOp_Godunov.H:287-291 `ComputeDivergence` with factor -1. -/
def divergence (dx : Axis → K) (F : Flux K) (c : Cell) : K :=
  -((F .x (next .x c) - F .x c) / dx .x + (F .y (next .y c) - F .y c) / dx .y + (F .z (next .z c) - F .z c) / dx .z)

/-- An array of a level is replaced. -/
def Data.set (d : Data K) (fld : ℕ) (v : Cell → K) : Data K :=
  { d with val := fun n c => if n = fld then v c else d.val n c }

/-- AdvOp_Godunov.H:269-293 from level `lev` on: fluxes are averaged down from the finest level to the coarsest, then each
level gets the divergence of its fluxes in the array `conv`. The result is the fluxes of level `lev` as averaged, its
arrays and the levels above. -/
def convFrom (r : ℕ → Axis → ℕ) (dx : ℕ → Axis → K) (conv : ℕ) :
    ℕ → Data K → Flux K → List (Level K × Flux K) → Flux K × Data K × List (Level K)
  | lev, d, F, [] => (F, d.set conv (divergence (dx lev) F), [])
  | lev, d, F, (L, G) :: rest =>
    let up := convFrom r dx conv (lev + 1) L.data G rest
    let F' := averageDown (r lev) L.refined F up.1
    (F', d.set conv (divergence (dx lev) F'), { L with data := up.2.1 } :: up.2.2)

/-- The advection term of all levels; `F0` are the fluxes of level 0 and `Fs` those of the levels above. -/
def advection (r : ℕ → Axis → ℕ) (dx : ℕ → Axis → K) (conv : ℕ) (F0 : Flux K) (Fs : List (Flux K)) (s : State K) :
    State K :=
  let res := convFrom r dx conv 0 s.base F0 (s.fine.zip Fs)
  { s with base := res.2.1, fine := res.2.2 }

/-- An explicit step of a field: `phi + dt (conv + src)` on every level (the update of `icns_advection.H` and
`compute_predictor_rhs` of a scalar without diffusion and with constant density). -/
def explicitStep (phi conv src : ℕ) (dt : K) (s : State K) : State K :=
  s.mapData fun d => d.set phi fun c => d.val phi c + dt * (d.val conv c + d.val src c)

theorem telescope (f : ℤ → K) (r : ℕ) (p : ℤ) :
    ∑ i ∈ Finset.range r, (f (p * r + (i : ℕ) + 1) - f (p * r + (i : ℕ))) = f ((p + 1) * r) - f (p * r) := by
  have := Finset.sum_range_sub (fun i : ℕ => f (p * r + (i : ℕ))) r
  simp only [Nat.cast_add, Nat.cast_one, ← add_assoc] at this
  rw [this]
  congr 1
  · congr 1; ring
  · congr 1; simp

theorem sub_mean_x (r : Axis → ℕ) (G : Flux K) (p : Cell) (hr : (((r .y * r .z : ℕ)) : K) ≠ 0) :
    (faceMean r G .x (next .x p) - faceMean r G .x p) * ((r .y * r .z : ℕ) : K) =
      ∑ c ∈ children r p, (G .x (next .x c) - G .x c) := by
  obtain ⟨i, j, k⟩ := p
  rw [sum_children]
  simp only [next, faceMean]
  rw [sub_mul, div_mul_cancel₀ _ hr, div_mul_cancel₀ _ hr, ← Finset.sum_sub_distrib]
  symm
  rw [Finset.sum_comm]
  refine Finset.sum_congr rfl fun b _ => ?_
  rw [Finset.sum_comm, ← Finset.sum_sub_distrib]
  refine Finset.sum_congr rfl fun c _ => ?_
  exact telescope (fun a => G .x (a, j * r .y + (b : ℕ), k * r .z + (c : ℕ))) (r .x) i

theorem sub_mean_y (r : Axis → ℕ) (G : Flux K) (p : Cell) (hr : (((r .x * r .z : ℕ)) : K) ≠ 0) :
    (faceMean r G .y (next .y p) - faceMean r G .y p) * ((r .x * r .z : ℕ) : K) =
      ∑ c ∈ children r p, (G .y (next .y c) - G .y c) := by
  obtain ⟨i, j, k⟩ := p
  rw [sum_children]
  simp only [next, faceMean]
  rw [sub_mul, div_mul_cancel₀ _ hr, div_mul_cancel₀ _ hr, ← Finset.sum_sub_distrib]
  refine Finset.sum_congr rfl fun a _ => ?_
  rw [Finset.sum_comm, ← Finset.sum_sub_distrib]
  refine Finset.sum_congr rfl fun c _ => ?_
  exact (telescope (fun b => G .y (i * r .x + (a : ℕ), b, k * r .z + (c : ℕ))) (r .y) j).symm

theorem sub_mean_z (r : Axis → ℕ) (G : Flux K) (p : Cell) (hr : (((r .x * r .y : ℕ)) : K) ≠ 0) :
    (faceMean r G .z (next .z p) - faceMean r G .z p) * ((r .x * r .y : ℕ) : K) =
      ∑ c ∈ children r p, (G .z (next .z c) - G .z c) := by
  obtain ⟨i, j, k⟩ := p
  rw [sum_children]
  simp only [next, faceMean]
  rw [sub_mul, div_mul_cancel₀ _ hr, div_mul_cancel₀ _ hr, ← Finset.sum_sub_distrib]
  refine Finset.sum_congr rfl fun a _ => ?_
  rw [← Finset.sum_sub_distrib]
  refine Finset.sum_congr rfl fun b _ => ?_
  exact (telescope (fun c => G .z (i * r .x + (a : ℕ), j * r .y + (b : ℕ), c)) (r .z) k).symm

variable [CharZero K]

/-- **C133, fluxes.** After fluxes are averaged down, the divergence in a refined cell is the mean of the divergences in
the cells in it. -/
theorem divergence_mean {r : Axis → ℕ} (hr : ∀ d, 0 < r d) {dxc dxf : Axis → K} (h0 : ∀ d, dxf d ≠ 0)
    (hdx : ∀ d, dxc d = r d * dxf d) (P : Finset Cell) (F G : Flux K) {p : Cell} (hp : p ∈ P) :
    divergence dxc (averageDown r P F G) p = (∑ c ∈ children r p, divergence dxf G c) / volRatio r := by
  have hn : ∀ d, prev d (next d p) = p := by
    obtain ⟨i, j, k⟩ := p
    intro d; cases d <;> simp [prev, next]
  have ha : ∀ d, averageDown r P F G d p = faceMean r G d p := fun d => by simp [averageDown, hp]
  have hb : ∀ d, averageDown r P F G d (next d p) = faceMean r G d (next d p) := fun d => by
    simp [averageDown, hn, hp]
  have hrx : ((r .x : ℕ) : K) ≠ 0 := by exact_mod_cast (hr .x).ne'
  have hry : ((r .y : ℕ) : K) ≠ 0 := by exact_mod_cast (hr .y).ne'
  have hrz : ((r .z : ℕ) : K) ≠ 0 := by exact_mod_cast (hr .z).ne'
  have hx := sub_mean_x r G p (by push_cast; exact mul_ne_zero hry hrz)
  have hy := sub_mean_y r G p (by push_cast; exact mul_ne_zero hrx hrz)
  have hz := sub_mean_z r G p (by push_cast; exact mul_ne_zero hrx hry)
  have hX := h0 .x
  have hY := h0 .y
  have hZ := h0 .z
  simp only [divergence, ha, hb, hdx]
  rw [Finset.sum_neg_distrib, Finset.sum_add_distrib, Finset.sum_add_distrib, ← Finset.sum_div, ← Finset.sum_div,
    ← Finset.sum_div, ← hx, ← hy, ← hz, volRatio]
  push_cast
  field_simp

theorem convFrom_means {r : ℕ → Axis → ℕ} (hr : ∀ lev d, 0 < r lev d) {dx : ℕ → Axis → K} (h0 : ∀ lev d, dx lev d ≠ 0)
    (hdx : ∀ lev d, dx lev d = r lev d * dx (lev + 1) d) (conv : ℕ) (ls : List (Level K × Flux K)) (lev : ℕ)
    (d : Data K) (F : Flux K) :
    MeansFrom r conv lev ((convFrom r dx conv lev d F ls).2.1.val conv) (convFrom r dx conv lev d F ls).2.2 ∧
      (convFrom r dx conv lev d F ls).2.1.val conv = divergence (dx lev) (convFrom r dx conv lev d F ls).1 := by
  induction ls generalizing lev d F with
  | nil => exact ⟨trivial, by funext c; simp [convFrom, Data.set]⟩
  | cons a ls ih =>
    obtain ⟨L, G⟩ := a
    obtain ⟨h1, h2⟩ := ih (lev + 1) L.data G
    refine ⟨⟨fun p hp => ?_, h1⟩, by funext c; simp [convFrom, Data.set]⟩
    have hset : ((convFrom r dx conv lev d F ((L, G) :: ls)).2.1).val conv p =
        divergence (dx lev) (averageDown (r lev) L.refined F (convFrom r dx conv (lev + 1) L.data G ls).1) p := by
      simp [convFrom, Data.set]
    rw [hset, divergence_mean (hr lev) (h0 (lev + 1)) (hdx lev) L.refined F _ hp]
    simp only [h2]

/-- **C133, advection.** On every mesh and with any fluxes the advection term in a refined cell is the mean of that in
the cells in it. -/
theorem advection_means {r : ℕ → Axis → ℕ} (hr : ∀ lev d, 0 < r lev d) {dx : ℕ → Axis → K}
    (h0 : ∀ lev d, dx lev d ≠ 0) (hdx : ∀ lev d, dx lev d = r lev d * dx (lev + 1) d) (conv : ℕ) (F0 : Flux K)
    (Fs : List (Flux K)) (s : State K) : Means r conv (advection r dx conv F0 Fs s) :=
  (convFrom_means hr h0 hdx conv (s.fine.zip Fs) 0 s.base F0).1

theorem convFrom_others (r : ℕ → Axis → ℕ) (dx : ℕ → Axis → K) (conv n : ℕ) (hne : n ≠ conv)
    (ls : List (Level K × Flux K)) (lev : ℕ) (d : Data K) (F : Flux K) :
    (convFrom r dx conv lev d F ls).2.1.val n = d.val n ∧
      (convFrom r dx conv lev d F ls).2.2.map (fun L => (L.refined, L.data.val n)) =
        (ls.map Prod.fst).map (fun L => (L.refined, L.data.val n)) := by
  induction ls generalizing lev d F with
  | nil => exact ⟨by funext c; simp [convFrom, Data.set, hne], rfl⟩
  | cons a ls ih =>
    obtain ⟨L, G⟩ := a
    obtain ⟨h1, h2⟩ := ih (lev + 1) L.data G
    refine ⟨by funext c; simp [convFrom, Data.set, hne], ?_⟩
    simp only [convFrom, List.map_cons, h2, h1]

/-- The advection term leaves all other fields as they are. -/
theorem advection_others (r : ℕ → Axis → ℕ) (dx : ℕ → Axis → K) (conv n : ℕ) (hne : n ≠ conv) (F0 : Flux K)
    (Fs : List (Flux K)) (s : State K) (hl : Fs.length = s.fine.length) :
    (advection r dx conv F0 Fs s).base.val n = s.base.val n ∧
      (advection r dx conv F0 Fs s).fine.map (fun L => (L.refined, L.data.val n)) =
        s.fine.map (fun L => (L.refined, L.data.val n)) := by
  obtain ⟨h1, h2⟩ := convFrom_others r dx conv n hne (s.fine.zip Fs) 0 s.base F0
  refine ⟨h1, ?_⟩
  rw [List.map_fst_zip (by omega)] at h2
  exact h2

theorem step_meansFrom {r : ℕ → Axis → ℕ} (phi conv src : ℕ) (dt : K) (ls : List (Level K)) (lev : ℕ)
    (d : Data K) (h1 : MeansFrom r phi lev (d.val phi) ls) (h2 : MeansFrom r conv lev (d.val conv) ls)
    (h3 : MeansFrom r src lev (d.val src) ls) :
    MeansFrom r phi lev (fun c => d.val phi c + dt * (d.val conv c + d.val src c))
      (ls.map fun L => ⟨L.refined, L.data.set phi (fun c =>
        L.data.val phi c + dt * (L.data.val conv c + L.data.val src c))⟩) := by
  induction ls generalizing lev d with
  | nil => trivial
  | cons L ls ih =>
    refine ⟨fun p hp => ?_, ?_⟩
    · simp only [Data.set, if_true]
      rw [h1.1 p hp, h2.1 p hp, h3.1 p hp, Finset.sum_add_distrib, ← Finset.mul_sum, Finset.sum_add_distrib]
      ring
    · have := ih (lev + 1) L.data h1.2 h2.2 h3.2
      simpa [Data.set] using this

/-- **C133, steps.** An explicit step with a source that has the mean in refined cells keeps the means: then the next
change of the mesh conserves the field. -/
theorem step_means {r : ℕ → Axis → ℕ} (phi conv src : ℕ) (dt : K) (s : State K) (h1 : Means r phi s)
    (h2 : Means r conv s) (h3 : Means r src s) : Means r phi (explicitStep phi conv src dt s) := by
  have := step_meansFrom phi conv src dt s.fine 0 s.base h1 h2 h3
  simpa [Means, explicitStep, State.mapData, Data.set] using this

/-- **C133, a source that is not linear destroys the means:** with the source phi², a state whose refined cells hold the
means does not after one step, and giving up the level then changes the integral. -/
theorem square_source_breaks_means :
    ∃ s : State ℚ, Nested exOps.ratio s ∧ Means exOps.ratio 0 s ∧ Means exOps.ratio 1 s ∧
      (∀ c, s.base.val 2 c = s.base.val 0 c ^ 2) ∧ (∀ L ∈ s.fine, ∀ c, L.data.val 2 c = L.data.val 0 c ^ 2) ∧
      integral exOps.ratio 0 1 (regrid exOps (explicitStep 0 1 2 1 s) []) ≠
        integral exOps.ratio 0 1 (explicitStep 0 1 2 1 s) := by
  refine ⟨⟨{(0, 0, 0)}, ⟨fun n _ => if n = 0 then 3 else if n = 1 then 0 else 9, fun _ _ => none⟩,
    [⟨{(0, 0, 0)}, ⟨fun n c => if n = 0 then (if c.2.2 = 0 then 2 else 4) else if n = 1 then 0 else
      (if c.2.2 = 0 then 4 else 16), fun _ _ => none⟩⟩]⟩, ?_, ?_, ?_, ?_, ?_, ?_⟩
  · simp [Nested, NestedFrom]
  · simp only [Means, MeansFrom, exOps]; decide +kernel
  · simp only [Means, MeansFrom, exOps]; decide +kernel
  · intro c; norm_num
  · intro L hL c
    simp only [List.mem_singleton] at hL
    subst hL
    norm_num
  · decide +kernel

/-- Fluxes with a jump: the advection term of the refined cell is the mean of its cells. -/
example : (advection exOps.ratio (fun lev _ => 1 / 2 ^ lev) 1 (fun _ _ => 7)
    [fun d c => if d = .x then (c.1 : ℚ) * c.1 else 0] exState).base.val 1 (0, 0, 0) = -4 := by
  decide +kernel

end AmrWind.Regrid
