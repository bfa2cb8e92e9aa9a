import Verif.Abl.PlaneModel
import Mathlib.Tactic.FinCases
import Mathlib.Data.Fin.VecNotation
import Mathlib.Data.Fintype.Basic
import Mathlib.Tactic.Ring
import Mathlib.Tactic.NormNum
import Mathlib.Algebra.Order.AbsoluteValue.Basic

/-!
# Properties of recorded boundary planes in the native format (C131)
-/

set_option linter.unusedSectionVars false

namespace AmrWind.Bplane

/-! ## Boxes -/

theorem box_ext {a b : Box} (hl : ∀ d, a.lo d = b.lo d) (hh : ∀ d, a.hi d = b.hi d) : a = b := by
  cases a; cases b; simp only [Box.mk.injEq]; exact ⟨funext hl, funext hh⟩

theorem has_iff {b : Box} {c : Cell} : b.has c = true ↔ ∀ d, b.lo d ≤ c d ∧ c d ≤ b.hi d := by simp [Box.has]

def grow (a c : Box) : Box := ⟨fun d => min (a.lo d) (c.lo d), fun d => max (a.hi d) (c.hi d)⟩

theorem fold_lo (bs : List Box) : ∀ (a : Box) (d : Fin 3),
    (bs.foldl grow a).lo d ≤ a.lo d ∧ (∀ c ∈ bs, (bs.foldl grow a).lo d ≤ c.lo d) ∧
    a.hi d ≤ (bs.foldl grow a).hi d ∧ (∀ c ∈ bs, c.hi d ≤ (bs.foldl grow a).hi d) ∧
    (∀ m, m ≤ a.lo d → (∀ c ∈ bs, m ≤ c.lo d) → m ≤ (bs.foldl grow a).lo d) ∧
    (∀ m, a.hi d ≤ m → (∀ c ∈ bs, c.hi d ≤ m) → (bs.foldl grow a).hi d ≤ m) := by
  induction bs with
  | nil => intro a d; simp
  | cons b t ih =>
    intro a d
    obtain ⟨h1, h2, h3, h4, h5, h6⟩ := ih (grow a b) d
    simp only [grow] at h1 h3 h5 h6
    refine ⟨le_trans h1 (min_le_left _ _), ?_, le_trans (le_max_left _ _) h3, ?_, ?_, ?_⟩
    · intro c hc
      rcases List.mem_cons.mp hc with rfl | hc
      · exact le_trans h1 (min_le_right _ _)
      · exact h2 c hc
    · intro c hc
      rcases List.mem_cons.mp hc with rfl | hc
      · exact le_trans (le_max_right _ _) h3
      · exact h4 c hc
    · intro m hm hc
      exact h5 m (le_min hm (hc b (by simp))) fun c hh => hc c (by simp [hh])
    · intro m hm hc
      exact h6 m (max_le hm (hc b (by simp))) fun c hh => hc c (by simp [hh])

theorem hull_spec {bs : List Box} {h : Box} (hh : hull bs = some h) (d : Fin 3) :
    (∀ c ∈ bs, h.lo d ≤ c.lo d ∧ c.hi d ≤ h.hi d) ∧ (∀ m, (∀ c ∈ bs, m ≤ c.lo d) → m ≤ h.lo d) ∧
    ∀ m, (∀ c ∈ bs, c.hi d ≤ m) → h.hi d ≤ m := by
  cases bs with
  | nil => simp [hull] at hh
  | cons b t =>
    simp only [hull, Option.some.injEq] at hh
    obtain ⟨h1, h2, h3, h4, h5, h6⟩ := fold_lo t b d
    change t.foldl grow b = h at hh
    rw [hh] at h1 h2 h3 h4 h5 h6
    refine ⟨?_, fun m hm => h5 m (hm b (by simp)) fun c hc => hm c (by simp [hc]),
      fun m hm => h6 m (hm b (by simp)) fun c hc => hm c (by simp [hc])⟩
    intro c hc
    rcases List.mem_cons.mp hc with rfl | hc
    · exact ⟨h1, h3⟩
    · exact ⟨h2 c hc, h4 c hc⟩

/-- The layer of a box next to a face, inside it. -/
def layer (w : Box) (f : Face) : Box :=
  if f.high then ⟨Function.update w.lo f.dir (w.hi f.dir), w.hi⟩ else ⟨w.lo, Function.update w.hi f.dir (w.lo f.dir)⟩

theorem strip_slab (w : Box) (f : Face) : strip (slab w f) f = layer w f := by
  unfold strip slab layer
  cases f.high <;> simp

/-- C131 **The box found again from the files has on every face read the face of the recorded level.**  Whatever set of faces is
read, the two layers of cells of the box found are, at each of these faces, those that were written: the data of a face is read
back to the cells it came from. -/
theorem box_found_again {w h : Box} {faces : List Face} (hw : ∀ d, w.lo d ≤ w.hi d) (hh : readBox w faces = some h) {f : Face}
    (hf : f ∈ faces) : slab h f = slab w f := by
  have hs : ∀ c ∈ faces.map (fun f => strip (slab w f) f), ∀ d, w.lo d ≤ c.lo d ∧ c.hi d ≤ w.hi d := by
    intro c hc d
    obtain ⟨g, -, rfl⟩ := List.mem_map.mp hc
    rw [strip_slab]
    unfold layer
    have := hw d
    cases g.high <;> simp only [Bool.false_eq_true, if_true, if_false, Function.update_apply] <;> split_ifs with hd <;>
      first | (subst hd; omega) | omega
  have hb := fun d => hull_spec hh d
  have hl := fun d => (hb d).2.1 (w.lo d) fun c hc => (hs c hc d).1
  have hi := fun d => (hb d).2.2 (w.hi d) fun c hc => (hs c hc d).2
  have hm : layer w f ∈ faces.map (fun f => strip (slab w f) f) := List.mem_map.mpr ⟨f, hf, strip_slab w f⟩
  have hf' := fun d => (hb d).1 _ hm
  have hlo : ∀ d, d ≠ f.dir → h.lo d = w.lo d := by
    intro d hd
    refine le_antisymm ?_ (hl d)
    have := (hf' d).1
    unfold layer at this
    cases hc : f.high <;> rw [hc] at this <;> simpa [Function.update_apply, hd] using this
  have hhi : ∀ d, d ≠ f.dir → h.hi d = w.hi d := by
    intro d hd
    refine le_antisymm (hi d) ?_
    have := (hf' d).2
    unfold layer at this
    cases hc : f.high <;> rw [hc] at this <;> simpa [Function.update_apply, hd] using this
  unfold slab
  cases hc : f.high with
  | false =>
    have e : h.lo f.dir = w.lo f.dir := by
      refine le_antisymm ?_ (hl _)
      have := (hf' f.dir).1
      simpa [layer, hc] using this
    simp only [Bool.false_eq_true, if_false]
    refine box_ext (fun d => ?_) fun d => ?_
    · by_cases hd : d = f.dir
      · subst hd; simp [e]
      · simp [Function.update_apply, hd, hlo d hd]
    · by_cases hd : d = f.dir
      · subst hd; simp [e]
      · simp [Function.update_apply, hd, hhi d hd]
  | true =>
    have e : h.hi f.dir = w.hi f.dir := by
      refine le_antisymm (hi _) ?_
      have := (hf' f.dir).2
      simpa [layer, hc] using this
    simp only [if_true]
    refine box_ext (fun d => ?_) fun d => ?_
    · by_cases hd : d = f.dir
      · subst hd; simp [e]
      · simp [Function.update_apply, hd, hlo d hd]
    · by_cases hd : d = f.dir
      · subst hd; simp [e]
      · simp [Function.update_apply, hd, hhi d hd]

/-- Two faces of a box of 4 by 6 by 8 cells give the whole box; one face gives one layer. -/
example : (readBox ⟨fun _ => 0, ![3, 5, 7]⟩ [⟨0, false⟩, ⟨1, false⟩]).map (fun b => (b.lo 0, b.hi 0, b.hi 1, b.hi 2)) =
      some (0, 3, 5, 7) ∧
    (readBox ⟨fun _ => 0, ![3, 5, 7]⟩ [⟨0, false⟩]).map (fun b => (b.lo 0, b.hi 0, b.hi 1, b.hi 2)) = some (0, 0, 5, 7) := by
  decide +kernel

/-! ## Values -/

section values
variable {K : Type*} [Field K]

theorem mem_shifts {p a : ℤ} : a ∈ shifts p ↔ a = 0 ∨ a = -p ∨ a = p := by
  unfold shifts
  split_ifs with h
  · subst h; simp
  · simp

theorem mem_images {per c e : Cell} : e ∈ images per c ↔ ∀ d, e d = c d ∨ e d = c d - per d ∨ e d = c d + per d := by
  constructor
  · intro h
    simp only [images, List.mem_flatMap, List.mem_map, mem_shifts] at h
    obtain ⟨a, ha, b, hb, g, hg, rfl⟩ := h
    intro d
    fin_cases d <;> simp <;> omega
  · intro h
    simp only [images, List.mem_flatMap, List.mem_map, mem_shifts]
    refine ⟨e 0 - c 0, ?_, e 1 - c 1, ?_, e 2 - c 2, ?_, ?_⟩
    · have := h 0; omega
    · have := h 1; omega
    · have := h 2; omega
    · funext d
      fin_cases d <;> simp

/-- The cells of a level lie in the domain, of `dom d` cells in direction `d`, counted from zero. -/
def InDomain (dom : Cell) (valid : Cell → Bool) : Prop := ∀ c, valid c = true → ∀ d, 0 ≤ c d ∧ c d < dom d

/-- In each direction the domain is periodic with its length, or not at all. -/
def PeriodOf (dom per : Cell) : Prop := ∀ d, per d = 0 ∨ per d = dom d

theorem image_unique {dom per c e : Cell} {valid : Cell → Bool} (hv : InDomain dom valid) (hp : PeriodOf dom per) {e' : Cell}
    (he : e ∈ images per c) (he' : e' ∈ images per c) (h : valid e = true) (h' : valid e' = true)
    (hc : ∀ d, -1 ≤ c d ∧ c d ≤ dom d) (h2 : ∀ d, 2 ≤ dom d) : e = e' := by
  funext d
  have a := mem_images.mp he d
  have b := mem_images.mp he' d
  have p := hp d
  have v := hv e h d
  have v' := hv e' h' d
  have := hc d
  have := h2 d
  rcases p with p | p <;> rw [p] at a b <;> omega

/-- C131 **A cell of the level is recorded as it is.** -/
theorem recorded_inside {dom per c : Cell} {valid : Cell → Bool} (f : Cell → K) (hv : InDomain dom valid)
    (hp : PeriodOf dom per) (h2 : ∀ d, 2 ≤ dom d) (h : valid c = true) : recordCell valid per f c = f c := by
  have hm : c ∈ images per c := mem_images.mpr fun d => Or.inl rfl
  unfold recordCell
  cases hf : (images per c).find? valid with
  | none => exact absurd h (by simpa using List.find?_eq_none.mp hf c hm)
  | some e =>
    rw [image_unique hv hp (List.mem_of_find?_eq_some hf) hm (List.find?_some hf) h
      (fun d => by have := hv c h d; omega) h2]

/-- The cell of the other side of the domain. -/
def wrap (dom : Cell) (f : Face) (c : Cell) : Cell := Function.update c f.dir (c f.dir + if f.high then - dom f.dir else dom f.dir)

/-- C131 **The layer beyond a periodic face holds the cells of the other side**, when the level has cells there. -/
theorem recorded_periodic {dom per c : Cell} {valid : Cell → Bool} (f : Cell → K) (hv : InDomain dom valid)
    (hp : PeriodOf dom per) (h2 : ∀ d, 2 ≤ dom d) {s : Face} (hper : per s.dir = dom s.dir)
    (hc : ∀ d, -1 ≤ c d ∧ c d ≤ dom d) (h : valid (wrap dom s c) = true) : recordCell valid per f c = f (wrap dom s c) := by
  have hm : wrap dom s c ∈ images per c := by
    refine mem_images.mpr fun d => ?_
    unfold wrap
    by_cases hd : d = s.dir
    · subst hd
      cases s.high <;> simp [hper] <;> omega
    · simp [Function.update_apply, hd]
  unfold recordCell
  cases hf : (images per c).find? valid with
  | none => exact absurd h (by simpa using List.find?_eq_none.mp hf _ hm)
  | some e =>
    rw [image_unique hv hp (List.mem_of_find?_eq_some hf) hm (List.find?_some hf) h hc h2]

/-- C131 **The layer beyond a face that is not periodic is never recorded**: the file holds 1.0e13 there, whatever the field and
its boundary condition. -/
theorem recorded_wall {dom per c : Cell} {valid : Cell → Bool} (f : Cell → K) (hv : InDomain dom valid) {d : Fin 3}
    (hper : per d = 0) (hc : c d < 0 ∨ dom d ≤ c d) : recordCell valid per f c = 10000000000000 := by
  unfold recordCell
  cases hf : (images per c).find? valid with
  | none => rfl
  | some e =>
    exfalso
    have a := mem_images.mp (List.mem_of_find?_eq_some hf) d
    have v := hv e (List.find?_some hf) d
    rw [hper] at a
    omega

/-- C131 **What a replay puts on a face.**  `w` is the smallest box around the recorded level, `r` that of the level of the
replay; both touch the face. A cell of the plane inside the recorded face gets the mean of the two recorded layers; a cell of
the plane outside of it is left unset. -/
theorem replay_spec {w r : Box} (file : Cell → K) {f : Face} {c : Cell}
    (ht : if f.high then w.hi f.dir = r.hi f.dir else w.lo f.dir = 0) (hc : (plane r f).has c = true) :
    ((∀ d, d ≠ f.dir → w.lo d ≤ c d ∧ c d ≤ w.hi d) → replayCell w r file f c = some ((file c + file (inner f c)) / 2)) ∧
    ((∃ d, d ≠ f.dir ∧ ¬ (w.lo d ≤ c d ∧ c d ≤ w.hi d)) → replayCell w r file f c = none) := by
  have hc' := has_iff.mp hc
  constructor
  · intro hin
    have hs : (slab w f).has c = true := by
      refine has_iff.mpr fun d => ?_
      have := hc' d
      unfold slab
      unfold plane at this
      by_cases hd : d = f.dir
      · subst hd
        cases hh : f.high <;> rw [hh] at ht this <;> simp at this ht ⊢ <;> omega
      · have := hin d hd
        cases hh : f.high <;> simp [Function.update_apply, hd] <;> omega
    simp only [replayCell, hc, hs, Bool.and_self, if_true, Option.some.injEq]
    ring
  · rintro ⟨d, hd, hn⟩
    have hs : (slab w f).has c = false := by
      cases hq : (slab w f).has c with
      | false => rfl
      | true =>
        exfalso
        have := has_iff.mp hq d
        unfold slab at this
        cases hh : f.high <;> rw [hh] at this <;> simp [Function.update_apply, hd] at this <;> exact hn this
    simp [replayCell, hs]

/-- C131 **Replay of a recording on the same mesh**: at a periodic face of the recording the value is the mean of the cells on
either side of the face, the one outside being the cell of the other side of the domain.

Partial (C131). Missing: sides that were not periodic, where it is false (`replay_wall`). -/
theorem replay_periodic_partial {dom per : Cell} {valid : Cell → Bool} (g : Cell → K) (hv : InDomain dom valid)
    (hp : PeriodOf dom per) (h2 : ∀ d, 2 ≤ dom d) {w : Box} {f : Face} {c : Cell} (hper : per f.dir = dom f.dir)
    (hlo : w.lo f.dir = 0) (hhi : w.hi f.dir = dom f.dir - 1) (hw : ∀ d, d ≠ f.dir → 0 ≤ w.lo d ∧ w.hi d < dom d)
    (hc : (plane w f).has c = true) (hin : valid (inner f c) = true) (hout : valid (wrap dom f c) = true) :
    replayCell w w (recordCell valid per g) f c = some ((g (wrap dom f c) + g (inner f c)) / 2) := by
  have hc' := has_iff.mp hc
  have hp' : ∀ d, d ≠ f.dir → w.lo d ≤ c d ∧ c d ≤ w.hi d := by
    intro d hd
    have := hc' d
    unfold plane at this
    simpa [Function.update_apply, hd] using this
  rw [(replay_spec _ (by cases f.high <;> simp [hlo]) hc).1 hp', recorded_inside g hv hp h2 hin,
    recorded_periodic g hv hp h2 hper (fun d => ?_) hout]
  by_cases hd : d = f.dir
  · subst hd
    have h3 := h2 f.dir
    have h4 := hc' f.dir
    unfold plane at h4
    cases hh : f.high <;> simp [hh] at h4 <;> omega
  · have := hw d hd
    have := hp' d hd
    omega

/-- C131 **Replay of a recording at a face that is not periodic is wrong**: the value is half of 1.0e13 more than half the cell
inside, whatever the field held beyond the face. -/
theorem replay_wall {dom per : Cell} {valid : Cell → Bool} (g : Cell → K) (hv : InDomain dom valid)
    (hp : PeriodOf dom per) (h2 : ∀ d, 2 ≤ dom d) {w : Box} {f : Face} {c : Cell} (hper : per f.dir = 0)
    (hlo : w.lo f.dir = 0) (hhi : w.hi f.dir = dom f.dir - 1) (hc : (plane w f).has c = true)
    (hin : valid (inner f c) = true) :
    replayCell w w (recordCell valid per g) f c = some ((10000000000000 + g (inner f c)) / 2) := by
  have hc' := has_iff.mp hc
  have hp' : ∀ d, d ≠ f.dir → w.lo d ≤ c d ∧ c d ≤ w.hi d := by
    intro d hd
    have := hc' d
    unfold plane at this
    simpa [Function.update_apply, hd] using this
  rw [(replay_spec _ (by cases f.high <;> simp [hlo]) hc).1 hp', recorded_inside g hv hp h2 hin,
    recorded_wall (d := f.dir) g hv hper ?_]
  have := hc' f.dir
  unfold plane at this
  cases hh : f.high <;> simp [hh] at this <;> omega

/-- A domain of 4 by 4 by 4 cells with `x + 10 y` in the cells: at the low face in `x` the periodic recording gives the mean of
cells 3 and 0; without periodicity the replay gets about 5.0e12. A recorded level that covers half of the face leaves the other
half of the replay unset. -/
example :
    let valid : Cell → Bool := fun c => decide (∀ d, 0 ≤ c d ∧ c d < 4);
    let w : Box := ⟨fun _ => 0, fun _ => 3⟩;
    let g : Cell → ℚ := fun c => c 0 + 10 * c 1;
    replayCell w w (recordCell valid (fun _ => 4) g) ⟨0, false⟩ ![-1, 2, 1] = some (43 / 2) ∧
    replayCell w w (recordCell valid ![0, 4, 4] g) ⟨0, false⟩ ![-1, 2, 1] = some 5000000000010 ∧
    replayCell ⟨fun _ => 0, ![3, 1, 3]⟩ w (recordCell valid (fun _ => 4) g) ⟨0, false⟩ ![-1, 2, 1] = none := by
  decide +kernel

end values

/-! ## Headers -/

section header
variable {K : Type*} [Field K] [LinearOrder K] [IsStrictOrderedRing K]

theorem perp_ne (d : Fin 3) : (perp d).1 ≠ d ∧ (perp d).2 ≠ d ∧ ∀ k, k ≠ d → k = (perp d).1 ∨ k = (perp d).2 := by
  fin_cases d <;> decide

/-- **C131** Across the face the bounds written are one cell of the coarsest level to either side of it. -/
theorem header_span (a : Mesh K) (f : Face) (n : ℕ) {d : Box} {l : List Box} (hd : a.domains = d :: l) (hN : 0 < d.hi f.dir - d.lo f.dir + 1) :
    let h := writeHeader a f n
    ((d.hi f.dir - d.lo f.dir + 1 : ℤ) : K) * (h.phi f.dir - h.plo f.dir) = 2 * (a.phi f.dir - a.plo f.dir) ∧
      (h.plo f.dir + h.phi f.dir) / 2 = if f.high then a.phi f.dir else a.plo f.dir := by
  have hN' : ((d.hi f.dir - d.lo f.dir + 1 : ℤ) : K) ≠ 0 := by exact_mod_cast hN.ne'
  have e : ((d.hi f.dir - d.lo f.dir + 1 : ℤ) : K) * cellSize a d f.dir = a.phi f.dir - a.plo f.dir := by
    rw [cellSize, mul_div_cancel₀ _ hN']
  intro h
  have hp : h.plo f.dir = if f.high then a.phi f.dir - cellSize a d f.dir else a.plo f.dir - 1 * cellSize a d f.dir := by
    simp only [h, writeHeader, hd, Function.update_self]
  have hq : h.phi f.dir = if f.high then a.phi f.dir + 1 * cellSize a d f.dir else a.plo f.dir + cellSize a d f.dir := by
    simp only [h, writeHeader, hd, Function.update_self]
  rw [hp, hq]
  constructor
  · rw [← e]; split_ifs <;> ring
  · split_ifs <;> ring

theorem header_fields (a : Mesh K) (f : Face) (n : ℕ) : (writeHeader a f n).ncomp = n ∧
    (∀ k, k ≠ f.dir → (writeHeader a f n).plo k = a.plo k) ∧ (∀ k, k ≠ f.dir → (writeHeader a f n).phi k = a.phi k) ∧
    (writeHeader a f n).domains = a.domains.map fun b => bndryDomain b f := by
  unfold writeHeader
  cases hd : a.domains with
  | nil => simp
  | cons d t =>
    refine ⟨rfl, fun k hk => ?_, fun k hk => ?_, rfl⟩
    · simp [Function.update_apply, hk]
    · simp [Function.update_apply, hk]

/-- C131 **Which meshes a recording fits.**  The header of a face written by a run on mesh `a` is accepted by a replay on mesh
`b` exactly when the number of components is that of the field, the levels of the recording are no more than those found in the
files and those of the replay, the bounds of the two meshes agree in the two directions along the face to within the tolerance,
and at each recorded level the domains have the same cells in these two directions. -/
theorem header_accepted_iff (tol : K) (a b : Mesh K) (f : Face) (na nb levels : ℕ) :
    checkHeader tol b f nb levels (writeHeader a f na) = some () ↔
      na = nb ∧ 0 < a.domains.length ∧ a.domains.length ≤ levels ∧ a.domains.length ≤ b.domains.length ∧
      (∀ k, k ≠ f.dir → |a.plo k - b.plo k| < tol ∧ |a.phi k - b.phi k| < tol) ∧
      ∀ (l : ℕ) (x y : Box), a.domains[l]? = some x → b.domains[l]? = some y →
        ∀ k, k ≠ f.dir → x.lo k = y.lo k ∧ x.hi k = y.hi k := by
  obtain ⟨p1, p2, pa⟩ := perp_ne f.dir
  have hspan : ∀ (x y : Box) (k : Fin 3), k ≠ f.dir → (sameSpan (bndryDomain x f) y k = true ↔ x.lo k = y.lo k ∧ x.hi k = y.hi k) := by
    intro x y k hk
    unfold sameSpan bndryDomain slab
    cases f.high <;> simp [Function.update_apply, hk]
  cases hd : a.domains with
  | nil => simp [checkHeader, writeHeader, hd]
  | cons d t =>
    have hall : (((a.domains.map fun x => bndryDomain x f).zip b.domains).all fun q =>
        sameSpan q.1 q.2 (perp f.dir).1 && sameSpan q.1 q.2 (perp f.dir).2) = true ↔
        ∀ (l : ℕ) (x y : Box), a.domains[l]? = some x → b.domains[l]? = some y →
          ∀ k, k ≠ f.dir → x.lo k = y.lo k ∧ x.hi k = y.hi k := by
      rw [List.all_eq_true]
      constructor
      · intro h l x y hx hy k hk
        have hm : (bndryDomain x f, y) ∈ (a.domains.map fun x => bndryDomain x f).zip b.domains := by
          refine List.mem_iff_getElem?.mpr ⟨l, ?_⟩
          rw [List.getElem?_zip_eq_some]
          simp [hx, hy]
        have := h _ hm
        rw [Bool.and_eq_true] at this
        rcases pa k hk with rfl | rfl
        · exact (hspan x y _ p1).mp this.1
        · exact (hspan x y _ p2).mp this.2
      · intro h q hq
        obtain ⟨l, hl⟩ := List.mem_iff_getElem?.mp hq
        rw [List.getElem?_zip_eq_some] at hl
        obtain ⟨h1, h2⟩ := hl
        rw [List.getElem?_map, Option.map_eq_some_iff] at h1
        obtain ⟨x, hx, he⟩ := h1
        rw [Bool.and_eq_true, ← he]
        exact ⟨(hspan x q.2 _ p1).mpr (h l x q.2 hx h2 _ p1), (hspan x q.2 _ p2).mpr (h l x q.2 hx h2 _ p2)⟩
    rw [← hd, ← hall]
    have hlen : 0 < a.domains.length := by rw [hd]; simp
    obtain ⟨w1, w2, w3, w4⟩ := header_fields a f na
    simp only [checkHeader, isClose, w1, w2 _ p1, w2 _ p2, w3 _ p1, w3 _ p2, w4, List.length_map, decide_eq_true_eq]
    have hk : (∀ k, k ≠ f.dir → |a.plo k - b.plo k| < tol ∧ |a.phi k - b.phi k| < tol) ↔
        (|a.plo (perp f.dir).1 - b.plo (perp f.dir).1| < tol ∧ |a.plo (perp f.dir).2 - b.plo (perp f.dir).2| < tol ∧
         |a.phi (perp f.dir).1 - b.phi (perp f.dir).1| < tol ∧ |a.phi (perp f.dir).2 - b.phi (perp f.dir).2| < tol) := by
      constructor
      · intro h
        exact ⟨(h _ p1).1, (h _ p2).1, (h _ p1).2, (h _ p2).2⟩
      · rintro ⟨h1, h2, h3, h4⟩ k hk
        rcases pa k hk with rfl | rfl
        · exact ⟨h1, h3⟩
        · exact ⟨h2, h4⟩
    rw [hk]
    split_ifs with hc
    · simp only [true_iff]; tauto
    · simp only [reduceCtorEq, false_iff]; tauto

/-- C131 **A recording fits its own mesh, and any mesh that differs across the face only.** -/
theorem header_accepted {tol : K} (ht : 0 < tol) {a b : Mesh K} {f : Face} {n levels : ℕ} (hn : 0 < a.domains.length)
    (hl : a.domains.length ≤ levels) (hb : a.domains.length = b.domains.length)
    (hp : ∀ k, k ≠ f.dir → a.plo k = b.plo k ∧ a.phi k = b.phi k)
    (hd : ∀ (l : ℕ) (x y : Box), a.domains[l]? = some x → b.domains[l]? = some y →
      ∀ k, k ≠ f.dir → x.lo k = y.lo k ∧ x.hi k = y.hi k) :
    checkHeader tol b f n levels (writeHeader a f n) = some () :=
  (header_accepted_iff tol a b f n n levels).mpr ⟨rfl, hn, hl, hb.le, fun k hk => by
    rw [(hp k hk).1, (hp k hk).2]; simp [ht], hd⟩

def exMesh (nx : ℤ) : Mesh ℚ := ⟨fun _ => 0, ![10 * nx, 40, 40], [⟨fun _ => 0, ![nx - 1, 3, 3]⟩]⟩

/-- The low face in `x` of a mesh of 8 cells fits a mesh of 16 cells in `x`; the low face in `y` does not. -/
example : checkHeader (1 / 1000) (exMesh 16) ⟨0, false⟩ 3 1 (writeHeader (exMesh 8) ⟨0, false⟩ 3) = some () ∧
    checkHeader (1 / 1000) (exMesh 16) ⟨1, false⟩ 3 1 (writeHeader (exMesh 8) ⟨1, false⟩ 3) = none := by decide +kernel

end header

/-- C131 **The levels replayed** are the levels found in the first record, up to the first one missing. -/
theorem file_levels (active : ℕ) (found : ℕ → Bool) : fileLevels active found ≤ active ∧
    (∀ l < fileLevels active found, found l = true) ∧ (fileLevels active found < active → found (fileLevels active found) = false) := by
  unfold fileLevels
  cases h : (List.range active).find? (fun l => !found l) with
  | none =>
    refine ⟨le_rfl, fun l hl => ?_, fun h => absurd h (lt_irrefl _)⟩
    have := List.find?_eq_none.mp h l (List.mem_range.mpr hl)
    simpa using this
  | some m =>
    have hm := List.mem_range.mp (List.mem_of_find?_eq_some h)
    have hs := List.find?_some h
    refine ⟨hm.le, fun l hl => ?_, fun _ => by simpa using hs⟩
    change l < m at hl
    obtain ⟨-, as, bs, he, ha⟩ := List.find?_eq_some_iff_append.mp h
    have hlen : as.length = m := by
      have h1 : (List.range active)[as.length]? = some m := by rw [he]; simp
      have h2 := List.getElem?_eq_some_iff.mp h1
      obtain ⟨h3, h4⟩ := h2
      simpa using h4
    have : l ∈ as := by
      have h1 : (List.range active)[l]? = some l := by rw [List.getElem?_range (by omega)]
      rw [he, List.getElem?_append_left (by omega)] at h1
      exact List.mem_of_getElem? h1
    simpa using ha l this

example : fileLevels 4 (fun l => l != 2) = 2 ∧ fileLevels 4 (fun _ => true) = 4 := by decide

/-! ## Components -/

/-- The components of field `id` are those from `s` on. -/
theorem layout_inv (fields : List (ℕ × ℕ)) (nc : ℕ → ℕ) : ∀ (m : ℕ → Option ℕ) (t : ℕ), (∀ p ∈ fields, p.2 = nc p.1) →
    (∀ i s, m i = some s → s + nc i ≤ t) →
    (∀ i j s u, m i = some s → m j = some u → i ≠ j → s + nc i ≤ u ∨ u + nc j ≤ s) →
    let r := fields.foldl (fun (s : (ℕ → Option ℕ) × ℕ) f => (Function.update s.1 f.1 (some s.2), s.2 + f.2)) (m, t);
    (∀ i s, r.1 i = some s → s + nc i ≤ r.2) ∧
    (∀ i j s u, r.1 i = some s → r.1 j = some u → i ≠ j → s + nc i ≤ u ∨ u + nc j ≤ s) ∧
    (∀ i, (m i).isSome ∨ (∃ p ∈ fields, p.1 = i) → (r.1 i).isSome) := by
  induction fields with
  | nil =>
    intro m t _ h1 h2
    exact ⟨h1, h2, fun i h => by rcases h with h | ⟨p, hp, -⟩; exacts [h, absurd hp (by simp)]⟩
  | cons a l ih =>
    intro m t hn h1 h2
    have ha := hn a (by simp)
    obtain ⟨g1, g2, g3⟩ := ih (Function.update m a.1 (some t)) (t + a.2) (fun p hp => hn p (by simp [hp]))
      (by
        intro i s hs
        by_cases hi : i = a.1
        · subst hi; simp at hs; omega
        · rw [Function.update_of_ne hi] at hs
          have := h1 i s hs; omega)
      (by
        intro i j s u hs hu hij
        by_cases hi : i = a.1
        · subst hi
          rw [Function.update_of_ne (Ne.symm hij)] at hu
          simp at hs
          have := h1 j u hu; omega
        · rw [Function.update_of_ne hi] at hs
          by_cases hj : j = a.1
          · subst hj
            simp at hu
            have := h1 i s hs; omega
          · rw [Function.update_of_ne hj] at hu
            exact h2 i j s u hs hu hij)
    refine ⟨g1, g2, fun i hi => g3 i ?_⟩
    by_cases hia : i = a.1
    · left; subst hia; simp
    · rcases hi with hi | ⟨p, hp, rfl⟩
      · left; rwa [Function.update_of_ne hia]
      · right
        rcases List.mem_cons.mp hp with rfl | hp
        · exact absurd rfl hia
        · exact ⟨p, hp, rfl⟩

/-- C131 **Every field of the list has its own components**: the ranges of two fields do not meet and lie within the number of
components of the planes, also when a field is listed twice. -/
theorem layout_disjoint (fields : List (ℕ × ℕ)) (nc : ℕ → ℕ) (hn : ∀ p ∈ fields, p.2 = nc p.1) :
    (∀ p ∈ fields, ∃ s, (layout fields).1 p.1 = some s ∧ s + nc p.1 ≤ (layout fields).2) ∧
    ∀ i j s u, (layout fields).1 i = some s → (layout fields).1 j = some u → i ≠ j → s + nc i ≤ u ∨ u + nc j ≤ s := by
  obtain ⟨h1, h2, h3⟩ := layout_inv fields nc (fun _ => none) 0 hn (by simp) (by simp)
  refine ⟨fun p hp => ?_, h2⟩
  obtain ⟨s, hs⟩ := Option.isSome_iff_exists.mp (h3 p.1 (Or.inr ⟨p, hp, rfl⟩))
  exact ⟨s, hs, h1 _ _ hs⟩

/-- C131 **Each field of a replay is filled with its own recorded components**, in order: component `n` of a destination that
starts at component `orig` of the field gets the recorded component `orig + n`. -/
theorem own_components {V : Type*} (fields : List (ℕ × ℕ)) (nc : ℕ → ℕ) (hn : ∀ p ∈ fields, p.2 = nc p.1) (v : ℕ → ℕ → V)
    {p : ℕ × ℕ} (hp : p ∈ fields) {orig n : ℕ} (ho : orig + n < nc p.1) :
    populateComp (layout fields).1 (readAll (layout fields).1 fields v) p.1 orig n = some (v p.1 (orig + n)) := by
  obtain ⟨hs, hd⟩ := layout_disjoint fields nc hn
  obtain ⟨s, hls, -⟩ := hs p hp
  have key : ∀ (l : List (ℕ × ℕ)) (m : ℕ → Option V), (∀ q ∈ l, q.2 = nc q.1) →
      (p.1 ∈ l.map Prod.fst ∨ m (n + s + orig) = some (v p.1 (orig + n))) →
      (l.foldl (fun m f => match (layout fields).1 f.1 with
        | some s => fun q => if s ≤ q ∧ q < s + f.2 then some (v f.1 (q - s)) else m q
        | none => m) m) (n + s + orig) = some (v p.1 (orig + n)) := by
    intro l
    induction l with
    | nil => intro m _ h; simpa using h
    | cons a t ih =>
      intro m hq h
      refine ih _ (fun q hh => hq q (by simp [hh])) ?_
      have ha := hq a (by simp)
      by_cases hap : a.1 = p.1
      · right
        simp only [hap, hls]
        rw [hap] at ha
        rw [if_pos (by omega), show n + s + orig - s = orig + n by omega]
      · rcases h with h | h
        · left
          simp only [List.map_cons, List.mem_cons] at h
          rcases h with h | h
          · exact absurd h.symm hap
          · exact h
        · right
          cases hla : (layout fields).1 a.1 with
          | none => simpa only [hla] using h
          | some u =>
            have := hd _ _ _ _ hla hls hap
            simp only [hla]
            rw [if_neg (by omega)]
            exact h
  simp only [populateComp, hls]
  exact key fields _ hn (Or.inl (List.mem_map_of_mem hp))

/-- Velocity (field 0, three components) and temperature (field 4): the second face velocity comes from component 1. -/
example : (layout [(0, 3), (4, 1)]).1 0 = some 0 ∧ (layout [(0, 3), (4, 1)]).1 4 = some 3 ∧ (layout [(0, 3), (4, 1)]).2 = 4 ∧
    populateComp (layout [(0, 3), (4, 1)]).1 (readAll (layout [(0, 3), (4, 1)]).1 [(0, 3), (4, 1)] fun i n => (i, n)) 0 1 0 =
      some (0, 1) := by decide

/-! ## The life of the files -/

section life
variable {K V : Type*}

theorem fold_lines (rs : List (ℕ × K × V)) : ∀ d : Dir K V,
    (rs.foldl addRecord d).lines = d.lines ++ rs.map (fun r => (r.1, r.2.1)) ∧ (rs.foldl addRecord d).aside = d.aside ∧
    (∀ s, s ∉ rs.map Prod.fst → (rs.foldl addRecord d).recs s = d.recs s) ∧
    ((rs.map Prod.fst).Nodup → ∀ r ∈ rs, (rs.foldl addRecord d).recs r.1 = some r.2.2) := by
  induction rs with
  | nil => intro d; simp
  | cons a t ih =>
    intro d
    obtain ⟨h1, h2, h3, h4⟩ := ih (addRecord d a)
    simp only [List.foldl_cons]
    refine ⟨by rw [h1]; simp [addRecord], by rw [h2]; rfl, ?_, ?_⟩
    · intro s hs
      simp only [List.map_cons, List.mem_cons, not_or] at hs
      rw [h3 s hs.2]
      simp [addRecord, Function.update_apply, hs.1]
    · intro hn r hr
      simp only [List.map_cons, List.nodup_cons] at hn
      rcases List.mem_cons.mp hr with rfl | hr
      · rw [h3 _ hn.1]; simp [addRecord]
      · exact h4 hn.2 r hr

/-- C131 **After a run that records, the directory holds the records of that run and no others**, in order, each line of the
list of times with its planes. What was there is set aside under another name: a restart that records to the same name begins
again. -/
theorem recording_run (d : Dir K V) {rs : List (ℕ × K × V)} (hn : (rs.map Prod.fst).Nodup) :
    (run d .output rs).lines = rs.map (fun r => (r.1, r.2.1)) ∧
    (∀ r ∈ rs, (run d .output rs).recs r.1 = some r.2.2) ∧
    (∀ s, s ∉ rs.map Prod.fst → (run d .output rs).recs s = none) ∧
    (run d .output rs).aside = (d.lines, d.recs) :: d.aside := by
  obtain ⟨h1, h2, h3, h4⟩ := fold_lines rs (startRun d)
  simp only [run, if_true]
  exact ⟨by rw [h1]; simp [startRun], h4 hn, fun s hs => by rw [h3 s hs]; rfl, by rw [h2]; rfl⟩

/-- C131 **A run that replays, or with the mode not set to 0 or 1, changes no file.** -/
theorem other_runs (d : Dir K V) (m : ℤ) (hm : m ≠ 0) (rs : List (ℕ × K × V)) : run d (modeOf m) rs = d := by
  unfold run modeOf
  rw [if_neg hm]
  split_ifs <;> simp_all

/-- C131 **The last recording wins.**  After any history of runs the directory holds the records of the last run that recorded. -/
theorem last_recording (d : Dir K V) (before after : List (Mode × List (ℕ × K × V))) {rs : List (ℕ × K × V)}
    (hn : (rs.map Prod.fst).Nodup) (ha : ∀ r ∈ after, r.1 ≠ .output) :
    let e := (before ++ (.output, rs) :: after).foldl (fun d r => run d r.1 r.2) d;
    e.lines = rs.map (fun r => (r.1, r.2.1)) ∧ ∀ r ∈ rs, e.recs r.1 = some r.2.2 := by
  have hsame : ∀ (l : List (Mode × List (ℕ × K × V))) (x : Dir K V), (∀ r ∈ l, r.1 ≠ .output) →
      l.foldl (fun d r => run d r.1 r.2) x = x := by
    intro l
    induction l with
    | nil => intro x _; rfl
    | cons a t ih =>
      intro x h
      rw [List.foldl_cons, show run x a.1 a.2 = x by simp [run, h a (by simp)]]
      exact ih x fun r hr => h r (by simp [hr])
  simp only [List.foldl_append, List.foldl_cons]
  rw [hsame _ _ ha]
  obtain ⟨h1, h2, -, -⟩ := recording_run (before.foldl (fun d r => run d r.1 r.2) d) hn
  exact ⟨h1, h2⟩

/-- C131 **The format used**: NetCDF only when asked for and built in, the coupling only when asked for, native otherwise. -/
theorem format_used (nc : Bool) (a : Option Fmt) : (fmtOf nc a = .netcdf ↔ a = some .netcdf ∧ nc = true) ∧
    (fmtOf nc a = .erf ↔ a = some .erf) := by
  rcases a with - | a
  · simp [fmtOf]
  · cases a <;> cases nc <;> simp [fmtOf]

example : (([(Mode.output, [(0, (0 : ℚ), 'a'), (5, 1, 'b')]), (.input, []), (.output, [(5, 1, 'c'), (10, 2, 'd')]),
      (.undefined, [(15, 3, 'x')])] : List (Mode × List (ℕ × ℚ × Char))).foldl (fun d r => run d r.1 r.2)
      ⟨[], fun _ => none, []⟩).lines = [(5, 1), (10, 2)] := by decide +kernel

end life

end AmrWind.Bplane
