import Mathlib.Tactic.Ring
import Mathlib.Tactic.Linarith
import Mathlib.Tactic.NormNum
import Mathlib.Data.List.Basic
import Mathlib.Data.Fin.VecNotation
import Mathlib.Tactic.FinCases
import Mathlib.Tactic.IntervalCases
import Verif.Field.FillModel
import Verif.Field.OpsProps

/-!
# C138: ghost cells hold the values of the neighbourhood, however the mesh is cut into boxes
-/

set_option linter.unusedSectionVars false

namespace AmrWind.Fill

open FieldOps (Cell Box Layout Fld boxes inside Valid inside_iff inside_valid)

variable {K : Type*}

/-! ### Specification -/

/-- The boxes are not empty and lie in the domain; the domain is not empty.  Across sides with hoextrap they are at least three cells thick.  A field on faces has no
hoextrap across these faces (BCInterface.cpp:236-251). -/
structure Ok (g : Geo K) (L : Layout) : Prop where
  ratio : 1 ≤ g.ratio
  dom : ∀ d, g.dom.lo d ≤ g.dom.hi d
  box : ∀ lev l x, L[lev]? = some l → x ∈ l → ∀ d, g.lo lev d ≤ x.lo d ∧ x.lo d ≤ x.hi d ∧ x.hi d ≤ g.hi lev d
  thick : ∀ d hi, g.side d hi = .slope → g.dom.lo d + 2 ≤ g.dom.hi d ∧ ∀ (lev : ℕ) (l : List Box) (x : Box), L[lev]? = some l → x ∈ l → x.lo d + 2 ≤ x.hi d
  normal : ∀ d, g.face = some d → ∀ hi, g.side d hi ≠ .slope

/-- The cell is in the domain of the level. -/
def InDom (g : Geo K) (lev : ℕ) (c : Cell) : Prop := ∀ d, g.lo lev d ≤ c d ∧ c d ≤ g.hi lev d

/-- The boxes of the coarsest level cover the domain. -/
def Covers (g : Geo K) (L : Layout) : Prop := ∀ c, InDom g 0 c → ∃ b, Valid L 0 b c

/-- Two ways to cut the same cells into boxes, with the same values. -/
def Same (L : Layout) (f : Fld K) (L' : Layout) (f' : Fld K) : Prop :=
  f.ncomp = f'.ncomp ∧ ∀ lev c, ((∃ b, Valid L lev b c) ↔ ∃ b, Valid L' lev b c) ∧
    ∀ b b', Valid L lev b c → Valid L' lev b' c → f.val lev b c = f'.val lev b' c

/-- Two cells, or faces, that are the same place: a number of periods apart in periodic directions. -/
def Image (g : Geo K) (lev : ℕ) (c c' : Cell) : Prop := ∃ n : Fin 3 → ℤ, ∀ d, c d = c' d + (if g.per d then n d * g.period lev d else 0)

/-- Boxes that hold the same place hold the same values. -/
def Agrees (g : Geo K) (L : Layout) (f : Fld K) : Prop :=
  ∀ lev b b' c c', Valid L lev b c → Valid L lev b' c' → Image g lev c c' → f.val lev b c = f.val lev b' c'

/-- Beyond no side of the domain that is not periodic. -/
def Within (g : Geo K) (lev : ℕ) (c : Cell) : Prop := ∀ d, g.per d = false → g.lo lev d ≤ c d ∧ c d ≤ g.hi lev d

/-- The cell is in the array of box `b`, with `ng` ghost cells. -/
def InArray (L : Layout) (ng : Fin 3 → ℤ) (lev b : ℕ) (c : Cell) : Prop :=
  ∃ l x, L[lev]? = some l ∧ l[b]? = some x ∧ ∀ d, x.lo d - ng d ≤ c d ∧ c d ≤ x.hi d + ng d

/-- The nearest cell inside the domain. -/
def Geo.clamp (g : Geo K) (lev : ℕ) (c : Cell) : Cell := fun d =>
  if g.per d then c d else max (g.lo lev d) (min (g.hi lev d) (c d))

/-- The cell is beyond a side with hoextrap. -/
def SlopeAt (g : Geo K) (lev : ℕ) (d : Fin 3) (c : Cell) : Prop := ∃ hi, g.beyond lev (d, hi) c = true ∧ g.side d hi = .slope

/-- The cells that extrapolation to `c` may read: the nearest cell inside, and across sides with hoextrap the next two. -/
def Reach (g : Geo K) (lev : ℕ) (c c' : Cell) : Prop := ∀ d, c' d = g.clamp lev c d ∨
  (SlopeAt g lev d c ∧ g.lo lev d ≤ c' d ∧ c' d ≤ g.hi lev d ∧ g.clamp lev c d - 2 ≤ c' d ∧ c' d ≤ g.clamp lev c d + 2)

/-! ### Lemmas -/

theorem lo_le_hi {g : Geo K} {L : Layout} (h : Ok g L) (lev : ℕ) (d : Fin 3) : g.lo lev d ≤ g.hi lev d := by
  unfold Geo.lo Geo.hi
  have h1 := h.dom d
  have h2 : 1 ≤ g.ratio ^ lev := one_le_pow₀ h.ratio
  have h3 : (0 : ℤ) ≤ if g.face = some d then 1 else 0 := by split_ifs <;> norm_num
  nlinarith

theorem period_eq (g : Geo K) (lev : ℕ) (d : Fin 3) : g.period lev d = g.hi lev d + 1 - g.lo lev d - (if g.face = some d then 1 else 0) := by
  unfold Geo.period Geo.hi Geo.lo
  ring

theorem period_pos {g : Geo K} {L : Layout} (h : Ok g L) (lev : ℕ) (d : Fin 3) : 0 < g.period lev d := by
  unfold Geo.period
  have h1 := h.dom d
  have h2 : 0 < g.ratio ^ lev := lt_of_lt_of_le one_pos (one_le_pow₀ h.ratio)
  exact mul_pos (by omega) h2

theorem out_iff (g : Geo K) (lev : ℕ) (c : Cell) : g.out lev c = false ↔ Within g lev c := by
  unfold Geo.out sides Within Geo.beyond
  simp only [List.any_cons, List.any_nil, Bool.or_false, Bool.or_eq_false_iff, Bool.and_eq_false_iff, Bool.not_eq_false', Bool.false_eq_true, if_false, if_true,
    decide_eq_false_iff_not, not_lt]
  constructor
  · rintro ⟨h1, h2, h3, h4, h5, h6⟩ d hd
    fin_cases d <;> simp_all
  · intro h
    have a := h 0
    have b := h 1
    have c := h 2
    cases h0 : g.per 0 <;> cases h1 : g.per 1 <;> cases h2 : g.per 2 <;> simp_all

theorem within_clamp {g : Geo K} {L : Layout} (h : Ok g L) (lev : ℕ) (c : Cell) : Within g lev (g.clamp lev c) := by
  intro d hd
  have := lo_le_hi h lev d
  simp only [Geo.clamp, hd, Bool.false_eq_true, if_false]
  exact ⟨le_max_left _ _, max_le this (min_le_left _ _)⟩

theorem clamp_within {g : Geo K} {lev : ℕ} {c : Cell} (h : Within g lev c) : g.clamp lev c = c := by
  funext d
  unfold Geo.clamp
  split_ifs with hp
  · rfl
  · have := h d (by simpa using hp)
    rw [min_eq_right this.2, max_eq_right this.1]

theorem wrap_bounds {g : Geo K} {L : Layout} (h : Ok g L) (lev : ℕ) (c : Cell) {d : Fin 3} (hp : g.per d = true) :
    g.lo lev d ≤ g.wrap lev c d ∧ g.wrap lev c d < g.lo lev d + g.period lev d ∧ g.wrap lev c d ≤ g.hi lev d := by
  have h0 := period_pos h lev d
  have h1 := Int.emod_nonneg (c d - g.lo lev d) h0.ne'
  have h2 := Int.emod_lt_of_pos (c d - g.lo lev d) h0
  have h3 := period_eq g lev d
  unfold Geo.wrap
  rw [if_pos hp]
  split_ifs at h3 <;> omega

theorem wrap_dom {g : Geo K} {L : Layout} (h : Ok g L) {lev : ℕ} {c : Cell} (hc : Within g lev c) : InDom g lev (g.wrap lev c) := by
  intro d
  by_cases hp : g.per d = true
  · have := wrap_bounds h lev c hp
    exact ⟨this.1, this.2.2⟩
  · simp only [Geo.wrap, if_neg hp]
    exact hc d (by simpa using hp)

theorem image_refl (g : Geo K) (lev : ℕ) (c : Cell) : Image g lev c c := ⟨0, fun d => by simp⟩

theorem image_wrap (g : Geo K) (lev : ℕ) (c : Cell) : Image g lev c (g.wrap lev c) := by
  refine ⟨fun d => (c d - g.lo lev d) / g.period lev d, fun d => ?_⟩
  unfold Geo.wrap
  split_ifs with hp
  · have := Int.emod_add_mul_ediv (c d - g.lo lev d) (g.period lev d)
    linarith [mul_comm (g.period lev d) ((c d - g.lo lev d) / g.period lev d)]
  · simp

theorem image_trans {g : Geo K} {lev : ℕ} {a b c : Cell} (h : Image g lev a b) (h' : Image g lev b c) : Image g lev a c := by
  obtain ⟨n, hn⟩ := h
  obtain ⟨m, hm⟩ := h'
  refine ⟨fun d => n d + m d, fun d => ?_⟩
  rw [hn d, hm d]
  split_ifs <;> ring

theorem image_symm {g : Geo K} {lev : ℕ} {a b : Cell} (h : Image g lev a b) : Image g lev b a := by
  obtain ⟨n, hn⟩ := h
  refine ⟨fun d => -n d, fun d => ?_⟩
  rw [hn d]
  split_ifs <;> ring

theorem image_top (g : Geo K) (lev : ℕ) (c : Cell) : Image g lev c (g.top lev c) := by
  refine image_trans (image_wrap g lev c) ⟨fun d => if g.face = some d ∧ g.per d = true ∧ g.wrap lev c d = g.lo lev d then -1 else 0, fun d => ?_⟩
  unfold Geo.top
  by_cases h : g.face = some d ∧ g.per d = true ∧ g.wrap lev c d = g.lo lev d
  · have h3 := period_eq g lev d
    rw [if_pos h.1] at h3
    beta_reduce
    rw [if_pos h, if_pos h.2.1, if_pos h, h.2.2]
    linarith
  · simp only [if_neg h]
    simp

theorem wrap_image {g : Geo K} {lev : ℕ} {c c' : Cell} (h : Image g lev c c') : g.wrap lev c = g.wrap lev c' := by
  obtain ⟨n, hn⟩ := h
  funext d
  unfold Geo.wrap
  have := hn d
  split_ifs with hp
  · rw [if_pos hp] at this
    rw [this, show c' d + n d * g.period lev d - g.lo lev d = (c' d - g.lo lev d) + g.period lev d * n d by ring, Int.add_mul_emod_self_left]
  · rw [if_neg hp] at this
    omega

/-- Every image inside the domain is one of the two that are looked for. -/
theorem image_dom {g : Geo K} {L : Layout} (ho : Ok g L) {lev : ℕ} {c c' : Cell} (h : Image g lev c c') (hd : InDom g lev c') : c' = g.wrap lev c ∨ c' = g.top lev c := by
  have key : ∀ d, c' d = g.wrap lev c d ∨ (g.face = some d ∧ g.per d = true ∧ g.wrap lev c d = g.lo lev d ∧ c' d = g.hi lev d) := by
    intro d
    rw [wrap_image h]
    by_cases hp : g.per d = true
    · have h1 := hd d
      have h2 := period_pos ho lev d
      have h3 := period_eq g lev d
      by_cases hx : c' d < g.lo lev d + g.period lev d
      · left
        unfold Geo.wrap
        rw [if_pos hp, Int.emod_eq_of_lt (by omega) (by omega)]
        omega
      · right
        by_cases hf : g.face = some d
        · rw [if_pos hf] at h3
          have e : c' d = g.lo lev d + g.period lev d := by omega
          refine ⟨hf, hp, ?_, by omega⟩
          unfold Geo.wrap
          rw [if_pos hp, e, show g.lo lev d + g.period lev d - g.lo lev d = g.period lev d by ring, Int.emod_self, add_zero]
        · rw [if_neg hf] at h3
          omega
    · left
      unfold Geo.wrap
      rw [if_neg hp]
  by_cases hw : c' = g.wrap lev c
  · exact Or.inl hw
  · right
    have : ∃ d, c' d ≠ g.wrap lev c d := by
      by_contra hx
      push Not at hx
      exact hw (funext hx)
    obtain ⟨d, hne⟩ := this
    have hk := (key d).resolve_left hne
    funext e
    unfold Geo.top
    by_cases he : e = d
    · subst he
      rw [if_pos ⟨hk.1, hk.2.1, hk.2.2.1⟩]
      exact hk.2.2.2
    · have hf : g.face ≠ some e := by
        rw [hk.1]
        intro x
        exact he (Option.some.inj x).symm
      rw [if_neg (fun x => hf x.1)]
      exact (key e).resolve_right fun x => hf x.1

theorem valid_dom {g : Geo K} {L : Layout} (h : Ok g L) {lev b : ℕ} {c : Cell} (hv : Valid L lev b c) : InDom g lev c := by
  obtain ⟨l, x, h1, h2, h3⟩ := hv
  intro d
  have := h.box lev l x h1 (List.mem_of_getElem? h2) d
  have := h3 d
  omega

theorem dom_within {g : Geo K} {lev : ℕ} {c : Cell} (h : InDom g lev c) : Within g lev c := fun d _ => h d

theorem array_clamp {g : Geo K} {L : Layout} (h : Ok g L) {ng : Fin 3 → ℤ} (hg : ∀ d, 0 ≤ ng d) {lev b : ℕ} {c : Cell} (hc : InArray L ng lev b c) :
    InArray L ng lev b (g.clamp lev c) := by
  obtain ⟨l, x, h1, h2, h3⟩ := hc
  refine ⟨l, x, h1, h2, fun d => ?_⟩
  have a := h.box lev l x h1 (List.mem_of_getElem? h2) d
  have b := h3 d
  have e := hg d
  unfold Geo.clamp
  split_ifs with hp
  · exact b
  · constructor
    · exact le_max_of_le_right (le_min (by omega) b.1)
    · exact max_le (by omega) (le_trans (min_le_right _ _) b.2)

theorem valid_array {L : Layout} {ng : Fin 3 → ℤ} (hg : ∀ d, 0 ≤ ng d) {lev b : ℕ} {c : Cell} (h : Valid L lev b c) : InArray L ng lev b c := by
  obtain ⟨l, x, h1, h2, h3⟩ := h
  exact ⟨l, x, h1, h2, fun d => by have := h3 d; have := hg d; omega⟩

theorem own_some {L : Layout} {f : Fld K} {lev : ℕ} {c : Cell} {v : ℕ → K} (h : own L f lev c = some v) : ∃ b, Valid L lev b c ∧ v = f.val lev b c := by
  unfold own at h
  rw [Option.map_eq_some_iff] at h
  obtain ⟨b, h1, h2⟩ := h
  unfold holder at h1
  have h3 := List.find?_some h1
  exact ⟨b, (inside_valid L lev b c).1 h3, h2.symm⟩

theorem own_none {L : Layout} {f : Fld K} {lev : ℕ} {c : Cell} (h : own L f lev c = none) : ∀ b, ¬ Valid L lev b c := by
  intro b hv
  unfold own at h
  rw [Option.map_eq_none_iff] at h
  unfold holder at h
  rw [List.find?_eq_none] at h
  refine h b ?_ ((inside_valid L lev b c).2 hv)
  obtain ⟨l, x, h1, h2, -⟩ := hv
  rw [List.mem_range]
  unfold boxes
  rw [h1]
  exact (List.getElem?_eq_some_iff.mp h2).1

theorem own_same {L L' : Layout} {f f' : Fld K} (h : Same L f L' f') (lev : ℕ) (c : Cell) : own L f lev c = own L' f' lev c := by
  obtain ⟨-, h⟩ := h
  obtain ⟨h1, h2⟩ := h lev c
  cases e : own L f lev c with
  | none =>
    cases e' : own L' f' lev c with
    | none => rfl
    | some v =>
      obtain ⟨b, hb, -⟩ := own_some e'
      obtain ⟨b', hb'⟩ := h1.2 ⟨b, hb⟩
      exact absurd hb' (own_none e b')
  | some v =>
    obtain ⟨b, hb, rfl⟩ := own_some e
    cases e' : own L' f' lev c with
    | none =>
      obtain ⟨b', hb'⟩ := h1.1 ⟨b, hb⟩
      exact absurd hb' (own_none e' b')
    | some v' =>
      obtain ⟨b', hb', rfl⟩ := own_some e'
      rw [h2 b b' hb hb']

theorem own_valid {L : Layout} {f : Fld K} (h : Same L f L f) {lev b : ℕ} {c : Cell} (hv : Valid L lev b c) : own L f lev c = some (f.val lev b c) := by
  cases e : own L f lev c with
  | none => exact absurd hv (own_none e b)
  | some v =>
    obtain ⟨b', hb', rfl⟩ := own_some e
    rw [(h.2 lev c).2 b' b hb' hv]

theorem or_none {α : Type*} {a b : Option α} (h : a.or b = none) : a = none ∧ b = none := by
  cases a with
  | none => exact ⟨rfl, by simpa using h⟩
  | some x => simp at h

theorem held_some {g : Geo K} {L : Layout} {f : Fld K} {lev : ℕ} {c : Cell} {v : ℕ → K} (h : held g L f lev c = some v) :
    ∃ b c', Image g lev c c' ∧ Valid L lev b c' ∧ v = f.val lev b c' := by
  unfold held at h
  cases e1 : own L f lev c with
  | some w =>
    rw [e1] at h
    obtain ⟨b, h1, rfl⟩ := own_some e1
    exact ⟨b, c, image_refl g lev c, h1, by simpa using h.symm⟩
  | none =>
    cases e2 : own L f lev (g.wrap lev c) with
    | some w =>
      rw [e1, e2] at h
      obtain ⟨b, h1, rfl⟩ := own_some e2
      exact ⟨b, _, image_wrap g lev c, h1, by simpa using h.symm⟩
    | none =>
      rw [e1, e2] at h
      obtain ⟨b, h1, h2⟩ := own_some (show own L f lev (g.top lev c) = some v by simpa using h)
      exact ⟨b, _, image_top g lev c, h1, h2⟩

theorem held_none {g : Geo K} {L : Layout} (ho : Ok g L) {f : Fld K} {lev : ℕ} {c : Cell} (h : held g L f lev c = none) :
    ∀ b c', Image g lev c c' → ¬ Valid L lev b c' := by
  unfold held at h
  obtain ⟨h1, h2⟩ := or_none h
  have h3 := (or_none h1).2
  intro b c' hi hv
  rcases image_dom ho hi (valid_dom ho hv) with e | e
  · exact own_none h3 b (e ▸ hv)
  · exact own_none h2 b (e ▸ hv)

theorem held_valid {g : Geo K} {L : Layout} {f : Fld K} (h : Same L f L f) {lev b : ℕ} {c : Cell} (hv : Valid L lev b c) : held g L f lev c = some (f.val lev b c) := by
  unfold held
  rw [own_valid h hv]
  rfl

theorem held_image {g : Geo K} {L : Layout} (ho : Ok g L) {f : Fld K} (h : Agrees g L f) {lev b : ℕ} {c c' : Cell} (hi : Image g lev c c') (hv : Valid L lev b c') :
    held g L f lev c = some (f.val lev b c') := by
  cases e : held g L f lev c with
  | none => exact absurd hv (held_none ho e b c' hi)
  | some v =>
    obtain ⟨b2, c2, h1, h2, rfl⟩ := held_some e
    rw [h lev b2 b c2 c' h2 hv (image_trans (image_symm h1) hi)]

theorem held_same {g : Geo K} {L L' : Layout} {f f' : Fld K} (h : Same L f L' f') (lev : ℕ) (c : Cell) : held g L f lev c = held g L' f' lev c := by
  unfold held
  rw [own_same h, own_same h, own_same h]

/-- In cells, and on faces whose direction is not periodic, agreement needs no more than one value for each cell. -/
theorem agrees_of_same {g : Geo K} {L : Layout} (ho : Ok g L) {f : Fld K} (h : Same L f L f) (hf : ∀ d, g.face = some d → g.per d = false) : Agrees g L f := by
  intro lev b b' c c' hv hv' hi
  have key : ∀ x y, Image g lev x y → InDom g lev y → y = g.wrap lev x := by
    intro x y hxy hy
    rcases image_dom ho hxy hy with e | e
    · exact e
    · rw [e]
      funext d
      unfold Geo.top
      rw [if_neg]
      rintro ⟨h1, h2, -⟩
      rw [hf d h1] at h2
      cases h2
  have e : c = c' := by
    rw [key c c (image_refl g lev c) (valid_dom ho hv), key c c' hi (valid_dom ho hv')]
  subst e
  exact (h.2 lev c).2 b b' hv hv'

theorem coarse_same [Field K] {g : Geo K} {junk : K} {L L' : Layout} {f f' : Fld K} (h : Same L f L' f') (lev : ℕ) : coarse g junk L f lev = coarse g junk L' f' lev := by
  funext c k
  unfold coarse
  simp only [held_same h]

variable [Field K]

/-- What a cell inside the domain is given. -/
def inner (g : Geo K) (mp : Mapper K) (junk : K) (L : Layout) (f : Fld K) (lev : ℕ) (k : ℕ) (c : Cell) : K :=
  match held g L f lev c with
  | some v => v k
  | none => match lev with
    | 0 => junk
    | l + 1 => mp (coarse g junk L f l) c k

theorem copied_inner {g : Geo K} {mp : Mapper K} {junk : K} {L : Layout} {f : Fld K} (h : Ok g L) (hc : Covers g L) {ng : Fin 3 → ℤ} {lev b : ℕ} {c : Cell}
    (ha : InArray L ng lev b c) (hw : Within g lev c) (k : ℕ) : copied g mp junk L ng f lev b c k = inner g mp junk L f lev k c := by
  have hi : inside L ng lev b c = true := (inside_iff L ng lev b c).2 ha
  unfold copied inner
  rw [if_pos ⟨hi, (out_iff g lev c).2 hw⟩]
  cases e : held g L f lev c with
  | some v => rfl
  | none =>
    cases lev with
    | zero =>
      obtain ⟨b, hb⟩ := hc _ (wrap_dom h hw)
      exact absurd hb (held_none h e b _ (image_wrap g 0 c))
    | succ l => rfl

theorem beyond_lo {g : Geo K} {lev : ℕ} {d : Fin 3} {c : Cell} : g.beyond lev (d, false) c = true ↔ g.per d = false ∧ c d < g.lo lev d := by
  simp [Geo.beyond]

theorem beyond_hi {g : Geo K} {lev : ℕ} {d : Fin 3} {c : Cell} : g.beyond lev (d, true) c = true ↔ g.per d = false ∧ g.hi lev d < c d := by
  simp [Geo.beyond]

/-- The array has the three cells next to the sides with hoextrap that the cell is beyond. -/
def Full (g : Geo K) (lev : ℕ) (a : Box) (c : Cell) : Prop := ∀ d,
  (g.beyond lev (d, false) c = true → g.side d false = .slope → g.lo lev d + 2 ≤ min (a.hi d) (g.hi lev d)) ∧
  (g.beyond lev (d, true) c = true → g.side d true = .slope → max (a.lo d) (g.lo lev d) ≤ g.hi lev d - 2)

theorem extend_congr {g : Geo K} {lev : ℕ} (hl : ∀ d, g.lo lev d ≤ g.hi lev d) {a a' : Box} {d : Fin 3} {u v : Cell → K} {c : Cell} (ha : Full g lev a c) (ha' : Full g lev a' c)
    (hu : ∀ i, (i = g.clamp lev c d ∨ (SlopeAt g lev d c ∧ g.lo lev d ≤ i ∧ i ≤ g.hi lev d ∧ g.clamp lev c d - 2 ≤ i ∧ i ≤ g.clamp lev c d + 2)) →
      u (Function.update c d i) = v (Function.update c d i)) : g.extend lev a d u c = g.extend lev a' d v c := by
  unfold Geo.extend
  dsimp only
  have hd := hl d
  by_cases h1 : g.beyond lev (d, false) c = true
  · simp only [if_pos h1]
    obtain ⟨hp, hb⟩ := beyond_lo.mp h1
    have e : g.clamp lev c d = g.lo lev d := by
      simp only [Geo.clamp, hp, Bool.false_eq_true, if_false]
      rw [min_eq_right (by omega), max_eq_left (by omega)]
    rw [e] at hu
    have h0 := hu _ (Or.inl rfl)
    cases hs : g.side d false with
    | extrap => exact h0
    | given w => exact h0
    | slope =>
      have f1 := (ha d).1 h1 hs
      have f2 := (ha' d).1 h1 hs
      have f3 : g.lo lev d + 2 ≤ g.hi lev d := le_trans f1 (min_le_right _ _)
      have hS : SlopeAt g lev d c := ⟨false, h1, hs⟩
      simp only [if_pos f1, if_pos f2]
      split_ifs
      · exact h0
      rw [h0, hu (g.lo lev d + 1) (Or.inr ⟨hS, by omega, by omega, by omega, by omega⟩), hu (g.lo lev d + 2) (Or.inr ⟨hS, by omega, by omega, by omega, by omega⟩)]
  simp only [if_neg h1]
  by_cases h2 : g.beyond lev (d, true) c = true
  · simp only [if_pos h2]
    obtain ⟨hp, hb⟩ := beyond_hi.mp h2
    have e : g.clamp lev c d = g.hi lev d := by
      simp only [Geo.clamp, hp, Bool.false_eq_true, if_false]
      rw [min_eq_left (by omega), max_eq_right (by omega)]
    rw [e] at hu
    have h0 := hu _ (Or.inl rfl)
    cases hs : g.side d true with
    | extrap => exact h0
    | given w => exact h0
    | slope =>
      have f1 := (ha d).2 h2 hs
      have f2 := (ha' d).2 h2 hs
      have f3 : g.lo lev d ≤ g.hi lev d - 2 := le_trans (le_max_right _ _) f1
      have hS : SlopeAt g lev d c := ⟨true, h2, hs⟩
      simp only [if_pos f1, if_pos f2]
      split_ifs
      · exact h0
      rw [h0, hu (g.hi lev d - 1) (Or.inr ⟨hS, by omega, by omega, by omega, by omega⟩), hu (g.hi lev d - 2) (Or.inr ⟨hS, by omega, by omega, by omega, by omega⟩)]
  · simp only [if_neg h2]
    have e : g.clamp lev c d = c d := by
      unfold Geo.clamp
      split_ifs with hp
      · rfl
      · have hp : g.per d = false := by simpa using hp
        have n1 : ¬ c d < g.lo lev d := fun hh => h1 (beyond_lo.mpr ⟨hp, hh⟩)
        have n2 : ¬ g.hi lev d < c d := fun hh => h2 (beyond_hi.mpr ⟨hp, hh⟩)
        rw [min_eq_right (by omega), max_eq_right (by omega)]
    have := hu (c d) (Or.inl e.symm)
    rwa [Function.update_eq_self] at this

/-- Cells with the same coordinate in a direction are beyond the same sides there. -/
theorem beyond_coord {g : Geo K} {lev : ℕ} {c c' : Cell} {d : Fin 3} (h : c' d = c d) (b : Bool) : g.beyond lev (d, b) c' = g.beyond lev (d, b) c := by
  unfold Geo.beyond
  rw [h]

theorem slopeAt_coord {g : Geo K} {lev : ℕ} {c c' : Cell} {d : Fin 3} (h : c' d = c d) : SlopeAt g lev d c' ↔ SlopeAt g lev d c := by
  unfold SlopeAt
  simp only [beyond_coord h]

theorem clamp_coord {g : Geo K} {lev : ℕ} {c c' : Cell} {d : Fin 3} (h : c' d = c d) : g.clamp lev c' d = g.clamp lev c d := by
  unfold Geo.clamp
  rw [h]

/-- A step of `Reach` in one direction. -/
def Ok1 (g : Geo K) (lev : ℕ) (c : Cell) (d : Fin 3) (i : ℤ) : Prop := i = g.clamp lev c d ∨
  (SlopeAt g lev d c ∧ g.lo lev d ≤ i ∧ i ≤ g.hi lev d ∧ g.clamp lev c d - 2 ≤ i ∧ i ≤ g.clamp lev c d + 2)

theorem ok1_coord {g : Geo K} {lev : ℕ} {c c' : Cell} {d : Fin 3} (h : c' d = c d) (i : ℤ) : Ok1 g lev c' d i ↔ Ok1 g lev c d i := by
  unfold Ok1
  rw [slopeAt_coord h, clamp_coord h]

/-- Inside the domain in a direction nothing is beyond. -/
theorem ok1_inside {g : Geo K} {lev : ℕ} (hl : ∀ d, g.lo lev d ≤ g.hi lev d) {c : Cell} {d : Fin 3} {i : ℤ} (h : Ok1 g lev c d i) : g.per d = false → g.lo lev d ≤ i ∧ i ≤ g.hi lev d := by
  intro hp
  rcases h with rfl | ⟨-, h1, h2, -⟩
  · have := hl d
    simp only [Geo.clamp, hp, Bool.false_eq_true, if_false]
    exact ⟨le_max_left _ _, max_le this (min_le_left _ _)⟩
  · exact ⟨h1, h2⟩

theorem full_step {g : Geo K} {lev : ℕ} (hl : ∀ d, g.lo lev d ≤ g.hi lev d) {a : Box} {c : Cell} {d : Fin 3} {i : ℤ} (h : Full g lev a c) (hi : Ok1 g lev c d i) :
    Full g lev a (Function.update c d i) := by
  intro e
  by_cases hed : e = d
  · subst hed
    constructor <;> intro hb
    · obtain ⟨hp, hb⟩ := beyond_lo.mp hb
      have := (ok1_inside hl hi hp).1
      simp at hb
      omega
    · obtain ⟨hp, hb⟩ := beyond_hi.mp hb
      have := (ok1_inside hl hi hp).2
      simp at hb
      omega
  · have hc : Function.update c d i e = c e := Function.update_of_ne hed _ _
    rw [beyond_coord hc, beyond_coord hc]
    exact h e

theorem bc_congr {g : Geo K} {lev : ℕ} (hl : ∀ d, g.lo lev d ≤ g.hi lev d) {a a' : Box} {u v : Cell → K} {c : Cell} (ha : Full g lev a c) (ha' : Full g lev a' c)
    (hu : ∀ c', Reach g lev c c' → u c' = v c') (k : ℕ) : g.bc lev a u c k = g.bc lev a' v c k := by
  unfold Geo.bc
  congr 1
  refine extend_congr hl ha ha' fun i hi => ?_
  change Ok1 g lev c 2 i at hi
  have f2 := full_step hl ha hi
  have f2' := full_step hl ha' hi
  refine extend_congr hl f2 f2' fun j hj => ?_
  change Ok1 g lev _ 1 j at hj
  have f1 := full_step hl f2 hj
  have f1' := full_step hl f2' hj
  refine extend_congr hl f1 f1' fun m hm => ?_
  change Ok1 g lev _ 0 m at hm
  rw [ok1_coord (c := c) (by simp)] at hj hm
  refine hu _ fun d => ?_
  fin_cases d
  · show Ok1 g lev c 0 _
    simpa using hm
  · show Ok1 g lev c 1 _
    simpa using hj
  · show Ok1 g lev c 2 _
    simpa using hi

theorem reach_within {g : Geo K} {lev : ℕ} (hl : ∀ d, g.lo lev d ≤ g.hi lev d) {c c' : Cell} (h : Reach g lev c c') : Within g lev c' :=
  fun d hp => ok1_inside hl (h d) hp

theorem coord_array {g : Geo K} {L : Layout} (h : Ok g L) {ng : Fin 3 → ℤ} (hg : ∀ d, 0 ≤ ng d) {lev : ℕ} {l : List Box} {x : Box} (h1 : L[lev]? = some l) (h2 : x ∈ l) {c : Cell}
    (h4 : ∀ d, x.lo d - ng d ≤ c d ∧ c d ≤ x.hi d + ng d) {d : Fin 3} {i : ℤ} (hr : Ok1 g lev c d i) : x.lo d - ng d ≤ i ∧ i ≤ x.hi d + ng d := by
  have hx := h.box lev l x h1 h2 d
  have hgd := hg d
  have h4d := h4 d
  rcases hr with e | ⟨⟨hi, hb, hs⟩, r1, r2, r3, r4⟩
  · rw [e]
    unfold Geo.clamp
    split_ifs with hp
    · exact h4d
    · constructor
      · exact le_max_of_le_right (le_min (by omega) h4d.1)
      · exact max_le (by omega) (le_trans (min_le_right _ _) h4d.2)
  · have ht := (h.thick d hi hs).2 lev l x h1 h2
    cases hi with
    | false =>
      obtain ⟨hp, hb⟩ := beyond_lo.mp hb
      have e : g.clamp lev c d = g.lo lev d := by
        simp only [Geo.clamp, hp, Bool.false_eq_true, if_false]
        rw [min_eq_right (by omega), max_eq_left (by omega)]
      omega
    | true =>
      obtain ⟨hp, hb⟩ := beyond_hi.mp hb
      have e : g.clamp lev c d = g.hi lev d := by
        simp only [Geo.clamp, hp, Bool.false_eq_true, if_false]
        rw [min_eq_left (by omega), max_eq_right (by omega)]
      omega

theorem step_array {g : Geo K} {L : Layout} (h : Ok g L) {ng : Fin 3 → ℤ} (hg : ∀ d, 0 ≤ ng d) {lev b : ℕ} {c : Cell} (hc : InArray L ng lev b c) {d : Fin 3} {i : ℤ}
    (hr : Ok1 g lev c d i) : InArray L ng lev b (Function.update c d i) := by
  obtain ⟨l, x, h1, h2, h4⟩ := hc
  refine ⟨l, x, h1, h2, fun e => ?_⟩
  by_cases hed : e = d
  · subst hed
    rw [Function.update_self]
    exact coord_array h hg h1 (List.mem_of_getElem? h2) h4 hr
  · rw [Function.update_of_ne hed]
    exact h4 e

theorem reach_array {g : Geo K} {L : Layout} (h : Ok g L) {ng : Fin 3 → ℤ} (hg : ∀ d, 0 ≤ ng d) {lev b : ℕ} {c c' : Cell} (hc : InArray L ng lev b c) (hr : Reach g lev c c') :
    InArray L ng lev b c' := by
  obtain ⟨l, x, h1, h2, h4⟩ := hc
  exact ⟨l, x, h1, h2, fun d => coord_array h hg h1 (List.mem_of_getElem? h2) h4 (hr d)⟩

theorem bounds_eq {L : Layout} {ng : Fin 3 → ℤ} {lev b : ℕ} {l : List Box} {x : Box} (h1 : L[lev]? = some l) (h2 : l[b]? = some x) :
    bounds L ng lev b = ⟨fun d => x.lo d - ng d, fun d => x.hi d + ng d⟩ := by
  unfold bounds boxes
  rw [h1]
  simp only [Option.getD_some, h2]

theorem thick_level {g : Geo K} {L : Layout} (h : Ok g L) (lev : ℕ) {d : Fin 3} {hi : Bool} (hs : g.side d hi = .slope) : g.lo lev d + 2 ≤ g.hi lev d := by
  have h1 := (h.thick d hi hs).1
  have h2 : (1 : ℤ) ≤ g.ratio ^ lev := one_le_pow₀ h.ratio
  have h3 : (0 : ℤ) ≤ if g.face = some d then 1 else 0 := by split_ifs <;> norm_num
  unfold Geo.lo Geo.hi
  nlinarith

theorem full_domain {g : Geo K} {L : Layout} (h : Ok g L) (lev : ℕ) (c : Cell) : Full g lev (g.domain lev) c := by
  intro d
  constructor <;> intro _ hs <;> have := thick_level h lev hs <;> simp [Geo.domain] <;> omega

theorem full_array {g : Geo K} {L : Layout} (h : Ok g L) {ng : Fin 3 → ℤ} (hg : ∀ d, 0 ≤ ng d) {lev b : ℕ} {c : Cell} (hc : InArray L ng lev b c) :
    Full g lev (bounds L ng lev b) c := by
  obtain ⟨l, x, h1, h2, h3⟩ := hc
  rw [bounds_eq h1 h2]
  intro d
  have hx := h.box lev l x h1 (List.mem_of_getElem? h2) d
  have hgd := hg d
  constructor <;> intro _ hs <;> have := thick_level h lev hs <;> have ht := (h.thick d _ hs).2 lev l x h1 (List.mem_of_getElem? h2)
  · exact le_min (by dsimp only; omega) this
  · exact max_le (by dsimp only; omega) (by omega)

theorem give_within {g : Geo K} {lev : ℕ} {c : Cell} (hw : Within g lev c) (v : K) (k : ℕ) : g.give lev v c k = v := by
  have ho := (out_iff g lev c).2 hw
  unfold Geo.give
  unfold Geo.out at ho
  have hs : ∀ s ∈ sides, g.beyond lev s c = false := by simpa using ho
  have nb : ∀ (l : List (Fin 3 × Bool)), (∀ s ∈ l, g.beyond lev s c = false) → l.foldl (fun v s => if g.beyond lev s c then match g.side s.1 s.2 with
      | .given w => w lev c k
      | _ => v else v) v = v := by
    intro l
    induction l with
    | nil => intro _; rfl
    | cons a l ih =>
      intro hl
      rw [List.foldl_cons, hl a (List.mem_cons_self ..)]
      simp only [Bool.false_eq_true, if_false]
      exact ih (fun s hs => hl s (List.mem_cons_of_mem _ hs))
  exact nb sides hs

theorem within_beyond {g : Geo K} {lev : ℕ} {c : Cell} (hw : Within g lev c) (s : Fin 3 × Bool) : g.beyond lev s c = false := by
  have ho := (out_iff g lev c).2 hw
  unfold Geo.out at ho
  have hs : ∀ s ∈ sides, g.beyond lev s c = false := by simpa using ho
  refine hs s ?_
  obtain ⟨d, b⟩ := s
  fin_cases d <;> cases b <;> simp [sides]

theorem extend_inside {g : Geo K} {lev : ℕ} {a : Box} {d : Fin 3} {v : Cell → K} {c : Cell} (h : ∀ b, g.beyond lev (d, b) c = false) : g.extend lev a d v c = v c := by
  unfold Geo.extend
  simp [h]

theorem bc_within {g : Geo K} {lev : ℕ} {c : Cell} (hw : Within g lev c) (a : Box) (v : Cell → K) (k : ℕ) : g.bc lev a v c k = v c := by
  unfold Geo.bc
  rw [give_within hw, extend_inside fun b => within_beyond hw _, extend_inside fun b => within_beyond hw _, extend_inside fun b => within_beyond hw _]

/-- The value of a filled cell of an array. -/
theorem fillLevel_val {g : Geo K} {mp : Mapper K} {junk : K} {L : Layout} {f : Fld K} (h : Ok g L) (hc : Covers g L) {ng : Fin 3 → ℤ} (hg : ∀ d, 0 ≤ ng d)
    {lev b : ℕ} {c : Cell} (ha : InArray L ng lev b c) {k : ℕ} (hk : k < f.ncomp) :
    (fillLevel g mp junk L ng f lev).val lev b c k = g.bc lev (g.domain lev) (inner g mp junk L f lev k) c k := by
  have hi : inside L ng lev b c = true := (inside_iff L ng lev b c).2 ha
  unfold fillLevel physBox
  dsimp only
  rw [if_pos rfl]
  cases ho : g.out lev c with
  | true =>
    rw [if_pos ⟨hi, by simp, hk⟩]
    refine bc_congr (lo_le_hi h lev) (full_array h hg ha) (full_domain h lev c) (fun c' hr => ?_) k
    rw [if_pos hk]
    exact copied_inner h hc (reach_array h hg ha hr) (reach_within (lo_le_hi h lev) hr) k
  | false =>
    have hw := (out_iff g lev c).1 ho
    rw [if_neg (by simp), if_pos hk, bc_within hw, copied_inner h hc ha hw]

theorem fillLevel_else {g : Geo K} {mp : Mapper K} {junk : K} {L : Layout} {f : Fld K} {ng : Fin 3 → ℤ} {lev lev' b : ℕ} {c : Cell} {k : ℕ}
    (h : ¬ (lev' = lev ∧ InArray L ng lev b c ∧ k < f.ncomp)) : (fillLevel g mp junk L ng f lev).val lev' b c k = f.val lev' b c k := by
  unfold fillLevel physBox copied
  dsimp only
  by_cases hl : lev' = lev
  · subst hl
    rw [if_pos rfl]
    by_cases hk : k < f.ncomp
    · have hi : ¬ inside L ng lev' b c = true := fun hh => h ⟨rfl, (inside_iff L ng lev' b c).1 hh, hk⟩
      rw [if_neg (fun hh => hi hh.1), if_pos hk, if_neg (fun hh => hi hh.1)]
    · rw [if_neg (fun hh => hk hh.2.2), if_neg hk]
  · rw [if_neg hl]

theorem inner_valid {g : Geo K} {mp : Mapper K} {junk : K} {L : Layout} {f : Fld K} (h : Ok g L) (hs : Same L f L f) {lev b : ℕ} {c : Cell} (hv : Valid L lev b c) (k : ℕ) :
    inner g mp junk L f lev k c = f.val lev b c k := by
  unfold inner
  rw [held_valid hs hv]

theorem fillLevel_valid {g : Geo K} {mp : Mapper K} {junk : K} {L : Layout} {f : Fld K} (h : Ok g L) (hc : Covers g L) (hs : Same L f L f) {ng : Fin 3 → ℤ}
    (hg : ∀ d, 0 ≤ ng d) (m : ℕ) {lev b : ℕ} {c : Cell} (hv : Valid L lev b c) (k : ℕ) : (fillLevel g mp junk L ng f m).val lev b c k = f.val lev b c k := by
  by_cases hh : lev = m ∧ InArray L ng m b c ∧ k < f.ncomp
  · obtain ⟨rfl, ha, hk⟩ := hh
    rw [fillLevel_val h hc hg ha hk, bc_within (dom_within (valid_dom h hv)), inner_valid h hs hv]
  · exact fillLevel_else hh

theorem inner_same {g : Geo K} {mp : Mapper K} {junk : K} {L L' : Layout} {f f' : Fld K} (h : Same L f L' f') (lev k : ℕ) :
    inner g mp junk L f lev k = inner g mp junk L' f' lev k := by
  funext c
  unfold inner
  rw [held_same h]
  cases lev with
  | zero => rfl
  | succ n => simp only [coarse_same h]

/-! ### C138 -/

/-- **C138**: levels filled in any order and any number of times give what filling each level once gives. -/
theorem levels_any_order {g : Geo K} {mp : Mapper K} {junk : K} {L : Layout} {f : Fld K} (h : Ok g L) (hc : Covers g L) (hs : Same L f L f) {ng : Fin 3 → ℤ}
    (hg : ∀ d, 0 ≤ ng d) (l : List ℕ) : (l.foldl (fillLevel g mp junk L ng) f).ncomp = f.ncomp ∧ ∀ lev b c k,
      (l.foldl (fillLevel g mp junk L ng) f).val lev b c k = if lev ∈ l then (fillLevel g mp junk L ng f lev).val lev b c k else f.val lev b c k := by
  induction l using List.reverseRecOn with
  | nil => exact ⟨rfl, fun lev b c k => rfl⟩
  | append_singleton l m ih =>
    obtain ⟨ih1, ih2⟩ := ih
    rw [List.foldl_append]
    simp only [List.foldl_cons, List.foldl_nil]
    set S := l.foldl (fillLevel g mp junk L ng) f with hS
    have vS : ∀ lev b c, Valid L lev b c → S.val lev b c = f.val lev b c := by
      intro lev b c hv
      funext k
      rw [ih2]
      split_ifs
      · exact fillLevel_valid h hc hs hg lev hv k
      · rfl
    have hSf : Same L S L f := ⟨ih1, fun lev c => ⟨Iff.rfl, fun b b' hb hb' => by rw [vS lev b c hb]; exact (hs.2 lev c).2 b b' hb hb'⟩⟩
    refine ⟨ih1, fun lev b c k => ?_⟩
    by_cases hh : lev = m ∧ InArray L ng m b c ∧ k < S.ncomp
    · obtain ⟨rfl, ha, hk⟩ := hh
      rw [if_pos (by simp)]
      rw [fillLevel_val h hc hg ha hk, fillLevel_val h hc hg ha (by rw [← ih1]; exact hk), inner_same hSf]
    · rw [fillLevel_else hh, ih2]
      rw [ih1] at hh
      by_cases hl : lev ∈ l
      · rw [if_pos hl, if_pos (by simp [hl])]
      · rw [if_neg hl]
        by_cases hm : lev = m
        · subst hm
          rw [if_pos (by simp), fillLevel_else (by rintro ⟨-, a⟩; exact hh ⟨rfl, a⟩)]
        · rw [if_neg (by simp [hl, hm])]

theorem fillpatch_val {g : Geo K} {mp : Mapper K} {junk : K} {L : Layout} {f : Fld K} (h : Ok g L) (hc : Covers g L) (hs : Same L f L f) {ng : Fin 3 → ℤ}
    (hg : ∀ d, 0 ≤ ng d) {lev b : ℕ} {c : Cell} (ha : InArray L ng lev b c) {k : ℕ} (hk : k < f.ncomp) :
    (fillpatch g mp junk L ng f).val lev b c k = g.bc lev (g.domain lev) (inner g mp junk L f lev k) c k := by
  have hl : lev < L.length := by
    obtain ⟨l, x, e, -⟩ := ha
    exact (List.getElem?_eq_some_iff.mp e).1
  unfold fillpatch
  rw [(levels_any_order h hc hs hg _).2, if_pos (List.mem_range.mpr hl)]
  exact fillLevel_val h hc hg ha hk

/-- **C138**: filling leaves the cells of the boxes, other components and all cells farther out as they are. -/
theorem fill_keeps {g : Geo K} {mp : Mapper K} {junk : K} {L : Layout} {f : Fld K} (h : Ok g L) (hc : Covers g L) (hs : Same L f L f) {ng : Fin 3 → ℤ}
    (hg : ∀ d, 0 ≤ ng d) (lev b : ℕ) (c : Cell) (k : ℕ) (hh : Valid L lev b c ∨ f.ncomp ≤ k ∨ ¬ InArray L ng lev b c) :
    (fillpatch g mp junk L ng f).val lev b c k = f.val lev b c k := by
  unfold fillpatch
  rw [(levels_any_order h hc hs hg _).2]
  split_ifs with hl
  · rcases hh with hv | hk | ha
    · exact fillLevel_valid h hc hs hg lev hv k
    · exact fillLevel_else (by rintro ⟨-, -, x⟩; omega)
    · exact fillLevel_else (by rintro ⟨-, x, -⟩; exact ha x)
  · rfl

/-- **C138**: a ghost cell, or face, that a box of the level holds, or holds a number of periods away, gets the value of that box. -/
theorem ghost_is_neighbour {g : Geo K} {mp : Mapper K} {junk : K} {L : Layout} {f : Fld K} (h : Ok g L) (hc : Covers g L) (hs : Same L f L f) (hp : Agrees g L f)
    {ng : Fin 3 → ℤ} (hg : ∀ d, 0 ≤ ng d) {lev b : ℕ} {c : Cell} (ha : InArray L ng lev b c) {k : ℕ} (hk : k < f.ncomp) {b' : ℕ} {c' : Cell} (hv : Valid L lev b' c')
    (n : Fin 3 → ℤ) (hn : ∀ d, c d = c' d + (if g.per d then n d * ((g.dom.hi d + 1 - g.dom.lo d) * g.ratio ^ lev) else 0)) :
    (fillpatch g mp junk L ng f).val lev b c k = f.val lev b' c' k := by
  have hd := valid_dom h hv
  have hw : Within g lev c := by
    intro d hp
    have := hn d
    rw [hp] at this
    simp only [Bool.false_eq_true, if_false, add_zero] at this
    rw [this]
    exact hd d
  rw [fillpatch_val (mp := mp) (junk := junk) h hc hs hg ha hk, bc_within hw]
  unfold inner
  rw [held_image h hp ⟨n, hn⟩ hv]

theorem give_none {g : Geo K} {lev : ℕ} {c : Cell} (hx : ∀ s w, g.beyond lev s c = true → g.side s.1 s.2 ≠ .given w) (v : K) (k : ℕ) : g.give lev v c k = v := by
  have nb : ∀ (l : List (Fin 3 × Bool)), l.foldl (fun v s => if g.beyond lev s c then match g.side s.1 s.2 with
      | .given w => w lev c k
      | _ => v else v) v = v := by
    intro l
    induction l with
    | nil => rfl
    | cons a l ih =>
      rw [List.foldl_cons]
      have : (if g.beyond lev a c then match g.side a.1 a.2 with
        | .given w => w lev c k
        | _ => v else v) = v := by
        split_ifs with hb
        · cases e : g.side a.1 a.2 with
          | given w => exact absurd e (hx a w hb)
          | extrap => rfl
          | slope => rfl
        · rfl
      rw [this]
      exact ih
  exact nb sides

/-- Extrapolation in a direction is a combination of three cells with weights that depend on the place in that direction only. -/
theorem extend_weights (g : Geo K) (lev : ℕ) (a : Box) (d : Fin 3) (x : ℤ) : ∃ (i0 i1 i2 : ℤ) (q0 q1 q2 : K), ∀ (v : Cell → K) (c : Cell), c d = x →
    g.extend lev a d v c = q0 * v (Function.update c d i0) + q1 * v (Function.update c d i1) + q2 * v (Function.update c d i2) := by
  have one : ∀ i : ℤ, (∀ (v : Cell → K) (c : Cell), c d = x → g.extend lev a d v c = v (Function.update c d i)) → ∃ (i0 i1 i2 : ℤ) (q0 q1 q2 : K), ∀ (v : Cell → K) (c : Cell), c d = x →
      g.extend lev a d v c = q0 * v (Function.update c d i0) + q1 * v (Function.update c d i1) + q2 * v (Function.update c d i2) :=
    fun i h => ⟨i, i, i, 1, 0, 0, fun v c hc => by rw [h v c hc]; ring⟩
  have bl : ∀ c : Cell, c d = x → g.beyond lev (d, false) c = g.beyond lev (d, false) (fun _ => x) := fun c hc => beyond_coord (c' := c) (c := fun _ => x) hc _
  have bh : ∀ c : Cell, c d = x → g.beyond lev (d, true) c = g.beyond lev (d, true) (fun _ => x) := fun c hc => beyond_coord (c' := c) (c := fun _ => x) hc _
  cases h1 : g.beyond lev (d, false) (fun _ => x) with
  | true =>
    cases hs : g.side d false with
    | extrap => exact one (g.lo lev d) fun v c hc => by unfold Geo.extend; simp [bl c hc, h1, hs]
    | given w => exact one (g.lo lev d) fun v c hc => by unfold Geo.extend; simp [bl c hc, h1, hs]
    | slope =>
      by_cases h2 : x < g.lo lev d - 1
      · exact one (g.lo lev d) fun v c hc => by unfold Geo.extend; simp only [bl c hc, h1, hs, hc, if_pos h2, if_true]
      · by_cases h3 : g.lo lev d + 2 ≤ min (a.hi d) (g.hi lev d)
        · refine ⟨g.lo lev d, g.lo lev d + 1, g.lo lev d + 2, 15 / 8, -10 / 8, 3 / 8, fun v c hc => ?_⟩
          unfold Geo.extend
          simp only [bl c hc, h1, hs, hc, if_neg h2, if_pos h3, if_true]
          ring
        · refine ⟨g.lo lev d, g.lo lev d + 1, g.lo lev d, 3 / 2, -1 / 2, 0, fun v c hc => ?_⟩
          unfold Geo.extend
          simp only [bl c hc, h1, hs, hc, if_neg h2, if_neg h3, if_true]
          ring
  | false =>
    cases h2 : g.beyond lev (d, true) (fun _ => x) with
    | false => exact one x fun v c hc => by unfold Geo.extend; simp only [bl c hc, bh c hc, h1, h2, Bool.false_eq_true, if_false]; rw [← hc, Function.update_eq_self]
    | true =>
      cases hs : g.side d true with
      | extrap => exact one (g.hi lev d) fun v c hc => by unfold Geo.extend; simp [bl c hc, bh c hc, h1, h2, hs]
      | given w => exact one (g.hi lev d) fun v c hc => by unfold Geo.extend; simp [bl c hc, bh c hc, h1, h2, hs]
      | slope =>
        by_cases h3 : g.hi lev d + 1 < x
        · exact one (g.hi lev d) fun v c hc => by unfold Geo.extend; simp only [bl c hc, bh c hc, h1, h2, hs, hc, if_pos h3, if_true, Bool.false_eq_true, if_false]
        · by_cases h4 : max (a.lo d) (g.lo lev d) ≤ g.hi lev d - 2
          · refine ⟨g.hi lev d, g.hi lev d - 1, g.hi lev d - 2, 15 / 8, -10 / 8, 3 / 8, fun v c hc => ?_⟩
            unfold Geo.extend
            simp only [bl c hc, bh c hc, h1, h2, hs, hc, if_neg h3, if_pos h4, if_true, Bool.false_eq_true, if_false]
            ring
          · refine ⟨g.hi lev d, g.hi lev d - 1, g.hi lev d, 3 / 2, -1 / 2, 0, fun v c hc => ?_⟩
            unfold Geo.extend
            simp only [bl c hc, bh c hc, h1, h2, hs, hc, if_neg h3, if_neg h4, if_true, Bool.false_eq_true, if_false]
            ring

theorem extend_comm (g : Geo K) (lev : ℕ) (a : Box) {d e : Fin 3} (hde : d ≠ e) (v : Cell → K) : g.extend lev a d (g.extend lev a e v) = g.extend lev a e (g.extend lev a d v) := by
  funext c
  obtain ⟨i0, i1, i2, p0, p1, p2, hp⟩ := extend_weights g lev a d (c d)
  obtain ⟨j0, j1, j2, q0, q1, q2, hq⟩ := extend_weights g lev a e (c e)
  have ed : ∀ i, Function.update c d i e = c e := fun i => Function.update_of_ne hde.symm _ _
  have ee : ∀ i, Function.update c e i d = c d := fun i => Function.update_of_ne hde _ _
  have cm : ∀ i j, Function.update (Function.update c d i) e j = Function.update (Function.update c e j) d i := fun i j => Function.update_comm hde _ _ _
  rw [hp _ c rfl, hq _ c rfl, hq _ _ (ed i0), hq _ _ (ed i1), hq _ _ (ed i2), hp _ _ (ee j0), hp _ _ (ee j1), hp _ _ (ee j2)]
  simp only [cm]
  ring

theorem extend_idem {g : Geo K} {lev : ℕ} (hl : ∀ d, g.lo lev d ≤ g.hi lev d) {a : Box} {d : Fin 3} {v : Cell → K} {c : Cell} (ha : Full g lev a c) :
    g.extend lev a d (g.extend lev a d v) c = g.extend lev a d v c := by
  refine extend_congr hl ha ha fun i hi => extend_inside fun b => ?_
  change Ok1 g lev c d i at hi
  cases b with
  | false =>
    by_contra hb
    obtain ⟨hp, hb⟩ := beyond_lo.mp (by simpa using hb)
    have := (ok1_inside hl hi hp).1
    simp at hb
    omega
  | true =>
    by_contra hb
    obtain ⟨hp, hb⟩ := beyond_hi.mp (by simpa using hb)
    have := (ok1_inside hl hi hp).2
    simp at hb
    omega

/-- The whole extrapolation, with any direction last. -/
theorem extend_last (g : Geo K) (lev : ℕ) (a : Box) (d : Fin 3) (v : Cell → K) : ∃ u : Cell → K, g.extend lev a 2 (g.extend lev a 1 (g.extend lev a 0 v)) = g.extend lev a d u := by
  fin_cases d
  · exact ⟨g.extend lev a 2 (g.extend lev a 1 v), by rw [extend_comm g lev a (show (1 : Fin 3) ≠ 0 by decide), extend_comm g lev a (show (2 : Fin 3) ≠ 0 by decide)]; rfl⟩
  · exact ⟨g.extend lev a 2 (g.extend lev a 0 v), by rw [extend_comm g lev a (show (2 : Fin 3) ≠ 1 by decide)]; rfl⟩
  · exact ⟨_, rfl⟩

theorem step_beyond {g : Geo K} {lev : ℕ} (hl : ∀ d, g.lo lev d ≤ g.hi lev d) {c : Cell} {d : Fin 3} {i : ℤ} (hi : Ok1 g lev c d i) (s : Fin 3 × Bool)
    (h : g.beyond lev s (Function.update c d i) = true) : g.beyond lev s c = true := by
  obtain ⟨e, b⟩ := s
  by_cases hed : e = d
  · subst hed
    exfalso
    cases b with
    | false =>
      obtain ⟨hp, hb⟩ := beyond_lo.mp h
      have := (ok1_inside hl hi hp).1
      simp at hb
      omega
    | true =>
      obtain ⟨hp, hb⟩ := beyond_hi.mp h
      have := (ok1_inside hl hi hp).2
      simp at hb
      omega
  · rw [← h]
    exact (beyond_coord (Function.update_of_ne hed _ _) b).symm

/-- Beyond sides without given values, the filled array is its own extrapolation in every direction. -/
theorem fill_extend {g : Geo K} {mp : Mapper K} {junk : K} {L : Layout} {f : Fld K} (h : Ok g L) (hc : Covers g L) (hs : Same L f L f) {ng : Fin 3 → ℤ}
    (hg : ∀ d, 0 ≤ ng d) {lev b : ℕ} {c : Cell} (ha : InArray L ng lev b c) {k : ℕ} (hk : k < f.ncomp) (hx : ∀ s w, g.beyond lev s c = true → g.side s.1 s.2 ≠ .given w) (d : Fin 3) :
    (fillpatch g mp junk L ng f).val lev b c k = g.extend lev (g.domain lev) d (fun c => (fillpatch g mp junk L ng f).val lev b c k) c := by
  have hl := lo_le_hi h lev
  obtain ⟨u, hu⟩ := extend_last g lev (g.domain lev) d (inner g mp junk L f lev k)
  rw [fillpatch_val h hc hs hg ha hk]
  have e : ∀ c', InArray L ng lev b c' → (∀ s w, g.beyond lev s c' = true → g.side s.1 s.2 ≠ .given w) →
      (fillpatch g mp junk L ng f).val lev b c' k = g.extend lev (g.domain lev) d u c' := by
    intro c' ha' hx'
    rw [fillpatch_val h hc hs hg ha' hk, Geo.bc, give_none hx', hu]
  rw [Geo.bc, give_none hx, hu, ← extend_idem hl (full_domain h lev c)]
  refine extend_congr hl (full_domain h lev c) (full_domain h lev c) fun i hi => (e _ ?_ fun s w hb => hx s w (step_beyond hl hi s hb)).symm
  exact step_array h hg ha hi

theorem extend_clamp {g : Geo K} {lev : ℕ} (hl : ∀ d, g.lo lev d ≤ g.hi lev d) {a : Box} {d : Fin 3} {v : Cell → K} {c : Cell} (hn : ¬ SlopeAt g lev d c) :
    g.extend lev a d v c = v (Function.update c d (g.clamp lev c d)) := by
  unfold Geo.extend
  dsimp only
  have hd := hl d
  by_cases h1 : g.beyond lev (d, false) c = true
  · simp only [if_pos h1]
    obtain ⟨hp, hb⟩ := beyond_lo.mp h1
    have e : g.clamp lev c d = g.lo lev d := by
      simp only [Geo.clamp, hp, Bool.false_eq_true, if_false]
      rw [min_eq_right (by omega), max_eq_left (by omega)]
    rw [e]
    cases hs : g.side d false with
    | extrap => rfl
    | given w => rfl
    | slope => exact absurd ⟨false, h1, hs⟩ hn
  simp only [if_neg h1]
  by_cases h2 : g.beyond lev (d, true) c = true
  · simp only [if_pos h2]
    obtain ⟨hp, hb⟩ := beyond_hi.mp h2
    have e : g.clamp lev c d = g.hi lev d := by
      simp only [Geo.clamp, hp, Bool.false_eq_true, if_false]
      rw [min_eq_left (by omega), max_eq_right (by omega)]
    rw [e]
    cases hs : g.side d true with
    | extrap => rfl
    | given w => rfl
    | slope => exact absurd ⟨true, h2, hs⟩ hn
  · simp only [if_neg h2]
    have e : g.clamp lev c d = c d := by
      unfold Geo.clamp
      split_ifs with hp
      · rfl
      · have hp : g.per d = false := by simpa using hp
        have n1 : ¬ c d < g.lo lev d := fun hh => h1 (beyond_lo.mpr ⟨hp, hh⟩)
        have n2 : ¬ g.hi lev d < c d := fun hh => h2 (beyond_hi.mpr ⟨hp, hh⟩)
        rw [min_eq_right (by omega), max_eq_right (by omega)]
    rw [e, Function.update_eq_self]

theorem bc_clamp {g : Geo K} {lev : ℕ} (hl : ∀ d, g.lo lev d ≤ g.hi lev d) {a : Box} {v : Cell → K} {c : Cell} (hn : ∀ d, ¬ SlopeAt g lev d c) (k : ℕ) :
    g.bc lev a v c k = g.give lev (v (g.clamp lev c)) c k := by
  unfold Geo.bc
  congr 1
  rw [extend_clamp hl (hn 2), extend_clamp hl (by rw [slopeAt_coord (c := c) (by simp)]; exact hn 1), extend_clamp hl (by rw [slopeAt_coord (c := c) (by simp)]; exact hn 0)]
  congr 1
  rw [clamp_coord (c := c) (d := 1) (by simp), clamp_coord (c := c) (d := 0) (by simp)]
  funext d
  fin_cases d <;> simp

/-- **C138**: beyond sides with extrapolation of order zero a ghost cell gets the value of the nearest cell of the domain; beyond one side with given values it gets the
given one, whatever the other sides are. -/
theorem ghost_beyond_side {g : Geo K} {mp : Mapper K} {junk : K} {L : Layout} {f : Fld K} (h : Ok g L) (hc : Covers g L) (hs : Same L f L f) {ng : Fin 3 → ℤ}
    (hg : ∀ d, 0 ≤ ng d) {lev b : ℕ} {c : Cell} (ha : InArray L ng lev b c) {k : ℕ} (hk : k < f.ncomp) :
    ((∀ s ∈ sides, g.beyond lev s c = true → g.side s.1 s.2 = .extrap) →
      (fillpatch g mp junk L ng f).val lev b c k = (fillpatch g mp junk L ng f).val lev b (g.clamp lev c) k) ∧
    (∀ s ∈ sides, g.beyond lev s c = true → ∀ w, g.side s.1 s.2 = .given w → (∀ s' ∈ sides, g.beyond lev s' c = true → s' ≠ s → ∀ w', g.side s'.1 s'.2 ≠ .given w') →
      (fillpatch g mp junk L ng f).val lev b c k = w lev c k) := by
  have allsides : ∀ s : Fin 3 × Bool, s ∈ sides := by
    rintro ⟨d, b⟩
    fin_cases d <;> cases b <;> simp [sides]
  have e := fillpatch_val (mp := mp) (junk := junk) h hc hs hg ha hk
  constructor
  · intro hx
    have ec := fillpatch_val (mp := mp) (junk := junk) h hc hs hg (array_clamp h hg ha) hk
    rw [bc_within (within_clamp h lev c)] at ec
    rw [ec, e, bc_clamp (lo_le_hi h lev), give_none]
    · intro s w hb hw
      rw [hx s (allsides s) hb] at hw
      cases hw
    · rintro d ⟨hi, hb, hw⟩
      rw [hx _ (allsides _) hb] at hw
      cases hw
  · intro s hs hb w hw ho
    rw [e]
    unfold Geo.bc Geo.give
    have nb : ∀ (l : List (Fin 3 × Bool)) (u : K), (∀ s' ∈ l, s' ∈ sides) → (s ∈ l ∨ u = w lev c k) → l.foldl (fun v s => if g.beyond lev s c then match g.side s.1 s.2 with
        | .given w => w lev c k
        | _ => v else v) u = w lev c k := by
      intro l
      induction l with
      | nil =>
        intro u _ hu
        rcases hu with hu | hu
        · cases hu
        · exact hu
      | cons a l ih =>
        intro u hl hu
        rw [List.foldl_cons]
        refine ih _ (fun s hs => hl s (List.mem_cons_of_mem _ hs)) ?_
        by_cases has : a = s
        · subst has
          right
          rw [if_pos hb, hw]
        · rcases hu with hu | hu
          · left
            rcases List.mem_cons.mp hu with rfl | hu
            · exact absurd rfl has
            · exact hu
          · right
            split_ifs with hba
            · have := ho a (hl a (List.mem_cons_self ..)) hba has
              cases e : g.side a.1 a.2 with
              | given w' => exact absurd e (this w')
              | extrap => exact hu
              | slope => exact hu
            · exact hu
    exact nb sides _ (fun _ h => h) (Or.inl hs)

/-- **C138**: beyond a side with hoextrap the ghost cell next to the side gets the combination 15/8, -10/8, 3/8 of the three cells inside on its line, a ghost cell farther
out gets the first cell inside.  Where sides meet this holds on the line in each direction. -/
theorem ghost_beyond_slope {g : Geo K} {mp : Mapper K} {junk : K} {L : Layout} {f : Fld K} (h : Ok g L) (hc : Covers g L) (hs : Same L f L f) {ng : Fin 3 → ℤ}
    (hg : ∀ d, 0 ≤ ng d) {lev b : ℕ} {c : Cell} (ha : InArray L ng lev b c) {k : ℕ} (hk : k < f.ncomp) (hx : ∀ s w, g.beyond lev s c = true → g.side s.1 s.2 ≠ .given w) (d : Fin 3)
    (hp : g.per d = false) (line : ℤ → K) (hline : line = fun i => (fillpatch g mp junk L ng f).val lev b (Function.update c d i) k) :
    (g.side d false = .slope → c d = g.lo lev d - 1 →
      line (c d) = (15 * line (g.lo lev d) - 10 * line (g.lo lev d + 1) + 3 * line (g.lo lev d + 2)) / 8) ∧
    (g.side d false = .slope → c d < g.lo lev d - 1 → line (c d) = line (g.lo lev d)) ∧
    (g.side d true = .slope → c d = g.hi lev d + 1 →
      line (c d) = (15 * line (g.hi lev d) - 10 * line (g.hi lev d - 1) + 3 * line (g.hi lev d - 2)) / 8) ∧
    (g.side d true = .slope → g.hi lev d + 1 < c d → line (c d) = line (g.hi lev d)) := by
  have e := fill_extend (mp := mp) (junk := junk) h hc hs hg ha hk hx d
  have hd := lo_le_hi h lev d
  have e0 : line (c d) = (fillpatch g mp junk L ng f).val lev b c k := by rw [hline]; simp only [Function.update_eq_self]
  rw [e0, e, hline]
  unfold Geo.extend
  refine ⟨fun h1 h2 => ?_, fun h1 h2 => ?_, fun h1 h2 => ?_, fun h1 h2 => ?_⟩
  · have hb : g.beyond lev (d, false) c = true := beyond_lo.mpr ⟨hp, by omega⟩
    have ht := thick_level h lev h1
    simp only [hb, h1, if_true]
    rw [if_neg (by omega), if_pos (le_min (by exact ht) ht)]
  · have hb : g.beyond lev (d, false) c = true := beyond_lo.mpr ⟨hp, by omega⟩
    simp only [hb, h1, if_true]
    rw [if_pos h2]
  · have hb : g.beyond lev (d, true) c = true := beyond_hi.mpr ⟨hp, by omega⟩
    have hb' : g.beyond lev (d, false) c = false := by
      by_contra hh
      have := (beyond_lo.mp (by simpa using hh)).2
      omega
    have ht := thick_level h lev h1
    simp only [hb, hb', h1, if_true, Bool.false_eq_true, if_false]
    rw [if_neg (by omega), if_pos (show max ((g.domain lev).lo d) (g.lo lev d) ≤ g.hi lev d - 2 from max_le (show g.lo lev d ≤ _ by omega) (by omega))]
  · have hb : g.beyond lev (d, true) c = true := beyond_hi.mpr ⟨hp, by omega⟩
    have hb' : g.beyond lev (d, false) c = false := by
      by_contra hh
      have := (beyond_lo.mp (by simpa using hh)).2
      omega
    simp only [hb, hb', h1, if_true, Bool.false_eq_true, if_false]
    rw [if_pos h2]

/-- **C138**: with hoextrap the ghost cell next to a side holds the value on the side, half a cell outside of the first cell centre, exactly for profiles of second degree. -/
theorem slope_exact [CharZero K] {g : Geo K} {mp : Mapper K} {junk : K} {L : Layout} {f : Fld K} (h : Ok g L) (hc : Covers g L) (hs : Same L f L f) {ng : Fin 3 → ℤ}
    (hg : ∀ d, 0 ≤ ng d) {lev b : ℕ} {c : Cell} (ha : InArray L ng lev b c) {k : ℕ} (hk : k < f.ncomp) (hx : ∀ s w, g.beyond lev s c = true → g.side s.1 s.2 ≠ .given w) (d : Fin 3)
    (hp : g.per d = false) (p q r : K) (hl : ∀ i, g.lo lev d ≤ i → i ≤ g.hi lev d →
      (fillpatch g mp junk L ng f).val lev b (Function.update c d i) k = p + q * (i : K) + r * (i : K) ^ 2) :
    (g.side d false = .slope → c d = g.lo lev d - 1 → (fillpatch g mp junk L ng f).val lev b c k = p + q * ((g.lo lev d : K) - 1 / 2) + r * ((g.lo lev d : K) - 1 / 2) ^ 2) ∧
    (g.side d true = .slope → c d = g.hi lev d + 1 → (fillpatch g mp junk L ng f).val lev b c k = p + q * ((g.hi lev d : K) + 1 / 2) + r * ((g.hi lev d : K) + 1 / 2) ^ 2) := by
  obtain ⟨a1, -, a3, -⟩ := ghost_beyond_slope (mp := mp) (junk := junk) h hc hs hg ha hk hx d hp _ rfl
  have hself : Function.update c d (c d) = c := Function.update_eq_self ..
  constructor
  · intro h1 h2
    have ht := thick_level h lev h1
    have := a1 h1 h2
    rw [hself] at this
    rw [this, hl _ le_rfl (by omega), hl _ (by omega) (by omega), hl _ (by omega) (by omega)]
    push_cast
    field_simp
    ring
  · intro h1 h2
    have ht := thick_level h lev h1
    have := a3 h1 h2
    rw [hself] at this
    rw [this, hl _ (by omega) le_rfl, hl _ (by omega) (by omega), hl _ (by omega) (by omega)]
    push_cast
    field_simp
    ring

/-- **C138**: the filled arrays do not depend on how the cells are cut into boxes: a cell has the same value in every array that has it, with every cutting.

Partial (C138). Missing: in boxes thinner than three cells beside `hoextrap` it is false (`thin_boxes_differ`). -/
theorem decomposition_free_partial {g : Geo K} {mp : Mapper K} {junk : K} {L L' : Layout} {f f' : Fld K} (h : Ok g L) (h' : Ok g L') (hc : Covers g L) (hf : Same L f L f)
    (hf' : Same L' f' L' f') (hs : Same L f L' f') {ng ng' : Fin 3 → ℤ} (hg : ∀ d, 0 ≤ ng d) (hg' : ∀ d, 0 ≤ ng' d) {lev b b' : ℕ} {c : Cell} (ha : InArray L ng lev b c)
    (ha' : InArray L' ng' lev b' c) {k : ℕ} (hk : k < f.ncomp) : (fillpatch g mp junk L ng f).val lev b c k = (fillpatch g mp junk L' ng' f').val lev b' c k := by
  have hc' : Covers g L' := fun c hd => ((hs.2 0 c).1).1 (hc c hd)
  have e := fillpatch_val (mp := mp) (junk := junk) h hc hf hg ha hk
  have e' := fillpatch_val (mp := mp) (junk := junk) h' hc' hf' hg' ha' (k := k) (by rw [← hs.1]; exact hk)
  rw [e, e', inner_same hs]

/-- **C138**: so any operation that reads the filled array up to `ng` cells away gives the same result in every cell, whatever the cutting. -/
theorem stencil_free {g : Geo K} {mp : Mapper K} {junk : K} {L L' : Layout} {f f' : Fld K} (h : Ok g L) (h' : Ok g L') (hc : Covers g L) (hf : Same L f L f)
    (hf' : Same L' f' L' f') (hs : Same L f L' f') {ng : Fin 3 → ℤ} (hg : ∀ d, 0 ≤ ng d) {R : Type*} (op : (Cell → ℕ → K) → Cell → R)
    (hop : ∀ u v c, (∀ c' k, (∀ d, c d - ng d ≤ c' d ∧ c' d ≤ c d + ng d) → k < f.ncomp → u c' k = v c' k) → op u c = op v c)
    {lev b b' : ℕ} {c : Cell} (hv : Valid L lev b c) (hv' : Valid L' lev b' c) :
    op ((fillpatch g mp junk L ng f).val lev b) c = op ((fillpatch g mp junk L' ng f').val lev b') c := by
  refine hop _ _ c fun c' k hc' hk => decomposition_free_partial h h' hc hf hf' hs hg hg ?_ ?_ hk
  · obtain ⟨l, x, h1, h2, h3⟩ := hv
    exact ⟨l, x, h1, h2, fun d => by have := h3 d; have := hc' d; omega⟩
  · obtain ⟨l, x, h1, h2, h3⟩ := hv'
    exact ⟨l, x, h1, h2, fun d => by have := h3 d; have := hc' d; omega⟩

/-- **C138**: setting the boundary values again after filling changes nothing. -/
theorem physbc_after_fill {g : Geo K} {mp : Mapper K} {junk : K} {L : Layout} {f : Fld K} (h : Ok g L) (hc : Covers g L) (hs : Same L f L f) {ng : Fin 3 → ℤ}
    (hg : ∀ d, 0 ≤ ng d) : fillphysbc g L ng (fillpatch g mp junk L ng f) = fillpatch g mp junk L ng f := by
  set F := fillpatch g mp junk L ng f with hF
  have hn : F.ncomp = f.ncomp := (levels_any_order h hc hs hg _).1
  have one : ∀ lev, physLevel g L ng F lev = F := by
    intro lev
    have ex : ∀ a b : Fld K, a.ncomp = b.ncomp → a.ngrow = b.ngrow → a.val = b.val → a = b := by
      rintro ⟨⟩ ⟨⟩ rfl rfl rfl; rfl
    refine ex _ _ rfl rfl ?_
    funext lev' b c k
    unfold physLevel physBox
    dsimp only
    by_cases hl : lev' = lev
    · subst hl
      rw [if_pos rfl]
      split_ifs with hi
      · obtain ⟨h1, h2, h3⟩ := hi
        have ha := (inside_iff L ng lev' b c).1 h1
        rw [hn] at h3
        have e := fillpatch_val (mp := mp) (junk := junk) h hc hs hg ha h3
        rw [hF, e]
        refine bc_congr (lo_le_hi h lev') (full_array h hg ha) (full_domain h lev' c) (fun c' hr => ?_) k
        rw [fillpatch_val h hc hs hg (reach_array h hg ha hr) h3, bc_within (reach_within (lo_le_hi h lev') hr)]
      · rfl
    · rw [if_neg hl]
  unfold fillphysbc
  induction List.range L.length with
  | nil => rfl
  | cons a l ih => rw [List.foldl_cons, one]; exact ih

section Order
variable [LinearOrder K] [IsStrictOrderedRing K]

/-- The interpolation stays in the range of the values that it reads, at most one coarse cell away. -/
def Mapper.Bounded (mp : Mapper K) (ratio : ℤ) : Prop := ∀ (u : Cell → ℕ → K) (c : Cell) (k : ℕ) (a b : K),
  (∀ c', (∀ d, c d / ratio - 1 ≤ c' d ∧ c' d ≤ c d / ratio + 1) → a ≤ u c' k ∧ u c' k ≤ b) → a ≤ mp u c k ∧ mp u c k ≤ b

/-- Around the arrays of a level, all coarse cells that interpolation reads, or that are extrapolated to cells it reads, have data of the level below. -/
def Nested (g : Geo K) (L : Layout) (ng : Fin 3 → ℤ) : Prop := ∀ l b c, InArray L ng (l + 1) b c → Within g (l + 1) c → (∀ b' c', Image g (l + 1) c c' → ¬ Valid L (l + 1) b' c') →
  ∀ c' : Cell, (∀ d, c d / g.ratio - 1 ≤ c' d ∧ c' d ≤ c d / g.ratio + 1) → ∀ c'', Reach g l c' c'' → ∃ b' c₀, Image g l c'' c₀ ∧ Valid L l b' c₀

theorem reach_clamp (g : Geo K) (lev : ℕ) (c : Cell) : Reach g lev c (g.clamp lev c) := fun _ => Or.inl rfl

/-- **C138**: if no side has hoextrap and all data of boxes and sides are in a range, then so are all ghost cells; what memory held before is never read.

Partial (C138). Missing: with `hoextrap` it is false (`slope_overshoots`). -/
theorem fill_bounded_partial {g : Geo K} {mp : Mapper K} {junk : K} {L : Layout} {f : Fld K} (h : Ok g L) (hc : Covers g L) (hs : Same L f L f) {ng : Fin 3 → ℤ}
    (hg : ∀ d, 0 ≤ ng d) (hm : mp.Bounded g.ratio) (hn : Nested g L ng) (hx : ∀ d hi, g.side d hi ≠ .slope) {k : ℕ} (hk : k < f.ncomp) {lo hi : K}
    (hv : ∀ lev b c, Valid L lev b c → lo ≤ f.val lev b c k ∧ f.val lev b c k ≤ hi)
    (hb : ∀ s ∈ sides, ∀ w, g.side s.1 s.2 = .given w → ∀ lev c, lo ≤ w lev c k ∧ w lev c k ≤ hi) {lev b : ℕ} {c : Cell} (ha : InArray L ng lev b c) :
    lo ≤ (fillpatch g mp junk L ng f).val lev b c k ∧ (fillpatch g mp junk L ng f).val lev b c k ≤ hi := by
  have hno : ∀ lev c d, ¬ SlopeAt g lev d c := fun lev c d ⟨b, _, e⟩ => hx d b e
  have bcb : ∀ lev c v, lo ≤ v ∧ v ≤ hi → lo ≤ g.give lev v c k ∧ g.give lev v c k ≤ hi := by
    intro lev c
    have nb : ∀ (l : List (Fin 3 × Bool)) (v : K), (∀ s ∈ l, s ∈ sides) → lo ≤ v ∧ v ≤ hi → lo ≤ l.foldl (fun v s => if g.beyond lev s c then match g.side s.1 s.2 with
        | .given w => w lev c k
        | _ => v else v) v ∧ l.foldl (fun v s => if g.beyond lev s c then match g.side s.1 s.2 with
        | .given w => w lev c k
        | _ => v else v) v ≤ hi := by
      intro l
      induction l with
      | nil => intro v _ hv; exact hv
      | cons a l ih =>
        intro v hl hv
        rw [List.foldl_cons]
        refine ih _ (fun s hs => hl s (List.mem_cons_of_mem _ hs)) ?_
        split_ifs
        · cases e : g.side a.1 a.2 with
          | extrap => exact hv
          | slope => exact hv
          | given w => exact hb a (hl a (List.mem_cons_self ..)) w e lev c
        · exact hv
    exact fun v hv => nb sides v (fun _ h => h) hv
  rw [fillpatch_val h hc hs hg ha hk, bc_clamp (lo_le_hi h lev) (hno lev c)]
  refine bcb lev c _ ?_
  unfold inner
  cases eo : held g L f lev (g.clamp lev c) with
  | some u =>
    obtain ⟨b', c', -, hb', rfl⟩ := held_some eo
    exact hv _ _ _ hb'
  | none =>
    cases lev with
    | zero =>
      obtain ⟨b, hb⟩ := hc _ (wrap_dom h (within_clamp h 0 c))
      exact absurd hb (held_none h eo b _ (image_wrap g 0 _))
    | succ l =>
      refine hm _ _ k lo hi fun c' hc' => ?_
      obtain ⟨b', c₀, hi', hb'⟩ := hn l b (g.clamp (l + 1) c) (array_clamp h hg ha) (within_clamp h _ c) (held_none h eo) c' hc' _ (reach_clamp g l c')
      unfold coarse
      rw [bc_clamp (lo_le_hi h l) (hno l c')]
      refine bcb l c' _ ?_
      cases eh : held g L f l (g.clamp l c') with
      | none => exact absurd hb' (held_none h eh b' c₀ hi')
      | some w =>
        obtain ⟨b2, c2, -, h2, rfl⟩ := held_some eh
        exact hv _ _ _ h2

theorem bc_const {g : Geo K} {lev : ℕ} {box : Box} {c : Cell} {k : ℕ} {a : K} (hb : ∀ s ∈ sides, ∀ w, g.side s.1 s.2 = .given w → ∀ lev c, w lev c k = a) :
    g.bc lev box (fun _ => a) c k = a := by
  have ec : ∀ d, g.extend lev box d (fun _ => a) = fun _ => a := by
    intro d
    funext c
    unfold Geo.extend
    dsimp only
    have e8 : (15 * a - 10 * a + 3 * a) / 8 = a := by rw [div_eq_iff (by norm_num)]; ring
    have e2 : (3 * a - a) / 2 = a := by rw [div_eq_iff (by norm_num)]; ring
    simp only [e8, e2, ite_self]
    split_ifs <;> first | rfl | (split <;> rfl)
  unfold Geo.bc
  rw [ec, ec, ec]
  unfold Geo.give
  have nb : ∀ (l : List (Fin 3 × Bool)), (∀ s ∈ l, s ∈ sides) → l.foldl (fun v s => if g.beyond lev s c then match g.side s.1 s.2 with
      | .given w => w lev c k
      | _ => v else v) a = a := by
    intro l
    induction l with
    | nil => intro _; rfl
    | cons s l ih =>
      intro hl
      rw [List.foldl_cons]
      have : (if g.beyond lev s c then match g.side s.1 s.2 with
        | .given w => w lev c k
        | _ => a else a) = a := by
        split_ifs
        · cases e : g.side s.1 s.2 with
          | extrap => rfl
          | slope => rfl
          | given w => exact hb s (hl s (List.mem_cons_self ..)) w e lev c
        · rfl
      rw [this]
      exact ih fun s hs => hl s (List.mem_cons_of_mem _ hs)
  exact nb sides fun _ h => h

/-- **C138**: a uniform field is uniform after filling, ghost cells included, also with hoextrap. -/
theorem fill_uniform {g : Geo K} {mp : Mapper K} {junk : K} {L : Layout} {f : Fld K} (h : Ok g L) (hc : Covers g L) (hs : Same L f L f) {ng : Fin 3 → ℤ}
    (hg : ∀ d, 0 ≤ ng d) (hm : mp.Bounded g.ratio) (hn : Nested g L ng) {k : ℕ} (hk : k < f.ncomp) {a : K} (hv : ∀ lev b c, Valid L lev b c → f.val lev b c k = a)
    (hb : ∀ s ∈ sides, ∀ w, g.side s.1 s.2 = .given w → ∀ lev c, w lev c k = a) {lev b : ℕ} {c : Cell} (ha : InArray L ng lev b c) :
    (fillpatch g mp junk L ng f).val lev b c k = a := by
  rw [fillpatch_val h hc hs hg ha hk, bc_congr (v := fun _ => a) (lo_le_hi h lev) (full_domain h lev c) (full_domain h lev c) ?_ k]
  · exact bc_const hb
  intro c1 hr
  have hw := reach_within (lo_le_hi h lev) hr
  have ha1 := reach_array h hg ha hr
  unfold inner
  cases eo : held g L f lev c1 with
  | some u =>
    obtain ⟨b', c', -, hb', rfl⟩ := held_some eo
    exact hv _ _ _ hb'
  | none =>
    cases lev with
    | zero =>
      obtain ⟨b, hb⟩ := hc _ (wrap_dom h hw)
      exact absurd hb (held_none h eo b _ (image_wrap g 0 _))
    | succ l =>
      have key : ∀ c', (∀ d, c1 d / g.ratio - 1 ≤ c' d ∧ c' d ≤ c1 d / g.ratio + 1) → coarse g junk L f l c' k = a := by
        intro c' hc'
        unfold coarse
        rw [bc_congr (v := fun _ => a) (lo_le_hi h l) (full_domain h l c') (full_domain h l c') ?_ k]
        · exact bc_const hb
        intro c2 hr2
        obtain ⟨b', c₀, hi', hb'⟩ := hn l b c1 ha1 hw (held_none h eo) c' hc' c2 hr2
        cases eh : held g L f l c2 with
        | none => exact absurd hb' (held_none h eh b' c₀ hi')
        | some w =>
          obtain ⟨b2, c3, -, h2, rfl⟩ := held_some eh
          exact hv _ _ _ h2
      have := hm (coarse g junk L f l) c1 k a a fun c' hc' => by rw [key c' hc']; exact ⟨le_rfl, le_rfl⟩
      exact le_antisymm this.2 this.1

end Order

/-- **C138**, disagreement: filling with a constant, described as filling newly created grids, replaces the data of the boxes themselves whenever ghost cells are
filled. -/
theorem const_fill_overwrites {L : Layout} {f : Fld K} (hg : ∀ d, 0 ≤ f.ngrow d) (v : K) {lev b : ℕ} {c : Cell} (hv : Valid L lev b c) {k : ℕ} (hk : k < f.ncomp) :
    (constLevel v L f lev).val lev b c k = v := by
  unfold constLevel
  dsimp only
  rw [if_pos ⟨rfl, (inside_iff L f.ngrow lev b c).2 (valid_array hg hv), hk⟩]

/-! ### Examples: a channel periodic in y, with given values on the low side in x, two boxes and a refined box -/

def chan : Geo ℚ := ⟨⟨![0, 0, 0], ![7, 3, 3]⟩, 2, ![false, true, false], fun d hi => if d = 0 ∧ hi = false then .given fun _ c k => 50 + c 1 + k else .extrap, none⟩

def chanBoxes : Layout := [[⟨![0, 0, 0], ![3, 3, 3]⟩, ⟨![4, 0, 0], ![7, 3, 3]⟩], [⟨![6, 2, 2], ![9, 5, 5]⟩]]

def chanOne : Layout := [[⟨![0, 0, 0], ![7, 3, 3]⟩], [⟨![6, 2, 2], ![9, 3, 5]⟩, ⟨![6, 4, 2], ![9, 5, 5]⟩]]

def chanData : Fld ℚ := ⟨2, fun _ => 1, fun lev _ c k => (c 0 + 10 * c 1 + 100 * c 2) / 2 ^ lev + 1000 * k⟩

/-- Piecewise constant interpolation. -/
def flatMap : Mapper ℚ := fun u c k => u (fun d => c d / 2) k

theorem chan_ok : Ok chan chanBoxes := by
  refine ⟨by decide, by decide, fun lev l x h hx => ?_, fun d hi hs => by unfold chan at hs; dsimp only at hs; split_ifs at hs, fun d h => by cases h⟩
  match lev, h with
  | 0, h =>
    simp only [chanBoxes, List.getElem?_cons_zero, Option.some.injEq] at h
    subst h
    revert x
    unfold Geo.lo Geo.hi
    decide
  | 1, h =>
    simp only [chanBoxes, List.getElem?_cons_succ, List.getElem?_cons_zero, Option.some.injEq] at h
    subst h
    revert x
    unfold Geo.lo Geo.hi
    decide
  | n + 2, h => simp [chanBoxes] at h

theorem chan_one_ok : Ok chan chanOne := by
  refine ⟨by decide, by decide, fun lev l x h hx => ?_, fun d hi hs => by unfold chan at hs; dsimp only at hs; split_ifs at hs, fun d h => by cases h⟩
  match lev, h with
  | 0, h =>
    simp only [chanOne, List.getElem?_cons_zero, Option.some.injEq] at h
    subst h
    revert x
    unfold Geo.lo Geo.hi
    decide
  | 1, h =>
    simp only [chanOne, List.getElem?_cons_succ, List.getElem?_cons_zero, Option.some.injEq] at h
    subst h
    revert x
    unfold Geo.lo Geo.hi
    decide
  | n + 2, h => simp [chanOne] at h

theorem chan_dom {c : Cell} (h : InDom chan 0 c) : 0 ≤ c 0 ∧ c 0 ≤ 7 ∧ 0 ≤ c 1 ∧ c 1 ≤ 3 ∧ 0 ≤ c 2 ∧ c 2 ≤ 3 := by
  have a := h 0
  have b := h 1
  have e := h 2
  simp [Geo.lo, Geo.hi, chan] at a b e
  omega

theorem chan_covers : Covers chan chanBoxes := by
  intro c h
  obtain ⟨h1, h2, h3, h4, h5, h6⟩ := chan_dom h
  by_cases hc : c 0 ≤ 3
  · refine ⟨0, _, _, rfl, rfl, fun d => ?_⟩
    fin_cases d <;> simp <;> omega
  · refine ⟨1, _, _, rfl, rfl, fun d => ?_⟩
    fin_cases d <;> simp <;> omega

theorem chan_agrees (L : Layout) : Same L chanData L chanData := ⟨rfl, fun _ _ => ⟨Iff.rfl, fun _ _ _ _ => rfl⟩⟩

theorem chan_same : Same chanBoxes chanData chanOne chanData := by
  refine ⟨rfl, fun lev c => ⟨⟨?_, ?_⟩, fun _ _ _ _ => rfl⟩⟩
  · rintro ⟨b, l, x, h1, h2, h3⟩
    match lev, h1 with
    | 0, h1 =>
      simp only [chanBoxes, List.getElem?_cons_zero, Option.some.injEq] at h1
      subst h1
      refine ⟨0, _, _, rfl, rfl, fun d => ?_⟩
      match b, h2 with
      | 0, h2 => simp at h2; subst h2; have := h3 d; fin_cases d <;> simp at this ⊢ <;> omega
      | 1, h2 => simp at h2; subst h2; have := h3 d; fin_cases d <;> simp at this ⊢ <;> omega
      | n + 2, h2 => simp at h2
    | 1, h1 =>
      simp only [chanBoxes, List.getElem?_cons_succ, List.getElem?_cons_zero, Option.some.injEq] at h1
      subst h1
      match b, h2 with
      | 0, h2 =>
        simp at h2
        subst h2
        by_cases hc : c 1 ≤ 3
        · refine ⟨0, _, _, rfl, rfl, fun d => ?_⟩
          have := h3 d
          fin_cases d <;> simp at this ⊢ <;> omega
        · refine ⟨1, _, _, rfl, rfl, fun d => ?_⟩
          have := h3 d
          fin_cases d <;> simp at this ⊢ <;> omega
      | n + 1, h2 => simp at h2
    | n + 2, h1 => simp [chanBoxes] at h1
  · rintro ⟨b, l, x, h1, h2, h3⟩
    match lev, h1 with
    | 0, h1 =>
      simp only [chanOne, List.getElem?_cons_zero, Option.some.injEq] at h1
      subst h1
      match b, h2 with
      | 0, h2 =>
        simp at h2
        subst h2
        by_cases hc : c 0 ≤ 3
        · refine ⟨0, _, _, rfl, rfl, fun d => ?_⟩
          have := h3 d
          fin_cases d <;> simp at this ⊢ <;> omega
        · refine ⟨1, _, _, rfl, rfl, fun d => ?_⟩
          have := h3 d
          fin_cases d <;> simp at this ⊢ <;> omega
      | n + 1, h2 => simp at h2
    | 1, h1 =>
      simp only [chanOne, List.getElem?_cons_succ, List.getElem?_cons_zero, Option.some.injEq] at h1
      subst h1
      refine ⟨0, _, _, rfl, rfl, fun d => ?_⟩
      match b, h2 with
      | 0, h2 => simp at h2; subst h2; have := h3 d; fin_cases d <;> simp at this ⊢ <;> omega
      | 1, h2 => simp at h2; subst h2; have := h3 d; fin_cases d <;> simp at this ⊢ <;> omega
      | n + 2, h2 => simp at h2
    | n + 2, h1 => simp [chanOne] at h1

/-- The hypotheses of `decomposition_free_partial` and `stencil_free` hold here. -/
example (c : Cell) (h : InArray chanBoxes 1 1 0 c) (h' : InArray chanOne 1 1 1 c) :
    (fillpatch chan flatMap 7 chanBoxes 1 chanData).val 1 0 c 0 = (fillpatch chan flatMap 7 chanOne 1 chanData).val 1 1 c 0 :=
  decomposition_free_partial chan_ok chan_one_ok chan_covers (chan_agrees _) (chan_agrees _) chan_same (by decide) (by decide) h h' (by decide)

/-- A neighbour's cell, a cell a period away, cells beyond the sides with and without given values, an interpolated cell. -/
example : (let F := fillpatch chan flatMap 7 chanBoxes 1 chanData
    (F.val 0 0 ![4, 1, 1] 1, F.val 0 1 ![5, 4, 1] 0, F.val 0 0 ![-1, 2, 1] 1, F.val 0 1 ![8, 3, 4] 0, F.val 1 0 ![5, 3, 3] 0)) = (1114, 105, 53, 337, 112) := by
  decide +kernel

theorem flatMap_bounded : flatMap.Bounded 2 := by
  intro u c k a b h
  exact h _ fun d => ⟨by omega, by omega⟩

theorem chan_nested : Nested chan chanBoxes 1 := by
  intro l b c ha _ _ c' hc' c'' hr
  obtain ⟨bx, x, h1, h2, h3⟩ := ha
  match l, h1 with
  | 0, h1 =>
    obtain ⟨b', hb'⟩ := chan_covers _ (wrap_dom chan_ok (reach_within (lo_le_hi chan_ok 0) hr))
    exact ⟨b', _, image_wrap chan 0 c'', hb'⟩
  | n + 1, h1 => simp [chanBoxes] at h1

/-- The same channel with one given value on all sides. -/
def chanFlat : Geo ℚ := ⟨chan.dom, chan.ratio, chan.per, fun _ _ => .given fun _ _ _ => 3, none⟩

def flatData : Fld ℚ := ⟨1, fun _ => 1, fun _ _ _ _ => 3⟩

example (lev b : ℕ) (c : Cell) (h : InArray chanBoxes 1 lev b c) : (fillpatch chanFlat flatMap 7 chanBoxes 1 flatData).val lev b c 0 = 3 := by
  have h1 : Ok chanFlat chanBoxes := ⟨chan_ok.ratio, chan_ok.dom, fun lev l x h1 h2 d => chan_ok.box lev l x h1 h2 d, fun d hi hs => by simp [chanFlat] at hs, fun d h => by cases h⟩
  have h2 : Covers chanFlat chanBoxes := fun c hc => chan_covers c fun d => hc d
  have h3 : Same chanBoxes flatData chanBoxes flatData := ⟨rfl, fun _ _ => ⟨Iff.rfl, fun _ _ _ _ => rfl⟩⟩
  have h4 : Nested chanFlat chanBoxes 1 := by
    intro l b c ha _ _ c' hc' c'' hr
    obtain ⟨bx, x, e1, -, -⟩ := ha
    match l, e1 with
    | 0, _ =>
      obtain ⟨b', hb'⟩ := h2 _ (wrap_dom h1 (reach_within (lo_le_hi h1 0) hr))
      exact ⟨b', _, image_wrap chanFlat 0 c'', hb'⟩
    | n + 1, e1 => simp [chanBoxes] at e1
  refine fill_uniform h1 h2 h3 (by decide) flatMap_bounded h4 (k := 0) (by decide) (fun _ _ _ _ => rfl) (fun s _ w hw lev c => ?_) h
  unfold chanFlat at hw
  simp only [Side.given.injEq] at hw
  rw [← hw]
  rfl

/-- The channel with hoextrap at the sides in z and at the high side in x. -/
def chanSlope : Geo ℚ := ⟨chan.dom, chan.ratio, chan.per, fun d hi => if d = 0 ∧ hi = false then .given fun _ c k => 50 + c 1 + k else .slope, none⟩

theorem chan_slope_thick (L : Layout) (h : Ok chan L) (ht : ∀ d, d ≠ 1 → ∀ (lev : ℕ) (l : List Box) (x : Box), L[lev]? = some l → x ∈ l → x.lo d + 2 ≤ x.hi d)
    (h1 : ∀ (lev : ℕ) (l : List Box) (x : Box), L[lev]? = some l → x ∈ l → x.lo 1 + 2 ≤ x.hi 1) : Ok chanSlope L :=
  ⟨h.ratio, h.dom, fun lev l x e1 e2 d => h.box lev l x e1 e2 d, fun d hi _ => ⟨by unfold chanSlope chan; fin_cases d <;> decide, by
    by_cases hd : d = 1
    · subst hd; exact h1
    · exact ht d hd⟩, fun d h => by cases h⟩

theorem chan_slope_ok : Ok chanSlope chanBoxes := by
  have key : ∀ d (lev : ℕ) (l : List Box) (x : Box), chanBoxes[lev]? = some l → x ∈ l → x.lo d + 2 ≤ x.hi d := by
    intro d lev l x h hx
    match lev, h with
    | 0, h =>
      simp only [chanBoxes, List.getElem?_cons_zero, Option.some.injEq] at h
      subst h
      revert x d
      decide
    | 1, h =>
      simp only [chanBoxes, List.getElem?_cons_succ, List.getElem?_cons_zero, Option.some.injEq] at h
      subst h
      revert x d
      decide
    | n + 2, h => simp [chanBoxes] at h
  exact chan_slope_thick _ chan_ok (fun d _ => key d) (key 1)

theorem chan_slope_covers : Covers chanSlope chanBoxes := fun c hc => chan_covers c fun d => hc d

/-- The hypotheses of `ghost_beyond_slope` hold here, also where two such sides meet. -/
example : (let F := fillpatch chanSlope flatMap 7 chanBoxes (fun _ => 2) chanData
    F.val 0 1 ![8, 2, 4] 0 = (15 * F.val 0 1 ![8, 2, 3] 0 - 10 * F.val 0 1 ![8, 2, 2] 0 + 3 * F.val 0 1 ![8, 2, 1] 0) / 8 ∧
    F.val 0 1 ![8, 2, 4] 0 = (15 * F.val 0 1 ![7, 2, 4] 0 - 10 * F.val 0 1 ![6, 2, 4] 0 + 3 * F.val 0 1 ![5, 2, 4] 0) / 8 ∧
    F.val 0 1 ![8, 2, 4] 0 = 15 / 2 + 20 + 350 ∧ F.val 0 1 ![9, 2, 3] 0 = 327) := by
  decide +kernel

example : (fillpatch chanSlope flatMap 7 chanBoxes 1 chanData).val 0 1 ![5, 2, 4] 0 = 25 + 100 * (7 / 2) := by
  have hp : chanSlope.per 2 = false := by decide
  have := (slope_exact (mp := flatMap) (junk := 7) chan_slope_ok chan_slope_covers (chan_agrees _) (by decide : ∀ d, 0 ≤ (1 : Fin 3 → ℤ) d) (lev := 0) (b := 1) (c := ![5, 2, 4])
    ⟨_, _, rfl, rfl, by decide⟩ (k := 0) (by decide) (by
      intro s w hb
      have : s = (2, true) := by
        revert hb s
        decide
      subst this
      simp [chanSlope]) 2 hp 25 100 0 (by
      intro i h1 h2
      have h1 : 0 ≤ i := by simpa [Geo.lo, chanSlope, chan] using h1
      have h2 : i ≤ 3 := by simpa [Geo.hi, chanSlope, chan] using h2
      interval_cases i <;> decide +kernel)).2 rfl (by decide)
  rw [this]
  have : chanSlope.hi 0 2 = 3 := by decide
  rw [this]
  norm_num

/-- Data that are 1 in every second layer. -/
def stripes : Fld ℚ := ⟨1, fun _ => 1, fun _ _ c _ => if c 2 % 2 = 0 then 1 else 0⟩

/-- **C138**, why volume fractions never have hoextrap (vof_bciface.H:53): all data are between 0 and 1, the ghost cell is not. -/
theorem slope_overshoots : (∀ lev b c k, 0 ≤ stripes.val lev b c k ∧ stripes.val lev b c k ≤ 1) ∧
    (fillpatch chanSlope flatMap 7 chanBoxes 1 stripes).val 0 1 ![5, 2, -1] 0 = 9 / 4 := by
  refine ⟨fun lev b c k => ?_, by decide +kernel⟩
  unfold stripes
  dsimp only
  split_ifs <;> norm_num

/-- The channel cut into layers of one and three cells. -/
def chanThin : Layout := [[⟨![0, 0, 0], ![7, 3, 0]⟩, ⟨![0, 0, 1], ![7, 3, 3]⟩]]

/-- The channel in one box. -/
def chanWhole : Layout := [[⟨![0, 0, 0], ![7, 3, 3]⟩]]

def squares : Fld ℚ := ⟨1, fun _ => 1, fun _ _ c _ => c 2 * c 2⟩

/-- **C138**, disagreement for boxes thinner than three cells (a blocking factor of one or two): with hoextrap the ghost cell depends on the cutting. -/
theorem thin_boxes_differ : (fillpatch chanSlope flatMap 7 chanThin 1 squares).val 0 0 ![5, 2, -1] 0 = -1 / 2 ∧
    (fillpatch chanSlope flatMap 7 chanWhole 1 squares).val 0 0 ![5, 2, -1] 0 = 1 / 4 := by decide +kernel

example : (constLevel 5 chanBoxes chanData 0).val 0 0 ![2, 2, 2] 0 = 5 ∧ chanData.val 0 0 ![2, 2, 2] 0 = 222 := by decide +kernel

end AmrWind.Fill
