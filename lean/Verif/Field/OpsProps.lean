import Mathlib.Tactic.Ring
import Mathlib.Tactic.FieldSimp
import Mathlib.Tactic.Linarith
import Mathlib.Tactic.NormNum
import Mathlib.Tactic.FinCases
import Mathlib.Algebra.BigOperators.Group.List.Basic
import Verif.Field.OpsModel

/-!
# C137: operations on whole fields change what is asked for and nothing else
-/

set_option linter.unusedSectionVars false

namespace AmrWind.FieldOps

variable {K : Type*} [Field K] [LinearOrder K] [IsStrictOrderedRing K]

/-! ### Specification -/

/-- `f'` is `f` but for the components `dc, …, dc + nc - 1` in the cells of the boxes of active levels grown by `ng`, where it is `new`. -/
def Updated (L : Layout) (ng : Fin 3 → ℤ) (dc nc : ℕ) (new : ℕ → ℕ → Cell → ℕ → K) (f f' : Fld K) : Prop :=
  f'.ncomp = f.ncomp ∧ f'.ngrow = f.ngrow ∧ ∀ lev b c k,
    ((∃ l x, L[lev]? = some l ∧ l[b]? = some x ∧ (∀ d, x.lo d - ng d ≤ c d ∧ c d ≤ x.hi d + ng d)) ∧ dc ≤ k ∧ k < dc + nc → f'.val lev b c k = new lev b c k) ∧
    (¬ ((∃ l x, L[lev]? = some l ∧ l[b]? = some x ∧ (∀ d, x.lo d - ng d ≤ c d ∧ c d ≤ x.hi d + ng d)) ∧ dc ≤ k ∧ k < dc + nc) → f'.val lev b c k = f.val lev b c k)

/-- The cell `c` of array `b` of level `lev` is a cell of a box. -/
def Valid (L : Layout) (lev b : ℕ) (c : Cell) : Prop := ∃ l x, L[lev]? = some l ∧ l[b]? = some x ∧ ∀ d, x.lo d ≤ c d ∧ c d ≤ x.hi d

/-- Magnitude of the vector of components. -/
noncomputable def magnitude (f : Fld ℝ) (lev b : ℕ) (c : Cell) : ℝ := Real.sqrt (((List.range f.ncomp).map fun n => f.val lev b c n ^ 2).sum)

/-! ### Lemmas -/

theorem inside_iff (L : Layout) (g : Fin 3 → ℤ) (lev b : ℕ) (c : Cell) :
    inside L g lev b c = true ↔ ∃ l x, L[lev]? = some l ∧ l[b]? = some x ∧ (∀ d, x.lo d - g d ≤ c d ∧ c d ≤ x.hi d + g d) := by
  unfold inside boxes
  cases hl : L[lev]? with
  | none => simp
  | some l =>
    simp only [Option.getD_some, Option.some.injEq, exists_and_left, exists_eq_left']
    cases hx : l[b]? with
    | none => simp
    | some x => simp [Box.has]

theorem inside_valid (L : Layout) (lev b : ℕ) (c : Cell) : inside L 0 lev b c = true ↔ Valid L lev b c := by
  rw [inside_iff]; simp [Valid]

theorem foldl_range {V : Type*} (dc : ℕ) (h : (ℕ → V) → ℕ → V) (d new : ℕ → V) (N : ℕ)
    (hh : ∀ n < N, ∀ w : ℕ → V, (∀ k, w k = if dc ≤ k ∧ k < dc + n then new k else d k) → h w n = new (dc + n)) :
    ∀ n ≤ N, ∀ k, (List.range n).foldl (fun w n => Function.update w (dc + n) (h w n)) d k = if dc ≤ k ∧ k < dc + n then new k else d k := by
  intro n
  induction n with
  | zero =>
    intro _ k
    rw [if_neg (by omega)]
    rfl
  | succ n ih =>
    intro hn k
    have ih := ih (by omega)
    rw [List.range_succ, List.foldl_append]
    simp only [List.foldl_cons, List.foldl_nil]
    rw [Function.update_apply, hh n (by omega) _ ih]
    by_cases hk : k = dc + n
    · subst hk; simp
    · rw [if_neg hk, ih]
      by_cases h1 : dc ≤ k ∧ k < dc + n
      · rw [if_pos h1, if_pos (by omega)]
      · rw [if_neg h1, if_neg (by omega)]

/-- Reading ahead of what is written, or apart from it. -/
def Apart (self : Bool) (sc dc nc : ℕ) : Prop := self = false ∨ dc ≤ sc ∨ sc + nc ≤ dc

theorem comps_spec {self : Bool} (g : K → K → K) {sc dc nc : ℕ} (d s : ℕ → K) (h : Apart self sc dc nc) (k : ℕ) :
    comps self g sc dc nc d s k = if dc ≤ k ∧ k < dc + nc then g (d k) ((if self then d else s) (k - dc + sc)) else d k := by
  unfold comps
  refine foldl_range dc (fun w n => g (w (dc + n)) (if self then w (sc + n) else s (sc + n))) d (fun k => g (d k) ((if self then d else s) (k - dc + sc))) nc ?_ nc le_rfl k
  intro n hn w hw
  have e : dc + n - dc + sc = sc + n := by omega
  rw [e, hw (dc + n), if_neg (by omega)]
  cases self
  · rfl
  · simp only [if_true]
    rw [hw (sc + n), if_neg]
    rcases h with h | h | h
    · cases h
    · omega
    · omega

theorem pointwise_spec {g : K → K → K} {L : Layout} {self : Bool} {dst src : Fld K} {sc dc nc : ℕ} {ng : Fin 3 → ℤ} (h : Apart self sc dc nc)
    (h1 : fits dst dc nc ng) (h2 : fits (if self then dst else src) sc nc ng) :
    ∃ f, pointwise g L self dst src sc dc nc ng = some f ∧
      Updated L ng dc nc (fun lev b c k => g (dst.val lev b c k) ((if self then dst else src).val lev b c (k - dc + sc))) dst f := by
  unfold pointwise
  rw [if_pos ⟨h1, h2⟩]
  refine ⟨_, rfl, rfl, rfl, fun lev b c k => ⟨?_, ?_⟩⟩
  · rintro ⟨hi, hk⟩
    have hi := (inside_iff L ng lev b c).2 hi
    dsimp only
    rw [if_pos hi, comps_spec g _ _ h, if_pos hk]
    cases self <;> rfl
  · intro hn
    dsimp only
    by_cases hi : inside L ng lev b c = true
    · rw [if_pos hi, comps_spec g _ _ h, if_neg]
      intro hk
      exact hn ⟨(inside_iff L ng lev b c).1 hi, hk⟩
    · rw [if_neg hi]

/-! ### C137 -/

/-- **C137**: sum, copy and both linear updates change the components asked for, in the cells of all boxes of the active levels and in as many ghost
cells as asked for, and nothing else. -/
theorem operations {L : Layout} {dst src : Fld K} {sc dc nc : ℕ} {ng : Fin 3 → ℤ} (a : K) (h1 : fits dst dc nc ng) (h2 : fits src sc nc ng) :
    (∃ f, add L false dst src sc dc nc ng = some f ∧ Updated L ng dc nc (fun l b c k => dst.val l b c k + src.val l b c (k - dc + sc)) dst f) ∧
    (∃ f, copy L false dst src sc dc nc ng = some f ∧ Updated L ng dc nc (fun l b c k => src.val l b c (k - dc + sc)) dst f) ∧
    (∃ f, saxpy a L false dst src sc dc nc ng = some f ∧ Updated L ng dc nc (fun l b c k => a * src.val l b c (k - dc + sc) + dst.val l b c k) dst f) ∧
    (∃ f, xpay a L false dst src sc dc nc ng = some f ∧ Updated L ng dc nc (fun l b c k => src.val l b c (k - dc + sc) + a * dst.val l b c k) dst f) := by
  refine ⟨pointwise_spec (Or.inl rfl) h1 h2, pointwise_spec (Or.inl rfl) h1 h2, ?_, pointwise_spec (Or.inl rfl) h1 h2⟩
  obtain ⟨f, e, u⟩ := pointwise_spec (g := fun d s => d + a * s) (L := L) (Or.inl rfl) h1 h2
  refine ⟨f, e, ?_⟩
  have : (fun l b c k => a * src.val l b c (k - dc + sc) + dst.val l b c k) = fun l b c k => dst.val l b c k + a * src.val l b c (k - dc + sc) := by
    funext l b c k; ring
  rw [this]; exact u

theorem ite_some_iff {α : Type*} {p : Prop} [Decidable p] {v : α} : (∃ f, (if p then some v else none) = some f) ↔ p := by
  by_cases h : p <;> simp [h]

/-- **C137**: an update stays within the arrays exactly if both fields have the components asked for and, in each direction, as many ghost
cells as asked for; a linear combination, exactly if all three have. -/
theorem defined_iff (L : Layout) (dst x y : Fld K) (a b : K) (xc yc dc nc : ℕ) (ng : Fin 3 → ℤ) :
    ((∃ f, copy L false dst x xc dc nc ng = some f) ↔
      (dc + nc ≤ dst.ncomp ∧ xc + nc ≤ x.ncomp) ∧ ∀ d, 0 ≤ ng d ∧ ng d ≤ dst.ngrow d ∧ ng d ≤ x.ngrow d) ∧
    ((∃ f, saxpy a L false dst x xc dc nc ng = some f) ↔
      (dc + nc ≤ dst.ncomp ∧ xc + nc ≤ x.ncomp) ∧ ∀ d, 0 ≤ ng d ∧ ng d ≤ dst.ngrow d ∧ ng d ≤ x.ngrow d) ∧
    ((∃ f, lincomb L false false dst a x xc b y yc dc nc ng = some f) ↔
      (dc + nc ≤ dst.ncomp ∧ xc + nc ≤ x.ncomp ∧ yc + nc ≤ y.ncomp) ∧
        ∀ d, 0 ≤ ng d ∧ ng d ≤ dst.ngrow d ∧ ng d ≤ x.ngrow d ∧ ng d ≤ y.ngrow d) := by
  have two : ∀ g : K → K → K, (∃ f, pointwise g L false dst x xc dc nc ng = some f) ↔
      (dc + nc ≤ dst.ncomp ∧ xc + nc ≤ x.ncomp) ∧ ∀ d, 0 ≤ ng d ∧ ng d ≤ dst.ngrow d ∧ ng d ≤ x.ngrow d := by
    intro g
    have e : (∃ f, pointwise g L false dst x xc dc nc ng = some f) ↔ fits dst dc nc ng ∧ fits x xc nc ng := by
      unfold pointwise
      exact ite_some_iff.trans (by simp)
    rw [e]
    unfold fits
    exact ⟨fun ⟨⟨h1, h2⟩, h3, h4⟩ => ⟨⟨h1, h3⟩, fun d => ⟨(h2 d).1, (h2 d).2, (h4 d).2⟩⟩,
      fun ⟨⟨h1, h3⟩, h⟩ => ⟨⟨h1, fun d => ⟨(h d).1, (h d).2.1⟩⟩, h3, fun d => ⟨(h d).1, (h d).2.2⟩⟩⟩
  refine ⟨two _, two _, ?_⟩
  have e : (∃ f, lincomb L false false dst a x xc b y yc dc nc ng = some f) ↔ fits dst dc nc ng ∧ fits x xc nc ng ∧ fits y yc nc ng := by
    unfold lincomb
    exact ite_some_iff.trans (by simp)
  rw [e]
  unfold fits
  exact ⟨fun ⟨⟨h1, h2⟩, ⟨h3, h4⟩, h5, h6⟩ => ⟨⟨h1, h3, h5⟩, fun d => ⟨(h2 d).1, (h2 d).2, (h4 d).2, (h6 d).2⟩⟩,
    fun ⟨⟨h1, h3, h5⟩, h⟩ => ⟨⟨h1, fun d => ⟨(h d).1, (h d).2.1⟩⟩, ⟨h3, fun d => ⟨(h d).1, (h d).2.2.1⟩⟩, h5, fun d => ⟨(h d).1, (h d).2.2.2⟩⟩⟩

example : ¬ ∃ f, copy (K := ℚ) [] false ⟨3, fun _ => 1, fun _ _ _ _ => 0⟩ ⟨3, ![1, 0, 1], fun _ _ _ _ => 1⟩ 0 0 3 (fun _ => 1) = some f := by
  rw [(defined_iff [] _ _ ⟨0, fun _ => 0, fun _ _ _ _ => 0⟩ 0 0 0 0 0 3 _).1]
  intro h
  have := (h.2 1).2.2
  simp at this

/-- **C137**: an update with the opposite coefficient takes a linear update back, in all cells. -/
theorem saxpy_undone {L : Layout} {dst src : Fld K} {sc dc nc : ℕ} {ng : Fin 3 → ℤ} (a : K) (h1 : fits dst dc nc ng) (h2 : fits src sc nc ng) :
    ((saxpy a L false dst src sc dc nc ng).bind fun d => saxpy (-a) L false d src sc dc nc ng) = some dst := by
  obtain ⟨f, e, u1, u2, u3⟩ := (operations (L := L) a h1 h2).2.2.1
  have hf : fits f dc nc ng := by unfold fits at h1 ⊢; rw [u1, u2]; exact h1
  obtain ⟨f', e', v1, v2, v3⟩ := (operations (L := L) (-a) hf h2).2.2.1
  rw [e, Option.bind_some, e']
  obtain ⟨n, w, v⟩ := f'
  obtain ⟨n0, w0, v0⟩ := dst
  simp only at *
  congr 1
  rw [Fld.mk.injEq]
  refine ⟨v1.trans u1, v2.trans u2, ?_⟩
  funext lev b c k
  by_cases h : (∃ l x, L[lev]? = some l ∧ l[b]? = some x ∧ (∀ d, x.lo d - ng d ≤ c d ∧ c d ≤ x.hi d + ng d)) ∧ dc ≤ k ∧ k < dc + nc
  · rw [(v3 lev b c k).1 h, (u3 lev b c k).1 h]; ring
  · rw [(v3 lev b c k).2 h, (u3 lev b c k).2 h]

/-- **C137**: with one field as source and destination a copy is right if it moves components down or to places apart.

Partial (C137). Missing: copies to higher overlapping components, where it is false (`copy_up_smears`). -/
theorem copy_within_partial {L : Layout} {dst src : Fld K} {sc dc nc : ℕ} {ng : Fin 3 → ℤ} (h : dc ≤ sc ∨ sc + nc ≤ dc) (h1 : fits dst dc nc ng) (h2 : fits dst sc nc ng) :
    ∃ f, copy L true dst src sc dc nc ng = some f ∧ Updated L ng dc nc (fun l b c k => dst.val l b c (k - dc + sc)) dst f :=
  pointwise_spec (Or.inr h) h1 h2

/-- **C137**, disagreement: moved up by one component, all components become the first. -/
theorem copy_up_smears {L : Layout} {dst src : Fld K} {sc nc : ℕ} {ng : Fin 3 → ℤ} (h1 : fits dst (sc + 1) nc ng) :
    ∃ f, copy L true dst src sc (sc + 1) nc ng = some f ∧ Updated L ng (sc + 1) nc (fun l b c _ => dst.val l b c sc) dst f := by
  have h2 : fits dst sc nc ng := ⟨by have := h1.1; omega, h1.2⟩
  have key : ∀ d s : ℕ → K, ∀ k, comps true (fun _ s => s) sc (sc + 1) nc d s k = if sc + 1 ≤ k ∧ k < sc + 1 + nc then d sc else d k := by
    intro d s k
    refine foldl_range (sc + 1) (fun w n => w (sc + n)) d (fun _ => d sc) nc ?_ nc le_rfl k
    intro n hn w hw
    rw [hw]
    by_cases h0 : n = 0
    · subst h0; rw [if_neg (by omega), Nat.add_zero]
    · rw [if_pos (by omega)]
  unfold copy pointwise
  rw [if_pos ⟨h1, h2⟩]
  refine ⟨_, rfl, rfl, rfl, fun lev b c k => ⟨?_, ?_⟩⟩
  · rintro ⟨hi, hk⟩
    dsimp only
    rw [if_pos ((inside_iff L ng lev b c).2 hi), key, if_pos hk]
  · intro hn
    dsimp only
    by_cases hi : inside L ng lev b c = true
    · rw [if_pos hi, key, if_neg]
      exact fun hk => hn ⟨(inside_iff L ng lev b c).1 hi, hk⟩
    · rw [if_neg hi]

theorem Updated.trans {L : Layout} {ng : Fin 3 → ℤ} {dc n : ℕ} {new : ℕ → ℕ → Cell → ℕ → K} {f f' f'' : Fld K} (h : Updated L ng dc n new f f')
    (h' : Updated L ng (dc + n) 1 new f' f'') : Updated L ng dc (n + 1) new f f'' := by
  obtain ⟨a1, a2, a3⟩ := h
  obtain ⟨b1, b2, b3⟩ := h'
  refine ⟨b1.trans a1, b2.trans a2, fun lev b c k => ⟨?_, ?_⟩⟩
  · rintro ⟨hi, hk⟩
    by_cases hk' : k = dc + n
    · exact (b3 lev b c k).1 ⟨hi, by omega, by omega⟩
    · rw [(b3 lev b c k).2 (by rintro ⟨-, h⟩; omega)]
      exact (a3 lev b c k).1 ⟨hi, by omega, by omega⟩
  · intro hn
    rw [(b3 lev b c k).2 (by rintro ⟨hi, h⟩; exact hn ⟨hi, by omega, by omega⟩)]
    exact (a3 lev b c k).2 (by rintro ⟨hi, h⟩; exact hn ⟨hi, by omega, by omega⟩)

theorem Updated.congr {L : Layout} {ng : Fin 3 → ℤ} {dc n : ℕ} {new new' : ℕ → ℕ → Cell → ℕ → K} {f f' : Fld K} (h : Updated L ng dc n new f f')
    (e : ∀ l b c k, dc ≤ k → k < dc + n → new l b c k = new' l b c k) : Updated L ng dc n new' f f' :=
  ⟨h.1, h.2.1, fun lev b c k => ⟨fun hh => ((h.2.2 lev b c k).1 hh).trans (e lev b c k hh.2.1 hh.2.2), (h.2.2 lev b c k).2⟩⟩

/-- **C137**: a division_partial is by the components one by one, or all by a single one; with any other number of divisors the run stops.

Partial (C137). Missing: division by a component of the field itself, where it is false (`division_by_own_component`). -/
theorem division_partial {L : Layout} {dst src : Fld K} {sc dc ns nd : ℕ} {ng : Fin 3 → ℤ} (h1 : fits dst dc nd ng) (h2 : fits src sc ns ng) :
    (nd = ns → ∃ f, divide L false dst src sc dc ns nd ng = .done f ∧
      Updated L ng dc nd (fun l b c k => dst.val l b c k / src.val l b c (k - dc + sc)) dst f) ∧
    (ns = 1 → ∃ f, divide L false dst src sc dc ns nd ng = .done f ∧ Updated L ng dc nd (fun l b c k => dst.val l b c k / src.val l b c sc) dst f) ∧
    (nd ≠ ns → ns ≠ 1 → L ≠ [] → divide L false dst src sc dc ns nd ng = .aborts) := by
  have eq : nd = ns → ∃ f, divide L false dst src sc dc ns nd ng = .done f ∧
      Updated L ng dc nd (fun l b c k => dst.val l b c k / src.val l b c (k - dc + sc)) dst f := by
    intro he
    obtain ⟨f, e, u⟩ := pointwise_spec (g := fun d s => d / s) (L := L) (self := false) (sc := sc) (Or.inl rfl) h1 (by rw [he]; exact h2)
    refine ⟨f, ?_, u⟩
    unfold divide
    rw [if_pos he]
    unfold quot
    rw [e]
  refine ⟨eq, fun hs => ?_, fun hne hs hL => ?_⟩
  · by_cases he : nd = ns
    · obtain ⟨f, e, u⟩ := eq he
      refine ⟨f, e, u.congr fun l b c k h3 h4 => ?_⟩
      have : k - dc + sc = sc := by omega
      rw [this]
    · subst hs
      have key : ∀ n ≤ nd, ∃ f, (List.range n).foldlM (fun d n => quot L false d src sc (dc + n) 1 ng) dst = some f ∧
          Updated L ng dc n (fun l b c k => dst.val l b c k / src.val l b c sc) dst f := by
        intro n
        induction n with
        | zero => intro _; exact ⟨dst, rfl, rfl, rfl, fun lev b c k => ⟨by rintro ⟨-, h⟩; omega, fun _ => rfl⟩⟩
        | succ n ih =>
          intro hn
          obtain ⟨f, e, u⟩ := ih (by omega)
          have hf : fits f (dc + n) 1 ng := by
            unfold fits at h1 ⊢
            rw [u.1, u.2.1]
            exact ⟨by omega, h1.2⟩
          obtain ⟨f', e', u'⟩ := pointwise_spec (g := fun d s => d / s) (L := L) (self := false) (sc := sc) (Or.inl rfl) hf h2
          refine ⟨f', ?_, ?_⟩
          · rw [List.range_succ, List.foldlM_append, e]
            have : quot L false f src sc (dc + n) 1 ng = some f' := e'
            simp [this]
          · refine u.trans (u'.congr fun l b c k h3 h4 => ?_)
            have hk : k = dc + n := by omega
            have e1 : k - (dc + n) + sc = sc := by omega
            rw [e1, (u.2.2 l b c k).2 (by rintro ⟨-, h⟩; omega)]
            rfl
      obtain ⟨f, e, u⟩ := key nd le_rfl
      refine ⟨f, ?_, u⟩
      unfold divide
      rw [if_neg he, if_pos rfl, e]
  · unfold divide
    rw [if_neg hne, if_neg hs, if_neg (by simpa using hL)]

/-- **C137**, disagreement: all components divided by the first one of the same field: the first becomes one and the others are not divided at all. -/
theorem division_by_own_component {L : Layout} {dst src : Fld K} {nd : ℕ} {ng : Fin 3 → ℤ} (hd : 2 ≤ nd) (h1 : fits dst 0 nd ng)
    (h0 : ∀ l b c, dst.val l b c 0 ≠ 0) :
    ∃ f, divide L true dst src 0 0 1 nd ng = .done f ∧ Updated L ng 0 nd (fun l b c k => if k = 0 then 1 else dst.val l b c k) dst f := by
  have key : ∀ n ≤ nd, ∃ f, (List.range n).foldlM (fun d n => quot L true d src 0 (0 + n) 1 ng) dst = some f ∧
      Updated L ng 0 n (fun l b c k => if k = 0 then 1 else dst.val l b c k) dst f := by
    intro n
    induction n with
    | zero => intro _; exact ⟨dst, rfl, rfl, rfl, fun lev b c k => ⟨by rintro ⟨-, h⟩; omega, fun _ => rfl⟩⟩
    | succ n ih =>
      intro hn
      obtain ⟨f, e, u⟩ := ih (by omega)
      have hf : ∀ m, m < nd → fits f m 1 ng := by
        intro m hm
        unfold fits at h1 ⊢
        rw [u.1, u.2.1]
        exact ⟨by omega, h1.2⟩
      have ap : Apart true 0 (0 + n) 1 := by
        rcases Nat.eq_zero_or_pos n with h | h
        · right; left; omega
        · right; right; omega
      obtain ⟨f', e', u'⟩ := pointwise_spec (g := fun d s => d / s) (L := L) (src := src) ap (hf (0 + n) (by omega)) (hf 0 (by omega))
      refine ⟨f', ?_, ?_⟩
      · rw [List.range_succ, List.foldlM_append, e]
        have : quot L true f src 0 (0 + n) 1 ng = some f' := e'
        simpa using this
      · have key2 : ∀ l b c k, (∃ l' x, L[l]? = some l' ∧ l'[b]? = some x ∧ (∀ d, x.lo d - ng d ≤ c d ∧ c d ≤ x.hi d + ng d)) → k = n →
            f.val l b c k / f.val l b c 0 = if k = 0 then 1 else dst.val l b c k := by
          intro l b c k hi hk
          rcases Nat.eq_zero_or_pos n with h | h
          · have hk0 : k = 0 := by omega
            subst hk0
            rw [(u.2.2 l b c 0).2 (by rintro ⟨-, h⟩; omega), if_pos rfl, div_self (h0 l b c)]
          · rw [(u.2.2 l b c k).2 (by rintro ⟨-, h⟩; omega), (u.2.2 l b c 0).1 ⟨hi, by omega, by omega⟩]
            show dst.val l b c k / (if (0 : ℕ) = 0 then 1 else dst.val l b c 0) = _
            rw [if_pos rfl, if_neg (by omega), div_one]
        refine u.trans ⟨u'.1, u'.2.1, fun l b c k => ⟨?_, (u'.2.2 l b c k).2⟩⟩
        rintro ⟨hi, hk⟩
        rw [(u'.2.2 l b c k).1 ⟨hi, hk⟩]
        have e1 : k - (0 + n) + 0 = 0 := by omega
        show f.val l b c k / f.val l b c (k - (0 + n) + 0) = _
        rw [e1]
        exact key2 l b c k hi (by omega)
  obtain ⟨f, e, u⟩ := key nd le_rfl
  refine ⟨f, ?_, u⟩
  unfold divide
  rw [if_neg (by omega), if_pos rfl, e]

/-- **C137**: the combination of two fields, either of which may be the destination itself with the same components. -/
theorem combination {L : Layout} {alx aly : Bool} {dst x y : Fld K} {a b : K} {xc yc dc nc : ℕ} {ng : Fin 3 → ℤ} (hx : alx = true → xc = dc) (hy : aly = true → yc = dc)
    (h1 : fits dst dc nc ng) (h2 : fits (if alx then dst else x) xc nc ng) (h3 : fits (if aly then dst else y) yc nc ng) :
    ∃ f, lincomb L alx aly dst a x xc b y yc dc nc ng = some f ∧ Updated L ng dc nc (fun l i c k =>
      a * (if alx then dst else x).val l i c (k - dc + xc) + b * (if aly then dst else y).val l i c (k - dc + yc)) dst f := by
  have key : ∀ lev i c k, (List.range nc).foldl (fun d n => Function.update d (dc + n)
          (a * (if alx then d (xc + n) else x.val lev i c (xc + n)) + b * (if aly then d (yc + n) else y.val lev i c (yc + n)))) (dst.val lev i c) k =
        if dc ≤ k ∧ k < dc + nc then a * (if alx then dst else x).val lev i c (k - dc + xc) + b * (if aly then dst else y).val lev i c (k - dc + yc)
        else dst.val lev i c k := by
    intro lev i c k
    refine foldl_range dc (fun d n => a * (if alx then d (xc + n) else x.val lev i c (xc + n)) + b * (if aly then d (yc + n) else y.val lev i c (yc + n)))
      (dst.val lev i c) (fun k => a * (if alx then dst else x).val lev i c (k - dc + xc) + b * (if aly then dst else y).val lev i c (k - dc + yc)) nc ?_ nc le_rfl k
    intro n hn w hw
    have e1 : dc + n - dc + xc = xc + n := by omega
    have e2 : dc + n - dc + yc = yc + n := by omega
    have e3 : w (dc + n) = dst.val lev i c (dc + n) := by rw [hw, if_neg (by omega)]
    rw [e1, e2]
    congr 2
    · cases alx
      · rfl
      · simp only [if_true]; rw [hx rfl, e3]
    · cases aly
      · rfl
      · simp only [if_true]; rw [hy rfl, e3]
  unfold lincomb
  rw [if_pos ⟨h1, h2, h3⟩]
  refine ⟨_, rfl, rfl, rfl, fun lev i c k => ⟨?_, ?_⟩⟩
  · rintro ⟨hi, hk⟩
    dsimp only
    rw [if_pos ((inside_iff L ng lev i c).2 hi), key, if_pos hk]
  · intro hn
    dsimp only
    by_cases hi : inside L ng lev i c = true
    · rw [if_pos hi, key, if_neg]
      exact fun hk => hn ⟨(inside_iff L ng lev i c).1 hi, hk⟩
    · rw [if_neg hi]

open scoped Classical in
/-- **C137**: a lower bound holds afterwards in every cell of every box, changes only smaller values of the one component, leaves ghost cells alone, and
setting it twice is the same as once. -/
theorem lower_bound_spec (L : Layout) (f : Fld K) (m : K) (comp : ℕ) :
    (∀ lev b c, Valid L lev b c → m ≤ (lowerBound L f m comp).val lev b c comp) ∧
    (∀ lev b c k, (lowerBound L f m comp).val lev b c k = if Valid L lev b c ∧ k = comp ∧ f.val lev b c k < m then m else f.val lev b c k) ∧
    lowerBound L (lowerBound L f m comp) m comp = lowerBound L f m comp := by
  have key : ∀ (f : Fld K) lev b c k, (lowerBound L f m comp).val lev b c k = if Valid L lev b c ∧ k = comp ∧ f.val lev b c k < m then m else f.val lev b c k := by
    intro f lev b c k
    unfold lowerBound
    dsimp only
    by_cases hv : Valid L lev b c
    · rw [if_pos ((inside_valid L lev b c).2 hv), Function.update_apply]
      by_cases hk : k = comp
      · subst hk
        rw [if_pos rfl]
        by_cases hm : f.val lev b c k < m
        · rw [if_pos ⟨hv, rfl, hm⟩, max_eq_left hm.le]
        · rw [if_neg (fun h => hm h.2.2), max_eq_right (not_lt.mp hm)]
      · rw [if_neg hk, if_neg (fun h => hk h.2.1)]
    · rw [if_neg (fun h => hv ((inside_valid L lev b c).1 h)), if_neg (fun h => hv h.1)]
  refine ⟨fun lev b c hv => ?_, key f, ?_⟩
  · rw [key]
    split_ifs with h
    · exact le_rfl
    · by_contra hh
      exact h ⟨hv, rfl, not_le.mp hh⟩
  · have : ∀ a b : Fld K, a.ncomp = b.ncomp → a.ngrow = b.ngrow → a.val = b.val → a = b := by
      rintro ⟨⟩ ⟨⟩ rfl rfl rfl; rfl
    refine this _ _ rfl rfl ?_
    funext lev b c k
    rw [key, key]
    split_ifs with h1 h2 <;> first | rfl | exact absurd h1.2.2 (lt_irrefl m)

theorem square_sum (n : ℕ) (v : ℕ → K) : square n v = ((List.range n).map fun k => v k ^ 2).sum := by
  unfold square
  induction n with
  | zero => rfl
  | succ n ih => rw [List.range_succ, List.foldl_append, ih]; simp [sq]

theorem mem_span {lo hi z : ℤ} : z ∈ span lo hi ↔ lo ≤ z ∧ z ≤ hi := by
  simp only [span, List.mem_map, List.mem_range]
  constructor
  · rintro ⟨n, h, rfl⟩; omega
  · rintro ⟨h1, h2⟩; exact ⟨(z - lo).toNat, by omega, by omega⟩

theorem mem_cells {b : Box} {c : Cell} : c ∈ b.cells ↔ ∀ d, b.lo d ≤ c d ∧ c d ≤ b.hi d := by
  simp only [Box.cells, List.mem_flatMap, List.mem_map, mem_span]
  constructor
  · rintro ⟨k, hk, j, hj, i, hi, rfl⟩ d
    fin_cases d
    · exact hi
    · exact hj
    · exact hk
  · intro h
    refine ⟨c 2, h 2, c 1, h 1, c 0, h 0, ?_⟩
    funext d
    fin_cases d <;> rfl

/-- A fold with `max` is the greatest of the start and the values. -/
theorem foldl_max {X : Type*} (g : X → ℝ) (l : List X) (s : ℝ) :
    s ≤ l.foldl (fun m x => max m (g x)) s ∧ (∀ x ∈ l, g x ≤ l.foldl (fun m x => max m (g x)) s) ∧
      (l.foldl (fun m x => max m (g x)) s = s ∨ ∃ x ∈ l, l.foldl (fun m x => max m (g x)) s = g x) := by
  induction l generalizing s with
  | nil => exact ⟨le_rfl, by simp, Or.inl rfl⟩
  | cons a l ih =>
    obtain ⟨h1, h2, h3⟩ := ih (max s (g a))
    simp only [List.foldl_cons]
    refine ⟨(le_max_left _ _).trans h1, ?_, ?_⟩
    · intro x hx
      rcases List.mem_cons.mp hx with rfl | hx
      · exact (le_max_right _ _).trans h1
      · exact h2 x hx
    · rcases h3 with h3 | ⟨x, hx, h3⟩
      · rcases max_choice s (g a) with hm | hm
        · left; rw [h3, hm]
        · right; exact ⟨a, List.mem_cons_self .., by rw [h3, hm]⟩
      · right; exact ⟨x, List.mem_cons_of_mem _ hx, h3⟩

theorem rankMax_spec (L : Layout) (own : ℕ → List ℕ) (f : Fld ℝ) :
    0 ≤ rankMax L own f ∧ (∀ lev b c, b ∈ own lev → Valid L lev b c → magnitude f lev b c ≤ rankMax L own f) ∧
      (rankMax L own f = 0 ∨ ∃ lev b c, b ∈ own lev ∧ Valid L lev b c ∧ rankMax L own f = magnitude f lev b c) := by
  set A : ℕ → ℕ → ℝ := fun lev b => match (boxes L lev)[b]? with
    | none => 0
    | some x => x.cells.foldl (fun mx c => max (Real.sqrt (square f.ncomp (f.val lev b c))) mx) 0 with hA
  have mg : ∀ lev b c, Real.sqrt (square f.ncomp (f.val lev b c)) = magnitude f lev b c := by
    intro lev b c; rw [square_sum]; rfl
  have cellsp : ∀ lev b, (∀ c, Valid L lev b c → magnitude f lev b c ≤ A lev b) ∧ (A lev b = 0 ∨ ∃ c, Valid L lev b c ∧ A lev b = magnitude f lev b c) := by
    intro lev b
    have hval : ∀ c, Valid L lev b c ↔ ∃ x, (boxes L lev)[b]? = some x ∧ c ∈ x.cells := by
      intro c
      unfold Valid boxes
      cases hl : L[lev]? with
      | none => simp
      | some l => simp [mem_cells]
    simp only [hA, hval]
    cases hx : (boxes L lev)[b]? with
    | none => simp
    | some x =>
      have e : (fun mx c => max (Real.sqrt (square f.ncomp (f.val lev b c))) mx) = fun mx c => max mx (magnitude f lev b c) := by
        funext mx c; rw [mg, max_comm]
      simp only [e, Option.some.injEq, exists_eq_left']
      obtain ⟨-, h2, h3⟩ := foldl_max (magnitude f lev b) x.cells 0
      exact ⟨h2, h3⟩
  set B : ℕ → ℝ := fun lev => (own lev).foldl (fun r b => max r (A lev b)) 0 with hB
  have hr : rankMax L own f = (List.range L.length).foldl (fun m lev => max m (B lev)) 0 := rfl
  obtain ⟨h1, h2, h3⟩ := foldl_max B (List.range L.length) 0
  rw [← hr] at h1 h2 h3
  refine ⟨h1, fun lev b c hb hv => ?_, ?_⟩
  · have hl : lev < L.length := by
      obtain ⟨l, x, e, -⟩ := hv
      exact (List.getElem?_eq_some_iff.mp e).1
    exact (((cellsp lev b).1 c hv).trans ((foldl_max (A lev) (own lev) 0).2.1 b hb)).trans (h2 lev (List.mem_range.mpr hl))
  · rcases h3 with h3 | ⟨lev, -, h3⟩
    · exact Or.inl h3
    · rcases (foldl_max (A lev) (own lev) 0).2.2 with h4 | ⟨b, hb, h4⟩
      · left; rw [h3]; exact h4
      · have h5 : rankMax L own f = A lev b := h3.trans h4
        rcases (cellsp lev b).2 with h6 | ⟨c, hc, h6⟩
        · left; rw [h5, h6]
        · exact Or.inr ⟨lev, b, c, hb, hc, by rw [h5, h6]⟩

/-- **C137**: the greatest magnitude is that of all cells of all boxes of all active levels, zero if there is none. -/
theorem global_max (L : Layout) (ranks : List (ℕ → List ℕ)) (f : Fld ℝ) (hall : ∀ lev b c, Valid L lev b c → ∃ o ∈ ranks, b ∈ o lev) :
    (∀ lev b c, Valid L lev b c → magnitude f lev b c ≤ globalMax L ranks f) ∧
      (globalMax L ranks f = 0 ∨ ∃ lev b c, Valid L lev b c ∧ globalMax L ranks f = magnitude f lev b c) := by
  cases ranks with
  | nil =>
    refine ⟨fun lev b c hv => ?_, Or.inl rfl⟩
    obtain ⟨o, ho, -⟩ := hall lev b c hv
    cases ho
  | cons r rs =>
    obtain ⟨h1, h2, h3⟩ := foldl_max (fun o => rankMax L o f) rs (rankMax L r f)
    refine ⟨fun lev b c hv => ?_, ?_⟩
    · obtain ⟨o, ho, hb⟩ := hall lev b c hv
      have := (rankMax_spec L o f).2.1 lev b c hb hv
      rcases List.mem_cons.mp ho with rfl | ho
      · exact this.trans h1
      · exact this.trans (h2 o ho)
    · have att : ∀ o, globalMax L (r :: rs) f = rankMax L o f →
          globalMax L (r :: rs) f = 0 ∨ ∃ lev b c, Valid L lev b c ∧ globalMax L (r :: rs) f = magnitude f lev b c := by
        intro o e
        rcases (rankMax_spec L o f).2.2 with h | ⟨lev, b, c, -, hv, h⟩
        · left; rw [e, h]
        · exact Or.inr ⟨lev, b, c, hv, by rw [e, h]⟩
      rcases h3 with h3 | ⟨o, -, h3⟩
      · exact att r h3
      · exact att o h3

theorem magnitude_nonneg (f : Fld ℝ) (lev b : ℕ) (c : Cell) : 0 ≤ magnitude f lev b c := Real.sqrt_nonneg _

/-- **C137**: so it depends neither on how the cells are cut into boxes nor on how the boxes are given to ranks. -/
theorem global_max_decomposition (L L' : Layout) (ranks ranks' : List (ℕ → List ℕ)) (f f' : Fld ℝ)
    (hall : ∀ lev b c, Valid L lev b c → ∃ o ∈ ranks, b ∈ o lev) (hall' : ∀ lev b c, Valid L' lev b c → ∃ o ∈ ranks', b ∈ o lev)
    (h : ∀ lev b c, Valid L lev b c → ∃ b', Valid L' lev b' c ∧ magnitude f' lev b' c = magnitude f lev b c)
    (h' : ∀ lev b' c, Valid L' lev b' c → ∃ b, Valid L lev b c ∧ magnitude f lev b c = magnitude f' lev b' c) :
    globalMax L ranks f = globalMax L' ranks' f' := by
  have nn : ∀ (L : Layout) ranks (f : Fld ℝ), 0 ≤ globalMax L ranks f := by
    intro L ranks f
    cases ranks with
    | nil => exact le_rfl
    | cons r rs => exact (rankMax_spec L r f).1.trans (foldl_max (fun o => rankMax L o f) rs (rankMax L r f)).1
  have le : ∀ (L L' : Layout) (ranks ranks' : List (ℕ → List ℕ)) (f f' : Fld ℝ) (_ : ∀ lev b c, Valid L lev b c → ∃ o ∈ ranks, b ∈ o lev)
      (_ : ∀ lev b c, Valid L' lev b c → ∃ o ∈ ranks', b ∈ o lev)
      (_ : ∀ lev b c, Valid L lev b c → ∃ b', Valid L' lev b' c ∧ magnitude f' lev b' c = magnitude f lev b c),
      globalMax L ranks f ≤ globalMax L' ranks' f' := by
    intro L L' ranks ranks' f f' a1 a2 a3
    rcases (global_max L ranks f a1).2 with e | ⟨lev, b, c, hv, e⟩
    · rw [e]; exact nn _ _ _
    · obtain ⟨b', hv', e'⟩ := a3 lev b c hv
      rw [e, ← e']
      exact (global_max L' ranks' f' a2).1 lev b' c hv'
  exact le_antisymm (le _ _ _ _ _ _ hall hall' h) (le _ _ _ _ _ _ hall' hall h')

/-- **C137**: normalised vectors of the cells of boxes have length one and keep their direction; short vectors and ghost cells stay; doing it twice is
the same as once. -/
theorem normalize_spec {eps : ℝ} (h0 : 0 ≤ eps) (h1 : eps < 1) (L : Layout) (f : Fld ℝ) :
    (∀ lev b c, Valid L lev b c → eps < magnitude f lev b c ^ 2 → magnitude (normalize eps L f) lev b c = 1 ∧
      ∀ n < f.ncomp, magnitude f lev b c * (normalize eps L f).val lev b c n = f.val lev b c n) ∧
    (∀ lev b c, ¬ (Valid L lev b c ∧ eps < magnitude f lev b c ^ 2) → (normalize eps L f).val lev b c = f.val lev b c) ∧
    normalize eps L (normalize eps L f) = normalize eps L f := by
  have sqm : ∀ (f : Fld ℝ) lev b c, square f.ncomp (f.val lev b c) = magnitude f lev b c ^ 2 := by
    intro f lev b c
    unfold magnitude
    rw [square_sum, Real.sq_sqrt]
    exact List.sum_nonneg (by simp only [List.mem_map]; rintro x ⟨n, -, rfl⟩; positivity)
  have key : ∀ (f : Fld ℝ) lev b c k, Valid L lev b c ∧ eps < magnitude f lev b c ^ 2 →
      (normalize eps L f).val lev b c k = if k < f.ncomp then f.val lev b c k / magnitude f lev b c else f.val lev b c k := by
    intro f lev b c k ⟨hv, he⟩
    unfold normalize
    dsimp only
    rw [if_pos ⟨(inside_valid L lev b c).2 hv, by rw [sqm]; exact he⟩]
    have := foldl_range 0 (fun w n => w (0 + n) / Real.sqrt (square f.ncomp (f.val lev b c))) (f.val lev b c)
      (fun k => f.val lev b c k / Real.sqrt (square f.ncomp (f.val lev b c))) f.ncomp (by
        intro n hn w hw
        rw [hw, if_neg (by omega)]) f.ncomp le_rfl k
    simp only [Nat.zero_add, Nat.zero_le, true_and] at this
    rw [this, sqm, Real.sqrt_sq (magnitude_nonneg f lev b c)]
  have keep : ∀ (f : Fld ℝ) lev b c, ¬ (Valid L lev b c ∧ eps < magnitude f lev b c ^ 2) → (normalize eps L f).val lev b c = f.val lev b c := by
    intro f lev b c hn
    unfold normalize
    dsimp only
    rw [if_neg]
    rintro ⟨a1, a2⟩
    rw [sqm] at a2
    exact hn ⟨(inside_valid L lev b c).1 a1, a2⟩
  have pos : ∀ (f : Fld ℝ) lev b c, eps < magnitude f lev b c ^ 2 → 0 < magnitude f lev b c := by
    intro f lev b c h
    rcases (magnitude_nonneg f lev b c).lt_or_eq with h' | h'
    · exact h'
    · rw [← h'] at h; norm_num at h; linarith
  have one : ∀ (f : Fld ℝ) lev b c, Valid L lev b c → eps < magnitude f lev b c ^ 2 → magnitude (normalize eps L f) lev b c = 1 := by
    intro f lev b c hv he
    have hp := pos f lev b c he
    have e : (List.range f.ncomp).map (fun n => (normalize eps L f).val lev b c n ^ 2) =
        (List.range f.ncomp).map fun n => f.val lev b c n ^ 2 * (1 / magnitude f lev b c ^ 2) := by
      refine List.map_congr_left fun n hn => ?_
      rw [key f lev b c n ⟨hv, he⟩, if_pos (List.mem_range.mp hn)]
      field_simp
    have hm : magnitude (normalize eps L f) lev b c = Real.sqrt (((List.range f.ncomp).map fun n => (normalize eps L f).val lev b c n ^ 2).sum) := rfl
    rw [hm, e, List.sum_map_mul_right, ← square_sum, sqm]
    rw [mul_one_div_cancel (by positivity), Real.sqrt_one]
  refine ⟨fun lev b c hv he => ⟨one f lev b c hv he, fun n hn => ?_⟩, keep f, ?_⟩
  · rw [key f lev b c n ⟨hv, he⟩, if_pos hn, mul_div_cancel₀ _ (pos f lev b c he).ne']
  · have ex : ∀ a b : Fld ℝ, a.ncomp = b.ncomp → a.ngrow = b.ngrow → a.val = b.val → a = b := by
      rintro ⟨⟩ ⟨⟩ rfl rfl rfl; rfl
    refine ex _ _ rfl rfl ?_
    funext lev b c
    by_cases h : Valid L lev b c ∧ eps < magnitude f lev b c ^ 2
    · have h2 := one f lev b c h.1 h.2
      funext k
      rw [key (normalize eps L f) lev b c k ⟨h.1, by rw [h2]; linarith⟩, h2]
      split_ifs <;> simp
    · have e := keep f lev b c h
      have hm : magnitude (normalize eps L f) lev b c = magnitude f lev b c := by
        show Real.sqrt (((List.range f.ncomp).map fun n => (normalize eps L f).val lev b c n ^ 2).sum) = _
        rw [e]; rfl
      exact keep _ lev b c (by rw [hm]; exact h)

/-! ### Concrete cases -/

/-- Two levels, two boxes on the first. -/
def twoLevels : Layout := [[⟨![0, 0, 0], ![3, 3, 3]⟩, ⟨![4, 0, 0], ![7, 3, 3]⟩], [⟨![2, 2, 2], ![5, 5, 5]⟩]]

def ramp : Fld ℚ := ⟨3, fun _ => 2, fun lev b c n => lev + b + c 0 + 10 * n⟩

example : fits ramp 1 2 (fun _ => 1) := by decide +kernel

example : ((saxpy (1 / 2) twoLevels false ramp ramp 0 1 2 (fun _ => 1)).map fun f => (f.val 0 1 ![8, 0, 0] 1, f.val 0 1 ![9, 0, 0] 1, f.val 2 0 ![0, 0, 0] 1)) =
    some (47 / 2, 20, 12) := by decide +kernel

example : Valid twoLevels 1 0 ![3, 3, 3] := ⟨_, _, rfl, rfl, by decide⟩

example : ((lowerBound twoLevels ramp 5 0).val 0 0 ![3, 0, 0] 0, (lowerBound twoLevels ramp 5 0).val 0 0 ![4, 0, 0] 0) = (5, 4) := by decide +kernel

example : ∀ lev b c, Valid twoLevels lev b c → ∃ o ∈ [fun _ => [0], fun lev : ℕ => if lev = 0 then [1] else []], b ∈ o lev := by
  rintro lev b c ⟨l, x, h1, h2, -⟩
  match lev, h1 with
  | 0, h1 =>
    cases h1
    match b, h2 with
    | 0, _ => simp
    | 1, _ => simp
    | n + 2, h2 => simp at h2
  | 1, h1 =>
    cases h1
    match b, h2 with
    | 0, _ => simp
    | n + 1, h2 => simp at h2
  | n + 2, h1 => simp [twoLevels] at h1

end AmrWind.FieldOps
