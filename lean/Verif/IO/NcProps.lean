import Verif.IO.NcModel
import Mathlib.Data.List.Nodup
import Mathlib.Data.List.Perm.Basic
import Mathlib.Logic.Function.Basic
import Mathlib.Tactic.Ring

/-!
# C129: NetCDF files hold what was written, under the names given
-/

set_option linter.unusedSectionVars false

namespace AmrWind.Nc

variable {V : Type}

/-! ## Values -/

theorem mod_same {α : Type} {l : List α} {i : ℕ} {x : α} (h : l[i]? = some x) (F : α → α) : (l.modify i F)[i]? = some (F x) := by
  rw [List.getElem?_modify, h]; simp

theorem mod_other {α : Type} (l : List α) {i j : ℕ} (h : i ≠ j) (F : α → α) : (l.modify i F)[j]? = l[j]? := by
  rw [List.getElem?_modify]; cases l[j]? <;> simp [h]

theorem store_off (m : List ℕ → V) (is : List (List ℕ)) (vs : List V) (i : List ℕ) (h : i ∉ is) : store m is vs i = m i := by
  induction is generalizing m vs with
  | nil => cases vs <;> rfl
  | cons a r ih =>
    cases vs with
    | nil => rfl
    | cons v vs =>
      simp only [List.mem_cons, not_or] at h
      rw [store, ih _ _ h.2, Function.update_of_ne h.1]

theorem store_on (m : List ℕ → V) (is : List (List ℕ)) (vs : List V) (hn : is.Nodup) (hl : is.length ≤ vs.length) :
    is.map (store m is vs) = vs.take is.length := by
  induction is generalizing m vs with
  | nil => rfl
  | cons a r ih =>
    cases vs with
    | nil => simp at hl
    | cons v vs =>
      rw [List.nodup_cons] at hn
      simp only [store, List.map_cons, List.length_cons, List.take_succ_cons]
      rw [store_off _ _ _ _ hn.1, Function.update_self, ih _ _ hn.2 (by simpa using hl)]

theorem indices_nodup (sl : List Sl) (h : ∀ s ∈ sl, 0 < s.stride) : (indices sl).Nodup := by
  induction sl with
  | nil => simp [indices]
  | cons s r ih =>
    have hr := ih fun x hx => h x (List.mem_cons_of_mem _ hx)
    have h0 := h s List.mem_cons_self
    unfold indices
    rw [List.nodup_flatMap]
    refine ⟨fun i _ => hr.map fun a b e => (List.cons.inj e).2, ?_⟩
    refine (List.nodup_range (n := s.count)).imp fun {a b} hab => ?_
    simp only [Function.onFun, List.Disjoint]
    intro q h1 h2
    obtain ⟨x, -, rfl⟩ := List.mem_map.mp h1
    obtain ⟨y, -, e⟩ := List.mem_map.mp h2
    have e1 := (List.cons.inj e).1
    exact hab (Nat.eq_of_mul_eq_mul_right h0 (by omega))

/-- Specification: the number of elements of a part. -/
def volume (sl : List Sl) : ℕ := (sl.map Sl.count).prod

theorem indices_length (sl : List Sl) : (indices sl).length = volume sl := by
  induction sl with
  | nil => rfl
  | cons s r ih =>
    unfold indices
    rw [List.length_flatMap]
    simp [ih, volume]

/-- One list of dimensions has grown out of another. -/
def Grown (D D' : List Dim) : Prop := ∀ (d : ℕ) (x : Dim), D[d]? = some x → ∃ y : Dim, D'[d]? = some y ∧ y.name = x.name ∧ y.unlim = x.unlim ∧ x.len ≤ y.len ∧ (x.unlim = false → y = x)

theorem Grown.refl (D : List Dim) : Grown D D := fun _ x h => ⟨x, h, rfl, rfl, le_refl _, fun _ => rfl⟩

theorem Grown.trans {A B C : List Dim} (h : Grown A B) (k : Grown B C) : Grown A C := by
  intro d x hx
  obtain ⟨y, hy, n1, u1, l1, f1⟩ := h d x hx
  obtain ⟨z, hz, n2, u2, l2, f2⟩ := k d y hy
  refine ⟨z, hz, n2.trans n1, u2.trans u1, l1.trans l2, fun q => ?_⟩
  rw [f2 (u1.trans q), f1 q]

theorem grown_modify (D : List Dim) (d n : ℕ) : Grown D (D.modify d fun x => if x.unlim then { x with len := max x.len n } else x) := by
  intro e x hx
  by_cases h : d = e
  · subst h
    rw [mod_same hx]
    by_cases u : x.unlim
    · exact ⟨{ x with len := max x.len n }, by simp [u], rfl, rfl, le_max_left _ _, fun q => by simp [u] at q⟩
    · exact ⟨x, by simp [u], rfl, rfl, le_refl _, fun _ => rfl⟩
  · rw [mod_other _ h, hx]
    exact ⟨x, rfl, rfl, rfl, le_refl _, fun _ => rfl⟩

theorem grown_growDims (D : List Dim) (is : List ℕ) (sl : List Sl) : Grown D (growDims D is sl) := by
  induction is generalizing D sl with
  | nil => exact Grown.refl _
  | cons d r ih =>
    cases sl with
    | nil => exact Grown.refl _
    | cons s t => exact (grown_modify D d s.stop).trans (ih _ _)

theorem dimsOf_grown {D D' : List Dim} (h : Grown D D') {is : List ℕ} {L : List Dim} (e : dimsOf D is = some L) :
    ∃ L', dimsOf D' is = some L' ∧ L'.length = L.length ∧ ∀ sl, fitsAll true L sl = true → fitsAll true L' sl = true := by
  induction is generalizing L with
  | nil => cases e; exact ⟨[], rfl, rfl, fun _ h => h⟩
  | cons d r ih =>
    unfold dimsOf at e
    cases hd : D[d]? with
    | none => simp [hd] at e
    | some x =>
      cases hr : dimsOf D r with
      | none => simp [hd, hr] at e
      | some l =>
        simp only [hd, hr, Option.some.injEq] at e
        subst e
        obtain ⟨l', e', n', k'⟩ := ih hr
        obtain ⟨y, hy, -, u, le, fx⟩ := h d x hd
        refine ⟨y :: l', by simp [dimsOf, hy, e'], by simp [n'], fun sl hs => ?_⟩
        cases sl with
        | nil => rfl
        | cons s t =>
          simp only [fitsAll, Bool.and_eq_true] at hs ⊢
          refine ⟨?_, k' t hs.2⟩
          have := hs.1
          simp only [fits, Bool.and_eq_true, Bool.or_eq_true, decide_eq_true_eq, Bool.true_and] at this ⊢
          refine ⟨this.1, ?_⟩
          rcases this.2 with q | ⟨q1, q2⟩
          · exact Or.inl (u.trans q)
          · exact Or.inr ⟨q1.trans le, q2.trans le⟩

theorem fits_after {D : List Dim} {is : List ℕ} {sl : List Sl} {L : List Dim} (e : dimsOf D is = some L) (hf : fitsAll true L sl = true)
    (hc : ∀ s ∈ sl, 0 < s.count) {D' : List Dim} (hg : Grown (growDims D is sl) D') :
    ∃ L', dimsOf D' is = some L' ∧ L'.length = L.length ∧ fitsAll false L' sl = true := by
  induction is generalizing D sl L with
  | nil => cases e; exact ⟨[], rfl, rfl, rfl⟩
  | cons d r ih =>
    unfold dimsOf at e
    cases hd : D[d]? with
    | none => simp [hd] at e
    | some x =>
      cases hr : dimsOf D r with
      | none => simp [hd, hr] at e
      | some l =>
        simp only [hd, hr, Option.some.injEq] at e
        subst e
        cases sl with
        | nil =>
          obtain ⟨L', e', n', -⟩ := dimsOf_grown hg (show dimsOf D (d :: r) = some (x :: l) by simp [dimsOf, hd, hr])
          exact ⟨L', e', n', by cases L' <;> rfl⟩
        | cons s t =>
          simp only [fitsAll, Bool.and_eq_true] at hf
          obtain ⟨l1, e1, n1, k1⟩ := dimsOf_grown (grown_modify D d s.stop) hr
          obtain ⟨l', e', n', f'⟩ := ih e1 (k1 t hf.2) (fun q hq => hc q (List.mem_cons_of_mem _ hq)) hg
          have hs0 := hc s List.mem_cons_self
          set D1 := D.modify d fun x => if x.unlim then { x with len := max x.len s.stop } else x with hD1
          have h1 : D1[d]? = some (if x.unlim then { x with len := max x.len s.stop } else x) := by
            rw [hD1, mod_same hd]
          obtain ⟨y, hy, -, u, le, fx⟩ := ((grown_growDims D1 r t).trans hg) d _ h1
          refine ⟨y :: l', by simp [dimsOf, hy, e'], by simp [n', n1], ?_⟩
          simp only [fitsAll, Bool.and_eq_true]
          refine ⟨?_, f'⟩
          have hf1 := hf.1
          have ss : s.start ≤ s.stop := by
            unfold Sl.stop; rw [if_neg (by omega)]; generalize (s.count - 1) * s.stride = q; omega
          simp only [fits, Bool.and_eq_true, Bool.or_eq_true, decide_eq_true_eq, Bool.true_and, Bool.false_and, Bool.false_eq_true, false_or] at hf1 ⊢
          refine ⟨hf1.1, ?_⟩
          by_cases ux : x.unlim = true
          · rw [if_pos ux] at le
            have : s.stop ≤ y.len := (le_max_right x.len s.stop).trans le
            exact ⟨ss.trans this, this⟩
          · rw [if_neg ux] at le
            rcases hf1.2 with q | ⟨q1, q2⟩
            · exact absurd q ux
            · exact ⟨q1.trans le, q2.trans le⟩

theorem fits_stride (b : Bool) (L : List Dim) (sl : List Sl) (h : fitsAll b L sl = true) : ∀ s ∈ sl.take L.length, 0 < s.stride := by
  induction L generalizing sl with
  | nil => simp
  | cons d r ih =>
    cases sl with
    | nil => simp
    | cons s t =>
      simp only [fitsAll, Bool.and_eq_true, fits, decide_eq_true_eq] at h
      intro q hq
      simp only [List.length_cons, List.take_succ_cons, List.mem_cons] at hq
      rcases hq with rfl | hq
      · exact h.1.1
      · exact ih t h.2 q hq

theorem theVar_modify (f : File V) (D : List Dim) (g v g' v' : ℕ) (F : Var V → Var V) :
    theVar (⟨D, f.grps.modify g fun G => { G with vars := G.vars.modify v F }⟩ : File V) g' v' =
      if g = g' ∧ v = v' then (theVar f g' v').map F else theVar f g' v' := by
  unfold theVar
  simp only [List.getElem?_modify]
  cases hG : f.grps[g']? with
  | none => split_ifs <;> simp
  | some G =>
    by_cases h1 : g = g'
    · by_cases h2 : v = v'
      · simp [h1, h2, List.getElem?_modify]
      · simp [h1, h2, List.getElem?_modify]
    · simp [h1]

/-- What a successful `put` did. -/
theorem put_cases {f f' : File V} {g v : ℕ} {sl : List Sl} {vals : List V} (h : put f g v sl vals = .ok f') :
    ∃ x L, theVar f g v = some x ∧ dimsOf f.dims x.dims = some L ∧ L.length ≤ sl.length ∧ fitsAll true L sl = true ∧
      (indices (sl.take L.length)).length ≤ vals.length ∧ f'.dims = growDims f.dims x.dims sl ∧
      theVar f' g v = some { x with data := store x.data (indices (sl.take L.length)) vals } ∧
      (∀ g' v', (g' ≠ g ∨ v' ≠ v) → theVar f' g' v' = theVar f g' v') := by
  unfold put at h
  cases hx : theVar f g v with
  | none => simp [hx] at h
  | some x =>
    cases hL : dimsOf f.dims x.dims with
    | none => simp [hx, hL] at h
    | some L =>
      simp only [hx, hL] at h
      split_ifs at h with h1 h2 h3
      have h2' : fitsAll true L sl = true := by simpa using h2
      injection h with h
      subst h
      refine ⟨x, L, rfl, hL, by omega, h2', by omega, rfl, ?_, fun g' v' hne => ?_⟩
      · rw [theVar_modify, if_pos ⟨rfl, rfl⟩, hx]; rfl
      · rw [theVar_modify, if_neg (by rintro ⟨rfl, rfl⟩; rcases hne with q | q <;> exact q rfl)]

/-- **C129**: what is written into a part of a variable is read from it. -/
theorem put_get {f f' : File V} {g v : ℕ} {sl : List Sl} {vals : List V} (hc : ∀ s ∈ sl, 0 < s.count)
    (h : put f g v sl vals = .ok f') {x : Var V} (hx : theVar f g v = some x) (hl : sl.length = x.dims.length) (hv : vals.length = volume sl) :
    get f' g v sl = .ok vals := by
  obtain ⟨x', L, e1, e2, e3, e4, e5, e6, e7, -⟩ := put_cases h
  rw [hx] at e1
  cases e1
  have lL : ∀ (D : List Dim) (is : List ℕ) (L : List Dim), dimsOf D is = some L → L.length = is.length := by
    intro D is
    induction is with
    | nil => intro L h; cases h; rfl
    | cons d r ih =>
      intro L h
      unfold dimsOf at h
      cases hd : D[d]? <;> cases hr : dimsOf D r <;> simp [hd, hr] at h
      subst h
      simp [ih _ hr]
  have hL := lL _ _ _ e2
  have tk : sl.take L.length = sl := List.take_of_length_le (by omega)
  rw [tk] at e5 e7
  obtain ⟨L', d1, d2, d3⟩ := fits_after e2 e4 hc (Grown.refl _)
  unfold get
  simp only [e7, e6, d1, d3, Bool.not_true, Bool.false_eq_true, if_false]
  rw [if_neg (by omega), d2, tk]
  congr 1
  have st := fits_stride true L sl e4
  rw [tk] at st
  rw [store_on _ _ _ (indices_nodup sl st) e5, List.take_of_length_le (by rw [indices_length, hv])]

/-- **C129**: nothing else changes: other variables, and the other elements of the variable. -/
theorem put_elsewhere {f f' : File V} {g v : ℕ} {sl : List Sl} {vals : List V} (h : put f g v sl vals = .ok f') :
    (∀ g' v', (g' ≠ g ∨ v' ≠ v) → theVar f' g' v' = theVar f g' v') ∧
    ∃ x x', theVar f g v = some x ∧ theVar f' g v = some x' ∧ x'.name = x.name ∧ x'.dims = x.dims ∧
      ∀ i, i ∉ indices (sl.take x.dims.length) → x'.data i = x.data i := by
  obtain ⟨x, L, e1, e2, -, -, -, -, e7, e8⟩ := put_cases h
  refine ⟨e8, x, _, e1, e7, rfl, rfl, fun i hi => ?_⟩
  have lL : ∀ (D : List Dim) (is : List ℕ) (L : List Dim), dimsOf D is = some L → L.length = is.length := by
    intro D is
    induction is with
    | nil => intro L h; cases h; rfl
    | cons d r ih =>
      intro L h
      unfold dimsOf at h
      cases hd : D[d]? <;> cases hr : dimsOf D r <;> simp [hd, hr] at h
      subst h
      simp [ih _ hr]
  rw [← lL _ _ _ e2] at hi
  exact store_off _ _ _ _ hi

/-- **C129**: an index is in the part exactly if along every dimension it is one of start, start + stride, … -/
theorem mem_indices (sl : List Sl) (i : List ℕ) :
    i ∈ indices sl ↔ List.Forall₂ (fun s k => ∃ j < s.count, k = s.start + j * s.stride) sl i := by
  induction sl generalizing i with
  | nil => simp [indices]
  | cons s r ih =>
    unfold indices
    simp only [List.mem_flatMap, List.mem_range, List.mem_map, List.forall₂_cons_left_iff]
    constructor
    · rintro ⟨j, hj, q, hq, rfl⟩
      exact ⟨_, q, ⟨j, hj, rfl⟩, (ih q).mp hq, rfl⟩
    · rintro ⟨k, q, ⟨j, hj, rfl⟩, hq, rfl⟩
      exact ⟨j, hj, q, (ih q).mpr hq, rfl⟩

/-! ## Series -/

/-- Specification: variable `v` of group `g` has the unlimited dimension `t`, of length `n`, first, and then dimensions of fixed lengths. -/
def Series (f : File V) (g v t : ℕ) (rest : List ℕ) (n : ℕ) : Prop :=
  ∃ x ds T L, theVar f g v = some x ∧ x.dims = t :: ds ∧ f.dims[t]? = some T ∧ T.unlim = true ∧ T.len = n ∧
    dimsOf f.dims ds = some L ∧ L.map Dim.len = rest ∧ ∀ d ∈ L, d.unlim = false

/-- Reading row `i` of a series. -/
def row (f : File V) (g v : ℕ) (rest : List ℕ) (i : ℕ) : Res (List V) := get f g v (⟨i, 1, 1⟩ :: rest.map fun c => ⟨0, c, 1⟩)

theorem growDims_fixed {D : List Dim} {ds : List ℕ} {L : List Dim} (e : dimsOf D ds = some L) (hu : ∀ d ∈ L, d.unlim = false) (sl : List Sl) :
    growDims D ds sl = D := by
  induction ds generalizing L sl with
  | nil => rfl
  | cons d r ih =>
    unfold dimsOf at e
    cases hd : D[d]? with
    | none => simp [hd] at e
    | some x =>
      cases hr : dimsOf D r with
      | none => simp [hd, hr] at e
      | some l =>
        simp only [hd, hr, Option.some.injEq] at e
        subst e
        cases sl with
        | nil => rfl
        | cons s t =>
          have hx : x.unlim = false := hu x List.mem_cons_self
          have : (D.modify d fun x => if x.unlim then { x with len := max x.len s.stop } else x) = D := by
            refine List.ext_getElem? fun i => ?_
            by_cases h : d = i
            · subst h; rw [mod_same hd]; simp [hd, hx]
            · rw [mod_other _ h]
          rw [growDims, this]
          exact ih hr (fun q hq => hu q (List.mem_cons_of_mem _ hq)) t

theorem fitsAll_full (b : Bool) (L : List Dim) : fitsAll b L ((L.map Dim.len).map fun c => ⟨0, c, 1⟩) = true := by
  induction L with
  | nil => rfl
  | cons d r ih =>
    simp only [List.map_cons, fitsAll, Bool.and_eq_true]
    refine ⟨?_, ih⟩
    have : (⟨0, d.len, 1⟩ : Sl).stop ≤ d.len := by unfold Sl.stop; dsimp only; split_ifs <;> omega
    simp [fits, this]

theorem dimsOf_length {D : List Dim} {is : List ℕ} {L : List Dim} (h : dimsOf D is = some L) : L.length = is.length := by
  induction is generalizing L with
  | nil => cases h; rfl
  | cons d r ih =>
    unfold dimsOf at h
    cases hd : D[d]? <;> cases hr : dimsOf D r <;> simp [hd, hr] at h
    subst h
    simp [ih hr]

theorem dimsOf_congr {D D' : List Dim} {ds : List ℕ} (h : ∀ d ∈ ds, D'[d]? = D[d]?) : dimsOf D' ds = dimsOf D ds := by
  induction ds with
  | nil => rfl
  | cons d r ih =>
    unfold dimsOf
    rw [h d List.mem_cons_self, ih fun q hq => h q (List.mem_cons_of_mem _ hq)]

theorem dimsOf_mem {D : List Dim} {ds : List ℕ} {L : List Dim} (e : dimsOf D ds = some L) {d : ℕ} (h : d ∈ ds) : ∃ x ∈ L, D[d]? = some x := by
  induction ds generalizing L with
  | nil => simp at h
  | cons a r ih =>
    unfold dimsOf at e
    cases hd : D[a]? with
    | none => simp [hd] at e
    | some x =>
      cases hr : dimsOf D r with
      | none => simp [hd, hr] at e
      | some l =>
        simp only [hd, hr, Option.some.injEq] at e
        subst e
        rcases List.mem_cons.mp h with rfl | h
        · exact ⟨x, List.mem_cons_self, hd⟩
        · obtain ⟨y, hy, e⟩ := ih hr h
          exact ⟨y, List.mem_cons_of_mem _ hy, e⟩

theorem volume_row (rest : List ℕ) (n : ℕ) : volume (⟨n, 1, 1⟩ :: rest.map fun c => ⟨0, c, 1⟩) = rest.prod := by
  simp [volume, Function.comp_def]

theorem append_row {f : File V} {g v t : ℕ} {rest : List ℕ} {n : ℕ} (hs : Series f g v t rest n) {vals : List V} (hv : vals.length = rest.prod) :
    ∃ f', appendRow f g v t rest vals = .ok f' ∧ Series f' g v t rest (n + 1) ∧ row f' g v rest n = .ok vals ∧
      ∀ i < n, row f' g v rest i = row f g v rest i := by
  obtain ⟨x, ds, T, L, h1, h2, h3, h4, h5, h6, h7, h8⟩ := hs
  set sl : List Sl := ⟨n, 1, 1⟩ :: rest.map fun c => ⟨0, c, 1⟩ with hsl
  have dT : dimsOf f.dims x.dims = some (T :: L) := by rw [h2]; simp [dimsOf, h3, h6]
  have lr : rest.length = L.length := by rw [← h7]; simp
  have ll : sl.length = (T :: L).length := by simp [hsl, lr]
  have fT : fitsAll true (T :: L) sl = true := by
    rw [hsl]
    simp only [fitsAll, Bool.and_eq_true]
    exact ⟨by simp [fits, h4], by rw [← h7]; exact fitsAll_full true L⟩
  have tk : sl.take (T :: L).length = sl := List.take_of_length_le (by omega)
  have iv : (indices sl).length = vals.length := by rw [indices_length, hv, hsl, volume_row]
  set D1 := f.dims.modify t fun x => if x.unlim then { x with len := max x.len (⟨n, 1, 1⟩ : Sl).stop } else x with hD1
  have tds : t ∉ ds := by
    intro q
    obtain ⟨y, hy, e⟩ := dimsOf_mem h6 q
    rw [h3] at e
    cases e
    rw [h8 _ hy] at h4
    exact Bool.false_ne_true h4
  have off : ∀ d, d ≠ t → D1[d]? = f.dims[d]? := by
    intro d hd
    rw [hD1, mod_other _ (fun e => hd e.symm)]
  have d6 : dimsOf D1 ds = some L := by
    rw [dimsOf_congr (D := f.dims) fun d hd => off d (fun e => tds (e ▸ hd)), h6]
  have tD1 : D1[t]? = some { T with len := n + 1 } := by
    rw [hD1, mod_same h3]
    have : max T.len (⟨n, 1, 1⟩ : Sl).stop = n + 1 := by unfold Sl.stop; simp [h5]
    simp only [h4, if_true, this]
  have gD : growDims f.dims x.dims sl = D1 := by
    rw [h2, hsl, growDims, growDims_fixed d6 h8]
  have hp : put f g v sl vals = .ok ⟨D1, f.grps.modify g fun G => { G with vars := G.vars.modify v fun x => { x with data := store x.data (indices sl) vals } }⟩ := by
    unfold put
    simp only [h1, dT, fT, Bool.not_true, Bool.false_eq_true, if_false, tk, gD]
    rw [if_neg (by omega), if_neg (by omega)]
  have he : appendRow f g v t rest vals = put f g v sl vals := by
    unfold appendRow ncInqDimlen
    simp only [h3, Option.map_some, h5, hsl]
  refine ⟨_, he.trans hp, ?_⟩
  obtain ⟨x', L', e1, e2, -, -, -, -, e7, -⟩ := put_cases hp
  rw [h1] at e1
  cases e1
  rw [dT] at e2
  cases e2
  rw [tk] at e7
  have dT' : dimsOf D1 x.dims = some ({ T with len := n + 1 } :: L) := by rw [h2]; simp [dimsOf, tD1, d6]
  have st : ∀ s ∈ sl, 0 < s.stride := by have := fits_stride true (T :: L) sl fT; rwa [tk] at this
  have fr : ∀ i (m : ℕ), fitsAll false ({ T with len := m } :: L) (⟨i, 1, 1⟩ :: rest.map fun c => ⟨0, c, 1⟩) = decide (i < m) := by
    intro i m
    simp only [fitsAll]
    rw [← h7, fitsAll_full, Bool.and_true]
    have st1 : (⟨i, 1, 1⟩ : Sl).stop = i + 1 := by simp [Sl.stop]
    unfold fits
    rw [st1, Bool.eq_iff_iff]
    simp only [Bool.and_eq_true, Bool.or_eq_true, decide_eq_true_eq, Bool.false_and, Bool.false_eq_true, false_or]
    omega
  have rd : ∀ i, i < n + 1 → row (⟨D1, f.grps.modify g fun G => { G with vars := G.vars.modify v fun x => { x with data := store x.data (indices sl) vals } }⟩ : File V) g v rest i =
      .ok ((indices (⟨i, 1, 1⟩ :: rest.map fun c => ⟨0, c, 1⟩)).map (store x.data (indices sl) vals)) := by
    intro i hi
    unfold row get
    simp only [e7, dT', fr, decide_eq_true hi, Bool.not_true, Bool.false_eq_true, if_false]
    rw [if_neg (by simp [lr]), List.take_of_length_le (by simp [lr])]
  refine ⟨⟨_, ds, { T with len := n + 1 }, L, e7, h2, tD1, h4, rfl, d6, h7, h8⟩, ?_, fun i hi => ?_⟩
  · rw [rd n (by omega), store_on _ _ _ (indices_nodup sl st) (by omega), iv, List.take_length]
  · rw [rd i (by omega)]
    unfold row get
    have dT0 : dimsOf f.dims x.dims = some ({ T with len := n } :: L) := by rw [dT, ← h5]
    simp only [h1, dT0, fr, decide_eq_true hi, Bool.not_true, Bool.false_eq_true, if_false]
    rw [if_neg (by simp [lr]), List.take_of_length_le (by simp [lr])]
    congr 1
    refine List.map_congr_left fun q hq => store_off _ _ _ _ fun hq' => ?_
    obtain ⟨k, r, ⟨j, hj, rfl⟩, -, rfl⟩ := List.forall₂_cons_left_iff.mp ((mem_indices _ _).mp hq)
    obtain ⟨k', r', ⟨j', hj', rfl⟩, -, e⟩ := List.forall₂_cons_left_iff.mp ((mem_indices _ _).mp hq')
    have := (List.cons.inj e).1
    dsimp only at this hj hj'
    have a : j = 0 := by omega
    have b : j' = 0 := by omega
    subst a b
    omega

/-- **C129**: a series of any length holds every row that was appended, in order, after those that were there. -/
theorem series_holds {g v t : ℕ} {rest : List ℕ} (rows : List (List V)) {f : File V} {n : ℕ} (hs : Series f g v t rest n)
    (hv : ∀ r ∈ rows, r.length = rest.prod) :
    ∃ f', appendRows g v t rest rows f = .ok f' ∧ len f' t = .ok (n + rows.length) ∧
      (∀ i (h : i < rows.length), row f' g v rest (n + i) = .ok rows[i]) ∧ ∀ i < n, row f' g v rest i = row f g v rest i := by
  induction rows generalizing f n with
  | nil =>
    obtain ⟨x, ds, T, L, -, -, h3, -, h5, -⟩ := hs
    exact ⟨f, rfl, by simp [len, ncInqDimlen, h3, h5, check], fun i h => by simp at h, fun _ _ => rfl⟩
  | cons r rs ih =>
    obtain ⟨f1, a1, a2, a3, a4⟩ := append_row hs (hv r List.mem_cons_self)
    obtain ⟨f', b1, b2, b3, b4⟩ := ih a2 fun q hq => hv q (List.mem_cons_of_mem _ hq)
    refine ⟨f', by simp [appendRows, a1, b1], by rw [b2]; congr 1; simp; omega, fun i h => ?_, fun i hi => (b4 i (by omega)).trans (a4 i hi)⟩
    cases i with
    | zero => rw [Nat.add_zero, b4 n (by omega), a3]; rfl
    | succ i =>
      have := b3 i (by simpa using h)
      rw [show n + 1 + i = n + (i + 1) by omega] at this
      simpa using this

/-- A file with a series of two values per time, as `Sampling` makes it. -/
def exFile : File ℕ := ⟨[⟨"num_time_steps", true, 0⟩, ⟨"num_points", false, 2⟩], [⟨"/", none, [0], []⟩, ⟨"line", some 0, [1], [⟨"velocityx", [0, 1], fun _ => 0⟩]⟩]⟩

example : Series exFile 1 0 0 [2] 0 := ⟨_, [1], _, [⟨"num_points", false, 2⟩], rfl, rfl, rfl, rfl, rfl, rfl, rfl, by simp⟩

example : (match appendRows 1 0 0 [2] [[1, 2], [3, 4]] exFile with | .ok f => get f 1 0 [⟨0, 2, 1⟩, ⟨0, 2, 1⟩] | _ => .ub) = .ok [1, 2, 3, 4] := by decide +kernel

/-! ## Names -/

/-- Dimensions and parents of groups exist. -/
def Ok (f : File V) : Prop := ∀ (g : ℕ) (G : Grp V), f.grps[g]? = some G → (∀ d ∈ G.dims, d < f.dims.length) ∧ ∀ p, G.parent = some p → p < f.grps.length

theorem ok_lookup {f : File V} {g : ℕ} {G : Grp V} (h : f.grps[g]? = some G) : g < f.grps.length := by
  obtain ⟨h, -⟩ := List.getElem?_eq_some_iff.mp h; exact h

/-- **C129**: the tests for existence agree with the lookups: what exists can be looked up, the lookup of the rest aborts. -/
theorem has_iff (f : File V) (g : ℕ) (name : String) :
    (hasDim f g name = true ↔ ∃ d, dim f g name = .ok d) ∧ (hasVar f g name = true ↔ ∃ v, var f g name = .ok v) ∧
    (hasGroup f g name = true ↔ ∃ h, group f g name = .ok h) ∧
    (hasDim f g name = false ↔ dim f g name = .abort) ∧ (hasVar f g name = false ↔ var f g name = .abort) ∧ (hasGroup f g name = false ↔ group f g name = .abort) := by
  unfold hasDim dim hasVar var hasGroup group
  refine ⟨?_, ?_, ?_, ?_, ?_, ?_⟩
  · cases ncInqDimid f g name <;> simp [check]
  · cases ncInqVarid f g name <;> simp [check]
  · cases ncInqNcid f g name <;> simp [check]
  · cases ncInqDimid f g name <;> simp [check]
  · cases ncInqVarid f g name <;> simp [check]
  · cases ncInqNcid f g name <;> simp [check]

theorem ownDim_name {f : File V} {name : String} {g d : ℕ} (h : ownDim f name g = some d) : (f.dims[d]?.map Dim.name) = some name := by
  unfold ownDim at h
  cases hG : f.grps[g]? with
  | none => simp [hG] at h
  | some G =>
    simp only [hG] at h
    simpa using List.find?_some h

/-- **C129**: a dimension that is found has the name. -/
theorem dim_has_name {f : File V} {g d : ℕ} {name : String} (h : dim f g name = .ok d) : ∃ x, f.dims[d]? = some x ∧ x.name = name := by
  unfold dim ncInqDimid at h
  cases hq : (chain f f.grps.length g).findSome? (ownDim f name) with
  | none => simp [hq, check] at h
  | some d' =>
    simp only [hq, check, Res.ok.injEq] at h
    subst h
    obtain ⟨a, -, ha⟩ := List.exists_of_findSome?_eq_some hq
    have := ownDim_name ha
    cases hx : f.dims[d']? with
    | none => simp [hx] at this
    | some x => exact ⟨x, rfl, by simpa [hx] using this⟩

theorem chain_modify (f : File V) (D : List Dim) (g : ℕ) (F : Grp V → Grp V) (hF : ∀ G, (F G).parent = G.parent) (n k : ℕ) :
    chain (⟨D, f.grps.modify g F⟩ : File V) n k = chain f n k := by
  induction n generalizing k with
  | zero => rfl
  | succ n ih =>
    unfold chain
    simp only [List.getElem?_modify]
    cases hk : f.grps[k]? with
    | none => simp
    | some G =>
      by_cases h : g = k
      · simp [h, hF, ← ih]
      · simp [h, ← ih]

theorem findSome_congr {α β : Type} (l : List α) (F H : α → Option β) (h : ∀ a ∈ l, F a = H a) : l.findSome? F = l.findSome? H := by
  induction l with
  | nil => rfl
  | cons a r ih =>
    rw [List.findSome?_cons, List.findSome?_cons, h a List.mem_cons_self, ih fun q hq => h q (List.mem_cons_of_mem _ hq)]

theorem find_congr {α : Type} (l : List α) (F H : α → Bool) (h : ∀ a ∈ l, F a = H a) : l.find? F = l.find? H := by
  induction l with
  | nil => rfl
  | cons a r ih =>
    rw [List.find?_cons, List.find?_cons, h a List.mem_cons_self, ih fun q hq => h q (List.mem_cons_of_mem _ hq)]

/-- **C129**: a dimension that is defined is found in its group with its length, lengths and lookups of other names stay; a second
definition of the name in the group aborts. -/
theorem def_dim_found {f f' : File V} (ok : Ok f) {g n d : ℕ} {name : String} (h : defDim f g name n = .ok (f', d)) :
    Ok f' ∧ dim f' g name = .ok d ∧ len f' d = .ok n ∧ (∀ d' m, len f d' = .ok m → len f' d' = .ok m) ∧
    (∀ g' name', name' ≠ name → dim f' g' name' = dim f g' name') ∧ ∀ m, defDim f' g name m = .abort := by
  unfold defDim ncDefDim at h
  cases hG : f.grps[g]? with
  | none => simp [hG, check] at h
  | some G =>
    simp only [hG] at h
    split_ifs at h with hs
    · simp [check] at h
    simp only [check, Res.ok.injEq, Prod.mk.injEq] at h
    obtain ⟨hf, hd⟩ := h
    subst hd
    have hgl := ok_lookup hG
    have eD : f'.dims = f.dims ++ [⟨name, n = 0, n⟩] := by rw [← hf]
    have eG : f'.grps = f.grps.modify g fun G => { G with dims := G.dims ++ [f.dims.length] } := by rw [← hf]
    have gg : f'.grps[g]? = some { G with dims := G.dims ++ [f.dims.length] } := by
      rw [eG, mod_same hG]
    have lookOld : ∀ d < f.dims.length, f'.dims[d]? = f.dims[d]? := fun d hd => by rw [eD, List.getElem?_append_left hd]
    have lookNew : f'.dims[f.dims.length]? = some ⟨name, n = 0, n⟩ := by rw [eD]; simp
    have ownNew : ownDim f' name g = some f.dims.length := by
      unfold ownDim
      rw [gg]
      dsimp only
      rw [List.find?_append]
      have none' : G.dims.find? (fun d => (f'.dims[d]?.map Dim.name) == some name) = none := by
        rw [find_congr G.dims _ (fun d => (f.dims[d]?.map Dim.name) == some name) fun d hd => by rw [lookOld d ((ok g G hG).1 d hd)]]
        unfold ownDim at hs
        simp only [hG] at hs
        simpa using hs
      rw [none']
      simp [lookNew]
    have len' : f'.grps.length = f.grps.length := by rw [eG]; simp
    have ch : ∀ n k, chain f' n k = chain f n k := by
      intro m k
      rw [← hf]
      exact chain_modify f _ g (fun G => { G with dims := G.dims ++ [f.dims.length] }) (fun _ => rfl) m k
    have hm : ∀ name' k, name' ≠ name → ownDim f' name' k = ownDim f name' k := by
      intro name' k hn
      unfold ownDim
      rw [eG]
      simp only [List.getElem?_modify]
      cases hk : f.grps[k]? with
      | none => simp
      | some H =>
        have key : H.dims.find? (fun d => (f'.dims[d]?.map Dim.name) == some name') = H.dims.find? (fun d => (f.dims[d]?.map Dim.name) == some name') :=
          find_congr _ _ _ fun d hd => by rw [lookOld d ((ok k H hk).1 d hd)]
        by_cases h : g = k
        · subst h
          simp only [if_true, Option.map_eq_map, Option.map_some]
          rw [List.find?_append, key]
          have : [f.dims.length].find? (fun d => (f'.dims[d]?.map Dim.name) == some name') = none := by
            simp only [List.find?_cons, lookNew, Option.map_some, List.find?_nil]
            have : (some name == some name') = false := by simpa using fun e : name = name' => hn e.symm
            rw [this]
          rw [this]
          simp
        · simp only [h, if_false, Option.map_eq_map, Option.map_some, id_eq]
          exact key
    refine ⟨?_, ?_, ?_, ?_, ?_, ?_⟩
    · intro k H hk
      rw [eG, List.getElem?_modify] at hk
      rw [len', eD]
      simp only [List.length_append, List.length_singleton]
      cases hk' : f.grps[k]? with
      | none => simp [hk'] at hk
      | some H' =>
        rw [hk'] at hk
        have o := ok k H' hk'
        by_cases h : g = k
        · simp only [h, if_true, Option.map_eq_map, Option.map_some, Option.some.injEq] at hk
          subst hk
          refine ⟨fun d hd => ?_, o.2⟩
          rcases List.mem_append.mp hd with q | q
          · have := o.1 d q; omega
          · simp at q; omega
        · simp only [h, if_false, Option.map_eq_map, Option.map_some, id_eq, Option.some.injEq] at hk
          subst hk
          exact ⟨fun d hd => by have := o.1 d hd; omega, o.2⟩
    · unfold dim ncInqDimid
      rw [len', ch]
      obtain ⟨m, hm⟩ : ∃ m, f.grps.length = m + 1 := ⟨f.grps.length - 1, by omega⟩
      have : ∃ r, chain f f.grps.length g = g :: r := by
        rw [hm]; unfold chain; rw [hG]; exact ⟨_, rfl⟩
      obtain ⟨r, hr⟩ := this
      rw [hr, List.findSome?_cons, ownNew]
      rfl
    · unfold len ncInqDimlen; rw [lookNew]; rfl
    · intro d' m h
      unfold len ncInqDimlen at h ⊢
      cases hx : f.dims[d']? with
      | none => simp [hx, check] at h
      | some x =>
        rw [lookOld d' (List.getElem?_eq_some_iff.mp hx).1]
        exact h
    · intro g' name' hn
      unfold dim ncInqDimid
      rw [len', ch, findSome_congr _ _ _ fun a _ => hm name' a hn]
    · intro m
      unfold defDim ncDefDim
      rw [gg, ownNew]
      rfl

example : Ok exFile := by
  intro g G h
  match g, h with
  | 0, h => cases h; exact ⟨by simp [exFile], by simp⟩
  | 1, h => cases h; exact ⟨by simp [exFile], by simp [exFile]⟩

example : (match defDim exFile 1 "ndim" 3 with | .ok (f, d) => (d, dim f 1 "ndim", dim f 0 "ndim") | _ => (0, .ub, .ub)) = (2, .ok 2, .abort) := by decide +kernel

/-- Specification: the lengths of the dimensions of these names as seen from a group. -/
def lensByName (f : File V) (g : ℕ) : List String → Option (List ℕ)
  | [] => some []
  | n :: r => match dim f g n, lensByName f g r with
    | .ok d, some l => (ncInqDimlen f d).map (· :: l)
    | _, _ => none

theorem lookDims_lens {f : File V} {g : ℕ} {names : List String} {ds : List ℕ} (h : lookDims f g names = .ok ds) : lens f ds = lensByName f g names := by
  induction names generalizing ds with
  | nil => cases h; rfl
  | cons n r ih =>
    unfold lookDims at h
    cases hd : dim f g n with
    | abort => simp [hd] at h
    | ub => simp [hd] at h
    | ok d =>
      cases hr : lookDims f g r with
      | abort => simp [hd, hr] at h
      | ub => simp [hd, hr] at h
      | ok l =>
        simp only [hd, hr, Res.ok.injEq] at h
        subst h
        unfold lens lensByName
        rw [hd, ih hr]
        cases hq : ncInqDimlen f d <;> cases lensByName f g r <;> simp [hq]

/-- **C129**: a variable that is defined is found in its group under its name, its shape is that of the dimensions named, in their
order; other variables stay, a second one of the name aborts. -/
theorem def_array_found {fill : V} {f f' : File V} {g v : ℕ} {name : String} {dnames : List String}
    (h : defArray fill f g name dnames = .ok (f', v)) :
    var f' g name = .ok v ∧ shape f' g v = lensByName f g dnames ∧ (∀ i, theVar f' g v = some i → i.data = fun _ => fill) ∧
    (∀ g' v', (g' ≠ g ∨ v' ≠ v) → theVar f' g' v' = theVar f g' v') ∧ ∀ ds, defArray fill f' g name ds = .ok (f', v) → False := by
  unfold defArray at h
  cases hl : lookDims f g dnames with
  | abort => simp [hl] at h
  | ub => simp [hl] at h
  | ok ds =>
    simp only [hl] at h
    unfold ncDefVar at h
    cases hG : f.grps[g]? with
    | none => simp [hG, check] at h
    | some G =>
      simp only [hG] at h
      split_ifs at h with hs
      · simp [check] at h
      simp only [check, Res.ok.injEq, Prod.mk.injEq] at h
      obtain ⟨hf, hv⟩ := h
      subst hv
      have eD : f'.dims = f.dims := by rw [← hf]
      have eG : f'.grps = f.grps.modify g fun G => { G with vars := G.vars ++ [⟨name, ds, fun _ => fill⟩] } := by rw [← hf]
      have gg : f'.grps[g]? = some { G with vars := G.vars ++ [⟨name, ds, fun _ => fill⟩] } := by
        rw [eG, mod_same hG]
      have tv : theVar f' g G.vars.length = some ⟨name, ds, fun _ => fill⟩ := by
        unfold theVar; rw [gg]; simp
      have nv : G.vars.findIdx? (fun v => v.name == name) = none := by
        have := hs
        unfold ncInqVarid at this
        simp only [hG, Bool.or_eq_true, not_or] at this
        simpa using this.1
      have vv : ncInqVarid f' g name = some G.vars.length := by
        unfold ncInqVarid
        rw [gg]
        dsimp only
        rw [List.findIdx?_append, nv]
        simp
      refine ⟨by unfold var; rw [vv]; rfl, ?_, ?_, ?_, ?_⟩
      · unfold shape
        rw [tv]
        dsimp only
        have : ∀ l, lens f' l = lens f l := by
          intro l
          induction l with
          | nil => rfl
          | cons a r ih => unfold lens ncInqDimlen; rw [eD, ih]
        rw [this, lookDims_lens hl]
      · intro i hi
        rw [tv] at hi
        cases hi
        rfl
      · intro g' v' hne
        unfold theVar
        rw [eG, List.getElem?_modify]
        cases hk : f.grps[g']? with
        | none => simp
        | some H =>
          by_cases h : g = g'
          · subst h
            rw [hG] at hk
            cases hk
            simp only [if_true, Option.map_eq_map, Option.map_some]
            have hv' : v' ≠ G.vars.length := by rcases hne with q | q; exact absurd rfl q; exact q
            rcases Nat.lt_or_ge v' G.vars.length with q | q
            · rw [List.getElem?_append_left q]
            · rw [List.getElem?_append_right q, List.getElem?_eq_none (by simp; omega), List.getElem?_eq_none q]
          · simp [h]
      · intro ds' h'
        unfold defArray at h'
        cases hl' : lookDims f' g ds' with
        | abort => simp [hl'] at h'
        | ub => simp [hl'] at h'
        | ok q =>
          simp only [hl'] at h'
          unfold ncDefVar at h'
          rw [gg] at h'
          simp [vv, check] at h'

example : (match defArray 0 exFile 1 "temperature" ["num_time_steps", "num_points"] with
    | .ok (f, v) => (v, var f 1 "temperature", shape f 1 v) | _ => (9, .ub, none)) = (1, .ok 1, some [0, 2]) := by decide +kernel

theorem chain_append (f : File V) (ok : Ok f) (D : List Dim) (H : Grp V) (n k : ℕ) (hk : k < f.grps.length) :
    chain (⟨D, f.grps ++ [H]⟩ : File V) n k = chain f n k := by
  induction n generalizing k with
  | zero => rfl
  | succ n ih =>
    unfold chain
    rw [List.getElem?_append_left hk]
    cases hG : f.grps[k]? with
    | none => rfl
    | some G =>
      dsimp only
      cases hp : G.parent with
      | none => rfl
      | some p => dsimp only; rw [ih p ((ok k G hG).2 p hp)]

/-- **C129**: a group that is defined is found by its name, is empty, and sees the dimensions of the group it is in. -/
theorem def_group_found {f f' : File V} (ok : Ok f) {g h : ℕ} {name : String} (e : defGroup f g name = .ok (f', h)) :
    Ok f' ∧ group f' g name = .ok h ∧ numDims f' h = 0 ∧ numVars f' h = 0 ∧ (∀ n, dim f' h n = dim f g n) ∧ ∀ k v, k ≠ h → theVar f' k v = theVar f k v := by
  unfold defGroup ncDefGrp at e
  cases hG : f.grps[g]? with
  | none => simp [hG, check] at e
  | some G =>
    simp only [hG] at e
    split_ifs at e with hs
    · simp [check] at e
    simp only [check, Res.ok.injEq, Prod.mk.injEq] at e
    obtain ⟨hf, hh⟩ := e
    subst hh
    have hgl := ok_lookup hG
    have eD : f'.dims = f.dims := by rw [← hf]
    have eG : f'.grps = f.grps ++ [⟨name, some g, [], []⟩] := by rw [← hf]
    have new : f'.grps[f.grps.length]? = some ⟨name, some g, [], []⟩ := by rw [eG]; simp
    have ng : f.grps.findIdx? (fun G => G.parent == some g && G.name == name) = none := by
      have := hs
      simp only [Bool.or_eq_true, not_or] at this
      have := this.2
      unfold ncInqNcid at this
      simpa using this
    refine ⟨?_, ?_, ?_, ?_, ?_, ?_⟩
    · intro k H hk
      rw [eD, eG, List.length_append, List.length_singleton]
      rcases Nat.lt_or_ge k f.grps.length with q | q
      · rw [eG, List.getElem?_append_left q] at hk
        exact ⟨(ok k H hk).1, fun p hp => by have := (ok k H hk).2 p hp; omega⟩
      · have : k = f.grps.length := by
          have := ok_lookup hk
          rw [eG, List.length_append, List.length_singleton] at this
          omega
        subst this
        rw [new] at hk
        cases hk
        exact ⟨by simp, fun p hp => by cases hp; omega⟩
    · unfold group ncInqNcid
      rw [eG, List.findIdx?_append, ng]
      simp [check]
    · unfold numDims; rw [new]; rfl
    · unfold numVars; rw [new]; rfl
    · intro n
      unfold dim ncInqDimid
      have c1 : chain f' f'.grps.length f.grps.length = f.grps.length :: chain f f.grps.length g := by
        rw [show f'.grps.length = f.grps.length + 1 by rw [eG]; simp]
        rw [chain, new]
        dsimp only
        rw [← hf, chain_append f ok _ _ _ _ hgl]
      rw [c1, List.findSome?_cons]
      have : ownDim f' n f.grps.length = none := by unfold ownDim; rw [new]; rfl
      rw [this]
      dsimp only
      congr 1
      refine findSome_congr _ _ _ fun a ha => ?_
      have hin : ∀ m k, k < f.grps.length → ∀ a ∈ chain f m k, a < f.grps.length := by
        intro m
        induction m with
        | zero => intro k _ a ha; simp [chain] at ha
        | succ m ih =>
          intro k hk a ha
          unfold chain at ha
          cases hK : f.grps[k]? with
          | none => simp [hK] at ha
          | some K =>
            simp only [hK, List.mem_cons] at ha
            rcases ha with rfl | ha
            · exact hk
            · cases hp : K.parent with
              | none => simp [hp] at ha
              | some p => rw [hp] at ha; exact ih p ((ok k K hK).2 p hp) a ha
      have := hin _ _ hgl a ha
      unfold ownDim
      rw [eG, List.getElem?_append_left this, eD]
    · intro k v hk
      unfold theVar
      rw [eG]
      rcases Nat.lt_or_ge k f.grps.length with q | q
      · rw [List.getElem?_append_left q]
      · rw [List.getElem?_eq_none q, List.getElem?_eq_none (by simp; omega)]

/-- **C129**: `all_vars` lists the variables of the group, each once and in order. -/
theorem all_vars_spec {f : File V} {g : ℕ} {G : Grp V} (h : f.grps[g]? = some G) : (allVars f g).map (theVar f g) = G.vars.map some := by
  unfold allVars numVars
  rw [h]
  refine List.ext_getElem (by simp) fun i h1 h2 => ?_
  have q : i < G.vars.length := by simpa using h2
  simp [theVar, h, q]

/-- **C129** fails for `all_dims` outside the file itself: the only dimension of a new group is listed as the first dimension of the file. -/
theorem all_dims_wrong {f f1 f2 : File V} (ok : Ok f) (hd : f.dims ≠ []) {g h n d : ℕ} {gname dname : String}
    (e1 : defGroup f g gname = .ok (f1, h)) (e2 : defDim f1 h dname n = .ok (f2, d)) : allDims f2 h = [0] ∧ dim f2 h dname = .ok d ∧ d ≠ 0 := by
  obtain ⟨ok1, -, n0, -⟩ := def_group_found ok e1
  obtain ⟨-, q, -⟩ := def_dim_found ok1 e2
  have eD : f1.dims = f.dims := by
    unfold defGroup ncDefGrp at e1
    cases hG : f.grps[g]? with
    | none => simp [hG, check] at e1
    | some G =>
      simp only [hG] at e1
      split_ifs at e1
      · simp [check] at e1
      · simp only [check, Res.ok.injEq, Prod.mk.injEq] at e1
        rw [← e1.1]
  unfold defDim ncDefDim at e2
  cases hG : f1.grps[h]? with
  | none => simp [hG, check] at e2
  | some G =>
    simp only [hG] at e2
    split_ifs at e2
    · simp [check] at e2
    · simp only [check, Res.ok.injEq, Prod.mk.injEq] at e2
      have hl : G.dims = [] := by
        unfold numDims at n0
        rw [hG] at n0
        exact List.eq_nil_of_length_eq_zero n0
      refine ⟨?_, q, ?_⟩
      · have : f2.grps[h]? = some { G with dims := G.dims ++ [f1.dims.length] } := by
          rw [← e2.1]; simp only; rw [mod_same hG]
        unfold allDims numDims
        rw [this]
        simp [hl]
      · rw [← e2.2, eD]
        exact fun q => hd (List.eq_nil_of_length_eq_zero q)

/-- **C129**: in a group whose dimensions are the first ones of the file, as the file itself if its dimensions are defined first,
`all_dims` is right, and only there.

Partial (C129). Missing: groups, whose way up and names are wrong (`way_up_wrong`). -/
theorem all_dims_iff_partial {f : File V} {g : ℕ} {G : Grp V} (h : f.grps[g]? = some G) : allDims f g = G.dims ↔ ∀ i (q : i < G.dims.length), G.dims[i] = i := by
  unfold allDims numDims
  rw [h]
  simp only [List.map_id']
  constructor
  · intro e i q
    have := congrArg (·[i]?) e
    simp only [List.getElem?_range q, List.getElem?_eq_getElem q] at this
    exact (Option.some.inj this).symm
  · intro e
    refine List.ext_getElem (by simp) fun i h1 h2 => ?_
    rw [List.getElem_range, e i h2]

/-! ## Objects -/

/-- **C129** fails for the way up from a group: the test for the file is inverted.  For every file `parent` and `root` dereference a null
pointer, and every group is its own parent and root. -/
theorem way_up_wrong (n : ℕ) (p : Handle) :
    isRoot (.mk n none) = false ∧ isRoot (.mk n (some p)) = true ∧ parent (.mk n none) = .ub ∧ root (.mk n none) = .ub ∧
    parent (.mk n (some p)) = .ok (.mk n (some p)) ∧ root (.mk n (some p)) = .ok (.mk n (some p)) := by
  refine ⟨rfl, rfl, rfl, ?_, rfl, ?_⟩
  · unfold root; rfl
  · unfold root; rfl

/-- **C129** fails for names of groups: `name` has at least one zero character more than the name, as many as the path of the group is
longer, and `full_name` lets the library write one byte beyond its buffer. -/
theorem group_name_wrong (full name : List Char) (h : name.length ≤ full.length) :
    groupName full name ≠ name ∧ (groupName full name).length = full.length + 1 ∧ (groupName full name).take name.length = name ∧
    fullName full = .ub ∧ fullNameWritten full = full.length + 1 := by
  refine ⟨fun e => ?_, ?_, ?_, ?_, ?_⟩
  · have := congrArg List.length e
    simp [groupName] at this
    omega
  · simp [groupName]; omega
  · simp [groupName]
  · simp [fullName, fullNameWritten]
  · simp [fullNameWritten]

/-- **C129**: a file is closed exactly once, by `close` or at the end of its life; closing it twice aborts. -/
theorem close_once : (∃ o, close opened = .ok o ∧ o.lib = false ∧ destroy o = .ok o ∧ close o = .abort) ∧ ∃ o, destroy opened = .ok o ∧ o.lib = false :=
  ⟨⟨⟨false, false⟩, rfl, rfl, rfl, rfl⟩, ⟨false, true⟩, rfl, rfl⟩

theorem lens_dims {f : File V} : ∀ {is l : List ℕ}, lens f is = some l → ∃ L, dimsOf f.dims is = some L ∧ l = L.map Dim.len := by
  intro is
  induction is with
  | nil => intro l h; simp only [lens, Option.some.injEq] at h; exact ⟨[], rfl, h.symm⟩
  | cons d r ih =>
    intro l h
    unfold lens ncInqDimlen at h
    cases hd : f.dims[d]? <;> cases hr : lens f r <;> simp [hd, hr] at h
    obtain ⟨L, e1, e2⟩ := ih hr
    refine ⟨_, by unfold dimsOf; rw [hd, e1], ?_⟩
    rw [← h, e2]; rfl

theorem fits_whole (grow : Bool) (L : List Dim) : fitsAll grow L (L.map fun d => ⟨0, d.len, 1⟩) = true := by
  induction L with
  | nil => rfl
  | cons d L ih =>
    simp only [List.map_cons, fitsAll, ih, Bool.and_true]
    have : (Sl.stop ⟨0, d.len, 1⟩) ≤ d.len := by unfold Sl.stop; simp only; split <;> omega
    simp [fits, this]

theorem volume_whole (l : List ℕ) : volume (l.map fun n => ⟨0, n, 1⟩) = l.prod := by
  induction l with
  | nil => rfl
  | cons n l ih =>
    unfold volume at ih ⊢
    rw [List.map_cons, List.map_cons, List.prod_cons, List.prod_cons, ih]

/-- **C129**: reading a whole variable gives all its elements and no other, last index fastest; writing one is possible with as many values as it
has elements, and they are read back. -/
theorem whole_variable {f : File V} {g v : ℕ} {x : Var V} {l : List ℕ} (hx : theVar f g v = some x) (hl : shape f g v = some l) :
    (∀ i, i ∈ indices (whole f g v) ↔ List.Forall₂ (fun n k => k < n) l i) ∧
    getAll f g v = .ok ((indices (whole f g v)).map x.data) ∧
    ∀ vals : List V, vals.length = l.prod → (∀ n ∈ l, 0 < n) → ∃ f', putAll f g v vals = .ok f' ∧ get f' g v (whole f g v) = .ok vals := by
  have hw : whole f g v = l.map fun n => ⟨0, n, 1⟩ := by unfold whole; rw [hl]; rfl
  have hs : lens f x.dims = some l := by unfold shape at hl; rw [hx] at hl; exact hl
  obtain ⟨L, e1, e2⟩ := lens_dims hs
  have hw' : whole f g v = L.map fun d => ⟨0, d.len, 1⟩ := by rw [hw, e2, List.map_map]; rfl
  have ll : (whole f g v).length = L.length := by rw [hw', List.length_map]
  have tk : (whole f g v).take L.length = whole f g v := List.take_of_length_le ll.le
  refine ⟨fun i => ?_, ?_, fun vals hv hp => ?_⟩
  · rw [mem_indices, hw, List.forall₂_map_left_iff]
    simp only [zero_add, mul_one]
    constructor <;> intro h <;> refine h.imp fun n k hk => ?_
    · obtain ⟨j, hj, rfl⟩ := hk; exact hj
    · exact ⟨k, hk, rfl⟩
  · unfold getAll get
    simp only [hx, e1, ll, lt_irrefl, if_false, tk]
    rw [hw', fits_whole]
    rfl
  · have hvol : volume (whole f g v) = vals.length := by rw [hw, volume_whole, hv]
    have : ∃ f', put f g v (whole f g v) vals = .ok f' := by
      unfold put
      simp only [hx, e1, ll, lt_irrefl, if_false, tk, indices_length, hvol]
      rw [hw', fits_whole]
      exact ⟨_, rfl⟩
    obtain ⟨f', h⟩ := this
    refine ⟨f', h, put_get (fun s hs => ?_) h hx ?_ hvol.symm⟩
    · rw [hw, List.mem_map] at hs
      obtain ⟨n, hn, rfl⟩ := hs
      exact hp n hn
    · rw [ll]
      have lL : ∀ (D : List Dim) (is : List ℕ) (L : List Dim), dimsOf D is = some L → L.length = is.length := by
        intro D is
        induction is with
        | nil => intro L h; cases h; rfl
        | cons d r ih =>
          intro L h
          unfold dimsOf at h
          cases hd : D[d]? <;> cases hr : dimsOf D r <;> simp [hd, hr] at h
          subst h
          simp [ih _ hr]
      exact lL _ _ _ e1

example : (match appendRows 1 0 0 [2] [[1, 2], [3, 4]] exFile with
    | .ok f => ((theVar f 1 0).isSome, shape f 1 0, getAll f 1 0, match putAll f 1 0 [5, 6, 7, 8] with | .ok f' => getAll f' 1 0 | _ => .ub)
    | _ => (false, none, .ub, .ub)) = (true, some [2, 2], .ok [1, 2, 3, 4], .ok [5, 6, 7, 8]) := by decide +kernel

end AmrWind.Nc
