import Mathlib.Data.List.Perm.Basic
import Mathlib.Data.List.Nodup
import Mathlib.Tactic.Ring
import Mathlib.Tactic.Linarith
import Verif.Field.ProgModel
import Verif.Field.FillProps

/-!
# C140: what a sequence of loops, fills and reductions computes does not depend on boxes and ranks
-/

set_option linter.unusedSectionVars false

namespace AmrWind.Prog

open FieldOps (Cell Box Layout Fld boxes inside Valid inside_iff)
open Fill (Geo Ok Covers Same InArray)

variable {K : Type*}

/-- Boxes of a level have no cell in common. -/
def Disjoint (L : Layout) : Prop := ∀ lev b b' c, Valid L lev b c → Valid L lev b' c → b = b'

/-- Every box is held by exactly one rank. -/
def Distributed (L : Layout) (ranks : List (ℕ → List ℕ)) : Prop := ∀ lev < L.length, (ranks.flatMap fun own => own lev).Perm (List.range (boxes L lev).length)

/-- The same cells on each level. -/
def SameCells (L L' : Layout) : Prop := L.length = L'.length ∧ ∀ lev c, (∃ b, Valid L lev b c) ↔ ∃ b, Valid L' lev b c

/-- The fields have the same values in all cells, and in `A n` layers of ghost cells of field `n`; the scalars are the same. -/
structure Agree (A : ℕ → ℤ) (L : Layout) (s : St K) (L' : Layout) (s' : St K) : Prop where
  sc : s.sc = s'.sc
  cells : ∀ n, Same L (s.fld n) L' (s'.fld n)
  ghost : ∀ n lev b b' c k, InArray L (fun _ => A n) lev b c → InArray L' (fun _ => A n) lev b' c → k < (s.fld n).ncomp → (s.fld n).val lev b c k = (s'.fld n).val lev b' c k

/-! ### Lemmas -/

theorem nodup_span (lo hi : ℤ) : (FieldOps.span lo hi).Nodup :=
  List.Nodup.map (fun a b h => by simpa using h) List.nodup_range

theorem nodup_box_cells (x : Box) : x.cells.Nodup := by
  unfold FieldOps.Box.cells
  refine List.nodup_flatMap.mpr ⟨fun k _ => List.nodup_flatMap.mpr ⟨fun j _ => List.Nodup.map (fun a b h => by simpa using congrFun h 0) (nodup_span _ _), ?_⟩, ?_⟩
  · refine (nodup_span _ _).imp ?_
    intro a b hab
    simp only [Function.onFun, List.disjoint_left, List.mem_map]
    rintro c ⟨i, -, rfl⟩ ⟨i', -, e⟩
    exact hab (by simpa using (congrFun e 1).symm)
  · refine (nodup_span _ _).imp ?_
    intro a b hab
    simp only [Function.onFun, List.disjoint_left, List.mem_flatMap, List.mem_map]
    rintro c ⟨j, -, i, -, rfl⟩ ⟨j', -, i', -, e⟩
    exact hab (by simpa using (congrFun e 2).symm)

/-- The cells of a level in the order of the boxes. -/
def levelCells (L : Layout) (lev : ℕ) : List (ℕ × Cell) :=
  (List.range (boxes L lev).length).flatMap fun b => match (boxes L lev)[b]? with
    | none => []
    | some x => x.cells.map fun c => (b, c)

theorem valid_boxes {L : Layout} {lev b : ℕ} {c : Cell} : Valid L lev b c ↔ ∃ x, (boxes L lev)[b]? = some x ∧ ∀ d, x.lo d ≤ c d ∧ c d ≤ x.hi d := by
  unfold FieldOps.Valid FieldOps.boxes
  constructor
  · rintro ⟨l, x, h1, h2, h3⟩; exact ⟨x, by rw [h1]; exact h2, h3⟩
  · rintro ⟨x, h2, h3⟩
    cases h1 : L[lev]? with
    | none => rw [h1] at h2; simp at h2
    | some l => exact ⟨l, x, rfl, by rw [h1] at h2; exact h2, h3⟩

theorem mem_levelCells {L : Layout} {lev : ℕ} {p : ℕ × Cell} : p ∈ levelCells L lev ↔ Valid L lev p.1 p.2 := by
  obtain ⟨b, c⟩ := p
  unfold levelCells
  rw [List.mem_flatMap, valid_boxes]
  constructor
  · rintro ⟨b', hb', hm⟩
    cases e : (boxes L lev)[b']? with
    | none => rw [e] at hm; simp at hm
    | some x =>
      rw [e] at hm
      obtain ⟨c', hc', h⟩ := List.mem_map.mp hm
      cases h
      exact ⟨x, e, FieldOps.mem_cells.mp hc'⟩
  · rintro ⟨x, e, hx⟩
    refine ⟨b, List.mem_range.mpr (List.getElem?_eq_some_iff.mp e).1, ?_⟩
    rw [e]
    exact List.mem_map.mpr ⟨c, FieldOps.mem_cells.mpr hx, rfl⟩

theorem nodup_levelCells (L : Layout) (lev : ℕ) : (levelCells L lev).Nodup := by
  unfold levelCells
  refine List.nodup_flatMap.mpr ⟨fun b _ => ?_, List.nodup_range.imp fun {a b} hab => ?_⟩
  · cases (boxes L lev)[b]? with
    | none => exact List.nodup_nil
    | some x => exact List.Nodup.map (fun a b h => (Prod.mk.inj h).2) (nodup_box_cells x)
  · simp only [Function.onFun, List.disjoint_left]
    intro p h1 h2
    have : ∀ b, p ∈ (match (boxes L lev)[b]? with | none => [] | some x => x.cells.map fun c => (b, c)) → p.1 = b := by
      intro b h
      cases e : (boxes L lev)[b]? with
      | none => rw [e] at h; simp at h
      | some x =>
        rw [e] at h
        obtain ⟨c, -, rfl⟩ := List.mem_map.mp h
        rfl
    exact hab ((this a h1).symm.trans (this b h2))

/-- Disjoint boxes: the cells of a level, each once, in any order. -/
theorem cells_perm {L L' : Layout} (hd : Disjoint L) (hd' : Disjoint L') (hs : SameCells L L') (lev : ℕ) :
    ((levelCells L lev).map Prod.snd).Perm ((levelCells L' lev).map Prod.snd) := by
  have nd : ∀ {M : Layout}, Disjoint M → ((levelCells M lev).map Prod.snd).Nodup := by
    intro M h
    refine List.Nodup.map_on (fun p hp q hq e => ?_) (nodup_levelCells M lev)
    have h1 := mem_levelCells.mp hp
    have h2 := mem_levelCells.mp hq
    rw [← e] at h2
    exact Prod.ext (h lev _ _ _ h1 h2) e
  refine (List.perm_ext_iff_of_nodup (nd hd) (nd hd')).mpr fun c => ?_
  have mm : ∀ M : Layout, c ∈ (levelCells M lev).map Prod.snd ↔ ∃ b, Valid M lev b c := by
    intro M
    rw [List.mem_map]
    constructor
    · rintro ⟨p, hp, rfl⟩; exact ⟨p.1, mem_levelCells.mp hp⟩
    · rintro ⟨b, hb⟩; exact ⟨(b, c), mem_levelCells.mpr hb, rfl⟩
  rw [mm, mm]
  exact hs.2 lev c

theorem leaf_same {S : Setup K} (hr : 1 ≤ S.ratio) {L L' : Layout} (hn : ∀ lev x, x ∈ boxes L lev → ∀ d, x.lo d ≤ x.hi d) (hn' : ∀ lev x, x ∈ boxes L' lev → ∀ d, x.lo d ≤ x.hi d)
    (hs : SameCells L L') (lev : ℕ) (c : Cell) : leaf S L lev c = leaf S L' lev c := by
  have go : ∀ {M M' : Layout}, (∀ lev x, x ∈ boxes M lev → ∀ d, x.lo d ≤ x.hi d) → (∀ lev c, (∃ b, Valid M lev b c) → ∃ b, Valid M' lev b c) →
      ((boxes M (lev + 1)).any fun x => decide (∀ d, x.lo d / S.ratio ≤ c d ∧ c d ≤ x.hi d / S.ratio)) = true →
      ((boxes M' (lev + 1)).any fun x => decide (∀ d, x.lo d / S.ratio ≤ c d ∧ c d ≤ x.hi d / S.ratio)) = true := by
    intro M M' hn hm h
    obtain ⟨x, hx, h⟩ := List.any_eq_true.mp h
    have h := of_decide_eq_true h
    obtain ⟨b, hb⟩ := List.mem_iff_getElem?.mp hx
    obtain ⟨b', hv⟩ := hm (lev + 1) (fun d => max (x.lo d) (c d * S.ratio)) ⟨b, valid_boxes.mpr ⟨x, hb, fun d => ⟨le_max_left _ _, max_le (hn _ x hx d) ((Int.le_ediv_iff_mul_le (by omega)).mp (h d).2)⟩⟩⟩
    · obtain ⟨x', hb', hx'⟩ := valid_boxes.mp hv
      refine List.any_eq_true.mpr ⟨x', List.mem_iff_getElem?.mpr ⟨b', hb'⟩, decide_eq_true fun d => ?_⟩
      obtain ⟨q1, q2⟩ := hx' d
      have q3 := h d
      constructor
      · have : max (x.lo d) (c d * S.ratio) / S.ratio ≤ c d := by
          rcases max_choice (x.lo d) (c d * S.ratio) with e | e <;> rw [e]
          · exact q3.1
          · rw [Int.mul_ediv_cancel _ (by omega)]
        exact (Int.ediv_le_ediv (by omega) q1).trans this
      · exact (Int.le_ediv_iff_mul_le (by omega)).mpr ((le_max_right _ _).trans q2)
  unfold leaf
  congr 1
  rw [Bool.eq_iff_iff]
  exact ⟨go hn fun lev c => (hs.2 lev c).1, go hn' fun lev c => (hs.2 lev c).2⟩

/-! ### Reductions -/

theorem red_absorb (r : Red K) (l : List K) : r.op r.e (l.foldr r.op r.e) = l.foldr r.op r.e := by
  induction l with
  | nil => exact r.start
  | cons a l ih => rw [List.foldr_cons, ← r.assoc, r.comm r.e a, r.assoc, ih]

theorem red_append (r : Red K) (l m : List K) : r.op (l.foldr r.op r.e) (m.foldr r.op r.e) = (l ++ m).foldr r.op r.e := by
  induction l with
  | nil => exact red_absorb r m
  | cons a l ih => rw [List.foldr_cons, r.assoc, ih]; rfl

theorem red_ranks (r : Red K) {R : Type*} (f : R → List K) (ranks : List R) :
    ranks.foldr (fun own acc => r.op ((f own).foldr r.op r.e) acc) r.e = (ranks.flatMap f).foldr r.op r.e := by
  induction ranks with
  | nil => rfl
  | cons a l ih => rw [List.foldr_cons, ih, red_append, List.flatMap_cons]

theorem red_perm (r : Red K) {l m : List K} (h : l.Perm m) : l.foldr r.op r.e = m.foldr r.op r.e := by
  induction h with
  | nil => rfl
  | cons a _ ih => rw [List.foldr_cons, List.foldr_cons, ih]
  | swap a b l => simp only [List.foldr_cons]; rw [← r.assoc, r.comm b a, r.assoc]
  | trans _ _ h1 h2 => exact h1.trans h2

theorem flatMap_comm {R A B : Type*} (rs : List R) (as : List A) (f : R → A → List B) :
    (rs.flatMap fun r => as.flatMap fun a => f r a).Perm (as.flatMap fun a => rs.flatMap fun r => f r a) := by
  induction rs with
  | nil => simp
  | cons r rs ih =>
    simp only [List.flatMap_cons]
    refine (ih.append_left _).trans ?_
    clear ih
    induction as with
    | nil => simp
    | cons a as ih =>
      simp only [List.flatMap_cons]
      rw [List.append_assoc, List.append_assoc]
      refine List.Perm.append_left _ ?_
      rw [← List.append_assoc]
      refine (List.Perm.append_right _ List.perm_append_comm).trans ?_
      rw [List.append_assoc]
      exact List.Perm.append_left _ ih

/-- All contributions of all ranks: one per cell. -/
theorem contributions_perm [Field K] {S : Setup K} {L : Layout} {ranks : List (ℕ → List ℕ)} (hr : Distributed L ranks) (s : St K) (reads : List (ℕ × ℤ)) (body : Kern K K) :
    (ranks.flatMap (contributions S L s reads body)).Perm
      ((List.range L.length).flatMap fun lev => (levelCells L lev).map fun p => body s.sc lev p.2 (leaf S L lev p.2) (look s lev p.1 reads p.2)) := by
  unfold contributions
  refine (flatMap_comm ranks (List.range L.length) _).trans ?_
  refine List.Perm.flatMap_left _ fun lev hl => ?_
  rw [← List.flatMap_assoc]
  refine (List.Perm.flatMap_right _ (hr lev (List.mem_range.mp hl))).trans ?_
  unfold levelCells
  rw [List.map_flatMap]
  refine List.Perm.of_eq (List.flatMap_congr fun b _ => ?_)
  cases (boxes L lev)[b]? with
  | none => rfl
  | some x => simp

/-! ### One statement -/

/-- What the two cuttings of the mesh have to satisfy. -/
structure Mesh (S : Setup K) (L : Layout) (ranks : List (ℕ → List ℕ)) : Prop where
  ok : ∀ sc n, Ok (S.geo sc n) L
  covers : ∀ sc n, Covers (S.geo sc n) L
  disjoint : Disjoint L
  ranks : Distributed L ranks

theorem Mesh.nonempty {S : Setup K} {L : Layout} {ranks : List (ℕ → List ℕ)} (h : Mesh S L ranks) (sc : ℕ → K) : ∀ lev x, x ∈ boxes L lev → ∀ d, x.lo d ≤ x.hi d := by
  intro lev x hx d
  unfold FieldOps.boxes at hx
  cases e : L[lev]? with
  | none => rw [e] at hx; simp at hx
  | some l => rw [e] at hx; exact ((h.ok sc 0).box lev l x e hx d).2.1

theorem look_same [Field K] {A : ℕ → ℤ} {L L' : Layout} {s s' : St K} (h : Agree A L s L' s') {reads : List (ℕ × ℤ)} {g : ℤ} (hr : ∀ r ∈ reads, r.2 + g ≤ A r.1)
    {lev b b' : ℕ} {c : Cell} (ha : InArray L (fun _ => g) lev b c) (ha' : InArray L' (fun _ => g) lev b' c) : look s lev b reads c = look s' lev b' reads c := by
  funext n c' k
  unfold look
  rw [← (h.cells n).1]
  split_ifs with hh
  · obtain ⟨hk, r, hm, rfl, hd⟩ := hh
    obtain ⟨l, x, e1, e2, e3⟩ := ha
    obtain ⟨l', x', f1, f2, f3⟩ := ha'
    have q := hr r hm
    refine h.ghost r.1 lev b b' c' k ⟨l, x, e1, e2, fun d => ?_⟩ ⟨l', x', f1, f2, fun d => ?_⟩ hk
    · have := hd d; have := e3 d; dsimp only at *; omega
    · have := hd d; have := f3 d; dsimp only at *; omega
  · rfl

theorem valid_in {L : Layout} {g : ℤ} (hg : 0 ≤ g) {lev b : ℕ} {c : Cell} (h : Valid L lev b c) : InArray L (fun _ => g) lev b c :=
  Fill.valid_array (fun _ => hg) h

theorem step_agree [Field K] {S : Setup K} {L L' : Layout} {ranks ranks' : List (ℕ → List ℕ)} (hM : Mesh S L ranks) (hM' : Mesh S L' ranks') (hs : SameCells L L')
    {A B : ℕ → ℤ} {i : Instr K} (hk : known A i = some B) {s s' : St K} (h0 : Agree A L s L s) (h0' : Agree A L' s' L' s') (h : Agree A L s L' s') :
    Agree B L (step S L ranks s i) L' (step S L' ranks' s' i) := by
  cases i with
  | fill n ng =>
    simp only [known] at hk
    split_ifs at hk with hg
    cases hk
    have hgeo : S.geo s.sc n = S.geo s'.sc n := by rw [h.sc]
    have hc' := hM'.covers s.sc n
    refine ⟨h.sc, fun m => ?_, fun m lev b b' c k ha ha' hk => ?_⟩
    · unfold step
      dsimp only
      by_cases hm : m = n
      · subst hm
        simp only [Function.update_self]
        refine ⟨?_, fun lev c => ⟨((h.cells m).2 lev c).1, fun b b' hv hv' => ?_⟩⟩
        · unfold Fill.fillpatch
          rw [(Fill.levels_any_order (hM.ok _ _) (hM.covers _ _) (h0.cells m) (fun _ => hg) _).1, (Fill.levels_any_order (hM'.ok _ _) (hM'.covers _ _) (h0'.cells m) (fun _ => hg) _).1]
          exact (h.cells m).1
        · funext k
          rw [Fill.fill_keeps (hM.ok _ _) (hM.covers _ _) (h0.cells m) (fun _ => hg) lev b c k (Or.inl hv),
            Fill.fill_keeps (hM'.ok _ _) (hM'.covers _ _) (h0'.cells m) (fun _ => hg) lev b' c k (Or.inl hv'), ((h.cells m).2 lev c).2 b b' hv hv']
      · rw [Function.update_of_ne hm, Function.update_of_ne hm]
        exact h.cells m
    · unfold step at hk ⊢
      dsimp only at hk ⊢
      by_cases hm : m = n
      · subst hm
        simp only [Function.update_self] at hk ha ha' ⊢
        unfold Fill.fillpatch at hk
        rw [(Fill.levels_any_order (hM.ok _ _) (hM.covers _ _) (h0.cells m) (fun _ => hg) _).1] at hk
        rw [← hgeo]
        exact Fill.decomposition_free_partial (hM.ok _ _) (hM'.ok _ _) (hM.covers _ _) (h0.cells m) (h0'.cells m) (h.cells m) (fun _ => hg) (fun _ => hg) ha ha' hk
      · rw [Function.update_of_ne hm] at hk ha ha' ⊢
        rw [Function.update_of_ne hm]
        exact h.ghost m lev b b' c k ha ha' hk
  | loop dst grow reads body =>
    simp only [known] at hk
    split_ifs at hk with hg
    cases hk
    obtain ⟨hg, hr⟩ := hg
    have lf := fun lev c => leaf_same ((hM.ok s.sc 0).ratio) (hM.nonempty s.sc) (hM'.nonempty s.sc) hs lev c
    have new : ∀ {lev b b' : ℕ} {c : Cell} (k : ℕ), InArray L (fun _ => grow) lev b c → InArray L' (fun _ => grow) lev b' c →
        body s.sc lev c (leaf S L lev c) (look s lev b reads c) k = body s'.sc lev c (leaf S L' lev c) (look s' lev b' reads c) k := by
      intro lev b b' c k ha ha'
      rw [lf, h.sc, look_same h (fun r hm => (hr r hm).2.1) ha ha']
    refine ⟨h.sc, fun m => ?_, fun m lev b b' c k ha ha' hk => ?_⟩
    · unfold step
      dsimp only
      by_cases hm : m = dst
      · subst hm
        simp only [Function.update_self]
        refine ⟨(h.cells m).1, fun lev c => ⟨((h.cells m).2 lev c).1, fun b b' hv hv' => ?_⟩⟩
        have i1 : inside L (fun _ => grow) lev b c = true := (inside_iff _ _ _ _ _).2 (valid_in hg hv)
        have i2 : inside L' (fun _ => grow) lev b' c = true := (inside_iff _ _ _ _ _).2 (valid_in hg hv')
        funext k
        dsimp only
        rw [i1, i2, ← (h.cells m).1, new k (valid_in hg hv) (valid_in hg hv'), ((h.cells m).2 lev c).2 b b' hv hv']
      · rw [Function.update_of_ne hm, Function.update_of_ne hm]
        exact h.cells m
    · unfold step at hk ⊢
      dsimp only at hk ⊢
      by_cases hm : m = dst
      · subst hm
        simp only [Function.update_self] at hk ha ha' ⊢
        have i1 : inside L (fun _ => grow) lev b c = true := (inside_iff _ _ _ _ _).2 ha
        have i2 : inside L' (fun _ => grow) lev b' c = true := (inside_iff _ _ _ _ _).2 ha'
        rw [i1, i2, if_pos ⟨rfl, hk⟩, if_pos ⟨rfl, by rw [← (h.cells m).1]; exact hk⟩, new k ha ha']
      · rw [Function.update_of_ne hm] at hk ha ha' ⊢
        rw [Function.update_of_ne hm]
        exact h.ghost m lev b b' c k ha ha' hk
  | reduce n r reads body =>
    simp only [known] at hk
    split_ifs at hk with hr
    cases hk
    refine ⟨?_, h.cells, h.ghost⟩
    unfold step
    dsimp only
    rw [h.sc]
    congr 1
    rw [red_ranks, red_ranks, red_perm r (contributions_perm hM.ranks s reads body), red_perm r (contributions_perm hM'.ranks s' reads body)]
    refine red_perm r ?_
    rw [hs.1]
    refine List.Perm.flatMap_left _ fun lev hl => ?_
    -- a value per cell, whichever box holds it
    have key : ∀ (M : Layout) (t : St K), Agree A M t M t → (∀ lev c, leaf S M lev c = leaf S L lev c) → ∀ (V : ℕ → Cell → K),
        (∀ b c, Valid M lev b c → body t.sc lev c (leaf S M lev c) (look t lev b reads c) = V lev c) →
        ((levelCells M lev).map fun p => body t.sc lev p.2 (leaf S M lev p.2) (look t lev p.1 reads p.2)) = ((levelCells M lev).map Prod.snd).map (V lev) := by
      intro M t _ _ V hV
      rw [List.map_map]
      exact List.map_congr_left fun p hp => hV p.1 p.2 (mem_levelCells.mp hp)
    have lf := fun lev c => leaf_same ((hM.ok s.sc 0).ratio) (hM.nonempty s.sc) (hM'.nonempty s.sc) hs lev c
    classical
    let V : ℕ → Cell → K := fun lev c => if hc : ∃ b, Valid L lev b c then body s.sc lev c (leaf S L lev c) (look s lev hc.choose reads c) else 0
    have hr' : ∀ r ∈ reads, r.2 + 0 ≤ A r.1 := fun r hm => by have := (hr r hm).2; omega
    have v1 : ∀ b c, Valid L lev b c → body s.sc lev c (leaf S L lev c) (look s lev b reads c) = V lev c := by
      intro b c hv
      have hc : ∃ b, Valid L lev b c := ⟨b, hv⟩
      simp only [V, dif_pos hc]
      rw [look_same h0 hr' (valid_in le_rfl hv) (valid_in le_rfl hc.choose_spec)]
    have v2 : ∀ b c, Valid L' lev b c → body s'.sc lev c (leaf S L' lev c) (look s' lev b reads c) = V lev c := by
      intro b c hv
      have hc : ∃ b, Valid L lev b c := (hs.2 lev c).2 ⟨b, hv⟩
      simp only [V, dif_pos hc]
      rw [← lf, h.sc, look_same h hr' (valid_in le_rfl hc.choose_spec) (valid_in le_rfl hv)]
    rw [key L s h0 (fun _ _ => rfl) V v1, key L' s' h0' (fun _ _ => (lf _ _).symm) V v2]
    exact (cells_perm hM.disjoint hM'.disjoint hs lev).map _
  | solve dst reads F =>
    cases hk
    have src : (fun n l c => if n ∈ reads then Fill.own L (s.fld n) l c else none) = fun n l c => if n ∈ reads then Fill.own L' (s'.fld n) l c else none := by
      funext n l c
      rw [Fill.own_same (h.cells n)]
    have val : ∀ {M : Layout} {lev b : ℕ} {c : Cell}, InArray M (fun _ => 0) lev b c → Valid M lev b c := by
      rintro M lev b c ⟨l, x, e1, e2, e3⟩
      exact ⟨l, x, e1, e2, fun d => by have := e3 d; dsimp only at this; omega⟩
    refine ⟨h.sc, fun m => ?_, fun m lev b b' c k ha ha' hk => ?_⟩
    · unfold step
      dsimp only
      by_cases hm : m = dst
      · subst hm
        simp only [Function.update_self]
        refine ⟨(h.cells m).1, fun lev c => ⟨((h.cells m).2 lev c).1, fun b b' hv hv' => ?_⟩⟩
        funext k
        dsimp only
        rw [(FieldOps.inside_valid L lev b c).2 hv, (FieldOps.inside_valid L' lev b' c).2 hv', ← (h.cells m).1, src, h.sc, ((h.cells m).2 lev c).2 b b' hv hv']
      · rw [Function.update_of_ne hm, Function.update_of_ne hm]
        exact h.cells m
    · unfold step at hk ⊢
      dsimp only at hk ⊢
      by_cases hm : m = dst
      · subst hm
        simp only [Function.update_self] at hk ha ha' ⊢
        rw [(FieldOps.inside_valid L lev b c).2 (val ha), (FieldOps.inside_valid L' lev b' c).2 (val ha'), if_pos ⟨rfl, hk⟩,
          if_pos ⟨rfl, by rw [← (h.cells m).1]; exact hk⟩, src, h.sc]
      · rw [Function.update_of_ne hm] at hk ha ha' ⊢
        rw [Function.update_of_ne hm]
        exact h.ghost m lev b b' c k ha ha' hk
  | scalar n f =>
    cases hk
    exact ⟨by unfold step; dsimp only; rw [h.sc], h.cells, h.ghost⟩

theorem same_refl (L : Layout) : SameCells L L := ⟨rfl, fun _ _ => Iff.rfl⟩

/-- **C140**: a sequence that reads only known ghost cells computes the same scalars and the same values in every cell, for any two ways to cut the cells of the levels into
boxes and to distribute these to any numbers of ranks.

Partial (C140). Missing: the order of floating-point additions and the error of solvers. -/
theorem cutting_free_partial [Field K] {S : Setup K} {L L' : Layout} {ranks ranks' : List (ℕ → List ℕ)} (hM : Mesh S L ranks) (hM' : Mesh S L' ranks') (hs : SameCells L L')
    (p : List (Instr K)) {A B : ℕ → ℤ} (hk : check A p = some B) {s s' : St K} (h0 : Agree A L s L s) (h0' : Agree A L' s' L' s') (h : Agree A L s L' s') :
    (run S L ranks p s).sc = (run S L' ranks' p s').sc ∧
    (∀ n lev b b' c, Valid L lev b c → Valid L' lev b' c → ((run S L ranks p s).fld n).val lev b c = ((run S L' ranks' p s').fld n).val lev b' c) ∧
    Agree B L (run S L ranks p s) L' (run S L' ranks' p s') := by
  have main : Agree B L (run S L ranks p s) L' (run S L' ranks' p s') := by
    induction p generalizing A s s' with
    | nil => cases hk; exact h
    | cons i p ih =>
      unfold check at hk
      rw [Option.bind_eq_some_iff] at hk
      obtain ⟨C, e1, e2⟩ := hk
      exact ih e2 (step_agree hM hM (same_refl L) e1 h0 h0 h0) (step_agree hM' hM' (same_refl L') e1 h0' h0' h0') (step_agree hM hM' hs e1 h0 h0' h)
  exact ⟨main.sc, fun n lev b b' c hv hv' => ((main.cells n).2 lev c).2 b b' hv hv', main⟩

/-- Nothing known but the cells themselves. -/
theorem agree_cells {L L' : Layout} {s s' : St K} (h1 : s.sc = s'.sc) (h2 : ∀ n, Same L (s.fld n) L' (s'.fld n)) : Agree (fun _ => 0) L s L' s' := by
  refine ⟨h1, h2, fun n lev b b' c k ha ha' _ => ?_⟩
  have v : ∀ {M : Layout} {b : ℕ}, InArray M (fun _ => 0) lev b c → Valid M lev b c := by
    rintro M b ⟨l, x, e1, e2, e3⟩
    exact ⟨l, x, e1, e2, fun d => by have := e3 d; dsimp only at this; omega⟩
  rw [((h2 n).2 lev c).2 b b' (v ha) (v ha')]

/-- **C140**: a sequence that passes with nothing known at its beginning gives results that depend only on the values in cells and on the scalars: not on what ghost cells
held, not on boxes, not on ranks. -/
theorem memory_free [Field K] {S : Setup K} {L L' : Layout} {ranks ranks' : List (ℕ → List ℕ)} (hM : Mesh S L ranks) (hM' : Mesh S L' ranks') (hs : SameCells L L')
    (p : List (Instr K)) {B : ℕ → ℤ} (hk : check (fun _ => 0) p = some B) {s s' : St K} (h1 : s.sc = s'.sc) (h2 : ∀ n, Same L (s.fld n) L' (s'.fld n)) :
    (run S L ranks p s).sc = (run S L' ranks' p s').sc ∧
    ∀ n lev b b' c, Valid L lev b c → Valid L' lev b' c → ((run S L ranks p s).fld n).val lev b c = ((run S L' ranks' p s').fld n).val lev b' c := by
  have self : ∀ n, Same L (s.fld n) L (s.fld n) := fun n => ⟨rfl, fun lev c => ⟨Iff.rfl, fun b b' hv hv' => by rw [hM.disjoint lev b b' c hv hv']⟩⟩
  have self' : ∀ n, Same L' (s'.fld n) L' (s'.fld n) := fun n => ⟨rfl, fun lev c => ⟨Iff.rfl, fun b b' hv hv' => by rw [hM'.disjoint lev b b' c hv hv']⟩⟩
  have := cutting_free_partial hM hM' hs p hk (agree_cells rfl self) (agree_cells rfl self') (agree_cells h1 h2)
  exact ⟨this.1, this.2.1⟩

theorem check_append (A : ℕ → ℤ) (p q : List (Instr K)) : check A (p ++ q) = (check A p).bind fun B => check B q := by
  induction p generalizing A with
  | nil => rfl
  | cons i p ih =>
    rw [List.cons_append]
    have e : ∀ r : List (Instr K), check A (i :: r) = (known A i).bind fun B => check B r := fun _ => rfl
    rw [e, e]
    cases known A i with
    | none => rfl
    | some B => exact ih B

/-- **C140**: the update of the Smagorinsky viscosity passes when one layer of ghost cells of the velocity is known, whatever the strain rate computes, and leaves one
layer of the viscosity known; the kinetic energy passes with nothing known. -/
theorem parts_pass [Field K] (strain : Kern K (ℕ → K)) (factor vol : ℕ → K) (total : K) {A : ℕ → ℤ} (hA : ∀ n, 0 ≤ A n) (h0 : 1 ≤ A 0) :
    (∃ B, check A (smagorinsky strain factor) = some B ∧ B 2 = 1 ∧ ∀ n, n ≠ 2 → B n = A n) ∧ check A (kineticEnergy vol total) = some A := by
  have a1 := hA 1
  have a0 := hA 0
  refine ⟨⟨Function.update (Function.update (Function.update A 2 0) 2 0) 2 1, ?_, by simp, fun n hn => by simp [hn]⟩, ?_⟩
  · simp [smagorinsky, check, known, h0, a1]
  · simp [kineticEnergy, check, known, a0, a1]

/-- **C140**: convection with values on faces and a projection pass with nothing known, whatever their stencils and solvers compute, and so do any sequences of whole
steps made of such parts. -/
theorem steps_pass (flux diff rhs grad : Kern K (ℕ → K)) (F : (ℕ → K) → (ℕ → ℕ → Cell → Option (ℕ → K)) → ℕ → Cell → ℕ → K) (n : ℕ) :
    ∃ B, (∀ m, 0 ≤ B m) ∧ check (fun _ => 0) (List.replicate n (convect flux diff ++ project rhs grad F)).flatten = some B := by
  have one : ∀ A : ℕ → ℤ, (∀ m, 0 ≤ A m) → ∃ B, (∀ m, 0 ≤ B m) ∧ check A (convect flux diff ++ project rhs grad F) = some B := by
    intro A hA
    have a1 := hA 1
    refine ⟨Function.update (Function.update (Function.update (Function.update (Function.update (Function.update (Function.update (Function.update (Function.update A 0 3) 8 3) 7 1) 8 0) 0 1) 6 0) 5 0) 5 1) 0 0,
      fun m => ?_, ?_⟩
    · simp only [Function.update_apply]
      split_ifs <;> first | omega | exact hA m
    · simp [convect, project, check, known, a1]
  have all : ∀ n (A : ℕ → ℤ), (∀ m, 0 ≤ A m) → ∃ B, (∀ m, 0 ≤ B m) ∧ check A (List.replicate n (convect flux diff ++ project rhs grad F)).flatten = some B := by
    intro n
    induction n with
    | zero => exact fun A hA => ⟨A, hA, rfl⟩
    | succ n ih =>
      intro A hA
      obtain ⟨B, hB, e⟩ := one A hA
      obtain ⟨C, hC, e'⟩ := ih B hB
      refine ⟨C, hC, ?_⟩
      rw [List.replicate_succ, List.flatten_cons, check_append, e]
      exact e'
  exact all n _ fun _ => le_rfl

/-- **C140**: filling before a loop makes up for anything unknown: a loop over the boxes that reads `w` layers passes after a fill of `w` layers. -/
theorem fill_then_loop {A : ℕ → ℤ} {n dst : ℕ} (h : n ≠ dst) {w : ℤ} (hw : 0 ≤ w) (body : Kern K (ℕ → K)) :
    ∃ B, check A [.fill n w, .loop dst 0 [(n, w)] body] = some B ∧ B dst = 0 := by
  refine ⟨Function.update (Function.update A n w) dst 0, ?_, by simp⟩
  simp [check, known, hw, h]

/-- **C140**: in Kosovic's model the divergence reads ghost cells of a tensor that was computed in cells only: the sequence passes for no state of the ghost cells. -/
theorem kosovic_refused (tensor divergence : Kern K (ℕ → K)) (A : ℕ → ℤ) : check A (kosovic tensor divergence) = none := by
  unfold kosovic check
  cases e : known A (.loop 3 0 [(0, 1)] tensor) with
  | none => rfl
  | some B =>
    have : B 3 = 0 := by
      simp only [known] at e
      split_ifs at e with h
      cases e
      simp
    simp [check, known, this]

/-! ### Two cuttings of a channel -/

/-- The channel of `Fill`, all fields with its boundary values. -/
def chanSetup : Setup ℚ := ⟨Fill.chan.dom, Fill.chan.ratio, Fill.chan.per, fun _ _ => Fill.chan.side, fun _ => Fill.flatMap, 0⟩

/-- Two boxes of the coarse level on two ranks, the fine box on the second. -/
def twoRanks : List (ℕ → List ℕ) := [fun lev => if lev = 0 then [0] else [], fun lev => if lev = 0 then [1] else [0]]

/-- All boxes on one rank. -/
def oneRank : List (ℕ → List ℕ) := [fun lev => if lev = 0 then [0] else [0, 1]]

theorem valid_chan {L : Layout} {lev b : ℕ} {c : Cell} (h : Valid L lev b c) : inside L 0 lev b c = true := (FieldOps.inside_valid L lev b c).2 h

theorem chanBoxes_mesh : Mesh chanSetup Fill.chanBoxes twoRanks := by
  refine ⟨fun _ _ => Fill.chan_ok, fun _ _ => Fill.chan_covers, ?_, ?_⟩
  · rintro lev b b' c ⟨l, x, h1, h2, h3⟩ ⟨l', x', h1', h2', h3'⟩
    rw [h1] at h1'
    cases h1'
    match lev, h1 with
    | 0, h1 =>
      simp only [Fill.chanBoxes, List.getElem?_cons_zero, Option.some.injEq] at h1
      subst h1
      have p := h3 0
      have p' := h3' 0
      match b, b', h2, h2' with
      | 0, 0, _, _ => rfl
      | 1, 1, _, _ => rfl
      | 0, 1, h2, h2' => simp at h2 h2'; subst h2 h2'; simp at p p'; omega
      | 1, 0, h2, h2' => simp at h2 h2'; subst h2 h2'; simp at p p'; omega
      | n + 2, _, h2, _ => simp at h2
      | _, n + 2, _, h2' => simp at h2'
    | 1, h1 =>
      simp only [Fill.chanBoxes, List.getElem?_cons_succ, List.getElem?_cons_zero, Option.some.injEq] at h1
      subst h1
      match b, b', h2, h2' with
      | 0, 0, _, _ => rfl
      | n + 1, _, h2, _ => simp at h2
      | _, n + 1, _, h2' => simp at h2'
    | n + 2, h1 => simp [Fill.chanBoxes] at h1
  · intro lev hl
    match lev, hl with
    | 0, _ => exact List.Perm.refl _
    | 1, _ => exact List.Perm.refl _
    | n + 2, hl => simp [Fill.chanBoxes] at hl

theorem chanOne_covers : Fill.Covers Fill.chan Fill.chanOne := fun c hd => ((Fill.chan_same.2 0 c).1).1 (Fill.chan_covers c hd)

theorem chanOne_mesh : Mesh chanSetup Fill.chanOne oneRank := by
  refine ⟨fun _ _ => Fill.chan_one_ok, fun _ _ => chanOne_covers, ?_, ?_⟩
  · rintro lev b b' c ⟨l, x, h1, h2, h3⟩ ⟨l', x', h1', h2', h3'⟩
    rw [h1] at h1'
    cases h1'
    match lev, h1 with
    | 0, h1 =>
      simp only [Fill.chanOne, List.getElem?_cons_zero, Option.some.injEq] at h1
      subst h1
      match b, b', h2, h2' with
      | 0, 0, _, _ => rfl
      | n + 1, _, h2, _ => simp at h2
      | _, n + 1, _, h2' => simp at h2'
    | 1, h1 =>
      simp only [Fill.chanOne, List.getElem?_cons_succ, List.getElem?_cons_zero, Option.some.injEq] at h1
      subst h1
      have p := h3 1
      have p' := h3' 1
      match b, b', h2, h2' with
      | 0, 0, _, _ => rfl
      | 1, 1, _, _ => rfl
      | 0, 1, h2, h2' => simp at h2 h2'; subst h2 h2'; simp at p p'; omega
      | 1, 0, h2, h2' => simp at h2 h2'; subst h2 h2'; simp at p p'; omega
      | n + 2, _, h2, _ => simp at h2
      | _, n + 2, _, h2' => simp at h2'
    | n + 2, h1 => simp [Fill.chanOne] at h1
  · intro lev hl
    match lev, hl with
    | 0, _ => exact List.Perm.refl _
    | 1, _ => exact List.Perm.refl _
    | n + 2, hl => simp [Fill.chanOne] at hl

theorem chan_sameCells : SameCells Fill.chanBoxes Fill.chanOne := ⟨rfl, fun lev c => (Fill.chan_same.2 lev c).1⟩

/-- Every field is given by position. -/
def chanState : St ℚ := ⟨fun _ => ⟨3, fun _ => 1, fun lev _ c k => c 0 ^ 2 + 10 * c 1 + lev + k⟩, fun _ => 0⟩

theorem chanState_same (L L' : Layout) (h : ∀ lev c, (∃ b, Valid L lev b c) ↔ ∃ b, Valid L' lev b c) (n : ℕ) : Same L (chanState.fld n) L' (chanState.fld n) :=
  ⟨rfl, fun lev c => ⟨h lev c, fun _ _ _ _ => rfl⟩⟩

/-- A step that computes the kinetic energy, then a viscosity from velocities of neighbours, then a velocity that depends on both. -/
def sample : List (Instr ℚ) := kineticEnergy (fun lev => 1 / 8 ^ lev) 128 ++ [.fill 0 1] ++
  smagorinsky (fun _ _ c _ at' _ => |at' 0 (Function.update c 0 (c 0 + 1)) 0 - at' 0 (Function.update c 0 (c 0 - 1)) 0|) (fun lev => 1 / 4 ^ lev) ++
  [.loop 0 0 [(0, 0), (2, 1)] fun sc _ c _ at' k => at' 0 c k - sc 0 * (at' 2 (Function.update c 1 (c 1 + 1)) 0 - at' 2 c 0)]

example : ∃ B, check (fun _ => 0) sample = some B := ⟨_, by
  simp [sample, kineticEnergy, smagorinsky, check, known]; rfl⟩

/-- The tensor of the example is the velocity itself, the divergence a central difference along x. -/
def kosovicSample : List (Instr ℚ) := kosovic (fun _ _ c _ at' k => at' 0 c k)
  fun _ _ c _ at' _ => (at' 3 (Function.update c 0 (c 0 + 1)) 0 - at' 3 (Function.update c 0 (c 0 - 1)) 0) / 2

/-- The same channel with the tensor not yet computed. -/
def fresh : St ℚ := ⟨fun n => if n = 3 then ⟨3, fun _ => 1, fun _ _ _ _ => 0⟩ else chanState.fld n, fun _ => 0⟩

/-- **C140** is false of Kosovic's model: beside the cut between two boxes its divergence differs from that of the uncut channel, although all values of cells, and of
ghost cells of the velocity, are the same. -/
theorem kosovic_depends : Agree (fun _ => 1) Fill.chanBoxes fresh Fill.chanOne fresh ∧
    ((run chanSetup Fill.chanBoxes twoRanks kosovicSample fresh).fld 4).val 0 0 ![3, 1, 1] 0 ≠ ((run chanSetup Fill.chanOne oneRank kosovicSample fresh).fld 4).val 0 0 ![3, 1, 1] 0 := by
  refine ⟨⟨rfl, fun n => ⟨rfl, fun lev c => ⟨chan_sameCells.2 lev c, fun b b' _ _ => ?_⟩⟩, fun n lev b b' c k _ _ _ => ?_⟩, by decide +kernel⟩
  · unfold fresh; dsimp only; split_ifs <;> rfl
  · unfold fresh; dsimp only; split_ifs <;> rfl

example : ((run chanSetup Fill.chanBoxes twoRanks sample chanState).fld 0).val 0 1 ![4, 1, 1] 0 = ((run chanSetup Fill.chanOne oneRank sample chanState).fld 0).val 0 0 ![4, 1, 1] 0 := by
  have hk : ∃ B, check (fun _ => 0) sample = some B := ⟨_, by simp [sample, kineticEnergy, smagorinsky, check, known]; rfl⟩
  obtain ⟨B, hk⟩ := hk
  have := (memory_free chanBoxes_mesh chanOne_mesh chan_sameCells sample hk (s := chanState) (s' := chanState) rfl
    fun n => chanState_same _ _ chan_sameCells.2 n).2 0 0 1 0 ![4, 1, 1] ⟨_, _, rfl, rfl, by decide⟩ ⟨_, _, rfl, rfl, by decide⟩
  rw [this]

end AmrWind.Prog
