import Verif.Field.FillProps

/-!
# C138 for fields on faces: the velocities on the faces of cells, filled together
-/

set_option linter.unusedSectionVars false

namespace AmrWind.Fill

open FieldOps (Cell Box Layout Fld boxes inside Valid inside_iff inside_valid)

variable {K : Type*}

/-! ### Specification -/

/-- The geometry `G i` is that of the faces across direction `i` of the cells of `g`; hoextrap occurs across sides of `g` that have it, and not across the faces. -/
structure Faces (g : Geo K) (G : Fin 3 → Geo K) : Prop where
  cells : g.face = none
  face : ∀ i, (G i).face = some i
  dom : ∀ i, (G i).dom = g.dom
  ratio : ∀ i, (G i).ratio = g.ratio
  per : ∀ i, (G i).per = g.per
  slope : ∀ i d hi, (G i).side d hi = .slope → d ≠ i ∧ ∃ hi', g.side d hi' = .slope

/-- The cell on the lower side of a face. -/
def below (i : Fin 3) (c : Cell) : Cell := Function.update c i (c i - 1)

/-- Boxes that hold the same cells. -/
def SameCells (L L' : Layout) : Prop := ∀ lev c, (∃ b, Valid L lev b c) ↔ ∃ b, Valid L' lev b c

/-! ### Faces of boxes -/

theorem nodal_get {i : Fin 3} {L : Layout} {lev : ℕ} {l : List Box} (h : L[lev]? = some l) :
    (nodal i L)[lev]? = some (l.map fun x => ⟨x.lo, fun e => if e = i then x.hi e + 1 else x.hi e⟩) := by
  unfold nodal
  rw [List.getElem?_map, h]
  rfl

theorem nodal_of_get {i : Fin 3} {L : Layout} {lev : ℕ} {l' : List Box} (h : (nodal i L)[lev]? = some l') :
    ∃ l, L[lev]? = some l ∧ l' = l.map fun x => ⟨x.lo, fun e => if e = i then x.hi e + 1 else x.hi e⟩ := by
  unfold nodal at h
  rw [List.getElem?_map] at h
  cases e : L[lev]? with
  | none => rw [e] at h; cases h
  | some l =>
    rw [e] at h
    exact ⟨l, rfl, (Option.some.inj h).symm⟩

theorem nodal_length (i : Fin 3) (L : Layout) : (nodal i L).length = L.length := by simp [nodal]

/-- A box has a face if it has the cell on one of its sides. -/
theorem nodal_valid {g : Geo K} {L : Layout} (ho : Ok g L) (i : Fin 3) (lev b : ℕ) (c : Cell) :
    Valid (nodal i L) lev b c ↔ Valid L lev b c ∨ Valid L lev b (below i c) := by
  constructor
  · rintro ⟨l', x', h1, h2, h3⟩
    obtain ⟨l, hl, rfl⟩ := nodal_of_get h1
    rw [List.getElem?_map] at h2
    cases e : l[b]? with
    | none => rw [e] at h2; cases h2
    | some x =>
      rw [e] at h2
      have := Option.some.inj h2
      subst this
      have hx := ho.box lev l x hl (List.mem_of_getElem? e) i
      have hi := h3 i
      simp only [if_true] at hi
      by_cases hc : c i ≤ x.hi i
      · refine Or.inl ⟨l, x, hl, e, fun d => ?_⟩
        by_cases hd : d = i
        · subst hd; exact ⟨hi.1, hc⟩
        · have := h3 d
          simpa [hd] using this
      · refine Or.inr ⟨l, x, hl, e, fun d => ?_⟩
        by_cases hd : d = i
        · subst hd
          simp only [below, Function.update_self]
          omega
        · have := h3 d
          simpa [below, hd] using this
  · rintro (⟨l, x, h1, h2, h3⟩ | ⟨l, x, h1, h2, h3⟩)
    · refine ⟨_, _, nodal_get h1, by rw [List.getElem?_map, h2]; rfl, fun d => ?_⟩
      have := h3 d
      by_cases hd : d = i <;> simp only [hd, if_true, if_false] <;> [(subst hd; omega); exact this]
    · refine ⟨_, _, nodal_get h1, by rw [List.getElem?_map, h2]; rfl, fun d => ?_⟩
      have := h3 d
      by_cases hd : d = i
      · subst hd
        simp only [below, Function.update_self] at this
        simp only [if_true]
        omega
      · simpa [below, hd] using this

theorem nodal_same {g : Geo K} {L L' : Layout} (ho : Ok g L) (ho' : Ok g L') (h : SameCells L L') (i : Fin 3) : SameCells (nodal i L) (nodal i L') := by
  intro lev c
  simp only [nodal_valid ho, nodal_valid ho', exists_or, h lev c, h lev (below i c)]

theorem faces_lo {g : Geo K} {G : Fin 3 → Geo K} (hf : Faces g G) (i : Fin 3) (lev : ℕ) (d : Fin 3) : (G i).lo lev d = g.lo lev d := by
  unfold Geo.lo
  rw [hf.dom, hf.ratio]

theorem faces_hi {g : Geo K} {G : Fin 3 → Geo K} (hf : Faces g G) (i : Fin 3) (lev : ℕ) (d : Fin 3) : (G i).hi lev d = g.hi lev d + if d = i then 1 else 0 := by
  unfold Geo.hi
  rw [hf.dom, hf.ratio, hf.face, hf.cells]
  by_cases hd : d = i
  · subst hd; simp
  · have : ¬ i = d := fun x => hd x.symm
    simp [hd, this]

theorem nodal_ok {g : Geo K} {G : Fin 3 → Geo K} (hf : Faces g G) {L : Layout} (ho : Ok g L) (i : Fin 3) : Ok (G i) (nodal i L) := by
  refine ⟨by rw [hf.ratio]; exact ho.ratio, fun d => by rw [hf.dom]; exact ho.dom d, ?_, ?_, ?_⟩
  · intro lev l' x' h1 h2 d
    obtain ⟨l, hl, rfl⟩ := nodal_of_get h1
    obtain ⟨x, hx, rfl⟩ := List.mem_map.1 h2
    have := ho.box lev l x hl hx d
    rw [faces_lo hf, faces_hi hf]
    by_cases hd : d = i <;> simp only [hd, if_true, if_false] <;> [(subst hd; omega); omega]
  · intro d hi hs
    obtain ⟨hd, hi', hs'⟩ := hf.slope i d hi hs
    obtain ⟨t1, t2⟩ := ho.thick d hi' hs'
    refine ⟨by rw [hf.dom]; exact t1, fun lev l' x' h1 h2 => ?_⟩
    obtain ⟨l, hl, rfl⟩ := nodal_of_get h1
    obtain ⟨x, hx, rfl⟩ := List.mem_map.1 h2
    simp only [if_neg hd]
    exact t2 lev l x hl hx
  · intro d hd hi hs
    rw [hf.face] at hd
    exact (hf.slope i d hi hs).1 (Option.some.inj hd).symm

theorem nodal_covers {g : Geo K} {G : Fin 3 → Geo K} (hf : Faces g G) {L : Layout} (ho : Ok g L) (hc : Covers g L) (i : Fin 3) : Covers (G i) (nodal i L) := by
  intro c hd
  have h0 := lo_le_hi ho 0 i
  by_cases hx : c i ≤ g.hi 0 i
  · obtain ⟨b, hb⟩ := hc c fun d => by
      have := hd d
      rw [faces_lo hf, faces_hi hf] at this
      by_cases e : d = i
      · subst e; exact ⟨this.1, hx⟩
      · simpa [e] using this
    exact ⟨b, (nodal_valid ho i 0 b c).2 (Or.inl hb)⟩
  · obtain ⟨b, hb⟩ := hc (below i c) fun d => by
      have := hd d
      rw [faces_lo hf, faces_hi hf] at this
      by_cases e : d = i
      · subst e
        simp only [if_true] at this
        simp only [below, Function.update_self]
        omega
      · simpa [below, e] using this
    exact ⟨b, (nodal_valid ho i 0 b c).2 (Or.inr hb)⟩

variable [Field K]

theorem faceMap_same {G : Fin 3 → Geo K} {mp : FaceMapper K} {junk : K} {L L' : Layout} {f f' : Fin 3 → Fld K} (h : ∀ j, Same (nodal j L) (f j) (nodal j L') (f' j)) (lev : ℕ)
    (i : Fin 3) : faceMap G mp junk L f lev i = faceMap G mp junk L' f' lev i := by
  funext u c k
  unfold faceMap
  simp only [coarse_same (h _), held_same (h _)]

/-! ### C138 -/

/-- Filling the three fields together, level after level, gives each of them what filling it alone gives, with an interpolation that reads the fields as they were. -/
theorem siblings_val {g : Geo K} {G : Fin 3 → Geo K} (hf : Faces g G) {mp : FaceMapper K} {junk : K} {L : Layout} {f : Fin 3 → Fld K} (ho : Ok g L) (hc : Covers g L)
    (hs : ∀ i, Same (nodal i L) (f i) (nodal i L) (f i)) {ng : Fin 3 → ℤ} (hg : ∀ d, 0 ≤ ng d) (i : Fin 3) (lev b : ℕ) (c : Cell) (k : ℕ) :
    (siblings G mp junk L ng f i).val lev b c k = (fillpatch (G i) (faceMap G mp junk L f lev i) junk (nodal i L) ng (f i)).val lev b c k := by
  have okf := nodal_ok hf ho
  have cov := nodal_covers hf ho hc
  have key : ∀ l : List ℕ, ∀ i, (l.foldl (siblingLevel G mp junk L ng) f i).ncomp = (f i).ncomp ∧ ∀ lev b c k,
      (l.foldl (siblingLevel G mp junk L ng) f i).val lev b c k =
        if lev ∈ l then (fillLevel (G i) (faceMap G mp junk L f lev i) junk (nodal i L) ng (f i) lev).val lev b c k else (f i).val lev b c k := by
    intro l
    induction l using List.reverseRecOn with
    | nil => exact fun i => ⟨rfl, fun lev b c k => rfl⟩
    | append_singleton l m ih =>
      rw [List.foldl_append]
      simp only [List.foldl_cons, List.foldl_nil]
      set S := l.foldl (siblingLevel G mp junk L ng) f with hS
      have hSf : ∀ i, Same (nodal i L) (S i) (nodal i L) (f i) := by
        intro i
        have vS : ∀ lev b c, Valid (nodal i L) lev b c → (S i).val lev b c = (f i).val lev b c := by
          intro lev b c hv
          funext k
          rw [(ih i).2]
          split_ifs
          · exact fillLevel_valid (okf i) (cov i) (hs i) hg lev hv k
          · rfl
        exact ⟨(ih i).1, fun lev c => ⟨Iff.rfl, fun b b' hb hb' => by rw [vS lev b c hb]; exact ((hs i).2 lev c).2 b b' hb hb'⟩⟩
      intro i
      obtain ⟨ih1, ih2⟩ := ih i
      refine ⟨ih1, fun lev b c k => ?_⟩
      unfold siblingLevel
      rw [faceMap_same hSf]
      by_cases hh : lev = m ∧ InArray (nodal i L) ng m b c ∧ k < (S i).ncomp
      · obtain ⟨rfl, ha, hk⟩ := hh
        rw [if_pos (by simp)]
        rw [fillLevel_val (okf i) (cov i) hg ha hk, fillLevel_val (okf i) (cov i) hg ha (by rw [← ih1]; exact hk), inner_same (hSf i)]
      · rw [fillLevel_else hh, ih2]
        rw [ih1] at hh
        by_cases hl : lev ∈ l
        · rw [if_pos hl, if_pos (by simp [hl])]
        · rw [if_neg hl]
          by_cases hm : lev = m
          · subst hm
            rw [if_pos (by simp), fillLevel_else (by rintro ⟨-, a⟩; exact hh ⟨rfl, a⟩)]
          · rw [if_neg (by simp [hl, hm])]
  unfold siblings fillpatch
  rw [(key _ i).2, (levels_any_order (okf i) (cov i) (hs i) hg _).2, nodal_length]

/-- **C138**: filling the faces leaves all faces of the boxes as they are, those on the sides of the domain too, and everything beyond the ghost faces asked for. -/
theorem faces_kept {g : Geo K} {G : Fin 3 → Geo K} (hf : Faces g G) {mp : FaceMapper K} {junk : K} {L : Layout} {f : Fin 3 → Fld K} (ho : Ok g L) (hc : Covers g L)
    (hs : ∀ i, Same (nodal i L) (f i) (nodal i L) (f i)) {ng : Fin 3 → ℤ} (hg : ∀ d, 0 ≤ ng d) (i : Fin 3) (lev b : ℕ) (c : Cell) (k : ℕ)
    (hh : Valid L lev b c ∨ Valid L lev b (below i c) ∨ ¬ InArray (nodal i L) ng lev b c) : (siblings G mp junk L ng f i).val lev b c k = (f i).val lev b c k := by
  rw [siblings_val hf ho hc hs hg, fill_keeps (nodal_ok hf ho i) (nodal_covers hf ho hc i) (hs i) hg lev b c k]
  rcases hh with h | h | h
  · exact Or.inl ((nodal_valid ho i lev b c).2 (Or.inl h))
  · exact Or.inl ((nodal_valid ho i lev b c).2 (Or.inr h))
  · exact Or.inr (Or.inr h)

/-- **C138**: a ghost face beside a cell of the level, or a number of periods away from such a face, gets the value of the box with that cell. -/
theorem face_is_neighbour {g : Geo K} {G : Fin 3 → Geo K} (hf : Faces g G) {mp : FaceMapper K} {junk : K} {L : Layout} {f : Fin 3 → Fld K} (ho : Ok g L) (hc : Covers g L)
    (hs : ∀ i, Same (nodal i L) (f i) (nodal i L) (f i)) (hp : ∀ i, Agrees (G i) (nodal i L) (f i)) {ng : Fin 3 → ℤ} (hg : ∀ d, 0 ≤ ng d) {i : Fin 3} {lev b : ℕ} {c : Cell}
    (ha : InArray (nodal i L) ng lev b c) {k : ℕ} (hk : k < (f i).ncomp) {b' : ℕ} {c' : Cell} (hv : Valid L lev b' c' ∨ Valid L lev b' (below i c')) (n : Fin 3 → ℤ)
    (hn : ∀ d, c d = c' d + (if g.per d then n d * ((g.dom.hi d + 1 - g.dom.lo d) * g.ratio ^ lev) else 0)) :
    (siblings G mp junk L ng f i).val lev b c k = (f i).val lev b' c' k := by
  rw [siblings_val hf ho hc hs hg]
  refine ghost_is_neighbour (nodal_ok hf ho i) (nodal_covers hf ho hc i) (hs i) (hp i) hg ha hk ((nodal_valid ho i lev b' c').2 hv) n ?_
  intro d
  rw [hf.per, hf.dom, hf.ratio]
  exact hn d

/-- **C138**: beyond one side with given values a ghost face gets the given one; beyond sides with extrapolation of order zero it gets that of the nearest face of the domain, which
across the side is the one on the side itself. -/
theorem face_beyond_side {g : Geo K} {G : Fin 3 → Geo K} (hf : Faces g G) {mp : FaceMapper K} {junk : K} {L : Layout} {f : Fin 3 → Fld K} (ho : Ok g L) (hc : Covers g L)
    (hs : ∀ i, Same (nodal i L) (f i) (nodal i L) (f i)) {ng : Fin 3 → ℤ} (hg : ∀ d, 0 ≤ ng d) {i : Fin 3} {lev b : ℕ} {c : Cell} (ha : InArray (nodal i L) ng lev b c)
    {k : ℕ} (hk : k < (f i).ncomp) :
    ((∀ s ∈ sides, (G i).beyond lev s c = true → (G i).side s.1 s.2 = .extrap) →
      ∀ c', (∀ d, c' d = if g.per d then c d else max (g.lo lev d) (min (g.hi lev d + if d = i then 1 else 0) (c d))) →
      (siblings G mp junk L ng f i).val lev b c k = (siblings G mp junk L ng f i).val lev b c' k) ∧
    (∀ s ∈ sides, (G i).beyond lev s c = true → ∀ w, (G i).side s.1 s.2 = .given w →
      (∀ s' ∈ sides, (G i).beyond lev s' c = true → s' ≠ s → ∀ w', (G i).side s'.1 s'.2 ≠ .given w') → (siblings G mp junk L ng f i).val lev b c k = w lev c k) := by
  have h := ghost_beyond_side (mp := faceMap G mp junk L f lev i) (junk := junk) (nodal_ok hf ho i) (nodal_covers hf ho hc i) (hs i) hg ha hk
  constructor
  · intro hx c' hc'
    have e : c' = (G i).clamp lev c := by
      funext d
      rw [hc' d]
      unfold Geo.clamp
      rw [faces_lo hf, faces_hi hf, hf.per]
    rw [siblings_val hf ho hc hs hg, siblings_val hf ho hc hs hg, h.1 hx, e]
  · intro s h1 h2 w h3 h4
    rw [siblings_val hf ho hc hs hg]
    exact h.2 s h1 h2 w h3 h4

/-- **C138**: the filled faces do not depend on how the cells are cut into boxes. -/
theorem faces_decomposition_free {g : Geo K} {G : Fin 3 → Geo K} (hf : Faces g G) {mp : FaceMapper K} {junk : K} {L L' : Layout} {f f' : Fin 3 → Fld K} (ho : Ok g L)
    (ho' : Ok g L') (hc : Covers g L) (hl : SameCells L L') (hn : ∀ i, (f i).ncomp = (f' i).ncomp)
    (h1 : ∀ i lev b b' c, Valid (nodal i L) lev b c → Valid (nodal i L) lev b' c → (f i).val lev b c = (f i).val lev b' c)
    (h2 : ∀ i lev b b' c, Valid (nodal i L) lev b c → Valid (nodal i L') lev b' c → (f i).val lev b c = (f' i).val lev b' c)
    {ng ng' : Fin 3 → ℤ} (hg : ∀ d, 0 ≤ ng d) (hg' : ∀ d, 0 ≤ ng' d) {i : Fin 3} {lev b b' : ℕ} {c : Cell} (ha : InArray (nodal i L) ng lev b c)
    (ha' : InArray (nodal i L') ng' lev b' c) {k : ℕ} (hk : k < (f i).ncomp) :
    (siblings G mp junk L ng f i).val lev b c k = (siblings G mp junk L' ng' f' i).val lev b' c k := by
  have hsc := fun i => nodal_same ho ho' hl i
  have s1 : ∀ i, Same (nodal i L) (f i) (nodal i L) (f i) := fun i => ⟨rfl, fun lev c => ⟨Iff.rfl, fun b b' hb hb' => h1 i lev b b' c hb hb'⟩⟩
  have s2 : ∀ i, Same (nodal i L) (f i) (nodal i L') (f' i) := fun i => ⟨hn i, fun lev c => ⟨hsc i lev c, fun b b' hb hb' => h2 i lev b b' c hb hb'⟩⟩
  have s3 : ∀ i, Same (nodal i L') (f' i) (nodal i L') (f' i) := by
    intro i
    refine ⟨rfl, fun lev c => ⟨Iff.rfl, fun b b' hb hb' => ?_⟩⟩
    obtain ⟨a, ha⟩ := (hsc i lev c).2 ⟨b, hb⟩
    rw [← h2 i lev a b c ha hb, ← h2 i lev a b' c ha hb']
  have hc' : Covers g L' := fun c hd => (hl 0 c).1 (hc c hd)
  rw [siblings_val hf ho hc s1 hg, siblings_val hf ho' hc' s3 hg', ← faceMap_same s2]
  exact decomposition_free_partial (nodal_ok hf ho i) (nodal_ok hf ho' i) (nodal_covers hf ho hc i) (s1 i) (s3 i) (s2 i) hg hg' ha ha' hk

/-- **C138**: a ghost face inside the domain that no box of the level has, also not a number of periods away, is interpolated: from the faces of the next coarser level and from the
faces that the level itself has. -/
theorem face_from_coarse {g : Geo K} {G : Fin 3 → Geo K} (hf : Faces g G) {mp : FaceMapper K} {junk : K} {L : Layout} {f : Fin 3 → Fld K} (ho : Ok g L) (hc : Covers g L)
    (hs : ∀ i, Same (nodal i L) (f i) (nodal i L) (f i)) {ng : Fin 3 → ℤ} (hg : ∀ d, 0 ≤ ng d) {i : Fin 3} {lev b : ℕ} {c : Cell} (ha : InArray (nodal i L) ng (lev + 1) b c)
    {k : ℕ} (hk : k < (f i).ncomp) (hw : Within (G i) (lev + 1) c) (hn : ∀ b' c', Image (G i) (lev + 1) c c' → ¬ Valid (nodal i L) (lev + 1) b' c') :
    ∃ (u : Fin 3 → Cell → K) (w : Fin 3 → Cell → Option K), (siblings G mp junk L ng f i).val (lev + 1) b c k = mp u w i c ∧
      (∀ j b' c', Valid (nodal j L) lev b' c' → u j c' = (f j).val lev b' c' 0) ∧
      ∀ j b' c', Valid (nodal j L) (lev + 1) b' c' → w j c' = some ((f j).val (lev + 1) b' c' 0) := by
  refine ⟨fun j c => coarse (G j) junk (nodal j L) (f j) lev c 0, fun j c => (held (G j) (nodal j L) (f j) (lev + 1) c).map fun v => v 0, ?_, ?_, ?_⟩
  · rw [siblings_val hf ho hc hs hg, fillpatch_val (nodal_ok hf ho i) (nodal_covers hf ho hc i) (hs i) hg ha hk, bc_within hw]
    unfold inner
    cases e : held (G i) (nodal i L) (f i) (lev + 1) c with
    | some v =>
      obtain ⟨b', c', h1, h2, -⟩ := held_some e
      exact absurd h2 (hn b' c' h1)
    | none => rfl
  · intro j b' c' hv
    show coarse (G j) junk (nodal j L) (f j) lev c' 0 = _
    unfold coarse
    rw [bc_within (dom_within (valid_dom (nodal_ok hf ho j) hv)), held_valid (hs j) hv]
  · intro j b' c' hv
    simp only [held_valid (hs j) hv, Option.map_some]

theorem released_faces {g : Geo K} {G : Fin 3 → Geo K} (hf : Faces g G) (inflow : Fin 3 → Bool → Bool) : Faces g fun i => (G i).released inflow := by
  refine ⟨hf.cells, hf.face, hf.dom, hf.ratio, hf.per, fun i d hi hs => ?_⟩
  unfold Geo.released at hs
  dsimp only at hs
  by_cases h : inflow d hi = true
  · rw [if_pos h] at hs; cases hs
  · rw [if_neg h] at hs; exact hf.slope i d hi hs

/-- **C138**: where the planes are not newer than the time asked for, the faces that they hold get their values, and all others, if they hold none of the faces of the boxes, what
filling without planes gives, with the inflow sides extrapolated; where they are newer they are not used at all. -/
theorem planes_used [LinearOrder K] {g : Geo K} {G : Fin 3 → Geo K} (hf : Faces g G) {mp : FaceMapper K} {junk : K} {L : Layout} {f : Fin 3 → Fld K} (ho : Ok g L) (hc : Covers g L)
    (hs : ∀ i, Same (nodal i L) (f i) (nodal i L) (f i)) {ng : Fin 3 → ℤ} (hg : ∀ d, 0 ≤ ng d) {tol tinterp time : K} {put : ℕ → Fin 3 → Fld K → Fld K}
    {p : ℕ → Fin 3 → ℕ → Cell → Option K} (hn : ∀ lev i u, (put lev i u).ncomp = u.ncomp)
    (hp : ∀ lev i u lev' b c k, (put lev i u).val lev' b c k = if lev' = lev then (p lev i b c).getD (u.val lev' b c k) else u.val lev' b c k)
    (hv : ∀ lev i b c, Valid (nodal i L) lev b c → p lev i b c = none) (inflow : Fin 3 → Bool → Bool) {i : Fin 3} {lev : ℕ} (hl : lev < L.length) (b : ℕ) (c : Cell) (k : ℕ) :
    (planeSiblings tol tinterp time put inflow G mp junk L ng f i).val lev b c k =
      if tinterp - time ≤ tol then (p lev i b c).getD ((siblings (fun i => (G i).released inflow) mp junk L ng f i).val lev b c k)
      else (siblings (fun i => (G i).released inflow) mp junk L ng f i).val lev b c k := by
  by_cases ht : tinterp - time ≤ tol
  swap
  · rw [if_neg ht]
    have e : planeLevel tol tinterp time put inflow G mp junk L ng = siblingLevel (fun i => (G i).released inflow) mp junk L ng := by
      funext v l
      unfold planeLevel
      rw [if_pos (not_le.mp ht)]
    unfold planeSiblings siblings
    rw [e]
  rw [if_pos ht]
  have hf' := released_faces hf inflow
  set G' := fun i => (G i).released inflow with hG
  have okf := nodal_ok hf' ho
  have cov := nodal_covers hf' ho hc
  have key : ∀ l : List ℕ, ∀ i, (l.foldl (planeLevel tol tinterp time put inflow G mp junk L ng) f i).ncomp = (f i).ncomp ∧ ∀ lev b c k,
      (l.foldl (planeLevel tol tinterp time put inflow G mp junk L ng) f i).val lev b c k =
        if lev ∈ l then (p lev i b c).getD ((fillLevel (G' i) (faceMap G' mp junk L f lev i) junk (nodal i L) ng (f i) lev).val lev b c k) else (f i).val lev b c k := by
    intro l
    induction l using List.reverseRecOn with
    | nil => exact fun i => ⟨rfl, fun lev b c k => rfl⟩
    | append_singleton l m ih =>
      rw [List.foldl_append]
      simp only [List.foldl_cons, List.foldl_nil]
      set S := l.foldl (planeLevel tol tinterp time put inflow G mp junk L ng) f with hS
      have hSf : ∀ i, Same (nodal i L) (S i) (nodal i L) (f i) := by
        intro i
        have vS : ∀ lev b c, Valid (nodal i L) lev b c → (S i).val lev b c = (f i).val lev b c := by
          intro lev b c hvl
          funext k
          rw [(ih i).2, hv lev i b c hvl]
          by_cases hm : lev ∈ l
          · rw [if_pos hm]; exact fillLevel_valid (okf i) (cov i) (hs i) hg lev hvl k
          · rw [if_neg hm]
        exact ⟨(ih i).1, fun lev c => ⟨Iff.rfl, fun b b' hb hb' => by rw [vS lev b c hb]; exact ((hs i).2 lev c).2 b b' hb hb'⟩⟩
      intro i
      obtain ⟨ih1, ih2⟩ := ih i
      have step : planeLevel tol tinterp time put inflow G mp junk L ng S m i = put m i (siblingLevel G' mp junk L ng S m i) := by
        unfold planeLevel
        rw [if_neg (not_lt.mpr ht)]
      rw [step]
      refine ⟨by rw [hn]; exact ih1, fun lev b c k => ?_⟩
      rw [hp]
      unfold siblingLevel
      rw [faceMap_same hSf]
      by_cases hm : lev = m
      · subst hm
        rw [if_pos rfl, if_pos (by simp)]
        cases hpv : p lev i b c with
        | some v => rfl
        | none =>
          show (fillLevel _ _ junk _ ng (S i) lev).val lev b c k = (fillLevel _ _ junk _ ng (f i) lev).val lev b c k
          by_cases hh : InArray (nodal i L) ng lev b c ∧ k < (S i).ncomp
          · obtain ⟨ha, hk⟩ := hh
            rw [fillLevel_val (okf i) (cov i) hg ha hk, fillLevel_val (okf i) (cov i) hg ha (by rw [← ih1]; exact hk), inner_same (hSf i)]
          · rw [fillLevel_else (by rintro ⟨-, a⟩; exact hh a), ih2, hpv]
            rw [ih1] at hh
            by_cases hl : lev ∈ l
            · rw [if_pos hl]; rfl
            · rw [if_neg hl, fillLevel_else (by rintro ⟨-, a⟩; exact hh a)]
      · rw [if_neg hm, fillLevel_else (by rintro ⟨a, -⟩; exact hm a), ih2]
        by_cases hl : lev ∈ l
        · rw [if_pos hl, if_pos (by simp [hl])]
        · rw [if_neg hl, if_neg (by simp [hl, hm])]
  rw [siblings_val hf' ho hc hs hg]
  unfold planeSiblings fillpatch
  rw [(key _ i).2, (levels_any_order (okf i) (cov i) (hs i) hg _).2, nodal_length, if_pos (List.mem_range.mpr hl), if_pos (List.mem_range.mpr hl)]

/-- **C138**, disagreement: with recorded inflow planes the velocities on ghost faces beyond the inflow are those of the nearest face of the domain while the step is computed, not
the recorded ones: at the second filling of the step the planes already hold the end of the step and are not written. -/
theorem planes_extrapolated [LinearOrder K] [IsStrictOrderedRing K] {g : Geo K} {G : Fin 3 → Geo K} (hf : Faces g G) {mp : FaceMapper K} {junk : K} {L : Layout} {f : Fin 3 → Fld K} (ho : Ok g L)
    (hc : Covers g L) {ng : Fin 3 → ℤ} (hg : ∀ d, 0 ≤ ng d) {tol t dt : K} (hdt : 2 * tol < dt) (put : K → ℕ → Fin 3 → Fld K → Fld K) (inflow : Fin 3 → Bool → Bool)
    (solve : (Fin 3 → Fld K) → Fin 3 → Fld K) (hsv : ∀ a i, Same (nodal i L) (solve a i) (nodal i L) (solve a i)) {i : Fin 3} {lev b : ℕ} {c c' : Cell}
    (ha : InArray (nodal i L) ng lev b c) (hk : ∀ a, 0 < (solve a i).ncomp) (hx : ∀ s ∈ sides, (G i).beyond lev s c = true → inflow s.1 s.2 = true)
    (hc' : ∀ d, c' d = if g.per d then c d else max (g.lo lev d) (min (g.hi lev d + if d = i then 1 else 0) (c d))) :
    ((planeStep tol t dt put inflow G mp junk L ng solve f).2 i).val lev b c 0 = ((planeStep tol t dt put inflow G mp junk L ng solve f).2 i).val lev b c' 0 := by
  have hnew : tol < t + dt - (t + 1 / 2 * dt) := by linarith
  have e : ∀ u, planeSiblings tol (t + dt) (t + 1 / 2 * dt) (put (t + dt)) inflow G mp junk L ng u = siblings (fun i => (G i).released inflow) mp junk L ng u := by
    intro u
    unfold planeSiblings siblings
    congr 1
    funext v l
    unfold planeLevel
    rw [if_pos hnew]
  unfold planeStep
  simp only [e]
  refine (face_beyond_side (released_faces hf inflow) ho hc (hsv _) hg ha (hk _)).1 ?_ c' hc'
  intro s hs hb
  unfold Geo.released
  dsimp only
  rw [if_pos (hx s hs hb)]

/-! ### A case: the channel of C138 with velocities on faces -/

/-- Inflow on the left with velocity 50 on the faces across, walls below and above, periodic sideways. -/
def chanFaces : Fin 3 → Geo ℚ := fun i => ⟨chan.dom, chan.ratio, chan.per, fun d hi => if d = 0 then (if hi = false then .given fun _ _ _ => if i = 0 then 50 else 0 else .extrap)
  else .given fun _ _ _ => 0, some i⟩

theorem chan_faces : Faces chan chanFaces := by
  refine ⟨rfl, fun _ => rfl, fun _ => rfl, fun _ => rfl, fun _ => rfl, fun i d hi hs => ?_⟩
  unfold chanFaces at hs
  dsimp only at hs
  split_ifs at hs

/-- The values on the faces are those of their places, counted in the periodic direction from the lower side. -/
def chanMac : Fin 3 → Fld ℚ := fun i => ⟨1, fun _ => 1, fun lev _ c _ => (c 0 + 10 * ((c 1 % (4 * 2 ^ lev) : ℤ) : ℚ) + 100 * c 2) / 2 ^ lev + 1000 * i.val⟩

/-- Piecewise constant. -/
def flatFace : FaceMapper ℚ := fun u _ i c => u i fun d => c d / 2

example (i : Fin 3) : Same (nodal i chanBoxes) (chanMac i) (nodal i chanBoxes) (chanMac i) ∧ Agrees (chanFaces i) (nodal i chanBoxes) (chanMac i) := by
  constructor
  · exact ⟨rfl, fun _ _ => ⟨Iff.rfl, fun _ _ _ _ => rfl⟩⟩
  · rintro lev b b' c c' - - ⟨n, hn⟩
    have h0 : c 0 = c' 0 := by simpa [chanFaces, chan] using hn 0
    have h2 : c 2 = c' 2 := by simpa [chanFaces, chan] using hn 2
    have h1 : c 1 = c' 1 + n 1 * (4 * 2 ^ lev) := by simpa [chanFaces, chan, Geo.period] using hn 1
    funext k
    unfold chanMac
    dsimp only
    rw [h0, h2, h1, Int.add_mul_emod_self_right]

/-- Ghost faces of the second box: of the first box, a period away (the last face of the period is the first), on the outflow side, above the wall. -/
example : (let F := siblings chanFaces flatFace 7 chanBoxes 1 chanMac
    ((F 0).val 0 1 ![3, 2, 1] 0, (F 1).val 0 1 ![5, 5, 1] 0, (F 1).val 0 1 ![5, -1, 1] 0, (F 0).val 0 1 ![9, 2, 1] 0, (F 2).val 0 1 ![5, 2, 5] 0,
      (F 0).val 0 0 ![-1, 2, 1] 0, (F 0).val 0 0 ![0, 2, 1] 0)) =
    (123, 1115, 1135, 128, 0, 50, 120) := by decide +kernel

/-- Planes with the velocity 50 in the three layers beyond the left side. -/
def fifty : ℚ → ℕ → Fin 3 → Fld ℚ → Fld ℚ := fun _ lev _ f => ⟨f.ncomp, f.ngrow, fun l b c k => if l = lev ∧ c 0 < 0 then 50 else f.val l b c k⟩

/-- Planes of this kind meet what is asked of them: they write one level, and no face of a box. -/
example : (∀ lev (i : Fin 3) (u : Fld ℚ) lev' b (c : Cell) k, (fifty 0 lev i u).val lev' b c k =
      if lev' = lev then ((if c 0 < 0 then some 50 else none : Option ℚ)).getD (u.val lev' b c k) else u.val lev' b c k) ∧
    ∀ lev (i : Fin 3) b c, Valid (nodal i chanBoxes) lev b c → (if c 0 < 0 then some 50 else none : Option ℚ) = none := by
  refine ⟨fun lev i u lev' b c k => ?_, fun lev i b c h => ?_⟩
  · unfold fifty
    dsimp only
    by_cases h : lev' = lev <;> by_cases h' : c 0 < 0 <;> simp [h, h']
  · have := (valid_dom (nodal_ok chan_faces chan_ok i) h 0).1
    rw [faces_lo chan_faces] at this
    have h0 : chan.lo lev 0 = 0 := by simp [Geo.lo, chan]
    rw [h0] at this
    exact if_neg (not_lt.mpr this)

/-- A face of the fine level with neighbours on the coarse level only. -/
example : (siblings chanFaces flatFace 7 chanBoxes 1 chanMac 2).val 1 0 ![5, 3, 3] 0 = (chanMac 2).val 0 0 ![2, 1, 1] 0 := by decide +kernel

/-- The recorded velocity is there after the first filling of the step and gone after the second. -/
example : (let F := planeStep (1 / 100) 0 1 fifty (fun d hi => d = 0 ∧ hi = false) chanFaces flatFace 7 chanBoxes 1 (fun _ => chanMac) chanMac
    ((F.1 1).val 0 0 ![-1, 2, 1] 0, (F.2 1).val 0 0 ![-1, 2, 1] 0, (F.2 1).val 0 0 ![0, 2, 1] 0)) = (50, 1120, 1120) := by decide +kernel

end AmrWind.Fill
