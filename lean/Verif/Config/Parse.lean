import Verif.Config.Model
import Mathlib.Data.List.Dedup
import Mathlib.Data.Rat.Defs

/-!
# Properties of layered parameters (C45) and of factories and collections (C46)
-/

namespace AmrWind.Config

section
variable {V : Type*}

/-! ## C45: the specific namespace overrides the default one -/

/-- Specification: the values in force for a name. -/
def effective (m : MultiParser V) (k : String) : List V := if m.spec k = [] then m.dflt k else m.spec k

theorem has_iff (p : Params V) (k : String) : has p k = true ↔ p k ≠ [] := by
  unfold has; cases p k <;> simp

/-- **C45** `contains` is true exactly if some value is in force. -/
theorem contains_iff_effective (m : MultiParser V) (k : String) : m.contains k = true ↔ effective m k ≠ [] := by
  unfold MultiParser.contains effective
  rw [Bool.or_eq_true, has_iff, has_iff]
  by_cases h : m.spec k = [] <;> simp [h]

/-- **C45** `get` gives the value in force and aborts exactly if there is none. -/
theorem get_effective (m : MultiParser V) (k : String) : m.get k = (effective m k).head? := by
  unfold MultiParser.get effective
  by_cases h : m.spec k = []
  · rw [if_neg (by rw [has_iff]; simpa using h), if_pos h]; rfl
  · rw [if_pos ((has_iff _ _).2 h), if_neg h]; rfl

/-- **C45** `query` gives the value in force, and leaves the variable alone if there is none. -/
theorem query_effective (m : MultiParser V) (k : String) (v : V) : m.query k v = (effective m k).headD v := by
  unfold MultiParser.query effective query
  by_cases h : m.spec k = []
  · simp [h]
  · rw [if_neg h]
    cases e : m.spec k with
    | nil => exact absurd e h
    | cons a l => rfl

/-- **C45** `getarr` into a fresh vector gives all values in force and aborts exactly if there are none. -/
theorem getarr_effective (m : MultiParser V) (k : String) :
    m.getarr k [] = if effective m k = [] then none else some (effective m k) := by
  unfold MultiParser.getarr effective getarr queryarr
  by_cases h : m.spec k = []
  · rw [if_neg (by rw [has_iff]; simpa using h), if_pos h]
    by_cases h' : m.dflt k = []
    · rw [if_neg (by rw [has_iff]; simpa using h'), if_pos h']
    · rw [if_pos ((has_iff _ _).2 h'), if_neg h']; simp
  · rw [if_pos ((has_iff _ _).2 h), if_pos ((has_iff _ _).2 h), if_neg h, if_neg h]; simp

/-- **C45** (partial) `queryarr` into a fresh vector gives the values in force exactly if the specific list is absent or
at least as long as the default list. -/
theorem queryarr_effective_partial (m : MultiParser V) (k : String) :
    m.queryarr k [] = effective m k ↔ m.spec k = [] ∨ (m.dflt k).length ≤ (m.spec k).length := by
  unfold MultiParser.queryarr effective queryarr
  by_cases h : m.spec k = []
  · simp [h]
  · rw [if_neg h]
    simp only [h, false_or, List.drop_nil, List.append_nil]
    rw [List.append_right_eq_self, List.drop_eq_nil_iff]

/-- In every case the default values beyond the specific ones remain. -/
theorem queryarr_overlay (m : MultiParser V) (k : String) :
    m.queryarr k [] = m.spec k ++ (m.dflt k).drop (m.spec k).length := by
  simp [MultiParser.queryarr, queryarr]

/-- **C45** A vector obtained with `get` has the three values in force; anything else aborts. -/
theorem getVec_effective (m : MultiParser V) (k : String) (a b c : V) :
    m.getVec k = some (a, b, c) ↔ effective m k = [a, b, c] := by
  unfold MultiParser.getVec
  rw [getarr_effective]
  by_cases h : effective m k = []
  · simp [h]
  · rw [if_neg h]
    simp only [Option.bind_some]
    rcases hl : effective m k with _ | ⟨x, _ | ⟨y, _ | ⟨z, _ | ⟨w, l⟩⟩⟩⟩ <;> simp

/-- **C45** `get_either`: three values, or one value for all three components. -/
theorem getEither_effective (m : MultiParser V) (k : String) (a b c : V) :
    m.getEither k = some (a, b, c) ↔ effective m k = [a, b, c] ∨ (effective m k = [a] ∧ b = a ∧ c = a) := by
  unfold MultiParser.getEither
  rw [getarr_effective]
  by_cases h : effective m k = []
  · simp [h]
  · rw [if_neg h]
    simp only [Option.bind_some]
    rcases hl : effective m k with _ | ⟨x, _ | ⟨y, _ | ⟨z, _ | ⟨w, l⟩⟩⟩⟩ <;> simp
    rintro rfl; constructor <;> (rintro ⟨rfl, rfl⟩; exact ⟨rfl, rfl⟩)

/-- **C45** (partial) `query_either` agrees with the values in force when the specific list is not shorter than the
default one. -/
theorem queryEither_effective_partial (m : MultiParser V) (k : String) (v : V × V × V) (a b c : V)
    (h : m.spec k = [] ∨ (m.dflt k).length ≤ (m.spec k).length) :
    m.queryEither k v = some (a, b, c) ↔
      (effective m k = [] ∧ v = (a, b, c)) ∨ effective m k = [a, b, c] ∨ (effective m k = [a] ∧ b = a ∧ c = a) := by
  unfold MultiParser.queryEither
  rw [(queryarr_effective_partial m k).2 h]
  rcases hl : effective m k with _ | ⟨x, _ | ⟨y, _ | ⟨z, _ | ⟨w, l⟩⟩⟩⟩ <;> simp
  rintro rfl; constructor <;> (rintro ⟨rfl, rfl⟩; exact ⟨rfl, rfl⟩)

/-- **C45** (partial) likewise `query` of a vector. -/
theorem queryVec_effective_partial (m : MultiParser V) (k : String) (v : V × V × V) (a b c : V)
    (h : m.spec k = [] ∨ (m.dflt k).length ≤ (m.spec k).length) :
    m.queryVec k v = some (a, b, c) ↔
      (effective m k = [] ∧ v = (a, b, c)) ∨ effective m k = [a, b, c] := by
  unfold MultiParser.queryVec
  rw [(queryarr_effective_partial m k).2 h]
  rcases hl : effective m k with _ | ⟨x, _ | ⟨y, _ | ⟨z, _ | ⟨w, l⟩⟩⟩⟩ <;> simp

/-- A default of three values and a specific one of one value, e.g. `Actuator.TurbineFastLine.epsilon = 1 2 3` and
`Actuator.WTG01.epsilon = 5`. -/
def mixedEpsilon : MultiParser ℚ :=
  ⟨fun k => if k = "epsilon" then [1, 2, 3] else [], fun k => if k = "epsilon" then [5] else []⟩

/-- **C45** is false of `query_either`: the value in force is the uniform 5, the code gives (5, 2, 3). `get_either` gives
(5, 5, 5) for the same input. -/
theorem query_either_mixes_namespaces :
    effective mixedEpsilon "epsilon" = [5] ∧
    mixedEpsilon.queryEither "epsilon" (0, 0, 0) = some (5, 2, 3) ∧
    mixedEpsilon.getEither "epsilon" = some (5, 5, 5) := by
  refine ⟨?_, ?_, ?_⟩ <;> simp [effective, mixedEpsilon, MultiParser.queryEither, MultiParser.getEither,
    MultiParser.queryarr, MultiParser.getarr, queryarr, getarr, has]

/-- **C45** is false of `query` of a vector too: a specific list of one value, an error by itself, is accepted. -/
theorem query_vector_mixes_namespaces :
    mixedEpsilon.queryVec "epsilon" (0, 0, 0) = some (5, 2, 3) ∧
    mixedEpsilon.getVec "epsilon" = none := by
  refine ⟨?_, ?_⟩ <;> simp [mixedEpsilon, MultiParser.queryVec, MultiParser.getVec,
    MultiParser.queryarr, MultiParser.getarr, queryarr, getarr, has]

/-- The hypotheses of the theorems above are met: a default and a longer specific list, which wins. -/
example : let m : MultiParser ℚ := ⟨fun _ => [1], fun k => if k = "epsilon" then [4, 5, 6] else []⟩
    effective m "epsilon" = [4, 5, 6] ∧ effective m "chord" = [1] ∧ m.contains "chord" = true ∧
    m.queryEither "epsilon" (0, 0, 0) = some (4, 5, 6) ∧ m.queryEither "chord" (0, 0, 0) = some (1, 1, 1) ∧
    m.get "epsilon" = some 4 ∧ m.query "chord" 9 = 1 := by
  simp [effective, MultiParser.contains, MultiParser.queryEither, MultiParser.get, MultiParser.query,
    MultiParser.queryarr, queryarr, query, get, has]

end

/-! ## C46: factories and collections -/

section
variable {C : Type*}

theorem foldl_register (rs : List (String × C)) (t : Factory C) (k : String) :
    rs.foldl register t k = (rs.reverse.lookup k).or (t k) := by
  induction rs generalizing t with
  | nil => rfl
  | cons r rs ih =>
    rw [List.foldl_cons, ih, List.reverse_cons, List.lookup_append]
    cases h : rs.reverse.lookup k with
    | some c => rfl
    | none =>
      obtain ⟨r1, r2⟩ := r
      simp only [Option.none_or, register, List.lookup, Option.none_or]
      by_cases e : k = r1
      · simp [e]
      · have : (k == r1) = false := by simpa using e
        simp [e, this]

/-- **C46** A keyword creates an object of a class registered under it, whatever the order of registration; it aborts
exactly if no class has the keyword. With keywords registered once the class is the only one registered. -/
theorem factory_spec (rs : List (String × C)) (k : String) :
    (registerAll rs k = none ↔ ∀ c, (k, c) ∉ rs) ∧
    (∀ c, registerAll rs k = some c → (k, c) ∈ rs) ∧
    (∀ c, (rs.map Prod.fst).Nodup → (k, c) ∈ rs → registerAll rs k = some c) := by
  have key : ∀ (l : List (String × C)) (c : C), l.lookup k = some c → (k, c) ∈ l := by
    intro l c
    induction l with
    | nil => intro h; simp at h
    | cons a l ih =>
      intro h
      obtain ⟨a1, a2⟩ := a
      by_cases e : k = a1
      · subst e; simp at h; subst h; simp
      · have : (k == a1) = false := by simpa using e
        rw [List.lookup, this] at h
        exact List.mem_cons_of_mem _ (ih h)
  have key2 : ∀ (l : List (String × C)), l.lookup k = none → ∀ c, (k, c) ∉ l := by
    intro l
    induction l with
    | nil => intro _ c; simp
    | cons a l ih =>
      intro h c
      obtain ⟨a1, a2⟩ := a
      by_cases e : k = a1
      · subst e; simp at h
      · have : (k == a1) = false := by simpa using e
        rw [List.lookup, this] at h
        intro hc
        rcases List.mem_cons.1 hc with h' | h'
        · exact e (congrArg Prod.fst h')
        · exact ih h c h'
  have e : registerAll rs k = rs.reverse.lookup k := by
    unfold registerAll; rw [foldl_register]; simp
  have mem : ∀ c, registerAll rs k = some c → (k, c) ∈ rs := by
    intro c h
    rw [e] at h
    exact List.mem_reverse.1 (key _ c h)
  have non : registerAll rs k = none ↔ ∀ c, (k, c) ∉ rs := by
    constructor
    · intro h c hc
      rw [e] at h
      exact key2 _ h c (List.mem_reverse.2 hc)
    · intro h
      cases h' : registerAll rs k with
      | none => rfl
      | some c => exact absurd (mem c h') (h c)
  refine ⟨non, mem, ?_⟩
  intro c nd hc
  cases h' : registerAll rs k with
  | none => exact absurd hc (non.1 h' c)
  | some c' =>
    have h1 := mem c' h'
    have := List.inj_on_of_nodup_map nd h1 hc rfl
    simp only [Prod.mk.injEq, true_and] at this
    rw [this]

/-- The last registration of a keyword counts: "TODO: Add checks against multiple registration" (Factory.H:102). -/
theorem factory_last (rs : List (String × C)) (k : String) (c : C) : registerAll (rs ++ [(k, c)]) k = some c := by
  unfold registerAll
  rw [List.foldl_append]
  simp [register]

/-- Keys in the order of their first appearance. -/
def firsts (ks : List String) : List String := ks.reverse.dedup.reverse

theorem firsts_append (ks : List String) (k : String) :
    firsts (ks ++ [k]) = if k ∈ ks then firsts ks else firsts ks ++ [k] := by
  unfold firsts
  rw [List.reverse_append, List.reverse_singleton, List.singleton_append]
  by_cases h : k ∈ ks
  · rw [if_pos h, List.dedup_cons_of_mem (List.mem_reverse.2 h)]
  · rw [if_neg h, List.dedup_cons_of_notMem (by simpa using h), List.reverse_cons]

theorem run_append (dup : Bool) (t : Factory C) (s : Coll C) (ks ls : List String) :
    s.run dup t (ks ++ ls) = (s.run dup t ks).bind fun r =>
      (r.1.run dup t ls).map fun q => (q.1, r.2 ++ q.2) := by
  induction ks generalizing s with
  | nil =>
    rw [List.nil_append]
    have e : s.run dup t [] = some (s, []) := rfl
    rw [e, Option.bind_some]
    simp
  | cons k ks ih =>
    have e : ∀ l, s.run dup t (k :: l) = (s.create dup t k).bind fun r =>
      (r.1.run dup t l).map fun q => (q.1, r.2 :: q.2) := fun _ => rfl
    rw [List.cons_append, e, e]
    cases s.create dup t k with
    | none => rfl
    | some r =>
      simp only [Option.bind_some]
      rw [ih]
      cases r.1.run dup t ks with
      | none => rfl
      | some q =>
        simp only [Option.bind_some, Option.map_some]
        cases q.1.run dup t ls <;> simp

/-- What a collection without duplicates is after a history of creations. -/
theorem coll_history (t : Factory C) (ks : List String) :
    ((∃ k ∈ ks, t k = none) ∧ Coll.empty.run false t ks = none) ∨
    ((∀ k ∈ ks, t k ≠ none) ∧ ∃ s hs, Coll.empty.run false t ks = some (s, hs) ∧ s.objs.map Prod.fst = firsts ks ∧
      (∀ o ∈ s.objs, t o.1 = some o.2) ∧ (∀ k, s.at k = if k ∈ firsts ks then some ((firsts ks).idxOf k) else none) ∧
      hs = ks.map (firsts ks).idxOf) := by
  induction ks using List.reverseRecOn with
  | nil =>
    right
    refine ⟨by simp, Coll.empty, [], rfl, rfl, by simp [Coll.empty], ?_, rfl⟩
    intro k; simp [firsts, Coll.empty, Coll.at]
  | append_singleton ks k ih =>
    rw [run_append]
    rcases ih with ⟨⟨j, hj, hn⟩, h⟩ | ⟨hall, s, hs, h, ho, hc, hm, hh⟩
    · left
      refine ⟨⟨j, by simp [hj], hn⟩, ?_⟩
      rw [h]; rfl
    · rw [h, Option.bind_some]
      have e1 : s.run false t [k] = (s.create false t k).map fun r => (r.1, [r.2]) := by
        have : s.run false t [k] = (s.create false t k).bind fun r => some (r.1, [r.2]) := rfl
        rw [this]; cases s.create false t k <;> rfl
      simp only [e1]
      have hmem : ∀ j, j ∈ firsts ks ↔ j ∈ ks := by intro j; simp [firsts]
      by_cases hk : k ∈ ks
      · right
        have ha : s.at k = some ((firsts ks).idxOf k) := by rw [hm, if_pos ((hmem k).2 hk)]
        have hcon : s.contains k = true := by
          unfold Coll.contains
          have : s.map k = some ((firsts ks).idxOf k) := ha
          rw [this]; rfl
        have hcr : s.create false t k = some (s, (firsts ks).idxOf k) := by
          unfold Coll.create
          rw [hcon, ha]; rfl
        rw [hcr]
        have hf : firsts (ks ++ [k]) = firsts ks := by rw [firsts_append, if_pos hk]
        refine ⟨?_, s, hs ++ [(firsts ks).idxOf k], by simp, by rw [hf, ho], hc, by rw [hf]; exact hm, ?_⟩
        · intro j hj
          rcases List.mem_append.1 hj with h' | h'
          · exact hall j h'
          · rw [List.mem_singleton.1 h']; exact hall k hk
        · rw [hf, hh]; simp
      · have hk' : k ∉ firsts ks := fun h' => hk ((hmem k).1 h')
        have hcon : s.contains k = false := by
          have : s.map k = none := by
            have := hm k
            rw [if_neg hk'] at this; exact this
          unfold Coll.contains; rw [this]; rfl
        have hcr : s.create false t k = (t k).map fun c =>
            (⟨s.objs ++ [(k, c)], fun k' => if k' = k then some s.objs.length else s.map k'⟩, s.objs.length) := by
          unfold Coll.create
          rw [hcon]; rfl
        rw [hcr]
        have hf : firsts (ks ++ [k]) = firsts ks ++ [k] := by rw [firsts_append, if_neg hk]
        have hlen : s.objs.length = (firsts ks).length := by rw [← ho, List.length_map]
        cases hc' : t k with
        | none =>
          left
          exact ⟨⟨k, by simp, hc'⟩, rfl⟩
        | some c =>
          right
          refine ⟨?_, _, _, rfl, ?_, ?_, ?_, ?_⟩
          · intro j hj
            rcases List.mem_append.1 hj with h' | h'
            · exact hall j h'
            · rw [List.mem_singleton.1 h', hc']; simp
          · simp [ho, hf]
          · intro o h'
            rcases List.mem_append.1 h' with h' | h'
            · exact hc o h'
            · rw [List.mem_singleton.1 h']; exact hc'
          · intro j
            rw [hf]
            show (if j = k then some s.objs.length else s.map j) = _
            by_cases hj : j = k
            · subst hj
              rw [if_pos rfl, if_pos (by simp), List.idxOf_append_of_notMem hk', hlen]
              simp
            · rw [if_neg hj]
              have := hm j
              change s.map j = _ at this
              rw [this]
              by_cases hjk : j ∈ firsts ks
              · rw [if_pos hjk, if_pos (by simp [hjk]), List.idxOf_append_of_mem hjk]
              · rw [if_neg hjk, if_neg (by simp [hjk, hj])]
          · rw [hf, hh, List.map_append]
            congr 1
            · apply List.map_congr_left
              intro j hj
              rw [List.idxOf_append_of_mem ((hmem j).2 hj)]
            · simp [List.idxOf_append_of_notMem hk', hlen]

/-- **C46** After any history of creations that does not abort: the objects are, in creation order, one per key, of the
class registered for the key; looking a key up finds exactly the object returned by every creation with that key, and
keys never created are not found. -/
theorem collection_spec (t : Factory C) (ks : List String) (s : Coll C) (hs : List ℕ)
    (h : Coll.empty.run false t ks = some (s, hs)) :
    s.objs.map Prod.fst = firsts ks ∧
    (∀ o ∈ s.objs, t o.1 = some o.2) ∧
    (∀ k, s.contains k = true ↔ k ∈ ks) ∧
    (∀ (i : ℕ) (k : String) (n : ℕ), ks[i]? = some k → hs[i]? = some n → s.at k = some n ∧ (s.objs[n]?).map Prod.fst = some k) ∧
    hs.length = ks.length := by
  rcases coll_history t ks with ⟨_, hn⟩ | ⟨_, s', hs', h', ho, hc, hm, hh⟩
  · rw [h] at hn; simp at hn
  · rw [h] at h'
    simp only [Option.some.injEq, Prod.mk.injEq] at h'
    obtain ⟨rfl, rfl⟩ := h'
    have hmem : ∀ j, j ∈ firsts ks ↔ j ∈ ks := by intro j; simp [firsts]
    refine ⟨ho, hc, ?_, ?_, by rw [hh, List.length_map]⟩
    · intro k
      unfold Coll.contains
      have := hm k
      change s.map k = _ at this
      rw [this, ← hmem]
      by_cases hk : k ∈ firsts ks <;> simp [hk]
    · intro i k n hi hn
      have hk : k ∈ ks := List.mem_of_getElem? hi
      have hkf := (hmem k).2 hk
      rw [hh, List.getElem?_map, hi] at hn
      simp only [Option.map_some, Option.some.injEq] at hn
      subst hn
      refine ⟨by rw [hm, if_pos hkf], ?_⟩
      rw [← List.getElem?_map, ho]
      have hlt := List.idxOf_lt_length_iff.2 hkf
      rw [List.getElem?_eq_getElem hlt, List.getElem_idxOf hlt]

/-- **C46** A history of creations aborts exactly if it names a keyword nobody registered. -/
theorem collection_abort (t : Factory C) (ks : List String) :
    Coll.empty.run false t ks = none ↔ ∃ k ∈ ks, t k = none := by
  rcases coll_history t ks with ⟨hk, hn⟩ | ⟨hall, s', hs', h', _⟩
  · exact ⟨fun _ => hk, fun _ => hn⟩
  · rw [h']
    constructor
    · intro h; simp at h
    · rintro ⟨k, hk, hn⟩; exact absurd hn (hall k hk)

/-- **C46** Objects once created stay what and where they are: later creations only append, so a reference obtained
earlier remains the object found under its key. -/
theorem collection_stable (t : Factory C) (ks ls : List String) (s s' : Coll C) (hs hs' : List ℕ)
    (h : Coll.empty.run false t ks = some (s, hs)) (h' : Coll.empty.run false t (ks ++ ls) = some (s', hs')) :
    s.objs <+: s'.objs ∧ hs <+: hs' ∧ ∀ k n, s.at k = some n → s'.at k = some n := by
  have gen : ∀ (ls : List String) (s : Coll C) (s' : Coll C) (q : List ℕ), s.run false t ls = some (s', q) →
      s.objs <+: s'.objs ∧ ∀ k n, s.at k = some n → s'.at k = some n := by
    intro ls
    induction ls with
    | nil =>
      intro s s' q e
      have : s.run false t [] = some (s, []) := rfl
      rw [this] at e
      simp only [Option.some.injEq, Prod.mk.injEq] at e
      rw [← e.1]
      exact ⟨List.prefix_refl _, fun _ _ h => h⟩
    | cons k ls ih =>
      intro s s' q e
      have e' : s.run false t (k :: ls) = (s.create false t k).bind fun r =>
        (r.1.run false t ls).map fun q => (q.1, r.2 :: q.2) := rfl
      rw [e', Option.bind_eq_some_iff] at e
      obtain ⟨r, hr, e⟩ := e
      rw [Option.map_eq_some_iff] at e
      obtain ⟨q', hq, e⟩ := e
      have hq1 : q'.1 = s' := by simpa using congrArg Prod.fst e
      have := ih r.1 q'.1 q'.2 (by rw [hq])
      rw [hq1] at this
      have step : s.objs <+: r.1.objs ∧ ∀ k n, s.at k = some n → r.1.at k = some n := by
        unfold Coll.create at hr
        by_cases hcon : s.contains k = true
        · rw [hcon] at hr
          simp only [Bool.not_false, Bool.and_self, if_true, Option.map_eq_some_iff] at hr
          obtain ⟨n, _, rfl⟩ := hr
          exact ⟨List.prefix_refl _, fun _ _ h => h⟩
        · have hcf : s.contains k = false := by simpa using hcon
          rw [hcf] at hr
          simp only [Bool.not_false, Bool.and_false, Bool.false_eq_true, if_false, Option.map_eq_some_iff] at hr
          obtain ⟨c, _, rfl⟩ := hr
          refine ⟨List.prefix_append _ _, ?_⟩
          intro j n hj
          show (if j = k then some s.objs.length else s.map j) = some n
          by_cases hjk : j = k
          · subst hjk
            exfalso; apply hcon
            unfold Coll.contains
            have : s.map j = some n := hj
            rw [this]; rfl
          · rw [if_neg hjk]; exact hj
      exact ⟨step.1.trans this.1, fun k n h => this.2 k n (step.2 k n h)⟩
  rw [run_append, h, Option.bind_some, Option.map_eq_some_iff] at h'
  obtain ⟨q, hq, e⟩ := h'
  have g := gen ls s q.1 q.2 (by rw [hq])
  have e1 : q.1 = s' := by simpa using congrArg Prod.fst e
  have e2 : hs ++ q.2 = hs' := by simpa using congrArg Prod.snd e
  rw [e1] at g
  exact ⟨g.1, ⟨q.2, e2⟩, g.2⟩

/-- **C46** Collections that allow duplicates: one object per creation, in order, and a key finds the newest. -/
theorem collection_duplicates (t : Factory C) (ks : List String) (s : Coll C) (hs : List ℕ)
    (h : Coll.empty.run true t ks = some (s, hs)) :
    s.objs.map Prod.fst = ks ∧ hs = List.range ks.length ∧
    ∀ (k : String) (n : ℕ), s.at k = some n ↔ ks[n]? = some k ∧ ∀ (m : ℕ), n < m → ks[m]? ≠ some k := by
  induction ks using List.reverseRecOn generalizing s hs with
  | nil =>
    have e : Coll.empty.run true t [] = some (Coll.empty, []) := rfl
    rw [e] at h
    simp only [Option.some.injEq, Prod.mk.injEq] at h
    obtain ⟨rfl, rfl⟩ := h
    refine ⟨rfl, rfl, ?_⟩
    intro k n; simp [Coll.empty, Coll.at]
  | append_singleton ks k ih =>
    rw [run_append, Option.bind_eq_some_iff] at h
    obtain ⟨r, hr, h⟩ := h
    obtain ⟨i1, i2, i3⟩ := ih r.1 r.2 hr
    rw [Option.map_eq_some_iff] at h
    obtain ⟨q, hq, h⟩ := h
    have e1 : r.1.run true t [k] = (r.1.create true t k).map fun r => (r.1, [r.2]) := by
      have : r.1.run true t [k] = (r.1.create true t k).bind fun r => some (r.1, [r.2]) := rfl
      rw [this]; cases r.1.create true t k <;> rfl
    have hcr : r.1.create true t k = (t k).map fun c =>
        (⟨r.1.objs ++ [(k, c)], fun k' => if k' = k then some r.1.objs.length else r.1.map k'⟩, r.1.objs.length) := by
      unfold Coll.create; rfl
    rw [e1, hcr] at hq
    rw [Option.map_map, Option.map_eq_some_iff] at hq
    obtain ⟨c, hc, rfl⟩ := hq
    simp only [Function.comp, Prod.mk.injEq] at h
    obtain ⟨rfl, rfl⟩ := h
    have hlen : r.1.objs.length = ks.length := by rw [← i1, List.length_map]
    refine ⟨by simp [i1], by rw [i2, hlen, List.length_append, List.length_singleton, List.range_succ], ?_⟩
    intro j n
    show (if j = k then some r.1.objs.length else r.1.map j) = some n ↔ _
    rw [hlen]
    by_cases hj : j = k
    · subst hj
      rw [if_pos rfl]
      constructor
      · intro e
        simp only [Option.some.injEq] at e
        subst e
        refine ⟨by simp, ?_⟩
        intro m hm
        rw [List.getElem?_eq_none (by simp; omega)]; simp
      · rintro ⟨h1, h2⟩
        have hn : n < (ks ++ [j]).length := (List.getElem?_eq_some_iff.1 h1).1
        simp at hn
        by_contra hne
        have : n < ks.length := by
          have : n ≠ ks.length := fun e => hne (by rw [e])
          omega
        exact h2 ks.length this (by simp)
    · rw [if_neg hj]
      have := i3 j n
      change r.1.map j = some n ↔ _ at this
      rw [this]
      have get : ∀ m : ℕ, (ks ++ [k])[m]? = some j ↔ ks[m]? = some j := by
        intro m
        rw [List.getElem?_append]
        by_cases hm : m < ks.length
        · rw [if_pos hm]
        · rw [if_neg hm, List.getElem?_eq_none (l := ks) (by omega)]
          constructor
          · intro e
            have hmem : j ∈ [k] := List.mem_of_getElem? e
            exact absurd (List.mem_singleton.1 hmem) hj
          · intro e; simp at e
      constructor
      · rintro ⟨a, b⟩
        exact ⟨(get n).2 a, fun m hm e => b m hm ((get m).1 e)⟩
      · rintro ⟨a, b⟩
        exact ⟨(get n).1 a, fun m hm e => b m hm ((get m).2 e)⟩

/-- The hypotheses of the theorems above are met: two physics modules, one named twice. -/
example : ∃ s, Coll.empty.run false (registerAll [("ABL", 0), ("MultiPhase", 1)]) ["MultiPhase", "ABL", "MultiPhase"]
      = some (s, [0, 1, 0]) ∧ s.objs = [("MultiPhase", 1), ("ABL", 0)] ∧ s.at "ABL" = some 1 := by
  refine ⟨_, by simp [Coll.run, Coll.create, Coll.empty, Coll.contains, Coll.at, registerAll, register]; rfl, ?_, ?_⟩
  · rfl
  · rfl

example : Coll.empty.run false (registerAll [("ABL", 0), ("MultiPhase", 1)]) ["ABL", "ABLL"] = none := by
  simp [Coll.run, Coll.create, Coll.empty, Coll.contains, registerAll, register]

example : ∃ s, Coll.empty.run true (registerAll [("ABL", 0)]) ["ABL", "ABL"] = some (s, [0, 1]) ∧
    s.at "ABL" = some 1 := by
  refine ⟨_, by simp [Coll.run, Coll.create, Coll.empty, registerAll, register]; rfl, ?_⟩
  rfl

end

end AmrWind.Config
