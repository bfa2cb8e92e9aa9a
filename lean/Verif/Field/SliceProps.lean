import Verif.Field.SliceModel
import Mathlib.Tactic.Linarith

/-!
# Windows into arrays (C154)
-/

namespace AmrWind.Win

variable {α : Type*}

theorem size_mk (a b : ℕ) : (⟨a, b⟩ : Slice).size = b := rfl

theorem wrap_behind {n w start : ℕ} (h : n < start) (hw : start < w) : (n + w - start) % w = w - (start - n) := by
  rw [Nat.mod_eq_of_lt (by omega)]
  omega

theorem wrap_end {n w : ℕ} : (n + w - n) % w = 0 := by
  rw [Nat.add_sub_cancel_left, Nat.mod_self]

/-- C154: for a window inside of an array both builds give a slice of the asked size; its element `i` is the element `start + i` of
the array, and writing it changes that element and no other. -/
theorem slice_window (debug : Bool) {v : List α} {start count : ℕ} (h : start + count ≤ v.length) (hv : v.length < word) :
    ∃ s, slice debug v.length start count = some s ∧ s.size = count ∧ ∀ i, i < count →
      (∃ a, v[start + i]? = some a ∧ get v s i = some a) ∧
      ∀ a, ∃ v', put v s i a = some v' ∧ v'.length = v.length ∧ v'[start + i]? = some a ∧ ∀ j, j ≠ start + i → v'[j]? = v[j]? := by
  have hm : (start + count) % word = start + count := Nat.mod_eq_of_lt (by omega)
  refine ⟨⟨start, count⟩, ?_, rfl, fun i hi => ?_⟩
  · unfold slice
    rw [hm, if_neg]
    rintro ⟨-, h'⟩
    omega
  · have hi' : (start + i) % word = start + i := Nat.mod_eq_of_lt (by omega)
    have hl : start + i < v.length := by omega
    refine ⟨⟨v[start + i], List.getElem?_eq_getElem hl, ?_⟩, fun a => ⟨v.set (start + i) a, ?_, by simp, ?_, fun j hj => ?_⟩⟩
    · simp only [get, hi']
      exact List.getElem?_eq_getElem hl
    · simp only [put, hi', if_pos hl]
    · simp [hl]
    · rw [List.getElem?_set_ne (Ne.symm hj)]

example : slice true 5 1 3 = some ⟨1, 3⟩ ∧ get [10, 20, 30, 40, 50] ⟨1, 3⟩ 2 = some 40 := by decide

theorem fill_eq {v : List α} {start count : ℕ} (hv : v.length < word) (as : List α) (i : ℕ) (h : start + i + as.length ≤ v.length) :
    fill v ⟨start, count⟩ i as = some (v.take (start + i) ++ as ++ v.drop (start + i + as.length)) := by
  induction as generalizing v i with
  | nil => simp [fill]
  | cons a as ih =>
    simp only [List.length_cons] at h
    have hi' : (start + i) % word = start + i := Nat.mod_eq_of_lt (by omega)
    have hl : start + i < v.length := by omega
    simp only [fill, put, hi', if_pos hl, Option.bind_some]
    rw [ih (by simpa using hv) (i + 1) (by simp; omega)]
    congr 1
    apply List.ext_getElem?
    intro j
    simp only [List.getElem?_append, List.getElem?_take, List.getElem?_drop, List.length_append, List.length_take, List.length_set,
      List.length_cons, List.getElem?_set, List.getElem?_cons]
    split_ifs <;> first | rfl | omega | (congr 1; omega)

/-- C154: when the actuators of a rank write their points in turn, each into its slice of the array of positions, the array holds
the points of the first, then those of the second, and so on, whatever it held before and in both builds. -/
theorem positions_in_turn (debug : Bool) {v : List α} (ps : List (List α)) (h : ps.flatten.length = v.length) (hv : v.length < word) :
    fillAll debug v 0 ps = some ps.flatten := by
  have key : ∀ (ps : List (List α)) (v : List α) (ic : ℕ), ic + ps.flatten.length = v.length → v.length < word →
      fillAll debug v ic ps = some (v.take ic ++ ps.flatten) := by
    intro ps
    induction ps with
    | nil =>
      intro v ic h _
      simp only [List.flatten_nil, List.length_nil, Nat.add_zero] at h
      simp [fillAll, h]
    | cons p ps ih =>
      intro v ic h hv
      simp only [List.flatten_cons, List.length_append] at h
      have hs : slice debug v.length ic p.length = some ⟨ic, p.length⟩ := by
        unfold slice
        rw [Nat.mod_eq_of_lt (by omega), if_neg]
        rintro ⟨-, h'⟩
        omega
      have hf := fill_eq (start := ic) (count := p.length) hv p 0 (by omega)
      have hlen : (v.take (ic + 0) ++ p ++ v.drop (ic + 0 + p.length)).length = v.length := by
        simp only [List.length_append, List.length_take, List.length_drop]; omega
      simp only [fillAll, hs, Option.bind_some, hf]
      rw [ih _ _ (by rw [hlen]; omega) (by rw [hlen]; exact hv)]
      congr 1
      have e : (v.take (ic + 0) ++ p ++ v.drop (ic + 0 + p.length)).take (ic + p.length) = v.take ic ++ p := by
        apply List.take_left'
        simp only [List.length_append, List.length_take]; omega
      rw [e, List.flatten_cons, List.append_assoc]
  have := key ps v 0 (by omega) hv
  simpa using this

example : fillAll true [0, 0, 0, 0, 0] 0 [[1, 2], [], [3, 4, 5]] = some [1, 2, 3, 4, 5] := by decide

theorem mapM_get {v : List α} (start : ℕ) (hv : v.length < word) (n : ℕ) (h : start + n ≤ v.length) (c : ℕ) :
    (List.range n).mapM (get v ⟨start, c⟩) = some ((v.drop start).take n) := by
  induction n with
  | zero => simp
  | succ n ih =>
    have hl : start + n < v.length := by omega
    have hm : (start + n) % word = start + n := Nat.mod_eq_of_lt (by omega)
    rw [List.range_succ, List.mapM_append, ih (by omega)]
    simp only [List.mapM_cons, List.mapM_nil, get, hm, List.getElem?_eq_getElem hl]
    rw [List.take_add_one]
    simp [List.getElem?_drop, List.getElem?_eq_getElem hl]

/-- C154: what the actuators of a rank are handed is the array of velocities cut into pieces of their numbers of points, in their
order: nothing is left out, nothing is handed twice. -/
theorem velocities_in_turn (debug : Bool) {v : List α} (nums : List ℕ) (h : nums.sum = v.length) (hv : v.length < word) :
    ∃ ps, readEach debug v 0 nums = some ps ∧ ps.flatten = v ∧ ps.map List.length = nums := by
  have key : ∀ (nums : List ℕ) (ic : ℕ), ic + nums.sum = v.length →
      ∃ ps, readEach debug v ic nums = some ps ∧ ps.flatten = v.drop ic ∧ ps.map List.length = nums := by
    intro nums
    induction nums with
    | nil =>
      intro ic h
      simp only [List.sum_nil, Nat.add_zero] at h
      exact ⟨[], rfl, by simp [h], rfl⟩
    | cons n ns ih =>
      intro ic h
      simp only [List.sum_cons] at h
      have hs : slice debug v.length ic n = some ⟨ic, n⟩ := by
        unfold slice
        rw [Nat.mod_eq_of_lt (by omega), if_neg]
        rintro ⟨-, h'⟩
        omega
      obtain ⟨ps, h1, h2, h3⟩ := ih (ic + n) (by omega)
      refine ⟨(v.drop ic).take n :: ps, ?_, ?_, ?_⟩
      · simp only [readEach, hs, Option.bind_some, readAll, Slice.size, mapM_get ic hv n (by omega), h1, Option.map_some]
      · rw [List.flatten_cons, h2, ← List.drop_drop, List.take_append_drop]
      · simp only [List.map_cons, h3, List.length_take, List.length_drop]
        congr 1
        omega
  simpa using key nums 0 (by omega)

example : readEach true [1, 2, 3, 4, 5] 0 [2, 0, 3] = some [[1, 2], [], [3, 4, 5]] := by decide

/-- C154: positions written by the actuators come back to the actuators that wrote them. -/
theorem written_then_read (debug : Bool) {v : List α} (ps : List (List α)) (h : ps.flatten.length = v.length) (hv : v.length < word) :
    (fillAll debug v 0 ps).bind (fun w => readEach debug w 0 (ps.map List.length)) = some ps := by
  rw [positions_in_turn debug ps h hv, Option.bind_some]
  obtain ⟨qs, h1, h2, h3⟩ := velocities_in_turn debug (v := ps.flatten) (ps.map List.length) (by rw [List.length_flatten]) (by rw [h]; exact hv)
  rw [h1]
  congr 1
  clear h1 h hv
  induction ps generalizing qs with
  | nil =>
    simpa using h3
  | cons p ps ih =>
    cases qs with
    | nil => simp at h3
    | cons q qs =>
      simp only [List.map_cons, List.cons.injEq] at h3
      simp only [List.flatten_cons] at h2
      obtain ⟨e1, e2⟩ := List.append_inj h2 h3.1
      rw [e1, ih qs e2 h3.2]

/-- C154 (part): the slice up to the end, for a start inside of the array, is the rest of the array in both builds. -/
theorem rest_partial (debug : Bool) {v : List α} {start : ℕ} (h : start < v.length) (hv : v.length < word) :
    ∃ s, rest debug v.length start = some s ∧ s.size = v.length - start ∧ readAll v s = some (v.drop start) := by
  have hc : (v.length + word - start) % word = v.length - start := by
    have : v.length + word - start = (v.length - start) + word := by omega
    rw [this, Nat.add_mod_right, Nat.mod_eq_of_lt (by omega)]
  have hs : slice debug v.length start (v.length - start) = some ⟨start, v.length - start⟩ := by
    unfold slice
    rw [Nat.mod_eq_of_lt (by omega), if_neg]
    rintro ⟨-, h'⟩
    omega
  refine ⟨⟨start, v.length - start⟩, ?_, rfl, ?_⟩
  · unfold rest
    rw [hc, if_neg (by omega), hs]
  · rw [readAll, size_mk, mapM_get start hv (v.length - start) (by omega)]
    congr 1
    apply List.take_of_length_le
    rw [List.length_drop]

example : rest true 5 3 = some ⟨3, 2⟩ := by decide

/-- C154 fails for a start behind the last element: the optimised build gives an empty slice at the end, the build with assertions stops; farther
behind, the optimised build gives a slice of nearly `2^64` elements, whose first is not in the array. -/
theorem rest_behind_wrong {v : List α} {start : ℕ} (h : v.length ≤ start) (hw : start < word) :
    rest true v.length start = none ∧ ∃ s, rest false v.length start = some s ∧ get v s 0 = none ∧
      (start = v.length → s.size = 0) ∧ (v.length < start → s.size = word - (start - v.length)) := by
  refine ⟨by rw [rest, if_pos ⟨rfl, h⟩], ⟨start, (v.length + word - start) % word⟩, ?_, ?_, fun e => ?_, fun e => ?_⟩
  · rw [rest, if_neg (fun h => Bool.noConfusion h.1), slice, if_neg (fun h => Bool.noConfusion h.1)]
  · simp only [get, Nat.add_zero, Nat.mod_eq_of_lt hw]
    exact List.getElem?_eq_none h
  · rw [size_mk, e, wrap_end]
  · rw [size_mk, wrap_behind e hw]

/-- C154 fails for windows that begin before the array, also with assertions: the sum of start and number wraps around, so a slice of `count`
elements from `-k` on is accepted if `k ≤ count` and `count - k` is at most the size; its first element is not in the array. -/
theorem before_wrong (debug : Bool) {v : List α} {k count : ℕ} (h0 : 0 < k) (hk : k ≤ count) (hc : count - k ≤ v.length) (hs : v.length + k < word) :
    ∃ s, slice debug v.length (word - k) count = some s ∧ s.size = count ∧ get v s 0 = none := by
  refine ⟨⟨word - k, count⟩, ?_, rfl, ?_⟩
  · unfold slice
    have : word - k + count = (count - k) + word := by omega
    rw [this, Nat.add_mod_right, Nat.mod_eq_of_lt (by omega), if_neg]
    rintro ⟨-, h'⟩
    omega
  · simp only [get, Nat.add_zero]
    rw [Nat.mod_eq_of_lt (by omega)]
    exact List.getElem?_eq_none (by omega)

example : ∃ s, slice true 5 (word - 1) 1 = some s ∧ s.size = 1 ∧ get [1, 2, 3, 4, 5] s 0 = none :=
  before_wrong true (v := [1, 2, 3, 4, 5]) (by omega) (by omega) (by simp) (by norm_num [word])

/-- C154: with assertions, a window that does not wrap around is accepted exactly if it lies inside of the array; without, always. -/
theorem accepted_iff {n start count : ℕ} (h : start + count < word) :
    ((∃ s, slice true n start count = some s) ↔ start + count ≤ n) ∧ slice false n start count = some ⟨start, count⟩ := by
  unfold slice
  rw [Nat.mod_eq_of_lt h]
  refine ⟨?_, by simp⟩
  by_cases h' : n < start + count
  · simp [h']
  · simp [h']
    omega

example : slice true 5 3 3 = none ∧ slice false 5 3 3 = some ⟨3, 3⟩ := by decide

end AmrWind.Win
