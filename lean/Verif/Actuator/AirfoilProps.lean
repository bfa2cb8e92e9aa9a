import Verif.Actuator.AirfoilModel
import Verif.Interp.Props
/-!
# C126: a wing uses the polars of its file
-/

set_option linter.unusedSectionVars false

namespace AmrWind.Airfoil
open AmrWind.Wing AmrWind.Interp

/-! ## Specification -/

section
variable {K : Type*} [Zero K]

/-- How a row is written: four words that are read as its numbers. -/
def Writes (num : String → Option K) (words : List String) (r : Row K) : Prop :=
  ∃ a l d m, words = [a, l, d, m] ∧ num a = some r.aoa ∧ num l = some r.cl ∧ num d = some r.cd ∧ num m = some r.cm

/-- The words of a table, row after row, wherever the lines end. -/
def WritesAll (num : String → Option K) (words : List String) (t : List (Row K)) : Prop :=
  ∃ ws : List (List String), words = ws.flatten ∧ List.Forall₂ (Writes num) ws t

/-- A line that does not announce the number of rows. -/
def Header (l : List String) : Prop := ∀ t ∈ l, ¬ "NumAlf".toList <:+: t.toList

/-! ## Reading -/

theorem mentions_iff (l : List String) : mentions l = true ↔ ∃ t ∈ l, "NumAlf".toList <:+: t.toList := by
  simp [mentions]

theorem rows_failed (num : String → Option K) : ∀ n s, s = none ∨ s = some [] → rows num n s = List.replicate n ⟨0, 0, 0, 0⟩
  | 0, _, _ => rfl
  | n + 1, s, h => by
    have : rows num (n + 1) s = ⟨0, 0, 0, 0⟩ :: rows num n none := by
      rcases h with rfl | rfl <;> simp [rows, getNum]
    rw [this, rows_failed num n none (Or.inl rfl)]
    rfl

/-- Rows that are there are read; what follows is read by the rows to come. -/
theorem rows_written (num : String → Option K) (t : List (Row K)) : ∀ (ws : List (List String)) (n : ℕ) (rest : List String),
    List.Forall₂ (Writes num) ws t → rows num (t.length + n) (some (ws.flatten ++ rest)) = t ++ rows num n (some rest) := by
  induction t with
  | nil =>
    intro ws n rest h
    cases h
    simp
  | cons r t ih =>
    intro ws n rest h
    obtain ⟨w, ws', hw, ht, rfl⟩ := List.forall₂_cons_right_iff.mp h
    obtain ⟨a, l, d, m, rfl, ha, hl, hd, hm⟩ := hw
    have e : (r :: t).length + n = (t.length + n) + 1 := by simp; omega
    rw [e]
    have : ([a, l, d, m] :: ws').flatten ++ rest = a :: l :: d :: m :: (ws'.flatten ++ rest) := by simp
    rw [this]
    simp only [rows, getNum, ha, hl, hd, hm]
    rw [ih ws' n rest ht]
    rfl

/-- **C126.** A text table gives its rows with the angles in radians, however the numbers are put on lines and whatever follows the
last row.

Partial (C126). Missing: files that end early or have three columns (`truncated_accepted`, `three_columns_wrong`). -/
theorem text_table_partial (int : String → Option ℤ) (num : String → Option K) (rad : K → K) (t : List (Row K)) (file : List (List String))
    (c : String) (words rest : List String) (hf : file.flatten = c :: (words ++ rest)) (hc : int c = some (t.length : ℤ))
    (hw : WritesAll num words t) : loadText int num rad file = some (t.map fun r => ⟨rad r.aoa, r.cl, r.cd, r.cm⟩) := by
  obtain ⟨ws, rfl, h⟩ := hw
  unfold loadText
  rw [hf]
  simp only [hc]
  rw [if_neg (by omega), Int.toNat_natCast]
  have := rows_written num t ws 0 rest h
  rw [Nat.add_zero] at this
  rw [this]
  simp [rows, convert]

theorem scan_header (int : String → Option ℤ) (ls : List (List String)) : ∀ hs : List (List String), (∀ l ∈ hs, Header l) →
    scan int (hs ++ ls) = scan int ls
  | [], _ => rfl
  | h :: hs, hh => by
    have : mentions h = false := by
      rw [Bool.eq_false_iff, ne_eq, mentions_iff]
      rintro ⟨t, ht, hi⟩
      exact hh h (by simp) t ht hi
    have e : scan int ((h :: hs) ++ ls) = scan int (hs ++ ls) := by
      rw [List.cons_append, scan.eq_def]
      simp only [this]
      rfl
    rw [e, scan_header int ls hs fun l hl => hh l (by simp [hl])]

/-- The line that announces the rows. -/
theorem scan_found (int : String → Option ℤ) (c k : String) (l : List String) (ls : List (List String)) (hk : "NumAlf".toList <:+: k.toList)
    (n : ℕ) (hc : int c = some (n : ℤ)) : scan int ((c :: k :: l) :: ls) = some (n, ls) := by
  have : mentions (c :: k :: l) = true := (mentions_iff _).mpr ⟨k, by simp, hk⟩
  rw [scan.eq_def]
  simp only [this, hc]
  simp

/-- **C126.** An OpenFAST table gives its rows with the angles in radians: the line with `NumAlf` begins with their number, two lines
follow that are not read, then the rows, however they are put on lines. Nothing before that line matters.

Partial (C126). Missing: comments on NumAlf, which empty the table (`comment_empties`). -/
theorem openfast_table_partial (int : String → Option ℤ) (num : String → Option K) (rad : K → K) (t : List (Row K)) (hs body : List (List String))
    (c k : String) (l c1 c2 words rest : List String) (hh : ∀ l ∈ hs, Header l) (hk : "NumAlf".toList <:+: k.toList)
    (hc : int c = some (t.length : ℤ)) (hb : body.flatten = words ++ rest) (hw : WritesAll num words t) :
    loadOpenfast int num rad (hs ++ (c :: k :: l) :: c1 :: c2 :: body) = some (t.map fun r => ⟨rad r.aoa, r.cl, r.cd, r.cm⟩) := by
  obtain ⟨ws, rfl, h⟩ := hw
  unfold loadOpenfast
  rw [scan_header int _ hs hh, scan_found int c k l _ hk _ hc, Option.map_some]
  simp only [List.drop_succ_cons, List.drop_zero, hb]
  have := rows_written num t ws 0 rest h
  rw [Nat.add_zero] at this
  rw [this]
  simp [rows, convert]

/-- **C126.** A file without the announcement is refused. -/
theorem openfast_refused (int : String → Option ℤ) (num : String → Option K) (rad : K → K) (file : List (List String))
    (h : ∀ l ∈ file, Header l) : loadOpenfast int num rad file = none := by
  have := scan_header int [] file h
  rw [List.append_nil] at this
  unfold loadOpenfast
  rw [this]
  rfl

/-- **C126.** The kind of the file is `openfast` or `text`, in letters of any case, `openfast` unless given; others are refused. -/
theorem kind_spec (lower : String → String) (int : String → Option ℤ) (num : String → Option K) (rad : K → K) (file : List (List String)) :
    (lower "openfast" = "openfast" → load lower int num rad none file = loadOpenfast int num rad file) ∧
    (∀ k, lower k = "openfast" → load lower int num rad (some k) file = loadOpenfast int num rad file) ∧
    (∀ k, lower k = "text" → load lower int num rad (some k) file = loadText int num rad file) ∧
    (∀ k, lower k ≠ "openfast" → lower k ≠ "text" → load lower int num rad (some k) file = none) := by
  unfold load
  refine ⟨fun h => ?_, fun k h => ?_, fun k h => ?_, fun k h1 h2 => ?_⟩
  · simp [h]
  · simp [h]
  · simp [h]
  · simp [h1, h2]

/-- **C126** fails for a file that ends early: the rows that are missing are rows of zeros. -/
theorem truncated_accepted (int : String → Option ℤ) (num : String → Option K) (rad : K → K) (t : List (Row K)) (missing : ℕ)
    (file : List (List String)) (c : String) (words : List String) (hf : file.flatten = c :: words)
    (hc : int c = some ((t.length + missing : ℕ) : ℤ)) (hw : WritesAll num words t) :
    loadText int num rad file = some ((t.map fun r => ⟨rad r.aoa, r.cl, r.cd, r.cm⟩) ++ List.replicate missing ⟨rad 0, 0, 0, 0⟩) := by
  obtain ⟨ws, rfl, h⟩ := hw
  unfold loadText
  rw [hf]
  simp only [hc]
  rw [if_neg (by omega), Int.toNat_natCast]
  have := rows_written num t ws missing [] h
  rw [List.append_nil] at this
  rw [this, rows_failed num missing _ (Or.inr rfl)]
  simp [convert]

/-- **C126** fails for a file without moment coefficients: the angle of the next row is taken for the moment, and all rows after the
first are wrong. -/
theorem three_columns_wrong (int : String → Option ℤ) (num : String → Option K) (rad : K → K) (c a0 l0 d0 a1 l1 d1 : String)
    (A0 L0 D0 A1 L1 D1 : K) (hc : int c = some 2) (h1 : num a0 = some A0) (h2 : num l0 = some L0) (h3 : num d0 = some D0)
    (h4 : num a1 = some A1) (h5 : num l1 = some L1) (h6 : num d1 = some D1) :
    loadText int num rad [[c], [a0, l0, d0], [a1, l1, d1]] = some [⟨rad A0, L0, D0, A1⟩, ⟨rad L1, D1, 0, 0⟩] := by
  simp [loadText, hc, rows, getNum, h1, h2, h3, h4, h5, h6, convert]

/-- **C126** fails for a file with a comment on `NumAlf` before the line itself: the number is taken from the comment, and the table is
empty. -/
theorem comment_empties (int : String → Option ℤ) (num : String → Option K) (rad : K → K) (hs ls : List (List String)) (c : String)
    (l : List String) (hh : ∀ l ∈ hs, Header l) (hm : ∃ t ∈ c :: l, "NumAlf".toList <:+: t.toList) (hc : int c = none) :
    loadOpenfast int num rad (hs ++ (c :: l) :: ls) = some [] := by
  have : mentions (c :: l) = true := (mentions_iff _).mpr hm
  unfold loadOpenfast
  rw [scan_header int _ hs hh, scan.eq_def]
  simp only [this, hc]
  simp [rows, convert]

end

/-! ## Looking up -/

/-- **C126.** At the angle of a row the coefficients are those of the row, for a table with growing angles (further apart than 2⁻²³
radians). -/
theorem polar_at_row (t : List (Row ℝ)) (hs : StrictSorted (t.map Row.aoa)) (hsp : Spaced (t.map Row.aoa)) (h2 : 2 ≤ t.length)
    {k : ℕ} {r : Row ℝ} (hk : t[k]? = some r) : polar t r.aoa = some (r.cl, r.cd, r.cm) := by
  have key : ∀ f : Row ℝ → ℝ, tableCoeff (t.map Row.aoa) (t.map f) r.aoa = some (f r) := by
    intro f
    unfold tableCoeff
    refine linear_at_node _ _ hs hsp 1 0 ⟨by simp, by norm_num⟩ (by simpa using h2) (k := k) ?_ ?_
    · rw [List.getElem?_map, hk]; rfl
    · rw [Nat.one_mul, Nat.add_zero, List.getElem?_map, hk]; rfl
  unfold polar
  rw [key, key, key]
  rfl

/-- **C126.** Below the first and above the last angle the coefficients are those of the first and the last row; at every angle, each
is between the smallest and the largest of the table. -/
theorem polar_bounded (t : List (Row ℝ)) (hs : Sorted (t.map Row.aoa)) (h2 : 2 ≤ t.length) (a : ℝ) :
    ∃ l d m, polar t a = some (l, d, m) ∧
      (∀ r, t[0]? = some r → a < r.aoa → l = r.cl ∧ d = r.cd ∧ m = r.cm) ∧
      (∀ r, t[t.length - 1]? = some r → r.aoa < a → l = r.cl ∧ d = r.cd ∧ m = r.cm) ∧
      (∀ lo hi, (∀ r ∈ t, lo ≤ r.cl ∧ r.cl ≤ hi) → lo ≤ l ∧ l ≤ hi) ∧ (∀ lo hi, (∀ r ∈ t, lo ≤ r.cd ∧ r.cd ≤ hi) → lo ≤ d ∧ d ≤ hi) := by
  have key : ∀ f : Row ℝ → ℝ, ∃ v, tableCoeff (t.map Row.aoa) (t.map f) a = some v ∧
      (∀ r, t[0]? = some r → a < r.aoa → v = f r) ∧ (∀ r, t[t.length - 1]? = some r → r.aoa < a → v = f r) ∧
      (∀ lo hi, (∀ r ∈ t, lo ≤ f r ∧ f r ≤ hi) → lo ≤ v ∧ v ≤ hi) := by
    intro f
    obtain ⟨v, e, lowv, highv, mid⟩ := linear_bounded (t.map Row.aoa) (t.map f) hs 1 0 ⟨by simp, by norm_num⟩ (by simpa using h2) a
    have low : ∀ r, t[0]? = some r → a < r.aoa → v = f r := by
      intro r hr ha
      have := lowv r.aoa (by rw [List.getElem?_map, hr]; rfl) ha
      rw [List.getElem?_map, hr] at this
      exact (Option.some.inj this).symm
    have high : ∀ r, t[t.length - 1]? = some r → r.aoa < a → v = f r := by
      intro r hr ha
      have := highv r.aoa (by rw [List.length_map, List.getElem?_map, hr]; rfl) ha
      rw [List.length_map, Nat.one_mul, Nat.add_zero, List.getElem?_map, hr] at this
      exact (Option.some.inj this).symm
    refine ⟨v, e, low, high, fun lo hi hb => ?_⟩
    obtain ⟨r0, hr0⟩ : ∃ r, t[0]? = some r := ⟨_, List.getElem?_eq_getElem (by omega)⟩
    obtain ⟨rn, hrn⟩ : ∃ r, t[t.length - 1]? = some r := ⟨_, List.getElem?_eq_getElem (by omega)⟩
    rcases lt_or_ge a r0.aoa with h | h
    · rw [low r0 hr0 h]; exact hb r0 (List.mem_of_getElem? hr0)
    · rcases lt_or_ge rn.aoa a with h' | h'
      · rw [high rn hrn h']; exact hb rn (List.mem_of_getElem? hrn)
      · obtain ⟨i, yl, yr, -, gl, gr, b1, b2⟩ := mid r0.aoa rn.aoa (by rw [List.getElem?_map, hr0]; rfl)
          (by rw [List.length_map, List.getElem?_map, hrn]; rfl) h h'
        have inb : ∀ (j : ℕ) (y : ℝ), (t.map f)[j]? = some y → lo ≤ y ∧ y ≤ hi := by
          intro j y hj
          obtain ⟨r, hr, rfl⟩ := List.mem_map.mp (List.mem_of_getElem? hj)
          exact hb r hr
        have p1 := inb _ _ gl
        have p2 := inb _ _ gr
        exact ⟨(le_min p1.1 p2.1).trans b1, b2.trans (max_le p1.2 p2.2)⟩
  obtain ⟨l, el, l1, l2, l3⟩ := key Row.cl
  obtain ⟨d, ed, d1, d2, d3⟩ := key Row.cd
  obtain ⟨m, em, m1, m2, -⟩ := key Row.cm
  refine ⟨l, d, m, ?_, fun r h1 h2 => ⟨l1 r h1 h2, d1 r h1 h2, m1 r h1 h2⟩, fun r h1 h2 => ⟨l2 r h1 h2, d2 r h1 h2, m2 r h1 h2⟩, l3, d3⟩
  unfold polar
  rw [el, ed, em]
  rfl

/-- **C126** fails for a table cut short: the last row has angle zero, so that at every positive angle of attack the wing has neither
lift nor drag. -/
theorem truncated_no_lift (t : List (Row ℝ)) (ht : t ≠ []) (h0 : ∀ r, t[0]? = some r → r.aoa ≤ 0) (missing : ℕ) (hm : 0 < missing) {a : ℝ} (ha : 0 < a) :
    polar (t ++ List.replicate missing ⟨0, 0, 0, 0⟩) a = some (0, 0, 0) := by
  have hl : 0 < t.length := List.length_pos_iff.mpr ht
  have len : (t ++ List.replicate missing (⟨0, 0, 0, 0⟩ : Row ℝ)).length = t.length + missing := by simp
  have last : (t ++ List.replicate missing (⟨0, 0, 0, 0⟩ : Row ℝ))[t.length + missing - 1]? = some ⟨0, 0, 0, 0⟩ := by
    rw [List.getElem?_append_right (by omega), List.getElem?_replicate, if_pos (by omega)]
  obtain ⟨r0, hr0⟩ : ∃ r, t[0]? = some r := ⟨_, List.getElem?_eq_getElem (by omega)⟩
  have first : (t ++ List.replicate missing (⟨0, 0, 0, 0⟩ : Row ℝ))[0]? = some r0 := by
    rw [List.getElem?_append_left (by omega), hr0]
  generalize t ++ List.replicate missing (⟨0, 0, 0, 0⟩ : Row ℝ) = u at *
  have key : ∀ f : Row ℝ → ℝ, f ⟨0, 0, 0, 0⟩ = 0 → tableCoeff (u.map Row.aoa) (u.map f) a = some 0 := by
    intro f hf
    unfold tableCoeff
    have hb := bisection_high (u.map Row.aoa) a (x0 := r0.aoa) (by simp; omega) (by rw [List.getElem?_map, first]; rfl)
      (xn := 0) (by rw [List.length_map, len, List.getElem?_map, last]; rfl) ((h0 r0 hr0).trans ha.le) ha
    unfold linear linearImpl
    rw [hb]
    simp only [List.length_map, len]
    rw [if_pos (Or.inr trivial), Nat.one_mul, Nat.add_zero, List.getElem?_map, last]
    simp [hf]
  unfold polar
  rw [key _ rfl, key _ rfl, key _ rfl]
  rfl

/-- **C126** fails for an empty table: the first entry of an empty array is read. -/
theorem empty_undefined (a : ℝ) : polar [] a = none := by
  unfold polar tableCoeff
  rw [List.map_nil, linear_short_table _ _ _ _ _ (by simp)]
  rfl

/-! ## Examples -/

/-- Reading of a few words. -/
def exNum : String → Option ℚ
  | "-10" => some (-10) | "-1.1" => some (-11 / 10) | "0.02" => some (2 / 100) | "0" => some 0 | "10" => some 10 | "1.1" => some (11 / 10) | _ => none

def exInt : String → Option ℤ
  | "2" => some 2 | "3" => some 3 | "-1" => some (-1) | _ => none

example : loadOpenfast exInt exNum id [["!", "comment"], ["2", "NumAlf", "!", "rows"], ["!", "Alpha"], ["!", "(deg)"],
    ["-10", "-1.1", "0.02", "0"], ["10", "1.1", "0.02", "0"]] = some [⟨-10, -11 / 10, 2 / 100, 0⟩, ⟨10, 11 / 10, 2 / 100, 0⟩] := by decide +kernel

/-- The same rows on other lines. -/
example : loadText exInt exNum id [["2", "-10"], ["-1.1", "0.02", "0", "10"], ["1.1"], ["0.02", "0", "more"]] =
    some [⟨-10, -11 / 10, 2 / 100, 0⟩, ⟨10, 11 / 10, 2 / 100, 0⟩] := by decide +kernel

/-- One row is missing. -/
example : loadText exInt exNum id [["2"], ["-10", "-1.1", "0.02", "0"]] = some [⟨-10, -11 / 10, 2 / 100, 0⟩, ⟨0, 0, 0, 0⟩] := by decide +kernel

/-- A comment on `NumAlf`. -/
example : loadOpenfast exInt exNum id [["!", "see", "NumAlf"], ["2", "NumAlf"], [], [], ["-10", "-1.1", "0.02", "0"], ["10", "1.1", "0.02", "0"]] = some [] := by
  decide +kernel

example : Writes exNum ["-10", "-1.1", "0.02", "0"] ⟨-10, -11 / 10, 2 / 100, 0⟩ := ⟨_, _, _, _, rfl, rfl, rfl, rfl, rfl⟩

example : StrictSorted (([⟨-1, -1, 0, 0⟩, ⟨1, 1, 0, 0⟩] : List (Row ℚ)).map Row.aoa) := by unfold StrictSorted; decide +kernel

end AmrWind.Airfoil
