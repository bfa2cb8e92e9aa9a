import Mathlib.Tactic.Linarith
import Mathlib.Tactic.Ring
import Mathlib.Tactic.FieldSimp
import Mathlib.Tactic.NormNum
import Mathlib.Tactic.LinearCombination
import Mathlib.Data.List.Basic
import Verif.Cosim.Model
/-!
# C120: a controller and a run understand each other
-/

set_option linter.unusedSectionVars false

namespace AmrWind.Cosim

variable {V : Type*}

/-! ## Specification -/

/-- No comma in a field of a message. -/
def Plain (f : List Char) : Prop := ',' ∉ f

/-- A message as the controller writes it: fields in brackets, separated by commas. -/
def encode (f0 : List Char) (fs : List (List Char)) : List Char := '[' :: f0 ++ (fs.flatMap fun f => ',' :: f) ++ [']']

/-- What is asked of `atof`: it stops at a comma, a bracket or a blank and skips a blank in front. -/
structure AtofOk (atof : List Char → V) : Prop where
  comma : ∀ s, atof (s ++ [',']) = atof s
  bracket : ∀ s, atof (s ++ [']']) = atof s
  after : ∀ s, atof (s ++ [' ']) = atof s
  before : ∀ s, atof (' ' :: s) = atof s

/-! ## Messages -/

theorem pieces_cons (p : List Char) (hp : Plain p) (s : List Char) : pieces (p ++ ',' :: s) = p :: pieces s := by
  induction p with
  | nil => simp [pieces]
  | cons c p ih =>
    have hc : c ≠ ',' := fun e => hp (by rw [e]; simp)
    have hp' : Plain p := fun h => hp (by simp [h])
    show pieces (c :: (p ++ ',' :: s)) = _
    have un : pieces (c :: (p ++ ',' :: s)) = if c = ',' then [] :: pieces (p ++ ',' :: s) else match pieces (p ++ ',' :: s) with
      | [] => [[c]]
      | q :: ps => (c :: q) :: ps := rfl
    rw [un, if_neg hc, ih hp']

theorem pieces_last (p : List Char) (hp : Plain p) : pieces p = [p] := by
  induction p with
  | nil => rfl
  | cons c p ih =>
    have hc : c ≠ ',' := fun e => hp (by rw [e]; simp)
    have hp' : Plain p := fun h => hp (by simp [h])
    have un : pieces (c :: p) = if c = ',' then [] :: pieces p else match pieces p with
      | [] => [[c]]
      | q :: ps => (c :: q) :: ps := rfl
    rw [un, if_neg hc, ih hp']

/-- The fields after the first. -/
theorem pieces_fields (f : List Char) (fs : List (List Char)) (hf : ∀ g ∈ f :: fs, Plain g) :
    pieces (f ++ (fs.flatMap fun g => ',' :: g) ++ [']']) = (f :: fs).dropLast ++ [(f :: fs).getLast (by simp) ++ [']']] := by
  induction fs generalizing f with
  | nil =>
    have : Plain (f ++ [']']) := by
      intro h
      rcases List.mem_append.mp h with h | h
      · exact hf f (by simp) h
      · simp at h
    simpa using pieces_last _ this
  | cons g fs ih =>
    have e : f ++ ((g :: fs).flatMap fun g => ',' :: g) ++ [']'] = f ++ ',' :: (g ++ (fs.flatMap fun g => ',' :: g) ++ [']']) := by simp
    rw [e, pieces_cons f (hf f (by simp)), ih g fun x hx => hf x (by simp [List.mem_cons.mp hx])]
    simp

theorem tokens_encode (f0 f1 : List Char) (fs : List (List Char)) (h0 : Plain f0) (hf : ∀ g ∈ f1 :: fs, Plain g) :
    tokens (encode f0 (f1 :: fs)) = some ((f0 ++ [',']) :: ((f1 :: fs).dropLast ++ [(f1 :: fs).getLast (by simp) ++ [']']])) := by
  have hs : encode f0 (f1 :: fs) = ('[' :: f0) ++ ',' :: (f1 ++ (fs.flatMap fun g => ',' :: g) ++ [']']) := by simp [encode]
  have hi : (encode f0 (f1 :: fs)).idxOf? ',' = some (f0.length + 1) := by
    rw [hs, List.idxOf?, List.findIdx?_append]
    have : List.findIdx? (fun x => x == ',') ('[' :: f0) = none := by
      rw [List.findIdx?_eq_none_iff]
      intro x hx
      rcases List.mem_cons.mp hx with rfl | hx
      · rfl
      · have : x ≠ ',' := fun e => h0 (e ▸ hx)
        simpa using this
    rw [this]
    simp [List.findIdx?_cons]
  unfold tokens
  have hl : ¬ (encode f0 (f1 :: fs)).length < 1 := by rw [hs]; simp
  rw [if_neg hl, hi]
  dsimp only
  rw [if_pos (by omega)]
  have d1 : ((encode f0 (f1 :: fs)).drop 1).take (f0.length + 1) = f0 ++ [','] := by
    rw [hs]
    simp [List.take_append, List.take_of_length_le]
  have d2 : (encode f0 (f1 :: fs)).drop (f0.length + 1 + 1) = f1 ++ (fs.flatMap fun g => ',' :: g) ++ [']'] := by
    rw [hs]
    have : f0.length + 1 + 1 = (('[' :: f0) ++ [',']).length := by simp
    rw [this]
    have : ('[' :: f0) ++ ',' :: (f1 ++ (fs.flatMap fun g => ',' :: g) ++ [']']) =
        (('[' :: f0) ++ [',']) ++ (f1 ++ (fs.flatMap fun g => ',' :: g) ++ [']']) := by simp
    rw [this, List.drop_left]
  rw [d1, d2, pieces_fields f1 fs hf]

theorem foldl_front (atof : List Char → V) (ts : List (List Char)) (l : List V) :
    ts.foldl (fun l t => atof t :: l) l = (ts.map atof).reverse ++ l := by
  induction ts generalizing l with
  | nil => simp
  | cons t ts ih => simp [ih]

/-- The numbers of a message, last first. -/
theorem tokenize_encode {atof : List Char → V} (ha : AtofOk atof) (f0 f1 : List Char) (fs : List (List Char)) (h0 : Plain f0)
    (hf : ∀ g ∈ f1 :: fs, Plain g) : tokenize atof (encode f0 (f1 :: fs)) = some ((f0 :: f1 :: fs).map atof).reverse := by
  unfold tokenize
  rw [tokens_encode f0 f1 fs h0 hf, Option.map_some, foldl_front, List.append_nil]
  have : ((f1 :: fs).dropLast ++ [(f1 :: fs).getLast (by simp) ++ [']']]).map atof = (f1 :: fs).map atof := by
    rw [List.map_append, List.map_singleton, ha.bracket, ← List.map_singleton (f := atof), ← List.map_append, List.dropLast_append_getLast]
  rw [List.map_cons, this, ha.comma]
  rfl

theorem popYaw_append (zs l acc : List V) : popYaw zs.length acc (zs ++ l) = some (zs.reverse ++ acc, l) := by
  induction zs generalizing acc with
  | nil => rfl
  | cons z zs ih =>
    show (pop ((z :: zs) ++ l)).bind _ = _
    have : pop ((z :: zs) ++ l) = some (z, zs ++ l) := rfl
    rw [this, Option.bind_some]
    dsimp only
    rw [ih]
    simp

theorem popYaw_short (n : ℕ) (acc l : List V) (h : l.length < n) : popYaw n acc l = none := by
  induction n generalizing acc l with
  | zero => omega
  | succ n ih =>
    cases l with
    | nil => rfl
    | cons a l =>
      show (pop (a :: l)).bind _ = none
      have : pop (a :: l) = some (a, l) := rfl
      rw [this, Option.bind_some]
      exact ih _ _ (by simp at h; omega)

/-- The text after which values come out, whatever came before them. -/
theorem receive_fields {atof : List Char → V} (ha : AtofOk atof) (t : ℚ) (ht : 1 < t) (s : Store V) (f0 f1 : List Char) (fs : List (List Char))
    (pre ys : List (List Char)) (ft fv fd a b : List Char) (hfs : f0 :: f1 :: fs = pre ++ [ft, fv, fd] ++ ys ++ [a, b])
    (hp : ∀ g ∈ f0 :: f1 :: fs, Plain g) (hy : ys.length = s.yaw.length) :
    receive atof t (encode f0 (f1 :: fs)) s = some { s with speed := atof fv, direction := atof fd, yaw := ys.map atof } := by
  unfold receive
  rw [if_pos ht, tokenize_encode ha f0 f1 fs (hp f0 (by simp)) (fun g hg => hp g (by simp [List.mem_cons.mp hg])), hfs, Option.bind_some]
  have e : ((pre ++ [ft, fv, fd] ++ ys ++ [a, b]).map atof).reverse =
      atof b :: atof a :: ((ys.map atof).reverse ++ (atof fd :: atof fv :: atof ft :: (pre.map atof).reverse)) := by simp
  rw [e]
  have p1 : ∀ (x : V) l, pop (x :: l) = some (x, l) := fun _ _ => rfl
  rw [p1, Option.bind_some]
  dsimp only
  rw [p1, Option.bind_some]
  dsimp only
  have hl : s.yaw.length = ((ys.map atof).reverse).length := by simp [hy]
  rw [hl, popYaw_append, Option.bind_some]
  dsimp only
  rw [p1, Option.bind_some]
  dsimp only
  rw [p1, Option.bind_some]
  dsimp only
  rw [p1, Option.map_some]
  simp

/-- C120: a message with a time, a wind speed, a wind direction, one yaw angle for each turbine and two more fields gives the run
this wind and each turbine its own angle.

Partial (C120). Missing: shorter messages and those for more turbines (`short_undefined`, `extra_turbine_misread`). -/
theorem message_read_partial {atof : List Char → V} (ha : AtofOk atof) (t : ℚ) (ht : 1 < t) (s : Store V) (ft fv fd a b : List Char) (ys : List (List Char))
    (hp : ∀ g ∈ [ft, fv, fd, a, b] ++ ys, Plain g) (hy : ys.length = s.yaw.length) :
    ∃ s', receive atof t (encode ft ([fv, fd] ++ ys ++ [a, b])) s = some s' ∧ s'.speed = atof fv ∧ s'.direction = atof fd ∧
      s'.yaw = ys.map atof ∧ s'.power = s.power ∧ s'.windDir = s.windDir := by
  refine ⟨_, receive_fields ha t ht s ft fv (fd :: ys ++ [a, b]) [] ys ft fv fd a b (by simp) ?_ hy, rfl, rfl, rfl, rfl, rfl⟩
  intro g hg
  apply hp
  simp only [List.mem_cons, List.mem_append, List.not_mem_nil, or_false] at hg ⊢
  tauto

theorem popYaw_length (n : ℕ) (acc l ys r : List V) (h : popYaw n acc l = some (ys, r)) : ys.length = n + acc.length := by
  induction n generalizing acc l with
  | zero =>
    have : some (acc, l) = some (ys, r) := h
    simp only [Option.some.injEq, Prod.mk.injEq] at this
    rw [← this.1]
    omega
  | succ n ih =>
    cases l with
    | nil => exact absurd h (by simp [popYaw, pop])
    | cons a l =>
      have : popYaw n (a :: acc) l = some (ys, r) := h
      rw [ih _ _ this]
      simp only [List.length_cons]
      omega

/-- The number of turbines does not change. -/
theorem receive_length (atof : List Char → V) (t : ℚ) (m : List Char) (s s' : Store V) (h : receive atof t m s = some s') :
    s'.yaw.length = s.yaw.length := by
  unfold receive at h
  by_cases ht : 1 < t
  · rw [if_pos ht] at h
    obtain ⟨l0, -, h⟩ := Option.bind_eq_some_iff.mp h
    obtain ⟨⟨_, l1⟩, -, h⟩ := Option.bind_eq_some_iff.mp h
    obtain ⟨⟨_, l2⟩, -, h⟩ := Option.bind_eq_some_iff.mp h
    obtain ⟨⟨ys, l3⟩, hy, h⟩ := Option.bind_eq_some_iff.mp h
    obtain ⟨⟨_, l4⟩, -, h⟩ := Option.bind_eq_some_iff.mp h
    obtain ⟨⟨_, l5⟩, -, h⟩ := Option.bind_eq_some_iff.mp h
    obtain ⟨_, -, rfl⟩ := Option.map_eq_some_iff.mp h
    have := popYaw_length _ _ _ _ _ hy
    simpa using this
  · rw [if_neg ht, Option.some.injEq] at h
    rw [h]

/-- Before the time of the federation passes 1 messages change nothing, whatever they are. -/
theorem early_ignored (atof : List Char → V) (t : ℚ) (ht : t ≤ 1) (m : List Char) (s : Store V) : receive atof t m s = some s := by
  unfold receive
  rw [if_neg (not_lt.mpr ht)]

/-- Counterexample: a message with fewer than five fields more than there are turbines, such as one with just the time, the wind and the yaw
angles, makes the run read from an empty list. -/
theorem short_undefined {atof : List Char → V} (ha : AtofOk atof) (t : ℚ) (ht : 1 < t) (s : Store V) (f0 f1 : List Char) (fs : List (List Char))
    (hp : ∀ g ∈ f0 :: f1 :: fs, Plain g) (hl : (f0 :: f1 :: fs).length < s.yaw.length + 5) :
    receive atof t (encode f0 (f1 :: fs)) s = none := by
  unfold receive
  rw [if_pos ht, tokenize_encode ha f0 f1 fs (hp f0 (by simp)) (fun g hg => hp g (by simp [List.mem_cons.mp hg])), Option.bind_some]
  generalize hL : ((f0 :: f1 :: fs).map atof).reverse = L
  have hlen : L.length < s.yaw.length + 5 := by rw [← hL]; simpa using hl
  have p1 : ∀ (x : V) l, pop (x :: l) = some (x, l) := fun _ _ => rfl
  have p0 : pop ([] : List V) = none := rfl
  match L, hlen with
  | [], _ => rfl
  | [x], _ => rfl
  | x :: y :: L, hlen =>
    rw [p1, Option.bind_some]
    dsimp only
    rw [p1, Option.bind_some]
    dsimp only
    by_cases hs : L.length < s.yaw.length
    · rw [popYaw_short _ _ _ hs]
      rfl
    · have hd : L = L.take s.yaw.length ++ L.drop s.yaw.length := (List.take_append_drop _ _).symm
      have ht : (L.take s.yaw.length).length = s.yaw.length := by rw [List.length_take]; omega
      have hpop : popYaw s.yaw.length [] L = some ((L.take s.yaw.length).reverse ++ [], L.drop s.yaw.length) := by
        conv_lhs => rw [hd]
        have := popYaw_append (L.take s.yaw.length) (L.drop s.yaw.length) []
        rw [ht] at this
        exact this
      rw [hpop, Option.bind_some]
      dsimp only
      have hdl : (L.drop s.yaw.length).length < 3 := by
        rw [List.length_drop]
        simp only [List.length_cons] at hlen
        omega
      match L.drop s.yaw.length, hdl with
      | [], _ => rfl
      | [_], _ => rfl
      | [_, _], _ => rfl

/-- Counterexample: a message for one turbine more is taken, with the wind direction as wind speed, the first yaw angle as wind direction
and every turbine turned by the angle of the next. -/
theorem extra_turbine_misread {atof : List Char → V} (ha : AtofOk atof) (t : ℚ) (ht : 1 < t) (s : Store V) (ft fv fd y0 a b : List Char)
    (ys : List (List Char)) (hp : ∀ g ∈ [ft, fv, fd, y0, a, b] ++ ys, Plain g) (hy : ys.length = s.yaw.length) :
    ∃ s', receive atof t (encode ft ([fv, fd, y0] ++ ys ++ [a, b])) s = some s' ∧ s'.speed = atof fd ∧ s'.direction = atof y0 ∧
      s'.yaw = ys.map atof := by
  refine ⟨_, receive_fields ha t ht s ft fv (fd :: y0 :: ys ++ [a, b]) [ft] ys fv fd y0 a b (by simp) ?_ hy, rfl, rfl, rfl⟩
  intro g hg
  apply hp
  simp only [List.mem_cons, List.mem_append, List.not_mem_nil, or_false] at hg ⊢
  tauto

/-- An empty message ends the run with an exception. -/
theorem empty_fails (atof : List Char → V) (t : ℚ) (ht : 1 < t) (s : Store V) : receive atof t [] s = none := by
  unfold receive
  rw [if_pos ht]
  rfl

theorem flatMap_map {α : Type*} (g : α → List Char) (l : List α) : (l.map g).flatMap (fun f => ',' :: f) = l.flatMap fun x => ',' :: g x := by
  induction l with
  | nil => rfl
  | cons a l ih => simp [ih]

/-- C120: a message sent holds the time, the wind and one power and one wind direction for each turbine, in this order. -/
theorem message_sent {atof : List Char → V} (ha : AtofOk atof) (fmt : V → List Char) (hf : ∀ x, Plain (fmt x)) (hr : ∀ x, atof (fmt x) = x)
    (time speed dir : V) (power windDir : List V) :
    (tokenize atof (message fmt time speed dir power windDir)).map List.reverse = some (time :: speed :: dir :: (power ++ windDir)) := by
  have e : message fmt time speed dir power windDir =
      encode (fmt time) ((' ' :: fmt speed ++ [' ']) :: ((' ' :: fmt dir) :: ((power ++ windDir).map fmt))) := by
    unfold message encode
    simp only [List.flatMap_cons, List.map_append, List.flatMap_append, flatMap_map]
    simp
  rw [e, tokenize_encode ha _ _ _ (hf time)]
  · simp only [List.map_cons, Option.map_some, List.reverse_reverse, hr, ha.before, ha.after, List.map_map]
    have h2 : (power ++ windDir).map (atof ∘ fmt) = power ++ windDir := by
      conv_rhs => rw [← List.map_id (power ++ windDir)]
      exact List.map_congr_left fun x _ => hr x
    rw [h2]
  · intro g hg
    rcases List.mem_cons.mp hg with rfl | hg
    · intro h
      simp only [List.cons_append, List.mem_cons, List.mem_append, List.not_mem_nil, or_false] at h
      rcases h with h | h | h
      · simp at h
      · exact hf speed h
      · simp at h
    · rcases List.mem_cons.mp hg with rfl | hg
      · intro h
        rcases List.mem_cons.mp h with h | h
        · simp at h
        · exact hf dir h
      · obtain ⟨x, -, rfl⟩ := List.mem_map.mp hg
        exact hf x

/-- The one publication there is gets the message; with more of them the `i`-th would get it `i + 1` times over. -/
theorem publications (m : List Char) (n : ℕ) : publish m 1 [] = [m] ∧
    publish m n [] = (List.range n).map fun i => (List.replicate (i + 1) m).flatten := by
  have h : ∀ n j, publish m n (List.replicate j m).flatten = (List.range n).map fun i => (List.replicate (j + i + 1) m).flatten := by
    intro n
    induction n with
    | zero => intro j; rfl
    | succ n ih =>
      intro j
      have e : (List.replicate j m).flatten ++ m = (List.replicate (j + 1) m).flatten := by
        rw [List.replicate_succ']; simp
      rw [publish, e, ih (j + 1), List.range_succ_eq_map, List.map_cons, List.map_map]
      congr 1
      refine List.map_congr_left fun i _ => ?_
      simp only [Function.comp]
      congr 2; omega
  refine ⟨by simp [publish], ?_⟩
  have := h n 0
  simpa using this

/-! ## When values take effect -/

/-- The physics leave what the controller sent alone. -/
def Keeps (use : Store V → Store V) : Prop := ∀ s, (use s).speed = s.speed ∧ (use s).direction = s.direction ∧ (use s).yaw = s.yaw

/-- C120, counterexample to an immediate effect: the turbines and the wind of a step know the messages of earlier steps only, not that of the step. -/
theorem step_late (atof : List Char → V) (use : Store V → Store V) (ms ms' : List (ℚ × List Char)) (s : Store V) (l l' : List (Store V))
    (h : steps atof use ms s = some l) (h' : steps atof use ms' s = some l') (k : ℕ) (hk : ms.take k = ms'.take k) (hl : k < ms.length)
    (hl' : k < ms'.length) : l[k]? = l'[k]? := by
  induction ms generalizing ms' s l l' k with
  | nil => simp at hl
  | cons m ms ih =>
    cases ms' with
    | nil => simp at hl'
    | cons m' ms' =>
      obtain ⟨t, x⟩ := m
      obtain ⟨t', x'⟩ := m'
      have u : (receive atof t x (use s)).bind (fun s' => (steps atof use ms s').map fun l => s :: l) = some l := h
      have u' : (receive atof t' x' (use s)).bind (fun s' => (steps atof use ms' s').map fun l => s :: l) = some l' := h'
      obtain ⟨s1, h1, h2⟩ := Option.bind_eq_some_iff.mp u
      obtain ⟨s1', h1', h2'⟩ := Option.bind_eq_some_iff.mp u'
      obtain ⟨r, hr, rfl⟩ := Option.map_eq_some_iff.mp h2
      obtain ⟨r', hr', rfl⟩ := Option.map_eq_some_iff.mp h2'
      cases k with
      | zero => rfl
      | succ k =>
        simp only [List.take_succ_cons, List.cons.injEq, Prod.mk.injEq] at hk
        obtain ⟨⟨rfl, rfl⟩, hk⟩ := hk
        rw [h1, Option.some.injEq] at h1'
        subst h1'
        simp only [List.getElem?_cons_succ]
        exact ih ms' s1 r r' hr hr' k hk (by simpa using hl) (by simpa using hl')

/-- C120: from the step after a message to that of the next one, the run has the wind and the angles of the message. -/
theorem step_next {atof : List Char → V} (ha : AtofOk atof) (use : Store V → Store V) (hu : Keeps use) (ms : List (ℚ × List Char)) (s : Store V)
    (l : List (Store V)) (h : steps atof use ms s = some l) (k : ℕ) (t : ℚ) (ht : 1 < t) (ft fv fd a b : List Char) (ys : List (List Char))
    (hm : ms[k]? = some (t, encode ft ([fv, fd] ++ ys ++ [a, b]))) (hp : ∀ g ∈ [ft, fv, fd, a, b] ++ ys, Plain g) (hy : ys.length = s.yaw.length)
    (q : Store V) (hq : l[k + 1]? = some q) :
    q.speed = atof fv ∧ q.direction = atof fd ∧ q.yaw = ys.map atof := by
  induction ms generalizing s l k with
  | nil => simp at hm
  | cons m ms ih =>
    obtain ⟨t0, x⟩ := m
    have u : (receive atof t0 x (use s)).bind (fun s' => (steps atof use ms s').map fun l => s :: l) = some l := h
    obtain ⟨s1, h1, h2⟩ := Option.bind_eq_some_iff.mp u
    obtain ⟨r, hr, rfl⟩ := Option.map_eq_some_iff.mp h2
    simp only [List.getElem?_cons_succ] at hq
    cases k with
    | zero =>
      simp only [List.getElem?_cons_zero, Option.some.injEq, Prod.mk.injEq] at hm
      obtain ⟨rfl, rfl⟩ := hm
      obtain ⟨s', e1, e2, e3, e4, -⟩ := message_read_partial ha t0 ht (use s) ft fv fd a b ys hp (by rw [(hu s).2.2]; exact hy)
      rw [e1, Option.some.injEq] at h1
      subst h1
      cases ms with
      | nil =>
        have : r = [] := by
          have : some ([] : List (Store V)) = some r := hr
          simpa using this.symm
        rw [this] at hq
        simp at hq
      | cons m2 ms =>
        obtain ⟨t2, x2⟩ := m2
        have u2 : (receive atof t2 x2 (use s')).bind (fun z => (steps atof use ms z).map fun l => s' :: l) = some r := hr
        obtain ⟨s2, -, k2⟩ := Option.bind_eq_some_iff.mp u2
        obtain ⟨r2, -, rfl⟩ := Option.map_eq_some_iff.mp k2
        simp only [List.getElem?_cons_zero, Option.some.injEq] at hq
        subst hq
        exact ⟨e2, e3, e4⟩
    | succ k =>
      simp only [List.getElem?_cons_succ] at hm
      refine ih s1 r hr k hm ?_ hq
      rw [receive_length atof t0 x (use s) s1 h1, (hu s).2.2]
      exact hy

/-! ## Angles -/

theorem rad_shift (x c : ℝ) : rad (-x + c) = rad c - rad x := by unfold rad; ring

theorem cos_270 (x : ℝ) : Real.cos (rad (-x + 270)) = -Real.sin (rad x) := by
  have : rad 270 = Real.pi + Real.pi / 2 := by unfold rad; ring
  rw [rad_shift, this]
  have e : Real.pi + Real.pi / 2 - rad x = (Real.pi / 2 - rad x) + Real.pi := by ring
  rw [e, Real.cos_add_pi, Real.cos_pi_div_two_sub]

theorem sin_270 (x : ℝ) : Real.sin (rad (-x + 270)) = -Real.cos (rad x) := by
  have : rad 270 = Real.pi + Real.pi / 2 := by unfold rad; ring
  rw [rad_shift, this]
  have e : Real.pi + Real.pi / 2 - rad x = (Real.pi / 2 - rad x) + Real.pi := by ring
  rw [e, Real.sin_add_pi, Real.sin_pi_div_two_sub]

/-- C120: the wind comes from the compass direction given (0 is north, 90 east) with the speed given. -/
theorem wind_from (speed direction : ℝ) :
    velocity speed direction = (-(speed * Real.sin (rad direction)), -(speed * Real.cos (rad direction))) ∧
      (velocity speed direction).1 ^ 2 + (velocity speed direction).2 ^ 2 = speed ^ 2 := by
  have e : velocity speed direction = (-(speed * Real.sin (rad direction)), -(speed * Real.cos (rad direction))) := by
    show (speed * Real.cos (rad (-direction + 270)), speed * Real.sin (rad (-direction + 270))) = _
    rw [cos_270, sin_270, mul_neg, mul_neg]
  refine ⟨e, ?_⟩
  rw [e]
  have := Real.sin_sq_add_cos_sq (rad direction)
  dsimp only
  linear_combination speed ^ 2 * this

/-- C120: a turbine with the yaw angle of the wind faces it: the normal of its disk points against the wind. -/
theorem turbine_faces_wind (speed yaw : ℝ) : velocity speed yaw = (-speed * (diskNormal yaw).1, -speed * (diskNormal yaw).2) ∧
    (diskNormal yaw).1 ^ 2 + (diskNormal yaw).2 ^ 2 = 1 := by
  have h90 : rad 90 = Real.pi / 2 := by unfold rad; ring
  have e : diskNormal yaw = (Real.sin (rad yaw), Real.cos (rad yaw)) := by
    show (Real.cos (rad (-yaw + 90)), Real.sin (rad (-yaw + 90))) = _
    rw [rad_shift, h90, Real.cos_pi_div_two_sub, Real.sin_pi_div_two_sub]
  rw [(wind_from speed yaw).1, e]
  refine ⟨?_, Real.sin_sq_add_cos_sq _⟩
  simp only [neg_mul]

/-- The direction reported is never below 90 nor 450 or more.

Partial (C120). Missing: directions from 0 to 90, where it is false (`north_east_beyond`). -/
theorem reported_range_partial (u v : ℝ) : 90 ≤ reported u v ∧ reported u v < 450 := by
  unfold reported deg
  have h1 := Complex.neg_pi_lt_arg ⟨u, v⟩
  have h2 := Complex.arg_le_pi ⟨u, v⟩
  have hp := Real.pi_pos
  have e1 : 180 * Complex.arg ⟨u, v⟩ / Real.pi ≤ 180 := by
    rw [div_le_iff₀ hp]; linarith
  have e2 : -180 < 180 * Complex.arg ⟨u, v⟩ / Real.pi := by
    rw [lt_div_iff₀ hp]; linarith
  constructor <;> linarith

/-- The direction reported for the wind a controller asked for is the one it asked for, up to full turns. -/
theorem reported_turns (speed direction : ℝ) (hs : 0 < speed) :
    ∃ k : ℤ, reported (velocity speed direction).1 (velocity speed direction).2 = direction + 360 * k := by
  have e : (⟨(velocity speed direction).1, (velocity speed direction).2⟩ : ℂ) =
      (speed : ℂ) * (Complex.cos (rad (-direction + 270) : ℝ) + Complex.sin (rad (-direction + 270) : ℝ) * Complex.I) := by
    rw [← Complex.ofReal_cos, ← Complex.ofReal_sin]
    apply Complex.ext
    · simp only [velocity, Complex.mul_re, Complex.add_re, Complex.add_im, Complex.mul_im, Complex.ofReal_re, Complex.ofReal_im, Complex.I_re, Complex.I_im]
      ring
    · simp only [velocity, Complex.mul_re, Complex.add_re, Complex.add_im, Complex.mul_im, Complex.ofReal_re, Complex.ofReal_im, Complex.I_re, Complex.I_im]
      ring
  unfold reported
  rw [e, Complex.arg_mul_cos_add_sin_mul_I_eq_toIocMod hs]
  refine ⟨toIocDiv Real.two_pi_pos (-Real.pi) (rad (-direction + 270)), ?_⟩
  have h := toIocMod_add_toIocDiv_zsmul Real.two_pi_pos (-Real.pi) (rad (-direction + 270))
  rw [zsmul_eq_mul] at h
  have hp := Real.pi_pos.ne'
  have h' : toIocMod Real.two_pi_pos (-Real.pi) (rad (-direction + 270)) =
      rad (-direction + 270) - (toIocDiv Real.two_pi_pos (-Real.pi) (rad (-direction + 270)) : ℝ) * (2 * Real.pi) := by linarith
  rw [h']
  unfold deg rad
  field_simp
  ring

/-- C120: a wind from 90 to 360 degrees is reported as asked for. -/
theorem reported_asked (speed direction : ℝ) (hs : 0 < speed) (h1 : 90 ≤ direction) (h2 : direction < 450) :
    reported (velocity speed direction).1 (velocity speed direction).2 = direction := by
  obtain ⟨k, hk⟩ := reported_turns speed direction hs
  obtain ⟨r1, r2⟩ := reported_range_partial (velocity speed direction).1 (velocity speed direction).2
  rw [hk] at r1 r2
  have a1 : (k : ℝ) < 1 := by linarith
  have a2 : (-1 : ℝ) < k := by linarith
  have a1' : k < 1 := by exact_mod_cast a1
  have a2' : -1 < k := by exact_mod_cast a2
  have : k = 0 := by omega
  rw [hk, this]
  simp

/-- Counterexample: a wind from the north-eastern quarter is reported with a direction beyond 360. -/
theorem north_east_beyond (speed direction : ℝ) (hs : 0 < speed) (h1 : 0 ≤ direction) (h2 : direction < 90) :
    reported (velocity speed direction).1 (velocity speed direction).2 = direction + 360 := by
  obtain ⟨k, hk⟩ := reported_turns speed direction hs
  obtain ⟨r1, r2⟩ := reported_range_partial (velocity speed direction).1 (velocity speed direction).2
  rw [hk] at r1 r2
  have a1 : (k : ℝ) < 2 := by linarith
  have a2 : (0 : ℝ) < k := by linarith
  have a1' : k < 2 := by exact_mod_cast a1
  have a2' : 0 < k := by exact_mod_cast a2
  have : k = 1 := by omega
  rw [hk, this]
  simp

/-- C120: the power reported for a disk is that of momentum theory: with the induction `a` for which the thrust coefficient is
`4 a (1 - a)`, the power coefficient is `4 a (1 - a)²`. -/
theorem power_momentum (a rho U D : ℝ) (ha : a ≤ 1 / 2) (hU : 0 ≤ U) :
    diskPower (4 * a * (1 - a)) rho (U ^ 2) D = some (4 * a * (1 - a) ^ 2 * (1 / 2 * rho * (Real.pi * D ^ 2 / 4) * U ^ 3)) := by
  unfold diskPower
  have e : 1 - 4 * a * (1 - a) = (1 - 2 * a) ^ 2 := by ring
  have hs : Real.sqrt ((1 - 2 * a) ^ 2) = 1 - 2 * a := Real.sqrt_sq (by linarith)
  have hu : (U ^ 2) ^ (3 / 2 : ℝ) = U ^ 3 := by
    rw [← Real.rpow_natCast U 2, ← Real.rpow_mul hU, ← Real.rpow_natCast U 3]
    norm_num
  rw [e, if_pos (sq_nonneg _), hs, hu]
  congr 1
  ring

/-- Counterexample: a disk with a thrust coefficient above 1 has no power (it is not a number). -/
theorem power_undefined (ct rho u D : ℝ) (h : 1 < ct) : diskPower ct rho u D = none := by
  unfold diskPower
  rw [if_neg (by linarith)]

/-! ## From the turbines to the controller -/

theorem sentTo_other (io : ℕ) (root : ℕ → ℕ) (val : ℕ → ℕ → V × V) (a : ℕ) (acts : List ℕ) (r : ℕ) (tag : Bool) (h : root a ≠ r) :
    sentTo io root val (a :: acts) r tag = sentTo io root val acts r tag := by
  unfold sentTo
  by_cases hr : r = io
  · rw [if_pos hr, if_pos hr]
  · rw [if_neg hr, if_neg hr, List.filter_cons_of_neg (by simpa using h)]

theorem sentTo_io (io : ℕ) (root : ℕ → ℕ) (val : ℕ → ℕ → V × V) (acts : List ℕ) (tag : Bool) : sentTo io root val acts io tag = [] := by
  unfold sentTo
  rw [if_pos rfl]

theorem sentTo_self (io : ℕ) (root : ℕ → ℕ) (val : ℕ → ℕ → V × V) (a : ℕ) (acts : List ℕ) (tag : Bool) (h : root a ≠ io) :
    sentTo io root val (a :: acts) (root a) tag = (if tag then (val (root a) a).2 else (val (root a) a).1) :: sentTo io root val acts (root a) tag := by
  unfold sentTo
  rw [if_neg h, if_neg h, List.filter_cons_of_pos (by simp), List.map_cons]

/-- Taking two values, one of each tag, from the queues of a rank. -/
theorem dequeue_two (q q' : Queues V) (r : ℕ) (p y : V) (hq : ∀ r' t, q r' t = if r' = r then (if t then y else p) :: q' r' t else q' r' t) :
    ∃ q2, dequeue q r false = some (p, q2) ∧ dequeue q2 r true = some (y, q') := by
  have h0 : q r false = p :: q' r false := by rw [hq, if_pos rfl]; rfl
  have h1 : q r true = y :: q' r true := by rw [hq, if_pos rfl]; rfl
  refine ⟨fun r' t' => if r' = r ∧ t' = false then q' r false else q r' t', ?_, ?_⟩
  · unfold dequeue
    rw [h0]
  · unfold dequeue
    beta_reduce
    rw [if_neg (by simp), h1]
    dsimp only
    congr 2
    funext r' t'
    by_cases hr : r' = r
    · subst hr
      cases t' <;> simp
    · simp only [hr, false_and, if_false]
      rw [hq, if_neg hr]

theorem collect_spec (buffered : Bool) (io : ℕ) (root : ℕ → ℕ) (val : ℕ → ℕ → V × V) (acts : List ℕ) (h : ℕ → V × V)
    (hb : buffered = true ∨ ∀ a ∈ acts, root a ≠ io) :
    ∃ f, collect buffered io root acts (sentTo io root val acts) h = some f ∧
      ∀ a, f a = if a ∈ acts ∧ root a ≠ io then val (root a) a else h a := by
  induction acts generalizing h with
  | nil => exact ⟨h, rfl, fun a => by simp⟩
  | cons a acts ih =>
    have hb' : buffered = true ∨ ∀ x ∈ acts, root x ≠ io := hb.imp id fun k x hx => k x (by simp [hx])
    unfold collect
    by_cases hr : root a = io
    · have hbt : buffered = true := hb.resolve_right fun k => k a (by simp) hr
      rw [if_pos hr, if_pos hbt, Option.bind_some, hr]
      obtain ⟨q2, d1, d2⟩ := dequeue_two (enqueue (enqueue (sentTo io root val (a :: acts)) io false (h a).1) io true (h a).2) (sentTo io root val acts) io
        (h a).1 (h a).2 (by
          intro r' t
          by_cases hr' : r' = io
          · subst hr'
            cases t <;> simp [enqueue, sentTo_io]
          · rw [if_neg hr']
            simp only [enqueue, hr', false_and, if_false]
            exact sentTo_other io root val a acts r' t fun e => hr' (by rw [← e, hr]))
      rw [d1, Option.bind_some]
      dsimp only
      rw [d2, Option.bind_some]
      dsimp only
      obtain ⟨f, hf, hv⟩ := ih (fun b => if b = a then ((h a).1, (h a).2) else h b) hb'
      refine ⟨f, hf, fun b => ?_⟩
      rw [hv b]
      by_cases hba : b = a
      · subst hba
        simp [hr]
      · simp [hba]
    · rw [if_neg hr, Option.bind_some]
      obtain ⟨q2, d1, d2⟩ := dequeue_two (sentTo io root val (a :: acts)) (sentTo io root val acts) (root a) (val (root a) a).1 (val (root a) a).2 (by
        intro r' t
        by_cases hr' : r' = root a
        · subst hr'
          rw [if_pos rfl, sentTo_self io root val a acts t hr]
        · rw [if_neg hr']
          exact sentTo_other io root val a acts r' t fun e => hr' e.symm)
      rw [d1, Option.bind_some]
      dsimp only
      rw [d2, Option.bind_some]
      dsimp only
      obtain ⟨f, hf, hv⟩ := ih (fun b => if b = a then ((val (root a) a).1, (val (root a) a).2) else h b) hb'
      refine ⟨f, hf, fun b => ?_⟩
      rw [hv b]
      by_cases hba : b = a
      · subst hba
        simp [hr]
      · simp [hba]

/-- C120: if sends return at once, the rank that talks to the controller has, for each turbine, the power and direction of the rank that has
the turbine. -/
theorem controller_gets_all (io : ℕ) (root : ℕ → ℕ) (val : ℕ → ℕ → V × V) (acts : List ℕ) :
    ∃ f, collect true io root acts (sentTo io root val acts) (val io) = some f ∧ ∀ a ∈ acts, f a = val (root a) a := by
  obtain ⟨f, hf, hv⟩ := collect_spec true io root val acts (val io) (Or.inl rfl)
  refine ⟨f, hf, fun a ha => ?_⟩
  rw [hv a]
  by_cases hr : root a = io
  · rw [if_neg (fun h => h.2 hr), hr]
  · rw [if_pos ⟨ha, hr⟩]

/-- Counterexample: where a send waits for its receiver, as the standard allows, a turbine on the rank that talks to the controller stops the
run for ever. -/
theorem own_turbine_blocks (io : ℕ) (root : ℕ → ℕ) (val : ℕ → ℕ → V × V) (acts : List ℕ) (a : ℕ) (ha : a ∈ acts) (hr : root a = io)
    (h : ℕ → V × V) : collect false io root acts (sentTo io root val acts) h = none := by
  induction acts generalizing h with
  | nil => simp at ha
  | cons b acts ih =>
    unfold collect
    by_cases hb : root b = io
    · rw [if_pos hb]
      rfl
    · rw [if_neg hb, Option.bind_some]
      obtain ⟨q2, d1, d2⟩ := dequeue_two (sentTo io root val (b :: acts)) (sentTo io root val acts) (root b) (val (root b) b).1 (val (root b) b).2 (by
        intro r' t
        by_cases hr' : r' = root b
        · subst hr'
          rw [if_pos rfl, sentTo_self io root val b acts t hb]
        · rw [if_neg hr']
          exact sentTo_other io root val b acts r' t fun e => hr' e.symm)
      rw [d1, Option.bind_some]
      dsimp only
      rw [d2, Option.bind_some]
      have : a ∈ acts := by
        rcases List.mem_cons.mp ha with rfl | h
        · exact absurd hr hb
        · exact h
      exact ih this _

/-! ## A case -/

/-- Whole numbers, blanks in front allowed. -/
def exAtof (s : List Char) : ℕ := ((s.dropWhile (· = ' ')).takeWhile Char.isDigit).foldl (fun n c => 10 * n + (c.toNat - '0'.toNat)) 0

theorem takeWhile_stop (s : List Char) (c : Char) (hc : c.isDigit = false) : (s ++ [c]).takeWhile Char.isDigit = s.takeWhile Char.isDigit := by
  induction s with
  | nil => simp [hc]
  | cons a s ih =>
    rw [List.cons_append, List.takeWhile_cons, List.takeWhile_cons, ih]

theorem exAtof_stop (s : List Char) (c : Char) (hc : c.isDigit = false) : exAtof (s ++ [c]) = exAtof s := by
  unfold exAtof
  congr 1
  induction s with
  | nil =>
    by_cases h : c = ' '
    · simp [h]
    · simp [h, hc]
  | cons a s ih =>
    by_cases h : a = ' '
    · rw [List.cons_append, List.dropWhile_cons_of_pos (by simpa using h), List.dropWhile_cons_of_pos (by simpa using h)]
      exact ih
    · rw [List.cons_append, List.dropWhile_cons_of_neg (by simpa using h), List.dropWhile_cons_of_neg (by simpa using h)]
      exact takeWhile_stop (a :: s) c hc

theorem exAtof_ok : AtofOk exAtof := by
  refine ⟨fun s => exAtof_stop s _ (by decide), fun s => exAtof_stop s _ (by decide), fun s => exAtof_stop s _ (by decide), fun s => ?_⟩
  unfold exAtof
  rw [List.dropWhile_cons_of_pos (by simp)]

/-- Two turbines at the start. -/
def exStore : Store ℕ := start 8 270 0 2

example : (receive exAtof 2 "[60,9,280, 270,265,7,1]".toList exStore).map (fun s => (s.speed, s.direction, s.yaw)) = some (9, 280, [270, 265]) := by
  decide +kernel

/-- The same for three turbines. -/
example : (receive exAtof 2 "[60,9,280,270,265,260,7,1]".toList exStore).map (fun s => (s.speed, s.direction, s.yaw)) = some (280, 270, [265, 260]) := by
  decide +kernel

/-- Without the last two fields. -/
example : (receive exAtof 2 "[60,9,280,270,265]".toList exStore).isNone = true := by decide +kernel

example : (steps exAtof id [(1, "x".toList), (2, "[60,9,280,270,265,7,1]".toList), (3, "[61,9,281,271,266,7,1]".toList)] exStore).map (·.map (·.yaw)) =
    some [[270, 270], [270, 270], [270, 265]] := by decide +kernel

example : Plain " 280".toList ∧ ¬Plain "2,8".toList := by unfold Plain; decide

/-- Turbines 0 and 2 on rank 1, turbine 1 on rank 0, which talks to the controller. -/
example : (collect true 0 (fun a => if a = 1 then 0 else 1) [0, 1, 2]
    (sentTo 0 (fun a => if a = 1 then 0 else 1) (fun r a => (10 * r + a, 5)) [0, 1, 2]) (fun a => (a, 5))).map (fun f => [f 0, f 1, f 2]) =
    some [(10, 5), (1, 5), (12, 5)] := by decide +kernel

/-- Wind from the west with 8: (8, 0), reported as 270. -/
example : reported (velocity 8 270).1 (velocity 8 270).2 = 270 := reported_asked 8 270 (by norm_num) (by norm_num) (by norm_num)

/-- Wind from 45 degrees is reported as 405. -/
example : reported (velocity 8 45).1 (velocity 8 45).2 = 405 := by
  rw [north_east_beyond 8 45 (by norm_num) (by norm_num) (by norm_num)]; norm_num

/-- C120: before a message arrives the wind is 8 from 270 degrees and every turbine faces 270; powers and measured directions are
zero. There is an entry for each actuator, and one entry when there is none. -/
theorem start_values (v8 v270 v0 : V) (labels : ℕ) : (start v8 v270 v0 labels).speed = v8 ∧ (start v8 v270 v0 labels).direction = v270 ∧
    (∀ y ∈ (start v8 v270 v0 labels).yaw, y = v270) ∧ (∀ y ∈ (start v8 v270 v0 labels).power, y = v0) ∧
    (∀ y ∈ (start v8 v270 v0 labels).windDir, y = v0) ∧ (start v8 v270 v0 labels).yaw.length = max labels 1 ∧
    (start v8 v270 v0 labels).power.length = max labels 1 ∧ (start v8 v270 v0 labels).windDir.length = max labels 1 := by
  have hn : (if 0 < labels then labels else 1) = max labels 1 := by split_ifs <;> omega
  simp only [start, hn, List.length_replicate, List.mem_replicate]
  exact ⟨trivial, trivial, fun y h => h.2, fun y h => h.2, fun y h => h.2, trivial, trivial, trivial⟩

/-- C120 fails: a message that begins with a comma has one empty field, whatever follows. -/
theorem leading_comma (s : List Char) : tokens (',' :: s) = some [[]] := by
  have : (',' :: s).idxOf? ',' = some 0 := by rw [List.idxOf?, List.findIdx?_cons]; rfl
  simp [tokens, this]

end AmrWind.Cosim
