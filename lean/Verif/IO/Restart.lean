import Verif.SimTime.Model
import Mathlib.Data.Fin.VecNotation
import Mathlib.Data.Fintype.Basic
import Mathlib.Data.Fintype.Pi
import Mathlib.Tactic.Linarith

/-!
# Model of checkpoint headers and of replicated restarts

`utilities/IOManager.cpp` (`write_header`, `read_checkpoint_fields`) and `utilities/io.cpp`
(`ReadCheckpointFile`).  The text of the header is modelled as a stream of tokens; that printing a number
with 17 digits and reading it gives the number back, and that AMReX reads the box arrays it writes, is part
of the trusted base.
-/

namespace AmrWind.IO
open AmrWind.SimTime

/-! ### Boxes -/

/-- A cell-centred box, both ends included. -/
structure Bx where
  lo : Fin 3 → ℤ
  hi : Fin 3 → ℤ
  deriving DecidableEq

/-- The cell `c` is in the box. -/
def Bx.Has (b : Bx) (c : Fin 3 → ℤ) : Prop := ∀ d, b.lo d ≤ c d ∧ c d ≤ b.hi d

instance (b : Bx) (c : Fin 3 → ℤ) : Decidable (b.Has c) := by unfold Bx.Has; infer_instance

/-- `Box::shift`. -/
def Bx.shift (b : Bx) (s : Fin 3 → ℤ) : Bx := ⟨fun d => b.lo d + s d, fun d => b.hi d + s d⟩

/-- Some box of the array has the cell. -/
def Covers (ba : List Bx) (c : Fin 3 → ℤ) : Prop := ∃ b ∈ ba, b.Has c

instance (ba : List Bx) (c : Fin 3 → ℤ) : Decidable (Covers ba c) := by unfold Covers; infer_instance

/-! ### The header -/

/-- Tokens of the header text: end of line, a printed integer, a printed real number, any other word, and
the text of a box array (`BoxArray::writeOn`, kept as one token). -/
inductive Tok (K : Type*)
  | nl
  | int (z : ℤ)
  | real (x : K)
  | word (s : String)
  | boxes (ba : List Bx)

/-- What is written: IOManager.cpp:329-355. -/
structure ChkData (K : Type*) where
  probLo : Fin 3 → K
  probHi : Fin 3 → K
  /-- box array of each level, level 0 first -/
  grids : List (List Bx)

variable {K : Type*} [Field K] [LinearOrder K] [FloorRing K]

/-- IOManager.cpp:308-356 `write_header` for all levels (`start_level = 0`). -/
def writeHeader (s : State K) (d : ChkData K) : List (Tok K) :=
  [.word "Checkpoint", .word "version:", .int 1, .nl,
   .int ((d.grids.length : ℤ) - 1), .nl,
   .int s.timeIndex, .nl, .real s.newTime, .nl, .real s.dt0, .nl, .real s.dt1, .nl, .real s.dt2, .nl,
   .real (d.probLo 0), .real (d.probLo 1), .real (d.probLo 2), .nl,
   .real (d.probHi 0), .real (d.probHi 1), .real (d.probHi 2), .nl] ++
  d.grids.flatMap fun ba => [.boxes ba, .nl]

/-- An input stream: the rest of the text and the fail bit. -/
structure Strm (K : Type*) where
  rest : List (Tok K)
  fail : Bool

/-- Skip white space (here: line ends) before an extraction. -/
def skipNl : List (Tok K) → List (Tok K)
  | .nl :: t => skipNl t
  | t => t

/-- `is >> int`; `lead x` is the integer read from the text of a real number. -/
def readInt (lead : K → Option ℤ) (old : ℤ) (st : Strm K) : ℤ × Strm K :=
  if st.fail then (old, st)
  else match skipNl st.rest with
    | .int z :: t => (z, ⟨t, false⟩)
    | .real x :: t => match lead x with
      | some z => (z, ⟨t, false⟩)
      | none => (0, ⟨.real x :: t, true⟩)
    | [] => (old, ⟨[], true⟩)
    | t => (0, ⟨t, true⟩)

/-- `is >> real`. -/
def readReal (old : K) (st : Strm K) : K × Strm K :=
  if st.fail then (old, st)
  else match skipNl st.rest with
    | .int z :: t => ((z : K), ⟨t, false⟩)
    | .real x :: t => (x, ⟨t, false⟩)
    | [] => (old, ⟨[], true⟩)
    | t => (0, ⟨t, true⟩)

/-- Drop the rest of the line and its end. -/
def dropLine : List (Tok K) → List (Tok K)
  | [] => []
  | .nl :: t => t
  | _ :: t => dropLine t

/-- The rest of the line. -/
def takeLine : List (Tok K) → List (Tok K)
  | [] => []
  | .nl :: _ => []
  | a :: t => a :: takeLine t

/-- io_utils.H:25-30 `goto_next_line` (`is.ignore(100000, '\n')`, which does nothing on a failed stream; lines
longer than 100000 characters are not modelled). -/
def gotoNext (st : Strm K) : Strm K := if st.fail then st else ⟨dropLine st.rest, false⟩

/-- `std::getline(is, line)`: on a failed stream the old line is kept; at the end of the text the line
becomes empty and the stream fails. -/
def getLine (old : List (Tok K)) (st : Strm K) : List (Tok K) × Strm K :=
  if st.fail then (old, st)
  else match st.rest with
    | [] => ([], ⟨[], true⟩)
    | t => (takeLine t, ⟨dropLine t, false⟩)

/-- io.cpp:73-77 and 82-86: the words of a line through `std::stod`; `none` if one is not a number
(`std::invalid_argument`, not caught) or there are more than three (write beyond the array). -/
def probOf (line : List (Tok K)) : Option (Fin 3 → K) :=
  if 3 < line.length then none
  else
    let rec go : List (Tok K) → Option (List K)
      | [] => some []
      | .int z :: t => (go t).map ((z : K) :: ·)
      | .real x :: t => (go t).map (x :: ·)
      | _ :: _ => none
    (go line).map fun l => fun d => (l[d.val]?).getD 0

/-- io.cpp:142-146: `readFrom` of the box array of each level (AMReX stops on a failed stream). -/
def readGrids : ℕ → Strm K → Option (List (List Bx))
  | 0, _ => some []
  | n + 1, st =>
    if st.fail then none
    else match skipNl st.rest with
      | .boxes ba :: t => (readGrids n (gotoNext ⟨t, false⟩)).map (ba :: ·)
      | _ => none

/-- What `ReadCheckpointFile` takes from the header.  `dtRestart` is read into a local variable that is never
used (io.cpp:49, 61). -/
structure ChkRead (K : Type*) where
  finestLevel : ℤ
  nstep : ℤ
  curTime : K
  dtRestart : K
  dt1 : K
  dt2 : K
  data : ChkData K

/-- io.cpp:38-87, 106-108 and 139-146 (the assertion `prob_hi > prob_lo` included); `none` is an abort, an
uncaught exception or a write beyond the array.  `old` are the values before reading (two of them
uninitialised in the code). -/
def readHeader (lead : K → Option ℤ) (old : ChkRead K) (text : List (Tok K)) : Option (ChkRead K) :=
  let title := getLine [] ⟨text, false⟩
  let fin := readInt lead old.finestLevel title.2
  let nst := readInt lead old.nstep (gotoNext fin.2)
  let cur := readReal old.curTime (gotoNext nst.2)
  let dtr := readReal old.dtRestart (gotoNext cur.2)
  let d1 := readReal old.dt1 (gotoNext dtr.2)
  let d2 := readReal old.dt2 (gotoNext d1.2)
  let lo := getLine title.1 (gotoNext d2.2)
  match probOf lo.1 with
  | none => none
  | some plo =>
    let hi := getLine lo.1 lo.2
    match probOf hi.1 with
    | none => none
    | some phi =>
      if ∀ d, plo d < phi d then
        match readGrids (fin.1 + 1).toNat hi.2 with
        | none => none
        | some g => some ⟨fin.1, nst.1, cur.1, dtr.1, d1.1, d2.1, ⟨plo, phi, g⟩⟩
      else none

/-- io.cpp:58-68: the time state after the restart.  `delta_t` keeps the value it got from the inputs. -/
def restoreTime (o : StartOverrides K) (r : ChkRead K) (s : State K) : State K :=
  { setRestartTime o r.nstep r.curTime s with dt1 := r.dt1, dt2 := r.dt2 }

/-! ### Replication -/

/-- io.cpp:104-125: the replication factor of one direction; `none` is an abort.  `std::abs` and the
conversion to `int` (towards zero). -/
def repOf (ratio : K) : Option ℤ :=
  let r := if 0 ≤ ratio then ⌊ratio⌋ else -⌊-ratio⌋
  if 1 / 1000000 < |(r : K) - ratio| then none else some r

/-- io.cpp:166-171 / IOManager.cpp:267-273: the shift of one copy. -/
def shiftOf (len : Fin 3 → ℤ) (lev : ℕ) (i j k : ℕ) : Fin 3 → ℤ :=
  ![(i : ℤ) * len 0 * 2 ^ lev, (j : ℤ) * len 1 * 2 ^ lev, (k : ℤ) * len 2 * 2 ^ lev]

/-- io.cpp:161-163 / IOManager.cpp:263-265: the shifts of all copies in the order of the loops. -/
def allShifts (len : Fin 3 → ℤ) (lev : ℕ) (rep : Fin 3 → ℕ) : List (Fin 3 → ℤ) :=
  (List.range (rep 2)).flatMap fun k => (List.range (rep 1)).flatMap fun j =>
    (List.range (rep 0)).map fun i => shiftOf len lev i j k

/-- io.cpp:159-181: the boxes of the replicated level. -/
def repBoxes (len : Fin 3 → ℤ) (lev : ℕ) (rep : Fin 3 → ℕ) (ba : List Bx) : List Bx :=
  (allShifts len lev rep).flatMap fun s => ba.map fun b => b.shift s

/-- `amrex::convert(ba, ixType)`: in a nodal direction a box has one more point at its high end. -/
def toType (nodal : Fin 3 → Bool) (b : Bx) : Bx := ⟨b.lo, fun d => b.hi d + if nodal d then 1 else 0⟩

/-- `mfab.ParallelCopy(tmp)` after `tmp.shift(s)`: every valid point of the destination that is a valid
point of the shifted source gets its value. -/
def copyShifted {V : Type*} (src : List Bx) (tmp : (Fin 3 → ℤ) → V) (s : Fin 3 → ℤ) (dst : List Bx)
    (out : (Fin 3 → ℤ) → Option V) : (Fin 3 → ℤ) → Option V :=
  fun c => if Covers dst c ∧ Covers src (fun d => c d - s d) then some (tmp fun d => c d - s d) else out c

/-- IOManager.cpp:247-284: one field on one level.  `dst`: boxes of the new field, `src`: boxes of the
file, both already of the field's type; `sameDm`: same distribution of boxes over ranks. -/
def readField {V : Type*} (len : Fin 3 → ℤ) (lev : ℕ) (rep : Fin 3 → ℕ) (src dst : List Bx) (sameDm : Bool)
    (file : (Fin 3 → ℤ) → V) (out : (Fin 3 → ℤ) → Option V) : (Fin 3 → ℤ) → Option V :=
  if dst = src ∧ sameDm = true then fun c => if Covers dst c then some (file c) else out c
  else (allShifts len lev rep).foldl (fun o s => copyShifted src file s dst o) out

end AmrWind.IO
