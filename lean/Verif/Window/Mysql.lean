/-
What the frame of a window function means to the backend (MySQL reference manual, "Window Function Frame Specification"):

    frame_clause: {ROWS | RANGE} {frame_start | BETWEEN frame_start AND frame_end}

`frame_start` alone is `UNBOUNDED PRECEDING`, `n PRECEDING` or `CURRENT ROW`, and the frame ends at the current row; no frame
starts at UNBOUNDED FOLLOWING, ends at UNBOUNDED PRECEDING, or ends before it starts in the order PRECEDING, CURRENT ROW,
FOLLOWING.  Without a frame clause a window with ORDER BY has the frame RANGE UNBOUNDED PRECEDING, a window without it the
whole partition.  The tokens are those of `Verif/Whole/Mysql.lean`.
-/
import Verif.Whole.Mysql

namespace EulerDB.Window

open EulerDB EulerDB.Whole

/-- A bound: the current row, or so many before or after it (`none`: UNBOUNDED). -/
inductive Bound where
  | cur
  | before (n : Option Nat)
  | after (n : Option Nat)
  deriving DecidableEq, Repr

inductive Measure where
  | rows | range
  deriving DecidableEq, Repr

/-- A frame clause; without `stop` only the start is written. -/
structure Frame where
  unit : Measure
  start : Bound
  stop : Option Bound
  deriving DecidableEq, Repr

def Bound.rank : Bound → Nat
  | .before _ => 0
  | .cur => 1
  | .after _ => 2

/-- The frames the backend accepts. -/
def Frame.legal (f : Frame) : Bool :=
  match f.stop with
  | none => f.start.rank ≤ 1
  | some b => f.start.rank ≤ b.rank && f.start != .after none && b != .before none

/-- Where the frame ends. -/
def Frame.last (f : Frame) : Bound := f.stop.getD .cur

/-- Is the `j`-th row of the partition in the frame of the `i`-th?  `at i` is the place of a row: its number for ROWS, its sorting key
for RANGE. -/
def Bound.from (at' : Nat → Int) (i j : Nat) : Bound → Prop
  | .cur => at' i ≤ at' j
  | .before none => True
  | .before (some n) => at' i - n ≤ at' j
  | .after none => False
  | .after (some n) => at' i + n ≤ at' j

def Bound.upTo (at' : Nat → Int) (i j : Nat) : Bound → Prop
  | .cur => at' j ≤ at' i
  | .before none => False
  | .before (some n) => at' j ≤ at' i - n
  | .after none => True
  | .after (some n) => at' j ≤ at' i + n

def Frame.place (f : Frame) (key : Nat → Int) : Nat → Int :=
  match f.unit with
  | .rows => fun i => i
  | .range => key

def Frame.Sees (f : Frame) (key : Nat → Int) (i j : Nat) : Prop :=
  f.start.from (f.place key) i j ∧ f.last.upTo (f.place key) i j

/-- The frame that is meant when a window has none. -/
def defaultFrame (ordered : Bool) : Frame :=
  if ordered then ⟨.range, .before none, none⟩ else ⟨.rows, .before none, some (.after none)⟩

/-- The frame of a window with or without a frame clause. -/
def asked (ordered : Bool) (f : Option Frame) : Frame := f.getD (defaultFrame ordered)

/-! ### Reading -/

def pWord (k : String) : List MTok → Option (List MTok)
  | .word w :: r => if isKw k w then some r else none
  | _ => none

def pDirection (n : Option Nat) (ts : List MTok) : Option (Bound × List MTok) :=
  match pWord "PRECEDING" ts with
  | some r => some (.before n, r)
  | none =>
    match pWord "FOLLOWING" ts with
    | some r => some (.after n, r)
    | none => none

def pBound (ts : List MTok) : Option (Bound × List MTok) :=
  match pWord "CURRENT" ts with
  | some r => (pWord "ROW" r).map fun r => (.cur, r)
  | none =>
    match pWord "UNBOUNDED" ts with
    | some r => pDirection none r
    | none =>
      match ts with
      | .num n :: r => pDirection (some n) r
      | _ => none

def pExtent (m : Measure) (ts : List MTok) : Option Frame :=
  match pWord "BETWEEN" ts with
  | none =>
    match pBound ts with
    | some (a, []) => some ⟨m, a, none⟩
    | _ => none
  | some r =>
    match pBound r with
    | none => none
    | some (a, r) =>
      match pWord "AND" r with
      | none => none
      | some r =>
        match pBound r with
        | some (b, []) => some ⟨m, a, some b⟩
        | _ => none

/-- A frame clause, or none; `none` outside: an error. -/
def pFrame (ts : List MTok) : Option (Option Frame) :=
  if ts = [] then some none
  else
    match (match pWord "ROWS" ts with | some r => pExtent .rows r | none => match pWord "RANGE" ts with | some r => pExtent .range r | none => none) with
    | some f => if f.legal then some (some f) else none
    | none => none

/-- The backend reads a frame clause. -/
def readFrame (s : List Char) : Option (Option Frame) :=
  match lex s.length s with
  | some ts => pFrame ts
  | none => none

end EulerDB.Window
