import Verif.Io.Ident

set_option autoImplicit false

/-!
# What a drawing says (specification side)

A reader for the part of the DOT language that drawings of networks need: one statement in each line between `digraph {`, `rankdir=BT;` and `}`.
It does not use the writer. It is not code of the project: DOT files are read by Graphviz.
-/

namespace Verif.Io.Dot

/-- a name in a drawing: a number, or `po` and a number -/
inductive Mark where
  | node (n : Nat)
  | out (i : Nat)
deriving DecidableEq, Repr

/-- a statement: something is drawn (with its label, shape and color), an edge with its style, or names on one level -/
inductive Stmt where
  | draw (m : Mark) (label : Option Nat) (shape color : Text)
  | edge (a b : Mark) (style : Text)
  | rank (l : List Mark)
deriving DecidableEq, Repr

/-- the rest of a text after a given beginning -/
def strip (p t : Text) : Option Text := if p.isPrefixOf t then some (t.drop p.length) else none

/-- a number at the beginning of a text -/
def number (t : Text) : Option (Nat × Text) :=
  match t.takeWhile Char.isDigit with
  | [] => none
  | ds => some (Nat.ofDigitChars 10 ds 0, t.dropWhile Char.isDigit)

/-- a word at the beginning of a text -/
def word (t : Text) : Text × Text := (t.takeWhile Char.isAlphanum, t.dropWhile Char.isAlphanum)

/-- a name at the beginning of a text -/
def readMark (t : Text) : Option (Mark × Text) :=
  match strip "po".toList t with
  | some r => (number r).map fun q => (.out q.1, q.2)
  | none => (number t).map fun q => (.node q.1, q.2)

/-- a word and the end of a statement -/
def lastWord (t : Text) : Option Text := if (word t).2 = "]".toList then some (word t).1 else none

/-- names with semicolons up to the end of the level; the number bounds the recursion -/
def readItems : Nat → Text → Option (List Mark)
  | 0, _ => none
  | k + 1, t =>
    if t = "}".toList then some []
    else (readMark t).bind fun q => (strip "; ".toList q.2).bind fun r => (readItems k r).map (q.1 :: ·)

/-- shape and color -/
def readLook (m : Mark) (label : Option Nat) (t : Text) : Option Stmt :=
  (strip ",style=filled,fillcolor=".toList (word t).2).bind fun r => (lastWord r).map fun c => .draw m label (word t).1 c

/-- what follows a name: an arrow, a label, or a shape -/
def readRest (m : Mark) (t : Text) : Option Stmt :=
  match strip " -> ".toList t with
  | some r => (readMark r).bind fun q => (strip " [style=".toList q.2).bind fun r => (lastWord r).map fun w => .edge m q.1 w
  | none =>
    match strip " [label=\"".toList t with
    | some r => (number r).bind fun q => (strip "\",shape=".toList q.2).bind fun r => readLook m (some q.1) r
    | none => (strip " [shape=".toList t).bind fun r => readLook m none r

/-- one line -/
def readLine (t : Text) : Option Stmt :=
  match strip "{rank = same; ".toList t with
  | some r => (readItems (r.length + 1) r).map .rank
  | none => (readMark t).bind fun q => readRest q.1 q.2

/-- lines of a text -/
def lines : Text → List Text
  | [] => []
  | c :: t =>
    if c = '\n' then [] :: lines t
    else match lines t with
      | [] => [[c]]
      | l :: ls => (c :: l) :: ls

/-- all lines, or none if a line is not understood -/
def readLines : List Text → Option (List Stmt)
  | [] => some []
  | l :: ls => (readLine l).bind fun s => (readLines ls).map (s :: ·)

/-- the statements of a file -/
def readDot (t : Text) : Option (List Stmt) :=
  match lines t with
  | h :: r :: ls =>
    if h = "digraph {".toList ∧ r = "rankdir=BT;".toList ∧ ls.getLast? = some "}".toList then readLines ls.dropLast else none
  | _ => none

/-- how a name is drawn: label, shape and color, once for each statement that draws it -/
def looks (m : Mark) (S : List Stmt) : List (Option Nat × Text × Text) :=
  S.filterMap fun
    | .draw m' l s c => if m' = m then some (l, s, c) else none
    | _ => none

/-- the edges into a name: sources and styles, in the order of the file -/
def into (m : Mark) (S : List Stmt) : List (Mark × Text) :=
  S.filterMap fun
    | .edge a b w => if b = m then some (a, w) else none
    | _ => none

/-- the levels, from the bottom to the top -/
def ranks (S : List Stmt) : List (List Mark) :=
  S.filterMap fun
    | .rank l => some l
    | _ => none

end Verif.Io.Dot
