import Verif.Aig.Basic
import Mathlib.Data.Nat.Digits.Defs

set_option autoImplicit false

/-!
# Binary AIGER: writing and reading

Model of `include/operations/io/detail/write_aiger.hpp` 32-150, of the binary reader
`libs/lorina/lorina/aiger.hpp` 701-894 with `detail::getline` and `detail::split`
(`libs/lorina/lorina/detail/utils.hpp` 59-98, 282-306), and of the callbacks
`include/operations/io/detail/aiger_reader.hpp` 119-267.  Not modelled: opening files, port names
(only the index used to store a name), diagnostics, memory exhaustion, the ASCII variant.
-/

namespace Verif.Aiger

/-- a character of the file -/
abbrev Byte := BitVec 8

/-! ### writing -/

/-- `detail::encode`, write_aiger.hpp 32-43. A 32-bit number needs at most five rounds; the first argument
bounds the rounds and `none` would mean that they did not suffice. -/
def encodeLoop : Nat → BitVec 32 → Option (List Byte)
  | 0, _ => none
  | f + 1, lit =>
    if lit &&& ~~~0x7f#32 ≠ 0#32 then
      (encodeLoop f (lit >>> 7)).map ((((lit &&& 0x7f#32) ||| 0x80#32).setWidth 8) :: ·)
    else some [lit.setWidth 8]

/-- `detail::encode`, write_aiger.hpp 32-43. -/
def encode (lit : BitVec 32) : Option (List Byte) := encodeLoop 5 lit

/-- decimal digits as printed by `%u`, write_aiger.hpp 86, 92. -/
def decimal (n : Nat) : List Byte :=
  if n = 0 then [48#8] else (Nat.digits 10 n).reverse.map fun d => BitVec.ofNat 8 (48 + d)

/-- a `uint32_t` argument -/
def u32 (n : Nat) : Nat := n % 2 ^ 32

/-- header line, write_aiger.hpp 82-87: "aig M I 0 O A\n". -/
def header (m i o a : Nat) : List Byte :=
  [97#8, 105#8, 103#8, 32#8] ++ decimal (u32 m) ++ [32#8] ++ decimal (u32 i) ++ [32#8] ++ decimal 0 ++ [32#8] ++
    decimal (u32 o) ++ [32#8] ++ decimal (u32 a) ++ [10#8]

/-- literal of a signal, write_aiger.hpp 92 and 103: `uint32_t(2 * index + complement)`. -/
def sigLit (s : Sig) : BitVec 32 := BitVec.ofNat 32 (2 * s.index + s.compl.toNat)

/-- bytes of one gate, write_aiger.hpp 97-115 (the assertion in 113 is off in release builds). -/
def gateBytes (N : Aig) (n : Nat) : Option (List Byte) :=
  match N.nodes[n]? with
  | none => none
  | some nd =>
    let l0 := BitVec.ofNat 32 (2 * n)
    let p := sigLit nd.c0
    let q := sigLit nd.c1
    let l1 := if p > q then q else p
    let l2 := if p > q then p else q
    match encode (l0 - l2), encode (l2 - l1) with
    | some b1, some b2 => some (b1 ++ b2)
    | _, _ => none

/-- the `foreach_gate` loop -/
def gatesBytes (N : Aig) : List Nat → Option (List Byte)
  | [] => some []
  | n :: l => match gateBytes N n, gatesBytes N l with
    | some b, some bs => some (b ++ bs)
    | _, _ => none

/-- `write_aiger( aig, os )`, write_aiger.hpp 65-150, for a network without names (the symbol table is
empty); `none` only for accesses outside the node vector. -/
def write (N : Aig) : Option (List Byte) :=
  match gatesBytes N N.gates with
  | none => none
  | some g => some (header (N.inputs.length + N.numGates) N.numPis N.numPos N.numGates ++
      (N.outputs.take N.numPos).flatMap (fun f => decimal (sigLit f).toNat ++ [10#8]) ++ g ++ [99#8])

/-! ### reading -/

/-- outcome of the reader: `hang` is a loop that does not end, `ub` an access outside a vector or an
over-wide shift. -/
inductive Res (α : Type)
  | ok (a : α)
  | parseError
  | ub
  | hang
deriving DecidableEq, Repr

/-- sequencing -/
def Res.bind {α β : Type} (r : Res α) (k : α → Res β) : Res β :=
  match r with
  | .ok a => k a
  | .parseError => .parseError
  | .ub => .ub
  | .hang => .hang

/-- the line feed after a carriage return is skipped, utils.hpp 80-85. -/
def dropLf : List Byte → List Byte
  | [] => []
  | d :: r => if d = 10#8 then r else d :: r

/-- `detail::getline`, utils.hpp 59-98: line and rest of the stream. Simplification: the stream is the list
of unread bytes. The state bits are dropped: the end-of-file bit is only set when nothing is left, and then
the loops that test it end after at most one more round with an empty line, which matches nothing. -/
def getline : List Byte → List Byte × List Byte
  | [] => ([], [])
  | c :: r =>
    if c = 10#8 then ([], r)
    else if c = 13#8 then ([], dropLf r)
    else (c :: (getline r).1, (getline r).2)

/-- `isdigit` / `\d` -/
def isDigit (c : Byte) : Bool := 48#8 ≤ c && c ≤ 57#8

/-- value of a digit string -/
def digitsVal (l : List Byte) : Nat := l.foldl (fun a c => 10 * a + (c.toNat - 48)) 0

/-- `isspace` in the C locale -/
def isSpace (c : Byte) : Bool := c == 32#8 || (9#8 ≤ c && c ≤ 13#8)

/-- `strtol` on a NUL-terminated copy of the line: white space, sign, digits; saturates at the limits of
`long`. -/
def atol (l : List Byte) : Int :=
  let l := l.dropWhile isSpace
  let neg := match l with
    | c :: _ => c == 45#8
    | [] => false
  let l := match l with
    | c :: r => if c = 45#8 ∨ c = 43#8 then r else c :: r
    | [] => []
  let v := digitsVal (l.takeWhile isDigit)
  if neg then max (-(v : Int)) (-(2 ^ 63)) else min (v : Int) (2 ^ 63 - 1)

/-- conversion of a `long` to `unsigned`. -/
def toUnsigned (v : Int) : BitVec 32 := BitVec.ofInt 32 v

/-- pieces between the spaces -/
def pieces : List Byte → List (List Byte)
  | [] => [[]]
  | c :: r =>
    if c = 32#8 then [] :: pieces r
    else match pieces r with
      | p :: ps => (c :: p) :: ps
      | [] => [[c]]

/-- `detail::split( line, " " )`, utils.hpp 282-306: empty pieces are dropped except the last one. -/
def split (l : List Byte) : List (List Byte) :=
  let ps := pieces l
  ps.dropLast.filter (fun p => !p.isEmpty) ++ (match ps.getLast? with
    | some p => [p]
    | none => [])

/-- the regular expression `^aig (\d+) (\d+) (\d+) (\d+) (\d+)( \d+)?( \d+)?( \d+)?( \d+)?$` with
`atol`, aiger.hpp 428, 712-737: the five to nine numbers, truncated to `uint32_t`. -/
def parseHeader (line : List Byte) : Option (List (BitVec 32)) :=
  match pieces line with
  | [] => none
  | w :: ws =>
    if w = [97#8, 105#8, 103#8] ∧ 5 ≤ ws.length ∧ ws.length ≤ 9 ∧ ws.all (fun p => !p.isEmpty && p.all isDigit) = true
    then some (ws.map fun p => toUnsigned (atol p))
    else none

/-- state of the callbacks, aiger_reader.hpp 259-266, with the network. -/
structure RSt where
  net : Aig
  signals : List Sig
  outputs : List (BitVec 32)
  latches : List (BitVec 32 × Int)
deriving DecidableEq, Repr

/-- creating `k` primary inputs, aiger_reader.hpp 182-185. -/
def mkPis : Nat → RSt → RSt
  | 0, s => s
  | k + 1, s =>
    let r := s.net.createPi
    mkPis k { s with net := r.1, signals := s.signals ++ [r.2] }

/-- creating `k` register outputs, aiger_reader.hpp 190-193. -/
def mkRos : Nat → RSt → RSt
  | 0, s => s
  | k + 1, s =>
    let r := s.net.createRo
    mkRos k { s with net := r.1, signals := s.signals ++ [r.2] }

/-- `on_header`, aiger_reader.hpp 168-195, on an empty network. -/
def onHeader (i l : Nat) : RSt := mkRos l (mkPis i ⟨Aig.empty, [Sig.const false], [], []⟩)

/-- the latch section, aiger.hpp 754-774 with `on_latch`, aiger_reader.hpp 242-250. -/
def readLatches : Nat → List Byte → RSt → List Byte × RSt
  | 0, b, s => (b, s)
  | k + 1, b, s =>
    let q := getline b
    let ts := split q.1
    let next := toUnsigned (atol (match ts with
      | t :: _ => t
      | [] => []))
    let reset : Int := match ts with
      | [_, t] => if t = [48#8] then 0 else if t = [49#8] then 1 else -1
      | _ => -1
    readLatches k q.2 { s with latches := s.latches ++ [(next, reset)] }

/-- the output section, aiger.hpp 776-780 with `on_output`, aiger_reader.hpp 252-257. -/
def readOutputs : Nat → List Byte → RSt → List Byte × RSt
  | 0, b, s => (b, s)
  | k + 1, b, s =>
    let q := getline b
    readOutputs k q.2 { s with outputs := s.outputs ++ [toUnsigned (atol q.1)] }

/-- `k` lines without effect on the network: bad states, constraints, fairness, aiger.hpp 782-794, 818-823. -/
def skipLines : Nat → List Byte → List Byte
  | 0, b => b
  | k + 1, b => skipLines k (getline b).2

/-- justice headers, aiger.hpp 796-804: the sizes as `uint64_t`. -/
def readJustice : Nat → List Byte → List Nat → List Byte × List Nat
  | 0, b, sz => (b, sz)
  | k + 1, b, sz =>
    let q := getline b
    readJustice k q.2 (sz ++ [(BitVec.ofInt 64 (atol q.1)).toNat])

/-- justice literals, aiger.hpp 806-816. The counter `j` has 32 bits and is compared with a 64-bit size, so
a larger size is never reached. -/
def skipJustice : List Nat → List Byte → Res (List Byte)
  | [], b => .ok b
  | sz :: l, b => if 2 ^ 32 ≤ sz then .hang else skipJustice l (skipLines sz b)

/-- the lambda `decode`, aiger.hpp 825-839: value and rest of the stream. `in.get()` at the end of the file
returns -1, whose bit 7 is set, for ever. A shift by 32 or more is undefined. -/
def decode (i : Nat) (res : BitVec 32) : List Byte → Res (BitVec 32 × List Byte)
  | [] => .hang
  | c :: r =>
    if 32 ≤ 7 * i then .ub
    else
      let res := res ||| ((c.setWidth 32 &&& 0x7f#32) <<< (7 * i))
      if c &&& 0x80#8 = 0#8 then .ok (res, r) else decode (i + 1) res r

/-- `signals[lit >> 1]` with `create_not`, aiger_reader.hpp 227-237 and 137-142. -/
def litSig (s : RSt) (lit : BitVec 32) : Option Sig :=
  (s.signals[(lit >>> 1).toNat]?).map fun g => if lit &&& 1#32 = 1#32 then g.not else g

/-- `on_and`, aiger_reader.hpp 222-240. -/
def onAnd (s : RSt) (l r : BitVec 32) : Res RSt :=
  match litSig s l, litSig s r with
  | some a, some b =>
    let q := s.net.createAnd a b
    .ok { s with net := q.1, signals := s.signals ++ [q.2] }
  | _, _ => .ub

/-- the AND section, aiger.hpp 841-848: `k` gates starting with variable `i`. -/
def readAnds : Nat → BitVec 32 → List Byte → RSt → Res (List Byte × RSt)
  | 0, _, b, s => .ok (b, s)
  | k + 1, i, b, s =>
    (decode 0 0#32 b).bind fun d1 =>
    (decode 0 0#32 d1.2).bind fun d2 =>
    let g := i <<< 1
    (onAnd s (g - d1.1) (g - d1.1 - d2.1)).bind fun s => readAnds k (i + 1) d2.2 s

/-- `^X(\d+) (.*)$`, aiger.hpp 430-436: kind character and index. -/
def parseSymbol (line : List Byte) : Option (Byte × BitVec 32) :=
  match line with
  | [] => none
  | k :: r =>
    let ds := r.takeWhile isDigit
    match r.dropWhile isDigit with
    | c :: _ => if c = 32#8 ∧ ds ≠ [] then some (k, toUnsigned (atol ds)) else none
    | [] => none

/-- storing a name, aiger_reader.hpp 197-220 (with a name map, as `Reader` passes one, reader.hpp 124):
does the index stay inside the vectors? -/
def nameOk (nI : BitVec 32) (s : RSt) (k : Byte) (idx : BitVec 32) : Bool :=
  if k = 105#8 then decide ((1#32 + idx).toNat < s.signals.length)
  else if k = 108#8 then decide ((1#32 + nI + idx).toNat < s.signals.length) && decide (idx.toNat < s.latches.length)
  else if k = 111#8 then decide (idx.toNat < s.outputs.length)
  else true

/-- names and comments, aiger.hpp 850-891; the first argument bounds the number of lines, running out of it
is `hang`. -/
def readSymbols (nI : BitVec 32) (s : RSt) : Nat → List Byte → Res Unit
  | _, [] => .ok ()
  | 0, _ :: _ => .hang
  | f + 1, c :: r =>
    let q := getline (c :: r)
    match parseSymbol q.1 with
    | some (k, idx) => if nameOk nI s k idx then readSymbols nI s f q.2 else .ub
    | none => if q.1 = [99#8] then .ok () else readSymbols nI s f q.2

/-- creation of the outputs in the destructor, aiger_reader.hpp 133-146. -/
def mkOutputs (s : RSt) : List (BitVec 32) → Aig → Res Aig
  | [], N => .ok N
  | lit :: l, N => match litSig s lit with
    | some f => mkOutputs s l (N.createPo f)
    | none => .ub

/-- creation of the register inputs in the destructor, aiger_reader.hpp 148-165. -/
def mkRis (s : RSt) : List (BitVec 32 × Int) → Aig → Res Aig
  | [], N => .ok N
  | (lit, reset) :: l, N => match litSig s lit with
    | some f => mkRis s l (N.createRi f reset)
    | none => .ub

/-- the body after the header, aiger.hpp 746-893, and the destructor of the callback object. -/
def readBody (i l o a b c j f : BitVec 32) (bs : List Byte) : Res Aig :=
  let q1 := readLatches l.toNat bs (onHeader i.toNat l.toNat)
  let q2 := readOutputs o.toNat q1.1 q1.2
  let b3 := skipLines c.toNat (skipLines b.toNat q2.1)
  let q4 := readJustice j.toNat b3 []
  (skipJustice q4.2 q4.1).bind fun b5 =>
  let b6 := skipLines f.toNat b5
  let s := i + l + 1
  let e := i + l + a + 1
  (readAnds (e.toNat - s.toNat) s b6 q2.2).bind fun q7 =>
  (readSymbols i q7.2 q7.1.length q7.1).bind fun _ =>
  (mkOutputs q7.2 q7.2.outputs q7.2.net).bind fun N => mkRis q7.2 q7.2.latches N

/-- `read_aiger`, aiger.hpp 701-894, into an empty network with `aiger_reader`. -/
def read (bs : List Byte) : Res Aig :=
  let q := getline bs
  match parseHeader q.1 with
  | some (_ :: i :: l :: o :: a :: rest) =>
    let opt (k : Nat) : BitVec 32 := match rest[k]? with
      | some v => v
      | none => 0#32
    readBody i l o a (opt 0) (opt 1) (opt 2) (opt 3) q.2
  | _ => .parseError

end Verif.Aiger
