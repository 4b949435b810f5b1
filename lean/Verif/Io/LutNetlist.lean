import Verif.Io.Hex
import Verif.Io.Verilog
import Verif.Klut.Spec

set_option autoImplicit false

/-!
# The writer for LUT netlists

Model of `write_lut`, include/operations/io/detail/writer_lut.hpp 76-215. The file is represented by what it consists of:
the text between the parentheses of the module header, the declared texts, the LUT instances with their positional pins and
their `INIT` parameter, and the assignments to the outputs. `none` is a read outside a vector. Signals of LUT networks are
never complemented (klut_network.hpp 496-500), so the flips of the function are left out. The declarations of the wires come in
the order of an unordered set in the code and in the order of the nodes here.
-/

namespace Verif.Io

/-- `LUT`, writer_lut.hpp 51-57, with the texts written for it in 174-189: the width and the digits of the `INIT` parameter
instead of the function -/
structure LutInst where
  name : Text
  width : Nat
  init : Text
  pins : List Text
  out : Text
deriving DecidableEq, Repr

/-- the netlist -/
structure LutModule where
  header : Text
  inputs : List Text
  outputs : List Text
  wires : List Text
  luts : List LutInst
  assigns : List (Text × Text)
deriving DecidableEq, Repr

/-- `fmt::format( "_w{}_", n )` and the like -/
def wrapped (c : Char) (n : Nat) : Text := '_' :: c :: dec n ++ ['_']

/-- `fmt::format( "name{}", k )`, writer_lut.hpp 139 -/
def instName (k : Nat) : Text := 'n' :: 'a' :: 'm' :: 'e' :: dec k

/-- `vec_pis`, writer_lut.hpp 79-94 -/
def lutInputTexts (ps : Params) (N : Klut) : List Text :=
  if ps.inputNames = [] then (N.inputs.take N.numPis).map (wrapped 'i') else ps.inputNames

/-- `vec_pos`, writer_lut.hpp 100-115 -/
def lutOutputTexts (ps : Params) (N : Klut) : List Text :=
  if ps.outputNames = [] then (List.range N.numPos).map (wrapped 'o') else ps.outputNames

/-- `pi_map`, writer_lut.hpp 95-98: a map from nodes to texts -/
def piMap (xs : List Text) : Nat → List Nat → (Nat → Option Text) → Option (Nat → Option Text)
  | _, [], m => some m
  | i, n :: l, m =>
    match xs[i]? with
    | none => none
    | some t => piMap xs (i + 1) l (fun k => if k = n then some t else m k)

/-- text of a fanin, writer_lut.hpp 130-137; the assertion is switched off in release builds, the text is then empty -/
def pinText (wires : List Nat) (m : Nat → Option Text) (c : Nat) : Text :=
  if wires.contains c then wrapped 'w' c
  else
    match m c with
    | some t => t
    | none => []

/-- the loop `foreach_node`, writer_lut.hpp 119-142, for the nodes in the list; `wires` are the nodes visited before -/
def writeLuts (N : Klut) (m : Nat → Option Text) : List Nat → List Nat → Nat → Option (List LutInst × List Nat)
  | [], wires, _ => some ([], wires)
  | n :: l, wires, k =>
    if Klut.isConstant n = true ∨ N.isPi n = true then writeLuts N m l wires k
    else
      match N.nodeFunction n, N.fanins n with
      | some f, some cs =>
        match writeLuts N m l (wires ++ [n]) (k + 1) with
        | none => none
        | some (r, ws) =>
          some (⟨instName k, 2 ^ cs.length, toHex f, cs.map (pinText (wires ++ [n]) m), wrapped 'w' n⟩ :: r, ws)
      | _, _ => none

/-- the loop `foreach_po`, writer_lut.hpp 191-212; the text of an input without an entry in `pi_map` is empty
(`std::map::operator[]`) -/
def writeAssigns (N : Klut) (ys : List Text) (m : Nat → Option Text) : Nat → List Nat → Option (List (Text × Text))
  | _, [] => some []
  | i, s :: l =>
    match ys[i]?, writeAssigns N ys m (i + 1) l with
    | some t, some r =>
      some ((t, if Klut.isConstant s = true then "1'b".toList ++ dec s
        else if N.isPi s = true then (match m s with
          | some u => u
          | none => [])
        else wrapped 'w' s) :: r)
    | _, _ => none

/-- the port list, writer_lut.hpp 145-159: only the inputs take care of the first element -/
def header (xs ys : List Text) : Text :=
  (match xs with
    | [] => []
    | t :: l => t ++ l.flatMap fun u => ',' :: ' ' :: u) ++ ys.flatMap fun u => ',' :: ' ' :: u

/-- `write_lut`, writer_lut.hpp 76-215 -/
def writeLut (ps : Params) (N : Klut) : Option LutModule :=
  let xs := lutInputTexts ps N
  let ys := lutOutputTexts ps N
  match piMap xs 0 (N.inputs.take N.numPis) (fun _ => none) with
  | none => none
  | some m =>
    match writeLuts N m (List.range N.nodes.length) [] 0 with
    | none => none
    | some (luts, wires) =>
      match writeAssigns N ys m 0 (N.outputs.take N.numPos) with
      | none => none
      | some as => some ⟨header xs ys, xs, ys, wires.map (wrapped 'w'), luts, as⟩

/-! ### What the netlist means (specification side) -/

/-- the value `b` is possible at a pin: an empty text is an open pin, which has no defined value -/
def PinVal (env : Text → Bool) (t : Text) (b : Bool) : Prop := t ≠ [] → (readAtom t).val env = b

/-- A LUT with `k` pins: pin `j` is bit `j` of the address of a bit of the `INIT` parameter, which has `width` bits. -/
def LutInst.Holds (l : LutInst) (env : Text → Bool) : Prop :=
  ∃ (w : Nat) (bs : List Bool) (t : Text), readHex l.init = some w ∧ l.width = 2 ^ l.pins.length ∧ bs.length = l.pins.length ∧
    (∀ (j : Nat) (p : Text) (b : Bool), l.pins[j]? = some p → bs[j]? = some b → PinVal env p b) ∧ readAtom l.out = .id t ∧
    env t = (w % 2 ^ l.width).testBit (bitsNat bs)

/-- the values `env` of the identifiers arise when input `i` is `x i` -/
structure LutModule.Run (M : LutModule) (x : Nat → Bool) (env : Text → Bool) : Prop where
  inputs : ∀ (i : Nat) t, M.inputs[i]? = some t → env (ident t) = x i
  luts : ∀ l ∈ M.luts, l.Holds env
  assigns : ∀ a ∈ M.assigns, ∃ t, readAtom a.1 = .id t ∧ PinVal env a.2 (env t)

/-- all identifiers declared in the module; instances share the name space of ports and wires (IEEE 1364-2005, 4.11) -/
def LutModule.declared (M : LutModule) : List Text :=
  (M.inputs ++ M.outputs ++ M.wires).map ident ++ M.luts.map (·.name)

end Verif.Io
