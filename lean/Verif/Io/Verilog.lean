import Verif.Io.Ident
import Verif.Topo.Basic

set_option autoImplicit false

/-!
# Writing Verilog

Model of `write_verilog`, include/operations/io/detail/write_verilog.hpp 87-316, for AIGs. `none` stands for undefined
behaviour (reading outside a vector of names) and for text that is no Verilog (`assign n3 = unknown gate`).

The statements that reach the file are kept as structured data with the texts of all names; blanks, commas and line
breaks are left out. Port names are scalar (width 0), the only kind the readers produce.
-/

namespace Verif.Io

/-- `write_verilog_params`, write_verilog.hpp 54-59, with scalar ports -/
structure Params where
  inputNames : List Text
  outputNames : List Text
deriving DecidableEq, Repr

/-- `assign out = ~a & b ;`, `on_assign` and `on_assign_po` in libs/lorina/lorina/verilog.hpp 653-666, 697-703: negation
and text of each operand, joined by `&` -/
structure Assign where
  out : Text
  ins : List (Bool × Text)
deriving DecidableEq, Repr

/-- the module that is written: declarations and assignments in the order of the file -/
structure VModule where
  inputs : List Text
  outputs : List Text
  wires : List Text
  assigns : List Assign
deriving DecidableEq, Repr

/-- the text `c`, followed by a number -/
def numbered (c : Char) (i : Nat) : Text := c :: dec i

/-- names of the inputs, write_verilog.hpp 108-139; the warning about a wrong number of names is left out -/
def inputTexts (ps : Params) (N : Aig) : List Text :=
  if ps.inputNames = [] then (List.range N.numPis).map (numbered 'x') else ps.inputNames

/-- names of the outputs, write_verilog.hpp 141-172 -/
def outputTexts (ps : Params) (N : Aig) : List Text :=
  if ps.outputNames = [] then (List.range N.numPos).map (numbered 'y') else ps.outputNames

/-- `node_names`, a map from nodes to texts -/
abbrev NodeNames := Nat → Text

/-- assignment to an entry of `node_names` -/
def NodeNames.set (m : NodeNames) (n : Nat) (t : Text) : NodeNames := fun k => if k = n then t else m k

/-- the loop `foreach_pi`, write_verilog.hpp 227-229, for the input nodes in the list -/
def nameInputs (xs : List Text) : Nat → List Nat → NodeNames → Option NodeNames
  | _, [], m => some m
  | i, n :: l, m =>
    match xs[i]? with
    | none => none
    | some t => nameInputs xs (i + 1) l (m.set n t)

/-- the loop over the nodes of the topological view, write_verilog.hpp 233-309: every gate of an AIG is an AND; a node
that is neither is written as an unknown gate -/
def writeGates (N : Aig) : List Nat → NodeNames → Option (List Assign × NodeNames)
  | [], m => some ([], m)
  | n :: l, m =>
    if n = 0 ∨ N.isPi n = true then writeGates N l m
    else if N.isCi n = true then none
    else
      match N.nodes[n]? with
      | none => none
      | some nd =>
        let m' := m.set n (numbered 'n' n)
        match writeGates N l m' with
        | none => none
        | some (as, m'') =>
          some (⟨m' n, [(nd.c0.compl, m' nd.c0.index), (nd.c1.compl, m' nd.c1.index)]⟩ :: as, m'')

/-- the loop `foreach_po`, write_verilog.hpp 311-313 -/
def writeOutputs (ys : List Text) (m : NodeNames) : Nat → List Sig → Option (List Assign)
  | _, [] => some []
  | i, o :: l =>
    match ys[i]?, writeOutputs ys m (i + 1) l with
    | some t, some as => some (⟨t, [(o.compl, m o.index)]⟩ :: as)
    | _, _ => none

/-- `write_verilog`, write_verilog.hpp 87-316; the argument `fuel` is passed to the topological view -/
def writeVerilog (ps : Params) (N : Aig) (fuel : Nat) : Option VModule :=
  let xs := inputTexts ps N
  let ys := outputTexts ps N
  match nameInputs xs 0 (N.inputs.take N.numPis) (NodeNames.set (fun _ => []) 0 "1'b0".toList) with
  | none => none
  | some m =>
    match Topo.topoView N fuel with
    | none => none
    | some order =>
      match writeGates N order m with
      | none => none
      | some (as, m) =>
        match writeOutputs ys m 0 (N.outputs.take N.numPos) with
        | none => none
        | some pos => some ⟨xs, ys, N.gates.map (numbered 'n'), as ++ pos⟩

/-! ### What the module means (specification side) -/

/-- value of an operand when identifier `t` has the value `e t` -/
def Atom.val (e : Text → Bool) : Atom → Bool
  | .const b => b
  | .id t => e t

/-- the values `e` of the identifiers agree with all assignments; the left side of an assignment is an identifier -/
def VModule.Holds (M : VModule) (e : Text → Bool) : Prop :=
  ∀ a ∈ M.assigns, ∃ t, readAtom a.out = .id t ∧ e t = a.ins.all fun p => Bool.xor p.1 ((readAtom p.2).val e)

/-- the values `e` of the identifiers arise when input `i` is `x i` -/
structure VModule.Run (M : VModule) (x : Nat → Bool) (e : Text → Bool) : Prop where
  inputs : ∀ (i : Nat) t, M.inputs[i]? = some t → e (ident t) = x i
  holds : M.Holds e

/-- all declared identifiers -/
def VModule.declared (M : VModule) : List Text := (M.inputs ++ M.outputs ++ M.wires).map ident

end Verif.Io
