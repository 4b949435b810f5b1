import Verif.Flow.Basic
import Verif.Aiger.Basic

set_option autoImplicit false

/-!
# The flow from files to LUT networks

Model of `read_in`, `choice_synthesis_abc`, `mapper` and the part of `run` that calls them (`include/flow/flow_manager.hpp` 87-100, 238-317), with `Reader`
(`include/operations/io/reader.hpp` 117-167). A file system gives the bytes of the files that can be opened. `none` stands for undefined behaviour or a loop without end. Port names are in Io/Ports (C54);
the expansion of file names by the shell (lorina `word_exp_filename`, aiger.hpp 908) is not modelled.
-/

namespace Verif.Flow.Files

variable {β γ : Type}

/-- the files that can be opened, by path; `std::ifstream`, aiger.hpp 908-917 -/
abbrev Disk := List Char → Option (List Aiger.Byte)

/-- the constructor of `Reader`, reader.hpp 117-167, with `read_aiger`, aiger.hpp 906-924: the network afterwards and `isSuccess`. If the file cannot be opened (the assertion in reader.hpp 120 is off)
or parsed, the network stays as it was. -/
def reader (disk : Disk) (path : List Char) (N : Aig) : Option (Aig × Bool) :=
  match disk path with
  | none => some (N, false)
  | some bs =>
    match Aiger.read bs with
    | .ok M => some (M, true)
    | .parseError => some (N, false)
    | .ub => none
    | .hang => none

/-- `_path_input.find( ".aig" ) != std::string::npos`, flow_manager.hpp 266, 293 -/
def isAig : List Char → Bool
  | [] => false
  | c :: r => ['.', 'a', 'i', 'g'].isPrefixOf (c :: r) || isAig r

/-- `read_in`, flow_manager.hpp 289-317, into the empty `_original_aig` -/
def readIn (disk : Disk) (path : List Char) : Option (Aig × Bool) :=
  reader disk (if isAig path then path else path ++ "/original.aig".toList) Aig.empty

/-- `choice_synthesis_abc`, flow_manager.hpp 238-255: the assertion on the readers (243) is off. The bound of the recursion of the miter is the number of all nodes, as in `choiceSynthesis`. -/
def choiceSynthesisAbc (E : Env β) (disk : Disk) (path : List Char) (N : Aig) : Option Synth :=
  match reader disk (path ++ "/compress.aig".toList) Aig.empty with
  | none => none
  | some (C, _) =>
    match reader disk (path ++ "/compress2.aig".toList) Aig.empty with
    | none => none
    | some (D, _) =>
      match ChoiceMiter.merge (D.nodes.length + C.nodes.length + N.nodes.length) [D, C, N] with
      | none => none
      | some M =>
        match Choice.computeChoice M E.choice with
        | none => none
        | some W => some ⟨N, C, D, M, W, []⟩

/-- `mapper`, flow_manager.hpp 261-280, for a folder -/
def mapperAbc (E : Env β) (p : Mapper.Ps) (H : Nat → Nat → Mapper.Heur γ) (cost : γ) (disk : Disk) (path : List Char) (N : Aig) : Option (Synth × Mapping × Klut) :=
  match choiceSynthesisAbc E disk path N with
  | none => none
  | some S =>
    match Mapper.klutMap p S.awc H cost with
    | none => none
    | some L =>
      match Collapse.choiceToKlut S.awc.net L with
      | some (some K) => some (S, L, K)
      | _ => none

/-- What `run` has after mapping: whether "Load input wrong!" was printed, and the results. -/
structure Mapped where
  complaint : Bool
  synth : Synth
  mapping : Mapping
  luts : Klut

/-- `run`, flow_manager.hpp 87-100, with the choice of the synthesis in `mapper` (266-273): a failed reading is reported, and the flow goes on. -/
def run (E : Env β) (p : Mapper.Ps) (H : Nat → Nat → Mapper.Heur γ) (cost : γ) (disk : Disk) (path : List Char) : Option Mapped :=
  match readIn disk path with
  | none => none
  | some (N, ok) =>
    match (if isAig path then mapper E p H cost N else mapperAbc E p H cost disk path N) with
    | none => none
    | some (S, L, K) => some ⟨!ok, S, L, K⟩

end Verif.Flow.Files
