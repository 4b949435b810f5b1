import Verif.Flow.Basic
import Verif.Mapping.Params

set_option autoImplicit false

/-!
# The configuration file of the flow

Model of `include/flow/configer.hpp` 26-77 and of `configure`, `include/flow/flow_manager.hpp` 132-156, with the members that it sets, and of what the flow
does with them. Parsed documents are the input; the text of the file and the parser (nlohmann) are not modelled.
-/

namespace Verif.Flow.Config

/-- Parsed documents, `libs/json/nlohmann/json.hpp` 3384-3396. An object has its fields in the order of the file, a field that is given twice has
the last value (6813-6821). Simplified: of a number with fraction or exponent only the integral part is kept. -/
inductive Json
  | null
  | bool (b : Bool)
  /-- `number_unsigned`: no sign, less than 2^64 -/
  | nat (n : Nat)
  /-- `number_integer`: with a minus sign -/
  | int (i : Int)
  /-- `number_float`, by its integral part -/
  | float (trunc : Int)
  | str (s : String)
  | arr (l : List Json)
  | obj (fields : List (String × Json))

/-- Outcomes: a value, an exception that nobody catches, undefined behaviour. -/
inductive Out (α : Type)
  | ok (a : α)
  | stop
  | undef
deriving DecidableEq

/-- `>>=` for outcomes: the statements of `configure` (flow_manager.hpp 134-153) run one after the other -/
def Out.then {α β : Type} (o : Out α) (f : α → Out β) : Out β :=
  match o with
  | .ok a => f a
  | .stop => .stop
  | .undef => .undef

/-- undefined behaviour in the other models, as an outcome of `run` (flow_manager.hpp 79-123) -/
def Out.of {α : Type} : Option α → Out α
  | none => .undef
  | some a => .ok a

/-- the field of an object, `operator[]` in json.hpp 21342: the last one that was given, otherwise a new null -/
def field (fs : List (String × Json)) (k : String) : Json :=
  match fs.reverse.find? fun x => x.1 == k with
  | some x => x.2
  | none => .null

/-- `value[ key ]`, json.hpp 21329-21347: null becomes an object, other types throw. -/
def at_ (v : Json) (k : String) : Out Json :=
  match v with
  | .null => .ok .null
  | .obj fs => .ok (field fs k)
  | _ => .stop

/-- the loop of `get_value`, configer.hpp 58-61 -/
def walk (v : Json) : List String → Out Json
  | [] => .ok v
  | k :: l => (at_ v k).then fun v => walk v l

/-- `get_value<bool>`, configer.hpp 57-70 with json.hpp 4644-4651: only truth values are converted; null gives false, after a message (66-68, the assertion is off). -/
def getBool (doc : Json) (path : List String) : Out Bool :=
  (walk doc path).then fun v => match v with
    | .null => .ok false
    | .bool b => .ok b
    | _ => .stop

/-- `get_value<uint>`, configer.hpp 57-70 with json.hpp 4892-4934: conversions of `static_cast` to 32 bits without sign; undefined for floating point numbers that do not fit; null gives 0. -/
def getUint (doc : Json) (path : List String) : Out Nat :=
  (walk doc path).then fun v => match v with
    | .null => .ok 0
    | .nat n => .ok (n % 2 ^ 32)
    | .int i => .ok (i % 2 ^ 32).toNat
    | .float t => if 0 ≤ t ∧ t < 2 ^ 32 then .ok t.toNat else .undef
    | .bool b => .ok (if b then 1 else 0)
    | _ => .stop

/-- `flow_manager_params`, flow_manager.hpp 53-61 -/
structure FlowPs where
  debug : Bool := false
  useBalance : Bool := false
  useRewrite : Bool := false
  iterations : Nat := 2
  verbose : Bool := true
  veryVerbose : Bool := false
deriving DecidableEq

/-- `rewrite_params`, rewrite.hpp 35-47 -/
structure RewritePs where
  cut : Mapper.CutPs := { cutSize := 4, cutLimit := 10 }
  useZeroGain : Bool := true
  preserveDepth : Bool := true
deriving DecidableEq

/-- the members `_ps`, `_ps_mapper`, `_ps_rewrite`, flow_manager.hpp 434-436 -/
structure Params where
  flow : FlowPs := {}
  mapper : Mapper.Ps := {}
  rewrite : RewritePs := {}
deriving DecidableEq

/-- `configure`, flow_manager.hpp 132-156; the numbers of rounds are stored in 8 bits, and the sixth line of the last group stores a number in a truth value (151). -/
def configure (doc : Json) (p : Params) : Out Params :=
  (getBool doc ["flow_manager", "debug"]).then fun debug =>
  (getUint doc ["flow_manager", "iterations"]).then fun iterations =>
  (getBool doc ["flow_manager", "use_balance"]).then fun useBalance =>
  (getBool doc ["flow_manager", "use_rewrite"]).then fun useRewrite =>
  (getBool doc ["flow_manager", "verbose"]).then fun verbose =>
  (getBool doc ["flow_manager", "very_verbose"]).then fun veryVerbose =>
  (getUint doc ["klut_mapping", "cut_size"]).then fun cutSize =>
  (getUint doc ["klut_mapping", "cut_limit"]).then fun cutLimit =>
  (getUint doc ["klut_mapping", "uGlobal_round"]).then fun global =>
  (getUint doc ["klut_mapping", "uLocal_round"]).then fun loc =>
  (getBool doc ["klut_mapping", "debug"]).then fun mdebug =>
  (getBool doc ["klut_mapping", "verbose"]).then fun mverbose =>
  (getUint doc ["rewrite", "cut_size"]).then fun rcutSize =>
  (getUint doc ["rewrite", "cut_limit"]).then fun rcutLimit =>
  (getUint doc ["rewrite", "min_candidate_cut_size"]).then fun rmin =>
  (getBool doc ["rewrite", "use_zero_gain"]).then fun zeroGain =>
  (getBool doc ["rewrite", "preserve_depth"]).then fun preserveDepth =>
  .ok
    { flow := ⟨debug, useBalance, useRewrite, iterations, verbose, veryVerbose⟩
      mapper :=
        { p.mapper with
          cut := { p.mapper.cut with cutSize := cutSize, cutLimit := cutLimit }
          uFlowIters := BitVec.ofNat 8 global
          uAreaIters := BitVec.ofNat 8 loc
          bDebug := mdebug
          verbose := mverbose }
      rewrite :=
        { p.rewrite with
          cut := { p.rewrite.cut with cutSize := rcutSize, cutLimit := rcutLimit, minimize := decide (rmin ≠ 0) }
          useZeroGain := zeroGain
          preserveDepth := preserveDepth } }

/-- What the flow makes of a document and a network, `run`, flow_manager.hpp 85-100: the members are as the constructor left them when `configure` is called; the result of `mapper`. The scripts
of the synthesis use their own rewriting parameters (165, 187). -/
def flow {β γ : Type} (E : Env β) (H : Nat → Nat → Mapper.Heur γ) (cost : γ) (doc : Json) (N : Aig) : Out (Synth × Mapping × Klut) :=
  (configure doc {}).then fun p => .of (Flow.mapper E p.mapper H cost N)

end Verif.Flow.Config
