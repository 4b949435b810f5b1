import Verif.Mapping.Params

set_option autoImplicit false

/-!
# Command lines of the shell

How the options of a command line get into the members of a command object (`libs/alice/lib/cli11/CLI11.hpp`,
`libs/alice/include/alice/command.hpp`), and what `rewrite`, `refactor`, `lut_opt` and `map_fpga` make of them. The command
objects live as long as the shell, and so do the members.
-/

namespace Verif.Cli.Opts

/-- the type of the member an option writes to: `uint32_t`, `int` or `bool` (`cli/command/map_fpga.hpp` 116-121) -/
inductive Kind
  | uint
  | int
  | flag
deriving DecidableEq, Repr

/-- One call of `add_option` or `add_flag` (command.hpp 404-429): the names, the type of the member and its initialiser. Each of the
modelled options has one short and one long name; none is positional, required or restricted. -/
structure Opt where
  long : String
  short : Char
  kind : Kind
  init : Int
deriving DecidableEq, Repr

/-- one argument of `run`, as characters (command.hpp 548). Simplified: quotes are already removed (command.hpp 553-569). -/
abbrev Tok := List Char

/-- `valid_first_char`, CLI11.hpp 154, for the locale "C" -/
def validFirst (c : Char) : Bool := c.isAlpha || c = '_'

/-- `split_short`, CLI11.hpp 613-620 -/
def splitShort : Tok → Option (Char × Tok)
  | '-' :: c :: rest => if validFirst c then some (c, rest) else none
  | _ => none

/-- `split_long`, CLI11.hpp 623-636 -/
def splitLong : Tok → Option (Tok × Tok)
  | '-' :: '-' :: c :: rest =>
    if validFirst c then some ((c :: rest).takeWhile (· ≠ '='), ((c :: rest).dropWhile (· ≠ '=')).drop 1) else none
  | _ => none

/-- `_recognize` gives `NONE`, CLI11.hpp 2530-2542; the commands have no subcommands -/
def isPlain (t : Tok) : Bool := t ≠ ['-', '-'] && (splitLong t).isNone && (splitShort t).isNone

/-- What `_parse` has collected: `given` lists the results of the options in the order in which they were given (`results_`, with the number of
the option), `help` says that the help flag was given, `extra` that `missing_` holds something else than `--`. -/
structure Res where
  given : List (Nat × Tok) := []
  help : Bool := false
  extra : Bool := false
deriving DecidableEq, Repr

/-- whether a short or long name is that of the option (`check_sname`, `check_lname`, CLI11.hpp 1379-1398; `ignore_case` is not set) -/
def Opt.named (o : Opt) (second : Bool) (name : Tok) : Bool :=
  if second then name = o.long.toList else name = [o.short]

/-- the help flag, CLI11.hpp 1624; it is the first option of every command -/
def helpOpt : Opt := ⟨"help", 'h', .flag, 0⟩

/-- `_parse_arg` after the option has been found, CLI11.hpp 2836-2899. `value` is what follows `=` in a long option, `rest` what follows the
letter in a short one. Result: the remaining arguments and the new results of the option, or `none` for an exception. A flag with a value also takes
the following arguments that are no options, because its number of expected values drops to -1 (2844-2845, 2860-2880). -/
def takeArg (kind : Kind) (value rest : Tok) (ts : List Tok) : Option (List Tok × List Tok) :=
  if value ≠ [] then
    if kind = .flag then some (ts.dropWhile isPlain, value :: ts.takeWhile isPlain)
    else some (ts, [value])
  else if kind = .flag then some (if rest = [] then ts else ('-' :: rest) :: ts, [[]])
  else if rest ≠ [] then some (ts, [rest])
  else
    match ts with
    | [] => none
    | t :: ts => some (ts, [t])

/-- The loop of `_parse` over the arguments, CLI11.hpp 2549-2551, with `_parse_single` (2710-2734), `_parse_positional` (2748-2776) and
`_parse_arg` (2801-2900). The first argument bounds the number of rounds; `positional` is `positional_only`. `none` is an exception. -/
def collect (os : List Opt) : Nat → Bool → List Tok → Res → Option Res
  | 0, _, _, _ => none
  | _ + 1, _, [], r => some r
  | f + 1, positional, t :: ts, r =>
    if positional then collect os f positional ts { r with extra := true }
    else if t = ['-', '-'] then collect os f true ts r
    else
      match splitLong t, splitShort t with
      | some (name, value), _ =>
        if helpOpt.named true name then
          match takeArg .flag value [] ts with
          | none => none
          | some (ts, _) => collect os f positional ts { r with help := true }
        else
          match os.findIdx? (·.named true name) with
          | none => collect os f positional ts { r with extra := true }
          | some k =>
            match os[k]? with
            | none => none
            | some o =>
              match takeArg o.kind value [] ts with
              | none => none
              | some (ts, vs) => collect os f positional ts { r with given := r.given ++ vs.map fun v => (k, v) }
      | none, some (c, rest) =>
        if helpOpt.named false [c] then
          match takeArg .flag [] rest ts with
          | none => none
          | some (ts, _) => collect os f positional ts { r with help := true }
        else
          match os.findIdx? (·.named false [c]) with
          | none => collect os f positional ts { r with extra := true }
          | some k =>
            match os[k]? with
            | none => none
            | some o =>
              match takeArg o.kind [] rest ts with
              | none => none
              | some (ts, vs) => collect os f positional ts { r with given := r.given ++ vs.map fun v => (k, v) }
      | none, none => collect os f positional ts { r with extra := true }

/-- enough rounds for the loop of CLI11.hpp 2549-2551: every round removes at least one character or argument -/
def rounds (ts : List Tok) : Nat := (ts.map (·.length + 1)).sum + 1

/-- the value of a digit, for `std::stoll` (CLI11.hpp 573) -/
def digit (c : Char) : Option Nat := if c.isDigit then some (c.toNat - 48) else none

/-- the number given by the digits at the beginning, for `std::stoll` (CLI11.hpp 573) -/
def digits : Tok → Nat → Nat
  | [], n => n
  | c :: l, n =>
    match digit c with
    | none => n
    | some d => digits l (10 * n + d)

/-- `isspace` in the locale "C", which `std::stoll` uses to skip white space (CLI11.hpp 573) -/
def isSpace (c : Char) : Bool := c = ' ' || (9 ≤ c.toNat && c.toNat ≤ 13)

/-- the optional sign, for `std::stoll` (CLI11.hpp 573) -/
def sign : Tok → Bool × Tok
  | [] => (false, [])
  | c :: l => if c = '-' then (true, l) else if c = '+' then (false, l) else (false, c :: l)

/-- `std::stoll` in base 10 as used by `lexical_cast`, CLI11.hpp 569-580: white space, a sign and at least one digit; what follows is
ignored. `none` stands for the two exceptions. -/
def stoll (t : Tok) : Option Int :=
  let x := sign (t.dropWhile isSpace)
  match x.2 with
  | [] => none
  | c :: l =>
    if c.isDigit then
      let n : Int := digits (c :: l) 0
      let n := if x.1 then -n else n
      if -2 ^ 63 ≤ n ∧ n < 2 ^ 63 then some n else none
    else none

/-- the `static_cast` of `lexical_cast`, CLI11.hpp 573 -/
def cast : Kind → Int → Int
  | .uint, i => i % 2 ^ 32
  | .int, i => Int.bmod i (2 ^ 32)
  | .flag, i => i

/-- `run_callback` of an option with at least one result, CLI11.hpp 1307-1343, with the callbacks of `add_option` (1727-1729) and
`add_flag` (1841-1844). `none` is an exception; it comes before the member is written. -/
def callback (o : Opt) (rs : List Tok) : Option Int :=
  match o.kind, rs with
  | .flag, _ => some 1
  | k, [t] => (stoll t).map (cast k)
  | _, _ => none

/-- the results of option `k`: `results_` of that option, which `add_result` extends (CLI11.hpp 1400-1404) -/
def Res.of (r : Res) (k : Nat) : List Tok := r.given.filterMap fun x => if x.1 = k then some x.2 else none

/-- The callbacks of all options from number `k` on, CLI11.hpp 2605-2609; the second component says that no exception occurred. An
exception leaves the members written so far. -/
def callbacks (r : Res) : Nat → List Opt → List Int → List Int × Bool
  | k, o :: os, m :: ms =>
    if r.of k = [] then let x := callbacks r (k + 1) os ms; (m :: x.1, x.2)
    else
      match callback o (r.of k) with
      | none => (m :: ms, false)
      | some v => let x := callbacks r (k + 1) os ms; (v :: x.1, x.2)
  | _, _, ms => (ms, true)

/-- The members after the constructor: `add_flag` sets its variable to `false` (CLI11.hpp 1840), after the initialiser of the member. -/
def register (os : List Opt) : List Int := os.map fun o => if o.kind = .flag then 0 else o.init

/-- `opts.reset` and `opts.parse`, command.hpp 550 and 573, CLI11.hpp 2183-2195 and 2545-2645: the members afterwards, and whether there was
no exception. The check for arguments that are left over comes after the callbacks. -/
def parse (os : List Opt) (ts : List Tok) (ms : List Int) : List Int × Bool :=
  match collect os (rounds ts) false ts {} with
  | none => (ms, false)
  | some r =>
    if r.help then (ms, false)
    else
      let x := callbacks r 0 os ms
      (x.1, x.2 && !r.extra)

/-- A command (class `command`, command.hpp 548-597): its options and `execute`, which gets the number of AIGs in the store and the members, may change the members, and either
calls the operation with some parameters or only warns. -/
structure Command (γ : Type) where
  opts : List Opt
  exec : Nat → List Int → List Int × Option γ

/-- `command::run`, command.hpp 548-597, with the empty validity rules of the modelled commands -/
def Command.line {γ : Type} (c : Command γ) (aigs : Nat) (ts : List Tok) (ms : List Int) : List Int × Option γ :=
  let x := parse c.opts ts ms
  if x.2 then c.exec aigs x.1 else (x.1, none)

/-- the members after some calls of `run` (command.hpp 548-597), each with the number of AIGs in the store at that time -/
def Command.after {γ : Type} (c : Command γ) : List (Nat × List Tok) → List Int → List Int
  | [], ms => ms
  | l :: ls, ms => c.after ls (c.line l.1 l.2 ms).1

/-- What the shell calls for a line after some others (command.hpp 548-597 for each of them). The lines of other commands in between do not matter, except for the number of AIGs. -/
def Command.called {γ : Type} (c : Command γ) (before : List (Nat × List Tok)) (aigs : Nat) (ts : List Tok) : Option γ :=
  (c.line aigs ts (c.after before (register c.opts))).2

/-! ### the commands -/

/-- the parameters of `iFPGA::rewrite` that the command sets, `cli/command/rewrite.hpp` 40-44 -/
structure RewriteCall where
  cutLimit : Nat
  cutSize : Nat
  preserveDepth : Bool
  zeroGain : Bool
deriving DecidableEq, Repr

/-- `rewrite_command`, `cli/command/rewrite.hpp` 13-17, 24-45 and 50-54 -/
def rewrite : Command RewriteCall where
  opts := [⟨"priority_size", 'P', .uint, 10⟩, ⟨"cut_size", 'C', .uint, 4⟩, ⟨"level_preserve", 'l', .flag, 1⟩, ⟨"zero_gain", 'z', .flag, 0⟩,
    ⟨"verbose", 'v', .flag, 0⟩]
  exec aigs ms := (ms, match ms with
    | [p, c, l, z, _] =>
      if aigs = 0 then none
      else if p < 6 ∨ p > 20 then none
      else if c < 2 ∨ c > 4 then none
      else some ⟨p.toNat, c.toNat, l ≠ 0, z ≠ 0⟩
    | _ => none)

/-- the parameters of `iFPGA::refactor` that the command sets, `cli/command/refactor.hpp` 40-45 -/
structure RefactorCall where
  maxLeaves : Nat
  maxCone : Nat
  allowDepthUp : Bool
  allowZeroGain : Bool
deriving DecidableEq, Repr

/-- `refactor_command`, `cli/command/refactor.hpp` 13-17, 24-46 and 51-55 -/
def refactor : Command RefactorCall where
  opts := [⟨"max_input_size", 'I', .uint, 10⟩, ⟨"max_cone_size", 'C', .uint, 16⟩, ⟨"level_preserve", 'l', .flag, 1⟩, ⟨"zero_gain", 'z', .flag, 0⟩,
    ⟨"verbose", 'v', .flag, 0⟩]
  exec aigs ms := (ms, match ms with
    | [i, c, l, z, _] =>
      if aigs = 0 then none
      else if i > 12 then none
      else if c > 20 then none
      else some ⟨i.toNat, c.toNat, l ≠ 0, z ≠ 0⟩
    | _ => none)

/-- the parameters of `klut_mapping` that `lut_opt` sets, `cli/command/lut_opt.hpp` 60-66, without `verbose` -/
structure LutOptCall where
  cutLimit : Nat
  cutSize : Nat
  flowIters : Nat
  areaIters : Nat
  zeroGain : Bool
deriving DecidableEq, Repr

/-- `lut_opt_command`, `cli/command/lut_opt.hpp` 19-24, 32-66 and 74-79 -/
def lutOpt : Command LutOptCall where
  opts := [⟨"priority_size", 'P', .uint, 10⟩, ⟨"cut_size", 'C', .uint, 6⟩, ⟨"global_area_iterations", 'G', .uint, 1⟩,
    ⟨"local_area_iterations", 'L', .uint, 2⟩, ⟨"zero_gain", 'z', .flag, 0⟩, ⟨"verbose", 'v', .flag, 0⟩]
  exec aigs ms := (ms, match ms with
    | [p, c, g, l, z, _] =>
      if aigs = 0 then none
      else if p < 6 ∨ p > 20 then none
      else if c < 2 ∨ c > 6 then none
      else if g < 1 ∨ g > 2 then none
      else if l < 1 ∨ l > 3 then none
      else some ⟨p.toNat, c.toNat, g.toNat, l.toNat, z ≠ 0⟩
    | _ => none)

/-- what `map_fpga` calls, `cli/command/map_fpga.hpp` 70-75 and 82-113, without `verbose`: `choice` says that it maps the history -/
structure MapCall where
  cutLimit : Nat
  cutSize : Nat
  flowIters : Nat
  areaIters : Nat
  choice : Bool
deriving DecidableEq, Repr

/-- `map_fpga_command`, `cli/command/map_fpga.hpp` 24-29, 36-113 and 116-121. Line 79 writes the member of the option. -/
def mapFpga : Command MapCall where
  opts := [⟨"priority_size", 'P', .uint, 10⟩, ⟨"cut_size", 'C', .uint, 6⟩, ⟨"global_area_iterations", 'G', .uint, 1⟩,
    ⟨"local_area_iterations", 'L', .uint, 2⟩, ⟨"type", 't', .int, 0⟩, ⟨"verbose", 'v', .flag, 0⟩]
  exec aigs ms :=
    match ms with
    | [p, c, g, l, t, v] =>
      if aigs = 0 then (ms, none)
      else if p < 6 ∨ p > 20 then (ms, none)
      else if c < 2 ∨ c > 6 then (ms, none)
      else if t ≠ 0 ∧ t ≠ 1 then (ms, none)
      else if g < 1 ∨ g > 2 then (ms, none)
      else if l < 1 ∨ l > 3 then (ms, none)
      else
        let t := if t = 1 ∧ aigs < 2 then 0 else t
        ([p, c, g, l, t, v], some ⟨p.toNat, c.toNat, g.toNat, l.toNat, t = 1⟩)
    | _ => (ms, none)

/-- the parameters of the mapper, `klut_mapping_params` with the changes of `cli/command/map_fpga.hpp` 70-75 -/
def MapCall.ps (m : MapCall) : Mapper.Ps :=
  { cut := { cutSize := m.cutSize, cutLimit := m.cutLimit }, uFlowIters := BitVec.ofNat 8 m.flowIters, uAreaIters := BitVec.ofNat 8 m.areaIters }

end Verif.Cli.Opts
