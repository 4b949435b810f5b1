import Verif.Cli.Options
import Mathlib.Data.List.Forall2

set_option autoImplicit false

/-!
# What a command line says

Specification for property C71, without reference to how the arguments are parsed.
-/

namespace Verif.Cli.Opts

/-- a decimal numeral, leading zeros allowed (specification of what CLI11.hpp 569-580 should read) -/
def Numeral (t : Tok) (n : Nat) : Prop :=
  t ≠ [] ∧ (∀ c ∈ t, c.isDigit = true) ∧ t.foldl (fun a c => 10 * a + (c.toNat - 48)) 0 = n

/-- the numbers a member can hold (specification; types of the members in `cli/command/map_fpga.hpp` 116-121) -/
def Fits : Kind → Nat → Prop
  | .uint, n => n < 2 ^ 32
  | .int, n => n < 2 ^ 31
  | .flag, _ => True

/-- The ways to give one option: `-P 7`, `-P7`, `--priority_size 7`, `--priority_size=7`, and `-z`, `--zero_gain` for a flag (specification; the
help text of CLI11.hpp 2530-2542, 2801-2900). Flags written together, like `-zv`, are left out. -/
inductive Written (o : Opt) : Nat → List Tok → Prop
  | short {n : Nat} {t : Tok} : o.kind ≠ .flag → Numeral t n → Fits o.kind n → Written o n [['-', o.short], t]
  | glued {n : Nat} {t : Tok} : o.kind ≠ .flag → Numeral t n → Fits o.kind n → Written o n ['-' :: o.short :: t]
  | long {n : Nat} {t : Tok} : o.kind ≠ .flag → Numeral t n → Fits o.kind n → Written o n ['-' :: '-' :: o.long.toList, t]
  | equal {n : Nat} {t : Tok} : o.kind ≠ .flag → Numeral t n → Fits o.kind n → Written o n ['-' :: '-' :: (o.long.toList ++ '=' :: t)]
  | flag : o.kind = .flag → Written o 1 [['-', o.short]]
  | flagLong : o.kind = .flag → Written o 1 ['-' :: '-' :: o.long.toList]

/-- A line that gives these options, by number, with these values, in this order (specification for command.hpp 548-573). A flag has the value 1. -/
inductive Spelled (os : List Opt) : List (Nat × Nat) → List Tok → Prop
  | nil : Spelled os [] []
  | cons {k n : Nat} {o : Opt} {ts ts' : List Tok} {gs : List (Nat × Nat)} : os[k]? = some o → Written o n ts → Spelled os gs ts' →
      Spelled os ((k, n) :: gs) (ts ++ ts')

/-- the names of the options can be told apart and from the help flag, and have the form that CLI11 asks for (CLI11.hpp 650-683 checks
that at registration) -/
def WellNamed (os : List Opt) : Prop :=
  (∀ o ∈ os, validFirst o.short = true ∧ o.short ≠ 'h' ∧ o.long.toList ≠ "help".toList ∧ (∀ c ∈ o.long.toList, c ≠ '=') ∧
    ∃ c rest, o.long.toList = c :: rest ∧ validFirst c = true) ∧
  os.Pairwise fun a b => a.short ≠ b.short ∧ a.long.toList ≠ b.long.toList

/-- no value is given twice in the line (specification; CLI11.hpp 1332-1334 refuses that) -/
def Once (os : List Opt) (gs : List (Nat × Nat)) : Prop :=
  ∀ k o, os[k]? = some o → o.kind ≠ .flag → (gs.filter (·.1 = k)).length ≤ 1

/-- a proper line: it spells these settings, no value twice (specification for command.hpp 548-573) -/
def Says (os : List Opt) (gs : List (Nat × Nat)) (ts : List Tok) : Prop := Spelled os gs ts ∧ Once os gs

/-- the value last given for option `k`, or `d` (specification) -/
def lastOf (k : Nat) (gs : List (Nat × Nat)) (d : Int) : Int := gs.foldl (fun a g => if g.1 = k then (g.2 : Int) else a) d

/-- whether option `k` is given (specification) -/
def gives (gs : List (Nat × Nat)) (k : Nat) : Bool := gs.any (·.1 = k)

/-- a session of proper lines, each with the number of AIGs in the store at that time (specification) -/
def SaysAll (os : List Opt) (gss : List (List (Nat × Nat))) (ls : List (Nat × List Tok)) : Prop :=
  List.Forall₂ (fun gs l => Says os gs l.2) gss ls

/-! ### what the help texts promise -/

/-- the names in the help texts, in the order in which the functions below number the options: `cli/command/rewrite.hpp` 13-17, `refactor.hpp` 13-17,
`lut_opt.hpp` 19-24, `map_fpga.hpp` 24-29 (specification) -/
def names : List (List (String × String)) := [
  ["--priority_size, -P", "--cut_size, -C", "--level_preserve, -l", "--zero_gain, -z", "--verbose, -v"].map fun s => (s, "rewrite"),
  ["--max_input_size, -I", "--max_cone_size, -C", "--level_preserve, -l", "--zero_gain, -z", "--verbose, -v"].map fun s => (s, "refactor"),
  ["--priority_size, -P", "--cut_size, -C", "--global_area_iterations, -G", "--local_area_iterations, -L", "--zero_gain, -z", "--verbose, -v"].map
    fun s => (s, "lut_opt"),
  ["--priority_size, -P", "--cut_size, -C", "--global_area_iterations, -G", "--local_area_iterations, -L", "--type, -t", "--verbose, -v"].map
    fun s => (s, "map_fpga")]

/-- an option as the help text shows it (specification; the strings of `cli/command/map_fpga.hpp` 24-29) -/
def Opt.shown (o : Opt) (command : String) : String × String := ("--" ++ o.long ++ ", -" ++ String.singleton o.short, command)

/-- the value of a numeric option according to the help: the value given in the line, else the documented default (specification) -/
def meant (k : Nat) (default : Nat) (gs : List (Nat × Nat)) : Nat :=
  match (gs.filter (·.1 = k)).getLast? with
  | none => default
  | some g => g.2

/-- the value of a toggle according to the help: its documented default, turned over when the line has the flag (specification) -/
def toggled (k : Nat) (default : Bool) (gs : List (Nat × Nat)) : Bool := if gives gs k then !default else default

/-- `rewrite -h`, `cli/command/rewrite.hpp` 13-17: ranges, defaults and toggles (specification) -/
def rewriteDoc (gs : List (Nat × Nat)) : Option RewriteCall :=
  let p := meant 0 10 gs
  let c := meant 1 4 gs
  if 6 ≤ p ∧ p ≤ 20 ∧ 2 ≤ c ∧ c ≤ 4 then some ⟨p, c, toggled 2 true gs, toggled 3 false gs⟩ else none

/-- `refactor -h`, `cli/command/refactor.hpp` 13-17 (specification); preserving levels means not allowing the depth to go up -/
def refactorDoc (gs : List (Nat × Nat)) : Option RefactorCall :=
  let i := meant 0 10 gs
  let c := meant 1 16 gs
  if i ≤ 12 ∧ c ≤ 20 then some ⟨i, c, !toggled 2 true gs, toggled 3 false gs⟩ else none

/-- `lut_opt -h`, `cli/command/lut_opt.hpp` 19-24 (specification) -/
def lutOptDoc (gs : List (Nat × Nat)) : Option LutOptCall :=
  let p := meant 0 10 gs
  let c := meant 1 4 gs
  let g := meant 2 1 gs
  let l := meant 3 2 gs
  if 6 ≤ p ∧ p ≤ 20 ∧ 2 ≤ c ∧ c ≤ 6 ∧ 1 ≤ g ∧ g ≤ 2 ∧ 1 ≤ l ∧ l ≤ 3 then some ⟨p, c, g, l, toggled 4 false gs⟩ else none

/-- `map_fpga -h`, `cli/command/map_fpga.hpp` 24-29 (specification), with the number of stored AIGs: with less than two there is no history (77-80) -/
def mapFpgaDoc (aigs : Nat) (gs : List (Nat × Nat)) : Option MapCall :=
  let p := meant 0 10 gs
  let c := meant 1 6 gs
  let g := meant 2 1 gs
  let l := meant 3 2 gs
  let t := meant 4 0 gs
  if 6 ≤ p ∧ p ≤ 20 ∧ 2 ≤ c ∧ c ≤ 6 ∧ 1 ≤ g ∧ g ≤ 2 ∧ 1 ≤ l ∧ l ≤ 3 ∧ t ≤ 1 then some ⟨p, c, g, l, t = 1 ∧ 2 ≤ aigs⟩ else none

end Verif.Cli.Opts
