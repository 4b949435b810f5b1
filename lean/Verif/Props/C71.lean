import Verif.Cli.OptionsFacts
import Verif.Props.C21
import Verif.Mapping.Map
import Mathlib.Tactic.FinCases

set_option autoImplicit false

/-!
# C71: A command line means what the help text says

The options given to `rewrite`, `refactor`, `lut_opt` and `map_fpga` are the parameters with which the operation is called; what is not given has the
documented default; values outside the documented range are refused without effect.
-/

namespace Verif.Cli.Opts

/-- arguments as they are typed, for the examples (command.hpp 548) -/
def typed (l : List String) : List Tok := l.map String.toList

theorem wellNamed_rewrite : WellNamed rewrite.opts := by
  refine ⟨fun o ho => ?_, by decide +kernel⟩
  fin_cases ho <;> exact ⟨by decide +kernel, by decide +kernel, by decide +kernel, by decide +kernel, _, _, rfl, by decide +kernel⟩

theorem wellNamed_refactor : WellNamed refactor.opts := by
  refine ⟨fun o ho => ?_, by decide +kernel⟩
  fin_cases ho <;> exact ⟨by decide +kernel, by decide +kernel, by decide +kernel, by decide +kernel, _, _, rfl, by decide +kernel⟩

theorem wellNamed_lutOpt : WellNamed lutOpt.opts := by
  refine ⟨fun o ho => ?_, by decide +kernel⟩
  fin_cases ho <;> exact ⟨by decide +kernel, by decide +kernel, by decide +kernel, by decide +kernel, _, _, rfl, by decide +kernel⟩

theorem wellNamed_mapFpga : WellNamed mapFpga.opts := by
  refine ⟨fun o ho => ?_, by decide +kernel⟩
  fin_cases ho <;> exact ⟨by decide +kernel, by decide +kernel, by decide +kernel, by decide +kernel, _, _, rfl, by decide +kernel⟩

/-! ### parsing -/

/-- The loop over the arguments ends for every line: more rounds than arguments and characters change nothing. -/
theorem C71_terminates (os : List Opt) (positional : Bool) (ts : List Tok) (r : Res) (f : Nat) (hf : rounds ts ≤ f) :
    collect os f positional ts r = collect os (rounds ts) positional ts r := collect_enough os positional ts r f hf

example : collect rewrite.opts 1000 false (typed ["-lzC3", "--priority_size=12", "-v"]) {} =
    some { given := [(2, []), (3, []), (1, "3".toList), (0, "12".toList), (4, [])] } := by decide +kernel

/-- Every proper line is accepted, in each of the spellings and in any order: the options it gives get their values, the others keep the value they had. -/
theorem C71_line {os : List Opt} (hw : WellNamed os) {gs : List (Nat × Nat)} {ts : List Tok} (h : Says os gs ts) {ms : List Int}
    (hl : ms.length = os.length) :
    (parse os ts ms).2 = true ∧ (parse os ts ms).1.length = os.length ∧
      ∀ i m, ms[i]? = some m → (parse os ts ms).1[i]? = some (lastOf i gs m) := parse_says hw h hl

/-- the line of the examples -/
theorem says_example : Says mapFpga.opts [(1, 5), (4, 1), (0, 12), (5, 1)] (typed ["-C5", "--type", "1", "--priority_size=012", "-v"]) := by
  refine ⟨?_, ?_⟩
  · refine Spelled.cons (o := ⟨"cut_size", 'C', .uint, 6⟩) (ts := typed ["-C5"]) rfl
      (Written.glued (t := ['5']) (by decide) (by unfold Numeral; decide +kernel) (by unfold Fits; decide)) ?_
    refine Spelled.cons (o := ⟨"type", 't', .int, 0⟩) (ts := typed ["--type", "1"]) rfl
      (Written.long (t := ['1']) (by decide) (by unfold Numeral; decide +kernel) (by unfold Fits; decide)) ?_
    refine Spelled.cons (o := ⟨"priority_size", 'P', .uint, 10⟩) (ts := typed ["--priority_size=012"]) rfl
      (Written.equal (t := ['0', '1', '2']) (by decide) (by unfold Numeral; decide +kernel) (by unfold Fits; decide)) ?_
    exact Spelled.cons (o := ⟨"verbose", 'v', .flag, 0⟩) (ts := typed ["-v"]) rfl (Written.flag rfl) Spelled.nil
  · intro k o ho hk
    match k with
    | 0 | 1 | 2 | 3 | 4 => decide +kernel
    | 5 => injection ho with ho; subst ho; exact absurd rfl hk
    | k + 6 => exact absurd ho (by simp [mapFpga])

example : (parse mapFpga.opts (typed ["-C5", "--type", "1", "--priority_size=012", "-v"]) [10, 6, 1, 2, 0, 0]).1 = [12, 5, 1, 2, 1, 1] := by decide +kernel

/-- The options have the names of the help texts, in the order that the specification counts on. -/
theorem C71_names : [rewrite.opts.map (·.shown "rewrite"), refactor.opts.map (·.shown "refactor"), lutOpt.opts.map (·.shown "lut_opt"),
    mapFpga.opts.map (·.shown "map_fpga")] = names := by decide +kernel

/-- A line with `-h` or `--help` among its options is refused and has no effect. -/
theorem C71_help {os : List Opt} (hw : WellNamed os) {gs gs' : List (Nat × Nat)} {ts ts' : List Tok} (h : Spelled os gs ts) (h' : Spelled os gs' ts')
    (ms : List Int) {t : Tok} (ht : t = "-h".toList ∨ t = "--help".toList) : parse os (ts ++ t :: ts') ms = (ms, false) := by
  obtain ⟨xs, -, hc⟩ := collect_prefix hw h
  obtain ⟨ys, -, hc'⟩ := collect_prefix hw h'
  have : collect os (rounds (ts ++ t :: ts')) false (ts ++ t :: ts') {} = some { given := xs ++ ys, help := true } := by
    refine collect_any ⟨gs'.length + 1 + 1 + gs.length, fun f hf => ?_⟩
    obtain ⟨d, rfl⟩ : ∃ d, f = d + 1 + gs'.length + 1 + gs.length := ⟨f - (gs'.length + 1 + 1 + gs.length), by omega⟩
    rw [hc]
    have hone : ∀ r, collect os (d + 1 + gs'.length + 1) false (t :: ts') r = collect os (d + 1 + gs'.length) false ts' { r with help := true } := by
      intro r
      have e1 : splitLong "-h".toList = none := by decide
      have e2 : splitShort "-h".toList = some ('h', []) := by decide
      have e3 : splitLong "--help".toList = some ("help".toList, []) := by decide
      have e4 : "-h".toList ≠ ['-', '-'] ∧ "--help".toList ≠ ['-', '-'] := by decide
      have e5 : helpOpt.named false ['h'] = true ∧ helpOpt.named true "help".toList = true := by decide
      rcases ht with rfl | rfl
      · rw [collect]; simp only [e1, e2, e4.1, e5.1, takeArg, Bool.false_eq_true, ↓reduceIte, ne_eq, not_true_eq_false]
      · rw [collect]; simp only [e3, e4.2, e5.2, takeArg, Bool.false_eq_true, ↓reduceIte, ne_eq, not_true_eq_false]
    rw [hone, ← List.append_nil ts', hc']
    simp [collect]
  simp only [parse, this, ↓reduceIte]

example : parse rewrite.opts (typed ["-C", "3", "-h", "-z"]) [10, 4, 0, 0, 0] = ([10, 4, 0, 0, 0], false) := by decide +kernel

/-- A line with a word that belongs to no option is refused, and so is a line with anything, even an option, behind the mark `--`. -/
theorem C71_word {os : List Opt} (hw : WellNamed os) {gs gs' : List (Nat × Nat)} {ts ts' : List Tok} (h : Spelled os gs ts) (h' : Spelled os gs' ts')
    (ms : List Int) {w : Tok} (hword : w.head? ≠ some '-') (u : Tok) (more : List Tok) :
    (parse os (ts ++ w :: ts') ms).2 = false ∧ (parse os (ts ++ "--".toList :: u :: more) ms).2 = false := by
  obtain ⟨xs, -, hc⟩ := collect_prefix hw h
  obtain ⟨ys, -, hc'⟩ := collect_prefix hw h'
  have w1 : splitLong w = none := by
    match w with
    | [] => rfl
    | c :: l =>
      simp only [List.head?_cons, ne_eq, Option.some.injEq] at hword
      match l with
      | [] => simp [splitLong]
      | [_] => simp [splitLong]
      | a :: b :: l => simp [splitLong, hword]
  have w2 : splitShort w = none := by
    match w with
    | [] => rfl
    | c :: l =>
      simp only [List.head?_cons, ne_eq, Option.some.injEq] at hword
      match l with
      | [] => simp [splitShort]
      | a :: l => simp [splitShort, hword]
  have w3 : w ≠ ['-', '-'] := by rintro rfl; exact hword rfl
  have hend : ∀ (r : Res), r.extra = true → ∀ o ms', (match (some r : Option Res) with
      | none => (ms', false)
      | some r => if r.help then (ms', false) else ((callbacks r 0 o ms').1, (callbacks r 0 o ms').2 && !r.extra)).2 = false := by
    intro r hr o ms'
    dsimp only
    split
    · rfl
    · simp [hr]
  constructor
  · have : collect os (rounds (ts ++ w :: ts')) false (ts ++ w :: ts') {} = some { given := xs ++ ys, extra := true } := by
      refine collect_any ⟨gs'.length + 1 + 1 + gs.length, fun f hf => ?_⟩
      obtain ⟨d, rfl⟩ : ∃ d, f = d + 1 + gs'.length + 1 + gs.length := ⟨f - (gs'.length + 1 + 1 + gs.length), by omega⟩
      rw [hc, collect]
      simp only [w1, w2, w3, Bool.false_eq_true, ↓reduceIte]
      rw [← List.append_nil ts', hc']
      simp [collect]
    unfold parse
    rw [this]
    exact hend _ rfl os ms
  · have tail : ∀ (more : List Tok) (f : Nat) (r : Res), more.length < f → r.extra = true → collect os f true more r = some r := by
      intro more
      induction more with
      | nil => intro f r hf _; cases f with
        | zero => omega
        | succ f => rw [collect]
      | cons t more ih => intro f r hf hr; cases f with
        | zero => omega
        | succ f =>
          rw [collect, if_pos rfl]
          have : ({ r with extra := true } : Res) = r := by rw [← hr]
          rw [this]
          exact ih f r (by simp at hf; omega) hr
    have : collect os (rounds (ts ++ "--".toList :: u :: more)) false (ts ++ "--".toList :: u :: more) {} = some { given := xs, extra := true } := by
      refine collect_any ⟨more.length + 1 + 1 + 1 + gs.length, fun f hf => ?_⟩
      obtain ⟨d, rfl⟩ : ∃ d, f = d + more.length + 1 + 1 + 1 + gs.length := ⟨f - (more.length + 1 + 1 + 1 + gs.length), by omega⟩
      rw [hc, collect]
      rw [if_neg (by decide), if_pos (by decide), collect, if_pos rfl]
      rw [tail _ _ _ (by omega) rfl]
      simp
    unfold parse
    rw [this]
    exact hend _ rfl os ms

example : (parse rewrite.opts (typed ["-C", "3", "4", "-z"]) [10, 4, 0, 0, 0]).2 = false ∧
    (parse rewrite.opts (typed ["-C", "3", "--", "-z"]) [10, 4, 0, 0, 0]).2 = false := by decide +kernel

/-- A line that gives a value twice is refused. -/
theorem C71_twice {os : List Opt} (hw : WellNamed os) {gs : List (Nat × Nat)} {ts : List Tok} (h : Spelled os gs ts) {ms : List Int}
    (hl : ms.length = os.length) (h2 : ¬ Once os gs) : (parse os ts ms).2 = false := by
  obtain ⟨xs, hx, hc⟩ := collect_spelled hw h
  have hc := hc (rounds ts) {} (by rw [rounds]; omega)
  simp only [Once, not_forall, Nat.not_le] at h2
  obtain ⟨k, o, ho, hk, hlen⟩ := h2
  have hn := (notes_of hx ho).length_eq
  have hof : (({} : Res).given ++ xs).filterMap (fun x => if x.1 = k then some x.2 else none) =
      xs.filterMap fun x => if x.1 = k then some x.2 else none := rfl
  have hlen' : 1 < (({ given := ({} : Res).given ++ xs } : Res).of (0 + k)).length := by
    rw [Nat.zero_add, Res.of, hof, ← hn]; exact hlen
  have : (callbacks { given := ({} : Res).given ++ xs } 0 os ms).2 = false := by
    refine callbacks_fail (k := k) 0 os ms ho hl (fun h0 => by rw [h0] at hlen'; simp at hlen') ?_
    match ho' : o.kind, hr : ({ given := ({} : Res).given ++ xs } : Res).of (0 + k) with
    | .flag, _ => exact absurd ho' hk
    | .uint, [] | .int, [] => simp [callback, ho']
    | .uint, [_] | .int, [_] => rw [hr] at hlen'; simp at hlen'
    | .uint, _ :: _ :: _ | .int, _ :: _ :: _ => simp [callback, ho']
  unfold parse
  rw [hc]
  dsimp only
  split
  · rfl
  · simp only [this, Bool.false_and]

example : (parse rewrite.opts (typed ["-C", "3", "-P9", "-C3"]) [10, 4, 0, 0, 0]).2 = false := by decide +kernel

/-- A line that gives something without a digit as the value of an option is refused. -/
theorem C71_number {os : List Opt} (hw : WellNamed os) {gs gs' : List (Nat × Nat)} {ts ts' : List Tok} (h : Spelled os gs ts)
    (h' : Spelled os gs' ts') {ms : List Int} (hl : ms.length = os.length) {k : Nat} {o : Opt} (ho : os[k]? = some o) (hk : o.kind ≠ .flag) {t : Tok}
    (ht : ∀ c ∈ t, c.isDigit = false) : (parse os (ts ++ ['-', o.short] :: t :: ts') ms).2 = false := by
  obtain ⟨xs, -, hc⟩ := collect_prefix hw h
  obtain ⟨ys, -, hc'⟩ := collect_prefix hw h'
  have : collect os (rounds (ts ++ ['-', o.short] :: t :: ts')) false (ts ++ ['-', o.short] :: t :: ts') {} = some { given := xs ++ ((k, t) :: ys) } := by
    refine collect_any ⟨gs'.length + 1 + 1 + gs.length, fun f hf => ?_⟩
    obtain ⟨d, rfl⟩ : ∃ d, f = d + 1 + gs'.length + 1 + gs.length := ⟨f - (gs'.length + 1 + 1 + gs.length), by omega⟩
    rw [hc, collect_short hw ho]
    simp only [takeArg, hk, ne_eq, not_true_eq_false, ↓reduceIte]
    rw [← List.append_nil ts', hc']
    simp [collect]
  have hof : (({ given := xs ++ ((k, t) :: ys) } : Res).of (0 + k)) = ({ given := xs } : Res).of k ++ t :: ({ given := ys } : Res).of k := by
    rw [Nat.zero_add, of_append]
    simp [Res.of]
  have hfail : (callbacks { given := xs ++ ((k, t) :: ys) } 0 os ms).2 = false := by
    refine callbacks_fail (k := k) 0 os ms ho hl (by rw [hof]; simp) ?_
    rw [hof]
    have hst := stoll_no_digit ht
    match ho' : o.kind, ({ given := xs } : Res).of k, ({ given := ys } : Res).of k with
    | .flag, _, _ => exact absurd ho' hk
    | .uint, [], [] | .int, [], [] => simp [callback, ho', hst]
    | .uint, [], _ :: _ | .int, [], _ :: _ => simp [callback, ho']
    | .uint, [_], _ | .int, [_], _ => simp [callback, ho']
    | .uint, _ :: _ :: _, _ | .int, _ :: _ :: _, _ => simp [callback, ho']
  unfold parse
  rw [this]
  dsimp only
  split
  · rfl
  · simp only [hfail, Bool.false_and]

example : (parse rewrite.opts (typed ["-z", "-C", "four", "-P", "7"]) [10, 4, 0, 0, 0]).2 = false := by decide +kernel

/-! ### ranges -/

/-- Whatever was typed before and is typed now, an operation is only called with an AIG in the store and with values in the documented ranges. -/
theorem C71_ranges (before : List (Nat × List Tok)) (aigs : Nat) (ts : List Tok) :
    (∀ x, rewrite.called before aigs ts = some x → 0 < aigs ∧ 6 ≤ x.cutLimit ∧ x.cutLimit ≤ 20 ∧ 2 ≤ x.cutSize ∧ x.cutSize ≤ 4) ∧
    (∀ x, refactor.called before aigs ts = some x → 0 < aigs ∧ x.maxLeaves ≤ 12 ∧ x.maxCone ≤ 20) ∧
    (∀ x, lutOpt.called before aigs ts = some x → 0 < aigs ∧ 6 ≤ x.cutLimit ∧ x.cutLimit ≤ 20 ∧ 2 ≤ x.cutSize ∧ x.cutSize ≤ 6 ∧
      1 ≤ x.flowIters ∧ x.flowIters ≤ 2 ∧ 1 ≤ x.areaIters ∧ x.areaIters ≤ 3) ∧
    (∀ x, mapFpga.called before aigs ts = some x → 0 < aigs ∧ 6 ≤ x.cutLimit ∧ x.cutLimit ≤ 20 ∧ 2 ≤ x.cutSize ∧ x.cutSize ≤ 6 ∧
      1 ≤ x.flowIters ∧ x.flowIters ≤ 2 ∧ 1 ≤ x.areaIters ∧ x.areaIters ≤ 3 ∧ (x.choice = true → 2 ≤ aigs)) := by
  have go : ∀ {γ : Type} (c : Command γ) (x : γ), c.called before aigs ts = some x → ∃ ms, (c.exec aigs ms).2 = some x := by
    intro γ c x h
    unfold Command.called Command.line at h
    dsimp only at h
    split at h
    · exact ⟨_, h⟩
    · exact absurd h (by simp)
  refine ⟨fun x h => ?_, fun x h => ?_, fun x h => ?_, fun x h => ?_⟩
  · obtain ⟨ms, h⟩ := go _ x h
    simp only [rewrite] at h
    split at h
    · repeat' split at h
      all_goals first
        | (injection h with h; subst h; dsimp only; omega)
        | cases h
    · exact absurd h (by simp)
  · obtain ⟨ms, h⟩ := go _ x h
    simp only [refactor] at h
    split at h
    · repeat' split at h
      all_goals first
        | (injection h with h; subst h; dsimp only; omega)
        | cases h
    · exact absurd h (by simp)
  · obtain ⟨ms, h⟩ := go _ x h
    simp only [lutOpt] at h
    split at h
    · repeat' split at h
      all_goals first
        | (injection h with h; subst h; dsimp only; omega)
        | cases h
    · exact absurd h (by simp)
  · obtain ⟨ms, h⟩ := go _ x h
    simp only [mapFpga] at h
    split at h
    · rename_i p c g l t v
      by_cases h0 : aigs = 0
      · rw [if_pos h0] at h; exact absurd h (by simp)
      by_cases h1 : p < 6 ∨ p > 20
      · rw [if_neg h0, if_pos h1] at h; exact absurd h (by simp)
      by_cases h2 : c < 2 ∨ c > 6
      · rw [if_neg h0, if_neg h1, if_pos h2] at h; exact absurd h (by simp)
      by_cases h3 : t ≠ 0 ∧ t ≠ 1
      · rw [if_neg h0, if_neg h1, if_neg h2, if_pos h3] at h; exact absurd h (by simp)
      by_cases h4 : g < 1 ∨ g > 2
      · rw [if_neg h0, if_neg h1, if_neg h2, if_neg h3, if_pos h4] at h; exact absurd h (by simp)
      by_cases h5 : l < 1 ∨ l > 3
      · rw [if_neg h0, if_neg h1, if_neg h2, if_neg h3, if_neg h4, if_pos h5] at h; exact absurd h (by simp)
      rw [if_neg h0, if_neg h1, if_neg h2, if_neg h3, if_neg h4, if_neg h5] at h
      injection h with h
      subst h
      dsimp only
      refine ⟨by omega, by omega, by omega, by omega, by omega, by omega, by omega, by omega, by omega, fun hc => ?_⟩
      simp only [decide_eq_true_eq] at hc
      split at hc <;> omega
    · exact absurd h (by simp)

example : rewrite.called [(1, typed ["-C", "9"]), (0, typed ["-P", "-7", "what"])] 3 (typed ["-P", "20", "-C", "2"]) = some ⟨20, 2, false, false⟩ := by
  decide +kernel

/-! ### the meaning of a line -/

theorem five {l : List Int} (h : l.length = 5) {a b c d e : Int} (h0 : l[0]? = some a) (h1 : l[1]? = some b) (h2 : l[2]? = some c)
    (h3 : l[3]? = some d) (h4 : l[4]? = some e) : l = [a, b, c, d, e] := by
  match l, h with
  | [_, _, _, _, _], _ => simp_all

theorem six {l : List Int} (h : l.length = 6) {a b c d e f : Int} (h0 : l[0]? = some a) (h1 : l[1]? = some b) (h2 : l[2]? = some c)
    (h3 : l[3]? = some d) (h4 : l[4]? = some e) (h5 : l[5]? = some f) : l = [a, b, c, d, e, f] := by
  match l, h with
  | [_, _, _, _, _, _], _ => simp_all

/-- the members a command sees after a session of proper lines -/
theorem members {γ : Type} (c : Command γ) (hw : WellNamed c.opts) (P : Nat → Prop) (hlen : ∀ a ms, (c.exec a ms).1.length = ms.length)
    (hx : ∀ a, P a → ∀ ms, (c.exec a ms).1 = ms) {gss : List (List (Nat × Nat))} {before : List (Nat × List Tok)} (hb : SaysAll c.opts gss before)
    (hP : ∀ l ∈ before, P l.1) {gs : List (Nat × Nat)} {ts : List Tok} (h : Says c.opts gs ts) (aigs : Nat) :
    ∃ ms, ms.length = c.opts.length ∧ c.called before aigs ts = (c.exec aigs ms).2 ∧
      ∀ k m, (register c.opts)[k]? = some m → ms[k]? = some (lastOf k (gss.flatten ++ gs) m) := by
  have hr : (register c.opts).length = c.opts.length := by simp [register]
  have ha := fun k => after_says c hw P k hlen (fun a h ms => by rw [hx a h ms]) hb hP hr
  obtain ⟨h1, h2, h3⟩ := parse_says hw h (ha 0).1
  refine ⟨_, h2, by rw [Command.called, Command.line, if_pos h1], fun k m hk => ?_⟩
  rw [h3 k _ ((ha k).2 m hk), lastOf_append]

theorem flags {os : List Opt} {gss : List (List (Nat × Nat))} {before : List (Nat × List Tok)} (hb : SaysAll os gss before)
    {gs : List (Nat × Nat)} {ts : List Tok} (h : Says os gs ts) {k : Nat} {o : Opt} (ho : os[k]? = some o) (hk : o.kind = .flag) :
    lastOf k (gss.flatten ++ gs) 0 = if gives (gss.flatten ++ gs) k then 1 else 0 := by
  refine lastOf_flag fun g hg => ?_
  rw [List.mem_append] at hg
  rcases hg with hg | hg
  · exact saysAll_flag hb ho hk g hg
  · exact spelled_flag h.1 ho hk g hg

/-- What `rewrite` is called with after a session of proper lines: what the help text says for all lines so far taken as one, later values
replacing earlier ones, except that levels are preserved exactly when the text says they are not. Partial: the property asks for the meaning of
the last line alone, and with the documented level. -/
theorem C71_rewrite_partial {gss : List (List (Nat × Nat))} {before : List (Nat × List Tok)} (hb : SaysAll rewrite.opts gss before)
    {gs : List (Nat × Nat)} {ts : List Tok} (h : Says rewrite.opts gs ts) (aigs : Nat) (ha : 0 < aigs) :
    rewrite.called before aigs ts = (rewriteDoc (gss.flatten ++ gs)).map fun x => { x with preserveDepth := !x.preserveDepth } := by
  obtain ⟨ms, hl, hc, hm⟩ := members rewrite wellNamed_rewrite (fun _ => True) (fun a ms => rfl) (fun a _ ms => rfl) hb (fun _ _ => trivial) h aigs
  have h0 := hm 0 (10 : Nat) rfl
  have h1 := hm 1 (4 : Nat) rfl
  have h2 := hm 2 0 rfl
  have h3 := hm 3 0 rfl
  rw [lastOf_meant] at h0 h1
  rw [flags hb h rfl rfl] at h2 h3
  rw [hc, five hl h0 h1 h2 h3 (hm 4 0 rfl)]
  generalize gss.flatten ++ gs = G
  simp only [rewrite, rewriteDoc, toggled, if_neg (Nat.pos_iff_ne_zero.1 ha)]
  generalize meant 0 10 G = p
  generalize meant 1 4 G = c
  by_cases hp : 6 ≤ p ∧ p ≤ 20 ∧ 2 ≤ c ∧ c ≤ 4
  · rw [if_neg (by omega), if_neg (by omega), if_pos hp]
    cases gives G 2 <;> cases gives G 3 <;> rfl
  · rw [if_neg hp]
    by_cases h1 : (p : Int) < 6 ∨ (p : Int) > 20
    · rw [if_pos h1]; rfl
    · rw [if_neg h1, if_pos (by omega)]; rfl

/-- The same for `refactor`, where the documented level comes out. Partial: the property asks for the meaning of the last line alone. -/
theorem C71_refactor_partial {gss : List (List (Nat × Nat))} {before : List (Nat × List Tok)} (hb : SaysAll refactor.opts gss before)
    {gs : List (Nat × Nat)} {ts : List Tok} (h : Says refactor.opts gs ts) (aigs : Nat) (ha : 0 < aigs) :
    refactor.called before aigs ts = refactorDoc (gss.flatten ++ gs) := by
  obtain ⟨ms, hl, hc, hm⟩ := members refactor wellNamed_refactor (fun _ => True) (fun a ms => rfl) (fun a _ ms => rfl) hb (fun _ _ => trivial) h aigs
  have h0 := hm 0 (10 : Nat) rfl
  have h1 := hm 1 (16 : Nat) rfl
  have h2 := hm 2 0 rfl
  have h3 := hm 3 0 rfl
  rw [lastOf_meant] at h0 h1
  rw [flags hb h rfl rfl] at h2 h3
  rw [hc, five hl h0 h1 h2 h3 (hm 4 0 rfl)]
  generalize gss.flatten ++ gs = G
  simp only [refactor, refactorDoc, toggled, if_neg (Nat.pos_iff_ne_zero.1 ha)]
  generalize meant 0 10 G = p
  generalize meant 1 16 G = c
  by_cases hp : p ≤ 12 ∧ c ≤ 20
  · rw [if_neg (by omega), if_neg (by omega), if_pos hp]
    cases gives G 2 <;> cases gives G 3 <;> rfl
  · rw [if_neg hp]
    by_cases h1 : (p : Int) > 12
    · rw [if_pos h1]
    · rw [if_neg h1, if_pos (by omega)]

/-- The same for `lut_opt`, as if `-C 6` had been given at the start of the session. Partial: the property asks for the meaning of the last line
alone, and the help text says that the default is 4. -/
theorem C71_lutOpt_partial {gss : List (List (Nat × Nat))} {before : List (Nat × List Tok)} (hb : SaysAll lutOpt.opts gss before)
    {gs : List (Nat × Nat)} {ts : List Tok} (h : Says lutOpt.opts gs ts) (aigs : Nat) (ha : 0 < aigs) :
    lutOpt.called before aigs ts = lutOptDoc ((1, 6) :: (gss.flatten ++ gs)) := by
  obtain ⟨ms, hl, hc, hm⟩ := members lutOpt wellNamed_lutOpt (fun _ => True) (fun a ms => rfl) (fun a _ ms => rfl) hb (fun _ _ => trivial) h aigs
  have h0 := hm 0 (10 : Nat) rfl
  have h1 := hm 1 (6 : Nat) rfl
  have h2 := hm 2 (1 : Nat) rfl
  have h3 := hm 3 (2 : Nat) rfl
  have h4 := hm 4 0 rfl
  rw [lastOf_meant] at h0 h2 h3
  rw [flags hb h rfl rfl] at h4
  have hc6 : lastOf 1 (gss.flatten ++ gs) (6 : Nat) = lastOf 1 ((1, 6) :: (gss.flatten ++ gs)) (4 : Nat) := rfl
  rw [hc6, lastOf_meant] at h1
  rw [hc, six hl h0 h1 h2 h3 h4 (hm 5 0 rfl)]
  have e0 : meant 0 10 ((1, 6) :: (gss.flatten ++ gs)) = meant 0 10 (gss.flatten ++ gs) := rfl
  have e2 : meant 2 1 ((1, 6) :: (gss.flatten ++ gs)) = meant 2 1 (gss.flatten ++ gs) := rfl
  have e3 : meant 3 2 ((1, 6) :: (gss.flatten ++ gs)) = meant 3 2 (gss.flatten ++ gs) := rfl
  have e4 : gives ((1, 6) :: (gss.flatten ++ gs)) 4 = gives (gss.flatten ++ gs) 4 := rfl
  simp only [lutOpt, lutOptDoc, toggled, if_neg (Nat.pos_iff_ne_zero.1 ha), e0, e2, e3, e4]
  generalize meant 0 10 (gss.flatten ++ gs) = p
  generalize meant 1 4 _ = c
  generalize meant 2 1 _ = g
  generalize meant 3 2 _ = l
  by_cases hp : 6 ≤ p ∧ p ≤ 20 ∧ 2 ≤ c ∧ c ≤ 6 ∧ 1 ≤ g ∧ g ≤ 2 ∧ 1 ≤ l ∧ l ≤ 3
  · rw [if_neg (by omega), if_neg (by omega), if_neg (by omega), if_neg (by omega), if_pos hp]
    cases gives (gss.flatten ++ gs) 4 <;> rfl
  · rw [if_neg hp]
    by_cases h1 : (p : Int) < 6 ∨ (p : Int) > 20
    · rw [if_pos h1]
    by_cases h2 : (c : Int) < 2 ∨ (c : Int) > 6
    · rw [if_neg h1, if_pos h2]
    by_cases h3 : (g : Int) < 1 ∨ (g : Int) > 2
    · rw [if_neg h1, if_neg h2, if_pos h3]
    · rw [if_neg h1, if_neg h2, if_neg h3, if_pos (by omega)]

/-- The same for `map_fpga`, if no earlier line was given while the store had exactly one AIG. Partial: the property asks for the meaning of the
last line alone; with one AIG the command may turn its own option `--type` back to 0. -/
theorem C71_mapFpga_partial {gss : List (List (Nat × Nat))} {before : List (Nat × List Tok)} (hb : SaysAll mapFpga.opts gss before)
    (hone : ∀ l ∈ before, l.1 ≠ 1) {gs : List (Nat × Nat)} {ts : List Tok} (h : Says mapFpga.opts gs ts) (aigs : Nat) (ha : 0 < aigs) :
    mapFpga.called before aigs ts = mapFpgaDoc aigs (gss.flatten ++ gs) := by
  obtain ⟨ms, hl, hc, hm⟩ := members mapFpga wellNamed_mapFpga (fun a => a ≠ 1)
    (fun a ms => by
      simp only [mapFpga]
      split
      · repeat' split
        all_goals simp
      · rfl)
    (fun a h1 ms => by
      simp only [mapFpga]
      split
      · split
        · rfl
        · rename_i t _ h0
          rw [if_neg (c := t = 1 ∧ a < 2) (by omega)]
          repeat' split
          all_goals rfl
      · rfl) hb hone h aigs
  have h0 := hm 0 (10 : Nat) rfl
  have h1 := hm 1 (6 : Nat) rfl
  have h2 := hm 2 (1 : Nat) rfl
  have h3 := hm 3 (2 : Nat) rfl
  have h4 := hm 4 (0 : Nat) rfl
  rw [lastOf_meant] at h0 h1 h2 h3 h4
  rw [hc, six hl h0 h1 h2 h3 h4 (hm 5 0 rfl)]
  generalize gss.flatten ++ gs = G
  simp only [mapFpga, mapFpgaDoc, if_neg (Nat.pos_iff_ne_zero.1 ha)]
  generalize meant 0 10 G = p
  generalize meant 1 6 G = c
  generalize meant 2 1 G = g
  generalize meant 3 2 G = l
  generalize meant 4 0 G = t
  by_cases hp : 6 ≤ p ∧ p ≤ 20 ∧ 2 ≤ c ∧ c ≤ 6 ∧ 1 ≤ g ∧ g ≤ 2 ∧ 1 ≤ l ∧ l ≤ 3 ∧ t ≤ 1
  · rw [if_neg (by omega), if_neg (by omega), if_neg (by omega), if_neg (by omega), if_neg (by omega), if_pos hp]
    simp only [Int.toNat_natCast, Option.some.injEq, MapCall.mk.injEq, true_and]
    have : t = 0 ∨ t = 1 := by omega
    rcases this with rfl | rfl
    · simp
    · by_cases h2 : aigs < 2
      · simp [h2]
      · simp [h2, Nat.le_of_not_lt h2]
  · rw [if_neg hp]
    by_cases h1 : (p : Int) < 6 ∨ (p : Int) > 20
    · rw [if_pos h1]
    by_cases h2 : (c : Int) < 2 ∨ (c : Int) > 6
    · rw [if_neg h1, if_pos h2]
    by_cases h3 : (t : Int) ≠ 0 ∧ (t : Int) ≠ 1
    · rw [if_neg h1, if_neg h2, if_pos h3]
    by_cases h4 : (g : Int) < 1 ∨ (g : Int) > 2
    · rw [if_neg h1, if_neg h2, if_neg h3, if_pos h4]
    · rw [if_neg h1, if_neg h2, if_neg h3, if_neg h4, if_pos (by omega)]

example : mapFpga.called [(2, typed ["-C5", "--type", "1", "--priority_size=012", "-v"])] 3 (typed ["-C5", "--type", "1", "--priority_size=012", "-v"]) =
    some ⟨12, 5, 1, 2, true⟩ := by
  rw [C71_mapFpga_partial (List.Forall₂.cons says_example List.Forall₂.nil) (by simp) says_example 3 (by decide)]
  decide +kernel

/-- In a new shell the first line means what the help text of `refactor` and `map_fpga` says. Partial: only the first call of the command. -/
theorem C71_first_partial {gs : List (Nat × Nat)} {ts : List Tok} (aigs : Nat) (ha : 0 < aigs) :
    (Says refactor.opts gs ts → refactor.called [] aigs ts = refactorDoc gs) ∧
    (Says mapFpga.opts gs ts → mapFpga.called [] aigs ts = mapFpgaDoc aigs gs) :=
  ⟨fun h => C71_refactor_partial List.Forall₂.nil h aigs ha, fun h => C71_mapFpga_partial List.Forall₂.nil (by simp) h aigs ha⟩

example : mapFpga.called [] 1 (typed ["-C5", "--type", "1", "--priority_size=012", "-v"]) = some ⟨12, 5, 1, 2, false⟩ := by
  rw [(C71_first_partial 1 (by decide)).2 says_example]
  decide +kernel

/-! ### what is violated -/

/-- `rewrite` preserves levels in its first call exactly when the help text says that it does not, for every proper line within the ranges. -/
theorem C71_violated_level {gs : List (Nat × Nat)} {ts : List Tok} (h : Says rewrite.opts gs ts) {x : RewriteCall} (hx : rewriteDoc gs = some x) :
    ∃ y, rewrite.called [] 1 ts = some y ∧ y.preserveDepth ≠ x.preserveDepth := by
  have := C71_rewrite_partial (gss := []) List.Forall₂.nil h 1 (by decide)
  rw [List.flatten_nil, List.nil_append, hx] at this
  exact ⟨_, this, by simp⟩

example : rewrite.called [] 1 [] = some ⟨10, 4, false, false⟩ ∧ rewriteDoc [] = some ⟨10, 4, true, false⟩ := by decide +kernel

/-- A flag that has been given stays on: whatever is typed afterwards, every later call has it. -/
theorem C71_violated_off (l : Nat × List Tok) {gs : List (Nat × Nat)} (h : Says rewrite.opts gs l.2) (later : List (Nat × List Tok)) (aigs : Nat)
    (ts : List Tok) {x : RewriteCall} (hx : rewrite.called (l :: later) aigs ts = some x) :
    (gives gs 2 = true → x.preserveDepth = true) ∧ (gives gs 3 = true → x.zeroGain = true) := by
  have stay : ∀ (k : Nat) (o : Opt), rewrite.opts[k]? = some o → o.kind = .flag → ∀ (ls : List (Nat × List Tok)) (ms : List Int), ms[k]? = some 1 →
      (rewrite.after ls ms)[k]? = some 1 := by
    intro k o ho hk ls
    induction ls with
    | nil => intro ms h; exact h
    | cons l ls ih =>
      intro ms hm
      refine ih _ ?_
      unfold Command.line
      have := parse_flag ho hk l.2 hm
      dsimp only
      split
      · exact this
      · exact this
  obtain ⟨h1, -, h3⟩ := parse_says wellNamed_rewrite h (ms := register rewrite.opts) rfl
  have key : ∀ (k : Nat) (o : Opt), rewrite.opts[k]? = some o → o.kind = .flag → gives gs k = true →
      (parse rewrite.opts ts (rewrite.after (l :: later) (register rewrite.opts))).1[k]? = some 1 := by
    intro k o ho hk hg
    refine parse_flag ho hk _ ?_
    refine stay k o ho hk later _ ?_
    have hl : (rewrite.line l.1 l.2 (register rewrite.opts)).1 = (parse rewrite.opts l.2 (register rewrite.opts)).1 := by
      unfold Command.line
      dsimp only
      split <;> rfl
    have hr : (register rewrite.opts)[k]? = some 0 := by simp [register, ho, hk]
    rw [hl, h3 k 0 hr, lastOf_flag (spelled_flag h.1 ho hk), if_pos hg]
  unfold Command.called Command.line at hx
  dsimp only at hx
  split at hx
  · generalize hms : (parse rewrite.opts ts (rewrite.after (l :: later) (register rewrite.opts))).1 = ms at key hx
    dsimp only [rewrite] at hx
    split at hx
    · rename_i p c lv z v
      split at hx
      · exact absurd hx (by simp)
      · split at hx
        · exact absurd hx (by simp)
        · split at hx
          · exact absurd hx (by simp)
          · injection hx with hx
            subst hx
            refine ⟨fun hg => ?_, fun hg => ?_⟩
            · have := key 2 _ rfl rfl hg
              simp only [List.getElem?_cons_succ, List.getElem?_cons_zero, Option.some.injEq] at this
              simp [this]
            · have := key 3 _ rfl rfl hg
              simp only [List.getElem?_cons_succ, List.getElem?_cons_zero, Option.some.injEq] at this
              simp [this]
    · exact absurd hx (by simp)
  · exact absurd hx (by simp)

example : Says rewrite.opts [(3, 1)] (typed ["-z"]) ∧
    rewrite.called [(1, typed ["-z"]), (1, typed ["-P", "7"])] 1 [] = some ⟨7, 4, false, true⟩ := by
  refine ⟨⟨Spelled.cons (o := ⟨"zero_gain", 'z', .flag, 0⟩) (ts := typed ["-z"]) rfl (Written.flag rfl) Spelled.nil, ?_⟩, by decide +kernel⟩
  intro k o ho hk
  match k with
  | 0 | 1 | 2 | 3 | 4 => decide +kernel
  | k + 5 => exact absurd ho (by simp [rewrite])

/-- A value stays for later calls of the same command: the second line gives nothing, the text promises the default 6. -/
theorem C71_violated_sticky : mapFpga.called [(1, typed ["-C", "3"])] 1 [] = some ⟨10, 3, 1, 2, false⟩ ∧ mapFpgaDoc 1 [] = some ⟨10, 6, 1, 2, false⟩ := by
  decide +kernel

/-- A refused line leaves its values behind, whether the value is out of range or another argument is unknown: the next line without options is
refused, or runs with the value of the refused one. -/
theorem C71_violated_refused :
    mapFpga.called [] 1 (typed ["-C", "9"]) = none ∧ mapFpga.called [(1, typed ["-C", "9"])] 1 [] = none ∧
    mapFpga.called [] 1 (typed ["-C", "3", "-x"]) = none ∧ mapFpga.called [(1, typed ["-C", "3", "-x"])] 1 [] = some ⟨10, 3, 1, 2, false⟩ := by
  decide +kernel

/-- Numbers wrap round before the range check: 2^32 + 4 is accepted as 4; and letters after the number are ignored. -/
theorem C71_violated_wrap : rewrite.called [] 1 (typed ["-C", "4294967300"]) = some ⟨10, 4, false, false⟩ ∧
    rewrite.called [] 1 (typed ["-C", "3x"]) = some ⟨10, 3, false, false⟩ := by
  decide +kernel

/-- The default cut size of `lut_opt` is not the documented one. -/
theorem C71_violated_default : lutOpt.called [] 1 [] = some ⟨10, 6, 1, 2, false⟩ ∧ lutOptDoc [] = some ⟨10, 4, 1, 2, false⟩ := by
  decide +kernel

/-- `map_fpga` forgets `--type 1` when it is given with one AIG in the store, though other options stay. -/
theorem C71_violated_type : mapFpga.called [(1, typed ["-t", "1", "-C", "3"])] 2 [] = some ⟨10, 3, 1, 2, false⟩ := by
  decide +kernel

/-- `map_fpga -P 13` is documented and accepted, but the array of cuts has 12 places: whatever the costs, at a node with 12 cuts the mapper writes
behind the array. With `#eval` the model of the mapper gets there on a balanced AND of eight inputs with priority sizes 13 to 20, and not with 6 to 12. -/
theorem C71_violated_priority : ∃ x, mapFpga.called [] 1 (typed ["-P", "13"]) = some x ∧
    ∀ {β : Type} (h : Mapper.Heur β) (n : Nat) (s : Cuts.CutSet (Cuts.FData β)), s.Inv Cuts.maxCutNum → s.view.length = 12 →
      Cuts.finish (Mapper.cutParams x.ps.cut h) n s = none :=
  ⟨⟨13, 6, 1, 2, false⟩, by decide +kernel, fun h n s hi hs => Cuts.C21_violated_limit _ (show 12 < 13 by decide) n s hi hs⟩

/-- The parameters of `map_fpga` are those of the mapper in C38 and C69: what `Options.params` hands on for the same values. -/
example : (MapCall.ps ⟨12, 5, 1, 2, false⟩) = (Mapper.Options.params { prioritySize := 12, cutSize := 5 }).get (by decide) := by decide

end Verif.Cli.Opts
