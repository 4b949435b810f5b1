import Verif.Io.Ports
import Mathlib.Data.List.Perm.Basic
import Mathlib.Data.List.Nodup

set_option autoImplicit false

/-!
# C54: port names read from a file end up on their ports

The claim — every named port of a file gets its own name — holds for files that name all inputs and outputs
(`C54_named_partial`). It fails for files that name only some (`C54_violated_shift`), and for an unnamed input that drives
a named output or the data input of a register directly the reader reads outside a vector (`C54_violated_output`,
`C54_violated_latch`).
-/

namespace Verif.Io

theorem insert_apply (m : NameMap) (s k : Sig) (name : Text) (h : name ≠ []) :
    m.insert s name k = m k ++ (if k = s then [name] else []) := by
  unfold NameMap.insert
  rw [if_neg h]
  by_cases hk : k = s
  · subst hk; simp
  · simp [hk]

/-- the names given to `k` -/
def namesOf (E : List (Sig × Text)) (k : Sig) : List Text := (E.filter fun p => decide (p.1 = k)).map (·.2)

theorem namesOf_append (E F : List (Sig × Text)) (k : Sig) : namesOf (E ++ F) k = namesOf E k ++ namesOf F k := by
  simp [namesOf]

theorem namesOf_cons (p : Sig × Text) (E : List (Sig × Text)) (k : Sig) :
    namesOf (p :: E) k = (if k = p.1 then [p.2] else []) ++ namesOf E k := by
  by_cases h : k = p.1
  · subst h; simp [namesOf]
  · have : ¬ p.1 = k := fun e => h e.symm
    simp [namesOf, h, this]

theorem insertOuts_apply (k : Sig) : ∀ (E : List (Sig × Text)) (m : NameMap), (∀ p ∈ E, p.2 ≠ []) →
    insertOuts E m k = m k ++ namesOf E k := by
  intro E
  induction E with
  | nil => intro m _; simp [insertOuts, namesOf]
  | cons p E ih =>
    intro m h
    obtain ⟨s, name⟩ := p
    rw [insertOuts, ih _ (fun q hq => h q (by simp [hq])), insert_apply _ _ _ _ (h (s, name) (by simp)), namesOf_cons, List.append_assoc]

/-- the signal of input `i` -/
def inSig (inputs : List Nat) (i : Nat) : Sig := ⟨inputs[i]?.getD 0, false⟩

theorem insertLines_apply (inputs : List Nat) : ∀ (E : List (Nat × Text)) (m : NameMap), (∀ p ∈ E, p.2 ≠ [] ∧ p.1 < inputs.length) →
    ∃ m', insertLines inputs E m = some m' ∧ ∀ k, m' k = m k ++ namesOf (E.map fun p => (inSig inputs p.1, p.2)) k := by
  intro E
  induction E with
  | nil => intro m _; exact ⟨m, rfl, fun k => by simp [namesOf]⟩
  | cons p E ih =>
    intro m h
    obtain ⟨i, name⟩ := p
    obtain ⟨h1, h2⟩ := h (i, name) (by simp)
    have hi : inputs[i]? = some inputs[i] := List.getElem?_eq_getElem h2
    obtain ⟨m', e, hm⟩ := ih (m.insert ⟨inputs[i], false⟩ name) (fun q hq => h q (by simp [hq]))
    refine ⟨m', by rw [insertLines, hi]; exact e, fun k => ?_⟩
    rw [hm, insert_apply _ _ _ _ h1, List.map_cons, namesOf_cons, List.append_assoc]
    simp [inSig, hi]

/-- reading the names of `R` in order, when `m` lists the names of every signal in the order of `pre ++ R ++ post` -/
theorem portNames_spec (m : NameMap) : ∀ (R pre post : List (Sig × Text)) (cnt : Sig → Nat), (∀ p ∈ R, p.2 ≠ []) →
    (∀ k, m k = namesOf (pre ++ R ++ post) k) → (∀ k, cnt k = (namesOf pre k).length) →
    ∃ cnt', portNames m (R.map (·.1)) cnt = some (R.map fun p => toEscaped p.2, cnt') ∧ ∀ k, cnt' k = (namesOf (pre ++ R) k).length := by
  intro R
  induction R with
  | nil => intro pre post cnt _ _ hc; exact ⟨cnt, rfl, fun k => by simp [hc]⟩
  | cons p R ih =>
    intro pre post cnt hne hm hc
    obtain ⟨s, name⟩ := p
    have hs : m s = namesOf pre s ++ name :: namesOf (R ++ post) s := by
      rw [hm, List.append_assoc, List.cons_append, namesOf_append, namesOf_cons]
      simp
    have hget : (m s)[cnt s]? = some name := by
      rw [hs, hc, List.getElem?_append_right (Nat.le_refl _)]
      simp
    have hnm : m s ≠ [] := by rw [hs]; simp
    obtain ⟨cnt', e, hc'⟩ := ih (pre ++ [(s, name)]) post (fun k => if k = s then cnt s + 1 else cnt k)
      (fun q hq => hne q (by simp [hq])) (fun k => by rw [hm]; simp) (fun k => by
        rw [namesOf_append, namesOf_cons, List.length_append, ← hc]
        by_cases hk : k = s
        · subst hk; simp [namesOf]
        · simp [hk, namesOf])
    refine ⟨cnt', ?_, fun k => by rw [hc']; simp⟩
    rw [List.map_cons, portNames, if_neg hnm, hget]
    dsimp only
    rw [e]
    simp [hne (s, name) (by simp)]

theorem namesOf_perm_nodup {E F : List (Sig × Text)} (h : E.Perm F) (hd : (F.map (·.1)).Nodup) (k : Sig) : namesOf E k = namesOf F k := by
  have hp : (E.filter fun p => decide (p.1 = k)).Perm (F.filter fun p => decide (p.1 = k)) := h.filter _
  have hl : (F.filter fun p => decide (p.1 = k)).length ≤ 1 := by
    induction F generalizing E with
    | nil => simp
    | cons p F ih =>
      have hd' := hd
      rw [List.map_cons, List.nodup_cons] at hd
      by_cases hk : p.1 = k
      · have : F.filter (fun p => decide (p.1 = k)) = [] := by
          rw [List.filter_eq_nil_iff]
          intro q hq he
          apply hd.1
          rw [hk, ← of_decide_eq_true he]
          exact List.mem_map_of_mem hq
        rw [List.filter_cons, if_pos (by simpa using hk), this]
        simp
      · rw [List.filter_cons, if_neg (by simpa using hk)]
        exact ih (List.Perm.refl F) hd.2 (List.Perm.refl _)
  unfold namesOf
  congr 1
  cases hF : F.filter (fun p => decide (p.1 = k)) with
  | nil => rw [hF] at hp; exact List.Perm.eq_nil hp
  | cons q l =>
    rw [hF] at hl hp
    have : l = [] := by
      cases l with
      | nil => rfl
      | cons _ _ => simp at hl
    subst this
    exact List.perm_singleton.1 hp

/-- C54 for files whose symbol table names all inputs, registers and outputs (in any order of lines, whatever the
outputs and the registers are driven by): the input names are the given names in the order of the inputs, the output
names those of the outputs followed by those of the registers with `_next` — all as Verilog identifiers. -/
theorem C54_named_partial (f : Symbols) (hd : f.inputs.Nodup) (nm : Nat → Text) (hnm : ∀ i, i < f.inputs.length → nm i ≠ [])
    (hlines : f.inLines.Perm ((List.range f.inputs.length).map fun i => (i, nm i))) (houts : ∀ p ∈ f.outs, p.2 ≠ []) :
    f.ports = some ((List.range f.inputs.length).map (fun i => toEscaped (nm i)),
      (f.outs.map fun p => toEscaped p.2) ++ f.latches.map fun p => toEscaped (p.2 ++ "_next".toList)) := by
  have hE : ∀ p ∈ f.inLines, p.2 ≠ [] ∧ p.1 < f.inputs.length := by
    intro p hp
    obtain ⟨i, hi, rfl⟩ := List.mem_map.1 (hlines.mem_iff.1 hp)
    have := List.mem_range.1 hi
    exact ⟨hnm i this, this⟩
  obtain ⟨m1, e1, hm1⟩ := insertLines_apply f.inputs f.inLines (fun _ => []) hE
  generalize hO : f.outs ++ f.latches.map (fun p => (p.1, p.2 ++ "_next".toList)) = O
  generalize hI : (List.range f.inputs.length).map (fun i => (inSig f.inputs i, nm i)) = I
  have hOne : ∀ p ∈ O, p.2 ≠ [] := by
    intro p hp
    rw [← hO, List.mem_append] at hp
    rcases hp with hp | hp
    · exact houts p hp
    · obtain ⟨q, _, rfl⟩ := List.mem_map.1 hp
      simp
  have hIne : ∀ p ∈ I, p.2 ≠ [] := by
    intro p hp
    rw [← hI] at hp
    obtain ⟨i, hi, rfl⟩ := List.mem_map.1 hp
    exact hnm i (List.mem_range.1 hi)
  have hperm : (f.inLines.map fun p => (inSig f.inputs p.1, p.2)).Perm I := by
    have := hlines.map (fun p => (inSig f.inputs p.1, p.2))
    rw [List.map_map] at this
    rw [← hI]
    exact this
  have hIfst : I.map (·.1) = f.inputs.map fun n => (⟨n, false⟩ : Sig) := by
    rw [← hI, List.map_map]
    apply List.ext_getElem (by simp)
    intro i h1 h2
    have : i < f.inputs.length := by simpa using h2
    simp [inSig, this]
  have hInd : (I.map (·.1)).Nodup := by
    rw [hIfst]
    exact List.Nodup.map (fun a b h => by injection h) hd
  have hm : ∀ k, insertOuts O m1 k = namesOf (I ++ O) k := by
    intro k
    rw [insertOuts_apply k O m1 hOne, hm1, namesOf_append, namesOf_perm_nodup hperm hInd]
    simp
  obtain ⟨c1, r1, hc1⟩ := portNames_spec (insertOuts O m1) I [] O (fun _ => 0) hIne (by simpa using hm) (by simp [namesOf])
  obtain ⟨c2, r2, _⟩ := portNames_spec (insertOuts O m1) O I [] c1 hOne (by simpa using hm) (by simpa using hc1)
  have hOfst : O.map (·.1) = (f.outs ++ f.latches).map (·.1) := by
    rw [← hO]
    simp [List.map_map, Function.comp_def]
  rw [hIfst] at r1
  rw [hOfst] at r2
  unfold Symbols.ports Symbols.nameMap
  rw [e1]
  dsimp only
  rw [hO, r1]
  dsimp only
  rw [r2]
  dsimp only
  congr 2
  · rw [← hI, List.map_map]; rfl
  · rw [← hO, List.map_append, List.map_map]; rfl

/-- Two inputs and a register; the lines of the symbol table come in another order, output 0 is an input. -/
example : (⟨[1, 2, 3], [(2, ['r']), (0, ['a']), (1, "b1".toList)], [(⟨1, false⟩, ['y']), (⟨4, true⟩, ['z'])], [(⟨2, false⟩, ['r'])]⟩ : Symbols).ports =
    some ([['a'], "\\b1 ".toList, ['r']], [['y'], ['z'], "r_next".toList]) := by decide

/-- Files without a symbol table and without registers give no names. -/
theorem C54_unnamed (inputs : List Nat) (outs : List Sig) :
    (⟨inputs, [], outs.map fun s => (s, []), []⟩ : Symbols).ports = some ([], []) := by
  have hm : ∀ (outs : List Sig), insertOuts (outs.map fun s => (s, ([] : Text))) (fun _ => []) = fun _ => [] := by
    intro outs
    induction outs with
    | nil => rfl
    | cons s l ih => rw [List.map_cons, insertOuts]; simpa [NameMap.insert] using ih
  have hp : ∀ (l : List Sig) (cnt : Sig → Nat), portNames (fun _ => []) l cnt = some ([], cnt) := by
    intro l
    induction l with
    | nil => intro cnt; rfl
    | cons s l ih => intro cnt; rw [portNames, if_pos rfl, ih]
  simp [Symbols.ports, Symbols.nameMap, insertLines, hm, hp]

/-- The file names the output but not the input that drives it: the input takes the name, the output reads the second
entry of a vector with one entry. -/
theorem C54_violated_output : (⟨[1], [], [(⟨1, false⟩, ['y'])], []⟩ : Symbols).ports = none := by decide

/-- A file without symbol table in which an input drives a register: the register input is named `_next` and the same
happens. -/
theorem C54_violated_latch : (⟨[1, 2], [], [(⟨2, false⟩, [])], [(⟨1, false⟩, [])]⟩ : Symbols).ports = none := by decide

/-- A file that names the second input and the second output only: both names become the first ones. -/
theorem C54_violated_shift : (⟨[1, 2], [(1, ['b'])], [(⟨1, true⟩, []), (⟨2, true⟩, ['z'])], []⟩ : Symbols).ports =
    some ([['b']], [['z']]) := by decide

end Verif.Io
