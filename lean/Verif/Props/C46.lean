import Verif.Props.C47

set_option autoImplicit false

/-!
# C46: history snapshots survive later commands

Full statement: an AIG saved with `history --add` is what `map_fpga --type 1` later uses: later
optimisation commands do not change a saved snapshot, cleared snapshots are no longer used, and
reading a new design discards the old design's history.

The last part holds (`C46_read_discards`). The first part fails for commands that work in place: a
snapshot shares its storage with the current AIG until the next command that makes a new one
(`C46_violated_alias`, for every network and every such command). The second part fails because
`--clear` only moves the index (`C46_violated_clear`). `C46_partial` covers the sessions without
`--clear`, with at most five snapshots, in which no command changes a network in place while it is
both current and saved. `C46_second_optimize` shows that the sharing ends with one optimisation
command, whatever that is.
-/

namespace Verif.Cli

variable {α : Type}

/-- Specification of the shell: the current network, the saved snapshots in the order of saving,
and whether the current network has been saved since it was made. -/
structure Spec (α : Type) where
  cur : α
  saved : List α
  fresh : Bool

/-- The snapshot at position `i`, if there is one, is replaced by `a`. -/
def replaceAt (l : List α) (i : Int) (a : α) : List α :=
  if 0 ≤ i ∧ i < l.length then l.set i.toNat a else l

/-- What the commands should do. -/
def Spec.step (p : Spec α) : Cmd α → Spec α
  | .read a => { cur := a, saved := [], fresh := true }
  | .history add _ clear r =>
      let l := if add then p.saved ++ [p.cur] else p.saved
      let l := match r with
        | none => l
        | some i => replaceAt l i p.cur
      { p with saved := if clear then [] else l, fresh := p.fresh && !add && r.isNone }
  | .optimize f g => { cur := g (f p.cur), saved := p.saved, fresh := true }
  | .mapChoice => p

def Spec.run : Spec α → List (Cmd α) → Spec α
  | p, [] => p
  | p, c :: cs => Spec.run (p.step c) cs

/-- The commands covered by `C46_partial`. -/
def Spec.Allows (p : Spec α) : Cmd α → Prop
  | .read _ => False
  | .history add _ clear _ => clear = false ∧ (add = true → p.saved.length < 5)
  | .optimize f _ => p.fresh = true ∨ f p.cur = p.cur
  | .mapChoice => True

/-- The sessions covered by `C46_partial`. -/
def Spec.AllowsAll : Spec α → List (Cmd α) → Prop
  | _, [] => True
  | p, c :: cs => p.Allows c ∧ (p.step c).AllowsAll cs

/-- The shell `s` holds what the specification `p` says. -/
structure Holds (gates : α → Nat) (s : St α) (p : Spec α) : Prop where
  ready : Ready s p.saved.length
  slots : ∃ l c blanks, s.slots = l ++ [c] ∧ s.heap[c]? = some p.cur ∧
    l.map (s.heap[·]?) = (p.saved ++ blanks).map some ∧ (∀ b ∈ blanks, gates b = 0) ∧
    (p.fresh = true → c ∉ l)

theorem set_saved {β : Type} (saved blanks : List β) (a : β) (h : blanks ≠ []) :
    (saved ++ blanks).set saved.length a = saved ++ [a] ++ blanks.tail := by
  cases blanks with
  | nil => exact absurd rfl h
  | cons b bs => simp

theorem map_set' {β γ : Type} (l : List β) (i : Nat) (a : β) (f : β → γ) :
    (l.set i a).map f = (l.map f).set i (f a) := by
  rw [List.map_set]

theorem length_replaceAt (l : List α) (i : Int) (a : α) : (replaceAt l i a).length = l.length := by
  rw [replaceAt]
  split
  · exact List.length_set
  · rfl

theorem holds_history {gates : α → Nat} {s : St α} {p : Spec α} (h : Holds gates s p)
    (add size : Bool) (r : Option Int) (hk : add = true → p.saved.length < 5) (e : α) :
    ∃ s', step e gates s (.history add size false r) = some s' ∧
      Holds gates s' (p.step (.history add size false r)) := by
  obtain ⟨l, c, blanks, hl, hc, hm, hb, hfr⟩ := h.slots
  obtain ⟨s', e', r', hp', sl', -⟩ := history_ready h.ready add size false r hk e gates hl
  have hl5 : l.length = 5 := by have := h.ready.six; rw [hl] at this; simpa using this
  have hlen : p.saved.length + blanks.length = 5 := by
    have := congrArg List.length hm
    simp only [List.length_map, List.length_append] at this; omega
  -- after adding
  obtain ⟨blanks1, hm1, hb1⟩ : ∃ bl : List α,
      (if add then l.set p.saved.length c else l).map (s.heap[·]?) =
        ((if add then p.saved ++ [p.cur] else p.saved) ++ bl).map some ∧
      ∀ b ∈ bl, gates b = 0 := by
    cases hadd : add with
    | false => exact ⟨blanks, by simpa using hm, hb⟩
    | true =>
        have h5 := hk hadd
        have hne : blanks ≠ [] := by intro h0; rw [h0] at hlen; simp at hlen; omega
        refine ⟨blanks.tail, ?_, fun b hbm => hb b (List.mem_of_mem_tail hbm)⟩
        simp only [if_true]
        rw [map_set', hm, hc, ← map_set', set_saved _ _ _ hne]
  have hk1 : (if add then p.saved.length + 1 else p.saved.length) =
      (if add then p.saved ++ [p.cur] else p.saved).length := by split <;> simp
  have hcnt : (p.step (.history add size false r)).saved.length =
      (if add then p.saved.length + 1 else p.saved.length) := by
    rw [hk1]
    simp only [Spec.step, Bool.false_eq_true, if_false]
    cases r with
    | none => rfl
    | some i =>
        exact length_replaceAt _ _ _
  have hmem : ∀ j, j ∈ slotsAfter l c p.saved.length add r → j ∈ l ∨
      (j = c ∧ (add = true ∨ r ≠ none)) := by
    intro j hj
    have h1 : ∀ j, j ∈ (if add then l.set p.saved.length c else l) → j ∈ l ∨ (j = c ∧ add = true) := by
      intro j hj
      cases hadd : add with
      | false => rw [hadd] at hj; exact Or.inl (by simpa using hj)
      | true =>
          rw [hadd] at hj
          rcases List.mem_or_eq_of_mem_set (by simpa using hj) with h | h
          · exact Or.inl h
          · exact Or.inr ⟨h, rfl⟩
    rw [slotsAfter] at hj
    by_cases hcond : 0 ≤ r.getD (-1) ∧
        r.getD (-1) < (if add then p.saved.length + 1 else p.saved.length : Nat)
    · rw [if_pos hcond] at hj
      have hr : r ≠ none := by rintro rfl; simp at hcond
      rcases List.mem_or_eq_of_mem_set hj with h | h
      · rcases h1 j h with h | h
        · exact Or.inl h
        · exact Or.inr ⟨h.1, Or.inl h.2⟩
      · exact Or.inr ⟨h, Or.inr hr⟩
    · rw [if_neg hcond] at hj
      rcases h1 j hj with h | h
      · exact Or.inl h
      · exact Or.inr ⟨h.1, Or.inl h.2⟩
  refine ⟨s', e', ?_, slotsAfter l c p.saved.length add r, c, blanks1, sl', by rw [hp']; exact hc,
    ?_, hb1, ?_⟩
  · rw [hcnt]; simpa using r'
  · rw [hp', slotsAfter]
    simp only [Spec.step, Bool.false_eq_true, if_false]
    cases r with
    | none => rw [if_neg (by simp)]; exact hm1
    | some i =>
        simp only [Option.getD_some]
        rw [replaceAt, ← hk1]
        by_cases hi : 0 ≤ i ∧ i < ((if add then p.saved.length + 1 else p.saved.length : Nat) : Int)
        · rw [if_pos hi, if_pos hi, map_set', hm1, hc, ← map_set', List.set_append, if_pos]
          rw [← hk1]; omega
        · rw [if_neg hi, if_neg hi]; exact hm1
  · intro hf hcm
    simp only [Spec.step, Bool.and_eq_true, Bool.not_eq_true', Option.isNone_iff_eq_none] at hf
    rcases hmem c hcm with h | ⟨-, h | h⟩
    · exact hfr hf.1.1 h
    · rw [h] at hf; cases hf.1.2
    · exact h hf.2

theorem heap_keep {heap : List α} {c : Nat} {v x y : α} {l : List Nat}
    (hc : heap[c]? = some v) (hl : ∀ i ∈ l, i < heap.length) (h : c ∉ l ∨ x = v) :
    l.map ((heap.set c x ++ [y])[·]?) = l.map (heap[·]?) := by
  apply List.map_congr_left
  intro i hi
  have hi' := hl i hi
  rw [List.getElem?_append_left (by simpa using hi'), List.getElem?_set]
  by_cases hci : c = i
  · subst hci
    rcases h with h | h
    · exact absurd hi h
    · rw [if_pos rfl, if_pos hi', hc, h]
  · rw [if_neg hci]

theorem holds_optimize {gates : α → Nat} {s : St α} {p : Spec α} (h : Holds gates s p)
    (f g : α → α) (hok : p.fresh = true ∨ f p.cur = p.cur) (e : α) :
    ∃ s', step e gates s (.optimize f g) = some s' ∧ Holds gates s' (p.step (.optimize f g)) := by
  obtain ⟨l, c, blanks, hl, hc, hm, hb, hfr⟩ := h.slots
  have hg : s.slots.getLast? = some c := by rw [hl]; simp
  obtain ⟨s', e', r'⟩ := optimize_ready h.ready f g e gates
  have he : step e gates s (.optimize f g) = some { s with
      heap := s.heap.set c (f p.cur) ++ [g (f p.cur)]
      slots := s.slots.dropLast ++ [s.heap.length] } := by
    rw [step]; exact execOptimize_ok f g hg hc
  rw [he] at e'
  obtain rfl := Option.some.inj e'
  have hll : ∀ i ∈ l, i < s.heap.length := fun i hi => h.ready.addr i (by rw [hl]; simp [hi])
  refine ⟨_, he, r', l, s.heap.length, blanks, ?_, ?_, ?_, hb, ?_⟩
  · simp [hl]
  · simp [Spec.step]
  · refine (heap_keep hc hll ?_).trans hm
    rcases hok with hok | hok
    · exact Or.inl (hfr hok)
    · exact Or.inr hok
  · intro _ hin
    have := hll _ hin; omega

theorem mapM_of_map {heap : List α} : ∀ {l : List Nat} {vs : List α},
    l.map (heap[·]?) = vs.map some → l.mapM (heap[·]?) = some vs
  | [], [], _ => rfl
  | [], v :: vs, h => by simp at h
  | i :: l, [], h => by simp at h
  | i :: l, v :: vs, h => by
      simp only [List.map_cons, List.cons.injEq] at h
      rw [List.mapM_cons, h.1, mapM_of_map h.2]; rfl

theorem holds_map {gates : α → Nat} {s : St α} {p : Spec α} (h : Holds gates s p) (e : α) :
    ∃ s', step e gates s .mapChoice = some s' ∧ Holds gates s' p ∧
      s'.out = s.out ++ [Event.mapped (p.saved.reverse.filter fun a => decide (gates a > 0))] := by
  obtain ⟨l, c, blanks, hl, hc, hm, hb, hfr⟩ := h.slots
  have hne : s.slots ≠ [] := by rw [hl]; simp
  have hv : s.slots.dropLast.reverse.mapM (s.heap[·]?) = some (p.saved ++ blanks).reverse := by
    apply mapM_of_map
    rw [hl, List.dropLast_concat, List.map_reverse, hm, List.map_reverse]
  have hs := execMap_ok gates hne hv
  refine ⟨_, hs, ⟨?_, l, c, blanks, hl, hc, hm, hb, hfr⟩, ?_⟩
  · exact ⟨h.ready.six, h.ready.index, h.ready.le, h.ready.addr, h.ready.cclear, h.ready.csize,
      h.ready.cadd, h.ready.replace⟩
  · have hbl : blanks.reverse.filter (fun a => decide (gates a > 0)) = [] := by
      rw [List.filter_eq_nil_iff]
      intro b hbm
      have := hb b (List.mem_reverse.1 hbm)
      simp [this]
    simp only [List.reverse_append, List.filter_append, hbl, List.nil_append]

theorem holds_run {gates : α → Nat} (e : α) : ∀ (cs : List (Cmd α)) {s : St α} {p : Spec α},
    Holds gates s p → p.AllowsAll cs → ∃ s', run e gates s cs = some s' ∧ Holds gates s' (p.run cs)
  | [], s, p, h, _ => ⟨s, rfl, h⟩
  | .read _ :: _, _, _, _, hf => hf.1.elim
  | .history add size clear r :: cs, s, p, h, hf => by
      obtain ⟨⟨rfl, hk⟩, hf⟩ := hf
      obtain ⟨s1, e1, h1⟩ := holds_history h add size r hk e
      obtain ⟨s2, e2, h2⟩ := holds_run e cs h1 hf
      exact ⟨s2, by rw [run, e1]; exact e2, h2⟩
  | .optimize f g :: cs, s, p, h, hf => by
      obtain ⟨s1, e1, h1⟩ := holds_optimize h f g hf.1 e
      obtain ⟨s2, e2, h2⟩ := holds_run e cs h1 hf.2
      exact ⟨s2, by rw [run, e1]; exact e2, h2⟩
  | .mapChoice :: cs, s, p, h, hf => by
      obtain ⟨s1, e1, h1, -⟩ := holds_map h e
      obtain ⟨s2, e2, h2⟩ := holds_run e cs h1 hf.2
      exact ⟨s2, by rw [run, e1]; exact e2, h2⟩

theorem read_heap (h : List α) (e a : α) :
    ((List.range 5).map (h.length + ·)).map ((h ++ [e, e, e, e, e, a])[·]?) =
      [some e, some e, some e, some e, some e] := by
  simp [List.range_succ]

theorem range_six (n : Nat) :
    (List.range 6).map (n + ·) = (List.range 5).map (n + ·) ++ [n + 5] := by
  simp [List.range_succ]

/-- C46 for sessions that read one design, save at most five snapshots, do not clear the history,
and change no network in place while it is both current and saved: no command fails, and
`map_fpga --type 1` uses exactly the saved snapshots that have a gate, each as it was when it was
saved. `e` is the default-constructed network, which has no gates. -/
theorem C46_partial (e : α) (gates : α → Nat) (he : gates e = 0) (a : α) (cs : List (Cmd α))
    (hcs : Spec.AllowsAll { cur := a, saved := [], fresh := true } cs) :
    ∃ s s', run e gates init (.read a :: cs) = some s ∧ step e gates s .mapChoice = some s' ∧
      s'.out = s.out ++ [Event.mapped
        ((Spec.run { cur := a, saved := [], fresh := true } cs).saved.reverse.filter
          fun x => decide (gates x > 0))] := by
  have h0 : Holds gates (execRead e init a) { cur := a, saved := [], fresh := true } := by
    refine ⟨read_ready e a, (List.range 5).map ((0 : Nat) + ·), 5, [e, e, e, e, e], ?_, ?_, ?_, ?_, ?_⟩
    · simp [execRead, init, List.range_succ]
    · simp [execRead, init]
    · simp [execRead, init, List.range_succ]
    · intro b hb
      simp only [List.mem_cons, List.not_mem_nil, or_false, or_self] at hb
      rw [hb]; exact he
    · intro _; decide
  obtain ⟨s, es, hs⟩ := holds_run e cs h0 hcs
  obtain ⟨s', e', -, o'⟩ := holds_map hs e
  exact ⟨s, s', by rw [run, step, Option.bind_some]; exact es, e', o'⟩

/-- A session that saves three snapshots, one of them replaced, with `balance`-like and
`rewrite`-like commands between. Networks are numbers of gates. -/
example : Spec.AllowsAll (α := Nat) { cur := 9, saved := [], fresh := true }
      [.history true false false none, .optimize id (· - 1), .optimize (· - 1) id,
        .history true false false none, .mapChoice, .history true true false (some 0),
        .optimize id (· - 2), .history false false false (some 1)] ∧
    (Spec.run (α := Nat) { cur := 9, saved := [], fresh := true }
      [.history true false false none, .optimize id (· - 1), .optimize (· - 1) id,
        .history true false false none, .mapChoice, .history true true false (some 0),
        .optimize id (· - 2), .history false false false (some 1)]).saved = [7, 5, 7] := by
  constructor
  · simp [Spec.AllowsAll, Spec.Allows, Spec.step, replaceAt]
  · decide

/-- Reading a design discards the history of the old one: whatever the state of the shell was,
`map_fpga --type 1` right after `read_aiger` uses no AIG at all. -/
theorem C46_read_discards (e : α) (gates : α → Nat) (he : gates e = 0) (s : St α) (a : α) :
    ∃ s1 s2, step e gates s (.read a) = some s1 ∧ step e gates s1 .mapChoice = some s2 ∧
      s2.out = s.out ++ [Event.mapped []] := by
  have hv : (execRead e s a).slots.dropLast.reverse.mapM ((execRead e s a).heap[·]?) =
      some [e, e, e, e, e] := by
    apply mapM_of_map
    rw [execRead]
    dsimp only
    rw [range_six, List.dropLast_concat, List.map_reverse, read_heap]
    rfl
  have hs := execMap_ok gates (by simp [execRead]) hv
  refine ⟨_, _, rfl, hs, ?_⟩
  simp [he, execRead]

/-- After one optimisation command, another one can no longer change what any history slot
holds. -/
theorem C46_second_optimize (e : α) (gates : α → Nat) {s s1 s2 : St α} (f g f' g' : α → α)
    (haddr : ∀ i ∈ s.slots, i < s.heap.length)
    (h1 : step e gates s (.optimize f g) = some s1) (h2 : step e gates s1 (.optimize f' g') = some s2) :
    s2.slots.dropLast.map (s2.heap[·]?) = s1.slots.dropLast.map (s1.heap[·]?) := by
  by_cases h0 : s.slots = []
  · rw [step, execOptimize, if_pos h0] at h1
    obtain rfl := Option.some.inj h1
    rw [step, execOptimize, if_pos h0] at h2
    obtain rfl := Option.some.inj h2
    rfl
  · obtain ⟨l, c, hl⟩ : ∃ l c, s.slots = l ++ [c] := ⟨_, _, (List.dropLast_concat_getLast h0).symm⟩
    have hg : s.slots.getLast? = some c := by rw [hl]; simp
    have hcl := haddr c (by rw [hl]; simp)
    obtain ⟨v, hv⟩ : ∃ v, s.heap[c]? = some v := ⟨_, List.getElem?_eq_getElem hcl⟩
    rw [step, execOptimize_ok f g hg hv] at h1
    obtain rfl := Option.some.inj h1
    rw [step, execOptimize_ok (c := s.heap.length) (v := g (f v)) f' g' (by simp) (by simp)] at h2
    obtain rfl := Option.some.inj h2
    simp only [List.dropLast_concat]
    refine heap_keep (v := g (f v)) (by simp) ?_ (Or.inl ?_)
    · intro i hi
      have := haddr i (List.dropLast_subset _ hi)
      simp; omega
    · intro hi
      have := haddr _ (List.dropLast_subset _ hi)
      omega

/-- The hypothesis on the addresses holds after any session that starts with a read. -/
example : ∀ i ∈ (execRead (0 : Nat) init 7).slots, i < (execRead (0 : Nat) init 7).heap.length := by
  decide

/-- The first part of C46 fails for every network and every command that works in place: after
`read_aiger`, `history --add` and a command changing the current storage from `a` to `f a`,
`map_fpga --type 1` uses `f a`, not the `a` that was saved. -/
theorem C46_violated_alias (e : α) (gates : α → Nat) (he : gates e = 0) (a : α) (f g : α → α)
    (hf : gates (f a) > 0) :
    ∃ s, run e gates init [.read a, .history true false false none, .optimize f g, .mapChoice] =
        some s ∧ s.out = [Event.mapped [f a]] := by
  simp [run, step, execRead, init, execHistory, execAdd, put, execReplace, execEnd, execOptimize,
    execMap, List.range_succ, he, hf]

/-- Concretely, with networks given by their number of gates and a command that leaves one gate more
behind in the storage it works on, as `rewrite` does when it tries a replacement. -/
example : (run (α := Nat) 0 id init
    [.read 7, .history true false false none, .optimize (· + 1) (· - 2), .mapChoice]).map (·.out) =
    some [Event.mapped [8]] := by
  decide +kernel

/-- The second part of C46 fails: a cleared snapshot is still used. -/
theorem C46_violated_clear :
    (run (α := Nat) 0 id init
      [.read 7, .history true false false none, .history false true true none, .mapChoice]).map
        (·.out) = some [Event.size 0, Event.mapped [7]] := by
  decide +kernel

end Verif.Cli
