import Verif.Sim.PartialProof

set_option autoImplicit false

/-!
# C77: simulation with patterns that are added over time

Specification: `v p` is the valuation of all nodes under pattern `p`; the row of a node under the first `l`
patterns is the list of its values `v 0 n, …, v (l - 1) n` (`row`).  A map of values is right if each of its
values is such a row.
-/

namespace Verif.PSim

open Verif Verif.Aig

/-- `v` is the valuation of the nodes of `N` under each pattern of the simulator: it respects the constant
and the gates, and the rows of the simulator are the rows of the inputs. -/
structure Meaning (N : Aig) (S : Simulator) (v : Nat → Nat → Bool) : Prop where
  models : ∀ p < S.bits, N.Models (v p)
  rows : ∀ (k n : Nat), N.inputs[k]? = some n → S.patterns[k]? = some (row v n S.bits)

/-- Such a valuation exists whenever every input has a row of the right length. -/
theorem meaning_exists {N : Aig} (hN : Built N) (S : Simulator)
    (h : ∀ k < N.inputs.length, ∃ t, S.patterns[k]? = some t ∧ t.length = S.bits) :
    ∃ v, Meaning N S v := by
  have hw := hN.wf
  refine ⟨fun p => N.value fun k => match S.patterns[k]? with
    | some t => (match t[p]? with
      | some b => b
      | none => false)
    | none => false, fun p _ => (hw.consistent_value _).models, fun k n hk => ?_⟩
  obtain ⟨t, ht, hl⟩ := h k (lt_of_getElem? hk)
  rw [ht]
  congr 1
  apply List.ext_getElem (by simp [hl])
  intro p h1 h2
  simp only [row, List.getElem_map, List.getElem_range]
  rw [(hw.consistent_value _).input k n hk]
  simp only [ht, List.getElem?_eq_getElem h1]

/-- The values of the map are rows, and each row reaches the last block of 64 patterns: of `l` patterns
with `64 * ((bits - 1) / 64) ≤ l ≤ bits`. -/
def UpToBlock (N : Aig) (S : Simulator) (v : Nat → Nat → Bool) (m : Map) : Prop :=
  ∀ (n : Nat) (t : Tab), n < N.nodes.length → m n = some t →
    ∃ l, t = row v n l ∧ 64 * ((S.bits - 1) / 64) ≤ l ∧ l ≤ S.bits

/-- If the constant node has the row for all patterns, then so have the inputs. -/
def InputsFollow (N : Aig) (S : Simulator) (v : Nat → Nat → Bool) (m : Map) : Prop :=
  m 0 = some (row v 0 S.bits) → ∀ n ∈ N.inputs, m n = some (row v n S.bits)

/-- **C77, resizing.**  A resized table has the wanted number of bits, keeps the bits it had before, and
the others are zero. -/
theorem C77_resize (t : Tab) (l : Nat) : (resize t l).length = l ∧
    ∀ p < l, (resize t l)[p]? = some (if h : p < t.length then t[p] else false) := by
  refine ⟨by simp [resize]; omega, fun p hp => ?_⟩
  unfold resize
  by_cases h : p < t.length
  · rw [List.getElem?_append_left (by simp; omega), dif_pos h]
    simp [hp, h]
  · rw [List.getElem?_append_right (by simp; omega), dif_neg h,
      List.getElem?_replicate, if_pos (by simp; omega)]

example : resize [true, false, true] 2 = [true, false] ∧ resize [true] 3 = [true, false, false] := by decide

/-- **C77, one node.**  For a network without registers and at least one pattern: if the stored values are
rows that reach the last block, then `simulate_node` gives the node its row for all patterns, and every
other stored value stays or becomes the row for all patterns. -/
theorem C77_node_partial {N : Aig} (hN : Built N) (hp : N.numPis = N.inputs.length) {S : Simulator}
    (hb : 0 < S.bits) {v : Nat → Nat → Bool} (hv : Meaning N S v) {m : Map} (hm : UpToBlock N S v m)
    (hi : InputsFollow N S v m) {n : Nat} (hn : n < N.nodes.length) :
    ∃ m', simulateNode N S n m = some m' ∧ m' n = some (row v n S.bits) ∧
      UpToBlock N S v m' ∧ m' 0 = some (row v 0 S.bits) ∧ InputsFollow N S v m' ∧
      ∀ (k : Nat) (t : Tab), m k = some t → k < N.nodes.length →
        m' k = some t ∨ m' k = some (row v k S.bits) := by
  have hw := hN.wf
  have hls := Nat.le_of_lt (lastStart_lt hb)
  unfold simulateNode
  dsimp only
  by_cases h0 : m 0 = some (row v 0 S.bits)
  · rw [get_eq h0, if_neg (by simp), set_eq h0]
    obtain ⟨m', e, u, f⟩ := visitNode_spec hw hb hv.models hn hm ⟨h0, hi h0⟩
    exact ⟨m', e, f, u.kept hm hls, u.full h0, fun _ => (u.ready (N := N) ⟨h0, hi h0⟩).2,
      fun k t hk _ => by rw [← hk]; exact u k⟩
  · have hne : (get m 0).length ≠ S.bits := by
      cases hm0 : m 0 with
      | none => simp [get, hm0]; omega
      | some t =>
        obtain ⟨l, rfl, -, -⟩ := hm 0 t hw.pos hm0
        intro e
        rw [get_eq hm0] at e
        exact h0 (by rw [hm0, row_inj e])
    rw [if_pos hne]
    obtain ⟨m1, e1, r1, o1⟩ := updateConstPi_spec (v := v) hw hp (fun p hp => (hv.models p hp).const)
      hv.rows (set m 0 (get m 0))
    rw [e1]
    have o2 : ∀ k, k ≠ 0 → k ∉ N.inputs → m1 k = m k := fun k h0 hki => by
      rw [o1 k h0 hki, set_other _ _ h0]
    have k1 : Kept N v S.bits m1 := kept_update r1 hls (fun n t hn _ _ ht => hm n t hn ht) o2
    obtain ⟨m', e, u, f⟩ := visitNode_spec hw hb hv.models hn k1 r1
    refine ⟨m', e, f, u.kept k1 hls, u.full r1.1, fun _ => (u.ready r1).2, fun k t hk hkl => ?_⟩
    by_cases hk0 : k = 0
    · subst hk0; exact Or.inr (u.full r1.1)
    by_cases hki : k ∈ N.inputs
    · exact Or.inr (u.full (r1.2 k hki))
    rcases u k with e | e
    · left; rw [e, o2 k hk0 hki, hk]
    · exact Or.inr e

/-- **C77, all nodes at once.**  For a network without registers whose gates have no values yet,
`simulate_nodes` with `simulate_whole_tt` gives every node its row for all patterns. -/
theorem C77_whole_partial {N : Aig} (hN : Built N) (hp : N.numPis = N.inputs.length) {S : Simulator}
    (hb : 0 < S.bits) {v : Nat → Nat → Bool} (hv : Meaning N S v) {m : Map}
    (hm : ∀ n a b, N.IsGate n a b → m n = none) :
    ∃ m', simulateNodes N S true m = some m' ∧ ∀ n < N.nodes.length, m' n = some (row v n S.bits) := by
  have hw := hN.wf
  obtain ⟨m1, e1, r1, o1⟩ := updateConstPi_spec (v := v) hw hp (fun p hp => (hv.models p hp).const)
    hv.rows m
  obtain ⟨m', e, u, h⟩ := simWhole_spec hw hb hv.models N.gates m1 (fun n hn => (hw.mem_gates n).1 hn) r1
    (fun n t hn ht => by
      by_cases h0 : n = 0
      · subst h0; rw [r1.1] at ht; cases ht; rfl
      by_cases hi : n ∈ N.inputs
      · rw [r1.2 n hi] at ht; cases ht; rfl
      obtain ⟨a, b, g⟩ := isGate_of_not_input hw hn h0 hi
      rw [o1 n h0 hi, hm n a b g] at ht; cases ht)
  refine ⟨m', by unfold simulateNodes; rw [e1]; simpa using e, fun n hn => ?_⟩
  by_cases h0 : n = 0
  · subst h0; exact u.full r1.1
  by_cases hi : n ∈ N.inputs
  · exact u.full (r1.2 n hi)
  exact h n ((hw.mem_gates n).2 (isGate_of_not_input hw hn h0 hi))

/-- **C77, the last block of all nodes.**  For a network without registers in which every gate has a row
that reaches the last block, `simulate_nodes` without `simulate_whole_tt` gives every node its row for all
patterns. -/
theorem C77_last_partial {N : Aig} (hN : Built N) (hp : N.numPis = N.inputs.length) {S : Simulator}
    (hb : 0 < S.bits) {v : Nat → Nat → Bool} (hv : Meaning N S v) {m : Map}
    (hm : ∀ n a b, N.IsGate n a b →
      ∃ l, m n = some (row v n l) ∧ 64 * ((S.bits - 1) / 64) ≤ l ∧ l ≤ S.bits) :
    ∃ m', simulateNodes N S false m = some m' ∧ ∀ n < N.nodes.length, m' n = some (row v n S.bits) := by
  have hw := hN.wf
  have hls := Nat.le_of_lt (lastStart_lt hb)
  obtain ⟨m1, e1, r1, o1⟩ := updateConstPi_spec (v := v) hw hp (fun p hp => (hv.models p hp).const)
    hv.rows m
  have hg0 : ∀ {n a b}, N.IsGate n a b → m1 n = m n := fun g => o1 _ g.1 g.2.1
  obtain ⟨m', e, u, h⟩ := simLast_spec hw hb hv.models N.gates m1 (fun n hn => (hw.mem_gates n).1 hn) r1
    (kept_update r1 hls (fun n t hn h0 hi ht => by
      obtain ⟨a, b, g⟩ := isGate_of_not_input hw hn h0 hi
      obtain ⟨l, hl, h1, h2⟩ := hm n a b g
      rw [hl] at ht; cases ht
      exact ⟨l, rfl, h1, h2⟩) o1)
    (fun n hn => by
      obtain ⟨a, b, g⟩ := (hw.mem_gates n).1 hn
      obtain ⟨l, hl, -⟩ := hm n a b g
      exact ⟨_, by rw [hg0 g, hl]⟩)
  refine ⟨m', by unfold simulateNodes; rw [e1]; simpa using e, fun n hn => ?_⟩
  by_cases h0 : n = 0
  · subst h0; exact u.full r1.1
  by_cases hi : n ∈ N.inputs
  · exact u.full (r1.2 n hi)
  exact h n ((hw.mem_gates n).2 (isGate_of_not_input hw hn h0 hi))

/-- The uses that the documentation allows (simulation.hpp 651-658, 687-695): single nodes are simulated at
any time, patterns are added at the end, and whenever a block of 64 patterns is full every stored value is
brought up to date before the next pattern is added. -/
inductive Session (N : Aig) : Simulator → Map → Prop
  | start (S : Simulator) : Session N S fun _ => none
  | node {S m m'} (n : Nat) : Session N S m → 0 < S.bits → n < N.nodes.length →
      simulateNode N S n m = some m' → Session N S m'
  | nodes {S m m'} : Session N S m → 0 < S.bits → (∀ n a b, N.IsGate n a b → ∃ t, m n = some t) →
      simulateNodes N S false m = some m' → Session N S m'
  | add {S m} (bs : List Bool) : Session N S m → bs.length = S.patterns.length →
      (S.bits % 64 = 0 → ∀ (n : Nat) (t : Tab), n < N.nodes.length → m n = some t → t.length = S.bits) →
      Session N ⟨List.zipWith (fun t b => t ++ [b]) S.patterns bs, S.bits + 1⟩ m

theorem row_succ (v : Nat → Nat → Bool) (n l : Nat) : row v n (l + 1) = row v n l ++ [v l n] := by
  simp [row, List.range_succ]

/-- the valuation of the longer list of patterns is one of the shorter list -/
theorem Meaning.before {N : Aig} {S : Simulator} {bs : List Bool} {v : Nat → Nat → Bool}
    (h : Meaning N ⟨List.zipWith (fun t b => t ++ [b]) S.patterns bs, S.bits + 1⟩ v) : Meaning N S v := by
  refine ⟨fun p hp => h.models p (Nat.lt_succ_of_lt hp), fun k n hk => ?_⟩
  have := h.rows k n hk
  dsimp only at this
  rw [List.getElem?_zipWith] at this
  revert this
  cases S.patterns[k]? with
  | none => simp
  | some t =>
    cases bs[k]? with
    | none => simp
    | some b =>
      simp only [Option.some.injEq, row_succ]
      intro e
      exact (List.append_inj' e rfl).1

theorem session_inv {N : Aig} (hN : Built N) (hp : N.numPis = N.inputs.length) {S : Simulator} {m : Map}
    (hs : Session N S m) : ∀ {v : Nat → Nat → Bool}, Meaning N S v →
    UpToBlock N S v m ∧ (0 < S.bits → InputsFollow N S v m) := by
  induction hs with
  | start S =>
    intro v _
    exact ⟨fun n t _ h => by simp at h, fun _ h => by simp at h⟩
  | node n _ hb hn he ih =>
    intro v hv
    obtain ⟨h1, h2⟩ := ih hv
    obtain ⟨m', e, -, h3, -, h4, -⟩ := C77_node_partial hN hp hb hv h1 (h2 hb) hn
    rw [he] at e; cases e
    exact ⟨h3, fun _ => h4⟩
  | nodes _ hb hg he ih =>
    intro v hv
    obtain ⟨h1, h2⟩ := ih hv
    obtain ⟨m', e, h⟩ := C77_last_partial hN hp hb hv (fun n a b g => by
      obtain ⟨t, ht⟩ := hg n a b g
      obtain ⟨l, rfl, hl⟩ := h1 n t (hN.wf.isGate_lt g).2.2.2 ht
      exact ⟨l, ht, hl⟩)
    rw [he] at e; cases e
    refine ⟨fun n t hn ht => ?_, fun _ _ n hn => h n (hN.wf.inputs_lt hn).2⟩
    rw [h n hn] at ht; cases ht
    exact ⟨_, rfl, by omega, Nat.le_refl _⟩
  | @add S m bs _ _ hfull ih =>
    intro v hv
    obtain ⟨h1, -⟩ := ih hv.before
    refine ⟨fun n t hn ht => ?_, fun _ h => ?_⟩
    · obtain ⟨l, rfl, hl1, hl2⟩ := h1 n t hn ht
      refine ⟨l, rfl, ?_, by dsimp only; omega⟩
      dsimp only
      by_cases h64 : S.bits % 64 = 0
      · have := hfull h64 n _ hn ht
        rw [row_length] at this
        omega
      · omega
    · obtain ⟨l, e, -, hl⟩ := h1 0 _ hN.wf.pos h
      have := congrArg List.length e
      simp only [row_length] at this
      omega

/-- **C77, a session.**  At any point of a session on a network without registers, every stored value is
the row of its node under the first so many patterns, and simulating a node gives its row under all
patterns. -/
theorem C77_session_partial {N : Aig} (hN : Built N) (hp : N.numPis = N.inputs.length) {S : Simulator}
    {m : Map} (hs : Session N S m) {v : Nat → Nat → Bool} (hv : Meaning N S v) :
    (∀ (n : Nat) (t : Tab), n < N.nodes.length → m n = some t → t = row v n t.length ∧ t.length ≤ S.bits) ∧
      (0 < S.bits → ∀ n < N.nodes.length,
        ∃ m', simulateNode N S n m = some m' ∧ m' n = some (row v n S.bits)) := by
  obtain ⟨h1, h2⟩ := session_inv hN hp hs hv
  refine ⟨fun n t hn ht => ?_, fun hb n hn => ?_⟩
  · obtain ⟨l, rfl, -, hl⟩ := h1 n t hn ht
    simp only [row_length]
    exact ⟨trivial, hl⟩
  · obtain ⟨m', e, f, -⟩ := C77_node_partial hN hp hb hv h1 (h2 hb) hn
    exact ⟨m', e, f⟩

/-! ## Concrete cases -/

/-- two inputs (nodes 1, 2), gate 3 = `1 ∧ 2`, gate 4 = `¬1 ∧ ¬3` -/
def demo : Aig :=
  let N := Aig.empty.createPi.1.createPi.1
  let N := (N.createAnd ⟨1, false⟩ ⟨2, false⟩).1
  (N.createAnd ⟨1, true⟩ ⟨3, true⟩).1

theorem demo_built : Built demo :=
  .and (.and (.pi (.pi .empty)) (by decide) (by decide)) (by decide) (by decide)

/-- the value of a node after some calls -/
def valueAt (m : Option Map) (n : Nat) : Option Tab :=
  match m with
  | some m => m n
  | none => none

def three : Simulator := ⟨[[true, false, true], [true, true, false]], 3⟩
def four : Simulator := ⟨[[true, false, true, false], [true, true, false, false]], 4⟩

/-- three patterns, the value of gate 4, then a fourth pattern and the value again -/
example : valueAt (simulateNode demo three 4 fun _ => none) 4 = some [false, true, false] ∧
    valueAt ((simulateNode demo three 4 fun _ => none).bind (simulateNode demo four 4)) 4 =
      some [false, true, false, true] := by decide +kernel

/-- this is a session -/
example : Session demo four (fun k => valueAt (simulateNode demo three 4 fun _ => none) k) := by
  obtain ⟨v, hv⟩ := meaning_exists demo_built three (by decide)
  obtain ⟨m', e, -⟩ := C77_node_partial (n := 4) (m := fun _ => none) demo_built (by decide) (by decide) hv
    (fun n t _ h => by simp at h) (fun h => by simp at h) (by decide)
  rw [e]
  exact .add (S := three) [false, false] (.node 4 (.start three) (by decide) (by decide) e) rfl
    (fun h => absurd h (by decide))

example : valueAt (simulateNodes demo three true fun _ => none) 3 = some [true, false, false] ∧
    valueAt ((simulateNodes demo three true fun _ => none).bind (simulateNodes demo four false)) 3 =
      some [true, false, false, false] := by decide +kernel

/-! ## What is not kept -/

/-- the first `l` of 65 patterns in which both inputs are always one -/
def ones (l : Nat) : Simulator := ⟨[List.replicate l true, List.replicate l true], l⟩

/-- **Two blocks at once.**  A gate is simulated under 63 patterns, and again when there are 65: the value
of the 64th pattern stays zero though the gate, a conjunction of two ones, is one.  Only the last block is
computed, and the block before it was not full. -/
theorem C77_violated_blocks :
    ∃ v : Nat → Nat → Bool, Meaning demo (ones 65) v ∧ ∃ t,
      valueAt ((simulateNode demo (ones 63) 3 fun _ => none).bind (simulateNode demo (ones 65) 3)) 3 = some t ∧
      t.length = 65 ∧ t[63]? = some false ∧ v 63 3 = true := by
  refine ⟨fun _ n => n == 1 || n == 2 || n == 3, ⟨fun p _ => ⟨rfl, ?_⟩, ?_⟩,
    List.replicate 63 true ++ [false, true], by decide +kernel, by decide, by decide, rfl⟩
  · intro n a b g
    have h := (demo_built.wf.mem_gates n).2 ⟨a, b, g⟩
    have hd : demo.gates = [3, 4] := by decide
    rw [hd] at h
    obtain ⟨-, -, nd, hn, -, rfl, rfl⟩ := g
    simp only [List.mem_cons, List.not_mem_nil, or_false] at h
    rcases h with rfl | rfl
    · have : demo.nodes[3]? = some nd := hn
      have e : demo.nodes[3]?.map (fun x => (x.c0, x.c1)) = some (⟨1, false⟩, ⟨2, false⟩) := by decide
      rw [this] at e
      simp only [Option.map_some, Option.some.injEq, Prod.mk.injEq] at e
      rw [e.1, e.2]; decide
    · have : demo.nodes[4]? = some nd := hn
      have e : demo.nodes[4]?.map (fun x => (x.c0, x.c1)) = some (⟨1, true⟩, ⟨3, true⟩) := by decide
      rw [this] at e
      simp only [Option.map_some, Option.some.injEq, Prod.mk.injEq] at e
      rw [e.1, e.2]; decide
  · intro k n hk
    have hi : demo.inputs = [1, 2] := by decide
    rw [hi] at hk
    match k, hk with
    | 0, hk => cases hk; decide +kernel
    | 1, hk => cases hk; decide +kernel

/-- **A gate without a value.**  `simulate_nodes` without `simulate_whole_tt` gives a gate that has no value
yet zeros for all blocks but the last: with 65 patterns of ones gate 3 gets 64 zeros and a one. -/
theorem C77_violated_missing :
    valueAt (simulateNodes demo (ones 65) false fun _ => none) 3 =
      some (List.replicate 64 false ++ [true]) := by decide +kernel

/-- **Patterns that change.**  The simulator may hold other patterns of the same number (after `pack_bits`
and further `add_pattern`): nothing is computed again, the value is that of the old patterns. -/
theorem C77_violated_changed :
    valueAt ((simulateNode demo three 3 fun _ => none).bind
      (simulateNode demo ⟨[[true, true, true], [true, true, true]], 3⟩ 3)) 3 = some [true, false, false] := by
  decide +kernel

/-- an input, a register output and their conjunction -/
def demoRo : Aig := (Aig.empty.createPi.1.createRo.1.createAnd ⟨1, false⟩ ⟨2, false⟩).1

/-- **Registers.**  The outputs of registers never get values (`foreach_pi` leaves them out), and the
simulation of a gate that reads one dereferences the begin of an empty vector. -/
theorem C77_violated_register :
    (simulateNode demoRo ⟨[[true], [true]], 1⟩ 3 fun _ => none).isNone = true ∧
    (simulateNodes demoRo ⟨[[true], [true]], 1⟩ true fun _ => none).isNone = true := by decide +kernel

end Verif.PSim
