import Verif.Cli.History

set_option autoImplicit false

/-!
# C47: the history command never wedges

Full statement: whatever history commands were issued before, `history --clear` empties the history
and `history --size` reports the number of saved snapshots. The code violates it: the sixth
`history --add` puts the index beyond its limit, and from then on the command returns before it
looks at any other flag (`C47_wedged`, `C47_violated`); flags given while the store is empty stay
set and act later (`C47_violated_sticky`); and the index survives `read_aiger`
(`C47_violated_read`). `C47_partial` covers the sessions that read one design, first, and never add
a sixth snapshot.
-/

namespace Verif.Cli

variable {α : Type}

/-- Specification: the number of snapshots saved after a session that started with `k` of them.
Reading a design discards the history. -/
def count : Nat → List (Cmd α) → Nat
  | k, [] => k
  | _, .read _ :: cs => count 0 cs
  | k, .history add _ clear _ :: cs =>
      count (if clear then 0 else if add then k + 1 else k) cs
  | k, .optimize _ _ :: cs => count k cs
  | k, .mapChoice :: cs => count k cs

/-- The sessions covered by `C47_partial`: no design is read, and a snapshot is only added when
fewer than five are saved. -/
def Fits : Nat → List (Cmd α) → Prop
  | _, [] => True
  | _, .read _ :: _ => False
  | k, .history add _ clear _ :: cs =>
      (add = true → k < 5) ∧ Fits (if clear then 0 else if add then k + 1 else k) cs
  | k, .optimize _ _ :: cs => Fits k cs
  | k, .mapChoice :: cs => Fits k cs

/-- Invariant of the shell between commands, with `k` snapshots saved. -/
structure Ready (s : St α) (k : Nat) : Prop where
  six : s.slots.length = 6
  index : s.index + 1 = k
  le : k ≤ 5
  addr : ∀ i ∈ s.slots, i < s.heap.length
  cclear : s.cclear = false
  csize : s.csize = false
  cadd : s.cadd = false
  replace : s.replace = -1

theorem getLast?_of_six {l : List Nat} (h : l.length = 6) : ∃ c, l.getLast? = some c ∧ c ∈ l := by
  have hne : l ≠ [] := by intro h0; rw [h0] at h; simp at h
  exact ⟨l.getLast hne, List.getLast?_eq_some_getLast hne, List.getLast_mem hne⟩

theorem put_spec {l : List Nat} {i : Int} (x : Nat) (h0 : 0 ≤ i) (h1 : i < l.length) :
    put l i x = some (l.set i.toNat x) := by
  rw [put, if_pos ⟨h0, h1⟩]

theorem mem_set_le {l : List Nat} {i c m : Nat} (hl : ∀ j ∈ l, j < m) (hc : c < m) :
    ∀ j ∈ l.set i c, j < m := by
  intro j hj
  rcases List.mem_or_eq_of_mem_set hj with h | h
  · exact hl j h
  · exact h ▸ hc

/-- The history slots after the adding and the replacing step, `l` being the slots and `c` the
current AIG. -/
def slotsAfter (l : List Nat) (c k : Nat) (add : Bool) (r : Option Int) : List Nat :=
  let l1 := if add then l.set k c else l
  if 0 ≤ r.getD (-1) ∧ r.getD (-1) < (if add then k + 1 else k : Nat) then
    l1.set (r.getD (-1)).toNat c
  else l1

theorem set_left {l : List Nat} {c : Nat} (i x : Nat) (hi : i < l.length) :
    (l ++ [c]).set i x = l.set i x ++ [c] := by
  rw [List.set_append, if_pos hi]

theorem execAdd_skip {s : St α} (h : ¬ (s.cadd && decide (s.index + 1 ≤ 5)) = true) :
    execAdd s = some s := by
  rw [execAdd, if_neg h]

theorem execAdd_put {s : St α} {c : Nat} {l : List Nat}
    (h : (s.cadd && decide (s.index + 1 ≤ 5)) = true) (hg : s.slots.getLast? = some c)
    (hp : put s.slots (s.index + 1) c = some l) :
    execAdd s = some { s with slots := l, index := s.index + 1 } := by
  rw [execAdd, if_pos h, hg]; dsimp only; rw [hp]; rfl

theorem execReplace_put {s : St α} {c : Nat} {l : List Nat} (h : ¬ s.replace = -1)
    (h2 : ¬ (s.replace > s.index ∨ s.replace < -1)) (hg : s.slots.getLast? = some c)
    (hp : put s.slots s.replace c = some l) :
    execReplace s = some { s with slots := l } := by
  rw [execReplace, if_neg h, if_neg h2, hg]; dsimp only; rw [hp]; rfl

theorem execOptimize_ok {s : St α} {c : Nat} {v : α} (f g : α → α)
    (hg : s.slots.getLast? = some c) (hv : s.heap[c]? = some v) :
    execOptimize s f g = some { s with
      heap := s.heap.set c (f v) ++ [g (f v)]
      slots := s.slots.dropLast ++ [s.heap.length] } := by
  have h0 : s.slots ≠ [] := by intro h0; rw [h0] at hg; cases hg
  rw [execOptimize, if_neg h0, hg]; dsimp only; rw [hv]

theorem execMap_ok {s : St α} {vs : List α} (gates : α → Nat) (h0 : s.slots ≠ [])
    (hv : s.slots.dropLast.reverse.mapM (s.heap[·]?) = some vs) :
    execMap gates s = some { s with
      out := s.out ++ [Event.mapped (vs.filter fun a => decide (gates a > 0))] } := by
  rw [execMap, if_neg h0, hv]; rfl

/-- What a history command does in a state between commands, when it does not add a sixth
snapshot. -/
theorem history_ready {s : St α} {k : Nat} (h : Ready s k) (add size clear : Bool)
    (r : Option Int) (hk : add = true → k < 5) (e : α) (gates : α → Nat)
    {l : List Nat} {c : Nat} (hl : s.slots = l ++ [c]) :
    ∃ s', step e gates s (.history add size clear r) = some s' ∧
      Ready s' (if clear then 0 else if add then k + 1 else k) ∧
      s'.heap = s.heap ∧ s'.slots = slotsAfter l c k add r ++ [c] ∧
      s'.out = s.out ++ (if size then
        [Event.size ((if clear then 0 else if add then k + 1 else k : Nat) : Int)] else []) := by
  have hl5 : l.length = 5 := by have := h.six; rw [hl] at this; simpa using this
  have hc : ∀ m : List Nat, (m ++ [c]).getLast? = some c := by intro m; simp
  have hcm : c < s.heap.length := h.addr c (by rw [hl]; simp)
  have hix := h.index
  have hle := h.le
  have hne : s.slots ≠ [] := by rw [hl]; simp
  -- the adding step
  have hadd : ∃ s1 : St α, execAdd
      { s with cadd := s.cadd || add, csize := s.csize || size, cclear := s.cclear || clear,
               replace := r.getD s.replace } = some s1 ∧
      s1.slots = (if add then l.set k c else l) ++ [c] ∧
      s1.index + 1 = (if add then k + 1 else k : Nat) ∧
      (∀ i ∈ s1.slots, i < s.heap.length) ∧ s1.heap = s.heap ∧ s1.out = s.out ∧
      s1.cclear = clear ∧ s1.csize = size ∧ s1.replace = r.getD (-1) := by
    cases hadd : add with
    | false =>
        have hb : ¬ ((s.cadd || false) && decide (s.index + 1 ≤ 5)) = true := by simp [h.cadd]
        refine ⟨_, execAdd_skip hb, by simpa using hl, by simpa using hix, h.addr, rfl, rfl, ?_, ?_, ?_⟩
        · simp [h.cclear]
        · simp [h.csize]
        · simp [h.replace]
    | true =>
        have hk' := hk hadd
        have hb : ((s.cadd || true) && decide (s.index + 1 ≤ 5)) = true := by
          have : s.index + 1 ≤ 5 := by omega
          simp [this]
        have hp : put s.slots (s.index + 1) c = some (s.slots.set (s.index + 1).toNat c) :=
          put_spec c (by omega) (by rw [h.six]; omega)
        have hg : s.slots.getLast? = some c := by rw [hl]; exact hc l
        have hsl : s.slots.set (s.index + 1).toNat c = l.set k c ++ [c] := by
          rw [hl, hix]; exact set_left _ _ (by simp; omega)
        refine ⟨_, execAdd_put hb hg hp, ?_, ?_, ?_, rfl, rfl, ?_, ?_, ?_⟩
        · simpa using hsl
        · simp only [if_pos]; push_cast; omega
        · exact mem_set_le h.addr hcm
        · simp [h.cclear]
        · simp [h.csize]
        · simp [h.replace]
  obtain ⟨s1, e1, sl1, ix1, ad1, hp1, out1, cc1, cs1, rp1⟩ := hadd
  have hk1 : (if add then k + 1 else k : Nat) ≤ 5 := by
    cases hadd : add with
    | false => simpa using hle
    | true => have := hk hadd; simp; omega
  have hl1 : (if add then l.set k c else l).length = 5 := by split <;> simp [hl5]
  have six1 : s1.slots.length = 6 := by rw [sl1, List.length_append, hl1]; rfl
  -- the replacing step
  have hrep : ∃ s2 : St α, execReplace s1 = some s2 ∧ s2.slots = slotsAfter l c k add r ++ [c] ∧
      s2.index = s1.index ∧
      (∀ i ∈ s2.slots, i < s.heap.length) ∧ s2.heap = s.heap ∧ s2.out = s.out ∧
      s2.cclear = clear ∧ s2.csize = size := by
    rw [slotsAfter]
    by_cases hr : s1.replace = -1
    · refine ⟨s1, by rw [execReplace, if_pos hr], ?_, rfl, ad1, hp1, out1, cc1, cs1⟩
      rw [if_neg (by omega)]; exact sl1
    · by_cases hr2 : s1.replace > s1.index ∨ s1.replace < -1
      · refine ⟨s1, by rw [execReplace, if_neg hr, if_pos hr2], ?_, rfl, ad1, hp1, out1, cc1, cs1⟩
        rw [if_neg (by omega)]; exact sl1
      · have hp : put s1.slots s1.replace c = some (s1.slots.set s1.replace.toNat c) :=
          put_spec c (by omega) (by rw [six1]; omega)
        have hg : s1.slots.getLast? = some c := by rw [sl1]; exact hc _
        refine ⟨_, execReplace_put hr hr2 hg hp, ?_, rfl, ?_, hp1, out1, cc1, cs1⟩
        · dsimp only
          rw [if_pos (by omega), sl1, rp1]
          exact set_left _ _ (by rw [hl1]; omega)
        · exact mem_set_le ad1 hcm
  obtain ⟨s2, e2, sl2, ix2, ad2, hp2, out2, cc2, cs2⟩ := hrep
  have six2 : s2.slots.length = 6 := by
    rw [sl2, slotsAfter]; split <;> split <;> simp [hl5]
  have hlim : ¬ s1.index + 1 > 5 := by omega
  refine ⟨execEnd s2, ?_, ?_, hp2, sl2, ?_⟩
  · rw [step, execHistory, if_neg hne, e1, Option.bind_some, if_neg hlim, e2]; rfl
  · refine ⟨six2, ?_, ?_, ?_, rfl, rfl, rfl, rfl⟩
    · rw [execEnd]; dsimp only; rw [cc2]
      cases clear with
      | true => simp
      | false => simp only [Bool.false_eq_true, if_false]; rw [ix2]; exact ix1
    · cases clear with
      | true => simp
      | false => simpa using hk1
    · rw [execEnd]; dsimp only; rw [hp2]; exact ad2
  · rw [execEnd]; dsimp only; rw [cc2, cs2, out2]
    cases size with
    | false => simp
    | true =>
        simp only [if_true]
        cases clear with
        | true => simp
        | false => simp only [Bool.false_eq_true, if_false]; rw [ix2, ix1]

theorem Ready.slots {s : St α} {k : Nat} (h : Ready s k) : ∃ l c, s.slots = l ++ [c] := by
  have hne : s.slots ≠ [] := by intro h0; have := h.six; rw [h0] at this; simp at this
  exact ⟨_, _, (List.dropLast_concat_getLast hne).symm⟩

theorem optimize_ready {s : St α} {k : Nat} (h : Ready s k) (f g : α → α) (e : α)
    (gates : α → Nat) :
    ∃ s', step e gates s (.optimize f g) = some s' ∧ Ready s' k := by
  obtain ⟨c, hc, hcm⟩ := getLast?_of_six h.six
  have hne : s.slots ≠ [] := by intro h0; have := h.six; rw [h0] at this; simp at this
  obtain ⟨v, hv⟩ : ∃ v, s.heap[c]? = some v :=
    ⟨_, List.getElem?_eq_getElem (h.addr c hcm)⟩
  refine ⟨_, by rw [step]; exact execOptimize_ok f g hc hv, ?_⟩
  refine ⟨?_, h.index, h.le, ?_, h.cclear, h.csize, h.cadd, h.replace⟩
  · simp [h.six]
  · intro i hi
    simp only [List.mem_append, List.mem_singleton] at hi
    simp only [List.length_append, List.length_set, List.length_singleton]
    rcases hi with hi | hi
    · have := h.addr i (List.dropLast_subset _ hi); omega
    · omega

theorem mapM_addr {heap : List α} : ∀ {l : List Nat}, (∀ i ∈ l, i < heap.length) →
    ∃ vs, l.mapM (heap[·]?) = some vs
  | [], _ => ⟨[], rfl⟩
  | i :: l, h => by
      obtain ⟨vs, hvs⟩ := mapM_addr (l := l) fun j hj => h j (List.mem_cons_of_mem _ hj)
      have hi := List.getElem?_eq_getElem (h i List.mem_cons_self)
      exact ⟨heap[i]'(h i List.mem_cons_self) :: vs, by
        rw [List.mapM_cons]; rw [hi, hvs]; rfl⟩

theorem map_ready {s : St α} {k : Nat} (h : Ready s k) (e : α) (gates : α → Nat) :
    ∃ s', step e gates s .mapChoice = some s' ∧ Ready s' k := by
  have hne : s.slots ≠ [] := by intro h0; have := h.six; rw [h0] at this; simp at this
  obtain ⟨vs, hvs⟩ := mapM_addr (heap := s.heap) (l := s.slots.dropLast.reverse) fun i hi =>
    h.addr i (List.dropLast_subset _ (List.mem_reverse.1 hi))
  refine ⟨_, by rw [step]; exact execMap_ok gates hne hvs, ?_⟩
  exact ⟨h.six, h.index, h.le, h.addr, h.cclear, h.csize, h.cadd, h.replace⟩

theorem run_ready (e : α) (gates : α → Nat) : ∀ (cs : List (Cmd α)) {s : St α} {k : Nat},
    Ready s k → Fits k cs → ∃ s', run e gates s cs = some s' ∧ Ready s' (count k cs)
  | [], s, k, h, _ => ⟨s, rfl, h⟩
  | .read _ :: _, _, _, _, hf => hf.elim
  | .history add size clear r :: cs, s, k, h, hf => by
      obtain ⟨l, c, hl⟩ := h.slots
      obtain ⟨s1, e1, h1, -, -, -⟩ := history_ready h add size clear r hf.1 e gates hl
      obtain ⟨s2, e2, h2⟩ := run_ready e gates cs h1 hf.2
      exact ⟨s2, by rw [run, e1]; exact e2, h2⟩
  | .optimize f g :: cs, s, k, h, hf => by
      obtain ⟨s1, e1, h1⟩ := optimize_ready h f g e gates
      obtain ⟨s2, e2, h2⟩ := run_ready e gates cs h1 hf
      exact ⟨s2, by rw [run, e1]; exact e2, h2⟩
  | .mapChoice :: cs, s, k, h, hf => by
      obtain ⟨s1, e1, h1⟩ := map_ready h e gates
      obtain ⟨s2, e2, h2⟩ := run_ready e gates cs h1 hf
      exact ⟨s2, by rw [run, e1]; exact e2, h2⟩

theorem read_ready (e a : α) : Ready (execRead e init a) 0 := by
  refine ⟨by simp [execRead], by simp [execRead, init], by omega, ?_, rfl, rfl, rfl, rfl⟩
  intro i hi
  simp only [execRead, init, List.mem_map, List.mem_range] at hi
  obtain ⟨j, hj, rfl⟩ := hi
  simp [execRead, init]; omega

/-- C47, in sessions that read one design, first, and add a snapshot only while fewer than five are
saved: no command fails; afterwards `history --size` prints the number of snapshots saved, and
`history --clear` leaves none, so that a following `history --size` prints 0. -/
theorem C47_partial (e : α) (gates : α → Nat) (a : α) (cs : List (Cmd α)) (hcs : Fits 0 cs) :
    ∃ s, run e gates init (.read a :: cs) = some s ∧
      (∃ s1, step e gates s (.history false true false none) = some s1 ∧
        s1.out = s.out ++ [Event.size (count 0 cs)]) ∧
      (∃ s2 s3, step e gates s (.history false false true none) = some s2 ∧ s2.out = s.out ∧
        step e gates s2 (.history false true false none) = some s3 ∧
        s3.out = s.out ++ [Event.size 0]) := by
  obtain ⟨s, es, hs⟩ := run_ready e gates cs (read_ready e a) hcs
  obtain ⟨l, c, hl⟩ := hs.slots
  obtain ⟨s1, e1, -, -, -, o1⟩ := history_ready hs false true false none (by simp) e gates hl
  obtain ⟨s2, e2, h2, -, hl2, o2⟩ := history_ready hs false false true none (by simp) e gates hl
  obtain ⟨s3, e3, -, -, -, o3⟩ := history_ready h2 false true false none (by simp) e gates hl2
  refine ⟨s, by rw [run, step, Option.bind_some]; exact es, ⟨s1, e1, by simpa using o1⟩, s2, s3, e2,
    by simpa using o2, e3, ?_⟩
  rw [o3, o2]; simp

/-- A session with four snapshots, a replacement, a clear and two more snapshots meets the
hypothesis; two snapshots are saved at its end. -/
example : Fits (α := Nat) 0
      [.history true false false none, .optimize (· + 1) (· * 2), .history true false false none,
        .history true true false (some 0), .history true false true none, .mapChoice,
        .history true false false none, .optimize id id, .history true true false none] ∧
    count (α := Nat) 0
      [.history true false false none, .optimize (· + 1) (· * 2), .history true false false none,
        .history true true false (some 0), .history true false true none, .mapChoice,
        .history true false false none, .optimize id id, .history true true false none] = 2 := by
  simp [Fits, count]

/-- The sizes printed so far. -/
def sizes (l : List (Event α)) : List Int :=
  l.filterMap fun ev => match ev with | .size n => some n | .mapped _ => none

/-- Once the index has passed its limit, no sequence of commands whatsoever makes `history` print a
size, move the index, or take anything out of the history. -/
theorem C47_wedged (e : α) (gates : α → Nat) : ∀ (cs : List (Cmd α)) {s s' : St α},
    s.index = 5 → run e gates s cs = some s' → s'.index = 5 ∧ sizes s'.out = sizes s.out
  | [], s, s', h, hr => by
      obtain rfl : s = s' := by simpa [run] using hr
      exact ⟨h, rfl⟩
  | c :: cs, s, s', h, hr => by
      rw [run] at hr
      obtain ⟨s1, e1, hr1⟩ := Option.bind_eq_some_iff.1 hr
      have hs1 : s1.index = 5 ∧ sizes s1.out = sizes s.out := by
        cases c with
        | read a =>
            obtain rfl : execRead e s a = s1 := by simpa [step] using e1
            exact ⟨h, rfl⟩
        | history add size clear r =>
            rw [step, execHistory] at e1
            dsimp only at e1
            by_cases h0 : s.slots = []
            · rw [if_pos h0] at e1
              obtain rfl := Option.some.inj e1
              exact ⟨h, rfl⟩
            · rw [if_neg h0, execAdd] at e1
              dsimp only at e1
              have hb : ((s.cadd || add) && decide (s.index + 1 ≤ 5)) = false := by
                simp [h]
              rw [hb, if_neg (by simp), Option.bind_some, if_pos (by simp [h])] at e1
              obtain rfl := Option.some.inj e1
              exact ⟨h, rfl⟩
        | optimize f g =>
            rw [step, execOptimize] at e1
            by_cases h0 : s.slots = []
            · rw [if_pos h0] at e1
              obtain rfl := Option.some.inj e1
              exact ⟨h, rfl⟩
            · rw [if_neg h0] at e1
              split at e1
              · cases e1
              · split at e1
                · cases e1
                · obtain rfl := Option.some.inj e1
                  exact ⟨h, rfl⟩
        | mapChoice =>
            rw [step, execMap] at e1
            by_cases h0 : s.slots = []
            · rw [if_pos h0] at e1
              obtain rfl := Option.some.inj e1
              exact ⟨h, rfl⟩
            · rw [if_neg h0] at e1
              obtain ⟨l, -, rfl⟩ := Option.map_eq_some_iff.1 e1
              exact ⟨h, by simp [sizes, List.filterMap_append]⟩
      obtain ⟨h2, h3⟩ := C47_wedged e gates cs hs1.1 hr1
      exact ⟨h2, h3.trans hs1.2⟩

/-- Six times `history --add` after reading a design: the command is wedged, and `--clear` and
`--size` no longer do anything. -/
theorem C47_violated :
    (run (α := Nat) 0 id init
      (.read 7 :: List.replicate 6 (.history true false false none))).map (·.index) = some 5 ∧
    (run (α := Nat) 0 id init
      (.read 7 :: (List.replicate 6 (.history true false false none) ++
        [.history false false true none, .history false true false none]))).map
        (fun s => (s.index, s.out)) = some (5, []) := by
  decide +kernel

/-- A `history --add` refused because no design was read is carried out by the next history
command: `history --size` after reading a design reports one snapshot nobody saved since. -/
theorem C47_violated_sticky :
    (run (α := Nat) 0 id init
      [.history true false false none, .read 7, .history false true false none]).map (·.out) =
      some [Event.size 1] := by
  decide +kernel

/-- The index survives the reading of a new design: the history has been thrown away, but
`history --size` still reports the old number. -/
theorem C47_violated_read :
    (run (α := Nat) 0 id init
      [.read 7, .history true false false none, .read 8, .mapChoice,
        .history false true false none]).map (·.out) =
      some [Event.mapped [], Event.size 1] := by
  decide +kernel

end Verif.Cli
