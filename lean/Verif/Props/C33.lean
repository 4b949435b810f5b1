import Verif.Klut.Mapping
import Verif.Props.C22

set_option autoImplicit false

/-!
# C33: the mapping view stores what was given
-/

namespace Verif.Mapping

/-! ### specification: read the answers off the history of calls, latest call first -/

/-- the leaves of node `n` after the calls `h` (latest first), if it is a cell root -/
def leavesOf (n : Nat) : List Op → Option (List Nat)
  | [] => none
  | .add m l :: h => if m = n then some l else leavesOf n h
  | .remove m :: h => if m = n then none else leavesOf n h
  | .clear :: _ => none
  | .setFunction _ _ :: h => leavesOf n h

/-- the function of node `n` after the calls `h` (latest first); the constant 0 if never set -/
def functionOf (n : Nat) : List Op → TT
  | [] => TT.const 0 false
  | .setFunction m f :: h => if m = n then f else functionOf n h
  | _ :: h => functionOf n h

/-- calls on nodes of the network -/
def OpOk (size : Nat) : Op → Prop
  | .add n _ => n < size
  | .remove n => n < size
  | .clear => True
  | .setFunction n f => n < size ∧ f.WF

/-- number of nodes with leaves -/
def rootCount (size : Nat) (h : List Op) : Nat := (List.range size).countP fun n => (leavesOf n h).isSome

/-! ### proof -/

/-- the stored state for the history `h` -/
structure Rep (m : Mapping) (size : Nat) (h : List Op) : Prop where
  nsize : m.ntkSize = size
  len : size ≤ m.mappings.length
  cell : ∀ n, n < size → (m.mappings[n]? = some 0 ∧ leavesOf n h = none) ∨
    ∃ l pre post, leavesOf n h = some l ∧ m.mappings = pre ++ l.length :: l ++ post ∧ size ≤ pre.length ∧
      m.mappings[n]? = some pre.length
  count : m.mappingSize = rootCount size h
  flen : m.functions.length = size
  inv : TTCache.Inv m.cache
  fn : ∀ n, n < size → ∃ lit, m.functions[n]? = some lit ∧ m.cache.lookup lit = some (functionOf n h)

theorem countP_update (size n : Nat) (hn : n < size) (p q : Nat → Bool) (hpq : ∀ k, k ≠ n → p k = q k) :
    (List.range size).countP p + (if q n then 1 else 0) = (List.range size).countP q + (if p n then 1 else 0) := by
  induction size with
  | zero => omega
  | succ s ih =>
    rw [List.range_succ, List.countP_append, List.countP_append, List.countP_singleton, List.countP_singleton]
    by_cases h : n = s
    · subst h
      have : (List.range n).countP p = (List.range n).countP q := by
        apply List.countP_congr
        intro k hk
        rw [List.mem_range] at hk
        rw [hpq k (by omega)]
      omega
    · have := ih (by omega)
      rw [hpq s (fun e => h e.symm)]
      omega

theorem Rep.init (size : Nat) : Rep (Mapping.init size) size [] := by
  obtain ⟨i1, i2, _⟩ := TTCache.insert_spec _ TTCache.inv_empty (TT.const 0 false) (TT.wf_const _ _)
  refine ⟨rfl, by simp [Mapping.init], ?_, ?_, by simp [Mapping.init], i1, ?_⟩
  · intro n hn
    left
    exact ⟨by simp [Mapping.init, hn], rfl⟩
  · simp [Mapping.init, rootCount, leavesOf]
  · intro n hn
    refine ⟨0, by simp [Mapping.init, hn], ?_⟩
    exact i2

theorem set_append_lt {l r : List Nat} {n k : Nat} (h : n < l.length) : (l ++ r).set n k = l.set n k ++ r := by
  rw [List.set_append, if_pos h]

theorem Rep.step {m : Mapping} {size : Nat} {h : List Op} (hr : Rep m size h) (op : Op) (hop : OpOk size op) :
    ∃ m', m.step op = some m' ∧ Rep m' size (op :: h) := by
  cases op with
  | clear =>
    refine ⟨_, rfl, hr.nsize, ?_, ?_, ?_, hr.flen, hr.inv, hr.fn⟩
    · simp [Mapping.clear, hr.nsize]
    · intro n hn
      left
      exact ⟨by simp [Mapping.clear, hr.nsize, hn], rfl⟩
    · simp [Mapping.clear, rootCount, leavesOf]
  | setFunction k f =>
    obtain ⟨i1, i2, i3, _⟩ := TTCache.insert_spec m.cache hr.inv f hop.2
    have hk : k < m.functions.length := by rw [hr.flen]; exact hop.1
    have hs : m.step (.setFunction k f) =
        some { m with functions := m.functions.set k (m.cache.insert f).2, cache := (m.cache.insert f).1 } := if_pos hk
    refine ⟨_, hs, hr.nsize, hr.len, hr.cell, hr.count, ?_, i1, ?_⟩
    · simp only [List.length_set]; exact hr.flen
    · intro n hn
      by_cases e : k = n
      · subst e
        refine ⟨_, List.getElem?_set_self hk, ?_⟩
        rw [functionOf, if_pos rfl]
        exact i2
      · obtain ⟨lit, e1, e2⟩ := hr.fn n hn
        refine ⟨lit, ?_, ?_⟩
        · simp only [List.getElem?_set_ne e]; exact e1
        · rw [functionOf, if_neg e]
          exact i3 _ _ e2
  | remove k =>
    have hk : k < size := hop
    have hkl : k < m.mappings.length := Nat.lt_of_lt_of_le hk hr.len
    obtain ⟨v, hv⟩ : ∃ v, m.mappings[k]? = some v := ⟨_, List.getElem?_eq_getElem hkl⟩
    have hs : m.step (.remove k) = some { m with
        mappingSize := if v ≠ 0 then m.mappingSize - 1 else m.mappingSize
        mappings := m.mappings.set k 0 } := by
      rw [Mapping.step, Mapping.remove, hv]
    refine ⟨_, hs, hr.nsize, ?_, ?_, ?_, hr.flen, hr.inv, ?_⟩
    · simp only [List.length_set]; exact hr.len
    · intro n hn
      by_cases e : k = n
      · subst e
        left
        exact ⟨List.getElem?_set_self hkl, by rw [leavesOf, if_pos rfl]⟩
      · rw [leavesOf, if_neg e]
        rcases hr.cell n hn with ⟨c1, c2⟩ | ⟨l, pre, post, c1, c2, c3, c4⟩
        · left
          exact ⟨by simp only [List.getElem?_set_ne e]; exact c1, c2⟩
        · right
          refine ⟨l, pre.set k 0, post, c1, ?_, by rw [List.length_set]; exact c3, ?_⟩
          · simp only
            rw [c2, List.append_assoc, set_append_lt (by omega), List.append_assoc]
          · simp only [List.getElem?_set_ne e, List.length_set]; exact c4
    · have hne := countP_update size k hk (fun n => (leavesOf n (Op.remove k :: h)).isSome) (fun n => (leavesOf n h).isSome) (by
        intro n hn
        simp only [leavesOf]
        rw [if_neg (fun e => hn e.symm)])
      simp only [leavesOf, if_pos, Option.isSome_none] at hne
      have hc := hr.count
      unfold rootCount at hc ⊢
      simp only [leavesOf]
      rcases hr.cell k hk with ⟨c1, c2⟩ | ⟨l, pre, post, c1, c2, c3, c4⟩
      · rw [hv] at c1
        obtain rfl := Option.some.inj c1
        rw [c2] at hne
        simp at hne ⊢
        omega
      · rw [hv] at c4
        obtain rfl := Option.some.inj c4
        rw [c1] at hne
        rw [if_pos (by omega : pre.length ≠ 0)]
        simp at hne ⊢
        omega
    · intro n hn
      exact hr.fn n hn
  | add k leaves =>
    have hk : k < size := hop
    have hkl : k < m.mappings.length := Nat.lt_of_lt_of_le hk hr.len
    obtain ⟨v, hv⟩ : ∃ v, m.mappings[k]? = some v := ⟨_, List.getElem?_eq_getElem hkl⟩
    have hs : m.step (.add k leaves) = some { m with
        mappingSize := if v = 0 then m.mappingSize + 1 else m.mappingSize
        mappings := m.mappings.set k m.mappings.length ++ leaves.length :: leaves } := by
      rw [Mapping.step, Mapping.add, hv]
    refine ⟨_, hs, hr.nsize, ?_, ?_, ?_, hr.flen, hr.inv, ?_⟩
    · simp only [List.length_append, List.length_set]; have := hr.len; omega
    · intro n hn
      by_cases e : k = n
      · subst e
        right
        refine ⟨leaves, m.mappings.set k m.mappings.length, [], by rw [leavesOf, if_pos rfl], by simp, ?_, ?_⟩
        · rw [List.length_set]; exact hr.len
        · simp only
          rw [List.getElem?_append_left (by rw [List.length_set]; exact hkl), List.getElem?_set_self hkl, List.length_set]
      · rw [leavesOf, if_neg e]
        have hnl : n < m.mappings.length := Nat.lt_of_lt_of_le hn hr.len
        rcases hr.cell n hn with ⟨c1, c2⟩ | ⟨l, pre, post, c1, c2, c3, c4⟩
        · left
          refine ⟨?_, c2⟩
          simp only
          rw [List.getElem?_append_left (by rw [List.length_set]; exact hnl), List.getElem?_set_ne e]; exact c1
        · right
          refine ⟨l, pre.set k m.mappings.length, post ++ leaves.length :: leaves, c1, ?_, by rw [List.length_set]; exact c3, ?_⟩
          · simp only
            generalize m.mappings.length = q
            rw [c2, List.append_assoc, set_append_lt (by omega), List.append_assoc, List.append_assoc, List.append_assoc]
          · simp only [List.length_set]
            rw [List.getElem?_append_left (by rw [List.length_set]; exact hnl), List.getElem?_set_ne e]; exact c4
    · have hne := countP_update size k hk (fun n => (leavesOf n (Op.add k leaves :: h)).isSome) (fun n => (leavesOf n h).isSome) (by
        intro n hn
        simp only [leavesOf]
        rw [if_neg (fun e => hn e.symm)])
      simp only [leavesOf, if_pos, Option.isSome_some] at hne
      have hc := hr.count
      unfold rootCount at hc ⊢
      simp only [leavesOf]
      rcases hr.cell k hk with ⟨c1, c2⟩ | ⟨l, pre, post, c1, c2, c3, c4⟩
      · rw [hv] at c1
        obtain rfl := Option.some.inj c1
        rw [c2] at hne
        simp at hne ⊢
        omega
      · rw [hv] at c4
        obtain rfl := Option.some.inj c4
        rw [c1] at hne
        rw [if_neg (by omega : ¬ pre.length = 0)]
        simp at hne ⊢
        omega
    · intro n hn
      exact hr.fn n hn

theorem Rep.run {size : Nat} : ∀ (ops : List Op) {m : Mapping} {h : List Op}, Rep m size h → (∀ op ∈ ops, OpOk size op) →
    ∃ m', m.run ops = some m' ∧ Rep m' size (ops.reverse ++ h) := by
  intro ops
  induction ops with
  | nil => intro m h hr _; exact ⟨m, rfl, hr⟩
  | cons op ops ih =>
    intro m h hr hok
    obtain ⟨m1, e1, r1⟩ := hr.step op (hok op (by simp))
    obtain ⟨m2, e2, r2⟩ := ih r1 fun o ho => hok o (by simp [ho])
    refine ⟨m2, ?_, ?_⟩
    · rw [Mapping.run, e1]; exact e2
    · rw [List.reverse_cons, List.append_assoc]; exact r2

theorem Rep.answers {m : Mapping} {size : Nat} {h : List Op} (hr : Rep m size h) (n : Nat) (hn : n < size) :
    m.isCellRoot n = some (leavesOf n h).isSome ∧ (∀ l, leavesOf n h = some l → m.cellFanins n = some l) ∧
    m.cellFunction n = some (functionOf n h) := by
  refine ⟨?_, ?_, ?_⟩
  · rcases hr.cell n hn with ⟨c1, c2⟩ | ⟨l, pre, post, c1, c2, c3, c4⟩
    · rw [isCellRoot, c1, c2]; rfl
    · rw [isCellRoot, c4, c1]
      simp only [Option.map_some, Option.isSome_some, Option.some.injEq, decide_eq_true_iff]
      omega
  · intro l hl
    rcases hr.cell n hn with ⟨c1, c2⟩ | ⟨l', pre, post, c1, c2, c3, c4⟩
    · rw [c2] at hl; simp at hl
    · rw [c1] at hl
      obtain rfl := Option.some.inj hl
      have e1 : m.mappings[pre.length]? = some l'.length := by
        rw [c2, List.append_assoc, List.getElem?_append_right (Nat.le_refl _)]
        simp
      have e2 : m.mappings.length = pre.length + 1 + l'.length + post.length := by
        rw [c2]; simp; omega
      simp only [cellFanins, c4, e1]
      rw [if_pos (by omega), c2]
      congr 1
      rw [List.append_assoc, List.drop_append, List.drop_of_length_le (by omega)]
      simp
  · obtain ⟨lit, e1, e2⟩ := hr.fn n hn
    rw [cellFunction, e1]; exact e2

/-- C33: after any sequence of calls on nodes of the network the view answers from the last relevant call. -/
theorem C33_mapping (size : Nat) (ops : List Op) (hops : ∀ op ∈ ops, OpOk size op) :
    ∃ m, (Mapping.init size).run ops = some m ∧ m.numCells = rootCount size ops.reverse ∧
      (m.hasMapping = true ↔ ∃ n, n < size ∧ (leavesOf n ops.reverse).isSome) ∧
      ∀ n, n < size → m.isCellRoot n = some (leavesOf n ops.reverse).isSome ∧
        (∀ l, leavesOf n ops.reverse = some l → m.cellFanins n = some l) ∧ m.cellFunction n = some (functionOf n ops.reverse) := by
  obtain ⟨m, h1, h2⟩ := (Rep.init size).run ops hops
  rw [List.append_nil] at h2
  refine ⟨m, h1, h2.count, ?_, fun n hn => h2.answers n hn⟩
  rw [hasMapping, decide_eq_true_iff, h2.count, rootCount, List.countP_pos_iff]
  simp only [List.mem_range]

/-- cells added, replaced, removed and added again; a cell without leaves; a function that outlives its cell -/
example : let ops := [Op.add 4 [1, 2], .setFunction 4 (TT.nthVar 2 1), .add 5 [4, 3], .add 4 [1], .remove 5, .add 2 []]
    (∀ op ∈ ops, OpOk 6 op) ∧
    rootCount 6 ops.reverse = 2 ∧ leavesOf 4 ops.reverse = some [1] ∧ leavesOf 5 ops.reverse = none ∧
    functionOf 4 ops.reverse = TT.nthVar 2 1 ∧ leavesOf 2 ops.reverse = some [] := by
  refine ⟨?_, by decide +kernel, by decide +kernel, by decide +kernel, by decide +kernel, by decide +kernel⟩
  intro op hop
  simp only [List.mem_cons, List.not_mem_nil, or_false] at hop
  rcases hop with rfl | rfl | rfl | rfl | rfl | rfl <;> simp [OpOk, TT.wf_nthVar]

end Verif.Mapping
