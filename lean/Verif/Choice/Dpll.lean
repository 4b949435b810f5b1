import Verif.Props.C62

set_option autoImplicit false

/-!
# A solver for examples

Not a part of the program: a small solver that can be run, so that the hypotheses on the SAT solver (`Sound`, `Right`) are shown to be met by an
algorithm and concrete runs can be computed.
-/

namespace Verif.Choice.Prover
open Cnf (Answer LitTrue Satisfies litNot litTrue_not)

/-- clauses that are left if the literal is true -/
def assign (l : Nat) (cs : List (List Nat)) : List (List Nat) := (cs.filter fun c => !c.contains l).map fun c => c.filter fun m => m != litNot l

/-- assignment with the literal made true -/
def withLit (l : Nat) (a : Nat → Bool) : Nat → Bool := fun v => if v = l / 2 then l % 2 == 0 else a v

/-- case analysis on the first literal of the first clause, at most so many times on top of each other -/
def dpll : Nat → List (List Nat) → Answer
  | 0, _ => .timeout
  | _ + 1, [] => .sat fun _ => false
  | _ + 1, [] :: _ => .unsat
  | f + 1, (l :: c) :: cs =>
    match dpll f (assign l ((l :: c) :: cs)) with
    | .sat a => .sat (withLit l a)
    | .timeout => .timeout
    | .unsat =>
      match dpll f (assign (litNot l) ((l :: c) :: cs)) with
      | .sat a => .sat (withLit (litNot l) a)
      | .timeout => .timeout
      | .unsat => .unsat

theorem lit_cases {l m : Nat} (h1 : m ≠ l) (h2 : m ≠ litNot l) : m / 2 ≠ l / 2 := by
  intro h
  unfold litNot at h2
  split at h2 <;> omega

theorem withLit_true (l : Nat) (a : Nat → Bool) : LitTrue (withLit l a) l := by
  unfold LitTrue withLit
  simp

theorem assign_back {l : Nat} {cs : List (List Nat)} {a : Nat → Bool} (h : Satisfies a (assign l cs)) : Satisfies (withLit l a) cs := by
  intro c hc
  by_cases hl : l ∈ c
  · exact ⟨l, hl, withLit_true l a⟩
  · obtain ⟨m, hm, ht⟩ := h (c.filter fun m => m != litNot l) (List.mem_map.2 ⟨c, List.mem_filter.2 ⟨hc, by simpa using hl⟩, rfl⟩)
    obtain ⟨h1, h2⟩ := List.mem_filter.1 hm
    refine ⟨m, h1, ?_⟩
    have := lit_cases (l := l) (m := m) (fun e => hl (e ▸ h1)) (by simpa using h2)
    unfold LitTrue withLit at *
    rw [if_neg this]
    exact ht

theorem assign_sat {l : Nat} {cs : List (List Nat)} {a : Nat → Bool} (h : Satisfies a cs) (hl : LitTrue a l) : Satisfies a (assign l cs) := by
  intro d hd
  obtain ⟨c, hc, rfl⟩ := List.mem_map.1 hd
  obtain ⟨h1, _⟩ := List.mem_filter.1 hc
  obtain ⟨m, hm, ht⟩ := h c h1
  refine ⟨m, List.mem_filter.2 ⟨hm, ?_⟩, ht⟩
  simp only [bne_iff_ne, ne_eq]
  rintro rfl
  exact (litTrue_not a l).1 ht hl

theorem dpll_unsat : ∀ (f : Nat) (cs : List (List Nat)), dpll f cs = .unsat → ∀ a, ¬ Satisfies a cs
  | 0, cs, h => by simp [dpll] at h
  | f + 1, [], h => by simp [dpll] at h
  | f + 1, [] :: cs, _ => fun a ha => by
      obtain ⟨m, hm, _⟩ := ha [] List.mem_cons_self
      cases hm
  | f + 1, (l :: c) :: cs, h => fun a ha => by
      rw [dpll] at h
      split at h
      · cases h
      · cases h
      · next h1 =>
        split at h
        · cases h
        · cases h
        · next h2 =>
          by_cases hl : LitTrue a l
          · exact dpll_unsat f _ h1 a (assign_sat ha hl)
          · exact dpll_unsat f _ h2 a (assign_sat ha ((litTrue_not a l).2 hl))

theorem dpll_sat : ∀ (f : Nat) (cs : List (List Nat)) (a : Nat → Bool), dpll f cs = .sat a → Satisfies a cs
  | 0, cs, a, h => by simp [dpll] at h
  | f + 1, [], a, _ => fun c hc => by cases hc
  | f + 1, [] :: cs, a, h => by simp [dpll] at h
  | f + 1, (l :: c) :: cs, a, h => by
      rw [dpll] at h
      split at h
      · next b hb =>
        obtain rfl := Answer.sat.inj h
        exact assign_back (dpll_sat f _ b hb)
      · cases h
      · split at h
        · next b hb =>
          obtain rfl := Answer.sat.inj h
          exact assign_back (dpll_sat f _ b hb)
        · cases h
        · cases h

/-- number of literals -/
def total (cs : List (List Nat)) : Nat := (cs.map List.length).sum

theorem litNot_litNot (l : Nat) : litNot (litNot l) = l := by
  unfold litNot
  split <;> split <;> omega

theorem total_assign (m : Nat) : ∀ cs : List (List Nat), total (assign m cs) ≤ total cs
  | [] => Nat.le_refl _
  | c :: cs => by
      have ih := total_assign m cs
      have hl : (c.filter fun x => x != litNot m).length ≤ c.length := List.length_filter_le _ _
      unfold total assign at *
      rw [List.filter_cons]
      split
      · simp only [List.map_cons, List.sum_cons]
        omega
      · simp only [List.map_cons, List.sum_cons]
        omega

theorem total_less (l m : Nat) (c : List Nat) (cs : List (List Nat)) (h : m = l ∨ m = litNot l) :
    total (assign m ((l :: c) :: cs)) < total ((l :: c) :: cs) := by
  have ih := total_assign m cs
  unfold total assign at *
  rcases h with rfl | rfl
  · rw [List.filter_cons_of_neg (by simp)]
    simp only [List.map_cons, List.sum_cons, List.length_cons]
    omega
  · rw [List.filter_cons]
    split
    · have h2 : ((l :: c).filter fun x => x != litNot (litNot l)).length ≤ c.length := by
        rw [litNot_litNot, List.filter_cons_of_neg (by simp)]
        exact List.length_filter_le _ _
      simp only [List.map_cons, List.sum_cons, List.length_cons] at *
      omega
    · simp only [List.map_cons, List.sum_cons, List.length_cons]
      omega

theorem dpll_decides : ∀ (f : Nat) (cs : List (List Nat)), total cs < f → dpll f cs ≠ .timeout
  | 0, cs, h => by omega
  | f + 1, [], _ => by intro h; cases h
  | f + 1, [] :: cs, _ => by intro h; cases h
  | f + 1, (l :: c) :: cs, h => by
      have h1 := dpll_decides f _ (Nat.lt_of_lt_of_le (total_less l l c cs (.inl rfl)) (by omega))
      have h2 := dpll_decides f _ (Nat.lt_of_lt_of_le (total_less l (litNot l) c cs (.inr rfl)) (by omega))
      rw [dpll]
      split
      · intro h; cases h
      · next e => exact absurd e h1
      · split
        · intro h; cases h
        · next e => exact absurd e h2
        · intro h; cases h

/-- the assumptions are clauses of one literal -/
def search (_ : Nat) (cs : List (List Nat)) (as : List Nat) : Answer := dpll (total (as.map (fun l => [l]) ++ cs) + 1) (as.map (fun l => [l]) ++ cs)

theorem search_sound : Sound search := by
  intro k cs as h a ha hl
  refine dpll_unsat _ _ h a fun c hc => ?_
  rcases List.mem_append.1 hc with hc | hc
  · obtain ⟨l, hl', rfl⟩ := List.mem_map.1 hc
    exact ⟨l, List.mem_cons_self, hl l hl'⟩
  · exact ha c hc

theorem search_right : Right search := by
  intro k cs as a h
  have := dpll_sat _ _ a h
  refine ⟨fun c hc => this c (List.mem_append_right _ hc), fun l hl => ?_⟩
  obtain ⟨m, hm, ht⟩ := this [l] (List.mem_append_left _ (List.mem_map.2 ⟨l, hl, rfl⟩))
  rw [List.mem_singleton.1 hm] at ht
  exact ht

theorem search_decides (k : Nat) (cs : List (List Nat)) (as : List Nat) : search k cs as ≠ .timeout := dpll_decides _ _ (Nat.lt_succ_self _)

end Verif.Choice.Prover
