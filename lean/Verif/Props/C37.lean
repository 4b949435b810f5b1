import Verif.Mapping.Area
import Verif.RefDeref.Cone
import Verif.Aig.Inv
import Mathlib.Algebra.BigOperators.Group.Finset.Piecewise

set_option autoImplicit false

/-!
# C37: exact-area probing leaves no trace
-/

namespace Verif.Mapper

open RefDeref

/-- The cover is acyclic: the leaves of the best cut of every node other than primary inputs and the
constant have a smaller rank. (Without choice nodes the node index is a rank.) -/
def Cover.Below (C : Cover) (r : Nat → Nat) : Prop := ∀ n, C.term n = false → ∀ m ∈ C.best n, r m < r n

/-- the generic reference counting scheme the probing functions are instances of -/
def Cover.param (C : Cover) (cost : List Nat → Nat) : Param := ⟨C.best, C.term, fun n => cost (C.best n)⟩

theorem Cover.Below.acyclic {C : Cover} {r : Nat → Nat} (h : C.Below r) (cost : List Nat → Nat) :
    Acyclic (C.param cost) r := h

variable {C : Cover} {cost : List Nat → Nat}

theorem derefLoop_eq (rec : List Nat → Vals → Option (Vals × Nat)) : ∀ (l : List Nat) (v : Vals) (a : Nat),
    derefLoop C rec l v a = derefKids (fun m v => if C.term m then some (v, 0) else rec (C.best m) v) l v a := by
  intro l
  induction l with
  | nil => intro v a; rfl
  | cons m l ih =>
    intro v a
    simp only [derefLoop, derefKids]
    generalize v.add m (-1) = u
    by_cases h1 : u m = 0
    · cases h2 : C.term m with
      | true => simp [h1, ih]
      | false =>
        simp only [h1, ih, ne_eq, not_true_eq_false, decide_false, Bool.or_false, Bool.false_eq_true, if_false,
          if_true]
        split <;> simp_all only
    · have h3 : decide (u m ≠ 0) = true := decide_eq_true h1
      rw [if_neg h1, h3, Bool.true_or, if_pos rfl, ih]

theorem refLoop_eq (rec : List Nat → Vals → Option (Vals × Nat)) : ∀ (l : List Nat) (v : Vals) (a : Nat),
    refLoop C rec l v a = refKids (fun m v => if C.term m then some (v, 0) else rec (C.best m) v) l v a := by
  intro l
  induction l with
  | nil => intro v a; rfl
  | cons m l ih =>
    intro v a
    simp only [refLoop, refKids]
    by_cases h1 : v m = 0
    · cases h2 : C.term m with
      | true => simp [h1, ih]
      | false =>
        simp only [h1, ih, ne_eq, not_true_eq_false, decide_false, Bool.or_false, Bool.false_eq_true, if_false,
          if_true]
        split <;> simp_all only
    · have h3 : decide (v m ≠ 0) = true := decide_eq_true h1
      rw [if_neg h1, h3, Bool.true_or, if_pos rfl, ih]

theorem cutDeref_un : ∀ (f : Nat) (cut : List Nat) (v w : Vals) (c : Nat), cutDeref C cost f cut v = some (w, c) →
    ∃ c', Un (C.param cost) cut v w c' ∧ c = cost cut + c' := by
  intro f
  induction f with
  | zero => intro cut v w c h; cases h
  | succ f ih =>
    intro cut v w c h
    rw [cutDeref, derefLoop_eq] at h
    refine derefKids_un (fun m v w c h => ?_) _ _ _ _ _ h
    cases ht : C.term m with
    | true =>
      simp only [ht, if_true, Option.some.injEq, Prod.mk.injEq] at h
      obtain ⟨rfl, rfl⟩ := h
      exact ⟨0, by simp [body, Cover.param, ht]; exact .nil _, by simp [bcost, Cover.param, ht]⟩
    | false =>
      simp only [ht, Bool.false_eq_true, if_false] at h
      obtain ⟨c', h1, h2⟩ := ih _ _ _ _ h
      exact ⟨c', by simpa [body, Cover.param, ht] using h1, by simpa [bcost, Cover.param, ht] using h2⟩

theorem cutRef_run : ∀ (f : Nat) (cut : List Nat) (v w : Vals) (c : Nat), cutRef C cost f cut v = some (w, c) →
    ∃ c', Run (C.param cost) (cut : Multiset Nat) v w c' ∧ c = cost cut + c' := by
  intro f
  induction f with
  | zero => intro cut v w c h; cases h
  | succ f ih =>
    intro cut v w c h
    rw [cutRef, refLoop_eq] at h
    refine refKids_run (fun m v w c h => ?_) _ _ _ _ _ h
    cases ht : C.term m with
    | true =>
      simp only [ht, if_true, Option.some.injEq, Prod.mk.injEq] at h
      obtain ⟨rfl, rfl⟩ := h
      exact ⟨0, by simp [body, Cover.param, ht]; exact .nil _, by simp [bcost, Cover.param, ht]⟩
    | false =>
      simp only [ht, Bool.false_eq_true, if_false] at h
      obtain ⟨c', h1, h2⟩ := ih _ _ _ _ h
      exact ⟨c', by simpa [body, Cover.param, ht] using h1, by simpa [bcost, Cover.param, ht] using h2⟩

theorem cutDeref_total {r : Nat → Nat} (h : C.Below r) : ∀ (f : Nat) (cut : List Nat) (v : Vals),
    (∀ m ∈ cut, r m < f) → ∃ o, cutDeref C cost (f + 1) cut v = some o := by
  intro f
  induction f with
  | zero =>
    intro cut v hc
    cases cut with
    | nil => exact ⟨_, rfl⟩
    | cons m l => exact absurd (hc m (by simp)) (Nat.not_lt_zero _)
  | succ f ih =>
    intro cut v hc
    rw [cutDeref, derefLoop_eq]
    refine derefKids_total (k := f + 1) (fun m v hm => ?_) _ _ _ hc
    cases ht : C.term m with
    | true => exact ⟨(v, 0), by simp⟩
    | false =>
      obtain ⟨o, ho⟩ := ih (C.best m) v fun x hx => by have := h m ht x hx; omega
      exact ⟨o, by simp [ho]⟩

theorem cutRef_total {r : Nat → Nat} (h : C.Below r) : ∀ (f : Nat) (cut : List Nat) (v : Vals),
    (∀ m ∈ cut, r m < f) → ∃ o, cutRef C cost (f + 1) cut v = some o := by
  intro f
  induction f with
  | zero =>
    intro cut v hc
    cases cut with
    | nil => exact ⟨_, rfl⟩
    | cons m l => exact absurd (hc m (by simp)) (Nat.not_lt_zero _)
  | succ f ih =>
    intro cut v hc
    rw [cutRef, refLoop_eq]
    refine refKids_total (k := f + 1) (fun m v hm => ?_) _ _ _ hc
    cases ht : C.term m with
    | true => exact ⟨(v, 0), by simp⟩
    | false =>
      obtain ⟨o, ho⟩ := ih (C.best m) v fun x hx => by have := h m ht x hx; omega
      exact ⟨o, by simp [ho]⟩

/-- C37 for covers in which every node other than primary inputs and the constant has its best cut below
it.  For every cut (not only best cuts), all 32-bit counter values and both cost measures (`cost` constantly
1 for the area, the number of leaves for the edges): dereferencing terminates, referencing afterwards
terminates, restores every counter, and reports the same cost.
Missing: networks with registers, whose register outputs have the trivial best cut; there the claim fails
(`C37_violated`). -/
theorem C37_deref_ref_partial (C : Cover) (cost : List Nat → Nat) (r : Nat → Nat) (h : C.Below r) (f : Nat)
    (cut : List Nat) (hf : ∀ m ∈ cut, r m < f) (v : Vals) :
    ∃ w c, cutDeref C cost (f + 1) cut v = some (w, c) ∧ cutRef C cost (f + 1) cut w = some (v, c) := by
  obtain ⟨⟨w, c⟩, h1⟩ := cutDeref_total (cost := cost) h f cut v hf
  obtain ⟨⟨v', c'⟩, h2⟩ := cutRef_total (cost := cost) h f cut w hf
  obtain ⟨d, r1, e1⟩ := cutDeref_un _ _ _ _ _ h1
  obtain ⟨d', r2, e2⟩ := cutRef_run _ _ _ _ _ h2
  obtain ⟨rfl, rfl⟩ := (r1.run (h.acyclic cost)).det r2
  exact ⟨w, c, h1, by rw [h2, e1, e2]⟩

/-- C37, the other direction, under the same conditions. -/
theorem C37_ref_deref_partial (C : Cover) (cost : List Nat → Nat) (r : Nat → Nat) (h : C.Below r) (f : Nat)
    (cut : List Nat) (hf : ∀ m ∈ cut, r m < f) (v : Vals) :
    ∃ w c, cutRef C cost (f + 1) cut v = some (w, c) ∧ cutDeref C cost (f + 1) cut w = some (v, c) := by
  obtain ⟨⟨w, c⟩, h1⟩ := cutRef_total (cost := cost) h f cut v hf
  obtain ⟨⟨v', c'⟩, h2⟩ := cutDeref_total (cost := cost) h f cut w hf
  obtain ⟨d, r1, e1⟩ := cutRef_run _ _ _ _ _ h1
  obtain ⟨d', r2, e2⟩ := cutDeref_un _ _ _ _ _ h2
  obtain ⟨rfl, rfl⟩ := r2.undo (h.acyclic cost) r1
  exact ⟨w, c, h1, by rw [h2, e1, e2]⟩

/-- C37 for the functions the mapper calls: `cut_area_derefed` and `cut_area_refed` (and the edge versions)
leave all counters unchanged, and on cuts with at least two leaves they return what referencing
(dereferencing) the cut costs. -/
theorem C37_probe_partial (C : Cover) (cost : List Nat → Nat) (r : Nat → Nat) (h : C.Below r) (f : Nat)
    (cut : List Nat) (hf : ∀ m ∈ cut, r m < f) (v : Vals) :
    (∃ w c, cutRef C cost (f + 1) cut v = some (w, c) ∧
      cutDerefed C cost (f + 1) cut v = some (v, if cut.length < 2 then 0 else c)) ∧
    (∃ w c, cutDeref C cost (f + 1) cut v = some (w, c) ∧
      cutRefed C cost (f + 1) cut v = some (v, if cut.length < 2 then 0 else c)) := by
  obtain ⟨w, c, h1, h2⟩ := C37_ref_deref_partial C cost r h f cut hf v
  obtain ⟨w', c', h3, h4⟩ := C37_deref_ref_partial C cost r h f cut hf v
  refine ⟨⟨w, c, h1, ?_⟩, ⟨w', c', h3, ?_⟩⟩
  · unfold cutDerefed; split
    · rfl
    · rw [h1]; exact h2
  · unfold cutRefed; split
    · rfl
    · rw [h3]; exact h4

/-- What the area measures.  Let `nodes` be closed under best cuts and contain the cut, and let the counters
count at least the uses by the cut and by the best cuts of all nodes in `nodes`.  Then the area reported by
dereferencing the cut is one plus the number of gates whose counter drops to zero, and each counter loses
exactly the uses by the cut and by the best cuts of the nodes that drop to zero. -/
theorem C37_area (C : Cover) (nodes : Finset Nat) (cut : List Nat) (hcut : ∀ m ∈ cut, m ∈ nodes)
    (hcl : ∀ g ∈ nodes, C.term g = false → ∀ m ∈ C.best g, m ∈ nodes) (v w : Vals)
    (hv : ∀ m, cut.count m + ∑ g ∈ nodes, (if C.term g then 0 else (C.best g).count m) ≤ (v m).toNat)
    (f c : Nat) (h : cutDeref C (fun _ => 1) f cut v = some (w, c)) :
    let X := nodes.filter fun g => v g ≠ 0 ∧ w g = 0
    c = 1 + (X.filter fun g => C.term g = false).card ∧
      ∀ m, (v m).toNat = (w m).toNat + cut.count m + ∑ g ∈ X, (if C.term g then 0 else (C.best g).count m) := by
  intro X
  have hb : ∀ g m, (if C.term g then 0 else (C.best g).count m) =
      (body (C.param fun _ => 1) g).count m := by
    intro g m; cases ht : C.term g <;> simp [body, Cover.param, ht]
  simp only [hb] at hv ⊢
  obtain ⟨c', h1, e1⟩ := cutDeref_un _ _ _ _ _ h
  obtain ⟨F, f1, _, _, f4, f5, f6⟩ := h1.cone nodes [] nodes (by
      intro m; have := hv m; simp only [List.count_nil]; omega)
    (fun g hg m hm => by
      unfold body at hm
      cases ht : C.term g with
      | true => simp [Cover.param, ht] at hm
      | false => simp [Cover.param, ht] at hm; exact hcl g hg ht m hm)
    (fun m hm hm' => absurd hm hm') hcut
  have hX : X = F := by
    ext g; simp only [X, Finset.mem_filter, f6]
    exact ⟨fun h => h.2, fun h => ⟨f1 ((f6 g).2 h), h⟩⟩
  rw [hX]
  refine ⟨?_, f5⟩
  rw [e1, f4, Finset.card_filter]
  congr 1
  apply Finset.sum_congr rfl
  intro g _
  cases ht : C.term g <;> simp [bcost, Cover.param, ht]

/-- a network with one register: input 1, register output 2, node 3 = AND(1, 2), which drives the output
and the register -/
def regNet : Aig :=
  let N := (Aig.empty.createPi.1.createRo).1
  let N := (N.createAnd ⟨1, false⟩ ⟨2, false⟩).1
  (N.createPo ⟨3, false⟩).createRi ⟨3, false⟩ (-1)

/-- inputs and registers have the trivial best cut (klut_mapping.hpp 205-211), node 3 the cut {1, 2} -/
def regCover : Cover := ⟨regNet, fun n => if n = 3 then [1, 2] else [n]⟩

theorem regNet_built : Aig.Built regNet := by
  refine .ri (.po (.and (.ro (.pi .empty)) ?_ ?_) ?_) ?_ <;> (unfold Aig.Valid; decide)

/-- C37 is violated in networks with registers: `is_pi` does not hold for register outputs, so the recursion
enters their trivial cut.  Dereferencing and referencing the cut of node 3, each of whose leaves is used
once, leaves the counter of the register at 0 instead of 1. -/
theorem C37_violated : ∃ w c u d, cutDeref regCover (fun _ => 1) 9 [1, 2] (fun _ => 1) = some (w, c) ∧
    cutRef regCover (fun _ => 1) 9 [1, 2] w = some (u, d) ∧ u 2 = 0 := ⟨_, _, _, _, rfl, rfl, by decide⟩

/-- A cover with sharing, on a network with two inputs and gates 3 = AND(1,2), 4 = AND(3,1), 5 = AND(3,4). -/
def demoCover : Cover :=
  let N := (Aig.empty.createPi.1.createPi).1
  let N := (N.createAnd ⟨1, false⟩ ⟨2, false⟩).1
  let N := (N.createAnd ⟨3, true⟩ ⟨1, false⟩).1
  let N := (N.createAnd ⟨3, false⟩ ⟨4, true⟩).1
  ⟨N, fun n => if n = 5 then [3, 4] else if n = 4 then [1, 3] else if n = 3 then [1, 2] else []⟩

theorem demoCover_below : demoCover.Below id := by
  intro n _ m hm
  simp only [demoCover] at hm
  simp only [id]
  split at hm
  · simp at hm; omega
  split at hm
  · simp at hm; omega
  split at hm
  · simp at hm; omega
  · simp at hm

/-- exact counters of `demoCover` with the cut {3, 4} in use: three cells -/
example : (cutDeref demoCover (fun _ => 1) 9 [3, 4] (fun n => if n = 1 then 2 else if n = 3 then 2 else 1)).map
    (fun o => (o.2, o.1 1, o.1 2, o.1 3, o.1 4)) = some (3, 0, 0, 0, 0) := by decide

/-- the same counters meet the hypothesis of `C37_area` -/
example : ∀ m ∈ Finset.range 5, [3, 4].count m +
    ∑ g ∈ Finset.range 5, (if demoCover.term g then 0 else (demoCover.best g).count m) ≤
    ((fun n => if n = 1 then 2 else if n = 3 then 2 else 1 : Vals) m).toNat := by decide

end Verif.Mapper
