import Verif.Cnf.CheckerPar
import Verif.Cnf.CheckerParSpec
import Verif.Cnf.CheckerProof

set_option autoImplicit false

/-!
# The parallel checker of mapped networks (lemmas)
-/

namespace Verif.Checker.Par
open Cnf

/-! ### fan-outs and representatives -/

theorem mem_fanouts {N : Aig} (hN : N.Built) {m k : Nat} : m ∈ fanouts N k ↔ Reads N m k := by
  simp only [fanouts, List.mem_filter, decide_eq_true_eq]
  constructor
  · rintro ⟨h1, h2⟩
    obtain ⟨a, b, g⟩ := (hN.wf.mem_gates m).1 h1
    rw [(gate_kids hN g).1] at h2
    simp only [List.mem_cons, List.not_mem_nil, or_false] at h2
    exact ⟨a, b, g, h2.imp Eq.symm Eq.symm⟩
  · rintro ⟨a, b, g, h⟩
    refine ⟨(hN.wf.mem_gates m).2 ⟨a, b, g⟩, ?_⟩
    rw [(gate_kids hN g).1]
    simp only [List.mem_cons, List.not_mem_nil, or_false]
    exact h.imp Eq.symm Eq.symm

theorem fanouts_length (N : Aig) (k : Nat) : (fanouts N k).length ≤ N.nodes.length := by
  refine Nat.le_trans (List.length_filter_le _ _) ?_
  rw [Aig.gates]
  exact Nat.le_trans (List.length_filter_le _ _) (by rw [List.length_range])

theorem fanouts_lt {N : Aig} (hN : N.Built) {m k : Nat} (h : m ∈ fanouts N k) : m < N.nodes.length := by
  obtain ⟨a, b, g, _⟩ := (mem_fanouts hN).1 h
  exact (hN.wf.isGate_lt g).2.2.2

theorem collectChoices_rep {C : Choice} {k r : Nat} : ∀ (l : List Nat) (m0 R : Nat → Option Nat), l.Pairwise (· < ·) →
    collectChoices C l m0 = some R → R k = some r →
    (r ∈ l ∧ (∃ ms, members C r = some ms ∧ k ∈ ms) ∧ ∀ g ∈ l, r < g → ∃ ms, members C g = some ms ∧ k ∉ ms) ∨
    (m0 k = some r ∧ ∀ g ∈ l, ∃ ms, members C g = some ms ∧ k ∉ ms)
  | [], m0, R, _, e, h => by
    rw [collectChoices, Option.some.injEq] at e
    subst e
    exact .inr ⟨h, by simp⟩
  | n :: l, m0, R, hp, e, h => by
    rw [collectChoices] at e
    rw [List.pairwise_cons] at hp
    split at e
    · cases e
    · rename_i ms hms
      rcases collectChoices_rep l _ R hp.2 e h with ⟨h1, h2, h3⟩ | ⟨h1, h2⟩
      · refine .inl ⟨List.mem_cons_of_mem _ h1, h2, fun g hg hlt => ?_⟩
        rcases List.mem_cons.1 hg with rfl | hg
        · exact absurd (hp.1 r h1) (by omega)
        · exact h3 g hg hlt
      · split at h1
        · rename_i hk
          cases h1
          refine .inl ⟨by simp, ⟨ms, hms, hk⟩, fun g hg hlt => ?_⟩
          rcases List.mem_cons.1 hg with rfl | hg
          · omega
          · exact h2 g hg
        · rename_i hk
          refine .inr ⟨h1, fun g hg => ?_⟩
          rcases List.mem_cons.1 hg with rfl | hg
          · exact ⟨ms, hms, hk⟩
          · exact h2 g hg

theorem reprMap_iff {C : Choice} (hN : C.net.Built) {R : Nat → Option Nat} (e : reprMap C = some R) {n r : Nat} :
    R n = some r ↔ RepOf C n r := by
  constructor
  · intro h
    rcases collectChoices_rep C.net.gates (fun _ => none) R (WFgates_pairwise C.net) e h with ⟨h1, ⟨ms, h2, h2'⟩, h3⟩ | ⟨h1, _⟩
    · have := (mem_members h2 n).1 h2'
      refine ⟨(hN.wf.mem_gates r).1 h1, this.1, this.2, fun g hg hf hb => ?_⟩
      by_contra hlt
      obtain ⟨ms', h4, h5⟩ := h3 g ((hN.wf.mem_gates g).2 hg) (by omega)
      exact h5 ((mem_members h4 n).2 ⟨hf, hb⟩)
    · cases h1
  · intro h
    refine collectChoices_last C.net.gates (fun _ => none) R (WFgates_pairwise C.net) e ((hN.wf.mem_gates r).2 h.rep) ?_ ?_
    · intro ms hms; exact (mem_members hms n).2 ⟨h.used, h.behind⟩
    · intro g hg hlt ms hms hm
      have h' := (mem_members hms n).1 hm
      have := h.last g ((hN.wf.mem_gates g).1 hg) h'.1 h'.2
      omega

theorem reprMap_lt {C : Choice} (hN : C.net.Built) {R : Nat → Option Nat} (e : reprMap C = some R) {n r : Nat} (h : R n = some r) :
    r < C.net.nodes.length := by
  obtain ⟨a, b, g⟩ := ((reprMap_iff hN e).1 h).rep
  exact (hN.wf.isGate_lt g).2.2.2

/-! ### the search upwards -/

/-- the nodes that a visit of `n` puts into the queue -/
def succs (N : Aig) (R : Nat → Option Nat) (n : Nat) : List Nat :=
  match R n with
  | some r => r :: fanouts N r
  | none => fanouts N n

/-- the key that a visit of `n` looks up -/
def key (R : Nat → Option Nat) (n : Nat) : Nat :=
  match R n with
  | some r => r
  | none => n

theorem upLoop_cons (N : Aig) (R : Nat → Option Nat) (root fuel n : Nat) (q V A : List Nat) :
    upLoop N R root (fuel + 1) (n :: q) V A =
      if n ∈ V then upLoop N R root fuel q V A
      else if n = root then some (n :: V, A)
      else upLoop N R root fuel (q ++ succs N R n) (n :: V) (key R n :: A) := by
  rw [upLoop, succs, key]
  split
  · rfl
  · split
    · rfl
    · cases h : R n <;> rfl

theorem mem_succs {C : Choice} (hN : C.net.Built) {R : Nat → Option Nat} (e : reprMap C = some R) {n m : Nat} :
    m ∈ succs C.net R n ↔ Step C n m := by
  rw [succs, Step]
  cases h : R n with
  | some r =>
    dsimp only
    have hr := (reprMap_iff hN e).1 h
    have hu : ∀ r', RepOf C n r' → r' = r := fun r' h' => by
      have := (reprMap_iff hN e).2 h'
      rw [h] at this
      exact (Option.some.inj this).symm
    rw [List.mem_cons, mem_fanouts hN]
    constructor
    · rintro (rfl | h')
      · exact .inl hr
      · exact .inr ⟨r, .inl hr, h'⟩
    · rintro (h' | ⟨k, h' | ⟨_, h'⟩, h2⟩)
      · exact .inl (hu _ h')
      · rw [hu _ h'] at h2; exact .inr h2
      · exact absurd hr (h' r)
  | none =>
    dsimp only
    have hr : ∀ r, ¬ RepOf C n r := fun r h' => by
      have := (reprMap_iff hN e).2 h'
      rw [h] at this
      cases this
    rw [mem_fanouts hN]
    constructor
    · intro h'; exact .inr ⟨n, .inr ⟨rfl, hr⟩, h'⟩
    · rintro (h' | ⟨k, h' | ⟨rfl, _⟩, h2⟩)
      · exact absurd h' (hr _)
      · exact absurd h' (hr _)
      · exact h2

theorem key_spec {C : Choice} (hN : C.net.Built) {R : Nat → Option Nat} (e : reprMap C = some R) (n : Nat) : Key C n (key R n) := by
  rw [key]
  cases h : R n with
  | some r => exact .inl ((reprMap_iff hN e).1 h)
  | none =>
    refine .inr ⟨rfl, fun r h' => ?_⟩
    have := (reprMap_iff hN e).2 h'
    rw [h] at this
    cases this

/-- invariant of the search, for queue and visited nodes with their numbers of steps -/
structure Inv (C : Choice) (root : Nat) (leaves : List Nat) (Q V : List (Nat × Nat)) (A : List Nat) : Prop where
  qw : ∀ p ∈ Q, Walk C root leaves p.2 p.1
  vw : ∀ p ∈ V, Walk C root leaves p.2 p.1 ∧ p.1 ≠ root
  sorted : Q.Pairwise fun p q => p.2 ≤ q.2
  near : ∀ p ∈ Q, ∀ q ∈ Q, q.2 ≤ p.2 + 1
  vle : ∀ p ∈ V, ∀ q ∈ Q, p.2 ≤ q.2
  start : ∀ l ∈ leaves, ∃ j, j ≤ 0 ∧ ((l, j) ∈ V ∨ (l, j) ∈ Q)
  closed : ∀ p ∈ V, ∀ m, Step C p.1 m → ∃ j, j ≤ p.2 + 1 ∧ ((m, j) ∈ V ∨ (m, j) ∈ Q)
  keys : ∀ k ∈ A, ∃ n i, Walk C root leaves i n ∧ n ≠ root ∧ Key C n k

theorem Inv.reach {C : Choice} {root : Nat} {leaves : List Nat} {Q V : List (Nat × Nat)} {A : List Nat} (h : Inv C root leaves Q V A)
    {k n : Nat} (w : Walk C root leaves k n) : (∃ j, j ≤ k ∧ (n, j) ∈ V) ∨ ∃ p ∈ Q, p.2 ≤ k := by
  induction w with
  | leaf hl =>
    obtain ⟨j, hj, h1 | h1⟩ := h.start _ hl
    · exact .inl ⟨j, hj, h1⟩
    · exact .inr ⟨_, h1, hj⟩
  | @step k n m _ _ hs ih =>
    rcases ih with ⟨j, hj, h1⟩ | ⟨p, hp, h1⟩
    · obtain ⟨i, hi, h2⟩ := h.closed _ h1 m hs
      dsimp only at hi
      rcases h2 with h2 | h2
      · exact .inl ⟨i, by omega, h2⟩
      · exact .inr ⟨_, h2, by dsimp only; omega⟩
    · exact .inr ⟨p, hp, by omega⟩

/-- what the search has found when it ends -/
structure Found (C : Choice) (root : Nat) (leaves W B : List Nat) : Prop where
  walk : ∀ n ∈ W, ∃ k, Walk C root leaves k n
  keys : ∀ k ∈ B, ∃ n i, Walk C root leaves i n ∧ n ≠ root ∧ Key C n k
  near : ∀ n, Nearer C root leaves n → n ∈ W
  root : (∃ k, Walk C root leaves k root) → root ∈ W

theorem upLoop_found {C : Choice} (hN : C.net.Built) {R : Nat → Option Nat} (eR : reprMap C = some R) {root : Nat} {leaves : List Nat} :
    ∀ (fuel : Nat) (Q V : List (Nat × Nat)) (A W B : List Nat), Inv C root leaves Q V A →
      upLoop C.net R root fuel (Q.map Prod.fst) (V.map Prod.fst) A = some (W, B) → Found C root leaves W B
  | fuel, [], V, A, W, B, h, e => by
    have : upLoop C.net R root fuel [] (V.map Prod.fst) A = some (V.map Prod.fst, A) := by cases fuel <;> rfl
    rw [List.map_nil, this, Option.some.injEq, Prod.mk.injEq] at e
    obtain ⟨rfl, rfl⟩ := e
    have hall : ∀ k n, Walk C root leaves k n → n ∈ V.map Prod.fst := by
      intro k n w
      rcases h.reach w with ⟨j, _, h1⟩ | ⟨p, hp, _⟩
      · exact List.mem_map.2 ⟨_, h1, rfl⟩
      · cases hp
    refine ⟨fun n hn => ?_, h.keys, fun n ⟨k, w, _⟩ => hall k n w, fun ⟨k, w⟩ => hall k _ w⟩
    obtain ⟨p, hp, rfl⟩ := List.mem_map.1 hn
    exact ⟨_, (h.vw p hp).1⟩
  | 0, _ :: _, _, _, _, _, _, e => by cases e
  | fuel + 1, (n, i) :: Q, V, A, W, B, h, e => by
    rw [List.map_cons, upLoop_cons] at e
    have hs := List.pairwise_cons.1 h.sorted
    have hq : ∀ p ∈ Q, p ∈ (n, i) :: Q := fun p hp => List.mem_cons_of_mem _ hp
    split at e
    · rename_i hin
      obtain ⟨⟨n', j⟩, hp, e'⟩ := List.mem_map.1 hin
      dsimp only at e'
      subst e'
      have hji := h.vle _ hp (n', i) (by simp)
      dsimp only at hji
      have hmv : ∀ m b, (∃ j, j ≤ b ∧ ((m, j) ∈ V ∨ (m, j) ∈ (n', i) :: Q)) → ∃ j, j ≤ b ∧ ((m, j) ∈ V ∨ (m, j) ∈ Q) := by
        rintro m b ⟨c, hc, h1 | h1⟩
        · exact ⟨c, hc, .inl h1⟩
        · rcases List.mem_cons.1 h1 with h1 | h1
          · rw [Prod.mk.injEq] at h1
            obtain ⟨rfl, rfl⟩ := h1
            exact ⟨j, by omega, .inl hp⟩
          · exact ⟨c, hc, .inr h1⟩
      exact upLoop_found hN eR fuel Q V A W B
        ⟨fun p hp => h.qw p (hq p hp), h.vw, hs.2, fun p hp q hq' => h.near p (hq p hp) q (hq q hq'),
          fun p hp q hq' => h.vle p hp q (hq q hq'), fun l hl => hmv l 0 (h.start l hl),
          fun p hp m hm => hmv m _ (h.closed p hp m hm), h.keys⟩ e
    · rename_i hin
      split at e
      · rename_i hroot
        subst hroot
        rw [Option.some.injEq, Prod.mk.injEq] at e
        obtain ⟨rfl, rfl⟩ := e
        have hw := h.qw (n, i) (by simp)
        dsimp only at hw
        refine ⟨fun m hm => ?_, h.keys, fun m ⟨k, w, hk⟩ => ?_, fun _ => by simp⟩
        · rcases List.mem_cons.1 hm with rfl | hm
          · exact ⟨i, hw⟩
          · obtain ⟨p, hp, rfl⟩ := List.mem_map.1 hm
            exact ⟨_, (h.vw p hp).1⟩
        · have hki : k < i := by
            by_contra hlt
            exact hk i (by omega) hw
          rcases h.reach w with ⟨j, _, h1⟩ | ⟨p, hp, h1⟩
          · exact List.mem_cons_of_mem _ (List.mem_map.2 ⟨_, h1, rfl⟩)
          · rcases List.mem_cons.1 hp with rfl | hp
            · dsimp only at h1; omega
            · have := hs.1 p hp
              dsimp only at this
              omega
      · rename_i hroot
        have hw := h.qw (n, i) (by simp)
        dsimp only at hw
        have hQ : (Q ++ (succs C.net R n).map fun m => (m, i + 1)).map Prod.fst = Q.map Prod.fst ++ succs C.net R n := by
          rw [List.map_append, List.map_map]
          congr 1
          exact List.map_id _
        have hpush : ∀ p ∈ Q ++ (succs C.net R n).map (fun m => (m, i + 1)), p ∈ Q ∨ p.2 = i + 1 ∧ Step C n p.1 := by
          intro p hp
          rcases List.mem_append.1 hp with hp | hp
          · exact .inl hp
          · obtain ⟨m, hm, rfl⟩ := List.mem_map.1 hp
            exact .inr ⟨rfl, (mem_succs hN eR).1 hm⟩
        have hle1 : ∀ p ∈ Q, p.2 ≤ i + 1 := fun p hp => h.near (n, i) (by simp) p (hq p hp)
        have hge : ∀ p ∈ Q, i ≤ p.2 := fun p hp => hs.1 p hp
        have hmv : ∀ m b, (∃ j, j ≤ b ∧ ((m, j) ∈ V ∨ (m, j) ∈ (n, i) :: Q)) →
            ∃ j, j ≤ b ∧ ((m, j) ∈ (n, i) :: V ∨ (m, j) ∈ Q ++ (succs C.net R n).map fun m => (m, i + 1)) := by
          rintro m b ⟨c, hc, h1 | h1⟩
          · exact ⟨c, hc, .inl (List.mem_cons_of_mem _ h1)⟩
          · rcases List.mem_cons.1 h1 with h1 | h1
            · exact ⟨c, hc, .inl (by rw [h1]; simp)⟩
            · exact ⟨c, hc, .inr (List.mem_append_left _ h1)⟩
        rw [← hQ, show n :: V.map Prod.fst = ((n, i) :: V).map Prod.fst from rfl] at e
        refine upLoop_found hN eR fuel _ _ _ W B ⟨?_, ?_, ?_, ?_, ?_, ?_, ?_, ?_⟩ e
        · intro p hp
          rcases hpush p hp with hp | ⟨h1, h2⟩
          · exact h.qw p (hq p hp)
          · rw [h1]; exact .step hw hroot h2
        · intro p hp
          rcases List.mem_cons.1 hp with rfl | hp
          · exact ⟨hw, hroot⟩
          · exact h.vw p hp
        · rw [List.pairwise_append]
          refine ⟨hs.2, ?_, ?_⟩
          · rw [List.pairwise_map]
            exact List.pairwise_iff_forall_sublist.2 (fun _ => Nat.le_refl _)
          · intro p hp q hq'
            obtain ⟨m, _, rfl⟩ := List.mem_map.1 hq'
            exact hle1 p hp
        · intro p hp q hq'
          have h1 : i ≤ p.2 := by
            rcases hpush p hp with hp | ⟨h1, _⟩
            · exact hge p hp
            · omega
          have h2 : q.2 ≤ i + 1 := by
            rcases hpush q hq' with hp | ⟨h1, _⟩
            · exact hle1 q hp
            · omega
          omega
        · intro p hp q hq'
          have h1 : i ≤ q.2 := by
            rcases hpush q hq' with hp | ⟨h1, _⟩
            · exact hge q hp
            · omega
          rcases List.mem_cons.1 hp with rfl | hp
          · exact h1
          · have := h.vle p hp (n, i) (by simp)
            dsimp only at this
            omega
        · intro l hl
          exact hmv l 0 (h.start l hl)
        · intro p hp m hm
          rcases List.mem_cons.1 hp with rfl | hp
          · exact ⟨i + 1, Nat.le_refl _, .inr (List.mem_append_right _ (List.mem_map.2 ⟨m, (mem_succs hN eR).2 hm, rfl⟩))⟩
          · exact hmv m _ (h.closed p hp m hm)
        · intro k hk
          rcases List.mem_cons.1 hk with rfl | hk
          · exact ⟨n, i, hw, hroot, key_spec hN eR n⟩
          · exact h.keys k hk

theorem upCone_found {C : Choice} (hN : C.net.Built) {R : Nat → Option Nat} (eR : reprMap C = some R) {fuel root : Nat} {leaves ns A : List Nat}
    (e : upCone C.net R fuel root leaves = some (ns, A)) : Found C root leaves ns A ∧ ∀ n ∈ ns, n < C.net.nodes.length := by
  rw [upCone] at e
  split at e
  · cases e
  · rename_i V B hV
    split at e
    · rename_i hall
      rw [Option.some.injEq, Prod.mk.injEq] at e
      obtain ⟨rfl, rfl⟩ := e
      have hf := upLoop_found hN eR (root := root) (leaves := leaves) fuel (leaves.map fun l => (l, 0)) [] [] V B (by
        refine ⟨?_, by simp, ?_, ?_, by simp, fun l hl => ⟨0, Nat.le_refl _, .inr (List.mem_map.2 ⟨l, hl, rfl⟩)⟩, by simp, by simp⟩
        · intro p hp
          obtain ⟨l, hl, rfl⟩ := List.mem_map.1 hp
          exact .leaf hl
        · rw [List.pairwise_map]
          exact List.pairwise_iff_forall_sublist.2 (fun _ => Nat.le_refl _)
        · intro p hp q hq
          obtain ⟨l, hl, rfl⟩ := List.mem_map.1 hq
          simp) (by
        rw [List.map_map, List.map_nil, show (Prod.fst ∘ fun l : Nat => (l, 0)) = id from rfl, List.map_id]
        exact hV)
      have hm : ∀ n, n ∈ (List.range C.net.nodes.length).filter (decide <| · ∈ V) ↔ n ∈ V := by
        intro n
        simp only [List.mem_filter, List.mem_range, decide_eq_true_eq, and_iff_right_iff_imp]
        intro hn
        simpa using List.all_eq_true.1 hall n hn
      refine ⟨⟨fun n hn => hf.walk n ((hm n).1 hn), hf.keys, fun n hn => (hm n).2 (hf.near n hn), fun h => (hm root).2 (hf.root h)⟩, ?_⟩
      intro n hn
      exact List.mem_range.1 (List.mem_filter.1 hn).1
    · cases e

/-- a number of rounds that suffices -/
def coneFuel (C : Choice) : Nat := C.net.nodes.length * (C.net.nodes.length + 3)

theorem upLoop_defined {C : Choice} (hN : C.net.Built) {R : Nat → Option Nat} (eR : reprMap C = some R) (root : Nat) : ∀ (fuel : Nat) (q V A : List Nat),
    V.Nodup → (∀ n ∈ V, n < C.net.nodes.length) → (∀ n ∈ q, n < C.net.nodes.length) →
    (C.net.nodes.length - V.length) * (C.net.nodes.length + 2) + q.length ≤ fuel →
    ∃ W B, upLoop C.net R root fuel q V A = some (W, B) ∧ ∀ n ∈ W, n < C.net.nodes.length
  | fuel, [], V, A, _, hV, _, _ => ⟨V, A, by cases fuel <;> rfl, hV⟩
  | 0, _ :: _, _, _, _, _, _, h => by simp at h
  | fuel + 1, n :: q, V, A, hd, hV, hq, h => by
    rw [upLoop_cons]
    have hq' : ∀ k ∈ q, k < C.net.nodes.length := fun k hk => hq k (List.mem_cons_of_mem _ hk)
    have hn := hq n (by simp)
    rw [List.length_cons] at h
    split
    · exact upLoop_defined hN eR root fuel q V A hd hV hq' (by omega)
    · rename_i hin
      have hV' : ∀ k ∈ n :: V, k < C.net.nodes.length := by
        intro k hk
        rcases List.mem_cons.1 hk with rfl | hk
        · exact hn
        · exact hV k hk
      have hd' : (n :: V).Nodup := List.nodup_cons.2 ⟨hin, hd⟩
      split
      · exact ⟨_, _, rfl, hV'⟩
      · have hlen : (n :: V).length ≤ C.net.nodes.length := by
          have := List.Nodup.subperm hd' (l₂ := List.range C.net.nodes.length) fun k hk => List.mem_range.2 (hV' k hk)
          simpa using this.length_le
        rw [List.length_cons] at hlen
        have hsl : (succs C.net R n).length ≤ C.net.nodes.length + 1 := by
          rw [succs]
          split
          · rw [List.length_cons]; exact Nat.succ_le_succ (fanouts_length _ _)
          · exact Nat.le_succ_of_le (fanouts_length _ _)
        refine upLoop_defined hN eR root fuel _ _ _ hd' hV' ?_ ?_
        · intro k hk
          rcases List.mem_append.1 hk with hk | hk
          · exact hq' k hk
          · rw [succs] at hk
            split at hk
            · rename_i r hr
              rcases List.mem_cons.1 hk with rfl | hk
              · exact reprMap_lt hN eR hr
              · exact fanouts_lt hN hk
            · exact fanouts_lt hN hk
        · rw [List.length_cons, List.length_append]
          obtain ⟨d, hd⟩ : ∃ d, C.net.nodes.length - V.length = d + 1 := ⟨C.net.nodes.length - V.length - 1, by omega⟩
          have : C.net.nodes.length - (V.length + 1) = d := by omega
          rw [this]
          rw [hd, Nat.succ_mul] at h
          omega

theorem upCone_defined {C : Choice} (hN : C.net.Built) {R : Nat → Option Nat} (eR : reprMap C = some R) {fuel root : Nat} {leaves : List Nat}
    (hl : ∀ l ∈ leaves, l < C.net.nodes.length) (hf : coneFuel C + leaves.length ≤ fuel) : ∃ x, upCone C.net R fuel root leaves = some x := by
  obtain ⟨W, B, e, h⟩ := upLoop_defined hN eR root fuel leaves [] [] List.nodup_nil (by simp) hl (by
    rw [coneFuel] at hf
    have := Nat.mul_le_mul_left C.net.nodes.length (by omega : C.net.nodes.length + 2 ≤ C.net.nodes.length + 3)
    simp only [List.length_nil, Nat.sub_zero]
    omega)
  rw [upCone, e]
  dsimp only
  rw [if_pos (List.all_eq_true.2 fun n hn => decide_eq_true (h n hn))]
  exact ⟨_, rfl⟩

/-! ### the clauses of a cell -/

theorem cell_sound {C : Choice} (hN : C.net.Built) (hpi : C.net.inputs.length = C.net.numPis) {M : Mapping} {R : Nat → Option Nat}
    (eR : reprMap C = some R) {v : Nat → Bool} (hv : C.net.Models v)
    (hR : ∀ k r, R k = some r → Bool.xor (v r) (C.net.phaseOf r) = Bool.xor (v k) (C.net.phaseOf k))
    {fuel root : Nat} {x : List (List Nat) × List Nat} (e : cellClauses C M R fuel root = some x) (hs : ¬ ∃ a, Satisfies a x.1)
    {f : TT} {leaves : List Nat} (hf : M.cellFunction root = some f) (hl : M.cellFanins root = some leaves) (hw : f.WF) (hn : f.n < 32)
    (hlen : leaves.length = f.n) : v root = f.eval (Klut.args v leaves) := by
  rw [cellClauses, hf, hl] at e
  dsimp only at e
  split at e
  · cases e
  · rename_i S1 gold e1
    split at e
    · cases e
    · rename_i ns A e2
      obtain ⟨S2, e3, e4⟩ := Option.map_eq_some_iff.1 e
      obtain ⟨b, g, _⟩ := (recycle_good v).prepare root
      obtain ⟨b0, g0, _⟩ := g.prepares leaves
      obtain ⟨b1, g1, hg1, _⟩ := g0.addFunc hw hn hlen e1
      obtain ⟨b2, g2, ag2⟩ := Good.addNodes hN hpi hv hR ns (upCone_found hN eR e2).2 g1 e3
      obtain ⟨b3, g3, ag3⟩ := g2.prepare root
      have hgold := (addFunc_le e1).2.2
      have l2 := (addNodes_le ns e3).next
      have l3 := (prepare_le (S := S2) root).next
      have hvar := g3.var root (prepare_has g2.next2 root)
      by_contra hne
      obtain ⟨b4, g4, _⟩ := g3.addDiffer (x := gold) (y := (prepare S2 root).var root) (by omega) (hvar.1) (by
        rw [hvar.2, ag3 gold (by omega), ag2 gold hgold, hg1]
        exact fun h => hne h.symm)
      apply hs
      rw [← e4]
      exact ⟨b4, g4.sat⟩

theorem cell_complete {C : Choice} (hN : C.net.Built) {M : Mapping} {R : Nat → Option Nat} (eR : reprMap C = some R)
    {fuel root : Nat} {x : List (List Nat) × List Nat} (e : cellClauses C M R fuel root = some x)
    {f : TT} {leaves : List Nat} (hf : M.cellFunction root = some f) (hl : M.cellFanins root = some leaves) (hw : f.WF) (hn : f.n < 32)
    (hlen : leaves.length = f.n) (hroot : ∃ k, Walk C root leaves k root)
    (hv : ∀ w, NearVal C w root leaves root (f.eval (Klut.args w leaves))) : ¬ ∃ a, Satisfies a x.1 := by
  rintro ⟨a, hs⟩
  rw [cellClauses, hf, hl] at e
  dsimp only at e
  split at e
  · cases e
  · rename_i S1 gold e1
    split at e
    · cases e
    · rename_i ns A e2
      obtain ⟨S2, e3, e4⟩ := Option.map_eq_some_iff.1 e
      rw [← e4] at hs
      have n0 : 2 ≤ (prepares (prepare recycle root) leaves).next :=
        Nat.le_trans (prepare_le (S := recycle) root).next (prepares_le leaves _).next
      have l1 := (addFunc_le e1).1
      have n1 := Nat.le_trans n0 l1.next
      have l2 := addNodes_le ns e3
      have hr1 : 1 < S1.var root := l1.has ((prepares_le leaves _).has (prepare_has (Nat.le_refl 2) root))
      have hp : prepare S2 root = S2 := by
        rw [prepare, if_neg]
        have := l2.has hr1
        omega
      rw [hp] at hs
      have hs2 := ((satisfies_append a _ _).1 hs).1
      have hd := (differ_clauses a _ _).1 (((satisfies_append a _ _).1 hs).2)
      have v1 := func_value hw hn hlen e1 (sat_mono l2 hs2)
      have hfd := (upCone_found hN eR e2).1
      have hfa := addNodes_facts ns n1 e3
      have H : ∀ n b, NearVal C (fun n => a (S2.var n)) root leaves n b → a (S2.var n) = b := by
        intro n b hv
        induction hv with
        | leaf _ => rfl
        | @gate n x y p q hnr gt h1 h2 i1 i2 =>
          obtain ⟨hk, hsk, hch⟩ := gate_kids hN gt
          have hin : n ∈ ns := by
            rcases hnr with rfl | hnr
            · exact hfd.root hroot
            · exact hfd.near n hnr
          rw [(hfa n hin hsk x y hch a hs2).1, i1, i2]
        | @choice n m p hnr hc h1 i1 =>
          obtain ⟨x, y, gt⟩ := hc.gate
          obtain ⟨_, hsk, hch⟩ := gate_kids hN gt
          have := (hfa m (hfd.near m hnr) hsk x y hch a hs2).2 n (reprMap_choice hN eR hc)
          rw [i1] at this
          rw [this]
          cases a (S2.var n) <;> cases C.net.phaseOf n <;> rfl
      apply hd
      rw [v1, H _ _ (hv _)]
      congr 1
      refine Klut.args_congr fun c hc => ?_
      rw [l2.var c (addFunc_has n0 e1 c hc)]

theorem cellClauses_defined {C : Choice} (hN : C.net.Built) {M : Mapping} {R : Nat → Option Nat} (eR : reprMap C = some R) {fuel root : Nat}
    (hc : Cell M root) (hl : ∀ cs, M.cellFanins root = some cs → ∀ l ∈ cs, l < C.net.nodes.length) (hf : coneFuel C + 32 ≤ fuel) :
    ∃ x, cellClauses C M R fuel root = some x := by
  obtain ⟨cs, f, h1, h2, h3, h4, h5, _⟩ := hc
  obtain ⟨cls, S1, _, e1, _⟩ := addFunc_spec (S := prepares (prepare recycle root) cs) h3 h5 h4.symm
  obtain ⟨⟨ns, A⟩, e2⟩ := upCone_defined hN eR (root := root) (hl cs h1) (by omega : coneFuel C + cs.length ≤ fuel)
  rw [cellClauses, h1, h2]
  dsimp only
  rw [e1]
  dsimp only
  rw [e2]
  dsimp only
  obtain ⟨T, e3⟩ := addNodes_defined (C := C) (R := R) ns _ (upCone_found hN eR e2).2
  rw [e3]
  exact ⟨_, rfl⟩

/-! ### the loop -/

theorem mem_roots {M : Mapping} : ∀ (l rs : List Nat), roots M l = some rs → ∀ n, n ∈ rs ↔ n ∈ l ∧ M.isCellRoot n = some true
  | [], rs, e, n => by
    rw [roots, Option.some.injEq] at e
    subst e
    simp
  | k :: l, rs, e, n => by
    rw [roots] at e
    split at e
    · rename_i b rs' h1 h2
      have ih := mem_roots l rs' h2 n
      rw [Option.some.injEq] at e
      subst e
      cases b with
      | true =>
        rw [if_pos rfl, List.mem_cons, List.mem_cons, ih]
        constructor
        · rintro (rfl | h)
          · exact ⟨.inl rfl, h1⟩
          · exact ⟨.inr h.1, h.2⟩
        · rintro ⟨rfl | h, h'⟩
          · exact .inl rfl
          · exact .inr ⟨h, h'⟩
      | false =>
        rw [if_neg (by decide), List.mem_cons, ih]
        constructor
        · rintro h; exact ⟨.inr h.1, h.2⟩
        · rintro ⟨rfl | h, h'⟩
          · rw [h1] at h'; cases h'
          · exact ⟨h, h'⟩
    · cases e

theorem roots_defined {M : Mapping} : ∀ (l : List Nat), (∀ n ∈ l, ∃ b, M.isCellRoot n = some b) → ∃ rs, roots M l = some rs
  | [], _ => ⟨[], rfl⟩
  | n :: l, h => by
    obtain ⟨b, hb⟩ := h n (by simp)
    obtain ⟨rs, hrs⟩ := roots_defined l fun k hk => h k (List.mem_cons_of_mem _ hk)
    rw [roots, hb, hrs]
    exact ⟨_, rfl⟩

theorem loop_none {C : Choice} {M : Mapping} {R : Nat → Option Nat} {solve : List (List Nat) → Answer} {fuel : Nat} : ∀ (l : List Nat) (b : Bool),
    loop C M R solve fuel l b = none ↔ ∃ n ∈ l, isEqualCell C M R solve fuel n = none
  | [], b => by simp [loop]
  | n :: l, b => by
    rw [loop]
    cases h : isEqualCell C M R solve fuel n with
    | none => exact ⟨fun _ => ⟨n, by simp, h⟩, fun _ => rfl⟩
    | some c =>
      dsimp only
      rw [loop_none l]
      constructor
      · rintro ⟨k, hk, e⟩; exact ⟨k, List.mem_cons_of_mem _ hk, e⟩
      · rintro ⟨k, hk, e⟩
        rcases List.mem_cons.1 hk with rfl | hk
        · rw [h] at e; cases e
        · exact ⟨k, hk, e⟩

theorem loop_false {C : Choice} {M : Mapping} {R : Nat → Option Nat} {solve : List (List Nat) → Answer} {fuel : Nat} : ∀ (l : List Nat) (b : Bool),
    loop C M R solve fuel l b = some false ↔ b = false ∧ ∀ n ∈ l, isEqualCell C M R solve fuel n = some true
  | [], b => by simp [loop]
  | n :: l, b => by
    rw [loop]
    cases h : isEqualCell C M R solve fuel n with
    | none =>
      simp only [List.forall_mem_cons, h]
      simp
    | some c =>
      dsimp only
      rw [loop_false l, List.forall_mem_cons, h]
      cases c <;> cases b <;> simp

/-- the result depends on the set of the cells only -/
theorem loop_congr {C : Choice} {M : Mapping} {R : Nat → Option Nat} {solve : List (List Nat) → Answer} {fuel : Nat} {l l' : List Nat}
    (h : ∀ n, n ∈ l ↔ n ∈ l') : loop C M R solve fuel l false = loop C M R solve fuel l' false := by
  have h1 : loop C M R solve fuel l false = none ↔ loop C M R solve fuel l' false = none := by
    rw [loop_none, loop_none]
    exact exists_congr fun n => by rw [h]
  have h2 : loop C M R solve fuel l false = some false ↔ loop C M R solve fuel l' false = some false := by
    rw [loop_false, loop_false]
    simp only [h]
  cases e : loop C M R solve fuel l false with
  | none => rw [e] at h1; exact (h1.1 rfl).symm
  | some b =>
    cases e' : loop C M R solve fuel l' false with
    | none => rw [e'] at h1; rw [e] at h1; exact absurd (h1.2 rfl) (by simp)
    | some b' =>
      rw [e, e'] at h2
      cases b <;> cases b' <;> simp at h2 ⊢

end Verif.Checker.Par
