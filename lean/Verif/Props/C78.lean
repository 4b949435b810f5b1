import Verif.Cli.Events
import Verif.Props.C25

set_option autoImplicit false

/-!
# C78: no call-back of a destroyed view is run

Full statement: in every session of the shell, and in the flow, the call-backs that run when a node is created belong to views that exist.

The flow is safe (`C78_flow`). The shell is not (`C78_violated`): `write_dot` leaves the call-back of a destroyed view with the current network. `C78_exact` says exactly
which sessions run it, `C78_safe_partial` that sessions without `write_dot` do not.
-/

namespace Verif.Cli.Events

/-! ### specification -/

/-- The command leaves the current network in its place: the store keeps the same object. -/
def Keeps : Cmd → Prop
  | .printStats | .printStatsLut | .writeDot | .writeDotLut | .mapFpga _ | .mapChoice _ _ | .other => True
  | .save i => i ≠ 5
  | _ => False

/-- The command creates a node inside the current network. -/
def Grows : Cmd → Prop
  | .rewrite k _ | .refactor k _ => 0 < k
  | _ => False

instance : DecidablePred Grows := fun c => by cases c <;> unfold Grows <;> infer_instance

/-- The slots of `history` exist. -/
def Slots (cs : List Cmd) : Prop := ∀ i, Cmd.save i ∈ cs → i < 6

/-- A network is drawn and then grows while it is still the current one. -/
def GrowsDrawn (cs : List Cmd) : Prop :=
  ∃ pre mid post c k, cs = pre ++ Cmd.writeDot :: mid ++ c :: post ∧ Cmd.read k ∈ pre ∧ (∀ d ∈ mid, Keeps d) ∧ Grows c

/-! ### proofs -/

theorem addNodes_eq {e k : Nat} {h : Heap} {l : List Nat} (hl : h.hooks[e]? = some l) :
    addNodes e k h = if k = 0 ∨ ∀ v ∈ l, h.alive[v]? = some true then some h else none := by
  induction k with
  | zero => simp [addNodes]
  | succ k ih =>
    rw [addNodes, addNode, hl]
    dsimp only
    by_cases ha : ∀ v ∈ l, h.alive[v]? = some true
    · have : l.all (fun v => h.alive[v]? == some true) = true := by
        rw [List.all_eq_true]; intro v hv; rw [ha v hv]; rfl
      rw [if_pos this, Option.bind_some, ih, if_pos (Or.inr ha), if_pos (Or.inr ha)]
    · have : ¬ l.all (fun v => h.alive[v]? == some true) = true := by
        intro h'
        apply ha
        intro v hv
        exact beq_iff_eq.1 (List.all_eq_true.1 h' v hv)
      rw [if_neg this, if_neg (by rintro (h' | h'); · omega
                                  · exact ha h')]
      rfl

/-- All views made so far are gone and all call-backs belong to one of them. -/
def Idle (h : Heap) : Prop :=
  (∀ b ∈ h.alive, b = false) ∧ ∀ l ∈ h.hooks, ∀ v ∈ l, v < h.alive.length

theorem idle_new {h : Heap} (H : Idle h) : Idle (newEvents h).2 := by
  refine ⟨H.1, fun l hl => ?_⟩
  rcases List.mem_append.1 hl with h' | h'
  · exact H.2 l h'
  · rw [List.mem_singleton.1 h']; simp

theorem new_get (h : Heap) : (newEvents h).2.hooks[(newEvents h).1]? = some [] := by
  simp [newEvents]

theorem build_eq (k : Nat) (h : Heap) : build k h = some (newEvents h) := by
  show (addNodes (newEvents h).1 k (newEvents h).2).map _ = _
  rw [addNodes_eq (new_get h), if_pos (Or.inr (by simp))]
  rfl

theorem dead_hooks {h : Heap} (H : Idle h) {e : Nat} {l : List Nat} (hl : h.hooks[e]? = some l) :
    (∀ v ∈ l, h.alive[v]? = some true) ↔ l = [] := by
  constructor
  · intro ha
    cases l with
    | nil => rfl
    | cons v t =>
      have := H.1 true (List.mem_of_getElem? (ha v (List.mem_cons_self ..)))
      cases this
  · rintro rfl; simp

/-- The views of two heaps that differ by views that are gone. -/
theorem draw_eq {h : Heap} (H : Idle h) {e : Nat} {l : List Nat} (hl : h.hooks[e]? = some l) :
    ∃ h', draw e h = some h' ∧ Idle h' ∧ h'.hooks = h.hooks.set e (l ++ [h.alive.length]) := by
  refine ⟨closeView h.alive.length ⟨h.hooks.set e (l ++ [h.alive.length]), h.alive ++ [true]⟩,
    by simp [draw, openView, hl], ⟨?_, ?_⟩, rfl⟩
  · intro b hb
    simp only [closeView, List.set_append_right _ _ (Nat.le_refl _), Nat.sub_self, List.set_cons_zero, List.mem_append,
      List.mem_singleton] at hb
    rcases hb with hb | hb
    · exact H.1 b hb
    · exact hb
  · intro m hm v hv
    simp only [closeView, List.length_set, List.length_append, List.length_singleton]
    rcases List.mem_or_eq_of_mem_set hm with h' | h'
    · have := H.2 m h' v hv; omega
    · rw [h'] at hv
      rcases List.mem_append.1 hv with h'' | h''
      · have := H.2 l (List.mem_of_getElem? hl) v h''; omega
      · rw [List.mem_singleton.1 h'']; omega

theorem stats_eq {h : Heap} (H : Idle h) : ∃ h', stats h = some h' ∧ Idle h' ∧ ∀ e, e < h.hooks.length → h'.hooks[e]? = h.hooks[e]? := by
  obtain ⟨h', e', i', k'⟩ := draw_eq (idle_new H) (new_get h)
  refine ⟨h', e', i', fun e he => ?_⟩
  rw [k', List.getElem?_set_ne (by show h.hooks.length ≠ e; omega)]
  show (h.hooks ++ [[]])[e]? = _
  rw [List.getElem?_append_left he]

theorem addNodes_alive {e k : Nat} {h : Heap} (hv : ∃ v, h.hooks[e]? = some [v] ∧ h.alive[v]? = some true) : addNodes e k h = some h := by
  obtain ⟨v, h1, h2⟩ := hv
  rw [addNodes_eq h1, if_pos (Or.inr (by simpa using h2))]

/-- `balance_and` on any network: it comes back, all its views are gone, the result has events of its own. -/
theorem balance_eq (k m : Nat) {h : Heap} (H : Idle h) {e : Nat} (he : e < h.hooks.length) :
    ∃ p, balance e k m h = some p ∧ Idle p.2 ∧ p.2.hooks[p.1]? = some [] := by
  obtain ⟨l, hl⟩ : ∃ l, h.hooks[e]? = some l := ⟨_, List.getElem?_eq_getElem he⟩
  have s1 : openView e h = some (h.alive.length, ⟨h.hooks.set e (l ++ [h.alive.length]), h.alive ++ [true]⟩) := by
    rw [openView, hl]
  obtain ⟨H1, eH1⟩ : ∃ H1 : Heap, H1 = ⟨h.hooks.set e (l ++ [h.alive.length]), h.alive ++ [true]⟩ := ⟨_, rfl⟩
  have l1 : H1.hooks.length = h.hooks.length := by rw [eH1]; simp
  have a1 : H1.alive.length = h.alive.length + 1 := by rw [eH1]; simp
  have s2 : openView (newEvents H1).1 (newEvents H1).2 =
      some (H1.alive.length, ⟨H1.hooks ++ [[H1.alive.length]], H1.alive ++ [true]⟩) := by
    rw [openView, new_get]
    simp [newEvents]
  obtain ⟨H3, eH3⟩ : ∃ H3 : Heap, H3 = ⟨H1.hooks ++ [[H1.alive.length]], H1.alive ++ [true]⟩ := ⟨_, rfl⟩
  have s3 : addNodes (newEvents H1).1 k H3 = some H3 :=
    addNodes_alive ⟨H1.alive.length, by rw [eH3]; simp [newEvents], by rw [eH3]; simp⟩
  have s4 : openView (newEvents H3).1 (newEvents H3).2 =
      some (H3.alive.length, ⟨H3.hooks ++ [[H3.alive.length]], H3.alive ++ [true]⟩) := by
    rw [openView, new_get]
    simp [newEvents]
  obtain ⟨H6, eH6⟩ : ∃ H6 : Heap, H6 = ⟨H3.hooks ++ [[H3.alive.length]], H3.alive ++ [true]⟩ := ⟨_, rfl⟩
  have s5 : addNodes (newEvents H3).1 m H6 = some H6 :=
    addNodes_alive ⟨H3.alive.length, by rw [eH6]; simp [newEvents], by rw [eH6]; simp⟩
  have a3 : H3.alive.length = h.alive.length + 2 := by rw [eH3]; simp [a1]
  have eb : balance e k m h = some ((newEvents (closeView H3.alive.length H6)).1,
      closeView h.alive.length (closeView H1.alive.length (newEvents (closeView H3.alive.length H6)).2)) := by
    rw [balance, s1, ← eH1]
    dsimp only
    rw [s2, ← eH3]
    dsimp only
    rw [s3]
    dsimp only
    rw [s4, ← eH6]
    dsimp only
    rw [s5]
  refine ⟨_, eb, ⟨?_, ?_⟩, ?_⟩
  · intro b hb
    simp only [closeView, newEvents] at hb
    obtain ⟨i, hi⟩ := List.mem_iff_getElem?.1 hb
    rw [List.getElem?_set, List.getElem?_set, List.getElem?_set] at hi
    have al : H6.alive = h.alive ++ [true, true, true] := by rw [eH6, eH3, eH1]; simp
    have hlen : i < H6.alive.length := by
      have := (List.getElem?_eq_some_iff.1 (List.getElem?_eq_getElem (l := H6.alive) (i := i) (by
        by_contra hc
        have h0 : H6.alive[i]? = none := List.getElem?_eq_none (by omega)
        have : H6.alive.length = h.alive.length + 3 := by rw [al]; simp
        rw [if_neg (by omega), if_neg (by omega), if_neg (by omega), h0] at hi
        cases hi))).1
      exact this
    have hl6 : H6.alive.length = h.alive.length + 3 := by rw [al]; simp
    simp only [List.length_set] at hi
    by_cases c1 : h.alive.length = i
    · rw [if_pos c1, if_pos (by omega)] at hi; exact (Option.some.inj hi).symm
    · rw [if_neg c1] at hi
      by_cases c2 : H1.alive.length = i
      · rw [if_pos c2, if_pos (by omega)] at hi; exact (Option.some.inj hi).symm
      · rw [if_neg c2] at hi
        by_cases c3 : H3.alive.length = i
        · rw [if_pos c3, if_pos (by omega)] at hi; exact (Option.some.inj hi).symm
        · rw [if_neg c3, al, List.getElem?_append_left (by omega)] at hi
          exact H.1 b (List.mem_of_getElem? hi)
  · intro q hq v hv
    have hl6 : H6.alive.length = h.alive.length + 3 := by rw [eH6, eH3, eH1]; simp
    simp only [closeView, newEvents, List.length_set]
    simp only [closeView, newEvents] at hq
    rw [hl6]
    rw [eH6, eH3, eH1] at hq
    simp only [List.mem_append, List.mem_singleton] at hq
    rcases hq with ((hq | hq) | hq) | hq
    · rcases List.mem_or_eq_of_mem_set hq with h' | h'
      · have := H.2 q h' v hv; omega
      · rw [h'] at hv
        rcases List.mem_append.1 hv with h'' | h''
        · have := H.2 l (List.mem_of_getElem? hl) v h''; omega
        · rw [List.mem_singleton.1 h'']; omega
    · rw [hq] at hv
      rw [List.mem_singleton.1 hv]; simp
    · rw [hq] at hv
      rw [List.mem_singleton.1 hv]; simp
    · rw [hq] at hv; cases hv
  · simp [closeView, newEvents]

/-- State of the shell after commands that did not fail: `d` tells whether the current network carries call-backs. -/
structure Inv (s : Sh) (read d : Bool) : Prop where
  idle : Idle s.heap
  slots : s.aigs.length = if read then 6 else 0
  lt : ∀ e ∈ s.aigs, e < s.heap.hooks.length
  lut : ∀ e, s.lut = some e → e < s.heap.hooks.length
  drawn : ∀ e, s.aigs.getLast? = some e → ∃ l, s.heap.hooks[e]? = some l ∧ (l = [] ↔ d = false)
  fresh : read = false → d = false
  apart : ∀ e ∈ s.aigs, s.lut ≠ some e

/-- Scan of the session: is there a network, and was it drawn? -/
def scan (r d : Bool) : Cmd → Bool × Bool
  | .read _ => (true, false)
  | .rewrite _ _ | .refactor _ _ | .balance _ _ | .cleanup _ | .lutOpt _ _ => (r, false)
  | .save i => (r, if i = 5 then false else d)
  | .writeDot => (r, r)
  | _ => (r, d)

theorem inv_start : Inv start false false :=
  ⟨⟨by simp [start], by simp [start]⟩, rfl, by simp [start], by simp [start], by simp [start], fun _ => rfl, by simp [start]⟩

theorem getLast_set_last {l : List Nat} {x : Nat} (h : l.length = 6) : (l.set 5 x).getLast? = some x ∧ (∀ i, i < 5 → (l.set i x).getLast? = l.getLast?) := by
  constructor
  · rw [List.getLast?_eq_getElem?, List.length_set, h, List.getElem?_set_self (by omega)]
  · intro i hi
    rw [List.getLast?_eq_getElem?, List.getLast?_eq_getElem?, List.length_set, h, List.getElem?_set_ne (by omega)]

theorem inv_replace {s : Sh} {r d : Bool} (I : Inv s r d) {f : Nat → Heap → Option (Nat × Heap)}
    (hf : ∀ e, s.aigs.getLast? = some e → ∃ p, f e s.heap = some p ∧ Idle p.2 ∧ p.2.hooks[p.1]? = some [] ∧ s.heap.hooks.length ≤ p.1) :
    ∃ s', replaceCurrent s f = some s' ∧ Inv s' r false := by
  rw [replaceCurrent]
  cases hg : s.aigs.getLast? with
  | none =>
    refine ⟨s, rfl, I.idle, I.slots, I.lt, I.lut, ?_, fun _ => rfl, I.apart⟩
    rw [hg]; simp
  | some e =>
    obtain ⟨p, ep, hi, hp, hle⟩ := hf e hg
    have hp' := (List.getElem?_eq_some_iff.1 hp).1
    refine ⟨{ s with heap := p.2, aigs := s.aigs.dropLast ++ [p.1] }, by simp [ep], hi, ?_, ?_, ?_, ?_, fun _ => rfl, ?_⟩
    · have := I.slots
      have h0 : s.aigs ≠ [] := by rintro h0; rw [h0] at hg; cases hg
      have := List.length_pos_of_ne_nil h0
      simp only [List.length_append, List.length_dropLast, List.length_singleton]
      omega
    · intro x hx
      rcases List.mem_append.1 hx with h' | h'
      · have := I.lt x (List.mem_of_mem_dropLast h')
        show _ < p.2.hooks.length
        omega
      · rw [List.mem_singleton.1 h']; exact hp'
    · intro x hx
      have := I.lut x hx
      show _ < p.2.hooks.length
      omega
    · intro x hx
      simp only [List.getLast?_append, List.getLast?_singleton, Option.some_or, Option.some.injEq] at hx
      subst hx
      exact ⟨[], hp, by simp⟩
    · intro x hx hl
      rcases List.mem_append.1 hx with h' | h'
      · exact I.apart x (List.mem_of_mem_dropLast h') hl
      · rw [List.mem_singleton.1 h'] at hl
        have := I.lut _ hl
        omega

theorem inv_heap {s : Sh} {r d : Bool} (I : Inv s r d) {h : Heap} (hi : Idle h) (hle : s.heap.hooks.length ≤ h.hooks.length)
    (hd : ∀ e, s.aigs.getLast? = some e → ∀ l, s.heap.hooks[e]? = some l → ∃ l', h.hooks[e]? = some l' ∧ (l' = [] ↔ l = [])) : Inv { s with heap := h } r d := by
  refine ⟨hi, I.slots, fun e he => Nat.lt_of_lt_of_le (I.lt e he) hle, fun e he => Nat.lt_of_lt_of_le (I.lut e he) hle, ?_, I.fresh, I.apart⟩
  intro e he
  obtain ⟨l, hl, h2⟩ := I.drawn e he
  obtain ⟨l', hl', h3⟩ := hd e he l hl
  exact ⟨l', hl', h3.trans h2⟩

theorem get_new {h : Heap} {e : Nat} {l : List Nat} (hl : h.hooks[e]? = some l) : (newEvents h).2.hooks[e]? = some l := by
  show (h.hooks ++ [[]])[e]? = _
  rw [List.getElem?_append_left (List.getElem?_eq_some_iff.1 hl).1, hl]

theorem balance_len {e k m : Nat} {h : Heap} {p : Nat × Heap} (hb : balance e k m h = some p) : h.hooks.length ≤ p.1 := by
  have ha : ∀ {e k : Nat} {h h' : Heap}, addNodes e k h = some h' → h' = h := by
    intro e k
    induction k with
    | zero => intro h h' e; simpa [addNodes] using e.symm
    | succ k ih =>
      intro h h' hh
      rw [addNodes, addNode] at hh
      split at hh
      · cases hh
      · split at hh
        · exact ih hh
        · cases hh
  have ho : ∀ {e : Nat} {h : Heap} {q : Nat × Heap}, openView e h = some q → q.2.hooks.length = h.hooks.length := by
    intro e h q hq
    rw [openView] at hq
    split at hq
    · cases hq
    · cases hq; simp
  rw [balance] at hb
  split at hb
  · cases hb
  · rename_i v1 h1 q1
    have l1 := ho q1
    dsimp only at hb l1
    split at hb
    · cases hb
    · rename_i v2 h3 q2
      have l2 := ho q2
      dsimp only at hb l2
      split at hb
      · cases hb
      · rename_i h4 q3
        have l3 := ha q3
        try dsimp only at hb
        split at hb
        · cases hb
        · rename_i v3 h6 q4
          have l4 := ho q4
          dsimp only at hb l4
          split at hb
          · cases hb
          · rename_i h7 q5
            have l5 := ha q5
            cases hb
            subst l3 l5
            simp only [newEvents, List.length_append, List.length_singleton] at l2 l4
            simp only [closeView, newEvents]
            omega

/-- One command: it fails exactly if it creates a node in a drawn network; otherwise the scan describes the new state. -/
theorem step_inv {s : Sh} {r d : Bool} (I : Inv s r d) (c : Cmd) (hs : ∀ i, c = .save i → i < 6) :
    if d = true ∧ Grows c then step s c = none else ∃ s', step s c = some s' ∧ Inv s' (scan r d c).1 (scan r d c).2 := by
  have resyn : ∀ k m, if d = true ∧ 0 < k then replaceCurrent s (fun e => resynthesize e k m) = none else
      ∃ s', replaceCurrent s (fun e => resynthesize e k m) = some s' ∧ Inv s' r false := by
    intro k m
    split
    · rename_i hc
      cases hg : s.aigs.getLast? with
      | none =>
        have hr : r = false := by
          have := I.slots
          rw [List.getLast?_eq_none_iff.1 hg] at this
          cases r
          · rfl
          · simp at this
        have := I.fresh hr
        rw [hc.1] at this; cases this
      | some e =>
        obtain ⟨l, hl, hd⟩ := I.drawn e hg
        rw [replaceCurrent, hg]
        dsimp only
        rw [resynthesize, addNodes_eq hl, if_neg]
        · rfl
        · rw [dead_hooks I.idle hl, hd, hc.1]
          simp; omega
    · rename_i hc
      apply inv_replace I
      intro e he
      obtain ⟨l, hl, hd⟩ := I.drawn e he
      refine ⟨newEvents s.heap, ?_, idle_new I.idle, new_get _, by simp [newEvents]⟩
      rw [resynthesize, addNodes_eq hl, if_pos, Option.bind_some, build_eq]
      rw [dead_hooks I.idle hl, hd]
      cases d
      · exact Or.inr rfl
      · exact Or.inl (by simp at hc; omega)
  have keep : ∀ c', Keeps c' → ¬ (d = true ∧ Grows c') := by
    intro c' hk hc
    cases c' <;> simp [Keeps, Grows] at hk hc
  cases c with
  | read k =>
    rw [if_neg (by rintro ⟨_, h⟩; exact h)]
    have hg : ({ s.heap with hooks := s.heap.hooks ++ List.replicate 6 [] } : Heap).hooks[s.heap.hooks.length + 5]? = some [] := by
      show (s.heap.hooks ++ List.replicate 6 [])[_]? = _
      rw [List.getElem?_append_right (by omega)]
      simp
    have hst : step s (.read k) = some ⟨{ s.heap with hooks := s.heap.hooks ++ List.replicate 6 [] },
        [s.heap.hooks.length, s.heap.hooks.length + 1, s.heap.hooks.length + 2, s.heap.hooks.length + 3, s.heap.hooks.length + 4,
          s.heap.hooks.length + 5], if s.aigs = [] then s.lut else none⟩ := by
      rw [step, execRead]
      dsimp only
      rw [addNodes_eq hg, if_pos (Or.inr (by simp))]
      rfl
    refine ⟨_, hst, ⟨I.idle.1, ?_⟩, rfl, ?_, ?_, ?_, fun _ => rfl, ?_⟩
    · intro l hl
      rcases List.mem_append.1 hl with h' | h'
      · exact I.idle.2 l h'
      · rw [(List.mem_replicate.1 h').2]; simp
    · intro e he
      simp only [List.mem_cons, List.not_mem_nil, or_false] at he
      simp only [List.length_append, List.length_replicate]
      omega
    · intro e he
      dsimp only at he
      split at he
      · have := I.lut e he
        simp only [List.length_append, List.length_replicate]
        omega
      · cases he
    · intro e he
      have : s.heap.hooks.length + 5 = e := by simpa using he
      subst this
      exact ⟨[], hg, by simp [scan]⟩
    · intro e he hl
      dsimp only at hl
      split at hl
      · have := I.lut e hl
        simp only [List.mem_cons, List.not_mem_nil, or_false] at he
        omega
      · cases hl
  | rewrite k m => exact resyn k m
  | refactor k m => exact resyn k m
  | balance k m =>
    rw [if_neg (by rintro ⟨_, h⟩; exact h)]
    apply inv_replace I
    intro e he
    obtain ⟨p, hp, hi, h0⟩ := balance_eq k m I.idle (I.lt e (List.mem_of_getLast? he))
    exact ⟨p, hp, hi, h0, balance_len hp⟩
  | cleanup m =>
    rw [if_neg (by rintro ⟨_, h⟩; exact h)]
    apply inv_replace I
    intro e _
    exact ⟨_, build_eq m _, idle_new I.idle, new_get _, by simp [newEvents]⟩
  | lutOpt k m =>
    rw [if_neg (by rintro ⟨_, h⟩; exact h)]
    show ∃ s', replaceCurrent s (fun _ h => (build k h).bind fun p => build m p.2) = some s' ∧ Inv s' r false
    apply inv_replace I
    intro e _
    exact ⟨_, by rw [build_eq, Option.bind_some, build_eq], idle_new (idle_new I.idle), new_get _, by simp [newEvents]⟩
  | save i =>
    rw [if_neg (by rintro ⟨_, h⟩; exact h)]
    have hi := hs i rfl
    rw [step]
    split
    · rename_i h0
      refine ⟨s, rfl, I.idle, I.slots, I.lt, I.lut, ?_, ?_, I.apart⟩
      · rw [h0]; simp
      · intro hr
        have := I.fresh hr
        simp only [scan]
        split <;> simp [this]
    · rename_i h0
      have hl : s.aigs.length = 6 := by
        have h1 := I.slots
        have h2 := List.length_pos_of_ne_nil h0
        split at h1 <;> omega
      rw [if_pos (by omega)]
      refine ⟨_, rfl, idle_new I.idle, by rw [List.length_set]; exact I.slots, ?_, ?_, ?_, ?_, ?_⟩
      · intro e he
        show e < (s.heap.hooks ++ [[]]).length
        rw [List.length_append, List.length_singleton]
        rcases List.mem_or_eq_of_mem_set he with h' | h'
        · have := I.lt e h'; omega
        · rw [h']; show s.heap.hooks.length < _; omega
      · intro e he
        have := I.lut e he
        show e < (s.heap.hooks ++ [[]]).length
        rw [List.length_append, List.length_singleton]
        omega
      · intro e he
        simp only [scan]
        obtain ⟨g1, g2⟩ := getLast_set_last (l := s.aigs) (x := s.heap.hooks.length) hl
        by_cases h5 : i = 5
        · subst h5
          have : some s.heap.hooks.length = some e := g1.symm.trans he
          cases this
          exact ⟨[], new_get _, by simp⟩
        · rw [if_neg h5]
          have he' : s.aigs.getLast? = some e := (g2 i (by omega)).symm.trans he
          obtain ⟨l, hl', hd⟩ := I.drawn e he'
          exact ⟨l, get_new hl', hd⟩
      · intro hr
        have := I.fresh hr
        simp only [scan]
        split <;> simp [this]
      · intro e he hl
        rcases List.mem_or_eq_of_mem_set he with h' | h'
        · exact I.apart e h' hl
        · have := I.lut e hl
          rw [h'] at this
          exact absurd this (Nat.lt_irrefl _)
  | printStats =>
    rw [if_neg (keep .printStats trivial)]
    obtain ⟨h', e', i', k'⟩ := stats_eq I.idle
    have hle : s.heap.hooks.length ≤ h'.hooks.length := by
      by_contra hc
      have := k' h'.hooks.length (by omega)
      rw [List.getElem?_eq_none (Nat.le_refl _), List.getElem?_eq_getElem (by omega)] at this
      cases this
    rw [step, lookAt]
    cases hg : s.aigs.getLast? with
    | none => exact ⟨s, rfl, I⟩
    | some e =>
      refine ⟨{ s with heap := h' }, by simp [e'], inv_heap I i' hle fun x _ l hl => ⟨l, ?_, Iff.rfl⟩⟩
      rw [k' x (List.getElem?_eq_some_iff.1 hl).1, hl]
  | printStatsLut =>
    rw [if_neg (keep .printStatsLut trivial)]
    obtain ⟨h', e', i', k'⟩ := stats_eq I.idle
    have hle : s.heap.hooks.length ≤ h'.hooks.length := by
      by_contra hc
      have := k' h'.hooks.length (by omega)
      rw [List.getElem?_eq_none (Nat.le_refl _), List.getElem?_eq_getElem (by omega)] at this
      cases this
    rw [step, lookAtLut]
    cases hg : s.lut with
    | none => exact ⟨s, rfl, I⟩
    | some e =>
      refine ⟨{ s with heap := h' }, by simp [e', hg], ?_⟩
      have := inv_heap I i' hle fun x _ l hl => ⟨l, by rw [k' x (List.getElem?_eq_some_iff.1 hl).1, hl], Iff.rfl⟩
      exact this
  | writeDot =>
    rw [if_neg (keep .writeDot trivial)]
    rw [step, lookAt]
    cases hg : s.aigs.getLast? with
    | none =>
      have hr : r = false := by
        have := I.slots
        rw [List.getLast?_eq_none_iff.1 hg] at this
        cases r
        · rfl
        · simp at this
      refine ⟨s, rfl, ?_⟩
      have hd := I.fresh hr
      rw [hr, hd] at I
      simp only [scan, hr]
      exact I
    | some e =>
      have hr : r = true := by
        have := I.slots
        cases r
        · have h0 : s.aigs = [] := List.eq_nil_of_length_eq_zero (by simpa using this)
          rw [h0] at hg; cases hg
        · rfl
      obtain ⟨l, hl, _⟩ := I.drawn e hg
      obtain ⟨h', e', i', k'⟩ := draw_eq I.idle hl
      refine ⟨{ s with heap := h' }, by simp [e'], i', I.slots, ?_, ?_, ?_, ?_, I.apart⟩
      · intro x hx
        show x < h'.hooks.length
        rw [k', List.length_set]; exact I.lt x hx
      · intro x hx
        show x < h'.hooks.length
        rw [k', List.length_set]; exact I.lut x hx
      · intro x hx
        have hx' : some e = some x := hg.symm.trans hx
        cases hx'
        refine ⟨l ++ [s.heap.alive.length], ?_, ?_⟩
        · show h'.hooks[e]? = _
          rw [k', List.getElem?_set_self (List.getElem?_eq_some_iff.1 hl).1]
        · simp [scan, hr]
      · intro h0; simp only [scan] at h0 ⊢; exact h0
  | writeDotLut =>
    rw [if_neg (keep .writeDotLut trivial)]
    rw [step, lookAtLut]
    cases hg : s.lut with
    | none => exact ⟨s, rfl, I⟩
    | some e =>
      obtain ⟨l, hl⟩ : ∃ l, s.heap.hooks[e]? = some l := ⟨_, List.getElem?_eq_getElem (I.lut e hg)⟩
      obtain ⟨h', e', i', k'⟩ := draw_eq I.idle hl
      refine ⟨{ s with heap := h' }, by simp [e', hg], ?_⟩
      refine inv_heap I i' (by rw [k', List.length_set]) fun x hx m hm => ⟨m, ?_, Iff.rfl⟩
      have hne : e ≠ x := by
        rintro rfl
        exact I.apart e (List.mem_of_getLast? hx) hg
      rw [k', List.getElem?_set_ne hne, hm]
  | mapFpga k =>
    rw [if_neg (keep (.mapFpga k) trivial)]
    rw [step, execMap]
    split
    · exact ⟨s, rfl, I⟩
    · rw [build_eq]
      refine ⟨_, rfl, idle_new I.idle, I.slots, ?_, ?_, ?_, I.fresh, ?_⟩
      · intro e he
        have := I.lt e he
        show e < (s.heap.hooks ++ [[]]).length
        rw [List.length_append]; omega
      · intro e he
        cases he
        show s.heap.hooks.length < (s.heap.hooks ++ [[]]).length
        simp
      · intro e he
        obtain ⟨l, hl, hd⟩ := I.drawn e he
        exact ⟨l, get_new hl, hd⟩
      · intro e he hl
        have := I.lt e he
        cases hl
        exact absurd this (Nat.lt_irrefl _)
  | mapChoice a k =>
    rw [if_neg (keep (.mapChoice a k) trivial)]
    rw [step, execMap]
    split
    · exact ⟨s, rfl, I⟩
    · rw [build_eq, Option.bind_some, build_eq]
      refine ⟨_, rfl, idle_new (idle_new I.idle), I.slots, ?_, ?_, ?_, I.fresh, ?_⟩
      · intro e he
        have := I.lt e he
        show e < ((s.heap.hooks ++ [[]]) ++ [[]]).length
        rw [List.length_append, List.length_append]; omega
      · intro e he
        cases he
        show (s.heap.hooks ++ [[]]).length < ((s.heap.hooks ++ [[]]) ++ [[]]).length
        simp
      · intro e he
        obtain ⟨l, hl, hd⟩ := I.drawn e he
        exact ⟨l, get_new (get_new hl), hd⟩
      · intro e he hl
        have := I.lt e he
        have he' : (newEvents s.heap).2.hooks.length = e := Option.some.inj hl
        simp only [newEvents, List.length_append, List.length_singleton] at he'
        omega
  | other =>
    rw [if_neg (keep .other trivial)]
    exact ⟨s, rfl, I⟩

theorem keeps_scan {r d : Bool} {c : Cmd} (h : Keeps c) (hd : d = true → r = true) : (scan r d c).1 = r ∧ (d = true → (scan r d c).2 = true) := by
  cases c <;> simp_all [Keeps, scan]

theorem scan_drawn {r d : Bool} {c : Cmd} (h : (scan r d c).2 = true) : (d = true ∧ Keeps c) ∨ (c = .writeDot ∧ r = true) := by
  cases c <;> simp_all [Keeps, scan]

theorem scan_read {r d : Bool} {c : Cmd} : (scan r d c).1 = true ↔ r = true ∨ ∃ k, c = .read k := by
  cases c <;> simp [scan]

/-- What the scan of a session finds. -/
theorem run_inv (cs : List Cmd) : ∀ {s : Sh} {r d : Bool}, Inv s r d → Slots cs →
    (run s cs = none ↔ (d = true ∧ ∃ mid c post, cs = mid ++ c :: post ∧ (∀ x ∈ mid, Keeps x) ∧ Grows c) ∨
      ∃ pre mid post c, cs = pre ++ Cmd.writeDot :: mid ++ c :: post ∧ (r = true ∨ ∃ k, Cmd.read k ∈ pre) ∧ (∀ x ∈ mid, Keeps x) ∧ Grows c) := by
  induction cs with
  | nil =>
    intro s r d I _
    constructor
    · intro h; cases h
    · rintro (⟨_, mid, c, post, e, _⟩ | ⟨pre, mid, post, c, e, _⟩) <;> simp at e
  | cons c cs ih =>
    intro s r d I hs
    have hst := step_inv I c fun i hi => hs i (by rw [hi]; exact List.mem_cons_self ..)
    have hs' : Slots cs := fun i hi => hs i (List.mem_cons_of_mem _ hi)
    have hdr : d = true → r = true := by
      intro hd
      cases r
      · rw [I.fresh rfl] at hd; cases hd
      · rfl
    split at hst
    · rename_i hc
      rw [run, hst]
      exact iff_of_true rfl (Or.inl ⟨hc.1, [], c, cs, rfl, by simp, hc.2⟩)
    · rename_i hc
      obtain ⟨s', e', I'⟩ := hst
      rw [run, e', Option.bind_some, ih I' hs']
      constructor
      · rintro (⟨h1, mid, x, post, e, h2, h3⟩ | ⟨pre, mid, post, x, e, h1, h2, h3⟩)
        · rcases scan_drawn h1 with ⟨h4, h5⟩ | ⟨h4, h5⟩
          · refine Or.inl ⟨h4, c :: mid, x, post, by rw [e]; rfl, ?_, h3⟩
            intro y hy
            rcases List.mem_cons.1 hy with rfl | hy
            · exact h5
            · exact h2 y hy
          · exact Or.inr ⟨[], mid, post, x, by rw [e, h4]; rfl, Or.inl h5, h2, h3⟩
        · refine Or.inr ⟨c :: pre, mid, post, x, by rw [e]; rfl, ?_, h2, h3⟩
          rcases h1 with h1 | ⟨k, h1⟩
          · rcases scan_read.1 h1 with h1 | ⟨k, h1⟩
            · exact Or.inl h1
            · exact Or.inr ⟨k, by rw [h1]; exact List.mem_cons_self ..⟩
          · exact Or.inr ⟨k, List.mem_cons_of_mem _ h1⟩
      · rintro (⟨h1, mid, x, post, e, h2, h3⟩ | ⟨pre, mid, post, x, e, h1, h2, h3⟩)
        · cases mid with
          | nil =>
            cases e
            exact absurd ⟨h1, h3⟩ hc
          | cons y mid =>
            cases e
            exact Or.inl ⟨(keeps_scan (h2 _ (List.mem_cons_self ..)) hdr).2 h1, mid, x, post, rfl,
              fun z hz => h2 z (List.mem_cons_of_mem _ hz), h3⟩
        · cases pre with
          | nil =>
            cases e
            rcases h1 with h1 | ⟨k, h1⟩
            · exact Or.inl ⟨h1, mid, x, post, rfl, h2, h3⟩
            · cases h1
          | cons y pre =>
            cases e
            refine Or.inr ⟨pre, mid, post, x, rfl, ?_, h2, h3⟩
            rcases h1 with h1 | ⟨k, h1⟩
            · exact Or.inl (scan_read.2 (Or.inl h1))
            · rcases List.mem_cons.1 h1 with h1 | h1
              · exact Or.inl (scan_read.2 (Or.inr ⟨k, h1.symm⟩))
              · exact Or.inr ⟨k, h1⟩

/-! ### the property -/

/-- Exactly which sessions are undefined: those in which a stored network is drawn and later grows (`rewrite` or `refactor` that create a node in it) while it is still the
current one. -/
theorem C78_exact (cs : List Cmd) (hs : Slots cs) : run start cs = none ↔ GrowsDrawn cs := by
  rw [run_inv cs inv_start hs]
  constructor
  · rintro (⟨h, _⟩ | ⟨pre, mid, post, c, e, h1, h2, h3⟩)
    · cases h
    · rcases h1 with h1 | ⟨k, h1⟩
      · cases h1
      · exact ⟨pre, mid, post, c, k, e, h1, h2, h3⟩
  · rintro ⟨pre, mid, post, c, k, e, h1, h2, h3⟩
    exact Or.inr ⟨pre, mid, post, c, e, Or.inr ⟨k, h1⟩, h2, h3⟩

/-- A session that draws and rewrites, but with another network in between: defined. -/
example : Slots [.read 3, .writeDot, .save 0, .cleanup 3, .rewrite 2 3] ∧ ¬ GrowsDrawn [.read 3, .writeDot, .save 0, .cleanup 3, .rewrite 2 3] := by
  have hs : Slots [.read 3, .writeDot, .save 0, .cleanup 3, .rewrite 2 3] := by
    intro i hi
    simp at hi
    omega
  refine ⟨hs, ?_⟩
  rw [← C78_exact _ hs]
  decide

/-- The part of the claim that holds: sessions without `write_dot` for AIGs are free of undefined behaviour. Missing from the full statement: sessions with `write_dot`,
for which it is false (`C78_violated`); `C78_exact` says which of them are safe. -/
theorem C78_safe_partial (cs : List Cmd) (hs : Slots cs) (hd : Cmd.writeDot ∉ cs) : run start cs ≠ none := by
  rw [ne_eq, C78_exact cs hs]
  rintro ⟨pre, mid, post, c, k, e, _⟩
  apply hd
  rw [e]
  simp

/-- A session with all other kinds of commands. -/
example : Slots [.read 3, .rewrite 2 3, .save 0, .balance 3 2, .save 5, .refactor 1 3, .lutOpt 2 4, .mapChoice 5 2, .printStatsLut, .writeDotLut, .mapFpga 2, .printStats,
    .other, .rewrite 1 1] ∧
    (run start [.read 3, .rewrite 2 3, .save 0, .balance 3 2, .save 5, .refactor 1 3, .lutOpt 2 4, .mapChoice 5 2, .printStatsLut, .writeDotLut, .mapFpga 2, .printStats,
    .other, .rewrite 1 1]).isSome = true := by
  constructor
  · intro i hi
    simp at hi
    omega
  · decide

/-- A view that is made and destroyed on any network makes every later creation of a node undefined, whatever else the network carries: the reason behind `C78_exact`. -/
theorem C78_view (h h1 : Heap) (e v k : Nat) (ho : openView e h = some (v, h1)) : addNodes e (k + 1) (closeView v h1) = none := by
  rw [openView] at ho
  split at ho
  · cases ho
  · rename_i l hl
    cases ho
    have hlt := (List.getElem?_eq_some_iff.1 hl).1
    have hg : (closeView h.alive.length ⟨h.hooks.set e (l ++ [h.alive.length]), h.alive ++ [true]⟩).hooks[e]? = some (l ++ [h.alive.length]) := by
      show (h.hooks.set e _)[e]? = _
      rw [List.getElem?_set_self hlt]
    rw [addNodes_eq hg, if_neg]
    rintro (h' | h')
    · omega
    · have := h' h.alive.length (by simp)
      simp [closeView] at this

example : openView 0 ⟨[[]], []⟩ = some (0, ⟨[[0]], [true]⟩) := by decide

/-- The scripts of the flow are free of undefined behaviour: on a network without call-backs any sequence of `rewrite` and `balance_and` is, with any numbers of nodes;
`dch_compress` and `dch_compress2` are two of them. The network they return carries no call-back, so that they may follow each other. -/
theorem C78_flow (l : List (Bool × Nat × Nat)) : ∀ (e : Nat) (h : Heap), Idle h → h.hooks[e]? = some [] →
    ∃ p, script l e h = some p ∧ Idle p.2 ∧ p.2.hooks[p.1]? = some [] := by
  induction l with
  | nil => intro e h H he; exact ⟨(e, h), rfl, H, he⟩
  | cons a l ih =>
    intro e h H he
    obtain ⟨b, k, m⟩ := a
    cases b with
    | true =>
      rw [script, resynthesize, addNodes_eq he, if_pos (Or.inr (by simp)), Option.bind_some, build_eq, Option.bind_some]
      exact ih _ _ (idle_new H) (new_get h)
    | false =>
      obtain ⟨p, hp, h1, h2⟩ := balance_eq k m H (List.getElem?_eq_some_iff.1 he).1
      rw [script, hp, Option.bind_some]
      exact ih _ _ h1 h2

/-- The operations of `dch_compress2` on a network that was just read. -/
example : Idle ⟨[[]], []⟩ ∧ (script [(true, 2, 9), (false, 8, 8), (true, 1, 7), (true, 0, 7), (false, 7, 6), (true, 3, 6), (false, 6, 6)] 0 ⟨[[]], []⟩).isSome = true := by
  constructor
  · exact ⟨by simp, by simp⟩
  · decide

/-- The AND of four inputs as a chain. -/
def chain : Aig :=
  ((([(⟨1, false⟩, ⟨2, false⟩), (⟨3, false⟩, ⟨5, false⟩), (⟨4, false⟩, ⟨6, false⟩)] : List (Sig × Sig)).foldl (fun N p => (N.createAnd p.1 p.2).1)
      (Aig.cloneInputs 4 Aig.empty).1)).createPo ⟨7, false⟩

/-- The claim fails: read, `write_dot`, `rewrite`. The numbers of nodes are those of `rewriteCore` on `chain`: rewriting creates two nodes in the stored network. -/
theorem C78_violated : ∃ M D, Rewrite.rewriteCore Rewrite.rwDefault Rewrite.nor4Db 30 chain = some M ∧ Rewrite.rewrite Rewrite.rwDefault Rewrite.nor4Db 30 chain = some D ∧
    chain.nodes.length < M.nodes.length ∧
    run start [.read chain.gates.length, .writeDot, .rewrite (M.nodes.length - chain.nodes.length) D.gates.length] = none := by
  have h : (match Rewrite.rewriteCore Rewrite.rwDefault Rewrite.nor4Db 30 chain, Rewrite.rewrite Rewrite.rwDefault Rewrite.nor4Db 30 chain with
      | some M, some D => decide (chain.nodes.length < M.nodes.length) &&
          (run start [.read chain.gates.length, .writeDot, .rewrite (M.nodes.length - chain.nodes.length) D.gates.length]).isNone
      | _, _ => false) = true := by decide +kernel
  split at h
  · rename_i M D hM hD
    rw [Bool.and_eq_true] at h
    exact ⟨M, D, hM, hD, of_decide_eq_true h.1, Option.isNone_iff_eq_none.1 h.2⟩
  · cases h

end Verif.Cli.Events
