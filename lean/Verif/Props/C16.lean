import Verif.Topo.Depth
import Verif.Props.C15

set_option autoImplicit false

/-!
# C16: levels are longest path lengths
-/

namespace Verif.Topo

variable {p : DepthParam} {r : Nat → Nat}

/-- There is a path of delay `k` ending in `n`: it starts in a terminal node (input or constant) or in a
node without fanins, each non-terminal node on it adds its cost, and a complemented edge adds one if
complements are counted. -/
inductive Path (p : DepthParam) : Nat → Nat → Prop
  | terminal {n} : p.term n = true → Path p n 0
  | source {n} : p.term n = false → p.fanins n = [] → Path p n (p.cost n)
  | step {n f k} : p.term n = false → f ∈ p.fanins n → Path p f.index k →
      Path p n (k + (if p.countCompl = true ∧ f.compl = true then 1 else 0) + p.cost n)

/-- `l` is the length of a longest path ending in `n` -/
def Longest (p : DepthParam) (n l : Nat) : Prop := Path p n l ∧ ∀ k, Path p n k → k ≤ l

/-- acyclic below the terminal nodes -/
def DRanked (p : DepthParam) (r : Nat → Nat) : Prop := ∀ n, p.term n = false → ∀ f ∈ p.fanins n, r f.index < r n

theorem extra_eq (f : Sig) : p.extra f = if p.countCompl = true ∧ f.compl = true then 1 else 0 := by
  simp [DepthParam.extra]

/-- fanin nodes, not looking below terminal nodes -/
def below (p : DepthParam) : Nat → List Nat := fun n => if p.term n then [] else (p.fanins n).map (·.index)

/-- marked nodes that are not on the recursion stack `A` have their level and marked fanins -/
def Right (p : DepthParam) (trav : Nat) (A : Nat → Prop) (s : DSt) : Prop :=
  ∀ m, ¬ A m → s.vis m = trav → Longest p m (s.lev m) ∧ ∀ k ∈ below p m, s.vis k = trav

/-- what a recursive call for the nodes satisfying `R` does to the state -/
structure Step (p : DepthParam) (trav : Nat) (A : Nat → Prop) (R : Nat → Prop) (s s' : DSt) : Prop where
  right : Right p trav A s'
  mono : ∀ m, s.vis m = trav → s'.vis m = trav
  new : ∀ m, s'.vis m = trav → s.vis m = trav ∨ ∃ n, R n ∧ Tfi (below p) n m
  old : ∀ m, s'.vis m ≠ trav → s'.lev m = s.lev m
  roots : ∀ n, R n → s'.vis n = trav

theorem levelKids_spec {trav : Nat} {A : Nat → Prop} {rec : Nat → DSt → Option (DSt × Nat)} {k : Nat}
    (hrec : ∀ n s, r n < k → Right p trav A s → ∃ s' c, rec n s = some (s', c) ∧
      Step p trav A (· = n) s s' ∧ Longest p n c) :
    ∀ (l : List Sig) (s : DSt) (lv : Nat), (∀ f ∈ l, r f.index < k) → Right p trav A s →
      ∃ s' c, levelKids p rec l s lv = some (s', c) ∧ Step p trav A (fun n => ∃ f ∈ l, f.index = n) s s' ∧
        (c = lv ∨ ∃ f ∈ l, ∃ d, Path p f.index d ∧ c = d + p.extra f) ∧ lv ≤ c ∧
        ∀ f ∈ l, ∀ d, Path p f.index d → d + p.extra f ≤ c := by
  intro l
  induction l with
  | nil =>
    intro s lv _ h
    exact ⟨s, lv, rfl, ⟨h, fun _ h => h, fun _ h => Or.inl h, fun _ _ => rfl, by simp⟩, Or.inl rfl, le_rfl, by simp⟩
  | cons f l ih =>
    intro s lv hl h
    obtain ⟨s1, c1, e1, t1, l1⟩ := hrec f.index s (hl f (by simp)) h
    obtain ⟨s2, c2, e2, t2, o2, le2, m2⟩ := ih s1 (max lv (c1 + p.extra f)) (fun x hx => hl x (by simp [hx])) t1.right
    refine ⟨s2, c2, by simp only [levelKids, e1, e2], ⟨t2.right, fun m hm => t2.mono m (t1.mono m hm), ?_, ?_, ?_⟩,
      ?_, by omega, ?_⟩
    · intro m hm
      rcases t2.new m hm with h | ⟨n, ⟨g, hg, e⟩, ht⟩
      · rcases t1.new m h with h | ⟨n, rfl, ht⟩
        · exact Or.inl h
        · exact Or.inr ⟨_, ⟨f, by simp, rfl⟩, ht⟩
      · exact Or.inr ⟨n, ⟨g, by simp [hg], e⟩, ht⟩
    · intro m hm
      rw [t2.old m hm, t1.old m (fun h => hm (t2.mono m h))]
    · rintro n ⟨g, hg, e⟩
      rcases List.mem_cons.1 hg with rfl | hg
      · exact t2.mono n (t1.roots n e.symm)
      · exact t2.roots n ⟨g, hg, e⟩
    · rcases o2 with h | ⟨g, hg, d, hd, e⟩
      · rcases Nat.le_total lv (c1 + p.extra f) with hle | hle
        · exact Or.inr ⟨f, by simp, c1, l1.1, by omega⟩
        · exact Or.inl (by omega)
      · exact Or.inr ⟨g, by simp [hg], d, hd, e⟩
    · intro g hg d hd
      rcases List.mem_cons.1 hg with rfl | hg
      · have := l1.2 d hd; omega
      · exact m2 g hg d hd

theorem levelRec_spec (hr : DRanked p r) {trav : Nat} : ∀ (f n : Nat) (A : Nat → Prop) (s : DSt), r n < f →
    (∀ m, A m → r n < r m) → Right p trav A s → ∃ s' c, levelRec p trav f n s = some (s', c) ∧
      Step p trav A (· = n) s s' ∧ Longest p n c := by
  intro f
  induction f with
  | zero => intro n A s h; omega
  | succ f ih =>
    intro n A s hf hA h
    have hnA : ¬ A n := fun h => absurd (hA n h) (lt_irrefl _)
    rw [levelRec]
    split
    · rename_i hv
      exact ⟨s, _, rfl, ⟨h, fun _ h => h, fun _ h => Or.inl h, fun _ _ => rfl, by rintro n rfl; exact hv⟩, (h n hnA hv).1⟩
    · rename_i hv
      dsimp only
      cases hterm : p.term n with
      | true =>
        rw [if_pos rfl]
        have hlong : Longest p n 0 := by
          refine ⟨.terminal hterm, fun k hk => ?_⟩
          cases hk with
          | terminal => exact le_rfl
          | source h => rw [hterm] at h; cases h
          | step h => rw [hterm] at h; cases h
        refine ⟨_, _, rfl, ⟨?_, ?_, ?_, ?_, ?_⟩, hlong⟩
        · intro m hm hvm
          by_cases e : m = n
          · subst e
            simp only [upd, if_true]
            exact ⟨hlong, by simp [below, hterm]⟩
          · simp only [upd, e, if_false] at hvm ⊢
            obtain ⟨h1, h2⟩ := h m hm hvm
            exact ⟨h1, fun k hk => by split <;> [rfl; exact h2 k hk]⟩
        · intro m hm; simp only [upd]; split <;> [rfl; exact hm]
        · intro m hm
          simp only [upd] at hm
          split at hm
          · rename_i e; exact Or.inr ⟨n, rfl, by rw [e]; exact .refl _⟩
          · exact Or.inl hm
        · intro m hm
          simp only [upd] at hm ⊢
          split at hm
          · exact absurd rfl hm
          · rename_i e; rw [if_neg e]
        · rintro m rfl; simp [upd]
      | false =>
        rw [if_neg (by simp)]
        have hA' : ∀ m, (A m ∨ m = n) → r n ≤ r m := by
          rintro m (h | rfl)
          · have := hA m h; omega
          · exact le_rfl
        have h0 : Right p trav (fun m => A m ∨ m = n) ⟨upd s.vis n trav, s.lev⟩ := by
          intro m hm hvm
          simp only [not_or] at hm
          simp only [upd, hm.2, if_false] at hvm ⊢
          obtain ⟨h1, h2⟩ := h m hm.1 hvm
          exact ⟨h1, fun k hk => by split <;> [rfl; exact h2 k hk]⟩
        obtain ⟨s1, c, e1, t1, o1, _, m1⟩ := levelKids_spec (r := r) (k := r n) (trav := trav)
          (rec := levelRec p trav f) (A := fun m => A m ∨ m = n)
          (fun k s' hk hs => ih k _ s' (by omega) (fun m hm => by have := hA' m hm; omega) hs)
          (p.fanins n) _ 0 (fun g hg => hr n hterm g hg) h0
        rw [e1]
        have hbelow : below p n = (p.fanins n).map (·.index) := by simp [below, hterm]
        have hlong : Longest p n (c + p.cost n) := by
          refine ⟨?_, fun k hk => ?_⟩
          · rcases o1 with rfl | ⟨g, hg, d, hd, rfl⟩
            · cases hfan : p.fanins n with
              | nil => rw [Nat.zero_add]; exact .source hterm hfan
              | cons g l =>
                have hg : g ∈ p.fanins n := by rw [hfan]; simp
                -- level 0 although there is a fanin: any longest path of the fanin has length 0
                obtain ⟨s', d, _, _, hd⟩ := ih g.index (fun _ => False) ⟨fun _ => trav + 1, s.lev⟩
                  (by have := hr n hterm g hg; omega) (fun _ h => h.elim) (fun m _ hm => by simp at hm)
                have h1 := m1 g hg d hd.1
                have h2 := Path.step hterm hg hd.1
                rw [← extra_eq] at h2
                rwa [show d + p.extra g = 0 by omega] at h2
            · rw [extra_eq]; exact .step hterm hg hd
          · cases hk with
            | terminal h => rw [hterm] at h; cases h
            | source _ h => omega
            | @step _ g d _ hg hd =>
              have := m1 g hg d hd
              rw [extra_eq] at this
              omega
        refine ⟨_, _, rfl, ⟨?_, ?_, ?_, ?_, ?_⟩, hlong⟩
        · intro m hm hvm
          by_cases e : m = n
          · subst e
            simp only [upd, if_true]
            refine ⟨hlong, fun k hk => ?_⟩
            rw [hbelow, List.mem_map] at hk
            obtain ⟨g, hg, e⟩ := hk
            exact t1.roots k ⟨g, hg, e⟩
          · simp only [upd, e, if_false] at hvm ⊢
            exact t1.right m (by simp [hm, e]) hvm
        · intro m hm
          apply t1.mono
          simp only [upd]; split <;> [rfl; exact hm]
        · intro m hm
          rcases t1.new m hm with h | ⟨k, ⟨g, hg, e⟩, ht⟩
          · simp only [upd] at h
            split at h
            · rename_i e; exact Or.inr ⟨n, rfl, by rw [e]; exact .refl _⟩
            · exact Or.inl h
          · refine Or.inr ⟨n, rfl, .step ?_ ht⟩
            rw [hbelow, List.mem_map]; exact ⟨g, hg, e⟩
        · intro m hm
          have hne : m ≠ n := by
            rintro rfl
            exact hm (t1.mono m (by simp [upd]))
          simp only [upd, hne, if_false]
          exact t1.old m hm
        · rintro m rfl
          exact t1.mono m (by simp [upd])

theorem levelPos_spec (hr : DRanked p r) {trav fuel : Nat} : ∀ (l : List Sig) (s : DSt) (d : Nat),
    (∀ f ∈ l, r f.index < fuel) → Right p trav (fun _ => False) s →
    ∃ s' d', levelPos p trav fuel l s d = some (s', d') ∧
      Step p trav (fun _ => False) (fun n => ∃ f ∈ l, f.index = n) s s' ∧
      (d' = d ∨ ∃ f ∈ l, ∃ c, Longest p f.index c ∧ d' = c + p.extra f) ∧ d ≤ d' ∧
        ∀ f ∈ l, ∀ c, Longest p f.index c → c + p.extra f ≤ d' := by
  intro l
  induction l with
  | nil =>
    intro s lv _ h
    exact ⟨s, lv, rfl, ⟨h, fun _ h => h, fun _ h => Or.inl h, fun _ _ => rfl, by simp⟩, Or.inl rfl, le_rfl, by simp⟩
  | cons f l ih =>
    intro s d hl h
    obtain ⟨s1, c1, e1, t1, l1⟩ := levelRec_spec hr fuel f.index (fun _ => False) s (hl f (by simp)) (fun _ h => h.elim) h
    obtain ⟨s2, c2, e2, t2, o2, le2, m2⟩ := ih s1 (max d (c1 + p.extra f)) (fun x hx => hl x (by simp [hx])) t1.right
    refine ⟨s2, c2, by simp only [levelPos, e1, e2], ⟨t2.right, fun m hm => t2.mono m (t1.mono m hm), ?_, ?_, ?_⟩,
      ?_, by omega, ?_⟩
    · intro m hm
      rcases t2.new m hm with h | ⟨n, ⟨g, hg, e⟩, ht⟩
      · rcases t1.new m h with h | ⟨n, rfl, ht⟩
        · exact Or.inl h
        · exact Or.inr ⟨_, ⟨f, by simp, rfl⟩, ht⟩
      · exact Or.inr ⟨n, ⟨g, by simp [hg], e⟩, ht⟩
    · intro m hm
      rw [t2.old m hm, t1.old m (fun h => hm (t2.mono m h))]
    · rintro n ⟨g, hg, e⟩
      rcases List.mem_cons.1 hg with rfl | hg
      · exact t2.mono n (t1.roots n e.symm)
      · exact t2.roots n ⟨g, hg, e⟩
    · rcases o2 with h | ⟨g, hg, d, hd, e⟩
      · rcases Nat.le_total d (c1 + p.extra f) with hle | hle
        · exact Or.inr ⟨f, by simp, c1, l1, by omega⟩
        · exact Or.inl (by omega)
      · exact Or.inr ⟨g, by simp [hg], d, hd, e⟩
    · intro g hg d hd
      rcases List.mem_cons.1 hg with rfl | hg
      · have := l1.2 d hd.1; omega
      · exact m2 g hg d hd

/-- C16.  For every acyclic network, cost function and set of outputs: the recursion terminates; every
node in the transitive fanin of an output gets the length of a longest path as level, every other
node gets 0; the depth is the maximum over the outputs (0 if there are none), a complemented output
counting one more if complements are counted. -/
theorem C16_levels (p : DepthParam) (r : Nat → Nat) (hr : DRanked p r) (pos : List Sig) (vis : Nat → Nat)
    (travId fuel : Nat) (hvis : ∀ n, vis n ≤ travId) (hf : ∀ f ∈ pos, r f.index < fuel) :
    ∃ s d, updateLevels p pos vis travId fuel = some (s, d) ∧
      (∀ n, (∃ f ∈ pos, Tfi (below p) f.index n) → Longest p n (s.lev n)) ∧
      (∀ n, ¬ (∃ f ∈ pos, Tfi (below p) f.index n) → s.lev n = 0) ∧
      (pos = [] → d = 0) ∧
      (∀ f ∈ pos, s.lev f.index + (if p.countCompl = true ∧ f.compl = true then 1 else 0) ≤ d) ∧
      (pos ≠ [] → ∃ f ∈ pos, d = s.lev f.index + (if p.countCompl = true ∧ f.compl = true then 1 else 0)) := by
  obtain ⟨s, d, e, t, o, _, m⟩ := levelPos_spec hr (trav := travId + 1) (fuel := fuel) pos ⟨vis, fun _ => 0⟩ 0 hf
    (fun m _ hm => by have := hvis m; simp only at hm; omega)
  have hmark : ∀ n, s.vis n = travId + 1 ↔ ∃ f ∈ pos, Tfi (below p) f.index n := by
    intro n
    constructor
    · intro h
      rcases t.new n h with h | ⟨k, ⟨g, hg, rfl⟩, ht⟩
      · have := hvis n; simp only at h; omega
      · exact ⟨g, hg, ht⟩
    · rintro ⟨g, hg, ht⟩
      have h0 := t.roots g.index ⟨g, hg, rfl⟩
      clear hg
      generalize g.index = k at ht h0
      induction ht with
      | refl n => exact h0
      | step hk _ ih => exact ih ((t.right _ (fun h => h) h0).2 _ hk)
  have hl : ∀ n, (∃ f ∈ pos, Tfi (below p) f.index n) → Longest p n (s.lev n) :=
    fun n hn => (t.right n (fun h => h) ((hmark n).2 hn)).1
  have hroot : ∀ f ∈ pos, Longest p f.index (s.lev f.index) := fun f hf => hl _ ⟨f, hf, .refl _⟩
  have huniq : ∀ n a b, Longest p n a → Longest p n b → a = b := fun n a b h1 h2 =>
    le_antisymm (h2.2 a h1.1) (h1.2 b h2.1)
  refine ⟨s, d, e, hl, fun n hn => t.old n fun h => hn ((hmark n).1 h), ?_, ?_, ?_⟩
  · rintro rfl
    rcases o with rfl | ⟨f, hf, _⟩
    · rfl
    · simp at hf
  · intro f hf
    rw [← extra_eq]; exact m f hf _ (hroot f hf)
  · intro hne
    rcases o with rfl | ⟨f, hf, c, hc, rfl⟩
    · obtain ⟨f, hf⟩ := List.exists_mem_of_ne_nil pos hne
      have := m f hf _ (hroot f hf)
      exact ⟨f, hf, by rw [← extra_eq]; omega⟩
    · exact ⟨f, hf, by rw [← extra_eq, huniq _ _ _ hc (hroot f hf)]⟩

/-- Constructed AIGs satisfy the hypotheses of `C16_levels` with the node index as rank. -/
theorem C16_built (N : Aig) (hN : Aig.Built N) (cc : Bool) :
    DRanked ⟨aigFanins N, fun n => n == 0 || N.isPi n, fun _ => 1, cc⟩ id ∧ ∀ n, visOf N n ≤ N.travId := by
  refine ⟨?_, (C15_built N hN).marks⟩
  intro n _ f hf
  apply (C15_built N hN).ranked
  simp only [aigFanins] at hf
  simp only [RefDeref.aigKids]
  split at hf
  · simp at hf
  · rename_i h
    rw [if_neg h]
    split at hf
    · rename_i nd hnd
      rw [hnd]
      simp only [List.mem_cons, List.not_mem_nil, or_false] at hf ⊢
      rcases hf with rfl | rfl
      · exact Or.inl rfl
      · exact Or.inr rfl
    · simp at hf

/-- Levels of the network of C15 that is not in index order. -/
example : (depthView unordered false 6).map (fun q => (q.1.lev 4, q.1.lev 3, q.1.lev 5, q.2)) = some (1, 2, 0, 2) := by
  decide

/-- the same counting the complemented output -/
example : (depthView unordered true 6).map (fun q => (q.1.lev 4, q.1.lev 3, q.2)) = some (1, 2, 3) := by decide

/-- A register output is not a primary input for the view: it gets level 1, not 0. -/
theorem C16_register_level :
    ∃ N, Aig.Built N ∧ 2 ∈ N.inputs ∧ (depthView N false 10).map (fun q => q.1.lev 2) = some 1 := by
  refine ⟨((((Aig.empty.createPi).1.createRo).1.createPo ⟨2, false⟩).createRi ⟨1, false⟩ 0),
    .ri (.po (.ro (.pi .empty)) (by decide)) (by decide), by decide, by decide⟩

end Verif.Topo
