import Verif.TTCache

set_option autoImplicit false

/-!
# C22: truth table cache
-/

namespace Verif.TTCache

/-- what holds between operations -/
structure Inv (c : TTCache) : Prop where
  find : ∀ t i, c.find t = some i ↔ c.data[i]? = some t
  wf : ∀ t ∈ c.data, t.WF
  normal : ∀ t ∈ c.data, t.get 0 = false

theorem inv_empty : Inv empty := ⟨by intro t i; simp [empty, TTCache.find], by simp [empty], by simp [empty]⟩

/-- the normal version of a table -/
theorem normal_spec (t : TT) (h : t.WF) : (if t.get 0 then t.not else t).WF ∧
    (if t.get 0 then t.not else t).get 0 = false ∧
    (if (if t.get 0 then 1 else 0) % 2 = 1 then (if t.get 0 then t.not else t).not else (if t.get 0 then t.not else t)) = t := by
  cases h0 : t.get 0 with
  | false => simp [h, h0]
  | true =>
    simp only [if_true]
    refine ⟨TT.wf_not _, ?_, TT.not_not h⟩
    rw [TT.get_not (Nat.two_pow_pos _), h0]; rfl

theorem insert_spec (c : TTCache) (h : Inv c) (t : TT) (ht : t.WF) :
    Inv (c.insert t).1 ∧ (c.insert t).1.lookup (c.insert t).2 = some t ∧
    (∀ l u, c.lookup l = some u → (c.insert t).1.lookup l = some u) ∧
    (∀ u i, c.find u = some i → (c.insert t).1.find u = some i) ∧
    ∃ i, (c.insert t).1.find (if t.get 0 then t.not else t) = some i ∧ (c.insert t).2 = 2 * i + (if t.get 0 then 1 else 0) := by
  obtain ⟨n1, n2, n3⟩ := normal_spec t ht
  have hdiv : ∀ i, (2 * i + if t.get 0 = true then 1 else 0) / 2 = i := by intro i; split <;> omega
  have hmod : ∀ i, (2 * i + if t.get 0 = true then 1 else 0) % 2 = (if t.get 0 = true then 1 else 0) % 2 := by
    intro i; split <;> omega
  rw [insert]
  generalize hT : (if t.get 0 = true then t.not else t) = T at *
  cases hf : c.find T with
  | some i =>
    dsimp only
    refine ⟨h, ?_, fun _ _ h => h, fun _ _ h => h, i, hf, rfl⟩
    rw [lookup, hdiv, (h.find T i).1 hf]
    dsimp only
    rw [hmod, n3]
  | none =>
    dsimp only
    have hfind : ∀ u, (⟨(T, c.data.length) :: c.indexes, c.data ++ [T]⟩ : TTCache).find u =
        if T = u then some c.data.length else c.find u := by
      intro u
      rw [TTCache.find, List.find?_cons]
      by_cases hu : T = u
      · simp [hu]
      · simp [hu, TTCache.find]
    refine ⟨⟨?_, ?_, ?_⟩, ?_, ?_, ?_, c.data.length, ?_, rfl⟩
    · intro u i
      rw [hfind]
      by_cases hu : T = u
      · subst hu
        rw [if_pos rfl]
        constructor
        · intro e; obtain rfl := Option.some.inj e; simp
        · intro e
          by_cases hi : i < c.data.length
          · rw [List.getElem?_append_left hi] at e
            rw [(h.find T i).2 e] at hf; simp at hf
          · have := (List.getElem?_eq_some_iff.1 e).1
            rw [List.length_append, List.length_singleton] at this
            congr 1; omega
      · rw [if_neg hu, h.find]
        by_cases hi : i < c.data.length
        · rw [List.getElem?_append_left hi]
        · rw [List.getElem?_append_right (by omega), List.getElem?_eq_none (by omega : c.data.length ≤ i)]
          constructor
          · intro e; simp at e
          · intro e
            rcases Nat.eq_zero_or_pos (i - c.data.length) with h0 | h0
            · rw [h0] at e; simp at e; exact absurd e hu
            · rw [List.getElem?_eq_none (by simp; omega)] at e; simp at e
    · intro u hu
      rcases List.mem_append.1 hu with hu | hu
      · exact h.wf u hu
      · rw [List.mem_singleton] at hu; rw [hu]; exact n1
    · intro u hu
      rcases List.mem_append.1 hu with hu | hu
      · exact h.normal u hu
      · rw [List.mem_singleton] at hu; rw [hu]; exact n2
    · rw [lookup, hdiv]
      simp only [List.getElem?_concat_length]
      rw [hmod, n3]
    · intro l u hl
      rw [lookup] at hl ⊢
      cases hd : c.data[l / 2]? with
      | none => rw [hd] at hl; simp at hl
      | some w =>
        rw [hd] at hl
        dsimp only
        rw [List.getElem?_append_left (List.getElem?_eq_some_iff.1 hd).1, hd]
        exact hl
    · intro u i hu
      rw [hfind]
      by_cases e : T = u
      · subst e; rw [hu] at hf; simp at hf
      · rw [if_neg e]; exact hu
    · rw [hfind, if_pos rfl]

theorem inserts_spec (ts : List TT) : ∀ (c : TTCache), Inv c → (∀ t ∈ ts, t.WF) →
    Inv (c.inserts ts) ∧ (∀ l u, c.lookup l = some u → (c.inserts ts).lookup l = some u) ∧
    (∀ u i, c.find u = some i → (c.inserts ts).find u = some i) := by
  induction ts with
  | nil => intro c h _; exact ⟨h, fun _ _ h => h, fun _ _ h => h⟩
  | cons t ts ih =>
    intro c h ht
    obtain ⟨h1, _, h3, h4, _⟩ := insert_spec c h t (ht t (by simp))
    obtain ⟨g1, g2, g3⟩ := ih _ h1 (fun u hu => ht u (by simp [hu]))
    exact ⟨g1, fun l u hl => g2 l u (h3 l u hl), fun u i hu => g3 u i (h4 u i hu)⟩

/-- inserting a table whose normal version is stored -/
theorem insert_stored (c : TTCache) (t : TT) (i : Nat) (h : c.find (if t.get 0 then t.not else t) = some i) :
    c.insert t = (c, 2 * i + if t.get 0 then 1 else 0) := by
  rw [insert]
  rw [h]

/-- the literal with the last bit flipped -/
def flip (l : Nat) : Nat := if l % 2 = 0 then l + 1 else l - 1

/-- C22: insert `t` after any history, then let any further insertions follow.  The literal that was
returned yields `t`; inserting `t` again returns the same literal and inserting `~t` the complemented one,
without changing the cache; and the complemented literal yields `~t`. -/
theorem C22_cache (before after : List TT) (t : TT) (hb : ∀ u ∈ before, u.WF) (ha : ∀ u ∈ after, u.WF) (ht : t.WF) :
    let r := (empty.inserts before).insert t
    let c := r.1.inserts after
    c.lookup r.2 = some t ∧ c.insert t = (c, r.2) ∧ c.insert t.not = (c, flip r.2) ∧ c.lookup (flip r.2) = some t.not := by
  intro r c
  obtain ⟨h1, _, _⟩ := inserts_spec before empty inv_empty hb
  obtain ⟨g1, g2, g3, _, i, g5, g6⟩ := insert_spec _ h1 t ht
  obtain ⟨k1, k2, k3⟩ := inserts_spec after r.1 g1 ha
  have hfi : c.find (if t.get 0 then t.not else t) = some i := k3 _ _ g5
  have e1 : c.insert t = (c, r.2) := by rw [insert_stored c t i hfi]; exact congrArg _ g6.symm
  have h0 : t.not.get 0 = !t.get 0 := TT.get_not (Nat.two_pow_pos _)
  have e2 : c.insert t.not = (c, flip r.2) := by
    have : (if t.not.get 0 then t.not.not else t.not) = (if t.get 0 then t.not else t) := by
      rw [h0, TT.not_not ht]; cases t.get 0 <;> rfl
    rw [insert_stored c t.not i (by rw [this]; exact hfi)]
    have hr : r.2 = 2 * i + if t.get 0 then 1 else 0 := g6
    rw [hr, h0, flip]
    congr 1
    cases t.get 0 <;> simp
  refine ⟨k2 _ _ g2, e1, e2, ?_⟩
  have := (insert_spec c k1 t.not (TT.wf_not t)).2.1
  rw [e2] at this
  exact this

/-- C22, different tables never share a literal. -/
theorem C22_injective (hist : List TT) (hh : ∀ u ∈ hist, u.WF) (t u : TT) (ht : t.WF) (hu : u.WF)
    (h : ((empty.inserts hist).insert t).2 = (((empty.inserts hist).insert t).1.insert u).2) : t = u := by
  obtain ⟨h1, _, _⟩ := inserts_spec hist empty inv_empty hh
  obtain ⟨g1, g2, _⟩ := insert_spec _ h1 t ht
  obtain ⟨_, k2, k3, _⟩ := insert_spec _ g1 u hu
  have := k3 _ _ g2
  rw [h, k2] at this
  exact (Option.some.inj this).symm

example : let maj : TT := ⟨3, [false, false, false, true, false, true, true, true]⟩
    let r := (empty.inserts [TT.const 0 false, TT.nthVar 1 0]).insert maj.not
    maj.WF ∧ r.2 = 5 ∧ (r.1.insert maj).2 = 4 ∧ r.1.lookup 5 = some maj.not ∧ r.1.data.length = 3 := by decide

/-- the constant with no variables and the constant with one variable are different entries -/
example : ((empty.insert (TT.const 0 false)).1.insert (TT.const 1 true)).2 = 3 := by decide

end Verif.TTCache
