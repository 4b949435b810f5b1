import Verif.Flow.Config
import Verif.Props.C38

set_option autoImplicit false

/-!
# C83: the flow does what its configuration file says

Full statement: every setting of the configuration file has the value given there, a setting that is not given keeps its default, values that make no sense are reported, and the flow
behaves accordingly.

`C83_said_partial`: given settings of the right type and size reach the parameters, all but one, which goes elsewhere. `C83_bool`, `C83_uint` tell exactly what is made of every document. The rest is false:
missing settings are 0 (`C83_missing`, `C83_violated_default`), numbers wrap around (`C83_violated_wrap`), the switch for truth table minimisation is taken from another setting
(`C83_violated_minimize`, for the file of the repository), and only two settings have an influence on the networks (`C83_only_two`), so that `use_rewrite`, `use_balance`, `iterations` and the
numbers of rounds have none (`C83_violated_unused`).
-/

namespace Verif.Flow.Config

/-! ### specification -/

/-- The last field with the name `k` is `v`. -/
def Last (fs : List (String × Json)) (k : String) (v : Json) : Prop :=
  ∃ pre post, fs = pre ++ (k, v) :: post ∧ ∀ x ∈ post, x.1 ≠ k

/-- The document says that setting `k` of section `s` is `v`. -/
def Says (doc : Json) (s k : String) (v : Json) : Prop := ∃ fs gs, doc = .obj fs ∧ Last fs s (.obj gs) ∧ Last gs k v

/-- No field has the name `k`, or the last one is null. -/
def Without (fs : List (String × Json)) (k : String) : Prop := (∀ x ∈ fs, x.1 ≠ k) ∨ Last fs k .null

/-- The document says nothing about setting `k` of section `s`. -/
def Silent (doc : Json) (s k : String) : Prop :=
  doc = .null ∨ ∃ fs, doc = .obj fs ∧ (Without fs s ∨ ∃ gs, Last fs s (.obj gs) ∧ Without gs k)

/-- Something that has no fields -/
def Plain (v : Json) : Prop := v ≠ .null ∧ ∀ fs, v ≠ .obj fs

/-- The document or its section has no fields. -/
def Broken (doc : Json) (s : String) : Prop := Plain doc ∨ ∃ fs v, doc = .obj fs ∧ Last fs s v ∧ Plain v

/-! ### fields -/

theorem field_last {fs : List (String × Json)} {k : String} {v : Json} (h : Last fs k v) : field fs k = v := by
  obtain ⟨pre, post, rfl, hp⟩ := h
  unfold field
  have : (pre ++ (k, v) :: post).reverse.find? (fun x => x.1 == k) = some (k, v) := by
    rw [List.reverse_append, List.reverse_cons, List.append_assoc, List.find?_append]
    have : post.reverse.find? (fun x => x.1 == k) = none := by
      rw [List.find?_eq_none]
      intro x hx
      simp only [beq_iff_eq]
      exact hp x (List.mem_reverse.1 hx)
    rw [this]
    simp
  rw [this]

theorem field_without {fs : List (String × Json)} {k : String} (h : Without fs k) : field fs k = .null := by
  rcases h with h | h
  · unfold field
    have : fs.reverse.find? (fun x => x.1 == k) = none := by
      rw [List.find?_eq_none]
      intro x hx
      simp only [beq_iff_eq]
      exact h x (List.mem_reverse.1 hx)
    rw [this]
  · exact field_last h

theorem last_exists (fs : List (String × Json)) (k : String) : (∀ x ∈ fs, x.1 ≠ k) ∨ ∃ v, Last fs k v := by
  induction fs with
  | nil => exact Or.inl (by simp)
  | cons x fs ih =>
    rcases ih with h | ⟨v, pre, post, rfl, hp⟩
    · by_cases hx : x.1 = k
      · exact Or.inr ⟨x.2, [], fs, by rw [← hx]; rfl, h⟩
      · refine Or.inl ?_
        intro y hy
        rcases List.mem_cons.1 hy with rfl | hy
        · exact hx
        · exact h y hy
    · exact Or.inr ⟨v, x :: pre, post, rfl, hp⟩

theorem cases_json (v : Json) : v = .null ∨ (∃ fs, v = .obj fs) ∨ Plain v := by
  cases v <;> simp [Plain]

/-- Every document says something or nothing about a setting, or has no such section. -/
theorem says_cases (doc : Json) (s k : String) : (∃ v, v ≠ .null ∧ Says doc s k v) ∨ Silent doc s k ∨ Broken doc s := by
  rcases cases_json doc with h | ⟨fs, h⟩ | h
  · exact Or.inr (Or.inl (Or.inl h))
  · rcases last_exists fs s with h1 | ⟨v, h1⟩
    · exact Or.inr (Or.inl (Or.inr ⟨fs, h, Or.inl (Or.inl h1)⟩))
    · rcases cases_json v with rfl | ⟨gs, rfl⟩ | hv
      · exact Or.inr (Or.inl (Or.inr ⟨fs, h, Or.inl (Or.inr h1)⟩))
      · rcases last_exists gs k with h2 | ⟨w, h2⟩
        · exact Or.inr (Or.inl (Or.inr ⟨fs, h, Or.inr ⟨gs, h1, Or.inl h2⟩⟩))
        · by_cases hw : w = .null
          · subst hw
            exact Or.inr (Or.inl (Or.inr ⟨fs, h, Or.inr ⟨gs, h1, Or.inr h2⟩⟩))
          · exact Or.inl ⟨w, hw, fs, gs, h, h1, h2⟩
      · exact Or.inr (Or.inr (Or.inr ⟨fs, v, h, h1, hv⟩))
  · exact Or.inr (Or.inr (Or.inl h))

theorem at_plain {v : Json} (h : Plain v) (k : String) : at_ v k = .stop := by
  cases v with
  | null => exact absurd rfl h.1
  | obj fs => exact absurd rfl (h.2 fs)
  | _ => rfl

theorem walk_says {doc v : Json} {s k : String} (h : Says doc s k v) : walk doc [s, k] = .ok v := by
  obtain ⟨fs, gs, rfl, h1, h2⟩ := h
  simp only [walk, at_, Out.then, field_last h1, field_last h2]

theorem walk_silent {doc : Json} {s k : String} (h : Silent doc s k) : walk doc [s, k] = .ok .null := by
  rcases h with rfl | ⟨fs, rfl, h | ⟨gs, h1, h2⟩⟩
  · rfl
  · simp only [walk, at_, Out.then, field_without h]
  · simp only [walk, at_, Out.then, field_last h1, field_without h2]

theorem walk_broken {doc : Json} {s k : String} (h : Broken doc s) : walk doc [s, k] = .stop := by
  rcases h with h | ⟨fs, v, rfl, h1, h2⟩
  · simp only [walk, at_plain h, Out.then]
  · simp only [walk]
    rw [show at_ (.obj fs) s = .ok v from by simp only [at_, field_last h1]]
    simp only [Out.then, at_plain h2]

/-! ### single settings -/

/-- What is made of a switch, for every document. -/
theorem C83_bool (doc : Json) (s k : String) :
    (∀ b, Says doc s k (.bool b) → getBool doc [s, k] = .ok b) ∧
    (Silent doc s k → getBool doc [s, k] = .ok false) ∧
    (Broken doc s → getBool doc [s, k] = .stop) ∧
    (∀ v, Says doc s k v → v ≠ .null → (∀ b, v ≠ .bool b) → getBool doc [s, k] = .stop) ∧
    getBool doc [s, k] ≠ .undef := by
  have h4 : ∀ v, Says doc s k v → v ≠ .null → (∀ b, v ≠ .bool b) → getBool doc [s, k] = .stop := by
    intro v h h0 hb
    simp only [getBool, walk_says h, Out.then]
  have h1 : ∀ b, Says doc s k (.bool b) → getBool doc [s, k] = .ok b := by
    intro b h
    simp only [getBool, walk_says h, Out.then]
  have h2 : Silent doc s k → getBool doc [s, k] = .ok false := by
    intro h
    simp only [getBool, walk_silent h, Out.then]
  have h3 : Broken doc s → getBool doc [s, k] = .stop := by
    intro h
    simp only [getBool, walk_broken h, Out.then]
  refine ⟨h1, h2, h3, h4, ?_⟩
  rcases says_cases doc s k with ⟨v, hv, h⟩ | h | h
  · by_cases hb : ∃ b, v = .bool b
    · obtain ⟨b, rfl⟩ := hb
      rw [h1 b h]
      simp
    · push Not at hb
      rw [h4 v h hv hb]
      simp
  · rw [h2 h]
    simp
  · rw [h3 h]
    simp

/-- What is made of a number, for every document. -/
theorem C83_uint (doc : Json) (s k : String) :
    (∀ n, Says doc s k (.nat n) → getUint doc [s, k] = .ok (n % 2 ^ 32)) ∧
    (∀ i : Int, Says doc s k (.int i) → ∃ m, getUint doc [s, k] = .ok m ∧ m < 2 ^ 32 ∧ (2 ^ 32 : Int) ∣ i - m) ∧
    (∀ t : Int, Says doc s k (.float t) → 0 ≤ t → t < 2 ^ 32 → getUint doc [s, k] = .ok t.toNat) ∧
    (∀ t : Int, Says doc s k (.float t) → ¬ (0 ≤ t ∧ t < 2 ^ 32) → getUint doc [s, k] = .undef) ∧
    (∀ b, Says doc s k (.bool b) → getUint doc [s, k] = .ok (if b then 1 else 0)) ∧
    (Silent doc s k → getUint doc [s, k] = .ok 0) ∧
    (Broken doc s → getUint doc [s, k] = .stop) ∧
    (∀ v, Says doc s k v → (∃ x, v = .str x) ∨ (∃ x, v = .arr x) ∨ (∃ x, v = .obj x) → getUint doc [s, k] = .stop) := by
  refine ⟨?_, ?_, ?_, ?_, ?_, ?_, ?_, ?_⟩
  · intro n h
    simp only [getUint, walk_says h, Out.then]
  · intro i h
    have hm := Int.emod_nonneg i (b := 2 ^ 32) (by decide)
    have hl := Int.emod_lt_of_pos i (b := 2 ^ 32) (by decide)
    refine ⟨(i % 2 ^ 32).toNat, by simp only [getUint, walk_says h, Out.then], by omega, ?_⟩
    rw [Int.toNat_of_nonneg hm]
    exact Int.dvd_self_sub_emod
  · intro t h h0 h1
    simp only [getUint, walk_says h, Out.then]
    rw [if_pos ⟨h0, h1⟩]
  · intro t h h0
    simp only [getUint, walk_says h, Out.then]
    rw [if_neg h0]
  · intro b h
    simp only [getUint, walk_says h, Out.then]
  · intro h
    simp only [getUint, walk_silent h, Out.then]
  · intro h
    simp only [getUint, walk_broken h, Out.then]
  · intro v h hv
    simp only [getUint, walk_says h, Out.then]
    rcases hv with ⟨x, rfl⟩ | ⟨x, rfl⟩ | ⟨x, rfl⟩ <;> rfl

/-! ### all settings -/

/-- what a user writes -/
structure Wanted where
  debug : Bool
  iterations : Nat
  useBalance : Bool
  useRewrite : Bool
  verbose : Bool
  veryVerbose : Bool
  cutSize : Nat
  cutLimit : Nat
  globalRounds : Nat
  localRounds : Nat
  mapDebug : Bool
  mapVerbose : Bool
  rewriteCutSize : Nat
  rewriteCutLimit : Nat
  minCandidate : Nat
  zeroGain : Bool
  preserveDepth : Bool

/-- The document has all settings, of the right types. -/
structure Written (doc : Json) (w : Wanted) : Prop where
  debug : Says doc "flow_manager" "debug" (.bool w.debug)
  iterations : Says doc "flow_manager" "iterations" (.nat w.iterations)
  useBalance : Says doc "flow_manager" "use_balance" (.bool w.useBalance)
  useRewrite : Says doc "flow_manager" "use_rewrite" (.bool w.useRewrite)
  verbose : Says doc "flow_manager" "verbose" (.bool w.verbose)
  veryVerbose : Says doc "flow_manager" "very_verbose" (.bool w.veryVerbose)
  cutSize : Says doc "klut_mapping" "cut_size" (.nat w.cutSize)
  cutLimit : Says doc "klut_mapping" "cut_limit" (.nat w.cutLimit)
  globalRounds : Says doc "klut_mapping" "uGlobal_round" (.nat w.globalRounds)
  localRounds : Says doc "klut_mapping" "uLocal_round" (.nat w.localRounds)
  mapDebug : Says doc "klut_mapping" "debug" (.bool w.mapDebug)
  mapVerbose : Says doc "klut_mapping" "verbose" (.bool w.mapVerbose)
  rewriteCutSize : Says doc "rewrite" "cut_size" (.nat w.rewriteCutSize)
  rewriteCutLimit : Says doc "rewrite" "cut_limit" (.nat w.rewriteCutLimit)
  minCandidate : Says doc "rewrite" "min_candidate_cut_size" (.nat w.minCandidate)
  zeroGain : Says doc "rewrite" "use_zero_gain" (.bool w.zeroGain)
  preserveDepth : Says doc "rewrite" "preserve_depth" (.bool w.preserveDepth)

/-- All numbers fit. -/
def Wanted.Fits (w : Wanted) : Prop :=
  w.iterations < 2 ^ 32 ∧ w.cutSize < 2 ^ 32 ∧ w.cutLimit < 2 ^ 32 ∧ w.globalRounds < 2 ^ 8 ∧ w.localRounds < 2 ^ 8 ∧
    w.rewriteCutSize < 2 ^ 32 ∧ w.rewriteCutLimit < 2 ^ 32 ∧ w.minCandidate < 2 ^ 32

/-- The settings of a document that has them all, with the right types and in range, reach the parameters; parameters for which there is no setting keep their values. The number of
candidate leaves has no parameter and switches the minimisation of truth tables instead. Missing from the full statement: missing settings, large numbers, this one, and the influence on the flow. -/
theorem C83_said_partial (doc : Json) (w : Wanted) (h : Written doc w) (hf : w.Fits) (p : Params) :
    ∃ q, configure doc p = .ok q ∧
      q.flow = ⟨w.debug, w.useBalance, w.useRewrite, w.iterations, w.verbose, w.veryVerbose⟩ ∧
      q.mapper.cut.cutSize = w.cutSize ∧ q.mapper.cut.cutLimit = w.cutLimit ∧ q.mapper.uFlowIters.toNat = w.globalRounds ∧
      q.mapper.uAreaIters.toNat = w.localRounds ∧ q.mapper.bDebug = w.mapDebug ∧ q.mapper.verbose = w.mapVerbose ∧
      q.rewrite.cut.cutSize = w.rewriteCutSize ∧ q.rewrite.cut.cutLimit = w.rewriteCutLimit ∧ q.rewrite.useZeroGain = w.zeroGain ∧
      q.rewrite.preserveDepth = w.preserveDepth ∧ (q.rewrite.cut.minimize = true ↔ w.minCandidate ≠ 0) ∧
      q.mapper.cut.minimize = p.mapper.cut.minimize ∧ q.mapper.cut.faninLimit = p.mapper.cut.faninLimit ∧ q.mapper.bZeroGain = p.mapper.bZeroGain := by
  obtain ⟨f1, f2, f3, f4, f5, f6, f7, f8⟩ := hf
  have hb : ∀ {s k b}, Says doc s k (.bool b) → getBool doc [s, k] = .ok b := fun {s k b} => (C83_bool doc s k).1 b
  have hn : ∀ {s k n}, Says doc s k (.nat n) → n < 2 ^ 32 → getUint doc [s, k] = .ok n := by
    intro s k n hs hl
    rw [(C83_uint doc s k).1 n hs, Nat.mod_eq_of_lt hl]
  unfold configure
  rw [hb h.debug, hn h.iterations f1, hb h.useBalance, hb h.useRewrite, hb h.verbose, hb h.veryVerbose, hn h.cutSize f2, hn h.cutLimit f3,
    hn h.globalRounds (by omega), hn h.localRounds (by omega), hb h.mapDebug, hb h.mapVerbose, hn h.rewriteCutSize f6, hn h.rewriteCutLimit f7,
    hn h.minCandidate f8, hb h.zeroGain, hb h.preserveDepth]
  simp only [Out.then]
  refine ⟨_, rfl, rfl, rfl, rfl, ?_, ?_, rfl, rfl, rfl, rfl, rfl, rfl, ?_, rfl, rfl, rfl⟩
  · simp only [BitVec.toNat_ofNat]
    omega
  · simp only [BitVec.toNat_ofNat]
    omega
  · simp

/-- A setting that is not in the document becomes false or 0, whatever the parameters were before. -/
theorem C83_missing (doc : Json) (p q : Params) (e : configure doc p = .ok q) :
    (Silent doc "flow_manager" "verbose" → q.flow.verbose = false) ∧ (Silent doc "flow_manager" "iterations" → q.flow.iterations = 0) ∧
    (Silent doc "klut_mapping" "cut_size" → q.mapper.cut.cutSize = 0) ∧ (Silent doc "klut_mapping" "cut_limit" → q.mapper.cut.cutLimit = 0) ∧
    (Silent doc "rewrite" "preserve_depth" → q.rewrite.preserveDepth = false) := by
  have step : ∀ {α β : Type} {o : Out α} {f : α → Out β} {b : β}, o.then f = .ok b → ∃ a, o = .ok a ∧ f a = .ok b := by
    intro α β o f b h
    cases o with
    | ok a => exact ⟨a, rfl, h⟩
    | stop => cases h
    | undef => cases h
  unfold configure at e
  obtain ⟨a1, h1, e⟩ := step e
  obtain ⟨a2, h2, e⟩ := step e
  obtain ⟨a3, h3, e⟩ := step e
  obtain ⟨a4, h4, e⟩ := step e
  obtain ⟨a5, h5, e⟩ := step e
  obtain ⟨a6, h6, e⟩ := step e
  obtain ⟨a7, h7, e⟩ := step e
  obtain ⟨a8, h8, e⟩ := step e
  obtain ⟨a9, h9, e⟩ := step e
  obtain ⟨a10, h10, e⟩ := step e
  obtain ⟨a11, h11, e⟩ := step e
  obtain ⟨a12, h12, e⟩ := step e
  obtain ⟨a13, h13, e⟩ := step e
  obtain ⟨a14, h14, e⟩ := step e
  obtain ⟨a15, h15, e⟩ := step e
  obtain ⟨a16, h16, e⟩ := step e
  obtain ⟨a17, h17, e⟩ := step e
  cases e
  dsimp only
  refine ⟨?_, ?_, ?_, ?_, ?_⟩
  · intro h
    rw [(C83_bool doc _ _).2.1 h] at h5
    cases h5
    rfl
  · intro h
    rw [(C83_uint doc _ _).2.2.2.2.2.1 h] at h2
    cases h2
    rfl
  · intro h
    rw [(C83_uint doc _ _).2.2.2.2.2.1 h] at h7
    cases h7
    rfl
  · intro h
    rw [(C83_uint doc _ _).2.2.2.2.2.1 h] at h8
    cases h8
    rfl
  · intro h
    rw [(C83_bool doc _ _).2.1 h] at h17
    cases h17
    rfl

/-! ### influence -/

theorem mapper_cut {β γ : Type} (E : Env β) (H : Nat → Nat → Mapper.Heur γ) (cost : γ) (N : Aig) {p q : Mapper.Ps} (h : p.cut = q.cut) :
    Flow.mapper E p H cost N = Flow.mapper E q H cost N := by
  have hk : ∀ C, Mapper.klutMap p C H cost = Mapper.klutMap q C H cost := by
    intro C
    unfold Mapper.klutMap
    rw [h, Mapper.run_eq, Mapper.run_eq]
    rfl
  unfold Flow.mapper
  simp only [hk]

/-- Two documents with all settings, of the right types, and with the same size and number of cuts for the mapper give the same networks: no other setting has an influence. -/
theorem C83_only_two {β γ : Type} (E : Env β) (H : Nat → Nat → Mapper.Heur γ) (cost : γ) (N : Aig) (d d' : Json) (w w' : Wanted) (h : Written d w)
    (h' : Written d' w') (h1 : w.cutSize = w'.cutSize) (h2 : w.cutLimit = w'.cutLimit) : flow E H cost d N = flow E H cost d' N := by
  have key : ∀ {d w}, Written d w → flow E H cost d N =
      .of (Flow.mapper E { cut := { cutSize := w.cutSize % 2 ^ 32, cutLimit := w.cutLimit % 2 ^ 32 } } H cost N) := by
    intro d w h
    have hb : ∀ {s k b}, Says d s k (.bool b) → getBool d [s, k] = .ok b := fun {s k b} => (C83_bool d s k).1 b
    have hn : ∀ {s k n}, Says d s k (.nat n) → getUint d [s, k] = .ok (n % 2 ^ 32) := fun {s k n} => (C83_uint d s k).1 n
    unfold flow configure
    rw [hb h.debug, hn h.iterations, hb h.useBalance, hb h.useRewrite, hb h.verbose, hb h.veryVerbose, hn h.cutSize, hn h.cutLimit,
      hn h.globalRounds, hn h.localRounds, hb h.mapDebug, hb h.mapVerbose, hn h.rewriteCutSize, hn h.rewriteCutLimit,
      hn h.minCandidate, hb h.zeroGain, hb h.preserveDepth]
    simp only [Out.then]
    exact congrArg Out.of (mapper_cut E H cost N rfl)
  rw [key h, key h', h1, h2]

/-! ### the file of the repository -/

/-- `config/config.json` -/
def shipped : Json := .obj
  [("flow_manager", .obj [("debug", .bool true), ("iterations", .nat 0), ("use_balance", .bool true), ("use_rewrite", .bool true), ("verbose", .bool true),
      ("very_verbose", .bool false)]),
   ("cut_enumeration", .obj [("cut_size", .nat 6), ("cut_limit", .nat 10), ("fanin_limit", .nat 25), ("minimize_truth_table", .bool false), ("verbose", .bool true),
      ("very_verbose", .bool false)]),
   ("klut_mapping", .obj [("cut_size", .nat 6), ("cut_limit", .nat 10), ("uGlobal_round", .nat 1), ("uLocal_round", .nat 1), ("debug", .bool true),
      ("verbose", .bool false), ("very_verbose", .bool false)]),
   ("balance", .obj [("only_on_critical_path", .bool false), ("progress", .bool false), ("verbose", .bool false)]),
   ("rewrite", .obj [("cut_size", .nat 4), ("cut_limit", .nat 10), ("min_candidate_cut_size", .nat 4), ("max_candidate_cut_size", .nat 4),
      ("minimize_truth_table", .bool false), ("use_zero_gain", .bool true), ("preserve_depth", .bool false)])]

/-- its settings -/
def shippedWanted : Wanted := ⟨true, 0, true, true, true, false, 6, 10, 1, 1, true, false, 4, 10, 4, true, false⟩

/-- Looking a setting up step by step, for concrete documents. -/
theorem says_of {fs gs : List (String × Json)} {s k : String} {v : Json} (i j : Nat) (h1 : fs[i]? = some (s, .obj gs))
    (h2 : ((fs.drop (i + 1)).all fun x => x.1 != s) = true) (h3 : gs[j]? = some (k, v)) (h4 : ((gs.drop (j + 1)).all fun x => x.1 != k) = true) :
    Says (.obj fs) s k v := by
  have last : ∀ {l : List (String × Json)} {k : String} {v : Json} {i : Nat}, l[i]? = some (k, v) → ((l.drop (i + 1)).all fun x => x.1 != k) = true → Last l k v := by
    intro l k v i h1 h2
    obtain ⟨hi, he⟩ := List.getElem?_eq_some_iff.1 h1
    refine ⟨l.take i, l.drop (i + 1), ?_, ?_⟩
    · rw [← he, ← List.drop_eq_getElem_cons hi, List.take_append_drop]
    · intro x hx
      have := List.all_eq_true.1 h2 x hx
      simpa using this
  exact ⟨fs, gs, rfl, last h1 h2, last h3 h4⟩

theorem shipped_written : Written shipped shippedWanted :=
  ⟨says_of 0 0 rfl (by decide) rfl (by decide), says_of 0 1 rfl (by decide) rfl (by decide), says_of 0 2 rfl (by decide) rfl (by decide),
    says_of 0 3 rfl (by decide) rfl (by decide), says_of 0 4 rfl (by decide) rfl (by decide), says_of 0 5 rfl (by decide) rfl (by decide),
    says_of 2 0 rfl (by decide) rfl (by decide), says_of 2 1 rfl (by decide) rfl (by decide), says_of 2 2 rfl (by decide) rfl (by decide),
    says_of 2 3 rfl (by decide) rfl (by decide), says_of 2 4 rfl (by decide) rfl (by decide), says_of 2 5 rfl (by decide) rfl (by decide),
    says_of 4 0 rfl (by decide) rfl (by decide), says_of 4 1 rfl (by decide) rfl (by decide), says_of 4 2 rfl (by decide) rfl (by decide),
    says_of 4 5 rfl (by decide) rfl (by decide), says_of 4 6 rfl (by decide) rfl (by decide)⟩

/-- the file of the repository meets the hypotheses of `C83_said_partial` -/
example : Written shipped shippedWanted ∧ shippedWanted.Fits := ⟨shipped_written, by unfold Wanted.Fits; decide⟩

/-- In the file of the repository the minimisation of truth tables is switched off for rewriting, but the parameter is switched on. -/
theorem C83_violated_minimize : Says shipped "rewrite" "minimize_truth_table" (.bool false) ∧
    ∃ q, configure shipped {} = .ok q ∧ q.rewrite.cut.minimize = true := by
  refine ⟨says_of 4 4 rfl (by decide) rfl (by decide), ?_⟩
  obtain ⟨q, h, hq⟩ := C83_said_partial shipped shippedWanted shipped_written (by unfold Wanted.Fits; decide) {}
  exact ⟨q, h, hq.2.2.2.2.2.2.2.2.2.2.2.1.2 (by decide)⟩

/-- An empty document is accepted. Where the defaults are 6 leaves, 10 cuts, 2 iterations, verbose, and depth preserved, all become 0 and false. -/
theorem C83_violated_default : ∃ q, configure (.obj []) {} = .ok q ∧ q.mapper.cut.cutSize = 0 ∧ q.mapper.cut.cutLimit = 0 ∧ q.flow.iterations = 0 ∧
    q.flow.verbose = false ∧ q.rewrite.preserveDepth = false ∧ ({} : Params).mapper.cut.cutSize = 6 ∧ ({} : Params).mapper.cut.cutLimit = 10 ∧
    ({} : Params).flow.iterations = 2 ∧ ({} : Params).flow.verbose = true ∧ ({} : Params).rewrite.preserveDepth = true :=
  ⟨_, rfl, rfl, rfl, rfl, rfl, rfl, rfl, rfl, rfl, rfl, rfl⟩

/-- a document with given values for the mapper -/
def mapperDoc (cutSize rounds : Json) : Json := .obj [("klut_mapping", .obj [("cut_size", cutSize), ("uGlobal_round", rounds)])]

/-- Numbers that do not fit are accepted: -1 leaves are 4294967295, 2^32 + 6 leaves are 6, 256 rounds are none, and `true` leaves are one. -/
theorem C83_violated_wrap :
    (∃ q, configure (mapperDoc (.int (-1)) (.nat 256)) {} = .ok q ∧ q.mapper.cut.cutSize = 4294967295 ∧ q.mapper.uFlowIters = 0) ∧
    (∃ q, configure (mapperDoc (.nat 4294967302) (.nat 257)) {} = .ok q ∧ q.mapper.cut.cutSize = 6 ∧ q.mapper.uFlowIters = 1) ∧
    (∃ q, configure (mapperDoc (.bool true) (.nat 1)) {} = .ok q ∧ q.mapper.cut.cutSize = 1) ∧
    configure (mapperDoc (.float (-2)) (.nat 1)) {} = .undef ∧ configure (mapperDoc (.str "6") (.nat 1)) {} = .stop :=
  ⟨⟨_, rfl, by decide, by decide⟩, ⟨_, rfl, by decide, by decide⟩, ⟨_, rfl, by decide⟩, by decide, by decide⟩

/-- `use_rewrite`, `use_balance`, the number of iterations and the numbers of rounds have no influence: there are two documents that differ in all of them, and the flow gives the
same networks for every input, in every environment. -/
theorem C83_violated_unused : ∃ d d' w w', Written d w ∧ Written d' w' ∧ w.useRewrite ≠ w'.useRewrite ∧ w.useBalance ≠ w'.useBalance ∧
    w.iterations ≠ w'.iterations ∧ w.globalRounds ≠ w'.globalRounds ∧ w.localRounds ≠ w'.localRounds ∧ w.minCandidate ≠ w'.minCandidate ∧
    ∀ (β γ : Type) (E : Env β) (H : Nat → Nat → Mapper.Heur γ) (cost : γ) (N : Aig), flow E H cost d N = flow E H cost d' N := by
  let d' : Json := .obj
    [("flow_manager", .obj [("debug", .bool true), ("iterations", .nat 7), ("use_balance", .bool false), ("use_rewrite", .bool false), ("verbose", .bool true),
        ("very_verbose", .bool false)]),
     ("klut_mapping", .obj [("cut_size", .nat 6), ("cut_limit", .nat 10), ("uGlobal_round", .nat 9), ("uLocal_round", .nat 8), ("debug", .bool true),
        ("verbose", .bool false)]),
     ("rewrite", .obj [("cut_size", .nat 4), ("cut_limit", .nat 10), ("min_candidate_cut_size", .nat 0), ("use_zero_gain", .bool true),
        ("preserve_depth", .bool false)])]
  have hw : Written d' ⟨true, 7, false, false, true, false, 6, 10, 9, 8, true, false, 4, 10, 0, true, false⟩ :=
    ⟨says_of 0 0 rfl (by decide) rfl (by decide), says_of 0 1 rfl (by decide) rfl (by decide), says_of 0 2 rfl (by decide) rfl (by decide),
      says_of 0 3 rfl (by decide) rfl (by decide), says_of 0 4 rfl (by decide) rfl (by decide), says_of 0 5 rfl (by decide) rfl (by decide),
      says_of 1 0 rfl (by decide) rfl (by decide), says_of 1 1 rfl (by decide) rfl (by decide), says_of 1 2 rfl (by decide) rfl (by decide),
      says_of 1 3 rfl (by decide) rfl (by decide), says_of 1 4 rfl (by decide) rfl (by decide), says_of 1 5 rfl (by decide) rfl (by decide),
      says_of 2 0 rfl (by decide) rfl (by decide), says_of 2 1 rfl (by decide) rfl (by decide), says_of 2 2 rfl (by decide) rfl (by decide),
      says_of 2 3 rfl (by decide) rfl (by decide), says_of 2 4 rfl (by decide) rfl (by decide)⟩
  exact ⟨shipped, d', _, _, shipped_written, hw, by decide, by decide, by decide, by decide, by decide, by decide,
    fun β γ E H cost N => C83_only_two E H cost N _ _ _ _ shipped_written hw rfl rfl⟩

end Verif.Flow.Config
