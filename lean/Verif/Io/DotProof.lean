import Verif.Io.Dot
import Verif.Io.DotRead

set_option autoImplicit false

/-!
# Reading back what the writer of drawings writes: lemmas
-/

namespace Verif.Io.Dot

/-- the text does not go on with a digit -/
def NoDigit (t : Text) : Prop := ∀ c, t.head? = some c → c.isDigit = false

/-- the text does not go on with a letter or digit -/
def NoAlnum (t : Text) : Prop := ∀ c, t.head? = some c → c.isAlphanum = false

theorem strip_append (p t : Text) : strip p (p ++ t) = some t := by
  have : p.isPrefixOf (p ++ t) = true := List.isPrefixOf_iff_prefix.2 (List.prefix_append p t)
  unfold strip
  rw [if_pos this, List.drop_left]

theorem takeWhile_stop {p : Char → Bool} {t : Text} (h : ∀ c, t.head? = some c → p c = false) : t.takeWhile p = [] ∧ t.dropWhile p = t := by
  cases t with
  | nil => exact ⟨rfl, rfl⟩
  | cons c t =>
    have := h c rfl
    constructor
    · rw [List.takeWhile_cons_of_neg (by rw [this]; simp)]
    · rw [List.dropWhile_cons_of_neg (by rw [this]; simp)]

theorem number_dec (n : Nat) {t : Text} (h : NoDigit t) : number (dec n ++ t) = some (n, t) := by
  have h1 : ∀ c ∈ dec n, c.isDigit = true := fun c hc => dec_digit hc
  have e1 : (dec n ++ t).takeWhile Char.isDigit = dec n := by
    rw [List.takeWhile_append_of_pos h1, (takeWhile_stop h).1, List.append_nil]
  have e2 : (dec n ++ t).dropWhile Char.isDigit = t := by
    rw [List.dropWhile_append_of_pos h1, (takeWhile_stop h).2]
  unfold number
  rw [e1, e2]
  have hv : Nat.ofDigitChars 10 (dec n) 0 = n := Nat.ofDigitChars_toDigits (by decide) (by decide)
  cases hd : dec n with
  | nil => exact absurd hd (dec_ne_nil n)
  | cons c l => rw [hd] at hv; dsimp only; rw [hv]

theorem word_append {w t : Text} (hw : ∀ c ∈ w, c.isAlphanum = true) (h : NoAlnum t) : word (w ++ t) = (w, t) := by
  unfold word
  rw [List.takeWhile_append_of_pos hw, List.dropWhile_append_of_pos hw, (takeWhile_stop h).1, (takeWhile_stop h).2, List.append_nil]

theorem lastWord_append {w : Text} (hw : ∀ c ∈ w, c.isAlphanum = true) : lastWord (w ++ "]".toList) = some w := by
  unfold lastWord
  rw [word_append hw (by intro c hc; cases hc; rfl), if_pos rfl]

/-- the text of a name -/
def markText : Mark → Text
  | .node n => dec n
  | .out i => "po".toList ++ dec i

theorem strip_head {c d : Char} {p t : Text} (h : c ≠ d) : strip (c :: p) (d :: t) = none := by
  unfold strip
  rw [if_neg]
  intro h'
  have := List.isPrefixOf_iff_prefix.1 h'
  exact h (List.cons_prefix_cons.1 this).1

theorem strip_digit {c : Char} {p : Text} (hc : c.isDigit = false) (n : Nat) (t : Text) : strip (c :: p) (dec n ++ t) = none := by
  cases hd : dec n with
  | nil => exact absurd hd (dec_ne_nil n)
  | cons d l =>
    refine strip_head ?_
    rintro rfl
    have := dec_digit (a := n) (c := c) (by rw [hd]; simp)
    rw [hc] at this
    cases this

theorem readMark_text (m : Mark) {t : Text} (h : NoDigit t) : readMark (markText m ++ t) = some (m, t) := by
  cases m with
  | node n =>
    show readMark (dec n ++ t) = _
    unfold readMark
    rw [show strip "po".toList (dec n ++ t) = none from strip_digit (c := 'p') rfl n t, number_dec n h]
    rfl
  | out i =>
    show readMark (("po".toList ++ dec i) ++ t) = _
    rw [List.append_assoc]
    unfold readMark
    rw [strip_append]
    dsimp only
    rw [number_dec i h]
    rfl

theorem strip_rank (m : Mark) (t : Text) : strip "{rank = same; ".toList (markText m ++ t) = none := by
  cases m with
  | node n => exact strip_digit (c := '{') rfl n t
  | out i => exact strip_head (by decide)

theorem readItems_text : ∀ (l : List Mark) (k : Nat), l.length < k →
    readItems k (l.flatMap (fun m => markText m ++ "; ".toList) ++ "}".toList) = some l := by
  intro l
  induction l with
  | nil =>
    intro k hk
    cases k with
    | zero => cases hk
    | succ k => rfl
  | cons m l ih =>
    intro k hk
    cases k with
    | zero => cases hk
    | succ k =>
      have e : ((m :: l).flatMap (fun m => markText m ++ "; ".toList) ++ "}".toList)
          = markText m ++ ("; ".toList ++ (l.flatMap (fun m => markText m ++ "; ".toList) ++ "}".toList)) := by
        rw [List.flatMap_cons]
        simp only [List.append_assoc]
      rw [e]
      have hne : markText m ++ ("; ".toList ++ (l.flatMap (fun m => markText m ++ "; ".toList) ++ "}".toList)) ≠ "}".toList := by
        intro h
        have := congrArg List.length h
        have h2 : "; ".toList.length = 2 := rfl
        have h3 : "}".toList.length = 1 := rfl
        rw [List.length_append, List.length_append, h2, h3] at this
        omega
      unfold readItems
      rw [if_neg hne, readMark_text m (by intro c hc; cases hc; rfl)]
      rw [Option.bind_some]
      dsimp only
      rw [strip_append, Option.bind_some, ih k (by simpa using hk)]
      rfl

theorem items_length (l : List Mark) : l.length ≤ (l.flatMap (fun m => markText m ++ "; ".toList) ++ "}".toList).length := by
  induction l with
  | nil => exact Nat.zero_le _
  | cons m l ih =>
    rw [List.flatMap_cons, List.append_assoc, List.length_append, List.length_append]
    have h2 : "; ".toList.length = 2 := rfl
    rw [h2, List.length_cons]
    omega

theorem readLine_items (l : List Mark) :
    readLine ("{rank = same; ".toList ++ (l.flatMap (fun m => markText m ++ "; ".toList) ++ "}".toList)) = some (.rank l) := by
  unfold readLine
  rw [strip_append]
  dsimp only
  rw [readItems_text l _ (Nat.lt_succ_of_le (items_length l))]
  rfl

theorem readLine_mark (m : Mark) {t : Text} (h : NoDigit t) : readLine (markText m ++ t) = readRest m t := by
  unfold readLine
  rw [strip_rank, readMark_text m h]
  rfl

theorem style_word (f : Sig) : ∀ c ∈ style f, c.isAlphanum = true := by
  unfold style
  split <;> decide

theorem shape_word (V : View) (n : Nat) : ∀ c ∈ shape V n, c.isAlphanum = true := by
  unfold shape
  split
  · decide
  · split <;> decide

theorem color_word (V : View) (n : Nat) : ∀ c ∈ color V n, c.isAlphanum = true := by
  unfold color
  split <;> decide

theorem readLook_text (m : Mark) (lab : Option Nat) {s c : Text} (hs : ∀ x ∈ s, x.isAlphanum = true) (hc : ∀ x ∈ c, x.isAlphanum = true) :
    readLook m lab (s ++ (",style=filled,fillcolor=".toList ++ (c ++ "]".toList))) = some (.draw m lab s c) := by
  unfold readLook
  rw [word_append hs (by intro c hc; cases hc; rfl)]
  dsimp only
  rw [strip_append]
  show (lastWord (c ++ "]".toList)).map _ = _
  rw [lastWord_append hc]
  rfl

theorem readLine_edge (a b : Mark) (f : Sig) :
    readLine (markText a ++ (" -> ".toList ++ (markText b ++ (" [style=".toList ++ (style f ++ "]".toList))))) = some (.edge a b (style f)) := by
  rw [readLine_mark a (by intro c hc; cases hc; rfl)]
  unfold readRest
  rw [strip_append]
  dsimp only
  rw [readMark_text b (by intro c hc; cases hc; rfl)]
  rw [Option.bind_some]
  dsimp only
  rw [strip_append, Option.bind_some, lastWord_append (style_word f)]
  rfl

theorem readLine_node (V : View) (n : Nat) : readLine (nodeLine V n) = some (.draw (.node n) (some n) (shape V n) (color V n)) := by
  show readLine (markText (.node n) ++ _) = _
  rw [readLine_mark _ (by intro c hc; cases hc; rfl)]
  unfold readRest
  rw [show strip " -> ".toList (" [label=\"".toList ++ _) = none from rfl, strip_append]
  dsimp only
  rw [number_dec n (by intro c hc; cases hc; rfl)]
  rw [Option.bind_some]
  dsimp only
  rw [strip_append, Option.bind_some]
  exact readLook_text _ _ (shape_word V n) (color_word V n)

theorem readLine_out (i : Nat) : readLine (outLine i) = some (.draw (.out i) none "invtriangle".toList "snow2".toList) := by
  have e : outLine i = markText (.out i) ++ (" [shape=".toList ++
      ("invtriangle".toList ++ (",style=filled,fillcolor=".toList ++ ("snow2".toList ++ "]".toList)))) := by
    unfold outLine markText
    rw [List.append_assoc]
    rfl
  rw [e, readLine_mark _ (by intro c hc; cases hc; rfl)]
  unfold readRest
  rw [show strip " -> ".toList (" [shape=".toList ++ _) = none from rfl, show strip " [label=\"".toList (" [shape=".toList ++ _) = none from rfl]
  dsimp only
  rw [strip_append]
  rw [Option.bind_some]
  exact readLook_text (s := "invtriangle".toList) (c := "snow2".toList) _ _ (by decide) (by decide)

theorem readLine_outEdge (i : Nat) (f : Sig) : readLine (outEdgeLine i f) = some (.edge (.node f.index) (.out i) (style f)) := by
  rw [← readLine_edge]
  unfold outEdgeLine markText
  simp only [List.append_assoc]

theorem readLine_rank (l : List Nat) : readLine (rankLine l) = some (.rank (l.map .node)) := by
  rw [← readLine_items]
  unfold rankLine
  rw [List.flatMap_map]
  rfl

theorem readLine_outRank (k : Nat) : readLine (outRankLine k) = some (.rank ((List.range k).map .out)) := by
  rw [← readLine_items]
  unfold outRankLine
  rw [List.flatMap_map]
  simp only [markText, List.append_assoc]

/-! ### lines -/

theorem lines_cons (l : Text) (hl : '\n' ∉ l) (t : Text) : lines (l ++ '\n' :: t) = l :: lines t := by
  induction l with
  | nil => rfl
  | cons c l ih =>
    rw [List.cons_append, lines, if_neg (fun h => hl (by simp [h])), ih (fun h => hl (by simp [h]))]

theorem lines_flat (L : List Text) (hL : ∀ l ∈ L, '\n' ∉ l) : lines (L.flatMap (· ++ ['\n'])) = L := by
  induction L with
  | nil => rfl
  | cons l L ih =>
    rw [List.flatMap_cons, List.append_assoc]
    show lines (l ++ '\n' :: L.flatMap (· ++ ['\n'])) = _
    rw [lines_cons l (hL l (by simp)), ih (fun x hx => hL x (by simp [hx]))]

theorem dec_line (n : Nat) : '\n' ∉ dec n := by
  intro h
  have := dec_digit h
  revert this
  decide

theorem word_line {w : Text} (hw : ∀ c ∈ w, c.isAlphanum = true) : '\n' ∉ w := by
  intro h
  have := hw _ h
  revert this
  decide

theorem mark_line (m : Mark) : '\n' ∉ markText m := by
  cases m with
  | node n => exact dec_line n
  | out i =>
    intro h
    rcases List.mem_append.1 h with h | h
    · revert h; decide
    · exact dec_line i h

theorem append_line {a b : Text} (ha : '\n' ∉ a) (hb : '\n' ∉ b) : '\n' ∉ a ++ b := by
  rw [List.mem_append, not_or]
  exact ⟨ha, hb⟩

theorem items_line {α : Type} (g : α → Text) (hg : ∀ x, '\n' ∉ g x) (l : List α) : '\n' ∉ l.flatMap g := by
  rw [List.mem_flatMap]
  rintro ⟨x, _, h⟩
  exact hg x h

theorem body_line (V : View) : ∀ l ∈ body V, '\n' ∉ l := by
  have hn : ∀ n, '\n' ∉ nodeLine V n := fun n => append_line (dec_line n) (append_line (by decide) (append_line (dec_line n) (append_line (by decide)
    (append_line (word_line (shape_word V n)) (append_line (by decide) (append_line (word_line (color_word V n)) (by decide)))))))
  have he : ∀ n f, '\n' ∉ edgeLine n f := fun n f => append_line (dec_line _) (append_line (by decide) (append_line (dec_line _) (append_line (by decide)
    (append_line (word_line (style_word f)) (by decide)))))
  have ho : ∀ i, '\n' ∉ outLine i := fun i => append_line (by decide) (append_line (dec_line _) (by decide))
  have hoe : ∀ i f, '\n' ∉ outEdgeLine i f := fun i f => append_line (dec_line _) (append_line (by decide) (append_line (by decide)
    (append_line (dec_line _) (append_line (by decide) (append_line (word_line (style_word f)) (by decide))))))
  have hr : ∀ ns, '\n' ∉ rankLine ns := fun ns => append_line (by decide)
    (append_line (items_line _ (fun n => append_line (dec_line n) (by decide)) _) (by decide))
  have hor : ∀ k, '\n' ∉ outRankLine k := fun k => append_line (by decide)
    (append_line (items_line _ (fun n => append_line (by decide) (append_line (dec_line n) (by decide))) _) (by decide))
  intro l hl
  unfold body at hl
  simp only [List.mem_append, List.mem_map, List.mem_flatMap, List.mem_mapIdx, List.mem_singleton] at hl
  rcases hl with (⟨n, _, rfl⟩ | ⟨i, _, rfl⟩) | (⟨n, _, h⟩ | ⟨i, _, rfl⟩) | (⟨ns, _, rfl⟩ | rfl)
  · exact hn n
  · exact ho i
  · unfold edgeLines at h
    split at h
    · obtain ⟨f, _, rfl⟩ := List.mem_map.1 h
      exact he n f
    · cases h
  · exact hoe _ _
  · exact hr ns
  · exact hor _

/-! ### statements -/

/-- the statements of the fanins of a node -/
def edgeStmts (V : View) (n : Nat) : List Stmt :=
  if !V.isConst n && !V.isPi n then (V.fanins n).map (fun f => .edge (.node f.index) (.node n) (style f)) else []

/-- the statements of the lines of the file -/
def stmts (V : View) : List Stmt :=
  (V.nodes.map (fun n => .draw (.node n) (some n) (shape V n) (color V n)) ++
      (List.range V.pos.length).map (fun i => .draw (.out i) none "invtriangle".toList "snow2".toList)) ++
    ((V.nodes.flatMap (edgeStmts V) ++ V.pos.mapIdx (fun i f => .edge (.node f.index) (.out i) (style f))) ++
      ((levels V).map (fun l => .rank (l.map .node)) ++ [.rank ((List.range V.pos.length).map .out)]))

theorem readLines_append {a b : List Text} {x y : List Stmt} (ha : readLines a = some x) (hb : readLines b = some y) :
    readLines (a ++ b) = some (x ++ y) := by
  induction a generalizing x with
  | nil => cases ha; exact hb
  | cons l a ih =>
    rw [readLines] at ha
    obtain ⟨s, h1, h2⟩ := Option.bind_eq_some_iff.1 ha
    obtain ⟨r, h3, rfl⟩ := Option.map_eq_some_iff.1 h2
    rw [List.cons_append, readLines, h1, Option.bind_some, ih h3]
    rfl

theorem readLines_map {α : Type} {g : α → Text} {h : α → Stmt} (hg : ∀ x, readLine (g x) = some (h x)) (l : List α) :
    readLines (l.map g) = some (l.map h) := by
  induction l with
  | nil => rfl
  | cons a l ih => rw [List.map_cons, readLines, hg, Option.bind_some, ih]; rfl

theorem readLines_flatMap {α : Type} {g : α → List Text} {h : α → List Stmt} (hg : ∀ x, readLines (g x) = some (h x)) (l : List α) :
    readLines (l.flatMap g) = some (l.flatMap h) := by
  induction l with
  | nil => rfl
  | cons a l ih => rw [List.flatMap_cons, List.flatMap_cons]; exact readLines_append (hg a) ih

theorem readLines_mapIdx {α : Type} {g : Nat → α → Text} {h : Nat → α → Stmt} (hg : ∀ i x, readLine (g i x) = some (h i x)) (l : List α) :
    readLines (l.mapIdx g) = some (l.mapIdx h) := by
  induction l generalizing g h with
  | nil => rfl
  | cons a l ih =>
    rw [List.mapIdx_cons, List.mapIdx_cons, readLines, hg, Option.bind_some, ih (fun i x => hg (i + 1) x)]
    rfl

theorem readLines_body (V : View) : readLines (body V) = some (stmts V) := by
  refine readLines_append (readLines_append (readLines_map (readLine_node V) _) (readLines_map readLine_out _))
    (readLines_append (readLines_append (readLines_flatMap (fun n => ?_) _) (readLines_mapIdx readLine_outEdge _))
      (readLines_append (readLines_map readLine_rank _) ?_))
  · unfold edgeLines edgeStmts
    split
    · exact readLines_map (fun f => readLine_edge (.node f.index) (.node n) f) _
    · rfl
  · rw [readLines, readLine_outRank]
    rfl

/-- The statements of the file can be read. -/
theorem read_write (V : View) : readDot (write V) = some (stmts V) := by
  have hl : lines (write V) = "digraph {".toList :: "rankdir=BT;".toList :: (body V ++ ["}".toList]) := by
    refine lines_flat _ (fun l hl => ?_)
    simp only [List.mem_cons, List.mem_append, List.not_mem_nil, or_false] at hl
    rcases hl with rfl | rfl | hl | rfl
    · decide
    · decide
    · exact body_line V l hl
    · decide
  unfold readDot
  rw [hl]
  dsimp only
  rw [if_pos ⟨rfl, rfl, by rw [List.getLast?_append]; rfl⟩, List.dropLast_concat]
  exact readLines_body V

/-! ### what the statements say -/

theorem looks_append (m : Mark) (a b : List Stmt) : looks m (a ++ b) = looks m a ++ looks m b := List.filterMap_append
theorem into_append (m : Mark) (a b : List Stmt) : into m (a ++ b) = into m a ++ into m b := List.filterMap_append
theorem ranks_append (a b : List Stmt) : ranks (a ++ b) = ranks a ++ ranks b := List.filterMap_append

theorem looks_none {m : Mark} {S : List Stmt} (h : ∀ s ∈ S, ∀ m' l w c, s = .draw m' l w c → m' ≠ m) : looks m S = [] := by
  unfold looks
  rw [List.filterMap_eq_nil_iff]
  intro s hs
  cases s with
  | draw m' l w c => exact if_neg (h _ hs _ _ _ _ rfl)
  | edge => rfl
  | rank => rfl

theorem into_none {m : Mark} {S : List Stmt} (h : ∀ s ∈ S, ∀ a b w, s = .edge a b w → b ≠ m) : into m S = [] := by
  unfold into
  rw [List.filterMap_eq_nil_iff]
  intro s hs
  cases s with
  | draw => rfl
  | edge a b w => exact if_neg (h _ hs _ _ _ rfl)
  | rank => rfl

theorem ranks_none {S : List Stmt} (h : ∀ s ∈ S, ∀ l, s ≠ .rank l) : ranks S = [] := by
  unfold ranks
  rw [List.filterMap_eq_nil_iff]
  intro s hs
  cases s with
  | draw => rfl
  | edge => rfl
  | rank l => exact absurd rfl (h _ hs l)

theorem edgeStmts_edge {V : View} {n : Nat} {s : Stmt} (h : s ∈ edgeStmts V n) : ∃ f, s = .edge (.node f.index) (.node n) (style f) := by
  unfold edgeStmts at h
  split at h
  · obtain ⟨f, _, rfl⟩ := List.mem_map.1 h
    exact ⟨f, rfl⟩
  · cases h

theorem looks_drawn (m : Mark) (V : View) : looks m (stmts V) =
    looks m (V.nodes.map (fun n => .draw (.node n) (some n) (shape V n) (color V n))) ++
      looks m ((List.range V.pos.length).map (fun i => .draw (.out i) none "invtriangle".toList "snow2".toList)) := by
  unfold stmts
  rw [looks_append, looks_append]
  rw [looks_none (S := _ ++ (_ ++ _)) ?_, List.append_nil]
  intro s hs m' l w c e
  subst e
  simp only [List.mem_append, List.mem_flatMap, List.mem_mapIdx, List.mem_map, List.mem_singleton] at hs
  rcases hs with (⟨n, _, h⟩ | ⟨_, _, h⟩) | (⟨_, _, h⟩ | h)
  · obtain ⟨f, hf⟩ := edgeStmts_edge h
    cases hf
  · cases h
  · cases h
  · cases h

theorem filterMap_one {α β : Type} [DecidableEq α] (g : α → β) (a : α) : ∀ (l : List α), l.Nodup →
    l.filterMap (fun x => if x = a then some (g x) else none) = if a ∈ l then [g a] else [] := by
  intro l
  induction l with
  | nil => intro _; rfl
  | cons x l ih =>
    intro h
    rw [List.nodup_cons] at h
    by_cases hx : x = a
    · subst hx
      rw [List.filterMap_cons_some (b := g x) (by simp), ih h.2, if_neg h.1, if_pos (by simp)]
    · rw [List.filterMap_cons_none (by simp [hx]), ih h.2]
      have : a ∈ x :: l ↔ a ∈ l := by simp [Ne.symm hx]
      simp only [this]

theorem looks_node (V : View) (hV : V.nodes.Nodup) (n : Nat) :
    looks (.node n) (stmts V) = if n ∈ V.nodes then [(some n, shape V n, color V n)] else [] := by
  rw [looks_drawn]
  rw [looks_none (S := (List.range V.pos.length).map _) ?_, List.append_nil]
  · unfold looks
    rw [List.filterMap_map, ← filterMap_one (fun n => (some n, shape V n, color V n)) n _ hV]
    refine List.filterMap_congr fun x _ => ?_
    simp only [Function.comp_apply, Mark.node.injEq]
  · intro s hs m' l w c e
    obtain ⟨i, _, rfl⟩ := List.mem_map.1 hs
    cases e
    intro h
    cases h

theorem looks_out (V : View) (i : Nat) :
    looks (.out i) (stmts V) = if i < V.pos.length then [(none, "invtriangle".toList, "snow2".toList)] else [] := by
  rw [looks_drawn]
  rw [looks_none (S := V.nodes.map _) ?_, List.nil_append]
  · unfold looks
    have := filterMap_one (fun _ : Nat => ((none : Option Nat), "invtriangle".toList, "snow2".toList)) i (List.range V.pos.length) List.nodup_range
    simp only [List.mem_range] at this
    rw [List.filterMap_map, ← this]
    refine List.filterMap_congr fun x _ => ?_
    simp only [Function.comp_apply, Mark.out.injEq]
  · intro s hs m' l w c e
    obtain ⟨i, _, rfl⟩ := List.mem_map.1 hs
    cases e
    intro h
    cases h

theorem into_edges (m : Mark) (V : View) : into m (stmts V) =
    into m (V.nodes.flatMap (edgeStmts V)) ++ into m (V.pos.mapIdx (fun i f => .edge (.node f.index) (.out i) (style f))) := by
  unfold stmts
  rw [into_append, into_append (m := m) (a := _ ++ List.mapIdx _ _), into_append (m := m) (a := V.nodes.flatMap _)]
  rw [into_none (S := _ ++ List.map _ (List.range _)) ?_, into_none (S := List.map _ (levels V) ++ _) ?_, List.nil_append, List.append_nil]
  · intro s hs a b w e
    subst e
    simp only [List.mem_append, List.mem_map, List.mem_singleton] at hs
    rcases hs with ⟨_, _, h⟩ | h <;> cases h
  · intro s hs a b w e
    subst e
    simp only [List.mem_append, List.mem_map] at hs
    rcases hs with ⟨_, _, h⟩ | ⟨_, _, h⟩ <;> cases h

theorem into_edgeStmts (V : View) (n m : Nat) : into (.node n) (edgeStmts V m) =
    if m = n then (if !V.isConst n && !V.isPi n then (V.fanins n).map (fun f => (Mark.node f.index, style f)) else []) else [] := by
  by_cases h : m = n
  · subst h
    rw [if_pos rfl]
    unfold edgeStmts
    split
    · unfold into
      rw [List.filterMap_map, ← List.filterMap_eq_map]
      refine List.filterMap_congr fun x _ => ?_
      simp
    · rfl
  · rw [if_neg h]
    refine into_none fun s hs a b w e => ?_
    obtain ⟨f, hf⟩ := edgeStmts_edge hs
    rw [e] at hf
    cases hf
    intro h'
    cases h'
    exact h rfl

theorem into_node (V : View) (hV : V.nodes.Nodup) (n : Nat) : into (.node n) (stmts V) =
    if n ∈ V.nodes ∧ V.isConst n = false ∧ V.isPi n = false then (V.fanins n).map (fun f => (Mark.node f.index, style f)) else [] := by
  rw [into_edges]
  rw [into_none (S := V.pos.mapIdx _) ?_, List.append_nil]
  · have key : ∀ l : List Nat, l.Nodup → into (.node n) (l.flatMap (edgeStmts V)) =
        if n ∈ l ∧ V.isConst n = false ∧ V.isPi n = false then (V.fanins n).map (fun f => (Mark.node f.index, style f)) else [] := by
      intro l
      induction l with
      | nil => intro _; rw [if_neg (by simp)]; rfl
      | cons x l ih =>
        intro h
        rw [List.nodup_cons] at h
        rw [List.flatMap_cons, into_append, ih h.2, into_edgeStmts]
        by_cases hx : x = n
        · subst hx
          have hn : ¬ (x ∈ l ∧ V.isConst x = false ∧ V.isPi x = false) := fun e => h.1 e.1
          rw [if_pos rfl, if_neg hn, List.append_nil]
          cases h1 : V.isConst x <;> cases h2 : V.isPi x <;> simp
        · rw [if_neg hx, List.nil_append]
          have : n ∈ x :: l ↔ n ∈ l := by simp [Ne.symm hx]
          simp only [this]
    exact key _ hV
  · intro s hs a b w e
    obtain ⟨i, _, rfl⟩ := List.mem_mapIdx.1 hs
    cases e
    intro h
    cases h

theorem into_out (V : View) (i : Nat) : into (.out i) (stmts V) =
    match V.pos[i]? with
    | some f => [(Mark.node f.index, style f)]
    | none => [] := by
  rw [into_edges]
  rw [into_none (S := V.nodes.flatMap _) ?_, List.nil_append]
  · have key : ∀ (l : List Sig) (k i : Nat), into (.out i) (l.mapIdx (fun j f => .edge (.node f.index) (.out (j + k)) (style f))) =
        if k ≤ i then (l[i - k]?).toList.map (fun f => (Mark.node f.index, style f)) else [] := by
      intro l
      induction l with
      | nil => intro k i; simp [into]
      | cons f l ih =>
        intro k i
        rw [List.mapIdx_cons]
        have e : (fun (j : Nat) (f : Sig) => Stmt.edge (.node f.index) (.out (j + 1 + k)) (style f)) =
            fun (j : Nat) (f : Sig) => Stmt.edge (.node f.index) (.out (j + (k + 1))) (style f) := by
          funext j f
          rw [show j + 1 + k = j + (k + 1) by omega]
        rw [e]
        rw [show ∀ (s : Stmt) (S : List Stmt), s :: S = [s] ++ S from fun _ _ => rfl, into_append, ih]
        by_cases h : k = i
        · subst h
          rw [if_neg (by omega), if_pos le_rfl, Nat.sub_self]
          simp [into]
        · have h0 : into (.out i) [Stmt.edge (.node f.index) (.out (0 + k)) (style f)] = [] := by
            refine into_none fun s hs a b w e => ?_
            rw [List.mem_singleton] at hs
            rw [hs] at e
            cases e
            intro h'
            cases h'
            omega
          rw [h0, List.nil_append]
          by_cases hk : k ≤ i
          · rw [if_pos hk, if_pos (by omega), show i - k = (i - (k + 1)) + 1 by omega, List.getElem?_cons_succ]
          · rw [if_neg hk, if_neg (by omega)]
    have := key V.pos 0 i
    simp only [Nat.add_zero, Nat.zero_le, if_true, Nat.sub_zero] at this
    rw [this]
    cases V.pos[i]? <;> rfl
  · intro s hs a b w e
    obtain ⟨n, _, h⟩ := List.mem_flatMap.1 hs
    obtain ⟨f, hf⟩ := edgeStmts_edge h
    rw [e] at hf
    cases hf
    intro h'
    cases h'

theorem ranks_stmts (V : View) : ranks (stmts V) = (levels V).map (fun l => l.map .node) ++ [(List.range V.pos.length).map .out] := by
  unfold stmts
  rw [ranks_append, ranks_append (a := _ ++ List.mapIdx _ _), ranks_append (a := List.map _ (levels V))]
  rw [ranks_none (S := _ ++ List.map _ (List.range _)) ?_, ranks_none (S := _ ++ List.mapIdx _ _) ?_, List.nil_append, List.nil_append]
  · congr 1
    unfold ranks
    rw [List.filterMap_map]
    exact congrFun List.filterMap_eq_map _
  · intro s hs l e
    subst e
    simp only [List.mem_append, List.mem_flatMap, List.mem_mapIdx] at hs
    rcases hs with ⟨n, _, h⟩ | ⟨_, _, h⟩
    · obtain ⟨f, hf⟩ := edgeStmts_edge h
      cases hf
    · cases h
  · intro s hs l e
    subst e
    simp only [List.mem_append, List.mem_map] at hs
    rcases hs with ⟨_, _, h⟩ | ⟨_, _, h⟩ <;> cases h

/-! ### levels -/

theorem addLevel_get (t : List (List Nat)) (lvl n j : Nat) :
    (addLevel t lvl n)[j]? = if j = lvl then some ((t[lvl]?.getD []) ++ [n]) else if j < lvl ∧ t.length ≤ j then some [] else t[j]? := by
  have hm : ∀ (u : List (List Nat)), (u.modify lvl (· ++ [n]))[j]? = if j = lvl then (u[j]?).map (· ++ [n]) else u[j]? := by
    intro u
    rw [List.getElem?_modify]
    by_cases h : j = lvl
    · subst h
      simp
    · rw [if_neg h]
      simp [Ne.symm h]
  unfold addLevel
  rw [hm]
  by_cases ht : t.length ≤ lvl
  · rw [if_pos ht]
    rcases Nat.lt_trichotomy j lvl with h | h | h
    · rw [if_neg (by omega), if_neg (by omega)]
      by_cases hj : t.length ≤ j
      · rw [if_pos ⟨h, hj⟩, List.getElem?_append_right hj, List.getElem?_replicate, if_pos (by omega)]
      · rw [if_neg (by omega), List.getElem?_append_left (by omega)]
    · subst h
      rw [if_pos rfl, if_pos rfl, List.getElem?_append_right ht, List.getElem?_replicate, if_pos (by omega), List.getElem?_eq_none ht]
      rfl
    · rw [if_neg (by omega), if_neg (by omega), if_neg (by omega), List.getElem?_append_right (by omega), List.getElem?_replicate,
        if_neg (by omega), List.getElem?_eq_none (by omega)]
  · rw [if_neg ht]
    by_cases h : j = lvl
    · subst h
      rw [if_pos rfl, if_pos rfl]
      obtain ⟨x, hx⟩ : ∃ x, t[j]? = some x := ⟨_, List.getElem?_eq_getElem (by omega)⟩
      rw [hx]
      rfl
    · rw [if_neg h, if_neg h, if_neg (by omega)]

/-- Level `j` of the table lists the nodes of level `j` in their order, and every node has its level in the table. -/
theorem levels_spec (V : View) :
    (∀ j r, (levels V)[j]? = some r → r = V.nodes.filter (fun n => V.level n == j)) ∧ ∀ n ∈ V.nodes, V.level n < (levels V).length := by
  have key : ∀ (l done : List Nat) (t : List (List Nat)),
      (∀ j r, t[j]? = some r → r = done.filter (fun n => V.level n == j)) → (∀ n ∈ done, V.level n < t.length) →
      (∀ j r, (l.foldl (fun t n => addLevel t (V.level n) n) t)[j]? = some r → r = (done ++ l).filter (fun n => V.level n == j)) ∧
        ∀ n ∈ done ++ l, V.level n < (l.foldl (fun t n => addLevel t (V.level n) n) t).length := by
    intro l
    induction l with
    | nil => intro done t h1 h2; rw [List.append_nil]; exact ⟨h1, h2⟩
    | cons x l ih =>
      intro done t h1 h2
      have := ih (done ++ [x]) (addLevel t (V.level x) x) ?_ ?_
      · rw [List.append_assoc] at this
        exact this
      · intro j r hr
        rw [addLevel_get] at hr
        rw [List.filter_append]
        have hempty : t.length ≤ j → done.filter (fun n => V.level n == j) = [] := by
          intro hj
          rw [List.filter_eq_nil_iff]
          intro n hn
          have := h2 n hn
          simp only [beq_iff_eq]
          omega
        by_cases h : j = V.level x
        · rw [if_pos h] at hr
          cases hr
          subst h
          cases ht : t[V.level x]? with
          | none =>
            rw [hempty (List.getElem?_eq_none_iff.1 ht)]
            simp
          | some y =>
            rw [← h1 _ _ ht]
            simp
        · rw [if_neg h] at hr
          have hx : [x].filter (fun n => V.level n == j) = [] := by simp [Ne.symm h]
          rw [hx, List.append_nil]
          by_cases h' : j < V.level x ∧ t.length ≤ j
          · rw [if_pos h'] at hr
            cases hr
            exact (hempty h'.2).symm
          · rw [if_neg h'] at hr
            exact h1 j r hr
      · have hlen : ∀ k, k < t.length ∨ k = V.level x → k < (addLevel t (V.level x) x).length := by
          intro k hk
          by_contra hc
          have hn := List.getElem?_eq_none (Nat.not_lt.1 hc)
          rw [addLevel_get] at hn
          split at hn
          · cases hn
          · split at hn
            · cases hn
            · rename_i h3 _
              rcases hk with hk | hk
              · rw [List.getElem?_eq_getElem hk] at hn
                cases hn
              · exact h3 hk
        intro n hn
        rcases List.mem_append.1 hn with hn | hn
        · exact hlen _ (Or.inl (h2 n hn))
        · rw [List.mem_singleton] at hn
          subst hn
          exact hlen _ (Or.inr rfl)
  exact key V.nodes [] [] (fun j r h => by simp at h) (fun n h => by cases h)

end Verif.Io.Dot
