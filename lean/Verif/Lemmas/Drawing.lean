import Verif.Lemmas.Printer

/-! A drawing shows the tree: lines give back the outline. -/

set_option linter.unusedSimpArgs false

namespace Verif.Drawing

open Verif.Ast

mutual
/-- The texts in an outline. -/
def Texts (P : List Char → Prop) : Outline → Prop
  | .node _ t cs => P t ∧ AllTexts P cs
def AllTexts (P : List Char → Prop) : List Outline → Prop
  | [] => True
  | c :: cs => Texts P c ∧ AllTexts P cs
end

mutual
/-- The nodes with their depths, in order. -/
def flat (lbl : NodeType → List Char → List Char) (d : Nat) : Outline → List (Nat × List Char)
  | .node ty t cs => (d, lbl ty t) :: flatAll lbl (d + 1) cs
def flatAll (lbl : NodeType → List Char → List Char) (d : Nat) : List Outline → List (Nat × List Char)
  | [] => []
  | c :: cs => flat lbl d c ++ flatAll lbl d cs
end

/-- Everything that comes next is less deep. -/
def Above (d : Nat) (r : List (Nat × List Char)) : Prop := ∀ x ∈ r.head?, x.1 < d

theorem above_flatAll {lbl : NodeType → List Char → List Char} {d : Nat} {cs : List Outline} {r : List (Nat × List Char)} (h : Above d r) :
    Above (d + 1) (flatAll lbl d cs ++ r) := by
  intro x hx
  cases cs with
  | nil => have := h x hx; omega
  | cons c cs =>
    obtain ⟨ty, t, ks⟩ := c
    simp [flatAll, flat] at hx
    subst hx
    exact Nat.lt_succ_self d

mutual
theorem flat_inj {P : List Char → Prop} {lbl : NodeType → List Char → List Char}
    (hl : ∀ ty t ty' t', P t → P t' → lbl ty t = lbl ty' t' → ty = ty' ∧ t = t') :
    ∀ (c c' : Outline) (d : Nat) (r r' : List (Nat × List Char)), Texts P c → Texts P c' → Above (d + 1) r → Above (d + 1) r' →
      flat lbl d c ++ r = flat lbl d c' ++ r' → c = c' ∧ r = r'
  | .node ty t cs, .node ty' t' cs', d, r, r', h, h', hr, hr', he => by
    rw [Texts] at h h'
    simp only [flat, List.cons_append, List.cons.injEq, Prod.mk.injEq, true_and] at he
    obtain ⟨rfl, rfl⟩ := hl _ _ _ _ h.1 h'.1 he.1
    obtain ⟨rfl, rfl⟩ := flatAll_inj hl cs cs' (d + 1) r r' h.2 h'.2 hr hr' he.2
    exact ⟨rfl, rfl⟩
theorem flatAll_inj {P : List Char → Prop} {lbl : NodeType → List Char → List Char}
    (hl : ∀ ty t ty' t', P t → P t' → lbl ty t = lbl ty' t' → ty = ty' ∧ t = t') :
    ∀ (cs cs' : List Outline) (d : Nat) (r r' : List (Nat × List Char)), AllTexts P cs → AllTexts P cs' → Above d r → Above d r' →
      flatAll lbl d cs ++ r = flatAll lbl d cs' ++ r' → cs = cs' ∧ r = r'
  | [], [], d, r, r', _, _, _, _, he => ⟨rfl, by simpa [flatAll] using he⟩
  | [], .node ty' t' ks' :: cs', d, r, r', _, _, hr, _, he => by
    simp only [flatAll, flat, List.nil_append, List.cons_append] at he
    subst he
    exact absurd (hr _ rfl) (by simp)
  | .node ty t ks :: cs, [], d, r, r', _, _, _, hr', he => by
    simp only [flatAll, flat, List.nil_append, List.cons_append] at he
    subst he
    exact absurd (hr' _ rfl) (by simp)
  | c :: cs, c' :: cs', d, r, r', h, h', hr, hr', he => by
    rw [AllTexts] at h h'
    simp only [flatAll, List.append_assoc] at he
    obtain ⟨rfl, he'⟩ := flat_inj hl c c' d _ _ h.1 h'.1 (above_flatAll hr) (above_flatAll hr') he
    obtain ⟨rfl, rfl⟩ := flatAll_inj hl cs cs' d r r' h.2 h'.2 hr hr' he'
    exact ⟨rfl, rfl⟩
end

/-- Depth and label of a line. -/
def read : List Char → Nat × List Char
  | a :: _ :: _ :: _ :: l => if a = '├' || a = '└' then (0, l) else ((read l).1 + 1, (read l).2)
  | l => (0, l)

/-- What may stand before the nodes at a depth. -/
inductive Indent : Nat → List Char → Prop
  | zero : Indent 0 []
  | succ {d i} (last : Bool) : Indent d i → Indent (d + 1) (i ++ gap last)

theorem read_gap (last : Bool) (l : List Char) : read (gap last ++ l) = ((read l).1 + 1, (read l).2) := by
  cases last <;> simp [gap, read]

theorem read_edge (last : Bool) (l : List Char) : read (edge last ++ l) = (0, l) := by
  cases last <;> simp [edge, read]

theorem read_indent {d : Nat} {i : List Char} (h : Indent d i) (l : List Char) : read (i ++ l) = ((read l).1 + d, (read l).2) := by
  induction h generalizing l with
  | zero => rfl
  | succ last _ ih => rw [List.append_assoc, ih, read_gap]; simp; omega

mutual
theorem read_draw {lbl : NodeType → List Char → List Char} : ∀ (c : Outline) (d : Nat) (i : List Char) (last : Bool), Indent d i →
    (draw lbl i last c).map read = flat lbl d c
  | .node ty t cs, d, i, last, h => by
    simp only [draw, flat, List.map_cons, List.cons.injEq, List.append_assoc]
    refine ⟨?_, read_drawAll cs _ _ (h.succ last)⟩
    rw [read_indent h, read_edge]
    simp
theorem read_drawAll {lbl : NodeType → List Char → List Char} : ∀ (cs : List Outline) (d : Nat) (i : List Char), Indent d i →
    (drawAll lbl i cs).map read = flatAll lbl d cs
  | [], _, _, _ => rfl
  | c :: cs, d, i, h => by
    rw [drawAll, flatAll, List.map_append, read_draw c d i _ h, read_drawAll cs d i h]
end

theorem indent_line {d : Nat} {i : List Char} (h : Indent d i) : '\n' ∉ i := by
  induction h with
  | zero => simp
  | succ last _ ih => cases last <;> simp [gap, ih]

mutual
theorem draw_lines {lbl : NodeType → List Char → List Char} (hl : ∀ ty t, '\n' ∉ lbl ty t) : ∀ (c : Outline) (d : Nat) (i : List Char) (last : Bool),
    Indent d i → ∀ l ∈ draw lbl i last c, '\n' ∉ l
  | .node ty t cs, d, i, last, h, l, hm => by
    rw [draw] at hm
    rcases List.mem_cons.1 hm with rfl | hm
    · cases last <;> simp [edge, indent_line h, hl]
    · exact drawAll_lines hl cs _ _ (h.succ last) l hm
theorem drawAll_lines {lbl : NodeType → List Char → List Char} (hl : ∀ ty t, '\n' ∉ lbl ty t) : ∀ (cs : List Outline) (d : Nat) (i : List Char),
    Indent d i → ∀ l ∈ drawAll lbl i cs, '\n' ∉ l
  | [], _, _, _, l, hm => by simp [drawAll] at hm
  | c :: cs, d, i, h, l, hm => by
    rw [drawAll] at hm
    rcases List.mem_append.1 hm with hm | hm
    · exact draw_lines hl c d i _ h l hm
    · exact drawAll_lines hl cs d i h l hm
end

theorem line_inj : ∀ (a b x y : List Char), '\n' ∉ a → '\n' ∉ b → a ++ '\n' :: x = b ++ '\n' :: y → a = b ∧ x = y
  | [], [], _, _, _, _, h => ⟨rfl, by simpa using h⟩
  | [], c :: b, _, _, _, hb, h => by
    simp only [List.nil_append, List.cons_append, List.cons.injEq] at h
    exact absurd (List.mem_cons.2 (.inl h.1)) hb
  | c :: a, [], _, _, ha, _, h => by
    simp only [List.nil_append, List.cons_append, List.cons.injEq] at h
    exact absurd (List.mem_cons.2 (.inl h.1.symm)) ha
  | c :: a, c' :: b, x, y, ha, hb, h => by
    simp only [List.cons_append, List.cons.injEq] at h
    simp only [List.mem_cons, not_or] at ha hb
    obtain ⟨rfl, rfl⟩ := line_inj a b x y ha.2 hb.2 h.2
    exact ⟨by rw [h.1], rfl⟩

theorem unlines_inj : ∀ (a b : List (List Char)), (∀ l ∈ a, '\n' ∉ l) → (∀ l ∈ b, '\n' ∉ l) → unlines a = unlines b → a = b
  | [], [], _, _, _ => rfl
  | [], l :: b, _, _, h => by simp [unlines] at h
  | l :: a, [], _, _, h => by simp [unlines] at h
  | l :: a, m :: b, ha, hb, h => by
    simp only [unlines, List.flatMap_cons, List.append_assoc, List.singleton_append] at h
    obtain ⟨h1, h2⟩ := line_inj _ _ _ _ (ha l (by simp)) (hb m (by simp)) h
    rw [unlines_inj a b (fun x hx => ha x (by simp [hx])) (fun x hx => hb x (by simp [hx])) h2, h1]

/-- The text of a drawing determines the outlines. -/
theorem drawing_inj {P : List Char → Prop} {lbl : NodeType → List Char → List Char}
    (hl : ∀ ty t ty' t', P t → P t' → lbl ty t = lbl ty' t' → ty = ty' ∧ t = t') (hb : ∀ ty t, '\n' ∉ lbl ty t)
    (cs cs' : List Outline) (h : AllTexts P cs) (h' : AllTexts P cs')
    (he : unlines (drawAll lbl [] cs) = unlines (drawAll lbl [] cs')) : cs = cs' := by
  have h1 := unlines_inj _ _ (drawAll_lines hb cs 0 [] .zero) (drawAll_lines hb cs' 0 [] .zero) he
  have h2 := congrArg (List.map read) h1
  rw [read_drawAll cs 0 [] .zero, read_drawAll cs' 0 [] .zero] at h2
  exact (flatAll_inj hl cs cs' 0 [] [] h h' (by simp [Above]) (by simp [Above]) (by simpa using h2)).1

end Verif.Drawing

namespace Verif.Printer

open Verif.Ast Verif.Drawing

theorem replaceBreaks_line : ∀ t : List Char, '\n' ∉ replaceBreaks t
  | [] => by simp [replaceBreaks]
  | c :: t => by
    have := replaceBreaks_line t
    by_cases hc : c = '\n'
    · simp [replaceBreaks, hc, this]
    · simp [replaceBreaks, hc, this, Ne.symm hc]

theorem replaceBreaks_inj : ∀ t t' : List Char, '\\' ∉ t → '\\' ∉ t' → replaceBreaks t = replaceBreaks t' → t = t'
  | [], [], _, _, _ => rfl
  | [], c :: t, _, _, h => by by_cases hc : c = '\n' <;> simp [replaceBreaks, hc] at h
  | c :: t, [], _, _, h => by by_cases hc : c = '\n' <;> simp [replaceBreaks, hc] at h
  | c :: t, c' :: t', h1, h2, h => by
    simp only [List.mem_cons, not_or] at h1 h2
    by_cases hc : c = '\n' <;> by_cases hc' : c' = '\n' <;> simp [replaceBreaks, hc, hc'] at h
    · rw [replaceBreaks_inj t t' h1.2 h2.2 h, hc, hc']
    · exact absurd h.1 h2.1
    · exact absurd h.1.symm h1.1
    · rw [replaceBreaks_inj t t' h1.2 h2.2 h.2, h.1]

theorem typeName_inj (a b : NodeType) (h : typeName a = typeName b) : a = b := by
  cases a <;> cases b <;> first | rfl | (exact absurd h (by decide))

theorem typeName_chars (a : NodeType) : ∀ c ∈ typeName a, c ≠ ']' ∧ c ≠ '\n' := by
  cases a <;> decide

theorem head_inj : ∀ (a b x y : List Char), (∀ c ∈ a, c ≠ ']') → (∀ c ∈ b, c ≠ ']') → a ++ ']' :: x = b ++ ']' :: y → a = b ∧ x = y
  | [], [], _, _, _, _, h => ⟨rfl, by simpa using h⟩
  | [], c :: b, _, _, _, hb, h => by
    simp only [List.nil_append, List.cons_append, List.cons.injEq] at h
    exact absurd h.1.symm (hb c (by simp))
  | c :: a, [], _, _, ha, _, h => by
    simp only [List.nil_append, List.cons_append, List.cons.injEq] at h
    exact absurd h.1 (ha c (by simp))
  | c :: a, c' :: b, x, y, ha, hb, h => by
    simp only [List.cons_append, List.cons.injEq] at h
    obtain ⟨rfl, rfl⟩ := head_inj a b x y (fun d hd => ha d (by simp [hd])) (fun d hd => hb d (by simp [hd])) h.2
    exact ⟨by rw [h.1], rfl⟩

/-- Types are told apart by the beginning of the line. -/
theorem typed_inj {a b : NodeType} {x y : List Char}
    (h : "[".toList ++ typeName a ++ "] ".toList ++ x = "[".toList ++ typeName b ++ "] ".toList ++ y) : a = b ∧ x = y := by
  have h' : typeName a ++ ']' :: (' ' :: x) = typeName b ++ ']' :: (' ' :: y) := by simpa using h
  obtain ⟨h1, h2⟩ := head_inj _ _ _ _ (fun c hc => (typeName_chars a c hc).1) (fun c hc => (typeName_chars b c hc).1) h'
  exact ⟨typeName_inj a b h1, by simpa using h2⟩

theorem label_inj (ty : NodeType) (t : List Char) (ty' : NodeType) (t' : List Char) (h : '\\' ∉ t) (h' : '\\' ∉ t')
    (he : label ty t = label ty' t') : ty = ty' ∧ t = t' := by
  obtain ⟨h1, h2⟩ := typed_inj he
  exact ⟨h1, replaceBreaks_inj t t' h h' h2⟩

theorem label_line (ty : NodeType) (t : List Char) : '\n' ∉ label ty t := by
  have h := replaceBreaks_line t
  have h' : '\n' ∉ typeName ty := fun hm => (typeName_chars ty _ hm).2 rfl
  simp [label, h, h']

/-- Nodes with a text have no children and can be told from others by their type. -/
def texty : NodeType → Bool
  | .tag | .anchor | .alias | .text => true
  | _ => false

theorem texty_kids {n : Node} {ty : NodeType} (h : n.type? = some ty) (ht : texty ty = true) : kids n = [] := by
  cases n <;> simp [Node.type?] at h <;> subst h <;> simp [kids, texty] at ht ⊢

theorem texty_text {n : Node} {ty : NodeType} (h : n.type? = some ty) (ht : texty ty = false) : (text? n).getD [] = [] := by
  cases n <;> simp [Node.type?] at h <;> subst h <;> simp [text?, texty] at ht ⊢

theorem print_eq {n : Node} {ty : NodeType} (hw : Whole n) (h : n.type? = some ty) :
    print n = some (some ("[".toList ++ typeName ty ++ "] ".toList ++ ((text? n).getD [] ++ '\n' :: unlines (drawAll label [] (kids n))))) := by
  have hn : isNil n = false := isNil_type.2 (by rw [h]; simp)
  unfold print
  rw [hn]
  have h0 : printValue { edgeType := edgeMid, level := 0, levelsEnded := [], w := [], printedAny := false } n =
      some { edgeType := edgeMid, level := 0, levelsEnded := [], w := "[".toList ++ typeName ty ++ "] ".toList ++ ((text? n).getD [] ++ ['\n']), printedAny := true } := by
    unfold printValue printRoot
    rw [h]
    cases ht : text? n <;> simp [ht]
  obtain ⟨e, he⟩ := accept_draws n hw hn { edgeType := edgeMid, level := 0, levelsEnded := [], w := "[".toList ++ typeName ty ++ "] ".toList ++ ((text? n).getD [] ++ ['\n']), printedAny := true } rfl (by simp)
  simp only [Bool.false_eq_true, if_false, h0, bind, Option.bind, pure]
  rw [he]
  simp [levels]

theorem child_some {last : Bool} {n : Node} {f : Printer → Option Printer} {p q : Printer} (h : child last n f p = some q) :
    n.type? ≠ none ∧ ∃ r r', f r = some r' := by
  unfold child at h
  cases hp : printValue (mark last p) n with
  | none => rw [hp] at h; cases h
  | some r =>
    constructor
    · intro hn
      simp [printValue, printValueWithLevel, printRoot, hn] at hp
    · rw [hp] at h
      simp only [bind, Option.bind] at h
      cases hf : f { r with level := r.level + 1 } with
      | none => rw [hf] at h; cases h
      | some r' => exact ⟨_, r', hf⟩

theorem pair_some {a b : Node} {f g : Printer → Option Printer} {p q : Printer} (h : pair a b f g p = some q) :
    (isNil a = true ∨ ∃ r r', f r = some r') ∧ (isNil b = true ∨ ∃ r r', g r = some r') := by
  unfold pair at h
  cases ha : isNil a with
  | true =>
    refine ⟨.inl rfl, ?_⟩
    cases hb : isNil b with
    | true => exact .inl rfl
    | false =>
      simp only [ha, hb, bind, Option.bind, if_true, Bool.false_eq_true, if_false] at h
      exact .inr (child_some h).2
  | false =>
    simp only [ha, bind, Option.bind, Bool.false_eq_true, if_false] at h
    cases hc : child (decide (0 = 1 + (if isNil b = true then 0 else 1) - 1)) a f p with
    | none => rw [hc] at h; cases h
    | some r =>
      refine ⟨.inr (child_some hc).2, ?_⟩
      rw [hc] at h
      cases hb : isNil b with
      | true => exact .inl rfl
      | false =>
        simp only [hb, Bool.false_eq_true, if_false] at h
        exact .inr (child_some h).2

theorem whole_nil {n : Node} (h : isNil n = true) : Whole n := by cases n <;> simp [isNil, Whole] at h ⊢

mutual
theorem accept_whole : ∀ (n : Node) (p q : Printer), accept n p = some q → Whole n
  | .stream docs, p, q, h => by
    rw [accept, Option.map_eq_some_iff] at h
    obtain ⟨r, h, -⟩ := h
    exact visitAll_whole docs p r h
  | .sequence docs, p, q, h => by
    rw [accept, Option.map_eq_some_iff] at h
    obtain ⟨r, h, -⟩ := h
    exact visitAll_whole docs p r h
  | .mapping docs, p, q, h => by
    rw [accept, Option.map_eq_some_iff] at h
    obtain ⟨r, h, -⟩ := h
    exact visitAll_whole docs p r h
  | .content a b, p, q, h => by
    rw [accept, Option.map_eq_some_iff] at h
    obtain ⟨r, h, -⟩ := h
    exact ⟨(pair_some h).1.elim whole_nil fun ⟨r, r', h⟩ => accept_whole a r r' h,
      (pair_some h).2.elim whole_nil fun ⟨r, r', h⟩ => accept_whole b r r' h⟩
  | .mappingEntry a b, p, q, h => by
    rw [accept, Option.map_eq_some_iff] at h
    obtain ⟨r, h, -⟩ := h
    exact ⟨(pair_some h).1.elim whole_nil fun ⟨r, r', h⟩ => accept_whole a r r' h,
      (pair_some h).2.elim whole_nil fun ⟨r, r', h⟩ => accept_whole b r r' h⟩
  | .properties a b, p, q, h => by
    rw [accept, Option.map_eq_some_iff] at h
    obtain ⟨r, h, -⟩ := h
    exact ⟨(pair_some h).1.elim whole_nil fun ⟨r, r', h⟩ => accept_whole a r r' h,
      (pair_some h).2.elim whole_nil fun ⟨r, r', h⟩ => accept_whole b r r' h⟩
  | .nil, _, _, _ | .basic _, _, _, _ | .tag _, _, _, _ | .anchor _, _, _, _ | .alias _, _, _, _ | .blockHeader _ _, _, _, _
  | .text _ _, _, _, _ | .indent _, _, _, _ | .null, _, _, _ => by simp [Whole]
theorem visitAll_whole : ∀ (ns : List Node) (p q : Printer), visitAll ns p = some q → AllWhole ns
  | [], _, _, _ => by simp [AllWhole]
  | n :: ns, p, q, h => by
    rw [visitAll] at h
    cases hc : child ns.isEmpty n (accept n) p with
    | none => rw [hc] at h; cases h
    | some r =>
      rw [hc] at h
      obtain ⟨h1, r', r'', h2⟩ := child_some hc
      exact ⟨⟨h1, accept_whole n r' r'' h2⟩, visitAll_whole ns r q h⟩
end

end Verif.Printer
