import Verif.Lemmas.Drawing

/-!
C57: drawings of syntax trees (package astprint).
-/

namespace Verif.Props.Printer

open Verif.Ast Verif.Printer Verif.Drawing

/-- The text of a node in a drawing: one line. -/
def oneLine (t : List Char) : List Char := t.flatMap fun c => if c = '\n' then ['\\', 'n'] else [c]

theorem oneLine_eq (t : List Char) : replaceBreaks t = oneLine t := by
  induction t with
  | nil => rfl
  | cons c t ih => by_cases hc : c = '\n' <;> simp [replaceBreaks, oneLine, hc, ih]

/-- The text of a node in a drawing. -/
def shown (ty : NodeType) (t : List Char) : List Char := ['['] ++ typeName ty ++ [']', ' '] ++ oneLine t

/-- The printed text is the drawing of the outline below the line of the root: every node once, in the order of the tree, with
the edges of its ancestors before it.  Missing for the property: the text of a root is written as it is, over several lines if
it has line breaks, and nil among the entries of a collection makes the printer panic (`nil_entry_panics`). -/
theorem print_draws_partial (n : Node) (hw : Whole n) (ty : NodeType) (t : List Char) (cs : List Outline)
    (ho : outline n = [.node ty t cs]) :
    print n = some (some (['['] ++ typeName ty ++ [']', ' '] ++ t ++ ['\n'] ++ unlines (drawAll shown [] cs))) := by
  have hl : label = shown := by
    funext ty t
    simp [label, shown, oneLine_eq]
  cases hn : n.type? with
  | none => cases n <;> simp [Node.type?] at hn; simp [outline] at ho
  | some ty' =>
    rw [outline_node hn] at ho
    simp only [List.cons.injEq, Outline.node.injEq, and_true] at ho
    obtain ⟨rfl, rfl, rfl⟩ := ho
    rw [print_eq hw hn, hl]
    simp

/-- A printed tree can be read back: two trees without backslashes in their texts and with the same printed text have the same
outline.  Missing for the property: texts with backslashes (`breaks_not_told_apart`). -/
theorem print_determines_partial (n m : Node) (s : List Char) (hn : print n = some (some s)) (hm : print m = some (some s))
    (tn : ∀ ty t cs, outline n = [.node ty t cs] → AllTexts (fun t => '\\' ∉ t) cs)
    (tm : ∀ ty t cs, outline m = [.node ty t cs] → AllTexts (fun t => '\\' ∉ t) cs) : outline n = outline m := by
  have hw : ∀ k : Node, print k = some (some s) → Whole k ∧ ∃ ty, k.type? = some ty := by
    intro k h
    unfold print at h
    cases hk : isNil k with
    | true => rw [hk] at h; cases h
    | false =>
      refine ⟨?_, Option.ne_none_iff_exists'.1 (isNil_type.1 hk)⟩
      rw [hk] at h
      simp only [Bool.false_eq_true, if_false] at h
      cases hp : printValue { edgeType := edgeMid, level := 0, levelsEnded := [], w := [], printedAny := false } k with
      | none => rw [hp] at h; cases h
      | some p =>
        rw [hp] at h
        simp only [bind, Option.bind] at h
        cases ha : accept k p with
        | none => rw [ha] at h; cases h
        | some q => exact accept_whole k p q ha
  obtain ⟨wn, ty, en⟩ := hw n hn
  obtain ⟨wm, ty', em⟩ := hw m hm
  have tn := tn _ _ _ (outline_node en)
  have tm := tm _ _ _ (outline_node em)
  rw [print_eq wn en] at hn
  rw [print_eq wm em, ← hn] at hm
  simp only [Option.some.injEq] at hm
  obtain ⟨rfl, he⟩ := typed_inj hm
  rw [outline_node en, outline_node em]
  cases ht : texty ty' with
  | true =>
    rw [texty_kids en ht, texty_kids em ht] at he ⊢
    simp only [drawAll, unlines, List.flatMap_nil] at he
    rw [List.append_cancel_right he]
  | false =>
    rw [texty_text en ht, texty_text em ht] at he ⊢
    simp only [List.nil_append, List.cons.injEq, true_and] at he
    rw [drawing_inj label_inj label_line _ _ tm tn he]

/-- `- a` and `b: |` with two lines, as a drawing. -/
def sample : Node := .stream [.mapping [.mappingEntry (.text ['a'] .absent) (.sequence [.null, .text ['b', '\n', 'c'] .double]),
  .mappingEntry (.text ['d'] .absent) (.alias ['e'])]]

/-- the hypotheses are met -/
example : Whole sample ∧ print sample = some (some (
"[stream] 
└── [mapping] 
    ├── [mapping_entry] 
    │   ├── [text] a
    │   └── [sequence] 
    │       ├── [null] 
    │       └── [text] b\\nc
    └── [mapping_entry] 
        ├── [text] d
        └── [alias] e
").toList) := by
  refine ⟨?_, ?_⟩
  · simp [sample, Whole, AllWhole, Node.type?]
  · decide +kernel

/-- The property fails for texts with backslashes: a line break and the escape for it look the same. -/
theorem breaks_not_told_apart : print (.sequence [.text ['\n'] .double]) = print (.sequence [.text ['\\', 'n'] .double]) ∧
    outline (.sequence [.text ['\n'] .double]) ≠ outline (.sequence [.text ['\\', 'n'] .double]) := by
  refine ⟨by decide +kernel, ?_⟩
  simp [outline, outlines]

/-- The printer panics exactly if there is a nil among documents or entries. -/
theorem nil_entry_panics (n : Node) : print n = none ↔ ¬ Whole n := by
  constructor
  · intro h hw
    cases hn : n.type? with
    | none => cases n <;> simp [Node.type?] at hn; cases h
    | some ty => rw [print_eq hw hn] at h; cases h
  · intro hw
    cases hn : n.type? with
    | none => cases n <;> simp [Node.type?] at hn; exact absurd (by simp [Whole]) hw
    | some ty =>
      cases hp : print n with
      | none => rfl
      | some x =>
        refine absurd ?_ hw
        unfold print at hp
        rw [isNil_type.2 (by rw [hn]; simp)] at hp
        simp only [Bool.false_eq_true, if_false] at hp
        cases hv : printValue { edgeType := edgeMid, level := 0, levelsEnded := [], w := [], printedAny := false } n with
        | none => rw [hv] at hp; cases hp
        | some p =>
          rw [hv] at hp
          simp only [bind, Option.bind] at hp
          cases ha : accept n p with
          | none => rw [ha] at hp; cases hp
          | some q => exact accept_whole n p q ha

/-- A sequence with a nil entry, as the tree builders never make it. -/
example : ¬ Whole (.sequence [.nil]) ∧ print (.sequence [.nil]) = none := by
  refine ⟨?_, by decide +kernel⟩
  simp [Whole, AllWhole, Node.type?]

end Verif.Props.Printer
