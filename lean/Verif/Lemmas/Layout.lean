import Verif.Lemmas.Writer
import Verif.Props.Quoting
import Verif.Spec.Layout

/-! The writer of the yayamls engine writes the lines of `Layout.shape`. -/

set_option linter.unusedSimpArgs false

namespace Verif.Writer

open Verif.Ast Verif.Inserter Verif.Layout

def NL (b : List Char) : Bool := b.getLast? == some '\n'

def brk (b : List Char) : List Char := if NL b then b else b ++ ['\n']

def tailText (i : Nat) (ls : List Line) : List Char := ls.flatMap (fun l => pad i l ++ ['\n'])

def emit (i : Nat) (nl : Bool) : List Line → List Char
  | [] => []
  | l :: ls => (if nl then pad i l else l) ++ ['\n'] ++ tailText i ls

theorem NL_append (a b : List Char) (h : b ≠ []) : NL (a ++ b) = NL b := by
  simp [NL, List.getLast?_append, List.getLast?_eq_some_getLast h]

theorem NL_nl (a : List Char) : NL (a ++ ['\n']) = true := by simp [NL]

theorem NL_free {b : List Char} (h : '\n' ∉ b) : NL b = false := by
  simp only [NL, beq_eq_false_iff_ne, ne_eq]
  intro hb
  exact h (List.mem_of_getLast? hb)

theorem NL_append_free {a b : List Char} (ha : NL a = false) (h : '\n' ∉ b) : NL (a ++ b) = false := by
  by_cases hb : b = []
  · simp [hb, ha]
  · rw [NL_append _ _ hb]; exact NL_free h

theorem pad_pad (i j : Nat) (l : Line) : pad i (pad j l) = pad (i + j) l := by
  by_cases h : l = []
  · simp [pad, h]
  · simp [pad, h, List.replicate_append_replicate, ← List.append_assoc]

theorem tailText_map (i : Nat) (ls : List Line) : tailText i (ls.map (pad 2)) = tailText (i + 2) ls := by
  simp [tailText, List.flatMap_map, pad_pad]

theorem tailText_append (i : Nat) (a b : List Line) : tailText i (a ++ b) = tailText i a ++ tailText i b := by
  simp [tailText]

theorem emit_true (i : Nat) (ls : List Line) : emit i true ls = tailText i ls := by
  cases ls <;> simp [emit, tailText]

theorem emit_append (i : Nat) (nl : Bool) (a b : List Line) (h : a ≠ []) :
    emit i nl (a ++ b) = emit i nl a ++ emit i true b := by
  cases a with
  | nil => exact absurd rfl h
  | cons l ls => rw [emit_true]; simp [emit, tailText_append]

theorem NL_tailText {i : Nat} {ls : List Line} (h : ls ≠ []) : NL (tailText i ls) = true := by
  obtain ⟨l, x, rfl⟩ : ∃ l x, ls = l ++ [x] := ⟨_, _, (List.dropLast_concat_getLast h).symm⟩
  rw [tailText_append]
  simp only [tailText, List.flatMap_cons, List.flatMap_nil, List.append_nil]
  rw [← List.append_assoc]
  exact NL_nl _

theorem NL_cons_tail (a : List Char) (i : Nat) (ls : List Line) : NL (a ++ ['\n'] ++ tailText i ls) = true := by
  by_cases h : ls = []
  · subst h; simp only [tailText, List.flatMap_nil, List.append_nil]; exact NL_nl _
  · rw [NL_append _ _ (by intro h2; have := NL_tailText (i := i) h; rw [h2] at this; simp [NL] at this)]
    exact NL_tailText h

theorem NL_emit (b : List Char) (i : Nat) (nl : Bool) {ls : List Line} (h : ls ≠ []) :
    NL (b ++ emit i nl ls) = true := by
  cases ls with
  | nil => exact absurd rfl h
  | cons l ls =>
    simp only [emit, ← List.append_assoc]
    exact NL_cons_tail _ _ _

theorem emit_prefix (i : Nat) (nl : Bool) (p : Line) (hp : p ≠ []) (l : Line) (ls : List Line) :
    emit i nl ((p ++ l) :: ls) = (if nl then List.replicate i ' ' else []) ++ p ++ l ++ ['\n'] ++ tailText i ls := by
  cases nl <;> simp [emit, pad, hp]

/-! Texts -/

theorem splitLines_linesOf : ∀ t : List Char,
    splitLines t = linesOf t ++ (if t = [] ∨ t.getLast? = some '\n' then [[]] else [])
  | [] => by simp [splitLines, linesOf]
  | c :: cs => by
    have ih := splitLines_linesOf cs
    rw [splitLines, linesOf]
    have hlast : ((c :: cs).getLast? = some '\n') ↔ (cs = [] ∧ c = '\n') ∨ (cs ≠ [] ∧ cs.getLast? = some '\n') := by
      cases cs with
      | nil => simp
      | cons a as => simp [List.getLast?_cons_cons]
    have hne : ∀ l : List Char, l ≠ [] → linesOf l ≠ [] := by
      intro l hl
      cases l with
      | nil => exact absurd rfl hl
      | cons a as => rw [linesOf]; split <;> simp; split <;> simp
    by_cases hc : c = '\n'
    · subst hc
      simp only [if_true]
      rw [ih]
      by_cases h0 : cs = []
      · subst h0; simp [linesOf]
      · simp only [List.cons_append, reduceCtorEq, false_or, h0, hlast]
        simp [h0]
    · simp only [hc, if_false]
      rw [ih]
      by_cases h0 : cs = []
      · subst h0; simp [linesOf, hc]
      · have := hne cs h0
        cases hl : linesOf cs with
        | nil => exact absurd hl this
        | cons l ls =>
          simp only [List.cons_append, reduceCtorEq, false_or, h0, hlast]
          simp [h0, hc]

theorem linesOf_ne {t : List Char} (h : t ≠ []) : linesOf t ≠ [] := by
  cases t with
  | nil => exact absurd rfl h
  | cons a as => rw [linesOf]; split <;> simp; split <;> simp

theorem linesOf_free : ∀ t : List Char, ∀ l ∈ linesOf t, '\n' ∉ l
  | [] => by simp [linesOf]
  | c :: cs => by
    have ih := linesOf_free cs
    rw [linesOf]
    split
    · intro l hl
      simp only [List.mem_cons] at hl
      rcases hl with rfl | hl
      · simp
      · exact ih l hl
    · rename_i hc
      split
      · intro l hl
        simp only [List.mem_cons, List.not_mem_nil, or_false] at hl
        subst hl
        simp only [List.mem_cons, List.not_mem_nil, or_false]
        exact fun h => hc h.symm
      · rename_i l0 ls0 heq
        rw [heq] at ih
        intro l hl
        simp only [List.mem_cons] at hl
        rcases hl with rfl | hl
        · simp only [List.mem_cons]
          rintro (h | h)
          · exact hc h.symm
          · exact ih l0 (by simp) h
        · exact ih l (by simp [hl])

/-- The last line of a text which does not end with a line feed is not empty. -/
theorem linesOf_last : ∀ t : List Char, t.getLast? ≠ some '\n' → (linesOf t).getLast? ≠ some []
  | [] => by simp [linesOf]
  | c :: cs => by
    intro h
    have ih := linesOf_last cs
    rw [linesOf]
    cases cs with
    | nil =>
      simp only [List.getLast?_singleton, ne_eq, Option.some.injEq] at h
      simp [h, linesOf]
    | cons a as =>
      rw [List.getLast?_cons_cons] at h
      have ih := ih h
      have hne : linesOf (a :: as) ≠ [] := linesOf_ne (by simp)
      cases hl : linesOf (a :: as) with
      | nil => exact absurd hl hne
      | cons l ls =>
        rw [hl] at ih
        split
        · rw [List.getLast?_cons_cons]; exact ih
        · dsimp only
          cases ls with
          | nil => simp
          | cons l2 ls2 =>
            rw [List.getLast?_cons_cons] at ih ⊢
            exact ih

theorem literal_fold (i : Nat) : ∀ (ls : List (List Char)) (w : Writer), w.indentation.toNat = i →
    (ls.foldl (fun w line =>
        if line.isEmpty then put w ['\n'] else put (writeIndentation (put w ['\n'])) line) w).buf =
      w.buf ++ ls.flatMap (fun l => '\n' :: pad i l)
  | [], w, _ => by simp
  | l :: ls, w, hi => by
    rw [List.foldl_cons, literal_fold i ls]
    · by_cases h : l = []
      · simp [h, put, pad]
      · simp [h, put, writeIndentation, pad, hi]
    · by_cases h : l = [] <;> simp [h, put, writeIndentation, hi]

theorem literal_before (ls : List (List Char)) (w : Writer) :
    (ls.foldl (fun w line =>
        if line.isEmpty then put w ['\n'] else put (writeIndentation (put w ['\n'])) line) w).beforeSimple = w.beforeSimple ∧
    (ls.foldl (fun w line =>
        if line.isEmpty then put w ['\n'] else put (writeIndentation (put w ['\n'])) line) w).beforeComplex = w.beforeComplex := by
  induction ls generalizing w with
  | nil => simp
  | cons l ls ih =>
    rw [List.foldl_cons]
    refine ⟨(ih _).1.trans ?_, (ih _).2.trans ?_⟩ <;> (split <;> rfl)

theorem shift_breaks (i : Nat) (ls : List (List Char)) :
    ls.flatMap (fun l => '\n' :: pad i l) ++ ['\n'] = '\n' :: tailText i ls := by
  induction ls with
  | nil => simp [tailText]
  | cons l ls ih =>
    simp only [List.flatMap_cons, List.append_assoc, ih, List.cons_append]
    simp [tailText]

theorem NL_literal (b : List Char) (i : Nat) (ls : List (List Char)) (hne : ls ≠ []) (hl : ls.getLast? ≠ some [])
    (hf : ∀ l ∈ ls, '\n' ∉ l) : NL (b ++ ls.flatMap (fun l => '\n' :: pad i l)) = false := by
  obtain ⟨a, x, rfl⟩ : ∃ l x, ls = l ++ [x] := ⟨_, _, (List.dropLast_concat_getLast hne).symm⟩
  have hx : x ≠ [] := by simpa using hl
  simp only [List.flatMap_append, List.flatMap_cons, List.flatMap_nil, List.append_nil, pad, hx, if_false]
  have : b ++ (a.flatMap (fun l => '\n' :: pad i l) ++ '\n' :: (List.replicate i ' ' ++ x)) =
      (b ++ (a.flatMap (fun l => '\n' :: pad i l) ++ '\n' :: List.replicate i ' ')) ++ x := by simp
  simp only [pad] at this
  rw [this, NL_append _ _ hx]
  exact NL_free (hf x (by simp))

/-- What is known after a visit of a scalar. -/
structure LeafDone (w w' : Writer) (m h : Line) (tl : List Line) : Prop where
  simple : w'.beforeSimple = []
  complex : w'.beforeComplex = []
  same : Same w w'
  one : tl = [] → w'.buf = w.buf ++ m ++ w.beforeSimple ++ h
  many : NL (w.buf ++ m ++ w.beforeSimple) = false →
    brk w'.buf = w.buf ++ m ++ w.beforeSimple ++ h ++ ['\n'] ++ tailText w.indentation.toNat tl

theorem leafDone_one {w w' : Writer} {h : Line} (hs : w'.beforeSimple = []) (hc : w'.beforeComplex = [])
    (same : Same w w') (hb : w'.buf = w.buf ++ w.beforeSimple ++ h) (hf : '\n' ∉ h) : LeafDone w w' [] h [] where
  simple := hs
  complex := hc
  same := same
  one _ := by simpa using hb
  many hn := by
    have : NL w'.buf = false := by
      rw [hb]; exact NL_append_free (by simpa using hn) hf
    rw [brk, this, hb]
    simp [tailText]

theorem double_free (t : List Char) : '\n' ∉ doubleQuoted t := by
  simp only [doubleQuoted, List.cons_append, List.mem_cons, List.mem_append, List.not_mem_nil, or_false]
  rintro (h | h | h)
  · exact absurd h (by decide)
  · exact (Props.Quoting.double_quoted_form_one_line t _ h).1 rfl
  · exact absurd h (by decide)

theorem single_free {t : List Char} (h : '\n' ∉ t) : '\n' ∉ singleQuoted t := by
  simp only [singleQuoted, List.cons_append, List.mem_cons, List.mem_append, List.not_mem_nil, or_false,
    List.mem_flatMap]
  rintro (h1 | ⟨c, hc, h1⟩ | h1)
  · exact absurd h1 (by decide)
  · split at h1
    · simp at h1
    · simp only [List.mem_cons, List.not_mem_nil, or_false] at h1
      subst h1; exact h hc
  · exact absurd h1 (by decide)

theorem visit_text (t : List Char) (q : Quoting) (w : Writer) : visit (.text t q) w = some (visitText w t q) := by
  rw [visit]

theorem leaf_visit {n : Node} {ls : List Line} (hl : leaf n = some ls) (w : Writer) :
    ∃ h tl w', ls = h :: tl ∧ visit n w = some w' ∧ LeafDone w w' [] h tl := by
  cases n with
  | null =>
    simp only [leaf, Option.some.injEq] at hl
    subst hl
    exact ⟨_, _, put (preparedSimple w) _, rfl, by rw [visit]; rfl, leafDone_one rfl rfl ⟨rfl, rfl, rfl⟩ rfl (by decide)⟩
  | alias a =>
    simp only [leaf] at hl
    split at hl
    · cases hl
    · rename_i ha
      simp only [Option.some.injEq] at hl
      subst hl
      refine ⟨_, _, put (put (preparedSimple w) ['*']) a, rfl, by rw [visit], leafDone_one rfl rfl ⟨rfl, rfl, rfl⟩ ?_ ?_⟩
      · simp [put, preparedSimple, before]
      · simp only [List.mem_cons]
        rintro (h | h)
        · exact absurd h (by decide)
        · exact ha h
  | text t q =>
    cases q with
    | absent =>
      simp only [leaf, Option.some.injEq] at hl
      by_cases ht : '\n' ∈ t
      · simp only [ht, if_true] at hl
        subst hl
        have hm : isMultiline t = true := by simp [isMultiline, ht]
        have htne : t ≠ [] := by rintro rfl; simp at ht
        refine ⟨_, _, _, rfl, visit_text t _ w, ?_⟩
        have hsame := same_text w t .absent
        simp only [visitText, hm, if_true] at hsame ⊢
        have hbuf : (writeMultilineLiteralText (preparedSimple w) t).buf =
            w.buf ++ w.beforeSimple ++ ['|', if t.getLast? = some '\n' then '+' else '-'] ++
              (splitLines t).flatMap (fun l => '\n' :: pad w.indentation.toNat l) := by
          have hchomp : ((splitLines t).getLast? = some []) ↔ t.getLast? = some '\n' := by
            rw [splitLines_linesOf]
            by_cases h : t.getLast? = some '\n'
            · simp [h]
            · simp only [htne, h, or_self, if_false, List.append_nil, iff_false]
              exact linesOf_last t h
          unfold writeMultilineLiteralText
          simp only
          rw [literal_fold w.indentation.toNat _ (put (put (preparedSimple w) ['|']) [_]) rfl]
          simp only [hchomp]
          simp [put, preparedSimple, before]
        refine ⟨?_, ?_, hsame, ?_, ?_⟩
        · unfold writeMultilineLiteralText; simp only; rw [(literal_before _ _).1]; rfl
        · unfold writeMultilineLiteralText; simp only; rw [(literal_before _ _).2]; rfl
        · intro h; exact absurd h (linesOf_ne htne)
        · intro _
          rw [hbuf, splitLines_linesOf]
          by_cases h : t.getLast? = some '\n'
          · simp only [h, or_true, if_true, List.flatMap_append, List.flatMap_cons, List.flatMap_nil, List.append_nil]
            have hp : pad w.indentation.toNat [] = [] := rfl
            rw [hp, shift_breaks]
            have : NL (w.buf ++ w.beforeSimple ++ ['|', '+'] ++ '\n' :: tailText w.indentation.toNat (linesOf t)) = true := by
              have := NL_cons_tail (w.buf ++ w.beforeSimple ++ ['|', '+']) w.indentation.toNat (linesOf t)
              simpa using this
            rw [brk, this]
            simp
          · simp only [htne, h, or_self, if_false, List.append_nil]
            rw [brk, NL_literal _ _ _ (linesOf_ne htne) (linesOf_last t h) (linesOf_free t)]
            simp only [Bool.false_eq_true, if_false, List.append_assoc, shift_breaks]
            simp
      · simp only [ht, if_false] at hl
        subst hl
        refine ⟨_, _, _, rfl, visit_text t _ w, ?_⟩
        have hm : isMultiline t = false := by simp [isMultiline, ht]
        simp only [visitText, hm]
        exact leafDone_one rfl rfl ⟨rfl, rfl, rfl⟩ rfl ht
    | unknown =>
      simp only [leaf, Option.some.injEq] at hl
      subst hl
      refine ⟨_, _, _, rfl, visit_text t _ w, ?_⟩
      by_cases ht : '\n' ∈ t
      · have hm : isMultiline t = true := by simp [isMultiline, ht]
        simp only [visitText, hm, ht, if_true]
        refine leafDone_one rfl rfl ⟨rfl, rfl, rfl⟩ ?_ (double_free t)
        simp [writeDoubleQuotedText, put, preparedSimple, before, doubleQuoted]
      · have hm : isMultiline t = false := by simp [isMultiline, ht]
        simp only [visitText, hm, ht, if_false]
        exact leafDone_one rfl rfl ⟨rfl, rfl, rfl⟩ rfl ht
    | double =>
      simp only [leaf, Option.some.injEq] at hl
      subst hl
      refine ⟨_, _, _, rfl, visit_text t _ w, ?_⟩
      simp only [visitText]
      refine leafDone_one rfl rfl ⟨rfl, rfl, rfl⟩ ?_ (double_free t)
      simp [writeDoubleQuotedText, put, preparedSimple, before, doubleQuoted]
    | single =>
      simp only [leaf] at hl
      split at hl
      · cases hl
      · rename_i ht
        simp only [Option.some.injEq] at hl
        subst hl
        refine ⟨_, _, _, rfl, visit_text t _ w, ?_⟩
        simp only [visitText]
        refine leafDone_one rfl rfl ⟨rfl, rfl, rfl⟩ ?_ (single_free ht)
        simp [writeSingleQuotedText, put, preparedSimple, before, singleQuoted, YamlChar.convertToSingle]
  | _ => simp [leaf] at hl

theorem leaf_simple {n : Node} {ls : List Line} (hl : leaf n = some ls) : isComplex n = some false := by
  cases n <;> simp_all [leaf, isComplex]

/-- The properties are written after the space. -/
theorem marks_visit {p : Node} {m : Line} (hm : marks p = some m) (w : Writer) :
    validNode p = true ∧ visit p (put w [' ']) = some (put w m) ∧ '\n' ∉ m := by
  unfold marks at hm
  split at hm
  · split at hm
    · cases hm
    · rename_i h
      simp only [Option.some.injEq] at hm
      subst hm
      refine ⟨rfl, ?_, ?_⟩
      · simp [visit, validNode, put]
      · simp only [not_or] at h
        simp [h.1, h.2]
  · split at hm
    · cases hm
    · rename_i a _ h
      simp only [Option.some.injEq] at hm
      subst hm
      simp only [not_or, Bool.not_eq_true] at h
      refine ⟨rfl, ?_, ?_⟩
      · rw [visit]
        simp [visit, validNode, put]
        have := h.1
        simp only [validNode] at this
        split <;> simp_all
      · simp [h.2]
  · split at hm
    · cases hm
    · rename_i a _ h
      simp only [Option.some.injEq] at hm
      subst hm
      simp only [not_or, Bool.not_eq_true] at h
      refine ⟨rfl, ?_, ?_⟩
      · rw [visit]
        simp [visit, h.1, put]
        simp [validNode]
      · simp [h.2]
  · cases hm

/-- What is known after a visit of a collection. -/
structure CollDone (w w' : Writer) (m : Line) (ls : List Line) : Prop where
  simple : w'.beforeSimple = []
  complex : w'.beforeComplex = []
  same : Same w w'
  buf : w'.buf = w.buf ++ m ++ w.beforeComplex ++
    emit w.indentation.toNat (NL (w.buf ++ m ++ w.beforeComplex)) ls

def Done (w w' : Writer) (s : Shape) : Prop :=
  '\n' ∉ s.marks ∧
  if s.coll then CollDone w w' s.marks s.lines
  else ∃ h tl, s.lines = h :: tl ∧ LeafDone w w' s.marks h tl

theorem maybeIndent_buf (w : Writer) :
    (maybeWriteIndentation w).buf = w.buf ++ (if NL w.buf then List.replicate w.indentation.toNat ' ' else []) := by
  unfold maybeWriteIndentation hasWriteLineBreak writeIndentation
  simp only [NL]
  split <;> simp_all [put]

theorem maybeIndent_before (w : Writer) :
    (maybeWriteIndentation w).beforeSimple = w.beforeSimple ∧ (maybeWriteIndentation w).beforeComplex = w.beforeComplex := by
  unfold maybeWriteIndentation; split <;> exact ⟨rfl, rfl⟩

theorem maybeBreak_buf (w : Writer) : (maybeWriteLineBreak w).buf = brk w.buf := by
  unfold maybeWriteLineBreak brk hasWriteLineBreak
  simp only [NL]
  split <;> simp_all [put]

theorem maybeBreak_before (w : Writer) :
    (maybeWriteLineBreak w).beforeSimple = w.beforeSimple ∧ (maybeWriteLineBreak w).beforeComplex = w.beforeComplex := by
  unfold maybeWriteLineBreak; split <;> exact ⟨rfl, rfl⟩

theorem brk_done {b : List Char} (h : NL b = true) : brk b = b := by simp [brk, h]

theorem toNat_increase (w : Writer) (h : 0 ≤ w.indentation) : (w.indentation + delta).toNat = w.indentation.toNat + 2 := by
  simp only [delta]; omega

theorem shape_null : shape .null = (leaf .null).map (Shape.mk [] false) := by
  rw [shape] <;> (intros; simp_all)
theorem shape_alias (a : List Char) : shape (.alias a) = (leaf (.alias a)).map (Shape.mk [] false) := by
  rw [shape] <;> (intros; simp_all)
theorem shape_text (t : List Char) (q : Quoting) :
    shape (.text t q) = (leaf (.text t q)).map (Shape.mk [] false) := by
  rw [shape] <;> (intros; simp_all)

mutual
theorem shape_visit (n : Node) (s : Shape) (hs : shape n = some s) (w : Writer) (hi : 0 ≤ w.indentation) :
    ∃ w', visit n w = some w' ∧ Done w w' s := by
  have hleaf : ∀ (ls : List Line), leaf n = some ls → s = ⟨[], false, ls⟩ → ∃ w', visit n w = some w' ∧ Done w w' s := by
    intro ls h1 h2
    obtain ⟨h, tl, w', rfl, hv, hd⟩ := leaf_visit h1 w
    subst h2
    exact ⟨w', hv, by simp, by simpa using ⟨h, tl, ⟨rfl, rfl⟩, hd⟩⟩
  cases n with
  | sequence es =>
    rw [shape] at hs
    cases he : items es with
    | none => simp [he] at hs
    | some ls =>
      simp only [he, Option.map_some, Option.some.injEq] at hs
      subst hs
      obtain ⟨w', hv, h1, h2, h3, h4⟩ := items_visit es ls he (preparedComplex w) hi rfl rfl
      refine ⟨w', by rw [visit]; exact hv, by simp, ?_⟩
      simp only [if_true]
      refine ⟨h1, h2, h3, ?_⟩
      rw [h4]
      simp [preparedComplex, before, put]
  | mapping es =>
    rw [shape] at hs
    cases he : entries es with
    | none => simp [he] at hs
    | some ls =>
      simp only [he, Option.map_some, Option.some.injEq] at hs
      subst hs
      obtain ⟨w', hv, h1, h2, h3, h4⟩ := entries_visit es ls he (preparedComplex w) hi rfl rfl
      refine ⟨w', by rw [visit]; exact hv, by simp, ?_⟩
      simp only [if_true]
      refine ⟨h1, h2, h3, ?_⟩
      rw [h4]
      simp [preparedComplex, before, put]
  | content p c =>
    rw [shape] at hs
    cases hm : marks p with
    | none => simp [hm] at hs
    | some m =>
      cases hc : shape c with
      | none => simp [hm, hc] at hs
      | some s0 =>
        simp only [hm, hc, Option.some.injEq] at hs
        subst hs
        obtain ⟨hval, hpv, hfree⟩ := marks_visit hm w
        obtain ⟨w', hv, hd0, hd⟩ := shape_visit c s0 hc (put w m) hi
        refine ⟨w', ?_, ?_, ?_⟩
        · rw [visit]
          simp only [hval, if_true, hpv, hv]
        · simp [hfree, hd0]
        · simp only
          split
          · rename_i hcoll
            simp only [hcoll, if_true] at hd
            refine ⟨hd.simple, hd.complex, hd.same, ?_⟩
            rw [hd.buf]
            simp [put]
          · rename_i hcoll
            simp only [hcoll] at hd
            obtain ⟨h, tl, h1, hd⟩ := hd
            refine ⟨h, tl, h1, hd.simple, hd.complex, hd.same, ?_, ?_⟩
            · intro ht
              rw [hd.one ht]; simp [put]
            · intro hn
              rw [hd.many (by simpa [put] using hn)]
              simp [put]
  | null => rw [shape_null] at hs; simp only [leaf, Option.map_some, Option.some.injEq] at hs; exact hleaf _ rfl hs.symm
  | alias a =>
    rw [shape_alias] at hs
    cases hl : leaf (.alias a) with
    | none => simp [hl] at hs
    | some ls => simp only [hl, Option.map_some, Option.some.injEq] at hs; exact hleaf _ hl hs.symm
  | text t q =>
    rw [shape_text] at hs
    cases hl : leaf (.text t q) with
    | none => simp [hl] at hs
    | some ls => simp only [hl, Option.map_some, Option.some.injEq] at hs; exact hleaf _ hl hs.symm
  | nil => simp [shape, leaf] at hs
  | basic _ => simp [shape, leaf] at hs
  | blockHeader _ _ => simp [shape, leaf] at hs
  | indent _ => simp [shape, leaf] at hs
  | stream _ => simp [shape, leaf] at hs
  | tag _ => simp [shape, leaf] at hs
  | anchor _ => simp [shape, leaf] at hs
  | properties _ _ => simp [shape, leaf] at hs
  | mappingEntry _ _ => simp [shape, leaf] at hs

theorem items_visit (es : List Node) (ls : List Line) (hs : items es = some ls) (w : Writer) (hi : 0 ≤ w.indentation)
    (hb1 : w.beforeSimple = []) (hb2 : w.beforeComplex = []) :
    ∃ w', visitSequence es w = some w' ∧ w'.beforeSimple = [] ∧ w'.beforeComplex = [] ∧ Same w w' ∧
      w'.buf = w.buf ++ emit w.indentation.toNat (NL w.buf) ls := by
  cases es with
  | nil =>
    rw [items] at hs
    simp only [Option.some.injEq] at hs
    subst hs
    exact ⟨w, by rw [visitSequence], hb1, hb2, ⟨rfl, rfl, rfl⟩, by simp [emit]⟩
  | cons e es =>
    rw [items] at hs
    cases hse : shape e with
    | none => simp [hse] at hs
    | some s =>
      cases hsr : items es with
      | none => simp [hse, hsr] at hs
      | some rest =>
        simp only [hse, hsr, Option.some.injEq] at hs
        subst hs
        have hsm := same_maybeIndent w
        have hw1 : (before (increase (put (maybeWriteIndentation w) ['-'])) [' '] [' ']).indentation =
            w.indentation + delta := by
          simp [before, increase, put, hsm.1]
        have hwb : (before (increase (put (maybeWriteIndentation w) ['-'])) [' '] [' ']).buf =
            w.buf ++ (if NL w.buf then List.replicate w.indentation.toNat ' ' else []) ++ ['-'] := by
          simp [before, increase, put, maybeIndent_buf]
        obtain ⟨w2, hv, hm0, hd⟩ := shape_visit e s hse
          (before (increase (put (maybeWriteIndentation w) ['-'])) [' '] [' '])
          (by rw [hw1]; simp only [delta]; omega)
        have hnl : NL ((before (increase (put (maybeWriteIndentation w) ['-'])) [' '] [' ']).buf ++ s.marks ++ [' ']) = false := by
          rw [NL_append _ _ (by simp)]; rfl
        have hs2 : Same (before (increase (put (maybeWriteIndentation w) ['-'])) [' '] [' ']) w2 ∧ w2.beforeSimple = [] ∧
            w2.beforeComplex = [] ∧
            brk w2.buf = w.buf ++ emit w.indentation.toNat (NL w.buf) (hang ('-' :: s.marks ++ [' ']) s.lines) := by
          split at hd
          · refine ⟨hd.same, hd.simple, hd.complex, ?_⟩
            have hbuf := hd.buf
            have e1 : (before (increase (put (maybeWriteIndentation w) ['-'])) [' '] [' ']).beforeComplex = [' '] := rfl
            rw [e1, hnl, hw1, toNat_increase w hi, hwb] at hbuf
            rw [hbuf]
            cases hlines : s.lines with
            | nil =>
              simp only [emit, List.append_nil, hang]
              have : NL (w.buf ++ (if NL w.buf then List.replicate w.indentation.toNat ' ' else []) ++ ['-'] ++ s.marks ++
                  [' ']) = false := by rw [NL_append _ _ (by simp)]; rfl
              rw [brk, this]
              cases NL w.buf <;> simp [pad, tailText]
            | cons h tl =>
              rw [brk_done (NL_emit _ _ _ (by simp)), hang, emit_prefix _ _ _ (by simp), tailText_map]
              simp [emit]
          · obtain ⟨h, tl, h1, hd⟩ := hd
            refine ⟨hd.same, hd.simple, hd.complex, ?_⟩
            have e1 : (before (increase (put (maybeWriteIndentation w) ['-'])) [' '] [' ']).beforeSimple = [' '] := rfl
            have hbuf := hd.many (by rw [e1]; exact hnl)
            rw [e1, hw1, toNat_increase w hi, hwb] at hbuf
            rw [hbuf, h1, hang, emit_prefix _ _ _ (by simp), tailText_map]
            simp
        obtain ⟨hsame, hb1', hb2', hbuf⟩ := hs2
        have hind : (maybeWriteLineBreak (decrease w2)).indentation = w.indentation := by
          rw [(same_maybeBreak _).1]
          simp only [decrease]
          rw [hsame.1, hw1]; omega
        have hbuf' : (maybeWriteLineBreak (decrease w2)).buf =
            w.buf ++ emit w.indentation.toNat (NL w.buf) (hang ('-' :: s.marks ++ [' ']) s.lines) := by
          rw [maybeBreak_buf]; exact hbuf
        have hne : hang ('-' :: s.marks ++ [' ']) s.lines ≠ [] := by cases s.lines <;> simp [hang]
        obtain ⟨w3, hv3, k1, k2, k3, k4⟩ := items_visit es rest hsr (maybeWriteLineBreak (decrease w2))
          (by rw [hind]; exact hi) (by rw [(maybeBreak_before _).1]; exact hb1')
          (by rw [(maybeBreak_before _).2]; exact hb2')
        refine ⟨w3, ?_, k1, k2, ?_, ?_⟩
        · rw [visitSequence, hv]; exact hv3
        · refine Same.trans ⟨hind, ?_, ?_⟩ k3
          · rw [(same_maybeBreak _).2.1]
            exact hsame.2.1.trans hsm.2.1
          · rw [(same_maybeBreak _).2.2]
            exact hsame.2.2.trans hsm.2.2
        · rw [k4, hind, hbuf', NL_emit _ _ _ hne, emit_append _ _ _ _ hne, List.append_assoc]

theorem entries_visit (es : List Node) (ls : List Line) (hs : entries es = some ls) (w : Writer) (hi : 0 ≤ w.indentation)
    (hb1 : w.beforeSimple = []) (hb2 : w.beforeComplex = []) :
    ∃ w', visitMapping es w = some w' ∧ w'.beforeSimple = [] ∧ w'.beforeComplex = [] ∧ Same w w' ∧
      w'.buf = w.buf ++ emit w.indentation.toNat (NL w.buf) ls := by
  cases es with
  | nil =>
    rw [entries] at hs
    simp only [Option.some.injEq] at hs
    subst hs
    exact ⟨w, by rw [visitMapping], hb1, hb2, ⟨rfl, rfl, rfl⟩, by simp [emit]⟩
  | cons e es =>
    cases e with
    | mappingEntry k v =>
      rw [entries] at hs
      cases hk : leaf k with
      | none => simp [hk] at hs
      | some kl =>
      obtain ⟨kt, tl, wk, rfl, hkv, hkd⟩ := leaf_visit hk (maybeWriteIndentation w)
      cases tl with
      | cons _ _ => simp [hk] at hs
      | nil =>
      cases hse : shape v with
      | none => simp [hk, hse] at hs
      | some s =>
      cases hsr : entries es with
      | none => simp [hk, hse, hsr] at hs
      | some rest =>
        simp only [hk, hse, hsr, Option.some.injEq] at hs
        subst hs
        have hsm := same_maybeIndent w
        have hkb := hkd.one rfl
        rw [(maybeIndent_before w).1, hb1, maybeIndent_buf] at hkb
        have hki : wk.indentation = w.indentation := hkd.same.1.trans hsm.1
        have hw1 : (increase (before (put wk [':']) ['\n'] [' '])).indentation = w.indentation + delta := by
          simp [before, increase, put, hki]
        have hwb : (increase (before (put wk [':']) ['\n'] [' '])).buf =
            w.buf ++ (if NL w.buf then List.replicate w.indentation.toNat ' ' else []) ++ kt ++ [':'] := by
          simp [before, increase, put, hkb]
        obtain ⟨w2, hv, hm0, hd⟩ := shape_visit v s hse (increase (before (put wk [':']) ['\n'] [' ']))
          (by rw [hw1]; simp only [delta]; omega)
        have hs2 : Same (increase (before (put wk [':']) ['\n'] [' '])) w2 ∧ w2.beforeSimple = [] ∧ w2.beforeComplex = [] ∧
            brk w2.buf = w.buf ++ emit w.indentation.toNat (NL w.buf)
              (if s.coll then (kt ++ ':' :: s.marks) :: s.lines.map (pad 2)
                else hang (kt ++ ':' :: s.marks ++ [' ']) s.lines) := by
          split at hd
          · rename_i hcoll
            refine ⟨hd.same, hd.simple, hd.complex, ?_⟩
            have hbuf := hd.buf
            have e1 : (increase (before (put wk [':']) ['\n'] [' '])).beforeComplex = ['\n'] := rfl
            rw [e1, NL_nl, hw1, toNat_increase w hi, hwb, emit_true] at hbuf
            rw [hbuf, brk_done (NL_cons_tail _ _ _)]
            simp only [hcoll, if_true]
            have := emit_prefix w.indentation.toNat (NL w.buf) (kt ++ ':' :: s.marks) (by simp) [] (s.lines.map (pad 2))
            rw [List.append_nil] at this
            rw [this, tailText_map]
            simp
          · rename_i hcoll
            obtain ⟨h, tl, h1, hd⟩ := hd
            refine ⟨hd.same, hd.simple, hd.complex, ?_⟩
            have e1 : (increase (before (put wk [':']) ['\n'] [' '])).beforeSimple = [' '] := rfl
            have hbuf := hd.many (by rw [e1, NL_append _ _ (by simp)]; rfl)
            rw [e1, hw1, toNat_increase w hi, hwb] at hbuf
            simp only [hcoll]
            rw [hbuf, h1, hang]
            simp only [Bool.false_eq_true, if_false]
            rw [emit_prefix _ _ _ (by simp), tailText_map]
            simp
        obtain ⟨hsame, hb1', hb2', hbuf⟩ := hs2
        have hind : (maybeWriteLineBreak (decrease w2)).indentation = w.indentation := by
          rw [(same_maybeBreak _).1]
          simp only [decrease]
          rw [hsame.1, hw1]; omega
        have hbuf' := (maybeBreak_buf (decrease w2)).trans hbuf
        have hne : (if s.coll then (kt ++ ':' :: s.marks) :: s.lines.map (pad 2)
                else hang (kt ++ ':' :: s.marks ++ [' ']) s.lines) ≠ [] := by
          split
          · simp
          · cases s.lines <;> simp [hang]
        obtain ⟨w3, hv3, k1, k2, k3, k4⟩ := entries_visit es rest hsr (maybeWriteLineBreak (decrease w2))
          (by rw [hind]; exact hi) (by rw [(maybeBreak_before _).1]; exact hb1')
          (by rw [(maybeBreak_before _).2]; exact hb2')
        refine ⟨w3, ?_, k1, k2, ?_, ?_⟩
        · rw [visitMapping, visit, leaf_simple hk]
          simp only [Bool.false_eq_true, if_false, hkv, hv]
          exact hv3
        · refine Same.trans ⟨hind, ?_, ?_⟩ k3
          · rw [(same_maybeBreak _).2.1]
            exact hsame.2.1.trans (hkd.same.2.1.trans hsm.2.1)
          · rw [(same_maybeBreak _).2.2]
            exact hsame.2.2.trans (hkd.same.2.2.trans hsm.2.2)
        · rw [k4, hind, hbuf', NL_emit _ _ _ hne, emit_append _ _ _ _ hne, List.append_assoc]
    | _ => simp [entries] at hs
end

end Verif.Writer
