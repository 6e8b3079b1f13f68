import Verif.Lemmas.Layout

/-! C21: the writer of the yayamls engine (`engines/yayamls/encode/writer.go`). -/

namespace Verif.Props.Writer

open Verif.Ast Verif.Writer

/-- C21.  What is written depends on the tree only: not on the state in which the writer was left by earlier writes
(successful, failed, interrupted by a panic or by a failing destination). -/
theorem written_text_function_of_tree (w w' : Writer) (n : Node) :
    (writeString w n).1 = (writeString w' n).1 ∧ (writeBytes w n).1 = (writeBytes w' n).1 ∧
      ∀ sink, (writeTo sink w n).1 = (writeTo sink w' n).1 := by
  have h : write w n = write w' n := rfl
  simp [writeString, writeTo, writeBytes, h]

/-- A writer left in the middle of a document. -/
example : (writeString ⟨['x'], 3, 8, ['\n'], [' '], [['a']]⟩ (.sequence [.text ['a'] .absent, .null])).1 = .text "- a\n- null\n".toList := by
  decide +kernel

/-- C21.  The string, the bytes and the text given to a destination are the same. -/
theorem variants_agree (w w' w'' : Writer) (n : Node) (s : List Char) :
    ((writeString w n).1 = .text s ↔ (writeBytes w' n).1 = .text s) ∧
      ((writeString w n).1 = .text s ↔ (writeTo (some ()) w'' n).1 = .text s) := by
  have h1 : write w n = write w' n := rfl
  have h2 : write w n = write w'' n := rfl
  refine ⟨?_, ?_⟩
  · simp only [writeString, writeTo, writeBytes, ← h1]
  · simp only [writeString, writeTo, ← h2]

/-- C21.  Without an anchors keeper a write of a tree never reports an error, and a tree without nil pointers never
panics. -/
theorem write_succeeds (w : Writer) (n : Node) (hn : NilFree n) : ∃ s, (writeString w n).1 = .text s := by
  obtain ⟨w', hw⟩ := visit_total n hn (reset w)
  have he : w'.errors = 0 := (visit_same _ _ _ hw).2.1
  simp [writeString, writeTo, write, hw, he]

example : NilFree (.mapping [.mappingEntry (.text ['k'] .absent) (.content (.properties .nil (.anchor ['a'])) .null)]) := by
  simp [NilFree, NilFreeList, validNode]

/-- The indentation is never negative (`buf.Grow` would panic): every visit gives back the indentation it was given. -/
theorem indentation_restored (n : Node) (w w' : Writer) (h : visit n w = some w') :
    w'.indentation = w.indentation := (visit_same n w w' h).1

example : visit (.sequence [.null]) newWriter = some { newWriter with buf := "- null\n".toList } := by decide +kernel

/-- Finding: an empty collection is written as nothing, an anchored scalar document is glued to its anchor. -/
theorem empty_sequence_unwritten :
    (writeString newWriter (.mapping [.mappingEntry (.text ['k'] .absent) (.sequence [])])).1 = .text "k:\n".toList ∧
      (writeString newWriter (.content (.properties .nil (.anchor ['a'])) (.text ['v'] .absent))).1 =
        .text " &av".toList := by decide +kernel

/-- **C51 (partial).** A tree is written as a block document: the text is the lines of its layout (`Spec/Layout.lean`),
each ended by a line feed, whatever the depth.

Missing: collections as keys (false, see `complex_key_misplaced`), properties of the root and of keys (false, see
`empty_sequence_unwritten`), line feeds inside of single-quoted texts and names. -/
theorem written_layout_partial (w : Writer) (n : Node) (ls : List Layout.Line) (h : Layout.document n = some ls) :
    (writeString w n).1 = .text (Layout.unlines ls) := by
  unfold Layout.document at h
  cases hs : Layout.shape n with
  | none => simp [hs] at h
  | some s =>
    obtain ⟨m, c, l⟩ := s
    cases m with
    | cons _ _ => simp [hs] at h
    | nil =>
      cases c with
      | false => simp [hs] at h
      | true =>
        simp only [hs, Option.some.injEq] at h
        subst h
        obtain ⟨w', hv, -, hd⟩ := shape_visit n _ hs (reset w) (by simp [reset])
        simp only [if_true] at hd
        have he : w'.errors = 0 := hd.same.2.1
        have hb := hd.buf
        simp only [writeString, writeTo, write, hv, he]
        have hp : ∀ l, Layout.pad 0 l = l := by intro l; simp only [Layout.pad]; split <;> simp_all
        cases l with
        | nil => simpa [reset, emit, Layout.unlines] using hb
        | cons x xs => simpa [reset, emit, Layout.unlines, NL, tailText, hp] using hb

/-- A document with nested collections, properties, quoted and literal texts. -/
example : Layout.document
    (.mapping [.mappingEntry (.text ['k'] .absent) (.sequence [.sequence [.null, .text ['a', '\'', 'b'] .single],
        .mapping [.mappingEntry (.text ['x'] .double) (.text ['l', '\n', 'm', '\n'] .absent), .mappingEntry .null (.alias ['a'])]]),
      .mappingEntry (.text ['z'] .absent) (.content (.properties (.tag ['s']) (.anchor ['a'])) (.sequence []))]) =
    some ["k:".toList, "  - - null".toList, "    - 'a''b'".toList, "  - \"x\": |+".toList, "      l".toList, "      m".toList,
      "    null: *a".toList, "z: !!s &a".toList] := by decide +kernel

/-- **C51**, documents which are one scalar: the lines of the scalar; the last line feed is missing unless the scalar
ends with one. -/
theorem written_scalar (w : Writer) (n : Node) (ls : List Layout.Line) (h : Layout.leaf n = some ls) :
    ∃ s, (writeString w n).1 = .text s ∧ (s = Layout.unlines ls ∨ s ++ ['\n'] = Layout.unlines ls) := by
  obtain ⟨x, tl, w', rfl, hv, hd⟩ := leaf_visit h (reset w)
  have he : w'.errors = 0 := hd.same.2.1
  have hm := hd.many (by simp [reset, NL])
  have hp : ∀ l, Layout.pad 0 l = l := by intro l; simp only [Layout.pad]; split <;> simp_all
  have hu : Layout.unlines (x :: tl) = brk w'.buf := by
    rw [hm]
    simp [reset, Layout.unlines, tailText, hp]
  refine ⟨w'.buf, by simp [writeString, writeTo, write, hv, he], ?_⟩
  rw [hu, brk]
  split
  · exact .inl rfl
  · exact .inr rfl

example : Layout.leaf (.text ['a', '\n', 'b'] .absent) = some ["|-".toList, ['a'], ['b']] := by decide +kernel

/-- **C51 is false** for a collection as a key of a nested mapping: the colon is written in the first column. -/
theorem complex_key_misplaced :
    (writeString newWriter (.mapping [.mappingEntry (.text ['k'] .absent)
      (.mapping [.mappingEntry (.sequence [.null]) .null])])).1 = .text "k:\n  ? - null\n: null\n".toList := by
  decide +kernel

end Verif.Props.Writer
