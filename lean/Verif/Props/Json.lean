import Verif.Lemmas.JsonText
import Verif.Props.Blocks
import Verif.Props.Meaning

/-! C62: JSON texts are read as their values (`engines/yayamls/lexer`, `engines/yayamls/parser`). -/

namespace Verif.Props.Json

open Verif.Token Verif.Lexer Verif.Ast Verif.Parser Verif.Props.Parser Verif.Props.Blocks Verif.BlockText Verif.Json

mutual
/-- No properties. -/
def clean : Node → Bool
  | .properties _ _ => false
  | .content _ _ => false
  | .sequence es => cleans es
  | .mapping es => cleans es
  | .mappingEntry k v => clean k && clean v
  | _ => true

/-- The same, for lists of trees. -/
def cleans : List Node → Bool
  | [] => true
  | n :: ns => clean n && cleans ns
end

mutual
theorem clean_tidy : ∀ n : Node, clean (tidy n) = true → tidy n = n
  | .properties _ _, h => by simp [tidy, clean] at h
  | .content _ _, h => by simp [tidy, clean] at h
  | .sequence es, h => by
    simp only [tidy, clean] at h ⊢
    rw [cleans_tidies es h]
  | .mapping es, h => by
    simp only [tidy, clean] at h ⊢
    rw [cleans_tidies es h]
  | .mappingEntry k v, h => by
    simp only [tidy, clean, Bool.and_eq_true] at h ⊢
    rw [clean_tidy k h.1, clean_tidy v h.2]
  | .nil, _ | .null, _ | .basic _, _ | .stream _, _ | .tag _, _ | .anchor _, _ | .alias _, _ | .blockHeader _ _, _ | .text _ _, _ | .indent _, _ => rfl

theorem cleans_tidies : ∀ ns : List Node, cleans (tidies ns) = true → tidies ns = ns
  | [], _ => rfl
  | n :: ns, h => by
    simp only [tidies, cleans, Bool.and_eq_true] at h ⊢
    rw [clean_tidy n h.1, cleans_tidies ns h.2]
end

mutual
theorem tree_clean : ∀ j : Json, clean (tree j) = true
  | .null => rfl
  | .bool true => rfl
  | .bool false => rfl
  | .num _ => rfl
  | .str _ => rfl
  | .arr es => by simpa [tree, clean] using trees_clean es
  | .obj es => by simpa [tree, clean] using entries_clean es

theorem trees_clean : ∀ es : List Json, cleans (trees es) = true
  | [] => rfl
  | e :: es => by simp [trees, cleans, tree_clean e, trees_clean es]

theorem entries_clean : ∀ es : List (List Char × Json), cleans (entries es) = true
  | [] => rfl
  | (k, e) :: es => by simp [entries, cleans, clean, tree_clean e, entries_clean es]
end

theorem text_stream {S : Style} (hS : Readable S) {text : List Char} {j : Json} (h : Text S .value text j) (hd : depth j ≤ 4) (m : Nat) {w : List Char}
    (hw : Eol true w) : BlockText.Stream (sp m ++ (text ++ w)) [tree j] := by
  have := BlockText.Stream.mk (z := false) (g := []) .nil (by simp)
    (.implicit (v := []) (.atom (m := m) (text_core hS h hd) hw) (by simp) .done)
  simpa using this

theorem text_read {S : Style} (hS : Readable S) (text : List Char) (j : Json) (h : Text S .value text j) (hd : depth j ≤ 4) (m : Nat)
    (w : List Char) (hw : Eol true w) (pools : Pools Lexer) (hp : History pools) :
    ∃ pools', Conv (fun f => parseString f true (newTokenizer (sp m ++ (text ++ w))) pools) (⟨tree j, []⟩, pools') := by
  have hs := text_stream hS h hd m hw
  obtain ⟨docs, h1, w', h2⟩ := block_text_read_partial _ _ hs pools hp true
  match docs, h1, h2 with
  | [], h1, _ => simp [tidies] at h1
  | [d], h1, h2 =>
    simp only [tidies, List.cons.injEq, and_true] at h1
    have hc := clean_tidy d (by rw [h1]; exact tree_clean j)
    rw [h1] at hc
    rw [hc]
    exact ⟨w', h2⟩
  | _ :: _ :: _, h1, _ => simp [tidies] at h1

/-- **C62 (partial).** A JSON text (`Spec/Json.lean`) is read without an error as the tree of its value, whatever was parsed before.

The full statement is this one for every text of `Text full`, with any white space around it.  It is false, see
`compact_object_lost`, `compact_array_refused`, `deep_array_refused` and `escapes_kept`.  Here there are no escapes (for these see `json_text_as_written_partial`), there is
space after each colon before an array or an object, and not more than four arrays lie within each other.  Missing besides:
strings with byte order marks, and tabs. -/
theorem json_text_read_partial (text : List Char) (j : Json) (h : Text spaced .value text j) (hd : depth j ≤ 4) (m : Nat)
    (w : List Char) (hw : Eol true w) (pools : Pools Lexer) (hp : History pools) :
    ∃ pools', Conv (fun f => parseString f true (newTokenizer (sp m ++ (text ++ w))) pools) (⟨tree j, []⟩, pools') :=
  text_read readable_spaced text j h hd m w hw pools hp

/-- C62, for JSON with escapes: it is read as the tree with each string as it is written between its quotes.  Missing: the same texts
as above, but for the escapes other than `\b`, which loses the document (`backspace_loses`). -/
theorem json_text_as_written_partial (text : List Char) (j : Json) (h : Text written .value text j) (hd : depth j ≤ 4) (m : Nat)
    (w : List Char) (hw : Eol true w) (pools : Pools Lexer) (hp : History pools) :
    ∃ pools', Conv (fun f => parseString f true (newTokenizer (sp m ++ (text ++ w))) pools) (⟨tree j, []⟩, pools') :=
  text_read readable_written text j h hd m w hw pools hp

theorem chars_shorter {u t : List Char} (h : Chars u t) : t.length ≤ u.length ∧ ('\\' ∈ u → t.length < u.length) ∧ ('\\' ∉ u → u = t) := by
  induction h with
  | nil => simp
  | @char c u t h1 h2 h3 h ih =>
    obtain ⟨i1, i2, i3⟩ := ih
    refine ⟨by simpa using i1, fun hm => ?_, fun hm => ?_⟩
    · rcases List.mem_cons.1 hm with e | e
      · exact absurd e.symm h2
      · simpa using i2 e
    · rw [i3 (fun e => hm (by simp [e]))]
  | short _ _ ih => exact ⟨by simp only [List.length_cons]; omega, fun _ => by simp only [List.length_cons]; omega, fun h => absurd (by simp) h⟩
  | code _ _ ih => exact ⟨by simp only [List.length_cons, List.length_append]; omega, fun _ => by simp only [List.length_cons, List.length_append]; omega, fun h => absurd (by simp) h⟩
  | pair _ _ _ _ _ _ _ _ ih => exact ⟨by simp only [List.length_cons, List.length_append]; omega, fun _ => by simp only [List.length_cons, List.length_append]; omega, fun h => absurd (by simp) h⟩

/-- C62 fails for every string with a backslash in it: the parser yields what is written, and this is what the string stands for exactly
if there is no backslash. -/
theorem string_decoded_iff (u t : List Char) (h : Chars u t) (hb : Body u) (pools : Pools Lexer) (hp : History pools) :
    ∃ s pools', Conv (fun f => parseString f true (newTokenizer ('"' :: (u ++ ['"']))) pools) (⟨.text s .double, []⟩, pools') ∧
      (s = t ↔ '\\' ∉ u) := by
  obtain ⟨w, hw⟩ := json_text_as_written_partial _ (.str u) (.str (S := written) ⟨rfl, hb⟩) (by simp [depth]) 0 [] (.last (i := 0) .none (.inr rfl)) pools hp
  refine ⟨u, w, ?_, ?_⟩
  · rw [show sp 0 = [] from rfl, List.nil_append, List.append_nil] at hw
    exact hw
  · have := chars_shorter h
    refine ⟨fun e hm => ?_, this.2.2⟩
    have := this.2.1 hm
    rw [e] at this
    omega

/-- C62.  A JSON text stands for one value only, up to the tree of it. -/
theorem json_text_unambiguous_partial (text : List Char) (j j' : Json) (h : Text spaced .value text j) (h' : Text spaced .value text j')
    (hd : depth j ≤ 4) (hd' : depth j' ≤ 4) : tree j = tree j' := by
  obtain ⟨w, h1⟩ := json_text_read_partial text j h hd 0 [] (.last (i := 0) .none (.inr rfl)) emptyPools .start
  obtain ⟨w', h1'⟩ := json_text_read_partial text j' h' hd' 0 [] (.last (i := 0) .none (.inr rfl)) emptyPools .start
  have := h1.det h1'
  simp only [Prod.mk.injEq, Outcome.mk.injEq, and_true] at this
  exact this.1

mutual
/-- A JSON value as a document. -/
def document : Json → GenCode.Doc
  | .null => .null
  | .bool true => .scalar "true".toList
  | .bool false => .scalar "false".toList
  | .num t => .scalar t
  | .str t => .scalar t
  | .arr es => .seq (documents es)
  | .obj es => .map (pairs es)

/-- The values of an array. -/
def documents : List Json → List GenCode.Doc
  | [] => []
  | e :: es => document e :: documents es

/-- The pairs of an object. -/
def pairs : List (List Char × Json) → List (GenCode.Doc × GenCode.Doc)
  | [] => []
  | (k, e) :: es => (.scalar k, document e) :: pairs es
end

/-- What is proved about each part of a text. -/
def Stands : Json.Part → Json → Prop
  | .value, j => GenCode.Represents (document j) (tree j)
  | .items, j => ∃ es, j = .arr es ∧ GenCode.RepresentsItems (documents es) (trees es)
  | .pair, j | .pairs, j => ∃ es, j = .obj es ∧ GenCode.RepresentsEntries (pairs es) (entries es)

theorem digits_head {t : List Char} (h : Digits t) : ∃ c r, t = c :: r ∧ c.isDigit = true := by
  cases t with
  | nil => exact absurd rfl h.1
  | cons c r => exact ⟨c, r, rfl, h.2 c (by simp)⟩

theorem unsigned_head {t : List Char} (h : Unsigned t) : ∃ c r, t = c :: r ∧ c.isDigit = true := by
  induction h with
  | int h => exact digits_head h
  | frac h _ => obtain ⟨c, r, rfl, hc⟩ := digits_head h; exact ⟨c, _, rfl, hc⟩
  | exp _ _ _ ih => obtain ⟨c, r, rfl, hc⟩ := ih; exact ⟨c, _, rfl, hc⟩
  | expSign _ _ _ _ ih => obtain ⟨c, r, rfl, hc⟩ := ih; exact ⟨c, _, rfl, hc⟩

theorem number_not_null {t : List Char} (h : Number t) : ¬ CoreSchema.NullText t := by
  have hc : ∃ c r, t = c :: r ∧ (c.isDigit = true ∨ c = '-') := by
    cases h with
    | plain h => obtain ⟨c, r, rfl, hc⟩ := unsigned_head h; exact ⟨c, r, rfl, .inl hc⟩
    | minus h => exact ⟨_, _, rfl, .inr rfl⟩
  obtain ⟨c, r, rfl, hc⟩ := hc
  intro hn
  simp only [CoreSchema.NullText, List.map_cons, List.map_nil, List.mem_cons, List.not_mem_nil, or_false] at hn
  rcases hn with hn | hn | hn | hn | hn <;> simp at hn <;> (try obtain ⟨hn, -⟩ := hn) <;> subst hn <;> revert hc <;> decide

theorem text_stands {S : Style} {k : Json.Part} {u : List Char} {j : Json} (h : Text S k u j) : Stands k j := by
  have str : ∀ t, GenCode.Represents (.scalar t) (.text t .double) := fun t => .scalar (fun h => h.2)
  induction h with
  | null => exact .nullText (by simp [CoreSchema.NullText]) trivial
  | yes => exact .scalar (by simp [CoreSchema.NullText])
  | no => exact .scalar (by simp [CoreSchema.NullText])
  | num h => exact .scalar (fun h' => number_not_null h h'.1)
  | str _ => exact str _
  | noItems _ => exact .seq .nil
  | arr _ _ ih => obtain ⟨es, he, h⟩ := ih; cases he; exact .seq h
  | noPairs _ => exact .map .nil
  | obj _ _ ih => obtain ⟨es, he, h⟩ := ih; cases he; exact .map h
  | item _ _ ih => exact ⟨_, rfl, .cons ih .nil⟩
  | items _ _ _ _ ih ih' => obtain ⟨es, he, h⟩ := ih'; cases he; exact ⟨_, rfl, .cons ih h⟩
  | pair _ _ _ ih => exact ⟨_, rfl, .cons (str _) ih .nil⟩
  | lastPair _ _ ih => exact ih
  | @pairs _ _ _ _ p _ _ _ _ _ ih ih' =>
    obtain ⟨es, he, h⟩ := ih; obtain ⟨es', he', h'⟩ := ih'
    cases he; cases he'
    obtain ⟨k, e⟩ := p
    refine ⟨_, rfl, ?_⟩
    cases h with
    | cons h1 h2 _ => exact .cons h1 h2 h'

/-- C62, for generated code: `UnmarshalYAML` reads from a JSON text the value which the text means for the type (`Spec/Meaning.lean`).
Missing: the same texts as above, and `null` as the whole text. -/
theorem json_unmarshalled_partial {lib : Generic.Lib} {M : GenCode.Rules} (hM : ∀ t n, M.float t n = true → lib.toFloat t n = true)
    {L : GenCode.Lib} {P : GenCode.Package} {t : GenCode.Ty} {old v : GenCode.Val} {j : Json} (hd : j ≠ .null)
    (hm : GenCode.Means M L P t false old (document j) v) {text : List Char} (h : Text spaced .value text j) (h4 : depth j ≤ 4)
    (m : Nat) {w : List Char} (hw : Eol true w) (pools : Pools Lexer) (hp : History pools) :
    EndToEnd.Unmarshals lib L P pools (sp m ++ (text ++ w)) t old v := by
  refine Meaning.text_meaning_partial hM (text_stands h) ?_ hm (text_stream readable_spaced h h4 m hw) pools hp
  cases j with
  | null => exact absurd rfl hd
  | bool b => cases b <;> simp [document]
  | _ => simp [document]

/-- The text of the example below. -/
def sample : List Char := "{\n  \"a\": [-1.5e+3, {\"b c\" : true}, []],\r\n\r\n  \"d\":null , \"\": {}\n}".toList

/-- The value of the example below. -/
def sampleValue : Json :=
  .obj [(['a'], .arr [.num "-1.5e+3".toList, .obj [("b c".toList, .bool true)], .arr []]), (['d'], .null), ([], .obj [])]

/-- Arrays and objects within each other, a number with all parts, empty collections, an empty key, several
lines. -/
theorem sample_text : Text spaced .value sample sampleValue := by
  have n0 : Spaces [] := by simp [Spaces]
  have n1 : Spaces [' '] := by simp [Spaces]
  have n2 : Spaces "\n  ".toList := by simp [Spaces]
  have n3 : Spaces "\r\n\r\n  ".toList := by simp [Spaces]
  have n4 : Spaces ['\n'] := by simp [Spaces]
  have num : Number "-1.5e+3".toList := .minus (.expSign (t := "1.5".toList) (u := ['3']) (e := 'e') (s := '+')
    (.frac (t := ['1']) (u := ['5']) ⟨by decide, by decide⟩ ⟨by decide, by decide⟩) (.inl rfl) (.inl rfl) ⟨by decide, by decide⟩)
  have st : ∀ u, (∀ c ∈ u, (c ≠ '"' ∧ c ≠ '\\' ∧ 0x20 ≤ c.toNat) ∧ c ≠ '﻿') → spaced.str u u :=
    fun u h => ⟨⟨rfl, fun c hc => (h c hc).1⟩, fun c hc => (h c hc).2⟩
  have o1 : Text spaced .value "{\"b c\" : true}".toList (.obj [("b c".toList, .bool true)]) :=
    .obj (g := []) (u := "\"b c\" : true".toList) n0 (.lastPair (u := "\"b c\" : true".toList) (g := [])
      (.pair (k := "b c".toList) (g := [' ']) (g' := [' ']) (st _ (by decide)) ⟨n1, n1, .inl (by simp)⟩ .yes) n0)
  have a1 : Text spaced .value "[-1.5e+3, {\"b c\" : true}, []]".toList _ :=
    .arr (g := []) (u := "-1.5e+3, {\"b c\" : true}, []".toList) n0
      (.items (u := "-1.5e+3".toList) (g := []) (g' := [' ']) (v := "{\"b c\" : true}, []".toList) (.num num) n0 n1
        (.items (u := "{\"b c\" : true}".toList) (g := []) (g' := [' ']) (v := "[]".toList) o1 n0 n1
          (.item (u := "[]".toList) (g := []) (.noItems (g := []) n0) n0)))
  exact .obj (g := "\n  ".toList) (u := "\"a\": [-1.5e+3, {\"b c\" : true}, []],\r\n\r\n  \"d\":null , \"\": {}\n".toList) n2
    (.pairs (u := "\"a\": [-1.5e+3, {\"b c\" : true}, []]".toList) (g := []) (g' := "\r\n\r\n  ".toList)
      (v := "\"d\":null , \"\": {}\n".toList)
      (.pair (k := ['a']) (g := []) (g' := [' ']) (st _ (by decide)) ⟨n0, n1, .inl (by simp)⟩ a1) n0 n3
      (.pairs (u := "\"d\":null".toList) (g := [' ']) (g' := [' ']) (v := "\"\": {}\n".toList)
        (.pair (k := ['d']) (g := []) (g' := []) (st _ (by decide)) ⟨n0, n0, .inr ⟨rfl, rfl⟩⟩ .null) n1 n1
        (.lastPair (u := "\"\": {}".toList) (g := ['\n'])
          (.pair (k := []) (g := []) (g' := [' ']) (st _ (by decide)) ⟨n0, n1, .inl (by simp)⟩ (.noPairs (g := []) n0)) n4)))

example : ∃ w, Conv (fun f => parseString f true (newTokenizer ("  ".toList ++ (sample ++ " # x\n".toList))) emptyPools)
    (⟨tree sampleValue, []⟩, w) :=
  json_text_read_partial sample sampleValue sample_text (by decide) 2 _
    (.line (i := 1) (u := "# x".toList) (g := []) (.remark (c := " x".toList) (by intro c hc; fin_cases hc <;> decide)) (.inl (by decide)) .nil)
    emptyPools .start

/-- A struct of a recursive type, from JSON: the field `N`, the field `C` with a pointer to a struct and a nil pointer. -/
example (pools : Pools Lexer) (hp : History pools) : EndToEnd.Unmarshals Reader.lib0 GenCode.lib0 GenCode.package pools
    "{\"N\":\"x\", \"C\": [{\"N\": \"y\"}, null]}\n".toList (.struct 6) (.struct [.str ['o'], .nil])
    (.struct [.str ['x'], .slice [.ptr (.struct [.str ['y'], .nil]), .nil]]) := by
  have n0 : Spaces [] := by simp [Spaces]
  have n1 : Spaces [' '] := by simp [Spaces]
  have st : ∀ u, (∀ c ∈ u, (c ≠ '"' ∧ c ≠ '\\' ∧ 0x20 ≤ c.toNat) ∧ c ≠ '\uFEFF') → spaced.str u u :=
    fun u h => ⟨⟨rfl, fun c hc => (h c hc).1⟩, fun c hc => (h c hc).2⟩
  have o : Text spaced .value "{\"N\": \"y\"}".toList (.obj [(['N'], .str ['y'])]) :=
    .obj (g := []) (u := "\"N\": \"y\"".toList) n0 (.lastPair (u := "\"N\": \"y\"".toList) (g := [])
      (.pair (k := ['N']) (g := []) (g' := [' ']) (st _ (by decide)) ⟨n0, n1, .inl (by simp)⟩ (.str (u := ['y']) (st _ (by decide)))) n0)
  have a : Text spaced .value "[{\"N\": \"y\"}, null]".toList _ :=
    .arr (g := []) (u := "{\"N\": \"y\"}, null".toList) n0
      (.items (u := "{\"N\": \"y\"}".toList) (g := []) (g' := [' ']) (v := "null".toList) o n0 n1 (.item (g := []) .null n0))
  have t : Text spaced .value "{\"N\":\"x\", \"C\": [{\"N\": \"y\"}, null]}".toList _ :=
    .obj (g := []) (u := "\"N\":\"x\", \"C\": [{\"N\": \"y\"}, null]".toList) n0
      (.pairs (u := "\"N\":\"x\"".toList) (g := []) (g' := [' ']) (v := "\"C\": [{\"N\": \"y\"}, null]".toList)
        (.pair (k := ['N']) (g := []) (g' := []) (st _ (by decide)) ⟨n0, n0, .inr ⟨rfl, rfl⟩⟩ (.str (u := ['x']) (st _ (by decide)))) n0 n1
        (.lastPair (u := "\"C\": [{\"N\": \"y\"}, null]".toList) (g := [])
          (.pair (k := ['C']) (g := []) (g' := [' ']) (st _ (by decide)) ⟨n0, n1, .inl (by simp)⟩ a) n0))
  refine json_unmarshalled_partial (M := ⟨fun _ _ => false, true⟩) (fun _ _ h => nomatch h) (by simp) ?_ t (by decide) 0
    (.line (i := 0) .none (.inr rfl) .nil) pools hp
  have fieldC : GenCode.FieldAt (GenCode.package.fields 6) ['C'] 1 (GenCode.field 'C' (.slice (.ptr (.struct 6))) true) := by
    refine ⟨rfl, rfl, fun j g hj hg => ?_⟩
    obtain rfl : j = 0 := by omega
    cases hg
    decide
  have zero : GenCode.IsZero GenCode.lib0 GenCode.package (.struct 6) (.struct [.str [], .nil]) := .struct rfl fun i f v hf hv => by
    match i with
    | 0 => cases hf; cases hv; exact .string
    | 1 => cases hf; cases hv; exact .slice
    | i + 2 => cases hf
  have fieldN : GenCode.FieldAt (GenCode.package.fields 6) ['N'] 0 (GenCode.field 'N' .string false) := ⟨rfl, rfl, fun j g hj => by omega⟩
  exact .struct rfl (.field fieldN rfl (by simp [document]) .string (.field fieldC rfl (by simp [document])
    (.slice (zs := [.nil, .nil]) (by simp; exact .ptr)
      (.cons (.ptrNew (v := .struct [.str ['y'], .nil]) (by simp [document]) zero (.struct rfl (.field fieldN rfl (by simp [document]) .string .nil)))
        (.cons .ptrNull .nil))) .nil))

/-- C62 fails for objects as values without a space after the colon: the document is lost without an error. -/
theorem compact_object_lost : Text full .value "{\"a\":{\"b\":1}}".toList (.obj [(['a'], .obj [(['b'], .num ['1'])])]) ∧
    ∃ w, Conv (fun f => parseString f true (newTokenizer "{\"a\":{\"b\":1}}".toList) emptyPools) (⟨.stream [], []⟩, w) := by
  have n0 : White [] := by simp [White]
  have r : ∀ c : Char, c ≠ '"' → c ≠ '\\' → 0x20 ≤ c.toNat → full.str [c] [c] := fun c h1 h2 h3 => .char h1 h2 h3 .nil
  refine ⟨?_, conv_outcome (f := 60) (by krfl)⟩
  exact .obj (g := []) (u := "\"a\":{\"b\":1}".toList) n0 (.lastPair (u := "\"a\":{\"b\":1}".toList) (g := [])
    (.pair (k := ['a']) (g := []) (g' := []) (r 'a' (by decide) (by decide) (by decide)) ⟨n0, n0⟩
      (.obj (g := []) (u := "\"b\":1".toList) n0 (.lastPair (u := "\"b\":1".toList) (g := [])
        (.pair (k := ['b']) (g := []) (g' := []) (r 'b' (by decide) (by decide) (by decide)) ⟨n0, n0⟩
          (.num (.plain (.int ⟨by decide, by decide⟩)))) n0))) n0)

/-- C62 fails for arrays as values without a space after the colon: there is an error. -/
theorem compact_array_refused : Text full .value "{\"a\":[1]}".toList (.obj [(['a'], .arr [.num ['1']])]) ∧
    ∃ o w, Conv (fun f => parseString f true (newTokenizer "{\"a\":[1]}".toList) emptyPools) (o, w) ∧ o.err ≠ [] := by
  have n0 : White [] := by simp [White]
  refine ⟨?_, refused (by decide +kernel)⟩
  exact .obj (g := []) (u := "\"a\":[1]".toList) n0 (.lastPair (u := "\"a\":[1]".toList) (g := [])
    (.pair (k := ['a']) (g := []) (g' := []) (.char (by decide) (by decide) (by decide) .nil) ⟨n0, n0⟩
      (.arr (g := []) (u := ['1']) n0 (.item (u := ['1']) (g := []) (.num (.plain (.int ⟨by decide, by decide⟩))) n0))) n0)

/-- C62 fails for arrays six deep: there is an error. -/
theorem deep_array_refused : Text full .value "[[[[[[\"a\"]]]]]]".toList (.arr [.arr [.arr [.arr [.arr [.arr [.str ['a']]]]]]]) ∧
    ∃ o w, Conv (fun f => parseString f true (newTokenizer "[[[[[[\"a\"]]]]]]".toList) emptyPools) (o, w) ∧ o.err ≠ [] := by
  have n0 : White [] := by simp [White]
  have one : ∀ {u j}, Text full .value u j → Text full .value ('[' :: (u ++ [']'])) (.arr [j]) := by
    intro u j h
    have := Text.arr (S := full) (g := []) n0 (.item (g := []) h n0)
    simpa using this
  refine ⟨?_, refused (by decide +kernel)⟩
  exact one (one (one (one (one (one (.str (S := full) (u := ['a']) (t := ['a']) (.char (by decide) (by decide) (by decide) .nil)))))))

/-- C62 fails for strings with escapes: they are kept as they are written. -/
theorem escapes_kept : Text full .value "[\"a\\nb\", \"\\u0041\"]".toList (.arr [.str "a\nb".toList, .str ['A']]) ∧
    ∃ w, Conv (fun f => parseString f true (newTokenizer "[\"a\\nb\", \"\\u0041\"]".toList) emptyPools)
      (⟨.sequence [.text "a\\nb".toList .double, .text "\\u0041".toList .double], []⟩, w) := by
  have n0 : White [] := by simp [White]
  have n1 : White [' '] := by simp [White]
  refine ⟨?_, conv_outcome (f := 60) (by krfl)⟩
  exact .arr (g := []) (u := "\"a\\nb\", \"\\u0041\"".toList) n0 (.items (u := "\"a\\nb\"".toList) (v := "\"\\u0041\"".toList) (g := [])
    (g' := [' ']) (.str (u := "a\\nb".toList) (.char (by decide) (by decide) (by decide) (.short (by decide)
      (.char (by decide) (by decide) (by decide) .nil)))) n0 n1
    (.item (u := "\"\\u0041\"".toList) (g := []) (.str (u := "\\u0041".toList)
      (.code (h := "0041".toList) (u := []) ⟨'0', '0', '4', '1', 0, 0, 4, 1, rfl, by decide, by decide, by decide, by decide, by decide⟩ .nil)) n0))

/-- Escapes in a key, in a value and next to the end. -/
example (pools : Pools Lexer) (hp : History pools) :
    ∃ w, Conv (fun f => parseString f true (newTokenizer "{\"\\u00e9\": [\"a\\n\\\"b\\\\\"]}".toList) pools)
      (⟨.mapping [.mappingEntry (.text "\\u00e9".toList .double) (.sequence [.text "a\\n\\\"b\\\\".toList .double])], []⟩, w) := by
  have n0 : Spaces [] := by simp [Spaces]
  have n1 : Spaces [' '] := by simp [Spaces]
  have key := fun h => json_text_as_written_partial "{\"\\u00e9\": [\"a\\n\\\"b\\\\\"]}".toList (.obj [("\\u00e9".toList, .arr [.str "a\\n\\\"b\\\\".toList])]) h (by decide) 0 []
    (.last (i := 0) .none (.inr rfl)) pools hp
  rw [show sp 0 = [] from rfl, List.nil_append, List.append_nil] at key
  refine key ?_
  exact .obj (g := []) (u := "\"\\u00e9\": [\"a\\n\\\"b\\\\\"]".toList) n0
    (.lastPair (u := "\"\\u00e9\": [\"a\\n\\\"b\\\\\"]".toList) (g := [])
      (.pair (k := "\\u00e9".toList) (g := []) (g' := [' '])
        ⟨rfl, .code (h := "00e9".toList) (n := 233) (u := []) ⟨'0', '0', 'e', '9', 0, 0, 14, 9, rfl, by decide, by decide, by decide, by decide, by decide⟩ .nil⟩
        ⟨n0, n1, .inl (by simp)⟩
        (.arr (g := []) (u := "\"a\\n\\\"b\\\\\"".toList) n0 (.item (u := "\"a\\n\\\"b\\\\\"".toList) (g := [])
          (.str (u := "a\\n\\\"b\\\\".toList) ⟨rfl, .char (by decide) (by decide) (by decide) (by decide) (.short (by decide) (.short (by decide)
            (.char (by decide) (by decide) (by decide) (by decide) (.short (by decide) .nil))))⟩) n0))) n0)

/-- A string which stands for a text other than what is written. -/
example (pools : Pools Lexer) (hp : History pools) :
    ∃ s w, Conv (fun f => parseString f true (newTokenizer "\"a\\t\"".toList) pools) (⟨.text s .double, []⟩, w) ∧ s ≠ "a\t".toList := by
  obtain ⟨s, w, h1, h2⟩ := string_decoded_iff "a\\t".toList "a\t".toList (.char (by decide) (by decide) (by decide) (.short (by decide) .nil))
    (.char (by decide) (by decide) (by decide) (by decide) (.short (by decide) .nil)) pools hp
  exact ⟨s, w, h1, fun e => h2.1 e (by decide)⟩

/-- C62 fails for the escape of the backspace: the document is lost without an error. -/
theorem backspace_loses : Text full .value "\"\\b\"".toList (.str ['\x08']) ∧
    ∃ w, Conv (fun f => parseString f true (newTokenizer "\"\\b\"".toList) emptyPools) (⟨.stream [], []⟩, w) :=
  ⟨.str (u := "\\b".toList) (.short (by decide) .nil), conv_outcome (f := 60) (by krfl)⟩

end Verif.Props.Json
