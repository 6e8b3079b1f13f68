import Verif.Lemmas.GenText
import Verif.Props.GenCode
import Verif.Props.Roundtrip
import Verif.Model.Encoder

/-! C39: from a Go value to a YAML text and back, through the methods generated for the yayamls engine
(`engines/yayamls/engine.go:37-62`). -/

namespace Verif.Props.EndToEnd

open Verif.GenCode Verif.Protocol Verif.Ast Verif.Lexer Verif.Parser Verif.Props.Parser Verif.Props.GenCode

/-- engine.go:52-62: the generated method `MarshalYAML` returns exactly this text, and no error. -/
def Marshals (L : Lib) (P : Package) (t : Ty) (v : Val) (text : List Char) : Prop :=
  ∃ cs, encTop L P t v = some cs ∧
    ∀ o, Encoder.Encodes (Builder.run (Builder.newBuilder false) cs) Writer.newWriter o ↔ o = .text text

/-- engine.go:37-50 with decode/reader.go:121-127: the generated method `UnmarshalYAML`, called for a variable with the
value `z`, leaves the value `v` there and returns no error.  `pools` are the pools of the parser. -/
def Unmarshals (lib : Generic.Lib) (L : Lib) (P : Package) (pools : Pools Lexer) (text : List Char) (t : Ty) (z v : Val) : Prop :=
  ∃ n pools', Conv (fun f => parseString f true (newTokenizer text) pools) (⟨n, []⟩, pools') ∧
    ∃ s' k, Conv (fun f => decTop (yayamls lib) L P f t z (Reader.begin false n)) (v, s', k) ∧
      s'.reader.fatalError = none ∧ s'.reader.denyErrors = []

theorem compound_collection {L : Lib} {P : Package} {t : Ty} {v : Val} (ht : t.compound = true) (hv : v ≠ .nil)
    {w : Value Node} (h : encTop L P t v = some (calls w)) (x : Inserter.Scalar) : w ≠ .scalar x := by
  rintro rfl
  exact enc_collection ht hv x h

/-- **C39 (partial).** A collection whose type the generator handles, at any depth, which fits its type: `MarshalYAML`
returns a text, `UnmarshalYAML` reads exactly the same value from this text into a zero variable, without an error, whatever
was parsed before.

Missing: values which do not fit (see `Props/GenCode.lean`), empty collections and strings with characters which need escapes
(false, see `Props/Parser.lean: roundtrip_fails`), scalars as documents, types with `MarshalText`, variables which are not
zero. -/
theorem marshal_unmarshal_partial {lib : Generic.Lib} {L : Lib} {P : Package} {X : Texts} (hX : Faithful false lib.toFloat X L)
    (hp : Printable false X) (hP : Legal L P) {t : Ty} {v z : Val} (ht : t.compound = true) (hn : v ≠ .nil)
    (hv : Fits X L P t false v) (hf : Full L P t v) (hz : IsZero L P t z) :
    ∃ text, Marshals L P t v text ∧ ∀ pools, History pools → Unmarshals lib L P pools text t z v := by
  obtain ⟨anyOf, hg⟩ := Reader.generic_exists lib
  have hE := yayamls_refines hg true false
  obtain ⟨w, h1, h2, h3, h4⟩ := fits_returns (ν := Node) hE ⟨fun n t h => (hX.float n t h).2⟩ hv hP true (.inl rfl)
  have hfl : ∀ n t, X.float n t → Schema.isFloat t = true := fun n t h => (hX.float n t h).1
  have hsh := reread_shows (lib := lib) (multi := false) (anyOf := anyOf) hX.string hfl w h3
  obtain ⟨a, h5, h6⟩ := Builder.builder_faithful false [] w (by rw [within_raws w h3]; simp)
  have hc := (tree_plain hp hfl w h3 (h4.bulky hf)).2 (compound_collection ht hn h1)
  obtain ⟨text, h7, -⟩ := Roundtrip.roundtrip_plain_partial _ hc Writer.newWriter emptyPools .start true
  refine ⟨text, ⟨_, h1, fun o => ⟨fun ho => ?_, ?_⟩⟩, fun pools hpools => ?_⟩
  · cases ho with
    | error he =>
      rw [show Builder.newBuilder false = Builder.used false [] from rfl, h5] at he
      cases he
    | nilTree he =>
      rw [show Builder.newBuilder false = Builder.used false [] from rfl, h5] at he
      cases he
    | tree he hr =>
      rw [show Builder.newBuilder false = Builder.used false [] from rfl] at he hr
      rw [h5] at he
      cases he
      rw [Verif.Builder.Reads.det hr h6]
      exact h7
  · rintro rfl
    rw [← h7]
    exact .tree h5 h6
  · obtain ⟨text', h8, pools', h9⟩ := Roundtrip.roundtrip_plain_partial _ hc Writer.newWriter pools hpools true
    rw [h7] at h8
    cases h8
    obtain ⟨s', k, c', g1, ⟨r', hs', rfl, g2⟩, g3, g4⟩ := decTop_gives hE h2 hz hsh.1
      (s := Reader.begin false (PlainTree.reread (tree false w)))
      ⟨_, [], rfl, Verif.Reader.rel_start hsh.2 (fun _ => rfl)⟩
    exact ⟨_, pools', h9, _, k, g1, g2.fatal.trans g3, g2.denied.trans g4⟩

/-- The strings without special characters, and a float. -/
def texts : Texts := ⟨PlainTree.Verbatim .double, fun _ t => t = ['1', '.', '5']⟩

theorem verbatim_char {c : Char} (h : 0x20 ≤ c.toNat ∧ c.toNat ∉ PlainTree.special .double) : PlainTree.Verbatim .double [c] := by
  intro d hd
  obtain rfl := List.mem_singleton.1 hd
  exact h

theorem nested_fits : Fits texts lib0 package (.struct 6) false nested := by
  have names : ∀ f ∈ package.fields 6, texts.string f.name := by
    intro f hf
    simp [package, field] at hf
    rcases hf with rfl | rfl <;> exact verbatim_char (by decide)
  have inner : Fits texts lib0 package (.struct 6) true (.struct [.str ['y'], .nil]) := by
    refine .struct rfl (by decide) names ?_ ?_
    · intro i f v hf hv hn
      match i with
      | 0 => cases hf; cases hv; cases hn.2
      | 1 => cases hf; cases hv; exact .slice
      | i + 2 => cases hf
    · intro i f v hf hv hn
      match i with
      | 0 => cases hf; cases hv; exact .string (verbatim_char (by decide))
      | 1 => cases hf; cases hv; exact .sliceNil
      | i + 2 => cases hf
  refine .struct rfl (by decide) names ?_ ?_
  · intro i f v hf hv hn
    match i with
    | 0 => cases hf; cases hv; cases hn.2
    | 1 => cases hf; cases hv; cases hn.2
    | i + 2 => cases hf
  · intro i f v hf hv hn
    match i with
    | 0 => cases hf; cases hv; exact .string (verbatim_char (by decide))
    | 1 =>
      cases hf
      cases hv
      refine .slice fun v hv => ?_
      obtain rfl := List.mem_singleton.mp hv
      exact .ptr (by simp) inner
    | i + 2 => cases hf

theorem nested_full : Full lib0 package (.struct 6) nested := by
  have inner : Full lib0 package (.struct 6) (.struct [.str ['y'], .nil]) := by
    refine .struct ⟨0, _, _, rfl, rfl, fun h => by cases h.2⟩ fun i f v hf hv hn => ?_
    match i with
    | 0 => cases hf; cases hv; exact .scalar rfl
    | 1 => cases hf; cases hv; exact .nil
    | i + 2 => cases hf
  refine .struct ⟨0, _, _, rfl, rfl, fun h => by cases h.2⟩ fun i f v hf hv hn => ?_
  match i with
  | 0 => cases hf; cases hv; exact .scalar rfl
  | 1 =>
    cases hf
    cases hv
    refine .slice (by simp) fun v hv => ?_
    obtain rfl := List.mem_singleton.mp hv
    exact .ptr inner
  | i + 2 => cases hf

/-- The example is written and read back. -/
example : ∃ text, Marshals lib0 package (.struct 6) nested text ∧
    ∀ pools, History pools → Unmarshals Reader.lib0 lib0 package pools text (.struct 6) (.struct [.str [], .nil]) nested :=
  marshal_unmarshal_partial ⟨fun _ _ h => (by cases h), fun _ _ h => by cases h; exact ⟨by decide, rfl, rfl⟩⟩
    (fun _ h => h) package_legal rfl (by simp [GenCode.nested]) nested_fits nested_full
    (.struct rfl fun i f v hf hv => by
      match i with
      | 0 => cases hf; cases hv; exact .string
      | 1 => cases hf; cases hv; exact .slice
      | i + 2 => cases hf)

/-! #### Values which are not read back -/

/-- What is written and what is read, from a computation of both. -/
theorem changes {t : Ty} {z v v' : Val} (w : Value Node) (text : List Char) (n : Node) (k m : Nat)
    (hr : ∀ m ∈ raws w, m.type? ≠ some .stream) (h1 : encTop lib0 package t v = some (calls w))
    (h2 : (Writer.writeString Writer.newWriter (tree false w)).1 = .text text)
    (h3 : outcome m text = some ⟨n, []⟩)
    (h4 : ∀ f, decTop (yayamls Reader.lib0) lib0 package (f + 30) t z (Reader.begin false n) =
      .ok (v', stateOf (decTop (yayamls Reader.lib0) lib0 package 30 t z (Reader.begin false n)), k))
    (h5 : (stateOf (decTop (yayamls Reader.lib0) lib0 package 30 t z (Reader.begin false n))).reader.fatalError = none)
    (h6 : (stateOf (decTop (yayamls Reader.lib0) lib0 package 30 t z (Reader.begin false n))).reader.denyErrors = []) :
    Marshals lib0 package t v text ∧ Unmarshals Reader.lib0 lib0 package emptyPools text t z v' := by
  obtain ⟨a, g5, g6⟩ := Builder.builder_faithful false [] w hr
  refine ⟨⟨_, h1, fun o => ⟨fun ho => ?_, ?_⟩⟩, ?_⟩
  · cases ho with
    | error he =>
      rw [show Builder.newBuilder false = Builder.used false [] from rfl, g5] at he
      cases he
    | nilTree he =>
      rw [show Builder.newBuilder false = Builder.used false [] from rfl, g5] at he
      cases he
    | tree he hr =>
      rw [show Builder.newBuilder false = Builder.used false [] from rfl] at he hr
      rw [g5] at he
      cases he
      rw [Verif.Builder.Reads.det hr g6]
      exact h2
  · rintro rfl
    rw [← h2]
    exact .tree g5 g6
  · obtain ⟨pools', hc⟩ := conv_outcome h3
    refine ⟨n, pools', hc, _, k, ⟨30, fun f hf => ?_⟩, h5, h6⟩
    obtain ⟨g, rfl⟩ : ∃ g, f = g + 30 := ⟨f - 30, by omega⟩
    exact h4 g

/-- C39 fails: a line break in a string comes back as a backslash and the letter `n`, without an error. -/
theorem line_break_changed : Marshals lib0 package (.struct 1) (.struct [.str ['a', '\n', 'b']]) "\"A\": \"a\\nb\"\n".toList ∧
    Unmarshals Reader.lib0 lib0 package emptyPools "\"A\": \"a\\nb\"\n".toList (.struct 1) (.struct [.str []])
      (.struct [.str ['a', '\\', 'n', 'b']]) :=
  changes (.map (.cons (.scalar (.string ['A'])) (.scalar (.string ['a', '\n', 'b'])) .nil)) _
    (.mapping [.mappingEntry (.text ['A'] .double) (.text ['a', '\\', 'n', 'b'] .double)]) 1 30
    (fun _ h => nomatch h) rfl (by decide +kernel) (by krfl) (fun f => by krfl) (by krfl) (by krfl)

/-- C39 fails: an empty slice inside of a slice comes back as a nil slice, without an error. -/
theorem empty_item_nil : Marshals lib0 package (.slice (.slice .string)) (.slice [.slice []]) "- \n".toList ∧
    Unmarshals Reader.lib0 lib0 package emptyPools "- \n".toList (.slice (.slice .string)) .nil (.slice [.nil]) :=
  changes (.seq (.cons (.seq .nil) .nil)) _ (.sequence [.null]) 1 30
    (fun _ h => nomatch h) rfl (by decide +kernel) (by krfl) (fun f => by krfl) (by krfl) (by krfl)

/-- C39 fails: an empty slice is written as an empty document, which is refused. -/
theorem empty_document_refused : (Writer.writeString Writer.newWriter (tree false (.seq .nil))).1 = .text [] ∧
    encTop (ν := Node) lib0 package (.slice .string) (.slice []) = some (calls (.seq .nil)) ∧
    ∀ v, ¬ Unmarshals Reader.lib0 lib0 package emptyPools [] (.slice .string) .nil v := by
  refine ⟨by decide +kernel, rfl, ?_⟩
  rintro v ⟨n, pools', h1, s', k, h2, h3, -⟩
  obtain ⟨w, hc⟩ := conv_outcome (f := 10) (src := []) (o := ⟨.stream [], []⟩) (by krfl)
  have := h1.det hc
  simp only [Prod.mk.injEq, Outcome.mk.injEq, and_true] at this
  obtain ⟨rfl, -⟩ := this
  have h4 : Conv (fun f => decTop (yayamls Reader.lib0) lib0 package f (.slice .string) .nil (Reader.begin false (.stream [])))
      (.slice [], stateOf (decTop (yayamls Reader.lib0) lib0 package 30 (.slice .string) .nil (Reader.begin false (.stream []))),
        1) := by
    refine ⟨30, fun f hf => ?_⟩
    obtain ⟨g, rfl⟩ : ∃ g, f = g + 30 := ⟨f - 30, by omega⟩
    krfl
  have h5 := h2.det h4
  simp only [Prod.mk.injEq] at h5
  rw [h5.2.1] at h3
  have h6 : (stateOf (decTop (yayamls Reader.lib0) lib0 package 30 (.slice .string) .nil
    (Reader.begin false (.stream [])))).reader.fatalError = some .endOfStream := by krfl
  rw [h6] at h3
  cases h3

end Verif.Props.EndToEnd
