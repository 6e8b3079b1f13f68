import Verif.Lemmas.GenShows
import Verif.Lemmas.GenTerm
import Verif.Lemmas.Krfl
import Verif.Props.Reader
import Verif.Props.GoyamlReader
import Verif.Props.Builder
import Verif.Props.GoyamlBuilder

/-!
Properties of generated code: C39, C40, C52 and C53.
-/

set_option linter.unusedSimpArgs false

namespace Verif.Props.GenCode

open Verif.GenCode Verif.Decoder Verif.DecoderCursor Verif.Protocol Verif.Generic Verif.Ast

/-- The decoder of the yayamls engine. -/
def yayamls (lib : Generic.Lib) : Engine Verif.Reader.Session Node := ⟨fun f s call => Verif.Reader.step lib f s call⟩

/-- The decoder of the goyaml engine. -/
def goyaml (lib : Verif.GoyamlReader.RLib) : Engine Verif.GoyamlReader.Session Nat :=
  ⟨fun f s call => Verif.GoyamlReader.step lib f s call⟩

theorem yayamls_refines {lib : Generic.Lib} {anyOf : Node → Option GVal} (hg : ReaderCursor.Generic lib anyOf)
    (nulls multi : Bool) : Refines (yayamls lib) (ReaderCursor.view lib multi anyOf)
      (fun s c => ∃ r hs, s = ⟨r, hs.map some⟩ ∧ Verif.Reader.Rel nulls multi r hs c) := by
  rintro s c call o c' ⟨r, hs, rfl, hr⟩ hst
  obtain ⟨r', hs', h1, h2⟩ := Verif.Reader.step_refines hg hr hst
  exact ⟨_, h1, r', hs', rfl, h2⟩

theorem goyaml_refines {lib : Verif.GoyamlReader.RLib} {h : Goyaml.Heap} {anyOf : Nat → Option GVal}
    (hg : GoyamlCursor.Generic lib h anyOf) (multi : Bool) : Refines (goyaml lib) (GoyamlCursor.view lib h multi anyOf)
      (fun s c => ∃ r hs, s = ⟨r, hs.map some⟩ ∧ Verif.GoyamlReader.Rel h multi r hs c) := by
  rintro s c call o c' ⟨r, hs, rfl, hr⟩ hst
  obtain ⟨r', hs', h1, h2⟩ := Verif.GoyamlReader.step_refines hg hr hst
  exact ⟨_, h1, r', hs', rfl, h2⟩

theorem decTop_gives {σ N : Type} {E : Engine σ N} {V : View N} {R : σ → Cursor N → Prop} {L : Verif.GenCode.Lib}
    {P : Package} {ν : Type} {t : Ty} {v z : Val} {w : Value ν} (hE : Refines E V R) (hg : Good E V R L P t false v w)
    (hz : IsZero L P t z) {n : N} (hn : Shows V w n) {s : σ} (hs : R s (start n)) :
    ∃ s' k c', Conv (fun f => decTop E L P f t z s) (v, s', k) ∧ R s' c' ∧ c'.fatal = none ∧ c'.denied = [] := by
  have ha : At V (start n) 0 n [(none, [])] := at_value (lo := 0) ⟨rfl, rfl, rfl, [], .nil, rfl⟩ hn.solid.layer
  obtain ⟨k', _, g⟩ := hg.gives n hn 0 z hz
  have hstruct : (∃ id, t = .struct id) ∨ ∀ id, t ≠ .struct id := by
    cases t <;> simp
  rcases hstruct with ⟨id, rfl⟩ | hstruct
  · obtain ⟨s1, c1, e1, r1, y1, d1⟩ := g s _ _ hs ha
    exact ⟨s1, k', c1, e1, r1, y1.fatal, d1⟩
  · have hd : ∀ f, decTop E L P f t z s = (E.step f s .tryNull >>= fun p =>
        if toBool p.1 then .ok (z, p.2, 0) else dec E L P f t false z p.2 0) := by
      intro f
      cases t <;> first | rfl | exact absurd rfl (hstruct _)
    by_cases hv : v = .nil
    · obtain rfl := hg.zero hv z hz
      subst hv
      obtain ⟨s1, c1, e1, r1, y1, d1⟩ := read_null hE hs ha (hn.null (hg.null.mpr rfl))
      refine ⟨s1, 0, c1, Conv.congr hd (Conv.bind e1 ?_), r1, y1.fatal, d1⟩
      exact Conv.pure _
    · obtain ⟨s1, c1, e1, r1, a1, d1⟩ := read_probe hE hs ha ((hg.solid hv hn).null rfl)
      obtain ⟨s2, c2, e2, r2, y2, d2⟩ := g s1 c1 _ r1 a1
      refine ⟨s2, k', c2, Conv.congr hd (Conv.bind e1 ?_), r2, y2.fatal, d2.trans d1⟩
      exact e2

/-! ### C39 -/

/-- Go types have zero values: no struct contains itself. -/
def Legal (L : Verif.GenCode.Lib) (P : Package) : Prop := ∀ t, ∃ z, IsZero L P t z

/-- The texts survive: unquoted strings are not null texts, floats are read from their texts. -/
structure Faithful (unquote : Bool) (toFloat : List Char → Nat → Bool) (X : Texts) (L : Verif.GenCode.Lib) : Prop where
  string : ∀ s, X.string s → unquote = true → Schema.isNull s = false
  float : ∀ n t, X.float n t → Schema.isFloat t = true ∧ toFloat t n = true ∧ L.toFloat (some t) = t

/-- C39, yayamls.  A value which fits its type is encoded; the builder makes a tree of it, without an error, whatever it
was used for before; the generated decoder, called for a variable with the zero value, reads exactly this value from the
tree, and reports no error.  Missing: values which do not fit (see `nil_pointee_lost`, `empty_slice_lost`,
`empty_map_lost`), types with `MarshalText`, and decoding into a variable which is not zero. -/
theorem roundtrip_yayamls_partial {lib : Generic.Lib} {L : Verif.GenCode.Lib} {P : Package} {X : Texts} {unquote : Bool}
    (hX : Faithful unquote lib.toFloat X L) (hP : Legal L P) {t : Ty} {v z : Val} (hv : Fits X L P t false v)
    (hz : IsZero L P t z) (earlier : List (Inserter.Call Node)) :
    ∃ cs a n, encTop L P t v = some cs ∧
      (Verif.Builder.result (Verif.Builder.run (Builder.used unquote earlier) cs)).1 = (some a, none) ∧
      Verif.Builder.Reads (Verif.Builder.run (Builder.used unquote earlier) cs).heap (fun _ => True) a n ∧
      ∃ s' k, Conv (fun f => decTop (yayamls lib) L P f t z (Reader.begin false n)) (v, s', k) ∧
        s'.reader.fatalError = none ∧ s'.reader.denyErrors = [] := by
  obtain ⟨anyOf, hg⟩ := Reader.generic_exists lib
  have hE := yayamls_refines hg true false
  obtain ⟨w, h1, h2, h3, -⟩ := fits_returns (ν := Node) hE ⟨fun n t h => (hX.float n t h).2⟩ hv hP true (.inl rfl)
  have hsh := tree_shows (lib := lib) (multi := false) (anyOf := anyOf) hX.string (fun n t h => (hX.float n t h).1) w h3
  obtain ⟨a, h4, h5⟩ := Builder.builder_faithful unquote earlier w (by rw [within_raws w h3]; simp)
  obtain ⟨s', k, c', h6, ⟨r', hs', rfl, h7⟩, h8, h9⟩ := decTop_gives hE h2 hz hsh.1
    (s := Reader.begin false (tree unquote w))
    ⟨_, [], rfl, Verif.Reader.rel_start hsh.2 (fun _ => rfl)⟩
  exact ⟨_, a, _, h1, h4, h5, _, k, h6, h7.fatal.trans h8, h7.denied.trans h9⟩

/-- C39, goyaml.  As `roundtrip_yayamls_partial`; the memory of the decoder holds the tree made by the builder at the
address `m`. -/
theorem roundtrip_goyaml_partial {lib : Verif.GoyamlReader.RLib} (hl : Tags lib) {L : Verif.GenCode.Lib} {P : Package}
    {X : Texts} {unquote : Bool} (hX : Faithful unquote lib.toFloat X L) (hP : Legal L P) {t : Ty} {v z : Val}
    (hv : Fits X L P t false v) (hz : IsZero L P t z) (multi : Bool)
    (earlier : List (Inserter.Call Verif.GoyamlBuilder.GNode)) :
    ∃ cs a n, encTop L P t v = some cs ∧
      (Verif.GoyamlBuilder.result (Verif.GoyamlBuilder.run (GoyamlBuilder.used unquote earlier) cs)).1 = (some a, none) ∧
      Verif.GoyamlBuilder.Reads (Verif.GoyamlBuilder.run (GoyamlBuilder.used unquote earlier) cs).heap (fun _ => True) a n ∧
      ∀ h m, Holds h m n → ∃ s' k, Conv (fun f => decTop (goyaml lib) L P f t z (GoyamlReader.begin h multi m)) (v, s', k) ∧
        s'.reader.fatalError = none ∧ s'.reader.denyErrors = [] := by
  have key : ∀ h : Goyaml.Heap, ∃ w : Value Verif.GoyamlBuilder.GNode, encTop L P t v = some (calls w) ∧
      ∀ m, Holds h m (gtree unquote w) →
      ∃ s' k, Conv (fun f => decTop (goyaml lib) L P f t z (GoyamlReader.begin h multi m)) (v, s', k) ∧
        s'.reader.fatalError = none ∧ s'.reader.denyErrors = [] := by
    intro h
    obtain ⟨anyOf, hg⟩ := GoyamlReader.generic_exists lib h
    have hE := goyaml_refines hg multi
    obtain ⟨w, h1, h2, h3, -⟩ := fits_returns (ν := Verif.GoyamlBuilder.GNode) hE ⟨fun n t h => (hX.float n t h).2⟩ hv hP true
      (.inl rfl)
    refine ⟨w, h1, fun m hm => ?_⟩
    have hsh := gtree_shows (multi := multi) (anyOf := anyOf) hl hX.string (fun n t h => (hX.float n t h).1) w h3 m hm
    obtain ⟨s', k, c', h6, ⟨_, _, rfl, h7⟩, h8, h9⟩ := decTop_gives hE h2 hz hsh.1
      (s := GoyamlReader.begin h multi m) ⟨_, [], rfl, Verif.GoyamlReader.rel_start hsh.2 multi⟩
    exact ⟨_, k, h6, h7.fatal.trans h8, h7.denied.trans h9⟩
  obtain ⟨w, h1, _⟩ := key (fun _ => {})
  obtain ⟨a, h4, h5⟩ := GoyamlBuilder.builder_faithful unquote earlier w
  refine ⟨calls w, a, _, h1, h4, h5, fun h m hm => ?_⟩
  obtain ⟨w', h1', h2'⟩ := key h
  have hw : calls w = calls w' := by
    rw [h1] at h1'
    exact Option.some.inj h1'
  obtain ⟨a', h4', h5'⟩ := GoyamlBuilder.builder_faithful unquote earlier w'
  rw [← hw] at h4' h5'
  have ha : a = a' := by
    rw [h4] at h4'
    simpa using h4'
  subst ha
  rw [Verif.GoyamlBuilder.Reads.det h5 h5'] at hm
  exact h2' m hm

/-- Floats are their texts, and there are two texts of zero. -/
def lib0 : Verif.GenCode.Lib where
  toFloat o := o.getD ['0']
  isZero t := t == ['0'] || t == ['-', '0']
  unmarshalText t := (t, none)
  zeroText := []

def field (name : Char) (ty : Ty) (omitempty : Bool) : Field := ⟨[name], ty, omitempty⟩

/-- Some structs. -/
def package : Package where
  fields
    | 0 => [field 'A' (.array 1 .string) false, field 'B' .string false]
    | 1 => [field 'A' .string false]
    | 2 => [field 'A' (.slice .string) true]
    | 3 => [field 'A' (.slice (.map .string .string)) true]
    | 4 => [field 'A' (.float 64) true]
    | 5 => [field 'a' .text false, field 'b' .string false]
    | 6 => [field 'N' .string false, field 'C' (.slice (.ptr (.struct 6))) true]
    | _ => []
  omitempty := false
  disallowUnknownFields := false

theorem package_legal : Legal lib0 package := by
  have nil : ∀ id, package.fields id = [] → ∃ z, IsZero lib0 package (.struct id) z := by
    intro id h
    exact ⟨.struct [], .struct (by rw [h]; rfl) (fun i f v hf => by rw [h] at hf; cases hf)⟩
  have one : ∀ id d z, package.fields id = [d] → IsZero lib0 package d.ty z →
      ∃ z, IsZero lib0 package (.struct id) z := by
    intro id d z h hz
    refine ⟨.struct [z], .struct (by rw [h]; rfl) (fun i f v hf hv => ?_)⟩
    rw [h] at hf
    match i with
    | 0 => cases hf; cases hv; exact hz
    | i + 1 => cases hf
  have two : ∀ id d e y z, package.fields id = [d, e] → IsZero lib0 package d.ty y → IsZero lib0 package e.ty z →
      ∃ z, IsZero lib0 package (.struct id) z := by
    intro id d e y z h hy hz
    refine ⟨.struct [y, z], .struct (by rw [h]; rfl) (fun i f v hf hv => ?_)⟩
    rw [h] at hf
    match i with
    | 0 => cases hf; cases hv; exact hy
    | 1 => cases hf; cases hv; exact hz
    | i + 2 => cases hf
  intro t
  induction t with
  | string => exact ⟨_, .string⟩
  | bool => exact ⟨_, .bool⟩
  | int => exact ⟨_, .int⟩
  | uint => exact ⟨_, .uint⟩
  | float => exact ⟨_, .float⟩
  | text => exact ⟨_, .text⟩
  | bytes => exact ⟨_, .bytes⟩
  | slice => exact ⟨_, .slice⟩
  | array n t ih =>
    obtain ⟨z, hz⟩ := ih
    exact ⟨_, .array hz⟩
  | ptr => exact ⟨_, .ptr⟩
  | map => exact ⟨_, .map⟩
  | struct id =>
    match id with
    | 0 => exact two 0 _ _ _ _ rfl (.array .string) .string
    | 1 => exact one 1 _ _ rfl .string
    | 2 => exact one 2 _ _ rfl .slice
    | 3 => exact one 3 _ _ rfl .slice
    | 4 => exact one 4 _ _ rfl .float
    | 5 => exact two 5 _ _ _ _ rfl .text .string
    | 6 => exact two 6 _ _ _ _ rfl .string .slice
    | id + 7 => exact nil _ rfl

/-- The texts of the examples. -/
def texts : Texts := ⟨fun s => Schema.isNull s = false, fun _ t => t = ['1', '.', '5']⟩

/-- `Node{N: "x", C: []*Node{{N: "y"}}}`, for a recursive type. -/
def nested : Val := .struct [.str ['x'], .slice [.ptr (.struct [.str ['y'], .nil])]]

theorem nested_fits : Fits texts lib0 package (.struct 6) false nested := by
  have names : ∀ f ∈ package.fields 6, texts.string f.name := by
    intro f hf
    simp [package, field] at hf
    rcases hf with rfl | rfl <;> rfl
  have inner : Fits texts lib0 package (.struct 6) true (.struct [.str ['y'], .nil]) := by
    refine .struct rfl (by decide) names ?_ ?_
    · intro i f v hf hv hn
      match i with
      | 0 => cases hf; cases hv; cases hn.2
      | 1 => cases hf; cases hv; exact .slice
      | i + 2 => cases hf
    · intro i f v hf hv hn
      match i with
      | 0 => cases hf; cases hv; exact .string rfl
      | 1 => cases hf; cases hv; exact .sliceNil
      | i + 2 => cases hf
  refine .struct rfl (by decide) names ?_ ?_
  · intro i f v hf hv hn
    match i with
    | 0 => cases hf; cases hv; cases hn.2
    | 1 => cases hf; cases hv; cases hn.2
    | i + 2 => cases hf
  · intro i f v hf hv hn
    match i with
    | 0 => cases hf; cases hv; exact .string rfl
    | 1 =>
      cases hf
      cases hv
      refine .slice fun v hv => ?_
      obtain rfl := List.mem_singleton.mp hv
      exact .ptr (by simp) inner
    | i + 2 => cases hf

/-- The example is read back. -/
example : ∃ cs a n, encTop lib0 package (.struct 6) nested = some cs ∧
      (Verif.Builder.result (Verif.Builder.run (Builder.used true []) cs)).1 = (some a, none) ∧
      Verif.Builder.Reads (Verif.Builder.run (Builder.used true []) cs).heap (fun _ => True) a n ∧
      ∃ s' k, Conv (fun f => decTop (yayamls Reader.lib0) lib0 package f (.struct 6) (.struct [.str [], .nil])
        (Reader.begin false n)) (nested, s', k) ∧ s'.reader.fatalError = none ∧ s'.reader.denyErrors = [] :=
  roundtrip_yayamls_partial ⟨fun _ h _ => h, fun _ _ h => by cases h; exact ⟨by decide, rfl, rfl⟩⟩ package_legal nested_fits
    (.struct rfl fun i f v hf hv => by
      match i with
      | 0 => cases hf; cases hv; exact .string
      | 1 => cases hf; cases hv; exact .slice
      | i + 2 => cases hf) []

/-- The null tag, for nodes with and without a tag. -/
def tagLib : Verif.GoyamlReader.RLib where
  toGLib := { GoyamlReader.lib0.toGLib with
    nullTag := fun c => if c.tag = [] then c.style != 2 && Schema.isNull c.value else c.tag == "!!null".toList }
  marshal := fun _ _ => none

/-- The assumption about tags can be met, and the example is read back by the goyaml engine as well. -/
example : Tags tagLib ∧ ∃ cs a n, encTop lib0 package (.struct 6) nested = some cs ∧
      (Verif.GoyamlBuilder.result (Verif.GoyamlBuilder.run (GoyamlBuilder.used true []) cs)).1 = (some a, none) ∧
      Verif.GoyamlBuilder.Reads (Verif.GoyamlBuilder.run (GoyamlBuilder.used true []) cs).heap (fun _ => True) a n ∧
      ∀ h m, Holds h m n → ∃ s' k, Conv (fun f => decTop (goyaml tagLib) lib0 package f (.struct 6) (.struct [.str [], .nil])
        (GoyamlReader.begin h false m)) (nested, s', k) ∧ s'.reader.fatalError = none ∧ s'.reader.denyErrors = [] := by
  have tags : Tags tagLib := by
    refine ⟨fun c _ h1 h2 => ?_, fun c _ h1 h2 h3 => ?_, fun c _ h => ?_⟩
    · simp [tagLib, h1, h2]
    · simp [tagLib, h1, h3]
    · simp only [tagLib, h]
      rfl
  refine ⟨tags, ?_⟩
  exact roundtrip_goyaml_partial tags ⟨fun _ h _ => h, fun _ _ h => by cases h; exact ⟨by decide, rfl, rfl⟩⟩ package_legal
    nested_fits (.struct rfl fun i f v hf hv => by
      match i with
      | 0 => cases hf; cases hv; exact .string
      | 1 => cases hf; cases hv; exact .slice
      | i + 2 => cases hf) false []

/-! #### Values which are not read back -/

/-- The result of a computation. -/
def stateOf {σ : Type} [Inhabited σ] (x : Res (Val × σ × Nat)) : σ :=
  match x with
  | .ok (_, s, _) => s
  | _ => default

instance : Inhabited Verif.Reader.Session := ⟨Reader.begin false .nil⟩
instance : Inhabited Verif.GoyamlReader.Session := ⟨GoyamlReader.begin (fun _ => {}) false 0⟩

/-- The value `v` is encoded without an error, and decoded without an error as `v'` (into a variable with the value
`z`). -/
def ReadAs (P : Package) (t : Ty) (z v v' : Val) : Prop :=
  ∃ cs a n, encTop lib0 P t v = some cs ∧
    (Verif.Builder.result (Verif.Builder.run (Builder.used true []) cs)).1 = (some a, none) ∧
    Verif.Builder.Reads (Verif.Builder.run (Builder.used true []) cs).heap (fun _ => True) a n ∧
    ∃ s' k, Conv (fun f => decTop (yayamls Reader.lib0) lib0 P f t z (Reader.begin false n)) (v', s', k) ∧
      s'.reader.fatalError = none ∧ s'.reader.denyErrors = []

theorem readAs_of {P : Package} {t : Ty} {z v v' : Val} (w : Value Node) (n : Node) (k : Nat)
    (hr : ∀ m ∈ raws w, m.type? ≠ some .stream) (h1 : encTop lib0 P t v = some (calls w)) (hn : tree true w = n)
    (h2 : ∀ f, decTop (yayamls Reader.lib0) lib0 P (f + 30) t z (Reader.begin false n) =
      .ok (v', stateOf (decTop (yayamls Reader.lib0) lib0 P 30 t z (Reader.begin false n)), k))
    (h3 : (stateOf (decTop (yayamls Reader.lib0) lib0 P 30 t z (Reader.begin false n))).reader.fatalError = none)
    (h4 : (stateOf (decTop (yayamls Reader.lib0) lib0 P 30 t z (Reader.begin false n))).reader.denyErrors = []) :
    ReadAs P t z v v' := by
  obtain ⟨a, h5, h6⟩ := Builder.builder_faithful true [] w hr
  subst hn
  refine ⟨_, a, _, h1, h5, h6, _, k, ⟨30, fun f hf => ?_⟩, h3, h4⟩
  obtain ⟨g, rfl⟩ : ∃ g, f = g + 30 := ⟨f - 30, by omega⟩
  exact h2 g

/-- C39 fails: a pointer to a nil pointer is read back as a nil pointer. -/
theorem nil_pointee_lost : ReadAs package (.slice (.ptr (.ptr .string))) .nil (.slice [.ptr .nil]) (.slice [.nil]) :=
  readAs_of (.seq (.cons (.scalar .null) .nil)) _ 1 (fun _ h => nomatch h) rfl rfl (fun f => by krfl) (by krfl) (by krfl)

/-- C39 fails: an empty slice in a field with `omitempty` is read back as a nil slice. -/
theorem empty_slice_lost : ReadAs package (.struct 2) (.struct [.nil]) (.struct [.slice []]) (.struct [.nil]) :=
  readAs_of (.map .nil) _ 1 (fun _ h => nomatch h) rfl rfl (fun f => by krfl) (by krfl) (by krfl)

/-- C39 fails: an empty map in a slice in a field with `omitempty` is written, but read back as a nil map. -/
theorem empty_map_lost : ReadAs package (.struct 3) (.struct [.nil]) (.struct [.slice [.map []]]) (.struct [.slice [.nil]]) :=
  readAs_of (.map (.cons (.scalar (.string ['A'])) (.seq (.cons (.map .nil) .nil)) .nil)) _ 3 (fun _ h => nomatch h) rfl rfl
    (fun f => by krfl) (by krfl) (by krfl)

/-- C39 fails: the float -0 in a field with `omitempty` is read back as 0. -/
theorem negative_zero_lost :
    ReadAs package (.struct 4) (.struct [.float ['0']]) (.struct [.float ['-', '0']]) (.struct [.float ['0']]) :=
  readAs_of (.map .nil) _ 1 (fun _ h => nomatch h) rfl rfl (fun f => by krfl) (by krfl) (by krfl)

/-- The graph of `{a: x, b: y}`. -/
def pair : Goyaml.Heap := fun a =>
  match a with
  | 0 => { kind := .mapping, content := [1, 2, 3, 4] }
  | 1 => { kind := .scalar, value := ['a'] }
  | 2 => { kind := .scalar, value := ['x'] }
  | 3 => { kind := .scalar, value := ['b'] }
  | 4 => { kind := .scalar, value := ['y'] }
  | _ => {}

/-- C39 fails for the goyaml engine and types with `UnmarshalText`: the generated `in.AddError(x.UnmarshalText(…))` is
called with nil, which empties the mapping, so that all later fields are lost, without an error. -/
theorem fields_after_text_lost : ∃ s' k,
    Conv (fun f => decTop (goyaml GoyamlReader.lib0) lib0 package f (.struct 5) (.struct [.text [], .str []])
      (GoyamlReader.begin pair false 0)) (.struct [.text ['x'], .str []], s', k) ∧
    s'.reader.fatalError = none ∧ s'.reader.denyErrors = [] := by
  refine ⟨stateOf (decTop (goyaml GoyamlReader.lib0) lib0 package 30 (.struct 5) (.struct [.text [], .str []])
      (GoyamlReader.begin pair false 0)), 1, ⟨30, fun f hf => ?_⟩, by krfl, by krfl⟩
  obtain ⟨g, rfl⟩ : ∃ g, f = g + 30 := ⟨f - 30, by omega⟩
  krfl

/-! ### C40 -/

/-- C40, for sequences which are not longer than the array: whatever follows in the document, the generated code reads
the sequence, fills the array with its elements, leaves the other elements of the array zero, and ends at what follows.
Missing: longer sequences, see `array_overflow`. -/
theorem array_consumes_partial {σ N : Type} {E : Engine σ N} {V : View N} {R : σ → Cursor N → Prop}
    {L : Verif.GenCode.Lib} {P : Package} {X : Texts} (hE : Refines E V R) (hX : Readable V X L) (hP : Legal L P) {t : Ty}
    {om : Bool} {vs : List Val} (hv : ∀ v ∈ vs, Fits X L P t om v) {len : Nat} (hl : vs.length ≤ len) {z : Val}
    (hz : IsZero L P t z) (ν : Type) :
    ∃ ws : Values ν, encItems L P t vs = some (callsValues ws) ∧ ∀ n, Shows V (.seq ws) n → ∀ k, ∃ k', k ≤ k' ∧
      ∀ s c rest, R s c → At V c k n rest → ∃ s' c',
        Conv (fun f => dec E L P f (.array len t) om (.array (List.replicate len z)) s k)
          (.array (vs ++ List.replicate (len - vs.length) z), s', k') ∧
        R s' c' ∧ Ready c' k' k rest ∧ c'.denied = c.denied := by
  obtain ⟨ws, h1, h2, _⟩ := items_returns (ν := ν) vs fun v hm => fits_returns hE hX (hv v hm) hP
  refine ⟨ws, h1, fun n hn k => ?_⟩
  cases hn with
  | seq hsolid hv hitems =>
    obtain ⟨k', hk', g⟩ := array_good hE hz h2 _ hitems len k (k + 1) len [] (Nat.lt_succ_self k) hl (by simpa using hl)
    refine ⟨k', by omega, fun s c rest hs ha => ?_⟩
    obtain ⟨s1, c1, e1, r1, a1, d1⟩ := read_probe hE hs ha (hsolid.null rfl)
    obtain ⟨s2, c2, e2, r2, y2, d2⟩ := read_open hE r1 a1 (call := .sequence) rfl ⟨by decide, by decide, by decide⟩ hv
    obtain ⟨s3, c3, e3, r3, y3, d3⟩ := g s2 c2 rest r2 y2
    refine ⟨s3, c3, Conv.succ (fun f => by rw [dec]) (Conv.bind e1 (Conv.bind e2 (Conv.bind e3 ?_))), r3,
      ready_close y3, d3.trans (d2.trans d1)⟩
    exact Conv.pure _

/-- `[]string{"x"}` is encoded for an array of two strings; the second one stays empty. -/
example {σ N : Type} {E : Engine σ N} {V : View N} {R : σ → Cursor N → Prop} (hE : Refines E V R)
    (hX : Readable V texts lib0) := array_consumes_partial hE hX package_legal (t := .string) (om := false) (vs := [.str ['x']])
      (len := 2) (fun v hv => by obtain rfl := List.mem_singleton.mp hv; exact .string rfl) (by decide) .string Node

/-- The computation ends, without an error, with the value `v`. -/
def Yields (t : Ty) (z : Val) (n : Node) (v : Val) : Prop :=
  ∃ s' k, Conv (fun f => decTop (yayamls Reader.lib0) lib0 package f t z (Reader.begin false n)) (v, s', k) ∧
    s'.reader.fatalError = none ∧ s'.reader.denyErrors = []

open Reader (plain)

/-- C40 fails: `{A: [x, B], B: y}` is decoded for `struct{A [1]string; B string}` without an error, but the second
element of the sequence is taken for a key, and the key after it for a value: `B` gets the value `"B"`. -/
theorem array_overflow : Yields (.struct 0) (.struct [.array [.str []], .str []])
    (.mapping [.mappingEntry (plain ['A']) (.sequence [plain ['x'], plain ['B']]), .mappingEntry (plain ['B']) (plain ['y'])])
    (.struct [.array [.str ['x']], .str ['B']]) := by
  refine ⟨stateOf (decTop (yayamls Reader.lib0) lib0 package 30 (.struct 0) (.struct [.array [.str []], .str []])
    (Reader.begin false (.mapping [.mappingEntry (plain ['A']) (.sequence [plain ['x'], plain ['B']]),
      .mappingEntry (plain ['B']) (plain ['y'])]))), 2, ⟨30, fun f hf => ?_⟩, by krfl, by krfl⟩
  obtain ⟨g, rfl⟩ : ∃ g, f = g + 30 := ⟨f - 30, by omega⟩
  krfl

/-! ### C52 -/

/-- C52 fails: `[null, {A: x}]` is decoded as a slice with one struct.  The code generated for structs goes on after a
null, and reads the next value of the document. -/
theorem struct_null_swallows : Yields (.slice (.struct 1)) .nil
    (.sequence [.null, .mapping [.mappingEntry (plain ['A']) (plain ['x'])]]) (.slice [.struct [.str ['x']]]) := by
  refine ⟨stateOf (decTop (yayamls Reader.lib0) lib0 package 30 (.slice (.struct 1)) .nil
    (Reader.begin false (.sequence [.null, .mapping [.mappingEntry (plain ['A']) (plain ['x'])]]))), 2,
      ⟨30, fun f hf => ?_⟩, by krfl, by krfl⟩
  obtain ⟨g, rfl⟩ : ∃ g, f = g + 30 := ⟨f - 30, by omega⟩
  krfl

/-- C52 fails: a document which is a null cannot be decoded as a struct. -/
theorem struct_null_refused : ∃ v s' k, Conv (fun f => decTop (yayamls Reader.lib0) lib0 package f (.struct 1) (.struct [.str []])
    (Reader.begin false .null)) (v, s', k) ∧ s'.reader.fatalError = some .endOfStream := by
  refine ⟨.struct [.str []], stateOf (decTop (yayamls Reader.lib0) lib0 package 30 (.struct 1) (.struct [.str []])
    (Reader.begin false .null)), 1, ⟨30, fun f hf => ?_⟩, by krfl⟩
  obtain ⟨g, rfl⟩ : ∃ g, f = g + 30 := ⟨f - 30, by omega⟩
  krfl

/-- The types for which generated code reads a null as the zero value. -/
def nilable : Ty → Bool
  | .bytes | .slice _ | .ptr _ | .map _ _ | .array _ _ => true
  | _ => false

/-- C52, for all types but structs (and scalars, which refuse nulls): a null is read, whatever follows in the document,
as the zero value, and nothing else is.  Missing: structs, see `struct_null_swallows`. -/
theorem null_reads_zero_partial {σ N : Type} {E : Engine σ N} {V : View N} {R : σ → Cursor N → Prop}
    {L : Verif.GenCode.Lib} {P : Package} (hE : Refines E V R) {t : Ty} (ht : nilable t = true) {z : Val}
    (hz : IsZero L P t z) (om : Bool) {n : N} (hn : V.verdict .null n = .whole) (k : Nat) {s : σ} {c : Cursor N}
    {rest : List (Frame N)} (hs : R s c) (ha : At V c k n rest) :
    ∃ s' c', Conv (fun f => dec E L P f t om z s k) (z, s', k) ∧ R s' c' ∧ Ready c' k k rest ∧ c'.denied = c.denied := by
  obtain ⟨s', c', h1, h2, h3, h4⟩ := read_null hE hs ha hn
  refine ⟨s', c', ?_, h2, h3, h4⟩
  cases hz <;> first | (cases ht; done) | exact Conv.succ (fun f => by rw [dec]) (Conv.bind h1 (Conv.pure _))

/-- A document which is a null, read as a slice. -/
example (anyOf : Node → Option GVal) (hg : ReaderCursor.Generic Reader.lib0 anyOf) :=
  null_reads_zero_partial (L := lib0) (P := package) (t := .slice .string) (yayamls_refines hg true false) rfl .slice false
    (n := .null) rfl 0 ⟨_, [], rfl, Verif.Reader.rel_start (.null rfl) (fun _ => rfl)⟩
    (at_value (lo := 0) ⟨rfl, rfl, rfl, [], .nil, rfl⟩ (fun _ _ => rfl))

/-! ### C53 -/

theorem goyaml_ends {lib : Verif.GoyamlReader.RLib} {h : Goyaml.Heap} {anyOf : Nat → Option GVal}
    (hg : GoyamlCursor.Generic lib h anyOf) : Ends (goyaml lib) (GoyamlCursor.view lib h false anyOf)
      (fun s c => ∃ r hs, s = ⟨r, hs.map some⟩ ∧ Verif.GoyamlReader.Rel h false r hs c) (GoyamlCursor.Tree h) (GoyamlReader.weight h) where
  refines := goyaml_refines hg false
  weight := GoyamlReader.weight_spec lib h false anyOf
  multi := rfl
  drains := rfl
  size n hn := by
    have : (h n).content = [] := List.length_eq_zero_iff.mp hn
    simp [GoyamlCursor.view, this]
  opens e n hv call he := by
    have h0 : ∀ b, GoyamlCursor.scalarIf (h n) b ≠ .opens := by
      intro b
      rw [GoyamlCursor.scalarIf]
      split <;> simp
    cases call <;> first | rfl | (cases he; exact absurd hv (h0 _)) | (cases he; cases hv) | cases he
  next := GoyamlReader.next_exists

/-- C53, goyaml.  Generated code ends for every document without aliases, every type and every variable, whatever the
document contains, and does not panic.  (Without multiple errors.) -/
theorem decoder_ends_partial {lib : Verif.GoyamlReader.RLib} {L : Verif.GenCode.Lib} {P : Package} (hP : Legal L P)
    {h : Goyaml.Heap} {n : Nat} (ht : GoyamlCursor.Tree h n) (t : Ty) (old : Val) :
    ∃ v s' k, Conv (fun f => decTop (goyaml lib) L P f t old (GoyamlReader.begin h false n)) (v, s', k) := by
  obtain ⟨anyOf, hg⟩ := GoyamlReader.generic_exists lib h
  have hE := goyaml_ends (lib := lib) hg
  have hs : Ok (GoyamlCursor.view lib h false anyOf) (fun s c => ∃ r hs, s = ⟨r, hs.map some⟩ ∧ Verif.GoyamlReader.Rel h false r hs c)
      (GoyamlCursor.Tree h) (GoyamlReader.weight h) (GoyamlReader.begin h false n) 0
      (pot (GoyamlReader.weight h) (start n)) := by
    refine ⟨start n, ⟨_, [], rfl, Verif.GoyamlReader.rel_start ht false⟩, ⟨⟨?_, nofun, fun _ h => nomatch h⟩, rfl, ?_, nofun⟩, Nat.le_refl _⟩
    · intro f hf m hm
      simp [start] at hf
      subst hf
      obtain rfl := List.mem_singleton.mp hm
      exact ht
    · intro f hf x hx
      simp [start] at hf
      subst hf
      cases hx
  have hd : ∀ p s, Ok (GoyamlCursor.view lib h false anyOf) (fun s c => ∃ r hs, s = ⟨r, hs.map some⟩ ∧ Verif.GoyamlReader.Rel h false r hs c)
      (GoyamlCursor.Tree h) (GoyamlReader.weight h) s 0 p →
      ∃ v s' k, Conv (fun f => dec (goyaml lib) L P f t false old s 0) (v, s', k) := by
    intro p s hs
    obtain ⟨v, s', k, h1, _⟩ := done_all hE hP p t false old s 0 p (Nat.le_refl _) hs
    exact ⟨v, s', k, h1⟩
  have hstruct : (∃ id, t = .struct id) ∨ ∀ id, t ≠ .struct id := by
    cases t <;> simp
  rcases hstruct with ⟨id, rfl⟩ | hstruct
  · exact hd _ _ hs
  · obtain ⟨o, s1, h1, h2, _⟩ := call_ends hE .tryNull hs
    obtain ⟨v, s2, k, h3⟩ := hd _ s1 h2
    have hdt : ∀ f, decTop (goyaml lib) L P f t old (GoyamlReader.begin h false n) =
        ((goyaml lib).step f (GoyamlReader.begin h false n) .tryNull >>= fun p =>
          if toBool p.1 then .ok (old, p.2, 0) else dec (goyaml lib) L P f t false old p.2 0) := by
      intro f
      cases t <;> first | rfl | exact absurd rfl (hstruct _)
    cases hb : toBool o with
    | true =>
      refine ⟨old, s1, 0, Conv.congr hdt (Conv.bind h1 ?_)⟩
      simp only [hb, if_true]
      exact Conv.pure _
    | false =>
      refine ⟨v, s2, k, Conv.congr hdt (Conv.bind h1 ?_)⟩
      simp only [hb]
      exact h3

example : ∃ v s' k, Conv (fun f => decTop (goyaml GoyamlReader.lib0) lib0 package f (.struct 6) .nil
    (GoyamlReader.begin GoyamlReader.sample false 0)) (v, s', k) :=
  decoder_ends_partial package_legal GoyamlReader.sample_tree _ _

/-- The state of the decoder in `decoder_runs_forever`, after `TryNull`. -/
def probed : Verif.Reader.Session where
  reader :=
    { iters := [[plain ['x'], plain ['y']]], route := [{ result := ⟨.deny, false⟩, node := Reader.list, iter := some 0 }],
      expecter := .null, last := ⟨.deny, false⟩ }
  handles := []

/-- After `Sequence`. -/
def opened : Verif.Reader.Session where
  reader :=
    { iters := [[plain ['x'], plain ['y']]], route := [{ result := ⟨.match_, true⟩, node := Reader.list, iter := some 0 }],
      expecter := .sequence, last := ⟨.match_, true⟩, extractedState := some (some (2, 0)) }
  handles := [some (some (2, 0))]

/-- After `Integer`. -/
def stuck : Verif.Reader.Session where
  reader :=
    { iters := [[plain ['y']]],
      route := [{ result := ⟨.deny, false⟩, node := plain ['x'], iter := none },
        { result := ⟨.cont, false⟩, node := Reader.list, iter := some 0 }],
      expecter := .integer, last := ⟨.deny, false⟩, extractedState := some (some (2, 0)),
      fatalError := some (.deny .integer) }
  handles := [some (some (2, 0))]

def isTimeout {α : Type} : Res α → Bool
  | .timeout => true
  | _ => false

theorem isTimeout_iff {α : Type} {x : Res α} (h : isTimeout x = true) : x = .timeout := by
  cases x <;> first | rfl | cases h

/-- C53 fails for the yayamls engine: the generated code for `[]int64` never ends for the document `[x, y]` (and its slice
grows without bound). -/
theorem decoder_runs_forever : Diverges (fun f => decTop (yayamls Reader.lib0) lib0 package f (.slice (.int 64)) .nil
    (Reader.begin false Reader.list)) := by
  have loop : ∀ f acc, decItems (yayamls Reader.lib0) lib0 package f (.int 64) false 0 acc stuck 1 = .timeout := by
    intro f
    induction f with
    | zero => intro acc; rfl
    | succ f ih =>
      intro acc
      rw [decItems]
      have h1 : (yayamls Reader.lib0).step f stuck (.hasItems 0) = .ok (.bool true, stuck) := rfl
      rw [h1]
      simp only [Res.bind_ok, Verif.GenCode.toBool, if_true]
      cases f with
      | zero => rfl
      | succ f =>
        have h2 : (yayamls Reader.lib0).step f stuck (.integer 64) = .ok (.int 0, stuck) := rfl
        rw [zero]
        simp only [Res.bind_ok]
        rw [dec, h2]
        exact ih _
  have small : ∀ f, f < 12 → isTimeout (decTop (yayamls Reader.lib0) lib0 package f (.slice (.int 64)) .nil
      (Reader.begin false Reader.list)) = true := by decide +kernel
  intro f
  by_cases hf : f < 12
  · exact isTimeout_iff (small f hf)
  · obtain ⟨g, rfl⟩ : ∃ g, f = g + 12 := ⟨f - 12, by omega⟩
    have h1 : ∀ f, (yayamls Reader.lib0).step (f + 5) (Reader.begin false Reader.list) .tryNull = .ok (.bool false, probed) := by
      intro f; krfl
    have h2 : ∀ f, (yayamls Reader.lib0).step (f + 5) probed .tryNull = .ok (.bool false, probed) := by intro f; krfl
    have h3 : ∀ f, (yayamls Reader.lib0).step (f + 5) probed .sequence = .ok (.coll 2, opened) := by intro f; krfl
    have h4 : ∀ f, (yayamls Reader.lib0).step f opened (.hasItems 0) = .ok (.bool true, opened) := by intro f; krfl
    have h5 : ∀ f, (yayamls Reader.lib0).step (f + 5) opened (.integer 64) = .ok (.int 0, stuck) := by intro f; krfl
    show decTop _ _ _ _ _ _ _ = _
    simp only [decTop]
    rw [h1 (g + 7)]
    simp only [Res.bind_ok, Verif.GenCode.toBool, Bool.false_eq_true, if_false]
    rw [dec, h2 (g + 6)]
    simp only [Res.bind_ok, Verif.GenCode.toBool, Bool.false_eq_true, if_false]
    rw [h3 (g + 6)]
    simp only [Res.bind_ok]
    rw [decItems, h4]
    simp only [Res.bind_ok, Verif.GenCode.toBool, if_true]
    rw [zero]
    simp only [Res.bind_ok]
    rw [dec, h5 (g + 4)]
    simp only [Res.bind_ok]
    rw [loop]
    rfl

end Verif.Props.GenCode
