import Verif.Lemmas.Meaning
import Verif.Spec.Represents
import Verif.Props.GenCode
import Verif.Props.EndToEnd
import Verif.Props.Blocks

/-!
C60: generated decoders give documents the meaning of `Verif.Spec.Meaning`.
-/

set_option linter.unusedSimpArgs false

namespace Verif.Props.Meaning

open Verif.GenCode Verif.Decoder Verif.DecoderCursor Verif.Protocol Verif.Generic Verif.Ast
open Verif.Props.GenCode (yayamls goyaml yayamls_refines goyaml_refines lib0 package field)

/-! ### Trees -/

section Yayamls

open Verif.ReaderCursor

variable {lib : Generic.Lib} {multi : Bool} {anyOf : Node → Option GVal}

theorem unquoted_iff (q : Quoting) : (q == .unknown || q == .absent) = true ↔ Unquoted q := by
  cases q <;> simp [Unquoted] <;> decide

theorem nullText_iff (t : List Char) (q : Quoting) : nullText t q = true ↔ CoreSchema.NullText t ∧ Unquoted q := by
  rw [nullText, Bool.and_eq_true, unquoted_iff, Scalars.null_iff]

theorem properties_attr {p : Node} (h : Properties p) (hv : validNode p = true) : ∃ t a, p = .properties t a ∧ Attr p := by
  rcases h with rfl | rfl | ⟨t, a, rfl, ht, ha⟩
  · cases hv
  · cases hv
  · refine ⟨t, a, rfl, .properties (fun h => ?_) (fun h => ?_)⟩
    · rcases ht with rfl | rfl | ht
      · cases h
      · cases h
      · exact ht
    · rcases ha with rfl | rfl | ha
      · cases h
      · cases h
      · exact ha

theorem lands_self {n : Node} (h : ∀ e, layer e n = none) : Lands (view lib multi anyOf) n n := fun e _ => .value (h e)

theorem represents_valid {d : Doc} {n : Node} (h : Represents d n) : validNode n = true := by
  cases h <;> rfl

mutual
theorem represents_displays {d : Doc} {n : Node} (h : Represents d n) :
    Displays (view lib multi anyOf) d n ∧ Tree true n := by
  match h with
  | .null => exact ⟨.mk (lands_self fun _ => rfl) (.null rfl), .null rfl⟩
  | .nullText ht hq =>
    refine ⟨.mk (lands_self fun _ => rfl) (.null ?_), .text⟩
    simp [view, verdict, textIf, (nullText_iff _ _).mpr ⟨ht, hq⟩]
  | .scalar (t := t) (q := q) hn =>
    have hn : nullText t q = false := by
      rw [← Bool.not_eq_true, nullText_iff]
      exact hn
    refine ⟨.mk (lands_self fun _ => rfl) (.scalar (V := view lib multi anyOf) (n := .text t q) ?_ ?_ ?_ ?_ ?_), .text⟩
    · simp [view, verdict, textIf, hn]
    · simp [view, verdict, textIf, hn]
    · intro h; exact textIf_whole h
    · intro h; exact textIf_whole h
    · intro h; exact textIf_whole h
  | .seq hi =>
    have := items_display hi
    exact ⟨.mk (lands_self fun _ => rfl) (.seq rfl rfl this.1), .sequence this.2⟩
  | .map he =>
    have := entries_display he
    exact ⟨.mk (lands_self fun _ => rfl) (.map rfl rfl List.length_eq_zero_iff this.1), .mapping this.2⟩
  | .content hp hr =>
    have := represents_displays hr
    have hv := represents_valid hr
    cases this.1 with
    | mk hl hi =>
      exact ⟨.mk (fun e he => Reader.core_content (properties_attr hp) hv (hl e he)) hi, .content (properties_attr hp) this.2⟩
theorem items_display {ds : List Doc} {ns : List Node} (h : RepresentsItems ds ns) :
    DisplaysItems (view lib multi anyOf) ds ns ∧ ∀ n ∈ ns, Tree true n := by
  match h with
  | .nil => exact ⟨.nil, fun _ h => nomatch h⟩
  | .cons h1 h2 =>
    have h3 := represents_displays h1
    have h4 := items_display h2
    refine ⟨.cons h3.1 h4.1, fun e he => ?_⟩
    rcases List.mem_cons.mp he with rfl | he
    · exact h3.2
    · exact h4.2 e he
theorem entries_display {es : List (Doc × Doc)} {ns : List Node} (h : RepresentsEntries es ns) :
    DisplaysEntries (view lib multi anyOf) es ns ∧ ∀ n ∈ ns, Tree true n := by
  match h with
  | .nil => exact ⟨.nil, fun _ h => nomatch h⟩
  | .cons (a := a) (b := b) h0 h1 h2 =>
    have h3 := represents_displays h0
    have h4 := represents_displays h1
    have h5 := entries_display h2
    refine ⟨.entry (a := a) (b := b) (fun e he => ?_) h3.1 h4.1 h5.1, fun e he => ?_⟩
    · simp [view, layer, takesAll, he.1, he.2.1]
    · rcases List.mem_cons.mp he with rfl | he
      · exact .entry h3.2 h4.2
      · exact h5.2 e he
end

theorem root_displays {d : Doc} {n : Node} (h : Root d n) : Displays (view lib multi anyOf) d n ∧ Tree true n := by
  cases h with
  | tree h => exact represents_displays h
  | @stream n h =>
    have := represents_displays (lib := lib) (multi := multi) (anyOf := anyOf) h
    cases this.1 with
    | mk hl hi =>
      refine ⟨.mk (fun e he => .only (c := n) ?_ (hl e he)) hi, .stream fun e he => ?_⟩
      · simp [view, layer, takesAll, he.1, he.2.1]
      · obtain rfl := List.mem_singleton.mp he
        exact this.2

end Yayamls

section Goyaml

open Verif.GoyamlCursor Verif.GoyamlReader

variable {lib : RLib} {h : Goyaml.Heap} {multi : Bool} {anyOf : Nat → Option GVal}

mutual
theorem stores_displays {d : Doc} {n : Nat} (hs : Stores lib.nullTag h d n) :
    Displays (GoyamlCursor.view lib h multi anyOf) d n ∧ GoyamlCursor.Tree h n := by
  match hs with
  | .null hk hn => exact ⟨.mk (fun e _ => .value rfl) (.null (scalarIf_whole hk hn)), .scalar hk⟩
  | .scalar hk hn =>
    refine ⟨.mk (fun e _ => .value rfl) (.scalar (V := GoyamlCursor.view lib h multi anyOf) ?_ ?_ ?_ ?_ ?_), .scalar hk⟩
    · simp [GoyamlCursor.view, GoyamlCursor.verdict, scalarIf, hn]
    · exact scalarIf_whole hk (by simp [hn])
    · intro h; exact scalarIf_whole hk h
    · intro h; exact scalarIf_whole hk h
    · intro h; exact scalarIf_whole hk h
  | .seq hk hi =>
    have := items_stored hi
    refine ⟨.mk (fun e _ => .value rfl) (.seq ?_ ?_ ?_), .sequence hk this.2⟩
    · simp [GoyamlCursor.view, GoyamlCursor.verdict, scalarIf, hk]
    · simp [GoyamlCursor.view, GoyamlCursor.verdict, hk]
    · simpa [GoyamlCursor.view, hk] using this.1
  | .map hk he =>
    have := entries_stored he
    refine ⟨.mk (fun e _ => .value rfl) (.map ?_ ?_ ?_ ?_), .mapping hk this.2⟩
    · simp [GoyamlCursor.view, GoyamlCursor.verdict, scalarIf, hk]
    · simp [GoyamlCursor.view, GoyamlCursor.verdict, hk]
    · simp [GoyamlCursor.view, hk]
    · simpa [GoyamlCursor.view, hk] using this.1
theorem items_stored {ds : List Doc} {ns : List Nat} (hs : StoresItems lib.nullTag h ds ns) :
    DisplaysItems (GoyamlCursor.view lib h multi anyOf) ds ns ∧ ∀ n ∈ ns, GoyamlCursor.Tree h n := by
  match hs with
  | .nil => exact ⟨.nil, fun _ h => nomatch h⟩
  | .cons h1 h2 =>
    have h3 := stores_displays h1
    have h4 := items_stored h2
    refine ⟨.cons h3.1 h4.1, fun e he => ?_⟩
    rcases List.mem_cons.mp he with rfl | he
    · exact h3.2
    · exact h4.2 e he
theorem entries_stored {es : List (Doc × Doc)} {ns : List Nat} (hs : StoresEntries lib.nullTag h es ns) :
    DisplaysEntries (GoyamlCursor.view lib h multi anyOf) es ns ∧ ∀ n ∈ ns, GoyamlCursor.Tree h n := by
  match hs with
  | .nil => exact ⟨.nil, fun _ h => nomatch h⟩
  | .cons h0 h1 h2 =>
    have h3 := stores_displays h0
    have h4 := stores_displays h1
    have h5 := entries_stored h2
    refine ⟨.two h3.1 h4.1 h5.1, fun e he => ?_⟩
    rcases List.mem_cons.mp he with rfl | he
    · exact h3.2
    · rcases List.mem_cons.mp he with rfl | he
      · exact h4.2
      · exact h5.2 e he
end

end Goyaml

/-! ### The whole document -/

theorem decTop_means {σ N : Type} {E : Engine σ N} {V : View N} {R : σ → Cursor N → Prop} {M : Rules}
    {L : Verif.GenCode.Lib} {P : Package} {t : Ty} {v old : Val} {d : Doc} (hE : Refines E V R) (hV : Lawful V M)
    (hd : d ≠ .null) (hm : Means M L P t false old d v) {n : N} (hn : Displays V d n) {s : σ} (hs : R s (start n)) :
    ∃ s' k c', Conv (fun f => decTop E L P f t old s) (v, s', k) ∧ R s' c' ∧ c'.fatal = none ∧ c'.denied = [] := by
  cases hn with
  | mk hl hi =>
    have ha := near_value (k := 0) (lo := 0) (c := start n) (h := none) (ns := []) (fs := []) ⟨rfl, rfl, rfl, [], .nil, rfl⟩ hl
    obtain ⟨k', _, g⟩ := means_yields hE hV hm _ hi 0
    have hstruct : (∃ id, t = .struct id) ∨ ∀ id, t ≠ .struct id := by
      cases t <;> simp
    rcases hstruct with ⟨id, rfl⟩ | hstruct
    · obtain ⟨s1, c1, e1, r1, y1, d1⟩ := g s _ _ hs ha
      exact ⟨s1, k', c1, e1, r1, y1.fatal, d1⟩
    · have hdt : ∀ f, decTop E L P f t old s = (E.step f s .tryNull >>= fun p =>
          if toBool p.1 then .ok (old, p.2, 0) else dec E L P f t false old p.2 0) := by
        intro f
        cases t <;> first | rfl | exact absurd rfl (hstruct _)
      obtain ⟨s1, c1, e1, r1, a1, d1, -⟩ := near_probe hE hs ha (hi.solid hd)
      obtain ⟨s2, c2, e2, r2, y2, d2⟩ := g s1 c1 _ r1 a1
      refine ⟨s2, k', c2, Conv.congr hdt (Conv.bind e1 ?_), r2, y2.fatal, d2.trans d1⟩
      exact e2

theorem decTop_null {σ N : Type} {E : Engine σ N} {V : View N} {R : σ → Cursor N → Prop}
    {L : Verif.GenCode.Lib} {P : Package} {t : Ty} {old : Val} (hE : Refines E V R) (ht : ∀ id, t ≠ .struct id)
    {n : N} (hn : Displays V .null n) {s : σ} (hs : R s (start n)) :
    ∃ s' k c', Conv (fun f => decTop E L P f t old s) (old, s', k) ∧ R s' c' ∧ c'.fatal = none ∧ c'.denied = [] := by
  cases hn with
  | mk hl hi =>
    have ha := near_value (k := 0) (lo := 0) (c := start n) (h := none) (ns := []) (fs := []) ⟨rfl, rfl, rfl, [], .nil, rfl⟩ hl
    have hdt : ∀ f, decTop E L P f t old s = (E.step f s .tryNull >>= fun p =>
        if toBool p.1 then .ok (old, p.2, 0) else dec E L P f t false old p.2 0) := by
      intro f
      cases t <;> first | rfl | exact absurd rfl (ht _)
    cases hi with
    | null hv =>
      obtain ⟨s1, c1, e1, r1, a1, d1⟩ := near_null hE hs ha hv
      refine ⟨s1, 0, c1, Conv.congr hdt (Conv.bind e1 ?_), r1, a1.fatal, d1⟩
      exact Conv.pure _

/-- C60, yayamls.  Decoding a tree into a variable gives the variable the value the document means, and no error.
Missing: what is not in `Means` (nulls for structs and for scalars, more elements than an array has, repeated or
superfluous leading zeros of integers, unsigned integers with a sign), and aliases. -/
theorem decoder_meaning_yayamls_partial {lib : Generic.Lib} {M : Rules} (hM : ∀ t n, M.float t n = true → lib.toFloat t n = true)
    {L : Verif.GenCode.Lib} {P : Package} {t : Ty} {old v : Val} {d : Doc} {n : Node} (hn : Root d n) (hd : d ≠ .null)
    (hm : Means M L P t false old d v) :
    ∃ s' k, Conv (fun f => decTop (yayamls lib) L P f t old (Reader.begin false n)) (v, s', k) ∧
      s'.reader.fatalError = none ∧ s'.reader.denyErrors = [] := by
  obtain ⟨anyOf, hg⟩ := Reader.generic_exists lib
  have hE := yayamls_refines hg true false
  obtain ⟨h1, h2⟩ := root_displays (lib := lib) (multi := false) (anyOf := anyOf) hn
  obtain ⟨s', k, c', h6, ⟨r', hs', rfl, h7⟩, h8, h9⟩ := decTop_means hE ⟨fun n => by cases n <;> rfl, hM, fun _ => rfl⟩ hd hm h1
    (s := Reader.begin false n) ⟨_, [], rfl, Verif.Reader.rel_start h2 (fun _ => rfl)⟩
  exact ⟨_, k, h6, h7.fatal.trans h8, h7.denied.trans h9⟩

/-- C60, goyaml: the same.  Types with `UnmarshalText` are not allowed: after them, the rest of the document is lost
(`fields_after_text_lost`). -/
theorem decoder_meaning_goyaml_partial {lib : Verif.GoyamlReader.RLib} {M : Rules}
    (hM : ∀ t n, M.float t n = true → lib.toFloat t n = true) (hT : M.texts = false) {L : Verif.GenCode.Lib} {P : Package}
    {t : Ty} {old v : Val} {d : Doc} {h : Goyaml.Heap} {n : Nat} (hn : Stores lib.nullTag h d n) (hd : d ≠ .null)
    (hm : Means M L P t false old d v) (multi : Bool) :
    ∃ s' k, Conv (fun f => decTop (goyaml lib) L P f t old (GoyamlReader.begin h multi n)) (v, s', k) ∧
      s'.reader.fatalError = none ∧ s'.reader.denyErrors = [] := by
  obtain ⟨anyOf, hg⟩ := GoyamlReader.generic_exists lib h
  have hE := goyaml_refines hg multi
  obtain ⟨h1, h2⟩ := stores_displays (multi := multi) (anyOf := anyOf) hn
  obtain ⟨s', k, c', h6, ⟨_, _, rfl, h7⟩, h8, h9⟩ := decTop_means hE ⟨fun n => rfl, hM, fun h => by rw [hT] at h; cases h⟩ hd hm h1
    (s := GoyamlReader.begin h multi n) ⟨_, [], rfl, Verif.GoyamlReader.rel_start h2 multi⟩
  exact ⟨_, k, h6, h7.fatal.trans h8, h7.denied.trans h9⟩

/-- C60: a document which is null leaves a variable as it is, unless it is a struct. -/
theorem null_document_partial {lib : Generic.Lib} {L : Verif.GenCode.Lib} {P : Package} {t : Ty} (ht : ∀ id, t ≠ .struct id)
    (old : Val) {n : Node} (hn : Root .null n) :
    ∃ s' k, Conv (fun f => decTop (yayamls lib) L P f t old (Reader.begin false n)) (old, s', k) ∧
      s'.reader.fatalError = none ∧ s'.reader.denyErrors = [] := by
  obtain ⟨anyOf, hg⟩ := Reader.generic_exists lib
  have hE := yayamls_refines hg true false
  obtain ⟨h1, h2⟩ := root_displays (lib := lib) (multi := false) (anyOf := anyOf) hn
  obtain ⟨s', k, c', h6, ⟨r', hs', rfl, h7⟩, h8, h9⟩ := decTop_null (L := L) (P := P) (old := old) hE ht h1
    (s := Reader.begin false n) ⟨_, [], rfl, Verif.Reader.rel_start h2 (fun _ => rfl)⟩
  exact ⟨_, k, h6, h7.fatal.trans h8, h7.denied.trans h9⟩

/-! ### What follows from the meaning -/

section Spec

variable {M : Rules} {L : Verif.GenCode.Lib} {P : Package} {fs : List Field}

/-- One entry of a mapping. -/
inductive One (M : Rules) (L : Verif.GenCode.Lib) (P : Package) (fs : List Field) : List Val → Doc × Doc → List Val → Prop
  | keep {vs key d} : d = .null ∨ (P.disallowUnknownFields = false ∧ key ∉ fs.map Field.name ∧ d ≠ .null) →
      One M L P fs vs (.scalar key, d) vs
  | set {vs key i f old d v} : FieldAt fs key i f → vs[i]? = some old → d ≠ .null → Means M L P f.ty f.omitempty old d v →
      One M L P fs vs (.scalar key, d) (vs.set i v)

theorem fields_cons {vs vs' : List Val} {e : Doc × Doc} {es : List (Doc × Doc)} :
    MeansFields M L P fs vs (e :: es) vs' ↔ ∃ vs1, One M L P fs vs e vs1 ∧ MeansFields M L P fs vs1 es vs' := by
  constructor
  · intro h
    cases h with
    | null h => exact ⟨_, .keep (.inl rfl), h⟩
    | field h1 h2 h3 h4 h5 => exact ⟨_, .set h1 h2 h3 h4, h5⟩
    | unknown h1 h2 h3 h4 => exact ⟨_, .keep (.inr ⟨h1, h2, h3⟩), h4⟩
  · rintro ⟨vs1, h1, h2⟩
    cases h1 with
    | keep h =>
      rcases h with rfl | ⟨h3, h4, h5⟩
      · exact .null h2
      · exact .unknown h3 h4 h5 h2
    | set h3 h4 h5 h6 => exact .field h3 h4 h5 h6 h2

theorem one_swap {vs v1 v2 : List Val} {x y : Doc × Doc} (hne : x.1 ≠ y.1) (h1 : One M L P fs vs x v1) (h2 : One M L P fs v1 y v2) :
    ∃ v1', One M L P fs vs y v1' ∧ One M L P fs v1' x v2 := by
  cases h1 with
  | keep h => exact ⟨v2, h2, .keep h⟩
  | @set key i f old d v a1 a2 a3 a4 =>
    cases h2 with
    | keep h => exact ⟨vs, .keep h, .set a1 a2 a3 a4⟩
    | @set key' j g old' d' w b1 b2 b3 b4 =>
      have hij : i ≠ j := by
        rintro rfl
        have h1 := a1.1
        rw [b1.1] at h1
        cases h1
        have := a1.2.1
        rw [b1.2.1] at this
        exact hne (by rw [this])
      rw [List.getElem?_set_ne hij] at b2
      refine ⟨vs.set j w, .set b1 b2 b3 b4, ?_⟩
      rw [List.set_comm _ _ hij]
      exact .set a1 (by rw [List.getElem?_set_ne hij.symm]; exact a2) a3 a4

/-- C60: the order of the keys of a mapping does not matter for a struct, if no key is repeated. -/
theorem key_order_irrelevant {vs vs' : List Val} {es es' : List (Doc × Doc)} (hp : es.Perm es') (hk : (es.map Prod.fst).Nodup)
    (h : MeansFields M L P fs vs es vs') : MeansFields M L P fs vs es' vs' := by
  induction hp generalizing vs with
  | nil => exact h
  | cons x _ ih =>
    simp only [List.map_cons, List.nodup_cons] at hk
    rw [fields_cons] at h ⊢
    obtain ⟨vs1, h1, h2⟩ := h
    exact ⟨vs1, h1, ih hk.2 h2⟩
  | swap x y l =>
    simp only [List.map_cons, List.nodup_cons, List.mem_cons, not_or] at hk
    simp only [fields_cons] at h ⊢
    obtain ⟨v1, h1, v2, h2, h3⟩ := h
    obtain ⟨v1', h4, h5⟩ := one_swap hk.1.1 h1 h2
    exact ⟨v1', h4, v2, h5, h3⟩
  | trans p1 _ ih1 ih2 => exact ih2 ((p1.map Prod.fst).nodup_iff.mp hk) (ih1 hk h)

/-- C60: fields without a key in the document keep their values. -/
theorem missing_fields_kept {vs vs' : List Val} {es : List (Doc × Doc)} (h : MeansFields M L P fs vs es vs') (i : Nat) (f : Field)
    (hf : fs[i]? = some f) (hm : Doc.scalar f.name ∉ es.map Prod.fst) : vs'[i]? = vs[i]? := by
  induction es generalizing vs with
  | nil => cases h; rfl
  | cons e es ih =>
    simp only [List.map_cons, List.mem_cons, not_or] at hm
    rw [fields_cons] at h
    obtain ⟨vs1, h1, h2⟩ := h
    rw [ih h2 hm.2]
    cases h1 with
    | keep => rfl
    | @set _ j g _ _ _ a1 =>
      refine List.getElem?_set_ne ?_
      rintro rfl
      rw [a1.1] at hf
      cases hf
      exact hm.1 (by rw [a1.2.1])

/-- C60: a field whose key is in the document once has the value the document gives it. -/
theorem field_given {vs vs' : List Val} {es : List (Doc × Doc)} (h : MeansFields M L P fs vs es vs')
    (hk : (es.map Prod.fst).Nodup) {key : List Char} {d : Doc} (hd : (.scalar key, d) ∈ es) (hn : d ≠ .null) {i : Nat} {f : Field}
    (hf : FieldAt fs key i f) : ∃ old v, vs[i]? = some old ∧ Means M L P f.ty f.omitempty old d v ∧ vs'[i]? = some v := by
  obtain ⟨a, b, rfl⟩ := List.append_of_mem hd
  have hperm : (a ++ (Doc.scalar key, d) :: b).Perm ((Doc.scalar key, d) :: (a ++ b)) := List.perm_middle
  have h' := key_order_irrelevant hperm hk h
  have hk' := (hperm.map Prod.fst).nodup_iff.mp hk
  simp only [List.map_cons, List.nodup_cons] at hk'
  rw [fields_cons] at h'
  obtain ⟨vs1, h1, h2⟩ := h'
  have hm := missing_fields_kept h2 i f hf.1 (by rw [hf.2.1]; exact hk'.1)
  cases h1 with
  | keep h =>
    rcases h with h | ⟨_, h, _⟩
    · exact absurd h hn
    · exact absurd (List.mem_map.mpr ⟨f, List.mem_of_getElem? hf.1, hf.2.1⟩) h
  | @set _ j g old _ v a1 a2 _ a4 =>
    have hij : j = i := by
      rcases Nat.lt_trichotomy j i with h | h | h
      · exact absurd a1.2.1 (hf.2.2 j g h a1.1)
      · exact h
      · exact absurd hf.2.1 (a1.2.2 i f h hf.1)
    subst hij
    have h1 := a1.1
    rw [hf.1] at h1
    cases h1
    refine ⟨old, v, a2, a4, ?_⟩
    rw [hm, List.getElem?_set_self]
    exact (List.getElem?_eq_some_iff.mp a2).1

end Spec

/-! ### Every document is a tree -/

mutual
/-- A tree for a document. -/
def docTree : Doc → Node
  | .null => .null
  | .scalar t => .text t .double
  | .seq ds => .sequence (docTrees ds)
  | .map es => .mapping (docEntries es)
def docTrees : List Doc → List Node
  | [] => []
  | d :: ds => docTree d :: docTrees ds
def docEntries : List (Doc × Doc) → List Node
  | [] => []
  | (k, v) :: es => .mappingEntry (docTree k) (docTree v) :: docEntries es
end

mutual
theorem docTree_represents : ∀ d, Represents d (docTree d)
  | .null => by rw [docTree]; exact .null
  | .scalar t => by rw [docTree]; exact .scalar fun h => h.2
  | .seq ds => by rw [docTree]; exact .seq (docTrees_represent ds)
  | .map es => by rw [docTree]; exact .map (docEntries_represent es)
theorem docTrees_represent : ∀ ds, RepresentsItems ds (docTrees ds)
  | [] => by rw [docTrees]; exact .nil
  | d :: ds => by rw [docTrees]; exact .cons (docTree_represents d) (docTrees_represent ds)
theorem docEntries_represent : ∀ es, RepresentsEntries es (docEntries es)
  | [] => by rw [docEntries]; exact .nil
  | (k, v) :: es => by
    rw [docEntries]
    exact .cons (docTree_represents k) (docTree_represents v) (docEntries_represent es)
end

/-- C60: a document means one value at most. -/
theorem meaning_unique {M : Rules} {L : Verif.GenCode.Lib} {P : Package} {t : Ty} {old v w : Val} {d : Doc} (hd : d ≠ .null)
    (h1 : Means M L P t false old d v) (h2 : Means M L P t false old d w) : v = w := by
  have key := fun v (h : Means M L P t false old d v) => decoder_meaning_yayamls_partial
    (lib := { Reader.lib0 with toFloat := M.float }) (fun _ _ h => h) (.tree (docTree_represents d)) hd h
  obtain ⟨s1, k1, c1, _⟩ := key v h1
  obtain ⟨s2, k2, c2, _⟩ := key w h2
  exact congrArg Prod.fst (Conv.det c1 c2)

/-! ### Texts -/

open Verif.BlockText (tidy tidies absence)

theorem slot_absence {p : Node → Prop} {x : Node} (h : Slot p (absence x)) : Slot p x := by
  unfold absence at h
  split at h
  · exact .inr (.inl rfl)
  · exact h

theorem properties_tidy {x : Node} (h : Properties (tidy x)) : Properties x := by
  rcases h with h | h | ⟨t, a, h1, h2, h3⟩
  · cases x <;> simp [tidy] at h
    exact .inl rfl
  · cases x <;> simp [tidy] at h
    exact .inr (.inl (by rw [h]))
  · obtain ⟨t', a', rfl, rfl, rfl⟩ := Parser.tidy_properties h1
    exact .inr (.inr ⟨t', a', rfl, slot_absence h2, slot_absence h3⟩)

mutual
/-- Vacant places for tags and anchors do not matter. -/
theorem tidy_represents {d : Doc} {n m : Node} (h : Represents d n) (hm : tidy m = n) : Represents d m := by
  match h with
  | .null =>
    cases m <;> simp [tidy] at hm
    exact .null
  | .nullText ht hq => rw [Parser.tidy_text hm]; exact .nullText ht hq
  | .scalar hn => rw [Parser.tidy_text hm]; exact .scalar hn
  | .seq hi =>
    obtain ⟨es, rfl, h1⟩ := Parser.tidy_sequence hm
    exact .seq (tidies_represent hi h1)
  | .map he =>
    obtain ⟨es, rfl, h1⟩ := Parser.tidy_mapping hm
    exact .map (tidyEntries_represent he h1)
  | .content hp hr =>
    obtain ⟨p, c, rfl, h1, h2⟩ := Parser.tidy_content hm
    exact .content (properties_tidy (h1 ▸ hp)) (tidy_represents hr h2)
theorem tidies_represent {ds : List Doc} {ns ms : List Node} (h : RepresentsItems ds ns) (hm : tidies ms = ns) :
    RepresentsItems ds ms := by
  match h with
  | .nil =>
    cases ms
    · exact .nil
    · simp [tidies] at hm
  | .cons h1 h2 =>
    obtain ⟨x, xs, rfl, g1, g2⟩ := Parser.tidies_cons hm
    exact .cons (tidy_represents h1 g1) (tidies_represent h2 g2)
theorem tidyEntries_represent {es : List (Doc × Doc)} {ns ms : List Node} (h : RepresentsEntries es ns) (hm : tidies ms = ns) :
    RepresentsEntries es ms := by
  match h with
  | .nil =>
    cases ms
    · exact .nil
    · simp [tidies] at hm
  | .cons h0 h1 h2 =>
    obtain ⟨x, xs, rfl, g1, g2⟩ := Parser.tidies_cons hm
    obtain ⟨k, v, rfl, g3, g4⟩ := Parser.tidy_entry g1
    exact .cons (tidy_represents h0 g3) (tidy_represents h1 g4) (tidyEntries_represent h2 g2)
end

/-- C60, for texts: `UnmarshalYAML` reads the value which the document means from every text in block style for this document
(with any indentation, comments, blank lines, tags, anchors and quotes), whatever was parsed before.  Missing: other texts than
those of `Spec/BlockText.lean`, see C61. -/
theorem text_meaning_partial {lib : Generic.Lib} {M : Rules} (hM : ∀ t n, M.float t n = true → lib.toFloat t n = true)
    {L : Verif.GenCode.Lib} {P : Package} {t : Ty} {old v : Val} {d : Doc} {n : Node} (hn : Represents d n)
    (hd : d ≠ .null) (hm : Means M L P t false old d v) {text : List Char} (hl : BlockText.Stream text [n])
    (pools : Parser.Pools Lexer.Lexer) (hpools : Parser.History pools) :
    EndToEnd.Unmarshals lib L P pools text t old v := by
  obtain ⟨docs, h1, pools', h2⟩ := Blocks.block_text_read_partial text [n] hl pools hpools true
  obtain ⟨x, xs, rfl, g1, g2⟩ := Parser.tidies_cons h1
  obtain rfl : xs = [] := by cases xs <;> simp_all [tidies]
  exact ⟨_, pools', h2, decoder_meaning_yayamls_partial hM (.tree (tidy_represents hn g1)) hd hm⟩

/-! ### Examples -/

/-- `{C: [{N: y}, ~], Z: [1], N: x, N: ~}`, for the recursive type of `package`. -/
def doc : Doc := .map [(.scalar ['C'], .seq [.map [(.scalar ['N'], .scalar ['y'])], .null]),
  (.scalar ['Z'], .seq [.scalar ['1']]), (.scalar ['N'], .scalar ['x']), (.scalar ['N'], .null)]

/-- A tree for it, with an anchor and a tag. -/
def docNode : Node := .content (.properties (.tag ['t']) (.anchor ['a'])) (.mapping [
  .mappingEntry (.text ['C'] .single) (.sequence [.mapping [.mappingEntry (.text ['N'] .unknown) (.text ['y'] .unknown)],
    .text ['~'] .unknown]),
  .mappingEntry (.text ['Z'] .unknown) (.sequence [.text ['1'] .unknown]),
  .mappingEntry (.text ['N'] .unknown) (.text ['x'] .unknown), .mappingEntry (.text ['N'] .unknown) .null])

theorem docNode_represents : Represents doc docNode := by
  have s : ∀ c q, c ≠ '~' → Represents (.scalar [c]) (.text [c] q) := by
    intro c q hc
    refine .scalar fun h => ?_
    have h := h.1
    simp [CoreSchema.NullText] at h
    exact hc h
  refine .content (.inr (.inr ⟨_, _, rfl, .inr (.inr ⟨_, rfl⟩), .inr (.inr ⟨_, rfl⟩)⟩)) (.map ?_)
  refine .cons (s _ _ (by decide)) (.seq (.cons (.map (.cons (s _ _ (by decide)) (s _ _ (by decide)) .nil))
    (.cons (.nullText (by simp [CoreSchema.NullText]) trivial) .nil))) ?_
  exact .cons (s _ _ (by decide)) (.seq (.cons (s _ _ (by decide)) .nil)) (.cons (s _ _ (by decide)) (s _ _ (by decide))
    (.cons (s _ _ (by decide)) .null .nil))

theorem doc_means (old : List Char) (l : Val) : Means ⟨fun _ _ => false, true⟩ lib0 package (.struct 6) false (.struct [.str old, l]) doc
    (.struct [.str ['x'], .slice [.ptr (.struct [.str ['y'], .nil]), .nil]]) := by
  have fieldN : FieldAt (package.fields 6) ['N'] 0 (field 'N' .string false) := ⟨rfl, rfl, fun j g hj => by omega⟩
  have fieldC : FieldAt (package.fields 6) ['C'] 1 (field 'C' (.slice (.ptr (.struct 6))) true) := by
    refine ⟨rfl, rfl, fun j g hj hg => ?_⟩
    obtain rfl : j = 0 := by omega
    cases hg
    decide
  have zero : IsZero lib0 package (.struct 6) (.struct [.str [], .nil]) := .struct rfl fun i f v hf hv => by
    match i with
    | 0 => cases hf; cases hv; exact .string
    | 1 => cases hf; cases hv; exact .slice
    | i + 2 => cases hf
  refine .struct rfl (.field fieldC rfl (by simp) (.slice (zs := [.nil, .nil]) (by simp; exact .ptr)
    (.cons (.ptrNew (v := .struct [.str ['y'], .nil]) (by simp) zero (.struct rfl ?_)) (.cons .ptrNull .nil))) ?_)
  · exact .field fieldN rfl (by simp) .string .nil
  · exact .unknown rfl (by decide) (by simp) (.field fieldN rfl (by simp) .string (.null .nil))

/-- The theorem for this document. -/
example : ∃ s' k, Conv (fun f => decTop (yayamls Reader.lib0) lib0 package f (.struct 6) (.struct [.str ['o'], .nil])
      (Reader.begin false (.stream [docNode]))) (.struct [.str ['x'], .slice [.ptr (.struct [.str ['y'], .nil]), .nil]], s', k) ∧
    s'.reader.fatalError = none ∧ s'.reader.denyErrors = [] :=
  decoder_meaning_yayamls_partial (M := ⟨fun _ _ => false, true⟩) (fun _ _ h => nomatch h) (.stream docNode_represents)
    (by simp [doc]) (doc_means _ _)

/-- The theorem for this document, from a text with a comment and an anchor. -/
example (pools : Parser.Pools Lexer.Lexer) (hp : Parser.History pools) : EndToEnd.Unmarshals Reader.lib0 lib0 package pools
    "N: &a x # y\n".toList (.struct 6) (.struct [.str ['o'], .nil]) (.struct [.str ['x'], .nil]) := by
  have word : ∀ c : Char, c ∉ PlainTree.forbidden → c ∉ PlainTree.indicators → c ≠ ':' → [c] ∉ PlainTree.markers →
      PlainTree.Phrase [c] := fun c h1 h2 h3 h4 =>
    .word ⟨by simpa using h1, ⟨c, [], rfl, h2⟩, by simpa using h3, h4⟩
  have s : ∀ c q, c ≠ '~' → Represents (.scalar [c]) (.text [c] q) := by
    intro c q hc
    refine .scalar fun h => ?_
    have h := h.1
    simp [CoreSchema.NullText] at h
    exact hc h
  refine text_meaning_partial (M := ⟨fun _ _ => false, true⟩) (fun _ _ h => nomatch h)
    (d := .map [(.scalar ['N'], .scalar ['x'])])
    (n := .mapping [.mappingEntry (.text ['N'] .unknown) (.content (.properties .nil (.anchor ['a'])) (.text ['x'] .unknown))])
    (.map (.cons (s _ _ (by decide)) (.content (.inr (.inr ⟨_, _, rfl, .inl rfl, .inr (.inr ⟨_, rfl⟩)⟩)) (s _ _ (by decide))) .nil))
    (by simp) ?_ ?_ pools hp
  · exact .struct rfl (.field (i := 0) ⟨rfl, rfl, fun j g hj => absurd hj (Nat.not_lt_zero j)⟩ rfl (by simp) .string .nil)
  · exact .mk (z := false) (g := []) (u := "N: &a x # y\n".toList) .nil (by simp)
      (.implicit (z := false) (u := "N: &a x # y\n".toList) (v := [])
        (.block (m := 0) (.map (.last (i := 0) (k := ['N']) (u := " &a x # y\n".toList)
          (.scalar (.phrase (word 'N' (by decide) (by decide) (by decide) (by decide))))
          (.leaf (.props (u := [' ']) (v := ['&', 'a']) (u' := [' ']) (v' := ['x']) (w := " # y\n".toList) (.mid (i := 0))
            (.anchor ⟨by decide, 'a', [], rfl, by decide⟩) (.mid (i := 0))
            (.scalar (.phrase (word 'x' (by decide) (by decide) (by decide) (by decide))))
            (.line (i := 1) (u := "# y".toList) (g := []) (.remark (c := " y".toList) (by unfold BlockText.Remark; decide)) (.inl (by decide)) .nil))))))
        (by simp) .done)

/-- A map with a key twice: the last value counts, at the place of the first one. -/
example : Means ⟨fun _ _ => false, true⟩ lib0 package (.map .string .bytes) false .nil
    (.map [(.scalar ['a'], .scalar ['1']), (.scalar ['b'], .null), (.scalar ['a'], .scalar ['2'])])
    (.map [.entry (.str ['a']) (.bytes ['2']), .entry (.str ['b']) .nil]) := by
  refine .map (kvs := [(.str ['a'], .bytes ['1']), (.str ['b'], .nil), (.str ['a'], .bytes ['2'])])
    (ps := [(.str ['a'], .bytes ['2']), (.str ['b'], .nil)]) (by simp) ?_ ?_
  · exact .cons .string .bytes .string .bytes (.cons .string .bytes .string .bytesNull (.cons .string .bytes .string .bytes .nil))
  · exact assigned_put (k := .str ['a']) (v := .bytes ['2']) (kvs := [(.str ['a'], .bytes ['1']), (.str ['b'], .nil)])
      (ps := [(.str ['a'], .bytes ['1']), (.str ['b'], .nil)])
      (assigned_put (k := .str ['b']) (v := .nil) (kvs := [(.str ['a'], .bytes ['1'])]) (ps := [(.str ['a'], .bytes ['1'])])
        (assigned_put (k := .str ['a']) (v := .bytes ['1']) (kvs := []) (ps := []) ⟨.nil, fun k v => by simp [LastValue]⟩))

/-- A key which is no field is not refused if its value is null, although unknown fields are not allowed. -/
theorem unknown_null_accepted : ∃ s' k, Conv (fun f => decTop (yayamls Reader.lib0) lib0
      { package with disallowUnknownFields := true } f (.struct 1) (.struct [.str []])
      (Reader.begin false (.mapping [.mappingEntry (.text ['Z'] .unknown) .null]))) (.struct [.str []], s', k) ∧
    s'.reader.fatalError = none ∧ s'.reader.denyErrors = [] := by
  refine decoder_meaning_yayamls_partial (M := ⟨fun _ _ => false, true⟩) (fun _ _ h => nomatch h)
    (d := .map [(.scalar ['Z'], .null)]) (.tree (.map (.cons (.scalar ?_) .null .nil))) (by simp) (.struct rfl (.null .nil))
  intro h
  have h := h.1
  simp [CoreSchema.NullText] at h

end Verif.Props.Meaning
