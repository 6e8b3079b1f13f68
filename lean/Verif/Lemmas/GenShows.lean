import Verif.Lemmas.GenCode
import Verif.Spec.ReaderCursor
import Verif.Spec.GoyamlCursor
import Verif.Spec.GenGraph

/-!
The trees made by the builders of both engines show the inserted values.
-/

namespace Verif.GenCode

open Verif.Decoder Verif.DecoderCursor Verif.Protocol Verif.Generic

theorem not_null_of_number {t : List Char} (h : (Schema.isInteger t || Schema.isUnsignedInteger t || Schema.isFloat t) = true) :
    Schema.isNull t = false := by
  have hd := Props.Scalars.classes_disjoint t
  revert hd
  simp only [Props.Scalars.classes, h, List.countP_cons, List.countP_nil]
  cases Schema.isNull t <;> cases Schema.isBoolean t <;> cases decide (t = Schema.mergeKey) <;> simp

theorem bool_text (b : Bool) : Schema.isBoolean (Schema.fromBoolean b) = true ∧ Schema.isNull (Schema.fromBoolean b) = false := by
  cases b <;> decide +kernel

/-! ### yayamls -/

section Yayamls

open Verif.Ast Verif.ReaderCursor

variable {lib : Generic.Lib} {multi : Bool} {anyOf : Node → Option GVal} {X : Texts} {unquote : Bool}

theorem text_solid {t : List Char} {q : Quoting} (h : nullText t q = false) :
    Solid (view lib multi anyOf) (.text t q) false :=
  ⟨fun _ _ => rfl, fun _ => by simp [view, verdict, h, textIf]⟩

theorem textIf_whole {p : Bool} (h : p = true) : textIf p = .whole := by simp [textIf, h]

theorem nullText_plain {t : List Char} {q : Quoting} (h : Schema.isNull t = false) : nullText t q = false := by
  simp [nullText, h]

theorem scalar_shows (hs : ∀ s, X.string s → unquote = true → Schema.isNull s = false)
    (hf : ∀ n t, X.float n t → Schema.isFloat t = true) {x : Inserter.Scalar} (hx : X.scalar x) :
    Solid (view lib multi anyOf) (scalarTree unquote x) (x = .null) ∧
      ShowsScalar (view lib multi anyOf) (scalarTree unquote x) x := by
  cases x with
  | integer v =>
    have h := (Props.Scalars.integer_roundtrip v 64).1
    exact ⟨text_solid (nullText_plain (not_null_of_number (by simp [h]))), textIf_whole h, rfl⟩
  | unsigned v =>
    have h : Schema.isInteger (Schema.fromUnsignedInteger v) = true := (Props.Scalars.integer_roundtrip (.ofNat v) 64).1
    exact ⟨text_solid (nullText_plain (not_null_of_number (by simp [h]))), textIf_whole h, rfl⟩
  | boolean b => exact ⟨text_solid (nullText_plain (bool_text b).2), textIf_whole (bool_text b).1, rfl⟩
  | float t =>
    obtain ⟨n, hn⟩ := hx
    have h := hf n t hn
    exact ⟨text_solid (nullText_plain (not_null_of_number (by simp [h]))), textIf_whole h, rfl⟩
  | string s =>
    have h : nullText s (if unquote ∧ '\n' ∉ s then .absent else .double) = false := by
      by_cases hu : unquote = true
      · exact nullText_plain (hs s hx hu)
      · simp [hu, nullText]
    exact ⟨text_solid h, textIf_whole (by simp [h]), rfl⟩
  | timestamp t => exact absurd hx id
  | null => exact ⟨⟨fun _ _ => rfl, by simp⟩, rfl⟩

mutual
theorem tree_shows (hs : ∀ s, X.string s → unquote = true → Schema.isNull s = false)
    (hf : ∀ n t, X.float n t → Schema.isFloat t = true) : ∀ (w : Value Node), Within X w →
    Shows (view lib multi anyOf) w (tree unquote w) ∧ Tree true (tree unquote w)
  | .scalar x, hw => by
    have h := scalar_shows (lib := lib) (multi := multi) (anyOf := anyOf) hs hf (x := x) hw
    exact ⟨.scalar h.1 h.2, by cases x <;> first | exact .text | exact .null rfl⟩
  | .seq vs, hw => by
    have h := trees_show hs hf vs hw
    exact ⟨.seq ⟨fun _ _ => rfl, fun _ => rfl⟩ rfl h.1, .sequence h.2⟩
  | .map es, hw => by
    have h := entryTrees_show hs hf es hw
    exact ⟨.map ⟨fun _ _ => rfl, fun _ => rfl⟩ rfl (fun h => List.length_eq_zero_iff.mp h) h.1, .mapping h.2⟩
  | .raw _, hw => absurd hw id
theorem trees_show (hs : ∀ s, X.string s → unquote = true → Schema.isNull s = false)
    (hf : ∀ n t, X.float n t → Schema.isFloat t = true) : ∀ (ws : Values Node), WithinItems X ws →
    ShowsItems (view lib multi anyOf) ws (trees unquote ws) ∧ ∀ e ∈ trees unquote ws, Tree true e
  | .nil, _ => ⟨.nil, fun _ h => nomatch h⟩
  | .cons w ws, hw => by
    have h1 := tree_shows hs hf w hw.1
    have h2 := trees_show hs hf ws hw.2
    refine ⟨.cons h1.1 h2.1, fun e he => ?_⟩
    rcases List.mem_cons.mp he with rfl | he
    · exact h1.2
    · exact h2.2 e he
theorem entryTrees_show (hs : ∀ s, X.string s → unquote = true → Schema.isNull s = false)
    (hf : ∀ n t, X.float n t → Schema.isFloat t = true) : ∀ (ws : Entries Node), WithinEntries X ws →
    ShowsEntries (view lib multi anyOf) ws (entryTrees unquote ws) ∧ ∀ e ∈ entryTrees unquote ws, Tree true e
  | .nil, _ => ⟨.nil, fun _ h => nomatch h⟩
  | .cons k w ws, hw => by
    have h0 := tree_shows hs hf k hw.1
    have h1 := tree_shows hs hf w hw.2.1
    have h2 := entryTrees_show hs hf ws hw.2.2
    refine ⟨.entry (a := tree unquote k) (b := tree unquote w) (fun e he => ?_) h0.1 h1.1 h2.1, fun e he => ?_⟩
    · simp [view, layer, takesAll, he.1, he.2.1]
    · rcases List.mem_cons.mp he with rfl | he
      · exact .entry h0.2 h1.2
      · exact h2.2 e he
end

mutual
theorem within_raws : ∀ (w : Value Node), Within X w → raws w = []
  | .scalar _, _ => rfl
  | .seq vs, h => within_rawsItems vs h
  | .map es, h => within_rawsEntries es h
  | .raw _, h => absurd h id
theorem within_rawsItems : ∀ (w : Values Node), WithinItems X w → rawsValues w = []
  | .nil, _ => rfl
  | .cons v vs, h => by rw [rawsValues, within_raws v h.1, within_rawsItems vs h.2]; rfl
theorem within_rawsEntries : ∀ (w : Entries Node), WithinEntries X w → rawsEntries w = []
  | .nil, _ => rfl
  | .cons k v es, h => by
    rw [rawsEntries, within_raws k h.1, within_raws v h.2.1, within_rawsEntries es h.2.2]; rfl
end

end Yayamls

/-! ### goyaml -/

section Goyaml

open Verif.Goyaml Verif.GoyamlCursor Verif.GoyamlReader Verif.GoyamlBuilder

variable {lib : RLib} {h : Goyaml.Heap} {multi : Bool} {anyOf : Nat → Option GVal} {X : Texts} {unquote : Bool}

theorem cell_solid {n : Nat} (hk : (h n).kind = .scalar) (hn : lib.nullTag (h n) = false) :
    Solid (GoyamlCursor.view lib h multi anyOf) n false :=
  ⟨fun _ _ => rfl, fun _ => by simp [GoyamlCursor.view, GoyamlCursor.verdict, scalarIf, hn]⟩

theorem scalarIf_whole {c : Goyaml.Cell} {p : Bool} (hk : c.kind = .scalar) (h : p = true) : scalarIf c p = .whole := by
  simp [scalarIf, h, hk]

theorem gscalar_shows (hl : Tags lib) (hs : ∀ s, X.string s → unquote = true → Schema.isNull s = false)
    (hf : ∀ n t, X.float n t → Schema.isFloat t = true) {x : Inserter.Scalar} (hx : X.scalar x) {n : Nat}
    (hn : Holds h n (scalarGTree unquote x)) :
    Solid (GoyamlCursor.view lib h multi anyOf) n (x = .null) ∧ ShowsScalar (GoyamlCursor.view lib h multi anyOf) n x ∧
      GoyamlCursor.Tree h n := by
  cases x with
  | integer v =>
    cases hn with
    | scalar hk ht hv hq =>
      have hi := (Props.Scalars.integer_roundtrip v 64).1
      have hnn := not_null_of_number (t := Schema.fromInteger v) (by simp [hi])
      exact ⟨cell_solid hk (hl.plain _ hk ht hq (by rw [hv]; exact hnn)), ⟨scalarIf_whole hk (by rw [hv]; exact hi), hv⟩,
        .scalar hk⟩
  | unsigned v =>
    cases hn with
    | scalar hk ht hv hq =>
      have hi : Schema.isInteger (Schema.fromUnsignedInteger v) = true := (Props.Scalars.integer_roundtrip (.ofNat v) 64).1
      have hnn := not_null_of_number (t := Schema.fromUnsignedInteger v) (by simp [hi])
      exact ⟨cell_solid hk (hl.plain _ hk ht hq (by rw [hv]; exact hnn)), ⟨scalarIf_whole hk (by rw [hv]; exact hi), hv⟩,
        .scalar hk⟩
  | boolean b =>
    cases hn with
    | scalar hk ht hv hq =>
      have hi := bool_text b
      exact ⟨cell_solid hk (hl.plain _ hk ht hq (by rw [hv]; exact hi.2)), ⟨scalarIf_whole hk (by rw [hv]; exact hi.1), hv⟩,
        .scalar hk⟩
  | float t =>
    cases hn with
    | scalar hk ht hv hq =>
      obtain ⟨m, hm⟩ := hx
      have hi := hf m t hm
      have hnn := not_null_of_number (t := t) (by simp [hi])
      exact ⟨cell_solid hk (hl.plain _ hk ht hq (by rw [hv]; exact hnn)), ⟨scalarIf_whole hk (by rw [hv]; exact hi), hv⟩,
        .scalar hk⟩
  | string s =>
    have hnull : (h n).kind = .scalar ∧ (h n).value = s ∧ lib.nullTag (h n) = false := by
      rw [scalarGTree] at hn
      generalize hg : (if unquote ∧ '\n' ∉ s then false else true) = q at hn
      cases hn with
      | scalar hk ht hv hq =>
        refine ⟨hk, hv, ?_⟩
        cases q with
        | true => exact hl.quoted _ hk ht hq
        | false =>
          have hu : unquote = true := by
            by_cases hu : unquote = true
            · exact hu
            · simp [hu] at hg
          exact hl.plain _ hk ht hq (by rw [hv]; exact hs s hx hu)
    exact ⟨cell_solid hnull.1 hnull.2.2, ⟨scalarIf_whole hnull.1 (by simp [hnull.2.2]), hnull.2.1⟩, .scalar hnull.1⟩
  | timestamp t => exact absurd hx id
  | null =>
    cases hn with
    | scalar hk ht hv hq =>
      exact ⟨⟨fun _ _ => rfl, by simp⟩, scalarIf_whole hk (hl.null _ hk ht), .scalar hk⟩

mutual
theorem gtree_shows (hl : Tags lib) (hs : ∀ s, X.string s → unquote = true → Schema.isNull s = false)
    (hf : ∀ n t, X.float n t → Schema.isFloat t = true) : ∀ (w : Value GNode), Within X w →
    ∀ n, Holds h n (gtree unquote w) → Shows (GoyamlCursor.view lib h multi anyOf) w n ∧ GoyamlCursor.Tree h n
  | .scalar x, hw, n, hn => by
    have := gscalar_shows (multi := multi) (anyOf := anyOf) hl hs hf (x := x) hw hn
    exact ⟨.scalar this.1 this.2.1, this.2.2⟩
  | .seq vs, hw, n, hn => by
    rw [gtree] at hn
    cases hn with
    | sequence hk hc =>
      have := gtrees_show hl hs hf vs hw _ hc
      refine ⟨.seq ⟨fun _ _ => rfl, fun _ => ?_⟩ ?_ ?_, .sequence hk this.2⟩
      · simp [GoyamlCursor.view, GoyamlCursor.verdict, scalarIf, hk]
      · simp [GoyamlCursor.view, GoyamlCursor.verdict, hk]
      · simpa [GoyamlCursor.view, hk] using this.1
  | .map es, hw, n, hn => by
    rw [gtree] at hn
    cases hn with
    | mapping hk hc =>
      have := gentries_show hl hs hf es hw _ hc
      refine ⟨.map ⟨fun _ _ => rfl, fun _ => ?_⟩ ?_ ?_ ?_, .mapping hk this.2⟩
      · simp [GoyamlCursor.view, GoyamlCursor.verdict, scalarIf, hk]
      · simp [GoyamlCursor.view, GoyamlCursor.verdict, hk]
      · simp [GoyamlCursor.view, hk]
      · simpa [GoyamlCursor.view, hk] using this.1
  | .raw _, hw, _, _ => absurd hw id
theorem gtrees_show (hl : Tags lib) (hs : ∀ s, X.string s → unquote = true → Schema.isNull s = false)
    (hf : ∀ n t, X.float n t → Schema.isFloat t = true) : ∀ (ws : Values GNode), WithinItems X ws →
    ∀ ns, HoldsAll h ns (gtrees unquote ws) →
    ShowsItems (GoyamlCursor.view lib h multi anyOf) ws ns ∧ ∀ e ∈ ns, GoyamlCursor.Tree h e
  | .nil, _, _, .nil => ⟨.nil, fun _ h => nomatch h⟩
  | .cons w ws, hw, _, .cons hn hns => by
    have h1 := gtree_shows hl hs hf w hw.1 _ hn
    have h2 := gtrees_show hl hs hf ws hw.2 _ hns
    refine ⟨.cons h1.1 h2.1, fun e he => ?_⟩
    rcases List.mem_cons.mp he with rfl | he
    · exact h1.2
    · exact h2.2 e he
theorem gentries_show (hl : Tags lib) (hs : ∀ s, X.string s → unquote = true → Schema.isNull s = false)
    (hf : ∀ n t, X.float n t → Schema.isFloat t = true) : ∀ (ws : Entries GNode), WithinEntries X ws →
    ∀ ns, HoldsAll h ns (gentries unquote ws) →
    ShowsEntries (GoyamlCursor.view lib h multi anyOf) ws ns ∧ ∀ e ∈ ns, GoyamlCursor.Tree h e
  | .nil, _, _, .nil => ⟨.nil, fun _ h => nomatch h⟩
  | .cons k w ws, hw, _, .cons hn (.cons hm hns) => by
    have h0 := gtree_shows hl hs hf k hw.1 _ hn
    have h1 := gtree_shows hl hs hf w hw.2.1 _ hm
    have h2 := gentries_show hl hs hf ws hw.2.2 _ hns
    refine ⟨.two h0.1 h1.1 h2.1, fun e he => ?_⟩
    rcases List.mem_cons.mp he with rfl | he
    · exact h0.2
    · rcases List.mem_cons.mp he with rfl | he
      · exact h1.2
      · exact h2.2 e he
end

end Goyaml

end Verif.GenCode
