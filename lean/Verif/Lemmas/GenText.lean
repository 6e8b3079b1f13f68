import Verif.Lemmas.GenShows

/-!
Trees of generated code as texts: what is read back shows the inserted values.
-/

set_option linter.unusedSimpArgs false

namespace Verif.GenCode

open Verif.Decoder Verif.DecoderCursor Verif.Protocol Verif.Generic Verif.Ast Verif.ReaderCursor

/-! ### Numbers are words -/

/-- The characters of numbers. -/
def Numeric (c : Char) : Prop := c ∈ "0123456789+-.eEinfINFaA".toList

theorem numeric_ok {c : Char} (h : Numeric c) : c ∉ PlainTree.forbidden ∧ c ∉ PlainTree.indicators ∧ c ≠ ':' := by
  have : ∀ c ∈ "0123456789+-.eEinfINFaA".toList, c ∉ PlainTree.forbidden ∧ c ∉ PlainTree.indicators ∧ c ≠ ':' := by
    decide
  exact this c h

section Float

open Verif.CoreSchema

theorem digits_numeric {ds : List Char} (h : Digits ds) : ∀ c ∈ ds, Numeric c := by
  have : ∀ c ∈ "0123456789".toList, Numeric c := by unfold Numeric; decide
  exact fun c hc => this c (h c hc)

theorem sign_numeric {s : List Char} (h : Sign s) : ∀ c ∈ s, Numeric c := by
  unfold Numeric
  rcases h with rfl | rfl | rfl <;> decide

theorem mantissa_numeric {m : List Char} (h : Mantissa m) : ∀ c ∈ m, Numeric c := by
  have dot : Numeric '.' := by unfold Numeric; decide
  cases h with
  | fraction ds _ hd =>
    intro c hc
    rcases List.mem_cons.1 hc with rfl | hc
    · exact dot
    · exact digits_numeric hd c hc
  | whole _ _ hd => exact digits_numeric hd
  | both ds es _ hd he =>
    intro c hc
    rcases List.mem_append.1 hc with hc | hc
    · exact digits_numeric hd c hc
    · rcases List.mem_cons.1 hc with rfl | hc
      · exact dot
      · exact digits_numeric he c hc

theorem exponent_numeric {e : List Char} (h : Exponent e) : ∀ c ∈ e, Numeric c := by
  cases h with
  | none => intro c hc; cases hc
  | some x sign ds hx hs _ hd =>
    intro c hc
    rcases List.mem_cons.1 hc with rfl | hc
    · rcases hx with rfl | rfl <;> (unfold Numeric; decide)
    · rcases List.mem_append.1 hc with hc | hc
      · exact sign_numeric hs c hc
      · exact digits_numeric hd c hc

theorem float_numeric {t : List Char} (h : FloatText t) : ∀ c ∈ t, Numeric c := by
  cases h with
  | number sign m e hs hm he =>
    intro c hc
    rcases List.mem_append.1 hc with hc | hc
    · rcases List.mem_append.1 hc with hc | hc
      · exact sign_numeric hs c hc
      · exact mantissa_numeric hm c hc
    · exact exponent_numeric he c hc
  | infinity sign i hs hi =>
    intro c hc
    rcases List.mem_append.1 hc with hc | hc
    · exact sign_numeric hs c hc
    · have : ∀ i ∈ [".inf", ".Inf", ".INF"].map String.toList, ∀ c ∈ i, Numeric c := by unfold Numeric; decide
      exact this i hi c hc
  | nan _ h =>
    have : ∀ i ∈ [".nan", ".NaN", ".NAN"].map String.toList, ∀ c ∈ i, Numeric c := by unfold Numeric; decide
    exact this t h

end Float

theorem float_word {t : List Char} (h : Schema.isFloat t = true) : PlainTree.Word t := by
  have hn := float_numeric ((Props.Scalars.float_iff t).1 h)
  cases t with
  | nil => exact absurd h (by decide)
  | cons c r =>
    refine ⟨fun d hd => (numeric_ok (hn d hd)).1, ⟨c, r, rfl, (numeric_ok (hn c (by simp))).2.1⟩, fun hl => ?_, fun hm => ?_⟩
    · exact (numeric_ok (hn ':' (List.mem_of_getLast? hl))).2.2 rfl
    · have : ∀ t ∈ PlainTree.markers, Schema.isFloat t = false := by decide
      rw [this _ hm] at h
      cases h

theorem integer_word (v : Int) : PlainTree.Word (Schema.fromInteger v) := by
  refine float_word ((Props.Scalars.float_iff _).2 ?_)
  have hd : ∀ n, CoreSchema.Digits (Strconv.formatUint n) := fun n c hc =>
    (Schema.isDec_iff c).1 (List.all_eq_true.1 (Strconv.formatUint_all_dec n) c hc)
  have key : ∀ (sign : List Char) (n : Nat), CoreSchema.Sign sign → CoreSchema.FloatText (sign ++ Strconv.formatUint n) := by
    intro sign n hs
    have := CoreSchema.FloatText.number sign _ [] hs (.whole _ (Strconv.formatUint_ne_nil n) (hd n)) .none
    rwa [List.append_nil] at this
  cases v with
  | ofNat n => exact key [] n (.inl rfl)
  | negSucc n => exact key ['-'] (n + 1) (.inr (.inl rfl))

/-! ### The trees -/

variable {lib : Generic.Lib} {multi : Bool} {anyOf : Node → Option GVal} {X : Texts} {unquote : Bool}

theorem phrase_line {t : List Char} (h : PlainTree.Phrase t) : '\n' ∉ t := by
  have hw : ∀ {w}, PlainTree.Word w → '\n' ∉ w := fun h h1 => h.chars _ h1 (by decide)
  induction h with
  | word h => exact hw h
  | more h _ ih => simp [hw h, ih]

theorem scalar_plain (hp : Printable unquote X) (hf : ∀ n t, X.float n t → Schema.isFloat t = true) {x : Inserter.Scalar}
    (hx : X.scalar x) : PlainTree.Scalar (scalarTree unquote x) := by
  cases x with
  | integer v => exact .text (.word (integer_word v)) .absent
  | unsigned v => exact .text (.word (integer_word (.ofNat v))) .absent
  | boolean b =>
    have word : ∀ (c : Char) (r : List Char), (∀ d ∈ c :: r, d ∉ PlainTree.forbidden) → c ∉ PlainTree.indicators →
        (c :: r).getLast? ≠ some ':' → (c :: r) ∉ PlainTree.markers → PlainTree.Word (c :: r) :=
      fun c r h1 h2 h3 h4 => ⟨h1, ⟨c, r, rfl, h2⟩, h3, h4⟩
    cases b with
    | true => exact .text (.word (word 't' "rue".toList (by decide) (by decide) (by decide) (by decide))) .absent
    | false => exact .text (.word (word 'f' "alse".toList (by decide) (by decide) (by decide) (by decide))) .absent
  | float t =>
    obtain ⟨n, hn⟩ := hx
    exact .text (.word (float_word (hf n t hn))) .absent
  | string s =>
    have := hp s hx
    cases unquote with
    | true =>
      simp only [if_true] at this
      have hl := phrase_line this
      simp only [scalarTree, hl, not_false_eq_true, and_self, if_true]
      exact .text this .absent
    | false =>
      simp only [Bool.false_eq_true, if_false] at this
      simp only [scalarTree, Bool.false_eq_true, false_and, if_false]
      exact .quoted .double this
  | timestamp t => exact absurd hx id
  | null => exact .null

mutual
theorem tree_plain (hp : Printable unquote X) (hf : ∀ n t, X.float n t → Schema.isFloat t = true) : ∀ (w : Value Node),
    Within X w → Bulky w → PlainTree.Plain (tree unquote w) ∧ ((∀ x, w ≠ .scalar x) → PlainTree.Coll (tree unquote w))
  | .scalar x, hw, _ => ⟨.scalar (scalar_plain hp hf hw), fun h => absurd rfl (h x)⟩
  | .seq (.cons v vs), hw, hb => by
    have h := PlainTree.Coll.sequence (tree_plain hp hf v hw.1 hb.1).1 (trees_plain hp hf vs hw.2 hb.2)
    exact ⟨.coll h, fun _ => h⟩
  | .map (.cons (.scalar x) v es), hw, hb => by
    have h := PlainTree.Coll.mapping (.entry (scalar_plain hp hf hw.1) (tree_plain hp hf v hw.2.1 hb.1).1)
      (entryTrees_plain hp hf es hw.2.2 hb.2)
    exact ⟨.coll h, fun _ => h⟩
  | .seq .nil, _, hb => absurd hb id
  | .map .nil, _, hb => absurd hb id
  | .map (.cons (.seq _) _ _), _, hb => absurd hb (by simp [Bulky])
  | .map (.cons (.map _) _ _), _, hb => absurd hb (by simp [Bulky])
  | .map (.cons (.raw _) _ _), _, hb => absurd hb (by simp [Bulky])
  | .raw _, hw, _ => absurd hw id
theorem trees_plain (hp : Printable unquote X) (hf : ∀ n t, X.float n t → Schema.isFloat t = true) : ∀ (ws : Values Node),
    WithinItems X ws → BulkyItems ws → PlainTree.Rest (trees unquote ws)
  | .nil, _, _ => .nil
  | .cons v vs, hw, hb => .cons (tree_plain hp hf v hw.1 hb.1).1 (trees_plain hp hf vs hw.2 hb.2)
theorem entryTrees_plain (hp : Printable unquote X) (hf : ∀ n t, X.float n t → Schema.isFloat t = true) : ∀ (ws : Entries Node),
    WithinEntries X ws → BulkyEntries ws → PlainTree.Entries (entryTrees unquote ws)
  | .nil, _, _ => .nil
  | .cons (.scalar x) v es, hw, hb =>
    .cons (.entry (scalar_plain hp hf hw.1) (tree_plain hp hf v hw.2.1 hb.1).1) (entryTrees_plain hp hf es hw.2.2 hb.2)
  | .cons (.seq _) _ _, _, hb => absurd hb (by simp [BulkyEntries])
  | .cons (.map _) _ _, _, hb => absurd hb (by simp [BulkyEntries])
  | .cons (.raw _) _ _, _, hb => absurd hb (by simp [BulkyEntries])
end

theorem scalar_reread (hs : ∀ s, X.string s → unquote = true → Schema.isNull s = false)
    (hf : ∀ n t, X.float n t → Schema.isFloat t = true) {x : Inserter.Scalar} (hx : X.scalar x) :
    Solid (view lib multi anyOf) (PlainTree.reread (scalarTree unquote x)) (x = .null) ∧
      ShowsScalar (view lib multi anyOf) (PlainTree.reread (scalarTree unquote x)) x := by
  cases x with
  | integer v =>
    have h := (Props.Scalars.integer_roundtrip v 64).1
    exact ⟨text_solid (nullText_plain (not_null_of_number (by simp [h]))), textIf_whole h, rfl⟩
  | unsigned v =>
    have h : Schema.isInteger (Schema.fromUnsignedInteger v) = true := (Props.Scalars.integer_roundtrip (.ofNat v) 64).1
    exact ⟨text_solid (nullText_plain (not_null_of_number (by simp [h]))), textIf_whole h, rfl⟩
  | boolean b => exact ⟨text_solid (nullText_plain (bool_text b).2), textIf_whole (bool_text b).1, rfl⟩
  | float t =>
    obtain ⟨n, hn⟩ := hx
    have h := hf n t hn
    exact ⟨text_solid (nullText_plain (not_null_of_number (by simp [h]))), textIf_whole h, rfl⟩
  | string s =>
    have h : nullText s (PlainTree.seen (if unquote ∧ '\n' ∉ s then .absent else .double)) = false := by
      by_cases hu : unquote = true
      · exact nullText_plain (hs s hx hu)
      · simp [hu, nullText, PlainTree.seen]
    exact ⟨text_solid h, textIf_whole (by simp [h]), rfl⟩
  | timestamp t => exact absurd hx id
  | null => exact ⟨⟨fun _ _ => rfl, by simp⟩, show textIf (nullText ['n', 'u', 'l', 'l'] .unknown) = .whole from textIf_whole (by decide)⟩

mutual
/-- The tree which is read back shows the values as well. -/
theorem reread_shows (hs : ∀ s, X.string s → unquote = true → Schema.isNull s = false)
    (hf : ∀ n t, X.float n t → Schema.isFloat t = true) : ∀ (w : Value Node), Within X w →
    Shows (view lib multi anyOf) w (PlainTree.reread (tree unquote w)) ∧ Tree true (PlainTree.reread (tree unquote w))
  | .scalar x, hw => by
    have h := scalar_reread (lib := lib) (multi := multi) (anyOf := anyOf) hs hf (x := x) hw
    exact ⟨.scalar h.1 h.2, by cases x <;> exact .text⟩
  | .seq vs, hw => by
    have h := rereads_show hs hf vs hw
    exact ⟨.seq ⟨fun _ _ => rfl, fun _ => rfl⟩ rfl h.1, .sequence h.2⟩
  | .map es, hw => by
    have h := rereadEntries_show hs hf es hw
    exact ⟨.map ⟨fun _ _ => rfl, fun _ => rfl⟩ rfl (fun h => List.length_eq_zero_iff.mp h) h.1, .mapping h.2⟩
  | .raw _, hw => absurd hw id
theorem rereads_show (hs : ∀ s, X.string s → unquote = true → Schema.isNull s = false)
    (hf : ∀ n t, X.float n t → Schema.isFloat t = true) : ∀ (ws : Values Node), WithinItems X ws →
    ShowsItems (view lib multi anyOf) ws (PlainTree.rereads (trees unquote ws)) ∧
      ∀ e ∈ PlainTree.rereads (trees unquote ws), Tree true e
  | .nil, _ => ⟨.nil, fun _ h => nomatch h⟩
  | .cons w ws, hw => by
    have h1 := reread_shows hs hf w hw.1
    have h2 := rereads_show hs hf ws hw.2
    refine ⟨.cons h1.1 h2.1, fun e he => ?_⟩
    rcases List.mem_cons.mp he with rfl | he
    · exact h1.2
    · exact h2.2 e he
theorem rereadEntries_show (hs : ∀ s, X.string s → unquote = true → Schema.isNull s = false)
    (hf : ∀ n t, X.float n t → Schema.isFloat t = true) : ∀ (ws : Entries Node), WithinEntries X ws →
    ShowsEntries (view lib multi anyOf) ws (PlainTree.rereads (entryTrees unquote ws)) ∧
      ∀ e ∈ PlainTree.rereads (entryTrees unquote ws), Tree true e
  | .nil, _ => ⟨.nil, fun _ h => nomatch h⟩
  | .cons k w ws, hw => by
    have h0 := reread_shows hs hf k hw.1
    have h1 := reread_shows hs hf w hw.2.1
    have h2 := rereadEntries_show hs hf ws hw.2.2
    refine ⟨.entry (a := PlainTree.reread (tree unquote k)) (b := PlainTree.reread (tree unquote w)) (fun e he => ?_) h0.1 h1.1 h2.1,
      fun e he => ?_⟩
    · simp [view, layer, takesAll, he.1, he.2.1, PlainTree.reread]
    · rcases List.mem_cons.mp he with rfl | he
      · exact .entry h0.2 h1.2
      · exact h2.2 e he
end

theorem enc_collection {L : Lib} {P : Package} {t : Ty} {cn : Bool} {v : Val} (ht : t.compound = true) (hv : v ≠ .nil)
    (x : Inserter.Scalar) : enc (ν := Node) L P t cn v ≠ some [.scalar x] := by
  intro h
  cases t <;> simp [Ty.compound] at ht <;> cases v <;> simp [enc] at h hv

end Verif.GenCode
