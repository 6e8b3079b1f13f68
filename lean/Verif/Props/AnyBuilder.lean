import Verif.Lemmas.AnyBuilder
import Verif.Lemmas.GenericMap

/-!
C27, C28 for the yayamls engine: generic decoding (`engines/yayamls/decode/any.go`).
-/

namespace Verif.Props.AnyBuilder

open Verif.Ast Verif.Generic Verif.GenericValue Verif.AnyBuilder

/-- C27.  Whenever the document has a generic value by the rules, generic decoding ends without error with this value. -/
theorem any_value {lib : Lib} {env env' : Env} {n : Node} {v : GVal} (h : Means lib false env n v env') (anchors : Anchors)
    (ha : anchors.anchors = env) (hm : anchors.metAnchor = false) :
    ∃ anchors', Conv (fun f => extractAnyValue lib f n anchors) (some v, anchors') ∧ anchors'.anchors = env' := by
  obtain ⟨a, h1, h2, _, h4⟩ := value_out h (newAnyBuilder anchors) ⟨rfl, rfl, rfl, ha, hm⟩ rfl
  refine ⟨a.anchors, Conv.bind h1 (Conv.congr (fun f => ?_) (Conv.pure _)), h2.anchors⟩
  simp [h2.hasErrors, h4]

/-- C27.  Every document without aliases and merge keys, with scalar keys and convertible scalars, has a generic value;
it is unique. -/
theorem plain_value {lib : Lib} {n : Node} (h : Plain lib n) :
    ∃ v env', Means lib false [] n v env' ∧
      ∀ anchors : Anchors, anchors.metAnchor = false → anchors.anchors = [] →
        ∃ anchors', Conv (fun f => extractAnyValue lib f n anchors) (some v, anchors') := by
  obtain ⟨v, env', hv⟩ := plain_means h []
  refine ⟨v, env', hv, fun anchors hm ha => ?_⟩
  obtain ⟨a', h1, _⟩ := any_value hv anchors ha hm
  exact ⟨a', h1⟩

example : Plain ⟨fun _ => false, fun _ _ => true, fun _ => []⟩
    (.sequence [.content (.properties .nil (.anchor ['a'])) (.text "x".toList .absent), .null]) :=
  .sequence (by
    intro e he
    simp only [List.mem_cons, List.not_mem_nil, or_false] at he
    rcases he with rfl | rfl
    · exact .content .anchor (.text (by decide))
    · exact .null)

/-- The value by the rules is unique. -/
theorem value_unique {lib : Lib} {env env1 env2 : Env} {n : Node} {v w : GVal} (hv : Means lib false env n v env1)
    (hw : Means lib false env n w env2) : v = w := by
  obtain ⟨_, h1, _⟩ := any_value hv ⟨env, false, []⟩ rfl rfl
  obtain ⟨_, h2, _⟩ := any_value hw ⟨env, false, []⟩ rfl rfl
  have := h1.det h2
  simpa using congrArg Prod.fst this

/-- C27.  Generic decoding of a document without aliases ends, with a value or with an error (whatever the document
contains, in particular merge keys and numbers which are out of range). -/
theorem any_terminates_partial {lib : Lib} {n : Node} (h : AliasFree n) (anchors : Anchors) :
    ∃ r, Conv (fun f => extractAnyValue lib f n anchors) r := by
  obtain ⟨a, ha⟩ := visit_conv (lib := lib) h (newAnyBuilder anchors)
  by_cases he : a.hasErrors
  · exact ⟨_, Conv.bind ha (Conv.congr (fun f => if_pos he) (Conv.pure _))⟩
  · exact ⟨_, Conv.bind ha (Conv.congr (fun f => if_neg he) (Conv.pure _))⟩

/-- The document `&a [*a]`. -/
def selfReference : Node := .content (.properties .nil (.anchor ['a'])) (.sequence [.alias ['a']])

/-- C27 fails for documents with aliases: decoding `&a [*a]` never ends. -/
theorem self_reference_diverges (lib : Lib) (anchors : Anchors) :
    Diverges fun f => extractAnyValue lib f selfReference anchors := by
  have key : ∀ f (a : St), a.anchors.anchors.lookup ['a'] = some (.sequence [.alias ['a']]) →
      visitNode lib f (.sequence [.alias ['a']]) a = .timeout := by
    intro f
    induction f using Nat.strongRecOn with
    | _ f ih =>
      intro a ha
      match f with
      | 0 => rfl
      | 1 => rfl
      | f + 2 =>
        rw [visit_step rfl]
        show (visitItems (visitNode lib (f + 1)) [.alias ['a']] { a with extractString := false } [] >>= _) = _
        rw [visitItems, visit_step rfl]
        have : ({ a with extractString := false } : St).anchors.dereference ['a'] = some (.sequence [.alias ['a']]) := ha
        simp only [this]
        rw [show visitNode lib f (.sequence [.alias ['a']]) { a with extractString := false } = .timeout from
          ih f (by omega) _ ha]
        rfl
  intro f
  match f with
  | 0 => rfl
  | 1 => rfl
  | 2 => rfl
  | f + 3 =>
    show (visitNode lib (f + 3) selfReference (newAnyBuilder anchors) >>= _) = _
    rw [selfReference, visit_step rfl]
    show ((visitNode lib (f + 2) _ _ >>= _) >>= _) = _
    rw [visit_step rfl]
    show ((visitNode lib (f + 1) _ _ >>= _) >>= _) = _
    rw [visit_step rfl]
    simp only [Res.bind_ok]
    rw [key (f + 2) _ (by simp [Anchors.bind, Anchors.store])]
    rfl

/-- C28.  In the map of a mapping a written key has the value written last, whatever is merged and wherever the merge
entries stand; a key which is not written has the value of the first merged mapping which has it; no other key occurs. -/
theorem merge_precedence (items : List Item) (k : List Char) :
    mget (build items) k = (written items k).or (merged items k) := (build_isMap items).2 k

theorem map_keys_distinct (items : List Item) : ((build items).map Prod.fst).Nodup := (build_isMap items).1

example : build [.merge [(['a'], .uint 1), (['b'], .uint 2)], .pair ['a'] (.uint 3), .merge [(['b'], .uint 4)]] =
    [(['a'], .uint 3), (['b'], .uint 2)] := rfl

/-- C28 on documents: a mapping with merge entries decodes to the map in which written keys win. -/
theorem merge_decoded_partial {lib : Lib} {env env' : Env} {es : List Node} {items : List Item}
    (h : MeansEntries lib false env es items env') (anchors : Anchors) (ha : anchors.anchors = env)
    (hm : anchors.metAnchor = false) :
    ∃ m anchors', Conv (fun f => extractAnyValue lib f (.mapping es) anchors) (some (.map m), anchors') ∧ IsMap items m := by
  obtain ⟨a', h1, _⟩ := any_value (.mapping h) anchors ha hm
  exact ⟨build items, a', h1, build_isMap items⟩

/-- A standard library for the examples: nothing is a time, all floats can be converted. -/
def lib0 : Lib := ⟨fun _ => false, fun _ _ => true, fun _ => []⟩

def key (s : String) : Node := .text s.toList .absent

example : MeansEntries lib0 false []
    [.mappingEntry (key "a") (key "x"), .mappingEntry (key "<<") (.mapping [.mappingEntry (key "a") (key "y")])]
    [.pair "a".toList (.str "x".toList), .merge (build [.pair "a".toList (.str "y".toList)])] [] :=
  .pair .text (by decide) (.text (.inl (by decide)) rfl)
    (.merge .text (.mapping (.pair .text (by decide) (.text (.inl (by decide)) rfl) .nil)) .nil)

/-- C28 fails for mappings within merged mappings: `<<: {a: {b: x}}` decodes to `{b: x}` instead of `{a: {b: x}}`. -/
theorem nested_mapping_flattened :
    Conv (fun f => (extractAnyValue lib0 f (.mapping [.mappingEntry (key "<<")
        (.mapping [.mappingEntry (key "a") (.mapping [.mappingEntry (key "b") (key "x")])])]) {}).bind (fun r => .ok r.1))
      (some (.map [("b".toList, .str "x".toList)])) :=
  ⟨10, fun f hf => by
    obtain ⟨f, rfl⟩ : ∃ g, f = g + 10 := ⟨f - 10, by omega⟩
    rfl⟩

/-- C28 fails for lists of mappings: in `<<: [{a: x}, {b: y}]` the pending map of the first mapping takes the place of the
first entry of the second one, `b` is lost. -/
theorem merge_list_drops_entry :
    Conv (fun f => (extractAnyValue lib0 f (.mapping [.mappingEntry (key "<<")
        (.sequence [.mapping [.mappingEntry (key "a") (key "x")], .mapping [.mappingEntry (key "b") (key "y")]])]) {}).bind
          (fun r => .ok r.1))
      (some (.map [("a".toList, .str "x".toList)])) :=
  ⟨10, fun f hf => by
    obtain ⟨f, rfl⟩ : ∃ g, f = g + 10 := ⟨f - 10, by omega⟩
    rfl⟩

/-- A quoted scalar is not kept as a string: `"5"` decodes to a number (whatever the standard library does with the
text, as long as it is no time). -/
theorem quoted_number_not_string (lib : Lib) (h : lib.isTimestamp ['5'] = false) (anchors : Anchors) :
    Conv (fun f => extractAnyValue lib f (.text ['5'] .double) anchors) (some (.uint 5), anchors) := by
  have hs : scalarValue lib ['5'] = some (.uint 5) := by
    rw [scalarValue, h]
    rfl
  refine Conv.bind (Conv.succ (g' := fun _ => .ok { newAnyBuilder anchors with value := .uint 5 }) (fun f => ?_)
    (Conv.pure _)) (Conv.congr (fun f => ?_) (Conv.pure _))
  · rw [visit_step rfl]
    simp [newAnyBuilder, extractText, hs, isNull]
  · simp [newAnyBuilder, St.hasErrors]

end Verif.Props.AnyBuilder
