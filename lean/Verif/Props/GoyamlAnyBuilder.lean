import Verif.Lemmas.GoyamlAnyBuilder
import Verif.Lemmas.GenericMap

/-!
C27, C28 and C44 for the goyaml engine: generic decoding (`engines/goyaml/decode/any.go`).
-/

namespace Verif.Props.GoyamlAnyBuilder

open Verif.Generic Verif.Goyaml Verif.GenericValue Verif.GoyamlValue Verif.GoyamlAnyBuilder

/-- C27.  Whenever the node has a generic value by the rules, generic decoding ends without error with this value. -/
theorem any_value {lib : GLib} {h : Heap} {n : Nat} {v : GVal} (hm : Means lib h false n v) :
    Conv (fun f => extractAnyValue lib h f n) (some v) := by
  obtain ⟨a, h1, h2, _, h4⟩ := value_out hm {} ⟨rfl, rfl, rfl⟩ rfl
  refine Conv.bind h1 (Conv.congr (fun f => ?_) (Conv.pure _))
  simp [h2.hasErrors, h4]

/-- The value by the rules is unique. -/
theorem value_unique {lib : GLib} {h : Heap} {n : Nat} {v w : GVal} (hv : Means lib h false n v)
    (hw : Means lib h false n w) : v = w := by
  simpa using (any_value hv).det (any_value hw)

/-- C27.  Every document with scalar keys, without merge keys, with convertible scalars and without circular aliases has
a generic value and decodes to it. -/
theorem plain_value {lib : GLib} {h : Heap} {n : Nat} (hp : Plain lib h n) :
    ∃ v, Means lib h false n v ∧ Conv (fun f => extractAnyValue lib h f n) (some v) := by
  obtain ⟨v, hv⟩ := plain_means hp
  exact ⟨v, hv, any_value hv⟩

/-- C27.  Generic decoding of an acyclic graph ends, with a value or an error. -/
theorem any_terminates_partial {lib : GLib} {h : Heap} {rank : Nat → Nat} (hr : Acyclic h rank) (n : Nat) :
    ∃ r, Conv (fun f => extractAnyValue lib h f n) r := by
  obtain ⟨a, ha⟩ := visit_conv (lib := lib) hr _ n rfl {}
  by_cases he : a.hasErrors
  · exact ⟨_, Conv.bind ha (Conv.congr (fun f => if_pos he) (Conv.pure _))⟩
  · exact ⟨_, Conv.bind ha (Conv.congr (fun f => if_neg he) (Conv.pure _))⟩

/-- The graph of `- &a {k: x}`, `- *a`. -/
def sample : Heap := fun a =>
  match a with
  | 0 => { kind := .document, content := [1] }
  | 1 => { kind := .sequence, content := [2, 5] }
  | 2 => { kind := .mapping, anchor := ['a'], content := [3, 4] }
  | 3 => { kind := .scalar, value := ['k'] }
  | 4 => { kind := .scalar, value := ['x'] }
  | 5 => { kind := .alias, value := ['a'], alias := some 2 }
  | _ => {}

def lib0 : GLib := { isTimestamp := fun _ => false, toFloat := fun _ _ => true, sprint := fun _ => [], nullTag := fun _ => false }

example : Plain lib0 sample 0 := by
  have h2 : Plain lib0 sample 2 := by
    refine .mapping (ps := [(3, 4)]) rfl rfl ?_ ?_
    · intro p hp
      simp at hp
      subst hp
      exact ⟨rfl, by decide⟩
    · intro p hp
      simp at hp
      subst hp
      exact .scalar rfl (by decide)
  refine .document rfl rfl (.sequence rfl fun c hc => ?_)
  rcases List.mem_cons.mp hc with rfl | hc
  · exact h2
  · rcases List.mem_cons.mp hc with rfl | hc
    · exact .alias rfl rfl h2
    · cases hc

example : Acyclic sample (fun a => match a with | 0 => 4 | 1 => 3 | 2 => 1 | 5 => 2 | _ => 0) := by
  constructor
  · intro p c hc
    match p with
    | 0 | 1 | 2 =>
      simp [sample] at hc
      rcases hc with rfl | rfl <;> decide
    | 3 | 4 | 5 | n + 6 => simp [sample] at hc
  · intro a t ha ht
    match a with
    | 5 =>
      simp [sample] at ht
      subst ht
      decide
    | 0 | 1 | 2 | 3 | 4 | n + 6 => simp [sample] at ha
  · intro d hd
    match d with
    | 0 => simp [sample]
    | 1 | 2 | 3 | 4 | 5 | n + 6 => simp [sample] at hd

/-- The graph of `&a [*a]`. -/
def cycle : Heap := fun a =>
  match a with
  | 0 => { kind := .sequence, anchor := ['a'], content := [1] }
  | 1 => { kind := .alias, value := ['a'], alias := some 0 }
  | _ => {}

/-- C27 fails for circular aliases: generic decoding of `&a [*a]` never ends. -/
theorem self_reference_diverges (lib : GLib) : Diverges fun f => extractAnyValue lib cycle f 0 := by
  have key : ∀ f (a : St), visitNode lib cycle f 0 a = .timeout ∧ visitNode lib cycle f 1 a = .timeout := by
    intro f
    induction f with
    | zero =>
      intro a
      exact ⟨rfl, rfl⟩
    | succ f ih =>
      intro a
      constructor
      · show (visitItems (visitNode lib cycle f) [1] { a with extractString := false } [] >>= _) = _
        rw [visitItems, (ih _).2]
        rfl
      · exact (ih a).1
  intro f
  show (visitNode lib cycle f 0 {} >>= _) = _
  rw [(key f _).1]
  rfl

/-- C28 on documents: a mapping with merge keys decodes to the map in which the written keys win, and of the merged
mappings the first. -/
theorem merge_decoded_partial {lib : GLib} {h : Heap} {n : Nat} {items : List Item} (hk : (h n).kind = .mapping)
    (hm : MeansPairs lib h false (h n).content items) :
    ∃ m, Conv (fun f => extractAnyValue lib h f n) (some (.map m)) ∧ IsMap items m :=
  ⟨build items, any_value (.mapping hk hm), build_isMap items⟩

/-- The graph of `{a: x, <<: {a: y, b: y}}` (nodes 1 to 9 below the mapping 0), of `{<<: {a: {b: x}}}` (10 to 16) and of
`{<<: [{a: x}, {b: y}]}` (20 to 28). -/
def merges : Heap := fun a =>
  match a with
  | 0 => { kind := .mapping, content := [1, 2, 3, 4] }
  | 1 | 5 | 13 | 24 => { kind := .scalar, value := ['a'] }
  | 2 | 16 | 25 => { kind := .scalar, value := ['x'] }
  | 3 | 11 | 21 => { kind := .scalar, value := "<<".toList }
  | 4 => { kind := .mapping, content := [5, 6, 7, 8] }
  | 6 | 8 | 28 => { kind := .scalar, value := ['y'] }
  | 7 | 15 | 27 => { kind := .scalar, value := ['b'] }
  | 10 => { kind := .mapping, content := [11, 12] }
  | 12 => { kind := .mapping, content := [13, 14] }
  | 14 => { kind := .mapping, content := [15, 16] }
  | 20 => { kind := .mapping, content := [21, 22] }
  | 22 => { kind := .sequence, content := [23, 26] }
  | 23 => { kind := .mapping, content := [24, 25] }
  | 26 => { kind := .mapping, content := [27, 28] }
  | _ => {}

example : MeansPairs lib0 merges false (merges 0).content
    [.pair ['a'] (.str ['x']), .merge (build [.pair ['a'] (.str ['y']), .pair ['b'] (.str ['y'])])] :=
  .pair (.scalar (n := 1) rfl) (by decide) (.text rfl rfl rfl)
    (.merge (.scalar (n := 3) rfl) (.mapping (n := 4) rfl
      (.pair (.scalar (n := 5) rfl) (by decide) (.text rfl rfl rfl)
        (.pair (.scalar (n := 7) rfl) (by decide) (.text rfl rfl rfl) .nil))) .nil)

/-- C28 fails for mappings within merged mappings: `<<: {a: {b: x}}` decodes to `{b: x}`. -/
theorem nested_mapping_flattened :
    Conv (fun f => extractAnyValue lib0 merges f 10) (some (.map [(['b'], .str ['x'])])) :=
  ⟨10, fun f hf => by
    obtain ⟨f, rfl⟩ : ∃ g, f = g + 10 := ⟨f - 10, by omega⟩
    rfl⟩

/-- C28 fails for lists of mappings: in `<<: [{a: x}, {b: y}]` the entry `b` is lost. -/
theorem merge_list_drops_entry :
    Conv (fun f => extractAnyValue lib0 merges f 20) (some (.map [(['a'], .str ['x'])])) :=
  ⟨10, fun f hf => by
    obtain ⟨f, rfl⟩ : ∃ g, f = g + 10 := ⟨f - 10, by omega⟩
    rfl⟩

/-- C44 fails: a scalar with the text `5` decodes to a number whatever its style is, in particular if it is quoted. -/
theorem quoted_number_not_string (lib : GLib) (hl : lib.isTimestamp ['5'] = false) {h : Heap} {n : Nat}
    (hk : (h n).kind = .scalar) (hv : (h n).value = ['5']) (hn : lib.nullTag (h n) = false) :
    Conv (fun f => extractAnyValue lib h f n) (some (.uint 5)) := by
  refine any_value (.text hk (by simp [isNull, hn]) ?_)
  rw [hv, scalarValue, hl]
  rfl

end Verif.Props.GoyamlAnyBuilder
