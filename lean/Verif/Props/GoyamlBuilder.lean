import Verif.Lemmas.GoyamlBuilder

/-!
C18, C19, C20 for the goyaml engine: the tree builder (`engines/goyaml/encode/builder.go`).
-/

namespace Verif.Props.GoyamlBuilder

open Verif.Inserter Verif.Protocol Verif.GoyamlBuilder

/-- A builder after any calls and a `Result`. -/
def used (unquote : Bool) (cs : List (Call GNode)) : Builder := (result (run (newBuilder unquote) cs)).2

theorem root_tree (v : Value GNode) (b : Builder) (he : b.fatalError = none) (hr : b.route = []) :
    ∃ a, (run b (calls v)).root = some a ∧ (run b (calls v)).fatalError = none ∧
      Reads (run b (calls v)).heap (fun x => b.heap.length ≤ x) a (gtree b.unquoteOneliners v) := by
  have hagree : Agree b .vacant := ⟨he, hr⟩
  cases v with
  | scalar s =>
    have hb : run b (calls (.scalar s)) =
        insertNode { b with heap := b.heap ++ [.leaf (scalarNode b.unquoteOneliners s)] } b.heap.length false := rfl
    rw [hb, insert_vacant hagree, gtree, ← scalarNode_eq]
    exact ⟨_, rfl, he, .leaf (Nat.le_refl _) (by simp)⟩
  | raw n =>
    obtain ⟨⟨t, ht⟩, hreads⟩ := load_spec b.heap n
    have hb : run b (calls (.raw n)) = insertNode { b with heap := b.heap ++ t } (load b.heap n).1 false := by
      simp [calls, run, step, insertRaw, he, ht]
    rw [hb, insert_vacant hagree, gtree]
    rw [ht] at hreads
    exact ⟨_, rfl, he, hreads⟩
  | seq vs =>
    have h0 : insertCell b (.coll false []) true =
        { b with heap := b.heap ++ [.coll false []], route := [b.heap.length], root := some b.heap.length } :=
      insert_vacant hagree [.coll false []] b.heap.length true
    rw [show run b (calls (.seq vs)) = step (run (insertCell b (.coll false []) true) (callsValues vs)) .endSequence by
      simp [calls, run_cons, run_append, step, run_nil], gtree, h0]
    obtain ⟨ns, hf⟩ := values_into vs
      (b := { b with heap := b.heap ++ [.coll false []], route := [b.heap.length], root := some b.heap.length })
      (m := false) (c := b.heap.length) (r := []) (es := []) he rfl (by simp)
    have hend := end_coll (m := false) rfl hf
    simp only [Bool.false_eq_true, if_false] at hend
    rw [hend]
    exact ⟨b.heap.length, hf.root, hf.noErr, .seq (Nat.le_refl _) (by simpa [popNode] using hf.cell)
      (hf.reads.mono (fun a p => by simp at p; omega) (fun _ _ _ e => e))⟩
  | map es =>
    have h0 : insertCell b (.coll true []) true =
        { b with heap := b.heap ++ [.coll true []], route := [b.heap.length], root := some b.heap.length } :=
      insert_vacant hagree [.coll true []] b.heap.length true
    rw [show run b (calls (.map es)) = step (run (insertCell b (.coll true []) true) (callsEntries es)) .endMapping by
      simp [calls, run_cons, run_append, step, run_nil], gtree, h0]
    obtain ⟨ns, hf⟩ := entries_into es
      (b := { b with heap := b.heap ++ [.coll true []], route := [b.heap.length], root := some b.heap.length })
      (m := true) (c := b.heap.length) (r := []) (es := []) he rfl (by simp)
    have hend := end_coll (m := true) rfl hf
    simp only [if_true] at hend
    rw [hend]
    exact ⟨b.heap.length, hf.root, hf.noErr, .map (Nat.le_refl _) (by simpa [popNode] using hf.cell)
      (hf.reads.mono (fun a p => by simp at p; omega) (fun _ _ _ e => e))⟩

/-- C18.  Whatever was done with the builder before, after the calls which insert a value `Result` returns no error and
exactly the tree of that value. -/
theorem builder_faithful (unquote : Bool) (earlier : List (Call GNode)) (v : Value GNode) :
    ∃ a, (result (run (used unquote earlier) (calls v))).1 = (some a, none) ∧
      Reads (run (used unquote earlier) (calls v)).heap (fun _ => True) a (gtree unquote v) := by
  obtain ⟨a, h1, h2, h3⟩ := root_tree v (used unquote earlier) rfl rfl
  rw [show (used unquote earlier).unquoteOneliners = unquote from run_opts _ _] at h3
  exact ⟨a, by simp [result, h1, h2], h3.mono (fun _ _ => trivial) (fun _ _ _ e => e)⟩

example : gtree false (.map (.cons (.scalar (.string ['k'])) (.seq (.cons (.scalar .null) .nil)) .nil)) =
    .mapping [.scalar [] ['k'] true, .sequence [.scalar "!!null".toList "null".toList false]] := by
  simp [gtree, gtrees, gentries, scalarGTree]

/-- The tree at an address is unique. -/
theorem tree_unique {h : List Cell} {a : Nat} {n m : GNode} (h1 : Reads h (fun _ => True) a n)
    (h2 : Reads h (fun _ => True) a m) : n = m := h1.det h2

/-- C18.  A tree returned by `Result` is not changed by whatever is done with the builder later. -/
theorem returned_tree_immutable (unquote : Bool) (earlier later : List (Call GNode)) (a : Nat) (n : GNode)
    (hreads : Reads (run (newBuilder unquote) earlier).heap (fun _ => True) a n) :
    Reads (run (used unquote earlier) later).heap (fun _ => True) a n := by
  obtain ⟨t, ht⟩ := (run_fresh (h0 := (used unquote earlier).heap) (b := used unquote earlier)
    ⟨by simp [used, result], [], by simp⟩ later).heap
  rw [ht]
  exact hreads.mono (fun _ p => p) (fun _ _ _ e => getElem?_append_old e)

example : Reads (run (newBuilder true) [.startSequence, .scalar (.boolean true), .endSequence]).heap (fun _ => True) 0
    (.sequence [.scalar [] "true".toList false]) :=
  .seq trivial rfl (.cons (.leaf trivial rfl) .nil)

/-- C19.  After any calls the builder holds an error exactly when the calls are not admissible: a collection was ended
which is not the innermost unfinished one, something was inserted after a scalar document, or a raw insertion failed.
(Unlike the yayamls engine this one admits the end of a mapping between a key and its value, see
`pending_key_unreported`.) -/
theorem misuse_detected (unquote : Bool) (earlier cs : List (Call GNode)) :
    (result (run (used unquote earlier) cs)).1.2 = none ↔
      (Machine.run false rawRoot .vacant cs).isSome = true := by
  have ha : Agree (used unquote earlier) .vacant := ⟨rfl, rfl⟩
  have h := run_agree ha cs
  cases hm : Machine.run false rawRoot .vacant cs with
  | none => simpa [hm, result] using h
  | some m =>
    simp only [hm] at h
    simp [result, h.noErr]

example :
    (Machine.run false rawRoot .vacant [.startMapping, .scalar .null, .startSequence, .endSequence, .endMapping]).isSome ∧
      ¬ (Machine.run false rawRoot .vacant [.startMapping, .scalar .null, .startSequence, .endMapping]).isSome ∧
      ¬ (Machine.run false rawRoot .vacant [.scalar .null, .scalar .null]).isSome := by decide

/-- C19.  The first error is the one reported, and what is inserted after it has no effect. -/
theorem first_error_wins (b : Builder) (e : Err) (he : b.fatalError = some e) (cs : List (Call GNode)) :
    (result (run b cs)).1 = (b.root, some e) := by
  obtain ⟨h1, h2⟩ := run_err (b := b) (by simp [he]) cs
  simp [result, h1, h2, he]

example : (step (newBuilder true) .endSequence).fatalError = some .endSequence := rfl

/-- C19.  `Result` takes the error and the tree away: an empty document follows. -/
theorem result_resets (b : Builder) :
    let b' := (result b).2
    (result b').1 = (none, none) ∧ b'.route = [] ∧ b'.unquoteOneliners = b.unquoteOneliners := ⟨rfl, rfl, rfl⟩

/-- C20 fails for this engine: `EndMapping` accepts a key without a value; the mapping gets an odd number of nodes. -/
theorem pending_key_unreported :
    let b := run (newBuilder false) [.startMapping, .scalar (.string ['k']), .endMapping]
    (result b).1.2 = none ∧
      ∃ a, (result b).1.1 = some a ∧ Reads b.heap (fun _ => True) a (.mapping [.scalar [] ['k'] true]) :=
  ⟨rfl, 0, rfl, .map trivial rfl (.cons (.leaf trivial rfl) .nil)⟩

end Verif.Props.GoyamlBuilder
