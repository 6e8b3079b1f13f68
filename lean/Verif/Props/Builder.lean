import Verif.Lemmas.BuilderProtocol
import Verif.Lemmas.Writer
import Verif.Model.Encoder

/-!
C18, C19, C20 for the yayamls engine: the tree builder (`engines/yayamls/encode/builder.go`) and the encoder
(`encode.go`).

`run b cs` makes the calls `cs`; `result` is `Result()`.  `Reads heap P a n` says that the tree hanging at the address `a`
is `n` (see `Verif.Model.Builder`).
-/

set_option linter.unusedSimpArgs false

namespace Verif.Props.Builder

open Verif.Ast Verif.Inserter Verif.Protocol Verif.Builder Verif.Writer Verif.Encoder

/-- A builder after any calls and a `Result`. -/
def used (unquote : Bool) (cs : List (Call Node)) : Builder := (result (run (newBuilder unquote) cs)).2

theorem step_opts (b : Builder) (c : Call Node) : (step b c).unquoteOneliners = b.unquoteOneliners := by
  cases c with
  | scalar s => exact insertCell_opts _ _ _
  | startSequence => exact insertCell_opts _ _ _
  | startMapping => exact insertCell_opts _ _ _
  | endSequence =>
    simp only [step, endSequence]
    split
    · rfl
    split <;> rfl
  | endMapping =>
    simp only [step, endMapping]
    split
    · rfl
    split <;> rfl
  | raw t =>
    simp only [step, insertRaw]
    split
    · rfl
    split
    · rfl
    split
    · rfl
    exact insertNode_opts _ _ _
  | rawText t =>
    simp only [step, insertRawText]
    split
    · rfl
    split
    · rfl
    exact insertCell_opts _ _ _

theorem run_opts (b : Builder) (cs : List (Call Node)) : (run b cs).unquoteOneliners = b.unquoteOneliners := by
  induction cs generalizing b with
  | nil => rfl
  | cons c cs ih => rw [run_cons, ih, step_opts]

theorem used_opts (u : Bool) (cs : List (Call Node)) : (used u cs).unquoteOneliners = u := run_opts _ cs

/-- The document written by the calls of a value is the tree of the value. -/
theorem root_tree (v : Value Node) (hraw : ∀ n ∈ raws v, RawOk n) (b : Builder) (he : b.fatalError = none)
    (hr : b.route = []) :
    ∃ a, (run b (calls v)).root = some a ∧ (run b (calls v)).fatalError = none ∧
      Reads (run b (calls v)).heap (fun x => b.heap.length ≤ x) a (tree b.unquoteOneliners v) := by
  have hagree : Agree b .vacant := ⟨he, by simp [hr], hr⟩
  cases v with
  | scalar s =>
    have hb : run b (calls (.scalar s)) =
        insertNode { b with heap := b.heap ++ [.leaf (scalarNode b.unquoteOneliners s)] } b.heap.length false := rfl
    rw [hb, insert_vacant hagree, tree, ← scalarNode_eq]
    exact ⟨_, rfl, he, .leaf (Nat.le_refl _) (by simp)⟩
  | raw n =>
    have hn : RawOk n := hraw n (by simp [raws])
    obtain ⟨⟨t, ht⟩, hreads⟩ := load_spec b.heap n
    have hb : run b (calls (.raw n)) = insertNode { b with heap := b.heap ++ t } (load b.heap n).1 false := by
      simp only [calls, run, List.foldl_cons, List.foldl_nil, step, insertRaw, he, Option.isSome_none,
        Bool.false_eq_true, if_false]
      rw [if_neg hn]
      simp only [ht]
    rw [hb, insert_vacant hagree, tree]
    rw [ht] at hreads
    exact ⟨_, rfl, he, hreads⟩
  | seq vs =>
    have h0 : insertCell b (.seq []) true =
        { b with heap := b.heap ++ [.seq []], route := [b.heap.length], root := some b.heap.length } :=
      insert_vacant hagree [.seq []] b.heap.length true
    rw [show run b (calls (.seq vs)) = run (run (insertCell b (.seq []) true) (callsValues vs)) [.endSequence] by
      simp [calls, run_cons, run_append, step], tree, h0]
    obtain ⟨ns, hk, hrt, hcell, hreads⟩ := values_into vs (fun n hn => hraw n (by simpa [raws] using hn))
      (b := { b with heap := b.heap ++ [.seq []], route := [b.heap.length], root := some b.heap.length })
      (c := b.heap.length) (r := []) (es := []) he rfl (by simp) (by simp)
    have hcur := currentNode_eq (hrt.trans rfl) hcell trivial
    rw [run_cons, run_nil]
    simp only [step, endSequence, hk.noErr, hcur, Option.isSome_none, Bool.false_eq_true, if_false]
    refine ⟨b.heap.length, hk.root, hk.noErr, .seq (Nat.le_refl _) hcell ?_⟩
    refine hreads.mono (fun a p => ?_) (fun _ _ _ e => e)
    simp at p
    omega
  | map es =>
    have h0 : insertCell b (.map []) true =
        { b with heap := b.heap ++ [.map []], route := [b.heap.length], root := some b.heap.length } :=
      insert_vacant hagree [.map []] b.heap.length true
    rw [show run b (calls (.map es)) = run (run (insertCell b (.map []) true) (callsEntries es)) [.endMapping] by
      simp [calls, run_cons, run_append, step], tree, h0]
    obtain ⟨ns, hk, hrt, hcell, hreads⟩ := entries_into es (fun n hn => hraw n (by simpa [raws] using hn))
      (b := { b with heap := b.heap ++ [.map []], route := [b.heap.length], root := some b.heap.length })
      (c := b.heap.length) (r := []) (as := []) he rfl (by simp) (by simp)
    have hcur := currentNode_eq (hrt.trans rfl) hcell trivial
    rw [run_cons, run_nil]
    simp only [step, endMapping, hk.noErr, hcur, Option.isSome_none, Bool.false_eq_true, if_false]
    refine ⟨b.heap.length, hk.root, hk.noErr, .map (Nat.le_refl _) hcell ?_⟩
    refine hreads.mono (fun a p => ?_) (fun _ _ _ e => e)
    simp at p
    omega

/-- C18.  Whatever was done with the builder before, after the calls which insert a value `Result` returns no error and
exactly the tree of that value. -/
theorem builder_faithful (unquote : Bool) (earlier : List (Call Node)) (v : Value Node)
    (hraw : ∀ n ∈ raws v, n.type? ≠ some .stream) :
    ∃ a, (result (run (used unquote earlier) (calls v))).1 = (some a, none) ∧
      Reads (run (used unquote earlier) (calls v)).heap (fun _ => True) a (tree unquote v) := by
  obtain ⟨a, h1, h2, h3⟩ := root_tree v hraw (used unquote earlier) rfl rfl
  rw [used_opts] at h3
  exact ⟨a, by simp [result, h1, h2], h3.mono (fun _ _ => trivial) (fun _ _ _ e => e)⟩

/-- A mapping with a sequence and an empty mapping inside, inserted after a failed document. -/
example :
    let v : Value Node := .map (.cons (.scalar (.string ['k']))
      (.seq (.cons (.scalar (.integer (-7))) (.cons (.map .nil) .nil))) .nil)
    ∃ a, (result (run (used true [.startMapping, .endSequence]) (calls v))).1 = (some a, none) ∧
      Reads (run (used true [.startMapping, .endSequence]) (calls v)).heap (fun _ => True) a
        (.mapping [.mappingEntry (.text ['k'] .absent) (.sequence [.text ['-', '7'] .absent, .mapping []])]) := by
  have h := builder_faithful true [.startMapping, .endSequence] (.map (.cons (.scalar (.string ['k']))
      (.seq (.cons (.scalar (.integer (-7))) (.cons (.map .nil) .nil))) .nil)) (by simp [raws, rawsEntries, rawsValues])
  have e : tree true (.map (.cons (.scalar (.string ['k']))
      (.seq (.cons (.scalar (.integer (-7))) (.cons (.map .nil) .nil))) .nil)) =
      .mapping [.mappingEntry (.text ['k'] .absent) (.sequence [.text ['-', '7'] .absent, .mapping []])] := by
    simp only [tree, entryTrees, trees, scalarTree]
    rw [show Schema.fromInteger (-7) = ['-', '7'] by decide +kernel]
    simp
  rw [e] at h
  exact h

/-- The tree at an address is unique. -/
theorem tree_unique {h : List Cell} {a : Nat} {n m : Node} (h1 : Reads h (fun _ => True) a n)
    (h2 : Reads h (fun _ => True) a m) : n = m := h1.det h2

/-- C18.  A tree returned by `Result` is not changed by whatever is done with the builder later. -/
theorem returned_tree_immutable (unquote : Bool) (earlier later : List (Call Node)) (a : Nat) (n : Node)
    (hreads : Reads (run (newBuilder unquote) earlier).heap (fun _ => True) a n) :
    Reads (run (used unquote earlier) later).heap (fun _ => True) a n := by
  obtain ⟨t, ht⟩ := (run_fresh (h0 := (used unquote earlier).heap) (b := used unquote earlier)
    ⟨by simp [used, result], [], by simp⟩ later).heap
  rw [ht]
  exact hreads.mono (fun _ p => p) (fun _ _ _ e => getElem?_append_old e)

example : Reads (run (newBuilder true) [.startSequence, .scalar .null, .endSequence]).heap (fun _ => True) 0
    (.sequence [.null]) :=
  .seq trivial rfl (.cons (.leaf trivial rfl) .nil)

/-- C19.  After any calls the builder holds an error exactly when the calls are not admissible: a collection was ended
which is not the innermost unfinished one, a mapping was ended between a key and its value, something was inserted after
a scalar document, or a raw insertion failed. -/
theorem misuse_detected (unquote : Bool) (earlier cs : List (Call Node)) (hc : ∀ c ∈ cs, CallOk c) :
    (result (run (used unquote earlier) cs)).1.2 = none ↔
      (Machine.run true rawRoot .vacant cs).isSome = true := by
  have ha : Agree (used unquote earlier) .vacant := ⟨rfl, by simp [used, result], rfl⟩
  have h := run_agree ha cs hc
  cases hm : Machine.run true rawRoot .vacant cs with
  | none => simpa [hm, result] using h
  | some m =>
    simp only [hm] at h
    simp [result, h.noErr]

/-- Admissible and inadmissible calls. -/
example :
    (Machine.run true rawRoot .vacant [.startMapping, .scalar .null, .startSequence, .endSequence, .endMapping]).isSome ∧
      ¬ (Machine.run true rawRoot .vacant [.startMapping, .scalar .null, .startSequence, .endMapping]).isSome ∧
      ¬ (Machine.run true rawRoot .vacant [.startMapping, .scalar .null, .endMapping]).isSome ∧
      ¬ (Machine.run true rawRoot .vacant [.scalar .null, .scalar .null]).isSome := by decide

/-- C19.  The first error is the one reported, and what is inserted after it has no effect. -/
theorem first_error_wins (b : Builder) (e : Err) (he : b.fatalError = some e) (cs : List (Call Node)) :
    (result (run b cs)).1 = (b.root, some e) := by
  obtain ⟨h1, h2⟩ := run_err (b := b) (by simp [he]) cs
  simp [result, h1, h2, he]

example : (step (newBuilder true) .endSequence).fatalError = some .endSequenceInvalid := rfl

/-- C19.  `Result` takes the error and the tree away: an empty document follows. -/
theorem result_resets (b : Builder) :
    let b' := (result b).2
    (result b').1 = (none, none) ∧ b'.route = [] ∧ b'.unquoteOneliners = b.unquoteOneliners := ⟨rfl, rfl, rfl⟩

/-- C20.  The end of a mapping which waits for the value of a key is an error. -/
theorem pending_key_reported (unquote : Bool) (earlier cs : List (Call Node)) (hc : ∀ c ∈ cs, CallOk c)
    (fs : List Frame) (hm : Machine.run true rawRoot .vacant cs = some (.opened .value fs)) :
    (result (run (used unquote earlier) (cs ++ [.endMapping]))).1.2 ≠ none := by
  have hc' : ∀ c ∈ cs ++ [Call.endMapping], CallOk c := by
    intro c h
    rcases List.mem_append.mp h with h | h
    · exact hc c h
    · rw [List.mem_singleton] at h
      subst h
      trivial
  intro h
  have h2 := (misuse_detected unquote earlier (cs ++ [.endMapping]) hc').mp h
  have append : ∀ (cs ds : List (Call Node)) (m : Machine), Machine.run true rawRoot m (cs ++ ds) =
      (Machine.run true rawRoot m cs).bind (fun m => Machine.run true rawRoot m ds) := by
    intro cs ds
    induction cs with
    | nil => intro m; rfl
    | cons c cs ih =>
      intro m
      simp only [List.cons_append, Machine.run]
      cases m.step true rawRoot c with
      | none => rfl
      | some m' => exact ih m'
  rw [append, hm] at h2
  simp [Machine.run, Machine.step] at h2

example : Machine.run true rawRoot .vacant [.startMapping, .scalar (.integer 1), .scalar .null, .scalar (.integer 2)] =
    some (.opened .value []) := rfl

/-- C20, the part which holds.  A value which is inserted completely is encoded without a panic and without an error. -/
theorem encoder_total_partial (unquote : Bool) (earlier : List (Call Node)) (v : Value Node) (w : Writer)
    (hraw : ∀ n ∈ raws v, n.type? ≠ some .stream ∧ NilFree n) :
    (∃ s, Encodes (run (used unquote earlier) (calls v)) w (.text s)) ∧
      ∀ o, Encodes (run (used unquote earlier) (calls v)) w o → ∃ s, o = .text s := by
  obtain ⟨a, h1, h2⟩ := builder_faithful unquote earlier v (fun n hn => (hraw n hn).1)
  have hnf := tree_nilFree unquote v (fun n hn => (hraw n hn).2)
  have htext : ∃ s, (writeString w (tree unquote v)).1 = .text s := by
    obtain ⟨w', hw⟩ := visit_total _ hnf (reset w)
    have hs := visit_same _ _ _ hw
    have he : w'.errors = 0 := hs.2.1
    simp [writeString, writeTo, write, hw, he]
  obtain ⟨s, hs⟩ := htext
  refine ⟨⟨s, ?_⟩, ?_⟩
  · rw [← hs]
    exact .tree h1 h2
  · intro o ho
    cases ho with
    | error h => rw [h1] at h; cases h
    | nilTree h => rw [h1] at h; cases h
    | tree h r =>
      rw [h1] at h
      cases h
      rw [r.det h2]
      exact ⟨s, hs⟩

/-- C20 fails: a document which is not finished is accepted by `Result`, and encoding it panics. -/
theorem unfinished_mapping_panics :
    let b := run (newBuilder false) [.startMapping, .scalar (.string ['k'])]
    (result b).1.2 = none ∧ Encodes b newWriter .panicked := by
  refine ⟨rfl, ?_⟩
  have h : Encodes (run (newBuilder false) [.startMapping, .scalar (.string ['k'])]) newWriter
      (writeString newWriter (.mapping [.mappingEntry (.text ['k'] .double) .nil])).1 :=
    .tree (a := 0) rfl (.map trivial rfl (.cons (.entryNone trivial rfl (.leaf trivial rfl)) .nil))
  exact h

/-- C20 fails: encoding nothing panics. -/
theorem empty_document_panics (w : Writer) : Encodes (newBuilder false) w .panicked := .nilTree rfl

/-- C19 fails to cover this: a second document silently replaces the first one. -/
theorem second_root_replaces :
    let b := run (newBuilder false) [.startSequence, .endSequence, .startMapping, .endMapping]
    (result b).1.2 = none ∧ ∃ a, (result b).1.1 = some a ∧ Reads b.heap (fun _ => True) a (.mapping []) :=
  ⟨rfl, 1, rfl, .map trivial rfl .nil⟩

end Verif.Props.Builder
