import Verif.Lemmas.Reader
import Verif.Lemmas.AnyBuilder
import Verif.Props.Writer

/-!
Generic decoding and writing of trees without aliases.
-/

namespace Verif.ReaderTree

open Verif.Ast Verif.Generic Verif.AnyBuilder Verif.ReaderCursor

variable {lib : Lib} {nulls : Bool}

/-- A builder with other anchors. -/
def withAnchors (a : St) (x : Anchors) : St := { a with anchors := x }

/-- Visiting the node gives the same, whatever the anchors are. -/
def Free (lib : Lib) (n : Node) : Prop :=
  ∀ a, ∃ a', ∀ x, ∃ x', Conv (fun f => visitNode lib f n (withAnchors a x)) (withAnchors a' x')

theorem free_invalid {n : Node} (h : validNode n = false) : Free lib n :=
  fun a => ⟨a, fun x => ⟨x, visit_invalid h⟩⟩

theorem free_step {n : Node} (a a' : St) (h : ∀ x f, visitNode lib (f + 1) n (withAnchors a x) = .ok (withAnchors a' x)) :
    ∃ a', ∀ x, ∃ x', Conv (fun f => visitNode lib f n (withAnchors a x)) (withAnchors a' x') :=
  ⟨a', fun x => ⟨x, Conv.succ (h x) (Conv.pure _)⟩⟩

theorem free_text {t : List Char} {q : Quoting} : Free lib (.text t q) := by
  intro a
  by_cases hs : a.extractString = true
  · exact free_step a { a with stringValue := t } fun x f => by
      rw [visit_step rfl]
      show (if a.extractString = true then _ else _) = _
      rw [if_pos hs]
      rfl
  · refine free_step a (extractText lib t q a) fun x f => ?_
    rw [visit_step rfl]
    show (if a.extractString = true then _ else _) = _
    rw [if_neg hs, extractText, extractText]
    split
    · rfl
    · split <;> rfl

theorem free_null : Free lib .null := by
  intro a
  by_cases hs : a.extractString = true
  · exact free_step a { a with stringValue := "null".toList } fun x f => by
      rw [visit_step rfl]
      show (if a.extractString = true then _ else _) = _
      rw [if_pos hs]
      rfl
  · exact free_step a { a with value := .nil } fun x f => by
      rw [visit_step rfl]
      show (if a.extractString = true then _ else _) = _
      rw [if_neg hs]
      rfl

theorem free_items : ∀ (es : List Node), (∀ e ∈ es, Free lib e) → ∀ a s, ∃ a' s', ∀ x, ∃ x',
    Conv (fun f => visitItems (visitNode lib f) es (withAnchors a x) s) (withAnchors a' x', s')
  | [], _, a, s => ⟨a, s, fun x => ⟨x, Conv.pure _⟩⟩
  | e :: es, h, a, s => by
    obtain ⟨a1, h1⟩ := h e List.mem_cons_self a
    obtain ⟨a2, s2, h2⟩ := free_items es (fun e he => h e (List.mem_cons_of_mem _ he)) a1
      (if a1.hasErrors then s else s ++ [a1.value])
    refine ⟨a2, s2, fun x => ?_⟩
    obtain ⟨x1, h3⟩ := h1 x
    obtain ⟨x2, h4⟩ := h2 x1
    exact ⟨x2, Conv.congr (fun f => by rw [visitItems]) (Conv.bind h3 h4)⟩

theorem free_entries : ∀ (es : List Node), (∀ e ∈ es, Free lib e) → ∀ a m, ∃ a' m', ∀ x, ∃ x',
    Conv (fun f => visitEntries (visitNode lib f) es (withAnchors a x) m) (withAnchors a' x', m')
  | [], _, a, m => ⟨a, m, fun x => ⟨x, Conv.pure _⟩⟩
  | e :: es, h, a, m => by
    have hes : ∀ e ∈ es, Free lib e := fun e he => h e (List.mem_cons_of_mem _ he)
    obtain ⟨a1, h1⟩ := h e List.mem_cons_self a
    by_cases he : a1.hasErrors = true
    · obtain ⟨a2, m2, h2⟩ := free_entries es hes a1 m
      refine ⟨a2, m2, fun x => ?_⟩
      obtain ⟨x1, h3⟩ := h1 x
      obtain ⟨x2, h4⟩ := h2 x1
      refine ⟨x2, Conv.congr (fun f => by rw [visitEntries]) (Conv.bind h3 (Conv.congr (fun f => ?_) h4))⟩
      exact if_pos he
    · cases hm : a1.mergeMap with
      | none =>
        obtain ⟨a2, m2, h2⟩ := free_entries es hes a1 (mset m a1.stringValue a1.value)
        refine ⟨a2, m2, fun x => ?_⟩
        obtain ⟨x1, h3⟩ := h1 x
        obtain ⟨x2, h4⟩ := h2 x1
        refine ⟨x2, Conv.congr (fun f => by rw [visitEntries]) (Conv.bind h3 (Conv.congr (fun f => ?_) h4))⟩
        refine (if_neg he).trans ?_
        show (match a1.mergeMap with | none => _ | some mm => _) = _
        rw [hm]
        rfl
      | some mm =>
        obtain ⟨a2, m2, h2⟩ := free_entries es hes { a1 with mergeMap := none } (mergeMaps m mm)
        refine ⟨a2, m2, fun x => ?_⟩
        obtain ⟨x1, h3⟩ := h1 x
        obtain ⟨x2, h4⟩ := h2 x1
        refine ⟨x2, Conv.congr (fun f => by rw [visitEntries]) (Conv.bind h3 (Conv.congr (fun f => ?_) h4))⟩
        refine (if_neg he).trans ?_
        show (match a1.mergeMap with | none => _ | some mm => _) = _
        rw [hm]
        rfl

theorem free_sequence {es : List Node} (h : ∀ e ∈ es, Free lib e) : Free lib (.sequence es) := by
  intro a
  obtain ⟨a1, s1, h1⟩ := free_items es h { a with extractString := false } []
  refine ⟨if a.extractString then { a1 with extractString := a.extractString, stringValue := lib.sprint (.list s1) }
    else { a1 with extractString := a.extractString, value := .list s1 }, fun x => ?_⟩
  obtain ⟨x1, h2⟩ := h1 x
  refine ⟨x1, Conv.succ (fun f => visit_step rfl) (Conv.bind h2 (Conv.congr (fun f => ?_) (Conv.pure _)))⟩
  show (if a.extractString = true then _ else _) = _
  split <;> rfl

theorem free_mapping {es : List Node} (h : ∀ e ∈ es, Free lib e) : Free lib (.mapping es) := by
  intro a
  obtain ⟨a1, m1, h1⟩ := free_entries es h a []
  refine ⟨if a1.extractMergeMap then { a1 with mergeMap := some m1 }
    else if a1.extractString then { a1 with stringValue := lib.sprint (.map m1) }
    else { a1 with value := .map m1 }, fun x => ?_⟩
  obtain ⟨x1, h2⟩ := h1 x
  refine ⟨x1, Conv.succ (fun f => visit_step rfl) (Conv.bind h2 (Conv.congr (fun f => ?_) (Conv.pure _)))⟩
  show (if a1.extractMergeMap = true then _ else if a1.extractString = true then _ else _) = _
  split
  · rfl
  · split <;> rfl

theorem free_entry {k v : Node} (hk : Free lib k) (hv : Free lib v) : Free lib (.mappingEntry k v) := by
  intro a
  obtain ⟨a1, h1⟩ := hk { a with extractString := true }
  obtain ⟨a2, h2⟩ := hv (valueState a1)
  refine ⟨restored a a1.stringValue a2, fun x => ?_⟩
  obtain ⟨x1, h3⟩ := h1 x
  obtain ⟨x2, h4⟩ := h2 x1
  have : valueState (withAnchors a1 x1) = withAnchors (valueState a1) x1 := by
    by_cases h : a1.stringValue = Schema.mergeKey
    · simp [valueState, withAnchors, h]
    · simp [valueState, withAnchors, h]
  exact ⟨x2, visit_entry (a := withAnchors a x) h3 (by rw [this]; exact h4)⟩

theorem free_attr {n : Node} (h : Attr n) : Free lib n := by
  cases h with
  | tag => exact fun a => free_step a a fun x f => by rw [visit_step rfl]
  | @anchor t =>
    exact fun a => ⟨a, fun x => ⟨x.store t, Conv.succ (g' := fun _ => .ok (withAnchors a (x.store t)))
      (fun f => by rw [visit_step rfl]; rfl) (Conv.pure _)⟩⟩
  | @properties t b _ hb =>
    intro a
    cases hv : validNode b with
    | false =>
      obtain ⟨a', h⟩ := free_invalid (lib := lib) hv a
      refine ⟨a', fun x => ?_⟩
      obtain ⟨x', hx⟩ := h x
      exact ⟨x', Conv.succ (fun f => visit_step rfl) hx⟩
    | true =>
      obtain ⟨s, rfl⟩ := hb hv
      refine ⟨a, fun x => ⟨x.store s, Conv.succ (fun f => visit_step rfl) ?_⟩⟩
      exact Conv.succ (g' := fun _ => .ok (withAnchors a (x.store s))) (fun f => rfl) (Conv.pure _)

theorem free_content {p c : Node} (hp : Free lib p) (hc : Free lib c) : Free lib (.content p c) := by
  intro a
  obtain ⟨a1, h1⟩ := hp a
  obtain ⟨a2, h2⟩ := hc a1
  refine ⟨a2, fun x => ?_⟩
  obtain ⟨x1, h3⟩ := h1 x
  obtain ⟨x2, h4⟩ := h2 (x1.bind c)
  exact ⟨x2, Conv.succ (fun f => visit_step rfl) (Conv.bind h3 h4)⟩

theorem tree_free {n : Node} (h : Tree nulls n) : Free lib n := by
  induction h with
  | text => exact free_text
  | null => exact free_null
  | sequence _ ih => exact free_sequence ih
  | mapping _ ih => exact free_mapping ih
  | entry _ _ ih1 ih2 => exact free_entry ih1 ih2
  | @content p c hp _ ih =>
    refine free_content ?_ ih
    cases hv : validNode p with
    | false => exact free_invalid hv
    | true =>
      obtain ⟨_, _, _, h⟩ := hp hv
      exact free_attr h
  | @stream ds _ _ => exact fun a => free_step a (a.appendError .stream) fun x f => by rw [visit_step rfl]; rfl

/-- Generic decoding of a tree ends, and its result does not depend on the anchors met before. -/
theorem extract_conv {n : Node} (h : Tree nulls n) :
    ∃ v, ∀ a, ∃ a', Conv (fun f => extractAnyValue lib f n a) (v, a') := by
  obtain ⟨a', h1⟩ := tree_free (lib := lib) h (newAnyBuilder {})
  refine ⟨if a'.hasErrors then none else some a'.value, fun x => ?_⟩
  obtain ⟨x', h2⟩ := h1 x
  refine ⟨x', Conv.bind (x := withAnchors a' x') h2 (Conv.congr (fun f => ?_) (Conv.pure _))⟩
  show (if a'.hasErrors = true then _ else _) = _
  split <;> rfl

theorem attr_nilFree {n : Node} (h : Attr n) : Writer.NilFree n := by
  cases h with
  | tag => trivial
  | anchor => trivial
  | properties h1 h2 =>
    rw [Writer.NilFree]
    refine ⟨fun h => ?_, fun h => ?_⟩
    · obtain ⟨s, rfl⟩ := h1 h
      trivial
    · obtain ⟨s, rfl⟩ := h2 h
      trivial

theorem list_nilFree : ∀ {l : List Node}, (∀ n ∈ l, Writer.NilFree n) → Writer.NilFreeList l
  | [], _ => trivial
  | n :: l, h => by
    rw [Writer.NilFreeList]
    exact ⟨h n List.mem_cons_self, list_nilFree fun m hm => h m (List.mem_cons_of_mem _ hm)⟩

theorem tree_nilFree {n : Node} (h : Tree nulls n) : Writer.NilFree n := by
  induction h with
  | text => trivial
  | null => trivial
  | sequence _ ih =>
    rw [Writer.NilFree]
    exact list_nilFree ih
  | mapping _ ih =>
    rw [Writer.NilFree]
    exact list_nilFree ih
  | entry _ _ ih1 ih2 =>
    rw [Writer.NilFree]
    exact ⟨ih1, ih2⟩
  | content hp _ ih =>
    rw [Writer.NilFree]
    refine ⟨fun h => ?_, ih⟩
    obtain ⟨_, _, _, h⟩ := hp h
    exact attr_nilFree h
  | stream _ ih =>
    rw [Writer.NilFree]
    exact list_nilFree ih

/-- A tree can be written. -/
theorem write_conv {n : Node} (h : Tree nulls n) : ∃ s, (Writer.writeBytes Writer.newWriter n).1 = .text s := by
  obtain ⟨s, hs⟩ := Props.Writer.write_succeeds Writer.newWriter n (tree_nilFree h)
  exact ⟨s, ((Props.Writer.variants_agree Writer.newWriter Writer.newWriter Writer.newWriter n s).1).mp hs⟩

theorem tree_mono {n : Node} (h : Tree nulls n) : Tree true n := by
  induction h with
  | text => exact .text
  | null => exact .null rfl
  | sequence _ ih => exact .sequence ih
  | mapping _ ih => exact .mapping ih
  | entry _ _ ih1 ih2 => exact .entry ih1 ih2
  | content hp _ ih => exact .content hp ih
  | stream _ ih => exact .stream ih

end Verif.ReaderTree
