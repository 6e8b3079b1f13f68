import Verif.Model.GoyamlBuilder
import Verif.Spec.Protocol

/-! Lemmas about the builder of the goyaml engine. -/

set_option linter.unusedSimpArgs false

namespace Verif.GoyamlBuilder

open Verif.Inserter Verif.Protocol

mutual
theorem Reads.mono {h h' : List Cell} {P P' : Nat → Prop} (hP : ∀ a, P a → P' a)
    (hh : ∀ a c, P a → h[a]? = some c → h'[a]? = some c) {a : Nat} {n : GNode} : Reads h P a n → Reads h' P' a n
  | .leaf p e => .leaf (hP _ p) (hh _ _ p e)
  | .seq p e r => .seq (hP _ p) (hh _ _ p e) (ReadsList.mono hP hh r)
  | .map p e r => .map (hP _ p) (hh _ _ p e) (ReadsList.mono hP hh r)

theorem ReadsList.mono {h h' : List Cell} {P P' : Nat → Prop} (hP : ∀ a, P a → P' a)
    (hh : ∀ a c, P a → h[a]? = some c → h'[a]? = some c) {as : List Nat} {ns : List GNode} :
    ReadsList h P as ns → ReadsList h' P' as ns
  | .nil => .nil
  | .cons r s => .cons (Reads.mono hP hh r) (ReadsList.mono hP hh s)
end

mutual
theorem Reads.det {h : List Cell} {P Q : Nat → Prop} {a : Nat} {n m : GNode} (h1 : Reads h P a n)
    (h2 : Reads h Q a m) : n = m := by
  cases h1 with
  | leaf _ e => cases h2 <;> simp_all
  | seq _ e r =>
    cases h2 with
    | seq _ e2 r2 => rw [e] at e2; cases e2; rw [ReadsList.det r r2]
    | _ => simp_all
  | map _ e r =>
    cases h2 with
    | map _ e2 r2 => rw [e] at e2; cases e2; rw [ReadsList.det r r2]
    | _ => simp_all

theorem ReadsList.det {h : List Cell} {P Q : Nat → Prop} {as : List Nat} {ns ms : List GNode}
    (h1 : ReadsList h P as ns) (h2 : ReadsList h Q as ms) : ns = ms := by
  cases h1 with
  | nil => cases h2; rfl
  | cons r s =>
    cases h2 with
    | cons r2 s2 => rw [Reads.det r r2, ReadsList.det s s2]
end

theorem Reads.self {h : List Cell} {P : Nat → Prop} {a : Nat} {n : GNode} (hr : Reads h P a n) :
    P a ∧ a < h.length := by
  cases hr with
  | leaf p e => exact ⟨p, (List.getElem?_eq_some_iff.mp e).1⟩
  | seq p e _ => exact ⟨p, (List.getElem?_eq_some_iff.mp e).1⟩
  | map p e _ => exact ⟨p, (List.getElem?_eq_some_iff.mp e).1⟩

mutual
theorem Reads.bounded {h : List Cell} {P : Nat → Prop} {a : Nat} {n : GNode} :
    Reads h P a n → Reads h (fun a => P a ∧ a < h.length) a n
  | .leaf p e => .leaf ⟨p, (List.getElem?_eq_some_iff.mp e).1⟩ e
  | .seq p e r => .seq ⟨p, (List.getElem?_eq_some_iff.mp e).1⟩ e (ReadsList.bounded r)
  | .map p e r => .map ⟨p, (List.getElem?_eq_some_iff.mp e).1⟩ e (ReadsList.bounded r)

theorem ReadsList.bounded {h : List Cell} {P : Nat → Prop} {as : List Nat} {ns : List GNode} :
    ReadsList h P as ns → ReadsList h (fun a => P a ∧ a < h.length) as ns
  | .nil => .nil
  | .cons r s => .cons (Reads.bounded r) (ReadsList.bounded s)
end

theorem getElem?_append_old {h : List Cell} {t : List Cell} {a : Nat} {c : Cell} (e : h[a]? = some c) :
    (h ++ t)[a]? = some c := by
  have := (List.getElem?_eq_some_iff.mp e).1
  rw [List.getElem?_append_left this, e]

mutual
theorem load_spec (h : List Cell) (n : GNode) :
    (∃ t, (load h n).2 = h ++ t) ∧ Reads (load h n).2 (fun a => h.length ≤ a) (load h n).1 n := by
  cases n with
  | sequence es =>
    obtain ⟨⟨t, ht⟩, hr⟩ := loadList_spec h es
    rw [load]
    refine ⟨⟨t ++ [.coll false (loadList h es).1], by simp [ht]⟩, ?_⟩
    refine .seq (as := (loadList h es).1) (by simp [ht]) (by simp) ?_
    exact hr.mono (fun _ p => p) (fun _ _ _ e => getElem?_append_old e)
  | mapping es =>
    obtain ⟨⟨t, ht⟩, hr⟩ := loadList_spec h es
    rw [load]
    refine ⟨⟨t ++ [.coll true (loadList h es).1], by simp [ht]⟩, ?_⟩
    refine .map (as := (loadList h es).1) (by simp [ht]) (by simp) ?_
    exact hr.mono (fun _ p => p) (fun _ _ _ e => getElem?_append_old e)
  | _ => exact ⟨⟨_, rfl⟩, .leaf (by simp [load]) (by simp [load])⟩

theorem loadList_spec (h : List Cell) (ns : List GNode) :
    (∃ t, (loadList h ns).2 = h ++ t) ∧
      ReadsList (loadList h ns).2 (fun a => h.length ≤ a) (loadList h ns).1 ns := by
  cases ns with
  | nil => exact ⟨⟨[], by simp [loadList]⟩, .nil⟩
  | cons n ns =>
    obtain ⟨⟨t, ht⟩, hr⟩ := load_spec h n
    obtain ⟨⟨t2, ht2⟩, hr2⟩ := loadList_spec (load h n).2 ns
    rw [loadList]
    refine ⟨⟨t ++ t2, ?_⟩, .cons ?_ ?_⟩
    · have e3 := congrArg (· ++ t2) ht
      simp only [← List.append_assoc, ← e3, ht2]
    · refine hr.mono (fun _ p => p) (fun _ _ _ e => ?_)
      simp only [ht2]
      exact getElem?_append_old e
    · refine hr2.mono (fun a p => ?_) (fun _ _ _ e => e)
      have : h.length ≤ (load h n).2.length := by simp [ht]
      omega
end

/-- The parts of the state which an insertion below the collection `c` keeps. -/
structure Keeps (b b' : Builder) (c : Nat) : Prop where
  noErr : b'.fatalError = none
  root : b'.root = b.root
  opts : b'.unquoteOneliners = b.unquoteOneliners
  grows : b.heap.length ≤ b'.heap.length
  frame : ∀ a, a < b.heap.length → a ≠ c → b'.heap[a]? = b.heap[a]?

theorem insertNode_coll {b : Builder} {c : Nat} {r : List Nat} {m : Bool} {es : List Nat} (n : Nat) (push : Bool)
    (he : b.fatalError = none) (hr : b.route = c :: r) (hc : b.heap[c]? = some (.coll m es)) :
    insertNode b n push =
      { b with heap := b.heap.set c (.coll m (es ++ [n])), route := if push then n :: c :: r else c :: r } := by
  cases push <;> simp [insertNode, he, currentNode, hr, hc, pushNode]

/-- `b'` is `b` after the nodes `ns` were attached to the current collection. -/
structure Filled (b b' : Builder) (m : Bool) (c : Nat) (es ns : List Nat) (ts : List GNode) : Prop extends
    Keeps b b' c where
  route : b'.route = b.route
  cell : b'.heap[c]? = some (.coll m (es ++ ns))
  reads : ReadsList b'.heap (fun a => b.heap.length ≤ a) ns ts

theorem ReadsList.append {h : List Cell} {P : Nat → Prop} {as bs : List Nat} {ns ms : List GNode}
    (h1 : ReadsList h P as ns) (h2 : ReadsList h P bs ms) : ReadsList h P (as ++ bs) (ns ++ ms) := by
  induction as generalizing ns with
  | nil => cases h1; simpa using h2
  | cons a as ih =>
    cases h1 with
    | cons r s => exact .cons r (ih s)

theorem Filled.trans {b b1 b2 : Builder} {m : Bool} {c : Nat} {es ns ns2 : List Nat} {ts ts2 : List GNode}
    (hc : c < b.heap.length) (h1 : Filled b b1 m c es ns ts) (h2 : Filled b1 b2 m c (es ++ ns) ns2 ts2) :
    Filled b b2 m c es (ns ++ ns2) (ts ++ ts2) := by
  have g1 := h1.grows
  have g2 := h2.grows
  refine ⟨⟨h2.noErr, h2.root.trans h1.root, h2.opts.trans h1.opts, by omega, ?_⟩, h2.route.trans h1.route,
    by rw [h2.cell, List.append_assoc], ?_⟩
  · intro a hlt hne
    rw [h2.frame a (by omega) hne, h1.frame a hlt hne]
  · refine ReadsList.append ?_ ?_
    · refine h1.reads.bounded.mono (fun a p => p.1) (fun a cl p e => ?_)
      rw [h2.frame a p.2 (by omega), e]
    · exact h2.reads.mono (fun a p => by omega) (fun _ _ _ e => e)

theorem run_append (b : Builder) (cs ds : List (Call GNode)) : run b (cs ++ ds) = run (run b cs) ds := by
  simp [run, List.foldl_append]

theorem run_cons (b : Builder) (c : Call GNode) (cs : List (Call GNode)) : run b (c :: cs) = run (step b c) cs := rfl

theorem run_nil (b : Builder) : run b [] = b := rfl

theorem scalarNode_eq (u : Bool) (s : Scalar) : scalarNode u s = scalarGTree u s := by
  cases s <;> simp [scalarNode, scalarGTree, Scalar.text, Schema.fromBoolean, isMultiline]

/-- A collection is attached, filled, and taken from the route again. -/
theorem collection_into {b b2 : Builder} {m m2 : Bool} {c : Nat} {r es ns : List Nat} {ts : List GNode}
    (he : b.fatalError = none) (hr : b.route = c :: r) (hc : b.heap[c]? = some (.coll m es))
    (hfill : Filled (insertCell b (.coll m2 []) true) b2 m2 b.heap.length [] ns ts) :
    Filled b (popNode b2) m c es [b.heap.length] [if m2 then .mapping ts else .sequence ts] := by
  have hcl := (List.getElem?_eq_some_iff.mp hc).1
  have hc0 : ({ b with heap := b.heap ++ [.coll m2 []] } : Builder).heap[c]? = some (.coll m es) :=
    getElem?_append_old hc
  have hb1 : insertCell b (.coll m2 []) true = _ := insertNode_coll b.heap.length true he hr hc0
  rw [hb1] at hfill
  simp only [if_true] at hfill
  have g := hfill.grows
  simp at g
  have hroute := hfill.route
  refine ⟨⟨hfill.noErr, hfill.root, hfill.opts, by simp [popNode]; omega, ?_⟩, ?_, ?_, ?_⟩
  · intro a hlt hne
    simp only [popNode]
    rw [hfill.frame a (by simp; omega) (by omega)]
    simp only
    rw [List.getElem?_set_ne (Ne.symm hne), List.getElem?_append_left hlt]
  · simp [popNode, hroute, hr]
  · simp only [popNode]
    rw [hfill.frame c (by simp; omega) (by omega)]
    simp only
    rw [List.getElem?_set_self (by simp; omega)]
  · have hreads : ReadsList b2.heap (fun a => b.heap.length ≤ a) ns ts :=
      hfill.reads.mono (fun a p => by simp at p; omega) (fun _ _ _ e => e)
    have hcell : b2.heap[b.heap.length]? = some (.coll m2 ns) := by simpa using hfill.cell
    refine .cons ?_ .nil
    cases m2
    · exact .seq (Nat.le_refl _) hcell hreads
    · exact .map (Nat.le_refl _) hcell hreads

theorem fresh_coll {b : Builder} {m m2 : Bool} {c : Nat} {r es : List Nat} (he : b.fatalError = none)
    (hr : b.route = c :: r) (hc : b.heap[c]? = some (.coll m es)) :
    (insertCell b (.coll m2 []) true).fatalError = none ∧
      (insertCell b (.coll m2 []) true).route = b.heap.length :: c :: r ∧
      (insertCell b (.coll m2 []) true).unquoteOneliners = b.unquoteOneliners ∧
      (insertCell b (.coll m2 []) true).heap[b.heap.length]? = some (.coll m2 []) := by
  have hcl := (List.getElem?_eq_some_iff.mp hc).1
  have hc0 : ({ b with heap := b.heap ++ [.coll m2 []] } : Builder).heap[c]? = some (.coll m es) :=
    getElem?_append_old hc
  have hb1 : insertCell b (.coll m2 []) true = _ := insertNode_coll b.heap.length true he hr hc0
  rw [hb1]
  refine ⟨he, rfl, rfl, ?_⟩
  simp only
  rw [List.getElem?_set_ne (by omega)]
  simp

theorem end_coll {b b2 : Builder} {m : Bool} {c : Nat} {r es ns : List Nat} {ts : List GNode} (hr : b.route = c :: r)
    (hf : Filled b b2 m c es ns ts) :
    step b2 (if m then .endMapping else .endSequence) = popNode b2 := by
  have h1 := hf.route
  have h2 := hf.cell
  cases m <;> simp [step, endMapping, endSequence, hf.noErr, currentNode, h1, hr, h2]

mutual
theorem value_into (v : Value GNode) {b : Builder} {m : Bool} {c : Nat} {r es : List Nat}
    (he : b.fatalError = none) (hr : b.route = c :: r) (hc : b.heap[c]? = some (.coll m es)) :
    ∃ n, Filled b (run b (calls v)) m c es [n] [gtree b.unquoteOneliners v] := by
  have hcl := (List.getElem?_eq_some_iff.mp hc).1
  cases v with
  | scalar s =>
    have hc0 : ({ b with heap := b.heap ++ [.leaf (scalarNode b.unquoteOneliners s)] } : Builder).heap[c]? =
      some (.coll m es) := getElem?_append_old hc
    have hb : run b (calls (.scalar s)) = _ := insertNode_coll b.heap.length false he hr hc0
    rw [hb, gtree, ← scalarNode_eq]
    refine ⟨b.heap.length, ⟨he, rfl, rfl, by simp, ?_⟩, by simp [hr], ?_, .cons (.leaf (Nat.le_refl _) ?_) .nil⟩
    · intro a hlt hne
      simp only
      rw [List.getElem?_set_ne (Ne.symm hne), List.getElem?_append_left hlt]
    · simp only
      rw [List.getElem?_set_self (by simp; omega)]
    · simp only
      rw [List.getElem?_set_ne (by omega)]
      simp
  | raw n =>
    obtain ⟨⟨t, ht⟩, hreads⟩ := load_spec b.heap n
    have hb0 : run b (calls (.raw n)) = insertNode { b with heap := (load b.heap n).2 } (load b.heap n).1 false := by
      simp [calls, run, step, insertRaw, he]
    generalize load b.heap n = p at *
    obtain ⟨a0, h0⟩ := p
    simp only at ht hreads hb0
    have hc0 : ({ b with heap := h0 } : Builder).heap[c]? = some (.coll m es) := by
      simp only [ht]
      exact getElem?_append_old hc
    rw [hb0, insertNode_coll (b := { b with heap := h0 }) a0 false he hr hc0, gtree]
    refine ⟨a0, ⟨he, rfl, rfl, by simp [ht], ?_⟩, by simp [hr], ?_, .cons ?_ .nil⟩
    · intro a hlt hne
      simp only [ht]
      rw [List.getElem?_set_ne (Ne.symm hne), List.getElem?_append_left hlt]
    · simp only
      rw [List.getElem?_set_self (by simp [ht]; omega)]
    · refine hreads.mono (fun _ p => p) (fun a cl p e => ?_)
      simp only
      rw [List.getElem?_set_ne (by omega), e]
  | seq vs =>
    obtain ⟨h1, h2, h3, h4⟩ := fresh_coll (m2 := false) he hr hc
    obtain ⟨ns, hf⟩ := values_into vs h1 h2 h4
    rw [h3] at hf
    refine ⟨b.heap.length, ?_⟩
    rw [show run b (calls (.seq vs)) = step (run (insertCell b (.coll false []) true) (callsValues vs)) .endSequence by
      simp [calls, run_cons, run_append, step, run_nil], gtree]
    rw [show step (run (insertCell b (.coll false []) true) (callsValues vs)) .endSequence =
      popNode (run (insertCell b (.coll false []) true) (callsValues vs)) from end_coll h2 hf]
    exact collection_into he hr hc hf
  | map es =>
    obtain ⟨h1, h2, h3, h4⟩ := fresh_coll (m2 := true) he hr hc
    obtain ⟨ns, hf⟩ := entries_into es h1 h2 h4
    rw [h3] at hf
    refine ⟨b.heap.length, ?_⟩
    rw [show run b (calls (.map es)) = step (run (insertCell b (.coll true []) true) (callsEntries es)) .endMapping by
      simp [calls, run_cons, run_append, step, run_nil], gtree]
    rw [show step (run (insertCell b (.coll true []) true) (callsEntries es)) .endMapping =
      popNode (run (insertCell b (.coll true []) true) (callsEntries es)) from end_coll h2 hf]
    exact collection_into he hr hc hf

theorem values_into (vs : Values GNode) {b : Builder} {m : Bool} {c : Nat} {r es : List Nat}
    (he : b.fatalError = none) (hr : b.route = c :: r) (hc : b.heap[c]? = some (.coll m es)) :
    ∃ ns, Filled b (run b (callsValues vs)) m c es ns (gtrees b.unquoteOneliners vs) := by
  have hcl := (List.getElem?_eq_some_iff.mp hc).1
  cases vs with
  | nil => exact ⟨[], ⟨he, rfl, rfl, Nat.le_refl _, fun _ _ _ => rfl⟩, rfl, by simpa [run, callsValues] using hc, .nil⟩
  | cons v vs =>
    obtain ⟨n, hf⟩ := value_into v he hr hc
    rw [callsValues, run_append]
    obtain ⟨ns, hf2⟩ := values_into vs hf.noErr (hf.route.trans hr) hf.cell
    rw [hf.opts] at hf2
    exact ⟨_, hf.trans hcl hf2⟩

theorem entries_into (xs : Entries GNode) {b : Builder} {m : Bool} {c : Nat} {r es : List Nat}
    (he : b.fatalError = none) (hr : b.route = c :: r) (hc : b.heap[c]? = some (.coll m es)) :
    ∃ ns, Filled b (run b (callsEntries xs)) m c es ns (gentries b.unquoteOneliners xs) := by
  have hcl := (List.getElem?_eq_some_iff.mp hc).1
  cases xs with
  | nil => exact ⟨[], ⟨he, rfl, rfl, Nat.le_refl _, fun _ _ _ => rfl⟩, rfl, by simpa [run, callsEntries] using hc, .nil⟩
  | cons k v xs =>
    obtain ⟨n, hf⟩ := value_into k he hr hc
    rw [callsEntries, run_append, run_append]
    obtain ⟨n2, hf2⟩ := value_into v hf.noErr (hf.route.trans hr) hf.cell
    rw [hf.opts] at hf2
    have hf12 := hf.trans hcl hf2
    obtain ⟨ns, hf3⟩ := entries_into xs hf12.noErr (hf12.route.trans hr) hf12.cell
    rw [hf12.opts] at hf3
    exact ⟨_, hf12.trans hcl hf3⟩
end

/-! ### Protocol -/

/-- In which state a raw document leaves a builder which holds nothing. -/
def rawRoot (n : GNode) : Option Machine :=
  match n with
  | .sequence _ => some (.opened .sequence [])
  | .mapping es => some (.opened (if es.length % 2 = 0 then .key else .value) [])
  | _ => some .complete

/-- The frame of a collection. -/
def frameOf (m : Bool) (es : List Nat) : Frame :=
  if m then (if es.length % 2 = 0 then .key else .value) else .sequence

theorem frameOf_next (m : Bool) (es : List Nat) (n : Nat) : (frameOf m es).next = frameOf m (es ++ [n]) := by
  cases m
  · rfl
  · by_cases h : es.length % 2 = 0
    · have : ¬ (es.length + 1) % 2 = 0 := by omega
      simp [frameOf, h, this, Frame.next]
    · have : (es.length + 1) % 2 = 0 := by omega
      simp [frameOf, h, this, Frame.next]

/-- The frames shown by a route; no address occurs twice. -/
inductive Frames (h : List Cell) : List Nat → List Frame → Prop
  | nil : Frames h [] []
  | cons {a r fs m es} : h[a]? = some (.coll m es) → a ∉ r → Frames h r fs → Frames h (a :: r) (frameOf m es :: fs)

/-- The machine state shown by a builder. -/
def Shows (b : Builder) : Machine → Prop
  | .vacant => b.route = []
  | .complete => ∃ a n, b.route = [a] ∧ b.heap[a]? = some (.leaf n)
  | .opened f fs => Frames b.heap b.route (f :: fs)

theorem Frames.keep {h h' : List Cell} {r : List Nat} {fs : List Frame} (hf : Frames h r fs)
    (hh : ∀ a ∈ r, h'[a]? = h[a]?) : Frames h' r fs := by
  induction hf with
  | nil => exact .nil
  | cons e hn _ ih =>
    exact .cons (by rw [hh _ (by simp), e]) hn (ih (fun a hm => hh a (by simp [hm])))

theorem Frames.bound {h : List Cell} {r : List Nat} {fs : List Frame} (hf : Frames h r fs) :
    ∀ a ∈ r, a < h.length := by
  induction hf with
  | nil => simp
  | cons e hn _ ih =>
    intro a hm
    rcases List.mem_cons.mp hm with rfl | hm
    · exact (List.getElem?_eq_some_iff.mp e).1
    · exact ih a hm

structure Agree (b : Builder) (m : Machine) : Prop where
  noErr : b.fatalError = none
  shows : Shows b m

/-- Insertion of an allocated node, when a collection is unfinished. -/
theorem insert_opened {b : Builder} {f : Frame} {fs : List Frame} (ha : Agree b (.opened f fs)) (t : List Cell)
    (n : Nat) (push : Bool) (hn : b.heap.length ≤ n) :
    ∃ rt, (insertNode { b with heap := b.heap ++ t } n push).fatalError = none ∧
      (insertNode { b with heap := b.heap ++ t } n push).route = (if push then n :: rt else rt) ∧
      Frames (insertNode { b with heap := b.heap ++ t } n push).heap rt (f.next :: fs) ∧
      (insertNode { b with heap := b.heap ++ t } n push).heap[n]? = (b.heap ++ t)[n]? ∧ n ∉ rt := by
  have hs : Frames b.heap b.route (f :: fs) := ha.shows
  have hbd := hs.bound
  generalize hr : b.route = route at hs hbd
  cases hs with
  | cons e hni hrest =>
    rename_i c r m es
    have hcl := (List.getElem?_eq_some_iff.mp e).1
    have hc0 : ({ b with heap := b.heap ++ t } : Builder).heap[c]? = some (.coll m es) := getElem?_append_old e
    rw [← hr, insertNode_coll (b := { b with heap := b.heap ++ t }) n push ha.noErr hr hc0]
    refine ⟨c :: r, ha.noErr, rfl, ?_, ?_, ?_⟩
    · rw [frameOf_next m es n]
      refine .cons ?_ hni ?_
      · simp only
        rw [List.getElem?_set_self (by simp; omega)]
      · refine hrest.keep (fun a hm => ?_)
        simp only
        rw [List.getElem?_set_ne (fun h => hni (by rw [h]; exact hm)),
          List.getElem?_append_left (hbd a (by simp [hm]))]
    · simp only
      rw [List.getElem?_set_ne (by omega)]
    · intro hm
      have := hbd n hm
      omega

theorem insert_complete {b : Builder} (ha : Agree b .complete) (t : List Cell) (n : Nat) (push : Bool) :
    (insertNode { b with heap := b.heap ++ t } n push).fatalError ≠ none := by
  obtain ⟨a, l, hr, hc⟩ := ha.shows
  have hcur : currentNode { b with heap := b.heap ++ t } = some (a, .leaf l) := by
    have e : (b.heap ++ t)[a]? = some (.leaf l) := getElem?_append_old hc
    simp [currentNode, hr, e]
  unfold insertNode
  rw [hcur]
  cases push <;> simp [ha.noErr, pushNode]

theorem insert_vacant {b : Builder} (ha : Agree b .vacant) (t : List Cell) (n : Nat) (push : Bool) :
    insertNode { b with heap := b.heap ++ t } n push =
      { b with heap := b.heap ++ t, route := [n], root := some n } := by
  have hr : b.route = [] := ha.shows
  simp [insertNode, ha.noErr, currentNode, hr, pushNode]

theorem insertLeaf_agree {b : Builder} {m : Machine} (ha : Agree b m) (l : GNode) :
    match m.insert with
    | some m' => Agree (insertCell b (.leaf l) false) m'
    | none => (insertCell b (.leaf l) false).fatalError ≠ none := by
  cases m with
  | complete => exact insert_complete ha [.leaf l] b.heap.length false
  | vacant =>
    show Agree (insertNode { b with heap := b.heap ++ [.leaf l] } b.heap.length false) .complete
    rw [insert_vacant ha]
    exact ⟨ha.noErr, b.heap.length, l, rfl, by simp⟩
  | opened f fs =>
    obtain ⟨rt, h1, h2, h3, h4, h5⟩ := insert_opened ha [.leaf l] b.heap.length false (Nat.le_refl _)
    simp only [Bool.false_eq_true, if_false] at h2
    refine ⟨h1, ?_⟩
    show Frames _ (insertNode { b with heap := b.heap ++ [.leaf l] } b.heap.length false).route _
    rw [h2]
    exact h3

theorem start_agree {b : Builder} {m : Machine} (ha : Agree b m) (isMap : Bool) :
    match m.start (frameOf isMap []) with
    | some m' => Agree (insertCell b (.coll isMap []) true) m'
    | none => (insertCell b (.coll isMap []) true).fatalError ≠ none := by
  cases m with
  | complete => exact insert_complete ha [.coll isMap []] b.heap.length true
  | vacant =>
    show Agree (insertNode { b with heap := b.heap ++ [.coll isMap []] } b.heap.length true) (.opened _ [])
    rw [insert_vacant ha]
    exact ⟨ha.noErr, .cons (by simp) (by simp) .nil⟩
  | opened f fs =>
    obtain ⟨rt, h1, h2, h3, h4, h5⟩ := insert_opened ha [.coll isMap []] b.heap.length true (Nat.le_refl _)
    simp only [if_true] at h2
    refine ⟨h1, ?_⟩
    show Frames _ (insertNode { b with heap := b.heap ++ [.coll isMap []] } b.heap.length true).route _
    rw [h2]
    exact .cons (h4.trans (by simp)) h5 h3

theorem pop_agree {b : Builder} {c : Nat} {r : List Nat} {fs : List Frame} (he : b.fatalError = none)
    (hr : b.route = c :: r) (hf : Frames b.heap r fs) : Agree (popNode b) (Machine.close fs) := by
  refine ⟨he, ?_⟩
  cases fs with
  | nil =>
    cases hf
    simp [Machine.close, Shows, popNode, hr]
  | cons f fs =>
    simp only [Machine.close, Shows, popNode, hr, List.tail_cons]
    exact hf

theorem end_agree {b : Builder} {m : Machine} (ha : Agree b m) (c : Call GNode) (hc : c = .endSequence ∨ c = .endMapping) :
    match m.step false rawRoot c with
    | some m' => Agree (step b c) m'
    | none => (step b c).fatalError ≠ none := by
  cases m with
  | complete =>
    obtain ⟨a, l, hr, hc'⟩ := ha.shows
    have hcur : currentNode b = some (a, .leaf l) := by simp [currentNode, hr, hc']
    rcases hc with rfl | rfl
    · simp [Machine.step, step, endSequence, ha.noErr, hcur]
    · simp [Machine.step, step, endMapping, ha.noErr, hcur]
  | vacant =>
    have hr : b.route = [] := ha.shows
    rcases hc with rfl | rfl
    · simp [Machine.step, step, endSequence, ha.noErr, currentNode, hr]
    · simp [Machine.step, step, endMapping, ha.noErr, currentNode, hr]
  | opened f fs =>
    have hs : Frames b.heap b.route (f :: fs) := ha.shows
    generalize hr : b.route = route at hs
    cases hs with
    | cons e hni hrest =>
      rename_i x r m es
      have hcur : currentNode b = some (x, .coll m es) := by simp [currentNode, hr, e]
      have hpop := pop_agree ha.noErr hr hrest
      cases m with
      | false =>
        rcases hc with rfl | rfl
        · simpa [frameOf, Machine.step, step, endSequence, ha.noErr, hcur] using hpop
        · simp [frameOf, Machine.step, step, endMapping, ha.noErr, hcur]
      | true =>
        rcases hc with rfl | rfl
        · by_cases h : es.length % 2 = 0 <;> simp [frameOf, h, Machine.step, step, endSequence, ha.noErr, hcur]
        · by_cases h : es.length % 2 = 0 <;>
            simpa [frameOf, h, Machine.step, step, endMapping, ha.noErr, hcur] using hpop

theorem loadList_length (h : List Cell) (ns : List GNode) : (loadList h ns).1.length = ns.length := by
  induction ns generalizing h with
  | nil => rfl
  | cons n ns ih => simp [loadList, ih]

theorem load_cell (h : List Cell) (n : GNode) :
    match n with
    | .sequence _ => ∃ as, (load h n).2[(load h n).1]? = some (.coll false as)
    | .mapping es => ∃ as, (load h n).2[(load h n).1]? = some (.coll true as) ∧ as.length = es.length
    | _ => (load h n).2[(load h n).1]? = some (.leaf n) := by
  cases n with
  | sequence es => exact ⟨(loadList h es).1, by simp [load]⟩
  | mapping es => exact ⟨(loadList h es).1, by simp [load], loadList_length _ _⟩
  | _ => simp [load]

theorem raw_agree {b : Builder} {m : Machine} (ha : Agree b m) (n : GNode) :
    match m.step false rawRoot (.raw (some n)) with
    | some m' => Agree (insertRaw b (some n)) m'
    | none => (insertRaw b (some n)).fatalError ≠ none := by
  obtain ⟨⟨t, ht⟩, hreads⟩ := load_spec b.heap n
  obtain ⟨hge, hlt⟩ := hreads.self
  have hcell := load_cell b.heap n
  have hstep : insertRaw b (some n) = insertNode { b with heap := b.heap ++ t } (load b.heap n).1 false := by
    simp only [insertRaw, ha.noErr, Option.isSome_none, Bool.false_eq_true, if_false, ht]
  rw [hstep]
  rw [ht] at hlt hcell
  generalize (load b.heap n).1 = a at *
  have hroot : ∃ rm, rawRoot n = some rm := by
    cases n <;> simp [rawRoot]
  obtain ⟨rm, hrm⟩ := hroot
  simp only [Machine.step, hrm]
  cases m with
  | complete => exact insert_complete ha t a false
  | vacant =>
    rw [insert_vacant ha]
    refine ⟨ha.noErr, ?_⟩
    cases n with
    | sequence es =>
      obtain ⟨es', e⟩ := hcell
      cases hrm
      exact .cons (m := false) e (by simp) .nil
    | mapping es =>
      obtain ⟨es', e, hl⟩ := hcell
      cases hrm
      rw [show (if es.length % 2 = 0 then Frame.key else .value) = frameOf true es' by simp [frameOf, hl]]
      exact .cons e (by simp) .nil
    | _ =>
      cases hrm
      exact ⟨a, _, rfl, hcell⟩
  | opened f fs =>
    obtain ⟨rt, h1, h2, h3, h4, h5⟩ := insert_opened ha t a false hge
    simp only [Bool.false_eq_true, if_false] at h2
    refine ⟨h1, ?_⟩
    show Frames _ (insertNode { b with heap := b.heap ++ t } a false).route _
    rw [h2]
    exact h3

theorem step_agree {b : Builder} {m : Machine} (ha : Agree b m) (c : Call GNode) :
    match m.step false rawRoot c with
    | some m' => Agree (step b c) m'
    | none => (step b c).fatalError ≠ none := by
  cases c with
  | scalar s => exact insertLeaf_agree ha _
  | startSequence => exact start_agree ha false
  | endSequence => exact end_agree ha _ (.inl rfl)
  | startMapping => exact start_agree ha true
  | endMapping => exact end_agree ha _ (.inr rfl)
  | raw t =>
    cases t with
    | none => simp [Machine.step, step, insertRaw, ha.noErr]
    | some n => exact raw_agree ha n
  | rawText t =>
    cases t with
    | none => simp [Machine.step, step, insertRawText, ha.noErr]
    | some t =>
      have h := insertLeaf_agree ha (scalarNode b.unquoteOneliners (.string t))
      simpa [step, insertRawText, ha.noErr, insertScalar, Machine.step] using h

theorem insertNode_err {b : Builder} (he : b.fatalError ≠ none) (n : Nat) (push : Bool) : insertNode b n push = b := by
  simp [insertNode, Option.isSome_iff_ne_none.mpr he]

theorem step_err {b : Builder} (he : b.fatalError ≠ none) (c : Call GNode) :
    (step b c).fatalError = b.fatalError ∧ (step b c).root = b.root := by
  have hs := Option.isSome_iff_ne_none.mpr he
  have hin : ∀ x push, insertCell b x push = { b with heap := b.heap ++ [x] } :=
    fun x push => insertNode_err (b := { b with heap := b.heap ++ [x] }) he _ push
  cases c <;> simp [step, insertScalar, hin, endSequence, endMapping, insertRaw, insertRawText, hs]

theorem run_err {b : Builder} (he : b.fatalError ≠ none) (cs : List (Call GNode)) :
    (run b cs).fatalError = b.fatalError ∧ (run b cs).root = b.root := by
  induction cs generalizing b with
  | nil => exact ⟨rfl, rfl⟩
  | cons c cs ih =>
    obtain ⟨h1, h2⟩ := step_err he c
    obtain ⟨h3, h4⟩ := ih (b := step b c) (by rw [h1]; exact he)
    rw [run_cons]
    exact ⟨h3.trans h1, h4.trans h2⟩

theorem run_agree {b : Builder} {m : Machine} (ha : Agree b m) (cs : List (Call GNode)) :
    match Machine.run false rawRoot m cs with
    | some m' => Agree (run b cs) m'
    | none => (run b cs).fatalError ≠ none := by
  induction cs generalizing b m with
  | nil => exact ha
  | cons c cs ih =>
    have h := step_agree ha c
    rw [run_cons, Machine.run]
    cases hm : m.step false rawRoot c with
    | none =>
      simp only [hm] at h ⊢
      rw [(run_err h cs).1]
      exact h
    | some m' =>
      simp only [hm] at h ⊢
      exact ih h

/-! ### Finished trees stay as they are -/

structure Fresh (h0 : List Cell) (b : Builder) : Prop where
  route : ∀ a ∈ b.route, h0.length ≤ a
  heap : ∃ t, b.heap = h0 ++ t

theorem insertNode_fresh {h0 : List Cell} {b : Builder} (hf : Fresh h0 b) (n : Nat) (hn : h0.length ≤ n) (push : Bool) :
    Fresh h0 (insertNode b n push) := by
  unfold insertNode
  split
  · exact hf
  split
  · exact ⟨by simp [pushNode]; exact ⟨hn, hf.route⟩, hf.heap⟩
  rename_i a c hcur
  obtain ⟨t, ht⟩ := hf.heap
  have ha : h0.length ≤ a := by
    unfold currentNode at hcur
    split at hcur
    · cases hcur
    rename_i a' r hr
    split at hcur
    · cases hcur
    cases hcur
    exact hf.route a (by rw [hr]; simp)
  suffices h : ∀ b', Fresh h0 b' → Fresh h0 (if push then pushNode b' n else b') by
    apply h
    cases c with
    | leaf l => exact ⟨hf.route, hf.heap⟩
    | coll m es =>
      refine ⟨hf.route, t.set (a - h0.length) (.coll m (es ++ [n])), ?_⟩
      simp only [ht]
      rw [List.set_append_right _ _ ha]
  intro b' hb'
  cases push
  · exact hb'
  · refine ⟨?_, hb'.heap⟩
    simp only [pushNode, if_true, List.mem_cons]
    rintro x (rfl | hx)
    · exact hn
    · exact hb'.route x hx

theorem step_fresh {h0 : List Cell} {b : Builder} (hf : Fresh h0 b) (c : Call GNode) : Fresh h0 (step b c) := by
  have hcell : ∀ x push, Fresh h0 (insertCell b x push) := by
    intro x push
    obtain ⟨t, ht⟩ := hf.heap
    exact insertNode_fresh (b := { b with heap := b.heap ++ [x] }) ⟨hf.route, t ++ [x], by simp [ht]⟩ _ (by simp [ht])
      push
  have herr : ∀ e : Err, Fresh h0 { b with fatalError := some e } := fun e => ⟨hf.route, hf.heap⟩
  have hpop : Fresh h0 (popNode b) := ⟨fun x hx => hf.route x (List.mem_of_mem_tail hx), hf.heap⟩
  cases c with
  | scalar s => exact hcell _ _
  | startSequence => exact hcell _ _
  | startMapping => exact hcell _ _
  | endSequence =>
    simp only [step, endSequence]
    split
    · exact hf
    split <;> first | exact herr _ | exact hpop
  | endMapping =>
    simp only [step, endMapping]
    split
    · exact hf
    split <;> first | exact herr _ | exact hpop
  | raw t =>
    simp only [step, insertRaw]
    split
    · exact hf
    split
    · exact herr _
    rename_i n
    obtain ⟨⟨t, ht⟩, hreads⟩ := load_spec b.heap n
    obtain ⟨t0, ht0⟩ := hf.heap
    refine insertNode_fresh (b := { b with heap := (load b.heap n).2 }) ⟨hf.route, t0 ++ t, ?_⟩ _ ?_ false
    · simp only [ht]
      rw [ht0, List.append_assoc]
    · have := hreads.self.1
      rw [ht0] at this ⊢
      simp at this
      omega
  | rawText t =>
    simp only [step, insertRawText]
    split
    · exact hf
    split
    · exact herr _
    · exact hcell _ _

theorem run_fresh {h0 : List Cell} {b : Builder} (hf : Fresh h0 b) (cs : List (Call GNode)) : Fresh h0 (run b cs) := by
  induction cs generalizing b with
  | nil => exact hf
  | cons c cs ih => exact ih (step_fresh hf c)

theorem insertNode_opts (b : Builder) (n : Nat) (push : Bool) :
    (insertNode b n push).unquoteOneliners = b.unquoteOneliners := by
  unfold insertNode
  split
  · rfl
  · split
    · rfl
    · rename_i a c _
      cases c <;> cases push <;> rfl

theorem step_opts (b : Builder) (c : Call GNode) : (step b c).unquoteOneliners = b.unquoteOneliners := by
  cases c with
  | scalar s => exact insertNode_opts _ _ _
  | startSequence => exact insertNode_opts _ _ _
  | startMapping => exact insertNode_opts _ _ _
  | endSequence =>
    simp only [step, endSequence]
    split
    · rfl
    split <;> rfl
  | endMapping =>
    simp only [step, endMapping]
    split
    · rfl
    split <;> rfl
  | raw t =>
    simp only [step, insertRaw]
    split
    · rfl
    split
    · rfl
    exact insertNode_opts _ _ _
  | rawText t =>
    simp only [step, insertRawText]
    split
    · rfl
    split
    · rfl
    exact insertNode_opts _ _ _

theorem run_opts (b : Builder) (cs : List (Call GNode)) : (run b cs).unquoteOneliners = b.unquoteOneliners := by
  induction cs generalizing b with
  | nil => rfl
  | cons c cs ih => rw [run_cons, ih, step_opts]

end Verif.GoyamlBuilder
