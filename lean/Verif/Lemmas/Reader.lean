import Verif.Spec.ReaderCursor
import Verif.Lemmas.DecoderCursor

/-!
The decoder of the yayamls engine finds the next node of the cursor.
-/

namespace Verif.Reader

open Verif.Ast Verif.Generic Verif.Decoder Verif.DecoderCursor Verif.ReaderCursor
open Verif.AnyBuilder (Anchors isNull)

set_option linter.unusedSimpArgs false

/-! ### Nodes -/

/-- Whatever an iterator leads to. -/
def Part (nulls : Bool) (n : Node) : Prop := Tree nulls n ∨ Attr n

theorem Tree.valid {nulls : Bool} {n : Node} (h : Tree nulls n) : validNode n = true := by
  cases h <;> rfl

theorem Part.valid {nulls : Bool} {n : Node} (h : Part nulls n) : validNode n = true := by
  rcases h with h | h
  · exact Tree.valid h
  · cases h <;> rfl

theorem filter_valid {nulls : Bool} {l : List Node} (h : ∀ n ∈ l, Tree nulls n) : l.filter validNode = l :=
  List.filter_eq_self.mpr fun n hn => Tree.valid (h n hn)

/-- The nodes with children which are never values for the calls which ask for a certain kind of value. -/
def Layered : Node → Bool
  | .content _ _ | .properties _ _ | .mappingEntry _ _ | .stream _ => true
  | _ => false

theorem process_layer (lib : Lib) (e : Expecter) {n : Node} (hl : Layered n = true) :
    process lib e n .cont = { conclusion := .cont } := by
  cases n <;> simp [Layered] at hl <;>
    cases e <;> simp [process, processTerminal, processCollection, processAny, processWhole, processNull, Fresh, Going,
      isLayer, isProperty, isText, isSequence, isMapping, isNullNode, isNull, Node.type?]

theorem process_layer_new (lib : Lib) {e : Expecter} {n : Node} (hl : Layered n = true) {cs : List Node}
    (hc : layer e n = some cs) : process lib e n .unknown = { conclusion := .cont } := by
  cases n <;> simp [Layered] at hl <;>
    cases e <;> simp [process, processTerminal, processCollection, processAny, processWhole, processNull, Fresh, Going,
      isLayer, isProperty, isText, isSequence, isMapping, isNullNode, isNull, Node.type?] <;>
    simp [layer, takesAll] at hc

theorem process_attr (lib : Lib) (e : Expecter) {n : Node} (hl : (∃ t, n = .tag t) ∨ ∃ t, n = .anchor t) :
    process lib e n .unknown = { conclusion := .cont } := by
  rcases hl with ⟨t, rfl⟩ | ⟨t, rfl⟩ <;>
    cases e <;> simp [process, processTerminal, processCollection, processAny, processWhole, processNull, Fresh, Going,
      isLayer, isProperty, isText, isSequence, isMapping, isNullNode, isNull, Node.type?]

theorem process_coll (lib : Lib) (e : Expecter) {n : Node} (hl : isSequence n = true ∨ isMapping n = true)
    (hc : ∃ cs b, childrenOf n = some (cs, b)) {prev : Conclusion}
    (hp : prev = .match_ ∨ prev = .cont) : process lib e n prev = { conclusion := .cont } := by
  obtain ⟨cs, b, hc⟩ := hc
  cases n <;> simp [isSequence, isMapping, childrenOf, Node.type?] at hl hc <;> rcases hp with rfl | rfl <;>
    cases e <;> simp [process, processTerminal, processCollection, processAny, processWhole, processNull, Fresh, Going,
      isLayer, isProperty, isText, isSequence, isMapping, isNullNode, isNull, Node.type?]

/-- A layer holds no values, or it leads to its children. -/
theorem layer_cases {nulls : Bool} {n : Node} (hn : Part nulls n) {e : Expecter} {cs : List Node} (hl : layer e n = some cs) :
    (((∃ t, n = .tag t) ∨ ∃ t, n = .anchor t) ∧ cs = []) ∨
    (∃ l b, childrenOf n = some (l, b) ∧ cs = l.filter validNode ∧ (∀ m ∈ l, validNode m = true → Part nulls m) ∧
      Layered n = true) := by
  rcases hn with hn | hn
  · right
    cases hn with
    | text => cases hl
    | null => cases hl
    | sequence => cases hl
    | mapping => cases hl
    | @entry k v hk hv =>
      rw [layer] at hl
      split at hl
      · cases hl
      · cases hl
        refine ⟨[k, v], false, rfl, ?_, ?_, rfl⟩
        · simp [List.filter, Tree.valid hk, Tree.valid hv]
        · intro m hm _
          rcases List.mem_cons.mp hm with rfl | hm
          · exact .inl hk
          · obtain rfl := List.mem_singleton.mp hm
            exact .inl hv
    | @content p c hp hc =>
      cases hl
      refine ⟨[p, c], true, rfl, rfl, ?_, rfl⟩
      intro m hm hv
      rcases List.mem_cons.mp hm with rfl | hm
      · obtain ⟨_, _, _, h⟩ := hp hv
        exact .inr h
      · obtain rfl := List.mem_singleton.mp hm
        exact .inl hc
    | @stream ds hd =>
      rw [layer] at hl
      split at hl
      · cases hl
      · cases hl
        exact ⟨cs, false, rfl, (filter_valid hd).symm, fun m hm _ => .inl (hd m hm), rfl⟩
  · cases hn with
    | tag => cases hl; exact .inl ⟨.inl ⟨_, rfl⟩, rfl⟩
    | anchor => cases hl; exact .inl ⟨.inr ⟨_, rfl⟩, rfl⟩
    | @properties t a ht ha =>
      right
      cases hl
      refine ⟨[a, t], false, rfl, rfl, ?_, rfl⟩
      intro m hm hv
      rcases List.mem_cons.mp hm with rfl | hm
      · obtain ⟨s, rfl⟩ := ha hv
        exact .inr .anchor
      · obtain rfl := List.mem_singleton.mp hm
        obtain ⟨s, rfl⟩ := ht hv
        exact .inr .tag

/-! ### The route -/

/-- The frame with the name `k` is the one of the point `p` with the iterator `i`. -/
def Open (nulls : Bool) (hs : List Handle) (fs : List (Frame Node)) (p : Point) (i : Nat) (l : List Node) : Option Nat → Prop
  | some k => (∀ f ∈ fs, f.1 ≠ some k) ∧ (∃ s, hs[k]? = some (some (s, i))) ∧ (∀ n ∈ l, Tree nulls n) ∧
      (isSequence p.node = true ∨ isMapping p.node = true) ∧ (p.result.conclusion = .match_ ∨ p.result.conclusion = .cont)
  | none => (∀ k s : Nat, hs[k]? ≠ some (some (s, i))) ∧ Layered p.node = true ∧ p.result.conclusion = .cont

/-- The points of the route stand for the frames of the cursor. -/
inductive Pts (nulls : Bool) (hs : List Handle) (its : List (List Node)) : List (Frame Node) → List Point → Prop
  | nil : Pts nulls hs its [] []
  | root {n} : Tree nulls n → Pts nulls hs its [(none, [n])] [{ node := n }]
  | ghost {fs ps} : Pts nulls hs its fs ps → Pts nulls hs its ((none, []) :: fs) ps
  | cons {k rest fs p ps i l} : Pts nulls hs its fs ps → p.iter = some i → (∀ q ∈ ps, q.iter ≠ some i) →
      its[i]? = some l → rest = l.filter validNode → (∀ n ∈ l, validNode n = true → Part nulls n) →
      (∃ cs b, childrenOf p.node = some (cs, b)) → Open nulls hs fs p i l k → Pts nulls hs its ((k, rest) :: fs) (p :: ps)

/-- The iterators and collection states are those of the frames; the collections which are not being read any more are
exhausted. -/
structure Base (nulls : Bool) (hs : List Handle) (its : List (List Node)) (fs : List (Frame Node)) (ps : List Point) :
    Prop where
  pts : Pts nulls hs its fs ps
  inj : ∀ {k k' s s' i : Nat}, hs[k]? = some (some (s, i)) → hs[k']? = some (some (s', i)) → k = k'
  bound : ∀ {k s i : Nat}, hs[k]? = some (some (s, i)) → i < its.length
  closed : ∀ {k s i : Nat}, hs[k]? = some (some (s, i)) → (∀ f ∈ fs, f.1 ≠ some k) → its.getD i [] = []

variable {nulls : Bool} {hs hs' : List Handle} {its its' : List (List Node)} {fs : List (Frame Node)} {ps : List Point}

theorem Open.congr {p : Point} {i : Nat} {l : List Node} {k : Option Nat} (ho : Open nulls hs fs p i l k)
    (h1 : ∀ {k s i : Nat}, hs[k]? = some (some (s, i)) → hs'[k]? = some (some (s, i)))
    (h2 : (∀ k s : Nat, hs[k]? ≠ some (some (s, i))) → ∀ k s : Nat, hs'[k]? ≠ some (some (s, i))) : Open nulls hs' fs p i l k := by
  cases k with
  | some k =>
    obtain ⟨h3, ⟨s, h4⟩, h5⟩ := ho
    exact ⟨h3, ⟨s, h1 h4⟩, h5⟩
  | none => exact ⟨h2 ho.1, ho.2⟩

theorem Pts.iters (hp : Pts nulls hs its fs ps) (h : ∀ i, (∃ p ∈ ps, p.iter = some i) → its'[i]? = its[i]?) :
    Pts nulls hs its' fs ps := by
  induction hp with
  | nil => exact .nil
  | root ht => exact .root ht
  | ghost _ ih => exact .ghost (ih h)
  | cons _ h1 h2 h3 h4 h5 h6 h7 ih =>
    refine .cons (ih fun i ⟨p, hp, hi⟩ => h i ⟨p, List.mem_cons_of_mem _ hp, hi⟩) h1 h2 ?_ h4 h5 h6 h7
    rw [h _ ⟨_, List.mem_cons_self, h1⟩]
    exact h3

theorem Pts.lt (hp : Pts nulls hs its fs ps) : ∀ p ∈ ps, ∀ i, p.iter = some i → i < its.length := by
  induction hp with
  | nil => exact fun _ h => nomatch h
  | root _ =>
    intro p hp i hi
    obtain rfl := List.mem_singleton.mp hp
    cases hi
  | ghost _ ih => exact ih
  | cons _ h1 _ h3 _ _ _ _ ih =>
    intro q hq j hj
    rcases List.mem_cons.mp hq with rfl | hq
    · rw [h1] at hj
      cases hj
      exact (List.getElem?_eq_some_iff.mp h3).1
    · exact ih q hq j hj

theorem Base.append (hb : Base nulls hs its fs ps) (x : List Node) : Base nulls hs (its ++ [x]) fs ps := by
  refine ⟨hb.pts.iters fun i ⟨p, hp, hi⟩ => List.getElem?_append_left (hb.pts.lt p hp i hi), hb.inj, ?_, ?_⟩
  · intro k s i hk
    have := hb.bound hk
    simp
    omega
  · intro k s i hk hf
    have := hb.closed hk hf
    rw [List.getD_eq_getElem?_getD] at this ⊢
    rw [List.getElem?_append_left (hb.bound hk)]
    exact this

theorem getD_set_ne {i j : Nat} (hne : i ≠ j) (l : List Node) : (its.set i l).getD j [] = its.getD j [] := by
  rw [List.getD_eq_getElem?_getD, List.getElem?_set_ne hne, ← List.getD_eq_getElem?_getD]

/-- The point of a frame, continued. -/
def going (p : Point) : Point := { p with result := { conclusion := .cont } }

/-- What the frame of a point says about it. -/
structure Top (nulls : Bool) (hs : List Handle) (its : List (List Node)) (k : Option Nat) (rest : List Node)
    (fs : List (Frame Node)) (p : Point) (ps : List Point) (i : Nat) (l : List Node) : Prop where
  below : Pts nulls hs its fs ps
  iter : p.iter = some i
  other : ∀ q ∈ ps, q.iter ≠ some i
  list : its[i]? = some l
  rest : rest = l.filter validNode
  parts : ∀ n ∈ l, validNode n = true → Part nulls n
  children : ∃ cs b, childrenOf p.node = some (cs, b)
  frame : Open nulls hs fs p i l k

theorem Top.cont {k : Option Nat} {rest : List Node} {p : Point} {i : Nat} {l : List Node}
    (ht : Top nulls hs its k rest fs p ps i l) (lib : Lib) (e : Expecter) :
    process lib e p.node p.result.conclusion = { conclusion := .cont } ∧ p.result.conclusion ≠ .unknown := by
  have hf := ht.frame
  cases k with
  | some k =>
    obtain ⟨_, _, _, h4, h5⟩ := hf
    exact ⟨process_coll lib e h4 ht.children h5, by rcases h5 with h | h <;> simp [h]⟩
  | none =>
    obtain ⟨_, h2, h3⟩ := hf
    rw [h3]
    exact ⟨process_layer lib e h2, by simp⟩

/-- An element of the iterator of the current point has been taken. -/
theorem Base.set {k : Option Nat} {rest : List Node} {p : Point} {i : Nat} {l l' : List Node}
    (hb : Base nulls hs its ((k, rest) :: fs) (p :: ps)) (ht : Top nulls hs its k rest fs p ps i l)
    (hl : ∀ n ∈ l', n ∈ l) : Base nulls hs (its.set i l') ((k, l'.filter validNode) :: fs) (going p :: ps) := by
  have hlt : i < its.length := (List.getElem?_eq_some_iff.mp ht.list).1
  refine ⟨?_, hb.inj, ?_, ?_⟩
  · refine .cons (i := i) (l := l') (ht.below.iters fun j ⟨q, hq, hj⟩ => ?_) ht.iter ht.other (List.getElem?_set_self hlt)
      rfl (fun n hn hv => ht.parts n (hl n hn) hv) ht.children ?_
    · refine List.getElem?_set_ne ?_
      rintro rfl
      exact ht.other q hq hj
    · have hf := ht.frame
      cases k with
      | some k =>
        obtain ⟨h1, h2, h3, h4, h5⟩ := hf
        exact ⟨h1, h2, fun n hn => h3 n (hl n hn), h4, .inr rfl⟩
      | none =>
        obtain ⟨h1, h2, h3⟩ := hf
        exact ⟨h1, h2, rfl⟩
  · intro k' s' i' hk'
    rw [List.length_set]
    exact hb.bound hk'
  · intro k' s' i' hk' hf
    have hne : i ≠ i' := by
      rintro rfl
      have hfr := ht.frame
      cases k with
      | some k =>
        obtain ⟨_, ⟨s, h2⟩, _⟩ := hfr
        rw [← hb.inj h2 hk'] at hf
        exact hf _ List.mem_cons_self rfl
      | none => exact hfr.1 _ _ hk'
    rw [getD_set_ne hne]
    refine hb.closed hk' fun f hm => ?_
    rcases List.mem_cons.mp hm with rfl | hm
    · exact hf (k, l'.filter validNode) List.mem_cons_self
    · exact hf f (List.mem_cons_of_mem _ hm)

/-- The iterator of the current point is exhausted. -/
theorem Base.drop {k : Option Nat} {rest : List Node} {p : Point} {i : Nat} {l : List Node}
    (hb : Base nulls hs its ((k, rest) :: fs) (p :: ps)) (ht : Top nulls hs its k rest fs p ps i l) :
    Base nulls hs (its.set i []) fs ps := by
  have hlt : i < its.length := (List.getElem?_eq_some_iff.mp ht.list).1
  refine ⟨ht.below.iters fun j ⟨q, hq, hj⟩ => List.getElem?_set_ne ?_, hb.inj, ?_, ?_⟩
  · rintro rfl
    exact ht.other q hq hj
  · intro k' s' i' hk'
    rw [List.length_set]
    exact hb.bound hk'
  · intro k' s' i' hk' hf
    by_cases hne : i = i'
    · subst hne
      rw [List.getD_eq_getElem?_getD, List.getElem?_set_self hlt]
      rfl
    · rw [getD_set_ne hne]
      refine hb.closed hk' fun f hm => ?_
      rcases List.mem_cons.mp hm with rfl | hm
      · intro he
        simp only at he
        subst he
        obtain ⟨_, ⟨s, h2⟩, _⟩ := ht.frame
        rw [h2] at hk'
        cases hk'
        exact hne rfl
      · exact hf f hm

/-- The point of a layer which is being entered. -/
def entered (n : Node) (i : Nat) : Point := { node := n, result := { conclusion := .cont }, iter := some i }

theorem Base.enter (hb : Base nulls hs its fs ps) {n : Node} {cs : List Node} {b : Bool} (hc : childrenOf n = some (cs, b))
    (hp : ∀ m ∈ cs, validNode m = true → Part nulls m) (hl : Layered n = true) :
    Base nulls hs (its ++ [cs]) ((none, cs.filter validNode) :: fs) (entered n its.length :: ps) := by
  have hb' := hb.append cs
  refine ⟨.cons (i := its.length) (l := cs) hb'.pts rfl ?_ (by simp) rfl hp ⟨cs, b, hc⟩ ⟨?_, hl, rfl⟩, hb'.inj, hb'.bound, ?_⟩
  · intro q hq he
    exact absurd (hb.pts.lt q hq _ he) (by omega)
  · intro k s hk
    exact absurd (hb.bound hk) (by omega)
  · intro k s i hk hf
    exact hb'.closed hk fun f hm => hf f (List.mem_cons_of_mem _ hm)

/-! ### The next node -/

/-- The fields which matter for all calls. -/
structure Same (r r' : Reader) : Prop where
  multi : r'.multi = r.multi
  denyErrors : r'.denyErrors = r.denyErrors
  expecter : r'.expecter = r.expecter
  latestDeny : r'.latestDeny = r.latestDeny

theorem Same.refl (r : Reader) : Same r r := ⟨rfl, rfl, rfl, rfl⟩

theorem Same.trans {r1 r2 r3 : Reader} (h : Same r1 r2) (h' : Same r2 r3) : Same r1 r3 :=
  ⟨h'.multi.trans h.multi, h'.denyErrors.trans h.denyErrors, h'.expecter.trans h.expecter, h'.latestDeny.trans h.latestDeny⟩

/-- The reader at the loop over the iterator of its current point. -/
def resumed (p : Point) (ps : List Point) (r : Reader) : Reader :=
  { r with route := going p :: ps, last := { conclusion := .cont } }

/-- The reader with another iterator list and other anchors. -/
def moved (its : List (List Node)) (a : Anchors) (r : Reader) : Reader := { r with iters := its, anchors := a }

theorem childrenOf_ne_nil {n : Node} {cs : List Node} {b : Bool} (h : childrenOf n = some (cs, b)) : n ≠ .nil := by
  rintro rfl
  cases h

theorem visit_current_eq {lib : Lib} {r : Reader} {p : Point} {ps : List Point} (hr : r.route = p :: ps)
    (hn : p.node ≠ .nil) (f : Nat) : visitCurrent lib (f + 1) r = accept lib f p.node r := by
  rw [visitCurrent]
  simp only [currentNode, hr, List.head?_cons, Option.map_some]

theorem accept_complex {lib : Lib} {r : Reader} {p : Point} {ps : List Point} {n : Node} {cs : List Node} {b : Bool}
    (hr : r.route = p :: ps) (hc : childrenOf n = some (cs, b)) (f : Nat) :
    accept lib (f + 1) n r = processComplex lib f (openIter cs p r).1 cs.length b (openIter cs p r).2 := by
  cases n <;> simp only [childrenOf, Option.some.injEq, Prod.mk.injEq, reduceCtorEq] at hc <;> obtain ⟨rfl, rfl⟩ := hc <;>
    simp [accept, childrenOf, hr]

theorem accept_continue {lib : Lib} {r : Reader} {p : Point} {ps : List Point} {i : Nat} {n : Node} {cs : List Node} {b : Bool}
    (hr : r.route = p :: ps) (hn : p.node = n) (hc : childrenOf n = some (cs, b)) (hi : p.iter = some i)
    (hp : process lib r.expecter n p.result.conclusion = { conclusion := .cont })
    (hu : p.result.conclusion ≠ .unknown) (f : Nat) :
    accept lib (f + 2) n r = (loop lib f b i (resumed p ps r) >>= fun x => .ok x) := by
  rw [accept_complex hr hc]
  simp only [openIter, if_neg hu]
  rw [processComplex]
  simp only [hn, hp, swap, hi, Bool.false_eq_true, if_false]
  subst hn
  simp only [hr, resumed, going, hi]

theorem visit_continue {lib : Lib} {r : Reader} {p : Point} {ps : List Point} {i : Nat} {cs : List Node} {b : Bool}
    (hr : r.route = p :: ps) (hc : childrenOf p.node = some (cs, b)) (hi : p.iter = some i)
    (hp : process lib r.expecter p.node p.result.conclusion = { conclusion := .cont })
    (hu : p.result.conclusion ≠ .unknown) (x : Reader) :
    Conv (fun f => visitCurrent lib f r) x ↔ Conv (fun f => loop lib f b i (resumed p ps r)) x := by
  have key : ∀ f, visitCurrent lib (f + 3) r = loop lib f b i (resumed p ps r) := by
    intro f
    rw [visit_current_eq hr (childrenOf_ne_nil hc), accept_continue hr rfl hc hi hp hu]
    cases loop lib f b i (resumed p ps r) <;> rfl
  constructor
  · rintro ⟨f0, h⟩
    exact ⟨f0, fun f hf => (key f).symm.trans (h _ (by omega))⟩
  · rintro ⟨f0, h⟩
    refine ⟨f0 + 3, fun f hf => ?_⟩
    obtain ⟨g, rfl⟩ : ∃ g, f = g + 3 := ⟨f - 3, by omega⟩
    show visitCurrent lib (g + 3) r = _
    rw [key]
    exact h _ (by omega)

theorem loop_stop {lib : Lib} {r : Reader} {b : Bool} {i f : Nat} (h : r.last.conclusion ≠ .cont) :
    loop lib (f + 1) b i r = .ok r := by
  rw [loop, if_neg h]

theorem bindIf_eq (b : Bool) (n : Node) (r : Reader) : ∃ a, bindIf b n r = { r with anchors := a } := by
  rw [bindIf]
  cases b
  · exact ⟨r.anchors, rfl⟩
  · exact ⟨r.anchors.bind n, rfl⟩

/-- What the loop does with the nodes of its iterator. -/
theorem loop_next {lib : Lib} {b : Bool} {i : Nat} (l : List Node) : ∀ (r : Reader), r.last.conclusion = .cont →
    r.iters[i]? = some l →
    (l.filter validNode = [] → ∃ a, ∀ x, Conv (fun f => visitCurrent lib f (pop (moved (r.iters.set i []) a r))) x →
      Conv (fun f => loop lib f b i r) x) ∧
    (∀ n ns, l.filter validNode = n :: ns → ∃ l' a, l'.filter validNode = ns ∧ (∀ m ∈ l', m ∈ l) ∧ n ∈ l ∧
      validNode n = true ∧ ∀ x, Conv (fun f => accept lib f n (push { node := n } (moved (r.iters.set i l') a r)) >>= fun y =>
        loop lib f b i y) x → Conv (fun f => loop lib f b i r) x) := by
  induction l with
  | nil =>
    intro r hl hi
    refine ⟨fun _ => ⟨r.anchors, fun x hx => ?_⟩, fun n ns h => (nomatch h)⟩
    have he : moved (r.iters.set i []) r.anchors r = r := by
      have : r.iters.set i [] = r.iters := by
        apply List.ext_getElem?
        intro j
        by_cases hj : i = j
        · subst hj
          rw [List.getElem?_set_self (List.getElem?_eq_some_iff.mp hi).1, hi]
        · rw [List.getElem?_set_ne hj]
      rw [this]
      rfl
    rw [he] at hx
    refine Conv.succ (g' := fun f => visitCurrent lib f (pop r)) (fun f => ?_) hx
    rw [loop, if_pos hl, List.getD_eq_getElem?_getD, hi]
    rfl
  | cons m l ih =>
    intro r hl hi
    have hlt := (List.getElem?_eq_some_iff.mp hi).1
    obtain ⟨a, ha⟩ := bindIf_eq b m { r with iters := r.iters.set i l }
    have hloop : ∀ f, loop lib (f + 1) b i r = if validNode m then
        (accept lib f m (push { node := m } (moved (r.iters.set i l) a r)) >>= fun y => loop lib f b i y)
        else loop lib f b i (moved (r.iters.set i l) a r) := by
      intro f
      rw [loop, if_pos hl, List.getD_eq_getElem?_getD, hi]
      simp only [Option.getD_some, ha]
      rfl
    cases hv : validNode m with
    | true =>
      rw [List.filter_cons_of_pos hv]
      refine ⟨fun h => (nomatch h), fun n ns h => ?_⟩
      cases h
      refine ⟨l, a, rfl, fun x hx => List.mem_cons_of_mem _ hx, List.mem_cons_self, hv, fun x hx => ?_⟩
      refine Conv.succ (fun f => ?_) hx
      rw [hloop, if_pos hv]
    | false =>
      rw [List.filter_cons_of_neg (by simp [hv])]
      obtain ⟨h1, h2⟩ := ih (moved (r.iters.set i l) a r) hl (List.getElem?_set_self hlt)
      have hset : ∀ y, (moved (r.iters.set i l) a r).iters.set i y = r.iters.set i y := fun y => List.set_set ..
      simp only [hset] at h1 h2
      have step : ∀ x, Conv (fun f => loop lib f b i (moved (r.iters.set i l) a r)) x → Conv (fun f => loop lib f b i r) x := by
        intro x hx
        refine Conv.succ (fun f => ?_) hx
        rw [hloop, if_neg (by simp [hv])]
      refine ⟨fun h => ?_, fun n ns h => ?_⟩
      · obtain ⟨a', h3⟩ := h1 h
        exact ⟨a', fun x hx => step x (h3 x hx)⟩
      · obtain ⟨l', a', h3, h4, h5, h6, h7⟩ := h2 n ns h
        exact ⟨l', a', h3, fun y hy => List.mem_cons_of_mem _ (h4 y hy), List.mem_cons_of_mem _ h5, h6,
          fun x hx => step x (h7 x hx)⟩

/-- What the decoder has come to at the end of the document. -/
structure Ended (r : Reader) (ps : List Point) (x : Reader) : Prop where
  same : Same r x
  route : x.route = []
  fatal : x.fatalError = some .endOfStream
  last : r.last.conclusion = .cont → x.last.conclusion = .cont
  length : r.iters.length ≤ x.iters.length
  keep : ∀ j, j < r.iters.length → r.iters.getD j [] = [] → x.iters.getD j [] = []
  empty : ∀ p ∈ ps, ∀ i, p.iter = some i → x.iters.getD i [] = []

theorem Ended.stop {r x : Reader} {ps : List Point} (h : Ended r ps x) {lib : Lib} {b : Bool} {i : Nat}
    (hl : x.last.conclusion = .cont) (hi : x.iters.getD i [] = []) : Conv (fun f => loop lib f b i x) x := by
  refine Conv.succ (g' := fun f => visitCurrent lib f (pop x)) (fun f => ?_) ?_
  · rw [loop, if_pos hl, hi]
  · have hp : pop x = x := by
      have := h.route
      cases x
      simp only at this
      subst this
      rfl
    rw [hp]
    refine Conv.succ (g' := fun _ => .ok x) (fun f => ?_) (Conv.pure x)
    rw [visitCurrent]
    simp only [currentNode, h.route, List.head?_nil, Option.map_none]
    rw [appendError]
    simp [Err.isDeny, h.fatal]

theorem accept_enter {lib : Lib} {r : Reader} {n : Node} {ps : List Point} {cs : List Node} {b : Bool} {c0 : List Node}
    (hr : r.route = { node := n } :: ps) (hc : childrenOf n = some (cs, b)) (hl : Layered n = true)
    (hy : layer r.expecter n = some c0) (f : Nat) :
    accept lib (f + 2) n r =
      (loop lib f b r.iters.length { r with iters := r.iters ++ [cs], route := entered n r.iters.length :: ps,
                                            last := { conclusion := .cont } } >>= fun x => .ok x) := by
  rw [accept_complex hr hc]
  simp only [openIter, if_true]
  rw [processComplex]
  simp only [process_layer_new lib hl hy, swap, Bool.false_eq_true, if_false]
  simp only [hr]
  rfl

/-- The reader which has entered a layer. -/
def inside (n : Node) (cs : List Node) (ps : List Point) (r : Reader) : Reader :=
  { r with iters := r.iters ++ [cs], route := entered n r.iters.length :: ps, last := { conclusion := .cont } }

theorem resumed_inside (n : Node) (cs : List Node) (ps : List Point) (r : Reader) :
    resumed (entered n r.iters.length) ps (inside n cs ps r) = inside n cs ps r := rfl

/-- Entering a layer is visiting its point again. -/
theorem enter_conv {lib : Lib} {r : Reader} {n : Node} {ps : List Point} {cs : List Node} {b : Bool} {c0 : List Node}
    (hr : r.route = { node := n } :: ps) (hc : childrenOf n = some (cs, b)) (hl : Layered n = true)
    (hy : layer r.expecter n = some c0) {x : Reader} (hx : Conv (fun f => visitCurrent lib f (inside n cs ps r)) x) :
    Conv (fun f => accept lib f n r) x := by
  have h1 := (visit_continue (lib := lib) (r := inside n cs ps r) (p := entered n r.iters.length) (ps := ps) rfl hc rfl
    (process_layer lib _ hl) (by simp [entered]) x).mp hx
  rw [resumed_inside] at h1
  refine Conv.succ (g' := fun f => accept lib (f + 1) n r) (fun _ => rfl) ?_
  refine Conv.succ (g' := fun f => accept lib (f + 2) n r) (fun _ => rfl) ?_
  exact Conv.congr (accept_enter hr hc hl hy) (Conv.bind h1 (Conv.pure x))

/-- The reader after a tag or an anchor. -/
def passed (a : Anchors) (ps : List Point) (r : Reader) : Reader :=
  { r with anchors := a, route := ps, last := { conclusion := .cont } }

theorem accept_attr {lib : Lib} {r : Reader} {n : Node} {ps : List Point} (hr : r.route = { node := n } :: ps)
    (hn : (∃ t, n = .tag t) ∨ ∃ t, n = .anchor t) : ∃ a, ∀ f, accept lib (f + 1) n r = .ok (passed a ps r) := by
  have hp := process_attr lib r.expecter hn
  rcases hn with ⟨t, rfl⟩ | ⟨t, rfl⟩
  · refine ⟨r.anchors, fun f => ?_⟩
    simp only [accept, childrenOf, visitTexter, hr, hp, pop, List.tail_cons, Bool.false_eq_true, if_false]
    rfl
  · refine ⟨r.anchors.store t, fun f => ?_⟩
    simp only [accept, childrenOf, visitTexter, hr, hp, pop, List.tail_cons, Bool.false_eq_true, if_false]
    rfl

/-- The decoder which has come to a new node, and what it does after visiting it. -/
structure Took (lib : Lib) (nulls : Bool) (hs : List Handle) (fs : List (Frame Node)) (n : Node) (r : Reader) (ps : List Point)
    (r' : Reader) (qs : List Point) (k : Nat → Reader → Res Reader) : Prop where
  part : Part nulls n
  route : r'.route = { node := n } :: qs
  base : Base nulls hs r'.iters fs qs
  same : Same r r'
  fatal : r'.fatalError = r.fatalError
  visit : ∀ y x, Conv (fun f => accept lib f n r') y → Conv (fun f => k f y) x → Conv (fun f => visitCurrent lib f r) x
  stop : ∀ y, y.last.conclusion ≠ .cont → Conv (fun f => k f y) y
  ended : ∀ y, Ended r' qs y → Conv (fun f => k f y) y ∧ Ended r ps y
  attr : Attr n → ∀ a x, Conv (fun f => visitCurrent lib f (passed a qs r')) x → Conv (fun f => k f (passed a qs r')) x

theorem took {lib : Lib} {k : Option Nat} {n : Node} {ns : List Node} {r : Reader} (hr : r.route = ps)
    (hb : Base nulls hs r.iters ((k, n :: ns) :: fs) ps) :
    ∃ r' qs c, Took lib nulls hs ((k, ns) :: fs) n r ps r' qs c := by
  have hpts := hb.pts
  cases hpts with
  | root ht =>
    refine ⟨r, [], fun _ y => .ok y, .inl ht, hr, ⟨.ghost .nil, hb.inj, hb.bound, ?_⟩, Same.refl r, rfl, ?_, ?_, ?_, ?_⟩
    · intro k s i hk hf
      refine hb.closed hk fun f hm => ?_
      obtain rfl := List.mem_singleton.mp hm
      simp
    · intro y x h1 h2
      have := Conv.det (Conv.pure y) h2
      subst this
      refine Conv.succ (g' := fun f => accept lib f n r) (fun f => ?_) h1
      exact visit_current_eq hr (by intro he; simp only at he; subst he; cases ht) f
    · intro y _
      exact Conv.pure y
    · intro y hy
      refine ⟨Conv.pure y, ⟨hy.same, hy.route, hy.fatal, hy.last, hy.length, hy.keep, ?_⟩⟩
      intro p hp i hi
      obtain rfl := List.mem_singleton.mp hp
      cases hi
    · intro ha
      cases ha <;> cases ht
  | @cons _ _ _ p ps i l h1 h2 h3 h4 h5 h6 h7 h8 =>
    have ht : Top nulls hs r.iters k (n :: ns) fs p ps i l := ⟨h1, h2, h3, h4, h5, h6, h7, h8⟩
    obtain ⟨cs, b, hc⟩ := h7
    obtain ⟨hcont, hunk⟩ := ht.cont lib r.expecter
    have hlt : i < r.iters.length := (List.getElem?_eq_some_iff.mp h4).1
    obtain ⟨l', a, h9, h10, h11, h12, h13⟩ := (loop_next (lib := lib) (b := b) l (resumed p ps r) rfl h4).2 n ns h5.symm
    refine ⟨push { node := n } (moved (r.iters.set i l') a (resumed p ps r)), going p :: ps, fun f y => loop lib f b i y,
      h6 n h11 h12, rfl, ?_, ⟨rfl, rfl, rfl, rfl⟩, rfl, ?_, ?_, ?_, ?_⟩
    · rw [← h9]
      exact hb.set ht h10
    · intro y x h14 h15
      exact (visit_continue hr hc h2 hcont hunk x).mpr (h13 x (Conv.bind h14 h15))
    · intro y hy
      exact Conv.succ (g' := fun _ => .ok y) (fun f => loop_stop hy) (Conv.pure y)
    · intro y hy
      have hei : y.iters.getD i [] = [] := hy.empty (going p) List.mem_cons_self i h2
      have hyl : y.last.conclusion = .cont := hy.last rfl
      have hlen : (r.iters.set i l').length ≤ y.iters.length := hy.length
      refine ⟨hy.stop hyl hei, ⟨hy.same.multi, hy.same.denyErrors, hy.same.expecter, hy.same.latestDeny⟩, hy.route,
        hy.fatal, fun _ => hyl, ?_, ?_, ?_⟩
      · rw [List.length_set] at hlen
        exact hlen
      · intro j hj hjj
        by_cases he : i = j
        · rw [← he]
          exact hei
        · refine hy.keep j ?_ ?_
          · show j < (r.iters.set i l').length
            rw [List.length_set]
            exact hj
          · show (r.iters.set i l').getD j [] = []
            rw [getD_set_ne he]
            exact hjj
      · intro q hq j hj
        rcases List.mem_cons.mp hq with rfl | hq
        · rw [h2] at hj
          cases hj
          exact hei
        · exact hy.empty q (List.mem_cons_of_mem _ hq) j hj
    · intro _ a' x hx
      exact (visit_continue (lib := lib) (r := passed a' (going p :: ps) _) (p := going p) (ps := ps) rfl hc h2 (by
        have hf := ht.frame
        cases k with
        | some k => exact process_coll lib _ hf.2.2.2.1 ht.children (.inr rfl)
        | none => exact process_layer lib _ hf.2.1) (by simp [going]) x).mp hx

theorem Base.ghost (hb : Base nulls hs its fs ps) : Base nulls hs its ((none, []) :: fs) ps :=
  ⟨.ghost hb.pts, hb.inj, hb.bound, fun hk hf => hb.closed hk fun f hm => hf f (List.mem_cons_of_mem _ hm)⟩

/-- The next node: the decoder visits it with a new point. -/
theorem settle {lib : Lib} {multi : Bool} {anyOf : Node → Option GVal} {e : Expecter} {res : Option (Node × List (Frame Node))}
    (hn : Next (view lib multi anyOf) e fs res) : ∀ (r : Reader) (ps : List Point), r.expecter = e → r.route = ps →
      r.fatalError = none → Base nulls hs r.iters fs ps →
      (res = none → ∃ x, Conv (fun f => visitCurrent lib f r) x ∧ Ended r ps x) ∧
      (∀ n gs, res = some (n, gs) → Tree nulls n ∧ layer e n = none ∧ ∃ r' qs, r'.route = { node := n } :: qs ∧
        Base nulls hs r'.iters gs qs ∧ Same r r' ∧ r'.fatalError = none ∧
        ∀ x, Conv (fun f => accept lib f n r') x → x.last.conclusion ≠ .cont → Conv (fun f => visitCurrent lib f r) x) := by
  induction hn with
  | done =>
    intro r ps _ hr hf hb
    have hpts := hb.pts
    cases hpts
    refine ⟨fun _ => ⟨appendError (some .endOfStream) r, ?_, ?_⟩, fun _ _ h => nomatch h⟩
    · refine Conv.succ (g' := fun _ => .ok (appendError (some .endOfStream) r)) (fun f => ?_) (Conv.pure _)
      rw [visitCurrent]
      simp [currentNode, hr]
    · have he : appendError (some .endOfStream) r = { r with fatalError := some .endOfStream } := by
        simp [appendError, Err.isDeny, hf]
      rw [he]
      exact ⟨⟨rfl, rfl, rfl, rfl⟩, hr, rfl, id, Nat.le_refl _, fun _ _ h => h, fun _ h => nomatch h⟩
  | @close k fs res _ ih =>
    intro r ps he hr hf hb
    have hpts := hb.pts
    cases hpts with
    | ghost hp =>
      refine ih r ps he hr hf ⟨hp, hb.inj, hb.bound, fun hk hn => hb.closed hk fun f hm => ?_⟩
      rcases List.mem_cons.mp hm with rfl | hm
      · simp
      · exact hn f hm
    | @cons _ _ _ p ps i l h1 h2 h3 h4 h5 h6 h7 h8 =>
      have ht : Top nulls hs r.iters k [] fs p ps i l := ⟨h1, h2, h3, h4, h5, h6, h7, h8⟩
      obtain ⟨cs, b, hc⟩ := h7
      obtain ⟨hcont, hunk⟩ := ht.cont lib r.expecter
      have hlt : i < r.iters.length := (List.getElem?_eq_some_iff.mp h4).1
      obtain ⟨a, h9⟩ := (loop_next (lib := lib) (b := b) l (resumed p ps r) rfl h4).1 h5.symm
      obtain ⟨ih1, ih2⟩ := ih (pop (moved (r.iters.set i []) a (resumed p ps r))) ps he rfl hf (hb.drop ht)
      have step : ∀ x, Conv (fun f => visitCurrent lib f (pop (moved (r.iters.set i []) a (resumed p ps r)))) x →
          Conv (fun f => visitCurrent lib f r) x := fun x hx => (visit_continue hr hc h2 hcont hunk x).mpr (h9 x hx)
      have hii : (r.iters.set i []).getD i [] = [] := by
        rw [List.getD_eq_getElem?_getD, List.getElem?_set_self hlt]
        rfl
      refine ⟨fun hn => ?_, fun n gs hn => ?_⟩
      · obtain ⟨x, h10, h11⟩ := ih1 hn
        have hkeep : ∀ j, j < r.iters.length → (r.iters.set i []).getD j [] = [] → x.iters.getD j [] = [] :=
          fun j hj => h11.keep j (by show j < (r.iters.set i []).length; rw [List.length_set]; exact hj)
        have hlen : (r.iters.set i []).length ≤ x.iters.length := h11.length
        rw [List.length_set] at hlen
        refine ⟨x, step x h10, ⟨h11.same.multi, h11.same.denyErrors, h11.same.expecter, h11.same.latestDeny⟩, h11.route,
          h11.fatal, fun _ => h11.last rfl, hlen, ?_, ?_⟩
        · intro j hj hjj
          refine hkeep j hj ?_
          by_cases hij : i = j
          · rw [← hij]
            exact hii
          · rw [getD_set_ne hij]
            exact hjj
        · intro q hq j hj
          rcases List.mem_cons.mp hq with rfl | hq
          · rw [h2] at hj
            cases hj
            exact hkeep i hlt hii
          · exact h11.empty q hq j hj
      · obtain ⟨h10, h11, r', qs, h12, h13, h14, h15, h16⟩ := ih2 n gs hn
        exact ⟨h10, h11, r', qs, h12, h13, ⟨h14.multi, h14.denyErrors, h14.expecter, h14.latestDeny⟩, h15,
          fun x hx hl => step x (h16 x hx hl)⟩
  | @take k n ns fs hl =>
    intro r ps he hr hf hb
    refine ⟨fun he => (nomatch he), fun m gs hm => ?_⟩
    cases hm
    obtain ⟨r', qs, c, ht⟩ := took (lib := lib) hr hb
    have htree : Tree nulls n := by
      rcases ht.part with h | h
      · exact h
      · cases h <;> cases hl
    exact ⟨htree, hl, r', qs, ht.route, ht.base, ht.same, ht.fatal.trans hf, fun x hx hxl => ht.visit x x hx (ht.stop x hxl)⟩
  | @enter k n ns fs cs0 res hl _ ih =>
    intro r ps he hr hf hb
    obtain ⟨r', qs, c, ht⟩ := took (lib := lib) hr hb
    have he' : r'.expecter = e := ht.same.expecter.trans he
    have hf' : r'.fatalError = none := ht.fatal.trans hf
    rcases layer_cases ht.part hl with ⟨hn, rfl⟩ | ⟨cs, b, hc, rfl, hparts, hlay⟩
    · obtain ⟨a, hacc⟩ := accept_attr (lib := lib) ht.route hn
      have hattr : Attr n := by
        rcases hn with ⟨t, rfl⟩ | ⟨t, rfl⟩
        · exact .tag
        · exact .anchor
      have step : ∀ x, Conv (fun f => visitCurrent lib f (passed a qs r')) x → Conv (fun f => visitCurrent lib f r) x :=
        fun x hx => ht.visit _ x (Conv.succ (g' := fun _ => .ok (passed a qs r')) hacc (Conv.pure _)) (ht.attr hattr a x hx)
      obtain ⟨ih1, ih2⟩ := ih (passed a qs r') qs he' rfl hf' ht.base.ghost
      refine ⟨fun hn => ?_, fun m gs hm => ?_⟩
      · obtain ⟨x, h1, h2⟩ := ih1 hn
        exact ⟨x, step x h1, (ht.ended x ⟨⟨h2.same.multi, h2.same.denyErrors, h2.same.expecter, h2.same.latestDeny⟩, h2.route,
          h2.fatal, fun _ => h2.last rfl, h2.length, h2.keep, h2.empty⟩).2⟩
      · obtain ⟨h10, h11, r2, qs2, h12, h13, h14, h15, h16⟩ := ih2 m gs hm
        exact ⟨h10, h11, r2, qs2, h12, h13, ht.same.trans ⟨h14.multi, h14.denyErrors, h14.expecter, h14.latestDeny⟩, h15,
          fun x hx hl => step x (h16 x hx hl)⟩
    · have hlay' : layer r'.expecter n = some (cs.filter validNode) := by rw [he']; exact hl
      obtain ⟨ih1, ih2⟩ := ih (inside n cs qs r') (entered n r'.iters.length :: qs) he' rfl hf' (ht.base.enter hc hparts hlay)
      have enter : ∀ x, Conv (fun f => visitCurrent lib f (inside n cs qs r')) x → Conv (fun f => accept lib f n r') x :=
        fun x hx => enter_conv ht.route hc hlay hlay' hx
      refine ⟨fun hn => ?_, fun m gs hm => ?_⟩
      · obtain ⟨x, h1, h2⟩ := ih1 hn
        have hlen : (r'.iters ++ [cs]).length ≤ x.iters.length := h2.length
        rw [List.length_append, List.length_singleton] at hlen
        have hx : Ended r' qs x := by
          refine ⟨⟨h2.same.multi, h2.same.denyErrors, h2.same.expecter, h2.same.latestDeny⟩, h2.route, h2.fatal,
            fun _ => h2.last rfl, by omega, ?_, fun q hq => h2.empty q (List.mem_cons_of_mem _ hq)⟩
          intro j hj hjj
          refine h2.keep j ?_ ?_
          · show j < (r'.iters ++ [cs]).length
            rw [List.length_append, List.length_singleton]
            omega
          · show (r'.iters ++ [cs]).getD j [] = []
            rw [List.getD_eq_getElem?_getD, List.getElem?_append_left hj, ← List.getD_eq_getElem?_getD]
            exact hjj
        obtain ⟨h3, h4⟩ := ht.ended x hx
        exact ⟨x, ht.visit x x (enter x h1) h3, h4⟩
      · obtain ⟨h10, h11, r2, qs2, h12, h13, h14, h15, h16⟩ := ih2 m gs hm
        exact ⟨h10, h11, r2, qs2, h12, h13, ht.same.trans ⟨h14.multi, h14.denyErrors, h14.expecter, h14.latestDeny⟩, h15,
          fun x hx hl => ht.visit x x (enter x (h16 x hx hl)) (ht.stop x hl)⟩

/-! ### Reading a node -/

/-- The expecters whose calls use the extracted text. -/
def Extracts (e : Expecter) : Bool :=
  e != .null && e != .any && e != .raw && e != .skip && e != .sequence && e != .mapping

/-- What a point of a node which has not been read makes of an expecter. -/
theorem process_new (lib : Lib) (e : Expecter) {n : Node} (hn : Tree nulls n) (hl : layer e n = none) {prev : Conclusion}
    (hp : prev = .unknown ∨ prev = .deny) :
    process lib e n prev = (match verdict lib e n with
      | .deny => { conclusion := .deny }
      | .opens => { conclusion := .match_, extract := true }
      | .whole => { conclusion := if e = .any ∨ e = .raw then .match_ else .consume, extract := Extracts e }) := by
  cases hn <;> rcases hp with rfl | rfl <;> cases e <;> simp [layer, takesAll] at hl <;>
    simp [process, processTerminal, processCollection, processAny, processWhole, processNull, Fresh, Going, verdict,
      textIf, nullText, isNull, Extracts, isLayer, isProperty, isText, isSequence, isMapping, isNullNode, Node.type?,
      Reader.textOf] <;> (try split) <;> simp_all

theorem verdict_opens {lib : Lib} {n : Node} {e : Expecter} (h : verdict lib e n = .opens) :
    (e = .sequence ∧ ∃ es, n = .sequence es) ∨ (e = .mapping ∧ ∃ es, n = .mapping es) := by
  cases e <;> cases n <;> simp [verdict, textIf] at h ⊢ <;> (split at h <;> cases h)

theorem verdict_whole {lib : Lib} {n : Node} {e : Expecter} (h : verdict lib e n = .whole) :
    (∃ t q, n = .text t q) ∨ Extracts e = false := by
  cases e <;> cases n <;> simp [verdict, Extracts] at h ⊢

/-- The point of a node which has not been read: a new one, or a refused one. -/
structure Unread (nulls : Bool) (hs : List Handle) (its : List (List Node)) (ps : List Point) (p : Point) (n : Node)
    (items : List Node) : Prop where
  node : p.node = n
  tree : Tree nulls n
  trees : ∀ m ∈ items, Tree nulls m
  state : (p.result.conclusion = .unknown ∧ items = itemsOf n) ∨
    (p.result.conclusion = .deny ∧ (∀ e, layer e n = none) ∧ ((∃ cs b, childrenOf n = some (cs, b)) →
      ∃ i, p.iter = some i ∧ its[i]? = some items ∧ (∀ q ∈ ps, q.iter ≠ some i) ∧ ∀ k s : Nat, hs[k]? ≠ some (some (s, i))))

theorem itemsOf_tree {n : Node} (ht : Tree nulls n) : ∀ m ∈ itemsOf n, Tree nulls m := by
  cases ht with
  | sequence h => exact h
  | mapping h => exact h
  | _ => exact fun _ h => nomatch h

/-- The outcome of visiting a node which has not been read, by the verdict. -/
structure Visited (lib : Lib) (nulls : Bool) (hs : List Handle) (fs : List (Frame Node)) (ps : List Point) (n : Node)
    (items : List Node) (e : Expecter) (r' : Reader) : Prop where
  base : Base nulls hs r'.iters fs ps
  last : r'.last.conclusion ≠ .cont
  deny : verdict lib e n = .deny →
    (r'.fatalError = none ∧ r'.latestDeny = some (.deny e) ∧
      ∃ p', r'.route = p' :: ps ∧ p'.result.conclusion = .deny ∧ Unread nulls hs r'.iters ps p' n items) ∨
    (e ≠ .null ∧ r'.multi = false ∧ r'.fatalError = some (.deny e) ∧ r'.latestDeny = none)
  whole : verdict lib e n = .whole → r'.fatalError = none ∧ r'.latestDeny = none ∧
    (Extracts e = true → r'.extractedValue = ReaderCursor.textOf n) ∧
    (if e = .any ∨ e = .raw then ∃ p', r'.route = p' :: ps ∧ p'.node = n else r'.route = ps)
  opens : verdict lib e n = .opens → r'.fatalError = none ∧ r'.latestDeny = none ∧ ∃ p' i, r'.route = p' :: ps ∧ p'.node = n ∧
    p'.iter = some i ∧ r'.iters[i]? = some items ∧ (∀ q ∈ ps, q.iter ≠ some i) ∧
    (∀ k s : Nat, hs[k]? ≠ some (some (s, i))) ∧
    p'.result.conclusion = .match_ ∧ r'.extractedState = some (some ((itemsOf n).length, i))

theorem Unread.prev {p : Point} {n : Node} {items : List Node} (hu : Unread nulls hs its ps p n items) :
    p.result.conclusion = .unknown ∨ p.result.conclusion = .deny := by
  rcases hu.state with h | h
  · exact .inl h.1
  · exact .inr h.1

theorem visit_text {lib : Lib} {t : List Char} {q : Quoting} {items : List Node} {r : Reader} {p : Point} (hr : r.route = p :: ps)
    (hb : Base nulls hs r.iters fs ps) (hu : Unread nulls hs r.iters ps p (.text t q) items) (hf : r.fatalError = none)
    (hd : r.latestDeny = none) :
    ∃ r', (∀ f, accept lib (f + 1) (.text t q) r = .ok r') ∧ r'.multi = r.multi ∧ r'.denyErrors = r.denyErrors ∧
      Visited lib nulls hs fs ps (.text t q) items r.expecter r' := by
  have hproc := process_new lib r.expecter hu.tree (by simp [layer]) hu.prev
  have hvis : ∀ f, accept lib (f + 1) (.text t q) r = visitTexter lib (.text t q) t r := by
    intro f
    simp only [accept, childrenOf]
  simp only [visitTexter, hr, hproc] at hvis
  cases hv : verdict lib r.expecter (.text t q) with
  | opens => rcases verdict_opens hv with ⟨_, _, h⟩ | ⟨_, _, h⟩ <;> cases h
  | deny =>
    simp only [hv, swap, hr, Bool.false_eq_true, if_false] at hvis
    refine ⟨_, hvis, rfl, rfl, ⟨hb, by simp, fun _ => .inl ⟨hf, rfl, _, rfl, rfl, hu.node, hu.tree, hu.trees,
      .inr ⟨rfl, fun _ => rfl, ?_⟩⟩, fun h => by simp [hv] at h, fun h => by simp [hv] at h⟩⟩
    rintro ⟨cs, b, h⟩
    cases h
  | whole =>
    simp only [hv] at hvis
    by_cases he : r.expecter = .any ∨ r.expecter = .raw
    · have hx : Extracts r.expecter = false := by rcases he with h | h <;> simp [h, Extracts]
      simp only [if_pos he, hx, Bool.false_eq_true, if_false] at hvis
      refine ⟨_, hvis, rfl, rfl, ⟨hb, by simp, fun h => by simp [hv] at h, fun _ => ⟨hf, hd, fun h => ?_, ?_⟩,
        fun h => by simp [hv] at h⟩⟩
      · simp [hx] at h
      · rw [if_pos he]
        exact ⟨p, rfl, hu.node⟩
    · simp only [if_neg he, pop, hr] at hvis
      refine ⟨_, hvis, ?_, ?_, ⟨?_, ?_, fun h => by simp [hv] at h, fun _ => ⟨?_, ?_, fun h => ?_, ?_⟩, fun h => by simp [hv] at h⟩⟩
      · split <;> rfl
      · split <;> rfl
      · split <;> exact hb
      · split <;> simp
      · split <;> exact hf
      · split <;> exact hd
      · rw [if_pos h]
        rfl
      · rw [if_neg he]
        split <;> rfl

theorem visit_null {lib : Lib} {items : List Node} {r : Reader} {p : Point} (hr : r.route = p :: ps) (hm : r.multi = false)
    (hb : Base nulls hs r.iters fs ps) (hu : Unread nulls hs r.iters ps p .null items) (hf : r.fatalError = none)
    (hd : r.latestDeny = none) :
    ∃ r', (∀ f, accept lib (f + 1) .null r = .ok r') ∧ r'.multi = r.multi ∧ r'.denyErrors = r.denyErrors ∧
      Visited lib nulls hs fs ps .null items r.expecter r' := by
  have hproc := process_new lib r.expecter hu.tree (by simp [layer]) hu.prev
  have hvis : ∀ f, accept lib (f + 1) .null r = visitNull lib r := by
    intro f
    simp only [accept, childrenOf]
  simp only [visitNull, hr, hproc] at hvis
  cases hv : verdict lib r.expecter .null with
  | opens => rcases verdict_opens hv with ⟨_, _, h⟩ | ⟨_, _, h⟩ <;> cases h
  | deny =>
    have hne : r.expecter ≠ .null := by
      intro he
      rw [he] at hv
      simp [verdict] at hv
    simp only [hv, swap, hr, Bool.false_eq_true, if_false, appendError, hm, hf, Bool.false_and, Option.isNone_none,
      if_true] at hvis
    exact ⟨_, hvis, hm.symm, rfl, ⟨hb, by simp, fun _ => .inr ⟨hne, rfl, rfl, hd⟩, fun h => by simp [hv] at h,
      fun h => by simp [hv] at h⟩⟩
  | whole =>
    have hx : Extracts r.expecter = false := by
      rcases verdict_whole hv with ⟨_, _, h⟩ | h
      · cases h
      · exact h
    simp only [hv, hx, Bool.false_eq_true, if_false] at hvis
    by_cases he : r.expecter = .any ∨ r.expecter = .raw
    · simp only [if_pos he] at hvis
      refine ⟨_, hvis, rfl, rfl, ⟨hb, by simp, fun h => by simp [hv] at h, fun _ => ⟨hf, hd, fun h => ?_, ?_⟩,
        fun h => by simp [hv] at h⟩⟩
      · simp [hx] at h
      · rw [if_pos he]
        exact ⟨p, rfl, hu.node⟩
    · simp only [if_neg he, pop, hr] at hvis
      refine ⟨_, hvis, rfl, rfl, ⟨hb, by simp, fun h => by simp [hv] at h, fun _ => ⟨hf, hd, fun h => ?_, ?_⟩,
        fun h => by simp [hv] at h⟩⟩
      · simp [hx] at h
      · rw [if_neg he]
        rfl

theorem visit_complex {lib : Lib} {n : Node} {cs : List Node} {b : Bool} {items : List Node} {r : Reader} {p : Point}
    (hr : r.route = p :: ps) (hc : childrenOf n = some (cs, b)) (hl : layer r.expecter n = none)
    (hb : Base nulls hs r.iters fs ps) (hu : Unread nulls hs r.iters ps p n items) (hf : r.fatalError = none)
    (hd : r.latestDeny = none) :
    ∃ r', (∀ f, accept lib (f + 2) n r = .ok r') ∧ r'.multi = r.multi ∧ r'.denyErrors = r.denyErrors ∧
      Visited lib nulls hs fs ps n items r.expecter r' := by
  have hproc := process_new lib r.expecter hu.tree hl hu.prev
  -- the iterator of the point
  obtain ⟨i, its, hopen, hits, hq, hi, hbase⟩ : ∃ i its,
      openIter cs p r = ({ p with iter := some i }, { r with iters := its }) ∧
      (p.result.conclusion = .deny ∨ cs = items → its[i]? = some items) ∧
      (∀ q ∈ ps, q.iter ≠ some i) ∧ (∀ k s : Nat, hs[k]? ≠ some (some (s, i))) ∧ Base nulls hs its fs ps := by
    rcases hu.state with ⟨h1, h2⟩ | ⟨h1, _, h2⟩
    · refine ⟨r.iters.length, r.iters ++ [cs], ?_, ?_, ?_, ?_, hb.append _⟩
      · rw [openIter, if_pos h1]
      · rintro (h | rfl)
        · rw [h] at h1
          cases h1
        · simp
      · intro q hq he
        have := hb.pts.lt q hq _ he
        omega
      · intro k s hks
        have := hb.bound hks
        omega
    · obtain ⟨i, h3, h4, h5, h6⟩ := h2 ⟨cs, b, hc⟩
      refine ⟨i, r.iters, ?_, fun _ => h4, h5, h6, hb⟩
      rw [openIter, if_neg (by simp [h1]), ← h3]
  have hcoll : (∃ es, n = .sequence es) ∨ (∃ es, n = .mapping es) → (p.result.conclusion = .deny ∨ cs = items) ∧
      itemsOf n = cs ∧ (∀ e, layer e n = none) := by
    intro h
    have h2 : itemsOf n = cs ∧ (∀ e, layer e n = none) := by
      rcases h with ⟨es, rfl⟩ | ⟨es, rfl⟩ <;> cases hc <;> exact ⟨rfl, fun _ => rfl⟩
    refine ⟨?_, h2⟩
    rcases hu.state with h1 | h1
    · exact .inr (h2.1.symm.trans h1.2.symm)
    · exact .inl h1.1
  have hvis : ∀ f, accept lib (f + 2) n r =
      processComplex lib (f + 1) { p with iter := some i } cs.length b { r with iters := its } := by
    intro f
    rw [accept_complex hr hc, hopen]
  have hnode := hu.node
  simp only [processComplex, hnode, hproc, swap, hr] at hvis
  cases hv : verdict lib r.expecter n with
  | deny =>
    have hk : (∃ es, n = .sequence es) ∨ (∃ es, n = .mapping es) := by
      have ht := hu.tree
      cases ht with
      | sequence => exact .inl ⟨_, rfl⟩
      | mapping => exact .inr ⟨_, rfl⟩
      | text => cases hc
      | null => cases hc
      | content => cases hl
      | entry =>
        cases he : r.expecter <;> simp [he, layer, takesAll, verdict] at hl hv
      | stream =>
        cases he : r.expecter <;> simp [he, layer, takesAll, verdict] at hl hv
    obtain ⟨h1, h2, h3⟩ := hcoll hk
    simp only [hv, Bool.false_eq_true, if_false, Res.bind_ok] at hvis
    exact ⟨_, hvis, rfl, rfl, ⟨hbase, by simp, fun _ => .inl ⟨hf, rfl, _, rfl, rfl, rfl, hu.tree, hu.trees,
      .inr ⟨rfl, h3, fun _ => ⟨i, rfl, hits h1, hq, hi⟩⟩⟩, fun h => by simp [hv] at h, fun h => by simp [hv] at h⟩⟩
  | opens =>
    have hk : (∃ es, n = .sequence es) ∨ (∃ es, n = .mapping es) := by
      rcases verdict_opens hv with ⟨_, h⟩ | ⟨_, h⟩
      · exact .inl h
      · exact .inr h
    obtain ⟨h1, h2, h3⟩ := hcoll hk
    simp only [hv, if_true, Res.bind_ok, Option.map_some] at hvis
    refine ⟨_, hvis, rfl, rfl, ⟨hbase, by simp, fun h => by simp [hv] at h,
      fun h => by simp [hv] at h, fun _ => ⟨hf, hd, _, i, rfl, rfl, rfl, hits h1, hq, hi, rfl, ?_⟩⟩⟩
    rw [h2]
  | whole =>
    simp only [hv] at hvis
    have hx : Extracts r.expecter = false := by
      rcases verdict_whole hv with ⟨_, _, h⟩ | h
      · rw [h] at hc
        cases hc
      · exact h
    by_cases he : r.expecter = .any ∨ r.expecter = .raw
    · simp only [if_pos he, hx, Bool.false_eq_true, if_false, Res.bind_ok] at hvis
      refine ⟨_, hvis, rfl, rfl, ⟨hbase, by simp, fun h => by simp [hv] at h, fun _ => ⟨hf, hd, fun h => ?_, ?_⟩,
        fun h => by simp [hv] at h⟩⟩
      · simp [hx] at h
      · rw [if_pos he]
        exact ⟨_, rfl, rfl⟩
    · simp only [if_neg he, hx, pop, Bool.false_eq_true, if_false, Res.bind_ok] at hvis
      refine ⟨_, hvis, rfl, rfl, ⟨hbase, by simp, fun h => by simp [hv] at h, fun _ => ⟨hf, hd, fun h => ?_, ?_⟩,
        fun h => by simp [hv] at h⟩⟩
      · simp [hx] at h
      · rw [if_neg he]
        rfl

theorem visit_new {lib : Lib} {n : Node} {items : List Node} {r : Reader} {p : Point} (hm : nulls = true → r.multi = false)
    (hr : r.route = p :: ps) (hl : layer r.expecter n = none)
    (hb : Base nulls hs r.iters fs ps) (hu : Unread nulls hs r.iters ps p n items) (hf : r.fatalError = none)
    (hd : r.latestDeny = none) :
    ∃ r', Conv (fun f => accept lib f n r) r' ∧ r'.multi = r.multi ∧ r'.denyErrors = r.denyErrors ∧
      Visited lib nulls hs fs ps n items r.expecter r' := by
  have complex : ∀ {cs b}, childrenOf n = some (cs, b) → ∃ r', Conv (fun f => accept lib f n r) r' ∧ r'.multi = r.multi ∧
      r'.denyErrors = r.denyErrors ∧ Visited lib nulls hs fs ps n items r.expecter r' := by
    intro cs b hc
    obtain ⟨r', h1, h2⟩ := visit_complex (lib := lib) hr hc hl hb hu hf hd
    exact ⟨r', Conv.succ (g' := fun f => accept lib (f + 1) n r) (fun _ => rfl) (Conv.succ h1 (Conv.pure _)), h2⟩
  have ht := hu.tree
  cases ht with
  | text =>
    obtain ⟨r', h1, h2⟩ := visit_text (lib := lib) hr hb hu hf hd
    exact ⟨r', Conv.succ h1 (Conv.pure _), h2⟩
  | null hn =>
    obtain ⟨r', h1, h2⟩ := visit_null (lib := lib) hr (hm hn) hb hu hf hd
    exact ⟨r', Conv.succ h1 (Conv.pure _), h2⟩
  | sequence => exact complex rfl
  | mapping => exact complex rfl
  | entry => exact complex rfl
  | content => exact complex rfl
  | stream => exact complex rfl

/-! ### The refinement -/

/-- The collection states report what is left in the frames. -/
def Shows (hs : List Handle) (its : List (List Node)) (fs : List (Frame Node)) : Prop :=
  ∀ k : Nat, (∀ s i : Nat, hs[k]? = some (some (s, i)) → its.getD i [] = left k fs) ∧
    ((∀ s i : Nat, hs[k]? ≠ some (some (s, i))) → left k fs = [])

theorem left_none {fs : List (Frame Node)} {k : Nat} (hn : ∀ f ∈ fs, f.1 ≠ some k) : left k fs = [] := by
  rw [left, List.find?_eq_none.mpr]
  simpa using hn

theorem Pts.find (hp : Pts nulls hs its fs ps) (k : Nat) :
    (∀ f ∈ fs, f.1 ≠ some k) ∨ ∃ s i, hs[k]? = some (some (s, i)) ∧ its[i]? = some (left k fs) ∧ (∃ f ∈ fs, f.1 = some k) := by
  induction hp with
  | nil => exact .inl fun _ h => nomatch h
  | root _ =>
    left
    intro f hf
    obtain rfl := List.mem_singleton.mp hf
    simp
  | @ghost fs ps _ ih =>
    rcases ih with ih | ⟨s, i, h1, h2, f, h3, h4⟩
    · left
      intro f hf
      rcases List.mem_cons.mp hf with rfl | hf
      · simp
      · exact ih f hf
    · refine .inr ⟨s, i, h1, ?_, f, List.mem_cons_of_mem _ h3, h4⟩
      rw [h2]
      simp [left]
  | @cons k' rest fs p ps i l _ _ _ h4 h5 _ _ h8 ih =>
    by_cases hk : k' = some k
    · subst hk
      obtain ⟨_, ⟨s, h2⟩, h3, _⟩ := h8
      refine .inr ⟨s, i, h2, ?_, _, List.mem_cons_self, rfl⟩
      rw [h4]
      simp [left, h5, filter_valid h3]
    · rcases ih with ih | ⟨s', i', h5, h6, f, h7, h8⟩
      · left
        intro f hf
        rcases List.mem_cons.mp hf with rfl | hf
        · exact hk
        · exact ih f hf
      · refine .inr ⟨s', i', h5, ?_, f, List.mem_cons_of_mem _ h7, h8⟩
        rw [h6]
        simp [left, hk]

theorem Base.shows (hb : Base nulls hs its fs ps) : Shows hs its fs := by
  intro k
  rcases hb.pts.find k with h | ⟨s, i, h1, h2, _⟩
  · exact ⟨fun s i hk => by rw [left_none h, hb.closed hk h], fun _ => left_none h⟩
  · refine ⟨fun s' i' hk => ?_, fun hk => absurd h1 (hk s i)⟩
    rw [h1] at hk
    cases hk
    rw [List.getD_eq_getElem?_getD, h2]
    rfl

theorem Ended.shows {r x : Reader} (hb : Base nulls hs r.iters fs ps) (hx : Ended r ps x) : Shows hs x.iters [] := by
  intro k
  refine ⟨fun s i hk => ?_, fun _ => rfl⟩
  show _ = []
  have hin : ∀ {fs ps}, Pts nulls hs r.iters fs ps → (∃ f ∈ fs, f.1 = some k) → ∃ p ∈ ps, p.iter = some i := by
    intro fs ps hp
    induction hp with
    | nil => rintro ⟨_, h, _⟩; cases h
    | root =>
      rintro ⟨f, h, h'⟩
      obtain rfl := List.mem_singleton.mp h
      cases h'
    | ghost _ ih =>
      rintro ⟨f, h, h'⟩
      rcases List.mem_cons.mp h with rfl | h
      · cases h'
      · exact ih ⟨f, h, h'⟩
    | @cons k' rest fs p ps j l _ h2 _ _ _ _ _ h8 ih =>
      rintro ⟨f, h, h'⟩
      rcases List.mem_cons.mp h with rfl | h
      · simp only at h'
        subst h'
        obtain ⟨_, ⟨s', h9⟩, _⟩ := h8
        rw [h9] at hk
        cases hk
        exact ⟨p, List.mem_cons_self, h2⟩
      · obtain ⟨q, hq, hq'⟩ := ih ⟨f, h, h'⟩
        exact ⟨q, List.mem_cons_of_mem _ hq, hq'⟩
  rcases hb.pts.find k with h | ⟨s', i', h1, h2, h3⟩
  · exact hx.keep i (hb.bound hk) (hb.closed hk h)
  · obtain ⟨p, hp, hi⟩ := hin hb.pts h3
    exact hx.empty p hp i hi

/-- The size a collection state reports. -/
def sizeOf : Handle → Nat
  | some (n, _) => n
  | none => 0

/-- The decoder and the collection states stand for the cursor. -/
structure Rel (nulls multi : Bool) (r : Reader) (hs : List Handle) (c : Cursor Node) : Prop where
  mode : nulls = true → multi = false
  multi : r.multi = multi
  deny : r.latestDeny = none
  fatal : r.fatalError = c.fatal
  denied : r.denyErrors = c.denied
  sizes : hs.map sizeOf = c.sizes
  shows : Shows hs r.iters c.frames
  live : c.fatal = none → ∃ ps, Base nulls hs r.iters c.frames ps ∧
    (match c.pending with
      | none => r.route = ps
      | some (n, l) => ∃ p, r.route = p :: ps ∧ p.result.conclusion = .deny ∧ Unread nulls hs r.iters ps p n l)

/-- The collection states after a call which returned the noop state, if it returned one. -/
def addNoop (call : Call) (hs : List Handle) : List Handle := if opening call then hs ++ [none] else hs

theorem addNoop_sizes (call : Call) (hs : List Handle) : (addNoop call hs).map sizeOf = addSize call 0 (hs.map sizeOf) := by
  rw [addNoop, addSize]
  split <;> simp [sizeOf]

theorem addNoop_get (call : Call) {hs : List Handle} {k s i : Nat} (hk : (addNoop call hs)[k]? = some (some (s, i))) :
    hs[k]? = some (some (s, i)) := by
  rw [addNoop] at hk
  split at hk
  · by_cases hl : k < hs.length
    · rwa [List.getElem?_append_left hl] at hk
    · rw [List.getElem?_append_right (by omega)] at hk
      by_cases hz : k - hs.length = 0
      · simp [hz] at hk
      · rw [List.getElem?_eq_none (by simp; omega)] at hk
        cases hk
  · exact hk

theorem addNoop_mono (call : Call) {hs : List Handle} {k s i : Nat} (hk : hs[k]? = some (some (s, i))) :
    (addNoop call hs)[k]? = some (some (s, i)) := by
  rw [addNoop]
  split
  · rw [List.getElem?_append_left]
    · exact hk
    · exact (List.getElem?_eq_some_iff.mp hk).1
  · exact hk

theorem Pts.handles (hp : Pts nulls hs its fs ps)
    (h1 : ∀ {k s i : Nat}, hs[k]? = some (some (s, i)) → hs'[k]? = some (some (s, i)))
    (h2 : ∀ {k s i : Nat}, hs'[k]? = some (some (s, i)) → hs[k]? = some (some (s, i)) ∨ ∀ q ∈ ps, q.iter ≠ some i) :
    Pts nulls hs' its fs ps := by
  induction hp with
  | nil => exact .nil
  | root ht => exact .root ht
  | ghost _ ih => exact .ghost (ih h2)
  | cons _ g2 g3 g4 g5 g6 g7 g8 ih =>
    refine .cons (ih fun hk => ?_) g2 g3 g4 g5 g6 g7 (g8.congr h1 fun hn k s hk => ?_)
    · rcases h2 hk with h | h
      · exact .inl h
      · exact .inr fun q hq => h q (List.mem_cons_of_mem _ hq)
    · rcases h2 hk with h | h
      · exact hn k s h
      · exact h _ List.mem_cons_self g2

theorem Base.noop (hb : Base nulls hs its fs ps) (call : Call) : Base nulls (addNoop call hs) its fs ps :=
  ⟨hb.pts.handles (addNoop_mono call) fun hk => .inl (addNoop_get call hk),
    fun h1 h2 => hb.inj (addNoop_get call h1) (addNoop_get call h2),
    fun h1 => hb.bound (addNoop_get call h1), fun h1 => hb.closed (addNoop_get call h1)⟩

theorem Unread.noop {p : Point} {n : Node} {l : List Node}
    (hu : Unread nulls hs its ps p n l) (call : Call) : Unread nulls (addNoop call hs) its ps p n l := by
  refine ⟨hu.node, hu.tree, hu.trees, ?_⟩
  rcases hu.state with h | ⟨h1, h1', h2⟩
  · exact .inl h
  · refine .inr ⟨h1, h1', fun hk => ?_⟩
    obtain ⟨i, h3, h4, h5, h6⟩ := h2 hk
    exact ⟨i, h3, h4, h5, fun k s hks => h6 k s (addNoop_get call hks)⟩

theorem Shows.noop (hs' : Shows hs its fs) (call : Call) : Shows (addNoop call hs) its fs := fun k =>
  ⟨fun s i hk => (hs' k).1 s i (addNoop_get call hk), fun hk => (hs' k).2 fun s i h => hk s i (addNoop_mono call h)⟩

/-- The decoder with an error which ends decoding. -/
def setFatal (e : Err) (r : Reader) : Reader := { r with fatalError := some e }

theorem appendError_fatal {r : Reader} {e : Err} (hf : r.fatalError = none) (he : (r.multi && e.isDeny) = false) :
    appendError (some e) r = setFatal e r := by
  rw [appendError]
  simp [he, hf, setFatal]

/-- After an error which ends decoding. -/
theorem rel_failed {lib : Lib} {multi : Bool} {anyOf : Node → Option GVal} {c : Cursor Node} {r0 : Reader}
    (hmode : nulls = true → multi = false) (hm : r0.multi = multi) (hl : r0.latestDeny = none) (hd : r0.denyErrors = c.denied)
    (hz : hs.map sizeOf = c.sizes) (e : Err) (he : r0.fatalError = some e) (call : Call) {fs : List (Frame Node)}
    (hf : Shows hs r0.iters fs) : Rel nulls multi r0 (addNoop call hs) (failed (view lib multi anyOf) call e fs c) := by
  refine ⟨hmode, hm, hl, he, hd, ?_, hf.noop call, fun h => nomatch h⟩
  rw [addNoop_sizes, hz]
  rfl

/-- What visiting the current node gives. -/
theorem visit_current {lib : Lib} {multi : Bool} {anyOf : Node → Option GVal} {r : Reader} {c : Cursor Node}
    (hr : Rel nulls multi r hs c) (hf : c.fatal = none) {e : Expecter}
    {cur : Option (Node × List Node × List (Frame Node))} (hcur : Current (view lib multi anyOf) e c cur) :
    (cur = none → ∃ r', Conv (fun f => visitCurrent lib f { r with expecter := e }) r' ∧ r'.fatalError = some .endOfStream ∧
      r'.multi = multi ∧ r'.denyErrors = c.denied ∧ r'.latestDeny = none ∧ Shows hs r'.iters []) ∧
    (∀ n l fs, cur = some (n, l, fs) → ∃ r' ps, Conv (fun f => visitCurrent lib f { r with expecter := e }) r' ∧
      r'.multi = multi ∧ r'.denyErrors = c.denied ∧ Visited lib nulls hs fs ps n l e r' ∧ Tree nulls n ∧
      ∀ m ∈ l, Tree nulls m) := by
  obtain ⟨ps, hb, hp⟩ := hr.live hf
  have hff : r.fatalError = none := hr.fatal.trans hf
  have hmm : nulls = true → r.multi = false := fun h => hr.multi.trans (hr.mode h)
  cases hcur with
  | @pending n l hpend =>
    rw [hpend] at hp
    obtain ⟨p, hp1, hp3, hp2⟩ := hp
    refine ⟨fun he => (nomatch he), ?_⟩
    intro n' l' fs he
    cases he
    have hl : ∀ e, layer e n = none := by
      rcases hp2.state with h | h
      · rw [hp3] at h
        cases h.1
      · exact h.2.1
    obtain ⟨r', h1, h2, h3, h4⟩ := visit_new (lib := lib) (r := { r with expecter := e }) hmm hp1 (hl e) hb hp2 hff hr.deny
    refine ⟨r', ps, ?_, h2.trans hr.multi, h3.trans hr.denied, h4, hp2.tree, hp2.trees⟩
    refine Conv.succ (g' := fun f => accept lib f n { r with expecter := e }) (fun f => ?_) h1
    rw [← hp2.node]
    refine visit_current_eq (r := { r with expecter := e }) hp1 ?_ f
    intro h
    have ht := hp2.tree
    rw [← hp2.node, h] at ht
    cases ht
  | @next n fs hpend hn =>
    rw [hpend] at hp
    refine ⟨fun he => (nomatch he), ?_⟩
    intro n' l' fs' he
    cases he
    obtain ⟨ht, hl, r1, qs, h1, h2, h3, h4, h6⟩ :=
      (settle (lib := lib) hn { r with expecter := e } ps rfl hp hff hb).2 n fs rfl
    have hu : Unread nulls hs r1.iters qs { node := n } n (itemsOf n) := ⟨rfl, ht, itemsOf_tree ht, .inl ⟨rfl, rfl⟩⟩
    have he : r1.expecter = e := h3.expecter
    obtain ⟨r', h7, h8, h9, h10⟩ := visit_new (lib := lib) (fun h => h3.multi.trans (hmm h)) h1 (by rw [he]; exact hl) h2 hu h4
      (h3.latestDeny.trans hr.deny)
    rw [he] at h10
    exact ⟨r', qs, h6 r' h7 h10.last, h8.trans (h3.multi.trans hr.multi), h9.trans (h3.denyErrors.trans hr.denied), h10, ht,
      itemsOf_tree ht⟩
  | done hpend hn =>
    rw [hpend] at hp
    refine ⟨fun _ => ?_, fun _ _ _ he => (nomatch he)⟩
    obtain ⟨x, h1, h2⟩ := (settle (lib := lib) hn { r with expecter := e } ps rfl hp hff hb).1 rfl
    exact ⟨x, h1, h2.fatal, h2.same.multi.trans hr.multi, h2.same.denyErrors.trans hr.denied,
      h2.same.latestDeny.trans hr.deny, Ended.shows (r := { r with expecter := e }) hb h2⟩

/-- What `expect` gives: the call fails, or the node is read. -/
theorem expect_spec {lib : Lib} {multi : Bool} {anyOf : Node → Option GVal} {r : Reader} {c : Cursor Node}
    (hr : Rel nulls multi r hs c) (hf : c.fatal = none) {e : Expecter}
    {cur : Option (Node × List Node × List (Frame Node))} (hcur : Current (view lib multi anyOf) e c cur) :
    (∃ x, Conv (fun f => expect lib f e r) (false, x) ∧ ∀ call, call ≠ .tryNull →
      (react (view lib multi anyOf) e c call cur).1 = zeroOf call ∧
      Rel nulls multi x (addNoop call hs) (react (view lib multi anyOf) e c call cur).2) ∨
    (∃ x n l fs ps, cur = some (n, l, fs) ∧ Conv (fun f => expect lib f e r) (true, x) ∧
      x.multi = multi ∧ x.denyErrors = c.denied ∧ Visited lib nulls hs fs ps n l e x ∧ verdict lib e n ≠ .deny ∧
      Tree nulls n ∧ ∀ m ∈ l, Tree nulls m) := by
  obtain ⟨h1, h2⟩ := visit_current hr hf hcur
  rcases cur with _ | ⟨n, l, fs⟩
  · left
    obtain ⟨r', h3, h4, h5, h6, h7, h8⟩ := h1 rfl
    have ha : ({ appendError none r' with latestDeny := none } : Reader) = r' := by
      have : appendError none r' = r' := by simp [appendError, h4]
      rw [this, ← h7]
    refine ⟨r', Conv.bind h3 ?_, fun call hc => ⟨rfl, ?_⟩⟩
    · refine Conv.congr (fun f => ?_) (Conv.pure _)
      simp only [h4, h7, Option.isSome_none, Option.isSome_some, Bool.or_true, if_true, ha]
    · exact rel_failed hr.mode h5 h7 h6 hr.sizes _ h4 call h8
  · obtain ⟨r', ps, h3, h4, h4', h5, h6, h6'⟩ := h2 n l fs rfl
    by_cases hv : verdict lib e n = .deny
    · left
      have hv' : (view lib multi anyOf).verdict e n = .deny := hv
      rcases h5.deny hv with ⟨h7, h8, p', h9, h10, h11⟩ | ⟨h7, h8, h9, h10⟩
      · refine ⟨{ appendError (some (.deny e)) r' with latestDeny := none }, Conv.bind h3 ?_, fun call hc => ?_⟩
        · refine Conv.congr (fun f => ?_) (Conv.pure _)
          simp [h8]
        · simp only [react, hv', if_neg hc]
          by_cases hm : multi = true
          · have hm' : (view lib multi anyOf).multi = true := hm
            simp only [if_pos hm', true_and]
            have hr' : r'.multi = true := h4.trans hm
            have ha : appendError (some (.deny e)) r' = { r' with denyErrors := r'.denyErrors ++ [.deny e] } := by
              simp [appendError, hr', Err.isDeny]
            rw [ha]
            refine ⟨hr.mode, h4, rfl, h7.trans hf.symm, ?_, ?_, h5.base.shows.noop call,
              fun _ => ⟨ps, h5.base.noop call, p', h9, h10, h11.noop call⟩⟩
            · show r'.denyErrors ++ _ = c.denied ++ _
              rw [h4']
            · rw [addNoop_sizes, hr.sizes]
          · have hm' : ¬ (view lib multi anyOf).multi = true := hm
            simp only [if_neg hm', true_and]
            have hr' : r'.multi = false := h4.trans (by simpa using hm)
            rw [appendError_fatal h7 (by simp [hr'])]
            exact rel_failed (r0 := { setFatal (.deny e) r' with latestDeny := none }) hr.mode h4 rfl h4' hr.sizes _ rfl call
              h5.base.shows
      · have hm' : ¬ (view lib multi anyOf).multi = true := by
          show ¬ multi = true
          simp [h4.symm.trans h8]
        have ha : ({ appendError none r' with latestDeny := none } : Reader) = r' := by
          have : appendError none r' = r' := by simp [appendError, h9]
          rw [this, ← h10]
        refine ⟨r', Conv.bind h3 ?_, fun call hc => ?_⟩
        · refine Conv.congr (fun f => ?_) (Conv.pure _)
          simp only [h9, h10, Option.isSome_none, Option.isSome_some, Bool.or_true, if_true, ha]
        · simp only [react, hv', if_neg hc, if_neg hm', true_and]
          exact rel_failed hr.mode h4 h10 h4' hr.sizes _ h9 call h5.base.shows
    · right
      have hd : r'.fatalError = none ∧ r'.latestDeny = none := by
        cases hx : verdict lib e n with
        | deny => exact absurd hx hv
        | whole => exact ⟨(h5.whole hx).1, (h5.whole hx).2.1⟩
        | opens => exact ⟨(h5.opens hx).1, (h5.opens hx).2.1⟩
      refine ⟨r', n, l, fs, ps, rfl, Conv.bind h3 ?_, h4, h4', h5, hv, h6, h6'⟩
      refine Conv.congr (fun f => ?_) (Conv.pure _)
      simp [hd]

end Verif.Reader
