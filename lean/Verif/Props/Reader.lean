import Verif.Lemmas.ReaderRefine
import Verif.Lemmas.Krfl

/-!
C23 to C26, C29 to C31 and C45 for the yayamls engine: the decoder (`engines/yayamls/decode/reader.go`).

A session is a decoder with the collection states it has returned; `run` performs calls one after the other.
-/

namespace Verif.Props.Reader

open Verif.Ast Verif.Generic Verif.Decoder Verif.DecoderCursor Verif.ReaderCursor Verif.Reader

set_option linter.unusedSimpArgs false

/-- The session at the beginning of a document. -/
def begin (multi : Bool) (n : Node) : Session := { reader := newReader multi n }

/-- Generic values exist. -/
theorem generic_exists (lib : Lib) : ∃ anyOf, Generic lib anyOf := by
  classical
  refine ⟨fun n => if ht : Tree true n then (ReaderTree.extract_conv (lib := lib) ht).choose else none, fun n ht => ?_⟩
  simp only [dif_pos ht]
  exact (ReaderTree.extract_conv (lib := lib) ht).choose_spec

theorem sizeOf_list : ∀ (l : List Node), (l.map SizeOf.sizeOf).sum < SizeOf.sizeOf l
  | [] => by simp
  | n :: l => by
    have := sizeOf_list l
    simp
    omega

theorem sum_filter (p : Node → Bool) : ∀ (l : List Node), ((l.filter p).map SizeOf.sizeOf).sum ≤ (l.map SizeOf.sizeOf).sum
  | [] => by simp
  | n :: l => by
    have := sum_filter p l
    simp only [List.filter_cons]
    split
    · simp
      omega
    · simp
      omega

theorem weight_spec (lib : Lib) (multi : Bool) (anyOf : Node → Option GVal) :
    Weight (view lib multi anyOf) (fun _ => True) SizeOf.sizeOf := by
  refine ⟨fun n _ => ⟨fun _ _ => trivial, ?_⟩, fun e n cs _ hl => ⟨fun _ _ => trivial, ?_⟩⟩
  · show ((itemsOf n).map SizeOf.sizeOf).sum < SizeOf.sizeOf n
    have hz : ∀ m : Node, 0 < SizeOf.sizeOf m := by
      intro m
      cases m <;> simp <;> omega
    cases n
    case sequence es =>
      have := sizeOf_list es
      simp [itemsOf]
      omega
    case mapping es =>
      have := sizeOf_list es
      simp [itemsOf]
      omega
    all_goals exact hz _
  · replace hl : layer e n = some cs := hl
    cases n <;> simp only [layer, reduceCtorEq, Option.some.injEq] at hl
    case stream =>
      split at hl
      · cases hl
      · cases hl
        have := sizeOf_list cs
        simp
        omega
    case mappingEntry k v =>
      split at hl
      · cases hl
      · cases hl
        simp
    case tag | anchor =>
      subst hl
      simp
      omega
    case properties t a =>
      subst hl
      have := sum_filter validNode [a, t]
      simp at this ⊢
      omega
    case content p c =>
      subst hl
      have := sum_filter validNode [p, c]
      simp at this ⊢
      omega

theorem next_exists {lib : Lib} {multi : Bool} {anyOf : Node → Option GVal} (e : Expecter) (fs : List (Frame Node)) :
    ∃ r, Next (view lib multi anyOf) e fs r := by
  obtain ⟨m, hm⟩ : ∃ m, m = 2 * total SizeOf.sizeOf fs + fs.length := ⟨_, rfl⟩
  induction m using Nat.strongRecOn generalizing fs with
  | _ m ih =>
    match fs, hm with
    | [], _ => exact ⟨none, .done⟩
    | (k, []) :: fs, hm =>
      obtain ⟨r, hr⟩ := ih _ (by rw [hm]; simp [total]) fs rfl
      exact ⟨r, .close hr⟩
    | (k, n :: ns) :: fs, hm =>
      cases hl : layer e n with
      | none => exact ⟨_, .take hl⟩
      | some cs =>
        have hw := ((weight_spec lib multi anyOf).layer e n cs trivial hl).2
        obtain ⟨r, hr⟩ := ih _ (by rw [hm]; simp [total]; omega) ((none, cs) :: (k, ns) :: fs) rfl
        exact ⟨r, .enter hl hr⟩

/-- Refinement: on a well-formed document without aliases, every history of calls ends, without panic, and returns what
the cursor over the document returns.  (With multiple errors, the document must have no null nodes, see
`null_stale_value` and `null_state_panics`.) -/
theorem decoder_is_cursor {lib : Lib} {anyOf : Node → Option GVal} (hg : Generic lib anyOf) {nulls : Bool} {n : Node}
    (ht : Tree nulls n) {multi : Bool} (hm : nulls = true → multi = false) (calls : List Call) :
    ∃ t c' s', t.map Prod.fst = calls ∧ Run (view lib multi anyOf) (start n) t c' ∧
      Conv (fun f => run lib f (begin multi n) calls) (t.map Prod.snd, s') ∧
      s'.reader.fatalError = c'.fatal ∧ s'.reader.denyErrors = c'.denied := by
  obtain ⟨t, c', h1, h2, _⟩ := run_total (V := view lib multi anyOf) (I := fun _ => True) (fun _ _ _ _ _ _ => trivial)
    (fun e c _ => next_exists e c.frames) (start n) trivial calls
  obtain ⟨r', hs', h3, h4⟩ := run_refines hg (rel_start ht hm) h2
  rw [h1] at h3
  exact ⟨t, c', ⟨r', hs'.map some⟩, h1, h2, h3, h4.fatal, h4.denied⟩

/-- A history of the cursor is what the decoder does, and nothing else is. -/
theorem run_of_cursor {lib : Lib} {anyOf : Node → Option GVal} (hg : Generic lib anyOf) {nulls : Bool} {n : Node}
    (ht : Tree nulls n) {multi : Bool} (hm : nulls = true → multi = false) {t : List (Call × Out Node)} {c' : Cursor Node}
    (hr : Run (view lib multi anyOf) (start n) t c') :
    ∃ r' hs', Conv (fun f => run lib f (begin multi n) (t.map Prod.fst)) (t.map Prod.snd, ⟨r', hs'.map some⟩) ∧
      Rel nulls multi r' hs' c' :=
  run_refines hg (rel_start ht hm) hr

/-! ### C23 -/

/-- C23.  Calls which follow the shape of the document return exactly its values, in order, and the collection states
report items exactly while there are some; there is no error. -/
theorem reads_in_order {lib : Lib} {anyOf : Node → Option GVal} (hg : Generic lib anyOf) {nulls : Bool} {n : Node}
    (ht : Tree nulls n) {multi : Bool} (hm : nulls = true → multi = false) {t : List (Call × Out Node)} {k : Nat}
    (hr : Reads (view lib multi anyOf) 0 n t k) :
    ∃ s', Conv (fun f => run lib f (begin multi n) (t.map Prod.fst)) (t.map Prod.snd, s') ∧
      s'.reader.fatalError = none ∧ s'.reader.denyErrors = [] := by
  obtain ⟨c', h1, h2, h3⟩ := reads_run hr (start n) none [] [] ⟨rfl, rfl, rfl, [], Empties.nil, rfl⟩
  obtain ⟨r', hs', h4, h5⟩ := run_of_cursor hg ht hm h1
  exact ⟨_, h4, h5.fatal.trans h2.fatal, h5.denied.trans h3⟩

/-- What a node with properties leads to. -/
theorem core_content {lib : Lib} {multi : Bool} {anyOf : Node → Option GVal} {e : Expecter} {p c m : Node}
    (hp : validNode p = true → ∃ t a, p = .properties t a ∧ Attr p) (hv : validNode c = true)
    (h : Core (view lib multi anyOf) e c m) : Core (view lib multi anyOf) e (.content p c) m := by
  by_cases hvp : validNode p = true
  · obtain ⟨t, a, rfl, ha⟩ := hp hvp
    refine .last (p := .properties t a) (c := c) (l := [a, t].filter validNode) ?_ rfl ?_ h
    · show some ([Node.properties t a, c].filter validNode) = _
      simp [List.filter, hv, hvp]
    · intro q hq
      obtain ⟨hq, hv⟩ := List.mem_filter.mp hq
      cases ha with
      | properties h1 h2 =>
        simp at hq
        rcases hq with rfl | rfl
        · obtain ⟨s, rfl⟩ := h2 hv
          rfl
        · obtain ⟨s, rfl⟩ := h1 hv
          rfl
  · refine .only (c := c) ?_ h
    show some ([p, c].filter validNode) = _
    simp [List.filter, hv, hvp]

theorem reads_content {lib : Lib} {multi : Bool} {anyOf : Node → Option GVal} {p c : Node}
    (hp : validNode p = true → ∃ t a, p = .properties t a ∧ Attr p) (hv : validNode c = true) {k k' : Nat}
    {t : List (Call × Out Node)} (h : Reads (view lib multi anyOf) k c t k') :
    Reads (view lib multi anyOf) k (.content p c) t k' := by
  cases h with
  | leaf h1 h2 h3 h4 h5 => exact .leaf h1 h2 (core_content hp hv h3) h4 h5
  | coll h1 h2 h3 h4 h5 => exact .coll h1 h2 (core_content hp hv h3) h4 h5

/-- How the scalars of a node are read: of an entry, its key and value, of other nodes, the node itself. -/
def Readable (V : View Node) (n : Node) (l : List (List Char)) : Prop :=
  match n with
  | .mappingEntry a b => ∀ k, ∃ t k1 t' k2, Reads V k a t k1 ∧ Reads V k1 b t' k2 ∧ strings (t ++ t') = l ∧ Strings (t ++ t')
  | n => ∀ k, ∃ t k', Reads V k n t k' ∧ strings t = l ∧ Strings t

theorem readable_node {V : View Node} {n : Node} {l : List (List Char)} (h : isEntry n = false) :
    Readable V n l ↔ ∀ k, ∃ t k', Reads V k n t k' ∧ strings t = l ∧ Strings t := by
  cases n <;> first | rfl | cases h

/-- A transcript which reads a value begins with a reading call. -/
theorem reads_head {V : View Node} {n : Node} {k k' : Nat} {t : List (Call × Out Node)} (h : Reads V k n t k') :
    ∃ call o t' e, t = (call, o) :: t' ∧ expecterOf call = some e := by
  cases h with
  | leaf h1 => exact ⟨_, _, _, _, rfl, h1⟩
  | coll h1 => exact ⟨_, _, _, _, rfl, h1⟩

theorem items_exist {lib : Lib} {multi : Bool} {anyOf : Node → Option GVal} (hd : Nat) : ∀ (ns : List Node)
    (ls : List (List (List Char))), ns.length = ls.length →
    (∀ (i : Nat) c l, ns[i]? = some c → ls[i]? = some l → Readable (view lib multi anyOf) c l) →
    ∀ k, ∃ t k', ReadsItems (view lib multi anyOf) hd k ns t k' ∧ strings t = ls.flatten ∧ Strings t := by
  have item : Strings (N := Node) [(.hasItems hd, .bool true)] := by
    intro x hx
    obtain rfl := List.mem_singleton.mp hx
    exact .inr (.inr (.inr ⟨_, rfl⟩))
  intro ns
  induction ns with
  | nil =>
    intro ls hl _ k
    cases ls with
    | nil =>
      refine ⟨_, k, .nil, rfl, fun x hx => ?_⟩
      obtain rfl := List.mem_singleton.mp hx
      exact .inr (.inr (.inr ⟨_, rfl⟩))
    | cons _ _ => cases hl
  | cons n ns ih =>
    intro ls hl hr k
    cases ls with
    | nil => cases hl
    | cons l ls =>
      have h0 := hr 0 n l rfl rfl
      have ih := ih ls (by simpa using hl) (fun i c l hc hl => hr (i + 1) c l (by simpa using hc) (by simpa using hl))
      cases hn : isEntry n with
      | false =>
        obtain ⟨t, k1, h1, h2, h2'⟩ := (readable_node hn).mp h0 k
        obtain ⟨t', k2, h3, h4, h4'⟩ := ih k1
        refine ⟨_, k2, .one h1 h3, ?_, (item.append h2').append h4'⟩
        rw [strings_append, show (Call.hasItems hd, (Out.bool true : Out Node)) :: t = [(.hasItems hd, .bool true)] ++ t from rfl,
          strings_append, h2, h4]
        rfl
      | true =>
        obtain ⟨a, b, rfl⟩ : ∃ a b, n = .mappingEntry a b := by
          cases n <;> first | cases hn; done | exact ⟨_, _, rfl⟩
        obtain ⟨t, k1, t', k2, h1, h2, h3, h4⟩ := h0 k
        obtain ⟨t'', k3, h5, h6, h7⟩ := ih k2
        obtain ⟨call, o, t1, e, rfl, he⟩ := reads_head h1
        have hcall : takesAll e = false := by
          rcases h4 (call, o) (by simp) with hc | hc | hc | ⟨_, hc⟩ <;> simp only at hc <;> subst hc <;> cases he <;> rfl
        have hlayer : (view lib multi anyOf).layer e (.mappingEntry a b) = some [a, b] := by
          show (if takesAll e = true then none else some [a, b]) = _
          simp [hcall]
        have h8 := ReadsItems.entry (h := hd) he hlayer h1 h2 h5
        refine ⟨_, k3, h8, ?_, ?_⟩
        · have : strings ((Call.hasItems hd, (Out.bool true : Out Node)) :: (call, o) :: t1 ++ t' ++ t'') =
              strings ([(Call.hasItems hd, (Out.bool true : Out Node))] ++ (((call, o) :: t1 ++ t') ++ t'')) := by simp
          rw [this, strings_append, strings_append, h3, h6]
          rfl
        · have : (Call.hasItems hd, (Out.bool true : Out Node)) :: (call, o) :: t1 ++ t' ++ t'' =
              [(Call.hasItems hd, (Out.bool true : Out Node))] ++ (((call, o) :: t1 ++ t') ++ t'') := by simp
          rw [this]
          exact item.append (h4.append h7)

theorem scalars_tree {n : Node} {l : List (List Char)} (hl : Scalars n l) : Tree false n := by
  have all : ∀ (es : List Node) (ls : List (List (List Char))), es.length = ls.length →
      (∀ (i : Nat) e l, es[i]? = some e → ls[i]? = some l → Tree false e) → ∀ c ∈ es, Tree false c := by
    intro es ls hlen ih c hc
    obtain ⟨i, hi, rfl⟩ := List.mem_iff_getElem.mp hc
    exact ih i _ _ (List.getElem?_eq_getElem hi) (List.getElem?_eq_getElem (hlen ▸ hi))
  induction hl with
  | text => exact .text
  | sequence hlen _ _ ih => exact .sequence (all _ _ hlen ih)
  | mapping hlen _ _ ih => exact .mapping (all _ _ hlen ih)
  | entry _ _ _ _ ih1 ih2 => exact .entry ih1 ih2
  | content hp _ _ ih => exact .content hp ih

theorem tree_valid {nulls : Bool} {n : Node} (h : Tree nulls n) : validNode n = true := by
  cases h <;> rfl

theorem reads_exist {lib : Lib} {multi : Bool} {anyOf : Node → Option GVal} {n : Node} {l : List (List Char)}
    (hl : Scalars n l) : Readable (view lib multi anyOf) n l := by
  have coll : ∀ {call : Call} {e : Expecter} {n : Node} {ls : List (List (List Char))}, isEntry n = false →
      layer e n = none → expecterOf call = some e → (call = .sequence ∨ call = .mapping) → verdict lib e n = .opens →
      (itemsOf n).length = ls.length →
      (∀ (i : Nat) c l, (itemsOf n)[i]? = some c → ls[i]? = some l → Readable (view lib multi anyOf) c l) →
      Readable (view lib multi anyOf) n ls.flatten := by
    intro call e n ls hn hlay he hc hv hlen ih
    rw [readable_node hn]
    intro k
    obtain ⟨t, k', h1, h2, h3⟩ := items_exist (lib := lib) (multi := multi) (anyOf := anyOf) k _ ls hlen ih (k + 1)
    refine ⟨_, k', .coll (call := call) (e := e) (m := n) he ?_ (.value hlay) hv h1, ?_, fun x hx => ?_⟩
    · rcases hc with rfl | rfl <;> rfl
    · rw [strings] at h2 ⊢
      simp [h2]
    · rcases List.mem_cons.mp hx with rfl | hx
      · rcases hc with rfl | rfl
        · exact .inl rfl
        · exact .inr (.inl rfl)
      · exact h3 x hx
  induction hl with
  | @text t q hq =>
    rw [readable_node rfl]
    intro k
    refine ⟨[(.string, .str t)], k, .leaf (m := .text t q) rfl rfl (.value rfl) ?_ rfl, rfl, fun x hx => ?_⟩
    · simp [view, verdict, textIf, hq]
    · obtain rfl := List.mem_singleton.mp hx
      exact .inr (.inr (.inl rfl))
  | sequence hlen _ _ ih => exact coll (call := .sequence) (e := .sequence) rfl rfl rfl (.inl rfl) rfl hlen ih
  | mapping hlen _ _ ih => exact coll (call := .mapping) (e := .mapping) rfl rfl rfl (.inr rfl) rfl hlen ih
  | entry hk hv _ _ ih1 ih2 =>
    intro k
    obtain ⟨t, k1, h1, h2, h3⟩ := (readable_node hk).mp ih1 k
    obtain ⟨t', k2, h4, h5, h6⟩ := (readable_node hv).mp ih2 k1
    exact ⟨t, k1, t', k2, h1, h4, by rw [strings_append, h2, h5], h3.append h6⟩
  | content hp hc hs ih =>
    rw [readable_node rfl]
    intro k
    obtain ⟨t, k1, h1, h2, h3⟩ := (readable_node hc).mp ih k
    exact ⟨t, k1, reads_content hp (tree_valid (scalars_tree hs)) h1, h2, h3⟩

/-- C23.  Every document without aliases and nulls can be read by `Sequence`, `Mapping` and `String`, and these calls
return the texts of all scalars, in the order of the document. -/
theorem scalars_in_order {lib : Lib} {n : Node} {l : List (List Char)} (hl : Scalars n l) (hn : isEntry n = false)
    (multi : Bool) :
    ∃ t s', Conv (fun f => run lib f (begin multi n) (t.map Prod.fst)) (t.map Prod.snd, s') ∧
      Strings t ∧ strings t = l ∧ s'.reader.fatalError = none := by
  obtain ⟨anyOf, hg⟩ := generic_exists lib
  obtain ⟨t, k, h1, h2, h3⟩ := (readable_node hn).mp (reads_exist (lib := lib) (multi := multi) (anyOf := anyOf) hl) 0
  obtain ⟨s', h4, h5, _⟩ := reads_in_order hg (scalars_tree hl) (fun h => nomatch h) h1
  exact ⟨t, s', h4, h3, h2, h5⟩

/-- The session a run ends with. -/
def lastOf (x : Res (List (Out Node) × Session)) : Session :=
  match x with
  | .ok (_, s) => s
  | _ => begin false .nil

def lib0 : Lib := ⟨fun _ => false, fun _ _ => true, fun _ => []⟩

/-- A plain scalar. -/
def plain (s : List Char) : Node := .text s .absent

/-- The tree of `[x, y]`. -/
def list : Node := .sequence [plain ['x'], plain ['y']]

/-- The tree of `{a: &b [x, y]}`. -/
def sample : Node :=
  .mapping [.mappingEntry (plain ['a']) (.content (.properties .invalid (.anchor ['b'])) list)]

theorem list_scalars : Scalars list [['x'], ['y']] := by
  refine .sequence (ls := [[['x']], [['y']]]) rfl (fun e he => ?_) fun i c l hc hl => ?_
  · simp [plain] at he
    rcases he with rfl | rfl <;> rfl
  · match i with
    | 0 =>
      cases hc
      cases hl
      exact .text rfl
    | 1 =>
      cases hc
      cases hl
      exact .text rfl
    | i + 2 => simp at hl

theorem sample_scalars : Scalars sample [['a'], ['x'], ['y']] := by
  refine .mapping (ls := [[['a'], ['x'], ['y']]]) rfl (fun e he => ?_) fun i c l hc hl => ?_
  · obtain rfl := List.mem_singleton.mp he
    rfl
  · match i with
    | 0 =>
      cases hc
      cases hl
      exact .entry (l := [['a']]) rfl rfl (.text rfl) (.content (fun _ => ⟨_, _, rfl, .properties (fun h => by cases h) fun _ => ⟨_, rfl⟩⟩)
        rfl list_scalars)
    | i + 1 => simp at hl

/-- The document is read by `Mapping`, `HasUnprocessedItems`, `String`, `Sequence`, ... -/
example (anyOf : Node → Option GVal) : Reads (view lib0 false anyOf) 0 sample
    [(.mapping, .coll 1), (.hasItems 0, .bool true), (.string, .str ['a']), (.sequence, .coll 2),
      (.hasItems 1, .bool true), (.string, .str ['x']), (.hasItems 1, .bool true), (.skip, .unit),
      (.hasItems 1, .bool false), (.hasItems 0, .bool false)] 2 :=
  .coll (e := .mapping) (m := sample) rfl rfl (.value rfl) rfl (.entry (e := .string) (t := [])
    (t' := [(.sequence, .coll 2), (.hasItems 1, .bool true), (.string, .str ['x']), (.hasItems 1, .bool true),
      (.skip, .unit), (.hasItems 1, .bool false)]) (t'' := [(.hasItems 0, .bool false)])
    rfl rfl
    (.leaf (e := .string) (m := plain ['a']) rfl rfl (.value rfl) rfl rfl)
    (.coll (e := .sequence) (m := list) rfl rfl
      (core_content (fun _ => ⟨_, _, rfl, .properties (fun h => by cases h) fun _ => ⟨_, rfl⟩⟩) rfl (.value rfl)) rfl
      (.one (t := [(.string, .str ['x'])]) (.leaf (e := .string) (m := plain ['x']) rfl rfl (.value rfl) rfl rfl)
        (.one (t := [(.skip, .unit)]) (.leaf (e := .skip) (m := plain ['y']) rfl rfl (.value rfl) rfl rfl) .nil)))
    .nil)

/-! ### C24 -/

/-- C24.  After a fatal error, in whatever state (with collection states which are not nil), every call returns its zero
value at once, and the error stays. -/
theorem errors_sticky {lib : Lib} {s : Session} {e : Err} (he : s.reader.fatalError = some e) (hh : none ∉ s.handles)
    (call : Call) (f : Nat) :
    ∃ o s', step lib f s call = .ok (o, s') ∧ s'.reader = s.reader ∧ none ∉ s'.handles ∧
      (call = .error → o = .err (some e) s.reader.denyErrors) ∧ ((expecterOf call).isSome → o = zeroOf call) := by
  have hk : ∀ k, ∃ hd, s.handles.getD k (some none) = some hd := by
    intro k
    rw [List.getD_eq_getElem?_getD]
    cases hg : s.handles[k]? with
    | none => exact ⟨_, rfl⟩
    | some x =>
      cases x with
      | none => exact absurd (List.mem_of_getElem? hg) hh
      | some hd => exact ⟨hd, rfl⟩
  cases call with
  | hasItems k =>
    obtain ⟨hd, hk⟩ := hk k
    cases hd <;> exact ⟨_, s, by rw [step, hk], rfl, hh, nofun, nofun⟩
  | size k =>
    obtain ⟨hd, hk⟩ := hk k
    cases hd <;> exact ⟨_, s, by rw [step, hk], rfl, hh, nofun, nofun⟩
  | error => exact ⟨_, s, rfl, rfl, hh, fun _ => by rw [he], nofun⟩
  | addError x =>
    refine ⟨.unit, s, ?_, rfl, hh, nofun, nofun⟩
    simp [step, Reader.addError, he]
  | sequence =>
    refine ⟨.coll 0, { s with handles := s.handles ++ [some none] }, ?_, rfl, ?_, nofun, fun _ => rfl⟩
    · simp [step, step.openColl, readCollection, he, Bind.bind, Res.bind]
    · simp [hh]
  | mapping =>
    refine ⟨.coll 0, { s with handles := s.handles ++ [some none] }, ?_, rfl, ?_, nofun, fun _ => rfl⟩
    · simp [step, step.openColl, readCollection, he, Bind.bind, Res.bind]
    · simp [hh]
  | _ =>
    refine ⟨_, s, ?_, rfl, hh, nofun, fun _ => rfl⟩
    simp [step, step.lift, tryNull, readScalar, readAny, readRaw, readNode, readSkip, he, Bind.bind, Res.bind, zeroOf]

/-- C24.  The same without any hypothesis on the collection states, for the methods of the decoder itself. -/
theorem decoder_errors_sticky {lib : Lib} {s : Session} {e : Err} (he : s.reader.fatalError = some e) {call : Call}
    (hc : ∀ k, call ≠ .hasItems k ∧ call ≠ .size k) (f : Nat) :
    ∃ o s', step lib f s call = .ok (o, s') ∧ s'.reader = s.reader ∧
      (call = .error → o = .err (some e) s.reader.denyErrors) ∧ ((expecterOf call).isSome → o = zeroOf call) := by
  cases call with
  | hasItems k => exact absurd rfl (hc k).1
  | size k => exact absurd rfl (hc k).2
  | error => exact ⟨_, s, rfl, rfl, fun _ => by rw [he], nofun⟩
  | addError x =>
    refine ⟨.unit, s, ?_, rfl, nofun, nofun⟩
    simp [step, Reader.addError, he]
  | sequence =>
    refine ⟨.coll 0, { s with handles := s.handles ++ [some none] }, ?_, rfl, nofun, fun _ => rfl⟩
    simp [step, step.openColl, readCollection, he, Bind.bind, Res.bind]
  | mapping =>
    refine ⟨.coll 0, { s with handles := s.handles ++ [some none] }, ?_, rfl, nofun, fun _ => rfl⟩
    simp [step, step.openColl, readCollection, he, Bind.bind, Res.bind]
  | _ =>
    refine ⟨_, s, ?_, rfl, nofun, fun _ => rfl⟩
    simp [step, step.lift, tryNull, readScalar, readAny, readRaw, readNode, readSkip, he, Bind.bind, Res.bind, zeroOf]

/-- C24.  After a fatal error, every later history of calls reports this error. -/
theorem errors_stay {lib : Lib} {s : Session} {e : Err} (he : s.reader.fatalError = some e) (hh : none ∉ s.handles)
    (calls : List Call) (f : Nat) :
    ∃ os s', run lib f s calls = .ok (os, s') ∧ s'.reader = s.reader ∧
      ∀ (i : Nat) call o, calls[i]? = some call → os[i]? = some o →
        (call = .error → o = .err (some e) s.reader.denyErrors) ∧ ((expecterOf call).isSome → o = zeroOf call) := by
  induction calls generalizing s with
  | nil => exact ⟨[], s, rfl, rfl, fun i _ _ h => by simp at h⟩
  | cons c cs ih =>
    obtain ⟨o, s1, h1, h2, h2', h3, h4⟩ := errors_sticky (lib := lib) he hh c f
    obtain ⟨os, s2, h5, h6, h7⟩ := ih (s := s1) (by rw [h2]; exact he) h2'
    refine ⟨o :: os, s2, ?_, h6.trans h2, ?_⟩
    · rw [run, h1]
      show (run lib f s1 cs >>= _) = _
      rw [h5]
      rfl
    · intro i call o' hc ho
      cases i with
      | zero =>
        simp at hc ho
        subst hc ho
        exact ⟨h3, h4⟩
      | succ i =>
        simp at hc ho
        rw [← h2]
        exact h7 i call o' hc ho

/-- The collection states are not nil, whatever was called before. -/
theorem states_present {lib : Lib} {nulls : Bool} {n : Node} (ht : Tree nulls n) {multi : Bool}
    (hm : nulls = true → multi = false) {calls : List Call} {os : List (Out Node)} {s' : Session}
    (hc : Conv (fun f => run lib f (begin multi n) calls) (os, s')) : none ∉ s'.handles := by
  obtain ⟨anyOf, hg⟩ := generic_exists lib
  obtain ⟨t, c', h1, h2, _⟩ := run_total (V := view lib multi anyOf) (I := fun _ => True) (fun _ _ _ _ _ _ => trivial)
    (fun e c _ => next_exists e c.frames) (start n) trivial calls
  obtain ⟨r', hs', h3, h4⟩ := run_of_cursor hg ht hm h2
  rw [h1] at h3
  have := h3.det hc
  simp only [Prod.mk.injEq] at this
  obtain ⟨-, rfl⟩ := this
  simp

example : ∃ s : Session,
    Conv (fun f => run lib0 f (begin false (plain ['x'])) [.string, .string]) ([.str ['x'], .str []], s) ∧
      s.reader.fatalError = some .endOfStream ∧ none ∉ s.handles :=
  ⟨_, ⟨10, fun f hf => by
    obtain ⟨f, rfl⟩ : ∃ g, f = g + 10 := ⟨f - 10, by omega⟩
    rfl⟩, rfl, List.not_mem_nil⟩

/-! ### C25 -/

/-- C25, what holds of it: for every document (well formed and without aliases) there is a bound; after as many calls
which read something, either there is a fatal error or all collection states report that there are no items.  Missing:
after an error the loop must end, too; see `loop_forever`. -/
theorem loops_end_or_fail_partial {lib : Lib} {nulls : Bool} {n : Node} (ht : Tree nulls n) :
    ∃ bound, ∀ calls os s', Conv (fun f => run lib f (begin false n) calls) (os, s') →
      bound ≤ calls.countP Demands →
        s'.reader.fatalError.isSome ∨ ∀ k f, step lib f s' (.hasItems k) = .ok (.bool false, s') := by
  obtain ⟨anyOf, hg⟩ := generic_exists lib
  refine ⟨SizeOf.sizeOf n, fun calls os s' hc hb => ?_⟩
  obtain ⟨t, c', h1, h2, _⟩ := run_total (V := view lib false anyOf) (I := fun _ => True) (fun _ _ _ _ _ _ => trivial)
    (fun e c _ => next_exists e c.frames) (start n) trivial calls
  obtain ⟨r', hs', h3, h4⟩ := run_of_cursor hg ht (fun _ => rfl) h2
  rw [h1] at h3
  have := h3.det hc
  simp only [Prod.mk.injEq] at this
  obtain ⟨-, rfl⟩ := this
  have hcount : t.countP (fun x => Demands x.1) = calls.countP Demands := by
    rw [← h1, List.countP_map]
    rfl
  obtain ⟨_, _, h5⟩ := run_sound (weight_spec lib false anyOf) rfl h2
    ⟨fun _ _ _ _ => trivial, fun _ _ h => (nomatch h), fun h => (nomatch h)⟩
  rcases h5 with h5 | h5
  · exact .inl (by rw [h4.fatal]; exact h5)
  · refine .inr fun k f => ?_
    rw [hasItems_refines h4 k f]
    have hm : mass SizeOf.sizeOf c' = 0 := by
      have : mass SizeOf.sizeOf (start n) = SizeOf.sizeOf n := by simp [mass, start, total]
      omega
    have hl : left k c'.frames = [] := by
      cases hl : left k c'.frames with
      | nil => rfl
      | cons m ms =>
        exfalso
        obtain ⟨g, hg1, hg2⟩ := left_mem (k := k) (fs := c'.frames) (n := m) (by rw [hl]; exact List.mem_cons_self)
        have h6 : SizeOf.sizeOf m ≤ (g.2.map SizeOf.sizeOf).sum := le_sum_of_mem (List.mem_map.mpr ⟨m, hg2, rfl⟩)
        have h7 : (g.2.map SizeOf.sizeOf).sum ≤ total SizeOf.sizeOf c'.frames :=
          le_sum_of_mem (List.mem_map.mpr ⟨g, hg1, rfl⟩)
        have h8 : 0 < SizeOf.sizeOf m := by cases m <;> simp <;> omega
        rw [mass] at hm
        omega
    rw [hl]
    rfl

/-- The histories of the loop `while there are items, read an integer`, with `m` iterations. -/
def loopCalls (m : Nat) : List Call := .sequence :: (List.replicate m [Call.hasItems 0, .integer 64]).flatten

theorem list_tree : Tree false list := scalars_tree list_scalars

/-- C25 fails: on `[x, y]`, the loop which reads integers never ends: after the first element has been refused, which is a
fatal error, nothing is read any more, but the collection state reports an item each time. -/
theorem loop_forever (m : Nat) : ∃ os s',
    Conv (fun f => run lib0 f (begin false list) (loopCalls m)) (os, s') ∧
      (∀ f, step lib0 f s' (.hasItems 0) = .ok (.bool true, s')) ∧
      (1 ≤ m → s'.reader.fatalError = some (.deny .integer)) := by
  obtain ⟨anyOf, hg⟩ := generic_exists lib0
  let c0 : Cursor Node := { frames := [(some 0, [plain ['x'], plain ['y']]), (none, [])], sizes := [2] }
  let c : Cursor Node := { frames := [(some 0, [plain ['y']]), (none, [])], sizes := [2], fatal := some (.deny .integer) }
  have open0 : Step (view lib0 false anyOf) (start list) .sequence (.coll 2) c0 :=
    .read (e := .sequence) (cur := some (list, [plain ['x'], plain ['y']], [(none, [])])) rfl rfl (.next rfl (.take rfl))
  have first : Step (view lib0 false anyOf) c0 (.integer 64) (.int 0) c :=
    .read (e := .integer) (cur := some (plain ['x'], [], [(some 0, [plain ['y']]), (none, [])])) rfl rfl (.next rfl (.take rfl))
  have again : Step (view lib0 false anyOf) c (.integer 64) (.int 0) c := .dead (e := .integer) rfl rfl
  have item : Step (view lib0 false anyOf) c (.hasItems 0) (.bool true) c := Step.hasItems
  have loop : ∀ m, ∃ t, t.map Prod.fst = (List.replicate m [Call.hasItems 0, .integer 64]).flatten ∧
      Run (view lib0 false anyOf) c t c := by
    intro m
    induction m with
    | zero => exact ⟨[], rfl, .nil⟩
    | succ m ih =>
      obtain ⟨t, h1, h2⟩ := ih
      refine ⟨(.hasItems 0, .bool true) :: (.integer 64, .int 0) :: t, ?_, .cons item (.cons again h2)⟩
      simp [List.replicate_succ, h1]
  have all : ∃ t c', t.map Prod.fst = loopCalls m ∧ Run (view lib0 false anyOf) (start list) t c' ∧
      (left 0 c'.frames).isEmpty = false ∧ (1 ≤ m → c'.fatal = some (.deny .integer)) := by
    cases m with
    | zero => exact ⟨_, _, rfl, .cons open0 .nil, rfl, nofun⟩
    | succ m =>
      obtain ⟨t, h1, h2⟩ := loop m
      refine ⟨(.sequence, .coll 2) :: (.hasItems 0, .bool true) :: (.integer 64, .int 0) :: t, c, ?_,
        .cons open0 (.cons .hasItems (.cons first h2)), rfl, fun _ => rfl⟩
      simp [loopCalls, List.replicate_succ, h1]
  obtain ⟨t, c', h1, h2, h3, h3'⟩ := all
  obtain ⟨r', hs', h4, h5⟩ := run_of_cursor hg list_tree (fun _ => rfl) h2
  rw [h1] at h4
  refine ⟨_, _, h4, fun f => ?_, fun hm => h5.fatal.trans (h3' hm)⟩
  rw [hasItems_refines h5 0 f, h3]
  rfl

/-! ### C26 -/

/-- C26, the half which holds: a call at an alias which is met first gives what it would give at the node the alias
stands for (put on the route in front of the alias).  Missing: the alias is left afterwards, see `alias_read_again`. -/
theorem alias_reads_target_partial {lib : Lib} {s : Session} {p : Point} {ps : List Point} {name : List Char} {t : Node}
    (hr : s.reader.route = p :: ps) (hk : p.node = .alias name) (ha : s.reader.anchors.dereference name = some t)
    (ht : t ≠ .nil) (call : Call) (hc : (expecterOf call).isSome) (h1 : call ≠ .any)
    (hf : s.reader.fatalError = none) (f : Nat) :
    step lib (f + 2) s call = step lib (f + 1) { s with reader := push { node := t } s.reader } call := by
  obtain ⟨⟨iters, route, ex, last, es, ev, an, multi, fatal, ld, de⟩, hs⟩ := s
  simp only at hr hk ha hf
  subst hr hf
  have key : ∀ e, visitCurrent lib (f + 2) ⟨iters, p :: ps, e, last, es, ev, an, multi, none, ld, de⟩ =
      visitCurrent lib (f + 1) ⟨iters, { node := t } :: p :: ps, e, last, es, ev, an, multi, none, ld, de⟩ := by
    intro e
    have a : visitCurrent lib (f + 2) ⟨iters, p :: ps, e, last, es, ev, an, multi, none, ld, de⟩ =
        accept lib (f + 1) p.node ⟨iters, p :: ps, e, last, es, ev, an, multi, none, ld, de⟩ := by
      rw [visitCurrent]
      simp only [currentNode, List.head?_cons, Option.map_some, hk]
    have b : visitCurrent lib (f + 1) ⟨iters, { node := t } :: p :: ps, e, last, es, ev, an, multi, none, ld, de⟩ =
        accept lib f t ⟨iters, { node := t } :: p :: ps, e, last, es, ev, an, multi, none, ld, de⟩ := by
      rw [visitCurrent]
      simp only [currentNode, List.head?_cons, Option.map_some]
    rw [a, b, hk, accept]
    simp only [childrenOf, ha, push]
  have hx : ∀ e, expect lib (f + 2) e ⟨iters, p :: ps, ex, last, es, ev, an, multi, none, ld, de⟩ =
      expect lib (f + 1) e ⟨iters, { node := t } :: p :: ps, ex, last, es, ev, an, multi, none, ld, de⟩ := by
    intro e
    rw [expect, expect]
    simp only [key]
  have hs1 : ∀ e conv zero, readScalar lib (f + 2) e conv zero ⟨iters, p :: ps, ex, last, es, ev, an, multi, none, ld, de⟩ =
      readScalar lib (f + 1) e conv zero ⟨iters, { node := t } :: p :: ps, ex, last, es, ev, an, multi, none, ld, de⟩ := by
    intro e conv zero
    rw [readScalar, readScalar, if_neg (by simp), if_neg (by simp), hx]
  have hs2 : ∀ e, readCollection lib (f + 2) e ⟨iters, p :: ps, ex, last, es, ev, an, multi, none, ld, de⟩ =
      readCollection lib (f + 1) e ⟨iters, { node := t } :: p :: ps, ex, last, es, ev, an, multi, none, ld, de⟩ := by
    intro e
    rw [readCollection, readCollection, if_neg (by simp), if_neg (by simp), hx]
  cases call with
  | tryNull =>
    rw [step, step, tryNull, tryNull, if_neg (by simp), if_neg (by simp [push])]
    simp only [key]
    rfl
  | integer b => rw [step, step, hs1]; rfl
  | unsigned b => rw [step, step, hs1]; rfl
  | boolean => rw [step, step, hs1]; rfl
  | float b => rw [step, step, hs1]; rfl
  | string => rw [step, step, hs1]; rfl
  | timestamp => rw [step, step, hs1]; rfl
  | sequence => rw [step, step, hs2]; rfl
  | mapping => rw [step, step, hs2]; rfl
  | any => exact absurd rfl h1
  | raw =>
    rw [step, step, readRaw, readRaw, if_neg (by simp), if_neg (by simp [push]), hx]
    rfl
  | node =>
    rw [step, step, readNode, readNode, if_neg (by simp), if_neg (by simp [push]), hx]
    rfl
  | skip =>
    rw [step, step, readSkip, readSkip, if_neg (by simp), if_neg (by simp [push]), hx]
    rfl
  | addError e => cases hc
  | error => cases hc
  | hasItems k => cases hc
  | size k => cases hc

/-- The tree of `[&a x, *a, y]`. -/
def aliased : Node :=
  .sequence [.content (.properties .invalid (.anchor ['a'])) (plain ['x']), .alias ['a'], plain ['y']]

/-- The anchors after the first element. -/
def met : AnyBuilder.Anchors := { anchors := [(['a'], plain ['x'])], anchorName := ['a'] }

/-- The session after `Sequence` and `m` calls of `String` in `aliased`: at the beginning, before the alias, and at the
alias. -/
def atAlias (m : Nat) : Session :=
  match m with
  | 0 =>
    { reader :=
        { iters := [[.content (.properties .invalid (.anchor ['a'])) (plain ['x']), .alias ['a'], plain ['y']]],
          expecter := .sequence, last := ⟨.match_, true⟩, extractedState := some (some (3, 0)),
          route := [{ node := aliased, iter := some 0, result := ⟨.match_, true⟩ }] },
      handles := [some (some (3, 0))] }
  | 1 =>
    { reader :=
        { iters := [[.alias ['a'], plain ['y']], [], []], expecter := .string, last := ⟨.consume, true⟩,
          extractedValue := ['x'], anchors := met,
          route := [{ node := .content (.properties .invalid (.anchor ['a'])) (plain ['x']), iter := some 1, result := ⟨.cont, false⟩ },
            { node := aliased, iter := some 0, result := ⟨.cont, false⟩ }] },
      handles := [some (some (3, 0))] }
  | _ =>
    { reader :=
        { iters := [[plain ['y']], [], []], expecter := .string, last := ⟨.consume, true⟩, extractedValue := ['x'],
          anchors := met,
          route := [{ node := .alias ['a'] }, { node := aliased, iter := some 0, result := ⟨.cont, false⟩ }] },
      handles := [some (some (3, 0))] }

example : ∃ s : Session, ∃ p ps, s.reader.route = p :: ps ∧ p.node = .alias ['a'] ∧
    s.reader.anchors.dereference ['a'] = some (plain ['x']) ∧ s.reader.fatalError = none :=
  ⟨atAlias 2, _, _, rfl, rfl, rfl, rfl⟩

theorem alias_string (m : Nat) (f : Nat) : step lib0 (f + 20) (atAlias m) .string = .ok (.str ['x'], atAlias (m + 1)) := by
  match m with
  | 0 => krfl
  | 1 => krfl
  | m + 2 => krfl

/-- C26 fails: in `[&a x, *a, y]` the alias is read again and again; `y` is never reached, and the collection state
reports it as an item forever. -/
theorem alias_read_again (m : Nat) : ∃ s', Conv (fun f => run lib0 f (begin false aliased)
    (.sequence :: List.replicate m .string ++ [.hasItems 0]))
    (.coll 3 :: List.replicate m (.str ['x']) ++ [.bool true], s') := by
  have h0 : Conv (fun f => step lib0 f (begin false aliased) .sequence) (.coll 3, atAlias 0) :=
    ⟨20, fun f hf => by
      obtain ⟨f, rfl⟩ : ∃ g, f = g + 20 := ⟨f - 20, by omega⟩
      krfl⟩
  have h1 : ∀ k, Conv (fun f => step lib0 f (atAlias k) .string) (.str ['x'], atAlias (k + 1)) := fun k =>
    ⟨20, fun f hf => by
      obtain ⟨f, rfl⟩ : ∃ g, f = g + 20 := ⟨f - 20, by omega⟩
      exact alias_string k f⟩
  have h2 : ∀ k, Conv (fun f => run lib0 f (atAlias k) [.hasItems 0]) ([.bool true], atAlias k) := by
    intro k
    refine Conv.congr (fun f => ?_) (Conv.pure _)
    match k with
    | 0 => krfl
    | 1 => krfl
    | k + 2 => krfl
  have h3 : ∀ m k, Conv (fun f => run lib0 f (atAlias k) (List.replicate m .string ++ [.hasItems 0]))
      (List.replicate m (.str ['x']) ++ [.bool true], atAlias (k + m)) := by
    intro m
    induction m with
    | zero => exact fun k => h2 k
    | succ m ih =>
      intro k
      rw [show k + (m + 1) = k + 1 + m by omega]
      exact run_cons (h1 k) (ih (k + 1))
  exact ⟨atAlias (0 + m), run_cons h0 (h3 m 0)⟩

/-! ### C29 -/

/-- C29.  `AddError(nil)` changes nothing, in whatever state. -/
theorem add_nil_nothing (lib : Lib) (s : Session) (f : Nat) : step lib f s (.addError none) = .ok (.unit, s) := by
  obtain ⟨⟨iters, route, ex, last, es, ev, an, multi, fatal, ld, de⟩, hs⟩ := s
  cases fatal <;> rfl

/-! ### C30 -/

/-- The calls which look into the entries of mappings. -/
def looksInside (call : Call) : Bool := call != .raw && call != .node && call != .skip

/-- C30.  A probe which returns false changes nothing: whatever was called before, a reading call after the probe other than
`Raw`, `Node` and `Skip`, and all later calls, return what they return without the probe.  Missing: `Raw`, `Node` and
`Skip`, see `probe_splits_entry`. -/
theorem probe_harmless_partial {lib : Lib} {nulls : Bool} {n : Node} (ht : Tree nulls n) {multi : Bool}
    (hm : nulls = true → multi = false) {before after : List Call}
    {call : Call} (he : (expecterOf call).isSome) (hc : looksInside call = true) {os os' : List (Out Node)} {s' : Session}
    (hl : os.length = before.length)
    (hr : Conv (fun f => run lib f (begin multi n) (before ++ .tryNull :: call :: after))
      (os ++ .bool false :: os', s')) :
    ∃ s'', Conv (fun f => run lib f (begin multi n) (before ++ call :: after)) (os ++ os', s'') := by
  obtain ⟨anyOf, hg⟩ := generic_exists lib
  obtain ⟨e, he⟩ := Option.isSome_iff_exists.mp he
  have hlay : ∀ n, (view lib multi anyOf).layer .null n = (view lib multi anyOf).layer e n := by
    intro n
    have : takesAll e = false := by
      cases call <;> simp [looksInside] at hc <;> cases he <;> rfl
    show layer .null n = layer e n
    cases n <;> simp [layer, this] <;> rfl
  obtain ⟨t, c', h1, h2, _⟩ := run_total (V := view lib multi anyOf) (I := fun _ => True) (fun _ _ _ _ _ _ => trivial)
    (fun e c _ => next_exists e c.frames) (start n) trivial (before ++ .tryNull :: call :: after)
  obtain ⟨r1, hs1, h3, h4⟩ := run_of_cursor hg ht hm h2
  rw [h1] at h3
  have heq := h3.det hr
  simp only [Prod.mk.injEq] at heq
  obtain ⟨h5, -⟩ := heq
  obtain ⟨t1, t2, rfl, rfl, h6⟩ := List.map_eq_append_iff.mp h1
  match t2, h6 with
  | (_, o) :: (_, o') :: t3, h6 =>
    cases h6
    have hlen : (t1.map Prod.snd).length = os.length := by simp [hl]
    rw [List.map_append] at h5
    obtain ⟨h7, h8⟩ := List.append_inj h5 hlen
    simp only [List.map_cons, List.cons.injEq] at h8
    obtain ⟨rfl, h8⟩ := h8
    obtain ⟨c1, h9, h10⟩ := h2.split
    cases h10 with
    | cons hs hr' =>
      have hrun := h9.append (probe_run hs he hlay hr')
      obtain ⟨r2, hs2, h11, _⟩ := run_of_cursor hg ht hm hrun
      refine ⟨⟨r2, hs2.map some⟩, ?_⟩
      simp only [List.map_append, List.map_cons] at h11
      rw [h7, h8] at h11
      exact h11

theorem generic_null {lib : Lib} {anyOf : Node → Option GVal} (hg : Generic lib anyOf) {n : Node}
    (hv : verdict lib .null n = .whole) : anyOf n = some .nil := by
  cases n <;> simp only [verdict, reduceCtorEq] at hv
  case text t q =>
    have hn : AnyBuilder.isNull (.text t q) = true := by
      cases hn : AnyBuilder.isNull (.text t q) with
      | true => rfl
      | false =>
        have : nullText t q = false := hn
        simp [textIf, this] at hv
    obtain ⟨a', h⟩ := hg (.text t q) .text {}
    have h' : Conv (fun f => AnyBuilder.extractAnyValue lib f (.text t q) {}) (some GVal.nil, {}) := by
      refine ⟨1, fun f hf => ?_⟩
      obtain ⟨f, rfl⟩ : ∃ g, f = g + 1 := ⟨f - 1, by omega⟩
      simp [AnyBuilder.extractAnyValue, AnyBuilder.visitNode, validNode, AnyBuilder.newAnyBuilder, AnyBuilder.extractText, hn,
        AnyBuilder.St.hasErrors, Bind.bind, Res.bind]
    exact (Prod.mk.inj (h.det h')).1
  case null =>
    obtain ⟨a', h⟩ := hg .null (.null rfl) {}
    have h' : Conv (fun f => AnyBuilder.extractAnyValue lib f .null {}) (some GVal.nil, {}) := by
      refine ⟨1, fun f hf => ?_⟩
      obtain ⟨f, rfl⟩ : ∃ g, f = g + 1 := ⟨f - 1, by omega⟩
      rfl
    exact (Prod.mk.inj (h.det h')).1

/-- C30.  A probe which returns true takes exactly the null: it stands for `Any`, which would have returned nil. -/
theorem probe_takes_null {lib : Lib} {nulls : Bool} {n : Node} (ht : Tree nulls n) {multi : Bool}
    (hm : nulls = true → multi = false) {before after : List Call}
    {os os' : List (Out Node)} {s' : Session} (hl : os.length = before.length)
    (hr : Conv (fun f => run lib f (begin multi n) (before ++ .tryNull :: after)) (os ++ .bool true :: os', s')) :
    ∃ s'', Conv (fun f => run lib f (begin multi n) (before ++ .any :: after)) (os ++ .any (some .nil) :: os', s'') := by
  obtain ⟨anyOf, hg⟩ := generic_exists lib
  obtain ⟨t, c', h1, h2, _⟩ := run_total (V := view lib multi anyOf) (I := fun _ => True) (fun _ _ _ _ _ _ => trivial)
    (fun e c _ => next_exists e c.frames) (start n) trivial (before ++ .tryNull :: after)
  obtain ⟨r1, hs1, h3, h4⟩ := run_of_cursor hg ht hm h2
  rw [h1] at h3
  have heq := h3.det hr
  simp only [Prod.mk.injEq] at heq
  obtain ⟨h5, -⟩ := heq
  obtain ⟨t1, t2, rfl, rfl, h6⟩ := List.map_eq_append_iff.mp h1
  match t2, h6 with
  | (_, o) :: t3, h6 =>
    cases h6
    have hlen : (t1.map Prod.snd).length = os.length := by simp [hl]
    rw [List.map_append] at h5
    obtain ⟨h7, h8⟩ := List.append_inj h5 hlen
    simp only [List.map_cons, List.cons.injEq] at h8
    obtain ⟨rfl, h8⟩ := h8
    obtain ⟨c1, h9, h10⟩ := h2.split
    cases h10 with
    | cons hs hr' =>
      have hstep := probe_any hs (fun n => by cases n <;> rfl) fun n hv => ⟨by cases n <;> rfl, generic_null hg hv⟩
      have hrun := h9.append (.cons hstep hr')
      obtain ⟨r2, hs2, h11, _⟩ := run_of_cursor hg ht hm hrun
      refine ⟨⟨r2, hs2.map some⟩, ?_⟩
      simp only [List.map_append, List.map_cons] at h11
      rw [h7, h8] at h11
      exact h11

/-- The tree of `{a: b, c: d}`. -/
def pairs : Node := .mapping [.mappingEntry (plain ['a']) (plain ['b']), .mappingEntry (plain ['c']) (plain ['d'])]

theorem pairs_tree : Tree false pairs := by
  refine .mapping fun e he => ?_
  simp at he
  rcases he with rfl | rfl <;> exact .entry .text .text

/-- C30 fails for `Skip`: at the beginning of `{a: b, c: d}`, `Skip` takes the first entry and `String` returns the key
`c`; with a probe in between, `Skip` takes the key only and `String` returns the value `b`. -/
theorem probe_splits_entry :
    (∃ s', Conv (fun f => run lib0 f (begin false pairs) [.mapping, .skip, .string]) ([.coll 2, .unit, .str ['c']], s')) ∧
    ∃ s', Conv (fun f => run lib0 f (begin false pairs) [.mapping, .tryNull, .skip, .string])
      ([.coll 2, .bool false, .unit, .str ['b']], s') := by
  obtain ⟨anyOf, hg⟩ := generic_exists lib0
  let c1 : Cursor Node :=
    { frames := [(some 0, [.mappingEntry (plain ['a']) (plain ['b']), .mappingEntry (plain ['c']) (plain ['d'])]), (none, [])],
      sizes := [2] }
  let c2 : Cursor Node :=
    { frames := [(some 0, [.mappingEntry (plain ['c']) (plain ['d'])]), (none, [])], sizes := [2] }
  let c3 : Cursor Node :=
    { frames := [(none, [plain ['d']]), (some 0, []), (none, [])], sizes := [2] }
  let d2 : Cursor Node :=
    { frames := [(none, [plain ['b']]), (some 0, [.mappingEntry (plain ['c']) (plain ['d'])]), (none, [])], sizes := [2],
      pending := some (plain ['a'], []) }
  let d3 : Cursor Node :=
    { frames := [(none, [plain ['b']]), (some 0, [.mappingEntry (plain ['c']) (plain ['d'])]), (none, [])], sizes := [2] }
  let d4 : Cursor Node :=
    { frames := [(none, []), (some 0, [.mappingEntry (plain ['c']) (plain ['d'])]), (none, [])], sizes := [2] }
  have h1 : Step (view lib0 false anyOf) (start pairs) .mapping (.coll 2) c1 :=
    .read (e := .mapping) (cur := some (pairs, _, [(none, [])])) rfl rfl (.next rfl (.take rfl))
  have h2 : Step (view lib0 false anyOf) c1 .skip .unit c2 :=
    .read (e := .skip) (cur := some (.mappingEntry (plain ['a']) (plain ['b']), [], c2.frames)) rfl rfl (.next rfl (.take rfl))
  have h3 : Step (view lib0 false anyOf) c2 .string (.str ['c']) c3 :=
    .read (e := .string) (cur := some (plain ['c'], [], c3.frames)) rfl rfl (.next rfl (.enter rfl (.take rfl)))
  have g2 : Step (view lib0 false anyOf) c1 .tryNull (.bool false) d2 :=
    .read (e := .null) (cur := some (plain ['a'], [], d2.frames)) rfl rfl (.next rfl (.enter rfl (.take rfl)))
  have g3 : Step (view lib0 false anyOf) d2 .skip .unit d3 :=
    .read (e := .skip) (cur := some (plain ['a'], [], d2.frames)) rfl rfl (.pending rfl)
  have g4 : Step (view lib0 false anyOf) d3 .string (.str ['b']) d4 :=
    .read (e := .string) (cur := some (plain ['b'], [], d4.frames)) rfl rfl (.next rfl (.take rfl))
  constructor
  · obtain ⟨r, hs, h, _⟩ := run_of_cursor hg pairs_tree (fun _ => rfl) (.cons h1 (.cons h2 (.cons h3 .nil)))
    exact ⟨_, h⟩
  · obtain ⟨r, hs, h, _⟩ := run_of_cursor hg pairs_tree (fun _ => rfl) (.cons h1 (.cons g2 (.cons g3 (.cons g4 .nil))))
    exact ⟨_, h⟩

example : ∃ s', Conv (fun f => run lib0 f (begin false list) ([.sequence] ++ .tryNull :: .string :: [.hasItems 0]))
    ([.coll 2] ++ .bool false :: [.str ['x'], .bool true], s') := by
  obtain ⟨anyOf, hg⟩ := generic_exists lib0
  let c1 : Cursor Node := { frames := [(some 0, [plain ['x'], plain ['y']]), (none, [])], sizes := [2] }
  let c2 : Cursor Node := { frames := [(some 0, [plain ['y']]), (none, [])], sizes := [2], pending := some (plain ['x'], []) }
  let c3 : Cursor Node := { frames := [(some 0, [plain ['y']]), (none, [])], sizes := [2] }
  have h1 : Step (view lib0 false anyOf) (start list) .sequence (.coll 2) c1 :=
    .read (e := .sequence) (cur := some (list, _, [(none, [])])) rfl rfl (.next rfl (.take rfl))
  have h2 : Step (view lib0 false anyOf) c1 .tryNull (.bool false) c2 :=
    .read (e := .null) (cur := some (plain ['x'], [], [(some 0, [plain ['y']]), (none, [])])) rfl rfl (.next rfl (.take rfl))
  have h3 : Step (view lib0 false anyOf) c2 .string (.str ['x']) c3 :=
    .read (e := .string) (cur := some (plain ['x'], [], [(some 0, [plain ['y']]), (none, [])])) rfl rfl (.pending rfl)
  obtain ⟨r, hs, h, _⟩ := run_of_cursor hg list_tree (fun _ => rfl) (.cons h1 (.cons h2 (.cons h3 (.cons (.hasItems (k := 0)) .nil))))
  exact ⟨_, h⟩

example : ∃ s', Conv (fun f => run lib0 f (begin false (plain ['n', 'u', 'l', 'l'])) ([] ++ .tryNull :: [.error]))
    ([] ++ .bool true :: [.err none []], s') :=
  ⟨lastOf (run lib0 10 (begin false (plain ['n', 'u', 'l', 'l'])) [.tryNull, .error]), 10, fun f hf => by
    obtain ⟨f, rfl⟩ : ∃ g, f = g + 10 := ⟨f - 10, by omega⟩
    krfl⟩

/-! ### C31 -/

/-- C31.  `Skip` takes one value, whatever it is: it may stand for any value in the calls of C23.  (An entry of a mapping is
one value if `Skip` is called before its key has been read.) -/
theorem skip_reads_partial (lib : Lib) {nulls : Bool} (multi : Bool) (anyOf : Node → Option GVal) (k : Nat) {n : Node}
    (ht : Tree nulls n) : Reads (view lib multi anyOf) k n [(.skip, .unit)] k := by
  have hcore : ∃ m, Core (view lib multi anyOf) .skip n m := by
    induction ht with
    | content hp hc ih =>
      obtain ⟨m, hm⟩ := ih
      exact ⟨m, core_content hp (tree_valid hc) hm⟩
    | _ => exact ⟨_, .value rfl⟩
  obtain ⟨m, hm⟩ := hcore
  exact .leaf rfl rfl hm (by cases m <;> rfl) rfl

/-- The session after skipping the alias of `aliased`. -/
def skipped : Session :=
  { reader :=
      { iters := [[plain ['y']], [], []], expecter := .skip, last := ⟨.consume, false⟩, extractedValue := ['x'],
        anchors := met,
        route := [{ node := .alias ['a'] }, { node := aliased, iter := some 0, result := ⟨.cont, false⟩ }] },
    handles := [some (some (3, 0))] }

/-- C31 fails at aliases: in `[&a x, *a, y]`, after reading `x` and skipping the alias, the next call reads `x` again, not
`y`. -/
theorem skip_alias_stays : ∃ s', Conv (fun f => run lib0 f (begin false aliased) [.sequence, .string, .skip, .string])
    ([.coll 3, .str ['x'], .unit, .str ['x']], s') := by
  have h0 : Conv (fun f => step lib0 f (begin false aliased) .sequence) (.coll 3, atAlias 0) :=
    ⟨20, fun f hf => by
      obtain ⟨f, rfl⟩ : ∃ g, f = g + 20 := ⟨f - 20, by omega⟩
      krfl⟩
  have h1 : Conv (fun f => step lib0 f (atAlias 0) .string) (.str ['x'], atAlias 1) :=
    ⟨20, fun f hf => by
      obtain ⟨f, rfl⟩ : ∃ g, f = g + 20 := ⟨f - 20, by omega⟩
      exact alias_string 0 f⟩
  have h2 : Conv (fun f => step lib0 f (atAlias 1) .skip) (.unit, skipped) :=
    ⟨20, fun f hf => by
      obtain ⟨f, rfl⟩ : ∃ g, f = g + 20 := ⟨f - 20, by omega⟩
      krfl⟩
  have h3 : Conv (fun f => step lib0 f skipped .string) (.str ['x'], atAlias 2) :=
    ⟨20, fun f hf => by
      obtain ⟨f, rfl⟩ : ∃ g, f = g + 20 := ⟨f - 20, by omega⟩
      krfl⟩
  exact ⟨_, run_cons h0 (run_cons h1 (run_cons h2 (run_cons h3 (Conv.pure _))))⟩

/-- C31.  After skipping the elements `xs` of a sequence or the entries `xs` of a mapping, the calls which follow the shape of
the others read these.  (Missing: aliases, see `skip_alias_stays`.) -/
theorem skip_then_read_partial {lib : Lib} {anyOf : Node → Option GVal} (hg : Generic lib anyOf) {nulls : Bool} {n : Node}
    (ht : Tree nulls n) {multi : Bool} (hm : nulls = true → multi = false) {xs ys : List Node} {call : Call}
    (hk : (call = .sequence ∧ n = .sequence (xs ++ ys)) ∨ (call = .mapping ∧ n = .mapping (xs ++ ys)))
    {t : List (Call × Out Node)} {k : Nat} (hr : ReadsItems (view lib multi anyOf) 0 1 ys t k) :
    ∃ s', Conv (fun f => run lib f (begin multi n)
        (call :: xs.flatMap (fun _ => [.hasItems 0, .skip]) ++ t.map Prod.fst))
      (.coll (xs ++ ys).length :: xs.flatMap (fun _ => [.bool true, .unit]) ++ t.map Prod.snd, s') ∧
      s'.reader.fatalError = none := by
  have hx : ∀ x ∈ xs, Tree nulls x := by
    intro x hx
    rcases hk with ⟨_, rfl⟩ | ⟨_, rfl⟩
    · cases ht with
      | sequence h => exact h x (by simp [hx])
    · cases ht with
      | mapping h => exact h x (by simp [hx])
  have hi : ReadsItems (view lib multi anyOf) 0 1 (xs ++ ys)
      (xs.flatMap (fun _ => [(.hasItems 0, .bool true), (.skip, .unit)]) ++ t) k := by
    clear hk
    induction xs with
    | nil => exact hr
    | cons x xs ih =>
      have := ReadsItems.one (h := 0) (skip_reads_partial lib multi anyOf 1 (hx x (by simp)))
        (ih fun y hy => hx y (List.mem_cons_of_mem _ hy))
      simpa using this
  have : Reads (view lib multi anyOf) 0 n
      ((call, .coll (xs ++ ys).length) :: (xs.flatMap (fun _ => [(.hasItems 0, .bool true), (.skip, .unit)]) ++ t)) k := by
    rcases hk with ⟨rfl, rfl⟩ | ⟨rfl, rfl⟩
    · exact Reads.coll (m := Node.sequence (xs ++ ys)) (e := .sequence) rfl rfl (.value rfl) rfl hi
    · exact Reads.coll (m := Node.mapping (xs ++ ys)) (e := .mapping) rfl rfl (.value rfl) rfl hi
  obtain ⟨s', h1, h2, _⟩ := reads_in_order hg ht hm this
  refine ⟨s', ?_, h2⟩
  simp only [List.map_cons, List.map_append, List.map_flatMap, List.map_nil] at h1
  exact h1

example (anyOf : Node → Option GVal) : ReadsItems (view lib0 false anyOf) 0 1 [plain ['y']]
    [(.hasItems 0, .bool true), (.string, .str ['y']), (.hasItems 0, .bool false)] 1 :=
  .one (.leaf (e := .string) (m := plain ['y']) rfl rfl (.value rfl) rfl rfl) .nil

/-! ### C45 -/

/-- C45.  On a well-formed document without aliases, no history of calls panics.  (With multiple errors, the document must
have no null nodes; missing: documents with aliases, and documents with null nodes read with multiple errors, see
`null_state_panics`.) -/
theorem no_panic_partial {lib : Lib} {nulls : Bool} {n : Node} (ht : Tree nulls n) {multi : Bool}
    (hm : nulls = true → multi = false) (calls : List Call) :
    ∃ os s', Conv (fun f => run lib f (begin multi n) calls) (os, s') := by
  obtain ⟨anyOf, hg⟩ := generic_exists lib
  obtain ⟨t, c', s', _, _, h, _⟩ := decoder_is_cursor hg ht hm calls
  exact ⟨_, s', h⟩

/-- C45 fails with multiple errors: `Sequence` on an empty value (a null node) returns a nil collection state, the use of
which panics. -/
theorem null_state_panics (f : Nat) : run lib0 (f + 5) (begin true .null) [.sequence, .hasItems 0] = .panic := by krfl

/-! ### C46 -/

/-- C46.  A reading call during which an error is added returns its zero value, whatever was called before.  (With multiple
errors, the document must have no null nodes, see `null_stale_value`.) -/
theorem error_means_zero_partial {lib : Lib} {nulls : Bool} {n : Node} (ht : Tree nulls n) {multi : Bool}
    (hm : nulls = true → multi = false) {before : List Call} {call : Call} (he : (expecterOf call).isSome)
    {os : List (Out Node)} {o : Out Node} {f f' : Option Err} {d d' : List Err} {s' : Session} (hl : os.length = before.length)
    (hr : Conv (fun g => run lib g (begin multi n) (before ++ [.error, call, .error])) (os ++ [.err f d, o, .err f' d'], s'))
    (hx : f' ≠ f ∨ d' ≠ d) : o = zeroOf call := by
  obtain ⟨anyOf, hg⟩ := generic_exists lib
  obtain ⟨t, c', _, h1, h2, h3, _⟩ := decoder_is_cursor hg ht hm (before ++ [.error, call, .error])
  have h5 := (Prod.mk.inj (h3.det hr)).1
  obtain ⟨t1, t2, rfl, rfl, h6⟩ := List.map_eq_append_iff.mp h1
  match t2, h6 with
  | [(_, _), (_, _), (_, _)], h6 =>
    cases h6
    rw [List.map_append] at h5
    obtain ⟨_, h8⟩ := List.append_inj h5 (by simp [hl])
    cases h8
    obtain ⟨c1, _, h10⟩ := h2.split
    exact h10.zero he hx

/-- C46 fails with multiple errors: in `[x, ]` with an empty second value, `String` returns the first value once more
instead of the empty string. -/
theorem null_stale_value : ∃ s', Conv (fun f => run lib0 f (begin true (.sequence [plain ['x'], .null]))
    [.sequence, .string, .string, .error]) ([.coll 2, .str ['x'], .str ['x'], .err none [.deny .string]], s') :=
  ⟨lastOf (run lib0 15 (begin true (.sequence [plain ['x'], .null])) [.sequence, .string, .string, .error]), 15, fun f hf => by
    obtain ⟨f, rfl⟩ : ∃ g, f = g + 15 := ⟨f - 15, by omega⟩
    krfl⟩

end Verif.Props.Reader
