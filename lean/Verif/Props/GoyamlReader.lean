import Verif.Lemmas.GoyamlRefine

/-!
C23 to C26 and C29 to C31 for the goyaml engine: the decoder (`engines/goyaml/decode/reader.go`).

A session is a decoder with the collection states it has returned; `run` performs calls one after the other.
-/

namespace Verif.Props.GoyamlReader

open Verif.Generic Verif.Goyaml Verif.Decoder Verif.DecoderCursor Verif.GoyamlCursor Verif.GoyamlReader

set_option linter.unusedSimpArgs false

/-- The session at the beginning of a document with the given root value. -/
def begin (h : Heap) (multi : Bool) (n : Nat) : Session :=
  { reader := { heap := h, multi := multi, route := [{ node := n }] } }

/-- The decoder of a document begins with its value. -/
theorem opens_document {h : Heap} {multi : Bool} {d n : Nat} (hk : (h d).kind = .document) {ns : List Nat}
    (hc : (h d).content = n :: ns) : newReader h multi d = .ok (begin h multi n).reader := by
  rw [newReader, if_pos hk, hc]
  rfl

/-- Generic values exist. -/
theorem generic_exists (lib : RLib) (h : Heap) : ∃ anyOf, Generic lib h anyOf := by
  classical
  refine ⟨fun n => if ht : Tree h n then (GoyamlTree.extract_conv (lib := lib.toGLib) ht).choose else none, fun n ht => ?_⟩
  simp only [dif_pos ht]
  exact (GoyamlTree.extract_conv (lib := lib.toGLib) ht).choose_spec

theorem next_exists {lib : RLib} {h : Heap} {multi : Bool} {anyOf : Nat → Option GVal} (e : Expecter) (fs : List (Frame Nat)) :
    ∃ r, Next (view lib h multi anyOf) e fs r := by
  induction fs with
  | nil => exact ⟨none, .done⟩
  | cons f fs ih =>
    obtain ⟨k, l⟩ := f
    cases l with
    | nil =>
      obtain ⟨r, hr⟩ := ih
      exact ⟨r, .close hr⟩
    | cons n ns => exact ⟨_, .take rfl⟩

/-- Refinement: on a document without aliases, every history of calls ends, without panic, and returns what the cursor
over the document returns. -/
theorem decoder_is_cursor {lib : RLib} {h : Heap} {anyOf : Nat → Option GVal} (hg : Generic lib h anyOf) {n : Nat}
    (ht : Tree h n) (multi : Bool) (calls : List Call) :
    ∃ t c' s', t.map Prod.fst = calls ∧ Run (view lib h multi anyOf) (start n) t c' ∧
      Conv (fun f => run lib f (begin h multi n) calls) (t.map Prod.snd, s') ∧
      s'.reader.fatalError = c'.fatal ∧ s'.reader.denyErrors = c'.denied := by
  obtain ⟨t, c', h1, h2, _⟩ := run_total (V := view lib h multi anyOf) (I := fun _ => True) (fun _ _ _ _ _ _ => trivial)
    (fun e c _ => next_exists e c.frames) (start n) trivial calls
  obtain ⟨r', hs', h3, h4⟩ := run_refines hg (rel_start ht multi) h2
  rw [h1] at h3
  exact ⟨t, c', ⟨r', hs'.map some⟩, h1, h2, h3, h4.fatal, h4.denied⟩

/-- A history of the cursor is what the decoder does, and nothing else is. -/
theorem run_of_cursor {lib : RLib} {h : Heap} {anyOf : Nat → Option GVal} (hg : Generic lib h anyOf) {n : Nat}
    (ht : Tree h n) {multi : Bool} {t : List (Call × Out Nat)} {c' : Cursor Nat}
    (hr : Run (view lib h multi anyOf) (start n) t c') :
    ∃ r' hs', Conv (fun f => run lib f (begin h multi n) (t.map Prod.fst)) (t.map Prod.snd, ⟨r', hs'.map some⟩) ∧
      Rel h multi r' hs' c' :=
  run_refines hg (rel_start ht multi) hr

/-! ### C23 -/

/-- C23.  Calls which follow the shape of the document return exactly its values, in order, and the collection states
report items exactly while there are some; there is no error. -/
theorem reads_in_order {lib : RLib} {h : Heap} {anyOf : Nat → Option GVal} (hg : Generic lib h anyOf) {n : Nat}
    (ht : Tree h n) (multi : Bool) {t : List (Call × Out Nat)} {k : Nat} (hr : Reads (view lib h multi anyOf) 0 n t k) :
    ∃ s', Conv (fun f => run lib f (begin h multi n) (t.map Prod.fst)) (t.map Prod.snd, s') ∧
      s'.reader.fatalError = none ∧ s'.reader.denyErrors = [] := by
  obtain ⟨c', h1, h2, h3⟩ := reads_run hr (start n) none [] [] ⟨rfl, rfl, rfl, [], Empties.nil, rfl⟩
  obtain ⟨s', hs', h4, h5⟩ := run_of_cursor hg ht h1
  exact ⟨⟨s', hs'.map some⟩, h4, h5.fatal.trans h2.fatal, h5.denied.trans h3⟩

theorem items_exist {lib : RLib} {h : Heap} {multi : Bool} {anyOf : Nat → Option GVal} (hd : Nat) : ∀ (ns : List Nat)
    (ls : List (List (List Char))), ns.length = ls.length →
    (∀ (i : Nat) c l, ns[i]? = some c → ls[i]? = some l →
      ∀ k, ∃ t k', Reads (view lib h multi anyOf) k c t k' ∧ strings t = l ∧ Strings t) →
    ∀ k, ∃ t k', ReadsItems (view lib h multi anyOf) hd k ns t k' ∧ strings t = ls.flatten ∧ Strings t := by
  intro ns
  induction ns with
  | nil =>
    intro ls hl _ k
    cases ls with
    | nil =>
      refine ⟨_, k, .nil, rfl, fun x hx => ?_⟩
      obtain rfl := List.mem_singleton.mp hx
      exact .inr (.inr (.inr ⟨_, rfl⟩))
    | cons _ _ => cases hl
  | cons n ns ih =>
    intro ls hl hr k
    cases ls with
    | nil => cases hl
    | cons l ls =>
      obtain ⟨t, k1, h1, h2, h2'⟩ := hr 0 n l rfl rfl k
      obtain ⟨t', k2, h3, h4, h4'⟩ := ih ls (by simpa using hl)
        (fun i c l hc hl => hr (i + 1) c l (by simpa using hc) (by simpa using hl)) k1
      refine ⟨_, k2, .one h1 h3, ?_, fun x hx => ?_⟩
      · rw [strings] at h2 h4 ⊢
        simp [h2, h4]
      · rcases List.mem_append.mp hx with hx | hx
        · rcases List.mem_cons.mp hx with rfl | hx
          · exact .inr (.inr (.inr ⟨_, rfl⟩))
          · exact h2' x hx
        · exact h4' x hx

theorem reads_exist {lib : RLib} {h : Heap} {multi : Bool} {anyOf : Nat → Option GVal}
    (hn : ∀ m, lib.nullTag (h m) = false) {n : Nat} {l : List (List Char)} (hl : Scalars h n l) :
    ∀ k, ∃ t k', Reads (view lib h multi anyOf) k n t k' ∧ strings t = l ∧ Strings t := by
  induction hl with
  | @scalar n hk =>
    intro k
    refine ⟨[(.string, .str (h n).value)], k, .leaf (m := n) rfl rfl (.value rfl) ?_ rfl, rfl, fun x hx => ?_⟩
    · simp [view, verdict, scalarIf, hk, hn]
    · obtain rfl := List.mem_singleton.mp hx
      exact .inr (.inr (.inl rfl))
  | @collection n ls hk hlen _ ih =>
    intro k
    have hi : (view lib h multi anyOf).items n = (h n).content := by
      rcases hk with hk | hk <;> simp [view, hk]
    obtain ⟨t, k', h1, h2, h3⟩ := items_exist (lib := lib) (multi := multi) (anyOf := anyOf) k _ ls hlen ih (k + 1)
    rw [← hi] at h1
    rcases hk with hk | hk
    · refine ⟨_, k', .coll (call := .sequence) (m := n) rfl rfl (.value rfl) ?_ h1, ?_, fun x hx => ?_⟩
      · simp [view, verdict, hk]
      · rw [strings] at h2 ⊢
        simp [h2]
      · rcases List.mem_cons.mp hx with rfl | hx
        · exact .inl rfl
        · exact h3 x hx
    · refine ⟨_, k', .coll (call := .mapping) (m := n) rfl rfl (.value rfl) ?_ h1, ?_, fun x hx => ?_⟩
      · simp [view, verdict, hk]
      · rw [strings] at h2 ⊢
        simp [h2]
      · rcases List.mem_cons.mp hx with rfl | hx
        · exact .inr (.inl rfl)
        · exact h3 x hx

theorem scalars_tree {h : Heap} {n : Nat} {l : List (List Char)} (hl : Scalars h n l) : Tree h n := by
  induction hl with
  | scalar hk => exact .scalar hk
  | @collection n ls hk hlen _ ih =>
    have hc : ∀ c ∈ (h n).content, Tree h c := by
      intro c hc
      obtain ⟨i, hi, rfl⟩ := List.mem_iff_getElem.mp hc
      exact ih i _ _ (List.getElem?_eq_getElem hi) (List.getElem?_eq_getElem (hlen ▸ hi))
    rcases hk with hk | hk
    · exact .sequence hk hc
    · exact .mapping hk hc

/-- C23.  Every document without aliases and nulls can be read by `Sequence`, `Mapping` and `String`, and these calls
return the texts of all scalars, in the order of the document. -/
theorem scalars_in_order {lib : RLib} {h : Heap} (hn : ∀ m, lib.nullTag (h m) = false) {n : Nat}
    {l : List (List Char)} (hl : Scalars h n l) (multi : Bool) :
    ∃ t s', Conv (fun f => run lib f (begin h multi n) (t.map Prod.fst)) (t.map Prod.snd, s') ∧
      Strings t ∧ strings t = l ∧ s'.reader.fatalError = none := by
  obtain ⟨anyOf, hg⟩ := generic_exists lib h
  obtain ⟨t, k, h1, h2, h3⟩ := reads_exist (lib := lib) (multi := multi) (anyOf := anyOf) hn hl 0
  obtain ⟨s', h4, h5, _⟩ := reads_in_order hg (scalars_tree hl) multi h1
  exact ⟨t, s', h4, h3, h2, h5⟩

/-! ### C24 -/

/-- C24.  After a fatal error, in whatever state (with collection states which are not nil), every call returns its zero
value at once, and the error stays. -/
theorem errors_sticky {lib : RLib} {s : Session} {e : Err} (he : s.reader.fatalError = some e) (hh : none ∉ s.handles)
    (call : Call) (f : Nat) :
    ∃ o s', step lib f s call = .ok (o, s') ∧ s'.reader = s.reader ∧ none ∉ s'.handles ∧
      (call = .error → o = .err (some e) s.reader.denyErrors) ∧ ((expecterOf call).isSome → o = zeroOf call) := by
  have hk : ∀ k, ∃ hd, s.handles.getD k (some none) = some hd := by
    intro k
    rw [List.getD_eq_getElem?_getD]
    cases hg : s.handles[k]? with
    | none => exact ⟨_, rfl⟩
    | some x =>
      cases x with
      | none => exact absurd (List.mem_of_getElem? hg) hh
      | some hd => exact ⟨hd, rfl⟩
  cases call with
  | hasItems k =>
    obtain ⟨hd, hk⟩ := hk k
    cases hd <;> exact ⟨_, s, by rw [step, hk], rfl, hh, nofun, nofun⟩
  | size k =>
    obtain ⟨hd, hk⟩ := hk k
    cases hd <;> exact ⟨_, s, by rw [step, hk], rfl, hh, nofun, nofun⟩
  | error => exact ⟨_, s, rfl, rfl, hh, fun _ => by rw [he], nofun⟩
  | addError x =>
    refine ⟨.unit, s, ?_, rfl, hh, nofun, nofun⟩
    simp [step, GoyamlReader.addError, he]
  | sequence =>
    refine ⟨.coll 0, { s with handles := s.handles ++ [some none] }, ?_, rfl, ?_, nofun, fun _ => rfl⟩
    · simp [step, step.openColl, readCollection, he, Bind.bind, Res.bind]
    · simp [hh]
  | mapping =>
    refine ⟨.coll 0, { s with handles := s.handles ++ [some none] }, ?_, rfl, ?_, nofun, fun _ => rfl⟩
    · simp [step, step.openColl, readCollection, he, Bind.bind, Res.bind]
    · simp [hh]
  | _ =>
    refine ⟨_, s, ?_, rfl, hh, nofun, fun _ => rfl⟩
    simp [step, step.lift, tryNull, readScalar, readAny, readRaw, readNode, readSkip, he, Bind.bind, Res.bind, zeroOf]

/-- C24.  The same without any hypothesis on the collection states, for the methods of the decoder itself. -/
theorem decoder_errors_sticky {lib : RLib} {s : Session} {e : Err} (he : s.reader.fatalError = some e) {call : Call}
    (hc : ∀ k, call ≠ .hasItems k ∧ call ≠ .size k) (f : Nat) :
    ∃ o s', step lib f s call = .ok (o, s') ∧ s'.reader = s.reader ∧
      (call = .error → o = .err (some e) s.reader.denyErrors) ∧ ((expecterOf call).isSome → o = zeroOf call) := by
  cases call with
  | hasItems k => exact absurd rfl (hc k).1
  | size k => exact absurd rfl (hc k).2
  | error => exact ⟨_, s, rfl, rfl, fun _ => by rw [he], nofun⟩
  | addError x =>
    refine ⟨.unit, s, ?_, rfl, nofun, nofun⟩
    simp [step, GoyamlReader.addError, he]
  | sequence =>
    refine ⟨.coll 0, { s with handles := s.handles ++ [some none] }, ?_, rfl, nofun, fun _ => rfl⟩
    simp [step, step.openColl, readCollection, he, Bind.bind, Res.bind]
  | mapping =>
    refine ⟨.coll 0, { s with handles := s.handles ++ [some none] }, ?_, rfl, nofun, fun _ => rfl⟩
    simp [step, step.openColl, readCollection, he, Bind.bind, Res.bind]
  | _ =>
    refine ⟨_, s, ?_, rfl, nofun, fun _ => rfl⟩
    simp [step, step.lift, tryNull, readScalar, readAny, readRaw, readNode, readSkip, he, Bind.bind, Res.bind, zeroOf]

/-- C24.  After a fatal error, every later history of calls reports this error. -/
theorem errors_stay {lib : RLib} {s : Session} {e : Err} (he : s.reader.fatalError = some e) (hh : none ∉ s.handles)
    (calls : List Call) (f : Nat) :
    ∃ os s', run lib f s calls = .ok (os, s') ∧ s'.reader = s.reader ∧
      ∀ (i : Nat) call o, calls[i]? = some call → os[i]? = some o →
        (call = .error → o = .err (some e) s.reader.denyErrors) ∧ ((expecterOf call).isSome → o = zeroOf call) := by
  induction calls generalizing s with
  | nil => exact ⟨[], s, rfl, rfl, fun i _ _ h => by simp at h⟩
  | cons c cs ih =>
    obtain ⟨o, s1, h1, h2, h2', h3, h4⟩ := errors_sticky (lib := lib) he hh c f
    obtain ⟨os, s2, h5, h6, h7⟩ := ih (s := s1) (by rw [h2]; exact he) h2'
    refine ⟨o :: os, s2, ?_, h6.trans h2, ?_⟩
    · rw [run, h1]
      show (run lib f s1 cs >>= _) = _
      rw [h5]
      rfl
    · intro i call o' hc ho
      cases i with
      | zero =>
        simp at hc ho
        subst hc ho
        exact ⟨h3, h4⟩
      | succ i =>
        simp at hc ho
        rw [← h2]
        exact h7 i call o' hc ho

/-- The collection states are not nil, whatever was called before. -/
theorem states_present {lib : RLib} {h : Heap} {n : Nat} (ht : Tree h n) {multi : Bool} {calls : List Call}
    {os : List (Out Nat)} {s' : Session} (hc : Conv (fun f => run lib f (begin h multi n) calls) (os, s')) :
    none ∉ s'.handles := by
  obtain ⟨anyOf, hg⟩ := generic_exists lib h
  obtain ⟨t, c', h1, h2, _⟩ := run_total (V := view lib h multi anyOf) (I := fun _ => True) (fun _ _ _ _ _ _ => trivial)
    (fun e c _ => next_exists e c.frames) (start n) trivial calls
  obtain ⟨r', hs', h3, h4⟩ := run_of_cursor hg ht h2
  rw [h1] at h3
  have := h3.det hc
  simp only [Prod.mk.injEq] at this
  obtain ⟨-, rfl⟩ := this
  simp

/-! ### C25 -/

/-- The elements of a tree are below it. -/
def Below (h : Heap) (c p : Nat) : Prop := Tree h p ∧ c ∈ itemsOf h p

theorem below_wf (h : Heap) : WellFounded (Below h) := by
  have ht : ∀ {n}, Tree h n → Acc (Below h) n := by
    intro n ht
    induction ht with
    | @scalar n hk =>
      refine ⟨_, fun c hc => ?_⟩
      have := hc.2
      simp [itemsOf, hk] at this
    | @sequence n hk _ ih =>
      refine ⟨_, fun c hc => ih c ?_⟩
      have := hc.2
      simpa [itemsOf, hk] using this
    | @mapping n hk _ ih =>
      refine ⟨_, fun c hc => ih c ?_⟩
      have := hc.2
      simpa [itemsOf, hk] using this
  exact ⟨fun n => ⟨_, fun c hc => ht (itemsOf_tree hc.1 c hc.2)⟩⟩

theorem map_sum_congr {f g : Nat → Nat} : ∀ (l : List Nat), (∀ x ∈ l, f x = g x) → (l.map f).sum = (l.map g).sum
  | [], _ => rfl
  | x :: l, h => by
    rw [List.map_cons, List.map_cons, List.sum_cons, List.sum_cons, h x (by simp),
      map_sum_congr l fun y hy => h y (List.mem_cons_of_mem _ hy)]

open Classical in
/-- The number of nodes of a tree. -/
noncomputable def weight (h : Heap) : Nat → Nat :=
  (below_wf h).fix fun p ih => ((itemsOf h p).map fun c => if hc : Below h c p then ih c hc else 0).sum + 1

theorem weight_eq {h : Heap} {n : Nat} (ht : Tree h n) : weight h n = ((itemsOf h n).map (weight h)).sum + 1 := by
  rw [weight, WellFounded.fix_eq]
  congr 1
  refine map_sum_congr _ fun c hc => ?_
  rw [dif_pos ⟨ht, hc⟩]

theorem weight_spec (lib : RLib) (h : Heap) (multi : Bool) (anyOf : Nat → Option GVal) :
    Weight (view lib h multi anyOf) (Tree h) (weight h) := by
  refine ⟨fun n ht => ⟨itemsOf_tree ht, ?_⟩, fun e n cs _ hl => (nomatch hl)⟩
  rw [weight_eq ht]
  exact Nat.lt_succ_self _

/-- C25.  For every document without aliases there is a bound: after as many calls which read something, whatever else
was called in between and whatever errors occurred, all collection states report that there are no items, so that no loop
`while there are items, decode one` goes on.  (Without multiple errors; see `multi_loop_forever`.) -/
theorem loops_end_partial {lib : RLib} {h : Heap} {n : Nat} (ht : Tree h n) :
    ∃ bound, ∀ calls os s', Conv (fun f => run lib f (begin h false n) calls) (os, s') →
      bound ≤ calls.countP Demands → ∀ k f, step lib f s' (.hasItems k) = .ok (.bool false, s') := by
  obtain ⟨anyOf, hg⟩ := generic_exists lib h
  refine ⟨weight h n, fun calls os s' hc hb k f => ?_⟩
  obtain ⟨t, c', h1, h2, _⟩ := run_total (V := view lib h false anyOf) (I := fun _ => True) (fun _ _ _ _ _ _ => trivial)
    (fun e c _ => next_exists e c.frames) (start n) trivial calls
  obtain ⟨s'', hs', h3, h4⟩ := run_of_cursor hg ht h2
  rw [h1] at h3
  have := h3.det hc
  simp only [Prod.mk.injEq] at this
  obtain ⟨-, rfl⟩ := this
  have hcount : t.countP (fun x => Demands x.1) = calls.countP Demands := by
    rw [← h1, List.countP_map]
    rfl
  have hl := exhausted (weight_spec lib h false anyOf) rfl rfl h2
    ⟨fun f hf m hm => by
        simp [start] at hf
        subst hf
        obtain rfl := List.mem_singleton.mp hm
        exact ht,
      fun _ _ h => (nomatch h), fun _ h => (nomatch h)⟩ (by simp [mass, start, total, hcount]; exact hb) k
  rw [hasItems_refines h4 k f, hl]
  rfl

/-- C25.  After a fatal error, in either mode, no collection state reports items. -/
theorem no_items_after_error {lib : RLib} {h : Heap} {n : Nat} (ht : Tree h n) (multi : Bool) {calls : List Call}
    {os : List (Out Nat)} {s' : Session} (hc : Conv (fun f => run lib f (begin h multi n) calls) (os, s'))
    (he : s'.reader.fatalError.isSome) (k f : Nat) : step lib f s' (.hasItems k) = .ok (.bool false, s') := by
  obtain ⟨anyOf, hg⟩ := generic_exists lib h
  obtain ⟨t, c', h1, h2, _⟩ := run_total (V := view lib h multi anyOf) (I := fun _ => True) (fun _ _ _ _ _ _ => trivial)
    (fun e c _ => next_exists e c.frames) (start n) trivial calls
  obtain ⟨s'', hs', h3, h4⟩ := run_of_cursor hg ht h2
  rw [h1] at h3
  have := h3.det hc
  simp only [Prod.mk.injEq] at this
  obtain ⟨-, rfl⟩ := this
  rw [hasItems_refines h4 k f, (h4.dead (by rw [← h4.fatal]; exact he)).2]
  rfl

/-- The graph of `{a: [x, y]}`. -/
def sample : Heap := fun a =>
  match a with
  | 0 => { kind := .mapping, content := [1, 2] }
  | 1 => { kind := .scalar, value := ['a'] }
  | 2 => { kind := .sequence, content := [3, 4] }
  | 3 => { kind := .scalar, value := ['x'] }
  | 4 => { kind := .scalar, value := ['y'] }
  | _ => {}

def lib0 : RLib :=
  { isTimestamp := fun _ => false, toFloat := fun _ _ => true, sprint := fun _ => [], nullTag := fun _ => false,
    marshal := fun _ _ => some [] }

theorem sample_list : Tree sample 2 := by
  refine .sequence rfl fun c hc => ?_
  simp [sample] at hc
  rcases hc with rfl | rfl
  · exact .scalar rfl
  · exact .scalar rfl

theorem sample_tree : Tree sample 0 := by
  refine .mapping rfl fun c hc => ?_
  simp [sample] at hc
  rcases hc with rfl | rfl
  · exact .scalar rfl
  · exact sample_list

/-- The document is read by `Mapping`, `HasUnprocessedItems`, `String`, `Sequence`, ... -/
example (anyOf : Nat → Option GVal) : Reads (view lib0 sample false anyOf) 0 0
    [(.mapping, .coll 2), (.hasItems 0, .bool true), (.string, .str ['a']), (.sequence, .coll 2),
      (.hasItems 1, .bool true), (.string, .str ['x']), (.hasItems 1, .bool true), (.skip, .unit),
      (.hasItems 1, .bool false), (.hasItems 0, .bool false)] 2 :=
  .coll (m := 0) rfl rfl (.value rfl) rfl (.two (n := 1) (n' := 2) (t := [(.string, .str ['a'])])
    (t' := [(.sequence, .coll 2), (.hasItems 1, .bool true), (.string, .str ['x']), (.hasItems 1, .bool true),
      (.skip, .unit), (.hasItems 1, .bool false)]) (t'' := [(.hasItems 0, .bool false)])
    (.leaf (m := 1) rfl rfl (.value rfl) rfl rfl)
    (.coll (m := 2) rfl rfl (.value rfl) rfl
      (.one (n := 3) (t := [(.string, .str ['x'])]) (.leaf (m := 3) rfl rfl (.value rfl) rfl rfl)
        (.one (n := 4) (t := [(.skip, .unit)]) (.leaf (m := 4) rfl rfl (.value rfl) rfl rfl) .nil)))
    .nil)

example : Scalars sample 2 [['x'], ['y']] := by
  refine .collection (ls := [[['x']], [['y']]]) (.inl rfl) rfl fun i c l hc hl => ?_
  match i with
  | 0 =>
    cases hc
    cases hl
    exact .scalar rfl
  | 1 =>
    cases hc
    cases hl
    exact .scalar rfl
  | i + 2 => simp at hl

example : ∃ s : Session, s.reader.fatalError = some .endOfStream ∧
    Conv (fun f => run lib0 f (begin sample false 3) [.string, .string]) ([.str ['x'], .str []], s) :=
  ⟨_, rfl, 10, fun f hf => by
    obtain ⟨f, rfl⟩ : ∃ g, f = g + 10 := ⟨f - 10, by omega⟩
    rfl⟩

/-- The histories of the loop `while there are items, read an integer` on `[x, y]`, with `m` iterations. -/
def loopCalls (m : Nat) : List Call := .sequence :: (List.replicate m [Call.hasItems 0, .integer 64]).flatten

/-- C25 fails with multiple errors: on `[x, y]`, the loop which reads integers never ends, since the refused element
stays the next one and the collection state reports an item each time. -/
theorem multi_loop_forever (m : Nat) : ∃ os s',
    Conv (fun f => run lib0 f (begin sample true 2) (loopCalls m)) (os, s') ∧
      ∀ f, step lib0 f s' (.hasItems 0) = .ok (.bool true, s') := by
  obtain ⟨anyOf, hg⟩ := generic_exists lib0 sample
  let c : Nat → Cursor Nat := fun m =>
    { frames := [(some 0, [4]), (none, [])], pending := some (3, []), sizes := [2],
      denied := List.replicate (m + 1) (.deny .integer) }
  let c0 : Cursor Nat := { frames := [(some 0, [3, 4]), (none, [])], sizes := [2] }
  have open0 : Step (view lib0 sample true anyOf) (start 2) .sequence (.coll 2) c0 :=
    .read (e := .sequence) (cur := some (2, [3, 4], [(none, [])])) rfl rfl (.next rfl (.take rfl))
  have first : Step (view lib0 sample true anyOf) c0 (.integer 64) (.int 0) (c 0) :=
    .read (e := .integer) (cur := some (3, [], [(some 0, [4]), (none, [])])) rfl rfl (.next rfl (.take rfl))
  have again : ∀ m, Step (view lib0 sample true anyOf) (c m) (.integer 64) (.int 0) (c (m + 1)) := by
    intro m
    have h := Step.read (V := view lib0 sample true anyOf) (c := c m) (call := .integer 64) (e := .integer)
      (cur := some (3, [], [(some 0, [4]), (none, [])])) rfl rfl (.pending rfl)
    have he : (react (view lib0 sample true anyOf) .integer (c m) (.integer 64)
        (some (3, [], [(some 0, [4]), (none, [])]))).2 = c (m + 1) := by
      show ({ c m with denied := (c m).denied ++ [.deny .integer] } : Cursor Nat) = c (m + 1)
      simp only [c, List.replicate_succ' (n := m + 1)]
    rw [← he]
    exact h
  have item : ∀ m, Step (view lib0 sample true anyOf) (c m) (.hasItems 0) (.bool true) (c m) := fun m => Step.hasItems
  have loop : ∀ m k, ∃ t c', t.map Prod.fst = (List.replicate m [Call.hasItems 0, .integer 64]).flatten ∧
      Run (view lib0 sample true anyOf) (c k) t c' ∧ left 0 c'.frames = [4] := by
    intro m
    induction m with
    | zero => exact fun k => ⟨[], c k, rfl, .nil, rfl⟩
    | succ m ih =>
      intro k
      obtain ⟨t, c', h1, h2, h3⟩ := ih (k + 1)
      refine ⟨(.hasItems 0, .bool true) :: (.integer 64, .int 0) :: t, c', ?_, .cons (item k) (.cons (again k) h2), h3⟩
      simp [List.replicate_succ, h1]
  have all : ∃ t c', t.map Prod.fst = loopCalls m ∧ Run (view lib0 sample true anyOf) (start 2) t c' ∧
      (left 0 c'.frames).isEmpty = false := by
    cases m with
    | zero => exact ⟨_, _, rfl, .cons open0 .nil, rfl⟩
    | succ m =>
      obtain ⟨t, c', h1, h2, h3⟩ := loop m 0
      refine ⟨(.sequence, .coll 2) :: (.hasItems 0, .bool true) :: (.integer 64, .int 0) :: t, c', ?_,
        .cons open0 (.cons .hasItems (.cons first h2)), by rw [h3]; rfl⟩
      simp [loopCalls, List.replicate_succ, h1]
  obtain ⟨t, c', h1, h2, h3⟩ := all
  obtain ⟨s', hs', h4, h5⟩ := run_of_cursor hg sample_list h2
  rw [h1] at h4
  refine ⟨_, ⟨s', hs'.map some⟩, h4, fun f => ?_⟩
  rw [hasItems_refines h5 0 f, h3]
  rfl

/-! ### C26 -/

/-- C26, the half which holds: a call at an alias which is met first gives what it would give at the node the alias
stands for (put on the route in front of the alias).  Missing: the alias is left afterwards, see `alias_read_again`. -/
theorem alias_reads_target_partial {lib : RLib} {s : Session} {p : Point} {ps : List Point} {t : Nat}
    (hr : s.reader.route = p :: ps) (hk : (s.reader.heap p.node).kind = .alias)
    (ha : (s.reader.heap p.node).alias = some t) (call : Call) (hc : (expecterOf call).isSome)
    (h1 : call ≠ .any) (h2 : call ≠ .raw) (hf : s.reader.fatalError = none) (f : Nat) :
    step lib (f + 3) s call = step lib (f + 2) { s with reader := push { node := t } s.reader } call := by
  obtain ⟨⟨heap, iters, route, ex, last, es, ev, multi, fatal, ld, de⟩, hs⟩ := s
  simp only at hr hk ha hf
  subst hr hf
  have key : ∀ e, visitCurrent lib (f + 3) ⟨heap, iters, p :: ps, e, last, es, ev, multi, none, ld, de⟩ =
      visitCurrent lib (f + 2) ⟨heap, iters, { node := t } :: p :: ps, e, last, es, ev, multi, none, ld, de⟩ := by
    intro e
    have a : visitCurrent lib (f + 3) ⟨heap, iters, p :: ps, e, last, es, ev, multi, none, ld, de⟩ =
        visitNode lib (f + 2) p.node ⟨heap, iters, p :: ps, e, last, es, ev, multi, none, ld, de⟩ := by
      rw [visitCurrent]
      simp only [currentNode, List.head?_cons, Option.map_some]
    have b : visitCurrent lib (f + 2) ⟨heap, iters, { node := t } :: p :: ps, e, last, es, ev, multi, none, ld, de⟩ =
        visitNode lib (f + 1) t ⟨heap, iters, { node := t } :: p :: ps, e, last, es, ev, multi, none, ld, de⟩ := by
      rw [visitCurrent]
      simp only [currentNode, List.head?_cons, Option.map_some]
    rw [a, b, visitNode]
    simp only [hk, ha, push]
  have hx : ∀ e, expect lib (f + 3) e ⟨heap, iters, p :: ps, ex, last, es, ev, multi, none, ld, de⟩ =
      expect lib (f + 2) e ⟨heap, iters, { node := t } :: p :: ps, ex, last, es, ev, multi, none, ld, de⟩ := by
    intro e
    rw [expect, expect]
    simp only [key]
  have hs1 : ∀ e conv zero, readScalar lib (f + 3) e conv zero ⟨heap, iters, p :: ps, ex, last, es, ev, multi, none, ld, de⟩ =
      readScalar lib (f + 2) e conv zero ⟨heap, iters, { node := t } :: p :: ps, ex, last, es, ev, multi, none, ld, de⟩ := by
    intro e conv zero
    rw [readScalar, readScalar, if_neg (by simp), if_neg (by simp), hx]
  have hs2 : ∀ e, readCollection lib (f + 3) e ⟨heap, iters, p :: ps, ex, last, es, ev, multi, none, ld, de⟩ =
      readCollection lib (f + 2) e ⟨heap, iters, { node := t } :: p :: ps, ex, last, es, ev, multi, none, ld, de⟩ := by
    intro e
    rw [readCollection, readCollection, if_neg (by simp), if_neg (by simp), hx]
  cases call with
  | tryNull =>
    rw [step, step, tryNull, tryNull, if_neg (by simp), if_neg (by simp [push])]
    simp only [key]
    rfl
  | integer b => rw [step, step, hs1]; rfl
  | unsigned b => rw [step, step, hs1]; rfl
  | boolean => rw [step, step, hs1]; rfl
  | float b => rw [step, step, hs1]; rfl
  | string => rw [step, step, hs1]; rfl
  | timestamp => rw [step, step, hs1]; rfl
  | sequence => rw [step, step, hs2]; rfl
  | mapping => rw [step, step, hs2]; rfl
  | any => exact absurd rfl h1
  | raw => exact absurd rfl h2
  | node =>
    rw [step, step, readNode, readNode, if_neg (by simp), if_neg (by simp [push]), hx]
    rfl
  | skip =>
    rw [step, step, readSkip, readSkip, if_neg (by simp), if_neg (by simp [push]), hx]
    rfl
  | addError e => cases hc
  | error => cases hc
  | hasItems k => cases hc
  | size k => cases hc

/-- The graph of `[&a x, *a, y]`. -/
def aliased : Heap := fun a =>
  match a with
  | 0 => { kind := .sequence, content := [1, 2, 3] }
  | 1 => { kind := .scalar, value := ['x'], anchor := ['a'] }
  | 2 => { kind := .alias, value := ['a'], alias := some 1 }
  | 3 => { kind := .scalar, value := ['y'] }
  | _ => {}

example : ∃ s : Session, ∃ p ps, s.reader.route = p :: ps ∧ (s.reader.heap p.node).kind = .alias ∧
    (s.reader.heap p.node).alias = some 1 ∧ s.reader.fatalError = none :=
  ⟨begin aliased false 2, _, _, rfl, rfl, rfl, rfl⟩

/-- The session after `Sequence` and `m` calls of `String` in `aliased`: before the alias, and at the alias. -/
def atAlias (m : Nat) : Session :=
  match m with
  | 0 =>
    { reader :=
        { heap := aliased, iters := [[1, 2, 3]], expecter := .sequence, last := ⟨.match_, true⟩, extractedState := some (some (3, 0)),
          route := [{ node := 0, iter := some 0, result := ⟨.match_, true⟩ }] },
      handles := [some (some (3, 0))] }
  | 1 =>
    { reader :=
        { heap := aliased, iters := [[2, 3]], expecter := .string, last := ⟨.consume, true⟩, extractedValue := ['x'],
          route := [{ node := 0, iter := some 0, result := ⟨.cont, false⟩ }] },
      handles := [some (some (3, 0))] }
  | _ =>
    { reader :=
        { heap := aliased, iters := [[3]], expecter := .string, last := ⟨.consume, true⟩, extractedValue := ['x'],
          route := [{ node := 2 }, { node := 0, iter := some 0, result := ⟨.cont, false⟩ }] },
      handles := [some (some (3, 0))] }

theorem alias_string (m : Nat) (f : Nat) : step lib0 (f + 6) (atAlias m) .string = .ok (.str ['x'], atAlias (m + 1)) := by
  match m with
  | 0 => rfl
  | 1 => rfl
  | m + 2 => rfl

/-- C26 fails: in `[&a x, *a, y]` the alias is read again and again; `y` is never reached, and the collection state
reports it as an item forever. -/
theorem alias_read_again (m : Nat) : ∃ s', Conv (fun f => run lib0 f (begin aliased false 0)
    (.sequence :: List.replicate m .string ++ [.hasItems 0]))
    (.coll 3 :: List.replicate m (.str ['x']) ++ [.bool true], s') := by
  have h0 : Conv (fun f => step lib0 f (begin aliased false 0) .sequence) (.coll 3, atAlias 0) :=
    ⟨6, fun f hf => by
      obtain ⟨f, rfl⟩ : ∃ g, f = g + 6 := ⟨f - 6, by omega⟩
      rfl⟩
  have h1 : ∀ k, Conv (fun f => step lib0 f (atAlias k) .string) (.str ['x'], atAlias (k + 1)) := fun k =>
    ⟨6, fun f hf => by
      obtain ⟨f, rfl⟩ : ∃ g, f = g + 6 := ⟨f - 6, by omega⟩
      exact alias_string k f⟩
  have h2 : ∀ k, Conv (fun f => run lib0 f (atAlias k) [.hasItems 0]) ([.bool true], atAlias k) := by
    intro k
    refine Conv.congr (fun f => ?_) (Conv.pure _)
    match k with
    | 0 => rfl
    | 1 => rfl
    | k + 2 => rfl
  have h3 : ∀ m k, Conv (fun f => run lib0 f (atAlias k) (List.replicate m .string ++ [.hasItems 0]))
      (List.replicate m (.str ['x']) ++ [.bool true], atAlias (k + m)) := by
    intro m
    induction m with
    | zero => exact fun k => h2 k
    | succ m ih =>
      intro k
      rw [show k + (m + 1) = k + 1 + m by omega]
      exact run_cons (h1 k) (ih (k + 1))
  exact ⟨atAlias (0 + m), run_cons h0 (h3 m 0)⟩

/-! ### C29 -/

/-- C29 fails: after `AddError(nil)`, on whatever document (without aliases) and in whatever state, all collection states
report that there are no items. -/
theorem add_nil_empties {lib : RLib} {h : Heap} {n : Nat} (ht : Tree h n) (multi : Bool) (calls : List Call) :
    ∃ os s', Conv (fun f => run lib f (begin h multi n) (calls ++ [.addError none])) (os, s') ∧
      ∀ k f, step lib f s' (.hasItems k) = .ok (.bool false, s') := by
  obtain ⟨anyOf, hg⟩ := generic_exists lib h
  obtain ⟨t, c', h1, h2, _⟩ := run_total (V := view lib h multi anyOf) (I := fun _ => True) (fun _ _ _ _ _ _ => trivial)
    (fun e c _ => next_exists e c.frames) (start n) trivial (calls ++ [.addError none])
  obtain ⟨s', hs', h3, h4⟩ := run_of_cursor hg ht h2
  rw [h1] at h3
  refine ⟨_, ⟨s', hs'.map some⟩, h3, fun k f => ?_⟩
  have hl : left k c'.frames = [] := by
    obtain ⟨t1, t2, rfl, h5, h6⟩ := List.map_eq_append_iff.mp h1
    obtain ⟨c1, h7, h8⟩ := h2.split
    obtain ⟨⟨call, o⟩, rfl, rfl⟩ := List.map_eq_singleton_iff.mp h6
    cases h8 with
    | cons hs hr =>
      cases hr
      cases hs with
      | addErrorDead hf =>
        rw [(h4.dead hf).2]
        rfl
      | addNil _ hd => cases hd
      | addNilDrains hf _ =>
        rw [left]
        split
        · next f hfd =>
          have hm := List.mem_of_find?_eq_some hfd
          have hk := List.find?_some hfd
          obtain ⟨g, hg, rfl⟩ := List.mem_map.mp hm
          split
          · rfl
          · next hn => simp [hn] at hk; simp [hk] at hn
        · rfl
      | dead he => cases he
      | read he => cases he
  rw [hasItems_refines h4 k f, hl]
  rfl

/-- C29 fails: in `[x, y]`, `AddError(nil)` after the first element lets the collection state report that there are no
more items. -/
theorem add_nil_loses_item : (∃ s', Conv (fun f => run lib0 f (begin sample false 2) [.sequence, .string, .hasItems 0])
      ([.coll 2, .str ['x'], .bool true], s')) ∧
    ∃ s', Conv (fun f => run lib0 f (begin sample false 2) [.sequence, .string, .addError none, .hasItems 0, .error])
      ([.coll 2, .str ['x'], .unit, .bool false, .err none []], s') :=
  by
  obtain ⟨anyOf, hg⟩ := generic_exists lib0 sample
  let c1 : Cursor Nat := { frames := [(some 0, [3, 4]), (none, [])], sizes := [2] }
  let c2 : Cursor Nat := { frames := [(some 0, [4]), (none, [])], sizes := [2] }
  have h1 : Step (view lib0 sample false anyOf) (start 2) .sequence (.coll 2) c1 :=
    .read (e := .sequence) (cur := some (2, [3, 4], [(none, [])])) rfl rfl (.next rfl (.take rfl))
  have h2 : Step (view lib0 sample false anyOf) c1 .string (.str ['x']) c2 :=
    .read (e := .string) (cur := some (3, [], [(some 0, [4]), (none, [])])) rfl rfl (.next rfl (.take rfl))
  constructor
  · obtain ⟨s', hs', h, _⟩ := run_of_cursor hg sample_list (.cons h1 (.cons h2 (.cons (.hasItems (k := 0)) .nil)))
    exact ⟨⟨s', hs'.map some⟩, h⟩
  · obtain ⟨s', hs', h, _⟩ := run_of_cursor hg sample_list (.cons h1 (.cons h2 (.cons (.addNilDrains rfl rfl)
      (.cons (.hasItems (k := 0)) (.cons .error .nil)))))
    exact ⟨⟨s', hs'.map some⟩, h⟩

/-! ### C30 -/

/-- C30.  A probe which returns false changes nothing: whatever was called before, a reading call after the probe and all
later calls return what they return without the probe. -/
theorem probe_harmless {lib : RLib} {h : Heap} {n : Nat} (ht : Tree h n) (multi : Bool) {before after : List Call}
    {call : Call} (he : (expecterOf call).isSome) {os os' : List (Out Nat)} {s' : Session} (hl : os.length = before.length)
    (hr : Conv (fun f => run lib f (begin h multi n) (before ++ .tryNull :: call :: after))
      (os ++ .bool false :: os', s')) :
    ∃ s'', Conv (fun f => run lib f (begin h multi n) (before ++ call :: after)) (os ++ os', s'') := by
  obtain ⟨anyOf, hg⟩ := generic_exists lib h
  obtain ⟨t, c', h1, h2, _⟩ := run_total (V := view lib h multi anyOf) (I := fun _ => True) (fun _ _ _ _ _ _ => trivial)
    (fun e c _ => next_exists e c.frames) (start n) trivial (before ++ .tryNull :: call :: after)
  obtain ⟨s1, hs', h3, h4⟩ := run_of_cursor hg ht h2
  rw [h1] at h3
  have heq := h3.det hr
  simp only [Prod.mk.injEq] at heq
  obtain ⟨h5, -⟩ := heq
  obtain ⟨t1, t2, rfl, rfl, h6⟩ := List.map_eq_append_iff.mp h1
  match t2, h6 with
  | (_, o) :: (_, o') :: t3, h6 =>
    cases h6
    have hlen : (t1.map Prod.snd).length = os.length := by simp [hl]
    rw [List.map_append] at h5
    obtain ⟨h7, h8⟩ := List.append_inj h5 hlen
    simp only [List.map_cons, List.cons.injEq] at h8
    obtain ⟨rfl, h8⟩ := h8
    obtain ⟨c1, h9, h10⟩ := h2.split
    cases h10 with
    | cons hs hr' =>
      obtain ⟨e, he⟩ := Option.isSome_iff_exists.mp he
      have hrun := h9.append (probe_run hs he (fun _ => rfl) hr')
      obtain ⟨s2, hs', h11, _⟩ := run_of_cursor hg ht hrun
      refine ⟨⟨s2, hs'.map some⟩, ?_⟩
      simp only [List.map_append, List.map_cons] at h11
      rw [h7, h8] at h11
      exact h11

/-- C30.  A probe which returns true is `Skip` (which takes exactly one value, see C31). -/
theorem probe_takes_null {lib : RLib} {h : Heap} {n : Nat} (ht : Tree h n) (multi : Bool) {before after : List Call}
    {os os' : List (Out Nat)} {s' : Session} (hl : os.length = before.length)
    (hr : Conv (fun f => run lib f (begin h multi n) (before ++ .tryNull :: after)) (os ++ .bool true :: os', s')) :
    ∃ s'', Conv (fun f => run lib f (begin h multi n) (before ++ .skip :: after)) (os ++ .unit :: os', s'') := by
  obtain ⟨anyOf, hg⟩ := generic_exists lib h
  obtain ⟨t, c', h1, h2, _⟩ := run_total (V := view lib h multi anyOf) (I := fun _ => True) (fun _ _ _ _ _ _ => trivial)
    (fun e c _ => next_exists e c.frames) (start n) trivial (before ++ .tryNull :: after)
  obtain ⟨s1, hs', h3, h4⟩ := run_of_cursor hg ht h2
  rw [h1] at h3
  have heq := h3.det hr
  simp only [Prod.mk.injEq] at heq
  obtain ⟨h5, -⟩ := heq
  obtain ⟨t1, t2, rfl, rfl, h6⟩ := List.map_eq_append_iff.mp h1
  match t2, h6 with
  | (_, o) :: t3, h6 =>
    cases h6
    have hlen : (t1.map Prod.snd).length = os.length := by simp [hl]
    rw [List.map_append] at h5
    obtain ⟨h7, h8⟩ := List.append_inj h5 hlen
    simp only [List.map_cons, List.cons.injEq] at h8
    obtain ⟨rfl, h8⟩ := h8
    obtain ⟨c1, h9, h10⟩ := h2.split
    cases h10 with
    | cons hs hr' =>
      have hrun := h9.append (.cons (probe_skip hs (fun _ => rfl) (fun _ => rfl)) hr')
      obtain ⟨s2, hs', h11, _⟩ := run_of_cursor hg ht hrun
      refine ⟨⟨s2, hs'.map some⟩, ?_⟩
      simp only [List.map_append, List.map_cons] at h11
      rw [h7, h8] at h11
      exact h11

example : ∃ s', Conv (fun f => run lib0 f (begin sample false 2) ([.sequence] ++ .tryNull :: .string :: [.hasItems 0]))
    ([.coll 2] ++ .bool false :: [.str ['x'], .bool true], s') := by
  obtain ⟨anyOf, hg⟩ := generic_exists lib0 sample
  let c1 : Cursor Nat := { frames := [(some 0, [3, 4]), (none, [])], sizes := [2] }
  let c2 : Cursor Nat := { frames := [(some 0, [4]), (none, [])], sizes := [2], pending := some (3, []) }
  let c3 : Cursor Nat := { frames := [(some 0, [4]), (none, [])], sizes := [2] }
  have h1 : Step (view lib0 sample false anyOf) (start 2) .sequence (.coll 2) c1 :=
    .read (e := .sequence) (cur := some (2, [3, 4], [(none, [])])) rfl rfl (.next rfl (.take rfl))
  have h2 : Step (view lib0 sample false anyOf) c1 .tryNull (.bool false) c2 :=
    .read (e := .null) (cur := some (3, [], [(some 0, [4]), (none, [])])) rfl rfl (.next rfl (.take rfl))
  have h3 : Step (view lib0 sample false anyOf) c2 .string (.str ['x']) c3 :=
    .read (e := .string) (cur := some (3, [], [(some 0, [4]), (none, [])])) rfl rfl (.pending rfl)
  obtain ⟨s', hs', h, _⟩ := run_of_cursor hg sample_list (.cons h1 (.cons h2 (.cons h3 (.cons (.hasItems (k := 0)) .nil))))
  exact ⟨⟨s', hs'.map some⟩, h⟩

/-! ### C31 -/

/-- C31.  `Skip` takes one value, whatever it is: it may stand for any value in the calls of C23. -/
theorem skip_reads_partial (lib : RLib) (h : Heap) (multi : Bool) (anyOf : Nat → Option GVal) (k n : Nat) :
    Reads (view lib h multi anyOf) k n [(.skip, .unit)] k :=
  .leaf (m := n) rfl rfl (.value rfl) rfl rfl

/-- The session after skipping the alias of `aliased`. -/
def skipped : Session :=
  { reader :=
      { heap := aliased, iters := [[3]], expecter := .skip, last := ⟨.consume, false⟩, extractedValue := ['x'],
        route := [{ node := 2 }, { node := 0, iter := some 0, result := ⟨.cont, false⟩ }] },
    handles := [some (some (3, 0))] }

/-- C31 fails at aliases: in `[&a x, *a, y]`, after reading `x` and skipping the alias, the next call reads `x` again, not
`y`. -/
theorem skip_alias_stays : ∃ s', Conv (fun f => run lib0 f (begin aliased false 0) [.sequence, .string, .skip, .string])
    ([.coll 3, .str ['x'], .unit, .str ['x']], s') := by
  have h0 : Conv (fun f => step lib0 f (begin aliased false 0) .sequence) (.coll 3, atAlias 0) :=
    ⟨6, fun f hf => by
      obtain ⟨f, rfl⟩ : ∃ g, f = g + 6 := ⟨f - 6, by omega⟩
      rfl⟩
  have h1 : Conv (fun f => step lib0 f (atAlias 0) .string) (.str ['x'], atAlias 1) :=
    ⟨6, fun f hf => by
      obtain ⟨f, rfl⟩ : ∃ g, f = g + 6 := ⟨f - 6, by omega⟩
      exact alias_string 0 f⟩
  have h2 : Conv (fun f => step lib0 f (atAlias 1) .skip) (.unit, skipped) :=
    ⟨6, fun f hf => by
      obtain ⟨f, rfl⟩ : ∃ g, f = g + 6 := ⟨f - 6, by omega⟩
      rfl⟩
  have h3 : Conv (fun f => step lib0 f skipped .string) (.str ['x'], atAlias 2) :=
    ⟨6, fun f hf => by
      obtain ⟨f, rfl⟩ : ∃ g, f = g + 6 := ⟨f - 6, by omega⟩
      rfl⟩
  exact ⟨_, run_cons h0 (run_cons h1 (run_cons h2 (run_cons h3 (Conv.pure _))))⟩

/-- C31.  After skipping the elements `xs` of a sequence, the calls which follow the shape of the others read these.  (Missing: aliases, see `skip_alias_stays`.) -/
theorem skip_then_read_partial {lib : RLib} {h : Heap} {anyOf : Nat → Option GVal} (hg : Generic lib h anyOf) {n : Nat}
    (ht : Tree h n) (hk : (h n).kind = .sequence) (multi : Bool) {xs ys : List Nat} (hc : (h n).content = xs ++ ys)
    {t : List (Call × Out Nat)} {k : Nat} (hr : ReadsItems (view lib h multi anyOf) 0 1 ys t k) :
    ∃ s', Conv (fun f => run lib f (begin h multi n)
        (.sequence :: xs.flatMap (fun _ => [.hasItems 0, .skip]) ++ t.map Prod.fst))
      (.coll (h n).content.length :: xs.flatMap (fun _ => [.bool true, .unit]) ++ t.map Prod.snd, s') ∧
      s'.reader.fatalError = none := by
  have hi : ReadsItems (view lib h multi anyOf) 0 1 (xs ++ ys)
      (xs.flatMap (fun _ => [(.hasItems 0, .bool true), (.skip, .unit)]) ++ t) k := by
    clear hc
    induction xs with
    | nil => exact hr
    | cons x xs ih =>
      have := ReadsItems.one (h := 0) (skip_reads_partial lib h multi anyOf 1 x) ih
      simpa using this
  rw [← hc] at hi
  have hv : (view lib h multi anyOf).items n = (h n).content := by simp [view, hk]
  rw [← hv] at hi
  have := Reads.coll (V := view lib h multi anyOf) (k := 0) (n := n) (m := n) (call := .sequence) rfl rfl (.value rfl)
    (by simp [view, verdict, hk]) hi
  obtain ⟨s', h1, h2, _⟩ := reads_in_order hg ht multi this
  refine ⟨s', ?_, h2⟩
  simp only [List.map_cons, List.map_append, List.map_flatMap, List.map_nil] at h1
  exact h1

example (anyOf : Nat → Option GVal) : ReadsItems (view lib0 sample false anyOf) 0 1 [4]
    [(.hasItems 0, .bool true), (.string, .str ['y']), (.hasItems 0, .bool false)] 1 :=
  .one (.leaf (m := 4) rfl rfl (.value rfl) rfl rfl) .nil

/-! ### C45 -/

/-- C45.  On a document without aliases, no history of calls panics.  Missing: documents with aliases. -/
theorem no_panic_partial {lib : RLib} {h : Heap} {n : Nat} (ht : Tree h n) (multi : Bool) (calls : List Call) :
    ∃ os s', Conv (fun f => run lib f (begin h multi n) calls) (os, s') := by
  obtain ⟨anyOf, hg⟩ := generic_exists lib h
  obtain ⟨t, c', s', _, _, h, _⟩ := decoder_is_cursor hg ht multi calls
  exact ⟨_, s', h⟩

/-- C45 fails for the empty text: the node which `yaml.Unmarshal` leaves untouched has the kind zero; visiting it does
nothing, so `Sequence` and `Mapping` return a nil collection state without an error, and asking it for items or for its
size panics. -/
theorem empty_state_panics (lib : RLib) (multi : Bool) {h : Heap} {n : Nat} (hk : (h n).kind = .zero) (f : Nat) :
    run lib (f + 2) (begin h multi n) [.sequence, .hasItems 0] = .panic ∧
      run lib (f + 2) (begin h multi n) [.mapping, .size 0] = .panic := by
  have hv : ∀ e, expect lib (f + 2) e { heap := h, multi := multi, route := [{ node := n }] } =
      .ok (true, { heap := h, multi := multi, route := [{ node := n }], expecter := e }) := by
    intro e
    simp [expect, visitCurrent, currentNode, visitNode, hk, Bind.bind, Res.bind]
  constructor <;>
    simp [run, step, step.openColl, readCollection, hv, begin, Bind.bind, Res.bind]

example : ∃ h : Heap, (h 0).kind = .zero := ⟨fun _ => {}, rfl⟩

/-- The same history as in `empty_state_panics`, up to the last call, reports no error. -/
theorem empty_state_silent (lib : RLib) (multi : Bool) {h : Heap} {n : Nat} (hk : (h n).kind = .zero) :
    ∃ s', Conv (fun f => run lib f (begin h multi n) [.sequence, .error]) ([.coll 0, .err none []], s') ∧
      s'.handles = [none] := by
  refine ⟨⟨{ (begin h multi n).reader with expecter := .sequence }, [none]⟩, ⟨2, fun f hf => ?_⟩, rfl⟩
  obtain ⟨f, rfl⟩ : ∃ g, f = g + 2 := ⟨f - 2, by omega⟩
  have hv : ∀ e, expect lib (f + 2) e { heap := h, multi := multi, route := [{ node := n }] } =
      .ok (true, { heap := h, multi := multi, route := [{ node := n }], expecter := e }) := by
    intro e
    simp [expect, visitCurrent, currentNode, visitNode, hk, Bind.bind, Res.bind]
  simp [run, step, step.openColl, readCollection, hv, begin, Bind.bind, Res.bind]

/-! ### C46 -/

/-- C46.  A reading call during which an error is added returns its zero value, whatever was called before. -/
theorem error_means_zero_partial {lib : RLib} {h : Heap} {n : Nat} (ht : Tree h n) {multi : Bool}
    {before : List Call} {call : Call} (he : (expecterOf call).isSome)
    {os : List (Out Nat)} {o : Out Nat} {f f' : Option Err} {d d' : List Err} {s' : Session} (hl : os.length = before.length)
    (hr : Conv (fun g => run lib g (begin h multi n) (before ++ [.error, call, .error])) (os ++ [.err f d, o, .err f' d'], s'))
    (hx : f' ≠ f ∨ d' ≠ d) : o = zeroOf call := by
  obtain ⟨anyOf, hg⟩ := generic_exists lib h
  obtain ⟨t, c', _, h1, h2, h3, _⟩ := decoder_is_cursor hg ht multi (before ++ [.error, call, .error])
  have h5 := (Prod.mk.inj (h3.det hr)).1
  obtain ⟨t1, t2, rfl, rfl, h6⟩ := List.map_eq_append_iff.mp h1
  match t2, h6 with
  | [(_, _), (_, _), (_, _)], h6 =>
    cases h6
    rw [List.map_append] at h5
    obtain ⟨_, h8⟩ := List.append_inj h5 (by simp [hl])
    cases h8
    obtain ⟨c1, _, h10⟩ := h2.split
    exact h10.zero he hx

/-- The second `String` fails. -/
example : ∃ s', Conv (fun f => run lib0 f (begin sample false 3) ([.string] ++ [.error, .string, .error]))
    ([.str ['x']] ++ [.err none [], .str [], .err (some .endOfStream) []], s') :=
  ⟨_, 10, fun f hf => by
    obtain ⟨f, rfl⟩ : ∃ g, f = g + 10 := ⟨f - 10, by omega⟩
    rfl⟩

end Verif.Props.GoyamlReader
