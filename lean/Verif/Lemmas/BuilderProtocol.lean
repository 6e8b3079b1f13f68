import Verif.Lemmas.Builder

/-! The errors of the builder are those of the protocol machine; finished trees stay as they are. -/

set_option linter.unusedSimpArgs false

namespace Verif.Builder

open Verif.Ast Verif.Inserter Verif.Protocol

/-- In which state a raw document leaves a builder which holds nothing: the code takes raw collections for unfinished
ones. -/
def rawRoot (n : Node) : Option Machine :=
  match n with
  | .stream _ => none
  | .sequence _ => some (.opened .sequence [])
  | .mapping _ => some (.opened .key [])
  | _ => some .complete

/-- Trees which the parser may return. -/
def Document (n : Node) : Prop :=
  validNode n = true ∧ (∀ k v, n ≠ .mappingEntry k v) ∧ ∀ ty, n ≠ .basic ty

/-- The raw documents of a call are such trees. -/
def CallOk : Call Node → Prop
  | .raw (some n) => Document n
  | _ => True

/-- The frames shown by a route. -/
inductive Frames (h : List Cell) : List Nat → List Frame → Prop
  | nil : Frames h [] []
  | seq {a r fs es} : h[a]? = some (.seq es) → Frames h r fs → Frames h (a :: r) (.sequence :: fs)
  | key {a r fs es} : h[a]? = some (.map es) → Frames h r fs → Frames h (a :: r) (.key :: fs)
  | value {e a r fs k es} : h[e]? = some (.entry k none) → h[a]? = some (.map es) → e ∉ a :: r → Frames h r fs →
      Frames h (e :: a :: r) (.value :: fs)

/-- The machine state shown by a builder. -/
def Shows (b : Builder) : Machine → Prop
  | .vacant => b.route = []
  | .complete => ∃ a n, b.route = [a] ∧ b.heap[a]? = some (.leaf n) ∧ validNode n = true
  | .opened f fs => Frames b.heap b.route (f :: fs)

theorem Frames.keep {h h' : List Cell} {r : List Nat} {fs : List Frame} (hf : Frames h r fs)
    (hseq : ∀ a ∈ r, ∀ es, h[a]? = some (.seq es) → ∃ es', h'[a]? = some (.seq es'))
    (hmap : ∀ a ∈ r, ∀ es, h[a]? = some (.map es) → ∃ es', h'[a]? = some (.map es'))
    (hent : ∀ a ∈ r, ∀ k, h[a]? = some (.entry k none) → h'[a]? = some (.entry k none)) : Frames h' r fs := by
  induction hf with
  | nil => exact .nil
  | seq e _ ih =>
    obtain ⟨es', e'⟩ := hseq _ (by simp) _ e
    exact .seq e' (ih (fun a hm => hseq a (by simp [hm])) (fun a hm => hmap a (by simp [hm]))
      (fun a hm => hent a (by simp [hm])))
  | key e _ ih =>
    obtain ⟨es', e'⟩ := hmap _ (by simp) _ e
    exact .key e' (ih (fun a hm => hseq a (by simp [hm])) (fun a hm => hmap a (by simp [hm]))
      (fun a hm => hent a (by simp [hm])))
  | value e1 e2 hn _ ih =>
    obtain ⟨es', e'⟩ := hmap _ (by simp) _ e2
    exact .value (hent _ (by simp) _ e1) e' hn (ih (fun a hm => hseq a (by simp [hm]))
      (fun a hm => hmap a (by simp [hm])) (fun a hm => hent a (by simp [hm])))

/-- An insertion of a node into the innermost collection, seen by the machine. -/
theorem Attached.frames {L : Nat} {cell : Cell} {c : Nat} {r : List Nat} {n : Nat} {h h' : List Cell} {rt : List Nat}
    {f : Frame} {fs : List Frame} (hat : Attached L cell c r n h' rt) (hf : Frames h (c :: r) (f :: fs))
    (hc : h[c]? = some cell) (hroute : ∀ a ∈ c :: r, a < h.length) (hL : h.length ≤ L)
    (hframe : ∀ a, a < h.length → a ≠ c → h'[a]? = h[a]?) : Frames h' rt (f.next :: fs) := by
  have keep : ∀ {r' fs'}, Frames h r' fs' → (∀ a ∈ r', a ∈ c :: r) → c ∉ r' ∨ (∃ es, cell = .seq es) ∨
      (∃ es, cell = .map es) → Frames h' r' fs' := by
    intro r' fs' hf' hsub hor
    have same : ∀ a ∈ r', a ≠ c → h'[a]? = h[a]? := fun a hm hne => hframe a (hroute a (hsub a hm)) hne
    refine hf'.keep ?_ ?_ ?_
    · intro a hm es e
      by_cases hac : a = c
      · subst hac
        rw [hc] at e
        cases e
        exact ⟨_, hat.2⟩
      · exact ⟨es, by rw [same a hm hac, e]⟩
    · intro a hm es e
      by_cases hac : a = c
      · subst hac
        rw [hc] at e
        cases e
        obtain ⟨e', _, _, _, h4, _⟩ := hat
        exact ⟨_, h4⟩
      · exact ⟨es, by rw [same a hm hac, e]⟩
    · intro a hm k e
      by_cases hac : a = c
      · subst hac
        rw [hc] at e
        cases e
        rcases hor with h1 | ⟨es, h1⟩ | ⟨es, h1⟩
        · exact absurd hm h1
        · cases h1
        · cases h1
      · rw [same a hm hac, e]
  cases hf with
  | seq e hrest =>
    rw [hc] at e
    cases e
    rw [hat.1]
    exact .seq hat.2 (keep hrest (fun a hm => by simp [hm]) (.inr (.inl ⟨_, rfl⟩)))
  | key e hrest =>
    rw [hc] at e
    cases e
    obtain ⟨e', h1, h2, h3, h4, h5⟩ := hat
    rw [h3]
    refine .value h5 h4 (fun hm => ?_) (keep hrest (fun a hm => by simp [hm]) (.inr (.inr ⟨_, rfl⟩)))
    have := hroute e' hm
    omega
  | value e1 e2 hn hrest =>
    rw [hc] at e1
    cases e1
    rw [hat.1]
    rename_i a r k es
    have h2 : h'[a]? = some (.map es) := by
      rw [hframe a (hroute a (by simp)) (fun h => hn (by rw [h]; simp)), e2]
    exact .key h2 (keep hrest (fun a hm => by simp [hm]) (.inl (fun hm => hn (by simp [hm]))))

/-- The builder and the machine agree. -/
structure Agree (b : Builder) (m : Machine) : Prop where
  noErr : b.fatalError = none
  route : ∀ a ∈ b.route, a < b.heap.length
  shows : Shows b m

theorem Frames.head {h : List Cell} {r : List Nat} {f : Frame} {fs : List Frame} (hf : Frames h r (f :: fs)) :
    ∃ c r' cell, r = c :: r' ∧ h[c]? = some cell ∧ cell.accepts ∧
      (f = .sequence → ∃ es, cell = .seq es ∧ Frames h r' fs) ∧ (f = .key → ∃ es, cell = .map es ∧ Frames h r' fs) ∧
      (f = .value → ∃ k v, cell = .entry k v) := by
  cases hf with
  | seq e hr => exact ⟨_, _, _, rfl, e, trivial, fun _ => ⟨_, rfl, hr⟩, nofun, nofun⟩
  | key e hr => exact ⟨_, _, _, rfl, e, trivial, nofun, fun _ => ⟨_, rfl, hr⟩, nofun⟩
  | value e1 e2 hn hr => exact ⟨_, _, _, rfl, e1, trivial, nofun, nofun, fun _ => ⟨_, _, rfl⟩⟩

theorem Frames.append {h t : List Cell} {r : List Nat} {fs : List Frame} (hf : Frames h r fs) :
    Frames (h ++ t) r fs :=
  hf.keep (fun _ _ _ e => ⟨_, getElem?_append_old e⟩) (fun _ _ _ e => ⟨_, getElem?_append_old e⟩)
    (fun _ _ _ e => getElem?_append_old e)

/-- Insertion of an allocated node, when a collection is unfinished. -/
theorem insert_opened {b : Builder} {f : Frame} {fs : List Frame} (ha : Agree b (.opened f fs)) (t : List Cell)
    (n : Nat) (push : Bool) (hn : b.heap.length ≤ n) (hn' : n < b.heap.length + t.length) :
    ∃ rt, (insertNode { b with heap := b.heap ++ t } n push).fatalError = none ∧ (insertNode { b with heap := b.heap ++ t } n push).route = (if push then n :: rt else rt) ∧ Frames (insertNode { b with heap := b.heap ++ t } n push).heap rt (f.next :: fs) ∧
      (insertNode { b with heap := b.heap ++ t } n push).heap[n]? = (b.heap ++ t)[n]? ∧ (∀ a ∈ rt, a < (insertNode { b with heap := b.heap ++ t } n push).heap.length) ∧ n < (insertNode { b with heap := b.heap ++ t } n push).heap.length ∧ n ∉ rt := by
  obtain ⟨c, r, cell, hr, hc, hacc, _⟩ := Frames.head ha.shows
  have hcl := (List.getElem?_eq_some_iff.mp hc).1
  obtain ⟨rt, hk, hrt, hat⟩ := insertNode_into (b := { b with heap := b.heap ++ t }) n push ha.noErr hr
    (getElem?_append_old hc) hacc (by simp; omega)
  have hg := hk.grows
  simp only [List.length_append] at hg
  have hf1 : Frames (b.heap ++ t) (c :: r) (f :: fs) := by
    rw [← hr]
    exact ha.shows.append
  refine ⟨rt, hk.noErr, hrt, ?_, ?_, ?_, ?_, ?_⟩
  · refine hat.frames hf1 (getElem?_append_old hc) ?_ (Nat.le_refl _) hk.frame
    intro a hm
    have := ha.route a (by rw [hr]; exact hm)
    simp
    omega
  · exact hk.frame n (by simp; omega) (by omega)
  · intro a hm
    rcases hat.route hm with h | h
    · have := ha.route a (by rw [hr]; exact h)
      omega
    · exact h.2.1
  · omega
  · intro hm
    rcases hat.route hm with h | h
    · have := ha.route n (by rw [hr]; exact h)
      omega
    · exact h.1 rfl

theorem validNode_type {n : Node} (h : validNode n = true) : (Cell.leaf n).type ≠ .invalid := by
  cases n <;> simp_all [validNode, Cell.type, Node.type?]
  rename_i ty
  cases ty <;> simp_all

theorem insert_complete {b : Builder} (ha : Agree b .complete) (t : List Cell) (n : Nat) (push : Bool) :
    (insertNode { b with heap := b.heap ++ t } n push).fatalError ≠ none := by
  obtain ⟨a, l, hr, hc, hv⟩ := ha.shows
  have hcur : currentNode { b with heap := b.heap ++ t } = some (a, .leaf l) := by
    have e : (b.heap ++ t)[a]? = some (.leaf l) := getElem?_append_old hc
    simp [currentNode, hr, e, validNode_type hv]
  unfold insertNode
  rw [hcur]
  cases push <;> simp [ha.noErr, pushNode]

theorem insert_vacant {b : Builder} (ha : Agree b .vacant) (t : List Cell) (n : Nat) (push : Bool) :
    insertNode { b with heap := b.heap ++ t } n push =
      { b with heap := b.heap ++ t, route := [n], root := some n } := by
  have hr : b.route = [] := ha.shows
  simp [insertNode, ha.noErr, currentNode, hr, pushNode]

/-- Scalars. -/
theorem insertLeaf_agree {b : Builder} {m : Machine} (ha : Agree b m) (l : Node) (hl : validNode l = true) :
    match m.insert with
    | some m' => Agree (insertCell b (.leaf l) false) m'
    | none => (insertCell b (.leaf l) false).fatalError ≠ none := by
  cases m with
  | complete => exact insert_complete ha [.leaf l] b.heap.length false
  | vacant =>
    show Agree (insertNode { b with heap := b.heap ++ [.leaf l] } b.heap.length false) .complete
    rw [insert_vacant ha]
    exact ⟨ha.noErr, by simp, b.heap.length, l, rfl, by simp, hl⟩
  | opened f fs =>
    obtain ⟨rt, h1, h2, h3, h4, h5, h6, h7⟩ := insert_opened ha [.leaf l] b.heap.length false (Nat.le_refl _) (by simp)
    simp only [Bool.false_eq_true, if_false] at h2
    refine ⟨h1, ?_, ?_⟩
    · intro a hm
      exact h5 a (by rw [← h2]; exact hm)
    · show Frames _ (insertNode { b with heap := b.heap ++ [.leaf l] } b.heap.length false).route _
      rw [h2]
      exact h3

/-- The frame of an empty collection. -/
def emptyOf : Frame → Cell
  | .sequence => .seq []
  | _ => .map []

theorem start_agree {b : Builder} {m : Machine} (ha : Agree b m) (g : Frame) (hg : g ≠ .value) :
    match m.start g with
    | some m' => Agree (insertCell b (emptyOf g) true) m'
    | none => (insertCell b (emptyOf g) true).fatalError ≠ none := by
  have mk : ∀ {h : List Cell} {r fs} (a : Nat), h[a]? = some (emptyOf g) → Frames h r fs →
      Frames h (a :: r) (g :: fs) := by
    intro h r fs a e hf
    cases g with
    | sequence => exact .seq e hf
    | key => exact .key e hf
    | value => exact absurd rfl hg
  cases m with
  | complete => exact insert_complete ha [emptyOf g] b.heap.length true
  | vacant =>
    show Agree (insertNode { b with heap := b.heap ++ [emptyOf g] } b.heap.length true) (.opened g [])
    rw [insert_vacant ha]
    exact ⟨ha.noErr, by simp, mk _ (by simp) .nil⟩
  | opened f fs =>
    obtain ⟨rt, h1, h2, h3, h4, h5, h6, h7⟩ := insert_opened ha [emptyOf g] b.heap.length true (Nat.le_refl _) (by simp)
    simp only [if_true] at h2
    refine ⟨h1, ?_, ?_⟩
    · intro a hm
      have hm : a ∈ b.heap.length :: rt := by rw [← h2]; exact hm
      rcases List.mem_cons.mp hm with rfl | hm
      · exact h6
      · exact h5 a hm
    · show Frames _ (insertNode { b with heap := b.heap ++ [emptyOf g] } b.heap.length true).route _
      rw [h2]
      exact mk _ (h4.trans (by simp)) h3

theorem pop_agree {b : Builder} {c : Nat} {r : List Nat} {fs : List Frame} (he : b.fatalError = none)
    (hr : b.route = c :: r) (hroute : ∀ a ∈ b.route, a < b.heap.length) (hf : Frames b.heap r fs) :
    Agree (popNode b) (Machine.close fs) := by
  refine ⟨he, ?_, ?_⟩
  · intro a hm
    simp only [popNode, hr, List.tail_cons] at hm ⊢
    exact hroute a (by rw [hr]; simp [hm])
  · cases fs with
    | nil =>
      cases hf
      simp [Machine.close, Shows, popNode, hr]
    | cons f fs =>
      simp only [Machine.close, Shows, popNode, hr, List.tail_cons]
      exact hf

theorem endSequence_agree {b : Builder} {m : Machine} (ha : Agree b m) :
    match m.step (ν := Node) true rawRoot .endSequence with
    | some m' => Agree (endSequence b) m'
    | none => (endSequence b).fatalError ≠ none := by
  cases m with
  | complete =>
    obtain ⟨a, l, hr, hc, hv⟩ := ha.shows
    have hcur : currentNode b = some (a, .leaf l) := by simp [currentNode, hr, hc, validNode_type hv]
    simp [Machine.step, endSequence, ha.noErr, hcur]
  | vacant =>
    have hr : b.route = [] := ha.shows
    simp [Machine.step, endSequence, ha.noErr, currentNode, hr]
  | opened f fs =>
    obtain ⟨c, r, cell, hr, hc, hacc, h1, h2, h3⟩ := Frames.head ha.shows
    have hcur := currentNode_eq hr hc hacc
    cases f with
    | sequence =>
      obtain ⟨es, rfl, hf⟩ := h1 rfl
      simp only [Machine.step, endSequence, ha.noErr, hcur, Option.isSome_none, Bool.false_eq_true, if_false]
      exact pop_agree ha.noErr hr ha.route hf
    | key =>
      obtain ⟨es, rfl, _⟩ := h2 rfl
      simp [Machine.step, endSequence, ha.noErr, hcur]
    | value =>
      obtain ⟨k, v, rfl⟩ := h3 rfl
      simp [Machine.step, endSequence, ha.noErr, hcur]

theorem endMapping_agree {b : Builder} {m : Machine} (ha : Agree b m) :
    match m.step (ν := Node) true rawRoot .endMapping with
    | some m' => Agree (endMapping b) m'
    | none => (endMapping b).fatalError ≠ none := by
  cases m with
  | complete =>
    obtain ⟨a, l, hr, hc, hv⟩ := ha.shows
    have hcur : currentNode b = some (a, .leaf l) := by simp [currentNode, hr, hc, validNode_type hv]
    simp [Machine.step, endMapping, ha.noErr, hcur]
  | vacant =>
    have hr : b.route = [] := ha.shows
    simp [Machine.step, endMapping, ha.noErr, currentNode, hr]
  | opened f fs =>
    obtain ⟨c, r, cell, hr, hc, hacc, h1, h2, h3⟩ := Frames.head ha.shows
    have hcur := currentNode_eq hr hc hacc
    cases f with
    | sequence =>
      obtain ⟨es, rfl, _⟩ := h1 rfl
      simp [Machine.step, endMapping, ha.noErr, hcur]
    | key =>
      obtain ⟨es, rfl, hf⟩ := h2 rfl
      simp only [Machine.step, endMapping, ha.noErr, hcur, Option.isSome_none, Bool.false_eq_true, if_false]
      exact pop_agree ha.noErr hr ha.route hf
    | value =>
      obtain ⟨k, v, rfl⟩ := h3 rfl
      simp [Machine.step, endMapping, ha.noErr, hcur]

/-- The cell of a loaded document. -/
theorem load_cell (h : List Cell) {n : Node} (hd : Document n) :
    match n with
    | .sequence _ => ∃ es, (load h n).2[(load h n).1]? = some (.seq es)
    | .mapping _ => ∃ es, (load h n).2[(load h n).1]? = some (.map es)
    | _ => (load h n).2[(load h n).1]? = some (.leaf n) := by
  cases n with
  | sequence es => exact ⟨(loadList h es).1, by simp [load]⟩
  | mapping es => exact ⟨(loadList h es).1, by simp [load]⟩
  | mappingEntry k v => exact absurd rfl (hd.2.1 k v)
  | _ => simp [load]

theorem raw_agree {b : Builder} {m : Machine} (ha : Agree b m) (n : Node) (hd : Document n) :
    match m.step true rawRoot (.raw (some n)) with
    | some m' => Agree (insertRaw b (some n)) m'
    | none => (insertRaw b (some n)).fatalError ≠ none := by
  by_cases hs : ∃ ds, n = .stream ds
  · obtain ⟨ds, rfl⟩ := hs
    simp [Machine.step, rawRoot, insertRaw, ha.noErr, Node.type?]
  have hty : n.type? ≠ some .stream := by
    cases n <;> simp_all [Node.type?, Document]
  obtain ⟨⟨t, ht⟩, hreads⟩ := load_spec b.heap n
  obtain ⟨hge, hlt⟩ := hreads.self
  have hcell := load_cell b.heap hd
  have hstep : insertRaw b (some n) = insertNode { b with heap := b.heap ++ t } (load b.heap n).1 false := by
    simp only [insertRaw, ha.noErr, Option.isSome_none, Bool.false_eq_true, if_false]
    rw [if_neg hty]
    simp only [ht]
  rw [hstep]
  rw [ht] at hlt hcell
  generalize (load b.heap n).1 = a at *
  have hroot : ∃ rm, rawRoot n = some rm := by
    cases n <;> simp_all [rawRoot]
  obtain ⟨rm, hrm⟩ := hroot
  simp only [Machine.step, hrm]
  cases m with
  | complete => exact insert_complete ha t a false
  | vacant =>
    rw [insert_vacant ha]
    refine ⟨ha.noErr, by simp; simpa using hlt, ?_⟩
    cases n with
    | sequence es =>
      obtain ⟨es', e⟩ := hcell
      cases hrm
      exact .seq e .nil
    | mapping es =>
      obtain ⟨es', e⟩ := hcell
      cases hrm
      exact .key e .nil
    | stream ds => exact absurd ⟨ds, rfl⟩ hs
    | basic ty => exact absurd rfl (hd.2.2 ty)
    | _ =>
      cases hrm
      exact ⟨a, _, rfl, hcell, hd.1⟩
  | opened f fs =>
    obtain ⟨rt, h1, h2, h3, h4, h5, h6, h7⟩ := insert_opened ha t a false hge (by simpa using hlt)
    simp only [Bool.false_eq_true, if_false] at h2
    refine ⟨h1, ?_, ?_⟩
    · intro x hm
      exact h5 x (by rw [← h2]; exact hm)
    · show Frames _ (insertNode { b with heap := b.heap ++ t } a false).route _
      rw [h2]
      exact h3

theorem step_agree {b : Builder} {m : Machine} (ha : Agree b m) (c : Call Node) (hc : CallOk c) :
    match m.step true rawRoot c with
    | some m' => Agree (step b c) m'
    | none => (step b c).fatalError ≠ none := by
  cases c with
  | scalar s =>
    refine insertLeaf_agree ha (scalarNode b.unquoteOneliners s) ?_
    rw [scalarNode_eq]
    cases s <;> rfl
  | startSequence => exact start_agree ha .sequence (by simp)
  | endSequence => exact endSequence_agree ha
  | startMapping => exact start_agree ha .key (by simp)
  | endMapping => exact endMapping_agree ha
  | raw t =>
    cases t with
    | none => simp [Machine.step, step, insertRaw, ha.noErr]
    | some n => exact raw_agree ha n hc
  | rawText t =>
    cases t with
    | none => simp [Machine.step, step, insertRawText, ha.noErr]
    | some t =>
      have h := insertLeaf_agree ha (scalarNode b.unquoteOneliners (.string t)) (by rw [scalarNode_eq]; rfl)
      simpa [step, insertRawText, ha.noErr, insertScalar, Machine.step] using h

theorem insertNode_err {b : Builder} (he : b.fatalError ≠ none) (n : Nat) (push : Bool) : insertNode b n push = b := by
  simp [insertNode, Option.isSome_iff_ne_none.mpr he]

/-- After an error nothing but garbage is produced. -/
theorem step_err {b : Builder} (he : b.fatalError ≠ none) (c : Call Node) :
    (step b c).fatalError = b.fatalError ∧ (step b c).root = b.root ∧ (step b c).route = b.route ∧
      (step b c).unquoteOneliners = b.unquoteOneliners ∧ ∃ t, (step b c).heap = b.heap ++ t := by
  have hs := Option.isSome_iff_ne_none.mpr he
  have hin : ∀ x push, insertCell b x push = (alloc b x).2 := fun x push => insertNode_err (b := (alloc b x).2) he _ push
  cases c <;> simp [step, insertScalar, hin, alloc, endSequence, endMapping, insertRaw, insertRawText, hs]

theorem run_err {b : Builder} (he : b.fatalError ≠ none) (cs : List (Call Node)) :
    (run b cs).fatalError = b.fatalError ∧ (run b cs).root = b.root := by
  induction cs generalizing b with
  | nil => exact ⟨rfl, rfl⟩
  | cons c cs ih =>
    obtain ⟨h1, h2, _⟩ := step_err he c
    obtain ⟨h3, h4⟩ := ih (b := step b c) (by rw [h1]; exact he)
    rw [run_cons]
    exact ⟨h3.trans h1, h4.trans h2⟩

theorem run_agree {b : Builder} {m : Machine} (ha : Agree b m) (cs : List (Call Node)) (hc : ∀ c ∈ cs, CallOk c) :
    match Machine.run true rawRoot m cs with
    | some m' => Agree (run b cs) m'
    | none => (run b cs).fatalError ≠ none := by
  induction cs generalizing b m with
  | nil => exact ha
  | cons c cs ih =>
    have h := step_agree ha c (hc c (by simp))
    rw [run_cons, Machine.run]
    cases hm : m.step true rawRoot c with
    | none =>
      simp only [hm] at h ⊢
      rw [(run_err h cs).1]
      exact h
    | some m' =>
      simp only [hm] at h ⊢
      exact ih h (fun d hd => hc d (by simp [hd]))

/-! ### Finished trees stay as they are -/

/-- Every change happens at the addresses of the route or behind them. -/
structure Fresh (h0 : List Cell) (b : Builder) : Prop where
  route : ∀ a ∈ b.route, h0.length ≤ a
  heap : ∃ t, b.heap = h0 ++ t

theorem set_append_right' {h0 t : List Cell} {a : Nat} (x : Cell) (ha : h0.length ≤ a) :
    ∃ t', (h0 ++ t).set a x = h0 ++ t' :=
  ⟨t.set (a - h0.length) x, by rw [List.set_append_right _ _ ha]⟩

theorem insertNode_fresh {h0 : List Cell} {b : Builder} (hf : Fresh h0 b) (n : Nat) (hn : h0.length ≤ n) (push : Bool) :
    Fresh h0 (insertNode b n push) := by
  unfold insertNode
  split
  · exact hf
  split
  · exact ⟨by simp [pushNode]; exact ⟨hn, hf.route⟩, hf.heap⟩
  rename_i a c hcur
  obtain ⟨t, ht⟩ := hf.heap
  have ha : h0.length ≤ a := by
    unfold currentNode at hcur
    split at hcur
    · cases hcur
    rename_i a' r hr
    split at hcur
    · cases hcur
    split at hcur
    · cases hcur
    cases hcur
    exact hf.route a (by rw [hr]; simp)
  suffices h : ∀ b', Fresh h0 b' → Fresh h0 (if push then pushNode b' n else b') by
    apply h
    cases c with
    | leaf l => exact ⟨hf.route, hf.heap⟩
    | seq es =>
      obtain ⟨t', ht'⟩ := set_append_right' (t := t) (.seq (es ++ [n])) ha
      exact ⟨hf.route, t', by simp only [ht, ht']⟩
    | map es =>
      obtain ⟨t', ht'⟩ := set_append_right' (t := t ++ [.entry n none]) (.map (es ++ [b.heap.length])) ha
      refine ⟨?_, t', ?_⟩
      · simp only [alloc, pushNode, List.mem_cons]
        rintro x (rfl | hx)
        · simp [ht]
        · exact hf.route x hx
      · simp only [alloc, pushNode]
        rw [← ht', ht, List.append_assoc]
    | entry k v =>
      obtain ⟨t', ht'⟩ := set_append_right' (t := t) (.entry k (some n)) ha
      refine ⟨?_, t', by simp only [popNode, ht, ht']⟩
      intro x hx
      exact hf.route x (List.mem_of_mem_tail hx)
  intro b' hb'
  cases push
  · exact hb'
  · refine ⟨?_, hb'.heap⟩
    simp only [pushNode, if_true, List.mem_cons]
    rintro x (rfl | hx)
    · exact hn
    · exact hb'.route x hx

theorem step_fresh {h0 : List Cell} {b : Builder} (hf : Fresh h0 b) (c : Call Node) : Fresh h0 (step b c) := by
  have hcell : ∀ x push, Fresh h0 (insertCell b x push) := by
    intro x push
    obtain ⟨t, ht⟩ := hf.heap
    exact insertNode_fresh (b := (alloc b x).2) ⟨hf.route, t ++ [x], by simp [alloc, ht]⟩ _ (by simp [ht]) push
  have herr : ∀ e : Err, Fresh h0 { b with fatalError := some e } := fun e => ⟨hf.route, hf.heap⟩
  have hpop : Fresh h0 (popNode b) := ⟨fun x hx => hf.route x (List.mem_of_mem_tail hx), hf.heap⟩
  cases c with
  | scalar s => exact hcell _ _
  | startSequence => exact hcell _ _
  | startMapping => exact hcell _ _
  | endSequence =>
    simp only [step, endSequence]
    split
    · exact hf
    split <;> first | exact herr _ | exact hpop
  | endMapping =>
    simp only [step, endMapping]
    split
    · exact hf
    split <;> first | exact herr _ | exact hpop
  | raw t =>
    simp only [step, insertRaw]
    split
    · exact hf
    split
    · exact herr _
    rename_i n
    split
    · exact herr _
    obtain ⟨⟨t, ht⟩, hreads⟩ := load_spec b.heap n
    obtain ⟨t0, ht0⟩ := hf.heap
    refine insertNode_fresh (b := { b with heap := (load b.heap n).2 }) ⟨hf.route, t0 ++ t, ?_⟩ _ ?_ false
    · simp only [ht]
      rw [ht0, List.append_assoc]
    · have := hreads.self.1
      rw [ht0] at this ⊢
      simp at this
      omega
  | rawText t =>
    simp only [step, insertRawText]
    split
    · exact hf
    split
    · exact herr _
    · exact hcell _ _

theorem run_fresh {h0 : List Cell} {b : Builder} (hf : Fresh h0 b) (cs : List (Call Node)) : Fresh h0 (run b cs) := by
  induction cs generalizing b with
  | nil => exact hf
  | cons c cs ih => exact ih (step_fresh hf c)

end Verif.Builder
