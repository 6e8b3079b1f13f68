import Verif.Spec.GoyamlCursor
import Verif.Lemmas.DecoderCursor
import Verif.Lemmas.RawTransformer

/-!
The decoder of the goyaml engine refines the cursor.
-/

namespace Verif.GoyamlReader

open Verif.Generic Verif.Goyaml Verif.Decoder Verif.DecoderCursor Verif.GoyamlCursor
open Verif.GoyamlAnyBuilder (GLib isNull)

set_option linter.unusedSimpArgs false

/-- The points of the route stand for the frames of the cursor. -/
inductive Pts (h : Heap) (hs : List Handle) (its : List (List Nat)) : List (Frame Nat) → List Point → Prop
  | base : Pts h hs its [(none, [])] []
  | root {n} : Tree h n → Pts h hs its [(none, [n])] [{ node := n }]
  | cons {k rest fs p ps s i} : Pts h hs its fs ps → (∀ f ∈ fs, f.1 ≠ some k) → hs[k]? = some (some (s, i)) →
      p.iter = some i → its[i]? = some rest → (∀ n ∈ rest, Tree h n) →
      ((h p.node).kind = .sequence ∨ (h p.node).kind = .mapping) →
      (p.result.conclusion = .match_ ∨ p.result.conclusion = .cont) →
      Pts h hs its ((some k, rest) :: fs) (p :: ps)

/-- The iterators and collection states are those of the frames; the collections which are not being read any more are
exhausted. -/
structure Base (h : Heap) (hs : List Handle) (its : List (List Nat)) (fs : List (Frame Nat)) (ps : List Point) : Prop where
  pts : Pts h hs its fs ps
  inj : ∀ {k k' s s' i : Nat}, hs[k]? = some (some (s, i)) → hs[k']? = some (some (s', i)) → k = k'
  bound : ∀ {k s i : Nat}, hs[k]? = some (some (s, i)) → i < its.length
  closed : ∀ {k s i : Nat}, hs[k]? = some (some (s, i)) → (∀ f ∈ fs, f.1 ≠ some k) → its.getD i [] = []

theorem Pts.congr {h : Heap} {hs hs' : List Handle} {its its' : List (List Nat)} {fs : List (Frame Nat)}
    {ps : List Point} (hp : Pts h hs its fs ps)
    (hh : ∀ {k s i : Nat}, (∃ f ∈ fs, f.1 = some k) → hs[k]? = some (some (s, i)) →
      hs'[k]? = some (some (s, i)) ∧ its'[i]? = its[i]?) : Pts h hs' its' fs ps := by
  induction hp with
  | base => exact .base
  | root ht => exact .root ht
  | cons _ h1 h2 h3 h4 h5 h6 h7 ih =>
    obtain ⟨h8, h9⟩ := hh ⟨_, List.mem_cons_self, rfl⟩ h2
    refine .cons (ih fun ⟨f, hf, he⟩ h => hh ⟨f, List.mem_cons_of_mem _ hf, he⟩ h) h1 h8 h3 (h9.trans h4) h5 h6 h7

theorem Base.append {h : Heap} {hs : List Handle} {its : List (List Nat)} {fs : List (Frame Nat)} {ps : List Point}
    (hb : Base h hs its fs ps) (x : List Nat) : Base h hs (its ++ [x]) fs ps := by
  have key : ∀ {k s i : Nat}, hs[k]? = some (some (s, i)) → (its ++ [x])[i]? = its[i]? := by
    intro k s i hk
    exact List.getElem?_append_left (hb.bound hk)
  refine ⟨hb.pts.congr fun _ hk => ⟨hk, key hk⟩, hb.inj, ?_, ?_⟩
  · intro k s i hk
    have := hb.bound hk
    simp
    omega
  · intro k s i hk hf
    have := hb.closed hk hf
    simpa [List.getD_eq_getElem?_getD, key hk] using this

/-- The last frame of a route is not the one of a collection. -/
theorem Pts.split {h : Heap} {hs : List Handle} {its : List (List Nat)} {fs : List (Frame Nat)} {ps : List Point}
    (hp : Pts h hs its fs ps) : fs ≠ [] := by
  cases hp <;> simp

/-! ### Errors -/

/-- All collection states report that nothing is left. -/
def Spent (hs : List Handle) (its : List (List Nat)) : Prop :=
  ∀ {k s i : Nat}, hs[k]? = some (some (s, i)) → its.getD i [] = []

/-- Every collection which is not exhausted is on the route. -/
def Covered (hs : List Handle) (its : List (List Nat)) (ps : List Point) : Prop :=
  ∀ {k s i : Nat}, hs[k]? = some (some (s, i)) → its.getD i [] = [] ∨ ∃ p ∈ ps, p.iter = some i

theorem Pts.covers {h : Heap} {hs : List Handle} {its : List (List Nat)} {fs : List (Frame Nat)} {ps : List Point}
    (hp : Pts h hs its fs ps) {k s i : Nat} (hk : hs[k]? = some (some (s, i))) (hf : ∃ f ∈ fs, f.1 = some k) :
    ∃ p ∈ ps, p.iter = some i := by
  induction hp with
  | base =>
    obtain ⟨f, hf, he⟩ := hf
    obtain rfl := List.mem_singleton.mp hf
    cases he
  | root _ =>
    obtain ⟨f, hf, he⟩ := hf
    obtain rfl := List.mem_singleton.mp hf
    cases he
  | cons _ _ h2 h3 _ _ _ _ ih =>
    obtain ⟨f, hf, he⟩ := hf
    rcases List.mem_cons.mp hf with rfl | hf
    · cases he
      rw [h2] at hk
      cases hk
      exact ⟨_, List.mem_cons_self, h3⟩
    · obtain ⟨p, hp, hi⟩ := ih ⟨f, hf, he⟩
      exact ⟨p, List.mem_cons_of_mem _ hp, hi⟩

theorem Base.covered {h : Heap} {hs : List Handle} {its : List (List Nat)} {fs : List (Frame Nat)} {ps : List Point}
    (hb : Base h hs its fs ps) : Covered hs its ps := by
  intro k s i hk
  by_cases hf : ∃ f ∈ fs, f.1 = some k
  · exact .inr (hb.pts.covers hk hf)
  · exact .inl (hb.closed hk fun f hm he => hf ⟨f, hm, he⟩)

/-- The iterators after `setFatal`. -/
def drained (ps : List Point) (its : List (List Nat)) : List (List Nat) :=
  ps.foldl (fun its p => match p.iter with | some i => its.set i [] | none => its) its

theorem drained_getD (ps : List Point) (its : List (List Nat)) (i : Nat) :
    (its.getD i [] = [] → (drained ps its).getD i [] = []) ∧
    ((∃ p ∈ ps, p.iter = some i) → (drained ps its).getD i [] = []) ∧
    ((∀ p ∈ ps, p.iter ≠ some i) → (drained ps its)[i]? = its[i]?) := by
  induction ps generalizing its with
  | nil =>
    refine ⟨id, ?_, fun _ => rfl⟩
    rintro ⟨_, h, _⟩
    cases h
  | cons p ps ih =>
    have hset : ∀ j, ((its.set j []).getD i [] = []) ∨ j ≠ i := by
      intro j
      by_cases h : j = i
      · subst h
        left
        rw [List.getD_eq_getElem?_getD, List.getElem?_set_self']
        cases its[j]? <;> rfl
      · exact .inr h
    have hkeep : ∀ j, its.getD i [] = [] → (its.set j []).getD i [] = [] := by
      intro j h
      rcases hset j with h' | h'
      · exact h'
      · rw [List.getD_eq_getElem?_getD, List.getElem?_set_ne h', ← List.getD_eq_getElem?_getD]
        exact h
    rw [drained, List.foldl_cons]
    cases hi : p.iter with
    | none =>
      obtain ⟨h1, h2, h3⟩ := ih its
      refine ⟨h1, fun ⟨q, hq, he⟩ => ?_, fun h => h3 fun q hq => h q (List.mem_cons_of_mem _ hq)⟩
      rcases List.mem_cons.mp hq with rfl | hq
      · rw [hi] at he
        cases he
      · exact h2 ⟨q, hq, he⟩
    | some j =>
      obtain ⟨h1, h2, h3⟩ := ih (its.set j [])
      refine ⟨fun h => h1 (hkeep j h), fun ⟨q, hq, he⟩ => ?_, fun h => ?_⟩
      · rcases List.mem_cons.mp hq with rfl | hq
        · rw [hi] at he
          cases he
          exact h1 ((hset _).resolve_right fun h => h rfl)
        · exact h2 ⟨q, hq, he⟩
      · refine (h3 fun q hq => h q (List.mem_cons_of_mem _ hq)).trans (List.getElem?_set_ne ?_)
        intro he
        subst he
        exact h p List.mem_cons_self hi

theorem drained_length (ps : List Point) (its : List (List Nat)) : (drained ps its).length = its.length := by
  induction ps generalizing its with
  | nil => rfl
  | cons p ps ih =>
    rw [drained, List.foldl_cons]
    cases p.iter with
    | none => exact ih its
    | some j => exact (ih (its.set j [])).trans List.length_set

theorem Covered.spent {hs : List Handle} {its : List (List Nat)} {ps : List Point} (hc : Covered hs its ps) :
    Spent hs (drained ps its) := by
  intro k s i hk
  rcases hc hk with h | h
  · exact (drained_getD ps its i).1 h
  · exact (drained_getD ps its i).2.1 h

/-! ### The next node -/

/-- The fields which matter for all calls. -/
structure Same (r r' : Reader) : Prop where
  heap : r'.heap = r.heap
  multi : r'.multi = r.multi
  denyErrors : r'.denyErrors = r.denyErrors
  expecter : r'.expecter = r.expecter

theorem Same.refl (r : Reader) : Same r r := ⟨rfl, rfl, rfl, rfl⟩

theorem Same.trans {r1 r2 r3 : Reader} (h : Same r1 r2) (h' : Same r2 r3) : Same r1 r3 :=
  ⟨h'.heap.trans h.heap, h'.multi.trans h.multi, h'.denyErrors.trans h.denyErrors, h'.expecter.trans h.expecter⟩

/-- Points of collections which are being read are continued by every expecter. -/
theorem process_continue (lib : RLib) (e : Expecter) {c : Cell} (hk : c.kind = .sequence ∨ c.kind = .mapping)
    {prev : Conclusion} (hp : prev = .match_ ∨ prev = .cont) : process lib e c prev = { conclusion := .cont } := by
  have hn : isNull lib.toGLib c = false := by rcases hk with h | h <;> simp [isNull, h]
  rcases hk with h | h <;> rcases hp with rfl | rfl <;>
    cases e <;> simp [process, hn, processTerminal, processCollection, processWhole, processNull, Fresh, Going, h]

/-- The reader whose current point is that of a node just taken. -/
def taken (n : Nat) (p : Point) (i : Nat) (ns : List Nat) (ps : List Point) (r : Reader) : Reader :=
  { r with route := { node := n } :: { p with result := { conclusion := .cont } } :: ps,
           last := { conclusion := .cont }, iters := r.iters.set i ns }

/-- The reader without an exhausted point. -/
def dropped (ps : List Point) (r : Reader) : Reader := { r with route := ps, last := { conclusion := .cont } }

theorem visit_continue {lib : RLib} {r : Reader} {p : Point} {ps : List Point} {i : Nat} (hr : r.route = p :: ps)
    (hk : (r.heap p.node).kind = .sequence ∨ (r.heap p.node).kind = .mapping) (hi : p.iter = some i)
    (hp : p.result.conclusion = .match_ ∨ p.result.conclusion = .cont) :
    ∀ f, visitCurrent lib (f + 3) r =
      (loop lib f i { r with route := { p with result := { conclusion := .cont } } :: ps,
                             last := { conclusion := .cont } } >>= fun x => .ok x) := by
  intro f
  have hc : p.result.conclusion ≠ .unknown := by rcases hp with h | h <;> simp [h]
  rw [visitCurrent]
  simp only [currentNode, hr, List.head?_cons, Option.map_some]
  rw [visitNode]
  rcases hk with hk | hk <;> simp only [hk, hr, openIter, if_neg hc] <;> rw [processComplex] <;>
    simp only [process_continue lib r.expecter (c := r.heap p.node) (by simp [hk]) hp, swap, hi, Bool.false_eq_true,
      if_false] <;> simp only [hr]

theorem loop_stop {lib : RLib} {r : Reader} {i f : Nat} (h : r.last.conclusion ≠ .cont) : loop lib (f + 1) i r = .ok r := by
  rw [loop, if_neg h]

/-- The next node: the decoder visits it with a new point. -/
theorem settle {lib : RLib} {h : Heap} {V : View Nat} (hV : ∀ e n, V.layer e n = none) {e : Expecter}
    {hs : List Handle} {fs : List (Frame Nat)} {res : Option (Nat × List (Frame Nat))} (hn : Next V e fs res) :
    ∀ (r : Reader) (ps : List Point), r.heap = h → r.route = ps → Base h hs r.iters fs ps →
      (res = none → ∃ r', Conv (fun f => visitCurrent lib f r) (appendError (some .endOfStream) r') ∧ Same r r' ∧
        r'.route = [] ∧ r'.fatalError = r.fatalError ∧ r'.latestDeny = r.latestDeny ∧ Covered hs r'.iters []) ∧
      (∀ n gs, res = some (n, gs) → Tree h n ∧ ∃ r' qs, r'.route = { node := n } :: qs ∧ Base h hs r'.iters gs qs ∧
        Same r r' ∧ r'.fatalError = r.fatalError ∧ r'.latestDeny = r.latestDeny ∧
        ∀ x, Conv (fun f => visitNode lib f n r') x → x.last.conclusion ≠ .cont → Conv (fun f => visitCurrent lib f r) x) := by
  induction hn with
  | done =>
    intro r ps _ _ hb
    exact absurd rfl hb.pts.split
  | @close k fs res hn ih =>
    intro r ps hh hr hb
    have hpts := hb.pts
    cases hpts with
    | base =>
      cases hn
      refine ⟨fun _ => ⟨r, ?_, Same.refl r, hr, rfl, rfl, ?_⟩, fun _ _ h => nomatch h⟩
      · refine Conv.succ (g' := fun _ => .ok (appendError (some .endOfStream) r)) (fun f => ?_) (Conv.pure _)
        rw [visitCurrent]
        simp [currentNode, hr]
      · intro k s i hk
        exact hb.covered hk
    | @cons k _ _ p ps s i hp h1 h2 h3 h4 h5 h6 h7 =>
      have hb' : Base h hs r.iters fs ps := by
        refine ⟨hp, hb.inj, hb.bound, ?_⟩
        intro k' s' i' hk' hf
        by_cases he : k' = k
        · subst he
          rw [h2] at hk'
          cases hk'
          rw [List.getD_eq_getElem?_getD, h4]
          rfl
        · refine hb.closed hk' fun f hm => ?_
          rcases List.mem_cons.mp hm with rfl | hm
          · simpa using fun h => he h.symm
          · exact hf f hm
      obtain ⟨ih1, ih2⟩ := ih (dropped ps r) ps hh rfl hb'
      have step : ∀ x, Conv (fun f => visitCurrent lib f (dropped ps r)) x → Conv (fun f => visitCurrent lib f r) x := by
        intro x hx
        refine Conv.succ (g' := fun f => visitCurrent lib (f + 1) r) (fun _ => rfl) ?_
        refine Conv.succ (g' := fun f => visitCurrent lib (f + 2) r) (fun _ => rfl) ?_
        refine Conv.succ (g' := fun f => visitCurrent lib (f + 3) r) (fun _ => rfl) ?_
        refine Conv.congr (visit_continue hr (by rw [hh]; exact h6) h3 h7) ?_
        refine Conv.bind (x := x) ?_ (Conv.pure x)
        refine Conv.succ (g' := fun f => visitCurrent lib f (dropped ps r)) (fun f => ?_) hx
        rw [loop]
        simp only [if_true, List.getD_eq_getElem?_getD, h4, Option.getD_some]
        rfl
      refine ⟨fun he => ?_, fun n gs he => ?_⟩
      · obtain ⟨r', h8, h9, h10, h11, h12, h13⟩ := ih1 he
        exact ⟨r', step _ h8, ⟨h9.heap, h9.multi, h9.denyErrors, h9.expecter⟩, h10, h11, h12, h13⟩
      · obtain ⟨ht, r', qs, h8, h9, h10, h11, h12, h13⟩ := ih2 n gs he
        exact ⟨ht, r', qs, h8, h9, ⟨h10.heap, h10.multi, h10.denyErrors, h10.expecter⟩, h11, h12,
          fun x h14 h15 => step x (h13 x h14 h15)⟩
  | @take k n ns fs hl =>
    intro r ps hh hr hb
    refine ⟨fun he => (nomatch he), fun m gs he => ?_⟩
    cases he
    have hpts := hb.pts
    cases hpts with
    | root ht =>
      refine ⟨ht, r, [], hr, ⟨.base, hb.inj, hb.bound, ?_⟩, Same.refl r, rfl, rfl, ?_⟩
      · intro k s i hk hf
        refine hb.closed hk fun f hm => ?_
        obtain rfl := List.mem_singleton.mp hm
        simp
      · intro x hx _
        refine Conv.succ (g' := fun f => visitNode lib f n r) (fun f => ?_) hx
        rw [visitCurrent]
        simp [currentNode, hr]
    | @cons k _ _ p ps s i hp h1 h2 h3 h4 h5 h6 h7 =>
      have hlt : i < r.iters.length := hb.bound h2
      refine ⟨h5 n List.mem_cons_self, taken n p i ns ps r, _, rfl, ⟨?_, hb.inj, ?_, ?_⟩, ⟨rfl, rfl, rfl, rfl⟩, rfl, rfl, ?_⟩
      · refine .cons (hp.congr ?_) h1 h2 h3 ?_ (fun m hm => h5 m (List.mem_cons_of_mem _ hm)) h6 (.inr rfl)
        · intro k' s' i' hf hk'
          refine ⟨hk', List.getElem?_set_ne ?_⟩
          rintro rfl
          obtain ⟨f, hm, he⟩ := hf
          rw [← hb.inj h2 hk'] at he
          exact h1 f hm he
        · exact List.getElem?_set_self hlt
      · intro k' s' i' hk'
        show i' < (r.iters.set i ns).length
        rw [List.length_set]
        exact hb.bound hk'
      · intro k' s' i' hk' hf
        have hne : i ≠ i' := by
          rintro rfl
          rw [← hb.inj h2 hk'] at hf
          exact hf (some k, ns) List.mem_cons_self rfl
        show (r.iters.set i ns).getD i' [] = []
        rw [List.getD_eq_getElem?_getD, List.getElem?_set_ne hne, ← List.getD_eq_getElem?_getD]
        refine hb.closed hk' fun f hm => ?_
        rcases List.mem_cons.mp hm with rfl | hm
        · exact hf (some k, ns) List.mem_cons_self
        · exact hf f (List.mem_cons_of_mem _ hm)
      · intro x hx hlast
        refine Conv.succ (g' := fun f => visitCurrent lib (f + 1) r) (fun _ => rfl) ?_
        refine Conv.succ (g' := fun f => visitCurrent lib (f + 2) r) (fun _ => rfl) ?_
        refine Conv.succ (g' := fun f => visitCurrent lib (f + 3) r) (fun _ => rfl) ?_
        refine Conv.congr (visit_continue hr (by rw [hh]; exact h6) h3 h7) ?_
        refine Conv.bind (x := x) ?_ (Conv.pure x)
        refine Conv.succ (g' := fun f => visitNode lib f n (taken n p i ns ps r) >>= fun y => loop lib f i y) (fun f => ?_) ?_
        · rw [loop]
          simp only [if_true, List.getD_eq_getElem?_getD, h4, Option.getD_some]
          rfl
        · exact Conv.bind hx (Conv.succ (g' := fun _ => .ok x) (fun f => loop_stop hlast) (Conv.pure x))
  | enter hl _ _ =>
    rw [hV] at hl
    cases hl

/-! ### Reading a node -/

/-- The expecters whose calls use the extracted text. -/
def Extracts (e : Expecter) : Bool :=
  e != .null && e != .any && e != .raw && e != .skip && e != .sequence && e != .mapping

/-- What a point of a node which has not been read makes of an expecter. -/
theorem process_new (lib : RLib) (e : Expecter) {c : Cell}
    (hk : c.kind = .scalar ∨ c.kind = .sequence ∨ c.kind = .mapping) {prev : Conclusion}
    (hp : prev = .unknown ∨ prev = .deny) :
    process lib e c prev = (match verdict lib c e with
      | .deny => { conclusion := .deny }
      | .opens => { conclusion := .match_, extract := true }
      | .whole => { conclusion := if e = .any ∨ e = .raw then .match_ else .consume, extract := Extracts e }) := by
  rcases hk with h | h | h <;> rcases hp with rfl | rfl <;>
    cases e <;> simp [process, processTerminal, processCollection, processWhole, processNull, Fresh, Going, verdict,
      scalarIf, isNull, Extracts, h] <;> split <;> simp_all

theorem verdict_scalar {lib : RLib} {c : Cell} (hk : c.kind = .scalar) (e : Expecter) : verdict lib c e ≠ .opens := by
  cases e <;> simp [verdict, scalarIf, hk] <;> split <;> simp

theorem verdict_opens {lib : RLib} {c : Cell} {e : Expecter} (h : verdict lib c e = .opens) :
    (e = .sequence ∧ c.kind = .sequence) ∨ (e = .mapping ∧ c.kind = .mapping) := by
  cases e <;> simp [verdict, scalarIf] at h ⊢ <;> first | exact h | (split at h <;> cases h)

theorem verdict_whole {lib : RLib} {c : Cell} (hk : c.kind ≠ .scalar) {e : Expecter} (h : verdict lib c e = .whole) :
    e = .any ∨ e = .raw ∨ e = .skip := by
  cases e <;> simp [verdict, scalarIf, hk] at h ⊢
  all_goals (split at h <;> cases h)

/-- The elements a node is opened with at first. -/
def itemsOf (h : Heap) (n : Nat) : List Nat := if (h n).kind = .scalar then [] else (h n).content

/-- The point of a node which has not been read: a new one, or a refused one. -/
structure Unread (h : Heap) (hs : List Handle) (its : List (List Nat)) (p : Point) (n : Nat) (items : List Nat) : Prop where
  node : p.node = n
  tree : Tree h n
  trees : ∀ m ∈ items, Tree h m
  state : (p.result.conclusion = .unknown ∧ items = itemsOf h n) ∨
    (p.result.conclusion = .deny ∧ ((h n).kind ≠ .scalar →
      ∃ i, p.iter = some i ∧ its[i]? = some items ∧ ∀ k s : Nat, hs[k]? ≠ some (some (s, i))))

theorem itemsOf_tree {h : Heap} {n : Nat} (ht : Tree h n) : ∀ m ∈ itemsOf h n, Tree h m := by
  intro m hm
  rw [itemsOf] at hm
  cases ht with
  | scalar hk => rw [if_pos hk] at hm; cases hm
  | sequence hk hc => exact hc m (by simpa [hk] using hm)
  | mapping hk hc => exact hc m (by simpa [hk] using hm)

theorem tree_kind {h : Heap} {n : Nat} (ht : Tree h n) :
    (h n).kind = .scalar ∨ (h n).kind = .sequence ∨ (h n).kind = .mapping := by
  cases ht with
  | scalar hk => exact .inl hk
  | sequence hk _ => exact .inr (.inl hk)
  | mapping hk _ => exact .inr (.inr hk)

/-- The outcome of visiting a node which has not been read, by the verdict. -/
structure Visited (lib : RLib) (h : Heap) (hs : List Handle) (fs : List (Frame Nat)) (ps : List Point) (n : Nat)
    (items : List Nat) (e : Expecter) (r' : Reader) : Prop where
  base : Base h hs r'.iters fs ps
  last : r'.last.conclusion ≠ .cont
  fatal : r'.fatalError = none
  deny : verdict lib (h n) e = .deny → r'.latestDeny = some (.deny e) ∧
    ∃ p', r'.route = p' :: ps ∧ p'.result.conclusion = .deny ∧ Unread h hs r'.iters p' n items
  whole : verdict lib (h n) e = .whole → r'.latestDeny = none ∧ (Extracts e = true → r'.extractedValue = (h n).value) ∧
    (if e = .any ∨ e = .raw then ∃ p', r'.route = p' :: ps ∧ p'.node = n else r'.route = ps)
  opens : verdict lib (h n) e = .opens → r'.latestDeny = none ∧ ∃ p' i, r'.route = p' :: ps ∧ p'.node = n ∧
    p'.iter = some i ∧ r'.iters[i]? = some items ∧ (∀ k s : Nat, hs[k]? ≠ some (some (s, i))) ∧
    p'.result.conclusion = .match_ ∧ r'.extractedState = some (some ((h n).content.length, i))

theorem visit_scalar {lib : RLib} {h : Heap} {hs : List Handle} {fs : List (Frame Nat)} {ps : List Point} {n : Nat}
    {items : List Nat} {r : Reader} {p : Point} (hh : r.heap = h) (hr : r.route = p :: ps)
    (hb : Base h hs r.iters fs ps) (hu : Unread h hs r.iters p n items) (hf : r.fatalError = none)
    (hd : r.latestDeny = none) (hk : (h n).kind = .scalar) :
    ∃ r', (∀ f, visitNode lib (f + 1) n r = .ok r') ∧ Same r r' ∧ Visited lib h hs fs ps n items r.expecter r' := by
  subst hh
  have hprev : p.result.conclusion = .unknown ∨ p.result.conclusion = .deny := by
    rcases hu.state with h | h
    · exact .inl h.1
    · exact .inr h.1
  have hproc := process_new lib r.expecter (c := r.heap n) (.inl hk) hprev
  have hvis : ∀ f, visitNode lib (f + 1) n r = visitScalar lib n r := by
    intro f
    rw [visitNode]
    simp only [hk]
  simp only [visitScalar, hr, hproc] at hvis
  cases hv : verdict lib (r.heap n) r.expecter with
  | opens => exact absurd hv (verdict_scalar hk _)
  | deny =>
    simp only [hv, swap, hr, Bool.false_eq_true, if_false] at hvis
    refine ⟨_, hvis, ⟨rfl, rfl, rfl, rfl⟩, ⟨hb, by simp, hf, fun _ => ⟨rfl, _, rfl, rfl, hu.node, hu.tree, hu.trees, .inr ⟨rfl, ?_⟩⟩,
      fun h => by simp [hv] at h, fun h => by simp [hv] at h⟩⟩
    intro h'
    exact absurd hk h'
  | whole =>
    simp only [hv] at hvis
    by_cases he : r.expecter = .any ∨ r.expecter = .raw
    · have hx : Extracts r.expecter = false := by rcases he with h | h <;> simp [h, Extracts]
      simp only [if_pos he, hx, Bool.false_eq_true, if_false] at hvis
      refine ⟨_, hvis, ⟨rfl, rfl, rfl, rfl⟩, ⟨hb, by simp, hf, fun h => by simp [hv] at h, fun _ => ⟨hd, fun h => ?_, ?_⟩,
        fun h => by simp [hv] at h⟩⟩
      · simp [hx] at h
      · rw [if_pos he]
        exact ⟨p, rfl, hu.node⟩
    · simp only [if_neg he, pop, hr] at hvis
      refine ⟨_, hvis, ?_, ⟨?_, ?_, ?_, fun h => by simp [hv] at h, fun _ => ⟨?_, fun h => ?_, ?_⟩, fun h => by simp [hv] at h⟩⟩
      · split <;> exact ⟨rfl, rfl, rfl, rfl⟩
      · split <;> exact hb
      · split <;> simp
      · split <;> exact hf
      · split <;> exact hd
      · rw [if_pos h]
      · rw [if_neg he]
        split <;> rfl

theorem visit_complex {lib : RLib} {h : Heap} {hs : List Handle} {fs : List (Frame Nat)} {ps : List Point} {n : Nat}
    {items : List Nat} {r : Reader} {p : Point} (hh : r.heap = h) (hr : r.route = p :: ps)
    (hb : Base h hs r.iters fs ps) (hu : Unread h hs r.iters p n items) (hf : r.fatalError = none)
    (hd : r.latestDeny = none) (hk : (h n).kind = .sequence ∨ (h n).kind = .mapping) :
    ∃ r', (∀ f, visitNode lib (f + 2) n r = .ok r') ∧ Same r r' ∧ Visited lib h hs fs ps n items r.expecter r' := by
  subst hh
  have hprev : p.result.conclusion = .unknown ∨ p.result.conclusion = .deny := by
    rcases hu.state with h | h
    · exact .inl h.1
    · exact .inr h.1
  have hns : (r.heap n).kind ≠ .scalar := by rcases hk with h | h <;> simp [h]
  have hproc := process_new lib r.expecter (c := r.heap n) (.inr hk) hprev
  -- the iterator of the point
  obtain ⟨i, its, hopen, hits, hi, hbase⟩ : ∃ i its,
      openIter n p r = ({ p with iter := some i }, { r with iters := its }) ∧ its[i]? = some items ∧
      (∀ k s : Nat, hs[k]? ≠ some (some (s, i))) ∧ Base r.heap hs its fs ps := by
    rcases hu.state with ⟨h1, h2⟩ | ⟨h1, h2⟩
    · refine ⟨r.iters.length, r.iters ++ [(r.heap n).content], ?_, ?_, ?_, hb.append _⟩
      · rw [openIter, if_pos h1]
      · rw [h2, itemsOf, if_neg hns]
        simp
      · intro k s hks
        have := hb.bound hks
        omega
    · obtain ⟨i, h3, h4, h5⟩ := h2 hns
      refine ⟨i, r.iters, ?_, h4, h5, hb⟩
      rw [openIter, if_neg (by simp [h1]), ← h3]
  have hvis : ∀ f, visitNode lib (f + 2) n r =
      processComplex lib (f + 1) { p with iter := some i } (r.heap n).content.length { r with iters := its } := by
    intro f
    rw [visitNode]
    rcases hk with hk | hk <;> simp only [hk, hr, hopen]
  have hnode := hu.node
  simp only [processComplex, hnode, hproc, swap, hr] at hvis
  cases hv : verdict lib (r.heap n) r.expecter with
  | deny =>
    simp only [hv, Bool.false_eq_true, if_false, Res.bind_ok] at hvis
    refine ⟨_, hvis, ⟨rfl, rfl, rfl, rfl⟩, ⟨hbase, by simp, hf, fun _ => ⟨rfl, _, rfl, rfl, rfl, hu.tree, hu.trees,
      .inr ⟨rfl, fun _ => ⟨i, rfl, hits, hi⟩⟩⟩, fun h => by simp [hv] at h, fun h => by simp [hv] at h⟩⟩
  | opens =>
    simp only [hv, if_true, Res.bind_ok, Option.map_some] at hvis
    exact ⟨_, hvis, ⟨rfl, rfl, rfl, rfl⟩, ⟨hbase, by simp, hf, fun h => by simp [hv] at h,
      fun h => by simp [hv] at h, fun _ => ⟨hd, _, i, rfl, rfl, rfl, hits, hi, rfl, rfl⟩⟩⟩
  | whole =>
    simp only [hv] at hvis
    have hx : Extracts r.expecter = false := by
      rcases verdict_whole hns hv with h | h | h <;> simp [h, Extracts]
    by_cases he : r.expecter = .any ∨ r.expecter = .raw
    · simp only [if_pos he, hx, Bool.false_eq_true, if_false, Res.bind_ok] at hvis
      refine ⟨_, hvis, ⟨rfl, rfl, rfl, rfl⟩, ⟨hbase, by simp, hf, fun h => by simp [hv] at h, fun _ => ⟨hd, fun h => ?_, ?_⟩,
        fun h => by simp [hv] at h⟩⟩
      · simp [hx] at h
      · rw [if_pos he]
        exact ⟨_, rfl, rfl⟩
    · simp only [if_neg he, hx, pop, Bool.false_eq_true, if_false, Res.bind_ok] at hvis
      refine ⟨_, hvis, ⟨rfl, rfl, rfl, rfl⟩, ⟨hbase, by simp, hf, fun h => by simp [hv] at h, fun _ => ⟨hd, fun h => ?_, ?_⟩,
        fun h => by simp [hv] at h⟩⟩
      · simp [hx] at h
      · rw [if_neg he]
        rfl

theorem visit_new {lib : RLib} {h : Heap} {hs : List Handle} {fs : List (Frame Nat)} {ps : List Point} {n : Nat}
    {items : List Nat} {r : Reader} {p : Point} (hh : r.heap = h) (hr : r.route = p :: ps)
    (hb : Base h hs r.iters fs ps) (hu : Unread h hs r.iters p n items) (hf : r.fatalError = none)
    (hd : r.latestDeny = none) :
    ∃ r', Conv (fun f => visitNode lib f n r) r' ∧ Same r r' ∧ Visited lib h hs fs ps n items r.expecter r' := by
  rcases tree_kind hu.tree with hk | hk
  · obtain ⟨r', h1, h2⟩ := visit_scalar (lib := lib) hh hr hb hu hf hd hk
    exact ⟨r', Conv.succ h1 (Conv.pure _), h2⟩
  · obtain ⟨r', h1, h2⟩ := visit_complex (lib := lib) hh hr hb hu hf hd hk
    exact ⟨r', Conv.succ (g' := fun f => visitNode lib (f + 1) n r) (fun _ => rfl) (Conv.succ h1 (Conv.pure _)), h2⟩

/-! ### The refinement -/

/-- The size a collection state reports. -/
def sizeOf : Handle → Nat
  | some (n, _) => n
  | none => 0

/-- The decoder and the collection states stand for the cursor. -/
structure Rel (h : Heap) (multi : Bool) (r : Reader) (hs : List Handle) (c : Cursor Nat) : Prop where
  heap : r.heap = h
  multi : r.multi = multi
  deny : r.latestDeny = none
  fatal : r.fatalError = c.fatal
  denied : r.denyErrors = c.denied
  sizes : hs.map sizeOf = c.sizes
  dead : c.fatal.isSome → Spent hs r.iters ∧ c.frames = []
  live : c.fatal = none → ∃ ps, Base h hs r.iters c.frames ps ∧
    (match c.pending with
      | none => r.route = ps
      | some (n, l) => ∃ p, r.route = p :: ps ∧ p.result.conclusion = .deny ∧ Unread h hs r.iters p n l)

/-- The collection states after a call which returned the noop state, if it returned one. -/
def addNoop (call : Call) (hs : List Handle) : List Handle := if opening call then hs ++ [none] else hs

theorem addNoop_sizes (call : Call) (hs : List Handle) : (addNoop call hs).map sizeOf = addSize call 0 (hs.map sizeOf) := by
  rw [addNoop, addSize]
  split <;> simp [sizeOf]

theorem addNoop_get (call : Call) {hs : List Handle} {k s i : Nat} (hk : (addNoop call hs)[k]? = some (some (s, i))) :
    hs[k]? = some (some (s, i)) := by
  rw [addNoop] at hk
  split at hk
  · by_cases hl : k < hs.length
    · rwa [List.getElem?_append_left hl] at hk
    · rw [List.getElem?_append_right (by omega)] at hk
      by_cases hz : k - hs.length = 0
      · simp [hz] at hk
      · rw [List.getElem?_eq_none (by simp; omega)] at hk
        cases hk
  · exact hk

theorem addNoop_mono (call : Call) {hs : List Handle} {k s i : Nat} (hk : hs[k]? = some (some (s, i))) :
    (addNoop call hs)[k]? = some (some (s, i)) := by
  rw [addNoop]
  split
  · rw [List.getElem?_append_left]
    · exact hk
    · exact (List.getElem?_eq_some_iff.mp hk).1
  · exact hk

theorem Base.noop {h : Heap} {hs : List Handle} {its : List (List Nat)} {fs : List (Frame Nat)} {ps : List Point}
    (hb : Base h hs its fs ps) (call : Call) : Base h (addNoop call hs) its fs ps :=
  ⟨hb.pts.congr fun _ hk => ⟨addNoop_mono call hk, rfl⟩, fun h1 h2 => hb.inj (addNoop_get call h1) (addNoop_get call h2),
    fun h1 => hb.bound (addNoop_get call h1), fun h1 => hb.closed (addNoop_get call h1)⟩

theorem Unread.noop {h : Heap} {hs : List Handle} {its : List (List Nat)} {p : Point} {n : Nat} {l : List Nat}
    (hu : Unread h hs its p n l) (call : Call) : Unread h (addNoop call hs) its p n l := by
  refine ⟨hu.node, hu.tree, hu.trees, ?_⟩
  rcases hu.state with h | ⟨h1, h2⟩
  · exact .inl h
  · refine .inr ⟨h1, fun hk => ?_⟩
    obtain ⟨i, h3, h4, h5⟩ := h2 hk
    exact ⟨i, h3, h4, fun k s hks => h5 k s (addNoop_get call hks)⟩

theorem appendError_fatal {r : Reader} {e : Err} (hf : r.fatalError = none) (he : (r.multi && e.isDeny) = false) :
    appendError (some e) r = setFatal (some e) r := by
  rw [appendError]
  simp [he, hf]

/-- After an error which ends decoding. -/
theorem rel_failed {lib : RLib} {h : Heap} {multi : Bool} {anyOf : Nat → Option GVal} {hs : List Handle} {c : Cursor Nat}
    {r0 : Reader} (hh : r0.heap = h) (hm : r0.multi = multi) (hd : r0.denyErrors = c.denied)
    (hs' : hs.map sizeOf = c.sizes) (hc : Covered hs r0.iters r0.route) (e : Err) (call : Call) (fs : List (Frame Nat)) :
    Rel h multi { setFatal (some e) r0 with latestDeny := none } (addNoop call hs)
      (failed (view lib h multi anyOf) call e fs c) := by
  refine ⟨hh, hm, rfl, rfl, hd, ?_, fun _ => ⟨?_, rfl⟩, fun h => nomatch h⟩
  · rw [addNoop_sizes, hs']
    rfl
  · intro k s i hk
    exact hc.spent (addNoop_get call hk)

/-- What visiting the current node gives. -/
theorem visit_current {lib : RLib} {h : Heap} {multi : Bool} {anyOf : Nat → Option GVal} {r : Reader} {hs : List Handle}
    {c : Cursor Nat} (hr : Rel h multi r hs c) (hf : c.fatal = none) {e : Expecter}
    {cur : Option (Nat × List Nat × List (Frame Nat))} (hcur : Current (view lib h multi anyOf) e c cur) :
    (cur = none → ∃ r', Conv (fun f => visitCurrent lib f { r with expecter := e }) (setFatal (some .endOfStream) r') ∧
      Same { r with expecter := e } r' ∧ r'.latestDeny = none ∧ Covered hs r'.iters r'.route) ∧
    (∀ n l fs, cur = some (n, l, fs) → ∃ r' ps, Conv (fun f => visitCurrent lib f { r with expecter := e }) r' ∧
      Same { r with expecter := e } r' ∧ Visited lib h hs fs ps n l e r' ∧ Tree h n) := by
  obtain ⟨ps, hb, hp⟩ := hr.live hf
  have hff : r.fatalError = none := hr.fatal.trans hf
  cases hcur with
  | @pending n l hpend =>
    rw [hpend] at hp
    obtain ⟨p, hp1, _, hp2⟩ := hp
    refine ⟨fun he => (nomatch he), ?_⟩
    intro n' l' fs he
    cases he
    obtain ⟨r', h1, h2, h3⟩ := visit_new (lib := lib) (r := { r with expecter := e }) hr.heap hp1 hb hp2 hff hr.deny
    refine ⟨r', ps, ?_, h2, h3, hp2.tree⟩
    refine Conv.succ (g' := fun f => visitNode lib f n { r with expecter := e }) (fun f => ?_) h1
    rw [visitCurrent]
    simp only [currentNode, hp1, List.head?_cons, Option.map_some, hp2.node]
  | @next n fs hpend hn =>
    rw [hpend] at hp
    refine ⟨fun he => (nomatch he), ?_⟩
    intro n' l' fs' he
    cases he
    obtain ⟨ht, r1, qs, h1, h2, h3, h4, h5, h6⟩ :=
      (settle (lib := lib) (hs := hs) (fun _ _ => rfl) hn { r with expecter := e } ps hr.heap hp hb).2 n fs rfl
    have hu : Unread h hs r1.iters { node := n } n (itemsOf h n) := ⟨rfl, ht, itemsOf_tree ht, .inl ⟨rfl, rfl⟩⟩
    obtain ⟨r', h7, h8, h9⟩ := visit_new (lib := lib) (h3.heap.trans hr.heap) h1 h2 hu (h4.trans hff) (h5.trans hr.deny)
    have he : r1.expecter = e := h3.expecter
    rw [he] at h9
    exact ⟨r', qs, h6 r' h7 h9.last, h3.trans h8, h9, ht⟩
  | done hpend hn =>
    rw [hpend] at hp
    refine ⟨fun _ => ?_, fun _ _ _ he => (nomatch he)⟩
    obtain ⟨r', h1, h2, h3, h4, h5, h6⟩ :=
      (settle (lib := lib) (hs := hs) (fun _ _ => rfl) hn { r with expecter := e } ps hr.heap hp hb).1 rfl
    refine ⟨r', ?_, h2, h5.trans hr.deny, by rw [h3]; exact h6⟩
    rw [← appendError_fatal (h4.trans hff) (by simp [Err.isDeny])]
    exact h1

/-- What `expect` gives: the call fails, or the node is read. -/
theorem expect_spec {lib : RLib} {h : Heap} {multi : Bool} {anyOf : Nat → Option GVal} {r : Reader} {hs : List Handle}
    {c : Cursor Nat} (hr : Rel h multi r hs c) (hf : c.fatal = none) {e : Expecter}
    {cur : Option (Nat × List Nat × List (Frame Nat))} (hcur : Current (view lib h multi anyOf) e c cur) :
    (∃ x, Conv (fun f => expect lib f e r) (false, x) ∧ ∀ call, call ≠ .tryNull →
      (react (view lib h multi anyOf) e c call cur).1 = zeroOf call ∧
      Rel h multi x (addNoop call hs) (react (view lib h multi anyOf) e c call cur).2) ∨
    (∃ x n l fs ps, cur = some (n, l, fs) ∧ Conv (fun f => expect lib f e r) (true, x) ∧
      Same { r with expecter := e } x ∧ Visited lib h hs fs ps n l e x ∧ verdict lib (h n) e ≠ .deny ∧ Tree h n) := by
  obtain ⟨h1, h2⟩ := visit_current hr hf hcur
  rcases cur with _ | ⟨n, l, fs⟩
  · left
    obtain ⟨r', h3, h4, h5, h6⟩ := h1 rfl
    refine ⟨{ setFatal (some .endOfStream) r' with latestDeny := none }, Conv.bind h3 ?_, fun call hc => ⟨rfl, ?_⟩⟩
    · refine Conv.congr (fun f => ?_) (Conv.pure _)
      simp [setFatal, appendError, h5]
    · exact rel_failed (h4.heap.trans hr.heap) (h4.multi.trans hr.multi) (h4.denyErrors.trans hr.denied) hr.sizes h6 _ _ _
  · obtain ⟨r', ps, h3, h4, h5, h6⟩ := h2 n l fs rfl
    by_cases hv : verdict lib (h n) e = .deny
    · left
      obtain ⟨h7, p', h8, h9, h10⟩ := h5.deny hv
      refine ⟨{ appendError (some (.deny e)) r' with latestDeny := none }, Conv.bind h3 ?_, fun call hc => ?_⟩
      · refine Conv.congr (fun f => ?_) (Conv.pure _)
        simp [h7]
      · have hv' : (view lib h multi anyOf).verdict e n = .deny := hv
        simp only [react, hv', if_neg hc]
        by_cases hm : multi = true
        · have hm' : (view lib h multi anyOf).multi = true := hm
          simp only [if_pos hm', true_and]
          have hr' : r'.multi = true := h4.multi.trans (hr.multi.trans hm)
          have ha : appendError (some (.deny e)) r' = { r' with denyErrors := r'.denyErrors ++ [.deny e] } := by
            simp [appendError, hr', Err.isDeny]
          rw [ha]
          refine ⟨h4.heap.trans hr.heap, h4.multi.trans hr.multi, rfl, h5.fatal.trans hf.symm, ?_, ?_, fun hd => ?_,
            fun _ => ⟨ps, h5.base.noop call, p', h8, h9, h10.noop call⟩⟩
          · show r'.denyErrors ++ _ = c.denied ++ _
            rw [h4.denyErrors]
            exact congrArg (· ++ _) hr.denied
          · rw [addNoop_sizes, hr.sizes]
          · simp [hf] at hd
        · have hm' : ¬ (view lib h multi anyOf).multi = true := hm
          simp only [if_neg hm', true_and]
          have hr' : r'.multi = false := h4.multi.trans (hr.multi.trans (by simpa using hm))
          rw [appendError_fatal h5.fatal (by simp [hr'])]
          refine rel_failed (h4.heap.trans hr.heap) (h4.multi.trans hr.multi) (h4.denyErrors.trans hr.denied) hr.sizes ?_ _ _ _
          intro k s i hk
          rcases h5.base.covered hk with h | ⟨p, hp, hi⟩
          · exact .inl h
          · exact .inr ⟨p, by rw [h8]; exact List.mem_cons_of_mem _ hp, hi⟩
    · right
      have hd : r'.latestDeny = none := by
        cases hx : verdict lib (h n) e with
        | deny => exact absurd hx hv
        | whole => exact (h5.whole hx).1
        | opens => exact (h5.opens hx).1
      refine ⟨r', n, l, fs, ps, rfl, Conv.bind h3 ?_, h4, h5, hv, h6⟩
      refine Conv.congr (fun f => ?_) (Conv.pure _)
      simp [hd, h5.fatal]

end Verif.GoyamlReader
