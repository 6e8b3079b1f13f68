import Verif.Model.Builder
import Verif.Spec.Protocol

/-! Lemmas about the builder of the yayamls engine. -/

set_option linter.unusedSimpArgs false

namespace Verif.Builder

open Verif.Ast Verif.Inserter Verif.Protocol

/-! ### Reading trees -/

mutual
theorem Reads.mono {h h' : List Cell} {P P' : Nat → Prop} (hP : ∀ a, P a → P' a)
    (hh : ∀ a c, P a → h[a]? = some c → h'[a]? = some c) {a : Nat} {n : Node} : Reads h P a n → Reads h' P' a n
  | .leaf p e => .leaf (hP _ p) (hh _ _ p e)
  | .seq p e r => .seq (hP _ p) (hh _ _ p e) (ReadsList.mono hP hh r)
  | .map p e r => .map (hP _ p) (hh _ _ p e) (ReadsList.mono hP hh r)
  | .entryNone p e r => .entryNone (hP _ p) (hh _ _ p e) (Reads.mono hP hh r)
  | .entry p e r s => .entry (hP _ p) (hh _ _ p e) (Reads.mono hP hh r) (Reads.mono hP hh s)

theorem ReadsList.mono {h h' : List Cell} {P P' : Nat → Prop} (hP : ∀ a, P a → P' a)
    (hh : ∀ a c, P a → h[a]? = some c → h'[a]? = some c) {as : List Nat} {ns : List Node} :
    ReadsList h P as ns → ReadsList h' P' as ns
  | .nil => .nil
  | .cons r s => .cons (Reads.mono hP hh r) (ReadsList.mono hP hh s)
end

mutual
theorem Reads.det {h : List Cell} {P Q : Nat → Prop} {a : Nat} {n m : Node} (h1 : Reads h P a n)
    (h2 : Reads h Q a m) : n = m := by
  cases h1 with
  | leaf _ e => cases h2 <;> simp_all
  | seq _ e r =>
    cases h2 with
    | seq _ e2 r2 => rw [e] at e2; cases e2; rw [ReadsList.det r r2]
    | _ => simp_all
  | map _ e r =>
    cases h2 with
    | map _ e2 r2 => rw [e] at e2; cases e2; rw [ReadsList.det r r2]
    | _ => simp_all
  | entryNone _ e r =>
    cases h2 with
    | entryNone _ e2 r2 => rw [e] at e2; cases e2; rw [Reads.det r r2]
    | _ => simp_all
  | entry _ e r s =>
    cases h2 with
    | entry _ e2 r2 s2 => rw [e] at e2; cases e2; rw [Reads.det r r2, Reads.det s s2]
    | _ => simp_all

theorem ReadsList.det {h : List Cell} {P Q : Nat → Prop} {as : List Nat} {ns ms : List Node}
    (h1 : ReadsList h P as ns) (h2 : ReadsList h Q as ms) : ns = ms := by
  cases h1 with
  | nil => cases h2; rfl
  | cons r s =>
    cases h2 with
    | cons r2 s2 => rw [Reads.det r r2, ReadsList.det s s2]
end

theorem Reads.self {h : List Cell} {P : Nat → Prop} {a : Nat} {n : Node} (hr : Reads h P a n) :
    P a ∧ a < h.length := by
  cases hr with
  | leaf p e => exact ⟨p, (List.getElem?_eq_some_iff.mp e).1⟩
  | seq p e _ => exact ⟨p, (List.getElem?_eq_some_iff.mp e).1⟩
  | map p e _ => exact ⟨p, (List.getElem?_eq_some_iff.mp e).1⟩
  | entryNone p e _ => exact ⟨p, (List.getElem?_eq_some_iff.mp e).1⟩
  | entry p e _ _ => exact ⟨p, (List.getElem?_eq_some_iff.mp e).1⟩

mutual
theorem Reads.bounded {h : List Cell} {P : Nat → Prop} {a : Nat} {n : Node} :
    Reads h P a n → Reads h (fun a => P a ∧ a < h.length) a n
  | .leaf p e => .leaf ⟨p, (List.getElem?_eq_some_iff.mp e).1⟩ e
  | .seq p e r => .seq ⟨p, (List.getElem?_eq_some_iff.mp e).1⟩ e (ReadsList.bounded r)
  | .map p e r => .map ⟨p, (List.getElem?_eq_some_iff.mp e).1⟩ e (ReadsList.bounded r)
  | .entryNone p e r => .entryNone ⟨p, (List.getElem?_eq_some_iff.mp e).1⟩ e (Reads.bounded r)
  | .entry p e r s => .entry ⟨p, (List.getElem?_eq_some_iff.mp e).1⟩ e (Reads.bounded r) (Reads.bounded s)

theorem ReadsList.bounded {h : List Cell} {P : Nat → Prop} {as : List Nat} {ns : List Node} :
    ReadsList h P as ns → ReadsList h (fun a => P a ∧ a < h.length) as ns
  | .nil => .nil
  | .cons r s => .cons (Reads.bounded r) (ReadsList.bounded s)
end

theorem ReadsList.append {h : List Cell} {P : Nat → Prop} {as bs : List Nat} {ns ms : List Node}
    (h1 : ReadsList h P as ns) (h2 : ReadsList h P bs ms) : ReadsList h P (as ++ bs) (ns ++ ms) := by
  induction as generalizing ns with
  | nil => cases h1; simpa using h2
  | cons a as ih =>
    cases h1 with
    | cons r s => exact .cons r (ih s)

/-! ### Loading parsed trees -/

theorem getElem?_append_old {h : List Cell} {t : List Cell} {a : Nat} {c : Cell} (e : h[a]? = some c) :
    (h ++ t)[a]? = some c := by
  have := (List.getElem?_eq_some_iff.mp e).1
  rw [List.getElem?_append_left this, e]

mutual
theorem load_spec (h : List Cell) (n : Node) :
    (∃ t, (load h n).2 = h ++ t) ∧ Reads (load h n).2 (fun a => h.length ≤ a) (load h n).1 n := by
  cases n with
  | sequence es =>
    obtain ⟨⟨t, ht⟩, hr⟩ := loadList_spec h es
    rw [load]
    refine ⟨⟨t ++ [.seq (loadList h es).1], by simp [ht]⟩, ?_⟩
    refine .seq (as := (loadList h es).1) (by simp [ht]) (by simp) ?_
    exact hr.mono (fun _ p => p) (fun _ _ _ e => getElem?_append_old e)
  | mapping es =>
    obtain ⟨⟨t, ht⟩, hr⟩ := loadList_spec h es
    rw [load]
    refine ⟨⟨t ++ [.map (loadList h es).1], by simp [ht]⟩, ?_⟩
    refine .map (as := (loadList h es).1) (by simp [ht]) (by simp) ?_
    exact hr.mono (fun _ p => p) (fun _ _ _ e => getElem?_append_old e)
  | mappingEntry k v =>
    obtain ⟨⟨t, ht⟩, hr⟩ := load_spec h k
    obtain ⟨⟨t2, ht2⟩, hr2⟩ := load_spec (load h k).2 v
    by_cases hv : v = .nil
    · subst hv
      rw [load]
      refine ⟨⟨t ++ [.entry (load h k).1 none], by simp [ht]⟩, ?_⟩
      refine .entryNone (k := (load h k).1) (by simp [ht]) (by simp) ?_
      exact hr.mono (fun _ p => p) (fun _ _ _ e => getElem?_append_old e)
    · have e : load h (.mappingEntry k v) =
          ((load (load h k).2 v).2.length,
            (load (load h k).2 v).2 ++ [.entry (load h k).1 (some (load (load h k).2 v).1)]) := by
        cases v <;> first | exact absurd rfl hv | simp [load]
      rw [e]
      refine ⟨⟨t ++ (t2 ++ [.entry (load h k).1 (some (load (load h k).2 v).1)]), ?_⟩, ?_⟩
      · have e3 := congrArg (· ++ t2) ht
        simp only [← List.append_assoc, ← e3, ht2]
      refine .entry (k := (load h k).1) (v := (load (load h k).2 v).1) ?_ (by simp) ?_ ?_
      · have e3 := congrArg List.length ht
        have e4 := congrArg List.length ht2
        simp only [List.length_append] at e3 e4
        show h.length ≤ (load (load h k).2 v).2.length
        omega
      · refine hr.mono (fun _ p => p) (fun _ _ _ e => getElem?_append_old ?_)
        rw [ht2]
        exact getElem?_append_old e
      · refine hr2.mono (fun a p => ?_) (fun _ _ _ e => getElem?_append_old e)
        have : h.length ≤ (load h k).2.length := by simp [ht]
        omega
  | _ => exact ⟨⟨_, rfl⟩, .leaf (by simp [load]) (by simp [load])⟩

theorem loadList_spec (h : List Cell) (ns : List Node) :
    (∃ t, (loadList h ns).2 = h ++ t) ∧
      ReadsList (loadList h ns).2 (fun a => h.length ≤ a) (loadList h ns).1 ns := by
  cases ns with
  | nil => exact ⟨⟨[], by simp [loadList]⟩, .nil⟩
  | cons n ns =>
    obtain ⟨⟨t, ht⟩, hr⟩ := load_spec h n
    obtain ⟨⟨t2, ht2⟩, hr2⟩ := loadList_spec (load h n).2 ns
    rw [loadList]
    refine ⟨⟨t ++ t2, ?_⟩, .cons ?_ ?_⟩
    · have e3 := congrArg (· ++ t2) ht
      simp only [← List.append_assoc, ← e3, ht2]
    · refine hr.mono (fun _ p => p) (fun _ _ _ e => ?_)
      simp only [ht2]
      exact getElem?_append_old e
    · refine hr2.mono (fun a p => ?_) (fun _ _ _ e => e)
      have : h.length ≤ (load h n).2.length := by simp [ht]
      omega
end

/-! ### Inserting a node into an unfinished collection -/

/-- The cells which take further nodes. -/
def Cell.accepts : Cell → Prop
  | .leaf _ => False
  | _ => True

/-- What an insertion of `n` does to the current cell `cell` at `c`; the route was `c :: r` and becomes `rt`; new cells
are at addresses from `L` on. -/
def Attached (L : Nat) (cell : Cell) (c : Nat) (r : List Nat) (n : Nat) (h : List Cell) (rt : List Nat) : Prop :=
  match cell with
  | .seq es => rt = c :: r ∧ h[c]? = some (.seq (es ++ [n]))
  | .map es => ∃ e, L ≤ e ∧ e ≠ n ∧ rt = e :: c :: r ∧ h[c]? = some (.map (es ++ [e])) ∧ h[e]? = some (.entry n none)
  | .entry k _ => rt = r ∧ h[c]? = some (.entry k (some n))
  | .leaf _ => False

/-- The parts of the state which an insertion below the cell `c` keeps. -/
structure Keeps (b b' : Builder) (c : Nat) : Prop where
  noErr : b'.fatalError = none
  root : b'.root = b.root
  opts : b'.unquoteOneliners = b.unquoteOneliners
  grows : b.heap.length ≤ b'.heap.length
  frame : ∀ a, a < b.heap.length → a ≠ c → b'.heap[a]? = b.heap[a]?

theorem currentNode_eq {b : Builder} {c : Nat} {r : List Nat} {cell : Cell} (hr : b.route = c :: r)
    (hc : b.heap[c]? = some cell) (ha : cell.accepts) : currentNode b = some (c, cell) := by
  cases cell <;> simp_all [currentNode, Cell.type, Cell.accepts]

theorem insertNode_into {b : Builder} {c : Nat} {r : List Nat} {cell : Cell} (n : Nat) (push : Bool)
    (he : b.fatalError = none) (hr : b.route = c :: r) (hc : b.heap[c]? = some cell) (ha : cell.accepts)
    (hn : n < b.heap.length) :
    ∃ rt, Keeps b (insertNode b n push) c ∧ (insertNode b n push).route = (if push then n :: rt else rt) ∧
      Attached b.heap.length cell c r n (insertNode b n push).heap rt := by
  have hcl := (List.getElem?_eq_some_iff.mp hc).1
  have hcur := currentNode_eq hr hc ha
  cases cell with
  | leaf l => exact absurd ha (by simp [Cell.accepts])
  | seq es =>
    refine ⟨c :: r, ⟨?_, ?_, ?_, ?_, ?_⟩, ?_, ?_⟩ <;> cases push <;>
      simp [insertNode, he, hcur, pushNode, Attached, hr, hcl] <;>
      (intro a _ hne; rw [List.getElem?_set_ne (Ne.symm hne)])
  | map es =>
    have eq : insertNode b n push =
        { b with
          heap := (b.heap ++ [Cell.entry n none]).set c (.map (es ++ [b.heap.length]))
          route := if push then n :: b.heap.length :: c :: r else b.heap.length :: c :: r } := by
      cases push <;> simp [insertNode, he, hcur, pushNode, hr, alloc]
    have h2 : c ≠ b.heap.length := by omega
    rw [eq]
    refine ⟨b.heap.length :: c :: r, ⟨he, rfl, rfl, by simp, ?_⟩, rfl, ?_⟩
    · intro a ha hne
      simp only
      rw [List.getElem?_set_ne (Ne.symm hne), List.getElem?_append_left ha]
    · refine ⟨b.heap.length, Nat.le_refl _, by omega, rfl, ?_, ?_⟩
      · simp only
        rw [List.getElem?_set_self (by simp; omega)]
      · simp only
        rw [List.getElem?_set_ne h2]
        simp
  | entry k v =>
    refine ⟨r, ⟨?_, ?_, ?_, ?_, ?_⟩, ?_, ?_⟩ <;> cases push <;>
      simp [insertNode, he, hcur, pushNode, popNode, Attached, hr, hcl] <;>
      (intro a _ hne; rw [List.getElem?_set_ne (Ne.symm hne)])

theorem Attached.keep {L : Nat} {cell : Cell} {c : Nat} {r : List Nat} {n : Nat} {h h' : List Cell} {rt : List Nat}
    (ha : Attached L cell c r n h rt) (hc : c ≠ n)
    (hh : ∀ a, a < h.length → a ≠ n → h'[a]? = h[a]?) : Attached L cell c r n h' rt := by
  have key : ∀ {a cl}, a ≠ n → h[a]? = some cl → h'[a]? = some cl := by
    intro a cl hne e
    rw [hh a (List.getElem?_eq_some_iff.mp e).1 hne, e]
  cases cell with
  | leaf _ => exact ha
  | seq es => exact ⟨ha.1, key hc ha.2⟩
  | map es =>
    obtain ⟨e, h1, h2, h3, h4, h5⟩ := ha
    exact ⟨e, h1, h2, h3, key hc h4, key h2 h5⟩
  | entry k v => exact ⟨ha.1, key hc ha.2⟩

theorem Attached.weaken {L L' : Nat} {cell : Cell} {c : Nat} {r : List Nat} {n : Nat} {h : List Cell}
    {rt : List Nat} (ha : Attached L cell c r n h rt) (hL : L' ≤ L) : Attached L' cell c r n h rt := by
  cases cell with
  | leaf _ => exact ha
  | seq es => exact ha
  | map es =>
    obtain ⟨e, h1, h2, h3, h4, h5⟩ := ha
    exact ⟨e, by omega, h2, h3, h4, h5⟩
  | entry k v => exact ha

/-- The route after an insertion: old addresses, or addresses of new cells other than the inserted one. -/
theorem Attached.route {L : Nat} {cell : Cell} {c : Nat} {r : List Nat} {n : Nat} {h : List Cell}
    {rt : List Nat} (ha : Attached L cell c r n h rt) {a : Nat} (hm : a ∈ rt) :
    a ∈ c :: r ∨ (a ≠ n ∧ a < h.length ∧ L ≤ a) := by
  cases cell with
  | leaf _ => exact ha.elim
  | seq es => left; rw [← ha.1]; exact hm
  | map es =>
    obtain ⟨e, h1, h2, h3, h4, h5⟩ := ha
    rw [h3] at hm
    rcases List.mem_cons.mp hm with rfl | hm
    · exact .inr ⟨h2, (List.getElem?_eq_some_iff.mp h5).1, h1⟩
    · exact .inl hm
  | entry k v => left; rw [← ha.1]; exact List.mem_cons_of_mem _ hm

theorem run_append (b : Builder) (cs ds : List (Call Node)) : run b (cs ++ ds) = run (run b cs) ds := by
  simp [run, List.foldl_append]

theorem run_cons (b : Builder) (c : Call Node) (cs : List (Call Node)) : run b (c :: cs) = run (step b c) cs := rfl

theorem run_nil (b : Builder) : run b [] = b := rfl

theorem scalarNode_eq (u : Bool) (s : Scalar) : scalarNode u s = scalarTree u s := by
  cases s <;> simp [scalarNode, scalarTree, Scalar.text, Schema.fromBoolean, isMultiline]

theorem insertNode_opts (b : Builder) (n : Nat) (push : Bool) :
    (insertNode b n push).unquoteOneliners = b.unquoteOneliners := by
  unfold insertNode
  split
  · rfl
  · split
    · rfl
    · rename_i a c _
      cases c <;> cases push <;> rfl

theorem insertCell_opts (b : Builder) (x : Cell) (push : Bool) :
    (insertCell b x push).unquoteOneliners = b.unquoteOneliners := insertNode_opts _ _ _

/-- Raw trees which `InsertRaw` takes. -/
def RawOk (n : Node) : Prop := n.type? ≠ some .stream

/-- `b'` is `b` after a node showing the tree `t` was attached to the current cell. -/
def Inserted (b b' : Builder) (cell : Cell) (c : Nat) (r : List Nat) (t : Node) : Prop :=
  ∃ n, Keeps b b' c ∧ b.heap.length ≤ n ∧ Attached b.heap.length cell c r n b'.heap b'.route ∧
    Reads b'.heap (fun a => b.heap.length ≤ a ∧ a ∉ b'.route) n t

/-- A collection node is attached, filled, and taken from the route again. -/
theorem collection_into {b b2 b3 : Builder} {c : Nat} {r : List Nat} {cell x : Cell} {t : Node}
    (he : b.fatalError = none) (hr : b.route = c :: r) (hc : b.heap[c]? = some cell) (ha : cell.accepts)
    (hroute : ∀ a ∈ b.route, a < b.heap.length)
    (hfill : ∀ b1 rt, b1 = insertCell b x true → b1.fatalError = none → b1.route = b.heap.length :: rt →
      b1.heap[b.heap.length]? = some x → (∀ a ∈ b1.route, a < b1.heap.length) → b.heap.length < b1.heap.length →
      b.heap.length ∉ rt → Keeps b1 b2 b.heap.length ∧ b3 = popNode b2 ∧ b2.route = b1.route ∧
        Reads b2.heap (fun a => b.heap.length ≤ a ∧ a ∉ rt) b.heap.length t) :
    Inserted b b3 cell c r t := by
  have hcl := (List.getElem?_eq_some_iff.mp hc).1
  have hc0 : (alloc b x).2.heap[c]? = some cell := getElem?_append_old hc
  obtain ⟨rt, hk, hrt, hat⟩ := insertNode_into (b := (alloc b x).2) b.heap.length true he hr hc0 ha
    (by simp [alloc])
  have hb1 : insertNode (alloc b x).2 b.heap.length true = insertCell b x true := rfl
  rw [hb1] at hk hrt hat
  simp only [if_true] at hrt
  have hlen : (alloc b x).2.heap.length = b.heap.length + 1 := by simp [alloc]
  have hgrow := hk.grows
  rw [hlen] at hgrow
  have hx : (insertCell b x true).heap[b.heap.length]? = some x := by
    rw [hk.frame _ (by omega) (by omega)]
    simp [alloc]
  have hroute1 : ∀ a ∈ (insertCell b x true).route, a < (insertCell b x true).heap.length := by
    intro a hm
    rw [hrt] at hm
    rcases List.mem_cons.mp hm with rfl | hm
    · omega
    · rcases hat.route hm with h | ⟨_, h, _⟩
      · have := hroute a (by rw [hr]; exact h)
        omega
      · exact h
  have hnotin : b.heap.length ∉ rt := by
    intro hm
    rcases hat.route hm with h | ⟨h, _, _⟩
    · have := hroute _ (by rw [hr]; exact h)
      omega
    · exact h rfl
  obtain ⟨hk2, rfl, hrt2, hreads⟩ := hfill _ rt rfl hk.noErr hrt hx hroute1 (by omega) hnotin
  refine ⟨b.heap.length, ⟨hk2.noErr, ?_, ?_, ?_, ?_⟩, Nat.le_refl _, ?_, ?_⟩
  · exact hk2.root.trans hk.root
  · exact hk2.opts.trans hk.opts
  · have := hk2.grows
    simp only [popNode]
    omega
  · intro a hlt hne
    simp only [popNode]
    rw [hk2.frame a (by omega) (by omega), hk.frame a (by omega) hne]
    simp [alloc, List.getElem?_append_left hlt]
  · simp only [popNode, hrt2, hrt, List.tail_cons]
    exact (hat.weaken (by omega)).keep (by omega) hk2.frame
  · simp only [popNode, hrt2, hrt, List.tail_cons]
    exact hreads

mutual
theorem value_into (v : Value Node) (hraw : ∀ n ∈ raws v, RawOk n) {b : Builder} {c : Nat} {r : List Nat}
    {cell : Cell} (he : b.fatalError = none) (hr : b.route = c :: r) (hc : b.heap[c]? = some cell) (ha : cell.accepts)
    (hroute : ∀ a ∈ b.route, a < b.heap.length) :
    Inserted b (run b (calls v)) cell c r (tree b.unquoteOneliners v) := by
  have hcl := (List.getElem?_eq_some_iff.mp hc).1
  cases v with
  | scalar s =>
    have hb : run b (calls (.scalar s)) =
        insertNode (alloc b (.leaf (scalarNode b.unquoteOneliners s))).2 b.heap.length false := rfl
    rw [hb, tree, ← scalarNode_eq]
    generalize hx : Cell.leaf (scalarNode b.unquoteOneliners s) = x
    have hc0 : (alloc b x).2.heap[c]? = some cell := getElem?_append_old hc
    obtain ⟨rt, hk, hrt, hat⟩ := insertNode_into (b := (alloc b x).2) b.heap.length false he hr hc0 ha (by simp [alloc])
    simp only [Bool.false_eq_true, if_false] at hrt
    subst hrt
    have hlen : (alloc b x).2.heap.length = b.heap.length + 1 := by simp [alloc]
    have hgrow := hk.grows
    refine ⟨b.heap.length, ⟨hk.noErr, hk.root, hk.opts, by omega, ?_⟩, Nat.le_refl _, hat.weaken (by omega), ?_⟩
    · intro a hlt hne
      rw [hk.frame a (by omega) hne]
      simp [alloc, List.getElem?_append_left hlt]
    · refine .leaf ⟨Nat.le_refl _, ?_⟩ ?_
      · intro hm
        rcases hat.route hm with h | ⟨h, _, _⟩
        · have := hroute _ (by rw [hr]; exact h)
          omega
        · exact h rfl
      · rw [hk.frame _ (by omega) (by omega), ← hx]
        simp [alloc]
  | raw n =>
    have hn : RawOk n := hraw n (by simp [raws])
    have hb : run b (calls (.raw n)) =
        insertNode { b with heap := (load b.heap n).2 } (load b.heap n).1 false := by
      simp only [calls, run, List.foldl_cons, List.foldl_nil, step, insertRaw, he, Option.isSome_none,
        Bool.false_eq_true, if_false]
      rw [if_neg hn]
    rw [hb, tree]
    obtain ⟨⟨t, ht⟩, hreads⟩ := load_spec b.heap n
    generalize hL : load b.heap n = p at *
    obtain ⟨a0, h0⟩ := p
    simp only at ht hreads ⊢
    have ha0 := hreads.self
    have hlen : h0.length = b.heap.length + t.length := by simp [ht]
    have hc0 : ({ b with heap := h0 } : Builder).heap[c]? = some cell := by
      simp only [ht]
      exact getElem?_append_old hc
    obtain ⟨rt, hk, hrt, hat⟩ := insertNode_into (b := { b with heap := h0 }) a0 false he hr hc0 ha ha0.2
    simp only [Bool.false_eq_true, if_false] at hrt
    subst hrt
    have hgrow := hk.grows
    simp only at hgrow
    refine ⟨a0, ⟨hk.noErr, hk.root, hk.opts, by omega, ?_⟩, ha0.1, hat.weaken (by simp only; omega), ?_⟩
    · intro a hlt hne
      rw [hk.frame a (by simp only; omega) hne]
      simp only [ht]
      rw [List.getElem?_append_left hlt]
    · have hold : ∀ a, b.heap.length ≤ a → a < h0.length →
          a ∉ (insertNode { b with heap := h0 } a0 false).route := by
        intro a h1 h2 hm
        rcases hat.route hm with h | ⟨_, _, h⟩
        · have := hroute _ (by rw [hr]; exact h)
          omega
        · simp only at h
          omega
      have h1 : Reads h0 (fun a => b.heap.length ≤ a ∧ a < h0.length) a0 n := hreads.bounded
      refine h1.mono (fun a p => ⟨p.1, hold a p.1 p.2⟩) (fun a cl p e => ?_)
      rw [hk.frame a p.2 (by omega)]
      exact e
  | seq vs =>
    rw [show run b (calls (.seq vs)) = run (run (insertCell b (.seq []) true) (callsValues vs)) [.endSequence] by
      simp [calls, run_cons, run_append, step], tree]
    refine collection_into (x := .seq []) (b2 := run (insertCell b (.seq []) true) (callsValues vs)) he hr hc ha hroute ?_
    intro b1 rt hb1 he1 hr1 hx hroute1 hlt hnin
    have hu : b1.unquoteOneliners = b.unquoteOneliners := by rw [hb1]; exact insertCell_opts _ _ _
    obtain ⟨ns, hk, hrt, hcell, hreads⟩ := values_into vs (fun n hn => hraw n (by simpa [raws] using hn)) he1 hr1 hx
      hroute1
    rw [← hb1]
    refine ⟨hk, ?_, hrt, ?_⟩
    · have hcur : currentNode (run b1 (callsValues vs)) = some (b.heap.length, .seq ([] ++ ns)) :=
        currentNode_eq (hrt.trans hr1) hcell trivial
      rw [run_cons, run_nil]
      simp [step, endSequence, hk.noErr, hcur]
    · refine .seq ⟨Nat.le_refl _, hnin⟩ hcell ?_
      rw [hu] at hreads
      refine hreads.mono (fun a p => ⟨by omega, fun hm => p.2 (by rw [hr1]; exact List.mem_cons_of_mem _ hm)⟩)
        (fun _ _ _ e => e)
  | map es =>
    rw [show run b (calls (.map es)) = run (run (insertCell b (.map []) true) (callsEntries es)) [.endMapping] by
      simp [calls, run_cons, run_append, step], tree]
    refine collection_into (x := .map []) (b2 := run (insertCell b (.map []) true) (callsEntries es)) he hr hc ha hroute ?_
    intro b1 rt hb1 he1 hr1 hx hroute1 hlt hnin
    have hu : b1.unquoteOneliners = b.unquoteOneliners := by rw [hb1]; exact insertCell_opts _ _ _
    obtain ⟨ns, hk, hrt, hcell, hreads⟩ := entries_into es (fun n hn => hraw n (by simpa [raws] using hn)) he1 hr1 hx
      hroute1
    rw [← hb1]
    refine ⟨hk, ?_, hrt, ?_⟩
    · have hcur : currentNode (run b1 (callsEntries es)) = some (b.heap.length, .map ([] ++ ns)) :=
        currentNode_eq (hrt.trans hr1) hcell trivial
      rw [run_cons, run_nil]
      simp [step, endMapping, hk.noErr, hcur]
    · refine .map ⟨Nat.le_refl _, hnin⟩ hcell ?_
      rw [hu] at hreads
      refine hreads.mono (fun a p => ⟨by omega, fun hm => p.2 (by rw [hr1]; exact List.mem_cons_of_mem _ hm)⟩)
        (fun _ _ _ e => e)

theorem values_into (vs : Values Node) (hraw : ∀ n ∈ rawsValues vs, RawOk n) {b : Builder} {c : Nat} {r : List Nat}
    {es : List Nat} (he : b.fatalError = none) (hr : b.route = c :: r) (hc : b.heap[c]? = some (.seq es))
    (hroute : ∀ a ∈ b.route, a < b.heap.length) :
    ∃ ns, Keeps b (run b (callsValues vs)) c ∧ (run b (callsValues vs)).route = b.route ∧
      (run b (callsValues vs)).heap[c]? = some (.seq (es ++ ns)) ∧
      ReadsList (run b (callsValues vs)).heap (fun a => b.heap.length ≤ a ∧ a ∉ b.route) ns
        (trees b.unquoteOneliners vs) := by
  cases vs with
  | nil => exact ⟨[], ⟨he, rfl, rfl, Nat.le_refl _, fun _ _ _ => rfl⟩, rfl, by simpa [run, callsValues] using hc, .nil⟩
  | cons v vs =>
    have hcl := (List.getElem?_eq_some_iff.mp hc).1
    simp only [rawsValues, List.mem_append] at hraw
    obtain ⟨n, hk, hn, hat, hreads⟩ := value_into v (fun m hm => hraw m (.inl hm)) he hr hc trivial hroute
    rw [callsValues, run_append, trees]
    generalize run b (calls v) = b1 at *
    have hg := hk.grows
    have hrt1 : b1.route = b.route := by rw [hat.1, hr]
    obtain ⟨ns, hk2, hrt2, hcell, hreads2⟩ := values_into vs (fun m hm => hraw m (.inr hm)) hk.noErr hat.1 hat.2
      (fun a hm => by have := hroute a (by rw [← hrt1]; exact hm); omega)
    have hg2 := hk2.grows
    refine ⟨n :: ns, ⟨hk2.noErr, hk2.root.trans hk.root, hk2.opts.trans hk.opts, by omega, ?_⟩, hrt2.trans hrt1,
      by simpa using hcell, .cons ?_ ?_⟩
    · intro a hlt hne
      rw [hk2.frame a (by omega) hne, hk.frame a hlt hne]
    · refine hreads.bounded.mono (fun a p => by rw [← hrt1]; exact p.1) (fun a cl p e => ?_)
      rw [hk2.frame a p.2 (fun h => p.1.2 (by rw [hat.1, h]; simp)), e]
    · rw [hk.opts] at hreads2
      exact hreads2.mono (fun a p => by rw [← hrt1]; exact ⟨by omega, p.2⟩) (fun _ _ _ e => e)

theorem entries_into (es : Entries Node) (hraw : ∀ n ∈ rawsEntries es, RawOk n) {b : Builder} {c : Nat}
    {r : List Nat} {as : List Nat} (he : b.fatalError = none) (hr : b.route = c :: r)
    (hc : b.heap[c]? = some (.map as)) (hroute : ∀ a ∈ b.route, a < b.heap.length) :
    ∃ ns, Keeps b (run b (callsEntries es)) c ∧ (run b (callsEntries es)).route = b.route ∧
      (run b (callsEntries es)).heap[c]? = some (.map (as ++ ns)) ∧
      ReadsList (run b (callsEntries es)).heap (fun a => b.heap.length ≤ a ∧ a ∉ b.route) ns
        (entryTrees b.unquoteOneliners es) := by
  cases es with
  | nil => exact ⟨[], ⟨he, rfl, rfl, Nat.le_refl _, fun _ _ _ => rfl⟩, rfl, by simpa [run, callsEntries] using hc, .nil⟩
  | cons k v es =>
    have hcl := (List.getElem?_eq_some_iff.mp hc).1
    simp only [rawsEntries, List.mem_append] at hraw
    obtain ⟨nk, hk, hnk, ⟨e, hLe, hene, hrt1, hmap1, hent1⟩, hreads⟩ :=
      value_into k (fun m hm => hraw m (.inl hm)) he hr hc trivial hroute
    rw [callsEntries, run_append, run_append, entryTrees]
    generalize run b (calls k) = b1 at *
    have hel := (List.getElem?_eq_some_iff.mp hent1).1
    have hg := hk.grows
    obtain ⟨nv, hk2, hnv, ⟨hrt2, hent2⟩, hreads2⟩ :=
      value_into v (fun m hm => hraw m (.inr (.inl hm))) hk.noErr hrt1 hent1 trivial
        (fun a hm => by
          rw [hrt1] at hm
          rcases List.mem_cons.mp hm with rfl | hm
          · exact hel
          · have := hroute a (by rw [hr]; exact hm)
            omega)
    generalize run b1 (calls v) = b2 at *
    have hg2 := hk2.grows
    have hmap2 : b2.heap[c]? = some (.map (as ++ [e])) := by rw [hk2.frame c (by omega) (by omega), hmap1]
    obtain ⟨ns, hk3, hrt3, hcell, hreads3⟩ := entries_into es (fun m hm => hraw m (.inr (.inr hm))) hk2.noErr hrt2
      hmap2 (fun a hm => by
        have := hroute a (by rw [hr, ← hrt2]; exact hm)
        omega)
    have hg3 := hk3.grows
    have hec : e ∉ b.route := fun hm => by
      have := hroute e hm
      omega
    refine ⟨e :: ns, ⟨hk3.noErr, ?_, ?_, by omega, ?_⟩, ?_, by simpa using hcell, .cons ?_ ?_⟩
    · exact hk3.root.trans (hk2.root.trans hk.root)
    · exact hk3.opts.trans (hk2.opts.trans hk.opts)
    · intro a hlt hne
      rw [hk3.frame a (by omega) hne, hk2.frame a (by omega) (by omega), hk.frame a hlt hne]
    · rw [hrt3, hrt2, hr]
    · refine .entry (k := nk) (v := nv) ⟨hLe, hec⟩ ?_ ?_ ?_
      · rw [hk3.frame e (by omega) (by omega), hent2]
      · refine hreads.bounded.mono (fun a p => ⟨p.1.1, fun hm => p.1.2 (by
          rw [hrt1, ← hr]; exact List.mem_cons_of_mem _ hm)⟩) (fun a cl p e' => ?_)
        have h1 : a ≠ e := fun h => p.1.2 (by rw [hrt1, h]; simp)
        have h2 : a ≠ c := fun h => p.1.2 (by rw [hrt1, h]; simp)
        rw [hk3.frame a (by omega) h2, hk2.frame a (by omega) h1, e']
      · rw [hk.opts] at hreads2
        refine hreads2.bounded.mono (fun a p => ⟨by omega, fun hm => p.1.2 (by rw [hrt2, ← hr]; exact hm)⟩)
          (fun a cl p e' => ?_)
        have h2 : a ≠ c := fun h => p.1.2 (by rw [hrt2, h]; simp)
        rw [hk3.frame a (by omega) h2, e']
    · rw [hk2.opts, hk.opts] at hreads3
      refine hreads3.mono (fun a p => ⟨by omega, fun hm => p.2 (by rw [hrt2, ← hr]; exact hm)⟩) (fun _ _ _ e => e)
end

end Verif.Builder
