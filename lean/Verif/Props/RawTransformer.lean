import Verif.Lemmas.RawTransformer

/-!
C34: `Raw()` of the goyaml engine leaves the document as it was.
-/

namespace Verif.Props.RawTransformer

open Verif.Goyaml Verif.RawTransformer

/-- C34.  In graphs in which no alias stands for an alias (the parser of yaml.v3 makes no others), whenever the
transformation ends, every node of the memory is as before after the restoration. -/
theorem raw_restores {h : Heap} (hc : NoChain h) {f n m : Nat} {seen after : Heap}
    (he : rawTransform f n h = .ok ((m, seen), after)) : after = h := by
  rw [rawTransform, Res.bind_eq_ok] at he
  obtain ⟨⟨m', rt⟩, h1, h2⟩ := he
  cases h2
  rw [transform, Res.bind_eq_ok] at h1
  obtain ⟨rt', h1, h2⟩ := h1
  have hrt : rt' = rt := by
    split at h2
    · split at h2
      · cases h2
      · cases h2
        rfl
    · cases h2
      rfl
  subst hrt
  have hc' : NoChain (setAnchor h n []) := by
    intro a t ha ht
    rw [(setAnchor_kind _ _ _ _).1] at ha ⊢
    rw [(setAnchor_kind _ _ _ _).2] at ht
    exact hc a t ha ht
  have hi : Inv (setAnchor h n []) rt' := visit_inv hc' f n _ _ (Inv.init _ _ _) h1
  have ht : rt'.topLevelAnchor = (h n).anchor := visit_top f n _ _ h1
  funext p
  have hcont : (restore n rt' p).content = (h p).content := by
    rw [restore, restoreAll_content (h0 := h) rt'.dereferenced]
    · intro d hd
      rw [← setAnchor_content h n []]
      exact hi.recd d hd
    · intro q
      rw [setAnchor_content, hi.len, setAnchor_content]
    · intro q i
      rw [setAnchor_content, ← setAnchor_content h n []]
      exact hi.pos q i
  refine cell_ext hcont ?_
  rw [restore, restoreAll_fields]
  have hs := hi.same p
  by_cases hp : p = n
  · subst hp
    rw [setAnchor_self] at hs ⊢
    rw [ht]
    have hx : rt'.heap p = { h p with anchor := [], content := (rt'.heap p).content } := by
      cases hq : rt'.heap p
      rw [hq] at hs
      simp only [withContent, setAnchor_content, Cell.mk.injEq] at hs
      simp only [hs]
    rw [hx]
    rfl
  · rw [setAnchor_other hp] at hs ⊢
    exact hs

/-- C34.  In acyclic graphs the transformation ends without a panic (and so restores the memory). -/
theorem raw_ends {h : Heap} {rank : Nat → Nat} (hr : Ranked h rank) (hc : NoChain h) (n : Nat) :
    ∃ m seen, Conv (fun f => rawTransform f n h) ((m, seen), h) := by
  have hc' : NoChain (setAnchor h n []) := by
    intro a t ha ht
    rw [(setAnchor_kind _ _ _ _).1] at ha ⊢
    rw [(setAnchor_kind _ _ _ _).2] at ht
    exact hc a t ha ht
  have hr' : Ranked (setAnchor h n []) rank := by
    constructor
    · intro p c hm
      rw [setAnchor_content] at hm
      exact hr.child p c hm
    · intro a ha
      rw [(setAnchor_kind _ _ _ _).1] at ha
      rw [(setAnchor_kind _ _ _ _).2]
      exact hr.alias a ha
  have conv : ∀ f, rank n < f → ∃ r, rawTransform f n h = .ok r := by
    intro f hf
    obtain ⟨rt, h1, hi, _⟩ := visit_ok hr' hc' f n { newRawTransformer h with topLevelAnchor := (h n).anchor, heap := setAnchor h n [] }
      (Inv.init _ _ _) hr'.child hf
    have h2 : ∃ m, transform f n (newRawTransformer h) = .ok (m, rt) := by
      rw [transform]
      show ∃ m, (visitNode f n _ >>= _) = _
      erw [h1]
      simp only [Res.bind_ok]
      split
      · rename_i hk
        rw [hi.kind, (setAnchor_kind _ _ _ _).1] at hk
        obtain ⟨t, ht, _⟩ := hr.alias n hk
        rw [hi.alias, (setAnchor_kind _ _ _ _).2, ht]
        exact ⟨t, rfl⟩
      · exact ⟨n, rfl⟩
    obtain ⟨m, h2⟩ := h2
    exact ⟨_, by rw [rawTransform, h2]; rfl⟩
  obtain ⟨⟨⟨m, seen⟩, after⟩, h0⟩ := conv (rank n + 1) (by omega)
  refine ⟨m, seen, rank n + 1, fun f hf => ?_⟩
  have all : ∀ k, rawTransform (rank n + 1 + k) n h = .ok ((m, seen), after) := by
    intro k
    induction k with
    | zero => exact h0
    | succ k ih =>
      rw [rawTransform, Res.bind_eq_ok] at ih
      obtain ⟨⟨m', rt⟩, h1, h2⟩ := ih
      rw [transform, Res.bind_eq_ok] at h1
      obtain ⟨rt', h1, h3⟩ := h1
      have h1' := visit_mono _ _ _ _ h1
      rw [rawTransform, transform]
      show (visitNode (rank n + 1 + k + 1) n _ >>= _) >>= _ = _
      rw [h1', Res.bind_ok, h3]
      exact h2
  have hk := all (f - (rank n + 1))
  rw [show rank n + 1 + (f - (rank n + 1)) = f by omega] at hk
  rw [raw_restores hc hk] at hk
  exact hk

/-- The graph of `[&a [x], *a, *a]`, without the part which precedes it: node 0 is the sequence, node 1 the anchored
sequence, node 2 its element, nodes 3 and 4 the aliases; node 5 is the sequence `[*a]` elsewhere. -/
def sample : Heap := fun a =>
  match a with
  | 0 => { kind := .sequence, content := [1, 3, 4] }
  | 1 => { kind := .sequence, anchor := ['a'], content := [2] }
  | 2 => { kind := .scalar, value := ['x'] }
  | 3 => { kind := .alias, value := ['a'], alias := some 1 }
  | 4 => { kind := .alias, value := ['a'], alias := some 1 }
  | 5 => { kind := .sequence, anchor := ['b'], content := [3, 4] }
  | _ => {}

example : NoChain sample := by
  intro a t ha ht
  match a with
  | 0 | 1 | 2 | 5 | n + 6 => simp [sample] at ha
  | 3 | 4 =>
    simp [sample] at ht
    subst ht
    simp [sample]

example : Ranked sample (fun a => match a with | 0 | 5 => 3 | 1 => 1 | 2 => 0 | 3 | 4 => 2 | _ => 0) := by
  constructor
  · intro p c hc
    match p with
    | 0 => simp [sample] at hc; rcases hc with rfl | rfl | rfl <;> decide
    | 1 => simp [sample] at hc; subst hc; decide
    | 5 => simp [sample] at hc; rcases hc with rfl | rfl <;> decide
    | 2 | 3 | 4 | n + 6 => simp [sample] at hc
  · intro a ha
    match a with
    | 0 | 1 | 2 | 5 | n + 6 => simp [sample] at ha
    | 3 | 4 => exact ⟨1, rfl, by decide⟩

/-- The marshalled graph of `[*a]` elsewhere: the first alias is replaced, the second is kept. -/
example : (match rawTransform 9 5 sample with
    | .ok ((m, seen), after) => (m, (seen 5).content, (seen 5).anchor, (after 5).content, (after 5).anchor)
    | _ => (0, [], [], [], [])) = (5, [1, 4], [], [3, 4], ['b']) := rfl

/-- The graph of `&a [*a]`. -/
def cycle : Heap := fun a =>
  match a with
  | 0 => { kind := .sequence, anchor := ['a'], content := [1] }
  | 1 => { kind := .alias, value := ['a'], alias := some 0 }
  | _ => {}

/-- Without the hypothesis that the graph is acyclic the transformation may run forever: `Raw()` of `&a [*a]`. -/
theorem raw_cycle_diverges : Diverges fun f => rawTransform f 0 cycle := by
  have key : ∀ f rt, (∀ a, (rt.heap a).kind = (cycle a).kind ∧ (rt.heap a).alias = (cycle a).alias) →
      ((rt.heap 0).content = [0] ∨ (rt.heap 0).content = [1]) →
      visitNode f 0 rt = .timeout ∧ visitNode f 1 rt = .timeout := by
    intro f
    induction f with
    | zero =>
      intro rt _ _
      exact ⟨rfl, rfl⟩
    | succ f ih =>
      intro rt hk hc
      have hmeet : ∀ n, (meet n rt).heap = rt.heap := by
        intro n
        rw [meet]
        split <;> rfl
      constructor
      · rw [visitNode]
        simp only [hmeet, (hk 0).1]
        show visitChildren (visitNode f) 0 _ 0 (meet 0 rt) = _
        rw [show (rt.heap 0).content.length = 1 by rcases hc with hc | hc <;> rw [hc] <;> rfl]
        rw [visitChildren, hmeet]
        rcases hc with hc | hc
        · rw [hc]
          simp only [List.getElem?_cons_zero]
          rw [replaceAlias, hmeet, if_neg (by rw [(hk 0).1]; decide)]
          simp only [Res.bind_ok]
          rw [(ih (meet 0 rt) (by rw [hmeet]; exact hk) (by rw [hmeet]; exact .inl hc)).1]
          rfl
        · rw [hc]
          simp only [List.getElem?_cons_zero]
          rw [replaceAlias, hmeet, if_pos (by rw [(hk 1).1]; decide)]
          split
          · simp only [Res.bind_ok]
            rw [(ih (meet 0 rt) (by rw [hmeet]; exact hk) (by rw [hmeet]; exact .inr hc)).2]
            rfl
          · rw [(hk 1).2]
            simp only [cycle, Res.bind_ok]
            rw [(ih _ ?_ ?_).2]
            · rfl
            · intro a
              by_cases ha : a = 0
              · subst ha
                simp only [setContent, Heap.write, if_pos]
                exact hk 0
              · show (setContent rt.heap 0 0 0 a).kind = _ ∧ (setContent rt.heap 0 0 0 a).alias = _
                rw [setContent_other ha]
                exact hk a
            · left
              show (setContent rt.heap 0 0 0 0).content = _
              rw [setContent_same, hc]
              rfl
      · rw [visitNode]
        simp only [hmeet, (hk 1).1, (hk 1).2]
        exact (ih (meet 1 rt) (by rw [hmeet]; exact hk) (by rw [hmeet]; exact hc)).1
  intro f
  show (transform f 0 (newRawTransformer cycle) >>= _) = _
  rw [transform]
  show ((visitNode f 0 _ >>= _) >>= _) = _
  rw [(key f _ ?_ ?_).1]
  · rfl
  · intro a
    exact setAnchor_kind _ _ _ _
  · right
    rfl

/-- A graph in which an alias stands for an alias: node 0 is `[p, p]` where `p` is the node 1, whose child is the alias 2
for the alias 3 for the scalar 4. -/
def chain : Heap := fun a =>
  match a with
  | 0 => { kind := .sequence, content := [1, 1] }
  | 1 => { kind := .sequence, content := [2] }
  | 2 => { kind := .alias, value := ['b'], alias := some 3 }
  | 3 => { kind := .alias, value := ['a'], alias := some 4 }
  | 4 => { kind := .scalar, value := ['x'] }
  | _ => {}

/-- Without the hypothesis about chains the memory is not restored (such graphs can only be built by hand). -/
theorem chain_not_restored : ∃ m seen after,
    rawTransform 9 0 chain = .ok ((m, seen), after) ∧ (after 1).content = [3] ∧ (chain 1).content = [2] :=
  ⟨_, _, _, rfl, rfl, rfl⟩

end Verif.Props.RawTransformer
