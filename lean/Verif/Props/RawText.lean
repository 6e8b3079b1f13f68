import Verif.Lemmas.RawText

/-!
C54: the text which `Raw()` of the goyaml engine returns stands on its own and has the value of the node.
-/

namespace Verif.Props.RawText

open Verif.Goyaml Verif.RawTransformer Verif.RawText

/-- A graph as read by yaml.v3: an alias bears the name of the node it stands for and no anchor of its own. -/
structure Parsed (h : Heap) : Prop where
  name : ∀ a t, (h a).kind = .alias → (h a).alias = some t → (h t).anchor = (h a).value ∧ (h a).value ≠ []
  bare : ∀ a, (h a).kind = .alias → (h a).anchor = []

theorem chain_of_parsed {h : Heap} (hp : Parsed h) : NoChain h := by
  intro a t ha ht hk
  obtain ⟨h1, h2⟩ := hp.name a t ha ht
  exact h2 (h1.symm.trans (hp.bare t hk))

/-- The memory in which the transformer starts. -/
theorem start_named {h : Heap} {rank : Nat → Nat} (hr : Ranked h rank) (hp : Parsed h)
    (hu : ∀ p q, (h p).anchor = (h q).anchor → (h p).anchor ≠ [] → p = q) (n : Nat) :
    Named (setAnchor h n []) rank (rank n) := by
  have hv : ∀ a, (setAnchor h n [] a).value = (h a).value := by
    intro a
    by_cases ha : a = n <;> simp [setAnchor, Heap.write, ha]
  have han : ∀ a, (setAnchor h n [] a).anchor = [] ∨ (setAnchor h n [] a).anchor = (h a).anchor := by
    intro a
    by_cases ha : a = n
    · subst ha
      rw [setAnchor_self]
      exact .inl rfl
    · rw [setAnchor_other ha]
      exact .inr rfl
  refine ⟨⟨?_, ?_⟩, ?_, ?_, ?_, ?_, ?_⟩
  · intro p c hm
    rw [setAnchor_content] at hm
    exact hr.child p c hm
  · intro a ha
    rw [(setAnchor_kind _ _ _ _).1] at ha
    rw [(setAnchor_kind _ _ _ _).2]
    exact hr.alias a ha
  · intro a t ha ht
    rw [(setAnchor_kind _ _ _ _).1] at ha ⊢
    rw [(setAnchor_kind _ _ _ _).2] at ht
    exact chain_of_parsed hp a t ha ht
  · intro a t ha hl ht
    rw [(setAnchor_kind _ _ _ _).1] at ha
    rw [(setAnchor_kind _ _ _ _).2] at ht
    obtain ⟨t', ht', hl'⟩ := hr.alias a ha
    rw [ht] at ht'
    cases ht'
    rw [setAnchor_other (by rintro rfl; omega), hv]
    exact (hp.name a t ha ht).1
  · intro a ha
    rw [(setAnchor_kind _ _ _ _).1] at ha
    rw [hv]
    obtain ⟨t, ht, _⟩ := hr.alias a ha
    exact (hp.name a t ha ht).2
  · intro a ha
    rw [(setAnchor_kind _ _ _ _).1] at ha
    rcases han a with h1 | h1
    · exact h1
    · rw [h1]
      exact hp.bare a ha
  · intro p q he hne
    rcases han p with h1 | h1
    · exact absurd h1 hne
    · rcases han q with h2 | h2
      · rw [h2] at he
        exact absurd he hne
      · rw [h1, h2] at he
        rw [h1] at hne
        exact hu p q he hne

theorem transformed {h : Heap} {f n m : Nat} {seen after : Heap} (he : rawTransform f n h = .ok ((m, seen), after)) :
    ∃ rt, visitNode f n { heap := setAnchor h n [], topLevelAnchor := (h n).anchor } = .ok rt ∧
      seen = rt.heap ∧ (((rt.heap n).kind = .alias ∧ (rt.heap n).alias = some m) ∨ ((rt.heap n).kind ≠ .alias ∧ m = n)) := by
  rw [rawTransform, Res.bind_eq_ok] at he
  obtain ⟨⟨m', rt⟩, h1, h2⟩ := he
  cases h2
  rw [transform, Res.bind_eq_ok] at h1
  obtain ⟨rt', h1, h2⟩ := h1
  by_cases hk : (rt'.heap n).kind = .alias
  · rw [if_pos hk] at h2
    cases ht : (rt'.heap n).alias with
    | none =>
      rw [ht] at h2
      cases h2
    | some t =>
      rw [ht] at h2
      cases h2
      exact ⟨rt, h1, rfl, .inl ⟨hk, ht⟩⟩
  · rw [if_neg hk] at h2
    cases h2
    exact ⟨rt, h1, rfl, .inr ⟨hk, rfl⟩⟩

/-- C54 (partial: in acyclic graphs in which no two nodes have the same anchor; `redefined_alias_wrong` shows that the
last hypothesis is needed).  The text of the node can be read on its own: every alias which was kept follows the node it
stands for. -/
theorem raw_self_contained_partial {h : Heap} {rank : Nat → Nat} (hr : Ranked h rank) (hp : Parsed h)
    (hu : ∀ p q, (h p).anchor = (h q).anchor → (h p).anchor ≠ [] → p = q) {f n m : Nat} {seen after : Heap}
    (he : rawTransform f n h = .ok ((m, seen), after)) : ∃ env, Reads seen [] m env := by
  obtain ⟨rt, h1, rfl, hm⟩ := transformed he
  have hn := start_named hr hp hu n
  have hi := visit_inv hn.chain f n _ _ (Inv.init _ _ _) h1
  have hag : Agree (setAnchor h n []) [] [] := ⟨by simp, by simp⟩
  rcases hm with ⟨hk, ht⟩ | ⟨hk, rfl⟩
  · rw [hi.kind] at hk
    rw [hi.alias] at ht
    cases f with
    | zero => cases h1
    | succ f =>
      rw [visitNode, meet, if_pos (by simp only [setAnchor_self])] at h1
      simp only [hk, ht] at h1
      obtain ⟨t, ht', hlt⟩ := hn.ranked.alias n hk
      rw [ht] at ht'
      cases ht'
      obtain ⟨env, hr', _⟩ := (visit_reads hn f m _ _ (Inv.init _ _ _) hn.ranked.child (by omega)
        (hn.chain n m hk ht) (fun t _ hv => by cases hv) h1).2 [] hag
      exact ⟨env, hr'⟩
  · rw [hi.kind] at hk
    obtain ⟨env, hr', _⟩ := (visit_reads hn f m _ _ (Inv.init _ _ _) hn.ranked.child (Nat.le_refl _) hk
        (fun t _ hv => by cases hv) h1).2 [] hag
    exact ⟨env, hr'⟩

/-- C54.  The graph which is marshalled has the value of the node. -/
theorem raw_keeps_value {h : Heap} (hc : NoChain h) {f n m : Nat} {seen after : Heap}
    (he : rawTransform f n h = .ok ((m, seen), after)) (v : Tree) : Value h n v ↔ Value seen m v := by
  obtain ⟨rt, h1, rfl, hm⟩ := transformed he
  have hc' : NoChain (setAnchor h n []) := by
    intro a t ha ht
    rw [(setAnchor_kind _ _ _ _).1] at ha ⊢
    rw [(setAnchor_kind _ _ _ _).2] at ht
    exact hc a t ha ht
  have hi := visit_inv hc' f n _ _ (Inv.init _ _ _) h1
  have hd := visit_derefs hc' f n _ _ (Inv.init _ _ _) (fun p => allStand_refl _ _) h1
  have s1 : Same h (setAnchor h n []) := by
    refine ⟨fun p => (setAnchor_kind _ _ _ _).1, ?_, ?_, ?_, fun p => (setAnchor_kind _ _ _ _).2, ?_⟩
    · intro p
      by_cases hp : p = n <;> simp [setAnchor, Heap.write, hp]
    · intro p
      by_cases hp : p = n <;> simp [setAnchor, Heap.write, hp]
    · intro p
      by_cases hp : p = n <;> simp [setAnchor, Heap.write, hp]
    · intro p
      rw [setAnchor_content]
      exact allStand_refl _ _
  have s2 : Same (setAnchor h n []) rt.heap := by
    have hs := hi.same
    refine ⟨hi.kind, ?_, ?_, hi.value, hi.alias, hd⟩
    · intro p
      rw [← hs p]
      rfl
    · intro p
      rw [← hs p]
      rfl
  have all : ∀ k, Value h k v ↔ Value rt.heap k v := fun k =>
    ⟨fun hv => value_of s2 (value_of s1 hv), fun hv => of_value s1 (of_value s2 hv)⟩
  rcases hm with ⟨hk, ht⟩ | ⟨hk, rfl⟩
  · rw [all n]
    constructor
    · intro hv
      cases hv with
      | leaf _ _ h2 => exact absurd hk h2
      | alias _ t _ _ h2 h3 =>
        rw [ht] at h2
        cases h2
        exact h3
      | coll _ _ h2 => exact absurd h2 (not_coll_alias hk)
    · exact .alias n m v hk ht
  · exact all m

/-- The graph of `[[*a, *a, &b y, *b]]` behind `&a [x]`: node 0 is `[x]`, node 2 the sequence of the aliases. -/
def sample : Heap := fun a =>
  match a with
  | 0 => { kind := .sequence, anchor := ['a'], content := [1] }
  | 1 => { kind := .scalar, value := ['x'] }
  | 2 => { kind := .sequence, anchor := ['c'], content := [3, 4, 5, 6] }
  | 3 => { kind := .alias, value := ['a'], alias := some 0 }
  | 4 => { kind := .alias, value := ['a'], alias := some 0 }
  | 5 => { kind := .scalar, anchor := ['b'], value := ['y'] }
  | 6 => { kind := .alias, value := ['b'], alias := some 5 }
  | _ => {}

example : Parsed sample := by
  constructor
  · intro a t ha ht
    match a with
    | 0 | 1 | 2 | 5 | n + 7 => simp [sample] at ha
    | 3 | 4 | 6 =>
      simp [sample] at ht
      subst ht
      simp [sample]
  · intro a ha
    match a with
    | 0 | 1 | 2 | 5 | n + 7 => simp [sample] at ha
    | 3 | 4 | 6 => rfl

example : Ranked sample (fun a => match a with | 2 => 3 | 0 => 1 | 3 | 4 | 6 => 2 | _ => 0) := by
  constructor
  · intro p c hc
    match p with
    | 0 => simp [sample] at hc; subst hc; decide
    | 2 => simp [sample] at hc; rcases hc with rfl | rfl | rfl | rfl <;> decide
    | 1 | 3 | 4 | 5 | 6 | n + 7 => simp [sample] at hc
  · intro a ha
    match a with
    | 0 | 1 | 2 | 5 | n + 7 => simp [sample] at ha
    | 3 | 4 => exact ⟨0, rfl, by decide⟩
    | 6 => exact ⟨5, rfl, by decide⟩

example : ∀ p q, (sample p).anchor = (sample q).anchor → (sample p).anchor ≠ [] → p = q := by
  intro p q he hne
  have anch : ∀ p, (sample p).anchor = if p = 0 then ['a'] else if p = 2 then ['c'] else if p = 5 then ['b'] else [] := by
    intro p
    match p with
    | 0 | 1 | 2 | 3 | 4 | 5 | 6 => rfl
    | n + 7 => simp [sample]
  rw [anch, anch] at he
  rw [anch] at hne
  by_cases p0 : p = 0 <;> by_cases p2 : p = 2 <;> by_cases p5 : p = 5 <;>
    by_cases q0 : q = 0 <;> by_cases q2 : q = 2 <;> by_cases q5 : q = 5 <;> simp_all

example : (match rawTransform 9 2 sample with
    | .ok ((m, seen), _) => (m, (seen 2).content)
    | _ => (0, [])) = (2, [0, 4, 5, 6]) := rfl

/-- The graph of `- &a [&b x]`, `- &b y`, `- [*b, *a, *b]`: the anchor `b` is defined twice.  Node 3 is the last
sequence; both aliases for `b` stand for the node 2. -/
def redefined : Heap := fun a =>
  match a with
  | 0 => { kind := .sequence, anchor := ['a'], content := [1] }
  | 1 => { kind := .scalar, anchor := ['b'], value := ['x'] }
  | 2 => { kind := .scalar, anchor := ['b'], value := ['y'] }
  | 3 => { kind := .sequence, content := [4, 5, 6] }
  | 4 => { kind := .alias, value := ['b'], alias := some 2 }
  | 5 => { kind := .alias, value := ['a'], alias := some 0 }
  | 6 => { kind := .alias, value := ['b'], alias := some 2 }
  | _ => {}

example : Parsed redefined := by
  constructor
  · intro a t ha ht
    match a with
    | 0 | 1 | 2 | 3 | n + 7 => simp [redefined] at ha
    | 4 | 5 | 6 =>
      simp [redefined] at ht
      subst ht
      simp [redefined]
  · intro a ha
    match a with
    | 0 | 1 | 2 | 3 | n + 7 => simp [redefined] at ha
    | 4 | 5 | 6 => rfl

/-- The code violates C54 if an anchor is redefined: `Raw()` of the sequence `[*b, *a, *b]` gives the text
`[&b y, &a [&b x], *b]`, whose last element is `x`, while it was `y`. -/
theorem redefined_alias_wrong : ∃ seen after, rawTransform 9 3 redefined = .ok ((3, seen), after) ∧
    (seen 3).content = [2, 0, 6] ∧ ¬ ∃ env, Reads seen [] 3 env := by
  refine ⟨_, _, rfl, rfl, ?_⟩
  rintro ⟨env, hr⟩
  cases hr with
  | leaf _ _ h1 => exact h1 (.inr (.inr rfl))
  | alias _ _ t h1 => cases h1
  | coll _ _ _ h1 h2 =>
    change ReadsAll _ [] [2, 0, 6] env at h2
    cases h2 with
    | cons _ e1 _ _ _ ha h2 =>
      cases ha with
      | alias _ _ t h1 => cases h1
      | coll _ _ _ h1 => rcases h1 with h1 | h1 | h1 <;> cases h1
      | leaf =>
        cases h2 with
        | cons _ e2 _ _ _ hb h2 =>
          cases hb with
          | leaf _ _ h1 => exact h1 (.inr (.inr rfl))
          | alias _ _ t h1 => cases h1
          | coll _ _ _ h1 hb =>
            change ReadsAll _ _ [1] _ at hb
            cases hb with
            | cons _ e3 _ _ _ hc hb =>
              cases hb
              cases hc with
              | alias _ _ t h1 => cases h1
              | coll _ _ _ h1 => rcases h1 with h1 | h1 | h1 <;> cases h1
              | leaf =>
                cases h2 with
                | cons _ e2 _ _ _ hb h2 =>
                  cases hb with
                  | leaf _ _ _ h1 => exact h1 rfl
                  | coll _ _ _ h1 => rcases h1 with h1 | h1 | h1 <;> cases h1
                  | alias _ _ t h1 h3 h4 =>
                    cases h3
                    cases h4

end Verif.Props.RawText
