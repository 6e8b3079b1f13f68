import Verif.Model.RawTransformer

/-!
The invariant of the raw transformer: the memory differs from the one before only in the recorded places.
-/

namespace Verif.RawTransformer

open Verif.Goyaml

/-- No alias stands for an alias (an alias node carries no anchor). -/
def NoChain (h : Heap) : Prop := ∀ a t, (h a).kind = .alias → (h a).alias = some t → (h t).kind ≠ .alias

/-- The node with other content. -/
def withContent (c : Cell) (l : List Nat) : Cell := { c with content := l }

structure Inv (h0 : Heap) (rt : RT) : Prop where
  same : ∀ p, withContent (rt.heap p) (h0 p).content = h0 p
  len : ∀ p, (rt.heap p).content.length = (h0 p).content.length
  recd : ∀ d ∈ rt.dereferenced, (h0 d.parent).content[d.idx]? = some d.alias
  pos : ∀ p i, (rt.heap p).content[i]? = (h0 p).content[i]? ∨ ∃ d ∈ rt.dereferenced, d.parent = p ∧ d.idx = i
  plain : ∀ d ∈ rt.dereferenced, ∀ c, (rt.heap d.parent).content[d.idx]? = some c → (h0 c).kind ≠ .alias

theorem Inv.kind {h0 : Heap} {rt : RT} (h : Inv h0 rt) (p : Nat) : (rt.heap p).kind = (h0 p).kind := by
  rw [← h.same p]
  rfl

theorem Inv.alias {h0 : Heap} {rt : RT} (h : Inv h0 rt) (p : Nat) : (rt.heap p).alias = (h0 p).alias := by
  rw [← h.same p]
  rfl

theorem setContent_same (h : Heap) (n : Nat) : ∀ i c, (setContent h n i c n).content = (h n).content.set i c := by
  intro i c
  simp [setContent, Heap.write]

theorem setContent_other {h : Heap} {n p : Nat} (hp : p ≠ n) (i c : Nat) : setContent h n i c p = h p := by
  simp [setContent, Heap.write, hp]

theorem setContent_fields (h : Heap) (n i c p : Nat) (l : List Nat) :
    withContent (setContent h n i c p) l = withContent (h p) l := by
  by_cases hp : p = n
  · subst hp
    simp [setContent, Heap.write, withContent]
  · rw [setContent_other hp]

theorem Inv.replace {h0 : Heap} (hc : NoChain h0) {rt rt' : RT} {n i child : Nat} (h : Inv h0 rt)
    (hi : (rt.heap n).content[i]? = some child) (he : replaceAlias n i child rt = .ok rt') : Inv h0 rt' := by
  rw [replaceAlias] at he
  split at he
  · rename_i hk
    split at he
    · cases he
      exact h
    · split at he
      · cases he
      · rename_i target ht
        cases he
        rw [h.kind] at hk
        rw [h.alias] at ht
        have hnew : ∀ d ∈ rt.dereferenced, ¬ (d.parent = n ∧ d.idx = i) := by
          rintro d hd ⟨rfl, rfl⟩
          exact h.plain d hd child hi hk
        have hold : (h0 n).content[i]? = some child := by
          rcases h.pos n i with he | ⟨d, hd, hp⟩
          · rw [← he, hi]
          · exact absurd hp (hnew d hd)
        have hlt : i < (rt.heap n).content.length := by
          rw [List.getElem?_eq_some_iff] at hi
          exact hi.1
        constructor
        · intro p
          show withContent (setContent rt.heap n i target p) _ = _
          rw [setContent_fields]
          exact h.same p
        · intro p
          show (setContent rt.heap n i target p).content.length = _
          by_cases hp : p = n
          · subst hp
            rw [setContent_same, List.length_set, h.len]
          · rw [setContent_other hp, h.len]
        · intro d hd
          simp only [List.mem_append, List.mem_singleton] at hd
          rcases hd with hd | rfl
          · exact h.recd d hd
          · exact hold
        · intro p j
          show (setContent rt.heap n i target p).content[j]? = _ ∨ _
          by_cases hp : p = n
          · subst hp
            by_cases hj : j = i
            · subst hj
              exact .inr ⟨_, List.mem_append_right _ (List.mem_singleton.mpr rfl), rfl, rfl⟩
            · rw [setContent_same, List.getElem?_set_ne (Ne.symm hj)]
              rcases h.pos p j with he | ⟨d, hd, he⟩
              · exact .inl he
              · exact .inr ⟨d, List.mem_append_left _ hd, he⟩
          · rw [setContent_other hp]
            rcases h.pos p j with he | ⟨d, hd, he⟩
            · exact .inl he
            · exact .inr ⟨d, List.mem_append_left _ hd, he⟩
        · intro d hd c hcc
          change (setContent rt.heap n i target d.parent).content[d.idx]? = some c at hcc
          simp only [List.mem_append, List.mem_singleton] at hd
          rcases hd with hd | rfl
          · by_cases hp : d.parent = n
            · rw [hp, setContent_same, List.getElem?_set_ne (fun e => hnew d hd ⟨hp, e.symm⟩)] at hcc
              exact h.plain d hd c (by rw [hp]; exact hcc)
            · rw [setContent_other hp] at hcc
              exact h.plain d hd c hcc
          · rw [setContent_same, List.getElem?_set_self hlt] at hcc
            cases hcc
            exact hc child target hk ht
  · cases he
    exact h

theorem Inv.meet {h0 : Heap} {rt : RT} (h : Inv h0 rt) (n : Nat) : Inv h0 (meet n rt) := by
  rw [RawTransformer.meet]
  split
  · exact h
  · exact ⟨h.same, h.len, h.recd, h.pos, h.plain⟩

theorem children_inv {h0 : Heap} (hc : NoChain h0) {visit : Nat → RT → Res RT}
    (hv : ∀ n rt rt', Inv h0 rt → visit n rt = .ok rt' → Inv h0 rt') (n k : Nat) :
    ∀ i rt rt', Inv h0 rt → visitChildren visit n k i rt = .ok rt' → Inv h0 rt' := by
  induction k with
  | zero =>
    intro i rt rt' h he
    cases he
    exact h
  | succ k ih =>
    intro i rt rt' h he
    rw [visitChildren] at he
    split at he
    · cases he
    · rename_i child hi
      rw [Res.bind_eq_ok] at he
      obtain ⟨rt1, h1, he⟩ := he
      rw [Res.bind_eq_ok] at he
      obtain ⟨rt2, h2, he⟩ := he
      exact ih _ _ _ (hv _ _ _ (h.replace hc hi h1) h2) he

theorem visit_inv {h0 : Heap} (hc : NoChain h0) (f : Nat) :
    ∀ n rt rt', Inv h0 rt → visitNode f n rt = .ok rt' → Inv h0 rt' := by
  induction f with
  | zero =>
    intro n rt rt' _ he
    cases he
  | succ f ih =>
    intro n rt rt' h he
    have hm := h.meet n
    rw [visitNode] at he
    split at he
    · split at he
      · cases he
      · exact ih _ _ _ hm he
    · exact children_inv hc ih _ _ _ _ _ hm he
    · exact children_inv hc ih _ _ _ _ _ hm he
    · exact children_inv hc ih _ _ _ _ _ hm he
    · cases he
      exact hm
    · cases he
      exact hm

theorem restoreAll_fields (ds : List Deref) : ∀ (h : Heap) (p : Nat) (l : List Nat),
    withContent (restoreAll ds h p) l = withContent (h p) l := by
  induction ds with
  | nil =>
    intro h p l
    rfl
  | cons d ds ih =>
    intro h p l
    rw [restoreAll, ih, setContent_fields]

theorem restoreAll_content {h0 : Heap} (ds : List Deref) (hr : ∀ d ∈ ds, (h0 d.parent).content[d.idx]? = some d.alias) :
    ∀ (h : Heap), (∀ p, (h p).content.length = (h0 p).content.length) →
      (∀ p i, (h p).content[i]? = (h0 p).content[i]? ∨ ∃ d ∈ ds, d.parent = p ∧ d.idx = i) →
      ∀ p, (restoreAll ds h p).content = (h0 p).content := by
  induction ds with
  | nil =>
    intro h _ hp p
    refine List.ext_getElem? fun i => ?_
    rcases hp p i with he | ⟨d, hd, _⟩
    · exact he
    · exact absurd hd (by simp)
  | cons d ds ih =>
    intro h hl hp
    refine ih (fun d' hd' => hr d' (List.mem_cons_of_mem _ hd')) _ ?_ ?_
    · intro p
      by_cases hpd : p = d.parent
      · subst hpd
        rw [setContent_same, List.length_set, hl]
      · rw [setContent_other hpd, hl]
    · intro p i
      by_cases hpd : p = d.parent
      · subst hpd
        rw [setContent_same]
        by_cases hi : i = d.idx
        · subst hi
          left
          have h1 := hr d (by simp)
          rw [h1]
          rw [List.getElem?_eq_some_iff] at h1
          exact List.getElem?_set_self (by rw [hl]; exact h1.1)
        · rw [List.getElem?_set_ne (Ne.symm hi)]
          rcases hp d.parent i with he | ⟨d', hd', h1, h2⟩
          · exact .inl he
          · rcases List.mem_cons.mp hd' with rfl | hd'
            · exact absurd h2.symm hi
            · exact .inr ⟨d', hd', h1, h2⟩
      · rw [setContent_other hpd]
        rcases hp p i with he | ⟨d', hd', h1, h2⟩
        · exact .inl he
        · rcases List.mem_cons.mp hd' with rfl | hd'
          · exact absurd h1.symm hpd
          · exact .inr ⟨d', hd', h1, h2⟩

theorem setAnchor_content (h : Heap) (n : Nat) (s : List Char) (p : Nat) : (setAnchor h n s p).content = (h p).content := by
  by_cases hp : p = n <;> simp [setAnchor, Heap.write, hp]

theorem setAnchor_other {h : Heap} {n p : Nat} (hp : p ≠ n) (s : List Char) : setAnchor h n s p = h p := by
  simp [setAnchor, Heap.write, hp]

theorem setAnchor_self (h : Heap) (n : Nat) (s : List Char) : setAnchor h n s n = { h n with anchor := s } := by
  simp [setAnchor, Heap.write]

theorem setAnchor_kind (h : Heap) (n : Nat) (s : List Char) (p : Nat) :
    (setAnchor h n s p).kind = (h p).kind ∧ (setAnchor h n s p).alias = (h p).alias := by
  by_cases hp : p = n <;> simp [setAnchor, Heap.write, hp]

theorem cell_ext {c d : Cell} (h1 : c.content = d.content) (h2 : withContent c d.content = d) : c = d := by
  rw [← h2]
  cases c
  cases h1
  rfl

/-- A node whose number is larger than the numbers of its children and of the node it stands for. -/
structure Ranked (h : Heap) (rank : Nat → Nat) : Prop where
  child : ∀ p c, c ∈ (h p).content → rank c < rank p
  alias : ∀ a, (h a).kind = .alias → ∃ t, (h a).alias = some t ∧ rank t < rank a

theorem visit_ok {h0 : Heap} {rank : Nat → Nat} (hr : Ranked h0 rank) (hc : NoChain h0) (f : Nat) :
    ∀ n rt, Inv h0 rt → (∀ p, ∀ c ∈ (rt.heap p).content, rank c < rank p) → rank n < f →
      ∃ rt', visitNode f n rt = .ok rt' ∧ Inv h0 rt' ∧ ∀ p, ∀ c ∈ (rt'.heap p).content, rank c < rank p := by
  induction f with
  | zero =>
    intro n rt _ _ hf
    omega
  | succ f ih =>
    intro n rt h hch hf
    have hm := h.meet n
    have hch : ∀ p, ∀ c ∈ ((meet n rt).heap p).content, rank c < rank p := by
      rw [meet]
      split <;> exact hch
    rw [visitNode]
    generalize meet n rt = rt at hm hch
    have loop : ∀ k i rt, Inv h0 rt → (∀ p, ∀ c ∈ (rt.heap p).content, rank c < rank p) →
        i + k ≤ (rt.heap n).content.length →
        ∃ rt', visitChildren (visitNode f) n k i rt = .ok rt' ∧ Inv h0 rt' ∧
          ∀ p, ∀ c ∈ (rt'.heap p).content, rank c < rank p := by
      intro k
      induction k with
      | zero =>
        intro i rt h hch _
        exact ⟨rt, rfl, h, hch⟩
      | succ k ihk =>
        intro i rt h hch hl
        rw [visitChildren]
        have hi : (rt.heap n).content[i]? = some ((rt.heap n).content[i]'(by omega)) :=
          List.getElem?_eq_getElem (by omega)
        have hmem : (rt.heap n).content[i]'(by omega) ∈ (rt.heap n).content := List.getElem_mem _
        generalize (rt.heap n).content[i]'(by omega) = child at hi hmem
        rw [hi]
        have hlt := hch n child hmem
        have hrep : ∃ rt', replaceAlias n i child rt = .ok rt' ∧ ∀ p, ∀ c ∈ (rt'.heap p).content, rank c < rank p := by
          rw [replaceAlias]
          split
          · rename_i hk
            split
            · exact ⟨rt, rfl, hch⟩
            · rw [h.kind] at hk
              obtain ⟨t, ht, htl⟩ := hr.alias child hk
              rw [h.alias, ht]
              refine ⟨_, rfl, fun p c hcm => ?_⟩
              by_cases hp : p = n
              · subst hp
                change c ∈ (setContent rt.heap p i t p).content at hcm
                rw [setContent_same] at hcm
                rcases List.mem_or_eq_of_mem_set hcm with hcm | rfl
                · exact hch p c hcm
                · omega
              · change c ∈ (setContent rt.heap n i t p).content at hcm
                rw [setContent_other hp] at hcm
                exact hch p c hcm
          · exact ⟨rt, rfl, hch⟩
        obtain ⟨rt1, e1, hch1⟩ := hrep
        have hi1 := h.replace hc hi e1
        obtain ⟨rt2, e2, hi2, hch2⟩ := ih child rt1 hi1 hch1 (by omega)
        obtain ⟨rt3, e3, h3⟩ := ihk (i + 1) rt2 hi2 hch2 (by
          rw [hi2.len, ← h.len]
          omega)
        refine ⟨rt3, ?_, h3⟩
        simp only [e1, Res.bind_ok, e2, e3]
    split
    · rename_i hk
      rw [hm.kind] at hk
      obtain ⟨t, ht, htl⟩ := hr.alias n hk
      rw [hm.alias, ht]
      exact ih t _ hm hch (by omega)
    · exact loop _ _ _ hm hch (by omega)
    · exact loop _ _ _ hm hch (by omega)
    · exact loop _ _ _ hm hch (by omega)
    · exact ⟨_, rfl, hm, hch⟩
    · exact ⟨_, rfl, hm, hch⟩

theorem Inv.init (h : Heap) (s : List Char) (m : List (List Char)) : Inv h { heap := h, topLevelAnchor := s, metAnchors := m } :=
  ⟨fun _ => rfl, fun _ => rfl, by simp, fun _ _ => .inl rfl, by simp⟩

theorem visit_top (f n : Nat) : ∀ rt rt', visitNode f n rt = .ok rt' → rt'.topLevelAnchor = rt.topLevelAnchor := by
  induction f generalizing n with
  | zero =>
    intro rt rt' he
    cases he
  | succ f ih =>
    intro rt rt' he
    have hm : (meet n rt).topLevelAnchor = rt.topLevelAnchor := by
      rw [meet]
      split <;> rfl
    rw [← hm]
    rw [visitNode] at he
    generalize meet n rt = rt at he
    have loop : ∀ k i rt rt', visitChildren (visitNode f) n k i rt = .ok rt' →
        rt'.topLevelAnchor = rt.topLevelAnchor := by
      intro k
      induction k with
      | zero =>
        intro i rt rt' he
        cases he
        rfl
      | succ k ihk =>
        intro i rt rt' he
        rw [visitChildren] at he
        split at he
        · cases he
        · rename_i child hi
          rw [Res.bind_eq_ok] at he
          obtain ⟨rt1, h1, he⟩ := he
          rw [Res.bind_eq_ok] at he
          obtain ⟨rt2, h2, he⟩ := he
          rw [ihk _ _ _ he, ih _ _ _ h2]
          rw [replaceAlias] at h1
          split at h1
          · split at h1
            · cases h1
              rfl
            · split at h1
              · cases h1
              · cases h1
                rfl
          · cases h1
            rfl
    split at he
    · split at he
      · cases he
      · exact ih _ _ _ he
    · exact loop _ _ _ _ he
    · exact loop _ _ _ _ he
    · exact loop _ _ _ _ he
    · cases he
      rfl
    · cases he
      rfl

theorem visit_mono (f : Nat) : ∀ n rt rt', visitNode f n rt = .ok rt' → visitNode (f + 1) n rt = .ok rt' := by
  induction f with
  | zero =>
    intro n rt rt' he
    cases he
  | succ f ih =>
    intro n rt rt' he
    have loop : ∀ n k i rt rt', visitChildren (visitNode f) n k i rt = .ok rt' →
        visitChildren (visitNode (f + 1)) n k i rt = .ok rt' := by
      intro n k
      induction k with
      | zero =>
        intro i rt rt' he
        exact he
      | succ k ihk =>
        intro i rt rt' he
        rw [visitChildren] at he ⊢
        cases hi : (rt.heap n).content[i]? with
        | none =>
          rw [hi] at he
          cases he
        | some child =>
          rw [hi] at he
          simp only [Res.bind_eq_ok] at he
          obtain ⟨rt1, h1, rt2, h2, he⟩ := he
          simp only [h1, Res.bind_ok, ih _ _ _ h2, ihk _ _ _ he]
    rw [visitNode] at he ⊢
    generalize meet n rt = rt at he
    cases hk : (rt.heap n).kind with
    | alias =>
      simp only [hk] at he
      cases ht : (rt.heap n).alias with
      | none =>
        rw [ht] at he
        cases he
      | some t =>
        rw [ht] at he
        exact ih _ _ _ he
    | document => simp only [hk] at he; exact loop _ _ _ _ _ he
    | mapping => simp only [hk] at he; exact loop _ _ _ _ _ he
    | sequence => simp only [hk] at he; exact loop _ _ _ _ _ he
    | zero => simpa only [hk] using he
    | scalar => simpa only [hk] using he

end Verif.RawTransformer
