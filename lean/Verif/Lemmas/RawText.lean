import Verif.Spec.RawText
import Verif.Lemmas.RawTransformer

/-!
What the raw transformer hands to the marshaller: aliases are kept only behind the node they stand for, and replaced
aliases do not change the value.
-/

namespace Verif.RawTransformer

open Verif.Goyaml Verif.RawText

/-- Everything below the node was visited: its anchors are met, and the anchors of its aliases. -/
inductive Closed (h : Heap) (met : List (List Char)) : Nat → Prop
  | leaf (n) : ¬ Coll (h n).kind → (h n).kind ≠ .alias → ((h n).anchor = [] ∨ (h n).anchor ∈ met) → Closed h met n
  | alias (n t) : (h n).kind = .alias → (h n).alias = some t → Closed h met t → Closed h met n
  | coll (n) : Coll (h n).kind → ((h n).anchor = [] ∨ (h n).anchor ∈ met) →
      (∀ c ∈ (h n).content, (h c).kind = .alias → (h c).value ∈ met) →
      (∀ c ∈ (h n).content, Closed h met c) → Closed h met n

theorem not_coll_alias {k : Kind} (h : k = .alias) : ¬ Coll k := by
  subst h
  rintro (h | h | h) <;> cases h

theorem Closed.keep {h h' : Heap} {met met' : List (List Char)} (hm : ∀ v ∈ met, v ∈ met')
    (hs : ∀ q, Closed h met q → h' q = h q) {n : Nat} (hc : Closed h met n) : Closed h' met' n := by
  induction hc with
  | leaf n h1 h2 h3 =>
    have e := hs n (.leaf n h1 h2 h3)
    exact .leaf n (by rw [e]; exact h1) (by rw [e]; exact h2) (by rw [e]; exact h3.imp id (hm _))
  | alias n t h1 h2 h3 ih =>
    have e := hs n (.alias n t h1 h2 h3)
    exact .alias n t (by rw [e]; exact h1) (by rw [e]; exact h2) ih
  | coll n h1 h2 h3 h4 ih =>
    have e := hs n (.coll n h1 h2 h3 h4)
    refine .coll n (by rw [e]; exact h1) (by rw [e]; exact h2.imp id (hm _)) ?_ ?_
    · intro c hc hk
      rw [e] at hc
      have ec := hs c (h4 c hc)
      rw [ec] at hk ⊢
      exact hm _ (h3 c hc hk)
    · intro c hc
      rw [e] at hc
      exact ih c hc

theorem Closed.elem {h : Heap} {met : List (List Char)} {n : Nat} (hc : Closed h met n) (hk : Coll (h n).kind) :
    ∀ c ∈ (h n).content, Closed h met c := by
  cases hc with
  | leaf n h1 => exact absurd hk h1
  | alias n t h1 => exact absurd hk (not_coll_alias h1)
  | coll n h1 h2 h3 h4 => exact h4

mutual
theorem reads_keep {h h' : Heap} {met : List (List Char)} (hs : ∀ q, Closed h met q → h' q = h q) :
    ∀ {env n env'}, Reads h env n env' → Closed h met n → Reads h' env n env'
  | _, _, _, .leaf env n h1 h2, hc => by
    have e := hs n hc
    have := Reads.leaf (h := h') env n (by rw [e]; exact h1) (by rw [e]; exact h2)
    rwa [define, e] at this
  | _, _, _, .alias env n t h1 h2 h3, hc => by
    have e := hs n hc
    exact .alias env n t (by rw [e]; exact h1) (by rw [e]; exact h2) (by rw [e]; exact h3)
  | _, _, _, .coll env env' n h1 h2, hc => by
    have e := hs n hc
    have := readsAll_keep hs h2 (hc.elem h1)
    refine .coll env env' n (by rw [e]; exact h1) ?_
    rw [define, e]
    exact this
theorem readsAll_keep {h h' : Heap} {met : List (List Char)} (hs : ∀ q, Closed h met q → h' q = h q) :
    ∀ {env ns env'}, ReadsAll h env ns env' → (∀ c ∈ ns, Closed h met c) → ReadsAll h' env ns env'
  | _, _, _, .nil env, _ => .nil env
  | _, _, _, .cons env env' env'' n ns h1 h2, hc =>
    .cons env env' env'' n ns (reads_keep hs h1 (hc n (by simp))) (readsAll_keep hs h2 (fun c hm => hc c (by simp [hm])))
end

theorem readsAll_snoc {h : Heap} {env env' env'' : Env} {ns : List Nat} {n : Nat} (h1 : ReadsAll h env ns env')
    (h2 : Reads h env' n env'') : ReadsAll h env (ns ++ [n]) env'' := by
  induction ns generalizing env with
  | nil =>
    cases h1
    exact .cons _ _ _ _ _ h2 (.nil _)
  | cons a ns ih =>
    cases h1 with
    | cons _ e1 _ _ _ ha hs => exact .cons _ _ _ _ _ ha (ih hs)

/-- The anchors defined in the text are exactly the anchors of nodes, and all met anchors are among them. -/
structure Agree (h0 : Heap) (env : Env) (met : List (List Char)) : Prop where
  has : ∀ v ∈ met, ∃ t, (v, t) ∈ env
  names : ∀ v t, (v, t) ∈ env → (h0 t).anchor = v

theorem lookup_mem {env : Env} {v : List Char} : (∃ t, (v, t) ∈ env) → ∃ t, env.lookup v = some t ∧ (v, t) ∈ env := by
  rintro ⟨t, ht⟩
  induction env with
  | nil => simp at ht
  | cons a env ih =>
    obtain ⟨w, s⟩ := a
    rw [List.lookup_cons]
    by_cases hw : v = w
    · subst hw
      exact ⟨s, by simp⟩
    · have : (v == w) = false := by simpa using hw
      simp only [this]
      obtain ⟨t', h1, h2⟩ := ih (by
        rcases List.mem_cons.mp ht with h | h
        · exact absurd (congrArg Prod.fst h) hw
        · exact h)
      exact ⟨t', h1, by simp [h2]⟩

/-- What the transformer may assume of the graph: aliases below the node of rank `R` bear the name of the node they stand
for, alias nodes have no anchor, and no two nodes have the same anchor. -/
structure Named (h0 : Heap) (rank : Nat → Nat) (R : Nat) : Prop where
  ranked : Ranked h0 rank
  chain : NoChain h0
  name : ∀ a t, (h0 a).kind = .alias → rank a < R → (h0 a).alias = some t → (h0 t).anchor = (h0 a).value
  some : ∀ a, (h0 a).kind = .alias → (h0 a).value ≠ []
  bare : ∀ a, (h0 a).kind = .alias → (h0 a).anchor = []
  uniq : ∀ p q, (h0 p).anchor = (h0 q).anchor → (h0 p).anchor ≠ [] → p = q

theorem Inv.anchor {h0 : Heap} {rt : RT} (h : Inv h0 rt) (p : Nat) : (rt.heap p).anchor = (h0 p).anchor := by
  rw [← h.same p]
  rfl

theorem Inv.value {h0 : Heap} {rt : RT} (h : Inv h0 rt) (p : Nat) : (rt.heap p).value = (h0 p).value := by
  rw [← h.same p]
  rfl

theorem meet_heap (n : Nat) (rt : RT) : (meet n rt).heap = rt.heap := by
  rw [meet]
  split <;> rfl

theorem meet_mem (n : Nat) (rt : RT) {v : List Char} :
    v ∈ (meet n rt).metAnchors ↔ v ∈ rt.metAnchors ∨ ((rt.heap n).anchor ≠ [] ∧ v = (rt.heap n).anchor) := by
  rw [meet]
  split
  · simp [*]
  · simp [*, or_comm]

theorem visitNode_coll {f n : Nat} {rt : RT} (hk : Coll (rt.heap n).kind) :
    visitNode (f + 1) n rt = visitChildren (visitNode f) n (rt.heap n).content.length 0 (meet n rt) := by
  rw [visitNode]
  simp only [meet_heap]
  rcases hk with h | h | h <;> rw [h]

/-- A second visit changes nothing. -/
theorem revisit (f : Nat) : ∀ n rt rt', Closed rt.heap rt.metAnchors n → (∀ a, (rt.heap a).kind = .alias → (rt.heap a).anchor = []) →
    visitNode f n rt = .ok rt' → rt'.heap = rt.heap ∧ ∀ v, v ∈ rt'.metAnchors ↔ v ∈ rt.metAnchors := by
  induction f with
  | zero =>
    intro n rt rt' _ _ he
    cases he
  | succ f ih =>
    intro n rt rt' hc hb he
    have hmet : (rt.heap n).anchor = [] ∨ (rt.heap n).anchor ∈ rt.metAnchors := by
      cases hc with
      | leaf _ h1 h2 h3 => exact h3
      | alias _ t h1 => exact .inl (hb n h1)
      | coll _ h1 h2 => exact h2
    have hmm : ∀ v, v ∈ (meet n rt).metAnchors ↔ v ∈ rt.metAnchors := by
      intro v
      rw [meet_mem]
      constructor
      · rintro (h | ⟨h1, rfl⟩)
        · exact h
        · exact hmet.resolve_left h1
      · exact .inl
    cases hc with
    | leaf _ h1 h2 h3 =>
      rw [visitNode] at he
      simp only [meet_heap] at he
      cases hk : (rt.heap n).kind with
      | alias => exact absurd hk h2
      | document => exact absurd (.inl hk) h1
      | mapping => exact absurd (.inr (.inl hk)) h1
      | sequence => exact absurd (.inr (.inr hk)) h1
      | zero | scalar =>
        rw [hk] at he
        cases he
        exact ⟨meet_heap n rt, hmm⟩
    | alias _ t h1 h2 h3 =>
      rw [visitNode] at he
      simp only [meet_heap, h1, h2] at he
      obtain ⟨e1, e2⟩ := ih t (meet n rt) rt' (h3.keep (fun v hv => (hmm v).mpr hv) (fun q _ => by rw [meet_heap]))
        (by rw [meet_heap]; exact hb) he
      exact ⟨by rw [e1, meet_heap], fun v => (e2 v).trans (hmm v)⟩
    | coll _ h1 h2 h3 h4 =>
      rw [visitNode_coll h1] at he
      have loop : ∀ k i rt1, rt1.heap = rt.heap → (∀ v, v ∈ rt1.metAnchors ↔ v ∈ rt.metAnchors) →
          visitChildren (visitNode f) n k i rt1 = .ok rt' →
          rt'.heap = rt.heap ∧ ∀ v, v ∈ rt'.metAnchors ↔ v ∈ rt.metAnchors := by
        intro k
        induction k with
        | zero =>
          intro i rt1 e1 e2 he
          cases he
          exact ⟨e1, e2⟩
        | succ k ihk =>
          intro i rt1 e1 e2 he
          rw [visitChildren] at he
          cases hi : (rt1.heap n).content[i]? with
          | none =>
            rw [hi] at he
            cases he
          | some child =>
            rw [hi] at he
            simp only [Res.bind_eq_ok] at he
            obtain ⟨rt2, hr, rt3, hv, he⟩ := he
            rw [e1] at hi
            have hmem := List.mem_of_getElem? hi
            have hrt : rt2 = rt1 := by
              rw [replaceAlias] at hr
              by_cases hk : (rt1.heap child).kind = .alias
              · rw [if_pos hk, if_pos ((e2 _).mpr (by rw [e1] at hk ⊢; exact h3 child hmem hk))] at hr
                cases hr
                rfl
              · rw [if_neg hk] at hr
                cases hr
                rfl
            subst hrt
            obtain ⟨e3, e4⟩ := ih child rt2 rt3 ((h4 child hmem).keep (fun v hv => (e2 v).mpr hv) (fun q _ => by rw [e1]))
              (by rw [e1]; exact hb) hv
            exact ihk (i + 1) rt3 (e3.trans e1) (fun v => (e4 v).trans (e2 v)) he
      exact loop _ _ _ (meet_heap n rt) hmm he

/-- What a visit guarantees. -/
structure Visited (h0 : Heap) (rank : Nat → Nat) (n : Nat) (rt rt' : RT) : Prop where
  inv : Inv h0 rt'
  below : ∀ p, ∀ c ∈ (rt'.heap p).content, rank c < rank p
  closed : Closed rt'.heap rt'.metAnchors n
  more : ∀ v ∈ rt.metAnchors, v ∈ rt'.metAnchors
  same : ∀ q, Closed rt.heap rt.metAnchors q → rt'.heap q = rt.heap q
  above : ∀ q, rank n < rank q → rt'.heap q = rt.heap q
  met : ∀ t, (h0 t).anchor ≠ [] → (h0 t).anchor ∈ rt'.metAnchors →
    (h0 t).anchor ∈ rt.metAnchors ∨ Closed rt'.heap rt'.metAnchors t

/-- All met nodes below the rank were visited completely. -/
def MetClosed (h0 : Heap) (rank : Nat → Nat) (r : Nat) (rt : RT) : Prop :=
  ∀ t, (h0 t).anchor ≠ [] → (h0 t).anchor ∈ rt.metAnchors → rank t < r → Closed rt.heap rt.metAnchors t

theorem Visited.keep {h0 : Heap} {rank : Nat → Nat} {n : Nat} {rt rt' : RT} (h : Visited h0 rank n rt rt') {q : Nat}
    (hc : Closed rt.heap rt.metAnchors q) : Closed rt'.heap rt'.metAnchors q :=
  hc.keep h.more h.same

theorem MetClosed.visited {h0 : Heap} {rank : Nat → Nat} {n r : Nat} {rt rt' : RT} (hm : MetClosed h0 rank r rt)
    (h : Visited h0 rank n rt rt') : MetClosed h0 rank r rt' := by
  intro t h1 h2 h3
  rcases h.met t h1 h2 with h4 | h4
  · exact h.keep (hm t h1 h4 h3)
  · exact h4

theorem agree_define {h0 : Heap} {rt : RT} (hi : Inv h0 rt) {env : Env} (ha : Agree h0 env rt.metAnchors) (n : Nat) :
    Agree h0 (define rt.heap n env) (meet n rt).metAnchors := by
  constructor
  · intro v hv
    rw [meet_mem] at hv
    rw [define]
    rcases hv with hv | ⟨h1, rfl⟩
    · obtain ⟨t, ht⟩ := ha.has v hv
      split
      · exact ⟨t, ht⟩
      · exact ⟨t, by simp [ht]⟩
    · rw [if_neg h1]
      exact ⟨n, by simp⟩
  · intro v t hv
    rw [define] at hv
    split at hv
    · exact ha.names v t hv
    · rcases List.mem_cons.mp hv with h | h
      · cases h
        exact (hi.anchor n).symm
      · exact ha.names v t h

/-- A visit of a node which is no alias, and how its text is read. -/
theorem visit_reads {h0 : Heap} {rank : Nat → Nat} {R : Nat} (hn : Named h0 rank R) (f : Nat) :
    ∀ n rt rt', Inv h0 rt → (∀ p, ∀ c ∈ (rt.heap p).content, rank c < rank p) → rank n ≤ R →
      (h0 n).kind ≠ .alias → MetClosed h0 rank (rank n) rt → visitNode f n rt = .ok rt' →
      Visited h0 rank n rt rt' ∧
        ∀ env, Agree h0 env rt.metAnchors → ∃ env', Reads rt'.heap env n env' ∧ Agree h0 env' rt'.metAnchors := by
  induction f with
  | zero =>
    intro n rt rt' _ _ _ _ _ he
    cases he
  | succ f ih =>
    intro n rt rt' hi hb hR hka hm he
    by_cases hk : Coll (rt.heap n).kind
    · rw [visitNode_coll hk] at he
      have hlen : (rt.heap n).content.length = ((meet n rt).heap n).content.length := by rw [meet_heap]
      -- the loop
      have loop : ∀ k i rt1, Inv h0 rt1 → (∀ p, ∀ c ∈ (rt1.heap p).content, rank c < rank p) →
          i + k = (rt1.heap n).content.length →
          (∀ v ∈ rt.metAnchors, v ∈ rt1.metAnchors) →
          ((rt.heap n).anchor = [] ∨ (rt.heap n).anchor ∈ rt1.metAnchors) →
          (∀ q, Closed rt.heap rt.metAnchors q → rt1.heap q = rt.heap q) →
          (∀ q, rank n < rank q → rt1.heap q = rt.heap q) →
          (∀ t, (h0 t).anchor ≠ [] → (h0 t).anchor ∈ rt1.metAnchors →
            (h0 t).anchor ∈ rt.metAnchors ∨ t = n ∨ Closed rt1.heap rt1.metAnchors t) →
          MetClosed h0 rank (rank n) rt1 →
          (∀ c ∈ (rt1.heap n).content.take i, Closed rt1.heap rt1.metAnchors c ∧
            ((rt1.heap c).kind = .alias → (rt1.heap c).value ∈ rt1.metAnchors)) →
          visitChildren (visitNode f) n k i rt1 = .ok rt' →
          Visited h0 rank n rt rt' ∧ ∀ env env1, Agree h0 env1 rt1.metAnchors →
            ReadsAll rt1.heap env ((rt1.heap n).content.take i) env1 →
            ∃ env', ReadsAll rt'.heap env (rt'.heap n).content env' ∧ Agree h0 env' rt'.metAnchors := by
        intro k
        induction k with
        | zero =>
          intro i rt1 i1 b1 hl m1 ha s1 a1 t1 mc c1 he
          have he' : rt1 = rt' := by
            cases he
            rfl
          subst he'
          have htake : (rt1.heap n).content.take i = (rt1.heap n).content := by
            rw [List.take_of_length_le (by omega)]
          rw [htake] at c1 ⊢
          have hkn : (rt1.heap n).kind = (rt.heap n).kind := by rw [i1.kind, hi.kind]
          have han : (rt1.heap n).anchor = (rt.heap n).anchor := by rw [i1.anchor, hi.anchor]
          have hcl : Closed rt1.heap rt1.metAnchors n :=
            .coll n (by rw [hkn]; exact hk) (by rw [han]; exact ha) (fun c hc => (c1 c hc).2) (fun c hc => (c1 c hc).1)
          refine ⟨⟨i1, b1, hcl, m1, s1, a1, ?_⟩, fun env env1 hg hr => ⟨env1, hr, hg⟩⟩
          intro t h1 h2
          rcases t1 t h1 h2 with h | rfl | h
          · exact .inl h
          · exact .inr hcl
          · exact .inr h
        | succ k ihk =>
          intro i rt1 i1 b1 hl m1 ha s1 a1 t1 mc c1 he
          rw [visitChildren] at he
          have hii : (rt1.heap n).content[i]? = some ((rt1.heap n).content[i]'(by omega)) :=
            List.getElem?_eq_getElem (by omega)
          have hmem : (rt1.heap n).content[i]'(by omega) ∈ (rt1.heap n).content := List.getElem_mem _
          generalize (rt1.heap n).content[i]'(by omega) = child at hii hmem
          rw [hii] at he
          simp only [Res.bind_eq_ok] at he
          obtain ⟨rt2, hr, rt3, hv, he⟩ := he
          have hlt := b1 n child hmem
          have i2 := i1.replace hn.chain hii hr
          -- one step: the node which stands at the place `i` afterwards
          have step : ∃ c', rank c' < rank n ∧ (rt2.heap n).content[i]? = some c' ∧
              (rt2.heap n).content.take i = (rt1.heap n).content.take i ∧
              rt2.metAnchors = rt1.metAnchors ∧
              (∀ q, q ≠ n → rt2.heap q = rt1.heap q) ∧
              (∀ q, Closed rt.heap rt.metAnchors q → rt2.heap q = rt1.heap q) ∧
              (∀ q, Closed rt1.heap rt1.metAnchors q → rt2.heap q = rt1.heap q) ∧
              (∀ p, ∀ c ∈ (rt2.heap p).content, rank c < rank p) ∧
              Visited h0 rank c' rt2 rt3 ∧
              ((rt3.heap c').kind = .alias → (rt3.heap c').value ∈ rt3.metAnchors) ∧
              (∀ env, Agree h0 env rt2.metAnchors →
                ∃ env', Reads rt3.heap env c' env' ∧ Agree h0 env' rt3.metAnchors) := by
            by_cases hca : (h0 child).kind = .alias
            · obtain ⟨t, ht, htl⟩ := hn.ranked.alias child hca
              have hname := hn.name child t hca (by omega) ht
              have hne : (h0 t).anchor ≠ [] := by rw [hname]; exact hn.some child hca
              rw [replaceAlias] at hr
              rw [if_pos (by rw [i1.kind]; exact hca)] at hr
              by_cases hmv : (rt1.heap child).value ∈ rt1.metAnchors
              · -- the alias is kept
                rw [if_pos hmv] at hr
                cases hr
                rw [i1.value, ← hname] at hmv
                have hct := mc t hne hmv (by omega)
                have hcc : Closed rt1.heap rt1.metAnchors child :=
                  .alias child t (by rw [i1.kind]; exact hca) (by rw [i1.alias]; exact ht) hct
                obtain ⟨e1, e2⟩ := revisit f child rt1 rt3 hcc (fun a ha => by
                  rw [i1.kind] at ha
                  rw [i1.anchor]
                  exact hn.bare a ha) hv
                have i3 := visit_inv hn.chain f _ _ _ i1 hv
                refine ⟨child, hlt, hii, rfl, rfl, fun _ _ => rfl, fun _ _ => rfl, fun _ _ => rfl, b1, ⟨i3, ?_, ?_, ?_, ?_, ?_, ?_⟩, ?_, ?_⟩
                · rw [e1]
                  exact b1
                · exact hcc.keep (fun v hv => (e2 v).mpr hv) (fun q _ => by rw [e1])
                · exact fun v hv => (e2 v).mpr hv
                · exact fun q _ => by rw [e1]
                · exact fun q _ => by rw [e1]
                · exact fun t' _ h => .inl ((e2 _).mp h)
                · intro _
                  rw [i3.value, ← hname]
                  exact (e2 _).mpr hmv
                · intro env hg
                  refine ⟨env, .alias env child t (by rw [i3.kind]; exact hca) (by rw [i3.alias]; exact ht) ?_,
                    ⟨fun v hv => hg.has v ((e2 v).mp hv), hg.names⟩⟩
                  obtain ⟨t', h1, h2⟩ := lookup_mem (hg.has _ hmv)
                  rw [i3.value, ← hname, h1]
                  have := hg.names _ _ h2
                  rw [hn.uniq t t' this.symm hne]
              · -- the alias is replaced
                rw [if_neg hmv] at hr
                rw [i1.alias, ht] at hr
                cases hr
                have hnc : ∀ q, Closed rt1.heap rt1.metAnchors q → q ≠ n := by
                  rintro q hq rfl
                  cases hq with
                  | leaf _ h1 =>
                    rw [i1.kind] at h1
                    rw [hi.kind] at hk
                    exact h1 hk
                  | alias _ t h1 =>
                    rw [i1.kind] at h1
                    exact hka h1
                  | coll _ h1 h2 h3 h4 => exact hmv (h3 child hmem (by rw [i1.kind]; exact hca))
                have hnc0 : ∀ q, Closed rt.heap rt.metAnchors q → q ≠ n := fun q hq =>
                  hnc q (hq.keep m1 s1)
                have hcl2 : ∀ q, Closed rt1.heap rt1.metAnchors q →
                    (setContent rt1.heap n i t) q = rt1.heap q := fun q hq => setContent_other (hnc q hq) _ _
                have b2 : ∀ p, ∀ c ∈ ((setContent rt1.heap n i t) p).content, rank c < rank p := by
                  intro p c hcm
                  by_cases hp : p = n
                  · subst hp
                    rw [setContent_same] at hcm
                    rcases List.mem_or_eq_of_mem_set hcm with hcm | rfl
                    · exact b1 p c hcm
                    · omega
                  · rw [setContent_other hp] at hcm
                    exact b1 p c hcm
                -- the visit of the alias is the visit of the node
                cases f with
                | zero => cases hv
                | succ f =>
                  have hv' := hv
                  rw [visitNode] at hv
                  have hbare : meet child { rt1 with heap := setContent rt1.heap n i t, dereferenced := rt1.dereferenced ++ [⟨n, child, i⟩] }
                      = { rt1 with heap := setContent rt1.heap n i t, dereferenced := rt1.dereferenced ++ [⟨n, child, i⟩] } := by
                    rw [meet, if_pos]
                    have := i2.anchor child
                    rw [this]
                    exact hn.bare child hca
                  simp only [hbare] at hv
                  rw [show (setContent rt1.heap n i t child).kind = .alias from (i2.kind child).trans hca,
                    show (setContent rt1.heap n i t child).alias = some t from (i2.alias child).trans ht] at hv
                  simp only at hv
                  have hv'' := visit_mono _ _ _ _ hv
                  have mc2 : MetClosed h0 rank (rank t) { rt1 with heap := setContent rt1.heap n i t, dereferenced := rt1.dereferenced ++ [⟨n, child, i⟩] } := by
                    intro t' h1 h2 h3
                    exact (mc t' h1 h2 (by omega)).keep (fun _ h => h) hcl2
                  obtain ⟨v1, v2⟩ := ih t _ rt3 i2 b2 (by omega) (hn.chain child t hca ht) mc2 hv''
                  refine ⟨t, by omega, ?_, ?_, rfl, ?_, ?_, hcl2, b2, v1, ?_, v2⟩
                  · show ((setContent rt1.heap n i t) n).content[i]? = _
                    rw [setContent_same, List.getElem?_set_self (by omega)]
                  · show ((setContent rt1.heap n i t) n).content.take i = _
                    rw [setContent_same, List.take_set_of_le (Nat.le_refl _)]
                  · exact fun q hq => setContent_other hq _ _
                  · exact fun q hq => setContent_other (hnc0 q hq) _ _
                  · intro h
                    rw [v1.inv.kind] at h
                    exact absurd h (hn.chain child t hca ht)
            · rw [replaceAlias, if_neg (by rw [i1.kind]; exact hca)] at hr
              cases hr
              obtain ⟨v1, v2⟩ := ih child rt1 rt3 i1 b1 (by omega) hca (fun t' h1 h2 h3 => mc t' h1 h2 (by omega)) hv
              refine ⟨child, hlt, hii, rfl, rfl, fun _ _ => rfl, fun _ _ => rfl, fun _ _ => rfl, b1, v1, ?_, v2⟩
              intro h
              rw [v1.inv.kind] at h
              exact absurd h hca
          obtain ⟨c', hlt', hic, htk, hme, hoth, hs0, hs1, b2, v1, hal, v2⟩ := step
          have hn3 : rt3.heap n = rt2.heap n := v1.above n hlt'
          have hcl3 : ∀ q, Closed rt1.heap rt1.metAnchors q → rt3.heap q = rt1.heap q := by
            intro q hq
            have h2 : Closed rt2.heap rt2.metAnchors q := hq.keep (by rw [hme]; exact fun _ h => h) hs1
            rw [v1.same q h2, hs1 q hq]
          have hmm : ∀ v ∈ rt1.metAnchors, v ∈ rt3.metAnchors := fun v hv => v1.more v (by rw [hme]; exact hv)
          have hk3 : ∀ {q}, Closed rt1.heap rt1.metAnchors q → Closed rt3.heap rt3.metAnchors q :=
            fun hq => hq.keep hmm hcl3
          have hlen2 : (rt3.heap n).content.length = (rt1.heap n).content.length := by
            rw [v1.inv.len, i1.len]
          have htk1 : (rt3.heap n).content.take (i + 1) = (rt1.heap n).content.take i ++ [c'] := by
            rw [hn3, List.take_add_one, hic, htk]
            rfl
          have t3 : ∀ t, (h0 t).anchor ≠ [] → (h0 t).anchor ∈ rt3.metAnchors →
              (h0 t).anchor ∈ rt1.metAnchors ∨ Closed rt3.heap rt3.metAnchors t := by
            intro t h1 h2
            rcases v1.met t h1 h2 with h | h
            · rw [hme] at h
              exact .inl h
            · exact .inr h
          have := ihk (i + 1) rt3 v1.inv v1.below (by omega) (fun v hv => hmm v (m1 v hv)) (ha.imp id (hmm _))
            (fun q hq => by
              rw [hcl3 q (hq.keep m1 s1), s1 q hq])
            (fun q hq => by
              rw [v1.above q (by omega), hoth q (by rintro rfl; omega), a1 q hq])
            (by
              intro t h1 h2
              rcases t3 t h1 h2 with h | h
              · rcases t1 t h1 h with h | h | h
                · exact .inl h
                · exact .inr (.inl h)
                · exact .inr (.inr (hk3 h))
              · exact .inr (.inr h))
            (by
              intro t h1 h2 h3
              rcases t3 t h1 h2 with h | h
              · exact hk3 (mc t h1 h h3)
              · exact h)
            (by
              rw [htk1]
              intro c hc
              rcases List.mem_append.mp hc with hc | hc
              · obtain ⟨h1, h2⟩ := c1 c hc
                refine ⟨hk3 h1, ?_⟩
                rw [hcl3 c h1]
                exact fun hk => hmm _ (h2 hk)
              · rw [List.mem_singleton] at hc
                subst hc
                exact ⟨v1.closed, hal⟩)
            he
          refine ⟨this.1, fun env env1 hg hr => ?_⟩
          obtain ⟨env2, hr2, hg2⟩ := v2 env1 (by rw [hme]; exact hg)
          refine this.2 env env2 hg2 ?_
          rw [htk1]
          exact readsAll_snoc (readsAll_keep hcl3 hr (fun c hc => (c1 c hc).1)) hr2
      obtain ⟨v1, v2⟩ := loop _ 0 (meet n rt) (hi.meet n) (by rw [meet_heap]; exact hb) (by rw [meet_heap]; omega)
        (fun v hv => (meet_mem n rt).mpr (.inl hv))
        (by
          by_cases h : (rt.heap n).anchor = []
          · exact .inl h
          · exact .inr ((meet_mem n rt).mpr (.inr ⟨h, rfl⟩)))
        (fun q _ => by rw [meet_heap]) (fun q _ => by rw [meet_heap])
        (by
          intro t h1 h2
          rcases (meet_mem n rt).mp h2 with h | ⟨_, h⟩
          · exact .inl h
          · rw [hi.anchor] at h
            exact .inr (.inl (hn.uniq t n h h1)))
        (by
          intro t h1 h2 h3
          rcases (meet_mem n rt).mp h2 with h | ⟨_, h⟩
          · exact (hm t h1 h h3).keep (fun v hv => (meet_mem n rt).mpr (.inl hv)) (fun q _ => by rw [meet_heap])
          · rw [hi.anchor] at h
            rw [hn.uniq t n h h1] at h3
            omega)
        (by simp) he
      refine ⟨v1, fun env hg => ?_⟩
      obtain ⟨env', hr, hg'⟩ := v2 (define rt'.heap n env) (define rt'.heap n env) (by
        have := agree_define hi hg n
        have e : define rt'.heap n env = define rt.heap n env := by
          rw [define, define, v1.inv.anchor, hi.anchor]
        rw [e]
        exact this) (.nil _)
      exact ⟨env', .coll env env' n (by rw [v1.inv.kind, ← hi.kind n]; exact hk) hr, hg'⟩
    · have he' : rt' = meet n rt := by
        rw [visitNode] at he
        simp only [meet_heap] at he
        cases hkk : (rt.heap n).kind with
        | alias =>
          rw [hi.kind] at hkk
          exact absurd hkk hka
        | document => exact absurd (.inl hkk) hk
        | mapping => exact absurd (.inr (.inl hkk)) hk
        | sequence => exact absurd (.inr (.inr hkk)) hk
        | zero | scalar =>
          rw [hkk] at he
          cases he
          rfl
      subst he'
      have hka' : (rt.heap n).kind ≠ .alias := by
        rw [hi.kind]
        exact hka
      have hcl : Closed (meet n rt).heap (meet n rt).metAnchors n := by
        refine .leaf n (by rw [meet_heap]; exact hk) (by rw [meet_heap]; exact hka') ?_
        rw [meet_heap]
        by_cases h : (rt.heap n).anchor = []
        · exact .inl h
        · exact .inr ((meet_mem n rt).mpr (.inr ⟨h, rfl⟩))
      refine ⟨⟨hi.meet n, by rw [meet_heap]; exact hb, hcl, fun v hv => (meet_mem n rt).mpr (.inl hv),
        fun q _ => by rw [meet_heap], fun q _ => by rw [meet_heap], ?_⟩, ?_⟩
      · intro t h1 h2
        rcases (meet_mem n rt).mp h2 with h | ⟨_, h⟩
        · exact .inl h
        · rw [hi.anchor] at h
          rw [hn.uniq t n h h1]
          exact .inr hcl
      · intro env hg
        refine ⟨define rt.heap n env, ?_, agree_define hi hg n⟩
        rw [meet_heap]
        exact .leaf env n hk hka'

/-- The node itself, or what the alias stands for. -/
def Stands (h : Heap) (a b : Nat) : Prop := a = b ∨ ((h a).kind = .alias ∧ (h a).alias = some b)

/-- The same nodes, up to aliases. -/
inductive AllStand (h : Heap) : List Nat → List Nat → Prop
  | nil : AllStand h [] []
  | cons {a b as bs} : Stands h a b → AllStand h as bs → AllStand h (a :: as) (b :: bs)

theorem allStand_refl (h : Heap) (l : List Nat) : AllStand h l l := by
  induction l with
  | nil => exact .nil
  | cons a l ih => exact .cons (.inl rfl) ih

theorem allStand_set {h : Heap} {as bs : List Nat} (ha : AllStand h as bs) {i b t : Nat} (hb : bs[i]? = some b)
    (hc : NoChain h) (hk : (h b).kind = .alias) (ht : (h b).alias = some t) : AllStand h as (bs.set i t) := by
  induction ha generalizing i with
  | nil => exact .nil
  | @cons a b' as bs hs h2 ih =>
    cases i with
    | zero =>
      cases hb
      rw [List.set_cons_zero]
      refine .cons ?_ h2
      rcases hs with rfl | ⟨h3, h4⟩
      · exact .inr ⟨hk, ht⟩
      · exact absurd hk (hc a b h3 h4)
    | succ i => exact .cons hs (ih hb)

/-- Every element is the old one, up to replaced aliases. -/
def Derefs (h0 : Heap) (rt : RT) : Prop := ∀ p, AllStand h0 (h0 p).content (rt.heap p).content

theorem visit_derefs {h0 : Heap} (hc : NoChain h0) (f : Nat) :
    ∀ n rt rt', Inv h0 rt → Derefs h0 rt → visitNode f n rt = .ok rt' → Derefs h0 rt' := by
  induction f with
  | zero =>
    intro n rt rt' _ _ he
    cases he
  | succ f ih =>
    intro n rt rt' hi hd he
    have hm := hi.meet n
    have hd : Derefs h0 (meet n rt) := by
      intro p
      rw [meet_heap]
      exact hd p
    rw [visitNode] at he
    generalize meet n rt = rt at he hm hd
    have loop : ∀ k i rt, Inv h0 rt → Derefs h0 rt → visitChildren (visitNode f) n k i rt = .ok rt' → Derefs h0 rt' := by
      intro k
      induction k with
      | zero =>
        intro i rt _ hd he
        cases he
        exact hd
      | succ k ihk =>
        intro i rt hi hd he
        rw [visitChildren] at he
        cases hii : (rt.heap n).content[i]? with
        | none =>
          rw [hii] at he
          cases he
        | some child =>
          rw [hii] at he
          simp only [Res.bind_eq_ok] at he
          obtain ⟨rt1, h1, rt2, h2, he⟩ := he
          have i1 := hi.replace hc hii h1
          have d1 : Derefs h0 rt1 := by
            rw [replaceAlias] at h1
            split at h1
            · rename_i hk
              split at h1
              · cases h1
                exact hd
              · cases ht : (rt.heap child).alias with
                | none =>
                  rw [ht] at h1
                  cases h1
                | some t =>
                  rw [ht] at h1
                  cases h1
                  intro p
                  show AllStand h0 _ (setContent rt.heap n i t p).content
                  by_cases hp : p = n
                  · subst hp
                    rw [setContent_same]
                    rw [hi.kind] at hk
                    rw [hi.alias] at ht
                    exact allStand_set (hd p) hii hc hk ht
                  · rw [setContent_other hp]
                    exact hd p
            · cases h1
              exact hd
          exact ihk _ _ (visit_inv hc f _ _ _ i1 h2) (ih _ _ _ i1 d1 h2) he
    split at he
    · split at he
      · cases he
      · exact ih _ _ _ hm hd he
    · exact loop _ _ _ hm hd he
    · exact loop _ _ _ hm hd he
    · exact loop _ _ _ hm hd he
    · cases he
      exact hd
    · cases he
      exact hd

/-- The same nodes up to anchors and replaced aliases. -/
structure Same (h h' : Heap) : Prop where
  kind : ∀ p, (h' p).kind = (h p).kind
  style : ∀ p, (h' p).style = (h p).style
  tag : ∀ p, (h' p).tag = (h p).tag
  value : ∀ p, (h' p).value = (h p).value
  alias : ∀ p, (h' p).alias = (h p).alias
  elems : ∀ p, AllStand h (h p).content (h' p).content

theorem coll_not_alias {k : Kind} (h : Coll k) : k ≠ .alias := fun e => not_coll_alias e h

mutual
theorem value_of {h h' : Heap} (hs : Same h h') : ∀ {n v}, Value h n v → Value h' n v
  | _, _, .leaf n h1 h2 => by
    have := Value.leaf (h := h') n (by rw [hs.kind]; exact h1) (by rw [hs.kind]; exact h2)
    rwa [hs.kind, hs.style, hs.tag, hs.value] at this
  | _, _, .alias n t v h1 h2 h3 => .alias n t v (by rw [hs.kind]; exact h1) (by rw [hs.alias]; exact h2) (value_of hs h3)
  | _, _, .coll n vs h1 h2 => by
    have := Value.coll (h := h') n vs (by rw [hs.kind]; exact h1) (values_of hs h2 (hs.elems n))
    rwa [hs.kind, hs.style, hs.tag, hs.value] at this
theorem values_of {h h' : Heap} (hs : Same h h') : ∀ {ns ms vs}, Values h ns vs → AllStand h ns ms → Values h' ms vs
  | _, _, _, .nil, .nil => .nil
  | _, _, _, .cons n ns v vs h1 h2, .cons (b := b) hst h3 => by
    refine .cons b _ v vs ?_ (values_of hs h2 h3)
    rcases hst with rfl | ⟨hk, ht⟩
    · exact value_of hs h1
    · exact value_at hs h1 hk ht
theorem value_at {h h' : Heap} (hs : Same h h') : ∀ {n v t}, Value h n v → (h n).kind = .alias → (h n).alias = some t →
    Value h' t v
  | _, _, _, .leaf n h1 h2, hk, _ => absurd hk h2
  | _, _, t, .alias n t' v h1 h2 h3, _, ht => by
    have : t' = t := by
      rw [h2] at ht
      exact Option.some.inj ht
    rw [← this]
    exact value_of hs h3
  | _, _, _, .coll n vs h1 h2, hk, _ => absurd hk (coll_not_alias h1)
end

mutual
theorem of_value {h h' : Heap} (hs : Same h h') : ∀ {n v}, Value h' n v → Value h n v
  | _, _, .leaf n h1 h2 => by
    rw [hs.kind] at h1 h2
    rw [hs.kind, hs.style, hs.tag, hs.value]
    exact .leaf n h1 h2
  | _, _, .alias n t v h1 h2 h3 => .alias n t v (by rw [← hs.kind]; exact h1) (by rw [← hs.alias]; exact h2) (of_value hs h3)
  | _, _, .coll n vs h1 h2 => by
    rw [hs.kind] at h1
    rw [hs.kind, hs.style, hs.tag, hs.value]
    exact .coll n vs h1 (of_values hs h2 (hs.elems n))
theorem of_values {h h' : Heap} (hs : Same h h') : ∀ {ns ms vs}, Values h' ms vs → AllStand h ns ms → Values h ns vs
  | _, _, _, .nil, .nil => .nil
  | _, _, _, .cons n ns v vs h1 h2, .cons (a := a) hst h3 => by
    refine .cons a _ v vs ?_ (of_values hs h2 h3)
    have hv := of_value hs h1
    rcases hst with rfl | ⟨hk, ht⟩
    · exact hv
    · exact .alias a n v hk ht hv
end

end Verif.RawTransformer
