import Verif.Lemmas.ParserDocsSpec

/-!
Specifications of the productions of streams, which may pass byte order marks and run without open checkpoints.
-/

set_option linter.unusedSimpArgs false
set_option linter.unusedSectionVars false
set_option linter.unusedVariables false

namespace Verif.Parser

open Verif.Token Verif.Lexer Verif.Ast

variable {σ α β : Type} [TokenStream σ] [StreamOk σ]

variable {B n f : Nat}

/-- No byte order mark was passed behind the current position. -/
def NB (A : Abs) : Prop := ∀ q, A.pos ≤ q → q < A.log.length → (curAt A.log q).type ≠ .bom

theorem NB.adv {A A' : Abs} {p : Nat} {ps : List Nat} (h : NB A) (h1 : 1 ≤ A.pos) (ha : Adv A A') (hp : A.pos ≤ p) :
    NB ⟨A'.log, p, ps⟩ := by
  intro q hq1 hq2
  obtain ⟨E, he⟩ := ha.log
  have hq3 : p ≤ q := hq1
  by_cases hl : q < A.log.length
  · show (curAt A'.log q).type ≠ .bom
    rw [he, curAt_append (by omega) (by omega)]
    exact h q (by omega) hl
  · exact ha.clean q (by omega) hq2

/-- Steps at the level of the stream. -/
def SpecS (B n : Nat) (m : M σ α) (post : α → Nat → Nat → Prop) : Prop :=
  ∀ t A, R B t A → NB A → n ≤ A.g →
    Wp B m t (fun a _ A' => NB A' ∧ A.cps.length ≤ A'.cps.length ∧ A.g ≤ A'.g ∧ post a A.g A'.g)

/-- Steps which pass byte order marks only if they succeed. -/
def SpecB (B n : Nat) (m : M σ α) (valid : α → Bool) (inv : α → Prop) (post : α → Nat → Nat → Prop) : Prop :=
  ∀ t A, R B t A → A.cps ≠ [] → NB A → n ≤ A.g →
    Wp B m t (fun a _ A' => inv a ∧ NB A' ∧ A.cps.length ≤ A'.cps.length ∧ A.g ≤ A'.g ∧
      (valid a = true → post a A.g A'.g) ∧ (valid a = false → Adv A A'))

theorem Adv.cps_le {A A' : Abs} (h : Adv A A') : A.cps.length ≤ A'.cps.length := by
  obtain ⟨L, hl, -⟩ := h.cps
  rw [hl, List.length_append]; omega

theorem Spec.b {m : M σ α} {valid : α → Bool} {inv : α → Prop} {post : α → Nat → Nat → Prop}
    (h : Spec B n m (fun a g g' => inv a ∧ (valid a = true → post a g g'))) : SpecB B n m valid inv post := by
  intro t A hr hc hnb hg
  refine (h t A hr hc hg).mono ?_
  intro a t' A' hr' ⟨ha, hi, hp⟩
  exact ⟨hi, hnb.adv hr.pos1 ha ha.pos, ha.cps_le, ha.g_le hr.pos1 hr.posle hr'.posle, hp, fun _ => ha⟩

theorem attempt_s {m : M σ α} {valid : α → Bool} {inv : α → Prop} {post : α → Nat → Nat → Prop}
    (h : SpecB B n m valid inv post) :
    SpecS B n (attempt valid m) (fun a g g' => inv a ∧ (valid a = true → post a g g')) := by
  intro t A hr hnb hg
  unfold attempt
  refine Wp.bind (wp_setCheckpoint hr (fun t1 hr1 _ _ => ?_))
  refine Wp.bind ((h t1 _ hr1 (by simp) hnb hg).mono ?_)
  intro a t2 A2 hr2 ⟨hi, hnb2, hc2, hg2, hv, hw⟩
  have hlen : A.cps.length + 1 ≤ A2.cps.length := by simpa using hc2
  refine Wp.iteB (fun hva => ?_) (fun hva => ?_)
  · refine Wp.bind (wp_commit hr2 (fun t3 hr3 _ _ => ?_))
    refine Wp.pure hr3 ⟨hnb2, ?_, hg2, hi, fun _ => hv hva⟩
    show _ ≤ A2.cps.tail.length
    rw [List.length_tail]; omega
  · have ha := hw hva
    obtain ⟨L, hl, hge⟩ := ha.cps
    obtain ⟨p, ps, hps, hp, hpl⟩ : ∃ p ps, A2.cps = p :: ps ∧ A.pos ≤ p ∧ A.cps.length ≤ ps.length := by
      cases L with
      | nil => exact ⟨A.pos, A.cps, by simpa using hl, Nat.le_refl _, Nat.le_refl _⟩
      | cons x xs => exact ⟨x, xs ++ A.pos :: A.cps, by simpa using hl, hge x (by simp), by simp; omega⟩
    have hp2 : p ≤ A2.log.length :=
      Nat.le_trans ((List.pairwise_cons.1 hr2.sorted).1 p (by simp [hps])) hr2.posle
    refine Wp.bind (wp_rollback hr2 hps (fun t3 hr3 => ?_))
    refine Wp.pure hr3 ⟨?_, hpl, ?_, hi, fun h => by rw [hva] at h; cases h⟩
    · exact hnb.adv (A := ⟨A.log, A.pos, A.pos :: A.cps⟩) hr.pos1 ha hp
    · obtain ⟨E, he⟩ := ha.log
      have he' : A2.log = A.log ++ E := he
      unfold Abs.g
      show gam A.log A.pos ≤ gam A2.log p
      rw [← gam_append hr.posle E, ← he']
      exact gam_mono hr.pos1 hp hp2

theorem SpecS.mono {m : M σ α} {post post' : α → Nat → Nat → Prop} {n' : Nat} (h : SpecS B n m post) (hn : n ≤ n')
    (hp : ∀ a g g', g ≤ g' → post a g g' → post' a g g') : SpecS B n' m post' := by
  intro t A hr hnb hg
  refine (h t A hr hnb (by omega)).mono ?_
  intro a t' A' _ ⟨h1, h2, h3, h4⟩
  exact ⟨h1, h2, h3, hp _ _ _ h3 h4⟩

theorem SpecS.bind {γ : Type} {m : M σ α} {k : α → M σ γ} {post : α → Nat → Nat → Prop} {post' : γ → Nat → Nat → Prop}
    (h : SpecS B n m post)
    (hk : ∀ a g g', n ≤ g → g ≤ g' → post a g g' → SpecS B g' (k a) (fun b _ g'' => post' b g g'')) :
    SpecS B n (m >>= k) post' := by
  intro t A hr hnb hg
  refine Wp.bind ((h t A hr hnb hg).mono ?_)
  intro a t' A' hr' ⟨h1, h2, h3, h4⟩
  refine (hk a _ _ hg h3 h4 t' A' hr' h1 (Nat.le_refl _)).mono ?_
  intro b t'' A'' _ ⟨g1, g2, g3, g4⟩
  exact ⟨g1, by omega, by omega, g4⟩

theorem SpecS.pure {a : α} {post : α → Nat → Nat → Prop} (h : ∀ g, n ≤ g → post a g g) :
    SpecS B n (Pure.pure a : M σ α) post :=
  fun t A hr hnb hg => Wp.pure hr ⟨hnb, Nat.le_refl _, Nat.le_refl _, h _ hg⟩

theorem SpecS.ite {b : Bool} {x y : M σ α} {post : α → Nat → Nat → Prop} (h1 : b = true → SpecS B n x post)
    (h2 : b = false → SpecS B n y post) : SpecS B n (if b = true then x else y) post := by
  cases b
  · exact h2 rfl
  · exact h1 rfl

theorem loop_s {body : α → M σ (Bool × α)} (Inv : α → Prop)
    (hb : ∀ x, Inv x → SpecS B n (body x) (fun r g g' => Inv r.2 ∧ (r.1 = true → g < g'))) :
    ∀ (f : Nat) (n' : Nat) (x : α), n ≤ n' → 2 * B + 1 < f + n' → Inv x → SpecS B n' (loop f body x) (fun y _ _ => Inv y) := by
  intro f
  induction f with
  | zero =>
    intro n' x _ hf _ t A hr _ hg
    have := hr.g_le
    omega
  | succ f ih =>
    intro n' x hn hf hx
    rw [loop]
    refine SpecS.bind ((hb x hx).mono hn (fun _ _ _ _ h => h)) ?_
    intro r g g' hng hgg hp
    refine SpecS.ite (fun hc => ?_) (fun hc => ?_)
    · have := hp.2 hc
      exact ih g' r.2 (by omega) (by omega) hp.1
    · exact SpecS.pure (fun _ _ => hp.1)

theorem tries_s {body : α → M σ (Bool × α)} (Inv : α → Prop)
    (hb : ∀ x, Inv x → SpecB B n (body x) Prod.fst (fun r => Inv r.2) (fun _ g g' => g < g')) (x : α)
    (hf : 2 * B + 1 < f + n) (hx : Inv x) : SpecS B n (tries f body x) (fun y _ _ => Inv y) :=
  loop_s Inv (fun x hx => (attempt_s (hb x hx)).mono (Nat.le_refl _) (fun _ _ _ _ h => h)) f n x (Nat.le_refl _) hf hx

/-! ### Prefixes -/

/-- The body of the loop of `prefixLines`. -/
def prefixBody (f : Nat) (b : Bool) : M σ (Bool × Bool) := do
  let c ← parseCommentLine f
  pure (c, b || c)

theorem prefixBody_spec (hf : 2 * B + 1 < f + n) (b : Bool) :
    Spec B n (prefixBody f b : M σ (Bool × Bool)) (fun r g g' => r.2 = (b || r.1) ∧ (r.1 = true → g < g')) := by
  refine .intro (fun t A hst hg => ?_)
  unfold prefixBody
  wpg

theorem prefixLines_true (hf : 2 * B + 1 < f + n) : Spec B n (prefixLines f true : M σ Bool) (fun r _ _ => r = true) := by
  refine tries_spec (σ := σ) (fun b => b = true) (fun y hy => ?_) true hf rfl
  refine (prefixBody_spec hf y).mono (Nat.le_refl _) ?_
  intro r g g' _ ⟨h1, h2⟩
  exact ⟨by rw [h1, hy]; rfl, h2⟩

theorem prefixLines_false (hf : 2 * B + 1 < f + n) :
    Spec B n (prefixLines f false : M σ Bool) (fun r g g' => r = true → g < g') := by
  refine .intro (fun t A hst hg => ?_)
  obtain ⟨f', rfl⟩ | hf0 : (∃ f', f = f' + 1) ∨ f = 0 := by
    cases f
    · exact .inr rfl
    · exact .inl ⟨_, rfl⟩
  · have hloop : Spec B (n + 1) (loop f' (fun b => attempt Prod.fst (prefixBody (f' + 1) b)) true : M σ Bool)
        (fun r _ _ => r = true) := by
      refine loop_spec (σ := σ) (n := n) (fun b => b = true) (fun y hy => ?_) f' (n + 1) true (by omega) (by omega) rfl
      refine .intro (fun t A hst hg => ?_)
      have := prefixBody_spec (σ := σ) hf y
      wpg
    have hb := prefixBody_spec (σ := σ) hf false
    unfold attempt at hloop
    show Wp B (loop (f' + 1) (fun b => attempt Prod.fst (prefixBody (f' + 1) b)) false) t _
    rw [loop]
    refine Wp.bind ?_
    wp1
    iterate 4 wp1
    rename_i r _ _ _ _ hr
    by_cases hv : r.1 = true
    · have h2 : r.2 = true := by rw [hr.1, hv]; rfl
      have h3 := hr.2 hv
      wp
      all_goals first
        | grind
        | (rw [h2]
           wp
           all_goals grind)
    · wpg
  · subst hf0
    have := hst.r.g_le
    omega

theorem parseDocumentPrefix_b (hf : 2 * B + 1 < f + n) :
    SpecB B n (parseDocumentPrefix f : M σ Bool) id (fun _ => True) (fun _ g g' => g < g') := by
  intro t A hr hc hnb hg
  unfold parseDocumentPrefix
  refine Wp.bind (wp_hasErrors hr ?_)
  refine Wp.iteB (fun _ => ?_) (fun _ => ?_)
  · exact Wp.pure hr ⟨trivial, hnb, Nat.le_refl _, Nat.le_refl _, fun h => (by cases h), fun _ => .refl _⟩
  refine Wp.bind (wp_tok hr ?_)
  refine Wp.ite (fun hb => ?_) (fun hb => ?_)
  · have hl : A.pos = A.log.length := by
      rcases Nat.lt_or_ge A.pos A.log.length with h | h
      · exact absurd (hr.tok ▸ hb) (hnb A.pos (Nat.le_refl _) h)
      · exact Nat.le_antisymm hr.posle h
    refine Wp.bind (wp_next_last hr hl (by simp [hb]) (fun t' x hr' hlt => ?_))
    have hnb' : NB ⟨A.log ++ [x], A.pos + 1, A.cps⟩ := by
      intro q h1 h2
      have h3 : A.pos + 1 ≤ q := h1
      have h4 : q < (A.log ++ [x]).length := h2
      simp at h4
      omega
    refine (prefixLines_true hf t' _ hr' hc (by omega)).mono ?_
    intro a t2 A2 hr2 ⟨ha, hv⟩
    have hge := ha.g_le hr'.pos1 hr'.posle hr2.posle
    refine ⟨trivial, hnb'.adv hr'.pos1 ha ha.pos, ha.cps_le, by omega, fun _ => by omega, fun h => ?_⟩
    rw [hv] at h; cases h
  · exact (Spec.b (valid := id) (inv := fun _ => True) (post := fun _ g g' => g < g')
      ((prefixLines_false hf).mono (Nat.le_refl _) (fun _ _ _ _ h => ⟨trivial, h⟩))) t A hr hc hnb hg

theorem prefixes_s (hf : 2 * B + 1 < f + n) : SpecS B n (prefixes f : M σ Unit) (fun _ _ _ => True) := by
  refine tries_s (σ := σ) (fun _ => True) (fun x _ => ?_) () hf trivial
  intro t A hr hc hnb hg
  refine Wp.bind ((parseDocumentPrefix_b hf t A hr hc hnb hg).mono ?_)
  intro a t' A' hr' ⟨_, h1, h2, h3, h4, h5⟩
  exact Wp.pure hr' ⟨trivial, h1, h2, h3, h4, h5⟩

theorem suffix_b (hf : 2 * B + 1 < f + n) (u : Unit) : SpecB B n (do
    let s ← (parseDocumentSuffix f : M σ Bool)
    pure (s, u)) Prod.fst (fun _ => True) (fun _ g g' => g < g') := by
  apply Spec.b
  refine .intro (fun t A hst hg => ?_)
  wpg

theorem parseSuffixesAndPrefixes_b (hf : 2 * B + 1 < f + n) :
    SpecB B n (parseSuffixesAndPrefixes f : M σ Bool) id (fun _ => True) (fun _ g g' => g < g') := by
  intro t A hr hc hnb hg
  unfold parseSuffixesAndPrefixes
  refine Wp.bind (wp_hasErrors hr ?_)
  refine Wp.iteB (fun _ => ?_) (fun _ => ?_)
  · exact Wp.pure hr ⟨trivial, hnb, Nat.le_refl _, Nat.le_refl _, fun h => (by cases h), fun _ => .refl _⟩
  refine Wp.bind ((parseDocumentSuffix_spec hf t A hr hc hg).mono ?_)
  intro s t1 A1 hr1 ⟨ha, hs⟩
  have hnb1 := hnb.adv (ps := A1.cps) hr.pos1 ha ha.pos
  have hge := ha.g_le hr.pos1 hr.posle hr1.posle
  refine Wp.iteN (fun h => ?_) (fun h => ?_)
  · exact Wp.pure hr1 ⟨trivial, hnb1, ha.cps_le, hge, fun h => (by cases h), fun _ => ha⟩
  have hlt := hs h
  have hcl := ha.cps_le
  have hS : SpecS B n (do
      tries f (fun u => do
        let s ← (parseDocumentSuffix f : M σ Bool)
        pure (s, u)) ()
      prefixes f
      pure true) (fun b _ _ => b = true) := by
    refine SpecS.bind (tries_s (σ := σ) (fun _ => True) (fun x _ => suffix_b hf x) () hf trivial) ?_
    intro _ g g' h1 h2 _
    refine SpecS.bind (prefixes_s (n := g') (by omega)) ?_
    intro _ g2 g3 _ _ _
    exact SpecS.pure (fun _ _ => rfl)
  refine (hS t1 A1 hr1 hnb1 (by omega)).mono ?_
  intro b t2 A2 hr2 ⟨h1, h2, h3, h4⟩
  refine ⟨trivial, h1, by omega, by omega, fun _ => by omega, fun h => ?_⟩
  rw [h4] at h; cases h

/-! ### The stream -/

theorem addDocument_s (hf : 2 * B + 3 < f + n) (docs : List Node) (hd : ElemsOk docs) :
    SpecS B n (addDocument f docs : M σ (List Node)) (fun r _ _ => ElemsOk r) := by
  refine SpecS.bind (attempt_s (Spec.b (inv := NodeOk) (post := fun _ _ _ => True)
    ((parseAnyDocument_spec hf).mono (Nat.le_refl _) (fun _ _ _ _ h => ⟨h, fun _ => trivial⟩)))) ?_
  intro d g g' _ _ ⟨h1, _⟩
  refine SpecS.ite (fun hv => ?_) (fun hv => ?_)
  · exact SpecS.pure (fun _ _ => elemsOk_snoc hd h1 hv)
  · exact SpecS.pure (fun _ _ => hd)

theorem SpecS.tok {m : Tok → M σ α} {post : α → Nat → Nat → Prop}
    (h : ∀ t A, R B t A → NB A → n ≤ A.g →
      Wp B (m t.tok) t (fun a _ A' => NB A' ∧ A.cps.length ≤ A'.cps.length ∧ A.g ≤ A'.g ∧ post a A.g A'.g)) :
    SpecS B n (Parser.tok >>= m) post := by
  intro t A hr hnb hg
  exact Wp.bind (wp_tok hr (h t A hr hnb hg))

theorem streamStep_s (hf : 2 * B + 3 < f + n) (docs : List Node) (hd : ElemsOk docs) :
    SpecS B n (streamStep f docs : M σ (Bool × List Node)) (fun r g g' => ElemsOk r.2 ∧ (r.1 = true → g < g')) := by
  unfold streamStep
  refine SpecS.bind (attempt_s (parseSuffixesAndPrefixes_b (by omega))) ?_
  intro s g g' hg1 hg2 ⟨_, hs⟩
  refine SpecS.ite (fun h => ?_) (fun h => ?_)
  · have := hs h
    refine SpecS.bind (addDocument_s (by omega) docs hd) ?_
    intro docs' g2 g3 _ _ hd'
    exact SpecS.pure (fun _ _ => ⟨hd', fun _ => by omega⟩)
  · refine SpecS.tok (fun t A hr hnb hg => ?_)
    refine Wp.ite (fun hb => ?_) (fun hb => ?_)
    · have hl : A.pos = A.log.length := by
        rcases Nat.lt_or_ge A.pos A.log.length with h | h
        · exact absurd (hr.tok ▸ hb) (hnb A.pos (Nat.le_refl _) h)
        · exact Nat.le_antisymm hr.posle h
      refine Wp.bind (wp_next_last hr hl (by simp [hb]) (fun t' x hr' hlt => ?_))
      refine Wp.pure hr' ⟨?_, Nat.le_refl _, by omega, hd, fun _ => by omega⟩
      intro q h1 h2
      have h3 : A.pos + 1 ≤ q := h1
      have h4 : q < (A.log ++ [x]).length := h2
      simp at h4
      omega
    · have hS : SpecS B g' (do
          let c ← attempt id (parseCommentLine f : M σ Bool)
          if c then pure (true, docs) else
          let d ← attempt validNode (parseExplicitDocument f)
          if validNode d then pure (true, docs ++ [d]) else pure (false, docs))
          (fun r g g' => ElemsOk r.2 ∧ (r.1 = true → g < g')) := by
        refine SpecS.bind (attempt_s (Spec.b (inv := fun _ => True) (post := fun _ g g' => g < g')
          ((parseCommentLine_spec (by omega)).mono (Nat.le_refl _) (fun _ _ _ _ h => ⟨trivial, h⟩)))) ?_
        intro c g g' _ _ ⟨_, hc⟩
        refine SpecS.ite (fun h => ?_) (fun h => ?_)
        · exact SpecS.pure (fun _ _ => ⟨hd, fun _ => by have := hc h; omega⟩)
        refine SpecS.bind (attempt_s (Spec.b (inv := NodeOk) (post := fun _ g g' => g < g')
          ((parseExplicitDocument_spec (by omega)).mono (Nat.le_refl _) (fun _ _ _ _ h => h)))) ?_
        intro d g2 g3 _ _ ⟨h1, h2⟩
        refine SpecS.ite (fun hv => ?_) (fun hv => ?_)
        · exact SpecS.pure (fun _ _ => ⟨elemsOk_snoc hd h1 hv, fun _ => by have := h2 hv; omega⟩)
        · exact SpecS.pure (fun _ _ => ⟨hd, fun h => by cases h⟩)
      refine (hS t A hr hnb hg).mono ?_
      intro a t' A' _ ⟨h1, h2, h3, h4, h5⟩
      exact ⟨h1, h2, h3, h4, fun h => by have := h5 h; omega⟩

theorem parseStream_s (hf : 2 * B + 3 < f + n) :
    SpecS B n (parseStream f : M σ Node) (fun r _ _ => ∃ docs, r = .stream docs ∧ ElemsOk docs) := by
  unfold parseStream
  refine SpecS.bind (prefixes_s (by omega)) ?_
  intro _ g g' _ _ _
  refine SpecS.bind (addDocument_s (by omega) [] elemsOk_nil) ?_
  intro docs g1 g2 _ _ hd
  refine SpecS.bind (loop_s ElemsOk (n := g2) (fun x hx => streamStep_s (by omega) x hx) f g2 docs (Nat.le_refl _) (by omega) hd) ?_
  intro docs' g3 g4 _ _ hd'
  exact SpecS.pure (fun _ _ => ⟨docs', rfl, hd'⟩)

end Verif.Parser
