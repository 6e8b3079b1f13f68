import Verif.Lemmas.TextBlocks
import Verif.Lemmas.ParserEntry

/-!
What the productions of documents and of streams have read.
-/

set_option linter.unusedSimpArgs false
set_option linter.unusedSectionVars false
set_option linter.unusedVariables false
set_option linter.unnecessarySeqFocus false

namespace Verif.Parser

open Verif.Token Verif.Lexer Verif.Ast Verif.Spec.Says

variable {σ α β : Type} [TokenStream σ] [StreamOk σ] [TextStream σ]

variable {B f : Nat} {S : List Char}

/-! ### Directives -/

theorem parseReservedDirective_t : TSpec B S (parseReservedDirective f : M σ Bool) (fun _ _ _ => True) := by
  refine .intro (fun t A hst => ?_)
  have := tries_t (σ := σ) (B := B) (S := S) (f := f)
    (body := fun u => do
      let s ← parseSeparateInLine f
      if !s then pure (false, u) else
      let t ← tok
      if t.type ≠ .string then pure (false, u) else do
      next
      pure (true, u)) (fun _ _ _ _ => True)
    (fun y => .intro (fun t A hst => by tp <;> grind)) (by grind) ()
  unfold parseReservedDirective
  tp <;> grind

theorem parseLocalTagPrefix_t : TSpec B S (parseLocalTagPrefix : M σ Bool) (fun _ _ _ => True) := by
  refine .intro (fun t A hst => ?_)
  unfold parseLocalTagPrefix
  tp <;> grind

theorem parseTagPrefix_t : TSpec B S (parseTagPrefix : M σ Bool) (fun _ _ _ => True) := by
  refine .intro (fun t A hst => ?_)
  unfold parseTagPrefix
  tp <;> grind

theorem parseTagDirective_t : TSpec B S (parseTagDirective f : M σ Bool) (fun _ _ _ => True) := by
  refine .intro (fun t A hst => ?_)
  unfold parseTagDirective
  tp <;> grind

theorem parseYAMLVersion_t : TSpec B S (parseYAMLVersion : M σ Bool) (fun _ _ _ => True) := by
  refine .intro (fun t A hst => ?_)
  unfold parseYAMLVersion
  tp <;> grind

theorem parseYAMLDirective_t : TSpec B S (parseYAMLDirective f : M σ Bool) (fun _ _ _ => True) := by
  refine .intro (fun t A hst => ?_)
  unfold parseYAMLDirective
  tp <;> grind

macro_rules
  | `(tactic| wpt) => `(tactic| first
    | exact St.keyword1 (TSt.st (by assumption)) (by assumption)
    | exact St.keyword2 (TSt.st (by assumption)) (by assumption)
    | fail)

theorem parseDirective_t : TSpec B S (parseDirective f : M σ Bool) (fun _ _ _ => True) := by
  refine .intro (fun t A hst => ?_)
  unfold parseDirective
  tp <;> grind

/-! ### Documents -/

theorem parseBareDocument_t :
    TSpec B S (parseBareDocument f : M σ Node) (fun r A A' => validNode r = true → Saying A.x A'.x r) := by
  refine .intro (fun t A hst => ?_)
  have hn : ∀ ind ctx, TSpec B S ((calls (σ := σ) f).node ind ctx) _ := (calls_t f).2.1
  unfold parseBareDocument
  tp <;> grind [okNode]

theorem parseExplicitDocument_t :
    TSpec B S (parseExplicitDocument f : M σ Node) (fun r A A' => validNode r = true → Saying A.x A'.x r) := by
  refine .intro (fun t A hst => ?_)
  have := invalid_invalid
  unfold parseExplicitDocument
  tp <;> grind [Saying.wide, saying_null]

theorem parseDirectiveDocument_t :
    TSpec B S (parseDirectiveDocument f : M σ Node) (fun r A A' => validNode r = true → Saying A.x A'.x r) := by
  refine .intro (fun t A hst => ?_)
  have := invalid_invalid
  have := tries_t (σ := σ) (B := B) (S := S) (f := f)
    (body := fun u => do
      let d ← parseDirective f
      pure (d, u)) (fun _ _ _ _ => True)
    (fun y => .intro (fun t A hst => by tp <;> grind)) (by grind) ()
  unfold parseDirectiveDocument
  tp <;> grind [Saying.wide]

theorem parseAnyDocument_t :
    TSpec B S (parseAnyDocument f : M σ Node) (fun r A A' => validNode r = true → Saying A.x A'.x r) := by
  refine .intro (fun t A hst => ?_)
  have := invalid_invalid
  unfold parseAnyDocument
  tp <;> grind [Saying.wide]

theorem parseDocumentSuffix_t : TSpec B S (parseDocumentSuffix f : M σ Bool) (fun _ _ _ => True) := by
  refine .intro (fun t A hst => ?_)
  unfold parseDocumentSuffix
  tp <;> grind

/-! ### Steps at the level of the stream -/

/-- What holds between steps at the level of the stream. -/
structure Even (B : Nat) (S : List Char) (t : P σ) (A : Abs) : Prop where
  r : R B t A
  good : Genuine S t A
  nb : NB A

/-- Steps at the level of the stream. -/
def TSpecS (B : Nat) (S : List Char) (m : M σ α) (post : α → Txt → Txt → Prop) : Prop :=
  ∀ t A, Even B S t A → Pt B m t (fun a t' A' => Even B S t' A' ∧ A.cps.length ≤ A'.cps.length ∧ A.x ≤ A'.x ∧ post a A.x A'.x)

/-- Steps which pass byte order marks only if they succeed. -/
def TSpecB (B : Nat) (S : List Char) (m : M σ α) (valid : α → Bool) (post : α → Txt → Txt → Prop) : Prop :=
  ∀ t A, Even B S t A → A.cps ≠ [] → Pt B m t (fun a t' A' => Even B S t' A' ∧ A.cps.length ≤ A'.cps.length ∧ A.x ≤ A'.x ∧
    (valid a = true → post a A.x A'.x) ∧ (valid a = false → Adv A A'))

theorem TSpec.b {m : M σ α} {valid : α → Bool} {post : α → Txt → Txt → Prop}
    (h : TSpec B S m (fun a A A' => valid a = true → post a A.x A'.x)) : TSpecB B S m valid post := by
  intro t A hs hc
  refine (h t A hs.r hs.good hc).mono ?_
  intro a t' A' hr' ⟨hg, ha, hp⟩
  exact ⟨⟨hr', hg, hs.nb.adv hs.r.pos1 ha ha.pos⟩, ha.cps_le, x_le ha.log ha.pos hs.r.posle, hp, fun _ => ha⟩

theorem attempt_st {m : M σ α} {valid : α → Bool} {post : α → Txt → Txt → Prop} (h : TSpecB B S m valid post) :
    TSpecS B S (attempt valid m) (fun a g g' => valid a = true → post a g g') := by
  intro t A hs
  unfold attempt
  refine Pt.bind (Pt.of (Q := fun _ t' A' => A' = ⟨A.log, A.pos, A.pos :: A.cps⟩)
    (wp_setCheckpoint hs.r (fun t' _ _ _ => rfl)) ?_)
  rintro _ t1 _ e1 hr1 rfl
  have hs1 : t1.src.stream = t.src.stream := by
    cases e1
    exact setCheckpoint_stream _
  have hE1 : Even B S t1 ⟨A.log, A.pos, A.pos :: A.cps⟩ :=
    ⟨hr1, ⟨hs.good.orig, hs1 ▸ hs.good.sound, hs1 ▸ hs.good.text⟩, hs.nb⟩
  refine Pt.bind ((h t1 _ hE1 (by simp)).mono ?_)
  intro a t2 A2 hr2 ⟨hE2, hc2, hx2, hv, hw⟩
  have hlen : A.cps.length + 1 ≤ A2.cps.length := by simpa using hc2
  refine Pt.iteB (fun hva => ?_) (fun hva => ?_)
  · refine Pt.bind (Pt.of (Q := fun _ t' A' => A' = ⟨A2.log, A2.pos, A2.cps.tail⟩)
      (wp_commit hr2 (fun t' _ _ _ => rfl)) ?_)
    rintro _ t3 _ e3 hr3 rfl
    have hs3 : t3.src.stream = t2.src.stream := by
      cases e3
      exact commit_stream _
    refine Pt.pure hr3 ⟨⟨hr3, ⟨hE2.good.orig, hs3 ▸ hE2.good.sound, hs3 ▸ hE2.good.text⟩, hE2.nb⟩, ?_, hx2, fun _ => hv hva⟩
    show _ ≤ A2.cps.tail.length
    rw [List.length_tail]; omega
  · have ha := hw hva
    obtain ⟨L, hl, hge⟩ := ha.cps
    obtain ⟨p, ps, hps, hp, hpl⟩ : ∃ p ps, A2.cps = p :: ps ∧ A.pos ≤ p ∧ A.cps.length ≤ ps.length := by
      cases L with
      | nil => exact ⟨A.pos, A.cps, by simpa using hl, Nat.le_refl _, Nat.le_refl _⟩
      | cons x xs => exact ⟨x, xs ++ A.pos :: A.cps, by simpa using hl, hge x (by simp), by simp; omega⟩
    refine Pt.bind (Pt.of (Q := fun _ t' A' => A' = ⟨A2.log, p, ps⟩) (wp_rollback hr2 hps (fun t' _ => rfl)) ?_)
    rintro _ t3 _ e3 hr3 rfl
    have hs3 : t3.src.stream = t2.src.stream := by
      unfold Parser.rollback at e3
      repeat' split at e3
      all_goals first | (cases e3; exact rollback_stream _) | cases e3
    refine Pt.pure hr3 ⟨⟨hr3, ⟨hE2.good.orig, hs3 ▸ hE2.good.sound, hs3 ▸ hE2.good.text⟩, ?_⟩, hpl, ?_,
      fun h => by rw [hva] at h; cases h⟩
    · exact hs.nb.adv (A := ⟨A.log, A.pos, A.pos :: A.cps⟩) hs.r.pos1 ha hp
    · exact x_le ha.log hp hs.r.posle

theorem TSpecS.mono {m : M σ α} {post post' : α → Txt → Txt → Prop} (h : TSpecS B S m post)
    (hp : ∀ a g g', g ≤ g' → post a g g' → post' a g g') : TSpecS B S m post' := by
  intro t A hs
  refine (h t A hs).mono ?_
  intro a t' A' _ ⟨h1, h2, h3, h4⟩
  exact ⟨h1, h2, h3, hp _ _ _ h3 h4⟩

theorem TSpecS.bind {γ : Type} {m : M σ α} {k : α → M σ γ} {post : α → Txt → Txt → Prop} {post' : γ → Txt → Txt → Prop}
    (h : TSpecS B S m post)
    (hk : ∀ a g g', g ≤ g' → post a g g' → TSpecS B S (k a) (fun b h h' => h = g' → post' b g h')) :
    TSpecS B S (m >>= k) post' := by
  intro t A hs
  refine Pt.bind ((h t A hs).mono ?_)
  intro a t' A' hr' ⟨h1, h2, h3, h4⟩
  refine (hk a _ _ h3 h4 t' A' h1).mono ?_
  intro b t'' A'' _ ⟨g1, g2, g3, g4⟩
  exact ⟨g1, by omega, List.IsPrefix.trans h3 g3, g4 rfl⟩

theorem TSpecS.pure {a : α} {post : α → Txt → Txt → Prop} (h : ∀ g, post a g g) : TSpecS B S (Pure.pure a : M σ α) post :=
  fun t A hs => Pt.pure hs.r ⟨hs, Nat.le_refl _, List.prefix_refl _, h _⟩

theorem TSpecS.ite {b : Bool} {x y : M σ α} {post : α → Txt → Txt → Prop} (h1 : b = true → TSpecS B S x post)
    (h2 : b = false → TSpecS B S y post) : TSpecS B S (if b = true then x else y) post := by
  cases b
  · exact h2 rfl
  · exact h1 rfl

theorem loop_st {body : α → M σ (Bool × α)} (Inv : Txt → α → Txt → α → Prop) (hr : ∀ g x, Inv g x g x)
    (hb : ∀ x, TSpecS B S (body x) (fun r g g' => Inv g x g' r.2))
    (ht : ∀ g x g' y g'' z, Inv g x g' y → Inv g' y g'' z → Inv g x g'' z) :
    ∀ (f : Nat) (x : α), TSpecS B S (loop f body x) (fun y g g' => Inv g x g' y) := by
  intro f
  induction f with
  | zero =>
    intro x t A hs a t' e
    cases e
  | succ f ih =>
    intro x
    rw [loop]
    refine TSpecS.bind (hb x) ?_
    intro r g g' hg hp
    refine TSpecS.ite (fun hc => ?_) (fun hc => ?_)
    · exact (ih r.2).mono (fun y h h' _ hi he => by subst he; exact ht _ _ _ _ _ _ hp hi)
    · exact TSpecS.pure (fun h he => by subst he; exact hp)

theorem tries_st {body : α → M σ (Bool × α)} (hb : ∀ x, TSpecB B S (body x) Prod.fst (fun _ _ _ => True)) (x : α) :
    TSpecS B S (tries f body x) (fun _ _ _ => True) :=
  loop_st (fun _ _ _ _ => True) (fun _ _ => trivial) (fun x => (attempt_st (hb x)).mono (fun _ _ _ _ _ => trivial))
    (fun _ _ _ _ _ _ _ _ => trivial) f x

/-- A byte order mark which was not passed before. -/
theorem next_even {t : P σ} {A : Abs} (hs : Even B S t A) (hb : t.tok.type = .bom) :
    Pt B (next : M σ Unit) t (fun _ t' A' => Even B S t' A' ∧ A'.cps = A.cps ∧ A.x ≤ A'.x) := by
  have hR := hs.r
  have hl : A.pos = A.log.length := by
    rcases Nat.lt_or_ge A.pos A.log.length with h | h
    · exact absurd (hR.tok ▸ hb) (hs.nb A.pos (Nat.le_refl _) h)
    · exact Nat.le_antisymm hR.posle h
  cases hi : t.src.ind with
  | none =>
    obtain ⟨hpos, hR'⟩ := step_pull hR hi
    refine Pt.of (Q := fun _ _ A' => A' = ⟨A.log ++ [(TokenStream.pull t.src.stream).1], A.pos + 1, A.cps⟩)
      (wp_of_step hR' (fun t' hr => rfl)) ?_
    rintro _ t' A' e hr rfl
    have hst : t'.src.stream = (TokenStream.pull t.src.stream).2 := by
      rw [next_stream e]
      exact (idx_next_pull t.src A.log.length (sq (A.log ++ [(TokenStream.pull t.src.stream).1])) hi (by simp [sq])).2.1
    refine ⟨⟨hr, ⟨?_, ?_, ?_⟩, ?_⟩, rfl, x_le ⟨_, rfl⟩ (Nat.le_succ _) hR.posle⟩
    · intro x hx
      rcases List.mem_append.1 hx with hx | hx
      · exact hs.good.orig x hx
      · rw [List.mem_singleton.1 hx]
        exact TextStream.pull_orig _ hR.sinv hs.good.sound
    · rw [hst]
      exact TextStream.pull_sound _ hR.sinv hs.good.sound
    · rw [hst, ← hs.good.text, TextStream.pull_left _ hR.sinv]
      simp
    · intro q h1 h2
      have h3 : A.pos + 1 ≤ q := h1
      have h4 : q < (A.log ++ [(TokenStream.pull t.src.stream).1]).length := h2
      simp at h4
      omega
  | some i =>
    obtain ⟨hpos, -⟩ := step_buf hR hi (by omega)
    omega

/-! ### Prefixes -/

theorem prefixLines_t {b : Bool} :
    TSpec B S (prefixLines f b : M σ Bool) (fun r _ _ => b = true → r = true) := by
  refine tries_t (σ := σ) (fun _ _ x y => x = true → y = true) (fun x => .intro (fun t A hst => ?_)) (by grind) b
  tp <;> grind

theorem parseDocumentPrefix_bt : TSpecB B S (parseDocumentPrefix f : M σ Bool) id (fun _ _ _ => True) := by
  intro t A hs hc
  unfold parseDocumentPrefix
  refine Pt.bind (Pt.of (Q := fun _ t' A' => t = t' ∧ A = A') (wp_hasErrors hs.r ⟨rfl, rfl⟩) ?_)
  rintro e _ _ - - ⟨rfl, rfl⟩
  refine Pt.iteB (fun _ => ?_) (fun _ => ?_)
  · exact Pt.pure hs.r ⟨hs, Nat.le_refl _, List.prefix_refl _, fun h => (by cases h), fun _ => .refl _⟩
  refine Pt.bind (Pt.of (Q := fun a t' A' => t = t' ∧ A = A' ∧ a = t.tok) (wp_tok hs.r ⟨rfl, rfl, rfl⟩) ?_)
  rintro _ _ _ - - ⟨rfl, rfl, rfl⟩
  refine Pt.ite (fun hb => ?_) (fun hb => ?_)
  · refine Pt.bind ((next_even hs hb).mono ?_)
    intro _ t1 A1 hr1 ⟨h1, h2, h3⟩
    refine (prefixLines_t t1 A1 hr1 h1.good (by rw [h2]; exact hc)).mono ?_
    intro a t2 A2 hr2 ⟨hg, ha, hv⟩
    have hcl : A1.cps.length ≤ A2.cps.length := ha.cps_le
    rw [h2] at hcl
    refine ⟨⟨hr2, hg, h1.nb.adv hr1.pos1 ha ha.pos⟩, hcl, List.IsPrefix.trans h3 (x_le ha.log ha.pos hr1.posle),
      fun _ => trivial, fun h => ?_⟩
    rw [hv rfl] at h; cases h
  · exact (TSpec.b (valid := id) (post := fun _ _ _ => True) ((prefixLines_t (f := f)).mono (fun _ _ _ _ _ _ => trivial))) t A hs hc

theorem prefixes_st : TSpecS B S (prefixes f : M σ Unit) (fun _ _ _ => True) := by
  refine tries_st (fun x => ?_) ()
  intro t A hs hc
  refine Pt.bind ((parseDocumentPrefix_bt t A hs hc).mono ?_)
  intro a t' A' hr' ⟨h1, h2, h3, h4, h5⟩
  exact Pt.pure hr' ⟨h1, h2, h3, h4, h5⟩

theorem suffix_bt (u : Unit) : TSpecB B S (do
    let s ← (parseDocumentSuffix f : M σ Bool)
    pure (s, u)) Prod.fst (fun _ _ _ => True) := by
  apply TSpec.b
  refine .intro (fun t A hst => ?_)
  tp <;> grind

theorem parseSuffixesAndPrefixes_bt : TSpecB B S (parseSuffixesAndPrefixes f : M σ Bool) id (fun _ _ _ => True) := by
  intro t A hs hc
  unfold parseSuffixesAndPrefixes
  refine Pt.bind (Pt.of (Q := fun _ t' A' => t = t' ∧ A = A') (wp_hasErrors hs.r ⟨rfl, rfl⟩) ?_)
  rintro e _ _ - - ⟨rfl, rfl⟩
  refine Pt.iteB (fun _ => ?_) (fun _ => ?_)
  · exact Pt.pure hs.r ⟨hs, Nat.le_refl _, List.prefix_refl _, fun h => (by cases h), fun _ => .refl _⟩
  refine Pt.bind ((parseDocumentSuffix_t t A hs.r hs.good hc).mono ?_)
  intro s t1 A1 hr1 ⟨hg, ha, _⟩
  have hE1 : Even B S t1 A1 := ⟨hr1, hg, hs.nb.adv hs.r.pos1 ha ha.pos⟩
  have hx := x_le ha.log ha.pos hs.r.posle
  refine Pt.iteN (fun h => ?_) (fun h => ?_)
  · exact Pt.pure hr1 ⟨hE1, ha.cps_le, hx, fun h => (by cases h), fun _ => ha⟩
  have hcl := ha.cps_le
  have hS : TSpecS B S (do
      tries f (fun u => do
        let s ← (parseDocumentSuffix f : M σ Bool)
        pure (s, u)) ()
      prefixes f
      pure true) (fun b _ _ => b = true) := by
    refine TSpecS.bind (tries_st suffix_bt ()) ?_
    intro _ g g' _ _
    refine TSpecS.bind prefixes_st ?_
    intro _ g2 g3 _ _
    exact TSpecS.pure (fun _ _ _ => rfl)
  refine (hS t1 A1 hE1).mono ?_
  intro b t2 A2 hr2 ⟨h1, h2, h3, h4⟩
  refine ⟨h1, by omega, List.IsPrefix.trans hx h3, fun _ => trivial, fun h => ?_⟩
  rw [h4] at h; cases h

/-! ### The stream -/

/-- The documents of a stream. -/
def DocList (g : Txt) (docs : List Node) : Prop := ∃ u, Stream docs u ∧ Btw ⟨[]⟩ g u

theorem DocList.wide {a b : Txt} {ds : List Node} (h : DocList a ds) (h1 : a ≤ b) : DocList b ds := by
  obtain ⟨u, hu, hb⟩ := h
  exact ⟨u, hu, hb.wide (List.prefix_refl _) h1⟩

theorem docs_more {a b c : Txt} {ds : List Node} {d : Node} (h : DocList a ds) (h1 : Saying b c d) (l : a ≤ b) : DocList c (ds ++ [d]) := by
  obtain ⟨u, hu, hb⟩ := h
  obtain ⟨w, hw, hd⟩ := h1
  exact ⟨_, .more _ _ _ _ hu hw, hb.app l hd⟩

theorem addDocument_st (docs : List Node) :
    TSpecS B S (addDocument f docs : M σ (List Node)) (fun r g g' => DocList g docs → DocList g' r) := by
  refine TSpecS.bind (attempt_st (TSpec.b (post := fun d g g' => Saying g g' d) parseAnyDocument_t)) ?_
  intro d g g' hg hp
  refine TSpecS.ite (fun hv => ?_) (fun hv => ?_)
  · exact TSpecS.pure (fun h he hd => by subst he; exact docs_more hd (hp hv) (List.prefix_refl _))
  · exact TSpecS.pure (fun h he hd => by subst he; exact hd.wide hg)

theorem TSpecS.tok {m : Tok → M σ α} {post : α → Txt → Txt → Prop}
    (h : ∀ t A, Even B S t A →
      Pt B (m t.tok) t (fun a t' A' => Even B S t' A' ∧ A.cps.length ≤ A'.cps.length ∧ A.x ≤ A'.x ∧ post a A.x A'.x)) :
    TSpecS B S (Parser.tok >>= m) post := by
  intro t A hs
  refine Pt.bind (Pt.of (Q := fun a t' A' => t = t' ∧ A = A' ∧ a = t.tok) (wp_tok hs.r ⟨rfl, rfl, rfl⟩) ?_)
  rintro _ _ _ - - ⟨rfl, rfl, rfl⟩
  exact h t A hs

theorem streamStep_st (docs : List Node) :
    TSpecS B S (streamStep f docs : M σ (Bool × List Node)) (fun r g g' => DocList g docs → DocList g' r.2) := by
  unfold streamStep
  refine TSpecS.bind (attempt_st parseSuffixesAndPrefixes_bt) ?_
  intro s g g' hg _
  refine TSpecS.ite (fun h => ?_) (fun h => ?_)
  · refine TSpecS.bind (addDocument_st docs) ?_
    intro docs' g2 g3 _ hd
    exact TSpecS.pure (fun _ he hg2 hdocs => by subst he; subst hg2; exact hd (hdocs.wide hg))
  · refine TSpecS.tok (fun t A hs => ?_)
    refine Pt.ite (fun hb => ?_) (fun hb => ?_)
    · refine Pt.bind ((next_even hs hb).mono ?_)
      intro _ t1 A1 hr1 ⟨h1, h2, h3⟩
      refine Pt.pure hr1 ⟨h1, by rw [h2]; exact Nat.le_refl _, h3, fun he hd => ?_⟩
      exact hd.wide (List.IsPrefix.trans hg (he ▸ h3))
    · have hS : TSpecS B S (do
          let c ← attempt id (parseCommentLine f : M σ Bool)
          if c then pure (true, docs) else
          let d ← attempt validNode (parseExplicitDocument f)
          if validNode d then pure (true, docs ++ [d]) else pure (false, docs))
          (fun r g g' => DocList g docs → DocList g' r.2) := by
        refine TSpecS.bind (attempt_st (TSpec.b (post := fun _ _ _ => True)
          (parseCommentLine_t.mono (fun _ _ _ _ _ _ => trivial)))) ?_
        intro c g g' hg _
        refine TSpecS.ite (fun h => ?_) (fun h => ?_)
        · exact TSpecS.pure (fun _ he hd => by subst he; exact hd.wide hg)
        refine TSpecS.bind (attempt_st (TSpec.b (post := fun d g g' => Saying g g' d) parseExplicitDocument_t)) ?_
        intro d g2 g3 hg2 hp
        refine TSpecS.ite (fun hv => ?_) (fun hv => ?_)
        · exact TSpecS.pure (fun _ he h2 hd => by subst he; subst h2; exact docs_more (hd.wide hg) (hp hv) (List.prefix_refl _))
        · exact TSpecS.pure (fun _ he h2 hd => by subst he; subst h2; exact (hd.wide hg).wide hg2)
      refine (hS t A hs).mono ?_
      intro a t' A' _ ⟨h1, h2, h3, h4⟩
      exact ⟨h1, h2, h3, fun he hd => h4 (he ▸ hd.wide hg)⟩

theorem parseStream_st : TSpecS B S (parseStream f : M σ Node) (fun r g g' => ∃ docs, r = .stream docs ∧ DocList g' docs) := by
  unfold parseStream
  refine TSpecS.bind prefixes_st ?_
  intro _ g g' _ _
  refine TSpecS.bind (addDocument_st []) ?_
  intro docs g1 g2 _ hd
  refine TSpecS.bind (loop_st (fun g x g' y => DocList g x → DocList g' y) (fun _ _ h => h) streamStep_st
    (fun _ _ _ _ _ _ h1 h2 h => h2 (h1 h)) f docs) ?_
  intro docs' g3 g4 _ hd'
  refine TSpecS.pure (fun h he h3 h4 => ⟨docs', rfl, ?_⟩)
  subst he; subst h3
  exact hd' (hd ⟨[], .none, .nil (List.nil_prefix)⟩)

/-- The whole parser has read its tree. -/
theorem parse_reads {s : σ} {pool : List Buf} {f : Nat} {n : Node} {t' : P σ} (hs : StreamOk.inv s) (hp : Empty pool)
    (hg : TextStream.sound s) (e : parse f (newParser (CPAccessor.new s {}) pool) = .ok (n, t')) :
    ∃ docs u, n = .stream docs ∧ Stream docs u ∧ u.Sublist (TextStream.left s) := by
  have h : (parse f : M σ Node) = (do next; setStartOfLine : M σ Unit) >>= fun _ => parseStream f := by
    funext t
    show M.bind next _ t = M.bind (M.bind next _) _ t
    simp only [M.bind]
    cases (next : M σ Unit) t <;> rfl
  rw [h] at e
  have key : Pt (StreamOk.rem s) ((do next; setStartOfLine : M σ Unit) >>= fun _ => parseStream f)
      (newParser (CPAccessor.new s {}) pool) (fun r t' A' => Even (StreamOk.rem s) (TextStream.left s) t' A' ∧
        ∃ docs, r = .stream docs ∧ DocList A'.x docs) := by
    refine Pt.bind (Pt.of (entry hs hp) ?_)
    rintro _ t1 A1 e1 hr1 ⟨hnb, -, rfl⟩
    have hst : t1.src.stream = (TokenStream.pull s).2 := by
      have e2 : M.bind next (fun _ => setStartOfLine) (newParser (CPAccessor.new s {}) pool) = .ok ((), t1) := e1
      rw [M.bind, next_eq _ rfl] at e2
      cases e2
      show (balance (step (newParser (CPAccessor.new s {}) pool))).src.stream = _
      rw [(balance_src _).1]
      rfl
    have hE : Even (StreamOk.rem s) (TextStream.left s) t1 ⟨[(TokenStream.pull s).1], 1, []⟩ := by
      refine ⟨hr1, ⟨?_, ?_, ?_⟩, hnb⟩
      · intro x hx
        rw [List.mem_singleton.1 hx]
        exact TextStream.pull_orig _ hs hg
      · rw [hst]; exact TextStream.pull_sound _ hs hg
      · rw [hst, TextStream.pull_left _ hs]; simp
    refine (parseStream_st t1 _ hE).mono ?_
    intro r t2 A2 hr2 ⟨h1, h2, h3, h4⟩
    exact ⟨h1, h4⟩
  obtain ⟨A', hr, hE, docs, rfl, u, hu, v, hv, hsub⟩ := key _ _ e
  refine ⟨docs, u, rfl, hu, hsub.trans ?_⟩
  have : A'.x.l = v := hv
  rw [← this]
  exact hE.good.x.sublist

end Verif.Parser
