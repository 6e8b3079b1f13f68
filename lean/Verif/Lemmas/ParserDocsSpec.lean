import Verif.Lemmas.ParserBlockSpec
import Verif.Model.ParserDocs

/-!
Specifications of the productions of documents and streams.
-/

set_option linter.unusedSimpArgs false
set_option linter.unusedSectionVars false
set_option linter.unusedVariables false
set_option linter.unnecessarySeqFocus false

namespace Verif.Parser

open Verif.Token Verif.Lexer Verif.Ast

variable {σ α β : Type} [TokenStream σ] [StreamOk σ]

variable {B n f : Nat}

/-! ### The recursion -/

theorem calls_json : ∀ (f n : Nat), 2 * B + 2 < f + n → JsonOk B n (calls f : Calls σ).json := by
  intro f
  induction f with
  | zero =>
    intro n hf ind ctx t A hr _ hg
    have := hr.g_le
    omega
  | succ f ih =>
    intro n hf ind ctx
    exact parseFlowJSONContent_spec (ih (n + 1) (by omega)) (by omega) ind ctx

theorem calls_ok : ∀ (f n : Nat), 2 * B + 3 < f + n → CallsOk B n (calls f : Calls σ) := by
  intro f
  induction f with
  | zero =>
    intro n hf
    constructor
    all_goals
      intro ind ctx t A hr _ hg
      have := hr.g_le
      omega
  | succ f ih =>
    intro n hf
    exact ⟨fun ind ctx => parseBlockNode_spec (calls_json f n (by omega)) (ih (n + 1) (by omega)) (by omega) ind ctx,
      fun ind ctx => parseBlockIndented_spec (calls_json f n (by omega)) (ih (n + 1) (by omega)) (by omega) ind ctx⟩

theorem parseBareDocument_spec (hf : 2 * B + 3 < f + n) : Spec B n (parseBareDocument f : M σ Node) (fun r _ _ => NodeOk r) := by
  refine .intro (fun t A hst hg => ?_)
  have := (calls_ok (σ := σ) f n hf).node
  unfold parseBareDocument
  wpg

/-! ### Directives -/

theorem parseReservedDirective_spec (hf : 2 * B + 1 < f + n) :
    Spec B n (parseReservedDirective f : M σ Bool) (fun r g g' => True) := by
  refine .intro (fun t A hst hg => ?_)
  have := tries_spec (σ := σ) (B := B) (n := n) (f := f)
    (body := fun u => do
      let s ← parseSeparateInLine f
      if !s then pure (false, u) else
      let t ← tok
      if t.type ≠ .string then pure (false, u) else do
      next
      pure (true, u)) (fun _ => True)
    (fun y hy => .intro (fun t A hst hg => by wpg)) () hf trivial
  unfold parseReservedDirective
  wpg

theorem parseLocalTagPrefix_spec (hf : 2 * B + 1 < f + n) :
    Spec B n (parseLocalTagPrefix : M σ Bool) (fun r g g' => True) := by
  refine .intro (fun t A hst hg => ?_)
  unfold parseLocalTagPrefix
  wpg

theorem parseTagPrefix_spec (hf : 2 * B + 1 < f + n) :
    Spec B n (parseTagPrefix : M σ Bool) (fun r g g' => True) := by
  refine .intro (fun t A hst hg => ?_)
  unfold parseTagPrefix
  wpg

theorem parseTagDirective_spec (hf : 2 * B + 1 < f + n) :
    Spec B n (parseTagDirective f : M σ Bool) (fun r g g' => True) := by
  refine .intro (fun t A hst hg => ?_)
  unfold parseTagDirective
  wpg

theorem parseYAMLVersion_spec (hf : 2 * B + 1 < f + n) :
    Spec B n (parseYAMLVersion : M σ Bool) (fun r g g' => True) := by
  refine .intro (fun t A hst hg => ?_)
  unfold parseYAMLVersion
  wpg

theorem parseYAMLDirective_spec (hf : 2 * B + 1 < f + n) :
    Spec B n (parseYAMLDirective f : M σ Bool) (fun r g g' => True) := by
  refine .intro (fun t A hst hg => ?_)
  unfold parseYAMLDirective
  wpg

theorem R.keyword {t : P σ} {A : Abs} (h : R B t A) (hk : t.tok.origin = ['Y', 'A', 'M', 'L'] ∨ t.tok.origin = ['T', 'A', 'G']) :
    t.tok.type ≠ .bom := by
  intro hb
  have h1 := h.pos1
  have h2 := h.posle
  have ht : t.tok = A.log[A.pos - 1]'(by omega) := by
    rw [h.tok, curAt, sq, List.getD_eq_getElem?_getD, List.getElem?_eq_getElem (by omega)]
    rfl
  have hm : t.tok ∈ A.log := by
    rw [ht]; exact List.getElem_mem _
  have := h.boms _ hm hb
  rcases hk with hk | hk
  · exact this.1 hk
  · exact this.2 hk

theorem St.keyword1 {A0 A : Abs} {t : P σ} (h : St B A0 t A) (hk : t.tok.origin = ['Y', 'A', 'M', 'L']) : t.tok.type ≠ .bom :=
  h.r.keyword (.inl hk)

theorem St.keyword2 {A0 A : Abs} {t : P σ} (h : St B A0 t A) (hk : t.tok.origin = ['T', 'A', 'G']) : t.tok.type ≠ .bom :=
  h.r.keyword (.inr hk)

macro_rules
  | `(tactic| wpt) => `(tactic| first
    | exact St.keyword1 (by assumption) (by assumption)
    | exact St.keyword2 (by assumption) (by assumption)
    | fail)

theorem parseDirective_spec (hf : 2 * B + 1 < f + n) :
    Spec B n (parseDirective f : M σ Bool) (fun r g g' => r = true → g < g') := by
  refine .intro (fun t A hst hg => ?_)
  unfold parseDirective
  wpg

/-! ### Documents -/

theorem parseExplicitDocument_spec (hf : 2 * B + 3 < f + n) :
    Spec B n (parseExplicitDocument f : M σ Node) (fun r g g' => NodeOk r ∧ (validNode r = true → g < g')) := by
  refine .intro (fun t A hst hg => ?_)
  have hf1 : 2 * B + 1 < f + n := by omega
  unfold parseExplicitDocument
  wpg

theorem parseDirectiveDocument_spec (hf : 2 * B + 3 < f + n) :
    Spec B n (parseDirectiveDocument f : M σ Node) (fun r g g' => NodeOk r) := by
  refine .intro (fun t A hst hg => ?_)
  have hf1 : 2 * B + 1 < f + n := by omega
  have := tries_spec (σ := σ) (B := B) (n := n) (f := f)
    (body := fun u => do
      let d ← parseDirective f
      pure (d, u)) (fun _ => True)
    (fun y hy => .intro (fun t A hst hg => by wpg)) () hf1 trivial
  unfold parseDirectiveDocument
  wpg

theorem parseAnyDocument_spec (hf : 2 * B + 3 < f + n) :
    Spec B n (parseAnyDocument f : M σ Node) (fun r g g' => NodeOk r) := by
  refine .intro (fun t A hst hg => ?_)
  have hf1 : 2 * B + 1 < f + n := by omega
  unfold parseAnyDocument
  wpg

theorem parseDocumentSuffix_spec (hf : 2 * B + 1 < f + n) :
    Spec B n (parseDocumentSuffix f : M σ Bool) (fun r g g' => r = true → g < g') := by
  refine .intro (fun t A hst hg => ?_)
  unfold parseDocumentSuffix
  wpg

end Verif.Parser
