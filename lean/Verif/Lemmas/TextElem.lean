import Verif.Lemmas.TextRules

/-!
What the elementary productions of the parser have read.
-/

set_option linter.unusedSimpArgs false
set_option linter.unusedSectionVars false
set_option linter.unusedVariables false
set_option linter.unnecessarySeqFocus false

namespace Verif.Parser

open Verif.Token Verif.Lexer Verif.Ast Verif.Spec.Says

/-! ### Buffers -/

theorem ink_append (a b : List Char) : ink (a ++ b) = ink a ++ ink b := by simp [ink]

theorem ink_sub (a : List Char) : (ink a).Sublist a := List.filter_sublist

/-- The buffer was only extended. -/
def Pre (b b' : Buf) : Prop := b <+: b'

/-- The buffer `b` was extended to `b'` by what was read between `g` and `g'`. -/
def Wr (g g' : Txt) (b b' : Buf) : Prop := ∃ x, b' = b ++ x ∧ Btw g g' (ink x)

theorem Pre.refl (b : Buf) : Pre b b := List.prefix_refl b
theorem Pre.trans {a b c : Buf} (h1 : Pre a b) (h2 : Pre b c) : Pre a c := List.IsPrefix.trans h1 h2
theorem Pre.app {a b : Buf} (o : List Char) (h : Pre a b) : Pre a (b ++ o) := h.trans (List.prefix_append _ _)

theorem Pre.take {a b : Buf} (h : Pre a b) : List.take a.length b = a := by
  obtain ⟨x, rfl⟩ := h
  simp

theorem Wr.pre {g g' : Txt} {b b' : Buf} (h : Wr g g' b b') : Pre b b' := by
  obtain ⟨x, rfl, -⟩ := h
  exact List.prefix_append _ _

theorem Wr.refl {g g' : Txt} (b : Buf) (h : g ≤ g') : Wr g g' b b := ⟨[], by simp, .nil h⟩

theorem Wr.trans {g1 g2 g3 g4 g g' : Txt} {a b c : Buf} (h1 : Wr g1 g2 a b) (h2 : Wr g3 g4 b c) (h0 : g ≤ g1) (h : g2 ≤ g3)
    (h3 : g4 ≤ g') : Wr g g' a c := by
  obtain ⟨x, rfl, hx⟩ := h1
  obtain ⟨y, rfl, hy⟩ := h2
  refine ⟨x ++ y, by simp, ?_⟩
  rw [ink_append]
  exact (hx.app h hy).wide h0 h3

theorem Wr.wide {a b c d : Txt} {u v : Buf} (h : Wr b c u v) (h1 : a ≤ b) (h2 : c ≤ d) : Wr a d u v := by
  obtain ⟨x, rfl, hx⟩ := h
  exact ⟨x, rfl, hx.wide h1 h2⟩

theorem Wr.put {g g' g1 g2 : Txt} {o : List Char} (a : Buf) (h : Btw g1 g2 o) (h1 : g ≤ g1) (h2 : g2 ≤ g') :
    Wr g g' a (a ++ o) := ⟨o, rfl, (h.sub (ink_sub o)).wide h1 h2⟩

theorem Wr.soft {g g' : Txt} {o : List Char} (a : Buf) (h : ink o = []) (h1 : g ≤ g') : Wr g g' a (a ++ o) :=
  ⟨o, rfl, by rw [h]; exact .nil h1⟩

theorem ink_space : ink [' '] = [] := rfl

/-- The text of a buffer. -/
theorem Wr.text {g g' : Txt} {b : Buf} (h : Wr g g' [] b) : Btw g g' (ink b) := by
  obtain ⟨x, rfl, hx⟩ := h
  exact hx

theorem Wr.of_text {g g' : Txt} {b : Buf} (h : Btw g g' (ink b)) : Wr g g' [] ([] ++ b) := ⟨b, rfl, h⟩

variable {σ α β : Type} [TokenStream σ] [StreamOk σ] [TextStream σ]

variable {B f : Nat} {S : List Char}

/-- The checkpoints are those of the beginning. -/
def Kept (A A' : Abs) : Prop := A'.cps = A.cps

attribute [grind =] Kept

theorem takeWhile_t {pred : Tok → Bool} {buf : Buf} [TokOk pred] :
    TSpec B S (takeWhile f pred buf : M σ Buf) (fun b A A' => Kept A A' ∧ Wr A.x A'.x buf b) := by
  refine loop_t (σ := σ) (fun A A' x y => Kept A A' ∧ Wr A.x A'.x x y) (fun x => .intro (fun t A hst => ?_)) ?_ buf
  · have := TokOk.ok (pred := pred) t.tok
    tp
    all_goals grind [Wr.put, Wr.refl]
  · grind [Wr.trans]

theorem skipWhile_t {pred : Tok → Bool} [TokOk pred] : TSpec B S (skipWhile f pred : M σ Unit) (fun _ A A' => Kept A A') := by
  refine loop_t (σ := σ) (fun A A' x y => Kept A A') (fun x => .intro (fun t A hst => ?_)) ?_ ()
  · have := TokOk.ok (pred := pred) t.tok
    tp
    all_goals grind
  · grind

theorem parseSeparateInLine_t : TSpec B S (parseSeparateInLine f : M σ Bool) (fun _ A A' => Kept A A') := by
  refine .intro (fun t A hst => ?_)
  unfold parseSeparateInLine
  tp <;> grind

theorem parseCommentText_t : TSpec B S (parseCommentText f : M σ Bool) (fun _ A A' => Kept A A') := by
  refine .intro (fun t A hst => ?_)
  unfold parseCommentText
  tp <;> grind

theorem parseCommentLine_t : TSpec B S (parseCommentLine f : M σ Bool) (fun _ A A' => Kept A A') := by
  refine .intro (fun t A hst => ?_)
  unfold parseCommentLine
  tp <;> grind

theorem parseSeparatedComment_t : TSpec B S (parseSeparatedComment f : M σ Bool) (fun _ A A' => Kept A A') := by
  refine .intro (fun t A hst => ?_)
  unfold parseSeparatedComment
  tp <;> grind

theorem commentLines_t : TSpec B S (commentLines f : M σ Unit) (fun _ A A' => Kept A A') := by
  refine tries_t (σ := σ) (fun A A' _ _ => Kept A A') (fun _ => .intro (fun t A hst => ?_)) (by grind) ()
  tp <;> grind

theorem parseComments_t : TSpec B S (parseComments f : M σ Bool) (fun _ A A' => Kept A A') := by
  refine .intro (fun t A hst => ?_)
  unfold parseComments
  tp <;> grind

theorem spaces_t : ∀ k : Nat, TSpec B S (spaces k : M σ Bool) (fun _ A A' => Kept A A') := by
  intro k
  induction k with
  | zero => refine .intro (fun t A hst => ?_); unfold spaces; tp <;> grind
  | succ k ih => refine .intro (fun t A hst => ?_); unfold spaces; tp <;> grind

theorem upToSpaces_t : ∀ k : Nat, TSpec B S (upToSpaces k : M σ Unit) (fun _ A A' => Kept A A') := by
  intro k
  induction k with
  | zero => refine .intro (fun t A hst => ?_); unfold upToSpaces; tp <;> grind
  | succ k ih => refine .intro (fun t A hst => ?_); unfold upToSpaces; tp <;> grind

theorem countSpaces_t {n : Int} : TSpec B S (countSpaces f n : M σ Int) (fun _ A A' => Kept A A') := by
  refine loop_t (σ := σ) (fun A A' _ _ => Kept A A') (fun x => .intro (fun t A hst => ?_)) (by grind) n
  tp <;> grind

theorem parseIndentStrict_t {n : Int} : TSpec B S (parseIndentStrict n : M σ Bool) (fun _ A A' => Kept A A') := by
  refine .intro (fun t A hst => ?_)
  unfold parseIndentStrict
  tp <;> grind

theorem parseIndentLowerBound_t {n : Int} : TSpec B S (parseIndentLowerBound f n : M σ (Option Int)) (fun _ A A' => Kept A A') := by
  refine .intro (fun t A hst => ?_)
  unfold parseIndentLowerBound
  tp <;> grind

theorem parseIndent_t {ind : Ind} : TSpec B S (parseIndent f ind : M σ (Bool × Ind)) (fun _ A A' => Kept A A') := by
  refine .intro (fun t A hst => ?_)
  unfold parseIndent
  tp <;> grind

theorem parseBorderedIndent_t {n k : Int} : TSpec B S (parseBorderedIndent n k : M σ Bool) (fun _ A A' => Kept A A') := by
  refine .intro (fun t A hst => ?_)
  unfold parseBorderedIndent
  tp <;> grind

theorem parseIndentLessThan_t {n : Int} : TSpec B S (parseIndentLessThan n : M σ Bool) (fun _ A A' => Kept A A') :=
  parseBorderedIndent_t

theorem parseIndentLessThanOrEqual_t {n : Int} : TSpec B S (parseIndentLessThanOrEqual n : M σ Bool) (fun _ A A' => Kept A A') :=
  parseBorderedIndent_t

theorem parseFlowLinePrefix_t {ind : Ind} : TSpec B S (parseFlowLinePrefix f ind : M σ (Bool × Ind)) (fun _ A A' => Kept A A') := by
  refine .intro (fun t A hst => ?_)
  unfold parseFlowLinePrefix
  tp <;> grind

theorem parseLinePrefix_t {ind : Ind} {ctx : PCtx} :
    TSpec B S (parseLinePrefix f ind ctx : M σ (Bool × Ind)) (fun _ A A' => Kept A A') := by
  refine .intro (fun t A hst => ?_)
  unfold parseLinePrefix
  tp <;> grind

theorem parseEmpty_t {ind : Ind} {ctx : PCtx} {buf : Buf} :
    TSpec B S (parseEmpty f ind ctx buf : M σ (Bool × Ind × Buf))
      (fun r A A' => Kept A A' ∧ Wr A.x A'.x buf r.2.2 ∧ (r.1 = false → r.2.2 = buf)) := by
  refine .intro (fun t A hst => ?_)
  unfold parseEmpty
  tp <;> grind [Wr.put, Wr.refl]

theorem parseSeparateLines_t {ind : Ind} : TSpec B S (parseSeparateLines f ind : M σ (Bool × Ind)) (fun _ A A' => Kept A A') := by
  refine .intro (fun t A hst => ?_)
  unfold parseSeparateLines
  tp <;> grind

theorem parseSeparate_t {ind : Ind} {ctx : PCtx} :
    TSpec B S (parseSeparate f ind ctx : M σ (Bool × Ind)) (fun _ A A' => Kept A A') := by
  refine .intro (fun t A hst => ?_)
  unfold parseSeparate
  tp <;> grind

theorem parseChompingIndicator_t : TSpec B S (parseChompingIndicator : M σ Chomping) (fun c A A' => Kept A A' ∧ c ≠ .unknown) := by
  refine .intro (fun t A hst => ?_)
  unfold parseChompingIndicator
  tp <;> grind

theorem parseIndentationIndicator_t : TSpec B S (parseIndentationIndicator : M σ (Option Int)) (fun _ A A' => Kept A A') := by
  refine .intro (fun t A hst => ?_)
  unfold parseIndentationIndicator
  tp <;> grind

theorem parseBlockHeader_t : TSpec B S (parseBlockHeader f : M σ (Option (Chomping × Int)))
    (fun r A A' => Kept A A' ∧ ∀ h, r = some h → h.1 ≠ .unknown) := by
  refine .intro (fun t A hst => ?_)
  unfold parseBlockHeader
  tp <;> grind

/-! ### Properties -/

/-- The node was read between `g` and `g'`. -/
def Saying (g g' : Txt) (n : Node) : Prop := ∃ u, Says n u ∧ Btw g g' u

theorem Saying.wide {a b c d : Txt} {n : Node} (h : Saying b c n) (h1 : a ≤ b) (h2 : c ≤ d) : Saying a d n := by
  obtain ⟨u, hu, hb⟩ := h
  exact ⟨u, hu, hb.wide h1 h2⟩

theorem saying_alias {g g' a b c d : Txt} {s : List Char} (h1 : Btw a b ['*']) (h2 : Btw c d s) (l1 : g ≤ a) (l2 : b ≤ c)
    (l3 : d ≤ g') : Saying g g' (.alias s) := ⟨_, .alias s, (h1.app l2 h2).wide l1 l3⟩

theorem saying_anchor {g g' a b c d : Txt} {s : List Char} (h1 : Btw a b ['&']) (h2 : Btw c d s) (l1 : g ≤ a) (l2 : b ≤ c)
    (l3 : d ≤ g') : Saying g g' (.anchor s) := ⟨_, .anchor s, (h1.app l2 h2).wide l1 l3⟩

theorem saying_tag {g g' a b c d : Txt} {s : List Char} (h1 : Btw a b ['!']) (h2 : Btw c d s) (l1 : g ≤ a) (l2 : b ≤ c)
    (l3 : d ≤ g') : Saying g g' (.tag s) := ⟨_, .tag s, (h1.app l2 h2).wide l1 l3⟩

theorem saying_bang {g g' a b : Txt} (h1 : Btw a b ['!']) (l1 : g ≤ a) (l3 : b ≤ g') : Saying g g' (.tag []) :=
  ⟨_, .tag [], h1.wide l1 l3⟩

theorem verbatim_sub {s u : List Char} (h : verbatimTag s = some u) : u.Sublist s := by
  unfold verbatimTag at h
  split at h
  · split at h
    · cases h
      exact (List.dropLast_sublist _).trans (List.sublist_cons_self _ _)
    · cases h
  · cases h

theorem saying_verbatim {g g' a b c d : Txt} {s u : List Char} (h1 : Btw a b ['!']) (h2 : Btw c d s)
    (h : verbatimTag s = some u) (l1 : g ≤ a) (l2 : b ≤ c) (l3 : d ≤ g') : Saying g g' (.tag u) :=
  saying_tag h1 (h2.sub (verbatim_sub h)) l1 l2 l3

theorem saying_tagAnchor {g g' a b c d : Txt} {n m : Node} (h1 : Saying a b n) (h2 : Saying c d m) (l1 : g ≤ a) (l2 : b ≤ c)
    (l3 : d ≤ g') : Saying g g' (.properties n m) := by
  obtain ⟨u, hu, hb⟩ := h1
  obtain ⟨v, hv, hd⟩ := h2
  exact ⟨_, .tagAnchor _ _ _ _ hu hv, (hb.app l2 hd).wide l1 l3⟩

theorem saying_anchorTag {g g' a b c d : Txt} {n m : Node} (h1 : Saying a b n) (h2 : Saying c d m) (l1 : g ≤ a) (l2 : b ≤ c)
    (l3 : d ≤ g') : Saying g g' (.properties m n) := by
  obtain ⟨u, hu, hb⟩ := h1
  obtain ⟨v, hv, hd⟩ := h2
  exact ⟨_, .anchorTag _ _ _ _ hv hu, (hb.app l2 hd).wide l1 l3⟩

theorem saying_onlyTag {g g' a b : Txt} {n m : Node} (h1 : Saying a b n) (hm : validNode m = false)
    (hx : m = .nil ∨ m = .invalid ∨ ∃ s, m = .anchor s) (l1 : g ≤ a) (l3 : b ≤ g') : Saying g g' (.properties n m) := by
  obtain ⟨u, hu, hb⟩ := h1
  refine ⟨_, .onlyTag _ _ _ hu ?_, hb.wide l1 l3⟩
  rcases hx with rfl | rfl | ⟨s, rfl⟩
  · exact .inl rfl
  · exact .inr rfl
  · cases hm

theorem saying_onlyAnchor {g g' a b : Txt} {n m : Node} (h1 : Saying a b n) (hm : validNode m = false)
    (hx : m = .nil ∨ m = .invalid ∨ ∃ s, m = .tag s) (l1 : g ≤ a) (l3 : b ≤ g') : Saying g g' (.properties m n) := by
  obtain ⟨u, hu, hb⟩ := h1
  refine ⟨_, .onlyAnchor _ _ _ ?_ hu, hb.wide l1 l3⟩
  rcases hx with rfl | rfl | ⟨s, rfl⟩
  · exact .inl rfl
  · exact .inr rfl
  · cases hm

theorem parseAliasNode_t :
    TSpec B S (parseAliasNode : M σ Node) (fun r A A' => Kept A A' ∧ (validNode r = true → Saying A.x A'.x r)) := by
  refine .intro (fun t A hst => ?_)
  have := invalid_invalid
  unfold parseAliasNode
  tp <;> grind [saying_alias, Orig.star]

theorem parseAnchorProperty_t : TSpec B S (parseAnchorProperty : M σ Node) (fun r A A' =>
    (r = .invalid ∨ ∃ s, r = .anchor s) ∧ Kept A A' ∧ (validNode r = true → Saying A.x A'.x r)) := by
  refine .intro (fun t A hst => ?_)
  have := invalid_invalid
  unfold parseAnchorProperty
  tp <;> grind [saying_anchor, Orig.anchor]

theorem parseTagHandle_t : TSpec B S (parseTagHandle : M σ Bool) (fun r A A' => Kept A A' ∧ (r = true → Btw A.x A'.x ['!'])) := by
  refine .intro (fun t A hst => ?_)
  unfold parseTagHandle
  tp <;> grind [Btw.wide, Orig.tag]

theorem parseTagProperty_t : TSpec B S (parseTagProperty : M σ Node) (fun r A A' =>
    (r = .invalid ∨ ∃ s, r = .tag s) ∧ Kept A A' ∧ (validNode r = true → Saying A.x A'.x r)) := by
  refine .intro (fun t A hst => ?_)
  have := invalid_invalid
  unfold parseTagProperty
  tp <;> grind [saying_tag, saying_bang, saying_verbatim, Orig.tag]

/-- The current token. -/
def Abs.cur (A : Abs) : Tok := curAt A.log A.pos

theorem parseProperties_t {ind : Ind} {ctx : PCtx} : TSpec B S (parseProperties f ind ctx : M σ (Node × Ind)) (fun r A A' =>
    Kept A A' ∧ (validNode r.1 = true → Saying A.x A'.x r.1 ∧ (A.cur.type = .tag ∨ A.cur.type = .anchor))) := by
  refine .intro (fun t A hst => ?_)
  have h1 := invalid_invalid
  have h2 : validNode .nil = false := rfl
  have h3 : t.tok = A.cur := hst.st.r.tok
  unfold parseProperties
  tp <;> grind [saying_tagAnchor, saying_anchorTag, saying_onlyTag, saying_onlyAnchor]

end Verif.Parser
