import Verif.Lemmas.ParserRunFolded
import Verif.Model.ParserDocs

/-!
Exact executions of the productions for flow nodes and keys, and the tokens of scalars on one line.
-/

set_option linter.unusedSimpArgs false
set_option linter.unusedSectionVars false

namespace Verif.Parser

open Verif.Token Verif.Lexer Verif.Ast Verif.Spec.Cursor

variable {σ α β : Type} [TokenStream σ] [StreamOk σ]
variable {W : Toks} {p q p' j n m f : Nat} {k l : Nat → Nat} {ctx : PCtx} {ind ind' : Ind} {c : Calls σ} {t : List Char}
variable {e v x : Node} {d : Bool} {lo u hi i r N : Nat}

/-- A plain scalar on a line, from token `p` to before token `q`. -/
structure Word (W : Toks) (p : Nat) (t : List Char) (q : Nat) : Prop where
  pos : 1 ≤ p
  str : (W p).type = .string
  safe : isPlainSafeToken (W p) .blockKey = true
  run : PlainRun W .blockKey p t q
  halt : ∃ j, Sp W q j ∧ (W (q + j)).type ≠ .string

/-- A plain scalar on a line which may have commas and brackets in its words. -/
structure Wide (W : Toks) (p : Nat) (t : List Char) (q : Nat) : Prop where
  pos : 1 ≤ p
  str : (W p).type = .string
  run : PlainRun W .flowOut p t q

theorem safe_flowOut {k : Tok} : isPlainSafeToken k .flowOut = true ↔ k.type = .string := by
  simp [isPlainSafeToken]

theorem PlainRun.flow (h : PlainRun W .blockKey p t q) (hq : ∃ j, Sp W q j ∧ (W (q + j)).type ≠ .string) : PlainRun W .flowOut p t q := by
  induction h with
  | stop h h2 =>
    obtain ⟨i, g1, g2⟩ := hq
    exact .stop g1 (isPlainSafeToken_string g2)
  | word h h2 hc h3 _ ih => exact .word h h2 hc (by simp [isPlainSafeToken, h2]) (ih hq)

theorem PlainRun.last (h : PlainRun W ctx p t q) : q = p ∨ (p < q ∧ (W (q - 1)).type = .string) := by
  induction h with
  | stop h h2 => exact .inl rfl
  | @word p j t q h h2 hc h3 h4 ih =>
    rcases ih with ih | ih
    · subst ih
      exact .inr ⟨by omega, by simpa using h2⟩
    · exact .inr ⟨by omega, ih.2⟩

theorem PlainRun.lt (h : PlainRun W ctx p t q) (hs : (W p).type = .string) (hp : isPlainSafeToken (W p) ctx = true) : p < q := by
  cases h with
  | @stop _ j h h2 =>
    cases j with
    | zero => rw [show isPlainSafeToken (W p) ctx = false from h2] at hp; cases hp
    | succ j => have := h.head; simp [hs] at this
  | word _ _ _ _ h => have := h.le; omega

theorem PlainRun.sol (h : PlainRun W ctx p t q) (hp : 1 ≤ p) (h0 : p < q) : solW W q = false := by
  rcases h.last with h1 | h1
  · omega
  · obtain ⟨i, rfl⟩ : ∃ i, q = i + 1 := ⟨q - 1, by omega⟩
    have h2 : (W i).type = .string := h1.2
    exact solW_not (by omega) (by simp [h2]) (by simp [h2])

theorem Word.lt (h : Word W p t q) : p < q := h.run.lt h.str h.safe

theorem Word.sol (h : Word W p t q) : solW W q = false := h.run.sol h.pos h.lt

theorem Word.wide (h : Word W p t q) : Wide W p t q := ⟨h.pos, h.str, h.run.flow h.halt⟩

theorem Wide.lt (h : Wide W p t q) : p < q := h.run.lt h.str (safe_flowOut.2 h.str)

theorem Wide.sol (h : Wide W p t q) : solW W q = false := h.run.sol h.pos h.lt

/-- What is read of a scalar when it is tried as a key. -/
theorem PlainRun.cut (h : PlainRun W .flowOut p t q) : ∃ t' q' i, PlainRun W .blockKey p t' q' ∧ Sp W q' i ∧
    (q' = q ∨ q' + i < q ∧ (W (q' + i)).type = .string) := by
  induction h with
  | @stop p j h h2 =>
    have h2 : (W (p + j)).type ≠ .string := fun g => by rw [safe_flowOut.2 g] at h2; cases h2
    exact ⟨_, p, j, .stop h (isPlainSafeToken_string h2), h, .inl rfl⟩
  | @word p j t q h h2 hc h3 h4 ih =>
    cases hs : isPlainSafeToken (W (p + j)) .blockKey with
    | true =>
      obtain ⟨t', q', i, g1, g2, g3⟩ := ih
      exact ⟨_, q', i, .word h h2 hc hs g1, g2, g3⟩
    | false =>
      have hw : Sp W p j := ⟨fun i hi => (h i hi).1, by simp [h2], by simp [h2]⟩
      exact ⟨_, p, j, .stop hw hs, hw, .inr ⟨by have := h4.le; omega, h2⟩⟩

theorem Sp.closed (h : Sp W p i) (h2 : isOpen (W (p + i)) = false) : isOpen (W p) = false := by
  cases i with
  | zero => exact h2
  | succ i => exact (Free.of h.head).1

/-- A scalar on a line, from token `p` to before token `q`. -/
inductive Scal (W : Toks) : Nat → Node → Nat → Prop
  | word {p q : Nat} {t : List Char} : Word W p t q → Scal W p (.text t .unknown) q
  | quoted {d : Bool} {p q : Nat} {t : List Char} : Quoted W d p t q → Scal W p (.text t (quoteKind d)) (q + 1)

/-- A scalar or an alias. -/
inductive Atom (W : Toks) : Nat → Node → Nat → Prop
  | scal {p q : Nat} {e : Node} : Scal W p e q → Atom W p e q
  | ref {p q : Nat} {e : Node} : Alia W p e q → Atom W p e q

theorem Scal.pos (h : Scal W p e q) : 1 ≤ p := by
  cases h with
  | word h => exact h.pos
  | quoted h => exact h.pos

theorem Scal.type (h : Scal W p e q) : (W p).type = .string ∨ (W p).type = .singleQuote ∨ (W p).type = .doubleQuote := by
  cases h with
  | word h => exact .inl h.str
  | @quoted d _ _ _ h =>
    have := h.first
    cases d
    · exact .inr (.inl this)
    · exact .inr (.inr this)

theorem Scal.lt (h : Scal W p e q) : p < q := by
  cases h with
  | word h => exact h.lt
  | quoted h => have := h.lt; omega

theorem Scal.sol (h : Scal W p e q) : solW W q = false := by
  cases h with
  | word h => exact h.sol
  | quoted h =>
    have hn := quote_ne h.last
    exact solW_not (by have := h.lt; omega) hn.2.2.2.1 hn.2.2.2.2.1

theorem Scal.valid (h : Scal W p e q) : validNode e = true := by cases h <;> rfl

theorem Atom.pos (h : Atom W p e q) : 1 ≤ p := by
  cases h with
  | scal h => exact h.pos
  | ref h => exact h.pos

theorem Atom.type (h : Atom W p e q) : (W p).type = .string ∨ (W p).type = .singleQuote ∨ (W p).type = .doubleQuote ∨
    (W p).type = .alias := by
  cases h with
  | scal h => rcases h.type with h | h | h <;> simp [h]
  | ref h => simp [h.sign]

theorem Atom.lt (h : Atom W p e q) : p < q := by
  cases h with
  | scal h => exact h.lt
  | ref h => have := h.next; omega

theorem Atom.sol (h : Atom W p e q) : solW W q = false := by
  cases h with
  | scal h => exact h.sol
  | ref h => exact h.sol

theorem Atom.valid (h : Atom W p e q) : validNode e = true := by
  cases h with
  | scal h => exact h.valid
  | ref h => rw [h.node]; rfl

theorem Atom.begins (h : Atom W p e q) : Begins (W p) := by
  rcases h.type with h | h | h | h <;> simp [Begins, h]

theorem Atom.closed (h : Atom W p e q) : isOpen (W p) = false := by
  rcases h.type with h | h | h | h <;> exact (Free.of h).1

theorem Scal.closed (h : Scal W p e q) : isOpen (W p) = false := (Atom.scal h).closed

theorem Atom.noDash (h : Atom W p e q) : (W p).type ≠ .sequenceEntry := by
  rcases h.type with h | h | h | h <;> simp [h]

/-- A token at which nothing starts: the end of a line or of the text, a comment, or a document marker. -/
def Mute (t : Tok) : Prop :=
  t.type = .comment ∨ t.type = .lineBreak ∨ t.type = .eof ∨ t.type = .directiveEnd ∨ t.type = .documentEnd

theorem Tail.mute {c : Nat} (h : Tail W p c) : Mute (W p) := by
  rcases h.type with h | h | h <;> simp [Mute, h]

/-- The rest of the line is blank. -/
theorem Eol.mute (h : Eol W p q) (hi : Sp W p i) : Mute (W (p + i)) ∧ p + i < q := by
  cases h with
  | line h1 h2 h3 h4 h5 =>
    obtain rfl := h1.unique hi
    have := h2.le
    have := h5.le
    exact ⟨h2.mute, by omega⟩
  | last h1 h2 h3 h4 =>
    obtain rfl := h1.unique hi
    have := h2.le
    exact ⟨h2.mute, by omega⟩

theorem Eol.sp (h : Eol W p q) : ∃ i, Sp W p i := by
  cases h with
  | line h => exact ⟨_, h⟩
  | last h => exact ⟨_, h⟩

/-! ### Keys -/

theorem validNode_invalid : validNode .invalid = false := rfl

theorem newContent (h : validNode x = true) : newContentNode x e = .content x e := by simp [newContentNode, h]

theorem valid_newContent (h : validNode x = true) : validNode (newContentNode x e) = true := by
  rw [newContent h]
  rfl

theorem ex_flowJSONNode {json : Content σ} (h1 : (W p).type ≠ .tag) (h2 : (W p).type ≠ .anchor)
    (hj : Ex W p k (json ind ctx) q l (e, ind')) :
    Ex W p k (parseFlowJSONNode f json ind ctx) q l (if validNode e then e else .invalid, ind') := by
  unfold parseFlowJSONNode
  refine Ex.bind Ex.hasErrors ?_
  simp only [Bool.false_eq_true, if_false]
  refine Ex.bind (Ex.attemptF (q := p) (l := k) (a := (.invalid, false, ind))
    (Ex.bind (ex_properties_no _ _ h1 h2) ?_) rfl) ?_
  · exact Ex.pure
  · refine Ex.bind hj ?_
    cases hv : validNode e with
    | true =>
      simp only [okNode, hv, Bool.not_true, Bool.false_eq_true, if_false, if_true]
      exact Ex.pure
    | false =>
      simp only [okNode, hv, Bool.not_false, if_true, Bool.false_eq_true, if_false]
      exact Ex.pure

/-- The same after properties. -/
theorem ex_flowJSONNode_props {json : Content σ} {b : Bool} (hp : Ex W p k (parseProperties f ind ctx : M σ (Node × Ind)) p' k (x, ind))
    (hx : validNode x = true) (ho : isOpen (W p) = false) (hs : Ex W p' k (parseSeparate f ind ctx : M σ (Bool × Ind)) r k (b, ind))
    (hj : Ex W (if b then r else p) k (json ind ctx) q l (e, ind)) :
    Ex W p k (parseFlowJSONNode f json ind ctx) q l (if validNode e then newContentNode x e else .invalid, ind) := by
  unfold parseFlowJSONNode
  refine Ex.bind Ex.hasErrors ?_
  simp only [Bool.false_eq_true, if_false]
  have h1 : Ex W p k (do
      let pr ← parseProperties f ind ctx
      if okNode pr then do
        let s ← parseSeparate f pr.2 ctx
        pure (pr.1, s)
      else pure (pr.1, false, pr.2) : M σ (Node × Bool × Ind)) r k (x, b, ind) := by
    refine Ex.bind hp ?_
    rw [if_pos (show okNode (x, ind) = true from hx)]
    exact Ex.bind hs Ex.pure
  refine Ex.bind (p' := if b then r else p) (j := k) (a := (x, b, ind)) ?_ ?_
  · cases b with
    | true => exact h1.attemptT rfl
    | false => exact h1.attemptN (.inr ho) rfl
  · refine Ex.bind hj ?_
    cases hv : validNode e with
    | true =>
      simp only [okNode, hv, Bool.not_true, Bool.false_eq_true, if_false, if_true]
      exact Ex.pure
    | false =>
      simp only [okNode, hv, Bool.not_false, if_true, Bool.false_eq_true, if_false]
      exact Ex.pure

theorem ex_implicitJSONKey_no {json : Content σ} (h : Ex W p k (parseFlowJSONNode f json ⟨0, .strict⟩ ctx) q l (.invalid, ⟨0, .strict⟩)) :
    Ex W p k (parseImplicitJSONKey f json ctx : M σ Node) q l .invalid := by
  unfold parseImplicitJSONKey
  refine Ex.bind Ex.hasErrors ?_
  simp only [Bool.false_eq_true, if_false]
  exact Ex.bind h Ex.pure

theorem ex_implicitJSONKey_of {json : Content σ} (hF : Flat W) (hv : validNode e = true)
    (h : Ex W p k (parseFlowJSONNode f json ⟨0, .strict⟩ ctx) q l (e, ⟨0, .strict⟩)) (hw : Sp W q i) :
    Ex W p k (parseImplicitJSONKey f json ctx : M σ Node) (q + i) l e := by
  obtain ⟨b, hb⟩ := ex_sepInLine_opt (σ := σ) (k := l) (f := f) hF hw
  unfold parseImplicitJSONKey
  refine Ex.bind Ex.hasErrors ?_
  simp only [Bool.false_eq_true, if_false]
  refine Ex.bind h ?_
  rw [if_neg (by simp [okNode, hv])]
  exact Ex.bind hb Ex.pure

theorem ex_implicitYAMLKey_no (h : Ex W p k (parseFlowYAMLNode f ⟨0, .strict⟩ ctx : M σ (Node × Ind)) q l (.invalid, ⟨0, .strict⟩)) :
    Ex W p k (parseImplicitYAMLKey f ctx : M σ Node) q l .invalid := by
  unfold parseImplicitYAMLKey
  refine Ex.bind Ex.hasErrors ?_
  simp only [Bool.false_eq_true, if_false]
  exact Ex.bind h Ex.pure

theorem ex_implicitYAMLKey_of (hF : Flat W) (hv : validNode e = true)
    (h : Ex W p k (parseFlowYAMLNode f ⟨0, .strict⟩ ctx : M σ (Node × Ind)) q l (e, ⟨0, .strict⟩)) (hw : Sp W q i) :
    Ex W p k (parseImplicitYAMLKey f ctx : M σ Node) (q + i) l e := by
  obtain ⟨b, hb⟩ := ex_sepInLine_opt (σ := σ) (k := l) (f := f) hF hw
  unfold parseImplicitYAMLKey
  refine Ex.bind Ex.hasErrors ?_
  simp only [Bool.false_eq_true, if_false]
  refine Ex.bind h ?_
  rw [if_neg (by simp [okNode, hv])]
  exact Ex.bind hb Ex.pure

/-- A content production which succeeds makes the flow node. -/
theorem ex_genericFlow {content : Content σ} (ha : (W p).type ≠ .alias) (hc : Ex W p k (content ind ctx) q l (e, ind'))
    (hv : validNode e = true) : Ex W p k (parseGenericFlowNode f ind ctx content) q l (e, ind') := by
  unfold parseGenericFlowNode
  refine Ex.bind Ex.hasErrors ?_
  simp only [Bool.false_eq_true, if_false]
  refine Ex.bind (Ex.attemptF (ex_alias_no ha) rfl) ?_
  rw [if_neg (by decide)]
  refine Ex.bind (Ex.attemptT hc hv) ?_
  rw [if_pos (show okNode (e, ind') = true from hv)]
  exact Ex.pure

/-- An alias makes the flow node. -/
theorem ex_genericFlow_alias {content : Content σ} (hF : Flat W) (h : Alia W p e q) :
    Ex W p k (parseGenericFlowNode f ind ctx content) q k (e, ind) := by
  have hv := (Atom.ref h).valid
  unfold parseGenericFlowNode
  refine Ex.bind Ex.hasErrors ?_
  simp only [Bool.false_eq_true, if_false]
  refine Ex.bind (Ex.attemptT (ex_alias hF h) hv) ?_
  rw [if_pos hv]
  exact Ex.pure

/-- Neither content nor properties. -/
theorem ex_genericFlow_no {content : Content σ} (ho : isOpen (W p) = false) (ha : (W p).type ≠ .alias) (h1 : (W p).type ≠ .tag) (h2 : (W p).type ≠ .anchor)
    (hc : Ex W p k (content ind ctx) q l (.invalid, ind)) :
    Ex W p k (parseGenericFlowNode f ind ctx content) p l (.invalid, ind) := by
  unfold parseGenericFlowNode
  refine Ex.bind Ex.hasErrors ?_
  simp only [Bool.false_eq_true, if_false]
  refine Ex.bind (Ex.attemptF (ex_alias_no ha) rfl) ?_
  rw [if_neg (by decide)]
  refine Ex.bind (Ex.attemptN hc (.inr ho) rfl) ?_
  rw [if_neg (by simp [okNode, validNode, Node.invalid])]
  refine Ex.bind (ex_properties_no _ _ h1 h2) ?_
  exact Ex.pure

/-- Properties, and content if there is some. -/
theorem ex_genericFlow_props {content : Content σ} {l' : Nat → Nat} (ho : isOpen (W p) = false) (ha : (W p).type ≠ .alias)
    (hc : Ex W p k (content ind ctx) r l (.invalid, ind))
    (hp : Ex W p l (parseProperties f ind ctx : M σ (Node × Ind)) p' l (x, ind)) (hx : validNode x = true)
    (hm : Ex W p' l (attempt okNode (do
      let s ← parseSeparate f ind ctx
      if s.1 then content s.2 ctx else pure (.invalid, s.2)) : M σ (Node × Ind)) q l' (e, ind)) :
    Ex W p k (parseGenericFlowNode f ind ctx content) q l' (newContentNode x (if validNode e then e else .null), ind) := by
  unfold parseGenericFlowNode
  refine Ex.bind Ex.hasErrors ?_
  simp only [Bool.false_eq_true, if_false]
  refine Ex.bind (Ex.attemptF (ex_alias_no ha) rfl) ?_
  rw [if_neg (by decide)]
  refine Ex.bind (Ex.attemptN hc (.inr ho) rfl) ?_
  rw [if_neg (by simp [okNode, validNode, Node.invalid])]
  refine Ex.bind hp ?_
  rw [if_neg (by simp [okNode, hx])]
  refine Ex.bind hm ?_
  cases hv : validNode e with
  | true =>
    rw [if_pos (show okNode (e, ind) = true from hv)]
    exact Ex.pure
  | false =>
    rw [if_neg (by simp [okNode, hv])]
    exact Ex.pure

/-- No plain scalar. -/
theorem ex_plain_no (hF : Ground W) (hx : ctx = .flowOut ∨ ctx = .blockKey) (h1 : lo ≤ p) (h2 : p < hi) (h3 : u < 64)
    (hs : isPlainSafeToken (W p) ctx = false) (hn : isPlainIndicator (W p) = false) :
    Ex W p (lv lo u hi) (parsePlain f ind ctx : M σ (Node × Ind)) p (lv lo (u + 1) hi) (.invalid, ind) := by
  rcases hx with rfl | rfl
  · show Ex W p _ (parsePlainMultiLine f _ .flowOut : M σ (Node × Ind)) p _ _
    unfold parsePlainMultiLine
    refine Ex.bind Ex.hasErrors ?_
    simp only [Bool.false_eq_true, if_false]
    exact Ex.bind (ex_plainOneLine_no hF h1 h2 h3 hs hn) Ex.pure
  · exact Ex.bind (ex_plainOneLine_no hF h1 h2 h3 hs hn) Ex.pure

end Verif.Parser
