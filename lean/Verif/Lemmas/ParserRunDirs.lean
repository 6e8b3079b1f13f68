import Verif.Lemmas.ParserRunBlock
import Verif.Model.ParserDocs

/-!
Exact executions of the productions for directives.
-/

set_option linter.unusedSimpArgs false
set_option linter.unusedSectionVars false

namespace Verif.Parser

open Verif.Token Verif.Lexer Verif.Ast Verif.Spec.Cursor

variable {σ α β : Type} [TokenStream σ] [StreamOk σ]
variable {W : Toks} {p q p' j n m f i r : Nat} {k l : Nat → Nat}

theorem M.assoc {γ : Type} (m : M σ α) (g : α → M σ β) (h : β → M σ γ) : ((m >>= g) >>= h) = m >>= fun x => g x >>= h := by
  funext t
  show M.bind (M.bind m g) h t = M.bind m (fun x => M.bind (g x) h) t
  simp only [M.bind]
  cases m t <;> rfl

theorem M.pureBind (a : α) (g : α → M σ β) : (Pure.pure a >>= g) = g a := rfl

/-- A step in the other mode, and what follows. -/
theorem Ex.modes {m : M σ α} {g : α → M σ β} {a : α} {b : β} {v : Bool} (h : Ex (W.inMode v) p k m p' i' a) (h2 : Ex W p' i' (g a) q l b) :
    Ex W p k (setRaw v >>= fun _ => m >>= fun b => setRaw W.mode >>= fun _ => g b) q l b := by
  have := Ex.bind (Ex.inMode h) h2
  simpa only [M.assoc, M.pureBind] using this

theorem Flat.ground (hF : Flat W) (v : Bool) : Ground (W.inMode v) := ⟨hF.seq, hF.map, hF.fin, hF.inj⟩

/-- `%` on token `p`, and the name `w` of the directive on the next one. -/
structure Named (W : Toks) (p : Nat) (w : List Char) : Prop where
  sign : (W p).type = .directive
  raw : W.raw (p + 1) = true
  type : (W (p + 1)).type = .string
  name : (W (p + 1)).origin = w

/-- `!`, `!!` or `!name!` from token `p` on. -/
inductive Handle (W : Toks) : Nat → Nat → Prop
  | one {p : Nat} : (W p).type = .tag → Calm W p → (W (p + 1)).type = .space → Handle W p (p + 1)
  | two {p : Nat} : (W p).type = .tag → Calm W p → (W (p + 1)).type = .tag → Calm W (p + 1) → Handle W p (p + 2)
  | named {p : Nat} : (W p).type = .tag → Calm W p → stringIn .word (W (p + 1)) = true → Calm W (p + 1) → (W (p + 2)).type = .tag →
      Calm W (p + 2) → Handle W p (p + 3)

/-- Words, each of them with spaces before it. -/
inductive Words (W : Toks) : Nat → Nat → Prop
  | stop {p : Nat} : Sp W p 0 → solW W p = false → isOpen (W p) = false → Words W p p
  | word {p j q : Nat} : Sp W p j → 0 < j → (W (p + j)).type = .string → Calm W (p + j) → Words W (p + j + 1) q → Words W p q

/-- A directive from token `p` on, up to the end of its line. -/
inductive Dir (W : Toks) : Nat → Nat → Prop
  | yaml {p j : Nat} : Named W p ['Y', 'A', 'M', 'L'] → Calm W (p + 1) → Sp W (p + 2) j → (W (p + 2 + j)).type = .string →
      isCorrectYAMLVersion (W (p + 2 + j)).origin = true → Calm W (p + 2 + j) → Dir W p (p + 2 + j + 1)
  | tag {p j h i : Nat} : Named W p ['T', 'A', 'G'] → Calm W (p + 1) → Sp W (p + 2) j → 0 < j → Handle W (p + 2 + j) h →
      Sp (W.inMode true) h i → 0 < i → (W (h + i)).type = .string → (W (h + i)).origin ≠ [] →
      YamlChar.conformsCharSet ((W (h + i)).origin.take 1) .tag = true → YamlChar.conformsCharSet (W (h + i)).origin .uri = true →
      W.raw (h + i + 1) = true → Dir W p (h + i + 1)
  | other {p q : Nat} {w : List Char} : Named W p w → w ≠ ['Y', 'A', 'M', 'L'] → w ≠ ['T', 'A', 'G'] → W.raw (p + 2) = true →
      Words (W.inMode true) (p + 2) q → Dir W p q

/-- Lines with directives. -/
inductive Dirs (W : Toks) : Nat → Nat → Prop
  | one {p r q : Nat} : 1 ≤ r → Dir W p r → Eol W r q → Dirs W p q
  | more {p r s q : Nat} : 1 ≤ r → Dir W p r → Eol W r s → Dirs W s q → Dirs W p q

theorem Dir.sign (h : Dir W p q) : (W p).type = .directive := by
  cases h with
  | yaml h => exact h.sign
  | tag h => exact h.sign
  | other h => exact h.sign

theorem Dirs.sign (h : Dirs W p q) : (W p).type = .directive := by
  cases h with
  | one _ h => exact h.sign
  | more _ h => exact h.sign

theorem Words.le (h : Words W p q) : p ≤ q := by
  induction h with
  | stop => exact Nat.le_refl _
  | word _ _ _ _ _ ih => omega

theorem Handle.lt (h : Handle W p q) : p < q := by cases h <;> omega

theorem Dir.lt (h : Dir W p q) : p < q := by
  cases h with
  | yaml => omega
  | tag _ _ _ _ h => have := h.lt; omega
  | other _ _ _ _ h => have := h.le; omega

theorem Dirs.lt (h : Dirs W p q) : p < q := by
  induction h with
  | one _ h h2 => have := h.lt; have := h2.lt; omega
  | more _ h h2 _ ih => have := h.lt; have := h2.lt; omega

theorem ex_tagHandle (hF : Flat W) (h : Handle W p q) : Ex W p k (parseTagHandle : M σ Bool) q k true := by
  unfold parseTagHandle
  refine Ex.bind Ex.hasErrors ?_
  simp only [Bool.false_eq_true, if_false]
  refine Ex.bind Ex.tok ?_
  cases h with
  | one h1 h2 h3 =>
    rw [if_neg (by simp [h1])]
    refine Ex.bind (Ex.next hF h2 (.of h1)) (Ex.bind Ex.tok ?_)
    rw [if_neg (by simp [h3])]
    refine Ex.bind (Ex.attemptN (q := p + 1) (l := k) (a := false) (Ex.bind Ex.tok ?_) (.inr (Free.of h3).1) rfl) Ex.pure
    rw [if_neg (by simp [stringIn, h3])]
    exact Ex.pure
  | two h1 h2 h3 h4 =>
    rw [if_neg (by simp [h1])]
    refine Ex.bind (Ex.next hF h2 (.of h1)) (Ex.bind Ex.tok ?_)
    rw [if_pos h3]
    exact Ex.bind (Ex.next hF h4 (.of h3)) Ex.pure
  | named h1 h2 h3 h4 h5 h6 =>
    rw [if_neg (by simp [h1])]
    have h3' := stringIn_type h3
    refine Ex.bind (Ex.next hF h2 (.of h1)) (Ex.bind Ex.tok ?_)
    rw [if_neg (by simp [h3'])]
    refine Ex.bind (Ex.attemptT (q := p + 3) (l := k) (a := true) (Ex.bind Ex.tok ?_) rfl) Ex.pure
    rw [if_pos h3]
    refine Ex.bind (Ex.next hF h4 (.of h3')) (Ex.bind Ex.tok ?_)
    rw [if_pos h5]
    exact Ex.bind (Ex.next hF h6 (.of h5)) Ex.pure

theorem ex_tagPrefix (hG : Ground W) (hh : W.hold = false) (h1 : (W p).type = .string) (h2 : (W p).origin ≠ [])
    (h3 : YamlChar.conformsCharSet ((W p).origin.take 1) .tag = true) (h4 : YamlChar.conformsCharSet (W p).origin .uri = true)
    (h5 : Calm W p) : Ex W p k (parseTagPrefix : M σ Bool) (p + 1) k true := by
  unfold parseTagPrefix
  refine Ex.bind Ex.hasErrors ?_
  simp only [Bool.false_eq_true, if_false]
  refine Ex.bind (Ex.attemptN (q := p) (l := k) (a := false) ?_ (.inr (Free.of h1).1) rfl) ?_
  · unfold parseLocalTagPrefix
    refine Ex.bind Ex.hasErrors ?_
    simp only [Bool.false_eq_true, if_false]
    refine Ex.bind Ex.tok ?_
    rw [if_pos (by simp [h1])]
    exact Ex.pure
  · simp only [Bool.false_eq_true, if_false]
    refine Ex.bind Ex.tok ?_
    rw [if_neg (by simp [h1, h2]), if_neg (by simp [h3, h4])]
    exact Ex.bind (Ex.nextG hG h5 (.of h1) (by simp [hh])) Ex.pure

theorem ex_words (hG : Ground W) (hh : W.hold = false) (h : Words W p q) : ∀ f, Ex W p k (tries f (fun u => do
    let s ← parseSeparateInLine n
    if !s then pure (false, u) else
    let t ← tok
    if t.type ≠ .string then pure (false, u) else do
    next
    pure (true, u)) () : M σ Unit) q k () := by
  induction h with
  | @stop p h1 h2 h3 =>
    intro f
    refine Ex.triesStopN (q := p) (Ex.bind (ex_sepInLine_no h1 h2) ?_) (.inr h3)
    exact Ex.pure
  | @word p j q h1 h2 h3 h4 _ ih =>
    intro f
    refine Ex.triesGo (p' := p + j + 1) (j := k) (y := ()) (Ex.bind (ex_sepInLine_yesG hG (fun _ => hh) h1 (.inl h2)) ?_) ih
    simp only [Bool.not_true, Bool.false_eq_true, if_false]
    refine Ex.bind Ex.tok ?_
    rw [if_neg (by simp [h3])]
    exact Ex.bind (Ex.nextG hG h4 (.of h3) (by simp [hh])) Ex.pure

theorem ex_directive_no (h : (W p).type ≠ .directive) : Ex W p k (parseDirective f : M σ Bool) p k false := by
  unfold parseDirective
  refine Ex.bind Ex.hasErrors ?_
  simp only [Bool.false_eq_true, if_false]
  refine Ex.bind Ex.tok ?_
  rw [if_pos h]
  exact Ex.pure

theorem ex_directive (hF : Flat W) (hp : 1 ≤ r) (h : Dir W p r) (he : Eol W r q) :
    Ex W p k (parseDirective f : M σ Bool) q k true := by
  unfold parseDirective
  refine Ex.bind Ex.hasErrors ?_
  simp only [Bool.false_eq_true, if_false]
  refine Ex.bind Ex.tok ?_
  rw [if_neg (by simp [h.sign])]
  have start : ∀ {g : Unit → M σ Bool}, W.raw (p + 1) = true → Ex W (p + 1) k (g ()) q k true →
      Ex W p k (setRaw true >>= fun _ => next >>= fun b => setRaw false >>= fun _ => g b) q k true := by
    intro g h1 h2
    have := Ex.modes (v := true) (g := g) (Ex.nextG (hF.ground true) (W := W.inMode true) (p := p) (k := k) h1 (Free.of h.sign) (by simp [hF.free])) h2
    rwa [hF.mode] at this
  have fin : ∀ {m : M σ Bool} {p' : Nat}, Ex W p' k m r k true →
      Ex W p' k (m >>= fun d => if !d then pure false else parseComments f) q k true := by
    intro m p' h1
    exact Ex.bind h1 (by simpa using ex_comments_eol hF hp he)
  cases h with
  | @yaml j h1 h2 h3 h4 h5 h6 =>
    refine start h1.raw (Ex.bind Ex.tok ?_)
    rw [if_pos h1.name]
    refine Ex.bind (Ex.next hF h2 (.of h1.type)) (fin ?_)
    unfold parseYAMLDirective
    refine Ex.bind Ex.hasErrors ?_
    simp only [Bool.false_eq_true, if_false]
    refine Ex.bind (ex_skipWhite hF.toGround (fun _ => hF.free) h3) ?_
    unfold parseYAMLVersion
    refine Ex.bind Ex.hasErrors ?_
    simp only [Bool.false_eq_true, if_false]
    refine Ex.bind Ex.tok ?_
    rw [if_neg (by simp [h4, h5])]
    exact Ex.bind (Ex.next hF h6 (.of h4)) Ex.pure
  | @tag j h i h1 h2 h3 h4 h5 h6 h7 h8 h9 h10 h11 h12 =>
    refine start h1.raw (Ex.bind Ex.tok ?_)
    rw [if_neg (by simp [h1.name]), if_pos h1.name]
    refine Ex.bind (Ex.next hF h2 (.of h1.type)) (fin ?_)
    unfold parseTagDirective
    refine Ex.bind Ex.hasErrors ?_
    simp only [Bool.false_eq_true, if_false]
    refine Ex.bind (ex_sepInLine_yes hF h3 (.inl h4)) ?_
    simp only [Bool.not_true, Bool.false_eq_true, if_false]
    refine Ex.bind (ex_tagHandle hF h5) ?_
    simp only [Bool.not_true, Bool.false_eq_true, if_false]
    have h13 : Ex (W.inMode true) h k (parseSeparateInLine f >>= fun s => if s then parseTagPrefix else pure false : M σ Bool) (h + i + 1) k true := by
      refine Ex.bind (ex_sepInLine_yesG (hF.ground true) (fun _ => hF.free) h6 (.inl h7)) ?_
      rw [if_pos rfl]
      exact ex_tagPrefix (hF.ground true) hF.free h8 h9 h10 h11 h12
    have := Ex.modes (g := fun r => (pure r : M σ Bool)) h13 Ex.pure
    rw [hF.mode] at this
    have e : ∀ g : Bool → M σ Bool, ((parseSeparateInLine f >>= fun s => if s then parseTagPrefix else pure false : M σ Bool) >>= g) =
        parseSeparateInLine f >>= fun s => if s then parseTagPrefix >>= g else pure false >>= g := by
      intro g
      rw [M.assoc]
      congr 1
      funext s
      cases s <;> rfl
    rw [e] at this
    exact this
  | @other _ w h1 h2 h3 h4 h5 =>
    refine start h1.raw (Ex.bind Ex.tok ?_)
    rw [if_neg (by simpa [h1.name] using h2), if_neg (by simpa [h1.name] using h3)]
    refine fin ?_
    unfold parseReservedDirective
    refine Ex.bind Ex.hasErrors ?_
    simp only [Bool.false_eq_true, if_false]
    refine Ex.bind Ex.tok ?_
    rw [if_neg (by simp [h1.type])]
    have h13 := Ex.bind (Ex.nextG (σ := σ) (k := k) (p := p + 1) (hF.ground true) h4 (.of h1.type) (by simp [hF.free]))
      (ex_words (n := f) (hF.ground true) hF.free h5 f)
    have := Ex.modes (g := fun _ => (pure true : M σ Bool)) h13 Ex.pure
    rw [hF.mode] at this
    simpa only [M.assoc] using this

theorem ex_dirs (hF : Flat W) (h : Dirs W p q) (hq : (W q).type ≠ .directive) : ∃ s, Ex W p k (parseDirective n : M σ Bool) s k true ∧
    ∀ f, Ex W s k (tries f (fun u => do
      let d ← parseDirective n
      pure (d, u)) () : M σ Unit) q k () := by
  have stop : ∀ f, Ex W q k (tries f (fun u => do
      let d ← parseDirective n
      pure (d, u)) () : M σ Unit) q k () := fun f => Ex.triesStop (Ex.bind (ex_directive_no hq) Ex.pure)
  induction h with
  | one hp h1 h2 => exact ⟨_, ex_directive hF hp h1 h2, stop⟩
  | more hp h1 h2 _ ih =>
    obtain ⟨s, hs, hs2⟩ := ih hq stop
    exact ⟨_, ex_directive hF hp h1 h2, fun f => Ex.triesGo (Ex.bind hs Ex.pure) hs2⟩

end Verif.Parser
