import Verif.Lemmas.ParserEntry
import Verif.Lemmas.ParserRunDirs

/-!
Exact executions of the productions for documents and for the stream.
-/

set_option linter.unusedSimpArgs false
set_option linter.unusedSectionVars false

namespace Verif.Parser

open Verif.Token Verif.Lexer Verif.Ast Verif.Spec.Cursor

variable {σ α β : Type} [TokenStream σ] [StreamOk σ]
variable {W : Toks} {p q p' j n m f : Nat} {k l : Nat → Nat} {ctx : PCtx} {ind ind' : Ind} {c : Calls σ} {t : List Char}
variable {e v x : Node} {d : Bool} {lo u hi i r N : Nat}

theorem Ex0.loopStop {body : α → M σ (Bool × α)} {x y : α} (h : Ex0 W p k (body x) q l (false, y)) :
    Ex0 W p k (loop f body x) q l y := by
  cases f with
  | zero => intro t cps ht r hr; cases hr
  | succ f =>
    rw [loop]
    refine Ex0.bind h ?_
    exact Ex0.pure

theorem Ex0.attemptT {valid : α → Bool} {m : M σ α} {a : α} (h : Ex W p k m q l a) (hv : valid a = true) :
    Ex0 W p k (attempt valid m) q l a := h.attemptT0 hv

theorem Ex0.attemptF {valid : α → Bool} {m : M σ α} {a : α} (h : Ex W.held p k m q l a) (hv : valid a = false) :
    Ex0 W p k (attempt valid m) p l a := (Ex.attemptF0 (.inl rfl) h hv).unheld

theorem Ex0.attemptN {valid : α → Bool} {m : M σ α} {a : α} (h : Ex W p k m q l a) (hn : W.hold = true ∨ isOpen (W p) = false)
    (hv : valid a = false) : Ex0 W p k (attempt valid m) p l a := Ex.attemptF0 hn h hv

theorem ex_explicitDocument_no (h : (W p).type ≠ .directiveEnd) :
    Ex W p k (parseExplicitDocument f : M σ Node) p k .invalid := by
  unfold parseExplicitDocument
  refine Ex.bind Ex.hasErrors ?_
  simp only [Bool.false_eq_true, if_false]
  refine Ex.bind Ex.tok ?_
  rw [if_pos h]
  exact Ex.pure

theorem ex_directiveDocument_no (h : (W p).type ≠ .directive) :
    Ex W p k (parseDirectiveDocument f : M σ Node) p k .invalid := by
  unfold parseDirectiveDocument
  refine Ex.bind Ex.hasErrors ?_
  simp only [Bool.false_eq_true, if_false]
  refine Ex.bind (p' := p) (j := k) (a := false) ?_ Ex.pure
  unfold parseDirective
  refine Ex.bind Ex.hasErrors ?_
  simp only [Bool.false_eq_true, if_false]
  refine Ex.bind Ex.tok ?_
  rw [if_pos h]
  exact Ex.pure

theorem Ex0.loopGo {body : α → M σ (Bool × α)} {x y z : α} (h : Ex0 W p k (body x) p' l (true, y))
    {l' : Nat → Nat} (h2 : ∀ f, Ex0 W p' l (loop f body y) q l' z) : Ex0 W p k (loop f body x) q l' z := by
  cases f with
  | zero => intro t cps ht r hr; cases hr
  | succ f =>
    rw [loop]
    refine Ex0.bind h ?_
    exact h2 f

/-! ### The node of a document -/

theorem Sep.shut (h : Sep W N p q) (ho : isOpen (W q) = false) : isOpen (W p) = false := by
  cases h with
  | mid _ h => exact (Free.of h.head).1
  | lines _ h => exact h.free.1
  | start _ _ h h2 =>
    cases h with
    | here h1 h3 => exact h2.sp.closed ho
    | line h3 h4 => exact (h3.free h4).1
    | last h3 h4 => exact (h3.free h4).1

theorem Sep.opens (h : Sep W N p q) (ho : isOpen (W p) = true) : q = p ∧ solW W p = true := by
  cases h with
  | mid _ h => rw [(Free.of h.head).1] at ho; cases ho
  | lines _ h => rw [h.free.1] at ho; cases ho
  | @start _ j _ hs h h2 =>
    cases h with
    | here h1 h3 =>
      cases j with
      | zero => exact ⟨rfl, hs⟩
      | succ j => rw [(Free.of h2.sp.head).1] at ho; cases ho
    | line h3 h4 => rw [(h3.free h4).1] at ho; cases ho
    | last h3 h4 => rw [(h3.free h4).1] at ho; cases ho

/-- A leaf which starts with a bracket is a collection at the start of a line. -/
theorem Leaf.opens (h : Leaf W N p e q) (ho : isOpen (W p) = true) :
    ∃ r, 1 ≤ p ∧ solW W p = true ∧ Coll W N p e r ∧ Eol W r q := by
  cases h with
  | atom h h2 h3 =>
    obtain ⟨rfl, hs⟩ := h.opens ho
    rcases h2.cases' with h2 | h2 | h2
    · rw [h2.closed] at ho
      cases ho
    · exact ⟨_, h.pos, hs, h2, h3⟩
    · rw [h2] at ho
      cases ho
  | props h h2 =>
    obtain ⟨rfl, hs⟩ := h.opens ho
    rw [h2.closed] at ho
    cases ho
  | lit h _ _ h2 =>
    obtain ⟨rfl, hs⟩ := h.opens ho
    rw [h2.free.1] at ho
    cases ho
  | propsLit h h2 =>
    obtain ⟨rfl, hs⟩ := h.opens ho
    rw [h2.closed] at ho
    cases ho

theorem Blk.closed (h : Blk W n p e q) : isOpen (W p) = false := by
  cases h with
  | seq h => exact (Free.of h.dash).1
  | map h => exact h.closed

/-- The tokens from `p` up to `q` are the node of a document. -/
inductive Root (W : Toks) : Nat → Node → Nat → Prop
  | leaf {p q : Nat} {e : Node} : Leaf W 0 p e q → Root W p e q
  | start {p q m : Nat} {e : Node} : 1 ≤ p → Line W p m → Blk W m (p + m) e q → Root W p e q
  | lines {p q r m : Nat} {e : Node} : 1 ≤ p → Eol W p r → Line W r m → Blk W m (r + m) e q → Root W p e q
  | props {p q r s t m : Nat} {x e : Node} : Sep W 0 p r → Props W .invalid r x s → Eol W s t → Line W t m →
      Blk W m (t + m) e q → Root W p (.content x e) q

theorem Root.valid (h : Root W p e q) : validNode e = true := by
  cases h with
  | leaf h => exact h.valid
  | start _ _ h => exact h.valid
  | lines _ _ _ h => exact h.valid
  | props => rfl

theorem fin_le (n q i : Nat) : fin n q i ≤ lv q 20 (q + 1) i := by
  unfold fin
  split <;> exact lv_mono (Nat.le_refl _) (by omega) (by omega) (by omega) i

theorem ex_comments_here (hG : Ground W) (h : Line W p 0) : Ex W p k (parseComments f : M σ Bool) p k true := by
  unfold parseComments
  refine Ex.bind Ex.hasErrors ?_
  simp only [Bool.false_eq_true, if_false]
  refine Ex.bind (Ex.attemptF (ex_separatedComment_noG hG.held (by omega) h.sp h.begins) rfl) (Ex.bind Ex.startOfLine ?_)
  simp only [h.sol, Bool.not_true, Bool.and_false, Bool.false_eq_true, if_false]
  refine Ex.bind (p' := p) (j := k) (a := ()) ?_ Ex.pure
  exact Ex.loopStop (Ex.attemptF (Ex.bind (ex_commentLine_noG hG.held (by omega) h.held) Ex.pure) rfl)

theorem look_here (hG : Ground W) (h : Line W p 0) : Look σ W 0 p true p :=
  fun _ _ _ hx => ex_separate_lines hx (ex_separateLines_of (ex_comments_here hG h) (ex_flowLinePrefixG hG (by omega) h.sp (Nat.le_refl _)))

/-- A collection in brackets at the start of a line is no block collection. -/
theorem ex_rootTry (hF : Flat W) (hj : JsonRun W c.json) (hl : Line W p 0) (h : Coll W 0 p e r) (he : Eol W r q) : ∃ s,
    Ex W.held p (lv p 0 q) (parseBlockInBlock f c ⟨-1, .strict⟩ .blockIn : M σ (Node × Ind)) s (lv p 17 q) (.invalid, ⟨-1, .strict⟩) := by
  have hz : (-1 : Int) + 1 = ((0 : Nat) : Int) := rfl
  have hx : (PCtx.blockIn = .blockIn ∧ 0 = 0) ∨ (PCtx.blockIn = .blockOut ∧ 0 + 1 = 0) := .inl ⟨rfl, rfl⟩
  have hd : Dull (W p) := Body.dull (.coll h)
  have hlt := he.lt
  have hle := h.run.le
  obtain ⟨i, hi⟩ := he.sp
  obtain ⟨hm, hlt2⟩ := he.mute hi
  have hty := h.type
  have hG := hF.toGround
  have hH : Ground W.held := hG.held
  have hlH : Line W.held p 0 := hl.held
  have hpl := hF.plane.held
  have hcoll : Flush W p e r → Ex W.held p (lv p 0 q) (c.json ⟨0, .strict⟩ .blockKey) r (lv p 16 q) (e, ⟨0, .strict⟩) := by
    intro hs
    refine (hj.does.coll (o := none) hpl hs.held h.opens he.free.1 ?_ (.inr (.inl rfl))).weaken ?_
    · intro i g1 g2
      simp only [lv]
      rw [if_neg (by omega), if_pos (by omega)]
      omega
    · intro i
      unfold plus lv
      repeat' split
      all_goals omega
  have hkey : Flush W p e r → Ex W.held p (lv p 0 q) (parseBlockMappingImplicitKey f c : M σ Node) (r + i) (lv p 16 q) e := by
    intro hs
    have hv := h.run.valid
    unfold parseBlockMappingImplicitKey
    refine Ex.bind Ex.hasErrors ?_
    simp only [Bool.false_eq_true, if_false]
    have key := ex_flowJSONNode (f := f) (W := W.held) (p := p) (show (W p).type ≠ .tag by rcases hty with h | h <;> simp [h])
      (show (W p).type ≠ .anchor by rcases hty with h | h <;> simp [h]) (hcoll hs)
    rw [if_pos hv] at key
    obtain ⟨b, hb⟩ := ex_sepInLine_optH (σ := σ) (k := lv p 16 q) (f := f) (W := W.held) (p := r) (j := i) hH (fun _ => hm.closed) hi
    refine Ex.bind (p' := r + i) (j := lv p 16 q) (a := e) (Ex.attemptT ?_ hv) ?_
    · unfold parseImplicitJSONKey
      refine Ex.bind Ex.hasErrors ?_
      simp only [Bool.false_eq_true, if_false]
      refine Ex.bind key ?_
      rw [if_neg (by simp [okNode, hv])]
      exact Ex.bind hb Ex.pure
    · rw [if_pos hv]
      exact Ex.pure
  have hent : ∃ s, Ex W.held p (lv p 0 q) (parseBlockMappingEntry f c ⟨0, .strict⟩ : M σ (Node × Ind)) s (lv p 17 q) (.invalid, ⟨0, .strict⟩) := by
    have hmk : (W p).type ≠ .mappingKey ∧ (W p).type ≠ .mappingValue := by rcases hty with h | h <;> simp [h]
    by_cases hs : Flush W p e r
    · exact ⟨r + i, (ex_mappingEntry_of (W := W.held) hmk.1 ((hkey hs).attemptT h.run.valid) hm.ne.2.2.2.2.2.2.1).weaken
        (lv_mono (Nat.le_refl _) (by omega) (Nat.le_refl _) (by omega))⟩
    · exact ⟨p, (ex_mappingEntry_of (W := W.held) hmk.1
        ((ex_implicitKey_lines hF hj h hs (Nat.le_refl _) (by omega) (by omega)).attemptN (.inl rfl) rfl) hmk.2)⟩
  obtain ⟨s, hent⟩ := hent
  refine ⟨s, ?_⟩
  have hdash : (W p).type ≠ .sequenceEntry := by rcases hty with h | h <;> simp [h]
  unfold parseBlockInBlock
  refine Ex.bind Ex.hasErrors ?_
  simp only [Bool.false_eq_true, if_false]
  refine Ex.bind (Ex.attemptF (ex_blockScalar_no (W := W.held.held) hz (.inl rfl) (look_here hH.held hlH.held) hd) rfl) ?_
  rw [if_neg (by simp [okNode, validNode, Node.invalid])]
  refine Ex.bind (a := (.invalid, ⟨-1, .strict⟩)) ?_ Ex.pure
  rw [parseBlockCollection_eq]
  refine Ex.bind Ex.hasErrors ?_
  simp only [Bool.false_eq_true, if_false, inc_of hz]
  refine Ex.bind (Ex.attemptF (a := (.invalid, ⟨((0 : Nat) : Int), .strict⟩)) (q := p) (l := lv p 0 q)
    (Ex.bind (look_here hH.held hlH.held _ _ _ (.inl rfl)) (ex_properties_no (W := W.held.held) _ _ hd.2.2.1 hd.2.2.2)) rfl) ?_
  unfold collRest
  refine Ex.bind (ex_comments_here hH hlH) ?_
  simp only [Bool.not_true, Bool.false_eq_true, if_false, dec_of hz]
  refine Ex.bind (Ex.attemptF (ex_seqSpace hz hx (fun z hz => ex_blockSequence_noG hH.held (by omega) hz hlH.held.sp (fun _ => hdash))) rfl) ?_
  rw [if_neg (by decide)]
  refine Ex.bind (a := .invalid) ?_ Ex.pure
  unfold parseBlockMapping
  refine Ex.bind Ex.hasErrors ?_
  simp only [Bool.false_eq_true, if_false, hz]
  refine Ex.bind (ex_indent_lowerG hH (by omega) hlH.sp (Nat.le_refl _)) ?_
  simp only [Bool.not_true, Bool.false_eq_true, if_false]
  exact Ex.bind hent Ex.pure

theorem ex_rootColl (hF : Flat W) (hj : JsonRun W c.json) (hp : 1 ≤ p) (hs : solW W p = true) (h : Coll W 0 p e r) (he : Eol W r q) (hn : Below W 0 q) :
    Ex W p (lv p 0 q) (parseBlockNode f c ⟨-1, .strict⟩ .blockIn : M σ (Node × Ind)) q (lv p 34 q) (e, ⟨-1, .strict⟩) := by
  have hz : (-1 : Int) + 1 = ((0 : Nat) : Int) := rfl
  have hlt := he.lt
  have hle := h.run.le
  have hty := h.type
  have hb : Begins (W p) := by rcases hty with h | h <;> simp [Begins, h]
  have hl : Line W p 0 := ⟨Sp.zero (by rcases hty with h | h <;> simp [h]) (by rcases hty with h | h <;> simp [h]), hb, hs⟩
  have hv := h.run.valid
  obtain ⟨s, hs⟩ := ex_rootTry (f := f) hF hj hl h he
  unfold parseBlockNode
  refine Ex.bind Ex.hasErrors ?_
  simp only [Bool.false_eq_true, if_false]
  refine Ex.bind (Ex.attemptF hs rfl) ?_
  rw [if_neg (by simp [okNode, validNode, Node.invalid])]
  refine Ex.bind (ex_flowInBlock hz (look_here hF.toGround hl) (ex_flowNode_atom hF hj (.body (.body (.coll h))) he hn.noText (Nat.le_refl _) (by omega) (by omega)) hv
    (fun _ => ex_comments_eol hF (by omega) he)) ?_
  rw [if_pos hv]
  exact Ex.pure

theorem ex_rootNode (hF : Flat W) (hc : Does W c) (h : Root W p e q) (hn : Below W 0 q) :
    Ex W p (lv p 0 p) (parseBlockNode f c ⟨-1, .strict⟩ .blockIn : M σ (Node × Ind)) q (lv q 20 (q + 1)) (e, ⟨-1, .strict⟩) := by
  have hz : (-1 : Int) + 1 = ((0 : Nat) : Int) := rfl
  have hx : (PCtx.blockIn = .blockIn ∧ 0 = 0) ∨ (PCtx.blockIn = .blockOut ∧ 0 + 1 = 0) := .inl ⟨rfl, rfl⟩
  cases h with
  | leaf h =>
    have := h.lt
    cases ho : isOpen (W p) with
    | true =>
      obtain ⟨r, hp, hs, h1, h2⟩ := h.opens ho
      exact ((ex_rootColl hF hc.json hp hs h1 h2 hn).start (lv_mono (Nat.le_refl _) (by omega) (by omega) (by omega))).weaken
        (lv_fresh (by omega) (by omega) (by omega))
    | false =>
      refine ((ex_leaf (lo := p) (hi := q) (u := 0) hF hc.json hz hx h ho hn.noText (Nat.le_refl _) (Nat.le_refl _) (by omega)).start
        (lv_mono (Nat.le_refl _) (by omega) (by omega) (by omega))).weaken ?_
      exact lv_fresh (by omega) (by omega) (by omega)
  | @start _ m _ hp h1 h2 =>
    have hg : Gap W p p := .here h1.sp h1.begins
    have hl : Look σ W 0 p true (p + m) := (Sep.start hp h1.sol hg h1 (Nat.zero_le _)).look hF
    have := ex_collRest_blk (f := f) (x := .invalid) (k := lv p 0 p) hF hc hz hx (fun _ => ex_comments_gap hF hp h1.sol hg) h1.sp
      (Nat.zero_le _) h2 (hn.mono (Nat.zero_le _)) (lv_fresh (by omega) (by omega) (by omega))
    exact (ex_below (h1.sp.closed h2.closed) hz (.inl rfl) hl h2.dull h2.valid this).weaken (fin_le m q)
  | @lines _ r m _ hp h1 h2 h3 =>
    have := h1.lt
    have hl : Look σ W 0 p true (r + m) := (h2.sep hp h1 (Nat.zero_le _)).look hF
    have := ex_collRest_blk (f := f) (x := .invalid) (k := lv p 0 p) hF hc hz hx (fun _ => ex_comments_eol hF hp h1) h2.sp
      (Nat.zero_le _) h3 (hn.mono (Nat.zero_le _)) (lv_fresh (by omega) (by omega) (by omega))
    exact (ex_below h1.free.1 hz (.inl rfl) hl h3.dull h3.valid this).weaken (fin_le m q)
  | @props _ r s t m x _ h1 h2 h3 h4 h5 =>
    have := h1.le
    have := h2.lt
    have := h3.lt
    have hl : Look σ W 0 s true (t + m) := (h4.sep (by omega) h3 (Nat.zero_le _)).look hF
    have := ex_collRest_blk (f := f) (x := x) (k := lv p 0 p) hF hc hz hx (fun _ => ex_comments_eol hF (by omega) h3) h4.sp
      (Nat.zero_le _) h5 (hn.mono (Nat.zero_le _)) (lv_fresh (by omega) (by omega) (by omega))
    exact (ex_belowProps (b := true) (h1.shut h2.closed) hF hz (.inl rfl) (h1.look hF) h2 hl h3.free.1 h5.dull this).weaken (fin_le m q)

theorem ex_bareDocument (hF : Flat W) (h : Root W p e q) (hn : Below W 0 q) :
    Ex W p (lv p 0 p) (parseBareDocument f : M σ Node) q (lv q 20 (q + 1)) e := by
  refine Ex.bind (a := (e, ⟨-1, .strict⟩)) ?_ Ex.pure
  cases f with
  | zero => exact Ex.outOfFuel
  | succ f => exact ex_rootNode hF (does_calls hF f) h hn

/-- Nothing up to a document marker or to the end. -/
theorem ex_bareDocument_no (hF : Flat W) (hp : 1 ≤ p) (he : Eol W p q) (hn : Below W 0 q) :
    ∃ r, Ex W p (lv p 0 p) (parseBareDocument f : M σ Node) r (lv q 20 (q + 1)) .invalid := by
  cases f with
  | zero => exact ⟨p, Ex.bind (a := (.invalid, ⟨-1, .strict⟩)) Ex.outOfFuel Ex.pure⟩
  | succ f =>
    have hc := does_calls (σ := σ) hF f
    have hlt := he.lt
    have hz : (-1 : Int) + 1 = ((0 : Nat) : Int) := rfl
    have hx : (PCtx.blockIn = .blockIn ∧ 0 = 0) ∨ (PCtx.blockIn = .blockOut ∧ 0 + 1 = 0) := .inl ⟨rfl, rfl⟩
    have hcm : ∀ f k, Ex W p k (parseComments f : M σ Bool) q k true := fun _ _ => ex_comments_eol hF hp he
    obtain ⟨j, hw, hj | ⟨rfl, hm⟩⟩ := hn.sp
    · omega
    have hl : Look σ W 0 p true (q + 0) := fun f k ctx hx =>
      ex_separate_lines hx (ex_separateLines_of (hcm f k) (ex_flowLinePrefix hF hw (Nat.le_refl _)))
    obtain ⟨s, hs⟩ := ex_collRest_line (f := f) (x := .invalid) (lo := q) (hi := q + 1) (u := 0) hF hc.json hz hx (hcm f) hw (Nat.le_refl _)
      (.mute hm.still) (Nat.le_refl _) (by omega) (by omega)
    have hb := ex_blockInBlock he.free.1 (ex_blockScalar_no hz (.inl rfl) hl hm.dull) (ex_collection hz (.inl rfl) hl he.free.1 hm.dull hs) (.inl rfl)
    have hfl := ex_flowInBlock_no (f := f) (lo := q) (hi := q + 1) (u := 18) hF hc.json hz hl hm (Nat.le_refl _) (by omega) (by omega)
    have := (ex_blockNode_flow he.free.1 hb hfl (.inl rfl)).start (j := lv p 0 p) (lv_fresh (by omega) (by omega) (by omega))
    exact ⟨_, Ex.bind this (Ex.pure.weaken (lv_mono (Nat.le_refl _) (by omega) (Nat.le_refl _) (by omega)))⟩

/-- The node of a document after its marker. -/
inductive Doc (W : Toks) : Nat → Node → Nat → Prop
  | root {p q : Nat} {e : Node} : Root W p e q → Doc W p e q
  | null {p q : Nat} : Eol W p q → Doc W p .null q

theorem Doc.valid (h : Doc W p e q) : validNode e = true := by
  cases h with
  | root h => exact h.valid
  | null => rfl

theorem ex_explicitDocument (hF : Flat W) (hp : 1 ≤ p) (hm : (W p).type = .directiveEnd ∧ Calm W p) (h : Doc W (p + 1) e q) (hn : Below W 0 q) :
    Ex W p (lv p 20 (p + 1)) (parseExplicitDocument f : M σ Node) q (lv q 20 (q + 1)) e := by
  unfold parseExplicitDocument
  refine Ex.bind Ex.hasErrors ?_
  simp only [Bool.false_eq_true, if_false]
  refine Ex.bind Ex.tok ?_
  rw [if_neg (by simp [hm.1])]
  refine Ex.bind (Ex.next hF hm.2 (.of hm.1)) ?_
  have hst : ∀ i, lv p 20 (p + 1) i ≤ lv (p + 1) 0 (p + 1) i := lv_fresh (by omega) (by omega) (by omega)
  cases h with
  | root h =>
    refine Ex.bind (Ex.attemptT ((ex_bareDocument hF h hn).start hst) h.valid) ?_
    rw [if_pos h.valid]
    exact Ex.pure
  | null h =>
    obtain ⟨r, hr⟩ := ex_bareDocument_no (σ := σ) (f := f) hF (by omega) h hn
    refine Ex.bind (Ex.attemptN (hr.start hst) (.inr h.free.1) rfl) ?_
    rw [if_neg (by decide)]
    refine Ex.bind (Ex.attemptT (ex_comments_eol hF (by omega) h) rfl) ?_
    exact Ex.pure

/-! ### The stream -/

/-- Document suffixes: `...` and what is in the rest of the line. -/
inductive Sufs (W : Toks) : Nat → Nat → Prop
  | one {p q : Nat} : Line W p 0 → (W p).type = .documentEnd ∧ Calm W p → Eol W (p + 1) q → Sufs W p q
  | more {p q r : Nat} : Line W p 0 → (W p).type = .documentEnd ∧ Calm W p → Eol W (p + 1) q → Sufs W q r → Sufs W p r

mutual
/-- Documents from the end of another on. -/
inductive Docs (W : Toks) : Nat → List Node → Prop
  | done {q : Nat} : 1 ≤ q → Done W q → (W (q + 1)).type = .eof → Docs W q []
  | stop {q : Nat} : 1 ≤ q → (W q).type = .eof → solW W q = true → (W (q + 1)).type = .eof → Docs W q []
  | expl {p q : Nat} {e : Node} {es : List Node} : 1 ≤ p → Line W p 0 → (W p).type = .directiveEnd ∧ Calm W p → Doc W (p + 1) e q →
      Docs W q es → Docs W p (e :: es)
  | suffix {p q : Nat} {es : List Node} : 1 ≤ p → Sufs W p q → (W q).type ≠ .documentEnd → First W q es → Docs W p es
/-- Documents, the first of which needs no marker. -/
inductive First (W : Toks) : Nat → List Node → Prop
  | done {q : Nat} : Done W q → (W (q + 1)).type = .eof → First W q []
  | expl {p q : Nat} {e : Node} {es : List Node} : Line W p 0 → (W p).type = .directiveEnd ∧ Calm W p → Doc W (p + 1) e q →
      Docs W q es → First W p (e :: es)
  | bare {p q j : Nat} {e : Node} {es : List Node} : Line W p j → (W p).type ≠ .directive → (W p).type ≠ .directiveEnd →
      Root W p e q → Docs W q es → First W p (e :: es)
  | dirs {p q r : Nat} {e : Node} {es : List Node} : Line W p 0 → Dirs W p q → (W q).type = .directiveEnd ∧ Calm W q → Doc W (q + 1) e r →
      Docs W r es → First W p (e :: es)
end

theorem Sufs.first (h : Sufs W p q) : Line W p 0 ∧ (W p).type = .documentEnd := by
  cases h with
  | one h1 h2 => exact ⟨h1, h2.1⟩
  | more h1 h2 => exact ⟨h1, h2.1⟩

theorem Sufs.lt (h : Sufs W p q) : p < q := by
  induction h with
  | one _ _ h => have := h.lt; omega
  | more _ _ h _ ih => have := h.lt; omega

theorem Docs.pos {es : List Node} (h : Docs W q es) : 1 ≤ q := by cases h <;> assumption

theorem Docs.ends {es : List Node} (h : Docs W q es) : Below W 0 q := by
  cases h with
  | done _ h => exact .inl h.eof
  | stop _ h => exact .inl h
  | expl _ h1 h2 => exact .inr ⟨0, h1, .inr ⟨rfl, .inl h2.1⟩⟩
  | suffix _ h => exact .inr ⟨0, h.first.1, .inr ⟨rfl, .inr h.first.2⟩⟩

/-- At the start of a line with content, or past the end. -/
def AtLine (W : Toks) (q : Nat) : Prop := (∃ j, Line W q j) ∨ Done W q

theorem First.atLine {es : List Node} (h : First W q es) : AtLine W q := by
  cases h with
  | done h => exact .inr h
  | expl h => exact .inl ⟨_, h⟩
  | bare h => exact .inl ⟨_, h⟩
  | dirs h => exact .inl ⟨_, h⟩

theorem AtLine.noBom (h : AtLine W q) : (W q).type ≠ .bom := by
  rcases h with ⟨j, h⟩ | h
  · cases j with
    | zero => exact h.begins.2.2.2.2.2
    | succ j => simp [h.sp.head]
  · simp [h.eof]

theorem ex_prefix_noG (hG : Ground W) (hh : (W q).type = .space → W.hold = false) (h : AtLine W q) :
    Ex W q k (parseDocumentPrefix f : M σ Bool) q k false := by
  unfold parseDocumentPrefix
  refine Ex.bind Ex.hasErrors ?_
  simp only [Bool.false_eq_true, if_false]
  refine Ex.bind Ex.tok ?_
  rw [if_neg h.noBom]
  rcases h with ⟨j, h⟩ | h
  · cases j with
    | zero => exact Ex.triesStop (Ex.bind (ex_commentLine_noG hG.held (by omega) h.held) Ex.pure)
    | succ j =>
      exact Ex.triesStopN (Ex.bind (ex_commentLine_noG hG (fun _ => hh h.sp.head) h) Ex.pure) (.inr (Free.of h.sp.head).1)
  · exact Ex.triesStop (Ex.bind (ex_commentLine_mid h.sp h.sol) Ex.pure)

theorem ex0_prefix_try (hF : Flat W) (h : AtLine W q) :
    Ex0 W q k (attempt Prod.fst (parseDocumentPrefix f >>= fun b => pure (b, ())) : M σ (Bool × Unit)) q k (false, ()) := by
  by_cases hs : (W q).type = .space
  · exact Ex0.attemptN (Ex.bind (ex_prefix_noG hF.toGround (fun _ => hF.free) h) Ex.pure) (.inr (Free.of hs).1) rfl
  · have h' : AtLine W.held q := by
      rcases h with ⟨j, h⟩ | h
      · exact .inl ⟨j, h.held⟩
      · exact .inr ⟨h.eof, h.sol⟩
    exact Ex0.attemptF (Ex.bind (ex_prefix_noG hF.held (fun e => absurd e hs) h') Ex.pure) rfl

theorem ex0_prefixes_no (hF : Flat W) (h : AtLine W q) : Ex0 W q k (prefixes f : M σ Unit) q k () :=
  Ex0.loopStop (ex0_prefix_try hF h)

theorem ex_prefixes_no (hF : Flat W) (h : AtLine W q) : Ex W q k (prefixes f : M σ Unit) q k () := (ex0_prefixes_no hF h).ex

theorem ex_prefixLines (hF : Flat W) (h : Gap W p q) : ∀ {f : Nat} {b : Bool}, 1 ≤ p → solW W p = true →
    Ex W p k (tries f (fun b => do
      let c ← parseCommentLine n
      pure (c, b || c)) b : M σ Bool) q k (b || decide (p < q)) := by
  induction h with
  | here h1 h2 =>
    intro f b hp hs
    have : Ex W _ k (tries f (fun b => do
      let c ← parseCommentLine n
      pure (c, b || c)) b : M σ Bool) _ k (b || false) := 
      Ex.triesStopJ h1 (fun e => Ex.bind (ex_commentLine_noG hF.held (by omega) ⟨h1, h2, hs⟩) Ex.pure)
        (fun _ => Ex.bind (ex_commentLine_no hF ⟨h1, h2, hs⟩) Ex.pure)
    simpa using this
  | @line _ _ c _ h1 h2 h3 h4 ih =>
    intro f b hp hs
    have := h2.le
    have hle := h4.le
    have hone : Ex W _ k (parseCommentLine n >>= fun c => pure (c, b || c) : M σ (Bool × Bool)) (c + 1) k (true, b || true) :=
      Ex.bind (ex_commentLine hF h1 hs h2) Ex.pure
    rw [Bool.or_true] at hone
    refine Ex.triesGo hone (fun f => ?_)
    · have := ih (f := f) (b := true) (by omega) (solW_break (by omega) h3)
      rw [Bool.true_or] at this
      rw [decide_eq_true (by omega), Bool.or_true]
      exact this
  | @last _ _ c h1 h2 h3 h4 =>
    intro f b hp hs
    have := h2.le
    have hone : Ex W _ k (parseCommentLine n >>= fun c => pure (c, b || c) : M σ (Bool × Bool)) (c + 1) k (true, b || true) :=
      Ex.bind (ex_commentLine hF h1 hs h2) Ex.pure
    rw [Bool.or_true] at hone
    refine Ex.triesGo hone (fun f => ?_)
    · rw [decide_eq_true (by omega), Bool.or_true]
      exact Ex.loopStop (Ex.attemptF (Ex.bind (ex_commentLine_mid (Sp.zero (by simp [h4]) (by simp [h4]))
        (solW_eof (by omega) h3)) Ex.pure) rfl)

theorem ex0_prefixes (hF : Flat W) (h : Gap W p q) (hp : 1 ≤ p) (hs : solW W p = true) (hb : (W p).type ≠ .bom) :
    Ex0 W p k (prefixes f : M σ Unit) q k () := by
  have hat : AtLine W q := h.then hp hs
  have h1 : Ex W p k (parseDocumentPrefix f : M σ Bool) q k (decide (p < q)) := by
    unfold parseDocumentPrefix
    refine Ex.bind Ex.hasErrors ?_
    simp only [Bool.false_eq_true, if_false]
    refine Ex.bind Ex.tok ?_
    rw [if_neg hb]
    have := ex_prefixLines (σ := σ) (k := k) (n := f) hF h (f := f) (b := false) hp hs
    rwa [Bool.false_or] at this
  have hle := h.le
  rcases Nat.eq_or_lt_of_le hle with rfl | hlt
  · exact ex0_prefixes_no hF hat
  · rw [decide_eq_true hlt] at h1
    have h2 : Ex W p k (parseDocumentPrefix f >>= fun b => pure (b, ()) : M σ (Bool × Unit)) q k (true, ()) := Ex.bind h1 Ex.pure
    exact Ex0.loopGo (Ex0.attemptT h2 rfl) (fun f' => Ex0.loopStop (ex0_prefix_try hF hat))

theorem ex_suffix_no (h : (W p).type ≠ .documentEnd) : Ex W p k (parseDocumentSuffix f : M σ Bool) p k false := by
  unfold parseDocumentSuffix
  refine Ex.bind Ex.hasErrors ?_
  simp only [Bool.false_eq_true, if_false]
  refine Ex.bind Ex.tok ?_
  rw [if_pos h]
  exact Ex.pure

theorem ex_suffix (hF : Flat W) (h : (W p).type = .documentEnd ∧ Calm W p) (he : Eol W (p + 1) q) :
    Ex W p k (parseDocumentSuffix f : M σ Bool) q k true := by
  unfold parseDocumentSuffix
  refine Ex.bind Ex.hasErrors ?_
  simp only [Bool.false_eq_true, if_false]
  refine Ex.bind Ex.tok ?_
  rw [if_neg (by simp [h.1])]
  exact Ex.bind (Ex.next hF h.2 (.of h.1)) (ex_comments_eol hF (by omega) he)

theorem ex_sufs (hF : Flat W) (h : Sufs W p q) (hn : (W q).type ≠ .documentEnd) : ∃ r, Ex W p k (parseDocumentSuffix n : M σ Bool) r k true ∧
    ∀ f, Ex W r k (tries f (fun u => do
      let s ← parseDocumentSuffix n
      pure (s, u)) () : M σ Unit) q k () := by
  have stop : ∀ f, Ex W q k (tries f (fun u => do
      let s ← parseDocumentSuffix n
      pure (s, u)) () : M σ Unit) q k () := fun f => Ex.triesStop (Ex.bind (ex_suffix_no hn) Ex.pure)
  induction h with
  | one h1 h2 h3 => exact ⟨_, ex_suffix hF h2 h3, stop⟩
  | more h1 h2 h3 h4 ih =>
    obtain ⟨r, hr, hr2⟩ := ih hn stop
    exact ⟨_, ex_suffix hF h2 h3, fun f => Ex.triesGo (Ex.bind hr Ex.pure) hr2⟩

theorem ex_sufPre_no (h : (W p).type ≠ .documentEnd) : Ex W p k (parseSuffixesAndPrefixes f : M σ Bool) p k false := by
  unfold parseSuffixesAndPrefixes
  refine Ex.bind Ex.hasErrors ?_
  simp only [Bool.false_eq_true, if_false]
  refine Ex.bind (ex_suffix_no h) ?_
  exact Ex.pure

theorem ex_sufPre (hF : Flat W) (h : Sufs W p q) (hn : (W q).type ≠ .documentEnd) (ha : AtLine W q) :
    Ex W p k (parseSuffixesAndPrefixes f : M σ Bool) q k true := by
  obtain ⟨r, hr, hr2⟩ := ex_sufs (σ := σ) (k := k) (n := f) hF h hn
  unfold parseSuffixesAndPrefixes
  refine Ex.bind Ex.hasErrors ?_
  simp only [Bool.false_eq_true, if_false]
  refine Ex.bind hr ?_
  simp only [Bool.not_true, Bool.false_eq_true, if_false]
  exact Ex.bind (hr2 f) (Ex.bind (ex_prefixes_no hF ha) Ex.pure)

/-- A document which was found. -/
theorem ex0_addDocument (h : Ex W p k (parseAnyDocument f : M σ Node) q l e) (hv : validNode e = true) (pre : List Node) :
    Ex0 W p k (addDocument f pre : M σ (List Node)) q l (pre ++ [e]) := by
  unfold addDocument
  refine Ex0.bind (Ex0.attemptT h hv) ?_
  rw [if_pos hv]
  exact Ex0.pure

/-- The end: no document, and no further one. -/
theorem ex0_end (hF : Flat W) (hd : Done W q) (pre : List Node) :
    Ex0 W q k (streamStep f pre : M σ (Bool × List Node)) q k (false, pre) := by
  unfold streamStep
  refine Ex0.bind (Ex0.attemptF (ex_sufPre_no (by simp [hd.eof])) rfl) ?_
  simp only [Bool.false_eq_true, if_false]
  refine Ex0.bind Ex0.tok ?_
  rw [if_neg (by simp [hd.eof])]
  refine Ex0.bind (Ex0.attemptF (ex_commentLine_mid hd.sp hd.sol) rfl) ?_
  simp only [Bool.false_eq_true, if_false]
  refine Ex0.bind (Ex0.attemptF (ex_explicitDocument_no (by simp [hd.eof])) rfl) ?_
  exact Ex0.pure

/-- The end at the start of a line is read as an empty line first. -/
theorem ex0_eof (hF : Flat W) (h : (W q).type = .eof) (hs : solW W q = true) (pre : List Node) :
    Ex0 W q k (streamStep f pre : M σ (Bool × List Node)) (q + 1) k (true, pre) := by
  unfold streamStep
  refine Ex0.bind (Ex0.attemptF (ex_sufPre_no (by simp [h])) rfl) ?_
  simp only [Bool.false_eq_true, if_false]
  refine Ex0.bind Ex0.tok ?_
  rw [if_neg (by simp [h])]
  refine Ex0.bind (Ex0.attemptT (ex_commentLine (j := 0) hF (Sp.eof h) hs (.none (by simp [isBreakOrEOF, h]))) rfl) ?_
  simp only [if_true]
  exact Ex0.pure

/-- The documents which remain, from the first on: what `addDocument` finds, and what the loop finds after it. -/
def Goes (σ : Type) [TokenStream σ] [StreamOk σ] (W : Toks) (p : Nat) (k : Nat → Nat) (es : List Node) : Prop :=
  ∀ f f' pre, ∃ pre' q l q' l', Ex0 W p k (addDocument f pre : M σ (List Node)) q l pre' ∧
    Ex0 W q l (loop f' (streamStep f) pre' : M σ (List Node)) q' l' (pre ++ es)

mutual
theorem ex0_docs (hF : Flat W) : ∀ {p : Nat} {es : List Node}, Docs W p es → ∀ f f' pre, ∃ q l,
    Ex0 W p (lv p 20 (p + 1)) (loop f' (streamStep f) pre : M σ (List Node)) q l (pre ++ es) := by
  intro p es h f f' pre
  match h with
  | .done _ h _ =>
    rw [List.append_nil]
    exact ⟨_, _, Ex0.loopStop (ex0_end hF h pre)⟩
  | .stop hp h hs h2 =>
    rw [List.append_nil]
    refine ⟨_, _, Ex0.loopGo (ex0_eof hF h hs pre) (fun f => Ex0.loopStop (ex0_end hF ⟨h2, solW_eof hp h⟩ pre))⟩
  | @Docs.expl _ _ q e es hp h1 h2 h3 h4 =>
    have hex := ex_explicitDocument (σ := σ) (f := f) hF hp h2 h3 h4.ends
    have hstep : Ex0 W p (lv p 20 (p + 1)) (streamStep f pre : M σ (Bool × List Node)) q (lv q 20 (q + 1)) (true, pre ++ [e]) := by
      unfold streamStep
      refine Ex0.bind (Ex0.attemptF (ex_sufPre_no (by simp [h2.1])) rfl) ?_
      simp only [Bool.false_eq_true, if_false]
      refine Ex0.bind Ex0.tok ?_
      rw [if_neg (by simp [h2.1])]
      refine Ex0.bind (Ex0.attemptN (ex_commentLine_no hF h1) (.inr (Free.of h2.1).1) rfl) ?_
      simp only [Bool.false_eq_true, if_false]
      refine Ex0.bind (Ex0.attemptT hex h3.valid) ?_
      rw [if_pos h3.valid]
      exact Ex0.pure
    cases f' with
    | zero => exact ⟨0, fun _ => 0, fun t cps ht r hr => by cases hr⟩
    | succ f' =>
      obtain ⟨q', l', hq⟩ := ex0_docs hF h4 f f' (pre ++ [e])
      refine ⟨q', l', ?_⟩
      rw [loop]
      refine Ex0.bind hstep ?_
      rw [List.append_assoc] at hq
      exact hq
  | @Docs.suffix _ _ q _ hp h1 h2 h3 =>
    have hlt := h1.lt
    cases f' with
    | zero => exact ⟨0, fun _ => 0, fun t cps ht r hr => by cases hr⟩
    | succ f' =>
      obtain ⟨pre', q1, l1, q', l', hq1, hq2⟩ := ex0_first hF (by omega) h3 f f' pre
      refine ⟨q', l', ?_⟩
      rw [loop]
      refine Ex0.bind (p' := q1) (j := l1) (a := (true, pre')) ?_ hq2
      unfold streamStep
      refine Ex0.bind (Ex0.attemptT (ex_sufPre hF h1 h2 h3.atLine) rfl) ?_
      simp only [if_true]
      have : Ex0 W q (lv p 20 (p + 1)) (addDocument f pre : M σ (List Node)) q1 l1 pre' :=
        fun t cps ht => hq1 t cps (ht.weaken (lv_fresh (by omega) (by omega) (by omega)))
      exact Ex0.bind this Ex0.pure
theorem ex0_first (hF : Flat W) : ∀ {p : Nat} {es : List Node}, 1 ≤ p → First W p es → Goes σ W p (lv p 0 p) es := by
  intro p es hp h f f' pre
  match h with
  | .done h h2 =>
    have he : Eol W p (p + 1) := .last (j := 0) h.sp (.none (by simp [isBreakOrEOF, h.eof])) (.inr rfl) h.eof h2
    have hd : Done W (p + 1) := ⟨h2, solW_eof hp h.eof⟩
    obtain ⟨r, hr⟩ := ex_bareDocument_no (σ := σ) (f := f) hF hp he (.inl hd.eof)
    rw [List.append_nil]
    refine ⟨pre, p, lv (p + 1) 20 (p + 1 + 1), _, _, ?_, Ex0.loopStop (ex0_end hF h pre)⟩
    unfold addDocument
    refine Ex0.bind (p' := p) (j := lv (p + 1) 20 (p + 1 + 1)) (a := .invalid) (Ex0.attemptN (q := p) ?_ (.inr (Free.of h.eof).1) rfl) ?_
    · unfold parseAnyDocument
      refine Ex.bind Ex.hasErrors ?_
      simp only [Bool.false_eq_true, if_false]
      refine Ex.bind (Ex.attemptF (ex_directiveDocument_no (by simp [h.eof])) rfl) ?_
      rw [if_neg (by decide)]
      refine Ex.bind (Ex.attemptF (ex_explicitDocument_no (by simp [h.eof])) rfl) ?_
      rw [if_neg (by decide)]
      refine Ex.bind (Ex.attemptN hr (.inr (Free.of h.eof).1) rfl) ?_
      rw [if_neg (by decide)]
      exact Ex.pure
    · rw [if_neg (by decide)]
      exact Ex0.pure
  | @First.expl _ _ q e es h1 h2 h3 h4 =>
    have hex := (ex_explicitDocument (σ := σ) (f := f) hF hp h2 h3 h4.ends).start (j := lv p 0 p)
      (lv_mono (Nat.le_refl _) (by omega) (by omega) (by omega))
    obtain ⟨q', l', hq⟩ := ex0_docs hF h4 f f' (pre ++ [e])
    rw [List.append_assoc] at hq
    refine ⟨pre ++ [e], q, _, q', l', ex0_addDocument ?_ h3.valid pre, hq⟩
    unfold parseAnyDocument
    refine Ex.bind Ex.hasErrors ?_
    simp only [Bool.false_eq_true, if_false]
    refine Ex.bind (Ex.attemptF (ex_directiveDocument_no (by simp [h2.1])) rfl) ?_
    rw [if_neg (by decide)]
    refine Ex.bind (Ex.attemptT hex h3.valid) ?_
    rw [if_pos h3.valid]
    exact Ex.pure
  | @First.dirs _ _ r0 r e es h0 h1 h2 h3 h4 =>
    have hlt := h1.lt
    have hex := (ex_explicitDocument (σ := σ) (f := f) hF (by omega) h2 h3 h4.ends).start (j := lv p 0 p)
      (lv_fresh (by omega) (by omega) (by omega))
    obtain ⟨q', l', hq⟩ := ex0_docs hF h4 f f' (pre ++ [e])
    rw [List.append_assoc] at hq
    refine ⟨pre ++ [e], r, _, q', l', ex0_addDocument ?_ h3.valid pre, hq⟩
    unfold parseAnyDocument
    refine Ex.bind Ex.hasErrors ?_
    simp only [Bool.false_eq_true, if_false]
    obtain ⟨s, hs, hs2⟩ := ex_dirs (σ := σ) (k := lv p 0 p) (n := f) hF h1 (by simp [h2.1])
    refine Ex.bind (Ex.attemptT (a := e) (q := r) (l := lv r 20 (r + 1)) ?_ h3.valid) ?_
    · unfold parseDirectiveDocument
      refine Ex.bind Ex.hasErrors ?_
      simp only [Bool.false_eq_true, if_false]
      refine Ex.bind hs ?_
      simp only [Bool.not_true, Bool.false_eq_true, if_false]
      exact Ex.bind (hs2 f) hex
    · rw [if_pos h3.valid]
      exact Ex.pure
  | @First.bare _ _ q j e es h0 h1 h2 h3 h4 =>
    have hex := ex_bareDocument (σ := σ) (f := f) hF h3 h4.ends
    obtain ⟨q', l', hq⟩ := ex0_docs hF h4 f f' (pre ++ [e])
    rw [List.append_assoc] at hq
    refine ⟨pre ++ [e], q, _, q', l', ex0_addDocument ?_ h3.valid pre, hq⟩
    unfold parseAnyDocument
    refine Ex.bind Ex.hasErrors ?_
    simp only [Bool.false_eq_true, if_false]
    refine Ex.bind (Ex.attemptF (ex_directiveDocument_no h1) rfl) ?_
    rw [if_neg (by decide)]
    refine Ex.bind (Ex.attemptF (ex_explicitDocument_no h2) rfl) ?_
    rw [if_neg (by decide)]
    refine Ex.bind (Ex.attemptT hex h3.valid) ?_
    rw [if_pos h3.valid]
    exact Ex.pure
end

/-- The tokens of a whole text. -/
def Stream (W : Toks) (es : List Node) : Prop := ∃ q, (W 1).type ≠ .bom ∧ Gap W 1 q ∧ First W q es

/-- The whole stream. -/
theorem ex_stream (hF : Flat W) {es : List Node} (h : Stream W es) : ∃ q l,
    Ex0 W 1 (fun _ => 0) (parseStream f : M σ Node) q l (.stream es) := by
  obtain ⟨q, hb, hg, h⟩ := h
  have hle := hg.le
  obtain ⟨pre', q1, l1, q', l', hq1, hq2⟩ := ex0_first (σ := σ) hF hle h f f []
  refine ⟨q', l', ?_⟩
  unfold parseStream
  have : Ex0 W q (fun _ => 0) (addDocument f [] : M σ (List Node)) q1 l1 pre' :=
    fun t cps ht => hq1 t cps (ht.weaken (fun _ => Nat.zero_le _))
  refine Ex0.bind (ex0_prefixes hF hg (Nat.le_refl _) rfl hb) (Ex0.bind this (Ex0.bind hq2 ?_))
  exact Ex0.pure

/-- The parser on the tokens of a stream. -/
theorem parse_docs {s : σ} {pool : List Buf} {r : Node × P σ} (hs : StreamOk.inv s) (hp : Empty pool) (hW : Serves W s 0)
    (hm : TokenStream.setRaw W.mode s = s) (h0 : Calm W 0) (hlv : W.level = 0) (hF : Flat W) {es : List Node} (h : Stream W es)
    (hr : parse f (newParser (CPAccessor.new s {}) pool) = .ok r) : r.1 = .stream es ∧ r.2.errors = [] := by
  obtain ⟨q, l, hst⟩ := ex_stream (σ := σ) (f := f) hF h
  have heq : (parse f : M σ Node) = (do next; setStartOfLine : M σ Unit) >>= fun _ => parseStream f := by
    funext t
    show M.bind next _ t = M.bind (M.bind next _) _ t
    simp only [M.bind]
    cases (next : M σ Unit) t <;> rfl
  obtain ⟨_, t, A, e1, hR, ⟨-, -, rfl⟩, -⟩ := entry (s := s) hs hp
  have e2 : t = { balance (step (newParser (CPAccessor.new s {}) pool)) with sol := true } := by
    have : (do next; setStartOfLine : M σ Unit) (newParser (CPAccessor.new s {}) pool) =
        .ok ((), { balance (step (newParser (CPAccessor.new s {}) pool)) with sol := true }) := by
      show M.bind next _ _ = _
      rw [M.bind, next_eq _ rfl]
      rfl
    rw [this] at e1
    cases e1; rfl
  obtain ⟨hv, hW'⟩ := hW.pull (h0.symm ▸ hm)
  have hv : (TokenStream.pull s).1 = W 1 := hv
  have hb0 : Bal W 0 (step (newParser (CPAccessor.new s {}) pool)).bal := ⟨rfl, rfl, rfl, rfl⟩
  rw [balance_bal hF.toGround hv hb0] at e2
  have hat : At W (fun _ => 0) 1 [] t := by
    subst e2
    refine ⟨⟨_, _, hR, ?_, ?_⟩, rfl, StreamOk.raw_keep _ _ hm, (add_bal hF.toGround hb0).2.1, rfl, hlv.symm, ?_⟩
    · intro i hi
      have hi' : i < 1 := hi
      obtain rfl : i = 0 := by omega
      exact hv
    · exact hW'
    · exact ⟨fun pos => ⟨Int.le_refl 0, show (0 : Int) ≤ 64 by decide⟩, fun _ _ => Int.le_refl 0⟩
  rw [heq] at hr
  have hr' : M.bind (do next; setStartOfLine : M σ Unit) (fun _ => parseStream f) _ = .ok r := hr
  rw [M.bind, e1] at hr'
  obtain ⟨h3, h4, -⟩ := hst t [] hat r hr'
  exact ⟨h3, h4.errors⟩

/-- The entry point on the tokens of a stream, on what is in the pools. -/
theorem parseString_docs {s : σ} {w : Pools σ} (o : Bool) (hs : StreamOk.inv s) (hw : PoolsOk w) (hW : Serves W s 0)
    (hm : TokenStream.setRaw W.mode s = s) (h0 : Calm W 0) (hlv : W.level = 0) (hF : Flat W) {es : List Node} (h : Stream W es) :
    ∃ w', PoolsOk w' ∧ Conv (fun f => parseString f o s w) (finish o (.stream es, []), w') := by
  obtain ⟨docs, errs, w', -, -, hw', ⟨f0, hc⟩, -⟩ := parseTokenStream_ok hs hw
  have hc0 := hc f0 (Nat.le_refl _)
  have key : (.stream docs : Node) = .stream es ∧ errs = [] := by
    have hc0' : parseTokenStream f0 s w = .ok ((.stream docs, errs), w') := hc0
    unfold parseTokenStream at hc0'
    rw [(getAccessor_new hw s).1] at hc0'
    cases hp : parse f0 (newParser (CPAccessor.new s {}) w.bufs) with
    | timeout => rw [hp] at hc0'; cases hc0'
    | panic => rw [hp] at hc0'; cases hc0'
    | ok r =>
      obtain ⟨r1, r2⟩ := r
      obtain ⟨h3, h4⟩ := parse_docs hs hw.2 hW hm h0 hlv hF h hp
      rw [hp] at hc0'
      cases hc0'
      exact ⟨h3, h4⟩
  obtain ⟨k1, rfl⟩ := key
  cases k1
  have := parseString_conv (o := o) ⟨f0, hc⟩
  exact ⟨w', hw', this⟩

end Verif.Parser
