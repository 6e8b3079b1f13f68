import Verif.Lemmas.ParserRunNode

/-!
Exact executions of the block productions of the parser: block collections of words, quoted texts, aliases and nothing, with
properties and comments.
-/

set_option linter.unusedSimpArgs false
set_option linter.unusedSectionVars false

namespace Verif.Parser

open Verif.Token Verif.Lexer Verif.Ast Verif.Spec.Cursor

variable {σ α β : Type} [TokenStream σ] [StreamOk σ]
variable {W : Toks} {p q p' j n m f : Nat} {k l : Nat → Nat} {ctx : PCtx} {ind ind' : Ind} {c : Calls σ} {t : List Char}
variable {e v x : Node} {d : Bool} {lo u hi i r N : Nat}

/-! ### What follows -/

/-- A document marker. -/
def Marker (t : Tok) : Prop := t.type = .directiveEnd ∨ t.type = .documentEnd

theorem Marker.mute {t : Tok} (h : Marker t) : Mute t := by
  rcases h with h | h <;> simp [Mute, h]

/-- The next line with content is indented by less than `N`, or is a document marker, or there is none. -/
def Below (W : Toks) (N q : Nat) : Prop := (W q).type = .eof ∨ ∃ j, Line W q j ∧ (j < N ∨ (j = 0 ∧ Marker (W q)))

/-- The next line is no item of a sequence at column `n`. -/
def NoDash (W : Toks) (n q : Nat) : Prop := Sp W q n → (W (q + n)).type ≠ .sequenceEntry

theorem Below.mono (h : Below W N q) (hm : N ≤ m) : Below W m q := by
  rcases h with h | ⟨j, h, hj | hj⟩
  · exact .inl h
  · exact .inr ⟨j, h, .inl (by omega)⟩
  · exact .inr ⟨j, h, .inr hj⟩

theorem Line.below (h : Line W q j) (hj : j < N) : Below W N q := .inr ⟨j, h, .inl hj⟩

theorem Below.noText (h : Below W N q) : NoText W N q := by
  intro i hi hb hN
  rcases h with h | ⟨j, h, hj | ⟨rfl, hj⟩⟩
  · obtain rfl := hi.unique (Sp.eof h)
    exact absurd h hb.2.2.2.1
  · obtain rfl := hi.unique h.sp
    omega
  · obtain rfl := hi.unique h.sp
    exact hj.mute.ne.2.2.2.1

/-- The spaces in front of what follows. -/
theorem Below.sp (h : Below W N q) : ∃ j, Sp W q j ∧ (j < N ∨ (j = 0 ∧ Mute (W q))) := by
  rcases h with h | ⟨j, h, hj | ⟨rfl, hj⟩⟩
  · exact ⟨0, Sp.eof h, .inr ⟨rfl, by simp [Mute, h]⟩⟩
  · exact ⟨j, h.sp, .inl hj⟩
  · exact ⟨0, h.sp, .inr ⟨rfl, hj.mute⟩⟩

theorem Below.short (h : Below W N q) (hN : 1 ≤ N) : ∃ j, Sp W q j ∧ j < N := by
  obtain ⟨j, hw, h | h⟩ := h.sp
  · exact ⟨j, hw, h⟩
  · exact ⟨j, hw, by omega⟩

theorem Below.noDash (h : Below W n q) : NoDash W n q := by
  intro hw
  obtain ⟨j, hj, hm | ⟨rfl, hm⟩⟩ := h.sp
  · have := hw.unique hj
    omega
  · obtain rfl := hw.unique hj
    exact hm.ne.2.2.2.2.2.2.2.2.1

/-! ### Trees as tokens -/

mutual
/-- The tokens from `p` up to `q` are a block collection at column `n`. -/
inductive Blk (W : Toks) : Nat → Nat → Node → Nat → Prop
  | seq {n p q : Nat} {es : List Node} : Items W n p es q → Blk W n p (.sequence es) q
  | map {n p q : Nat} {es : List Node} : Pairs W n p es q → Blk W n p (.mapping es) q
/-- The items of a sequence. -/
inductive Items (W : Toks) : Nat → Nat → List Node → Nat → Prop
  | last {n p q : Nat} {e : Node} : 1 ≤ p → (W p).type = .sequenceEntry ∧ Calm W p →
      (W (p + 1)).type = .space ∨ (W (p + 1)).type = .lineBreak → Item W n (p + 1) e q → Items W n p [e] q
  | cons {n p q r : Nat} {e : Node} {es : List Node} : 1 ≤ p → (W p).type = .sequenceEntry ∧ Calm W p →
      (W (p + 1)).type = .space ∨ (W (p + 1)).type = .lineBreak → Item W n (p + 1) e q → Line W q n → Items W n (q + n) es r →
      Items W n p (e :: es) r
/-- An item of a sequence at column `n`, after the dash. -/
inductive Item (W : Toks) : Nat → Nat → Node → Nat → Prop
  | leaf {n p q : Nat} {e : Node} : Leaf W (n + 1) p e q → Item W n p e q
  | bare {n p q : Nat} {e : Node} : Bare W (n + 1) p e q → Item W n p e q
  | null {n p q : Nat} : Eol W p q → Item W n p .null q
  | compact {n p q j : Nat} {e : Node} : Sp W p (j + 1) → Blk W (n + 1 + (j + 1)) (p + (j + 1)) e q → Item W n p e q
  | under {n p q r m : Nat} {e : Node} : Eol W p r → Line W r m → n + 1 ≤ m → Blk W m (r + m) e q → Item W n p e q
  | underProps {n p q r s t m : Nat} {x e : Node} : Sep W (n + 1) p r → Props W .invalid r x s → Eol W s t → Line W t m →
      n + 1 ≤ m → Blk W m (t + m) e q → Item W n p (.content x e) q
/-- The entries of a mapping. -/
inductive Pairs (W : Toks) : Nat → Nat → List Node → Nat → Prop
  | last {n p q i r : Nat} {x v : Node} : Atom W p x q → Sp W q i → (W (q + i)).type = .mappingValue ∧ Calm W (q + i) →
      Val W n (q + i + 1) v r → Pairs W n p [.mappingEntry x v] r
  | cons {n p q i r s : Nat} {x v : Node} {es : List Node} : Atom W p x q → Sp W q i → (W (q + i)).type = .mappingValue ∧ Calm W (q + i) →
      Val W n (q + i + 1) v r → Line W r n → Pairs W n (r + n) es s → Pairs W n p (.mappingEntry x v :: es) s
  | keyLast {n p q : Nat} {x : Node} : 1 ≤ p → (W p).type = .mappingKey ∧ Calm W p → Fld W n (p + 1) x q →
      Pairs W n p [.mappingEntry x .null] q
  | keyCons {n p q s : Nat} {x : Node} {es : List Node} : 1 ≤ p → (W p).type = .mappingKey ∧ Calm W p → Fld W n (p + 1) x q →
      Line W q n → Pairs W n (q + n) es s → Pairs W n p (.mappingEntry x .null :: es) s
  | entryLast {n p q r : Nat} {x v : Node} : 1 ≤ p → (W p).type = .mappingKey ∧ Calm W p → Fld W n (p + 1) x q → 1 ≤ q → Line W q n →
      (W (q + n)).type = .mappingValue ∧ Calm W (q + n) → Fld W n (q + n + 1) v r → Pairs W n p [.mappingEntry x v] r
  | entryCons {n p q r s : Nat} {x v : Node} {es : List Node} : 1 ≤ p → (W p).type = .mappingKey ∧ Calm W p → Fld W n (p + 1) x q →
      1 ≤ q → Line W q n → (W (q + n)).type = .mappingValue ∧ Calm W (q + n) → Fld W n (q + n + 1) v r → Line W r n →
      Pairs W n (r + n) es s → Pairs W n p (.mappingEntry x v :: es) s
/-- The value of an entry of a mapping at column `n`, after the colon. -/
inductive Val (W : Toks) : Nat → Nat → Node → Nat → Prop
  | leaf {n p q : Nat} {e : Node} : Leaf W (n + 1) p e q → Val W n p e q
  | bare {n p q : Nat} {e : Node} : Bare W (n + 1) p e q → Val W n p e q
  | null {n p q : Nat} : Eol W p q → Val W n p .null q
  | under {n p q r m : Nat} {e : Node} : Eol W p r → Line W r m → n + 1 ≤ m → Blk W m (r + m) e q → Val W n p e q
  | flush {n p q r : Nat} {es : List Node} : Eol W p r → Line W r n → Items W n (r + n) es q → Val W n p (.sequence es) q
  | underProps {n p q r s t m : Nat} {x e : Node} : Sep W (n + 1) p r → Props W .invalid r x s → Eol W s t → Line W t m →
      n + 1 ≤ m → Blk W m (t + m) e q → Val W n p (.content x e) q
  | flushProps {n p q r s t i : Nat} {x : Node} {es : List Node} : Sep W (n + 1) p r → Props W (absent (decide (0 < i))) r x s →
      Sp W s i → Eol W s t → Line W t n → Items W n (t + n) es q → Val W n p (.content x (.sequence es)) q
/-- The key or the value of an entry with a `?`, after its sign. -/
inductive Fld (W : Toks) : Nat → Nat → Node → Nat → Prop
  | val {n p q : Nat} {e : Node} : Val W n p e q → Fld W n p e q
  | compact {n p q j : Nat} {e : Node} : Sp W p (j + 1) → Blk W (n + 1 + (j + 1)) (p + (j + 1)) e q → Fld W n p e q
end

theorem Items.pos {es : List Node} (h : Items W n p es q) : 1 ≤ p := by
  cases h with
  | last h => exact h
  | cons h => exact h

theorem Items.dash {es : List Node} (h : Items W n p es q) : (W p).type = .sequenceEntry := by
  cases h with
  | last _ h => exact h.1
  | cons _ h => exact h.1

theorem Pairs.head {es : List Node} (h : Pairs W n p es q) : (∃ e r, Atom W p e r) ∨ (W p).type = .mappingKey := by
  cases h with
  | last h => exact .inl ⟨_, _, h⟩
  | cons h => exact .inl ⟨_, _, h⟩
  | keyLast _ h => exact .inr h.1
  | keyCons _ h => exact .inr h.1
  | entryLast _ h => exact .inr h.1
  | entryCons _ h => exact .inr h.1

theorem Pairs.noDash {es : List Node} (h : Pairs W n p es q) : (W p).type ≠ .sequenceEntry := by
  rcases h.head with ⟨e, r, h⟩ | h
  · exact h.noDash
  · simp [h]

theorem Pairs.closed {es : List Node} (h : Pairs W n p es q) : isOpen (W p) = false := by
  rcases h.head with ⟨e, r, h⟩ | h
  · exact h.closed
  · exact (Free.of h).1

theorem Blk.dull (h : Blk W n p e q) : Dull (W p) := by
  cases h with
  | seq h => simp [Dull, h.dash]
  | map h =>
    rcases h.head with ⟨e, r, h⟩ | h
    · exact h.dull
    · simp [Dull, h]

theorem Blk.valid (h : Blk W n p e q) : validNode e = true := by cases h <;> rfl

theorem Item.valid (h : Item W n p e q) : validNode e = true := by
  cases h with
  | leaf h => exact h.valid
  | bare h => cases h; rfl
  | null => rfl
  | compact _ h => exact h.valid
  | under _ _ _ h => exact h.valid
  | underProps => rfl

theorem Val.valid (h : Val W n p e q) : validNode e = true := by
  cases h with
  | leaf h => exact h.valid
  | bare h => cases h; rfl
  | null => rfl
  | under _ _ _ h => exact h.valid
  | flush => rfl
  | underProps => rfl
  | flushProps => rfl

theorem Fld.valid (h : Fld W n p e q) : validNode e = true := by
  cases h with
  | val h => exact h.valid
  | compact _ h => exact h.valid

/-- The value of an entry after the colon (`parseBlockMappingImplicitValue`). -/
def implicitValue (f : Nat) (c : Calls σ) (ind : Ind) : M σ (Node × Ind) := do
  let v ← attempt okNode (c.node ind .blockOut)
  if okNode v then pure v else
  let cm ← parseComments f
  if !cm then pure (.invalid, v.2) else pure (.null, v.2)

/-- What the productions for the recursion do on items and values. -/
structure Does (W : Toks) (c : Calls σ) : Prop where
  json : JsonRun W c.json
  item : ∀ {n p q : Nat} {e : Node}, 1 ≤ p → solW W p = false → Item W n p e q → Below W (n + 1) q →
    Ex W p (lv p 0 p) (c.indented ⟨n, .strict⟩ .blockIn) q (lv q 0 q) (e, ⟨n, .strict⟩)
  val : ∀ (f : Nat) {n p q : Nat} {v : Node}, 1 ≤ p → solW W p = false → Val W n p v q → Below W (n + 1) q → NoDash W n q →
    Ex W p (lv p 0 p) (implicitValue f c ⟨n, .strict⟩) q (lv q 0 q) (v, ⟨n, .strict⟩)
  fld : ∀ {n p q : Nat} {e : Node}, 1 ≤ p → solW W p = false → Fld W n p e q → Below W (n + 1) q → NoDash W n q →
    Ex W p (lv p 0 p) (c.indented ⟨n, .strict⟩ .blockOut) q (lv q 0 q) (e, ⟨n, .strict⟩)

theorem ex_sequenceEntry (hF : Flat W) (hc : Does W c) (hp : 1 ≤ p) (h : (W p).type = .sequenceEntry ∧ Calm W p)
    (h1 : (W (p + 1)).type = .space ∨ (W (p + 1)).type = .lineBreak) (hi : Item W n (p + 1) e q) (hn : Below W (n + 1) q) :
    Ex W p (lv p 0 p) (parseBlockSequenceEntry c ⟨n, .strict⟩ : M σ (Node × Ind)) q (lv q 0 q) (e, ⟨n, .strict⟩) := by
  have key := (hc.item (by omega) (solW_not hp (by simp [h.1]) (by simp [h.1])) hi hn).start (j := lv p 0 p)
    (lv_fresh (by omega) (by omega) (by omega))
  unfold parseBlockSequenceEntry
  refine Ex.bind Ex.hasErrors ?_
  simp only [Bool.false_eq_true, if_false]
  refine Ex.bind Ex.tok ?_
  rw [if_neg (by simp [h.1])]
  refine Ex.bind (Ex.next hF h.2 (.of h.1)) (Ex.bind Ex.tok ?_)
  rcases h1 with h1 | h1 <;> rw [h1] <;> exact key

/-- A mapping entry. -/
theorem ex_mappingEntry (hF : Flat W) (hc : Does W c) (h : Atom W p x q) (hw : Sp W q i)
    (hq : (W (q + i)).type = .mappingValue ∧ Calm W (q + i)) (hv : Val W n (q + i + 1) v r) (hn : Below W (n + 1) r) (hd : NoDash W n r) :
    Ex W p (lv p 0 p) (parseBlockMappingEntry f c ⟨n, .strict⟩ : M σ (Node × Ind)) r (lv r 0 r) (.mappingEntry x v, ⟨n, .strict⟩) := by
  have hlt := h.lt
  have hp := h.pos
  have key := (hc.val f (by omega) (solW_not (by omega) (by simp [hq.1]) (by simp [hq.1])) hv hn hd).start (j := lv p 0 p)
    (lv_fresh (by omega) (by omega) (by omega))
  unfold parseBlockMappingEntry
  refine Ex.bind Ex.hasErrors ?_
  simp only [Bool.false_eq_true, if_false]
  refine Ex.bind Ex.tok ?_
  rw [if_neg (by rcases h.type with h | h | h | h <;> simp [h])]
  unfold parseBlockMappingImplicitEntry
  refine Ex.bind Ex.hasErrors ?_
  simp only [Bool.false_eq_true, if_false]
  refine Ex.bind (Ex.attemptT (ex_implicitKey hF hc.json h hw) h.valid) ?_
  refine Ex.bind (p' := r) (j := lv r 0 r) (a := (v, ⟨(n : Int), .strict⟩)) ?_ ?_
  · unfold parseBlockMappingImplicitValue
    refine Ex.bind Ex.hasErrors ?_
    simp only [Bool.false_eq_true, if_false]
    refine Ex.bind Ex.tok ?_
    rw [if_neg (by simp [hq.1])]
    refine Ex.bind (Ex.next hF hq.2 (.of hq.1)) ?_
    exact key
  · rw [if_neg (by simp [okNode, hv.valid]), if_pos h.valid]
    exact Ex.pure

/-- The next line is no value of an entry at column `n`. -/
def NoColon (W : Toks) (n q : Nat) : Prop := Sp W q n → (W (q + n)).type ≠ .mappingValue

theorem Below.noColon (h : Below W n q) : NoColon W n q := by
  intro hw
  obtain ⟨j, hj, hm | ⟨rfl, hm⟩⟩ := h.sp
  · have := hw.unique hj
    omega
  · obtain rfl := hw.unique hj
    exact hm.ne.2.2.2.2.2.2.1

theorem ex_explicitValue_noG (hG : Ground W) (hh : 0 < j → W.hold = false) (hw : Sp W p j) (hj : j ≤ n)
    (h : j = n → (W (p + j)).type ≠ .mappingValue) :
    Ex W p k (parseBlockMappingExplicitValue f c ⟨n, .strict⟩ : M σ (Node × Ind)) (p + j) k (.invalid, ⟨n, .strict⟩) := by
  unfold parseBlockMappingExplicitValue
  refine Ex.bind Ex.hasErrors ?_
  simp only [Bool.false_eq_true, if_false]
  rcases Nat.lt_or_ge j n with hj' | hj'
  · exact Ex.bind (ex_indent_shortG hG hh hw hj') Ex.pure
  · obtain rfl : j = n := by omega
    refine Ex.bind (ex_indent_strictG hG hh hw (Nat.le_refl _)) ?_
    simp only [Bool.not_true, Bool.false_eq_true, if_false]
    refine Ex.bind Ex.tok ?_
    rw [if_pos (h rfl)]
    exact Ex.pure

/-- The key of an entry with a `?`. -/
theorem ex_explicitKey (hF : Flat W) (hc : Does W c) (hp : 1 ≤ p) (h : (W p).type = .mappingKey ∧ Calm W p) (hx : Fld W n (p + 1) x q)
    (hn : Below W (n + 1) q) (hd : NoDash W n q) :
    Ex W p (lv p 0 p) (parseBlockMappingExplicitKey c ⟨n, .strict⟩ : M σ (Node × Ind)) q (lv q 0 q) (x, ⟨n, .strict⟩) := by
  have key := (hc.fld (by omega) (solW_not hp (by simp [h.1]) (by simp [h.1])) hx hn hd).start (j := lv p 0 p)
    (lv_fresh (by omega) (by omega) (by omega))
  unfold parseBlockMappingExplicitKey
  refine Ex.bind Ex.hasErrors ?_
  simp only [Bool.false_eq_true, if_false]
  refine Ex.bind Ex.tok ?_
  rw [if_neg (by simp [h.1])]
  exact Ex.bind (Ex.next hF h.2 (.of h.1)) key

/-- An entry with a `?` and without a value. -/
theorem ex_mappingEntry_key (hF : Flat W) (hc : Does W c) (hp : 1 ≤ p) (h : (W p).type = .mappingKey ∧ Calm W p) (hx : Fld W n (p + 1) x q)
    (hn : Below W (n + 1) q) (hd : NoDash W n q) (hl : NoColon W n q) :
    Ex W p (lv p 0 p) (parseBlockMappingEntry f c ⟨n, .strict⟩ : M σ (Node × Ind)) q (lv q 0 q) (.mappingEntry x .null, ⟨n, .strict⟩) := by
  obtain ⟨j, hw, hj⟩ := hn.short (by omega)
  have hcol : j = n → (W (q + j)).type ≠ .mappingValue := by
    rintro rfl
    exact hl hw
  unfold parseBlockMappingEntry
  refine Ex.bind Ex.hasErrors ?_
  simp only [Bool.false_eq_true, if_false]
  refine Ex.bind Ex.tok ?_
  rw [if_pos h.1]
  unfold parseBlockMappingExplicitEntry
  refine Ex.bind Ex.hasErrors ?_
  simp only [Bool.false_eq_true, if_false]
  refine Ex.bind (ex_explicitKey hF hc hp h hx hn hd) ?_
  rw [if_neg (by simp [okNode, hx.valid])]
  refine Ex.bind (Ex.attemptJ (valid := okNode) hw (fun e => ex_explicitValue_noG hF.held (by omega) hw (by omega) hcol)
    (fun _ => ex_explicitValue_noG hF.toGround (fun _ => hF.free) hw (by omega) hcol) rfl) ?_
  rw [if_neg (by simp [okNode, validNode, Node.invalid])]
  exact Ex.pure

/-- An entry with a `?` and a value. -/
theorem ex_mappingEntry_both (hF : Flat W) (hc : Does W c) (hp : 1 ≤ p) (h : (W p).type = .mappingKey ∧ Calm W p) (hx : Fld W n (p + 1) x q)
    (hq0 : 1 ≤ q) (hl : Line W q n) (hq : (W (q + n)).type = .mappingValue ∧ Calm W (q + n)) (hv : Fld W n (q + n + 1) v r)
    (hn : Below W (n + 1) r) (hd : NoDash W n r) :
    Ex W p (lv p 0 p) (parseBlockMappingEntry f c ⟨n, .strict⟩ : M σ (Node × Ind)) r (lv r 0 r) (.mappingEntry x v, ⟨n, .strict⟩) := by
  have key := (hc.fld (by omega) (solW_not (show 1 ≤ q + n by omega) (by simp [hq.1]) (by simp [hq.1])) hv hn hd).start (j := lv q 0 q)
    (lv_fresh (by omega) (by omega) (by omega))
  unfold parseBlockMappingEntry
  refine Ex.bind Ex.hasErrors ?_
  simp only [Bool.false_eq_true, if_false]
  refine Ex.bind Ex.tok ?_
  rw [if_pos h.1]
  unfold parseBlockMappingExplicitEntry
  refine Ex.bind Ex.hasErrors ?_
  simp only [Bool.false_eq_true, if_false]
  refine Ex.bind (ex_explicitKey hF hc hp h hx (hl.below (by omega)) (fun _ => by simp [hq.1])) ?_
  rw [if_neg (by simp [okNode, hx.valid])]
  have hval : Ex W q (lv q 0 q) (parseBlockMappingExplicitValue f c ⟨n, .strict⟩ : M σ (Node × Ind)) r (lv r 0 r) (v, ⟨n, .strict⟩) := by
    unfold parseBlockMappingExplicitValue
    refine Ex.bind Ex.hasErrors ?_
    simp only [Bool.false_eq_true, if_false]
    refine Ex.bind (ex_indent_strict hF hl.sp (Nat.le_refl _)) ?_
    simp only [Bool.not_true, Bool.false_eq_true, if_false]
    refine Ex.bind Ex.tok ?_
    rw [if_neg (by simp [hq.1])]
    exact Ex.bind (Ex.next hF hq.2 (.of hq.1)) key
  refine Ex.bind (Ex.attemptT (valid := okNode) hval hv.valid) ?_
  rw [if_pos (show okNode (v, _) = true from hv.valid)]
  exact Ex.pure

/-! ### Rows of a collection -/

/-- The loop of `blockEntries` with another fuel for the rounds. -/
def moreEntries (f0 f : Nat) (entry : Ind → M σ (Node × Ind)) (x : List Node × Ind) : M σ (List Node × Ind) :=
  tries f (fun x => do
    let i ← parseIndent f0 x.2
    if !i.1 then pure (false, x.1, i.2) else
    let n ← entry i.2
    if okNode n then pure (true, x.1 ++ [n.1], n.2) else pure (false, x.1, n.2)) x

/-- The end of the entries of a collection: the attempt at a further entry fails. -/
def Ends (W : Toks) (k l : Nat → Nat) (p : Nat) (n : Nat) (entry : Ind → M σ (Node × Ind)) : Prop :=
  ∀ f0 f es, Ex W p k (moreEntries f0 f entry (es, ⟨n, .strict⟩) : M σ (List Node × Ind)) p l (es, ⟨n, .strict⟩)

theorem ends_short (hF : Flat W) (entry : Ind → M σ (Node × Ind)) (hw : Sp W q i) (h : i < n) : Ends W k k q n entry := by
  intro f0 f es
  unfold moreEntries
  exact Ex.triesStopJ (q := q + i) hw (fun e => Ex.bind (ex_indent_shortG hF.held (by omega) hw h) Ex.pure)
    (fun _ => Ex.bind (ex_indent_short hF hw h) Ex.pure)

theorem ends_fails (hF : Flat W) (entry : Ind → M σ (Node × Ind)) (hw : Sp W q i) (h : n ≤ i) (ho : isOpen (W q) = false)
    (he : Ex W (q + n) k (entry ⟨n, .strict⟩) r l (.invalid, ⟨n, .strict⟩)) : Ends W k l q n entry := by
  intro f0 f es
  unfold moreEntries
  refine Ex.triesStopN (q := r) ?_ (.inr ho)
  refine Ex.bind (ex_indent_strict hF hw h) ?_
  simp only [Bool.not_true, Bool.false_eq_true, if_false]
  refine Ex.bind he ?_
  exact Ex.pure

theorem ends_refused (hF : Flat W) (entry : Ind → M σ (Node × Ind)) (hw : Sp W q n)
    (he : ∀ W : Toks, (W (q + n)).type ≠ .sequenceEntry → Ex W (q + n) k (entry ⟨n, .strict⟩) r l (.invalid, ⟨n, .strict⟩))
    (hd : (W (q + n)).type ≠ .sequenceEntry) : Ends W k l q n entry := by
  have step : ∀ W : Toks, Ground W → (0 < n → W.hold = false) → Sp W q n → (W (q + n)).type ≠ .sequenceEntry → ∀ f0 es,
      Ex W q k (do
        let i ← parseIndent f0 ⟨n, .strict⟩
        if !i.1 then pure (false, es, i.2) else
        let n ← entry i.2
        if okNode n then pure (true, es ++ [n.1], n.2) else pure (false, es, n.2) : M σ (Bool × List Node × Ind)) r l
          (false, es, ⟨n, .strict⟩) := by
    intro W hG hh hw hd f0 es
    refine Ex.bind (ex_indent_strictG hG hh hw (Nat.le_refl _)) ?_
    simp only [Bool.not_true, Bool.false_eq_true, if_false]
    refine Ex.bind (he W hd) ?_
    exact Ex.pure
  intro f0 f es
  exact Ex.triesStopJ (q := r) hw (fun e => step W.held hF.held (by omega) hw hd f0 es)
    (fun _ => step W hF.toGround (fun _ => hF.free) hw hd f0 es)

/-- Rows of a collection at column `n`, each from one token to another. -/
inductive Rows (W : Toks) (R : Nat → Node → Nat → Prop) (n : Nat) : Nat → List Node → Nat → Prop
  | last {p q : Nat} {e : Node} : R p e q → Rows W R n p [e] q
  | cons {p q r : Nat} {e : Node} {es : List Node} : R p e q → Line W q n → Rows W R n (q + n) es r → Rows W R n p (e :: es) r

theorem Rows.first {R : Nat → Node → Nat → Prop} {es : List Node} (h : Rows W R n p es q) : ∃ e r, R p e r := by
  cases h with
  | last h => exact ⟨_, _, h⟩
  | cons h => exact ⟨_, _, h⟩

theorem ex_moreEntries (hF : Flat W) {R : Nat → Node → Nat → Prop} {Q : Nat → Prop} {entry : Ind → M σ (Node × Ind)} {es : List Node}
    (hs : ∀ {p e q}, R p e q → validNode e = true) (hQ : ∀ {q e r}, Line W q n → R (q + n) e r → Q q)
    (hr : ∀ {p e q}, R p e q → Q q → Ex W p (lv p 0 p) (entry ⟨n, .strict⟩) q (lv q 0 q) (e, ⟨n, .strict⟩))
    (h : Rows W R n m es q) (hq : Q q) (he : Ends W (lv q 0 q) l q n entry) :
    ∀ p, m = p + n → Sp W p n → ∀ f0 f pre,
      Ex W p (lv p 0 p) (moreEntries f0 f entry (pre, ⟨n, .strict⟩) : M σ (List Node × Ind)) q l (pre ++ es, ⟨n, .strict⟩) := by
  have start : ∀ {p e q}, R (p + n) e q → Q q → Ex W (p + n) (lv p 0 p) (entry ⟨n, .strict⟩) q (lv q 0 q) (e, ⟨n, .strict⟩) :=
    fun h hq => (hr h hq).start (lv_fresh (by omega) (by omega) (by omega))
  induction h with
  | @last m q e h =>
    intro p hm hw f0 f pre
    subst hm
    refine Ex.triesGo (p' := q) (j := lv q 0 q) (y := (pre ++ [e], (⟨n, .strict⟩ : Ind))) ?_ (fun f => he f0 f (pre ++ [e]))
    refine Ex.bind (ex_indent_strict hF hw (Nat.le_refl _)) ?_
    simp only [Bool.not_true, Bool.false_eq_true, if_false]
    refine Ex.bind (start h hq) ?_
    rw [if_pos (show okNode (e, _) = true from hs h)]
    exact Ex.pure
  | @cons m q r e es h h2 h3 ih =>
    intro p hm hw f0 f pre
    subst hm
    refine Ex.triesGo (p' := q) (j := lv q 0 q) (y := (pre ++ [e], (⟨n, .strict⟩ : Ind))) ?_ (fun f => ?_)
    · refine Ex.bind (ex_indent_strict hF hw (Nat.le_refl _)) ?_
      simp only [Bool.not_true, Bool.false_eq_true, if_false]
      obtain ⟨e', r', h3⟩ := h3.first
      refine Ex.bind (start h (hQ h2 h3)) ?_
      rw [if_pos (show okNode (e, _) = true from hs h)]
      exact Ex.pure
    · have := ih hq he q rfl h2.sp f0 f (pre ++ [e])
      rw [List.append_assoc] at this
      exact this

/-- The first row, and the others. -/
theorem ex_rows (hF : Flat W) {R : Nat → Node → Nat → Prop} {Q : Nat → Prop} {entry : Ind → M σ (Node × Ind)} {es : List Node}
    (hs : ∀ {p e q}, R p e q → validNode e = true) (hQ : ∀ {q e r}, Line W q n → R (q + n) e r → Q q)
    (hr : ∀ {p e q}, R p e q → Q q → Ex W p (lv p 0 p) (entry ⟨n, .strict⟩) q (lv q 0 q) (e, ⟨n, .strict⟩))
    (h : Rows W R n p es q) (hq : Q q) (he : Ends W (lv q 0 q) l q n entry) :
    ∃ e p', validNode e = true ∧ Ex W p (lv p 0 p) (entry ⟨n, .strict⟩) p' (lv p' 0 p') (e, ⟨n, .strict⟩) ∧
      ∀ f, Ex W p' (lv p' 0 p') (blockEntries f entry ([e], ⟨n, .strict⟩) : M σ (List Node × Ind)) q l (es, ⟨n, .strict⟩) := by
  cases h with
  | @last m q e h => exact ⟨e, q, hs h, hr h hq, fun f => he f f _⟩
  | @cons m q r e es h h2 h3 =>
    obtain ⟨e', r', h4⟩ := h3.first
    exact ⟨e, q, hs h, hr h (hQ h2 h4), fun f => ex_moreEntries hF hs hQ hr h3 hq he q rfl h2.sp f f [e]⟩

/-- A row of a sequence. -/
def ItemRow (W : Toks) (n p : Nat) (e : Node) (q : Nat) : Prop :=
  1 ≤ p ∧ ((W p).type = .sequenceEntry ∧ Calm W p) ∧ ((W (p + 1)).type = .space ∨ (W (p + 1)).type = .lineBreak) ∧ Item W n (p + 1) e q

/-- A row of a mapping. -/
inductive PairRow (W : Toks) (n p : Nat) : Node → Nat → Prop
  | pair {x v : Node} {q i r : Nat} : Atom W p x q → Sp W q i → (W (q + i)).type = .mappingValue ∧ Calm W (q + i) →
      Val W n (q + i + 1) v r → PairRow W n p (.mappingEntry x v) r
  | key {x : Node} {q : Nat} : 1 ≤ p → (W p).type = .mappingKey ∧ Calm W p → Fld W n (p + 1) x q → PairRow W n p (.mappingEntry x .null) q
  | both {x v : Node} {q r : Nat} : 1 ≤ p → (W p).type = .mappingKey ∧ Calm W p → Fld W n (p + 1) x q → 1 ≤ q → Line W q n →
      (W (q + n)).type = .mappingValue ∧ Calm W (q + n) → Fld W n (q + n + 1) v r → PairRow W n p (.mappingEntry x v) r

theorem Items.rows : ∀ {es : List Node} {p : Nat}, Items W n p es q → Rows W (ItemRow W n) n p es q
  | [], p, h => by cases h
  | e :: es, p, h => by
    cases h with
    | last h1 h2 h3 h4 => exact .last ⟨h1, h2, h3, h4⟩
    | cons h1 h2 h3 h4 h5 h6 => exact .cons ⟨h1, h2, h3, h4⟩ h5 h6.rows

theorem Pairs.rows : ∀ {es : List Node} {p : Nat}, Pairs W n p es q → Rows W (PairRow W n) n p es q
  | [], p, h => by cases h
  | e :: es, p, h => by
    cases h with
    | last h1 h2 h3 h4 => exact .last (.pair h1 h2 h3 h4)
    | cons h1 h2 h3 h4 h5 h6 => exact .cons (.pair h1 h2 h3 h4) h5 h6.rows
    | keyLast h1 h2 h3 => exact .last (.key h1 h2 h3)
    | keyCons h1 h2 h3 h4 h5 => exact .cons (.key h1 h2 h3) h4 h5.rows
    | entryLast h1 h2 h3 h0 h4 h5 h6 => exact .last (.both h1 h2 h3 h0 h4 h5 h6)
    | entryCons h1 h2 h3 h0 h4 h5 h6 h7 h8 => exact .cons (.both h1 h2 h3 h0 h4 h5 h6) h7 h8.rows

theorem ex_items (hF : Flat W) (hc : Does W c) {es : List Node} (h : Items W n p es q) (hq : Below W (n + 1) q) (hd : NoDash W n q) :
    ∃ e p', validNode e = true ∧ Ex W p (lv p 0 p) (parseBlockSequenceEntry c ⟨n, .strict⟩) p' (lv p' 0 p') (e, ⟨n, .strict⟩) ∧
      ∀ f, Ex W p' (lv p' 0 p') (blockEntries f (parseBlockSequenceEntry c) ([e], ⟨n, .strict⟩) : M σ (List Node × Ind)) q (lv q 0 q)
        (es, ⟨n, .strict⟩) := by
  have he : Ends W (lv q 0 q) (lv q 0 q) q n (parseBlockSequenceEntry c) := by
    obtain ⟨j, hw, hj⟩ := hq.short (by omega)
    rcases Nat.lt_or_ge j n with hj' | hj'
    · exact ends_short hF _ hw hj'
    · obtain rfl : j = n := by omega
      exact ends_refused hF _ hw (fun _ h => ex_sequenceEntry_no h) (hd hw)
  exact ex_rows hF (Q := Below W (n + 1)) (fun h => h.2.2.2.valid) (fun h _ => h.below (by omega))
    (fun h hn => ex_sequenceEntry hF hc h.1 h.2.1 h.2.2.1 h.2.2.2 hn) h.rows hq he

/-- What the dead end finder may have counted after a mapping at column `n`: the search for a further entry in front of the
end of a document counts. -/
def fin (n q : Nat) : Nat → Nat := if n = 0 then lv q 2 (q + 1) else lv q 0 q

theorem le_fin (n q i : Nat) : lv q 0 q i ≤ fin n q i := by
  unfold fin
  split
  · exact lv_mono (Nat.le_refl _) (by omega) (by omega) (by omega) i
  · exact Nat.le_refl _

theorem ex_pairs (hF : Flat W) (hc : Does W c) {es : List Node} (h : Pairs W n p es q) (hq : Below W n q) :
    ∃ e p', validNode e = true ∧ Ex W p (lv p 0 p) (parseBlockMappingEntry f c ⟨n, .strict⟩) p' (lv p' 0 p') (e, ⟨n, .strict⟩) ∧
      ∀ f', Ex W p' (lv p' 0 p') (blockEntries f' (parseBlockMappingEntry f c) ([e], ⟨n, .strict⟩) : M σ (List Node × Ind)) q (fin n q)
        (es, ⟨n, .strict⟩) := by
  have he : Ends W (lv q 0 q) (fin n q) q n (parseBlockMappingEntry f c) := by
    obtain ⟨j, hw, hj⟩ := hq.sp
    rcases Nat.lt_or_ge j n with hj' | hj'
    · exact fun f0 f es => (ends_short hF _ hw hj' f0 f es).weaken (le_fin n q)
    · obtain ⟨rfl, hm⟩ : j = 0 ∧ Mute (W q) := by
        rcases hj with hj | hj
        · omega
        · exact hj
      obtain rfl : n = 0 := by omega
      have hr := ex_mappingEntry_mute (f := f) (ind := ⟨((0 : Nat) : Int), .strict⟩) (lo := q) (hi := q + 1) (u := 0) hF hc.json hm.still
        (Nat.le_refl _) (Nat.lt_succ_self _) (by omega)
      refine ends_fails hF _ hw (Nat.le_refl _) hm.closed (r := q) ?_
      exact (hr.start (lv_mono (Nat.le_refl _) (by omega) (by omega) (by omega))).weaken (lv_mono (Nat.le_refl _) (by omega) (by omega) (by omega))
  refine ex_rows hF (R := PairRow W n) (Q := fun q => Below W (n + 1) q ∧ NoDash W n q ∧ NoColon W n q) ?_ ?_ ?_ h.rows
    ⟨hq.mono (by omega), hq.noDash, hq.noColon⟩ he
  · rintro p e q h
    cases h <;> rfl
  · rintro q e r hl h
    refine ⟨hl.below (by omega), fun _ => ?_, fun _ => ?_⟩
    · cases h with
      | pair h1 => exact h1.noDash
      | key _ h1 => simp [h1.1]
      | both _ h1 => simp [h1.1]
    · cases h with
      | pair h1 => rcases h1.type with h | h | h | h <;> simp [h]
      | key _ h1 => simp [h1.1]
      | both _ h1 => simp [h1.1]
  · rintro p e q h hn
    cases h with
    | pair h1 h2 h3 h4 => exact ex_mappingEntry hF hc h1 h2 h3 h4 hn.1 hn.2.1
    | key h1 h2 h3 => exact ex_mappingEntry_key hF hc h1 h2 h3 hn.1 hn.2.1 hn.2.2
    | both h1 h2 h3 h0 h4 h5 h6 => exact ex_mappingEntry_both hF hc h1 h2 h3 h0 h4 h5 h6 hn.1 hn.2.1

/-! ### Collections -/

theorem ex_compactSequence_no (h : (W p).type ≠ .sequenceEntry) :
    Ex W p k (parseCompactSequence f c ind : M σ (Node × Ind)) p k (.invalid, ind) := by
  unfold parseCompactSequence
  refine Ex.bind Ex.hasErrors ?_
  simp only [Bool.false_eq_true, if_false]
  exact Ex.bind (ex_sequenceEntry_no h) Ex.pure

theorem ex_compactSequence (hF : Flat W) (hc : Does W c) {es : List Node} (h : Items W n p es q) (hq : Below W (n + 1) q) (hd : NoDash W n q) :
    Ex W p (lv p 0 p) (parseCompactSequence f c ⟨n, .strict⟩ : M σ (Node × Ind)) q (lv q 0 q) (.sequence es, ⟨n, .strict⟩) := by
  obtain ⟨e, p', hv, h1, h2⟩ := ex_items hF hc h hq hd
  unfold parseCompactSequence
  refine Ex.bind Ex.hasErrors ?_
  simp only [Bool.false_eq_true, if_false]
  refine Ex.bind h1 ?_
  rw [if_neg (by simp [okNode, hv])]
  exact Ex.bind (h2 f) Ex.pure

theorem ex_compactMapping (hF : Flat W) (hc : Does W c) {es : List Node} (h : Pairs W n p es q) (hq : Below W n q) :
    Ex W p (lv p 0 p) (parseCompactMapping f c ⟨n, .strict⟩ : M σ (Node × Ind)) q (fin n q) (.mapping es, ⟨n, .strict⟩) := by
  obtain ⟨e, p', hv, h1, h2⟩ := ex_pairs (f := f) hF hc h hq
  unfold parseCompactMapping
  refine Ex.bind Ex.hasErrors ?_
  simp only [Bool.false_eq_true, if_false]
  refine Ex.bind h1 ?_
  rw [if_neg (by simp [okNode, hv])]
  exact Ex.bind (h2 f) Ex.pure

theorem ex_blockSequence {z : Int} (hF : Flat W) (hc : Does W c) {es : List Node} (hz : z + 1 = (m : Int)) (hw : Sp W p n)
    (hm : m ≤ n) (h : Items W n (p + n) es q) (hq : Below W (n + 1) q) (hd : NoDash W n q) (hk : ∀ i, k i ≤ lv (p + n) 0 (p + n) i) :
    Ex W p k (parseBlockSequence f c ⟨z, .strict⟩ : M σ Node) q (lv q 0 q) (.sequence es) := by
  obtain ⟨e, p', hv, h1, h2⟩ := ex_items hF hc h hq hd
  unfold parseBlockSequence
  refine Ex.bind Ex.hasErrors ?_
  simp only [Bool.false_eq_true, if_false, hz]
  refine Ex.bind (ex_indent_lower hF hw hm) ?_
  simp only [Bool.not_true, Bool.false_eq_true, if_false]
  refine Ex.bind (h1.start hk) ?_
  rw [if_neg (by simp [okNode, hv])]
  exact Ex.bind (h2 f) Ex.pure

theorem ex_blockMapping {z : Int} (hF : Flat W) (hc : Does W c) {es : List Node} (hz : z + 1 = (m : Int))
    (hw : Sp W p n) (hm : m ≤ n) (h : Pairs W n (p + n) es q) (hq : Below W n q) (hk : ∀ i, k i ≤ lv (p + n) 0 (p + n) i) :
    Ex W p k (parseBlockMapping f c ⟨z, .strict⟩ : M σ Node) q (fin n q) (.mapping es) := by
  obtain ⟨e, p', hv, h1, h2⟩ := ex_pairs (f := f) hF hc h hq
  unfold parseBlockMapping
  refine Ex.bind Ex.hasErrors ?_
  simp only [Bool.false_eq_true, if_false, hz]
  refine Ex.bind (ex_indent_lower hF hw hm) ?_
  simp only [Bool.not_true, Bool.false_eq_true, if_false]
  refine Ex.bind (h1.start hk) ?_
  rw [if_neg (by simp [okNode, hv])]
  exact Ex.bind (h2 f) Ex.pure

theorem ex_collRest_seq {z : Int} (hF : Flat W) (hc : Does W c) {es : List Node} (hz : z + 1 = (N : Int))
    (hx : (ctx = .blockIn ∧ m = N) ∨ (ctx = .blockOut ∧ m + 1 = N)) (hcm : ∀ k, Ex W p k (parseComments f : M σ Bool) p' k true)
    (hw : Sp W p' n) (hm : m ≤ n) (h : Items W n (p' + n) es q) (hq : Below W (n + 1) q) (hd : NoDash W n q)
    (hk : ∀ i, k i ≤ lv (p' + n) 0 (p' + n) i) :
    Ex W p k (collRest f c ctx (x, ⟨(N : Int), .strict⟩) : M σ (Node × Ind)) q (lv q 0 q) (newContentNode x (.sequence es), ⟨z, .strict⟩) := by
  unfold collRest
  refine Ex.bind (hcm _) ?_
  simp only [Bool.not_true, Bool.false_eq_true, if_false, dec_of hz]
  refine Ex.bind (Ex.attemptT (ex_seqSpace hz hx (fun z hz => ex_blockSequence hF hc hz hw hm h hq hd hk)) rfl) ?_
  exact Ex.pure

theorem ex_collRest_map {z : Int} (hF : Flat W) (hc : Does W c) {es : List Node} (hz : z + 1 = (N : Int))
    (hx : (ctx = .blockIn ∧ m = N) ∨ (ctx = .blockOut ∧ m + 1 = N)) (hcm : ∀ k, Ex W p k (parseComments f : M σ Bool) p' k true)
    (hw : Sp W p' n) (hm : N ≤ n) (h : Pairs W n (p' + n) es q) (hq : Below W n q)
    (hk : ∀ i, k i ≤ lv (p' + n) 0 (p' + n) i) :
    Ex W p k (collRest f c ctx (x, ⟨(N : Int), .strict⟩) : M σ (Node × Ind)) q (fin n q) (newContentNode x (.mapping es), ⟨z, .strict⟩) := by
  unfold collRest
  refine Ex.bind (hcm _) ?_
  simp only [Bool.not_true, Bool.false_eq_true, if_false, dec_of hz]
  refine Ex.bind (Ex.attemptJ hw (fun e => ex_seqSpace hz hx (fun z hz => ex_blockSequence_noG hF.held (by omega) hz hw (fun _ => h.noDash)))
    (fun _ => ex_seqSpace hz hx (fun z hz => ex_blockSequence_noG hF.toGround (fun _ => hF.free) hz hw (fun _ => h.noDash))) rfl) ?_
  rw [if_neg (by decide)]
  refine Ex.bind (ex_blockMapping hF hc hz hw hm h hq hk) ?_
  exact Ex.pure

theorem ex_collRest_blk {z : Int} (hF : Flat W) (hc : Does W c) (hz : z + 1 = (N : Int))
    (hx : (ctx = .blockIn ∧ m = N) ∨ (ctx = .blockOut ∧ m + 1 = N)) (hcm : ∀ k, Ex W p k (parseComments f : M σ Bool) p' k true)
    (hw : Sp W p' n) (hm : N ≤ n) (h : Blk W n (p' + n) e q) (hq : Below W n q)
    (hk : ∀ i, k i ≤ lv (p' + n) 0 (p' + n) i) :
    Ex W p k (collRest f c ctx (x, ⟨(N : Int), .strict⟩) : M σ (Node × Ind)) q (fin n q) (newContentNode x e, ⟨z, .strict⟩) := by
  cases h with
  | seq h =>
    exact (ex_collRest_seq hF hc hz hx hcm hw (by omega) h (hq.mono (by omega)) hq.noDash hk).weaken (le_fin n q)
  | map h => exact ex_collRest_map hF hc hz hx hcm hw hm h hq hk

/-- A block collection below, without properties. -/
theorem ex_below {z : Int} {y : Node} (ho : isOpen (W p) = false) (hz : z + 1 = (N : Int)) (hx : ctx = .blockIn ∨ ctx = .blockOut) {b : Bool} (hl : Look σ W N p b r)
    (hd : Dull (W r)) (hv : validNode y = true)
    (h : Ex W p k (collRest f c ctx (.invalid, ⟨(N : Int), .strict⟩) : M σ (Node × Ind)) q l (newContentNode .invalid y, ⟨z, .strict⟩)) :
    Ex W p k (parseBlockNode f c ⟨z, .strict⟩ ctx : M σ (Node × Ind)) q l (y, ⟨z, .strict⟩) :=
  ex_blockNode hv (ex_blockInBlock ho (ex_blockScalar_no hz hx hl hd) (ex_collection hz hx hl ho hd h) (.inr hv))

/-- A block collection below, with properties. -/
theorem ex_belowProps {z : Int} {y : Node} (ho : isOpen (W p) = false) (hF : Flat W) (hz : z + 1 = (N : Int)) (hx : ctx = .blockIn ∨ ctx = .blockOut) {b : Bool} {s : Nat}
    (hl : Look σ W N p true r) (hp : Props W (absent b) r x p') (hl2 : Look σ W N p' b s) (ho2 : isOpen (W p') = false) (hd : Dull (W s))
    (h : Ex W p' k (collRest f c ctx (x, ⟨(N : Int), .strict⟩) : M σ (Node × Ind)) q l (newContentNode x y, ⟨z, .strict⟩)) :
    Ex W p k (parseBlockNode f c ⟨z, .strict⟩ ctx : M σ (Node × Ind)) q l (.content x y, ⟨z, .strict⟩) := by
  rw [newContent hp.valid] at h
  exact ex_blockNode rfl (ex_blockInBlock ho (ex_blockScalar_props hF hz hx hl hp hl2 ho2 hd) (ex_collection_props hF hz hx hl hp hl2 ho2 hd h) (.inr rfl))

/-- Nothing, seen from the end of the line or from a line with something else: the attempt at a compact collection fails. -/
theorem ex_compact_no (hF : Flat W) (hj : JsonRun W c.json) (hw : Sp W p i) (h : Stub W (p + i) r) (h1 : lo ≤ p) (h2 : r < hi) (h3 : u + 18 ≤ 64) :
    ∃ s, Ex W p (lv lo u hi) (do
        let i ← parseIndent f ⟨0, .lowerBound⟩
        let s ← attempt okNode (parseCompactSequence f c ⟨(n : Int) + 1 + i.2.value, .strict⟩)
        if okNode s then pure s.1 else
        let m ← parseCompactMapping f c s.2
        pure m.1 : M σ Node) s (lv lo (u + 18) hi) .invalid := by
  obtain ⟨s, hs⟩ := ex_mappingEntry_no (c := c) (f := f) (ind := ⟨(n : Int) + 1 + (i : Int), .strict⟩) hF hj h (show lo ≤ p + i by omega) h2 h3
  refine ⟨s, ?_⟩
  refine Ex.bind (ex_indent_lower (n := 0) hF hw (by omega)) ?_
  refine Ex.bind (Ex.attemptF (ex_compactSequence_no h.ne.2) rfl) ?_
  rw [if_neg (by simp [okNode, validNode, Node.invalid])]
  refine Ex.bind (a := (.invalid, ⟨(n : Int) + 1 + (i : Int), .strict⟩)) ?_ Ex.pure
  unfold parseCompactMapping
  refine Ex.bind Ex.hasErrors ?_
  simp only [Bool.false_eq_true, if_false]
  exact Ex.bind hs Ex.pure

/-- What stands in the first line of something separated. -/
theorem Sep.stub {s : Nat} (h : Sep W N p r) (hs : solW W p = false) (ht : Stub W r s) : ∃ i t, Sp W p i ∧ Stub W (p + i) t ∧ t ≤ s := by
  have hle := ht.le
  cases h with
  | mid hp hw _ _ => exact ⟨_, _, hw, ht, Nat.le_refl _⟩
  | lines hp he hl hN =>
    obtain ⟨i, hi⟩ := he.sp
    obtain ⟨hm, hlt⟩ := he.mute hi
    exact ⟨i, _, hi, .mute hm.still, by omega⟩
  | start hp h => rw [hs] at h; cases h

theorem Props.stub {ab : Node} {s : Nat} (h : Props W ab p x q) (hs : Sep W N q r) (ht : Whole W N r e s) (he : Eol W s p') : ∃ t, Stub W p t ∧ t < p' := by
  have hlt := ht.lt
  have hlt2 := he.lt
  have hsol := h.sol
  cases hs with
  | mid hp hw _ _ =>
    rcases ht.first he with ⟨e', s, i, ht, hi, hm, hlt⟩ | ⟨d, s, ht, hs⟩
    case inr => exact ⟨s, .propsCut h hw ht, hs⟩
    exact ⟨_, .text h hw ht hi hm.ne.2.2.2.2.2.2.1 hm.closed, hlt⟩
  | lines hp he2 hl hN =>
    obtain ⟨i, hi⟩ := he2.sp
    obtain ⟨hm, hlt⟩ := he2.mute hi
    exact ⟨_, .props h hi hm.still, by omega⟩
  | start hp h => rw [hsol] at h; cases h

theorem Props.stub_lit {ab : Node} (h : Props W ab p x q) (hs : Sep W N q r) (ht : Lit W N m r t p') : ∃ t, Stub W p t ∧ t < p' := by
  have hlt := ht.lt
  have hsol := h.sol
  cases hs with
  | mid hp hw _ _ => exact ⟨_, .props h hw (.inr ht.type), hlt⟩
  | lines hp he2 hl hN =>
    obtain ⟨i, hi⟩ := he2.sp
    obtain ⟨hm, hlt⟩ := he2.mute hi
    exact ⟨_, .props h hi hm.still, by omega⟩
  | start hp h => rw [hsol] at h; cases h

theorem Props.stub_eol {ab : Node} (h : Props W ab p x q) (he : Eol W q p') : ∃ t, Stub W p t ∧ t < p' := by
  obtain ⟨i, hi⟩ := he.sp
  obtain ⟨hm, hlt⟩ := he.mute hi
  exact ⟨_, .props h hi hm.still, hlt⟩

theorem Leaf.stub (h : Leaf W N p e q) (hs : solW W p = false) : ∃ i t, Sp W p i ∧ Stub W (p + i) t ∧ t < q := by
  cases h with
  | atom h1 h2 h3 =>
    obtain ⟨s, hlt, hst⟩ := h2.stub h3
    obtain ⟨i, t, h4, h5, h6⟩ := h1.stub hs hst
    exact ⟨i, t, h4, h5, by omega⟩
  | props h1 h2 h3 h4 h5 =>
    obtain ⟨s, hst, hlt⟩ := h2.stub h3 h4 h5
    obtain ⟨i, t, h4, h5, h6⟩ := h1.stub hs hst
    exact ⟨i, t, h4, h5, by omega⟩
  | lit h1 _ _ h2 =>
    have := h2.lt
    obtain ⟨i, t, h4, h5, h6⟩ := h1.stub hs (.mute (.inr h2.type))
    exact ⟨i, t, h4, h5, by omega⟩
  | propsLit h1 h2 h3 _ _ h4 =>
    obtain ⟨s, hst, hlt⟩ := h2.stub_lit h3 h4
    obtain ⟨i, t, h4, h5, h6⟩ := h1.stub hs hst
    exact ⟨i, t, h4, h5, by omega⟩

theorem Leaf.closed (h : Leaf W N p e q) (hs : solW W p = false) : isOpen (W p) = false := by
  cases h with
  | atom h => exact h.closed hs
  | props h => exact h.closed hs
  | lit h => exact h.closed hs
  | propsLit h => exact h.closed hs

theorem Bare.closed (h : Bare W N p e q) (hs : solW W p = false) : isOpen (W p) = false := by
  cases h with
  | mk h => exact h.closed hs

theorem Item.closed (h : Item W n p e q) (hs : solW W p = false) : isOpen (W p) = false := by
  cases h with
  | leaf h => exact h.closed hs
  | bare h => exact h.closed hs
  | null h => exact h.free.1
  | compact h => exact (Free.of h.head).1
  | under h => exact h.free.1
  | underProps h => exact h.closed hs

theorem Val.closed (h : Val W n p e q) (hs : solW W p = false) : isOpen (W p) = false := by
  cases h with
  | leaf h => exact h.closed hs
  | bare h => exact h.closed hs
  | null h => exact h.free.1
  | under h => exact h.free.1
  | flush h => exact h.free.1
  | underProps h => exact h.closed hs
  | flushProps h => exact h.closed hs

theorem Fld.closed (h : Fld W n p e q) (hs : solW W p = false) : isOpen (W p) = false := by
  cases h with
  | val h => exact h.closed hs
  | compact h => exact (Free.of h.head).1

theorem Bare.stub (h : Bare W N p e q) (hs : solW W p = false) : ∃ i t, Sp W p i ∧ Stub W (p + i) t ∧ t < q := by
  cases h with
  | mk h1 h2 h3 h4 =>
    obtain ⟨s, hst, hlt⟩ := h2.stub_eol h4
    obtain ⟨i, t, h4, h5, h6⟩ := h1.stub hs hst
    exact ⟨i, t, h4, h5, by omega⟩

theorem Eol.stub (h : Eol W p q) : ∃ i t, Sp W p i ∧ Stub W (p + i) t ∧ t < q := by
  obtain ⟨i, hi⟩ := h.sp
  obtain ⟨hm, hlt⟩ := h.mute hi
  exact ⟨i, _, hi, .mute hm.still, hlt⟩

/-! ### Values and items -/

theorem ex_value {y : Node} (hF : Flat W) (hv : validNode y = true) (h : Ex W p k (c.node ind .blockOut) q l (y, ind)) :
    Ex W p k (implicitValue f c ind : M σ (Node × Ind)) q l (y, ind) := by
  unfold implicitValue
  refine Ex.bind (Ex.attemptT h hv) ?_
  rw [if_pos (show okNode (y, ind) = true from hv)]
  exact Ex.pure

theorem Line.sep (hp : 1 ≤ p) (he : Eol W p r) (hl : Line W r m) (h : N ≤ m) : Sep W N p (r + m) := .lines hp he hl h

/-- The node after the colon, also after an attempt at a collection on the same line. -/
theorem ex_valNode (hF : Flat W) (hc : Does W c) (hp : 1 ≤ p) (hsol : solW W p = false) (h : Val W n p v q) (hn : Below W (n + 1) q)
    (hd : NoDash W n q) :
    ∃ i s t, Sp W p i ∧ Stub W (p + i) s ∧ s < t ∧ p ≤ t ∧
      (Ex W p (lv p 18 t) (parseBlockNode f c ⟨n, .strict⟩ .blockOut : M σ (Node × Ind)) q (lv q 0 q) (v, ⟨n, .strict⟩) ∨
      (v = .null ∧ Eol W p q ∧ ∃ r, Ex W p (lv p 18 t) (parseBlockNode f c ⟨n, .strict⟩ .blockOut : M σ (Node × Ind)) r (lv q 0 q) (.invalid, ⟨n, .strict⟩))) := by
  have hz : (n : Int) + 1 = ((n + 1 : Nat) : Int) := by omega
  have hx : (PCtx.blockOut = .blockIn ∧ n = n + 1) ∨ (PCtx.blockOut = .blockOut ∧ n + 1 = n + 1) := .inr ⟨rfl, rfl⟩
  obtain ⟨j, hw, hj⟩ := hn.short (by omega)
  have hd' : PCtx.blockOut = .blockOut → n = j → (W (q + j)).type ≠ .sequenceEntry := by
    rintro - rfl
    exact hd hw
  have adj : ∀ {m : M σ (Node × Ind)} {a : Node × Ind} {r c : Nat}, c ≤ 64 → p ≤ q → Ex W p (lv p 18 q) m r (lv p c q) a → Ex W p (lv p 18 q) m r (lv q 0 q) a :=
    fun hc hle h => h.weaken (lv_fresh hle (Nat.le_refl _) (by omega))
  have hfin : ∀ {m q}, n + 1 ≤ m → fin m q = lv q 0 q := fun h => by unfold fin; rw [if_neg (by omega)]
  cases h with
  | leaf h =>
    have := h.lt
    obtain ⟨i, s, h1, h2, h3⟩ := h.stub hsol
    exact ⟨i, s, q, h1, h2, h3, by omega, .inl (adj (by omega) (by omega) (ex_leaf (u := 18) hF hc.json hz hx h (h.closed hsol) hn.noText (Nat.le_refl _) (Nat.le_refl _) (by omega)))⟩
  | bare h =>
    have := h.lt
    obtain ⟨i, s, h1, h2, h3⟩ := h.stub hsol
    exact ⟨i, s, q, h1, h2, h3, by omega, .inl (adj (by omega) (by omega) (ex_bare (u := 18) (h.closed hsol) hF hc.json hz hx h hw hj hd' (Nat.le_refl _) (Nat.le_refl _) (by omega)))⟩
  | null h =>
    have := h.lt
    obtain ⟨i, s, h1, h2, h3⟩ := h.stub
    obtain ⟨r, hr⟩ := ex_null (u := 18) (f := f) hF hc.json hz hx hp hsol h hw hj hd' (Nat.le_refl p) (Nat.le_refl q) (by omega)
    exact ⟨i, s, q, h1, h2, h3, by omega, .inr ⟨rfl, h, r, adj (by omega) (by omega) hr⟩⟩
  | @under _ _ _ r m _ h1 h2 h3 h4 =>
    have := h1.lt
    obtain ⟨i, s, h5, h6, h7⟩ := h1.stub
    have hl : Look σ W (n + 1) p true (r + m) := (h2.sep hp h1 h3).look hF
    have := ex_collRest_blk (f := f) (x := .invalid) (k := lv p 18 r) hF hc hz hx (fun _ => ex_comments_eol hF hp h1) h2.sp h3 h4 (hn.mono h3)
      (lv_fresh (by omega) (by omega) (by omega))
    rw [hfin h3] at this
    exact ⟨i, s, r, h5, h6, h7, by omega, .inl (ex_below h1.free.1 hz (.inr rfl) hl h4.dull h4.valid this)⟩
  | @flush _ _ _ r es h1 h2 h3 =>
    have := h1.lt
    obtain ⟨i, s, h5, h6, h7⟩ := h1.stub
    obtain ⟨hm, hlt⟩ := h1.mute h5
    have hl : Look σ W (n + 1) p (decide (0 < i)) (p + i) := look_short hF hp hsol h1 h2.sp (by omega) h5
    exact ⟨i, s, r, h5, h6, h7, by omega, .inl (ex_below h1.free.1 hz (.inr rfl) hl hm.dull rfl (ex_collRest_seq (x := .invalid) hF hc hz hx (fun _ => ex_comments_eol hF hp h1) h2.sp
      (Nat.le_refl _) h3 hn hd (lv_fresh (by omega) (by omega) (by omega))))⟩
  | @underProps _ _ _ r s t m x _ h1 h2 h3 h4 h5 h6 =>
    have := h1.le
    have := h2.lt
    have := h3.lt
    obtain ⟨s', hs1, hs2⟩ := h2.stub_eol h3
    obtain ⟨i, s'', h7, h8, h9⟩ := h1.stub hsol hs1
    have hl : Look σ W (n + 1) s true (t + m) := (h4.sep (by omega) h3 h5).look hF
    have := ex_collRest_blk (f := f) (x := x) (k := lv p 18 t) hF hc hz hx (fun _ => ex_comments_eol hF (by omega) h3) h4.sp h5 h6 (hn.mono h5)
      (lv_fresh (by omega) (by omega) (by omega))
    rw [hfin h5] at this
    exact ⟨i, s'', t, h7, h8, by omega, by omega, .inl (ex_belowProps (b := true) (h1.closed hsol) hF hz (.inr rfl) (h1.look hF) h2 hl h3.free.1 h6.dull this)⟩
  | @flushProps _ _ _ r s t i x es h1 h2 h3 h4 h5 h6 =>
    have := h1.le
    have := h2.lt
    have := h4.lt
    obtain ⟨s', hs1, hs2⟩ := h2.stub_eol h4
    obtain ⟨i', s'', h7, h8, h9⟩ := h1.stub hsol hs1
    obtain ⟨hm, hlt⟩ := h4.mute h3
    have hl : Look σ W (n + 1) s (decide (0 < i)) (s + i) := look_short hF (by omega) h2.sol h4 h5.sp (by omega) h3
    exact ⟨i', s'', t, h7, h8, by omega, by omega, .inl (ex_belowProps (h1.closed hsol) hF hz (.inr rfl) (h1.look hF) h2 hl h4.free.1 hm.dull (ex_collRest_seq (x := x) hF hc hz hx
      (fun _ => ex_comments_eol hF (by omega) h4) h5.sp (Nat.le_refl _) h6 hn hd (lv_fresh (by omega) (by omega) (by omega))))⟩

/-- The node after the colon. -/
theorem ex_val (hF : Flat W) (hc : Does W c) (hp : 1 ≤ p) (hsol : solW W p = false) (h : Val W n p v q) (hn : Below W (n + 1) q)
    (hd : NoDash W n q) :
    Ex W p (lv p 0 p) (parseBlockNode f c ⟨n, .strict⟩ .blockOut : M σ (Node × Ind)) q (lv q 0 q) (v, ⟨n, .strict⟩) ∨
    (v = .null ∧ Eol W p q ∧ ∃ r, Ex W p (lv p 0 p) (parseBlockNode f c ⟨n, .strict⟩ .blockOut : M σ (Node × Ind)) r (lv q 0 q) (.invalid, ⟨n, .strict⟩)) := by
  obtain ⟨i, s, t, -, -, -, ht, h⟩ := ex_valNode (f := f) hF hc hp hsol h hn hd
  have hst : ∀ i, lv p 0 p i ≤ lv p 18 t i := lv_mono (Nat.le_refl _) (by omega) ht (by omega)
  rcases h with h | ⟨rfl, he, r, h⟩
  · exact .inl (h.start hst)
  · exact .inr ⟨rfl, he, r, h.start hst⟩

/-- The node after the dash which is no compact collection. -/
theorem ex_itemNode {a : Node} (hF : Flat W) (hc : Does W c) (hp : 1 ≤ p) (hsol : solW W p = false) (h : Item W n p e q) (hn : Below W (n + 1) q) :
    (∃ j, Sp W p (j + 1) ∧ Blk W (n + 1 + (j + 1)) (p + (j + 1)) e q) ∨
    ∃ i s t, Sp W p i ∧ Stub W (p + i) s ∧ s < t ∧ p ≤ t ∧
      (Ex W p (lv p 18 t) (parseBlockNode f c ⟨n, .strict⟩ .blockIn : M σ (Node × Ind)) q (lv q 0 q) (e, ⟨n, .strict⟩) ∨
      (e = .null ∧ Eol W p q ∧ ∃ r, Ex W p (lv p 18 t) (parseBlockNode f c ⟨n, .strict⟩ .blockIn : M σ (Node × Ind)) r (lv q 0 q) (.invalid, ⟨n, .strict⟩))) := by
  have hz : (n : Int) + 1 = ((n + 1 : Nat) : Int) := by omega
  have hx : (PCtx.blockIn = .blockIn ∧ n + 1 = n + 1) ∨ (PCtx.blockIn = .blockOut ∧ n + 1 + 1 = n + 1) := .inl ⟨rfl, rfl⟩
  obtain ⟨j, hw, hj⟩ := hn.short (by omega)
  have hd' : PCtx.blockIn = .blockOut → n + 1 = j → (W (q + j)).type ≠ .sequenceEntry := by
    intro h
    cases h
  have adj : ∀ {m : M σ (Node × Ind)} {a : Node × Ind} {r c : Nat}, c ≤ 64 → p ≤ q → Ex W p (lv p 18 q) m r (lv p c q) a → Ex W p (lv p 18 q) m r (lv q 0 q) a :=
    fun hc hle h => h.weaken (lv_fresh hle (Nat.le_refl _) (by omega))
  have hfin : ∀ {m q}, n + 1 ≤ m → fin m q = lv q 0 q := fun h => by unfold fin; rw [if_neg (by omega)]
  cases h with
  | leaf h =>
    have := h.lt
    obtain ⟨i, s, h1, h2, h3⟩ := h.stub hsol
    exact .inr ⟨i, s, q, h1, h2, h3, by omega, .inl (adj (by omega) (by omega) (ex_leaf (u := 18) hF hc.json hz hx h (h.closed hsol) hn.noText (Nat.le_refl _) (Nat.le_refl _) (by omega)))⟩
  | bare h =>
    have := h.lt
    obtain ⟨i, s, h1, h2, h3⟩ := h.stub hsol
    exact .inr ⟨i, s, q, h1, h2, h3, by omega, .inl (adj (by omega) (by omega) (ex_bare (u := 18) (h.closed hsol) hF hc.json hz hx h hw hj hd' (Nat.le_refl _) (Nat.le_refl _) (by omega)))⟩
  | null h =>
    have := h.lt
    obtain ⟨i, s, h1, h2, h3⟩ := h.stub
    obtain ⟨r, hr⟩ := ex_null (u := 18) (f := f) hF hc.json hz hx hp hsol h hw hj hd' (Nat.le_refl p) (Nat.le_refl q) (by omega)
    exact .inr ⟨i, s, q, h1, h2, h3, by omega, .inr ⟨rfl, h, r, adj (by omega) (by omega) hr⟩⟩
  | compact h1 h2 => exact .inl ⟨_, h1, h2⟩
  | @under _ _ _ r m _ h1 h2 h3 h4 =>
    have := h1.lt
    obtain ⟨i, s, h5, h6, h7⟩ := h1.stub
    have hl : Look σ W (n + 1) p true (r + m) := (h2.sep hp h1 h3).look hF
    have := ex_collRest_blk (f := f) (x := .invalid) (k := lv p 18 r) hF hc hz hx (fun _ => ex_comments_eol hF hp h1) h2.sp h3 h4 (hn.mono h3)
      (lv_fresh (by omega) (by omega) (by omega))
    rw [hfin h3] at this
    exact .inr ⟨i, s, r, h5, h6, h7, by omega, .inl (ex_below h1.free.1 hz (.inl rfl) hl h4.dull h4.valid this)⟩
  | @underProps _ _ _ r s t m x _ h1 h2 h3 h4 h5 h6 =>
    have := h1.le
    have := h2.lt
    have := h3.lt
    obtain ⟨s', hs1, hs2⟩ := h2.stub_eol h3
    obtain ⟨i, s'', h7, h8, h9⟩ := h1.stub hsol hs1
    have hl : Look σ W (n + 1) s true (t + m) := (h4.sep (by omega) h3 h5).look hF
    have := ex_collRest_blk (f := f) (x := x) (k := lv p 18 t) hF hc hz hx (fun _ => ex_comments_eol hF (by omega) h3) h4.sp h5 h6 (hn.mono h5)
      (lv_fresh (by omega) (by omega) (by omega))
    rw [hfin h5] at this
    exact .inr ⟨i, s'', t, h7, h8, by omega, by omega, .inl (ex_belowProps (b := true) (h1.closed hsol) hF hz (.inl rfl) (h1.look hF) h2 hl h3.free.1 h6.dull this)⟩

/-- What follows a dash or one of the signs of an entry with a `?`. -/
theorem ex_indented (hF : Flat W) (hc : Does W c) (hp : 1 ≤ p) (hv : validNode e = true) (ho : isOpen (W p) = false) (hn : Below W (n + 1) q)
    (h : (∃ j, Sp W p (j + 1) ∧ Blk W (n + 1 + (j + 1)) (p + (j + 1)) e q) ∨
      ∃ i s t, Sp W p i ∧ Stub W (p + i) s ∧ s < t ∧ p ≤ t ∧
        (Ex W p (lv p 18 t) (parseBlockNode f c ⟨n, .strict⟩ ctx : M σ (Node × Ind)) q (lv q 0 q) (e, ⟨n, .strict⟩) ∨
        (e = .null ∧ Eol W p q ∧ ∃ r, Ex W p (lv p 18 t) (parseBlockNode f c ⟨n, .strict⟩ ctx : M σ (Node × Ind)) r (lv q 0 q) (.invalid, ⟨n, .strict⟩)))) :
    Ex W p (lv p 0 p) (parseBlockIndented f c ⟨n, .strict⟩ ctx : M σ (Node × Ind)) q (lv q 0 q) (e, ⟨n, .strict⟩) := by
  unfold parseBlockIndented
  refine Ex.bind Ex.hasErrors ?_
  simp only [Bool.false_eq_true, if_false]
  rcases h with ⟨j, hw, hb⟩ | ⟨i, s, t, h1, h2, h3, h4, h5⟩
  · have e2 : (n : Int) + 1 + ((j + 1 : Nat) : Int) = ((n + 1 + (j + 1) : Nat) : Int) := by omega
    have key : Ex W p (lv p 0 p) (do
        let i ← parseIndent f ⟨0, .lowerBound⟩
        let s ← attempt okNode (parseCompactSequence f c ⟨(n : Int) + 1 + i.2.value, .strict⟩)
        if okNode s then pure s.1 else
        let m ← parseCompactMapping f c s.2
        pure m.1 : M σ Node) q (lv q 0 q) e := by
      refine Ex.bind (ex_indent_lower (n := 0) hF hw (by omega)) ?_
      simp only [e2]
      have hst : ∀ i, lv p 0 p i ≤ lv (p + (j + 1)) 0 (p + (j + 1)) i := lv_fresh (by omega) (by omega) (by omega)
      cases hb with
      | seq h1 =>
        refine Ex.bind (Ex.attemptT ((ex_compactSequence hF hc h1 (hn.mono (by omega)) (hn.mono (by omega)).noDash).start hst) rfl) ?_
        exact Ex.pure
      | map h1 =>
        refine Ex.bind (Ex.attemptF (ex_compactSequence_no h1.noDash) rfl) ?_
        rw [if_neg (by simp [okNode, validNode, Node.invalid])]
        have := (ex_compactMapping (f := f) hF hc h1 (hn.mono (by omega))).start hst
        rw [fin, if_neg (by omega)] at this
        refine Ex.bind this ?_
        exact Ex.pure
    refine Ex.bind (Ex.attemptT (valid := validNode) key hv) ?_
    rw [if_pos hv]
    exact Ex.pure
  · obtain ⟨w, hw⟩ := ex_compact_no (f := f) (c := c) (n := n) (u := 0) hF hc.json h1 h2 (Nat.le_refl p) h3 (by omega)
    refine Ex.bind (Ex.attemptN (valid := validNode) (hw.start (j := lv p 0 p) (lv_mono (Nat.le_refl _) (by omega) h4 (by omega)))
      (.inr ho) rfl) ?_
    rw [if_neg (by decide)]
    rcases h5 with h5 | ⟨rfl, he, r, h5⟩
    · refine Ex.bind (Ex.attemptT h5 hv) ?_
      rw [if_pos (show okNode (e, _) = true from hv)]
      exact Ex.pure
    · refine Ex.bind (Ex.attemptN h5 (.inr he.free.1) rfl) ?_
      rw [if_neg (by simp [okNode, validNode, Node.invalid])]
      refine Ex.bind (ex_comments_eol hF hp he) ?_
      exact Ex.pure

theorem ex_item (hF : Flat W) (hc : Does W c) (hp : 1 ≤ p) (hsol : solW W p = false) (h : Item W n p e q) (hn : Below W (n + 1) q) :
    Ex W p (lv p 0 p) (parseBlockIndented f c ⟨n, .strict⟩ .blockIn : M σ (Node × Ind)) q (lv q 0 q) (e, ⟨n, .strict⟩) :=
  ex_indented hF hc hp h.valid (h.closed hsol) hn (ex_itemNode (a := e) hF hc hp hsol h hn)

theorem ex_fld (hF : Flat W) (hc : Does W c) (hp : 1 ≤ p) (hsol : solW W p = false) (h : Fld W n p e q) (hn : Below W (n + 1) q)
    (hd : NoDash W n q) :
    Ex W p (lv p 0 p) (parseBlockIndented f c ⟨n, .strict⟩ .blockOut : M σ (Node × Ind)) q (lv q 0 q) (e, ⟨n, .strict⟩) := by
  refine ex_indented hF hc hp h.valid (h.closed hsol) hn ?_
  cases h with
  | val h => exact .inr (ex_valNode hF hc hp hsol h hn hd)
  | compact h1 h2 => exact .inl ⟨_, h1, h2⟩

theorem does_calls (hF : Flat W) : ∀ f, Does W (calls f : Calls σ)
  | 0 => ⟨jsonRun_calls hF 0, fun _ _ _ _ => Ex.outOfFuel, fun f _ _ _ _ _ _ h _ _ => ex_value hF h.valid Ex.outOfFuel,
      fun _ _ _ _ _ => Ex.outOfFuel⟩
  | f + 1 => ⟨jsonRun_calls hF (f + 1), fun h1 h2 h3 h4 => ex_item hF (does_calls hF f) h1 h2 h3 h4,
      fun f' n p q v h1 h2 h3 h4 h5 => by
        rcases ex_val (f := f) hF (does_calls hF f) h1 h2 h3 h4 h5 with h | ⟨rfl, he, r, h⟩
        · exact ex_value hF h3.valid h
        · have h' : Ex W p (lv p 0 p) ((calls (f + 1) : Calls σ).node ⟨n, .strict⟩ .blockOut) r (lv q 0 q) (.invalid, ⟨n, .strict⟩) := h
          unfold implicitValue
          refine Ex.bind (Ex.attemptN (valid := okNode) (a := (.invalid, ⟨(n : Int), .strict⟩)) h' (.inr he.free.1) rfl) ?_
          rw [if_neg (by simp [okNode, validNode, Node.invalid])]
          refine Ex.bind (ex_comments_eol hF h1 he) ?_
          exact Ex.pure,
      fun h1 h2 h3 h4 h5 => ex_fld hF (does_calls hF f) h1 h2 h3 h4 h5⟩

end Verif.Parser
