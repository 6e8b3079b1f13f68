import Verif.Lemmas.ParserRunFlow

/-!
Exact executions of the productions for keys and for nodes which are no block collections: plain words, quoted texts, flow
collections, aliases, texts with properties, properties alone and nothing.
-/

set_option linter.unusedSimpArgs false
set_option linter.unusedSectionVars false

namespace Verif.Parser

open Verif.Token Verif.Lexer Verif.Ast Verif.Spec.Cursor

variable {σ α β : Type} [TokenStream σ] [StreamOk σ]
variable {W : Toks} {p q p' j n m f : Nat} {k l : Nat → Nat} {ctx : PCtx} {ind ind' : Ind} {c : Calls σ} {t : List Char}
variable {e v x : Node} {d : Bool} {lo u hi i r N : Nat}

/-- A scalar with commas and brackets is tried as a key: as far as it could be one, up to a token without a colon. -/
theorem ex_plainKey_loose (hF : Flat W) (h : Wide W p t q) (hw : Sp W q i) (h1 : lo ≤ p) (h2 : q < hi) (h3 : u < 64) :
    (Ex W p (lv lo u hi) (parsePlain f ⟨0, .strict⟩ .blockKey : M σ (Node × Ind)) p (lv lo (u + 1) hi) (.invalid, ⟨0, .strict⟩)) ∨
    ∃ t' q' j, Ex W p (lv lo u hi) (parsePlain f ⟨0, .strict⟩ .blockKey : M σ (Node × Ind)) q' (lv lo u hi) (.text t' .unknown, ⟨0, .strict⟩) ∧
      Sp W q' j ∧ (q' + j = q + i ∨ (W (q' + j)).type = .string) := by
  have hlt := h.lt
  cases hs : isPlainSafeToken (W p) .blockKey with
  | false => exact .inl (ex_plain_no hF.toGround (.inr rfl) h1 (by omega) h3 hs (by simp [isPlainIndicator, h.str]))
  | true =>
    obtain ⟨t', q', j, g1, g2, g3⟩ := h.run.cut
    refine .inr ⟨t', q', j, Ex.bind (ex_plainOneLine hF h.str hs g1) Ex.pure, g2, ?_⟩
    rcases g3 with rfl | g3
    · rw [g2.unique hw]
      exact .inl rfl
    · exact .inr g3.2

theorem ex_implicitKey (hF : Flat W) (hj : JsonRun W c.json) (h : Atom W p e q) (hw : Sp W q i) :
    Ex W p k (parseBlockMappingImplicitKey f c : M σ Node) (q + i) k e := by
  have hjson : (W p).type ≠ .singleQuote → (W p).type ≠ .doubleQuote → (W p).type ≠ .tag → (W p).type ≠ .anchor →
      isOpen (W p) = false → Ex W p k (parseImplicitJSONKey f c.json .blockKey : M σ Node) p k .invalid := fun h1 h2 h3 h4 h5 =>
    ex_implicitJSONKey_no (ex_flowJSONNode h3 h4 (hj.no p k _ _ h1 h2 h5))
  unfold parseBlockMappingImplicitKey
  refine Ex.bind Ex.hasErrors ?_
  simp only [Bool.false_eq_true, if_false]
  cases h with
  | scal h =>
    cases h with
    | @word _ _ t h =>
      refine Ex.bind (Ex.attemptN (hjson (by simp [h.str]) (by simp [h.str]) (by simp [h.str]) (by simp [h.str]) (Free.of h.str).1)
        (.inr (Free.of h.str).1) rfl) ?_
      rw [if_neg (by decide)]
      have h1 : Ex W p k (parsePlain f ⟨0, .strict⟩ .blockKey : M σ (Node × Ind)) q k (.text t .unknown, ⟨0, .strict⟩) :=
        Ex.bind (ex_plainOneLine hF h.str h.safe h.run) Ex.pure
      exact ex_implicitYAMLKey_of hF rfl (ex_genericFlow (by simp [h.str]) h1 rfl) hw
    | @quoted d _ q t h =>
      have hn : (W p).type ≠ .tag ∧ (W p).type ≠ .anchor := by
        have := h.first
        cases d <;> simp [this, quoteTok]
      refine Ex.bind (Ex.attemptT (ex_implicitJSONKey_of hF (e := .text t (quoteKind d)) rfl
        (ex_flowJSONNode hn.1 hn.2 (hj.quoted h (.inr (.inl rfl)))) hw) rfl) ?_
      exact Ex.pure
  | ref h =>
    have hv := (Atom.ref h).valid
    refine Ex.bind (Ex.attemptN (hjson (by simp [h.sign]) (by simp [h.sign]) (by simp [h.sign]) (by simp [h.sign]) (Free.of h.sign).1)
      (.inr (Free.of h.sign).1) rfl) ?_
    rw [if_neg (by decide)]
    exact ex_implicitYAMLKey_of hF hv (ex_genericFlow_alias hF h) hw

/-- A collection is read as a key. -/
theorem ex_implicitKey_coll (hF : Flat W) (hj : JsonRun W c.json) (h : Coll W N p e q) (hs : Flush W p e q) (hw : Sp W q i)
    (ho : isOpen (W (q + i)) = false) (h1 : lo ≤ p) (h2 : q ≤ hi) (h3 : u + 16 ≤ 64) :
    Ex W p (lv lo u hi) (parseBlockMappingImplicitKey f c : M σ Node) (q + i) (lv lo (u + 16) hi) e := by
  have hv := h.run.valid
  unfold parseBlockMappingImplicitKey
  refine Ex.bind Ex.hasErrors ?_
  simp only [Bool.false_eq_true, if_false]
  have key := ex_flowJSONNode (f := f) (by rcases h.type with h | h <;> simp [h]) (by rcases h.type with h | h <;> simp [h])
    (hj.flush (ind := ⟨0, .strict⟩) hs h.opens (hw.closed ho) h1 h2 h3 (.inr (.inl rfl)))
  rw [if_pos hv] at key
  refine Ex.bind (Ex.attemptT (ex_implicitJSONKey_of hF hv key hw) hv) ?_
  rw [if_pos hv]
  exact Ex.pure

/-- A collection on several lines is no key. -/
theorem ex_implicitKey_lines (hF : Flat W) (hj : JsonRun W c.json) (h : Coll W N p e q) (hs : ¬ Flush W p e q) (h1 : lo ≤ p) (h2 : q ≤ hi)
    (h3 : u + 17 ≤ 64) : Ex W.held p (lv lo u hi) (parseBlockMappingImplicitKey f c : M σ Node) p (lv lo (u + 17) hi) .invalid := by
  have hle := h.run.le
  have hne : (W p).type ≠ .tag ∧ (W p).type ≠ .anchor ∧ (W p).type ≠ .string ∧ (W p).type ≠ .alias ∧ isPlainIndicator (W p) = false := by
    rcases h.type with h | h <;> simp [h, isPlainIndicator]
  obtain ⟨r, hr⟩ := hj.fails (ind := ⟨0, .strict⟩) h hs h1 h2 (show u + 16 ≤ 64 by omega) (.inl rfl)
  unfold parseBlockMappingImplicitKey
  refine Ex.bind Ex.hasErrors ?_
  simp only [Bool.false_eq_true, if_false]
  refine Ex.bind (ExV.attemptN (ex_implicitJSONKey_noV (W := W.held) hne.1 hne.2.1 hr) ⟨rfl, rfl, rfl⟩ (.inl rfl) rfl) ?_
  rw [if_neg (by decide)]
  refine (ex_implicitYAMLKey_no (ex_yamlNode_no hF.toGround.held (.inr (.inl rfl)) ?_ (.inl rfl) hne.2.2.1 hne.2.2.2.1 hne.1 hne.2.1 hne.2.2.2.2)).weaken ?_
  · simp only [lv]
    rw [if_neg (by omega), if_pos (by omega)]
    omega
  · intro i
    unfold plus lv
    repeat' split
    all_goals omega

theorem Mute.ne {t : Tok} (h : Mute t) : t.type ≠ .tag ∧ t.type ≠ .anchor ∧ t.type ≠ .alias ∧ t.type ≠ .string ∧
    t.type ≠ .singleQuote ∧ t.type ≠ .doubleQuote ∧ t.type ≠ .mappingValue ∧ t.type ≠ .mappingKey ∧ t.type ≠ .sequenceEntry ∧
    t.type ≠ .literal ∧ t.type ≠ .folded := by
  rcases h with h | h | h | h | h <;> simp [h]

theorem Mute.plain {t : Tok} (h : Mute t) : isPlainIndicator t = false := by
  have := h.ne
  simp [isPlainIndicator, this]

/-- A token at which no flow node starts: one at which nothing starts, or the sign of a literal or folded scalar. -/
def Still (t : Tok) : Prop := Mute t ∨ t.type = .literal ∨ t.type = .folded

theorem Mute.still {t : Tok} (h : Mute t) : Still t := .inl h

theorem Still.ne {t : Tok} (h : Still t) : t.type ≠ .tag ∧ t.type ≠ .anchor ∧ t.type ≠ .alias ∧ t.type ≠ .string ∧
    t.type ≠ .singleQuote ∧ t.type ≠ .doubleQuote ∧ t.type ≠ .mappingValue ∧ t.type ≠ .mappingKey ∧ t.type ≠ .sequenceEntry := by
  rcases h with (h | h | h | h | h) | h | h <;> simp [h]

theorem Still.plain {t : Tok} (h : Still t) : isPlainIndicator t = false := by
  have := h.ne
  simp [isPlainIndicator, this]

theorem Still.closed {t : Tok} (h : Still t) : isOpen t = false := by
  rcases h with (h | h | h | h | h) | h | h <;> exact (Free.of h).1

theorem ex_implicitKey_loose (hF : Flat W) (hj : JsonRun W c.json) (h : Wide W p t q) (hw : Sp W q i) (h1 : lo ≤ p) (h2 : q < hi) (h3 : u < 64) :
    ∃ e r, Ex W p (lv lo u hi) (attempt validNode (parseBlockMappingImplicitKey f c) : M σ Node) r (lv lo (u + 1) hi) e ∧
      (r = q + i ∨ (W r).type = .string) := by
  have hjson : Ex W p (lv lo u hi) (parseImplicitJSONKey f c.json .blockKey : M σ Node) p (lv lo u hi) .invalid :=
    ex_implicitJSONKey_no (ex_flowJSONNode (by simp [h.str]) (by simp [h.str]) (hj.no p _ _ _ (by simp [h.str]) (by simp [h.str]) (Free.of h.str).1))
  have key : ∀ {r l e}, Ex W p (lv lo u hi) (parseImplicitYAMLKey f .blockKey : M σ Node) r l e →
      Ex W p (lv lo u hi) (parseBlockMappingImplicitKey f c : M σ Node) r l e := by
    intro r l e hy
    unfold parseBlockMappingImplicitKey
    refine Ex.bind Ex.hasErrors ?_
    simp only [Bool.false_eq_true, if_false]
    refine Ex.bind (Ex.attemptN hjson (.inr (Free.of h.str).1) rfl) ?_
    rw [if_neg (by decide)]
    exact hy
  rcases ex_plainKey_loose (σ := σ) (f := f) hF h hw h1 h2 h3 with g | ⟨t', q', j, g1, g2, g3⟩
  · exact ⟨_, p, Ex.attemptN (key (ex_implicitYAMLKey_no (ex_genericFlow_no (Free.of h.str).1 (by simp [h.str]) (by simp [h.str])
      (by simp [h.str]) g))) (.inr (Free.of h.str).1) rfl, .inr h.str⟩
  · exact ⟨_, _, (Ex.attemptT (key (ex_implicitYAMLKey_of hF rfl (ex_genericFlow (by simp [h.str]) g1 rfl) g2)) rfl).weaken
      (lv_mono (Nat.le_refl _) (by omega) (Nat.le_refl _) (by omega)), g3⟩

/-- There is no key; the failure is counted once. -/
theorem ex_implicitKey_no (hF : Flat W) (hj : JsonRun W c.json) (h1 : lo ≤ p) (h2 : p < hi) (h3 : u < 64) (h : Still (W p)) :
    Ex W p (lv lo u hi) (parseBlockMappingImplicitKey f c : M σ Node) p (lv lo (u + 1) hi) .invalid := by
  have hn := h.ne
  unfold parseBlockMappingImplicitKey
  refine Ex.bind Ex.hasErrors ?_
  simp only [Bool.false_eq_true, if_false]
  refine Ex.bind (Ex.attemptN (ex_implicitJSONKey_no (ex_flowJSONNode hn.1 hn.2.1 (hj.no p _ _ _ hn.2.2.2.2.1 hn.2.2.2.2.2.1 h.closed)))
    (.inr h.closed) rfl) ?_
  rw [if_neg (by decide)]
  exact ex_implicitYAMLKey_no (ex_genericFlow_no h.closed hn.2.2.1 hn.1 hn.2.1 (ex_plain_no hF.toGround (.inr rfl) h1 h2 h3 (isPlainSafeToken_string hn.2.2.2.1) h.plain))

/-- A text in quotes on several lines is no key. -/
theorem ex_implicitKey_cut (hF : Flat W) (hj : JsonRun W c.json) (h : Cut W d p q) (h1 : lo ≤ p) (h2 : p < hi) (h3 : u < 64) :
    Ex W p (lv lo u hi) (parseBlockMappingImplicitKey f c : M σ Node) p (lv lo (u + 1) hi) .invalid := by
  have hn := quote_ne h.first
  have hne : (W p).type ≠ .tag ∧ (W p).type ≠ .anchor ∧ (W p).type ≠ .alias ∧ isPlainIndicator (W p) = false := by
    rcases quoteTok_or h.first with h | h <;> simp [h, isPlainIndicator]
  have ho := (quote_free h.first).1
  unfold parseBlockMappingImplicitKey
  refine Ex.bind Ex.hasErrors ?_
  simp only [Bool.false_eq_true, if_false]
  refine Ex.bind (Ex.attemptN (ex_implicitJSONKey_no (ex_flowJSONNode hne.1 hne.2.1 (hj.cut h))) (.inr ho) rfl) ?_
  rw [if_neg (by decide)]
  exact ex_implicitYAMLKey_no (ex_genericFlow_no ho hne.2.2.1 hne.1 hne.2.1 (ex_plain_no hF.toGround (.inr rfl) h1 h2 h3
    (isPlainSafeToken_string hn.2.2.1) hne.2.2.2))

/-! ### What is no mapping entry -/

/-- From token `p` up to token `q` in a line there is something, or nothing, but no key with a colon. -/
inductive Stub (W : Toks) : Nat → Nat → Prop
  | atom {p q i : Nat} {e : Node} : Atom W p e q → Sp W q i → (W (q + i)).type ≠ .mappingValue → Stub W p (q + i)
  | mute {p : Nat} : Still (W p) → Stub W p p
  | props {ab x : Node} {p q i : Nat} : Props W ab p x q → Sp W q i → Still (W (q + i)) → Stub W p (q + i)
  | text {ab x e : Node} {N p q j r i : Nat} : Props W ab p x q → Sp W q (j + 1) → Body W N (q + (j + 1)) e r → Sp W r i →
      (W (r + i)).type ≠ .mappingValue → isOpen (W (r + i)) = false → Stub W p (r + i)
  | coll {N p q i : Nat} {e : Node} : Coll W N p e q → Sp W q i → (W (q + i)).type ≠ .mappingValue → isOpen (W (q + i)) = false →
      Stub W p (q + i)
  | loose {p q i : Nat} {t : List Char} : Wide W p t q → Sp W q i → (W (q + i)).type ≠ .mappingValue → Stub W p (q + i)
  | cut {d : Bool} {p q : Nat} : Cut W d p q → Stub W p q
  | propsCut {d : Bool} {ab x : Node} {p q j r : Nat} : Props W ab p x q → Sp W q (j + 1) → Cut W d (q + (j + 1)) r → Stub W p r

theorem Stub.ne (h : Stub W p q) : (W p).type ≠ .mappingKey ∧ (W p).type ≠ .sequenceEntry := by
  cases h with
  | atom h => rcases h.type with h | h | h | h <;> simp [h]
  | mute h => exact ⟨h.ne.2.2.2.2.2.2.2.1, h.ne.2.2.2.2.2.2.2.2⟩
  | props h => rcases h.type with h | h <;> simp [h]
  | text h => rcases h.type with h | h <;> simp [h]
  | coll h => rcases h.type with h | h <;> simp [h]
  | loose h => simp [h.str]
  | cut h => rcases quoteTok_or h.first with h | h <;> simp [h]
  | propsCut h => rcases h.type with h | h <;> simp [h]

theorem Stub.le (h : Stub W p q) : p ≤ q := by
  cases h with
  | atom h => have := h.lt; omega
  | mute => exact Nat.le_refl _
  | props h => have := h.lt; omega
  | text h _ h2 => have := h.lt; have := h2.lt; omega
  | coll h => have := h.run.le; omega
  | loose h => have := h.lt; omega
  | cut h => have := h.lt; omega
  | propsCut h _ h2 => have := h.lt; have := h2.lt; omega

theorem Props.absent {ab ab' : Node} (h : Props W ab p x q) : ∃ x', Props W ab' p x' q := by
  cases h with
  | anchor h => exact ⟨_, .anchor h⟩
  | tag h => exact ⟨_, .tag h⟩
  | anchorTag h h2 h3 => exact ⟨_, .anchorTag h h2 h3⟩
  | tagAnchor h h2 h3 => exact ⟨_, .tagAnchor h h2 h3⟩

theorem Props.ne {ab : Node} (h : Props W ab p x q) : (W p).type ≠ .alias ∧ (W p).type ≠ .string ∧ (W p).type ≠ .singleQuote ∧
    (W p).type ≠ .doubleQuote ∧ isPlainIndicator (W p) = false := by
  rcases h.type with h | h <;> simp [h, isPlainIndicator]

theorem Props.closed {ab : Node} (h : Props W ab p x q) : isOpen (W p) = false := by
  rcases h.type with h | h <;> exact (Free.of h).1

theorem ex_separate_key (hF : Flat W) (hw : Sp W p i) (hs : solW W p = false) :
    Ex W p k (parseSeparate f ind .blockKey : M σ (Bool × Ind)) (p + i) k (decide (0 < i), ind) := by
  cases i with
  | zero => exact Ex.bind (ex_sepInLine_no hw hs) Ex.pure
  | succ i => exact Ex.bind (ex_sepInLine_yes hF hw (.inl (by omega))) Ex.pure

theorem ex_implicitJSONKey_propsV {V : Toks} {json : Content σ} (hp : Ex W p k (parseProperties f ⟨0, .strict⟩ .blockKey : M σ (Node × Ind)) p' k (x, ⟨0, .strict⟩))
    (hx : validNode x = true) (hs : Ex W p' k (parseSeparate f ⟨0, .strict⟩ .blockKey : M σ (Bool × Ind)) r k (true, ⟨0, .strict⟩))
    (hj : ExV W V W.keep r k (json ⟨0, .strict⟩ .blockKey) q l (.invalid, ⟨0, .strict⟩)) :
    ExV W V W.keep p k (parseImplicitJSONKey f json .blockKey : M σ Node) q l .invalid := by
  unfold parseImplicitJSONKey
  refine ExV.bind (Ex.hasErrors.v (Nat.le_refl _)) ?_
  simp only [Bool.false_eq_true, if_false]
  refine ExV.bind (V := V) (p' := q) (j := l) (a := (.invalid, ⟨0, .strict⟩)) ?_ ExV.pure
  unfold parseFlowJSONNode
  refine ExV.bind (Ex.hasErrors.v (Nat.le_refl _)) ?_
  simp only [Bool.false_eq_true, if_false]
  refine ExV.bind (p' := r) (j := k) (a := (x, true, ⟨0, .strict⟩)) (Ex.v (Ex.attemptT (Ex.bind hp ?_) rfl) (Nat.le_refl _)) ?_
  · rw [if_pos (show okNode (x, _) = true from hx)]
    exact Ex.bind hs Ex.pure
  · refine ExV.bind hj ?_
    exact ExV.pure

/-- Something with properties is read as a key, before the colon is missed. -/
theorem ex_implicitKey_props (hF : Flat W) (hj : JsonRun W c.json) (h1 : lo ≤ p) (h3 : u + 18 ≤ 64) :
    (∃ ab x r i, Props W ab p x r ∧ Sp W r i ∧ Still (W (r + i)) ∧ q = r + i) ∨
    (∃ N ab x r j e s i, Props W ab p x r ∧ Sp W r (j + 1) ∧ Body W N (r + (j + 1)) e s ∧ Sp W s i ∧ isOpen (W (s + i)) = false ∧ q = s + i) →
    q < hi → ∃ e q', validNode e = true ∧ (q' = q ∨ (W q').type ≠ .mappingValue) ∧
      Ex W p (lv lo u hi) (parseBlockMappingImplicitKey f c : M σ Node) q' (lv lo (u + 18) hi) e := by
  have step : ∀ {r i j : Nat} {b : Bool} {x : Node}, Props W (absent b) p x r → Sp W r i → b = decide (0 < i) →
      (b = true → (W (r + i)).type ≠ .tag ∧ (W (r + i)).type ≠ .anchor) → isOpen (W r) = false → ∀ k : Nat → Nat,
      Ex W p k (parseProperties f ⟨0, .strict⟩ .blockKey : M σ (Node × Ind)) r k (x, ⟨0, .strict⟩) ∧
      Ex W r k (parseSeparate f ⟨0, .strict⟩ .blockKey : M σ (Bool × Ind)) (r + i) k (b, ⟨0, .strict⟩) := by
    intro r i j b x hp hw hb hr ho k
    have hs := ex_separate_key (σ := σ) (f := f) (k := k) (ind := ⟨0, .strict⟩) hF hw hp.sol
    rw [← hb] at hs
    exact ⟨ex_properties (n := 0) hF (.inr (.inr (.inr rfl))) hp hs hr ho, hs⟩
  rintro (⟨ab, x, r, i, hp, hw, hm, rfl⟩ | ⟨N, ab, x, r, j, e, s, i, hp, hw, he, hw2, hop, rfl⟩) hq
  · obtain ⟨x, hp⟩ := hp.absent (ab' := absent (decide (0 < i)))
    have hn := hm.ne
    have hlt := hp.lt
    have hpn := hp.ne
    have hstep := fun k => step (j := 0) hp hw rfl (fun _ => ⟨hn.1, hn.2.1⟩) (hw.closed hm.closed) k
    refine ⟨newContentNode x .null, _, valid_newContent hp.valid, .inl rfl, ?_⟩
    unfold parseBlockMappingImplicitKey
    refine Ex.bind Ex.hasErrors ?_
    simp only [Bool.false_eq_true, if_false]
    have hjn : Ex W (if decide (0 < i) then r + i else p) (lv lo u hi) (c.json ⟨0, .strict⟩ .blockKey)
        (if decide (0 < i) then r + i else p) (lv lo u hi) (.invalid, ⟨0, .strict⟩) := by
      by_cases hi0 : 0 < i
      · simp only [hi0, decide_true, if_true]
        exact hj.no _ _ _ _ hn.2.2.2.2.1 hn.2.2.2.2.2.1 hm.closed
      · simp only [hi0, decide_false, Bool.false_eq_true, if_false]
        exact hj.no _ _ _ _ hpn.2.2.1 hpn.2.2.2.1 hp.closed
    refine Ex.bind (Ex.attemptN (ex_implicitJSONKey_no
      (ex_flowJSONNode_props (hstep _).1 hp.valid hp.closed (hstep _).2 hjn)) (.inr hp.closed) rfl) ?_
    rw [if_neg (by decide)]
    refine ex_implicitYAMLKey_of hF (valid_newContent hp.valid) ?_ hw
    refine ex_genericFlow_props (e := .invalid) hp.closed hpn.1 (ex_plain_no hF.toGround (.inr rfl) h1 (by omega) (by omega)
      (isPlainSafeToken_string hpn.2.1) hpn.2.2.2.2) (hstep _).1 hp.valid ?_
    refine Ex.attemptN (q := r + i) (Ex.bind (hstep _).2 ?_) (.inr (hw.closed hm.closed)) rfl
    by_cases hi0 : 0 < i
    · simp only [hi0, decide_true, if_true]
      exact (ex_plain_no hF.toGround (.inr rfl) (by omega) hq (by omega) (isPlainSafeToken_string hn.2.2.2.1) hm.plain).weaken
        (lv_mono (Nat.le_refl _) (by omega) (Nat.le_refl _) (by omega))
    · simp only [hi0, decide_false, Bool.false_eq_true, if_false]
      exact Ex.pure.weaken (lv_mono (Nat.le_refl _) (by omega) (Nat.le_refl _) (by omega))
  · obtain ⟨x, hp⟩ := hp.absent (ab' := absent (decide (0 < j + 1)))
    have hlt := hp.lt
    have hlt2 := he.lt
    have hpn := hp.ne
    have hty : (W (r + (j + 1))).type ≠ .tag ∧ (W (r + (j + 1))).type ≠ .anchor := by
      rcases he.type with h | h | h | h | h <;> simp [h]
    have hstep := fun k => step (j := 0) hp hw rfl (fun _ => hty) (Free.of hw.head).1 k
    have hcv : ∀ e, validNode (newContentNode x e) = true := fun _ => valid_newContent hp.valid
    cases he with
    | @loose _ _ he =>
      have h4 := ex_flowJSONNode_props (json := c.json) (e := .invalid) (l := lv lo u hi) (q := r + (j + 1))
        (hstep _).1 hp.valid hp.closed (hstep _).2 (hj.no _ _ _ _ (by simp [he.str]) (by simp [he.str]) (Free.of he.str).1)
      have key : ∀ {r l e}, Ex W p (lv lo u hi) (parseImplicitYAMLKey f .blockKey : M σ Node) r l e →
          Ex W p (lv lo u hi) (parseBlockMappingImplicitKey f c : M σ Node) r l e := by
        intro r l e hy
        unfold parseBlockMappingImplicitKey
        refine Ex.bind Ex.hasErrors ?_
        simp only [Bool.false_eq_true, if_false]
        refine Ex.bind (Ex.attemptN (ex_implicitJSONKey_no h4) (.inr hp.closed) rfl) ?_
        rw [if_neg (by decide)]
        exact hy
      have hplain := ex_plain_no (σ := σ) (f := f) (ctx := .blockKey) (ind := ⟨0, .strict⟩) (u := u) hF.toGround (.inr rfl) h1
        (show p < hi by omega) (by omega) (isPlainSafeToken_string hpn.2.1) hpn.2.2.2.2
      rcases ex_plainKey_loose (f := f) (σ := σ) (u := u + 1) (lo := lo) (hi := hi) hF he hw2 (by omega) (by omega) (by omega)
        with g | ⟨t', q', m, g1, g2, g3⟩
      · refine ⟨newContentNode x .null, r + (j + 1), hcv _, .inr (by simp [he.str]), ?_⟩
        have h5 := ex_genericFlow_props (f := f) (e := .invalid) (content := parsePlain f) hp.closed hpn.1 hplain (hstep _).1 hp.valid
          (Ex.attemptN (Ex.bind (hstep _).2 g) (.inr (Free.of hw.head).1) rfl)
        exact (key (ex_implicitYAMLKey_of hF (hcv _) h5 hw)).weaken (lv_mono (Nat.le_refl _) (by omega) (Nat.le_refl _) (by omega))
      · refine ⟨newContentNode x (.text t' .unknown), q' + m, hcv _, g3.imp id (fun g => by simp [g]), ?_⟩
        have h5 := ex_genericFlow_props (f := f) (e := .text t' .unknown) (content := parsePlain f) hp.closed hpn.1 hplain (hstep _).1 hp.valid
          (Ex.attemptT (Ex.bind (hstep _).2 g1) rfl)
        exact (key (ex_implicitYAMLKey_of hF (hcv _) h5 g2)).weaken (lv_mono (Nat.le_refl _) (by omega) (Nat.le_refl _) (by omega))
    | coll he =>
      by_cases hfl : Flush W (r + (j + 1)) e s
      case neg =>
        have hne : (W (r + (j + 1))).type ≠ .mappingValue ∧ (W (r + (j + 1))).type ≠ .string ∧ isPlainIndicator (W (r + (j + 1))) = false := by
          rcases he.type with h | h <;> simp [h, isPlainIndicator]
        refine ⟨newContentNode x .null, r + (j + 1), hcv _, .inr hne.1, ?_⟩
        obtain ⟨z, hz⟩ := hj.fails (ind := ⟨0, .strict⟩) (lo := lo) (hi := hi) (u := u) he hfl (by omega) (by omega) (by omega) (.inl rfl)
        have hjs := ex_implicitJSONKey_propsV (hstep _).1 hp.valid (hstep _).2 hz.unheld
        unfold parseBlockMappingImplicitKey
        refine Ex.bind Ex.hasErrors ?_
        simp only [Bool.false_eq_true, if_false]
        refine Ex.bind (ExV.attemptN hjs ⟨rfl, rfl, rfl⟩ (.inr hp.closed) rfl) ?_
        rw [if_neg (by decide)]
        refine ex_implicitYAMLKey_of hF (hcv _) ?_ hw
        refine ex_genericFlow_props (e := .invalid) hp.closed hpn.1 (ex_plain_no hF.toGround (.inr rfl) h1 (by omega) (by omega)
          (isPlainSafeToken_string hpn.2.1) hpn.2.2.2.2) (hstep _).1 hp.valid ?_
        refine Ex.attemptN (q := r + (j + 1)) (Ex.bind (hstep _).2 ?_) (.inr (Free.of hw.head).1) rfl
        exact (ex_plain_no hF.toGround (.inr rfl) (by omega) (by omega) (by omega) (isPlainSafeToken_string hne.2.1) hne.2.2).weaken
          (lv_mono (Nat.le_refl _) (by omega) (Nat.le_refl _) (by omega))
      refine ⟨newContentNode x e, _, hcv _, .inl rfl, ?_⟩
      unfold parseBlockMappingImplicitKey
      refine Ex.bind Ex.hasErrors ?_
      simp only [Bool.false_eq_true, if_false]
      have hjc := hj.flush (ind := ⟨0, .strict⟩) (lo := lo) (hi := hi) (u := u) hfl he.opens (hw2.closed hop) (by omega) (by omega) (by omega) (.inr (.inl rfl))
      have h4 := ex_flowJSONNode_props (json := c.json) (e := e) (k := lv lo u hi) (q := s)
        (hstep _).1 hp.valid hp.closed (hstep _).2 hjc
      rw [if_pos he.run.valid] at h4
      refine Ex.bind (Ex.attemptT (ex_implicitJSONKey_of hF (hcv _) h4 hw2) (hcv _)) ?_
      rw [if_pos (hcv _)]
      exact Ex.pure.weaken (lv_mono (Nat.le_refl _) (by omega) (Nat.le_refl _) (by omega))
    | scal he =>
      refine ⟨newContentNode x e, _, hcv _, .inl rfl, ?_⟩
      unfold parseBlockMappingImplicitKey
      refine Ex.bind Ex.hasErrors ?_
      simp only [Bool.false_eq_true, if_false]
      cases he with
      | @quoted d _ s t he =>
        have h4 := ex_flowJSONNode_props (json := c.json) (e := .text t (quoteKind d)) (l := lv lo u hi) (q := s + 1)
          (hstep _).1 hp.valid hp.closed (hstep _).2 (hj.quoted he (.inr (.inl rfl)))
        refine Ex.bind (Ex.attemptT (ex_implicitJSONKey_of hF (hcv _) h4 hw2) (hcv _)) ?_
        rw [if_pos (hcv _)]
        exact Ex.pure.weaken (lv_mono (Nat.le_refl _) (by omega) (Nat.le_refl _) (by omega))
      | @word _ _ t he =>
        have h4 := ex_flowJSONNode_props (json := c.json) (e := .invalid) (l := lv lo u hi) (q := r + (j + 1))
          (hstep _).1 hp.valid hp.closed (hstep _).2 (hj.no _ _ _ _ (by simp [he.str]) (by simp [he.str]) (Free.of he.str).1)
        refine Ex.bind (Ex.attemptN (ex_implicitJSONKey_no h4) (.inr hp.closed) rfl) ?_
        rw [if_neg (by decide)]
        refine ex_implicitYAMLKey_of hF (hcv _) ?_ hw2
        have h5 : Ex W (r + (j + 1)) (lv lo (u + 1) hi) (parsePlain f ⟨0, .strict⟩ .blockKey : M σ (Node × Ind)) s (lv lo (u + 1) hi)
            (.text t .unknown, ⟨0, .strict⟩) :=
          Ex.bind (ex_plainOneLine hF he.str he.safe he.run) Ex.pure
        refine ex_genericFlow_props (e := .text t .unknown) hp.closed hpn.1
          (ex_plain_no hF.toGround (.inr rfl) h1 (by omega) (by omega) (isPlainSafeToken_string hpn.2.1) hpn.2.2.2.2) (hstep _).1 hp.valid ?_
        refine Ex.attemptT (Ex.bind (hstep _).2 ?_) rfl
        exact h5.weaken (lv_mono (Nat.le_refl _) (by omega) (Nat.le_refl _) (by omega))

/-- Properties are read as a key without content, when a text in quotes on several lines follows. -/
theorem ex_implicitKey_propsCut {ab : Node} (hF : Flat W) (hj : JsonRun W c.json) (hp : Props W ab p x r) (hw : Sp W r (j + 1))
    (h : Cut W d (r + (j + 1)) q) (h1 : lo ≤ p) (h2 : q < hi) (h3 : u + 2 ≤ 64) :
    ∃ e, validNode e = true ∧ Ex W p (lv lo u hi) (parseBlockMappingImplicitKey f c : M σ Node) (r + (j + 1)) (lv lo (u + 2) hi) e := by
  obtain ⟨x, hp⟩ := hp.absent (ab' := absent (decide (0 < j + 1)))
  have hlt := hp.lt
  have hlt2 := h.lt
  have hpn := hp.ne
  have hqn := quote_ne h.first
  have hty : (W (r + (j + 1))).type ≠ .tag ∧ (W (r + (j + 1))).type ≠ .anchor ∧ isPlainIndicator (W (r + (j + 1))) = false := by
    rcases quoteTok_or h.first with h | h <;> simp [h, isPlainIndicator]
  have hs : ∀ k, Ex W r k (parseSeparate f ⟨0, .strict⟩ .blockKey : M σ (Bool × Ind)) (r + (j + 1)) k (decide (0 < j + 1), ⟨0, .strict⟩) :=
    fun k => ex_separate_key (k := k) (ind := ⟨0, .strict⟩) hF hw hp.sol
  have hpr : ∀ k, Ex W p k (parseProperties f ⟨0, .strict⟩ .blockKey : M σ (Node × Ind)) r k (x, ⟨0, .strict⟩) :=
    fun k => ex_properties (n := 0) hF (.inr (.inr (.inr rfl))) hp (hs k) (fun _ => ⟨hty.1, hty.2.1⟩) (Free.of hw.head).1
  refine ⟨newContentNode x .null, valid_newContent hp.valid, ?_⟩
  unfold parseBlockMappingImplicitKey
  refine Ex.bind Ex.hasErrors ?_
  simp only [Bool.false_eq_true, if_false]
  refine Ex.bind (Ex.attemptN (ex_implicitJSONKey_no (ex_flowJSONNode_props (e := .invalid) (l := lv lo u hi) (q := q) (hpr _) hp.valid hp.closed (hs _)
    (hj.cut h))) (.inr hp.closed) rfl) ?_
  rw [if_neg (by decide)]
  refine ex_implicitYAMLKey_of hF (valid_newContent hp.valid) ?_ hw
  refine ex_genericFlow_props (e := .invalid) hp.closed hpn.1 (ex_plain_no hF.toGround (.inr rfl) h1 (by omega) (by omega)
    (isPlainSafeToken_string hpn.2.1) hpn.2.2.2.2) (hpr _) hp.valid ?_
  refine Ex.attemptN (q := r + (j + 1)) (Ex.bind (hs _) ?_) (.inr (Free.of hw.head).1) rfl
  exact ex_plain_no hF.toGround (.inr rfl) (by omega) (by omega) (by omega) (isPlainSafeToken_string hqn.2.2.1) hty.2.2

/-- No mapping entry: there is no colon. -/
theorem ex_mappingEntry_of (h : (W p).type ≠ .mappingKey) (hk : Ex W p k (attempt validNode (parseBlockMappingImplicitKey f c) : M σ Node) q l e)
    (hq : (W q).type ≠ .mappingValue) : Ex W p k (parseBlockMappingEntry f c ind : M σ (Node × Ind)) q l (.invalid, ind) := by
  unfold parseBlockMappingEntry
  refine Ex.bind Ex.hasErrors ?_
  simp only [Bool.false_eq_true, if_false]
  refine Ex.bind Ex.tok ?_
  rw [if_neg h]
  unfold parseBlockMappingImplicitEntry
  refine Ex.bind Ex.hasErrors ?_
  simp only [Bool.false_eq_true, if_false]
  refine Ex.bind hk ?_
  refine Ex.bind (a := (.invalid, ind)) ?_ Ex.pure
  unfold parseBlockMappingImplicitValue
  refine Ex.bind Ex.hasErrors ?_
  simp only [Bool.false_eq_true, if_false]
  refine Ex.bind Ex.tok ?_
  rw [if_pos hq]
  exact Ex.pure

theorem ex_mappingEntry_mute (hF : Flat W) (hj : JsonRun W c.json) (h : Still (W p)) (h1 : lo ≤ p) (h2 : p < hi) (h3 : u < 64) :
    Ex W p (lv lo u hi) (parseBlockMappingEntry f c ind : M σ (Node × Ind)) p (lv lo (u + 1) hi) (.invalid, ind) :=
  ex_mappingEntry_of h.ne.2.2.2.2.2.2.2.1 (Ex.attemptN (ex_implicitKey_no hF hj h1 h2 h3 h) (.inr h.closed) rfl) h.ne.2.2.2.2.2.2.1

theorem ex_mappingEntry_no (hF : Flat W) (hj : JsonRun W c.json) (h : Stub W p q) (h1 : lo ≤ p) (h2 : q < hi) (h3 : u + 18 ≤ 64) :
    ∃ r, Ex W p (lv lo u hi) (parseBlockMappingEntry f c ind : M σ (Node × Ind)) r (lv lo (u + 18) hi) (.invalid, ind) := by
  have hne := h.ne
  cases h with
  | atom h hw hq =>
    refine ⟨_, (ex_mappingEntry_of hne.1 ((ex_implicitKey hF hj h hw).attemptT h.valid) hq).weaken
      (lv_mono (Nat.le_refl _) (by omega) (Nat.le_refl _) (by omega))⟩
  | mute h =>
    refine ⟨_, (ex_mappingEntry_mute hF hj h h1 h2 (by omega)).weaken
      (lv_mono (Nat.le_refl _) (by omega) (Nat.le_refl _) (by omega))⟩
  | props h hw hm =>
    obtain ⟨e, q', hv, hq', he⟩ := ex_implicitKey_props (f := f) (c := c) hF hj h1 h3 (.inl ⟨_, _, _, _, h, hw, hm, rfl⟩) h2
    refine ⟨_, ex_mappingEntry_of hne.1 (he.attemptT hv) ?_⟩
    rcases hq' with rfl | hq'
    · exact hm.ne.2.2.2.2.2.2.1
    · exact hq'
  | @coll _ _ q _ e h hw hq ho =>
    have := h.run.le
    by_cases hs : Flush W p e q
    · exact ⟨_, (ex_mappingEntry_of hne.1 ((ex_implicitKey_coll hF hj h hs hw ho h1 (by omega) (by omega)).attemptT h.run.valid) hq).weaken
        (lv_mono (Nat.le_refl _) (by omega) (Nat.le_refl _) (by omega))⟩
    · refine ⟨_, (ex_mappingEntry_of hne.1 ((ex_implicitKey_lines hF hj h hs h1 (by omega) (by omega)).attemptF rfl) ?_).weaken
        (lv_mono (Nat.le_refl _) (by omega) (Nat.le_refl _) (by omega))⟩
      rcases h.type with h | h <;> simp [h]
  | text h hw hs hw2 hq ho =>
    obtain ⟨e, q', hv, hq', he⟩ := ex_implicitKey_props (f := f) (c := c) hF hj h1 h3 (.inr ⟨_, _, _, _, _, _, _, _, h, hw, hs, hw2, ho, rfl⟩) h2
    refine ⟨_, ex_mappingEntry_of hne.1 (he.attemptT hv) ?_⟩
    rcases hq' with rfl | hq'
    · exact hq
    · exact hq'
  | loose h hw hq =>
    obtain ⟨e, r, he, hr⟩ := ex_implicitKey_loose (f := f) (c := c) (u := u) hF hj h hw h1 (show _ < hi by omega) (by omega)
    refine ⟨_, (ex_mappingEntry_of hne.1 he ?_).weaken (lv_mono (Nat.le_refl _) (by omega) (Nat.le_refl _) (by omega))⟩
    rcases hr with rfl | hr
    · exact hq
    · simp [hr]
  | cut h =>
    have := h.lt
    refine ⟨_, (ex_mappingEntry_of hne.1 (Ex.attemptN (ex_implicitKey_cut hF hj h h1 (by omega) (by omega)) (.inr (quote_free h.first).1) rfl) ?_).weaken
      (lv_mono (Nat.le_refl _) (by omega) (Nat.le_refl _) (by omega))⟩
    rcases quoteTok_or h.first with h | h <;> simp [h]
  | propsCut h hw hs =>
    obtain ⟨e, hv, he⟩ := ex_implicitKey_propsCut (f := f) (c := c) (u := u) hF hj h hw hs h1 h2 (by omega)
    refine ⟨_, (ex_mappingEntry_of hne.1 (he.attemptT hv) ?_).weaken (lv_mono (Nat.le_refl _) (by omega) (Nat.le_refl _) (by omega))⟩
    rcases quoteTok_or hs.first with h | h <;> simp [h]

/-! ### Flow nodes in a block -/

/-- The content of a scalar or a collection in brackets. -/
theorem ex_flowContent {json : Content σ} (hF : Flat W) (hj : JsonRun W json) (h : Whole W N p e q) (he : Eol W q p') (hn : NoText W N p')
    (h1 : lo ≤ p) (h2 : q ≤ hi) (h3 : u + 17 ≤ 64) :
    Ex W p (lv lo u hi) (parseFlowContent f json ⟨(N : Int), .strict⟩ .flowOut : M σ (Node × Ind)) q (lv lo (u + 17) hi)
      (e, ⟨(N : Int), .strict⟩) := by
  have hlt := h.lt
  unfold parseFlowContent
  refine Ex.bind Ex.hasErrors ?_
  simp only [Bool.false_eq_true, if_false]
  have plain : ∀ {s : Nat} {t v : List Char}, Wide W p t s → Para W .flowOut N s v q → e = .text (t ++ v) .unknown → Ex W p (lv lo u hi) (do
      let r ← attempt okNode (parsePlain f ⟨(N : Int), .strict⟩ .flowOut)
      if okNode r then pure r else json r.2 .flowOut : M σ (Node × Ind)) q (lv lo (u + 17) hi) (e, ⟨(N : Int), .strict⟩) := by
    rintro s t v h' hv rfl
    have h4 : Ex W p (lv lo u hi) (parsePlain f ⟨(N : Int), .strict⟩ .flowOut : M σ (Node × Ind)) q (lv lo u hi)
        (.text (t ++ v) .unknown, ⟨(N : Int), .strict⟩) :=
      ex_plainMultiLine hF h'.str (safe_flowOut.2 h'.str) h'.run hv he hn
    refine Ex.bind (j := lv lo (u + 17) hi) (Ex.attemptT (h4.weaken (lv_mono (Nat.le_refl _) (by omega) (Nat.le_refl _) (by omega))) rfl) ?_
    exact Ex.pure
  have quote : ∀ {d : Bool} {l : Nat → Nat}, (W p).type = quoteTok d → Ex W p (lv lo (u + 1) hi) (json ⟨(N : Int), .strict⟩ .flowOut) q l
      (e, ⟨(N : Int), .strict⟩) → Ex W p (lv lo u hi) (do
      let r ← attempt okNode (parsePlain f ⟨(N : Int), .strict⟩ .flowOut)
      if okNode r then pure r else json r.2 .flowOut : M σ (Node × Ind)) q l (e, ⟨(N : Int), .strict⟩) := by
    intro d l h hjs
    have hn := quote_ne h
    have hpi : isPlainIndicator (W p) = false := by cases d <;> simp [isPlainIndicator, h, quoteTok]
    refine Ex.bind (Ex.attemptF (ex_plain_no hF.held (.inl rfl) h1 (by omega) (by omega) (isPlainSafeToken_string hn.2.2.1) hpi) rfl) ?_
    rw [if_neg (by simp [okNode, validNode, Node.invalid])]
    exact hjs
  cases h with
  | lines h hv => exact plain h hv rfl
  | scroll h => exact quote h.first ((hj.scroll h).weaken (lv_mono (Nat.le_refl _) (by omega) (Nat.le_refl _) (by omega)))
  | body h =>
  cases h with
  | loose h => exact plain h .stop (by simp)
  | coll h =>
    have hne := h.type
    refine Ex.bind (Ex.attemptF (ex_plain_no hF.held (.inl rfl) h1 (by omega) (by omega) (isPlainSafeToken_string (by rcases hne with h | h <;> simp [h]))
      (by rcases hne with h | h <;> simp [h, isPlainIndicator])) rfl) ?_
    rw [if_neg (by simp [okNode, validNode, Node.invalid])]
    exact (hj.coll h he.free.1 h1 h2 (by omega) ⟨.inl rfl, rfl⟩).weaken (lv_mono (Nat.le_refl _) (by omega) (Nat.le_refl _) (by omega))
  | scal h =>
    cases h with
    | word h => exact plain h.wide .stop (by simp)
    | quoted h => exact quote h.first ((hj.quoted h (.inl rfl)).weaken (lv_mono (Nat.le_refl _) (by omega) (Nat.le_refl _) (by omega)))

theorem ex_flowContent_no {json : Content σ} (hF : Flat W) (hj : JsonRun W json) (h1 : lo ≤ p) (h2 : p < hi) (h3 : u < 64)
    (hs : (W p).type ≠ .string) (hn : isPlainIndicator (W p) = false) (hq1 : (W p).type ≠ .singleQuote) (hq2 : (W p).type ≠ .doubleQuote)
    (ho : isOpen (W p) = false) : Ex W p (lv lo u hi) (parseFlowContent f json ind .flowOut : M σ (Node × Ind)) p (lv lo (u + 1) hi) (.invalid, ind) := by
  unfold parseFlowContent
  refine Ex.bind Ex.hasErrors ?_
  simp only [Bool.false_eq_true, if_false]
  refine Ex.bind (Ex.attemptF (ex_plain_no hF.held (.inl rfl) h1 h2 h3 (isPlainSafeToken_string hs) hn) rfl) ?_
  rw [if_neg (by simp [okNode, validNode, Node.invalid])]
  exact hj.no _ _ _ _ hq1 hq2 ho

/-- The separation in front of token `r`, from token `p` on, succeeds or fails. -/
def Look (σ : Type) [TokenStream σ] [StreamOk σ] (W : Toks) (N p : Nat) (b : Bool) (r : Nat) : Prop :=
  ∀ (f : Nat) (k : Nat → Nat) (ctx : PCtx), ctx = .blockIn ∨ ctx = .blockOut ∨ ctx = .flowOut →
    Ex W p k (parseSeparate f ⟨(N : Int), .strict⟩ ctx : M σ (Bool × Ind)) r k (b, ⟨(N : Int), .strict⟩)

theorem Sep.look (hF : Flat W) (h : Sep W N p r) : Look σ W N p true r :=
  fun _ _ _ hx => ex_separate_lines hx (ex_separateLines hF h)

theorem look_short (hF : Flat W) (hp : 1 ≤ p) (hs : solW W p = false) (h : Eol W p q) (hw : Sp W q j) (hj : j < N) (hi : Sp W p i) :
    Look σ W N p (decide (0 < i)) (p + i) :=
  fun _ _ _ hx => ex_separate_lines hx (ex_separateLines_short hF hp hs h hw hj hi)

theorem Sep.closed (h : Sep W N p q) (hs : solW W p = false) : isOpen (W p) = false := by
  cases h with
  | mid _ h => exact (Free.of h.head).1
  | lines _ h => exact h.free.1
  | start _ h => rw [hs] at h; cases h

theorem ex_flowNode_atom {json : Content σ} (hF : Flat W) (hj : JsonRun W json) (h : Core W N p e q) (he : Eol W q p') (hn : NoText W N p')
    (h1 : lo ≤ p) (h2 : q ≤ hi) (h3 : u + 17 ≤ 64) :
    Ex W p (lv lo u hi) (parseFlowNode f json ⟨(N : Int), .strict⟩ .flowOut : M σ (Node × Ind)) q (lv lo (u + 17) hi)
      (e, ⟨(N : Int), .strict⟩) := by
  cases h with
  | body h =>
    exact ex_genericFlow (by rcases h.type with h | h | h | h | h <;> simp [h]) (ex_flowContent hF hj h he hn h1 h2 h3) h.valid
  | ref h =>
    exact (ex_genericFlow_alias hF h).weaken (lv_mono (Nat.le_refl _) (by omega) (Nat.le_refl _) (by omega))

theorem ex_flowNode_mute {json : Content σ} (hF : Flat W) (hj : JsonRun W json) (h : Mute (W p)) (h1 : lo ≤ p) (h2 : p < hi) (h3 : u < 64) :
    Ex W p (lv lo u hi) (parseFlowNode f json ind .flowOut : M σ (Node × Ind)) p (lv lo (u + 1) hi) (.invalid, ind) := by
  have hn := h.ne
  exact ex_genericFlow_no h.closed hn.2.2.1 hn.1 hn.2.1
    (ex_flowContent_no hF hj h1 h2 h3 hn.2.2.2.1 h.plain hn.2.2.2.2.1 hn.2.2.2.2.2.1 h.closed)

theorem ex_flowNode_props {json : Content σ} {s : Nat} (hF : Flat W) (hj : JsonRun W json) (h : Props W .invalid p x q)
    (hl : Sep W N q r) (hs : Whole W N r e s) (he : Eol W s p') (hn : NoText W N p') (h1 : lo ≤ p) (h2 : s ≤ hi) (h3 : u + 18 ≤ 64) :
    Ex W p (lv lo u hi) (parseFlowNode f json ⟨(N : Int), .strict⟩ .flowOut : M σ (Node × Ind)) s (lv lo (u + 18) hi)
      (.content x e, ⟨(N : Int), .strict⟩) := by
  have hpn := h.ne
  have hlt := h.lt
  have hle := hl.le
  have hl' := hl.look (σ := σ) hF
  have hty : (W r).type ≠ .tag ∧ (W r).type ≠ .anchor := by
    rcases hs.type with h | h | h | h | h <;> simp [h]
  have hlt2 := hs.lt
  have key := ex_genericFlow_props (f := f) (ind := ⟨(N : Int), .strict⟩) (ctx := .flowOut) (content := parseFlowContent f json) (e := e) (q := s) (l' := lv lo (u + 18) hi)
    h.closed hpn.1 (ex_flowContent_no hF hj h1 (by omega) (by omega) hpn.2.1 hpn.2.2.2.2 hpn.2.2.1 hpn.2.2.2.1 h.closed)
    (ex_properties (b := true) hF (.inr (.inr (.inl rfl))) h (hl' _ _ _ (.inr (.inr rfl))) (fun _ => hty) (hl.closed h.sol)) h.valid
    (Ex.attemptT (Ex.bind (hl' _ _ _ (.inr (.inr rfl))) (ex_flowContent hF hj hs he hn (by omega) h2 (by omega))) hs.valid)
  rw [if_pos hs.valid, newContent h.valid] at key
  exact key

theorem ex_flowNode_bare {json : Content σ} {b : Bool} (hF : Flat W) (hj : JsonRun W json) (h : Props W (absent b) p x q)
    (hl : Look σ W N q b r) (ho : isOpen (W q) = false) (hm : Mute (W r)) (h1 : lo ≤ p) (h0 : q ≤ r) (h2 : r < hi) (h3 : u + 2 ≤ 64) :
    Ex W p (lv lo u hi) (parseFlowNode f json ⟨(N : Int), .strict⟩ .flowOut : M σ (Node × Ind)) q (lv lo (u + 2) hi)
      (.content x .null, ⟨(N : Int), .strict⟩) := by
  have hpn := h.ne
  have hlt := h.lt
  have hn := hm.ne
  have hat : Ex W q (lv lo (u + 1) hi) (do
      let s ← parseSeparate f ⟨(N : Int), .strict⟩ .flowOut
      if s.1 then parseFlowContent f json s.2 .flowOut else pure (.invalid, s.2) : M σ (Node × Ind)) r (lv lo (u + 2) hi)
      (.invalid, ⟨(N : Int), .strict⟩) := by
    refine Ex.bind (hl _ _ _ (.inr (.inr rfl))) ?_
    cases b with
    | true => exact ex_flowContent_no hF hj (by omega) h2 (by omega) hn.2.2.2.1 hm.plain hn.2.2.2.2.1 hn.2.2.2.2.2.1 hm.closed
    | false => exact Ex.pure.weaken (lv_mono (Nat.le_refl _) (by omega) (Nat.le_refl _) (by omega))
  have key := ex_genericFlow_props (f := f) (ind := ⟨(N : Int), .strict⟩) (ctx := .flowOut) (content := parseFlowContent f json) (e := .invalid)
    (q := q) (l' := lv lo (u + 2) hi)
    h.closed hpn.1 (ex_flowContent_no hF hj h1 (by omega) (by omega) hpn.2.1 hpn.2.2.2.2 hpn.2.2.1 hpn.2.2.2.1 h.closed)
    (ex_properties hF (.inr (.inr (.inl rfl))) h (hl _ _ _ (.inr (.inr rfl))) (fun _ => ⟨hn.1, hn.2.1⟩) ho) h.valid
    (hat.attemptN (.inr ho) rfl)
  rw [if_neg (by decide), newContent h.valid] at key
  exact key

/-! ### What is no block scalar and no block collection -/

theorem dec_of {i : Int} (h : i + 1 = (N : Int)) {m : IndMode} : Ind.dec ⟨(N : Int), m⟩ = ⟨i, m⟩ := by
  simp [Ind.dec, ← h]

theorem inc_of {i : Int} (h : i + 1 = (N : Int)) {m : IndMode} : Ind.inc ⟨i, m⟩ = ⟨(N : Int), m⟩ := by
  simp [Ind.inc, ← h]

/-- No literal and no folded scalar starts at the token, and no properties. -/
def Dull (t : Tok) : Prop := t.type ≠ .literal ∧ t.type ≠ .folded ∧ t.type ≠ .tag ∧ t.type ≠ .anchor

theorem Mute.dull {t : Tok} (h : Mute t) : Dull t := ⟨h.ne.2.2.2.2.2.2.2.2.2.1, h.ne.2.2.2.2.2.2.2.2.2.2, h.ne.1, h.ne.2.1⟩

theorem Atom.dull (h : Atom W p e q) : Dull (W p) := by
  rcases h.type with h | h | h | h <;> simp [Dull, h]

theorem Body.dull (h : Body W N p e q) : Dull (W p) := by
  rcases h.type with h | h | h | h | h <;> simp [Dull, h]

theorem Whole.dull (h : Whole W N p e q) : Dull (W p) := by
  rcases h.type with h | h | h | h | h <;> simp [Dull, h]

theorem Core.dull (h : Core W N p e q) : Dull (W p) := by
  rcases h.type with h | h | h | h | h | h <;> simp [Dull, h]

/-- There is no block scalar without properties. -/
theorem ex_blockScalar_no {z : Int} {b : Bool} (hz : z + 1 = (N : Int)) (hx : ctx = .blockIn ∨ ctx = .blockOut) (hl : Look σ W N p b r)
    (hd : Dull (W r)) :
    Ex W p k (parseBlockScalar f ⟨z, .strict⟩ ctx : M σ (Node × Ind)) r k (.invalid, ⟨z, .strict⟩) := by
  unfold parseBlockScalar
  refine Ex.bind Ex.hasErrors ?_
  simp only [Bool.false_eq_true, if_false, inc_of hz]
  refine Ex.bind (hl _ _ _ (by rcases hx with h | h <;> simp [h])) ?_
  cases b with
  | false =>
    simp only [Bool.not_false, if_true, dec_of hz]
    exact Ex.pure
  | true =>
    simp only [Bool.not_true, Bool.false_eq_true, if_false]
    refine Ex.bind (Ex.attemptF (q := r) (l := k) (a := (.invalid, false, ⟨(N : Int), .strict⟩))
      (Ex.bind (ex_properties_no _ _ hd.2.2.1 hd.2.2.2) ?_) rfl) ?_
    · exact Ex.pure
    · refine Ex.bind Ex.tok ?_
      simp only [dec_of hz]
      have h1 := hd.1
      have h2 := hd.2.1
      split
      · contradiction
      · contradiction
      · exact Ex.pure

/-- There is none after properties. -/
theorem ex_blockScalar_props {z : Int} {b : Bool} {s : Nat} (hF : Flat W) (hz : z + 1 = (N : Int)) (hx : ctx = .blockIn ∨ ctx = .blockOut) (hl : Look σ W N p true r)
    (h : Props W (absent b) r x q) (hl2 : Look σ W N q b s) (ho : isOpen (W q) = false) (hd : Dull (W s)) :
    Ex W p k (parseBlockScalar f ⟨z, .strict⟩ ctx : M σ (Node × Ind)) (if b then s else r) k (.invalid, ⟨z, .strict⟩) := by
  have hx' : ctx = .blockIn ∨ ctx = .blockOut ∨ ctx = .flowOut := by rcases hx with h | h <;> simp [h]
  have hx2 : ctx = .blockIn ∨ ctx = .blockOut ∨ ctx = .flowOut ∨ ctx = .blockKey := by rcases hx with h | h <;> simp [h]
  have hp := h.ne
  unfold parseBlockScalar
  refine Ex.bind Ex.hasErrors ?_
  simp only [Bool.false_eq_true, if_false, inc_of hz]
  refine Ex.bind (hl _ _ _ hx') ?_
  simp only [Bool.not_true, Bool.false_eq_true, if_false]
  have h1 : Ex W r k (do
      let pr ← parseProperties f ⟨(N : Int), .strict⟩ ctx
      if okNode pr then do
        let s ← parseSeparate f pr.2 ctx
        pure (pr.1, s)
      else pure (pr.1, false, pr.2) : M σ (Node × Bool × Ind)) s k (x, b, ⟨(N : Int), .strict⟩) := by
    refine Ex.bind (ex_properties hF hx2 h (hl2 _ _ _ hx') (fun _ => ⟨hd.2.2.1, hd.2.2.2⟩) ho) ?_
    rw [if_pos (show okNode (x, _) = true from h.valid)]
    exact Ex.bind (hl2 _ _ _ hx') Ex.pure
  refine Ex.bind (p' := if b then s else r) (j := k) (a := (x, b, ⟨(N : Int), .strict⟩)) ?_ ?_
  · cases b with
    | true => exact h1.attemptT rfl
    | false => exact h1.attemptN (.inr h.closed) rfl
  · have hn : (W (if b then s else r)).type ≠ .literal ∧ (W (if b then s else r)).type ≠ .folded := by
      cases b with
      | true => exact ⟨hd.1, hd.2.1⟩
      | false => rcases h.type with h | h <;> simp [h]
    refine Ex.bind Ex.tok ?_
    simp only [dec_of hz]
    generalize W (if b then s else r) = w at hn
    have h1 := hn.1
    have h2 := hn.2
    cases hw : w.type <;> first | contradiction | exact Ex.pure

/-- What `parseBlockCollection` does after the properties. -/
def collRest (f : Nat) (c : Calls σ) (ctx : PCtx) (pr : Node × Ind) : M σ (Node × Ind) := do
  let cm ← parseComments f
  if !cm then pure (.invalid, pr.2.dec) else
  let n ← attempt validNode (parseSeqSpace f c pr.2.dec ctx)
  if validNode n then pure (newContentNode pr.1 n, pr.2.dec) else
  let n ← parseBlockMapping f c pr.2.dec
  if !validNode n then pure (.invalid, pr.2.dec) else
  pure (newContentNode pr.1 n, pr.2.dec)

theorem parseBlockCollection_eq (f : Nat) (c : Calls σ) (ind : Ind) (ctx : PCtx) : parseBlockCollection f c ind ctx = (do
    let e ← hasErrors
    if e then pure (.invalid, ind) else
    attempt okNode (do
      let s ← parseSeparate f ind.inc ctx
      if s.1 then parseProperties f s.2 ctx else pure (.invalid, s.2)) >>= collRest f c ctx : M σ (Node × Ind)) := by
  unfold parseBlockCollection collRest
  rfl

/-- A collection without properties. -/
theorem ex_collection {z : Int} {b : Bool} {a : Node × Ind} (hz : z + 1 = (N : Int)) (hx : ctx = .blockIn ∨ ctx = .blockOut) (hl : Look σ W N p b r)
    (ho : isOpen (W p) = false) (hd : Dull (W r)) (h : Ex W p k (collRest f c ctx (.invalid, ⟨(N : Int), .strict⟩) : M σ (Node × Ind)) q l a) :
    Ex W p k (parseBlockCollection f c ⟨z, .strict⟩ ctx : M σ (Node × Ind)) q l a := by
  rw [parseBlockCollection_eq]
  refine Ex.bind Ex.hasErrors ?_
  simp only [Bool.false_eq_true, if_false, inc_of hz]
  have hx' : ctx = .blockIn ∨ ctx = .blockOut ∨ ctx = .flowOut := by rcases hx with h | h <;> simp [h]
  refine Ex.bind (p' := p) (j := k) (a := (.invalid, ⟨(N : Int), .strict⟩)) ?_ ?_
  rotate_left
  exact h
  refine Ex.attemptN (q := r) ?_ (.inr ho) rfl
  refine Ex.bind (hl _ _ _ hx') ?_
  cases b with
  | true => exact ex_properties_no _ _ hd.2.2.1 hd.2.2.2
  | false => exact Ex.pure

/-- A collection with properties. -/
theorem ex_collection_props {z : Int} {b : Bool} {a : Node × Ind} {s : Nat} (hF : Flat W) (hz : z + 1 = (N : Int)) (hx : ctx = .blockIn ∨ ctx = .blockOut)
    (hl : Look σ W N p true r) (hp : Props W (absent b) r x p') (hl2 : Look σ W N p' b s) (ho : isOpen (W p') = false) (hd : Dull (W s))
    (h : Ex W p' k (collRest f c ctx (x, ⟨(N : Int), .strict⟩) : M σ (Node × Ind)) q l a) :
    Ex W p k (parseBlockCollection f c ⟨z, .strict⟩ ctx : M σ (Node × Ind)) q l a := by
  have hx' : ctx = .blockIn ∨ ctx = .blockOut ∨ ctx = .flowOut := by rcases hx with h | h <;> simp [h]
  have hx2 : ctx = .blockIn ∨ ctx = .blockOut ∨ ctx = .flowOut ∨ ctx = .blockKey := by rcases hx with h | h <;> simp [h]
  rw [parseBlockCollection_eq]
  refine Ex.bind Ex.hasErrors ?_
  simp only [Bool.false_eq_true, if_false, inc_of hz]
  exact Ex.bind (Ex.attemptT (Ex.bind (hl _ _ _ hx')
    (ex_properties hF hx2 hp (hl2 _ _ _ hx') (fun _ => ⟨hd.2.2.1, hd.2.2.2⟩) ho)) hp.valid) h

theorem ex_seqSpace {z : Int} {a : Node} (hz : z + 1 = (N : Int)) (hx : (ctx = .blockIn ∧ m = N) ∨ (ctx = .blockOut ∧ m + 1 = N))
    (h : ∀ z : Int, z + 1 = (m : Int) → Ex W p k (parseBlockSequence f c ⟨z, .strict⟩ : M σ Node) q l a) :
    Ex W p k (parseSeqSpace f c ⟨z, .strict⟩ ctx : M σ Node) q l a := by
  rcases hx with ⟨rfl, rfl⟩ | ⟨rfl, rfl⟩
  · exact h z hz
  · exact h (z - 1) (by omega)

theorem ex_sequenceEntry_no (h : (W p).type ≠ .sequenceEntry) :
    Ex W p k (parseBlockSequenceEntry c ind : M σ (Node × Ind)) p k (.invalid, ind) := by
  unfold parseBlockSequenceEntry
  refine Ex.bind Ex.hasErrors ?_
  simp only [Bool.false_eq_true, if_false]
  refine Ex.bind Ex.tok ?_
  rw [if_pos h]
  exact Ex.pure

theorem ex_blockSequence_noG {z : Int} (hG : Ground W) (hh : 0 < n → W.hold = false) (hz : z + 1 = (m : Int)) (hw : Sp W p n)
    (h : m ≤ n → (W (p + n)).type ≠ .sequenceEntry) :
    Ex W p k (parseBlockSequence f c ⟨z, .strict⟩ : M σ Node) (p + n) k .invalid := by
  unfold parseBlockSequence
  refine Ex.bind Ex.hasErrors ?_
  simp only [Bool.false_eq_true, if_false, hz]
  by_cases hm : m ≤ n
  · refine Ex.bind (ex_indent_lowerG hG hh hw hm) ?_
    simp only [Bool.not_true, Bool.false_eq_true, if_false]
    exact Ex.bind (ex_sequenceEntry_no (h hm)) Ex.pure
  · exact Ex.bind (ex_indent_lower_shortG hG hh hw (by omega)) Ex.pure

/-- Within a line there is no collection. -/
theorem ex_collRest_mid {z : Int} (hF : Flat W) (hz : z + 1 = (N : Int)) (hw : Sp W p j) (hs : solW W p = false) (hc : Begins (W (p + j))) :
    Ex W p k (collRest f c ctx (x, ⟨(N : Int), .strict⟩) : M σ (Node × Ind)) p k (.invalid, ⟨z, .strict⟩) := by
  unfold collRest
  refine Ex.bind (ex_comments_mid hF hw hs hc) ?_
  simp only [Bool.not_false, if_true, dec_of hz]
  exact Ex.pure

/-- In the next line there is something else. -/
theorem ex_collRest_line {z : Int} (hF : Flat W) (hj : JsonRun W c.json) (hz : z + 1 = (N : Int))
    (hx : (ctx = .blockIn ∧ m = N) ∨ (ctx = .blockOut ∧ m + 1 = N)) (hcm : ∀ k, Ex W p k (parseComments f : M σ Bool) q k true)
    (hw : Sp W q j) (hN : N ≤ j) (h : Stub W (q + j) r) (h1 : lo ≤ q) (h2 : r < hi) (h3 : u + 18 ≤ 64) : ∃ s,
    Ex W p (lv lo u hi) (collRest f c ctx (x, ⟨(N : Int), .strict⟩) : M σ (Node × Ind)) s (lv lo (u + 18) hi) (.invalid, ⟨z, .strict⟩) := by
  obtain ⟨s, hs⟩ := ex_mappingEntry_no (c := c) (f := f) (ind := ⟨(j : Int), .strict⟩) hF hj h (show lo ≤ q + j by omega) h2 h3
  refine ⟨s, ?_⟩
  unfold collRest
  refine Ex.bind (hcm _) ?_
  simp only [Bool.not_true, Bool.false_eq_true, if_false, dec_of hz]
  refine Ex.bind (Ex.attemptJ hw (fun e => ex_seqSpace hz hx (fun z hz => ex_blockSequence_noG hF.held (by omega) hz hw (fun _ => h.ne.2)))
    (fun _ => ex_seqSpace hz hx (fun z hz => ex_blockSequence_noG hF.toGround (fun _ => hF.free) hz hw (fun _ => h.ne.2))) rfl) ?_
  rw [if_neg (by decide)]
  refine Ex.bind (a := .invalid) ?_ Ex.pure
  unfold parseBlockMapping
  refine Ex.bind Ex.hasErrors ?_
  simp only [Bool.false_eq_true, if_false, hz]
  refine Ex.bind (ex_indent_lower hF hw hN) ?_
  simp only [Bool.not_true, Bool.false_eq_true, if_false]
  exact Ex.bind hs Ex.pure

/-- The next line is less indented. -/
theorem ex_collRest_short {z : Int} (hF : Flat W) (hz : z + 1 = (N : Int))
    (hx : (ctx = .blockIn ∧ m = N) ∨ (ctx = .blockOut ∧ m + 1 = N)) (hcm : ∀ k, Ex W p k (parseComments f : M σ Bool) q k true)
    (hw : Sp W q j) (hN : j < N) (hd : ctx = .blockOut → m = j → (W (q + j)).type ≠ .sequenceEntry) :
    Ex W p k (collRest f c ctx (x, ⟨(N : Int), .strict⟩) : M σ (Node × Ind)) (q + j) k (.invalid, ⟨z, .strict⟩) := by
  unfold collRest
  refine Ex.bind (hcm _) ?_
  simp only [Bool.not_true, Bool.false_eq_true, if_false, dec_of hz]
  have hd' : m ≤ j → (W (q + j)).type ≠ .sequenceEntry := by
    intro hm
    rcases hx with ⟨rfl, rfl⟩ | ⟨h, rfl⟩
    · omega
    · exact hd h (by omega)
  refine Ex.bind (Ex.attemptJ hw (fun e => ex_seqSpace hz hx (fun z hz => ex_blockSequence_noG hF.held (by omega) hz hw hd'))
    (fun _ => ex_seqSpace hz hx (fun z hz => ex_blockSequence_noG hF.toGround (fun _ => hF.free) hz hw hd')) rfl) ?_
  rw [if_neg (by decide)]
  refine Ex.bind (a := .invalid) ?_ Ex.pure
  unfold parseBlockMapping
  refine Ex.bind Ex.hasErrors ?_
  simp only [Bool.false_eq_true, if_false, hz]
  exact Ex.bind (ex_indent_lower_short hF hw hN) Ex.pure

/-- Where the separation leads to something else there is no collection. -/
theorem ex_collRest_sep {z : Int} (hF : Flat W) (hj : JsonRun W c.json) (hz : z + 1 = (N : Int))
    (hx : (ctx = .blockIn ∧ m = N) ∨ (ctx = .blockOut ∧ m + 1 = N)) (hs : Sep W N p q)
    (h : Stub W q r) (h1 : lo ≤ p) (h2 : r < hi) (h3 : u + 18 ≤ 64) : ∃ s,
    Ex W p (lv lo u hi) (collRest f c ctx (x, ⟨(N : Int), .strict⟩) : M σ (Node × Ind)) s (lv lo (u + 18) hi) (.invalid, ⟨z, .strict⟩) := by
  cases hs with
  | mid hp hw hs hb =>
    exact ⟨_, (ex_collRest_mid hF hz hw hs hb).weaken (lv_mono (Nat.le_refl _) (by omega) (Nat.le_refl _) (by omega))⟩
  | lines hp he hl hN =>
    have := he.lt
    exact ex_collRest_line hF hj hz hx (fun _ => ex_comments_eol hF hp he) hl.sp hN h (by omega) h2 h3
  | start hp hs hg hl hN =>
    have := hg.le
    exact ex_collRest_line hF hj hz hx (fun _ => ex_comments_gap hF hp hs hg) hl.sp hN h (by omega) h2 h3

/-! ### Nodes which are no collections -/

theorem ex_blockInBlock (ho : isOpen (W p) = false) (hs : Ex W p k (parseBlockScalar f ind ctx : M σ (Node × Ind)) q k (.invalid, ind))
    (hc : Ex W p k (parseBlockCollection f c ind ctx : M σ (Node × Ind)) r l (e, ind)) (hv : e = .invalid ∨ validNode e = true) :
    Ex W p k (parseBlockInBlock f c ind ctx : M σ (Node × Ind)) r l (e, ind) := by
  unfold parseBlockInBlock
  refine Ex.bind Ex.hasErrors ?_
  simp only [Bool.false_eq_true, if_false]
  refine Ex.bind (Ex.attemptN hs (.inr ho) rfl) ?_
  rw [if_neg (by simp [okNode, validNode, Node.invalid])]
  refine Ex.bind hc ?_
  rcases hv with rfl | hv
  · exact Ex.pure
  · rw [if_pos (show okNode (e, ind) = true from hv)]
    exact Ex.pure

theorem ex_blockNode (hv : validNode e = true)
    (h : Ex W p k (parseBlockInBlock f c ind ctx : M σ (Node × Ind)) q l (e, ind')) :
    Ex W p k (parseBlockNode f c ind ctx : M σ (Node × Ind)) q l (e, ind') := by
  unfold parseBlockNode
  refine Ex.bind Ex.hasErrors ?_
  simp only [Bool.false_eq_true, if_false]
  refine Ex.bind (Ex.attemptT h hv) ?_
  rw [if_pos (show okNode (e, _) = true from hv)]
  exact Ex.pure

theorem ex_blockNode_flow {l' : Nat → Nat} (ho : isOpen (W p) = false) (h : Ex W p k (parseBlockInBlock f c ind ctx : M σ (Node × Ind)) r l (.invalid, ind))
    (hf : Ex W p l (parseFlowInBlock f c.json ind : M σ Node) q l' e) (hv : e = .invalid ∨ validNode e = true) :
    Ex W p k (parseBlockNode f c ind ctx : M σ (Node × Ind)) q l' (e, ind) := by
  unfold parseBlockNode
  refine Ex.bind Ex.hasErrors ?_
  simp only [Bool.false_eq_true, if_false]
  refine Ex.bind (Ex.attemptN h (.inr ho) rfl) ?_
  rw [if_neg (by simp [okNode, validNode, Node.invalid])]
  refine Ex.bind hf ?_
  rcases hv with rfl | hv
  · exact Ex.pure
  · rw [if_pos hv]
    exact Ex.pure

theorem ex_flowInBlock {z : Int} {json : Content σ} (hz : z + 1 = (N : Int)) (hl : Look σ W N p true r)
    (hn : Ex W r k (parseFlowNode f json ⟨(N : Int), .strict⟩ .flowOut : M σ (Node × Ind)) p' l (e, ⟨(N : Int), .strict⟩))
    (hv : validNode e = true) (hcm : ∀ k, Ex W p' k (parseComments f : M σ Bool) q k true) :
    Ex W p k (parseFlowInBlock f json ⟨z, .strict⟩ : M σ Node) q l e := by
  unfold parseFlowInBlock
  refine Ex.bind Ex.hasErrors ?_
  simp only [Bool.false_eq_true, if_false, hz]
  refine Ex.bind (hl _ _ _ (.inr (.inr rfl))) ?_
  simp only [Bool.not_true, Bool.false_eq_true, if_false]
  refine Ex.bind hn ?_
  rw [if_neg (by simp [okNode, hv])]
  exact Ex.bind (hcm _) Ex.pure

theorem ex_flowInBlock_no {z : Int} {json : Content σ} {b : Bool} (hF : Flat W) (hj : JsonRun W json) (hz : z + 1 = (N : Int))
    (hl : Look σ W N p b r) (hm : Mute (W r)) (h1 : lo ≤ r) (h2 : r < hi) (h3 : u < 64) :
    Ex W p (lv lo u hi) (parseFlowInBlock f json ⟨z, .strict⟩ : M σ Node) r (lv lo (u + 1) hi) .invalid := by
  unfold parseFlowInBlock
  refine Ex.bind Ex.hasErrors ?_
  simp only [Bool.false_eq_true, if_false, hz]
  refine Ex.bind (hl _ _ _ (.inr (.inr rfl))) ?_
  cases b with
  | false => exact Ex.pure.weaken (lv_mono (Nat.le_refl _) (by omega) (Nat.le_refl _) (by omega))
  | true =>
    simp only [Bool.not_true, Bool.false_eq_true, if_false]
    exact Ex.bind (ex_flowNode_mute hF hj hm h1 h2 h3) Ex.pure

/-- A scalar, a collection in brackets or an alias, after a separation, possibly with properties, and the end of the line. -/
inductive Leaf (W : Toks) (N : Nat) : Nat → Node → Nat → Prop
  | atom {p r s q : Nat} {e : Node} : Sep W N p r → Core W N r e s → Eol W s q → Leaf W N p e q
  | props {p r r1 r2 s q : Nat} {x e : Node} : Sep W N p r → Props W .invalid r x r1 → Sep W N r1 r2 → Whole W N r2 e s → Eol W s q →
      Leaf W N p (.content x e) q
  | lit {p r q m : Nat} {t : List Char} : Sep W N p r → N ≤ m → 1 ≤ m → Lit W N m r t q → Leaf W N p (.text t .unknown) q
  | propsLit {p r r1 r2 q m : Nat} {x : Node} {t : List Char} : Sep W N p r → Props W .invalid r x r1 → Sep W N r1 r2 → N ≤ m → 1 ≤ m →
      Lit W N m r2 t q → Leaf W N p (.content x (.text t .unknown)) q

theorem Leaf.valid (h : Leaf W N p e q) : validNode e = true := by
  cases h with
  | atom _ h => exact h.valid
  | _ => rfl

theorem Leaf.lt (h : Leaf W N p e q) : p < q := by
  cases h with
  | atom h1 h2 h3 => have := h1.le; have := h2.lt; have := h3.lt; omega
  | props h1 h2 h3 h4 h5 => have := h1.le; have := h2.lt; have := h3.le; have := h4.lt; have := h5.lt; omega
  | lit h1 _ _ h2 => have := h1.le; have := h2.lt; omega
  | propsLit h1 h2 h3 _ _ h4 => have := h1.le; have := h2.lt; have := h3.le; have := h4.lt; omega

/-- A literal or folded scalar without properties. -/
theorem ex_blockScalar {z : Int} {m : Nat} (hF : Flat W) (hz : z + 1 = (N : Int)) (hx : ctx = .blockIn ∨ ctx = .blockOut) (hl : Look σ W N p true r)
    (hN : N ≤ m) (hm : 1 ≤ m) (h : Lit W N m r t q) :
    Ex W p k (parseBlockScalar f ⟨z, .strict⟩ ctx : M σ (Node × Ind)) q k (.text t .unknown, ⟨z, .strict⟩) := by
  unfold parseBlockScalar
  refine Ex.bind Ex.hasErrors ?_
  simp only [Bool.false_eq_true, if_false, inc_of hz]
  refine Ex.bind (hl _ _ _ (by rcases hx with h | h <;> simp [h])) ?_
  simp only [Bool.not_true, Bool.false_eq_true, if_false]
  refine Ex.bind (Ex.attemptF (q := r) (l := k) (a := (.invalid, false, ⟨(N : Int), .strict⟩))
    (Ex.bind (ex_properties_no _ _ (by rcases h.type with h | h <;> simp [h]) (by rcases h.type with h | h <;> simp [h])) ?_) rfl) ?_
  · exact Ex.pure
  · refine Ex.bind Ex.tok ?_
    cases h with
    | bar h =>
      simp only [dec_of hz, h.type]
      exact Ex.bind (ex_literal hF hF.mode hm hz hN h) Ex.pure
    | folded h =>
      simp only [dec_of hz, h.type]
      exact Ex.bind (ex_folded hF hm hz hN h) Ex.pure

/-- A literal or folded scalar with properties. -/
theorem ex_blockScalar_propsLit {z : Int} {m s : Nat} (hF : Flat W) (hz : z + 1 = (N : Int)) (hx : ctx = .blockIn ∨ ctx = .blockOut)
    (hl : Look σ W N p true r) (hp : Props W .invalid r x p') (hl2 : Look σ W N p' true s) (ho : isOpen (W p') = false) (hN : N ≤ m) (hm : 1 ≤ m) (h : Lit W N m s t q) :
    Ex W p k (parseBlockScalar f ⟨z, .strict⟩ ctx : M σ (Node × Ind)) q k (.content x (.text t .unknown), ⟨z, .strict⟩) := by
  have hx' : ctx = .blockIn ∨ ctx = .blockOut ∨ ctx = .flowOut := by rcases hx with h | h <;> simp [h]
  have hx2 : ctx = .blockIn ∨ ctx = .blockOut ∨ ctx = .flowOut ∨ ctx = .blockKey := by rcases hx with h | h <;> simp [h]
  unfold parseBlockScalar
  refine Ex.bind Ex.hasErrors ?_
  simp only [Bool.false_eq_true, if_false, inc_of hz]
  refine Ex.bind (hl _ _ _ hx') ?_
  simp only [Bool.not_true, Bool.false_eq_true, if_false]
  have h1 : Ex W r k (do
      let pr ← parseProperties f ⟨(N : Int), .strict⟩ ctx
      if okNode pr then do
        let s ← parseSeparate f pr.2 ctx
        pure (pr.1, s)
      else pure (pr.1, false, pr.2) : M σ (Node × Bool × Ind)) s k (x, true, ⟨(N : Int), .strict⟩) := by
    refine Ex.bind (ex_properties (b := true) hF hx2 hp (hl2 _ _ _ hx') (fun _ => by rcases h.type with h | h <;> simp [h]) ho) ?_
    rw [if_pos (show okNode (x, _) = true from hp.valid)]
    exact Ex.bind (hl2 _ _ _ hx') Ex.pure
  refine Ex.bind (h1.attemptT rfl) ?_
  refine Ex.bind Ex.tok ?_
  cases h with
  | bar h =>
    simp only [dec_of hz, h.type]
    refine Ex.bind (ex_literal hF hF.mode hm hz hN h) ?_
    rw [if_neg (by simp [validNode]), if_pos trivial, newContent hp.valid]
    exact Ex.pure
  | folded h =>
    simp only [dec_of hz, h.type]
    refine Ex.bind (ex_folded hF hm hz hN h) ?_
    rw [if_neg (by simp [validNode]), if_pos trivial, newContent hp.valid]
    exact Ex.pure

theorem ex_blockInBlock_scalar {ind' : Ind} (hs : Ex W p k (parseBlockScalar f ind ctx : M σ (Node × Ind)) q l (e, ind')) (hv : validNode e = true) :
    Ex W p k (parseBlockInBlock f c ind ctx : M σ (Node × Ind)) q l (e, ind') := by
  unfold parseBlockInBlock
  refine Ex.bind Ex.hasErrors ?_
  simp only [Bool.false_eq_true, if_false]
  refine Ex.bind (Ex.attemptT hs hv) ?_
  rw [if_pos (show okNode (e, ind') = true from hv)]
  exact Ex.pure

/-- What stands on the first line of the tokens. -/
theorem Whole.first (h : Whole W N p e q) (he : Eol W q r) :
    (∃ e' s i, Body W N p e' s ∧ Sp W s i ∧ Mute (W (s + i)) ∧ s + i < r) ∨ ∃ d s, Cut W d p s ∧ s < r := by
  obtain ⟨i, hi⟩ := he.sp
  obtain ⟨hm, hlt⟩ := he.mute hi
  cases h with
  | body h => exact .inl ⟨_, _, i, h, hi, hm, hlt⟩
  | scroll h =>
    rcases h.cases' with h | ⟨s, h, hs⟩
    · exact .inl ⟨_, _, i, .scal (.quoted h), hi, hm, hlt⟩
    · exact .inr ⟨_, s, h, by omega⟩
  | lines h h2 =>
    cases h2 with
    | stop => exact .inl ⟨_, _, i, .loose h, hi, hm, hlt⟩
    | line h3 h4 h5 _ _ _ _ h6 h7 =>
      have := h5.le
      have := h6.le
      have := h7.le
      exact .inl ⟨_, _, _, .loose h, h3, by simp [Mute, h4], by omega⟩

theorem Core.stub (h : Core W N p e q) (he : Eol W q r) : ∃ s, s < r ∧ Stub W p s := by
  cases h with
  | ref h =>
    obtain ⟨i, hi⟩ := he.sp
    obtain ⟨hm, hlt⟩ := he.mute hi
    exact ⟨_, hlt, .atom (.ref h) hi hm.ne.2.2.2.2.2.2.1⟩
  | body h =>
    rcases h.first he with ⟨e', s, i, h, hi, hm, hlt⟩ | ⟨d, s, h, hs⟩
    case inr => exact ⟨s, hs, .cut h⟩
    cases h with
    | scal h => exact ⟨_, hlt, .atom (.scal h) hi hm.ne.2.2.2.2.2.2.1⟩
    | coll h => exact ⟨_, hlt, .coll h hi hm.ne.2.2.2.2.2.2.1 hm.closed⟩
    | loose h => exact ⟨_, hlt, .loose h hi hm.ne.2.2.2.2.2.2.1⟩

theorem ex_leaf {z : Int} (hF : Flat W) (hj : JsonRun W c.json) (hz : z + 1 = (N : Int))
    (hx : (ctx = .blockIn ∧ m = N) ∨ (ctx = .blockOut ∧ m + 1 = N)) (h : Leaf W N p e q) (ho : isOpen (W p) = false) (hn : NoText W N q)
    (h1 : lo ≤ p) (h2 : q ≤ hi) (h3 : u + 36 ≤ 64) :
    Ex W p (lv lo u hi) (parseBlockNode f c ⟨z, .strict⟩ ctx : M σ (Node × Ind)) q (lv lo (u + 36) hi) (e, ⟨z, .strict⟩) := by
  have hxc : ctx = .blockIn ∨ ctx = .blockOut := by rcases hx with h | h <;> simp [h]
  cases h with
  | @atom _ r s _ hs ha he =>
    have hle := hs.le
    have hlt := ha.lt
    have hlt2 := he.lt
    obtain ⟨t, ht, hst⟩ := ha.stub he
    have hl := hs.look (σ := σ) hF
    obtain ⟨w, hw⟩ := ex_collRest_sep (f := f) (c := c) (x := .invalid) (lo := lo) (hi := hi) (u := u) hF hj hz hx hs hst h1 (by omega) (by omega)
    have hb := ex_blockInBlock ho (ex_blockScalar_no hz hxc hl ha.dull) (ex_collection hz hxc hl ho ha.dull hw) (.inl rfl)
    refine ex_blockNode_flow ho hb (ex_flowInBlock hz hl (l := lv lo (u + 36) hi) ((ex_flowNode_atom hF hj ha he hn (by omega) (by omega) (by omega)).weaken
      (lv_mono (Nat.le_refl _) (by omega) (Nat.le_refl _) (by omega))) ha.valid (fun _ => ex_comments_eol hF (by have := hs.pos; omega) he)) (.inr ha.valid)
  | @props _ r r1 r2 s x e hs hp hs2 ha he =>
    have hle := hs.le
    have hlt := hp.lt
    have hle2 := hs2.le
    have hlt2 := ha.lt
    have hlt3 := he.lt
    obtain ⟨t, ht, hst⟩ := (Core.body ha).stub he
    have hl := hs.look (σ := σ) hF
    have hl2 := hs2.look (σ := σ) hF
    obtain ⟨w, hw⟩ := ex_collRest_sep (f := f) (c := c) (x := x) (lo := lo) (hi := hi) (u := u) hF hj hz hx hs2 hst (by omega) (by omega) (by omega)
    have ho2 := hs2.closed hp.sol
    have hb := ex_blockInBlock ho (ex_blockScalar_props (b := true) hF hz hxc hl hp hl2 ho2 ha.dull)
      (ex_collection_props (b := true) hF hz hxc hl hp hl2 ho2 ha.dull hw) (.inl rfl)
    exact ex_blockNode_flow ho hb (ex_flowInBlock hz hl (ex_flowNode_props hF hj hp hs2 ha he hn (by omega) (by omega) (by omega)) rfl
      (fun _ => ex_comments_eol hF (by have := hs.pos; omega) he)) (.inr rfl)
  | lit hs hN hm hl =>
    exact (ex_blockNode rfl (ex_blockInBlock_scalar (ex_blockScalar hF hz hxc (hs.look hF) hN hm hl) rfl)).weaken
      (lv_mono (Nat.le_refl _) (by omega) (Nat.le_refl _) (by omega))
  | propsLit hs hp hs2 hN hm hl =>
    exact (ex_blockNode rfl (ex_blockInBlock_scalar (ex_blockScalar_propsLit hF hz hxc (hs.look hF) hp (hs2.look hF) (hs2.closed hp.sol) hN hm hl) rfl)).weaken
      (lv_mono (Nat.le_refl _) (by omega) (Nat.le_refl _) (by omega))

/-- Properties without content, at the end of a line. -/
inductive Bare (W : Toks) (N : Nat) : Nat → Node → Nat → Prop
  | mk {p r r1 i q : Nat} {x : Node} : Sep W N p r → Props W (absent (decide (0 < i))) r x r1 → Sp W r1 i → Eol W r1 q →
      Bare W N p (.content x .null) q

theorem Bare.lt (h : Bare W N p e q) : p < q := by
  cases h with
  | mk h1 h2 h3 h4 => have := h1.le; have := h2.lt; have := h4.lt; omega

theorem ex_bare {z : Int} (ho : isOpen (W p) = false) (hF : Flat W) (hj : JsonRun W c.json) (hz : z + 1 = (N : Int))
    (hx : (ctx = .blockIn ∧ m = N) ∨ (ctx = .blockOut ∧ m + 1 = N)) (h : Bare W N p e q) (hw : Sp W q j) (hN : j < N)
    (hd : ctx = .blockOut → m = j → (W (q + j)).type ≠ .sequenceEntry)
    (h1 : lo ≤ p) (h2 : q ≤ hi) (h3 : u + 4 ≤ 64) :
    Ex W p (lv lo u hi) (parseBlockNode f c ⟨z, .strict⟩ ctx : M σ (Node × Ind)) q (lv lo (u + 4) hi) (e, ⟨z, .strict⟩) := by
  have hxc : ctx = .blockIn ∨ ctx = .blockOut := by rcases hx with h | h <;> simp [h]
  cases h with
  | @mk r r1 i _ x hs hp hsp he =>
    have hle := hs.le
    have hpos := hs.pos
    have hlt := hp.lt
    obtain ⟨hm, hlt2⟩ := he.mute hsp
    have hl := hs.look (σ := σ) hF
    have hl2 := look_short (σ := σ) (N := N) hF (by omega) hp.sol he hw hN hsp
    have hcm : ∀ k, Ex W r1 k (parseComments f : M σ Bool) q k true := fun _ => ex_comments_eol hF (by omega) he
    have hc := ex_collRest_short (f := f) (c := c) (x := x) (k := lv lo u hi) hF hz hx hcm hw hN hd
    have ho2 := he.free.1
    have hb := ex_blockInBlock ho (ex_blockScalar_props hF hz hxc hl hp hl2 ho2 hm.dull)
      (ex_collection_props hF hz hxc hl hp hl2 ho2 hm.dull hc) (.inl rfl)
    exact ex_blockNode_flow ho hb (ex_flowInBlock hz hl (l := lv lo (u + 4) hi) ((ex_flowNode_bare hF hj hp hl2 ho2 hm (by omega) (by omega) (by omega) (by omega)).weaken
      (lv_mono (Nat.le_refl _) (by omega) (Nat.le_refl _) (by omega))) rfl hcm) (.inr rfl)

/-- Nothing at the end of a line. -/
theorem ex_null {z : Int} (hF : Flat W) (hj : JsonRun W c.json) (hz : z + 1 = (N : Int))
    (hx : (ctx = .blockIn ∧ m = N) ∨ (ctx = .blockOut ∧ m + 1 = N)) (hp : 1 ≤ p) (hs : solW W p = false) (he : Eol W p q) (hw : Sp W q j) (hN : j < N)
    (hd : ctx = .blockOut → m = j → (W (q + j)).type ≠ .sequenceEntry)
    (h1 : lo ≤ p) (h2 : q ≤ hi) (h3 : u + 4 ≤ 64) : ∃ r,
    Ex W p (lv lo u hi) (parseBlockNode f c ⟨z, .strict⟩ ctx : M σ (Node × Ind)) r (lv lo (u + 4) hi) (.invalid, ⟨z, .strict⟩) := by
  have hxc : ctx = .blockIn ∨ ctx = .blockOut := by rcases hx with h | h <;> simp [h]
  obtain ⟨i, hsp⟩ := he.sp
  obtain ⟨hm, hlt2⟩ := he.mute hsp
  have hl := look_short (σ := σ) (N := N) hF hp hs he hw hN hsp
  have hcm : ∀ k, Ex W p k (parseComments f : M σ Bool) q k true := fun _ => ex_comments_eol hF hp he
  have hc := ex_collRest_short (f := f) (c := c) (x := .invalid) (k := lv lo u hi) hF hz hx hcm hw hN hd
  have ho := he.free.1
  have hb := ex_blockInBlock ho (ex_blockScalar_no hz hxc hl hm.dull) (ex_collection hz hxc hl ho hm.dull hc) (.inl rfl)
  exact ⟨p + i, ex_blockNode_flow ho hb ((ex_flowInBlock_no hF hj hz hl hm (by omega) (by omega) (by omega)).weaken
    (lv_mono (Nat.le_refl _) (by omega) (Nat.le_refl _) (by omega))) (.inl rfl)⟩

end Verif.Parser
