import Verif.Lemmas.TextElem

/-!
What the productions of flow nodes have read.
-/

set_option linter.unusedSimpArgs false
set_option linter.unusedSectionVars false
set_option linter.unusedVariables false
set_option linter.unnecessarySeqFocus false

namespace Verif.Parser

open Verif.Token Verif.Lexer Verif.Ast Verif.Spec.Says

variable {σ α β : Type} [TokenStream σ] [StreamOk σ] [TextStream σ]

variable {B f : Nat} {S : List Char}

theorem Wr.join {g1 g2 g3 g4 : Txt} {a b c : Buf} (h1 : Wr g1 g2 a b) (h2 : Wr g3 g4 b c) (h : g2 ≤ g3) : Wr g1 g4 a c :=
  h1.trans h2 (List.prefix_refl _) h (List.prefix_refl _)

theorem Wr.add {g1 g2 g3 g4 : Txt} {a b : Buf} {o : List Char} (h1 : Wr g1 g2 a b) (h2 : Btw g3 g4 o) (h : g2 ≤ g3) :
    Wr g1 g4 a (b ++ o) := h1.join (Wr.put b h2 (List.prefix_refl _) (List.prefix_refl _)) h

theorem Pre.of_app {a b : Buf} {o : List Char} (h : Pre (a ++ o) b) : Pre a b := Pre.trans (Pre.app o (Pre.refl a)) h

grind_pattern Pre.of_app => Pre (a ++ o) b
grind_pattern Pre.trans => Pre a b, Pre b c
grind_pattern Wr.join => Wr g1 g2 a b, Wr g3 g4 b c
grind_pattern Wr.add => Wr g1 g2 a b, Btw g3 g4 o, b ++ o

/-! ### Line breaks inside of text -/

/-- What a production with a buffer has written. -/
def Wrote (g g' : Txt) (buf : Buf) (ok : Bool) (b : Buf) : Prop := Pre buf b ∧ (ok = true → Wr g g' buf b)

theorem empties_t {ctx : PCtx} {x : Ind × Buf} :
    TSpec B S (empties f ctx x : M σ (Ind × Buf)) (fun y A A' => Wr A.x A'.x x.2 y.2) := by
  refine tries_t (σ := σ) (fun A A' x y => Wr A.x A'.x x.2 y.2) (fun x => .intro (fun t A hst => ?_)) ?_ x
  · tp
    all_goals grind [Wr.wide, Wr.refl, Pre.take, Wr.pre]
  · grind [Wr.trans]

theorem parseTrimmed_t {ind : Ind} {ctx : PCtx} {buf : Buf} :
    TSpec B S (parseTrimmed f ind ctx buf : M σ (Bool × Ind × Buf)) (fun r A A' => Wrote A.x A'.x buf r.1 r.2.2) := by
  refine .intro (fun t A hst => ?_)
  unfold parseTrimmed
  tp <;> grind [Wrote, Wr.wide, Wr.trans, Pre.take, Wr.pre, Pre.refl]

theorem parseFoldedLineBreak_t {ind : Ind} {ctx : PCtx} {buf : Buf} :
    TSpec B S (parseFoldedLineBreak f ind ctx buf : M σ (Bool × Ind × Buf)) (fun r A A' => Wrote A.x A'.x buf r.1 r.2.2) := by
  refine .intro (fun t A hst => ?_)
  unfold parseFoldedLineBreak
  tp <;> grind [Wrote, Wr.wide, Wr.soft, ink_space, Pre.take, Wr.pre, Pre.refl]

theorem parseFlowFolded_t {ind : Ind} {buf : Buf} :
    TSpec B S (parseFlowFolded f ind buf : M σ (Bool × Ind × Buf)) (fun r A A' => Wrote A.x A'.x buf r.1 r.2.2) := by
  refine .intro (fun t A hst => ?_)
  unfold parseFlowFolded
  tp <;> grind [Wrote, Wr.wide, Pre.take, Wr.pre, Pre.refl]

/-! ### Plain scalars -/

theorem parsePlainFirst_t {ctx : PCtx} {buf : Buf} :
    TSpec B S (parsePlainFirst ctx buf : M σ (Bool × Buf)) (fun r A A' => Wrote A.x A'.x buf r.1 r.2) := by
  refine .intro (fun t A hst => ?_)
  unfold parsePlainFirst
  tp <;> grind [Wrote, Wr.put, Wr.refl, Pre.take, Wr.pre, Pre.refl]

theorem parsePlainInLine_t {ctx : PCtx} {buf : Buf} :
    TSpec B S (parsePlainInLine f ctx buf : M σ (Bool × Buf)) (fun r A A' => Wr A.x A'.x buf r.2) := by
  have hloop : ∀ buf, TSpec B S (loop f (fun buf => do
      setCheckpoint
      let b ← takeWhile f isWhite buf
      let t ← (tok : M σ Tok)
      if !isPlainSafeToken t ctx then do
        let b ← truncate buf.length b
        rollback
        pure (false, b)
      else do
        commit
        next
        pure (true, b ++ t.origin)) buf) (fun b A A' => Wr A.x A'.x buf b) := by
    refine loop_t (σ := σ) (fun A A' x y => Wr A.x A'.x x y) (fun x => .intro (fun t A hst => ?_)) (by grind [Wr.trans])
    tp <;> grind [Wr.wide, Wr.refl, Pre.take, Wr.pre]
  refine .intro (fun t A hst => ?_)
  unfold parsePlainInLine
  tp <;> grind [Wr.refl]

/-- A text of a kind was read. -/
def Texting (g g' : Txt) (q : Quoting) (n : Node) : Prop := ∃ s, n = .text s q ∧ Btw g g' (ink s)

theorem texting {g g' : Txt} {q : Quoting} {b : Buf} (h : Wr g g' [] b) : Texting g g' q (.text b q) := ⟨b, rfl, h.text⟩

theorem Texting.wide {a b c d : Txt} {q : Quoting} {n : Node} (h : Texting b c q n) (h1 : a ≤ b) (h2 : c ≤ d) :
    Texting a d q n := by
  obtain ⟨u, hu, hb⟩ := h
  exact ⟨u, hu, hb.wide h1 h2⟩

theorem Texting.wr {g g' : Txt} {q p : Quoting} {s : List Char} (h : Texting g g' q (.text s p)) : Wr g g' [] ([] ++ s) := by
  obtain ⟨u, hu, hb⟩ := h
  cases hu
  exact .of_text hb

theorem Texting.saying {g g' : Txt} {n : Node} (h : Texting g g' .unknown n) : Saying g g' n := by
  obtain ⟨s, rfl, hb⟩ := h
  exact ⟨_, .plain s, hb⟩

theorem texting_more {a b c d : Txt} {p : Quoting} {s : List Char} {y : Buf} (h : Texting a b .unknown (.text s p))
    (h2 : Wr c d ([] ++ s) y) (l : b ≤ c) : Saying a d (.text y .unknown) := (texting (h.wr.join h2 l)).saying

theorem parsePlainOneLine_t {ctx : PCtx} :
    TSpec B S (parsePlainOneLine f ctx : M σ Node) (fun r A A' => validNode r = true → Texting A.x A'.x .unknown r) := by
  refine .intro (fun t A hst => ?_)
  have := invalid_invalid
  unfold parsePlainOneLine
  tp <;> grind [Wrote, Wr.trans, texting]

theorem parsePlainNextLine_t {ind : Ind} {ctx : PCtx} {buf : Buf} :
    TSpec B S (parsePlainNextLine f ind ctx buf : M σ (Bool × Ind × Buf)) (fun r A A' => Wrote A.x A'.x buf r.1 r.2.2) := by
  refine .intro (fun t A hst => ?_)
  unfold parsePlainNextLine
  tp <;> grind [Wrote, Wr.trans, Pre.take, Wr.pre, Pre.refl]

theorem plainLines_t {ctx : PCtx} {x : Ind × Buf} :
    TSpec B S (plainLines f ctx x : M σ (Ind × Buf)) (fun y A A' => Wr A.x A'.x x.2 y.2) := by
  refine tries_t (σ := σ) (fun A A' x y => Wr A.x A'.x x.2 y.2) (fun x => .intro (fun t A hst => ?_)) ?_ x
  · tp
    all_goals grind [Wrote, Wr.wide, Wr.refl, Pre.take]
  · grind [Wr.trans]

theorem parsePlainMultiLine_t {ind : Ind} {ctx : PCtx} :
    TSpec B S (parsePlainMultiLine f ind ctx : M σ (Node × Ind)) (fun r A A' => okNode r = true → Saying A.x A'.x r.1) := by
  refine .intro (fun t A hst => ?_)
  have := invalid_invalid
  unfold parsePlainMultiLine
  tp
  all_goals first
    | grind [okNode]
    | exact fun _ => texting_more (‹validNode (.text _ _) = true → _› rfl) (by assumption) (List.prefix_refl _)

theorem parsePlain_t {ind : Ind} {ctx : PCtx} :
    TSpec B S (parsePlain f ind ctx : M σ (Node × Ind)) (fun r A A' => okNode r = true → Saying A.x A'.x r.1) := by
  refine .intro (fun t A hst => ?_)
  have := invalid_invalid
  unfold parsePlain
  tp <;> grind [okNode, Texting.saying, Texting.wide, Saying.wide]

/-! ### Quoted scalars -/

theorem parseQuotedOneLine_t {cst : YamlChar.CharSet} {q : Quoting} :
    TSpec B S (parseQuotedOneLine f cst q : M σ Node) (fun r A A' => validNode r = true → Texting A.x A'.x q r) := by
  refine .intro (fun t A hst => ?_)
  have := invalid_invalid
  unfold parseQuotedOneLine
  tp <;> grind [texting, Wr.wide]

/-- The loop of `parseDoubleEscaped`. -/
theorem escaped_t (x : Ind × Buf) : TSpec B S (loop f (fun x => do
        setCheckpoint
        let r ← (parseEmpty f x.1 .flowIn x.2 : M σ (Bool × Ind × Buf))
        if r.1 then do
          commit
          pure (true, r.2)
        else do
          let b ← truncate x.2.length r.2.2
          pure (false, r.2.1, b)) x) (fun y A A' => Wr A.x A'.x x.2 y.2) := by
  refine loop_t (σ := σ) (fun A A' x y => Wr A.x A'.x x.2 y.2) (fun x => .intro (fun t A hst => ?_)) (by grind [Wr.trans]) x
  iterate 4 tp1
  tp1
  · tp <;> grind [Wr.wide]
  · tp1
    tp1
    have := TSt.leak (A0 := A) (by assumption) (by assumption)
    tp <;> grind [Wr.refl, Pre.take, Wr.pre]

theorem parseDoubleEscaped_t {ind : Ind} {buf : Buf} :
    TSpec B S (parseDoubleEscaped f ind buf : M σ (Bool × Ind × Buf)) (fun r A A' => Wrote A.x A'.x buf r.1 r.2.2) := by
  refine .intro (fun t A hst => ?_)
  have := escaped_t (σ := σ) (B := B) (S := S) (f := f)
  unfold parseDoubleEscaped
  tp <;> grind [Wrote, Wr.wide, Pre.take, Wr.pre, Pre.refl]

theorem parseDoubleBreak_t {ind : Ind} {buf : Buf} :
    TSpec B S (parseDoubleBreak f ind buf : M σ (Bool × Ind × Buf)) (fun r A A' => Wrote A.x A'.x buf r.1 r.2.2) := by
  refine .intro (fun t A hst => ?_)
  unfold parseDoubleBreak
  tp <;> grind [Wrote, Wr.wide, Pre.take, Pre.refl]

theorem parseQuotedNextLine_t {cst : YamlChar.CharSet} {brk : Ind → Buf → M σ (Bool × Ind × Buf)}
    (hb : ∀ ind buf, TSpec B S (brk ind buf) (fun r A A' => Wrote A.x A'.x buf r.1 r.2.2)) :
    ∀ (n : Nat) (ind : Ind) (buf : Buf), TSpec B S (parseQuotedNextLine f cst brk n ind buf)
      (fun r A A' => Wrote A.x A'.x buf r.1 r.2.2) := by
  intro n
  induction n with
  | zero =>
    intro ind buf t A _ _ _ a t' e
    cases e
  | succ n ih =>
    intro ind buf
    refine .intro (fun t A hst => ?_)
    unfold parseQuotedNextLine
    tp <;> grind [Wrote, Wr.wide, Pre.take, Wr.pre, Pre.refl]

theorem parseQuotedMultiLine_t {cst : YamlChar.CharSet} {brk : Ind → Buf → M σ (Bool × Ind × Buf)} {q : Quoting}
    (hb : ∀ ind buf, TSpec B S (brk ind buf) (fun r A A' => Wrote A.x A'.x buf r.1 r.2.2)) {ind : Ind} :
    TSpec B S (parseQuotedMultiLine f cst brk q ind) (fun r A A' => okNode r = true → Texting A.x A'.x q r.1) := by
  refine .intro (fun t A hst => ?_)
  have := invalid_invalid
  have := parseQuotedNextLine_t (f := f) (cst := cst) hb
  unfold parseQuotedMultiLine
  tp <;> grind [okNode, Wrote, texting, Wr.trans, Pre.take]

theorem parseQuotedText_t {cst : YamlChar.CharSet} {brk : Ind → Buf → M σ (Bool × Ind × Buf)} {q : Quoting}
    (hb : ∀ ind buf, TSpec B S (brk ind buf) (fun r A A' => Wrote A.x A'.x buf r.1 r.2.2)) {ind : Ind} {ctx : PCtx} :
    TSpec B S (parseQuotedText f cst brk q ind ctx) (fun r A A' => okNode r = true → Texting A.x A'.x q r.1) := by
  refine .intro (fun t A hst => ?_)
  have := invalid_invalid
  unfold parseQuotedText
  tp <;> grind [okNode]

theorem saying_single {g g' a b c d e i : Txt} {n : Node} (h1 : Btw a b ['\'']) (h2 : Texting c d .single n)
    (h3 : Btw e i ['\'']) (l1 : g ≤ a) (l2 : b ≤ c) (l3 : d ≤ e) (l4 : i ≤ g') : Saying g g' n := by
  obtain ⟨s, rfl, hb⟩ := h2
  exact ⟨_, .single s, (h1.app l2 (hb.app l3 h3)).wide l1 l4⟩

theorem saying_double {g g' a b c d e i : Txt} {n : Node} (h1 : Btw a b ['"']) (h2 : Texting c d .double n)
    (h3 : Btw e i ['"']) (l1 : g ≤ a) (l2 : b ≤ c) (l3 : d ≤ e) (l4 : i ≤ g') : Saying g g' n := by
  obtain ⟨s, rfl, hb⟩ := h2
  exact ⟨_, .double s, (h1.app l2 (hb.app l3 h3)).wide l1 l4⟩

theorem parseDoubleQuoted_t {ind : Ind} {ctx : PCtx} :
    TSpec B S (parseDoubleQuoted f ind ctx : M σ (Node × Ind)) (fun r A A' => okNode r = true → Saying A.x A'.x r.1) := by
  refine .intro (fun t A hst => ?_)
  have := invalid_invalid
  have hb : ∀ ind buf, TSpec B S (parseDoubleBreak f ind buf : M σ (Bool × Ind × Buf))
    (fun r A A' => Wrote A.x A'.x buf r.1 r.2.2) := fun _ _ => parseDoubleBreak_t
  unfold parseDoubleQuoted parseQuoted
  tp <;> grind [okNode, saying_double, Orig.doubleQuote]

theorem parseSingleQuoted_t {ind : Ind} {ctx : PCtx} :
    TSpec B S (parseSingleQuoted f ind ctx : M σ (Node × Ind)) (fun r A A' => okNode r = true → Saying A.x A'.x r.1) := by
  refine .intro (fun t A hst => ?_)
  have := invalid_invalid
  have hb : ∀ ind buf, TSpec B S (parseFlowFolded f ind buf : M σ (Bool × Ind × Buf))
    (fun r A A' => Wrote A.x A'.x buf r.1 r.2.2) := fun _ _ => parseFlowFolded_t
  unfold parseSingleQuoted parseQuoted
  tp <;> grind [okNode, saying_single, Orig.singleQuote]

/-! ### Flow nodes -/

theorem optSeparate_t {ind : Ind} {ctx : PCtx} : TSpec B S (optSeparate f ind ctx : M σ Ind) (fun _ A A' => True) := by
  refine .intro (fun t A hst => ?_)
  unfold optSeparate
  tp <;> grind

/-- The tokens with which JSON content begins. -/
def Opens (ty : TokType) : Prop := ty = .sequenceStart ∨ ty = .mappingStart ∨ ty = .singleQuote ∨ ty = .doubleQuote

/-- Content which says its text. -/
def ContentT (B : Nat) (S : List Char) (c : Content σ) : Prop :=
  ∀ ind ctx, TSpec B S (c ind ctx) (fun r A A' => okNode r = true → Saying A.x A'.x r.1)

/-- The same, with the first token. -/
def JsonT (B : Nat) (S : List Char) (c : Content σ) : Prop :=
  ∀ ind ctx, TSpec B S (c ind ctx) (fun r A A' => okNode r = true → Saying A.x A'.x r.1 ∧ Opens A.cur.type)

theorem JsonT.content {c : Content σ} (h : JsonT B S c) : ContentT B S c :=
  fun ind ctx => (h ind ctx).mono (fun _ _ _ _ hp hv => (hp hv).1)

theorem saying_content {g g' a b c d : Txt} {p n : Node} (hp : validNode p = true → Saying a b p) (h2 : Saying c d n) (l1 : g ≤ a)
    (l2 : b ≤ c) (l0 : a ≤ b) (l3 : d ≤ g') : Saying g g' (newContentNode p n) := by
  obtain ⟨v, hv, hd⟩ := h2
  unfold newContentNode
  split
  · rename_i h
    obtain ⟨u, hu, hb⟩ := hp h
    exact ⟨_, .content _ _ _ _ hu hv, (hb.app l2 hd).wide l1 l3⟩
  · exact ⟨_, hv, hd.wide ((l1.trans l0).trans l2) l3⟩

theorem saying_bare {g g' c d : Txt} {p n : Node} (hp : validNode p = false) (h2 : Saying c d n) (l1 : g ≤ c) (l3 : d ≤ g') :
    Saying g g' (newContentNode p n) :=
  saying_content (a := c) (b := c) (fun h => by rw [hp] at h; cases h) h2 l1 (List.prefix_refl _) (List.prefix_refl _) l3

theorem saying_props {g g' a b : Txt} {p : Node} (hv : validNode p = true) (hp : Saying a b p) (l1 : g ≤ a) (l2 : b ≤ g') :
    Saying g g' (newContentNode p .null) := by
  obtain ⟨u, hu, hb⟩ := hp
  unfold newContentNode
  rw [if_pos hv]
  refine ⟨_, .content _ _ _ _ hu .null, ?_⟩
  rw [List.append_nil]
  exact hb.wide l1 l2

theorem saying_null {g g' : Txt} (h : g ≤ g') : Saying g g' .null := ⟨_, .null, .nil h⟩

theorem parseGenericFlowNode_t {c : Content σ} (hc : ContentT B S c) {ind : Ind} {ctx : PCtx} :
    TSpec B S (parseGenericFlowNode f ind ctx c) (fun r A A' => okNode r = true → Saying A.x A'.x r.1) := by
  refine .intro (fun t A hst => ?_)
  have := invalid_invalid
  unfold ContentT at hc
  unfold parseGenericFlowNode
  tp <;> grind [okNode, Saying.wide, saying_content, saying_props]

theorem parseFlowContent_t {json : Content σ} (hj : ContentT B S json) : ContentT B S (parseFlowContent f json) := by
  intro ind ctx
  refine .intro (fun t A hst => ?_)
  have := invalid_invalid
  unfold ContentT at hj
  unfold parseFlowContent
  tp <;> grind [okNode, Saying.wide]

theorem parseFlowNode_t {json : Content σ} (hj : ContentT B S json) {ind : Ind} {ctx : PCtx} :
    TSpec B S (parseFlowNode f json ind ctx) (fun r A A' => okNode r = true → Saying A.x A'.x r.1) :=
  parseGenericFlowNode_t (parseFlowContent_t hj)

theorem parseFlowYAMLNode_t {ind : Ind} {ctx : PCtx} :
    TSpec B S (parseFlowYAMLNode f ind ctx : M σ (Node × Ind)) (fun r A A' => okNode r = true → Saying A.x A'.x r.1) :=
  parseGenericFlowNode_t (fun _ _ => parsePlain_t)

theorem TSt.cur {A0 A : Abs} {t : P σ} (h : TSt B S A0 t A) : t.tok = A.cur := h.st.r.tok

theorem TSt.back {A0 A1 A : Abs} {t t1 : P σ} (h1 : TSt B S A1 t1 A1) (h : TSt B S A0 t A) (hp : A.pos = A1.pos)
    (hl : ∃ E, A.log = A1.log ++ E) : A.cur = A1.cur := by
  obtain ⟨E, hE⟩ := hl
  have := h1.st.r.pos1
  have := h1.st.r.posle
  unfold Abs.cur curAt sq
  rw [hp, hE]
  rw [List.getD_eq_getElem?_getD, List.getD_eq_getElem?_getD, List.getElem?_append_left (by omega)]

theorem parseFlowJSONNode_t {json : Content σ} (hj : JsonT B S json) {ind : Ind} {ctx : PCtx} :
    TSpec B S (parseFlowJSONNode f json ind ctx) (fun r A A' => okNode r = true → Saying A.x A'.x r.1) := by
  refine .intro (fun t A hst => ?_)
  have := invalid_invalid
  unfold JsonT at hj
  unfold parseFlowJSONNode
  tp <;> grind [okNode, Opens, Saying.wide, saying_content, saying_bare, TSt.cur, TSt.back]

/-! ### Mappings -/

theorem parseImplicitYAMLKey_t {ctx : PCtx} :
    TSpec B S (parseImplicitYAMLKey f ctx : M σ Node) (fun r A A' => validNode r = true → Saying A.x A'.x r) := by
  refine .intro (fun t A hst => ?_)
  have := invalid_invalid
  unfold parseImplicitYAMLKey
  tp <;> grind [okNode, Saying.wide]

theorem parseImplicitJSONKey_t {json : Content σ} (hj : JsonT B S json) {ctx : PCtx} :
    TSpec B S (parseImplicitJSONKey f json ctx) (fun r A A' => validNode r = true → Saying A.x A'.x r) := by
  refine .intro (fun t A hst => ?_)
  have := invalid_invalid
  unfold parseImplicitJSONKey
  tp <;> grind [okNode, Saying.wide]

/-- A colon and a value. -/
def Valued (g g' : Txt) (n : Node) : Prop := ∃ u, Says n u ∧ Btw g g' (':' :: u)

theorem valued {g g' a b c d : Txt} {n : Node} (h1 : Btw a b [':']) (h2 : Saying c d n) (l1 : g ≤ a) (l2 : b ≤ c) (l3 : d ≤ g') :
    Valued g g' n := by
  obtain ⟨u, hu, hb⟩ := h2
  exact ⟨u, hu, (h1.app l2 hb).wide l1 l3⟩

theorem valued_null {g g' a b : Txt} (h1 : Btw a b [':']) (l1 : g ≤ a) (l2 : b ≤ g') : Valued g g' .null :=
  ⟨_, .null, h1.wide l1 l2⟩

theorem Valued.wide {a b c d : Txt} {n : Node} (h : Valued b c n) (h1 : a ≤ b) (h2 : c ≤ d) : Valued a d n := by
  obtain ⟨u, hu, hb⟩ := h
  exact ⟨u, hu, hb.wide h1 h2⟩

theorem saying_entry {g g' a b c d : Txt} {k v : Node} (h1 : Saying a b k) (h2 : Valued c d v) (l1 : g ≤ a) (l2 : b ≤ c)
    (l3 : d ≤ g') : Saying g g' (.mappingEntry k v) := by
  obtain ⟨u, hu, hb⟩ := h1
  obtain ⟨w, hw, hd⟩ := h2
  exact ⟨_, .entry _ _ _ _ hu hw, (hb.app l2 hd).wide l1 l3⟩

theorem saying_noKey {g g' : Txt} {v : Node} (h2 : Valued g g' v) : Saying g g' (.mappingEntry .null v) := by
  obtain ⟨w, hw, hd⟩ := h2
  exact ⟨_, .entry _ _ _ _ .null hw, hd⟩

theorem saying_key {g g' a b : Txt} {k : Node} (h1 : Saying a b k) (l1 : g ≤ a) (l2 : b ≤ g') : Saying g g' (.mappingEntry k .null) := by
  obtain ⟨u, hu, hb⟩ := h1
  exact ⟨_, .key _ _ hu, hb.wide l1 l2⟩

theorem saying_void {g g' : Txt} (h : g ≤ g') : Saying g g' (.mappingEntry .null .null) := ⟨_, .key _ _ .null, .nil h⟩

section Flow

variable {json : Content σ} (hj : JsonT B S json) {ind : Ind} {ctx : PCtx}

include hj

theorem parseFlowMappingSeparateValue_t :
    TSpec B S (parseFlowMappingSeparateValue f json ind ctx) (fun r A A' => okNode r = true → Valued A.x A'.x r.1) := by
  refine .intro (fun t A hst => ?_)
  have := invalid_invalid
  have := hj.content
  unfold parseFlowMappingSeparateValue
  tp <;> grind [okNode, valued, valued_null, Orig.mappingValue]

theorem parseFlowMappingAdjacentValue_t :
    TSpec B S (parseFlowMappingAdjacentValue f json ind ctx) (fun r A A' => okNode r = true → Valued A.x A'.x r.1) := by
  refine .intro (fun t A hst => ?_)
  have := invalid_invalid
  have := hj.content
  unfold parseFlowMappingAdjacentValue
  tp <;> grind [okNode, valued, valued_null, Orig.mappingValue]

theorem parseFlowMappingEmptyKeyEntry_t :
    TSpec B S (parseFlowMappingEmptyKeyEntry f json ind ctx) (fun r A A' => okNode r = true → Saying A.x A'.x r.1) := by
  refine .intro (fun t A hst => ?_)
  have := invalid_invalid
  unfold parseFlowMappingEmptyKeyEntry
  tp <;> grind [okNode, saying_noKey]

theorem parseFlowMappingYAMLKeyEntry_t :
    TSpec B S (parseFlowMappingYAMLKeyEntry f json ind ctx) (fun r A A' => okNode r = true → Saying A.x A'.x r.1) := by
  refine .intro (fun t A hst => ?_)
  have := invalid_invalid
  unfold parseFlowMappingYAMLKeyEntry
  tp <;> grind [okNode, saying_entry, saying_key]

theorem parseFlowMappingJSONKeyEntry_t :
    TSpec B S (parseFlowMappingJSONKeyEntry f json ind ctx) (fun r A A' => okNode r = true → Saying A.x A'.x r.1) := by
  refine .intro (fun t A hst => ?_)
  have := invalid_invalid
  unfold parseFlowMappingJSONKeyEntry
  tp <;> grind [okNode, saying_entry, saying_key]

theorem parseFlowMappingImplicitEntry_t :
    TSpec B S (parseFlowMappingImplicitEntry f json ind ctx) (fun r A A' => okNode r = true → Saying A.x A'.x r.1) := by
  refine .intro (fun t A hst => ?_)
  have := invalid_invalid
  unfold parseFlowMappingImplicitEntry
  tp <;> grind [okNode, Saying.wide]

theorem parseFlowMappingExplicitEntry_t :
    TSpec B S (parseFlowMappingExplicitEntry f json ind ctx) (fun r A A' => okNode r = true → Saying A.x A'.x r.1) := by
  refine .intro (fun t A hst => ?_)
  have := invalid_invalid
  unfold parseFlowMappingExplicitEntry
  tp <;> grind [okNode, Saying.wide, saying_void]

theorem parseFlowMappingEntry_t :
    TSpec B S (parseFlowMappingEntry f json ind ctx) (fun r A A' => okNode r = true → Saying A.x A'.x r.1) := by
  refine .intro (fun t A hst => ?_)
  have := invalid_invalid
  unfold parseFlowMappingEntry
  tp <;> grind [okNode, Saying.wide]

omit hj

/-- Elements with commas between them were read. -/
def Rowing (g g' : Txt) (es : List Node) : Prop := ∃ u, Row es u ∧ Btw g g' u

theorem Rowing.wide {a b c d : Txt} {n : List Node} (h : Rowing b c n) (h1 : a ≤ b) (h2 : c ≤ d) : Rowing a d n := by
  obtain ⟨u, hu, hb⟩ := h
  exact ⟨u, hu, hb.wide h1 h2⟩

theorem rowing_one {g g' : Txt} {n : Node} (h : Saying g g' n) : Rowing g g' [n] := by
  obtain ⟨u, hu, hb⟩ := h
  exact ⟨u, .one _ _ hu, hb⟩

theorem rowing_more {g g' a b c d e : Txt} {es : List Node} {n : Node} (h1 : Rowing g a es) (h2 : Btw b c [',']) (h3 : Saying d e n)
    (l1 : a ≤ b) (l2 : c ≤ d) (l3 : e ≤ g') : Rowing g g' (es ++ [n]) := by
  obtain ⟨u, hu, hb⟩ := h1
  obtain ⟨w, hw, hd⟩ := h3
  exact ⟨_, .more _ _ _ _ hu hw, (hb.app l1 (h2.app l2 hd)).wide (List.prefix_refl _) l3⟩

theorem saying_row {g g' a b c d e i : Txt} {es : List Node} (h1 : Btw a b ['[']) (h2 : Rowing c d es) (h3 : Btw e i [']'])
    (l1 : g ≤ a) (l2 : b ≤ c) (l3 : d ≤ e) (l4 : i ≤ g') : Saying g g' (.sequence es) := by
  obtain ⟨u, hu, hb⟩ := h2
  exact ⟨_, .row _ _ hu, (h1.app l2 (hb.app l3 h3)).wide l1 l4⟩

theorem saying_pairs {g g' a b c d e i : Txt} {es : List Node} (h1 : Btw a b ['{']) (h2 : Rowing c d es) (h3 : Btw e i ['}'])
    (l1 : g ≤ a) (l2 : b ≤ c) (l3 : d ≤ e) (l4 : i ≤ g') : Saying g g' (.mapping es) := by
  obtain ⟨u, hu, hb⟩ := h2
  exact ⟨_, .pairs _ _ hu, (h1.app l2 (hb.app l3 h3)).wide l1 l4⟩

theorem saying_noItems {g g' a b e i : Txt} (h1 : Btw a b ['[']) (h3 : Btw e i [']']) (l1 : g ≤ a) (l2 : b ≤ e)
    (l4 : i ≤ g') : Saying g g' (.sequence []) := ⟨_, .noItems, (h1.app l2 h3).wide l1 l4⟩

theorem saying_noEntries {g g' a b e i : Txt} (h1 : Btw a b ['{']) (h3 : Btw e i ['}']) (l1 : g ≤ a) (l2 : b ≤ e)
    (l4 : i ≤ g') : Saying g g' (.mapping []) := ⟨_, .noEntries, (h1.app l2 h3).wide l1 l4⟩

include hj

theorem flowMappingEntries_t {x : List Node × Ind} :
    TSpec B S (flowMappingEntries f json ctx x) (fun y A A' => ∀ g, Rowing g A.x x.1 → Rowing g A'.x y.1) := by
  refine loop_t (σ := σ) (fun A A' x y => ∀ g, Rowing g A.x x.1 → Rowing g A'.x y.1) (fun x => .intro (fun t A hst => ?_))
    (by grind) x
  tp <;> grind [okNode, Rowing.wide, rowing_more, Orig.collectEntry]

theorem parseFlowMappingEntries_t :
    TSpec B S (parseFlowMappingEntries f json ind ctx)
      (fun r A A' => okNode r = true → ∃ es, r.1 = .mapping es ∧ Rowing A.x A'.x es) := by
  refine .intro (fun t A hst => ?_)
  have := invalid_invalid
  unfold parseFlowMappingEntries
  tp <;> grind [okNode, rowing_one]

theorem parseFlowMapping_t :
    TSpec B S (parseFlowMapping f json ind ctx) (fun r A A' => okNode r = true → Saying A.x A'.x r.1) := by
  refine .intro (fun t A hst => ?_)
  have := invalid_invalid
  unfold parseFlowMapping
  tp <;> grind [okNode, saying_pairs, saying_noEntries, Orig.mappingStart, Orig.mappingEnd]

/-! ### Sequences -/

theorem parseFlowPairJSONKeyEntry_t :
    TSpec B S (parseFlowPairJSONKeyEntry f json ind ctx) (fun r A A' => okNode r = true → Saying A.x A'.x r.1) := by
  refine .intro (fun t A hst => ?_)
  have := invalid_invalid
  unfold parseFlowPairJSONKeyEntry
  tp <;> grind [okNode, saying_entry]

theorem parseFlowPairYAMLKeyEntry_t :
    TSpec B S (parseFlowPairYAMLKeyEntry f json ind ctx) (fun r A A' => okNode r = true → Saying A.x A'.x r.1) := by
  refine .intro (fun t A hst => ?_)
  have := invalid_invalid
  unfold parseFlowPairYAMLKeyEntry
  tp <;> grind [okNode, saying_entry]

theorem parseFlowPairEntry_t :
    TSpec B S (parseFlowPairEntry f json ind ctx) (fun r A A' => okNode r = true → Saying A.x A'.x r.1) := by
  refine .intro (fun t A hst => ?_)
  have := invalid_invalid
  unfold parseFlowPairEntry
  tp <;> grind [okNode, Saying.wide]

theorem parseFlowPair_t :
    TSpec B S (parseFlowPair f json ind ctx) (fun r A A' => okNode r = true → Saying A.x A'.x r.1) := by
  refine .intro (fun t A hst => ?_)
  have := invalid_invalid
  unfold parseFlowPair
  tp <;> grind [okNode, Saying.wide]

theorem parseFlowSequenceEntry_t :
    TSpec B S (parseFlowSequenceEntry f json ind ctx) (fun r A A' => okNode r = true → Saying A.x A'.x r.1) := by
  refine .intro (fun t A hst => ?_)
  have := invalid_invalid
  have := hj.content
  unfold parseFlowSequenceEntry
  tp <;> grind [okNode, Saying.wide]

theorem flowSequenceEntries_t {x : List Node × Ind} :
    TSpec B S (flowSequenceEntries f json ctx x) (fun y A A' => ∀ g, Rowing g A.x x.1 → Rowing g A'.x y.1) := by
  refine loop_t (σ := σ) (fun A A' x y => ∀ g, Rowing g A.x x.1 → Rowing g A'.x y.1) (fun x => .intro (fun t A hst => ?_))
    (by grind) x
  tp <;> grind [okNode, Rowing.wide, rowing_more, Orig.collectEntry]

theorem parseFlowSequenceEntries_t :
    TSpec B S (parseFlowSequenceEntries f json ind ctx)
      (fun r A A' => okNode r = true → ∃ es, r.1 = .sequence es ∧ Rowing A.x A'.x es) := by
  refine .intro (fun t A hst => ?_)
  have := invalid_invalid
  unfold parseFlowSequenceEntries
  tp <;> grind [okNode, rowing_one]

theorem parseInFlow_t :
    TSpec B S (parseInFlow f json ind ctx)
      (fun r A A' => okNode r = true → ∃ es, r.1 = .sequence es ∧ Rowing A.x A'.x es) := by
  refine .intro (fun t A hst => ?_)
  have := invalid_invalid
  unfold parseInFlow
  tp <;> grind [okNode]

theorem parseFlowSequence_t :
    TSpec B S (parseFlowSequence f json ind ctx) (fun r A A' => okNode r = true → Saying A.x A'.x r.1) := by
  refine .intro (fun t A hst => ?_)
  have := invalid_invalid
  unfold parseFlowSequence
  tp <;> grind [okNode, saying_row, saying_noItems, Orig.sequenceStart, Orig.sequenceEnd]

theorem parseFlowJSONContent_t : JsonT B S (parseFlowJSONContent f json) := by
  intro ind ctx
  refine .intro (fun t A hst => ?_)
  have := invalid_invalid
  have := hst.cur
  unfold parseFlowJSONContent
  tp <;> grind [okNode, Opens]

theorem parseFlowInBlock_t :
    TSpec B S (parseFlowInBlock f json ind) (fun r A A' => validNode r = true → Saying A.x A'.x r) := by
  refine .intro (fun t A hst => ?_)
  have := invalid_invalid
  have := hj.content
  unfold parseFlowInBlock
  tp <;> grind [okNode, Saying.wide]

end Flow

end Verif.Parser
