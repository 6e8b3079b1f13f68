import Verif.Spec.Position

set_option linter.unusedSimpArgs false

namespace Verif.Lexer

open Verif.Token Verif.Spec.Position

/-- What a matching function may do with the current rune `r`. -/
inductive Shape (l : Lexer) : Option Char → Option Tok × Lexer → Prop
  | eof (cx : Ctx) : Shape l none (some ⟨.eof, l.pos, l.pos, []⟩, { l with ctx := cx })
  | single (c : Char) (ty : TokType) (cx : Ctx) (h1 : c ≠ '\r') (h2 : c ≠ '\n')
      (h3 : ty ≠ .eof ∧ ty ≠ .string ∧ ty ≠ .unknown ∧ ty ≠ .lineBreak) :
      Shape l (some c) (some ⟨ty, l.pos, l.pos, [c]⟩, { l with ctx := cx })
  | triple (c : Char) (ty : TokType) (cx : Ctx) (r' : List Char) (h1 : c ≠ '\r') (h2 : c ≠ '\n')
      (h3 : ty ≠ .eof ∧ ty ≠ .string ∧ ty ≠ .unknown ∧ ty ≠ .lineBreak) (hr : l.rest = c :: c :: r') :
      Shape l (some c) (some ⟨ty, l.pos, ⟨l.pos.row, l.pos.col + 2⟩, [c, c, c]⟩,
        { l with ctx := cx, rest := r', pos := ⟨l.pos.row, l.pos.col + 2⟩ })
  | crlf (cx : Ctx) (r' : List Char) (hr : l.rest = '\n' :: r') :
      Shape l (some '\r') (some ⟨.lineBreak, l.pos, ⟨l.pos.row, l.pos.col + 1⟩, ['\r', '\n']⟩,
        { l with ctx := cx, rest := r', pos := ⟨l.pos.row + 1, 0⟩ })
  | cr (cx : Ctx) (hr : l.rest.head? ≠ some '\n') :
      Shape l (some '\r') (some ⟨.lineBreak, l.pos, l.pos, ['\r']⟩,
        { l with ctx := cx, pos := ⟨l.pos.row + 1, 0⟩ })
  | lf (cx : Ctx) :
      Shape l (some '\n') (some ⟨.lineBreak, l.pos, l.pos, ['\n']⟩,
        { l with ctx := cx, pos := ⟨l.pos.row + 1, 0⟩ })
  | plain (c : Char) (cx : Ctx) (h1 : c ≠ '\r') (h2 : c ≠ '\n') :
      Shape l (some c) (none, { l with ctx := cx })

/-- The shape does not depend on the context. -/
theorem Shape.ctx {l : Lexer} {cx : Ctx} {r : Option Char} {o : Option Tok × Lexer}
    (h : Shape { l with ctx := cx } r o) : Shape l r o := by
  generalize hl : ({ l with ctx := cx } : Lexer) = l' at h
  cases h with
  | eof c => subst hl; exact .eof c
  | single c ty c' h1 h2 h3 => subst hl; exact .single c ty c' h1 h2 h3
  | triple c ty c' r' h1 h2 h3 hr => subst hl; exact .triple c ty c' r' h1 h2 h3 hr
  | crlf c r' hr => subst hl; exact .crlf c r' hr
  | cr c hr => subst hl; exact .cr c hr
  | lf c => subst hl; exact .lf c
  | plain c c' h1 h2 => subst hl; exact .plain c c' h1 h2


theorem shape_base (l : Lexer) (r : Option Char) : Shape l r (baseMatching l r) := by
  unfold baseMatching
  split
  · exact .eof l.ctx
  · exact .single _ _ l.ctx (by decide) (by decide) (by decide)
  · simp only [lookahead]
    cases hr : l.rest with
    | nil =>
      simp only [raNext]
      have := Shape.cr (l := l) l.ctx.lineBreakRevertContext (by simp [hr])
      rw [hr] at this
      exact this
    | cons c r' =>
      simp only [raNext]
      by_cases hc : c = '\n'
      · subst hc
        exact .crlf _ r' hr
      · split
        · rename_i heq; simp at heq; exact absurd heq hc
        · have := Shape.cr (l := l) l.ctx.lineBreakRevertContext (by simp [hr, hc])
          rw [← hr]; exact this
  · exact .lf _
  · exact .single _ _ _ (by decide) (by decide) (by decide)
  · exact .single _ _ _ (by decide) (by decide) (by decide)
  · rename_i c h1 h2 h3 h4 h5
    refine .plain _ l.ctx ?_ ?_
    · rintro rfl; exact h2 rfl
    · rintro rfl; exact h3 rfl

theorem shape_single (l : Lexer) (ty : TokType) (c : Char) (h1 : c ≠ '\r') (h2 : c ≠ '\n')
    (h3 : ty ≠ .eof ∧ ty ≠ .string ∧ ty ≠ .unknown ∧ ty ≠ .lineBreak) :
    Shape l (some c) (single l ty c) := .single c ty l.ctx h1 h2 h3

theorem shape_singleSwitch (l : Lexer) (ty : TokType) (c : Char) (cx : CtxType) (h1 : c ≠ '\r') (h2 : c ≠ '\n')
    (h3 : ty ≠ .eof ∧ ty ≠ .string ∧ ty ≠ .unknown ∧ ty ≠ .lineBreak) :
    Shape l (some c) (singleSwitch l ty c cx) := .single c ty _ h1 h2 h3

theorem shape_singleRevert (l : Lexer) (ty : TokType) (c : Char) (h1 : c ≠ '\r') (h2 : c ≠ '\n')
    (h3 : ty ≠ .eof ∧ ty ≠ .string ∧ ty ≠ .unknown ∧ ty ≠ .lineBreak) :
    Shape l (some c) (singleRevert l ty c) := .single c ty _ h1 h2 h3

theorem tripleAhead_rest {c : Char} {l : Lexer} (h : tripleAhead c l = true) : ∃ r', l.rest = c :: c :: r' := by
  unfold tripleAhead at h
  simp only [lookahead] at h
  cases h1 : l.rest with
  | nil => simp [h1, raNext] at h
  | cons a r =>
    cases r with
    | nil => simp [h1, raNext] at h
    | cons b r' =>
      simp [h1, raNext] at h
      obtain ⟨⟨hab, hbc⟩, -⟩ := h
      subst hab; subst hbc
      exact ⟨r', rfl⟩

theorem shape_triple (l : Lexer) (ty : TokType) (c : Char) (h1 : c ≠ '\r') (h2 : c ≠ '\n')
    (h3 : ty ≠ .eof ∧ ty ≠ .string ∧ ty ≠ .unknown ∧ ty ≠ .lineBreak) (h : tripleAhead c l = true) :
    Shape l (some c) (triple l ty c) := by
  obtain ⟨r', hr⟩ := tripleAhead_rest h
  have := Shape.triple (l := l) c ty l.ctx r' h1 h2 h3 hr
  unfold triple
  simp only [hr, List.take_succ_cons, List.take_zero, List.drop_succ_cons, List.drop_zero]
  exact this

theorem shape_block (l : Lexer) (r : Option Char) : Shape l r (blockMatching l r) := by
  unfold blockMatching
  split
  · split
    · exact shape_single _ _ _ (by decide) (by decide) (by decide)
    · split
      · rename_i h
        exact shape_triple _ _ _ (by decide) (by decide) (by decide) (by simp at h; exact h.1)
      · exact shape_base _ _
  all_goals first
    | exact shape_base _ _
    | exact shape_single _ _ _ (by decide) (by decide) (by decide)
    | exact shape_singleSwitch _ _ _ _ (by decide) (by decide) (by decide)
    | (split
       · first
          | exact shape_single _ _ _ (by decide) (by decide) (by decide)
          | exact shape_singleSwitch _ _ _ _ (by decide) (by decide) (by decide)
          | (rename_i h
             exact shape_triple _ _ _ (by decide) (by decide) (by decide) (by simp at h; exact h.1))
       · exact shape_base _ _)

theorem shape_flow (l : Lexer) (r : Option Char) : Shape l r (flowMatching l r) := by
  unfold flowMatching
  split
  all_goals first
    | exact shape_base _ _
    | exact shape_single _ _ _ (by decide) (by decide) (by decide)
    | exact shape_singleSwitch _ _ _ _ (by decide) (by decide) (by decide)
    | exact shape_singleRevert _ _ _ (by decide) (by decide) (by decide)
    | (split
       · first
          | exact shape_single _ _ _ (by decide) (by decide) (by decide)
          | exact shape_singleSwitch _ _ _ _ (by decide) (by decide) (by decide)
       · exact shape_base _ _)

theorem shape_multiline (l : Lexer) (r : Option Char) : Shape l r (multilineBlockStartMatching l r) := by
  unfold multilineBlockStartMatching
  split
  all_goals first
    | exact shape_base _ _
    | exact shape_single _ _ _ (by decide) (by decide) (by decide)
    | (split
       · exact shape_singleSwitch _ _ _ _ (by decide) (by decide) (by decide)
       · exact shape_base _ _)

theorem shape_singleQuote (l : Lexer) (r : Option Char) : Shape l r (singleQuoteMatching l r) := by
  unfold singleQuoteMatching
  split
  · rename_i h
    subst h
    split
    · exact shape_singleRevert _ _ _ (by decide) (by decide) (by decide)
    · exact (shape_base _ _).ctx
  · exact (shape_base _ _).ctx

theorem shape_doubleQuote (l : Lexer) (r : Option Char) : Shape l r (doubleQuoteMatching l r) := by
  unfold doubleQuoteMatching
  split
  · exact (shape_base _ _).ctx
  · split
    · exact .plain _ _ (by decide) (by decide)
    · exact (shape_base _ _).ctx
  · split
    · exact shape_singleRevert _ _ _ (by decide) (by decide) (by decide)
    · exact (shape_base _ _).ctx
  · exact (shape_base _ _).ctx

theorem shape_tag (l : Lexer) (r : Option Char) : Shape l r (tagMatching l r) := by
  unfold tagMatching
  split
  · exact shape_single _ _ _ (by decide) (by decide) (by decide)
  · exact shape_base _ _

theorem shape_match (l : Lexer) (r : Option Char) : Shape l r (matchSpecialToken l r) := by
  unfold matchSpecialToken
  split
  · exact shape_base l r
  · split
    · exact shape_block l r
    · exact shape_flow l r
    · exact shape_base l r
    · exact shape_multiline l r
    · exact shape_singleQuote l r
    · exact shape_doubleQuote l r
    · exact shape_tag l r

/-! ### Positions -/

/-- `a` and `b` do not cut a `CR LF` in two. -/
def NoCut (a b : List Char) : Prop := ¬ (a.getLast? = some '\r' ∧ b.head? = some '\n')

theorem advance_append (p : Pos) (a b : List Char) (h : NoCut a b) :
    advance p (a ++ b) = advance (advance p a) b := by
  fun_induction advance p a with
  | case1 p => rfl
  | case2 p r ih =>
    simp only [List.cons_append, advance]
    cases r with
    | nil => rfl
    | cons x r =>
      apply ih
      simpa [NoCut, List.getLast?_cons_cons] using h
  | case3 p r hr ih =>
    cases r with
    | nil =>
      simp only [List.cons_append, List.nil_append]
      cases b with
      | nil => rfl
      | cons x b =>
        have hx : x ≠ '\n' := by
          intro he; apply h; simp [he]
        rw [advance.eq_3]
        · rfl
        · intro r' heq; exact hx (by simp at heq; exact heq.1)
    | cons x r =>
      have hx : x ≠ '\n' := by
        intro he; exact hr r (by rw [he])
      simp only [List.cons_append]
      rw [advance.eq_3]
      · apply ih
        simpa [NoCut, List.getLast?_cons_cons] using h
      · intro r' heq; exact hx (by simp at heq; exact heq.1)
  | case4 p r ih =>
    simp only [List.cons_append, advance]
    cases r with
    | nil => rfl
    | cons x r =>
      apply ih
      simpa [NoCut, List.getLast?_cons_cons] using h
  | case5 p c r h1 h2 h3 ih =>
    have e : advance p (c :: r ++ b) = advance ⟨p.row, p.col + 1⟩ (r ++ b) := by
      simp only [List.cons_append]
      rw [advance.eq_5]
      · intro r' heq _; exact h2 heq
      · intro heq; exact h2 heq
      · exact h3
    rw [e]
    cases r with
    | nil => rfl
    | cons x r =>
      apply ih
      simpa [NoCut, List.getLast?_cons_cons] using h

theorem advance_plain (p : Pos) (a : List Char) (h : ∀ c ∈ a, c ≠ '\r' ∧ c ≠ '\n') :
    advance p a = ⟨p.row, p.col + a.length⟩ := by
  induction a generalizing p with
  | nil => rfl
  | cons c a ih =>
    obtain ⟨h1, h2⟩ := h c (by simp)
    rw [advance.eq_5]
    · rw [ih _ (fun c hc => h c (by simp [hc]))]
      simp; omega
    · intro r heq; exact absurd heq h1
    · intro heq; exact absurd heq h1
    · intro heq; exact absurd heq h2

/-- A token read at position `p`, which leaves the reader at position `q`. -/
structure Placed (p : Pos) (tok : Tok) (q : Pos) : Prop where
  start : tok.start = ⟨p.row, p.col + 1⟩
  empty : tok.origin = [] ↔ tok.type = .eof
  fin : tok.fin = if tok.type = .eof then tok.start else ⟨p.row, p.col + tok.origin.length⟩
  next : q = if tok.type = .eof then tok.start else advance p tok.origin
  known : tok.type ≠ .unknown

theorem Shape.placed {l : Lexer} {p : Pos} {r : Option Char} {tok : Tok} {l2 : Lexer}
    (h : Shape l r (some tok, l2)) (hp : l.pos = ⟨p.row, p.col + 1⟩) :
    Placed p tok l2.pos ∧ r.toList ++ l.rest = tok.origin ++ l2.rest ∧ NoCut tok.origin l2.rest ∧
      (tok.type = .eof ↔ r = none) ∧ l2.prepared = l.prepared ∧ tok.type ≠ .string := by
  cases h with
  | eof cx => refine ⟨⟨?_, ?_, ?_, ?_, ?_⟩, ?_, ?_, ?_, ?_⟩ <;> simp [hp, NoCut]
  | single c ty cx h1 h2 h3 =>
    obtain ⟨h3, h4, h5, h6⟩ := h3
    have := advance_plain p [c] (by simp [h1, h2])
    refine ⟨⟨?_, ?_, ?_, ?_, ?_⟩, ?_, ?_, ?_, ?_⟩ <;> simp_all [hp, NoCut]
  | triple c ty cx r' h1 h2 h3 hr =>
    obtain ⟨h3, h4, h5, h6⟩ := h3
    have := advance_plain p [c, c, c] (by simp [h1, h2])
    refine ⟨⟨?_, ?_, ?_, ?_, ?_⟩, ?_, ?_, ?_, ?_⟩ <;> simp_all [hp, NoCut]
  | crlf cx r' hr => refine ⟨⟨?_, ?_, ?_, ?_, ?_⟩, ?_, ?_, ?_, ?_⟩ <;> simp [hp, NoCut, hr, advance]
  | cr cx hr => refine ⟨⟨?_, ?_, ?_, ?_, ?_⟩, ?_, ?_, ?_, ?_⟩ <;> simp [hp, NoCut, hr, advance]
  | lf cx => refine ⟨⟨?_, ?_, ?_, ?_, ?_⟩, ?_, ?_, ?_, ?_⟩ <;> simp [hp, NoCut, advance]

theorem Shape.none_inv {l : Lexer} {r : Option Char} {l2 : Lexer} (h : Shape l r (none, l2)) :
    ∃ c cx, r = some c ∧ c ≠ '\r' ∧ c ≠ '\n' ∧ l2 = { l with ctx := cx } := by
  cases h with
  | plain c cx h1 h2 => exact ⟨c, cx, rfl, h1, h2, rfl⟩

/-- What the client of the tokenizer has still to receive: the text `text`, beginning after position `p`. -/
def Ready (l : Lexer) (p : Pos) (text : List Char) : Prop :=
  match l.prepared with
  | none => l.pos = p ∧ l.rest = text
  | some t => Placed p t l.pos ∧ text = t.origin ++ l.rest ∧ NoCut t.origin l.rest ∧ (t.type = .eof → l.rest = [])

theorem raNext_append (rest : List Char) : (raNext rest).1.toList ++ (raNext rest).2 = rest := by
  cases rest <;> simp [raNext]

theorem raNext_none {rest : List Char} (h : (raNext rest).1 = none) : rest = [] := by
  cases rest <;> simp_all [raNext]

theorem raNext_some {rest : List Char} {c : Char} (h : (raNext rest).1 = some c) :
    rest = c :: (raNext rest).2 := by
  cases rest <;> simp_all [raNext]

theorem emitLoop_str (fuel : Nat) : ∀ (l : Lexer) (p : Pos) (runes : List Char), l.prepared = none →
    runes ≠ [] → (∀ c ∈ runes, c ≠ '\r' ∧ c ≠ '\n') → l.pos = ⟨p.row, p.col + runes.length⟩ →
    l.rest.length + 1 ≤ fuel →
    ∃ tok l' text', emitLoop fuel l (some (⟨p.row, p.col + 1⟩, runes)) = some (tok, l') ∧
      tok.type = .string ∧ Placed p tok (advance p tok.origin) ∧ runes ++ l.rest = tok.origin ++ text' ∧
      Ready l' (advance p tok.origin) text' ∧ (∀ c ∈ tok.origin, c ≠ '\r' ∧ c ≠ '\n') := by
  induction fuel with
  | zero => intro l p runes _ _ _ _ hf; omega
  | succ fuel ih =>
    intro l p runes hprep hne hruns hpos hf
    simp only [emitLoop]
    generalize hl1 : ({ l with rest := (raNext l.rest).2, pos := { l.pos with col := l.pos.col + 1 } } : Lexer) = l1
    have hrest1 : l1.rest = (raNext l.rest).2 := by rw [← hl1]
    have hpos1 : l1.pos = ⟨p.row, p.col + runes.length + 1⟩ := by rw [← hl1]; simp [hpos]
    have hprep1 : l1.prepared = none := by rw [← hl1]; exact hprep
    have hshape := shape_match l1 (raNext l.rest).1
    generalize hm : matchSpecialToken l1 (raNext l.rest).1 = m at hshape
    obtain ⟨mt, l2⟩ := m
    have hadv := advance_plain p runes hruns
    cases mt with
    | some special =>
      obtain ⟨hpl, happ, hcut, heof, hprep2, hstr⟩ :=
        hshape.placed (p := ⟨p.row, p.col + runes.length⟩) (by rw [hpos1])
      refine ⟨_, _, special.origin ++ l2.rest, rfl, rfl, ⟨rfl, ?_, ?_, ?_, ?_⟩, ?_, ?_, ?_⟩
      · simp [hne]
      · simp [hpos]
      · simp
      · simp
      · rw [← happ, hrest1, raNext_append]
      · simp only [Ready, hadv]
        refine ⟨hpl, trivial, hcut, ?_⟩
        intro he
        have hn := heof.1 he
        have : special.origin = [] := hpl.empty.2 he
        rw [this, hn, hrest1] at happ
        have h0 := raNext_none hn
        simp [h0, raNext] at happ
        exact happ
      · exact hruns
    | none =>
      obtain ⟨c, cx, hr, h1, h2, hl2⟩ := hshape.none_inv
      simp only [hr]
      have hrest := raNext_some hr
      have := ih l2 p (runes ++ [c]) (by rw [hl2]; exact hprep1) (by simp)
        (by
          intro x hx
          simp only [List.mem_append, List.mem_singleton] at hx
          rcases hx with hx | hx
          · exact hruns x hx
          · subst hx; exact ⟨h1, h2⟩)
        (by rw [hl2]; simp [hpos1]; omega)
        (by
          rw [hl2]; simp only [hrest1]
          have : l.rest.length = (raNext l.rest).2.length + 1 := by
            conv => lhs; rw [hrest]
            simp
          omega)
      obtain ⟨tok, l', text', he, ht, hpl, happ, hrd, hall⟩ := this
      refine ⟨tok, l', text', he, ht, hpl, ?_, hrd, hall⟩
      rw [← happ, hl2]
      simp only [hrest1]
      conv => lhs; rw [hrest]
      simp

theorem next_spec (fuel : Nat) (l : Lexer) (p : Pos) (text : List Char) (h : Ready l p text)
    (hf : l.rest.length + 1 ≤ fuel) :
    ∃ tok l' q text', nextFuel fuel l = some (tok, l') ∧ Placed p tok q ∧ text = tok.origin ++ text' ∧
      Ready l' q text' ∧ NoCut tok.origin text' ∧ (tok.type = .eof ↔ text = []) := by
  unfold Ready at h
  cases hprep : l.prepared with
  | some t =>
    simp only [hprep] at h
    obtain ⟨hpl, htext, hcut, heof⟩ := h
    refine ⟨t, { l with behind := t.type, prepared := none }, l.pos, l.rest, by simp [nextFuel, hprep], hpl, htext,
      ⟨rfl, rfl⟩, hcut, ?_⟩
    rw [htext]
    constructor
    · intro he
      simp [hpl.empty.2 he, heof he]
    · intro he
      simp at he
      exact hpl.empty.1 he.1
  | none =>
    simp only [hprep] at h
    obtain ⟨hp, htext⟩ := h
    subst hp; subst htext
    simp only [nextFuel, hprep, emitToken]
    cases fuel with
    | zero => omega
    | succ fuel =>
      simp only [emitLoop]
      generalize hl1 : ({ l with rest := (raNext l.rest).2, pos := { l.pos with col := l.pos.col + 1 } } : Lexer) = l1
      have hrest1 : l1.rest = (raNext l.rest).2 := by rw [← hl1]
      have hpos1 : l1.pos = ⟨l.pos.row, l.pos.col + 1⟩ := by rw [← hl1]
      have hprep1 : l1.prepared = none := by rw [← hl1]; exact hprep
      have hshape := shape_match l1 (raNext l.rest).1
      generalize hm : matchSpecialToken l1 (raNext l.rest).1 = m at hshape
      obtain ⟨mt, l2⟩ := m
      cases mt with
      | some special =>
        obtain ⟨hpl, happ, hcut, heof, hprep2, hstr⟩ := hshape.placed (p := l.pos) hpos1
        rw [hrest1, raNext_append] at happ
        refine ⟨special, _, l2.pos, l2.rest, rfl, hpl, happ, ?_, hcut, ?_⟩
        · simp [Ready, hprep2, hprep1]
        · rw [heof]
          constructor
          · exact raNext_none
          · intro h0; simp [h0, raNext]
      | none =>
        obtain ⟨c, cx, hr, h1, h2, hl2⟩ := hshape.none_inv
        simp only [hr]
        have hrest := raNext_some hr
        have := emitLoop_str fuel { l2 with behind := .string } l.pos [c] (by rw [hl2]; exact hprep1) (by simp)
          (by simp [h1, h2]) (by rw [hl2]; simp [hpos1])
          (by
            rw [hl2]; simp only [hrest1]
            have : l.rest.length = (raNext l.rest).2.length + 1 := by
              conv => lhs; rw [hrest]
              simp
            omega)
        obtain ⟨tok, l', text', he, ht, hpl, happ, hrd, hall⟩ := this
        refine ⟨tok, l', _, text', ?_, hpl, ?_, hrd, ?_, ?_⟩
        · rw [← he]
        · rw [← happ, hl2]
          simp only [hrest1]
          exact hrest
        · rintro ⟨hlast, -⟩
          have := List.mem_of_getLast? hlast
          exact (hall _ this).1 rfl
        · rw [ht]
          simp
          rw [hrest]; simp

theorem ready_setRaw {l : Lexer} {p : Pos} {text : List Char} (h : Ready l p text) (b : Bool) :
    Ready (setRawMode l b) p text := by
  unfold Ready setRawMode at *
  exact h

theorem ready_rest_le {l : Lexer} {p : Pos} {text : List Char} (h : Ready l p text) :
    l.rest.length ≤ text.length := by
  unfold Ready at h
  split at h
  · rw [h.2]; exact Nat.le_refl _
  · rw [h.2.1]; simp

theorem emitLoop_mono (fuel k : Nat) : ∀ l str x, emitLoop fuel l str = some x → emitLoop (fuel + k) l str = some x := by
  induction fuel with
  | zero => intro l str x h; simp [emitLoop] at h
  | succ fuel ih =>
    intro l str x h
    rw [show fuel + 1 + k = (fuel + k) + 1 by omega]
    simp only [emitLoop] at h ⊢
    split at h
    · exact h
    · split at h
      · cases h
      · split at h
        · exact ih _ _ _ h
        · exact ih _ _ _ h

theorem nextFuel_mono (fuel k : Nat) (l : Lexer) (x : Tok × Lexer) (h : nextFuel fuel l = some x) :
    nextFuel (fuel + k) l = some x := by
  unfold nextFuel at *
  split at h
  · exact h
  · exact emitLoop_mono _ _ _ _ _ h

/-- A client which calls `Next` once per element of the schedule, after setting the raw mode to that element. -/
def tokens (fuel : Nat) : Lexer → List Bool → Option (List Tok)
  | _, [] => some []
  | l, b :: bs =>
    match nextFuel fuel (setRawMode l b) with
    | none => none
    | some (t, l') =>
      match tokens fuel l' bs with
      | none => none
      | some ts => some (t :: ts)

/-- Tokens read one after the other from a text beginning after a position. -/
inductive Chain : Pos → List Char → List Tok → Prop
  | nil (p : Pos) (text : List Char) : Chain p text []
  | cons (p : Pos) (t : Tok) (q : Pos) (text : List Char) (ts : List Tok) (hp : Placed p t q)
      (hcut : NoCut t.origin text) (heof : t.type = .eof ↔ t.origin ++ text = []) (h : Chain q text ts) :
      Chain p (t.origin ++ text) (t :: ts)

theorem tokens_chain (fuel : Nat) (bs : List Bool) : ∀ (l : Lexer) (p : Pos) (text : List Char), Ready l p text →
    text.length + 1 ≤ fuel → ∃ ts, tokens fuel l bs = some ts ∧ ts.length = bs.length ∧ Chain p text ts := by
  induction bs with
  | nil => intro l p text _ _; exact ⟨[], rfl, rfl, .nil _ _⟩
  | cons b bs ih =>
    intro l p text h hf
    have h' := ready_setRaw h b
    have hle := ready_rest_le h'
    obtain ⟨tok, l', q, text', he, hpl, htext, hrd, hcut, heof⟩ := next_spec fuel _ p text h' (by omega)
    have hlen : text'.length ≤ text.length := by rw [htext]; simp
    obtain ⟨ts, hts, hl, hc⟩ := ih l' q text' hrd (by omega)
    refine ⟨tok :: ts, by simp [tokens, he, hts], by simp [hl], ?_⟩
    rw [htext] at heof ⊢
    exact .cons p tok q text' ts hpl hcut heof hc

end Verif.Lexer
