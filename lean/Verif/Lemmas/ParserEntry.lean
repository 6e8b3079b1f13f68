import Verif.Lemmas.Lexer
import Verif.Lemmas.ParserMono
import Verif.Lemmas.ParserStreamSpec

/-!
The token streams which the parser gets come to an end, and the whole parser on them.
-/

set_option linter.unusedSimpArgs false
set_option linter.unusedSectionVars false

namespace Verif.Parser

open Verif.Token Verif.Lexer Verif.Ast

/-- The token is not taken for the name of a directive if it is a byte order mark. -/
def NoKeyword (t : Tok) : Prop := t.type = .bom → t.origin ≠ ['Y', 'A', 'M', 'L'] ∧ t.origin ≠ ['T', 'A', 'G']

theorem noKeyword_shape {l l' : Lexer} {r : Option Char} {t : Tok} (h : Shape l r (some t, l')) :
    NoKeyword t ∧ l'.prepared = l.prepared := by
  cases h <;> refine ⟨fun _ => ?_, rfl⟩ <;> simp
  grind

theorem prepared_shape {l l' : Lexer} {r : Option Char} (h : Shape l r (none, l')) : l'.prepared = l.prepared := by
  cases h; rfl

theorem noKeyword_emit (fuel : Nat) : ∀ (l : Lexer) (str : Option (Pos × List Char)) (t : Tok) (l' : Lexer),
    l.prepared = none → emitLoop fuel l str = some (t, l') →
    NoKeyword t ∧ ∀ x, l'.prepared = some x → NoKeyword x := by
  induction fuel with
  | zero => intro l str t l' _ h; simp [emitLoop] at h
  | succ fuel ih =>
    intro l str t l' hp h
    simp only [emitLoop] at h
    generalize hl1 : ({ l with rest := (raNext l.rest).2, pos := { l.pos with col := l.pos.col + 1 } } : Lexer) = l1 at h
    have hp1 : l1.prepared = none := by rw [← hl1]; exact hp
    have hsh := shape_match l1 (raNext l.rest).1
    generalize hm : matchSpecialToken l1 (raNext l.rest).1 = m at h hsh
    obtain ⟨o, l2⟩ := m
    cases o with
    | some special =>
      obtain ⟨hk, hp2⟩ := noKeyword_shape hsh
      dsimp only at h
      cases str with
      | some st =>
        simp only [Option.some.injEq, Prod.mk.injEq] at h
        obtain ⟨rfl, rfl⟩ := h
        refine ⟨fun hb => by simp at hb, fun x hx => ?_⟩
        simp only [Option.some.injEq] at hx
        rw [← hx]; exact hk
      | none =>
        simp only [Option.some.injEq, Prod.mk.injEq] at h
        obtain ⟨rfl, rfl⟩ := h
        refine ⟨hk, fun x hx => ?_⟩
        simp [hp2, hp1] at hx
    | none =>
      have hp2 := prepared_shape hsh
      dsimp only at h
      cases hr : (raNext l.rest).1 with
      | none => simp [hr] at h
      | some c =>
        simp only [hr] at h
        cases str with
        | none => exact ih _ _ _ _ (by simp [hp2, hp1]) h
        | some st => exact ih _ _ _ _ (by simp [hp2, hp1]) h

theorem noKeyword_next {fuel : Nat} {l l' : Lexer} {t : Tok} (hp : ∀ x, l.prepared = some x → NoKeyword x)
    (h : nextFuel fuel l = some (t, l')) : NoKeyword t ∧ ∀ x, l'.prepared = some x → NoKeyword x := by
  unfold nextFuel at h
  cases hq : l.prepared with
  | some x =>
    simp only [hq, Option.some.injEq, Prod.mk.injEq] at h
    obtain ⟨rfl, rfl⟩ := h
    exact ⟨hp x hq, fun y hy => by simp at hy⟩
  | none =>
    simp only [hq] at h
    exact noKeyword_emit fuel l none t l' hq h

/-- Number of characters which are still to come. -/
def charsLeft (l : Lexer) : Nat :=
  match l.prepared with
  | none => l.rest.length
  | some t => t.origin.length + l.rest.length

theorem charsLeft_ready {l : Lexer} {p : Pos} {text : List Char} (h : Ready l p text) : charsLeft l = text.length := by
  unfold charsLeft
  unfold Ready at h
  cases hp : l.prepared with
  | none => simp only [hp] at h ⊢; rw [h.2]
  | some t => simp only [hp] at h ⊢; rw [h.2.1]; simp

/-- States of the tokenizer. -/
def LexerOk (l : Lexer) : Prop := (∃ p text, Ready l p text) ∧ ∀ x, l.prepared = some x → NoKeyword x

theorem lexNext_some {l : Lexer} (h : LexerOk l) :
    nextFuel (l.rest.length + 1) l = some (lexNext l) ∧ LexerOk (lexNext l).2 ∧ NoKeyword (lexNext l).1 ∧
      charsLeft (lexNext l).2 + (if (lexNext l).1.type = .eof then 0 else 1) ≤ charsLeft l := by
  obtain ⟨⟨p, text, hr⟩, hk⟩ := h
  obtain ⟨t, l', q, text', h1, h2, h3, h4, -, h6⟩ := next_spec (l.rest.length + 1) l p text hr (Nat.le_refl _)
  have e : lexNext l = (t, l') := by simp [lexNext, h1]
  obtain ⟨k1, k2⟩ := noKeyword_next hk h1
  rw [e]
  refine ⟨h1, ⟨⟨q, text', h4⟩, k2⟩, k1, ?_⟩
  rw [charsLeft_ready h4, charsLeft_ready hr, h3]
  simp only [List.length_append]
  split
  · omega
  · rename_i hne
    have : t.origin ≠ [] := fun h0 => hne (h2.empty.1 h0)
    have := List.length_pos_iff.2 this
    omega

/-! The mode is not touched by the tokenizer. -/

theorem raw_base (l : Lexer) (r : Option Char) : (baseMatching l r).2.ctx.raw = l.ctx.raw := by
  unfold baseMatching
  repeat' first | split | (dsimp only; split)
  all_goals rfl

theorem raw_match (l : Lexer) (r : Option Char) : (matchSpecialToken l r).2.ctx.raw = l.ctx.raw := by
  unfold matchSpecialToken blockMatching flowMatching commentMatching multilineBlockStartMatching singleQuoteMatching
    doubleQuoteMatching tagMatching rawMatching
  repeat' split
  all_goals first | rfl | exact raw_base _ _

theorem raw_emit : ∀ (fuel : Nat) (l : Lexer) (str : Option (Pos × List Char)) (o : Tok × Lexer), emitLoop fuel l str = some o →
    o.2.ctx.raw = l.ctx.raw
  | 0, l, str, o, h => by simp [emitLoop] at h
  | fuel + 1, l, str, o, h => by
    simp only [emitLoop] at h
    have hm := raw_match { l with rest := (raNext l.rest).2, pos := { l.pos with col := l.pos.col + 1 } } (raNext l.rest).1
    revert hm h
    generalize matchSpecialToken { l with rest := (raNext l.rest).2, pos := { l.pos with col := l.pos.col + 1 } } (raNext l.rest).1 = m
    obtain ⟨a, l2⟩ := m
    intro h hm
    dsimp only at hm
    cases a with
    | some t => cases str <;> (simp only [Option.some.injEq] at h; subst h; exact hm)
    | none =>
      cases hr : (raNext l.rest).1 with
      | none => simp [hr] at h
      | some c =>
        simp only [hr] at h
        cases str with
        | none => exact (raw_emit fuel _ _ o h).trans hm
        | some st => exact (raw_emit fuel _ _ o h).trans hm

theorem lexNext_raw (l : Lexer) : (lexNext l).2.ctx.raw = l.ctx.raw := by
  unfold lexNext nextFuel
  cases l.prepared with
  | some t => rfl
  | none =>
    dsimp only
    cases h : emitToken (l.rest.length + 1) l with
    | none => rfl
    | some r => exact raw_emit _ _ _ _ h

/-- The tokenizer is a stream which comes to an end. -/
instance : StreamOk Lexer where
  inv := LexerOk
  rem := charsLeft
  pull_inv _ h := (lexNext_some h).2.1
  raw_inv _ v h := ⟨h.1.imp fun p hp => hp.imp fun text ht => ready_setRaw ht v, h.2⟩
  pull_rem _ h := (lexNext_some h).2.2.2
  raw_rem _ _ _ := Nat.le_refl _
  bom _ h := (lexNext_some h).2.2.1
  raw_raw _ _ _ := rfl
  raw_keep l v h := by
    have h1 : l.ctx.raw = v := by
      have := congrArg (fun x : Lexer => x.ctx.raw) h
      exact this.symm
    show setRawMode (lexNext l).2 v = _
    rw [← h1, ← lexNext_raw l]
    rfl

theorem lexerOk_new (src : List Char) : LexerOk (newTokenizer src) :=
  ⟨⟨⟨1, 0⟩, src, ⟨rfl, rfl⟩⟩, fun x hx => by simp [newTokenizer] at hx⟩

theorem charsLeft_new (src : List Char) : charsLeft (newTokenizer src) = src.length := rfl

/-- A list of tokens is a stream which comes to an end. -/
instance : StreamOk SimpleStream where
  inv s := ∀ t ∈ s.rest, NoKeyword t
  rem s := s.rest.length
  pull_inv s h := by
    obtain ⟨r⟩ := s
    cases r with
    | nil => exact h
    | cons t r => exact fun x (hx : x ∈ r) => h x (by simp [hx])
  raw_inv _ _ h := h
  pull_rem s h := by
    obtain ⟨r⟩ := s
    cases r with
    | nil => simp [TokenStream.pull]
    | cons t r => simp only [TokenStream.pull, List.length_cons]; split <;> omega
  raw_rem _ _ _ := Nat.le_refl _
  bom s h := by
    obtain ⟨r⟩ := s
    cases r with
    | nil => simp [TokenStream.pull]
    | cons t r => exact h t (by simp)
  raw_raw _ _ _ := rfl
  raw_keep _ _ _ := rfl

variable {σ : Type} [TokenStream σ] [StreamOk σ]

/-- The state after the first token was read. -/
theorem entry {s : σ} {pool : List Buf} (hs : StreamOk.inv s) (hp : Empty pool) :
    Wp (StreamOk.rem s) (do next; setStartOfLine : M σ Unit) (newParser (CPAccessor.new s {}) pool)
      (fun _ _ A => NB A ∧ A.g = 0 ∧ A = ⟨[(TokenStream.pull s).1], 1, []⟩) := by
  have hpr := StreamOk.pull_rem s hs
  have hbom := StreamOk.bom s hs
  have hinv := StreamOk.pull_inv s hs
  generalize hv : (TokenStream.pull s).1 = v at hpr hbom
  obtain ⟨b1, b2, b3, b4, b5⟩ := balance_src (step (newParser (CPAccessor.new s {}) pool))
  have hR : R (StreamOk.rem s) ({ balance (step (newParser (CPAccessor.new s {}) pool)) with sol := true } : P σ)
      ⟨[v], 1, []⟩ := by
    refine ⟨?_, ?_, ?_, ?_, Nat.le_refl _, Nat.le_refl _, ?_, rfl, ?_, by simp, by simp, ?_, ?_⟩
    · show CPAccessor.Rel (sq [v]) (idx (balance (step (newParser (CPAccessor.new s {}) pool))).src 1) ⟨1, [], 1⟩
      rw [b1]
      refine ⟨rfl, rfl, ⟨1, rfl, ?_, rfl, rfl, ?_⟩, fun _ _ => rfl, ?_⟩
      · intro i hi; exact absurd hi (by show ¬ i < 0; omega)
      · intro j hj; exact absurd hj (by show ¬ some j ∈ []; simp)
      · intro j hj; exact absurd hj (by show ¬ List.getLast? [] = some (some j); simp)
    · show CPAccessor.SavedOk (sq [v]) (idx (balance (step (newParser (CPAccessor.new s {}) pool))).src 1)
      rw [b1]
      intro k hk
      have hk0 : 1 = k + 1 + 0 := hk
      have : k = 0 := by omega
      subst this
      exact hv
    · show StreamOk.inv (balance (step (newParser (CPAccessor.new s {}) pool))).src.stream
      rw [b1]; exact hinv
    · show cnt [v] + StreamOk.rem (balance (step (newParser (CPAccessor.new s {}) pool))).src.stream ≤ _
      rw [b1]
      show cnt [v] + StreamOk.rem (TokenStream.pull s).2 ≤ _
      have : cnt [v] = if v.type = .eof then 0 else 1 := by simp [cnt, weigh]
      rw [this]; omega
    · show (balance (step (newParser (CPAccessor.new s {}) pool))).tok = v
      rw [b2]; exact hv
    · show (balance (step (newParser (CPAccessor.new s {}) pool))).saved.map Saved.sol = []
      rw [b3]; rfl
    · show ∀ b ∈ (balance (step (newParser (CPAccessor.new s {}) pool))).pool, b = []
      rw [b5]; exact hp
    · intro x hx
      simp only [List.mem_singleton] at hx
      subst hx
      exact hbom
  have key : ∀ pl, (do next; setStartOfLine : M σ Unit) (newParser (CPAccessor.new s {}) pl) =
      .ok ((), { balance (step (newParser (CPAccessor.new s {}) pl)) with sol := true }) := by
    intro pl
    show M.bind next _ _ = _
    rw [M.bind, next_eq _ rfl]
    rfl
  refine ⟨(), _, _, key pool, hR, ⟨?_, rfl, by rw [← hv]⟩, ?_⟩
  · intro q h1 h2
    have h3 : 1 ≤ q := h1
    have h4 : q < 1 := h2
    omega
  · intro pl hpl
    refine ⟨pl, hpl, ?_⟩
    show _ = Res.ok ((), _)
    have e := key pl
    have e2 := balance_setPool (step (newParser (CPAccessor.new s {}) pool)) pl
    have e3 : step (newParser (CPAccessor.new s {}) pl) = (step (newParser (CPAccessor.new s {}) pool)).setPool pl := rfl
    rw [e3, e2] at e
    exact e

/-- The whole parser. -/
theorem parse_wp {s : σ} {pool : List Buf} {f : Nat} (hs : StreamOk.inv s) (hp : Empty pool)
    (hf : 2 * StreamOk.rem s + 3 < f) :
    Wp (StreamOk.rem s) (parse f : M σ Node) (newParser (CPAccessor.new s {}) pool)
      (fun r _ _ => ∃ docs, r = .stream docs ∧ ElemsOk docs) := by
  have h : (parse f : M σ Node) = (do next; setStartOfLine : M σ Unit) >>= fun _ => parseStream f := by
    funext t
    show M.bind next _ t = M.bind (M.bind next _) _ t
    simp only [M.bind]
    cases (next : M σ Unit) t <;> rfl
  rw [h]
  apply Wp.bind
  refine (entry hs hp).mono ?_
  intro _ t A hr ⟨hnb, hg, _⟩
  refine (parseStream_s (n := 0) (by omega) t A hr hnb (Nat.zero_le _)).mono ?_
  intro r _ _ _ h
  exact h.2.2.2

/-! ### Pools -/

/-- What the pools contain: accessors which are never found again, and empty buffers. -/
def PoolsOk (w : Pools σ) : Prop := (∀ x ∈ w.accessors, ∃ a, x = .pointerToPointer a) ∧ Empty w.bufs

theorem getAccessor_new {w : Pools σ} (hw : PoolsOk w) (s : σ) :
    (getAccessor w s).1 = CPAccessor.new s {} ∧ (∀ x ∈ (getAccessor w s).2.accessors, x ∈ w.accessors) := by
  unfold getAccessor
  cases ha : w.accessors with
  | nil => exact ⟨rfl, fun x hx => by simp [ha] at hx⟩
  | cons x r =>
    obtain ⟨a, rfl⟩ := hw.1 x (by simp [ha])
    exact ⟨rfl, fun y hy => by simp at hy; simp [hy]⟩

/-- One run of the parser on what is in the pools. -/
theorem run_ok {s : σ} {w : Pools σ} {f : Nat} (hs : StreamOk.inv s) (hw : PoolsOk w) (hf : 2 * StreamOk.rem s + 3 < f) :
    ∃ docs t', ElemsOk docs ∧ Empty t'.pool ∧ parse f (newParser (getAccessor w s).1 w.bufs) = .ok (.stream docs, t') ∧
      ∃ t0, t0.errors = t'.errors ∧ parse f (newParser (CPAccessor.new s {}) []) = .ok (.stream docs, t0) := by
  obtain ⟨r, t', A', h1, h2, ⟨docs, rfl, hd⟩, h4⟩ := parse_wp (f := f) hs hw.2 hf
  obtain ⟨pl', -, h5⟩ := h4 [] (by intro b hb; cases hb)
  refine ⟨docs, t', hd, h2.pool, ?_, t'.setPool pl', rfl, h5⟩
  rw [(getAccessor_new hw s).1]
  exact h1

theorem parseTokenStream_mono {f f' : Nat} (hf : f ≤ f') (s : σ) (w : Pools σ) :
    Le (parseTokenStream f s w) (parseTokenStream f' s w) := by
  unfold parseTokenStream
  rcases parse_mono hf (newParser (getAccessor w s).1 w.bufs) with h | h
  · rw [h]; exact .inl rfl
  · rw [h]; exact .inr rfl

theorem parseString_mono {f f' : Nat} (hf : f ≤ f') (o : Bool) (s : σ) (w : Pools σ) :
    Le (parseString f o s w) (parseString f' o s w) := by
  unfold parseString
  rcases parseTokenStream_mono hf s w with h | h
  · rw [h]; exact .inl rfl
  · rw [h]; exact .inr rfl

theorem parseAndRelease_mono {f f' : Nat} (hf : f ≤ f') (s : σ) (w : Pools σ) :
    Le (parseAndRelease f s w) (parseAndRelease f' s w) := by
  unfold parseAndRelease
  rcases parse_mono hf (newParser (getAccessor w s).1 w.bufs) with h | h
  · rw [h]; exact .inl rfl
  · rw [h]; exact .inr rfl

theorem conv_of_le {α : Type} {g : Nat → Res α} (h : ∀ f f', f ≤ f' → Le (g f) (g f')) {f : Nat} {x : α} (hx : g f = .ok x) :
    Conv g x := by
  refine ⟨f, fun f' hf => ?_⟩
  rcases h f f' hf with h | h
  · rw [h] at hx; cases hx
  · rw [← h, hx]

/-- The entry points on what is in the pools. -/
theorem parseTokenStream_ok {s : σ} {w : Pools σ} (hs : StreamOk.inv s) (hw : PoolsOk w) :
    ∃ docs errs w' w0, ElemsOk docs ∧ PoolsOk w' ∧ Conv (fun f => parseTokenStream f s w) ((.stream docs, errs), w') ∧
      Conv (fun f => parseTokenStream f s emptyPools) ((.stream docs, errs), w0) := by
  obtain ⟨docs, t', hd, hp, h1, t0, he, h2⟩ := run_ok (f := 2 * StreamOk.rem s + 4) hs hw (by omega)
  have ha := getAccessor_new hw s
  have e1 : ∃ w', PoolsOk w' ∧ parseTokenStream (2 * StreamOk.rem s + 4) s w = .ok ((.stream docs, t'.errors), w') := by
    unfold parseTokenStream
    rw [h1]
    refine ⟨_, ⟨fun x hx => ?_, hp⟩, rfl⟩
    rcases List.mem_cons.1 hx with hx | hx
    · exact ⟨_, hx⟩
    · exact hw.1 x (ha.2 x hx)
  have e2 : ∃ w0, parseTokenStream (2 * StreamOk.rem s + 4) s emptyPools = .ok ((.stream docs, t'.errors), w0) := by
    unfold parseTokenStream
    rw [show (getAccessor emptyPools s).1 = CPAccessor.new s {} from rfl, show (emptyPools : Pools σ).bufs = [] from rfl, h2,
      ← he]
    exact ⟨_, rfl⟩
  obtain ⟨w', hw', e1⟩ := e1
  obtain ⟨w0, e2⟩ := e2
  exact ⟨docs, t'.errors, w', w0, hd, hw', conv_of_le (fun f f' hf => parseTokenStream_mono hf s w) e1,
    conv_of_le (fun f f' hf => parseTokenStream_mono hf s emptyPools) e2⟩

theorem parseAndRelease_ok {s : σ} {w : Pools σ} (hs : StreamOk.inv s) (hw : PoolsOk w) :
    ∃ docs errs w' w0, ElemsOk docs ∧ PoolsOk w' ∧ Conv (fun f => parseAndRelease f s w) ((.stream docs, errs), w') ∧
      Conv (fun f => parseAndRelease f s emptyPools) ((.stream docs, errs), w0) := by
  obtain ⟨docs, t', hd, hp, h1, t0, he, h2⟩ := run_ok (f := 2 * StreamOk.rem s + 4) hs hw (by omega)
  have ha := getAccessor_new hw s
  have e1 : ∃ w', PoolsOk w' ∧ parseAndRelease (2 * StreamOk.rem s + 4) s w = .ok ((.stream docs, t'.errors), w') := by
    unfold parseAndRelease
    rw [h1]
    refine ⟨_, ⟨fun x hx => ?_, hp⟩, rfl⟩
    rcases List.mem_cons.1 hx with hx | hx
    · exact ⟨_, hx⟩
    · exact hw.1 x (ha.2 x hx)
  have e2 : ∃ w0, parseAndRelease (2 * StreamOk.rem s + 4) s emptyPools = .ok ((.stream docs, t'.errors), w0) := by
    unfold parseAndRelease
    rw [show (getAccessor emptyPools s).1 = CPAccessor.new s {} from rfl, show (emptyPools : Pools σ).bufs = [] from rfl, h2,
      ← he]
    exact ⟨_, rfl⟩
  obtain ⟨w', hw', e1⟩ := e1
  obtain ⟨w0, e2⟩ := e2
  exact ⟨docs, t'.errors, w', w0, hd, hw', conv_of_le (fun f f' hf => parseAndRelease_mono hf s w) e1,
    conv_of_le (fun f f' hf => parseAndRelease_mono hf s emptyPools) e2⟩

theorem parseString_conv {s : σ} {o : Bool} {w w' : Pools σ} {r : Node × List PErr}
    (h : Conv (fun f => parseTokenStream f s w) (r, w')) : Conv (fun f => parseString f o s w) (finish o r, w') := by
  obtain ⟨f0, h⟩ := h
  refine ⟨f0, fun f hf => ?_⟩
  have h1 : parseTokenStream f s w = _ := h f hf
  show parseString f o s w = _
  unfold parseString
  rw [h1]

theorem parseString_ok {s : σ} {o : Bool} {w : Pools σ} (hs : StreamOk.inv s) (hw : PoolsOk w) :
    ∃ docs errs w' w0, ElemsOk docs ∧ PoolsOk w' ∧ Conv (fun f => parseString f o s w) (finish o (.stream docs, errs), w') ∧
      Conv (fun f => parseString f o s emptyPools) (finish o (.stream docs, errs), w0) := by
  obtain ⟨docs, errs, w', w0, hd, hw', h1, h2⟩ := parseTokenStream_ok hs hw
  exact ⟨docs, errs, w', w0, hd, hw', parseString_conv h1, parseString_conv h2⟩

theorem elemsOk_complete {docs : List Node} (h : ElemsOk docs) :
    ∀ e ∈ docs, Spec.Tree.Complete Spec.Tree.LooseProperties e := fun e he => (h e he).1 (h e he).2

theorem finish_spec {docs : List Node} (hd : ElemsOk docs) (o : Bool) (errs : List PErr) :
    ((finish o (.stream docs, errs)).err = errs) ∧ (errs = [] → Spec.Tree.Complete Spec.Tree.LooseProperties
      (finish o (.stream docs, errs)).tree) ∧ (errs ≠ [] → (finish o (.stream docs, errs)).tree = .nil) := by
  have hc := elemsOk_complete hd
  unfold finish
  cases errs with
  | nil =>
    refine ⟨?_, fun _ => ?_, fun h => absurd rfl h⟩
    · simp only [List.isEmpty_nil, if_true]
      split <;> rfl
    · simp only [List.isEmpty_nil, if_true]
      split
      · rename_i heq
        cases heq
        exact hc _ (by simp)
      · exact .stream _ hc
  | cons e es => exact ⟨rfl, fun h => (by cases h), fun _ => rfl⟩

end Verif.Parser
