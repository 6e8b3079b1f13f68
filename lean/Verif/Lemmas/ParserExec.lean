import Verif.Lemmas.ParserEntry

/-!
Exact executions of the parser on a known sequence of tokens: `Ex W p k m q l a` says that the step `m`, started on token
number `p` of `W`, returns `a` on token number `q` (if it returns at all) without an error; the dead end finder has counted
at most `k i` failures at token number `i` before, and at most `l i` after.

Brackets may occur among the tokens.  The checker of brackets keeps its old cells when it goes back to a checkpoint, so that a
cell which is written between a checkpoint and the return to it is wrong afterwards.  An execution therefore stays at a level of
brackets (`Toks.level`), and leaves the cells below alone; one which starts at an opening bracket and comes back to it has to
leave the cell of that bracket alone, too (`Toks.hold`).
-/

set_option linter.unusedSimpArgs false
set_option linter.unusedSectionVars false

namespace Verif.Parser

open Verif.Token Verif.Lexer Verif.Ast Verif.Spec.Cursor

variable {σ α β : Type} [TokenStream σ] [StreamOk σ]

/-- A sequence of tokens; `raw p` tells in which mode token number `p` is read from the tokenizer, and `mode` in which mode the
tokenizer is at present.  `level` is the number of brackets around the present token, and `hold` tells whether the next bracket
at this level must be left alone. -/
structure Toks where
  tok : Nat → Tok
  raw : Nat → Bool
  mode : Bool
  level : Nat
  hold : Bool

instance : CoeFun Toks (fun _ => Nat → Tok) := ⟨Toks.tok⟩

/-- The token after number `p` is read in the present mode. -/
def Calm (W : Toks) (p : Nat) : Prop := W.raw (p + 1) = W.mode

/-- The stream after `k` tokens, the first of which is token number `n + 1`. -/
def feed (W : Toks) : Nat → Nat → σ → σ
  | _, 0, s => s
  | n, k + 1, s => feed W (n + 1) k (TokenStream.pull (TokenStream.setRaw (W.raw (n + 1)) s)).2

/-- The stream gives the tokens of `W` after the first `n`. -/
def Serves (W : Toks) (s : σ) (n : Nat) : Prop :=
  ∀ k, (TokenStream.pull (TokenStream.setRaw (W.raw (n + 1 + k)) (feed W n k s))).1 = W (n + 1 + k)

theorem Serves.pull {W : Toks} {s : σ} {n : Nat} (h : Serves W s n) (hs : TokenStream.setRaw (W.raw (n + 1)) s = s) :
    (TokenStream.pull s).1 = W (n + 1) ∧ Serves W (TokenStream.pull s).2 (n + 1) := by
  constructor
  · have := h 0
    simp only [Nat.add_zero, feed, hs] at this
    exact this
  · intro k
    have := h (k + 1)
    rw [show n + 1 + (k + 1) = n + 1 + 1 + k from by omega] at this
    simp only [feed, hs] at this
    exact this

theorem Serves.setRaw {W : Toks} {s : σ} {n : Nat} (h : Serves W s n) (v : Bool) : Serves W (TokenStream.setRaw v s) n := by
  intro k
  have := h k
  cases k with
  | zero => simpa only [feed, StreamOk.raw_raw] using this
  | succ k => simpa only [feed, StreamOk.raw_raw] using this

/-- The start of line flag before token number `p`. -/
def solT (w : Nat → Tok) : Nat → Bool
  | 0 => true
  | 1 => true
  | p + 2 => isStartOfLine (solT w (p + 1)) (w (p + 1))

/-- The same for a sequence of tokens. -/
abbrev solW (W : Toks) (p : Nat) : Bool := solT W.tok p

theorem solW_succ (W : Toks) {p : Nat} (h : 1 ≤ p) : solW W (p + 1) = isStartOfLine (solW W p) (W p) := by
  obtain ⟨q, rfl⟩ : ∃ q, p = q + 1 := ⟨p - 1, by omega⟩
  rfl

theorem solAt_solW {W : Toks} {log : List Tok} (h : ∀ i < log.length, sq log i = W (i + 1)) :
    ∀ {p : Nat}, p ≤ log.length + 1 → solAt log p = solW W p
  | 0, _ => rfl
  | 1, _ => rfl
  | p + 2, hp => by rw [solAt, solW, solT, solAt_solW h (p := p + 1) (by omega), h p (by omega)]

/-! ### Brackets -/

def isOpen (t : Tok) : Bool := t.type = .sequenceStart || t.type = .mappingStart

def isClose (t : Tok) : Bool := t.type = .sequenceEnd || t.type = .mappingEnd

/-- The token is no bracket. -/
def Free (t : Tok) : Prop := isOpen t = false ∧ isClose t = false

/-- The type is that of a bracket. -/
def isBracket : TokType → Bool
  | .sequenceStart => true
  | .sequenceEnd => true
  | .mappingStart => true
  | .mappingEnd => true
  | _ => false

theorem Free.of {t : Tok} {x : TokType} (h : t.type = x) (hx : isBracket x = false := by rfl) : Free t := by
  subst h
  unfold Free isOpen isClose
  cases hx' : t.type <;> simp_all [isBracket]

/-- The brackets which are open after token number `p`, the innermost first. -/
def stk (w : Nat → Tok) : Nat → List TokType
  | 0 => []
  | p + 1 => if isOpen (w (p + 1)) then (w (p + 1)).type :: stk w p else if isClose (w (p + 1)) then (stk w p).tail else stk w p

theorem stk_open {w : Nat → Tok} {p : Nat} (h : isOpen (w (p + 1)) = true) : stk w (p + 1) = (w (p + 1)).type :: stk w p := by
  rw [stk, if_pos h]

theorem stk_close {w : Nat → Tok} {p : Nat} (h : isClose (w (p + 1)) = true) : stk w (p + 1) = (stk w p).tail := by
  have : isOpen (w (p + 1)) = false := by
    simp only [isClose, Bool.or_eq_true, decide_eq_true_eq] at h
    rcases h with h | h <;> simp [isOpen, h]
  rw [stk, if_neg (by simp [this]), if_pos h]

theorem stk_keep {w : Nat → Tok} {p : Nat} (h1 : isOpen (w (p + 1)) = false) (h2 : isClose (w (p + 1)) = false) :
    stk w (p + 1) = stk w p := by
  rw [stk, if_neg (by simp [h1]), if_neg (by simp [h2])]

/-- The checker of brackets at token number `p`. -/
structure Bal (W : Toks) (p : Nat) (b : BalanceCheck.Checker TokType) : Prop where
  pairs : b.pairs = BalanceCheck.parserPairs
  ok : b.bad = false
  len : b.len = (stk W.tok p).length
  cells : b.cells.take (stk W.tok p).length = (stk W.tok p).reverse

/-- The brackets fit, and no two tokens are at the same position. -/
structure Ground (W : Toks) : Prop where
  seq : ∀ p, (W (p + 1)).type = .sequenceEnd → ∃ s, stk W.tok p = .sequenceStart :: s
  map : ∀ p, (W (p + 1)).type = .mappingEnd → ∃ s, stk W.tok p = .mappingStart :: s
  fin : ∀ p, (W (p + 1)).type = .eof → stk W.tok p = []
  inj : ∀ i j, 1 ≤ i → 1 ≤ j → (W i).start = (W j).start → i = j

/-- Moreover a line starts in the present mode, and no bracket has to be left alone. -/
structure Flat (W : Toks) : Prop extends Ground W where
  brk : ∀ p, 1 ≤ p → isBreakOrEOF (W p) = true → Calm W p
  mode : W.mode = false
  free : W.hold = false

/-- The number of cells of the checker which are left alone. -/
def Toks.keep (W : Toks) : Nat := W.level + if W.hold then 1 else 0

/-- Where nothing but the cells below has to be left alone, also the next bracket must be. -/
abbrev Toks.held (W : Toks) : Toks := ⟨W.tok, W.raw, W.mode, W.level, true⟩

/-- Within a bracket. -/
abbrev Toks.up (W : Toks) : Toks := ⟨W.tok, W.raw, W.mode, W.level + 1, false⟩

theorem Ground.held {W : Toks} (h : Ground W) : Ground W.held := ⟨h.seq, h.map, h.fin, h.inj⟩

theorem Flat.up {W : Toks} (h : Flat W) : Flat W.up := ⟨⟨h.seq, h.map, h.fin, h.inj⟩, h.brk, h.mode, rfl⟩

/-- The parser is at token number `p`, with open checkpoints `cps`, without errors. -/
structure At (W : Toks) (k : Nat → Nat) (p : Nat) (cps : List Nat) (t : P σ) : Prop where
  r : ∃ B log, R B t ⟨log, p, cps⟩ ∧ (∀ i < log.length, sq log i = W (i + 1)) ∧ Serves W t.src.stream log.length
  errors : t.errors = []
  mode : TokenStream.setRaw W.mode t.src.stream = t.src.stream
  bal : Bal W p t.bal
  mem : t.saved.map Saved.memento = cps.map (fun c => ⟨(stk W.tok c).length, false⟩)
  level : (stk W.tok (p - 1)).length = W.level
  marks : (∀ pos, 0 ≤ markCount t.marks pos ∧ markCount t.marks pos ≤ 64) ∧
    ∀ i, 1 ≤ i → markCount t.marks (W i).start ≤ k i

/-- The first `n` cells of the checker are the same. -/
def Same (n : Nat) (t t' : P σ) : Prop := t'.bal.cells.take n = t.bal.cells.take n

theorem Same.refl {n : Nat} {t : P σ} : Same n t t := rfl

theorem Same.trans {n : Nat} {t t' t'' : P σ} (h : Same n t t') (h2 : Same n t' t'') : Same n t t'' := Eq.trans h2 h

theorem Same.mono {n m : Nat} {t t' : P σ} (h : Same m t t') (hn : n ≤ m) : Same n t t' := by
  have := congrArg (List.take n) h
  rw [List.take_take, List.take_take, Nat.min_eq_left hn] at this
  exact this

/-- The step does the same from every state at token `p`. -/
def Ex (W : Toks) (p : Nat) (k : Nat → Nat) (m : M σ α) (q : Nat) (l : Nat → Nat) (a : α) : Prop :=
  ∀ t cps, cps ≠ [] → At W k p cps t → ∀ r, m t = .ok r → r.1 = a ∧ At W l q cps r.2 ∧ Same W.keep t r.2

/-- The same for steps which need no open checkpoint. -/
def Ex0 (W : Toks) (p : Nat) (k : Nat → Nat) (m : M σ α) (q : Nat) (l : Nat → Nat) (a : α) : Prop :=
  ∀ t cps, At W k p cps t → ∀ r, m t = .ok r → r.1 = a ∧ At W l q cps r.2 ∧ Same W.keep t r.2

/-- The same for steps which change the level: `n` cells are left alone. -/
def ExV (W V : Toks) (n p : Nat) (k : Nat → Nat) (m : M σ α) (q : Nat) (l : Nat → Nat) (a : α) : Prop :=
  ∀ t cps, cps ≠ [] → At W k p cps t → ∀ r, m t = .ok r → r.1 = a ∧ At V l q cps r.2 ∧ Same n t r.2

variable {W : Toks} {p q p' : Nat} {k l j : Nat → Nat}

theorem feed_change {V : Toks} (h : V.raw = W.raw) : ∀ (k n : Nat) (s : σ), feed V n k s = feed W n k s
  | 0, _, _ => rfl
  | k + 1, n, s => by
    rw [feed, feed, h]
    exact feed_change h k (n + 1) _

theorem Serves.change {V : Toks} {s : σ} {n : Nat} (h : Serves W s n) (h1 : V.tok = W.tok := by rfl)
    (h2 : V.raw = W.raw := by rfl) : Serves V s n := by
  intro k
  rw [feed_change h2]
  rw [h1, h2]
  exact h k

theorem Ex0.ex {m : M σ α} {a : α} (h : Ex0 W p k m q l a) : Ex W p k m q l a := fun t cps _ h1 => h t cps h1

theorem At.tok {t : P σ} {cps : List Nat} (h : At W k p cps t) : t.tok = W p := by
  obtain ⟨B, log, hr, hw, -⟩ := h.r
  have h1 : 1 ≤ p := hr.pos1
  have h2 : p ≤ log.length := hr.posle
  rw [hr.tok]
  show sq log (p - 1) = W p
  rw [hw _ (by omega), Nat.sub_add_cancel h1]

theorem At.sol {t : P σ} {cps : List Nat} (h : At W k p cps t) : t.sol = solW W p := by
  obtain ⟨B, log, hr, hw, -⟩ := h.r
  have h2 : p ≤ log.length := hr.posle
  rw [hr.sol]
  exact solAt_solW hw (by show p ≤ _; omega)

theorem At.pos {t : P σ} {cps : List Nat} (h : At W k p cps t) : 1 ≤ p := by
  obtain ⟨B, log, hr, -⟩ := h.r
  exact hr.pos1

theorem Ex0.bind {m : M σ α} {g : α → M σ β} {a : α} {b : β} (h1 : Ex0 W p k m p' j a) (h2 : Ex0 W p' j (g a) q l b) :
    Ex0 W p k (m >>= g) q l b := by
  intro t cps ht r hr
  have hr' : M.bind m g t = .ok r := hr
  simp only [M.bind] at hr'
  cases hm : m t with
  | timeout => rw [hm] at hr'; cases hr'
  | panic => rw [hm] at hr'; cases hr'
  | ok x =>
    rw [hm] at hr'
    obtain ⟨e, hx, hs⟩ := h1 t cps ht x hm
    dsimp only at hr'
    rw [e] at hr'
    obtain ⟨e2, hx2, hs2⟩ := h2 _ _ hx _ hr'
    exact ⟨e2, hx2, hs.trans hs2⟩

theorem Ex.bind {m : M σ α} {g : α → M σ β} {a : α} {b : β} (h1 : Ex W p k m p' j a) (h2 : Ex W p' j (g a) q l b) :
    Ex W p k (m >>= g) q l b := by
  intro t cps hc ht r hr
  have hr' : M.bind m g t = .ok r := hr
  simp only [M.bind] at hr'
  cases hm : m t with
  | timeout => rw [hm] at hr'; cases hr'
  | panic => rw [hm] at hr'; cases hr'
  | ok x =>
    rw [hm] at hr'
    obtain ⟨e, hx, hs⟩ := h1 t cps hc ht x hm
    dsimp only at hr'
    rw [e] at hr'
    obtain ⟨e2, hx2, hs2⟩ := h2 _ _ hc hx _ hr'
    exact ⟨e2, hx2, hs.trans hs2⟩

theorem ExV.bind {V V' : Toks} {n : Nat} {m : M σ α} {g : α → M σ β} {a : α} {b : β} (h1 : ExV W V n p k m p' j a)
    (h2 : ExV V V' n p' j (g a) q l b) : ExV W V' n p k (m >>= g) q l b := by
  intro t cps hc ht r hr
  have hr' : M.bind m g t = .ok r := hr
  simp only [M.bind] at hr'
  cases hm : m t with
  | timeout => rw [hm] at hr'; cases hr'
  | panic => rw [hm] at hr'; cases hr'
  | ok x =>
    rw [hm] at hr'
    obtain ⟨e, hx, hs⟩ := h1 t cps hc ht x hm
    dsimp only at hr'
    rw [e] at hr'
    obtain ⟨e2, hx2, hs2⟩ := h2 _ _ hc hx _ hr'
    exact ⟨e2, hx2, hs.trans hs2⟩

theorem Ex.v {n : Nat} {m : M σ α} {a : α} (h : Ex W p k m q l a) (hn : n ≤ W.keep) : ExV W W n p k m q l a :=
  fun t cps hc ht r hr => ⟨(h t cps hc ht r hr).1, (h t cps hc ht r hr).2.1, (h t cps hc ht r hr).2.2.mono hn⟩

theorem ExV.ex {m : M σ α} {a : α} (h : ExV W W W.keep p k m q l a) : Ex W p k m q l a := h

theorem Ex0.pure {a : α} : Ex0 W p k (Pure.pure a : M σ α) p k a := by
  intro t cps ht r hr
  cases hr
  exact ⟨rfl, ht, rfl⟩

theorem Ex.pure {a : α} : Ex W p k (Pure.pure a : M σ α) p k a := Ex0.pure.ex

theorem ExV.pure {n : Nat} {a : α} : ExV W W n p k (Pure.pure a : M σ α) p k a := by
  intro t cps _ ht r hr
  cases hr
  exact ⟨rfl, ht, .refl⟩

theorem Ex0.tok : Ex0 W p k (tok : M σ Tok) p k (W p) := by
  intro t cps ht r hr
  cases hr
  exact ⟨ht.tok, ht, rfl⟩

theorem Ex.tok : Ex W p k (tok : M σ Tok) p k (W p) := Ex0.tok.ex

theorem Ex.startOfLine : Ex W p k (startOfLine : M σ Bool) p k (solW W p) := by
  intro t cps _ ht r hr
  cases hr
  exact ⟨ht.sol, ht, rfl⟩

theorem Ex.hasErrors : Ex W p k (hasErrors : M σ Bool) p k false := by
  intro t cps _ ht r hr
  cases hr
  exact ⟨by simp [ht.errors], ht, rfl⟩

theorem Ex.outOfFuel {a : α} : Ex W p k (outOfFuel : M σ α) q l a := by
  intro t cps _ ht r hr
  cases hr

theorem Ex.truncate {n : Nat} {b : Buf} (h : n ≤ b.length) : Ex W p k (truncate n b : M σ Buf) p k (b.take n) := by
  intro t cps _ ht r hr
  simp only [Parser.truncate, h, if_true] at hr
  cases hr
  exact ⟨rfl, ht, rfl⟩

theorem Ex.getBuf : Ex W p k (getBuf : M σ Buf) p k [] := by
  intro t cps _ ht r hr
  obtain ⟨B, log, hR, hw, hs⟩ := ht.r
  obtain ⟨a, t', A', h1, h2, ⟨h3, h3'⟩, -⟩ := wp_getBuf (Q := fun a _ A' => a = [] ∧ A' = ⟨log, p, cps⟩) hR
    (fun _ _ _ => ⟨rfl, rfl⟩)
  rw [h1] at hr
  cases hr
  subst h3; subst h3'
  refine ⟨rfl, ?_⟩
  unfold Parser.getBuf at h1
  cases hp : t.pool with
  | nil =>
    rw [hp] at h1
    cases h1
    exact ⟨ht, rfl⟩
  | cons b rest =>
    rw [hp] at h1
    cases h1
    exact ⟨⟨⟨B, log, h2, hw, hs⟩, ht.errors, ht.mode, ht.bal, ht.mem, ht.level, ht.marks⟩, rfl⟩

theorem Ex.resetAndPut {b : Buf} : Ex W p k (resetAndPut b : M σ Unit) p k () := by
  intro t cps _ ht r hr
  obtain ⟨B, log, hR, hw, hs⟩ := ht.r
  obtain ⟨a, t', A', h1, h2, h3, -⟩ := wp_resetAndPut (b := b) (Q := fun _ _ A' => A' = ⟨log, p, cps⟩) hR
    (fun _ _ _ => rfl)
  rw [h1] at hr
  cases hr
  subst h3
  refine ⟨rfl, ?_⟩
  cases h1
  exact ⟨⟨⟨B, log, h2, hw, hs⟩, ht.errors, ht.mode, ht.bal, ht.mem, ht.level, ht.marks⟩, rfl⟩

theorem markCount_bump (m : List (Pos × Int)) (pos q : Pos) :
    markCount (bump m pos) q = if q = pos then inc8 (markCount m pos) else markCount m q := by
  induction m with
  | nil =>
    simp only [bump, markCount, List.lookup]
    by_cases h : q = pos
    · subst h; simp [inc8]
    · simp [h, beq_eq_false_iff_ne.2 h]
  | cons x m ih =>
    obtain ⟨y, c⟩ := x
    simp only [bump]
    by_cases hy : y = pos
    · subst hy
      simp only [if_true, markCount, List.lookup]
      by_cases h : q = y
      · subst h; simp
      · simp [h, beq_eq_false_iff_ne.2 h]
    · simp only [hy, if_false, markCount, List.lookup] at ih ⊢
      by_cases h : q = y
      · subst h
        simp [hy]
      · have hpy : (pos == y) = false := beq_eq_false_iff_ne.2 (fun h => hy h.symm)
        simp only [beq_eq_false_iff_ne.2 h, hpy]
        exact ih

theorem Ex.mark (hF : Ground W) (hk : k p < 64) (hl : k p < l p) (hr : ∀ i, i ≠ p → k i ≤ l i) :
    Ex W p k (mark (W p) : M σ Bool) p l false := by
  intro t cps _ ht r hr'
  have hp := ht.pos
  obtain ⟨B, log, hR, hw, hs⟩ := ht.r
  obtain ⟨a, t', A', h1, h2, h3, -⟩ := wp_mark (x := W p) (Q := fun _ _ A' => A' = ⟨log, p, cps⟩) hR
    (fun _ _ _ _ => rfl)
  rw [h1] at hr'
  cases hr'
  subst h3
  cases h1
  have h0 := ht.marks.2 p hp
  have h00 := (ht.marks.1 (W p).start).1
  have h1 : markCount (bump t.marks (W p).start) (W p).start = markCount t.marks (W p).start + 1 := by
    rw [markCount_bump, if_pos rfl, inc8, if_neg (by omega)]
  have hm : (∀ pos, 0 ≤ markCount (bump t.marks (W p).start) pos ∧ markCount (bump t.marks (W p).start) pos ≤ 64) ∧
      ∀ i, 1 ≤ i → markCount (bump t.marks (W p).start) (W i).start ≤ l i := by
    refine ⟨fun pos => ?_, fun i hi1 => ?_⟩
    · by_cases h : pos = (W p).start
      · subst h; rw [h1]; omega
      · rw [markCount_bump, if_neg h]; exact ht.marks.1 pos
    · by_cases hip : i = p
      · subst hip; rw [h1]; omega
      · rw [markCount_bump, if_neg (fun h => hip (hF.inj _ _ hi1 hp h))]
        have := ht.marks.2 i hi1
        have := hr i hip
        omega
  refine ⟨?_, ⟨⟨B, log, h2, hw, hs⟩, ht.errors, ht.mode, ht.bal, ht.mem, ht.level, hm⟩, rfl⟩
  have : ¬ (64 < markCount (bump t.marks (W p).start) (W p).start) := by rw [h1]; omega
  simp [this]

theorem At.weaken {t : P σ} {cps : List Nat} (h : At W k p cps t) (hk : ∀ i, k i ≤ l i) : At W l p cps t :=
  ⟨h.r, h.errors, h.mode, h.bal, h.mem, h.level, h.marks.1, fun i hi1 => by
    have := h.marks.2 i hi1
    have := hk i
    omega⟩

theorem Ex.weaken {m : M σ α} {a : α} (h : Ex W p k m q l a) (hl : ∀ i, l i ≤ j i) : Ex W p k m q j a :=
  fun t cps hc ht r hr => ⟨(h t cps hc ht r hr).1, (h t cps hc ht r hr).2.1.weaken hl, (h t cps hc ht r hr).2.2⟩

theorem ExV.weaken {V : Toks} {n : Nat} {m : M σ α} {a : α} (h : ExV W V n p k m q l a) (hl : ∀ i, l i ≤ j i) : ExV W V n p k m q j a :=
  fun t cps hc ht r hr => let ⟨h1, h2, h3⟩ := h t cps hc ht r hr; ⟨h1, h2.weaken hl, h3⟩

theorem Ex.start {m : M σ α} {a : α} (h : Ex W p k m q l a) (hj : ∀ i, j i ≤ k i) : Ex W p j m q l a :=
  fun t cps hc ht r hr => h t cps hc (ht.weaken hj) r hr

/-- Before token `lo` anything may have been counted, from there on up to before token `hi` at most `c` failures at every
token, and none from token `hi` on. -/
def lv (lo c hi : Nat) : Nat → Nat := fun i => if i < lo then 64 else if i < hi then c else 0

theorem lv_mono {lo c hi lo' c' hi' : Nat} (h1 : lo ≤ lo') (h2 : c ≤ c') (h3 : hi ≤ hi') (h4 : c' ≤ 64) (i : Nat) :
    lv lo c hi i ≤ lv lo' c' hi' i := by
  unfold lv
  repeat' split
  all_goals omega

theorem lv_fresh {lo c hi lo' c' hi' : Nat} (h1 : lo ≤ lo') (h2 : hi ≤ lo') (h3 : c ≤ 64) (i : Nat) :
    lv lo c hi i ≤ lv lo' c' hi' i := by
  unfold lv
  repeat' split
  all_goals omega

theorem Ex.mark_lv {lo c hi : Nat} (hF : Ground W) (h1 : lo ≤ p) (h2 : p < hi) (h3 : c < 64) :
    Ex W p (lv lo c hi) (Parser.mark (W p) : M σ Bool) p (lv lo (c + 1) hi) false := by
  refine Ex.mark hF ?_ ?_ (fun i _ => lv_mono (Nat.le_refl _) (by omega) (Nat.le_refl _) (by omega) i)
  · simp only [lv]; rw [if_neg (by omega), if_pos h2]; exact h3
  · simp only [lv]; rw [if_neg (by omega), if_pos h2, if_neg (by omega), if_pos h2]; omega

theorem stack_bal {b : BalanceCheck.Checker TokType} (h : Bal W p b) : b.stack = (stk W.tok p).reverse := by
  rw [BalanceCheck.Checker.stack, h.len, h.cells]

theorem Bal.long {b : BalanceCheck.Checker TokType} (h : Bal W p b) : (stk W.tok p).length ≤ b.cells.length := by
  have := congrArg List.length h.cells
  simp only [List.length_take, List.length_reverse] at this
  omega

/-- What the checker does with a token. -/
theorem add_bal (hG : Ground W) {b : BalanceCheck.Checker TokType} (h : Bal W p b) :
    (BalanceCheck.add b (W (p + 1)).type).1 = true ∧ Bal W (p + 1) (BalanceCheck.add b (W (p + 1)).type).2 ∧
    ∀ n, n ≤ (stk W.tok p).length ∨ isOpen (W (p + 1)) = false →
      (BalanceCheck.add b (W (p + 1)).type).2.cells.take n = b.cells.take n := by
  have hst := stack_bal h
  have hlong := h.long
  obtain ⟨hpairs, hok, hlen, hcells⟩ := h
  by_cases ho : isOpen (W (p + 1)) = true
  · have hs := stk_open ho
    have hadd : BalanceCheck.add b (W (p + 1)).type = (true, BalanceCheck.pushCell b (W (p + 1)).type) := by
      simp only [isOpen, Bool.or_eq_true, decide_eq_true_eq] at ho
      unfold BalanceCheck.add
      rw [hpairs, hok]
      rcases ho with ho | ho <;> rw [ho] <;> rfl
    rw [hadd]
    refine ⟨rfl, ⟨hpairs, hok, ?_, ?_⟩, ?_⟩
    · show b.len + 1 = _
      rw [hs, List.length_cons, hlen]
    · show (b.cells.take b.len ++ (W (p + 1)).type :: b.cells.drop (b.len + 1)).take _ = _
      rw [hs, hlen, hcells, List.length_cons, List.reverse_cons,
        show (stk W.tok p).length + 1 = (stk W.tok p).reverse.length + 1 from by simp, List.take_length_add_append]
      simp
    · intro n hn
      rcases hn with hn | hn
      · show (b.cells.take b.len ++ (W (p + 1)).type :: b.cells.drop (b.len + 1)).take n = _
        rw [List.take_append_of_le_length (by simp; omega), List.take_take, Nat.min_eq_left (by omega)]
      · rw [ho] at hn; cases hn
  · have ho' : isOpen (W (p + 1)) = false := by simpa using ho
    by_cases hc : isClose (W (p + 1)) = true
    · have hs := stk_close hc
      have hadd : BalanceCheck.add b (W (p + 1)).type = (true, { b with len := b.len - 1 }) ∧ stk W.tok p ≠ [] := by
        simp only [isClose, Bool.or_eq_true, decide_eq_true_eq] at hc
        rcases hc with hc | hc
        · obtain ⟨s, e⟩ := hG.seq _ hc
          refine ⟨?_, by simp [e]⟩
          have hp : BalanceCheck.canPop b (W (p + 1)).type = true := by
            rw [BalanceCheck.canPop, hst, e, hc, hpairs]
            simp [BalanceCheck.openerOf, BalanceCheck.parserPairs]
          rw [hc] at hp
          unfold BalanceCheck.add
          rw [hc, hpairs, hok, hp]
          rfl
        · obtain ⟨s, e⟩ := hG.map _ hc
          refine ⟨?_, by simp [e]⟩
          have hp : BalanceCheck.canPop b (W (p + 1)).type = true := by
            rw [BalanceCheck.canPop, hst, e, hc, hpairs]
            simp [BalanceCheck.openerOf, BalanceCheck.parserPairs]
          rw [hc] at hp
          unfold BalanceCheck.add
          rw [hc, hpairs, hok, hp]
          rfl
      rw [hadd.1]
      refine ⟨rfl, ⟨hpairs, hok, ?_, ?_⟩, fun n _ => rfl⟩
      · show b.len - 1 = _
        rw [hs, hlen, List.length_tail]
      · show b.cells.take _ = _
        rw [hs]
        cases he : stk W.tok p with
        | nil => exact absurd he hadd.2
        | cons x s =>
          rw [he, List.length_cons] at hcells
          have h2 := congrArg (List.take s.length) hcells
          rw [List.take_take, Nat.min_eq_left (Nat.le_succ _), List.reverse_cons, List.take_append_of_le_length (by simp),
            List.take_of_length_le (l := s.reverse) (by simp)] at h2
          exact h2
    · have hc' : isClose (W (p + 1)) = false := by simpa using hc
      have hs := stk_keep ho' hc'
      have hadd : BalanceCheck.add b (W (p + 1)).type = (true, b) := by
        simp only [isOpen, isClose, Bool.or_eq_false_iff, decide_eq_false_iff_not] at ho' hc'
        unfold BalanceCheck.add
        rw [hpairs, hok]
        cases ht : (W (p + 1)).type <;> first | rfl | simp_all
      rw [hadd]
      exact ⟨rfl, ⟨hpairs, hok, by rw [hs, hlen], by rw [hs, hcells]⟩, fun n _ => rfl⟩

theorem add_other {b : BalanceCheck.Checker TokType} {x : Tok} (hp : b.pairs = BalanceCheck.parserPairs) (hb : b.bad = false)
    (h1 : isOpen x = false) (h2 : isClose x = false) : (BalanceCheck.add b x.type).2 = b := by
  simp only [isOpen, isClose, Bool.or_eq_false_iff, decide_eq_false_iff_not] at h1 h2
  unfold BalanceCheck.add
  rw [hp, hb]
  cases ht : x.type <;> first | rfl | simp_all

/-- The bookkeeping of brackets. -/
theorem balance_bal (hG : Ground W) {t : P σ} (ht : t.tok = W (p + 1)) (hb : Bal W p t.bal) :
    balance t = { t with bal := (BalanceCheck.add t.bal (W (p + 1)).type).2 } := by
  have hadd := (add_bal hG hb).1
  have hfin := hG.fin p
  obtain ⟨src, tk, saved, sol, errors, bal, marks, pool⟩ := t
  simp only at ht hb hadd ⊢
  subst ht
  unfold balance
  have hother := add_other (x := W (p + 1)) hb.pairs hb.ok
  have hlen := hb.len
  have hok := hb.ok
  simp only [isOpen, isClose, Bool.or_eq_false_iff, decide_eq_false_iff_not] at hother
  cases h : (W (p + 1)).type
  case eof =>
    rw [h] at hother
    rw [hfin h] at hlen
    rw [hother (by simp) (by simp)]
    simp [BalanceCheck.isBalanced, hlen, hok]
  all_goals
    rw [h] at hadd hother
    first
    | done
    | (simp [h, hadd]; done)
    | (have h2 := hother (by simp) (by simp); simp [h, h2]; done)

/-- Reading a token: `V` tells the level at the next token. -/
theorem ExV.next {V : Toks} {N : Nat} (hG : Ground W) (hC : Calm W p) (hV : V = ⟨W.tok, W.raw, W.mode, (stk W.tok p).length, V.hold⟩)
    (hN : N ≤ (stk W.tok p).length ∨ isOpen (W (p + 1)) = false) : ExV W V N p k (next : M σ Unit) (p + 1) k () := by
  intro t cps hc ht r hr
  obtain ⟨B, log, hR, hw, hs⟩ := ht.r
  have key : ∃ log', R B (step t) ⟨log', p + 1, cps⟩ ∧ (∀ i < log'.length, sq log' i = W (i + 1)) ∧
      Serves W (step t).src.stream log'.length ∧ TokenStream.setRaw W.mode (step t).src.stream = (step t).src.stream := by
    cases hi : t.src.ind with
    | none =>
      obtain ⟨hp, h⟩ := step_pull hR hi
      have hs' := hs.pull (by have : W.raw (p + 1) = W.mode := hC; rw [← show p = log.length from hp, this]; exact ht.mode)
      refine ⟨_, h, ?_, ?_⟩
      · intro i hi
        simp only [List.length_append, List.length_singleton] at hi
        by_cases hl : i < log.length
        · rw [sq_append hl]; exact hw i hl
        · have : i = log.length := by omega
          subst this
          rw [hs'.1]
          simp [sq]
      · obtain ⟨-, e, -⟩ := idx_next_pull t.src log.length (fun _ => (TokenStream.pull t.src.stream).1) hi rfl
        show Serves W (CPAccessor.next TokenStream.pull t.src).2.stream _ ∧
          TokenStream.setRaw _ (CPAccessor.next TokenStream.pull t.src).2.stream = (CPAccessor.next TokenStream.pull t.src).2.stream
        rw [e]
        exact ⟨by simpa using hs'.2, StreamOk.raw_keep _ _ ht.mode⟩
    | some i =>
      obtain ⟨-, h⟩ := step_buf hR hi (by simp [hc])
      refine ⟨log, h, hw, ?_⟩
      obtain ⟨-, e, -⟩ := idx_next_buf t.src log.length (sq log) hi
      show Serves W (CPAccessor.next TokenStream.pull t.src).2.stream _ ∧
        TokenStream.setRaw _ (CPAccessor.next TokenStream.pull t.src).2.stream = (CPAccessor.next TokenStream.pull t.src).2.stream
      rw [e]
      exact ⟨hs, ht.mode⟩
  obtain ⟨log', hR', hw', hs', hm'⟩ := key
  rw [next_eq t hR'.rel.np] at hr
  have htok : (step t).tok = W (p + 1) := by
    rw [hR'.tok]
    have h2 : p + 1 ≤ log'.length := hR'.posle
    show sq log' (p + 1 - 1) = W (p + 1)
    rw [Nat.add_sub_cancel, hw' _ (by omega)]
  obtain ⟨-, hb, hcell⟩ := add_bal hG (b := (step t).bal) ht.bal
  rw [balance_bal hG htok (show Bal W p (step t).bal from ht.bal)] at hr
  cases hr
  refine ⟨rfl, ?_, hcell N hN⟩
  rw [hV]
  exact ⟨⟨B, log', ⟨hR'.rel, hR'.savedOk, hR'.sinv, hR'.budget, hR'.pos1, hR'.posle, hR'.tok, hR'.sol, hR'.saved, hR'.sorted, hR'.cps1, hR'.pool, hR'.boms⟩,
    hw', hs'.change⟩, ht.errors, hm', ⟨hb.pairs, hb.ok, hb.len, hb.cells⟩, ht.mem, rfl, ht.marks⟩

/-- Reading a token outside of brackets. -/
theorem Ex.nextG (hG : Ground W) (hC : Calm W p) (hb : Free (W p))
    (h3 : W.hold = true → isOpen (W (p + 1)) = false) : Ex W p k (next : M σ Unit) (p + 1) k () := by
  intro t cps hc ht r hr
  have hp := ht.pos
  have hl := ht.level
  have he : stk W.tok p = stk W.tok (p - 1) := by
    obtain ⟨q, rfl⟩ : ∃ q, p = q + 1 := ⟨p - 1, by omega⟩
    exact stk_keep hb.1 hb.2
  refine ExV.next (V := W) hG hC ?_ ?_ t cps hc ht r hr
  · rw [he, hl]
  · cases hh : W.hold with
    | true => exact .inr (h3 hh)
    | false => left; simp [Toks.keep, hh, he, hl]

theorem Ex.next (hF : Flat W) (hC : Calm W p) (hb : Free (W p)) : Ex W p k (next : M σ Unit) (p + 1) k () :=
  Ex.nextG hF.toGround hC hb (by simp [hF.free])

/-- At the end of a line. -/
theorem Ex.nextL (hF : Flat W) (h : isBreakOrEOF (W p) = true) : Ex W p k (Parser.next : M σ Unit) (p + 1) k () := by
  intro t cps hc ht
  refine Ex.next hF (hF.brk _ ht.pos h) ?_ t cps hc ht
  simp only [isBreakOrEOF, Bool.or_eq_true, decide_eq_true_eq] at h
  rcases h with h | h
  · exact Free.of h
  · exact Free.of h

/-- Through an opening bracket. -/
theorem ExV.enter (hG : Ground W) (hC : Calm W p) (h : isOpen (W p) = true) {N : Nat} (hN : N ≤ W.level + 1) :
    ExV W W.up N p k (Parser.next : M σ Unit) (p + 1) k () := by
  intro t cps hc ht r hr
  have hp := ht.pos
  have hl := ht.level
  have he : (stk W.tok p).length = W.level + 1 := by
    obtain ⟨q, rfl⟩ : ∃ q, p = q + 1 := ⟨p - 1, by omega⟩
    rw [stk_open h, List.length_cons]
    simpa using hl
  refine ExV.next (V := W.up) hG hC ?_ ?_ t cps hc ht r hr
  · rw [he]
  · exact .inl (by omega)

/-- Through a closing bracket. -/
theorem ExV.leave (hG : Ground W) (hC : Calm W p) (h : isClose (W p) = true) (ho : isOpen (W (p + 1)) = false) {N : Nat} :
    ExV W.up W N p k (Parser.next : M σ Unit) (p + 1) k () := by
  intro t cps hc ht r hr
  have hp := ht.pos
  have hl : (stk W.tok (p - 1)).length = W.level + 1 := ht.level
  have he : (stk W.tok p).length = W.level := by
    obtain ⟨q, rfl⟩ : ∃ q, p = q + 1 := ⟨p - 1, by omega⟩
    rw [stk_close h, List.length_tail]
    simp only [Nat.add_sub_cancel] at hl
    omega
  refine ExV.next (W := W.up) (V := W) ⟨hG.seq, hG.map, hG.fin, hG.inj⟩ hC ?_ (.inr ho) t cps hc ht r hr
  show W = ⟨W.tok, W.raw, W.mode, (stk W.tok p).length, W.hold⟩
  rw [he]

theorem At.setCheckpoint {t : P σ} {cps : List Nat} (ht : At W k p cps t) :
    ∃ t', (setCheckpoint : M σ Unit) t = .ok ((), t') ∧ At W k p (p :: cps) t' ∧ ∀ n, Same n t t' := by
  obtain ⟨B, log, hR, hw, hs⟩ := ht.r
  obtain ⟨a, t', A', h1, h2, h3, -⟩ := wp_setCheckpoint (Q := fun _ _ A' => A' = ⟨log, p, p :: cps⟩) hR
    (fun _ _ _ _ => rfl)
  subst h3
  refine ⟨t', h1, ?_⟩
  cases h1
  refine ⟨⟨⟨B, log, h2, hw, ?_⟩, ht.errors, ?_, ht.bal, ?_, ht.level, ht.marks⟩, fun _ => rfl⟩
  · show Serves W (CPAccessor.setCheckpoint t.src).stream _
    rw [setCheckpoint_stream]; exact hs
  · show TokenStream.setRaw _ (CPAccessor.setCheckpoint t.src).stream = (CPAccessor.setCheckpoint t.src).stream
    rw [setCheckpoint_stream]; exact ht.mode
  · show BalanceCheck.memento t.bal :: t.saved.map Saved.memento = _
    rw [ht.mem, BalanceCheck.memento, ht.bal.len, ht.bal.ok]
    rfl

theorem At.commit {t : P σ} {c : Nat} {cps : List Nat} (ht : At W k p (c :: cps) t) :
    ∃ t', (commit : M σ Unit) t = .ok ((), t') ∧ At W k p cps t' ∧ ∀ n, Same n t t' := by
  obtain ⟨B, log, hR, hw, hs⟩ := ht.r
  obtain ⟨a, t', A', h1, h2, h3, -⟩ := wp_commit (Q := fun _ _ A' => A' = ⟨log, p, cps⟩) hR
    (fun _ _ _ _ => rfl)
  subst h3
  refine ⟨t', h1, ?_⟩
  cases h1
  refine ⟨⟨⟨B, log, h2, hw, ?_⟩, ht.errors, ?_, ht.bal, ?_, ht.level, ht.marks⟩, fun _ => rfl⟩
  · show Serves W (CPAccessor.commit t.src).stream _
    rw [commit_stream]; exact hs
  · show TokenStream.setRaw _ (CPAccessor.commit t.src).stream = (CPAccessor.commit t.src).stream
    rw [commit_stream]; exact ht.mode
  · show t.saved.tail.map Saved.memento = _
    rw [List.map_tail, ht.mem]
    rfl

/-- The checkpoint at token `c` is at the present level, and its brackets are as they were. -/
structure Good (W : Toks) (c : Nat) (t : P σ) : Prop where
  level : (stk W.tok (c - 1)).length = W.level
  keep : (stk W.tok c).length ≤ W.keep
  cells : t.bal.cells.take (stk W.tok c).length = (stk W.tok c).reverse

theorem Good.same {c : Nat} {t t' : P σ} (h : Good W c t) (hs : Same W.keep t t') : Good W c t' :=
  ⟨h.level, h.keep, by rw [← h.cells]; exact hs.mono h.keep⟩

/-- A checkpoint can be made here which one can come back to. -/
theorem At.good {t : P σ} {cps : List Nat} (ht : At W k p cps t) (h : W.hold = true ∨ isOpen (W p) = false) : Good W p t := by
  refine ⟨ht.level, ?_, ht.bal.cells⟩
  have hp := ht.pos
  have hl := ht.level
  obtain ⟨q, rfl⟩ : ∃ q, p = q + 1 := ⟨p - 1, by omega⟩
  simp only [Nat.add_sub_cancel] at hl
  unfold Toks.keep
  rw [← hl, stk]
  rcases h with h | h
  · rw [h]
    split
    · simp
    · split
      · simp; omega
      · simp
  · rw [if_neg (by simp [h])]
    split
    · simp; omega
    · omega

/-- The same tokens in the same mode. -/
def Like (V W : Toks) : Prop := V.tok = W.tok ∧ V.raw = W.raw ∧ V.mode = W.mode

/-- Back to a checkpoint, which may be at another level. -/
theorem At.rollbackV {V W : Toks} {t : P σ} {c : Nat} {cps : List Nat} (hV : Like V W) (ht : At V k p (c :: cps) t) (hg : Good W c t) :
    ∃ t', (rollback : M σ Unit) t = .ok ((), t') ∧ At W k c cps t' ∧ ∀ n, Same n t t' := by
  obtain ⟨wtok, wraw, wmode, wlevel, whold⟩ := W
  obtain ⟨vtok, vraw, vmode, vlevel, vhold⟩ := V
  obtain ⟨h1, h2, h3⟩ := hV
  simp only at h1 h2 h3
  subst h1 h2 h3
  obtain ⟨B, log, hR, hw, hs⟩ := ht.r
  obtain ⟨a, t', A', h1, h2, h3, -⟩ := wp_rollback (Q := fun _ _ A' => A' = ⟨log, c, cps⟩) hR rfl
    (fun _ _ => rfl)
  subst h3
  refine ⟨t', h1, ?_⟩
  unfold Parser.rollback at h1
  have hsv := hR.saved
  cases hsd : t.saved with
  | nil => simp [hsd] at hsv
  | cons s rest =>
    rw [hsd] at h1
    have hmem := ht.mem
    rw [hsd] at hmem
    simp only [List.map_cons, List.cons.injEq] at hmem
    dsimp only at h1
    split at h1
    · cases h1
    · cases h1
      have hlen : (stk vtok c).length ≤ t.bal.cells.length := by
        have := congrArg List.length hg.cells
        simp only [List.length_take, List.length_reverse] at this
        omega
      refine ⟨⟨⟨B, log, h2, hw, ?_⟩, ht.errors, ?_, ⟨ht.bal.pairs, ?_, ?_, hg.cells⟩, hmem.2, hg.level, ht.marks⟩, fun _ => rfl⟩
      · show Serves _ (CPAccessor.rollback t.src).2.stream _
        rw [rollback_stream]; exact hs.change
      · show TokenStream.setRaw _ (CPAccessor.rollback t.src).2.stream = (CPAccessor.rollback t.src).2.stream
        rw [rollback_stream]; exact ht.mode
      · show s.memento.bad = false
        rw [hmem.1]
      · show min s.memento.stackSize t.bal.cells.length = _
        rw [hmem.1]
        exact Nat.min_eq_left hlen

theorem At.rollback {t : P σ} {c : Nat} {cps : List Nat} (ht : At W k p (c :: cps) t) (hg : Good W c t) :
    ∃ t', (Parser.rollback : M σ Unit) t = .ok ((), t') ∧ At W k c cps t' ∧ ∀ n, Same n t t' :=
  At.rollbackV ⟨rfl, rfl, rfl⟩ ht hg

theorem Ex.attemptT0 {valid : α → Bool} {m : M σ α} {a : α} (h : Ex W p k m q l a) (hv : valid a = true) :
    Ex0 W p k (attempt valid m) q l a := by
  intro t cps ht r hr
  obtain ⟨t1, e1, h1, s1⟩ := ht.setCheckpoint
  unfold attempt at hr
  have hr' : M.bind Parser.setCheckpoint _ t = .ok r := hr
  simp only [M.bind, e1] at hr'
  have hr2 : M.bind m _ t1 = .ok r := hr'
  simp only [M.bind] at hr2
  cases hm : m t1 with
  | timeout => rw [hm] at hr2; cases hr2
  | panic => rw [hm] at hr2; cases hr2
  | ok x =>
    rw [hm] at hr2
    obtain ⟨e, hx, s2⟩ := h t1 _ (by simp) h1 x hm
    dsimp only at hr2
    rw [e, if_pos hv] at hr2
    obtain ⟨t2, e2, h2, s3⟩ := hx.commit
    have hr3 : M.bind Parser.commit _ x.2 = .ok r := hr2
    simp only [M.bind, e2] at hr3
    cases hr3
    exact ⟨rfl, h2, (s1 _).trans (s2.trans (s3 _))⟩

/-- A failing attempt at a token which is no opening bracket, or which leaves that bracket alone.  It may end at another level. -/
theorem ExV.attempt0 {V : Toks} {valid : α → Bool} {m : M σ α} {a : α} (hn : W.hold = true ∨ isOpen (W p) = false) (hV : Like V W)
    (h : ∀ t cps, cps ≠ [] → At W k p cps t → ∀ r, m t = .ok r → r.1 = a ∧ At V l q cps r.2 ∧ Same W.keep t r.2)
    (hv : valid a = false) : Ex0 W p k (Parser.attempt valid m) p l a := by
  intro t cps ht r hr
  obtain ⟨t1, e1, h1, s1⟩ := ht.setCheckpoint
  unfold Parser.attempt at hr
  have hr' : M.bind Parser.setCheckpoint _ t = .ok r := hr
  simp only [M.bind, e1] at hr'
  have hr2 : M.bind m _ t1 = .ok r := hr'
  simp only [M.bind] at hr2
  cases hm : m t1 with
  | timeout => rw [hm] at hr2; cases hr2
  | panic => rw [hm] at hr2; cases hr2
  | ok x =>
    rw [hm] at hr2
    obtain ⟨e, hx, s2⟩ := h t1 _ (by simp) h1 x hm
    dsimp only at hr2
    rw [e, if_neg (by simp [hv])] at hr2
    obtain ⟨t2, e2, h2, s3⟩ := At.rollbackV hV hx ((h1.good hn).same s2)
    have hr3 : M.bind Parser.rollback _ x.2 = .ok r := hr2
    simp only [M.bind, e2] at hr3
    cases hr3
    exact ⟨rfl, h2, (s1 _).trans (s2.trans (s3 _))⟩

theorem Ex.attemptF0 {valid : α → Bool} {m : M σ α} {a : α} (hn : W.hold = true ∨ isOpen (W p) = false) (h : Ex W p k m q l a)
    (hv : valid a = false) : Ex0 W p k (attempt valid m) p l a := ExV.attempt0 hn ⟨rfl, rfl, rfl⟩ h hv

theorem At.held {t : P σ} {cps : List Nat} (h : At W k p cps t) : At W.held k p cps t :=
  ⟨by obtain ⟨B, log, h1, h2, h3⟩ := h.r; exact ⟨B, log, h1, h2, h3.change⟩, h.errors, h.mode,
    ⟨h.bal.pairs, h.bal.ok, h.bal.len, h.bal.cells⟩, h.mem, h.level, h.marks⟩

theorem At.unheld {t : P σ} {cps : List Nat} (h : At W.held k p cps t) : At W k p cps t :=
  ⟨by obtain ⟨B, log, h1, h2, h3⟩ := h.r; exact ⟨B, log, h1, h2, h3.change⟩, h.errors, h.mode,
    ⟨h.bal.pairs, h.bal.ok, h.bal.len, h.bal.cells⟩, h.mem, h.level, h.marks⟩

theorem keep_held : W.keep ≤ W.held.keep := by
  unfold Toks.keep
  cases W.hold <;> simp

theorem Ex0.unheld {m : M σ α} {a : α} (h : Ex0 W.held p k m q l a) : Ex0 W p k m q l a :=
  fun t cps ht r hr => ⟨(h t cps ht.held r hr).1, (h t cps ht.held r hr).2.1.unheld, (h t cps ht.held r hr).2.2.mono keep_held⟩

theorem ExV.unheld {V : Toks} {m : M σ α} {a : α} (h : ExV W.held V W.held.keep p k m q l a) : ExV W V W.keep p k m q l a :=
  fun t cps hc ht r hr => let ⟨h1, h2, h3⟩ := h t cps hc ht.held r hr; ⟨h1, h2, h3.mono keep_held⟩

theorem Ex.unheld {m : M σ α} {a : α} (h : Ex W.held p k m q l a) : Ex W p k m q l a :=
  fun t cps hc ht r hr => ⟨(h t cps hc ht.held r hr).1, (h t cps hc ht.held r hr).2.1.unheld, (h t cps hc ht.held r hr).2.2.mono keep_held⟩

theorem Ex.attemptT {valid : α → Bool} {m : M σ α} {a : α} (h : Ex W p k m q l a) (hv : valid a = true) :
    Ex W p k (attempt valid m) q l a := (h.attemptT0 hv).ex

/-- A failing attempt which leaves the next bracket alone. -/
theorem Ex.attemptF {valid : α → Bool} {m : M σ α} {a : α} (h : Ex W.held p k m q l a) (hv : valid a = false) :
    Ex W p k (attempt valid m) p l a := ((Ex.attemptF0 (.inl rfl) h hv).unheld).ex

/-- A failing attempt at a token which is no bracket. -/
theorem Ex.attemptN {valid : α → Bool} {m : M σ α} {a : α} (h : Ex W p k m q l a) (hn : W.hold = true ∨ isOpen (W p) = false)
    (hv : valid a = false) : Ex W p k (attempt valid m) p l a := (h.attemptF0 hn hv).ex

/-- A failing attempt which ends at another level. -/
theorem ExV.attemptN {V : Toks} {valid : α → Bool} {m : M σ α} {a : α} (h : ExV W V W.keep p k m q l a) (hV : Like V W)
    (hn : W.hold = true ∨ isOpen (W p) = false) (hv : valid a = false) : Ex W p k (attempt valid m) p l a :=
  (ExV.attempt0 hn hV h hv).ex

theorem ExV.attemptF {V : Toks} {valid : α → Bool} {m : M σ α} {a : α} (h : ExV W.held V W.held.keep p k m q l a) (hV : Like V W)
    (hv : valid a = false) : Ex W p k (attempt valid m) p l a :=
  ((ExV.attempt0 (W := W.held) (.inl rfl) hV h hv).unheld).ex

/-- The same for steps which leave with other checkpoints: `L` and `L'` lie above those at the start. -/
def ExS (W : Toks) (p : Nat) (k : Nat → Nat) (L : List Nat) (m : M σ α) (q : Nat) (l : Nat → Nat) (L' : List Nat) (a : α) : Prop :=
  ∀ t cps, cps ≠ [] → At W k p (L ++ cps) t → (∀ c ∈ L, Good W c t) → ∀ r, m t = .ok r → r.1 = a ∧ At W l q (L' ++ cps) r.2 ∧
    (∀ c ∈ L', Good W c r.2) ∧ Same W.keep t r.2

theorem ExS.ex {m : M σ α} {a : α} (h : ExS W p k [] m q l [] a) : Ex W p k m q l a :=
  fun t cps hc ht r hr => by
    obtain ⟨h1, h2, -, h3⟩ := h t cps hc ht (by simp) r hr
    exact ⟨h1, h2, h3⟩

theorem Ex.s {m : M σ α} {a : α} {L : List Nat} (h : Ex W p k m q l a) : ExS W p k L m q l L a :=
  fun t cps hc ht hg r hr => by
    obtain ⟨h1, h2, h3⟩ := h t (L ++ cps) (by simp [hc]) ht r hr
    exact ⟨h1, h2, fun c hc => (hg c hc).same h3, h3⟩

theorem ExS.bind {m : M σ α} {g : α → M σ β} {a : α} {b : β} {L L' L'' : List Nat} (h1 : ExS W p k L m p' j L' a)
    (h2 : ExS W p' j L' (g a) q l L'' b) : ExS W p k L (m >>= g) q l L'' b := by
  intro t cps hc ht hg r hr
  have hr' : M.bind m g t = .ok r := hr
  simp only [M.bind] at hr'
  cases hm : m t with
  | timeout => rw [hm] at hr'; cases hr'
  | panic => rw [hm] at hr'; cases hr'
  | ok x =>
    rw [hm] at hr'
    obtain ⟨e, hx, hg2, hs⟩ := h1 t cps hc ht hg x hm
    dsimp only at hr'
    rw [e] at hr'
    obtain ⟨e2, hx2, hg3, hs2⟩ := h2 _ _ hc hx hg2 _ hr'
    exact ⟨e2, hx2, hg3, hs.trans hs2⟩

theorem ExS.setCheckpoint {L : List Nat} (hn : W.hold = true ∨ isOpen (W p) = false) :
    ExS W p k L (setCheckpoint : M σ Unit) p k (p :: L) () := by
  intro t cps _ ht hg r hr
  obtain ⟨t', e, h, hs⟩ := ht.setCheckpoint
  rw [e] at hr; cases hr
  refine ⟨rfl, h, fun c hc => ?_, hs _⟩
  rcases List.mem_cons.1 hc with rfl | hc
  · exact h.good hn
  · exact (hg c hc).same (hs _)

theorem ExS.commit {c : Nat} {L : List Nat} : ExS W p k (c :: L) (commit : M σ Unit) p k L () := by
  intro t cps _ ht hg r hr
  obtain ⟨t', e, h, hs⟩ := At.commit (c := c) (cps := L ++ cps) ht
  rw [e] at hr; cases hr
  exact ⟨rfl, h, fun c' hc => (hg c' (by simp [hc])).same (hs _), hs _⟩

theorem ExS.rollback {c : Nat} {L : List Nat} : ExS W p k (c :: L) (rollback : M σ Unit) c k L () := by
  intro t cps _ ht hg r hr
  obtain ⟨t', e, h, hs⟩ := At.rollback (c := c) (cps := L ++ cps) ht (hg c (by simp))
  rw [e] at hr; cases hr
  exact ⟨rfl, h, fun c' hc => (hg c' (by simp [hc])).same (hs _), hs _⟩

/-- The same tokens with the tokenizer in the other mode. -/
abbrev Toks.inMode (W : Toks) (v : Bool) : Toks := ⟨W.tok, W.raw, v, W.level, W.hold⟩

theorem At.setRaw {t : P σ} {cps : List Nat} (ht : At W k p cps t) (v : Bool) :
    ∃ t', (setRaw v : M σ Unit) t = .ok ((), t') ∧ At (W.inMode v) k p cps t' ∧ ∀ n, Same n t t' := by
  obtain ⟨B, log, hR, hw, hs⟩ := ht.r
  obtain ⟨a, t', A', h1, h2, h3, -⟩ := wp_setRaw (v := v) (Q := fun _ _ A' => A' = ⟨log, p, cps⟩) hR
    (fun _ _ _ _ => rfl)
  subst h3
  refine ⟨t', h1, ?_⟩
  cases h1
  exact ⟨⟨⟨B, log, h2, hw, (hs.setRaw v).change⟩, ht.errors, StreamOk.raw_raw _ _ _,
    ⟨ht.bal.pairs, ht.bal.ok, ht.bal.len, ht.bal.cells⟩, ht.mem, ht.level, ht.marks⟩, fun _ => rfl⟩

/-- A step in the other mode. -/
theorem Ex.inMode {m : M σ α} {a : α} {v : Bool} (h : Ex (W.inMode v) p k m q l a) : Ex W p k (do
    Parser.setRaw v
    let b ← m
    Parser.setRaw W.mode
    Pure.pure b) q l a := by
  intro t cps hc ht r hr
  obtain ⟨t1, e1, h1, s1⟩ := ht.setRaw v
  have hr' : M.bind (Parser.setRaw v) _ t = .ok r := hr
  simp only [M.bind, e1] at hr'
  have hr2 : M.bind m _ t1 = .ok r := hr'
  simp only [M.bind] at hr2
  cases hm : m t1 with
  | timeout => rw [hm] at hr2; cases hr2
  | panic => rw [hm] at hr2; cases hr2
  | ok x =>
    rw [hm] at hr2
    obtain ⟨e, hx, s2⟩ := h t1 cps hc h1 x hm
    dsimp only at hr2
    obtain ⟨t2, e2, h2, s3⟩ := hx.setRaw W.mode
    have hr3 : M.bind (Parser.setRaw W.mode) _ x.2 = .ok r := hr2
    simp only [M.bind, e2] at hr3
    cases hr3
    exact ⟨e, h2, (s1 _).trans (Same.trans s2 (s3 _))⟩

theorem Ex.loopStop {body : α → M σ (Bool × α)} {f : Nat} {x y : α} (h : Ex W p k (body x) q l (false, y)) :
    Ex W p k (loop f body x) q l y := by
  cases f with
  | zero => exact Ex.outOfFuel
  | succ f =>
    rw [loop]
    refine Ex.bind h ?_
    exact Ex.pure

theorem Ex.loopGo {body : α → M σ (Bool × α)} {f : Nat} {x y z : α} (h : Ex W p k (body x) p' j (true, y))
    (hr : ∀ f, Ex W p' j (loop f body y) q l z) : Ex W p k (loop f body x) q l z := by
  cases f with
  | zero => exact Ex.outOfFuel
  | succ f =>
    rw [loop]
    refine Ex.bind h ?_
    exact hr f

theorem Ex.triesStop {body : α → M σ (Bool × α)} {f : Nat} {x y : α} (h : Ex W.held p k (body x) q l (false, y)) :
    Ex W p k (tries f body x) p l y := Ex.loopStop (Ex.attemptF h rfl)

theorem Ex.triesStopN {body : α → M σ (Bool × α)} {f : Nat} {x y : α} (h : Ex W p k (body x) q l (false, y))
    (hn : W.hold = true ∨ isOpen (W p) = false) : Ex W p k (tries f body x) p l y := Ex.loopStop (Ex.attemptN h hn rfl)

theorem Ex.triesGo {body : α → M σ (Bool × α)} {f : Nat} {x y z : α} (h : Ex W p k (body x) p' j (true, y))
    (hr : ∀ f, Ex W p' j (loop f (fun x => attempt Prod.fst (body x)) y) q l z) : Ex W p k (tries f body x) q l z :=
  Ex.loopGo (h.attemptT rfl) hr

end Verif.Parser
