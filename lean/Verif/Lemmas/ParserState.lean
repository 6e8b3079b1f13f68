import Verif.Lemmas.CPAccessor
import Verif.Model.ParserDocs

/-!
The state of the parser seen from outside: the tokens read so far, the position in them and the positions of the open
checkpoints; and the potential which grows with the position.
-/

set_option linter.unusedSimpArgs false

namespace Verif.Parser

open Verif.Token Verif.Lexer Verif.Ast Verif.Spec.Cursor

/-- Token streams which come to an end. -/
class StreamOk (σ : Type) [TokenStream σ] where
  inv : σ → Prop
  rem : σ → Nat
  pull_inv : ∀ s, inv s → inv (TokenStream.pull s).2
  raw_inv : ∀ s v, inv s → inv (TokenStream.setRaw v s)
  pull_rem : ∀ s, inv s →
    rem (TokenStream.pull s).2 + (if (TokenStream.pull s).1.type = .eof then 0 else 1) ≤ rem s
  raw_rem : ∀ s v, inv s → rem (TokenStream.setRaw v s) ≤ rem s
  bom : ∀ s, inv s → (TokenStream.pull s).1.type = .bom →
    (TokenStream.pull s).1.origin ≠ ['Y', 'A', 'M', 'L'] ∧ (TokenStream.pull s).1.origin ≠ ['T', 'A', 'G']
  raw_raw : ∀ (s : σ) v w, TokenStream.setRaw v (TokenStream.setRaw w s) = TokenStream.setRaw v s
  raw_keep : ∀ (s : σ) v, TokenStream.setRaw v s = s → TokenStream.setRaw v (TokenStream.pull s).2 = (TokenStream.pull s).2

/-- Weight of a token. -/
def weigh (t : Tok) : Nat := if t.type = .eof then 0 else 1

/-- Number of tokens without the ends. -/
def cnt (l : List Tok) : Nat := (l.map weigh).sum

theorem cnt_append (a b : List Tok) : cnt (a ++ b) = cnt a + cnt b := by simp [cnt]

/-- The tokens as a stream. -/
def sq (log : List Tok) (i : Nat) : Tok := log.getD i {}

/-- The current token at a position. -/
def curAt (log : List Tok) (p : Nat) : Tok := sq log (p - 1)

/-- The start of line flag at a position. -/
def solAt (log : List Tok) : Nat → Bool
  | 0 => true
  | 1 => true
  | p + 2 => isStartOfLine (solAt log (p + 1)) (sq log p)

/-- The potential at a position. -/
def gam (log : List Tok) (p : Nat) : Nat := 2 * cnt (log.take (p - 1)) + (if solAt log p then 0 else 1)

theorem sq_append {log : List Tok} {i : Nat} (h : i < log.length) (E : List Tok) : sq (log ++ E) i = sq log i := by
  simp [sq, List.getElem?_append_left h]

theorem curAt_append {log : List Tok} {p : Nat} (h1 : 1 ≤ p) (h : p ≤ log.length) (E : List Tok) :
    curAt (log ++ E) p = curAt log p := sq_append (by omega) E

theorem solAt_append {log : List Tok} (E : List Tok) : ∀ {p : Nat}, p ≤ log.length + 1 → solAt (log ++ E) p = solAt log p
  | 0, _ => rfl
  | 1, _ => rfl
  | p + 2, h => by
    rw [solAt, solAt, solAt_append E (p := p + 1) (by omega), sq_append (by omega)]

theorem gam_append {log : List Tok} {p : Nat} (h : p ≤ log.length) (E : List Tok) : gam (log ++ E) p = gam log p := by
  rw [gam, gam, solAt_append E (by omega), List.take_append_of_le_length (by omega)]

theorem cnt_take_succ {log : List Tok} {i : Nat} (h : i < log.length) :
    cnt (log.take (i + 1)) = cnt (log.take i) + weigh (sq log i) := by
  rw [List.take_add_one, cnt_append]
  simp [cnt, sq, h]

theorem gam_succ {log : List Tok} {p : Nat} (h1 : 1 ≤ p) (h : p < log.length) :
    gam log p ≤ gam log (p + 1) ∧
      ((curAt log p).type ≠ .eof ∨ solAt log p = true → gam log p < gam log (p + 1)) := by
  obtain ⟨q, rfl⟩ : ∃ q, p = q + 1 := ⟨p - 1, by omega⟩
  simp only [gam, curAt, Nat.add_sub_cancel]
  rw [cnt_take_succ (by omega)]
  have hs : solAt log (q + 1 + 1) = isStartOfLine (solAt log (q + 1)) (sq log q) := rfl
  rw [hs]
  by_cases he : (sq log q).type = .eof
  · have : isStartOfLine (solAt log (q + 1)) (sq log q) = false := by simp [isStartOfLine, he]
    rw [this]
    constructor
    · split <;> simp <;> omega
    · intro hh
      rcases hh with hh | hh
      · exact absurd he hh
      · simp [hh]; omega
  · have hw : weigh (sq log q) = 1 := by simp [weigh, he]
    rw [hw]
    constructor
    · split <;> split <;> omega
    · intro _
      split <;> split <;> omega

theorem gam_mono {log : List Tok} {p : Nat} (h1 : 1 ≤ p) : ∀ {q : Nat}, p ≤ q → q ≤ log.length → gam log p ≤ gam log q := by
  intro q hpq
  induction hpq with
  | refl => intro _; exact Nat.le_refl _
  | step hm ih =>
    intro hq
    have : p ≤ _ := hm
    exact Nat.le_trans (ih (by omega)) (gam_succ (by omega) (by omega)).1

theorem cnt_take_le (log : List Tok) (n : Nat) : cnt (log.take n) ≤ cnt log := by
  conv => rhs; rw [← List.take_append_drop n log, cnt_append]
  omega

theorem gam_le (log : List Tok) (p : Nat) : gam log p ≤ 2 * cnt log + 1 := by
  have := cnt_take_le log (p - 1)
  unfold gam
  split <;> omega

/-- What the parser has done so far. -/
structure Abs where
  /-- all tokens which were read -/
  log : List Tok
  /-- the current token is number `pos` of them (from 1) -/
  pos : Nat
  /-- the open checkpoints, innermost first -/
  cps : List Nat

/-- The potential of the current position. -/
def Abs.g (A : Abs) : Nat := gam A.log A.pos

/-- An accessor which reads by index. -/
def idx {σ α : Type} (a : CPAccessor.Accessor σ α) (n : Nat) : CPAccessor.Accessor Nat α :=
  { stream := n, buf := a.buf, saved := a.saved, ind := a.ind, stack := a.stack, panicked := a.panicked }

variable {σ : Type} [TokenStream σ] [StreamOk σ]

/-- The state `t` of the parser has done `A`; `B` bounds the number of tokens. -/
structure R (B : Nat) (t : P σ) (A : Abs) : Prop where
  rel : CPAccessor.Rel (sq A.log) (idx t.src A.log.length) ⟨A.pos, A.cps, A.log.length⟩
  savedOk : CPAccessor.SavedOk (sq A.log) (idx t.src A.log.length)
  sinv : StreamOk.inv t.src.stream
  budget : cnt A.log + StreamOk.rem t.src.stream ≤ B
  pos1 : 1 ≤ A.pos
  posle : A.pos ≤ A.log.length
  tok : t.tok = curAt A.log A.pos
  sol : t.sol = solAt A.log A.pos
  saved : t.saved.map Saved.sol = A.cps.map (solAt A.log)
  sorted : (A.pos :: A.cps).Pairwise (· ≥ ·)
  cps1 : ∀ p ∈ A.cps, 1 ≤ p
  pool : ∀ b ∈ t.pool, b = []
  boms : ∀ x ∈ A.log, x.type = .bom → x.origin ≠ ['Y', 'A', 'M', 'L'] ∧ x.origin ≠ ['T', 'A', 'G']

/-- No byte order mark was passed between the two logs. -/
def Clean (log log' : List Tok) : Prop := ∀ q, log.length ≤ q → q < log'.length → (curAt log' q).type ≠ .bom

/-- Progress from `A` to `A'`. -/
structure Adv (A A' : Abs) : Prop where
  log : ∃ E, A'.log = A.log ++ E
  pos : A.pos ≤ A'.pos
  cps : ∃ L, A'.cps = L ++ A.cps ∧ ∀ p ∈ L, A.pos ≤ p
  clean : Clean A.log A'.log

theorem Clean.refl (log : List Tok) : Clean log log := fun q h1 h2 => by omega

theorem Adv.refl (A : Abs) : Adv A A := ⟨⟨[], by simp⟩, Nat.le_refl _, ⟨[], by simp⟩, Clean.refl _⟩

theorem Adv.log_le {A A' : Abs} (h : Adv A A') : A.log.length ≤ A'.log.length := by
  obtain ⟨E, he⟩ := h.log
  rw [he]; simp

theorem Clean.trans {a b c : List Tok} (hb : 1 ≤ b.length) (hab : ∃ E, b = a ++ E) (hbc : ∃ E, c = b ++ E)
    (h1 : Clean a b) (h2 : Clean b c) (ha : 1 ≤ a.length) : Clean a c := by
  obtain ⟨F, rfl⟩ := hbc
  intro q hq1 hq2
  by_cases hq : q < b.length
  · rw [curAt_append (by omega) (by omega)]
    exact h1 q hq1 hq
  · exact h2 q (by omega) hq2

theorem Adv.trans {A B C : Abs} (hA : 1 ≤ A.log.length) (h1 : Adv A B) (h2 : Adv B C) : Adv A C := by
  have hl := h1.log_le
  have hcl := Clean.trans (by omega) h1.log h2.log h1.clean h2.clean hA
  obtain ⟨E1, he1⟩ := h1.log
  obtain ⟨E2, he2⟩ := h2.log
  obtain ⟨L1, hl1, hp1⟩ := h1.cps
  obtain ⟨L2, hl2, hp2⟩ := h2.cps
  refine ⟨⟨E1 ++ E2, by rw [he2, he1, List.append_assoc]⟩, Nat.le_trans h1.pos h2.pos, ⟨L2 ++ L1, ?_, ?_⟩, hcl⟩
  · rw [hl2, hl1, List.append_assoc]
  · intro p hp
    rcases List.mem_append.1 hp with hp | hp
    · exact Nat.le_trans h1.pos (hp2 p hp)
    · exact hp1 p hp

theorem Adv.g_le {A A' : Abs} (h1 : 1 ≤ A.pos) (hle : A.pos ≤ A.log.length) (hle' : A'.pos ≤ A'.log.length) (h : Adv A A') :
    A.g ≤ A'.g := by
  obtain ⟨E, he⟩ := h.log
  unfold Abs.g
  rw [← gam_append hle E, ← he]
  exact gam_mono h1 h.pos hle'

theorem R.g_le {B : Nat} {t : P σ} {A : Abs} (h : R B t A) : A.g ≤ 2 * B + 1 := by
  have := h.budget
  have := gam_le A.log A.pos
  unfold Abs.g
  omega

/-! ### The accessor -/

theorem rel_congr {α : Type} {s s' : Nat → α} {a : CPAccessor.Accessor Nat α} {c : Cursor} (h : CPAccessor.Rel s a c)
    (hs : ∀ i, i < a.stream → s i = s' i) : CPAccessor.Rel s' a c := by
  obtain ⟨base, hb, hbuf, hi, hst, hj⟩ := h.buf
  refine ⟨h.np, h.seen, ⟨base, hb, ?_, hi, hst, hj⟩, h.fresh, h.bottom⟩
  intro i hil
  rw [hbuf i hil, hs _ (by omega)]

theorem savedOk_congr {α : Type} {s s' : Nat → α} {a : CPAccessor.Accessor Nat α} (h : CPAccessor.SavedOk s a)
    (hs : ∀ i, i < a.stream → s i = s' i) : CPAccessor.SavedOk s' a := by
  intro k hk
  rw [h k hk, hs _ (by omega)]

omit [StreamOk σ] in
theorem idx_next_pull (a : CPAccessor.Accessor σ Tok) (n : Nat) (s : Nat → Tok) (hi : a.ind = none)
    (hs : s n = (TokenStream.pull a.stream).1) :
    (CPAccessor.next TokenStream.pull a).1 = (TokenStream.pull a.stream).1 ∧
      (CPAccessor.next TokenStream.pull a).2.stream = (TokenStream.pull a.stream).2 ∧
      idx (CPAccessor.next TokenStream.pull a).2 (n + 1) = (CPAccessor.next (CPAccessor.pullAt s) (idx a n)).2 := by
  have hi' : (idx a n).ind = none := hi
  simp only [CPAccessor.next, hi, hi', CPAccessor.pullAt]
  have : (idx a n).stack = a.stack := rfl
  rw [this]
  split
  · refine ⟨rfl, rfl, ?_⟩
    simp [idx, hs, hi]
  · refine ⟨rfl, rfl, ?_⟩
    simp [idx, hs, hi]

omit [StreamOk σ] in
theorem idx_next_buf (a : CPAccessor.Accessor σ Tok) (n : Nat) (s : Nat → Tok) {i : Nat} (hi : a.ind = some i) :
    (CPAccessor.next TokenStream.pull a).1 = (CPAccessor.next (CPAccessor.pullAt s) (idx a n)).1 ∧
      (CPAccessor.next TokenStream.pull a).2.stream = a.stream ∧
      idx (CPAccessor.next TokenStream.pull a).2 n = (CPAccessor.next (CPAccessor.pullAt s) (idx a n)).2 := by
  have hi' : (idx a n).ind = some i := hi
  simp only [CPAccessor.next, hi, hi']
  have hst : (idx a n).stack = a.stack := rfl
  have hbf : (idx a n).buf = a.buf := rfl
  rw [hst, hbf]
  cases a.buf[i]? with
  | none => exact ⟨rfl, rfl, rfl⟩
  | some v =>
    dsimp only
    split
    · split
      · refine ⟨rfl, rfl, ?_⟩
        simp [idx]
      · refine ⟨rfl, rfl, ?_⟩
        simp [idx]
    · refine ⟨rfl, rfl, ?_⟩
      simp [idx]

theorem idx_setCheckpoint (a : CPAccessor.Accessor σ Tok) (n : Nat) :
    idx (CPAccessor.setCheckpoint a) n = CPAccessor.setCheckpoint (idx a n) := by
  simp only [CPAccessor.setCheckpoint, idx]
  cases a.ind <;> rfl

theorem idx_commit (a : CPAccessor.Accessor σ Tok) (n : Nat) :
    idx (CPAccessor.commit a) n = CPAccessor.commit (idx a n) := by
  unfold CPAccessor.commit
  have hst : (idx a n).stack = a.stack := rfl
  have hbf : (idx a n).buf = a.buf := rfl
  have hin : (idx a n).ind = a.ind := rfl
  rw [hst, hbf, hin]
  rcases a.stack with _ | ⟨x, _ | ⟨y, ys⟩⟩
  · rfl
  · dsimp only
    cases a.ind <;> cases a.buf.getLast? <;> rfl
  · rfl

theorem idx_rollback (a : CPAccessor.Accessor σ Tok) (n : Nat) :
    (CPAccessor.rollback a).1 = (CPAccessor.rollback (idx a n)).1 ∧
      idx (CPAccessor.rollback a).2 n = (CPAccessor.rollback (idx a n)).2 := by
  unfold CPAccessor.rollback
  have hst : (idx a n).stack = a.stack := rfl
  have hbf : (idx a n).buf = a.buf := rfl
  rw [hst, hbf]
  rcases a.stack with _ | ⟨_ | j, rest⟩
  · exact ⟨rfl, rfl⟩
  · dsimp only
    split <;> exact ⟨rfl, rfl⟩
  · dsimp only
    cases a.buf[j]? with
    | none => exact ⟨rfl, rfl⟩
    | some v =>
      dsimp only
      split <;> exact ⟨rfl, rfl⟩

theorem commit_stream (a : CPAccessor.Accessor σ Tok) : (CPAccessor.commit a).stream = a.stream := by
  unfold CPAccessor.commit
  split
  · rfl
  · split <;> rfl
  · rfl

theorem setCheckpoint_stream (a : CPAccessor.Accessor σ Tok) : (CPAccessor.setCheckpoint a).stream = a.stream := by
  unfold CPAccessor.setCheckpoint
  split <;> rfl

theorem rollback_stream (a : CPAccessor.Accessor σ Tok) : (CPAccessor.rollback a).2.stream = a.stream := by
  unfold CPAccessor.rollback
  split
  · rfl
  · split <;> rfl
  · split
    · rfl
    · split <;> rfl

end Verif.Parser
