import Verif.Lemmas.ParserState

/-!
Rules for reasoning about steps of the parser: weakest preconditions for the elementary steps and for the combinators.
The preconditions contain that the outcome does not depend on the (empty) buffers in the pool.
-/

set_option linter.unusedSimpArgs false
set_option linter.unusedSectionVars false

namespace Verif.Parser

open Verif.Token Verif.Lexer Verif.Ast Verif.Spec.Cursor

variable {σ α β : Type} [TokenStream σ] [StreamOk σ]

/-- The state with other buffers in the pool. -/
def P.setPool (t : P σ) (pl : List Buf) : P σ :=
  ⟨t.src, t.tok, t.saved, t.sol, t.errors, t.bal, t.marks, pl⟩

/-- All buffers are empty. -/
def Empty (pl : List Buf) : Prop := ∀ b ∈ pl, b = []

/-- The step does the same with other empty buffers in the pool. -/
def PoolFree (m : M σ α) (t : P σ) (a : α) (t' : P σ) : Prop :=
  ∀ pl, Empty pl → ∃ pl', Empty pl' ∧ m (t.setPool pl) = .ok (a, t'.setPool pl')

/-- The step ends well, with `Q`. -/
def Wp (B : Nat) (m : M σ α) (t : P σ) (Q : α → P σ → Abs → Prop) : Prop :=
  ∃ a t' A', m t = .ok (a, t') ∧ R B t' A' ∧ Q a t' A' ∧ PoolFree m t a t'

theorem Wp.mono {B : Nat} {m : M σ α} {t : P σ} {Q Q' : α → P σ → Abs → Prop} (h : Wp B m t Q)
    (hq : ∀ a t' A', R B t' A' → Q a t' A' → Q' a t' A') : Wp B m t Q' := by
  obtain ⟨a, t', A', h1, h2, h3, h4⟩ := h
  exact ⟨a, t', A', h1, h2, hq _ _ _ h2 h3, h4⟩

theorem Wp.bind {B : Nat} {m : M σ α} {k : α → M σ β} {t : P σ} {Q : β → P σ → Abs → Prop}
    (h : Wp B m t (fun a t' _ => Wp B (k a) t' Q)) : Wp B (m >>= k) t Q := by
  obtain ⟨a, t', A', h1, h2, h3, h4⟩ := h
  obtain ⟨b, t'', A'', g1, g2, g3, g4⟩ := h3
  refine ⟨b, t'', A'', ?_, g2, g3, ?_⟩
  · show M.bind m k t = _
    simp only [M.bind, h1, g1]
  · intro pl hpl
    obtain ⟨pl1, hpl1, e1⟩ := h4 pl hpl
    obtain ⟨pl2, hpl2, e2⟩ := g4 pl1 hpl1
    refine ⟨pl2, hpl2, ?_⟩
    show M.bind m k _ = _
    simp only [M.bind, e1, e2]

theorem Wp.pure {B : Nat} {a : α} {t : P σ} {A : Abs} {Q : α → P σ → Abs → Prop} (hR : R B t A) (h : Q a t A) :
    Wp B (Pure.pure a : M σ α) t Q :=
  ⟨a, t, A, rfl, hR, h, fun pl hpl => ⟨pl, hpl, rfl⟩⟩

theorem wp_tok {B : Nat} {t : P σ} {A : Abs} {Q : Tok → P σ → Abs → Prop} (hR : R B t A) (h : Q t.tok t A) :
    Wp B (tok : M σ Tok) t Q :=
  ⟨_, t, A, rfl, hR, h, fun pl hpl => ⟨pl, hpl, rfl⟩⟩

theorem wp_startOfLine {B : Nat} {t : P σ} {A : Abs} {Q : Bool → P σ → Abs → Prop} (hR : R B t A) (h : Q t.sol t A) :
    Wp B (startOfLine : M σ Bool) t Q :=
  ⟨_, t, A, rfl, hR, h, fun pl hpl => ⟨pl, hpl, rfl⟩⟩

theorem wp_hasErrors {B : Nat} {t : P σ} {A : Abs} {Q : Bool → P σ → Abs → Prop} (hR : R B t A)
    (h : Q (!t.errors.isEmpty) t A) : Wp B (hasErrors : M σ Bool) t Q :=
  ⟨_, t, A, rfl, hR, h, fun pl hpl => ⟨pl, hpl, rfl⟩⟩

/-- The rest of the state does not matter. -/
theorem R.congr {B : Nat} {t t' : P σ} {A : Abs} (h : R B t A) (h1 : t'.src = t.src) (h2 : t'.tok = t.tok)
    (h3 : t'.sol = t.sol) (h4 : t'.saved = t.saved) (h5 : ∀ b ∈ t'.pool, b = []) : R B t' A :=
  ⟨h1 ▸ h.rel, h1 ▸ h.savedOk, h1 ▸ h.sinv, h1 ▸ h.budget, h.pos1, h.posle, h2 ▸ h.tok, h3 ▸ h.sol, h4 ▸ h.saved, h.sorted,
    h.cps1, h5, h.boms⟩

theorem wp_appendError {B : Nat} {e : PErr} {t : P σ} {A : Abs} {Q : Unit → P σ → Abs → Prop} (hR : R B t A)
    (h : ∀ t' : P σ, R B t' A → t'.tok = t.tok → Q () t' A) : Wp B (appendError e : M σ Unit) t Q := by
  have hR' : R B ⟨t.src, t.tok, t.saved, t.sol, t.errors ++ [e], t.bal, t.marks, t.pool⟩ A :=
    hR.congr rfl rfl rfl rfl hR.pool
  exact ⟨(), _, A, rfl, hR', h _ hR' rfl, fun pl hpl => ⟨pl, hpl, rfl⟩⟩

theorem wp_mark {B : Nat} {x : Tok} {t : P σ} {A : Abs} {Q : Bool → P σ → Abs → Prop} (hR : R B t A)
    (h : ∀ b (t' : P σ), R B t' A → t'.tok = t.tok → Q b t' A) : Wp B (mark x : M σ Bool) t Q := by
  have hR' : R B ⟨t.src, t.tok, t.saved, t.sol, t.errors, t.bal, bump t.marks x.start, t.pool⟩ A :=
    hR.congr rfl rfl rfl rfl hR.pool
  exact ⟨_, _, A, rfl, hR', h _ _ hR' rfl, fun pl hpl => ⟨pl, hpl, rfl⟩⟩

theorem wp_setRaw {B : Nat} {v : Bool} {t : P σ} {A : Abs} {Q : Unit → P σ → Abs → Prop} (hR : R B t A)
    (h : ∀ t' : P σ, R B t' A → t'.tok = t.tok → t'.sol = t.sol → Q () t' A) : Wp B (setRaw v : M σ Unit) t Q := by
  have hR' : R B ⟨{ t.src with stream := TokenStream.setRaw v t.src.stream }, t.tok, t.saved, t.sol, t.errors, t.bal, t.marks,
      t.pool⟩ A :=
    ⟨hR.rel, hR.savedOk, StreamOk.raw_inv _ _ hR.sinv, by
      have := StreamOk.raw_rem t.src.stream v hR.sinv
      have := hR.budget
      show cnt A.log + StreamOk.rem (TokenStream.setRaw v t.src.stream) ≤ B
      omega, hR.pos1, hR.posle, hR.tok, hR.sol, hR.saved, hR.sorted, hR.cps1, hR.pool, hR.boms⟩
  exact ⟨(), _, A, rfl, hR', h _ hR' rfl rfl, fun pl hpl => ⟨pl, hpl, rfl⟩⟩

theorem wp_getBuf {B : Nat} {t : P σ} {A : Abs} {Q : Buf → P σ → Abs → Prop} (hR : R B t A)
    (h : ∀ t' : P σ, R B t' A → t'.tok = t.tok → Q [] t' A) : Wp B (getBuf : M σ Buf) t Q := by
  have key : ∀ pl, Empty pl → ∃ pl', Empty pl' ∧ (getBuf : M σ Buf) (t.setPool pl) = .ok ([], t.setPool pl') := by
    intro pl hpl
    cases pl with
    | nil => exact ⟨[], hpl, rfl⟩
    | cons b r =>
      have hb := hpl b (by simp)
      subst hb
      exact ⟨r, fun x hx => hpl x (by simp [hx]), rfl⟩
  obtain ⟨pl', hpl', he⟩ := key t.pool hR.pool
  have hR' : R B (t.setPool pl') A := hR.congr rfl rfl rfl rfl hpl'
  refine ⟨[], t.setPool pl', A, he, hR', h _ hR' rfl, ?_⟩
  intro pl hpl
  obtain ⟨pl2, h1, h2⟩ := key pl hpl
  exact ⟨pl2, h1, h2⟩

theorem wp_resetAndPut {B : Nat} {b : Buf} {t : P σ} {A : Abs} {Q : Unit → P σ → Abs → Prop} (hR : R B t A)
    (h : ∀ t' : P σ, R B t' A → t'.tok = t.tok → Q () t' A) : Wp B (resetAndPut b : M σ Unit) t Q := by
  have key : ∀ pl, Empty pl → Empty ([] :: pl) := by
    intro pl hpl x hx
    rcases List.mem_cons.1 hx with hx | hx
    · exact hx
    · exact hpl x hx
  have hR' : R B ⟨t.src, t.tok, t.saved, t.sol, t.errors, t.bal, t.marks, [] :: t.pool⟩ A :=
    hR.congr rfl rfl rfl rfl (key _ hR.pool)
  exact ⟨(), _, A, rfl, hR', h _ hR' rfl, fun pl hpl => ⟨_, key pl hpl, rfl⟩⟩

theorem wp_truncate {B : Nat} {n : Nat} {b : Buf} {t : P σ} {A : Abs} {Q : Buf → P σ → Abs → Prop} (hR : R B t A)
    (hn : n ≤ b.length) (h : Q (b.take n) t A) : Wp B (truncate n b : M σ Buf) t Q := by
  have key : ∀ t : P σ, (truncate n b : M σ Buf) t = .ok (b.take n, t) := fun t => by simp [truncate, hn]
  exact ⟨b.take n, t, A, key t, hR, h, fun pl hpl => ⟨pl, hpl, key _⟩⟩

/-! ### Checkpoints -/

theorem wp_setCheckpoint {B : Nat} {t : P σ} {A : Abs} {Q : Unit → P σ → Abs → Prop} (hR : R B t A)
    (h : ∀ t' : P σ, R B t' ⟨A.log, A.pos, A.pos :: A.cps⟩ → t'.tok = t.tok → t'.sol = t.sol →
      Q () t' ⟨A.log, A.pos, A.pos :: A.cps⟩) :
    Wp B (setCheckpoint : M σ Unit) t Q := by
  have hR' : R B ⟨CPAccessor.setCheckpoint t.src, t.tok, ⟨t.sol, BalanceCheck.memento t.bal⟩ :: t.saved, t.sol, t.errors,
      t.bal, t.marks, t.pool⟩ ⟨A.log, A.pos, A.pos :: A.cps⟩ := by
    refine ⟨?_, ?_, ?_, ?_, hR.pos1, hR.posle, hR.tok, hR.sol, ?_, ?_, ?_, hR.pool, hR.boms⟩
    · have := CPAccessor.rel_step hR.rel .setCheckpoint
      rw [idx_setCheckpoint]
      exact this
    · have := CPAccessor.savedOk_step hR.rel hR.savedOk .setCheckpoint (by simp)
      rw [idx_setCheckpoint]
      exact this
    · show StreamOk.inv (CPAccessor.setCheckpoint t.src).stream
      rw [setCheckpoint_stream]; exact hR.sinv
    · show _ + StreamOk.rem (CPAccessor.setCheckpoint t.src).stream ≤ B
      rw [setCheckpoint_stream]; exact hR.budget
    · simp [hR.saved, hR.sol]
    · refine List.pairwise_cons.2 ⟨?_, hR.sorted⟩
      intro p hp
      rcases List.mem_cons.1 hp with hp | hp
      · rw [hp]; exact Nat.le_refl _
      · exact (List.pairwise_cons.1 hR.sorted).1 p hp
    · intro p hp
      rcases List.mem_cons.1 hp with hp | hp
      · rw [hp]; exact hR.pos1
      · exact hR.cps1 p hp
  exact ⟨(), _, _, rfl, hR', h _ hR' rfl rfl, fun pl hpl => ⟨pl, hpl, rfl⟩⟩

theorem wp_commit {B : Nat} {t : P σ} {A : Abs} {Q : Unit → P σ → Abs → Prop} (hR : R B t A)
    (h : ∀ t' : P σ, R B t' ⟨A.log, A.pos, A.cps.tail⟩ → t'.tok = t.tok → t'.sol = t.sol →
      Q () t' ⟨A.log, A.pos, A.cps.tail⟩) :
    Wp B (commit : M σ Unit) t Q := by
  have hR' : R B ⟨CPAccessor.commit t.src, t.tok, t.saved.tail, t.sol, t.errors, t.bal, t.marks, t.pool⟩
      ⟨A.log, A.pos, A.cps.tail⟩ := by
    refine ⟨?_, ?_, ?_, ?_, hR.pos1, hR.posle, hR.tok, hR.sol, ?_, ?_, ?_, hR.pool, hR.boms⟩
    · have := CPAccessor.rel_step hR.rel .commit
      rw [idx_commit]
      exact this
    · have := CPAccessor.savedOk_step hR.rel hR.savedOk .commit (by simp)
      rw [idx_commit]
      exact this
    · show StreamOk.inv (CPAccessor.commit t.src).stream
      rw [commit_stream]; exact hR.sinv
    · show _ + StreamOk.rem (CPAccessor.commit t.src).stream ≤ B
      rw [commit_stream]; exact hR.budget
    · show t.saved.tail.map Saved.sol = A.cps.tail.map (solAt A.log)
      rw [List.map_tail, List.map_tail, hR.saved]
    · obtain ⟨h1, h2⟩ := List.pairwise_cons.1 hR.sorted
      refine List.pairwise_cons.2 ⟨fun p hp => h1 p (List.mem_of_mem_tail hp), h2.tail⟩
    · intro p hp
      exact hR.cps1 p (List.mem_of_mem_tail hp)
  exact ⟨(), _, _, rfl, hR', h _ hR' rfl rfl, fun pl hpl => ⟨pl, hpl, rfl⟩⟩

theorem wp_rollback {B : Nat} {t : P σ} {A : Abs} {p : Nat} {ps : List Nat} {Q : Unit → P σ → Abs → Prop} (hR : R B t A)
    (hc : A.cps = p :: ps) (h : ∀ t' : P σ, R B t' ⟨A.log, p, ps⟩ → Q () t' ⟨A.log, p, ps⟩) :
    Wp B (rollback : M σ Unit) t Q := by
  have hp1 := hR.cps1 p (by simp [hc])
  obtain ⟨q, rfl⟩ : ∃ q, p = q + 1 := ⟨p - 1, by omega⟩
  have hs := hR.saved
  rw [hc] at hs
  cases hsv : t.saved with
  | nil => simp [hsv] at hs
  | cons s rest =>
    rw [hsv] at hs
    simp only [List.map_cons, List.cons.injEq] at hs
    obtain ⟨e1, e2⟩ := idx_rollback t.src A.log.length
    have hrel := CPAccessor.rel_step hR.rel .rollback
    have hsav := CPAccessor.savedOk_step hR.rel hR.savedOk .rollback (by simp)
    simp only [CPAccessor.step] at hrel hsav
    rw [← e2] at hrel hsav
    have hval := CPAccessor.rollback_val (p := q) (ps := ps) hR.rel hR.savedOk hc
    rw [← e1] at hval
    have hnp : (CPAccessor.rollback t.src).2.panicked = false := hrel.np
    have hsrt := hR.sorted
    rw [hc] at hsrt
    obtain ⟨h1, h2⟩ := List.pairwise_cons.1 hsrt
    have hle : q + 1 ≤ A.pos := h1 _ (by simp)
    have hR' : R B ⟨(CPAccessor.rollback t.src).2, (CPAccessor.rollback t.src).1, rest, s.sol, t.errors,
        BalanceCheck.setMemento t.bal s.memento, t.marks, t.pool⟩ ⟨A.log, q + 1, ps⟩ := by
      refine ⟨?_, hsav, ?_, ?_, by simp, ?_, ?_, hs.1, hs.2, h2, ?_, hR.pool, hR.boms⟩
      · simpa [move, hc] using hrel
      · show StreamOk.inv (CPAccessor.rollback t.src).2.stream
        rw [rollback_stream]; exact hR.sinv
      · show _ + StreamOk.rem (CPAccessor.rollback t.src).2.stream ≤ B
        rw [rollback_stream]; exact hR.budget
      · exact Nat.le_trans hle hR.posle
      · exact hval
      · intro x hx
        exact hR.cps1 x (by simp [hc, hx])
    have key : ∀ pl, (rollback : M σ Unit) (t.setPool pl) = .ok ((), (⟨(CPAccessor.rollback t.src).2,
        (CPAccessor.rollback t.src).1, rest, s.sol, t.errors, BalanceCheck.setMemento t.bal s.memento, t.marks, t.pool⟩ :
        P σ).setPool pl) := by
      intro pl
      simp [rollback, P.setPool, hnp, hsv]
    exact ⟨(), _, _, key t.pool, hR', h _ hR', fun pl hpl => ⟨pl, hpl, key pl⟩⟩

/-! ### The next token -/

theorem balance_src (t : P σ) : (balance t).src = t.src ∧ (balance t).tok = t.tok ∧ (balance t).saved = t.saved ∧
    (balance t).sol = t.sol ∧ (balance t).pool = t.pool := by
  unfold balance
  split <;> (try split) <;> exact ⟨rfl, rfl, rfl, rfl, rfl⟩

theorem balance_setPool (t : P σ) (pl : List Buf) : balance (t.setPool pl) = (balance t).setPool pl := by
  unfold balance
  have h1 : (t.setPool pl).tok = t.tok := rfl
  have h2 : (t.setPool pl).bal = t.bal := rfl
  rw [h1, h2]
  cases t.tok.type <;> dsimp only <;> (try split) <;> rfl

/-- The state after `next` without the bookkeeping of parentheses. -/
def step (t : P σ) : P σ :=
  ⟨(CPAccessor.next TokenStream.pull t.src).2, (CPAccessor.next TokenStream.pull t.src).1, t.saved,
    isStartOfLine t.sol t.tok, t.errors, t.bal, t.marks, t.pool⟩

theorem next_eq (t : P σ) (h : (CPAccessor.next TokenStream.pull t.src).2.panicked = false) :
    (next : M σ Unit) t = .ok ((), balance (step t)) := by
  simp [next, h, step]

theorem wp_of_step {B : Nat} {t : P σ} {A' : Abs} {Q : Unit → P σ → Abs → Prop} (hR' : R B (step t) A')
    (h : ∀ t' : P σ, R B t' A' → Q () t' A') : Wp B (next : M σ Unit) t Q := by
  have hnp : (CPAccessor.next TokenStream.pull t.src).2.panicked = false := hR'.rel.np
  obtain ⟨b1, b2, b3, b4, b5⟩ := balance_src (step t)
  have hRb : R B (balance (step t)) A' := hR'.congr b1 b2 b4 b3 (b5 ▸ hR'.pool)
  refine ⟨(), _, A', next_eq t hnp, hRb, h _ hRb, ?_⟩
  intro pl hpl
  refine ⟨pl, hpl, ?_⟩
  rw [next_eq (t.setPool pl) hnp, show step (t.setPool pl) = (step t).setPool pl from rfl, balance_setPool]

/-- `next` reads a token from the stream. -/
theorem step_pull {B : Nat} {t : P σ} {A : Abs} (hR : R B t A) (hi : t.src.ind = none) :
    A.pos = A.log.length ∧
      R B (step t) ⟨A.log ++ [(TokenStream.pull t.src.stream).1], A.pos + 1, A.cps⟩ := by
  have hpos : A.pos = A.log.length := by
    obtain ⟨base, -, -, h, -⟩ := hR.rel.buf
    rw [show (idx t.src A.log.length).ind = none from hi] at h
    exact h
  refine ⟨hpos, ?_⟩
  generalize hv : (TokenStream.pull t.src.stream).1 = v
  have hsv : sq (A.log ++ [v]) A.log.length = v := by simp [sq]
  have hagree : ∀ i, i < A.log.length → sq A.log i = sq (A.log ++ [v]) i := fun i hi => (sq_append hi _).symm
  have hrel0 : CPAccessor.Rel (sq (A.log ++ [v])) (idx t.src A.log.length) ⟨A.pos, A.cps, A.log.length⟩ :=
    rel_congr hR.rel hagree
  have hsav0 : CPAccessor.SavedOk (sq (A.log ++ [v])) (idx t.src A.log.length) := savedOk_congr hR.savedOk hagree
  obtain ⟨e1, e2, e3⟩ := idx_next_pull t.src A.log.length (sq (A.log ++ [v])) hi (by rw [hsv, hv])
  have hrel := CPAccessor.rel_step hrel0 .next
  have hsav := CPAccessor.savedOk_step hrel0 hsav0 .next (by simp [hpos])
  simp only [CPAccessor.step] at hrel hsav
  rw [← e3] at hrel hsav
  have hlen : (A.log ++ [v]).length = A.log.length + 1 := by simp
  have hpr := StreamOk.pull_rem t.src.stream hR.sinv
  have hbom := StreamOk.bom t.src.stream hR.sinv
  rw [hv] at hpr hbom
  have hbud := hR.budget
  refine ⟨?_, ?_, ?_, ?_, by simp, ?_, ?_, ?_, ?_, ?_, hR.cps1, hR.pool, ?_⟩
  · simp only [hlen]
    have hm : move ⟨A.pos, A.cps, A.log.length⟩ .next = ⟨A.pos + 1, A.cps, A.log.length + 1⟩ := by
      simp [move, hpos]
    rw [hm] at hrel
    exact hrel
  · simp only [hlen]
    exact hsav
  · show StreamOk.inv (CPAccessor.next TokenStream.pull t.src).2.stream
    rw [e2]; exact StreamOk.pull_inv _ hR.sinv
  · show cnt (A.log ++ [v]) + StreamOk.rem (CPAccessor.next TokenStream.pull t.src).2.stream ≤ B
    rw [e2, cnt_append]
    have : cnt [v] = if v.type = .eof then 0 else 1 := by simp [cnt, weigh]
    rw [this]
    omega
  · show A.pos + 1 ≤ (A.log ++ [v]).length
    rw [hlen]; omega
  · show (CPAccessor.next TokenStream.pull t.src).1 = curAt (A.log ++ [v]) (A.pos + 1)
    rw [e1, hv, curAt, hpos, Nat.add_sub_cancel, hsv]
  · show isStartOfLine t.sol t.tok = solAt (A.log ++ [v]) (A.pos + 1)
    have h1 := hR.pos1
    obtain ⟨q, hq⟩ : ∃ q, A.pos = q + 1 := ⟨A.pos - 1, by omega⟩
    rw [hR.sol, hR.tok, hq, solAt, solAt_append _ (by omega), sq_append (by omega)]
    rfl
  · show t.saved.map Saved.sol = A.cps.map (solAt (A.log ++ [v]))
    rw [hR.saved]
    apply List.map_congr_left
    intro p hp
    have := (List.pairwise_cons.1 hR.sorted).1 p hp
    have := hR.posle
    rw [solAt_append _ (by omega)]
  · obtain ⟨h1, h2⟩ := List.pairwise_cons.1 hR.sorted
    refine List.pairwise_cons.2 ⟨fun p hp => ?_, h2⟩
    have := h1 p hp
    show p ≤ A.pos + 1
    omega
  · intro x hx hb
    rcases List.mem_append.1 hx with hx | hx
    · exact hR.boms x hx hb
    · simp only [List.mem_singleton] at hx
      subst hx
      exact hbom hb

/-- `next` reads a token again. -/
theorem step_buf {B : Nat} {t : P σ} {A : Abs} {i : Nat} (hR : R B t A) (hi : t.src.ind = some i)
    (hd : ¬ (A.cps = [] ∧ A.pos + 1 = A.log.length)) :
    A.pos + 1 ≤ A.log.length ∧ R B (step t) ⟨A.log, A.pos + 1, A.cps⟩ := by
  have hpos : A.pos + 1 ≤ A.log.length := by
    obtain ⟨base, hb, -, h, -⟩ := hR.rel.buf
    rw [show (idx t.src A.log.length).ind = some i from hi] at h
    simp only at h
    have : base + (idx t.src A.log.length).buf.length = A.log.length := hb
    omega
  refine ⟨hpos, ?_⟩
  obtain ⟨e1, e2, e3⟩ := idx_next_buf t.src A.log.length (sq A.log) hi
  have hrel := CPAccessor.rel_step hR.rel .next
  have hval := (CPAccessor.rel_next hR.rel).1
  have hsav := CPAccessor.savedOk_step hR.rel hR.savedOk .next (by simpa using hd)
  simp only [CPAccessor.step] at hrel hsav
  rw [← e3] at hrel hsav
  rw [← e1] at hval
  refine ⟨?_, hsav, ?_, ?_, by simp, hpos, ?_, ?_, hR.saved, ?_, hR.cps1, hR.pool, hR.boms⟩
  · have hm : move ⟨A.pos, A.cps, A.log.length⟩ .next = ⟨A.pos + 1, A.cps, A.log.length⟩ := by
      simp only [move, Cursor.mk.injEq, true_and]
      omega
    rw [hm] at hrel
    exact hrel
  · show StreamOk.inv (CPAccessor.next TokenStream.pull t.src).2.stream
    rw [e2]; exact hR.sinv
  · show cnt A.log + StreamOk.rem (CPAccessor.next TokenStream.pull t.src).2.stream ≤ B
    rw [e2]; exact hR.budget
  · show (CPAccessor.next TokenStream.pull t.src).1 = curAt A.log (A.pos + 1)
    rw [hval]; rfl
  · show isStartOfLine t.sol t.tok = solAt A.log (A.pos + 1)
    have h1 := hR.pos1
    obtain ⟨q, hq⟩ : ∃ q, A.pos = q + 1 := ⟨A.pos - 1, by omega⟩
    rw [hR.sol, hR.tok, hq, solAt]
    rfl
  · obtain ⟨h1, h2⟩ := List.pairwise_cons.1 hR.sorted
    refine List.pairwise_cons.2 ⟨fun p hp => ?_, h2⟩
    have := h1 p hp
    show p ≤ A.pos + 1
    omega

/-- `next`, not on a byte order mark. -/
theorem wp_next {B : Nat} {t : P σ} {A : Abs} {Q : Unit → P σ → Abs → Prop} (hR : R B t A) (hc : A.cps ≠ [])
    (hb : t.tok.type ≠ .bom)
    (h : ∀ (t' : P σ) A', R B t' A' → Adv A A' → A'.cps = A.cps → A.g ≤ A'.g →
      (t.tok.type ≠ .eof ∨ t.sol = true → A.g < A'.g) → Q () t' A') :
    Wp B (next : M σ Unit) t Q := by
  cases hi : t.src.ind with
  | none =>
    obtain ⟨hpos, hR'⟩ := step_pull hR hi
    have hadv : Adv A ⟨A.log ++ [(TokenStream.pull t.src.stream).1], A.pos + 1, A.cps⟩ := by
      refine ⟨⟨_, rfl⟩, Nat.le_succ _, ⟨[], by simp⟩, ?_⟩
      intro q h1 h2
      have : q = A.pos := by simp at h2; omega
      subst this
      rw [curAt_append hR.pos1 hR.posle, ← hR.tok]
      exact hb
    refine wp_of_step hR' (fun t' hr => h t' _ hr hadv rfl ?_ ?_)
    · exact hadv.g_le hR.pos1 hR.posle hR'.posle
    · intro hh
      have := (gam_succ (log := A.log ++ [(TokenStream.pull t.src.stream).1]) hR.pos1 (by simp; omega)).2
        (by rw [curAt_append hR.pos1 hR.posle, solAt_append _ (by have := hR.posle; omega), ← hR.tok, ← hR.sol]; exact hh)
      rw [gam_append hR.posle] at this
      exact this
  | some i =>
    obtain ⟨hpos, hR'⟩ := step_buf hR hi (by simp [hc])
    have hadv : Adv A ⟨A.log, A.pos + 1, A.cps⟩ := ⟨⟨[], by simp⟩, Nat.le_succ _, ⟨[], by simp⟩, Clean.refl _⟩
    refine wp_of_step hR' (fun t' hr => h t' _ hr hadv rfl ?_ ?_)
    · exact hadv.g_le hR.pos1 hR.posle hR'.posle
    · intro hh
      exact (gam_succ hR.pos1 (by omega)).2 (by rw [← hR.tok, ← hR.sol]; exact hh)

/-- `next` on a byte order mark which is the last token read. -/
theorem wp_next_last {B : Nat} {t : P σ} {A : Abs} {Q : Unit → P σ → Abs → Prop} (hR : R B t A)
    (hl : A.pos = A.log.length) (he : t.tok.type ≠ .eof)
    (h : ∀ (t' : P σ) x, R B t' ⟨A.log ++ [x], A.pos + 1, A.cps⟩ → A.g < Abs.g ⟨A.log ++ [x], A.pos + 1, A.cps⟩ →
      Q () t' ⟨A.log ++ [x], A.pos + 1, A.cps⟩) :
    Wp B (next : M σ Unit) t Q := by
  cases hi : t.src.ind with
  | none =>
    obtain ⟨hpos, hR'⟩ := step_pull hR hi
    refine wp_of_step hR' (fun t' hr => h t' _ hr ?_)
    have := (gam_succ (log := A.log ++ [(TokenStream.pull t.src.stream).1]) hR.pos1 (by simp; omega)).2
      (by rw [curAt_append hR.pos1 hR.posle, ← hR.tok]; exact .inl he)
    rw [gam_append hR.posle] at this
    exact this
  | some i =>
    obtain ⟨hpos, -⟩ := step_buf hR hi (by omega)
    omega

end Verif.Parser
