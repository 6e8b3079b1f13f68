import Lean.Elab.Tactic
import Verif.Lemmas.ParserWp

/-!
Specifications of productions: a production never goes back behind its start, keeps the checkpoints, passes no byte order
mark, and ends.  The tactic `wp` runs through the text of a production.
-/

set_option linter.unusedSimpArgs false
set_option linter.unusedSectionVars false

namespace Verif.Parser

open Verif.Token Verif.Lexer Verif.Ast Verif.Spec.Cursor
open Lean Meta Elab Tactic

variable {σ α β : Type} [TokenStream σ] [StreamOk σ]

/-- `m`, started with potential at least `n` and some open checkpoint, ends with `post`; its arguments are the result and
the potential before and afterwards. -/
def Spec (B n : Nat) (m : M σ α) (post : α → Nat → Nat → Prop) : Prop :=
  ∀ t A, R B t A → A.cps ≠ [] → n ≤ A.g → Wp B m t (fun a _ A' => Adv A A' ∧ post a A.g A'.g)

/-- The run which started in `A0` has come to `A`. -/
structure St (B : Nat) (A0 : Abs) (t : P σ) (A : Abs) : Prop where
  r : R B t A
  adv : Adv A0 A
  ne : A0.cps ≠ []
  pos1 : 1 ≤ A0.pos
  posle : A0.pos ≤ A0.log.length

theorem St.start {B : Nat} {t : P σ} {A : Abs} (h : R B t A) (hc : A.cps ≠ []) : St B A t A :=
  ⟨h, .refl _, hc, h.pos1, h.posle⟩

theorem St.cne {B : Nat} {A0 A : Abs} {t : P σ} (h : St B A0 t A) : A.cps ≠ [] := by
  obtain ⟨L, hl, -⟩ := h.adv.cps
  have := h.ne
  rw [hl]
  intro hc
  simp at hc
  exact this hc.2

theorem St.g_le {B : Nat} {A0 A : Abs} {t : P σ} (h : St B A0 t A) : A0.g ≤ A.g :=
  h.adv.g_le h.pos1 h.posle h.r.posle

theorem St.move {B : Nat} {A0 A A' : Abs} {t t' : P σ} (h : St B A0 t A) (hr : R B t' A') (ha : Adv A A') : St B A0 t' A' :=
  ⟨hr, h.adv.trans (Nat.le_trans h.pos1 h.posle) ha, h.ne, h.pos1, h.posle⟩

theorem Spec.intro {B n : Nat} {m : M σ α} {post : α → Nat → Nat → Prop}
    (h : ∀ t A, St B A t A → n ≤ A.g → Wp B m t (fun a _ A' => Adv A A' ∧ post a A.g A'.g)) : Spec B n m post :=
  fun t A hr hc hn => h t A (.start hr hc) hn

theorem Spec.mono {B n n' : Nat} {m : M σ α} {post post' : α → Nat → Nat → Prop} (h : Spec B n m post) (hn : n ≤ n')
    (hp : ∀ a g g', g ≤ g' → post a g g' → post' a g g') : Spec B n' m post' := by
  intro t A hr hc hg
  refine (h t A hr hc (by omega)).mono ?_
  intro a t' A' hr' ha
  exact ⟨ha.1, hp _ _ _ (ha.1.g_le hr.pos1 hr.posle hr'.posle) ha.2⟩

theorem Spec.le {B n n' : Nat} {m : M σ α} {post : α → Nat → Nat → Prop} (h : Spec B n m post) (hn : n ≤ n') :
    Spec B n' m post := h.mono hn (fun _ _ _ _ h => h)

/-! ### Rules -/

section Rules

variable {B : Nat} {A0 A : Abs} {t : P σ}

theorem St.pure {a : α} {Q : α → P σ → Abs → Prop} (h : St B A0 t A) (k : Q a t A) : Wp B (Pure.pure a : M σ α) t Q :=
  Wp.pure h.r k

theorem Wp.ite {c : Prop} {_ : Decidable c} {a b : M σ α} {Q : α → P σ → Abs → Prop} (h1 : c → Wp B a t Q)
    (h2 : ¬ c → Wp B b t Q) : Wp B (if c then a else b) t Q := by
  split
  · exact h1 ‹_›
  · exact h2 ‹_›

theorem Wp.ite_pos {c : Prop} {_ : Decidable c} {a b : M σ α} {Q : α → P σ → Abs → Prop} (hc : c) (h : Wp B a t Q) :
    Wp B (if c then a else b) t Q := by
  rw [if_pos hc]; exact h

theorem Wp.ite_neg {c : Prop} {_ : Decidable c} {a b : M σ α} {Q : α → P σ → Abs → Prop} (hc : ¬ c) (h : Wp B b t Q) :
    Wp B (if c then a else b) t Q := by
  rw [if_neg hc]; exact h

theorem Wp.iteB {b : Bool} {_ : Decidable (b = true)} {x y : M σ α} {Q : α → P σ → Abs → Prop}
    (h1 : b = true → Wp B x t Q) (h2 : b = false → Wp B y t Q) : Wp B (if b = true then x else y) t Q :=
  Wp.ite h1 (fun h => h2 (by simpa using h))

theorem Wp.iteN {b : Bool} {_ : Decidable ((!b) = true)} {x y : M σ α} {Q : α → P σ → Abs → Prop}
    (h1 : b = false → Wp B x t Q) (h2 : b = true → Wp B y t Q) : Wp B (if (!b) = true then x else y) t Q :=
  Wp.ite (fun h => h1 (by simpa using h)) (fun h => h2 (by simpa using h))

theorem Wp.iteNe {β : Type} {u v : β} {_ : Decidable (u ≠ v)} {x y : M σ α} {Q : α → P σ → Abs → Prop}
    (h1 : u ≠ v → Wp B x t Q) (h2 : u = v → Wp B y t Q) : Wp B (if u ≠ v then x else y) t Q :=
  Wp.ite h1 (fun h => h2 (Classical.not_not.1 h))

theorem Wp.iteBt {b : Bool} {_ : Decidable (b = true)} {x y : M σ α} {Q : α → P σ → Abs → Prop}
    (h : b = true) (h1 : Wp B x t Q) : Wp B (if b = true then x else y) t Q := Wp.ite_pos h h1

theorem Wp.iteBf {b : Bool} {_ : Decidable (b = true)} {x y : M σ α} {Q : α → P σ → Abs → Prop}
    (h : b = false) (h1 : Wp B y t Q) : Wp B (if b = true then x else y) t Q := Wp.ite_neg (by simp [h]) h1

theorem Wp.iteNt {b : Bool} {_ : Decidable ((!b) = true)} {x y : M σ α} {Q : α → P σ → Abs → Prop}
    (h : b = true) (h1 : Wp B y t Q) : Wp B (if (!b) = true then x else y) t Q := Wp.ite_neg (by simp [h]) h1

theorem Wp.iteNf {b : Bool} {_ : Decidable ((!b) = true)} {x y : M σ α} {Q : α → P σ → Abs → Prop}
    (h : b = false) (h1 : Wp B x t Q) : Wp B (if (!b) = true then x else y) t Q := Wp.ite_pos (by simp [h]) h1

theorem St.tok {Q : Tok → P σ → Abs → Prop} (h : St B A0 t A) (k : Q t.tok t A) : Wp B (Parser.tok : M σ Tok) t Q :=
  wp_tok h.r k

theorem St.hasErrors {Q : Bool → P σ → Abs → Prop} (h : St B A0 t A) (k : ∀ e, Q e t A) :
    Wp B (Parser.hasErrors : M σ Bool) t Q := wp_hasErrors h.r (k _)

theorem g_even {A : Abs} : solAt A.log A.pos = true ↔ A.g % 2 = 0 := by
  unfold Abs.g gam
  cases solAt A.log A.pos <;> simp <;> omega

theorem St.startOfLine {Q : Bool → P σ → Abs → Prop} (h : St B A0 t A) (k : ∀ s, (s = true ↔ A.g % 2 = 0) → Q s t A) :
    Wp B (Parser.startOfLine : M σ Bool) t Q :=
  wp_startOfLine h.r (k _ (by rw [h.r.sol]; exact g_even))

theorem St.appendError {e : PErr} {Q : Unit → P σ → Abs → Prop} (h : St B A0 t A)
    (k : ∀ t', St B A0 t' A → t'.tok = t.tok → Q () t' A) : Wp B (Parser.appendError e : M σ Unit) t Q :=
  wp_appendError h.r (fun t' hr ht => k t' (h.move hr (.refl _)) ht)

theorem St.mark {x : Tok} {Q : Bool → P σ → Abs → Prop} (h : St B A0 t A)
    (k : ∀ b t', St B A0 t' A → t'.tok = t.tok → Q b t' A) : Wp B (Parser.mark x : M σ Bool) t Q :=
  wp_mark h.r (fun b t' hr ht => k b t' (h.move hr (.refl _)) ht)

theorem St.setRaw {v : Bool} {Q : Unit → P σ → Abs → Prop} (h : St B A0 t A)
    (k : ∀ t', St B A0 t' A → t'.tok = t.tok → Q () t' A) : Wp B (Parser.setRaw v : M σ Unit) t Q :=
  wp_setRaw h.r (fun t' hr ht _ => k t' (h.move hr (.refl _)) ht)

theorem St.getBuf {Q : Buf → P σ → Abs → Prop} (h : St B A0 t A)
    (k : ∀ t', St B A0 t' A → t'.tok = t.tok → Q [] t' A) : Wp B (Parser.getBuf : M σ Buf) t Q :=
  wp_getBuf h.r (fun t' hr ht => k t' (h.move hr (.refl _)) ht)

theorem St.resetAndPut {b : Buf} {Q : Unit → P σ → Abs → Prop} (h : St B A0 t A)
    (k : ∀ t', St B A0 t' A → t'.tok = t.tok → Q () t' A) : Wp B (Parser.resetAndPut b : M σ Unit) t Q :=
  wp_resetAndPut h.r (fun t' hr ht => k t' (h.move hr (.refl _)) ht)

theorem St.truncate {n : Nat} {b : Buf} {Q : Buf → P σ → Abs → Prop} (h : St B A0 t A) (hn : n ≤ b.length)
    (k : ∀ b', b'.length = n → Q b' t A) : Wp B (Parser.truncate n b : M σ Buf) t Q :=
  wp_truncate h.r hn (k _ (by simp [hn]))

theorem St.next {Q : Unit → P σ → Abs → Prop} (h : St B A0 t A) (hb : t.tok.type ≠ .bom) (he : t.tok.type ≠ .eof)
    (k : ∀ t' A', St B A0 t' A' → A.g < A'.g → Q () t' A') : Wp B (Parser.next : M σ Unit) t Q :=
  wp_next h.r h.cne hb (fun t' A' hr ha _ _ hs => k t' A' (h.move hr ha) (hs (.inl he)))

theorem St.next' {Q : Unit → P σ → Abs → Prop} (h : St B A0 t A) (hb : t.tok.type ≠ .bom)
    (k : ∀ t' A', St B A0 t' A' → A.g ≤ A'.g → (A.g % 2 = 0 → A.g < A'.g) → (t.tok.type ≠ .eof → A.g < A'.g) → Q () t' A') :
    Wp B (Parser.next : M σ Unit) t Q :=
  wp_next h.r h.cne hb (fun t' A' hr ha _ hl hs =>
    k t' A' (h.move hr ha) hl (fun he => hs (.inr (by rw [h.r.sol]; exact g_even.2 he))) (fun he => hs (.inl he)))

theorem St.call {n : Nat} {m : M σ α} {post : α → Nat → Nat → Prop} {Q : α → P σ → Abs → Prop} (h : St B A0 t A)
    (hs : Spec B n m post) (hn : n ≤ A.g)
    (k : ∀ a t' A', St B A0 t' A' → A.g ≤ A'.g → post a A.g A'.g → Q a t' A') : Wp B m t Q :=
  (hs t A h.r h.cne hn).mono (fun a t' A' hr ha =>
    k a t' A' (h.move hr ha.1) (ha.1.g_le h.r.pos1 h.r.posle hr.posle) ha.2)

/-- `A1` is `A0`, run for a while and with a new checkpoint. -/
structure Pend (A0 A1 : Abs) : Prop where
  ne : A0.cps ≠ []
  pos1 : 1 ≤ A0.pos
  posle : A0.pos ≤ A0.log.length
  mid : ∃ A, Adv A0 A ∧ A1 = ⟨A.log, A.pos, A.pos :: A.cps⟩

theorem St.setCheckpoint {Q : Unit → P σ → Abs → Prop} (h : St B A0 t A)
    (k : ∀ t' A', St B A' t' A' → Pend A0 A' → A'.g = A.g → t'.tok = t.tok → Q () t' A') :
    Wp B (Parser.setCheckpoint : M σ Unit) t Q :=
  wp_setCheckpoint h.r (fun t' hr ht _ => k t' _ (.start hr (by simp)) ⟨h.ne, h.pos1, h.posle, A, h.adv, rfl⟩ rfl ht)

/-- The state after the checkpoint was taken away. -/
theorem Pend.adv {A0 A1 A : Abs} {B : Nat} {t : P σ} (hp : Pend A0 A1) (h : St B A1 t A) :
    ∃ L p ps, A.cps = L ++ p :: ps ∧ (∃ L', ps = L' ++ A0.cps ∧ ∀ q ∈ L', A0.pos ≤ q) ∧ p = A1.pos ∧ A0.pos ≤ p ∧
      (∀ q ∈ L, p ≤ q) ∧ A0.pos ≤ A.pos ∧ (∃ E, A1.log = A0.log ++ E) ∧ (∃ E, A.log = A0.log ++ E) ∧
      Clean A0.log A.log := by
  obtain ⟨M, hm, rfl⟩ := hp.mid
  obtain ⟨L, hl, hge⟩ := h.adv.cps
  obtain ⟨L', hl', hge'⟩ := hm.cps
  have hpos := hm.pos
  have hpos' := h.adv.pos
  obtain ⟨E1, he1⟩ := hm.log
  obtain ⟨E2, he2⟩ := h.adv.log
  have h1 := hp.pos1
  have h2 := hp.posle
  have h3 := hm.log_le
  refine ⟨L, M.pos, M.cps, hl, ⟨L', hl', hge'⟩, rfl, hpos, hge, ?_, ⟨E1, he1⟩, ⟨E1 ++ E2, ?_⟩, ?_⟩
  · exact Nat.le_trans hpos hpos'
  · rw [he2]; simp [he1]
  · exact Clean.trans (by omega) hm.log h.adv.log hm.clean h.adv.clean (by omega)

theorem St.commit {A1 : Abs} {Q : Unit → P σ → Abs → Prop} (h : St B A1 t A) (hp : Pend A0 A1)
    (k : ∀ t' A', St B A0 t' A' → A'.g = A.g → t'.tok = t.tok → Q () t' A') :
    Wp B (Parser.commit : M σ Unit) t Q := by
  obtain ⟨L, p, ps, hc, ⟨L', hl', hge'⟩, -, hp0, hge, hpos, -, hlog, hcl⟩ := hp.adv h
  refine wp_commit h.r (fun t' hr ht _ => k t' _ ⟨hr, ⟨hlog, hpos, ?_, hcl⟩, hp.ne, hp.pos1, hp.posle⟩ rfl ht)
  cases L with
  | nil => exact ⟨L', by simp [hc, hl'], hge'⟩
  | cons x xs =>
    refine ⟨xs ++ p :: L', by simp [hc, hl'], ?_⟩
    intro q hq
    rcases List.mem_append.1 hq with hq | hq
    · exact Nat.le_trans hp0 (hge q (by simp [hq]))
    · rcases List.mem_cons.1 hq with hq | hq
      · omega
      · exact hge' q hq

/-- (A checkpoint which was left open may lie behind the one of `A1`, then `rollback` goes back to that one only.) -/
theorem St.rollback {A1 : Abs} {Q : Unit → P σ → Abs → Prop} (h : St B A1 t A) (hp : Pend A0 A1)
    (k : ∀ t' A', St B A0 t' A' → A1.g ≤ A'.g → Q () t' A') : Wp B (Parser.rollback : M σ Unit) t Q := by
  obtain ⟨L, p, ps, hc, ⟨L', hl', hge'⟩, hp1, hp0, hge, hpos, hlog1, hlog, hcl⟩ := hp.adv h
  have hle : ∀ q, q ∈ A.cps → q ≤ A.log.length := fun q hq =>
    Nat.le_trans ((List.pairwise_cons.1 h.r.sorted).1 q hq) h.r.posle
  have hg : ∀ q ps', A1.pos ≤ q → q ≤ A.log.length → A1.g ≤ Abs.g ⟨A.log, q, ps'⟩ := by
    intro q ps' h1 h2
    obtain ⟨E, he⟩ := h.adv.log
    unfold Abs.g
    rw [← gam_append h.posle E, ← he]
    exact gam_mono h.pos1 h1 h2
  cases L with
  | nil =>
    refine wp_rollback h.r hc (fun t' hr => k t' _ ⟨hr, ⟨hlog, hp0, ⟨L', hl', hge'⟩, hcl⟩, hp.ne, hp.pos1, hp.posle⟩ ?_)
    exact hg _ _ (by omega) (hle _ (by simp [hc]))
  | cons x xs =>
    have hx := hge x (by simp)
    refine wp_rollback h.r hc (fun t' hr => k t' _ ⟨hr, ⟨hlog, Nat.le_trans hp0 hx, ⟨xs ++ p :: L', by simp [hl'], ?_⟩, hcl⟩,
      hp.ne, hp.pos1, hp.posle⟩ ?_)
    · intro q hq
      rcases List.mem_append.1 hq with hq | hq
      · exact Nat.le_trans hp0 (hge q (by simp [hq]))
      · rcases List.mem_cons.1 hq with hq | hq
        · omega
        · exact hge' q hq
    · exact hg _ _ (by omega) (hle _ (by simp [hc]))

/-- The checkpoint may stay. -/
theorem St.leak {A1 : Abs} (h : St B A1 t A) (hp : Pend A0 A1) : St B A0 t A := by
  obtain ⟨L, p, ps, hc, ⟨L', hl', hge'⟩, -, hp0, hge, hpos, -, hlog, hcl⟩ := hp.adv h
  refine ⟨h.r, ⟨hlog, hpos, ⟨L ++ p :: L', by simp [hc, hl'], ?_⟩, hcl⟩, hp.ne, hp.pos1, hp.posle⟩
  intro q hq
  rcases List.mem_append.1 hq with hq | hq
  · exact Nat.le_trans hp0 (hge q hq)
  · rcases List.mem_cons.1 hq with hq | hq
    · omega
    · exact hge' q hq

end Rules

/-! ### The tactic -/

@[simp] theorem isWhite_iff {t : Tok} : isWhite t = true ↔ t.type = .space ∨ t.type = .tab := by
  unfold isWhite
  cases t.type <;> simp [TokType.isWhiteSpace]

theorem isNonBreak_iff {t : Tok} : isNonBreak t = true ↔ t.type ≠ .bom ∧ t.type ≠ .lineBreak ∧ t.type ≠ .eof := by
  unfold isNonBreak
  cases t.type <;> simp [TokType.isNonBreak]

theorem eq_ok {t : Tok} {c d : TokType} (h : t.type = c) (hc : c ≠ d) : t.type ≠ d := h ▸ hc

theorem white_ok {t : Tok} (h : isWhite t = true) : t.type ≠ .bom ∧ t.type ≠ .eof := by
  rw [isWhite_iff] at h
  rcases h with h | h <;> simp [h]

theorem nonBreak_ok {t : Tok} (h : isNonBreak t = true) : t.type ≠ .bom ∧ t.type ≠ .eof := by
  rw [isNonBreak_iff] at h
  exact ⟨h.1, h.2.2⟩

theorem stringIn_ok {t : Tok} {c : YamlChar.CharSet} (h : stringIn c t = true) : t.type ≠ .bom ∧ t.type ≠ .eof := by
  simp only [stringIn, Bool.and_eq_true, decide_eq_true_eq] at h
  simp [h.1]

theorem break_ok {t : Tok} (h : isBreakOrEOF t = true) : t.type ≠ .bom := by
  simp only [isBreakOrEOF, Bool.or_eq_true, decide_eq_true_eq] at h
  rcases h with h | h <;> simp [h]

/-- The token is not a byte order mark, is not the end. -/
syntax "wpt" : tactic

macro_rules
  | `(tactic| wpt) => `(tactic| first
    | exact eq_ok (by assumption) (by decide)
    | exact (stringIn_ok (by assumption)).1
    | exact (stringIn_ok (by assumption)).2
    | exact (white_ok (by assumption)).1
    | exact (white_ok (by assumption)).2
    | exact (nonBreak_ok (by assumption)).1
    | exact (nonBreak_ok (by assumption)).2
    | exact break_ok (by assumption)
    | (refine Ne.intro (fun hbad => ?_); simp_all [stringIn, isBreakOrEOF, isNonBreak_iff]; done)
    | fail)

/-- Lengths of buffers. -/
macro "wpl" : tactic => `(tactic| first
  | omega
  | (simp_all; done)
  | (simp_all; omega)
  | fail)

/-- Proves `Spec B ?n m ?post`: from the theorem `f_spec` if `m` is a call of `f`, or from a hypothesis; the hypotheses of
the theorem must be in the context. -/
elab "spec" : tactic => do
  let goal ← getMainGoal
  goal.withContext do
    let ty := (← instantiateMVars (← goal.getType)).cleanupAnnotations.headBeta
    let m := (ty.getArg! 6).headBeta
    if let some f := m.getAppFn.constName? then
      let thm := f.appendAfter "_spec"
      if (← getEnv).contains thm then
        let s ← saveState
        try
          let gs ← withReducible (goal.apply (← mkConstWithFreshMVarLevels thm))
          for g in gs do
            unless ← g.isAssigned do g.assumption
          replaceMainGoal []
          return
        catch _ => s.restore
    for d in (← getLCtx) do
      unless d.isImplementationDetail do
        let s ← saveState
        try
          let gs ← withReducible (goal.apply d.toExpr)
          for g in gs do
            unless ← g.isAssigned do g.assumption
          replaceMainGoal []
          return
        catch _ => s.restore
    throwError "no specification"

/-- One step of a production. -/
elab "wp1" : tactic => withMainContext do
  let ty := (← instantiateMVars (← getMainTarget)).cleanupAnnotations.headBeta
  let run (s : TacticM (TSyntax `tactic)) : TacticM Unit := do
    Tactic.withoutRecover (evalTactic (← s))
  if ty.isAppOfArity ``And 2 && (ty.getArg! 0).isAppOf ``Adv then
    run `(tactic| refine ⟨St.adv (by assumption), ?_⟩)
  else if ty.isAppOfArity ``Wp 8 then
    let m := (ty.getArg! 5).cleanupAnnotations.headBeta
    if m.isLet then run `(tactic| dsimp only) else
    match m.getAppFn.constName? with
    | some ``Bind.bind => run `(tactic| with_reducible refine Wp.bind ?_)
    | some ``Pure.pure => run `(tactic| with_reducible refine St.pure (by assumption) ?_)
    | some ``tok => run `(tactic| with_reducible refine St.tok (by assumption) ?_)
    | some ``hasErrors => run `(tactic| with_reducible refine St.hasErrors (by assumption) (fun _ => ?_))
    | some ``startOfLine => run `(tactic| with_reducible refine St.startOfLine (by assumption) (fun _ _ => ?_))
    | some ``next => run `(tactic| first
      | with_reducible refine St.next' (by assumption) (break_ok (by assumption)) (fun _ _ _ _ _ _ => ?_)
      | with_reducible refine St.next (by assumption) (by wpt) (by wpt) (fun _ _ _ _ => ?_)
      | with_reducible refine St.next' (by assumption) (by wpt) (fun _ _ _ _ _ _ => ?_))
    | some ``setCheckpoint => run `(tactic| with_reducible refine St.setCheckpoint (by assumption) (fun _ _ _ _ _ _ => ?_))
    | some ``commit => run `(tactic| with_reducible refine St.commit (by assumption) (by assumption) (fun _ _ _ _ _ => ?_))
    | some ``rollback => run `(tactic| with_reducible refine St.rollback (by assumption) (by assumption) (fun _ _ _ _ => ?_))
    | some ``appendError => run `(tactic| with_reducible refine St.appendError (by assumption) (fun _ _ _ => ?_))
    | some ``mark => run `(tactic| with_reducible refine St.mark (by assumption) (fun _ _ _ _ => ?_))
    | some ``setRaw => run `(tactic| with_reducible refine St.setRaw (by assumption) (fun _ _ _ => ?_))
    | some ``getBuf => run `(tactic| with_reducible refine St.getBuf (by assumption) (fun _ _ _ => ?_))
    | some ``resetAndPut => run `(tactic| with_reducible refine St.resetAndPut (by assumption) (fun _ _ _ => ?_))
    | some ``truncate => run `(tactic| with_reducible refine St.truncate (by assumption) (by wpl) (fun _ _ => ?_))
    | some ``attempt => run `(tactic| (unfold attempt; try dsimp only [id]))
    | some ``ite => run `(tactic| first
      | with_reducible refine Wp.iteNt (by assumption) ?_
      | with_reducible refine Wp.iteNf (by assumption) ?_
      | with_reducible refine Wp.iteBt (by assumption) ?_
      | with_reducible refine Wp.iteBf (by assumption) ?_
      | with_reducible refine Wp.ite_pos (by assumption) ?_
      | with_reducible refine Wp.ite_neg (by assumption) ?_
      | with_reducible refine Wp.iteN (fun _ => ?_) (fun _ => ?_)
      | with_reducible refine Wp.iteB (fun _ => ?_) (fun _ => ?_)
      | with_reducible refine Wp.iteNe (fun _ => ?_) (fun _ => ?_)
      | with_reducible refine Wp.ite (fun _ => ?_) (fun _ => ?_))
    | _ => run `(tactic| first
      | with_reducible refine St.call (by assumption) (by spec) (by omega) (fun _ _ _ _ _ _ => ?_)
      | split)
  else throwError "no step"

/-- All steps. -/
macro "wp" : tactic => `(tactic| repeat' wp1)

/-! ### Loops -/

theorem loop_spec {B n : Nat} {body : α → M σ (Bool × α)} (Inv : α → Prop)
    (hb : ∀ x, Inv x → Spec B n (body x) (fun r g g' => Inv r.2 ∧ (r.1 = true → g < g'))) :
    ∀ (f : Nat) (n' : Nat) (x : α), n ≤ n' → 2 * B + 1 < f + n' → Inv x → Spec B n' (loop f body x) (fun y _ _ => Inv y) := by
  intro f
  induction f with
  | zero =>
    intro n' x _ hf _ t A hr _ hg
    have := hr.g_le
    omega
  | succ f ih =>
    intro n' x hn hf hx
    refine .intro (fun t A hst hg => ?_)
    rw [loop]
    refine Wp.bind (hst.call (hb x hx) (by omega) ?_)
    intro r t' A' hst' hle hp
    refine Wp.ite (fun hc => ?_) (fun hc => ?_)
    · have := hp.2 hc
      refine hst'.call (ih (n' + 1) r.2 (by omega) (by omega) hp.1) (by omega) ?_
      intro a t'' A'' hst'' hle' hp'
      exact ⟨hst''.adv, hp'⟩
    · exact hst'.pure ⟨hst'.adv, hp.1⟩

theorem tries_spec {B n f : Nat} {body : α → M σ (Bool × α)} (Inv : α → Prop)
    (hb : ∀ x, Inv x → Spec B n (body x) (fun r g g' => Inv r.2 ∧ (r.1 = true → g < g'))) (x : α)
    (hf : 2 * B + 1 < f + n) (hx : Inv x) : Spec B n (tries f body x) (fun y _ _ => Inv y) := by
  refine loop_spec Inv (fun x hx => .intro (fun t A hst hg => ?_)) f n x (Nat.le_refl _) hf hx
  have := hb x hx
  wp
  · simp_all
  · simp_all

/-- Tokens with `pred` may be consumed. -/
class TokOk (pred : Tok → Bool) : Prop where
  ok : ∀ t, pred t = true → t.type ≠ .bom ∧ t.type ≠ .eof

instance : TokOk isWhite := ⟨fun _ => white_ok⟩
instance : TokOk isNonBreak := ⟨fun _ => nonBreak_ok⟩

theorem takeWhile_spec {B n f : Nat} {pred : Tok → Bool} {buf : Buf} (hf : 2 * B + 1 < f + n) [TokOk pred] :
    Spec B n (takeWhile f pred buf : M σ Buf) (fun b _ _ => buf.length ≤ b.length) := by
  refine loop_spec (σ := σ) (fun b => buf.length ≤ b.length) (fun x hx => .intro (fun t A hst hg => ?_)) f n buf (Nat.le_refl _) hf
    (Nat.le_refl _)
  have := TokOk.ok (pred := pred) t.tok
  wp
  · simp; omega
  · simp; omega

theorem skipWhile_spec {B n f : Nat} {pred : Tok → Bool} (hf : 2 * B + 1 < f + n) [TokOk pred] :
    Spec B n (skipWhile f pred : M σ Unit) (fun _ _ _ => True) := by
  refine loop_spec (σ := σ) (fun _ => True) (fun x hx => .intro (fun t A hst hg => ?_)) f n () (Nat.le_refl _) hf trivial
  have := TokOk.ok (pred := pred) t.tok
  wp
  · simp; omega
  · simp

end Verif.Parser
