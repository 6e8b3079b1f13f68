import Verif.Lemmas.BalanceCheck

/-! C07, C08: the bracket balance checker. -/

namespace Verif.Props.Balance

open Verif.BalanceCheck Verif.Spec.Nesting Verif.Token

variable {T : Type} [DecidableEq T]

/-- **C07.** Fed from its initial state with any sequence, the checker reports "balanced" exactly for the
properly nested sequences. -/
theorem isBalanced_iff_nested (pairs : List (T × T)) (hp : Proper pairs) (w : List T) :
    isBalanced (feed (new pairs) w) = true ↔ Nested pairs w := by
  obtain ⟨ha, hi, -⟩ := feed_abs w (b := new pairs) hp (inv_new pairs)
  rw [isBalanced_abs hi, ha, abs_new]
  exact stks_iff_nested hp w

/-- **C07**, early report: `Add` answers `false` exactly if no continuation of the sequence fed so far
(including the added token) is properly nested. -/
theorem add_false_iff_hopeless (pairs : List (T × T)) (hp : Proper pairs) (w : List T) (t : T) :
    (add (feed (new pairs) w) t).1 = false ↔ ¬ ∃ v, Nested pairs ((w ++ [t]) ++ v) := by
  obtain ⟨ha, hi, hpr⟩ := feed_abs w (b := new pairs) hp (inv_new pairs)
  obtain ⟨-, -, -, hr⟩ := add_abs (b := feed (new pairs) w) (by rw [hpr]; exact hp) hi t
  rw [← stks_some_iff_extends hp, stks_append, hr, hpr, ha, abs_new]
  simp only [stks, List.foldl_cons, List.foldl_nil, new]
  cases stk pairs (List.foldl (stk pairs) (some []) w) t <;> simp

/-- **C07**, end-of-input report: for a sequence without unmatched closer, an unclosed bracket is reported
exactly if the sequence is not properly nested. -/
theorem peekLastUnbalanced_none_iff (pairs : List (T × T)) (hp : Proper pairs) (w : List T)
    (hext : ∃ v, Nested pairs (w ++ v)) :
    peekLastUnbalanced (feed (new pairs) w) = none ↔ Nested pairs w := by
  obtain ⟨ha, hi, -⟩ := feed_abs w (b := new pairs) hp (inv_new pairs)
  rw [← isBalanced_iff_nested pairs hp w, isBalanced_abs hi]
  have hs := (stks_some_iff_extends hp w).2 hext
  rw [abs_new] at ha
  have hs : (abs (feed (new pairs) w)).isSome = true := by rw [ha]; exact hs
  unfold abs at hs ⊢
  cases hb : (feed (new pairs) w).bad with
  | true => simp [hb] at hs
  | false => simp [peekLastUnbalanced]

/-- The parser's brackets satisfy the assumption on the pairs. -/
theorem parserPairs_proper : Proper parserPairs :=
  ⟨by simp [parserPairs], by simp [parserPairs]⟩

example : Nested parserPairs
    [.sequenceStart, .string, .mappingStart, .mappingEnd, .sequenceEnd, .space] :=
  (isBalanced_iff_nested _ parserPairs_proper _).1 (by decide)

example : isBalanced (feed (new parserPairs) [.sequenceStart, .mappingStart, .sequenceEnd]) = false := by
  decide

/-- **C08 (partial).** If the tokens `u` fed between taking and restoring a memento do not close a bracket
opened before (i.e. they can be continued to a properly nested sequence of their own), the restored checker
answers every later question like the checker at the time of the memento.

Missing: sequences that close earlier brackets, for which the claim is false, see `memento_forgets`. -/
theorem memento_restores_partial (pairs : List (T × T)) (hp : Proper pairs) (w u : List T)
    (hu : ∃ v, Nested pairs (u ++ v)) (x : List T) :
    let b := feed (new pairs) w
    let r := setMemento (feed b u) (memento b)
    isBalanced (feed r x) = isBalanced (feed b x) ∧ (feed r x).bad = (feed b x).bad := by
  intro b r
  obtain ⟨-, hi, hpr⟩ := feed_abs w (b := new pairs) hp (inv_new pairs)
  have hpr' : b.pairs = pairs := hpr
  obtain ⟨h1, h2, h3⟩ := abs_restore (b := b) (by rw [hpr']; exact hp) hi u (.inr (by rw [hpr']; exact hu))
  exact abs_eq_obs h1 h3 (by rw [h3, hpr']; exact hp) h2 hi x

example : ∃ v, Nested parserPairs ([.mappingStart, .sequenceStart, .sequenceEnd] ++ v) :=
  ⟨[.mappingEnd], (isBalanced_iff_nested _ parserPairs_proper _).1 (by decide)⟩

/-- **C08 is false in general** (balancecheck.go:61-80): after `[`, taking the memento, `]` `{` and restoring,
the checker has forgotten the `[` and reports the sequence `[` `]` as unbalanced. -/
theorem memento_forgets :
    let b := feed (new parserPairs) [.sequenceStart]
    let r := setMemento (feed b [.sequenceEnd, .mappingStart]) (memento b)
    isBalanced (feed b [.sequenceEnd]) = true ∧ isBalanced (feed r [.sequenceEnd]) = false := by
  decide

end Verif.Props.Balance
