import Verif.Lemmas.GoExpr

/-!
The names of variables in generated code, and the counter behind them.
-/

namespace Verif.GoText

open Verif.GenText

/-- Writing never turns the counter back. -/
structure Grows (w : W) : Prop where
  run : ∀ n x n', w n = .ok (some (x, n')) → n ≤ n'

theorem Grows.say (t : Text) : Grows (say t) := ⟨fun n x n' h => by cases h; exact Nat.le_refl _⟩

theorem Grows.line (t : Text) : Grows (line t) := .say _

theorem Grows.fail : Grows fail := ⟨fun n x n' h => by cases h⟩

theorem Grows.seq {a b : W} (ha : Grows a) (hb : Grows b) : Grows (a.seq b) := by
  refine ⟨fun n x n' h => ?_⟩
  simp only [W.seq] at h
  split at h <;> try cases h
  rename_i y m hy
  split at h <;> try cases h
  rename_i z hz
  exact Nat.le_trans (ha.run _ _ _ hy) (hb.run _ _ _ hz)

theorem Grows.nil : Grows (all []) := .say _

theorem Grows.cons {w : W} {ws : List W} (h : Grows w) (hs : Grows (all ws)) : Grows (all (w :: ws)) := Grows.seq h hs

theorem Grows.fresh {sfx : Text} {k : Text → W} (h : ∀ v, Grows (k v)) : Grows (fresh sfx k) :=
  ⟨fun n x n' e => Nat.le_of_succ_le ((h _).run _ _ _ e)⟩

theorem Grows.ite {p : Prop} [Decidable p] {a b : W} (ha : Grows a) (hb : Grows b) : Grows (if p then a else b) := by
  split <;> assumption

/-- Look for calls of `fresh`. -/
macro "growing" : tactic => `(tactic| repeat' (first
  | with_reducible assumption
  | with_reducible exact Grows.nil
  | with_reducible exact Grows.fail
  | with_reducible apply Grows.line
  | with_reducible apply Grows.say
  | with_reducible apply Grows.cons
  | with_reducible apply Grows.seq
  | with_reducible apply Grows.ite
  | (with_reducible apply Grows.fresh; intro)))

section

variable {τ : Type} [DecidableEq τ] (ty : Types τ) (eng : Engine) (o : Opts)

theorem check_grows (t : τ) (p : Place) (indent : Nat) : Grows (unmarshalersCheck ty eng t p indent).2 := by
  unfold unmarshalersCheck
  split
  · cases eng <;> dsimp only <;> growing
  · growing

theorem marshalersCheck_grows (t : τ) (p : Place) (indent : Nat) : Grows (marshalersCheck ty eng t p indent).2 := by
  unfold marshalersCheck
  split
  · cases eng <;> dsimp only <;> growing
  · growing

theorem unmarshalAssertions_grows (p : Place) (indent : Nat) : Grows (unmarshalAssertions eng p indent) := by
  unfold unmarshalAssertions
  cases eng <;> dsimp only <;> growing

theorem marshalAssertions_grows (p : Place) (indent : Nat) : Grows (marshalAssertions eng p indent) := by
  unfold marshalAssertions
  cases eng <;> dsimp only <;> growing

theorem dec_grows (cur : τ) : ∀ (f : Nat) (t : τ) (p : Place) (om : Bool) (indent : Nat) (elem : Bool),
    Grows (decBody ty eng o cur f t p om indent elem) ∧ Grows (decPlain ty eng o cur f t p om indent elem) := by
  intro f
  induction f with
  | zero => intro t p om indent elem; exact ⟨⟨fun n x n' h => by cases h⟩, ⟨fun n x n' h => by cases h⟩⟩
  | succ f ih =>
    intro t p om indent elem
    have hc := check_grows ty eng t p indent
    have ha := unmarshalAssertions_grows eng p (indent + 2)
    have i1 := fun t p om indent elem => (ih t p om indent elem).1
    have i2 := fun t p om indent elem => (ih t p om indent elem).2
    constructor
    · unfold decBody
      dsimp only
      split
      · split
        · growing
        · split
          · exact hc
          · growing <;> apply i2
          · growing <;> apply i2
      · growing <;> apply i2
    · unfold decPlain
      dsimp only
      split
      · growing
      · split
        · growing
        · growing <;> apply i1
        · growing <;> apply i1
        · split <;> growing
        · growing <;> apply i1
        · growing <;> apply i1
        · split
          · split
            · growing
            · split <;> growing
          · growing
        · growing

theorem enc_grows (cur : τ) : ∀ (f : Nat) (t : τ) (p : Place) (om : Bool) (indent : Nat) (nul : Bool),
    Grows (encBody ty eng o cur f t p om indent nul) ∧ Grows (encPlain ty eng o cur f t p om indent nul) := by
  intro f
  induction f with
  | zero => intro t p om indent nul; exact ⟨⟨fun n x n' h => by cases h⟩, ⟨fun n x n' h => by cases h⟩⟩
  | succ f ih =>
    intro t p om indent nul
    have hc := marshalersCheck_grows ty eng t p indent
    have ha := marshalAssertions_grows eng p (indent + 2)
    have i1 := fun t p om indent nul => (ih t p om indent nul).1
    have i2 := fun t p om indent nul => (ih t p om indent nul).2
    constructor
    · unfold encBody
      dsimp only
      split
      · split
        · growing
        · split
          · exact hc
          · growing <;> apply i2
      · growing <;> apply i2
    · unfold encPlain
      dsimp only
      split
      · growing
      · split
        · growing
        · split
          · growing
          · growing <;> apply i1
          · growing <;> apply i1
          · split
            · split <;> growing
            · growing
          · growing <;> apply i1
          · growing <;> apply i1
          · split
            · split
              · growing
              · split <;> growing
            · growing
          · growing

end

theorem number_inj {n m : Nat} {a b : List Char} (h : number n ++ a = number m ++ b)
    (ha : ∀ c s, a = c :: s → c.isDigit = false) (hb : ∀ c s, b = c :: s → c.isDigit = false) : n = m ∧ a = b := by
  have hd : ∀ k, ∀ c ∈ number k, c.isDigit = true := fun k c hc => Nat.isDigit_of_mem_toDigits (by decide) (by decide) hc
  have key : number n = number m ∧ a = b := by
    rcases List.append_eq_append_iff.1 h with ⟨l, h1, h2⟩ | ⟨l, h1, h2⟩
    · cases l with
      | nil => simp_all
      | cons c l =>
        have := hd m c (by rw [h1]; simp)
        rw [ha c _ h2] at this
        cases this
    · cases l with
      | nil => simp_all
      | cons c l =>
        have := hd n c (by rw [h1]; simp)
        rw [hb c _ h2] at this
        cases this
  refine ⟨?_, key.2⟩
  have h1 := @Nat.ofDigitChars_ten_toDigits n
  have h2 := @Nat.ofDigitChars_ten_toDigits m
  rw [show Nat.toDigits 10 n = Nat.toDigits 10 m from key.1] at h1
  exact h1.symm.trans h2

end Verif.GoText
