import Verif.Props.Float
import Verif.Lemmas.Ieee

/-!
C77: floats of single precision, which generated code writes as doubles (generator/encoder.go:25) and reads with 32 bits
(generator/decoder.go:26, engines/pkg/schema/schema.go:128-141).
-/

namespace Verif.Props.Float32

open Verif.Float Verif.Props.Float Verif.CoreSchema Verif.Ieee

/-- The number of the shortest digits. -/
def value (d : Decimal) : ℚ :=
  number 10 d.digits * (10 : ℚ) ^ (if d.digits = [] then (0 : Int) else d.dp - d.digits.length)

/-- What is assumed of `strconv` for 32 bits; `sign` and `mag` are the sign and the magnitude of a float.  The shortest digits of a double
lie nearest to it; a number is rounded to the single which is nearest to it if there is only one and it is no overflow. -/
structure Nearly {φ : Type} (R : Rounding φ) (sign : φ → Bool) (mag : φ → ℚ) : Prop where
  neg : ∀ x, (R.shortest x).neg = sign x
  near : ∀ x, Nearest Double (value (R.shortest x)) (mag x)
  single : ∀ (neg : Bool) (m : Nat) (e : Int) (x : φ), sign x = neg → OnlyNearest Single (m * (10 : ℚ) ^ e) (mag x) →
    mag x < 2 ^ 128 → R.round 32 neg m e = some x

/-- C77: a float of single precision, written as a double, is read with 32 bits as itself. -/
theorem single_round_trip {φ : Type} {R : Rounding φ} {sign : φ → Bool} {mag : φ → ℚ} (hR : Contract R) (hN : Nearly R sign mag)
    {x : φ} (hx : Single (mag x)) (hlt : mag x < 2 ^ 128) : toFloat R (fromFloat R (.fin x)) 32 = some (.fin x) := by
  rw [text_converts hR, hN.single _ _ _ x (hN.neg x).symm _ hlt]
  · rfl
  · exact nearest_double_single hx (hN.near x)

/-- C77: infinities and NaN are read as themselves at every bit size. -/
theorem special_round_trip {φ : Type} (R : Rounding φ) (bits : Nat) :
    toFloat R (fromFloat R (.inf true)) bits = some (.inf true) ∧ toFloat R (fromFloat R (.inf false)) bits = some (.inf false) ∧
      toFloat R (fromFloat R .nan) bits = some .nan := ⟨rfl, rfl, rfl⟩

/-! ### The assumptions can be met -/

open Classical in
/-- Numbers of one digit, with the rounding to the nearest of them for 32 bits. -/
noncomputable def near : Rounding (Fin 10) where
  shortest := small.shortest
  round bits neg m e :=
    if bits = 64 then small.round bits neg m e
    else if h : ∃ x : Fin 10, false = neg ∧ OnlyNearest Single (m * (10 : ℚ) ^ (e : Int)) (x.1 : ℚ) then some h.choose else none

theorem onlyNearest_unique {P : ℚ → Prop} {q c d : ℚ} (hc : OnlyNearest P q c) (hd : OnlyNearest P q d) : c = d := by
  by_contra hne
  exact absurd (hc.2 d hd.1 (Ne.symm hne)) (not_lt.2 (hd.2 c hc.1 hne).le)

theorem near_value : ∀ x : Fin 10, value (near.shortest x) = (x.1 : ℚ) := by
  have h : ∀ x : Fin 10, number 10 (small.shortest x).digits = x.1 ∧
      (if (small.shortest x).digits = [] then (0 : Int) else (small.shortest x).dp - (small.shortest x).digits.length) = 0 := by
    decide
  intro x
  show value (small.shortest x) = _
  unfold value
  rw [(h x).1, (h x).2]
  simp

theorem digit_double (x : Fin 10) : Single (x.1 : ℚ) :=
  ⟨x.1, 0, by have := x.2; norm_num; omega, by omega, by omega, by simp⟩

example : Contract near :=
  ⟨by show ∀ x, Digits (small.shortest x).digits; unfold Digits; decide, by
    intro x c cs h
    have : ∀ n : Fin 10, ∀ c ∈ (small.shortest n).digits, c ≠ '0' := by decide
    exact this x c (by rw [show (small.shortest x).digits = c :: cs from h]; simp),
    by show ∀ x, (small.shortest x).dp.natAbs < 999; decide,
    by
      intro x
      have : ∀ x, small.round 64 (small.shortest x).neg (number 10 (small.shortest x).digits)
        (if (small.shortest x).digits = [] then 0 else (small.shortest x).dp - (small.shortest x).digits.length) = some x := by
        decide
      exact this x⟩

example : Nearly near (fun _ => false) (fun x => (x.1 : ℚ)) where
  neg _ := rfl
  near x := ⟨single_double (digit_double x), fun y _ => by rw [near_value]; simp⟩
  single := by
    intro neg m e x hs hn _
    have hex : ∃ x : Fin 10, false = neg ∧ OnlyNearest Single (m * (10 : ℚ) ^ (e : Int)) (x.1 : ℚ) := ⟨x, hs, hn⟩
    have hr : near.round 32 neg m e = some hex.choose := by
      simp only [near, dif_pos hex]
      rw [if_neg (by decide)]
    rw [hr]
    have := onlyNearest_unique hex.choose_spec.2 hn
    congr 1
    ext
    exact_mod_cast this

example : Single (((1 : Fin 10).1 : ℚ)) := digit_double 1

end Verif.Props.Float32
