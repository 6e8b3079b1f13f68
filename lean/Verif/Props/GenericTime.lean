import Verif.Props.Timestamp
import Verif.Model.Generic

/-!
The class of times in generic decoding, with the timestamps of the schema: the value of a plain text does not depend on the
place of the timestamps among the classes which are tried (engines/yayamls/decode/any.go:158-180,
engines/goyaml/decode/any.go:131-152).
-/

namespace Verif.Props.GenericTime

open Verif.Generic

/-- The library with the timestamps of engines/pkg/schema/schema.go:167-175. -/
abbrev withTimes (lib : Lib) : Lib := { lib with isTimestamp := Timestamp.isTimestamp }

/-- C74: a text becomes a time exactly when `ToTimestamp` succeeds. -/
theorem time_iff (lib : Lib) (t : List Char) :
    scalarValue (withTimes lib) t = some (.time t) ↔ ∃ w, Timestamp.toTimestamp t = some w := by
  rw [← Timestamp.isTimestamp_iff]
  constructor
  · intro h
    by_cases hc : Timestamp.isTimestamp t = true
    · exact hc
    · simp only [scalarValue, withTimes, hc] at h
      exfalso
      revert h
      simp only [Bool.false_eq_true, if_false]
      split
      · split <;> simp
      · split
        · split <;> simp
        · split
          · by_cases hx : lib.toFloat t 64 = true
            · rw [if_pos hx]; simp
            · rw [if_neg hx]; simp
          · split
            · simp
            · simp
  · intro h
    simp [scalarValue, withTimes, h]

/-- C74: a text of another class never becomes a time. -/
theorem other_not_time (lib : Lib) {t : List Char}
    (h : Schema.isInteger t = true ∨ Schema.isUnsignedInteger t = true ∨ Schema.isFloat t = true ∨
      Schema.isBoolean t = true) : scalarValue (withTimes lib) t ≠ some (.time t) := by
  intro hs
  have := Timestamp.accepted_no_other_class (Timestamp.isTimestamp_iff.2 ((time_iff lib t).1 hs))
  rcases h with h | h | h | h <;> simp [h] at this

/-- C74: trying the timestamps first or only for what is of no other class gives the same value. -/
theorem time_order (lib : Lib) (t : List Char) :
    scalarValue (withTimes lib) t =
      match scalarValue { lib with isTimestamp := fun _ => false } t with
      | some (.str s) => if Timestamp.isTimestamp s then some (.time s) else some (.str s)
      | v => v := by
  by_cases hc : Timestamp.isTimestamp t = true
  · obtain ⟨_, hb, hi, hu, hf⟩ := Timestamp.accepted_no_other_class hc
    simp [scalarValue, withTimes, hc, hb, hi, hu, hf]
  · simp only [scalarValue, withTimes, hc, Bool.false_eq_true, if_false]
    by_cases hu : Schema.isUnsignedInteger t = true
    · simp only [hu, if_true]
      split <;> simp
    · by_cases hi : Schema.isInteger t = true
      · simp only [hu, hi, Bool.false_eq_true, if_false, if_true]
        split <;> simp
      · by_cases hf : Schema.isFloat t = true
        · simp only [hu, hi, hf, Bool.false_eq_true, if_false, if_true]
          by_cases hx : lib.toFloat t 64 = true
          · rw [if_pos hx]
          · rw [if_neg hx]
        · by_cases hb : Schema.isBoolean t = true
          · simp only [hu, hi, hf, hb, Bool.false_eq_true, if_false, if_true]
            cases Schema.toBoolean t <;> simp
          · simp [hu, hi, hf, hb, hc]

example : scalarValue (withTimes { isTimestamp := fun _ => false, toFloat := fun _ _ => true, sprint := fun _ => [] })
    "2001-12-14".toList = some (.time "2001-12-14".toList) :=
  (time_iff _ _).2 (Timestamp.isTimestamp_iff.1 (by decide +kernel))

example : Schema.isInteger "20011214".toList = true := by decide +kernel

end Verif.Props.GenericTime
