import Verif.Lemmas.Bitmap

/-! C06: memoised character class answers. -/

namespace Verif.Props.Memo

open Verif.Bitmap Verif.YamlChar

/-- **C06.** For a fresh token (its bitmap is the zero value) any sequence of character class queries gets the
answers of the class predicates on the token's text. -/
theorem memoised_eq_direct (origin : List Char) (cs : List CharSet) :
    queries ⟨origin, 0⟩ cs = cs.map (conformsCharSet origin) :=
  queries_ok cs (fun c => .inl (get_zero c))

/-- **C06**, the cache itself: what was recorded for a class is read back ... -/
theorem get_after_set (b : Bitmap) (c : CharSet) (hc : c ≠ .unknown) (v : Bool) :
    get (set b c v) c = (v, true) := get_set_same b hc v

/-- ... and recording an answer for one class does not change what is known about another. -/
theorem get_after_set_other (b : Bitmap) (c d : CharSet) (hcd : c ≠ d) (v : Bool) :
    get (set b c v) d = get b d := by
  by_cases hd : d = .unknown
  · subst hd; rw [get_unknown, get_unknown]
  · exact get_set_other b hd hcd v

/-- The answers are really memoised: a second query of the same class finds the recorded answer. -/
theorem second_query_is_cached (origin : List Char) (b : Bitmap) (c : CharSet) (hc : c ≠ .unknown) :
    (get (conforms ⟨origin, b⟩ c).2.map c).2 = true := by
  unfold conforms
  split
  · rename_i h; simp [h]
  · simp [get_set_same _ hc]

example : queries ⟨"a[b".toList, 0⟩ [.plainSafe, .word, .plainSafe, .uri, .decimal, .uri]
    = [false, false, false, true, false, true] := by
  decide +kernel

end Verif.Props.Memo
