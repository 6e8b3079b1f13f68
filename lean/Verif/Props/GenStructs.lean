import Verif.Props.GenLoops

/-!
C81: the functions generated for structs; generator/decoder.go:68-132 and generator/encoder.go:75-132.
-/

set_option linter.unusedSimpArgs false
set_option linter.unusedVariables false

namespace Verif.Props.GenStructs

open Verif.GenText Verif.Props.GenText Verif.Props.GenLoops

/-- One text per element, in order; `n` and `n'` are the numbers of variables before and after. -/
inductive Each {α : Type} (R : α → Nat → Text → Nat → Prop) : List α → Nat → List Text → Nat → Prop where
  | nil (n : Nat) : Each R [] n [] n
  | cons {a : α} {as : List α} {n m n' : Nat} {x : Text} {xs : List Text} (h : R a n x m) (hs : Each R as m xs n') :
      Each R (a :: as) n (x :: xs) n'

theorem Each.length {α : Type} {R : α → Nat → Text → Nat → Prop} {as : List α} {n n' : Nat} {xs : List Text}
    (h : Each R as n xs n') : xs.length = as.length := by
  induction h with
  | nil => rfl
  | cons _ _ ih => simp [ih]

theorem all_map {α : Type} {R : α → Nat → Text → Nat → Prop} (w : α → W)
    (hw : ∀ a n x m, w a n = .ok (some (x, m)) → R a n x m) :
    ∀ (as : List α) (n n' : Nat) (x : Text), all (as.map w) n = .ok (some (x, n')) →
      ∃ xs, Each R as n xs n' ∧ x = xs.flatten
  | [], n, n', x, h => by
    obtain ⟨rfl, rfl⟩ := all_nil h
    exact ⟨[], .nil _, rfl⟩
  | a :: as, n, n', x, h => by
    obtain ⟨x1, m, x2, h1, h2, rfl⟩ := all_cons h
    obtain ⟨xs, h3, rfl⟩ := all_map w hw as m n' x2 h2
    exact ⟨x1 :: xs, .cons (hw _ _ _ _ h1) h3, rfl⟩

section

variable {τ : Type} [DecidableEq τ] (ty : Types τ) (eng : Engine) (o : Opts)

/-- The text for a field in the decoder of the struct `cur`: a case with the name, and the decoder of the field. -/
def CaseOf (cur : τ) (f : Nat) (d : Field τ) (n : Nat) (x : Text) (m : Nat) : Prop :=
  ∃ body, decBody ty eng o cur f d.type (.field "out".toList d.goName) d.omitempty 6 true n = .ok (some (body, m)) ∧
    x = code 0 ["    case " ++ str (quoted d.name) ++ ":"] ++ body

/-- The text for a field in the encoder of the struct `cur`: the name, and the encoder of the field; with omitempty only for
values which are not empty. -/
def BlockOf (cur : τ) (f : Nat) (d : Field τ) (n : Nat) (x : Text) (m : Nat) : Prop :=
  let omitted := o.omitempty || d.omitempty
  ∃ body, encBody ty eng o cur f d.type (.field "in".toList d.goName) d.omitempty 6 (!omitted) n = .ok (some (body, m)) ∧
    x = code 0 [if omitted then "  if " ++ str (notEmptyCheck ty d.type (Place.field "in".toList d.goName).text) ++ " {" else "  {",
      "    out.InsertString(" ++ str (quoted d.name) ++ ")"] ++ body ++ code 0 ["  }"]

theorem decField_case {cur : τ} {f : Nat} {d : Field τ} {n m : Nat} {x : Text}
    (h : decField ty eng o cur f d n = .ok (some (x, m))) : CaseOf ty eng o cur f d n x m := by
  obtain ⟨x1, k, x2, h1, h2, he⟩ := seq_ok h
  obtain ⟨he1, hk⟩ := line_ok h1
  exact ⟨x2, by rw [← hk]; exact h2, by rw [he, he1]; simp [code, spaces]⟩

theorem encField_block {cur : τ} {f : Nat} {d : Field τ} {n m : Nat} {x : Text}
    (h : encField ty eng o cur f d n = .ok (some (x, m))) : BlockOf ty eng o cur f d n x m := by
  simp only [encField] at h
  obtain ⟨x1, k, x2, h1, h2, he⟩ := all_cons h
  obtain ⟨x3, h2, he2⟩ := all_line h2
  obtain ⟨body, m', x4, h3, h2, he3⟩ := all_cons h2
  obtain ⟨x5, h2, he4⟩ := all_line h2
  obtain ⟨he5, hm⟩ := all_nil h2
  have hk : k = n ∧ x1 = (if o.omitempty || d.omitempty then
      "  if ".toList ++ (notEmptyCheck ty d.type (Place.field "in".toList d.goName).text ++ " {".toList) else "  {".toList) ++ ['\n'] := by
    cases ho : (o.omitempty || d.omitempty) <;> rw [ho] at h1 <;> exact ⟨(line_ok h1).2, (line_ok h1).1⟩
  refine ⟨body, by rw [← hk.1, hm]; exact h3, ?_⟩
  rw [he, hk.2, he2, he3, he4, he5]
  cases ho : (o.omitempty || d.omitempty) <;> simp [code, spaces]

set_option maxRecDepth 8000 in
/-- C81: the decoder of a struct has a loop over the entries of the mapping, which skips nulls, with one case for each field, in
order, and one for other keys. -/
theorem struct_decoder {f : Nat} {t : τ} {fs : List (Field τ)} {es : List (Text × τ)} {n n' : Nat} {x : Text}
    (hk : ty.kind t = .struct fs es) (h : decoder ty eng o f t n = .ok (some (x, n'))) :
    ∃ news cases, Each (CaseOf ty eng o t f) fs n cases n' ∧
      x = code 0 [
        "func " ++ str (ty.func .dec t) ++ "(in yamly.Decoder, out *" ++ str (ty.name t) ++ ") {",
        "  if in.TryNull() {",
        "    var zeroValue " ++ str (ty.name t),
        "    *out = zeroValue",
        "  }",
        ""] ++ code 0 news ++ code 0 [
        "  structMappingState := in.Mapping()",
        "  for structMappingState.HasUnprocessedItems() {",
        "    key := in.String()",
        "    if in.TryNull() {",
        "      continue",
        "    }",
        "    switch key {"] ++ cases.flatten ++ code 0 [
        "    default:",
        if o.disallowUnknownFields then "      in.AddError(&yamly.UnknownFieldError{Field: key})" else "      in.Skip()",
        "    }",
        "  }",
        "}"] ∧
      news = es.map fun e => "  out." ++ str e.1 ++ " = new(" ++ str (ty.name e.2) ++ ")" := by
  simp only [decoder, hk, decStruct] at h
  obtain ⟨a1, h, e1⟩ := all_line h
  obtain ⟨a2, h, e2⟩ := all_line h
  obtain ⟨a3, h, e3⟩ := all_line h
  obtain ⟨a4, h, e4⟩ := all_line h
  obtain ⟨a5, h, e5⟩ := all_line h
  obtain ⟨a6, h, e6⟩ := all_line h
  obtain ⟨new, m, a7, hnew, h, e7⟩ := all_cons h
  obtain ⟨a8, h, e8⟩ := all_line h
  obtain ⟨a9, h, e9⟩ := all_line h
  obtain ⟨b1, h, e10⟩ := all_line h
  obtain ⟨b2, h, e11⟩ := all_line h
  obtain ⟨b3, h, e12⟩ := all_line h
  obtain ⟨b4, h, e13⟩ := all_line h
  obtain ⟨b5, h, e14⟩ := all_line h
  obtain ⟨cs, m', b6, hcs, h, e15⟩ := all_cons h
  obtain ⟨b7, h, e16⟩ := all_line h
  obtain ⟨other, m'', b8, hother, h, e17⟩ := all_cons h
  obtain ⟨b9, h, e18⟩ := all_line h
  obtain ⟨c1, h, e19⟩ := all_line h
  obtain ⟨c2, h, e20⟩ := all_line h
  obtain ⟨e21, hn⟩ := all_nil h
  have hnews : ∀ (es : List (Text × τ)) (n m : Nat) (y : Text),
      all (es.map fun e => line ("  out.".toList ++ (e.1 ++ (" = new(".toList ++ (ty.name e.2 ++ ")".toList))))) n = .ok (some (y, m)) →
      m = n ∧ y = code 0 (es.map fun e => "  out." ++ str e.1 ++ " = new(" ++ str (ty.name e.2) ++ ")") := by
    intro es
    induction es with
    | nil => intro n m y h; exact ⟨(all_nil h).2, (all_nil h).1⟩
    | cons e es ih =>
      intro n m y h
      obtain ⟨z, h, he⟩ := all_line h
      obtain ⟨h1, h2⟩ := ih _ _ _ h
      refine ⟨h1, ?_⟩
      rw [he, h2]
      simp [code, spaces]
  obtain ⟨hm, hn1⟩ := hnews _ _ _ _ hnew
  obtain ⟨cases, hc, hc'⟩ := all_map _ (fun _ _ _ _ => decField_case ty eng o) _ _ _ _ hcs
  have ho : m'' = m' ∧ other = code 0 [if o.disallowUnknownFields then
      "      in.AddError(&yamly.UnknownFieldError{Field: key})" else "      in.Skip()"] := by
    cases hd : o.disallowUnknownFields <;> rw [hd] at hother <;>
      exact ⟨(line_ok hother).2, by rw [(line_ok hother).1]; simp [code, spaces]⟩
  refine ⟨_, cases, ?_, ?_, rfl⟩
  · rw [hn, ho.1, ← hm]; exact hc
  · rw [e1, e2, e3, e4, e5, e6, e7, e8, e9, e10, e11, e12, e13, e14, e15, e16, e17, e18, e19, e20, e21, hn1, hc', ho.2]
    simp [code, spaces]

/-- C81: the encoder of a struct writes one mapping, with the names and the values of the fields in order. -/
theorem struct_encoder {f : Nat} {t : τ} {fs : List (Field τ)} {es : List (Text × τ)} {n n' : Nat} {x : Text}
    (hk : ty.kind t = .struct fs es) (h : encoder ty eng o f t n = .ok (some (x, n'))) :
    ∃ blocks, Each (BlockOf ty eng o t f) fs n blocks n' ∧
      x = code 0 ["func " ++ str (ty.func .enc t) ++ "(out yamly.Inserter, in " ++ (if o.encodePointerReceiver then "*" else "") ++
          str (ty.name t) ++ ") {"] ++
        code 0 (if o.encodePointerReceiver then ["  if in == nil {", "    out.InsertNull()", "    return", "  }"] else []) ++
        code 0 ["  out.StartMapping()"] ++ blocks.flatten ++ code 0 ["  out.EndMapping()", "}"] := by
  simp only [encoder, hk] at h
  obtain ⟨a1, h, e1⟩ := all_line h
  obtain ⟨null, m, a2, hnull, h, e2⟩ := all_cons h
  obtain ⟨a3, h, e3⟩ := all_line h
  obtain ⟨bs, m', a4, hbs, h, e4⟩ := all_cons h
  obtain ⟨a5, h, e5⟩ := all_line h
  obtain ⟨a6, h, e6⟩ := all_line h
  obtain ⟨e7, hn⟩ := all_nil h
  obtain ⟨blocks, hb, hb'⟩ := all_map _ (fun _ _ _ _ => encField_block ty eng o) _ _ _ _ hbs
  have ho : m = n ∧ null =
      code 0 (if o.encodePointerReceiver then ["  if in == nil {", "    out.InsertNull()", "    return", "  }"] else []) := by
    cases hd : o.encodePointerReceiver <;> rw [hd] at hnull
    · exact ⟨(all_nil hnull).2, (all_nil hnull).1⟩
    · simp only [if_true] at hnull
      obtain ⟨c1, h, g1⟩ := all_line hnull
      obtain ⟨c2, h, g2⟩ := all_line h
      obtain ⟨c3, h, g3⟩ := all_line h
      obtain ⟨c4, h, g4⟩ := all_line h
      obtain ⟨g5, g6⟩ := all_nil h
      exact ⟨g6, by rw [g1, g2, g3, g4, g5]; simp [code, spaces]⟩
  refine ⟨blocks, ?_, ?_⟩
  · rw [hn, ← ho.1]; exact hb
  · rw [e1, e2, e3, e4, e5, e6, e7, hb', ho.2]
    cases o.encodePointerReceiver <;> simp [code, spaces]

end

/-- The struct of the examples of C69 has texts. -/
example : (∃ fs es, (ex exFields).kind .t = .struct fs es ∧ fs ≠ []) ∧
    (written? (decoder (ex exFields) .yayamls exOpts 20 .t)).isSome = true ∧
    (written? (encoder (ex exFields) .yayamls exOpts 20 .t)).isSome = true := by
  refine ⟨⟨_, _, rfl, ?_⟩, ?_, ?_⟩ <;> decide +kernel

end Verif.Props.GenStructs
