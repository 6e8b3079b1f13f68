import Verif.Props.GenBasics

/-!
C82: which methods of a type generated code uses, and when it leaves a field out; generator/decoder.go:134-177,
generator/encoder.go:134-197, engines/yayamls/engine.go:60-86, engines/goyaml/engine.go:57-86.
-/

set_option linter.unusedSimpArgs false
set_option linter.unusedVariables false

namespace Verif.Props.GenMethods

open Verif.GenText Verif.Props.GenText Verif.Props.GenLoops

section

variable {τ : Type} [DecidableEq τ] (ty : Types τ) (eng : Engine) (o : Opts) (cur : τ)
  {f : Nat} {t : τ} {p : Place} {om : Bool} {indent : Nat} {b : Bool} {n n' : Nat} {x : Text}

/-- C82: a type with `UnmarshalYamly` is decoded by this method alone, whatever other methods it has. -/
theorem decoder_yamly (ht : t ≠ cur) (hy : ty.yamly .dec t = true)
    (h : decBody ty eng o cur (f + 1) t p om indent b n = .ok (some (x, n'))) :
    x = code indent ["(" ++ str p.text ++ ").UnmarshalYamly(in)"] ∧ n' = n := by
  unfold decBody at h
  simp only [ne_eq, ht, not_false_eq_true, if_true, hy] at h
  refine ⟨?_, (line_ok h).2⟩
  rw [(line_ok h).1]
  simp [code, decMethod]

/-- C82: with yayamls, a type with `UnmarshalYAML` and without `UnmarshalYamly` is decoded by it, and its error is kept. -/
theorem decoder_yayamls (ht : t ≠ cur) (hy : ty.yamly .dec t = false) (he : ty.engine .dec t = true)
    (h : decBody ty .yayamls o cur (f + 1) t p om indent b n = .ok (some (x, n'))) :
    x = code indent ["in.AddError((" ++ str p.text ++ ").UnmarshalYAML(in.Raw()))"] ∧ n' = n := by
  unfold decBody at h
  simp only [ne_eq, ht, not_false_eq_true, if_true, hy, Bool.false_eq_true, if_false, unmarshalersCheck, he] at h
  refine ⟨?_, (line_ok h).2⟩
  rw [(line_ok h).1]
  simp [code, decMethod]

/-- C82: with goyaml, a type with `UnmarshalYAML` and without `UnmarshalYamly` is decoded by it if the decoder has nodes, and
otherwise as without this method.  (The parenthesis missing in the call, and the brace missing after `UnmarshalText`, are those
of the code: see C69.) -/
theorem decoder_goyaml (ht : t ≠ cur) (hy : ty.yamly .dec t = false) (he : ty.engine .dec t = true)
    (h : decBody ty .goyaml o cur (f + 1) t p om indent b n = .ok (some (x, n'))) :
    ∃ rest, x = code indent [
        "if extIn, ok := in.(yamly.ExtendedDecoder[*yaml.Node]); ok {",
        "  in.AddError((" ++ str p.text ++ ").UnmarshalYAML(extIn.Node())",
        " } else {"] ++ rest ∧
      (ty.text .dec t = true →
        rest = code (indent + 2) ["in.AddError((" ++ str p.text ++ ").UnmarshalText([]byte(in.String())))"] ∧ n' = n) ∧
      (ty.text .dec t = false →
        ∃ y, decPlain ty .goyaml o cur f t p om (indent + 2) b n = .ok (some (y, n')) ∧ rest = y ++ code indent ["}"]) := by
  unfold decBody at h
  simp only [ne_eq, ht, not_false_eq_true, if_true, hy, Bool.false_eq_true, if_false, unmarshalersCheck, he] at h
  obtain ⟨x1, m, rest, h1, h, e⟩ := seq_ok h
  obtain ⟨y1, h1, e1⟩ := all_line h1
  obtain ⟨y2, h1, e2⟩ := all_line h1
  obtain ⟨y3, h1, e3⟩ := all_line h1
  obtain ⟨e4, hm⟩ := all_nil h1
  rw [hm] at h
  refine ⟨rest, by rw [e, e1, e2, e3, e4]; simp [code, decMethod], fun hx => ?_, fun hx => ?_⟩
  · rw [hx] at h
    refine ⟨?_, (line_ok h).2⟩
    rw [(line_ok h).1]
    simp [code, decMethod]
  · simp only [hx, Bool.false_eq_true, if_false] at h
    obtain ⟨y, m', z, h2, h3, e5⟩ := seq_ok h
    exact ⟨y, by rw [(line_ok h3).2]; exact h2, by rw [e5, (line_ok h3).1]; simp [code]⟩

/-- C82: a type with `UnmarshalText` alone is decoded from a string by it, and its error is kept. -/
theorem decoder_text (ht : t ≠ cur) (hy : ty.yamly .dec t = false) (he : ty.engine .dec t = false) (hx : ty.text .dec t = true)
    (h : decBody ty eng o cur (f + 1) t p om indent b n = .ok (some (x, n'))) :
    x = code indent ["in.AddError((" ++ str p.text ++ ").UnmarshalText([]byte(in.String())))"] ∧ n' = n := by
  unfold decBody at h
  simp only [ne_eq, ht, not_false_eq_true, if_true, hy, Bool.false_eq_true, if_false, unmarshalersCheck, he, hx] at h
  obtain ⟨x1, m, x2, h1, h2, e⟩ := seq_ok h
  cases h1
  refine ⟨?_, (line_ok h2).2⟩
  rw [e, (line_ok h2).1]
  simp [code, decMethod]

/-- C82: the type for which the code is, and a type without methods, is decoded by its kind. -/
theorem decoder_plain (ht : t = cur ∨ (ty.yamly .dec t = false ∧ ty.engine .dec t = false ∧ ty.text .dec t = false))
    (h : decBody ty eng o cur (f + 1) t p om indent b n = .ok (some (x, n'))) :
    ∃ y, decPlain ty eng o cur f t p om indent b n = .ok (some (y, n')) ∧ x = y ++ ['\n'] := by
  unfold decBody at h
  by_cases hc : t = cur
  · simp only [ne_eq, hc, not_true_eq_false, if_false] at h
    rw [hc]
    obtain ⟨x1, m, x2, h1, h2, e⟩ := seq_ok h
    exact ⟨x1, by rw [(line_ok h2).2]; exact h1, by rw [e, (line_ok h2).1]; simp⟩
  · obtain ⟨hy, he, hx⟩ := ht.resolve_left hc
    simp only [ne_eq, hc, not_false_eq_true, if_true, hy, Bool.false_eq_true, if_false, unmarshalersCheck, he, hx] at h
    obtain ⟨x0, m0, x3, h0, h, e0⟩ := seq_ok h
    cases h0
    obtain ⟨x1, m, x2, h1, h2, e⟩ := seq_ok h
    exact ⟨x1, by rw [(line_ok h2).2]; exact h1, by rw [e0, e, (line_ok h2).1]; simp⟩

/-- C82: a type with `MarshalYamly` is encoded by this method alone, whatever other methods it has. -/
theorem encoder_yamly (ht : t ≠ cur) (hy : ty.yamly .enc t = true)
    (h : encBody ty eng o cur (f + 1) t p om indent b n = .ok (some (x, n'))) :
    x = code indent [str p.text ++ ".MarshalYamly(out)"] ∧ n' = n := by
  unfold encBody at h
  simp only [ne_eq, ht, not_false_eq_true, if_true, hy] at h
  refine ⟨?_, (line_ok h).2⟩
  rw [(line_ok h).1]
  simp [code, encMethod]

/-- C82: a type with `MarshalYAML` and without `MarshalYamly` is encoded by it: with yayamls directly, with goyaml by
`yaml.Marshal`. -/
theorem encoder_engine (ht : t ≠ cur) (hy : ty.yamly .enc t = false) (he : ty.engine .enc t = true)
    (h : encBody ty eng o cur (f + 1) t p om indent b n = .ok (some (x, n'))) :
    x = code indent [match (generalizing := false) eng with
      | .yayamls => "out.InsertRaw(" ++ str p.text ++ ".MarshalYAML())"
      | .goyaml => "out.InsertRaw(yaml.Marshal(" ++ str p.text ++ "))"] ∧ n' = n := by
  unfold encBody at h
  cases eng <;>
  · simp only [ne_eq, ht, not_false_eq_true, if_true, hy, Bool.false_eq_true, if_false, marshalersCheck, he] at h
    refine ⟨?_, (line_ok h).2⟩
    rw [(line_ok h).1]
    simp [code, encMethod]

/-- C82: a type with `MarshalText` alone is encoded by it. -/
theorem encoder_text (ht : t ≠ cur) (hy : ty.yamly .enc t = false) (he : ty.engine .enc t = false) (hx : ty.text .enc t = true)
    (h : encBody ty eng o cur (f + 1) t p om indent b n = .ok (some (x, n'))) :
    x = code indent ["out.InsertRawText(" ++ str p.text ++ ".MarshalText())"] ∧ n' = n := by
  unfold encBody at h
  simp only [ne_eq, ht, not_false_eq_true, if_true, hy, Bool.false_eq_true, if_false, marshalersCheck, he, hx] at h
  obtain ⟨x1, m, x2, h1, h2, e⟩ := seq_ok h
  cases h1
  refine ⟨?_, (line_ok h2).2⟩
  rw [e, (line_ok h2).1]
  simp [code, encMethod]

/-- C82: the type for which the code is, and a type without methods, is encoded by its kind. -/
theorem encoder_plain (ht : t = cur ∨ (ty.yamly .enc t = false ∧ ty.engine .enc t = false ∧ ty.text .enc t = false))
    (h : encBody ty eng o cur (f + 1) t p om indent b n = .ok (some (x, n'))) :
    ∃ y, encPlain ty eng o cur f t p om indent b n = .ok (some (y, n')) ∧ x = y ++ ['\n'] := by
  unfold encBody at h
  by_cases hc : t = cur
  · simp only [ne_eq, hc, not_true_eq_false, if_false] at h
    rw [hc]
    obtain ⟨x1, m, x2, h1, h2, e⟩ := seq_ok h
    exact ⟨x1, by rw [(line_ok h2).2]; exact h1, by rw [e, (line_ok h2).1]; simp⟩
  · obtain ⟨hy, he, hx⟩ := ht.resolve_left hc
    simp only [ne_eq, hc, not_false_eq_true, if_true, hy, Bool.false_eq_true, if_false, marshalersCheck, he, hx] at h
    obtain ⟨x0, m0, x3, h0, h, e0⟩ := seq_ok h
    cases h0
    obtain ⟨x1, m, x2, h1, h2, e⟩ := seq_ok h
    exact ⟨x1, by rw [(line_ok h2).2]; exact h1, by rw [e0, e, (line_ok h2).1]; simp⟩

end

/-- Conditions on values in Go. -/
inductive Cond where
  | lenPos | notNil | itself | notEmptyString | notZero | always

/-- A condition on the value of the expression `x`, in Go. -/
def Cond.go (x : Text) : Cond → Text
  | .lenPos => "len(".toList ++ (x ++ ") > 0".toList)
  | .notNil => x ++ " != nil".toList
  | .itself => x
  | .notEmptyString => x ++ " != \"\"".toList
  | .notZero => x ++ " != 0".toList
  | .always => "true".toList

/-- Which values meet a condition. -/
def Cond.Holds (L : GenCode.Lib) : Cond → GenCode.Val → Prop
  | .lenPos, .slice vs => 0 < vs.length
  | .lenPos, .bytes s => 0 < s.length
  | .lenPos, .map es => 0 < es.length
  | .lenPos, _ => False
  | .notNil, v => v ≠ .nil
  | .itself, v => v = .bool true
  | .notEmptyString, v => v ≠ .str []
  | .notZero, .int v => v ≠ 0
  | .notZero, .uint v => v ≠ 0
  | .notZero, .float t => L.isZero t = false
  | .notZero, _ => False
  | .always, _ => True

/-- The types of `Model/GenCode` without methods, by the kinds of `Model/GenText`. -/
inductive Kinds {τ : Type} : Kind τ → GenCode.Ty → Prop where
  | basic (b : Basic) : Kinds (.basic b) (GenBasics.tyOf b)
  | bytes (e : τ) : Kinds (.slice e) .bytes
  | slice (e : τ) (u : GenCode.Ty) : Kinds (.slice e) (.slice u)
  | array (n m : Nat) (e : τ) (u : GenCode.Ty) : Kinds (.array n e) (.array m u)
  | pointer (e : τ) (u : GenCode.Ty) : Kinds (.pointer e) (.ptr u)
  | map (k e : τ) (u v : GenCode.Ty) : Kinds (.map k e) (.map u v)
  | struct (fs : List (Field τ)) (es : List (Text × τ)) (id : Nat) : Kinds (.struct fs es) (.struct id)

/-- C82: the condition behind which a field with omitempty is written is, for all values of the type, that of `Model/GenCode`. -/
theorem omitted_when {τ : Type} (ty : Types τ) {t : τ} {u : GenCode.Ty} (hk : Kinds (ty.kind t) u) :
    ∃ c : Cond, (∀ x, notEmptyCheck ty t x = c.go x) ∧
      ∀ (L : GenCode.Lib) (P : GenCode.Package) (v : GenCode.Val),
        (GenCode.enc (ν := Unit) L P u true v).isSome = true → (GenCode.notEmpty L u v = true ↔ c.Holds L v) := by
  unfold notEmptyCheck
  generalize ty.kind t = k at hk
  cases hk with
  | basic b =>
    cases b
    · exact ⟨.notEmptyString, fun x => rfl, fun L P v hv => by
        cases v <;> simp_all [GenBasics.tyOf, GenCode.enc, GenCode.notEmpty, Cond.Holds]⟩
    · exact ⟨.itself, fun x => rfl, fun L P v hv => by
        cases v <;> simp_all [GenBasics.tyOf, GenCode.enc, GenCode.notEmpty, Cond.Holds]⟩
    all_goals
      exact ⟨.notZero, fun x => rfl, fun L P v hv => by
        cases v <;> simp_all [GenBasics.tyOf, GenCode.enc, GenCode.notEmpty, Cond.Holds]⟩
  | bytes e =>
    exact ⟨.lenPos, fun x => rfl, fun L P v hv => by
      cases v <;> simp_all [GenCode.enc, GenCode.notEmpty, Cond.Holds, List.length_pos_iff]⟩
  | slice e u =>
    exact ⟨.lenPos, fun x => rfl, fun L P v hv => by
      cases v <;> simp_all [GenCode.enc, GenCode.notEmpty, Cond.Holds, List.length_pos_iff]⟩
  | array n m e u =>
    exact ⟨.always, fun x => rfl, fun L P v hv => by
      cases v <;> simp_all [GenCode.enc, GenCode.notEmpty, Cond.Holds]⟩
  | pointer e u =>
    exact ⟨.notNil, fun x => rfl, fun L P v hv => by
      cases v <;> simp_all [GenCode.enc, GenCode.notEmpty, Cond.Holds]⟩
  | map k e u v =>
    exact ⟨.lenPos, fun x => rfl, fun L P v hv => by
      cases v <;> simp_all [GenCode.enc, GenCode.notEmpty, Cond.Holds, List.length_pos_iff]⟩
  | struct fs es id =>
    exact ⟨.always, fun x => rfl, fun L P v hv => by
      cases v <;> simp_all [GenCode.enc, GenCode.notEmpty, Cond.Holds]⟩

/-- A slice is written if it has items: `len(in.A) > 0`. -/
example : notEmptyCheck (ex exFields) .a "in.A".toList = "len(in.A) > 0".toList ∧
    Kinds ((ex exFields).kind .a) (.slice (.array 2 (.map .string (.ptr (.int 0))))) := ⟨rfl, .slice _ _⟩

/-- The types of the examples of C69: one with methods, and the decoder of the slice has a text. -/
example : (written? (decBody (ex exFields) .yayamls exOpts .t 10 .a (.field "out".toList ['A']) false 6 true)).isSome = true ∧
    Ex.a ≠ Ex.t := by
  refine ⟨?_, ?_⟩ <;> decide +kernel

end Verif.Props.GenMethods
