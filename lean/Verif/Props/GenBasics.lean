import Verif.Props.GenLoops
import Verif.Model.GenCode

/-!
C80: the lines of generated code for values without items, and their meaning in `Model/GenCode`;
generator/decoder.go:13-32, 190-203, 255-269 and generator/encoder.go:12-31, 208-216, 218-232.
-/

set_option linter.unusedSimpArgs false
set_option linter.unusedVariables false

namespace Verif.Props.GenBasics

open Verif.GenText Verif.Props.GenText Verif.Props.GenLoops

/-- Go code for a call of the interface `yamly.Decoder`, decode.go:35-90. -/
def goCall : Decoder.Call → Option String
  | .tryNull => some "in.TryNull()"
  | .integer n => some ("in.Integer(" ++ toString n ++ ")")
  | .unsigned n => some ("in.Unsigned(" ++ toString n ++ ")")
  | .boolean => some "in.Boolean()"
  | .float n => some ("in.Float(" ++ toString n ++ ")")
  | .string => some "in.String()"
  | .timestamp => some "in.Timestamp()"
  | .sequence => some "in.Sequence()"
  | .mapping => some "in.Mapping()"
  | .any => some "in.Any()"
  | .raw => some "in.Raw()"
  | .skip => some "in.Skip()"
  | _ => none

/-- Go code for a call of the interface `yamly.Inserter` up to the argument, with the conversion to the type of the parameter:
encode.go:24-42. -/
def goInsert : Inserter.Scalar → String
  | .integer _ => "out.InsertInteger(int64("
  | .unsigned _ => "out.InsertUnsigned(uint64("
  | .boolean _ => "out.InsertBoolean(bool("
  | .float _ => "out.InsertFloat(float64("
  | .string _ => "out.InsertString(string("
  | .timestamp _ => "out.InsertTimestamp(time.Time("
  | .null => "out.InsertNull(("

/-- The type of `Model/GenCode` for a basic kind. -/
def tyOf : Basic → GenCode.Ty
  | .string => .string
  | .bool => .bool
  | .int n => .int n
  | .uint n => .uint n
  | .float n => .float n

theorem number_go (n : Nat) : (toString n : String).toList = number n := String.toList_ofList

/-- The calls of decoders for basic values. -/
theorem decCall_go (b : Basic) : ∃ c call, goCall c = some call ∧ decCall b = call.toList ∧
    ∃ conv : ∀ {N : Type}, GenCode.Lib → Decoder.Out N → GenCode.Val,
      ∀ (σ N : Type) (E : GenCode.Engine σ N) (L : GenCode.Lib) (P : GenCode.Package) f om old s k,
        GenCode.dec E L P (f + 1) (tyOf b) om old s k =
          (E.step f s c).bind fun r => .ok (conv L r.1, r.2, k) := by
  cases b with
  | string =>
    exact ⟨.string, _, rfl, rfl, fun _ o => .str (GenCode.toStr o), fun _ _ _ _ _ _ _ _ _ _ => by rw [tyOf, GenCode.dec]; rfl⟩
  | bool =>
    exact ⟨.boolean, _, rfl, rfl, fun _ o => .bool (GenCode.toBool o), fun _ _ _ _ _ _ _ _ _ _ => by rw [tyOf, GenCode.dec]; rfl⟩
  | int m =>
    exact ⟨.integer m, _, rfl, by
      rw [String.toList_append, String.toList_append, number_go, List.append_assoc]; unfold decCall; with_reducible rfl, fun _ o => .int (GenCode.toInt o),
      fun _ _ _ _ _ _ _ _ _ _ => by rw [tyOf, GenCode.dec]; rfl⟩
  | uint m =>
    exact ⟨.unsigned m, _, rfl, by
      rw [String.toList_append, String.toList_append, number_go, List.append_assoc]; unfold decCall; with_reducible rfl, fun _ o => .uint (GenCode.toUint o),
      fun _ _ _ _ _ _ _ _ _ _ => by rw [tyOf, GenCode.dec]; rfl⟩
  | float m =>
    exact ⟨.float m, _, rfl, by
      rw [String.toList_append, String.toList_append, number_go, List.append_assoc]; unfold decCall; with_reducible rfl,
      fun L o => .float (L.toFloat (GenCode.toFloat o)), fun _ _ _ _ _ _ _ _ _ _ => by rw [tyOf, GenCode.dec]; rfl⟩

/-- The calls of encoders for basic values. -/
theorem encCall_go (b : Basic) (x : Text) {ν : Type} (L : GenCode.Lib) (P : GenCode.Package) {c : Bool} {v : GenCode.Val}
    {calls : List (Inserter.Call ν)} (hv : GenCode.enc L P (tyOf b) c v = some calls) :
    ∃ s, calls = [.scalar s] ∧
      encCall b x = (goInsert s ++ str x ++ "))").toList := by
  have hx : (str x).toList = x := String.toList_ofList
  cases b <;> cases v <;> simp only [tyOf, GenCode.enc, Option.some.injEq, reduceCtorEq] at hv <;> subst hv <;>
    exact ⟨_, rfl, by
      rw [String.toList_append, String.toList_append, hx, List.append_assoc]
      unfold encCall goInsert
      with_reducible rfl⟩

section

variable {τ : Type} [DecidableEq τ] (ty : Types τ) (eng : Engine) (o : Opts) (cur : τ)

/-- C80: the decoder of a basic value is one call, converted to the type; the generated code of `Model/GenCode` makes the same
call. -/
theorem decoder_basic {f : Nat} {t : τ} {b : Basic} {p : Place} {om : Bool} {indent : Nat} {elem : Bool} {n n' : Nat} {x : Text}
    (ht : ty.time t = false) (hk : ty.kind t = .basic b)
    (h : decPlain ty eng o cur (f + 1) t p om indent elem n = .ok (some (x, n'))) :
    ∃ c call, goCall c = some call ∧
      x = code indent [str p.text ++ " = " ++ str (ty.name t) ++ "(" ++ call ++ ")"] ∧
      ∃ conv : ∀ {N : Type}, GenCode.Lib → Decoder.Out N → GenCode.Val,
        ∀ (σ N : Type) (E : GenCode.Engine σ N) (L : GenCode.Lib) (P : GenCode.Package) f om old s k,
          GenCode.dec E L P (f + 1) (tyOf b) om old s k =
            (E.step f s c).bind fun r => .ok (conv L r.1, r.2, k) := by
  simp only [decPlain, ht, hk, Bool.false_eq_true, if_false] at h
  have h' := (line_ok h).1
  clear h
  obtain ⟨c, call, h1, h2, h3⟩ := decCall_go b
  refine ⟨c, call, h1, ?_, h3⟩
  rw [h', h2]
  simp [code]

/-- C80: the encoder of a basic value is one call, with the value converted to the type of the parameter; the generated code of
`Model/GenCode` makes the same call. -/
theorem encoder_basic {f : Nat} {t : τ} {b : Basic} {p : Place} {om : Bool} {indent : Nat} {canBeNull : Bool} {n n' : Nat}
    {x : Text} (hk : ty.kind t = .basic b)
    (h : encPlain ty eng o cur (f + 1) t p om indent canBeNull n = .ok (some (x, n')))
    {ν : Type} (L : GenCode.Lib) (P : GenCode.Package) {v : GenCode.Val} {calls : List (Inserter.Call ν)}
    (hv : GenCode.enc L P (tyOf b) canBeNull v = some calls) :
    ∃ s, calls = [.scalar s] ∧
      x = code indent [goInsert s ++ str p.text ++ "))"] := by
  simp only [encPlain, hk] at h
  have h' := (line_ok h).1
  clear h
  obtain ⟨s, h1, h2⟩ := encCall_go b p.text L P hv
  refine ⟨s, h1, ?_⟩
  rw [h', h2]
  simp [code]

/-- C80: times are read and written as timestamps. -/
theorem time_calls {f : Nat} {t : τ} {p : Place} {om : Bool} {indent : Nat} {b : Bool} {n n' : Nat} {x : Text}
    (ht : ty.time t = true) :
    (decPlain ty eng o cur (f + 1) t p om indent b n = .ok (some (x, n')) →
      x = code indent [str p.text ++ " = in.Timestamp()"]) ∧
    ((∀ k, ty.kind t ≠ .basic k) → encPlain ty eng o cur (f + 1) t p om indent b n = .ok (some (x, n')) →
      x = code indent ["out.InsertTimestamp(time.Time(" ++ str p.text ++ "))"]) := by
  refine ⟨fun h => ?_, fun hk h => ?_⟩
  · simp only [decPlain, ht, if_true] at h
    rw [(line_ok h).1]
    simp [code]
  · simp only [encPlain, ht, if_true] at h
    rw [(line_ok h).1]
    simp [code]

/-- C80: byte slices are read and written as strings, and as null if nil. -/
theorem bytes_calls {f : Nat} {t e : τ} {p : Place} {om : Bool} {indent : Nat} {b : Bool} {n n' : Nat} {x : Text}
    (ht : ty.time t = false) (hk : ty.kind t = .slice e) (hb : ty.byte e = true) :
    let P := str p.text
    (decPlain ty eng o cur (f + 1) t p om indent b n = .ok (some (x, n')) →
      x = code indent ["if in.TryNull() {", "  " ++ P ++ " = nil", "} else {", "  " ++ P ++ " = []byte(in.String())", "}"]) ∧
    (encPlain ty eng o cur (f + 1) t p om indent b n = .ok (some (x, n')) →
      x = code indent (if b then ["if " ++ P ++ " == nil {", "  out.InsertNull()", "} else {"] else ["{"]) ++
        code indent ["  out.InsertString(string(" ++ P ++ "))", "}"]) := by
  refine ⟨fun h => ?_, fun h => ?_⟩
  · simp only [decPlain, ht, hk, hb, Bool.false_eq_true, if_false, if_true] at h
    obtain ⟨_, h, he⟩ := all_line h
    obtain ⟨_, h, he⟩ := all_line h
    obtain ⟨_, h, he⟩ := all_line h
    obtain ⟨_, h, he⟩ := all_line h
    obtain ⟨_, h, he⟩ := all_line h
    obtain ⟨he, he⟩ := all_nil h
    subst_vars
    simp [code]
  · simp only [encPlain, ht, hk, hb, Bool.false_eq_true, if_false, if_true] at h
    obtain ⟨op, m0, _, hop, h, he⟩ := all_cons h
    have hm : op = code indent (if b then ["if " ++ str p.text ++ " == nil {", "  out.InsertNull()", "} else {"] else ["{"]) := by
      cases b
      · obtain ⟨he, he⟩ := line_ok hop
        subst_vars
        simp [code]
      · simp only [if_true] at hop
        obtain ⟨_, hop, he⟩ := all_line hop
        obtain ⟨_, hop, he⟩ := all_line hop
        obtain ⟨_, hop, he⟩ := all_line hop
        obtain ⟨he, he⟩ := all_nil hop
        subst_vars
        simp [code]
    obtain ⟨_, h, he⟩ := all_line h
    obtain ⟨_, h, he⟩ := all_line h
    obtain ⟨he, he⟩ := all_nil h
    subst_vars
    simp [code]

/-- C80: the decoder of a pointer sets it to nil for null, and otherwise decodes into what it points to, which inside of other
values is made first if missing. -/
theorem decoder_pointer {f : Nat} {t e : τ} {p : Place} {om : Bool} {indent : Nat} {elem : Bool} {n n' : Nat} {x : Text}
    (ht : ty.time t = false) (hk : ty.kind t = .pointer e)
    (h : decPlain ty eng o cur (f + 1) t p om indent elem n = .ok (some (x, n'))) :
    let P := str p.text
    ∃ item, decBody ty eng o cur f e (.deref p) om (indent + 2) elem n = .ok (some (item, n')) ∧
      x = code indent ["if in.TryNull() {", "  " ++ P ++ " = nil", "} else {"] ++
      code indent (if elem then
        ["  if " ++ P ++ " == nil {", "    " ++ P ++ " = new(" ++ str (ty.name e) ++ ")", "  }"] else []) ++
      item ++ code indent ["}"] := by
  simp only [decPlain, ht, hk, Bool.false_eq_true, if_false] at h
  obtain ⟨_, h, he⟩ := all_line h
  obtain ⟨_, h, he⟩ := all_line h
  obtain ⟨_, h, he⟩ := all_line h
  obtain ⟨new, m0, _, hnew, h, he⟩ := all_cons h
  have hm : m0 = n ∧ new = code indent (if elem then
      ["  if " ++ str p.text ++ " == nil {", "    " ++ str p.text ++ " = new(" ++ str (ty.name e) ++ ")", "  }"] else []) := by
    cases elem
    · cases hnew
      exact ⟨rfl, rfl⟩
    · simp only [if_true] at hnew
      obtain ⟨_, hnew, he⟩ := all_line hnew
      obtain ⟨_, hnew, he⟩ := all_line hnew
      obtain ⟨_, hnew, he⟩ := all_line hnew
      obtain ⟨he, he⟩ := all_nil hnew
      exact ⟨by subst_vars; rfl, by subst_vars; simp [code]⟩
  obtain ⟨hm, hn⟩ := hm
  rw [hm] at h
  obtain ⟨item, m, _, hi, h, he⟩ := all_cons h
  obtain ⟨_, h, he⟩ := all_line h
  obtain ⟨he, he⟩ := all_nil h
  exact ⟨item, by subst_vars; exact hi, by subst_vars; simp [code]⟩

end

/-- `out.I = int8(in.Integer(8))` -/
example : ∃ c, goCall c = some "in.Integer(8)" ∧ decCall (.int 8) = "in.Integer(8)".toList := ⟨.integer 8, by decide, by decide +kernel⟩

end Verif.Props.GenBasics
