import Verif.Props.GenText

/-!
C79: the loops of generated code, generator/decoder.go:195-320 and generator/encoder.go:217-330.
-/

set_option linter.unusedSimpArgs false
set_option linter.unusedVariables false

namespace Verif.Props.GenLoops

open Verif.GenText Verif.Props.GenText

/-- Lines of code. -/
def code (indent : Nat) : List String → Text
  | [] => []
  | l :: ls => spaces indent ++ (l.toList ++ '\n' :: code indent ls)

/-- A text as a string. -/
abbrev str (t : Text) : String := String.ofList t

theorem line_ok {s x : Text} {n m : Nat} (h : line s n = .ok (some (x, m))) : x = s ++ ['\n'] ∧ m = n := by
  cases h
  exact ⟨rfl, rfl⟩

theorem all_cons {w : W} {ws : List W} {n n' : Nat} {x : Text} (h : all (w :: ws) n = .ok (some (x, n'))) :
    ∃ x1 m x2, w n = .ok (some (x1, m)) ∧ all ws m = .ok (some (x2, n')) ∧ x = x1 ++ x2 := seq_ok h

theorem all_line {s : Text} {ws : List W} {n n' : Nat} {x : Text} (h : all (line s :: ws) n = .ok (some (x, n'))) :
    ∃ y, all ws n = .ok (some (y, n')) ∧ x = s ++ '\n' :: y := by
  obtain ⟨x1, m, x2, h1, h2, rfl⟩ := all_cons h
  obtain ⟨rfl, rfl⟩ := line_ok h1
  exact ⟨x2, h2, by simp⟩

theorem all_nil {n n' : Nat} {x : Text} (h : all [] n = .ok (some (x, n'))) : x = [] ∧ n' = n := by
  cases h
  exact ⟨rfl, rfl⟩

section

variable {τ : Type} [DecidableEq τ] (ty : Types τ) (eng : Engine) (o : Opts) (cur : τ)

/-- C79: the decoder of a slice makes a new slice, decodes each item into a variable of its own and appends it. -/
theorem decoder_slice {f : Nat} {t e : τ} {p : Place} {om : Bool} {indent : Nat} {elem : Bool} {n n' : Nat} {x : Text}
    (ht : ty.time t = false) (hk : ty.kind t = .slice e) (hb : ty.byte e = false)
    (h : decPlain ty eng o cur (f + 1) t p om indent elem n = .ok (some (x, n'))) :
    let P := str p.text
    let state := str (varName "SeqState".toList (n + 1))
    let v := varName [] (n + 2)
    ∃ item, decBody ty eng o cur f e (.var v) om (indent + 4) true (n + 2) = .ok (some (item, n')) ∧
      x = code indent [
        "if in.TryNull() {",
        "  " ++ P ++ " = nil",
        "} else {",
        "  " ++ state ++ " := in.Sequence()",
        "  " ++ P ++ " = make(" ++ str (ty.name t) ++ ", 0, " ++ state ++ ".Size())",
        "  for " ++ state ++ ".HasUnprocessedItems() {",
        "    var " ++ str v ++ " " ++ str (ty.name e)] ++ item ++ code indent [
        "    " ++ P ++ " = append(" ++ P ++ ", " ++ str v ++ ")",
        "  }",
        "}"] := by
  simp only [decPlain, ht, hk, hb, Bool.false_eq_true, if_false, fresh_name] at h
  obtain ⟨_, h, he⟩ := all_line h
  obtain ⟨_, h, he⟩ := all_line h
  obtain ⟨_, h, he⟩ := all_line h
  obtain ⟨_, h, he⟩ := all_line h
  obtain ⟨_, h, he⟩ := all_line h
  obtain ⟨_, h, he⟩ := all_line h
  obtain ⟨_, h, he⟩ := all_line h
  obtain ⟨item, m, _, hi, h, he⟩ := all_cons h
  obtain ⟨_, h, he⟩ := all_line h
  obtain ⟨_, h, he⟩ := all_line h
  obtain ⟨_, h, he⟩ := all_line h
  obtain ⟨he, he⟩ := all_nil h
  exact ⟨item, by subst_vars; exact hi, by subst_vars; simp [code]⟩

/-- C79: the decoder of an array decodes each item into the next element, as long as there are elements and items. -/
theorem decoder_array {f len : Nat} {t e : τ} {p : Place} {om : Bool} {indent : Nat} {elem : Bool} {n n' : Nat} {x : Text}
    (ht : ty.time t = false) (hk : ty.kind t = .array len e) (hb : ty.byte e = false)
    (h : decPlain ty eng o cur (f + 1) t p om indent elem n = .ok (some (x, n'))) :
    let state := str (varName "SeqState".toList (n + 1))
    let i := varName [] (n + 2)
    ∃ item, decBody ty eng o cur f e (.index p i) om (indent + 4) true (n + 2) = .ok (some (item, n')) ∧
      x = code indent [
        "if !in.TryNull() {",
        "  " ++ str i ++ " := 0",
        "  " ++ state ++ " := in.Sequence()",
        "  for " ++ state ++ ".HasUnprocessedItems() && " ++ str i ++ " < " ++ str (number len) ++ "{"] ++ item ++
      code indent [
        "    " ++ str i ++ "++",
        "  }",
        "}"] := by
  simp only [decPlain, ht, hk, hb, Bool.false_eq_true, if_false, fresh_name] at h
  obtain ⟨_, h, he⟩ := all_line h
  obtain ⟨_, h, he⟩ := all_line h
  obtain ⟨_, h, he⟩ := all_line h
  obtain ⟨_, h, he⟩ := all_line h
  obtain ⟨item, m, _, hi, h, he⟩ := all_cons h
  obtain ⟨_, h, he⟩ := all_line h
  obtain ⟨_, h, he⟩ := all_line h
  obtain ⟨_, h, he⟩ := all_line h
  obtain ⟨he, he⟩ := all_nil h
  exact ⟨item, by subst_vars; exact hi, by subst_vars; simp [code]⟩

/-- C79: the decoder of a map decodes each key and then its value into variables of their own and stores the value under the key. -/
theorem decoder_map {f : Nat} {t k e : τ} {p : Place} {om : Bool} {indent : Nat} {elem : Bool} {n n' : Nat} {x : Text}
    (ht : ty.time t = false) (hk : ty.kind t = .map k e)
    (h : decPlain ty eng o cur (f + 1) t p om indent elem n = .ok (some (x, n'))) :
    let P := str p.text
    let state := str (varName "MapState".toList (n + 1))
    let kv := varName "Key".toList (n + 2)
    let vv := varName "Value".toList (n + 3)
    ∃ begin key m value, decBody ty eng o cur f k (.var kv) om (indent + 4) true (n + 3) = .ok (some (key, m)) ∧
      decBody ty eng o cur f e (.var vv) om (indent + 4) true m = .ok (some (value, n')) ∧
      x = begin ++ code indent [
        "  for " ++ state ++ ".HasUnprocessedItems() {",
        "    var (",
        "      " ++ str kv ++ " " ++ str (ty.name k),
        "      " ++ str vv ++ " " ++ str (ty.name e),
        "    )"] ++ key ++ value ++ code indent [
        "    (" ++ P ++ ")[" ++ str kv ++ "] = " ++ str vv,
        "  }",
        "}"] := by
  simp only [decPlain, ht, hk, Bool.false_eq_true, if_false, fresh_name] at h
  obtain ⟨_, h, he⟩ := all_line h
  obtain ⟨_, h, he⟩ := all_line h
  obtain ⟨_, h, he⟩ := all_line h
  obtain ⟨_, h, he⟩ := all_line h
  obtain ⟨new, m0, _, hnew, h, he⟩ := all_cons h
  have hm : m0 = n + 3 := by
    split at hnew
    · obtain ⟨_, hnew, he⟩ := all_line hnew
      obtain ⟨_, hnew, he⟩ := all_line hnew
      obtain ⟨_, hnew, he⟩ := all_line hnew
      obtain ⟨_, hnew, he⟩ := all_line hnew
      obtain ⟨_, hnew, he⟩ := all_line hnew
      exact (all_nil hnew).2
    · exact (line_ok hnew).2
  subst hm
  obtain ⟨_, h, he⟩ := all_line h
  obtain ⟨_, h, he⟩ := all_line h
  obtain ⟨_, h, he⟩ := all_line h
  obtain ⟨_, h, he⟩ := all_line h
  obtain ⟨_, h, he⟩ := all_line h
  obtain ⟨_, h, he⟩ := all_line h
  obtain ⟨key, m, _, hkey, h, he⟩ := all_cons h
  obtain ⟨value, m', _, hval, h, he⟩ := all_cons h
  obtain ⟨_, h, he⟩ := all_line h
  obtain ⟨_, h, he⟩ := all_line h
  obtain ⟨_, h, he⟩ := all_line h
  obtain ⟨he, he⟩ := all_nil h
  refine ⟨code indent ["if in.TryNull() {", "  " ++ str p.text ++ " = nil", "} else {",
    "  " ++ str (varName "MapState".toList (n + 1)) ++ " := in.Mapping()"] ++ (new ++ ['\n']), key, m, value, hkey, by subst_vars; exact hval, ?_⟩
  subst_vars
  simp [code]

/-- C79: the encoder of a slice inserts each item between the start and the end of a sequence. -/
theorem encoder_slice {f : Nat} {t e : τ} {p : Place} {om : Bool} {indent : Nat} {canBeNull : Bool} {n n' : Nat} {x : Text}
    (ht : ty.time t = false) (hk : ty.kind t = .slice e) (hb : ty.byte e = false)
    (h : encPlain ty eng o cur (f + 1) t p om indent canBeNull n = .ok (some (x, n'))) :
    let P := str p.text
    let v := varName [] (n + 1)
    ∃ item, encBody ty eng o cur f e (.var v) om (indent + 2) true (n + 1) = .ok (some (item, n')) ∧
      x = code indent (if canBeNull then ["if " ++ P ++ " == nil {", "  out.InsertNull()", "} else {"] else ["{"]) ++
      code indent [
        "  out.StartSequence()",
        "  for _, " ++ str v ++ " := range " ++ P ++ " {"] ++ item ++ code indent [
        "  }",
        "  out.EndSequence()",
        "}"] := by
  simp only [encPlain, ht, hk, hb, Bool.false_eq_true, if_false, fresh_name] at h
  obtain ⟨op, m0, _, hop, h, he⟩ := all_cons h
  have hm : m0 = n ∧
      op = code indent (if canBeNull then ["if " ++ str p.text ++ " == nil {", "  out.InsertNull()", "} else {"] else ["{"]) := by
    cases canBeNull
    · obtain ⟨he, he⟩ := line_ok hop
      exact ⟨by subst_vars; rfl, by subst_vars; simp [code]⟩
    · simp only [if_true] at hop
      obtain ⟨_, hop, he⟩ := all_line hop
      obtain ⟨_, hop, he⟩ := all_line hop
      obtain ⟨_, hop, he⟩ := all_line hop
      obtain ⟨he, he⟩ := all_nil hop
      exact ⟨by subst_vars; rfl, by subst_vars; simp [code]⟩
  obtain ⟨hm, hop'⟩ := hm
  rw [hm] at h
  obtain ⟨inner, m1, _, h1, h, he⟩ := all_cons h
  rw [fresh_name] at h1
  obtain ⟨_, h, he⟩ := all_line h
  obtain ⟨he, he⟩ := all_nil h
  obtain ⟨_, h1, he⟩ := all_line h1
  obtain ⟨_, h1, he⟩ := all_line h1
  obtain ⟨item, m, _, hi, h1, he⟩ := all_cons h1
  obtain ⟨_, h1, he⟩ := all_line h1
  obtain ⟨_, h1, he⟩ := all_line h1
  obtain ⟨he, he⟩ := all_nil h1
  exact ⟨item, by subst_vars; exact hi, by subst_vars; simp [code]⟩

/-- C79: the encoder of an array inserts each element between the start and the end of a sequence. -/
theorem encoder_array {f len : Nat} {t e : τ} {p : Place} {om : Bool} {indent : Nat} {canBeNull : Bool} {n n' : Nat} {x : Text}
    (ht : ty.time t = false) (hk : ty.kind t = .array len e) (hb : ty.byte e = false)
    (h : encPlain ty eng o cur (f + 1) t p om indent canBeNull n = .ok (some (x, n'))) :
    let i := varName [] (n + 1)
    ∃ item, encBody ty eng o cur f e (.index p i) om (indent + 2) true (n + 1) = .ok (some (item, n')) ∧
      x = code indent [
        "out.StartSequence()",
        "for " ++ str i ++ " := range " ++ str p.text ++ " {"] ++ item ++ code indent [
        "}",
        "out.EndSequence()"] := by
  simp only [encPlain, ht, hk, hb, Bool.false_eq_true, if_false, fresh_name] at h
  obtain ⟨_, h, he⟩ := all_line h
  obtain ⟨_, h, he⟩ := all_line h
  obtain ⟨item, m, _, hi, h, he⟩ := all_cons h
  obtain ⟨_, h, he⟩ := all_line h
  obtain ⟨_, h, he⟩ := all_line h
  obtain ⟨he, he⟩ := all_nil h
  exact ⟨item, by subst_vars; exact hi, by subst_vars; simp [code]⟩

/-- C79: the encoder of a map inserts each key and then its value between the start and the end of a mapping. -/
theorem encoder_map {f : Nat} {t k e : τ} {p : Place} {om : Bool} {indent : Nat} {canBeNull : Bool} {n n' : Nat} {x : Text}
    (ht : ty.time t = false) (hk : ty.kind t = .map k e)
    (h : encPlain ty eng o cur (f + 1) t p om indent canBeNull n = .ok (some (x, n'))) :
    let P := str p.text
    let kv := varName "Key".toList (n + 1)
    let vv := varName "Value".toList (n + 2)
    ∃ key m value, encBody ty eng o cur f k (.var kv) om (indent + 4) true (n + 2) = .ok (some (key, m)) ∧
      encBody ty eng o cur f e (.var vv) om (indent + 4) true m = .ok (some (value, n')) ∧
      x = code indent (if canBeNull then ["if " ++ P ++ " == nil {", "  out.InsertNull()", "} else {"] else ["{"]) ++
      code indent [
        "  out.StartMapping()",
        "  for " ++ str kv ++ ", " ++ str vv ++ " := range " ++ P ++ " {"] ++ key ++ value ++ code indent [
        "  }",
        "  out.EndMapping()",
        "}"] := by
  simp only [encPlain, ht, hk, Bool.false_eq_true, if_false, fresh_name] at h
  obtain ⟨op, m0, _, hop, h, he⟩ := all_cons h
  have hm : m0 = n + 2 ∧
      op = code indent (if canBeNull then ["if " ++ str p.text ++ " == nil {", "  out.InsertNull()", "} else {"] else ["{"]) := by
    cases canBeNull
    · obtain ⟨he, he⟩ := line_ok hop
      exact ⟨by subst_vars; rfl, by subst_vars; simp [code]⟩
    · simp only [if_true] at hop
      obtain ⟨_, hop, he⟩ := all_line hop
      obtain ⟨_, hop, he⟩ := all_line hop
      obtain ⟨_, hop, he⟩ := all_line hop
      obtain ⟨he, he⟩ := all_nil hop
      exact ⟨by subst_vars; rfl, by subst_vars; simp [code]⟩
  obtain ⟨hm, hop'⟩ := hm
  rw [hm] at h
  obtain ⟨_, h, he⟩ := all_line h
  obtain ⟨_, h, he⟩ := all_line h
  obtain ⟨key, m, _, hkey, h, he⟩ := all_cons h
  obtain ⟨value, m', _, hval, h, he⟩ := all_cons h
  obtain ⟨_, h, he⟩ := all_line h
  obtain ⟨_, h, he⟩ := all_line h
  obtain ⟨_, h, he⟩ := all_line h
  obtain ⟨he, he⟩ := all_nil h
  exact ⟨key, m, value, hkey, by subst_vars; exact hval, by subst_vars; simp [code]⟩

end

/-- The types of the examples of C69: `[][2]map[string]*int`. -/
example : (ex exFields).kind .a = .slice .arr ∧ (ex exFields).kind .arr = .array 2 .map ∧
    (ex exFields).kind .map = .map .str .ptr ∧ (ex exFields).time .a = false ∧ (ex exFields).byte .arr = false ∧
    (written? (decPlain (ex exFields) .yayamls exOpts .t 9 .a (.field "out".toList ['A']) false 6 true)).isSome = true ∧
    (written? (encPlain (ex exFields) .yayamls exOpts .t 9 .a (.field "in".toList ['A']) false 6 true)).isSome = true := by
  refine ⟨rfl, rfl, rfl, rfl, rfl, ?_, ?_⟩ <;> decide +kernel

end Verif.Props.GenLoops
