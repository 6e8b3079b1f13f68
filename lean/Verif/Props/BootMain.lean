import Verif.Model.BootMain
import Verif.Model.Bootstrap
import Verif.Spec.GoProgram

/-! C66: the temporary program and the stub of the generation pipeline (`generator/bootstrap/generator.go`). -/

set_option linter.unusedSimpArgs false

namespace Verif.Props.BootMain

open Verif.Bootstrap Verif.GoProgram

theorem lines_cons : ∀ (l acc r : List Char), '\n' ∉ l → linesFrom acc (l ++ '\n' :: r) = (acc.reverse ++ l) :: linesFrom [] r
  | [], acc, r, _ => by simp [linesFrom]
  | c :: l, acc, r, h => by
    have hc : c ≠ '\n' := by rintro rfl; simp at h
    have ih := lines_cons l (c :: acc) r (by intro hx; exact h (by simp [hx]))
    rw [List.cons_append, linesFrom.eq_3 _ _ _ (by intro h; exact hc h), ih]
    simp

theorem lines_flatMap : ∀ (ls : List (List Char)), (∀ l ∈ ls, '\n' ∉ l) → lines (ls.flatMap (· ++ ['\n'])) = ls
  | [], _ => rfl
  | l :: ls, h => by
    have ih := lines_flatMap ls (fun l hl => h l (by simp [hl]))
    unfold lines at ih ⊢
    rw [List.flatMap_cons, List.append_assoc, List.singleton_append, lines_cons l [] _ (h l (by simp)), ih]
    rfl

theorem without_append : ∀ (p t : List Char), without p (p ++ t) = some t
  | [], _ => rfl
  | c :: p, t => by simp [without, without_append p t]

theorem before_append (a s : List Char) : before s (a ++ s) = some a := by
  simp [before, without_append]

theorem digit_lower : ∀ d < 16, digit (lowerHex d) = some d := by decide

theorem number_hex : ∀ (k n m : Nat), number (hexDigits k n) m = some (16 ^ k * m + n % 16 ^ k)
  | 0, n, m => by simp [hexDigits, number, Nat.mod_one]
  | k + 1, n, m => by
    rw [hexDigits, number, digit_lower _ (Nat.mod_lt _ (by decide)), Option.bind_some, number_hex k n]
    congr 1
    have h1 : n % 16 ^ (k + 1) = n % 16 ^ k + 16 ^ k * (n / 16 ^ k % 16) := by rw [Nat.pow_succ, Nat.mod_mul]
    rw [h1, Nat.pow_succ, Nat.mul_add]
    rw [Nat.mul_assoc]
    omega

theorem hex_newline : ∀ (k n : Nat), '\n' ∉ hexDigits k n
  | 0, _ => by simp [hexDigits]
  | k + 1, n => by
    have h : ∀ d < 16, '\n' ≠ lowerHex d := by decide
    simp only [hexDigits, List.mem_cons, not_or]
    exact ⟨h _ (Nat.mod_lt _ (by decide)), hex_newline k n⟩

theorem quote_newline {isPrint : Char → Bool} (hp : isPrint '\n' = false) (s : List Char) : '\n' ∉ quote isPrint s := by
  simp only [quote, List.mem_cons, List.mem_append, List.mem_flatMap, List.not_mem_nil, or_false, not_or, not_exists, not_and]
  refine ⟨by decide, fun c _ => ?_, by decide⟩
  unfold quoteChar
  split
  · rename_i h; rcases h with rfl | rfl <;> decide
  · split
    · rename_i h; simp only [List.mem_singleton]; rintro rfl; rw [hp] at h; cases h
    · repeat' split
      all_goals first | decide | (simp only [List.mem_cons, not_or]; exact ⟨by decide, by decide, hex_newline _ _⟩)

theorem content_plain {c : Char} (h1 : c ≠ '"') (h2 : c ≠ '\\') (h3 : c ≠ '\n') (r : List Char) :
    content (c :: r) = (content r).map (c :: ·) := by
  rw [content.eq_def]
  split <;> simp_all

theorem content_letter {l : Char} {n : Nat} (h : (l, n) ∈ letters) (r : List Char) :
    content ('\\' :: l :: r) = (content r).map (Char.ofNat n :: ·) := by
  simp only [letters, List.mem_cons, Prod.mk.injEq, List.not_mem_nil, or_false] at h
  rcases h with ⟨rfl, rfl⟩ | ⟨rfl, rfl⟩ | ⟨rfl, rfl⟩ | ⟨rfl, rfl⟩ | ⟨rfl, rfl⟩ | ⟨rfl, rfl⟩ | ⟨rfl, rfl⟩ | ⟨rfl, rfl⟩ | ⟨rfl, rfl⟩ <;>
    rw [content] <;> simp [letters]

theorem toNat_eq {c : Char} {n : Nat} (h : c.toNat = n) : c = Char.ofNat n := by subst h; simp

theorem content_quoteChar (isPrint : Char → Bool) (hp : isPrint '\n' = false) (c : Char) (r : List Char) :
    content (quoteChar isPrint c ++ r) = (content r).map (c :: ·) := by
  unfold quoteChar
  split
  · rename_i h
    rcases h with rfl | rfl
    · exact content_letter (n := 34) (by decide) r
    · exact content_letter (n := 92) (by decide) r
  · rename_i h0
    simp only [not_or] at h0
    split
    · rename_i h
      refine content_plain h0.1 h0.2 ?_ r
      rintro rfl; rw [hp] at h; cases h
    · split
      · rename_i h; rw [toNat_eq h]; exact content_letter (by decide) r
      split
      · rename_i h; rw [toNat_eq h]; exact content_letter (by decide) r
      split
      · rename_i h; rw [toNat_eq h]; exact content_letter (by decide) r
      split
      · rename_i h; subst h; exact content_letter (n := 10) (by decide) r
      split
      · rename_i h; subst h; exact content_letter (n := 13) (by decide) r
      split
      · rename_i h; subst h; exact content_letter (n := 9) (by decide) r
      split
      · rename_i h; rw [toNat_eq h]; exact content_letter (by decide) r
      have hv : c.toNat.isValidChar := c.valid
      split
      · rename_i h
        have hn := number_hex 2 c.toNat 0
        rw [Nat.mod_eq_of_lt (by omega)] at hn
        simp only [hexDigits, List.cons_append, List.nil_append] at hn ⊢
        rw [content, hn]
        simp only [Nat.mul_zero, Nat.zero_add, Option.bind_some]
        rw [if_pos (by omega)]
        simp
      split
      · rename_i h
        have hn := number_hex 4 c.toNat 0
        rw [Nat.mod_eq_of_lt (by omega)] at hn
        simp only [hexDigits, List.cons_append, List.nil_append] at hn ⊢
        rw [content, hn]
        simp only [Nat.mul_zero, Nat.zero_add, Option.bind_some]
        rw [if_pos hv]
        simp
      · have hl : c.toNat < 16 ^ 8 := by
          rcases hv with h | h <;> omega
        have hn := number_hex 8 c.toNat 0
        rw [Nat.mod_eq_of_lt hl] at hn
        simp only [hexDigits, List.cons_append, List.nil_append] at hn ⊢
        rw [content, hn]
        simp only [Nat.mul_zero, Nat.zero_add, Option.bind_some]
        rw [if_pos hv]
        simp

/-- A quoted string is a Go literal with the string as its value. -/
theorem literal_quote (isPrint : Char → Bool) (hp : isPrint '\n' = false) (s : List Char) : literal (quote isPrint s) = some s := by
  unfold quote literal
  simp only
  induction s with
  | nil => rfl
  | cons c s ih =>
    rw [List.flatMap_cons, List.append_assoc, content_quoteChar _ hp, ih]
    rfl

/-- A line with a call. -/
theorem run_call (s : Settings) (m a : List Char) (ls : List (List Char)) (hm : '(' ∉ m) :
    run (some s) (("  g.".toList ++ (m ++ '(' :: (a ++ [')']))) :: ls) = run (call s m a) ls := by
  have h1 : trim ("  g.".toList ++ (m ++ '(' :: (a ++ [')']))) = 'g' :: '.' :: (m ++ '(' :: (a ++ [')'])) := rfl
  have h2 : (m ++ '(' :: (a ++ [')'])).takeWhile (· ≠ '(') = m := by
    rw [List.takeWhile_append_of_pos (fun c hc => decide_eq_true (by rintro rfl; exact hm hc))]; simp
  have h3 : (m ++ '(' :: (a ++ [')'])).dropWhile (· ≠ '(') = '(' :: (a ++ [')']) := by
    rw [List.dropWhile_append_of_pos (fun c hc => decide_eq_true (by rintro rfl; exact hm hc))]; simp
  rw [run, h1, if_neg (by simp [without])]
  have h4 : without "g := generator.New(".toList ('g' :: '.' :: (m ++ '(' :: (a ++ [')']))) = none := rfl
  have h5 : without "g.".toList ('g' :: '.' :: (m ++ '(' :: (a ++ [')']))) = some (m ++ '(' :: (a ++ [')'])) := rfl
  rw [h4, h5]
  simp only [h2, h3, List.tail_cons, before_append, Option.bind_some]

theorem run_new (s : Option Settings) (a : List Char) (ls : List (List Char)) :
    run s (("  g := generator.New(".toList ++ (a ++ [')'])) :: ls) = run ((literal a).map ({ output := · })) ls := by
  have h1 : trim ("  g := generator.New(".toList ++ (a ++ [')'])) = "g := generator.New(".toList ++ (a ++ [')']) := rfl
  rw [run, h1, if_neg (by simp [without]), without_append]
  simp only [before_append, Option.bind_some]

theorem run_end (s : Option Settings) (ls : List (List Char)) :
    run s ("  if err := g.Generate(os.Stdout); err != nil {".toList :: ls) = s := by
  rw [run, if_pos (by decide)]

theorem run_setter {p m a : List Char} (s : Settings) (hm : '(' ∉ m) (hp : p = "  g.".toList ++ (m ++ ['('])) (ls : List (List Char)) :
    run (some s) ((p ++ a ++ [')']) :: ls) = run (call s m a) ls := by
  have e : p ++ a ++ [')'] = "  g.".toList ++ (m ++ '(' :: (a ++ [')'])) := by simp [hp]
  rw [e, run_call _ _ _ _ hm]

theorem constant_bool (b : Bool) : constant (boolText b) = some b := by cases b <;> rfl

/-- An identifier, or an expression on one line. -/
def OneLine (t : List Char) : Prop := '\n' ∉ t

theorem mainLines_newline (isPrint : Char → Bool) (hp : isPrint '\n' = false) (c : MainConfig) (h1 : OneLine c.type) (h2 : OneLine c.engine) :
    ∀ l ∈ mainLines isPrint c, '\n' ∉ l := by
  have hq := quote_newline hp
  have hb : ∀ b, '\n' ∉ boolText b := by decide
  unfold mainLines
  split
  all_goals
    simp only [List.mem_append, List.mem_cons, List.not_mem_nil, or_false, false_or, forall_eq_or_imp, or_imp, forall_and, forall_eq]
    simp [hq, hb, h1, h2]
    try exact ⟨h2, h1⟩

theorem behind_append (l : List Char) (pre post : List (List Char)) (h : l ∉ pre) : behind l (pre ++ l :: post) = post := by
  rw [behind, List.dropWhile_append_of_pos (fun x hx => decide_eq_true (by rintro rfl; exact h hx))]
  simp

theorem imports_line {t name p : List Char} (isPrint : Char → Bool) (hp : isPrint '\n' = false) (ls : List (List Char))
    (h1 : trim t ≠ [')']) (h2 : trim t ≠ []) (h3 : (trim t).dropWhile (· ≠ '"') = quote isPrint p)
    (h4 : (trim t).takeWhile (fun c => c ≠ '"' ∧ c ≠ ' ') = name) : imports (t :: ls) = (imports ls).map ((name, p) :: ·) := by
  rw [imports, if_neg h1, if_neg h2, h3, h4, literal_quote isPrint hp]
  rfl

theorem main_imports (isPrint : Char → Bool) (hp : isPrint '\n' = false) (c : MainConfig) :
    imports (behind "import (".toList (mainLines isPrint c)) = some
      [([], "fmt".toList), ([], "os".toList), ("generator".toList, "github.com/KSpaceer/yamly/generator".toList),
        ("engine".toList, c.enginePackage), ("pkg".toList, c.pkgPath)] := by
  have e : mainLines isPrint c = (mainLines isPrint c).take 7 ++ "import (".toList :: (mainLines isPrint c).drop 8 := rfl
  rw [e, behind_append _ _ _ (by show _ ∉ ([_, _, _, _, _, _, _] : List (List Char)); decide)]
  show imports (("  \"fmt\"".toList) :: ("  \"os\"".toList) :: [] :: (" generator ".toList ++ quote isPrint _) :: [] ::
    (" engine ".toList ++ quote isPrint _) :: [] :: ("  pkg ".toList ++ quote isPrint _) :: [')'] :: _) = _
  have skip : ∀ ls, imports ([] :: ls) = imports ls := fun ls => by rw [imports]; rfl
  have fmt : ∀ ls, imports ("  \"fmt\"".toList :: ls) = (imports ls).map (([], "fmt".toList) :: ·) := fun ls => by
    rw [imports, if_neg (by decide), if_neg (by decide)]; rfl
  have os : ∀ ls, imports ("  \"os\"".toList :: ls) = (imports ls).map (([], "os".toList) :: ·) := fun ls => by
    rw [imports, if_neg (by decide), if_neg (by decide)]; rfl
  rw [fmt, os, skip, imports_line isPrint hp (name := "generator".toList) _ (by simp [trim, quote]) (by simp [trim, quote]) rfl rfl, skip,
    imports_line isPrint hp (name := "engine".toList) _ (by simp [trim, quote]) (by simp [trim, quote]) rfl rfl, skip,
    imports_line isPrint hp (name := "pkg".toList) _ (by simp [trim, quote]) (by simp [trim, quote]) rfl rfl, imports, if_pos (show trim [')'] = [')'] from rfl)]
  rfl

theorem call_name (isPrint : Char → Bool) (hp : isPrint '\n' = false) : ∀ (s : Settings) (t : List Char), call s "SetPkgName".toList (quote isPrint t) = some { s with pkgName := t } := fun s t => by
  rw [call, if_pos rfl, literal_quote isPrint hp]; rfl

theorem call_path (isPrint : Char → Bool) (hp : isPrint '\n' = false) : ∀ (s : Settings) (t : List Char), call s "SetPkgPath".toList (quote isPrint t) = some { s with pkgPath := t } := fun s t => by
  rw [call, if_neg (by decide), if_pos rfl, literal_quote isPrint hp]; rfl

theorem call_tags (isPrint : Char → Bool) (hp : isPrint '\n' = false) : ∀ (s : Settings) (t : List Char), call s "SetBuildTags".toList (quote isPrint t) = some { s with buildTags := t } := fun s t => by
  rw [call, if_neg (by decide), if_neg (by decide), if_pos rfl, literal_quote isPrint hp]; rfl

theorem call_omitempty : ∀ (s : Settings) (b : Bool), call s "SetOmitempty".toList (boolText b) = some { s with omitempty := b } := fun s b => by
  rw [call, if_neg (by decide), if_neg (by decide), if_neg (by decide), if_pos rfl, constant_bool]; rfl

theorem call_disallow : ∀ (s : Settings) (b : Bool), call s "SetDisallowUnknownFields".toList (boolText b) = some { s with disallowUnknownFields := b } := fun s b => by
  rw [call, if_neg (by decide), if_neg (by decide), if_neg (by decide), if_neg (by decide), if_pos rfl, constant_bool]; rfl

theorem call_receiver : ∀ (s : Settings) (b : Bool), call s "SetEncodePointerReceiver".toList (boolText b) = some { s with encodePointerReceiver := b } := fun s b => by
  rw [call, if_neg (by decide), if_neg (by decide), if_neg (by decide), if_neg (by decide), if_neg (by decide), if_pos rfl, constant_bool]; rfl

theorem call_inline : ∀ (s : Settings) (b : Bool), call s "SetInlineEmbedded".toList (boolText b) = some { s with inlineEmbedded := b } := fun s b => by
  rw [call, if_neg (by decide), if_neg (by decide), if_neg (by decide), if_neg (by decide), if_neg (by decide), if_neg (by decide), if_pos rfl, constant_bool]; rfl

theorem call_engine : ∀ (s : Settings) (t : List Char), call s "SetEngineGenerator".toList ("engine.".toList ++ t) = some { s with engine := t } := fun s t => by
  rw [call, if_neg (by decide), if_neg (by decide), if_neg (by decide), if_neg (by decide), if_neg (by decide), if_neg (by decide), if_neg (by decide), if_pos rfl, without_append]; rfl

theorem call_type : ∀ (s : Settings) (t : List Char), call s "AddType".toList ("pkg.".toList ++ (t ++ "(nil)".toList)) = some { s with type := t } := fun s t => by
  rw [call, if_neg (by decide), if_neg (by decide), if_neg (by decide), if_neg (by decide), if_neg (by decide), if_neg (by decide), if_neg (by decide), if_neg (by decide), if_pos rfl, without_append, Option.bind_some, before_append]; rfl

theorem run_create : ∀ (s : Option Settings) (a : List Char) ls, run s (("  g := generator.New(".toList ++ a ++ [')']) :: ls) = run ((literal a).map ({ output := · })) ls :=
  fun s a ls => by rw [List.append_assoc, run_new]

theorem run_engine : ∀ (s : Settings) (a : List Char) ls, run (some s) (("  g.SetEngineGenerator(engine.".toList ++ a ++ [')']) :: ls) =
    run (call s "SetEngineGenerator".toList ("engine.".toList ++ a)) ls := fun s a ls =>
  run_setter (p := "  g.SetEngineGenerator(".toList) (m := "SetEngineGenerator".toList) (a := "engine.".toList ++ a) s (by decide) rfl ls

theorem run_type : ∀ (s : Settings) (a : List Char) ls, run (some s) (("  g.AddType(pkg.Exporter_yamly_".toList ++ a ++ "(nil))".toList) :: ls) =
    run (call s "AddType".toList ("pkg.".toList ++ (("Exporter_yamly_".toList ++ a) ++ "(nil)".toList))) ls := fun s a ls => by
  rw [← run_setter (p := "  g.AddType(".toList) s (by decide) rfl ls]
  congr 2
  simp

theorem main_run (isPrint : Char → Bool) (hp : isPrint '\n' = false) (c : MainConfig) :
    run none (behind "func main() {".toList (mainLines isPrint c)) = some
      { output := c.output, pkgName := c.pkgName, pkgPath := c.pkgPath, engine := c.engine, buildTags := c.buildTags,
         omitempty := c.omitempty, disallowUnknownFields := c.disallowUnknownFields,
         encodePointerReceiver := c.encodePointerReceiver, inlineEmbedded := c.inlineEmbedded,
         type := "Exporter_yamly_".toList ++ c.type } := by
  have e : mainLines isPrint c = (mainLines isPrint c).take 17 ++ "func main() {".toList :: (mainLines isPrint c).drop 18 := rfl
  rw [e, behind_append _ _ _ (by
    show _ ∉ ([_, _, _, _, _, _, _, _, _, _, _, _, _, _, _, _, _] : List (List Char))
    simp)]
  by_cases ht : c.buildTags = []
  · simp only [mainLines, ht, ne_eq, not_true_eq_false, if_false, List.append_nil, List.cons_append, List.nil_append, List.drop_succ_cons, List.drop_zero]
    rw [run_create, literal_quote isPrint hp, Option.map_some, run_setter (p := "  g.SetPkgName(".toList) (m := "SetPkgName".toList) _ (by decide) rfl, call_name isPrint hp, run_setter (p := "  g.SetPkgPath(".toList) (m := "SetPkgPath".toList) _ (by decide) rfl, call_path isPrint hp,
      run_engine, call_engine,
      run_setter (p := "  g.SetOmitempty(".toList) (m := "SetOmitempty".toList) _ (by decide) rfl, call_omitempty,
      run_setter (p := "  g.SetDisallowUnknownFields(".toList) (m := "SetDisallowUnknownFields".toList) _ (by decide) rfl, call_disallow,
      run_setter (p := "  g.SetEncodePointerReceiver(".toList) (m := "SetEncodePointerReceiver".toList) _ (by decide) rfl, call_receiver,
      run_setter (p := "  g.SetInlineEmbedded(".toList) (m := "SetInlineEmbedded".toList) _ (by decide) rfl, call_inline,
      run_type, call_type, run_end]
  · simp only [mainLines, ht, ne_eq, not_false_eq_true, if_true, List.cons_append, List.nil_append, List.drop_succ_cons, List.drop_zero]
    rw [run_create, literal_quote isPrint hp, Option.map_some, run_setter (p := "  g.SetPkgName(".toList) (m := "SetPkgName".toList) _ (by decide) rfl, call_name isPrint hp, run_setter (p := "  g.SetPkgPath(".toList) (m := "SetPkgPath".toList) _ (by decide) rfl, call_path isPrint hp,
      run_engine, call_engine,
      run_setter (p := "  g.SetBuildTags(".toList) (m := "SetBuildTags".toList) _ (by decide) rfl, call_tags isPrint hp,
      run_setter (p := "  g.SetOmitempty(".toList) (m := "SetOmitempty".toList) _ (by decide) rfl, call_omitempty,
      run_setter (p := "  g.SetDisallowUnknownFields(".toList) (m := "SetDisallowUnknownFields".toList) _ (by decide) rfl, call_disallow,
      run_setter (p := "  g.SetEncodePointerReceiver(".toList) (m := "SetEncodePointerReceiver".toList) _ (by decide) rfl, call_receiver,
      run_setter (p := "  g.SetInlineEmbedded(".toList) (m := "SetInlineEmbedded".toList) _ (by decide) rfl, call_inline,
      run_type, call_type, run_end]

/-- **C66.** The temporary program, read as Go, imports the package of the type, the generator and its engine, and gives the
generator all the settings of the command line, whatever they are, and the type which the stub declares for it. -/
theorem program_settings (isPrint : Char → Bool) (hp : isPrint '\n' = false) (c : MainConfig) (h1 : OneLine c.type) (h2 : OneLine c.engine) :
    program (mainText isPrint c) = some
      ([([], "fmt".toList), ([], "os".toList), ("generator".toList, "github.com/KSpaceer/yamly/generator".toList),
        ("engine".toList, c.enginePackage), ("pkg".toList, c.pkgPath)],
       { output := c.output, pkgName := c.pkgName, pkgPath := c.pkgPath, engine := c.engine, buildTags := c.buildTags,
         omitempty := c.omitempty, disallowUnknownFields := c.disallowUnknownFields,
         encodePointerReceiver := c.encodePointerReceiver, inlineEmbedded := c.inlineEmbedded,
         type := "Exporter_yamly_".toList ++ c.type }) := by
  have hl := lines_flatMap _ (mainLines_newline isPrint hp c h1 h2)
  unfold program
  rw [mainText, hl, if_pos (List.mem_of_getElem? (i := 5) rfl), main_imports isPrint hp, main_run isPrint hp]
  rfl

/-! ## The stub -/

/-- A Go identifier. -/
def Identifier (t : List Char) : Prop := t ≠ [] ∧ ∀ c ∈ t, isIdent c = true

theorem Identifier.oneLine {t : List Char} (h : Identifier t) : '\n' ∉ t := fun hn => absurd (h.2 _ hn) (by decide)

theorem tokensFrom_name : ∀ {t : List Char} (acc r : List Char), (∀ c ∈ t, isIdent c = true) → tokensFrom acc (t ++ r) = tokensFrom (t.reverse ++ acc) r
  | [], acc, r, _ => rfl
  | c :: t, acc, r, h => by
    rw [List.cons_append, tokensFrom, if_pos (h c (by simp)), tokensFrom_name _ _ fun x hx => h x (by simp [hx])]
    simp

theorem tokensFrom_space {t : List Char} (h : Identifier t) (r : List Char) : tokensFrom [] (t ++ ' ' :: r) = t :: tokensFrom [] r := by
  rw [tokensFrom_name _ _ h.2, tokensFrom, if_neg (by decide), if_neg (by simp [h.1]), if_pos rfl]
  simp

theorem tokensFrom_last {t : List Char} (h : Identifier t) : tokensFrom [] t = [t] := by
  have e := tokensFrom_name [] [] h.2
  rw [List.append_nil, List.append_nil] at e
  rw [e, tokensFrom, if_neg (by simp [h.1])]
  simp

/-- The lines of the stub without the line of the build tags. -/
def stubLines (c : Config) : List (List Char) :=
  [ "// TEMPORARY AUTOGENERATED FILE: yamly stub code to compile the generator".toList, [],
    "package  ".toList ++ c.pkgName, [],
    "func ( ".toList ++ ((if c.encodePointerReceiver then '*' :: c.type else c.type) ++ " ) MarshalYAML() ([]byte, error) { return nil, nil }".toList),
    "func (* ".toList ++ (c.type ++ " ) UnmarshalYAML([]byte) error { return nil }".toList), [],
    ("type Exporter_yamly_".toList ++ c.type) ++ (" *".toList ++ c.type) ]

theorem stub_lines (c : Config) : stub c =
    ((if c.buildTags ≠ [] then ["// +build  ".toList ++ c.buildTags, []] else []) ++ stubLines c).flatMap (· ++ ['\n']) := by
  by_cases ht : c.buildTags = [] <;> simp [stub, stubWrites, stubLines, fprintln, ht]

/-- **C66.** The stub is a file of the package, which declares for the type the methods of the interfaces, with the receiver
that the generated ones will have, and the type which the temporary program refers to. -/
theorem stub_code (c : Config) (hp : Identifier c.pkgName) (ht : Identifier c.type) (hb : '\n' ∉ c.buildTags) :
    code (stub c) =
      [ ["package".toList, c.pkgName],
        ["func".toList, ['(']] ++ (if c.encodePointerReceiver then [['*']] else []) ++ [c.type, [')'], "MarshalYAML".toList, ['('], [')'],
          ['('], ['['], [']'], "byte".toList, [','], "error".toList, [')'], ['{'], "return".toList, "nil".toList, [','], "nil".toList, ['}']],
        ["func".toList, ['('], ['*'], c.type, [')'], "UnmarshalYAML".toList, ['('], ['['], [']'], "byte".toList, [')'], "error".toList,
          ['{'], "return".toList, "nil".toList, ['}']],
        ["type".toList, "Exporter_yamly_".toList ++ c.type, ['*'], c.type] ] := by
  have hl : ∀ l ∈ (if c.buildTags ≠ [] then ["// +build  ".toList ++ c.buildTags, []] else []) ++ stubLines c, '\n' ∉ l := by
    have h1 := hp.oneLine
    have h2 := ht.oneLine
    unfold stubLines
    split
    all_goals
      split
      all_goals
        simp only [List.mem_append, List.mem_cons, List.not_mem_nil, or_false, false_or, forall_eq_or_imp, or_imp, forall_and, forall_eq]
        simp [h1, h2, hb]
  have hE : Identifier ("Exporter_yamly_".toList ++ c.type) :=
    ⟨by simp, fun x hx => by
      rcases List.mem_append.1 hx with h | h
      · have : ∀ x ∈ "Exporter_yamly_".toList, isIdent x = true := by decide
        exact this x h
      · exact ht.2 x h⟩
  have t1 : tokens ("package  ".toList ++ c.pkgName) = ["package".toList, c.pkgName] := by
    show ["package".toList] ++ tokensFrom [] c.pkgName = _
    rw [tokensFrom_last hp]; rfl
  have t2 : tokens ("func (* ".toList ++ (c.type ++ " ) UnmarshalYAML([]byte) error { return nil }".toList)) =
      ["func".toList, ['('], ['*'], c.type, [')'], "UnmarshalYAML".toList, ['('], ['['], [']'], "byte".toList, [')'], "error".toList,
          ['{'], "return".toList, "nil".toList, ['}']] := by
    show ["func".toList] ++ ([['('], ['*']] ++ tokensFrom [] (c.type ++ ' ' :: ") UnmarshalYAML([]byte) error { return nil }".toList)) = _
    rw [tokensFrom_space ht]; rfl
  have t3 : tokens ("func ( ".toList ++ (c.type ++ " ) MarshalYAML() ([]byte, error) { return nil, nil }".toList)) =
      ["func".toList, ['('], c.type, [')'], "MarshalYAML".toList, ['('], [')'],
          ['('], ['['], [']'], "byte".toList, [','], "error".toList, [')'], ['{'], "return".toList, "nil".toList, [','], "nil".toList, ['}']] := by
    show ["func".toList] ++ ([['(']] ++ tokensFrom [] (c.type ++ ' ' :: ") MarshalYAML() ([]byte, error) { return nil, nil }".toList)) = _
    rw [tokensFrom_space ht]; rfl
  have t4 : tokens ("func ( ".toList ++ '*' :: (c.type ++ " ) MarshalYAML() ([]byte, error) { return nil, nil }".toList)) =
      ["func".toList, ['('], ['*'], c.type, [')'], "MarshalYAML".toList, ['('], [')'],
          ['('], ['['], [']'], "byte".toList, [','], "error".toList, [')'], ['{'], "return".toList, "nil".toList, [','], "nil".toList, ['}']] := by
    show ["func".toList] ++ ([['('], ['*']] ++ tokensFrom [] (c.type ++ ' ' :: ") MarshalYAML() ([]byte, error) { return nil, nil }".toList)) = _
    rw [tokensFrom_space ht]; rfl
  have t5 : tokens (("type Exporter_yamly_".toList ++ c.type) ++ (" *".toList ++ c.type)) = ["type".toList, "Exporter_yamly_".toList ++ c.type, ['*'], c.type] := by
    show ["type".toList] ++ tokensFrom [] (("Exporter_yamly_".toList ++ c.type) ++ ' ' :: ('*' :: c.type)) = _
    rw [tokensFrom_space hE]
    show ["type".toList] ++ (_ :: ['*'] :: tokensFrom [] c.type) = _
    rw [tokensFrom_last ht]; rfl
  have t0 : ∀ t, tokens ("// +build  ".toList ++ t) = [] := fun t => rfl
  have t6 : tokens "// TEMPORARY AUTOGENERATED FILE: yamly stub code to compile the generator".toList = [] := rfl
  have t7 : tokens [] = [] := rfl
  unfold code
  rw [stub_lines, lines_flatMap _ hl]
  cases hc : c.encodePointerReceiver <;> by_cases hg : c.buildTags = [] <;>
    simp only [stubLines, hc, hg, ne_eq, not_true_eq_false, not_false_eq_true, if_true, if_false, Bool.false_eq_true, List.cons_append, List.nil_append, List.map_cons, List.map_nil, t0, t1, t2, t3, t4, t5, t6, t7] <;> rfl

/-- **C66.** Build tags stand in the first line of the stub, which an empty line separates from the package clause. -/
theorem stub_tags (c : Config) (h : c.buildTags ≠ []) (hp : '\n' ∉ c.pkgName) (ht : '\n' ∉ c.type) (hb : '\n' ∉ c.buildTags) :
    ∃ l ls, lines (stub c) = l :: [] :: ls ∧ words l = ["//".toList, "+build".toList] ++ words c.buildTags := by
  have hl : ∀ l ∈ (if c.buildTags ≠ [] then ["// +build  ".toList ++ c.buildTags, []] else []) ++ stubLines c, '\n' ∉ l := by
    unfold stubLines
    split
    all_goals
      split
      all_goals
        simp only [List.mem_append, List.mem_cons, List.not_mem_nil, or_false, false_or, forall_eq_or_imp, or_imp, forall_and, forall_eq]
        simp [hp, ht, hb]
  refine ⟨"// +build  ".toList ++ c.buildTags, stubLines c, ?_, rfl⟩
  rw [stub_lines, lines_flatMap _ hl, if_pos h]
  rfl

/-- Without build tags the code of the file follows a comment only. -/
theorem stub_no_tags (c : Config) (h : c.buildTags = []) (hp : '\n' ∉ c.pkgName) (ht : '\n' ∉ c.type) :
    ∃ l ls, lines (stub c) = l :: [] :: ls ∧ "+build".toList ∉ words l := by
  have hl : ∀ l ∈ (if c.buildTags ≠ [] then ["// +build  ".toList ++ c.buildTags, []] else []) ++ stubLines c, '\n' ∉ l := by
    unfold stubLines
    rw [if_neg (by simp [h])]
    split
    all_goals
        simp only [List.mem_append, List.mem_cons, List.not_mem_nil, or_false, false_or, forall_eq_or_imp, or_imp, forall_and, forall_eq]
        simp [hp, ht]
  refine ⟨_, (stubLines c).drop 2, ?_, show "+build".toList ∉ words "// TEMPORARY AUTOGENERATED FILE: yamly stub code to compile the generator".toList by decide +kernel⟩
  rw [stub_lines, lines_flatMap _ hl, if_neg (by simp [h])]
  rfl

/-- A command line with a quoted path and build tags. -/
def sample : MainConfig :=
  { pkgPath := "example.com/p\"q".toList, pkgName := "p".toList, type := "T".toList, omitempty := true, disallowUnknownFields := false,
    encodePointerReceiver := true, inlineEmbedded := false, enginePackage := "github.com/KSpaceer/yamly/engines/yamlyv3/generator".toList,
    engine := "G".toList, output := "t_yamly.go".toList, buildTags := "a,b c".toList }

example : OneLine sample.type ∧ OneLine sample.engine := by unfold OneLine; decide

example : (program (mainText (fun c => decide (32 ≤ c.toNat ∧ c.toNat ≤ 126)) sample)).map (fun r => (r.2.pkgPath, r.2.buildTags, r.2.omitempty)) =
    some ("example.com/p\"q".toList, "a,b c".toList, true) := by
  rw [program_settings _ (by decide) _ (by unfold OneLine; decide) (by unfold OneLine; decide)]
  rfl

example : Identifier "Node_1".toList := ⟨by decide, by decide⟩

example : code (stub ⟨"p".toList, "T".toList, false, []⟩) =
    [["package".toList, ['p']],
     ["func".toList, ['('], ['T'], [')'], "MarshalYAML".toList, ['('], [')'], ['('], ['['], [']'], "byte".toList, [','], "error".toList, [')'],
       ['{'], "return".toList, "nil".toList, [','], "nil".toList, ['}']],
     ["func".toList, ['('], ['*'], ['T'], [')'], "UnmarshalYAML".toList, ['('], ['['], [']'], "byte".toList, [')'], "error".toList,
       ['{'], "return".toList, "nil".toList, ['}']],
     ["type".toList, "Exporter_yamly_T".toList, ['*'], ['T']]] := by decide +kernel

end Verif.Props.BootMain
