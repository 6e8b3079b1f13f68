import Verif.Lemmas.GenVars

/-!
C69: the brackets of generated code are closed.
C70: a method called by generated code is called on the variable at hand.
C71: the literals of generated code denote the names of the fields.
C72: the variables of generated code have names of their own.
-/

set_option linter.unusedVariables false

namespace Verif.Props.GenText

open Verif.GoText Verif.GenText

section

variable {τ : Type} [DecidableEq τ]

/-- What is asked of the names: those of types, functions and fields are closed, and the names for documents can stand in a
literal. -/
structure NamesFine (ty : Types τ) : Prop where
  name : ∀ t, Closed (ty.name t)
  func : ∀ d t, Closed (ty.func d t)
  field : ∀ t fs es, ty.kind t = .struct fs es → ∀ d ∈ fs, Closed d.goName ∧ Inside d.name
  embedded : ∀ t fs es, ty.kind t = .struct fs es → ∀ e ∈ es, Closed e.1

theorem NamesFine.fine {ty : Types τ} (h : NamesFine ty) : Fine ty :=
  ⟨fun t => (h.name t).neutral, fun d t => (h.func d t).neutral,
    fun t fs es hk d hd => ⟨(h.field t fs es hk d hd).1.neutral, (h.field t fs es hk d hd).2⟩,
    fun t fs es hk e he => (h.embedded t fs es hk e he).neutral⟩

/-- C69 for encoders: whatever the type, the options and the engine, the text of the encoder is closed. -/
theorem encoder_closed (ty : Types τ) (eng : Engine) (o : Opts) (hn : NamesFine ty) (f : Nat) (t : τ) (n n' : Nat) (x : Text)
    (h : encoder ty eng o f t n = .ok (some (x, n'))) : Closed x :=
  closed_of_scan ((encoder_quiet ty eng o hn.fine f t []).run n x n' h)

/-- C69 for the files of the engine yayamls. -/
theorem yayamls_file_closed (ty : Types τ) (o : Opts) (hn : NamesFine ty) (f : Nat) (target : τ) (ts : List τ)
    (tags pkg : Text) (imports : List (Text × Text)) (ht : Closed tags) (hp : Closed pkg)
    (hi : ∀ i ∈ imports, Closed i.1 ∧ Closed i.2) (n n' : Nat) (x : Text)
    (h : file ty .yayamls o f target ts tags pkg imports n = .ok (some (x, n'))) : Closed x :=
  closed_of_scan ((file_quiet ty .yayamls o hn.fine (.inl rfl) f target ts ht.neutral hp.neutral
    (fun i h => ⟨(hi i h).1.neutral, (hi i h).2.neutral⟩) []).run n x n' h)

/-- C69 in part: for the engine goyaml without types that have a method `UnmarshalYAML` for `yaml.Unmarshaler`, and without
`interface{}`. -/
theorem file_closed_partial (ty : Types τ) (eng : Engine) (o : Opts) (hn : NamesFine ty)
    (he : eng = .goyaml → (∀ t, ty.engine .dec t = false) ∧ ∀ t, ty.kind t ≠ .iface false)
    (f : Nat) (target : τ) (ts : List τ) (tags pkg : Text) (imports : List (Text × Text)) (ht : Closed tags)
    (hp : Closed pkg) (hi : ∀ i ∈ imports, Closed i.1 ∧ Closed i.2) (n n' : Nat) (x : Text)
    (h : file ty eng o f target ts tags pkg imports n = .ok (some (x, n'))) : Closed x := by
  have hs : Safe ty eng := by
    cases eng with
    | yayamls => exact .inl rfl
    | goyaml => exact .inr (he rfl)
  exact closed_of_scan ((file_quiet ty eng o hn.fine hs f target ts ht.neutral hp.neutral
    (fun i h => ⟨(hi i h).1.neutral, (hi i h).2.neutral⟩) []).run n x n' h)

end

/-! ### witnesses -/

/-- Types for the examples: `type T struct { A [][2]map[string]*int; B any; C *time.Time; D U }`, where `U` has a method
`UnmarshalYAML`. -/
inductive Ex where
  | t | a | arr | map | str | ptr | int | any | ptime | time | u
deriving DecidableEq

def exFields : List (Field Ex) := [⟨['A'], "a-b".toList, .a, true⟩, ⟨['C'], ['C'], .ptime, false⟩]

def exName : Ex → Text
  | .t => ['T']
  | .a => "[][2]map[string]*int".toList
  | .arr => "[2]map[string]*int".toList
  | .map => "map[string]*int".toList
  | .str => "string".toList
  | .ptr => "*int".toList
  | .int => "int".toList
  | .any => "interface {}".toList
  | .ptime => "*time.Time".toList
  | .time => "time.Time".toList
  | .u => ['U']

def ex (fs : List (Field Ex)) : Types Ex where
  kind
    | .t => .struct fs []
    | .a => .slice .arr
    | .arr => .array 2 .map
    | .map => .map .str .ptr
    | .str => .basic .string
    | .ptr => .pointer .int
    | .int => .basic (.int 0)
    | .any => .iface false
    | .ptime => .pointer .time
    | .time => .struct [] []
    | .u => .basic .bool
  time t := t = .time
  byte _ := false
  yamly _ _ := false
  engine _ t := t = .u
  text _ t := t = .time
  self _ _ := false
  name := exName
  func
    | .dec => fun _ => "yamlyDecodeT".toList
    | .enc => fun _ => "yamlyEncodeT".toList

def exOpts : Opts := ⟨false, true, false⟩

/-- The hypotheses on names are met. -/
theorem ex_names (fs : List (Field Ex)) (h : ∀ d ∈ fs, Closed d.goName ∧ Inside d.name) : NamesFine (ex fs) := by
  refine ⟨fun t => ?_, fun d t => ?_, fun t fs' es hk => ?_, fun t fs' es hk => ?_⟩
  · show Closed (exName t)
    cases t <;> exact closed_iff.2 (by decide +kernel)
  · cases d
    · exact (closed_iff.2 (by decide +kernel) : Closed "yamlyDecodeT".toList)
    · exact (closed_iff.2 (by decide +kernel) : Closed "yamlyEncodeT".toList)
  · cases t <;> simp only [ex] at hk <;> cases hk
    · exact h
    · simp
  · cases t <;> simp only [ex] at hk <;> cases hk <;> simp

/-- The text written, if any. -/
def written? (w : W) : Option Text :=
  match w 0 with
  | .ok (some (x, _)) => some x
  | _ => none

/-- A file is written for the example, so the theorems speak of something. -/
example : (written? (file (ex exFields) .yayamls exOpts 20 .t [.t] [] "main".toList
    [("yamly".toList, "\"github.com/KSpaceer/yamly\"".toList)])).isSome = true := by decide +kernel

example : NamesFine (ex exFields) := ex_names _ (by
  intro d hd
  simp only [exFields, List.mem_cons, List.not_mem_nil, or_false] at hd
  rcases hd with rfl | rfl
  · exact ⟨closed_iff.2 (by decide +kernel), .char (by decide) (by decide) (by decide)
      (.char (by decide) (by decide) (by decide) (.char (by decide) (by decide) (by decide) .nil))⟩
  · exact ⟨closed_iff.2 (by decide +kernel), .char (by decide) (by decide) (by decide) .nil⟩)

theorem not_closed {w : W} (h : (written? w).map (fun x => decide (scan (.code []) x = .code [])) = some false) :
    ∃ n x n', w n = .ok (some (x, n')) ∧ ¬ Closed x := by
  unfold written? at h
  split at h
  · rename_i x n' hw
    refine ⟨0, x, n', hw, fun hc => ?_⟩
    have := closed_iff.1 hc
    simp [this] at h
  · simp at h

/-- C69 fails for `interface{}` with the engine goyaml: engines/goyaml/engine.go:92 lacks a parenthesis and line 95 a brace. -/
theorem goyaml_any_not_closed : ∃ n x n',
    decoder (ex [⟨['B'], ['B'], .any, false⟩]) .goyaml exOpts 20 .t n = .ok (some (x, n')) ∧ ¬ Closed x :=
  not_closed (by decide +kernel)

/-- C69 fails for a type with its own `UnmarshalYAML` with the engine goyaml: engines/goyaml/engine.go:67 lacks a
parenthesis. -/
theorem goyaml_unmarshaler_not_closed : ∃ n x n',
    decoder (ex [⟨['D'], ['D'], .u, false⟩]) .goyaml exOpts 20 .t n = .ok (some (x, n')) ∧ ¬ Closed x :=
  not_closed (by decide +kernel)

/-- The same fields give closed text with the engine yayamls. -/
example : ((written? (decoder (ex [⟨['B'], ['B'], .any, false⟩, ⟨['D'], ['D'], .u, false⟩]) .yayamls exOpts 20 .t)).map
    (fun x => decide (scan (.code []) x = .code []))) = some true := by decide +kernel

/-- C69 fails for the name `a"b`. -/
theorem quote_not_closed : ∃ n x n',
    decoder (ex [⟨['A'], "a\"b".toList, .int, false⟩]) .yayamls exOpts 20 .t n = .ok (some (x, n')) ∧ ¬ Closed x :=
  not_closed (by decide +kernel)

/-! ### C70 -/

/-- The variable meant by a place. -/
def meant : Place → Expr
  | .root x => .name x
  | .field x f => .sel (.name x) f
  | .var v => .name v
  | .index p i => .index (meant p) i
  | .deref p => .deref (meant p)

/-- The names in a place are names. -/
def Proper : Place → Prop
  | .root x => Ident x
  | .field x f => Ident x ∧ Ident f
  | .var v => Ident v
  | .index p i => Proper p ∧ Ident i
  | .deref p => Proper p

/-- C70: the text of a place is read as the variable meant, and in no other way. -/
theorem place_read (p : Place) (h : Proper p) : Unary p.text (meant p) ∧ ∀ e, Unary p.text e → e = meant p := by
  have hu : Unary p.text (meant p) := by
    induction p with
    | root x => exact .primary (.name h)
    | field x f => exact .primary (.sel (.name h.1) h.2)
    | var v => exact .primary (.name h)
    | index p i ih =>
      have := Primary.index (.paren (ih h.1)) h.2
      refine .primary ?_
      have e : (Place.index p i).text = ('(' :: (p.text ++ [')'])) ++ '[' :: (i ++ [']']) := by
        simp [Place.text]
      rw [e]
      exact this
    | deref p ih => exact .deref (ih h)
  exact ⟨hu, fun e he => unary_unique he hu⟩

/-- C70 for decoders: the method is called on the variable meant. -/
theorem decoder_calls_on_variable (p : Place) (h : Proper p) (m : Text) (hm : Ident m) (a : Text) (ha : Closed a)
    (hq : '"' ∉ a) (hr : '`' ∉ a) :
    Unary (decMethod p m ++ '(' :: (a ++ [')'])) (.call (.sel (meant p) m) a) ∧
      ∀ e, Unary (decMethod p m ++ '(' :: (a ++ [')'])) e → e = .call (.sel (meant p) m) a := by
  have e : decMethod p m = ('(' :: (p.text ++ [')'])) ++ '.' :: m := by simp [decMethod]
  have hu : Unary (decMethod p m ++ '(' :: (a ++ [')'])) (.call (.sel (meant p) m) a) := by
    rw [e]
    exact .primary (.call (.sel (.paren (place_read p h).1) hm) ha hq hr)
  exact ⟨hu, fun e he => unary_unique he hu⟩

/-- C70 for encoders, in part: when the variable is not behind a pointer. -/
theorem encoder_calls_on_variable_partial (p : Place) (h : Proper p) (hd : ∀ q, p ≠ .deref q) (m : Text) (hm : Ident m)
    (a : Text) (ha : Closed a) (hq : '"' ∉ a) (hr : '`' ∉ a) :
    Unary (encMethod p m ++ '(' :: (a ++ [')'])) (.call (.sel (meant p) m) a) ∧
      ∀ e, Unary (encMethod p m ++ '(' :: (a ++ [')'])) e → e = .call (.sel (meant p) m) a := by
  have hp : Primary p.text (meant p) := by
    cases p with
    | root x => exact .name h
    | field x f => exact .sel (.name h.1) h.2
    | var v => exact .name h
    | index p i =>
      have e : (Place.index p i).text = ('(' :: (p.text ++ [')'])) ++ '[' :: (i ++ [']']) := by
        simp [Place.text]
      rw [e]
      exact .index (.paren (place_read p h.1).1) h.2
    | deref q => exact absurd rfl (hd q)
  have hu : Unary (encMethod p m ++ '(' :: (a ++ [')'])) (.call (.sel (meant p) m) a) :=
    .primary (.call (.sel hp hm) ha hq hr)
  exact ⟨hu, fun e he => unary_unique he hu⟩

/-- C70 fails for encoders behind a pointer: the star takes the call, whatever the method. -/
theorem encoder_calls_on_pointer (p : Place) (m a : Text) (e : Expr)
    (h : Unary (encMethod (.deref p) m ++ '(' :: (a ++ [')'])) e) : (∃ e', e = .deref e') ∧
      e ≠ .call (.sel (meant (.deref p)) m) a := by
  obtain ⟨e', rfl, _⟩ := unary_star (x := (p.text ++ '.' :: m) ++ '(' :: (a ++ [')'])) h
  exact ⟨⟨e', rfl⟩, by simp⟩

/-- That text is written, for a field of type `*time.Time`. -/
theorem pointer_to_text_written : (written? (encoder (ex exFields) .yayamls exOpts 20 .t)).map
    (fun x => decide (("out.InsertRawText(".toList ++ (encMethod (.deref (.field "in".toList ['C'])) "MarshalText".toList ++
      "())".toList)) <:+: x)) = some true := by decide +kernel

example : encMethod (.deref (.field "in".toList ['C'])) "MarshalText".toList ++ "()".toList =
    "*in.C.MarshalText()".toList := by decide +kernel

/-- `(*(v1)[v2]).UnmarshalText` is a call on the element behind the pointer. -/
example : Proper (.deref (.index (.var "v1".toList) "v2".toList)) := by
  refine ⟨⟨⟨'v', ['1'], by decide +kernel, by decide⟩, by decide +kernel⟩,
    ⟨⟨'v', ['2'], by decide +kernel, by decide⟩, by decide +kernel⟩⟩

/-! ### C71 -/

/-- C71 in part: the literal of a name without quotes, backslashes and line breaks denotes the name. -/
theorem literal_denotes_partial (s : Text) (h1 : '"' ∉ s) (h2 : '\\' ∉ s) (h3 : '\n' ∉ s) :
    Inside s ∧ Denotes s s ∧ ∀ x, Denotes s x → x = s := by
  have hi : Inside s ∧ Denotes s s := by
    induction s with
    | nil => exact ⟨.nil, .nil⟩
    | cons c s ih =>
      simp only [List.mem_cons, not_or] at h1 h2 h3
      obtain ⟨i1, i2⟩ := ih h1.2 h2.2 h3.2
      exact ⟨.char (Ne.symm h1.1) (Ne.symm h2.1) (Ne.symm h3.1) i1, .char (Ne.symm h1.1) (Ne.symm h2.1) (Ne.symm h3.1) i2⟩
  exact ⟨hi.1, hi.2, fun x hx => denotes_unique hx hi.2⟩

/-- C71 is about all names with a backslash, too: no literal with one denotes itself. -/
theorem backslash_denotes_other (s : Text) (h : '\\' ∈ s) : ¬ Denotes s s := by
  have key : ∀ {s x : Text}, Denotes s x → x.length ≤ s.length ∧ ('\\' ∈ s → x.length < s.length) := by
    intro s x h
    induction h with
    | nil => simp
    | char _ h2 _ _ ih =>
      refine ⟨by simpa using ih.1, fun hm => ?_⟩
      rcases List.mem_cons.1 hm with h | h
      · exact absurd h.symm h2
      · simpa using ih.2 h
    | tab _ ih => simp only [List.length_cons]; omega
    | newline _ ih => simp only [List.length_cons]; omega
    | quote _ ih => simp only [List.length_cons]; omega
    | backslash _ ih => simp only [List.length_cons]; omega
  intro hd
  exact Nat.lt_irrefl _ ((key hd).2 h)

/-- C71 fails for the name `a\tb` (backslash, t): the literal denotes another text. -/
theorem backslash_denotes_tab : Denotes "a\\tb".toList "a\tb".toList ∧ ¬ Denotes "a\\tb".toList "a\\tb".toList :=
  ⟨.char (by decide) (by decide) (by decide) (.tab (.char (by decide) (by decide) (by decide) .nil)),
    backslash_denotes_other _ (by decide +kernel)⟩

section

variable {τ : Type} [DecidableEq τ]

theorem seq_ok {a b : W} {n n' : Nat} {x : Text} (h : a.seq b n = .ok (some (x, n'))) :
    ∃ x1 m x2, a n = .ok (some (x1, m)) ∧ b m = .ok (some (x2, n')) ∧ x = x1 ++ x2 := by
  unfold W.seq at h
  split at h <;> try cases h
  rename_i y m hy
  split at h <;> try cases h
  rename_i z hz
  exact ⟨y, m, z, hy, hz, rfl⟩

/-- The case for a field of a struct begins with the literal of its name (decoders). -/
theorem decoder_case (ty : Types τ) (eng : Engine) (o : Opts) (cur : τ) (f : Nat) (d : Field τ) (n n' : Nat) (x : Text)
    (h : decField ty eng o cur f d n = .ok (some (x, n'))) :
    ∃ y, x = "    case ".toList ++ ('"' :: (d.name ++ '"' :: ':' :: '\n' :: y)) := by
  obtain ⟨x1, m, x2, h1, h2, rfl⟩ := seq_ok h
  cases h1
  exact ⟨x2, by simp [quoted]⟩

/-- The name for a field of a struct is inserted as its literal, in a block of its own (encoders). -/
theorem encoder_name (ty : Types τ) (eng : Engine) (o : Opts) (cur : τ) (f : Nat) (d : Field τ) (n n' : Nat) (x : Text)
    (h : encField ty eng o cur f d n = .ok (some (x, n'))) :
    ∃ c y, x = c ++ ("{\n    out.InsertString(".toList ++ ('"' :: (d.name ++ '"' :: ')' :: '\n' :: y))) := by
  obtain ⟨x1, m, x2, h1, h2, rfl⟩ := seq_ok h
  obtain ⟨x3, m', x4, h3, h4, rfl⟩ := seq_ok h2
  cases h3
  split at h1
  · cases h1
    exact ⟨"  ".toList, x4, by simp [quoted]⟩
  · cases h1
    exact ⟨"  if ".toList ++ (notEmptyCheck ty d.type (Place.field "in".toList d.goName).text ++ [' ']), x4,
      by simp [quoted]⟩

end

/-! ### C72 -/

/-- The suffixes in decoder.go and encoder.go. -/
def Suffix (s : Text) : Prop := s ∈ [[], "SeqState".toList, "MapState".toList, "Key".toList, "Value".toList]

/-- The name for the counter `n`. -/
def varName (s : Text) (n : Nat) : Text := "v".toList ++ number n ++ s

theorem fresh_name (s : Text) (k : Text → W) (n : Nat) : fresh s k n = k (varName s (n + 1)) (n + 1) := rfl

theorem Suffix.start {s : Text} (h : Suffix s) : ∀ c r, s = c :: r → c.isDigit = false := by
  intro c r e
  simp only [Suffix, List.mem_cons, List.not_mem_nil, or_false] at h
  have key : ∀ l : Text, l = c :: r → l.head?.map Char.isDigit = some false → c.isDigit = false := by
    rintro l rfl h
    simpa using h
  rcases h with rfl | rfl | rfl | rfl | rfl
  · cases e
  · exact key _ e (by decide +kernel)
  · exact key _ e (by decide +kernel)
  · exact key _ e (by decide +kernel)
  · exact key _ e (by decide +kernel)

/-- C72: other numbers or other suffixes give other names. -/
theorem names_differ (s s' : Text) (n m : Nat) (h : Suffix s) (h' : Suffix s') (e : varName s n = varName s' m) :
    n = m ∧ s = s' := by
  unfold varName at e
  simp only [List.append_assoc] at e
  exact number_inj (List.append_cancel_left e) h.start h'.start

/-- C72: they are names of Go. -/
theorem name_ident (s : Text) (n : Nat) (h : Suffix s) : Ident (varName s n) := by
  refine ⟨⟨'v', number n ++ s, by simp [varName], by decide⟩, fun c hc => .inl ?_⟩
  simp only [varName, List.mem_append] at hc
  rcases hc with (hc | hc) | hc
  · revert c; decide +kernel
  · have : c.isDigit = true := Nat.isDigit_of_mem_toDigits (by decide) (by decide) hc
    simp [Char.isAlphanum, this]
  · simp only [Suffix, List.mem_cons, List.not_mem_nil, or_false] at h
    rcases h with rfl | rfl | rfl | rfl | rfl
    · cases hc
    all_goals revert c; decide +kernel

/-- The names which generated functions declare without the counter. -/
def fixedNames : List Text := ["in".toList, "out".toList, "v".toList, "key".toList, "structMappingState".toList, "zeroValue".toList, "m".toList,
  "ok".toList, "extIn".toList]

/-- C72: none of the fixed names is picked. -/
theorem name_not_fixed (s : Text) (n : Nat) : varName s n ∉ fixedNames := by
  intro h
  have hd : ∀ c, (varName s n)[1]? = some c → c.isDigit = true := by
    intro c hc
    have hn : number n ≠ [] := Nat.toDigits_ne_nil
    cases hl : number n with
    | nil => exact absurd hl hn
    | cons d r =>
      have : varName s n = 'v' :: d :: (r ++ s) := by simp [varName, hl]
      rw [this] at hc
      have hcd : d = c := by simpa using hc
      subst hcd
      exact Nat.isDigit_of_mem_toDigits (b := 10) (n := n) (by decide) (by decide)
        (show d ∈ number n by rw [hl]; simp)
  have hl : 2 ≤ (varName s n).length := by
    have : 0 < (number n).length := List.length_pos_iff.2 Nat.toDigits_ne_nil
    simp only [varName, List.length_append]
    have : "v".toList.length = 1 := by decide +kernel
    omega
  have key : ∀ x ∈ fixedNames, x.length < 2 ∨ ∃ c, x[1]? = some c ∧ c.isDigit = false := by
    have : ∀ x ∈ fixedNames, x.length < 2 ∨ (x[1]?.map Char.isDigit) = some false := by decide +kernel
    intro x hx
    rcases this x hx with h | h
    · exact .inl h
    · obtain ⟨c, h1, h2⟩ := Option.map_eq_some_iff.1 h
      exact .inr ⟨c, h1, h2⟩
  rcases key _ h with h | ⟨c, h1, h2⟩
  · omega
  · rw [hd c h1] at h2
    cases h2

section

variable {τ : Type} [DecidableEq τ]

/-- C72 through the bodies of decoders: a name picked before the code for a value is written is not picked after it. -/
theorem decoder_names_kept (ty : Types τ) (eng : Engine) (o : Opts) (cur : τ) (f : Nat) (t : τ) (p : Place) (om : Bool)
    (indent : Nat) (elem : Bool) (n n' : Nat) (x : Text)
    (h : decBody ty eng o cur f t p om indent elem n = .ok (some (x, n'))) (s s' : Text) (hs : Suffix s) (hs' : Suffix s')
    (k k' : Nat) (hk : k ≤ n) (hk' : n' < k') : varName s k ≠ varName s' k' := by
  intro e
  have := (dec_grows ty eng o cur f t p om indent elem).1.run _ _ _ h
  have := (names_differ s s' k k' hs hs' e).1
  omega

/-- C72 through the bodies of encoders. -/
theorem encoder_names_kept (ty : Types τ) (eng : Engine) (o : Opts) (cur : τ) (f : Nat) (t : τ) (p : Place) (om : Bool)
    (indent : Nat) (nul : Bool) (n n' : Nat) (x : Text)
    (h : encBody ty eng o cur f t p om indent nul n = .ok (some (x, n'))) (s s' : Text) (hs : Suffix s) (hs' : Suffix s')
    (k k' : Nat) (hk : k ≤ n) (hk' : n' < k') : varName s k ≠ varName s' k' := by
  intro e
  have := (enc_grows ty eng o cur f t p om indent nul).1.run _ _ _ h
  have := (names_differ s s' k k' hs hs' e).1
  omega

end

/-- `v12Key`, `v1`: without the rule for suffixes, `v1` with the suffix `2` would be `v12`. -/
example : varName "Key".toList 12 = "v12Key".toList ∧ varName ['2'] 1 = varName [] 12 := by decide +kernel

end Verif.Props.GenText
