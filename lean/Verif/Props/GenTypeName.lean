import Verif.Lemmas.GenTypeText

/-!
C73: the texts for types in generated code denote these types.
-/

set_option linter.unusedSimpArgs false

namespace Verif.Props.GenTypeName

open Verif.GoType Verif.GenNames Verif.GenTypeName
open Verif.GoText (Closed)
open Verif.Props.GenNames (Start start_ok)

/-- A history of types for which `extractTypeName` is called, with the texts. -/
inductive Texts (print : Char → Bool) (own : Text) : Imports → List (Ty × Text) → Imports → Prop
  | nil {m} : Texts print own m [] m
  | cons {m m' M f t x rs} : typeName print own f t m = some (x, m') → Texts print own m' rs M →
      Texts print own m ((t, x) :: rs) M

/-- The place of a text in the generated file, whose import clauses are those for the last state of the map; `resolve` gives
the package of an import path. -/
def place (own : Text) (resolve : Text → Text) (M : Imports) (declared hidden : Text → Prop) : Env where
  own := own
  imports a := ((importClauses M).lookup a).map resolve
  declared := declared
  hidden := hidden

theorem texts_table {print : Char → Bool} {own : Text} {m M : Imports} {rs} (h : Texts print own m rs M) (hm : Table m) :
    Table M ∧ (∀ i ∈ m, i ∈ M) := by
  induction h with
  | nil => exact ⟨hm, fun _ hi => hi⟩
  | cons h1 _ ih =>
    obtain ⟨h2, h3⟩ := typeName_table print own _ _ hm h1
    obtain ⟨h4, h5⟩ := ih h2
    exact ⟨h4, fun i hi => h5 i (h3 i hi)⟩

theorem texts_each {print : Char → Bool} {own : Text} {m M : Imports} {rs} (h : Texts print own m rs M) (hm : Table m) :
    ∀ r ∈ rs, ∃ f k k', Table k ∧ typeName print own f r.1 k = some (r.2, k') ∧ ∀ i ∈ k', i ∈ M := by
  induction h with
  | nil => simp
  | @cons m m' M f t x rs h1 h0 ih =>
    obtain ⟨h2, h3⟩ := typeName_table print own _ _ hm h1
    intro r hr
    rcases List.mem_cons.1 hr with rfl | hr
    · exact ⟨f, m, m', hm, h1, (texts_table h0 h2).2⟩
    · exact ih h2 r hr

theorem place_sees {own : Text} {resolve : Text → Text} {M : Imports} {declared hidden : Text → Prop} (hM : Table M) :
    Sees (place own resolve M declared hidden) resolve M := by
  intro p a h
  obtain ⟨h1, h2⟩ := Verif.Props.GenNames.clauses_ok hM.1
  have h3 : (importClauses M).lookup a = some p := mem_lookup h1 ((h2 p a).2 h)
  simp only [place, h3, Option.map_some]

theorem denotes {print : Char → Bool} (hp : print '\n' = false) {own : Text} {m M : Imports} {rs}
    (h : Texts print own m rs M) (hm : Table m) (resolve : Text → Text) (declared hidden : Text → Prop) {r : Ty × Text}
    (hr : r ∈ rs) (hw : Writable (place own resolve M declared hidden) resolve r.1) :
    TypeText (place own resolve M declared hidden) r.2 r.1 := by
  obtain ⟨f, k, k', hk, h1, hs⟩ := texts_each h hm r hr
  exact typeName_denotes hp (place own resolve M declared hidden) resolve f (place_sees (texts_table h hm).1) r.1 hk h1 hs hw

/-- C73 in part: the text for a type denotes this type and no other in the generated file, whatever types came before and come
after, if the type can be written: its packages are imported under names that can be used there, and the tags of its structs
have no carriage return, or a back quote. -/
theorem text_denotes_partial (print : Char → Bool) (hp : print '\n' = false) (own : Text) (m M : Imports) (hm : Start m)
    (rs : List (Ty × Text)) (h : Texts print own m rs M) (resolve : Text → Text) (declared hidden : Text → Prop) (t : Ty)
    (x : Text) (hr : (t, x) ∈ rs) (hw : Writable (place own resolve M declared hidden) resolve t) :
    TypeText (place own resolve M declared hidden) x t ∧
      ∀ u, TypeText (place own resolve M declared hidden) x u → u = t := by
  have h1 := denotes hp h (start_ok hm) resolve declared hidden hr hw
  exact ⟨h1, fun u hu => (type_unique hu h1 noHead_nil noHead_nil rfl).2.1⟩

/-- C73: the texts of two types which can be written are the same exactly if the types are. -/
theorem texts_differ (print : Char → Bool) (hp : print '\n' = false) (own : Text) (m M : Imports) (hm : Start m)
    (rs : List (Ty × Text)) (h : Texts print own m rs M) (resolve : Text → Text) (declared hidden : Text → Prop) (t u : Ty)
    (x y : Text) (hx : (t, x) ∈ rs) (hy : (u, y) ∈ rs) (ht : Writable (place own resolve M declared hidden) resolve t)
    (hu : Writable (place own resolve M declared hidden) resolve u) : x = y ↔ t = u := by
  constructor
  · rintro rfl
    exact (text_denotes_partial print hp own m M hm rs h resolve declared hidden u x hy hu).2 t
      (denotes hp h (start_ok hm) resolve declared hidden hx ht)
  · rintro rfl
    have hM := (texts_table h (start_ok hm)).1
    obtain ⟨f, k, k', hk, h1, hs⟩ := texts_each h (start_ok hm) _ hx
    obtain ⟨f', l, l', hl, h2, hs'⟩ := texts_each h (start_ok hm) _ hy
    have h3 := typeName_again print own f 0 hM t hk h1 hs
    have h4 := typeName_again print own f' 0 hM t hl h2 hs'
    rw [h3] at h4
    simpa using h4

/-- Every type gets a text: the search for aliases ends. -/
theorem text_found (print : Char → Bool) (own : Text) (t : Ty) (m : Imports) :
    ∃ f x m', typeName print own f t m = some (x, m') := by
  obtain ⟨f, ⟨x, m'⟩, h⟩ := typeName_total print own t m
  exact ⟨f, x, m', h⟩

/-- The brackets and literals of a text for a type are closed: what C69 asks of the names of types. -/
theorem text_closed (e : Env) (x : Text) (t : Ty) (h : TypeText e x t) : Closed x := (type_neutral h).closed

mutual

/-- The packages of a type other than the own one. -/
def packages (own : Text) : Ty → List Text
  | .named p _ => if p = [] ∨ p = own then [] else [p]
  | .pointer t => packages own t
  | .slice t => packages own t
  | .array _ t => packages own t
  | .map k t => packages own k ++ packages own t
  | .struct fs => fieldPackages own fs
  | .iface => []
  | .other _ => []

/-- The packages of the types of fields. -/
def fieldPackages (own : Text) : Fields → List Text
  | .nil => []
  | .cons _ _ _ t _ rest => packages own t ++ fieldPackages own rest

end

mutual

theorem typeName_names (print : Char → Bool) (own : Text) (f : Nat) : (t : Ty) → {m m' : Imports} → {x : Text} →
    (∀ i ∈ m, Name i.2) → (∀ p ∈ packages own t, BaseFine (pathBase (processVendoring p))) →
    typeName print own f t m = some (x, m') → ∀ i ∈ m', Name i.2
  | .pointer t, m, m', x, hm, hb, h => by
    simp only [typeName] at h
    simp only [packages] at hb
    split at h
    · exact absurd h (by simp)
    · rename_i y m1 h1
      simp only [Option.some.injEq, Prod.mk.injEq] at h
      rw [← h.2]
      exact typeName_names print own f t hm hb h1
  | .slice t, m, m', x, hm, hb, h => by
    simp only [typeName] at h
    simp only [packages] at hb
    split at h
    · exact absurd h (by simp)
    · rename_i y m1 h1
      simp only [Option.some.injEq, Prod.mk.injEq] at h
      rw [← h.2]
      exact typeName_names print own f t hm hb h1
  | .array n t, m, m', x, hm, hb, h => by
    simp only [typeName] at h
    simp only [packages] at hb
    split at h
    · exact absurd h (by simp)
    · rename_i y m1 h1
      simp only [Option.some.injEq, Prod.mk.injEq] at h
      rw [← h.2]
      exact typeName_names print own f t hm hb h1
  | .map k t, m, m', x, hm, hb, h => by
    simp only [typeName] at h
    simp only [packages, List.mem_append] at hb
    split at h
    · exact absurd h (by simp)
    · rename_i y m1 h1
      split at h
      · exact absurd h (by simp)
      · rename_i z m2 h2
        simp only [Option.some.injEq, Prod.mk.injEq] at h
        rw [← h.2]
        have a := typeName_names print own f k hm (fun p hp => hb p (.inl hp)) h1
        exact typeName_names print own f t a (fun p hp => hb p (.inr hp)) h2
  | .struct fs, m, m', x, hm, hb, h => by
    simp only [typeName] at h
    simp only [packages] at hb
    split at h
    · exact absurd h (by simp)
    · rename_i y m1 h1
      simp only [Option.some.injEq, Prod.mk.injEq] at h
      rw [← h.2]
      exact fieldLines_names print own f fs hm hb h1
  | .iface, m, m', x, hm, hb, h => by
    simp only [typeName, Option.some.injEq, Prod.mk.injEq] at h
    rw [← h.2]
    exact hm
  | .other s, m, m', x, hm, hb, h => by
    simp only [typeName, Option.some.injEq, Prod.mk.injEq] at h
    rw [← h.2]
    exact hm
  | .named p n, m, m', x, hm, hb, h => by
    simp only [typeName] at h
    simp only [packages] at hb
    split at h
    · simp only [Option.some.injEq, Prod.mk.injEq] at h
      rw [← h.2]
      exact hm
    rename_i h1
    split at h
    · simp only [Option.some.injEq, Prod.mk.injEq] at h
      rw [← h.2]
      exact hm
    rename_i h2
    rw [if_neg (by simp [h1, h2])] at hb
    split at h
    · exact absurd h (by simp)
    · rename_i a m1 h3
      simp only [Option.some.injEq, Prod.mk.injEq] at h
      rw [← h.2]
      exact pkgAlias_name h3 hm (hb p (by simp))

theorem fieldLines_names (print : Char → Bool) (own : Text) (f : Nat) : (fs : Fields) → {m m' : Imports} →
    {ls : List Text} → (∀ i ∈ m, Name i.2) → (∀ p ∈ fieldPackages own fs, BaseFine (pathBase (processVendoring p))) →
    fieldLines print own f fs m = some (ls, m') → ∀ i ∈ m', Name i.2
  | .nil, m, m', ls, hm, hb, h => by
    simp only [fieldLines, Option.some.injEq, Prod.mk.injEq] at h
    rw [← h.2]
    exact hm
  | .cons n p b t tag rest, m, m', ls, hm, hb, h => by
    simp only [fieldLines] at h
    simp only [fieldPackages, List.mem_append] at hb
    split at h
    · exact absurd h (by simp)
    · rename_i y m1 h1
      split at h
      · exact absurd h (by simp)
      · rename_i z m2 h2
        simp only [Option.some.injEq, Prod.mk.injEq] at h
        rw [← h.2]
        have a := typeName_names print own f t hm (fun p hp => hb p (.inl hp)) h1
        exact fieldLines_names print own f rest a (fun p hp => hb p (.inr hp)) h2

end

theorem start_names {m : Imports} (h : Start m) : ∀ i ∈ m, Name i.2 := by
  have h1 : ∀ l : Imports, (∀ i ∈ l, i.2.head?.map Char.isDigit = some false ∧ (∀ c ∈ i.2, c.isAlphanum = true ∨ c = '_') ∧
      i.2 ∉ keywords) → ∀ i ∈ l, Name i.2 := by
    intro l hl i hi
    obtain ⟨h2, h3, h4⟩ := hl i hi
    refine ⟨⟨?_, h3⟩, h4⟩
    cases hx : i.2 with
    | nil => rw [hx] at h2; simp at h2
    | cons c s => exact ⟨c, s, rfl, by rw [hx] at h2; simpa using h2⟩
  rcases h with rfl | rfl
  · exact h1 _ (by decide +kernel)
  · exact h1 _ (by decide +kernel)

/-- All aliases of the generated file are names of Go if the last elements of the package paths have only letters, digits,
underscores, periods and hyphens, do not begin with a digit and are no keywords. -/
theorem aliases_names (print : Char → Bool) (own : Text) (m M : Imports) (hm : Start m) (rs : List (Ty × Text))
    (h : Texts print own m rs M)
    (hb : ∀ r ∈ rs, ∀ p ∈ packages own r.1, BaseFine (pathBase (processVendoring p))) : ∀ i ∈ M, Name i.2 := by
  have h0 := start_names hm
  clear hm
  induction h with
  | nil => exact h0
  | cons h1 _ ih => exact ih (fun r hr => hb r (by simp [hr])) (typeName_names print own _ _ h0 (hb _ List.mem_cons_self) h1)

/-! ### examples -/

/-- the imports at the start of a run with the engine yayamls -/
abbrev start : Imports := initialImports yayamlsPackages

/-- `strconv.IsPrint` for ASCII -/
def ascii (c : Char) : Bool := 32 ≤ c.toNat && c.toNat < 127

def int : Ty := .named [] "int".toList

/-- `map[string]struct { A *q.T "yaml:\"a\""; U }` of package "p", where `q` is the package "x/q" and `U` is an own type -/
def sample : Ty := .map (.named [] "string".toList)
  (.struct (.cons ['A'] [] false (.pointer (.named "x/q".toList ['T'])) "yaml:\"a\"".toList
    (.cons ['U'] [] true (.named ['p'] ['U']) [] .nil)))

def sampleText : Text := "map[string]struct { A *q.T `yaml:\"a\"`; U }".toList

def sampleTable : Imports := ("x/q".toList, ['q']) :: start

theorem sample_text : typeName ascii ['p'] 10 sample start = some (sampleText, sampleTable) := by decide +kernel

theorem sample_writable : Writable (place ['p'] id sampleTable (· = ['U']) (fun _ => False)) id sample := by
  have hq : ∀ a, (place ['p'] id sampleTable (· = ['U']) (fun _ => False)).imports a = some "x/q".toList → a = ['q'] := by
    intro a h
    simp only [place, Option.map_id, id] at h
    have h1 := lookup_mem h
    have h2 : ∀ i ∈ importClauses sampleTable, i.2 = "x/q".toList → i.1 = ['q'] := by decide +kernel
    exact h2 _ h1 rfl
  have name1 : ∀ c : Char, c.isAlpha = true → [c] ∉ keywords → Name [c] := by
    intro c hc hk
    refine ⟨⟨⟨c, [], rfl, ?_⟩, ?_⟩, hk⟩
    · simp only [Char.isAlpha, Char.isUpper, Char.isLower, Bool.or_eq_true, Bool.and_eq_true, decide_eq_true_eq] at hc
      simp only [Char.isDigit, Bool.and_eq_false_iff, decide_eq_false_iff_not]
      right
      rcases hc with ⟨h, _⟩ | ⟨h, _⟩ <;> (simp only [UInt32.le_iff_toNat_le] at h ⊢; simp at h ⊢; omega)
    · intro d hd
      rw [List.mem_singleton.1 hd]
      left
      simp [Char.isAlphanum, hc]
  simp only [sample, Writable, WritableFields]
  refine ⟨?_, ⟨rfl, fun _ => name1 'A' (by decide) (by decide +kernel), by simp, .inr (by decide +kernel), ?_, ?_⟩⟩
  · rw [if_pos trivial]
    exact ⟨by decide +kernel, fun h => h, by decide +kernel,
      (by decide +kernel : ¬ ("string".toList = ['U']))⟩
  · rw [if_neg (by decide +kernel), if_neg (by decide +kernel)]
    refine ⟨name1 'T' (by decide) (by decide +kernel), by decide, by decide +kernel, ?_⟩
    intro a ha
    rw [hq a ha]
    exact ⟨name1 'q' (by decide) (by decide +kernel), fun h => h⟩
  · refine ⟨by decide, by simp, fun _ => rfl, .inr (by simp), ?_, trivial⟩
    rw [if_neg (by simp), if_pos (show ['p'] = (place ['p'] id sampleTable (· = ['U']) (fun _ => False)).own from rfl)]
    exact ⟨name1 'U' (by decide) (by decide +kernel), fun h => h, by decide +kernel, rfl⟩

/-- `text_denotes_partial` at work -/
example : TypeText (place ['p'] id sampleTable (· = ['U']) (fun _ => False)) sampleText sample :=
  (text_denotes_partial ascii (by decide) ['p'] start sampleTable (.inl rfl) [(sample, sampleText)]
    (.cons sample_text .nil) id (· = ['U']) (fun _ => False) sample sampleText (by simp) sample_writable).1

/-! ### where the text does not denote the type -/

/-- An environment with nothing declared or imported. -/
def bare (own : Text) : Env := ⟨own, fun _ => none, fun _ => False, fun _ => False⟩

theorem int_text (own : Text) : TypeText (bare own) "int".toList int :=
  .predeclared (by decide +kernel) (fun h => h) rfl (fun h => h)

theorem nameA : Name ['A'] := ⟨⟨⟨'A', [], rfl, by decide⟩, by decide⟩, by decide +kernel⟩

theorem namex : Name ['x'] := ⟨⟨⟨'x', [], rfl, by decide⟩, by decide⟩, by decide +kernel⟩

theorem not_denoted {e : Env} {x : Text} {t u : Ty} (h : TypeText e x u) (hne : u ≠ t) : ¬ TypeText e x t :=
  fun ht => hne (type_unique h ht noHead_nil noHead_nil rfl).2.1

/-- A carriage return in a tag (from a tag written as an interpreted literal) is lost: the text denotes a struct type with
another tag. -/
theorem tag_loses_return : ∃ t x, typeName ascii ['p'] 0 t start = some (x, start) ∧ ¬ TypeText (bare ['p']) x t := by
  refine ⟨.struct (.cons ['A'] [] false int ['\r', 'a'] .nil), "struct { A int `\ra` }".toList, by decide +kernel, ?_⟩
  have h : TypeText (bare ['p']) "struct { A int `\ra` }".toList (.struct (.cons ['A'] [] false int ['a'] .nil)) := by
    have h1 := FieldText.named (e := bare ['p']) gap_one nameA gap_one (by simp) (int_text ['p'])
      (.some gap_one (Str.raw (s := ['\r', 'a']) (by decide))) gap_one
    have h2 := TypeText.struct gap_one (FieldsText.last h1)
    exact h2
  exact not_denoted h (by simp)

/-- The name of an embedded field of the type `A = int` is lost: the text denotes a struct with the field `int`. -/
theorem embedded_alias_lost : ∃ t x, typeName ascii ['p'] 0 t start = some (x, start) ∧ ¬ TypeText (bare ['p']) x t := by
  refine ⟨.struct (.cons ['A'] [] true int [] .nil), "struct { int }".toList, by decide +kernel, ?_⟩
  have h : TypeText (bare ['p']) "struct { int }".toList (.struct (.cons "int".toList ['p'] true int [] .nil)) := by
    have h1 := FieldText.embedded (e := bare ['p']) gap_one (int_text ['p']) (n := "int".toList) rfl .none gap_one
    have h2 := TypeText.struct gap_one (FieldsText.last h1)
    exact h2
  exact not_denoted h (by simp)

/-- A field which is not exported, of a struct type without a name from another package, becomes one of the own package. -/
theorem foreign_field_lost : ∃ t x, typeName ascii ['p'] 0 t start = some (x, start) ∧ ¬ TypeText (bare ['p']) x t := by
  refine ⟨.struct (.cons ['x'] ['q'] false int [] .nil), "struct { x int }".toList, by decide +kernel, ?_⟩
  have h : TypeText (bare ['p']) "struct { x int }".toList (.struct (.cons ['x'] ['p'] false int [] .nil)) := by
    have h1 := FieldText.named (e := bare ['p']) gap_one namex gap_one (by simp) (int_text ['p']) .none gap_one
    have h2 := TypeText.struct gap_one (FieldsText.last h1)
    exact h2
  exact not_denoted h (by simp)

/-- A package whose path ends in a keyword gets the keyword as its alias: the text denotes no type in any file. -/
theorem keyword_alias : ∃ x m, typeName ascii ['p'] 1 (.named "x/go".toList ['T']) start = some (x, m) ∧
    ∀ e u, ¬ TypeText e x u := by
  refine ⟨"go.T".toList, ("x/go".toList, "go".toList) :: start, by decide +kernel, ?_⟩
  intro e u h
  obtain ⟨k, hv, hk⟩ := view h (r := []) noHead_nil
  have h6 : k = 6 := by rw [← hk]; decide +kernel
  generalize hz : "go.T".toList = z at hv
  cases hv with
  | @imported a p x h1 h2 h3 =>
    have h4 := span_eq (P := wordChar) (a := a) (b := "go".toList) (ident_word h1.1) (by decide +kernel)
      (noHead_cons (c := '.') (by decide)) (noHead_cons (c := '.') (cs := ['T']) (by decide)) hz.symm
    exact h1.2 (by rw [h4.1]; decide +kernel)
  | _ => omega

/-- A package whose path ends in the name of a predeclared type hides this type in the whole file. -/
theorem alias_hides : ∃ rs M, Texts ascii ['p'] start rs M ∧ (.named [] "string".toList, "string".toList) ∈ rs ∧
    ∀ resolve declared hidden, ¬ TypeText (place ['p'] resolve M declared hidden) "string".toList
      (.named [] "string".toList) := by
  refine ⟨[(.named [] "string".toList, "string".toList), (.named "x/string".toList ['T'], "string.T".toList)],
    ("x/string".toList, "string".toList) :: start, ?_, by simp, ?_⟩
  · exact .cons (f := 0) (m' := start) (by decide +kernel) (.cons (f := 1) (by decide +kernel) .nil)
  · intro resolve declared hidden h
    have h1 : (importClauses (("x/string".toList, "string".toList) :: start)).lookup "string".toList =
        some "x/string".toList := by decide +kernel
    have h3 : (place ['p'] resolve (("x/string".toList, "string".toList) :: start) declared hidden).imports "string".toList ≠
        none := by
      simp only [place, h1, Option.map_some]
      exact Option.some_ne_none _
    generalize place ['p'] resolve (("x/string".toList, "string".toList) :: start) declared hidden = e at h h3
    generalize hz : "string".toList = z at h
    generalize hu : Ty.named [] z = u at h
    cases h with
    | predeclared _ _ h2 _ => rw [← hz] at h2; exact h3 h2
    | own _ _ h2 _ => rw [← hz] at h2; exact h3 h2
    | imported h2 _ _ _ _ =>
      rename_i a p x _ _
      have : '.' ∈ "string".toList := by rw [hz]; simp
      exact absurd this (by decide +kernel)
    | _ => simp at hu

end Verif.Props.GenTypeName
