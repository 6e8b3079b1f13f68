import Verif.Model.GenFields

/-!
What struct tags say (README.md:46-51, the format is that of `encoding/json`), and which fields a struct has in the document.
-/

namespace Verif.FieldTags

open Verif.GenFields

variable {τ : Type}

/-- The tag consists of a name and options, with commas between them. -/
structure Says (tag name : List Char) (options : List (List Char)) : Prop where
  text : tag = name ++ options.flatMap (fun o => ',' :: o)
  name : ',' ∉ name
  options : ∀ o ∈ options, ',' ∉ o

/-- A field whose own fields take its place: an embedded field without a name in its tag, or one with the option `inline`. -/
def Spread (inlineEmbedded : Bool) (f : Field τ) : Prop := ∃ name options, Says f.tag name options ∧
  ((f.anonymous = true ∧ inlineEmbedded = true ∧ name = []) ∨ "inline".toList ∈ options)

/-- Fields of a struct in the document: its exported fields; instead of those which are spread, the fields of their struct
types, or they themselves if they have no fields. -/
inductive Listed (o : Opts) (desc : τ → Kind τ) : τ → Field τ → Prop
  | own {t fs f} : desc t = .struct fs → f ∈ fs → ¬ Spread o.inlineEmbedded f → o.upper f.name = true → Listed o desc t f
  | leaf {t fs f} : desc t = .struct fs → f ∈ fs → Spread o.inlineEmbedded f →
      (∀ gs, desc (deref desc f.type) ≠ .struct gs) → o.upper f.name = true → Listed o desc t f
  | inner {t fs e gs f} : desc t = .struct fs → e ∈ fs → Spread o.inlineEmbedded e → desc (deref desc e.type) = .struct gs →
      Listed o desc (deref desc e.type) f → Listed o desc t f

end Verif.FieldTags
