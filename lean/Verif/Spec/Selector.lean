import Verif.Model.GenFields

/-!
Which field a selector `x.name` denotes (The Go Programming Language Specification, "Selectors"): the one at the shallowest
depth, if there is exactly one there.
-/

namespace Verif.Selector

open Verif.GenFields

variable {τ : Type}

/-- The field `f` of the struct type `t` or promoted to it, and the names on the way: the depth is the number of the
embedded fields passed.  Fields are promoted through embedded structs and embedded pointers to structs. -/
inductive At (desc : τ → Kind τ) : τ → List (List Char) → Field τ → Prop
  | here {t fs f} : desc t = .struct fs → f ∈ fs → At desc t [f.name] f
  | promoted {t fs e path f} : desc t = .struct fs → e ∈ fs → e.anonymous = true → At desc (deref desc e.type) path f →
      At desc t (e.name :: path) f

/-- The selector `x.name` for `x` of type `t` denotes the field `f`. -/
def Denotes (desc : τ → Kind τ) (t : τ) (name : List Char) (f : Field τ) : Prop :=
  ∃ path, At desc t path f ∧ f.name = name ∧
    ∀ path' g, At desc t path' g → g.name = name → path'.length ≤ path.length → path' = path ∧ g = f

/-- As in Go, the names of the fields declared in a struct are distinct. -/
def WellTyped (desc : τ → Kind τ) : Prop := ∀ t fs, desc t = .struct fs → (fs.map Field.name).Nodup

end Verif.Selector
