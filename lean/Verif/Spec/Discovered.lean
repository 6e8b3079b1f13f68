import Verif.Model.GenTypes

/-!
Which types need functions: the target and, transitively, the struct types met in the fields or elements of those types, where
types that bring their own methods are not looked into.
-/

namespace Verif.Discovered

open Verif.GenFields Verif.GenTypes

variable {τ : Type}

/-- The type is looked into: it does not have methods of its own (or it is the type `cur` functions are generated for) and it
is not the time type. -/
def Open (ty : Types τ) (d : Dir) (cur t : τ) : Prop := (t = cur ∨ ty.leaf d t = false) ∧ ty.time t = false

/-- `e` is a part of the type `t` (which is not a struct): its element or key or what it points to; strings of bytes have no
parts. -/
inductive Part (ty : Types τ) : τ → τ → Prop
  | slice {t e} : ty.kind t = .slice e → ty.kind e ≠ .basic true → Part ty e t
  | array {t n e} : ty.kind t = .array n e → ty.kind e ≠ .basic true → Part ty e t
  | pointer {t e} : ty.kind t = .pointer e → Part ty e t
  | key {t k e} : ty.kind t = .map k e → Part ty k t
  | value {t k e} : ty.kind t = .map k e → Part ty e t

/-- A value of type `t` contains values of the struct type `u`, to be handled by functions for `u`. -/
inductive Mentions (ty : Types τ) (d : Dir) (cur : τ) : τ → τ → Prop
  | here {t fs} : Open ty d cur t → ty.kind t = .struct fs → Mentions ty d cur t t
  | part {t e u} : Open ty d cur t → Part ty e t → Mentions ty d cur e u → Mentions ty d cur t u

/-- The functions for `t` call the functions for `u`. -/
inductive Calls (o : Opts) (ty : Types τ) (t u : τ) : Prop
  | field {fs fuel out f d} : ty.kind t = .struct fs → getStructFields o ty.kind fuel t = .ok (some out) → f ∈ out →
      (parseTags f.tag).omitField = false → Mentions ty d t f.type u → Calls o ty t u
  | direct {d} : (∀ fs, ty.kind t ≠ .struct fs) → Mentions ty d t t u → Calls o ty t u

/-- The types to generate functions for. -/
inductive Discovered (o : Opts) (ty : Types τ) (target : τ) : τ → Prop
  | target : Discovered o ty target target
  | call {t u} : Discovered o ty target t → Calls o ty t u → Discovered o ty target u

end Verif.Discovered
