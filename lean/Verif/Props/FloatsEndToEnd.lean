import Verif.Props.Float32
import Verif.Props.EndToEnd

/-!
C39 with floats: the assumptions which the round trips of generated code make about the texts of floats hold for the texts of
`FromFloat` (engines/pkg/schema/schema.go:114-141).
-/

namespace Verif.Props.FloatsEndToEnd

open Verif.GenCode Verif.Float Verif.Props.Float Verif.Props.Float32 Verif.Props.GenCode Verif.Props.EndToEnd Verif.Parser
  Verif.Props.Parser Verif.Ieee

/-- The texts of all doubles, and of all singles for 32 bits, together with some strings. -/
def floatTexts {φ : Type} (R : Rounding φ) (mag : φ → ℚ) (strings : List Char → Prop) : Texts where
  string := strings
  float n t := ∃ v, t = fromFloat R v ∧ (n = 64 ∨ n = 32 ∧ ∀ x, v = .fin x → Single (mag x) ∧ mag x < 2 ^ 128)

/-- The readers convert floats by `ToFloat`, and generated code keeps what they return. -/
structure Reading {φ : Type} (R : Rounding φ) (toFloat : List Char → Nat → Bool) (L : Verif.GenCode.Lib) : Prop where
  reads : ∀ s b, toFloat s b = (Verif.Float.toFloat R s b).isSome
  keeps : ∀ s v, Verif.Float.toFloat R s 64 = some v → L.toFloat (some s) = fromFloat R v

/-- C39, C76, C77: floats are faithful. -/
theorem floats_faithful {φ : Type} {R : Rounding φ} {sign : φ → Bool} {mag : φ → ℚ} (hR : Contract R) (hN : Nearly R sign mag)
    {unquote : Bool} {toFloat : List Char → Nat → Bool} {L : Verif.GenCode.Lib} (hL : Reading R toFloat L)
    {strings : List Char → Prop} (hs : ∀ s, strings s → unquote = true → Schema.isNull s = false) :
    Faithful unquote toFloat (floatTexts R mag strings) L where
  string := hs
  float := by
    rintro n t ⟨v, rfl, hn⟩
    refine ⟨(text_is_float hR v).1, ?_, hL.keeps _ v (round_trip hR v)⟩
    rw [hL.reads]
    rcases hn with rfl | ⟨rfl, hx⟩
    · rw [round_trip hR]
      rfl
    · match v, hx with
      | .inf true, _ => rfl
      | .inf false, _ => rfl
      | .nan, _ => rfl
      | .fin x, hx =>
        obtain ⟨h1, h2⟩ := hx x rfl
        rw [single_round_trip hR hN h1 h2]
        rfl

/-- **C39 (partial)** with all floats: a collection at any depth with floats of both sizes among its parts is read from its text as it
was.  Missing: what is missing in `marshal_unmarshal_partial`. -/
theorem marshal_unmarshal_floats_partial {φ : Type} {R : Rounding φ} {sign : φ → Bool} {mag : φ → ℚ} (hR : Contract R)
    (hN : Nearly R sign mag) {lib : Generic.Lib} {L : Verif.GenCode.Lib} (hL : Reading R lib.toFloat L)
    {strings : List Char → Prop} (hp : ∀ s, strings s → PlainTree.Verbatim .double s) {P : Package} (hP : Legal L P)
    {t : Ty} {v z : Val} (ht : t.compound = true) (hn : v ≠ .nil) (hv : Fits (floatTexts R mag strings) L P t false v)
    (hf : Full L P t v) (hz : IsZero L P t z) :
    ∃ text, Marshals L P t v text ∧ ∀ pools, History pools → Unmarshals lib L P pools text t z v :=
  marshal_unmarshal_partial (floats_faithful hR hN hL (fun _ _ h => by cases h)) (fun s h => hp s h) hP ht hn hv hf hz

open Classical in
/-- Reading with the rounding of the example. -/
noncomputable def nearLib : Verif.GenCode.Lib where
  toFloat
    | some s => match Verif.Float.toFloat near s 64 with
      | some v => fromFloat near v
      | none => s
    | none => "0e+00".toList
  isZero t := t = "0e+00".toList
  unmarshalText t := (t, none)
  zeroText := []

example : Reading near (fun s b => (Verif.Float.toFloat near s b).isSome) nearLib :=
  ⟨fun _ _ => rfl, fun s v h => by simp [nearLib, h]⟩

/-- A list of floats of single precision fits. -/
example (P : Package) : Fits (floatTexts near (fun x => (x.1 : ℚ)) (fun _ => False)) nearLib P (.slice (.float 32)) false
    (.slice [.float (fromFloat near (.fin 5)), .float (fromFloat near (.inf true))]) :=
  .slice (by
    intro v hv
    simp only [List.mem_cons, List.not_mem_nil, or_false] at hv
    rcases hv with rfl | rfl
    · refine .float ⟨_, rfl, .inr ⟨rfl, ?_⟩⟩
      rintro x ⟨⟩
      exact ⟨digit_double 5, by norm_num⟩
    · exact .float ⟨_, rfl, .inr ⟨rfl, by rintro x ⟨⟩⟩⟩)

end Verif.Props.FloatsEndToEnd
