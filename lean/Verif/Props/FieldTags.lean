import Verif.Lemmas.FieldTags

/-!
C55: struct tags; C56: the fields which have a place in the document.
-/

namespace Verif.Props.FieldTags

open Verif.GenFields Verif.FieldTags Verif.Selector

variable {τ : Type}

/-! ### C55 -/

/-- Every tag is a name followed by options; it is understood as written: the name, the options `omitempty` and `inline`, and
the lone dash, which omits the field. -/
theorem tags_understood (tag : List Char) : ∃ name options, Says tag name options ∧
    (parseTags tag).name = name ∧
    ((parseTags tag).omitempty = true ↔ "omitempty".toList ∈ options) ∧
    ((parseTags tag).inline = true ↔ "inline".toList ∈ options) ∧
    ((parseTags tag).omitField = true ↔ tag = ['-']) := by
  obtain ⟨name, options, h⟩ := says_exists tag
  refine ⟨name, options, h, ?_⟩
  rw [h.tags]
  simp only [decide_eq_true_eq, true_and, h.text]
  constructor
  · rintro ⟨rfl, rfl⟩; rfl
  · intro he
    cases options with
    | nil => simpa using he
    | cons a os =>
      cases name with
      | nil => simp at he
      | cons c n => cases n <;> simp at he

/-- There is only one way to understand a tag. -/
theorem tags_unique (tag : List Char) (n n' : List Char) (os os' : List (List Char)) (h : Says tag n os) (h' : Says tag n' os') :
    n = n' ∧ os = os' := by
  have h1 := splitComma_says os n h.name h.options
  have h2 := splitComma_says os' n' h'.name h'.options
  rw [← h.text] at h1
  rw [← h'.text] at h2
  rw [h1] at h2
  simpa using h2

/-- `yaml:"-,omitempty"` gives the field the name `-`, `yaml:"-"` omits it. -/
example : Says "-,omitempty".toList ['-'] ["omitempty".toList] ∧ parseTags "-,omitempty".toList = ⟨['-'], false, true, false⟩ ∧
    parseTags ['-'] = ⟨['-'], true, false, false⟩ :=
  ⟨⟨by decide +kernel, by decide +kernel, by decide +kernel⟩, by decide +kernel, by decide +kernel⟩

/-! ### C56 -/

/-- Nothing but the fields of the struct is in the list (names in Go have no dots). -/
theorem only_listed (o : Opts) (desc : τ → Kind τ) (hdot : ∀ t fs f, desc t = .struct fs → f ∈ fs → '.' ∉ f.name) (fuel : Nat)
    (t : τ) (out : List (Field τ)) (h : getStructFields o desc fuel t = .ok (some out)) (f : Field τ) (hf : f ∈ out) :
    Listed o desc t f := by
  induction fuel generalizing t out f with
  | zero => simp [getStructFields] at h
  | succ fuel ih =>
    obtain ⟨fs, embedded, kept, hd, he, rfl, hk, hkb⟩ := getStructFields_spec
      (fun l => ∀ f ∈ l, Listed o desc t f) (by simp)
      (fun a b ha hb f hf => (mem_merge.1 hf).elim (hb f) (fun h => ha f h.1))
      (fun fs hd e he hi gs hgs g hg => by
        cases fuel with
        | zero => simp [getStructFields] at hgs
        | succ fuel =>
          obtain ⟨gs0, hs, -, -⟩ := getStructFields_collects hgs
          exact .inner hd he (spread_iff.1 hi) hs (ih _ gs hgs g hg)) h
    rcases mem_merge.1 hf with hf | ⟨hf, _⟩
    · rcases List.mem_append.1 hf with hf | hf
      · obtain ⟨hm, hi⟩ := List.mem_filter.1 (hk.subset hf)
        have hu : o.upper f.name = true := by
          have := (hkb f hf).2
          simp only [keepBasic, Bool.or_eq_true, List.contains_eq_mem, decide_eq_true_eq] at this
          exact this.resolve_left (hdot t fs f hd hm)
        refine .leaf hd hm (spread_iff.1 hi) (fun gs hg => ?_) hu
        have := (hkb f hf).1
        rw [hg] at this
        cases this
      · obtain ⟨hm, hi⟩ := List.mem_filter.1 hf
        simp only [Bool.and_eq_true, Bool.not_eq_true'] at hi
        exact .own hd hm (fun hs => by rw [spread_iff.2 hs] at hi; cases hi.1) hi.2
    · exact he f hf

/-- Every field of the struct has a field of its name in the list, if the fields to be spread are structs (or pointers to
structs) or have basic types.  Missing for the property: other fields to be spread (`spread_slice_lost`). -/
theorem all_listed_partial (o : Opts) (desc : τ → Kind τ)
    (hspread : ∀ t fs f, desc t = .struct fs → f ∈ fs → Spread o.inlineEmbedded f →
      (∃ gs, desc (deref desc f.type) = .struct gs) ∨ basicKind (desc (deref desc f.type)) = true) (fuel : Nat)
    (t : τ) (out : List (Field τ)) (h : getStructFields o desc fuel t = .ok (some out)) (f : Field τ) (hf : Listed o desc t f) :
    ∃ g ∈ out, g.name = f.name := by
  induction hf generalizing fuel out with
  | own hd hm hs hu =>
    cases fuel with
    | zero => simp [getStructFields] at h
    | succ fuel =>
      obtain ⟨fs, hd', h1, h2⟩ := getStructFields_collects h
      rw [hd] at hd'; cases hd'
      refine ⟨_, h1 _ hm ?_ hu, rfl⟩
      rw [← Bool.not_eq_true]
      exact fun hi => hs (spread_iff.1 hi)
  | leaf hd hm hs hn hu =>
    cases fuel with
    | zero => simp [getStructFields] at h
    | succ fuel =>
      obtain ⟨fs, hd', h1, h2⟩ := getStructFields_collects h
      rw [hd] at hd'; cases hd'
      rcases hspread _ _ _ hd hm hs with ⟨gs, hg⟩ | hb
      · exact absurd hg (hn gs)
      · exact ⟨_, (h2 _ hm (spread_iff.2 hs)).2 hb (by simp [keepBasic, hu]), rfl⟩
  | inner hd hm hs hg _ ih =>
    cases fuel with
    | zero => simp [getStructFields] at h
    | succ fuel =>
      obtain ⟨fs, hd', h1, h2⟩ := getStructFields_collects h
      rw [hd] at hd'; cases hd'
      obtain ⟨gs, g1, g2⟩ := (h2 _ hm (spread_iff.2 hs)).1 _ hg
      obtain ⟨g, hgm, he⟩ := ih _ _ g1
      obtain ⟨k, hk, hke⟩ := g2 g hgm
      exact ⟨k, hk, hke.trans he⟩

/-- Options of the examples. -/
def opts : Opts := { inlineEmbedded := true, upper := fun n => match n with | c :: _ => c.isUpper | [] => false }

def field (name : Char) (type : Nat) (anonymous : Bool := false) (tag : List Char := []) : Field Nat := ⟨[name], anonymous, type, tag⟩

/-- `type A struct { X int; y int }`, `type N int`, `type T struct { *A; N; Z string; w int }`. -/
def spreading : Nat → Kind Nat
  | 1 => .struct [field 'X' 0, field 'y' 0]
  | 2 => .pointer 1
  | 3 => .struct [field 'A' 2 true, field 'N' 4 true, field 'Z' 5, field 'w' 0]
  | _ => .basic false

/-- the hypotheses are met: `T` has the fields `N`, `Z` and `X` -/
example : getStructFields opts spreading 5 3 = .ok (some [field 'N' 4 true, field 'Z' 5, field 'X' 0]) ∧
    Listed opts spreading 3 (field 'X' 0) := by
  refine ⟨by decide +kernel, ?_⟩
  refine .inner (e := field 'A' 2 true) (gs := [field 'X' 0, field 'y' 0]) rfl (by simp) ?_ rfl (.own rfl (by simp) ?_ ?_)
  · exact ⟨[], [], ⟨rfl, by simp, by simp⟩, .inl ⟨rfl, rfl, rfl⟩⟩
  · rw [← spread_iff]; decide +kernel
  · decide +kernel

/-- `type L []int`, `type T struct { L }` (with embedded fields inlined). -/
def slices : Nat → Kind Nat
  | 1 => .slice 0
  | 2 => .struct [field 'L' 1 true]
  | _ => .basic false

/-- The property fails for them: the exported field `L` has no place in the document, its content is lost silently. -/
theorem spread_slice_lost : Listed opts slices 2 (field 'L' 1 true) ∧ getStructFields opts slices 5 2 = .ok (some []) := by
  refine ⟨.leaf (fs := [field 'L' 1 true]) rfl (by simp) ?_ ?_ ?_, by decide +kernel⟩
  · exact ⟨[], [], ⟨rfl, by simp, by simp⟩, .inl ⟨rfl, rfl, rfl⟩⟩
  · intro gs h
    have : slices (deref slices (field 'L' 1 true).type) = .slice 0 := rfl
    rw [this] at h
    cases h
  · decide +kernel

end Verif.Props.FieldTags
