import Verif.Lemmas.GenFields

/-!
C38: the list of the fields of a struct; C49: the fields the generated code refers to.
-/

set_option linter.unusedSimpArgs false

namespace Verif.Props.GenFields

open Verif.GenFields Verif.Selector

variable {τ : Type}

/-! ### C38 -/

/-- In the list of fields each (Go) name occurs once. -/
theorem names_distinct (o : Opts) (desc : τ → Kind τ) (hw : WellTyped desc) (fuel : Nat) (t : τ) (out : List (Field τ))
    (h : getStructFields o desc fuel t = .ok (some out)) : (out.map Field.name).Nodup := by
  induction fuel generalizing t out with
  | zero => simp [getStructFields] at h
  | succ fuel ih =>
    obtain ⟨fs, embedded, kept, hd, he, rfl, hk, _⟩ := getStructFields_spec (fun l => (l.map Field.name).Nodup) (by simp)
      (fun a b => nodup_merge) (fun fs _ f _ _ gs hgs => ih _ gs hgs) h
    exact nodup_merge he (declared_nodup (hw t fs hd) hk)

/-- An exported field declared in the struct and not inlined is in the list, and no other field of its name is.
Missing for the property: an inlined field loses against a field of its own name in the struct it inlines
(`inlined_field_loses`). -/
theorem declared_wins_partial (o : Opts) (desc : τ → Kind τ) (hw : WellTyped desc) (fuel : Nat) (t : τ)
    (out : List (Field τ)) (h : getStructFields o desc fuel t = .ok (some out)) (fs : List (Field τ))
    (hd : desc t = .struct fs) (f : Field τ) (hf : f ∈ fs) (hi : inlined o f = false) (hu : o.upper f.name = true) :
    f ∈ out ∧ ∀ g ∈ out, g.name = f.name → g = f := by
  have hn := names_distinct o desc hw fuel t out h
  obtain ⟨fs', embedded, kept, hd', -, rfl, -, -⟩ := getStructFields_spec (fun _ => True) trivial
    (fun _ _ _ _ => trivial) (fun _ _ _ _ _ _ _ => trivial) h
  rw [hd] at hd'
  cases hd'
  have hm : f ∈ merge embedded (kept ++ ownFields o fs) :=
    mem_merge.2 (.inl (List.mem_append.2 (.inr (List.mem_filter.2 ⟨hf, by simp [hi, hu]⟩))))
  exact ⟨hm, fun g hg he => (name_inj hn hm hg he).symm⟩

/-- Options of the examples. -/
def opts : Opts := { inlineEmbedded := true, upper := fun n => match n with | c :: _ => c.isUpper | [] => false }

def field (name : Char) (type : Nat) (anonymous : Bool := false) (tag : List Char := []) : Field Nat := ⟨[name], anonymous, type, tag⟩

/-- `type A struct { X int; Y int }`, `type T struct { A; X string }` -/
def shadowing : Nat → Kind Nat
  | 0 => .basic false
  | 1 => .struct [field 'X' 0, field 'Y' 0]
  | 2 => .struct [field 'A' 1 true, field 'X' 3]
  | _ => .basic false

/-- the hypotheses are met: `T` has the fields `X` (its own) and `Y` -/
example : getStructFields opts shadowing 5 2 = .ok (some [field 'X' 3, field 'Y' 0]) := by decide +kernel

/-- `type E struct { E int }`, `type T struct { E }`. -/
def sameName : Nat → Kind Nat
  | 1 => .struct [field 'E' 0]
  | 2 => .struct [field 'E' 1 true]
  | _ => .basic false

/-- The property fails for inlined fields: `T` declares `E`, but the list has the field `E` of the struct `E`. -/
theorem inlined_field_loses : WellTyped sameName ∧ ∃ fs f g, sameName 2 = .struct fs ∧ f ∈ fs ∧
    getStructFields opts sameName 5 2 = .ok (some [g]) ∧ g.name = f.name ∧ g ≠ f := by
  refine ⟨?_, _, field 'E' 1 true, field 'E' 0, rfl, by simp, by decide +kernel, by decide +kernel, by decide +kernel⟩
  intro t fs h
  match t with
  | 0 => simp [sameName] at h
  | 1 => simp [sameName] at h; subst h; simp
  | 2 => simp [sameName] at h; subst h; simp
  | n + 3 => simp [sameName] at h

/-- `type T struct { A int; B int `yaml:"A"` }`. -/
def sameTag : Nat → Kind Nat
  | 1 => .struct [field 'A' 0, field 'B' 0 false ['A']]
  | _ => .basic false

/-- The property fails for the names in the document: two fields may have the same one (the generated `switch` then has a
duplicate case). -/
theorem yaml_names_collide : WellTyped sameTag ∧ ∃ out, getStructFields opts sameTag 5 1 = .ok (some out) ∧
    (∀ f ∈ out, (parseTags f.tag).omitField = false) ∧ ¬ (out.map Field.yamlName).Nodup := by
  refine ⟨?_, [field 'A' 0, field 'B' 0 false ['A']], by decide +kernel, by decide +kernel, by decide +kernel⟩
  intro t fs h
  match t with
  | 0 => simp [sameTag] at h
  | 1 => simp [sameTag] at h; subst h; decide +kernel
  | n + 2 => simp [sameTag] at h

/-- One struct type inlined in another. -/
def Inlines (o : Opts) (desc : τ → Kind τ) (e t : τ) : Prop :=
  ∃ fs f, desc t = .struct fs ∧ f ∈ fs ∧ inlined o f = true ∧ e = deref desc f.type

theorem firstLoop_conv {o : Opts} {desc : τ → Kind τ} {call : Nat → τ → Res (Option (List (Field τ)))} :
    ∀ (fs : List (Field τ)), (∀ f ∈ fs, inlined o f = true → ∃ r, Conv (fun n => call n (deref desc f.type)) r) →
      ∀ embedded fields, ∃ r, Conv (fun n => firstLoop o desc (call n) fs embedded fields) r
  | [], _, embedded, fields => ⟨_, Conv.pure _⟩
  | f :: fs, h, embedded, fields => by
    have hrec := firstLoop_conv (o := o) (desc := desc) (call := call) fs (fun g hg => h g (by simp [hg]))
    cases hi : inlined o f with
    | false =>
      obtain ⟨r, hr⟩ := hrec embedded fields
      exact ⟨r, Conv.congr (fun n => by rw [firstLoop, hi, if_pos rfl]) hr⟩
    | true =>
      have hbasic : ∀ k : Kind τ, (∀ n, firstLoop o desc (call n) (f :: fs) embedded fields =
            if basicKind k && keepBasic o f then firstLoop o desc (call n) fs embedded (fields ++ [f])
            else firstLoop o desc (call n) fs embedded fields) →
          ∃ r, Conv (fun n => firstLoop o desc (call n) (f :: fs) embedded fields) r := by
        intro k hk
        by_cases hb : (basicKind k && keepBasic o f) = true
        · obtain ⟨r, hr⟩ := hrec embedded (fields ++ [f])
          exact ⟨r, Conv.congr (fun n => by rw [hk n, if_pos hb]) hr⟩
        · obtain ⟨r, hr⟩ := hrec embedded fields
          exact ⟨r, Conv.congr (fun n => by rw [hk n, if_neg hb]) hr⟩
      cases hk : desc (deref desc f.type) with
      | struct gs0 =>
        obtain ⟨x, a, ha⟩ := h f (by simp) hi
        cases x with
        | none => exact ⟨none, a, fun n hn => by simp only [firstLoop, hi, hk, ha n hn]; rfl⟩
        | some gs =>
          obtain ⟨r, b, hb⟩ := hrec (merge embedded gs) fields
          refine ⟨r, max a b, fun n hn => ?_⟩
          simp only [firstLoop, hi, hk, ha n (by omega)]
          exact hb n (by omega)
      | basic b => exact hbasic (.basic b) fun n => by simp only [firstLoop, hi, hk]; rfl
      | other b => exact hbasic (.other b) fun n => by simp only [firstLoop, hi, hk]; rfl
      | slice b => exact hbasic (.slice b) fun n => by simp only [firstLoop, hi, hk]; rfl
      | array b c => exact hbasic (.array b c) fun n => by simp only [firstLoop, hi, hk]; rfl
      | pointer b => exact hbasic (.pointer b) fun n => by simp only [firstLoop, hi, hk]; rfl
      | map b c => exact hbasic (.map b c) fun n => by simp only [firstLoop, hi, hk]; rfl
      | iface b => exact hbasic (.iface b) fun n => by simp only [firstLoop, hi, hk]; rfl

/-- The list is found for every struct which does not inline itself.  Missing for the property: structs with an embedded
pointer to themselves (`inlined_in_itself_diverges`). -/
theorem fields_found_partial (o : Opts) (desc : τ → Kind τ) (t : τ) (h : Acc (Inlines o desc) t) :
    ∃ r, Conv (fun fuel => getStructFields o desc fuel t) r := by
  induction h with
  | intro t _ ih =>
    cases hk : desc t with
    | struct fs =>
      obtain ⟨x, hx⟩ := firstLoop_conv (o := o) (desc := desc) (call := fun n => getStructFields o desc n) fs
        (fun f hf hi => ih _ ⟨fs, f, hk, hf, hi, rfl⟩) [] []
      obtain ⟨a, ha⟩ := hx
      cases x with
      | none =>
        refine ⟨none, a + 1, fun n hn => ?_⟩
        obtain ⟨m, rfl⟩ : ∃ m, n = m + 1 := ⟨n - 1, by omega⟩
        simp only [getStructFields, hk, ha m (by omega)]
      | some r =>
        refine ⟨some (merge r.1 (r.2 ++ ownFields o fs)), a + 1, fun n hn => ?_⟩
        obtain ⟨m, rfl⟩ : ∃ m, n = m + 1 := ⟨n - 1, by omega⟩
        simp only [getStructFields, hk, ha m (by omega)]
    | _ =>
      refine ⟨none, 1, fun n hn => ?_⟩
      obtain ⟨m, rfl⟩ : ∃ m, n = m + 1 := ⟨n - 1, by omega⟩
      simp only [getStructFields, hk]

/-- `type T struct { *T }`, a legal Go type. -/
def selfPointer : Nat → Kind Nat
  | 0 => .struct [field 'T' 1 true]
  | _ => .pointer 0

/-- For it the generator never ends (it exhausts the stack). -/
theorem inlined_in_itself_diverges : Diverges fun fuel => getStructFields opts selfPointer fuel 0 := by
  intro fuel
  induction fuel with
  | zero => rfl
  | succ fuel ih =>
    have : firstLoop opts selfPointer (getStructFields opts selfPointer fuel) [field 'T' 1 true] [] [] = .timeout := by
      have hi : inlined opts (field 'T' 1 true) = true := by decide +kernel
      have hd : deref selfPointer (field 'T' 1 true).type = 0 := rfl
      have ih' : getStructFields opts selfPointer fuel 0 = .timeout := ih
      unfold firstLoop
      rw [hi, hd, ih']
      rfl
    show getStructFields opts selfPointer (fuel + 1) 0 = .timeout
    unfold getStructFields
    simp only [selfPointer] at this ⊢
    rw [this]

/-! ### C49 -/

/-- Every field of the list is declared in the struct or promoted to it, if only embedded fields are inlined. -/
theorem fields_promoted (o : Opts) (desc : τ → Kind τ)
    (hin : ∀ t fs f, desc t = .struct fs → f ∈ fs → inlined o f = true → f.anonymous = true) (fuel : Nat) (t : τ)
    (out : List (Field τ)) (h : getStructFields o desc fuel t = .ok (some out)) (f : Field τ) (hf : f ∈ out) :
    ∃ path, At desc t path f := by
  induction fuel generalizing t out f with
  | zero => simp [getStructFields] at h
  | succ fuel ih =>
    obtain ⟨fs, embedded, kept, hd, he, rfl, hk, _⟩ := getStructFields_spec
      (fun l => ∀ f ∈ l, ∃ path, At desc t path f) (by simp)
      (fun a b ha hb f hf => (mem_merge.1 hf).elim (hb f) (fun h => ha f h.1))
      (fun fs hd e he hi gs hgs g hg => by
        obtain ⟨path, hp⟩ := ih _ gs hgs g hg
        exact ⟨_, .promoted hd he (hin t fs e hd he hi) hp⟩) h
    rcases mem_merge.1 hf with hf | ⟨hf, _⟩
    · refine ⟨_, .here hd ?_⟩
      rcases List.mem_append.1 hf with hf | hf
      · exact (List.mem_filter.1 (hk.subset hf)).1
      · exact (List.mem_filter.1 hf).1
    · exact he f hf

/-- If no name occurs twice among the fields of the struct and of the structs embedded in it, and only embedded fields are
inlined, then the selectors in the generated code denote the fields they are generated for.  Missing for the property: names
occurring twice (`wrong_field_selected`) and the option "inline" on named fields (`named_inline_not_selectable`). -/
theorem fields_denote_partial (o : Opts) (desc : τ → Kind τ)
    (hin : ∀ t fs f, desc t = .struct fs → f ∈ fs → inlined o f = true → f.anonymous = true) (fuel : Nat) (t : τ)
    (hone : ∀ p q f g, At desc t p f → At desc t q g → f.name = g.name → p = q ∧ f = g)
    (out : List (Field τ)) (h : getStructFields o desc fuel t = .ok (some out)) (f : Field τ) (hf : f ∈ out) :
    Denotes desc t f.name f := by
  obtain ⟨path, hp⟩ := fields_promoted o desc hin fuel t out h f hf
  refine ⟨path, hp, rfl, ?_⟩
  intro path' g hg hn _
  exact hone path' path g f hg hp hn

/-- `type A struct { X int }`, `type C struct { X string }`, `type B struct { C }`, `type T struct { A; B }`: the selector `X`
denotes the field of `A`, since that of `C` is deeper. -/
def depths : Nat → Kind Nat
  | 1 => .struct [field 'X' 10]
  | 2 => .struct [field 'X' 11]
  | 3 => .struct [field 'C' 2 true]
  | 4 => .struct [field 'A' 1 true, field 'B' 3 true]
  | _ => .basic false

/-- The property fails: the code is generated for the field of `C`. -/
theorem wrong_field_selected : getStructFields opts depths 9 4 = .ok (some [field 'X' 11]) ∧
    Denotes depths 4 ['X'] (field 'X' 10) ∧ ¬ Denotes depths 4 ['X'] (field 'X' 11) := by
  have h10 : ∀ n : Nat, 5 ≤ n → ∀ p f, ¬ At depths n p f := by
    intro n hn p f h
    have hd : depths n = .basic false := by
      match n, hn with
      | n + 5, _ => rfl
    cases h with
    | here h => rw [hd] at h; cases h
    | promoted h => rw [hd] at h; cases h
  have h1 : ∀ p f, At depths 1 p f → p = [['X']] ∧ f = field 'X' 10 := by
    intro p f h
    cases h with
    | here hd hf => simp [depths] at hd; subst hd; simp at hf; subst hf; exact ⟨rfl, rfl⟩
    | promoted hd he ha hp => simp [depths] at hd; subst hd; simp at he; subst he; simp [field] at ha
  have h2 : ∀ p f, At depths 2 p f → p = [['X']] ∧ f = field 'X' 11 := by
    intro p f h
    cases h with
    | here hd hf => simp [depths] at hd; subst hd; simp at hf; subst hf; exact ⟨rfl, rfl⟩
    | promoted hd he ha hp => simp [depths] at hd; subst hd; simp at he; subst he; simp [field] at ha
  have h3 : ∀ p f, At depths 3 p f → f.name = ['X'] → p = [['C'], ['X']] ∧ f = field 'X' 11 := by
    intro p f h hn
    cases h with
    | here hd hf => simp [depths] at hd; subst hd; simp at hf; subst hf; simp [field] at hn
    | promoted hd he ha hp =>
      simp [depths] at hd; subst hd; simp at he; subst he
      obtain ⟨rfl, rfl⟩ := h2 _ _ hp
      exact ⟨rfl, rfl⟩
  have h4 : ∀ p f, At depths 4 p f → f.name = ['X'] → (p = [['A'], ['X']] ∧ f = field 'X' 10) ∨ p.length = 3 := by
    intro p f h hn
    cases h with
    | here hd hf =>
      simp [depths] at hd; subst hd; simp at hf
      rcases hf with rfl | rfl <;> simp [field] at hn
    | promoted hd he ha hp =>
      simp [depths] at hd; subst hd; simp at he
      rcases he with rfl | rfl
      · obtain ⟨rfl, rfl⟩ := h1 _ _ hp
        exact .inl ⟨rfl, rfl⟩
      · obtain ⟨rfl, rfl⟩ := h3 _ _ hp hn
        exact .inr rfl
  have hA : At depths 4 [['A'], ['X']] (field 'X' 10) :=
    At.promoted (fs := [field 'A' 1 true, field 'B' 3 true]) (e := field 'A' 1 true) rfl (by simp) rfl
      (At.here (f := field 'X' 10) (fs := [field 'X' 10]) rfl (by simp))
  refine ⟨by decide +kernel, ⟨_, hA, rfl, ?_⟩, ?_⟩
  · intro p g hg hn hl
    rcases h4 p g hg hn with h | h
    · exact h
    · rw [h] at hl; simp at hl
  · rintro ⟨p, hp, -, hall⟩
    rcases h4 p _ hp rfl with h | h
    · exact absurd h.2 (by decide +kernel)
    · have := hall _ _ hA rfl (by rw [h]; simp)
      exact absurd this.2 (by decide +kernel)

/-- `type A struct { X int }`, `type T struct { F A `yaml:",inline"` }`. -/
def named : Nat → Kind Nat
  | 1 => .struct [field 'X' 0]
  | 2 => .struct [field 'F' 1 false ",inline".toList]
  | _ => .basic false

/-- The property fails: code is generated for a selector `X` of `T`, which has no such field. -/
theorem named_inline_not_selectable : getStructFields opts named 9 2 = .ok (some [field 'X' 0]) ∧
    ∀ f, ¬ Denotes named 2 ['X'] f := by
  refine ⟨by decide +kernel, ?_⟩
  rintro f ⟨p, hp, hn, -⟩
  cases hp with
  | here hd hf => simp [named] at hd; subst hd; simp at hf; subst hf; simp [field] at hn
  | promoted hd he ha hp => simp [named] at hd; subst hd; simp at he; subst he; simp [field] at ha

/-- `type A struct { X int; Y int }`, `type T struct { A; Z string }` meets the hypotheses of `fields_denote_partial`. -/
def plain : Nat → Kind Nat
  | 1 => .struct [field 'X' 0, field 'Y' 0]
  | 2 => .struct [field 'A' 1 true, field 'Z' 3]
  | _ => .basic false

example : getStructFields opts plain 9 2 = .ok (some [field 'Z' 3, field 'X' 0, field 'Y' 0]) ∧
    Denotes plain 2 ['X'] (field 'X' 0) := by
  have h0 : getStructFields opts plain 9 2 = .ok (some [field 'Z' 3, field 'X' 0, field 'Y' 0]) := by decide +kernel
  refine ⟨h0, ?_⟩
  have hin : ∀ t fs f, plain t = .struct fs → f ∈ fs → inlined opts f = true → f.anonymous = true := by
    intro t fs f h hf hi
    match t with
    | 0 => simp [plain] at h
    | 1 =>
      simp [plain] at h; subst h
      simp at hf
      rcases hf with rfl | rfl
      · exact absurd hi (by decide +kernel)
      · exact absurd hi (by decide +kernel)
    | 2 =>
      simp [plain] at h; subst h
      simp at hf
      rcases hf with rfl | rfl
      · rfl
      · exact absurd hi (by decide +kernel)
    | n + 3 => simp [plain] at h
  have h1 : ∀ p f, At plain 1 p f → p = [f.name] ∧ (f = field 'X' 0 ∨ f = field 'Y' 0) := by
    intro p f h
    cases h with
    | here hd hf => simp [plain] at hd; subst hd; simp at hf; exact ⟨rfl, hf⟩
    | promoted hd he ha hp =>
      simp [plain] at hd; subst hd; simp at he
      rcases he with rfl | rfl <;> simp [field] at ha
  have h2 : ∀ p f, At plain 2 p f → (p = [f.name] ∧ (f = field 'A' 1 true ∨ f = field 'Z' 3)) ∨
      (p = [['A'], f.name] ∧ (f = field 'X' 0 ∨ f = field 'Y' 0)) := by
    intro p f h
    cases h with
    | here hd hf => simp [plain] at hd; subst hd; simp at hf; exact .inl ⟨rfl, hf⟩
    | promoted hd he ha hp =>
      simp [plain] at hd; subst hd; simp at he
      rcases he with rfl | rfl
      · obtain ⟨rfl, h⟩ := h1 _ _ hp
        exact .inr ⟨rfl, h⟩
      · simp [field] at ha
  refine fields_denote_partial opts plain hin 9 2 ?_ _ h0 (field 'X' 0) (by simp)
  intro p q f g hp hq hn
  rcases h2 p f hp with ⟨rfl, rfl | rfl⟩ | ⟨rfl, rfl | rfl⟩ <;> rcases h2 q g hq with ⟨rfl, rfl | rfl⟩ | ⟨rfl, rfl | rfl⟩ <;>
    simp [field] at hn ⊢

end Verif.Props.GenFields
