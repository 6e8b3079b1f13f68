import Verif.Props.GenText
import Verif.Props.GenTypes

/-!
C83: generated code calls no functions but those which the generator writes; generator/decoder.go:134-336,
generator/encoder.go:154-344, generator/generator.go `addType`.
-/

set_option linter.unusedSimpArgs false
set_option linter.unusedVariables false

namespace Verif.Props.GenCalls

open Verif.GenText Verif.GenTypes Verif.Props.GenText

variable {τ : Type} [DecidableEq τ]

/-- The kinds of `Model/GenTypes` and of `Model/GenText` for the same type. -/
inductive SameKind : GenFields.Kind τ → GenText.Kind τ → Prop where
  | basic (byte : Bool) (b : Basic) : SameKind (.basic byte) (.basic b)
  | slice (e : τ) : SameKind (.slice e) (.slice e)
  | array (n : Nat) (e : τ) : SameKind (.array n e) (.array n e)
  | struct (fs : List (GenFields.Field τ)) (fs' : List (GenText.Field τ)) (es : List (Text × τ)) : SameKind (.struct fs) (.struct fs' es)
  | pointer (e : τ) : SameKind (.pointer e) (.pointer e)
  | map (k e : τ) : SameKind (.map k e) (.map k e)
  | iface (m : Bool) : SameKind (.iface m) (.iface m)
  | other (b : Bool) : SameKind (.other b) .other

/-- The same types in both models. -/
structure Same (a : GenTypes.Types τ) (ty : GenText.Types τ) (eng : Engine) : Prop where
  kind : ∀ t, SameKind (a.kind t) (ty.kind t)
  byte : ∀ t, isByte a t = ty.byte t
  time : ∀ t, a.time t = ty.time t
  /-- the check of goyaml for decoders does not end the code: `ImplementationResultConditional` -/
  leaf : ∀ d t, a.leaf d t = (ty.yamly d t || (ty.engine d t && (d == .enc || eng == .yayamls)) || ty.text d t)

section

variable (a : GenTypes.Types τ) (ty : GenText.Types τ) (eng : Engine) (o : GenText.Opts) (cur : τ) (g : Dir → τ → Text)

theorem both_ok {x y : Res (Option (List τ))} {ts : List τ} (h : both x y = .ok (some ts)) :
    ∃ r s, x = .ok (some r) ∧ y = .ok (some s) ∧ ts = r ++ s := by
  unfold both at h
  split at h <;> try cases h
  split at h <;> try cases h
  exact ⟨_, _, rfl, rfl, rfl⟩

theorem dec_same (hs : Same a ty eng) : ∀ f : Nat,
    (∀ t p om indent elem n ts, body a .dec cur f t = .ok (some ts) → (∀ u ∈ ts, g .dec u = ty.func .dec u) →
      decBody { ty with func := g } eng o cur f t p om indent elem n = decBody ty eng o cur f t p om indent elem n) ∧
    (∀ t p om indent elem n ts, bodyWithoutCheck a .dec cur f t = .ok (some ts) → (∀ u ∈ ts, g .dec u = ty.func .dec u) →
      decPlain { ty with func := g } eng o cur f t p om indent elem n = decPlain ty eng o cur f t p om indent elem n)
  | 0 => ⟨fun _ _ _ _ _ _ _ h _ => (by rw [body] at h; cases h), fun _ _ _ _ _ _ _ h _ => (by rw [bodyWithoutCheck] at h; cases h)⟩
  | f + 1 => by
    obtain ⟨ihb, ihp⟩ := dec_same hs f
    refine ⟨fun t p om indent elem n ts h hg => ?_, fun t p om indent elem n ts h hg => ?_⟩
    · rw [body] at h
      have hp : ∀ om indent elem, bodyWithoutCheck a .dec cur f t = .ok (some ts) →
          decPlain { ty with func := g } eng o cur f t p om indent elem = decPlain ty eng o cur f t p om indent elem :=
        fun om indent elem h => funext fun n => ihp t p om indent elem n ts h hg
      unfold decBody
      by_cases hc : t = cur
      · rw [if_neg (fun h => h.1 hc)] at h
        have hn : ¬ t ≠ cur := fun h => h hc
        simp only [if_neg hn, hp _ _ _ h]
      · by_cases hl : a.leaf .dec t = true
        · have hl' := hl
          rw [hs.leaf] at hl'
          simp only [ne_eq, hc, not_false_eq_true, if_true]
          cases hy : ty.yamly .dec t
          · cases he : ty.engine .dec t
            · have hx : ty.text .dec t = true := by simpa [hy, he] using hl'
              simp [unmarshalersCheck, hy, he, hx]
            · cases eng
              · simp [unmarshalersCheck, hy, he]
              · have hx : ty.text .dec t = true := by simpa [hy, he] using hl'
                simp [unmarshalersCheck, hy, he, hx]
          · simp
        · rw [if_neg (fun h => hl h.2)] at h
          have e1 := hp om indent elem h
          have e2 := hp om (indent + 2) elem h
          simp only [e1, e2, unmarshalersCheck]
    · rw [bodyWithoutCheck] at h
      unfold decPlain
      by_cases ht : a.time t = true
      · have ht' := ht
        rw [hs.time] at ht'
        simp only [ht', if_true]
      · have ht' := ht
        rw [hs.time] at ht'
        rw [if_neg ht] at h
        simp only [ht', if_false]
        have hk := hs.kind t
        revert h
        generalize a.kind t = k1 at hk
        generalize hk2 : ty.kind t = k2 at hk
        intro h
        cases hk with
        | basic b' b => simp only
        | slice e =>
          simp only [hs.byte] at h
          cases hb : ty.byte e
          · simp only [hb, Bool.false_eq_true, if_false] at h ⊢
            have := fun p om indent elem => funext fun n => ihb e p om indent elem n ts h hg
            simp only [this]
          · simp only [hb, if_true]
        | array m e =>
          simp only [hs.byte] at h
          cases hb : ty.byte e
          · simp only [hb, Bool.false_eq_true, if_false] at h ⊢
            have := fun p om indent elem => funext fun n => ihb e p om indent elem n ts h hg
            simp only [this]
          · simp only [hb, if_true]
        | struct fs fs' es =>
          cases h
          simp only [hg t (by simp)]
        | pointer e =>
          have := fun p om indent elem => funext fun n => ihb e p om indent elem n ts h hg
          simp only [this]
        | map k e =>
          obtain ⟨r, s, h1, h2, rfl⟩ := both_ok h
          have e1 := fun p om indent elem => funext fun n => ihb k p om indent elem n r h1 (fun u hu => hg u (by simp [hu]))
          have e2 := fun p om indent elem => funext fun n => ihb e p om indent elem n s h2 (fun u hu => hg u (by simp [hu]))
          simp only [e1, e2]
        | iface m => simp only [unmarshalersCheck]
        | other b => simp only

theorem enc_same (hs : Same a ty eng) : ∀ f : Nat,
    (∀ t p om indent elem n ts, body a .enc cur f t = .ok (some ts) → (∀ u ∈ ts, g .enc u = ty.func .enc u) →
      encBody { ty with func := g } eng o cur f t p om indent elem n = encBody ty eng o cur f t p om indent elem n) ∧
    (∀ t p om indent elem n ts, bodyWithoutCheck a .enc cur f t = .ok (some ts) → (∀ u ∈ ts, g .enc u = ty.func .enc u) →
      encPlain { ty with func := g } eng o cur f t p om indent elem n = encPlain ty eng o cur f t p om indent elem n)
  | 0 => ⟨fun _ _ _ _ _ _ _ h _ => (by rw [body] at h; cases h), fun _ _ _ _ _ _ _ h _ => (by rw [bodyWithoutCheck] at h; cases h)⟩
  | f + 1 => by
    obtain ⟨ihb, ihp⟩ := enc_same hs f
    refine ⟨fun t p om indent elem n ts h hg => ?_, fun t p om indent elem n ts h hg => ?_⟩
    · rw [body] at h
      have hp : ∀ om indent elem, bodyWithoutCheck a .enc cur f t = .ok (some ts) →
          encPlain { ty with func := g } eng o cur f t p om indent elem = encPlain ty eng o cur f t p om indent elem :=
        fun om indent elem h => funext fun n => ihp t p om indent elem n ts h hg
      unfold encBody
      by_cases hc : t = cur
      · rw [if_neg (fun h => h.1 hc)] at h
        have hn : ¬ t ≠ cur := fun h => h hc
        simp only [if_neg hn, hp _ _ _ h]
      · by_cases hl : a.leaf .enc t = true
        · have hl' := hl
          rw [hs.leaf] at hl'
          simp only [ne_eq, hc, not_false_eq_true, if_true]
          cases hy : ty.yamly .enc t
          · cases he : ty.engine .enc t
            · have hx : ty.text .enc t = true := by simpa [hy, he] using hl'
              simp [marshalersCheck, hy, he, hx]
            · cases eng <;> simp [marshalersCheck, hy, he]
          · simp
        · rw [if_neg (fun h => hl h.2)] at h
          have e1 := hp om indent elem h
          have e2 := hp om (indent + 2) elem h
          simp only [e1, e2, marshalersCheck]
    · rw [bodyWithoutCheck] at h
      unfold encPlain
      by_cases ht : a.time t = true
      · have ht' := ht
        rw [hs.time] at ht'
        simp only [ht', if_true]
      · have ht' := ht
        rw [hs.time] at ht'
        rw [if_neg ht] at h
        simp only [ht', if_false]
        have hk := hs.kind t
        revert h
        generalize a.kind t = k1 at hk
        generalize hk2 : ty.kind t = k2 at hk
        intro h
        cases hk with
        | basic b' b => simp only
        | slice e =>
          simp only [hs.byte] at h
          cases hb : ty.byte e
          · simp only [hb, Bool.false_eq_true, if_false] at h ⊢
            have := fun p om indent elem => funext fun n => ihb e p om indent elem n ts h hg
            simp only [this]
          · simp only [hb, if_true]
        | array m e =>
          simp only [hs.byte] at h
          cases hb : ty.byte e
          · simp only [hb, Bool.false_eq_true, if_false] at h ⊢
            have := fun p om indent elem => funext fun n => ihb e p om indent elem n ts h hg
            simp only [this]
          · simp only [hb, if_true]
        | struct fs fs' es =>
          cases h
          simp only [hg t (by simp)]
        | pointer e =>
          have := fun p om indent elem => funext fun n => ihb e p om indent elem n ts h hg
          simp only [this]
        | map k e =>
          obtain ⟨r, s, h1, h2, rfl⟩ := both_ok h
          have e1 := fun p om indent elem => funext fun n => ihb k p om indent elem n r h1 (fun u hu => hg u (by simp [hu]))
          have e2 := fun p om indent elem => funext fun n => ihb e p om indent elem n s h2 (fun u hu => hg u (by simp [hu]))
          simp only [e1, e2]
        | iface m => simp only [marshalersCheck]
        | other b => simp only

theorem fieldBodies_body (d : Dir) (f : Nat) : ∀ (fs : List (GenFields.Field τ)) (l : List τ),
    fieldBodies a d cur f fs = .ok (some l) → ∀ x ∈ fs, (GenFields.parseTags x.tag).omitField = false →
      ∃ r, body a d cur f x.type = .ok (some r) ∧ ∀ u ∈ r, u ∈ l
  | [], _, _, x, hx, _ => by simp at hx
  | y :: fs, l, h, x, hx, ho => by
    rw [fieldBodies] at h
    split at h
    · next hy =>
      rcases List.mem_cons.1 hx with rfl | hx
      · rw [ho] at hy; cases hy
      · exact fieldBodies_body d f fs l h x hx ho
    · obtain ⟨r, s, h1, h2, rfl⟩ := both_ok h
      rcases List.mem_cons.1 hx with rfl | hx
      · exact ⟨r, h1, fun u hu => by simp [hu]⟩
      · obtain ⟨r', h3, h4⟩ := fieldBodies_body d f fs s h2 x hx ho
        exact ⟨r', h3, fun u hu => by simp [h4 u hu]⟩

/-- The fields for which `Model/GenText` writes code are those of `Model/GenTypes` which are not left out. -/
def SameFields (o : GenFields.Opts) : Prop :=
  ∀ t fs es fuel out, ty.kind t = .struct fs es → GenFields.getStructFields o a.kind fuel t = .ok (some out) →
    ∀ d ∈ fs, ∃ x ∈ out, (GenFields.parseTags x.tag).omitField = false ∧ x.type = d.type

theorem field_body {o' : GenFields.Opts} (hs : Same a ty eng) (hF : SameFields a ty o') {d : Dir} {f : Nat} {t : τ} {l : List τ}
    (h : genFunction o' a d f t = .ok (some l)) {fs : List (GenText.Field τ)} {es : List (Text × τ)}
    (hk : ty.kind t = .struct fs es) :
    ∀ x ∈ fs, ∃ r, body a d t f x.type = .ok (some r) ∧ ∀ u ∈ r, u ∈ l := by
  intro x hx
  have hk' := hs.kind t
  rw [hk] at hk'
  unfold genFunction at h
  generalize ha : a.kind t = k at hk' h
  cases hk' with
  | struct fs1 =>
    simp only at h
    split at h <;> try cases h
    next out ho =>
    obtain ⟨y, hy, ho', hty⟩ := hF t fs es f out hk ho x hx
    rw [← hty]
    exact fieldBodies_body a t d f out l h y hy ho'

theorem all_congr {α : Type} (w w' : α → W) : ∀ (as : List α), (∀ x ∈ as, w x = w' x) → all (as.map w) = all (as.map w')
  | [], _ => rfl
  | x :: as, h => by
    simp only [List.map_cons, all]
    rw [h x (by simp), all_congr w w' as (fun y hy => h y (by simp [hy]))]

/-- C83: the text of the functions for a type mentions only the functions of this type and of the types which the generator
registers for it. -/
theorem functions_mention {o' : GenFields.Opts} (hs : Same a ty eng) (hF : SameFields a ty o') {f : Nat} {t : τ} {l : List τ}
    (h : both (genFunction o' a .dec f t) (genFunction o' a .enc f t) = .ok (some l))
    (hb : ∀ d, (∃ r, body a d t f t = .ok (some r)) ∧ ∃ r, bodyWithoutCheck a d t f t = .ok (some r))
    (ht : ∀ d, g d t = ty.func d t) (hg : ∀ d, ∀ u ∈ l, g d u = ty.func d u) :
    decoder { ty with func := g } eng o f t = decoder ty eng o f t ∧
    encoder { ty with func := g } eng o f t = encoder ty eng o f t := by
  obtain ⟨r, s, h1, h2, rfl⟩ := both_ok h
  have hfield : ∀ fs es, ty.kind t = .struct fs es → ∀ x ∈ fs,
      (∀ p om ind el, decBody { ty with func := g } eng o t f x.type p om ind el = decBody ty eng o t f x.type p om ind el) ∧
      (∀ p om ind el, encBody { ty with func := g } eng o t f x.type p om ind el = encBody ty eng o t f x.type p om ind el) := by
    intro fs es hk x hx
    obtain ⟨r1, hr1, hs1⟩ := field_body a ty eng hs hF h1 hk x hx
    obtain ⟨r2, hr2, hs2⟩ := field_body a ty eng hs hF h2 hk x hx
    exact ⟨fun p om ind el => funext fun n => (dec_same a ty eng o t g hs f).1 _ _ _ _ _ _ _ hr1
        (fun u hu => hg _ u (by simp [hs1 u hu])),
      fun p om ind el => funext fun n => (enc_same a ty eng o t g hs f).1 _ _ _ _ _ _ _ hr2
        (fun u hu => hg _ u (by simp [hs2 u hu]))⟩
  -- a type which is not a struct: what is met is registered
  have hdirect : (∀ fs es, ty.kind t ≠ .struct fs es) → ∀ d r', Discovered.Mentions a d t t r' → g d r' = ty.func d r' := by
    intro hn d u hm
    have hns : ∀ fs, a.kind t ≠ .struct fs := by
      intro fs he
      have hk := hs.kind t
      rw [he] at hk
      generalize hk2 : ty.kind t = k at hk
      cases hk with
      | struct _ fs' es => exact hn fs' es hk2
    exact hg d u ((GenTypes.found_calls h u).2 (.direct hns hm))
  by_cases hk : ∃ fs es, ty.kind t = .struct fs es
  · obtain ⟨fs, es, hk⟩ := hk
    have e1 : ∀ x ∈ fs, decField { ty with func := g } eng o t f x = decField ty eng o t f x := by
      intro x hx
      unfold decField
      rw [(hfield fs es hk x hx).1]
    have e2 : ∀ x ∈ fs, encField { ty with func := g } eng o t f x = encField ty eng o t f x := by
      intro x hx
      unfold encField
      simp only [(hfield fs es hk x hx).2, notEmptyCheck]
    exact ⟨by simp only [decoder, hk, decStruct, ht, all_congr _ _ fs e1], by simp only [encoder, hk, ht, all_congr _ _ fs e2]⟩
  · have hk' : ∀ fs es, ty.kind t ≠ .struct fs es := fun fs es h => hk ⟨fs, es, h⟩
    obtain ⟨r1, hr1⟩ := (hb .dec).1
    obtain ⟨r2, hr2⟩ := (hb .enc).1
    obtain ⟨r3, hr3⟩ := (hb .enc).2
    have e1 := fun p om ind el => funext fun n => (dec_same a ty eng o t g hs f).1 t p om ind el n r1 hr1
      (fun u hu => hdirect hk' .dec u (((GenTypes.body_mentions a .dec t f).1 t r1 hr1 u).1 hu))
    have e2 := fun p om ind el => funext fun n => (enc_same a ty eng o t g hs f).1 t p om ind el n r2 hr2
      (fun u hu => hdirect hk' .enc u (((GenTypes.body_mentions a .enc t f).1 t r2 hr2 u).1 hu))
    have e3 := fun p om ind el => funext fun n => (enc_same a ty eng o t g hs f).2 t p om ind el n r3 hr3
      (fun u hu => hdirect hk' .enc u (((GenTypes.body_mentions a .enc t f).2 t r3 hr3 (.inl rfl) u).1 hu))
    cases hkk : ty.kind t with
    | struct fs es => exact absurd hkk (hk' fs es)
    | _ => exact ⟨by simp only [decoder, hkk, e1, ht], by simp only [encoder, hkk, e2, e3, ht]⟩

/-- C83: the text of a file mentions only functions of the types of the file: with other names for all other functions the
generator writes the same file.  `ts` are the types for which the generator writes functions; the fuel `f` is enough. -/
theorem file_mentions {o' : GenFields.Opts} (hs : Same a ty eng) (hF : SameFields a ty o') {f fuel : Nat} {target : τ}
    {events : List (Event τ)} (hgen : generate o' a target fuel (start target) = .ok (some events))
    (hf : ∀ t ∈ functions .dec events, (∃ l, both (genFunction o' a .dec f t) (genFunction o' a .enc f t) = .ok (some l)) ∧
      ∀ d, (∃ r, body a d t f t = .ok (some r)) ∧ ∃ r, bodyWithoutCheck a d t f t = .ok (some r))
    (hg : ∀ d, ∀ u ∈ functions .dec events, g d u = ty.func d u) (tags pkg : Text) (imports : List (Text × Text)) :
    file { ty with func := g } eng o f target (functions .dec events) tags pkg imports =
      file ty eng o f target (functions .dec events) tags pkg imports := by
  have hd := (GenTypes.each_type_once o' a target fuel events hgen .dec).2.1
  unfold file
  rw [all_congr _ (forType ty eng o f target)]
  intro t ht
  obtain ⟨⟨l, hl⟩, hb⟩ := hf t ht
  obtain ⟨e1, e2⟩ := functions_mention a ty eng o g hs hF hl hb (fun d => hg d t ht) (fun d u hu =>
    hg d u ((hd u).2 (.call ((hd t).1 ht) ((GenTypes.found_calls hl u).1 hu))))
  have e3 : ∀ d, g d t = ty.func d t := fun d => hg d t ht
  unfold forType
  simp only [e1, e2, unmarshaler, marshaler, e3]

end

/-- The types `A` and `B` of the examples `mutualTypes`, with their texts. -/
def mutualText : GenText.Types Nat where
  kind := fun t => match t with
    | 0 => .struct [⟨['B'], ['b'], 2, false⟩, ⟨['L'], ['l'], 3, false⟩, ⟨['S'], ['s'], 6, false⟩] []
    | 1 => .struct [⟨['A'], ['a'], 4, false⟩, ⟨['T'], ['t'], 5, false⟩] []
    | 2 => .pointer 1
    | 3 => .slice 1
    | 4 => .pointer 0
    | 5 => .struct [] []
    | _ => .basic .string
  time := fun t => t = 5
  byte := fun _ => false
  yamly := fun _ _ => false
  engine := fun _ _ => false
  text := fun _ t => t = 5
  self := fun _ _ => false
  name := fun t => 'T' :: number t
  func := fun _ t => "fn".toList ++ number t

theorem mutual_same (eng : Engine) : Same GenTypes.mutualTypes mutualText eng where
  kind := fun t => match t with
    | 0 => .struct _ _ _
    | 1 => .struct _ _ _
    | 2 => .pointer _
    | 3 => .slice _
    | 4 => .pointer _
    | 5 => .struct _ _ _
    | _ + 6 => .basic _ _
  byte := fun t => match t with
    | 0 | 1 | 2 | 3 | 4 | 5 => rfl
    | _ + 6 => rfl
  time := fun _ => rfl
  leaf := fun d t => by simp [GenTypes.mutualTypes, mutualText]

theorem mutual_fields : SameFields GenTypes.mutualTypes mutualText GenFields.opts := by
  intro t fs es fuel out hk ho d hd
  match t with
  | 0 =>
    have h : GenFields.getStructFields GenFields.opts GenTypes.mutualTypes.kind 9 0 = .ok (some
        [⟨['B'], false, 2, []⟩, ⟨['L'], false, 3, []⟩, ⟨['S'], false, 6, []⟩]) := by decide +kernel
    cases GenTypes.getStructFields_det ho h
    cases hk
    simp only [List.mem_cons, List.not_mem_nil, or_false] at hd
    rcases hd with rfl | rfl | rfl
    · exact ⟨⟨['B'], false, 2, []⟩, by simp, by decide +kernel, rfl⟩
    · exact ⟨⟨['L'], false, 3, []⟩, by simp, by decide +kernel, rfl⟩
    · exact ⟨⟨['S'], false, 6, []⟩, by simp, by decide +kernel, rfl⟩
  | 1 =>
    have h : GenFields.getStructFields GenFields.opts GenTypes.mutualTypes.kind 9 1 = .ok (some
        [⟨['A'], false, 4, []⟩, ⟨['T'], false, 5, []⟩]) := by decide +kernel
    cases GenTypes.getStructFields_det ho h
    cases hk
    simp only [List.mem_cons, List.not_mem_nil, or_false] at hd
    rcases hd with rfl | rfl
    · exact ⟨⟨['A'], false, 4, []⟩, by simp, by decide +kernel, rfl⟩
    · exact ⟨⟨['T'], false, 5, []⟩, by simp, by decide +kernel, rfl⟩
  | 5 => cases hk; simp at hd
  | 2 | 3 | 4 => cases hk
  | n + 6 => cases hk

/-- The file for `A` mentions the functions for `A` and `B` (0 and 1) only. -/
example (g : Dir → Nat → Text) (h0 : ∀ d, g d 0 = mutualText.func d 0) (h1 : ∀ d, g d 1 = mutualText.func d 1) :
    file { mutualText with func := g } .yayamls exOpts 9 0 [0, 1] [] ['p'] [] =
      file mutualText .yayamls exOpts 9 0 [0, 1] [] ['p'] [] := by
  have hgen : generate GenFields.opts GenTypes.mutualTypes 0 20 (start 0) = .ok (some
      [.function .dec 0, .function .enc 0, .methods .dec 0, .methods .enc 0, .function .dec 1, .function .enc 1]) := by
    decide +kernel
  refine file_mentions GenTypes.mutualTypes mutualText .yayamls exOpts g (mutual_same _) mutual_fields (f := 9) hgen ?_ ?_ _ _ _
  · intro t ht
    have ht : t ∈ [0, 1] := ht
    simp only [List.mem_cons, List.not_mem_nil, or_false] at ht
    rcases ht with rfl | rfl
    · exact ⟨⟨[1, 1, 1, 1], by decide +kernel⟩, fun d => by cases d <;> exact ⟨⟨[0], by decide +kernel⟩, ⟨[0], by decide +kernel⟩⟩⟩
    · exact ⟨⟨[0, 0], by decide +kernel⟩, fun d => by cases d <;> exact ⟨⟨[1], by decide +kernel⟩, ⟨[1], by decide +kernel⟩⟩⟩
  · intro d u hu
    have hu : u ∈ [0, 1] := hu
    simp only [List.mem_cons, List.not_mem_nil, or_false] at hu
    rcases hu with rfl | rfl
    · exact h0 d
    · exact h1 d

end Verif.Props.GenCalls
