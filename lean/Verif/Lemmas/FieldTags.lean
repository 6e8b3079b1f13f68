import Verif.Spec.FieldTags
import Verif.Lemmas.GenFields

/-! Lemmas about struct tags and the fields they select. -/

namespace Verif.FieldTags

open Verif.GenFields

variable {τ : Type} {o : Opts} {desc : τ → Kind τ} {t : τ}

theorem splitComma_word : ∀ (w : List Char), ',' ∉ w → splitComma w = [w]
  | [], _ => rfl
  | c :: w, h => by
    simp only [List.mem_cons, not_or] at h
    have hc : c ≠ ',' := fun h1 => h.1 h1.symm
    simp [splitComma, hc, splitComma_word w h.2]

theorem splitComma_more : ∀ (w s : List Char), ',' ∉ w → splitComma (w ++ ',' :: s) = w :: splitComma s
  | [], _, _ => by simp [splitComma]
  | c :: w, s, h => by
    simp only [List.mem_cons, not_or] at h
    have hc : c ≠ ',' := fun h1 => h.1 h1.symm
    simp [splitComma, hc, splitComma_more w s h.2]

theorem splitComma_says : ∀ (options : List (List Char)) (name : List Char), ',' ∉ name → (∀ o ∈ options, ',' ∉ o) →
    splitComma (name ++ options.flatMap (fun o => ',' :: o)) = name :: options
  | [], name, h, _ => by simp [splitComma_word name h]
  | a :: os, name, h, ho => by
    rw [List.flatMap_cons, List.cons_append, splitComma_more _ _ h,
      splitComma_says os a (ho a (by simp)) (fun b hb => ho b (by simp [hb]))]

theorem says_exists : ∀ tag : List Char, ∃ name options, Says tag name options
  | [] => ⟨[], [], rfl, by simp, by simp⟩
  | c :: tag => by
    obtain ⟨name, options, h1, h2, h3⟩ := says_exists tag
    by_cases hc : c = ','
    · exact ⟨[], name :: options, by simp [hc, h1], by simp, by
        intro a ha
        rcases List.mem_cons.1 ha with rfl | ha
        · exact h2
        · exact h3 a ha⟩
    · exact ⟨c :: name, options, by simp [h1], by simp [h2, Ne.symm hc], h3⟩

theorem Says.tags {tag name : List Char} {options : List (List Char)} (h : Says tag name options) :
    parseTags tag = ⟨name, decide (options = [] ∧ name = ['-']), decide ("omitempty".toList ∈ options),
      decide ("inline".toList ∈ options)⟩ := by
  unfold parseTags
  rw [h.text, splitComma_says options name h.name h.options]
  simp only [Tags.mk.injEq, true_and]
  refine ⟨?_, ?_, ?_⟩
  · cases options <;> simp
  · rw [List.contains_eq_mem]
  · rw [List.contains_eq_mem]

theorem spread_iff {f : Field τ} : inlined o f = true ↔ Spread o.inlineEmbedded f := by
  constructor
  · intro h
    obtain ⟨name, options, hs⟩ := says_exists f.tag
    refine ⟨name, options, hs, ?_⟩
    simp only [inlined, hs.tags, Bool.or_eq_true, Bool.and_eq_true, decide_eq_true_eq] at h
    rcases h with ⟨⟨h1, h2⟩, h3⟩ | h
    · exact .inl ⟨h1, h2, h3⟩
    · exact .inr h
  · rintro ⟨name, options, hs, h⟩
    simp only [inlined, hs.tags, Bool.or_eq_true, Bool.and_eq_true, decide_eq_true_eq]
    rcases h with ⟨h1, h2, h3⟩ | h
    · exact .inl ⟨⟨h1, h2⟩, h3⟩
    · exact .inr h

/-- The name occurs. -/
def Named (n : List Char) (l : List (Field τ)) : Prop := ∃ g ∈ l, g.name = n

theorem named_merge {n : List Char} {a b : List (Field τ)} (h : Named n a ∨ Named n b) : Named n (merge a b) := by
  have hb : Named n b → Named n (merge a b) := fun ⟨g, hg, he⟩ => ⟨g, mem_merge.2 (.inl hg), he⟩
  rcases h with ⟨g, hg, rfl⟩ | h
  · by_cases hx : Named g.name b
    · exact hb hx
    · exact ⟨g, mem_merge.2 (.inr ⟨hg, fun k hk he => hx ⟨k, hk, he⟩⟩), rfl⟩
  · exact hb h

/-- What the first loop has to collect. -/
def Collects (o : Opts) (desc : τ → Kind τ) (call : τ → Res (Option (List (Field τ)))) (f : Field τ)
    (r : List (Field τ) × List (Field τ)) : Prop := inlined o f = true →
  (∀ gs0, desc (deref desc f.type) = .struct gs0 → ∃ gs, call (deref desc f.type) = .ok (some gs) ∧ ∀ g ∈ gs, Named g.name r.1) ∧
  (basicKind (desc (deref desc f.type)) = true → keepBasic o f = true → f ∈ r.2)

theorem firstLoop_collects {call : τ → Res (Option (List (Field τ)))} :
    ∀ (fs embedded fields : List (Field τ)) {r : List (Field τ) × List (Field τ)},
      firstLoop o desc call fs embedded fields = .ok (some r) →
      (∀ n, Named n embedded → Named n r.1) ∧ (∀ f ∈ fields, f ∈ r.2) ∧ ∀ f ∈ fs, Collects o desc call f r
  | [], embedded, fields, r, h => by
    simp only [firstLoop, Res.ok.injEq, Option.some.injEq] at h
    subst h
    exact ⟨fun _ h => h, fun _ h => h, by simp⟩
  | f :: fs, embedded, fields, r, h => by
    unfold firstLoop at h
    cases hi : inlined o f with
    | false =>
      rw [hi, if_pos rfl] at h
      obtain ⟨h1, h2, h3⟩ := firstLoop_collects fs embedded fields h
      refine ⟨h1, h2, fun g hg => ?_⟩
      rcases List.mem_cons.1 hg with rfl | hg
      · intro h; rw [hi] at h; cases h
      · exact h3 g hg
    | true =>
      rw [hi, if_neg (by simp)] at h
      have hbasic : ∀ k : Kind τ, desc (deref desc f.type) = k → (∀ gs, k ≠ .struct gs) →
          (if basicKind k && keepBasic o f then firstLoop o desc call fs embedded (fields ++ [f])
          else firstLoop o desc call fs embedded fields) = .ok (some r) →
          (∀ n, Named n embedded → Named n r.1) ∧ (∀ f ∈ fields, f ∈ r.2) ∧ ∀ g ∈ f :: fs, Collects o desc call g r := by
        intro k hd hns h
        by_cases hk : (basicKind k && keepBasic o f) = true
        · rw [if_pos hk] at h
          obtain ⟨h1, h2, h3⟩ := firstLoop_collects fs embedded _ h
          refine ⟨h1, fun g hg => h2 g (by simp [hg]), fun g hg => ?_⟩
          rcases List.mem_cons.1 hg with rfl | hg
          · exact fun _ => ⟨fun gs0 hs => absurd (hd.symm.trans hs) (hns gs0), fun _ _ => h2 _ (by simp)⟩
          · exact h3 g hg
        · rw [if_neg hk] at h
          obtain ⟨h1, h2, h3⟩ := firstLoop_collects fs embedded _ h
          refine ⟨h1, h2, fun g hg => ?_⟩
          rcases List.mem_cons.1 hg with rfl | hg
          · refine fun _ => ⟨fun gs0 hs => absurd (hd.symm.trans hs) (hns gs0), fun hb hkb => absurd ?_ hk⟩
            rw [← hd, hb, hkb]
            rfl
          · exact h3 g hg
      cases hk : desc (deref desc f.type) with
      | struct gs0 =>
        rw [hk] at h
        simp only at h
        cases hcall : call (deref desc f.type) with
        | timeout => rw [hcall] at h; cases h
        | panic => rw [hcall] at h; cases h
        | ok x =>
          cases x with
          | none => rw [hcall] at h; cases h
          | some gs =>
            rw [hcall] at h
            simp only at h
            obtain ⟨h1, h2, h3⟩ := firstLoop_collects fs _ _ h
            refine ⟨fun n hn => h1 n (named_merge (.inl hn)), h2, fun g hg => ?_⟩
            rcases List.mem_cons.1 hg with rfl | hg
            · refine fun _ => ⟨fun _ _ => ⟨gs, hcall, fun g hg => h1 _ (named_merge (.inr ⟨g, hg, rfl⟩))⟩, fun hb => ?_⟩
              rw [hk] at hb
              cases hb
            · exact h3 g hg
      | basic b => rw [hk] at h; exact hbasic _ hk (by simp) h
      | other b => rw [hk] at h; exact hbasic _ hk (by simp) h
      | slice b => rw [hk] at h; exact hbasic _ hk (by simp) h
      | array b c => rw [hk] at h; exact hbasic _ hk (by simp) h
      | pointer b => rw [hk] at h; exact hbasic _ hk (by simp) h
      | map b c => rw [hk] at h; exact hbasic _ hk (by simp) h
      | iface b => rw [hk] at h; exact hbasic _ hk (by simp) h

/-- What the second loop adds. -/
theorem getStructFields_collects {fuel : Nat} {out : List (Field τ)} (h : getStructFields o desc (fuel + 1) t = .ok (some out)) :
    ∃ fs, desc t = .struct fs ∧ (∀ f ∈ fs, inlined o f = false → o.upper f.name = true → f ∈ out) ∧
      ∀ f ∈ fs, inlined o f = true →
        (∀ gs0, desc (deref desc f.type) = .struct gs0 →
          ∃ gs, getStructFields o desc fuel (deref desc f.type) = .ok (some gs) ∧ ∀ g ∈ gs, Named g.name out) ∧
        (basicKind (desc (deref desc f.type)) = true → keepBasic o f = true → f ∈ out) := by
  unfold getStructFields at h
  cases hk : desc t with
  | struct fs =>
    rw [hk] at h
    simp only at h
    cases hl : firstLoop o desc (getStructFields o desc fuel) fs [] [] with
    | timeout => rw [hl] at h; cases h
    | panic => rw [hl] at h; cases h
    | ok x =>
      cases x with
      | none => rw [hl] at h; cases h
      | some r =>
        obtain ⟨h1, h2, h3⟩ := firstLoop_collects fs [] [] hl
        rw [hl] at h
        obtain ⟨embedded, fields⟩ := r
        simp only [Res.ok.injEq, Option.some.injEq] at h
        subst h
        refine ⟨fs, rfl, fun f hf hi hu => ?_, fun f hf hi => ⟨fun gs0 hs => ?_, fun hb hkb => ?_⟩⟩
        · exact mem_merge.2 (.inl (List.mem_append.2 (.inr (List.mem_filter.2 ⟨hf, by simp [hi, hu]⟩))))
        · obtain ⟨gs, g1, g2⟩ := (h3 f hf hi).1 gs0 hs
          exact ⟨gs, g1, fun g hg => named_merge (.inl (g2 g hg))⟩
        · exact mem_merge.2 (.inl (List.mem_append.2 (.inl ((h3 f hf hi).2 hb hkb))))
  | basic b => rw [hk] at h; cases h
  | other b => rw [hk] at h; cases h
  | slice b => rw [hk] at h; cases h
  | array b c => rw [hk] at h; cases h
  | pointer b => rw [hk] at h; cases h
  | map b c => rw [hk] at h; cases h
  | iface b => rw [hk] at h; cases h

end Verif.FieldTags
