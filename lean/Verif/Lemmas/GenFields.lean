import Verif.Spec.Selector

/-! Lemmas about the field lists of the generator. -/

namespace Verif.GenFields

open Verif.Selector

variable {τ : Type}

theorem mem_merge {a b : List (Field τ)} {f : Field τ} :
    f ∈ merge a b ↔ f ∈ b ∨ (f ∈ a ∧ ∀ g ∈ b, g.name ≠ f.name) := by
  simp [merge]

theorem nodup_merge {a b : List (Field τ)} (ha : (a.map Field.name).Nodup) (hb : (b.map Field.name).Nodup) :
    ((merge a b).map Field.name).Nodup := by
  unfold merge
  rw [List.map_append]
  refine List.nodup_append.2 ⟨hb, ?_, ?_⟩
  · exact ha.sublist (List.filter_sublist.map _)
  · intro x hx y hy hxy
    subst hxy
    simp only [List.mem_map, List.mem_filter] at hx hy
    obtain ⟨g, hg, rfl⟩ := hx
    obtain ⟨f, ⟨_, hf⟩, he⟩ := hy
    simp at hf
    exact hf g hg he.symm

/-- What the loops collect: `P` holds for the embedded ones, the others are declared, in order. -/
theorem firstLoop_spec {o : Opts} {desc : τ → Kind τ} {call : τ → Res (Option (List (Field τ)))} (P : List (Field τ) → Prop)
    (hmerge : ∀ a b, P a → P b → P (merge a b)) :
    ∀ (fs embedded fields : List (Field τ)) {r : List (Field τ) × List (Field τ)},
      (∀ f ∈ fs, inlined o f = true → ∀ gs, call (deref desc f.type) = .ok (some gs) → P gs) →
      P embedded → firstLoop o desc call fs embedded fields = .ok (some r) →
      P r.1 ∧ ∃ kept, r.2 = fields ++ kept ∧ kept.Sublist (fs.filter (inlined o)) ∧ ∀ f ∈ kept, basicKind (desc (deref desc f.type)) = true ∧ keepBasic o f = true
  | [], embedded, fields, r, _, he, h => by
    simp only [firstLoop, Res.ok.injEq, Option.some.injEq] at h
    subst h
    exact ⟨he, [], by simp, by simp, by simp⟩
  | f :: fs, embedded, fields, r, hc, he, h => by
    have hc' : ∀ g ∈ fs, inlined o g = true → ∀ gs, call (deref desc g.type) = .ok (some gs) → P gs :=
      fun g hg => hc g (by simp [hg])
    unfold firstLoop at h
    cases hi : inlined o f with
    | false =>
      rw [hi, if_pos rfl] at h
      obtain ⟨h1, kept, h2, h3, h4⟩ := firstLoop_spec P hmerge fs embedded fields hc' he h
      exact ⟨h1, kept, h2, by simpa [hi] using h3, h4⟩
    | true =>
      rw [hi, if_neg (by simp)] at h
      have hbasic : ∀ k : Kind τ, desc (deref desc f.type) = k → (if basicKind k && keepBasic o f then firstLoop o desc call fs embedded (fields ++ [f])
          else firstLoop o desc call fs embedded fields) = .ok (some r) →
          P r.1 ∧ ∃ kept, r.2 = fields ++ kept ∧ kept.Sublist ((f :: fs).filter (inlined o)) ∧
            ∀ f ∈ kept, basicKind (desc (deref desc f.type)) = true ∧ keepBasic o f = true := by
        intro k hd h
        by_cases hk : (basicKind k && keepBasic o f) = true
        · rw [if_pos hk] at h
          obtain ⟨h1, kept, h2, h3, h4⟩ := firstLoop_spec P hmerge fs embedded _ hc' he h
          refine ⟨h1, f :: kept, by simp [h2], by simpa [hi] using h3, ?_⟩
          intro g hg
          simp only [List.mem_cons] at hg
          rcases hg with rfl | hg
          · rw [hd]; simpa using hk
          · exact h4 g hg
        · rw [if_neg hk] at h
          obtain ⟨h1, kept, h2, h3, h4⟩ := firstLoop_spec P hmerge fs embedded _ hc' he h
          exact ⟨h1, kept, h2, by simp only [List.filter_cons, hi, if_true]; exact h3.cons _, h4⟩
      cases hk : desc (deref desc f.type) with
      | struct gs0 =>
        rw [hk] at h
        simp only at h
        cases hcall : call (deref desc f.type) with
        | timeout => rw [hcall] at h; cases h
        | panic => rw [hcall] at h; cases h
        | ok x =>
          cases x with
          | none => rw [hcall] at h; cases h
          | some gs =>
            rw [hcall] at h
            simp only at h
            obtain ⟨h1, kept, h2, h3, h4⟩ := firstLoop_spec P hmerge fs _ _ hc'
              (hmerge _ _ he (hc f (by simp) hi gs hcall)) h
            exact ⟨h1, kept, h2, by simp only [List.filter_cons, hi, if_true]; exact h3.cons _, h4⟩
      | basic b => rw [hk] at h; exact hbasic _ hk h
      | other b => rw [hk] at h; exact hbasic _ hk h
      | slice b => rw [hk] at h; exact hbasic _ hk h
      | array b c => rw [hk] at h; exact hbasic _ hk h
      | pointer b => rw [hk] at h; exact hbasic _ hk h
      | map b c => rw [hk] at h; exact hbasic _ hk h
      | iface b => rw [hk] at h; exact hbasic _ hk h

/-- The result of `getStructFields`, unfolded once. -/
theorem getStructFields_spec {o : Opts} {desc : τ → Kind τ} {fuel : Nat} {t : τ} {out : List (Field τ)}
    (P : List (Field τ) → Prop) (hnil : P []) (hmerge : ∀ a b, P a → P b → P (merge a b))
    (hc : ∀ fs, desc t = .struct fs → ∀ f ∈ fs, inlined o f = true → ∀ gs,
      getStructFields o desc (fuel - 1) (deref desc f.type) = .ok (some gs) → P gs)
    (h : getStructFields o desc fuel t = .ok (some out)) :
    ∃ fs embedded kept, desc t = .struct fs ∧ P embedded ∧ out = merge embedded (kept ++ ownFields o fs) ∧
      kept.Sublist (fs.filter (inlined o)) ∧ ∀ f ∈ kept, basicKind (desc (deref desc f.type)) = true ∧ keepBasic o f = true := by
  cases fuel with
  | zero => simp [getStructFields] at h
  | succ fuel =>
    unfold getStructFields at h
    cases hk : desc t with
    | struct fs =>
      rw [hk] at h
      simp only at h
      cases hl : firstLoop o desc (getStructFields o desc fuel) fs [] [] with
      | timeout => rw [hl] at h; cases h
      | panic => rw [hl] at h; cases h
      | ok x =>
        cases x with
        | none => rw [hl] at h; cases h
        | some r =>
          obtain ⟨h1, kept, h2, h3, h4⟩ := firstLoop_spec P hmerge fs [] [] (hc fs hk) hnil hl
          rw [hl] at h
          obtain ⟨embedded, fields⟩ := r
          simp only [Res.ok.injEq, Option.some.injEq, List.nil_append] at h h2
          exact ⟨fs, embedded, kept, rfl, h1, by rw [← h, h2], h3, h4⟩
    | basic b => rw [hk] at h; cases h
    | other b => rw [hk] at h; cases h
    | slice b => rw [hk] at h; cases h
    | array b c => rw [hk] at h; cases h
    | pointer b => rw [hk] at h; cases h
    | map b c => rw [hk] at h; cases h
    | iface b => rw [hk] at h; cases h

theorem name_inj {l : List (Field τ)} (hl : (l.map Field.name).Nodup) {x y : Field τ} (hx : x ∈ l) (hy : y ∈ l)
    (he : y.name = x.name) : x = y := by
  induction l with
  | nil => simp at hx
  | cons z l ih =>
    have hl' := List.nodup_cons.1 hl
    simp only [List.mem_cons] at hx hy
    rcases hx with rfl | hx <;> rcases hy with rfl | hy
    · rfl
    · exact absurd (List.mem_map.2 ⟨y, hy, he⟩) hl'.1
    · exact absurd (List.mem_map.2 ⟨x, hx, he.symm⟩) hl'.1
    · exact ih hl'.2 hx hy

theorem declared_nodup {o : Opts} {fs kept : List (Field τ)} (hn : (fs.map Field.name).Nodup)
    (hk : kept.Sublist (fs.filter (inlined o))) : ((kept ++ ownFields o fs).map Field.name).Nodup := by
  have hsub : ∀ x ∈ kept, x ∈ fs := fun x hx => (List.mem_filter.1 (hk.subset hx)).1
  rw [List.map_append]
  refine List.nodup_append.2 ⟨hn.sublist ((hk.trans List.filter_sublist).map _), hn.sublist (List.filter_sublist.map _), ?_⟩
  intro a ha b hb hab
  subst hab
  simp only [List.mem_map] at ha hb
  obtain ⟨x, hx, rfl⟩ := ha
  obtain ⟨y, hy, he⟩ := hb
  have hx' := List.mem_filter.1 (hk.subset hx)
  have hy' := List.mem_filter.1 hy
  have hxy : x = y := name_inj hn hx'.1 hy'.1 he
  subst hxy
  simp [hx'.2] at hy'

end Verif.GenFields
