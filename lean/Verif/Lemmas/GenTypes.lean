import Verif.Spec.Discovered
import Verif.Lemmas.GenNames

/-! Lemmas about the worklist of the generator. -/

set_option linter.unusedSimpArgs false

namespace Verif.GenTypes

open Verif.GenFields Verif.Discovered

variable {τ : Type} [DecidableEq τ]

theorem both_some {x y : Res (Option (List τ))} {l : List τ} (h : both x y = .ok (some l)) :
    ∃ a b, x = .ok (some a) ∧ y = .ok (some b) ∧ l = a ++ b := by
  unfold both at h
  split at h
  · cases h
  · cases h
  · cases h
  · split at h
    · cases h
    · cases h
    · cases h
    · cases h; exact ⟨_, _, rfl, rfl, rfl⟩

theorem both_ok {x y : Nat → Res (Option (List τ))} {a b} (hx : Conv x a) (hy : Conv y b) :
    ∃ r, Conv (fun n => both (x n) (y n)) r := by
  obtain ⟨m, hm⟩ := hx
  obtain ⟨n, hn⟩ := hy
  cases a with
  | none => exact ⟨none, m, fun k hk => by simp only [both, hm k hk]⟩
  | some a =>
    cases b with
    | none => exact ⟨none, max m n, fun k hk => by simp only [both, hm k (by omega), hn k (by omega)]⟩
    | some b => exact ⟨some (a ++ b), max m n, fun k hk => by simp only [both, hm k (by omega), hn k (by omega)]⟩

theorem isByte_iff (ty : Types τ) (t : τ) : isByte ty t = true ↔ ty.kind t = .basic true := by
  unfold isByte
  cases hk : ty.kind t <;> simp

theorem body_mentions (ty : Types τ) (d : Dir) (cur : τ) (fuel : Nat) :
    (∀ t l, body ty d cur fuel t = .ok (some l) → ∀ u, u ∈ l ↔ Mentions ty d cur t u) ∧
    (∀ t l, bodyWithoutCheck ty d cur fuel t = .ok (some l) → (t = cur ∨ ty.leaf d t = false) →
      ∀ u, u ∈ l ↔ Mentions ty d cur t u) := by
  induction fuel with
  | zero => exact ⟨fun t l h => by simp [body] at h, fun t l h => by simp [bodyWithoutCheck] at h⟩
  | succ fuel ih =>
    refine ⟨?_, ?_⟩
    · intro t l h u
      rw [body] at h
      by_cases hc : t ≠ cur ∧ ty.leaf d t = true
      · rw [if_pos hc] at h
        cases h
        constructor
        · intro h; simp at h
        · intro h
          have hno : ¬ Open ty d cur t := by
            rintro ⟨h | h, _⟩
            · exact hc.1 h
            · rw [hc.2] at h; cases h
          cases h with
          | here h _ => exact absurd h hno
          | part h _ _ => exact absurd h hno
      · rw [if_neg hc] at h
        refine ih.2 t l h ?_ u
        by_cases ht : t = cur
        · exact .inl ht
        · cases hl : ty.leaf d t with
          | false => exact .inr rfl
          | true => exact absurd ⟨ht, hl⟩ hc
    · intro t l h ho u
      rw [bodyWithoutCheck] at h
      by_cases htime : ty.time t = true
      · rw [if_pos htime] at h
        cases h
        constructor
        · intro h; simp at h
        · intro h
          cases h with
          | here h _ => rw [h.2] at htime; cases htime
          | part h _ _ => rw [h.2] at htime; cases htime
      · rw [if_neg htime] at h
        have hop : Open ty d cur t := ⟨ho, by simpa using htime⟩
        have hnone : (∀ e, ¬ Part ty e t) → (∀ fs, ty.kind t ≠ .struct fs) → ¬ Mentions ty d cur t u := by
          intro h1 h2 hm
          cases hm with
          | here _ hk => exact h2 _ hk
          | part _ hp _ => exact h1 _ hp
        have hone : ∀ e, Part ty e t → (∀ e', Part ty e' t → e' = e) → (∀ fs, ty.kind t ≠ .struct fs) →
            (u ∈ l ↔ Mentions ty d cur e u) → (u ∈ l ↔ Mentions ty d cur t u) := by
          intro e hp he hs hiff
          rw [hiff]
          constructor
          · exact .part hop hp
          · intro hm
            cases hm with
            | here _ hk => exact absurd hk (hs _)
            | part _ hp' hm' => rw [he _ hp'] at hm'; exact hm'
        cases hk : ty.kind t with
        | basic b =>
          rw [hk] at h; cases h
          refine iff_of_false (by simp) (hnone ?_ (by simp [hk]))
          intro e hp; cases hp <;> simp_all
        | slice e =>
          rw [hk] at h
          simp only at h
          by_cases hb : isByte ty e = true
          · rw [if_pos hb] at h; cases h
            refine iff_of_false (by simp) (hnone ?_ (by simp [hk]))
            rw [isByte_iff] at hb
            intro e hp; cases hp <;> simp_all
          · rw [if_neg hb] at h
            rw [isByte_iff] at hb
            refine hone e (.slice hk hb) ?_ (by simp [hk]) (ih.1 e l h u)
            intro e' hp; cases hp <;> simp_all
        | array n e =>
          rw [hk] at h
          simp only at h
          by_cases hb : isByte ty e = true
          · rw [if_pos hb] at h; cases h
            refine iff_of_false (by simp) (hnone ?_ (by simp [hk]))
            rw [isByte_iff] at hb
            intro e hp; cases hp <;> simp_all
          · rw [if_neg hb] at h
            rw [isByte_iff] at hb
            refine hone e (.array hk hb) ?_ (by simp [hk]) (ih.1 e l h u)
            intro e' hp; cases hp <;> simp_all
        | pointer e =>
          rw [hk] at h
          refine hone e (.pointer hk) ?_ (by simp [hk]) (ih.1 e l h u)
          intro e' hp; cases hp <;> simp_all
        | map k e =>
          rw [hk] at h
          obtain ⟨a, b, ha, hb, rfl⟩ := both_some h
          rw [List.mem_append, ih.1 k a ha u, ih.1 e b hb u]
          constructor
          · rintro (hm | hm)
            · exact .part hop (.key hk) hm
            · exact .part hop (.value hk) hm
          · intro hm
            cases hm with
            | here _ hk' => rw [hk] at hk'; cases hk'
            | part _ hp hm' =>
              cases hp with
              | slice hk' | array hk' | pointer hk' => rw [hk] at hk'; cases hk'
              | key hk' => rw [hk] at hk'; cases hk'; exact .inl hm'
              | value hk' => rw [hk] at hk'; cases hk'; exact .inr hm'
        | struct fs =>
          rw [hk] at h; cases h
          simp only [List.mem_singleton]
          constructor
          · rintro rfl; exact .here hop hk
          · intro hm
            cases hm with
            | here _ _ => rfl
            | part _ hp _ => cases hp <;> simp_all
        | iface m =>
          rw [hk] at h
          simp only at h
          split at h
          · cases h
          · cases h
            refine iff_of_false (by simp) (hnone ?_ (by simp [hk]))
            intro e hp; cases hp <;> simp_all
        | other b => rw [hk] at h; cases h

theorem fieldBodies_mentions (ty : Types τ) (d : Dir) (cur : τ) (fuel : Nat) :
    ∀ (fs : List (Field τ)) l, fieldBodies ty d cur fuel fs = .ok (some l) →
      ∀ u, u ∈ l ↔ ∃ f ∈ fs, (parseTags f.tag).omitField = false ∧ Mentions ty d cur f.type u
  | [], l, h, u => by simp [fieldBodies] at h; subst h; simp
  | f :: fs, l, h, u => by
    rw [fieldBodies] at h
    by_cases ho : (parseTags f.tag).omitField = true
    · rw [if_pos ho] at h
      rw [fieldBodies_mentions ty d cur fuel fs l h u]
      simp [ho]
    · rw [if_neg ho] at h
      obtain ⟨a, b, ha, hb, rfl⟩ := both_some h
      rw [List.mem_append, (body_mentions ty d cur fuel).1 f.type a ha u, fieldBodies_mentions ty d cur fuel fs b hb u]
      simp at ho
      simp [ho]

/-- `getStructFields` gives one answer. -/
theorem getStructFields_mono {o : Opts} {desc : τ → Kind τ} :
    ∀ (m n : Nat), m ≤ n → ∀ t r, getStructFields o desc m t = .ok r → getStructFields o desc n t = .ok r := by
  intro m
  induction m with
  | zero => intro n _ t r h; simp [getStructFields] at h
  | succ m ih =>
    intro n hn t r h
    obtain ⟨n, rfl⟩ : ∃ k, n = k + 1 := ⟨n - 1, by omega⟩
    have hloop : ∀ (fs embedded fields : List (Field τ)) r, firstLoop o desc (getStructFields o desc m) fs embedded fields = .ok r →
        firstLoop o desc (getStructFields o desc n) fs embedded fields = .ok r := by
      intro fs
      induction fs with
      | nil => intro e f r h; exact h
      | cons f fs ihf =>
        intro embedded fields r h
        unfold firstLoop at h ⊢
        cases hi : inlined o f with
        | false => rw [hi, if_pos rfl] at h; rw [if_pos rfl]; exact ihf _ _ _ h
        | true =>
          rw [hi, if_neg (by simp)] at h
          rw [if_neg (by simp)]
          have hb : ∀ k : Kind τ, (if basicKind k && keepBasic o f then
                firstLoop o desc (getStructFields o desc m) fs embedded (fields ++ [f])
              else firstLoop o desc (getStructFields o desc m) fs embedded fields) = .ok r →
              (if basicKind k && keepBasic o f then
                firstLoop o desc (getStructFields o desc n) fs embedded (fields ++ [f])
              else firstLoop o desc (getStructFields o desc n) fs embedded fields) = .ok r := by
            intro k h
            by_cases hk : (basicKind k && keepBasic o f) = true
            · rw [if_pos hk] at h ⊢; exact ihf _ _ _ h
            · rw [if_neg hk] at h ⊢; exact ihf _ _ _ h
          cases hk : desc (deref desc f.type) with
          | struct gs =>
            rw [hk] at h
            simp only at h ⊢
            cases hc : getStructFields o desc m (deref desc f.type) with
            | timeout => rw [hc] at h; cases h
            | panic => rw [hc] at h; cases h
            | ok x =>
              rw [ih n (by omega) _ _ hc]
              rw [hc] at h
              cases x with
              | none => exact h
              | some gs => exact ihf _ _ _ h
          | basic b => rw [hk] at h; exact hb _ h
          | other b => rw [hk] at h; exact hb _ h
          | slice b => rw [hk] at h; exact hb _ h
          | array b c => rw [hk] at h; exact hb _ h
          | pointer b => rw [hk] at h; exact hb _ h
          | map b c => rw [hk] at h; exact hb _ h
          | iface b => rw [hk] at h; exact hb _ h
    unfold getStructFields at h ⊢
    cases hk : desc t with
    | struct fs =>
      rw [hk] at h
      simp only at h ⊢
      cases hl : firstLoop o desc (getStructFields o desc m) fs [] [] with
      | timeout => rw [hl] at h; cases h
      | panic => rw [hl] at h; cases h
      | ok x => rw [hloop _ _ _ _ hl]; rw [hl] at h; exact h
    | _ => rw [hk] at h; exact h

theorem getStructFields_det {o : Opts} {desc : τ → Kind τ} {m n : Nat} {t : τ} {r s}
    (h1 : getStructFields o desc m t = .ok r) (h2 : getStructFields o desc n t = .ok s) : r = s := by
  have h3 := getStructFields_mono m (max m n) (by omega) t r h1
  have h4 := getStructFields_mono n (max m n) (by omega) t s h2
  rw [h3] at h4
  cases h4
  rfl

theorem genFunction_spec {o : Opts} {ty : Types τ} {d : Dir} {fuel : Nat} {t : τ} {l : List τ}
    (h : genFunction o ty d fuel t = .ok (some l)) (u : τ) :
    u ∈ l ↔ (∃ fs out f, ty.kind t = .struct fs ∧ getStructFields o ty.kind fuel t = .ok (some out) ∧ f ∈ out ∧
      (parseTags f.tag).omitField = false ∧ Mentions ty d t f.type u) ∨
      ((∀ fs, ty.kind t ≠ .struct fs) ∧ Mentions ty d t t u) := by
  unfold genFunction at h
  have hdirect : (∀ fs, ty.kind t ≠ .struct fs) → bodyWithoutCheck ty d t fuel t = .ok (some l) → (u ∈ l ↔
      (∃ fs out f, ty.kind t = .struct fs ∧ getStructFields o ty.kind fuel t = .ok (some out) ∧ f ∈ out ∧
      (parseTags f.tag).omitField = false ∧ Mentions ty d t f.type u) ∨
      ((∀ fs, ty.kind t ≠ .struct fs) ∧ Mentions ty d t t u)) := by
    intro hk h
    rw [(body_mentions ty d t fuel).2 t l h (.inl rfl) u]
    constructor
    · exact fun hm => .inr ⟨hk, hm⟩
    · rintro (⟨fs, _, _, hs, _⟩ | ⟨_, hm⟩)
      · exact absurd hs (hk fs)
      · exact hm
  cases hk : ty.kind t with
  | struct fs =>
    rw [hk] at h
    simp only at h
    cases hg : getStructFields o ty.kind fuel t with
    | timeout => rw [hg] at h; cases h
    | panic => rw [hg] at h; cases h
    | ok x =>
      cases x with
      | none => rw [hg] at h; cases h
      | some out =>
        rw [hg] at h
        rw [fieldBodies_mentions ty d t fuel out l h u]
        constructor
        · rintro ⟨f, hf, ho, hm⟩; exact .inl ⟨fs, out, f, rfl, rfl, hf, ho, hm⟩
        · rintro (⟨_, out', f, _, ho', hf, ho, hm⟩ | ⟨hn, _⟩)
          · cases ho'; exact ⟨f, hf, ho, hm⟩
          · exact absurd rfl (hn fs)
  | basic b => rw [← hk]; refine hdirect (by simp [hk]) ?_; rw [hk] at h; exact h
  | other b => rw [← hk]; refine hdirect (by simp [hk]) ?_; rw [hk] at h; exact h
  | slice b => rw [← hk]; refine hdirect (by simp [hk]) ?_; rw [hk] at h; exact h
  | array b c => rw [← hk]; refine hdirect (by simp [hk]) ?_; rw [hk] at h; exact h
  | pointer b => rw [← hk]; refine hdirect (by simp [hk]) ?_; rw [hk] at h; exact h
  | map b c => rw [← hk]; refine hdirect (by simp [hk]) ?_; rw [hk] at h; exact h
  | iface b => rw [← hk]; refine hdirect (by simp [hk]) ?_; rw [hk] at h; exact h

theorem found_calls {o : Opts} {ty : Types τ} {fuel : Nat} {t : τ} {l : List τ}
    (h : both (genFunction o ty .dec fuel t) (genFunction o ty .enc fuel t) = .ok (some l)) (u : τ) :
    u ∈ l ↔ Calls o ty t u := by
  obtain ⟨a, b, ha, hb, rfl⟩ := both_some h
  rw [List.mem_append, genFunction_spec ha u, genFunction_spec hb u]
  constructor
  · rintro ((⟨fs, out, f, h1, h2, h3, h4, h5⟩ | ⟨h1, h2⟩) | (⟨fs, out, f, h1, h2, h3, h4, h5⟩ | ⟨h1, h2⟩))
    · exact .field h1 h2 h3 h4 h5
    · exact .direct h1 h2
    · exact .field h1 h2 h3 h4 h5
    · exact .direct h1 h2
  · rintro (⟨h1, h2, h3, h4, h5⟩ | ⟨h1, h2⟩)
    · rename_i fs fuel' out f d
      have hout : ∃ out', getStructFields o ty.kind fuel t = .ok (some out') := by
        unfold genFunction at ha
        rw [h1] at ha
        simp only at ha
        cases hg : getStructFields o ty.kind fuel t with
        | timeout => rw [hg] at ha; cases ha
        | panic => rw [hg] at ha; cases ha
        | ok x =>
          cases x with
          | none => rw [hg] at ha; cases ha
          | some out => exact ⟨out, rfl⟩
      obtain ⟨out', hout'⟩ := hout
      have := getStructFields_det hout' h2
      cases this
      cases d with
      | dec => exact .inl (.inl ⟨fs, _, f, h1, hout', h3, h4, h5⟩)
      | enc => exact .inr (.inl ⟨fs, _, f, h1, hout', h3, h4, h5⟩)
    · rename_i d
      cases d with
      | dec => exact .inl (.inr ⟨h1, h2⟩)
      | enc => exact .inr (.inr ⟨h1, h2⟩)

/-- The types of the functions written. -/
def functions (d : Dir) (es : List (Event τ)) : List τ :=
  es.filterMap fun e => match e with | .function d' t => if d' = d then some t else none | .methods _ _ => none

def methodsOf (d : Dir) (es : List (Event τ)) : List τ :=
  es.filterMap fun e => match e with | .methods d' t => if d' = d then some t else none | .function _ _ => none

theorem addType_spec (g : Gen τ) (t : τ) : (addType g t).generated = g.generated ∧ (addType g t).out = g.out ∧
    (∀ u, u ∈ (addType g t).pending ↔ u ∈ g.pending ∨ (u = t ∧ t ∉ g.generated)) ∧
    ((g.pending ++ g.generated).Nodup → ((addType g t).pending ++ (addType g t).generated).Nodup) := by
  unfold addType
  by_cases h1 : g.generated.contains t = true
  · rw [if_pos h1]
    simp only [List.contains_eq_mem, decide_eq_true_eq] at h1
    exact ⟨rfl, rfl, fun u => ⟨.inl, fun h => h.elim id (fun h => absurd h1 h.2)⟩, id⟩
  · rw [if_neg h1]
    simp only [List.contains_eq_mem, decide_eq_true_eq] at h1
    by_cases h2 : g.pending.contains t = true
    · rw [if_pos h2]
      simp only [List.contains_eq_mem, decide_eq_true_eq] at h2
      refine ⟨rfl, rfl, fun u => ⟨.inl, fun h => h.elim id (fun h => h.1 ▸ h2)⟩, id⟩
    · rw [if_neg h2]
      simp only [List.contains_eq_mem, decide_eq_true_eq] at h2
      refine ⟨rfl, rfl, fun u => ?_, fun hn => ?_⟩
      · simp only [List.mem_cons]
        constructor
        · rintro (h | h)
          · exact .inr ⟨h, h1⟩
          · exact .inl h
        · rintro (h | h)
          · exact .inr h
          · exact .inl h.1
      · simp only [List.cons_append]
        exact List.nodup_cons.2 ⟨by simp [h1, h2], hn⟩

theorem foldl_addType (l : List τ) : ∀ g : Gen τ, (l.foldl addType g).generated = g.generated ∧
    (l.foldl addType g).out = g.out ∧
    (∀ u, u ∈ (l.foldl addType g).pending ↔ u ∈ g.pending ∨ (u ∈ l ∧ u ∉ g.generated)) ∧
    ((g.pending ++ g.generated).Nodup → ((l.foldl addType g).pending ++ (l.foldl addType g).generated).Nodup) := by
  induction l with
  | nil => intro g; simp
  | cons t l ih =>
    intro g
    obtain ⟨h1, h2, h3, h4⟩ := addType_spec g t
    obtain ⟨h5, h6, h7, h8⟩ := ih (addType g t)
    refine ⟨by rw [List.foldl_cons, h5, h1], by rw [List.foldl_cons, h6, h2], ?_, fun hn => by
      rw [List.foldl_cons]; exact h8 (h4 hn)⟩
    intro u
    rw [List.foldl_cons, h7, h3, h1]
    constructor
    · rintro ((h | ⟨rfl, h⟩) | ⟨h, h'⟩)
      · exact .inl h
      · exact .inr ⟨by simp, h⟩
      · exact .inr ⟨by simp [h], h'⟩
    · rintro (h | ⟨h, h'⟩)
      · exact .inl (.inl h)
      · simp only [List.mem_cons] at h
        rcases h with rfl | h
        · exact .inl (.inr ⟨rfl, h'⟩)
        · exact .inr ⟨h, h'⟩

/-- The invariant of the loop. -/
structure Inv (o : Opts) (ty : Types τ) (target : τ) (g : Gen τ) : Prop where
  nodup : (g.pending ++ g.generated).Nodup
  start : target ∈ g.pending ∨ target ∈ g.generated
  discovered : ∀ t, t ∈ g.pending ∨ t ∈ g.generated → Discovered o ty target t
  closed : ∀ t ∈ g.generated, ∀ u, Calls o ty t u → u ∈ g.pending ∨ u ∈ g.generated
  functions : ∀ d, functions d g.out = g.generated.reverse
  methods : ∀ d, methodsOf d g.out = if target ∈ g.generated then [target] else []

theorem inv_start (o : Opts) (ty : Types τ) (target : τ) : Inv o ty target (start target) := by
  constructor <;> simp [start, addType, functions, methodsOf]
  exact .target

theorem functions_append (d : Dir) (a b : List (Event τ)) : functions d (a ++ b) = functions d a ++ functions d b := by
  simp [functions]

theorem methodsOf_append (d : Dir) (a b : List (Event τ)) : methodsOf d (a ++ b) = methodsOf d a ++ methodsOf d b := by
  simp [methodsOf]

theorem inv_turn {o : Opts} {ty : Types τ} {target : τ} {fuel : Nat} {g g' : Gen τ} {t : τ} {rest : List τ}
    (hi : Inv o ty target g) (hp : g.pending = t :: rest) (h : turn o ty target fuel g t rest = .ok (some g')) :
    Inv o ty target g' ∧ g'.generated = t :: g.generated := by
  unfold turn at h
  cases hf : both (genFunction o ty .dec fuel t) (genFunction o ty .enc fuel t) with
  | timeout => rw [hf] at h; cases h
  | panic => rw [hf] at h; cases h
  | ok x =>
    cases x with
    | none => rw [hf] at h; cases h
    | some found =>
      rw [hf] at h
      simp only [Res.ok.injEq, Option.some.injEq] at h
      have hcalls := found_calls hf
      obtain ⟨h1, h2, h3, h4⟩ := foldl_addType found
        ⟨rest, t :: g.generated, g.out ++ [.function .dec t, .function .enc t]⟩
      generalize found.foldl addType ⟨rest, t :: g.generated, g.out ++ [.function .dec t, .function .enc t]⟩ = g1 at h h1 h2 h3 h4
      simp only at h1 h2 h3 h4
      have hnd := hi.nodup
      rw [hp, List.cons_append] at hnd
      have hperm : (rest ++ t :: g.generated).Nodup := by
        have := (List.nodup_cons.1 hnd)
        simp only [List.mem_append, not_or] at this
        refine List.nodup_append.2 ⟨(List.nodup_append.1 this.2).1,
          List.nodup_cons.2 ⟨this.1.2, (List.nodup_append.1 this.2).2.1⟩, ?_⟩
        intro a ha b hb hab
        simp only [List.mem_cons] at hb
        rcases hb with rfl | hb
        · exact this.1.1 (hab ▸ ha)
        · exact (List.nodup_append.1 this.2).2.2 a ha b hb hab
      have htd : Discovered o ty target t := hi.discovered t (by simp [hp])
      have htg : t ∉ g.generated := by
        have := (List.nodup_cons.1 hnd).1
        simp only [List.mem_append, not_or] at this
        exact this.2
      have hbase : ∀ es : List (Event τ), (∀ d, functions d es = []) → (∀ d, methodsOf d es = if t = target then [target] else []) →
          ∀ g2 : Gen τ, g2.pending = g1.pending → g2.generated = g1.generated → g2.out = g1.out ++ es →
          Inv o ty target g2 := by
        intro es hes1 hes2 g2 e1 e2 e3
        constructor
        · rw [e1, e2]; exact h4 hperm
        · rw [e1, e2, h1, h3]
          rcases hi.start with h | h
          · rw [hp] at h
            simp only [List.mem_cons] at h
            rcases h with h | h
            · exact .inr (by simp [h])
            · exact .inl (.inl h)
          · exact .inr (by simp [h])
        · intro u hu
          rw [e1, e2, h1, h3] at hu
          rcases hu with (hu | ⟨hu, _⟩) | hu
          · exact hi.discovered u (.inl (by simp [hp, hu]))
          · exact .call htd ((hcalls u).1 hu)
          · simp only [List.mem_cons] at hu
            rcases hu with rfl | hu
            · exact htd
            · exact hi.discovered u (.inr hu)
        · intro v hv u hu
          rw [e2, h1] at hv
          rw [e1, e2, h1, h3]
          simp only [List.mem_cons] at hv
          by_cases hug : u ∈ t :: g.generated
          · exact .inr hug
          · rcases hv with rfl | hv
            · exact .inl (.inr ⟨(hcalls u).2 hu, hug⟩)
            · rcases hi.closed v hv u hu with h | h
              · rw [hp] at h
                simp only [List.mem_cons] at h
                rcases h with h | h
                · exact .inr (by simp [h])
                · exact .inl (.inl h)
              · exact .inr (by simp [h])
        · intro d
          rw [e3, h2, e2, h1, functions_append, functions_append, hes1 d, hi.functions d]
          cases d <;> simp [functions]
        · intro d
          rw [e3, h2, e2, h1, methodsOf_append, methodsOf_append, hes2 d, hi.methods d]
          by_cases ht : t = target
          · subst ht
            simp [methodsOf, htg]
          · simp [methodsOf, ht, Ne.symm ht]
      by_cases ht : t = target
      · rw [if_pos ht] at h
        subst h
        refine ⟨hbase [.methods .dec t, .methods .enc t] (by intro d; simp [functions])
          (by intro d; cases d <;> simp [methodsOf, ht]) _ rfl rfl rfl, h1⟩
      · rw [if_neg ht] at h
        subst h
        exact ⟨hbase [] (by intro d; simp [functions]) (by intro d; simp [methodsOf, ht]) _ rfl rfl (by simp), h1⟩

theorem generate_inv {o : Opts} {ty : Types τ} {target : τ} : ∀ (fuel : Nat) (g : Gen τ) es, Inv o ty target g →
    generate o ty target fuel g = .ok (some es) → ∃ g', Inv o ty target g' ∧ g'.pending = [] ∧ g'.out = es
  | 0, g, es, _, h => by simp [generate] at h
  | fuel + 1, g, es, hi, h => by
    unfold generate at h
    cases hp : g.pending with
    | nil => rw [hp] at h; cases h; exact ⟨g, hi, hp, rfl⟩
    | cons t rest =>
      rw [hp] at h
      simp only at h
      cases ht : turn o ty target fuel g t rest with
      | timeout => rw [ht] at h; cases h
      | panic => rw [ht] at h; cases h
      | ok x =>
        cases x with
        | none => rw [ht] at h; cases h
        | some g' =>
          rw [ht] at h
          exact generate_inv fuel g' es (inv_turn hi hp ht).1 h

end Verif.GenTypes
