import Verif.Lemmas.GenTypes
import Verif.Props.GenFields

/-!
C37: the generator's worklist.
-/

set_option linter.unusedSimpArgs false

namespace Verif.Props.GenTypes

open Verif.GenFields Verif.GenTypes Verif.Discovered Verif.Props.GenFields

variable {τ : Type} [DecidableEq τ]

/-- A run that ends without an error has written exactly one decoding and one encoding function for each type that is the
target or called for by functions written, for no other type, and the methods of the target type once. -/
theorem each_type_once (o : Opts) (ty : Types τ) (target : τ) (fuel : Nat) (es : List (Event τ))
    (h : generate o ty target fuel (start target) = .ok (some es)) (d : Dir) :
    (functions d es).Nodup ∧ (∀ t, t ∈ functions d es ↔ Discovered o ty target t) ∧ methodsOf d es = [target] := by
  obtain ⟨g, hi, hp, rfl⟩ := generate_inv fuel _ es (inv_start o ty target) h
  have hn := hi.nodup
  rw [hp, List.nil_append] at hn
  have ht : target ∈ g.generated := by
    rcases hi.start with h | h
    · rw [hp] at h; simp at h
    · exact h
  rw [hi.functions d, hi.methods d, if_pos ht]
  refine ⟨(List.reverse_perm _).nodup_iff.2 hn, ?_, rfl⟩
  intro t
  rw [List.mem_reverse]
  constructor
  · exact fun h => hi.discovered t (.inr h)
  · intro h
    induction h with
    | target => exact ht
    | call _ hc ih =>
      rcases hi.closed _ ih _ hc with h | h
      · rw [hp] at h; simp at h
      · exact h

theorem body_conv {ty : Types τ} {d : Dir} {cur : τ} (t : τ) (h : Acc (Part ty) t) :
    (∃ r, Conv (fun n => body ty d cur n t) r) ∧ ∃ r, Conv (fun n => bodyWithoutCheck ty d cur n t) r := by
  induction h with
  | intro t _ ih =>
    have h2 : ∃ r, Conv (fun n => bodyWithoutCheck ty d cur n t) r := by
      by_cases htime : ty.time t = true
      · exact ⟨_, Conv.succ (fun n => by rw [bodyWithoutCheck, if_pos htime]) (Conv.pure _)⟩
      · cases hk : ty.kind t with
        | basic b => exact ⟨_, Conv.succ (fun n => by rw [bodyWithoutCheck, if_neg htime, hk]) (Conv.pure _)⟩
        | other b => exact ⟨_, Conv.succ (fun n => by rw [bodyWithoutCheck, if_neg htime, hk]) (Conv.pure _)⟩
        | struct b => exact ⟨_, Conv.succ (fun n => by rw [bodyWithoutCheck, if_neg htime, hk]) (Conv.pure _)⟩
        | iface b =>
          exact ⟨_, Conv.succ (fun n => by rw [bodyWithoutCheck, if_neg htime, hk]; simp only; exact apply_ite Res.ok _ _ _ |>.symm) (Conv.pure _)⟩
        | pointer e =>
          obtain ⟨r, hr⟩ := (ih e (.pointer hk)).1
          exact ⟨r, Conv.succ (fun n => by rw [bodyWithoutCheck, if_neg htime, hk]) hr⟩
        | slice e =>
          by_cases hb : isByte ty e = true
          · exact ⟨some [], Conv.succ (fun n => by rw [bodyWithoutCheck, if_neg htime, hk]; simp only [if_pos hb]) (Conv.pure _)⟩
          · obtain ⟨r, hr⟩ := (ih e (.slice hk (fun h => hb ((isByte_iff ty e).2 h)))).1
            exact ⟨r, Conv.succ (fun n => by rw [bodyWithoutCheck, if_neg htime, hk]; simp only [if_neg hb]) hr⟩
        | array m e =>
          by_cases hb : isByte ty e = true
          · exact ⟨some [], Conv.succ (fun n => by rw [bodyWithoutCheck, if_neg htime, hk]; simp only [if_pos hb]) (Conv.pure _)⟩
          · obtain ⟨r, hr⟩ := (ih e (.array hk (fun h => hb ((isByte_iff ty e).2 h)))).1
            exact ⟨r, Conv.succ (fun n => by rw [bodyWithoutCheck, if_neg htime, hk]; simp only [if_neg hb]) hr⟩
        | map k e =>
          obtain ⟨r, hr⟩ := (ih k (.key hk)).1
          obtain ⟨s, hs⟩ := (ih e (.value hk)).1
          obtain ⟨q, hq⟩ := both_ok hr hs
          exact ⟨q, Conv.succ (fun n => by rw [bodyWithoutCheck, if_neg htime, hk]) hq⟩
    refine ⟨?_, h2⟩
    obtain ⟨r, hr⟩ := h2
    by_cases hc : t ≠ cur ∧ ty.leaf d t = true
    · exact ⟨_, Conv.succ (fun n => by rw [body, if_pos hc]) (Conv.pure _)⟩
    · exact ⟨r, Conv.succ (fun n => by rw [body, if_neg hc]) hr⟩

theorem fieldBodies_conv {ty : Types τ} {d : Dir} {cur : τ} (hp : ∀ t, Acc (Part ty) t) :
    ∀ fs : List (Field τ), ∃ r, Conv (fun n => fieldBodies ty d cur n fs) r
  | [] => ⟨_, Conv.pure _⟩
  | f :: fs => by
    obtain ⟨r, hr⟩ := fieldBodies_conv hp fs (d := d) (cur := cur)
    by_cases ho : (parseTags f.tag).omitField = true
    · exact ⟨r, Conv.congr (fun n => by rw [fieldBodies, if_pos ho]) hr⟩
    · obtain ⟨s, hs⟩ := (body_conv (d := d) (cur := cur) f.type (hp _)).1
      obtain ⟨q, hq⟩ := both_ok hs hr
      exact ⟨q, Conv.congr (fun n => by rw [fieldBodies, if_neg ho]) hq⟩

theorem genFunction_conv {o : Opts} {ty : Types τ} (hp : ∀ t, Acc (Part ty) t) (hi : ∀ t, Acc (Inlines o ty.kind) t)
    (d : Dir) (t : τ) : ∃ r, Conv (fun n => genFunction o ty d n t) r := by
  have hdirect := (body_conv (ty := ty) (d := d) (cur := t) t (hp t)).2
  cases hk : ty.kind t with
  | struct fs =>
    obtain ⟨x, a, ha⟩ := fields_found_partial o ty.kind t (hi t)
    cases x with
    | none => exact ⟨none, a, fun n hn => by simp only [genFunction, hk, ha n hn]⟩
    | some out =>
      obtain ⟨r, b, hb⟩ := fieldBodies_conv (d := d) (cur := t) hp out
      exact ⟨r, max a b, fun n hn => by simp only [genFunction, hk, ha n (by omega), hb n (by omega)]⟩
  | basic b => obtain ⟨r, hr⟩ := hdirect; exact ⟨r, Conv.congr (fun n => by rw [genFunction, hk]) hr⟩
  | other b => obtain ⟨r, hr⟩ := hdirect; exact ⟨r, Conv.congr (fun n => by rw [genFunction, hk]) hr⟩
  | slice b => obtain ⟨r, hr⟩ := hdirect; exact ⟨r, Conv.congr (fun n => by rw [genFunction, hk]) hr⟩
  | array b c => obtain ⟨r, hr⟩ := hdirect; exact ⟨r, Conv.congr (fun n => by rw [genFunction, hk]) hr⟩
  | pointer b => obtain ⟨r, hr⟩ := hdirect; exact ⟨r, Conv.congr (fun n => by rw [genFunction, hk]) hr⟩
  | map b c => obtain ⟨r, hr⟩ := hdirect; exact ⟨r, Conv.congr (fun n => by rw [genFunction, hk]) hr⟩
  | iface b => obtain ⟨r, hr⟩ := hdirect; exact ⟨r, Conv.congr (fun n => by rw [genFunction, hk]) hr⟩

theorem turn_conv {o : Opts} {ty : Types τ} (hp : ∀ t, Acc (Part ty) t) (hi : ∀ t, Acc (Inlines o ty.kind) t)
    (target : τ) (g : Gen τ) (t : τ) (rest : List τ) : ∃ r, Conv (fun n => turn o ty target n g t rest) r := by
  obtain ⟨r, hr⟩ := genFunction_conv hp hi .dec t
  obtain ⟨s, hs⟩ := genFunction_conv hp hi .enc t
  obtain ⟨q, a, ha⟩ := both_ok hr hs
  cases q with
  | none => exact ⟨none, a, fun n hn => by simp only [turn, ha n hn]⟩
  | some found => exact ⟨_, a, fun n hn => by simp only [turn, ha n hn]; rfl⟩

/-- The run ends (maybe with an error, for unsupported types) for every finite graph of types in which no type is a part of
itself otherwise than through the fields of a struct, and no struct inlines itself.  Missing for the property: the other graphs,
for which it is false (`recursive_slice_diverges`, `inlined_in_itself_diverges`). -/
theorem run_ends_partial (o : Opts) (ty : Types τ) (target : τ) (univ : List τ)
    (hfin : ∀ t, Discovered o ty target t → t ∈ univ) (hp : ∀ t, Acc (Part ty) t) (hi : ∀ t, Acc (Inlines o ty.kind) t) :
    ∃ r, Conv (fun n => generate o ty target n (start target)) r := by
  have key : ∀ (k : Nat) (g : Gen τ), Inv o ty target g → univ.length - g.generated.length ≤ k →
      ∃ r, Conv (fun n => generate o ty target n g) r := by
    intro k
    induction k with
    | zero =>
      intro g hg hk
      cases hpend : g.pending with
      | nil => exact ⟨some g.out, Conv.succ (fun n => by rw [generate, hpend]) (Conv.pure _)⟩
      | cons t rest =>
        exfalso
        have hn := hg.nodup
        have hlen := Verif.GenNames.pigeonhole _ univ hn (fun x hx => hfin x (hg.discovered x (List.mem_append.1 hx)))
        rw [hpend] at hlen
        simp at hlen
        omega
    | succ k ih =>
      intro g hg hk
      cases hpend : g.pending with
      | nil => exact ⟨some g.out, Conv.succ (fun n => by rw [generate, hpend]) (Conv.pure _)⟩
      | cons t rest =>
        obtain ⟨x, a, ha⟩ := turn_conv hp hi target g t rest
        cases x with
        | none =>
          refine ⟨none, a + 1, fun n hn => ?_⟩
          obtain ⟨m, rfl⟩ : ∃ m, n = m + 1 := ⟨n - 1, by omega⟩
          simp only [generate, hpend, ha m (by omega)]
        | some g' =>
          obtain ⟨hg', hgen⟩ := inv_turn hg hpend (ha a (Nat.le_refl _))
          obtain ⟨r, b, hb⟩ := ih g' hg' (by rw [hgen]; simp; omega)
          refine ⟨r, max a b + 1, fun n hn => ?_⟩
          obtain ⟨m, rfl⟩ : ∃ m, n = m + 1 := ⟨n - 1, by omega⟩
          simp only [generate, hpend, ha m (by omega), hb m (by omega)]
  exact key _ (start target) (inv_start o ty target) (Nat.le_refl _)

/-- `type T []T`, a legal Go type. -/
def recursiveSlice : Types Unit where
  kind := fun _ => .slice ()
  leaf := fun _ _ => false
  time := fun _ => false
  iface := fun _ _ => false

/-- For it the generator never ends. -/
theorem recursive_slice_diverges (o : Opts) :
    Diverges fun n => generate o recursiveSlice () n (start ()) := by
  have hb : ∀ n d, body recursiveSlice d () n () = .timeout ∧ bodyWithoutCheck recursiveSlice d () n () = .timeout := by
    intro n d
    induction n with
    | zero => exact ⟨rfl, rfl⟩
    | succ n ih =>
      refine ⟨?_, ?_⟩
      · rw [body, if_neg (by simp)]; exact ih.2
      · have hbyte : isByte recursiveSlice () = false := rfl
        rw [bodyWithoutCheck]
        simp only [recursiveSlice] at hbyte ih ⊢
        simp only [hbyte, ih.1]
        rfl
  intro n
  cases n with
  | zero => rfl
  | succ n =>
    have : turn o recursiveSlice () n (start ()) () [] = .timeout := by
      have hf : genFunction o recursiveSlice .dec n () = .timeout := (hb n .dec).2
      simp only [turn, hf, both]
    show generate o recursiveSlice () (n + 1) (start ()) = .timeout
    rw [generate]
    simp only [start, addType] at this ⊢
    simp only [List.contains_nil, Bool.false_eq_true, if_false] at this ⊢
    rw [this]

/-- `type A struct { B *B; L []B; S string }`, `type B struct { A *A; T time.Time }`: types referring to each other. -/
def mutualTypes : Types Nat where
  kind := fun t => match t with
    | 0 => .struct [⟨['B'], false, 2, []⟩, ⟨['L'], false, 3, []⟩, ⟨['S'], false, 6, []⟩]
    | 1 => .struct [⟨['A'], false, 4, []⟩, ⟨['T'], false, 5, []⟩]
    | 2 => .pointer 1
    | 3 => .slice 1
    | 4 => .pointer 0
    | 5 => .struct []
    | _ => .basic false
  leaf := fun _ t => t = 5
  time := fun t => t = 5
  iface := fun _ _ => false

/-- The run for the target `A`: functions for `A` and `B`, methods for `A`. -/
example : generate opts mutualTypes 0 20 (start 0) = .ok (some
    [.function .dec 0, .function .enc 0, .methods .dec 0, .methods .enc 0, .function .dec 1, .function .enc 1]) := by
  decide +kernel

theorem mutual_parts : ∀ t, Acc (Part mutualTypes) t := by
  have leaf : ∀ t, (∀ e, ¬ Part mutualTypes e t) → Acc (Part mutualTypes) t := fun t h => ⟨t, fun e he => absurd he (h e)⟩
  have hs : ∀ t, (∃ fs, mutualTypes.kind t = .struct fs) ∨ (∃ b, mutualTypes.kind t = .basic b) → Acc (Part mutualTypes) t := by
    intro t ht
    refine leaf t ?_
    intro e he
    rcases ht with ⟨fs, h⟩ | ⟨b, h⟩ <;> cases he <;> simp_all
  have h0 := hs 0 (.inl ⟨_, rfl⟩)
  have h1 := hs 1 (.inl ⟨_, rfl⟩)
  intro t
  match t with
  | 0 => exact h0
  | 1 => exact h1
  | 2 =>
    refine ⟨2, fun e he => ?_⟩
    cases he with
    | pointer h => cases h; exact h1
    | slice h _ | array h _ | key h | value h => cases h
  | 3 =>
    refine ⟨3, fun e he => ?_⟩
    cases he with
    | slice h _ => cases h; exact h1
    | pointer h | array h _ | key h | value h => cases h
  | 4 =>
    refine ⟨4, fun e he => ?_⟩
    cases he with
    | pointer h => cases h; exact h0
    | slice h _ | array h _ | key h | value h => cases h
  | 5 => exact hs 5 (.inl ⟨_, rfl⟩)
  | n + 6 => exact hs _ (.inr ⟨_, rfl⟩)

/-- The hypotheses of `run_ends_partial` are met. -/
example : (∀ t, Acc (Part mutualTypes) t) ∧ (∀ t, Acc (Inlines opts mutualTypes.kind) t) ∧
    ∀ t, Discovered opts mutualTypes 0 t → t ∈ [0, 1] := by
  refine ⟨mutual_parts, ?_, ?_⟩
  · intro t
    refine ⟨t, fun e ⟨fs, f, hk, hf, hi, _⟩ => ?_⟩
    exfalso
    match t with
    | 0 =>
      cases hk
      simp only [List.mem_cons, List.not_mem_nil, or_false] at hf
      rcases hf with rfl | rfl | rfl <;> exact absurd hi (by decide +kernel)
    | 1 =>
      cases hk
      simp only [List.mem_cons, List.not_mem_nil, or_false] at hf
      rcases hf with rfl | rfl <;> exact absurd hi (by decide +kernel)
    | 2 => cases hk
    | 3 => cases hk
    | 4 => cases hk
    | 5 => cases hk; simp at hf
    | n + 6 => cases hk
  · have hrun : generate opts mutualTypes 0 20 (start 0) = .ok (some
        [.function .dec 0, .function .enc 0, .methods .dec 0, .methods .enc 0, .function .dec 1, .function .enc 1]) := by
      decide +kernel
    intro t ht
    have := ((each_type_once opts mutualTypes 0 20 _ hrun .dec).2.1 t).2 ht
    simpa [functions] using this

end Verif.Props.GenTypes
