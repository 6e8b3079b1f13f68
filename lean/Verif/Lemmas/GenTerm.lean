import Verif.Lemmas.GenCode

/-!
Generated decoders end, if errors empty the open collections.
-/

set_option linter.unusedSimpArgs false

namespace Verif.GenCode

open Verif.Decoder Verif.DecoderCursor

variable {σ N : Type} {E : Engine σ N} {V : View N} {R : σ → Cursor N → Prop} {L : Lib} {P : Package}

/-- What is left to be done, 0 after an error. -/
def pot (w : N → Nat) (c : Cursor N) : Nat := if c.fatal.isSome then 0 else mass w c + 1

/-- The cursor is in order: the collection states have been returned, and `k` is their number. -/
structure Inv (V : View N) (ok : N → Prop) (w : N → Nat) (k : Nat) (c : Cursor N) : Prop where
  sound : Sound V ok w c
  sizes : c.sizes.length = k
  handles : ∀ f ∈ c.frames, ∀ x, f.1 = some x → x < k
  pending : ∀ n l, c.pending = some (n, l) → V.size n = 0 → l = []

theorem next_handles {e : Expecter} {fs : List (Frame N)} {r : Option (N × List (Frame N))} (h : Next V e fs r) {k : Nat}
    (hk : ∀ f ∈ fs, ∀ x, f.1 = some x → x < k) : ∀ n gs, r = some (n, gs) → ∀ f ∈ gs, ∀ x, f.1 = some x → x < k := by
  induction h with
  | done => intro n gs h; cases h
  | close _ ih => exact ih fun f hf => hk f (List.mem_cons_of_mem _ hf)
  | take _ =>
    intro n gs h f hf
    cases h
    rcases List.mem_cons.mp hf with rfl | hf
    · intro x hx
      exact hk _ List.mem_cons_self x hx
    · exact hk f (List.mem_cons_of_mem _ hf)
  | enter _ _ ih =>
    refine ih fun f hf => ?_
    rcases List.mem_cons.mp hf with rfl | hf
    · intro x hx; cases hx
    · rcases List.mem_cons.mp hf with rfl | hf
      · intro x hx
        exact hk _ List.mem_cons_self x hx
      · exact hk f (List.mem_cons_of_mem _ hf)

/-- The number of collection states a call returns. -/
def opens (call : Call) : Nat := if opening call then 1 else 0

theorem addSize_length (call : Call) (n : Nat) (l : List Nat) : (addSize call n l).length = l.length + opens call := by
  rw [addSize, opens]
  split <;> simp

variable {ok : N → Prop} {w : N → Nat}

theorem current_handles {e : Expecter} {c : Cursor N} {k : Nat} (hi : Inv V ok w k c)
    (hsize : ∀ n, V.size n = 0 → V.items n = []) {n : N} {l : List N} {fs : List (Frame N)}
    (h : Current V e c (some (n, l, fs))) :
    (∀ f ∈ fs, ∀ x, f.1 = some x → x < k) ∧ (V.size n = 0 → l = []) := by
  cases h with
  | pending h => exact ⟨hi.handles, hi.pending n l h⟩
  | next h1 h2 => exact ⟨next_handles h2 hi.handles n fs rfl, hsize n⟩

theorem inv_step (hw : Weight V ok w) (hm : V.multi = false) (hsize : ∀ n, V.size n = 0 → V.items n = [])
    (hopens : ∀ e n, V.verdict e n = .opens → ∀ call, expecterOf call = some e → opening call = true)
    {c c' : Cursor N} {k : Nat} (hi : Inv V ok w k c) {call : Call} {o : Out N} (h : Step V c call o c') :
    Inv V ok w (k + opens call) c' ∧ pot w c' ≤ pot w c ∧
      (Demands call = true ∨ o = .bool true ∧ call = .tryNull → pot w c' < pot w c ∨ pot w c' = 0) ∧
      (opening call = true → toSize o = 0 → left k c'.frames = []) := by
  obtain ⟨h1, h2, h3, h4⟩ := step_sound hw hm hi.sound h
  have hpot : pot w c' ≤ pot w c := by
    rw [pot, pot]
    split
    · omega
    · rename_i hf
      rw [if_neg (fun h => hf (h2 h))]
      omega
  have hlt : c'.fatal.isSome ∨ mass w c' < mass w c → pot w c' < pot w c ∨ pot w c' = 0 := by
    rintro (h | h)
    · exact .inr (by rw [pot, if_pos h])
    · rw [pot, pot]
      by_cases hf : c'.fatal.isSome
      · exact .inr (by rw [if_pos hf])
      · rw [if_neg hf, if_neg (fun h => hf (h2 h))]
        exact .inl (by omega)
  have hnone : ∀ fs : List (Frame N), (∀ f ∈ fs, ∀ x, f.1 = some x → x < k) → left k fs = [] := by
    intro fs hfs
    rw [left]
    cases hf : fs.find? (fun f => f.1 == some k) with
    | none => rfl
    | some f =>
      have h5 := List.find?_some hf
      have h6 := hfs f (List.mem_of_find?_eq_some hf) k (by simpa using h5)
      omega
  have hmono : ∀ {fs : List (Frame N)} {j : Nat}, (∀ f ∈ fs, ∀ x, f.1 = some x → x < k) →
      ∀ f ∈ fs, ∀ x, f.1 = some x → x < k + j := by
    intro fs j h f hf x hx
    have := h f hf x hx
    omega
  suffices hs : c'.sizes.length = k + opens call ∧ (∀ f ∈ c'.frames, ∀ x, f.1 = some x → x < k + opens call) ∧
      (∀ n l, c'.pending = some (n, l) → V.size n = 0 → l = []) ∧
      (o = .bool true ∧ call = .tryNull → c'.fatal.isSome ∨ mass w c' < mass w c) ∧
      (opening call = true → toSize o = 0 → left k c'.frames = []) by
    refine ⟨⟨h1, hs.1, hs.2.1, hs.2.2.1⟩, hpot, ?_, hs.2.2.2.2⟩
    rintro (h | h)
    · exact hlt (h4 h)
    · exact hlt (hs.2.2.2.1 h)
  have hfail : ∀ x fs, (∀ f ∈ fs, ∀ x, f.1 = some x → x < k) →
      ∀ f ∈ (failed V call x fs c).frames, ∀ x, f.1 = some x → x < k := by
    intro x fs hfs f hf
    have : (failed V call x fs c).frames = if V.drains then [] else fs := rfl
    rw [this] at hf
    split at hf
    · cases hf
    · exact hfs f hf
  have hflen : ∀ x fs, (failed V call x fs c).sizes.length = k + opens call := by
    intro x fs
    show (addSize call 0 c.sizes).length = _
    rw [addSize_length, hi.sizes]
  have hz : o = zeroOf call → o = .bool true ∧ call = .tryNull → False := by
    rintro h ⟨h', rfl⟩
    rw [h'] at h
    cases h
  cases h with
  | dead he hd =>
    refine ⟨?_, hmono hi.handles, hi.pending, fun h => .inl hd, fun _ _ => hnone _ hi.handles⟩
    show (addSize call 0 c.sizes).length = _
    rw [addSize_length, hi.sizes]
  | @read _ e cur he hf hcur =>
    rcases cur with _ | ⟨n, l, fs⟩
    · have h0 : ∀ f ∈ ([] : List (Frame N)), ∀ x, f.1 = some x → x < k := fun _ h => nomatch h
      exact ⟨hflen _ _, hmono (hfail _ _ h0), nofun, fun _ => .inl rfl, fun _ _ => hnone _ (hfail _ _ h0)⟩
    · obtain ⟨hh, hl⟩ := current_handles hi hsize hcur
      obtain ⟨_, _, _, h7, h8⟩ := current_total hw hi.sound hcur
      rw [react]
      cases hv : V.verdict e n with
      | deny =>
        simp only [hm, Bool.false_eq_true, if_false]
        split
        · rename_i ht
          subst ht
          refine ⟨hi.sizes, hh, ?_, fun h => (by simp at h), fun h => nomatch h⟩
          intro n' l' h
          cases h
          exact hl
        · exact ⟨hflen _ _, hmono (hfail _ _ hh), nofun, fun _ => .inl rfl, fun _ _ => hnone _ (hfail _ _ hh)⟩
      | whole =>
        cases hval : valueOf V n call with
        | ok o =>
          simp only [hval]
          refine ⟨?_, hmono hh, nofun, fun _ => .inr ?_, fun _ _ => hnone _ hh⟩
          · show (addSize call 0 c.sizes).length = _
            rw [addSize_length, hi.sizes]
          · show 0 + total w fs < _
            omega
        | error x =>
          simp only [hval]
          exact ⟨hflen _ _, hmono (hfail _ _ hh), nofun, fun _ => .inl rfl, fun _ _ => hnone _ (hfail _ _ hh)⟩
      | opens =>
        have hop := hopens e n hv call he
        simp only []
        refine ⟨?_, ?_, nofun, fun h => (by simp at h), fun _ hsz => ?_⟩
        · simp [opens, hop, hi.sizes]
        · intro f hf x hx
          rcases List.mem_cons.mp hf with rfl | hf
          · cases hx
            rw [hi.sizes, opens, if_pos hop]
            omega
          · have := hh f hf x hx
            omega
        · simp [left, hi.sizes, hl (by simpa [toSize] using hsz)]
  | addError hf => exact ⟨hflen _ _, hmono (hfail _ _ hi.handles), nofun, fun h => (by simp at h), fun h => nomatch h⟩
  | addErrorDead hd => exact ⟨hi.sizes, hi.handles, hi.pending, fun h => (by simp at h), fun h => nomatch h⟩
  | addNil hf _ => exact ⟨hi.sizes, hi.handles, hi.pending, fun h => (by simp at h), fun h => nomatch h⟩
  | addNilDrains hf _ =>
    refine ⟨hi.sizes, ?_, ?_, fun h => (by simp at h), fun h => nomatch h⟩
    · intro f hf x hx
      obtain ⟨g, hg, rfl⟩ := List.mem_map.mp hf
      refine hi.handles g hg x ?_
      split at hx <;> exact hx
    · intro n l h
      cases hp : c.pending with
      | none => simp [hp] at h
      | some p => 
        simp [hp] at h
        simp [h.2]
  | error => exact ⟨hi.sizes, hi.handles, hi.pending, fun h => (by simp at h), fun h => nomatch h⟩
  | hasItems => exact ⟨hi.sizes, hi.handles, hi.pending, fun h => (by simp at h), fun h => nomatch h⟩
  | size => exact ⟨hi.sizes, hi.handles, hi.pending, fun h => (by simp at h), fun h => nomatch h⟩

/-- What the termination of generated code needs to know about an engine. -/
structure Ends (E : Engine σ N) (V : View N) (R : σ → Cursor N → Prop) (ok : N → Prop) (w : N → Nat) : Prop where
  refines : Refines E V R
  weight : Weight V ok w
  multi : V.multi = false
  drains : V.drains = true
  size : ∀ n, V.size n = 0 → V.items n = []
  opens : ∀ e n, V.verdict e n = .opens → ∀ call, expecterOf call = some e → opening call = true
  next : ∀ e fs, ∃ r, Next V e fs r

/-- The engine is in order, with `k` collection states and at most `p` left to be done. -/
def Ok (V : View N) (R : σ → Cursor N → Prop) (ok : N → Prop) (w : N → Nat) (s : σ) (k p : Nat) : Prop :=
  ∃ c, R s c ∧ Inv V ok w k c ∧ pot w c ≤ p

theorem Ok.mono {s : σ} {k p q : Nat} (h : Ok V R ok w s k p) (hq : p ≤ q) : Ok V R ok w s k q := by
  obtain ⟨c, h1, h2, h3⟩ := h
  exact ⟨c, h1, h2, by omega⟩

/-- Any call. -/
theorem call_ends (hE : Ends E V R ok w) (call : Call) {s : σ} {k p : Nat} (hs : Ok V R ok w s k p) :
    ∃ o s', Conv (fun f => E.step f s call) (o, s') ∧ Ok V R ok w s' (k + opens call) p ∧
      (Demands call = true ∨ o = .bool true ∧ call = .tryNull → Ok V R ok w s' (k + opens call) (p - 1)) ∧
      (opening call = true → toSize o = 0 → ∃ c', R s' c' ∧ Inv V ok w (k + opens call) c' ∧ pot w c' ≤ p - 1 ∧
        left k c'.frames = []) := by
  obtain ⟨c, h1, h2, h3⟩ := hs
  obtain ⟨t, c', h4, h5, _⟩ := run_total (V := V) (I := fun _ => True) (fun _ _ _ _ _ _ => trivial)
    (fun e c _ => hE.next e c.frames) c trivial [call]
  obtain ⟨o, h6⟩ : ∃ o, Step V c call o c' := by
    cases h5 with
    | nil => cases h4
    | cons ha hb =>
      cases hb with
      | nil =>
        simp at h4
        subst h4
        exact ⟨_, ha⟩
      | cons _ _ => cases h4
  obtain ⟨s', h7, h8⟩ := hE.refines _ _ _ _ _ h1 h6
  obtain ⟨h9, h10, h11, h12⟩ := inv_step hE.weight hE.multi hE.size hE.opens h2 h6
  refine ⟨o, s', h7, ⟨c', h8, h9, by omega⟩, fun hd => ⟨c', h8, h9, ?_⟩, fun ha hb => ⟨c', h8, h9, ?_, h12 ha hb⟩⟩
  · have := h11 hd
    omega
  · have := h11 (.inl (by cases call <;> first | rfl | cases ha))
    omega

theorem items_ends (hE : Ends E V R ok w) (h : Nat) {s : σ} {c : Cursor N} {k : Nat} (h1 : R s c)
    (h2 : Inv V ok w k c) : ∃ b s', Conv (fun f => E.step f s (.hasItems h)) (.bool b, s') ∧ R s' c ∧
      (pot w c = 0 → b = false) ∧ b = !(left h c.frames).isEmpty := by
  obtain ⟨s', h3, h4⟩ := hE.refines _ _ _ _ _ h1 (Step.hasItems (k := h))
  refine ⟨_, s', h3, h4, fun hp => ?_, rfl⟩
  rw [pot] at hp
  split at hp
  · rename_i hf
    rw [h2.sound.dead hE.drains hf]
    rfl
  · omega

/-- The code for the type `t` ends, if at most `p` is left to be done. -/
def Done (E : Engine σ N) (V : View N) (R : σ → Cursor N → Prop) (L : Lib) (P : Package) (ok : N → Prop) (w : N → Nat)
    (t : Ty) (p : Nat) : Prop :=
  ∀ om old s k q, q ≤ p → Ok V R ok w s k q →
    ∃ v s' k', Conv (fun f => dec E L P f t om old s k) (v, s', k') ∧ Ok V R ok w s' k' (q - 1)

theorem decItems_ends (hE : Ends E V R ok w) (hP : ∀ t, ∃ z, IsZero L P t z) {t : Ty} (om : Bool) (h : Nat) :
    ∀ p, (p ≠ 0 → Done E V R L P ok w t p) → ∀ acc s k, Ok V R ok w s k p →
      ∃ vs s' k', Conv (fun f => decItems E L P f t om h acc s k) (vs, s', k') ∧ Ok V R ok w s' k' p := by
  intro p
  induction p with
  | zero =>
    intro _ acc s k hs
    obtain ⟨c, h1, h2, h3⟩ := hs
    obtain ⟨b, s', h4, h5, h6, _⟩ := items_ends hE h h1 h2
    obtain rfl := h6 (by omega)
    exact ⟨acc, s', k, Conv.succ (fun f => by rw [decItems]) (Conv.bind h4 (Conv.pure _)), c, h5, h2, h3⟩
  | succ p ih =>
    intro hd acc s k hs
    obtain ⟨c, h1, h2, h3⟩ := hs
    obtain ⟨b, s1, h4, h5, h6, _⟩ := items_ends hE h h1 h2
    cases b with
    | false => exact ⟨acc, s1, k, Conv.succ (fun f => by rw [decItems]) (Conv.bind h4 (Conv.pure _)), c, h5, h2, h3⟩
    | true =>
      obtain ⟨z, hz⟩ := hP t
      obtain ⟨v, s2, k2, h7, h8⟩ := hd (by omega) om z s1 k (p + 1) (Nat.le_refl _) ⟨c, h5, h2, h3⟩
      obtain ⟨vs, s3, k3, h9, h10⟩ := ih (fun _ om old s k q hq => hd (by omega) om old s k q (by omega)) (acc ++ [v]) s2 k2 h8
      exact ⟨vs, s3, k3, Conv.succ (fun f => by rw [decItems]) (Conv.bind h4 (Conv.bind hz.conv (Conv.bind h7 h9))),
        h10.mono (by omega)⟩

theorem decArray_ends (hE : Ends E V R ok w) {t : Ty} (om : Bool) (h n : Nat) :
    ∀ p, (p ≠ 0 → Done E V R L P ok w t p) → ∀ i vs s k, Ok V R ok w s k p →
      ∃ vs' s' k', Conv (fun f => decArray E L P f n t om h i vs s k) (vs', s', k') ∧ Ok V R ok w s' k' p := by
  intro p
  induction p with
  | zero =>
    intro _ i vs s k hs
    obtain ⟨c, h1, h2, h3⟩ := hs
    obtain ⟨b, s', h4, h5, h6, _⟩ := items_ends hE h h1 h2
    obtain rfl := h6 (by omega)
    exact ⟨vs, s', k, Conv.succ (fun f => by rw [decArray]) (Conv.bind h4 (Conv.pure _)), c, h5, h2, h3⟩
  | succ p ih =>
    intro hd i vs s k hs
    obtain ⟨c, h1, h2, h3⟩ := hs
    obtain ⟨b, s1, h4, h5, h6, _⟩ := items_ends hE h h1 h2
    by_cases hb : (b && decide (i < n)) = true
    · obtain ⟨v, s2, k2, h7, h8⟩ := hd (by omega) om (vs.getD i .nil) s1 k (p + 1) (Nat.le_refl _) ⟨c, h5, h2, h3⟩
      obtain ⟨vs', s3, k3, h9, h10⟩ := ih (fun _ om old s k q hq => hd (by omega) om old s k q (by omega)) (i + 1) (vs.set i v) s2 k2 h8
      refine ⟨vs', s3, k3, Conv.succ (fun f => by rw [decArray]) (Conv.bind h4 ?_), h10.mono (by omega)⟩
      simp only [toBool, hb, if_true]
      exact Conv.bind h7 h9
    · refine ⟨vs, s1, k, Conv.succ (fun f => by rw [decArray]) (Conv.bind h4 ?_), c, h5, h2, h3⟩
      simp only [toBool, hb]
      exact Conv.pure _

theorem decEntries_ends (hE : Ends E V R ok w) (hP : ∀ t, ∃ z, IsZero L P t z) {t u : Ty} (om : Bool) (h : Nat) :
    ∀ p, (p ≠ 0 → Done E V R L P ok w t p) → (p ≠ 0 → Done E V R L P ok w u p) → ∀ es s k, Ok V R ok w s k p →
      ∃ m s' k', Conv (fun f => decEntries E L P f t u om h (.map es) s k) (m, s', k') ∧ Ok V R ok w s' k' p := by
  intro p
  induction p with
  | zero =>
    intro _ _ es s k hs
    obtain ⟨c, h1, h2, h3⟩ := hs
    obtain ⟨b, s', h4, h5, h6, _⟩ := items_ends hE h h1 h2
    obtain rfl := h6 (by omega)
    exact ⟨.map es, s', k, Conv.succ (fun f => by rw [decEntries]) (Conv.bind h4 (Conv.pure _)), c, h5, h2, h3⟩
  | succ p ih =>
    intro hd he es s k hs
    obtain ⟨c, h1, h2, h3⟩ := hs
    obtain ⟨b, s1, h4, h5, h6, _⟩ := items_ends hE h h1 h2
    cases b with
    | false =>
      exact ⟨.map es, s1, k, Conv.succ (fun f => by rw [decEntries]) (Conv.bind h4 (Conv.pure _)), c, h5, h2, h3⟩
    | true =>
      obtain ⟨zk, hzk⟩ := hP t
      obtain ⟨zv, hzv⟩ := hP u
      obtain ⟨key, s2, k2, h7, h8⟩ := hd (by omega) om zk s1 k (p + 1) (Nat.le_refl _) ⟨c, h5, h2, h3⟩
      obtain ⟨v, s3, k3, h9, h10⟩ := he (by omega) om zv s2 k2 p (by omega) h8
      obtain ⟨m, s4, k4, h11, h12⟩ := ih (fun _ om old s k q hq => hd (by omega) om old s k q (by omega))
        (fun _ om old s k q hq => he (by omega) om old s k q (by omega)) (putEntry key v es) s3 k3 (h10.mono (by omega))
      refine ⟨m, s4, k4, Conv.succ (fun f => by rw [decEntries]) (Conv.bind h4
        (Conv.bind hzk.conv (Conv.bind hzv.conv (Conv.bind h7 (Conv.bind h9 h11))))), h12.mono (by omega)⟩

theorem decFields_ends (hE : Ends E V R ok w) (fs : List Field) (h : Nat) :
    ∀ p, (∀ d ∈ fs, p ≠ 0 → Done E V R L P ok w d.ty p) → ∀ vs s k, Ok V R ok w s k p →
      ∃ vs' s' k', Conv (fun f => decFields E L P f fs h vs s k) (vs', s', k') ∧ Ok V R ok w s' k' p := by
  have hbranch : ∀ key (fs : List Field) i d, branch key fs = some (i, d) → d ∈ fs := by
    intro key fs
    induction fs with
    | nil => intro i d h; cases h
    | cons g gs ih =>
      intro i d h
      rw [branch] at h
      split at h
      · cases h
        exact List.mem_cons_self
      · cases hb : branch key gs with
        | none => rw [hb] at h; cases h
        | some p =>
          rw [hb] at h
          simp at h
          exact List.mem_cons_of_mem _ (ih p.1 d (by rw [hb]; simp [← h.2]))
  intro p
  induction p with
  | zero =>
    intro _ vs s k hs
    obtain ⟨c, h1, h2, h3⟩ := hs
    obtain ⟨b, s', h4, h5, h6, _⟩ := items_ends hE h h1 h2
    obtain rfl := h6 (by omega)
    exact ⟨vs, s', k, Conv.succ (fun f => by rw [decFields]) (Conv.bind h4 (Conv.pure _)), c, h5, h2, h3⟩
  | succ p ih =>
    intro hd vs s k hs
    obtain ⟨c, h1, h2, h3⟩ := hs
    obtain ⟨b, s1, h4, h5, h6, _⟩ := items_ends hE h h1 h2
    have ih' := ih (fun d hm _ om old s k q hq => hd d hm (by omega) om old s k q (by omega))
    cases b with
    | false =>
      exact ⟨vs, s1, k, Conv.succ (fun f => by rw [decFields]) (Conv.bind h4 (Conv.pure _)), c, h5, h2, h3⟩
    | true =>
      obtain ⟨o, s2, h7, _, h8, _⟩ := call_ends hE .string ⟨c, h5, h2, h3⟩
      have h8 := h8 (.inl rfl)
      obtain ⟨o', s3, h9, h10, _, _⟩ := call_ends hE .tryNull h8
      have h10 : Ok V R ok w s3 k p := by simpa [opens, opening] using h10
      cases hn : toBool o' with
      | true =>
        obtain ⟨vs', s4, k4, h11, h12⟩ := ih' vs s3 k h10
        refine ⟨vs', s4, k4, Conv.succ (fun f => by rw [decFields]) (Conv.bind h4 (Conv.bind h7 (Conv.bind h9 ?_))),
          h12.mono (by omega)⟩
        simp only [hn, if_true]
        exact h11
      | false =>
        cases hb : branch (toStr o) fs with
        | some q =>
          obtain ⟨i, d⟩ := q
          obtain ⟨v, s4, k4, h11, h12⟩ := hd d (hbranch _ _ _ _ hb) (by omega) d.omitempty (vs.getD i .nil) s3 k p (by omega) h10
          obtain ⟨vs', s5, k5, h13, h14⟩ := ih' (vs.set i v) s4 k4 (h12.mono (by omega))
          refine ⟨vs', s5, k5, Conv.succ (fun f => by rw [decFields]) (Conv.bind h4 (Conv.bind h7 (Conv.bind h9 ?_))),
            h14.mono (by omega)⟩
          simp only [hn, hb]
          exact Conv.bind h11 h13
        | none =>
          obtain ⟨x, s4, h11, h12, _, _⟩ := call_ends hE (if P.disallowUnknownFields then .addError (some 0) else .skip) h10
          have h12 : Ok V R ok w s4 k p := by
            have : opens (if P.disallowUnknownFields then .addError (some 0) else .skip) = 0 := by
              cases P.disallowUnknownFields <;> rfl
            rwa [this] at h12
          obtain ⟨vs', s5, k5, h13, h14⟩ := ih' vs s4 k h12
          refine ⟨vs', s5, k5, Conv.succ (fun f => by rw [decFields]) (Conv.bind h4 (Conv.bind h7 (Conv.bind h9 ?_))),
            h14.mono (by omega)⟩
          simp only [hn, hb]
          exact Conv.bind h11 h13

theorem done_all (hE : Ends E V R ok w) (hP : ∀ t, ∃ z, IsZero L P t z) :
    ∀ p t, Done E V R L P ok w t p := by
  intro p
  induction p using Nat.strongRecOn with
  | _ p ihp =>
  have leaf : ∀ (call : Call) (v : Out N → Val) (t : Ty), Demands call = true → opening call = false →
      (∀ om old f s k, dec E L P (f + 1) t om old s k = (E.step f s call >>= fun x => .ok (v x.1, x.2, k))) →
      Done E V R L P ok w t p := by
    intro call v t hd hop hdec om old s k q hq hs
    obtain ⟨o, s', h1, _, h2, _⟩ := call_ends hE call hs
    refine ⟨v o, s', k, Conv.succ (fun f => hdec om old f s k) (Conv.bind h1 (Conv.pure _)), ?_⟩
    simpa [opens, hop] using h2 (.inl hd)
  have less : ∀ {q : Nat}, q ≤ p → ∀ t, q - 1 ≠ 0 → Done E V R L P ok w t (q - 1) :=
    fun hq t h => ihp _ (by omega) t
  have null : ∀ {s : σ} {k q : Nat}, Ok V R ok w s k q → ∃ b s', Conv (fun f => E.step f s .tryNull) (b, s') ∧
      Ok V R ok w s' k q ∧ (toBool b = true → Ok V R ok w s' k (q - 1)) := by
    intro s k q hs
    obtain ⟨o, s', h1, h2, h3, _⟩ := call_ends hE .tryNull hs
    refine ⟨o, s', h1, h2, fun hb => h3 (.inr ⟨?_, rfl⟩)⟩
    cases o <;> simp_all [toBool]
  intro t
  induction t with
  | string => exact leaf .string (fun o => .str (toStr o)) _ rfl rfl (fun om old f s k => by rw [dec])
  | bool => exact leaf .boolean (fun o => .bool (toBool o)) _ rfl rfl (fun om old f s k => by rw [dec])
  | int n => exact leaf (.integer n) (fun o => .int (toInt o)) _ rfl rfl (fun om old f s k => by rw [dec])
  | uint n => exact leaf (.unsigned n) (fun o => .uint (toUint o)) _ rfl rfl (fun om old f s k => by rw [dec])
  | float n => exact leaf (.float n) (fun o => .float (L.toFloat (toFloat o))) _ rfl rfl (fun om old f s k => by rw [dec])
  | text =>
    intro om old s k q hq hs
    obtain ⟨o, s1, h1, _, h2, _⟩ := call_ends hE .string hs
    obtain ⟨o', s2, h3, h4, _⟩ := call_ends hE (.addError (L.unmarshalText (toStr o)).2) (h2 (.inl rfl))
    refine ⟨.text (L.unmarshalText (toStr o)).1, s2, k, Conv.succ (fun f => by rw [dec]) (Conv.bind h1 ?_), h4⟩
    refine Conv.bind h3 ?_
    exact Conv.pure _
  | bytes =>
    intro om old s k q hq hs
    obtain ⟨b, s1, h1, h2, h3⟩ := null hs
    cases hb : toBool b with
    | true =>
      refine ⟨.nil, s1, k, Conv.succ (fun f => by rw [dec]) (Conv.bind h1 ?_), h3 hb⟩
      simp only [hb, if_true]
      exact Conv.pure _
    | false =>
      obtain ⟨o, s2, h4, _, h5, _⟩ := call_ends hE .string h2
      refine ⟨.bytes (toStr o), s2, k, Conv.succ (fun f => by rw [dec]) (Conv.bind h1 ?_), h5 (.inl rfl)⟩
      simp only [hb]
      exact Conv.bind h4 (Conv.pure _)
  | slice t _ =>
    intro om old s k q hq hs
    obtain ⟨b, s1, h1, h2, h3⟩ := null hs
    cases hb : toBool b with
    | true =>
      refine ⟨.nil, s1, k, Conv.succ (fun f => by rw [dec]) (Conv.bind h1 ?_), h3 hb⟩
      simp only [hb, if_true]
      exact Conv.pure _
    | false =>
      obtain ⟨o, s2, h4, _, h5, _⟩ := call_ends hE .sequence h2
      obtain ⟨vs, s3, k3, h6, h7⟩ := decItems_ends hE hP om k _ (less hq t) [] s2 (k + 1) (h5 (.inl rfl))
      refine ⟨.slice vs, s3, k3, Conv.succ (fun f => by rw [dec]) (Conv.bind h1 ?_), h7⟩
      simp only [hb]
      exact Conv.bind h4 (Conv.bind h6 (Conv.pure _))
  | array n t _ =>
    intro om old s k q hq hs
    obtain ⟨b, s1, h1, h2, h3⟩ := null hs
    cases hb : toBool b with
    | true =>
      refine ⟨old, s1, k, Conv.succ (fun f => by rw [dec]) (Conv.bind h1 ?_), h3 hb⟩
      simp only [hb, if_true]
      exact Conv.pure _
    | false =>
      obtain ⟨o, s2, h4, _, h5, _⟩ := call_ends hE .sequence h2
      obtain ⟨vs, s3, k3, h6, h7⟩ := decArray_ends hE om k n _ (less hq t) 0 old.elems s2 (k + 1) (h5 (.inl rfl))
      refine ⟨.array vs, s3, k3, Conv.succ (fun f => by rw [dec]) (Conv.bind h1 ?_), h7⟩
      simp only [hb]
      exact Conv.bind h4 (Conv.bind h6 (Conv.pure _))
  | ptr t ih =>
    intro om old s k q hq hs
    obtain ⟨b, s1, h1, h2, h3⟩ := null hs
    cases hb : toBool b with
    | true =>
      refine ⟨.nil, s1, k, Conv.succ (fun f => by rw [dec]) (Conv.bind h1 ?_), h3 hb⟩
      simp only [hb, if_true]
      exact Conv.pure _
    | false =>
      cases ho : old.deref with
      | some x =>
        obtain ⟨v, s2, k2, h4, h5⟩ := ih om x s1 k q hq h2
        refine ⟨.ptr v, s2, k2, Conv.succ (fun f => by rw [dec]) (Conv.bind h1 ?_), h5⟩
        simp only [hb, ho]
        refine Conv.bind (Conv.pure x) (Conv.bind h4 ?_)
        exact Conv.pure _
      | none =>
        obtain ⟨z, hz⟩ := hP t
        obtain ⟨v, s2, k2, h4, h5⟩ := ih om z s1 k q hq h2
        refine ⟨.ptr v, s2, k2, Conv.succ (fun f => by rw [dec]) (Conv.bind h1 ?_), h5⟩
        simp only [hb, ho]
        refine Conv.bind hz.conv (Conv.bind h4 ?_)
        exact Conv.pure _
  | map t u _ _ =>
    intro om old s k q hq hs
    obtain ⟨b, s1, h1, h2, h3⟩ := null hs
    cases hb : toBool b with
    | true =>
      refine ⟨.nil, s1, k, Conv.succ (fun f => by rw [dec]) (Conv.bind h1 ?_), h3 hb⟩
      simp only [hb, if_true]
      exact Conv.pure _
    | false =>
      obtain ⟨o, s2, h4, _, h5, h6⟩ := call_ends hE .mapping h2
      cases hz : ((P.omitempty || om) && toSize o == 0) with
      | false =>
        obtain ⟨m, s3, k3, h7, h8⟩ := decEntries_ends hE hP om k _ (less hq t) (less hq u) [] s2 (k + 1) (h5 (.inl rfl))
        refine ⟨m, s3, k3, Conv.succ (fun f => by rw [dec]) (Conv.bind h1 ?_), h8⟩
        simp only [hb]
        refine Conv.bind h4 ?_
        simp only [hz]
        exact h7
      | true =>
        simp only [Bool.and_eq_true, beq_iff_eq] at hz
        obtain ⟨c2, hr2, hi2, hp2, hl2⟩ := h6 rfl hz.2
        obtain ⟨b', s3, h9, hr3, _, hl3⟩ := items_ends hE k hr2 hi2
        rw [hl2] at hl3
        subst hl3
        refine ⟨.nil, s3, k + 1, Conv.succ (fun f => by rw [dec]) (Conv.bind h1 ?_), c2, hr3, hi2, ?_⟩
        · simp only [hb]
          refine Conv.bind h4 ?_
          simp only [hz.1, hz.2, beq_self_eq_true, Bool.and_self, if_true]
          exact Conv.succ (fun f => by rw [decEntries]) (Conv.bind h9 (Conv.pure _))
        · exact hp2
  | struct id =>
    intro om old s k q hq hs
    obtain ⟨b, s1, h1, h2, h3⟩ := null hs
    obtain ⟨o, s2, h4, _, h5, _⟩ := call_ends hE .mapping h2
    have hfs : ∀ x : Val, ∃ vs s3 k3, Conv (fun f => decFields E L P f (P.fields id) k x.members s2 (k + 1)) (vs, s3, k3) ∧
        Ok V R ok w s3 k3 (q - 1) :=
      fun x => decFields_ends hE (P.fields id) k _ (fun d _ => less hq d.ty) x.members s2 (k + 1) (h5 (.inl rfl))
    cases hb : toBool b with
    | false =>
      obtain ⟨vs, s3, k3, h6, h7⟩ := hfs old
      refine ⟨.struct vs, s3, k3, Conv.succ (fun f => by rw [dec]) (Conv.bind h1 ?_), h7⟩
      simp only [hb]
      refine Conv.bind (Conv.pure old) (Conv.bind h4 (Conv.bind h6 ?_))
      exact Conv.pure _
    | true =>
      obtain ⟨z, hz⟩ := hP (.struct id)
      obtain ⟨vs, s3, k3, h6, h7⟩ := hfs z
      refine ⟨.struct vs, s3, k3, Conv.succ (fun f => by rw [dec]) (Conv.bind h1 ?_), h7⟩
      simp only [hb]
      refine Conv.bind hz.conv (Conv.bind h4 (Conv.bind h6 ?_))
      exact Conv.pure _

end Verif.GenCode
