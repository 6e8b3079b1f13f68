import Verif.Spec.DecoderCursor

/-!
The cursor reads a document in order; probes do not matter; reading calls use up the document.
-/

namespace Verif.DecoderCursor

open Verif.Generic Verif.Decoder

variable {N : Type} {V : View N}

theorem Run.append {c c1 c2 : Cursor N} {t t' : List (Call × Out N)} (h : Run V c t c1) (h' : Run V c1 t' c2) :
    Run V c (t ++ t') c2 := by
  induction h with
  | nil => exact h'
  | cons hs _ ih => exact .cons hs (ih h')

theorem Run.split {c c2 : Cursor N} {t t' : List (Call × Out N)} (h : Run V c (t ++ t') c2) :
    ∃ c1, Run V c t c1 ∧ Run V c1 t' c2 := by
  induction t generalizing c with
  | nil => exact ⟨c, .nil, h⟩
  | cons x t ih =>
    cases h with
    | cons hs hr =>
      obtain ⟨c1, h1, h2⟩ := ih hr
      exact ⟨c1, .cons hs h1, h2⟩

/-- Exhausted lists, of collections with numbers from `lo` on. -/
def Empties (lo : Nat) (j : List (Frame N)) : Prop := ∀ f ∈ j, f.2 = [] ∧ ∀ x, f.1 = some x → lo ≤ x

theorem Empties.mono {lo lo' : Nat} (hl : lo' ≤ lo) {j : List (Frame N)} (h : Empties lo j) : Empties lo' j :=
  fun f hf => ⟨(h f hf).1, fun x hx => Nat.le_trans hl ((h f hf).2 x hx)⟩

theorem Empties.nil {lo : Nat} : Empties lo ([] : List (Frame N)) := fun _ h => nomatch h

theorem Empties.append {lo : Nat} {j j' : List (Frame N)} (h : Empties lo j) (h' : Empties lo j') :
    Empties lo (j ++ j') := by
  intro f hf
  rcases List.mem_append.mp hf with hf | hf
  · exact h f hf
  · exact h' f hf

theorem next_empties {e : Expecter} {lo : Nat} {j fs : List (Frame N)} {r : Option (N × List (Frame N))}
    (hj : Empties lo j) (h : Next V e fs r) : Next V e (j ++ fs) r := by
  induction j with
  | nil => exact h
  | cons f j ih =>
    obtain ⟨k, l⟩ := f
    obtain rfl : l = [] := (hj _ List.mem_cons_self).1
    exact .close (ih fun g hg => hj g (List.mem_cons_of_mem _ hg))

theorem next_void {e : Expecter} {l : List N} (hl : ∀ q ∈ l, V.layer e q = some []) {k : Option Nat}
    {fs : List (Frame N)} {r : Option (N × List (Frame N))} (h : Next V e fs r) : Next V e ((k, l) :: fs) r := by
  induction l with
  | nil => exact .close h
  | cons q l ih =>
    refine .enter (hl q List.mem_cons_self) (.close ?_)
    exact ih fun p hp => hl p (List.mem_cons_of_mem _ hp)

theorem next_core {e : Expecter} {n m : N} (h : Core V e n m) (k : Option Nat) (ns : List N) (fs : List (Frame N))
    (lo : Nat) : ∃ j, Empties lo j ∧ Next V e ((k, n :: ns) :: fs) (some (m, j ++ (k, ns) :: fs)) := by
  induction h generalizing k ns fs with
  | value h => exact ⟨[], .nil, .take h⟩
  | only h _ ih =>
    obtain ⟨j, hj, hn⟩ := ih none [] ((k, ns) :: fs)
    refine ⟨j ++ [(none, [])], hj.append ?_, .enter h ?_⟩
    · intro f hf
      obtain rfl := List.mem_singleton.mp hf
      exact ⟨rfl, fun _ h => nomatch h⟩
    · simpa using hn
  | last h hp hl _ ih =>
    obtain ⟨j, hj, hn⟩ := ih none [] ((k, ns) :: fs)
    refine ⟨j ++ [(none, [])], hj.append ?_, .enter h (.enter hp (next_void hl ?_))⟩
    · intro f hf
      obtain rfl := List.mem_singleton.mp hf
      exact ⟨rfl, fun _ h => nomatch h⟩
    · simpa using hn

/-- The cursor is about to read from the given lists. -/
structure Ready (c : Cursor N) (k lo : Nat) (fs : List (Frame N)) : Prop where
  fatal : c.fatal = none
  pending : c.pending = none
  sizes : c.sizes.length = k
  frames : ∃ j, Empties lo j ∧ c.frames = j ++ fs

theorem Ready.mono {c : Cursor N} {k lo lo' : Nat} {fs : List (Frame N)} (hr : Ready c k lo fs) (h : lo' ≤ lo) :
    Ready c k lo' fs := by
  obtain ⟨j, hj, hf⟩ := hr.frames
  exact ⟨hr.fatal, hr.pending, hr.sizes, j, hj.mono h, hf⟩

theorem Ready.drop {c : Cursor N} {k lo lo' : Nat} {fs : List (Frame N)} (hr : Ready c k lo ((none, []) :: fs))
    (h : lo' ≤ lo) : Ready c k lo' fs := by
  obtain ⟨j, hj, hf⟩ := hr.frames
  refine ⟨hr.fatal, hr.pending, hr.sizes, j ++ [(none, [])], (hj.mono h).append ?_, by simpa using hf⟩
  intro f hf
  obtain rfl := List.mem_singleton.mp hf
  exact ⟨rfl, fun _ h => nomatch h⟩

theorem left_empties {h lo : Nat} (hl : h < lo) {j : List (Frame N)} (hj : Empties lo j) (ns : List N)
    (fs : List (Frame N)) : left h (j ++ (some h, ns) :: fs) = ns := by
  induction j with
  | nil => simp [left]
  | cons f j ih =>
    have hf : (f.1 == some h) = false := by
      rw [beq_eq_false_iff_ne]
      intro he
      have := (hj f List.mem_cons_self).2 h he
      omega
    have := ih fun g hg => hj g (List.mem_cons_of_mem _ hg)
    simpa [left, List.find?, hf] using this

/-- The cursor with other lists. -/
def withFrames (c : Cursor N) (fs : List (Frame N)) : Cursor N := { c with frames := fs }

theorem react_frames {e : Expecter} {c : Cursor N} {call : Call} {cur : Option (N × List N × List (Frame N))}
    (fs : List (Frame N)) : react V e (withFrames c fs) call cur = react V e c call cur := by
  rcases cur with _ | ⟨n, items, gs⟩
  · rfl
  · rfl


theorem Step.enter {c : Cursor N} {call : Call} {e : Expecter} {o : Out N} {c' : Cursor N} {k : Option Nat} {n : N}
    {ns : List N} {cs : List N} {fs j : List (Frame N)} {lo : Nat} (hj : Empties lo j) (he : expecterOf call = some e)
    (hl : V.layer e n = some cs) (hp : c.pending = none) (hc : c.frames = j ++ (k, n :: ns) :: fs)
    (h : Step V (withFrames c ((none, cs) :: (k, ns) :: fs)) call o c') (hf : c.fatal = none) : Step V c call o c' := by
  cases h with
  | dead _ hd => simp [withFrames, hf] at hd
  | read he' hf' hcur =>
    rw [he] at he'
    cases he'
    rw [react_frames]
    refine .read he hf ?_
    cases hcur with
    | pending h => simp [withFrames, hp] at h
    | next _ hn => exact .next hp (by rw [hc]; exact next_empties hj (.enter hl hn))
    | done _ hn => exact .done hp (by rw [hc]; exact next_empties hj (.enter hl hn))
  | _ => cases he

theorem reads_run_aux {k k' : Nat} {n : N} {t : List (Call × Out N)} (h : Reads V k n t k') :
    k ≤ k' ∧ ∀ (c : Cursor N) (h : Option Nat) (ns : List N) (fs : List (Frame N)), Ready c k 0 ((h, n :: ns) :: fs) →
      ∃ c', Run V c t c' ∧ Ready c' k' k ((h, ns) :: fs) ∧ c'.denied = c.denied := by
  refine Reads.rec (V := V)
    (motive_1 := fun k n t k' _ => k ≤ k' ∧ ∀ (c : Cursor N) (h : Option Nat) (ns : List N) (fs : List (Frame N)),
      Ready c k 0 ((h, n :: ns) :: fs) → ∃ c', Run V c t c' ∧ Ready c' k' k ((h, ns) :: fs) ∧ c'.denied = c.denied)
    (motive_2 := fun h k ns t k' _ => h < k → k ≤ k' ∧ ∀ (c : Cursor N) (fs : List (Frame N)),
      Ready c k (h + 1) ((some h, ns) :: fs) →
        ∃ c', Run V c t c' ∧ Ready c' k' (h + 1) ((some h, []) :: fs) ∧ c'.denied = c.denied)
    ?_ ?_ ?_ ?_ ?_ ?_ h
  · intro k n m call e o he hop hc hv ho
    refine ⟨Nat.le_refl _, fun c h ns fs hr => ?_⟩
    obtain ⟨j, hj, hfr⟩ := hr.frames
    obtain ⟨j', hj', hn⟩ := next_core hc h ns fs k
    have hst := Step.read (V := V) (c := c) he hr.fatal
      (.next hr.pending (n := m) (fs := j' ++ (h, ns) :: fs) (by rw [hfr]; exact next_empties hj hn))
    simp only [react, hv, ho] at hst
    refine ⟨_, .cons hst .nil, ⟨hr.fatal, rfl, ?_, j', hj', rfl⟩, rfl⟩
    simpa [addSize, hop] using hr.sizes
  · intro k n m call e t k' he hop hc hv _ ih
    obtain ⟨hk, ih⟩ := ih (Nat.lt_succ_self k)
    refine ⟨by omega, fun c h ns fs hr => ?_⟩
    obtain ⟨j, hj, hfr⟩ := hr.frames
    obtain ⟨j', hj', hn⟩ := next_core hc h ns fs k
    have hst := Step.read (V := V) (c := c) he hr.fatal
      (.next hr.pending (n := m) (fs := j' ++ (h, ns) :: fs) (by rw [hfr]; exact next_empties hj hn))
    simp only [react, hv, hr.sizes] at hst
    obtain ⟨c', h1, h2, h3⟩ := ih
      { pending := none, frames := (some k, V.items m) :: (j' ++ (h, ns) :: fs), sizes := c.sizes ++ [V.size m],
        fatal := c.fatal, denied := c.denied } (j' ++ (h, ns) :: fs)
      ⟨hr.fatal, rfl, by simp [hr.sizes], [], .nil, rfl⟩
    refine ⟨c', .cons hst h1, ⟨h2.fatal, h2.pending, h2.sizes, ?_⟩, h3⟩
    obtain ⟨j'', hj'', hf''⟩ := h2.frames
    refine ⟨j'' ++ (some k, []) :: j', (hj''.mono (Nat.le_succ k)).append ?_, by rw [hf'']; simp⟩
    intro f hf
    rcases List.mem_cons.mp hf with rfl | hf
    · exact ⟨rfl, fun x hx => by cases hx; exact Nat.le_refl _⟩
    · exact hj' f hf
  · intro h k hk
    refine ⟨Nat.le_refl _, fun c fs hr => ?_⟩
    obtain ⟨j, hj, hfr⟩ := hr.frames
    have hst := Step.hasItems (V := V) (c := c) (k := h)
    rw [hfr, left_empties (Nat.lt_succ_self h) hj] at hst
    exact ⟨c, .cons hst .nil, hr, rfl⟩
  · intro h k n ns t k1 t' k2 _ _ ih ih' hk
    obtain ⟨hk1, ih⟩ := ih
    obtain ⟨hk2, ih'⟩ := ih' (by omega)
    refine ⟨by omega, fun c fs hr => ?_⟩
    obtain ⟨j, hj, hfr⟩ := hr.frames
    have hst := Step.hasItems (V := V) (c := c) (k := h)
    rw [hfr, left_empties (Nat.lt_succ_self h) hj] at hst
    obtain ⟨c1, h1, h2, h3⟩ := ih c (some h) ns fs ⟨hr.fatal, hr.pending, hr.sizes, j, hj.mono (Nat.zero_le _), hfr⟩
    obtain ⟨c2, h4, h5, h6⟩ := ih' c1 fs (h2.mono hk)
    exact ⟨c2, .cons hst (h1.append h4), h5, h6.trans h3⟩
  · intro h k n n' ns t k1 t' k2 t'' k3 _ _ _ ih ih' ih'' hk
    obtain ⟨hk1, ih⟩ := ih
    obtain ⟨hk2, ih'⟩ := ih'
    obtain ⟨hk3, ih''⟩ := ih'' (by omega)
    refine ⟨by omega, fun c fs hr => ?_⟩
    obtain ⟨j, hj, hfr⟩ := hr.frames
    have hst := Step.hasItems (V := V) (c := c) (k := h)
    rw [hfr, left_empties (Nat.lt_succ_self h) hj] at hst
    obtain ⟨c1, h1, h2, h3⟩ := ih c (some h) (n' :: ns) fs (hr.mono (Nat.zero_le _))
    obtain ⟨c2, h4, h5, h6⟩ := ih' c1 (some h) ns fs (h2.mono (Nat.zero_le _))
    obtain ⟨c3, h7, h8, h9⟩ := ih'' c2 fs (h5.mono (by omega))
    exact ⟨c3, .cons hst ((h1.append h4).append h7), h8, h9.trans (h6.trans h3)⟩
  · intro h k n a b e call o ns t k1 t' k2 t'' k3 he hl _ _ _ ih ih' ih'' hk
    obtain ⟨hk1, ih⟩ := ih
    obtain ⟨hk2, ih'⟩ := ih'
    obtain ⟨hk3, ih''⟩ := ih'' (by omega)
    refine ⟨by omega, fun c fs hr => ?_⟩
    obtain ⟨j, hj, hfr⟩ := hr.frames
    have hst := Step.hasItems (V := V) (c := c) (k := h)
    rw [hfr, left_empties (Nat.lt_succ_self h) hj] at hst
    obtain ⟨c1, h1, h2, h3⟩ := ih (withFrames c ((none, [a, b]) :: (some h, ns) :: fs)) none [b] ((some h, ns) :: fs)
      ⟨hr.fatal, hr.pending, hr.sizes, [], .nil, rfl⟩
    obtain ⟨c2, h4, h5, h6⟩ := ih' c1 none [] ((some h, ns) :: fs) (h2.mono (Nat.zero_le _))
    obtain ⟨c3, h7, h8, h9⟩ := ih'' c2 fs (h5.drop (by omega))
    refine ⟨c3, .cons hst (Run.append (Run.append ?_ h4) h7), h8, h9.trans (h6.trans h3)⟩
    cases h1 with
    | cons hs hr' => exact .cons (hs.enter hj he hl hr.pending hfr hr.fatal) hr'

/-- A transcript which follows the shape of a node is a run of the cursor. -/
theorem reads_run {k k' : Nat} {n : N} {t : List (Call × Out N)} (h : Reads V k n t k') (c : Cursor N) (g : Option Nat)
    (ns : List N) (fs : List (Frame N)) (hr : Ready c k 0 ((g, n :: ns) :: fs)) :
    ∃ c', Run V c t c' ∧ Ready c' k' k ((g, ns) :: fs) ∧ c'.denied = c.denied :=
  (reads_run_aux h).2 c g ns fs hr

theorem strings_append (t t' : List (Call × Out N)) : strings (t ++ t') = strings t ++ strings t' := by
  simp [strings]

theorem Strings.append {t t' : List (Call × Out N)} (h : Strings t) (h' : Strings t') : Strings (t ++ t') := by
  intro x hx
  rcases List.mem_append.mp hx with hx | hx
  · exact h x hx
  · exact h' x hx

/-- A reading call which changes the errors returns its zero value. -/
theorem Step.zero {c c' : Cursor N} {call : Call} {o : Out N} (h : Step V c call o c') (he : (expecterOf call).isSome)
    (hx : c'.fatal ≠ c.fatal ∨ c'.denied ≠ c.denied) : o = zeroOf call := by
  cases h with
  | dead => rfl
  | @read _ e cur he' _ _ =>
    rcases cur with _ | ⟨n, l, fs⟩
    · rfl
    · rw [react] at hx ⊢
      cases hv : V.verdict e n with
      | deny =>
        simp only [hv] at hx ⊢
        by_cases h1 : call = .tryNull
        · subst h1
          rw [if_pos rfl]
          rfl
        · rw [if_neg h1]
          split <;> rfl
      | whole =>
        simp only [hv] at hx ⊢
        cases hw : valueOf V n call with
        | ok o =>
          simp only [hw] at hx
          rcases hx with hx | hx <;> exact absurd rfl hx
        | error x => rfl
      | opens =>
        simp only [hv] at hx
        rcases hx with hx | hx <;> exact absurd rfl hx
  | addError | addErrorDead | addNil | addNilDrains | error | hasItems | size => cases he

theorem Run.zero {c c' : Cursor N} {call : Call} {o : Out N} {f f' : Option Err} {d d' : List Err}
    (h : Run V c [(.error, .err f d), (call, o), (.error, .err f' d')] c') (he : (expecterOf call).isSome)
    (hx : f' ≠ f ∨ d' ≠ d) : o = zeroOf call := by
  have err : ∀ {c c' : Cursor N} {f d}, Step V c .error (.err f d) c' → f = c.fatal ∧ d = c.denied ∧ c' = c := by
    intro c c' f d h
    generalize ho : (Out.err f d : Out N) = o at h
    cases h with
    | error =>
      cases ho
      exact ⟨rfl, rfl, rfl⟩
    | read h => cases h
    | dead h => cases h
  cases h with
  | cons h1 h =>
    cases h with
    | cons h2 h =>
      cases h with
      | cons h3 _ =>
        obtain ⟨rfl, rfl, rfl⟩ := err h1
        obtain ⟨rfl, rfl, rfl⟩ := err h3
        exact h2.zero he hx

/-! ### Probes -/

theorem Next.layers {e e' : Expecter} (hl : ∀ n, V.layer e n = V.layer e' n) {fs : List (Frame N)}
    {r : Option (N × List (Frame N))} (h : Next V e fs r) : Next V e' fs r := by
  induction h with
  | done => exact .done
  | close _ ih => exact .close ih
  | take h => exact .take (by rw [← hl]; exact h)
  | enter h _ ih => exact .enter (by rw [← hl]; exact h) ih

/-- The cursor with a refused node. -/
def refused (c : Cursor N) (n : N) (l : List N) (fs : List (Frame N)) : Cursor N :=
  { c with pending := some (n, l), frames := fs }

theorem react_refused {e : Expecter} {c : Cursor N} {call : Call} (n n' : N) (l l' : List N) (fs fs' : List (Frame N)) :
    react V e (refused c n l fs) call (some (n', l', fs')) = react V e c call (some (n', l', fs')) := rfl

/-- A negative probe changes nothing for the reading calls which look through the same layers. -/
theorem probe_step {c c1 : Cursor N} (hp : Step V c .tryNull (.bool false) c1) {call : Call}
    {e : Expecter} (he : expecterOf call = some e) (hl : ∀ n, V.layer .null n = V.layer e n) {o : Out N} {c2 : Cursor N}
    (h : Step V c1 call o c2) : Step V c call o c2 := by
  generalize ho : (Out.bool false : Out N) = o' at hp
  cases hp with
  | dead _ hd => exact h
  | @read _ e' cur he' hfc hcur =>
    cases he'
    rcases cur with _ | ⟨n, l, fs⟩
    · have hx : c2 = failed V call .endOfStream [] c ∧ o = zeroOf call := by
        cases h with
        | dead _ _ => exact ⟨rfl, rfl⟩
        | read _ hf' _ => cases hf'
        | _ => cases he
      obtain ⟨rfl, rfl⟩ := hx
      refine Step.read (cur := none) he hfc ?_
      cases hcur with
      | done h1 h2 => exact .done h1 (h2.layers hl)
    · rw [react] at ho h
      cases hv : V.verdict .null n with
      | whole => simp [hv, valueOf] at ho
      | opens => simp [hv] at ho
      | deny =>
        simp only [hv, if_true] at h
        change Step V (refused c n l fs) call o c2 at h
        cases h with
        | dead _ hd => simp [refused, hfc] at hd
        | @read _ e' cur he' _ hcur' =>
          rw [he] at he'
          cases he'
          cases hcur' with
          | pending h =>
            cases h
            rw [react_refused]
            refine .read he hfc ?_
            cases hcur with
            | pending h =>
              have := Current.pending (V := V) (e := e) h
              exact this
            | next h1 h2 => exact .next h1 (h2.layers hl)
          | next h _ => cases h
          | done h _ => cases h
        | _ => cases he

/-- A positive probe is `Skip`, if both look through the same layers. -/
theorem probe_skip {c c1 : Cursor N} (hp : Step V c .tryNull (.bool true) c1) (hl : ∀ n, V.layer .null n = V.layer .skip n)
    (hv : ∀ n, V.verdict .skip n = .whole) : Step V c .skip .unit c1 := by
  generalize ho : (Out.bool true : Out N) = o' at hp
  cases hp with
  | dead _ hd => cases ho
  | @read _ e' cur he' hfc hcur =>
    cases he'
    rcases cur with _ | ⟨n, l, fs⟩
    · cases ho
    · have hx : (react V .null c .tryNull (some (n, l, fs))).2 = (react V .skip c .skip (some (n, l, fs))).2 := by
        rw [react] at ho
        cases hn : V.verdict .null n with
        | whole =>
          simp only [react, hn, hv, valueOf, addSize, opening]
          rfl
        | opens => simp [hn] at ho
        | deny => simp [hn] at ho
      have hy : (react V .skip c .skip (some (n, l, fs))).1 = .unit := by simp [react, hv, valueOf]
      rw [hx, ← hy]
      refine .read rfl hfc ?_
      cases hcur with
      | pending h => exact .pending h
      | next h1 h2 => exact .next h1 (h2.layers hl)

/-- A positive probe is `Any` which returns nil, if both look through the same layers. -/
theorem probe_any {c c1 : Cursor N} (hp : Step V c .tryNull (.bool true) c1) (hl : ∀ n, V.layer .null n = V.layer .any n)
    (hv : ∀ n, V.verdict .null n = .whole → V.verdict .any n = .whole ∧ V.anyOf n = some .nil) :
    Step V c .any (.any (some .nil)) c1 := by
  generalize ho : (Out.bool true : Out N) = o' at hp
  cases hp with
  | dead _ hd => cases ho
  | @read _ e' cur he' hfc hcur =>
    cases he'
    rcases cur with _ | ⟨n, l, fs⟩
    · cases ho
    · cases hn : V.verdict .null n with
      | opens => simp [react, hn] at ho
      | deny => simp [react, hn] at ho
      | whole =>
        obtain ⟨h1, h2⟩ := hv n hn
        have hx : (react V .null c .tryNull (some (n, l, fs))).2 = (react V .any c .any (some (n, l, fs))).2 := by
          simp only [react, hn, h1, valueOf, h2, addSize, opening]
          rfl
        have hy : (react V .any c .any (some (n, l, fs))).1 = .any (some .nil) := by simp [react, h1, h2, valueOf]
        rw [hx, ← hy]
        refine .read rfl hfc ?_
        cases hcur with
        | pending h => exact .pending h
        | next h1 h2 => exact .next h1 (h2.layers hl)

/-- A negative probe changes nothing for histories which begin with such a call. -/
theorem probe_run {c c1 c2 : Cursor N} (hp : Step V c .tryNull (.bool false) c1) {call : Call}
    {e : Expecter} (he : expecterOf call = some e) (hl : ∀ n, V.layer .null n = V.layer e n) {o : Out N}
    {t : List (Call × Out N)} (h : Run V c1 ((call, o) :: t) c2) : Run V c ((call, o) :: t) c2 := by
  cases h with
  | cons h1 h2 => exact .cons (probe_step hp he hl h1) h2

/-- If there is always a next node, every history of calls is possible. -/
theorem run_total {I : Cursor N → Prop} (hi : ∀ c call o c', I c → Step V c call o c' → I c')
    (hn : ∀ e c, I c → ∃ r, Next V e c.frames r) (c : Cursor N) (hc : I c) (calls : List Call) :
    ∃ t c', t.map Prod.fst = calls ∧ Run V c t c' ∧ I c' := by
  induction calls generalizing c with
  | nil => exact ⟨[], c, rfl, .nil, hc⟩
  | cons call calls ih =>
    have hs : ∃ o c1, Step V c call o c1 := by
      cases he : expecterOf call with
      | some e =>
        cases hf : c.fatal with
        | some x => exact ⟨_, _, .dead he (by simp [hf])⟩
        | none =>
          cases hp : c.pending with
          | some nl => exact ⟨_, _, .read he hf (.pending (n := nl.1) (l := nl.2) hp)⟩
          | none =>
            obtain ⟨r, hr⟩ := hn e c hc
            rcases r with _ | ⟨n, fs⟩
            · exact ⟨_, _, .read he hf (.done hp hr)⟩
            · exact ⟨_, _, .read he hf (.next hp hr)⟩
      | none =>
        cases call with
        | addError x =>
          cases hf : c.fatal with
          | some y => exact ⟨_, _, .addErrorDead (by simp [hf])⟩
          | none =>
            cases x with
            | some id => exact ⟨_, _, .addError hf⟩
            | none =>
              cases hd : V.drains with
              | true => exact ⟨_, _, .addNilDrains hf hd⟩
              | false => exact ⟨_, _, .addNil hf hd⟩
        | error => exact ⟨_, _, .error⟩
        | hasItems k => exact ⟨_, _, .hasItems⟩
        | size k => exact ⟨_, _, .size⟩
        | _ => cases he
    obtain ⟨o, c1, h1⟩ := hs
    obtain ⟨t, c2, h2, h3, h4⟩ := ih c1 (hi _ _ _ _ hc h1)
    exact ⟨(call, o) :: t, c2, by simp [h2], .cons h1 h3, h4⟩

/-! ### Reading calls use up the document -/

/-- A weight of the nodes: a node is heavier than its elements, and than what a layer leads to, together. -/
structure Weight (V : View N) (ok : N → Prop) (w : N → Nat) : Prop where
  items : ∀ n, ok n → (∀ m ∈ V.items n, ok m) ∧ ((V.items n).map w).sum < w n
  layer : ∀ e n cs, ok n → V.layer e n = some cs → (∀ m ∈ cs, ok m) ∧ (cs.map w).sum < w n

/-- The weight of the nodes which are left. -/
def total (w : N → Nat) (fs : List (Frame N)) : Nat := (fs.map fun f => (f.2.map w).sum).sum

def AllOk (ok : N → Prop) (fs : List (Frame N)) : Prop := ∀ f ∈ fs, ∀ n ∈ f.2, ok n

theorem next_total {ok : N → Prop} {w : N → Nat} (hw : Weight V ok w) {e : Expecter} {fs : List (Frame N)}
    {r : Option (N × List (Frame N))} (h : Next V e fs r) (ha : AllOk ok fs) :
    ∀ n gs, r = some (n, gs) → ok n ∧ AllOk ok gs ∧ total w gs + w n ≤ total w fs := by
  induction h with
  | done => intro n gs h; cases h
  | close _ ih =>
    intro n gs h
    obtain ⟨h1, h2, h3⟩ := ih (fun f hf => ha f (List.mem_cons_of_mem _ hf)) n gs h
    exact ⟨h1, h2, by simpa [total] using h3⟩
  | @take k n ns fs hl =>
    intro m gs h
    cases h
    refine ⟨ha _ List.mem_cons_self n List.mem_cons_self, ?_, ?_⟩
    · intro f hf m hm
      rcases List.mem_cons.mp hf with rfl | hf
      · exact ha _ List.mem_cons_self m (List.mem_cons_of_mem _ hm)
      · exact ha f (List.mem_cons_of_mem _ hf) m hm
    · simp only [total, List.map_cons, List.sum_cons]
      omega
  | @enter k n ns fs cs r hl _ ih =>
    intro m gs h
    have hn : ok n := ha _ List.mem_cons_self n List.mem_cons_self
    obtain ⟨ho, hs⟩ := hw.layer e n cs hn hl
    have hall : AllOk ok ((none, cs) :: (k, ns) :: fs) := by
      intro f hf m hm
      rcases List.mem_cons.mp hf with rfl | hf
      · exact ho m hm
      · rcases List.mem_cons.mp hf with rfl | hf
        · exact ha _ List.mem_cons_self m (List.mem_cons_of_mem _ hm)
        · exact ha f (List.mem_cons_of_mem _ hf) m hm
    obtain ⟨h1, h2, h3⟩ := ih hall m gs h
    refine ⟨h1, h2, ?_⟩
    simp only [total, List.map_cons, List.sum_cons] at h3 ⊢
    omega

/-- The weight of what is left for a cursor. -/
def mass (w : N → Nat) (c : Cursor N) : Nat :=
  (match c.pending with | some (n, _) => w n | none => 0) + total w c.frames

/-- The nodes left are in order; after an error nothing is left. -/
structure Sound (V : View N) (ok : N → Prop) (w : N → Nat) (c : Cursor N) : Prop where
  frames : AllOk ok c.frames
  pending : ∀ n l, c.pending = some (n, l) → ok n ∧ (∀ m ∈ l, ok m) ∧ (l.map w).sum < w n
  dead : V.drains = true → c.fatal.isSome → c.frames = []

theorem current_total {ok : N → Prop} {w : N → Nat} (hw : Weight V ok w) {e : Expecter} {c : Cursor N}
    (hc : Sound V ok w c) {n : N} {l : List N} {fs : List (Frame N)} (h : Current V e c (some (n, l, fs))) :
    ok n ∧ AllOk ok fs ∧ (∀ m ∈ l, ok m) ∧ (l.map w).sum < w n ∧ total w fs + w n ≤ mass w c := by
  cases h with
  | pending h =>
    obtain ⟨h1, h2, h3⟩ := hc.pending n l h
    refine ⟨h1, hc.frames, h2, h3, ?_⟩
    rw [mass, h]
    simp only []
    omega
  | next h1 h2 =>
    obtain ⟨h3, h4, h5⟩ := next_total hw h2 hc.frames n fs rfl
    exact ⟨h3, h4, (hw.items n h3).1, (hw.items n h3).2, by rw [mass, h1]; simp only []; omega⟩

/-- A reading call which is not a probe. -/
def Demands (call : Call) : Bool := (expecterOf call).isSome && call != .tryNull

theorem step_sound {ok : N → Prop} {w : N → Nat} (hw : Weight V ok w) (hm : V.multi = false) {c c' : Cursor N}
    (hc : Sound V ok w c) {call : Call} {o : Out N} (h : Step V c call o c') :
    Sound V ok w c' ∧ (c.fatal.isSome → c'.fatal.isSome) ∧ mass w c' ≤ mass w c ∧
      (Demands call = true → c'.fatal.isSome ∨ mass w c' < mass w c) := by
  have hfail : ∀ x fs, AllOk ok fs → Sound V ok w (failed V call x fs c) := by
    intro x fs hfs
    refine ⟨?_, ?_, ?_⟩
    · show AllOk ok (if V.drains then [] else fs)
      split
      · exact fun _ h => nomatch h
      · exact hfs
    · intro n o h; cases h
    · intro hd _
      show (if V.drains then [] else fs) = []
      rw [if_pos hd]
  have hmass : ∀ x fs, total w fs ≤ mass w c → mass w (failed V call x fs c) ≤ mass w c := by
    intro x fs h
    show 0 + total w (if V.drains then [] else fs) ≤ _
    split
    · simp [total]
    · omega
  cases h with
  | dead he hd => exact ⟨⟨hc.frames, hc.pending, hc.dead⟩, id, Nat.le_refl _, fun _ => .inl hd⟩
  | @read _ e cur he hf hcur =>
    rcases cur with _ | ⟨n, l, fs⟩
    · exact ⟨hfail _ _ (fun _ h => nomatch h), fun _ => rfl, hmass _ _ (by simp [total]), fun _ => .inl rfl⟩
    · obtain ⟨h1, h2, h3, h4, h5⟩ := current_total hw hc hcur
      rw [react]
      cases hv : V.verdict e n with
      | deny =>
        simp only [hm, Bool.false_eq_true, if_false]
        split
        · rename_i ht
          refine ⟨⟨h2, ?_, ?_⟩, fun h => h, ?_, ?_⟩
          · intro n' o' h
            cases h
            exact ⟨h1, h3, h4⟩
          · intro _ h
            simp [hf] at h
          · show w n + total w fs ≤ _
            omega
          · intro h
            subst ht
            cases h
        · exact ⟨hfail _ _ h2, fun _ => rfl, hmass _ _ (by omega), fun _ => .inl rfl⟩
      | whole =>
        cases hval : valueOf V n call with
        | ok o =>
          simp only [hval]
          refine ⟨⟨h2, fun _ _ h => (by cases h), fun _ h => (by simp [hf] at h)⟩, fun h => h, ?_, fun _ => .inr ?_⟩
          · show 0 + total w fs ≤ _
            omega
          · show 0 + total w fs < _
            omega
        | error x =>
          simp only [hval]
          exact ⟨hfail _ _ h2, fun _ => rfl, hmass _ _ (by omega), fun _ => .inl rfl⟩
      | opens =>
        simp only []
        refine ⟨⟨?_, fun _ _ h => (by cases h), fun _ h => (by simp [hf] at h)⟩, fun h => h, ?_, fun _ => .inr ?_⟩
        · intro f hf' m hm'
          rcases List.mem_cons.mp hf' with rfl | hf'
          · exact h3 m hm'
          · exact h2 f hf' m hm'
        · show 0 + ((l.map w).sum + total w fs) ≤ _
          omega
        · show 0 + ((l.map w).sum + total w fs) < _
          omega
  | addError hf =>
    exact ⟨hfail _ _ hc.frames, fun _ => rfl, hmass _ _ (by rw [mass]; omega), fun h => by cases h⟩
  | addErrorDead hd => exact ⟨hc, id, Nat.le_refl _, fun h => by cases h⟩
  | addNil hf _ => exact ⟨hc, id, Nat.le_refl _, fun h => by cases h⟩
  | addNilDrains hf _ =>
    have hz : total w (c.frames.map fun f => if f.1.isSome then (f.1, ([] : List N)) else f) ≤ total w c.frames := by
      rw [total, total]
      generalize c.frames = gs
      induction gs with
      | nil => exact Nat.le_refl _
      | cons g gs ih =>
        simp only [List.map_cons, List.sum_cons]
        split
        · simp only [List.map_nil, List.sum_nil]
          omega
        · omega
    refine ⟨⟨?_, ?_, ?_⟩, fun h => h, ?_, fun h => by cases h⟩
    · intro f hf' m hm'
      obtain ⟨g, hg, rfl⟩ := List.mem_map.mp hf'
      split at hm'
      · cases hm'
      · exact hc.frames g hg m hm'
    · intro n l h
      cases hp : c.pending with
      | none => simp [hp] at h
      | some p =>
        obtain ⟨n', l'⟩ := p
        simp only [hp, Option.map_some, Option.some.injEq, Prod.mk.injEq] at h
        obtain ⟨rfl, rfl⟩ := h
        obtain ⟨h1, h2, h3⟩ := hc.pending _ _ hp
        refine ⟨h1, fun m hm => (by cases hm), ?_⟩
        show 0 < w n'
        omega
    · intro _ h
      simp [hf] at h
    · simp only [mass]
      cases c.pending <;> simp <;> omega
  | error => exact ⟨hc, id, Nat.le_refl _, fun h => by cases h⟩
  | hasItems => exact ⟨hc, id, Nat.le_refl _, fun h => by cases h⟩
  | size => exact ⟨hc, id, Nat.le_refl _, fun h => by cases h⟩

theorem run_sound {ok : N → Prop} {w : N → Nat} (hw : Weight V ok w) (hm : V.multi = false) {c c' : Cursor N}
    {t : List (Call × Out N)} (h : Run V c t c') (hc : Sound V ok w c) :
    Sound V ok w c' ∧ (c.fatal.isSome → c'.fatal.isSome) ∧
      (c'.fatal.isSome ∨ mass w c' + t.countP (fun x => Demands x.1) ≤ mass w c) := by
  induction h with
  | nil => exact ⟨hc, id, .inr (by simp)⟩
  | @cons c call o c1 t c2 hs _ ih =>
    obtain ⟨h1, h2, h3, h4⟩ := step_sound hw hm hc hs
    obtain ⟨h5, h6, h7⟩ := ih h1
    refine ⟨h5, h6 ∘ h2, ?_⟩
    rcases h7 with h7 | h7
    · exact .inl h7
    · rw [List.countP_cons]
      by_cases hd : Demands call = true
      · rcases h4 hd with h | h
        · exact .inl (h6 h)
        · rw [if_pos hd]
          exact .inr (by omega)
      · rw [if_neg hd]
        exact .inr (by omega)

theorem le_sum_of_mem {l : List Nat} {x : Nat} (h : x ∈ l) : x ≤ l.sum := by
  induction l with
  | nil => cases h
  | cons y l ih =>
    rw [List.sum_cons]
    rcases List.mem_cons.mp h with rfl | h
    · omega
    · have := ih h
      omega

theorem left_mem {k : Nat} {fs : List (Frame N)} {n : N} (h : n ∈ left k fs) : ∃ f ∈ fs, n ∈ f.2 := by
  rw [left] at h
  cases hf : fs.find? (fun f => f.1 == some k) with
  | none => simp [hf] at h
  | some f =>
    rw [hf] at h
    exact ⟨f, List.mem_of_find?_eq_some hf, h⟩

/-- When a cursor which is emptied by errors has made as many demands as the document is heavy, nothing is left. -/
theorem exhausted {ok : N → Prop} {w : N → Nat} (hw : Weight V ok w) (hm : V.multi = false) (hd : V.drains = true)
    {c c' : Cursor N} {t : List (Call × Out N)} (h : Run V c t c') (hc : Sound V ok w c)
    (ht : mass w c ≤ t.countP (fun x => Demands x.1)) (k : Nat) : left k c'.frames = [] := by
  obtain ⟨h1, _, h3⟩ := run_sound hw hm h hc
  cases hl : left k c'.frames with
  | nil => rfl
  | cons n ns =>
    exfalso
    obtain ⟨f, hf, hn⟩ := left_mem (k := k) (fs := c'.frames) (n := n) (by rw [hl]; exact List.mem_cons_self)
    rcases h3 with h3 | h3
    · rw [h1.dead hd h3] at hf
      cases hf
    · have h0 : mass w c' = 0 := by omega
      have hz : total w c'.frames = 0 := by rw [mass] at h0; omega
      have hpos := (hw.items n (h1.frames f hf n hn)).2
      have hle : ∀ (gs : List (Frame N)), f ∈ gs → w n ≤ total w gs := by
        intro gs hg
        have h1 : w n ≤ (f.2.map w).sum := le_sum_of_mem (List.mem_map_of_mem hn)
        have h2 : (f.2.map w).sum ≤ total w gs :=
          le_sum_of_mem (List.mem_map_of_mem (f := fun f : Frame N => (f.2.map w).sum) hg)
        omega
      have := hle _ hf
      omega

end Verif.DecoderCursor
