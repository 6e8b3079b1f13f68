import Verif.Lemmas.GoyamlReader
import Verif.Lemmas.GoyamlTree

/-!
Every call of the goyaml decoder is a step of the cursor.
-/

namespace Verif.GoyamlReader

open Verif.Generic Verif.Goyaml Verif.Decoder Verif.DecoderCursor Verif.GoyamlCursor
open Verif.GoyamlAnyBuilder (GLib isNull)

set_option linter.unusedSimpArgs false

variable {lib : RLib} {h : Heap} {multi : Bool} {anyOf : Nat → Option GVal} {r : Reader} {hs : List Handle} {c : Cursor Nat}

theorem rel_failed' {r0 : Reader} (hh : r0.heap = h) (hm : r0.multi = multi) (hl : r0.latestDeny = none)
    (hd : r0.denyErrors = c.denied) (hs' : hs.map sizeOf = c.sizes) (hc : Covered hs r0.iters r0.route) (e : Err)
    (call : Call) (fs : List (Frame Nat)) :
    Rel h multi (setFatal (some e) r0) (addNoop call hs) (failed (view lib h multi anyOf) call e fs c) := by
  obtain ⟨h1, h2, h3, h4, h5, h6, h7, h8⟩ := rel_failed (lib := lib) (anyOf := anyOf) hh hm hd hs' hc e call fs
  exact ⟨h1, h2, hl, h4, h5, h6, h7, h8⟩

theorem rel_dead (hr : Rel h multi r hs c) (hf : c.fatal.isSome) (call : Call) :
    Rel h multi r (addNoop call hs) { c with sizes := addSize call 0 c.sizes } := by
  refine ⟨hr.heap, hr.multi, hr.deny, hr.fatal, hr.denied, ?_, fun _ => ⟨?_, (hr.dead hf).2⟩, fun hn => ?_⟩
  · rw [addNoop_sizes, hr.sizes]
  · intro k s i hk
    exact (hr.dead hf).1 (addNoop_get call hk)
  · simp only at hn
    rw [hn] at hf
    cases hf

/-- After a node which has been read as a whole. -/
theorem rel_whole {x : Reader} {fs : List (Frame Nat)} {ps : List Point} (hr : Rel h multi r hs c) (hf : c.fatal = none)
    (hx : Rel h multi x hs { c with pending := none, frames := fs }) (call : Call) (ho : opening call = false) :
    Rel h multi x (addNoop call hs) { c with pending := none, frames := fs, sizes := addSize call 0 c.sizes } := by
  have h1 : addNoop call hs = hs := by simp [addNoop, ho]
  have h2 : addSize call 0 c.sizes = c.sizes := by simp [addSize, ho]
  rw [h1, h2]
  exact hx

theorem rel_taken {x : Reader} {e : Expecter} {n : Nat} {l : List Nat} {fs : List (Frame Nat)} {ps : List Point}
    (hr : Rel h multi r hs c) (hf : c.fatal = none) (hs' : Same { r with expecter := e } x)
    (hv : Visited lib h hs fs ps n l e x) (hw : verdict lib (h n) e = .whole) {y : Reader} (hy1 : y.heap = x.heap)
    (hy2 : y.multi = x.multi) (hy3 : y.latestDeny = x.latestDeny) (hy4 : y.fatalError = x.fatalError)
    (hy5 : y.denyErrors = x.denyErrors) (hy6 : y.iters = x.iters) (hy7 : y.route = ps) (call : Call)
    (ho : opening call = false) :
    Rel h multi y (addNoop call hs) { c with pending := none, frames := fs, sizes := addSize call 0 c.sizes } := by
  have h1 : addNoop call hs = hs := by simp [addNoop, ho]
  have h2 : addSize call 0 c.sizes = c.sizes := by simp [addSize, ho]
  rw [h1, h2]
  refine ⟨hy1.trans (hs'.heap.trans hr.heap), hy2.trans (hs'.multi.trans hr.multi), hy3.trans (hv.whole hw).1,
    hy4.trans (hv.fatal.trans hf.symm), hy5.trans (hs'.denyErrors.trans hr.denied), hr.sizes, fun hd => ?_,
    fun _ => ⟨ps, ?_, hy7⟩⟩
  · rw [hf] at hd
    cases hd
  · rw [hy6]
    exact hv.base

/-- The node on the route is read, but the call fails. -/
theorem rel_refused {x : Reader} {e : Expecter} {n : Nat} {l : List Nat} {fs : List (Frame Nat)} {ps : List Point}
    (hr : Rel h multi r hs c) (hs' : Same { r with expecter := e } x)
    (hv : Visited lib h hs fs ps n l e x) (hw : verdict lib (h n) e = .whole) (err : Err) (call : Call)
    (he : err.isDeny = false) :
    Rel h multi (appendError (some err) x) (addNoop call hs) (failed (view lib h multi anyOf) call err fs c) := by
  rw [appendError_fatal hv.fatal (by simp [he])]
  refine rel_failed' (hs'.heap.trans hr.heap) (hs'.multi.trans hr.multi) (hv.whole hw).1 (hs'.denyErrors.trans hr.denied)
    hr.sizes ?_ err call fs
  intro k s i hk
  rcases hv.base.covered hk with h | ⟨p, hp, hi⟩
  · exact .inl h
  · refine .inr ⟨p, ?_, hi⟩
    have := (hv.whole hw).2.2
    split at this
    · obtain ⟨p', h1, _⟩ := this
      rw [h1]
      exact List.mem_cons_of_mem _ hp
    · rw [this]
      exact hp

theorem scalar_refines {conv : List Char → Option (Out Nat)} {e : Expecter} {call : Call}
    {cur : Option (Nat × List Nat × List (Frame Nat))} (hr : Rel h multi r hs c)
    (hf : c.fatal = none) (hcur : Current (view lib h multi anyOf) e c cur) (hx : Extracts e = true)
    (ho : opening call = false) (hn : call ≠ .tryNull)
    (hc : ∀ n, valueOf (view lib h multi anyOf) n call =
      match conv (h n).value with | some v => .ok v | none => .error (.convert e)) :
    ∃ x, Conv (fun f => readScalar lib f e conv (zeroOf call) r) ((react (view lib h multi anyOf) e c call cur).1, x) ∧
      Rel h multi x hs (react (view lib h multi anyOf) e c call cur).2 := by
  have hno : addNoop call hs = hs := by simp [addNoop, ho]
  have hff : ¬ r.fatalError.isSome = true := by simp [hr.fatal, hf]
  rcases expect_spec hr hf hcur with ⟨x, h1, h2⟩ | ⟨x, n, l, fs, ps, rfl, h1, h2, h3, h4, h5⟩
  · obtain ⟨h2, h3⟩ := h2 call hn
    rw [hno] at h3
    refine ⟨x, ?_, h3⟩
    refine Conv.congr (fun f => if_neg hff) (Conv.bind h1 ?_)
    rw [h2]
    exact Conv.pure _
  · have hw : verdict lib (h n) e = .whole := by
      cases hv : verdict lib (h n) e with
      | whole => rfl
      | deny => exact absurd hv h4
      | opens =>
        rcases verdict_opens hv with ⟨rfl, _⟩ | ⟨rfl, _⟩ <;> cases hx
    obtain ⟨h6, h7, h8⟩ := h3.whole hw
    have h7 := h7 hx
    have hne : ¬ (e = .any ∨ e = .raw) := by
      rintro (rfl | rfl) <;> cases hx
    rw [if_neg hne] at h8
    have hw' : (view lib h multi anyOf).verdict e n = .whole := hw
    cases hcv : conv (h n).value with
    | some v =>
      have hval : valueOf (view lib h multi anyOf) n call = .ok v := by rw [hc, hcv]
      refine ⟨x, ?_, ?_⟩
      · refine Conv.congr (fun f => if_neg hff) (Conv.bind h1 ?_)
        simp only [react, hw', hval, h7, hcv, if_true]
        exact Conv.pure _
      · simp only [react, hw', hval]
        have := rel_taken hr hf h2 h3 hw (y := x) rfl rfl rfl rfl rfl rfl h8 call ho
        rwa [hno] at this
    | none =>
      have hval : valueOf (view lib h multi anyOf) n call = .error (.convert e) := by rw [hc, hcv]
      refine ⟨appendError (some (.convert e)) x, ?_, ?_⟩
      · refine Conv.congr (fun f => if_neg hff) (Conv.bind h1 ?_)
        simp only [react, hw', hval, h7, hcv, if_true]
        exact Conv.pure _
      · simp only [react, hw', hval]
        have := rel_refused (anyOf := anyOf) hr h2 h3 hw (.convert e) call rfl
        rwa [hno] at this

theorem null_refines {cur : Option (Nat × List Nat × List (Frame Nat))} (hr : Rel h multi r hs c)
    (hf : c.fatal = none) (hcur : Current (view lib h multi anyOf) .null c cur) :
    ∃ x, Conv (fun f => tryNull lib f r) ((react (view lib h multi anyOf) .null c .tryNull cur).1, x) ∧
      Rel h multi x hs (react (view lib h multi anyOf) .null c .tryNull cur).2 := by
  have hff : ¬ r.fatalError.isSome = true := by simp [hr.fatal, hf]
  obtain ⟨h1, h2⟩ := visit_current hr hf hcur
  rcases cur with _ | ⟨n, l, fs⟩
  · obtain ⟨r', h3, h4, h5, h6⟩ := h1 rfl
    refine ⟨setFatal (some .endOfStream) r', ?_, ?_⟩
    · refine Conv.congr (fun f => if_neg hff) (Conv.bind h3 (Conv.congr (fun f => ?_) (Conv.pure _)))
      rfl
    · exact rel_failed' (h4.heap.trans hr.heap) (h4.multi.trans hr.multi) h5 (h4.denyErrors.trans hr.denied) hr.sizes h6 _ .tryNull _
  · obtain ⟨r', ps, h3, h4, h5, h6⟩ := h2 n l fs rfl
    have hrf : ¬ r'.fatalError.isSome = true := by simp [h5.fatal]
    cases hv : verdict lib (h n) .null with
    | deny =>
      have hv' : (view lib h multi anyOf).verdict .null n = .deny := hv
      obtain ⟨h7, p', h8, h9, h10⟩ := h5.deny hv
      refine ⟨{ r' with latestDeny := none }, ?_, ?_⟩
      · refine Conv.congr (fun f => if_neg hff) (Conv.bind h3 (Conv.congr (fun f => ?_) (Conv.pure _)))
        simp only [if_neg hrf, h7, react, hv']
        rfl
      · simp only [react, hv', if_true]
        refine ⟨h4.heap.trans hr.heap, h4.multi.trans hr.multi, rfl, h5.fatal.trans hf.symm,
          h4.denyErrors.trans hr.denied, hr.sizes, fun hd => ?_, fun _ => ⟨ps, h5.base, p', h8, h9, h10⟩⟩
        simp [hf] at hd
    | whole =>
      have hv' : (view lib h multi anyOf).verdict .null n = .whole := hv
      obtain ⟨h7, _, h8⟩ := h5.whole hv
      simp only [if_false, reduceCtorEq, or_self] at h8
      refine ⟨r', ?_, ?_⟩
      · refine Conv.congr (fun f => if_neg hff) (Conv.bind h3 (Conv.congr (fun f => ?_) (Conv.pure _)))
        simp only [if_neg hrf, h7, react, hv', valueOf]
        rfl
      · simp only [react, hv', valueOf]
        exact rel_taken hr hf h4 h5 hv (y := r') rfl rfl rfl rfl rfl rfl h8 .tryNull rfl
    | opens => rcases verdict_opens hv with ⟨he, _⟩ | ⟨he, _⟩ <;> cases he

/-- The collection states after opening a collection. -/
theorem Base.push {its : List (List Nat)} {fs : List (Frame Nat)} {ps : List Point} (hb : Base h hs its fs ps)
    {s i : Nat} {l : List Nat} {p : Point} (hp : p.iter = some i) (hi : its[i]? = some l)
    (hfresh : ∀ k s : Nat, hs[k]? ≠ some (some (s, i))) (hl : ∀ n ∈ l, Tree h n)
    (hk : (h p.node).kind = .sequence ∨ (h p.node).kind = .mapping) (hc : p.result.conclusion = .match_) :
    Base h (hs ++ [some (s, i)]) its ((some hs.length, l) :: fs) (p :: ps) := by
  have old : ∀ {k s' i' : Nat}, (hs ++ [some (s, i)])[k]? = some (some (s', i')) →
      (k < hs.length ∧ hs[k]? = some (some (s', i'))) ∨ (k = hs.length ∧ s' = s ∧ i' = i) := by
    intro k s' i' hk
    by_cases hlt : k < hs.length
    · rw [List.getElem?_append_left hlt] at hk
      exact .inl ⟨hlt, hk⟩
    · rw [List.getElem?_append_right (by omega)] at hk
      by_cases hz : k - hs.length = 0
      · simp [hz] at hk
        exact .inr ⟨by omega, hk.1.symm, hk.2.symm⟩
      · rw [List.getElem?_eq_none (by simp; omega)] at hk
        cases hk
  have named : ∀ {fs : List (Frame Nat)} {ps : List Point}, Pts h hs its fs ps → ∀ f ∈ fs, f.1 ≠ some hs.length := by
    intro fs ps hp
    induction hp with
    | base =>
      intro f hf
      obtain rfl := List.mem_singleton.mp hf
      simp
    | root _ =>
      intro f hf
      obtain rfl := List.mem_singleton.mp hf
      simp
    | cons _ _ h2 _ _ _ _ _ ih =>
      intro f hf
      rcases List.mem_cons.mp hf with rfl | hf
      · intro he
        cases he
        rw [List.getElem?_eq_none (Nat.le_refl _)] at h2
        cases h2
      · exact ih f hf
  refine ⟨.cons (s := s) (hb.pts.congr fun _ hk => ⟨?_, rfl⟩) (named hb.pts) ?_ hp hi hl hk (.inl hc), ?_, ?_, ?_⟩
  · rw [List.getElem?_append_left]
    · exact hk
    · exact (List.getElem?_eq_some_iff.mp hk).1
  · simp
  · intro k k' s1 s2 j h1 h2
    rcases old h1 with ⟨_, h1'⟩ | ⟨rfl, rfl, rfl⟩ <;> rcases old h2 with ⟨_, h2⟩ | ⟨h2, h2', h2''⟩
    · exact hb.inj h1' h2
    · rw [h2''] at h1'
      exact absurd h1' (hfresh _ _)
    · exact absurd h2 (hfresh _ _)
    · exact h2.symm
  · intro k s' j h1
    rcases old h1 with ⟨_, h1⟩ | ⟨rfl, rfl, rfl⟩
    · exact hb.bound h1
    · exact (List.getElem?_eq_some_iff.mp hi).1
  · intro k s' j h1 hn
    rcases old h1 with ⟨_, h1⟩ | ⟨rfl, rfl, rfl⟩
    · exact hb.closed h1 fun f hf => hn f (List.mem_cons_of_mem _ hf)
    · exact absurd rfl (hn _ List.mem_cons_self)

/-- The elements a current node will be opened with are trees. -/
theorem Visited.trees {x : Reader} {e : Expecter} {n : Nat} {l : List Nat} {fs : List (Frame Nat)}
    (hr : Rel h multi r hs c) (hf : c.fatal = none) (hcur : Current (view lib h multi anyOf) e c (some (n, l, fs)))
    (ht : Tree h n) : ∀ m ∈ l, Tree h m := by
  obtain ⟨ps, hb, hp⟩ := hr.live hf
  cases hcur with
  | pending hpend =>
    rw [hpend] at hp
    obtain ⟨p, _, _, hu⟩ := hp
    exact hu.trees
  | next _ _ => exact itemsOf_tree ht

theorem coll_refines {e : Expecter} {call : Call} {cur : Option (Nat × List Nat × List (Frame Nat))}
    (hr : Rel h multi r hs c) (hf : c.fatal = none) (hcur : Current (view lib h multi anyOf) e c cur)
    (hc : (call = .sequence ∧ e = .sequence) ∨ (call = .mapping ∧ e = .mapping)) :
    ∃ hd x, Conv (fun f => readCollection lib f e r) (some hd, x) ∧
      (react (view lib h multi anyOf) e c call cur).1 = .coll (sizeOf hd) ∧
      Rel h multi x (hs ++ [hd]) (react (view lib h multi anyOf) e c call cur).2 := by
  have ho : opening call = true := by rcases hc with ⟨rfl, _⟩ | ⟨rfl, _⟩ <;> rfl
  have hz : zeroOf (N := Nat) call = .coll 0 := by rcases hc with ⟨rfl, _⟩ | ⟨rfl, _⟩ <;> rfl
  have hn : call ≠ .tryNull := by rcases hc with ⟨rfl, _⟩ | ⟨rfl, _⟩ <;> simp
  have hno : addNoop call hs = hs ++ [none] := by simp [addNoop, ho]
  have hff : ¬ r.fatalError.isSome = true := by simp [hr.fatal, hf]
  rcases expect_spec hr hf hcur with ⟨x, h1, h2⟩ | ⟨x, n, l, fs, ps, rfl, h1, h2, h3, h4, h5⟩
  · obtain ⟨h2, h3⟩ := h2 call hn
    rw [hno] at h3
    exact ⟨none, x, Conv.congr (fun f => if_neg hff) (Conv.bind h1 (Conv.pure _)), h2.trans hz, h3⟩
  · have hw : verdict lib (h n) e = .opens := by
      rcases hc with ⟨rfl, rfl⟩ | ⟨rfl, rfl⟩
      · by_cases hk : (h n).kind = .sequence <;> simp [verdict, hk] at h4 ⊢
      · by_cases hk : (h n).kind = .mapping <;> simp [verdict, hk] at h4 ⊢
    have hw' : (view lib h multi anyOf).verdict e n = .opens := hw
    have hk : (h n).kind = .sequence ∨ (h n).kind = .mapping := by
      rcases verdict_opens hw with ⟨_, h⟩ | ⟨_, h⟩
      · exact .inl h
      · exact .inr h
    obtain ⟨h6, p', i, h7, h8, h9, h10, h11, h12, h13⟩ := h3.opens hw
    have htr := Visited.trees (x := x) hr hf hcur h5
    refine ⟨some ((h n).content.length, i), x, ?_, ?_, ?_⟩
    · refine Conv.congr (fun f => if_neg hff) (Conv.bind h1 ?_)
      simp only [if_true, h13]
      exact Conv.pure _
    · simp only [react, hw']
      rfl
    · simp only [react, hw']
      have hlen : c.sizes.length = hs.length := by rw [← hr.sizes, List.length_map]
      refine ⟨h2.heap.trans hr.heap, h2.multi.trans hr.multi, h6, h3.fatal.trans hf.symm,
        h2.denyErrors.trans hr.denied, ?_, fun hd => ?_, fun _ => ⟨p' :: ps, ?_, h7⟩⟩
      · rw [List.map_append, hr.sizes]
        rfl
      · simp [hf] at hd
      · rw [hlen]
        exact h3.base.push h9 h10 h11 htr (by rw [h8]; exact hk) h12

theorem skip_refines {cur : Option (Nat × List Nat × List (Frame Nat))}
    (hr : Rel h multi r hs c) (hf : c.fatal = none) (hcur : Current (view lib h multi anyOf) .skip c cur) :
    ∃ x, Conv (fun f => readSkip lib f r) ((react (view lib h multi anyOf) .skip c .skip cur).1, x) ∧
      Rel h multi x hs (react (view lib h multi anyOf) .skip c .skip cur).2 := by
  have hff : ¬ r.fatalError.isSome = true := by simp [hr.fatal, hf]
  rcases expect_spec hr hf hcur with ⟨x, h1, h2⟩ | ⟨x, n, l, fs, ps, rfl, h1, h2, h3, h4, h5⟩
  · obtain ⟨h2, h3⟩ := h2 .skip (by simp)
    refine ⟨x, Conv.congr (fun f => if_neg hff) (Conv.bind h1 ?_), h3⟩
    rw [h2]
    exact Conv.pure _
  · have hw : verdict lib (h n) .skip = .whole := rfl
    have hw' : (view lib h multi anyOf).verdict .skip n = .whole := rfl
    obtain ⟨h6, _, h8⟩ := h3.whole hw
    simp only [if_false, reduceCtorEq, or_self] at h8
    refine ⟨x, Conv.congr (fun f => if_neg hff) (Conv.bind h1 ?_), ?_⟩
    · simp only [react, hw', valueOf]
      exact Conv.pure _
    · simp only [react, hw', valueOf]
      exact rel_taken hr hf h2 h3 hw (y := x) rfl rfl rfl rfl rfl rfl h8 .skip rfl

theorem node_refines {cur : Option (Nat × List Nat × List (Frame Nat))}
    (hr : Rel h multi r hs c) (hf : c.fatal = none) (hcur : Current (view lib h multi anyOf) .raw c cur) :
    ∃ x, Conv (fun f => readNode lib f r) ((react (view lib h multi anyOf) .raw c .node cur).1, x) ∧
      Rel h multi x hs (react (view lib h multi anyOf) .raw c .node cur).2 := by
  have hff : ¬ r.fatalError.isSome = true := by simp [hr.fatal, hf]
  rcases expect_spec hr hf hcur with ⟨x, h1, h2⟩ | ⟨x, n, l, fs, ps, rfl, h1, h2, h3, h4, h5⟩
  · obtain ⟨h2, h3⟩ := h2 .node (by simp)
    refine ⟨x, Conv.congr (fun f => if_neg hff) (Conv.bind h1 ?_), h3⟩
    rw [h2]
    exact Conv.pure _
  · have hw : verdict lib (h n) .raw = .whole := rfl
    have hw' : (view lib h multi anyOf).verdict .raw n = .whole := rfl
    obtain ⟨h6, _, h8⟩ := h3.whole hw
    simp only [reduceCtorEq, or_true, if_true] at h8
    obtain ⟨p', h8, h9⟩ := h8
    refine ⟨pop x, Conv.congr (fun f => if_neg hff) (Conv.bind h1 ?_), ?_⟩
    · simp only [react, hw', valueOf, currentNode, h8, List.head?_cons, Option.map_some, h9, if_true]
      exact Conv.pure _
    · simp only [react, hw', valueOf]
      refine rel_taken hr hf h2 h3 hw (y := pop x) ?_ ?_ ?_ ?_ ?_ ?_ ?_ .node rfl <;> simp [pop, h8]

theorem any_refines {cur : Option (Nat × List Nat × List (Frame Nat))}
    (hany : ∀ n, Tree h n → Conv (fun f => GoyamlAnyBuilder.extractAnyValue lib.toGLib h f n) (anyOf n))
    (hr : Rel h multi r hs c) (hf : c.fatal = none) (hcur : Current (view lib h multi anyOf) .any c cur) :
    ∃ x, Conv (fun f => readAny lib f r) ((react (view lib h multi anyOf) .any c .any cur).1, x) ∧
      Rel h multi x hs (react (view lib h multi anyOf) .any c .any cur).2 := by
  have hff : ¬ r.fatalError.isSome = true := by simp [hr.fatal, hf]
  rcases expect_spec hr hf hcur with ⟨x, h1, h2⟩ | ⟨x, n, l, fs, ps, rfl, h1, h2, h3, h4, h5⟩
  · obtain ⟨h2, h3⟩ := h2 .any (by simp)
    refine ⟨x, Conv.congr (fun f => if_neg hff) (Conv.bind h1 ?_), h3⟩
    rw [h2]
    exact Conv.pure _
  · have hw : verdict lib (h n) .any = .whole := rfl
    have hw' : (view lib h multi anyOf).verdict .any n = .whole := rfl
    obtain ⟨h6, _, h8⟩ := h3.whole hw
    simp only [reduceCtorEq, or_false, if_true] at h8
    obtain ⟨p', h8, h9⟩ := h8
    have hx : x.heap = h := h2.heap.trans hr.heap
    cases hv : anyOf n with
    | some v =>
      have hval : valueOf (view lib h multi anyOf) n .any = .ok (.any (some v)) := by
        show (match anyOf n with | some v => _ | none => _) = _
        rw [hv]
      refine ⟨pop x, Conv.congr (fun f => if_neg hff) (Conv.bind h1 ?_), ?_⟩
      · simp only [react, hw', hval, currentNode, h8, List.head?_cons, Option.map_some, h9, if_true, hx]
        refine Conv.bind (hany n h5) ?_
        rw [hv]
        exact Conv.pure _
      · simp only [react, hw', hval]
        refine rel_taken hr hf h2 h3 hw (y := pop x) ?_ ?_ ?_ ?_ ?_ ?_ ?_ .any rfl <;> simp [pop, h8]
    | none =>
      have hval : valueOf (view lib h multi anyOf) n .any = .error .any := by
        show (match anyOf n with | some v => _ | none => _) = _
        rw [hv]
      refine ⟨appendError (some .any) x, Conv.congr (fun f => if_neg hff) (Conv.bind h1 ?_), ?_⟩
      · simp only [react, hw', hval, currentNode, h8, List.head?_cons, Option.map_some, h9, if_true, hx]
        refine Conv.bind (hany n h5) ?_
        rw [hv]
        exact Conv.pure _
      · simp only [react, hw', hval]
        exact rel_refused (anyOf := anyOf) hr h2 h3 hw .any .any rfl

theorem raw_refines {cur : Option (Nat × List Nat × List (Frame Nat))}
    (hr : Rel h multi r hs c) (hf : c.fatal = none) (hcur : Current (view lib h multi anyOf) .raw c cur) :
    ∃ x, Conv (fun f => readRaw lib f r) ((react (view lib h multi anyOf) .raw c .raw cur).1, x) ∧
      Rel h multi x hs (react (view lib h multi anyOf) .raw c .raw cur).2 := by
  have hff : ¬ r.fatalError.isSome = true := by simp [hr.fatal, hf]
  rcases expect_spec hr hf hcur with ⟨x, h1, h2⟩ | ⟨x, n, l, fs, ps, rfl, h1, h2, h3, h4, h5⟩
  · obtain ⟨h2, h3⟩ := h2 .raw (by simp)
    refine ⟨x, Conv.congr (fun f => if_neg hff) (Conv.bind h1 ?_), h3⟩
    rw [h2]
    exact Conv.pure _
  · have hw : verdict lib (h n) .raw = .whole := rfl
    have hw' : (view lib h multi anyOf).verdict .raw n = .whole := rfl
    obtain ⟨h6, _, h8⟩ := h3.whole hw
    simp only [reduceCtorEq, or_true, if_true] at h8
    obtain ⟨p', h8, h9⟩ := h8
    have hx : x.heap = h := h2.heap.trans hr.heap
    have hxx : ({ x with heap := h, route := p' :: ps } : Reader) = x := by
      rw [← hx, ← h8]
    cases hv : lib.marshal (unanchored h n) n with
    | some v =>
      have hval : valueOf (view lib h multi anyOf) n .raw = .ok (.raw (some v)) := by
        show (match lib.marshal (unanchored h n) n with | some v => _ | none => _) = _
        rw [hv]
      refine ⟨pop x, Conv.congr (fun f => if_neg hff) (Conv.bind h1 ?_), ?_⟩
      · simp only [react, hw', hval, currentNode, h8, List.head?_cons, Option.map_some, h9, if_true, hx]
        refine Conv.bind (GoyamlTree.raw_conv h5) ?_
        simp only [hv, hxx]
        exact Conv.pure _
      · simp only [react, hw', hval]
        refine rel_taken hr hf h2 h3 hw (y := pop x) ?_ ?_ ?_ ?_ ?_ ?_ ?_ .raw rfl <;> simp [pop, h8]
    | none =>
      have hval : valueOf (view lib h multi anyOf) n .raw = .error .raw := by
        show (match lib.marshal (unanchored h n) n with | some v => _ | none => _) = _
        rw [hv]
      refine ⟨appendError (some .raw) x, Conv.congr (fun f => if_neg hff) (Conv.bind h1 ?_), ?_⟩
      · simp only [react, hw', hval, currentNode, h8, List.head?_cons, Option.map_some, h9, if_true, hx]
        refine Conv.bind (GoyamlTree.raw_conv h5) ?_
        simp only [hv, hxx]
        exact Conv.pure _
      · simp only [react, hw', hval]
        exact rel_refused (anyOf := anyOf) hr h2 h3 hw .raw .raw rfl

theorem Pts.find {its : List (List Nat)} {fs : List (Frame Nat)} {ps : List Point} (hp : Pts h hs its fs ps) (k : Nat) :
    (∀ f ∈ fs, f.1 ≠ some k) ∨ ∃ s i, hs[k]? = some (some (s, i)) ∧ its[i]? = some (left k fs) ∧ (∃ f ∈ fs, f.1 = some k) := by
  induction hp with
  | base =>
    left
    intro f hf
    obtain rfl := List.mem_singleton.mp hf
    simp
  | root _ =>
    left
    intro f hf
    obtain rfl := List.mem_singleton.mp hf
    simp
  | @cons k' rest fs p ps s i _ h1 h2 _ h4 _ _ _ ih =>
    by_cases hk : k' = k
    · subst hk
      refine .inr ⟨s, i, h2, ?_, _, List.mem_cons_self, rfl⟩
      rw [h4]
      simp [left]
    · rcases ih with ih | ⟨s', i', h5, h6, f, h7, h8⟩
      · left
        intro f hf
        rcases List.mem_cons.mp hf with rfl | hf
        · simpa using hk
        · exact ih f hf
      · refine .inr ⟨s', i', h5, ?_, f, List.mem_cons_of_mem _ h7, h8⟩
        rw [h6]
        simp [left, hk]

theorem left_none {fs : List (Frame Nat)} {k : Nat} (hn : ∀ f ∈ fs, f.1 ≠ some k) : left k fs = [] := by
  rw [left, List.find?_eq_none.mpr]
  simpa using hn

/-- What a collection state reports. -/
theorem items_show (hr : Rel h multi r hs c) (k : Nat) :
    (match hs.getD k none with | some (_, i) => !iterEmpty r i | none => false) = !(left k c.frames).isEmpty := by
  cases hk : hs[k]? with
  | none =>
    rw [List.getD_eq_getElem?_getD, hk]
    have : left k c.frames = [] := by
      cases hf : c.fatal with
      | some e => rw [(hr.dead (by simp [hf])).2]; rfl
      | none =>
        obtain ⟨ps, hb, _⟩ := hr.live hf
        rcases hb.pts.find k with h | ⟨s, i, h1, _⟩
        · exact left_none h
        · rw [hk] at h1
          cases h1
    simp [this]
  | some hd =>
    rw [List.getD_eq_getElem?_getD, hk]
    cases hd with
    | none =>
      have : left k c.frames = [] := by
        cases hf : c.fatal with
        | some e => rw [(hr.dead (by simp [hf])).2]; rfl
        | none =>
          obtain ⟨ps, hb, _⟩ := hr.live hf
          rcases hb.pts.find k with h | ⟨s, i, h1, _⟩
          · exact left_none h
          · rw [hk] at h1
            cases h1
      simp [this]
    | some si =>
      obtain ⟨s, i⟩ := si
      have : r.iters.getD i [] = left k c.frames := by
        cases hf : c.fatal with
        | some e =>
          rw [(hr.dead (by simp [hf])).2, (hr.dead (by simp [hf])).1 hk]
          rfl
        | none =>
          obtain ⟨ps, hb, _⟩ := hr.live hf
          rcases hb.pts.find k with h | ⟨s', i', h1, h2, _⟩
          · rw [left_none h, hb.closed hk h]
          · rw [hk] at h1
            cases h1
            rw [List.getD_eq_getElem?_getD, h2]
            rfl
      show (!(r.iters.getD i []).isEmpty) = _
      rw [this]

theorem size_shows (hr : Rel h multi r hs c) (k : Nat) :
    (match hs.getD k none with | some (n, _) => n | none => 0) = c.sizes.getD k 0 := by
  rw [← hr.sizes, List.getD_eq_getElem?_getD, List.getD_eq_getElem?_getD, List.getElem?_map]
  cases hs[k]? with
  | none => rfl
  | some hd =>
    cases hd with
    | none => rfl
    | some si => rfl

theorem hasItems_refines (hr : Rel h multi r hs c) (k f : Nat) :
    step lib f ⟨r, hs.map some⟩ (.hasItems k) = .ok (.bool (!(left k c.frames).isEmpty), ⟨r, hs.map some⟩) := by
  rw [← items_show hr k]
  simp only [step, List.getD_eq_getElem?_getD, List.getElem?_map]
  cases hs[k]? with
  | none => rfl
  | some hd => cases hd <;> rfl

theorem size_refines (hr : Rel h multi r hs c) (k f : Nat) :
    step lib f ⟨r, hs.map some⟩ (.size k) = .ok (.size (c.sizes.getD k 0), ⟨r, hs.map some⟩) := by
  rw [← size_shows hr k]
  simp only [step, List.getD_eq_getElem?_getD, List.getElem?_map]
  cases hs[k]? with
  | none => rfl
  | some hd => cases hd <;> rfl

theorem map_addNoop (call : Call) (hs : List Handle) :
    (addNoop call hs).map some = if opening call then hs.map some ++ [some none] else hs.map some := by
  rw [addNoop]
  split <;> simp

/-- The frames after all collections which are being read were emptied. -/
def emptied (fs : List (Frame Nat)) : List (Frame Nat) := fs.map (fun f => if f.1.isSome then (f.1, []) else f)

theorem emptied_names (fs : List (Frame Nat)) (k : Nat) : (∀ f ∈ fs, f.1 ≠ some k) ↔ ∀ f ∈ emptied fs, f.1 ≠ some k := by
  rw [emptied]
  constructor
  · intro h f hf
    obtain ⟨g, hg, rfl⟩ := List.mem_map.mp hf
    have := h g hg
    split <;> exact this
  · intro h f hf
    have := h _ (List.mem_map.mpr ⟨f, hf, rfl⟩)
    split at this <;> exact this

theorem Pts.emptied {its its' : List (List Nat)} {fs : List (Frame Nat)} {ps : List Point} (hp : Pts h hs its fs ps)
    (hi : ∀ i, (∃ p ∈ ps, p.iter = some i) → i < its.length → its'[i]? = some []) :
    Pts h hs its' (emptied fs) ps := by
  induction hp with
  | base => exact .base
  | root ht => exact .root ht
  | @cons k rest fs p ps s i _ h1 h2 h3 h4 _ h6 h7 ih =>
    refine .cons (ih fun j ⟨q, hq, hj⟩ => hi j ⟨q, List.mem_cons_of_mem _ hq, hj⟩) ((emptied_names fs k).mp h1) h2 h3
      (hi i ⟨p, List.mem_cons_self, h3⟩ (List.getElem?_eq_some_iff.mp h4).1) (fun n hn => (nomatch hn)) h6 h7

theorem drained_get {ps : List Point} {its : List (List Nat)} {i : Nat} (hp : ∃ p ∈ ps, p.iter = some i) (hl : i < its.length) :
    (drained ps its)[i]? = some [] := by
  have h1 := (drained_getD ps its i).2.1 hp
  have h2 : i < (drained ps its).length := by rw [drained_length]; exact hl
  rw [List.getD_eq_getElem?_getD, List.getElem?_eq_getElem h2] at h1
  rw [List.getElem?_eq_getElem h2]
  exact congrArg some h1

/-- `AddError(nil)` empties all collections which are being read. -/
theorem addNil_refines (hr : Rel h multi r hs c) (hf : c.fatal = none) :
    Rel h multi (addError none r) hs { c with pending := c.pending.map (fun p => (p.1, [])), frames := emptied c.frames } := by
  obtain ⟨ps, hb, hp⟩ := hr.live hf
  have hff : r.fatalError = none := hr.fatal.trans hf
  have he : addError none r = { r with iters := drained r.route r.iters, fatalError := none } := by
    simp [addError, hff, appendError, setFatal]
    rfl
  have hps : ∀ {p : Point}, p ∈ ps → p ∈ r.route := by
    intro p hm
    cases hq : c.pending with
    | none =>
      rw [hq] at hp
      rw [hp]
      exact hm
    | some nl =>
      rw [hq] at hp
      obtain ⟨p', h1, _⟩ := hp
      rw [h1]
      exact List.mem_cons_of_mem _ hm
  have hspent : Spent hs (drained r.route r.iters) := by
    refine Covered.spent ?_
    intro k s i hk
    rcases hb.covered hk with h | ⟨p, h1, h2⟩
    · exact .inl h
    · exact .inr ⟨p, hps h1, h2⟩
  rw [he]
  refine ⟨hr.heap, hr.multi, hr.deny, hf.symm, hr.denied, hr.sizes, fun hd => ?_, fun _ => ⟨ps, ?_, ?_⟩⟩
  · rw [hf] at hd
    cases hd
  · refine ⟨hb.pts.emptied fun i hi hl => ?_, hb.inj, fun hk => ?_, fun hk _ => ?_⟩
    · obtain ⟨p, h1, h2⟩ := hi
      exact drained_get ⟨p, hps h1, h2⟩ hl
    · rw [drained_length]
      exact hb.bound hk
    · exact hspent hk
  · cases hq : c.pending with
    | none =>
      rw [hq] at hp
      exact hp
    | some nl =>
      obtain ⟨n, l⟩ := nl
      rw [hq] at hp
      obtain ⟨p, h1, h2, hu⟩ := hp
      refine ⟨p, h1, h2, hu.node, hu.tree, fun _ h => (nomatch h), ?_⟩
      rcases hu.state with ⟨h3, _⟩ | ⟨h3, h4⟩
      · rw [h2] at h3
        cases h3
      · refine .inr ⟨h3, fun hk => ?_⟩
        obtain ⟨i, h5, h6, h7⟩ := h4 hk
        refine ⟨i, h5, ?_, h7⟩
        exact drained_get ⟨p, by rw [h1]; exact List.mem_cons_self, h5⟩ (List.getElem?_eq_some_iff.mp h6).1

/-- Every step of the cursor is what the decoder does. -/
theorem step_refines (hany : ∀ n, Tree h n → Conv (fun f => GoyamlAnyBuilder.extractAnyValue lib.toGLib h f n) (anyOf n))
    {call : Call} {o : Out Nat} {c' : Cursor Nat} (hr : Rel h multi r hs c)
    (hst : Step (view lib h multi anyOf) c call o c') :
    ∃ r' hs', Conv (fun f => step lib f ⟨r, hs.map some⟩ call) (o, ⟨r', hs'.map some⟩) ∧ Rel h multi r' hs' c' := by
  cases hst with
  | @dead call e he hf =>
    have hff : r.fatalError.isSome = true := by rw [hr.fatal]; exact hf
    refine ⟨r, addNoop call hs, ?_, rel_dead hr hf call⟩
    rw [map_addNoop]
    refine Conv.congr (fun f => ?_) (Conv.pure _)
    cases call <;> simp only [expecterOf, reduceCtorEq] at he <;>
      simp only [step, step.lift, step.openColl, tryNull, readScalar, readCollection, readAny, readRaw, readNode, readSkip, hff, if_true] <;> rfl
  | @read call e cur he hf hcur =>
    have lifted : ∀ {g : Nat → Res (Out Nat × Reader)} {o : Out Nat} {c' : Cursor Nat},
        (∃ x, Conv g (o, x) ∧ Rel h multi x hs c') →
        ∃ r' hs', Conv (fun f => step.lift ⟨r, hs.map some⟩ (g f)) (o, (⟨r', hs'.map some⟩ : Session)) ∧ Rel h multi r' hs' c' := by
      rintro g o c' ⟨x, h1, h2⟩
      exact ⟨x, hs, Conv.bind h1 (Conv.pure _), h2⟩
    have opened : ∀ {g : Nat → Res (Option Handle × Reader)} {o : Out Nat} {c' : Cursor Nat},
        (∃ hd x, Conv g (some hd, x) ∧ o = .coll (sizeOf hd) ∧ Rel h multi x (hs ++ [hd]) c') →
        ∃ r' hs', Conv (fun f => step.openColl ⟨r, hs.map some⟩ (g f)) (o, (⟨r', hs'.map some⟩ : Session)) ∧ Rel h multi r' hs' c' := by
      rintro g o c' ⟨hd, x, h1, rfl, h2⟩
      refine ⟨x, hs ++ [hd], Conv.bind h1 (Conv.congr (fun f => ?_) (Conv.pure _)), h2⟩
      rw [List.map_append]
      cases hd <;> rfl
    cases call with
    | tryNull =>
      cases he
      exact lifted (null_refines hr hf hcur)
    | integer b =>
      cases he
      refine lifted (scalar_refines (call := .integer b) hr hf hcur rfl rfl (by simp) fun n => ?_)
      show (match Schema.toInteger (h n).value b with | .ok v => _ | .error _ => _) = _
      cases Schema.toInteger (h n).value b <;> rfl
    | unsigned b =>
      cases he
      refine lifted (scalar_refines (call := .unsigned b) hr hf hcur rfl rfl (by simp) fun n => ?_)
      show (match Schema.toUnsignedInteger (h n).value b with | .ok v => _ | .error _ => _) = _
      cases Schema.toUnsignedInteger (h n).value b <;> rfl
    | boolean =>
      cases he
      refine lifted (scalar_refines (call := .boolean) hr hf hcur rfl rfl (by simp) fun n => ?_)
      show (match Schema.toBoolean (h n).value with | some v => _ | none => _) = _
      cases Schema.toBoolean (h n).value <;> rfl
    | float b =>
      cases he
      refine lifted (scalar_refines (call := .float b) hr hf hcur rfl rfl (by simp) fun n => ?_)
      show (if lib.toFloat (h n).value b then _ else _) = _
      by_cases hb : lib.toFloat (h n).value b = true
      · rw [if_pos hb, if_pos hb]
        rfl
      · rw [if_neg hb, if_neg hb]
    | string =>
      cases he
      exact lifted (scalar_refines (call := .string) hr hf hcur rfl rfl (by simp) fun n => rfl)
    | timestamp =>
      cases he
      refine lifted (scalar_refines (call := .timestamp) hr hf hcur rfl rfl (by simp) fun n => ?_)
      show (if lib.isTimestamp (h n).value then _ else _) = _
      by_cases hb : lib.isTimestamp (h n).value = true
      · rw [if_pos hb, if_pos hb]
        rfl
      · rw [if_neg hb, if_neg hb]
    | sequence =>
      cases he
      exact opened (coll_refines hr hf hcur (.inl ⟨rfl, rfl⟩))
    | mapping =>
      cases he
      exact opened (coll_refines hr hf hcur (.inr ⟨rfl, rfl⟩))
    | any =>
      cases he
      exact lifted (any_refines hany hr hf hcur)
    | raw =>
      cases he
      exact lifted (raw_refines hr hf hcur)
    | node =>
      cases he
      exact lifted (node_refines hr hf hcur)
    | skip =>
      cases he
      exact lifted (skip_refines hr hf hcur)
    | addError e => cases he
    | error => cases he
    | hasItems k => cases he
    | size k => cases he
  | @addError id hf =>
    have hff : r.fatalError = none := hr.fatal.trans hf
    obtain ⟨ps, hb, hp⟩ := hr.live hf
    refine ⟨addError (some (.custom id)) r, hs, Conv.pure _, ?_⟩
    have he : GoyamlReader.addError (some (.custom id)) r = setFatal (some (.custom id)) r := by
      simp [GoyamlReader.addError, hff]
    rw [he]
    refine rel_failed' hr.heap hr.multi hr.deny hr.denied hr.sizes ?_ _ (.addError (some id)) _
    intro k s i hk
    rcases hb.covered hk with h | ⟨p, h1, h2⟩
    · exact .inl h
    · refine .inr ⟨p, ?_, h2⟩
      cases hq : c.pending with
      | none =>
        rw [hq] at hp
        rw [hp]
        exact h1
      | some nl =>
        rw [hq] at hp
        obtain ⟨p', h3, _⟩ := hp
        rw [h3]
        exact List.mem_cons_of_mem _ h1
  | @addErrorDead x hf =>
    have hff : r.fatalError.isSome = true := by rw [hr.fatal]; exact hf
    refine ⟨r, hs, Conv.congr (fun f => ?_) (Conv.pure _), hr⟩
    have : GoyamlReader.addError (x.map .custom) r = r := by
      cases he : r.fatalError with
      | none => simp [he] at hff
      | some e => simp [GoyamlReader.addError, he]
    simp only [step, this]
  | addNil _ hd => cases hd
  | addNilDrains hf _ => exact ⟨_, hs, Conv.pure _, addNil_refines hr hf⟩
  | error =>
    refine ⟨r, hs, Conv.congr (fun f => ?_) (Conv.pure _), hr⟩
    simp only [step, hr.fatal, hr.denied]
  | @hasItems k =>
    exact ⟨r, hs, Conv.congr (fun f => hasItems_refines hr k f) (Conv.pure _), hr⟩
  | @size k =>
    exact ⟨r, hs, Conv.congr (fun f => size_refines hr k f) (Conv.pure _), hr⟩

theorem run_cons {s s1 s2 : Session} {call : Call} {calls : List Call} {o : Out Nat} {os : List (Out Nat)}
    (h1 : Conv (fun f => step lib f s call) (o, s1)) (h2 : Conv (fun f => run lib f s1 calls) (os, s2)) :
    Conv (fun f => run lib f s (call :: calls)) (o :: os, s2) :=
  Conv.bind h1 (Conv.bind h2 (Conv.pure _))

/-- Every history of the cursor is one of the decoder. -/
theorem run_refines (hany : ∀ n, Tree h n → Conv (fun f => GoyamlAnyBuilder.extractAnyValue lib.toGLib h f n) (anyOf n))
    {t : List (Call × Out Nat)} {c' : Cursor Nat} (hr : Rel h multi r hs c)
    (hrun : Run (view lib h multi anyOf) c t c') :
    ∃ r' hs', Conv (fun f => run lib f ⟨r, hs.map some⟩ (t.map Prod.fst)) (t.map Prod.snd, ⟨r', hs'.map some⟩) ∧ Rel h multi r' hs' c' := by
  induction hrun generalizing r hs with
  | nil => exact ⟨r, hs, Conv.pure _, hr⟩
  | cons hst _ ih =>
    obtain ⟨r1, hs1, h1, h2⟩ := step_refines hany hr hst
    obtain ⟨r2, hs2, h3, h4⟩ := ih h2
    exact ⟨r2, hs2, run_cons h1 h3, h4⟩

/-- The decoder at the beginning of a document. -/
theorem rel_start {n : Nat} (ht : Tree h n) (multi : Bool) :
    Rel h multi { heap := h, multi := multi, route := [{ node := n }] } [] (start n) :=
  ⟨rfl, rfl, rfl, rfl, rfl, rfl, fun h => (nomatch h), fun _ => ⟨_, ⟨.root ht, fun h => (nomatch h), fun h => (nomatch h),
    fun h => (nomatch h)⟩, rfl⟩⟩

end Verif.GoyamlReader
