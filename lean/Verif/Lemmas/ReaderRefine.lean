import Verif.Lemmas.ReaderTree

/-!
Every call of the decoder of the yayamls engine is a step of the cursor.
-/

namespace Verif.Reader

open Verif.Ast Verif.Generic Verif.Decoder Verif.DecoderCursor Verif.ReaderCursor

set_option linter.unusedSimpArgs false

variable {lib : Lib} {nulls multi : Bool} {anyOf : Node → Option GVal} {r : Reader} {hs : List Handle} {c : Cursor Node}

theorem rel_dead (hr : Rel nulls multi r hs c) (hf : c.fatal.isSome) (call : Call) :
    Rel nulls multi r (addNoop call hs) { c with sizes := addSize call 0 c.sizes } := by
  refine ⟨hr.mode, hr.multi, hr.deny, hr.fatal, hr.denied, ?_, hr.shows.noop call, fun hn => ?_⟩
  · rw [addNoop_sizes, hr.sizes]
  · simp only at hn
    rw [hn] at hf
    cases hf

/-- After a node which has been read as a whole. -/
theorem rel_taken {x : Reader} {e : Expecter} {n : Node} {l : List Node} {fs : List (Frame Node)} {ps : List Point}
    (hr : Rel nulls multi r hs c) (hf : c.fatal = none) (hm : x.multi = multi) (hd : x.denyErrors = c.denied)
    (hv : Visited lib nulls hs fs ps n l e x) (hw : verdict lib e n = .whole) {y : Reader}
    (hy2 : y.multi = x.multi) (hy3 : y.latestDeny = x.latestDeny) (hy4 : y.fatalError = x.fatalError)
    (hy5 : y.denyErrors = x.denyErrors) (hy6 : y.iters = x.iters) (hy7 : y.route = ps) (call : Call)
    (ho : opening call = false) :
    Rel nulls multi y (addNoop call hs) { c with pending := none, frames := fs, sizes := addSize call 0 c.sizes } := by
  have h1 : addNoop call hs = hs := by simp [addNoop, ho]
  have h2 : addSize call 0 c.sizes = c.sizes := by simp [addSize, ho]
  rw [h1, h2]
  have hb : Base nulls hs y.iters fs ps := by
    rw [hy6]
    exact hv.base
  exact ⟨hr.mode, hy2.trans hm, hy3.trans (hv.whole hw).2.1, hy4.trans ((hv.whole hw).1.trans hf.symm), hy5.trans hd,
    hr.sizes, hb.shows, fun _ => ⟨ps, hb, hy7⟩⟩

/-- The node on the route is read, but the call fails. -/
theorem rel_refused {x : Reader} {e : Expecter} {n : Node} {l : List Node} {fs : List (Frame Node)} {ps : List Point}
    (hr : Rel nulls multi r hs c) (hm : x.multi = multi) (hd : x.denyErrors = c.denied)
    (hv : Visited lib nulls hs fs ps n l e x) (hw : verdict lib e n = .whole) (err : Err) (call : Call)
    (he : err.isDeny = false) {y : Reader} (hy2 : y.multi = x.multi) (hy3 : y.latestDeny = x.latestDeny)
    (hy4 : y.fatalError = x.fatalError) (hy5 : y.denyErrors = x.denyErrors) (hy6 : y.iters = x.iters) :
    Rel nulls multi (appendError (some err) y) (addNoop call hs) (failed (view lib multi anyOf) call err fs c) := by
  rw [appendError_fatal (hy4.trans (hv.whole hw).1) (by simp [he])]
  refine rel_failed (r0 := setFatal err y) hr.mode (hy2.trans hm) (hy3.trans (hv.whole hw).2.1) (hy5.trans hd) hr.sizes err
    rfl call ?_
  show Shows hs y.iters fs
  rw [hy6]
  exact hv.base.shows

theorem scalar_refines {conv : List Char → Option (Out Node)} {e : Expecter} {call : Call}
    {cur : Option (Node × List Node × List (Frame Node))} (hr : Rel nulls multi r hs c)
    (hf : c.fatal = none) (hcur : Current (view lib multi anyOf) e c cur) (hx : Extracts e = true)
    (ho : opening call = false) (hn : call ≠ .tryNull)
    (hc : ∀ n, valueOf (view lib multi anyOf) n call =
      match conv (ReaderCursor.textOf n) with | some v => .ok v | none => .error (.convert e)) :
    ∃ x, Conv (fun f => readScalar lib f e conv (zeroOf call) r) ((react (view lib multi anyOf) e c call cur).1, x) ∧
      Rel nulls multi x hs (react (view lib multi anyOf) e c call cur).2 := by
  have hno : addNoop call hs = hs := by simp [addNoop, ho]
  have hff : ¬ r.fatalError.isSome = true := by simp [hr.fatal, hf]
  rcases expect_spec hr hf hcur with ⟨x, h1, h2⟩ | ⟨x, n, l, fs, ps, rfl, h1, h2, h2', h3, h4, _⟩
  · obtain ⟨h2, h3⟩ := h2 call hn
    rw [hno] at h3
    refine ⟨x, ?_, h3⟩
    refine Conv.congr (fun f => if_neg hff) (Conv.bind h1 ?_)
    rw [h2]
    exact Conv.pure _
  · have hw : verdict lib e n = .whole := by
      cases hv : verdict lib e n with
      | whole => rfl
      | deny => exact absurd hv h4
      | opens =>
        rcases verdict_opens hv with ⟨rfl, _⟩ | ⟨rfl, _⟩ <;> cases hx
    obtain ⟨_, _, h7, h8⟩ := h3.whole hw
    have h7 := h7 hx
    have hne : ¬ (e = .any ∨ e = .raw) := by
      rintro (rfl | rfl) <;> cases hx
    rw [if_neg hne] at h8
    have hw' : (view lib multi anyOf).verdict e n = .whole := hw
    cases hcv : conv (ReaderCursor.textOf n) with
    | some v =>
      have hval : valueOf (view lib multi anyOf) n call = .ok v := by rw [hc, hcv]
      refine ⟨x, ?_, ?_⟩
      · refine Conv.congr (fun f => if_neg hff) (Conv.bind h1 ?_)
        simp only [react, hw', hval, h7, hcv, if_true]
        exact Conv.pure _
      · simp only [react, hw', hval]
        have := rel_taken hr hf h2 h2' h3 hw (y := x) rfl rfl rfl rfl rfl h8 call ho
        rwa [hno] at this
    | none =>
      have hval : valueOf (view lib multi anyOf) n call = .error (.convert e) := by rw [hc, hcv]
      refine ⟨appendError (some (.convert e)) x, ?_, ?_⟩
      · refine Conv.congr (fun f => if_neg hff) (Conv.bind h1 ?_)
        simp only [react, hw', hval, h7, hcv, if_true]
        exact Conv.pure _
      · simp only [react, hw', hval]
        have := rel_refused (anyOf := anyOf) hr h2 h2' h3 hw (.convert e) call rfl (y := x) rfl rfl rfl rfl rfl
        rwa [hno] at this

theorem null_refines {cur : Option (Node × List Node × List (Frame Node))} (hr : Rel nulls multi r hs c)
    (hf : c.fatal = none) (hcur : Current (view lib multi anyOf) .null c cur) :
    ∃ x, Conv (fun f => tryNull lib f r) ((react (view lib multi anyOf) .null c .tryNull cur).1, x) ∧
      Rel nulls multi x hs (react (view lib multi anyOf) .null c .tryNull cur).2 := by
  have hff : ¬ r.fatalError.isSome = true := by simp [hr.fatal, hf]
  obtain ⟨h1, h2⟩ := visit_current hr hf hcur
  rcases cur with _ | ⟨n, l, fs⟩
  · obtain ⟨r', h3, h4, h5, h6, h7, h8⟩ := h1 rfl
    refine ⟨r', ?_, ?_⟩
    · refine Conv.congr (fun f => if_neg hff) (Conv.bind h3 (Conv.congr (fun f => ?_) (Conv.pure _)))
      simp [h4, react, zeroOf]
    · exact rel_failed hr.mode h5 h7 h6 hr.sizes _ h4 .tryNull h8
  · obtain ⟨r', ps, h3, h4, h4', h5, h6, h6'⟩ := h2 n l fs rfl
    cases hv : verdict lib .null n with
    | deny =>
      have hv' : (view lib multi anyOf).verdict .null n = .deny := hv
      rcases h5.deny hv with ⟨h7, h8, p', h9, h10, h11⟩ | ⟨h7, _⟩
      · refine ⟨{ r' with latestDeny := none }, ?_, ?_⟩
        · refine Conv.congr (fun f => if_neg hff) (Conv.bind h3 (Conv.congr (fun f => ?_) (Conv.pure _)))
          simp [h7, h8, react, hv']
        · simp only [react, hv', if_true]
          exact ⟨hr.mode, h4, rfl, h7.trans hf.symm, h4', hr.sizes, h5.base.shows, fun _ => ⟨ps, h5.base, p', h9, h10, h11⟩⟩
      · exact absurd rfl h7
    | whole =>
      have hv' : (view lib multi anyOf).verdict .null n = .whole := hv
      obtain ⟨h7, h7', _, h8⟩ := h5.whole hv
      simp only [if_false, reduceCtorEq, or_self] at h8
      refine ⟨r', ?_, ?_⟩
      · refine Conv.congr (fun f => if_neg hff) (Conv.bind h3 (Conv.congr (fun f => ?_) (Conv.pure _)))
        simp [h7, h7', react, hv', valueOf]
      · simp only [react, hv', valueOf]
        exact rel_taken hr hf h4 h4' h5 hv (y := r') rfl rfl rfl rfl rfl h8 .tryNull rfl
    | opens => rcases verdict_opens hv with ⟨he, _⟩ | ⟨he, _⟩ <;> cases he

/-- The collection states after opening a collection. -/
theorem Base.push {its : List (List Node)} {fs : List (Frame Node)} {ps : List Point} (hb : Base nulls hs its fs ps)
    {s i : Nat} {l : List Node} {p : Point} (hp : p.iter = some i) (hi : its[i]? = some l) (hother : ∀ q ∈ ps, q.iter ≠ some i)
    (hfresh : ∀ k s : Nat, hs[k]? ≠ some (some (s, i))) (hl : ∀ n ∈ l, Tree nulls n)
    (hk : (∃ es, p.node = .sequence es) ∨ (∃ es, p.node = .mapping es)) (hc : p.result.conclusion = .match_) :
    Base nulls (hs ++ [some (s, i)]) its ((some hs.length, l) :: fs) (p :: ps) := by
  have old : ∀ {k s' i' : Nat}, (hs ++ [some (s, i)])[k]? = some (some (s', i')) →
      (k < hs.length ∧ hs[k]? = some (some (s', i'))) ∨ (k = hs.length ∧ s' = s ∧ i' = i) := by
    intro k s' i' hk
    by_cases hlt : k < hs.length
    · rw [List.getElem?_append_left hlt] at hk
      exact .inl ⟨hlt, hk⟩
    · rw [List.getElem?_append_right (by omega)] at hk
      by_cases hz : k - hs.length = 0
      · simp [hz] at hk
        exact .inr ⟨by omega, hk.1.symm, hk.2.symm⟩
      · rw [List.getElem?_eq_none (by simp; omega)] at hk
        cases hk
  have named : ∀ f ∈ fs, f.1 ≠ some hs.length := by
    rcases hb.pts.find hs.length with h | ⟨s, i, h, _⟩
    · exact h
    · rw [List.getElem?_eq_none (Nat.le_refl _)] at h
      cases h
  have mono : ∀ {k s' i' : Nat}, hs[k]? = some (some (s', i')) → (hs ++ [some (s, i)])[k]? = some (some (s', i')) := by
    intro k s' i' hk
    rw [List.getElem?_append_left]
    · exact hk
    · exact (List.getElem?_eq_some_iff.mp hk).1
  refine ⟨.cons (i := i) (l := l) (hb.pts.handles mono fun hk => ?_) hp hother hi (filter_valid hl).symm
    (fun n hn _ => .inl (hl n hn)) ?_ ⟨named, ⟨s, ?_⟩, hl, ?_, .inl hc⟩, ?_, ?_, ?_⟩
  · rcases old hk with ⟨_, h⟩ | ⟨_, _, rfl⟩
    · exact .inl h
    · exact .inr hother
  · rcases hk with ⟨es, h⟩ | ⟨es, h⟩ <;> rw [h] <;> exact ⟨_, _, rfl⟩
  · simp
  · rcases hk with ⟨es, h⟩ | ⟨es, h⟩ <;> rw [h]
    · exact .inl rfl
    · exact .inr rfl
  · intro k k' s1 s2 j h1 h2
    rcases old h1 with ⟨_, h1'⟩ | ⟨rfl, rfl, rfl⟩ <;> rcases old h2 with ⟨_, h2⟩ | ⟨h2, h2', h2''⟩
    · exact hb.inj h1' h2
    · rw [h2''] at h1'
      exact absurd h1' (hfresh _ _)
    · exact absurd h2 (hfresh _ _)
    · exact h2.symm
  · intro k s' j h1
    rcases old h1 with ⟨_, h1⟩ | ⟨rfl, rfl, rfl⟩
    · exact hb.bound h1
    · exact (List.getElem?_eq_some_iff.mp hi).1
  · intro k s' j h1 hn
    rcases old h1 with ⟨_, h1⟩ | ⟨rfl, rfl, rfl⟩
    · exact hb.closed h1 fun f hf => hn f (List.mem_cons_of_mem _ hf)
    · exact absurd rfl (hn _ List.mem_cons_self)

theorem coll_refines {e : Expecter} {call : Call} {cur : Option (Node × List Node × List (Frame Node))}
    (hr : Rel nulls multi r hs c) (hf : c.fatal = none) (hcur : Current (view lib multi anyOf) e c cur)
    (hc : (call = .sequence ∧ e = .sequence) ∨ (call = .mapping ∧ e = .mapping)) :
    ∃ hd x, Conv (fun f => readCollection lib f e r) (some hd, x) ∧
      (react (view lib multi anyOf) e c call cur).1 = .coll (sizeOf hd) ∧
      Rel nulls multi x (hs ++ [hd]) (react (view lib multi anyOf) e c call cur).2 := by
  have ho : opening call = true := by rcases hc with ⟨rfl, _⟩ | ⟨rfl, _⟩ <;> rfl
  have hz : zeroOf (N := Node) call = .coll 0 := by rcases hc with ⟨rfl, _⟩ | ⟨rfl, _⟩ <;> rfl
  have hn : call ≠ .tryNull := by rcases hc with ⟨rfl, _⟩ | ⟨rfl, _⟩ <;> simp
  have hno : addNoop call hs = hs ++ [none] := by simp [addNoop, ho]
  have hff : ¬ r.fatalError.isSome = true := by simp [hr.fatal, hf]
  rcases expect_spec hr hf hcur with ⟨x, h1, h2⟩ | ⟨x, n, l, fs, ps, rfl, h1, h2, h2', h3, h4, h5, h5'⟩
  · obtain ⟨h2, h3⟩ := h2 call hn
    rw [hno] at h3
    exact ⟨none, x, Conv.congr (fun f => if_neg hff) (Conv.bind h1 (Conv.pure _)), h2.trans hz, h3⟩
  · have hw : verdict lib e n = .opens := by
      cases hv : verdict lib e n with
      | opens => rfl
      | deny => exact absurd hv h4
      | whole =>
        rcases hc with ⟨_, rfl⟩ | ⟨_, rfl⟩ <;> cases n <;> simp [verdict] at hv
    have hw' : (view lib multi anyOf).verdict e n = .opens := hw
    have hk : (∃ es, n = .sequence es) ∨ (∃ es, n = .mapping es) := by
      rcases verdict_opens hw with ⟨_, h⟩ | ⟨_, h⟩
      · exact .inl h
      · exact .inr h
    obtain ⟨h6, h6', p', i, h7, h8, h9, h10, h11, h12, h13, h14⟩ := h3.opens hw
    refine ⟨some ((itemsOf n).length, i), x, ?_, ?_, ?_⟩
    · refine Conv.congr (fun f => if_neg hff) (Conv.bind h1 ?_)
      simp only [if_true, h14]
      exact Conv.pure _
    · simp only [react, hw']
      rfl
    · simp only [react, hw']
      have hlen : c.sizes.length = hs.length := by rw [← hr.sizes, List.length_map]
      have hb := h3.base.push (s := (itemsOf n).length) h9 h10 h11 h12 h5' (by rw [h8]; exact hk) h13
      rw [hlen]
      refine ⟨hr.mode, h2, h6', h6.trans hf.symm, h2', ?_, hb.shows, fun _ => ⟨p' :: ps, hb, h7⟩⟩
      rw [List.map_append, hr.sizes]
      rfl

theorem skip_refines {cur : Option (Node × List Node × List (Frame Node))}
    (hr : Rel nulls multi r hs c) (hf : c.fatal = none) (hcur : Current (view lib multi anyOf) .skip c cur) :
    ∃ x, Conv (fun f => readSkip lib f r) ((react (view lib multi anyOf) .skip c .skip cur).1, x) ∧
      Rel nulls multi x hs (react (view lib multi anyOf) .skip c .skip cur).2 := by
  have hff : ¬ r.fatalError.isSome = true := by simp [hr.fatal, hf]
  rcases expect_spec hr hf hcur with ⟨x, h1, h2⟩ | ⟨x, n, l, fs, ps, rfl, h1, h2, h2', h3, h4, h5, _⟩
  · obtain ⟨h2, h3⟩ := h2 .skip (by simp)
    refine ⟨x, Conv.congr (fun f => if_neg hff) (Conv.bind h1 ?_), h3⟩
    rw [h2]
    exact Conv.pure _
  · have hw : verdict lib .skip n = .whole := by cases n <;> rfl
    have hw' : (view lib multi anyOf).verdict .skip n = .whole := hw
    obtain ⟨_, h6, _, h8⟩ := h3.whole hw
    simp only [if_false, reduceCtorEq, or_self] at h8
    refine ⟨x, Conv.congr (fun f => if_neg hff) (Conv.bind h1 ?_), ?_⟩
    · simp only [react, hw', valueOf]
      exact Conv.pure _
    · simp only [react, hw', valueOf]
      exact rel_taken hr hf h2 h2' h3 hw (y := x) rfl rfl rfl rfl rfl h8 .skip rfl

theorem node_refines {cur : Option (Node × List Node × List (Frame Node))}
    (hr : Rel nulls multi r hs c) (hf : c.fatal = none) (hcur : Current (view lib multi anyOf) .raw c cur) :
    ∃ x, Conv (fun f => readNode lib f r) ((react (view lib multi anyOf) .raw c .node cur).1, x) ∧
      Rel nulls multi x hs (react (view lib multi anyOf) .raw c .node cur).2 := by
  have hff : ¬ r.fatalError.isSome = true := by simp [hr.fatal, hf]
  rcases expect_spec hr hf hcur with ⟨x, h1, h2⟩ | ⟨x, n, l, fs, ps, rfl, h1, h2, h2', h3, h4, h5, _⟩
  · obtain ⟨h2, h3⟩ := h2 .node (by simp)
    refine ⟨x, Conv.congr (fun f => if_neg hff) (Conv.bind h1 ?_), h3⟩
    rw [h2]
    exact Conv.pure _
  · have hw : verdict lib .raw n = .whole := by cases n <;> rfl
    have hw' : (view lib multi anyOf).verdict .raw n = .whole := hw
    obtain ⟨_, h6, _, h8⟩ := h3.whole hw
    simp only [reduceCtorEq, or_true, if_true] at h8
    obtain ⟨p', h8, h9⟩ := h8
    refine ⟨pop x, Conv.congr (fun f => if_neg hff) (Conv.bind h1 ?_), ?_⟩
    · simp only [react, hw', valueOf, currentNode, h8, List.head?_cons, Option.map_some, h9, if_true]
      exact Conv.pure _
    · simp only [react, hw', valueOf]
      refine rel_taken hr hf h2 h2' h3 hw (y := pop x) ?_ ?_ ?_ ?_ ?_ ?_ .node rfl <;> simp [pop, h8]

/-- The decoder after a generic value. -/
def anchored (a : AnyBuilder.Anchors) (r : Reader) : Reader := { r with anchors := a }

theorem any_refines {cur : Option (Node × List Node × List (Frame Node))} (hany : Generic lib anyOf)
    (hr : Rel nulls multi r hs c) (hf : c.fatal = none) (hcur : Current (view lib multi anyOf) .any c cur) :
    ∃ x, Conv (fun f => readAny lib f r) ((react (view lib multi anyOf) .any c .any cur).1, x) ∧
      Rel nulls multi x hs (react (view lib multi anyOf) .any c .any cur).2 := by
  have hff : ¬ r.fatalError.isSome = true := by simp [hr.fatal, hf]
  rcases expect_spec hr hf hcur with ⟨x, h1, h2⟩ | ⟨x, n, l, fs, ps, rfl, h1, h2, h2', h3, h4, h5, _⟩
  · obtain ⟨h2, h3⟩ := h2 .any (by simp)
    refine ⟨x, Conv.congr (fun f => if_neg hff) (Conv.bind h1 ?_), h3⟩
    rw [h2]
    exact Conv.pure _
  · have hw : verdict lib .any n = .whole := by cases n <;> rfl
    have hw' : (view lib multi anyOf).verdict .any n = .whole := hw
    obtain ⟨_, h6, _, h8⟩ := h3.whole hw
    simp only [reduceCtorEq, or_false, if_true] at h8
    obtain ⟨p', h8, h9⟩ := h8
    obtain ⟨a', ha⟩ := hany n (ReaderTree.tree_mono h5) x.anchors
    cases hv : anyOf n with
    | some v =>
      have hval : valueOf (view lib multi anyOf) n .any = .ok (.any (some v)) := by
        show (match anyOf n with | some v => _ | none => _) = _
        rw [hv]
      refine ⟨pop (anchored a' x), Conv.congr (fun f => if_neg hff) (Conv.bind h1 ?_), ?_⟩
      · simp only [react, hw', hval, currentNode, h8, List.head?_cons, Option.map_some, h9, if_true, Option.getD_some]
        refine Conv.bind ha ?_
        rw [hv]
        exact Conv.congr (fun f => by simp only [pop, anchored, h8]) (Conv.pure _)
      · simp only [react, hw', hval]
        refine rel_taken hr hf h2 h2' h3 hw (y := pop (anchored a' x)) ?_ ?_ ?_ ?_ ?_ ?_ .any rfl <;> simp [pop, anchored, h8]
    | none =>
      have hval : valueOf (view lib multi anyOf) n .any = .error .any := by
        show (match anyOf n with | some v => _ | none => _) = _
        rw [hv]
      refine ⟨appendError (some .any) (anchored a' x), Conv.congr (fun f => if_neg hff) (Conv.bind h1 ?_), ?_⟩
      · simp only [react, hw', hval, currentNode, h8, List.head?_cons, Option.map_some, h9, if_true, Option.getD_some]
        refine Conv.bind ha ?_
        rw [hv]
        exact Conv.congr (fun f => by simp only [anchored, h8, zeroOf]) (Conv.pure _)
      · simp only [react, hw', hval]
        exact rel_refused (anyOf := anyOf) hr h2 h2' h3 hw .any .any rfl (y := anchored a' x) rfl rfl rfl rfl rfl

theorem raw_refines {cur : Option (Node × List Node × List (Frame Node))}
    (hr : Rel nulls multi r hs c) (hf : c.fatal = none) (hcur : Current (view lib multi anyOf) .raw c cur) :
    ∃ x, Conv (fun f => readRaw lib f r) ((react (view lib multi anyOf) .raw c .raw cur).1, x) ∧
      Rel nulls multi x hs (react (view lib multi anyOf) .raw c .raw cur).2 := by
  have hff : ¬ r.fatalError.isSome = true := by simp [hr.fatal, hf]
  rcases expect_spec hr hf hcur with ⟨x, h1, h2⟩ | ⟨x, n, l, fs, ps, rfl, h1, h2, h2', h3, h4, h5, _⟩
  · obtain ⟨h2, h3⟩ := h2 .raw (by simp)
    refine ⟨x, Conv.congr (fun f => if_neg hff) (Conv.bind h1 ?_), h3⟩
    rw [h2]
    exact Conv.pure _
  · have hw : verdict lib .raw n = .whole := by cases n <;> rfl
    have hw' : (view lib multi anyOf).verdict .raw n = .whole := hw
    obtain ⟨_, h6, _, h8⟩ := h3.whole hw
    simp only [reduceCtorEq, or_true, if_true] at h8
    obtain ⟨p', h8, h9⟩ := h8
    obtain ⟨s, hs⟩ := ReaderTree.write_conv h5
    have hval : valueOf (view lib multi anyOf) n .raw = .ok (.raw (some s)) := by
      show (match rawOf n with | some v => _ | none => _) = _
      rw [rawOf, hs]
    refine ⟨pop x, Conv.congr (fun f => if_neg hff) (Conv.bind h1 ?_), ?_⟩
    · simp only [react, hw', hval, currentNode, h8, List.head?_cons, Option.map_some, h9, if_true, Option.getD_some, hs]
      exact Conv.pure _
    · simp only [react, hw', hval]
      refine rel_taken hr hf h2 h2' h3 hw (y := pop x) ?_ ?_ ?_ ?_ ?_ ?_ .raw rfl <;> simp [pop, h8]

/-- What a collection state reports. -/
theorem hasItems_refines (hr : Rel nulls multi r hs c) (k f : Nat) :
    step lib f ⟨r, hs.map some⟩ (.hasItems k) = .ok (.bool (!(left k c.frames).isEmpty), ⟨r, hs.map some⟩) := by
  obtain ⟨h1, h2⟩ := hr.shows k
  simp only [step, List.getD_eq_getElem?_getD, List.getElem?_map]
  cases hk : hs[k]? with
  | none =>
    rw [h2 (by simp [hk])]
    rfl
  | some hd =>
    cases hd with
    | none =>
      rw [h2 (by simp [hk])]
      rfl
    | some si =>
      obtain ⟨s, i⟩ := si
      rw [← h1 s i hk]
      rfl

theorem size_refines (hr : Rel nulls multi r hs c) (k f : Nat) :
    step lib f ⟨r, hs.map some⟩ (.size k) = .ok (.size (c.sizes.getD k 0), ⟨r, hs.map some⟩) := by
  rw [← hr.sizes]
  simp only [step, List.getD_eq_getElem?_getD, List.getElem?_map]
  cases hs[k]? with
  | none => rfl
  | some hd =>
    cases hd with
    | none => rfl
    | some si => rfl

theorem map_addNoop (call : Call) (hs : List Handle) :
    (addNoop call hs).map some = if opening call then hs.map some ++ [some none] else hs.map some := by
  rw [addNoop]
  split <;> simp

/-- Every step of the cursor is what the decoder does. -/
theorem step_refines (hany : Generic lib anyOf)
    {call : Call} {o : Out Node} {c' : Cursor Node} (hr : Rel nulls multi r hs c)
    (hst : Step (view lib multi anyOf) c call o c') :
    ∃ r' hs', Conv (fun f => step lib f ⟨r, hs.map some⟩ call) (o, ⟨r', hs'.map some⟩) ∧ Rel nulls multi r' hs' c' := by
  cases hst with
  | @dead call e he hf =>
    have hff : r.fatalError.isSome = true := by rw [hr.fatal]; exact hf
    refine ⟨r, addNoop call hs, ?_, rel_dead hr hf call⟩
    rw [map_addNoop]
    refine Conv.congr (fun f => ?_) (Conv.pure _)
    cases call <;> simp only [expecterOf, reduceCtorEq] at he <;>
      simp only [step, step.lift, step.openColl, tryNull, readScalar, readCollection, readAny, readRaw, readNode, readSkip, hff, if_true] <;> rfl
  | @read call e cur he hf hcur =>
    have lifted : ∀ {g : Nat → Res (Out Node × Reader)} {o : Out Node} {c' : Cursor Node},
        (∃ x, Conv g (o, x) ∧ Rel nulls multi x hs c') →
        ∃ r' hs', Conv (fun f => step.lift ⟨r, hs.map some⟩ (g f)) (o, (⟨r', hs'.map some⟩ : Session)) ∧
          Rel nulls multi r' hs' c' := by
      rintro g o c' ⟨x, h1, h2⟩
      exact ⟨x, hs, Conv.bind h1 (Conv.pure _), h2⟩
    have opened : ∀ {g : Nat → Res (Option Handle × Reader)} {o : Out Node} {c' : Cursor Node},
        (∃ hd x, Conv g (some hd, x) ∧ o = .coll (sizeOf hd) ∧ Rel nulls multi x (hs ++ [hd]) c') →
        ∃ r' hs', Conv (fun f => step.openColl ⟨r, hs.map some⟩ (g f)) (o, (⟨r', hs'.map some⟩ : Session)) ∧
          Rel nulls multi r' hs' c' := by
      rintro g o c' ⟨hd, x, h1, rfl, h2⟩
      refine ⟨x, hs ++ [hd], Conv.bind h1 (Conv.congr (fun f => ?_) (Conv.pure _)), h2⟩
      rw [List.map_append]
      cases hd <;> rfl
    cases call with
    | tryNull =>
      cases he
      exact lifted (null_refines hr hf hcur)
    | integer b =>
      cases he
      refine lifted (scalar_refines (call := .integer b) hr hf hcur rfl rfl (by simp) fun n => ?_)
      show (match Schema.toInteger (ReaderCursor.textOf n) b with | .ok v => _ | .error _ => _) = _
      cases Schema.toInteger (ReaderCursor.textOf n) b <;> rfl
    | unsigned b =>
      cases he
      refine lifted (scalar_refines (call := .unsigned b) hr hf hcur rfl rfl (by simp) fun n => ?_)
      show (match Schema.toUnsignedInteger (ReaderCursor.textOf n) b with | .ok v => _ | .error _ => _) = _
      cases Schema.toUnsignedInteger (ReaderCursor.textOf n) b <;> rfl
    | boolean =>
      cases he
      refine lifted (scalar_refines (call := .boolean) hr hf hcur rfl rfl (by simp) fun n => ?_)
      show (match Schema.toBoolean (ReaderCursor.textOf n) with | some v => _ | none => _) = _
      cases Schema.toBoolean (ReaderCursor.textOf n) <;> rfl
    | float b =>
      cases he
      refine lifted (scalar_refines (call := .float b) hr hf hcur rfl rfl (by simp) fun n => ?_)
      show (if lib.toFloat (ReaderCursor.textOf n) b then _ else _) = _
      by_cases hb : lib.toFloat (ReaderCursor.textOf n) b = true
      · rw [if_pos hb, if_pos hb]
        rfl
      · rw [if_neg hb, if_neg hb]
    | string =>
      cases he
      exact lifted (scalar_refines (call := .string) hr hf hcur rfl rfl (by simp) fun n => rfl)
    | timestamp =>
      cases he
      refine lifted (scalar_refines (call := .timestamp) hr hf hcur rfl rfl (by simp) fun n => ?_)
      show (if lib.isTimestamp (ReaderCursor.textOf n) then _ else _) = _
      by_cases hb : lib.isTimestamp (ReaderCursor.textOf n) = true
      · rw [if_pos hb, if_pos hb]
        rfl
      · rw [if_neg hb, if_neg hb]
    | sequence =>
      cases he
      exact opened (coll_refines hr hf hcur (.inl ⟨rfl, rfl⟩))
    | mapping =>
      cases he
      exact opened (coll_refines hr hf hcur (.inr ⟨rfl, rfl⟩))
    | any =>
      cases he
      exact lifted (any_refines hany hr hf hcur)
    | raw =>
      cases he
      exact lifted (raw_refines hr hf hcur)
    | node =>
      cases he
      exact lifted (node_refines hr hf hcur)
    | skip =>
      cases he
      exact lifted (skip_refines hr hf hcur)
    | addError e => cases he
    | error => cases he
    | hasItems k => cases he
    | size k => cases he
  | @addError id hf =>
    have hff : r.fatalError = none := hr.fatal.trans hf
    refine ⟨setFatal (.custom id) r, hs, Conv.congr (fun f => ?_) (Conv.pure _), ?_⟩
    · simp [step, Reader.addError, hff, setFatal]
    · exact rel_failed (r0 := setFatal (.custom id) r) hr.mode hr.multi hr.deny hr.denied hr.sizes _ rfl
        (.addError (some id)) hr.shows
  | @addErrorDead x hf =>
    have hff : r.fatalError.isSome = true := by rw [hr.fatal]; exact hf
    refine ⟨r, hs, Conv.congr (fun f => ?_) (Conv.pure _), hr⟩
    have : Reader.addError (x.map .custom) r = r := by
      cases he : r.fatalError with
      | none => simp [he] at hff
      | some e => simp [Reader.addError, he]
    simp only [step, this]
  | addNil hf _ =>
    have hff : r.fatalError = none := hr.fatal.trans hf
    refine ⟨r, hs, Conv.congr (fun f => ?_) (Conv.pure _), hr⟩
    have : Reader.addError none r = r := by
      simp only [Reader.addError, hff, Option.isNone_none, if_true]
      rw [← hff]
    simp only [step, Option.map_none, this]
  | addNilDrains _ hd => cases hd
  | error =>
    refine ⟨r, hs, Conv.congr (fun f => ?_) (Conv.pure _), hr⟩
    simp only [step, hr.fatal, hr.denied]
  | @hasItems k => exact ⟨r, hs, Conv.congr (fun f => hasItems_refines hr k f) (Conv.pure _), hr⟩
  | @size k => exact ⟨r, hs, Conv.congr (fun f => size_refines hr k f) (Conv.pure _), hr⟩

theorem run_cons {s s1 s2 : Session} {call : Call} {calls : List Call} {o : Out Node} {os : List (Out Node)}
    (h1 : Conv (fun f => step lib f s call) (o, s1)) (h2 : Conv (fun f => run lib f s1 calls) (os, s2)) :
    Conv (fun f => run lib f s (call :: calls)) (o :: os, s2) :=
  Conv.bind h1 (Conv.bind h2 (Conv.pure _))

/-- Every history of the cursor is one of the decoder. -/
theorem run_refines (hany : Generic lib anyOf)
    {t : List (Call × Out Node)} {c' : Cursor Node} (hr : Rel nulls multi r hs c)
    (hrun : Run (view lib multi anyOf) c t c') :
    ∃ r' hs', Conv (fun f => run lib f ⟨r, hs.map some⟩ (t.map Prod.fst)) (t.map Prod.snd, ⟨r', hs'.map some⟩) ∧
      Rel nulls multi r' hs' c' := by
  induction hrun generalizing r hs with
  | nil => exact ⟨r, hs, Conv.pure _, hr⟩
  | cons hst _ ih =>
    obtain ⟨r1, hs1, h1, h2⟩ := step_refines hany hr hst
    obtain ⟨r2, hs2, h3, h4⟩ := ih h2
    exact ⟨r2, hs2, run_cons h1 h3, h4⟩

/-- The decoder at the beginning of a document. -/
theorem rel_start {n : Node} (ht : Tree nulls n) (hm : nulls = true → multi = false) :
    Rel nulls multi (newReader multi n) [] (start n) := by
  have hb : Base nulls [] [] [(none, [n])] [{ node := n }] :=
    ⟨.root ht, fun h => (nomatch h), fun h => (nomatch h), fun h => (nomatch h)⟩
  exact ⟨hm, rfl, rfl, rfl, rfl, rfl, hb.shows, fun _ => ⟨_, hb, rfl⟩⟩

end Verif.Reader
