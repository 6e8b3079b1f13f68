import Verif.Spec.GenericValue

/-! Lemmas for generic decoding (`Verif.Model.AnyBuilder`). -/

namespace Verif.AnyBuilder

open Verif.Ast Verif.Generic Verif.GenericValue

variable {lib : Lib}

/-- The builder between two nodes: no error, nothing to merge, the anchors are `env`. -/
structure Calm (a : St) (mm : Bool) (env : Env) : Prop where
  noErr : a.errors = []
  noMerge : a.mergeMap = none
  flag : a.extractMergeMap = mm
  anchors : a.anchors.anchors = env
  met : a.anchors.metAnchor = false

theorem Calm.hasErrors {a : St} {mm : Bool} {env : Env} (h : Calm a mm env) : a.hasErrors = false := by
  simp [St.hasErrors, h.noErr]

theorem visit_step {f : Nat} {n : Node} {a : St} (hv : validNode n = true) :
    visitNode lib (f + 1) n a =
      match n with
      | .stream _ => .ok (a.appendError .stream)
      | .tag _ => .ok a
      | .anchor t => .ok { a with anchors := a.anchors.store t }
      | .alias t =>
        match a.anchors.dereference t with
        | none => .ok (a.appendError (.alias t))
        | some anchored => visitNode lib f anchored a
      | .text t q => if a.extractString then .ok { a with stringValue := t } else .ok (extractText lib t q a)
      | .sequence es => visitSequence lib (visitNode lib f) es a
      | .mapping es => visitMapping lib (visitNode lib f) es a
      | .mappingEntry k v => visitEntry (visitNode lib f) k v a
      | .null => if a.extractString then .ok { a with stringValue := "null".toList } else .ok { a with value := .nil }
      | .properties _ anchor => visitNode lib f anchor a
      | .content p c => do
        let a ← visitNode lib f p a
        visitNode lib f c { a with anchors := a.anchors.bind c }
      | _ => .ok a := by
  cases n with
  | nil => cases hv
  | basic ty => cases ty <;> first | rfl | cases hv
  | _ => rfl

theorem visit_invalid {n : Node} {a : St} (hv : validNode n = false) : Conv (fun f => visitNode lib f n a) a :=
  Conv.succ (g' := fun _ => .ok a) (fun f => by
    cases n with
    | nil => rfl
    | basic ty => cases ty <;> first | rfl | cases hv
    | _ => cases hv) (Conv.pure a)

/-- Visiting the properties of a content node. -/
theorem visit_props {p : Node} {o : Option (List Char)} (h : Anchored p o) (a : St) :
    ∃ a', Conv (fun f => visitNode lib f p a) a' ∧
      a' = (match o with
        | none => a
        | some name => { a with anchors := a.anchors.store name }) := by
  cases h with
  | nil => exact ⟨a, visit_invalid rfl, rfl⟩
  | invalid => exact ⟨a, visit_invalid rfl, rfl⟩
  | bare hv =>
    refine ⟨a, ?_, rfl⟩
    exact Conv.succ (fun f => visit_step rfl) (visit_invalid hv)
  | @anchor t name =>
    refine ⟨_, ?_, rfl⟩
    exact Conv.succ (fun f => visit_step rfl)
      (Conv.succ (g' := fun _ => .ok { a with anchors := a.anchors.store name }) (fun f => visit_step rfl) (Conv.pure _))

/-- The state in which the content of a content node is visited. -/
def entered (a : St) (o : Option (List Char)) (c : Node) : St :=
  match o with
  | none => { a with anchors := a.anchors.bind c }
  | some name => { a with anchors := (a.anchors.store name).bind c }

theorem Calm.entered {a : St} {mm : Bool} {env : Env} (h : Calm a mm env) (o : Option (List Char)) (c : Node) :
    Calm (entered a o c) mm (extend env o c) := by
  cases o with
  | none =>
    have : a.anchors.bind c = a.anchors := by simp [Anchors.bind, h.met]
    exact ⟨h.noErr, h.noMerge, h.flag, by simp [AnyBuilder.entered, this, extend, h.anchors], by simp [AnyBuilder.entered, this, h.met]⟩
  | some name =>
    exact ⟨h.noErr, h.noMerge, h.flag,
      by simp [AnyBuilder.entered, Anchors.bind, Anchors.store, extend, h.anchors], by simp [AnyBuilder.entered, Anchors.bind, Anchors.store]⟩

@[simp] theorem entered_extractString (a : St) (o : Option (List Char)) (c : Node) :
    (entered a o c).extractString = a.extractString := by cases o <;> rfl

theorem visit_content {p c : Node} {o : Option (List Char)} (h : Anchored p o) (a a' : St)
    (hc : Conv (fun f => visitNode lib f c (entered a o c)) a') :
    Conv (fun f => visitNode lib f (.content p c) a) a' := by
  obtain ⟨b, hb, rfl⟩ := visit_props (lib := lib) h a
  refine Conv.succ (fun f => visit_step rfl) (Conv.bind hb ?_)
  cases o <;> exact hc

theorem visit_alias {name : List Char} {n : Node} {a a' : St} {mm : Bool} {env : Env} (h : Calm a mm env)
    (hl : env.lookup name = some n) (hn : Conv (fun f => visitNode lib f n a) a') :
    Conv (fun f => visitNode lib f (.alias name) a) a' := by
  refine Conv.succ (fun f => visit_step rfl) ?_
  have : a.anchors.dereference name = some n := by rw [Anchors.dereference, h.anchors, hl]
  exact Conv.congr (fun f => by simp only [this]) hn

theorem build_snoc (items : List Item) (i : Item) : build (items ++ [i]) = put (build items) i := by
  simp [build, List.foldl_append]

/-- The outcome of visiting a node in a value position. -/
def ValueOut (lib : Lib) (mm : Bool) (env : Env) (n : Node) (v : GVal) (env' : Env) : Prop :=
  ∀ a, Calm a mm env → a.extractString = false →
    ∃ a', Conv (fun f => visitNode lib f n a) a' ∧ Calm a' mm env' ∧ a'.extractString = false ∧ a'.value = v

/-- The outcome of visiting a node in a key position. -/
def KeyOut (lib : Lib) (mm : Bool) (env : Env) (n : Node) (s : List Char) (env' : Env) : Prop :=
  ∀ a, Calm a mm env → a.extractString = true →
    ∃ a', Conv (fun f => visitNode lib f n a) a' ∧ Calm a' mm env' ∧ a'.extractString = true ∧ a'.stringValue = s

/-- The outcome of the loop over the entries of a sequence. -/
def AllOut (lib : Lib) (mm : Bool) (env : Env) (ns : List Node) (vs : List GVal) (env' : Env) : Prop :=
  ∀ a s, Calm a mm env → a.extractString = false →
    ∃ a', Conv (fun f => visitItems (visitNode lib f) ns a s) (a', s ++ vs) ∧ Calm a' mm env' ∧ a'.extractString = false

/-- The outcome of visiting the mapping of a merge key. -/
def MergeOut (lib : Lib) (env : Env) (n : Node) (m : GMap) (env' : Env) : Prop :=
  ∀ a, Calm a true env → a.extractString = false →
    ∃ a', Conv (fun f => visitNode lib f n a) a' ∧ Calm { a' with mergeMap := none } true env' ∧
      a'.extractString = false ∧ a'.mergeMap = some m

/-- The outcome of the loop over the entries of a mapping. -/
def EntriesOut (lib : Lib) (mm : Bool) (env : Env) (ns : List Node) (items : List Item) (env' : Env) : Prop :=
  ∀ a m b, Calm a mm env → a.extractString = b →
    ∃ a', Conv (fun f => visitEntries (visitNode lib f) ns a m) (a', items.foldl put m) ∧ Calm a' mm env' ∧
      a'.extractString = b

/-- The state in which the value of an entry is visited. -/
def valueState (a : St) : St :=
  { (if a.stringValue = Schema.mergeKey then { a with extractMergeMap := true } else a) with extractString := false }

/-- The state after an entry: what was saved is restored. -/
def restored (a : St) (key : List Char) (a2 : St) : St :=
  { a2 with stringValue := key, extractString := a.extractString, extractMergeMap := a.extractMergeMap }

/-- The key and value of an entry have been visited. -/
theorem visit_entry {k v : Node} {a a1 a2 : St}
    (hk : Conv (fun f => visitNode lib f k { a with extractString := true }) a1)
    (hv : Conv (fun f => visitNode lib f v (valueState a1)) a2) :
    Conv (fun f => visitNode lib f (.mappingEntry k v) a) (restored a a1.stringValue a2) := by
  refine Conv.succ (fun f => visit_step rfl) (Conv.bind hk (Conv.bind (x := a2) hv ?_))
  refine Conv.congr (fun f => ?_) (Conv.pure _)
  simp only [restored]
  split <;> rfl

theorem entries_pair {n : Node} {ns : List Node} {a b : St} {m : GMap} {x : St × GMap} (hc : Conv (fun f => visitNode lib f n a) b)
    (he : b.errors = []) (hm : b.mergeMap = none)
    (h : Conv (fun f => visitEntries (visitNode lib f) ns b (mset m b.stringValue b.value)) x) :
    Conv (fun f => visitEntries (visitNode lib f) (n :: ns) a m) x := by
  refine Conv.congr (fun f => by rw [visitEntries]) (Conv.bind hc ?_)
  have : b.hasErrors = false := by simp [St.hasErrors, he]
  exact Conv.congr (fun f => by simp only [this, hm]; rfl) h

theorem entries_merge {n : Node} {ns : List Node} {a b : St} {m mm : GMap} {x : St × GMap}
    (hc : Conv (fun f => visitNode lib f n a) b) (he : b.errors = []) (hm : b.mergeMap = some mm)
    (h : Conv (fun f => visitEntries (visitNode lib f) ns { b with mergeMap := none } (mergeMaps m mm)) x) :
    Conv (fun f => visitEntries (visitNode lib f) (n :: ns) a m) x := by
  refine Conv.congr (fun f => by rw [visitEntries]) (Conv.bind hc ?_)
  have : b.hasErrors = false := by simp [St.hasErrors, he]
  exact Conv.congr (fun f => by simp only [this, hm]; rfl) h

theorem value_out {mm env n v env'} (h : Means lib mm env n v env') : ValueOut lib mm env n v env' := by
  refine Means.rec (motive_1 := fun mm env n v env' _ => ValueOut lib mm env n v env')
    (motive_2 := fun mm env n s env' _ => KeyOut lib mm env n s env')
    (motive_3 := fun mm env ns vs env' _ => AllOut lib mm env ns vs env')
    (motive_4 := fun env n m env' _ => MergeOut lib env n m env')
    (motive_5 := fun mm env ns items env' _ => EntriesOut lib mm env ns items env')
    ?_ ?_ ?_ ?_ ?_ ?_ ?_ ?_ ?_ ?_ ?_ ?_ ?_ ?_ ?_ ?_ ?_ ?_ ?_ ?_ ?_ ?_ h
  · -- value_out null
    intro mm env
    intro a hc he
    refine ⟨{ a with value := .nil }, ?_, ⟨hc.1, hc.2, hc.3, hc.4, hc.5⟩, he, rfl⟩
    exact Conv.succ (g' := fun _ => .ok { a with value := .nil }) (fun f => by rw [visit_step rfl]; simp [he]) (Conv.pure _)
  · -- value_out textNull
    intro mm env t q hn hq
    intro a hc he
    refine ⟨{ a with value := .nil }, ?_, ⟨hc.1, hc.2, hc.3, hc.4, hc.5⟩, he, rfl⟩
    refine Conv.succ (g' := fun _ => .ok { a with value := .nil }) (fun f => ?_) (Conv.pure _)
    rw [visit_step rfl]
    have : isNull (.text t q) = true := by rcases hq with rfl | rfl <;> simp [isNull, hn]
    simp [he, extractText, this]
  · -- value_out text
    intro mm env t q v hn hs
    intro a hc he
    refine ⟨{ a with value := v }, ?_, ⟨hc.1, hc.2, hc.3, hc.4, hc.5⟩, he, rfl⟩
    refine Conv.succ (g' := fun _ => .ok { a with value := v }) (fun f => ?_) (Conv.pure _)
    rw [visit_step rfl]
    have : isNull (.text t q) = false := by rcases hn with hn | rfl | rfl <;> simp [isNull, *]
    simp [he, extractText, this, hs]
  · -- value_out content
    intro mm env env' p o c v hp _ ih
    intro a hc he
    obtain ⟨a', h1, h2, h3, h4⟩ := ih _ (hc.entered _ _) (by simpa using he)
    exact ⟨a', visit_content hp a a' h1, h2, h3, h4⟩
  · -- value_out alias
    intro mm env env' name n v hl _ ih
    intro a hc he
    obtain ⟨a', h1, h2, h3, h4⟩ := ih a hc he
    exact ⟨a', visit_alias hc hl h1, h2, h3, h4⟩
  · -- value_out sequence
    intro mm env env' es vs _ ih
    intro a hc he
    obtain ⟨a', h1, h2, h3⟩ := ih { a with extractString := false } [] ⟨hc.1, hc.2, hc.3, hc.4, hc.5⟩ rfl
    refine ⟨{ a' with extractString := false, value := _ }, ?_, ⟨h2.1, h2.2, h2.3, h2.4, h2.5⟩, rfl, rfl⟩
    refine Conv.succ (fun f => visit_step rfl) (Conv.bind h1 ?_)
    exact Conv.congr (fun f => by simp [he]) (Conv.pure _)
  · -- value_out mapping
    intro env env' es items _ ih
    intro a hc he
    obtain ⟨a', h1, h2, h3⟩ := ih a [] false hc he
    refine ⟨{ a' with value := .map (build _) }, ?_, ⟨h2.1, h2.2, h2.3, h2.4, h2.5⟩, h3, rfl⟩
    refine Conv.succ (fun f => visit_step rfl) (Conv.bind h1 ?_)
    exact Conv.congr (fun f => by simp [h2.flag, h3, build]) (Conv.pure _)
  · -- key_out null
    intro mm env
    intro a hc he
    refine ⟨{ a with stringValue := "null".toList }, ?_, ⟨hc.1, hc.2, hc.3, hc.4, hc.5⟩, he, rfl⟩
    exact Conv.succ (g' := fun _ => .ok { a with stringValue := "null".toList })
      (fun f => by rw [visit_step rfl]; simp [he]) (Conv.pure _)
  · -- key_out text
    intro mm env s q
    intro a hc he
    refine ⟨{ a with stringValue := s }, ?_, ⟨hc.1, hc.2, hc.3, hc.4, hc.5⟩, he, rfl⟩
    exact Conv.succ (g' := fun _ => .ok { a with stringValue := s }) (fun f => by rw [visit_step rfl]; simp [he]) (Conv.pure _)
  · -- key_out content
    intro mm env env' p o c s hp _ ih
    intro a hc he
    obtain ⟨a', h1, h2, h3, h4⟩ := ih _ (hc.entered _ _) (by simpa using he)
    exact ⟨a', visit_content hp a a' h1, h2, h3, h4⟩
  · -- key_out alias
    intro mm env env' name n s hl _ ih
    intro a hc he
    obtain ⟨a', h1, h2, h3, h4⟩ := ih a hc he
    exact ⟨a', visit_alias hc hl h1, h2, h3, h4⟩
  · -- key_out sequence
    intro mm env env' es vs _ ih
    intro a hc he
    obtain ⟨a', h1, h2, h3⟩ := ih { a with extractString := false } [] ⟨hc.1, hc.2, hc.3, hc.4, hc.5⟩ rfl
    refine ⟨{ a' with extractString := true, stringValue := _ }, ?_, ⟨h2.1, h2.2, h2.3, h2.4, h2.5⟩, rfl, rfl⟩
    refine Conv.succ (fun f => visit_step rfl) (Conv.bind h1 ?_)
    exact Conv.congr (fun f => by simp [he]) (Conv.pure _)
  · -- key_out mapping
    intro env env' es items _ ih
    intro a hc he
    obtain ⟨a', h1, h2, h3⟩ := ih a [] true hc he
    refine ⟨{ a' with stringValue := lib.sprint (.map (build _)) }, ?_, ⟨h2.1, h2.2, h2.3, h2.4, h2.5⟩, h3, rfl⟩
    refine Conv.succ (fun f => visit_step rfl) (Conv.bind h1 ?_)
    exact Conv.congr (fun f => by simp [h2.flag, h3, build]) (Conv.pure _)
  · -- all_out nil
    intro mm env
    intro a s hc he
    exact ⟨a, by simpa [visitItems] using Conv.pure (a, s), hc, he⟩
  · -- all_out cons
    intro mm env env' env'' n ns v vs _ _ ih1 ih2
    intro a s hc he
    obtain ⟨a1, c1, k1, e1, v1⟩ := ih1 a hc he
    obtain ⟨a2, c2, k2, e2⟩ := ih2 a1 (s ++ [v]) k1 e1
    refine ⟨a2, ?_, k2, e2⟩
    rw [List.append_assoc] at c2
    refine Conv.congr (fun f => by rw [visitItems]) (Conv.bind c1 ?_)
    exact Conv.congr (fun f => by simp [k1.hasErrors, v1]) c2
  · -- merge_out content
    intro env env' p o c m hp _ ih
    intro a hc he
    obtain ⟨a', h1, h2, h3, h4⟩ := ih _ (hc.entered _ _) (by simpa using he)
    exact ⟨a', visit_content hp a a' h1, h2, h3, h4⟩
  · -- merge_out alias
    intro env env' name n m hl _ ih
    intro a hc he
    obtain ⟨a', h1, h2, h3, h4⟩ := ih a hc he
    exact ⟨a', visit_alias hc hl h1, h2, h3, h4⟩
  · -- merge_out mapping
    intro env env' es items _ ih
    intro a hc he
    obtain ⟨a', h1, h2, h3⟩ := ih a [] false hc he
    refine ⟨{ a' with mergeMap := some (build _) }, ?_, ⟨h2.1, rfl, h2.3, h2.4, h2.5⟩, h3, rfl⟩
    refine Conv.succ (fun f => visit_step rfl) (Conv.bind h1 ?_)
    exact Conv.congr (fun f => by simp [h2.flag, build]) (Conv.pure _)
  · -- entries_out nil
    intro mm env
    intro a m b hc he
    exact ⟨a, by simpa [visitEntries] using Conv.pure (a, m), hc, he⟩
  · -- entries_out pair
    intro mm env env1 env2 env3 k v s val es items _ hs _ _ ihk ihv ihes
    intro a m b hc he
    obtain ⟨a1, c1, k1, e1, v1⟩ := ihk { a with extractString := true } ⟨hc.1, hc.2, hc.3, hc.4, hc.5⟩ rfl
    have hne : ¬ a1.stringValue = Schema.mergeKey := by rw [v1]; exact hs
    obtain ⟨a2, c2, k2, e2, v2⟩ := ihv { a1 with extractString := false } ⟨k1.1, k1.2, k1.3, k1.4, k1.5⟩ rfl
    have cc := visit_entry (a := a) c1 (by rw [valueState, if_neg hne]; exact c2)
    have k3 : Calm (restored a a1.stringValue a2) mm _ := ⟨k2.1, k2.2, hc.3, k2.4, k2.5⟩
    obtain ⟨a4, c4, k4, e4⟩ := ihes _ (mset m s val) b k3 he
    refine ⟨a4, entries_pair cc k2.noErr k2.noMerge ?_, k4, e4⟩
    rw [show (restored a a1.stringValue a2).stringValue = _ from v1, show (restored a a1.stringValue a2).value = _ from v2]
    exact c4
  · -- entries_out merge
    intro mm env env1 env2 env3 k v mv es items _ _ _ ihk ihv ihes
    intro a m b hc he
    obtain ⟨a1, c1, k1, e1, v1⟩ := ihk { a with extractString := true } ⟨hc.1, hc.2, hc.3, hc.4, hc.5⟩ rfl
    have heq : a1.stringValue = Schema.mergeKey := v1
    obtain ⟨a2, c2, k2, e2, v2⟩ := ihv { a1 with extractMergeMap := true, extractString := false }
      ⟨k1.1, k1.2, rfl, k1.4, k1.5⟩ rfl
    have cc := visit_entry (a := a) c1 (by rw [valueState, if_pos heq]; exact c2)
    have k3 : Calm { restored a a1.stringValue a2 with mergeMap := none } mm _ := ⟨k2.1, rfl, hc.3, k2.4, k2.5⟩
    obtain ⟨a4, c4, k4, e4⟩ := ihes _ (mergeMaps m mv) b k3 he
    exact ⟨a4, entries_merge cc k2.noErr v2 c4, k4, e4⟩
  · -- entries_out other
    intro mm env env1 env2 env3 k v val es items _ _ _ ihk ihv ihes
    intro a m b hc he
    obtain ⟨a1, c1, k1, e1, v1⟩ := ihk { a with extractString := true } ⟨hc.1, hc.2, hc.3, hc.4, hc.5⟩ rfl
    have heq : a1.stringValue = Schema.mergeKey := v1
    obtain ⟨a2, c2, k2, e2, v2⟩ := ihv { a1 with extractMergeMap := true, extractString := false }
      ⟨k1.1, k1.2, rfl, k1.4, k1.5⟩ rfl
    have cc := visit_entry (a := a) c1 (by rw [valueState, if_pos heq]; exact c2)
    have k3 : Calm (restored a a1.stringValue a2) mm _ := ⟨k2.1, k2.2, hc.3, k2.4, k2.5⟩
    obtain ⟨a4, c4, k4, e4⟩ := ihes _ (mset m "<<".toList val) b k3 he
    refine ⟨a4, entries_pair cc k2.noErr k2.noMerge ?_, k4, e4⟩
    rw [show (restored a a1.stringValue a2).stringValue = _ from v1, show (restored a a1.stringValue a2).value = _ from v2]
    exact c4

theorem items_conv {es : List Node} (h : ∀ e ∈ es, ∀ a, ∃ a', Conv (fun f => visitNode lib f e a) a') (a : St) (s : List GVal) :
    ∃ x, Conv (fun f => visitItems (visitNode lib f) es a s) x := by
  induction es generalizing a s with
  | nil => exact ⟨(a, s), Conv.congr (fun f => by rw [visitItems]) (Conv.pure _)⟩
  | cons e es ih =>
    obtain ⟨a1, h1⟩ := h e (by simp) a
    obtain ⟨x, hx⟩ := ih (fun e he => h e (List.mem_cons_of_mem _ he)) a1 (if a1.hasErrors then s else s ++ [a1.value])
    exact ⟨x, Conv.congr (fun f => by rw [visitItems]) (Conv.bind h1 hx)⟩

theorem entries_conv {es : List Node} (h : ∀ e ∈ es, ∀ a, ∃ a', Conv (fun f => visitNode lib f e a) a') (a : St) (m : GMap) :
    ∃ x, Conv (fun f => visitEntries (visitNode lib f) es a m) x := by
  induction es generalizing a m with
  | nil => exact ⟨(a, m), Conv.congr (fun f => by rw [visitEntries]) (Conv.pure _)⟩
  | cons e es ih =>
    obtain ⟨a1, h1⟩ := h e (by simp) a
    have ih := ih (fun e he => h e (List.mem_cons_of_mem _ he))
    by_cases he : a1.hasErrors
    · obtain ⟨x, hx⟩ := ih a1 m
      exact ⟨x, Conv.congr (fun f => by rw [visitEntries]) (Conv.bind h1 (Conv.congr (fun f => by rw [if_pos he]) hx))⟩
    · cases hm : a1.mergeMap with
      | none =>
        obtain ⟨x, hx⟩ := ih a1 (mset m a1.stringValue a1.value)
        exact ⟨x, Conv.congr (fun f => by rw [visitEntries])
          (Conv.bind h1 (Conv.congr (fun f => by rw [if_neg he]; simp only [hm]) hx))⟩
      | some mm =>
        obtain ⟨x, hx⟩ := ih { a1 with mergeMap := none } (mergeMaps m mm)
        exact ⟨x, Conv.congr (fun f => by rw [visitEntries])
          (Conv.bind h1 (Conv.congr (fun f => by rw [if_neg he]; simp only [hm]) hx))⟩

theorem conv_ok {g : Nat → Res St} (x : St) (h : ∀ f, g (f + 1) = .ok x) : ∃ a', Conv g a' :=
  ⟨x, Conv.succ (g' := fun _ => .ok x) h (Conv.pure x)⟩

/-- Visiting a tree without aliases ends. -/
theorem visit_conv {n : Node} (h : AliasFree n) (a : St) : ∃ a', Conv (fun f => visitNode lib f n a) a' := by
  induction h generalizing a with
  | nil => exact ⟨a, visit_invalid rfl⟩
  | @basic ty => exact conv_ok a fun f => by cases ty <;> rfl
  | stream => exact conv_ok _ fun f => visit_step rfl
  | properties _ _ _ ih =>
    obtain ⟨a', h⟩ := ih a
    exact ⟨a', Conv.succ (fun f => visit_step rfl) h⟩
  | tag => exact conv_ok _ fun f => visit_step rfl
  | anchor => exact conv_ok _ fun f => visit_step rfl
  | blockHeader => exact conv_ok a fun f => visit_step rfl
  | @text t q =>
    by_cases he : a.extractString
    · exact conv_ok { a with stringValue := t } fun f => by rw [visit_step rfl]; simp only [he]; rfl
    · exact conv_ok (extractText lib t q a) fun f => by rw [visit_step rfl]; simp only [he]; rfl
  | content _ _ ihp ihc =>
    obtain ⟨a1, h1⟩ := ihp a
    obtain ⟨a2, h2⟩ := ihc { a1 with anchors := a1.anchors.bind _ }
    exact ⟨a2, Conv.succ (fun f => visit_step rfl) (Conv.bind h1 h2)⟩
  | indent => exact conv_ok a fun f => visit_step rfl
  | sequence _ ih =>
    obtain ⟨⟨a1, s⟩, h1⟩ := items_conv ih { a with extractString := false } []
    by_cases he : a.extractString
    · exact ⟨_, Conv.succ (fun f => visit_step rfl) (Conv.bind h1 (Conv.congr (fun f => if_pos he) (Conv.pure _)))⟩
    · exact ⟨_, Conv.succ (fun f => visit_step rfl) (Conv.bind h1 (Conv.congr (fun f => if_neg he) (Conv.pure _)))⟩
  | mapping _ ih =>
    obtain ⟨⟨a1, m⟩, h1⟩ := entries_conv ih a []
    by_cases hm : a1.extractMergeMap
    · exact ⟨_, Conv.succ (fun f => visit_step rfl) (Conv.bind h1 (Conv.congr (fun f => if_pos hm) (Conv.pure _)))⟩
    · by_cases he : a1.extractString
      · exact ⟨_, Conv.succ (fun f => visit_step rfl)
          (Conv.bind h1 (Conv.congr (fun f => (if_neg hm).trans (if_pos he)) (Conv.pure _)))⟩
      · exact ⟨_, Conv.succ (fun f => visit_step rfl)
          (Conv.bind h1 (Conv.congr (fun f => (if_neg hm).trans (if_neg he)) (Conv.pure _)))⟩
  | mappingEntry _ _ ihk ihv =>
    obtain ⟨a1, h1⟩ := ihk { a with extractString := true }
    obtain ⟨a2, h2⟩ := ihv (valueState a1)
    exact ⟨_, visit_entry h1 h2⟩
  | null =>
    by_cases he : a.extractString
    · exact conv_ok { a with stringValue := "null".toList } fun f => by rw [visit_step rfl]; simp only [he]; rfl
    · exact conv_ok { a with value := .nil } fun f => by rw [visit_step rfl]; simp only [he]; rfl

theorem plain_all {es : List Node} (h : ∀ e ∈ es, ∀ env, ∃ v env', Means lib false env e v env') (env : Env) :
    ∃ vs env', MeansAll lib false env es vs env' := by
  induction es generalizing env with
  | nil => exact ⟨[], env, .nil⟩
  | cons e es ih =>
    obtain ⟨v, env1, h1⟩ := h e (by simp) env
    obtain ⟨vs, env2, h2⟩ := ih (fun e he => h e (List.mem_cons_of_mem _ he)) env1
    exact ⟨v :: vs, env2, .cons h1 h2⟩

theorem plain_entries {es : List (List Char × Quoting × Node)} (hk : ∀ e ∈ es, e.1 ≠ "<<".toList)
    (h : ∀ e ∈ es, ∀ env, ∃ v env', Means lib false env e.2.2 v env') (env : Env) :
    ∃ vs env', vs.length = es.length ∧
      MeansEntries lib false env (es.map fun e => .mappingEntry (.text e.1 e.2.1) e.2.2)
        ((es.zip vs).map fun x => .pair x.1.1 x.2) env' := by
  induction es generalizing env with
  | nil => exact ⟨[], env, rfl, .nil⟩
  | cons e es ih =>
    obtain ⟨v, env1, h1⟩ := h e (by simp) env
    obtain ⟨vs, env2, hl, h2⟩ := ih (fun e he => hk e (List.mem_cons_of_mem _ he))
      (fun e he => h e (List.mem_cons_of_mem _ he)) env1
    exact ⟨v :: vs, env2, by simp [hl], .pair .text (hk e (by simp)) h1 h2⟩

theorem plain_means {n : Node} (h : Plain lib n) (env : Env) : ∃ v env', Means lib false env n v env' := by
  induction h generalizing env with
  | null => exact ⟨_, _, .null⟩
  | @text t q hs =>
    obtain ⟨v, hv⟩ := Option.isSome_iff_exists.mp hs
    by_cases hn : Schema.isNull t = true
    · cases q with
      | unknown => exact ⟨_, _, .textNull hn (.inl rfl)⟩
      | absent => exact ⟨_, _, .textNull hn (.inr rfl)⟩
      | single => exact ⟨_, _, .text (.inr (.inl rfl)) hv⟩
      | double => exact ⟨_, _, .text (.inr (.inr rfl)) hv⟩
    · exact ⟨_, _, .text (.inl (by simpa using hn)) hv⟩
  | content hp _ ih =>
    obtain ⟨v, env', h⟩ := ih (extend env _ _)
    exact ⟨v, env', .content hp h⟩
  | sequence _ ih =>
    obtain ⟨vs, env', h⟩ := plain_all ih env
    exact ⟨_, env', .sequence h⟩
  | mapping hk _ ih =>
    obtain ⟨vs, env', _, h⟩ := plain_entries hk ih env
    exact ⟨_, env', .mapping h⟩

end Verif.AnyBuilder
