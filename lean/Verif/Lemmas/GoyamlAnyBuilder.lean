import Verif.Spec.GoyamlValue

/-! Lemmas for generic decoding in the goyaml engine. -/

namespace Verif.GoyamlAnyBuilder

open Verif.Generic Verif.Goyaml Verif.GenericValue Verif.GoyamlValue

variable {lib : GLib} {h : Heap}

/-- The builder between two nodes. -/
structure Calm (a : St) (mm : Bool) : Prop where
  noErr : a.errors = 0
  noMerge : a.mergeMap = none
  flag : a.extractMergeMap = mm

theorem Calm.hasErrors {a : St} {mm : Bool} (h : Calm a mm) : a.hasErrors = false := by
  simp [St.hasErrors, h.noErr]

theorem visit_doc {n c : Nat} {cs : List Nat} {a a' : St} (hk : (h n).kind = .document) (hc : (h n).content = c :: cs)
    (hv : Conv (fun f => visitNode lib h f c a) a') : Conv (fun f => visitNode lib h f n a) a' :=
  Conv.succ (fun f => by rw [visitNode]; simp only [hk, hc]) hv

theorem visit_alias {n t : Nat} {a a' : St} (hk : (h n).kind = .alias) (ht : (h n).alias = some t)
    (hv : Conv (fun f => visitNode lib h f t a) a') : Conv (fun f => visitNode lib h f n a) a' :=
  Conv.succ (fun f => by rw [visitNode]; simp only [hk, ht]) hv

theorem visit_seq {n : Nat} {a a' : St} (hk : (h n).kind = .sequence)
    (hv : Conv (fun f => visitSequence lib (visitNode lib h f) (h n).content a) a') :
    Conv (fun f => visitNode lib h f n a) a' :=
  Conv.succ (fun f => by rw [visitNode]; simp only [hk]) hv

theorem visit_map {n : Nat} {a a' : St} (hk : (h n).kind = .mapping)
    (hv : Conv (fun f => visitMapping lib (visitNode lib h f) (h n).content a) a') :
    Conv (fun f => visitNode lib h f n a) a' :=
  Conv.succ (fun f => by rw [visitNode]; simp only [hk]) hv

theorem visit_scalar {n : Nat} {a : St} (hk : (h n).kind = .scalar) :
    Conv (fun f => visitNode lib h f n a) (visitScalar lib (h n) a) :=
  Conv.succ (g' := fun _ => .ok (visitScalar lib (h n) a)) (fun f => by rw [visitNode]; simp only [hk]) (Conv.pure _)

def ValueOut (lib : GLib) (h : Heap) (mm : Bool) (n : Nat) (v : GVal) : Prop :=
  ∀ a, Calm a mm → a.extractString = false →
    ∃ a', Conv (fun f => visitNode lib h f n a) a' ∧ Calm a' mm ∧ a'.extractString = false ∧ a'.value = v

def KeyOut (lib : GLib) (h : Heap) (mm : Bool) (n : Nat) (s : List Char) : Prop :=
  ∀ a, Calm a mm → a.extractString = true →
    ∃ a', Conv (fun f => visitNode lib h f n a) a' ∧ Calm a' mm ∧ a'.extractString = true ∧ a'.stringValue = s

def AllOut (lib : GLib) (h : Heap) (mm : Bool) (ns : List Nat) (vs : List GVal) : Prop :=
  ∀ a s, Calm a mm → a.extractString = false →
    ∃ a', Conv (fun f => visitItems (visitNode lib h f) ns a s) (a', s ++ vs) ∧ Calm a' mm ∧ a'.extractString = false

def MergeOut (lib : GLib) (h : Heap) (n : Nat) (m : GMap) : Prop :=
  ∀ a, Calm a true → a.extractString = false →
    ∃ a', Conv (fun f => visitNode lib h f n a) a' ∧ Calm { a' with mergeMap := none } true ∧
      a'.extractString = false ∧ a'.mergeMap = some m

def PairsOut (lib : GLib) (h : Heap) (mm : Bool) (ns : List Nat) (items : List Item) : Prop :=
  ∀ a m b, Calm a mm → a.extractString = b →
    ∃ a', Conv (fun f => visitPairs (visitNode lib h f) ns a m) (a', items.foldl put m) ∧ Calm a' mm ∧
      a'.extractString = b

def valueState (a : St) : St :=
  { (if a.stringValue = Schema.mergeKey then { a with extractMergeMap := true } else a) with extractString := false }

/-- The state after the missing value of a last key. -/
def nilled (a : St) : St := { valueState a with value := .nil }

def restored (a : St) (key : List Char) (a2 : St) : St :=
  { a2 with stringValue := key, extractString := a.extractString, extractMergeMap := a.extractMergeMap }

theorem pair_conv {k v : Nat} {a a1 a2 : St} (hk : Conv (fun f => visitNode lib h f k { a with extractString := true }) a1)
    (hv : Conv (fun f => visitNode lib h f v (valueState a1)) a2) :
    Conv (fun f => processPair (visitNode lib h f) k (some v) a) (restored a a1.stringValue a2) := by
  refine Conv.bind hk (Conv.bind (x := a2) hv ?_)
  refine Conv.congr (fun f => ?_) (Conv.pure _)
  simp only [restored]
  split <;> rfl

theorem last_conv {k : Nat} {a a1 : St} (hk : Conv (fun f => visitNode lib h f k { a with extractString := true }) a1) :
    Conv (fun f => processPair (visitNode lib h f) k none a)
      (restored a a1.stringValue (nilled a1)) := by
  refine Conv.bind hk (Conv.congr (fun f => ?_) (Conv.pure _))
  simp only [restored, nilled, valueState]
  split <;> rfl

theorem putPair_none {a : St} {m : GMap} (he : a.errors = 0) (hm : a.mergeMap = none) :
    putPair a m = (a, mset m a.stringValue a.value) := by
  simp [putPair, St.hasErrors, he, hm]

theorem putPair_some {a : St} {m mm : GMap} (he : a.errors = 0) (hm : a.mergeMap = some mm) :
    putPair a m = ({ a with mergeMap := none }, mergeMaps m mm) := by
  simp [putPair, St.hasErrors, he, hm]

theorem value_out {mm n v} (hm : Means lib h mm n v) : ValueOut lib h mm n v := by
  refine Means.rec (motive_1 := fun mm n v _ => ValueOut lib h mm n v)
    (motive_2 := fun mm n s _ => KeyOut lib h mm n s)
    (motive_3 := fun mm ns vs _ => AllOut lib h mm ns vs)
    (motive_4 := fun n m _ => MergeOut lib h n m)
    (motive_5 := fun mm ns items _ => PairsOut lib h mm ns items)
    ?_ ?_ ?_ ?_ ?_ ?_ ?_ ?_ ?_ ?_ ?_ ?_ ?_ ?_ ?_ ?_ ?_ ?_ ?_ hm
  · intro mm n hk hn a hc he
    refine ⟨_, visit_scalar hk, ?_⟩
    rw [show visitScalar lib (h n) a = { a with value := .nil } by simp [visitScalar, he, hn]]
    exact ⟨⟨hc.1, hc.2, hc.3⟩, he, rfl⟩
  · intro mm n v hk hn hs a hc he
    refine ⟨_, visit_scalar hk, ?_⟩
    rw [show visitScalar lib (h n) a = { a with value := v } by simp [visitScalar, he, hn, hs]]
    exact ⟨⟨hc.1, hc.2, hc.3⟩, he, rfl⟩
  · intro mm n c cs v hk hcs _ ih a hc he
    obtain ⟨a', h1, h2⟩ := ih a hc he
    exact ⟨a', visit_doc hk hcs h1, h2⟩
  · intro mm n t v hk ht _ ih a hc he
    obtain ⟨a', h1, h2⟩ := ih a hc he
    exact ⟨a', visit_alias hk ht h1, h2⟩
  · intro mm n vs hk _ ih a hc he
    obtain ⟨a', h1, h2, h3⟩ := ih { a with extractString := false } [] ⟨hc.1, hc.2, hc.3⟩ rfl
    refine ⟨{ a' with extractString := false, value := _ }, visit_seq hk (Conv.bind h1 ?_), ⟨h2.1, h2.2, h2.3⟩, rfl, rfl⟩
    exact Conv.congr (fun f => by simp [he]) (Conv.pure _)
  · intro n items hk _ ih a hc he
    obtain ⟨a', h1, h2, h3⟩ := ih a [] false hc he
    refine ⟨{ a' with value := .map (build items) }, visit_map hk (Conv.bind h1 ?_), ⟨h2.1, h2.2, h2.3⟩, h3, rfl⟩
    exact Conv.congr (fun f => by simp [h2.flag, h3, build]) (Conv.pure _)
  · intro mm n hk a hc he
    refine ⟨_, visit_scalar hk, ?_⟩
    rw [show visitScalar lib (h n) a = { a with stringValue := (h n).value } by simp [visitScalar, he]]
    exact ⟨⟨hc.1, hc.2, hc.3⟩, he, rfl⟩
  · intro mm n t s hk ht _ ih a hc he
    obtain ⟨a', h1, h2⟩ := ih a hc he
    exact ⟨a', visit_alias hk ht h1, h2⟩
  · intro mm n vs hk _ ih a hc he
    obtain ⟨a', h1, h2, h3⟩ := ih { a with extractString := false } [] ⟨hc.1, hc.2, hc.3⟩ rfl
    refine ⟨{ a' with extractString := true, stringValue := _ }, visit_seq hk (Conv.bind h1 ?_), ⟨h2.1, h2.2, h2.3⟩, rfl, rfl⟩
    exact Conv.congr (fun f => by simp [he]) (Conv.pure _)
  · intro n items hk _ ih a hc he
    obtain ⟨a', h1, h2, h3⟩ := ih a [] true hc he
    refine ⟨{ a' with stringValue := lib.sprint (.map (build items)) }, visit_map hk (Conv.bind h1 ?_),
      ⟨h2.1, h2.2, h2.3⟩, h3, rfl⟩
    exact Conv.congr (fun f => by simp [h2.flag, h3, build]) (Conv.pure _)
  · intro mm a s hc he
    exact ⟨a, by simpa [visitItems] using Conv.pure (a, s), hc, he⟩
  · intro mm n ns v vs _ _ ih1 ih2 a s hc he
    obtain ⟨a1, c1, k1, e1, v1⟩ := ih1 a hc he
    obtain ⟨a2, c2, k2, e2⟩ := ih2 a1 (s ++ [v]) k1 e1
    refine ⟨a2, ?_, k2, e2⟩
    rw [List.append_assoc] at c2
    refine Conv.congr (fun f => by rw [visitItems]) (Conv.bind c1 ?_)
    exact Conv.congr (fun f => by simp [k1.hasErrors, v1]) c2
  · intro n t m hk ht _ ih a hc he
    obtain ⟨a', h1, h2⟩ := ih a hc he
    exact ⟨a', visit_alias hk ht h1, h2⟩
  · intro n items hk _ ih a hc he
    obtain ⟨a', h1, h2, h3⟩ := ih a [] false hc he
    refine ⟨{ a' with mergeMap := some (build items) }, visit_map hk (Conv.bind h1 ?_), ⟨h2.1, rfl, h2.3⟩, h3, rfl⟩
    exact Conv.congr (fun f => by simp [h2.flag, build]) (Conv.pure _)
  · intro mm a m b hc he
    exact ⟨a, by simpa [visitPairs] using Conv.pure (a, m), hc, he⟩
  · intro mm k s _ ihk a m b hc he
    obtain ⟨a1, c1, k1, e1, v1⟩ := ihk { a with extractString := true } ⟨hc.1, hc.2, hc.3⟩ rfl
    have hst : (valueState a1).errors = 0 ∧ (valueState a1).mergeMap = none := by
      rw [valueState]
      split <;> exact ⟨k1.1, k1.2⟩
    refine ⟨restored a a1.stringValue (nilled a1), ?_, ⟨hst.1, hst.2, hc.3⟩, he⟩
    refine Conv.congr (fun f => by rw [visitPairs]) (Conv.bind (last_conv (a := a) c1) ?_)
    rw [putPair_none (a := restored a a1.stringValue (nilled a1)) hst.1 hst.2, show (restored a a1.stringValue (nilled a1)).stringValue = s from v1]
    exact Conv.pure _
  · intro mm k v s val ns items _ hs _ _ ihk ihv ihes a m b hc he
    obtain ⟨a1, c1, k1, e1, v1⟩ := ihk { a with extractString := true } ⟨hc.1, hc.2, hc.3⟩ rfl
    have hne : ¬ a1.stringValue = Schema.mergeKey := by rw [v1]; exact hs
    obtain ⟨a2, c2, k2, e2, v2⟩ := ihv { a1 with extractString := false } ⟨k1.1, k1.2, k1.3⟩ rfl
    have cc := pair_conv (a := a) c1 (by rw [valueState, if_neg hne]; exact c2)
    have k3 : Calm (restored a a1.stringValue a2) mm := ⟨k2.1, k2.2, hc.3⟩
    obtain ⟨a4, c4, k4, e4⟩ := ihes _ (mset m s val) b k3 he
    refine ⟨a4, Conv.congr (fun f => by rw [visitPairs]) (Conv.bind cc ?_), k4, e4⟩
    rw [putPair_none k3.1 k3.2, show (restored a a1.stringValue a2).stringValue = _ from v1,
      show (restored a a1.stringValue a2).value = _ from v2]
    exact c4
  · intro mm k v mv ns items _ _ _ ihk ihv ihes a m b hc he
    obtain ⟨a1, c1, k1, e1, v1⟩ := ihk { a with extractString := true } ⟨hc.1, hc.2, hc.3⟩ rfl
    have heq : a1.stringValue = Schema.mergeKey := v1
    obtain ⟨a2, c2, k2, e2, v2⟩ := ihv { a1 with extractMergeMap := true, extractString := false } ⟨k1.1, k1.2, rfl⟩ rfl
    have cc := pair_conv (a := a) c1 (by rw [valueState, if_pos heq]; exact c2)
    have k3 : Calm { restored a a1.stringValue a2 with mergeMap := none } mm := ⟨k2.1, rfl, hc.3⟩
    obtain ⟨a4, c4, k4, e4⟩ := ihes _ (mergeMaps m mv) b k3 he
    refine ⟨a4, Conv.congr (fun f => by rw [visitPairs]) (Conv.bind cc ?_), k4, e4⟩
    rw [putPair_some (a := restored a a1.stringValue a2) k2.1 v2]
    exact c4
  · intro mm k v val ns items _ _ _ ihk ihv ihes a m b hc he
    obtain ⟨a1, c1, k1, e1, v1⟩ := ihk { a with extractString := true } ⟨hc.1, hc.2, hc.3⟩ rfl
    have heq : a1.stringValue = Schema.mergeKey := v1
    obtain ⟨a2, c2, k2, e2, v2⟩ := ihv { a1 with extractMergeMap := true, extractString := false } ⟨k1.1, k1.2, rfl⟩ rfl
    have cc := pair_conv (a := a) c1 (by rw [valueState, if_pos heq]; exact c2)
    have k3 : Calm (restored a a1.stringValue a2) mm := ⟨k2.1, k2.2, hc.3⟩
    obtain ⟨a4, c4, k4, e4⟩ := ihes _ (mset m "<<".toList val) b k3 he
    refine ⟨a4, Conv.congr (fun f => by rw [visitPairs]) (Conv.bind cc ?_), k4, e4⟩
    rw [putPair_none k3.1 k3.2, show (restored a a1.stringValue a2).stringValue = _ from v1,
      show (restored a a1.stringValue a2).value = _ from v2]
    exact c4

theorem items_conv {es : List Nat} (hv : ∀ e ∈ es, ∀ a, ∃ a', Conv (fun f => visitNode lib h f e a) a') (a : St)
    (s : List GVal) : ∃ x, Conv (fun f => visitItems (visitNode lib h f) es a s) x := by
  induction es generalizing a s with
  | nil => exact ⟨(a, s), Conv.congr (fun f => by rw [visitItems]) (Conv.pure _)⟩
  | cons e es ih =>
    obtain ⟨a1, h1⟩ := hv e (by simp) a
    obtain ⟨x, hx⟩ := ih (fun e he => hv e (List.mem_cons_of_mem _ he)) a1 (if a1.hasErrors then s else s ++ [a1.value])
    exact ⟨x, Conv.congr (fun f => by rw [visitItems]) (Conv.bind h1 hx)⟩

theorem pairs_conv : ∀ {es : List Nat} (_ : ∀ e ∈ es, ∀ a, ∃ a', Conv (fun f => visitNode lib h f e a) a') (a : St)
    (m : GMap), ∃ x, Conv (fun f => visitPairs (visitNode lib h f) es a m) x
  | [], _, a, m => ⟨(a, m), Conv.congr (fun f => by rw [visitPairs]) (Conv.pure _)⟩
  | [k], hv, a, m => by
    obtain ⟨a1, h1⟩ := hv k (by simp) { a with extractString := true }
    exact ⟨_, Conv.congr (fun f => by rw [visitPairs]) (Conv.bind (last_conv h1) (Conv.pure _))⟩
  | k :: v :: es, hv, a, m => by
    obtain ⟨a1, h1⟩ := hv k (by simp) { a with extractString := true }
    obtain ⟨a2, h2⟩ := hv v (by simp) (valueState a1)
    obtain ⟨x, hx⟩ := pairs_conv (es := es) (fun e he => hv e (List.mem_cons_of_mem _ (List.mem_cons_of_mem _ he)))
      (putPair (restored a a1.stringValue a2) m).1 (putPair (restored a a1.stringValue a2) m).2
    exact ⟨x, Conv.congr (fun f => by rw [visitPairs]) (Conv.bind (pair_conv h1 h2) hx)⟩

/-- Visiting a node of an acyclic graph ends. -/
theorem visit_conv {rank : Nat → Nat} (hr : Acyclic h rank) : ∀ (r n : Nat), rank n = r → ∀ a,
    ∃ a', Conv (fun f => visitNode lib h f n a) a' := by
  intro r
  induction r using Nat.strongRecOn with
  | _ r ih =>
    intro n hn a
    have ch : ∀ c ∈ (h n).content, ∀ a, ∃ a', Conv (fun f => visitNode lib h f c a) a' :=
      fun c hc => ih _ (by rw [← hn]; exact hr.child n c hc) c rfl
    cases hk : (h n).kind with
    | zero => exact ⟨a, Conv.succ (g' := fun _ => .ok a) (fun f => by rw [visitNode]; simp only [hk]) (Conv.pure _)⟩
    | scalar => exact ⟨_, visit_scalar hk⟩
    | document =>
      cases hc : (h n).content with
      | nil => exact absurd hc (hr.document n hk)
      | cons c cs =>
        obtain ⟨a', h1⟩ := ch c (by rw [hc]; simp) a
        exact ⟨a', visit_doc hk hc h1⟩
    | alias =>
      cases ht : (h n).alias with
      | none =>
        exact ⟨a, Conv.succ (g' := fun _ => .ok a) (fun f => by rw [visitNode]; simp only [hk, ht]) (Conv.pure _)⟩
      | some t =>
        obtain ⟨a', h1⟩ := ih _ (by rw [← hn]; exact hr.alias n t hk ht) t rfl a
        exact ⟨a', visit_alias hk ht h1⟩
    | sequence =>
      obtain ⟨⟨a1, s⟩, h1⟩ := items_conv ch { a with extractString := false } []
      by_cases he : a.extractString
      · exact ⟨_, visit_seq hk (Conv.bind h1 (Conv.congr (fun f => if_pos he) (Conv.pure _)))⟩
      · exact ⟨_, visit_seq hk (Conv.bind h1 (Conv.congr (fun f => if_neg he) (Conv.pure _)))⟩
    | mapping =>
      obtain ⟨⟨a1, m⟩, h1⟩ := pairs_conv ch a []
      by_cases hm : a1.extractMergeMap
      · exact ⟨_, visit_map hk (Conv.bind h1 (Conv.congr (fun f => if_pos hm) (Conv.pure _)))⟩
      · by_cases he : a1.extractString
        · exact ⟨_, visit_map hk
            (Conv.bind h1 (Conv.congr (fun f => (if_neg hm).trans (if_pos he)) (Conv.pure _)))⟩
        · exact ⟨_, visit_map hk
            (Conv.bind h1 (Conv.congr (fun f => (if_neg hm).trans (if_neg he)) (Conv.pure _)))⟩

theorem plain_all {es : List Nat} (hv : ∀ e ∈ es, ∃ v, Means lib h false e v) : ∃ vs, MeansAll lib h false es vs := by
  induction es with
  | nil => exact ⟨[], .nil⟩
  | cons e es ih =>
    obtain ⟨v, h1⟩ := hv e (by simp)
    obtain ⟨vs, h2⟩ := ih fun e he => hv e (List.mem_cons_of_mem _ he)
    exact ⟨v :: vs, .cons h1 h2⟩

theorem plain_pairs {ps : List (Nat × Nat)} (hk : ∀ p ∈ ps, (h p.1).kind = .scalar ∧ (h p.1).value ≠ "<<".toList)
    (hv : ∀ p ∈ ps, ∃ v, Means lib h false p.2 v) :
    ∃ items, MeansPairs lib h false (ps.flatMap fun p => [p.1, p.2]) items := by
  induction ps with
  | nil => exact ⟨[], .nil⟩
  | cons p ps ih =>
    obtain ⟨v, h1⟩ := hv p (by simp)
    obtain ⟨items, h2⟩ := ih (fun e he => hk e (List.mem_cons_of_mem _ he)) fun e he => hv e (List.mem_cons_of_mem _ he)
    exact ⟨_, .pair (.scalar (hk p (by simp)).1) (hk p (by simp)).2 h1 h2⟩

theorem plain_means {n : Nat} (hp : Plain lib h n) : ∃ v, Means lib h false n v := by
  induction hp with
  | @scalar n hk hs =>
    obtain ⟨v, hv⟩ := Option.isSome_iff_exists.mp hs
    cases hn : isNull lib (h n) with
    | true => exact ⟨_, .null hk hn⟩
    | false => exact ⟨_, .text hk hn hv⟩
  | document hk hc _ ih =>
    obtain ⟨v, h1⟩ := ih
    exact ⟨v, .document hk hc h1⟩
  | alias hk ht _ ih =>
    obtain ⟨v, h1⟩ := ih
    exact ⟨v, .alias hk ht h1⟩
  | sequence hk _ ih =>
    obtain ⟨vs, h1⟩ := plain_all ih
    exact ⟨_, .sequence hk h1⟩
  | mapping hk hc hs _ ih =>
    obtain ⟨items, h1⟩ := plain_pairs hs ih
    exact ⟨_, .mapping hk (by rw [hc]; exact h1)⟩

end Verif.GoyamlAnyBuilder
