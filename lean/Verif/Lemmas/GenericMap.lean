import Verif.Spec.GenericValue

/-! Lemmas about the maps of generic decoding. -/

namespace Verif.GenericValue

open Verif.Generic

theorem mget_cons (k0 : List Char) (v0 : GVal) (m : GMap) (k : List Char) :
    mget ((k0, v0) :: m) k = if k = k0 then some v0 else mget m k := by
  by_cases h : k = k0
  · simp [mget, List.lookup_cons, h]
  · have : (k == k0) = false := by simpa using h
    simp [mget, List.lookup_cons, h, this]

theorem get_set (m : GMap) (k k' : List Char) (v : GVal) :
    mget (mset m k v) k' = if k' = k then some v else mget m k' := by
  induction m with
  | nil => rw [mset, mget_cons]
  | cons e m ih =>
    obtain ⟨k0, v0⟩ := e
    rw [mset]
    by_cases h0 : k = k0
    · subst h0
      rw [if_pos rfl, mget_cons, mget_cons]
      by_cases h : k' = k <;> simp [h]
    · rw [if_neg h0, mget_cons, mget_cons, ih]
      by_cases h : k' = k0
      · subst h
        have : ¬ k' = k := fun e => h0 e.symm
        simp [this]
      · simp [h]

theorem keys_set (m : GMap) (k : List Char) (v : GVal) :
    (mset m k v).map Prod.fst = if k ∈ m.map Prod.fst then m.map Prod.fst else m.map Prod.fst ++ [k] := by
  induction m with
  | nil => simp [mset]
  | cons e m ih =>
    obtain ⟨k0, v0⟩ := e
    rw [mset]
    by_cases h0 : k = k0
    · simp [h0]
    · rw [if_neg h0]
      simp only [List.map_cons, ih, List.mem_cons, h0, false_or]
      split <;> simp

theorem nodup_set {m : GMap} (h : (m.map Prod.fst).Nodup) (k : List Char) (v : GVal) :
    ((mset m k v).map Prod.fst).Nodup := by
  rw [keys_set]
  split
  · exact h
  · rename_i hk
    rw [List.nodup_append]
    exact ⟨h, by simp, by
      intro a ha b hb
      simp only [List.mem_singleton] at hb
      subst hb
      intro e
      exact hk (e ▸ ha)⟩

theorem nodup_put {m : GMap} (h : (m.map Prod.fst).Nodup) (i : Item) : ((put m i).map Prod.fst).Nodup := by
  cases i with
  | pair k v => exact nodup_set h k v
  | merge src =>
    rw [put]
    induction src generalizing m with
    | nil => exact h
    | cons e src ih =>
      rw [List.foldl_cons]
      refine ih ?_
      split
      · exact h
      · exact nodup_set h _ _

theorem get_merge (src m : GMap) (k : List Char) :
    mget (src.foldl (fun m e => if (mget m e.1).isSome then m else mset m e.1 e.2) m) k = (mget m k).or (mget src k) := by
  induction src generalizing m with
  | nil => simp [mget]
  | cons e src ih =>
    rw [List.foldl_cons, ih]
    obtain ⟨k0, v0⟩ := e
    by_cases hk : k = k0
    · subst hk
      cases hm : mget m k with
      | some v => simp [hm]
      | none => simp [hm, get_set, mget_cons]
    · have h1 : mget ((k0, v0) :: src) k = mget src k := by simp [mget_cons, hk]
      rw [h1]
      split
      · rfl
      · rw [get_set, if_neg hk]

theorem written_snoc (items : List Item) (i : Item) (k : List Char) :
    written (items ++ [i]) k =
      ((match i with
        | .pair k' v => if k' = k then some v else none
        | .merge _ => none) : Option GVal).or (written items k) := by
  simp only [written, List.reverse_append, List.reverse_cons, List.reverse_nil, List.nil_append, List.singleton_append,
    List.findSome?_cons]
  cases i with
  | pair k' v => by_cases h : k' = k <;> simp [h]
  | merge m => simp

theorem merged_snoc (items : List Item) (i : Item) (k : List Char) :
    merged (items ++ [i]) k =
      (merged items k).or (match i with
        | .pair _ _ => none
        | .merge m => mget m k) := by
  simp only [merged, List.findSome?_append]
  cases i with
  | pair k' v => simp
  | merge m => cases h : mget m k <;> simp [h]

theorem build_isMap (items : List Item) : IsMap items (build items) := by
  suffices h : ∀ (rest done : List Item) (m : GMap), IsMap done m → IsMap (done ++ rest) (rest.foldl put m) by
    exact h items [] [] ⟨by simp, by simp [mget, written, merged]⟩
  intro rest
  induction rest with
  | nil => intro done m h; simpa using h
  | cons i rest ih =>
    intro done m h
    have := ih (done ++ [i]) (put m i) ⟨nodup_put h.1 i, fun k => ?_⟩
    · simpa using this
    · rw [written_snoc, merged_snoc]
      cases i with
      | pair k' v =>
        rw [put, get_set, h.2]
        by_cases hk : k = k'
        · subst hk; simp
        · have : ¬ k' = k := fun e => hk e.symm
          simp [hk, this]
      | merge src =>
        rw [put, get_merge, h.2]
        simp [Option.or_assoc]

end Verif.GenericValue
