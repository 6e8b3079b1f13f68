import Verif.Model.GenNames

/-! Lemmas on the name tables of the generator. -/

set_option linter.unusedSimpArgs false

namespace Verif.GenNames

/-! ### a pigeonhole principle -/

/-- Distinct elements of a list are not more than its elements. -/
theorem pigeonhole {α : Type} [DecidableEq α] : ∀ (xs ys : List α), xs.Nodup → (∀ x ∈ xs, x ∈ ys) → xs.length ≤ ys.length
  | [], _, _, _ => by simp
  | x :: xs, ys, hn, hs => by
    have hx : x ∈ ys := hs x (by simp)
    have hlen := List.length_erase_of_mem hx
    have hpos : 0 < ys.length := by
      cases ys with
      | nil => simp at hx
      | cons => simp
    have hn' := List.nodup_cons.1 hn
    have := pigeonhole xs (ys.erase x) hn'.2 (by
      intro y hy
      have hne : y ≠ x := by rintro rfl; exact hn'.1 hy
      exact (List.mem_erase_of_ne hne).2 (hs y (by simp [hy])))
    simp
    omega

/-- An injective sequence leaves a finite list early. -/
theorem leaves {α : Type} [DecidableEq α] (f : Nat → α) (hf : ∀ i j, f i = f j → i = j) (ys : List α) :
    ∃ i, i ≤ ys.length ∧ f i ∉ ys := by
  apply Classical.byContradiction
  intro h
  simp only [not_exists, not_and, Classical.not_not] at h
  have := pigeonhole ((List.range (ys.length + 1)).map f) ys (by
    rw [List.Nodup, List.pairwise_map]
    exact (List.nodup_range (n := ys.length + 1)).imp fun hne he => hne (hf _ _ he)) (by
    intro x hx
    simp only [List.mem_map, List.mem_range] at hx
    obtain ⟨i, hi, rfl⟩ := hx
    exact h i (by omega))
  simp at this
  omega

/-! ### numbers -/

/-- The number written by digits. -/
def value (bs : Bytes) : Nat := bs.foldl (fun a b => a * 10 + (b.toNat - 48)) 0

theorem value_itoa (n : Nat) : value (itoa n) = n := by
  induction n using Nat.strongRecOn with
  | ind n ih =>
    unfold itoa
    split
    · simp [value, UInt8.toNat_ofNat']
      omega
    · rename_i h
      have := ih (n / 10) (by omega)
      simp [value, List.foldl_append, UInt8.toNat_ofNat'] at this ⊢
      rw [this]
      omega

theorem itoa_inj {i j : Nat} (h : itoa i = itoa j) : i = j := by rw [← value_itoa i, ← value_itoa j, h]

/-- The number written by digits. -/
def valueChars (cs : List Char) : Nat := cs.foldl (fun a c => a * 10 + (c.toNat - 48)) 0

theorem toNat_digit (d : Nat) (h : d < 10) : (Char.ofNat (48 + d)).toNat = 48 + d := by
  have hv : (48 + d).isValidChar := by left; omega
  rw [Char.ofNat, dif_pos hv]
  simp [Char.ofNatAux, Char.toNat]
  omega

theorem value_itoaChars (n : Nat) : valueChars (itoaChars n) = n := by
  induction n using Nat.strongRecOn with
  | ind n ih =>
    unfold itoaChars
    split
    · rename_i h
      simp [valueChars, toNat_digit n h]
    · rename_i h
      have := ih (n / 10) (by omega)
      simp [valueChars, List.foldl_append] at this ⊢
      rw [this, toNat_digit _ (by omega)]
      omega

theorem itoaChars_inj {i j : Nat} (h : itoaChars i = itoaChars j) : i = j := by
  rw [← value_itoaChars i, ← value_itoaChars j, h]

theorem itoaChars_ne_nil (n : Nat) : itoaChars n ≠ [] := by
  unfold itoaChars
  split <;> simp

/-! ### maps as lists -/

/-- Every key occurs once. -/
def Keys {α β : Type} (m : List (α × β)) : Prop := (m.map Prod.fst).Nodup

theorem lookup_mem {α β : Type} [BEq α] [LawfulBEq α] {m : List (α × β)} {k : α} {v : β} (h : m.lookup k = some v) :
    (k, v) ∈ m := by
  induction m with
  | nil => simp at h
  | cons e m ih =>
    obtain ⟨a, b⟩ := e
    by_cases hk : k = a
    · subst hk; simp [List.lookup] at h; subst h; simp
    · have : (k == a) = false := by simpa using hk
      simp [List.lookup, this] at h
      exact List.mem_cons_of_mem _ (ih h)

theorem mem_lookup {α β : Type} [BEq α] [LawfulBEq α] {m : List (α × β)} {k : α} {v : β} (hk : Keys m) (h : (k, v) ∈ m) :
    m.lookup k = some v := by
  induction m with
  | nil => simp at h
  | cons e m ih =>
    obtain ⟨a, b⟩ := e
    have hk' := List.nodup_cons.1 (by simpa [Keys] using hk : (a :: m.map Prod.fst).Nodup)
    simp only [List.mem_cons, Prod.mk.injEq] at h
    rcases h with ⟨rfl, rfl⟩ | h
    · simp [List.lookup]
    · have hne : k ≠ a := by
        rintro rfl
        exact hk'.1 (List.mem_map.2 ⟨(k, v), h, rfl⟩)
      have : (k == a) = false := by simpa using hne
      simp [List.lookup, this]
      exact ih hk'.2 h

theorem lookup_none {α β : Type} [BEq α] [LawfulBEq α] {m : List (α × β)} {k : α} (h : m.lookup k = none) (v : β) :
    (k, v) ∉ m := by
  induction m with
  | nil => simp
  | cons e m ih =>
    obtain ⟨a, b⟩ := e
    by_cases hk : k = a
    · subst hk; simp [List.lookup] at h
    · have : (k == a) = false := by simpa using hk
      rw [List.lookup, this] at h
      simp only [List.mem_cons, Prod.mk.injEq, not_or]
      exact ⟨fun hh => hk hh.1, ih h⟩

theorem keys_cons {α β : Type} [BEq α] [LawfulBEq α] {m : List (α × β)} {k : α} {v : β} (hk : Keys m) (h : m.lookup k = none) :
    Keys ((k, v) :: m) := by
  simp only [Keys, List.map_cons, List.nodup_cons]
  refine ⟨?_, hk⟩
  intro hm
  obtain ⟨⟨a, b⟩, hab, rfl⟩ := List.mem_map.1 hm
  exact lookup_none h b hab

/-! ### function names -/

section

variable {τ : Type} [DecidableEq τ]

theorem suffixLoop_some {m : FuncNames τ} {name : Bytes} {t : τ} {fuel i : Nat} {r : Bytes} {m' : FuncNames τ}
    (h : suffixLoop m name t fuel i = some (r, m')) :
    ∃ j, i ≤ j ∧ r = name ++ itoa j ∧ ownerOf m r = none ∧ m' = (r, t) :: m := by
  induction fuel generalizing i with
  | zero => simp [suffixLoop] at h
  | succ fuel ih =>
    rw [suffixLoop] at h
    split at h
    · obtain ⟨j, hj, hr⟩ := ih h
      exact ⟨j, by omega, hr⟩
    · rename_i hn
      simp only [Option.some.injEq, Prod.mk.injEq] at h
      obtain ⟨rfl, rfl⟩ := h
      exact ⟨i, Nat.le_refl _, rfl, by simpa using hn, rfl⟩

theorem suffixLoop_total (m : FuncNames τ) (name : Bytes) (t : τ) (i : Nat) :
    ∃ r, suffixLoop m name t (m.length + 1) i = some r := by
  obtain ⟨k, hk, hfree⟩ := leaves (fun k => name ++ itoa (i + k)) (by
    intro a b h
    have := itoa_inj (List.append_cancel_left h)
    omega) (m.map Prod.fst)
  have hfree' : ownerOf m (name ++ itoa (i + k)) = none := by
    cases ho : ownerOf m (name ++ itoa (i + k)) with
    | none => rfl
    | some v => exact absurd (List.mem_map.2 ⟨_, lookup_mem ho, rfl⟩) hfree
  have key : ∀ fuel k i, k < fuel → ownerOf m (name ++ itoa (i + k)) = none →
      ∃ r, suffixLoop m name t fuel i = some r := by
    intro fuel
    induction fuel with
    | zero => intro k i hk _; omega
    | succ fuel ih =>
      intro k i hk hfree
      rw [suffixLoop]
      split
      · rename_i hs
        cases k with
        | zero => rw [Nat.add_zero] at hfree; simp [hfree] at hs
        | succ k => exact ih k (i + 1) (by omega) (by rw [Nat.add_right_comm]; exact hfree)
      · exact ⟨_, rfl⟩
  exact key _ k i (by simp at hk; omega) hfree'

variable (base : Prefix → τ → Bytes)

/-- The invariant of the map of names. -/
structure Inv (m : FuncNames τ) : Prop where
  keys : Keys m
  one : ∀ p t n n', (n, t) ∈ m → (n', t) ∈ m → base p t <+: n → base p t <+: n' → n = n'
  taken : ∀ p t n, (n, t) ∈ m → base p t <+: n → ∃ t', (base p t, t') ∈ m

theorem prefix_bytes_inj {p q : Prefix} {n : Bytes} (h1 : p.bytes <+: n) (h2 : q.bytes <+: n) : p = q := by
  have hl : p.bytes.length = q.bytes.length := by cases p <;> cases q <;> decide +kernel
  have := List.prefix_of_prefix_length_le h1 h2 (by omega)
  have he : p.bytes = q.bytes := this.eq_of_length hl
  revert he
  cases p <;> cases q <;> decide +kernel

theorem inv_nil : Inv base ([] : FuncNames τ) := ⟨by simp [Keys], by simp, by simp⟩

theorem inv_cons (hb : ∀ p t, p.bytes <+: base p t) {m : FuncNames τ} (hi : Inv base m) {p : Prefix} {t : τ} {n : Bytes}
    (hn : base p t <+: n) (hfree : ownerOf m n = none) (hnone : ∀ n', (n', t) ∈ m → ¬ base p t <+: n')
    (htaken : n = base p t ∨ ∃ t', (base p t, t') ∈ m) : Inv base ((n, t) :: m) := by
  have hp : ∀ q u, base q u <+: n → (q = p) := fun q u hq =>
    prefix_bytes_inj ((hb q u).trans hq) ((hb p t).trans hn)
  refine ⟨keys_cons hi.keys hfree, ?_, ?_⟩
  · intro q u a b ha hb' hqa hqb
    simp only [List.mem_cons, Prod.mk.injEq] at ha hb'
    rcases ha with ⟨rfl, rfl⟩ | ha <;> rcases hb' with ⟨rfl, hu⟩ | hb'
    · rfl
    · have := hp q u hqa
      subst this
      exact absurd hqb (hnone b hb')
    · have := hp q u hqb
      subst this hu
      exact absurd hqa (hnone a ha)
    · exact hi.one q u a b ha hb' hqa hqb
  · intro q u a ha hqa
    simp only [List.mem_cons, Prod.mk.injEq] at ha
    rcases ha with ⟨rfl, rfl⟩ | ha
    · have := hp q u hqa
      subst this
      rcases htaken with h | ⟨t', ht'⟩
      · exact ⟨u, by rw [← h]; simp⟩
      · exact ⟨t', List.mem_cons_of_mem _ ht'⟩
    · obtain ⟨t', ht'⟩ := hi.taken q u a ha hqa
      exact ⟨t', List.mem_cons_of_mem _ ht'⟩

theorem functionName_inv (hb : ∀ p t, p.bytes <+: base p t) {m m' : FuncNames τ} {p : Prefix} {t : τ} {n : Bytes}
    (hi : Inv base m) (h : FunctionName m (base p t) t n m') :
    Inv base m' ∧ (n, t) ∈ m' ∧ base p t <+: n ∧ ∀ e ∈ m, e ∈ m' := by
  cases h with
  | fresh hf =>
    refine ⟨?_, by simp, List.prefix_rfl, fun e he => List.mem_cons_of_mem _ he⟩
    refine inv_cons base hb hi List.prefix_rfl hf ?_ (.inl rfl)
    intro n' hn' hpre
    obtain ⟨t', ht'⟩ := hi.taken p t n' hn' hpre
    exact lookup_none hf t' ht'
  | known hk => exact ⟨hi, lookup_mem hk, List.prefix_rfl, fun e he => he⟩
  | saved _ _ hm hpre => exact ⟨hi, hm, hpre, fun e he => he⟩
  | suffixed ho hne hnone hl =>
    obtain ⟨j, _, rfl, hf, rfl⟩ := suffixLoop_some hl
    refine ⟨?_, by simp, List.prefix_append _ _, fun e he => List.mem_cons_of_mem _ he⟩
    exact inv_cons base hb hi (List.prefix_append _ _) hf hnone (.inr ⟨_, lookup_mem ho⟩)

theorem functionName_total (m : FuncNames τ) (b : Bytes) (t : τ) : ∃ n m', FunctionName m b t n m' := by
  cases ho : ownerOf m b with
  | none => exact ⟨_, _, .fresh ho⟩
  | some t' =>
    by_cases ht : t' = t
    · subst ht; exact ⟨_, _, .known ho⟩
    · by_cases hs : ∃ name, (name, t) ∈ m ∧ b <+: name
      · obtain ⟨name, hm, hp⟩ := hs
        exact ⟨_, _, .saved ho ht hm hp⟩
      · obtain ⟨⟨n, m'⟩, hr⟩ := suffixLoop_total m b t 1
        exact ⟨_, _, .suffixed ho ht (fun name hm hp => hs ⟨name, hm, hp⟩) hr⟩

end

/-! ### imports -/

/-- The invariant of the imports: no path and no alias occurs twice. -/
structure ImportsOk (m : Imports) : Prop where
  keys : Keys m
  aliases : (m.map Prod.snd).Nodup

theorem aliasLoop_some {m : Imports} {path alias : List Char} {fuel i : Nat} {r : List Char × Imports}
    (h : aliasLoop m path alias fuel i = some r) :
    r.1 ∉ m.map Prod.snd ∧ r.2 = (path, r.1) :: m.filter (fun e => e.1 ≠ path) ∧
      ∃ s, r.1 = alias ++ s := by
  induction fuel generalizing i with
  | zero => simp [aliasLoop] at h
  | succ fuel ih =>
    rw [aliasLoop] at h
    split at h
    · exact ih h
    · rename_i hn
      simp only [Option.some.injEq] at h
      subst h
      refine ⟨?_, rfl, ?_⟩
      · intro hm
        obtain ⟨e, he, hee⟩ := List.mem_map.1 hm
        exact hn (List.any_eq_true.2 ⟨e, he, by simpa using hee⟩)
      · unfold candidate
        split
        · exact ⟨_, rfl⟩
        · exact ⟨[], by simp⟩

theorem aliasLoop_total (m : Imports) (path alias : List Char) : ∃ r, aliasLoop m path alias (m.length + 1) 0 = some r := by
  have hinj : ∀ a b, candidate alias a = candidate alias b → a = b := by
    intro a b h
    unfold candidate at h
    by_cases ha : a > 0 <;> by_cases hb : b > 0
    · rw [if_pos ha, if_pos hb] at h
      exact itoaChars_inj (List.append_cancel_left h)
    · rw [if_pos ha, if_neg hb] at h
      have := congrArg List.length h
      simp at this
      exact absurd this (itoaChars_ne_nil a)
    · rw [if_neg ha, if_pos hb] at h
      have := congrArg List.length h
      simp at this
      exact absurd this (itoaChars_ne_nil b)
    · omega
  obtain ⟨k, hk, hfree⟩ := leaves (candidate alias) hinj (m.map Prod.snd)
  have key : ∀ fuel i, i ≤ k → k < i + fuel → ∃ r, aliasLoop m path alias fuel i = some r := by
    intro fuel
    induction fuel with
    | zero => intro i h1 h2; omega
    | succ fuel ih =>
      intro i h1 h2
      rw [aliasLoop]
      split
      · rename_i hs
        by_cases hik : i = k
        · subst hik
          obtain ⟨e, he, hee⟩ := List.any_eq_true.1 hs
          exact absurd (List.mem_map.2 ⟨e, he, by simpa using hee⟩) hfree
        · exact ih (i + 1) (by omega) (by omega)
      · exact ⟨_, rfl⟩
  exact key _ 0 (by omega) (by simp at hk; omega)

theorem filter_sublist_keys {m : Imports} (path : List Char) (h : ImportsOk m) :
    ImportsOk (m.filter (fun e => e.1 ≠ path)) :=
  ⟨List.Nodup.sublist ((List.filter_sublist (l := m)).map _) h.keys,
    List.Nodup.sublist ((List.filter_sublist (l := m)).map _) h.aliases⟩

theorem aliasLoop_ok {m : Imports} {path alias : List Char} {fuel : Nat} {r : List Char × Imports}
    (hm : ImportsOk m) (h : aliasLoop m path alias fuel 0 = some r) : ImportsOk r.2 := by
  obtain ⟨hnew, heq, _⟩ := aliasLoop_some h
  have hf := filter_sublist_keys path hm
  rw [heq]
  refine ⟨?_, ?_⟩
  · simp only [Keys, List.map_cons, List.nodup_cons]
    refine ⟨?_, hf.keys⟩
    intro hp
    obtain ⟨e, he, hee⟩ := List.mem_map.1 hp
    have := (List.mem_filter.1 he).2
    simp at this
    exact this hee
  · simp only [List.map_cons, List.nodup_cons]
    refine ⟨?_, hf.aliases⟩
    intro hp
    obtain ⟨e, he, hee⟩ := List.mem_map.1 hp
    exact hnew (List.mem_map.2 ⟨e, (List.mem_filter.1 he).1, hee⟩)

end Verif.GenNames
