import Verif.Model.Bootstrap

/-!
C41: the output file of the generation pipeline.
-/

namespace Verif.Props.Bootstrap

open Verif.Bootstrap

/-- What is known in every reachable state. -/
def Good (c : Config) (result : List Char) (faults : Bool) (previous : Option (List Char)) (s : State) : Prop :=
  match s.pc with
  | .start => s.file = previous
  | .stub ws => ∃ b, s.file = some b ∧ (faults = false → b ++ ws.flatten = stub c)
  | .main => ∃ b, s.file = some b ∧ (faults = false → b = stub c)
  | .ready => ∃ b, s.file = some b ∧ (faults = false → b = stub c)
  | .writing rest => ∃ b, s.file = some b ∧ b ++ rest = result
  | .done true => s.file = some result
  | .done false => faults = false → s.file = previous ∨ s.file = some (stub c)

theorem good {c : Config} {result : List Char} {faults : Bool} {previous : Option (List Char)} {s : State}
    (h : Reachable c result faults previous s) : Good c result faults previous s := by
  induction h with
  | init => rfl
  | step _ hs ih =>
    cases hs with
    | createFails => intro _; exact .inl ih
    | create => exact ⟨[], rfl, fun _ => rfl⟩
    | write =>
      obtain ⟨b, hb, h⟩ := ih
      cases hb
      exact ⟨_, rfl, fun hf => by rw [← h hf]; simp⟩
    | writeFails hf _ =>
      obtain ⟨b, hb, h⟩ := ih
      exact ⟨_, rfl, fun hf' => by rw [hf] at hf'; cases hf'⟩
    | stubDone =>
      obtain ⟨b, hb, h⟩ := ih
      exact ⟨b, hb, fun hf => by rw [← h hf]; simp⟩
    | mainFails =>
      obtain ⟨b, hb, h⟩ := ih
      intro hf
      exact .inr (by rw [← h hf]; exact hb)
    | mainDone => exact ih
    | openFails =>
      obtain ⟨b, hb, h⟩ := ih
      intro hf
      exact .inr (by rw [← h hf]; exact hb)
    | openFile => exact ⟨[], rfl, rfl⟩
    | writeSome =>
      obtain ⟨b, hb, h⟩ := ih
      cases hb
      exact ⟨_, rfl, by rw [← h]; simp⟩
    | resultFails hf => intro hf'; rw [hf] at hf'; cases hf'
    | resultDone =>
      obtain ⟨b, hb, h⟩ := ih
      show _ = _
      rw [hb, ← h]; simp

/-- Whenever the pipeline returns without an error the file holds the complete result, even if writes of the stub failed. -/
theorem success_complete (c : Config) (result : List Char) (faults : Bool) (previous file : Option (List Char))
    (h : Reachable c result faults previous ⟨file, .done true⟩) : file = some result := good h

/-- Whenever the pipeline returns (no crash) and no write failed, the file holds its previous content, the stub or the
complete result.  Missing for the property: crashes and failing writes, for which it is false (`half_written`). -/
theorem returned_whole_partial (c : Config) (result : List Char) (previous file : Option (List Char)) (ok : Bool)
    (h : Reachable c result false previous ⟨file, .done ok⟩) :
    file = previous ∨ file = some (stub c) ∨ file = some result := by
  have := good h
  cases ok with
  | true => exact .inr (.inr this)
  | false =>
    rcases this rfl with h | h
    · exact .inl h
    · exact .inr (.inl h)

/-- Between its steps the pipeline leaves parts: without a crash inside of the two writing phases, the file is whole. -/
theorem between_writes_whole_partial (c : Config) (result : List Char) (previous file : Option (List Char)) (pc : Pc)
    (h : Reachable c result false previous ⟨file, pc⟩) (h1 : ∀ ws, pc ≠ .stub ws) (h2 : ∀ r, pc ≠ .writing r) :
    file = previous ∨ file = some (stub c) ∨ file = some result := by
  have hg := good h
  cases pc with
  | start => exact .inl hg
  | stub ws => exact absurd rfl (h1 ws)
  | main => obtain ⟨b, hb, h⟩ := hg; rw [h rfl] at hb; exact .inr (.inl hb)
  | ready => obtain ⟨b, hb, h⟩ := hg; rw [h rfl] at hb; exact .inr (.inl hb)
  | writing r => exact absurd rfl (h2 r)
  | done ok => exact returned_whole_partial c result previous file ok h

theorem stub_writes_reach {c : Config} {result : List Char} {faults : Bool} {previous : Option (List Char)} :
    ∀ (ws : List (List Char)) (b : List Char), Reachable c result faults previous ⟨some b, .stub ws⟩ →
      Reachable c result faults previous ⟨some (b ++ ws.flatten), .main⟩
  | [], b, h => by simpa using h.step .stubDone
  | w :: ws, b, h => by simpa using stub_writes_reach ws (b ++ w) (h.step .write)

theorem result_reach {c : Config} {result : List Char} {faults : Bool} {previous : Option (List Char)} :
    ∀ (p rest b : List Char), Reachable c result faults previous ⟨some b, .writing (p ++ rest)⟩ →
      Reachable c result faults previous ⟨some (b ++ p), .writing rest⟩
  | [], rest, b, h => by simpa using h
  | x :: p, rest, b, h => by simpa using result_reach p rest (b ++ [x]) (h.step .writeSome)

/-- The property fails: a crash may leave any part of the result, whatever the file was before. -/
theorem half_written (c : Config) (result p : List Char) (previous : Option (List Char)) (hp : p <+: result) :
    ∃ pc, Reachable c result false previous ⟨some p, pc⟩ := by
  obtain ⟨rest, rfl⟩ := hp
  have h1 : Reachable c (p ++ rest) false previous ⟨some [], .stub (stubWrites c)⟩ := Reachable.init.step .create
  have h2 := (stub_writes_reach _ _ h1).step .mainDone
  exact ⟨_, by simpa using result_reach p rest [] (h2.step .openFile)⟩

/-- A concrete case: the empty file is neither the previous content nor the stub nor the result. -/
example : ∃ pc, Reachable ⟨['p'], ['T'], false, []⟩ ['x', 'y'] false (some ['z']) ⟨some [], pc⟩ ∧
    some ([] : List Char) ≠ some ['z'] ∧ ([] : List Char) ≠ stub ⟨['p'], ['T'], false, []⟩ ∧ ([] : List Char) ≠ ['x', 'y'] := by
  obtain ⟨pc, h⟩ := half_written ⟨['p'], ['T'], false, []⟩ ['x', 'y'] [] (some ['z']) (by simp)
  exact ⟨pc, h, by simp, by decide +kernel, by simp⟩

/-- A failed generation loses the previous content: the file holds the stub afterwards. -/
theorem failure_loses_previous (c : Config) (result : List Char) (previous : Option (List Char)) :
    Reachable c result false previous ⟨some (stub c), .done false⟩ := by
  have h1 : Reachable c result false previous ⟨some [], .stub (stubWrites c)⟩ := Reachable.init.step .create
  have h2 := (stub_writes_reach _ _ h1).step .mainFails
  simpa [stub] using h2

/-- A complete run exists. -/
example (c : Config) (result : List Char) (previous : Option (List Char)) :
    Reachable c result false previous ⟨some result, .done true⟩ := by
  have h1 : Reachable c result false previous ⟨some [], .stub (stubWrites c)⟩ := Reachable.init.step .create
  have h2 := (stub_writes_reach _ _ h1).step .mainDone
  have h3 := result_reach result [] [] (by simpa using h2.step .openFile)
  simpa using h3.step .resultDone

/-- With a failing write of the stub (whose error is ignored) the file may hold a damaged stub when the pipeline returns. -/
theorem damaged_stub (c : Config) (result : List Char) (previous : Option (List Char)) :
    Reachable c result true previous ⟨some [], .done false⟩ := by
  have h1 : Reachable c result true previous ⟨some [], .stub (stubWrites c)⟩ := Reachable.init.step .create
  have key : ∀ ws, Reachable c result true previous ⟨some [], .stub ws⟩ → Reachable c result true previous ⟨some [], .main⟩ := by
    intro ws
    induction ws with
    | nil => intro h; exact h.step .stubDone
    | cons w ws ih => intro h; exact ih (by simpa using h.step (.writeFails rfl (List.nil_prefix (l := w))))
  exact (key _ h1).step .mainFails

end Verif.Props.Bootstrap
