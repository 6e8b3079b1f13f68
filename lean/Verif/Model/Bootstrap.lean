/-!
Model of generator/bootstrap/generator.go `Generate`: what happens to the output file, at every point of the pipeline.

A file is the list of its characters, `none` is a file that does not exist.  The steps are those of the pipeline that touch
the output file, and one step for everything else (`generateMain`, the temporary file, `go run`, formatting), which either
fails or gives the formatted code.  A crash may happen between any two steps: a property that is to hold in spite of crashes
is a property of all reachable states.  Not modelled: two pipelines running at the same time, and whether written data
survives a crash of the operating system.
-/

namespace Verif.Bootstrap

/-- bootstrap/generator.go:17-33: the settings used for the stub. -/
structure Config where
  pkgName : List Char
  type : List Char
  encodePointerReceiver : Bool
  buildTags : List Char

/-- `fmt.Fprintln`: operands separated by spaces, and a newline. -/
def fprintln (operands : List (List Char)) : List Char :=
  (operands.intersperse [' ']).flatten ++ ['\n']

/-- bootstrap/generator.go:42-62: the writes of `generateStub`. -/
def stubWrites (c : Config) : List (List Char) :=
  (if c.buildTags ≠ [] then [fprintln ["// +build ".toList, c.buildTags], fprintln []] else []) ++
  [ fprintln ["// TEMPORARY AUTOGENERATED FILE: yamly stub code to compile the generator".toList],
    fprintln [],
    fprintln ["package ".toList, c.pkgName],
    fprintln [],
    fprintln ["func (".toList, if c.encodePointerReceiver then '*' :: c.type else c.type,
      ") MarshalYAML() ([]byte, error) { return nil, nil }".toList],
    fprintln ["func (*".toList, c.type, ") UnmarshalYAML([]byte) error { return nil }".toList],
    fprintln [],
    fprintln ["type Exporter_yamly_".toList ++ c.type ++ " *".toList ++ c.type] ]

/-- The complete stub. -/
def stub (c : Config) : List Char := (stubWrites c).flatten

/-- Where the pipeline is. -/
inductive Pc where
  /-- before `os.Create` of the output file, bootstrap/generator.go:36 -/
  | start
  /-- in `generateStub`, with these writes to come -/
  | stub (writes : List (List Char))
  /-- after `generateStub`: bootstrap/generator.go:125-156 -/
  | main
  /-- before `os.WriteFile`, bootstrap/generator.go:157 -/
  | ready
  /-- in `os.WriteFile`: the file is truncated, this is still to be written -/
  | writing (rest : List Char)
  /-- `Generate` has returned, without (`true`) or with (`false`) an error -/
  | done (ok : Bool)

structure State where
  file : Option (List Char)
  pc : Pc

/-- Steps.  `faults` allows writes to fail (a full disk, ...): errors of `fmt.Fprintln` are ignored by `generateStub`,
`os.WriteFile` returns them. -/
inductive Step (c : Config) (result : List Char) (faults : Bool) : State → State → Prop
  /-- bootstrap/generator.go:36-39 -/
  | createFails {f} : Step c result faults ⟨f, .start⟩ ⟨f, .done false⟩
  | create {f} : Step c result faults ⟨f, .start⟩ ⟨some [], .stub (stubWrites c)⟩
  /-- bootstrap/generator.go:42-62 -/
  | write {b w ws} : Step c result faults ⟨some b, .stub (w :: ws)⟩ ⟨some (b ++ w), .stub ws⟩
  | writeFails {b w ws p} : faults = true → p <+: w → Step c result faults ⟨some b, .stub (w :: ws)⟩ ⟨some (b ++ p), .stub ws⟩
  | stubDone {f} : Step c result faults ⟨f, .stub []⟩ ⟨f, .main⟩
  /-- bootstrap/generator.go:125-156: one of the other actions fails -/
  | mainFails {f} : Step c result faults ⟨f, .main⟩ ⟨f, .done false⟩
  | mainDone {f} : Step c result faults ⟨f, .main⟩ ⟨f, .ready⟩
  /-- bootstrap/generator.go:157: `os.WriteFile` opens the file, truncating it, and writes -/
  | openFails {f} : Step c result faults ⟨f, .ready⟩ ⟨f, .done false⟩
  | openFile {f} : Step c result faults ⟨f, .ready⟩ ⟨some [], .writing result⟩
  | writeSome {b x rest} : Step c result faults ⟨some b, .writing (x :: rest)⟩ ⟨some (b ++ [x]), .writing rest⟩
  | resultFails {f rest} : faults = true → Step c result faults ⟨f, .writing rest⟩ ⟨f, .done false⟩
  | resultDone {f} : Step c result faults ⟨f, .writing []⟩ ⟨f, .done true⟩

/-- Every execution of the pipeline, up to any point. -/
inductive Reachable (c : Config) (result : List Char) (faults : Bool) (previous : Option (List Char)) : State → Prop
  | init : Reachable c result faults previous ⟨previous, .start⟩
  | step {s s'} : Reachable c result faults previous s → Step c result faults s s' → Reachable c result faults previous s'

end Verif.Bootstrap
