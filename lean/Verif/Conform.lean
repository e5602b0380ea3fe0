import Verif.Model.Analyzer
import Verif.Model.Debug

/-!
# Conformance check of the model against the repository's recorded outputs (a test, not a proof)

Runs the model on `/repo/tests/dbml/*.dbml` and compares the `{:#?}` text that it gives (`Verif/Model/Debug.lean`)
with `/repo/tests/out/*.ron` (see `/verif/conformance/run.sh`). Nothing in the proofs depends on this file.
-/

namespace Dbml.Conform

/-- The characters of the recorded outputs that are shown as they are. -/
instance : Charset := ⟨fun c => decide (c.toNat ≠ 0xfe0f)⟩

/-- One-line summary of an outcome. -/
def outcome {α} : Rs α → String
  | .ok _ => "ok"
  | .err e => s!"err {repr e}"
  | .panic s => s!"panic {repr s}"
  | .diverge => "diverge"

/-- `unchecked in.dbml expected.ron ...`, `checked in.dbml ...` -/
def run : List String → IO Unit
  | "unchecked" :: inp :: ron :: rest => do
    let text ← IO.FS.readFile inp
    let got := match parseDbmlUnchecked text.toList with
      | .ok s => String.ofList s.debug
      | r => outcome r
    let want ← IO.FS.readFile ron
    IO.println s!"{if got = want then "same     " else "DIFFERENT"} {inp}"
    if got ≠ want then IO.FS.writeFile "/tmp/got.ron" got
    run rest
  | "checked" :: inp :: rest => do
    let text ← IO.FS.readFile inp
    IO.println s!"{inp}: {outcome (parseDbml text.toList)}"
    run rest
  | _ => return ()

end Dbml.Conform

def main (args : List String) : IO Unit := Dbml.Conform.run args
