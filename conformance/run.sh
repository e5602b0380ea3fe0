#!/bin/bash
# Runs the Lean model on the repository's own test inputs and compares with the recorded outputs.
# A sanity test of the model's fidelity; no proof depends on it.
cd "$(dirname "$0")/../lean" && lake build Verif.Conform >/dev/null || exit 1
args=()
for f in $(cd /repo/tests/out && find . -name '*.ron' | sort); do
  args+=(unchecked "/repo/tests/dbml/${f%.ron}.dbml" "/repo/tests/out/$f")
done
for f in /repo/tests/dbml/checked/*.dbml /repo/tests/dbml/validator/*.dbml; do args+=(checked "$f"); done
lake env lean --run Verif/Conform.lean "${args[@]}"
