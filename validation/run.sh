#!/bin/sh
# Runs the model on the inputs of /repo/tests and compares it with the expected files there (about two minutes).
set -e
here=$(cd "$(dirname "$0")" && pwd)
mkdir -p /tmp/victor-validation
python3 "$here/breaks.py" > /tmp/victor-validation/breaks.txt
cp "$here/model.lean.txt" /tmp/victor-validation/model.lean
(cd "$here/../lean" && lake env lean /tmp/victor-validation/model.lean)
python3 "$here/compare.py" /tmp/victor-validation/plain.pdf /repo/tests/alice.pdf
python3 "$here/reftests.py"
cp "$here/single.lean.txt" /tmp/victor-validation/single.lean
(cd "$here/../lean" && lake env lean --run /tmp/victor-validation/single.lean)
