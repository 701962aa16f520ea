#!/bin/sh
# regenerate everything derived, build, commit, check
set -e
cd /verif/lean
find Verif -name '*.lean' | sort | sed 's/\.lean$//; s#/#.#g; s/^/import /' > Verif.lean
lake build 2>&1 | grep -v "^✔\|^ℹ" | tail -20
cd ..
python3 tools/mkmanifest.py
python3 tools/axioms.py
git add -A
git commit -qm "$1"
vcheck
