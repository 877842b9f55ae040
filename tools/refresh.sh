#!/bin/sh
# Regenerate the import list and the manifest.
cd "$(dirname "$0")/.."
(cd lean && find Verif -name '*.lean' | sort | sed 's/\.lean$//; s#/#.#g; s/^/import /' > Verif.lean)
python3 tools/gen_manifest.py
