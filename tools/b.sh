#!/bin/bash
# Regenerate Verif.lean from the module files and build.
cd /verif/lean
find Verif -name '*.lean' | sort | sed 's#/#.#g; s#\.lean$##; s#^#import #' > Verif.lean
lake build "$@" 2>&1 | grep -v '^trace' | grep -v '^✔' | cut -c1-400 | head -${LINES_MAX:-100}
