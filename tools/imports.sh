#!/bin/sh
# Regenerate lean/Verif.lean: one import per module under lean/Verif.
cd "$(dirname "$0")/../lean" || exit 1
find Verif -name '*.lean' | sort | sed 's#/#.#g; s#\.lean$##; s#^#import #' > Verif.lean
