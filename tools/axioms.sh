#!/bin/bash
# Writes AXIOMS.md: the axioms each manifest theorem depends on.
cd "$(dirname "$0")/.." || exit 1
tmp=$(mktemp -d)
{ echo "import Verif"; python3 -c "
import json
for c in json.load(open('MANIFEST.json'))['claims']:
    for t in c['theorems']: print('#print axioms', t)"; } > $tmp/ax.lean
(cd lean && lake build >/dev/null && lake env lean $tmp/ax.lean) > $tmp/out
{ echo "# Axioms per theorem (generated by tools/axioms.sh)"; echo; sed "s/^'\(.*\)' depends on axioms: /* \`\1\`: /; s/^'\(.*\)' does not depend on any axioms/* \`\1\`: none/" $tmp/out; } > AXIOMS.md
grep -v "propext\|Classical.choice\|Quot.sound\|none\|^#\|^$" AXIOMS.md
wc -l AXIOMS.md
