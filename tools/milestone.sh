#!/bin/sh
# Regenerate the derived files, build, commit and check. Usage: tools/milestone.sh "message"
cd /verif; python3 tools/gen_properties.py >/dev/null; python3 tools/gen_root.py; cd lean; lake build 2>&1 | grep -A8 '^error' | head -40; cd ..
python3 tools/gen_manifest.py; python3 tools/gen_axioms.py; git add -A; git commit -qm "$1"; vcheck | tail -${2:-12}
