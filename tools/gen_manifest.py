# Collects the theorems named Cnn_* in lean/Verif/Props and writes ../MANIFEST.json.
import json, os, re, glob
root = os.path.join(os.path.dirname(os.path.abspath(__file__)), "..")
exec(open(os.path.join(root, "tools", "status.py")).read())   # STATUS: id -> (status, note)
thms = {}
for f in sorted(glob.glob(os.path.join(root, "lean", "Verif", "Props", "*.lean"))):
    for line in open(f):
        m = re.match(r"theorem (C\d+)_(\w+'*)", line)
        if m: thms.setdefault(m.group(1), []).append("Pgp.Props.%s_%s" % (m.group(1), m.group(2)))
claims = []
for line in open(os.path.join(root, "properties.jsonl")):
    pid = json.loads(line)["id"]
    st, note = STATUS.get(pid, ("partial", ""))
    if pid not in thms and st != "not_applicable":
        print("no theorem for", pid); continue
    claims.append(dict(property=pid, status=st, theorems=thms.get(pid, []), note=note))
json.dump(dict(claims=claims), open(os.path.join(root, "MANIFEST.json"), "w"), indent=1, ensure_ascii=False)
print(len(claims), "claims", sum(len(c["theorems"]) for c in claims), "theorems")
