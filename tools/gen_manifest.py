"""Regenerates MANIFEST.json: theorem names are collected from lean/Verif/Props by property prefix."""
import json, re, glob, os
root = os.path.dirname(os.path.dirname(os.path.abspath(__file__)))
notes = json.load(open(os.path.join(root, "tools", "manifest_notes.json")))
thms = {}
for f in sorted(glob.glob(os.path.join(root, "lean/Verif/Props/**/*.lean"), recursive=True)):
    s = open(f).read()
    s = re.sub(r"/-.*?-/", "", s, flags=re.S)
    for m in re.finditer(r"^theorem (C\d\d+)_(\S+)", s, re.M):
        thms.setdefault(m.group(1), []).append("TS.%s_%s" % (m.group(1), m.group(2)))
claims = []
for line in open(os.path.join(root, "properties.jsonl")):
    p = json.loads(line)["id"]
    ts = thms.get(p, [])
    n = notes.get(p, {})
    if not ts and n.get("status") != "not_applicable":
        continue
    status = n.get("status") or ("partial" if any(t.endswith("_partial") for t in ts) else "proved")
    claims.append({"property": p, "status": status, "theorems": ts, "note": n.get("note", "")})
json.dump({"claims": claims}, open(os.path.join(root, "MANIFEST.json"), "w"), indent=1)
print({c["property"]: (c["status"], len(c["theorems"])) for c in claims})
