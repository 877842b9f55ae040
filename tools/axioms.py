"""Writes AXIOMS.txt: for every theorem named in MANIFEST.json the axioms it depends on (needs a finished build)."""
import json, os, re, subprocess, tempfile
root = os.path.dirname(os.path.dirname(os.path.abspath(__file__)))
names = [t for c in json.load(open(root + "/MANIFEST.json"))["claims"] for t in c["theorems"]]
with tempfile.NamedTemporaryFile("w", suffix=".lean", delete=False) as f:
    f.write("import Verif\n" + "".join("#print axioms %s\n" % n for n in names))
out = subprocess.run(["lake", "env", "lean", f.name], cwd=root + "/lean", capture_output=True, text=True).stdout
os.unlink(f.name)
out = re.sub(r",\s*\n\s*", ", ", out)
lines = [re.sub(r"^.*info: ", "", l) for l in out.splitlines() if l.startswith("'") or "'" in l]
open(root + "/AXIOMS.txt", "w").write("\n".join(lines) + "\n")
ax = sorted({a.strip() for l in lines for m in [re.search(r"\[(.*)\]", l)] if m for a in m.group(1).split(",")})
print(len(lines), "theorems of", len(names), ax)
