"""Print the axioms of every theorem in MANIFEST.json (run in /verif/lean after `lake build`)."""
import json, subprocess, re, glob
names = [t for c in json.load(open("/verif/MANIFEST.json"))["claims"] for t in c["theorems"]]
src = "import Verif\n" + "".join("#print axioms %s\n" % n for n in names)
open("/tmp/axioms_check.lean", "w").write(src)
r = subprocess.run(["lake", "env", "lean", "/tmp/axioms_check.lean"], cwd="/verif/lean", capture_output=True, text=True)
ax = set()
for m in re.finditer(r"depends on axioms: \[(.*?)\]", r.stdout, re.S):
    ax |= set(x.strip() for x in m.group(1).split(","))
print(len(names), "theorems; axioms used:", sorted(ax), "errors:", r.stdout.count("error:"))
