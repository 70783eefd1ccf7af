"""Compose /verif/DESIGN.md."""
import json, re, glob, os
from design_parts import HEAD, METHOD, NOT_MODELLED, BUGS
V = "/verif/"
props = [json.loads(l) for l in open(V+"properties.jsonl")]
man = {c["property"]: c for c in json.load(open(V+"MANIFEST.json"))["claims"]}
where = {}
for f in sorted(glob.glob(V+"lean/Verif/Props/*.lean")):
    for m in re.finditer(r"^theorem (C\d+)_", open(f).read(), re.M):
        where.setdefault(m.group(1), []).append(os.path.basename(f)[:-5]) if os.path.basename(f)[:-5] not in where.get(m.group(1), []) else None
out = [HEAD, "## By property: what is modelled, how it is proved\n\n| id | title | model and method | proved in | status |\n|---|---|---|---|---|\n"]
for p in sorted(props, key=lambda p: int(p["id"][1:])):
    i = p["id"]; c = man.get(i)
    st = "not stated" if c is None else c["status"]
    note = "" if c is None or c["status"] == "proved" else ": " + c.get("note", "")
    out.append("| %s | %s | %s | %s | %s |\n" % (i, p["title"], METHOD[i].replace("|", "\\|"), ", ".join("`%s`" % w for w in where.get(i, [])), (st + note).replace("|", "\\|")))
out.append("\n## Model files: what each covers and how it simplifies\n\nThe text of each entry is the header of the model file.\n\n")
for f in sorted(glob.glob(V+"lean/Verif/Model/*.lean")):
    m = re.search(r"/-!(.*?)-/", open(f).read(), re.S)
    t = re.sub(r"\s+", " ", m.group(1).strip().lstrip("#").strip())
    out.append("* `Model/%s`: %s\n" % (os.path.basename(f), t))
out.append("\n## Parts of the code that are not modelled\n\n" + NOT_MODELLED)
out.append("\n## Discrepancies found between the code and its documentation or evident intent\n\nEach is proved in the theorem named (a refutation), unless marked \"not modelled\".\n\n")
for k, b in enumerate(BUGS, 1):
    out.append("%d. %s\n" % (k, b))
open(V+"DESIGN.md", "w").write("".join(out))
