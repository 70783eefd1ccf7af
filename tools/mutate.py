"""Seeded wrong programs.  Usage: mutate.py BATCH.py  (BATCH defines MUTS, a list of
(file under lean/Verif, old, new, definition, claim it breaks)).  Works in /tmp/mut/lean (a copy of
/verif/lean) and appends one JSON line per attempt to /verif/seeded/LOG.jsonl."""
import json, re, subprocess, sys, runpy, os, shutil
ROOT = "/tmp/mut/lean"
SRC = os.environ.get("MUTSRC", "/verif/lean")
DECL = re.compile(r"^\s*(?:@\[[^\]]*\]\s*)?(?:private |protected |noncomputable )*(theorem|lemma|example|def|instance|abbrev)\s*(\S*)")

def enclosing(path, line):
    ls = open(path).read().split("\n")
    for i in range(min(line, len(ls)) - 1, -1, -1):
        m = DECL.match(ls[i])
        if m:
            return m.group(2) if m.group(1) != "example" else "example@%d" % (i + 1)
    return "?"

def sync():
    for d, _, fs in os.walk(SRC + "/Verif"):
        for f in fs:
            a = os.path.join(d, f); b = ROOT + a[len(SRC):]
            os.makedirs(os.path.dirname(b), exist_ok=True)
            t = open(a).read()
            if not os.path.exists(b) or open(b).read() != t:
                open(b, "w").write(t)
    for d, _, fs in os.walk(ROOT + "/Verif"):
        for f in fs:
            b = os.path.join(d, f)
            if not os.path.exists(SRC + b[len(ROOT):]): os.remove(b)
    shutil.copy(SRC + "/Verif.lean", ROOT + "/Verif.lean")

def build(first=None):
    # the theorems about the edited module first; the whole project only if they all still hold
    if first and os.path.exists(f"{ROOT}/Verif/Props/{first}.lean"):
        r = subprocess.run(["lake", "build", f"Verif.Props.{first}"], cwd=ROOT, capture_output=True, text=True)
        if r.returncode or os.environ.get("FAST"): return r.stdout + r.stderr   # FAST: survivors are looked at by hand
    r = subprocess.run(["lake", "build"], cwd=ROOT, capture_output=True, text=True)
    return r.stdout + r.stderr

def main(batch):
    muts = runpy.run_path(batch)["MUTS"]
    for (f, old, new, d, claim) in muts:
        sync()
        p = f"{ROOT}/Verif/{f}"
        s = open(p).read()
        if s.count(old) < 1:
            print("NOT FOUND", f, old); continue
        s2 = s.replace(old, new, 1)
        open(p, "w").write(s2)
        out = build(os.path.basename(f)[:-5])
        failed, blocked = [], []
        for m in re.finditer(r"error: (?:\./)?(Verif/\S+\.lean):(\d+):", out):
            n = enclosing(f"{ROOT}/{m.group(1)}", int(m.group(2)))
            k = f"{m.group(1)[6:-5].replace('/', '.')}:{n}"
            if k not in failed: failed.append(k)
        for m in re.finditer(r"- (Verif\.\S+)", out):
            blocked.append(m.group(1))
        rec = {"definition": d, "edit": f"{f}: replace `{old}` by `{new}`", "claim_broken": claim,
               "theorems_failed": failed, "theorems_tightened": []}
        if not failed:
            rec["survived"] = True
        print(("SURVIVED " if not failed else "killed   "), d, "|", claim, "|", failed[:6], flush=True)
        with open("/tmp/mut/new.jsonl", "a") as g:
            g.write(json.dumps(rec) + "\n")
        if failed and os.environ.get("LOG", "1") == "1":
            with open("/verif/seeded/LOG.jsonl", "a") as g:
                g.write(json.dumps(rec) + "\n")
    sync()

main(sys.argv[1])
