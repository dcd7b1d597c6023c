#!/usr/bin/env python3
"""Fill the generated parts of DESIGN.md: the table of the properties (from claims.json and the
texts below) and the table of axioms (`#print axioms` for every claimed theorem)."""
import json, os, re, subprocess
here = os.path.dirname(os.path.abspath(__file__))
root = os.path.join(here, "..")
claims = json.load(open(os.path.join(here, "claims.json")))
props = [json.loads(l) for l in open(os.path.join(root, "properties.jsonl"))]
how = {}
for line in open(os.path.join(here, "how.txt")):
    line = line.strip()
    if line:
        k, v = line.split(" ", 1)
        how[k] = v

# where is each theorem?
where = {}
for d, _, fs in os.walk(os.path.join(root, "lean", "Verif")):
    for f in fs:
        if f.endswith(".lean"):
            for m in re.finditer(r"^(?:private |protected )?theorem (\S+)", open(os.path.join(d, f)).read(), re.M):
                where.setdefault(m.group(1).split(".")[-1], os.path.relpath(os.path.join(d, f), os.path.join(root, "lean", "Verif")))

out = []
for p in props:
    c = claims.get(p["id"])
    if not c:
        out.append(f"* **{p['id']} {p['title']}** — open.")
        continue
    files = sorted({where.get(t.split(".")[-1], "?") for t in c["theorems"]})
    out.append(f"* **{p['id']} {p['title']}** — {c['status']} ({', '.join('`'+f+'`' for f in files)}). "
               + how.get(p["id"], "") + (" *Status:* " + c["note"] if c["note"] else ""))

names = []
for p in props:
    for t in claims.get(p["id"], {}).get("theorems", []):
        if t not in names:
            names.append(t)
src = "import Verif\n" + "".join(f"#print axioms {n}\n" for n in names)
tmp = "/tmp/axioms_check.lean"
open(tmp, "w").write(src)
r = subprocess.run(["lake", "env", "lean", tmp], cwd=os.path.join(root, "lean"), capture_output=True, text=True)
text = r.stdout.replace("\n  ", " ")
ax = {}
for m in re.finditer(r"'([^']+)' depends on axioms: \[([^\]]*)\]", text):
    ax[m.group(1)] = ", ".join(x.strip() for x in m.group(2).split(","))
for m in re.finditer(r"'([^']+)' does not depend on any axioms", text):
    ax[m.group(1)] = "none"
missing = [n for n in names if n not in ax]
assert not missing, (missing, r.stdout[:2000], r.stderr[:2000])
groups = {}
for n in names:
    groups.setdefault(ax[n], []).append(n)
axt = []
for k in sorted(groups, key=len):
    axt.append(f"* {k}: " + ", ".join("`" + n.replace("HyperIR.", "") + "`" for n in groups[k]))

path = os.path.join(root, "DESIGN.md")
s = open(path).read()
def fill(s, tag, body):
    a, b = f"<!-- begin {tag} -->", f"<!-- end {tag} -->"
    i, j = s.index(a) + len(a), s.index(b)
    return s[:i] + "\n" + body + "\n" + s[j:]
s = fill(s, "properties", "\n".join(out))
s = fill(s, "axioms", "\n".join(axt))
open(path, "w").write(s)
