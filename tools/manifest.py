"""Writes MANIFEST.json and the axiom table of DESIGN.md from the sources.

Status and note per claim are in tools/status.json.  Theorem names are found by their prefix in
lean/Verif/Props.  Run after a successful `lake build`.
"""
import json, re, subprocess, pathlib

root = pathlib.Path(__file__).resolve().parent.parent
names = {}
for f in sorted((root / "lean/Verif/Props").glob("*.lean")):
    for m in re.finditer(r"^theorem (C\d\d+_\w+)", f.read_text(), re.M):
        names.setdefault(m.group(1).split("_")[0], []).append(m.group(1))
ids = [json.loads(l)["id"] for l in (root / "properties.jsonl").read_text().splitlines() if l.strip()]
status = json.loads((root / "tools/status.json").read_text())
claims = []
for i in ids:
    if i in status:
        claims.append({"property": i, "status": status[i][0],
                       "theorems": ["Modred." + n for n in names.get(i, [])], "note": status[i][1]})
    elif i in names:
        print("no status for", i)
    else:
        print("open:", i)
(root / "MANIFEST.json").write_text(json.dumps({"claims": claims}, indent=1) + "\n")

allnames = [n for i in ids for n in names.get(i, [])]
src = "import Verif\n" + "".join(f"#print axioms Modred.{n}\n" for n in allnames)
tmp = pathlib.Path("/tmp/axioms_check.lean")
tmp.write_text(src)
out = subprocess.run(["lake", "env", "lean", str(tmp)], cwd=root / "lean", capture_output=True, text=True).stdout
out = re.sub(r"\n\s+", " ", out)
rows = []
for n in allnames:
    m = re.search(rf"'Modred\.{n}' (depends on axioms: \[(.*?)\]|does not depend on any axioms)", out)
    if not m:
        print("no axiom output for", n)
        continue
    rows.append((n, m.group(2) or "none"))
    if m.group(2) and set(a.strip() for a in m.group(2).split(",")) - {"propext", "Classical.choice", "Quot.sound"}:
        print("BAD AXIOM", n, m.group(2))
groups = {}
for n, a in rows:
    groups.setdefault(a, []).append(n)
table = "| Theorem | Axioms |\n|---|---|\n" + "".join(f"| `{n}` | {a} |\n" for n, a in rows)
d = root / "DESIGN.md"
s = d.read_text()
b, e = "<!-- axioms begin -->", "<!-- axioms end -->"
if b not in s:
    s += f"\n## Axioms per theorem\n\n{b}\n{e}\n"
s = s[: s.index(b)] + b + "\n" + table + s[s.index(e):]
d.write_text(s)
print(len(allnames), "theorems,", len(claims), "claims")
