#!/usr/bin/env python3
"""Regenerate lean/Verif/Audit.lean and the property table of DESIGN.md from MANIFEST.json."""
import json, os, re
root = os.path.dirname(os.path.dirname(os.path.abspath(__file__)))
claims = json.load(open(f"{root}/MANIFEST.json"))["claims"]
props = [json.loads(l) for l in open(f"{root}/properties.jsonl") if l.strip()]
imports = [l.strip() for l in open(f"{root}/lean/Verif.lean") if l.startswith("import Verif.Props.")]
byid = {c["property"]: c for c in claims}
with open(f"{root}/lean/Verif/Audit.lean", "w") as f:
    f.write("\n".join(imports) + "\n\n")
    f.write("/-! The axioms every claimed theorem depends on. Generated by tools/audit.py from MANIFEST.json. -/\n")
    seen = set()
    for p in props:
        c = byid.get(p["id"])
        if not c: continue
        f.write(f"\n-- {p['id']} ({c['status']}): {p['title']}\n")
        for t in c["theorems"]:
            if t not in seen:
                f.write(f"#print axioms {t}\n"); seen.add(t)
# where each theorem lives
where = {}
for fn in sorted(os.listdir(f"{root}/lean/Verif/Props")):
    src = open(f"{root}/lean/Verif/Props/{fn}").read()
    for m in re.finditer(r"^theorem\s+([\w.']+)", src, re.M):
        where.setdefault(m.group(1).split(".")[-1], []).append(fn[:-5])
rows = ["| id | property | status | theorems (module under `Verif/Props`) | note |", "|---|---|---|---|---|"]
for p in props:
    c = byid.get(p["id"], {"status": "open", "theorems": [], "note": ""})
    mods = {}
    for t in c["theorems"]:
        s = t.split(".")[-1]
        mods.setdefault("/".join(sorted(set(where.get(s, ["?"])))), []).append(f"`{s}`")
    th = "; ".join(f"{m}: " + ", ".join(ts) for m, ts in mods.items())
    note = c.get("note", "").replace("|", "\\|")
    rows.append(f"| {p['id']} | {p['title']} | {c['status']} | {th} | {note} |")
d = open(f"{root}/DESIGN.md").read()
a, b = "<!-- table start -->", "<!-- table end -->"
d = d[:d.index(a) + len(a)] + "\n" + "\n".join(rows) + "\n" + d[d.index(b):]
open(f"{root}/DESIGN.md", "w").write(d)
